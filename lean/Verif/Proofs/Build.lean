import Verif.Model.Build
import Verif.Spec.Denotation
import Verif.Proofs.Exec

namespace Verif
variable {T V : Type}

/-- `n'` is the same function as `n`: only types of input nodes and recorded edges may differ. -/
structure SameFn (n n' : Node T V) : Prop where
  name : n'.name = n.name
  kind : n'.kind = n.kind
  inputTypes : n'.inputTypes = n.inputTypes
  fn : n'.fn = n.fn
  typ : n.kind ≠ .external → n'.typ = n.typ

theorem SameFn.refl (n : Node T V) : SameFn n n := ⟨rfl, rfl, rfl, rfl, fun _ => rfl⟩

theorem SameFn.trans {a b c : Node T V} (h : SameFn a b) (h' : SameFn b c) : SameFn a c :=
  ⟨h'.name.trans h.name, h'.kind.trans h.kind, h'.inputTypes.trans h.inputTypes, h'.fn.trans h.fn,
    fun hk => (h'.typ (by rw [h.kind]; exact hk)).trans (h.typ hk)⟩

/-- Effect of adding the edge `f → p` on the entry of `k`. -/
def EdgeUpd (f p k : Name) : Option (Node T V) → Option (Node T V) → Prop
  | some n, some n' => SameFn n n' ∧
      n'.dependencies = n.dependencies ++ (if k = f then [p] else []) ∧
      n'.dependedOnBy = n.dependedOnBy ++ (if k = p then [f] else [])
  | none, some n' => k = p ∧ n'.name = k ∧ n'.kind = .external ∧ n'.inputTypes = [] ∧
      n'.dependencies = [] ∧ n'.dependedOnBy = [f]
  | none, none => k ≠ p
  | some _, none => False

theorem addEdge_spec {g g' : Graph T V} {f p : Name} (h : addEdge g f p = .ok g') :
    (∃ n, g.get? f = some n) ∧ (g.keys.Nodup → g'.keys.Nodup) ∧
    ∀ k, (g.get? k).map (fun n => { n with
        dependencies := n.dependencies ++ (if k = f then [p] else [])
        dependedOnBy := n.dependedOnBy ++ (if k = p then [f] else []) }) = g'.get? k := by
  unfold addEdge at h
  split at h
  · cases h
  · rename_i fn hf
    simp only at h
    split at h
    · cases h
    · rename_i r hr
      cases h
      refine ⟨⟨fn, hf⟩, fun hn => Dict.keys_set_nodup (Dict.keys_set_nodup hn _ _) _ _, fun k => ?_⟩
      rw [Dict.get?_set, Dict.get?_set]
      rw [Dict.get?_set] at hr
      by_cases hp : p = k
      · subst hp
        by_cases hfp : f = p
        · subst hfp
          simp only [if_true] at hr ⊢
          cases hr
          simp [hf]
        · simp only [hfp, if_false] at hr
          simp only [if_true, hr, Option.map_some]
          simp [Ne.symm hfp]
      · by_cases hfk : f = k
        · subst hfk; simp [hp, hf, Ne.symm hp]
        · simp only [hp, hfk, if_false]
          cases g.get? k with
          | none => rfl
          | some n => simp [Ne.symm hp, Ne.symm hfk]

theorem addDependency_spec {tm : T → T → Bool} {g g' : Graph T V} {f p : Name} {ty : T}
    (hf : ∃ n, g.get? f = some n)
    (h : addDependency tm g f p ty = .ok g') :
    (g.keys.Nodup → g'.keys.Nodup) ∧ ∀ k, EdgeUpd f p k (g.get? k) (g'.get? k) := by
  unfold addDependency at h
  split at h
  · rename_i r hr
    split at h
    · obtain ⟨_, h2, h3⟩ := addEdge_spec h
      refine ⟨h2, fun k => ?_⟩
      rw [← h3 k]
      cases hk : g.get? k with
      | none =>
        simp only [Option.map_none, EdgeUpd]
        rintro rfl; rw [hk] at hr; cases hr
      | some n => simp only [Option.map_some, EdgeUpd]; exact ⟨⟨rfl, rfl, rfl, rfl, fun _ => rfl⟩, trivial, trivial⟩
    · split at h
      · rename_i hud
        split at h
        · obtain ⟨_, h2, h3⟩ := addEdge_spec h
          refine ⟨fun hn => h2 (Dict.keys_set_nodup hn _ _), fun k => ?_⟩
          rw [← h3 k, Dict.get?_set]
          by_cases hp : p = k
          · subst hp
            simp only [if_true, Option.map_some, hr, EdgeUpd]
            refine ⟨⟨rfl, rfl, rfl, rfl, ?_⟩, trivial, trivial⟩
            intro hne
            exact absurd (by simpa [Node.userDefined] using hud) hne
          · simp only [hp, if_false]
            cases hk : g.get? k with
            | none => simp only [Option.map_none, EdgeUpd]; exact Ne.symm hp
            | some n => simp only [Option.map_some, EdgeUpd]; exact ⟨⟨rfl, rfl, rfl, rfl, fun _ => rfl⟩, trivial, trivial⟩
        · cases h
      · cases h
  · rename_i hr
    obtain ⟨_, h2, h3⟩ := addEdge_spec h
    refine ⟨fun hn => h2 (Dict.keys_set_nodup hn _ _), fun k => ?_⟩
    rw [← h3 k, Dict.get?_set]
    by_cases hp : p = k
    · subst hp
      have hpf : p ≠ f := by
        rintro rfl; obtain ⟨n, hn⟩ := hf; rw [hn] at hr; cases hr
      simp [hr, EdgeUpd, externalNode, hpf]
    · simp only [hp, if_false]
      cases hk : g.get? k with
      | none => simp only [Option.map_none, EdgeUpd]; exact Ne.symm hp
      | some n => simp only [Option.map_some, EdgeUpd]; exact ⟨⟨rfl, rfl, rfl, rfl, fun _ => rfl⟩, trivial, trivial⟩

/-- Invariant of construction: edges `P` were added to the graph `g0`. -/
structure BInv (g0 : Graph T V) (P : List (Name × Name)) (g : Graph T V) : Prop where
  nodup : g.keys.Nodup
  old : ∀ k n0, g0.get? k = some n0 → ∃ n, g.get? k = some n ∧ SameFn n0 n
  new : ∀ k n, g.get? k = some n → g0.get? k = none →
    n.name = k ∧ n.kind = .external ∧ n.inputTypes = [] ∧ ∃ f, (f, k) ∈ P
  deps : ∀ k n, g.get? k = some n → n.dependencies = (P.filter (fun e => decide (e.1 = k))).map (·.2)
  cons : ∀ k n, g.get? k = some n → n.dependedOnBy = (P.filter (fun e => decide (e.2 = k))).map (·.1)
  ins : ∀ e ∈ P, ∃ n, g.get? e.2 = some n

theorem BInv.step {g0 g g' : Graph T V} {P : List (Name × Name)} {tm : T → T → Bool} {f p : Name} {ty : T}
    (h : BInv g0 P g) (hf : ∃ n, g0.get? f = some n) (hP : ∀ e ∈ P, ∃ n, g0.get? e.1 = some n)
    (ha : addDependency tm g f p ty = .ok g') : BInv g0 (P ++ [(f, p)]) g' := by
  have hfg : ∃ n, g.get? f = some n := by
    obtain ⟨n0, hn0⟩ := hf
    obtain ⟨n, hn, _⟩ := h.old f n0 hn0
    exact ⟨n, hn⟩
  obtain ⟨h1, h2⟩ := addDependency_spec hfg ha
  have back : ∀ k n', g'.get? k = some n' →
      (∃ n, g.get? k = some n ∧ SameFn n n' ∧
        n'.dependencies = n.dependencies ++ (if k = f then [p] else []) ∧
        n'.dependedOnBy = n.dependedOnBy ++ (if k = p then [f] else [])) ∨
      (g.get? k = none ∧ k = p ∧ n'.name = k ∧ n'.kind = .external ∧ n'.inputTypes = [] ∧
        n'.dependencies = [] ∧ n'.dependedOnBy = [f]) := by
    intro k n' hk
    have := h2 k
    rw [hk] at this
    cases hg : g.get? k with
    | none => rw [hg] at this; exact .inr ⟨rfl, this⟩
    | some n => rw [hg] at this; exact .inl ⟨n, rfl, this⟩
  have fwd : ∀ k n, g.get? k = some n → ∃ n', g'.get? k = some n' ∧ SameFn n n' := by
    intro k n hk
    have := h2 k
    rw [hk] at this
    cases hg : g'.get? k with
    | none => rw [hg] at this; exact this.elim
    | some n' => rw [hg] at this; exact ⟨n', rfl, this.1⟩
  refine ⟨h1 h.nodup, ?_, ?_, ?_, ?_, ?_⟩
  · intro k n0 hk
    obtain ⟨n, hn, hs⟩ := h.old k n0 hk
    obtain ⟨n', hn', hs'⟩ := fwd k n hn
    exact ⟨n', hn', hs.trans hs'⟩
  · intro k n' hk h0
    rcases back k n' hk with ⟨n, hn, hs, _, _⟩ | ⟨_, rfl, hnm, hkd, hit, _, _⟩
    · obtain ⟨a, b, c, f', d⟩ := h.new k n hn h0
      exact ⟨hs.name.trans a, hs.kind.trans b, hs.inputTypes.trans c, f', by simp [d]⟩
    · exact ⟨hnm, hkd, hit, f, by simp⟩
  · intro k n' hk
    rw [List.filter_append, List.map_append]
    rcases back k n' hk with ⟨n, hn, _, hd, _⟩ | ⟨hg, rfl, _, _, _, hd, _⟩
    · rw [hd, h.deps k n hn]
      congr 1
      by_cases hkf : k = f
      · subst hkf; simp
      · simp [hkf, Ne.symm hkf]
    · rw [hd]
      have hkf : f ≠ k := by
        rintro rfl; obtain ⟨n, hn⟩ := hfg; rw [hn] at hg; cases hg
      have : P.filter (fun e => decide (e.1 = k)) = [] := by
        rw [List.filter_eq_nil_iff]
        intro e he hek
        simp only [decide_eq_true_eq] at hek
        obtain ⟨n0, hn0⟩ := hP e he
        obtain ⟨n, hn, _⟩ := h.old _ _ hn0
        rw [hek, hg] at hn; cases hn
      rw [this]; simp [hkf]
  · intro k n' hk
    rw [List.filter_append, List.map_append]
    rcases back k n' hk with ⟨n, hn, _, _, hd⟩ | ⟨hg, rfl, _, _, _, _, hd⟩
    · rw [hd, h.cons k n hn]
      congr 1
      by_cases hkf : k = p
      · subst hkf; simp
      · simp [hkf, Ne.symm hkf]
    · rw [hd]
      have : P.filter (fun e => decide (e.2 = k)) = [] := by
        rw [List.filter_eq_nil_iff]
        intro e he hek
        simp only [decide_eq_true_eq] at hek
        obtain ⟨n, hn⟩ := h.ins e he
        rw [hek, hg] at hn; cases hn
      rw [this]; simp
  · intro e he
    rcases List.mem_append.1 he with he | he
    · obtain ⟨n, hn⟩ := h.ins e he
      obtain ⟨n', hn', _⟩ := fwd _ _ hn
      exact ⟨n', hn'⟩
    · simp at he; subst he
      have := h2 p
      cases hg' : g'.get? p with
      | some n => exact ⟨n, rfl⟩
      | none =>
        rw [hg'] at this
        cases hg : g.get? p with
        | none => rw [hg] at this; exact absurd rfl this
        | some n => rw [hg] at this; exact this.elim

theorem BInv.params {g0 : Graph T V} {tm : T → T → Bool} {f : Name} (hf : ∃ n, g0.get? f = some n)
    (ps : Dict Name (T × DepType)) : ∀ (P : List (Name × Name)) (g g' : Graph T V),
    BInv g0 P g → (∀ e ∈ P, ∃ n, g0.get? e.1 = some n) →
    addDependencies tm f ps g = .ok g' → BInv g0 (P ++ ps.keys.map (fun p => (f, p))) g' := by
  induction ps with
  | nil =>
    intro P g g' h _ ha
    simp only [addDependencies, List.foldlM_nil] at ha
    cases ha
    simpa [Dict.keys] using h
  | cons q qs ih =>
    intro P g g' h hP ha
    simp only [addDependencies, List.foldlM_cons] at ha
    cases h1 : addDependency tm g f q.1 q.2.1 with
    | error e => rw [h1] at ha; cases ha
    | ok g1 =>
      rw [h1] at ha
      have hs := h.step hf hP h1
      have := ih (P ++ [(f, q.1)]) g1 g' hs (by
        intro e he
        rcases List.mem_append.1 he with he | he
        · exact hP e he
        · simp at he; subst he; exact hf) ha
      simpa [Dict.keys, List.append_assoc] using this

/-- All edges of a node list: one per parameter, in order. -/
def edgesOf (l : Graph T V) : List (Name × Name) :=
  l.flatMap (fun p => p.2.inputTypes.keys.map (fun d => (p.1, d)))

theorem BInv.all {g0 : Graph T V} {tm : T → T → Bool} (l : Graph T V)
    (hl : ∀ p ∈ l, ∃ n, g0.get? p.1 = some n) : ∀ (P : List (Name × Name)) (g g' : Graph T V),
    BInv g0 P g → (∀ e ∈ P, ∃ n, g0.get? e.1 = some n) →
    l.foldlM (fun acc p => addDependencies tm p.1 p.2.inputTypes acc) g = .ok g' →
    BInv g0 (P ++ edgesOf l) g' := by
  induction l with
  | nil =>
    intro P g g' h _ ha
    simp only [List.foldlM_nil] at ha
    cases ha
    simpa [edgesOf] using h
  | cons q qs ih =>
    intro P g g' h hP ha
    simp only [List.foldlM_cons] at ha
    cases h1 : addDependencies tm q.1 q.2.inputTypes g with
    | error e => rw [h1] at ha; cases ha
    | ok g1 =>
      rw [h1] at ha
      have hq := hl q (by simp)
      have hs := BInv.params hq q.2.inputTypes P g g1 h hP h1
      have := ih (fun p hp => hl p (by simp [hp])) _ g1 g' hs (by
        intro e he
        rcases List.mem_append.1 he with he | he
        · exact hP e he
        · obtain ⟨d, _, rfl⟩ := List.mem_map.1 he; exact hq) ha
      simpa [edgesOf, List.append_assoc] using this

/-- A dictionary of nodes as produced before wiring: no edges recorded yet. -/
structure Unwired (g0 : Graph T V) : Prop where
  nodup : g0.keys.Nodup
  name_eq : ∀ k n, g0.get? k = some n → n.name = k
  params_nodup : ∀ k n, g0.get? k = some n → n.inputTypes.keys.Nodup
  no_deps : ∀ k n, g0.get? k = some n → n.dependencies = [] ∧ n.dependedOnBy = []
  external_no_params : ∀ k n, g0.get? k = some n → n.kind = .external → n.inputTypes = []

theorem filter_map_const_ne {k k' : Name} (h : k ≠ k') (l : List Name) :
    (l.map (fun d => (k, d))).filter (fun e => decide (e.1 = k')) = [] := by
  rw [List.filter_eq_nil_iff]
  intro e he
  obtain ⟨d, _, rfl⟩ := List.mem_map.1 he
  simp [h]

theorem filter_map_const_eq (k : Name) (l : List Name) :
    ((l.map (fun d => (k, d))).filter (fun e => decide (e.1 = k))).map (·.2) = l := by
  induction l with
  | nil => rfl
  | cons a t ih => simp [ih]

theorem edgesOf_filter {g0 : Graph T V} (hn : g0.keys.Nodup) (k : Name) :
    ((edgesOf g0).filter (fun e => decide (e.1 = k))).map (·.2) =
      match g0.get? k with
      | some n => n.inputTypes.keys
      | none => [] := by
  induction g0 with
  | nil => rfl
  | cons q qs ih =>
    obtain ⟨a, n⟩ := q
    simp only [Dict.keys, List.map_cons, List.nodup_cons] at hn
    simp only [edgesOf, List.flatMap_cons, List.filter_append, List.map_append] at ih ⊢
    rw [ih hn.2]
    simp only [Dict.get?]
    by_cases hak : a = k
    · subst hak
      rw [filter_map_const_eq, if_pos rfl, (Dict.get?_eq_none_iff _ _).2 hn.1]
      simp
    · rw [filter_map_const_ne hak, if_neg hak]
      simp

theorem mem_edgesOf {g0 : Graph T V} (hn : g0.keys.Nodup) (f p : Name) :
    (f, p) ∈ edgesOf g0 ↔ ∃ n, g0.get? f = some n ∧ p ∈ n.inputTypes.keys := by
  unfold edgesOf
  rw [List.mem_flatMap]
  constructor
  · rintro ⟨q, hq, he⟩
    obtain ⟨d, hd, he⟩ := List.mem_map.1 he
    cases he
    exact ⟨q.2, Dict.get?_of_mem hn hq, hd⟩
  · rintro ⟨n, hn', hp⟩
    exact ⟨(f, n), Dict.get?_mem hn', List.mem_map.2 ⟨p, hp, rfl⟩⟩

/-- Wiring an unwired dictionary gives a well-formed graph with the same functions plus input nodes. -/
theorem updateDependencies_spec {g0 g : Graph T V} {tm : T → T → Bool} (h0 : Unwired g0)
    (h : updateDependencies tm false g0 = .ok g) :
    WellFormed g ∧
    (∀ k n0, g0.get? k = some n0 → ∃ n, g.get? k = some n ∧ SameFn n0 n) ∧
    (∀ k n, g.get? k = some n → g0.get? k = none → n.kind = .external ∧
      ∃ f fn, g0.get? f = some fn ∧ k ∈ fn.inputTypes.keys) := by
  simp only [updateDependencies] at h
  have hb : BInv g0 ([] ++ edgesOf g0) g := by
    refine BInv.all g0 ?_ [] g0 g ?_ (by simp) (by simpa using h)
    · intro p hp; exact ⟨p.2, Dict.get?_of_mem h0.nodup hp⟩
    · refine ⟨h0.nodup, fun k n0 hk => ⟨n0, hk, .refl _⟩, ?_, ?_, ?_, by simp⟩
      · intro k n h1 h2; rw [h1] at h2; cases h2
      · intro k n hk; simp [(h0.no_deps k n hk).1]
      · intro k n hk; simp [(h0.no_deps k n hk).2]
  simp only [List.nil_append] at hb
  have hinp : ∀ k n, g.get? k = some n → n.inputTypes = (match g0.get? k with
      | some n0 => n0.inputTypes
      | none => []) := by
    intro k n hk
    cases hg0 : g0.get? k with
    | some n0 =>
      obtain ⟨n', hn', hs⟩ := hb.old k n0 hg0
      rw [hk] at hn'; cases hn'; exact hs.inputTypes
    | none => exact (hb.new k n hk hg0).2.2.1
  refine ⟨?_, hb.old, ?_⟩
  · refine ⟨hb.nodup, ?_, ?_, ?_, ?_, ?_, ?_⟩
    · intro k n hk
      cases hg0 : g0.get? k with
      | some n0 =>
        obtain ⟨n', hn', hs⟩ := hb.old k n0 hg0
        rw [hk] at hn'; cases hn'; exact hs.name.trans (h0.name_eq k n0 hg0)
      | none => exact (hb.new k n hk hg0).1
    · intro k n hk
      rw [hb.deps k n hk, edgesOf_filter h0.nodup, hinp k n hk]
      cases g0.get? k <;> simp [Dict.keys]
    · intro k n hk
      rw [hinp k n hk]
      cases hg0 : g0.get? k with
      | some n0 => exact h0.params_nodup k n0 hg0
      | none => simp [Dict.keys]
    · intro k n d hk hd
      rw [hinp k n hk] at hd
      cases hg0 : g0.get? k with
      | some n0 =>
        rw [hg0] at hd
        exact hb.ins (k, d) ((mem_edgesOf h0.nodup _ _).2 ⟨n0, hg0, hd⟩)
      | none => rw [hg0] at hd; simp [Dict.keys] at hd
    · intro d dn hd m
      rw [hb.cons d dn hd]
      have : m ∈ ((edgesOf g0).filter (fun e => decide (e.2 = d))).map (·.1) ↔ (m, d) ∈ edgesOf g0 := by
        rw [List.mem_map]
        constructor
        · rintro ⟨⟨a, b⟩, he, rfl⟩
          rw [List.mem_filter] at he
          have := he.2
          simp only [decide_eq_true_eq] at this
          subst this; exact he.1
        · intro he
          exact ⟨(m, d), by rw [List.mem_filter]; exact ⟨he, by simp⟩, rfl⟩
      rw [this, mem_edgesOf h0.nodup]
      constructor
      · rintro ⟨n0, hn0, hp⟩
        obtain ⟨n, hn, hs⟩ := hb.old m n0 hn0
        exact ⟨n, hn, by rw [hs.inputTypes]; exact hp⟩
      · rintro ⟨n, hn, hp⟩
        rw [hinp m n hn] at hp
        cases hg0 : g0.get? m with
        | some n0 => rw [hg0] at hp; exact ⟨n0, rfl, hp⟩
        | none => rw [hg0] at hp; simp [Dict.keys] at hp
    · intro k n hk hext
      cases hg0 : g0.get? k with
      | some n0 =>
        obtain ⟨n', hn', hs⟩ := hb.old k n0 hg0
        rw [hk] at hn'; cases hn'
        rw [hs.inputTypes]
        exact h0.external_no_params k n0 hg0 (by rw [← hs.kind]; exact hext)
      | none => exact (hb.new k n hk hg0).2.2.1
  · intro k n hk hg0
    obtain ⟨_, h2, _, f, hf⟩ := hb.new k n hk hg0
    obtain ⟨fn, hfn, hp⟩ := (mem_edgesOf h0.nodup _ _).1 hf
    exact ⟨h2, f, fn, hfn, hp⟩

end Verif
