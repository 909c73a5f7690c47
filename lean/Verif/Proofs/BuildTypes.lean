import Verif.Proofs.Create

/-! Types of the edges of a graph under construction. -/
namespace Verif
variable {T V : Type}

/-- The parameters of all functions, in order: function, parameter, type. -/
def typedEdges (l : Graph T V) : List (Name × Name × T) :=
  l.flatMap (fun q => q.2.inputTypes.map (fun d => (q.1, d.1, d.2.1)))

theorem mem_typedEdges {g : Graph T V} (hn : g.keys.Nodup) {f p : Name} {t : T} :
    (f, p, t) ∈ typedEdges g ↔ ∃ n d, g.get? f = some n ∧ (p, (t, d)) ∈ n.inputTypes := by
  unfold typedEdges
  rw [List.mem_flatMap]
  constructor
  · rintro ⟨q, hq, he⟩
    obtain ⟨⟨p', t', d⟩, hd, he⟩ := List.mem_map.1 he
    cases he
    exact ⟨q.2, d, Dict.get?_of_mem hn hq, hd⟩
  · rintro ⟨n, d, hn', hp⟩
    exact ⟨(f, n), Dict.get?_mem hn', List.mem_map.2 ⟨_, hp, rfl⟩⟩

/-- One parameter. -/
def wireStep (tm : T → T → Bool) (g : Graph T V) (e : Name × Name × T) : Except BuildErr (Graph T V) :=
  addDependency tm g e.1 e.2.1 e.2.2

theorem addDependencies_eq (tm : T → T → Bool) (f : Name) (ps : Dict Name (T × DepType)) (g : Graph T V) :
    addDependencies tm f ps g = (ps.map (fun d => (f, d.1, d.2.1))).foldlM (wireStep tm) g := by
  unfold addDependencies
  rw [List.foldlM_map]
  rfl

theorem wire_eq (tm : T → T → Bool) (l g : Graph T V) :
    l.foldlM (fun acc p => addDependencies tm p.1 p.2.inputTypes acc) g = (typedEdges l).foldlM (wireStep tm) g := by
  induction l generalizing g with
  | nil => rfl
  | cons q qs ih =>
    unfold typedEdges
    rw [List.foldlM_cons, List.flatMap_cons, List.foldlM_append, addDependencies_eq]
    congr 1
    funext g'
    exact ih g'

theorem addDependency_typ {tm : T → T → Bool} {g g' : Graph T V} {f p : Name} {t : T}
    (h : addDependency tm g f p t = .ok g') :
    (∀ k, k ≠ p → (g'.get? k).map (fun n => (n.typ, n.kind)) = (g.get? k).map (fun n => (n.typ, n.kind))) ∧
    ((∃ r, g.get? p = some r ∧ tm t r.typ = true ∧ (g'.get? p).map (fun n => (n.typ, n.kind)) = some (r.typ, r.kind)) ∨
     (∃ r, g.get? p = some r ∧ r.kind = .external ∧ tm r.typ t = true ∧
      (g'.get? p).map (fun n => (n.typ, n.kind)) = some (t, .external)) ∨
     (g.get? p = none ∧ (g'.get? p).map (fun n => (n.typ, n.kind)) = some (t, .external))) := by
  have key : ∀ {g1 g' : Graph T V}, addEdge g1 f p = .ok g' →
      ∀ k, (g'.get? k).map (fun n => (n.typ, n.kind)) = (g1.get? k).map (fun n => (n.typ, n.kind)) := by
    intro g1 g' h k
    obtain ⟨_, _, h3⟩ := addEdge_spec h
    rw [← h3 k, Option.map_map]
    rfl
  unfold addDependency at h
  cases hr : g.get? p with
  | none =>
    rw [hr] at h
    have h1 := key h
    refine ⟨fun k hk => ?_, .inr (.inr ⟨rfl, ?_⟩)⟩
    · rw [h1 k, Dict.get?_set, if_neg (Ne.symm hk)]
    · rw [h1 p, Dict.get?_set, if_pos rfl]; rfl
  | some r =>
    rw [hr] at h
    dsimp only at h
    by_cases h2 : tm t r.typ = true
    · rw [if_pos h2] at h
      have h1 := key h
      exact ⟨fun k _ => h1 k, .inl ⟨r, rfl, h2, by rw [h1 p, hr]; rfl⟩⟩
    · rw [if_neg h2] at h
      by_cases h3 : r.userDefined = true
      · rw [if_pos h3] at h
        by_cases h4 : tm r.typ t = true
        · rw [if_pos h4] at h
          have h1 := key h
          have h3' : r.kind = .external := by simpa [Node.userDefined] using h3
          refine ⟨fun k hk => ?_, .inr (.inl ⟨r, rfl, h3', h4, ?_⟩)⟩
          · rw [h1 k, Dict.get?_set, if_neg (Ne.symm hk)]
          · rw [h1 p, Dict.get?_set, if_pos rfl, Option.map_some, h3']
        · rw [if_neg h4] at h; cases h
      · rw [if_neg h3] at h; cases h

/-- Invariant: every parameter seen so far is related to the type of the node it names. -/
structure TypeInv (tm : T → T → Prop) (R : Name → T → T → Prop) (g0 : Graph T V) (E : List (Name × Name × T)) (g : Graph T V) : Prop where
  old : ∀ k n0, g0.get? k = some n0 → (g.get? k).map (fun n => (n.typ, n.kind)) = some (n0.typ, n0.kind)
  fn : ∀ f k t n0, (f, k, t) ∈ E → g0.get? k = some n0 → tm t n0.typ
  inp : ∀ k n, g.get? k = some n → g0.get? k = none → n.kind = .external ∧ (∃ f, (f, k, n.typ) ∈ E) ∧
    ∀ f t, (f, k, t) ∈ E → R k t n.typ
  ins : ∀ e ∈ E, ∃ n, g.get? e.2.1 = some n

theorem TypeInv.run {tm : T → T → Bool} {R : Name → T → T → Prop} {g0 : Graph T V} (hk0 : ∀ k n, g0.get? k = some n → n.kind ≠ .external)
    {P : Name → T → Prop} (hrefl : ∀ k a, R k a a) (htrans : ∀ k a b c, R k a b → R k b c → R k a c)
    (hR : ∀ k a b, P k a → P k b → tm a b = true → R k a b) :
    ∀ (E' E : List (Name × Name × T)) (g g' : Graph T V), (∀ e ∈ E ++ E', P e.2.1 e.2.2) →
      TypeInv (fun a b => tm a b = true) R g0 E g → E'.foldlM (wireStep tm) g = .ok g' →
      TypeInv (fun a b => tm a b = true) R g0 (E ++ E') g'
  | [], E, g, g', _, hi, h => by
    cases h
    rwa [List.append_nil]
  | (f, p, t) :: E', E, g, g', hP, hi, h => by
    rw [List.foldlM_cons] at h
    cases h1 : wireStep tm g (f, p, t) with
    | error e => rw [h1] at h; cases h
    | ok g1 =>
      rw [h1] at h
      have hpt : P p t := hP (f, p, t) (by simp)
      obtain ⟨h2, h3⟩ := addDependency_typ h1
      rw [show E ++ (f, p, t) :: E' = (E ++ [(f, p, t)]) ++ E' by simp]
      refine TypeInv.run hk0 hrefl htrans hR E' _ g1 g' (fun e he => hP e (by simpa using he)) ⟨?_, ?_, ?_, ?_⟩ h
      · intro k n0 hk
        by_cases hkp : k = p
        · subst hkp
          have ho := hi.old k n0 hk
          rcases h3 with ⟨r, hr, _, h3⟩ | ⟨r, hr, he, _⟩ | ⟨hr, _⟩
          · rw [hr] at ho; rw [h3, ← ho]; rfl
          · rw [hr] at ho
            have := Option.some.inj ho
            simp only [Prod.mk.injEq] at this
            exact absurd (this.2 ▸ he) (hk0 k n0 hk)
          · rw [hr] at ho; cases ho
        · rw [h2 k hkp]; exact hi.old k n0 hk
      · intro f' k t' n0 he hk
        rcases List.mem_append.1 he with he | he
        · exact hi.fn f' k t' n0 he hk
        · simp only [List.mem_singleton, Prod.mk.injEq] at he
          obtain ⟨rfl, rfl, rfl⟩ := he
          have ho := hi.old k n0 hk
          rcases h3 with ⟨r, hr, hm, _⟩ | ⟨r, hr, he, _⟩ | ⟨hr, _⟩
          · rw [hr] at ho
            have := Option.some.inj ho
            simp only [Prod.mk.injEq] at this
            exact this.1 ▸ hm
          · rw [hr] at ho
            have := Option.some.inj ho
            simp only [Prod.mk.injEq] at this
            exact absurd (this.2 ▸ he) (hk0 k n0 hk)
          · rw [hr] at ho; cases ho
      · intro k n hk h0
        by_cases hkp : k = p
        · subst hkp
          have hsame : ∀ (x : T × NodeKind), (g1.get? k).map (fun n => (n.typ, n.kind)) = some x → (n.typ, n.kind) = x := by
            intro x hx; rw [hk] at hx; exact Option.some.inj hx
          rcases h3 with ⟨r, hr, hm, h3⟩ | ⟨r, hr, he, hm, h3⟩ | ⟨hr, h3⟩
          · have := hsame _ h3
            simp only [Prod.mk.injEq] at this
            obtain ⟨e1, e2⟩ := this
            obtain ⟨a, ⟨f', b⟩, c⟩ := hi.inp k r hr h0
            rw [e1, e2]
            refine ⟨a, ⟨f', by simp [b]⟩, fun f'' t'' he => ?_⟩
            rcases List.mem_append.1 he with he | he
            · exact c f'' t'' he
            · simp only [List.mem_singleton, Prod.mk.injEq] at he
              obtain ⟨rfl, _, rfl⟩ := he
              exact hR _ _ _ hpt (hP (f', k, r.typ) (by simp [b])) hm
          · have := hsame _ h3
            simp only [Prod.mk.injEq] at this
            obtain ⟨e1, e2⟩ := this
            obtain ⟨a, ⟨f', b⟩, c⟩ := hi.inp k r hr h0
            rw [e1, e2]
            refine ⟨rfl, ⟨f, by simp⟩, fun f'' t'' he => ?_⟩
            rcases List.mem_append.1 he with he | he
            · exact htrans _ _ _ _ (c f'' t'' he) (hR _ _ _ (hP (f', k, r.typ) (by simp [b])) hpt hm)
            · simp only [List.mem_singleton, Prod.mk.injEq] at he
              obtain ⟨rfl, _, rfl⟩ := he
              exact hrefl _ _
          · have := hsame _ h3
            simp only [Prod.mk.injEq] at this
            obtain ⟨e1, e2⟩ := this
            rw [e1, e2]
            refine ⟨rfl, ⟨f, by simp⟩, fun f'' t'' he => ?_⟩
            rcases List.mem_append.1 he with he | he
            · obtain ⟨n', hn'⟩ := hi.ins _ he
              dsimp only at hn'
              rw [hr] at hn'; cases hn'
            · simp only [List.mem_singleton, Prod.mk.injEq] at he
              obtain ⟨rfl, _, rfl⟩ := he
              exact hrefl _ _
        · have hk' := h2 k hkp
          rw [hk] at hk'
          cases hg : g.get? k with
          | none => rw [hg] at hk'; cases hk'
          | some r =>
            rw [hg] at hk'
            have := Option.some.inj hk'
            simp only [Prod.mk.injEq] at this
            obtain ⟨e1, e2⟩ := this
            obtain ⟨a, ⟨f', b⟩, c⟩ := hi.inp k r hg h0
            rw [e1, e2]
            refine ⟨a, ⟨f', by simp [b]⟩, fun f'' t'' he => ?_⟩
            rcases List.mem_append.1 he with he | he
            · exact c f'' t'' he
            · simp only [List.mem_singleton, Prod.mk.injEq] at he
              exact absurd he.2.1 hkp

      · intro e he
        have hpres : ∀ k n, g.get? k = some n → ∃ n', g1.get? k = some n' := by
          intro k n hk
          by_cases hkp : k = p
          · subst hkp
            cases hg : g1.get? k with
            | some n' => exact ⟨n', rfl⟩
            | none => rw [hg] at h3; rcases h3 with ⟨_, _, _, h3⟩ | ⟨_, _, _, _, h3⟩ | ⟨_, h3⟩ <;> cases h3
          · have := h2 k hkp
            rw [hk] at this
            cases hg : g1.get? k with
            | some n' => exact ⟨n', rfl⟩
            | none => rw [hg] at this; cases this
        rcases List.mem_append.1 he with he | he
        · obtain ⟨n, hn⟩ := hi.ins e he
          exact hpres _ _ hn
        · simp only [List.mem_singleton] at he
          subst he
          dsimp only
          cases hg : g1.get? p with
          | some n' => exact ⟨n', rfl⟩
          | none => rw [hg] at h3; rcases h3 with ⟨_, _, _, h3⟩ | ⟨_, _, _, _, h3⟩ | ⟨_, h3⟩ <;> cases h3

theorem addEdge_accepts {g : Graph T V} {f p : Name} (hf : ∃ n, g.get? f = some n) (hp : ∃ n, g.get? p = some n) :
    ∃ g', addEdge g f p = .ok g' := by
  obtain ⟨fn, hf⟩ := hf
  obtain ⟨pn, hp⟩ := hp
  unfold addEdge
  rw [hf]
  dsimp only
  rw [Dict.get?_set]
  by_cases hfp : f = p
  · rw [if_pos hfp]; exact ⟨_, rfl⟩
  · rw [if_neg hfp, hp]; exact ⟨_, rfl⟩

/-- Wiring succeeds if parameters match the functions they name and the types declared for each input are pairwise comparable. -/
theorem wire_accepts {tm : T → T → Bool} {g0 : Graph T V} (hk0 : ∀ k n, g0.get? k = some n → n.kind ≠ .external)
    {E0 : List (Name × Name × T)} (hsrc : ∀ e ∈ E0, ∃ n, g0.get? e.1 = some n)
    (hfn : ∀ f p t n, (f, p, t) ∈ E0 → g0.get? p = some n → tm t n.typ = true)
    (hin : ∀ f f' p t t', (f, p, t) ∈ E0 → (f', p, t') ∈ E0 → g0.get? p = none → tm t t' = true ∨ tm t' t = true) :
    ∀ (E' E : List (Name × Name × T)) (g : Graph T V), E ++ E' = E0 →
      TypeInv (fun a b => tm a b = true) (fun _ _ _ => True) g0 E g →
      ∃ g', E'.foldlM (wireStep tm) g = .ok g'
  | [], _, g, _, _ => ⟨g, rfl⟩
  | (f, p, t) :: E', E, g, he, hi => by
    have hmem : (f, p, t) ∈ E0 := by rw [← he]; simp
    have hfg : ∀ k n, g0.get? k = some n → ∃ n', g.get? k = some n' ∧ n'.typ = n.typ ∧ n'.kind = n.kind := by
      intro k n hk
      have := hi.old k n hk
      cases hg : g.get? k with
      | none => rw [hg] at this; cases this
      | some n' =>
        rw [hg] at this
        have := Option.some.inj this
        simp only [Prod.mk.injEq] at this
        exact ⟨n', rfl, this.1, this.2⟩
    obtain ⟨fn, hfn0⟩ := hsrc _ hmem
    have hf : ∃ n, g.get? f = some n := by
      obtain ⟨n', h, _⟩ := hfg f fn hfn0
      exact ⟨n', h⟩
    have hset : ∀ n : Node T V, ∃ g', addEdge (g.set p n) f p = .ok g' := by
      intro n
      refine addEdge_accepts ?_ ⟨n, Dict.get?_set_self _ _ _⟩
      rw [Dict.get?_set]
      by_cases hpf : p = f
      · rw [if_pos hpf]; exact ⟨n, rfl⟩
      · rw [if_neg hpf]; exact hf
    have hstep : ∃ g1, wireStep tm g (f, p, t) = .ok g1 := by
      unfold wireStep addDependency
      dsimp only
      cases hp : g.get? p with
      | none => exact hset _
      | some r =>
        dsimp only
        by_cases h1 : tm t r.typ = true
        · rw [if_pos h1]; exact addEdge_accepts hf ⟨r, hp⟩
        · rw [if_neg h1]
          cases h0 : g0.get? p with
          | some n =>
            exfalso
            obtain ⟨n', hn', ht, _⟩ := hfg p n h0
            rw [hp] at hn'; cases hn'
            exact h1 (by rw [ht]; exact hfn f p t n hmem h0)
          | none =>
            obtain ⟨hk, ⟨f', hf'⟩, _⟩ := hi.inp p r hp h0
            have hu : r.userDefined = true := by simp [Node.userDefined, hk]
            rw [if_pos hu]
            rcases hin f f' p t r.typ hmem (by rw [← he]; simp [hf']) h0 with h | h
            · exact absurd h h1
            · rw [if_pos h]; exact hset _
    obtain ⟨g1, hg1⟩ := hstep
    rw [List.foldlM_cons, hg1]
    have hi' := TypeInv.run (P := fun _ _ => True) hk0 (fun _ _ => trivial) (fun _ _ _ _ _ _ => trivial) (fun _ _ _ _ _ _ => trivial)
      [(f, p, t)] E g g1 (fun _ _ => trivial) hi (by rw [List.foldlM_cons, hg1]; rfl)
    exact wire_accepts hk0 hsrc hfn hin E' (E ++ [(f, p, t)]) g1 (by rw [← he]; simp) hi'

theorem TypeInv.start {tm : T → T → Bool} {R : Name → T → T → Prop} (g0 : Graph T V) :
    TypeInv (fun a b => tm a b = true) R g0 [] g0 :=
  ⟨fun k n h => by rw [h]; rfl, fun _ _ _ _ h => (by cases h), fun k n h h0 => (by rw [h] at h0; cases h0), fun _ h => (by cases h)⟩

end Verif
