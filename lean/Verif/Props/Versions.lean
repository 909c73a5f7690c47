import Verif.Spec.Versions
import Verif.Proofs.Fingerprint

/-!
Property C59: code versions and the comparison of dataflows.
-/
namespace Verif

theorem stripDocs_strExpr {a : PyAst} {s : String} (h : stripDocs a = .strExpr s) : a = .strExpr s := by
  cases a with
  | fnDef => simp [stripDocs] at h
  | strExpr t => simpa [stripDocs] using h
  | other => simp [stripDocs] at h

theorem stripDocsAll_dropDoc (l : List PyAst) : stripDocsAll (dropDoc l) = dropDoc (stripDocsAll l) := by
  cases l with
  | nil => rfl
  | cons a as => cases a <;> simp [dropDoc, stripDocsAll, stripDocs]

theorem isBody_dropDoc (l : List PyAst) : IsBody l (dropDoc l) := by
  cases l with
  | nil => exact .inr ⟨rfl, nofun⟩
  | cons a as =>
    cases a with
    | strExpr s => exact .inl ⟨s, rfl⟩
    | fnDef => exact .inr ⟨rfl, nofun⟩
    | other => exact .inr ⟨rfl, nofun⟩

theorem dropDoc_of_isBody {l r : List PyAst} (h : IsBody l r) : dropDoc l = r := by
  rcases h with ⟨s, rfl⟩ | ⟨rfl, h⟩
  · rfl
  · cases l with
    | nil => rfl
    | cons a as =>
      cases a with
      | strExpr s => exact absurd rfl (h s as)
      | fnDef => rfl
      | other => rfl

theorem dropDoc_size (l : List PyAst) : sizeOf (dropDoc l) ≤ sizeOf l := by
  cases l with
  | nil => exact Nat.le_refl _
  | cons a as => cases a <;> simp [dropDoc]

mutual
theorem same_of_strip : ∀ (a b : PyAst), stripDocs a = stripDocs b → SameCode a b
  | .strExpr s, b, h => by rw [stripDocs_strExpr (a := b) (s := s) (by rw [← h]; rfl)]; exact .strExpr
  | .other l c, .other l' c', h => by
    simp only [stripDocs, PyAst.other.injEq] at h
    obtain ⟨rfl, h⟩ := h
    exact .other (sames_of_strip c c' h)
  | .other _ _, .fnDef _ _ _, h => by simp [stripDocs] at h
  | .other _ _, .strExpr _, h => by simp [stripDocs] at h
  | .fnDef hd e bd, .fnDef hd' e' bd', h => by
    simp only [stripDocs, PyAst.fnDef.injEq] at h
    obtain ⟨rfl, h1, h2⟩ := h
    rw [← stripDocsAll_dropDoc, ← stripDocsAll_dropDoc] at h2
    exact .fnDef (sames_of_strip e e' h1) (isBody_dropDoc _) (isBody_dropDoc _) (sames_of_strip (dropDoc bd) (dropDoc bd') h2)
  | .fnDef _ _ _, .other _ _, h => by simp [stripDocs] at h
  | .fnDef _ _ _, .strExpr _, h => by simp [stripDocs] at h
termination_by a => sizeOf a
decreasing_by
  all_goals simp_wf
  all_goals first | omega | (have := dropDoc_size bd; omega)
theorem sames_of_strip : ∀ (l l' : List PyAst), stripDocsAll l = stripDocsAll l' → SameCodes l l'
  | [], [], _ => .nil
  | [], _ :: _, h => by simp [stripDocsAll] at h
  | _ :: _, [], h => by simp [stripDocsAll] at h
  | a :: as, b :: bs, h => by
    simp only [stripDocsAll, List.cons.injEq] at h
    exact .cons (same_of_strip a b h.1) (sames_of_strip as bs h.2)
termination_by l => sizeOf l
end

mutual
theorem strip_of_same {a b : PyAst} : SameCode a b → stripDocs a = stripDocs b
  | .strExpr => rfl
  | .other h => by simp only [stripDocs, strips_of_same h]
  | .fnDef h1 h2 h3 h4 => by
    simp only [stripDocs, ← stripDocsAll_dropDoc, dropDoc_of_isBody h2, dropDoc_of_isBody h3, strips_of_same h1,
      strips_of_same h4]
theorem strips_of_same {l l' : List PyAst} : SameCodes l l' → stripDocsAll l = stripDocsAll l'
  | .nil => rfl
  | .cons h1 h2 => by simp only [stripDocsAll, strip_of_same h1, strips_of_same h2]
end

/-- **C59, code.**  Two functions whose sources can be parsed have the same version iff they are the same up to docstrings (of
the function and of functions defined inside). -/
theorem C59_code {ops : SrcOps} (hf : ops.Faithful) {f f' : FnObj} {t t' : PyAst} (h : f.Parsed ops t) (h' : f'.Parsed ops t')
    {n n' : VNode} {rest rest' : List FnObj} (hn : n.orig = some (f :: rest)) (hn' : n'.orig = some (f' :: rest')) :
    n.version ops = n'.version ops ↔ SameCode t t' := by
  obtain ⟨s, h1, h2⟩ := h
  obtain ⟨s', h1', h2'⟩ := h'
  have e : n.version ops = some (ops.sha (ops.unparse (stripDocs t))) := by
    simp only [VNode.version, hn, h1, hashSourceCode, h2, if_true]
  have e' : n'.version ops = some (ops.sha (ops.unparse (stripDocs t'))) := by
    simp only [VNode.version, hn', h1', hashSourceCode, h2', if_true]
  rw [e, e']
  constructor
  · intro h
    exact same_of_strip _ _ (hf.unparse_inj _ _ (hf.sha_inj _ _ (Option.some.inj h)))
  · intro h
    rw [strip_of_same h]

theorem graph_key (ops : SrcOps) (g : Dict Name VNode) (k : Name) :
    (nodeVersions ops g).get? k = (g.get? k).map (VNode.version ops) := by
  induction g with
  | nil => rfl
  | cons p g ih =>
    obtain ⟨k', v⟩ := p
    change Dict.get? ((k', v.version ops) :: nodeVersions ops g) k = _
    rw [Dict.get?_cons, Dict.get?_cons, ih]
    split <;> rfl

theorem keys_versions (ops : SrcOps) (g : Dict Name VNode) : (nodeVersions ops g).keys = g.keys := by
  simp [nodeVersions, Dict.keys, List.map_map, Function.comp_def]

theorem diffCurrent_spec (reference : Dict Name (Option String)) : ∀ (current : Dict Name (Option String)),
    current.keys.Nodup →
    (∀ k, k ∈ (diffCurrent reference current).1 ↔ k ∈ current.keys ∧ (reference.get? k).join = none) ∧
    (∀ k, k ∈ (diffCurrent reference current).2 ↔ ∃ v w, current.get? k = some v ∧ reference.get? k = some (some w) ∧
      v ≠ some w) ∧
    (diffCurrent reference current).1.Nodup ∧ (diffCurrent reference current).2.Nodup := by
  intro current
  induction current with
  | nil => intro _; exact ⟨by simp [diffCurrent, Dict.keys], by simp [diffCurrent, Dict.get?], by simp [diffCurrent], by simp [diffCurrent]⟩
  | cons p rest ih =>
    obtain ⟨k0, v0⟩ := p
    intro hn
    rw [Dict.keys_cons, List.nodup_cons] at hn
    obtain ⟨i1, i2, i3, i4⟩ := ih hn.2
    have hk1 : k0 ∉ (diffCurrent reference rest).1 := fun h => hn.1 ((i1 k0).1 h).1
    have hk2 : k0 ∉ (diffCurrent reference rest).2 := by
      intro h
      obtain ⟨v, w, h, _⟩ := (i2 k0).1 h
      exact hn.1 (Dict.mem_keys_iff.2 ⟨v, h⟩)
    have hr2 : ∀ k, (k ∈ (diffCurrent reference rest).2 ↔ ∃ v w, Dict.get? ((k0, v0) :: rest) k = some v ∧
        reference.get? k = some (some w) ∧ v ≠ some w) ∨ k = k0 := by
      intro k
      by_cases hk : k = k0
      · exact .inr hk
      · left
        rw [i2 k, Dict.get?_cons, if_neg (Ne.symm hk)]
    have hr1 : ∀ k, k ≠ k0 → (k ∈ (diffCurrent reference rest).1 ↔ k ∈ Dict.keys ((k0, v0) :: rest) ∧ (reference.get? k).join = none) := by
      intro k hk
      rw [i1 k, Dict.keys_cons, List.mem_cons]
      simp [hk]
    simp only [diffCurrent]
    cases hj : (reference.get? k0).join with
    | none =>
      simp only
      refine ⟨?_, ?_, List.nodup_cons.2 ⟨hk1, i3⟩, i4⟩
      · intro k
        by_cases hk : k = k0
        · subst hk; simp [hj, Dict.keys_cons]
        · rw [List.mem_cons, or_iff_right hk, hr1 k hk]
      · intro k
        rcases hr2 k with h | rfl
        · exact h
        · constructor
          · intro h; exact absurd h hk2
          · rintro ⟨v, w, _, h, _⟩
            rw [h] at hj; cases hj
    | some w0 =>
      have hw : reference.get? k0 = some (some w0) := by
        cases hr : reference.get? k0 with
        | none => rw [hr] at hj; cases hj
        | some o => rw [hr] at hj; simp only [Option.join_some] at hj; rw [hj]
      have h1 : ∀ k, k ∈ (diffCurrent reference rest).1 ↔ k ∈ Dict.keys ((k0, v0) :: rest) ∧ (reference.get? k).join = none := by
        intro k
        by_cases hk : k = k0
        · subst hk
          constructor
          · intro h; exact absurd h hk1
          · rintro ⟨_, h⟩; rw [hj] at h; cases h
        · exact hr1 k hk
      simp only
      by_cases hv : v0 ≠ some w0
      · rw [if_pos hv]
        refine ⟨h1, ?_, i3, List.nodup_cons.2 ⟨hk2, i4⟩⟩
        intro k
        rcases hr2 k with h | rfl
        · by_cases hk : k = k0
          · subst hk
            simp only [List.mem_cons, true_or, true_iff]
            exact ⟨v0, w0, by rw [Dict.get?_cons, if_pos rfl], hw, hv⟩
          · rw [List.mem_cons, or_iff_right hk, h]
        · simp only [List.mem_cons, true_or, true_iff]
          exact ⟨v0, w0, by rw [Dict.get?_cons, if_pos rfl], hw, hv⟩
      · rw [if_neg hv]
        refine ⟨h1, ?_, i3, i4⟩
        intro k
        rcases hr2 k with h | rfl
        · exact h
        · constructor
          · intro h; exact absurd h hk2
          · rintro ⟨v, w, h1, h2, h3⟩
            rw [Dict.get?_cons, if_pos rfl] at h1
            cases h1
            rw [hw] at h2
            cases h2
            exact absurd h3 hv

/-- **C59, diff (partial).**  For two dataflows all of whose nodes have a version, `hamilton diff` lists every node once: as
only in the current one iff only that has it, likewise for the reference, and as edited iff both have it with different
versions.  Missing: nodes without a version (`C59_violated_none`). -/
theorem C59_diff_partial {ops : SrcOps} {current reference : Dict Name VNode} (hc : current.keys.Nodup)
    (hr : reference.keys.Nodup) (hcv : ∀ k n, current.get? k = some n → n.version ops ≠ none)
    (hrv : ∀ k n, reference.get? k = some n → n.version ops ≠ none) (k : Name) :
    let d := diffVersions (nodeVersions ops current) (nodeVersions ops reference)
    (k ∈ d.currentOnly ↔ k ∈ current.keys ∧ k ∉ reference.keys) ∧
    (k ∈ d.referenceOnly ↔ k ∈ reference.keys ∧ k ∉ current.keys) ∧
    (k ∈ d.edit ↔ ∃ n m, current.get? k = some n ∧ reference.get? k = some m ∧ n.version ops ≠ m.version ops) ∧
    d.currentOnly.Nodup ∧ d.referenceOnly.Nodup ∧ d.edit.Nodup := by
  obtain ⟨h1, h2, h3, h4⟩ := diffCurrent_spec (nodeVersions ops reference) (nodeVersions ops current) (by rw [keys_versions]; exact hc)
  have hjoin : ∀ (g : Dict Name VNode), (∀ k n, g.get? k = some n → n.version ops ≠ none) → ∀ k,
      ((nodeVersions ops g).get? k).join = none ↔ k ∉ g.keys := by
    intro g hg k
    rw [graph_key, ← Dict.get?_eq_none_iff]
    cases hk : g.get? k with
    | none => simp
    | some n =>
      have := hg k n hk
      simp [this]
  refine ⟨?_, ?_, ?_, h3, ?_, h4⟩
  · rw [show (diffVersions (nodeVersions ops current) (nodeVersions ops reference)).currentOnly =
      (diffCurrent (nodeVersions ops reference) (nodeVersions ops current)).1 from rfl, h1, keys_versions, hjoin _ hrv]
  · simp only [diffVersions, List.mem_map, List.mem_filter]
    constructor
    · rintro ⟨p, ⟨hp, hq⟩, rfl⟩
      refine ⟨?_, (hjoin _ hcv p.1).1 (by simpa using hq)⟩
      rw [← keys_versions ops]
      exact List.mem_map.2 ⟨p, hp, rfl⟩
    · rintro ⟨hk, hk'⟩
      rw [← keys_versions ops] at hk
      obtain ⟨p, hp, rfl⟩ := List.mem_map.1 hk
      exact ⟨p, ⟨hp, by simpa using (hjoin _ hcv p.1).2 hk'⟩, rfl⟩
  · rw [show (diffVersions (nodeVersions ops current) (nodeVersions ops reference)).edit =
      (diffCurrent (nodeVersions ops reference) (nodeVersions ops current)).2 from rfl, h2]
    simp only [graph_key, Option.map_eq_some_iff]
    constructor
    · rintro ⟨v, w, ⟨n, hn, rfl⟩, ⟨m, hm, hmv⟩, hne⟩
      exact ⟨n, m, hn, hm, by rw [hmv]; exact hne⟩
    · rintro ⟨n, m, hn, hm, hne⟩
      cases hv : m.version ops with
      | none => exact absurd hv (hrv k m hm)
      | some w => exact ⟨_, w, ⟨n, hn, rfl⟩, ⟨m, hm, hv⟩, by rw [← hv]; exact hne⟩
  · have : ((nodeVersions ops reference).filter (fun p => ((nodeVersions ops current).get? p.1).join.isNone)).map (·.1) |>.Nodup :=
      List.Sublist.nodup (List.Sublist.map _ List.filter_sublist) (by
        have := hr
        rw [← keys_versions ops] at this
        exact this)
    exact this

/-! ### The graph -/

theorem recordOrigin_function {tighter : Name → Name → Bool} {f : VNode} {nodes : Dict Name VNode} {p k : Name} {n : VNode}
    (h : nodes.get? k = some n) (hn : n.external = false) : (recordOrigin tighter f nodes p).get? k = some n := by
  unfold recordOrigin
  cases hp : nodes.get? p with
  | none =>
    by_cases hk : p = k
    · subst hk; rw [hp] at h; cases h
    · simp only [Dict.get?_set_ne _ _ hk, h]
  | some r =>
    simp only
    by_cases hr : (r.external && tighter f.name p) = true
    · rw [if_pos hr]
      by_cases hk : p = k
      · subst hk
        rw [hp] at h; cases h
        rw [hn] at hr; cases hr
      · rw [Dict.get?_set_ne _ _ hk, h]
    · rw [if_neg hr, h]

theorem foldl_keeps {A : Type} {P : Dict Name VNode → Prop} {f : Dict Name VNode → A → Dict Name VNode}
    (hf : ∀ d a, P d → P (f d a)) : ∀ (l : List A) (d : Dict Name VNode), P d → P (l.foldl f d) := by
  intro l
  induction l with
  | nil => intro d h; exact h
  | cons a l ih => intro d h; exact ih _ (hf d a h)

theorem set_all_get {fns : List VNode} (hn : (fns.map (·.name)).Nodup) : ∀ {n : VNode}, n ∈ fns → ∀ d : Dict Name VNode,
    (fns.foldl (fun (d : Dict Name VNode) n => d.set n.name n) d).get? n.name = some n := by
  induction fns with
  | nil => intro n h; cases h
  | cons a fns ih =>
    intro n h d
    rw [List.map_cons, List.nodup_cons] at hn
    rcases List.mem_cons.1 h with rfl | h
    · have hk : ∀ (l : List VNode) (d : Dict Name VNode), n.name ∉ l.map (·.name) → d.get? n.name = some n →
          (l.foldl (fun (d : Dict Name VNode) n => d.set n.name n) d).get? n.name = some n := by
        intro l
        induction l with
        | nil => intro d _ h; exact h
        | cons b l ihl =>
          intro d hb hd
          simp only [List.map_cons, List.mem_cons, not_or] at hb
          exact ihl _ hb.2 (by rw [Dict.get?_set_ne _ _ (Ne.symm hb.1)]; exact hd)
      exact hk fns _ hn.1 (by simp)
    · exact ih hn.2 h _

/-- A function node of a driver originates from its own function. -/
theorem versionedGraph_function {tighter : Name → Name → Bool} {config : List Name} {fns : List VNode}
    (hn : (fns.map (·.name)).Nodup) {n : VNode} (hm : n ∈ fns) (hc : n.name ∉ config) (he : n.external = false) :
    (versionedGraph tighter config fns).get? n.name = some n := by
  unfold versionedGraph
  refine foldl_keeps (P := fun d => d.get? n.name = some n) ?_ _ _ ?_
  · intro d k hd
    by_cases hk : d.has k = true
    · rw [if_pos hk]; exact hd
    · rw [if_neg hk]
      by_cases he : k = n.name
      · subst he
        exact absurd ((Dict.has_eq_true_iff _ _).2 ⟨_, hd⟩) hk
      · rw [Dict.get?_set_ne _ _ he]; exact hd
  · unfold recordOrigins
    refine foldl_keeps (P := fun d => d.get? n.name = some n) ?_ _ _ ?_
    · intro d q hd
      exact foldl_keeps (P := fun d => d.get? n.name = some n) (fun d p hd => recordOrigin_function hd he) _ _ hd
    · refine set_all_get ?_ (List.mem_filter.2 ⟨hm, by simpa using hc⟩) []
      exact List.Sublist.nodup (List.Sublist.map _ List.filter_sublist) hn

theorem recordOrigin_keys {tighter : Name → Name → Bool} {f : VNode} {nodes : Dict Name VNode} {p : Name}
    (h : nodes.keys.Nodup) : (recordOrigin tighter f nodes p).keys.Nodup := by
  unfold recordOrigin
  cases nodes.get? p with
  | none => exact Dict.keys_set_nodup h _ _
  | some r =>
    simp only
    split
    · exact Dict.keys_set_nodup h _ _
    · exact h

theorem versionedGraph_nodup {tighter : Name → Name → Bool} {config : List Name} {fns : List VNode} :
    (versionedGraph tighter config fns).keys.Nodup := by
  unfold versionedGraph
  refine foldl_keeps (P := fun d => d.keys.Nodup) ?_ _ _ ?_
  · intro d k hd
    split
    · exact hd
    · exact Dict.keys_set_nodup hd _ _
  · unfold recordOrigins
    refine foldl_keeps (P := fun d => d.keys.Nodup) ?_ _ _ ?_
    · intro d q hd
      exact foldl_keeps (P := fun d => d.keys.Nodup) (fun d p hd => recordOrigin_keys hd) _ _ hd
    · exact foldl_keeps (P := fun d => d.keys.Nodup) (fun d n hd => Dict.keys_set_nodup hd _ _) _ _
        (by simp [Dict.keys])

/-- **C59, edited functions (partial).**  Two drivers are built, one from the current and one from the reference code, and both
have a node `k` made from one function (`f` and `f'`).  `hamilton diff` lists `k` as edited iff the two functions differ in
more than documentation.  Missing: functions that a node calls or that are attached to it with other decorators
(`C59_violated_step`), inputs (`C59_violated_input`), and sources that cannot be parsed (`C59_violated_indented`). -/
theorem C59_edited_partial {ops : SrcOps} (hf : ops.Faithful) {tighter tighter' : Name → Name → Bool}
    {config config' : List Name} {fns fns' : List VNode} (hn : (fns.map (·.name)).Nodup) (hn' : (fns'.map (·.name)).Nodup)
    {n n' : VNode} (hm : n ∈ fns) (hm' : n' ∈ fns') (hk : n.name = n'.name) (hc : n.name ∉ config) (hc' : n'.name ∉ config')
    (he : n.external = false) (he' : n'.external = false) {f f' : FnObj} (ho : n.orig = some [f]) (ho' : n'.orig = some [f'])
    {t t' : PyAst} (ht : f.Parsed ops t) (ht' : f'.Parsed ops t') :
    n.name ∈ (diffVersions (nodeVersions ops (versionedGraph tighter config fns))
      (nodeVersions ops (versionedGraph tighter' config' fns'))).edit ↔ ¬ SameCode t t' := by
  have g1 := versionedGraph_function (tighter := tighter) hn hm hc he
  have g2 := versionedGraph_function (tighter := tighter') hn' hm' hc' he'
  obtain ⟨_, h2, _, _⟩ := diffCurrent_spec (nodeVersions ops (versionedGraph tighter' config' fns'))
    (nodeVersions ops (versionedGraph tighter config fns)) (by rw [keys_versions]; exact versionedGraph_nodup)
  have key := C59_code hf ht ht' ho ho'
  rw [show (diffVersions (nodeVersions ops (versionedGraph tighter config fns))
      (nodeVersions ops (versionedGraph tighter' config' fns'))).edit =
    (diffCurrent (nodeVersions ops (versionedGraph tighter' config' fns'))
      (nodeVersions ops (versionedGraph tighter config fns))).2 from rfl, h2]
  simp only [graph_key]
  rw [← hk] at g2
  rw [g1, g2, ← key]
  simp only [Option.map_some]
  obtain ⟨s, hs, hp⟩ := ht'
  have hv : n'.version ops = some (ops.sha (ops.unparse (stripDocs t'))) := by
    simp only [VNode.version, ho', hs, hashSourceCode, hp, if_true]
  constructor
  · rintro ⟨v, w, h1, h2, h3⟩ h
    cases h1
    rw [h] at h3
    exact h3 (Option.some.inj h2)
  · intro h
    exact ⟨_, _, rfl, by rw [hv], by rw [← hv]; exact h⟩

/-- **C59, version of a dataflow.**  Two dataflows have the same version iff the versions of their nodes are the same up to
order (names and edges do not matter); the command line reports the same hash whenever all nodes have a version. -/
theorem C59_dataflow {ops : SrcOps} (hf : ops.Faithful) (g g' : Dict Name VNode) :
    (graphVersion ops g = graphVersion ops g' ↔
      (g.filterMap (fun p => p.2.version ops)).Perm (g'.filterMap (fun p => p.2.version ops))) ∧
    ((∀ p ∈ g, p.2.version ops ≠ none) → hashDataflow ops (nodeVersions ops g) = .ok (graphVersion ops g)) := by
  constructor
  · constructor
    · intro h
      have := hf.shaList_inj _ _ h
      have h1 := sortBy_perm (le := strLe) (g.filterMap (fun p => p.2.version ops))
      rw [this] at h1
      exact h1.symm.trans (sortBy_perm (le := strLe) _)
    · intro h
      unfold graphVersion
      rw [sortBy_perm_eq strLe_lin h]
  · intro h
    have hany : (nodeVersions ops g).any (fun p => p.2.isNone) = false := by
      rw [List.any_eq_false]
      intro p hp
      obtain ⟨q, hq, rfl⟩ := List.mem_map.1 hp
      have := h q hq
      simp [this]
    have hfm : (nodeVersions ops g).filterMap (fun p => p.2) = g.filterMap (fun p => p.2.version ops) := by
      unfold nodeVersions
      rw [List.filterMap_map]; rfl
    unfold hashDataflow graphVersion
    rw [← hfm]
    generalize hl : nodeVersions ops g = l at hany
    cases l with
    | nil => rfl
    | cons p l =>
      obtain ⟨k, o⟩ := p
      cases l with
      | nil =>
        cases o with
        | none => simp at hany
        | some v => simp
      | cons q l => simp only [hany]; simp


/-! ### A faithful printer and hash, and sample code -/
namespace VersionSample

/-- Printing of a string so that its end can be found. -/
def encS : List Char → List Char → List Char
  | [], r => '0' :: r
  | c :: cs, r => '1' :: c :: encS cs r

theorem encS_inj : ∀ {a b r r' : List Char}, encS a r = encS b r' → a = b ∧ r = r'
  | [], [], r, r', h => by simp only [encS, List.cons.injEq, true_and] at h; exact ⟨rfl, h⟩
  | [], _ :: _, _, _, h => by simp [encS] at h
  | _ :: _, [], _, _, h => by simp [encS] at h
  | a :: as, b :: bs, r, r', h => by
    simp only [encS, List.cons.injEq, true_and] at h
    obtain ⟨rfl, h⟩ := h
    obtain ⟨rfl, rfl⟩ := encS_inj h
    exact ⟨rfl, rfl⟩

/-- Printing of a list of strings. -/
def encSL : List String → List Char → List Char
  | [], r => '0' :: r
  | s :: l, r => '1' :: encS s.toList (encSL l r)

theorem encSL_inj : ∀ {a b : List String} {r r' : List Char}, encSL a r = encSL b r' → a = b ∧ r = r'
  | [], [], r, r', h => by simp only [encSL, List.cons.injEq, true_and] at h; exact ⟨rfl, h⟩
  | [], _ :: _, _, _, h => by simp [encSL] at h
  | _ :: _, [], _, _, h => by simp [encSL] at h
  | a :: as, b :: bs, r, r', h => by
    simp only [encSL, List.cons.injEq, true_and] at h
    obtain ⟨h1, h⟩ := encS_inj h
    obtain ⟨rfl, rfl⟩ := encSL_inj h
    exact ⟨by rw [String.toList_inj.1 h1], rfl⟩

mutual
/-- Printing of a tree. -/
def encA : PyAst → List Char → List Char
  | .fnDef h e b, r => 'f' :: encS h.toList (encL e (encL b r))
  | .strExpr s, r => 's' :: encS s.toList r
  | .other l c, r => 'o' :: encS l.toList (encL c r)
/-- Printing of a list of trees. -/
def encL : List PyAst → List Char → List Char
  | [], r => '0' :: r
  | a :: l, r => '1' :: encA a (encL l r)
end

mutual
theorem encA_inj : ∀ (a b : PyAst) (r r' : List Char), encA a r = encA b r' → a = b ∧ r = r'
  | .fnDef h e c, .fnDef h' e' c', r, r', x => by
    simp only [encA, List.cons.injEq, true_and] at x
    obtain ⟨h1, x⟩ := encS_inj x
    obtain ⟨rfl, y⟩ := encL_inj e e' _ _ x
    obtain ⟨rfl, rfl⟩ := encL_inj c c' _ _ y
    exact ⟨by rw [String.toList_inj.1 h1], rfl⟩
  | .strExpr s, .strExpr s', r, r', x => by
    simp only [encA, List.cons.injEq, true_and] at x
    obtain ⟨h1, rfl⟩ := encS_inj x
    exact ⟨by rw [String.toList_inj.1 h1], rfl⟩
  | .other l c, .other l' c', r, r', x => by
    simp only [encA, List.cons.injEq, true_and] at x
    obtain ⟨h1, x⟩ := encS_inj x
    obtain ⟨rfl, rfl⟩ := encL_inj c c' _ _ x
    exact ⟨by rw [String.toList_inj.1 h1], rfl⟩
  | .fnDef _ _ _, .strExpr _, _, _, x => by simp [encA] at x
  | .fnDef _ _ _, .other _ _, _, _, x => by simp [encA] at x
  | .strExpr _, .fnDef _ _ _, _, _, x => by simp [encA] at x
  | .strExpr _, .other _ _, _, _, x => by simp [encA] at x
  | .other _ _, .fnDef _ _ _, _, _, x => by simp [encA] at x
  | .other _ _, .strExpr _, _, _, x => by simp [encA] at x
theorem encL_inj : ∀ (a b : List PyAst) (r r' : List Char), encL a r = encL b r' → a = b ∧ r = r'
  | [], [], r, r', h => by simp only [encL, List.cons.injEq, true_and] at h; exact ⟨rfl, h⟩
  | [], _ :: _, _, _, h => by simp [encL] at h
  | _ :: _, [], _, _, h => by simp [encL] at h
  | a :: as, b :: bs, r, r', h => by
    simp only [encL, List.cons.injEq, true_and] at h
    obtain ⟨rfl, y⟩ := encA_inj a b _ _ h
    obtain ⟨rfl, rfl⟩ := encL_inj as bs _ _ y
    exact ⟨rfl, rfl⟩
end

/-- The trees of some sources. -/
def sampleParse (s : String) : Option PyAst :=
  if s = "def f(x): return x + 1" then some (.fnDef "f" [.other "x" []] [.other "return x + 1" []])
  else if s = "def f(x): 'adds one'; return x + 1  # comment" then
    some (.fnDef "f" [.other "x" []] [.strExpr "adds one", .other "return x + 1" []])
  else if s = "def f(x): return x + 2" then some (.fnDef "f" [.other "x" []] [.other "return x + 2" []])
  else if s = "def a(x): return x" then some (.fnDef "a" [.other "x" []] [.other "return x" []])
  else if s = "def step(x): return x" then some (.fnDef "step" [.other "x" []] [.other "return x" []])
  else if s = "def step(x): return -x" then some (.fnDef "step" [.other "x" []] [.other "return -x" []])
  else none

def ops : SrcOps where
  trim s := s
  parse := sampleParse
  unparse t := String.ofList (encA t [])
  sha s := s
  shaList l := String.ofList (encSL l [])

theorem ops_faithful : ops.Faithful where
  sha_inj _ _ h := h
  shaList_inj _ _ h := (encSL_inj (String.ofList_inj.1 h)).1
  unparse_inj _ _ h := (encA_inj _ _ _ _ (String.ofList_inj.1 h)).1

def noTighter : Name → Name → Bool := fun _ _ => false

/-- The function `f` with the given source. -/
def fnF (src : String) : List VNode := addOriginal ⟨"f", some src⟩ [.fromFn "f" ⟨"f", some src⟩ ["x"]]

def diffOf (cur ref : List VNode) : VersionDiff :=
  diffVersions (nodeVersions ops (versionedGraph noTighter [] cur)) (nodeVersions ops (versionedGraph noTighter [] ref))

/-- Hypotheses of `C59_code` met: a docstring and a comment were added, the version stays. -/
example : (VNode.version ops ⟨"f", false, some [⟨"f", some "def f(x): return x + 1"⟩], ["x"]⟩) =
    VNode.version ops ⟨"f", false, some [⟨"f", some "def f(x): 'adds one'; return x + 1  # comment"⟩], ["x"]⟩ :=
  (C59_code ops_faithful ⟨_, rfl, rfl⟩ ⟨_, rfl, rfl⟩ rfl rfl).2
    (.fnDef (.cons (.other .nil) .nil) (.inr ⟨rfl, nofun⟩) (.inl ⟨_, rfl⟩) (.cons (.other .nil) .nil))

theorem not_same : ¬ SameCode (.fnDef "f" [.other "x" []] [.other "return x + 1" []])
    (.fnDef "f" [.other "x" []] [.other "return x + 2" []]) := by
  intro h
  have := strip_of_same h
  simp [stripDocs, stripDocsAll, dropDoc] at this

/-- Hypotheses of `C59_edited_partial` met: `f` is edited. -/
example : "f" ∈ (diffOf (fnF "def f(x): return x + 1") (fnF "def f(x): return x + 2")).edit :=
  (C59_edited_partial (n := ⟨"f", false, some [⟨"f", some "def f(x): return x + 1"⟩], ["x"]⟩)
    (n' := ⟨"f", false, some [⟨"f", some "def f(x): return x + 2"⟩], ["x"]⟩) ops_faithful (by decide) (by decide)
    (.head _) (.head _) rfl (by decide) (by decide) rfl rfl rfl rfl ⟨_, rfl, rfl⟩ ⟨_, rfl, rfl⟩).2 not_same

/-- Hypotheses of `C59_diff_partial` met: all nodes have versions. -/
example : (∀ k n, (versionedGraph noTighter [] (fnF "def f(x): return x + 1")).get? k = some n → n.version ops ≠ none) ∧
    (versionedGraph noTighter [] (fnF "def f(x): return x + 1")).keys = ["f", "x"] := by
  refine ⟨?_, by decide +kernel⟩
  intro k n h
  have := Dict.get?_mem h
  have hall : ∀ p ∈ versionedGraph noTighter [] (fnF "def f(x): return x + 1"), p.2.version ops ≠ none := by
    decide +kernel
  exact hall _ this

/-- Two functions with a step of a pipe: `f` uses the step `step`. -/
def piped (stepSrc : String) : List VNode :=
  addOriginal ⟨"f", some "def f(x): return x + 1"⟩
    [.fromFn "f.with_step" ⟨"step", some stepSrc⟩ ["x"], .fromFn "f" ⟨"f", some "def f(x): return x + 1"⟩ ["f.with_step"]]

/-- **C59, violated.**  The function used in a step of a pipe is edited: no version changes (so `diff` reports nothing, and the
cache key of the step is the old one). -/
theorem C59_violated_step : ∃ t t', (⟨"step", some "def step(x): return x"⟩ : FnObj).Parsed ops t ∧
    (⟨"step", some "def step(x): return -x"⟩ : FnObj).Parsed ops t' ∧ ¬ SameCode t t' ∧
    "f.with_step" ∈ (versionedGraph noTighter [] (piped "def step(x): return x")).keys ∧
    diffOf (piped "def step(x): return x") (piped "def step(x): return -x") = ⟨[], [], []⟩ ∧
    nodeVersions ops (versionedGraph noTighter [] (piped "def step(x): return x")) =
      nodeVersions ops (versionedGraph noTighter [] (piped "def step(x): return -x")) := by
  refine ⟨_, _, ⟨_, rfl, rfl⟩, ⟨_, rfl, rfl⟩, ?_, by decide +kernel, ?_, rfl⟩
  · intro h
    have := strip_of_same h
    simp [stripDocs, stripDocsAll, dropDoc] at this
  · unfold diffOf diffVersions
    simp only [VersionDiff.mk.injEq]
    decide +kernel

/-- **C59, violated.**  Only the body of `f` was edited, and the input `x` is reported as edited too. -/
theorem C59_violated_input :
    (diffOf (fnF "def f(x): return x + 1") (fnF "def f(x): return x + 2")).edit = ["f", "x"] := by decide +kernel

/-- The function `a`. -/
def fnA : List VNode := addOriginal ⟨"a", some "def a(x): return x"⟩ [.fromFn "a" ⟨"a", some "def a(x): return x"⟩ ["x"]]

/-- **C59, violated.**  A function `a` using the input `x` is added and nothing else touched: the input `x` is reported as
edited. -/
theorem C59_violated_added :
    (diffOf (fnA ++ fnF "def f(x): return x + 1") (fnF "def f(x): return x + 1")).currentOnly = ["a"] ∧
    (diffOf (fnA ++ fnF "def f(x): return x + 1") (fnF "def f(x): return x + 1")).edit = ["x"] := by decide +kernel

/-- **C59, violated.**  The source of a function that is defined inside something else is indented and cannot be parsed: a comment
changes the version. -/
theorem C59_violated_indented :
    (diffOf (fnF "    def f(x): return x + 1") (fnF "    def f(x): return x + 1  # comment")).edit = ["f", "x"] := by
  decide +kernel

/-- **C59, violated.**  A node whose source is not available is reported as both added and removed although nothing was
changed, and the hash of the dataflow is not computed. -/
theorem C59_violated_none :
    let g := versionedGraph noTighter [] (addOriginal ⟨"g", none⟩ [.fromFn "g" ⟨"g", none⟩ []] ++ fnF "def f(x): return x + 1")
    (diffVersions (nodeVersions ops g) (nodeVersions ops g)).currentOnly = ["g"] ∧
    (diffVersions (nodeVersions ops g) (nodeVersions ops g)).referenceOnly = ["g"] ∧
    hashDataflow ops (nodeVersions ops g) = .error "TypeError" := by
  refine ⟨by decide +kernel, by decide +kernel, rfl⟩

/-- **C59, violated.**  A function makes two nodes; exchanging their inputs in the graph (for instance
`@parameterize(**SETTINGS)` after editing the module variable `SETTINGS`) leaves all versions. -/
theorem C59_violated_edges :
    let g := versionedGraph noTighter ["p", "q"] (addOriginal ⟨"f", some "def f(x): return x + 1"⟩
      [.fromFn "u" ⟨"f", some "def f(x): return x + 1"⟩ ["p"], .fromFn "v" ⟨"f", some "def f(x): return x + 1"⟩ ["q"]])
    let g' := versionedGraph noTighter ["p", "q"] (addOriginal ⟨"f", some "def f(x): return x + 1"⟩
      [.fromFn "u" ⟨"f", some "def f(x): return x + 1"⟩ ["q"], .fromFn "v" ⟨"f", some "def f(x): return x + 1"⟩ ["p"]])
    (g.get? "u").map (·.params) = some ["p"] ∧ (g'.get? "u").map (·.params) = some ["q"] ∧
    graphVersion ops g = graphVersion ops g' ∧ (∀ k ∈ g.keys ++ g'.keys, (nodeVersions ops g).get? k = (nodeVersions ops g').get? k) := by
  refine ⟨by decide +kernel, by decide +kernel, by decide +kernel, by decide +kernel⟩

/-- `C59_dataflow` applied: adding a function changes the version of the dataflow. -/
example : graphVersion ops (versionedGraph noTighter [] (fnA ++ fnF "def f(x): return x + 1")) ≠
    graphVersion ops (versionedGraph noTighter [] (fnF "def f(x): return x + 1")) := by
  intro h
  have := ((C59_dataflow ops_faithful _ _).1.1 h).length_eq
  revert this
  decide +kernel

end VersionSample

end Verif
