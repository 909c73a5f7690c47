import Verif.Proofs.Materialize

/-!
Lemmas about the arguments of data savers and loaders.
-/
namespace Verif
variable {T V : Type}

theorem foldl_set_append {W : Type} : ∀ (l acc : Dict Name W), (acc.keys ++ l.keys).Nodup →
    l.foldl (fun d p => Dict.set d p.1 p.2) acc = acc ++ l := by
  have hset : ∀ (d : Dict Name W) (k : Name) (w : W), k ∉ d.keys → Dict.set d k w = d ++ [(k, w)] := by
    intro d k w hk
    induction d with
    | nil => rfl
    | cons p t ih =>
      obtain ⟨a, b⟩ := p
      simp only [Dict.keys, List.map_cons, List.mem_cons, not_or] at hk
      simp only [Dict.set, if_neg (Ne.symm hk.1), List.cons_append]
      rw [ih hk.2]
  intro l
  induction l with
  | nil => intro acc _; simp
  | cons m ms ih =>
    intro acc h
    obtain ⟨a, b⟩ := m
    rw [List.foldl_cons, hset acc a b ?_, ih]
    · simp
    · have : Dict.keys (acc ++ [(a, b)]) = acc.keys ++ [a] := by simp [Dict.keys]
      rw [this]; simpa [Dict.keys_cons] using h
    · intro hm
      rw [List.nodup_append] at h
      exact h.2.2 a hm a (by simp [Dict.keys_cons]) rfl

theorem get?_filterMapVals {A B : Type} (f : A → Option B) : ∀ (d : Dict Name A), d.keys.Nodup → ∀ k,
    Dict.get? (d.filterMap (fun p => (f p.2).map (fun b => (p.1, b)))) k = (d.get? k).bind f := by
  intro d
  induction d with
  | nil => intro _ k; rfl
  | cons p t ih =>
    intro hn k
    obtain ⟨a, b⟩ := p
    rw [Dict.keys_cons, List.nodup_cons] at hn
    rw [Dict.get?_cons, List.filterMap_cons]
    have hno : a = k → Dict.get? t k = none := by
      rintro rfl; exact (Dict.get?_eq_none_iff _ _).2 hn.1
    cases hf : f b with
    | none =>
      simp only [Option.map_none]
      rw [ih hn.2]
      by_cases h : a = k
      · rw [if_pos h, hno h]; simp [hf]
      · rw [if_neg h]
    | some w =>
      simp only [Option.map_some]
      rw [Dict.get?_cons, ih hn.2]
      by_cases h : a = k
      · rw [if_pos h, if_pos h]; simp [hf]
      · rw [if_neg h, if_neg h]

theorem keys_filterMapVals {A B : Type} (f : A → Option B) (d : Dict Name A) (h : d.keys.Nodup) :
    (Dict.keys (d.filterMap (fun p => (f p.2).map (fun b => (p.1, b))))).Nodup := by
  have : ∀ d : Dict Name A, List.Sublist (Dict.keys (d.filterMap (fun p => (f p.2).map (fun b => (p.1, b))))) d.keys := by
    intro d
    induction d with
    | nil => simp [Dict.keys]
    | cons p t ih =>
      rw [List.filterMap_cons]
      cases hf : f p.2 with
      | none => simp only [Option.map_none]; exact ih.cons _
      | some w => simp only [Option.map_some]; exact ih.cons_cons _
  exact h.sublist (this d)

/-- The arguments given as sources. -/
def SingleDep.asSource : SingleDep V → Option Name
  | .source s => some s
  | .value _ => none

/-- The arguments given as literals. -/
def SingleDep.asValue : SingleDep V → Option V
  | .source _ => none
  | .value v => some v

theorem kwargSources_eq (kwargs : Dict Name (SingleDep V)) :
    kwargSources kwargs = kwargs.filterMap (fun p => (p.2.asSource).map (fun b => (p.1, b))) := by
  unfold kwargSources
  congr 1
  funext p
  cases p.2 <;> rfl

theorem kwargLiterals_eq (kwargs : Dict Name (SingleDep V)) :
    kwargLiterals kwargs = kwargs.filterMap (fun p => (p.2.asValue).map (fun b => (p.1, b))) := by
  unfold kwargLiterals
  congr 1
  funext p
  cases p.2 <;> rfl

theorem kwargSources_get {kwargs : Dict Name (SingleDep V)} (h : kwargs.keys.Nodup) (p s : Name) :
    (kwargSources kwargs).get? p = some s ↔ kwargs.get? p = some (.source s) := by
  rw [kwargSources_eq, get?_filterMapVals _ _ h]
  cases kwargs.get? p with
  | none => simp
  | some d => cases d <;> simp [SingleDep.asSource]

theorem kwargLiterals_get {kwargs : Dict Name (SingleDep V)} (h : kwargs.keys.Nodup) (p : Name) (v : V) :
    (kwargLiterals kwargs).get? p = some v ↔ kwargs.get? p = some (.value v) := by
  rw [kwargLiterals_eq, get?_filterMapVals _ _ h]
  cases kwargs.get? p with
  | none => simp
  | some d => cases d <;> simp [SingleDep.asValue]

/-- Arguments that the renaming of sources keeps apart: no source is used for two arguments, and no source has the name of an
argument given as a literal. -/
structure CleanKwargs (kwargs : Dict Name (SingleDep V)) : Prop where
  nodup : kwargs.keys.Nodup
  sources : ∀ p q s, kwargs.get? p = some (.source s) → kwargs.get? q = some (.source s) → p = q
  literals : ∀ p q s v, kwargs.get? p = some (.source s) → kwargs.get? q = some (.value v) → s ≠ q

/-- Looking up the argument a source is for. -/
theorem invert_get {kwargs : Dict Name (SingleDep V)} (h : CleanKwargs kwargs) (s p : Name) :
    (invertSources (kwargSources kwargs)).get? s = some p ↔ kwargs.get? p = some (.source s) := by
  have hnod : (kwargSources kwargs).keys.Nodup := by rw [kwargSources_eq]; exact keys_filterMapVals _ _ h.nodup
  have hmem : ∀ q ∈ kwargSources kwargs, kwargs.get? q.1 = some (.source q.2) := fun q hq =>
    (kwargSources_get h.nodup _ _).1 (Dict.get?_of_mem hnod hq)
  have hvals : ∀ l : Dict Name Name, l.keys.Nodup → (∀ q ∈ l, kwargs.get? q.1 = some (.source q.2)) → (l.map (·.2)).Nodup := by
    intro l
    induction l with
    | nil => intro _ _; simp
    | cons q t ih =>
      intro hn hm
      rw [Dict.keys_cons, List.nodup_cons] at hn
      rw [List.map_cons, List.nodup_cons]
      refine ⟨?_, ih hn.2 (fun r hr => hm r (by simp [hr]))⟩
      intro hx
      obtain ⟨r, hr, he⟩ := List.mem_map.1 hx
      have h1 := hm r (by simp [hr])
      have h2 := hm q (by simp)
      rw [he] at h1
      have := h.sources _ _ _ h1 h2
      exact hn.1 (this ▸ List.mem_map.2 ⟨r, hr, rfl⟩)
  have hfold : invertSources (kwargSources kwargs) = (kwargSources kwargs).map (fun q => (q.2, q.1)) := by
    unfold invertSources
    have := foldl_set_append ((kwargSources kwargs).map (fun q => (q.2, q.1))) ([] : Dict Name Name)
      (by simpa [Dict.keys, Function.comp_def] using hvals _ hnod hmem)
    rw [List.foldl_map] at this
    simpa using this
  have hkeys : (Dict.keys ((kwargSources kwargs).map (fun q => (q.2, q.1)))).Nodup := by
    simpa [Dict.keys, Function.comp_def] using hvals _ hnod hmem
  rw [hfold]
  constructor
  · intro he
    obtain ⟨q, hq, e⟩ := List.mem_map.1 (Dict.get?_mem he)
    cases e
    exact hmem q hq
  · intro he
    apply Dict.get?_of_mem hkeys
    refine List.mem_map.2 ⟨(p, s), ?_, rfl⟩
    exact Dict.get?_mem ((kwargSources_get h.nodup _ _).2 he)

theorem invert_getD {kwargs : Dict Name (SingleDep V)} (h : CleanKwargs kwargs) {s p : Name} (hp : kwargs.get? p = some (.source s)) :
    ((invertSources (kwargSources kwargs)).get? s).getD s = p := by
  rw [(invert_get h s p).2 hp]; rfl

theorem invert_getD_other {kwargs : Dict Name (SingleDep V)} (h : CleanKwargs kwargs) {s : Name}
    (hp : ∀ p, kwargs.get? p ≠ some (.source s)) : ((invertSources (kwargSources kwargs)).get? s).getD s = s := by
  cases hi : (invertSources (kwargSources kwargs)).get? s with
  | none => rfl
  | some p => exact absurd ((invert_get h s p).1 hi) (hp p)

/-- The parameters of the node: the sources, with the type and the necessity of their arguments. -/
theorem adapterInputTypes_mem {required optional : Dict Name T} {kwargs : Dict Name (SingleDep V)} (h : CleanKwargs kwargs)
    (hargs : (required.keys ++ optional.keys).Nodup) (hv : adapterValid required optional kwargs = true) (s : Name) (t : T × DepType) :
    (s, t) ∈ adapterInputTypes required optional kwargs ↔ ∃ p, kwargs.get? p = some (.source s) ∧
      (((p, t.1) ∈ required ∧ t.2 = .required) ∨ ((p, t.1) ∈ optional ∧ t.2 = .optional)) := by
  obtain ⟨hn1, hn2, hdis⟩ := List.nodup_append.1 hargs
  unfold adapterValid at hv
  rw [Bool.and_eq_true, List.all_eq_true, List.all_eq_true] at hv
  have hreq : ∀ p ∈ required.keys, ∃ d, kwargs.get? p = some d := fun p hp => (Dict.has_eq_true_iff _ _).1 (hv.1 p hp)
  -- the two loops build a list with distinct names
  let key : Name → Name := fun p => ((kwargSources kwargs).get? p).getD p
  have key_source : ∀ p s, kwargs.get? p = some (.source s) → key p = s := by
    intro p s hp
    show ((kwargSources kwargs).get? p).getD p = s
    rw [(kwargSources_get h.nodup p s).2 hp]; rfl
  have key_value : ∀ p v, kwargs.get? p = some (.value v) → key p = p := by
    intro p v hp
    show ((kwargSources kwargs).get? p).getD p = p
    cases hs : (kwargSources kwargs).get? p with
    | none => rfl
    | some s => rw [(kwargSources_get h.nodup p s).1 hs] at hp; cases hp
  have key_inj : ∀ p q d e, kwargs.get? p = some d → kwargs.get? q = some e → key p = key q → p = q := by
    intro p q d e hp hq he
    cases d with
    | source s =>
      cases e with
      | source s' =>
        rw [key_source p s hp, key_source q s' hq] at he
        subst he; exact h.sources _ _ _ hp hq
      | value v =>
        rw [key_source p s hp, key_value q v hq] at he
        exact absurd he (h.literals _ _ _ _ hp hq)
    | value v =>
      cases e with
      | source s' =>
        rw [key_value p v hp, key_source q s' hq] at he
        exact absurd he.symm (h.literals _ _ _ _ hq hp)
      | value w => rw [key_value p v hp, key_value q w hq] at he; exact he
  let E1 : Dict Name (T × DepType) := required.map (fun p => (key p.1, (p.2, .required)))
  let E2 : Dict Name (T × DepType) := optional.filterMap (fun p =>
    ((kwargSources kwargs).get? p.1).map (fun s => (s, (p.2, .optional))))
  have hE1 : required.foldl (fun (d : Dict Name (T × DepType)) p =>
      d.set (((kwargSources kwargs).get? p.1).getD p.1) (p.2, .required)) [] = E1 := by
    have hk : E1.keys = required.keys.map key := by simp [E1, Dict.keys, Function.comp_def]
    have := foldl_set_append E1 [] (by
      rw [hk]
      simp only [Dict.keys, List.map_nil, List.nil_append]
      refine nodup_map_on hn1 ?_
      intro a ha b hb he
      obtain ⟨d, hd⟩ := hreq a ha
      obtain ⟨e, he'⟩ := hreq b hb
      exact key_inj a b d e hd he' he)
    show _ = E1
    rw [List.nil_append] at this
    conv => rhs; rw [← this]
    rw [List.foldl_map]
  have hfold2 : ∀ (l : Dict Name T) (acc : Dict Name (T × DepType)),
      l.foldl (addOptional (kwargSources kwargs)) acc =
      (l.filterMap (fun p => ((kwargSources kwargs).get? p.1).map (fun s => (s, ((p.2, .optional) : T × DepType))))).foldl
        (fun d p => Dict.set d p.1 p.2) acc := by
    intro l
    induction l with
    | nil => intro acc; rfl
    | cons p t ih =>
      intro acc
      rw [List.foldl_cons, ih, List.filterMap_cons]
      unfold addOptional
      cases hs : (kwargSources kwargs).get? p.1 with
      | none => rfl
      | some s => simp only [Option.map_some, List.foldl_cons]
  have hE2mem : ∀ s t, (s, t) ∈ E2 ↔ ∃ p, kwargs.get? p = some (.source s) ∧ (p, t.1) ∈ optional ∧ t.2 = .optional := by
    intro s t
    constructor
    · intro hm
      obtain ⟨p, hp, he⟩ := List.mem_filterMap.1 hm
      cases hs : (kwargSources kwargs).get? p.1 with
      | none => rw [hs] at he; cases he
      | some s' =>
        rw [hs] at he
        cases he
        exact ⟨p.1, (kwargSources_get h.nodup _ _).1 hs, hp, rfl⟩
    · rintro ⟨p, h1, h2, h3⟩
      refine List.mem_filterMap.2 ⟨(p, t.1), h2, ?_⟩
      rw [(kwargSources_get h.nodup p s).2 h1]
      obtain ⟨a, b⟩ := t
      cases h3
      rfl
  have hE2keys : ∀ l : Dict Name T, l.keys.Nodup →
      (Dict.keys (l.filterMap (fun p => ((kwargSources kwargs).get? p.1).map (fun s => (s, ((p.2, .optional) : T × DepType)))))).Nodup := by
    intro l
    induction l with
    | nil => intro _; simp [Dict.keys]
    | cons p t ih =>
      intro hn
      rw [Dict.keys_cons, List.nodup_cons] at hn
      rw [List.filterMap_cons]
      cases hs : (kwargSources kwargs).get? p.1 with
      | none => exact ih hn.2
      | some s =>
        simp only [Option.map_some]
        rw [Dict.keys_cons, List.nodup_cons]
        refine ⟨?_, ih hn.2⟩
        intro hm
        obtain ⟨q, hq, rfl⟩ := List.mem_map.1 hm
        obtain ⟨r, hr, he⟩ := List.mem_filterMap.1 hq
        cases hs' : (kwargSources kwargs).get? r.1 with
        | none => rw [hs'] at he; cases he
        | some s' =>
          rw [hs'] at he
          cases he
          have := h.sources _ _ _ ((kwargSources_get h.nodup _ _).1 hs) ((kwargSources_get h.nodup _ _).1 hs')
          exact hn.1 (this ▸ List.mem_map.2 ⟨r, hr, rfl⟩)
  have hall : adapterInputTypes required optional kwargs = (E1 ++ E2).filter (fun p => !(kwargLiterals kwargs).has p.1) := by
    unfold adapterInputTypes
    dsimp only
    rw [hE1, hfold2]
    rw [foldl_set_append]
    rw [List.nodup_append]
    refine ⟨?_, hE2keys optional hn2, ?_⟩
    · have hk : E1.keys = required.keys.map key := by simp [E1, Dict.keys, Function.comp_def]
      rw [hk]
      refine nodup_map_on hn1 ?_
      intro a ha b hb he
      obtain ⟨d, hd⟩ := hreq a ha
      obtain ⟨e, he'⟩ := hreq b hb
      exact key_inj a b d e hd he' he
    · intro a ha b hb hab
      subst hab
      obtain ⟨q, hq, rfl⟩ := List.mem_map.1 ha
      obtain ⟨r, hr, rfl⟩ := List.mem_map.1 hq
      obtain ⟨d, hd⟩ := hreq r.1 (List.mem_map.2 ⟨r, hr, rfl⟩)
      obtain ⟨q', hq', he⟩ := List.mem_map.1 hb
      obtain ⟨p, hp, hpo, _⟩ := (hE2mem q'.1 q'.2).1 hq'
      have hko : p ∈ optional.keys := List.mem_map.2 ⟨_, hpo, rfl⟩
      have : key r.1 = key p := by rw [key_source p _ hp]; exact he.symm
      have := key_inj r.1 p d _ hd hp this
      exact hdis r.1 (List.mem_map.2 ⟨r, hr, rfl⟩) p hko this
  rw [hall, List.mem_filter, List.mem_append, hE2mem]
  constructor
  · rintro ⟨hm | ⟨p, h1, h2, h3⟩, hlit⟩
    · obtain ⟨q, hq, he⟩ := List.mem_map.1 hm
      obtain ⟨d, hd⟩ := hreq q.1 (List.mem_map.2 ⟨q, hq, rfl⟩)
      cases d with
      | source s' =>
        rw [key_source q.1 s' hd] at he
        cases he
        exact ⟨q.1, hd, .inl ⟨hq, rfl⟩⟩
      | value v =>
        rw [key_value q.1 v hd] at he
        cases he
        simp only [Bool.not_eq_true', Dict.has_eq_false_iff] at hlit
        rw [(kwargLiterals_get h.nodup _ v).2 hd] at hlit
        cases hlit
    · exact ⟨p, h1, .inr ⟨h2, h3⟩⟩
  · rintro ⟨p, h1, h2⟩
    refine ⟨?_, ?_⟩
    · rcases h2 with ⟨h2, h3⟩ | ⟨h2, h3⟩
      · refine .inl (List.mem_map.2 ⟨(p, t.1), h2, ?_⟩)
        show (key p, _) = _
        rw [key_source p s h1]
        obtain ⟨a, b⟩ := t
        cases h3; rfl
      · exact .inr ⟨p, h1, h2, h3⟩
    · simp only [Bool.not_eq_true', Dict.has_eq_false_iff]
      cases hl : (kwargLiterals kwargs).get? s with
      | none => rfl
      | some v => exact absurd rfl (h.literals _ _ _ _ h1 ((kwargLiterals_get h.nodup _ _).1 hl))

/-- Renaming keyword arguments. -/
theorem renamedArgs_get {types : Dict Name (T × DepType)} (hn : types.keys.Nodup) {f : Name → Name}
    (hinj : ∀ a ∈ types.keys, ∀ b ∈ types.keys, f a = f b → a = b) (val : Name → Option V) :
    (∀ s ∈ types.keys, ((argsFor types val).foldl (fun d q => Dict.set d (f q.1) q.2) []).get? (f s) = val s) ∧
    (∀ p, (∀ s ∈ types.keys, f s ≠ p) → ((argsFor types val).foldl (fun d q => Dict.set d (f q.1) q.2) []).get? p = none) ∧
    ((argsFor types val).foldl (fun d q => Dict.set d (f q.1) q.2) []).keys.Nodup := by
  have hsub : ∀ l : Dict Name (T × DepType), List.Sublist (Dict.keys (argsFor l val)) l.keys := by
    intro l
    unfold argsFor
    induction l with
    | nil => simp [Dict.keys]
    | cons p t ih =>
      rw [List.filterMap_cons]
      cases val p.1 with
      | none => simp only [Option.map_none]; exact ih.cons _
      | some w => simp only [Option.map_some]; exact ih.cons_cons _
  have hk := hn.sublist (hsub types)
  have hkeys : (Dict.keys ((argsFor types val).map (fun q => (f q.1, q.2)))).Nodup := by
    have : Dict.keys ((argsFor types val).map (fun q => (f q.1, q.2))) = (Dict.keys (argsFor types val)).map f := by
      simp [Dict.keys, Function.comp_def]
    rw [this]
    exact nodup_map_on hk (fun a ha b hb => hinj a ((hsub types).mem ha) b ((hsub types).mem hb))
  have hfold : (argsFor types val).foldl (fun d q => Dict.set d (f q.1) q.2) [] = (argsFor types val).map (fun q => (f q.1, q.2)) := by
    have := foldl_set_append ((argsFor types val).map (fun q => (f q.1, q.2))) [] (by simpa [Dict.keys] using hkeys)
    rw [List.foldl_map] at this
    simpa using this
  rw [hfold]
  refine ⟨?_, ?_, hkeys⟩
  · intro s hs
    cases hv : val s with
    | some w =>
      apply Dict.get?_of_mem hkeys
      refine List.mem_map.2 ⟨(s, w), ?_, rfl⟩
      obtain ⟨p, hp, rfl⟩ := List.mem_map.1 hs
      exact List.mem_filterMap.2 ⟨p, hp, by rw [hv]; rfl⟩
    | none =>
      rw [Dict.get?_eq_none_iff]
      intro hm
      obtain ⟨q, hq, he⟩ := List.mem_map.1 hm
      obtain ⟨r, hr, rfl⟩ := List.mem_map.1 hq
      obtain ⟨p, hp, he'⟩ := List.mem_filterMap.1 hr
      cases hp1 : val p.1 with
      | none => rw [hp1] at he'; cases he'
      | some w =>
        rw [hp1] at he'
        cases he'
        have := hinj p.1 (List.mem_map.2 ⟨p, hp, rfl⟩) s hs he
        rw [this] at hp1
        rw [hp1] at hv; cases hv
  · intro p hp
    rw [Dict.get?_eq_none_iff]
    intro hm
    obtain ⟨q, hq, he⟩ := List.mem_map.1 hm
    obtain ⟨r, hr, rfl⟩ := List.mem_map.1 hq
    have : r.1 ∈ Dict.keys (argsFor types val) := List.mem_map.2 ⟨r, hr, rfl⟩
    exact hp r.1 ((hsub types).mem this) he

end Verif
