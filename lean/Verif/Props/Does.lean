import Verif.Spec.Does

/-! **C63**: `@does`. -/
namespace Verif

section
variable {V : Type}

theorem get?_none_of_not_mem_map {m : Dict Name Name} {k : Name} (h : k ∉ m.map (·.1)) : m.get? k = none :=
  (Dict.get?_eq_none_iff m k).mpr h

/-- The loop, when the first part `P` of the mapping is done. -/
theorem mapLoop_spec {kw : Dict Name V} {m : Dict Name Name} (hk : m.keys.Nodup) (hr : Renaming m)
    (hin : ∀ p ∈ m, ∃ v, kw.get? p.2 = some v) :
    ∀ (S P : Dict Name Name) (out : Dict Name V), m = P ++ S →
      (∀ k, out.get? k = match P.get? k with
        | some orig => kw.get? orig
        | none => if ∃ p ∈ P, p.2 = k ∧ p.1 ∉ m.map (·.2) then none else kw.get? k) →
      ∃ res, mapLoop kw (m.map (·.2)) S out = some res ∧ ∀ k, res.get? k = doesArg m (fun p => kw.get? p) k
  | [], P, out, hm, hinv => by
    refine ⟨out, rfl, fun k => ?_⟩
    rw [List.append_nil] at hm
    subst hm
    rw [hinv k]
    unfold doesArg
    cases hg : m.get? k with
    | some orig => rfl
    | none =>
      simp only
      have hnk : k ∉ m.map (·.1) := (Dict.get?_eq_none_iff m k).mp hg
      by_cases hv : k ∈ m.map (·.2)
      · rw [if_pos hv, if_pos]
        obtain ⟨p, hp, rfl⟩ := List.mem_map.mp hv
        exact ⟨p, hp, rfl, fun hc => hnk ((hr.closed p hp).mp hc)⟩
      · rw [if_neg hv, if_neg]
        rintro ⟨p, hp, rfl, _⟩
        exact hv (List.mem_map.mpr ⟨p, hp, rfl⟩)
  | (x, y) :: S, P, out, hm, hinv => by
    have hmem : (x, y) ∈ m := by rw [hm]; simp
    obtain ⟨v, hv⟩ := hin _ hmem
    have hxP : x ∉ P.map (·.1) := by
      intro hc
      have hk' := hk
      rw [hm, Dict.keys, List.map_append, List.nodup_append] at hk'
      exact hk'.2.2 x hc x (by simp) rfl
    have hyP : y ∉ P.map (·.2) := by
      intro hc
      have ho := hr.once
      rw [hm, List.map_append, List.nodup_append] at ho
      exact ho.2.2 y hc y (by simp) rfl
    have hPx : P.get? x = none := get?_none_of_not_mem_map hxP
    have happ : ∀ k, (P ++ [(x, y)]).get? k = (P.get? k).or (if x = k then some y else none) := by
      intro k
      rw [Dict.get?_append]
      rfl
    unfold mapLoop
    by_cases hval : x ∈ m.map (·.2)
    · have hs : mapStep kw (m.map (·.2)) out x y = some (out.set x v) := by
        have hc : (m.map (·.2)).contains x = true := by simpa using hval
        simp only [mapStep, hv, hc, if_true]
      rw [hs]
      refine mapLoop_spec hk hr hin S (P ++ [(x, y)]) _ (by rw [hm]; simp) fun k => ?_
      rw [happ, Dict.get?_set]
      by_cases hxk : x = k
      · subst hxk
        rw [hPx]
        simp [hv]
      · rw [if_neg hxk, if_neg hxk, hinv k]
        have hiff : (∃ p ∈ P ++ [(x, y)], p.2 = k ∧ p.1 ∉ m.map (·.2)) ↔ ∃ p ∈ P, p.2 = k ∧ p.1 ∉ m.map (·.2) := by
          constructor
          · rintro ⟨p, hp, h1, h2⟩
            rcases List.mem_append.mp hp with hp | hp
            · exact ⟨p, hp, h1, h2⟩
            · obtain rfl := List.mem_singleton.mp hp
              exact absurd hval h2
          · rintro ⟨p, hp, h⟩
            exact ⟨p, List.mem_append.mpr (Or.inl hp), h⟩
        cases hg : P.get? k with
        | some o => rfl
        | none => simp only [Option.or_none, hiff]
    · have hyk : y ∉ m.map (·.1) := fun hc => hval ((hr.closed _ hmem).mpr hc)
      have hxy : x ≠ y := fun h => hval (h ▸ List.mem_map.mpr ⟨_, hmem, rfl⟩)
      have hPy : P.get? y = none := get?_none_of_not_mem_map fun hc => hyk (by
        rw [hm, List.map_append]; exact List.mem_append.mpr (Or.inl hc))
      have hhas : out.has y = true := by
        rw [Dict.has_eq_true_iff]
        refine ⟨v, ?_⟩
        rw [hinv y, hPy]
        simp only
        rw [if_neg]
        · exact hv
        · rintro ⟨p, hp, rfl, _⟩
          exact hyP (List.mem_map.mpr ⟨p, hp, rfl⟩)
      have hs : mapStep kw (m.map (·.2)) out x y = some ((out.del y).set x v) := by
        have hc : (m.map (·.2)).contains x = false := by
          rw [List.contains_eq_mem]; exact decide_eq_false hval
        simp only [mapStep, hv, hc, Bool.false_eq_true, if_false, hhas, if_true]
      rw [hs]
      refine mapLoop_spec hk hr hin S (P ++ [(x, y)]) _ (by rw [hm]; simp) fun k => ?_
      rw [happ, Dict.get?_set]
      by_cases hxk : x = k
      · subst hxk
        rw [hPx]
        simp [hv]
      · rw [if_neg hxk, if_neg hxk, Dict.get?_del]
        by_cases hyk' : y = k
        · subst hyk'
          rw [hPy, Option.or_none]
          simp only [if_true]
          rw [if_pos]
          exact ⟨(x, y), by simp, rfl, hval⟩
        · have hiff : (∃ p ∈ P ++ [(x, y)], p.2 = k ∧ p.1 ∉ m.map (·.2)) ↔ ∃ p ∈ P, p.2 = k ∧ p.1 ∉ m.map (·.2) := by
            constructor
            · rintro ⟨p, hp, h1, h2⟩
              rcases List.mem_append.mp hp with hp | hp
              · exact ⟨p, hp, h1, h2⟩
              · obtain rfl := List.mem_singleton.mp hp
                exact absurd h1 hyk'
            · rintro ⟨p, hp, h⟩
              exact ⟨p, List.mem_append.mpr (Or.inl hp), h⟩
          have hky : ¬ k = y := fun h => hyk' h.symm
          simp only [hyk', if_false, hky, hinv k]
          cases hg : P.get? k with
          | some o => rfl
          | none => simp only [Option.or_none, hiff]

/-- Renaming keyword arguments. -/
theorem mapKwargs_spec {kw : Dict Name V} {m : Dict Name Name} (hk : m.keys.Nodup) (hr : Renaming m)
    (hin : ∀ p ∈ m, ∃ v, kw.get? p.2 = some v) :
    ∃ res, mapKwargs kw m = some res ∧ ∀ k, res.get? k = doesArg m (fun p => kw.get? p) k :=
  mapLoop_spec hk hr hin m [] kw rfl (fun k => by simp)

/-! ### Only the names matter for errors -/

/-- The same names have values. -/
def SameKeys {V W : Type} (a : Dict Name V) (b : Dict Name W) : Prop := ∀ k, (a.get? k).isSome = (b.get? k).isSome

theorem sameKeys_mem {W : Type} {a : Dict Name V} {b : Dict Name W} (h : SameKeys a b) (k : Name) : k ∈ a.keys ↔ k ∈ b.keys := by
  rw [← Dict.has_iff, ← Dict.has_iff]
  exact iff_of_eq (congrArg (· = true) (h k))

theorem bindKw_congr {sig : List (PyParam V)} {a b : List Name} (h : ∀ k, k ∈ a ↔ k ∈ b) : bindKw sig a = bindKw sig b := by
  have h1 : ∀ k, a.contains k = b.contains k := by
    intro k
    rw [List.contains_eq_mem, List.contains_eq_mem]
    exact decide_eq_decide.mpr (h k)
  have h2 : ∀ f : Name → Bool, a.all f = b.all f := by
    intro f
    rw [Bool.eq_iff_iff, List.all_eq_true, List.all_eq_true]
    exact ⟨fun hh k hk => hh k ((h k).mpr hk), fun hh k hk => hh k ((h k).mp hk)⟩
  unfold bindKw
  rw [h2]
  simp only [h1]

theorem mapLoop_same {W : Type} {kw : Dict Name V} {kw' : Dict Name W} (h : SameKeys kw kw') (vals : List Name) :
    ∀ (m : Dict Name Name) (out : Dict Name V) (out' : Dict Name W), SameKeys out out' →
      (mapLoop kw vals m out = none ∧ mapLoop kw' vals m out' = none) ∨
      ∃ r r', mapLoop kw vals m out = some r ∧ mapLoop kw' vals m out' = some r' ∧ SameKeys r r'
  | [], out, out', ho => Or.inr ⟨out, out', rfl, rfl, ho⟩
  | (x, y) :: m, out, out', ho => by
    unfold mapLoop mapStep
    have hy := h y
    cases hv : kw.get? y with
    | none =>
      rw [hv] at hy
      cases hv' : kw'.get? y with
      | none => exact Or.inl ⟨rfl, rfl⟩
      | some w => rw [hv'] at hy; cases hy
    | some v =>
      rw [hv] at hy
      cases hv' : kw'.get? y with
      | none => rw [hv'] at hy; cases hy
      | some w =>
        simp only
        have hset : ∀ {o : Dict Name V} {o' : Dict Name W}, SameKeys o o' → SameKeys (o.set x v) (o'.set x w) := by
          intro o o' hoo k
          rw [Dict.get?_set, Dict.get?_set]
          by_cases hxk : x = k
          · simp [hxk]
          · simp [hxk, hoo k]
        cases hc : vals.contains x with
        | true => exact mapLoop_same h vals m _ _ (hset ho)
        | false =>
          have hh : out.has y = out'.has y := ho y
          cases hb : out.has y with
          | false => rw [hb] at hh; simp [← hh]
          | true =>
            rw [hb] at hh
            simp only [← hh, Bool.false_eq_true, if_false, if_true]
            refine mapLoop_same h vals m _ _ (hset fun k => ?_)
            rw [Dict.get?_del, Dict.get?_del]
            by_cases hyk : y = k
            · simp [hyk]
            · have := ho k
              simp only [hyk, if_false, this]

theorem doesDefaults_get {params : List (PyParam V)} (hn : (params.map (·.name)).Nodup) (k : Name) :
    (doesDefaults params).get? k = (params.find? (fun q => q.name == k)).bind (·.dflt) := by
  induction params with
  | nil => rfl
  | cons p ps ih =>
    simp only [List.map_cons, List.nodup_cons] at hn
    have ih := ih hn.2
    unfold doesDefaults at ih ⊢
    by_cases hpk : p.name = k
    · subst hpk
      have hnone : ps.find? (fun q => q.name == p.name) = none := by
        rw [List.find?_eq_none]
        intro q hq hc
        exact hn.1 (List.mem_map.mpr ⟨q, hq, by simpa using hc⟩)
      rw [hnone] at ih
      rw [List.find?_cons_of_pos (by simp)]
      cases hd : p.dflt with
      | none => simp only [List.filterMap_cons, hd, Option.map_none]; rw [ih]; simp [hd]
      | some v => simp [hd, Dict.get?]
    · rw [List.find?_cons_of_neg (by simpa using hpk), ← ih]
      cases hd : p.dflt with
      | none => simp only [List.filterMap_cons, hd, Option.map_none]
      | some v => simp [hd, Dict.get?, hpk]

/-- What the wrapper hands to `map_kwargs`: the given values on top of the defaults. -/
theorem merged_get {params : List (PyParam V)} (hn : (params.map (·.name)).Nodup) {kw : Dict Name V} (hk : kw.keys.Nodup) (k : Name) :
    ((doesDefaults params).merge kw).get? k = paramValue params kw k := by
  rw [Dict.get?_merge _ _ hk, doesDefaults_get hn]
  unfold paramValue
  cases kw.get? k <;> rfl

theorem dummy_get (params : List (PyParam V)) (k : Name) :
    (Dict.get? (params.map fun p => (p.name, ())) k).isSome = (params.map (·.name)).contains k := by
  rw [Bool.eq_iff_iff, ← Dict.has, Dict.has_iff, List.contains_eq_mem, decide_eq_true_eq, Dict.keys, List.map_map]
  rfl

/-- A legal call of the decorated function: values for parameters only, and for all parameters without default. -/
def LegalCall (params : List (PyParam V)) (kw : Dict Name V) : Prop :=
  kw.keys.Nodup ∧ (∀ k ∈ kw.keys, k ∈ params.map (·.name)) ∧ ∀ p ∈ params, p.dflt = none → p.name ∈ kw.keys

theorem paramValue_isSome {params : List (PyParam V)} {kw : Dict Name V}
    (hc : LegalCall params kw) (k : Name) : (paramValue params kw k).isSome = (params.map (·.name)).contains k := by
  obtain ⟨_, h2, h3⟩ := hc
  unfold paramValue
  rw [Bool.eq_iff_iff, List.contains_eq_mem, decide_eq_true_eq]
  cases hg : kw.get? k with
  | some v => simpa using h2 k (Dict.mem_keys_iff.mpr ⟨v, hg⟩)
  | none =>
    have hnk : k ∉ kw.keys := (Dict.get?_eq_none_iff kw k).mp hg
    constructor
    · intro hs
      cases hf : params.find? (fun q => q.name == k) with
      | none => rw [hf] at hs; cases hs
      | some q =>
        have := List.find?_some hf
        exact List.mem_map.mpr ⟨q, List.mem_of_find?_eq_some hf, by simpa using this⟩
    · intro hm
      obtain ⟨p, hp, rfl⟩ := List.mem_map.mp hm
      cases hf : params.find? (fun q => q.name == p.name) with
      | none => rw [List.find?_eq_none] at hf; exact absurd (hf p hp) (by simp)
      | some q =>
        have hq := List.find?_some hf
        cases hd : q.dflt with
        | some v => simp [hd]
        | none =>
          have := h3 q (List.mem_of_find?_eq_some hf) hd
          rw [show q.name = p.name by simpa using hq] at this
          exact absurd this hnk

theorem doesValidate_none {fn : DoesFn V} {repl : List (PyParam V)} {m : Dict Name Name} (hv : doesValidate fn repl m = none) :
    ∃ dummy, mapKwargs (fn.params.map fun p => (p.name, ())) m = some dummy ∧ bindKw repl dummy.keys = true := by
  unfold doesValidate at hv
  cases h1 : isEmptyFn fn.doc fn.body with
  | false => simp [h1] at hv
  | true =>
    cases h2 : fn.params.any (fun p => p.kind != .named) with
    | true => simp [h1, h2] at hv
    | false =>
      cases hd : mapKwargs (fn.params.map fun p => (p.name, ())) m with
      | none => simp [h1, h2, hd] at hv
      | some dummy =>
        refine ⟨dummy, rfl, ?_⟩
        cases hb : bindKw repl dummy.keys with
        | true => rfl
        | false => simp [h1, h2, hd, hb] at hv

theorem does_args {fn : DoesFn V} {repl : List (PyParam V)} {m : Dict Name Name}
    (hn : (fn.params.map (·.name)).Nodup) (hv : doesValidate fn repl m = none) {kw : Dict Name V} (hc : LegalCall fn.params kw) :
    SameKeys ((doesDefaults fn.params).merge kw) (fn.params.map fun p => (p.name, ())) ∧
    ∃ args, mapKwargs ((doesDefaults fn.params).merge kw) m = some args ∧ bindKw repl args.keys = true := by
  have hsame : SameKeys ((doesDefaults fn.params).merge kw) (fn.params.map fun p => (p.name, ())) := by
    intro k
    rw [merged_get hn hc.1, paramValue_isSome hc, dummy_get]
  refine ⟨hsame, ?_⟩
  obtain ⟨dummy, hd, hb⟩ := doesValidate_none hv
  unfold mapKwargs at hd ⊢
  rcases mapLoop_same hsame (m.map (·.2)) m _ _ hsame with ⟨_, h2⟩ | ⟨r, r', h1, h2, h3⟩
  · rw [h2] at hd; cases hd
  · rw [h2] at hd; cases hd
    exact ⟨r, h1, by rw [bindKw_congr (sameKeys_mem h3)]; exact hb⟩

/-- **C63** (what is accepted can be called): if the decorator accepts a function, every legal call of it ends up as a call of
the replacing function with arguments that fit its signature, whatever the mapping. -/
theorem C63_callable (fn : DoesFn V) (repl : List (PyParam V)) (call : Dict Name V → Except UserErr V) (m : Dict Name Name)
    (hn : (fn.params.map (·.name)).Nodup) (hv : doesValidate fn repl m = none) (kw : Dict Name V) (hc : LegalCall fn.params kw) :
    ∃ args, doesCall fn repl call m kw = call args ∧ bindKw repl args.keys = true := by
  obtain ⟨_, args, h1, h2⟩ := does_args hn hv hc
  refine ⟨args, ?_, h2⟩
  unfold doesCall
  simp only [h1, h2, if_true]

theorem mapLoop_in {kw : Dict Name V} {vals : List Name} : ∀ {m : Dict Name Name} {out r : Dict Name V},
    mapLoop kw vals m out = some r → ∀ p ∈ m, ∃ v, kw.get? p.2 = some v
  | [], _, _, _, p, hp => by cases hp
  | (x, y) :: rest, out, r, h, p, hp => by
    unfold mapLoop at h
    cases hs : mapStep kw vals out x y with
    | none => rw [hs] at h; cases h
    | some o =>
      rw [hs] at h
      rcases List.mem_cons.mp hp with rfl | hp
      · unfold mapStep at hs
        cases hg : kw.get? y with
        | none => rw [hg] at hs; cases hs
        | some v => exact ⟨v, rfl⟩
      · exact mapLoop_in h p hp

/-- **C63** (what it is called with): if the mapping is a renaming of parameters, the replacing function gets every mapped
parameter under its new name and every other parameter under its own (unless that is a new name of another one, see
`C63_violated_dropped`), with the value given or the default, and nothing else. What is missing for the full claim: mappings that are no renamings, see the violations. -/
theorem C63_arguments_partial (fn : DoesFn V) (repl : List (PyParam V)) (call : Dict Name V → Except UserErr V) (m : Dict Name Name)
    (hn : (fn.params.map (·.name)).Nodup) (hk : m.keys.Nodup) (hr : Renaming m) (hv : doesValidate fn repl m = none)
    (kw : Dict Name V) (hc : LegalCall fn.params kw) :
    ∃ args, doesCall fn repl call m kw = call args ∧ ∀ k, args.get? k = doesArg m (paramValue fn.params kw) k := by
  obtain ⟨_, args, h1, h2⟩ := does_args hn hv hc
  obtain ⟨res, h3, h4⟩ := mapKwargs_spec hk hr (mapLoop_in h1)
  rw [h1] at h3; cases h3
  refine ⟨args, by unfold doesCall; simp only [h1, h2, if_true], fun k => ?_⟩
  rw [h4 k]
  unfold doesArg
  simp only [merged_get hn hc.1]

theorem isEmptyFn_iff (doc : Bool) {b : PyBody} : isEmptyFn doc b = true ↔ (b = .empty ∨ ∃ c, b = .ret c) := by
  cases b <;> cases doc <;> simp [isEmptyFn, compileBody]

/-- **C63** (what is accepted): for such mappings of existing parameters the decorator accepts exactly the functions that are empty (or only
return a constant) with keyword-friendly parameters such that the renamed parameters fit
the signature of the replacing function: those without default are supplied, and all are known (or there is a `**kwargs`). -/
theorem C63_accepts_partial (fn : DoesFn V) (repl : List (PyParam V)) (m : Dict Name Name)
    (hk : m.keys.Nodup) (hr : Renaming m) (hin : ∀ p ∈ m, p.2 ∈ fn.params.map (·.name)) :
    doesValidate fn repl m = none ↔
      (fn.body = .empty ∨ ∃ c, fn.body = .ret c) ∧ (∀ p ∈ fn.params, p.kind = .named) ∧
      let supplied : Name → Prop := fun k => (doesArg m (fun p => if p ∈ fn.params.map (·.name) then some () else none) k).isSome = true
      (∀ q ∈ repl, q.dflt = none → q.kind = .named → supplied q.name) ∧ (∀ q ∈ repl, q.kind = .posOnly → q.dflt ≠ none) ∧
      ((∃ q ∈ repl, q.kind = .varKw) ∨ ∀ k, supplied k → ∃ q ∈ repl, q.kind = .named ∧ q.name = k) := by
  have hin' : ∀ p ∈ m, ∃ v, Dict.get? (fn.params.map fun p => (p.name, ())) p.2 = some v := by
    intro p hp
    rw [← Option.isSome_iff_exists, dummy_get, List.contains_eq_mem, decide_eq_true_eq]
    exact hin p hp
  obtain ⟨res, h3, h4⟩ := mapKwargs_spec hk hr hin'
  have hget : ∀ k, Dict.get? (fn.params.map fun p => (p.name, ())) k = if k ∈ fn.params.map (·.name) then some () else none := by
    intro k
    have h := dummy_get fn.params k
    rw [List.contains_eq_mem] at h
    cases hg : Dict.get? (fn.params.map fun p => (p.name, ())) k with
    | none => rw [hg] at h; rw [if_neg]; simpa using h.symm
    | some u => rw [hg] at h; rw [if_pos]; simpa using h.symm
  have hkeys : ∀ k, k ∈ res.keys ↔ (doesArg m (fun p => if p ∈ fn.params.map (·.name) then some () else none) k).isSome = true := by
    intro k
    rw [← Dict.has_iff, Dict.has, h4 k]
    simp only [hget]
  have hbind : bindKw repl res.keys = true ↔
      (∀ q ∈ repl, q.dflt = none → q.kind = .named → q.name ∈ res.keys) ∧ (∀ q ∈ repl, q.kind = .posOnly → q.dflt ≠ none) ∧
      ((∃ q ∈ repl, q.kind = .varKw) ∨ ∀ k, k ∈ res.keys → ∃ q ∈ repl, q.kind = .named ∧ q.name = k) := by
    unfold bindKw
    simp only [Bool.and_eq_true, Bool.or_eq_true, List.all_eq_true, List.any_eq_true, beq_iff_eq, List.contains_eq_mem,
      decide_eq_true_eq]
    constructor
    · rintro ⟨h1, h2⟩
      refine ⟨fun q hq hd hkd => ?_, fun q hq hkd hd => ?_, h2⟩
      · have := h1 q hq
        simp [hd, hkd] at this
        exact this
      · have := h1 q hq
        simp [hd, hkd] at this
    · rintro ⟨h1, h2, h3⟩
      refine ⟨fun q hq => ?_, h3⟩
      have e1 := h1 q hq
      have e2 := h2 q hq
      cases hd : q.dflt with
      | some v => simp
      | none =>
        cases hkd : q.kind with
        | named => simp [e1 hd hkd]
        | posOnly => exact absurd hd (e2 hkd)
        | varPos => simp
        | varKw => simp
  have hnamed : (fn.params.any (fun p => p.kind != .named) = false) ↔ ∀ p ∈ fn.params, p.kind = .named := by
    simp [List.any_eq_false]
  unfold doesValidate
  rw [h3]
  simp only [hkeys] at hbind
  simp only [← hbind, ← hnamed, ← isEmptyFn_iff fn.doc]
  cases isEmptyFn fn.doc fn.body <;> cases fn.params.any (fun p => p.kind != .named) <;> cases bindKw repl res.keys <;> simp

end

namespace DoesSample

/-- A parameter without default. -/
def req (n : Name) : PyParam Int := ⟨n, .named, none⟩
/-- A parameter with default. -/
def opt (n : Name) (v : Int) : PyParam Int := ⟨n, .named, some v⟩
/-- `**kwargs` -/
def rest : PyParam Int := ⟨"kwargs", .varKw, none⟩

/-- `def f(x, y, z=7): pass` -/
def fn : DoesFn Int := ⟨[req "x", req "y", opt "z" 7], true, .empty⟩
/-- `def g(a, y, **kwargs)` -/
def repl : List (PyParam Int) := [req "a", req "y", rest]
/-- `@does(g, a="x")` -/
def toA : Dict Name Name := [("a", "x")]
/-- `@does(g, x="y", y="x")` -/
def swap : Dict Name Name := [("x", "y"), ("y", "x")]

theorem toA_renaming : Renaming toA := ⟨by decide, by decide⟩
theorem swap_renaming : Renaming swap := ⟨by decide, by decide⟩

/-- Returns the arguments in a fixed order as digits, 9 for a missing one. -/
def digits (names : List Name) (args : Dict Name Int) : Except UserErr Int :=
  .ok (names.foldl (fun acc n => acc * 10 + (args.get? n).getD 9) 0)

/-- The result as plain data. -/
def shown (r : Except UserErr Int) : Int × String := match r with
  | .ok v => (v, "")
  | .error e => (0, e)

example : doesValidate fn repl toA = none ∧ LegalCall fn.params [("x", 1), ("y", 2)] ∧
    shown (doesCall fn repl (digits ["a", "x", "y", "z"]) toA [("x", 1), ("y", 2)]) = (1927, "") := by
  refine ⟨by decide +kernel, ⟨by decide, by decide, ?_⟩, by decide +kernel⟩
  intro p hp hd
  simp only [fn, List.mem_cons, List.not_mem_nil, or_false] at hp
  rcases hp with rfl | rfl | rfl
  · decide
  · decide
  · cases hd

example : doesValidate fn [req "x", req "y", opt "z" 0] swap = none ∧
    shown (doesCall fn [req "x", req "y", opt "z" 0] (digits ["x", "y", "z"]) swap [("x", 1), ("y", 2), ("z", 3)]) = (213, "") := by
  decide +kernel

/-- A signature that does not fit is refused when the function is decorated. -/
example : doesValidate fn [req "b", rest] toA = some .invalidDecorator ∧ doesValidate fn [req "a", req "y"] toA = some .invalidDecorator := by
  decide +kernel

/-- **C63 is violated**: if a parameter is passed on under two names, decorating the function raises a `KeyError`. -/
theorem C63_violated_twice :
    doesValidate fn [req "a", req "b", rest] [("a", "x"), ("b", "x")] = some .keyError := by decide +kernel

/-- **C63 is violated**: if parameters are renamed in a chain (`x` to `a` and `y` to `x`), the result depends on the order in
which the names are given: either the replacing function gets `y` although it was renamed, or it does not get `x`. -/
theorem C63_violated_chain :
    doesValidate fn [rest] [("a", "x"), ("x", "y")] = none ∧
    shown (doesCall fn [rest] (digits ["a", "x", "y"]) [("a", "x"), ("x", "y")] [("x", 1), ("y", 2)]) = (122, "") ∧
    doesValidate fn [rest] [("x", "y"), ("a", "x")] = none ∧
    shown (doesCall fn [rest] (digits ["a", "x", "y"]) [("x", "y"), ("a", "x")] [("x", 1), ("y", 2)]) = (192, "") ∧
    ["a", "x", "y"].map (doesArg [("a", "x"), ("x", "y")] (paramValue fn.params [("x", 1), ("y", 2)])) = [some 1, some 2, none] := by
  decide +kernel

/-- **C63 is violated**: a parameter whose name is taken by a renamed one is dropped silently: with `x="y"`, nobody gets the
value of `x`. -/
theorem C63_violated_dropped :
    doesValidate fn [rest] [("x", "y")] = none ∧
    shown (doesCall fn [rest] (digits ["x", "y", "z"]) [("x", "y")] [("x", 1), ("y", 2)]) = (297, "") := by
  decide +kernel

/-- **C63 is violated**: a function that returns a constant counts as empty, and what it returns is ignored. -/
theorem C63_violated_not_empty :
    (∀ doc c, isEmptyFn doc (.ret c) = true) ∧
    doesValidate ⟨[req "x"], false, .ret "5"⟩ [rest] [] = (none : Option DoesErr) := by
  refine ⟨fun doc c => ?_, by decide +kernel⟩
  cases doc <;> rfl

/-- Functions that do something else are not taken for empty ones. -/
example (doc : Bool) (c : Name) : isEmptyFn doc (.code c) = false := by cases doc <;> rfl

end DoesSample
end Verif
