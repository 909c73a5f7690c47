import Verif.Model.ParamFamily
import Verif.Props.Decorators

/-!
Property C83: the members of the family of `@parameterize` accept exactly the well-formed specifications, and make of a function the
nodes these ask for.
-/
namespace Verif.ParamFamily
variable {V : Type}

/-! ### Specification -/

/-- What a docstring says once its fields are replaced. -/
def filledIn (field : Name → String) (pieces : List Piece) : String :=
  String.join (pieces.map (fun p =>
    match p with
    | .text s => s
    | .field f => field f
    | .bad => ""))

/-- The docstring of an output: its own one, or that of the function, in which `{output_name}` stands for the output, and a
parameter for the source or the literal that replaces it. -/
inductive HasDoc (shown : V → String) (own : Option String) (doc : Option (List Piece)) (output : Name)
    (spec : Dict Name (ParamDep V)) : Option String → Prop
  | own {s} : own = some s → HasDoc shown own doc output spec (some s)
  | undocumented : own = none → doc = none → HasDoc shown own doc output spec none
  | template {pieces} (field : Name → String) : own = none → doc = some pieces →
      field "output_name" = output →
      (∀ f s, f ≠ "output_name" → spec.get? f = some (.single (.source s)) → field f = s) →
      (∀ f v, f ≠ "output_name" → spec.get? f = some (.single (.value v)) → field f = shown v) →
      (∀ f, f ≠ "output_name" → (∀ d, spec.get? f ≠ some (.single d)) → field f = f) →
      HasDoc shown own doc output spec (some (filledIn field pieces))

/-- The type `h`, possibly made optional. -/
inductive Maybe (h : Hint) : Hint → Prop
  | plain : Maybe h h
  | optional {args} : h ∈ args → Hint.none ∈ args → (∀ a ∈ args, a = h ∨ a = .none) → Maybe h (.union args)

/-- The type of the members of a group for a parameter with this annotation. -/
inductive Element : ParamDep V → Hint → Hint → Prop
  | list {ds h a} : Maybe (.alias "list" [a]) h → Element (.groupList ds) h a
  | dict {ds h a} : Maybe (.alias "dict" [.cls "str", a]) h → Element (.groupDict ds) h a

/-- Annotations in which `None` occurs at most as `Optional[…]` or `Union[…, None]`. -/
def Tidy (h : Hint) : Prop :=
  h ≠ .none ∧ ∀ args, h = .union args → Hint.none ∈ args → ∃ a, a ≠ .none ∧ args = [a, .none]

/-- The decorator fits the function. -/
structure Fits (d : Deco V) (fn : Fn) : Prop where
  docs : ∀ o spec, (o, spec) ∈ d.specs → d.docs.get? (if o = "__<function_name>" then fn.name else o) = none →
    ∀ pieces, fn.doc = some pieces → Piece.bad ∉ pieces
  reserved : "output_name" ∉ fn.params.keys
  params : ∀ o spec, (o, spec) ∈ d.specs → ∀ p ∈ spec.keys, p ∈ fn.params.keys
  groups : ∀ o spec, (o, spec) ∈ d.specs → ∀ p dep, (p, dep) ∈ spec → ∀ h, fn.params.get? p = some h →
    (∃ s, dep = .single s) ∨ ∃ a, Element dep h a

/-- The type that an input of a generated node gets from a parameter with annotation `h`. -/
inductive InputType (spec : Dict Name (ParamDep V)) (p : Name) (h : Hint) : Name → Hint → Prop
  | same : spec.get? p = none → InputType spec p h p h
  | source {s} : spec.get? p = some (.single (.source s)) → InputType spec p h s h
  | member {d s a} : spec.get? p = some d → s ∈ d.refs → Element d h a → InputType spec p h s a

/-! ### `group` -/

theorem singles_iff (l : List (Arg V)) (ds : List (SingleDep V)) : singles l = some ds ↔ l = ds.map Arg.single := by
  induction l generalizing ds with
  | nil => cases ds <;> simp [singles]
  | cons a l ih =>
    cases a with
    | single d =>
      cases h : singles l with
      | none =>
        simp only [singles, h]
        constructor
        · intro h'; cases h'
        · intro h'
          cases ds with
          | nil => cases h'
          | cons e es =>
            rw [List.map_cons, List.cons.injEq] at h'
            rw [(ih es).2 h'.2] at h; cases h
      | some es =>
        simp only [singles, h]
        have e := (ih es).1 h
        constructor
        · intro h'; cases h'; rw [e]; rfl
        · intro h'
          cases ds with
          | nil => cases h'
          | cons f fs =>
            rw [List.map_cons, List.cons.injEq] at h'
            have := (ih fs).2 h'.2
            rw [h] at this
            cases this
            cases h'.1
            rfl
    | grouped d =>
      simp only [singles]
      constructor
      · intro h; cases h
      · intro h; cases ds with
        | nil => cases h
        | cons e es => rw [List.map_cons, List.cons.injEq] at h; cases h.1
    | other =>
      simp only [singles]
      constructor
      · intro h; cases h
      · intro h; cases ds with
        | nil => cases h
        | cons e es => rw [List.map_cons, List.cons.injEq] at h; cases h.1

theorem zip_keys : ∀ (kw : Dict Name (Arg V)) (ds : List (SingleDep V)), kw.map (·.2) = ds.map Arg.single →
    kw = (kw.keys.zip ds).map (fun p => (p.1, Arg.single p.2)) := by
  intro kw
  induction kw with
  | nil => intro ds _; simp [Dict.keys]
  | cons p kw ih =>
    intro ds h
    cases ds with
    | nil => cases h
    | cons e es =>
      rw [List.map_cons, List.map_cons, List.cons.injEq] at h
      have := ih es h.2
      rw [Dict.keys_cons, List.zip_cons_cons, List.map_cons, ← this, ← h.1]

theorem keys_zip (ds : Dict Name (SingleDep V)) :
    (Dict.keys (ds.map (fun p => (p.1, Arg.single p.2)))).zip (ds.map (·.2)) = ds := by
  induction ds with
  | nil => rfl
  | cons p ds ih => rw [List.map_cons, List.map_cons, Dict.keys_cons, List.zip_cons_cons, ih]

/-- **C83.**  `group` takes either positional or keyword arguments, at least one, all of them `value(…)` or `source(…)`; it is the list
or the dictionary of them, in this order. -/
theorem C83_group (args : List (Arg V)) (kwargs : Dict Name (Arg V)) (dep : ParamDep V) :
    group args kwargs = .ok dep ↔
      (∃ ds, ds ≠ [] ∧ args = ds.map Arg.single ∧ kwargs = [] ∧ dep = .groupList ds) ∨
      (∃ ds, ds ≠ [] ∧ args = [] ∧ kwargs = ds.map (fun p => (p.1, Arg.single p.2)) ∧ dep = .groupDict ds) := by
  cases args with
  | nil =>
    cases kwargs with
    | nil =>
      constructor
      · intro h; cases h
      · rintro (⟨ds, h, e, _⟩ | ⟨ds, h, _, e, _⟩)
        · cases ds with
          | nil => exact absurd rfl h
          | cons _ _ => cases e
        · cases ds with
          | nil => exact absurd rfl h
          | cons _ _ => cases e
    | cons k ks =>
      have hd : group ([] : List (Arg V)) (k :: ks) = (match singles ((k :: ks).map (·.2)) with
        | none => .error .invalidDecorator
        | some ds => .ok (.groupDict (Dict.keys (k :: ks) |>.zip ds))) := rfl
      rw [hd]
      constructor
      · intro h
        cases hs : singles ((k :: ks).map (·.2)) with
        | none => rw [hs] at h; cases h
        | some ds =>
          rw [hs] at h
          cases h
          have e := zip_keys _ _ ((singles_iff _ _).1 hs)
          refine .inr ⟨_, ?_, rfl, e, rfl⟩
          intro hn
          rw [hn] at e
          cases e
      · rintro (⟨ds, _, _, e, _⟩ | ⟨ds, _, _, e, rfl⟩)
        · cases e
        · rw [e]
          have : singles ((ds.map (fun p => (p.1, Arg.single p.2))).map (·.2)) = some (ds.map (·.2)) := by
            rw [singles_iff, List.map_map, List.map_map]; rfl
          rw [this]
          dsimp only
          rw [keys_zip]
  | cons a as =>
    cases kwargs with
    | nil =>
      have hd : group (a :: as) ([] : Dict Name (Arg V)) = (match singles (a :: as) with
        | none => .error .invalidDecorator
        | some ds => .ok (.groupList ds)) := rfl
      rw [hd]
      constructor
      · intro h
        cases hs : singles (a :: as) with
        | none => rw [hs] at h; cases h
        | some ds =>
          rw [hs] at h
          cases h
          have e := (singles_iff _ _).1 hs
          refine .inl ⟨ds, ?_, e, rfl, rfl⟩
          intro hn
          rw [hn] at e
          cases e
      · rintro (⟨ds, _, e, _, rfl⟩ | ⟨_, _, e, _⟩)
        · rw [(singles_iff _ _).2 e]
        · cases e
    | cons k ks =>
      constructor
      · intro h; cases h
      · rintro (⟨_, _, _, e, _⟩ | ⟨_, _, e, _⟩) <;> cases e

/-! ### Constructors -/

/-- A mapping with its dependencies. -/
inductive Plainly : Dict Name (Arg V) → Dict Name (ParamDep V) → Prop
  | nil : Plainly [] []
  | single {p d m l} : Plainly m l → Plainly ((p, .single d) :: m) ((p, .single d) :: l)
  | grouped {p d m l} : Plainly m l → Plainly ((p, .grouped d) :: m) ((p, d) :: l)

theorem deps_plainly : ∀ (m : Dict Name (Arg V)), (∀ q ∈ m, q.2 ≠ .other) → Plainly m (deps m) := by
  intro m
  induction m with
  | nil => intro _; exact .nil
  | cons p m ih =>
    intro h
    have hi := ih (fun q hq => h q (List.mem_cons_of_mem _ hq))
    obtain ⟨p, a⟩ := p
    cases a with
    | single d => exact .single hi
    | grouped d => exact .grouped hi
    | other => exact absurd rfl (h _ (List.mem_cons_self ..))

theorem dep_isNone (a : Arg V) : a.dep.isNone = true ↔ a = .other := by
  cases a <;> simp [Arg.dep]

theorem init_ok (p : Dict Name (Entry V)) (h : ∀ e ∈ p, ∀ q ∈ e.2.mapping, q.2 ≠ .other) :
    initParameterize p = .ok ⟨p.map (fun e => (e.1, deps e.2.mapping)),
      p.filterMap (fun e => e.2.doc.map (fun d => (e.1, d)))⟩ := by
  unfold initParameterize
  suffices hc : ¬ (p.any (fun e => e.2.mapping.any (fun q => q.2.dep.isNone))) = true by rw [if_neg hc]
  intro hc
  obtain ⟨e, he, hq⟩ := List.any_eq_true.1 hc
  obtain ⟨q, hq, hn⟩ := List.any_eq_true.1 hq
  exact h e he q hq ((dep_isNone _).1 hn)

/-- **C83.**  `@parameterize` is refused iff something that is no dependency is among the replacements. Otherwise it has, in the given
order, the given outputs with the given replacements, and the given docstrings. -/
theorem C83_construct (p : Dict Name (Entry V)) (hn : p.keys.Nodup) :
    ((∃ d, initParameterize p = .ok d) ↔ ∀ o e, (o, e) ∈ p → ∀ x a, (x, a) ∈ e.mapping → a ≠ .other) ∧
    ∀ d, initParameterize p = .ok d → d.specs.keys = p.keys ∧
      ∀ o e, (o, e) ∈ p → d.docs.get? o = e.doc ∧ ∃ m, d.specs.get? o = some m ∧ Plainly e.mapping m := by
  have hok : ∀ d, initParameterize p = .ok d → ∀ e ∈ p, ∀ q ∈ e.2.mapping, q.2 ≠ .other := by
    intro d hd e he q hq ho
    unfold initParameterize at hd
    rw [if_pos] at hd
    · cases hd
    · exact List.any_eq_true.2 ⟨e, he, List.any_eq_true.2 ⟨q, hq, (dep_isNone _).2 ho⟩⟩
  refine ⟨⟨?_, ?_⟩, ?_⟩
  · rintro ⟨d, hd⟩ o e he x a hx
    exact hok d hd (o, e) he (x, a) hx
  · intro h
    exact ⟨_, init_ok p (fun e he q hq => h e.1 e.2 he q.1 q.2 hq)⟩
  · intro d hd
    have hg := hok d hd
    rw [init_ok p hg] at hd
    cases hd
    refine ⟨?_, ?_⟩
    · simp only [Dict.keys, List.map_map]; rfl
    · intro o e he
      clear hok
      induction p with
      | nil => cases he
      | cons q p ih =>
        obtain ⟨o', e'⟩ := q
        rw [Dict.keys_cons, List.nodup_cons] at hn
        have hfresh : ∀ (o : Name) (l : Dict Name (Entry V)), o ∉ l.keys →
            Dict.get? (l.filterMap (fun e => e.2.doc.map (fun d => (e.1, d)))) o = none := by
          intro o l ho
          rw [Dict.get?_eq_none_iff]
          intro hm
          obtain ⟨r, hr, rfl⟩ := List.mem_map.1 hm
          obtain ⟨s, hs, hs'⟩ := List.mem_filterMap.1 hr
          apply ho
          cases hd : s.2.doc with
          | none => rw [hd] at hs'; cases hs'
          | some d => rw [hd] at hs'; cases hs'; exact List.mem_map.2 ⟨s, hs, rfl⟩
        rcases List.mem_cons.1 he with h | h
        · cases h
          refine ⟨?_, deps e.mapping, ?_, deps_plainly _ (hg _ (List.mem_cons_self ..))⟩
          · rw [List.filterMap_cons]
            cases hd : e.doc with
            | none => dsimp only; exact hfresh o p hn.1
            | some d => dsimp only [Option.map_some]; rw [Dict.get?_cons, if_pos rfl]
          · rw [List.map_cons, Dict.get?_cons, if_pos rfl]
        · have hne : o' ≠ o := by
            intro h'; subst h'
            exact hn.1 (List.mem_map.2 ⟨_, h, rfl⟩)
          obtain ⟨i1, m, i2, i3⟩ := ih hn.2 (fun e he => hg e (List.mem_cons_of_mem _ he)) h
          refine ⟨?_, m, ?_, i3⟩
          · rw [List.filterMap_cons]
            cases hd : e'.doc with
            | none => dsimp only; exact i1
            | some d => dsimp only [Option.map_some]; rw [Dict.get?_cons, if_neg hne]; exact i1
          · rw [List.map_cons, Dict.get?_cons, if_neg hne]; exact i2

/-- The comprehension over distinct outputs. -/
theorem comprehension_ok {W : Type} (make : V → Arg W) (parameter : Name) : ∀ (l : List (Name × String × V)) (acc : Dict Name (Entry W)),
    (acc.keys ++ l.map (·.1)).Nodup →
    comprehension make parameter (l.map (fun e => (OutDoc.pair e.1 e.2.1, e.2.2))) acc =
      .ok (acc ++ l.map (fun e => (e.1, ⟨[(parameter, make e.2.2)], some e.2.1⟩))) := by
  intro l
  induction l with
  | nil => intro acc _; simp [comprehension]
  | cons e l ih =>
    intro acc h
    rw [List.map_cons]
    have hd : comprehension make parameter ((OutDoc.pair e.1 e.2.1, e.2.2) :: l.map (fun e => (OutDoc.pair e.1 e.2.1, e.2.2))) acc
      = comprehension make parameter (l.map (fun e => (OutDoc.pair e.1 e.2.1, e.2.2)))
        (acc.set e.1 ⟨[(parameter, make e.2.2)], some e.2.1⟩) := rfl
    rw [hd]
    have hf : e.1 ∉ acc.keys := by
      intro hm
      rw [List.nodup_append] at h
      exact h.2.2 _ hm _ (by simp) rfl
    have hset : ∀ (acc : Dict Name (Entry W)) (k : Name) (x : Entry W), k ∉ acc.keys → acc.set k x = acc ++ [(k, x)] := by
      intro acc k x
      induction acc with
      | nil => intro _; rfl
      | cons a acc ih' =>
        intro hk
        rw [Dict.keys_cons, List.mem_cons, not_or] at hk
        obtain ⟨a1, a2⟩ := a
        show (if a1 = k then _ else _) = _
        rw [if_neg (fun hh => hk.1 hh.symm), ih' hk.2]
        rfl
    rw [hset _ _ _ hf, ih]
    · rw [List.append_assoc]; rfl
    · have : Dict.keys (acc ++ [(e.1, (⟨[(parameter, make e.2.2)], some e.2.1⟩ : Entry W))]) = acc.keys ++ [e.1] := by
        simp [Dict.keys]
      rw [this, List.append_assoc]
      exact h

/-- A comprehension over something else than pairs. -/
theorem comprehension_pairs {W : Type} (make : V → Arg W) (parameter : Name) : ∀ (l : List (OutDoc × V)) (acc r : Dict Name (Entry W)),
    comprehension make parameter l acc = .ok r → ∀ k v, (k, v) ∈ l → ∃ o doc, k = .pair o doc := by
  intro l
  induction l with
  | nil => intro _ _ _ _ _ h; cases h
  | cons e l ih =>
    intro acc r h k v hm
    obtain ⟨k', v'⟩ := e
    cases k' with
    | pair o d =>
      rcases List.mem_cons.1 hm with h' | h'
      · cases h'; exact ⟨o, d, rfl⟩
      · exact ih _ _ h k v h'
    | wrongLength => cases h
    | noTuple => cases h

theorem filterMap_docs (make : V → Arg W) (parameter : Name) (l : List (Name × String × V)) :
    (l.map (fun e => (e.1, (⟨[(parameter, make e.2.2)], some e.2.1⟩ : Entry W)))).filterMap
      (fun e => e.2.doc.map (fun d => (e.1, d))) = l.map (fun e => (e.1, e.2.1)) := by
  induction l with
  | nil => rfl
  | cons e l ih => rw [List.map_cons, List.filterMap_cons]; dsimp only; rw [ih]; rfl

/-- **C83 (partial).**  `@parameterize_values` takes pairs of outputs and docstrings only; if the outputs are distinct it is the
`@parameterize` that gives the parameter each output's value, and each output its docstring. Missing: equal outputs
(`C83_violated_values`). -/
theorem C83_values_partial (parameter : Name) :
    (∀ (assigned : List (OutDoc × V)) d, initValues parameter assigned = .ok d →
      ∀ k v, (k, v) ∈ assigned → ∃ o doc, k = .pair o doc) ∧
    ∀ (l : List (Name × String × V)), (l.map (·.1)).Nodup →
      initValues parameter (l.map (fun e => (OutDoc.pair e.1 e.2.1, e.2.2))) =
        .ok ⟨l.map (fun e => (e.1, [(parameter, .single (.value e.2.2))])), l.map (fun e => (e.1, e.2.1))⟩ := by
  constructor
  · intro assigned d h
    unfold initValues at h
    by_cases hc : (assigned.any (fun e => e.1 == OutDoc.noTuple)) = true
    · rw [if_pos hc] at h; cases h
    · rw [if_neg hc] at h
      cases hp : comprehension (fun v => Arg.single (.value v)) parameter assigned [] with
      | error e => rw [hp] at h; cases h
      | ok p => exact comprehension_pairs _ _ _ _ _ hp
  · intro l hn
    unfold initValues
    have hc : ¬ ((l.map (fun e => (OutDoc.pair e.1 e.2.1, e.2.2))).any (fun e => e.1 == OutDoc.noTuple)) = true := by
      rw [List.any_map]
      intro h
      obtain ⟨e, _, h'⟩ := List.any_eq_true.1 h
      simp at h'
    rw [if_neg hc, comprehension_ok _ _ _ _ (by simpa [Dict.keys] using hn)]
    dsimp only
    rw [List.nil_append, init_ok]
    · rw [filterMap_docs (fun v => Arg.single (.value v)), List.map_map]; rfl
    · intro e he q hq
      obtain ⟨x, _, rfl⟩ := List.mem_map.1 he
      simp only [List.mem_singleton] at hq
      rw [hq]
      intro h; cases h

/-- **C83 (partial).**  `@parametrized_input` takes pairs of outputs and docstrings only; if the outputs are distinct it is the
`@parameterize` that makes each output from its input. Missing: equal outputs (`C83_violated_input`). -/
theorem C83_input_partial (parameter : Name) :
    (∀ (variableInputs : Dict Name OutDoc) (d : Deco V), initInput parameter variableInputs = .ok d →
      ∀ s k, (s, k) ∈ variableInputs → ∃ o doc, k = .pair o doc) ∧
    ∀ (l : List (Name × String × Name)), (l.map (·.1)).Nodup →
      initInput parameter (l.map (fun e => (e.2.2, OutDoc.pair e.1 e.2.1))) =
        .ok (⟨l.map (fun e => (e.1, [(parameter, .single (.source e.2.2))])), l.map (fun e => (e.1, e.2.1))⟩ : Deco V) := by
  constructor
  · intro vi d h
    unfold initInput at h
    by_cases hc : (vi.any (fun e => e.2 == OutDoc.noTuple)) = true
    · rw [if_pos hc] at h; cases h
    · rw [if_neg hc] at h
      cases hp : comprehension (fun s => Arg.single (.source (V := V) s)) parameter (vi.map (fun e => (e.2, e.1))) [] with
      | error e => rw [hp] at h; cases h
      | ok p =>
        intro s k hm
        exact comprehension_pairs _ _ _ _ _ hp k s (List.mem_map.2 ⟨_, hm, rfl⟩)
  · intro l hn
    unfold initInput
    have hc : ¬ ((l.map (fun e => (e.2.2, OutDoc.pair e.1 e.2.1))).any (fun e => e.2 == OutDoc.noTuple)) = true := by
      rw [List.any_map]
      intro h
      obtain ⟨e, _, h'⟩ := List.any_eq_true.1 h
      simp at h'
    rw [if_neg hc, List.map_map]
    have hm : ((fun e : Name × OutDoc => (e.2, e.1)) ∘ fun e : Name × String × Name => (e.2.2, OutDoc.pair e.1 e.2.1)) =
      (fun e : Name × String × Name => (OutDoc.pair e.1 e.2.1, e.2.2)) := rfl
    rw [hm, comprehension_ok _ _ _ _ (by simpa [Dict.keys] using hn)]
    dsimp only
    rw [List.nil_append, init_ok]
    · rw [filterMap_docs (fun v => Arg.single (.source v)), List.map_map]; rfl
    · intro e he q hq
      obtain ⟨x, _, rfl⟩ := List.mem_map.1 he
      simp only [List.mem_singleton] at hq
      rw [hq]
      intro h; cases h

theorem deps_sources (m : Dict Name Name) :
    deps (m.map (fun q => (q.1, Arg.single (.source (V := V) q.2)))) = m.map (fun q => (q.1, .single (.source q.2))) := by
  induction m with
  | nil => rfl
  | cons q m ih =>
    rw [List.map_cons, List.map_cons, ← ih]
    rfl

/-- **C83.**  `@parameterize_sources` takes at least one output, and at least one source for each; it is the `@parameterize` with these
sources. -/
theorem C83_sources (p : Dict Name (Dict Name Name)) (d : Deco V) :
    initSources p = .ok d ↔ p ≠ [] ∧ (∀ o m, (o, m) ∈ p → m ≠ []) ∧
      d = ⟨p.map (fun e => (e.1, e.2.map (fun q => (q.1, .single (.source q.2))))), []⟩ := by
  have hrest : initParameterize (p.map (fun e => (e.1, (⟨e.2.map (fun q => (q.1, Arg.single (.source (V := V) q.2))), none⟩ : Entry V)))) =
      .ok ⟨p.map (fun e => (e.1, e.2.map (fun q => (q.1, .single (.source q.2))))), []⟩ := by
    rw [init_ok]
    · rw [List.map_map]
      congr 2
      · apply List.map_congr_left
        intro e _
        show (e.1, deps _) = _
        rw [deps_sources]
      · clear d
        induction p with
        | nil => rfl
        | cons e p ih => rw [List.map_cons, List.filterMap_cons]; exact ih
    · intro e he q hq
      obtain ⟨x, _, rfl⟩ := List.mem_map.1 he
      obtain ⟨y, _, rfl⟩ := List.mem_map.1 hq
      intro h; cases h
  unfold initSources
  cases hp : p with
  | nil =>
    constructor
    · intro h; cases h
    · rintro ⟨h, _⟩; exact absurd rfl h
  | cons e l =>
    rw [← hp]
    have h1 : ¬ p.isEmpty = true := by rw [hp]; intro h; cases h
    rw [if_neg h1]
    by_cases hc : (p.any (fun e => e.2.isEmpty)) = true
    · rw [if_pos hc]
      constructor
      · intro h; cases h
      · rintro ⟨_, h, _⟩
        obtain ⟨e, he, h'⟩ := List.any_eq_true.1 hc
        exact absurd (List.isEmpty_iff.1 h') (h e.1 e.2 he)
    · rw [if_neg hc, hrest]
      constructor
      · intro h
        cases h
        refine ⟨(by rw [hp]; intro h; cases h), ?_, rfl⟩
        intro o m hm hn
        exact hc (List.any_eq_true.2 ⟨_, hm, List.isEmpty_iff.2 hn⟩)
      · rintro ⟨_, _, rfl⟩; rfl

/-- **C83.**  `@inject` takes dependencies only; it is the `@parameterize` whose only output is the function itself. -/
theorem C83_inject (m : Dict Name (Arg V)) (d : Deco V) :
    initInject m = .ok d ↔ ∃ l, Plainly m l ∧ d = ⟨[("__<function_name>", l)], []⟩ := by
  have hpl : ∀ {m : Dict Name (Arg V)} {l}, Plainly m l → (∀ q ∈ m, q.2 ≠ .other) ∧ deps m = l := by
    intro m l h
    induction h with
    | nil => exact ⟨by simp, rfl⟩
    | single _ ih =>
      refine ⟨?_, ?_⟩
      · intro q hq
        rcases List.mem_cons.1 hq with rfl | h
        · intro h; cases h
        · exact ih.1 q h
      · rw [← ih.2]; rfl
    | grouped _ ih =>
      refine ⟨?_, ?_⟩
      · intro q hq
        rcases List.mem_cons.1 hq with rfl | h
        · intro h; cases h
        · exact ih.1 q h
      · rw [← ih.2]; rfl
  constructor
  · intro h
    by_cases hg : ∀ q ∈ m, q.2 ≠ .other
    · refine ⟨deps m, deps_plainly m hg, ?_⟩
      unfold initInject at h
      rw [init_ok] at h
      · cases h; rfl
      · intro e he
        simp only [List.mem_singleton] at he
        subst he
        exact hg
    · exfalso
      apply hg
      intro q hq
      exact ((C83_construct [(placeholder, (⟨m, none⟩ : Entry V))] (by simp [Dict.keys])).1.1 ⟨d, h⟩) placeholder ⟨m, none⟩ (by simp)
        q.1 q.2 hq
  · rintro ⟨l, hl, rfl⟩
    obtain ⟨h1, h2⟩ := hpl hl
    unfold initInject
    rw [init_ok]
    · simp only [List.map_cons, List.map_nil, h2]; rfl
    · intro e he
      simp only [List.mem_singleton] at he
      subst he
      exact h1

/-! ### Acceptance -/

/-- The name an output stands for. -/
def target (fn : Fn) (o : Name) : Name := if o = "__<function_name>" then fn.name else o

/-- The outputs are the function itself, or names given by the user. -/
def Usual (d : Deco V) : Prop := d.specs.keys = ["__<function_name>"] ∨ "__<function_name>" ∉ d.specs.keys

theorem named_get {d : Deco V} {fn : Fn} (hn : d.specs.keys.Nodup) (hu : Usual d) {o : Name} {spec : Dict Name (ParamDep V)}
    (hm : (o, spec) ∈ d.specs) : (named d fn).get? (target fn o) = some spec := by
  have hg := Dict.get?_of_mem hn hm
  unfold named target
  by_cases ho : o = "__<function_name>"
  · rw [if_pos ho]
    rw [ho] at hg
    have : d.specs.get? placeholder = some spec := hg
    rw [this]
    exact Dict.get?_set_self _ _ _
  · rw [if_neg ho]
    rcases hu with h | h
    · have ho' : o ∈ d.specs.keys := List.mem_map.2 ⟨_, hm, rfl⟩
      rw [h, List.mem_singleton] at ho'
      exact absurd ho' ho
    · have : d.specs.get? placeholder = none := (Dict.get?_eq_none_iff _ _).2 h
      rw [this]
      exact hg

theorem render_iff (field : Name → String) (ps : List Piece) (s : String) :
    render field ps = .ok s ↔ Piece.bad ∉ ps ∧ s = filledIn field ps := by
  induction ps generalizing s with
  | nil =>
    constructor
    · intro h; cases h; exact ⟨by simp, rfl⟩
    · rintro ⟨_, rfl⟩; rfl
  | cons p ps ih =>
    have hj : ∀ (a : String) (l : List String), String.join (a :: l) = a ++ String.join l := by
      intro a l; rw [String.join_cons]
    cases p with
    | text t =>
      have hd : render field (.text t :: ps) = (match render field ps with
        | .error e => .error e
        | .ok r => .ok (t ++ r)) := rfl
      rw [hd]
      have hf : filledIn field (.text t :: ps) = t ++ filledIn field ps := hj _ _
      rw [hf]
      cases hr : render field ps with
      | error e =>
        constructor
        · intro h; cases h
        · rintro ⟨h, _⟩
          have := (ih (filledIn field ps)).2 ⟨fun hm => h (List.mem_cons_of_mem _ hm), rfl⟩
          rw [hr] at this; cases this
      | ok r =>
        obtain ⟨h1, rfl⟩ := (ih r).1 hr
        constructor
        · intro h; cases h; exact ⟨by simpa using h1, rfl⟩
        · rintro ⟨_, rfl⟩; rfl
    | field f =>
      have hd : render field (.field f :: ps) = (match render field ps with
        | .error e => .error e
        | .ok r => .ok (field f ++ r)) := rfl
      rw [hd]
      have hf : filledIn field (.field f :: ps) = field f ++ filledIn field ps := hj _ _
      rw [hf]
      cases hr : render field ps with
      | error e =>
        constructor
        · intro h; cases h
        · rintro ⟨h, _⟩
          have := (ih (filledIn field ps)).2 ⟨fun hm => h (List.mem_cons_of_mem _ hm), rfl⟩
          rw [hr] at this; cases this
      | ok r =>
        obtain ⟨h1, rfl⟩ := (ih r).1 hr
        constructor
        · intro h; cases h; exact ⟨by simpa using h1, rfl⟩
        · rintro ⟨_, rfl⟩; rfl
    | bad =>
      constructor
      · intro h; cases h
      · rintro ⟨h, _⟩; exact absurd (List.mem_cons_self ..) h

theorem fieldText_spec (shown : V → String) (output : Name) (spec : Dict Name (ParamDep V)) :
    fieldText shown output spec "output_name" = output ∧
    (∀ f s, f ≠ "output_name" → spec.get? f = some (.single (.source s)) → fieldText shown output spec f = s) ∧
    (∀ f v, f ≠ "output_name" → spec.get? f = some (.single (.value v)) → fieldText shown output spec f = shown v) ∧
    (∀ f, f ≠ "output_name" → (∀ d, spec.get? f ≠ some (.single d)) → fieldText shown output spec f = f) := by
  refine ⟨if_pos rfl, ?_, ?_, ?_⟩
  · intro f s hf h
    unfold fieldText reserved
    rw [if_neg hf, h]
  · intro f s hf h
    unfold fieldText reserved
    rw [if_neg hf, h]
  · intro f hf h
    unfold fieldText reserved
    rw [if_neg hf]
    cases hs : spec.get? f with
    | none => rfl
    | some d =>
      cases d with
      | single e => exact absurd hs (h e)
      | groupList _ => rfl
      | groupDict _ => rfl

/-- When the docstring of an output can be made, and which one. -/
theorem formatDoc_iff (shown : V → String) {d : Deco V} {fn : Fn} (hn : d.specs.keys.Nodup) (hu : Usual d) {o : Name}
    {spec : Dict Name (ParamDep V)} (hm : (o, spec) ∈ d.specs) :
    (∀ doc, formatDoc shown d fn (target fn o) = .ok doc →
      HasDoc shown (d.docs.get? (target fn o)) fn.doc (target fn o) spec doc ∧
      (d.docs.get? (target fn o) = none → ∀ pieces, fn.doc = some pieces → Piece.bad ∉ pieces)) ∧
    ((d.docs.get? (target fn o) = none → ∀ pieces, fn.doc = some pieces → Piece.bad ∉ pieces) → "output_name" ∉ spec.keys →
      ∃ doc, formatDoc shown d fn (target fn o) = .ok doc) := by
  unfold formatDoc
  cases hown : d.docs.get? (target fn o) with
  | some s =>
    refine ⟨?_, fun _ _ => ⟨_, rfl⟩⟩
    intro doc h
    cases h
    exact ⟨.own rfl, fun h => (by cases h)⟩
  | none =>
    dsimp only
    cases hdoc : fn.doc with
    | none =>
      refine ⟨?_, fun _ _ => ⟨_, rfl⟩⟩
      intro doc h
      cases h
      exact ⟨.undocumented rfl rfl, fun _ _ h => (by cases h)⟩
    | some pieces =>
      dsimp only
      rw [named_get hn hu hm]
      dsimp only
      constructor
      · intro doc h
        by_cases hs : isSingle spec reserved = true
        · rw [if_pos hs] at h; cases h
        · rw [if_neg hs] at h
          cases hr : render (fieldText shown (target fn o) spec) pieces with
          | error e => rw [hr] at h; cases h
          | ok s =>
            rw [hr] at h
            cases h
            obtain ⟨h1, rfl⟩ := (render_iff _ _ _).1 hr
            obtain ⟨f1, f2, f3, f4⟩ := fieldText_spec shown (target fn o) spec
            refine ⟨.template _ rfl rfl f1 f2 f3 f4, ?_⟩
            intro _ ps hps
            cases hps
            exact h1
      · intro hb hno
        have hs : ¬ isSingle spec reserved = true := by
          unfold isSingle
          have : spec.get? reserved = none := (Dict.get?_eq_none_iff _ _).2 hno
          rw [this]
          intro h; cases h
        rw [if_neg hs, (render_iff _ _ _).2 ⟨hb rfl pieces rfl, rfl⟩]
        exact ⟨_, rfl⟩

theorem checkDocs_iff (shown : V → String) (d : Deco V) (fn : Fn) (l : List Name) :
    checkDocs shown d fn l = .ok () ↔ ∀ o ∈ l, ∃ doc, formatDoc shown d fn (target fn o) = .ok doc := by
  induction l with
  | nil => simp [checkDocs]
  | cons o l ih =>
    have hd : checkDocs shown d fn (o :: l) = (match formatDoc shown d fn (target fn o) with
      | .error .keyError => .error .invalidDecorator
      | .error e => .error e
      | .ok _ => checkDocs shown d fn l) := rfl
    rw [hd]
    cases hf : formatDoc shown d fn (target fn o) with
    | error e =>
      have : ¬ ∀ x ∈ o :: l, ∃ doc, formatDoc shown d fn (target fn x) = .ok doc := by
        intro h
        obtain ⟨doc, h'⟩ := h o (List.mem_cons_self ..)
        rw [hf] at h'; cases h'
      constructor
      · intro h; cases e <;> cases h
      · intro h; exact absurd h this
    | ok doc =>
      dsimp only
      rw [ih]
      constructor
      · intro h x hx
        rcases List.mem_cons.1 hx with rfl | hx
        · exact ⟨doc, hf⟩
        · exact h x hx
      · intro h x hx
        exact h x (List.mem_cons_of_mem _ hx)

theorem isOptional_union {args : List Hint} : (Hint.union args).isOptional = true ↔ Hint.none ∈ args := by
  show args.any _ = true ↔ _
  rw [List.any_eq_true]
  constructor
  · rintro ⟨a, ha, h⟩
    cases a with
    | none => exact ha
    | _ => cases h
  · intro h; exact ⟨_, h, rfl⟩

/-- Pulling the type out of tidy annotations. -/
theorem unwrap_tidy {h : Hint} (ht : Tidy h) : (∃ h', h.unwrap = .ok h') ∧ ∀ h', (∃ o as, h' = .alias o as) →
    (h.unwrap = .ok h' ↔ Maybe h' h) := by
  obtain ⟨h1, h2⟩ := ht
  cases h with
  | none => exact absurd rfl h1
  | cls c =>
    refine ⟨⟨_, rfl⟩, ?_⟩
    rintro h' ⟨o, as, rfl⟩
    constructor
    · intro h; cases h
    · intro h; cases h
  | alias o' as' =>
    refine ⟨⟨_, rfl⟩, ?_⟩
    rintro h' ⟨o, as, rfl⟩
    constructor
    · intro h; cases h; exact .plain
    · intro h; cases h; rfl
  | union args =>
    by_cases hm : Hint.none ∈ args
    · obtain ⟨a, ha, rfl⟩ := h2 args rfl hm
      have hu : (Hint.union [a, .none]).unwrap = .ok a := by
        unfold Hint.unwrap
        rw [if_pos (isOptional_union.2 hm)]
        rfl
      refine ⟨⟨_, hu⟩, ?_⟩
      rintro h' ⟨o, as, rfl⟩
      rw [hu]
      constructor
      · intro h
        cases h
        exact .optional (by simp) (by simp) (by simp)
      · intro h
        cases h with
        | optional i1 i2 i3 =>
          rcases i3 a (by simp) with h | h
          · rw [h]
          · exact absurd h ha
    · have hu : (Hint.union args).unwrap = .ok (.union args) := by
        unfold Hint.unwrap
        rw [if_neg (fun h => hm (isOptional_union.1 h))]
      refine ⟨⟨_, hu⟩, ?_⟩
      rintro h' ⟨o, as, rfl⟩
      rw [hu]
      constructor
      · intro h; cases h
      · intro h
        cases h with
        | optional i1 i2 i3 => exact absurd i2 hm

theorem groupHint_list {ds : List (SingleDep V)} {h : Hint} :
    groupHint (.groupList ds) h = true ↔ ∃ a, h = .alias "list" [a] := by
  cases h with
  | alias o as =>
    have hd : groupHint (.groupList ds) (.alias o as) = (o == "list" && as.length == 1) := rfl
    rw [hd]
    simp only [Bool.and_eq_true, beq_iff_eq]
    constructor
    · rintro ⟨rfl, h⟩
      obtain ⟨a, rfl⟩ := List.length_eq_one_iff.1 h
      exact ⟨a, rfl⟩
    · rintro ⟨a, h⟩; cases h; exact ⟨rfl, rfl⟩
  | _ =>
    constructor
    · intro h; cases h
    · rintro ⟨_, h⟩; cases h

theorem groupHint_dict {ds : Dict Name (SingleDep V)} {h : Hint} :
    groupHint (.groupDict ds) h = true ↔ ∃ a, h = .alias "dict" [.cls "str", a] := by
  cases h with
  | alias o as =>
    constructor
    · intro h
      have hd : groupHint (.groupDict ds) (.alias o as) =
        (o == "dict" && as.length == 2 && strFirst as) := rfl
      rw [hd] at h
      simp only [Bool.and_eq_true, beq_iff_eq] at h
      obtain ⟨⟨rfl, h2⟩, h3⟩ := h
      match as, h2, h3 with
      | [.cls c, b], _, h3 =>
        have : c = "str" := by simpa [strFirst] using h3
        rw [this]
        exact ⟨b, rfl⟩
      | [.none, b], _, h3 => cases h3
      | [.alias _ _, b], _, h3 => cases h3
      | [.union _, b], _, h3 => cases h3
    · rintro ⟨a, h⟩; cases h; rfl
  | _ =>
    constructor
    · intro h; cases h
    · rintro ⟨_, h⟩; cases h

/-- Which annotations are fine for a replacement. -/
theorem hint_iff {dep : ParamDep V} {h : Hint} (ht : Tidy h) :
    (∃ h', h.unwrap = .ok h' ∧ groupHint dep h' = true) ↔ (∃ s, dep = .single s) ∨ ∃ a, Element dep h a := by
  obtain ⟨⟨h0, hu⟩, hal⟩ := unwrap_tidy ht
  cases dep with
  | single s => exact ⟨fun _ => .inl ⟨s, rfl⟩, fun _ => ⟨h0, hu, rfl⟩⟩
  | groupList ds =>
    constructor
    · rintro ⟨h', h1, h2⟩
      obtain ⟨a, rfl⟩ := groupHint_list.1 h2
      exact .inr ⟨a, .list ((hal _ ⟨_, _, rfl⟩).1 h1)⟩
    · rintro (⟨s, h⟩ | ⟨a, h⟩)
      · cases h
      · cases h with
        | list hm => exact ⟨_, (hal _ ⟨_, _, rfl⟩).2 hm, groupHint_list.2 ⟨a, rfl⟩⟩
  | groupDict ds =>
    constructor
    · rintro ⟨h', h1, h2⟩
      obtain ⟨a, rfl⟩ := groupHint_dict.1 h2
      exact .inr ⟨a, .dict ((hal _ ⟨_, _, rfl⟩).1 h1)⟩
    · rintro (⟨s, h⟩ | ⟨a, h⟩)
      · cases h
      · cases h with
        | dict hm => exact ⟨_, (hal _ ⟨_, _, rfl⟩).2 hm, groupHint_dict.2 ⟨a, rfl⟩⟩

theorem checkHints_iff (fn : Fn) (spec : Dict Name (ParamDep V)) :
    checkHints fn spec = .ok true ↔ ∀ p dep, (p, dep) ∈ spec → ∃ h, fn.params.get? p = some h ∧
      ∃ h', h.unwrap = .ok h' ∧ groupHint dep h' = true := by
  induction spec with
  | nil => exact ⟨fun _ _ _ h => (by cases h), fun _ => rfl⟩
  | cons e spec ih =>
    obtain ⟨p, d⟩ := e
    have hd : checkHints fn ((p, d) :: spec) = (match fn.params.get? p with
      | none => .error .keyError
      | some h =>
        match h.unwrap with
        | .error e => .error e
        | .ok h' =>
          match checkHints fn spec with
          | .error e => .error e
          | .ok b => .ok (groupHint d h' && b)) := rfl
    rw [hd]
    cases hg : fn.params.get? p with
    | none =>
      constructor
      · intro h; cases h
      · intro h
        obtain ⟨h', e1, _⟩ := h p d (List.mem_cons_self ..)
        rw [hg] at e1; cases e1
    | some h =>
      dsimp only
      cases hu : h.unwrap with
      | error e =>
        constructor
        · intro h; cases h
        · intro h
          obtain ⟨h', e1, h'', e2, _⟩ := h p d (List.mem_cons_self ..)
          rw [hg] at e1; cases e1
          rw [hu] at e2; cases e2
      | ok h' =>
        dsimp only
        cases hc : checkHints fn spec with
        | error e =>
          constructor
          · intro h; cases h
          · intro h
            have := ih.2 (fun p d hm => h p d (List.mem_cons_of_mem _ hm))
            rw [hc] at this; cases this
        | ok b =>
          dsimp only
          constructor
          · intro hh
            rw [Except.ok.injEq, Bool.and_eq_true] at hh
            rw [hc, hh.2] at ih
            intro p' d' hm
            rcases List.mem_cons.1 hm with h1 | h1
            · cases h1; exact ⟨h, hg, h', hu, hh.1⟩
            · exact ih.1 rfl p' d' h1
          · intro hh
            have h1 := ih.2 (fun p d hm => hh p d (List.mem_cons_of_mem _ hm))
            rw [hc] at h1
            cases h1
            obtain ⟨x, e1, y, e2, e3⟩ := hh p d (List.mem_cons_self ..)
            rw [hg] at e1; cases e1
            rw [hu] at e2; cases e2
            rw [e3]; rfl

theorem checkAllHints_iff (fn : Fn) (l : Dict Name (Dict Name (ParamDep V))) :
    checkAllHints fn l = .ok () ↔ ∀ o spec, (o, spec) ∈ l → checkHints fn spec = .ok true := by
  induction l with
  | nil => exact ⟨fun _ _ _ h => (by cases h), fun _ => rfl⟩
  | cons e l ih =>
    obtain ⟨o, m⟩ := e
    have hd : checkAllHints fn ((o, m) :: l) = (match checkHints fn m with
      | .error e => .error e
      | .ok false => .error .invalidDecorator
      | .ok true => checkAllHints fn l) := rfl
    rw [hd]
    cases hc : checkHints fn m with
    | error e =>
      constructor
      · intro h; cases h
      · intro h
        have := h o m (List.mem_cons_self ..)
        rw [hc] at this; cases this
    | ok b =>
      cases b with
      | false =>
        constructor
        · intro h; cases h
        · intro h
          have := h o m (List.mem_cons_self ..)
          rw [hc] at this; cases this
      | true =>
        dsimp only
        rw [ih]
        constructor
        · intro h o' m' hm
          rcases List.mem_cons.1 hm with h1 | h1
          · cases h1; exact hc
          · exact h o' m' h1
        · intro h o' m' hm
          exact h o' m' (List.mem_cons_of_mem _ hm)

/-- **C83 (partial).**  A function may be decorated iff: the docstrings of the outputs that have none of their own can be made of that of
the function; the function has no parameter `output_name`; everything that is replaced is a parameter; and what is replaced by a group
is annotated as a list, or as a dictionary from strings, or as optional such.  Missing: annotations `None` and unions in which `None`
comes first (`C83_violated_annotation`, `C83_violated_order`). -/
theorem C83_accept_partial (shown : V → String) (d : Deco V) (fn : Fn) (hn : d.specs.keys.Nodup) (hu : Usual d)
    (ht : ∀ p h, fn.params.get? p = some h → Tidy h) :
    validate shown d fn = .ok () ↔ Fits d fn := by
  have hkey : ∀ {o}, o ∈ d.specs.keys → ∃ spec, (o, spec) ∈ d.specs := by
    intro o ho
    obtain ⟨s, hs⟩ := Dict.mem_keys_iff.1 ho
    exact ⟨s, Dict.get?_mem hs⟩
  constructor
  · intro hv
    unfold validate at hv
    cases hc : checkDocs shown d fn d.specs.keys with
    | error e => rw [hc] at hv; cases hv
    | ok u =>
      rw [hc] at hv
      dsimp only at hv
      by_cases hr : fn.params.has reserved = true
      · rw [if_pos hr] at hv; cases hv
      · rw [if_neg hr] at hv
        by_cases hm : (d.specs.any (fun e => e.2.any (fun q => !fn.params.has q.1))) = true
        · rw [if_pos hm] at hv; cases hv
        · rw [if_neg hm] at hv
          have hdocs := (checkDocs_iff shown d fn _).1 hc
          refine ⟨?_, ?_, ?_, ?_⟩
          · intro o spec ho
            obtain ⟨doc, hd⟩ := hdocs o (List.mem_map.2 ⟨_, ho, rfl⟩)
            exact ((formatDoc_iff shown hn hu ho).1 doc hd).2
          · intro h; exact hr ((Dict.has_iff _ _).2 h)
          · intro o spec ho p hp
            obtain ⟨q, hq, rfl⟩ := List.mem_map.1 hp
            cases hh : fn.params.has q.1 with
            | true => exact (Dict.has_iff _ _).1 hh
            | false =>
              exact absurd (List.any_eq_true.2 ⟨_, ho, List.any_eq_true.2 ⟨q, hq, by rw [hh]; rfl⟩⟩) hm
          · intro o spec ho p dep hp h hh
            obtain ⟨h', e1, e2⟩ := (checkHints_iff fn spec).1 ((checkAllHints_iff fn _).1 hv o spec ho) p dep hp
            rw [hh] at e1
            cases e1
            exact (hint_iff (ht p h hh)).1 e2
  · intro hf
    unfold validate
    have h1 : checkDocs shown d fn d.specs.keys = .ok () := by
      rw [checkDocs_iff]
      intro o ho
      obtain ⟨spec, hs⟩ := hkey ho
      refine (formatDoc_iff shown hn hu hs).2 (hf.docs o spec hs) ?_
      intro hm
      exact hf.reserved (hf.params o spec hs _ hm)
    rw [h1]
    dsimp only
    have h2 : ¬ fn.params.has reserved = true := fun h => hf.reserved ((Dict.has_iff _ _).1 h)
    have h3 : ¬ (d.specs.any (fun e => e.2.any (fun q => !fn.params.has q.1))) = true := by
      intro h
      obtain ⟨e, he, h⟩ := List.any_eq_true.1 h
      obtain ⟨q, hq, h⟩ := List.any_eq_true.1 h
      rw [(Dict.has_iff _ _).2 (hf.params e.1 e.2 he q.1 (List.mem_map.2 ⟨q, hq, rfl⟩))] at h
      cases h
    rw [if_neg h2, if_neg h3, checkAllHints_iff]
    intro o spec ho
    rw [checkHints_iff]
    intro p dep hp
    obtain ⟨h, hh⟩ := Dict.mem_keys_iff.1 (hf.params o spec ho p (List.mem_map.2 ⟨_, hp, rfl⟩))
    exact ⟨h, hh, (hint_iff (ht p h hh)).2 (hf.groups o spec ho p dep hp h hh)⟩

/-! ### The nodes -/

/-- What is left of the annotation of a group. -/
theorem resolve_element {dep : ParamDep V} {h a : Hint} (ht : Tidy h) (he : Element dep h a) :
    resolveType dep h = .ok a ∧ component h = a := by
  obtain ⟨_, hal⟩ := unwrap_tidy ht
  cases he with
  | list hm =>
    have hu := (hal _ ⟨_, _, rfl⟩).2 hm
    simp only [resolveType, component, hu]
    exact ⟨rfl, rfl⟩
  | dict hm =>
    have hu := (hal _ ⟨_, _, rfl⟩).2 hm
    simp only [resolveType, component, hu]
    exact ⟨rfl, rfl⟩

/-- The types of the groups resolve. -/
theorem resolveAll_ok {spec : Dict Name (ParamDep V)} : ∀ {l : Dict Name (Hint × DepType)},
    (∀ p t, (p, t) ∈ l → ∀ d, spec.get? p = some d → ∃ a, resolveType d t.1 = .ok a) → resolveAll spec l = .ok () := by
  intro l
  induction l with
  | nil => intro _; rfl
  | cons e l ih =>
    intro h
    obtain ⟨p, t⟩ := e
    have hd : resolveAll spec ((p, t) :: l) = (match spec.get? p with
      | none => resolveAll spec l
      | some d =>
        match resolveType d t.1 with
        | .error e => .error e
        | .ok _ => resolveAll spec l) := rfl
    rw [hd]
    have hi := ih (fun p t hm => h p t (List.mem_cons_of_mem _ hm))
    cases hs : spec.get? p with
    | none => exact hi
    | some d =>
      obtain ⟨a, ha⟩ := h p t (List.mem_cons_self ..) d hs
      dsimp only
      rw [ha]
      exact hi

theorem foldl_set_pred {Q : Name → Hint × DepType → Prop} {w : Hint × DepType} : ∀ (l : List Name) (acc : Dict Name (Hint × DepType)),
    (∀ s ∈ l, Q s w) → (∀ k t, acc.get? k = some t → Q k t) →
    ∀ k t, (l.foldl (fun acc s => acc.set s w) acc).get? k = some t → Q k t := by
  intro l
  induction l with
  | nil => intro acc _ h; exact h
  | cons a l ih =>
    intro acc hl h
    rw [List.foldl_cons]
    apply ih _ (fun s hs => hl s (List.mem_cons_of_mem _ hs))
    intro k t hk
    rw [Dict.get?_set] at hk
    by_cases hka : a = k
    · rw [if_pos hka] at hk
      cases hk
      rw [← hka]
      exact hl a (List.mem_cons_self ..)
    · rw [if_neg hka] at hk
      exact h k t hk

/-- The types of the inputs. -/
theorem newInputTypes_types {spec : Dict Name (ParamDep V)} {Q : Name → Hint × DepType → Prop} :
    ∀ (l acc : Dict Name (Hint × DepType)),
    (∀ p t, (p, t) ∈ l → (spec.get? p = none → Q p t) ∧ (∀ s, spec.get? p = some (.single (.source s)) → Q s t) ∧
      (∀ d, spec.get? p = some d → (∀ e, d ≠ .single e) → ∀ s ∈ d.refs, Q s (component t.1, t.2))) →
    (∀ k t, acc.get? k = some t → Q k t) →
    ∀ k t, Dict.get? (l.foldl (fun acc p =>
      match spec.get? p.1 with
      | some (.single (.source s)) => acc.set s p.2
      | some (.single (.value _)) => acc
      | some (.groupList ds) => (ds.flatMap SingleDep.sources).foldl (fun acc s => acc.set s (component p.2.1, p.2.2)) acc
      | some (.groupDict ds) =>
        (ds.flatMap (fun q => q.2.sources)).foldl (fun acc s => acc.set s (component p.2.1, p.2.2)) acc
      | none => acc.set p.1 p.2) acc) k = some t → Q k t := by
  intro l
  induction l with
  | nil => intro acc _ h; exact h
  | cons e l ih =>
    intro acc hl h
    obtain ⟨p, t⟩ := e
    rw [List.foldl_cons]
    apply ih _ (fun p t hm => hl p t (List.mem_cons_of_mem _ hm))
    obtain ⟨h1, h2, h3⟩ := hl p t (List.mem_cons_self ..)
    have hset : ∀ k' : Name, Q k' t → ∀ k u, (acc.set k' t).get? k = some u → Q k u := by
      intro k' hq k u hk
      rw [Dict.get?_set] at hk
      by_cases hkk : k' = k
      · rw [if_pos hkk] at hk; cases hk; rw [← hkk]; exact hq
      · rw [if_neg hkk] at hk; exact h k u hk
    dsimp only
    cases hs : spec.get? p with
    | none => exact hset p (h1 hs)
    | some d =>
      cases d with
      | single e =>
        cases e with
        | value v => exact h
        | source s => exact hset s (h2 s hs)
      | groupList ds =>
        apply foldl_set_pred _ _ _ h
        intro s hm
        exact h3 _ hs (by intro e he; cases he) s (by rw [sources_flatMap] at hm; exact hm)
      | groupDict ds =>
        apply foldl_set_pred _ _ _ h
        intro s hm
        exact h3 _ hs (by intro e he; cases he) s (by rw [sources_flatMap_dict] at hm; exact hm)

/-- What a decorated function becomes: for each output a node of that name with its docstring, whose inputs have the types that the
annotations ask for. -/
def NodeFor (shown : V → String) (d : Deco V) (fn : Fn) (n : Node Hint V) (e : Name × Dict Name (ParamDep V))
    (r : Node Hint V × Option String) : Prop :=
  r.1.name = target fn e.1 ∧ HasDoc shown (d.docs.get? (target fn e.1)) fn.doc (target fn e.1) e.2 r.2 ∧
  (∀ s t, (s, t) ∈ r.1.inputTypes → ∃ p h, (p, (h, t.2)) ∈ n.inputTypes ∧ InputType e.2 p h s t.1)

/-- The nodes are those of `parameterize`. -/
theorem expandNode_nodes (ops : PyOps V) (shown : V → String) (d : Deco V) (fn : Fn) (n : Node Hint V) :
    ∀ (l : Dict Name (Dict Name (ParamDep V))) nodes, expandNode ops shown d fn n l = .ok nodes →
      nodes.map (·.1) = parameterize ops component (l.map (fun e => (if e.1 = placeholder then none else some e.1, e.2))) n := by
  intro l
  induction l with
  | nil => intro nodes h; cases h; rfl
  | cons e l ih =>
    intro nodes h
    obtain ⟨o, spec⟩ := e
    have hd : expandNode ops shown d fn n ((o, spec) :: l) =
      (match formatDoc shown d fn (if o = placeholder then n.name else o) with
      | .error e => .error e
      | .ok doc =>
        match resolveAll spec n.inputTypes with
        | .error e => .error e
        | .ok () =>
          match expandNode ops shown d fn n l with
          | .error e => .error e
          | .ok rest =>
            .ok ((parameterize ops component [(if o = placeholder then none else some o, spec)] n).map (fun m => (m, doc)) ++ rest)) := rfl
    rw [hd] at h
    cases h1 : formatDoc shown d fn (if o = placeholder then n.name else o) with
    | error e => rw [h1] at h; cases h
    | ok doc =>
      rw [h1] at h
      dsimp only at h
      cases h2 : resolveAll spec n.inputTypes with
      | error e => rw [h2] at h; cases h
      | ok u =>
        rw [h2] at h
        dsimp only at h
        cases h3 : expandNode ops shown d fn n l with
        | error e => rw [h3] at h; cases h
        | ok rest =>
          rw [h3] at h
          cases h
          rw [List.map_append, ih rest h3]
          rfl

/-- **C83 (partial).**  If the decorator fits the function, decorating succeeds and makes, in the given order, one node for each output,
under its name, with its docstring; its inputs are the parameters that are not replaced, with their types, the sources, with the types
of the parameters they replace, and the members of groups, with the types of the members.  Missing: see `C83_accept_partial`. -/
theorem C83_nodes_partial (ops : PyOps V) (shown : V → String) (d : Deco V) (fn : Fn) (n : Node Hint V)
    (hn : d.specs.keys.Nodup) (hu : Usual d) (ht : ∀ p h, fn.params.get? p = some h → Tidy h) (hname : n.name = fn.name)
    (hparams : n.inputTypes.map (fun p => (p.1, p.2.1)) = fn.params) (hnd : n.inputTypes.keys.Nodup) (hf : Fits d fn) :
    ∃ nodes, decorate ops shown d fn n = .ok nodes ∧ AllPairs (NodeFor shown d fn n) d.specs nodes := by
  have hget : ∀ {p t}, (p, t) ∈ n.inputTypes → fn.params.get? p = some t.1 := by
    intro p t hm
    apply Dict.get?_of_mem
    · rw [← hparams]
      have : Dict.keys (n.inputTypes.map (fun p => (p.1, p.2.1))) = n.inputTypes.keys := by
        simp only [Dict.keys, List.map_map]; rfl
      rw [this]; exact hnd
    · rw [← hparams]
      exact List.mem_map.2 ⟨_, hm, rfl⟩
  have hgroup : ∀ {o spec}, (o, spec) ∈ d.specs → ∀ {p t dep}, (p, t) ∈ n.inputTypes → spec.get? p = some dep →
      (∃ s, dep = .single s) ∨ ∃ a, Element dep t.1 a ∧ resolveType dep t.1 = .ok a ∧ component t.1 = a := by
    intro o spec ho p t dep hp hs
    rcases hf.groups o spec ho p dep (Dict.get?_mem hs) t.1 (hget hp) with h | ⟨a, h⟩
    · exact .inl h
    · exact .inr ⟨a, h, resolve_element (ht p t.1 (hget hp)) h⟩
  have key : ∀ l : Dict Name (Dict Name (ParamDep V)), (∀ e ∈ l, e ∈ d.specs) →
      ∃ nodes, expandNode ops shown d fn n l = .ok nodes ∧ AllPairs (NodeFor shown d fn n) l nodes := by
    intro l
    induction l with
    | nil => intro _; exact ⟨[], rfl, .nil⟩
    | cons e l ih =>
      intro hl
      obtain ⟨rest, hr1, hr2⟩ := ih (fun e he => hl e (List.mem_cons_of_mem _ he))
      obtain ⟨o, spec⟩ := e
      have ho := hl _ (List.mem_cons_self ..)
      have htgt : (if o = placeholder then n.name else o) = target fn o := by
        rw [hname]; rfl
      obtain ⟨doc, hdoc⟩ := (formatDoc_iff shown hn hu ho).2 (hf.docs o spec ho)
        (fun hm => hf.reserved (hf.params o spec ho _ hm))
      have hres : resolveAll spec n.inputTypes = .ok () := by
        apply resolveAll_ok
        intro p t hp dep hs
        rcases hgroup ho hp hs with ⟨s, rfl⟩ | ⟨a, _, h, _⟩
        · exact ⟨_, rfl⟩
        · exact ⟨a, h⟩
      refine ⟨_, ?_, .cons (b := (paramNode ops component n (if o = placeholder then none else some o, spec), doc)) ?_ hr2⟩
      · have hd : expandNode ops shown d fn n ((o, spec) :: l) =
          (match formatDoc shown d fn (if o = placeholder then n.name else o) with
          | .error e => .error e
          | .ok doc =>
            match resolveAll spec n.inputTypes with
            | .error e => .error e
            | .ok () =>
              match expandNode ops shown d fn n l with
              | .error e => .error e
              | .ok rest => .ok ((parameterize ops component [(if o = placeholder then none else some o, spec)] n).map
                  (fun m => (m, doc)) ++ rest)) := rfl
        rw [hd, htgt, hdoc]
        dsimp only
        rw [hres]
        dsimp only
        rw [hr1]
        rfl
      · refine ⟨?_, ((formatDoc_iff shown hn hu ho).1 doc hdoc).1, ?_⟩
        · show (if o = placeholder then none else some o).getD n.name = target fn o
          rw [← htgt]
          by_cases hp : o = placeholder
          · rw [if_pos hp, if_pos hp]; rfl
          · rw [if_neg hp, if_neg hp]; rfl
        · intro s t hst
          obtain ⟨hkn, _, _⟩ := newInputTypes_spec component spec n.inputTypes
          refine newInputTypes_types (spec := spec)
            (Q := fun s t => ∃ p h, (p, (h, t.2)) ∈ n.inputTypes ∧ InputType spec p h s t.1) n.inputTypes [] ?_ ?_ s t
            (Dict.get?_of_mem hkn hst)
          · intro p t hp
            refine ⟨?_, ?_, ?_⟩
            · intro hs; exact ⟨p, t.1, hp, .same hs⟩
            · intro s hs; exact ⟨p, t.1, hp, .source hs⟩
            · intro dep hs hns s hm
              rcases hgroup ho hp hs with ⟨e, he⟩ | ⟨a, h1, _, h3⟩
              · exact absurd he (hns e)
              · exact ⟨p, t.1, hp, .member hs hm (by rw [h3]; exact h1)⟩
          · intro k t h; cases h
  obtain ⟨nodes, h1, h2⟩ := key d.specs (fun e h => h)
  refine ⟨nodes, ?_, h2⟩
  unfold decorate
  rw [(C83_accept_partial shown d fn hn hu ht).2 hf]
  exact h1

/-- **C83 (partial).**  In a graph with the nodes of a decorated function, every output has the value that the function returns on the
arguments its specification asks for.  Missing: sources that are optional inputs and are not supplied (as for C39). -/
theorem C83_value_partial {ops : PyOps V} {shown : V → String} {d : Deco V} {fn : Fn} {n : Node Hint V} {nodes}
    (hdec : decorate ops shown d fn n = .ok nodes) (hname : n.name = fn.name) (hk : n.kind ≠ .external)
    (hnd : n.inputTypes.keys.Nodup) {g : Graph Hint V} {inputs overrides : Dict Name V} (hdef : ∀ r ∈ nodes, Defines g r.1)
    {o : Name} {spec : Dict Name (ParamDep V)} (ho : (o, spec) ∈ d.specs) (hov : overrides.get? (target fn o) = none)
    (hsrc : ∀ s, UsedSource spec n s → ¬ Absent g inputs overrides s) (v : V) :
    Den g inputs overrides (target fn o) v ↔ ∃ kw, SpecArgs ops g inputs overrides spec n kw ∧ n.fn kw = .ok v := by
  have he : expandNode ops shown d fn n d.specs = .ok nodes := by
    unfold decorate at hdec
    cases hv : validate shown d fn with
    | error e => rw [hv] at hdec; cases hdec
    | ok u => rw [hv] at hdec; exact hdec
  have hnodes := expandNode_nodes ops shown d fn n _ _ he
  have ht : (if o = placeholder then none else some o).getD n.name = target fn o := by
    unfold target placeholder
    by_cases hp : o = "__<function_name>"
    · rw [if_pos hp, if_pos hp]; exact hname
    · rw [if_neg hp, if_neg hp]; rfl
  rw [← ht]
  refine C39_partial (comp := component)
    (specs := d.specs.map (fun e => (if e.1 = placeholder then none else some e.1, e.2))) hk hnd ?_
    (List.mem_map.2 ⟨_, ho, rfl⟩) (by rw [ht]; exact hov) hsrc v
  intro m hm
  rw [← hnodes] at hm
  obtain ⟨r, hr, rfl⟩ := List.mem_map.1 hm
  exact hdef r hr

/-! ### Samples -/
namespace Sample

/-- Lists are their sums. -/
def ops : PyOps Int where
  mkList := fun l => l.foldr (· + ·) 0
  mkDict := fun d => d.foldr (fun p s => p.2 + s) 0
  asDict := fun _ => none
  mkResult := fun _ => 0
  asResult := fun _ => none

/-- `def total(base: int, parts: Optional[List[int]]) -> int` with the docstring `{base} and parts make {output_name}`. -/
def total : Fn :=
  ⟨"total", some [.field "base", .text " and parts make ", .field "output_name"],
    [("base", .cls "int"), ("parts", .union [.alias "list" [.cls "int"], .none])]⟩

/-- Its node. -/
def totalNode : Node Hint Int :=
  { name := "total", typ := .cls "int", kind := .standard,
    inputTypes := [("base", (.cls "int", .required)), ("parts", (.union [.alias "list" [.cls "int"], .none], .required))],
    dependencies := [], dependedOnBy := [], fn := fun kw => .ok ((kw.get? "base").getD 0 + (kw.get? "parts").getD 0) }

/-- The group `group(source("a"), value(10))`. -/
def parts : ParamDep Int := .groupList [.source "a", .value 10]

example : group [Arg.single (.source "a"), Arg.single (.value 10)] [] = .ok parts := rfl

example : (group [Arg.single (.source "a"), Arg.grouped parts] []).isOk = false ∧ (group ([] : List (Arg Int)) []).isOk = false ∧
    group [] [("x", Arg.single (.source "a")), ("y", Arg.single (.value (V := Int) 1))] =
      .ok (.groupDict [("x", .source "a"), ("y", .value 1)]) := by
  refine ⟨rfl, rfl, rfl⟩

/-- `@parameterize(small={"base": value(1), "parts": group(…)}, large=({"base": source("b")}, "the large one"))`. -/
def entries : Dict Name (Entry Int) :=
  [("small", ⟨[("base", .single (.value 1)), ("parts", .grouped parts)], none⟩),
   ("large", ⟨[("base", .single (.source "b"))], some "the large one"⟩)]

/-- The decorator. -/
def deco : Deco Int :=
  ⟨[("small", [("base", .single (.value 1)), ("parts", parts)]), ("large", [("base", .single (.source "b"))])],
    [("large", "the large one")]⟩

example : initParameterize entries = .ok deco ∧ entries.keys.Nodup := ⟨rfl, by decide⟩

example : (initParameterize [("small", (⟨[("base", Arg.other)], none⟩ : Entry Int))]).isOk = false := rfl

/-- How literals are shown. -/
def shown : Int → String := fun i => toString i

theorem total_tidy : ∀ p h, total.params.get? p = some h → Tidy h := by
  intro p h hp
  have hm := Dict.get?_mem hp
  simp only [total, List.mem_cons, Prod.mk.injEq, List.not_mem_nil, or_false] at hm
  rcases hm with ⟨_, rfl⟩ | ⟨_, rfl⟩
  · exact ⟨(by intro h; cases h), (by intro _ h; cases h)⟩
  · refine ⟨(by intro h; cases h), ?_⟩
    intro args h _
    cases h
    exact ⟨_, (by intro h; cases h), rfl⟩

/-- Non-vacuity of `C83_accept_partial`. -/
theorem deco_fits : Fits deco total := (C83_accept_partial shown deco total (by decide) (.inr (by decide)) total_tidy).1 rfl

/-- The nodes. -/
def nodes : List (Node Hint Int × Option String) :=
  match decorate ops shown deco total totalNode with
  | .ok l => l
  | .error _ => []

theorem nodes_eq : decorate ops shown deco total totalNode = .ok nodes := rfl

/-- Non-vacuity of `C83_nodes_partial`. -/
example : ∃ nodes, decorate ops shown deco total totalNode = .ok nodes ∧ AllPairs (NodeFor shown deco total totalNode) deco.specs nodes :=
  C83_nodes_partial ops shown deco total totalNode (by decide) (.inr (by decide)) total_tidy rfl rfl (by decide) deco_fits

example : nodes.map (fun r => (r.1.name, r.1.inputTypes.keys, r.2)) =
    [("small", ["a"], some "1 and parts make small"), ("large", ["b", "parts"], some "the large one")] := by decide +kernel

/-- The graph. -/
def graph : Graph Hint Int :=
  match createFunctionGraph (fun _ _ => true) .none [] false (nodes.map (·.1)) with
  | .ok g => g
  | .error _ => []

theorem graph_eq : createFunctionGraph (fun _ _ => true) Hint.none ([] : Dict Name Int) false (nodes.map (·.1)) = .ok graph := by
  have h : (createFunctionGraph (fun _ _ => true) Hint.none ([] : Dict Name Int) false (nodes.map (·.1))).isOk = true := by
    decide +kernel
  unfold graph
  revert h
  generalize createFunctionGraph (fun _ _ => true) Hint.none ([] : Dict Name Int) false (nodes.map (·.1)) = r
  intro h
  cases r with
  | ok g => rfl
  | error e => cases h

theorem graph_defines : ∀ r ∈ nodes, Defines graph r.1 := by
  intro r hr
  refine build_defines ?_ graph_eq (List.mem_map.2 ⟨r, hr, rfl⟩) (by simp [Dict.keys])
  intro m hm
  have : nodes.map (·.1) = parameterize ops component [(some "small", [("base", .single (.value 1)), ("parts", parts)]),
    (some "large", [("base", .single (.source "b"))])] totalNode := rfl
  rw [this] at hm
  simp only [parameterize, List.map_cons, List.map_nil, List.mem_cons, List.not_mem_nil, or_false] at hm
  rcases hm with rfl | rfl
  · exact ⟨(newInputTypes_spec _ _ _).1, rfl, rfl, by simp [totalNode]⟩
  · exact ⟨(newInputTypes_spec _ _ _).1, rfl, rfl, by simp [totalNode]⟩

/-- Non-vacuity of `C83_value_partial`: `small` with `a = 5` is `1 + (5 + 10)`. -/
example : Den graph [("a", 5)] [] "small" 16 := by
  refine (C83_value_partial nodes_eq rfl (by decide) (by decide) graph_defines (o := "small") (List.mem_cons_self ..) rfl ?_ 16).2 ?_
  · rintro s ⟨p, hp, d, hd, hs⟩ ⟨n, _, _, h, _⟩
    have : s = "a" := by
      simp only [Dict.get?_cons] at hd
      by_cases h1 : "base" = p
      · rw [if_pos h1] at hd; cases hd; simp [ParamDep.refs] at hs
      · rw [if_neg h1] at hd
        by_cases h2 : "parts" = p
        · rw [if_pos h2] at hd; cases hd; simpa [ParamDep.refs, parts] using hs
        · rw [if_neg h2] at hd; cases hd
    subst this
    cases h
  · have hx : Den graph [("a", 5)] [] "a" 5 := by
      have h : (graph.get? "a").map (·.kind) = some .external := by decide +kernel
      cases hx : graph.get? "a" with
      | none => rw [hx] at h; cases h
      | some n =>
        rw [hx] at h
        exact .input hx rfl (Option.some.inj h) rfl
    refine ⟨_, ⟨fun p => if p = "base" then some 1 else if p = "parts" then some 15 else none, ?_, ?_, rfl⟩, ?_⟩
    · intro p v _ hv
      dsimp only at hv
      by_cases h1 : p = "base"
      · rw [if_pos h1] at hv; cases hv; subst h1
        exact .single rfl .value
      · rw [if_neg h1] at hv
        by_cases h2 : p = "parts"
        · rw [if_pos h2] at hv; cases hv; subst h2
          exact ParamVal.groupList (ops := ops) (vs := [5, 10]) rfl (.cons (.source hx) (.cons .value .nil))
        · rw [if_neg h2] at hv; cases hv
    · intro p t hp hv
      dsimp only at hv
      simp only [totalNode, List.mem_cons, List.not_mem_nil, or_false] at hp
      rcases hp with h | h <;> cases h <;> cases hv
    · rfl

/-- Non-vacuity of `C83_values_partial`. -/
example : initValues "base" [(OutDoc.pair "one" "first", 1), (.pair "two" "second", (2 : Int))] =
    .ok ⟨[("one", [("base", .single (.value 1))]), ("two", [("base", .single (.value 2))])], [("one", "first"), ("two", "second")]⟩ :=
  (C83_values_partial "base").2 [("one", "first", 1), ("two", "second", 2)] (by decide)

example : (initValues "base" [(OutDoc.noTuple, (1 : Int))]).isOk = false ∧
    (initValues "base" [(OutDoc.wrongLength, (1 : Int))]).isOk = false := ⟨rfl, rfl⟩

/-- Non-vacuity of `C83_input_partial`. -/
example : initInput "base" [("x", .pair "from_x" "first"), ("y", .pair "from_y" "second")] =
    .ok (⟨[("from_x", [("base", .single (.source "x"))]), ("from_y", [("base", .single (.source "y"))])],
      [("from_x", "first"), ("from_y", "second")]⟩ : Deco Int) :=
  (C83_input_partial "base").2 [("from_x", "first", "x"), ("from_y", "second", "y")] (by decide)

/-- Non-vacuity of `C83_sources`. -/
example : initSources [("from_x", [("base", "x")])] = .ok (⟨[("from_x", [("base", .single (.source "x"))])], []⟩ : Deco Int) :=
  (C83_sources _ _).2 ⟨(by simp), (by simp), rfl⟩

/-- Non-vacuity of `C83_inject`, and what becomes of the function. -/
example : ∃ d, initInject [("parts", Arg.grouped parts)] = .ok d ∧
    ((decorate ops shown d total totalNode).toOption.map (fun l => l.map (fun r => (r.1.name, r.1.inputTypes.keys, r.2)))) =
      some [("total", ["base", "a"], some "base and parts make total")] :=
  ⟨_, (C83_inject _ _).2 ⟨_, .grouped .nil, rfl⟩, by decide +kernel⟩

/-- **C83 violated.**  Two values are given to one output, under different docstrings. The decorator is accepted, and the first of
them is lost. -/
theorem C83_violated_values : initValues "base" [(OutDoc.pair "one" "first", 1), (.pair "one" "second", (2 : Int))] =
    .ok ⟨[("one", [("base", .single (.value 2))])], [("one", "second")]⟩ := rfl

/-- **C83 violated.**  Two inputs are given to one output of `@parametrized_input`. It is accepted, and the first of them is lost. -/
theorem C83_violated_input : initInput "base" [("x", .pair "one" "first"), ("y", .pair "one" "second")] =
    .ok (⟨[("one", [("base", .single (.source "y"))])], [("one", "second")]⟩ : Deco Int) := rfl

/-- A decorator that makes `out` with the group for `parts`. -/
def grouping : Deco Int := ⟨[("out", [("parts", parts)])], []⟩

/-- **C83 violated.**  A group is refused for a parameter annotated `Union[None, List[int]]`, though it is accepted for
`Union[List[int], None]`, which is the same type. -/
theorem C83_violated_order :
    validate shown grouping ⟨"f", none, [("parts", .union [.alias "list" [.cls "int"], .none])]⟩ = .ok () ∧
    validate shown grouping ⟨"f", none, [("parts", .union [.none, .alias "list" [.cls "int"]])]⟩ = .error .invalidDecorator ∧
    ∃ a, Element parts (.union [.none, .alias "list" [.cls "int"]]) a :=
  ⟨rfl, rfl, .cls "int", .list (.optional (by simp) (by simp) (by simp))⟩

/-- **C83 violated.**  Replacing a parameter annotated `None` by a source fails with an `IndexError`, though the decorator fits. -/
theorem C83_violated_annotation :
    validate shown (⟨[("out", [("x", .single (.source "a"))])], []⟩ : Deco Int) ⟨"f", none, [("x", .none)]⟩ = .error .indexError ∧
    Fits (⟨[("out", [("x", .single (.source "a"))])], []⟩ : Deco Int) ⟨"f", none, [("x", .none)]⟩ := by
  refine ⟨rfl, ⟨?_, by decide, ?_, ?_⟩⟩
  · intro _ _ _ _ _ h; cases h
  · intro o spec h p hp
    simp only [List.mem_singleton, Prod.mk.injEq] at h
    rw [h.2] at hp
    exact hp
  · intro o spec h p dep hp _ _
    simp only [List.mem_singleton, Prod.mk.injEq] at h
    rw [h.2] at hp
    simp only [List.mem_singleton, Prod.mk.injEq] at hp
    exact .inl ⟨_, hp.2⟩

/-- **C83 violated.**  A function whose docstring shows a dictionary cannot be decorated: the braces are taken for a template, and a
`ValueError` is raised, although nothing is wrong with the decorator: with a docstring of its own the output would be made. -/
theorem C83_violated_braces :
    validate shown (⟨[("out", [("x", .single (.source "a"))])], []⟩ : Deco Int)
      ⟨"f", some [.text "returns ", .bad], [("x", .cls "int")]⟩ = .error .valueError ∧
    validate shown (⟨[("out", [("x", .single (.source "a"))])], [("out", "a dictionary")]⟩ : Deco Int)
      ⟨"f", some [.text "returns ", .bad], [("x", .cls "int")]⟩ = .ok () := ⟨rfl, rfl⟩

/-- **C83 violated.**  `@parameterize()` and `@parameterize_values("base", {})` are accepted, and the function they decorate
disappears: there is no node for it. -/
theorem C83_violated_empty :
    initParameterize ([] : Dict Name (Entry Int)) = .ok ⟨[], []⟩ ∧ initValues "base" ([] : List (OutDoc × Int)) = .ok ⟨[], []⟩ ∧
    decorate ops shown ⟨[], []⟩ total totalNode = .ok [] := ⟨rfl, rfl, rfl⟩

end Sample

end Verif.ParamFamily
