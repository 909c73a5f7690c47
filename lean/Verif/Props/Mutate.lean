import Verif.Spec.Mutate
import Verif.Props.Pipe

/-!
Property C58: `@mutate` applies the decorated function to the outputs of its targets and changes nothing else.
-/
namespace Verif
section
variable {T V : Type} {g : Graph T V} {inputs overrides : Dict Name V}

/-- The module after all its mutators were defined, one after the other (decorators run when the module is imported,
`hamilton/function_modifiers/macros.py:1582-1619`). -/
def mutateAll (ms : List (Dict Name (SingleDep V) × List (MutateTarget V) × Node T V)) (tbl : PipeTable T V) : PipeTable T V :=
  ms.foldl (fun tbl m => mutate m.1 m.2.1 m.2.2 tbl) tbl

/-- The pipes of a function after appending steps. -/
def addSteps (pipes : List (PipeOutput T V)) (steps : List (Applicable T V)) : List (PipeOutput T V) :=
  match steps with
  | [] => pipes
  | _ :: _ =>
    match pipes with
    | [] => [{ transforms := steps, ns := .ellipsis, onOutput := none }]
    | p :: ps => (p :: ps).map (fun q => { q with transforms := q.transforms ++ steps })

theorem addSteps_append (pipes : List (PipeOutput T V)) (s1 s2 : List (Applicable T V)) :
    addSteps pipes (s1 ++ s2) = addSteps (addSteps pipes s1) s2 := by
  cases s1 with
  | nil => rfl
  | cons a as =>
    cases s2 with
    | nil => simp [addSteps]
    | cons b bs =>
      cases pipes with
      | nil => simp [addSteps]
      | cons p ps => simp [addSteps, List.map_map, Function.comp_def]

theorem mutateOne_get (tbl : PipeTable T V) (a : Applicable T V) (f k : Name) :
    ((mutateOne tbl a f).get? k).getD [] = if f = k then addSteps ((tbl.get? k).getD []) [a] else (tbl.get? k).getD [] := by
  by_cases hf : f = k
  · subst hf
    rw [if_pos rfl]
    unfold mutateOne
    cases ht : tbl.get? f with
    | none => simp [addSteps]
    | some l =>
      cases l with
      | nil => simp [addSteps]
      | cons p ps => simp [addSteps]
  · rw [if_neg hf]
    unfold mutateOne
    cases ht : tbl.get? f with
    | none => simp only [Dict.get?_set_ne _ _ hf]
    | some l =>
      cases l with
      | nil => simp only [Dict.get?_set_ne _ _ hf]
      | cons p ps => simp only [Dict.get?_set_ne _ _ hf]

theorem createStep_eq (kwargs : Dict Name (SingleDep V)) (mutator : Node T V) (t : MutateTarget V) :
    createStep mutator kwargs t =
      ⟨mutator, [], match t.kwargs with | [] => kwargs | own => own, t.resolvers, t.name, t.ns, t.target⟩ := by
  unfold createStep
  cases t.kwargs <;> rfl

theorem mutate_get (kwargs : Dict Name (SingleDep V)) (mutator : Node T V) (k : Name) :
    ∀ (targets : List (MutateTarget V)) (tbl : PipeTable T V),
    ((mutate kwargs targets mutator tbl).get? k).getD [] =
      addSteps ((tbl.get? k).getD []) (mutationSteps kwargs mutator k targets) := by
  intro targets
  induction targets with
  | nil => intro tbl; rfl
  | cons t ts ih =>
    intro tbl
    have := ih (mutateOne tbl (createStep mutator kwargs t) t.fnName)
    change ((mutate kwargs ts mutator (mutateOne tbl (createStep mutator kwargs t) t.fnName)).get? k).getD [] = _
    rw [this, mutateOne_get]
    simp only [mutationSteps]
    by_cases hk : t.fnName = k
    · rw [if_pos hk, if_pos hk, ← addSteps_append, createStep_eq]; rfl
    · rw [if_neg hk, if_neg hk]

theorem mutateAll_get (k : Name) : ∀ (ms : List (Dict Name (SingleDep V) × List (MutateTarget V) × Node T V))
    (tbl : PipeTable T V), ((mutateAll ms tbl).get? k).getD [] = addSteps ((tbl.get? k).getD []) (allMutationSteps k ms) := by
  intro ms
  induction ms with
  | nil => intro tbl; rfl
  | cons m ms ih =>
    intro tbl
    have := ih (mutate m.1 m.2.1 m.2.2 tbl)
    change ((mutateAll ms (mutate m.1 m.2.1 m.2.2 tbl)).get? k).getD [] = _
    rw [this, mutate_get, ← addSteps_append]
    rfl

theorem mutationSteps_none {kwargs : Dict Name (SingleDep V)} {mutator : Node T V} {k : Name} : ∀ {ts : List (MutateTarget V)},
    (∀ t ∈ ts, t.fnName ≠ k) → mutationSteps kwargs mutator k ts = [] := by
  intro ts
  induction ts with
  | nil => intro _; rfl
  | cons t ts ih =>
    intro h
    simp only [mutationSteps]
    rw [if_neg (h t (by simp)), ih (fun t ht => h t (by simp [ht]))]

/-- **C58, frame.**  The nodes of a function that no mutator mentions are the same as without the mutators. -/
theorem C58_others_unchanged {any : T} {ms : List (Dict Name (SingleDep V) × List (MutateTarget V) × Node T V)}
    {tbl : PipeTable T V} {k : Name} (hk : ∀ m ∈ ms, ∀ t ∈ m.2.1, t.fnName ≠ k) (config : Dict Name V) (isAsync : Bool)
    (nodes : List (Node T V)) :
    pipeOutputs any config k isAsync (((mutateAll ms tbl).get? k).getD []) nodes =
      pipeOutputs any config k isAsync ((tbl.get? k).getD []) nodes := by
  rw [mutateAll_get]
  have : allMutationSteps k ms = [] := by
    clear tbl
    induction ms with
    | nil => rfl
    | cons m ms ih =>
      simp only [allMutationSteps]
      rw [mutationSteps_none (hk m (by simp)), ih (fun m hm => hk m (by simp [hm]))]
      rfl
  rw [this]
  rfl

theorem outputSteps_append (config : Dict Name V) (a b : List (Applicable T V)) (name : Name) :
    outputSteps config (a ++ b) name = outputSteps config a name ++ outputSteps config b name := by
  simp [outputSteps, activeSteps]

/-- **C58 (partial).**  In a module, the function `k` has no `@pipe_output` or one without `on_output`, and then mutators `ms`
are defined.  In a graph containing the resulting nodes of the function, every output of the function has the value obtained
from the value of the undecorated function by the steps of its `@pipe_output` followed by the mutations asked for (those that
apply to this output and whose conditions hold), in the order in which they are defined; the outputs that are not final are
unchanged.  Missing: a `@pipe_output` restricted with `on_output` (`C58_violated_on_output`), several `@pipe_output`s
(`C58_violated_stacked`), and the conditions on the steps of C57. -/
theorem C58_value_partial {any : T} {ms : List (Dict Name (SingleDep V) × List (MutateTarget V) × Node T V)}
    {tbl : PipeTable T V} {k : Name} {old : List (Applicable T V)} {ns : NsArg}
    (hold : ((tbl.get? k).getD [] = [] ∧ old = [] ∧ ns = .ellipsis) ∨
      (tbl.get? k).getD [] = [{ transforms := old, ns := ns, onOutput := none }])
    {config : Dict Name V} {nodes out : List (Node T V)}
    (h : pipeOutputs any config k false (((mutateAll ms tbl).get? k).getD []) nodes = .ok out)
    (hd : ∀ m ∈ out, Defines g m) (hov : ∀ m ∈ out, overrides.get? m.name = none) {n : Node T V} (hn : n ∈ nodes)
    (hk : n.kind ≠ .external) :
    ((∀ m ∈ nodes, n.name ∉ m.inputTypes.keys) →
      ChainClear g inputs overrides (n.name ++ ".raw") (outputSteps config (old ++ allMutationSteps k ms) n.name)
        (chainNames (outputNs ns n.name) k [] (outputSteps config (old ++ allMutationSteps k ms) n.name)) →
      ∀ v, Den g inputs overrides n.name v ↔
        ∃ x y, FnValue g inputs overrides n x ∧ ChainValue g inputs overrides (outputSteps config old n.name) x y ∧
          ChainValue g inputs overrides (outputSteps config (allMutationSteps k ms) n.name) y v) ∧
    ((∃ m ∈ nodes, n.name ∈ m.inputTypes.keys) →
      ∀ v, Den g inputs overrides n.name v ↔ FnValue g inputs overrides n v) := by
  rw [mutateAll_get] at h
  -- without any step at all
  have plain : old ++ allMutationSteps k ms = [] → out = nodes →
      ((∀ m ∈ nodes, n.name ∉ m.inputTypes.keys) →
      ChainClear g inputs overrides (n.name ++ ".raw") (outputSteps config (old ++ allMutationSteps k ms) n.name)
        (chainNames (outputNs ns n.name) k [] (outputSteps config (old ++ allMutationSteps k ms) n.name)) →
      ∀ v, Den g inputs overrides n.name v ↔
        ∃ x y, FnValue g inputs overrides n x ∧ ChainValue g inputs overrides (outputSteps config old n.name) x y ∧
          ChainValue g inputs overrides (outputSteps config (allMutationSteps k ms) n.name) y v) ∧
      ((∃ m ∈ nodes, n.name ∈ m.inputTypes.keys) →
      ∀ v, Den g inputs overrides n.name v ↔ FnValue g inputs overrides n v) := by
    intro he ho
    subst ho
    obtain ⟨h1, h2⟩ := List.append_eq_nil_iff.1 he
    have hv := fun v => den_iff_fnValue (inputs := inputs) (hd n hn) hk (hov n hn) v
    refine ⟨?_, fun _ v => hv v⟩
    intro _ _ v
    rw [h1, h2, hv]
    constructor
    · intro h; exact ⟨v, v, h, rfl, rfl⟩
    · rintro ⟨x, y, h, rfl, rfl⟩; exact h
  have piped : ∀ p : PipeOutput T V, p = { transforms := old ++ allMutationSteps k ms, ns := ns, onOutput := none } →
      pipeOutputs any config k false [p] nodes = .ok out →
      ((∀ m ∈ nodes, n.name ∉ m.inputTypes.keys) →
      ChainClear g inputs overrides (n.name ++ ".raw") (outputSteps config (old ++ allMutationSteps k ms) n.name)
        (chainNames (outputNs ns n.name) k [] (outputSteps config (old ++ allMutationSteps k ms) n.name)) →
      ∀ v, Den g inputs overrides n.name v ↔
        ∃ x y, FnValue g inputs overrides n x ∧ ChainValue g inputs overrides (outputSteps config old n.name) x y ∧
          ChainValue g inputs overrides (outputSteps config (allMutationSteps k ms) n.name) y v) ∧
      ((∃ m ∈ nodes, n.name ∈ m.inputTypes.keys) →
      ∀ v, Den g inputs overrides n.name v ↔ FnValue g inputs overrides n v) := by
    rintro p rfl hp
    simp only [pipeOutputs] at hp
    cases ho : pipeOutput any { transforms := old ++ allMutationSteps k ms, ns := ns, onOutput := none } config k false nodes with
    | error e => simp only [ho] at hp; cases hp
    | ok l =>
      simp only [ho, Except.ok.injEq] at hp
      subst hp
      obtain ⟨c1, c2⟩ := C57_output_partial (inputs := inputs) ho hd hov hn hk
      refine ⟨?_, ?_⟩
      · intro hs hcl v
        rw [(c1 hs hcl).1 v]
        simp only [outputSteps_append, chainValue_append]
        constructor
        · rintro ⟨x, h1, y, h2, h3⟩; exact ⟨x, y, h1, h2, h3⟩
        · rintro ⟨x, y, h1, h2, h3⟩; exact ⟨x, h1, y, h2, h3⟩
      · rintro ⟨m, hm, hmn⟩ v
        exact c2 (fun hc => hc m hm hmn) v
  rcases hold with ⟨h1, h2, h3⟩ | h1
  · rw [h1] at h
    cases hs : allMutationSteps k ms with
    | nil =>
      rw [hs] at h
      have ho : out = nodes := by simpa [addSteps, pipeOutputs] using h.symm
      rw [← hs]
      exact plain (by rw [h2, hs]; rfl) ho
    | cons a as =>
      rw [hs] at h
      rw [← hs] at h ⊢
      refine piped { transforms := allMutationSteps k ms, ns := .ellipsis, onOutput := none } ?_ ?_
      · rw [h2, h3]; rfl
      · rw [hs] at h ⊢; exact h
  · rw [h1] at h
    refine piped _ rfl ?_
    cases hs : allMutationSteps k ms with
    | nil => rw [hs] at h; simpa [addSteps] using h
    | cons a as => rw [hs] at h; exact h
end

namespace MutateSample
open DecorSample PipeSample

/-- A plain target. -/
def onFn (f : Name) (kw : Dict Name (SingleDep DV)) : MutateTarget DV :=
  { fnName := f, kwargs := kw, resolvers := [], name := none, ns := .ellipsis, target := none }

/-- `@mutate(f, apply_to(h, y=value(3)), y=value(10)) def mul(x, y=2)` and then `@mutate(f) def _add_one(x)`. -/
def muts : List (Dict Name (SingleDep DV) × List (MutateTarget DV) × Node Unit DV) :=
  [([("y", .value (.int 10))], [onFn "f" [], onFn "h" [("y", .value (.int 3))]], mul), ([], [onFn "f" []], addOne)]

/-- `f` has a `@pipe_output(step(_add_one))`. -/
def table : PipeTable Unit DV := [("f", [{ transforms := [pipeStep addOne [] []], ns := .ellipsis, onOutput := none }])]

/-- The nodes of a function of the module. -/
def fnNodes (f : Name) : Except UserErr (List (Node Unit DV)) :=
  pipeOutputs () [] f false (((mutateAll muts table).get? f).getD []) [idA f]

/-- `(a + 1) * 10 + 1`, `a * 3` and `a`. -/
example : run (nodesOf (fnNodes "f")) [("a", .int 4)] "f" = .inl (some 51) ∧
    run (nodesOf (fnNodes "h")) [("a", .int 4)] "h" = .inl (some 12) ∧
    run (nodesOf (fnNodes "k")) [("a", .int 4)] "k" = .inl (some 4) ∧
    (nodesOf (fnNodes "f")).map (·.name) = ["f.raw", "f.with_add_one", "f.with_mul", "f.with_add_one_1", "f"] := by
  decide +kernel

theorem muts_clear {fns : List (Node Unit DV)} {i : Dict Name DV} {cur : Name} {names : List Name} (hcur : cur ≠ "y")
    (hnames : ∀ m ∈ names, m ≠ "y") :
    ChainClear (build fns) i [] cur (pipeStep addOne [] [] :: allMutationSteps "f" muts) names := by
  have h1 : ∀ cur, StepClear (build fns) i [] cur (pipeStep addOne [] []) := by
    intro cur
    refine ⟨nofun, by decide, by decide, addOne_byKeyword, by simp [Applicable.sources, Applicable.written, pipeStep], ?_, ?_, ?_⟩
    · intro s _ v; exact nofun
    · intro s hs; simp [Applicable.sources, Applicable.written, pipeStep] at hs
    · intro u hu hne _
      simp [pipeStep, addOne, fnode, Dict.keys] at hu hne
      exact absurd hu.symm hne
  have h2 : ∀ cur, cur ≠ "y" → StepClear (build fns) i [] cur (pipeStep mul [] [("y", .value (.int 10))]) := by
    intro cur hcur
    have hs : (pipeStep mul [] [("y", .value (DV.int 10))]).sources = [] := rfl
    have hw : (pipeStep mul [] [("y", .value (DV.int 10))]).written = [("y", .value (.int 10))] := rfl
    refine ⟨nofun, by decide, by decide, mul_byKeyword, by rw [hs]; simp, ?_, ?_, ?_⟩
    · intro s h v
      rw [hs] at h
      simp only [List.mem_singleton] at h
      subst h
      rw [hw, Dict.get?_cons, if_neg (Ne.symm hcur)]
      exact nofun
    · intro s h; rw [hs] at h; cases h
    · intro u hu hne hn
      rw [hw, Dict.get?_cons] at hn
      have : u = "x" ∨ u = "y" := by simpa [pipeStep, mul, fnode, Dict.keys] using hu
      rcases this with rfl | rfl
      · exact absurd rfl hne
      · cases hn
  have hm : allMutationSteps "f" muts = [pipeStep mul [] [("y", .value (.int 10))], pipeStep addOne [] []] := rfl
  rw [hm]
  match names, hnames with
  | [], _ => trivial
  | [m1], _ => exact ⟨h1 _, trivial⟩
  | [m1, m2], hn => exact ⟨h1 _, h2 _ (hn m1 (by simp)), trivial⟩
  | m1 :: m2 :: m3 :: ms, hn => exact ⟨h1 _, h2 _ (hn m1 (by simp)), h1 _, by cases ms <;> trivial⟩

/-- Non-vacuity of `C58_value_partial`. -/
example (v : DV) : Den (build (nodesOf (fnNodes "f"))) [("a", .int 4)] [] "f" v ↔
    ∃ x y, FnValue (build (nodesOf (fnNodes "f"))) [("a", .int 4)] [] (idA "f") x ∧
      ChainValue (build (nodesOf (fnNodes "f"))) [("a", .int 4)] [] [pipeStep addOne [] []] x y ∧
      ChainValue (build (nodesOf (fnNodes "f"))) [("a", .int 4)] []
        [pipeStep mul [] [("y", .value (.int 10))], pipeStep addOne [] []] y v := by
  have hok : fnNodes "f" = .ok (nodesOf (fnNodes "f")) := nodesOf_eq (by decide +kernel)
  refine (C58_value_partial (g := build (nodesOf (fnNodes "f"))) (inputs := [("a", .int 4)]) (overrides := []) (tbl := table)
    (old := [pipeStep addOne [] []]) (ns := .ellipsis) (.inr rfl) hok (defines_of (by decide +kernel) (by decide +kernel))
    (fun _ _ => rfl) (n := idA "f") (by simp) nofun).1 ?_ ?_ v
  · simp [idA, fnode, Dict.keys]
  · refine muts_clear (by decide) ?_
    show ∀ m ∈ chainNames (.named "f") "f" [] [pipeStep addOne [] [], pipeStep mul [] [("y", .value (.int 10))], pipeStep addOne [] []], _
    rw [show chainNames (.named "f") "f" [] [pipeStep addOne [] [], pipeStep mul [] [("y", .value (.int 10))], pipeStep addOne [] []] =
      ["f.with_add_one", "f.with_mul", "f.with_add_one_1"] by decide +kernel]
    decide

/-- Non-vacuity of `C58_others_unchanged`. -/
example : pipeOutputs () [] "k" false (((mutateAll muts table).get? "k").getD []) [idA "k"] =
    pipeOutputs () ([] : Dict Name DV) "k" false ((table.get? "k").getD []) [idA "k"] :=
  C58_others_unchanged (by simp [muts, onFn]) [] false [idA "k"]

/-! ### Violations -/

/-- Two outputs of one function, as made by `@extract_fields`. -/
def twoOut : List (Node Unit DV) := [idA "p", { idA "q" with fn := fun kw => .ok (.int (argI kw "a" 0 + 5)) }]

/-- `@pipe_output(step(_add_one), on_output="p")` on `f`, then `@mutate(f, y=value(10)) def mul`. -/
def restricted : Except UserErr (List (Node Unit DV)) :=
  pipeOutputs () [] "f" false (((mutate [("y", .value (.int 10))] [onFn "f" []] mul
    [("f", [{ transforms := [pipeStep addOne [] []], ns := .ellipsis, onOutput := some ["p"] }])]).get? "f").getD []) twoOut

/-- **C58 violated: `on_output` of an existing `@pipe_output`.**  Mutating a function that has a `@pipe_output` restricted to
one output changes only that output; without the `@pipe_output` all outputs are changed. -/
theorem C58_violated_on_output :
    run (nodesOf restricted) [("a", .int 4)] "p" = .inl (some 50) ∧
    run (nodesOf restricted) [("a", .int 4)] "q" = .inl (some 9) ∧
    run (nodesOf (pipeOutputs () [] "f" false (((mutate [("y", .value (.int 10))] [onFn "f" []] mul []).get? "f").getD [])
      twoOut)) [("a", .int 4)] "q" = .inl (some 90) := by decide +kernel

/-- Two `@pipe_output`s of which one is active. -/
def alternatives : List (PipeOutput Unit DV) :=
  [{ transforms := [{ pipeStep addOne [] [] with resolvers := [fun c => c.has "fast"] }], ns := .ellipsis, onOutput := none },
    { transforms := [{ pipeStep mul [] [] with resolvers := [fun c => !c.has "fast"] }], ns := .ellipsis, onOutput := none }]

/-- **C58 violated: several `@pipe_output`s.**  A function with two `@pipe_output`s, one of which is active, can be built; after
`@mutate` it cannot, as the mutation is added to both of them. -/
theorem C58_violated_stacked :
    run (nodesOf (pipeOutputs () [] "f" false alternatives [idA "f"])) [("a", .int 4)] "f" = .inl (some 8) ∧
    (createFunctionGraph (fun _ _ => true) () ([] : Dict Name DV) false (nodesOf (pipeOutputs () [] "f" false
      (((mutate [] [onFn "f" []] addOne [("f", alternatives)]).get? "f").getD []) [idA "f"]))).isOk = false := by decide +kernel

end MutateSample

end Verif
