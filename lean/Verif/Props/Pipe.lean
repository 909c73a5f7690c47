import Verif.Proofs.Pipe
import Verif.Props.Decorators

/-!
Property C57: chains of functions attached with `@pipe_input` and `@pipe_output` mean function composition.
-/
namespace Verif
section
variable {T V : Type} {g : Graph T V} {inputs overrides : Dict Name V}

theorem mem_injectable {nodes : List (Node T V)} {p : Name} :
    (injectableParams nodes).contains p = true ↔ (∃ n ∈ nodes, p ∈ n.inputTypes.keys) ∧ ∀ n ∈ nodes, n.name ≠ p := by
  simp only [injectableParams, List.mem_filter, List.mem_flatMap, Bool.not_eq_true',
    List.contains_eq_mem, decide_eq_false_iff_not, List.mem_map, not_exists, not_and, decide_eq_true_eq, ne_eq]

/-- The parameter that is piped is the one asked for. -/
theorem parameter_spec {p : PipeInput T V} {nodes : List (Node T V)} {sig : List Name} {param q : Name}
    (hparam : p.onInput = some param ∨ (p.onInput = none ∧ sig.head? = some param))
    (hused : ∃ n ∈ nodes, param ∈ n.inputTypes.keys) (hfree : ∀ n ∈ nodes, n.name ≠ param)
    (h : p.parameter sig (injectableParams nodes) = .ok q) : q = param := by
  have hc := mem_injectable.2 ⟨hused, hfree⟩
  unfold PipeInput.parameter at h
  rcases hparam with ho | ⟨ho, hs⟩
  · simp only [ho, hc, if_true] at h
    by_cases h2 : sig.contains param = true
    · simp only [h2, if_true, Except.ok.injEq] at h; exact h.symm
    · simp only [h2] at h; cases h
  · cases sig with
    | nil => cases hs
    | cons a as =>
      cases hs
      simp only [ho, hc, if_true, Except.ok.injEq] at h
      exact h.symm

/-- **C57, `@pipe_input` (partial).**  Let a function with nodes `nodes` be decorated with `@pipe_input(step₁, step₂, …)`, and
let a graph contain the resulting nodes.  The piped parameter is the one named in `on_input`, otherwise the first one.  A node
of the function that has the parameter returns what its function returns when the parameter is given the composition of the
steps (those whose `when` holds) applied to the value the parameter would have had, and the other parameters their usual
values; the other nodes of the function are unchanged; and the nodes of the chain have the documented names and the values of
the partial compositions.  Missing: steps that use one node for two arguments, or a node called like a parameter given a
literal, or unmentioned optional parameters that have a value in the graph (`C57_violated_*`), a piped parameter without a
value (`¬ Absent`), and a last step called like another parameter. -/
theorem C57_input_partial {p : PipeInput T V} {config : Dict Name V} {fnName : Name} {sig : List Name}
    {nodes out : List (Node T V)} (h : pipeInput p config fnName sig nodes = .ok out) {param : Name}
    (hparam : p.onInput = some param ∨ (p.onInput = none ∧ sig.head? = some param))
    (hused : ∃ n ∈ nodes, param ∈ n.inputTypes.keys) (hfree : ∀ n ∈ nodes, n.name ≠ param)
    (hd : ∀ m ∈ out, Defines g m) (hov : ∀ m ∈ out, overrides.get? m.name = none)
    (hcl : ChainClear g inputs overrides param (activeSteps config p.transforms)
      (chainNames p.ns fnName [] (activeSteps config p.transforms))) (habs : ¬ Absent g inputs overrides param) :
    (∀ n ∈ nodes, n.kind ≠ .external → n.inputTypes.keys.Nodup →
      (param ∈ n.inputTypes.keys →
        (∀ last, (chainNames p.ns fnName [] (activeSteps config p.transforms)).getLast? = some last → last ≠ param →
          last ∉ n.inputTypes.keys) →
        ∀ v, Den g inputs overrides n.name v ↔
          PipedValue g inputs overrides n param (activeSteps config p.transforms) v) ∧
      (param ∉ n.inputTypes.keys → ∀ v, Den g inputs overrides n.name v ↔ FnValue g inputs overrides n v)) ∧
    out.map (·.name) = nodes.map (·.name) ++ chainNames p.ns fnName [] (activeSteps config p.transforms) ∧
    ∀ i nm, (chainNames p.ns fnName [] (activeSteps config p.transforms))[i]? = some nm →
      ∀ v, Den g inputs overrides nm v ↔ ∃ x, Den g inputs overrides param x ∧
        ChainValue g inputs overrides ((activeSteps config p.transforms).take (i + 1)) x v := by
  unfold pipeInput at h
  cases hq : p.parameter sig (injectableParams nodes) with
  | error e => simp only [hq] at h; cases h
  | ok q =>
  have hqp := parameter_spec hparam hused hfree hq
  subst hqp
  simp only [hq] at h
  cases hr : chainTransforms p.ns config fnName p.transforms q [] with
  | error e => simp only [hr] at h; cases h
  | ok r =>
  simp only [hr, Except.ok.injEq] at h
  subst h
  obtain ⟨hn1, hn2⟩ := chain_names (before := []) (by intro f; rfl) hr
  rw [← hn1] at hcl ⊢
  obtain ⟨c1, c2, c3, c4⟩ := chain_value hr (fun m hm => hd m (by simp [hm])) (fun m hm => hov m (by simp [hm])) hcl habs
  refine ⟨?_, ?_, ?_⟩
  · intro n hn hk hnd
    have hmem : (if n.inputTypes.has q then reassignInputs [(q, r.2)] [] n else n) ∈
        nodes.map (fun n => if n.inputTypes.has q then reassignInputs [(q, r.2)] [] n else n) ++ r.1 :=
      List.mem_append_left _ (List.mem_map.2 ⟨n, hn, rfl⟩)
    have hd' := hd _ hmem
    have hov' := hov _ hmem
    constructor
    · intro hq hlast v
      rw [if_pos ((Dict.has_iff _ _).2 hq)] at hd' hov'
      rw [show n.name = (reassignInputs [(q, r.2)] ([] : Dict Name V) n).name from rfl, den_iff_fnValue hd' hk hov']
      refine piped_value hnd hq ?_ c2 c1 v
      intro hne
      cases hl : (r.1.map (·.name)).getLast? with
      | none => rw [hl] at hn2; exact absurd hn2 hne
      | some last =>
        rw [hl] at hn2
        simp only [Option.getD_some] at hn2
        rw [hn2] at hne ⊢
        exact hlast last hl hne
    · intro hq v
      have hf : ¬ n.inputTypes.has q = true := fun h => hq ((Dict.has_iff _ _).1 h)
      rw [if_neg hf] at hd' hov'
      exact den_iff_fnValue hd' hk hov' v
  · rw [List.map_append, List.map_map]
    congr 1
    apply List.map_congr_left
    intro n _
    simp only [Function.comp]
    split <;> rfl
  · intro i nm hi v
    rw [List.getElem?_map] at hi
    cases hm : r.1[i]? with
    | none => rw [hm] at hi; cases hi
    | some m =>
      rw [hm] at hi; cases hi
      exact c4 i m hm v

/-! ### `@pipe_output` -/

theorem selected_eq (p : PipeOutput T V) (config : Dict Name V) (name : Name) :
    activeSteps config (p.selected name) = outputSteps config p.transforms name := by
  unfold PipeOutput.selected outputSteps
  congr 2
  funext a
  cases a.target with
  | none => rfl
  | some ts => exact List.contains_eq_mem _ _

theorem chainNs_eq (p : PipeOutput T V) (name : Name) : p.chainNs name = outputNs p.ns name := by
  unfold PipeOutput.chainNs outputNs
  cases p.ns <;> rfl

theorem raw_value {n : Node T V} {x : V} :
    FnValue g inputs overrides { n with name := n.name ++ ".raw" } x ↔ FnValue g inputs overrides n x := Iff.rfl

/-- The nodes a `@pipe_output` makes of one node. -/
theorem output_node {any : T} {p : PipeOutput T V} {config : Dict Name V} {fnName : Name} {n : Node T V} {out : List (Node T V)}
    (h : pipeOutputNode any p config fnName false n = .ok out) (hk : n.kind ≠ .external)
    (hd : ∀ m ∈ out, Defines g m) (hov : ∀ m ∈ out, overrides.get? m.name = none)
    (hcl : ChainClear g inputs overrides (n.name ++ ".raw") (outputSteps config p.transforms n.name)
      (chainNames (outputNs p.ns n.name) fnName [] (outputSteps config p.transforms n.name))) :
    (∀ v, Den g inputs overrides n.name v ↔
      ∃ x, FnValue g inputs overrides n x ∧ ChainValue g inputs overrides (outputSteps config p.transforms n.name) x v) ∧
    (outputSteps config p.transforms n.name ≠ [] →
      (∀ x, Den g inputs overrides (n.name ++ ".raw") x ↔ FnValue g inputs overrides n x) ∧
      ∀ i nm, (chainNames (outputNs p.ns n.name) fnName [] (outputSteps config p.transforms n.name))[i]? = some nm →
        ∀ v, Den g inputs overrides nm v ↔ ∃ x, FnValue g inputs overrides n x ∧
          ChainValue g inputs overrides ((outputSteps config p.transforms n.name).take (i + 1)) x v) ∧
    out.map (·.name) = if outputSteps config p.transforms n.name = [] then [n.name] else
      (n.name ++ ".raw") :: chainNames (outputNs p.ns n.name) fnName [] (outputSteps config p.transforms n.name) ++ [n.name] := by
  rw [← selected_eq, ← chainNs_eq] at hcl ⊢
  have plain : out = [n] → activeSteps config (p.selected n.name) = [] →
      (∀ v, Den g inputs overrides n.name v ↔
      ∃ x, FnValue g inputs overrides n x ∧ ChainValue g inputs overrides (activeSteps config (p.selected n.name)) x v) ∧
      (activeSteps config (p.selected n.name) ≠ [] →
      (∀ x, Den g inputs overrides (n.name ++ ".raw") x ↔ FnValue g inputs overrides n x) ∧
      ∀ i nm, (chainNames (p.chainNs n.name) fnName [] (activeSteps config (p.selected n.name)))[i]? = some nm →
        ∀ v, Den g inputs overrides nm v ↔ ∃ x, FnValue g inputs overrides n x ∧
          ChainValue g inputs overrides ((activeSteps config (p.selected n.name)).take (i + 1)) x v) ∧
      out.map (·.name) = if activeSteps config (p.selected n.name) = [] then [n.name] else
      (n.name ++ ".raw") :: chainNames (p.chainNs n.name) fnName [] (activeSteps config (p.selected n.name)) ++ [n.name] := by
    intro ho ha
    subst ho
    rw [ha]
    refine ⟨?_, fun h => absurd rfl h, by simp⟩
    intro v
    rw [den_iff_fnValue (hd n (by simp)) hk (hov n (by simp))]
    constructor
    · intro h; exact ⟨v, h, rfl⟩
    · rintro ⟨x, h, rfl⟩; exact h
  unfold pipeOutputNode at h
  cases hs : p.selected n.name with
  | nil =>
    rw [hs] at h
    cases h
    have := plain rfl (by rw [hs]; rfl)
    rw [hs] at this
    exact this
  | cons a as =>
    rw [hs] at h
    simp only [Bool.false_eq_true, if_false] at h
    rw [← hs] at h ⊢
    cases hr : chainTransforms (p.chainNs n.name) config fnName
        (p.selected n.name ++ [(pipeStep (identityFn any) [] []).named fnName .ellipsis]) (n.name ++ ".raw") [] with
    | error e => simp only [hr] at h; cases h
    | ok r =>
      simp only [hr] at h
      obtain ⟨r', c', m, h1, h2, h3⟩ := chain_append hr rfl
      obtain ⟨hn1, hn2⟩ := chain_names (before := []) (by intro f; rfl) h1
      have hlen : r'.1.length = (activeSteps config (p.selected n.name)).length := by
        have hl : ∀ (l : List (Applicable T V)) (b : List Name), (chainNames (p.chainNs n.name) fnName b l).length = l.length := by
          intro l
          induction l with
          | nil => intro b; rfl
          | cons x xs ih => intro b; simp [chainNames, ih]
        have := congrArg List.length hn1
        rw [List.length_map, hl] at this
        exact this
      rw [h3] at h
      simp only [List.reverse_append, List.reverse_cons, List.reverse_nil, List.nil_append, List.cons_append] at h
      cases hrev : r'.1.reverse with
      | nil =>
        rw [hrev] at h
        cases h
        refine plain rfl ?_
        have : r'.1 = [] := by simpa using hrev
        rw [this] at hlen
        exact List.length_eq_zero_iff.1 hlen.symm
      | cons prev rest =>
        rw [hrev] at h
        simp only [Except.ok.injEq] at h
        have hr1 : (prev :: rest).reverse = r'.1 := by rw [← hrev, List.reverse_reverse]
        have hr2 : rest.reverse ++ [prev] = r'.1 := by rw [← hr1, List.reverse_cons]
        rw [hr2] at h
        have hout : out = { n with name := n.name ++ ".raw" } :: (r'.1 ++ [{ m with name := n.name, typ := prev.typ }]) := h.symm
        have hne : activeSteps config (p.selected n.name) ≠ [] := by
          intro he
          rw [he] at hlen
          have : r'.1 = [] := List.length_eq_zero_iff.1 hlen
          rw [this] at hrev; cases hrev
        have hraw : Defines g { n with name := n.name ++ ".raw" } := hd _ (by rw [hout]; simp)
        have hrawv : ∀ x, Den g inputs overrides (n.name ++ ".raw") x ↔ FnValue g inputs overrides n x := by
          intro x
          rw [← raw_value]
          exact den_iff_fnValue (n := { n with name := n.name ++ ".raw" }) hraw hk (hov _ (by rw [hout]; simp)) x
        rw [← hn1] at hcl ⊢
        obtain ⟨c1, c2, _, c4⟩ := chain_value h1 (fun m hm => hd m (by rw [hout]; simp [hm]))
          (fun m hm => hov m (by rw [hout]; simp [hm])) hcl (hraw.not_absent hk)
        refine ⟨?_, fun _ => ⟨hrawv, ?_⟩, ?_⟩
        · intro v
          have hlast : Defines g { m with name := n.name, typ := prev.typ } := hd _ (by rw [hout]; simp)
          have e1 := den_iff_fnValue (inputs := inputs) (overrides := overrides) hlast
            (by show m.kind ≠ _; rw [identity_kind h2]; exact nofun) (hov _ (by rw [hout]; simp)) v
          have e2 : FnValue g inputs overrides { m with name := n.name, typ := prev.typ } v ↔ FnValue g inputs overrides m v := Iff.rfl
          rw [show n.name = ({ m with name := n.name, typ := prev.typ } : Node T V).name from rfl, e1, e2, identity_value h2 v, c1 v]
          simp only [hrawv]
        · intro i nm hi v
          rw [List.getElem?_map] at hi
          cases hm : r'.1[i]? with
          | none => rw [hm] at hi; cases hi
          | some m' =>
            rw [hm] at hi; cases hi
            rw [c4 i m' hm v]
            simp only [hrawv]
        · rw [if_neg hne, hout]; simp

theorem pipeTargets_mem {f : Node T V → Except UserErr (List (Node T V))} : ∀ {l out : List (Node T V)},
    pipeTargets f l = .ok out → ∀ n ∈ l, ∃ o, f n = .ok o ∧ ∀ m ∈ o, m ∈ out := by
  intro l
  induction l with
  | nil => intro out _ n hn; cases hn
  | cons a as ih =>
    intro out h n hn
    simp only [pipeTargets] at h
    cases hf : f a with
    | error e => simp only [hf] at h; cases h
    | ok o =>
      simp only [hf] at h
      cases hr : pipeTargets f as with
      | error e => simp only [hr] at h; cases h
      | ok r =>
        simp only [hr, Except.ok.injEq] at h
        subst h
        rcases List.mem_cons.1 hn with rfl | hn
        · exact ⟨o, hf, fun m hm => List.mem_append_left _ hm⟩
        · obtain ⟨o', h1, h2⟩ := ih hr n hn
          exact ⟨o', h1, fun m hm => List.mem_append_right _ (h2 m hm)⟩

theorem selectOutputs_mem {target : Option (List Name)} {nodes chosen : List (Node T V)}
    (h : selectOutputs target nodes = .ok chosen) {n : Node T V} (hn : n ∈ nodes) :
    n ∈ chosen ↔ OutputChosen target nodes n.name := by
  unfold selectOutputs at h
  cases target with
  | none =>
    cases h
    simp [OutputChosen, hn]
  | some ts =>
    simp only at h
    split at h
    · cases h
    · cases h
      simp [OutputChosen, hn]

theorem selectOutputs_sub {target : Option (List Name)} {nodes chosen : List (Node T V)}
    (h : selectOutputs target nodes = .ok chosen) {n : Node T V} (hn : n ∈ chosen) : n ∈ nodes := by
  unfold selectOutputs at h
  cases target with
  | none => cases h; exact (List.mem_filter.1 hn).1
  | some ts =>
    simp only at h
    split at h
    · cases h
    · cases h; exact (List.mem_filter.1 hn).1

/-- **C57, `@pipe_output` (partial).**  Let a function (not a coroutine) with nodes `nodes` be decorated with
`@pipe_output(step₁, step₂, …)`, and let a graph contain the resulting nodes.  A node the decorator applies to keeps its name
and has the value obtained by applying the composition of the steps that apply (no `on_output` or one naming the node, and
`when` holds) to the value of the undecorated function; that one is available as `<name>.raw`, and the nodes of the chain
have the values of the partial compositions.  Other nodes of the function are unchanged.  Missing: the same conditions on the
steps as for `@pipe_input`, and coroutines (`C57_violated_async`). -/
theorem C57_output_partial {any : T} {p : PipeOutput T V} {config : Dict Name V} {fnName : Name}
    {nodes out : List (Node T V)} (h : pipeOutput any p config fnName false nodes = .ok out)
    (hd : ∀ m ∈ out, Defines g m) (hov : ∀ m ∈ out, overrides.get? m.name = none) {n : Node T V} (hn : n ∈ nodes)
    (hk : n.kind ≠ .external) :
    (OutputChosen p.onOutput nodes n.name →
      ChainClear g inputs overrides (n.name ++ ".raw") (outputSteps config p.transforms n.name)
        (chainNames (outputNs p.ns n.name) fnName [] (outputSteps config p.transforms n.name)) →
      (∀ v, Den g inputs overrides n.name v ↔
        ∃ x, FnValue g inputs overrides n x ∧ ChainValue g inputs overrides (outputSteps config p.transforms n.name) x v) ∧
      (outputSteps config p.transforms n.name ≠ [] →
        (∀ x, Den g inputs overrides (n.name ++ ".raw") x ↔ FnValue g inputs overrides n x) ∧
        ∀ i nm, (chainNames (outputNs p.ns n.name) fnName [] (outputSteps config p.transforms n.name))[i]? = some nm →
          ∀ v, Den g inputs overrides nm v ↔ ∃ x, FnValue g inputs overrides n x ∧
            ChainValue g inputs overrides ((outputSteps config p.transforms n.name).take (i + 1)) x v)) ∧
    (¬ OutputChosen p.onOutput nodes n.name → ∀ v, Den g inputs overrides n.name v ↔ FnValue g inputs overrides n v) := by
  unfold pipeOutput at h
  cases hs : selectOutputs p.onOutput nodes with
  | error e => simp only [hs] at h; cases h
  | ok chosen =>
  simp only [hs] at h
  cases ht : pipeTargets (pipeOutputNode any p config fnName false) chosen with
  | error e => simp only [ht] at h; cases h
  | ok l =>
  simp only [ht, Except.ok.injEq] at h
  subst h
  constructor
  · intro hc hcl
    obtain ⟨o, h1, h2⟩ := pipeTargets_mem ht n ((selectOutputs_mem hs hn).2 hc)
    obtain ⟨r1, r2, _⟩ := output_node h1 hk (fun m hm => hd m (List.mem_append_right _ (h2 m hm)))
      (fun m hm => hov m (List.mem_append_right _ (h2 m hm))) hcl
    exact ⟨r1, r2⟩
  · intro hc v
    have hmem : n ∈ nodes.filter (fun n => !(chosen.map (·.name)).contains n.name) ++ l := by
      refine List.mem_append_left _ (List.mem_filter.2 ⟨hn, ?_⟩)
      simp only [Bool.not_eq_true', List.contains_eq_mem, decide_eq_false_iff_not, List.mem_map, not_exists, not_and]
      intro m hm he
      have := (selectOutputs_mem hs (selectOutputs_sub hs hm)).1 hm
      rw [he] at this
      exact hc this
    exact den_iff_fnValue (hd n hmem) hk (hov n hmem) v

/-- **C57 violated: coroutines.**  A `@pipe_output` that has a step for a node of an `async def` function always fails when
the driver is built. -/
theorem C57_violated_async {any : T} {p : PipeOutput T V} {config : Dict Name V} {fnName : Name} {n : Node T V}
    {a : Applicable T V} (ha : a ∈ p.transforms) (htgt : a.target = none) :
    pipeOutputNode any p config fnName true n = .error "ValueError" := by
  unfold pipeOutputNode
  cases hs : p.selected n.name with
  | nil =>
    have : a ∈ p.selected n.name := List.mem_filter.2 ⟨ha, by simp [htgt]⟩
    rw [hs] at this; cases this
  | cons _ _ => simp
end

namespace PipeSample
open DecorSample

/-- `def _add_one(x: int) -> int: return x + 1`. -/
def addOne : Node Unit DV := fnode "_add_one" [("x", .required)] (fun kw =>
  match kw.get? "x" with
  | none => .error "TypeError"
  | some x => .ok (.int ((toInt x).getD 0 + 1)))

/-- `def mul(x: int, y: int = 2) -> int: return x * y`. -/
def mul : Node Unit DV := fnode "mul" [("x", .required), ("y", .optional)] (fun kw =>
  match kw.get? "x" with
  | none => .error "TypeError"
  | some x => .ok (.int ((toInt x).getD 0 * argI kw "y" 2)))

/-- `def f(a: int, b: int) -> int: return 100 * a + b`. -/
def fab (name : Name) : Node Unit DV := fnode name [("a", .required), ("b", .required)] (fun kw =>
  .ok (.int (100 * argI kw "a" 0 + argI kw "b" 0)))

theorem addOne_byKeyword : ByKeyword addOne.fn := by
  intro kw kw' _ _ h
  simp only [addOne, fnode, h]

theorem mul_byKeyword : ByKeyword mul.fn := by
  intro kw kw' _ _ h
  simp only [mul, fnode, argI, h]

/-- `step(_add_one)`, `step(mul, y=source("c")).named("m")`, `step(mul, 3)` (never active), `step(mul, 10)`. -/
def steps : List (Applicable Unit DV) :=
  [pipeStep addOne [] [], (pipeStep mul [] [("y", .source "c")]).named "m" .ellipsis,
    { pipeStep mul [.value (.int 3)] [] with resolvers := [fun config => config.has "slow"] },
    pipeStep mul [.value (.int 10)] []]

/-- The nodes, or nothing. -/
def nodesOf (r : Except UserErr (List (Node Unit DV))) : List (Node Unit DV) :=
  match r with | .ok l => l | .error _ => []

theorem nodesOf_eq {r : Except UserErr (List (Node Unit DV))} (h : r.isOk = true) : r = .ok (nodesOf r) := by
  cases r with
  | ok l => rfl
  | error e => simp [Except.isOk, Except.toBool] at h

/-- `@pipe_input(*steps)` on `f(a, b)`. -/
def inNodes (on : Option Name) : Except UserErr (List (Node Unit DV)) :=
  pipeInput { transforms := steps, ns := .ellipsis, onInput := on } [] "f" ["a", "b"] [fab "f"]

/-- `@pipe_output(*steps)` on `f(a, b)`. -/
def outNodes : Except UserErr (List (Node Unit DV)) :=
  pipeOutput () { transforms := steps, ns := .ellipsis, onOutput := none } [] "f" false [fab "f"]

/-- Inputs of the sample. -/
def ins : Dict Name DV := [("a", .int 3), ("b", .int 7), ("c", .int 5)]

example : run (nodesOf (inNodes none)) ins "f" = .inl (some 20007) ∧
    run (nodesOf (inNodes (some "b"))) ins "f" = .inl (some 700) ∧
    run (nodesOf (inNodes none)) ins "f.m" = .inl (some 20) ∧
    (nodesOf (inNodes none)).map (·.name) = ["f", "f.with_add_one", "f.m", "f.with_mul_1"] ∧
    run (nodesOf outNodes) ins "f" = .inl (some 15400) ∧
    (nodesOf outNodes).map (·.name) = ["f.raw", "f.with_add_one", "f.m", "f.with_mul_1", "f"] ∧
    run (nodesOf outNodes) ins "f.raw" = .inl (some 307) := by decide +kernel

/-- A graph node without value. -/
def isAbsent (fns : List (Node Unit DV)) (inputs : Dict Name DV) (k : Name) : Bool :=
  match (build fns).get? k with
  | none => false
  | some n => n.kind == .external && !inputs.has k

theorem not_absent_of {fns : List (Node Unit DV)} {inputs : Dict Name DV} {k : Name} (h : isAbsent fns inputs k = false) :
    ¬ Absent (build fns) inputs [] k := by
  rintro ⟨n, h1, h2, h3, _⟩
  unfold isAbsent at h
  rw [h1] at h
  simp [h2, Dict.has, h3] at h

theorem steps_clear {fns : List (Node Unit DV)} {cur : Name} {names : List Name} (hc : isAbsent fns ins "c" = false)
    (hcur : cur ≠ "x" ∧ cur ≠ "y" ∧ cur ≠ "c") (hnames : ∀ m ∈ names, m ≠ "x" ∧ m ≠ "y" ∧ m ≠ "c") :
    ChainClear (build fns) ins [] cur (activeSteps [] steps) names := by
  have hact : activeSteps ([] : Dict Name DV) steps = [pipeStep addOne [] [], (pipeStep mul [] [("y", .source "c")]).named "m" .ellipsis,
    pipeStep mul [.value (.int 10)] []] := rfl
  rw [hact]
  have h1 : ∀ cur, StepClear (build fns) ins [] cur (pipeStep addOne [] []) := by
    intro cur
    refine ⟨nofun, by decide, by decide, addOne_byKeyword, by simp [Applicable.sources, Applicable.written, pipeStep], ?_, ?_, ?_⟩
    · intro s _ v; exact nofun
    · intro s hs; simp [Applicable.sources, Applicable.written, pipeStep] at hs
    · intro u hu hne _
      simp [pipeStep, addOne, fnode, Dict.keys] at hu hne
      exact absurd hu.symm hne
  have h2 : ∀ cur, cur ≠ "x" ∧ cur ≠ "y" ∧ cur ≠ "c" →
      StepClear (build fns) ins [] cur ((pipeStep mul [] [("y", .source "c")]).named "m" .ellipsis) := by
    intro cur hcur
    have hs : ((pipeStep mul [] [("y", .source "c")]).named "m" .ellipsis).sources = ["c"] := rfl
    have hw : ((pipeStep mul [] [("y", .source "c")]).named "m" .ellipsis).written = [("y", .source "c")] := rfl
    refine ⟨nofun, by decide, by decide, mul_byKeyword, by rw [hs]; simp [hcur.2.2], ?_, ?_, ?_⟩
    · intro s _ v
      rw [hw, Dict.get?_cons]
      split <;> exact nofun
    · intro s h
      rw [hs] at h
      simp only [List.mem_singleton] at h
      subst h
      exact not_absent_of hc
    · intro u hu hne hn
      rw [hw, Dict.get?_cons] at hn
      have : u = "x" ∨ u = "y" := by simpa [Applicable.named, pipeStep, mul, fnode, Dict.keys] using hu
      rcases this with rfl | rfl
      · exact absurd rfl hne
      · cases hn
  have h3 : ∀ cur, cur ≠ "x" ∧ cur ≠ "y" ∧ cur ≠ "c" →
      StepClear (build fns) ins [] cur (pipeStep mul [.value (.int 10)] []) := by
    intro cur hcur
    have hs : (pipeStep mul [.value (.int 10)] []).sources = [] := rfl
    have hw : (pipeStep mul [.value (DV.int 10)] []).written = [("y", .value (.int 10))] := rfl
    refine ⟨nofun, by decide, by decide, mul_byKeyword, by rw [hs]; simp, ?_, ?_, ?_⟩
    · intro s h v
      rw [hs] at h
      simp only [List.mem_singleton] at h
      subst h
      rw [hw, Dict.get?_cons, if_neg (Ne.symm hcur.2.1)]
      exact nofun
    · intro s h; rw [hs] at h; cases h
    · intro u hu hne hn
      rw [hw, Dict.get?_cons] at hn
      have : u = "x" ∨ u = "y" := by simpa [pipeStep, mul, fnode, Dict.keys] using hu
      rcases this with rfl | rfl
      · exact absurd rfl hne
      · cases hn
  match names, hnames with
  | [], _ => trivial
  | [m1], _ => exact ⟨h1 _, trivial⟩
  | [m1, m2], hn => exact ⟨h1 _, h2 _ (hn m1 (by simp)), trivial⟩
  | m1 :: m2 :: m3 :: ms, hn =>
    exact ⟨h1 _, h2 _ (hn m1 (by simp)), h3 _ (hn m2 (by simp)), by cases ms <;> trivial⟩

theorem fresh_of {fns : List (Node Unit DV)}
    (h : fns.all (fun n => decide n.inputTypes.keys.Nodup && n.dependencies.isEmpty && n.dependedOnBy.isEmpty &&
      decide (n.kind ≠ .external)) = true) : ∀ n ∈ fns, Fresh n := by
  intro n hn
  have := List.all_eq_true.1 h n hn
  simp only [Bool.and_eq_true, decide_eq_true_eq, List.isEmpty_iff] at this
  exact ⟨this.1.1.1, this.1.1.2, this.1.2, this.2⟩

theorem defines_of {fns : List (Node Unit DV)}
    (h : fns.all (fun n => decide n.inputTypes.keys.Nodup && n.dependencies.isEmpty && n.dependedOnBy.isEmpty &&
      decide (n.kind ≠ .external)) = true)
    (hb : (createFunctionGraph (fun _ _ => true) () ([] : Dict Name DV) false fns).isOk = true) :
    ∀ m ∈ fns, Defines (build fns) m :=
  fun _ hm => build_defines (fresh_of h) (build_eq hb) hm (by simp [Dict.keys])

/-- Non-vacuity of `C57_input_partial`: the built graph of the sample meets all hypotheses. -/
example (v : DV) : Den (build (nodesOf (inNodes none))) ins [] "f" v ↔
    PipedValue (build (nodesOf (inNodes none))) ins [] (fab "f") "a" (activeSteps [] steps) v := by
  have hok : inNodes none = .ok (nodesOf (inNodes none)) := nodesOf_eq (by decide +kernel)
  refine ((C57_input_partial (g := build (nodesOf (inNodes none))) (inputs := ins) (overrides := []) hok (.inr ⟨rfl, rfl⟩)
    ⟨fab "f", by simp, by decide⟩ (by simp [fab, fnode]) (defines_of (by decide +kernel) (by decide +kernel))
    (fun _ _ => rfl) (steps_clear (by decide +kernel) (by decide) ?_) (not_absent_of (by decide +kernel))).1 (fab "f") (by simp)
    nofun (by decide)).1 (by decide) ?_ v
  · show ∀ m ∈ chainNames .ellipsis "f" [] (activeSteps [] steps), _
    rw [show chainNames .ellipsis "f" [] (activeSteps ([] : Dict Name DV) steps) =
      ["f.with_add_one", "f.m", "f.with_mul_1"] by decide +kernel]
    decide
  · show ∀ last, (chainNames .ellipsis "f" [] (activeSteps [] steps)).getLast? = some last → _
    rw [show chainNames .ellipsis "f" [] (activeSteps ([] : Dict Name DV) steps) =
      ["f.with_add_one", "f.m", "f.with_mul_1"] by decide +kernel]
    intro last h _
    cases h
    decide

/-- Non-vacuity of `C57_output_partial`. -/
example (v : DV) : Den (build (nodesOf outNodes)) ins [] "f" v ↔
    ∃ x, FnValue (build (nodesOf outNodes)) ins [] (fab "f") x ∧
      ChainValue (build (nodesOf outNodes)) ins [] (activeSteps [] steps) x v := by
  have hok : outNodes = .ok (nodesOf outNodes) := nodesOf_eq (by decide +kernel)
  refine ((C57_output_partial (g := build (nodesOf outNodes)) (inputs := ins) (overrides := []) hok
    (defines_of (by decide +kernel) (by decide +kernel)) (fun _ _ => rfl) (n := fab "f") (by simp) nofun).1 ?_ ?_).1 v
  · show ∀ m ∈ [fab "f"], _
    simp [fab, fnode, Dict.keys]
  · refine steps_clear (by decide +kernel) (by decide) ?_
    show ∀ m ∈ chainNames (.named "f") "f" [] (activeSteps [] steps), _
    rw [show chainNames (.named "f") "f" [] (activeSteps ([] : Dict Name DV) steps) =
      ["f.with_add_one", "f.m", "f.with_mul_1"] by decide +kernel]
    decide

/-! ### Violations -/

/-- `def f(y: int) -> int: return y`. -/
def idY : Node Unit DV := fnode "f" [("y", .required)] (fun kw => .ok (.int (argI kw "y" 0)))

/-- `@pipe_input(step(mul, y=5))` on `f(y)`. -/
def literalClash : Except UserErr (List (Node Unit DV)) :=
  pipeInput { transforms := [pipeStep mul [] [("y", .value (.int 5))]], ns := .ellipsis, onInput := none } [] "f" ["y"] [idY]

/-- **C57 violated: a literal for a parameter called like the piped one.**  With `def mul(x, y=2): return x * y`,
`@pipe_input(step(mul, y=5)) def f(y): return y` should return `5 * y`; it returns `5 * 2` whatever `y` is: the literal is
passed as `x`. -/
theorem C57_violated_literal : literalClash.isOk = true ∧
    run (nodesOf literalClash) [("y", .int 100)] "f" = .inl (some 10) ∧
    run (nodesOf literalClash) [("y", .int 7)] "f" = .inl (some 10) := by decide +kernel

/-- `def f(a: int) -> int: return a`. -/
def idA (name : Name) : Node Unit DV := fnode name [("a", .required)] (fun kw => .ok (.int (argI kw "a" 0)))

/-- `@pipe_input(step(mul, y=source("a")))` on `f(a)`: the square of `a`. -/
def twice : Except UserErr (List (Node Unit DV)) :=
  pipeInput { transforms := [pipeStep mul [] [("y", .source "a")]], ns := .ellipsis, onInput := none } [] "f" ["a"] [idA "f"]

/-- **C57 violated: one node for two parameters.**  A step that uses the piped value also for another parameter raises
`TypeError`, as one of the two parameters is not passed. -/
theorem C57_violated_same_source : twice.isOk = true ∧
    run (nodesOf twice) [("a", .int 4)] "f.with_mul" = .inr (some (.raised "f.with_mul" "TypeError")) := by decide +kernel

/-- `@pipe_input(step(mul))` on `f(a)`. -/
def dfltStep : Except UserErr (List (Node Unit DV)) :=
  pipeInput { transforms := [pipeStep mul [] []], ns := .ellipsis, onInput := none } [] "f" ["a"] [idA "f"]

/-- `def y(a: int) -> int: return 9`. -/
def yNode : Node Unit DV := fnode "y" [("a", .required)] (fun _ => .ok (.int 9))

/-- **C57 violated: defaults of a step.**  The step `mul(a)`, with `y` not mentioned, uses the default `y=2` - unless the
driver happens to contain a node (or is given an input) called `y`. -/
theorem C57_violated_default :
    run (nodesOf dfltStep) [("a", .int 4)] "f" = .inl (some 8) ∧
    run (nodesOf dfltStep ++ [yNode]) [("a", .int 4)] "f" = .inl (some 36) ∧
    run (nodesOf dfltStep) [("a", .int 4), ("y", .int 3)] "f" = .inl (some 12) := by decide +kernel

/-- **C57 violated: `on_input` that names no parameter.**  `@pipe_input(…, on_input="c") def f(a, b)` is accepted and pipes
the parameter `a`. -/
theorem C57_violated_on_input :
    run (nodesOf (inNodes (some "typo"))) ins "f" = .inl (some 20007) ∧
    run (nodesOf (inNodes none)) ins "f" = .inl (some 20007) := by decide +kernel

/-- **C57 violated: the namespace of a step of `@pipe_output`.**  `step(_add_one).named("s", namespace="foo")` becomes `foo.s`
in a `@pipe_input` but `f.s` in a `@pipe_output`. -/
theorem C57_violated_namespace :
    (nodesOf (pipeInput { transforms := [(pipeStep addOne [] []).named "s" (.named "foo")], ns := .ellipsis, onInput := none }
      [] "f" ["a"] [idA "f"])).map (·.name) = ["f", "foo.s"] ∧
    (nodesOf (pipeOutput () ⟨[(pipeStep addOne [] []).named "s" (.named "foo")], .ellipsis, none⟩ [] "f" false
      [idA "f"])).map (·.name) = ["f.raw", "f.s", "f"] := by decide +kernel

/-- A public function `add_one` with the same default name as `_add_one`. -/
def addOnePublic : Node Unit DV := { addOne with name := "add_one" }

/-- **C57 violated: generated names clash.**  `step(_add_one), step(add_one)` are two functions, but both nodes are called
`f.with_add_one`: the driver cannot be built. -/
theorem C57_violated_names :
    (pipeInput { transforms := [pipeStep addOne [] [], pipeStep addOnePublic [] []], ns := .ellipsis, onInput := none }
      [] "f" ["a"] [idA "f"]).isOk = true ∧
    (createFunctionGraph (fun _ _ => true) () ([] : Dict Name DV) false (nodesOf
      (pipeInput { transforms := [pipeStep addOne [] [], pipeStep addOnePublic [] []], ns := .ellipsis, onInput := none }
      [] "f" ["a"] [idA "f"]))).isOk = false := by decide +kernel

/-- Two decorators `@pipe_output(step(_add_one))` on one function. -/
def stacked : Except UserErr (List (Node Unit DV)) :=
  pipeOutputs () [] "f" false [{ transforms := [pipeStep addOne [] []], ns := .ellipsis, onOutput := none },
    { transforms := [pipeStep addOne [] []], ns := .ellipsis, onOutput := none }] [idA "f"]

/-- **C57 violated: two `@pipe_output` on one function.**  Both make a node `f.raw`: the driver cannot be built. -/
theorem C57_violated_stacked : stacked.isOk = true ∧
    (createFunctionGraph (fun _ _ => true) () ([] : Dict Name DV) false (nodesOf stacked)).isOk = false := by decide +kernel

/-- Non-vacuity of `C57_violated_async`. -/
example : pipeOutput () { transforms := [pipeStep addOne [] []], ns := .ellipsis, onOutput := none } ([] : Dict Name DV) "f" true
    [idA "f"] = .error "ValueError" := rfl

end PipeSample

end Verif
