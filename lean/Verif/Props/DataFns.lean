import Verif.Model.DataFns
import Verif.Props.Decorators
import Verif.Props.Behaviors

/-!
C70: `@dataloader` and `@datasaver`.
-/
namespace Verif
variable {T V : Type} {g : Graph T V} {inputs overrides : Dict Name V} {ty : TyOps T} {first : V → Except UserErr V}
  {f : DataFn T V} {nodes : List (TaggedNode T V)}

/-- **C70, what is accepted (partial).**  A function whose annotation is a type (or missing) can be a `@dataloader` iff it is
annotated with a tuple of a type and `dict`, and a `@datasaver` iff it is annotated with `dict`.  Missing: annotations that are
texts (`C70_violated_postponed`). -/
theorem C70_accepted_partial (ht : f.annotated ≠ .text) :
    ((∃ ns, dataLoader ty first f = .ok ns) ↔
      f.annotated = .given ∧ ∃ t d, ty.tupleArgs f.node.typ = some [t, d] ∧ ty.isDict d = true) ∧
    ((∃ ns, dataSaver ty f = .ok ns) ↔ f.annotated = .given ∧ ty.isDict f.node.typ = true) := by
  constructor
  · unfold dataLoader validateLoader
    cases ha : f.annotated with
    | missing => simp
    | text => exact absurd ha ht
    | given =>
      simp only [true_and]
      cases htup : ty.tupleArgs f.node.typ with
      | none => simp
      | some l =>
        match l with
        | [] => simp
        | [_] => simp
        | [a, b] =>
          simp only [Option.some.injEq, List.cons.injEq, and_true]
          cases hb : ty.isDict b with
          | false =>
            simp only [Bool.false_eq_true, if_false]
            refine ⟨(by rintro ⟨_, h⟩; cases h), ?_⟩
            rintro ⟨t, d, ⟨rfl, rfl⟩, hd⟩
            rw [hb] at hd; cases hd
          | true => exact ⟨fun _ => ⟨a, b, ⟨rfl, rfl⟩, hb⟩, fun _ => ⟨_, rfl⟩⟩
        | _ :: _ :: _ :: _ => simp
  · unfold dataSaver validateSaver
    cases ha : f.annotated with
    | missing => simp
    | text => exact absurd ha ht
    | given =>
      cases hd : ty.isDict f.node.typ with
      | false => simp
      | true => simp

/-- The nodes of a `@dataloader`. -/
theorem dataLoader_ok (h : dataLoader ty first f = .ok nodes) : ∃ t d, ty.tupleArgs f.node.typ = some [t, d] ∧
    nodes = [{ node := { f.node with name := f.node.name ++ ".loader" }, tags := f.tags.merge (loaderTags f.node.name) },
           { node := { name := f.node.name, typ := t, kind := .standard,
                       inputTypes := [(f.node.name ++ ".loader", (f.node.typ, .required))],
                       dependencies := [], dependedOnBy := [], fn := filterFunction first f.node.name },
             tags := filterTags f.node.name }] := by
  unfold dataLoader at h
  cases hv : validateLoader ty f with
  | error e => rw [hv] at h; cases h
  | ok u =>
    unfold validateLoader at hv
    simp only [validateLoader, hv] at h
    cases ha : f.annotated with
    | missing => rw [ha] at hv; cases hv
    | text => rw [ha] at hv; cases hv
    | given =>
      rw [ha] at hv
      cases htup : ty.tupleArgs f.node.typ with
      | none => simp [htup] at hv
      | some l =>
        match l with
        | [] => simp [htup] at hv
        | [_] => simp [htup] at hv
        | [a, b] =>
          simp only [htup, Except.ok.injEq] at h
          exact ⟨a, b, rfl, h.symm⟩
        | _ :: _ :: _ :: _ => simp [htup] at hv

/-- The name of the loader node is another one. -/
theorem loader_ne (s : String) : s ++ ".loader" ≠ s := by
  intro h
  have := congrArg (fun s => s.toList.length) h
  simp at this

/-- **C70, the values of a loader.**  In a graph containing the nodes of a `@dataloader`: the node of the function has exactly the
first component of what the function returns; what it returns, with the metadata, is the value of the node `function.loader`. -/
theorem C70_loader (hn : dataLoader ty first f = .ok nodes) (hk : f.node.kind ≠ .external)
    (hdef : ∀ m ∈ nodes, Defines g m.node) (hov : overrides.get? f.node.name = none)
    (hov' : overrides.get? (f.node.name ++ ".loader") = none) (v : V) :
    (Den g inputs overrides (f.node.name ++ ".loader") v ↔ FnValue g inputs overrides f.node v) ∧
    (Den g inputs overrides f.node.name v ↔ ∃ r, FnValue g inputs overrides f.node r ∧ first r = .ok v) := by
  obtain ⟨t, d, _, rfl⟩ := dataLoader_ok hn
  have h1 : Defines g { f.node with name := f.node.name ++ ".loader" } := hdef _ List.mem_cons_self
  have h2 := hdef _ (List.mem_cons_of_mem _ List.mem_cons_self)
  have hl : ∀ v, Den g inputs overrides (f.node.name ++ ".loader") v ↔ FnValue g inputs overrides f.node v := by
    intro v
    rw [show f.node.name ++ ".loader" = ({ f.node with name := f.node.name ++ ".loader" } : Node T V).name from rfl,
      den_iff_fnValue h1 hk hov' v]
    exact Iff.rfl
  refine ⟨hl v, ?_⟩
  have key := den_iff_fnValue (inputs := inputs) (overrides := overrides) h2 (by simp) hov v
  refine key.trans ?_
  constructor
  · rintro ⟨kw, ha, hv⟩
    obtain ⟨w, hw, rfl⟩ := (rightArgs_single rfl kw).1 ha
    refine ⟨w, (hl w).1 hw, ?_⟩
    simpa [filterFunction, Dict.get?_cons] using hv
  · rintro ⟨r, hr, hf⟩
    refine ⟨[(f.node.name ++ ".loader", r)], (rightArgs_single rfl _).2 ⟨r, (hl r).2 hr, rfl⟩, ?_⟩
    simpa [filterFunction, Dict.get?_cons] using hf

/-- **C70, the value of a saver.**  In a graph containing the node of a `@datasaver`, it has exactly the value of the
undecorated function. -/
theorem C70_saver (hn : dataSaver ty f = .ok nodes) (hk : f.node.kind ≠ .external)
    (hdef : ∀ m ∈ nodes, Defines g m.node) (hov : overrides.get? f.node.name = none) (v : V) :
    Den g inputs overrides f.node.name v ↔ FnValue g inputs overrides f.node v := by
  unfold dataSaver at hn
  cases hv : validateSaver ty f with
  | error e => rw [hv] at hn; cases hn
  | ok u =>
    rw [hv] at hn
    cases hn
    exact den_iff_fnValue (hdef _ List.mem_cons_self) hk hov v

/-- **C70, tags.**  A query for loaders or savers finds the generated nodes: both nodes of a `@dataloader` are tagged as loaders
for the function, the one with the metadata as such; the other tags of the function stay with the node that calls it. -/
theorem C70_tags :
    (dataLoader ty first f = .ok nodes → ∃ l m, nodes = [l, m] ∧ l.node.name = f.node.name ++ ".loader" ∧ m.node.name = f.node.name ∧
      (∀ n ∈ nodes, n.tags.get? "hamilton.data_loader" = some (.bool true) ∧
        n.tags.get? "hamilton.data_loader.node" = some (.str f.node.name)) ∧
      l.tags.get? "hamilton.data_loader.has_metadata" = some (.bool true) ∧
      m.tags.get? "hamilton.data_loader.has_metadata" = some (.bool false) ∧
      ∀ k, k ∉ ["hamilton.data_loader", "hamilton.data_loader.has_metadata", "hamilton.data_loader.node",
        "hamilton.data_loader.classname", "hamilton.data_loader.source"] → l.tags.get? k = f.tags.get? k) ∧
    (dataSaver ty f = .ok nodes → ∃ n, nodes = [n] ∧ n.node = f.node ∧ n.tags.get? "hamilton.data_saver" = some (.bool true) ∧
      n.tags.get? "hamilton.data_saver.sink" = some (.str f.node.name) ∧
      ∀ k, k ∉ ["hamilton.data_saver", "hamilton.data_saver.sink", "hamilton.data_saver.classname"] →
        n.tags.get? k = f.tags.get? k) := by
  constructor
  · intro hn
    obtain ⟨t, d, _, rfl⟩ := dataLoader_ok hn
    refine ⟨_, _, rfl, rfl, rfl, ?_, ?_, by simp [filterTags, Dict.get?_cons], ?_⟩
    · intro n hm
      simp only [List.mem_cons, List.not_mem_nil, or_false] at hm
      rcases hm with rfl | rfl
      · simp [Dict.merge, loaderTags, Dict.get?_set]
      · simp [filterTags, Dict.get?_cons]
    · simp [Dict.merge, loaderTags, Dict.get?_set]
    · intro k hk
      simp only [List.mem_cons, List.not_mem_nil, or_false, not_or] at hk
      obtain ⟨h1, h2, h3, h4, h5⟩ := hk
      simp [Dict.merge, loaderTags, Dict.get?_set, Ne.symm h1, Ne.symm h2, Ne.symm h3, Ne.symm h4, Ne.symm h5]
  · intro hn
    unfold dataSaver at hn
    cases hv : validateSaver ty f with
    | error e => rw [hv] at hn; cases hn
    | ok u =>
      rw [hv] at hn
      cases hn
      refine ⟨_, rfl, rfl, by simp [Dict.merge, Dict.get?_set], by simp [Dict.merge, Dict.get?_set], ?_⟩
      intro k hk
      simp only [List.mem_cons, List.not_mem_nil, or_false, not_or] at hk
      obtain ⟨h1, h2, h3⟩ := hk
      simp [Dict.merge, Dict.get?_set, Ne.symm h1, Ne.symm h2, Ne.symm h3]

/-- **C70, the nodes.**  Of the two nodes of a `@dataloader`, the one called `function.loader` has the type and the dependencies of
the function, the one of the function itself has the type of the data and depends on the other only: downstream functions are
checked against the type of the data. -/
theorem C70_nodes (h : dataLoader ty first f = .ok nodes) : ∃ l m t d, nodes = [l, m] ∧ ty.tupleArgs f.node.typ = some [t, d] ∧
    l.node.name = f.node.name ++ ".loader" ∧ l.node.typ = f.node.typ ∧ l.node.inputTypes = f.node.inputTypes ∧
    m.node.name = f.node.name ∧ m.node.typ = t ∧ m.node.inputTypes = [(f.node.name ++ ".loader", (f.node.typ, .required))] := by
  obtain ⟨t, d, ht, rfl⟩ := dataLoader_ok h
  exact ⟨_, _, t, d, rfl, ht, rfl, rfl, rfl, rfl, rfl, rfl⟩

/-- **C70, caching (partial).**  If the nodes of a `@dataloader` are nodes of a graph (not in a namespace), both get the same
caching behaviour, namely the one that the documented order of precedence gives for the function: what is asked for its name, else
the default for loaders.  Missing: `@dataloader` in a `@subdag` (`C70_violated_subdag`). -/
theorem C70_cache_partial {a : CacheArgs} (ha : a.check = .ok a) {all : List CNode} (hnd : (all.map CNode.name).Nodup)
    {d : Dict String Behavior} (h : resolveBehaviors a all = .ok d) (hn : dataLoader ty first f = .ok nodes)
    (hall : ∀ n ∈ nodes, n.toCNode ∈ all) :
    ∃ b m, m ∈ nodes ∧ m.node.name = f.node.name ∧ Chosen a (all.map CNode.name) m.toCNode b ∧
      d.get? f.node.name = some b ∧ d.get? (f.node.name ++ ".loader") = some b := by
  obtain ⟨l, m, hnodes, hl, hm, htags, -⟩ := C70_tags.1 hn
  have hlm : l ∈ nodes := by rw [hnodes]; simp
  have hmm : m ∈ nodes := by rw [hnodes]; simp
  have hown : Own m.toCNode := by
    rintro main ⟨_, h2, h3⟩
    have := (htags m hmm).2
    simp only [TaggedNode.toCNode] at h2 h3
    rw [this] at h2
    cases h2
    exact h3 hm.symm
  have hfol : Follows l.toCNode m.toCNode.name := by
    refine ⟨(htags l hlm).1, ?_, ?_⟩
    · simp only [TaggedNode.toCNode, hm]; exact (htags l hlm).2
    · simp only [TaggedNode.toCNode, hm, hl]; exact (loader_ne _).symm
  obtain ⟨b, hb, hc⟩ := C34_follow ha hnd h (hall l hlm) (hall m hmm) hfol hown
  refine ⟨b, m, hmm, hm, hc, ?_, ?_⟩
  · rw [← hm]; exact (C34_precedence_partial ha hnd h (hall m hmm) hown b).2 hc
  · rw [← hl]; exact hb

/-! ### Examples and counterexamples -/
namespace DataSample
open DecorSample

/-- Types of the sample: integers, `dict`, a tuple of both. -/
inductive DT where
  | int
  | dict
  | pair
  deriving DecidableEq

/-- Their structure. -/
def types : TyOps DT where
  tupleArgs := fun t => match t with | .pair => some [.int, .dict] | _ => none
  isDict := fun t => decide (t = .dict)

/-- The first component. -/
def fst : DV → Except UserErr DV
  | .list (v :: _) => .ok v
  | _ => .error "TypeError"

/-- `def load(x) -> tuple[int, dict]: return x, {"source": 7}`. -/
def load (a : Annotated) : DataFn DT DV :=
  { annotated := a
    node := { name := "load", typ := .pair, kind := .standard, inputTypes := [("x", (.int, .required))], dependencies := [],
              dependedOnBy := [], fn := fun kw => .ok (.list [.int (argI kw "x" 0), .dict [("source", .int 7)]]) }
    tags := [("module", .str "m")] }

/-- `def save(load) -> dict: return {"rows": load}`. -/
def save (a : Annotated) : DataFn DT DV :=
  { annotated := a
    node := { name := "save", typ := .dict, kind := .standard, inputTypes := [("load", (.int, .required))], dependencies := [],
              dependedOnBy := [], fn := fun kw => .ok (.dict [("rows", .int (argI kw "load" 0))]) }
    tags := [("module", .str "m")] }

/-- The nodes of both. -/
def both : List (TaggedNode DT DV) :=
  match dataLoader types fst (load .given), dataSaver types (save .given) with
  | .ok l, .ok s => l ++ s
  | _, _ => []

/-- The graph. -/
def graph : Graph DT DV :=
  match createFunctionGraph (fun _ _ => true) .int [] false (both.map (·.node)) with
  | .ok g => g
  | .error _ => []

theorem graph_eq : createFunctionGraph (fun _ _ => true) DT.int ([] : Dict Name DV) false (both.map (·.node)) = .ok graph := by
  have h : (createFunctionGraph (fun _ _ => true) DT.int ([] : Dict Name DV) false (both.map (·.node))).isOk = true := by
    decide +kernel
  unfold graph
  revert h
  generalize createFunctionGraph (fun _ _ => true) DT.int ([] : Dict Name DV) false (both.map (·.node)) = r
  intro h
  cases r with
  | ok g => rfl
  | error e => simp [Except.isOk, Except.toBool] at h

theorem both_defines : ∀ n ∈ both, Defines graph n.node := by
  intro n hn
  refine build_defines ?_ graph_eq (List.mem_map.2 ⟨n, hn, rfl⟩) (by simp [Dict.keys])
  intro m hm
  have : both.map (·.node) = [(both.map (·.node))[0], (both.map (·.node))[1], (both.map (·.node))[2]] := rfl
  rw [this] at hm
  simp only [List.mem_cons, List.not_mem_nil, or_false] at hm
  rcases hm with rfl | rfl | rfl <;> exact ⟨by decide +kernel, rfl, rfl, by decide +kernel⟩

/-- `C70_loader`: downstream functions get the data only. -/
example : Den graph [("x", .int 5)] [] "load" (.int 5) := by
  refine ((C70_loader (ty := types) (first := fst) (f := load .given) (nodes := both.take 2) rfl (by decide)
    (fun m hm => both_defines m (List.mem_of_mem_take hm)) rfl rfl (.int 5)).2).2 ⟨_, ⟨[("x", .int 5)], ?_, rfl⟩, rfl⟩
  refine (rightArgs_single (n := (load .given).node) rfl _).2 ⟨.int 5, ?_, rfl⟩
  cases hx : graph.get? "x" with
  | none =>
    have : (graph.get? "x").isSome = true := by decide +kernel
    rw [hx] at this; cases this
  | some n =>
    have : (graph.get? "x").map (·.kind) = some .external := by decide +kernel
    rw [hx] at this
    exact .input hx rfl (Option.some.inj this) rfl

/-- `C70_saver`: the metadata the function returns is the value of its node. -/
example : Den graph [("x", .int 5)] [("load", .int 8)] "save" (.dict [("rows", .int 8)]) := by
  refine (C70_saver (ty := types) (f := save .given) (nodes := both.drop 2) rfl (by decide)
    (fun m hm => both_defines m (List.mem_of_mem_drop hm)) rfl _).2 ⟨[("load", .int 8)], ?_, rfl⟩
  refine (rightArgs_single (n := (save .given).node) rfl _).2 ⟨.int 8, ?_, rfl⟩
  have hs : (graph.get? "load").isSome = true := by decide +kernel
  obtain ⟨n, hl⟩ := Option.isSome_iff_exists.1 hs
  exact .override hl rfl

/-- `C70_nodes`: the type of the data is `int`. -/
example : ∃ l m, both.take 2 = [l, m] ∧ l.node.typ = .pair ∧ m.node.typ = .int := by
  obtain ⟨l, m, t, d, h1, h2, _, h3, _, _, h4, _⟩ :=
    C70_nodes (ty := types) (first := fst) (f := load .given) (nodes := both.take 2) rfl
  cases h2
  exact ⟨l, m, h1, h3, h4⟩

/-- `C70_tags`: the two nodes of the loader and the one of the saver, and the tag of the module. -/
example : ∃ l m n, both = [l, m, n] ∧ l.tags.get? "hamilton.data_loader.has_metadata" = some (.bool true) ∧
    l.tags.get? "module" = some (.str "m") ∧ n.tags.get? "hamilton.data_saver.sink" = some (.str "save") := by
  obtain ⟨l, m, h1, -, -, -, h2, -, h3⟩ := (C70_tags (ty := types) (first := fst) (f := load .given) (nodes := both.take 2)).1 rfl
  obtain ⟨n, h4, -, -, h5, -⟩ := (C70_tags (ty := types) (first := fst) (f := save .given) (nodes := both.drop 2)).2 rfl
  refine ⟨l, m, n, ?_, h2, h3 "module" (by decide), h5⟩
  rw [← List.take_append_drop 2 both, h1, h4]; rfl

/-- Both decorators accept the functions. -/
example : (∃ ns, dataLoader types fst (load .given) = .ok ns) ∧ (∃ ns, dataSaver types (save .given) = .ok ns) :=
  ⟨(C70_accepted_partial (by decide)).1.2 ⟨rfl, .int, .dict, rfl, rfl⟩, (C70_accepted_partial (first := fst) (by decide)).2.2 ⟨rfl, rfl⟩⟩

/-- **C70 violated, postponed annotations.**  Under `from __future__ import annotations` the same functions, whose types are
`tuple[int, dict]` and `dict`, are refused by both decorators. -/
theorem C70_violated_postponed :
    (∃ t d, types.tupleArgs (load .text).node.typ = some [t, d] ∧ types.isDict d = true) ∧
    (¬ ∃ ns, dataLoader types fst (load .text) = .ok ns) ∧
    types.isDict (save .text).node.typ = true ∧ ¬ ∃ ns, dataSaver types (save .text) = .ok ns :=
  ⟨⟨.int, .dict, rfl, rfl⟩, (by rintro ⟨ns, h⟩; cases h), rfl, (by rintro ⟨ns, h⟩; cases h)⟩

/-- `with_cache(recompute=["load"])` for the loader in a module. -/
def cacheArgs (names : List String) : CacheArgs :=
  ⟨.unset, .names names, .unset, .unset, some "default", some "default", some "default"⟩

example : ((resolveBehaviors (cacheArgs ["load"]) (both.map (·.toCNode))).toOption.map
    (fun d => (d.get? "load", d.get? "load.loader", d.get? "save"))) =
    some (some .recompute, some .recompute, some .default) := by decide +kernel

/-- `C70_cache_partial`: the loader in a module is recomputed if this is asked for. -/
example : ∃ d, resolveBehaviors (cacheArgs ["load"]) (both.map (·.toCNode)) = .ok d ∧ d.get? "load.loader" = some .recompute := by
  cases h : resolveBehaviors (cacheArgs ["load"]) (both.map (·.toCNode)) with
  | error e =>
    have : (resolveBehaviors (cacheArgs ["load"]) (both.map (·.toCNode))).isOk = true := by decide +kernel
    rw [h] at this; cases this
  | ok d =>
    refine ⟨d, rfl, ?_⟩
    obtain ⟨b, m, hm, hname, hc, h1, h2⟩ := C70_cache_partial (ty := types) (first := fst) (f := load .given) (nodes := both.take 2)
      (a := cacheArgs ["load"]) (by decide) (by decide +kernel) h rfl
      (fun n hn => List.mem_map.2 ⟨n, List.mem_of_mem_take hn, rfl⟩)
    have : b = .recompute := by
      have hdr : Chosen (cacheArgs ["load"]) ((both.map (·.toCNode)).map CNode.name) m.toCNode .recompute := by
        refine .driver .recompute ?_ ?_
        · have : m = both[0] ∨ m = both[1] := (List.mem_cons.1 hm).imp id List.mem_singleton.1
          rcases this with rfl | rfl <;> rfl
        · rw [show m.toCNode.name = "load" from hname]
          exact .names _ _ (by decide)
      have hk := (C34_precedence_partial (a := cacheArgs ["load"]) (by decide) (nodes := both.map (·.toCNode)) (by decide +kernel) h
        (n := m.toCNode) (List.mem_map.2 ⟨m, List.mem_of_mem_take hm, rfl⟩) ?_ .recompute).2 hdr
      · rw [show m.toCNode.name = "load" from hname] at hk
        exact Option.some.inj (h1.symm.trans hk)
      · rintro main ⟨_, h2, h3⟩
        have hm' : m = both[1] := by
          have : m = both[0] ∨ m = both[1] := (List.mem_cons.1 hm).imp id List.mem_singleton.1
          rcases this with rfl | rfl
          · exact absurd hname (by decide +kernel)
          · rfl
        subst hm'
        have : (both[1].toCNode.tags.get? "hamilton.data_loader.node") = some (.str "load") := by decide +kernel
        rw [this] at h2
        cases h2
        exact h3 rfl
    rw [this] at h2
    exact h2

/-- **C70 violated, subdag.**  The loader is in a `@subdag` called `sub`: its node is `sub.load`. `with_cache(recompute=["sub.load"])`
asks for RECOMPUTE for it, but both of its nodes get DEFAULT: the tag names the function without the namespace. -/
theorem C70_violated_subdag :
    (∃ n ∈ both.map (fun n => (n.inNamespace "sub").toCNode), n.name = "sub.load" ∧
      Chosen (cacheArgs ["sub.load"]) ((both.map (fun n => (n.inNamespace "sub").toCNode)).map CNode.name) n .recompute) ∧
    ((resolveBehaviors (cacheArgs ["sub.load"]) (both.map (fun n => (n.inNamespace "sub").toCNode))).toOption.map
      (fun d => (d.get? "sub.load", d.get? "sub.load.loader"))) = some (some .default, some .default) := by
  refine ⟨⟨(both[1].inNamespace "sub").toCNode, List.mem_map.2 ⟨both[1], List.getElem_mem _, rfl⟩, rfl, ?_⟩, by decide +kernel⟩
  exact .driver .recompute rfl (.names _ _ (by decide +kernel))

end DataSample
end Verif
