import Verif.Proofs.Plan

/-!
A concrete function graph used in the examples beside the theorems:

    def base(x): return x + 1
    def left(base): return base * 2
    def right(base, y=10): return base + y
    def top(left, right): return left + right

built by the model of `create_function_graph` with config `{"c": 7}`.
-/
namespace Verif.Sample

/-- A function node with integer values; every type annotation is `()`. -/
def fnNode (name : Name) (params : List (Name × DepType)) (f : Dict Name Int → Except UserErr Int) :
    Node Unit Int :=
  { name, typ := (), kind := .standard, inputTypes := params.map (fun p => (p.1, ((), p.2))),
    dependencies := [], dependedOnBy := [], fn := f }

/-- Keyword argument with Python default. -/
def arg (kw : Dict Name Int) (k : Name) (dflt : Int) : Int := (kw.get? k).getD dflt

/-- The functions of the sample module. -/
def fns : List (Node Unit Int) :=
  [ fnNode "base" [("x", .required)] (fun kw => .ok (arg kw "x" 0 + 1)),
    fnNode "left" [("base", .required)] (fun kw => .ok (arg kw "base" 0 * 2)),
    fnNode "right" [("base", .required), ("y", .optional)] (fun kw => .ok (arg kw "base" 0 + arg kw "y" 10)),
    fnNode "top" [("left", .required), ("right", .required)]
      (fun kw => .ok (arg kw "left" 0 + arg kw "right" 0)) ]

/-- Sample configuration. -/
def config : Dict Name Int := [("c", 7)]

/-- Types always match in the sample. -/
def tm : Unit → Unit → Bool := fun _ _ => true

/-- The graph built from the sample functions. -/
def graph : Graph Unit Int :=
  match createFunctionGraph tm () config false fns with
  | .ok g => g
  | .error _ => []

/-- Sample type oracle: every value is accepted. -/
def oracle : TypeOracle Unit Int := ⟨fun _ => false, fun _ _ => true⟩

theorem fns_fresh : ∀ n ∈ fns, Fresh n := by
  intro n hn
  simp only [fns, List.mem_cons, List.not_mem_nil, or_false] at hn
  rcases hn with rfl | rfl | rfl | rfl <;>
    exact ⟨by decide, rfl, rfl, by decide⟩

theorem build_ok : createFunctionGraph tm () config false fns = .ok graph := by
  have h : (createFunctionGraph tm () config false fns).isOk = true := by decide
  unfold graph
  revert h
  generalize createFunctionGraph tm () config false fns = r
  intro h
  cases r with
  | ok g => rfl
  | error e => simp [Except.isOk, Except.toBool] at h

theorem graph_keys : graph.keys = ["base", "left", "right", "top", "x", "y", "c"] := by decide

theorem graph_wf : WellFormed graph := (createFunctionGraph_spec fns_fresh build_ok).1

/-- Topological numbering of the sample. -/
def rank (k : Name) : Nat :=
  if k = "top" then 3 else if k = "left" ∨ k = "right" then 2 else if k = "base" then 1 else 0

theorem ranked_check : graph.all (fun p => p.2.inputTypes.keys.all (fun d => decide (rank d < rank p.1))) = true := by
  decide

theorem graph_ranked : Ranked graph rank := by
  intro k n hk d hd
  have h := ranked_check
  rw [List.all_eq_true] at h
  have h1 := h _ (Dict.get?_mem hk)
  rw [List.all_eq_true] at h1
  simpa using h1 d hd

theorem graph_acyclic : Acyclic graph := ⟨rank, graph_ranked⟩

end Verif.Sample
