import Verif.Model.Build
import Verif.Model.Sched
import Verif.Proofs.Names
import Verif.Proofs.TaskPlan
import Verif.Spec.Keys

/-!
A concrete task plan used in the examples beside the theorems, of the module

    def n(x: int) -> int: return x + 1
    def e(n: int) -> Parallelizable[int]: yield from range(n)
    def a(e: int) -> int: return e * 10
    def b(a: int, n: int) -> int: return a + n
    def c(b: Collect[int]) -> list: return b
    def d(c: list) -> list: return c
-/
namespace Verif.TaskSample

/-- Values of the sample: integers and lists. -/
inductive Va where
  | i (n : Int)
  | l (xs : List Va)

/-- A function node; the type `true` is `Collect[...]`. -/
def mk (name : Name) (kind : NodeKind) (ps : List (Name × Bool)) (f : Dict Name Va → Except UserErr Va) : Node Bool Va :=
  { name, typ := false, kind, inputTypes := ps.map (fun p => (p.1, (p.2, .required))), dependencies := [],
    dependedOnBy := [], fn := f }

/-- Integer argument. -/
def toI : Option Va → Int
  | some (.i n) => n
  | _ => -1000

/-- Functions of the sample module. -/
def fns : List (Node Bool Va) :=
  [ mk "n" .standard [("x", false)] (fun kw => .ok (.i (toI (kw.get? "x") + 1))),
    mk "e" .expand [("n", false)] (fun kw =>
      .ok (.l ((List.range (toI (kw.get? "n")).toNat).map (fun (i : Nat) => Va.i (i : Int))))),
    mk "a" .standard [("e", false)] (fun kw => .ok (.i (toI (kw.get? "e") * 10))),
    mk "b" .standard [("a", false), ("n", false)] (fun kw => .ok (.i (toI (kw.get? "a") + toI (kw.get? "n")))),
    mk "c" .collect [("b", true)] (fun kw => .ok ((kw.get? "b").getD (.i 0))),
    mk "d" .standard [("c", false)] (fun kw => .ok ((kw.get? "c").getD (.i 0))) ]

/-- Lists of the sample. -/
def ops : TaskOps Bool Va := ⟨fun b => b, fun v => match v with | .l xs => some xs | _ => none, .l⟩

theorem ops_law : ∀ l, ops.toList (ops.ofList l) = some l := fun _ => rfl

/-- The graph. -/
def graph : Graph Bool Va :=
  match createFunctionGraph (fun _ _ => true) false [] false fns with
  | .ok g => g
  | .error _ => []

/-- The graph with expand nodes returning lists. -/
def g : Graph Bool Va := listifyGraph ops graph

/-- The groups of the default grouping strategy. -/
def groups : List (NodeGroup Bool Va) :=
  (groupByRepeatableBlocks g (["d", "c", "b", "a", "e", "n", "x"].filterMap g.get?)).getD []

/-- The plan to compute `d`. -/
def specs : List (TaskSpec Bool Va) := (createTaskPlan groups ["d"] []).getD []

/-- The graph with a last function that raises. -/
def gBad : Graph Bool Va :=
  match createFunctionGraph (fun _ _ => true) false [] false
    (fns.take 5 ++ [mk "d" .standard [("c", false)] (fun _ => .error "ValueError")]) with
  | .ok g => listifyGraph ops g
  | .error _ => []

/-- The plan to compute the `d` that raises. -/
def specsBad : List (TaskSpec Bool Va) :=
  (createTaskPlan ((groupByRepeatableBlocks gBad (["d", "c", "b", "a", "e", "n", "x"].filterMap gBad.get?)).getD [])
    ["d"] []).getD []

/-- Blocks run in a pool, the rest at once. -/
def ex : Executors := ⟨fun p => p != .block⟩

/-- A schedule: `k` rounds, everything finishes at once. -/
def eager (k : Nat) : List Choice := List.replicate k ⟨true, fun _ => .finished⟩

/-- A schedule in which the copy for element 0 finishes last and there is often no room. -/
def reversed : List Choice :=
  List.replicate 4 ⟨true, fun _ => .pending⟩ ++ [⟨false, fun _ => .pending⟩, ⟨false, fun _ => .late⟩] ++
  List.replicate 3 ⟨true, fun id => if id = "expand-e.0.block-e" then .pending else .finished⟩ ++ eager 8

/-- The inputs. -/
def cache : Dict Name Va := [("x", .i 1)]

theorem specs_ids : specs.map (·.baseId) = ["expand-e", "block-e", "collect-e", "d", "n", "x"] := by decide

theorem specs_info : specs.map (fun s => (s.spawning, s.purpose, s.baseDeps, s.outputs)) =
    [(none, .expand, ["n"], ["e"]), (some "expand-e", .block, ["expand-e", "n"], ["b"]),
     (some "expand-e", .gather, ["block-e"], ["c"]), (none, .single, ["collect-e"], ["d"]),
     (none, .single, ["x"], ["n"]), (none, .single, [], ["x"])] := by decide

theorem specs_nodes : specs.map (fun s => (s.baseId, s.nodes.map (·.name))) =
    [("expand-e", ["e"]), ("block-e", ["a", "b"]), ("collect-e", ["c"]), ("d", ["d"]), ("n", ["n"]), ("x", ["x"])] := by
  decide

/-- Heights of the tasks. -/
def rank (k : Name) : Nat :=
  if k = "d" then 5 else if k = "collect-e" then 4 else if k = "block-e" then 3 else if k = "expand-e" then 2
  else if k = "n" then 1 else 0

theorem member_only : ∀ m ∈ specs, ∀ e, m.MemberOf e → e = "expand-e" ∧ m.baseId = "block-e" := by
  have h : ∀ m ∈ specs, ∀ e ∈ m.spawning, m.purpose ≠ .gather → e = "expand-e" ∧ m.baseId = "block-e" := by decide
  exact fun m hm e he => h m hm e he.1 he.2.2

theorem plan_live : PlanLive specs where
  ids_nodup := by decide
  deps_in := by decide
  expand_static := by decide
  spawned := by
    have h : ∀ t ∈ specs, ∀ e ∈ t.spawning, t.baseDeps ≠ [] ∧ ∃ s ∈ specs, s.baseId = e ∧ s.purpose = .expand := by
      decide
    exact h
  member_use := by
    have h : ∀ t ∈ specs, "block-e" ∈ t.baseDeps → t.spawning = some "expand-e" ∧ t.purpose = .gather := by decide
    intro t ht m hm e he hd
    obtain ⟨rfl, h2⟩ := member_only m hm e he
    exact h t ht (h2 ▸ hd)
  inst_inj := (inst_names (fun m hm e he => ⟨"e", by unfold DashFree; decide, member_only m hm e he⟩) (by decide)).1
  inst_fresh := (inst_names (fun m hm e he => ⟨"e", by unfold DashFree; decide, member_only m hm e he⟩) (by decide)).2
  nonempty := by
    intro h
    have := specs_ids
    rw [h] at this
    cases this
  rank := ⟨rank, by decide, by
    have h : ∀ t ∈ specs, ∀ e ∈ t.spawning, rank e < rank t.baseId := by decide
    exact h⟩
  realizable := by decide

theorem keys_ok : KeysOk specs where
  node_disjoint := by decide
  outputs_in := by decide
  overrides_in := by
    have h : ∀ s ∈ specs, s.overrides.keys = [] := by decide
    intro s hs k v hk
    have := Dict.mem_keys_iff.2 ⟨v, hk⟩
    rw [h s hs] at this
    cases this
  overrides_nodup := by decide
  gather_spawned := by decide
  ids_plain := fun _ => by unfold ColonFree; decide
  names_plain := fun _ => by unfold ColonFree; decide
  deps_plain := fun _ => by unfold ColonFree; decide

theorem cache_plain : HasRepeated specs → ∀ key v, cache.get? key = some v → ColonFree key := by
  have h : ∀ key ∈ cache.keys, ColonFree key := by unfold ColonFree; decide
  exact fun _ key v hk => h key (Dict.mem_keys_iff.2 ⟨v, hk⟩)

end Verif.TaskSample
