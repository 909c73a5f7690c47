import Verif.Proofs.CacheRead
import Verif.Props.TaskCache

/-! C91: results can be read from the cache after a run. The functions read with are `get_data_version` of the adapter
(`getDataVersion`, without cache key) and `get` of the result store (`results.get?`). -/
namespace Verif.TaskCache.Read
open Verif.TaskCache
variable {V : Type}

/-- The cache after further runs. -/
def after (env : TaskEnv V) (s : State V) (later : List (Run V)) : State V :=
  later.foldl (fun s r => (cachedRun env r s).2) s

/-- What the user calls: the version of the node in the run that ended with `s`. -/
def versionOf (r : Run V) (n : Name) (task : String) (s : State V) : Except UserErr (Option String) :=
  getDataVersion (roleOf (r.flow.kinds n) n task) n task none s

/-- C91: after any history of runs and deletions, for every value that a run computed, also if it ended with an exception, the
cache has a version, and the result store has that value, and nothing else, under that version, also after any further runs.
Missing: parallelizable nodes, see `C91_violated_expand`, and what C89 excludes. -/
theorem C91_read_partial {env : TaskEnv V} (he : env.Lawful) {col : String → String → Option Name}
    {impl : String → String → Dict Name V → Except UserErr V} (hu : OrderFree env col impl) {s : State V}
    (hs : Reached env col impl s) {r : Run V} (hr : Run.Valid env col impl r) {n : Name} {task : String} {v : V}
    (hv : (plainRun env r).vals.get? (n, task) = some v) (hb : r.flow.behavior n ≠ .disable) (hk : r.flow.kinds n ≠ .expand) :
    ∃ x, versionOf r n task (cachedRun env r s).2 = .ok (some x) ∧
      ∀ later : List (Run V), (after env (cachedRun env r s).2 later).results.get? x = some v := by
  obtain ⟨h1, h2, h3⟩ := startRun_spec he hr (hs.good he hu)
  have hkept := runSteps_kept he hu hr r.steps [] _ h1 h2 h3 (fun _ _ _ h => by cases h)
  have hsame := (cachedRun_spec he hu hr (hs.good he hu)).1
  have hb' : r.flow.behaviorOf n ≠ .disable := by
    unfold Flow.behaviorOf
    cases h : r.flow.kinds n with
    | expand => exact absurd h hk
    | plain => exact hb
    | collect d => exact hb
  have hr' : roleOf (r.flow.kinds n) n task ≠ .expand := by
    unfold roleOf
    cases h : r.flow.kinds n with
    | expand => exact absurd h hk
    | plain => simp only; split <;> exact Role.noConfusion
    | collect d => exact Role.noConfusion
  obtain ⟨x, h4, h5⟩ := hkept n task v (by
    show (cachedRun env r s).1.vals.get? (n, task) = some v
    rw [hsame]
    exact hv) hb' hr'
  refine ⟨x, ?_, fun later => runs_keep later _ x v h5⟩
  unfold versionOf getDataVersion
  have h4 : memVersion (roleOf (r.flow.kinds n) n task) n task (cachedRun env r s).2 = .ok (some x) := h4
  rw [h4]

/-- C91: versions tell values apart: if the cache gives one version for a node of a run and a node of a later run, then both have
the same value. -/
theorem C91_version_partial {env : TaskEnv V} (he : env.Lawful) {col : String → String → Option Name}
    {impl : String → String → Dict Name V → Except UserErr V} (hu : OrderFree env col impl) {s : State V}
    (hs : Reached env col impl s) {r : Run V} (hr : Run.Valid env col impl r) {n : Name} {task : String} {v : V}
    (hv : (plainRun env r).vals.get? (n, task) = some v) (hb : r.flow.behavior n ≠ .disable) (hk : r.flow.kinds n ≠ .expand)
    {between : List (Run V)} (hbt : ∀ q ∈ between, Run.Valid env col impl q)
    {r' : Run V} (hr' : Run.Valid env col impl r') {n' : Name} {task' : String} {v' : V}
    (hv' : (plainRun env r').vals.get? (n', task') = some v') (hb' : r'.flow.behavior n' ≠ .disable)
    (hk' : r'.flow.kinds n' ≠ .expand)
    (h : versionOf r' n' task' (cachedRun env r' (after env (cachedRun env r s).2 between)).2 =
      versionOf r n task (cachedRun env r s).2) : v' = v := by
  have hreach : ∀ (l : List (Run V)) (t : State V), Reached env col impl t → (∀ q ∈ l, Run.Valid env col impl q) →
      Reached env col impl (after env t l) := by
    intro l
    induction l with
    | nil => intro t ht _; exact ht
    | cons q l ih =>
      intro t ht hq
      exact ih _ (ht.run (hq q List.mem_cons_self)) (fun p hp => hq p (List.mem_cons_of_mem _ hp))
  obtain ⟨x, h1, h2⟩ := C91_read_partial he hu hs hr hv hb hk
  obtain ⟨y, h3, h4⟩ := C91_read_partial he hu (hreach between _ (hs.run hr) hbt) hr' hv' hb' hk'
  rw [h1, h3] at h
  injection h with h
  injection h with h
  subst h
  have h5 := h2 (between ++ [r'])
  unfold after at h5
  rw [List.foldl_append] at h5
  have h6 := h4 []
  exact Option.some.inj (h6.symm.trans h5)

/-! ### Samples -/

namespace Sample
open Verif.TaskCache.Sample

/-- To evaluate the samples. -/
local instance : DecidableEq (Except UserErr (Option String))
  | .ok a, .ok b => if h : a = b then .isTrue (by rw [h]) else .isFalse (fun e => h (Except.ok.inj e))
  | .error a, .error b => if h : a = b then .isTrue (by rw [h]) else .isFalse (fun e => h (Except.error.inj e))
  | .ok _, .error _ => .isFalse (fun e => by cases e)
  | .error _, .ok _ => .isFalse (fun e => by cases e)

/-- Non-vacuity: after the history of C89 and a run, the result of one branch is read after two further runs. -/
example : ∃ x, versionOf (run "v1" .default) "scaled" "expand-parts.0.block-parts" (cachedRun env (run "v1" .default) used).2 =
      .ok (some x) ∧
    ∀ later : List (Run (List Nat)), (after env (cachedRun env (run "v1" .default) used).2 later).results.get? x = some [5] :=
  C91_read_partial env_lawful impl_orderFree used_reached (run_valid "v1" (by decide) (by decide))
    (by decide +kernel) (by decide) (by decide)

/-- The second branch fails, which ends the run. -/
def failing : Run (List Nat) :=
  ⟨flow "v1" .default, [("x", [3, 0])],
    [⟨"base", "base", []⟩,
     ⟨"parts", "expand-parts", [("x", .value [3, 0])]⟩,
     ⟨"scaled", "expand-parts.0.block-parts", [("parts", .item "expand-parts" 0), ("base", .result "base")]⟩,
     ⟨"scaled", "expand-parts.1.block-parts", [("parts", .item "expand-parts" 1), ("base", .result "base")]⟩]⟩

/-- What was computed before is in the cache then. -/
example : (cachedRun env failing fresh).1.error = some "ValueError" ∧
    versionOf failing "scaled" "expand-parts.0.block-parts" (cachedRun env failing fresh).2 = .ok (some "aaaaab") ∧
    (cachedRun env failing fresh).2.results.get? "aaaaab" = some [5] := by decide +kernel

/-- Non-vacuity: a run, one with other code and the first again. -/
example : versionOf (run "v1" .default) "total" "collect-parts" (cachedRun env (run "v1" .default)
      (after env (cachedRun env (run "v1" .default) used).2 [run "v2" .default])).2 =
    versionOf (run "v1" .default) "total" "collect-parts" (cachedRun env (run "v1" .default) used).2 := by decide +kernel
example {v' : List Nat} (hv' : (plainRun env (run "v1" .default)).vals.get? ("total", "collect-parts") = some v') : v' = [10] :=
  C91_version_partial env_lawful impl_orderFree used_reached (r := run "v1" .default) (run_valid "v1" (by decide) (by decide))
    (n := "total") (task := "collect-parts") (by decide +kernel) (by decide) (by decide) (between := [run "v2" .default])
    (by
      intro q hq
      rw [List.mem_singleton.1 hq]
      exact run_valid "v2" (by decide) (by decide))
    (run_valid "v1" (by decide) (by decide)) hv' (by decide) (by decide) (by decide +kernel)

/-- C91 as stated does not hold: a parallelizable node has a value, and its result is stored, but `get_data_version` has no version
for it. -/
theorem C91_violated_expand :
    (plainRun env (run "v1" .default)).vals.get? ("parts", "expand-parts") = some [3, 1] ∧
    (cachedRun env (run "v1" .default) fresh).2.results.get? "aaabab" = some [3, 1] ∧
    versionOf (run "v1" .default) "parts" "expand-parts" (cachedRun env (run "v1" .default) fresh).2 = .ok none := by
  decide +kernel

end Sample
end Verif.TaskCache.Read
