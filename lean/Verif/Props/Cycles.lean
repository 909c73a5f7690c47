import Verif.Props.Execution

/-!
C54: circular dependencies.  Building a driver does not reject functions that depend on each other in a circle; what a call
does then depends only on whether the request needs the circle.
-/
namespace Verif
variable {T V : Type}

/-- What is needed for the requested names is needed for the requested nodes. -/
theorem Needed.nodes {g : Graph T V} (hw : WellFormed g) {overrides : Dict Name V} {finalVars : List Name} {k : Name}
    (h : Needed g overrides finalVars k) (hk : ∃ n, g.get? k = some n) :
    Needed g overrides ((requestedNodes g finalVars).map (·.name)) k := by
  induction h with
  | req h => exact .req ((mem_requested_names hw finalVars _).2 ⟨h, hk⟩)
  | param _ ho hm hd ih => exact .param (ih ⟨_, hm⟩) ho hm hd

theorem Needed.requested {g : Graph T V} (hw : WellFormed g) {overrides : Dict Name V} {finalVars : List Name} {k : Name}
    (h : Needed g overrides ((requestedNodes g finalVars).map (·.name)) k) : Needed g overrides finalVars k := by
  induction h with
  | req h => exact .req ((mem_requested_names hw finalVars _).1 h).1
  | param _ ho hm hd ih => exact .param ih ho hm hd

theorem LivePath.start {g : Graph T V} {overrides : Dict Name V} {a b : Name} (h : LivePath g overrides a b) :
    ∃ n, g.get? a = some n := by
  cases h with
  | edge h => obtain ⟨_, n, hn, _⟩ := h; exact ⟨n, hn⟩
  | step h _ => obtain ⟨_, n, hn, _⟩ := h; exact ⟨n, hn⟩

/-- A needed node of a circle makes some requested node unresolvable. -/
theorem Needed.source {g : Graph T V} {overrides : Dict Name V} {req : List Name} {k : Name}
    (h : Needed g overrides req k) : ∃ r ∈ req, r = k ∨ LivePath g overrides r k := by
  induction h with
  | req h => exact ⟨_, h, .inl rfl⟩
  | param _ ho hm hd ih =>
    obtain ⟨r, hr, h⟩ := ih
    refine ⟨r, hr, .inr ?_⟩
    rcases h with rfl | h
    · exact .edge ⟨ho, _, hm, hd⟩
    · exact h.snoc ⟨ho, _, hm, hd⟩

/-- **C54, a needed circle never gives a result.**  If the request runs into a circular dependency that no override cuts, then
`Driver.execute` does not return. -/
theorem C54_needed_cycle_fails {o : TypeOracle T V} {fg : FnGraph T V} (hg : DriverGraph fg)
    {finalVars : List Name} {inputs overrides : Option (Dict Name V)}
    (hc : NeededCycle fg.nodes (overrides.getD []) finalVars) (out : Dict Name (Option V)) :
    driverExecute o fg finalVars inputs overrides ≠ .ok out := by
  intro h
  obtain ⟨h1, _⟩ := driverExecute_ok h
  obtain ⟨_, _, h3⟩ := defaultExecutor_ok (g := fg.nodes) (config := fg.config) hg.wf h1
  obtain ⟨k, hk, hp⟩ := hc
  obtain ⟨r, hr, hrk⟩ := (Needed.nodes hg.wf hk hp.start).source
  obtain ⟨hr1, n, hn⟩ := (mem_requested_names hg.wf finalVars r).1 hr
  rcases h3 r hr1 n hn with ⟨v, _, hv⟩ | ⟨_, m, hm, hext, _, _⟩
  · rcases hrk with rfl | hrk
    · exact hv.no_cycle hg.wf hp
    · exact acc_no_cycle (acc_path (hv.acc hg.wf) hrk) hp
  · have hedge : ∃ b, LiveEdge fg.nodes (overrides.getD []) r b := by
      rcases hrk with rfl | hrk
      · cases hp with
        | edge h => exact ⟨_, h⟩
        | step h _ => exact ⟨_, h⟩
      · cases hrk with
        | edge h => exact ⟨_, h⟩
        | step h _ => exact ⟨_, h⟩
    obtain ⟨b, _, m', hm', hb⟩ := hedge
    rw [hm] at hm'; cases hm'
    rw [hg.wf.external_no_params hm hext] at hb; cases hb

/-- **C54, only a needed circle makes the recursion endless.**  `Driver.execute` ends with a `RecursionError` of the traversal
only if the request runs into a circular dependency that no override cuts. -/
theorem C54_recursion_needs_cycle {o : TypeOracle T V} {fg : FnGraph T V} (hg : DriverGraph fg)
    {finalVars : List Name} {inputs overrides : Option (Dict Name V)}
    (h : driverExecute o fg finalVars inputs overrides = .error (.exec .diverge)) :
    NeededCycle fg.nodes (overrides.getD []) finalVars := by
  unfold driverExecute at h
  cases hs : getUpstreamNodes fg finalVars inputs overrides with
  | err e s => rw [hs] at h; cases h
  | ok s =>
    rw [hs] at h
    dsimp only at h
    cases hv : validateInputs o fg s.userNodes inputs s.nodes with
    | error e =>
      rw [hv] at h
      dsimp only at h
      unfold validateInputs at hv
      split at hv
      · cases hv; cases h
      · simp only at hv
        split at hv
        · cases hv
        · cases hv; cases h
    | ok u =>
      rw [hv] at h
      dsimp only at h
      cases hx : defaultExecutorValidate fg.nodes (s.nodes ++ s.userNodes) with
      | error e =>
        rw [hx] at h
        unfold defaultExecutorValidate at hx
        split at hx
        · cases hx; cases h
        · cases hx
      | ok u' =>
        rw [hx] at h
        dsimp only at h
        unfold defaultExecutorExecute at h
        cases hc : combineConfigAndInputs fg.config (inputs.getD []) with
        | error e => rw [hc] at h; cases h
        | ok all =>
          rw [hc] at h
          dsimp only at h
          have hspec := executeSubdag_spec hg.wf (requestedNodes fg.nodes finalVars) (requestedNodes_ok hg.wf finalVars)
            all (overrides.getD [])
          change (match executeSubdag fg.nodes (requestedNodes fg.nodes finalVars) all (overrides.getD []) with
            | .err e _ => _ | .ok s => _) = _ at h
          cases hrun : executeSubdag fg.nodes (requestedNodes fg.nodes finalVars) all (overrides.getD []) with
          | ok s => rw [hrun] at h; cases h
          | err e s =>
            rw [hrun] at h hspec
            cases h
            obtain ⟨_, ⟨k, h1, h2⟩, _⟩ := hspec
            exact ⟨k, Needed.requested hg.wf h1, h2⟩

/-- **C54, whatever the recursion limit.**  However deep the recursion may go, the traversal of a node that leads to a circular
dependency does not return. -/
theorem C54_any_limit {g : Graph T V} (hw : WellFormed g) {inputs overrides : Dict Name V} {req : List Name} {n : Node T V}
    (hn : g.get? n.name = some n) (hr : n.name ∈ req) {x : Name}
    (hx : x = n.name ∨ LivePath g overrides n.name x) (hc : LivePath g overrides x x) (fuel : Nat) (s : ExecState V) :
    dfs g inputs overrides req fuel n (if n.userDefined then .optional else .required) ExecState.init ≠ .ok s := by
  intro h
  have hd := dfs_spec (inputs := inputs) (overrides := overrides) (req := req) hw fuel n
    (if n.userDefined then .optional else .required) ExecState.init hn Inv.init
    (by intro h; simp [ExecState.init] at h) (.req hr) (by intro h1 h2; simp [Node.userDefined, h2] at h1)
  rw [h] at hd
  obtain ⟨p1, _, _, ⟨v, hv⟩ | ⟨_, m, hm, hk, _⟩⟩ := hd
  · have hden := p1.den _ _ hv
    rcases hx with rfl | hx
    · exact hden.no_cycle hw hc
    · exact acc_no_cycle (acc_path (hden.acc hw) hx) hc
  · have hedge : ∃ b, LiveEdge g overrides n.name b := by
      rcases hx with rfl | hx
      · cases hc with
        | edge h => exact ⟨_, h⟩
        | step h _ => exact ⟨_, h⟩
      · cases hx with
        | edge h => exact ⟨_, h⟩
        | step h _ => exact ⟨_, h⟩
    obtain ⟨b, _, m', hm', hb⟩ := hedge
    rw [hm] at hm'; cases hm'
    rw [hw.external_no_params hm hk] at hb; cases hb

/-- **C54, other requests are not affected.**  If every requested node has a value by functional composition, the run returns
these values although other functions of the driver depend on each other in a circle. -/
theorem C54_other_requests {fg : FnGraph T V} (hg : DriverGraph fg) {finalVars : List Name} {inputs overrides : Dict Name V}
    (hdisj : ∀ k ∈ inputs.keys, k ∉ fg.config.keys)
    (hall : ∀ k ∈ finalVars, ∃ v, Den fg.nodes (fg.config.merge inputs) overrides k v) :
    ¬ NeededCycle fg.nodes overrides finalVars ∧
    ∃ out, defaultExecutorExecute fg finalVars overrides inputs = .ok out ∧
      ∀ k ∈ finalVars, ∃ v, Den fg.nodes (fg.config.merge inputs) overrides k v ∧ out.get? k = some (some v) := by
  constructor
  · rintro ⟨k, hk, hp⟩
    obtain ⟨r, hr, hrk⟩ := hk.source
    obtain ⟨v, hv⟩ := hall r hr
    rcases hrk with rfl | hrk
    · exact hv.no_cycle hg.wf hp
    · exact acc_no_cycle (acc_path (hv.acc hg.wf) hrk) hp
  · obtain ⟨out, h1, h2⟩ := C04_execute_complete hg hdisj (finalVars := finalVars) (overrides := overrides)
      (fun k hk n _ => .inl (hall k hk))
    exact ⟨out, h1, fun k hk => by obtain ⟨v, hv⟩ := hall k hk; exact ⟨v, hv, h2 k hk v hv⟩⟩

/-! ### A driver with a circle -/

namespace CycleSample

/-- `def ping(pong): …`, `def pong(ping, x): …`, `def user(ping): …`, `def free(x): …`. -/
def fns : List (Node Unit Int) :=
  [ Sample.fnNode "ping" [("pong", .required)] (fun kw => .ok (Sample.arg kw "pong" 0 + 1)),
    Sample.fnNode "pong" [("ping", .required), ("x", .required)] (fun kw => .ok (Sample.arg kw "ping" 0 * 2 + Sample.arg kw "x" 0)),
    Sample.fnNode "user" [("ping", .required)] (fun kw => .ok (Sample.arg kw "ping" 0 + 100)),
    Sample.fnNode "free" [("x", .required)] (fun kw => .ok (Sample.arg kw "x" 0 + 7)) ]

/-- The graph of the driver. -/
def graph : Graph Unit Int :=
  match createFunctionGraph Sample.tm () [] false fns with
  | .ok g => g
  | .error _ => []

/-- The function graph. -/
def fg : FnGraph Unit Int := ⟨graph, []⟩

-- building the driver does not fail
theorem build_ok : createFunctionGraph Sample.tm () [] false fns = .ok graph := by
  have h : (createFunctionGraph Sample.tm () [] false fns).isOk = true := by decide
  unfold graph
  revert h
  generalize createFunctionGraph Sample.tm () [] false fns = r
  intro h
  cases r with
  | ok g => rfl
  | error e => simp [Except.isOk, Except.toBool] at h

theorem fns_fresh : ∀ n ∈ fns, Fresh n := by
  intro n hn
  simp only [fns, List.mem_cons, List.not_mem_nil, or_false] at hn
  rcases hn with rfl | rfl | rfl | rfl <;>
    exact ⟨by decide, rfl, rfl, by decide⟩

theorem driverGraph : DriverGraph fg :=
  ⟨(createFunctionGraph_spec fns_fresh build_ok).1, (createFunctionGraph_spec fns_fresh build_ok).2.1⟩

theorem path : LivePath graph [] "ping" "ping" :=
  .step ⟨rfl, _, rfl, by decide⟩ (.edge ⟨rfl, _, rfl, by decide⟩ : LivePath graph [] "pong" "ping")

theorem cycle : NeededCycle graph [] ["user"] :=
  ⟨"ping", .param (.req (k := "user") (by simp)) rfl rfl (by decide), path⟩

-- the hypothesis of C54_needed_cycle_fails, and what the call gives
example (o : TypeOracle Unit Int) (inputs : Option (Dict Name Int)) (out : Dict Name (Option Int)) :
    driverExecute o fg ["user"] inputs none ≠ .ok out :=
  C54_needed_cycle_fails (fg := fg) (overrides := none) driverGraph cycle out

example : driverExecute Sample.oracle fg ["user"] (some [("x", 1)]) none = .error (.exec .diverge) := by rfl

example (n : Node Unit Int) (hn : graph.get? "user" = some n) (fuel : Nat) (s : ExecState Int) :
    dfs graph [("x", 1)] [] ["user"] fuel n (if n.userDefined then .optional else .required) ExecState.init ≠ .ok s := by
  have hname := driverGraph.wf.name_eq hn
  exact C54_any_limit driverGraph.wf (by rw [hname]; exact hn) (by simp [hname]) (x := "ping")
    (.inr (by rw [hname]; exact .edge ⟨rfl, _, rfl, by decide⟩)) path fuel s

-- a request that does not need the circle, and one in which an override cuts it
example : driverExecute Sample.oracle fg ["free"] (some [("x", 1)]) none = .ok [("free", some 8)] := by rfl

example : driverExecute Sample.oracle fg ["user", "pong"] (some [("x", 1)]) (some [("pong", 4)]) =
    .ok [("user", some 105), ("pong", some 4)] := by rfl

example : ∃ v, Den graph [("x", 1)] [("pong", 4)] "user" v :=
  ⟨105, .call (fun k => if k = "ping" then some 5 else none) rfl rfl (by decide)
    (by
      intro d w hd hv
      by_cases h : d = "ping"
      · subst h
        simp at hv; subst hv
        refine .call (fun k => if k = "pong" then some 4 else none) rfl rfl (by decide) ?_ ?_ rfl
        · intro d w hd hv
          by_cases h : d = "pong"
          · subst h; simp at hv; subst hv; exact .override rfl rfl
          · simp [h] at hv
        · intro d t hd hv
          have h : d = "pong" := by
            have h1 : d ∈ ["pong"] := mem_keys_of_mem hd
            simpa using h1
          simp [h] at hv
      · simp [h] at hv)
    (by
      intro d t hd hv
      have h : d = "ping" := by
        have h1 : d ∈ ["ping"] := mem_keys_of_mem hd
        simpa using h1
      simp [h] at hv)
    rfl⟩

end CycleSample
end Verif
