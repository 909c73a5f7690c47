import Verif.Model.ExecutionPath
import Verif.Proofs.Stateless
import Verif.Proofs.LifecycleInv
import Verif.Props.Execution

/-! C64, `execution_path`: the nodes a `GraphExecutionHook` is told are those whose functions are run. -/
namespace Verif
variable {T V : Type}

theorem withFn_self (g : Graph T V) : Graph.withFn (fun n => n.fn) g = g := by
  unfold Graph.withFn
  exact List.map_id'' (fun p => rfl) g

/-- In a successful run every needed function is called. -/
theorem executeSubdag_all_called {g : Graph T V} (hw : WellFormed g) {nodes : List (Node T V)}
    (hnodes : ∀ n ∈ nodes, g.get? n.name = some n) {inputs overrides : Dict Name V} {s' : ExecState V}
    (h : executeSubdag g nodes inputs overrides = .ok s') {k : Name} {n : Node T V} (hk : g.get? k = some n)
    (hf : n.kind ≠ .external) (ho : overrides.get? k = none) (hneed : Needed g overrides (nodes.map (·.name)) k) :
    k ∈ s'.calls.map (·.1) := by
  have hst := executeWith_stateless (fun n : Node T V => n.fn) g nodes inputs overrides ()
  rw [withFn_self] at hst
  have hmap : nodes.map (Node.withFn (fun n : Node T V => n.fn)) = nodes := List.map_id'' (fun p => rfl) nodes
  rw [hmap, h] at hst
  exact executeWith_calls hw hnodes hst hk hf ho hneed

/-- C64, `execution_path` (partial: without overrides the path would be exact, see `C64_violated_execution_path`). Every
function that a run calls, successful or not, is on the path the hook was told; and every node of the path is a function that
a successful run does call, unless it was overridden. -/
theorem C64_execution_path_partial {fg : FnGraph T V} (hg : DriverGraph fg) {finalVars : List Name} {ins : Dict Name V}
    {overrides : Option (Dict Name V)} (hin : ins.keys.Nodup) {path : List Name}
    (hp : executionPath fg finalVars (some ins) overrides = .ok path) :
    (∀ c ∈ (executeSubdag fg.nodes (requestedNodes fg.nodes finalVars) (fg.config.merge ins)
        (overrides.getD [])).state.calls, c.1 ∈ path) ∧
    (∀ s', executeSubdag fg.nodes (requestedNodes fg.nodes finalVars) (fg.config.merge ins) (overrides.getD []) = .ok s' →
      ∀ x ∈ path, (∃ kw, (x, kw) ∈ s'.calls) ∨ ∃ v, (overrides.getD []).get? x = some v) ∧
    (∀ x ∈ path, ∃ n, fg.nodes.get? x = some n ∧ n.kind ≠ .external) := by
  unfold executionPath at hp
  cases hs : getUpstreamNodes fg finalVars (some ins) overrides with
  | err e s => rw [hs] at hp; cases hp
  | ok s =>
    rw [hs] at hp
    cases hp
    have hw := hg.wf
    obtain ⟨h1, h2, h3, _⟩ := C11_plan_exact_partial hg hin hs
    have hnode : ∀ x ∈ s.nodes, ∃ n, fg.nodes.get? x = some n := by
      intro x hx
      obtain ⟨r, _, ⟨n, hn⟩, hr⟩ := (h1 x).1 hx
      induction hr with
      | refl => exact ⟨n, hn⟩
      | step hr e ih =>
        obtain ⟨_, nn, t, hgn, hty, _⟩ := e
        exact hw.deps_in hgn (Dict.mem_keys_iff.2 ⟨t, hty⟩)
    have hfn : ∀ x ∈ s.nodes.filter (fun n => !s.userNodes.contains n), ∃ n, fg.nodes.get? x = some n ∧ n.kind ≠ .external := by
      intro x hx
      rw [List.mem_filter] at hx
      obtain ⟨n, hn⟩ := hnode x hx.1
      refine ⟨n, hn, fun he => ?_⟩
      have := (h2 x).2 ⟨hx.1, n, hn, he⟩
      simp [this] at hx
    refine ⟨?_, ?_, hfn⟩
    · intro c hc
      rw [List.mem_filter]
      refine ⟨h3 c hc, ?_⟩
      obtain ⟨_, _, n, hn, hk⟩ := C03_only_needed hw _ (requestedNodes_ok hw finalVars) _ _ c hc
      have : c.1 ∉ s.userNodes := by
        intro hu
        obtain ⟨_, n', hn', he⟩ := (h2 c.1).1 hu
        rw [hn] at hn'
        cases hn'
        exact hk he
      simp [this]
    · intro s' hex x hx
      obtain ⟨n, hn, hk⟩ := hfn x hx
      cases ho : (overrides.getD []).get? x with
      | some v => exact .inr ⟨v, rfl⟩
      | none =>
        refine .inl ?_
        rw [List.mem_filter] at hx
        obtain ⟨r, hr, hrn, hreach⟩ := (h1 x).1 hx.1
        have hneed : Needed fg.nodes (overrides.getD []) ((requestedNodes fg.nodes finalVars).map (·.name)) x := by
          clear ho hx hn hfn hnode
          induction hreach with
          | refl => exact .req ((mem_requested_names hw finalVars r).2 ⟨hr, hrn⟩)
          | step _ e ih =>
            obtain ⟨q1, nn, t, hgn, hty, _⟩ := e
            exact .param ih q1 hgn (Dict.mem_keys_iff.2 ⟨t, hty⟩)
        have := executeSubdag_all_called hw (requestedNodes_ok hw finalVars) hex hn hk ho hneed
        obtain ⟨c, hc, rfl⟩ := List.mem_map.1 this
        exact ⟨c.2, hc⟩

/-- The hook of a run of `top` is told the four functions, which are what is called. -/
example : (executionPath Sample.fg ["top"] (some [("x", 1)]) none).toOption = some ["top", "left", "base", "right"] ∧
    (executeSubdag Sample.fg.nodes (requestedNodes Sample.fg.nodes ["top"]) (Sample.fg.config.merge [("x", 1)]) []).state.calls.map
      (·.1) = ["base", "left", "right", "top"] := by decide

/-- C64 is violated for overridden nodes: the hook is told that `base` will be executed, but it is not. -/
theorem C64_violated_execution_path : ∃ (fg : FnGraph Unit Int) (finalVars : List Name) (ins ovr : Dict Name Int)
    (path : List Name) (s' : ExecState Int) (x : Name), DriverGraph fg ∧
    executionPath fg finalVars (some ins) (some ovr) = .ok path ∧
    executeSubdag fg.nodes (requestedNodes fg.nodes finalVars) (fg.config.merge ins) ovr = .ok s' ∧
    x ∈ path ∧ x ∉ s'.calls.map (·.1) :=
  ⟨Sample.fg, ["left"], [], [("base", 5)], _, _, "base", Sample.driverGraph, rfl, rfl, by decide, by decide⟩

end Verif
