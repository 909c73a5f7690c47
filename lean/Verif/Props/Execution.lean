import Verif.Proofs.Override
import Verif.Props.Sample

/-!
Property theorems C01-C08 and C11: in-memory execution.
Specification: `Den` (functional composition), `Needed`, `Absent`, `RunEdge` in `Verif.Spec`.
-/
namespace Verif
variable {T V : Type}

/-- A function graph as a driver holds it: well-formed, config names are input nodes.
(`C13`/`C14` prove this shape for every graph built from functions.) -/
structure DriverGraph (fg : FnGraph T V) : Prop where
  wf : WellFormed fg.nodes
  config_in : ∀ k ∈ fg.config.keys, ∃ n, fg.nodes.get? k = some n ∧ n.kind = .external

/-- The values available to a run: config and runtime inputs. -/
def FnGraph.given (fg : FnGraph T V) (inputs : Option (Dict Name V)) : Dict Name V :=
  fg.config.merge (inputs.getD [])

/-- The sample driver graph. -/
def Sample.fg : FnGraph Unit Int := ⟨Sample.graph, Sample.config⟩

theorem Sample.driverGraph : DriverGraph Sample.fg :=
  ⟨Sample.graph_wf, (createFunctionGraph_spec Sample.fns_fresh Sample.build_ok).2.1⟩

/-! ### C01 -/

/-- C01. If `Driver.execute` returns, exactly the requested names are returned, and each requested node has the value of
the functional composition; a requested input node for which nothing was supplied yields `None`, and a requested
name that is not a node yields the input of that name. -/
theorem C01_execute_sound {o : TypeOracle T V} {fg : FnGraph T V} (hg : DriverGraph fg)
    {finalVars : List Name} {inputs overrides : Option (Dict Name V)} (hin : (inputs.getD []).keys.Nodup)
    {out : Dict Name (Option V)} (h : driverExecute o fg finalVars inputs overrides = .ok out) :
    (∀ k, k ∈ out.keys ↔ k ∈ finalVars) ∧
    (∀ k ∈ finalVars, ∀ n, fg.nodes.get? k = some n →
      (∃ v, out.get? k = some (some v) ∧ Den fg.nodes (fg.given inputs) (overrides.getD []) k v) ∨
      (out.get? k = some none ∧ Absent fg.nodes (fg.given inputs) (overrides.getD []) k)) ∧
    (∀ k ∈ finalVars, fg.nodes.get? k = none →
      ∃ v, (inputs.getD []).get? k = some v ∧ out.get? k = some (some v)) := by
  obtain ⟨h1, s, hs, _⟩ := driverExecute_ok h
  obtain ⟨_, h2, h3⟩ := defaultExecutor_ok (g := fg.nodes) (config := fg.config) hg.wf h1
  refine ⟨h2, fun k hk n hn => ?_, fun k hk hn => ?_⟩
  rotate_left
  · have hout := defaultExecutor_nonnode (g := fg.nodes) (config := fg.config) hg.wf h1 k hk hn
    obtain ⟨s2, hs2, _⟩ := directionalDfs_spec (fg := fg) (next := upstreamNext fg inputs overrides)
      (upstream_closed (config := fg.config) hg.wf inputs overrides)
      (fun k hk => (hg.config_in k ((Dict.has_iff _ _).1 hk)).imp (fun _ h => h.1)) finalVars inputs
    unfold getUpstreamNodes at hs
    rw [hs2] at hs
    split at hs
    · rename_i hnil
      rw [List.filter_eq_nil_iff] at hnil
      have := hnil k hk
      have h1 : fg.nodes.has k = false := (Dict.has_eq_false_iff _ _).2 hn
      have h2 : fg.config.has k = false := by
        cases hc : fg.config.has k with
        | false => rfl
        | true =>
          obtain ⟨n, hn', _⟩ := hg.config_in k ((Dict.has_iff _ _).1 hc)
          rw [hn] at hn'; cases hn'
      simp only [h1, h2, Bool.or_self, Bool.not_false, Bool.true_and, Bool.not_eq_true, Bool.not_eq_false'] at this
      obtain ⟨v, hv⟩ := (Dict.has_eq_true_iff _ _).1 (by simpa using this)
      exact ⟨v, hv, by rw [hout, hv]⟩
    · cases hs
  rcases h3 k hk n hn with h | ⟨h, habs⟩
  · exact .inl h
  · right
    refine ⟨?_, habs⟩
    obtain ⟨_, _, _, hnone, _⟩ := habs
    rw [has_merge _ _ hin] at hnone
    rw [h, (Dict.has_eq_false_iff _ _).1 hnone.1]

example : driverExecute Sample.oracle Sample.fg ["top", "left"] (some [("x", 1)]) none
    = .ok [("top", some 16), ("left", some 4)] := by rfl

/-- An absent optional input, a config value and a name that is no node. -/
example : driverExecute Sample.oracle Sample.fg ["y", "c", "z"] (some [("z", 3)]) none
    = .ok [("y", none), ("c", some 7), ("z", some 3)] := by rfl

/-! ### C02 -/

/-- C02. No node function is invoked twice in one execution, whether it ends normally or with an exception. -/
theorem C02_at_most_once {g : Graph T V} (hw : WellFormed g)
    (nodes : List (Node T V)) (hnodes : ∀ n ∈ nodes, g.get? n.name = some n) (inputs overrides : Dict Name V) :
    ((executeSubdag g nodes inputs overrides).state.calls.map (·.1)).Nodup := by
  have h := executeSubdag_spec hw nodes hnodes inputs overrides
  revert h
  generalize executeSubdag g nodes inputs overrides = o
  intro h
  cases o with
  | ok s => exact h.1.calls_nodup
  | err e s => exact h.1.calls_nodup

/-- Non-trivial case: the diamond runs `base` once although both `left` and `right` use it. -/
example : (executeSubdag Sample.graph (requestedNodes Sample.graph ["top"]) [("x", 1)] []).state.calls.map (·.1)
    = ["base", "left", "right", "top"] := by decide

/-! ### C03 -/

/-- C03. Every invoked function belongs to a needed node, is not overridden, and is not an input. -/
theorem C03_only_needed {g : Graph T V} (hw : WellFormed g)
    (nodes : List (Node T V)) (hnodes : ∀ n ∈ nodes, g.get? n.name = some n) (inputs overrides : Dict Name V) :
    ∀ c ∈ (executeSubdag g nodes inputs overrides).state.calls,
      Needed g overrides (nodes.map (·.name)) c.1 ∧ overrides.get? c.1 = none ∧
      ∃ n, g.get? c.1 = some n ∧ n.kind ≠ .external := by
  have h := executeSubdag_spec hw nodes hnodes inputs overrides
  revert h
  generalize executeSubdag g nodes inputs overrides = o
  intro h c hc
  have hok : CallOk g inputs overrides (nodes.map (·.name)) c := by
    cases o with
    | ok s => exact h.1.calls_ok c hc
    | err e s => exact h.1.calls_ok c hc
  obtain ⟨h1, h2, n, h3, h4, _⟩ := hok
  exact ⟨h1, h2, n, h3, h4⟩

/-- With `base` overridden, its function is not run and `x` is not needed. -/
example : (executeSubdag Sample.graph (requestedNodes Sample.graph ["top"]) [] [("base", 5)]).state.calls.map (·.1)
    = ["left", "right", "top"] := by decide

/-! ### C04 -/

/-- C04. If every requested node has a value by functional composition (or is an input that is not supplied), the
execution returns, with exactly these values. -/
theorem C04_execute_complete {fg : FnGraph T V} (hg : DriverGraph fg)
    {finalVars : List Name} {inputs overrides : Dict Name V}
    (hdisj : ∀ k ∈ inputs.keys, k ∉ fg.config.keys)
    (hall : ∀ k ∈ finalVars, ∀ n, fg.nodes.get? k = some n →
      (∃ v, Den fg.nodes (fg.config.merge inputs) overrides k v) ∨
        Absent fg.nodes (fg.config.merge inputs) overrides k) :
    ∃ out, defaultExecutorExecute fg finalVars overrides inputs = .ok out ∧
      ∀ k ∈ finalVars, ∀ v, Den fg.nodes (fg.config.merge inputs) overrides k v → out.get? k = some (some v) := by
  obtain ⟨out, h⟩ := defaultExecutor_complete (config := fg.config) hg.wf hdisj hall
  refine ⟨out, h, fun k hk v hv => ?_⟩
  obtain ⟨_, _, h3⟩ := defaultExecutor_ok (g := fg.nodes) (config := fg.config) hg.wf h
  have hn : ∃ n, fg.nodes.get? k = some n := by cases hv <;> exact ⟨_, by assumption⟩
  obtain ⟨n, hn⟩ := hn
  rcases h3 k hk n hn with ⟨w, hw, hd⟩ | ⟨_, habs⟩
  · rw [hw, hd.det hv]
  · exact absurd hv habs.not_den

/-- The hypothesis is met by the sample for `top` with `x = 1` (obtained from a run, by C01). -/
example : ∃ v, Den Sample.graph (Sample.config.merge [("x", 1)]) [] "top" v := by
  have h : driverExecute Sample.oracle Sample.fg ["top"] (some [("x", 1)]) none = .ok [("top", some 16)] := rfl
  have hn : ∃ n, Sample.graph.get? "top" = some n := Dict.mem_keys_iff.1 (by decide)
  obtain ⟨n, hn⟩ := hn
  rcases (C01_execute_sound Sample.driverGraph (by decide) h).2.1 "top" (by simp) n hn with ⟨v, _, hd⟩ | ⟨h', _⟩
  · exact ⟨v, hd⟩
  · exact absurd h' (by decide)

/-- C04 (order independence). Two successful executions with the same inputs and overrides agree on every name that both
request, whatever the order and the other requested names. -/
theorem C04_request_order_independent {o : TypeOracle T V} {fg : FnGraph T V} (hg : DriverGraph fg)
    {l l' : List Name} {inputs overrides : Option (Dict Name V)} (hin : (inputs.getD []).keys.Nodup)
    {out out' : Dict Name (Option V)}
    (h : driverExecute o fg l inputs overrides = .ok out)
    (h' : driverExecute o fg l' inputs overrides = .ok out') (k : Name) (hk : k ∈ l) (hk' : k ∈ l')
    {n : Node T V} (hn : fg.nodes.get? k = some n) :
    out.get? k = out'.get? k := by
  rcases (C01_execute_sound hg hin h).2.1 k hk n hn with ⟨v, h1, h2⟩ | ⟨h1, h2⟩
  · rcases (C01_execute_sound hg hin h').2.1 k hk' n hn with ⟨v', h1', h2'⟩ | ⟨_, h2'⟩
    · rw [h1, h1', h2.det h2']
    · exact absurd h2 h2'.not_den
  · rcases (C01_execute_sound hg hin h').2.1 k hk' n hn with ⟨v', _, h2'⟩ | ⟨h1', _⟩
    · exact absurd h2' h2.not_den
    · rw [h1, h1']

example : driverExecute Sample.oracle Sample.fg ["top", "left"] (some [("x", 1)]) none
      = .ok [("top", some 16), ("left", some 4)] ∧
    driverExecute Sample.oracle Sample.fg ["right", "left"] (some [("x", 1)]) none
      = .ok [("right", some 12), ("left", some 4)] := ⟨rfl, rfl⟩

/-- C04 (subset). If a request succeeds, so does every request for a part of it in any order, with the same values. -/
theorem C04_subset_succeeds {o : TypeOracle T V} {fg : FnGraph T V} (hg : DriverGraph fg)
    {l l' : List Name} {inputs overrides : Option (Dict Name V)} (hin : (inputs.getD []).keys.Nodup)
    {out : Dict Name (Option V)} (hsub : ∀ k ∈ l', k ∈ l)
    (h : driverExecute o fg l inputs overrides = .ok out) :
    ∃ out', driverExecute o fg l' inputs overrides = .ok out' ∧ ∀ k ∈ l', out'.get? k = out.get? k := by
  have hw := hg.wf
  have hcl := upstream_closed (config := fg.config) hw inputs overrides
  have hcf : ∀ k, fg.config.has k = true → ∃ n, fg.nodes.get? k = some n :=
    fun k hk => (hg.config_in k ((Dict.has_iff _ _).1 hk)).imp (fun _ h => h.1)
  obtain ⟨s1, hs1, hm1, hu1, _⟩ := directionalDfs_spec (fg := fg) (next := upstreamNext fg inputs overrides) hcl hcf l inputs
  obtain ⟨s2, hs2, hm2, hu2, _⟩ := directionalDfs_spec (fg := fg) (next := upstreamNext fg inputs overrides) hcl hcf l' inputs
  have hsnodes : ∀ x ∈ s2.nodes, x ∈ s1.nodes := by
    intro x hx
    rw [hm2] at hx; rw [hm1]
    obtain ⟨r, hr, h⟩ := hx
    exact ⟨r, hsub r hr, h⟩
  have hsuser : ∀ x ∈ s2.userNodes, x ∈ s1.userNodes := by
    intro x hx
    rw [hu2] at hx; rw [hu1]
    exact ⟨hsnodes x hx.1, hx.2⟩
  obtain ⟨hex, _⟩ := driverExecute_ok h
  obtain ⟨hdisj, _, hval⟩ := defaultExecutor_ok (g := fg.nodes) (config := fg.config) hw hex
  obtain ⟨out', hex'⟩ := defaultExecutor_complete (g := fg.nodes) (config := fg.config) (finalVars := l')
    (overrides := overrides.getD []) (inputs := inputs.getD []) hw hdisj (by
      intro k hk n hn
      rcases hval k (hsub k hk) n hn with ⟨v, _, hd⟩ | ⟨_, ha⟩
      · exact .inl ⟨v, hd⟩
      · exact .inr ha)
  have hrun : driverExecute o fg l' inputs overrides = .ok out' := by
    unfold driverExecute getUpstreamNodes at h ⊢
    rw [hs1] at h
    rw [hs2]
    split at h
    · cases h
    · rename_i s heq
      split at heq
      · rename_i hnil
        cases heq
        have hnil' : l'.filter (fun v => !(fg.nodes.has v || fg.config.has v) && !((inputs.getD []).has v)) = [] := by
          rw [List.filter_eq_nil_iff] at hnil ⊢
          exact fun k hk => hnil k (hsub k hk)
        rw [if_pos hnil']
        simp only
        split at h
        · cases h
        · rename_i hv
          have hv' : validateInputs o fg s2.userNodes inputs s2.nodes = .ok () := by
            unfold validateInputs at hv ⊢
            cases hc : combineConfigAndInputs fg.config (inputs.getD []) with
            | error e => rw [hc] at hv; cases hv
            | ok all =>
              rw [hc] at hv
              simp only at hv ⊢
              split at hv
              · rename_i hn1
                rw [if_pos]
                rw [List.filterMap_eq_nil_iff] at hn1 ⊢
                intro u hu
                have := hn1 u (hsuser u hu)
                cases hun : fg.nodes.get? u with
                | none => simp only
                | some un =>
                  simp only [hun] at this ⊢
                  cases hnone : all.get? u with
                  | none =>
                    simp only [hnone] at this ⊢
                    have hnr : requiredByAnything fg.nodes un s1.nodes = false := by
                      cases hb : requiredByAnything fg.nodes un s1.nodes with
                      | false => rfl
                      | true => rw [if_pos hb] at this; cases this
                    have : requiredByAnything fg.nodes un s2.nodes = false := by
                      unfold requiredByAnything at hnr ⊢
                      rw [List.any_eq_false] at hnr ⊢
                      intro m hm
                      have := hnr m hm
                      intro hbad
                      apply this
                      rw [Bool.and_eq_true] at hbad ⊢
                      exact ⟨by rw [List.contains_iff_mem]; exact hsnodes m (List.contains_iff_mem.1 hbad.1), hbad.2⟩
                    rw [this]; rfl
                  | some v =>
                    simp only [hnone] at this ⊢; exact this
              · cases hv
          rw [hv']
          simp only
          split at h
          · cases h
          · rename_i hd
            have hd' : defaultExecutorValidate fg.nodes (s2.nodes ++ s2.userNodes) = .ok () := by
              unfold defaultExecutorValidate at hd ⊢
              split at hd
              · cases hd
              · rename_i hf
                rw [List.find?_eq_none] at hf
                split
                · rename_i x hx
                  have hx1 := List.mem_of_find?_eq_some hx
                  have hx2 := List.find?_some hx
                  refine absurd hx2 (hf x ?_)
                  rcases List.mem_append.1 hx1 with hx | hx
                  · exact List.mem_append.2 (.inl (hsnodes x hx))
                  · exact List.mem_append.2 (.inr (hsuser x hx))
                · rfl
            rw [hd']
            exact hex'
      · cases heq
  refine ⟨out', hrun, fun k hk => ?_⟩
  cases hn : fg.nodes.get? k with
  | some n => exact C04_request_order_independent hg hin hrun h k hk (hsub k hk) hn
  | none =>
    rw [defaultExecutor_nonnode (g := fg.nodes) (config := fg.config) hw hex k (hsub k hk) hn,
      defaultExecutor_nonnode (g := fg.nodes) (config := fg.config) hw hex' k hk hn]

example : (∀ k ∈ ["left"], k ∈ ["top", "left"]) ∧
    driverExecute Sample.oracle Sample.fg ["left"] (some [("x", 1)]) none = .ok [("left", some 4)] := ⟨by simp, rfl⟩

/-! ### C05 -/

/-- C05. Executing with `n` overridden by `v` gives the same outcome (same returned dict, and success in the same cases) as
executing, without that override, the graph built from the same functions with `n` redefined as a parameterless function
returning `v`.  The requested names must be nodes of the rebuilt graph (inputs used only by `n` are gone there). -/
theorem C05_override_eq_constant {tm : T → T → Bool} {any : T} {config : Dict Name V} {allow allow' : Bool}
    {fns fns' : List (Node T V)} (hf : ∀ n ∈ fns, Fresh n) (hf' : ∀ n ∈ fns', Fresh n) {g g' : Graph T V}
    (h : createFunctionGraph tm any config allow fns = .ok g)
    (h' : createFunctionGraph tm any config allow' fns' = .ok g')
    {n : Name} {v : V} (hnc : n ∉ config.keys) (hng : n ∈ g.keys)
    (hsame : ∀ k, k ≠ n → lastDef fns' k = lastDef fns k)
    {cn : Node T V} (hcn : lastDef fns' n = some cn) (hemp : cn.inputTypes = []) (hfn : ∀ kw, cn.fn kw = .ok v)
    {finalVars : List Name} (hfv : ∀ k ∈ finalVars, k ∈ g'.keys)
    {inputs overrides : Dict Name V} (hov : n ∉ overrides.keys) (out : Dict Name (Option V)) :
    defaultExecutorExecute ⟨g, config⟩ finalVars (overrides.set n v) inputs = .ok out ↔
      defaultExecutorExecute ⟨g', config⟩ finalVars overrides inputs = .ok out := by
  have hr := constReplaced_of_build hf hf' h h' hnc hsame hcn hemp hfn
  have hw := (createFunctionGraph_spec hf h).1
  have hw' := (createFunctionGraph_spec hf' h').1
  have hin : ∃ m, g.get? n = some m := Dict.mem_keys_iff.1 hng
  have hovn : overrides.get? n = none := (Dict.get?_eq_none_iff _ _).2 hov
  have hboth : ∀ k ∈ finalVars, (∃ n, g.get? k = some n) ∧ ∃ n, g'.get? k = some n := by
    intro k hk
    obtain ⟨kn, hkn⟩ := Dict.mem_keys_iff.1 (hfv k hk)
    refine ⟨?_, kn, hkn⟩
    by_cases hkk : k = n
    · subst hkk; exact hin
    · obtain ⟨m, hm, _⟩ := hr.same k kn hkk hkn
      exact ⟨m, hm⟩
  constructor
  · intro he
    refine executor_transfer hw hw' hboth ?_ ?_ he
    · intro k hk w hd
      obtain ⟨kn, hkn⟩ := (hboth k hk).2
      exact (hr.den hw' hin hovn hkn).2 hd
    · intro k hk ha
      obtain ⟨kn, hkn⟩ := (hboth k hk).2
      exact (hr.absent hkn).2 ha
  · intro he
    refine executor_transfer hw' hw (fun k hk => ⟨(hboth k hk).2, (hboth k hk).1⟩) ?_ ?_ he
    · intro k hk w hd
      obtain ⟨kn, hkn⟩ := (hboth k hk).2
      exact (hr.den hw' hin hovn hkn).1 hd
    · intro k hk ha
      obtain ⟨kn, hkn⟩ := (hboth k hk).2
      exact (hr.absent hkn).1 ha

/-- The sample with `base` redefined as a constant. -/
def Sample.fnsConst : List (Node Unit Int) :=
  Sample.fnNode "base" [] (fun _ => .ok 5) :: Sample.fns.tail

/-- The hypotheses of C05 are met by the sample with `base` overridden by `5`, and both sides return `25`. -/
example : (∀ n ∈ Sample.fnsConst, Fresh n) ∧ "base" ∉ Sample.config.keys ∧ "base" ∈ Sample.graph.keys ∧
    (∀ k, k ≠ "base" → lastDef Sample.fnsConst k = lastDef Sample.fns k) ∧
    (∃ g', createFunctionGraph Sample.tm () Sample.config false Sample.fnsConst = .ok g' ∧ "top" ∈ g'.keys ∧
      defaultExecutorExecute ⟨g', Sample.config⟩ ["top"] [] [] = .ok [("top", some 25)]) ∧
    defaultExecutorExecute Sample.fg ["top"] [("base", 5)] [] = .ok [("top", some 25)] := by
  refine ⟨?_, by decide, by decide, ?_, ⟨_, rfl, by decide, rfl⟩, rfl⟩
  · intro n hn
    simp only [Sample.fnsConst, Sample.fns, List.tail_cons, List.mem_cons, List.not_mem_nil, or_false] at hn
    rcases hn with rfl | rfl | rfl | rfl <;> exact ⟨by decide, rfl, rfl, by decide⟩
  · intro k hk
    simp [lastDef, Sample.fnsConst, Sample.fns, Sample.fnNode, List.find?_cons, Ne.symm hk]

/-! ### C08 -/

/-- C08. In every function call, each parameter is either passed with its functional value, or is omitted, and then it
is optional and refers to an input that was not supplied. Nothing else is passed. -/
theorem C08_arguments {g : Graph T V} (hw : WellFormed g)
    (nodes : List (Node T V)) (hnodes : ∀ n ∈ nodes, g.get? n.name = some n) (inputs overrides : Dict Name V) :
    ∀ c ∈ (executeSubdag g nodes inputs overrides).state.calls, ∃ n, g.get? c.1 = some n ∧
      (∀ d t, (d, t) ∈ n.inputTypes →
        (∃ w, c.2.get? d = some w ∧ Den g inputs overrides d w) ∨
        (c.2.get? d = none ∧ t.2 = .optional ∧ Absent g inputs overrides d)) ∧
      (∀ d ∈ c.2.keys, d ∈ n.inputTypes.keys) := by
  have h := executeSubdag_spec hw nodes hnodes inputs overrides
  revert h
  generalize executeSubdag g nodes inputs overrides = o
  intro h c hc
  have hok : CallOk g inputs overrides (nodes.map (·.name)) c := by
    cases o with
    | ok s => exact h.1.calls_ok c hc
    | err e s => exact h.1.calls_ok c hc
  obtain ⟨_, _, n, h3, _, val, hv1, hv2, hkw⟩ := hok
  refine ⟨n, h3, ?_, ?_⟩
  · intro d t hdt
    have hk : d ∈ n.inputTypes.keys := mem_keys_of_mem hdt
    rw [hkw, mem_argsFor_get, if_pos hk]
    cases hvd : val d with
    | some w => exact .inl ⟨w, rfl, hv1 d w hk hvd⟩
    | none =>
      obtain ⟨h1, h2⟩ := hv2 d t hdt hvd
      exact .inr ⟨rfl, h1, h2⟩
  · intro d hd
    obtain ⟨w, hw'⟩ := Dict.mem_keys_iff.1 hd
    rw [hkw, mem_argsFor_get] at hw'
    by_cases hk : d ∈ n.inputTypes.keys
    · exact hk
    · rw [if_neg hk] at hw'; cases hw'

/-- In the sample, `right` is called without `y` when `y` is not supplied and with it when it is. -/
example : (executeSubdag Sample.graph (requestedNodes Sample.graph ["right"]) [("x", 1)] []).state.calls
      = [("base", [("x", 1)]), ("right", [("base", 2)])] ∧
    (executeSubdag Sample.graph (requestedNodes Sample.graph ["right"]) [("x", 1), ("y", 3)] []).state.calls
      = [("base", [("x", 1)]), ("right", [("base", 2), ("y", 3)])] := by decide

/-! ### C06, C07 -/

/-- C06. If pre-execution validation passes, the run never fails with a missing input. -/
theorem C06_validated_never_missing {o : TypeOracle T V} {fg : FnGraph T V} (hg : DriverGraph fg)
    {finalVars : List Name} {inputs overrides : Option (Dict Name V)} (hin : (inputs.getD []).keys.Nodup)
    (m : Name) : driverExecute o fg finalVars inputs overrides ≠ .error (.exec (.missing m)) := by
  intro h
  unfold driverExecute at h
  split at h
  · cases h
  · rename_i s hs
    split at h
    · rename_i e he
      have : e ≠ .exec (.missing m) := by
        unfold validateInputs at he
        split at he
        · cases he; simp
        · simp only at he
          split at he
          · cases he
          · cases he; simp
      exact this (by simpa using h)
    · rename_i hv
      split at h
      · rename_i e he
        unfold defaultExecutorValidate at he
        split at he
        · cases he; simp at h
        · cases he
      · exact validated_not_missing (g := fg.nodes) (config := fg.config) hg.wf
          (fun k hk => (hg.config_in k hk).imp (fun _ h => h.1)) hin hs hv m h

/-- The missing input is reported by validation, not by the run. -/
example : driverExecute Sample.oracle Sample.fg ["top"] (some []) none
    = .error (.validation [.requiredMissing "x"]) := by rfl

/-- If all requested nodes are resolvable, so is everything needed. -/
theorem needed_resolvable {g : Graph T V} (hw : WellFormed g) {given ovr : Dict Name V} {req : List Name}
    (hall : ∀ k ∈ req, (∃ v, Den g given ovr k v) ∨ Absent g given ovr k) {k : Name}
    (h : Needed g ovr req k) : (∃ v, Den g given ovr k v) ∨ Absent g given ovr k := by
  induction h with
  | req hk => exact hall _ hk
  | param hm hov hg hd ih =>
    rename_i m mn d
    rcases ih with ⟨v, hv⟩ | ⟨n, hn, hext, _⟩
    · cases hv with
      | override _ h => rw [hov] at h; cases h
      | input h1 _ h3 _ =>
        rw [hg] at h1; cases h1
        rw [hw.external_no_params hg h3] at hd; simp [Dict.keys] at hd
      | call val h1 _ _ h4 h5 _ =>
        rw [hg] at h1; cases h1
        cases hvd : val d with
        | some w => exact .inl ⟨w, h4 d w hd hvd⟩
        | none =>
          obtain ⟨p, hp, rfl⟩ := List.mem_map.1 hd
          exact .inr (h5 p.1 p.2 hp hvd).2
    · rw [hg] at hn; cases hn
      rw [hw.external_no_params hg hext] at hd; simp [Dict.keys] at hd

/-- Everything planned is needed. -/
theorem planned_needed {g : Graph T V} {config : Dict Name V} (hw : WellFormed g) {req : List Name}
    (inputs overrides : Option (Dict Name V)) (hin : (inputs.getD []).keys.Nodup) {r k : Name} (hr : r ∈ req)
    (h : Reaches (nextOf g (upstreamNext ⟨g, config⟩ inputs overrides)) r k) :
    Needed g (overrides.getD []) req k := by
  induction h with
  | refl => exact .req hr
  | step _ e ih =>
    cases inputs with
    | none =>
      obtain ⟨h1, n, h2, h3⟩ := (nextOf_upstream_none hw overrides _ _).1 e
      exact .param ih h1 h2 h3
    | some ins =>
      obtain ⟨h1, n, t, h2, h3, _⟩ := (nextOf_upstream_some hw hin overrides _ _).1 e
      exact .param ih h1 h2 (Dict.mem_keys_iff.2 ⟨t, h3⟩)

/-- C07 (partial). Validation reports a missing input `m` only if the execution cannot succeed, provided that neither `m`
nor a node consuming `m` is overridden.  Missing for the full property: see `C07_violated`. -/
theorem C07_rejection_justified_partial {o : TypeOracle T V} {fg : FnGraph T V} (hg : DriverGraph fg)
    {finalVars : List Name} {inputs overrides : Option (Dict Name V)} (hin : (inputs.getD []).keys.Nodup)
    {es : List ValidationErr} {m : Name}
    (h : driverExecute o fg finalVars inputs overrides = .error (.validation es))
    (hm : ValidationErr.requiredMissing m ∈ es)
    (hov : ∀ k ∈ (overrides.getD []).keys, k ≠ m ∧ ¬ DependsOn fg.nodes k m) :
    ∀ out, defaultExecutorExecute fg finalVars (overrides.getD []) (inputs.getD []) ≠ .ok out := by
  intro out hok
  have hw := hg.wf
  obtain ⟨_, _, h3⟩ := defaultExecutor_ok (g := fg.nodes) (config := fg.config) hw hok
  unfold driverExecute at h
  split at h
  · cases h
  · rename_i s hs
    obtain ⟨s2, hs2, hmem, huser, _⟩ := directionalDfs_spec (fg := fg)
        (next := upstreamNext fg inputs overrides)
        (upstream_closed (config := fg.config) hw inputs overrides)
        (fun k hk => (hg.config_in k ((Dict.has_iff _ _).1 hk)).imp (fun _ h => h.1)) finalVars inputs
    unfold getUpstreamNodes at hs
    rw [hs2] at hs
    split at hs
    · cases hs
      split at h
      · rename_i e he
        have hee : e = .validation es := by simpa using h
        subst hee
        unfold validateInputs at he
        split at he
        · cases he
        · rename_i all hcomb
          obtain ⟨rfl, _⟩ := combine_ok hcomb
          simp only at he
          split at he
          · cases he
          · have hes := he
            simp only [Except.error.injEq, DriverErr.validation.injEq] at hes
            subst hes
            obtain ⟨u, hu, hue⟩ := List.mem_filterMap.1 hm
            split at hue
            · cases hue
            · rename_i un hun
              split at hue
              · rename_i hnone
                split at hue
                · rename_i hreq
                  simp only [Option.some.injEq, ValidationErr.requiredMissing.injEq] at hue
                  subst hue
                  unfold requiredByAnything at hreq
                  rw [List.any_eq_true] at hreq
                  obtain ⟨p, hp, hp2⟩ := hreq
                  simp only [Bool.and_eq_true, List.contains_iff_mem] at hp2
                  obtain ⟨hpn, hpr⟩ := hp2
                  cases hpg : fg.nodes.get? p with
                  | none => simp [hpg] at hpr
                  | some pn =>
                    simp only [hpg, hw.name_eq hun] at hpr
                    split at hpr
                    · rename_i ty hty
                      have hpd : DependsOn fg.nodes p u := ⟨pn, hpg, Dict.mem_keys_iff.2 ⟨_, hty⟩⟩
                      have hpov : (overrides.getD []).get? p = none := by
                        rw [Dict.get?_eq_none_iff]
                        intro hin'; exact (hov p hin').2 hpd
                      have huov : (overrides.getD []).get? u = none := by
                        rw [Dict.get?_eq_none_iff]
                        intro hin'; exact (hov u hin').1 rfl
                      have huext : un.kind = .external := by
                        obtain ⟨_, n', hn', hk'⟩ := (huser u).1 hu
                        rw [hun] at hn'; cases hn'; exact hk'
                      -- all requested names that are nodes
                      obtain ⟨r, hr, ⟨rn, hrn⟩, hreach⟩ := (hmem p).1 hpn
                      have hneed : Needed fg.nodes (overrides.getD [])
                          (finalVars.filter (fun k => fg.nodes.has k)) p :=
                        planned_needed (config := fg.config) hw inputs overrides hin
                          (List.mem_filter.2 ⟨hr, (Dict.has_eq_true_iff _ _).2 ⟨rn, hrn⟩⟩) hreach
                      have hres := needed_resolvable (given := fg.config.merge (inputs.getD [])) hw (by
                        intro k hk
                        obtain ⟨hk1, hk2⟩ := List.mem_filter.1 hk
                        obtain ⟨n, hn⟩ := (Dict.has_eq_true_iff _ _).1 hk2
                        rcases h3 k hk1 n hn with ⟨v, _, hd⟩ | ⟨_, ha⟩
                        · exact .inl ⟨v, hd⟩
                        · exact .inr ha) hneed
                      have huabs : Absent fg.nodes (fg.config.merge (inputs.getD [])) (overrides.getD []) u :=
                        ⟨un, hun, huext, hnone, huov⟩
                      rcases hres with ⟨v, hv⟩ | ⟨n, hn, hext, _⟩
                      · cases hv with
                        | override _ h => rw [hpov] at h; cases h
                        | input h1 _ h3 _ =>
                          rw [hpg] at h1; cases h1
                          rw [hw.external_no_params hpg h3] at hty; simp at hty
                        | call val h1 _ _ h4 h5 _ =>
                          rw [hpg] at h1; cases h1
                          cases hvd : val u with
                          | some w => exact huabs.not_den (h4 u w (Dict.mem_keys_iff.2 ⟨_, hty⟩) hvd)
                          | none =>
                            have := (h5 u _ (Dict.get?_mem hty) hvd).1
                            cases this
                      · rw [hpg] at hn; cases hn
                        rw [hw.external_no_params hpg hext] at hty; simp at hty
                    · cases hpr
                · cases hue
              · split at hue
                · cases hue
                · cases hue
      · split at h
        · rename_i e he
          unfold defaultExecutorValidate at he
          split at he
          · cases he; cases h
          · cases he
        · rw [hok] at h; cases h
    · cases hs

/-- The hypotheses are met: without overrides, `x` is reported missing and there is no way to run. -/
example : driverExecute Sample.oracle Sample.fg ["left"] (some []) none
      = .error (.validation [.requiredMissing "x"]) ∧
    ∀ k ∈ ((none : Option (Dict Name Int)).getD []).keys, k ≠ "x" ∧ ¬ DependsOn Sample.fg.nodes k "x" :=
  ⟨rfl, by simp [Dict.keys]⟩

/-- C07 is violated: supplying the required input `x` through `overrides` is rejected by validation although the
execution itself succeeds with the right value. -/
theorem C07_violated : ∃ (o : TypeOracle Unit Int) (fg : FnGraph Unit Int) (finalVars : List Name)
    (inputs overrides : Dict Name Int) (m : Name) (out : Dict Name (Option Int)), DriverGraph fg ∧
    driverExecute o fg finalVars (some inputs) (some overrides) = .error (.validation [.requiredMissing m]) ∧
    defaultExecutorExecute fg finalVars overrides inputs = .ok out :=
  ⟨Sample.oracle, Sample.fg, ["left"], [], [("x", 5)], "x", [("left", some 12)], Sample.driverGraph, rfl, rfl⟩

/-! ### C11 -/

/-- C11 (partial). With inputs given, the planned set is exactly the set of nodes reachable from the requested nodes along
edges that matter, its user nodes are exactly its input nodes; every function invoked by the execution, successful or not, is
planned, and every name for which a successful execution stores a value is planned or is an input node supplied only through
`overrides` (the exception is real: `C11_violated`). -/
theorem C11_plan_exact_partial {fg : FnGraph T V} (hg : DriverGraph fg)
    {finalVars : List Name} {ins : Dict Name V} {overrides : Option (Dict Name V)} (hin : ins.keys.Nodup)
    {s : Visited} (hs : getUpstreamNodes fg finalVars (some ins) overrides = .ok s) :
    (∀ x, x ∈ s.nodes ↔ ∃ r ∈ finalVars, (∃ n, fg.nodes.get? r = some n) ∧
      Reaches (RunEdge fg.nodes (fg.config.merge ins) (overrides.getD [])) r x) ∧
    (∀ x, x ∈ s.userNodes ↔ x ∈ s.nodes ∧ ∃ n, fg.nodes.get? x = some n ∧ n.kind = .external) ∧
    (∀ c ∈ (executeSubdag fg.nodes (requestedNodes fg.nodes finalVars) (fg.config.merge ins)
        (overrides.getD [])).state.calls, c.1 ∈ s.nodes) ∧
    (∀ s', executeSubdag fg.nodes (requestedNodes fg.nodes finalVars) (fg.config.merge ins) (overrides.getD [])
        = .ok s' →
      ∀ x ∈ s'.stored, x ∈ s.nodes ∨
        (∃ n, fg.nodes.get? x = some n ∧ n.kind = .external ∧ (fg.config.merge ins).get? x = none)) := by
  have hw := hg.wf
  obtain ⟨s2, hs2, hmem, huser, _⟩ := directionalDfs_spec (fg := fg)
    (next := upstreamNext fg (some ins) overrides)
    (upstream_closed (config := fg.config) hw (some ins) overrides)
    (fun k hk => (hg.config_in k ((Dict.has_iff _ _).1 hk)).imp (fun _ h => h.1)) finalVars (some ins)
  unfold getUpstreamNodes at hs
  rw [hs2] at hs
  split at hs
  · cases hs
    have hiff : ∀ x, x ∈ s.nodes ↔ ∃ r ∈ finalVars, (∃ n, fg.nodes.get? r = some n) ∧
        Reaches (RunEdge fg.nodes (fg.config.merge ins) (overrides.getD [])) r x := by
      intro x
      rw [hmem]
      constructor
      · rintro ⟨r, hr, hrn, h⟩
        exact ⟨r, hr, hrn, h.mono (fun a b e => (nextOf_upstream_some (config := fg.config) hw hin overrides a b).1 e)⟩
      · rintro ⟨r, hr, hrn, h⟩
        exact ⟨r, hr, hrn, h.mono (fun a b e => (nextOf_upstream_some (config := fg.config) hw hin overrides a b).2 e)⟩
    have hneed : ∀ x, Needed fg.nodes (overrides.getD []) ((requestedNodes fg.nodes finalVars).map (·.name)) x →
        x ∈ s.nodes ∨ (∃ n, fg.nodes.get? x = some n ∧ n.kind = .external ∧ (fg.config.merge ins).get? x = none) := by
      intro x hx
      rcases hx.planned hw (given := fg.config.merge ins) with ⟨r, hr, hreach⟩ | h
      · obtain ⟨h1, h2⟩ := (mem_requested_names hw finalVars r).1 hr
        exact .inl ((hiff x).2 ⟨r, h1, h2, hreach⟩)
      · exact .inr h
    refine ⟨hiff, huser, ?_, ?_⟩
    · intro c hc
      obtain ⟨h1, _, n, h2, h3⟩ := C03_only_needed hw _ (requestedNodes_ok hw finalVars) _ _ c hc
      rcases hneed _ h1 with h | ⟨n', hn', he, _⟩
      · exact h
      · rw [h2] at hn'; cases hn'; exact absurd he h3
    · intro s' hex x hx
      have hsub := executeSubdag_spec hw (requestedNodes fg.nodes finalVars)
        (requestedNodes_ok hw finalVars) (fg.config.merge ins) (overrides.getD [])
      rw [hex] at hsub
      exact hneed x (hsub.1.needed x hx)
  · cases hs

/-- The plan of `right` without `y` leaves `y` out, with `y` it contains it. -/
example : (getUpstreamNodes Sample.fg ["right"] (some [("x", 1)]) none).state.nodes = ["right", "base", "x"] ∧
    (getUpstreamNodes Sample.fg ["right"] (some [("x", 1), ("y", 2)]) none).state.nodes
      = ["right", "base", "x", "y"] := by decide

/-- C11 is violated for an optional input supplied only through `overrides`: it is used by the run but not planned. -/
theorem C11_violated : ∃ (fg : FnGraph Unit Int) (finalVars : List Name) (ins ovr : Dict Name Int) (s : Visited)
    (s' : ExecState Int) (x : Name), DriverGraph fg ∧
    getUpstreamNodes fg finalVars (some ins) (some ovr) = .ok s ∧
    executeSubdag fg.nodes (requestedNodes fg.nodes finalVars) (fg.config.merge ins) ovr = .ok s' ∧
    x ∈ s'.stored ∧ x ∉ s.nodes :=
  ⟨Sample.fg, ["right"], [("x", 1)], [("y", 2)], _, _, "y", Sample.driverGraph, rfl, rfl, by decide, by decide⟩

end Verif
