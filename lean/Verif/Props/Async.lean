import Verif.Proofs.Async
import Verif.Props.Execution

/-! Property C47: asynchronous execution. -/
namespace Verif
variable {T V : Type}

theorem executeSubdag_calls {g : Graph T V} (hw : WellFormed g) {inputs overrides : Dict Name V} {nodes : List (Node T V)}
    (hnodes : ∀ n ∈ nodes, g.get? n.name = some n) {s : ExecState V} (h : executeSubdag g nodes inputs overrides = .ok s)
    {k : Name} {n : Node T V} (hk : g.get? k = some n) (hf : n.kind ≠ .external) (ho : overrides.get? k = none)
    (hneed : Needed g overrides (nodes.map (·.name)) k) : k ∈ s.calls.map (·.1) := by
  have h1 := executeWith_stateless (fun n : Node T V => n.fn) g nodes inputs overrides ()
  have h2 : Graph.withFn (fun n : Node T V => n.fn) g = g := by
    unfold Graph.withFn
    exact (List.map_congr_left (g := id) (fun p _ => rfl)).trans (List.map_id g)
  have h3 : nodes.map (Node.withFn (fun n : Node T V => n.fn)) = nodes :=
    (List.map_congr_left (g := id) (fun p _ => rfl)).trans (List.map_id nodes)
  rw [h2, h3, h] at h1
  exact executeWith_calls hw hnodes h1 hk hf ho hneed

theorem awaited_spec (computed : Dict Name (AVal V)) (l : List Name) :
    (awaited computed l).keys.Nodup ∧ ∀ k, (awaited computed l).get? k = if k ∈ l then computed.get? k else none := by
  have key : ∀ (l : List Name) (acc : Dict Name (AVal V)), acc.keys.Nodup →
      (l.foldl (fun d k => match computed.get? k with | some a => d.set k a | none => d) acc).keys.Nodup ∧
      ∀ k, (l.foldl (fun d k => match computed.get? k with | some a => d.set k a | none => d) acc).get? k =
        if k ∈ l then (computed.get? k).or (acc.get? k) else acc.get? k := by
    intro l
    induction l with
    | nil => intro acc h; exact ⟨h, by simp⟩
    | cons a l ih =>
      intro acc h
      rw [List.foldl_cons]
      cases hc : computed.get? a with
      | none =>
        obtain ⟨h1, h2⟩ := ih acc h
        refine ⟨h1, fun k => ?_⟩
        rw [h2]
        by_cases hk : k = a
        · subst hk; simp [hc]
        · simp [hk]
      | some x =>
        obtain ⟨h1, h2⟩ := ih (acc.set a x) (Dict.keys_set_nodup h a x)
        refine ⟨h1, fun k => ?_⟩
        rw [h2, Dict.get?_set]
        by_cases hk : a = k
        · subst hk; simp [hc]
        · simp [hk, Ne.symm hk]
  obtain ⟨h1, h2⟩ := key l [] (by simp [Dict.keys])
  refine ⟨h1, fun k => ?_⟩
  refine (h2 k).trans ?_
  simp [Dict.get?_nil]

section
variable {fg : FnGraph T V} {finalVars : List Name} {inputs overrides : Option (Dict Name V)} {order : List Name → List Name}

/-- Planned nodes are needed. -/
theorem async_planned (hw : WellFormed fg.nodes) {r x : Name} (hr : r ∈ finalVars)
    (h : Reaches (nextOf fg.nodes (upstreamNext fg inputs overrides)) r x) : Needed fg.nodes (overrides.getD []) finalVars x := by
  induction h with
  | refl => exact .req hr
  | @step b c _ he ih =>
    obtain ⟨n, hn, hc⟩ := he
    unfold upstreamNext isOverridden at hc
    rw [hw.name_eq hn] at hc
    split at hc
    · cases hc
    · rename_i hov
      have ho : (overrides.getD []).get? b = none := (Dict.has_eq_false_iff _ _).1 (by simpa using hov)
      refine .param ih ho hn ?_
      rw [← hw.deps_eq hn]
      split at hc
      · exact hc
      · exact (List.mem_filter.1 hc).1

/-- What an entry of `computed` in the first phase stands for. -/
theorem stands_of_den {g : Graph T V} {inputs overrides : Dict Name V} {tasks : List Name} {k : Name} {a : AVal V}
    (h : Den (liftGraph g) (liftVals inputs) (liftVals overrides) k a)
    (hw : WellFormed g) (ht : ∀ n, g.get? k = some n → n.kind ≠ .external → overrides.get? k = none → k ∈ tasks) :
    Stands g inputs overrides tasks k a := by
  cases h with
  | override h1 h2 =>
    obtain ⟨n, hn, rfl⟩ := liftGraph_some h1
    rw [liftVals_get?, Option.map_eq_some_iff] at h2
    obtain ⟨v, h2, rfl⟩ := h2
    exact .inl ⟨v, rfl, .override (n := n.withFn (fun n kw => n.fn (sortKw kw)))
      (by unfold Graph.sorted; rw [withFn_get?, hn]; rfl) h2⟩
  | input h1 h2 h3 h4 =>
    obtain ⟨n, hn, rfl⟩ := liftGraph_some h1
    rw [liftVals_get?, Option.map_eq_some_iff] at h4
    obtain ⟨v, h4, rfl⟩ := h4
    exact .inl ⟨v, rfl, .input (n := n.withFn (fun n kw => n.fn (sortKw kw)))
      (by unfold Graph.sorted; rw [withFn_get?, hn]; rfl) (liftVals_none.1 h2) h3 h4⟩
  | call val h1 h2 h3 h4 h5 h6 =>
    obtain ⟨n, hn, rfl⟩ := liftGraph_some h1
    have ho := liftVals_none.1 h2
    have h7 : AVal.task n.name = a := Except.ok.inj h6
    rw [hw.name_eq hn] at h7
    exact .inr ⟨h7.symm, ht n hn h3 ho, ⟨n, hn, h3⟩, ho⟩

theorem lift_acc {g : Graph T V} {overrides : Dict Name V} {k : Name}
    (h : Acc (fun b a => LiveEdge (liftGraph g) (liftVals overrides) a b) k) :
    Acc (fun b a => LiveEdge g overrides a b) k := by
  induction h with
  | intro k _ ih =>
    constructor
    rintro d ⟨h1, n, h2, h3⟩
    exact ih d ⟨liftVals_none.2 h1, liftNode n, by rw [liftGraph_get?, h2]; rfl, h3⟩

theorem asyncStart_ok (hg : DriverGraph fg) (horder : ∀ l x, x ∈ order l ↔ x ∈ l) {p : AsyncProg V}
    (h : asyncStart fg order finalVars inputs overrides = .ok p) :
    ProgOk fg.nodes (fg.given inputs) (overrides.getD []) finalVars p := by
  unfold asyncStart at h
  cases hplan : getUpstreamNodes fg finalVars inputs overrides with
  | err e s => rw [hplan] at h; cases h
  | ok plan =>
    rw [hplan] at h
    dsimp only at h
    cases hc : combineConfigAndInputs fg.config (inputs.getD []) with
    | error e => rw [hc] at h; cases h
    | ok all =>
      rw [hc] at h
      dsimp only at h
      obtain ⟨hall, _⟩ := combine_ok hc
      change all = fg.given inputs at hall
      subst hall
      have hnodes := requestedNodes_ok (lift_wf hg.wf) (order plan.nodes)
      have hspec := executeSubdag_spec (lift_wf hg.wf)
        (requestedNodes (liftGraph fg.nodes) (order plan.nodes)) hnodes (liftVals (fg.given inputs)) (liftVals (overrides.getD []))
      change (match executeSubdag (liftGraph fg.nodes) (requestedNodes (liftGraph fg.nodes) (order plan.nodes))
        (liftVals (fg.given inputs)) (liftVals (overrides.getD [])) with | .err e _ => _ | .ok s => _) = _ at h
      cases hx : executeSubdag (liftGraph fg.nodes) (requestedNodes (liftGraph fg.nodes) (order plan.nodes))
          (liftVals (fg.given inputs)) (liftVals (overrides.getD [])) with
      | err e s => rw [hx] at h; cases h
      | ok s =>
        rw [hx] at h hspec
        dsimp only at h hspec
        obtain ⟨hinv, _⟩ := hspec
        cases hf : finalVars.find? (fun k => !s.computed.has k) with
        | some k => rw [hf] at h; cases h
        | none =>
          rw [hf] at h
          cases h
          rw [List.find?_eq_none] at hf
          -- the plan
          obtain ⟨s2, hs2, hmem, _, _⟩ := directionalDfs_spec (fg := fg) (next := upstreamNext fg inputs overrides)
            (upstream_closed (config := fg.config) hg.wf inputs overrides)
            (fun k hk => (hg.config_in k ((Dict.has_iff _ _).1 hk)).imp (fun _ h => h.1)) finalVars inputs
          have heq : plan = s2 := by
            unfold getUpstreamNodes at hplan
            rw [hs2] at hplan
            split at hplan <;> cases hplan; rfl
          subst heq
          have hreq : ∀ k, k ∈ (requestedNodes (liftGraph fg.nodes) (order plan.nodes)).map (·.name) →
              Needed fg.nodes (overrides.getD []) finalVars k := by
            intro k hk
            obtain ⟨h1, _⟩ := (mem_requested_names (lift_wf hg.wf) _ k).1 hk
            obtain ⟨r, hr, _, hreach⟩ := (hmem k).1 ((horder _ _).1 h1)
            exact async_planned hg.wf hr hreach
          have hneed : ∀ k, Needed fg.nodes (overrides.getD [])
              ((requestedNodes (liftGraph fg.nodes) (order plan.nodes)).map (·.name)) k →
              Needed fg.nodes (overrides.getD []) finalVars k := by
            intro k hk
            induction hk with
            | req h => exact hreq _ h
            | param _ ho hgm hd ih => exact .param ih ho hgm hd
          have hcalled : ∀ k n, fg.nodes.get? k = some n → n.kind ≠ .external → (overrides.getD []).get? k = none →
              Needed (liftGraph fg.nodes) (liftVals (overrides.getD []))
                ((requestedNodes (liftGraph fg.nodes) (order plan.nodes)).map (·.name)) k →
              k ∈ Dict.keys s.calls := by
            intro k n hn hk ho hnd
            exact executeSubdag_calls (lift_wf hg.wf) hnodes hx (n := liftNode n) (by rw [liftGraph_get?, hn]; rfl) hk
              (liftVals_none.2 ho) hnd
          obtain ⟨a1, a2⟩ := awaited_spec s.computed finalVars
          refine ⟨hinv.calls_nodup, ?_, ?_, a1, ?_, ?_⟩
          · intro k kw hkw
            obtain ⟨c1, c2, n', c3, c4, val, c5, c6, c7⟩ := hinv.calls_ok (k, kw) (Dict.get?_mem hkw)
            dsimp only at c1 c2 c3 c7
            obtain ⟨n, hn, rfl⟩ := liftGraph_some c3
            refine ⟨hneed k (lift_needed c1), liftVals_none.1 c2, n, hn, c4, val, c7, ?_, ?_⟩
            · intro d a hd hv
              exact stands_of_den (c5 d a hd hv) hg.wf
                (fun m hm hk ho => hcalled d m hm hk ho (.param c1 c2 c3 hd))
            · intro d t hd hv
              obtain ⟨e1, e2⟩ := c6 d t hd hv
              exact ⟨e1, lift_absent.1 e2⟩
          · intro k hk
            obtain ⟨c, hc, rfl⟩ := List.mem_map.1 hk
            obtain ⟨a, ha⟩ := hinv.has_den c.1 (hinv.calls_sub c hc)
            exact lift_acc (ha.acc (lift_wf hg.wf))
          · intro k
            rw [Dict.mem_keys_iff]
            constructor
            · rintro ⟨a, ha⟩
              rw [a2] at ha
              by_cases hk : k ∈ finalVars
              · exact hk
              · rw [if_neg hk] at ha; cases ha
            · intro hk
              have := hf k hk
              obtain ⟨a, ha⟩ := (Dict.has_eq_true_iff _ _).1 (by simpa using this : s.computed.has k = true)
              exact ⟨a, by rw [a2, if_pos hk, ha]⟩
          · intro k a ha
            rw [a2] at ha
            by_cases hk : k ∈ finalVars
            · rw [if_pos hk] at ha
              refine stands_of_den (hinv.den k a ha) hg.wf (fun m hm hkd ho => hcalled k m hm hkd ho ?_)
              refine .req ((mem_requested_names (lift_wf hg.wf) _ k).2 ⟨(horder _ _).2 ((hmem k).2 ⟨k, hk, ⟨m, hm⟩, .refl k⟩), ?_⟩)
              exact ⟨liftNode m, by rw [liftGraph_get?, hm]; rfl⟩
            · rw [if_neg hk] at ha; cases ha

/-- What stands for a value in the first phase. -/
def canon (g : Graph T V) (inputs overrides : Dict Name V) (k : Name) : Option (AVal V) :=
  match g.get? k with
  | none => none
  | some n => match overrides.get? k with
    | some v => some (.raw v)
    | none => if n.kind = .external then (inputs.get? k).map .raw else some (.task k)

theorem lift_den {g : Graph T V} {inputs overrides : Dict Name V} (hw : WellFormed g) {k : Name} {v : V}
    (h : Den g.sorted inputs overrides k v) :
    ∃ a, canon g inputs overrides k = some a ∧ Den (liftGraph g) (liftVals inputs) (liftVals overrides) k a := by
  induction h with
  | @override k n v h1 h2 =>
    obtain ⟨m, hm, rfl⟩ := withFn_some _ g h1
    refine ⟨.raw v, by unfold canon; rw [hm, h2], .override (n := liftNode m) (by rw [liftGraph_get?, hm]; rfl)
      (by rw [liftVals_get?, h2]; rfl)⟩
  | @input k n v h1 h2 h3 h4 =>
    obtain ⟨m, hm, rfl⟩ := withFn_some _ g h1
    have h3' : m.kind = .external := h3
    refine ⟨.raw v, ?_, .input (n := liftNode m) (by rw [liftGraph_get?, hm]; rfl) (liftVals_none.2 h2) h3'
      (by rw [liftVals_get?, h4]; rfl)⟩
    unfold canon
    rw [hm, h2]
    dsimp only
    rw [if_pos h3', h4]; rfl
  | @call k n v val h1 h2 h3 h4 h5 h6 ih =>
    obtain ⟨m, hm, rfl⟩ := withFn_some _ g h1
    have h3' : m.kind ≠ .external := h3
    refine ⟨.task k, ?_, .call (n := liftNode m) (fun d => (val d).bind (fun _ => canon g inputs overrides d))
      (by rw [liftGraph_get?, hm]; rfl) (liftVals_none.2 h2) h3' ?_ ?_ ?_⟩
    · unfold canon
      rw [hm, h2]
      dsimp only
      rw [if_neg h3']
    · intro d a hd ha
      cases hv : val d with
      | none => rw [hv] at ha; cases ha
      | some w =>
        rw [hv, Option.bind_some] at ha
        obtain ⟨a', e1, e2⟩ := ih d w hd hv
        rw [e1] at ha; cases ha; exact e2
    · intro d t hd ha
      cases hv : val d with
      | none =>
        obtain ⟨e1, e2⟩ := h5 d t hd hv
        exact ⟨e1, lift_absent.2 (withFn_absent.1 e2)⟩
      | some w =>
        rw [hv, Option.bind_some] at ha
        obtain ⟨a', e1, e2⟩ := ih d w (List.mem_map.2 ⟨_, hd, rfl⟩) hv
        rw [e1] at ha; cases ha
    · change Except.ok (AVal.task m.name) = _
      rw [hw.name_eq hm]

/-- The values of the functional composition with keyword arguments sorted by name. -/
theorem asyncStart_complete (hg : DriverGraph fg) (horder : ∀ l x, x ∈ order l ↔ x ∈ l)
    (hdisj : ∀ k ∈ (inputs.getD []).keys, k ∉ fg.config.keys)
    (hall : ∀ k ∈ finalVars, ∃ v, Den fg.nodes.sorted (fg.given inputs) (overrides.getD []) k v) :
    ∃ p, asyncStart fg order finalVars inputs overrides = .ok p := by
  have hin : ∀ k ∈ finalVars, ∃ n, fg.nodes.get? k = some n := by
    intro k hk
    obtain ⟨v, hv⟩ := hall k hk
    have : ∃ n, fg.nodes.sorted.get? k = some n := by cases hv <;> exact ⟨_, by assumption⟩
    obtain ⟨n, hn⟩ := this
    obtain ⟨m, hm, _⟩ := withFn_some _ _ hn
    exact ⟨m, hm⟩
  obtain ⟨plan, hs2, hmem, _, _⟩ := directionalDfs_spec (fg := fg) (next := upstreamNext fg inputs overrides)
    (upstream_closed (config := fg.config) hg.wf inputs overrides)
    (fun k hk => (hg.config_in k ((Dict.has_iff _ _).1 hk)).imp (fun _ h => h.1)) finalVars inputs
  rw [if_pos (by
    rw [List.filter_eq_nil_iff]
    intro k hk
    obtain ⟨n, hn⟩ := hin k hk
    have : fg.nodes.has k = true := (Dict.has_eq_true_iff _ _).2 ⟨n, hn⟩
    simp [this])] at hs2
  have hcomb : combineConfigAndInputs fg.config (inputs.getD []) = .ok (fg.given inputs) := by
    unfold combineConfigAndInputs
    have : (inputs.getD []).keys.filter (fun k => fg.config.has k) = [] := by
      rw [List.filter_eq_nil_iff]
      intro k hk hc
      exact hdisj k hk ((Dict.has_iff _ _).1 hc)
    simp [this, FnGraph.given]
  have hres : ∀ x ∈ plan.nodes, (∃ v, Den fg.nodes.sorted (fg.given inputs) (overrides.getD []) x v) ∨
      Absent fg.nodes (fg.given inputs) (overrides.getD []) x := by
    intro x hx
    obtain ⟨r, hr, _, hreach⟩ := (hmem x).1 hx
    clear hx
    induction hreach with
    | refl => exact .inl (hall r hr)
    | @step b c _ he ih =>
      obtain ⟨n, hn, hc⟩ := he
      unfold upstreamNext isOverridden at hc
      rw [hg.wf.name_eq hn] at hc
      split at hc
      · cases hc
      · rename_i hov
        have ho : (overrides.getD []).get? b = none := (Dict.has_eq_false_iff _ _).1 (by simpa using hov)
        have hck : c ∈ n.inputTypes.keys := by
          rw [← hg.wf.deps_eq hn]
          split at hc
          · exact hc
          · exact (List.mem_filter.1 hc).1
        rcases ih with ⟨v, hv⟩ | ⟨n', hn', he, _⟩
        · cases hv with
          | override _ h2 => rw [ho] at h2; cases h2
          | input h1 _ h3 _ =>
            obtain ⟨m, hm, rfl⟩ := withFn_some _ _ h1
            rw [hn] at hm; cases hm
            rw [hg.wf.external_no_params hn h3] at hck; cases hck
          | call val h1 _ _ h4 h5 _ =>
            obtain ⟨m, hm, rfl⟩ := withFn_some _ _ h1
            rw [hn] at hm; cases hm
            cases hval : val c with
            | some w => exact .inl ⟨w, h4 c w hck hval⟩
            | none =>
              obtain ⟨q, hq, rfl⟩ := List.mem_map.1 hck
              exact .inr (withFn_absent.1 (h5 q.1 q.2 hq hval).2)
        · rw [hn] at hn'; cases hn'
          rw [hg.wf.external_no_params hn he] at hck; cases hck
  have hnodes := requestedNodes_ok (lift_wf hg.wf) (order plan.nodes)
  have hspec := executeSubdag_spec (lift_wf hg.wf)
    (requestedNodes (liftGraph fg.nodes) (order plan.nodes)) hnodes (liftVals (fg.given inputs)) (liftVals (overrides.getD []))
  unfold asyncStart
  rw [show getUpstreamNodes fg finalVars inputs overrides = .ok plan from hs2]
  dsimp only
  rw [hcomb]
  dsimp only
  change ∃ p, (match executeSubdag (liftGraph fg.nodes) (requestedNodes (liftGraph fg.nodes) (order plan.nodes))
    (liftVals (fg.given inputs)) (liftVals (overrides.getD [])) with
    | .err e _ => Except.error (DriverErr.exec e)
    | .ok s => _) = Except.ok p
  cases hx : executeSubdag (liftGraph fg.nodes) (requestedNodes (liftGraph fg.nodes) (order plan.nodes))
      (liftVals (fg.given inputs)) (liftVals (overrides.getD [])) with
  | err e s =>
    exfalso
    rw [hx] at hspec
    obtain ⟨_, _, n, hn, hno⟩ := hspec
    apply hno
    have hn2 := (mem_requested_names (lift_wf hg.wf) (order plan.nodes) n.name).1 (List.mem_map.2 ⟨n, hn, rfl⟩)
    rcases hres _ ((horder _ _).1 hn2.1) with ⟨v, hv⟩ | ha
    · obtain ⟨a, _, ha⟩ := lift_den hg.wf hv
      exact .inl ⟨a, ha⟩
    · refine .inr ⟨?_, lift_absent.2 ha⟩
      obtain ⟨m, hm, he, _⟩ := ha
      have := hnodes n hn
      rw [liftGraph_get?, hm] at this
      cases this
      unfold topDep Node.userDefined
      simp [liftNode, he]
  | ok s =>
    rw [hx] at hspec
    dsimp only at hspec ⊢
    obtain ⟨hinv, hdone⟩ := hspec
    rw [List.find?_eq_none.2 ?_]
    · exact ⟨_, rfl⟩
    · intro k hk hc
      obtain ⟨n, hn⟩ := hin k hk
      obtain ⟨v, hv⟩ := hall k hk
      have hnm : (liftNode n).name = k := hg.wf.name_eq hn
      have hmemk : liftNode n ∈ requestedNodes (liftGraph fg.nodes) (order plan.nodes) :=
        List.mem_filterMap.2 ⟨k, (horder _ _).2 ((hmem k).2 ⟨k, hk, ⟨n, hn⟩, .refl k⟩), by rw [liftGraph_get?, hn]; rfl⟩
      rcases hdone (liftNode n) hmemk with ⟨a, ha⟩ | ⟨_, ha⟩
      · rw [hnm] at ha
        have : s.computed.has k = true := (Dict.has_eq_true_iff _ _).2 ⟨a, ha⟩
        rw [this] at hc; cases hc
      · rw [hnm] at ha
        exact (withFn_absent.2 (lift_absent.1 ha)).not_den hv

/-! ### C47 -/

/-- Functions for which the order of keyword arguments does not matter (all functions with named parameters; a function with
`**kwargs` may depend on it). -/
def OrderFree (g : Graph T V) : Prop :=
  ∀ k n, g.get? k = some n → ∀ kw kw' : Dict Name V, (∀ j, kw.get? j = kw'.get? j) → n.fn kw = n.fn kw'

theorem sorted_den {g : Graph T V} {inputs overrides : Dict Name V} (hw : WellFormed g) (hf : OrderFree g) (k : Name) (v : V) :
    Den g.sorted inputs overrides k v ↔ Den g inputs overrides k v := by
  have hargs : ∀ {k n}, g.get? k = some n → ∀ val : Name → Option V,
      n.fn (sortKw (argsFor n.inputTypes val)) = n.fn (argsFor n.inputTypes val) := by
    intro k n hn val
    exact hf k n hn _ _ (sortKw_get? (argsFor_keys_nodup (hw.params_nodup hn) val))
  constructor
  · intro h
    induction h with
    | override h1 h2 =>
      obtain ⟨m, hm, rfl⟩ := withFn_some _ _ h1
      exact .override hm h2
    | input h1 h2 h3 h4 =>
      obtain ⟨m, hm, rfl⟩ := withFn_some _ _ h1
      exact .input hm h2 h3 h4
    | call val h1 h2 h3 h4 h5 h6 ih =>
      obtain ⟨m, hm, rfl⟩ := withFn_some _ _ h1
      exact .call val hm h2 h3 ih (fun d t hd hv => ⟨(h5 d t hd hv).1, withFn_absent.1 (h5 d t hd hv).2⟩)
        (by rw [← hargs hm]; exact h6)
  · intro h
    have hget : ∀ {k n}, g.get? k = some n → g.sorted.get? k = some (n.withFn (fun n kw => n.fn (sortKw kw))) := by
      intro k n hn; unfold Graph.sorted; rw [withFn_get?, hn]; rfl
    induction h with
    | override h1 h2 => exact .override (hget h1) h2
    | input h1 h2 h3 h4 => exact .input (hget h1) h2 h3 h4
    | call val h1 h2 h3 h4 h5 h6 ih =>
      exact .call val (hget h1) h2 h3 ih (fun d t hd hv => ⟨(h5 d t hd hv).1, withFn_absent.2 (h5 d t hd hv).2⟩)
        ((hargs h1 val).trans h6)

/-- **C47, determinism.**  Whatever the event loop does, the outcome is that of the functional composition with keyword arguments
sorted by name: results are exactly the requested names with these values; an exception is one that a needed function raises on
the right arguments, and then some requested name has no value; each function is called at most once, with the right arguments,
and only if needed. -/
theorem C47_deterministic (hg : DriverGraph fg) (horder : ∀ l x, x ∈ order l ↔ x ∈ l) {p : AsyncProg V}
    (h : asyncStart fg order finalVars inputs overrides = .ok p) {cs : List AChoice} {s : AState V}
    (hrun : arun fg.nodes p cs (AState.init p) = some s) :
    (∀ out, s.main = some (.ok out) → (∀ k, k ∈ out.keys ↔ k ∈ finalVars) ∧
      ∀ k v, out.get? k = some v → Den fg.nodes.sorted (fg.given inputs) (overrides.getD []) k v) ∧
    (∀ e, s.main = some (.error e) →
      (∃ k ∈ finalVars, ∀ v, ¬ Den fg.nodes.sorted (fg.given inputs) (overrides.getD []) k v) ∧
      ∃ m n kw, Needed fg.nodes (overrides.getD []) finalVars m ∧ fg.nodes.get? m = some n ∧
        RightArgs fg.nodes.sorted (fg.given inputs) (overrides.getD []) n kw ∧ n.fn (sortKw kw) = .error e) ∧
    (s.calls.map (·.1)).Nodup ∧
    (∀ c ∈ s.calls, Needed fg.nodes (overrides.getD []) finalVars c.1 ∧ (overrides.getD []).get? c.1 = none ∧
      ∃ n kw, fg.nodes.get? c.1 = some n ∧ RightArgs fg.nodes.sorted (fg.given inputs) (overrides.getD []) n kw ∧
        c.2 = sortKw kw) := by
  have hp := asyncStart_ok hg horder h
  have hi := (AsyncInv.init p).run hp hrun
  refine ⟨fun out ho => (hi.main_ok out ho).2, fun e he => ?_, hi.calls_nodup, fun c hc => ?_⟩
  · obtain ⟨h1, m, n, kw, h2, _, h3, _, h4, h5⟩ := hi.main_err e he
    exact ⟨h1, m, n, kw, h2, h3, h4, h5⟩
  · obtain ⟨h1, h2, n, kw, h3, _, h4, h5⟩ := hi.calls_ok c hc
    exact ⟨h1, h2, n, kw, h3, h4, h5⟩

/-- **C47, termination.**  Every run of the event loop ends after at most two steps per task and one for the result, and it can
go on until `execute` has returned or raised: no deadlock. -/
theorem C47_terminates (hg : DriverGraph fg) (horder : ∀ l x, x ∈ order l ↔ x ∈ l) {p : AsyncProg V}
    (h : asyncStart fg order finalVars inputs overrides = .ok p) {cs : List AChoice} {s : AState V}
    (hrun : arun fg.nodes p cs (AState.init p) = some s) :
    cs.length ≤ 2 * p.tasks.length + 1 ∧ (s.main = none → ∃ c s', astep fg.nodes p s c = some s') := by
  have hp := asyncStart_ok hg horder h
  have hi := (AsyncInv.init p).run hp hrun
  refine ⟨?_, progress hp hi⟩
  have := left_run hrun
  rw [left_init] at this
  omega

/-- **C47, same values as the functional composition (partial).**  If every requested name has a value by functional composition,
then the run starts, and whatever the event loop does, `execute` returns exactly these values or is still going on; it never
raises.  Missing: functions with `**kwargs` that depend on the order of keyword arguments (`C47_violated_order`), and requested
names that are only inputs (`C47_violated_input`). -/
theorem C47_same_values_partial (hg : DriverGraph fg) (horder : ∀ l x, x ∈ order l ↔ x ∈ l) (hfree : OrderFree fg.nodes)
    (hdisj : ∀ k ∈ (inputs.getD []).keys, k ∉ fg.config.keys)
    (hall : ∀ k ∈ finalVars, ∃ v, Den fg.nodes (fg.given inputs) (overrides.getD []) k v) :
    ∃ p, asyncStart fg order finalVars inputs overrides = .ok p ∧
      ∀ cs s, arun fg.nodes p cs (AState.init p) = some s →
        (s.main = none ∧ ∃ c s', astep fg.nodes p s c = some s') ∨
        ∃ out, s.main = some (.ok out) ∧ (∀ k, k ∈ out.keys ↔ k ∈ finalVars) ∧
          ∀ k ∈ finalVars, ∀ v, Den fg.nodes (fg.given inputs) (overrides.getD []) k v → out.get? k = some v := by
  have hall' : ∀ k ∈ finalVars, ∃ v, Den fg.nodes.sorted (fg.given inputs) (overrides.getD []) k v :=
    fun k hk => (hall k hk).imp (fun v hv => (sorted_den hg.wf hfree k v).2 hv)
  obtain ⟨p, h⟩ := asyncStart_complete hg horder hdisj hall'
  refine ⟨p, h, fun cs s hrun => ?_⟩
  obtain ⟨h1, h2, _⟩ := C47_deterministic hg horder h hrun
  obtain ⟨_, h4⟩ := C47_terminates hg horder h hrun
  cases hm : s.main with
  | none => exact .inl ⟨rfl, h4 hm⟩
  | some r =>
    right
    cases r with
    | error e =>
      obtain ⟨⟨k, hk, hno⟩, _⟩ := h2 e hm
      obtain ⟨v, hv⟩ := hall' k hk
      exact absurd hv (hno v)
    | ok out =>
      obtain ⟨h5, h6⟩ := h1 out hm
      refine ⟨out, rfl, h5, fun k hk v hv => ?_⟩
      obtain ⟨w, hw⟩ := Dict.mem_keys_iff.1 ((h5 k).2 hk)
      rw [hw, (h6 k w hw).det ((sorted_den hg.wf hfree k v).2 hv)]

/-- **C47, same as the default driver (partial).**  If `Driver.execute` returns a value for every requested node, then
`AsyncDriver.execute` returns the same values for every interleaving.  Missing: as for `C47_same_values_partial`. -/
theorem C47_same_as_sync_partial {o : TypeOracle T V} (hg : DriverGraph fg) (horder : ∀ l x, x ∈ order l ↔ x ∈ l)
    (hfree : OrderFree fg.nodes) (hin : (inputs.getD []).keys.Nodup) {out : Dict Name (Option V)}
    (hsync : driverExecute o fg finalVars inputs overrides = .ok out) (hnode : ∀ k ∈ finalVars, k ∈ fg.nodes.keys)
    (hsome : ∀ k ∈ finalVars, out.get? k ≠ some none) :
    ∃ p, asyncStart fg order finalVars inputs overrides = .ok p ∧
      ∀ cs s, arun fg.nodes p cs (AState.init p) = some s →
        (s.main = none ∧ ∃ c s', astep fg.nodes p s c = some s') ∨
        ∃ out', s.main = some (.ok out') ∧ ∀ k, (out'.get? k).map some = out.get? k := by
  obtain ⟨h1, h2, _⟩ := C01_execute_sound hg hin hsync
  obtain ⟨hdisj, _⟩ := defaultExecutor_ok (g := fg.nodes) (config := fg.config) hg.wf (driverExecute_ok hsync).1
  have hval : ∀ k ∈ finalVars, ∃ v, out.get? k = some (some v) ∧ Den fg.nodes (fg.given inputs) (overrides.getD []) k v := by
    intro k hk
    obtain ⟨n, hn⟩ := Dict.mem_keys_iff.1 (hnode k hk)
    rcases h2 k hk n hn with h | ⟨h, _⟩
    · exact h
    · exact absurd h (hsome k hk)
  obtain ⟨p, hp, hall⟩ := C47_same_values_partial (order := order) hg horder hfree hdisj
    (fun k hk => (hval k hk).imp (fun _ h => h.2))
  refine ⟨p, hp, fun cs s hrun => ?_⟩
  rcases hall cs s hrun with h | ⟨out', h3, h4, h5⟩
  · exact .inl h
  · refine .inr ⟨out', h3, fun k => ?_⟩
    by_cases hk : k ∈ finalVars
    · obtain ⟨v, e1, e2⟩ := hval k hk
      rw [h5 k hk v e2, e1]; rfl
    · rw [(Dict.get?_eq_none_iff _ _).2 (fun h => hk ((h4 k).1 h)), (Dict.get?_eq_none_iff _ _).2 (fun h => hk ((h1 k).1 h))]; rfl

end

namespace AsyncSample

/-- Python's iteration order over the set of upstream nodes: here reversed. -/
def order (l : List Name) : List Name := l.reverse

theorem order_mem : ∀ (l : List Name) (x : Name), x ∈ order l ↔ x ∈ l := fun _ _ => List.mem_reverse

/-- The first phase for the sample graph, `top` and `left` requested. -/
def prog : AsyncProg Int :=
  match asyncStart Sample.fg order ["top", "left"] (some [("x", 1)]) none with
  | .ok p => p
  | .error _ => ⟨[], []⟩

theorem prog_ok : asyncStart Sample.fg order ["top", "left"] (some [("x", 1)]) none = .ok prog := by rfl

/-- The tasks created, with what their arguments stand for. -/
example : prog.tasks = [("base", [("x", .raw 1)]), ("right", [("base", .task "base")]), ("left", [("base", .task "base")]),
      ("top", [("left", .task "left"), ("right", .task "right")])] ∧
    prog.final = [("top", .task "top"), ("left", .task "left")] := by decide +kernel

/-- Two interleavings of the event loop. -/
def run1 : List AChoice := [.start "base", .finish "base", .start "right", .start "left", .finish "left", .finish "right",
  .start "top", .finish "top", .mainOk]
def run2 : List AChoice := [.start "base", .finish "base", .start "left", .finish "left", .start "right", .finish "right",
  .start "top", .finish "top", .mainOk]

/-- Result of a run, if `execute` has returned. -/
def result (g : Graph Unit Int) (p : AsyncProg Int) (cs : List AChoice) : Option (Dict Name Int) :=
  match (arun g p cs (AState.init p)).bind (·.main) with
  | some (.ok out) => some out
  | _ => none

example : result Sample.graph prog run1 = some [("left", 4), ("top", 16)] ∧
    result Sample.graph prog run2 = some [("left", 4), ("top", 16)] := by decide +kernel

/-- The callable of an input node. -/
def inputFn (_ : Dict Name Int) : Except UserErr Int := .error "input node has no callable"

/-- The hypotheses of `C47_same_as_sync_partial` hold for the sample. -/
theorem orderFree : OrderFree Sample.graph := by
  have hfn : ∀ f ∈ Sample.graph.map (fun p => p.2.fn), ∀ kw kw' : Dict Name Int, (∀ j, kw.get? j = kw'.get? j) → f kw = f kw' := by
    rw [show Sample.graph.map (fun p => p.2.fn) = Sample.fns.map (·.fn) ++ [inputFn, inputFn, inputFn] from rfl]
    intro f hf kw kw' h
    simp only [Sample.fns, List.map_cons, List.map_nil, List.mem_cons, List.mem_append, List.not_mem_nil, or_false] at hf
    rcases hf with (rfl | rfl | rfl | rfl) | rfl | rfl | rfl <;> simp only [Sample.fnNode, Sample.arg, h, inputFn]
  intro k n hn
  exact hfn n.fn (List.mem_map.2 ⟨_, Dict.get?_mem hn, rfl⟩)

/-- `C47_same_as_sync_partial` applies to the sample. -/
example : ∃ p, asyncStart Sample.fg order ["top", "left"] (some [("x", 1)]) none = .ok p ∧
    ∀ cs s, arun Sample.graph p cs (AState.init p) = some s →
      (s.main = none ∧ ∃ c s', astep Sample.graph p s c = some s') ∨
      ∃ out', s.main = some (.ok out') ∧ ∀ k, (out'.get? k).map some = Dict.get? [("top", some (16 : Int)), ("left", some 4)] k :=
  C47_same_as_sync_partial (o := Sample.oracle) (fg := Sample.fg) Sample.driverGraph order_mem orderFree (by decide) rfl
    (by decide) (by decide)

/-- `def bad(x): raise`, `def slow(x): …`, `def both(slow, bad): …`. -/
def failing : List (Node Unit Int) :=
  [ Sample.fnNode "bad" [("x", .required)] (fun _ => .error "boom"),
    Sample.fnNode "slow" [("x", .required)] (fun kw => .ok (Sample.arg kw "x" 0)),
    Sample.fnNode "both" [("slow", .required), ("bad", .required)] (fun _ => .ok 0) ]

def failGraph : Graph Unit Int :=
  match createFunctionGraph Sample.tm () [] false failing with
  | .ok g => g
  | .error _ => []

def failProg : AsyncProg Int :=
  match asyncStart ⟨failGraph, []⟩ order ["both"] (some [("x", 1)]) none with
  | .ok p => p
  | .error _ => ⟨[], []⟩

/-- Error of a run, if `execute` has raised. -/
def raised (g : Graph Unit Int) (p : AsyncProg Int) (cs : List AChoice) : Option UserErr :=
  match (arun g p cs (AState.init p)).bind (·.main) with
  | some (.error e) => some e
  | _ => none

/-- The exception reaches the caller although another task is still waiting. -/
example : raised failGraph failProg [.start "bad", .finish "bad", .fail "both" "bad", .mainErr "both"] = some "boom" := by
  decide +kernel

/-- `@does(f)` with `def f(**kw): return list(kw.values())[0]`, on `def first(b, a): pass`. -/
def orderFns : List (Node Unit Int) :=
  [ Sample.fnNode "first" [("b", .required), ("a", .required)] (fun kw => match kw with
      | (_, v) :: _ => .ok v
      | [] => .error "empty") ]

def orderGraph : Graph Unit Int :=
  match createFunctionGraph Sample.tm () [] false orderFns with
  | .ok g => g
  | .error _ => []

def orderProg : AsyncProg Int :=
  match asyncStart ⟨orderGraph, []⟩ order ["first"] (some [("a", 1), ("b", 2)]) none with
  | .ok p => p
  | .error _ => ⟨[], []⟩

/-- **C47 is violated** by functions that depend on the order of keyword arguments: the default driver passes `b` first, the
asynchronous one sorts the arguments by name. -/
theorem C47_violated_order :
    driverExecute Sample.oracle ⟨orderGraph, []⟩ ["first"] (some [("a", 1), ("b", 2)]) none = .ok [("first", some 2)] ∧
    result orderGraph orderProg [.start "first", .finish "first", .mainOk] = some [("first", 1)] := by
  refine ⟨rfl, ?_⟩
  decide +kernel

/-- **C47 is violated** by a requested name that is only an input: the default driver returns it, the asynchronous one raises a
`KeyError`. -/
theorem C47_violated_input :
    driverExecute Sample.oracle Sample.fg ["z"] (some [("z", 3)]) none = .ok [("z", some 3)] ∧
    asyncStart Sample.fg order ["z"] (some [("z", 3)]) none = .error (.exec (.keyError "z")) := ⟨rfl, rfl⟩

end AsyncSample
end Verif
