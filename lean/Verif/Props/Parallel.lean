import Verif.Proofs.ParRun5
import Verif.Props.TaskEquiv
import Verif.Props.Blocks
import Verif.Props.TaskLimits

/-! C56: task-based execution of graphs with `Parallelizable`/`Collect` gives what a sequential reading of them gives. -/
namespace Verif
variable {T V : Type}

/-! ### Wrapping expanders does not change the reading -/
section Listify
variable {ops : TaskOps T V} {g : Graph T V}

theorem listify_get? (k : Name) : (listifyGraph ops g).get? k = (g.get? k).map (listifyNode ops) :=
  get?_map_val g (listifyNode ops) k

theorem listifyNode_same (n : Node T V) : (listifyNode ops n).name = n.name ∧ (listifyNode ops n).inputTypes = n.inputTypes ∧
    (listifyNode ops n).kind = n.kind := by
  unfold listifyNode
  split <;> exact ⟨rfl, rfl, rfl⟩

theorem listify_inv {k : Name} {n : Node T V} (h : (listifyGraph ops g).get? k = some n) :
    ∃ m, g.get? k = some m ∧ n = listifyNode ops m := by
  rw [listify_get?, Option.map_eq_some_iff] at h
  obtain ⟨m, h1, h2⟩ := h
  exact ⟨m, h1, h2.symm⟩

theorem listify_expander {k : Name} : Expander (listifyGraph ops g) k ↔ Expander g k := by
  constructor
  · rintro ⟨n, h, hk⟩
    obtain ⟨m, h1, rfl⟩ := listify_inv h
    exact ⟨m, h1, by rw [← (listifyNode_same (ops := ops) m).2.2]; exact hk⟩
  · rintro ⟨n, h, hk⟩
    exact ⟨_, by rw [listify_get?, h]; rfl, by rw [(listifyNode_same n).2.2]; exact hk⟩

theorem listify_depends {k d : Name} : DependsOn (listifyGraph ops g) k d ↔ DependsOn g k d := by
  constructor
  · rintro ⟨n, h, hk⟩
    obtain ⟨m, h1, rfl⟩ := listify_inv h
    exact ⟨m, h1, by rw [← (listifyNode_same (ops := ops) m).2.1]; exact hk⟩
  · rintro ⟨n, h, hk⟩
    exact ⟨_, by rw [listify_get?, h]; rfl, by rw [(listifyNode_same n).2.1]; exact hk⟩

theorem listify_inside {a b : Name} : InsideEdge (listifyGraph ops g) a b ↔ InsideEdge g a b := by
  unfold InsideEdge
  rw [listify_expander, listify_depends]

theorem listify_insides {a b : Name} : Reaches (InsideEdge (listifyGraph ops g)) a b ↔ Reaches (InsideEdge g) a b :=
  ⟨fun h => h.mono (fun _ _ e => listify_inside.1 e), fun h => h.mono (fun _ _ e => listify_inside.2 e)⟩

theorem listify_feeds {e k : Name} : Feeds (listifyGraph ops g) e k ↔ Feeds g e k := by
  unfold Feeds
  rw [listify_expander]
  constructor
  · rintro ⟨h, d, h1, h2⟩; exact ⟨h, d, listify_depends.1 h1, listify_insides.1 h2⟩
  · rintro ⟨h, d, h1, h2⟩; exact ⟨h, d, listify_depends.2 h1, listify_insides.2 h2⟩

theorem listify_inBlock {k x : Name} : InBlock (listifyGraph ops g) k x ↔ InBlock g k x := by
  unfold InBlock
  rw [listify_expander]
  constructor
  · rintro ⟨h, ⟨d, h1, h2⟩, e, h3, h4⟩
    exact ⟨h, ⟨d, listify_depends.1 h1, listify_insides.1 h2⟩, e, listify_expander.1 h3, listify_insides.1 h4⟩
  · rintro ⟨h, ⟨d, h1, h2⟩, e, h3, h4⟩
    exact ⟨h, ⟨d, listify_depends.2 h1, listify_insides.2 h2⟩, e, listify_expander.2 h3, listify_insides.2 h4⟩

theorem listify_absent {all ov : Dict Name V} {k : Name} :
    Absent (listifyGraph ops g) all ov k ↔ Absent g all ov k := by
  constructor
  · rintro ⟨n, h1, h2, h3, h4⟩
    obtain ⟨m, h5, rfl⟩ := listify_inv h1
    exact ⟨m, h5, by rw [← (listifyNode_same (ops := ops) m).2.2]; exact h2, h3, h4⟩
  · rintro ⟨n, h1, h2, h3, h4⟩
    exact ⟨_, by rw [listify_get?, h1]; rfl, by rw [(listifyNode_same n).2.2]; exact h2, h3, h4⟩

theorem listify_acyclic (h : Acyclic g) : Acyclic (listifyGraph ops g) := by
  obtain ⟨rank, hr⟩ := h
  refine ⟨rank, fun k n hk d hd => ?_⟩
  obtain ⟨m, h1, rfl⟩ := listify_inv hk
  rw [(listifyNode_same m).2.1] at hd
  exact hr k m h1 d hd

theorem listify_runEdge {all ov : Dict Name V} {a b : Name} :
    RunEdge (listifyGraph ops g) all ov a b ↔ RunEdge g all ov a b := by
  have hext : (∃ dn, (listifyGraph ops g).get? b = some dn ∧ dn.kind = .external ∧ all.get? b = none) ↔
      ∃ dn, g.get? b = some dn ∧ dn.kind = .external ∧ all.get? b = none := by
    constructor
    · rintro ⟨n, h1, h2, h3⟩
      obtain ⟨m, h5, rfl⟩ := listify_inv h1
      exact ⟨m, h5, by rw [← (listifyNode_same (ops := ops) m).2.2]; exact h2, h3⟩
    · rintro ⟨n, h1, h2, h3⟩
      exact ⟨_, by rw [listify_get?, h1]; rfl, by rw [(listifyNode_same n).2.2]; exact h2, h3⟩
  unfold RunEdge
  rw [hext]
  constructor
  · rintro ⟨h0, nn, t, h1, h2, h3⟩
    obtain ⟨m, h5, rfl⟩ := listify_inv h1
    exact ⟨h0, m, t, h5, by rw [← (listifyNode_same (ops := ops) m).2.1]; exact h2, h3⟩
  · rintro ⟨h0, nn, t, h1, h2, h3⟩
    exact ⟨h0, _, t, by rw [listify_get?, h1]; rfl, by rw [(listifyNode_same nn).2.1]; exact h2, h3⟩

theorem listifyNode_call (hlaw : ∀ l, ops.toList (ops.ofList l) = some l) (n : Node T V) (kw : Dict Name V) (w : V) :
    (∃ v, (listifyNode ops n).fn kw = .ok v ∧ Listed ops (listifyNode ops n) v w) ↔ ∃ v, n.fn kw = .ok v ∧ Listed ops n v w := by
  unfold Listed
  rw [(listifyNode_same n).2.2]
  unfold listifyNode
  by_cases hk : n.kind = .expand
  · simp only [if_pos hk]
    cases hf : n.fn kw with
    | error e => simp
    | ok v =>
      simp only [Except.ok.injEq]
      cases hl : ops.toList v with
      | none => simp [hl]
      | some l =>
        simp only [Except.ok.injEq]
        constructor
        · rintro ⟨u, rfl, items, h1, rfl⟩
          rw [hlaw] at h1
          cases h1
          exact ⟨v, rfl, l, hl, rfl⟩
        · rintro ⟨u, rfl, items, h1, rfl⟩
          rw [hl] at h1
          cases h1
          exact ⟨_, rfl, l, hlaw l, rfl⟩
  · simp only [if_neg hk]

theorem ParDen.listify (hlaw : ∀ l, ops.toList (ops.ofList l) = some l) {all ov : Dict Name V} {k : Name} {v : V}
    (h : ParDen ops g all ov k v) : ParDen ops (listifyGraph ops g) all ov k v := by
  have hg : ∀ {k n}, g.get? k = some n → (listifyGraph ops g).get? k = some (listifyNode ops n) := by
    intro k n hk
    rw [listify_get?, hk]; rfl
  induction h with
  | override h1 h2 => exact .override (hg h1) h2
  | input h1 h2 h3 h4 => exact .input (hg h1) h2 (by rw [(listifyNode_same _).2.2]; exact h3) h4
  | @call ov k n v w val h1 h2 h3 h4 h5 h6 h7 h8 ih =>
    obtain ⟨u, k1, k2⟩ := (listifyNode_call hlaw n _ _).2 ⟨v, h7, h8⟩
    exact .call val (hg h1) h2 (by rw [(listifyNode_same _).2.2]; exact h3) (by rw [(listifyNode_same _).2.2]; exact h4)
      (fun d w hd hv => ih d w (by rw [(listifyNode_same n).2.1] at hd; exact hd) hv)
      (fun d t hd hv => by
        rw [(listifyNode_same n).2.1] at hd
        exact ⟨(h6 d t hd hv).1, listify_absent.2 (h6 d t hd hv).2⟩)
      (by rw [(listifyNode_same n).2.1]; exact k1) k2
  | @collect ov k n v arg e l items vs val h1 h2 h3 h4 h5 h6 h7 h8 h9 h10 h11 h12 h13 ih6 ih9 ih11 =>
    have hn : listifyNode ops n = n := by
      unfold listifyNode
      rw [if_neg (by rw [h3]; simp)]
    have h1' := hg h1
    rw [hn] at h1'
    exact .collect val h1' h2 h3 h4 (listify_feeds.2 h5) ih6 h7 h8 ih9 h10 ih11
      (fun d t hd hv => ⟨(h12 d t hd hv).1, listify_absent.2 (h12 d t hd hv).2⟩) h13

theorem ParDen.unlistify (hlaw : ∀ l, ops.toList (ops.ofList l) = some l) {all ov : Dict Name V} {k : Name} {v : V}
    (h : ParDen ops (listifyGraph ops g) all ov k v) : ParDen ops g all ov k v := by
  induction h with
  | override h1 h2 =>
    obtain ⟨m, hm, rfl⟩ := listify_inv h1
    exact .override hm h2
  | input h1 h2 h3 h4 =>
    obtain ⟨m, hm, rfl⟩ := listify_inv h1
    exact .input hm h2 (by rw [← (listifyNode_same (ops := ops) m).2.2]; exact h3) h4
  | @call ov k n v w val h1 h2 h3 h4 h5 h6 h7 h8 ih =>
    obtain ⟨n, hm, rfl⟩ := listify_inv h1
    rw [(listifyNode_same n).2.1] at h7
    rw [(listifyNode_same n).2.2] at h3 h4
    obtain ⟨u, k1, k2⟩ := (listifyNode_call hlaw n _ _).1 ⟨v, h7, h8⟩
    exact .call val hm h2 h3 h4
      (fun d w hd hv => ih d w (by rw [(listifyNode_same n).2.1]; exact hd) hv)
      (fun d t hd hv => by
        have := h6 d t (by rw [(listifyNode_same n).2.1]; exact hd) hv
        exact ⟨this.1, listify_absent.1 this.2⟩) k1 k2
  | @collect ov k n v arg e l items vs val h1 h2 h3 h4 h5 h6 h7 h8 h9 h10 h11 h12 h13 ih6 ih9 ih11 =>
    obtain ⟨n, hm, rfl⟩ := listify_inv h1
    have hn : listifyNode ops n = n := by
      rw [(listifyNode_same n).2.2] at h3
      unfold listifyNode
      rw [if_neg (by rw [h3]; simp)]
    rw [hn] at h3 h4 h11 h12 h13 ih11
    exact .collect val hm h2 h3 h4 (listify_feeds.1 h5) ih6 h7 h8 ih9 h10 ih11
      (fun d t hd hv => ⟨(h12 d t hd hv).1, listify_absent.1 (h12 d t hd hv).2⟩) h13

end Listify

/-- Without `Parallelizable` and `Collect` the sequential reading is that of C01/C04. -/
theorem parDen_plain {ops : TaskOps T V} {g : Graph T V} {all ov : Dict Name V}
    (hp : ∀ k n, g.get? k = some n → n.kind ≠ .expand ∧ n.kind ≠ .collect) {k : Name} {v : V} :
    ParDen ops g all ov k v ↔ Den g all ov k v := by
  constructor
  · intro h
    induction h with
    | override h1 h2 => exact .override h1 h2
    | input h1 h2 h3 h4 => exact .input h1 h2 h3 h4
    | call val h1 h2 h3 h4 h5 h6 h7 h8 ih =>
      unfold Listed at h8
      rw [if_neg (hp _ _ h1).1] at h8
      subst h8
      exact .call val h1 h2 h3 ih h6 h7
    | collect val h1 h2 h3 => exact absurd h3 (hp _ _ h1).2
  · intro h
    induction h with
    | override h1 h2 => exact .override h1 h2
    | input h1 h2 h3 h4 => exact .input h1 h2 h3 h4
    | call val h1 h2 h3 h4 h5 h6 ih =>
      refine .call val h1 h2 h3 (hp _ _ h1).2 ih h5 h6 ?_
      unfold Listed
      rw [if_neg (hp _ _ h1).1]

/-! ### The calls considered -/

/-- What a call needs: the requested nodes and, transitively, the parameters of needed nodes that are not overridden,
except optional inputs without a value. -/
def CallNeeds (fg : FnGraph T V) (finalVars : List Name) (overrides inputs : Dict Name V) (k : Name) : Prop :=
  ∃ r ∈ finalVars, Reaches (RunEdge fg.nodes (fg.config.merge inputs) overrides) r k

/-- `c` is a function with a `Collect` parameter. -/
def Collector (g : Graph T V) (c : Name) : Prop := ∃ n, g.get? c = some n ∧ n.kind = .collect

/-- The calls considered: at least one node is requested and only nodes are; inputs and overrides of one name agree; names
without `:` and `-`; every needed collector belongs to one `Parallelizable` and vice versa; inside values of
a block are used only in it and by its collector, in one parameter; nothing of a block is overridden, given as an input
or requested. -/
structure BlockCall (ops : TaskOps T V) (fg : FnGraph T V) (finalVars : List Name) (overrides inputs : Dict Name V) :
    Prop where
  graph : DriverGraph fg
  acyclic : Acyclic fg.nodes
  config_nodup : fg.config.keys.Nodup
  inputs_nodup : inputs.keys.Nodup
  requested : ∀ k ∈ finalVars, ∃ n, fg.nodes.get? k = some n
  nonempty : finalVars ≠ []
  agree : ∀ k v w, (fg.config.merge inputs).get? k = some v → overrides.get? k = some w → v = w
  names : ∀ k n, fg.nodes.get? k = some n → ColonFree k ∧ DashFree k
  given_names : ∀ k, k ∈ inputs.keys ∨ k ∈ overrides.keys → ColonFree k
  start : ∀ c, CallNeeds fg finalVars overrides inputs c → Collector fg.nodes c → ∃ e, Feeds fg.nodes e c
  one_start : ∀ c, CallNeeds fg finalVars overrides inputs c → Collector fg.nodes c → ∀ e e', Feeds fg.nodes e c →
    Feeds fg.nodes e' c → e = e'
  one_end : ∀ c c', CallNeeds fg finalVars overrides inputs c → Collector fg.nodes c →
    CallNeeds fg finalVars overrides inputs c' → Collector fg.nodes c' → ∀ e, Feeds fg.nodes e c → Feeds fg.nodes e c' → c = c'
  inside_use : ∀ c, CallNeeds fg finalVars overrides inputs c → Collector fg.nodes c → ∀ x, InBlock fg.nodes c x →
    ∀ m, CallNeeds fg finalVars overrides inputs m → DependsOn fg.nodes m x → InBlock fg.nodes c m ∨ m = c
  start_use : ∀ c, CallNeeds fg finalVars overrides inputs c → Collector fg.nodes c → ∀ e, Feeds fg.nodes e c →
    ∀ m, CallNeeds fg finalVars overrides inputs m → DependsOn fg.nodes m e → InBlock fg.nodes c m
  untouched : ∀ c, CallNeeds fg finalVars overrides inputs c → Collector fg.nodes c → ∀ x,
    Feeds fg.nodes x c ∨ InBlock fg.nodes c x ∨ x = c → overrides.get? x = none
  param : ∀ c n, CallNeeds fg finalVars overrides inputs c → fg.nodes.get? c = some n → n.kind = .collect →
    ∃ arg, CollectParam ops n arg ∧ InBlock fg.nodes c arg ∧
      (∀ d ∈ n.inputTypes.keys, InBlock fg.nodes c d → d = arg) ∧ (fg.config.merge inputs).get? arg = none
  not_requested : ∀ c, CallNeeds fg finalVars overrides inputs c → Collector fg.nodes c → ∀ x, InBlock fg.nodes c x →
    x ∉ finalVars

section Calls
variable {ops : TaskOps T V} {ex : Executors} {fg : FnGraph T V} {finalVars : List Name} {overrides inputs : Dict Name V}

theorem CallNeeds.step {k d : Name} (h : CallNeeds fg finalVars overrides inputs k)
    (he : RunEdge fg.nodes (fg.config.merge inputs) overrides k d) : CallNeeds fg finalVars overrides inputs d := by
  obtain ⟨r, hr, h⟩ := h
  exact ⟨r, hr, .step h he⟩

/-- Whole blocks are needed. -/
theorem BlockCall.whole (hc : BlockCall ops fg finalVars overrides inputs) {c : Name}
    (hn : CallNeeds fg finalVars overrides inputs c) (hk : Collector fg.nodes c) {x : Name}
    (hx : Feeds fg.nodes x c ∨ InBlock fg.nodes c x) : CallNeeds fg finalVars overrides inputs x := by
  have hw := hc.graph.wf
  -- what lies before an expander is not an input
  have hnext : ∀ {y e}, Expander fg.nodes e → Reaches (InsideEdge fg.nodes) y e → ∀ n, fg.nodes.get? y = some n →
      n.kind ≠ .external := by
    intro y e ⟨en, he, hek⟩ hr n hyn hke
    have key : ∀ {b}, Reaches (InsideEdge fg.nodes) y b → b = y := by
      intro b hb
      induction hb with
      | refl => rfl
      | step _ ed ih =>
        subst ih
        obtain ⟨m, hm, hd⟩ := ed.2
        rw [hyn] at hm
        cases hm
        rw [hw.external_no_params hyn hke] at hd; cases hd
    have := key hr
    subst this
    rw [hyn] at he
    cases he
    rw [hek] at hke; cases hke
  have hedge : ∀ {y z e}, overrides.get? y = none → DependsOn fg.nodes y z → Expander fg.nodes e →
      Reaches (InsideEdge fg.nodes) z e → RunEdge fg.nodes (fg.config.merge inputs) overrides y z := by
    intro y z e ho ⟨n, hyn, hz⟩ he hr
    obtain ⟨ty, hty⟩ := Dict.mem_keys_iff.1 hz
    refine ⟨ho, n, ty, hyn, hty, ?_⟩
    rintro ⟨_, dn, h1, h2, _⟩
    exact hnext he hr dn h1 h2
  obtain ⟨e, d, he, hd, hre, hrx⟩ : ∃ e d, Expander fg.nodes e ∧ DependsOn fg.nodes c d ∧ Reaches (InsideEdge fg.nodes) x e ∧
      Reaches (InsideEdge fg.nodes) d x := by
    rcases hx with ⟨he, d, h1, h2⟩ | ⟨_, ⟨d, h1, h2⟩, e, h3, h4⟩
    · exact ⟨x, d, he, h1, .refl _, h2⟩
    · exact ⟨e, d, h3, h1, h4, h2⟩
  have hmain : ∀ {y}, Reaches (InsideEdge fg.nodes) d y → Reaches (InsideEdge fg.nodes) y e →
      CallNeeds fg finalVars overrides inputs y := by
    intro y hy
    induction hy with
    | refl => intro hye; exact hn.step (hedge (hc.untouched c hn hk _ (.inr (.inr rfl))) hd he hye)
    | @step y z hy ed ih =>
      intro hze
      have hye : Reaches (InsideEdge fg.nodes) y e := (Reaches.step (.refl _) ed).trans hze
      refine (ih hye).step (hedge (hc.untouched c hn hk _ (.inr (.inl ⟨ed.1, ⟨d, hd, hy⟩, e, he, hye⟩))) ed.2 he hze)
  exact hmain hrx hre

/-- What happens before the loop. -/
theorem BlockCall.setup (hc : BlockCall ops fg finalVars overrides inputs)
    (hlaw : ∀ l, ops.toList (ops.ofList l) = some l) (hdisj : ∀ k ∈ inputs.keys, k ∉ fg.config.keys) :
    ∃ nodes specs,
      BlockCtx ops (listifyGraph ops fg.nodes) (fg.config.merge inputs) overrides
        (Dict.merge overrides (fg.config.merge inputs)) finalVars nodes specs ∧
      (∀ k ∈ finalVars, ∃ n ∈ nodes, n.name = k) ∧
      (∀ n ∈ nodes, CallNeeds fg finalVars overrides inputs n.name) ∧
      ∀ cs, taskBasedExecute ops ex (fun g nodes => groupByRepeatableBlocks g nodes) fg finalVars overrides inputs cs =
        match runLoop ops (listifyGraph ops fg.nodes) ex cs
            (initLoop specs (Dict.merge overrides (fg.config.merge inputs))) with
        | .err e _ => .error (.task e)
        | .ok l => if (graphState l.sched).isTerminal then
            match cacheRead l.sched.cache none none false finalVars with
            | .error e => .error (.task e)
            | .ok r => .ok r
          else .error .running := by
  have hw := hc.graph.wf
  have hlw : WellFormed (listifyGraph ops fg.nodes) := listify_wf hw
  have hlac := listify_acyclic (ops := ops) hc.acyclic
  have halln : (fg.config.merge inputs).keys.Nodup := Dict.merge_keys_nodup hc.config_nodup inputs
  have hcomb : combineConfigAndInputs fg.config inputs = .ok (fg.config.merge inputs) := by
    unfold combineConfigAndInputs
    have : inputs.keys.filter (fun k => fg.config.has k) = [] := by
      rw [List.filter_eq_nil_iff]
      intro k hk hcc
      exact hdisj k hk ((Dict.has_iff _ _).1 hcc)
    simp [this]
  have hsame : ∀ k, (fg.config.merge (fg.config.merge inputs)).get? k = (fg.config.merge inputs).get? k := by
    intro k
    rw [Dict.get?_merge _ _ halln, Dict.get?_merge _ _ hc.inputs_nodup]
    cases inputs.get? k <;> cases fg.config.get? k <;> rfl
  obtain ⟨vis, hvis, hmem, _, hvn⟩ := directionalDfs_spec (fg := fg)
    (next := upstreamNext fg (some (fg.config.merge inputs)) (some overrides))
    (upstream_closed (config := fg.config) hw (some (fg.config.merge inputs)) (some overrides))
    (fun k hk => (hc.graph.config_in k ((Dict.has_iff _ _).1 hk)).imp (fun _ h => h.1)) finalVars
    (some (fg.config.merge inputs))
  have hunknown : finalVars.filter (fun v => !(fg.nodes.has v || fg.config.has v) &&
      !(((some (fg.config.merge inputs)).getD []).has v)) = [] := by
    rw [List.filter_eq_nil_iff]
    intro k hk
    obtain ⟨n, hn⟩ := hc.requested k hk
    have : fg.nodes.has k = true := (Dict.has_eq_true_iff _ _).2 ⟨n, hn⟩
    simp [this]
  rw [if_pos hunknown] at hvis
  have hiff : ∀ x, x ∈ vis.nodes ↔ CallNeeds fg finalVars overrides inputs x := by
    intro x
    have he : ∀ a b, nextOf fg.nodes (upstreamNext fg (some (fg.config.merge inputs)) (some overrides)) a b ↔
        RunEdge fg.nodes (fg.config.merge inputs) overrides a b := by
      intro a b
      rw [nextOf_upstream_some (config := fg.config) hw halln (some overrides) a b]
      unfold RunEdge
      simp only [hsame]
      rfl
    rw [hmem]
    constructor
    · rintro ⟨r, hr, hrn, h⟩
      exact ⟨r, hr, h.mono (fun a b e => (he a b).1 e)⟩
    · rintro ⟨r, hr, h⟩
      exact ⟨r, hr, hc.requested r hr, h.mono (fun a b e => (he a b).2 e)⟩
  have hvg : ∀ x ∈ vis.nodes, ∃ n, (listifyGraph ops fg.nodes).get? x = some n := by
    intro x hx
    obtain ⟨r, hr, hre⟩ := (hiff x).1 hx
    have : ∃ n, fg.nodes.get? x = some n := by
      clear hx
      induction hre with
      | refl => exact hc.requested r hr
      | step _ e _ =>
        obtain ⟨_, nn, t, h1, h2, _⟩ := e
        exact hw.deps_in h1 (Dict.mem_keys_iff.2 ⟨t, h2⟩)
    obtain ⟨n, hn⟩ := this
    exact ⟨_, by rw [listify_get?, hn]; rfl⟩
  -- the node objects
  let nodes := vis.nodes.filterMap (fun k => (listifyGraph ops fg.nodes).get? k)
  have hnodes : ∀ n, n ∈ nodes ↔ CallNeeds fg finalVars overrides inputs n.name ∧
      (listifyGraph ops fg.nodes).get? n.name = some n := by
    intro n
    show n ∈ vis.nodes.filterMap _ ↔ _
    rw [List.mem_filterMap, ← hiff]
    constructor
    · rintro ⟨k, hk, hkn⟩
      have := hlw.name_eq hkn
      rw [this]; exact ⟨hk, hkn⟩
    · rintro ⟨h1, h2⟩; exact ⟨_, h1, h2⟩
  have hneed : ∀ {x}, CallNeeds fg finalVars overrides inputs x → ∃ n ∈ nodes, n.name = x := by
    intro x hx
    obtain ⟨n, hn⟩ := hvg x ((hiff x).2 hx)
    have hname := hlw.name_eq hn
    refine ⟨n, (hnodes n).2 ?_, hname⟩
    rw [hname]
    exact ⟨hx, hn⟩
  have hnames : (nodes.map (·.name)).Nodup := by
    have : nodes.map (·.name) = vis.nodes := by
      show (vis.nodes.filterMap _).map _ = _
      have key : ∀ l : List Name, (∀ x ∈ l, ∃ n, (listifyGraph ops fg.nodes).get? x = some n) →
          (l.filterMap (fun k => (listifyGraph ops fg.nodes).get? k)).map (·.name) = l := by
        intro l
        induction l with
        | nil => intro _; rfl
        | cons a t ih =>
          intro hl
          obtain ⟨n, hn⟩ := hl a (by simp)
          rw [List.filterMap_cons, hn]
          simp only [List.map_cons]
          rw [ih (fun x hx => hl x (by simp [hx])), hlw.name_eq hn]
      exact key _ hvg
    rw [this]; exact hvn
  have hreq : ∀ k ∈ finalVars, ∃ n ∈ nodes, n.name = k := fun k hk => hneed ⟨k, hk, .refl _⟩
  have hne : nodes ≠ [] := by
    obtain ⟨k, hk⟩ := List.exists_mem_of_ne_nil _ hc.nonempty
    obtain ⟨n, hn, _⟩ := hreq k hk
    intro h
    rw [h] at hn; cases hn
  have hcol : ∀ n ∈ nodes, n.kind = .collect → CallNeeds fg finalVars overrides inputs n.name ∧ Collector fg.nodes n.name := by
    intro n hn hk
    obtain ⟨h1, h2⟩ := (hnodes n).1 hn
    obtain ⟨m, h3, h4⟩ := listify_inv h2
    exact ⟨h1, m, h3, by rw [← (listifyNode_same (ops := ops) m).2.2, ← h4]; exact hk⟩
  have hsealed : SealedBlocks (listifyGraph ops fg.nodes) nodes overrides := by
    refine { in_graph := fun n hn => ((hnodes n).1 hn).2, names_nodup := hnames, start := ?_, one_start := ?_, one_end := ?_,
             whole := ?_, inside_use := ?_, start_use := ?_, untouched := ?_ }
    · intro c hcm hk
      obtain ⟨h1, h2⟩ := hcol c hcm hk
      obtain ⟨e, he⟩ := hc.start _ h1 h2
      exact ⟨e, listify_feeds.2 he⟩
    · intro c hcm hk e e' h h'
      obtain ⟨h1, h2⟩ := hcol c hcm hk
      exact hc.one_start _ h1 h2 _ _ (listify_feeds.1 h) (listify_feeds.1 h')
    · intro c hcm hk c' hcm' hk' e h h'
      obtain ⟨h1, h2⟩ := hcol c hcm hk
      obtain ⟨h1', h2'⟩ := hcol c' hcm' hk'
      exact hc.one_end _ _ h1 h2 h1' h2' e (listify_feeds.1 h) (listify_feeds.1 h')
    · intro c hcm hk x hx
      obtain ⟨h1, h2⟩ := hcol c hcm hk
      rw [listify_feeds, listify_inBlock] at hx
      exact hneed (hc.whole h1 h2 hx)
    · intro c hcm hk x hx m hm hd
      obtain ⟨h1, h2⟩ := hcol c hcm hk
      rw [listify_inBlock] at hx ⊢
      exact hc.inside_use _ h1 h2 x hx _ ((hnodes m).1 hm).1 (listify_depends.1 hd)
    · intro c hcm hk e he m hm hd
      obtain ⟨h1, h2⟩ := hcol c hcm hk
      rw [listify_inBlock]
      exact hc.start_use _ h1 h2 e (listify_feeds.1 he) _ ((hnodes m).1 hm).1 (listify_depends.1 hd)
    · intro c hcm hk x hx
      obtain ⟨h1, h2⟩ := hcol c hcm hk
      rw [listify_feeds, listify_inBlock] at hx
      exact hc.untouched _ h1 h2 x hx
  have hclosed : ∀ n ∈ nodes, overrides.get? n.name = none → ∀ d ∈ n.inputTypes.keys, (∃ dn ∈ nodes, dn.name = d) ∨
      ((∃ ty, n.inputTypes.get? d = some (ty, .optional)) ∧
        (∃ dn, (listifyGraph ops fg.nodes).get? d = some dn ∧ dn.kind = .external) ∧
        (fg.config.merge inputs).get? d = none) := by
    intro n hn hno d hd
    obtain ⟨hnv, hng⟩ := (hnodes n).1 hn
    obtain ⟨⟨ty, dt⟩, hty⟩ := Dict.mem_keys_iff.1 hd
    by_cases he : dt = .optional ∧ ∃ dn, (listifyGraph ops fg.nodes).get? d = some dn ∧ dn.kind = .external ∧
        (fg.config.merge inputs).get? d = none
    · obtain ⟨rfl, dn, h1, h2, h3⟩ := he
      exact .inr ⟨⟨ty, hty⟩, ⟨dn, h1, h2⟩, h3⟩
    · exact .inl (hneed (hnv.step (listify_runEdge.1 ⟨hno, n, (ty, dt), hng, hty, he⟩)))
  have hdash : ∀ n ∈ nodes, DashFree n.name := by
    intro n hn
    obtain ⟨m, h1, _⟩ := listify_inv ((hnodes n).1 hn).2
    exact (hc.names _ m h1).2
  obtain ⟨groups, specs, hgr, hplan, hlive, hkeys⟩ := C50_default_plan hlw hlac hsealed hdash
    (fun k n hk => by
      obtain ⟨m, h1, _⟩ := listify_inv hk
      exact (hc.names _ m h1).1) hne finalVars (by
      intro n hn hno d hd hrq
      rcases hclosed n hn hno d hd with h | ⟨⟨ty, hty⟩, _⟩
      · exact h
      · unfold Node.requires at hrq
        rw [hty] at hrq; cases hrq)
  have hgb : groups = blockGroups (listifyGraph ops fg.nodes) nodes := by
    have := hsealed.toBlockShape.groups hlw hlac
    rw [hgr] at this
    exact Option.some.inj this
  have hstart : ∀ k, (Dict.merge overrides (fg.config.merge inputs)).get? k =
      ((fg.config.merge inputs).get? k).or (overrides.get? k) := fun k => Dict.get?_merge _ _ halln k
  refine ⟨nodes, specs, ?_, hreq, fun n hn => ((hnodes n).1 hn).1, ?_⟩
  · refine { law := hlaw, wf := hlw, acyclic := hlac, blocks := hsealed, dash := hdash, plan := hgb ▸ hplan, live := hlive,
             closed := hclosed, agree := hc.agree, start := hstart, keys := hkeys, start_plain := ?_, listed := ?_,
             param := ?_, not_requested := ?_ }
    · intro _ key v hkv
      rw [hstart, Dict.get?_merge _ _ hc.inputs_nodup] at hkv
      cases hi : inputs.get? key with
      | some u => exact hc.given_names _ (.inl (Dict.mem_keys_iff.2 ⟨u, hi⟩))
      | none =>
        cases hcf : fg.config.get? key with
        | some u =>
          obtain ⟨n, hn, _⟩ := hc.graph.config_in key (Dict.mem_keys_iff.2 ⟨u, hcf⟩)
          exact (hc.names _ _ hn).1
        | none =>
          rw [hi, hcf] at hkv
          exact hc.given_names _ (.inr (Dict.mem_keys_iff.2 ⟨v, hkv⟩))
    · intro k n hk hke kw v hv
      obtain ⟨m, h1, rfl⟩ := listify_inv hk
      rw [(listifyNode_same m).2.2] at hke
      unfold listifyNode at hv
      rw [if_pos hke] at hv
      simp only at hv
      cases hf : m.fn kw with
      | error e => rw [hf] at hv; cases hv
      | ok u =>
        rw [hf] at hv
        simp only at hv
        cases hl : ops.toList u with
        | none => rw [hl] at hv; cases hv
        | some l =>
          rw [hl] at hv
          cases hv
          exact ⟨l, rfl⟩
    · intro c hcm hk
      obtain ⟨h1, h2⟩ := (hnodes c).1 hcm
      obtain ⟨m, h3, h4⟩ := listify_inv h2
      have hmk : m.kind = .collect := by rw [← (listifyNode_same (ops := ops) m).2.2, ← h4]; exact hk
      have hcm' : c = m := by
        rw [h4]
        unfold listifyNode
        rw [if_neg (by rw [hmk]; simp)]
      subst hcm'
      obtain ⟨arg, a1, a2, a3, a4⟩ := hc.param _ c h1 h3 hk
      exact ⟨arg, a1, listify_inBlock.2 a2, fun d hd hb => a3 d hd (listify_inBlock.1 hb), a4⟩
    · intro c hcm hk x hx
      obtain ⟨h1, h2⟩ := hcol c hcm hk
      exact hc.not_requested _ h1 h2 x (listify_inBlock.1 hx)
  · intro cs
    unfold taskBasedExecute getUpstreamNodes
    rw [hcomb]
    simp only [hvis]
    have hgr' : groupByRepeatableBlocks (listifyGraph ops fg.nodes)
        (List.filterMap (fun k => (listifyGraph ops fg.nodes).get? k) vis.nodes) = some groups := hgr
    rw [hgr']
    simp only [hplan]
    try rfl

/-- A finished run in which no failure was hidden is successful. -/
theorem terminal_success {specs : List (TaskSpec T V)} {g : Graph T V} {l : Loop T V} (hinv : LInv ops g specs l)
    (hnf : ∀ id, l.sched.states.get? id ≠ some .failed)
    (hterm : (graphState l.sched).isTerminal = true) : graphState l.sched = .successful := by
  cases hgs : graphState l.sched with
  | successful => rfl
  | failed =>
    exfalso
    unfold graphState at hgs
    split at hgs
    · cases hgs
    · split at hgs
      · cases hgs
      · split at hgs
        · rename_i h3
          rw [List.any_eq_true] at h3
          obtain ⟨p, hp, hpf⟩ := h3
          rw [beq_iff_eq] at hpf
          have := Dict.get?_of_mem hinv.states_nodup (k := p.1) (v := p.2) hp
          exact hnf p.1 (by rw [this, hpf])
        · cases hgs
  | _ => rw [hgs] at hterm; cases hterm

/-- **C56, soundness.** Whatever the executors and the order of completion: if a task-based call returns, it returns exactly
the requested names, each with the value of the sequential reading.  Missing: other grouping strategies, and the calls
excluded by `BlockCall` (`C56_violated_override` and others show that overrides in blocks give different values). -/
theorem C56_sequential_partial (hlaw : ∀ l, ops.toList (ops.ofList l) = some l)
    (hc : BlockCall ops fg finalVars overrides inputs) (cs : List Choice) (hcs : ∀ c ∈ cs, ∀ id, c.obs id ≠ .silentFail)
    {r : Dict Name V} (h : taskBasedExecute ops ex (fun g nodes => groupByRepeatableBlocks g nodes) fg finalVars overrides
      inputs cs = .ok r) :
    (∀ k, k ∈ r.keys ↔ k ∈ finalVars) ∧
      ∀ k v, r.get? k = some v → ParDen ops fg.nodes (fg.config.merge inputs) overrides k v := by
  have hdisj : ∀ k ∈ inputs.keys, k ∉ fg.config.keys := by
    unfold taskBasedExecute at h
    cases hcomb : combineConfigAndInputs fg.config inputs with
    | error e => rw [hcomb] at h; cases h
    | ok a => exact (combine_ok hcomb).2
  obtain ⟨nodes, specs, ctx, hreq, _, hexec⟩ := hc.setup (ex := ex) hlaw hdisj
  rw [hexec] at h
  obtain ⟨hok, _⟩ := run_ainv (g := listifyGraph ops fg.nodes) (ex := ex) hlaw ctx.hp ctx.keys ctx.start_plain cs
  cases hrun : runLoop ops (listifyGraph ops fg.nodes) ex cs
      (initLoop specs (Dict.merge overrides (fg.config.merge inputs))) with
  | err e l => rw [hrun] at h; cases h
  | ok l =>
    rw [hrun] at h
    simp only at h
    have hinv := hok l hrun
    have hnf := runLoop_noFail cs hcs (init_noFail specs _) hrun
    split at h
    · rename_i hterm
      have hsucc := terminal_success hinv.loop hnf hterm
      cases hread : cacheRead l.sched.cache none none false finalVars with
      | error e => rw [hread] at h; cases h
      | ok r' =>
        rw [hread] at h
        cases h
        obtain ⟨_, hr1, hr2⟩ := cacheRead_spec hread
        refine ⟨?_, ?_⟩
        · intro k
          rw [Dict.mem_keys_iff]
          constructor
          · rintro ⟨v, hv⟩; exact ((hr1 _ _).1 hv).1
          · exact hr2 rfl k
        · intro k v hv
          obtain ⟨hk, hcv⟩ := (hr1 _ _).1 hv
          obtain ⟨n, hn, rfl⟩ := hreq k hk
          exact (ctx.final hinv hsucc hn hk hcv).unlistify hlaw
    · cases h

/-- **C56, one value.** In the calls considered the sequential reading gives a needed node at most one value. -/
theorem C56_reading_unique_partial (hlaw : ∀ l, ops.toList (ops.ofList l) = some l)
    (hc : BlockCall ops fg finalVars overrides inputs) (hdisj : ∀ k ∈ inputs.keys, k ∉ fg.config.keys) {k : Name}
    (hk : k ∈ finalVars) {v w : V}
    (h : ParDen ops fg.nodes (fg.config.merge inputs) overrides k v)
    (h' : ParDen ops fg.nodes (fg.config.merge inputs) overrides k w) : v = w := by
  obtain ⟨nodes, specs, ctx, hreq, _, _⟩ := hc.setup (ex := ⟨fun _ => true⟩) hlaw hdisj
  exact ctx.det (fun _ h => h) (.inl (hreq k hk)) (h.listify hlaw) (h'.listify hlaw)

/-- **C56, schedule independence.** Two runs of one call that return, with whatever executors and completion orders, return the
same values. -/
theorem C56_schedule_partial {ex' : Executors} (hlaw : ∀ l, ops.toList (ops.ofList l) = some l)
    (hc : BlockCall ops fg finalVars overrides inputs) (cs cs' : List Choice)
    (hcs : ∀ c ∈ cs, ∀ id, c.obs id ≠ .silentFail) (hcs' : ∀ c ∈ cs', ∀ id, c.obs id ≠ .silentFail) {r r' : Dict Name V}
    (h : taskBasedExecute ops ex (fun g nodes => groupByRepeatableBlocks g nodes) fg finalVars overrides inputs cs = .ok r)
    (h' : taskBasedExecute ops ex' (fun g nodes => groupByRepeatableBlocks g nodes) fg finalVars overrides inputs cs' =
      .ok r') (k : Name) : r.get? k = r'.get? k := by
  have hdisj : ∀ k ∈ inputs.keys, k ∉ fg.config.keys := by
    unfold taskBasedExecute at h
    cases hcomb : combineConfigAndInputs fg.config inputs with
    | error e => rw [hcomb] at h; cases h
    | ok a => exact (combine_ok hcomb).2
  obtain ⟨a1, a2⟩ := C56_sequential_partial hlaw hc cs hcs h
  obtain ⟨b1, b2⟩ := C56_sequential_partial hlaw hc cs' hcs' h'
  cases hv : r.get? k with
  | none =>
    cases hv' : r'.get? k with
    | none => rfl
    | some w =>
      have := (a1 k).2 ((b1 k).1 (Dict.mem_keys_iff.2 ⟨w, hv'⟩))
      obtain ⟨u, hu⟩ := Dict.mem_keys_iff.1 this
      rw [hv] at hu; cases hu
  | some v =>
    have hk := (a1 k).1 (Dict.mem_keys_iff.2 ⟨v, hv⟩)
    obtain ⟨w, hw⟩ := Dict.mem_keys_iff.1 ((b1 k).2 hk)
    rw [hw, C56_reading_unique_partial hlaw hc hdisj hk (a2 k v hv) (b2 k w hw)]

/-- **C56, completeness.** If the sequential reading gives every needed node outside of blocks a value, the task-based call
returns, under every schedule of executors that complete what they are given and neither break nor hide failures; with these
values. -/
theorem C56_complete_partial (hlaw : ∀ l, ops.toList (ops.ofList l) = some l)
    (hc : BlockCall ops fg finalVars overrides inputs) (hdisj : ∀ k ∈ inputs.keys, k ∉ fg.config.keys)
    (hval : ∀ k, CallNeeds fg finalVars overrides inputs k →
      (∀ c, CallNeeds fg finalVars overrides inputs c → Collector fg.nodes c → ¬ InBlock fg.nodes c k) →
      ∃ v, ParDen ops fg.nodes (fg.config.merge inputs) overrides k v)
    {σ : Nat → Choice} (hfair : FairSchedule σ) (hσ : ∀ n id, (σ n).obs id ≠ .silentFail ∧ (σ n).obs id ≠ .broken) :
    ∃ n r, taskBasedExecute ops ex (fun g nodes => groupByRepeatableBlocks g nodes) fg finalVars overrides inputs
        (prefixOf σ n) = .ok r ∧
      ∀ k ∈ finalVars, ∃ v, r.get? k = some v ∧ ParDen ops fg.nodes (fg.config.merge inputs) overrides k v := by
  obtain ⟨nodes, specs, ctx, hreq, hneed, hexec⟩ := hc.setup (ex := ex) hlaw hdisj
  have hvals : HasValues ops (listifyGraph ops fg.nodes) (fg.config.merge inputs) overrides nodes := by
    intro n hn hout
    obtain ⟨v, hv⟩ := hval n.name (hneed n hn) (by
      rintro c hcn ⟨m, hm, hmk⟩ hb
      have hml : (listifyGraph ops fg.nodes).get? c = some (listifyNode ops m) := by rw [listify_get?, hm]; rfl
      obtain ⟨cn, hcnn, hcname⟩ : ∃ cn ∈ nodes, cn.name = c := by
        have hw := listify_wf (ops := ops) hc.graph.wf
        obtain ⟨r, hr, hre⟩ := hcn
        clear hb hm hml
        induction hre with
        | refl => exact hreq _ hr
        | step _ e ih =>
          obtain ⟨hno, nn, t, h1, h2, h3⟩ := listify_runEdge.2 e
          obtain ⟨an, han, rfl⟩ := ih
          rw [ctx.blocks.in_graph an han] at h1
          cases h1
          rcases ctx.closed nn han hno _ (Dict.mem_keys_iff.2 ⟨t, h2⟩) with h | ⟨⟨ty, hty⟩, ⟨dn, h4, h5⟩, h6⟩
          · exact h
          · rw [hty] at h2; cases h2
            exact absurd ⟨rfl, dn, h4, h5, h6⟩ h3
      subst hcname
      have := ctx.blocks.in_graph cn hcnn
      rw [hml] at this
      cases this
      exact hout _ hcnn (by rw [(listifyNode_same m).2.2]; exact hmk) (listify_inBlock.2 hb))
    exact ⟨v, hv.listify hlaw⟩
  obtain ⟨n, hend⟩ := (LInv.init (ops := ops) (g := listifyGraph ops fg.nodes) ctx.hp
    (Dict.merge overrides (fg.config.merge inputs))).ends (ex := ex) hlaw ctx.live hfair
  have hpre : ∀ c ∈ prefixOf σ n, ∀ id, c.obs id ≠ .silentFail ∧ c.obs id ≠ .broken := by
    intro c hcm id
    obtain ⟨m, _, rfl⟩ := List.mem_map.1 hcm
    exact hσ m id
  suffices H : ∃ r, taskBasedExecute ops ex (fun g nodes => groupByRepeatableBlocks g nodes) fg finalVars overrides inputs
      (prefixOf σ n) = .ok r by
    obtain ⟨r, hr⟩ := H
    refine ⟨n, r, hr, ?_⟩
    obtain ⟨h1, h2⟩ := C56_sequential_partial hlaw hc _ (fun c hcm id => (hpre c hcm id).1) hr
    intro k hk
    obtain ⟨v, hv⟩ := Dict.mem_keys_iff.1 ((h1 k).2 hk)
    exact ⟨v, hv, h2 k v hv⟩
  rw [hexec]
  obtain ⟨hok, _⟩ := run_ainv (g := listifyGraph ops fg.nodes) (ex := ex) hlaw ctx.hp ctx.keys ctx.start_plain (prefixOf σ n)
  cases hrun : runLoop ops (listifyGraph ops fg.nodes) ex (prefixOf σ n)
      (initLoop specs (Dict.merge overrides (fg.config.merge inputs))) with
  | err e l =>
    exfalso
    have hout' := runLoop_outcome (ex := ex) hlaw ctx.hp (prefixOf σ n)
      (LInv.init (ops := ops) (g := listifyGraph ops fg.nodes) ctx.hp (Dict.merge overrides (fg.config.merge inputs)))
    rw [hrun] at hout'
    obtain ⟨l1, hacts, hfault⟩ := hout'
    have hinv := (AInv.init (ops := ops) (g := listifyGraph ops fg.nodes) ctx.hp
      (Dict.merge overrides (fg.config.merge inputs))).acts hlaw ctx.hp ctx.keys ctx.start_plain hacts
    have hqd := (QueueDeps.acts hlaw ctx.hp (LInv.init (ops := ops) (g := listifyGraph ops fg.nodes) ctx.hp
      (Dict.merge overrides (fg.config.merge inputs))) (initLoop_queueDeps ctx.hp _) hacts).2
    obtain ⟨id, hid⟩ := ctx.no_fault hvals hinv hqd hfault
    exact runLoop_notBroken _ (fun c hcm id => (hpre c hcm id).2) hrun id hid
  | ok l =>
    rw [hrun] at hend
    simp only
    have hinv := hok l hrun
    have hterm : (graphState l.sched).isTerminal = true := hend
    rw [if_pos hterm]
    have hnf := runLoop_noFail _ (fun c hcm id => (hpre c hcm id).1) (init_noFail specs _) hrun
    have hsucc := terminal_success hinv.loop hnf hterm
    obtain ⟨r, hr⟩ := cacheRead_ok (c := l.sched.cache) (opt := false) (ks := finalVars) (fun _ k hk => by
      obtain ⟨n', hn', rfl⟩ := hreq k hk
      exact ctx.final_some hinv hsucc hn' hk)
    rw [hr]
    exact ⟨r, rfl⟩

end Calls

/-! ### Examples and counterexamples -/
namespace TaskSample

/-- The driver's graph. -/
def fgraph : FnGraph Bool Va := ⟨graph, []⟩

theorem graph_feeds {x : Name} : Feeds graph x "c" ↔ x = "e" := by rw [← feeds_iff]; exact listify_feeds.symm

theorem graph_inBlock {x : Name} : InBlock graph "c" x ↔ x = "a" ∨ x = "b" := by rw [← inBlock_iff]; exact listify_inBlock.symm

theorem graph_get_all {P : Name → Node Bool Va → Bool} (h : graph.all (fun p => P p.1 p.2) = true) {k : Name}
    {n : Node Bool Va} (hk : graph.get? k = some n) : P k n = true := by
  rw [List.all_eq_true] at h
  exact h _ (Dict.get?_mem hk)

theorem graph_collector {c : Name} (h : Collector graph c) : c = "c" := by
  obtain ⟨n, hn, hk⟩ := h
  have := graph_get_all (P := fun k n => n.kind != .collect || k == "c") (by decide) hn
  simpa [hk] using this

theorem graph_depends {m d : Name} (h : DependsOn graph m d) : (m, d) ∈ [("n", "x"), ("e", "n"), ("a", "e"), ("b", "a"),
    ("b", "n"), ("c", "b"), ("d", "c")] := by
  obtain ⟨n, hn, hd⟩ := h
  have := graph_get_all (P := fun k n => n.inputTypes.keys.all (fun d => decide ((k, d) ∈ [("n", "x"), ("e", "n"), ("a", "e"),
    ("b", "a"), ("b", "n"), ("c", "b"), ("d", "c")]))) (by decide) hn
  rw [List.all_eq_true] at this
  simpa using this d hd

/-- The call `execute(["d", "n"], inputs={"x": 1}, overrides={"y": 0})`. -/
theorem blockCall : BlockCall ops fgraph ["d", "n"] [("y", .i 0)] [("x", .i 1)] where
  graph := ⟨(createFunctionGraph_spec fns_fresh graph_ok).1, (createFunctionGraph_spec fns_fresh graph_ok).2.1⟩
  acyclic := by
    refine ⟨nodeRank, fun k n hk d hd => ?_⟩
    have := graph_get_all (P := fun k n => n.inputTypes.keys.all (fun d => decide (nodeRank d < nodeRank k))) (by decide) hk
    rw [List.all_eq_true] at this
    simpa using this d hd
  config_nodup := by decide
  inputs_nodup := by decide
  requested := by
    have h : ∀ k ∈ ["d", "n"], (fgraph.nodes.get? k).isSome = true := by decide
    intro k hk
    exact Option.isSome_iff_exists.1 (h k hk)
  nonempty := by decide
  agree := by
    intro k v w h1 h2
    have : k ∈ (fgraph.config.merge [("x", Va.i 1)]).keys := Dict.mem_keys_iff.2 ⟨v, h1⟩
    have h3 : k = "x" := by
      have hk : (fgraph.config.merge [("x", Va.i 1)]).keys = ["x"] := by decide
      rw [hk] at this
      simpa using this
    rw [h3] at h2
    cases h2
  names := by
    intro k n hk
    have h : ∀ k ∈ fgraph.nodes.keys, ColonFree k ∧ DashFree k := by unfold ColonFree DashFree; decide
    exact h k (Dict.mem_keys_iff.2 ⟨n, hk⟩)
  given_names := by
    have h : ∀ k ∈ ["x", "y"], ColonFree k := by unfold ColonFree; decide
    rintro k (hk | hk)
    · exact h k (by simp [Dict.keys] at hk; simp [hk])
    · exact h k (by simp [Dict.keys] at hk; simp [hk])
  start := by
    intro c _ hk
    rw [graph_collector hk]
    exact ⟨"e", graph_feeds.2 rfl⟩
  one_start := by
    intro c _ hk e e' h h'
    rw [graph_collector hk] at h h'
    rw [graph_feeds.1 h, graph_feeds.1 h']
  one_end := by
    intro c c' _ hk _ hk' _ _ _
    rw [graph_collector hk, graph_collector hk']
  inside_use := by
    intro c _ hk x hx m _ hd
    rw [graph_collector hk] at hx ⊢
    have h1 : x = "a" ∨ x = "b" := graph_inBlock.1 hx
    have h2 := graph_depends hd
    rcases h1 with rfl | rfl
    · left
      refine graph_inBlock.2 ?_
      simp at h2
      simp [h2]
    · right
      simp at h2
      exact h2
  start_use := by
    intro c _ hk e he m _ hd
    rw [graph_collector hk] at he ⊢
    have h1 : e = "e" := graph_feeds.1 he
    subst h1
    have h2 := graph_depends hd
    refine graph_inBlock.2 ?_
    simp at h2
    simp [h2]
  untouched := by
    intro c _ hk x hx
    rw [graph_collector hk] at hx
    have : x = "e" ∨ (x = "a" ∨ x = "b") ∨ x = "c" := by
      rcases hx with h | h | h
      · exact .inl (graph_feeds.1 h)
      · exact .inr (.inl (graph_inBlock.1 h))
      · exact .inr (.inr h)
    rcases this with rfl | (rfl | rfl) | rfl <;> rfl
  param := by
    intro c n _ hn hk
    have hcc : c = "c" := graph_collector ⟨n, hn, hk⟩
    subst hcc
    have hin : n.inputTypes = [("b", (true, .required))] := by
      have h : (fgraph.nodes.get? "c").map (·.inputTypes) = some [("b", (true, .required))] := by decide
      rw [hn] at h
      exact Option.some.inj h
    refine ⟨"b", ⟨⟨(true, .required), by rw [hin]; simp, rfl⟩, ?_⟩, graph_inBlock.2 (.inr rfl), ?_, rfl⟩
    · intro p hp _
      rw [hin] at hp
      simp at hp
      rw [hp]
    · intro d hd _
      rw [hin] at hd
      simpa [Dict.keys] using hd
  not_requested := by
    intro c _ hk x hx
    rw [graph_collector hk] at hx
    have : x = "a" ∨ x = "b" := graph_inBlock.1 hx
    rcases this with rfl | rfl <;> decide

/-- A function is called with the values of its parameters. -/
theorem den_call {gr : Graph Bool Va} {inp ov : Dict Name Va} {k : Name} {n : Node Bool Va} (args : Dict Name Va) {v : Va}
    (hn : gr.get? k = some n) (ho : ov.get? k = none) (hk : n.kind = .standard)
    (hargs : ∀ d ∈ n.inputTypes.keys, ∃ w, args.get? d = some w ∧ ParDen ops gr inp ov d w)
    (hf : n.fn (argsFor n.inputTypes args.get?) = .ok v) : ParDen ops gr inp ov k v := by
  refine .call args.get? hn ho (by rw [hk]; simp) (by rw [hk]; simp) ?_ ?_ hf ?_
  · intro d w hd hw
    obtain ⟨w', h1, h2⟩ := hargs d hd
    rw [h1] at hw; cases hw; exact h2
  · intro d t hd hw
    obtain ⟨w', h1, _⟩ := hargs d (mem_keys_of_mem hd)
    rw [h1] at hw; cases hw
  · unfold Listed
    rw [if_neg (by rw [hk]; simp)]

/-- The inputs together with the (empty) config. -/
def given : Dict Name Va := fgraph.config.merge [("x", .i 1)]

variable {ov : Dict Name Va}

theorem den_x (h : ov.get? "x" = none) : ParDen ops graph given ov "x" (.i 1) := .input rfl h rfl rfl

theorem den_n (h : ov.get? "x" = none) (h2 : ov.get? "n" = none) : ParDen ops graph given ov "n" (.i 2) :=
  den_call [("x", .i 1)] rfl h2 rfl (by
    intro d hd
    have : d = "x" := by simpa [Dict.keys] using (show d ∈ ["x"] from hd)
    subst this
    exact ⟨_, rfl, den_x h⟩) rfl

theorem den_e (h : ov.get? "x" = none) (h2 : ov.get? "n" = none) (h3 : ov.get? "e" = none) :
    ParDen ops graph given ov "e" (.l [.i 0, .i 1]) := by
  refine .call (fun d => if d = "n" then some (.i 2) else none) (v := .l [.i 0, .i 1]) rfl h3 (fun h => nomatch h)
    (fun h => nomatch h) ?_ ?_ rfl ?_
  · intro d w hd hw
    have : d = "n" := by simpa using (show d ∈ ["n"] from hd)
    subst this
    cases hw
    exact den_n h h2
  · intro d t hd hw
    have : d = "n" := by simpa using (show d ∈ ["n"] from mem_keys_of_mem hd)
    subst this
    cases hw
  · exact ⟨[.i 0, .i 1], rfl, rfl⟩

theorem den_a {i : Int} (h : ov.get? "a" = none) (h2 : ov.get? "e" = some (.i i)) :
    ParDen ops graph given ov "a" (.i (i * 10)) :=
  den_call [("e", .i i)] rfl h rfl (by
    intro d hd
    have : d = "e" := by simpa using (show d ∈ ["e"] from hd)
    subst this
    exact ⟨_, rfl, .override rfl h2⟩) rfl

theorem den_b {i : Int} (h0 : ov.get? "b" = none) (h1 : ov.get? "x" = none) (h2 : ov.get? "n" = none)
    (ha : ParDen ops graph given ov "a" (.i i)) : ParDen ops graph given ov "b" (.i (i + 2)) :=
  den_call [("a", .i i), ("n", .i 2)] rfl h0 rfl (by
    intro d hd
    have : d = "a" ∨ d = "n" := by simpa using (show d ∈ ["a", "n"] from hd)
    rcases this with rfl | rfl
    · exact ⟨_, rfl, ha⟩
    · exact ⟨_, rfl, den_n h1 h2⟩) rfl

theorem den_c {u v : Va} (h0 : ov.get? "c" = none) (h1 : ov.get? "x" = none) (h2 : ov.get? "n" = none)
    (h3 : ov.get? "e" = none) (hu : ParDen ops graph given (ov.set "e" (.i 0)) "b" u)
    (hv : ParDen ops graph given (ov.set "e" (.i 1)) "b" v) : ParDen ops graph given ov "c" (.l [u, v]) := by
  refine .collect (arg := "b") (e := "e") (vs := [u, v]) (fun _ => some (.l [u, v])) rfl h0 rfl ⟨⟨(true, .required), ?_, rfl⟩, ?_⟩
    (graph_feeds.2 rfl) (den_e h1 h2 h3) rfl rfl ?_ rfl ?_ ?_ rfl
  · exact List.mem_singleton.2 rfl
  · intro p hp _
    have : p = ("b", (true, .required)) := List.mem_singleton.1 hp
    rw [this]
  · intro i item w hi hw
    match i with
    | 0 => cases hi; cases hw; exact hu
    | 1 => cases hi; cases hw; exact hv
    | _ + 2 => cases hi
  · intro d w hd hne _
    exact absurd (by simpa using (show d ∈ ["b"] from hd)) hne
  · intro d t _ h; cases h

theorem den_d {v : Va} (h0 : ov.get? "d" = none) (hc : ParDen ops graph given ov "c" v) :
    ParDen ops graph given ov "d" v :=
  den_call [("c", v)] rfl h0 rfl (by
    intro d hd
    have : d = "c" := by simpa using (show d ∈ ["c"] from hd)
    subst this
    exact ⟨_, rfl, hc⟩) rfl

/-- The sequential reading of the sample: `d` is `[0 * 10 + 2, 1 * 10 + 2]`. -/
theorem reading : ParDen ops graph given [("y", .i 0)] "c" (.l [.i 2, .i 12]) :=
  den_c rfl rfl rfl rfl (den_b (i := 0) rfl rfl rfl (den_a (i := 0) rfl rfl))
    (den_b (i := 10) rfl rfl rfl (den_a (i := 1) rfl rfl))

/-- Every run of the call, however scheduled, returns these values (`C56_sequential_partial`, `C56_reading_unique_partial`). -/
example (ex : Executors) (cs : List Choice) (hcs : ∀ c ∈ cs, ∀ id, c.obs id ≠ .silentFail) (r : Dict Name Va)
    (h : taskBasedExecute ops ex (fun g nodes => groupByRepeatableBlocks g nodes) fgraph ["d", "n"] [("y", .i 0)]
      [("x", .i 1)] cs = .ok r) : r.get? "d" = some (.l [.i 2, .i 12]) ∧ r.get? "n" = some (.i 2) := by
  obtain ⟨h1, h2⟩ := C56_sequential_partial ops_law blockCall cs hcs h
  have hdisj : ∀ k ∈ Dict.keys [("x", Va.i 1)], k ∉ fgraph.config.keys := fun _ _ h => nomatch h
  have key : ∀ k v, k ∈ ["d", "n"] → ParDen ops graph given [("y", .i 0)] k v → r.get? k = some v := by
    intro k v hk hv
    obtain ⟨w, hw⟩ := Dict.mem_keys_iff.1 ((h1 k).2 hk)
    rw [hw, C56_reading_unique_partial ops_law blockCall hdisj hk (h2 k w hw) hv]
  exact ⟨key "d" _ (by simp) (den_d rfl reading), key "n" _ (by simp) (den_n rfl rfl)⟩

/-- One of them. -/
example : taskBasedExecute ops ex (fun g nodes => groupByRepeatableBlocks g nodes) fgraph ["d", "n"] [("y", .i 0)]
    [("x", .i 1)] reversed = .ok [("d", .l [.i 2, .i 12]), ("n", .i 2)] := rfl

theorem needs_names {k : Name} (h : CallNeeds fgraph ["d", "n"] [("y", .i 0)] [("x", .i 1)] k) :
    k ∈ ["d", "c", "b", "a", "e", "n", "x"] := by
  obtain ⟨r, hr, h⟩ := h
  induction h with
  | refl =>
    have : ∀ r ∈ ["d", "n"], r ∈ ["d", "c", "b", "a", "e", "n", "x"] := by decide
    exact this r hr
  | step _ e _ =>
    obtain ⟨_, nn, t, h1, h2, _⟩ := e
    have := graph_depends ⟨nn, h1, Dict.mem_keys_iff.2 ⟨t, h2⟩⟩
    simp at this
    rcases this with h | h | h | h | h | h | h <;> simp [h]

/-- The hypotheses of `C56_complete_partial` hold of the call, so it returns under every fair schedule. -/
example (ex : Executors) {σ : Nat → Choice} (hfair : FairSchedule σ)
    (hσ : ∀ n id, (σ n).obs id ≠ .silentFail ∧ (σ n).obs id ≠ .broken) :
    ∃ n r, taskBasedExecute ops ex (fun g nodes => groupByRepeatableBlocks g nodes) fgraph ["d", "n"] [("y", .i 0)]
        [("x", .i 1)] (prefixOf σ n) = .ok r ∧
      ∀ k ∈ ["d", "n"], ∃ v, r.get? k = some v ∧ ParDen ops graph given [("y", .i 0)] k v := by
  refine C56_complete_partial ops_law blockCall (fun _ _ h => nomatch h) ?_ hfair hσ
  intro k hk hout
  have hc : CallNeeds fgraph ["d", "n"] [("y", .i 0)] [("x", .i 1)] "c" :=
    ⟨"d", by simp, .step (.refl _) ⟨rfl, _, _, rfl, rfl, fun h => nomatch h.1⟩⟩
  have hout' := hout "c" hc ⟨_, rfl, rfl⟩
  have hk' := needs_names hk
  simp only [List.mem_cons, List.not_mem_nil, or_false] at hk'
  rcases hk' with rfl | rfl | rfl | rfl | rfl | rfl | rfl
  · exact ⟨_, den_d rfl reading⟩
  · exact ⟨_, reading⟩
  · exact absurd (graph_inBlock.2 (.inr rfl)) hout'
  · exact absurd (graph_inBlock.2 (.inl rfl)) hout'
  · exact ⟨_, den_e rfl rfl rfl⟩
  · exact ⟨_, den_n rfl rfl⟩
  · exact ⟨_, den_x rfl⟩

/-- **C56, violated for an overridden node of a block.** With `overrides={"b": 3}` the collected values are 3, 3, but the
collector is called with the empty list. -/
theorem C56_violated_override :
    taskBasedExecute ops ex (fun g nodes => groupByRepeatableBlocks g nodes) fgraph ["d"] [("b", .i 3)] [("x", .i 1)]
      (eager 20) = .ok [("d", .l [])] ∧
    ParDen ops fgraph.nodes (fgraph.config.merge [("x", .i 1)]) [("b", .i 3)] "d" (.l [.i 3, .i 3]) :=
  ⟨rfl, den_d rfl (den_c rfl rfl rfl rfl (.override rfl rfl) (.override rfl rfl))⟩

/-- **C56, violated for an overridden inner node of a block.** With `overrides={"a": 3}` the collected values are 5, 5, but
the call raises `KeyError`. -/
theorem C56_violated_inner :
    taskBasedExecute ops ex (fun g nodes => groupByRepeatableBlocks g nodes) fgraph ["d"] [("a", .i 3)] [("x", .i 1)]
      (eager 20) = .error (.task (.keyError "d")) ∧
    ParDen ops fgraph.nodes (fgraph.config.merge [("x", .i 1)]) [("a", .i 3)] "d" (.l [.i 5, .i 5]) :=
  ⟨rfl, den_d rfl (den_c rfl rfl rfl rfl (den_b (i := 3) rfl rfl rfl (.override rfl rfl))
    (den_b (i := 3) rfl rfl rfl (.override rfl rfl)))⟩

end TaskSample
end Verif
