import Verif.Proofs.ParRun2
import Verif.Proofs.PlainRun2

/-! Whole task-based runs with blocks: everything reported is right, and so is what is in the cache at the end. -/
namespace Verif
variable {T V : Type}
variable {ops : TaskOps T V} {g : Graph T V} {all ov c0 : Dict Name V} {requested : List Name}
  {nodes : List (Node T V)} {specs : List (TaskSpec T V)} {ex : Executors}

theorem doneIds_sub {pre post : List (Event T V)} (h : (doneIds (pre ++ post)).Nodup) : (doneIds pre).Nodup := by
  have : doneIds (pre ++ post) = doneIds pre ++ doneIds post := by
    induction pre with
    | nil => rfl
    | cons ev pre ih =>
      cases ev with
      | submit t => exact ih (by simpa [doneIds] using h)
      | done i r =>
        have h' : (i :: doneIds (pre ++ post)).Nodup := h
        rw [List.nodup_cons] at h'
        show i :: doneIds (pre ++ post) = i :: doneIds pre ++ doneIds post
        rw [ih h'.2]; rfl
  rw [this] at h
  exact (List.nodup_append.1 h).1

theorem BlockCtx.submitted {pre post : List (Event T V)} {t : Task T V}
    (hs : SubmitOk ops g specs c0 (pre ++ .submit t :: post)) (hn : (doneIds pre).Nodup)
    (hg : ParTrace ops g all ov specs pre) : ∃ t0, ParSub ops g all ov c0 specs pre t t0 := by
  obtain ⟨t0, h1, h2, h3, h4⟩ := hs pre t post rfl
  exact ⟨t0, h1, h2, h3, h4, hn, hg⟩

/-- All prefixes of a run only report right values. -/
theorem BlockCtx.goodTraces (c : BlockCtx ops g all ov c0 requested nodes specs)
    {tr : List (Event T V)} (ht : TInv ops g specs tr) (hs : SubmitOk ops g specs c0 tr) :
    ∀ pre post, tr = pre ++ post → ParTrace ops g all ov specs pre := by
  suffices H : ∀ n (pre post : List (Event T V)), pre.length = n → tr = pre ++ post → ParTrace ops g all ov specs pre from
    fun pre post => H _ pre post rfl
  intro n
  induction n using Nat.strongRecOn with
  | _ n ih =>
    intro pre post hl heq
    intro id r hd
    obtain ⟨a, b, rfl⟩ := List.append_of_mem hd
    obtain ⟨t, h1, h2, h3⟩ := ht.done_ok a id r (b ++ post) (by rw [heq]; simp)
    obtain ⟨a1, a2, rfl⟩ := List.append_of_mem h1
    have heq' : tr = a1 ++ .submit t :: (a2 ++ .done id r :: (b ++ post)) := by rw [heq]; simp
    have hg1 := ih a1.length (by rw [← hl]; simp) a1 _ rfl heq'
    obtain ⟨t0, hsub⟩ := BlockCtx.submitted (heq' ▸ hs) (doneIds_sub (heq' ▸ ht.done_nodup)) hg1
    obtain ⟨k1, k2⟩ := hsub.result c h3
    refine ⟨t0, hsub.real.mono (fun _ _ hm => by simp [hm]), ?_, k1, k2⟩
    rw [← h2]; exact hsub.core.id_eq.symm

theorem BlockCtx.goodTrace (c : BlockCtx ops g all ov c0 requested nodes specs)
    {tr : List (Event T V)} (ht : TInv ops g specs tr) (hs : SubmitOk ops g specs c0 tr) :
    ParTrace ops g all ov specs tr := c.goodTraces ht hs tr [] (by simp)

theorem BlockCtx.parSub (c : BlockCtx ops g all ov c0 requested nodes specs)
    {tr : List (Event T V)} (ht : TInv ops g specs tr) (hs : SubmitOk ops g specs c0 tr) {t : Task T V}
    (hm : .submit t ∈ tr) : ∃ pre t0, ParSub ops g all ov c0 specs pre t t0 := by
  obtain ⟨pre, post, rfl⟩ := List.append_of_mem hm
  obtain ⟨t0, h⟩ := BlockCtx.submitted hs (doneIds_sub ht.done_nodup) (c.goodTraces ht hs pre _ rfl)
  exact ⟨pre, t0, h⟩

/-- Nodes computed once: their task is not repeated, and it has reported when the run is over. -/
theorem BlockCtx.all_reported (c : BlockCtx ops g all ov c0 requested nodes specs) {l : Loop T V}
    (h : LInv ops g specs l) (hs : graphState l.sched = .successful) {s : TaskSpec T V} (hsm : s ∈ specs)
    (hm : ∀ e, ¬ s.MemberOf e) : Done l.trace s.baseId ∧ ∃ t, l.sched.pool.get? s.baseId = some t := by
  have hall := h.success_all hs
  have hd := h.all_done c.live (fun id t ht => .inr (hall id t ht)) s hsm
  have hdone : stOf l.sched s.baseId = .successful := by
    refine hd.1 ?_
    by_cases hp : s.purpose = .gather
    · exact .inr hp
    · left
      cases hsp : s.spawning with
      | none => rfl
      | some e =>
        exfalso
        refine hm e ⟨hsp, ?_, hp⟩
        intro hpe
        have hcs := c.blocks.toBlockShape.case c.wf c.acyclic (c.spec hsm).group
        generalize hgr : s.toNodeGroup = gr at hcs
        have e1 : s.spawning = gr.spawning := by rw [← hgr]
        have e2 : s.purpose = gr.purpose := by rw [← hgr]
        rw [hpe] at e2
        rw [hsp] at e1
        cases hcs with
        | expand => cases e1
        | block => cases e2
        | gather => cases e2
        | single => cases e1
  refine ⟨(h.done_iff _).1 hdone, ?_⟩
  cases hx : l.sched.pool.get? s.baseId with
  | some t => exact ⟨t, rfl⟩
  | none => rw [h.pool_none _ hx] at hdone; cases hdone

theorem BlockCtx.once_task (c : BlockCtx ops g all ov c0 requested nodes specs) {n : Node T V}
    (hn : ∀ d ∈ nodes, d.kind = .collect → ¬ InBlock g d.name n.name) {p : TaskSpec T V} (hp : p ∈ specs)
    (hpn : n ∈ p.nodes) (e : Name) : ¬ p.MemberOf e := by
  intro hm
  obtain ⟨d, e', h1, h2, h3, h4, h5, h6⟩ := c.member hp hm
  exact hn d h1 h2 ((h6 n).1 hpn).2

theorem BlockCtx.plain_key {p : TaskSpec T V} (hp : p ∈ specs) (hpo : PlanOk specs)
    {pre : List (Event T V)} {t : Task T V} (hr : Realized ops specs pre t) (hid : t.id = p.baseId) (k : Name) :
    t.toTaskSpec = p ∧ t.key k = k := by
  cases hr with
  | static s a b => exact ⟨spec_unique hpo a hp hid, rfl⟩
  | inst s e x items i item a b y hi => exact absurd hid (hpo.inst_fresh s a p hp e i b)
  | coll s e x items a b y => exact ⟨spec_unique hpo a hp hid, rfl⟩

section Final
variable (c : BlockCtx ops g all ov c0 requested nodes specs) {l : Loop T V}
  (h : AInv ops g specs c0 l) (hs : graphState l.sched = .successful) {n : Node T V} (hn : n ∈ nodes)
  (hr : n.name ∈ requested)
include c h hs hn hr

/-- What is in the cache at the end, under the name of a requested node. -/
theorem BlockCtx.final {v : V} (hv : l.sched.cache.get? n.name = some v) : ParDen ops g all ov n.name v := by
  have hg := c.goodTrace h.loop.toTInv h.submit
  have hng := c.blocks.in_graph n hn
  obtain ⟨p, hpm, hpn⟩ := c.task_of hn
  have hsrc : c0.get? n.name = some v ∨ ParDen ops g all ov n.name v := by
    rcases h.cache.source _ _ hv with h1 | ⟨id, r, t, k, w, h1, h2, h3, h4, h5⟩
    · exact .inl h1
    · right
      obtain ⟨hid, hreal⟩ := h.loop.pool_ok _ _ h2
      obtain ⟨q, hq, hnm, r', w', hr', hw', hst⟩ := produced_plain (k := n.name) (v := v)
        (fun hrep => c.keys.names_plain hrep p hpm n hpn) ⟨id, r, t, k, w, h1, hreal, hid, h3, h4, h5⟩
      have hden := ((c.static_value hg hq hnm hr').1 _ _ hw').1
      rw [c.stored hq hden] at hst
      cases hst
      exact hden
  rcases hsrc with hc | hden
  · cases hov : ov.get? n.name with
    | some u => rw [c.c0_override hov hc]; exact .override hng hov
    | none =>
      by_cases hext : n.kind = .external
      · rw [c.start, hov, Option.or_none] at hc
        exact .input hng hov hext hc
      · have hnm := c.once_task (fun d hd hk hb => c.not_requested d hd hk _ hb hr) hpm hpn
        obtain ⟨⟨r, hd⟩, t, ht⟩ := c.all_reported h.loop hs hpm hnm
        obtain ⟨g1, g2⟩ := c.static_value hg hpm hnm hd
        obtain ⟨w, hw⟩ := g2 n.name (((c.spec hpm).outputs _).2 ⟨n, hpn, rfl, hov, .inl hr⟩)
        obtain ⟨v', h1, h2⟩ := h.cache.stored _ r t n.name w hd ht hw
        obtain ⟨hid, hreal⟩ := h.loop.pool_ok _ _ ht
        obtain ⟨q1, q2⟩ := BlockCtx.plain_key hpm c.hp hreal hid n.name
        rw [q1, c.stored hpm (g1 _ _ hw).1] at h1
        cases h1
        rw [q2, hv] at h2
        cases h2
        exact (g1 _ _ hw).1
  · exact hden

/-- Requested nodes are in the cache at the end. -/
theorem BlockCtx.final_some : ∃ w, l.sched.cache.get? n.name = some w := by
  have hg := c.goodTrace h.loop.toTInv h.submit
  cases hc : c0.get? n.name with
  | some u => exact h.cache.kept _ _ hc
  | none =>
    have hov : ov.get? n.name = none := by
      rw [c.start, Option.or_eq_none_iff] at hc; exact hc.2
    obtain ⟨p, hpm, hpn⟩ := c.task_of hn
    have hnm := c.once_task (fun d hd hk hb => c.not_requested d hd hk _ hb hr) hpm hpn
    obtain ⟨⟨r, hd⟩, t, ht⟩ := c.all_reported h.loop hs hpm hnm
    obtain ⟨w, hw⟩ := (c.static_value hg hpm hnm hd).2 n.name
      (((c.spec hpm).outputs _).2 ⟨n, hpn, rfl, hov, .inl hr⟩)
    obtain ⟨v', h1, h2⟩ := h.cache.stored _ r t n.name w hd ht hw
    obtain ⟨hid, hreal⟩ := h.loop.pool_ok _ _ ht
    rw [(BlockCtx.plain_key hpm c.hp hreal hid n.name).2] at h2
    exact ⟨v', h2⟩

end Final

end Verif
