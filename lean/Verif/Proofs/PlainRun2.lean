import Verif.Proofs.PlainRun
import Verif.Proofs.NoFail

/-! Whole task-based runs of plain plans: what they return, and that they do not fail. -/
namespace Verif
variable {T V : Type}
variable {ops : TaskOps T V} {g : Graph T V} {all ov c0 : Dict Name V} {requested : List Name}
  {nodes : List (Node T V)} {groups : List (NodeGroup T V)} {specs : List (TaskSpec T V)} {ex : Executors}

theorem GoodTrace.sub {tr tr' : List (Event T V)} (h : GoodTrace g all ov specs tr')
    (hs : ∀ id r, .done id r ∈ tr → .done id r ∈ tr') : GoodTrace g all ov specs tr :=
  fun id r hd => h id r (hs id r hd)

/-- In a plain plan all tasks are the static ones. -/
theorem PlainCtx.static (c : PlainCtx g all ov c0 requested nodes groups specs) {tr : List (Event T V)} {t0 : Task T V}
    (h : Realized ops specs tr t0) : ∃ s ∈ specs, t0 = mkTask s none none [] := by
  cases h with
  | static s a b => exact ⟨s, a, rfl⟩
  | inst s e x items i item a b _ _ =>
    have := (c.plain_spec a).1
    rw [b.1] at this; cases this
  | coll s e x items a b _ =>
    have := (c.plain_spec a).1
    rw [b.1] at this; cases this

theorem PlainCtx.submitted (c : PlainCtx g all ov c0 requested nodes groups specs)
    {tr : List (Event T V)} (hs : SubmitOk ops g specs c0 tr) (hg : GoodTrace g all ov specs tr) {t : Task T V}
    (ht : .submit t ∈ tr) : ∃ pre s, Submitted ops g all ov c0 specs pre t s ∧ t.id = s.baseId := by
  obtain ⟨pre, post, rfl⟩ := List.append_of_mem ht
  obtain ⟨t0, h1, h2, h3, h4⟩ := hs pre t post rfl
  obtain ⟨s, hsm, rfl⟩ := c.static h1
  refine ⟨pre, s, ⟨hsm, h2, fun d hd => h3 d ((mkTask_deps s none none [] d).2 hd), h4,
    hg.sub (fun id r hd => by simp [hd])⟩, h2.id_eq⟩

theorem PlainCtx.goodTrace (c : PlainCtx g all ov c0 requested nodes groups specs) (hp : PlanOk specs)
    {tr : List (Event T V)} (ht : TInv ops g specs tr) (hs : SubmitOk ops g specs c0 tr) :
    GoodTrace g all ov specs tr := by
  suffices H : ∀ n (pre post : List (Event T V)), pre.length = n → tr = pre ++ post → GoodTrace g all ov specs pre from
    H _ tr [] rfl (by simp)
  intro n
  induction n with
  | zero =>
    intro pre post hl _ id r hd
    rw [List.length_eq_zero_iff] at hl
    subst hl; cases hd
  | succ n ih =>
    intro pre post hl heq
    obtain ⟨pre', x, rfl⟩ : ∃ p x, pre = p ++ [x] := by
      rcases List.eq_nil_or_concat pre with rfl | ⟨p, x, rfl⟩
      · cases hl
      · exact ⟨p, x, by simp⟩
    have hg' := ih pre' (x :: post) (by simp at hl; exact hl) (by rw [heq]; simp)
    intro id r hd
    rw [List.mem_append, List.mem_singleton] at hd
    rcases hd with hd | rfl
    · exact hg' id r hd
    · obtain ⟨t, h1, h2, h3⟩ := ht.done_ok pre' id r post (by rw [heq]; simp)
      have hs' : SubmitOk ops g specs c0 pre' := by
        intro p u q hq
        exact hs p u (q ++ .done id r :: post) (by rw [heq, hq]; simp)
      obtain ⟨p0, s, hsub, hid⟩ := c.submitted hs' hg' h1
      obtain ⟨a, b⟩ := hsub.result c h3
      refine ⟨a, fun s' hs'm hb => ?_⟩
      have : s' = s := spec_unique hp hs'm hsub.mem (by rw [hb, ← h2, hid])
      subst this
      exact b

theorem PlainCtx.all_reported (c : PlainCtx g all ov c0 requested nodes groups specs) (hp : PlanLive specs) {l : Loop T V}
    (h : LInv ops g specs l) (hs : graphState l.sched = .successful) {s : TaskSpec T V} (hsm : s ∈ specs) :
    Done l.trace s.baseId ∧ ∃ t, l.sched.pool.get? s.baseId = some t := by
  have hall := h.success_all hs
  have hd := h.all_done hp (fun id t ht => .inr (hall id t ht)) s hsm
  have hplain := c.plain_spec hsm
  have hdone := hd.1 (.inl hplain.1)
  refine ⟨(h.done_iff _).1 hdone, ?_⟩
  cases hx : l.sched.pool.get? s.baseId with
  | some t => exact ⟨t, rfl⟩
  | none => rw [h.pool_none _ hx] at hdone; cases hdone

/-- What is in the cache at the end, under the name of a requested node. -/
theorem PlainCtx.final (c : PlainCtx g all ov c0 requested nodes groups specs) (hp : PlanLive specs) {l : Loop T V}
    (h : AInv ops g specs c0 l) (hs : graphState l.sched = .successful) {n : Node T V} (hn : n ∈ nodes)
    (hr : n.name ∈ requested) {v : V} (hv : l.sched.cache.get? n.name = some v) : Den g all ov n.name v := by
  have hg := c.goodTrace hp.toPlanOk h.loop.toTInv h.submit
  have hng := c.in_graph n hn
  cases hov : ov.get? n.name with
  | none =>
    by_cases hext : n.kind = .external
    · rcases h.cache.source _ _ hv with h1 | ⟨id, r, t, k, w, h1, h2, h3, h4, h5⟩
      · rw [c.start, hov, Option.or_none] at h1
        exact .input hng hov hext h1
      · obtain ⟨s, hsm, rfl⟩ := c.static (h.loop.pool_ok _ _ h2).2
        have hk : n.name = k := h4
        have h5' : s.storedValue ops k w = some v := h5
        rw [c.stored hsm] at h5'
        cases h5'
        rw [hk]
        exact (hg id r h1).1 k _ h3
    · obtain ⟨p, hpm, hpn⟩ := c.task_of hn
      obtain ⟨⟨r, hd⟩, t, ht⟩ := c.all_reported hp h.loop hs hpm
      obtain ⟨g1, g2⟩ := hg _ r hd
      obtain ⟨w, hw⟩ := g2 p hpm rfl n.name (((c.spec hpm).outputs _).2 ⟨n, hpn, rfl, hov, .inl hr⟩)
      obtain ⟨v', h1, h2⟩ := h.cache.stored _ r t n.name w hd ht hw
      obtain ⟨s, hsm, rfl⟩ := c.static (h.loop.pool_ok _ _ ht).2
      have h1' : s.storedValue ops n.name w = some v' := h1
      have h2' : l.sched.cache.get? n.name = some v' := h2
      rw [c.stored hsm] at h1'
      cases h1'
      rw [hv] at h2'
      cases h2'
      exact g1 _ _ hw
  | some u =>
    rcases h.cache.source _ _ hv with h1 | ⟨id, r, t, k, w, h1, h2, h3, h4, h5⟩
    · rw [c.c0_override hov h1]
      exact .override hng hov
    · obtain ⟨s, hsm, rfl⟩ := c.static (h.loop.pool_ok _ _ h2).2
      have hk : n.name = k := h4
      have h5' : s.storedValue ops k w = some v := h5
      rw [c.stored hsm] at h5'
      cases h5'
      rw [hk]
      exact (hg id r h1).1 k _ h3

/-- Requested nodes are in the cache at the end. -/
theorem PlainCtx.final_some (c : PlainCtx g all ov c0 requested nodes groups specs) (hp : PlanLive specs) {l : Loop T V}
    (h : AInv ops g specs c0 l) (hs : graphState l.sched = .successful) {n : Node T V} (hn : n ∈ nodes)
    (hr : n.name ∈ requested) : ∃ w, l.sched.cache.get? n.name = some w := by
  have hg := c.goodTrace hp.toPlanOk h.loop.toTInv h.submit
  cases hc : c0.get? n.name with
  | some u => exact h.cache.kept _ _ hc
  | none =>
    have hov : ov.get? n.name = none := by
      rw [c.start, Option.or_eq_none_iff] at hc; exact hc.2
    obtain ⟨p, hpm, hpn⟩ := c.task_of hn
    obtain ⟨⟨r, hd⟩, t, ht⟩ := c.all_reported hp h.loop hs hpm
    obtain ⟨w, hw⟩ := (hg _ r hd).2 p hpm rfl n.name (((c.spec hpm).outputs _).2 ⟨n, hpn, rfl, hov, .inl hr⟩)
    obtain ⟨v', h1, h2⟩ := h.cache.stored _ r t n.name w hd ht hw
    obtain ⟨s, hsm, rfl⟩ := c.static (h.loop.pool_ok _ _ ht).2
    exact ⟨v', h2⟩

/-! ### No failures -/

theorem PlainCtx.exec_ok (c : PlainCtx g all ov c0 requested nodes groups specs)
    (hden : ∀ n ∈ nodes, ∃ v, Den g all ov n.name v) {pre : List (Event T V)} {t : Task T V} {s : TaskSpec T V}
    (h : Submitted ops g all ov c0 specs pre t s) : ∃ r, executeTask g t = .ok r := by
  have hnodes : t.nodes = s.nodes := congrArg (·.nodes) h.core.spec_eq
  have hspec := executeSubdag_spec c.wf t.nodes (by rw [hnodes]; exact fun n hn => c.node_graph h.mem hn)
    t.dynamicInputs t.given
  unfold executeTask
  split
  · rename_i e st hst
    have hst' : executeSubdag g t.nodes t.dynamicInputs t.given = .err e st := hst
    rw [hst'] at hspec
    obtain ⟨_, _, n, hn, hres⟩ := hspec
    exfalso
    apply hres
    rw [hnodes] at hn
    obtain ⟨v, hv⟩ := hden n (c.node_mem h.mem hn)
    exact .inl ⟨v, h.complete c hv (List.mem_map.2 ⟨n, hn, rfl⟩)⟩
  · exact ⟨_, rfl⟩

theorem cacheRead_ok {c : Dict Name V} {opt : Bool} {ks : List Name}
    (h : opt = false → ∀ k ∈ ks, ∃ v, c.get? k = some v) : ∃ r, cacheRead c none none opt ks = .ok r := by
  induction ks with
  | nil => exact ⟨_, rfl⟩
  | cons k ks ih =>
    obtain ⟨r, hr⟩ := ih (fun ho k' hk' => h ho k' (by simp [hk']))
    unfold cacheRead
    rw [hr]
    cases hk : c.get? (formatKey none none k) with
    | some v => simp only; exact ⟨_, rfl⟩
    | none =>
      cases opt with
      | true => simp only; exact ⟨_, rfl⟩
      | false =>
        obtain ⟨v, hv⟩ := h rfl k (by simp)
        have : formatKey none none k = k := rfl
        rw [this, hv] at hk; cases hk

theorem PlainCtx.bind_ok (c : PlainCtx g all ov c0 requested nodes groups specs) (hp : PlanOk specs)
    (hden : ∀ n ∈ nodes, ∃ v, Den g all ov n.name v) {l : Loop T V} (h : AInv ops g specs c0 l) {t : Task T V}
    (ht : t ∈ l.sched.queue) : ∃ t', bindTask ops g l.sched t = .ok t' := by
  have hg := c.goodTrace hp h.loop.toTInv h.submit
  obtain ⟨_, _, t0, ht0, hcore⟩ := h.loop.queue_ok t ht
  have hdeps := h.loop.queue_deps ht ht0
  obtain ⟨s, hsm, rfl⟩ := c.static (h.loop.pool_ok _ _ ht0).2
  have hspec : t.toTaskSpec = s := hcore.spec_eq
  have hgather : t.purpose ≠ .gather := by
    have : t.purpose = s.purpose := congrArg (·.purpose) hspec
    rw [this]; exact (c.plain_spec hsm).2.2
  have hreq : ∀ k ∈ (getInputVars g t.toTaskSpec).required, ∃ v, l.sched.cache.get? k = some v := by
    rw [hspec]
    intro k hk
    have hext : ∀ kn, g.get? k = some kn → kn.kind = .external → (∃ v, Den g all ov k v) →
        ∃ v, l.sched.cache.get? k = some v := by
      intro kn hkn he ⟨v, hv⟩
      have : ∃ w, c0.get? k = some w := by
        cases hv with
        | override h1 h2 =>
          rw [c.start]
          cases all.get? k with
          | some u => exact ⟨u, rfl⟩
          | none => exact ⟨_, h2⟩
        | input h1 h2 h3 h4 => exact ⟨_, by rw [c.start, h4]; rfl⟩
        | call val h1 h2 h3 _ _ _ => rw [hkn] at h1; cases h1; exact absurd he h3
      obtain ⟨w, hw⟩ := this
      exact h.cache.kept _ _ hw
    obtain ⟨n, hn, hno, hcase⟩ := ((getInputVars_spec g s).1 k).1 hk
    have hng := c.node_graph hsm hn
    have hno' : ov.get? n.name = none := by
      rw [(c.spec hsm).ov, if_pos (List.mem_map.2 ⟨n, hn, rfl⟩)] at hno; exact hno
    rcases hcase with ⟨he, rfl⟩ | ⟨hd, ⟨ho1, ho2⟩, hrq⟩
    · exact hext n hng he (hden n (c.node_mem hsm hn))
    · have hd' : k ∈ n.inputTypes.keys := by rw [← c.wf.deps_eq hng]; exact hd
      rcases c.closed n (c.node_mem hsm hn) hno' k hd' with ⟨dn, hdn, hdd⟩ | ⟨⟨ty, hty⟩, _⟩
      · have hdg := c.in_graph dn hdn
        rw [hdd] at hdg
        by_cases he : dn.kind = .external
        · exact hext dn hdg he (hdd ▸ hden dn hdn)
        · have hout : k ∉ s.nodes.map (·.name) := by
            rcases ho2 with ⟨kn, ha, hb⟩ | ho2
            · rw [hdg] at ha; cases ha; exact absurd hb he
            · exact ho2
          cases hov : ov.get? k with
          | some u =>
            have : ∃ w, c0.get? k = some w := by
              rw [c.start, hov]
              cases all.get? k with
              | some u => exact ⟨u, rfl⟩
              | none => exact ⟨_, rfl⟩
            obtain ⟨w, hw⟩ := this
            exact h.cache.kept _ _ hw
          | none =>
            obtain ⟨p, hpm, hpd, hpo⟩ := c.dep_task hsm hn hno' hd' hout hov hdn hdd
            have hpdone := hdeps _ ((mkTask_deps s none none [] _).2 hpd)
            obtain ⟨r, hr⟩ := hpdone
            obtain ⟨w, hw⟩ := (hg _ r hr).2 p hpm rfl k hpo
            have hpool : ∃ tp, l.sched.pool.get? p.baseId = some tp := by
              cases hx : l.sched.pool.get? p.baseId with
              | some tp => exact ⟨tp, rfl⟩
              | none =>
                have := (h.loop.done_iff p.baseId).2 ⟨r, hr⟩
                rw [h.loop.pool_none _ hx] at this; cases this
            obtain ⟨tp, htp⟩ := hpool
            obtain ⟨v', _, h2⟩ := h.cache.stored _ r tp k w hr htp hw
            obtain ⟨s', _, rfl⟩ := c.static (h.loop.pool_ok _ _ htp).2
            exact ⟨v', h2⟩
      · have : n.requires k = false := by
          unfold Node.requires
          rw [hty]
        rw [this] at hrq; cases hrq
  unfold bindTask bindStart
  simp only [if_neg hgather]
  obtain ⟨r1, hr1⟩ := cacheRead_ok (c := l.sched.cache) (opt := false)
    (ks := (getInputVars g t.toTaskSpec).required.filter (fun k => !t.overrides.has k && !t.overrides.has k))
    (fun _ k hk => hreq k (List.mem_filter.1 hk).1)
  obtain ⟨r2, hr2⟩ := cacheRead_ok (c := l.sched.cache) (opt := true)
    (ks := (getInputVars g t.toTaskSpec).optional) (fun h => nomatch h)
  rw [hr1, hr2]
  exact ⟨_, rfl⟩

theorem PlainCtx.finish_ok (c : PlainCtx g all ov c0 requested nodes groups specs) {l : Loop T V}
    (h : LInv ops g specs l) {id : Name} (hid : id ∈ l.futures.keys) (r : Dict Name V) :
    ∃ l', Verif.finishTask ops l id r = .ok l' := by
  have hpool : ∃ t, l.sched.pool.get? id = some t := by
    cases hx : l.sched.pool.get? id with
    | some t => exact ⟨t, rfl⟩
    | none =>
      have := h.pool_none _ hx
      rcases h.fut_ok id hid with h' | h' <;> rw [this] at h' <;> cases h'
  obtain ⟨t, ht⟩ := hpool
  obtain ⟨s, hsm, rfl⟩ := c.static (h.pool_ok _ _ ht).2
  have hpe : (mkTask s none none [] : Task T V).purpose ≠ .expand := (c.plain_spec hsm).2.1
  have hq : l.sched.queue.all (fun t => (l.sched.states.set id .successful).get? t.id == some .queued) = true := by
    rw [List.all_eq_true]
    intro q hqm
    obtain ⟨h1, h2, _⟩ := h.queue_ok q hqm
    have hne : id ≠ q.id := fun he => h2 (he ▸ hid)
    rw [Dict.get?_set, if_neg hne, get?_of_stOf h1 (by simp)]
    rfl
  unfold finishTask updateTaskState
  simp only [TaskState.isTerminal, hq, Bool.not_true, Bool.false_eq_true, if_false, ht, if_true, writeTaskResults,
    if_neg hpe]
  exact ⟨_, rfl⟩

/-- A run of a plain plan in which every needed node has a value: nothing is raised, unless by a broken executor. -/
theorem PlainCtx.no_fault (c : PlainCtx g all ov c0 requested nodes groups specs) (hp : PlanOk specs)
    (hden : ∀ n ∈ nodes, ∃ v, Den g all ov n.name v) {l : Loop T V} (h : AInv ops g specs c0 l) {e : TaskErr}
    {tr : List (Event T V)} (hf : Fault ops g ex l e tr) : ∃ id, e = .broken id := by
  have hg := c.goodTrace hp h.loop.toTInv h.submit
  have hkk : ∀ id f, l.futures.get? id = some f → id ∈ l.futures.keys := fun id f hf =>
    Dict.mem_keys_iff.2 ⟨f, hf⟩
  cases hf with
  | bind t rest e h1 h2 =>
    obtain ⟨t', ht'⟩ := c.bind_ok hp hden h (t := t) (by rw [h1]; simp)
    rw [ht'] at h2; cases h2
  | submit t rest t' e h1 h2 h3 h4 =>
    have hs := SubmitOk.submit hp c.keys c.start_plain h.loop h.cache h.queue h.submit h1 h2
    obtain ⟨pre, s, hsub, _⟩ := c.submitted hs (hg.sub (tr := l.trace ++ [.submit t']) (fun id r hd => by simpa using hd))
      (t := t') (by simp)
    obtain ⟨r, hr⟩ := c.exec_ok hden hsub
    rw [hr] at h4; cases h4
  | later id t e h1 h2 =>
    obtain ⟨pre, s, hsub, _⟩ := c.submitted h.submit hg (h.loop.fut_later id t h1).1
    obtain ⟨r, hr⟩ := c.exec_ok hden hsub
    rw [hr] at h2; cases h2
  | broken id t h1 => exact ⟨id, rfl⟩
  | finishNow id r e l' h1 h2 =>
    obtain ⟨l'', hl⟩ := c.finish_ok h.loop (hkk _ _ h1) r
    rw [hl] at h2; cases h2
  | finishLater id t r e l' h1 h2 h3 =>
    obtain ⟨l'', hl⟩ := c.finish_ok h.loop (hkk _ _ h1) r
    rw [hl] at h3; cases h3

/-! ### Executors that do not break -/

theorem foldlM_error {α β ε : Type} {f : β → α → Except ε β} {l : List α} {b : β} {e : ε} (h : l.foldlM f b = .error e) :
    ∃ b' a, f b' a = .error e := by
  induction l generalizing b with
  | nil => cases h
  | cons a l ih =>
    rw [List.foldlM_cons] at h
    cases ha : f b a with
    | error e' => rw [ha] at h; cases h; exact ⟨b, a, ha⟩
    | ok b' => rw [ha] at h; exact ih h

theorem mapM_error {α β ε : Type} {f : α → Except ε β} {l : List α} {e : ε} (h : l.mapM f = .error e) :
    ∃ a, f a = .error e := by
  induction l with
  | nil => cases h
  | cons a l ih =>
    rw [List.mapM_cons] at h
    cases ha : f a with
    | error e' => rw [ha] at h; cases h; exact ⟨a, ha⟩
    | ok b' =>
      rw [ha] at h
      cases hl : l.mapM f with
      | error e' => rw [hl] at h; cases h; exact ih hl
      | ok bs => rw [hl] at h; cases h

theorem cacheRead_error {c : Dict Name V} {a b : Option Name} {opt : Bool} {ks : List Name} {e : TaskErr}
    (h : cacheRead c a b opt ks = .error e) (id : Name) : e ≠ .broken id := by
  induction ks with
  | nil => cases h
  | cons k ks ih =>
    unfold cacheRead at h
    split at h
    · split at h
      · exact ih h
      · cases h; exact fun hc => nomatch hc
    · cases hr : cacheRead c a b opt ks with
      | error e' => rw [hr] at h; cases h; exact ih hr
      | ok r => rw [hr] at h; cases h

theorem bindTask_error {s : Sched T V} {t : Task T V} {e : TaskErr} (h : bindTask ops g s t = .error e) (id : Name) :
    e ≠ .broken id := by
  have hread : ∀ arg d e, readGathered s arg d = .error e → e ≠ .broken id := by
    intro arg d e h
    unfold readGathered at h
    split at h
    · cases h; exact fun hc => nomatch hc
    · split at h
      · cases h; exact fun hc => nomatch hc
      · cases h
  have hdep : ∀ arg p dep e, bindGatherDep s arg p dep = .error e → e ≠ .broken id := by
    intro arg p dep e h
    unfold bindGatherDep at h
    split at h
    · cases h
    · split at h
      · cases h; exact fun hc => nomatch hc
      · split at h
        · cases hm : dep.2.mapM (readGathered s arg) with
          | error e' =>
            rw [hm] at h; cases h
            obtain ⟨a, ha⟩ := mapM_error hm
            exact hread _ _ _ ha
          | ok vs => rw [hm] at h; cases h
        · cases h
  unfold bindTask at h
  simp only at h
  split at h
  · rename_i e' hs
    cases h
    unfold bindStart at hs
    split at hs
    · split at hs
      · cases hs; exact fun hc => nomatch hc
      · split at hs
        · cases hs; exact fun hc => nomatch hc
        · rename_i arg _
          cases hm : t.realizedDeps.foldlM (bindGatherDep s arg) ([], t.realizedDeps) with
          | error e' =>
            rw [hm] at hs; cases hs
            obtain ⟨b, a, hab⟩ := foldlM_error hm
            exact hdep _ _ _ _ hab
          | ok vs => rw [hm] at hs; cases hs
    · cases hs
  · split at h
    · rename_i hr; cases h; exact cacheRead_error hr id
    · split at h
      · rename_i hr; cases h; exact cacheRead_error hr id
      · cases h

theorem update_error {s : Sched T V} {n : Name} {st : TaskState} {r : Dict Name V} {e : TaskErr}
    (h : updateTaskState ops s n st r = .error e) (id : Name) : e ≠ .broken id := by
  unfold updateTaskState at h
  simp only at h
  split at h
  · cases h
  · split at h
    · cases h; exact fun hc => nomatch hc
    · split at h
      · cases h; exact fun hc => nomatch hc
      · split at h
        · split at h
          · rename_i hw
            cases h
            unfold writeTaskResults at hw
            split at hw
            · split at hw
              · cases hw; exact fun hc => nomatch hc
              · split at hw
                · cases hw; exact fun hc => nomatch hc
                · split at hw
                  · cases hw; exact fun hc => nomatch hc
                  · cases hw
            · cases hw
          · split at h
            · split at h
              · cases h; exact fun hc => nomatch hc
              · split at h
                · cases h; exact fun hc => nomatch hc
                · split at h
                  · cases h; exact fun hc => nomatch hc
                  · cases h
            · cases h
        · cases h

theorem executeTask_error {t : Task T V} {e : TaskErr} (h : executeTask g t = .error e) (id : Name) : e ≠ .broken id := by
  unfold executeTask at h
  split at h
  · cases h; exact fun hc => nomatch hc
  · cases h

theorem pollOne_error {c : Choice} (hc : ∀ id, c.obs id ≠ .broken) {p : Name × Future T V} {l l' : Loop T V} {e : TaskErr}
    (h : pollOne ops g c p l = .err e l') (id : Name) : e ≠ .broken id := by
  have hfin : ∀ r, Verif.finishTask ops l p.1 r = .err e l' → e ≠ .broken id := by
    intro r hl
    unfold finishTask at hl
    split at hl
    · rename_i hu; cases hl; exact update_error hu id
    · cases hl
  have hrep : ∀ st, reportState ops l p.1 st = .err e l' → e ≠ .broken id := by
    intro st hl
    unfold reportState at hl
    split at hl
    · rename_i hu; cases hl; exact update_error hu id
    · cases hl
  unfold pollOne at h
  split at h
  · exact hfin _ h
  · split at h
    · exact hrep _ h
    · split at h
      · rename_i hx; cases h; exact executeTask_error hx id
      · exact hfin _ h
    · split at h
      · rename_i hx; cases h; exact executeTask_error hx id
      · exact hrep _ h
    · rename_i hb; exact absurd hb (hc _)
    · exact hrep _ h

theorem forEach_error {α σ ε : Type} {f : α → σ → Out σ ε} {xs : List α} {s s' : σ} {e : ε}
    (h : forEach f xs s = .err e s') : ∃ x s1, f x s1 = .err e s' := by
  induction xs generalizing s with
  | nil => cases h
  | cons x xs ih =>
    unfold forEach at h
    cases hx : f x s with
    | err e' s1 => rw [hx] at h; cases h; exact ⟨x, s, hx⟩
    | ok s1 => rw [hx] at h; exact ih h

/-- When no executor breaks, no run is ended by a broken executor. -/
theorem runLoop_notBroken (cs : List Choice) (hcs : ∀ c ∈ cs, ∀ id, c.obs id ≠ .broken) {l l' : Loop T V} {e : TaskErr}
    (hok : runLoop ops g ex cs l = .err e l') (id : Name) : e ≠ .broken id := by
  induction cs generalizing l with
  | nil => cases hok
  | cons c cs ih =>
    unfold runLoop at hok
    split at hok
    · cases hok
    · unfold loopStep at hok
      cases hs : releaseAndSubmit ops g ex c l with
      | err e' l1 =>
        rw [hs] at hok
        cases hok
        unfold releaseAndSubmit at hs
        split at hs
        · cases hs
        · split at hs
          · rename_i hb; cases hs; exact bindTask_error hb id
          · split at hs
            · unfold submitTask at hs
              split at hs
              · split at hs
                · rename_i hx; cases hs; exact executeTask_error hx id
                · cases hs
              · cases hs
            · cases hs
      | ok l1 =>
        rw [hs] at hok
        simp only [Out.bind] at hok
        cases hf : forEach (pollOne ops g c) l1.futures l1 with
        | err e' l2 =>
          rw [hf] at hok
          cases hok
          obtain ⟨x, s1, hx⟩ := forEach_error hf
          exact pollOne_error (hcs c (by simp)) hx id
        | ok l2 =>
          rw [hf] at hok
          exact ih (fun c' hc' => hcs c' (by simp [hc'])) hok

end Verif
