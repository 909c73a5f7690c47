import Verif.Proofs.Sched6

/-! Progress of the orchestration loop. -/
namespace Verif
variable {T V : Type}
variable {ops : TaskOps T V} {g : Graph T V} {specs : List (TaskSpec T V)} {ex : Executors}

/-- All realizations of `s` are successful in `l`. -/
def AllDone (ops : TaskOps T V) (specs : List (TaskSpec T V)) (l : Loop T V) (s : TaskSpec T V) : Prop :=
  ((s.spawning = none ∨ s.purpose = .gather) → stOf l.sched s.baseId = .successful) ∧
  ∀ e, s.MemberOf e → ∃ x items, Yielded ops specs l.trace e x items ∧
    ∀ i < items.length, stOf l.sched (instanceId e i s.baseId) = .successful

theorem spec_cases (s : TaskSpec T V) (h : s.purpose = .expand → s.spawning = none) :
    s.spawning = none ∨ ∃ e, s.MemberOf e ∨ s.CollectorOf e := by
  cases hs : s.spawning with
  | none => exact .inl rfl
  | some e =>
    refine .inr ⟨e, ?_⟩
    by_cases hg : s.purpose = .gather
    · exact .inr ⟨hs, hg⟩
    · refine .inl ⟨hs, ?_, hg⟩
      intro he
      rw [h he] at hs; cases hs

/-- If nothing is queued, submitted or failed then everything is done. -/
theorem LInv.all_done (hp : PlanLive specs) {l : Loop T V} (h : LInv ops g specs l)
    (hst : ∀ id t, l.sched.pool.get? id = some t →
      stOf l.sched id = .initialized ∨ stOf l.sched id = .successful) :
    ∀ s ∈ specs, AllDone ops specs l s := by
  obtain ⟨rank, hr1, hr2⟩ := hp.rank
  suffices H : ∀ n, ∀ s ∈ specs, rank s.baseId = n → AllDone ops specs l s from fun s hs => H _ s hs rfl
  intro n
  induction n using Nat.strongRecOn with
  | _ n ih =>
    intro s hs hn
    -- dependencies that are not repeated tasks are done
    have hplain : ∀ p ∈ specs, rank p.baseId < n → (∀ e, ¬ p.MemberOf e) →
        stOf l.sched p.baseId = .successful := by
      intro p hps hlt hnm
      refine (ih _ hlt p hps rfl).1 ?_
      rcases spec_cases p (hp.expand_static p hps) with h' | ⟨e, h' | h'⟩
      · exact .inl h'
      · exact absurd h' (hnm e)
      · exact .inr h'.2
    -- the expander of a repeated task or collector has yielded
    have hyield : ∀ e, s.spawning = some e → ∃ x items, Yielded ops specs l.trace e x items := by
      intro e he
      obtain ⟨_, p, hps, hpe, hpp⟩ := hp.spawned s hs e he
      have hlt : rank p.baseId < n := by rw [hpe, ← hn]; exact hr2 s hs e he
      have hd := (ih _ hlt p hps rfl).1 (.inl (hp.expand_static p hps hpp))
      obtain ⟨x, items, hy⟩ := h.exp_done p hps hpp ((h.done_iff _).1 hd)
      exact ⟨x, items, hpe ▸ hy⟩
    -- a realized task whose dependencies are done is done
    have hdone : ∀ id t, l.sched.pool.get? id = some t → (∀ d ∈ t.deps, stOf l.sched d = .successful) →
        stOf l.sched id = .successful := by
      intro id t ht hd
      rcases hst id t ht with h' | h'
      · obtain ⟨d, hd', hne⟩ := h.blocked id t ht h'
        exact absurd (hd d hd') hne
      · exact h'
    have hbase : (∀ e, ¬ s.CollectorOf e) → ∀ d ∈ s.baseDeps, stOf l.sched d = .successful := by
      intro hnc d hd
      obtain ⟨p, hps, hpd⟩ := hp.deps_in s hs d hd
      have hlt : rank p.baseId < n := by rw [hpd, ← hn]; exact hr1 s hs d hd
      rw [← hpd]
      refine hplain p hps hlt ?_
      intro e he
      exact hnc e (hp.member_use s hs p hps e he (hpd ▸ hd))
    constructor
    · intro hor
      rcases spec_cases s (hp.expand_static s hs) with hsp | ⟨e, hm | hc⟩
      · -- static task
        have hnc : ∀ e, ¬ s.CollectorOf e := by intro e hc; rw [hc.1] at hsp; cases hsp
        have hin : ∃ t, l.sched.pool.get? s.baseId = some t := by
          refine h.static_in s hs hsp ?_
          by_cases hb : s.baseDeps = []
          · exact .inl hb
          · obtain ⟨p, hps, hpd, hpe⟩ := hp.realizable s hs hsp hb
            have hlt : rank p.baseId < n := by rw [← hn]; exact hr1 s hs _ hpd
            refine .inr ⟨p, hps, hpd, hpe, hplain p hps hlt ?_⟩
            intro e he
            exact hnc e (hp.member_use s hs p hps e he hpd)
        obtain ⟨t, ht⟩ := hin
        refine hdone _ t ht ?_
        obtain ⟨hti, htr⟩ := h.pool_ok _ t ht
        cases htr with
        | static s' k1 k2 =>
          have := spec_unique hp.toPlanOk k1 hs hti
          subst this
          intro d hd
          rw [mkTask_deps] at hd
          exact hbase hnc d hd
        | inst s' e x items i item k1 k2 k3 k4 =>
          exact absurd hti (hp.inst_fresh s' k1 s hs e i k2)
        | coll s' e x items k1 k2 k3 =>
          have := spec_unique hp.toPlanOk k1 hs hti
          subst this
          exact absurd k2 (hnc e)
      · exfalso
        rcases hor with h' | h'
        · rw [hm.1] at h'; cases h'
        · exact hm.2.2 h'
      · -- collector
        obtain ⟨x, items, hy⟩ := hyield e hc.1
        obtain ⟨t, ht⟩ := (h.exp_in e x items hy).2 s hs hc
        refine hdone _ t ht ?_
        obtain ⟨hti, htr⟩ := h.pool_ok _ t ht
        cases htr with
        | static s' k1 k2 =>
          have := spec_unique hp.toPlanOk k1 hs hti
          subst this
          rw [hc.1] at k2; cases k2
        | inst s' e x items i item k1 k2 k3 k4 =>
          exact absurd hti (hp.inst_fresh s' k1 s hs e i k2)
        | coll s' e' x' items' k1 k2 k3 =>
          have := spec_unique hp.toPlanOk k1 hs hti
          subst this
          have hee : e = e' := by have a := k2.1; rw [hc.1] at a; exact Option.some.inj a
          subst hee
          obtain ⟨rfl, rfl⟩ := hy.unique hp.toPlanOk h.done_nodup k3
          intro d hd
          rcases (collTask_deps d).1 hd with ⟨m, a1, a2, a3, i, a4, rfl⟩ | ⟨a1, a2⟩
          · have hlt : rank m.baseId < n := by rw [← hn]; exact hr1 _ hs _ a3
            obtain ⟨x2, items2, hy2, hi2⟩ := (ih _ hlt m a1 rfl).2 e a2
            obtain ⟨rfl, rfl⟩ := hy.unique hp.toPlanOk h.done_nodup hy2
            exact hi2 i a4
          · obtain ⟨p, hps, hpd⟩ := hp.deps_in _ hs d a1
            have hlt : rank p.baseId < n := by rw [hpd, ← hn]; exact hr1 _ hs d a1
            rw [← hpd]
            refine hplain p hps hlt ?_
            intro e2 he2
            have := (hp.member_use _ hs p hps e2 he2 (hpd ▸ a1)).1
            rw [hc.1] at this
            cases this
            exact a2 ⟨p, hps, he2, hpd⟩
    · intro e hm
      obtain ⟨x, items, hy⟩ := hyield e hm.1
      refine ⟨x, items, hy, ?_⟩
      intro i hi
      obtain ⟨t, ht⟩ := (h.exp_in e x items hy).1 s hs hm i hi
      refine hdone _ t ht ?_
      obtain ⟨hti, htr⟩ := h.pool_ok _ t ht
      cases htr with
      | static s' k1 k2 => exact absurd hti.symm (hp.inst_fresh s hs s' k1 e i hm)
      | coll s' e' x' items' k1 k2 k3 => exact absurd hti.symm (hp.inst_fresh s hs s' k1 e i hm)
      | inst s' e' x' items' i' item' k1 k2 k3 k4 =>
        obtain ⟨rfl, rfl, hb⟩ := hp.inst_inj s' k1 s hs e' e i' i k2 hm hti
        have := spec_unique hp.toPlanOk k1 hs hb
        subst this
        intro d hd
        rw [instTask_deps hp.toPlanOk hs hm] at hd
        exact hbase (fun e2 he2 => hm.2.2 he2.2) d hd

theorem get?_of_stOf {s : Sched T V} {id : Name} {st : TaskState} (h : stOf s id = st) (hne : st ≠ .uninitialized) :
    s.states.get? id = some st := by
  unfold stOf at h
  cases hs : s.states.get? id with
  | none => rw [hs] at h; exact absurd h.symm hne
  | some st' => rw [hs] at h; simpa using h

theorem stOf_of_mem {s : Sched T V} (hn : s.states.keys.Nodup) {p : Name × TaskState} (hp : p ∈ s.states) :
    stOf s p.1 = p.2 := by
  unfold stOf
  rw [Dict.get?_of_mem hn hp]
  rfl

theorem graphState_failed {l : Loop T V} {id : Name}
    (hf : stOf l.sched id = .failed) : graphState l.sched = .failed := by
  have hg := get?_of_stOf hf (by simp)
  have hm := Dict.get?_mem hg
  unfold graphState
  rw [if_neg, if_neg, if_pos]
  · rw [List.any_eq_true]; exact ⟨_, hm, rfl⟩
  · intro h; rw [List.all_eq_true] at h; exact absurd (h _ hm) (by simp)
  · intro h; rw [List.all_eq_true] at h; exact absurd (h _ hm) (by simp)

theorem graphState_successful_iff {l : Loop T V} :
    graphState l.sched = .successful ↔
      (∃ p, p ∈ l.sched.states) ∧ ∀ p ∈ l.sched.states, p.2 = .successful := by
  unfold graphState
  constructor
  · intro h
    split at h
    · cases h
    · split at h
      · rename_i h1 h2
        rw [List.all_eq_true] at h1 h2
        refine ⟨?_, fun p hp => by simpa using h2 p hp⟩
        cases hs : l.sched.states with
        | nil => rw [hs] at h1; simp at h1
        | cons p ps => exact ⟨p, by simp⟩
      · split at h <;> cases h
  · rintro ⟨⟨p, hp⟩, hall⟩
    rw [if_neg, if_pos]
    · rw [List.all_eq_true]; intro q hq; rw [hall q hq]; rfl
    · intro h; rw [List.all_eq_true] at h
      have := h p hp
      rw [hall p hp] at this
      cases this

theorem LInv.success_all {l : Loop T V} (h : LInv ops g specs l) (hs : graphState l.sched = .successful) :
    ∀ id t, l.sched.pool.get? id = some t → stOf l.sched id = .successful := by
  intro id t ht
  have hne := h.pool_some id t ht
  obtain ⟨_, hall⟩ := graphState_successful_iff.1 hs
  exact hall _ (Dict.get?_mem (get?_of_stOf rfl hne))

/-- While the run is not over there is work in the queue or in an executor. -/
theorem LInv.progress (hp : PlanLive specs) {l : Loop T V} (h : LInv ops g specs l)
    (hnt : (graphState l.sched).isTerminal = false) : l.sched.queue ≠ [] ∨ l.futures ≠ [] := by
  apply Classical.byContradiction
  intro hcon
  simp only [not_or, Classical.not_not] at hcon
  obtain ⟨hq, hf⟩ := hcon
  have hst : ∀ id t, l.sched.pool.get? id = some t →
      stOf l.sched id = .initialized ∨ stOf l.sched id = .successful := by
    intro id t ht
    cases hs : stOf l.sched id with
    | queued =>
      rcases h.queued_in id hs with h' | h'
      · rw [hq] at h'; cases h'
      · rw [hf] at h'; cases h'
    | uninitialized => exact absurd hs (h.pool_some id t ht)
    | initialized => exact .inl rfl
    | running => have := h.running_in id hs; rw [hf] at this; cases this
    | successful => exact .inr rfl
    | failed => rw [graphState_failed hs] at hnt; cases hnt
  have hall := h.all_done hp hst
  have hpool : ∀ id t, l.sched.pool.get? id = some t → stOf l.sched id = .successful := by
    intro id t ht
    obtain ⟨hti, htr⟩ := h.pool_ok id t ht
    cases htr with
    | static s k1 k2 => exact hti ▸ (hall s k1).1 (.inl k2)
    | coll s e x items k1 k2 k3 => exact hti ▸ (hall s k1).1 (.inr k2.2)
    | inst s e x items i item k1 k2 k3 k4 =>
      obtain ⟨x2, items2, hy2, hi2⟩ := (hall s k1).2 e k2
      obtain ⟨rfl, rfl⟩ := k3.unique hp.toPlanOk h.done_nodup hy2
      exact hti ▸ hi2 i (List.getElem?_eq_some_iff.1 k4).1
  have hsucc : graphState l.sched = .successful := by
    rw [graphState_successful_iff]
    refine ⟨?_, ?_⟩
    · -- some spec is done, so there is a key
      have hex : ∃ id t, l.sched.pool.get? id = some t := by
        apply Classical.byContradiction
        intro hno
        have hnone : ∀ id, stOf l.sched id = .uninitialized := by
          intro id
          apply h.pool_none
          cases hx : l.sched.pool.get? id with
          | none => rfl
          | some t => exact absurd ⟨id, t, hx⟩ hno
        obtain ⟨rank, hr1, hr2⟩ := hp.rank
        cases hspecs : specs with
        | nil => exact hp.nonempty hspecs
        | cons s ss =>
          have hs : s ∈ specs := by rw [hspecs]; simp
          rcases spec_cases s (hp.expand_static s hs) with h' | ⟨e, h' | h'⟩
          · have := (hall s hs).1 (.inl h'); rw [hnone] at this; cases this
          · obtain ⟨_, p, hps, _, hpp⟩ := hp.spawned s hs e h'.1
            have := (hall p hps).1 (.inl (hp.expand_static p hps hpp)); rw [hnone] at this; cases this
          · have := (hall s hs).1 (.inr h'.2); rw [hnone] at this; cases this
      obtain ⟨id, t, ht⟩ := hex
      have := hpool id t ht
      exact ⟨_, Dict.get?_mem (get?_of_stOf this (by simp))⟩
    · intro p hpm
      have hst' := stOf_of_mem h.states_nodup hpm
      obtain ⟨id, t, ht, hor⟩ := h.keys_ok p.1 (List.mem_map.2 ⟨p, hpm, rfl⟩)
      rw [← hst']
      rcases hor with h' | h'
      · rw [h']; exact hpool id t ht
      · refine h.started id t ht ?_ p.1 h'
        rw [hpool id t ht]; simp
  rw [hsucc] at hnt
  cases hnt

end Verif
