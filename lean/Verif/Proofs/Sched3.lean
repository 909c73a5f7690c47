import Verif.Proofs.Sched2

/-! The invariant of the orchestration loop is preserved. -/
namespace Verif
variable {T V : Type}

theorem snoc_split {α : Type} {tr pre post : List α} {x y : α} (h : tr ++ [x] = pre ++ y :: post) :
    (post = [] ∧ pre = tr ∧ x = y) ∨ ∃ post', post = post' ++ [x] ∧ tr = pre ++ y :: post' := by
  rcases List.eq_nil_or_concat post with hp | ⟨p', b, hp⟩
  · subst hp
    have := List.append_inj' h rfl
    simp only [List.cons.injEq, and_true] at this
    exact .inl ⟨rfl, this.1.symm, this.2⟩
  · rw [List.concat_eq_append] at hp
    subst hp
    have h' : tr ++ [x] = (pre ++ y :: p') ++ [b] := by simpa using h
    have := List.append_inj' h' rfl
    simp only [List.cons.injEq, and_true] at this
    exact .inr ⟨p', by rw [this.2], this.1⟩

theorem submittedIds_append (a b : List (Event T V)) :
    submittedIds (a ++ b) = submittedIds a ++ submittedIds b := by
  unfold submittedIds; simp

theorem doneIds_append (a b : List (Event T V)) : doneIds (a ++ b) = doneIds a ++ doneIds b := by
  unfold doneIds; simp

theorem mem_doneIds {tr : List (Event T V)} {id : Name} : id ∈ doneIds tr ↔ Done tr id := by
  unfold doneIds Done
  rw [List.mem_filterMap]
  constructor
  · rintro ⟨e, he, h⟩
    cases e with
    | submit t => simp at h
    | done i r => simp only [Option.some.injEq] at h; exact ⟨r, h ▸ he⟩
  · rintro ⟨r, h⟩
    exact ⟨_, h, rfl⟩

theorem mem_submittedIds {tr : List (Event T V)} {id : Name} :
    id ∈ submittedIds tr ↔ ∃ t, .submit t ∈ tr ∧ t.id = id := by
  unfold submittedIds
  rw [List.mem_filterMap]
  constructor
  · rintro ⟨e, he, h⟩
    cases e with
    | submit t => simp only [Option.some.injEq] at h; exact ⟨t, he, h⟩
    | done i r => simp at h
  · rintro ⟨t, h, h'⟩
    exact ⟨_, h, by simp [h']⟩

theorem done_snoc_submit {tr : List (Event T V)} {t : Task T V} {id : Name} {r : Dict Name V} :
    .done id r ∈ tr ++ [.submit t] ↔ .done id r ∈ tr := by simp

theorem Done_submit {tr : List (Event T V)} {t : Task T V} {id : Name} : Done (tr ++ [.submit t]) id ↔ Done tr id := by
  unfold Done; simp

theorem Done_done {tr : List (Event T V)} {i id : Name} {r : Dict Name V} :
    Done (tr ++ [.done i r]) id ↔ Done tr id ∨ id = i := by
  unfold Done
  simp only [List.mem_append, List.mem_singleton, Event.done.injEq]
  constructor
  · rintro ⟨r', h | h⟩
    · exact .inl ⟨r', h⟩
    · exact .inr h.1
  · rintro (⟨r', h⟩ | h)
    · exact ⟨r', .inl h⟩
    · exact ⟨r, .inr ⟨h, rfl⟩⟩

theorem Yielded_submit {ops : TaskOps T V} {specs : List (TaskSpec T V)} {tr : List (Event T V)} {t : Task T V}
    {e x : Name} {items : List V} :
    Yielded ops specs (tr ++ [.submit t]) e x items ↔ Yielded ops specs tr e x items := by
  constructor
  · exact Yielded.mono (fun id r h => done_snoc_submit.1 h)
  · exact Yielded.mono (fun id r h => done_snoc_submit.2 h)

section
variable {ops : TaskOps T V} {g : Graph T V} {specs : List (TaskSpec T V)}

theorem TInv.append_submit {tr : List (Event T V)} (h : TInv ops g specs tr) {t t0 : Task T V}
    (hn : t.id ∉ submittedIds tr) (hr : Realized ops specs tr t0) (hc : SameCore t t0)
    (hd : ∀ d ∈ t0.deps, Done tr d) : TInv ops g specs (tr ++ [.submit t]) where
  sub_nodup := by
    rw [submittedIds_append]
    refine List.nodup_append.2 ⟨h.sub_nodup, by simp [submittedIds], ?_⟩
    intro a ha b hb
    have : b = t.id := by simpa [submittedIds] using hb
    subst this
    exact fun he => hn (he ▸ ha)
  done_nodup := by
    rw [doneIds_append]
    simpa [doneIds] using h.done_nodup
  submit_ok := by
    intro pre t' post he
    rcases snoc_split he with ⟨_, rfl, h2⟩ | ⟨post', _, h2⟩
    · cases h2
      exact ⟨t0, hr, hc, hd⟩
    · exact h.submit_ok pre t' post' h2
  done_ok := by
    intro pre id r post he
    rcases snoc_split he with ⟨_, rfl, h2⟩ | ⟨post', _, h2⟩
    · cases h2
    · exact h.done_ok pre id r post' h2

theorem TInv.append_done {tr : List (Event T V)} (h : TInv ops g specs tr) {id : Name} {r : Dict Name V}
    (hn : ¬ Done tr id) (hs : ∃ t, .submit t ∈ tr ∧ t.id = id ∧ executeTask g t = .ok r) :
    TInv ops g specs (tr ++ [.done id r]) where
  sub_nodup := by
    rw [submittedIds_append]
    simpa [submittedIds] using h.sub_nodup
  done_nodup := by
    rw [doneIds_append]
    refine List.nodup_append.2 ⟨h.done_nodup, by simp [doneIds], ?_⟩
    intro a ha b hb
    have : b = id := by simpa [doneIds] using hb
    subst this
    exact fun he => hn (mem_doneIds.1 (he ▸ ha))
  submit_ok := by
    intro pre t' post he
    rcases snoc_split he with ⟨_, rfl, h2⟩ | ⟨post', _, h2⟩
    · cases h2
    · exact h.submit_ok pre t' post' h2
  done_ok := by
    intro pre id' r' post he
    rcases snoc_split he with ⟨_, rfl, h2⟩ | ⟨post', _, h2⟩
    · cases h2
      exact hs
    · exact h.done_ok pre id' r' post' h2

/-- Submission of the head of the queue. -/
theorem LInv.submit {l : Loop T V} (h : LInv ops g specs l) {t t' : Task T V} {rest : List (Task T V)}
    (hq : l.sched.queue = t :: rest) (hc : SameCore t' t) {f : Future T V}
    (hf : (∃ r, f = .now r ∧ executeTask g t' = .ok r) ∨ f = .later t') :
    LInv ops g specs { sched := { l.sched with queue := rest }, futures := l.futures.set t'.id f,
                       trace := l.trace ++ [.submit t'] } := by
  have hmem : t ∈ l.sched.queue := by rw [hq]; simp
  obtain ⟨h1, h2, t0, h3, h4⟩ := h.queue_ok t hmem
  have hid : t'.id = t.id := hc.id_eq
  have hst : ∀ k, stOf { l.sched with queue := rest } k = stOf l.sched k := fun k => rfl
  have hqn : (t :: rest).map Task.id = l.sched.queue.map Task.id := by rw [hq]
  have hnd := h.queue_nodup
  rw [← hqn, List.map_cons, List.nodup_cons] at hnd
  have hkeys : ∀ k, k ∈ (l.futures.set t'.id f).keys ↔ k = t.id ∨ k ∈ l.futures.keys := by
    intro k; rw [Dict.mem_keys_set, hid]
  have hns : t'.id ∉ submittedIds l.trace := by
    rw [h.sub_iff, hid, h1]
    simp [h2]
  have hreal := (h.pool_ok _ _ h3).2
  have hdeps : ∀ d ∈ t0.deps, Done l.trace d := fun d hd =>
    (h.done_iff d).1 (h.started _ _ h3 (by rw [h1]; decide) d hd)
  have hT := h.toTInv.append_submit hns hreal (hc.trans h4) hdeps
  refine { hT with
    specs_eq := h.specs_eq, pool_nodup := h.pool_nodup, states_nodup := h.states_nodup, pool_ok := ?_,
    pool_none := h.pool_none, pool_some := h.pool_some, keys_ok := h.keys_ok, done_iff := ?_, queue_ok := ?_,
    queue_nodup := hnd.2, fut_nodup := Dict.keys_set_nodup h.fut_nodup _ _, fut_ok := ?_, fut_now := ?_,
    fut_later := ?_, queued_in := ?_, running_in := ?_, blocked := h.blocked, started := h.started, sub_iff := ?_,
    static_in := h.static_in, exp_in := ?_, exp_done := ?_ }
  · intro id t1 ht1
    obtain ⟨a, b⟩ := h.pool_ok id t1 ht1
    exact ⟨a, b.mono (fun id r h => done_snoc_submit.2 h)⟩
  · intro id
    rw [Done_submit]
    exact h.done_iff id
  · intro t1 ht1
    obtain ⟨a, b, c⟩ := h.queue_ok t1 (by rw [hq]; exact List.mem_cons_of_mem _ ht1)
    refine ⟨a, ?_, c⟩
    rw [hkeys]
    rintro (h' | h')
    · exact hnd.1 (List.mem_map.2 ⟨t1, ht1, h'⟩)
    · exact b h'
  · intro id hk
    rcases (hkeys id).1 hk with rfl | hk
    · exact .inl h1
    · exact h.fut_ok id hk
  · intro id r hr
    simp only [Dict.get?_set] at hr
    split at hr
    · rename_i he
      simp only [Option.some.injEq] at hr
      rcases hf with ⟨r', hf1, hf2⟩ | hf1
      · rw [hf1] at hr
        cases hr
        exact ⟨t', by simp, he, hf2⟩
      · rw [hf1] at hr; cases hr
    · obtain ⟨t1, a, b, c⟩ := h.fut_now id r hr
      exact ⟨t1, by simp [a], b, c⟩
  · intro id t1 hr
    simp only [Dict.get?_set] at hr
    split at hr
    · rename_i he
      simp only [Option.some.injEq] at hr
      rcases hf with ⟨r', hf1, hf2⟩ | hf1
      · rw [hf1] at hr; cases hr
      · rw [hf1] at hr
        cases hr
        exact ⟨by simp, he⟩
    · obtain ⟨a, b⟩ := h.fut_later id t1 hr
      exact ⟨by simp [a], b⟩
  · intro id hid'
    rcases h.queued_in id hid' with h' | h'
    · rw [hq, List.map_cons, List.mem_cons] at h'
      rcases h' with h' | h'
      · exact .inr ((hkeys id).2 (.inl h'))
      · exact .inl h'
    · exact .inr ((hkeys id).2 (.inr h'))
  · intro id hid'
    exact (hkeys id).2 (.inr (h.running_in id hid'))
  · intro id
    rw [submittedIds_append, List.mem_append, h.sub_iff, hkeys]
    have : id ∈ submittedIds [Event.submit t'] ↔ id = t.id := by
      simp [submittedIds, hid]
    rw [this]
    constructor
    · rintro ((h' | h') | h')
      · exact .inl (.inr h')
      · exact .inr h'
      · exact .inl (.inl h')
    · rintro ((h' | h') | h')
      · exact .inr h'
      · exact .inl (.inl h')
      · exact .inl (.inr h')
  · intro e x items hy
    exact h.exp_in e x items (Yielded_submit.1 hy)
  · intro s hs hp hd
    obtain ⟨x, items, hy⟩ := h.exp_done s hs hp (Done_submit.1 hd)
    exact ⟨x, items, Yielded_submit.2 hy⟩

/-- The submission of a task whose execution fails at once still leaves a correct trace. -/
theorem LInv.submit_trace {l : Loop T V} (h : LInv ops g specs l) {t t' : Task T V} {rest : List (Task T V)}
    (hq : l.sched.queue = t :: rest) (hc : SameCore t' t) : TInv ops g specs (l.trace ++ [.submit t']) :=
  (h.submit hq hc (f := .later t') (.inr rfl)).toTInv

/-- Rejection: the head of the queue is replaced by its bound copy. -/
theorem LInv.reject {l : Loop T V} (h : LInv ops g specs l) {t t' : Task T V} {rest : List (Task T V)}
    (hq : l.sched.queue = t :: rest) (hc : SameCore t' t) :
    LInv ops g specs { l with sched := { l.sched with queue := t' :: rest } } := by
  have hids : (t' :: rest).map Task.id = l.sched.queue.map Task.id := by
    rw [hq, List.map_cons, List.map_cons, hc.id_eq]
  refine { h.toTInv with
    specs_eq := h.specs_eq, pool_nodup := h.pool_nodup, states_nodup := h.states_nodup, pool_ok := h.pool_ok,
    pool_none := h.pool_none, pool_some := h.pool_some, keys_ok := h.keys_ok, done_iff := h.done_iff, queue_ok := ?_,
    queue_nodup := by rw [hids]; exact h.queue_nodup
    fut_nodup := h.fut_nodup, fut_ok := h.fut_ok, fut_now := h.fut_now,
    fut_later := h.fut_later, queued_in := by simp only [hids]; exact h.queued_in
    running_in := h.running_in, blocked := h.blocked, started := h.started, sub_iff := h.sub_iff,
    static_in := h.static_in, exp_in := h.exp_in, exp_done := h.exp_done }
  intro t1 ht1
  rcases List.mem_cons.1 ht1 with rfl | ht1
  · obtain ⟨a, b, t0, c, d⟩ := h.queue_ok t (by rw [hq]; simp)
    rw [hc.id_eq]
    exact ⟨a, b, t0, c, hc.trans d⟩
  · exact h.queue_ok t1 (by rw [hq]; exact List.mem_cons_of_mem _ ht1)

/-- A running task polled as running. -/
theorem LInv.running {l : Loop T V} (h : LInv ops g specs l) {id : Name} (hid : id ∈ l.futures.keys) :
    LInv ops g specs { l with sched := { l.sched with states := l.sched.states.set id .running } } := by
  have hst : ∀ k, stOf { l.sched with states := l.sched.states.set id .running } k =
      if k = id then .running else stOf l.sched k := by
    intro k
    unfold stOf
    simp only [Dict.get?_set]
    by_cases hk : id = k
    · simp [hk]
    · simp [hk, Ne.symm hk]
  have hids := h.fut_ok id hid
  have hnq : ∀ t ∈ l.sched.queue, t.id ≠ id := fun t ht he => (h.queue_ok t ht).2.1 (he ▸ hid)
  have hpool : ∃ t, l.sched.pool.get? id = some t := by
    cases hp : l.sched.pool.get? id with
    | some t => exact ⟨t, rfl⟩
    | none => have := h.pool_none id hp; rw [this] at hids; simp at hids
  have hsucc : ∀ k, (if k = id then TaskState.running else stOf l.sched k) = .successful ↔
      stOf l.sched k = .successful := by
    intro k
    by_cases hk : k = id
    · subst hk
      rw [if_pos rfl]
      rcases hids with h' | h' <;> simp [h']
    · rw [if_neg hk]
  have hfail : ∀ k, (if k = id then TaskState.running else stOf l.sched k) = .failed ↔
      stOf l.sched k = .failed := by
    intro k
    by_cases hk : k = id
    · subst hk
      rw [if_pos rfl]
      rcases hids with h' | h' <;> simp [h']
    · rw [if_neg hk]
  refine { h.toTInv with
    specs_eq := h.specs_eq, pool_nodup := h.pool_nodup, states_nodup := Dict.keys_set_nodup h.states_nodup _ _,
    pool_ok := h.pool_ok,
    pool_none := ?_, pool_some := ?_, keys_ok := ?_, done_iff := ?_, queue_ok := ?_,
    queue_nodup := h.queue_nodup
    fut_nodup := h.fut_nodup, fut_ok := ?_, fut_now := h.fut_now,
    fut_later := h.fut_later, queued_in := ?_
    running_in := ?_, blocked := ?_, started := ?_, sub_iff := ?_,
    static_in := ?_, exp_in := h.exp_in, exp_done := h.exp_done }
  · intro k hk
    rw [hst]
    have : k ≠ id := by rintro rfl; obtain ⟨t, ht⟩ := hpool; rw [ht] at hk; cases hk
    rw [if_neg this]
    exact h.pool_none k hk
  · intro k t hk
    rw [hst]
    split
    · simp
    · exact h.pool_some k t hk
  · intro k hk
    rcases (Dict.mem_keys_set _ _ _ _).1 hk with rfl | hk
    · obtain ⟨t, ht⟩ := hpool
      exact ⟨k, t, ht, .inl rfl⟩
    · exact h.keys_ok k hk
  · intro k
    rw [hst, hsucc]
    exact h.done_iff k
  · intro t ht
    rw [hst, if_neg (hnq t ht)]
    exact h.queue_ok t ht
  · intro k hk
    rw [hst]
    split
    · exact .inr rfl
    · exact h.fut_ok k hk
  · intro k hk
    rw [hst] at hk
    split at hk
    · cases hk
    · exact h.queued_in k hk
  · intro k hk
    rw [hst] at hk
    split at hk
    · rename_i hki; rw [hki]; exact hid
    · exact h.running_in k hk
  · intro k t hk hs
    rw [hst] at hs
    split at hs
    · cases hs
    · obtain ⟨d, h1, h2⟩ := h.blocked k t hk hs
      exact ⟨d, h1, by rw [hst]; exact fun h' => h2 ((hsucc d).1 h')⟩
  · intro k t hk hs d hd
    rw [hst, hsucc]
    refine h.started k t hk ?_ d hd
    rw [hst] at hs
    split at hs
    · rename_i hki; subst hki
      rcases hids with h' | h' <;> simp [h']
    · exact hs
  · intro k
    simp only [hst, hsucc, hfail]
    exact h.sub_iff k
  · intro s hs hsp hor
    refine h.static_in s hs hsp ?_
    rcases hor with h' | ⟨p, a, b, c, d⟩
    · exact .inl h'
    · rw [hst, hsucc] at d
      exact .inr ⟨p, a, b, c, d⟩

/-- A task reported failed (without an exception). -/
theorem LInv.failed {l : Loop T V} (h : LInv ops g specs l) {id : Name} (hid : id ∈ l.futures.keys) :
    LInv ops g specs { l with sched := { l.sched with states := l.sched.states.set id .failed },
                              futures := l.futures.del id } := by
  have hst : ∀ k, stOf { l.sched with states := l.sched.states.set id .failed } k =
      if k = id then .failed else stOf l.sched k := by
    intro k
    unfold stOf
    simp only [Dict.get?_set]
    by_cases hk : id = k
    · simp [hk]
    · simp [hk, Ne.symm hk]
  have hids := h.fut_ok id hid
  have hnq : ∀ t ∈ l.sched.queue, t.id ≠ id := fun t ht he => (h.queue_ok t ht).2.1 (he ▸ hid)
  have hpool : ∃ t, l.sched.pool.get? id = some t := by
    cases hp : l.sched.pool.get? id with
    | some t => exact ⟨t, rfl⟩
    | none => have := h.pool_none id hp; rw [this] at hids; simp at hids
  have hsucc : ∀ k, (if k = id then TaskState.failed else stOf l.sched k) = .successful ↔
      stOf l.sched k = .successful := by
    intro k
    by_cases hk : k = id
    · subst hk
      rw [if_pos rfl]
      rcases hids with h' | h' <;> simp [h']
    · rw [if_neg hk]
  have hkeys : ∀ k, k ∈ (l.futures.del id).keys ↔ k ≠ id ∧ k ∈ l.futures.keys := by
    intro k
    rw [Dict.mem_keys_iff, Dict.mem_keys_iff]
    simp only [Dict.get?_del]
    by_cases hk : id = k
    · simp [hk]
    · simp [hk, Ne.symm hk]
  refine { h.toTInv with
    specs_eq := h.specs_eq, pool_nodup := h.pool_nodup, states_nodup := Dict.keys_set_nodup h.states_nodup _ _,
    pool_ok := h.pool_ok,
    pool_none := ?_, pool_some := ?_, keys_ok := ?_, done_iff := ?_, queue_ok := ?_,
    queue_nodup := h.queue_nodup
    fut_nodup := Dict.keys_del_nodup h.fut_nodup _, fut_ok := ?_, fut_now := ?_,
    fut_later := ?_, queued_in := ?_
    running_in := ?_, blocked := ?_, started := ?_, sub_iff := ?_,
    static_in := ?_, exp_in := h.exp_in, exp_done := h.exp_done }
  · intro k hk
    rw [hst]
    have : k ≠ id := by rintro rfl; obtain ⟨t, ht⟩ := hpool; rw [ht] at hk; cases hk
    rw [if_neg this]
    exact h.pool_none k hk
  · intro k t hk
    rw [hst]
    split
    · simp
    · exact h.pool_some k t hk
  · intro k hk
    rcases (Dict.mem_keys_set _ _ _ _).1 hk with rfl | hk
    · obtain ⟨t, ht⟩ := hpool
      exact ⟨k, t, ht, .inl rfl⟩
    · exact h.keys_ok k hk
  · intro k
    rw [hst, hsucc]
    exact h.done_iff k
  · intro t ht
    obtain ⟨a, b, c⟩ := h.queue_ok t ht
    rw [hst, if_neg (hnq t ht)]
    exact ⟨a, fun hk => b ((hkeys _).1 hk).2, c⟩
  · intro k hk
    obtain ⟨h1, h2⟩ := (hkeys k).1 hk
    rw [hst, if_neg h1]
    exact h.fut_ok k h2
  · intro k r hr
    simp only [Dict.get?_del] at hr
    split at hr
    · cases hr
    · exact h.fut_now k r hr
  · intro k r hr
    simp only [Dict.get?_del] at hr
    split at hr
    · cases hr
    · exact h.fut_later k r hr
  · intro k hk
    rw [hst] at hk
    split at hk
    · cases hk
    · rename_i hne
      rcases h.queued_in k hk with h' | h'
      · exact .inl h'
      · exact .inr ((hkeys k).2 ⟨hne, h'⟩)
  · intro k hk
    rw [hst] at hk
    split at hk
    · cases hk
    · rename_i hne
      exact (hkeys k).2 ⟨hne, h.running_in k hk⟩
  · intro k t hk hs
    rw [hst] at hs
    split at hs
    · cases hs
    · obtain ⟨d, h1, h2⟩ := h.blocked k t hk hs
      exact ⟨d, h1, by rw [hst]; exact fun h' => h2 ((hsucc d).1 h')⟩
  · intro k t hk hs d hd
    rw [hst, hsucc]
    refine h.started k t hk ?_ d hd
    rw [hst] at hs
    split at hs
    · rename_i hki; subst hki
      rcases hids with h' | h' <;> simp [h']
    · exact hs
  · intro k
    rw [hst, hsucc, hkeys, h.sub_iff]
    by_cases hk : k = id
    · subst hk; simp [hid]
    · simp [hk]
  · intro s hs hsp hor
    refine h.static_in s hs hsp ?_
    rcases hor with h' | ⟨p, a, b, c, d⟩
    · exact .inl h'
    · rw [hst, hsucc] at d
      exact .inr ⟨p, a, b, c, d⟩

end
end Verif
