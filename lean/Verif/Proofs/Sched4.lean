import Verif.Proofs.Sched3

/-! The invariant of the orchestration loop is preserved by the completion of a task. -/
namespace Verif
variable {T V : Type}
variable {ops : TaskOps T V} {g : Graph T V} {specs : List (TaskSpec T V)}

theorem pool_ids {pool : Dict Name (Task T V)} (h : ∀ id t, pool.get? id = some t → t.id = id)
    (hn : pool.keys.Nodup) : (pool.map (·.2)).map Task.id = pool.keys := by
  unfold Dict.keys
  rw [List.map_map]
  apply List.map_congr_left
  intro p hp
  exact h p.1 p.2 (Dict.get?_of_mem hn hp)

theorem mem_pool_map {pool : Dict Name (Task T V)} (h : ∀ id t, pool.get? id = some t → t.id = id)
    (hn : pool.keys.Nodup) {t : Task T V} : t ∈ pool.map (·.2) ↔ pool.get? t.id = some t := by
  rw [List.mem_map]
  constructor
  · rintro ⟨p, hp, rfl⟩
    have := Dict.get?_of_mem hn hp
    rw [h _ _ this]
    exact this
  · intro ht
    exact ⟨_, Dict.get?_mem ht, rfl⟩

theorem LInv.finish {l : Loop T V} (h : LInv ops g specs l) {id : Name} (hid : id ∈ l.futures.keys)
    {r : Dict Name V} (hr : ∃ t, .submit t ∈ l.trace ∧ t.id = id ∧ executeTask g t = .ok r) (c : Dict Name V)
    (new : List (Task T V)) (hnn : (new.map Task.id).Nodup)
    (hfresh : ∀ t ∈ new, l.sched.pool.get? t.id = none)
    (hreal : ∀ t ∈ new, Realized ops specs (l.trace ++ [.done id r]) t)
    (hstat : ∀ s ∈ specs, s.spawning = none → (∃ p ∈ specs, p.baseId ∈ s.baseDeps ∧ p.purpose ≠ .expand ∧ p.baseId = id) →
      (∃ t, l.sched.pool.get? s.baseId = some t) ∨ ∃ t ∈ new, t.id = s.baseId)
    (hexp : ∀ x items, Yielded ops specs (l.trace ++ [.done id r]) id x items →
      (∀ m ∈ specs, m.MemberOf id → ∀ i < items.length, ∃ t ∈ new, t.id = instanceId id i m.baseId) ∧
      (∀ c ∈ specs, c.CollectorOf id → ∃ t ∈ new, t.id = c.baseId))
    (hexpd : ∀ s ∈ specs, s.purpose = .expand → s.baseId = id →
      ∃ x items, Yielded ops specs (l.trace ++ [.done id r]) id x items) :
    LInv ops g specs
      { sched := enqueueReady (new.foldl Sched.register
          { l.sched with states := l.sched.states.set id .successful, cache := c }),
        futures := l.futures.del id, trace := l.trace ++ [.done id r] } := by
  obtain ⟨r1, r2, r3, r4, r5, r6, r7, r8⟩ := register_fold new
    { l.sched with states := l.sched.states.set id .successful, cache := c } hnn
  generalize hs2 : new.foldl Sched.register
    { l.sched with states := l.sched.states.set id .successful, cache := c } = s2 at r1 r2 r3 r4 r5 r6 r7 r8 ⊢
  obtain ⟨e1, e2, e3, e4, e5, e6, e7, e8⟩ := enqueueReady_spec s2
  generalize enqueueReady s2 = s3 at e1 e2 e3 e4 e5 e6 e7 e8 ⊢
  simp only at r1 r2 r3 r4 r5 r6 r7 r8
  -- states
  have hids := h.fut_ok id hid
  have hst1 : ∀ k, stOf { l.sched with states := l.sched.states.set id .successful, cache := c } k =
      if k = id then .successful else stOf l.sched k := by
    intro k
    unfold stOf
    simp only [Dict.get?_set]
    by_cases hk : id = k
    · simp [hk]
    · simp [hk, Ne.symm hk]
  have hpoolid : ∃ t, l.sched.pool.get? id = some t := by
    cases hp : l.sched.pool.get? id with
    | some t => exact ⟨t, rfl⟩
    | none => have := h.pool_none id hp; rw [this] at hids; simp at hids
  have hnewpool : ∀ k ∈ new.map Task.id, l.sched.pool.get? k = none := by
    intro k hk
    obtain ⟨t, ht, rfl⟩ := List.mem_map.1 hk
    exact hfresh t ht
  have hnewid : id ∉ new.map Task.id := by
    intro hk
    obtain ⟨t, ht⟩ := hpoolid
    rw [hnewpool _ hk] at ht; cases ht
  have hnewst : ∀ k ∈ new.map Task.id, stOf l.sched k = .uninitialized := fun k hk =>
    h.pool_none k (hnewpool k hk)
  have hst2 : ∀ k, stOf s2 k = if k ∈ new.map Task.id then .initialized else
      if k = id then .successful else stOf l.sched k := by
    intro k; rw [r5, hst1]
  -- pool of s2
  have hp2 : ∀ k t, s2.pool.get? k = some t → t.id = k ∧ (t ∈ new ∨ l.sched.pool.get? k = some t) := by
    intro k t hk
    rw [r4] at hk
    cases hf : new.find? (fun t => t.id == k) with
    | some t' =>
      rw [hf] at hk
      simp only [Option.some_or, Option.some.injEq] at hk
      subst hk
      have h1 := List.find?_some hf
      have h2 := List.mem_of_find?_eq_some hf
      exact ⟨by simpa using h1, .inl h2⟩
    | none =>
      rw [hf] at hk
      simp only [Option.none_or] at hk
      exact ⟨(h.pool_ok k t hk).1, .inr hk⟩
  have hp2old : ∀ k t, l.sched.pool.get? k = some t → s2.pool.get? k = some t := by
    intro k t hk
    rw [r4]
    have : new.find? (fun t => t.id == k) = none := by
      rw [List.find?_eq_none]
      intro x hx
      simp only [beq_iff_eq]
      rintro rfl
      rw [hfresh x hx] at hk; cases hk
    rw [this]; exact hk
  have hp2new : ∀ t ∈ new, ∃ t', s2.pool.get? t.id = some t' := by
    intro t ht
    rw [r4]
    cases hf : new.find? (fun t' => t'.id == t.id) with
    | some t' => exact ⟨t', rfl⟩
    | none => rw [List.find?_eq_none] at hf; exact absurd (hf t ht) (by simp)
  have hp2none : ∀ k, s2.pool.get? k = none → k ∉ new.map Task.id ∧ l.sched.pool.get? k = none := by
    intro k hk
    constructor
    · intro hm
      obtain ⟨t, ht, rfl⟩ := List.mem_map.1 hm
      obtain ⟨t', ht'⟩ := hp2new t ht
      rw [hk] at ht'; cases ht'
    · cases hp : l.sched.pool.get? k with
      | none => rfl
      | some t => rw [hp2old k t hp] at hk; cases hk
  have hp2nd : s2.pool.keys.Nodup := r8 h.pool_nodup
  have hp2ids : ∀ k t, s2.pool.get? k = some t → t.id = k := fun k t hk => (hp2 k t hk).1
  -- ready list
  have hready : ∀ t, t ∈ readyList s2 ↔ s2.pool.get? t.id = some t ∧ stOf s2 t.id = .initialized ∧
      ∀ d ∈ t.deps, stOf s2 d = .successful := by
    intro t
    unfold readyList readyIn stOf
    rw [List.mem_filter, mem_pool_map hp2ids hp2nd]
    simp only [Bool.and_eq_true, beq_iff_eq, List.all_eq_true]
  have hrinit : ∀ k ∈ (readyList s2).map Task.id, stOf s2 k = .initialized := by
    intro k hk
    obtain ⟨t, ht, rfl⟩ := List.mem_map.1 hk
    exact ((hready t).1 ht).2.1
  have hrpool : ∀ k ∈ (readyList s2).map Task.id, ∃ t ∈ readyList s2, s2.pool.get? k = some t := by
    intro k hk
    obtain ⟨t, ht, rfl⟩ := List.mem_map.1 hk
    exact ⟨t, ht, ((hready t).1 ht).1⟩
  have hrnd : ((readyList s2).map Task.id).Nodup := by
    unfold readyList
    have := hp2nd
    rw [← pool_ids hp2ids hp2nd] at this
    exact this.sublist (List.Sublist.map _ List.filter_sublist)
  -- facts on s3
  have hs2id : stOf s2 id = .successful := by rw [hst2, if_neg hnewid, if_pos rfl]
  have F1 : ∀ k, stOf s3 k = .successful ↔ k = id ∨ stOf l.sched k = .successful := by
    intro k
    rw [e5]
    split
    · rename_i hk
      have hi := hrinit k hk
      rw [hst2] at hi
      constructor
      · intro h'; cases h'
      · rintro (rfl | h')
        · rw [if_neg hnewid, if_pos rfl] at hi; cases hi
        · split at hi
          · rename_i hn; rw [hnewst k hn] at h'; cases h'
          · split at hi
            · cases hi
            · rw [h'] at hi; cases hi
    · rw [hst2]
      split
      · rename_i hn
        constructor
        · intro h'; cases h'
        · rintro (rfl | h')
          · exact absurd hn hnewid
          · rw [hnewst k hn] at h'; cases h'
      · split
        · rename_i hk; simp [hk]
        · rename_i hk; simp [hk]
  have F1' : ∀ k, stOf s3 k = .successful ↔ stOf s2 k = .successful := by
    intro k
    rw [F1, hst2]
    by_cases hn : k ∈ new.map Task.id
    · rw [if_pos hn, hnewst k hn]
      simp only [reduceCtorEq, or_false, iff_false]
      rintro rfl; exact hnewid hn
    · rw [if_neg hn]
      by_cases hk : k = id
      · simp [hk]
      · simp [hk]
  have F2 : ∀ k, stOf s3 k = .queued → k ∈ (readyList s2).map Task.id ∨ (stOf l.sched k = .queued ∧ k ≠ id) := by
    intro k hk
    rw [e5] at hk
    split at hk
    · left; assumption
    · rw [hst2] at hk
      split at hk
      · cases hk
      · split at hk
        · cases hk
        · rename_i hne; exact .inr ⟨hk, hne⟩
  have F2' : ∀ k, stOf l.sched k = .queued → k ≠ id → stOf s3 k = .queued := by
    intro k hk hne
    rw [e5]
    split
    · rfl
    · rw [hst2, if_neg, if_neg hne]
      · exact hk
      · intro hn; rw [hnewst k hn] at hk; cases hk
  have F3 : ∀ k, stOf s3 k = .running → stOf l.sched k = .running ∧ k ≠ id := by
    intro k hk
    rw [e5] at hk
    split at hk
    · cases hk
    · rw [hst2] at hk
      split at hk
      · cases hk
      · split at hk
        · cases hk
        · rename_i hne; exact ⟨hk, hne⟩
  have F3' : ∀ k, stOf l.sched k = .running → k ≠ id → stOf s3 k = .running := by
    intro k hk hne
    have hnn : k ∉ new.map Task.id := by intro hn; rw [hnewst k hn] at hk; cases hk
    have h2 : stOf s2 k = .running := by rw [hst2, if_neg hnn, if_neg hne]; exact hk
    rw [e5, if_neg]
    · exact h2
    · intro hr; rw [hrinit k hr] at h2; cases h2
  have F4 : ∀ k, stOf s3 k = .failed ↔ stOf l.sched k = .failed := by
    intro k
    constructor
    · intro hk
      rw [e5] at hk
      split at hk
      · cases hk
      · rw [hst2] at hk
        split at hk
        · cases hk
        · split at hk
          · cases hk
          · exact hk
    · intro hk
      have hne : k ≠ id := by rintro rfl; rw [hk] at hids; simp at hids
      have hnn : k ∉ new.map Task.id := by intro hn; rw [hnewst k hn] at hk; cases hk
      have h2 : stOf s2 k = .failed := by rw [hst2, if_neg hnn, if_neg hne]; exact hk
      rw [e5, if_neg]
      · exact h2
      · intro hr; rw [hrinit k hr] at h2; cases h2
  have F5 : ∀ k, stOf s3 k = .initialized → k ∉ (readyList s2).map Task.id ∧ stOf s2 k = .initialized := by
    intro k hk
    rw [e5] at hk
    split at hk
    · cases hk
    · exact ⟨by assumption, hk⟩
  have hnd : ¬ Done l.trace id := by
    rw [← h.done_iff]
    rcases hids with h' | h' <;> rw [h'] <;> simp
  have hT := h.toTInv.append_done hnd hr
  have hkeys : ∀ k, k ∈ (l.futures.del id).keys ↔ k ≠ id ∧ k ∈ l.futures.keys := by
    intro k
    rw [Dict.mem_keys_iff, Dict.mem_keys_iff]
    simp only [Dict.get?_del]
    by_cases hk : id = k
    · simp [hk]
    · simp [hk, Ne.symm hk]
  have hmono : ∀ i r', Event.done i r' ∈ l.trace → Event.done i r' ∈ l.trace ++ [.done id r] := by
    intro i r' h'; simp [h']
  refine { hT with
    specs_eq := ?_, pool_nodup := by rw [e2]; exact hp2nd
    states_nodup := e8 (r7 (Dict.keys_set_nodup h.states_nodup _ _)),
    pool_ok := ?_,
    pool_none := ?_, pool_some := ?_, keys_ok := ?_, done_iff := ?_, queue_ok := ?_,
    queue_nodup := ?_
    fut_nodup := Dict.keys_del_nodup h.fut_nodup _, fut_ok := ?_, fut_now := ?_,
    fut_later := ?_, queued_in := ?_
    running_in := ?_, blocked := ?_, started := ?_, sub_iff := ?_,
    static_in := ?_, exp_in := ?_, exp_done := ?_ }
  · rw [e1, r1]; exact h.specs_eq
  · intro k t hk
    rw [e2] at hk
    obtain ⟨h1, h2⟩ := hp2 k t hk
    refine ⟨h1, ?_⟩
    rcases h2 with h2 | h2
    · exact hreal t h2
    · exact (h.pool_ok k t h2).2.mono hmono
  · intro k hk
    rw [e2] at hk
    obtain ⟨h1, h2⟩ := hp2none k hk
    have hne : k ≠ id := by rintro rfl; obtain ⟨t, ht⟩ := hpoolid; rw [h2] at ht; cases ht
    have h3 : stOf s2 k = .uninitialized := by
      rw [hst2, if_neg h1, if_neg hne]; exact h.pool_none k h2
    rw [e5, if_neg]
    · exact h3
    · intro hr; rw [hrinit k hr] at h3; cases h3
  · intro k t hk
    rw [e2] at hk
    rw [e5]
    split
    · simp
    · rw [hst2]
      split
      · simp
      · rename_i hnn
        split
        · simp
        · rcases (hp2 k t hk).2 with h' | h'
          · exact absurd (List.mem_map.2 ⟨t, h', (hp2 k t hk).1⟩) hnn
          · exact h.pool_some k t h'
  · intro k hk
    rw [e2]
    rcases e6 k hk with ⟨t, ht, hkt⟩ | hk
    · have := (mem_pool_map hp2ids hp2nd).1 ht
      exact ⟨t.id, t, this, hkt⟩
    · rcases (r6 k).1 hk with hk | hk
      · obtain ⟨t, ht, rfl⟩ := List.mem_map.1 hk
        obtain ⟨t', ht'⟩ := hp2new t ht
        exact ⟨_, t', ht', .inl rfl⟩
      · rcases (Dict.mem_keys_set _ _ _ _).1 hk with rfl | hk
        · obtain ⟨t, ht⟩ := hpoolid
          exact ⟨k, t, hp2old _ _ ht, .inl rfl⟩
        · obtain ⟨i, t, h1, h2⟩ := h.keys_ok k hk
          exact ⟨i, t, hp2old _ _ h1, h2⟩
  · intro k
    rw [F1, Done_done, h.done_iff]
    exact Or.comm
  · intro t ht
    rw [e4, r2] at ht
    rw [e2]
    rcases List.mem_append.1 ht with ht | ht
    · obtain ⟨a, b, t0, c', d⟩ := h.queue_ok t ht
      have hne : t.id ≠ id := fun he => b (he ▸ hid)
      exact ⟨F2' _ a hne, fun hk => b ((hkeys _).1 hk).2, t0, hp2old _ _ c', d⟩
    · obtain ⟨a, b, c'⟩ := (hready t).1 ht
      refine ⟨?_, ?_, t, a, ⟨rfl, rfl, rfl⟩⟩
      · rw [e5, if_pos (List.mem_map.2 ⟨t, ht, rfl⟩)]
      · intro hk
        obtain ⟨hne, hk⟩ := (hkeys _).1 hk
        have := h.fut_ok _ hk
        rw [hst2] at b
        by_cases hn : t.id ∈ new.map Task.id
        · rw [hnewst _ hn] at this; simp at this
        · rw [if_neg hn, if_neg hne] at b
          rw [b] at this; simp at this
  · rw [e4, r2, List.map_append]
    refine List.nodup_append.2 ⟨h.queue_nodup, hrnd, ?_⟩
    intro a ha b hb hab
    subst hab
    obtain ⟨t, ht, rfl⟩ := List.mem_map.1 ha
    obtain ⟨h1, h2, _⟩ := h.queue_ok t ht
    have hne : t.id ≠ id := fun he => h2 (he ▸ hid)
    have h3 := hrinit _ hb
    rw [hst2, if_neg, if_neg hne, h1] at h3
    · cases h3
    · intro hn; rw [hnewst _ hn] at h1; cases h1
  · intro k hk
    obtain ⟨hne, hk⟩ := (hkeys k).1 hk
    rcases h.fut_ok k hk with h' | h'
    · exact .inl (F2' k h' hne)
    · exact .inr (F3' k h' hne)
  · intro k r' hr'
    simp only [Dict.get?_del] at hr'
    split at hr'
    · cases hr'
    · obtain ⟨t, a, b, c'⟩ := h.fut_now k r' hr'
      exact ⟨t, by simp [a], b, c'⟩
  · intro k t hr'
    simp only [Dict.get?_del] at hr'
    split at hr'
    · cases hr'
    · obtain ⟨a, b⟩ := h.fut_later k t hr'
      exact ⟨by simp [a], b⟩
  · intro k hk
    rw [e4, r2, List.map_append]
    rcases F2 k hk with h' | ⟨h', hne⟩
    · exact .inl (List.mem_append.2 (.inr h'))
    · rcases h.queued_in k h' with h'' | h''
      · exact .inl (List.mem_append.2 (.inl h''))
      · exact .inr ((hkeys k).2 ⟨hne, h''⟩)
  · intro k hk
    obtain ⟨h1, h2⟩ := F3 k hk
    exact (hkeys k).2 ⟨h2, h.running_in k h1⟩
  · intro k t hk hs
    rw [e2] at hk
    obtain ⟨h1, h2⟩ := F5 k hs
    have hid' := (hp2 k t hk).1
    subst hid'
    apply Classical.byContradiction
    intro hcon
    apply h1
    refine List.mem_map.2 ⟨t, (hready t).2 ⟨hk, h2, ?_⟩, rfl⟩
    intro d hd
    apply Classical.byContradiction
    intro hne
    exact hcon ⟨d, hd, fun h' => hne ((F1' d).1 h')⟩
  · intro k t hk hs d hd
    rw [e2] at hk
    have hid' := (hp2 k t hk).1
    subst hid'
    rw [F1']
    by_cases hr : t.id ∈ (readyList s2).map Task.id
    · obtain ⟨t', ht', hg⟩ := hrpool _ hr
      rw [hk] at hg
      cases hg
      exact ((hready t).1 ht').2.2 d hd
    · rw [e5, if_neg hr] at hs
      have hnn : t.id ∉ new.map Task.id := by
        intro hn; rw [hst2, if_pos hn] at hs; exact hs rfl
      have hold : l.sched.pool.get? t.id = some t := by
        rcases (hp2 _ t hk).2 with h' | h'
        · exact absurd (List.mem_map.2 ⟨t, h', rfl⟩) hnn
        · exact h'
      have : stOf l.sched t.id ≠ .initialized := by
        intro hi
        rw [hst2, if_neg hnn] at hs
        by_cases he : t.id = id
        · rw [he] at hi; rw [hi] at hids; simp at hids
        · rw [if_neg he] at hs; exact hs hi
      have hd' := h.started _ t hold this d hd
      rw [← F1', F1]
      exact .inr hd'
  · intro k
    rw [submittedIds_append, F1, F4, hkeys]
    have : submittedIds [Event.done (T := T) id r] = [] := rfl
    rw [this, List.append_nil, h.sub_iff]
    by_cases hk : k = id
    · subst hk; simp [hid]
    · simp [hk]
  · intro s hs hsp hor
    rw [e2]
    rcases hor with h' | ⟨p, a, b, c', d⟩
    · obtain ⟨t, ht⟩ := h.static_in s hs hsp (.inl h')
      exact ⟨t, hp2old _ _ ht⟩
    · rcases (F1 _).1 d with d | d
      · rcases hstat s hs hsp ⟨p, a, b, c', d⟩ with ⟨t, ht⟩ | ⟨t, ht, hti⟩
        · exact ⟨t, hp2old _ _ ht⟩
        · rw [← hti]; exact hp2new t ht
      · obtain ⟨t, ht⟩ := h.static_in s hs hsp (.inr ⟨p, a, b, c', d⟩)
        exact ⟨t, hp2old _ _ ht⟩
  · intro e x items hy
    rw [e2]
    by_cases he : e = id
    · subst he
      obtain ⟨h1, h2⟩ := hexp x items hy
      constructor
      · intro m hm hmm i hi
        obtain ⟨t, ht, hti⟩ := h1 m hm hmm i hi
        rw [← hti]; exact hp2new t ht
      · intro c' hc' hcc
        obtain ⟨t, ht, hti⟩ := h2 c' hc' hcc
        rw [← hti]; exact hp2new t ht
    · have hy' : Yielded ops specs l.trace e x items := by
        obtain ⟨s, a1, a2, a3, a4, r', v, a5, a6⟩ := hy
        refine ⟨s, a1, a2, a3, a4, r', v, ?_, a6⟩
        simp only [List.mem_append, List.mem_singleton, Event.done.injEq] at a5
        rcases a5 with a5 | a5
        · exact a5
        · exact absurd a5.1 he
      obtain ⟨h1, h2⟩ := h.exp_in e x items hy'
      constructor
      · intro m hm hmm i hi
        obtain ⟨t, ht⟩ := h1 m hm hmm i hi
        exact ⟨t, hp2old _ _ ht⟩
      · intro c' hc' hcc
        obtain ⟨t, ht⟩ := h2 c' hc' hcc
        exact ⟨t, hp2old _ _ ht⟩
  · intro s hs hp hd
    rcases Done_done.1 hd with hd | hd
    · obtain ⟨x, items, hy⟩ := h.exp_done s hs hp hd
      exact ⟨x, items, hy.mono hmono⟩
    · obtain ⟨x, items, hy⟩ := hexpd s hs hp hd
      exact ⟨x, items, hd ▸ hy⟩

end Verif
