import Verif.Proofs.RunFacts

/-! Without executors that report failure silently no task ends up in state FAILED. -/
namespace Verif
variable {T V : Type}
variable {ops : TaskOps T V} {g : Graph T V} {specs : List (TaskSpec T V)} {ex : Executors}

/-- No task is marked as failed. -/
def NoFailed (s : Sched T V) : Prop := ∀ k, s.states.get? k ≠ some .failed

theorem NoFailed.set {s : Sched T V} (h : NoFailed s) {st : Dict Name TaskState} (hst : st = s.states) {k : Name}
    {x : TaskState} (hx : x ≠ .failed) : ∀ k', (st.set k x).get? k' ≠ some .failed := by
  subst hst
  intro k'
  rw [Dict.get?_set]
  split
  · intro hc; cases hc; exact hx rfl
  · exact h k'

theorem touch_noFail {st : Dict Name TaskState} (h : ∀ k, st.get? k ≠ some .failed) (k : Name) :
    ∀ k', (touch st k).get? k' ≠ some .failed := by
  unfold touch
  split
  · exact h
  · intro k'
    rw [Dict.get?_set]
    split
    · intro hc; cases hc
    · exact h k'

theorem scan_noFail (l : List Name) (p : Bool × Dict Name TaskState) (h : ∀ k, p.2.get? k ≠ some .failed) :
    ∀ k, (l.foldl scanDep p).2.get? k ≠ some .failed := by
  induction l generalizing p with
  | nil => exact h
  | cons a l ih => exact ih _ (touch_noFail h a)

theorem scanTask_noFail (ts : List (Task T V)) (p : List (Task T V) × Dict Name TaskState)
    (h : ∀ k, p.2.get? k ≠ some .failed) : ∀ k, (ts.foldl scanTask p).2.get? k ≠ some .failed := by
  induction ts generalizing p with
  | nil => exact h
  | cons t ts ih =>
    refine ih _ ?_
    unfold scanTask
    simp only
    split
    · exact scan_noFail _ _ (touch_noFail h _)
    · exact touch_noFail h _

theorem enqueueReady_noFail {s : Sched T V} (h : NoFailed s) : NoFailed (enqueueReady s) := by
  unfold enqueueReady
  simp only
  have h1 := scanTask_noFail (s.pool.map (·.2)) ([], s.states) h
  generalize ((s.pool.map (·.2)).foldl scanTask ([], s.states)) = r at h1
  have h2 : NoFailed { s with states := r.2 } := h1
  generalize ({ s with states := r.2 } : Sched T V) = s1 at h2
  induction r.1 generalizing s1 with
  | nil => exact h2
  | cons t ts ih => exact ih _ (NoFailed.set h2 rfl (by simp))

theorem register_noFail (ts : List (Task T V)) {s : Sched T V} (h : NoFailed s) :
    NoFailed (ts.foldl Sched.register s) := by
  induction ts generalizing s with
  | nil => exact h
  | cons t ts ih => exact ih (NoFailed.set h rfl (by simp))

theorem realizeDependents_noFail {s : Sched T V} (h : NoFailed s) (c : Name) : NoFailed (realizeDependents s c) := by
  unfold realizeDependents
  generalize s.specs.filter _ = l
  induction l generalizing s with
  | nil => exact h
  | cons t ts ih =>
    simp only [List.foldl_cons]
    apply ih
    split
    · exact NoFailed.set h rfl (by simp)
    · exact h

theorem update_noFail {s s' : Sched T V} (h : NoFailed s) {id : Name} {st : TaskState} {r : Dict Name V}
    (hst : st ≠ .failed) (hok : updateTaskState ops s id st r = .ok s') : NoFailed s' := by
  unfold updateTaskState at hok
  have h1 : NoFailed { s with states := s.states.set id st } := NoFailed.set h rfl hst
  simp only at hok
  split at hok
  · cases hok; exact h1
  · split at hok
    · cases hok
    · split at hok
      · cases hok
      · split at hok
        · split at hok
          · cases hok
          · split at hok
            · split at hok
              · cases hok
              · split at hok
                · cases hok
                · split at hok
                  · cases hok
                  · cases hok
                    apply enqueueReady_noFail
                    exact register_noFail _ (register_noFail _ (by exact h1))
            · cases hok
              exact enqueueReady_noFail (realizeDependents_noFail (by exact h1) _)
        · cases hok; exact h1

theorem pollOne_noFail {c : Choice} (hc : ∀ id, c.obs id ≠ .silentFail) (p : Name × Future T V) {l l' : Loop T V}
    (h : NoFailed l.sched) (hok : pollOne ops g c p l = .ok l') : NoFailed l'.sched := by
  have hfin : ∀ r l', finishTask ops l p.1 r = .ok l' → NoFailed l'.sched := by
    intro r l' hl
    unfold finishTask at hl
    split at hl
    · cases hl
    · rename_i hu
      cases hl
      exact update_noFail h (by simp) hu
  have hrun : ∀ l', reportState ops l p.1 .running = .ok l' → NoFailed l'.sched := by
    intro l' hl
    unfold reportState at hl
    split at hl
    · cases hl
    · rename_i hu
      cases hl
      exact update_noFail h (by simp) hu
  unfold pollOne at hok
  split at hok
  · exact hfin _ _ hok
  · split at hok
    · exact hrun _ hok
    · split at hok
      · cases hok
      · exact hfin _ _ hok
    · split at hok
      · cases hok
      · exact hrun _ hok
    · cases hok
    · rename_i ho
      exact absurd ho (hc _)

theorem polls_noFail {c : Choice} (hc : ∀ id, c.obs id ≠ .silentFail) (ps : List (Name × Future T V)) {l l' : Loop T V}
    (h : NoFailed l.sched) (hok : forEach (pollOne ops g c) ps l = .ok l') : NoFailed l'.sched := by
  induction ps generalizing l with
  | nil => unfold forEach at hok; cases hok; exact h
  | cons p ps ih =>
    unfold forEach at hok
    cases hp : pollOne ops g c p l with
    | ok l1 =>
      rw [hp] at hok
      exact ih (pollOne_noFail hc p h hp) hok
    | err e l1 => rw [hp] at hok; cases hok

theorem submit_noFail {c : Choice} {l l' : Loop T V} (h : NoFailed l.sched)
    (hok : releaseAndSubmit ops g ex c l = .ok l') : NoFailed l'.sched := by
  unfold releaseAndSubmit at hok
  split at hok
  · cases hok; exact h
  · split at hok
    · cases hok
    · split at hok
      · unfold submitTask at hok
        split at hok
        · split at hok
          · cases hok
          · cases hok; exact h
        · cases hok; exact h
      · cases hok; exact h

theorem runLoop_noFail (cs : List Choice) (hcs : ∀ c ∈ cs, ∀ id, c.obs id ≠ .silentFail) {l l' : Loop T V}
    (h : NoFailed l.sched) (hok : runLoop ops g ex cs l = .ok l') : NoFailed l'.sched := by
  induction cs generalizing l with
  | nil => unfold runLoop at hok; cases hok; exact h
  | cons c cs ih =>
    unfold runLoop at hok
    split at hok
    · cases hok; exact h
    · unfold loopStep at hok
      cases hs : releaseAndSubmit ops g ex c l with
      | err e l1 => rw [hs] at hok; cases hok
      | ok l1 =>
        rw [hs] at hok
        simp only [Out.bind] at hok
        cases hf : forEach (pollOne ops g c) l1.futures l1 with
        | err e l2 => rw [hf] at hok; cases hok
        | ok l2 =>
          rw [hf] at hok
          simp only at hok
          exact ih (fun c' hc' => hcs c' (by simp [hc'])) (polls_noFail (hcs c (by simp)) _ (submit_noFail h hs) hf) hok

theorem init_noFail (specs : List (TaskSpec T V)) (c0 : Dict Name V) : NoFailed (initLoop specs c0).sched := by
  unfold initLoop initSched
  simp only
  have h1 : ∀ (ss : List (TaskSpec T V)) (s : Sched T V), NoFailed s → NoFailed (ss.foldl (fun (s : Sched T V) spec =>
      if spec.baseDeps.length = 0 then s.register (mkTask spec none none []) else s) s) := by
    intro ss
    induction ss with
    | nil => intro s h; exact h
    | cons a ss ih =>
      intro s h
      apply ih
      simp only
      split
      · exact NoFailed.set h rfl (by simp)
      · exact h
  have h2 : ∀ (ts : List (Task T V)) (s : Sched T V), NoFailed s → NoFailed (ts.foldl Sched.initQueueOne s) := by
    intro ts
    induction ts with
    | nil => intro s h; exact h
    | cons a ts ih =>
      intro s h
      apply ih
      unfold Sched.initQueueOne
      split
      · exact NoFailed.set h rfl (by simp)
      · exact h
  apply h2
  apply h1
  intro k hc
  cases hc

theorem submit_unique {tr : List (Event T V)} (hn : (submittedIds tr).Nodup) {t t' : Task T V} (h : .submit t ∈ tr)
    (h' : .submit t' ∈ tr) (hid : t.id = t'.id) : t = t' := by
  induction tr with
  | nil => cases h
  | cons ev tr ih =>
    cases ev with
    | done id r =>
      rcases List.mem_cons.1 h with h1 | h1
      · cases h1
      rcases List.mem_cons.1 h' with h2 | h2
      · cases h2
      exact ih hn h1 h2
    | submit t1 =>
      have hn' : (t1.id :: submittedIds tr).Nodup := hn
      rw [List.nodup_cons] at hn'
      have hmem : ∀ t : Task T V, .submit t ∈ tr → t.id ∈ submittedIds tr := fun t h => List.mem_filterMap.2 ⟨_, h, rfl⟩
      rcases List.mem_cons.1 h with h1 | h1 <;> rcases List.mem_cons.1 h' with h2 | h2
      · cases h1; cases h2; rfl
      · cases h1; exact absurd (hid ▸ hmem _ h2) hn'.1
      · cases h2; exact absurd (hid ▸ hmem _ h1) hn'.1
      · exact ih hn'.2 h1 h2

end Verif
