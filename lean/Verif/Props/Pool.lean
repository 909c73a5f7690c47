import Verif.Model.Pool

/-! C22: executor concurrency limits. -/
namespace Verif

/-- Tasks handed to the pool that have not completed. -/
def PoolWorld.unfinished (w : PoolWorld) : List Nat := (List.range w.created).filter (fun f => !w.completed.contains f)

/-- Invariant: the pool knows all unfinished futures, does not exceed its size, and has room when granted. -/
structure PoolInv (w : PoolWorld) : Prop where
  active_eq : w.unfinished = w.pool.active.filter (fun f => !w.completed.contains f)
  bound : (w.pool.active.filter (fun f => !w.completed.contains f)).length ≤ w.pool.maxTasks
  room : w.granted = true → (w.pool.active.filter (fun f => !w.completed.contains f)).length < w.pool.maxTasks

theorem filter_contains_cons (l done : List Nat) (f : Nat) :
    l.filter (fun x => !(f :: done).contains x) = (l.filter (fun x => !done.contains x)).filter (fun x => x != f) := by
  rw [List.filter_filter]
  apply List.filter_congr
  intro x _
  rw [List.contains_cons, Bool.not_or]
  rfl

theorem PoolInv.step {w : PoolWorld} (h : PoolInv w) (hd : ∀ f ∈ w.completed, f < w.created) (e : PoolEvent)
    (he : ∀ f, e = .complete f → f < w.created) :
    PoolInv (w.step e) ∧ ∀ f ∈ (w.step e).completed, f < (w.step e).created := by
  cases e with
  | complete f =>
    refine ⟨⟨?_, ?_, ?_⟩, ?_⟩
    · have := h.active_eq
      unfold PoolWorld.unfinished at this ⊢
      unfold PoolWorld.step
      simp only
      rw [filter_contains_cons, filter_contains_cons, this]
    · have := h.bound
      unfold PoolWorld.step
      simp only
      rw [filter_contains_cons]
      exact Nat.le_trans (List.length_filter_le _ _) this
    · intro hg
      have := h.room hg
      unfold PoolWorld.step
      simp only
      rw [filter_contains_cons]
      exact Nat.lt_of_le_of_lt (List.length_filter_le _ _) this
    · intro x hx
      rcases List.mem_cons.1 hx with rfl | hx
      · exact he _ rfl
      · exact hd x hx
  | ask =>
    have hf : (w.pool.active.filter (fun f => !w.completed.contains f)).filter (fun f => !w.completed.contains f) =
        w.pool.active.filter (fun f => !w.completed.contains f) := by
      rw [List.filter_filter]; simp
    refine ⟨⟨?_, ?_, ?_⟩, hd⟩
    · have := h.active_eq
      unfold PoolWorld.step Pool.canSubmit Pool.prune PoolWorld.isDone
      simp only
      rw [hf]
      exact this
    · have := h.bound
      unfold PoolWorld.step Pool.canSubmit Pool.prune PoolWorld.isDone
      simp only
      rw [hf]
      exact this
    · intro hg
      unfold PoolWorld.step Pool.canSubmit Pool.prune PoolWorld.isDone at hg ⊢
      simp only at hg ⊢
      rw [hf]
      exact of_decide_eq_true hg
  | submit =>
    unfold PoolWorld.step
    simp only
    split
    · rename_i hg
      have hnew : w.completed.contains w.created = false := by
        rw [← Bool.not_eq_true, List.contains_iff_mem]
        intro hc
        exact absurd (hd _ hc) (Nat.lt_irrefl _)
      have hact : (w.pool.active ++ [w.created]).filter (fun f => !w.completed.contains f) =
          w.pool.active.filter (fun f => !w.completed.contains f) ++ [w.created] := by
        rw [List.filter_append, List.filter_cons, hnew]
        simp
      refine ⟨⟨?_, ?_, ?_⟩, ?_⟩
      · have := h.active_eq
        unfold PoolWorld.unfinished at this ⊢
        unfold Pool.submit
        simp only
        rw [hact, ← this, List.range_succ, List.filter_append]
        congr 1
        rw [List.filter_cons, hnew]
        rfl
      · have := h.room hg
        unfold Pool.submit
        simp only
        rw [hact, List.length_append]
        simp only [List.length_singleton]
        exact this
      · intro hf; cases hf
      · intro f hf
        exact Nat.lt_succ_of_lt (hd f hf)
    · exact ⟨h, hd⟩

/-- Only futures that exist complete. -/
def ValidEvents : PoolWorld → List PoolEvent → Prop
  | _, [] => True
  | w, e :: es => (∀ f, e = .complete f → f < w.created) ∧ ValidEvents (w.step e) es

theorem PoolInv.run {w : PoolWorld} (h : PoolInv w) (hd : ∀ f ∈ w.completed, f < w.created) (es : List PoolEvent)
    (hv : ValidEvents w es) : PoolInv (es.foldl PoolWorld.step w) := by
  induction es generalizing w with
  | nil => exact h
  | cons e es ih =>
    obtain ⟨h1, h2⟩ := h.step hd e hv.1
    exact ih h1 h2 hv.2

theorem maxTasks_const (es : List PoolEvent) (w : PoolWorld) :
    (es.foldl PoolWorld.step w).pool.maxTasks = w.pool.maxTasks := by
  induction es generalizing w with
  | nil => rfl
  | cons e es ih =>
    rw [List.foldl_cons, ih]
    cases e with
    | complete f => rfl
    | ask => rfl
    | submit => unfold PoolWorld.step; simp only; split <;> rfl

/-- **C22.** Whatever the interleaving of completions, questions and submissions (each preceded by a positive answer), the
pool never has more than `max_tasks` unfinished tasks. -/
theorem C22_pool_bound (maxTasks : Nat) (es : List PoolEvent) (hv : ValidEvents (PoolWorld.start maxTasks) es) :
    ((es.foldl PoolWorld.step (PoolWorld.start maxTasks)).unfinished).length ≤ maxTasks := by
  have h0 : PoolInv (PoolWorld.start maxTasks) :=
    ⟨rfl, Nat.zero_le _, fun h => by cases h⟩
  have h := h0.run (fun f hf => by cases hf) es hv
  rw [h.active_eq]
  have := h.bound
  rw [maxTasks_const] at this
  exact this

/-- **C22, no waste.** Asked when fewer than `max_tasks` tasks are unfinished, the pool grants. -/
theorem C22_grants (maxTasks : Nat) (es : List PoolEvent) (hv : ValidEvents (PoolWorld.start maxTasks) es)
    (hroom : ((es.foldl PoolWorld.step (PoolWorld.start maxTasks)).unfinished).length < maxTasks) :
    ((es.foldl PoolWorld.step (PoolWorld.start maxTasks)).step .ask).granted = true := by
  have h0 : PoolInv (PoolWorld.start maxTasks) :=
    ⟨rfl, Nat.zero_le _, fun h => by cases h⟩
  have h := h0.run (fun f hf => by cases hf) es hv
  rw [h.active_eq] at hroom
  have hm' := maxTasks_const es (PoolWorld.start maxTasks)
  generalize es.foldl PoolWorld.step (PoolWorld.start maxTasks) = w at *
  unfold PoolWorld.step Pool.canSubmit Pool.prune PoolWorld.isDone
  simp only [decide_eq_true_eq]
  rw [hm']
  exact hroom

/-- Room for two: two are submitted, a third only after one of them completed. -/
example : let es : List PoolEvent := [.ask, .submit, .ask, .submit, .ask, .submit, .complete 0, .ask, .submit]
    ValidEvents (PoolWorld.start 2) es ∧ (es.foldl PoolWorld.step (PoolWorld.start 2)).unfinished = [1, 2] := by
  refine ⟨?_, by decide⟩
  simp [ValidEvents, PoolWorld.step, PoolWorld.start, Pool.canSubmit, Pool.prune, Pool.submit, PoolWorld.isDone]

end Verif
