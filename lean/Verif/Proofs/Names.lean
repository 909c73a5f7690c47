import Verif.Proofs.Sched9

/-! The names of tasks produced by the block grouping do not collide. -/
namespace Verif
variable {T V : Type}

/-- No `-` in the name: node names are Python identifiers joined by `.`. -/
def DashFree (s : Name) : Prop := '-' ∉ s.toList

theorem instanceId_toList (e : Name) (i : Nat) (m : Name) :
    (instanceId e i m).toList = e.toList ++ '.' :: ((toString i).toList ++ '.' :: m.toList) := by
  unfold instanceId
  simp [String.toList_append]

theorem dashFree_nat (i : Nat) : DashFree (toString i) := by
  unfold DashFree
  intro h
  have : ∀ c ∈ (Nat.toDigits 10 i), c.isDigit = true := fun c hc => Nat.isDigit_of_mem_toDigits (by omega) (by omega) hc
  have h' : '-' ∈ Nat.toDigits 10 i := by
    simpa [toString, Nat.repr] using h
  have := this _ h'
  revert this; decide

theorem expand_toList (x : Name) : ("expand-" ++ x).toList = "expand".toList ++ '-' :: x.toList := by
  rw [String.toList_append]; rfl

theorem block_toList (x : Name) : ("block-" ++ x).toList = "block".toList ++ '-' :: x.toList := by
  rw [String.toList_append]; rfl

theorem count_expand_inst {x : Name} (hx : DashFree x) (i : Nat) :
    (instanceId ("expand-" ++ x) i ("block-" ++ x)).toList.count '-' = 2 := by
  rw [instanceId_toList, expand_toList, block_toList]
  have h1 : x.toList.count '-' = 0 := List.count_eq_zero.2 hx
  have h2 : (toString i).toList.count '-' = 0 := List.count_eq_zero.2 (dashFree_nat i)
  have h3 : "expand".toList.count '-' = 0 := by decide
  have h4 : "block".toList.count '-' = 0 := by decide
  simp only [List.count_append, List.count_cons, h1, h2, h3, h4]
  decide

theorem inst_name_inj {x x' : Name} (hx : DashFree x) (hx' : DashFree x') {i i' : Nat}
    (h : instanceId ("expand-" ++ x) i ("block-" ++ x) = instanceId ("expand-" ++ x') i' ("block-" ++ x')) :
    x = x' ∧ i = i' := by
  have h' := congrArg String.toList h
  simp only [instanceId_toList, expand_toList, block_toList, List.append_assoc, List.cons_append] at h'
  have h1 := List.append_cancel_left h'
  rw [List.cons.injEq] at h1
  have h2 := h1.2
  -- split at the next dash
  have e1 : ∀ (y : Name) (j : Nat), y.toList ++ '.' :: ((toString j).toList ++ '.' :: ("block".toList ++ '-' :: y.toList)) =
      (y.toList ++ '.' :: ((toString j).toList ++ '.' :: "block".toList)) ++ '-' :: y.toList := by
    intro y j; simp
  rw [e1, e1] at h2
  have hno : ∀ (y : Name) (j : Nat), DashFree y →
      '-' ∉ (y.toList ++ '.' :: ((toString j).toList ++ '.' :: "block".toList)) := by
    intro y j hy hm
    simp only [List.mem_append, List.mem_cons] at hm
    rcases hm with hm | hm | hm | hm | hm
    · exact hy hm
    · revert hm; decide
    · exact dashFree_nat j hm
    · revert hm; decide
    · revert hm; decide
  obtain ⟨h3, h4⟩ := split_first (hno x i hx) (hno x' i' hx') h2
  have hxx : x = x' := String.toList_injective h4
  subst hxx
  refine ⟨rfl, ?_⟩
  have h5 := List.append_cancel_left h3
  rw [List.cons.injEq] at h5
  have h6 := List.append_cancel_right h5.2
  exact toString_nat_inj (String.toList_injective h6)

/-- The name conditions of `PlanOk` for plans named as the block grouping does. -/
theorem inst_names {specs : List (TaskSpec T V)}
    (hm : ∀ m ∈ specs, ∀ e, m.MemberOf e → ∃ x, DashFree x ∧ e = "expand-" ++ x ∧ m.baseId = "block-" ++ x)
    (hc : ∀ s ∈ specs, s.baseId.toList.count '-' ≤ 1) :
    (∀ m ∈ specs, ∀ m' ∈ specs, ∀ e e' i i', m.MemberOf e → m'.MemberOf e' →
      instanceId e i m.baseId = instanceId e' i' m'.baseId → e = e' ∧ i = i' ∧ m.baseId = m'.baseId) ∧
    (∀ m ∈ specs, ∀ s ∈ specs, ∀ e i, m.MemberOf e → instanceId e i m.baseId ≠ s.baseId) := by
  constructor
  · intro m h1 m' h1' e e' i i' h2 h2' h
    obtain ⟨x, hx, rfl, hb⟩ := hm m h1 e h2
    obtain ⟨x', hx', rfl, hb'⟩ := hm m' h1' e' h2'
    rw [hb, hb'] at h
    obtain ⟨rfl, rfl⟩ := inst_name_inj hx hx' h
    exact ⟨rfl, rfl, by rw [hb, hb']⟩
  · intro m h1 s h2 e i h3 h
    obtain ⟨x, hx, rfl, hb⟩ := hm m h1 e h3
    rw [hb] at h
    have := hc s h2
    rw [← h, count_expand_inst hx] at this
    omega

end Verif
