import Verif.Proofs.TaskPlan

/-! What `getInputVars` asks for. -/
namespace Verif
variable {T V : Type}

/-- `d` is looked up outside of the task (names `inTask`). -/
def OutsideVar (g : Graph T V) (overrides : Dict Name V) (inTask : List Name) (d : Name) : Prop :=
  overrides.get? d = none ∧ ((∃ dn, g.get? d = some dn ∧ dn.kind = .external) ∨ d ∉ inTask)

variable {g : Graph T V} {overrides : Dict Name V} {inTask : List Name}

theorem inputVarsDep_cond (d : Name) :
    (¬ overrides.has d = true ∧ (isExternalName g d ||
      !inTask.contains d) = true) ↔ OutsideVar g overrides inTask d := by
  unfold OutsideVar
  rw [Bool.not_eq_true, Dict.has_eq_false_iff, Bool.or_eq_true, Bool.not_eq_true', ← Bool.not_eq_true,
    List.contains_iff_mem]
  have : isExternalName g d = true ↔
      ∃ dn, g.get? d = some dn ∧ dn.kind = .external := by
    unfold isExternalName
    cases hg : g.get? d with
    | none => simp
    | some dn => simp [Node.userDefined]
  rw [this]

theorem inputVarsDep_spec (n : Node T V) (iv : InputVars) (d : Name) :
    (∀ k, k ∈ (inputVarsDep g overrides inTask n iv d).required ↔
      k ∈ iv.required ∨ (k = d ∧ OutsideVar g overrides inTask d ∧ n.requires d = true)) ∧
    (∀ k, k ∈ (inputVarsDep g overrides inTask n iv d).optional →
      k ∈ iv.optional ∨ (k = d ∧ OutsideVar g overrides inTask d)) ∧
    (∀ k, (k ∈ iv.required ∨ k ∈ iv.optional ∨ (k = d ∧ OutsideVar g overrides inTask d)) →
      k ∈ (inputVarsDep g overrides inTask n iv d).required ∨ k ∈ (inputVarsDep g overrides inTask n iv d).optional) := by
  have hc := inputVarsDep_cond (g := g) (overrides := overrides) (inTask := inTask) d
  unfold inputVarsDep
  by_cases h1 : overrides.has d = true
  · rw [if_pos h1]
    have : ¬ OutsideVar g overrides inTask d := fun h => (hc.2 h).1 h1
    simp only [this, and_false, false_and, or_false]
    exact ⟨fun k => trivial, fun k h => h, fun k h => h⟩
  · rw [if_neg h1]
    by_cases h2 : (isExternalName g d || !inTask.contains d) = true
    · rw [if_pos h2]
      have hO : OutsideVar g overrides inTask d := hc.1 ⟨h1, h2⟩
      by_cases h3 : n.requires d = true
      · rw [if_pos h3]
        simp only [mem_setAdd_plan, List.mem_filter, bne_iff_ne, ne_eq]
        refine ⟨fun k => ?_, fun k h => .inl h.1, fun k h => ?_⟩
        · constructor
          · rintro (h | rfl)
            · exact .inl h
            · exact .inr ⟨rfl, hO, h3⟩
          · rintro (h | ⟨rfl, _⟩)
            · exact .inl h
            · exact .inr rfl
        · rcases h with h | h | ⟨rfl, _⟩
          · exact .inl (.inl h)
          · by_cases hk : k = d
            · exact .inl (.inr hk)
            · exact .inr ⟨h, hk⟩
          · exact .inl (.inr rfl)
      · rw [if_neg h3]
        simp only [mem_setAdd_plan]
        refine ⟨fun k => ?_, fun k h => ?_, fun k h => ?_⟩
        · simp [h3]
        · rcases h with h | rfl
          · exact .inl h
          · exact .inr ⟨rfl, hO⟩
        · rcases h with h | h | ⟨rfl, _⟩
          · exact .inl h
          · exact .inr (.inl h)
          · exact .inr (.inr rfl)
    · rw [if_neg h2]
      have : ¬ OutsideVar g overrides inTask d := fun h => h2 (hc.2 h).2
      simp only [this, and_false, false_and, or_false]
      exact ⟨fun k => trivial, fun k h => h, fun k h => h⟩

theorem inputVarsDep_fold (n : Node T V) (ds : List Name) (iv : InputVars) :
    let r := ds.foldl (inputVarsDep g overrides inTask n) iv
    (∀ k, k ∈ r.required ↔
      k ∈ iv.required ∨ (k ∈ ds ∧ OutsideVar g overrides inTask k ∧ n.requires k = true)) ∧
    (∀ k, k ∈ r.optional → k ∈ iv.optional ∨ (k ∈ ds ∧ OutsideVar g overrides inTask k)) ∧
    (∀ k, (k ∈ iv.required ∨ k ∈ iv.optional ∨ (k ∈ ds ∧ OutsideVar g overrides inTask k)) →
      k ∈ r.required ∨ k ∈ r.optional) := by
  induction ds generalizing iv with
  | nil => simp
  | cons d ds ih =>
    simp only [List.foldl_cons]
    obtain ⟨a1, a2, a3⟩ := inputVarsDep_spec (g := g) (overrides := overrides) (inTask := inTask) n iv d
    obtain ⟨b1, b2, b3⟩ := ih (inputVarsDep g overrides inTask n iv d)
    refine ⟨fun k => ?_, fun k h => ?_, fun k h => ?_⟩
    · rw [b1, a1]
      constructor
      · rintro ((h | ⟨rfl, h⟩) | ⟨h, h'⟩)
        · exact .inl h
        · exact .inr ⟨by simp, h⟩
        · exact .inr ⟨by simp [h], h'⟩
      · rintro (h | ⟨h, h'⟩)
        · exact .inl (.inl h)
        · rcases List.mem_cons.1 h with rfl | h
          · exact .inl (.inr ⟨rfl, h'⟩)
          · exact .inr ⟨h, h'⟩
    · rcases b2 k h with h | ⟨h, h'⟩
      · rcases a2 k h with h | ⟨rfl, h⟩
        · exact .inl h
        · exact .inr ⟨by simp, h⟩
      · exact .inr ⟨by simp [h], h'⟩
    · apply b3
      rcases h with h | h | ⟨h, h'⟩
      · rcases a3 k (.inl h) with h | h
        · exact .inl h
        · exact .inr (.inl h)
      · rcases a3 k (.inr (.inl h)) with h | h
        · exact .inl h
        · exact .inr (.inl h)
      · rcases List.mem_cons.1 h with rfl | h
        · rcases a3 k (.inr (.inr ⟨rfl, h'⟩)) with h | h
          · exact .inl h
          · exact .inr (.inl h)
        · exact .inr (.inr ⟨h, h'⟩)

theorem inputVarsNode_spec (n : Node T V) (iv : InputVars) :
    let r := inputVarsNode g overrides inTask iv n
    (∀ k, k ∈ r.required ↔ k ∈ iv.required ∨ (overrides.get? n.name = none ∧ ((n.kind = .external ∧ k = n.name) ∨
      (k ∈ n.dependencies ∧ OutsideVar g overrides inTask k ∧ n.requires k = true)))) ∧
    (∀ k, k ∈ r.optional → k ∈ iv.optional ∨
      (overrides.get? n.name = none ∧ k ∈ n.dependencies ∧ OutsideVar g overrides inTask k)) ∧
    (∀ k, (k ∈ iv.required ∨ k ∈ iv.optional ∨ (overrides.get? n.name = none ∧ ((n.kind = .external ∧ k = n.name) ∨
      (k ∈ n.dependencies ∧ OutsideVar g overrides inTask k)))) → k ∈ r.required ∨ k ∈ r.optional) := by
  unfold inputVarsNode
  by_cases ho : overrides.has n.name = true
  · rw [if_pos ho]
    have ho' : ¬ overrides.get? n.name = none := by rw [← Dict.has_eq_false_iff, ho]; simp
    simp only [ho', false_and, or_false]
    exact ⟨fun k => trivial, fun k h => h, fun k h => h⟩
  · rw [if_neg ho]
    have ho' : overrides.get? n.name = none := by rw [← Dict.has_eq_false_iff]; simpa using ho
    simp only [ho', true_and]
    obtain ⟨b1, b2, b3⟩ := inputVarsDep_fold (g := g) (overrides := overrides) (inTask := inTask) n n.dependencies
      (if n.userDefined = true then { iv with required := setAdd iv.required n.name } else iv)
    have hreq : ∀ k, k ∈ (if n.userDefined = true then ({ iv with required := setAdd iv.required n.name } : InputVars)
        else iv).required ↔ k ∈ iv.required ∨ (n.kind = .external ∧ k = n.name) := by
      intro k
      unfold Node.userDefined
      split
      · rename_i h
        simp only [mem_setAdd_plan]
        simp [beq_iff_eq.1 h]
      · rename_i h
        simp only [beq_iff_eq] at h
        simp [h]
    have hopt : ∀ k, k ∈ (if n.userDefined = true then ({ iv with required := setAdd iv.required n.name } : InputVars)
        else iv).optional ↔ k ∈ iv.optional := by
      intro k
      split <;> rfl
    refine ⟨fun k => ?_, fun k h => ?_, fun k h => ?_⟩
    · rw [b1, hreq]
      constructor
      · rintro ((h | h) | h)
        · exact .inl h
        · exact .inr (.inl h)
        · exact .inr (.inr h)
      · rintro (h | h | h)
        · exact .inl (.inl h)
        · exact .inl (.inr h)
        · exact .inr h
    · rcases b2 k h with h | h
      · exact .inl ((hopt k).1 h)
      · exact .inr h
    · apply b3
      rw [hreq, hopt]
      rcases h with h | h | h | h
      · exact .inl (.inl h)
      · exact .inr (.inl h)
      · exact .inl (.inr h)
      · exact .inr (.inr h)

theorem inputVarsNode_fold (ns : List (Node T V)) (iv : InputVars) :
    let r := ns.foldl (inputVarsNode g overrides inTask) iv
    (∀ k, k ∈ r.required ↔ k ∈ iv.required ∨ ∃ n ∈ ns, overrides.get? n.name = none ∧
      ((n.kind = .external ∧ k = n.name) ∨
      (k ∈ n.dependencies ∧ OutsideVar g overrides inTask k ∧ n.requires k = true))) ∧
    (∀ k, k ∈ r.optional → k ∈ iv.optional ∨ ∃ n ∈ ns, overrides.get? n.name = none ∧ k ∈ n.dependencies ∧
      OutsideVar g overrides inTask k) ∧
    (∀ k, (k ∈ iv.required ∨ k ∈ iv.optional ∨ ∃ n ∈ ns, overrides.get? n.name = none ∧
      ((n.kind = .external ∧ k = n.name) ∨
      (k ∈ n.dependencies ∧ OutsideVar g overrides inTask k))) → k ∈ r.required ∨ k ∈ r.optional) := by
  induction ns generalizing iv with
  | nil => simp
  | cons n ns ih =>
    simp only [List.foldl_cons]
    obtain ⟨a1, a2, a3⟩ := inputVarsNode_spec (g := g) (overrides := overrides) (inTask := inTask) n iv
    obtain ⟨b1, b2, b3⟩ := ih (inputVarsNode g overrides inTask iv n)
    refine ⟨fun k => ?_, fun k h => ?_, fun k h => ?_⟩
    · rw [b1, a1]
      constructor
      · rintro ((h | h) | ⟨n', h, h'⟩)
        · exact .inl h
        · exact .inr ⟨n, by simp, h⟩
        · exact .inr ⟨n', by simp [h], h'⟩
      · rintro (h | ⟨n', h, h'⟩)
        · exact .inl (.inl h)
        · rcases List.mem_cons.1 h with rfl | h
          · exact .inl (.inr h')
          · exact .inr ⟨n', h, h'⟩
    · rcases b2 k h with h | ⟨n', h, h'⟩
      · rcases a2 k h with h | h
        · exact .inl h
        · exact .inr ⟨n, by simp, h⟩
      · exact .inr ⟨n', by simp [h], h'⟩
    · apply b3
      rcases h with h | h | ⟨n', h, h'⟩
      · rcases a3 k (.inl h) with h | h
        · exact .inl h
        · exact .inr (.inl h)
      · rcases a3 k (.inr (.inl h)) with h | h
        · exact .inl h
        · exact .inr (.inl h)
      · rcases List.mem_cons.1 h with rfl | h
        · rcases a3 k (.inr (.inr h')) with h | h
          · exact .inl h
          · exact .inr (.inl h)
        · exact .inr (.inr ⟨n', h, h'⟩)

/-- The variables of a task. -/
theorem getInputVars_spec (g : Graph T V) (t : TaskSpec T V) :
    (∀ k, k ∈ (getInputVars g t).required ↔ ∃ n ∈ t.nodes, t.overrides.get? n.name = none ∧
      ((n.kind = .external ∧ k = n.name) ∨
      (k ∈ n.dependencies ∧ OutsideVar g t.overrides (t.nodes.map (·.name)) k ∧ n.requires k = true))) ∧
    (∀ k, k ∈ (getInputVars g t).optional → ∃ n ∈ t.nodes, t.overrides.get? n.name = none ∧ k ∈ n.dependencies ∧
      OutsideVar g t.overrides (t.nodes.map (·.name)) k) ∧
    (∀ k, (∃ n ∈ t.nodes, t.overrides.get? n.name = none ∧
      ((n.kind = .external ∧ k = n.name) ∨
      (k ∈ n.dependencies ∧ OutsideVar g t.overrides (t.nodes.map (·.name)) k))) →
      k ∈ (getInputVars g t).required ∨ k ∈ (getInputVars g t).optional) := by
  obtain ⟨b1, b2, b3⟩ := inputVarsNode_fold (g := g) (overrides := t.overrides) (inTask := t.nodes.map (·.name))
    t.nodes ⟨[], []⟩
  refine ⟨fun k => ?_, fun k h => ?_, fun k h => b3 k (.inr (.inr h))⟩
  · unfold getInputVars
    rw [b1]
    simp
  · rcases b2 k h with h | h
    · cases h
    · exact h

end Verif
