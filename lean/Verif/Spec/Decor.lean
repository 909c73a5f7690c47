import Verif.Spec.Denotation
import Verif.Proofs.Plan

/-!
Specification vocabulary for decorated functions: a graph defines the nodes a decorator produced, and the value a function
has on the values of its parameters.
-/
namespace Verif
variable {T V : Type}

/-- The graph contains this node: same name, parameters and function (the graph adds the edges). -/
def Defines (g : Graph T V) (n : Node T V) : Prop := ∃ m, g.get? n.name = some m ∧ SameFn n m

/-- `v` is what the function of `n` returns on the values that the parameters of `n` have in the graph (whether or not `n`
itself is a node of the graph): the value of the undecorated function. -/
def FnValue (g : Graph T V) (inputs overrides : Dict Name V) (n : Node T V) (v : V) : Prop :=
  ∃ kw, RightArgs g inputs overrides n kw ∧ n.fn kw = .ok v

/-- A function node that the graph defines and that is not overridden has the value its function returns. -/
theorem den_iff_fnValue {g : Graph T V} {inputs overrides : Dict Name V} {n : Node T V} (hd : Defines g n)
    (hk : n.kind ≠ .external) (ho : overrides.get? n.name = none) (v : V) :
    Den g inputs overrides n.name v ↔ FnValue g inputs overrides n v := by
  obtain ⟨m, hm, hs⟩ := hd
  constructor
  · intro h
    cases h with
    | override h1 h2 => rw [ho] at h2; cases h2
    | input h1 h2 h3 h4 => rw [hm] at h1; cases h1; rw [hs.kind] at h3; exact absurd h3 hk
    | call val h1 h2 h3 h4 h5 h6 =>
      rw [hm] at h1; cases h1
      rw [hs.inputTypes] at h4 h5 h6
      rw [hs.fn] at h6
      exact ⟨_, ⟨val, h4, h5, rfl⟩, h6⟩
  · rintro ⟨kw, ⟨val, h4, h5, rfl⟩, h6⟩
    exact .call val hm ho (by rw [hs.kind]; exact hk) (by rw [hs.inputTypes]; exact h4)
      (by rw [hs.inputTypes]; exact h5) (by rw [hs.inputTypes, hs.fn]; exact h6)

/-- What the arguments of a node are: every parameter that has a value gets it, the others are optional inputs that were not
supplied. -/
theorem rightArgs_get {g : Graph T V} {inputs overrides : Dict Name V} {n : Node T V} {kw : Dict Name V}
    (h : RightArgs g inputs overrides n kw) {d : Name} {t : T × DepType}
    (hd : (d, t) ∈ n.inputTypes) :
    (∃ w, kw.get? d = some w ∧ Den g inputs overrides d w) ∨
      (kw.get? d = none ∧ t.2 = .optional ∧ Absent g inputs overrides d) := by
  obtain ⟨val, h1, h2, rfl⟩ := h
  have hk : d ∈ n.inputTypes.keys := List.mem_map.2 ⟨_, hd, rfl⟩
  rw [mem_argsFor_get, if_pos hk]
  cases hv : val d with
  | some w => exact .inl ⟨w, rfl, h1 d w hk hv⟩
  | none => exact .inr ⟨rfl, h2 d t hd hv⟩

/-- The arguments of a node with a single, required parameter. -/
theorem rightArgs_single {g : Graph T V} {inputs overrides : Dict Name V} {n : Node T V} {d : Name} {t : T}
    (hi : n.inputTypes = [(d, (t, .required))]) (kw : Dict Name V) :
    RightArgs g inputs overrides n kw ↔ ∃ w, Den g inputs overrides d w ∧ kw = [(d, w)] := by
  constructor
  · rintro ⟨val, h1, h2, rfl⟩
    rw [hi] at h1 h2 ⊢
    cases hv : val d with
    | none =>
      have := (h2 d (t, .required) (by simp) hv).1
      cases this
    | some w => exact ⟨w, h1 d w (by simp [Dict.keys]) hv, by simp [argsFor, hv]⟩
  · rintro ⟨w, hw, rfl⟩
    refine ⟨fun _ => some w, ?_, ?_, ?_⟩
    · intro d' w' hd' hw'
      rw [hi] at hd'
      simp only [Dict.keys, List.map_cons, List.map_nil, List.mem_singleton] at hd'
      cases hw'; rw [hd']; exact hw
    · intro d' t' _ h; cases h
    · rw [hi]; simp [argsFor]

end Verif
