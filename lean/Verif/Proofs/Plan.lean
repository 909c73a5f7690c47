import Verif.Model.Driver
import Verif.Proofs.Subdag
import Verif.Proofs.Create

namespace Verif
variable {T V : Type}

theorem mem_argsFor_get {params : Dict Name (T × DepType)} (val : Name → Option V)
    (d : Name) : (argsFor params val).get? d = if d ∈ params.keys then val d else none := by
  unfold argsFor
  induction params with
  | nil => simp [Dict.keys]
  | cons p t ih =>
    obtain ⟨a, b⟩ := p
    simp only [List.filterMap_cons]
    rw [Dict.keys_cons]
    cases hv : val a with
    | none =>
      simp only [Option.map_none]
      rw [ih]
      by_cases hda : d = a
      · subst hda
        rw [if_pos (List.mem_cons_self), hv]; split <;> rfl
      · by_cases hdt : d ∈ Dict.keys t
        · rw [if_pos hdt, if_pos (List.mem_cons_of_mem _ hdt)]
        · rw [if_neg hdt, if_neg (by simp [hda, hdt])]
    | some v =>
      simp only [Option.map_some, Dict.get?]
      by_cases hda : a = d
      · subst hda; rw [if_pos rfl, if_pos (List.mem_cons_self), hv]
      · rw [if_neg hda, ih]
        by_cases hdt : d ∈ Dict.keys t
        · rw [if_pos hdt, if_pos (List.mem_cons_of_mem _ hdt)]
        · rw [if_neg hdt, if_neg (by simp [Ne.symm hda, hdt])]

theorem combine_ok {config inputs all : Dict Name V} (h : combineConfigAndInputs config inputs = .ok all) :
    all = config.merge inputs ∧ ∀ k ∈ inputs.keys, k ∉ config.keys := by
  unfold combineConfigAndInputs at h
  simp only at h
  split at h
  · cases h
  · rename_i hl
    cases h
    refine ⟨rfl, fun k hk hc => hl ?_⟩
    have : k ∈ inputs.keys.filter (fun k => config.has k) := by
      rw [List.mem_filter]; exact ⟨hk, (Dict.has_iff _ _).2 hc⟩
    exact List.length_pos_of_mem this

section
variable {g : Graph T V} {config : Dict Name V}

/-- Successors for planning stay in the graph. -/
theorem upstream_closed (hw : WellFormed g) (inputs overrides : Option (Dict Name V)) :
    NextClosed g (upstreamNext ⟨g, config⟩ inputs overrides) := by
  intro k n hk
  refine ⟨hw.name_eq hk, fun d hd => ?_⟩
  have hde := hw.deps_eq hk
  unfold upstreamNext at hd
  split at hd
  · simp at hd
  · split at hd
    · rw [hde] at hd; exact hw.deps_in hk hd
    · rw [List.mem_filter, hde] at hd; exact hw.deps_in hk hd.1

theorem downstream_closed (hw : WellFormed g) : NextClosed g (fun n => n.dependedOnBy) := by
  intro k n hk
  refine ⟨hw.name_eq hk, fun d hd => ?_⟩
  obtain ⟨mn, hmn, _⟩ := (hw.consumers hk d).1 hd
  exact ⟨mn, hmn⟩

theorem has_merge (config ins : Dict Name V) (hn : ins.keys.Nodup) (d : Name) :
    (config.merge ins).get? d = none ↔ ins.has d = false ∧ config.has d = false := by
  rw [Dict.get?_merge _ _ hn, Dict.has_eq_false_iff, Dict.has_eq_false_iff]
  cases ins.get? d <;> simp

/-- At run time (inputs given) the planner follows exactly the `RunEdge`s. -/
theorem nextOf_upstream_some (hw : WellFormed g) {ins : Dict Name V} (hn : ins.keys.Nodup)
    (overrides : Option (Dict Name V)) (k d : Name) :
    nextOf g (upstreamNext ⟨g, config⟩ (some ins) overrides) k d ↔
      RunEdge g (config.merge ins) (overrides.getD []) k d := by
  unfold nextOf RunEdge upstreamNext
  constructor
  · rintro ⟨n, hk, hd⟩
    have hname := hw.name_eq hk
    split at hd
    · simp at hd
    · rename_i hov
      have hov' : (overrides.getD []).get? k = none := by
        rw [← Dict.has_eq_false_iff]
        simpa [isOverridden, hname] using hov
      rw [List.mem_filter, hw.deps_eq hk] at hd
      obtain ⟨hd1, hd2⟩ := hd
      obtain ⟨t, ht⟩ := Dict.mem_keys_iff.1 hd1
      refine ⟨hov', n, t, hk, ht, ?_⟩
      rintro ⟨hopt, dn, hdn, hext, hgiven⟩
      rw [has_merge _ _ hn] at hgiven
      obtain ⟨ty, t2⟩ := t
      simp only at hopt; subst hopt
      simp [skipsOptional, hdn, ht, Node.userDefined, hext, hgiven.1, hgiven.2] at hd2
  · rintro ⟨hov, n, t, hk, ht, hno⟩
    have hname := hw.name_eq hk
    refine ⟨n, hk, ?_⟩
    have hov' : ¬ isOverridden overrides n.name = true := by
      rw [← Dict.has_eq_false_iff] at hov
      simp [isOverridden, hname, hov]
    rw [if_neg hov']
    simp only
    rw [List.mem_filter, hw.deps_eq hk]
    refine ⟨Dict.mem_keys_iff.2 ⟨t, ht⟩, ?_⟩
    obtain ⟨dn, hdn⟩ := hw.deps_in hk (Dict.mem_keys_iff.2 ⟨t, ht⟩)
    obtain ⟨ty, t2⟩ := t
    simp only [skipsOptional, hdn, ht]
    cases t2 with
    | required => simp
    | optional =>
      simp only [true_and] at hno
      by_cases hext : dn.kind = .external
      · have hgiven : ¬ ((config.merge ins).get? d = none) := fun h => hno ⟨dn, hdn, hext, h⟩
        rw [has_merge _ _ hn] at hgiven
        cases h1 : ins.has d <;> cases h2 : config.has d <;> simp_all
      · have : (dn.kind == .external) = false := by simpa using hext
        simp [Node.userDefined, this]

/-- At planning time without inputs every edge out of a non-overridden node is followed. -/
theorem nextOf_upstream_none (hw : WellFormed g) (overrides : Option (Dict Name V)) (k d : Name) :
    nextOf g (upstreamNext ⟨g, config⟩ none overrides) k d ↔
      (overrides.getD []).get? k = none ∧ DependsOn g k d := by
  unfold nextOf upstreamNext DependsOn
  constructor
  · rintro ⟨n, hk, hd⟩
    have hname := hw.name_eq hk
    split at hd
    · simp at hd
    · rename_i hov
      refine ⟨?_, n, hk, by rw [hw.deps_eq hk] at hd; exact hd⟩
      rw [← Dict.has_eq_false_iff]
      simpa [isOverridden, hname] using hov
  · rintro ⟨hov, n, hk, hd⟩
    have hname := hw.name_eq hk
    refine ⟨n, hk, ?_⟩
    have hov' : ¬ isOverridden overrides n.name = true := by
      rw [← Dict.has_eq_false_iff] at hov
      simp [isOverridden, hname, hov]
    rw [if_neg hov']
    simp only
    rw [hw.deps_eq hk]; exact hd

/-- Downstream successors are the consumers. -/
theorem nextOf_downstream (hw : WellFormed g) (k d : Name) :
    nextOf g (fun n => n.dependedOnBy) k d ↔ (DependsOn g d k ∧ ∃ n, g.get? k = some n) := by
  unfold nextOf DependsOn
  constructor
  · rintro ⟨n, hk, hd⟩
    exact ⟨(hw.consumers hk d).1 hd, n, hk⟩
  · rintro ⟨h, n, hk⟩
    exact ⟨n, hk, (hw.consumers hk d).2 h⟩

/-- A needed node is planned, unless it is an optional input without value. -/
theorem Needed.planned (hw : WellFormed g) {given ovr : Dict Name V} {req : List Name} {k : Name}
    (h : Needed g ovr req k) :
    (∃ r ∈ req, Reaches (RunEdge g given ovr) r k) ∨
      (∃ n, g.get? k = some n ∧ n.kind = .external ∧ given.get? k = none) := by
  induction h with
  | req hk => exact .inl ⟨_, hk, .refl _⟩
  | param hm hov hg hd ih =>
    rename_i m mn d
    obtain ⟨t, ht⟩ := Dict.mem_keys_iff.1 hd
    rcases ih with ⟨r, hr, hreach⟩ | ⟨n, hn, hext, _⟩
    · by_cases hskip : t.2 = .optional ∧ ∃ dn, g.get? d = some dn ∧ dn.kind = .external ∧ given.get? d = none
      · exact .inr hskip.2
      · exact .inl ⟨r, hr, .step hreach ⟨hov, mn, t, hg, ht, hskip⟩⟩
    · rw [hg] at hn; cases hn
      rw [hw.external_no_params hg hext] at hd
      simp [Dict.keys] at hd

end
end Verif
