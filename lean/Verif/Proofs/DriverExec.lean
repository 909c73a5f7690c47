import Verif.Proofs.Plan

namespace Verif
variable {T V : Type}

theorem outputs_get {W : Type} (f : Name → W) (l : List Name) : ∀ (acc : Dict Name W) (k : Name),
    (l.foldl (fun out k => out.set k (f k)) acc).get? k = if k ∈ l then some (f k) else acc.get? k := by
  induction l with
  | nil => intro acc k; simp
  | cons a t ih =>
    intro acc k
    simp only [List.foldl_cons]
    rw [ih]
    by_cases hk : k ∈ t
    · rw [if_pos hk, if_pos (List.mem_cons_of_mem _ hk)]
    · rw [if_neg hk, Dict.get?_set]
      by_cases hak : a = k
      · subst hak; simp
      · rw [if_neg hak, if_neg (by simp [Ne.symm hak, hk])]

/-- The nodes that the default executor requests. -/
def requestedNodes (g : Graph T V) (finalVars : List Name) : List (Node T V) :=
  finalVars.filterMap (fun k => g.get? k)

theorem requestedNodes_ok {g : Graph T V} (hw : WellFormed g) (finalVars : List Name) :
    ∀ n ∈ requestedNodes g finalVars, g.get? n.name = some n := by
  intro n hn
  obtain ⟨k, _, hk⟩ := List.mem_filterMap.1 hn
  rw [hw.name_eq hk]; exact hk

theorem mem_requested_names {g : Graph T V} (hw : WellFormed g) (finalVars : List Name) (k : Name) :
    k ∈ (requestedNodes g finalVars).map (·.name) ↔ k ∈ finalVars ∧ ∃ n, g.get? k = some n := by
  rw [List.mem_map]
  constructor
  · rintro ⟨n, hn, rfl⟩
    obtain ⟨k, hk, hg⟩ := List.mem_filterMap.1 hn
    rw [hw.name_eq hg]; exact ⟨hk, n, hg⟩
  · rintro ⟨hk, n, hn⟩
    exact ⟨n, List.mem_filterMap.2 ⟨k, hk, hn⟩, hw.name_eq hn⟩

/-- What the default executor returns on success. -/
theorem defaultExecutor_ok {g : Graph T V} {config : Dict Name V} (hw : WellFormed g)
    {finalVars : List Name} {overrides inputs : Dict Name V} {out : Dict Name (Option V)}
    (h : defaultExecutorExecute ⟨g, config⟩ finalVars overrides inputs = .ok out) :
    (∀ k ∈ inputs.keys, k ∉ config.keys) ∧
    (∀ k, k ∈ out.keys ↔ k ∈ finalVars) ∧
    ∀ k ∈ finalVars, ∀ n, g.get? k = some n →
      (∃ v, out.get? k = some (some v) ∧ Den g (config.merge inputs) overrides k v) ∨
      (out.get? k = some (inputs.get? k) ∧ Absent g (config.merge inputs) overrides k) := by
  unfold defaultExecutorExecute at h
  split at h
  · cases h
  · rename_i all hall
    obtain ⟨hall1, hdisj⟩ := combine_ok hall
    subst hall1
    have hs := executeSubdag_spec hw (requestedNodes g finalVars) (requestedNodes_ok hw finalVars)
      (config.merge inputs) overrides
    split at h
    · cases h
    · rename_i s hex
      change executeSubdag g (requestedNodes g finalVars) (config.merge inputs) overrides = _ at hex
      rw [hex] at hs
      obtain ⟨hinv, hall⟩ := hs
      simp only [Except.ok.injEq] at h
      have hget : ∀ k, out.get? k = if k ∈ finalVars then
          some (match s.computed.get? k with | some v => some v | none => inputs.get? k) else none := by
        intro k
        rw [← h, outputs_get]; rfl
      refine ⟨hdisj, ?_, ?_⟩
      · intro k
        rw [Dict.mem_keys_iff]
        rw [hget k]
        by_cases hk : k ∈ finalVars <;> simp [hk]
      · intro k hk n hn
        rw [hget k, if_pos hk]
        have hname := hw.name_eq hn
        have hmem : n ∈ requestedNodes g finalVars := List.mem_filterMap.2 ⟨k, hk, hn⟩
        rcases hall n hmem with ⟨v, hv⟩ | ⟨_, habs⟩
        · rw [hname] at hv
          left; refine ⟨v, ?_, hinv.den _ _ hv⟩
          rw [hv]
        · rw [hname] at habs
          right
          refine ⟨?_, habs⟩
          cases hc : s.computed.get? k with
          | some v => exact absurd (hinv.den _ _ hc) habs.not_den
          | none => rfl

/-- When every requested node has a value or is an input without value, execution succeeds. -/
theorem defaultExecutor_complete {g : Graph T V} {config : Dict Name V} (hw : WellFormed g)
    {finalVars : List Name} {overrides inputs : Dict Name V}
    (hdisj : ∀ k ∈ inputs.keys, k ∉ config.keys)
    (hall : ∀ k ∈ finalVars, ∀ n, g.get? k = some n →
      (∃ v, Den g (config.merge inputs) overrides k v) ∨ Absent g (config.merge inputs) overrides k) :
    ∃ out, defaultExecutorExecute ⟨g, config⟩ finalVars overrides inputs = .ok out := by
  have hcomb : combineConfigAndInputs config inputs = .ok (config.merge inputs) := by
    unfold combineConfigAndInputs
    have : inputs.keys.filter (fun k => config.has k) = [] := by
      rw [List.filter_eq_nil_iff]
      intro k hk hc
      exact hdisj k hk ((Dict.has_iff _ _).1 hc)
    simp [this]
  have hs := executeSubdag_spec hw (requestedNodes g finalVars) (requestedNodes_ok hw finalVars)
      (config.merge inputs) overrides
  unfold defaultExecutorExecute
  rw [hcomb]
  change ∃ out, (match executeSubdag g (requestedNodes g finalVars) (config.merge inputs) overrides with
    | .err e _ => Except.error (DriverErr.exec e)
    | .ok s => _) = Except.ok out
  cases hex : executeSubdag g (requestedNodes g finalVars) (config.merge inputs) overrides with
  | ok s => exact ⟨_, rfl⟩
  | err e s =>
    rw [hex] at hs
    obtain ⟨_, _, n, hn, hres⟩ := hs
    exfalso; apply hres
    obtain ⟨k, hk, hg⟩ := List.mem_filterMap.1 hn
    have hname := hw.name_eq hg
    rw [hname]
    rcases hall k hk n hg with h | h
    · exact .inl h
    · right
      refine ⟨?_, h⟩
      obtain ⟨n', hn', hext, _⟩ := h
      rw [hg] at hn'; cases hn'
      simp [topDep, Node.userDefined, hext]

/-- Extracting what happened from a successful driver run. -/
theorem driverExecute_ok {o : TypeOracle T V} {fg : FnGraph T V} {finalVars : List Name}
    {inputs overrides : Option (Dict Name V)} {out : Dict Name (Option V)}
    (h : driverExecute o fg finalVars inputs overrides = .ok out) :
    defaultExecutorExecute fg finalVars (overrides.getD []) (inputs.getD []) = .ok out ∧
    (∃ s, getUpstreamNodes fg finalVars inputs overrides = .ok s ∧
      validateInputs o fg s.userNodes inputs s.nodes = .ok ()) := by
  unfold driverExecute at h
  split at h
  · cases h
  · rename_i s hs
    split at h
    · cases h
    · rename_i hv
      split at h
      · cases h
      · exact ⟨h, s, hs, hv⟩

/-- Validation passing rules out the missing-input error. -/
theorem validated_not_missing {o : TypeOracle T V} {g : Graph T V} {config : Dict Name V}
    (hw : WellFormed g) (hcfg : ∀ k ∈ config.keys, ∃ n, g.get? k = some n)
    {finalVars : List Name} {inputs overrides : Option (Dict Name V)} (hin : (inputs.getD []).keys.Nodup)
    {s : Visited} (hs : getUpstreamNodes ⟨g, config⟩ finalVars inputs overrides = .ok s)
    (hv : validateInputs o ⟨g, config⟩ s.userNodes inputs s.nodes = .ok ()) (m : Name) :
    defaultExecutorExecute ⟨g, config⟩ finalVars (overrides.getD []) (inputs.getD []) ≠
      .error (.exec (.missing m)) := by
  intro hbad
  unfold defaultExecutorExecute at hbad
  split at hbad
  · cases hbad
  · rename_i all hall
    have hcomb := hall
    obtain ⟨rfl, hdisj⟩ := combine_ok hall
    have hsub := executeSubdag_spec hw (requestedNodes g finalVars) (requestedNodes_ok hw finalVars)
      (config.merge (inputs.getD [])) (overrides.getD [])
    split at hbad
    · rename_i e s' hex
      change executeSubdag g (requestedNodes g finalVars) _ _ = _ at hex
      rw [hex] at hsub
      have he : e = .missing m := by simpa using hbad
      subst he
      obtain ⟨_, ⟨hneed, habs, p, pn, t, hpneed, hpov, hpg, hpm⟩, _⟩ := hsub
      -- the plan
      obtain ⟨s2, hs2, hmem, huser, _⟩ := directionalDfs_spec (fg := ⟨g, config⟩)
        (next := upstreamNext ⟨g, config⟩ inputs overrides)
        (upstream_closed hw inputs overrides)
        (fun k hk => hcfg k ((Dict.has_iff _ _).1 hk)) finalVars inputs
      unfold getUpstreamNodes at hs
      rw [hs2] at hs
      split at hs
      · cases hs
        have hreq : ∀ r ∈ (requestedNodes g finalVars).map (·.name), r ∈ finalVars ∧ ∃ n, g.get? r = some n :=
          fun r hr => (mem_requested_names hw finalVars r).1 hr
        have hmk : m ∈ pn.inputTypes.keys := mem_keys_of_mem hpm
        have hmt : pn.inputTypes.get? m = some (t, .required) :=
          Dict.get?_of_mem (hw.params_nodup hpg) hpm
        obtain ⟨mn, hmg, hmext, hmin, hmov⟩ := habs
        -- `p` is in the plan, hence also `m`
        have hplan : p ∈ s.nodes ∧ m ∈ s.nodes := by
          cases inputs with
          | none =>
            have step : ∀ a b, (overrides.getD []).get? a = none → DependsOn g a b → a ∈ s.nodes → b ∈ s.nodes := by
              intro a b ha hab hmem'
              rw [hmem] at hmem' ⊢
              obtain ⟨r, hr, hrn, hreach⟩ := hmem'
              exact ⟨r, hr, hrn, .step hreach ((nextOf_upstream_none hw overrides a b).2 ⟨ha, hab⟩)⟩
            have hneedmem : ∀ k, Needed g (overrides.getD []) ((requestedNodes g finalVars).map (·.name)) k → k ∈ s.nodes := by
              intro k hk
              induction hk with
              | req hr => rw [hmem]; obtain ⟨h1, h2⟩ := hreq _ hr; exact ⟨_, h1, h2, .refl _⟩
              | param _ hov hg hd ih => exact step _ _ hov ⟨_, hg, hd⟩ ih
            have hp := hneedmem p hpneed
            exact ⟨hp, step p m hpov ⟨pn, hpg, hmk⟩ hp⟩
          | some ins =>
            simp only [Option.getD_some] at hin hmin
            have hp : p ∈ s.nodes := by
              rcases hpneed.planned hw (given := config.merge ins) with ⟨r, hr, hreach⟩ | ⟨n, hn, hext, _⟩
              · rw [hmem]
                obtain ⟨h1, h2⟩ := hreq r hr
                exact ⟨r, h1, h2, hreach.mono (fun a b hab => (nextOf_upstream_some hw hin overrides a b).2 hab)⟩
              · rw [hpg] at hn; cases hn
                rw [hw.external_no_params hpg hext] at hmk
                simp [Dict.keys] at hmk
            refine ⟨hp, ?_⟩
            rw [hmem] at hp ⊢
            obtain ⟨r, hr, hrn, hreach⟩ := hp
            refine ⟨r, hr, hrn, .step hreach ((nextOf_upstream_some hw hin overrides p m).2 ?_)⟩
            exact ⟨hpov, pn, (t, .required), hpg, hmt, by simp⟩
        have huser' : m ∈ s.userNodes := (huser m).2 ⟨hplan.2, mn, hmg, hmext⟩
        -- so validation would have failed
        unfold validateInputs at hv
        rw [hcomb] at hv
        simp only at hv
        split at hv
        · rename_i hnil
          rw [List.filterMap_eq_nil_iff] at hnil
          have := hnil m huser'
          simp only [hmg, hmin] at this
          have hreqd : requiredByAnything g mn s.nodes = true := by
            unfold requiredByAnything
            rw [List.any_eq_true]
            refine ⟨p, (hw.consumers hmg p).2 ⟨pn, hpg, hmk⟩, ?_⟩
            rw [hw.name_eq hmg]
            simp [hplan.1, hpg, hmt]
          rw [if_pos hreqd] at this
          cases this
        · cases hv
      · cases hs
    · cases hbad

end Verif
