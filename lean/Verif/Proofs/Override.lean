import Verif.Proofs.DriverExec
import Verif.Proofs.Create

namespace Verif
variable {T V : Type}

/-- The result dict is determined by its values on the requested names. -/
theorem defaultExecutor_out_eq {fg : FnGraph T V} {finalVars : List Name} {overrides inputs : Dict Name V}
    {out : Dict Name (Option V)} (h : defaultExecutorExecute fg finalVars overrides inputs = .ok out) :
    out = finalVars.foldl (fun (o : Dict Name (Option V)) k => o.set k ((out.get? k).join)) [] := by
  have foldl_congr : ∀ (f f' : Name → Option V) (l : List Name) (acc : Dict Name (Option V)),
      (∀ k ∈ l, f k = f' k) →
      l.foldl (fun (o : Dict Name (Option V)) k => o.set k (f k)) acc = l.foldl (fun (o : Dict Name (Option V)) k => o.set k (f' k)) acc := by
    intro f f' l
    induction l with
    | nil => intro acc _; rfl
    | cons a t ih =>
      intro acc hff
      simp only [List.foldl_cons]
      rw [hff a (by simp)]
      exact ih _ (fun k hk => hff k (by simp [hk]))
  unfold defaultExecutorExecute at h
  split at h
  · cases h
  · split at h
    · cases h
    · rename_i s hex
      simp only [Except.ok.injEq] at h
      subst h
      apply foldl_congr
      intro k hk
      rw [outputs_get, if_pos hk]
      rfl

/-- A requested name that is not a node is looked up in the inputs. -/
theorem defaultExecutor_nonnode {g : Graph T V} {config : Dict Name V} (hw : WellFormed g)
    {finalVars : List Name} {overrides inputs : Dict Name V} {out : Dict Name (Option V)}
    (h : defaultExecutorExecute ⟨g, config⟩ finalVars overrides inputs = .ok out) :
    ∀ k ∈ finalVars, g.get? k = none → out.get? k = some (inputs.get? k) := by
  intro k hk hn
  unfold defaultExecutorExecute at h
  split at h
  · cases h
  · rename_i all hall
    obtain ⟨hall1, hdisj⟩ := combine_ok hall
    subst hall1
    have hs := executeSubdag_spec hw (requestedNodes g finalVars) (requestedNodes_ok hw finalVars)
      (config.merge inputs) overrides
    split at h
    · cases h
    · rename_i s hex
      change executeSubdag g (requestedNodes g finalVars) (config.merge inputs) overrides = _ at hex
      rw [hex] at hs
      simp only [Except.ok.injEq] at h
      rw [← h, outputs_get, if_pos hk]
      cases hc : s.computed.get? k with
      | none => rfl
      | some v =>
        have hd := hs.1.den _ _ hc
        cases hd <;> simp_all

/-- `g'` is `g` with node `n` turned into a parameterless function returning `v` (inputs that only `n` used may be gone). -/
structure ConstReplaced (g g' : Graph T V) (n : Name) (v : V) : Prop where
  const : ∃ cn, g'.get? n = some cn ∧ cn.kind ≠ .external ∧ cn.inputTypes = [] ∧ ∀ kw, cn.fn kw = .ok v
  same : ∀ k m', k ≠ n → g'.get? k = some m' → ∃ m, g.get? k = some m ∧ m.kind = m'.kind ∧
    m.inputTypes = m'.inputTypes ∧ (m.kind ≠ .external → m.fn = m'.fn)

theorem ConstReplaced.absent {g g' : Graph T V} {n : Name} {v : V} (hr : ConstReplaced g g' n v)
    {ins ovr : Dict Name V} {k : Name} {kn : Node T V} (hk : g'.get? k = some kn) :
    Absent g' ins ovr k ↔ Absent g ins (ovr.set n v) k := by
  by_cases hkn : k = n
  · subst hkn
    obtain ⟨cn, hcn, hext, _⟩ := hr.const
    constructor
    · rintro ⟨m, hm, hme, _⟩
      rw [hcn] at hm; cases hm; exact absurd hme hext
    · rintro ⟨_, _, _, _, h⟩
      rw [Dict.get?_set_self] at h; cases h
  · obtain ⟨m, hm, h1, h2, h3⟩ := hr.same k kn hkn hk
    constructor
    · rintro ⟨m', hm', e, hi, ho⟩
      rw [hk] at hm'; cases hm'
      exact ⟨m, hm, by rw [h1]; exact e, hi, by rw [Dict.get?_set_ne _ _ (Ne.symm hkn)]; exact ho⟩
    · rintro ⟨m', hm', e, hi, ho⟩
      rw [hm] at hm'; cases hm'
      exact ⟨kn, hk, by rw [← h1]; exact e, hi, by rw [Dict.get?_set_ne _ _ (Ne.symm hkn)] at ho; exact ho⟩

theorem ConstReplaced.den {g g' : Graph T V} (hw' : WellFormed g') {n : Name} {v : V}
    (hr : ConstReplaced g g' n v) (hin : ∃ m, g.get? n = some m)
    {ins ovr : Dict Name V} (hov : ovr.get? n = none) {k : Name} {kn : Node T V}
    (hk : g'.get? k = some kn) {w : V} :
    Den g' ins ovr k w ↔ Den g ins (ovr.set n v) k w := by
  constructor
  · intro h
    induction h generalizing kn with
    | @override k m w hm ho =>
      have hkn : k ≠ n := by rintro rfl; rw [hov] at ho; cases ho
      obtain ⟨m0, hm0, _⟩ := hr.same k m hkn hm
      exact .override hm0 (by rw [Dict.get?_set_ne _ _ (Ne.symm hkn)]; exact ho)
    | @input k m w hm ho he hi =>
      have hkn : k ≠ n := by
        rintro rfl
        obtain ⟨cn, hcn, hext, _⟩ := hr.const
        rw [hcn] at hm; cases hm; exact hext he
      obtain ⟨m0, hm0, h1, _⟩ := hr.same k m hkn hm
      exact .input hm0 (by rw [Dict.get?_set_ne _ _ (Ne.symm hkn)]; exact ho) (by rw [h1]; exact he) hi
    | @call k m w val hm ho he h4 h5 hf ih =>
      by_cases hkn : k = n
      · subst hkn
        obtain ⟨cn, hcn, hext, hemp, hfn⟩ := hr.const
        rw [hcn] at hm; cases hm
        rw [hfn] at hf; cases hf
        obtain ⟨m0, hm0⟩ := hin
        exact .override hm0 (Dict.get?_set_self ..)
      · obtain ⟨m0, hm0, h1, h2, h3⟩ := hr.same k m hkn hm
        refine .call val hm0 (by rw [Dict.get?_set_ne _ _ (Ne.symm hkn)]; exact ho) (by rw [h1]; exact he) ?_ ?_ ?_
        · intro d x hd hx
          rw [h2] at hd
          obtain ⟨dn, hdn⟩ := hw'.deps_in hm hd
          exact ih d x hd hx hdn
        · intro d t hd hx
          rw [h2] at hd
          obtain ⟨h6, h7⟩ := h5 d t hd hx
          obtain ⟨dn, hdn⟩ := hw'.deps_in hm (mem_keys_of_mem hd)
          exact ⟨h6, (hr.absent hdn).1 h7⟩
        · rw [h2, h3 (by rw [h1]; exact he)]; exact hf
  · intro h
    induction h generalizing kn with
    | @override k m w hm ho =>
      by_cases hkn : k = n
      · subst hkn
        rw [Dict.get?_set_self] at ho; cases ho
        obtain ⟨cn, hcn, hext, hemp, hfn⟩ := hr.const
        refine .call (fun _ => none) hcn hov hext (by simp) ?_ (hfn _)
        intro d t hd; rw [hemp] at hd; cases hd
      · rw [Dict.get?_set_ne _ _ (Ne.symm hkn)] at ho
        exact .override hk ho
    | @input k m w hm ho he hi =>
      have hkn : k ≠ n := by rintro rfl; rw [Dict.get?_set_self] at ho; cases ho
      rw [Dict.get?_set_ne _ _ (Ne.symm hkn)] at ho
      obtain ⟨m0, hm0, h1, _⟩ := hr.same k kn hkn hk
      rw [hm] at hm0; cases hm0
      exact .input hk ho (by rw [← h1]; exact he) hi
    | @call k m w val hm ho he h4 h5 hf ih =>
      have hkn : k ≠ n := by rintro rfl; rw [Dict.get?_set_self] at ho; cases ho
      rw [Dict.get?_set_ne _ _ (Ne.symm hkn)] at ho
      obtain ⟨m0, hm0, h1, h2, h3⟩ := hr.same k kn hkn hk
      rw [hm] at hm0; cases hm0
      refine .call val hk ho (by rw [← h1]; exact he) ?_ ?_ ?_
      · intro d x hd hx
        obtain ⟨dn, hdn⟩ := hw'.deps_in hk hd
        exact ih d x (by rw [h2]; exact hd) hx hdn
      · intro d t hd hx
        obtain ⟨dn, hdn⟩ := hw'.deps_in hk (mem_keys_of_mem hd)
        rw [← h2] at hd
        obtain ⟨h6, h7⟩ := h5 d t hd hx
        exact ⟨h6, (hr.absent hdn).2 h7⟩
      · rw [← h2, ← h3 he]; exact hf

/-- Rebuilding with the definition of `n` replaced by a constant gives a `ConstReplaced` graph. -/
theorem constReplaced_of_build {tm : T → T → Bool} {any : T} {config : Dict Name V} {allow allow' : Bool}
    {fns fns' : List (Node T V)} (hf : ∀ n ∈ fns, Fresh n) (hf' : ∀ n ∈ fns', Fresh n) {g g' : Graph T V}
    (h : createFunctionGraph tm any config allow fns = .ok g)
    (h' : createFunctionGraph tm any config allow' fns' = .ok g')
    {n : Name} {v : V} (hnc : n ∉ config.keys)
    (hsame : ∀ k, k ≠ n → lastDef fns' k = lastDef fns k)
    {cn : Node T V} (hcn : lastDef fns' n = some cn) (hemp : cn.inputTypes = []) (hfn : ∀ kw, cn.fn kw = .ok v) :
    ConstReplaced g g' n v := by
  obtain ⟨hw, hc, hd, _, hu, _⟩ := createFunctionGraph_spec hf h
  obtain ⟨hw', hc', hd', hx', hu', _⟩ := createFunctionGraph_spec hf' h'
  obtain ⟨cn', hcn', hs⟩ := hd' n cn hnc hcn
  have hcnf := hf' cn (lastDef_name hcn).2
  have hcemp : cn'.inputTypes = [] := by rw [hs.inputTypes]; exact hemp
  have hdef : ∀ k m', k ≠ n → g'.get? k = some m' → m'.kind ≠ .external → ∃ m, g.get? k = some m ∧ m.kind = m'.kind ∧
      m.inputTypes = m'.inputTypes ∧ m.fn = m'.fn := by
    intro k m' hkn hm' hext
    have hkc : k ∉ config.keys := by
      intro hkc
      obtain ⟨x, hx, hxe⟩ := hc' k hkc
      rw [hm'] at hx; cases hx; exact hext hxe
    cases hl : lastDef fns' k with
    | none => exact absurd (hu' k m' hm' hkc hl) hext
    | some m0 =>
      obtain ⟨x, hx, hxs⟩ := hd' k m0 hkc hl
      rw [hm'] at hx; cases hx
      rw [hsame k hkn] at hl
      obtain ⟨y, hy, hys⟩ := hd k m0 hkc hl
      exact ⟨y, hy, by rw [hys.kind, hxs.kind], by rw [hys.inputTypes, hxs.inputTypes], by rw [hys.fn, hxs.fn]⟩
  refine ⟨⟨cn', hcn', by rw [hs.kind]; exact hcnf.kind, hcemp, by rw [hs.fn]; exact hfn⟩, ?_⟩
  intro k m' hkn hm'
  by_cases hext : m'.kind = .external
  · have key : ∃ m, g.get? k = some m ∧ m.kind = .external := by
      by_cases hkc : k ∈ config.keys
      · exact hc k hkc
      · have hl : lastDef fns' k = none := by
          cases hl : lastDef fns' k with
          | none => rfl
          | some m0 =>
            obtain ⟨x, hx, hxs⟩ := hd' k m0 hkc hl
            rw [hm'] at hx; cases hx
            exact absurd (by rw [← hxs.kind]; exact hext) (hf' m0 (lastDef_name hl).2).kind
        rw [hsame k hkn] at hl
        rcases hx' k m' hm' hext with hkc' | ⟨f, fn, hfg, hfk⟩
        · exact absurd hkc' hkc
        · have hfn' : f ≠ n := by
            rintro rfl
            rw [hcn'] at hfg; cases hfg
            rw [hcemp] at hfk; simp [Dict.keys] at hfk
          have hfe : fn.kind ≠ .external := by
            intro he
            rw [hw'.external_no_params hfg he] at hfk; simp [Dict.keys] at hfk
          obtain ⟨fm, hfm, _, hfi, _⟩ := hdef f fn hfn' hfg hfe
          obtain ⟨kn, hkg⟩ := hw.deps_in hfm (by rw [hfi]; exact hfk)
          exact ⟨kn, hkg, hu k kn hkg hkc hl⟩
    obtain ⟨m, hm, he⟩ := key
    exact ⟨m, hm, by rw [he, hext], by rw [hw.external_no_params hm he, hw'.external_no_params hm' hext],
      fun hne => absurd he hne⟩
  · obtain ⟨m, h1, h2, h3, h4⟩ := hdef k m' hkn hm' hext
    exact ⟨m, h1, h2, h3, fun _ => h4⟩

theorem ConstReplaced.acyclic {g g' : Graph T V} {n : Name} {v : V} (hr : ConstReplaced g g' n v)
    (hac : Acyclic g) : Acyclic g' := by
  obtain ⟨rank, h⟩ := hac
  refine ⟨rank, fun k m' hm' d hd => ?_⟩
  by_cases hkn : k = n
  · subst hkn
    obtain ⟨cn, hcn, _, hemp, _⟩ := hr.const
    rw [hcn] at hm'; cases hm'
    rw [hemp] at hd; simp [Dict.keys] at hd
  · obtain ⟨m, hm, _, h2, _⟩ := hr.same k m' hkn hm'
    exact h k m hm d (by rw [h2]; exact hd)

/-- Two executions of which each requested node is resolvable to the same values give the same dict. -/
theorem executor_transfer {g g' : Graph T V} {config : Dict Name V} (hw : WellFormed g)
    (hw' : WellFormed g') {finalVars : List Name} {inputs ovr ovr' : Dict Name V}
    (hk1 : ∀ k ∈ finalVars, (∃ n, g.get? k = some n) ∧ ∃ n, g'.get? k = some n)
    (hden : ∀ k ∈ finalVars, ∀ w, Den g (config.merge inputs) ovr k w → Den g' (config.merge inputs) ovr' k w)
    (habs : ∀ k ∈ finalVars, Absent g (config.merge inputs) ovr k → Absent g' (config.merge inputs) ovr' k)
    {out : Dict Name (Option V)} (h : defaultExecutorExecute ⟨g, config⟩ finalVars ovr inputs = .ok out) :
    defaultExecutorExecute ⟨g', config⟩ finalVars ovr' inputs = .ok out := by
  obtain ⟨hdisj, hkeys, hv⟩ := defaultExecutor_ok hw h
  obtain ⟨out', h'⟩ := defaultExecutor_complete (g := g') (config := config) (overrides := ovr') hw' hdisj (by
    intro k hk n _
    obtain ⟨n0, hn0⟩ := (hk1 k hk).1
    rcases hv k hk n0 hn0 with ⟨v, _, hd⟩ | ⟨_, ha⟩
    · exact .inl ⟨v, hden k hk v hd⟩
    · exact .inr (habs k hk ha))
  obtain ⟨_, _, hv'⟩ := defaultExecutor_ok hw' h'
  have heq : ∀ k ∈ finalVars, out'.get? k = out.get? k := by
    intro k hk
    obtain ⟨⟨n0, hn0⟩, n1, hn1⟩ := hk1 k hk
    rcases hv k hk n0 hn0 with ⟨v, h1, hd⟩ | ⟨h1, ha⟩
    · rcases hv' k hk n1 hn1 with ⟨v', h1', hd'⟩ | ⟨_, ha'⟩
      · rw [h1, h1', (hden k hk v hd).det hd']
      · exact absurd (hden k hk v hd) ha'.not_den
    · rcases hv' k hk n1 hn1 with ⟨v', _, hd'⟩ | ⟨h1', _⟩
      · exact absurd hd' (habs k hk ha).not_den
      · rw [h1, h1']
  rw [h']
  congr 1
  rw [defaultExecutor_out_eq h, defaultExecutor_out_eq h']
  have : ∀ (l : List Name) (acc : Dict Name (Option V)), (∀ k ∈ l, k ∈ finalVars) →
      l.foldl (fun (o : Dict Name (Option V)) k => o.set k ((out'.get? k).join)) acc = l.foldl (fun (o : Dict Name (Option V)) k => o.set k ((out.get? k).join)) acc := by
    intro l
    induction l with
    | nil => intro _ _; rfl
    | cons a t ih =>
      intro acc hl
      simp only [List.foldl_cons]
      rw [heq a (hl a (by simp))]
      exact ih _ (fun k hk => hl k (by simp [hk]))
  exact this finalVars [] (fun _ h => h)

end Verif
