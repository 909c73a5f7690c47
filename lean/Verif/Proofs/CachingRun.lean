import Verif.Proofs.Caching

/-! A cached execution simulates the plain one. -/
namespace Verif
variable {T V M : Type}

section
variable (env : CacheEnv V) (S : MetaStore M) (impl : String → String → Dict Name V → Except UserErr V)
  (Open : M → Prop) (Ready : M → String → Prop) (sess : Session T V)

/-- While the run is going on. -/
structure Running (s : ExecState V) (t : CacheState M V) : Prop where
  good : Good env S impl t
  ready : Ready t.store sess.runId
  alive : t.killed = false
  kill : t.killAfter.isSome = sess.killAfter.isSome
  given : ∀ k n ver, sess.graph.get? k = some n → t.versions.get? k = some ver →
    ∃ v, Den sess.graph sess.inputs sess.overrides k v ∧ Denotes env t.issued ver v
  unseen : ∀ k n ver, sess.graph.get? k = some n → n.kind ≠ .external → sess.overrides.get? k = none →
    t.versions.get? k = some ver → k ∈ s.calls.map (·.1)

/-- Also after an exception or after the process was killed. -/
structure Persisting (t : CacheState M V) : Prop where
  good : Good env S impl t
  isOpen : Open t.store
  kill : t.killed = true → sess.killAfter.isSome = true

variable {env S impl Open Ready sess}

theorem Running.persisting (hS : S.Lawful Open Ready) {s : ExecState V} {t : CacheState M V}
    (h : Running env S impl Ready sess s t) : Persisting env S impl Open sess t :=
  ⟨h.good, hS.open_of_ready h.ready, by simp [h.alive]⟩

/-! ### Effects that do not touch what the invariant speaks about -/

theorem tick_spec {t : CacheState M V} :
    (t.tick.1 = true → t.tick.2 = { t with killed := true } ∧ t.killAfter.isSome = true) ∧
    (t.tick.1 = false → ∃ k, t.tick.2 = { t with killAfter := k } ∧ k.isSome = t.killAfter.isSome) := by
  unfold CacheState.tick
  split
  · rename_i h
    exact ⟨fun h => by simp at h, fun _ => ⟨none, by rw [← h], by rw [h]⟩⟩
  · rename_i h
    refine ⟨fun _ => ⟨rfl, by rw [h]; rfl⟩, fun h => by simp at h⟩
  · rename_i k h
    exact ⟨fun h => by simp at h, fun _ => ⟨some k, rfl, by rw [h]; rfl⟩⟩

theorem Good.congr {t t' : CacheState M V} (h : Good env S impl t) (h1 : t'.store = t.store) (h2 : t'.results = t.results)
    (h3 : t'.counter = t.counter) (h4 : t'.issued = t.issued) : Good env S impl t' where
  issued := by rw [h3, h4]; exact h.issued
  store := by rw [h1, h4]; exact h.store
  results := by rw [h2, h4]; exact h.results

/-- Recording a right version in the metadata store. -/
theorem setStored_spec (hS : S.Lawful Open Ready) {name code : String} {k : CKey} {ver : String} {t : CacheState M V}
    (hc : sess.allCodes.get? name = some code) (hg : Good env S impl t) (hr : Ready t.store sess.runId)
    (halive : t.killed = false) (hkill : t.killAfter.isSome = sess.killAfter.isSome)
    (hk : ∀ k', k = some k' → ∃ name code deps kw v, k' = createCacheKey env.codec env.alnum name code deps ∧
      deps.keys.Nodup ∧ CommaFree deps ∧ VersionsOf env t.issued kw deps ∧
      impl (safeName env.alnum name) code kw = .ok v ∧ Denotes env t.issued ver v) :
    match setStored S sess name k ver t with
    | (.ok (), t') => ∃ m ka, t' = { t with store := m, killAfter := ka } ∧ Ready m sess.runId ∧ Good env S impl t' ∧
        ka.isSome = sess.killAfter.isSome
    | (.error _, t') => Persisting env S impl Open sess t' ∧ t'.killed = true := by
  unfold setStored
  rw [hc]
  simp only
  obtain ⟨ht1, ht2⟩ := tick_spec (t := t)
  revert ht1 ht2
  generalize t.tick = tk
  obtain ⟨b, t1⟩ := tk
  intro ht1 ht2
  cases b with
  | true =>
    obtain ⟨rfl, h2⟩ := ht1 rfl
    exact ⟨⟨hg.congr rfl rfl rfl rfl, hS.open_of_ready hr, fun _ => by rw [← hkill]; exact h2⟩, rfl⟩
  | false =>
    obtain ⟨ka, rfl, hka⟩ := ht2 rfl
    simp only
    obtain ⟨h1, h2⟩ := hS.set_ok (run := sess.runId) k ver name code hr
    have h3 := @MetaStore.Lawful.set_get _ S Open Ready hS t.store sess.runId k ver name code
    revert h1 h2 h3
    generalize S.set t.store k ver sess.runId name code = r
    obtain ⟨m, e⟩ := r
    intro h1 h2 h3
    simp only at h1
    subst h1
    refine ⟨m, ka, rfl, h2, ?_, hka.trans hkill⟩
    exact
      { issued := hg.issued
        store := by
          intro k' ver' hget
          rcases h3 hr hget with h | ⟨h, h'⟩
          · exact hg.store k' ver' h
          · subst h'; exact hk k' h.symm
        results := hg.results }

/-! ### One node -/

/-- What is known when node `n` is about to run with arguments `kw`. -/
structure AtNode (s : ExecState V) (t : CacheState M V) (n : Node T V) (kw : Dict Name V) (code : String) : Prop where
  run : Running env S impl Ready sess s t
  node : sess.graph.get? n.name = some n
  fn : n.kind ≠ .external
  plain : sess.overrides.get? n.name = none
  args : RightArgs sess.graph sess.inputs sess.overrides n kw
  fresh : n.name ∉ s.calls.map (·.1)
  implements : ∀ kw, n.fn kw = impl (safeName env.alnum n.name) code kw
  hasCode : sess.allCodes.get? n.name = some code

theorem argsFor_keys (params : Dict Name (T × DepType)) (val : Name → Option V) :
    (argsFor params val).keys.Sublist params.keys := by
  unfold argsFor Dict.keys
  induction params with
  | nil => exact List.Sublist.slnil
  | cons p t ih =>
    rw [List.filterMap_cons]
    cases h : val p.1 with
    | none => simp only [Option.map_none, List.map_cons]; exact List.Sublist.cons _ ih
    | some v => simp only [Option.map_some, List.map_cons]; exact List.Sublist.cons_cons _ ih

theorem argsFor_get {params : Dict Name (T × DepType)} (hn : params.keys.Nodup) (val : Name → Option V) (x : Name) :
    (argsFor params val).get? x = if x ∈ params.keys then val x else none := by
  unfold argsFor
  induction params with
  | nil => rfl
  | cons p t ih =>
    simp only [Dict.keys, List.map_cons, List.nodup_cons] at hn
    have ih := ih hn.2
    rw [List.filterMap_cons]
    by_cases hx : x = p.1
    · subst hx
      have hnot : ¬ p.1 ∈ Dict.keys t := hn.1
      cases hv : val p.1 with
      | none => simp only [Option.map_none]; rw [ih, if_neg hnot]; simp [Dict.keys]
      | some v => simp [Dict.get?, Dict.keys]
    · have hiff : (x ∈ Dict.keys (p :: t)) = (x ∈ Dict.keys t) := by
        unfold Dict.keys; rw [List.map_cons, List.mem_cons]; simp [hx]
      cases hv : val p.1 with
      | none => simp only [Option.map_none]; rw [ih]; simp only [hiff]
      | some v =>
        simp only [Option.map_some, Dict.get?]
        rw [if_neg (fun h => hx h.symm), ih]; simp only [hiff]

/-- The keyword arguments with defaults filled in: names are parameters, and a version held in memory stands for the
argument. -/
theorem resolved_args (hv : sess.Valid env impl) {s : ExecState V} {t : CacheState M V} {n : Node T V} {kw : Dict Name V}
    {code : String} (h : AtNode (env := env) (S := S) (impl := impl) (Ready := Ready) (sess := sess) s t n kw code) :
    (resolveDefaults (sess.defaults n.name) kw).keys.Nodup ∧
    (∀ p ∈ resolveDefaults (sess.defaults n.name) kw, p.1 ∈ n.inputTypes.keys) ∧
    (∀ p ∈ resolveDefaults (sess.defaults n.name) kw, ∀ ver, t.versions.get? p.1 = some ver →
      Denotes env t.issued ver p.2) ∧ n.fn (resolveDefaults (sess.defaults n.name) kw) = n.fn kw := by
  obtain ⟨val, h1, h2, rfl⟩ := h.args
  have hn := hv.wf.params_nodup h.node
  have hkn : (argsFor n.inputTypes val).keys.Nodup := List.Nodup.sublist (argsFor_keys _ _) hn
  obtain ⟨r1, r2, r3⟩ := resolveDefaults_spec (sess.defaults n.name) (argsFor n.inputTypes val) hkn
  have hsub : ∀ p ∈ resolveDefaults (sess.defaults n.name) (argsFor n.inputTypes val), p.1 ∈ n.inputTypes.keys := by
    intro p hp
    rcases r3 p.1 (mem_keys_of_mem hp) with h' | ⟨q, hq, hqp⟩
    · exact (argsFor_keys _ _).subset h'
    · rw [← hqp]; exact hv.defaults h.node q hq
  refine ⟨r1, hsub, ?_, ?_⟩
  · intro p hp ver hver
    have hpk := hsub p hp
    obtain ⟨dn, hdn⟩ := hv.wf.deps_in h.node hpk
    obtain ⟨v, hden, hdv⟩ := h.run.given _ _ _ hdn hver
    have hget := Dict.get?_of_mem r1 (show (p.1, p.2) ∈ _ from hp)
    cases hval : val p.1 with
    | none =>
      obtain ⟨q, hq, hqp⟩ := List.mem_map.1 hpk
      exact absurd (by rw [← hqp] at hden; exact hden) (h2 q.1 q.2 hq (by rw [hqp]; exact hval)).2.not_den
    | some w =>
      have hkw : (argsFor n.inputTypes val).get? p.1 = some w := by rw [argsFor_get hn, if_pos hpk, hval]
      rw [r2 p.1 (by rw [Dict.has, hkw]; rfl), hkw] at hget
      cases hget
      rw [(h1 p.1 p.2 hpk hval).det hden]
      exact hdv
  · refine hv.defaults_fn h.node _ ?_
    intro p hp
    exact (argsFor_keys _ _).subset (mem_keys_of_mem hp)

/-- The state between the hooks: `deps` versions the arguments, and the key was recorded. -/
structure Keyed (t : CacheState M V) (n : Node T V) (code : String) (rk : Dict Name V) : Prop where
  key : ∃ deps, t.keys.get? n.name = some (createCacheKey env.codec env.alnum n.name code deps) ∧ deps.keys.Nodup ∧
    CommaFree deps ∧ VersionsOf env t.issued rk deps

theorem preNode_spec (he : env.Lawful) (hv : sess.Valid env impl) {s : ExecState V} {t : CacheState M V} {n : Node T V}
    {kw : Dict Name V} {code : String}
    (h : AtNode (env := env) (S := S) (impl := impl) (Ready := Ready) (sess := sess) s t n kw code) :
    ∃ t', preNode env sess n kw t = (.ok (), t') ∧
      AtNode (env := env) (S := S) (impl := impl) (Ready := Ready) (sess := sess) s t' n kw code ∧
      t'.results = t.results ∧ t'.store = t.store ∧ t'.executed = t.executed ∧
      (sess.behaviors.get? n.name ≠ some .disable →
        Keyed (env := env) t' n code (resolveDefaults (sess.defaults n.name) kw)) := by
  obtain ⟨b, hb, hbi⟩ := hv.behaviors h.node
  obtain ⟨r1, r2, r3, r4⟩ := resolved_args hv h
  unfold preNode
  rw [hb]
  by_cases hd : b = .disable
  · subst hd
    exact ⟨t, rfl, h, rfl, rfl, rfl, fun hx => absurd rfl hx⟩
  · obtain ⟨deps, t1, e1, g1, d1, p1⟩ := depVersions_spec (S := S) (impl := impl) he (sess := sess)
      (resolveDefaults (sess.defaults n.name) kw) [] [] t h.run.good (by simpa using r1)
      ⟨rfl, fun x d v hx => by simp [Dict.get?] at hx⟩
      (fun p hp => by
        obtain ⟨dn, hdn⟩ := hv.wf.deps_in h.node (r2 p hp)
        exact hv.behaviors hdn) r3
    have hmain : ∃ t', (match depVersions env sess (resolveDefaults (sess.defaults n.name) kw) [] t with
        | (.error e, s) => (Except.error e, s)
        | (.ok deps, s) =>
          match sess.allCodes.get? n.name with
          | none => (.error "KeyError", s)
          | some code => (.ok (), { s with keys := s.keys.set n.name (createCacheKey env.codec env.alnum n.name code deps) })) =
          ((.ok (), t') : Except UserErr Unit × CacheState M V) ∧
        AtNode (env := env) (S := S) (impl := impl) (Ready := Ready) (sess := sess) s t' n kw code ∧
        t'.results = t.results ∧ t'.store = t.store ∧ t'.executed = t.executed ∧
        Keyed (env := env) t' n code (resolveDefaults (sess.defaults n.name) kw) := by
      rw [e1]
      simp only
      rw [h.hasCode]
      refine ⟨_, rfl, ?_, d1.results, d1.store, d1.executed, ?_⟩
      · exact
          { run :=
              { good := g1.congr rfl rfl rfl rfl
                ready := by show Ready t1.store _; rw [d1.store]; exact h.run.ready
                alive := by show t1.killed = _; rw [d1.killed]; exact h.run.alive
                kill := by show t1.killAfter.isSome = _; rw [d1.killAfter]; exact h.run.kill
                given := by
                  intro k n ver hk hver
                  have hver : t1.versions.get? k = some ver := hver
                  rw [d1.versions] at hver
                  obtain ⟨v, h1, h2⟩ := h.run.given k n ver hk hver
                  exact ⟨v, h1, h2.mono d1.issued⟩
                unseen := by
                  intro k n ver hk h1 h2 hver
                  have hver : t1.versions.get? k = some ver := hver
                  rw [d1.versions] at hver
                  exact h.run.unseen k n ver hk h1 h2 hver }
            node := h.node, fn := h.fn, plain := h.plain, args := h.args, fresh := h.fresh, hasCode := h.hasCode, implements := h.implements }
      · refine ⟨deps, by simp, ?_, ?_, ?_⟩
        · rw [p1.1]; simpa using r1
        · intro p hp
          have hk : p.1 ∈ deps.keys := mem_keys_of_mem hp
          rw [p1.1, List.nil_append] at hk
          obtain ⟨v, hv'⟩ := Dict.mem_keys_iff.1 hk
          obtain ⟨dn, hdn⟩ := hv.wf.deps_in h.node (r2 (p.1, v) (Dict.get?_mem hv'))
          refine ⟨hv.names hdn, ?_⟩
          have hdk : deps.keys.Nodup := by rw [p1.1]; simpa using r1
          exact (p1.2 p.1 p.2 v (Dict.get?_of_mem hdk hp) (by simpa using hv')).comma he g1.issued
        · simpa using p1
    obtain ⟨t', q1, q2, q3, q4, q5, q6⟩ := hmain
    refine ⟨t', ?_, q2, q3, q4, q5, fun _ => q6⟩
    cases b with
    | ignore => exact absurd rfl hbi
    | disable => exact absurd rfl hd
    | default => exact q1
    | recompute => exact q1

/-- State after the node was executed or retrieved: its version, if any, stands for the result. -/
structure AfterNode (s : ExecState V) (t : CacheState M V) (n : Node T V) (v : V) : Prop where
  good : Good env S impl t
  ready : Ready t.store sess.runId
  alive : t.killed = false
  kill : t.killAfter.isSome = sess.killAfter.isSome
  given : ∀ k m ver, sess.graph.get? k = some m → t.versions.get? k = some ver →
    ∃ w, Denotes env t.issued ver w ∧ if k = n.name then w = v else Den sess.graph sess.inputs sess.overrides k w
  unseen : ∀ k m ver, sess.graph.get? k = some m → m.kind ≠ .external → sess.overrides.get? k = none →
    t.versions.get? k = some ver → k = n.name ∨ k ∈ s.calls.map (·.1)
  version : sess.behaviors.get? n.name ≠ some .disable → ∃ ver, t.versions.get? n.name = some ver

theorem record_spec (he : env.Lawful) (hS : S.Lawful Open Ready) (hv : sess.Valid env impl) {s : ExecState V}
    {t : CacheState M V} {n : Node T V} {kw : Dict Name V} {code : String}
    (h : AtNode (env := env) (S := S) (impl := impl) (Ready := Ready) (sess := sess) s t n kw code)
    (hkey : Keyed (env := env) t n code (resolveDefaults (sess.defaults n.name) kw)) :
    match executeAndRecord env S sess n (resolveDefaults (sess.defaults n.name) kw) t with
    | (.ok v, t') => n.fn kw = .ok v ∧
        AfterNode (env := env) (S := S) (impl := impl) (Ready := Ready) (sess := sess) s t' n v
    | (.error e, t') => Persisting env S impl Open sess t' ∧ (t'.killed = true ∨ n.fn kw = .error e) := by
  obtain ⟨r1, r2, r3, r4⟩ := resolved_args hv h
  unfold executeAndRecord
  simp only
  cases hf : n.fn (resolveDefaults (sess.defaults n.name) kw) with
  | error e =>
    simp only
    refine ⟨⟨h.run.good.congr rfl rfl rfl rfl, hS.open_of_ready h.run.ready, ?_⟩, .inr (by rw [← r4]; exact hf)⟩
    intro hk
    exact absurd (h.run.alive.symm.trans hk) (by simp)
  | ok v =>
    simp only
    have hres : (if sess.loaders.contains n.name then (env.tupleHead v).getD v else v) = v := by
      split
      · rename_i hl
        rw [hv.loaders (by simpa using hl) h.node hf]
        rfl
      · rfl
    unfold recordResult
    simp only
    rw [hres]
    have hg0 : Good env S impl { t with executed := t.executed ++ [n.name] } := h.run.good.congr rfl rfl rfl rfl
    obtain ⟨g1, d1, den1⟩ := versionData_spec he hg0 v
    revert g1 d1 den1
    generalize ({ t with executed := t.executed ++ [n.name] } : CacheState M V).versionData env v = p
    obtain ⟨ver, t1⟩ := p
    intro g1 d1 den1
    simp only at g1 d1 den1 ⊢
    have hsav : (sess.savers.contains n.name) = false := by rw [hv.savers]; rfl
    simp only [hsav, Bool.false_eq_true, if_false]
    have hset := setStored_spec (env := env) (S := S) (impl := impl) (Open := Open) (Ready := Ready) (sess := sess)
      (name := n.name) (code := code) (k := t1.keys.get? n.name) (ver := ver)
      (t := { t1 with versions := t1.versions.set n.name ver }) hS h.hasCode (g1.congr rfl rfl rfl rfl)
      (by show Ready t1.store _; rw [d1.store]; exact h.run.ready)
      (by show t1.killed = _; rw [d1.killed]; exact h.run.alive)
      (by show t1.killAfter.isSome = _; rw [d1.killAfter]; exact h.run.kill)
      (by
        intro k' hk'
        obtain ⟨deps, hk, hn, hc, hvo⟩ := hkey.key
        have hk'' : t.keys.get? n.name = some k' := by rw [d1.keys] at hk'; exact hk'
        rw [hk] at hk''; cases hk''
        refine ⟨n.name, code, deps, _, v, rfl, hn, hc, hvo.mono d1.issued, ?_, den1⟩
        rw [← h.implements]; exact hf)
    revert hset
    generalize setStored S sess n.name (t1.keys.get? n.name) ver { t1 with versions := t1.versions.set n.name ver } = o
    obtain ⟨o, t2⟩ := o
    intro hset
    cases o with
    | error e => exact ⟨hset.1, .inl hset.2⟩
    | ok u =>
      obtain ⟨m, ka, rfl, hr, hg2, hka⟩ := hset
      refine ⟨by rw [← r4]; exact hf, ?_⟩
      exact
        { good := hg2
          ready := hr
          alive := by show t1.killed = _; rw [d1.killed]; exact h.run.alive
          kill := hka
          given := by
            intro k m' ver' hk hver
            have hver : (t1.versions.set n.name ver).get? k = some ver' := hver
            rw [Dict.get?_set] at hver
            by_cases hkn : k = n.name
            · rw [if_pos hkn.symm] at hver
              cases hver
              exact ⟨v, den1, by rw [if_pos hkn]⟩
            · rw [if_neg (fun e => hkn e.symm), d1.versions] at hver
              obtain ⟨w, h1, h2⟩ := h.run.given k m' ver' hk hver
              exact ⟨w, h2.mono d1.issued, by rw [if_neg hkn]; exact h1⟩
          unseen := by
            intro k m' ver' hk h1 h2 hver
            have hver : (t1.versions.set n.name ver).get? k = some ver' := hver
            rw [Dict.get?_set] at hver
            by_cases hkn : k = n.name
            · exact .inl hkn
            · rw [if_neg (fun e => hkn e.symm), d1.versions] at hver
              exact .inr (h.run.unseen k m' ver' hk h1 h2 hver)
          version := fun _ => ⟨ver, Dict.get?_set_self _ _ _⟩ }

theorem doNode_spec (he : env.Lawful) (hS : S.Lawful Open Ready) (hu : Unordered impl) (hv : sess.Valid env impl)
    {s : ExecState V} {t : CacheState M V} {n : Node T V} {kw : Dict Name V} {code : String}
    (h : AtNode (env := env) (S := S) (impl := impl) (Ready := Ready) (sess := sess) s t n kw code)
    (hkey : sess.behaviors.get? n.name ≠ some .disable →
      Keyed (env := env) t n code (resolveDefaults (sess.defaults n.name) kw)) :
    match doNode env S sess n kw t with
    | (.ok v, t') => n.fn kw = .ok v ∧
        AfterNode (env := env) (S := S) (impl := impl) (Ready := Ready) (sess := sess) s t' n v
    | (.error e, t') => Persisting env S impl Open sess t' ∧ (t'.killed = true ∨ n.fn kw = .error e) := by
  obtain ⟨r1, r2, r3, r4⟩ := resolved_args hv h
  obtain ⟨b, hb, hbi⟩ := hv.behaviors h.node
  have hno : ∀ ver, t.versions.get? n.name ≠ some ver :=
    fun ver hver => h.fresh (h.run.unseen _ _ _ h.node h.fn h.plain hver)
  unfold doNode
  simp only
  rw [hb]
  cases b with
  | ignore => exact absurd rfl hbi
  | disable =>
    simp only
    cases hf : n.fn (resolveDefaults (sess.defaults n.name) kw) with
    | error e =>
      refine ⟨⟨h.run.good.congr rfl rfl rfl rfl, hS.open_of_ready h.run.ready, ?_⟩, .inr (by rw [← r4]; exact hf)⟩
      intro hk
      exact absurd (h.run.alive.symm.trans hk) (by simp)
    | ok v =>
      refine ⟨by rw [← r4]; exact hf, ?_⟩
      exact
        { good := h.run.good.congr rfl rfl rfl rfl
          ready := h.run.ready
          alive := h.run.alive
          kill := h.run.kill
          given := by
            intro k m' ver' hk hver
            obtain ⟨w, h1, h2⟩ := h.run.given k m' ver' hk hver
            have hkn : k ≠ n.name := by rintro rfl; exact hno _ hver
            exact ⟨w, h2, by rw [if_neg hkn]; exact h1⟩
          unseen := fun k m' ver' hk h1 h2 hver => .inr (h.run.unseen k m' ver' hk h1 h2 hver)
          version := fun hx => absurd hb hx }
  | recompute => exact record_spec he hS hv h (hkey (by rw [hb]; simp))
  | default =>
    have hrec := record_spec he hS hv h (hkey (by rw [hb]; simp))
    simp only
    obtain ⟨deps, hk, hn, hc, hvo⟩ := (hkey (by rw [hb]; simp)).key
    unfold getDataVersion
    rw [hk]
    cases hver : t.versions.get? n.name with
    | some ver => exact absurd hver (hno ver)
    | none =>
      simp only
      obtain ⟨o, ho⟩ := hS.get_ok (some (createCacheKey env.codec env.alnum n.name code deps)) (hS.open_of_ready h.run.ready)
      rw [ho]
      simp only
      cases o with
      | none => exact hrec
      | some ver =>
        simp only
        obtain ⟨v, hi, hdv⟩ := h.run.good.hit he hu hn hc hvo ho
        rw [if_neg (hdv.ne_unhashable he h.run.good.issued)]
        cases hres : t.results.get? ver with
        | none => exact hrec
        | some r =>
          obtain ⟨w, rfl, hdw⟩ := h.run.good.results ver r hres
          have hvw := hdv.unique he h.run.good.issued hdw
          subst hvw
          refine ⟨by rw [← r4, h.implements]; exact hi, ?_⟩
          exact
            { good := h.run.good.congr rfl rfl rfl rfl
              ready := h.run.ready
              alive := h.run.alive
              kill := h.run.kill
              given := by
                intro k m' ver' hk hver
                have hver : (t.versions.set n.name ver).get? k = some ver' := hver
                rw [Dict.get?_set] at hver
                by_cases hkn : k = n.name
                · rw [if_pos hkn.symm] at hver
                  cases hver
                  exact ⟨v, hdv, by rw [if_pos hkn]⟩
                · rw [if_neg (fun e => hkn e.symm)] at hver
                  obtain ⟨w, h1, h2⟩ := h.run.given k m' ver' hk hver
                  exact ⟨w, h2, by rw [if_neg hkn]; exact h1⟩
              unseen := by
                intro k m' ver' hk h1 h2 hver
                have hver : (t.versions.set n.name ver).get? k = some ver' := hver
                rw [Dict.get?_set] at hver
                by_cases hkn : k = n.name
                · exact .inl hkn
                · rw [if_neg (fun e => hkn e.symm)] at hver
                  exact .inr (h.run.unseen k m' ver' hk h1 h2 hver)
              version := fun _ => ⟨ver, Dict.get?_set_self _ _ _⟩ }

theorem postNode_spec (hS : S.Lawful Open Ready) (hv : sess.Valid env impl) (htorn : sess.torn = false)
    {s : ExecState V} {t : CacheState M V} {n : Node T V} {v : V} (hn : sess.graph.get? n.name = some n)
    (h : AfterNode (env := env) (S := S) (impl := impl) (Ready := Ready) (sess := sess) s t n v) :
    match postNode S sess n v t with
    | (.ok (), t') => AfterNode (env := env) (S := S) (impl := impl) (Ready := Ready) (sess := sess) s t' n v
    | (.error _, t') => Persisting env S impl Open sess t' ∧ t'.killed = true := by
  obtain ⟨b, hb, hbi⟩ := hv.behaviors hn
  unfold postNode
  rw [hb]
  by_cases hd : b = .disable
  · subst hd; exact h
  · obtain ⟨ver, hver⟩ := h.version (by rw [hb]; simpa using hd)
    obtain ⟨w, hdw, hw⟩ := h.given _ _ _ hn hver
    rw [if_pos rfl] at hw
    subst hw
    have hmain : match (match getDataVersion S n.name (t.keys.get? n.name) t with
        | .error e => (Except.error e, t)
        | .ok none => (.error "AssertionError", t)
        | .ok (some ver) =>
          if t.results.has ver then (.ok (), t)
          else
            match t.tick with
            | (true, s) =>
              (.error "killed", if sess.torn then { s with results := s.results.set ver none } else s)
            | (false, s) => (.ok (), { s with results := s.results.set ver (some w) }) : Except UserErr Unit × CacheState M V) with
        | (.ok (), t') => AfterNode (env := env) (S := S) (impl := impl) (Ready := Ready) (sess := sess) s t' n w
        | (.error _, t') => Persisting env S impl Open sess t' ∧ t'.killed = true := by
      have hgd : getDataVersion S n.name (t.keys.get? n.name) t = .ok (some ver) := by
        unfold getDataVersion; rw [hver]
      rw [hgd]
      simp only
      by_cases hr : t.results.has ver = true
      · rw [if_pos hr]; exact h
      · rw [if_neg hr]
        obtain ⟨ht1, ht2⟩ := tick_spec (t := t)
        revert ht1 ht2
        generalize t.tick = tk
        obtain ⟨b, t1⟩ := tk
        intro ht1 ht2
        cases b with
        | true =>
          obtain ⟨rfl, h2⟩ := ht1 rfl
          simp only [htorn, Bool.false_eq_true, if_false]
          exact ⟨⟨h.good.congr rfl rfl rfl rfl, hS.open_of_ready h.ready, fun _ => by rw [← h.kill]; exact h2⟩, trivial⟩
        | false =>
          obtain ⟨ka, rfl, hka⟩ := ht2 rfl
          exact
            { good :=
                { issued := h.good.issued
                  store := h.good.store
                  results := by
                    intro d r hdr
                    replace hdr : (t.results.set ver (some w)).get? d = some r := hdr
                    rw [Dict.get?_set] at hdr
                    by_cases hvd : ver = d
                    · rw [if_pos hvd] at hdr; subst hvd
                      exact ⟨w, (Option.some.inj hdr).symm, hdw⟩
                    · rw [if_neg hvd] at hdr
                      exact h.good.results d r hdr }
              ready := h.ready
              alive := h.alive
              kill := hka.trans h.kill
              given := h.given
              unseen := h.unseen
              version := h.version }
    cases b with
    | ignore => exact absurd rfl hbi
    | disable => exact absurd rfl hd
    | default => exact hmain
    | recompute => exact hmain

/-! ### The whole execution -/

/-- What is known of the calls of a run. -/
def CallsOk (sess : Session T V) (l : List (Name × Dict Name V)) : Prop :=
  (l.map (·.1)).Nodup ∧ ∀ c ∈ l, CallOk sess.graph sess.inputs sess.overrides (sess.nodes.map (·.name)) c

theorem callsOk_prefix : PrefixClosed (CallsOk sess) := by
  intro l l' hp h
  exact ⟨List.Nodup.sublist (hp.map _).sublist h.1, fun c hc => h.2 c (hp.subset hc)⟩

theorem faithful (he : env.Lawful) (hS : S.Lawful Open Ready) (hu : Unordered impl) (hv : sess.Valid env impl)
    (htorn : sess.torn = false) :
    Faithful sess.graph sess.inputs sess.overrides (sess.nodes.map (·.name)) (runCached env S sess) (CallsOk sess)
      (Running env S impl Ready sess) (Persisting env S impl Open sess) (fun t => t.killed = true) where
  keep := fun h => h.persisting hS
  input := by
    intro s t k n v h _ _ _
    exact { h with unseen := by simpa [prune_calls, ExecState.store] using h.unseen }
  override := by
    intro s t k n v h _ _
    exact { h with unseen := by simpa [ExecState.store] using h.unseen }
  call := by
    intro s t k n h hk hext hov kw hkw hP
    obtain rfl : n.name = k := hv.wf.name_eq hk
    obtain ⟨hnd, hok⟩ := hP
    obtain ⟨_, _, n', hn', _, hargs⟩ := hok (n.name, kw) (by simp)
    simp only at hn' hargs
    rw [hk] at hn'; cases hn'
    have hfresh : n.name ∉ s.calls.map (·.1) := by
      rw [List.map_append, List.nodup_append] at hnd
      intro hm
      exact hnd.2.2 _ hm _ (by simp) rfl
    obtain ⟨code, hcode, himpl⟩ := hv.codes hk hext
    have hat : AtNode (env := env) (S := S) (impl := impl) (Ready := Ready) (sess := sess) s t n kw code :=
      ⟨h, hk, hext, hov, hargs, hfresh, himpl, by rw [allCodes_get (hv.raw_inputs hk hext)]; exact hcode⟩
    obtain ⟨t1, e1, hat1, _, _, _, hkey⟩ := preNode_spec he hv hat
    have hdo := doNode_spec he hS hu hv hat1 hkey
    unfold runCached
    rw [e1]
    simp only
    revert hdo
    generalize doNode env S sess n kw t1 = o
    obtain ⟨o, t2⟩ := o
    intro hdo
    cases o with
    | error e => exact hdo
    | ok v =>
      simp only
      obtain ⟨hf, hafter⟩ := hdo
      have hpost := postNode_spec (n := n) hS hv htorn hk hafter
      revert hpost
      generalize postNode S sess n v t2 = o
      obtain ⟨o, t3⟩ := o
      intro hpost
      cases o with
      | error e => exact ⟨hpost.1, .inl hpost.2⟩
      | ok u =>
        refine ⟨hf, ?_⟩
        exact
          { good := hpost.good
            ready := hpost.ready
            alive := hpost.alive
            kill := hpost.kill
            given := by
              intro k' m ver hk' hver
              obtain ⟨w, h1, h2⟩ := hpost.given k' m ver hk' hver
              by_cases hkn : k' = n.name
              · rw [if_pos hkn] at h2
                subst h2
                refine ⟨w, ?_, h1⟩
                rw [hkn]
                obtain ⟨val, a, b, c⟩ := hargs
                exact .call val hk hov hext a b (by rw [← c]; exact hf)
              · rw [if_neg hkn] at h2
                exact ⟨w, h2, h1⟩
            unseen := by
              intro k' m ver hk' h1 h2 hver
              rw [prune_calls]
              simp only [ExecState.store, List.map_append, List.mem_append]
              rcases hpost.unseen k' m ver hk' h1 h2 hver with h | h
              · right; simp [h]
              · exact .inl h }

/-- Versions of the given values. -/
theorem versionGiven_spec (he : env.Lawful) (given : Dict Name V) (hn : given.keys.Nodup) :
    ∀ {t : CacheState M V}, Good env S impl t →
      Good env S impl (versionGiven env given t) ∧ (versionGiven env given t).store = t.store ∧
      (versionGiven env given t).killed = t.killed ∧ (versionGiven env given t).killAfter = t.killAfter ∧
      t.issued ⊆ (versionGiven env given t).issued ∧
      ∀ k, match given.get? k with
        | some v => ∃ ver, (versionGiven env given t).versions.get? k = some ver ∧
            Denotes env (versionGiven env given t).issued ver v
        | none => (versionGiven env given t).versions.get? k = t.versions.get? k := by
  induction given with
  | nil => intro t h; exact ⟨h, rfl, rfl, rfl, fun _ h => h, fun k => rfl⟩
  | cons p l ih =>
    obtain ⟨x, v⟩ := p
    intro t h
    simp only [Dict.keys, List.map_cons, List.nodup_cons] at hn
    obtain ⟨g1, d1, den1⟩ := versionData_spec he h v
    unfold versionGiven
    rw [List.foldl_cons]
    simp only
    obtain ⟨a, b, c, c', d, e⟩ := ih hn.2 (t := { (t.versionData env v).2 with
      versions := (t.versionData env v).2.versions.set x (t.versionData env v).1 }) (g1.congr rfl rfl rfl rfl)
    unfold versionGiven at a b c c' d e
    refine ⟨a, b.trans d1.store, c.trans d1.killed, c'.trans d1.killAfter, fun y hy => d (d1.issued hy), ?_⟩
    intro k
    have ek := e k
    rw [Dict.get?_cons]
    by_cases hxk : x = k
    · subst hxk
      rw [if_pos rfl]
      rw [(Dict.get?_eq_none_iff l x).2 hn.1] at ek
      simp only at ek ⊢
      exact ⟨_, by rw [ek]; exact Dict.get?_set_self _ _ _, den1.mono d⟩
    · rw [if_neg hxk]
      cases hl : Dict.get? l k with
      | some w => rw [hl] at ek; exact ek
      | none =>
        rw [hl] at ek
        simp only at ek ⊢
        rw [ek]
        show ((t.versionData env v).2.versions.set x (t.versionData env v).1).get? k = _
        rw [Dict.get?_set_ne _ _ hxk, d1.versions]

theorem startRun_spec (he : env.Lawful) (hS : S.Lawful Open Ready) (hv : sess.Valid env impl) {t : CacheState M V}
    (hg : Good env S impl t) (ho : Open t.store) :
    match startRun env S sess t with
    | (.ok (), t') => Running env S impl Ready sess ExecState.init t'
    | (.error _, t') => Persisting env S impl Open sess t' ∧ t'.killed = true := by
  unfold startRun
  simp only
  generalize ht0 : ({ t with versions := [], keys := [], executed := [], killAfter := sess.killAfter, killed := false } :
    CacheState M V) = t0
  have h1 : Good env S impl t0 := by subst ht0; exact hg.congr rfl rfl rfl rfl
  have h2 : Open t0.store := by subst ht0; exact ho
  have h3 : t0.versions = [] := by subst ht0; rfl
  have h4 : t0.killAfter = sess.killAfter := by subst ht0; rfl
  have h5 : t0.killed = false := by subst ht0; rfl
  clear ht0
  obtain ⟨ht1, ht2⟩ := tick_spec (t := t0)
  revert ht1 ht2
  generalize t0.tick = tk
  obtain ⟨b, t1⟩ := tk
  intro ht1 ht2
  cases b with
  | true =>
    obtain ⟨rfl, h6⟩ := ht1 rfl
    exact ⟨⟨h1.congr rfl rfl rfl rfl, h2, fun _ => by rw [← h4]; exact h6⟩, rfl⟩
  | false =>
    obtain ⟨ka, rfl, hka⟩ := ht2 rfl
    simp only
    obtain ⟨s1, s2⟩ := hS.start_ok sess.runId h2
    have s3 := @MetaStore.Lawful.start_get _ S Open Ready hS t0.store sess.runId
    revert s1 s2 s3
    generalize S.start t0.store sess.runId = r
    obtain ⟨m, e⟩ := r
    intro s1 s2 s3
    simp only at s1
    subst s1
    simp only
    have hg2 : Good env S impl { t0 with store := m, killAfter := ka } :=
      { issued := h1.issued
        store := fun k ver h => h1.store k ver (s3 h2 h)
        results := h1.results }
    obtain ⟨a1, a2, a3, a4, a5, a6⟩ := versionGiven_spec he sess.rawInputs hv.raw_nodup hg2
    obtain ⟨b1, b2, b3, b4, b5, b6⟩ := versionGiven_spec he sess.overrides hv.override_nodup a1
    exact
      { good := b1
        ready := by rw [b2, a2]; exact s2
        alive := by rw [b3, a3]; exact h5
        kill := by rw [b4, a4]; exact hka.trans (by rw [h4])
        given := by
          intro k n ver hk hver
          have hb := b6 k
          cases hok : sess.overrides.get? k with
          | some v =>
            rw [hok] at hb
            obtain ⟨ver', h1', h2'⟩ := hb
            rw [hver] at h1'; cases h1'
            exact ⟨v, .override hk hok, h2'⟩
          | none =>
            rw [hok] at hb
            simp only at hb
            have ha := a6 k
            cases hrk : sess.rawInputs.get? k with
            | some v =>
              rw [hrk] at ha
              obtain ⟨ver', h1', h2'⟩ := ha
              rw [hver, h1'] at hb; cases hb
              refine ⟨v, .input hk hok ?_ (hv.raw hrk), h2'.mono b5⟩
              by_cases hkind : n.kind = .external
              · exact hkind
              · rw [hv.raw_inputs hk hkind] at hrk; cases hrk
            | none =>
              rw [hrk] at ha
              simp only at ha
              rw [hver, ha] at hb
              rw [h3] at hb; cases hb
        unseen := by
          intro k n ver hk hkind hok hver
          have hb := b6 k
          rw [hok] at hb
          have ha := a6 k
          rw [hv.raw_inputs hk hkind] at ha
          simp only at ha hb
          rw [hver, ha, h3] at hb; cases hb }

/-- A cached session ends in a state that is fine for later sessions; unless it was killed, its outcome is that of the
execution without cache. -/
theorem runSession_spec (he : env.Lawful) (hS : S.Lawful Open Ready) (hu : Unordered impl) (hv : sess.Valid env impl)
    (htorn : sess.torn = false) {t : CacheState M V} (hg : Good env S impl t) (ho : Open t.store) :
    Persisting env S impl Open sess (runSession env S sess t).state.2 ∧
    (sess.killAfter = none → match runSession env S sess t with
      | .ok st => executeSubdag sess.graph sess.nodes sess.inputs sess.overrides = .ok st.1
      | .err e st => executeSubdag sess.graph sess.nodes sess.inputs sess.overrides = .err e st.1) := by
  have hstart := startRun_spec he hS hv hg ho
  unfold runSession
  revert hstart
  generalize startRun env S sess t = o
  obtain ⟨o, t1⟩ := o
  intro hstart
  cases o with
  | error e =>
    obtain ⟨h1, h2⟩ := hstart
    refine ⟨h1, fun hk => ?_⟩
    have := h1.kill h2
    rw [hk] at this; cases this
  | ok u =>
    simp only
    have htr : CallsOk sess (executeSubdag sess.graph sess.nodes sess.inputs sess.overrides).state.calls := by
      have h := executeSubdag_spec hv.wf sess.nodes hv.nodes sess.inputs sess.overrides
      revert h
      generalize executeSubdag sess.graph sess.nodes sess.inputs sess.overrides = r
      cases r with
      | ok s => intro h; exact ⟨h.1.calls_nodup, h.1.calls_ok⟩
      | err e s => intro h; exact ⟨h.1.calls_nodup, h.1.calls_ok⟩
    have hsim := executeWith_matches hv.wf hv.nodes callsOk_prefix (faithful he hS hu hv htorn) hstart htr
    revert hsim
    generalize executeWith sess.graph sess.nodes sess.inputs sess.overrides (runCached env S sess) t1 = r
    intro hsim
    cases r with
    | ok st =>
      obtain ⟨s, t2⟩ := st
      exact ⟨hsim.2.persisting hS, fun _ => hsim.1⟩
    | err e st =>
      obtain ⟨s, t2⟩ := st
      obtain ⟨h1, h2⟩ := hsim
      refine ⟨h1, fun hk => ?_⟩
      rcases h2 with h2 | h2
      · have := h1.kill h2
        rw [hk] at this; cases this
      · exact h2

theorem history_good (he : env.Lawful) (hS : S.Lawful Open Ready) (hu : Unordered impl) {t : CacheState M V}
    (h : History env S Open impl t) : Good env S impl t ∧ Open t.store := by
  induction h with
  | empty h1 h2 h3 h4 =>
    refine ⟨⟨?_, ?_, ?_⟩, h1⟩
    · rw [h4]; exact ⟨by simp, by simp⟩
    · intro k ver h; exact absurd h (h2 k ver)
    · intro d r h; rw [h3] at h; cases h
  | session _ hv ht ih =>
    have := (runSession_spec he hS hu hv ht ih.1 ih.2).1
    exact ⟨this.good, this.isOpen⟩
  | delete _ hd ih =>
    refine ⟨⟨?_, ?_, ?_⟩, hd.isOpen⟩
    · rw [hd.counter, hd.issued]; exact ih.1.issued
    · intro k ver h
      rw [hd.issued]
      exact ih.1.store k ver (hd.store k ver h)
    · intro d r h
      rw [hd.issued]
      exact ih.1.results d r (hd.results d r h)

end
end Verif
