import Verif.Proofs.CachingRun

/-! When everything has the default behaviour and a fingerprint, a second run finds every result in the stores. -/
namespace Verif
variable {T V M : Type}

theorem Faithful.strengthen {σ : Type} {g : Graph T V} {inputs overrides : Dict Name V} {req : List Name} {run : Runner T V σ}
    {P P' : List (Name × Dict Name V) → Prop} {J J' : ExecState V → σ → Prop} {K K' : σ → Prop} {killed : σ → Prop}
    (h : Faithful g inputs overrides req run P J K killed) (hP : ∀ l, P' l → P l) (hkeep : ∀ {s t}, J' s t → K' t)
    (hinput : ∀ {s t k n v}, J' s t → g.get? k = some n → n.kind = .external → inputs.get? k = some v →
      J' (prune g req n.dependencies (s.store k v)) t)
    (hover : ∀ {s t k n v}, J' s t → g.get? k = some n → overrides.get? k = some v → J' (s.store k v) t)
    (hcall : ∀ {s t k n}, J s t → J' s t → g.get? k = some n → n.kind ≠ .external → overrides.get? k = none →
      ∀ kw, P' (s.calls ++ [(k, kw)]) →
      match run n kw t with
      | (.ok v, t') => n.fn kw = .ok v →
        J (prune g req n.dependencies (({ s with calls := s.calls ++ [(k, kw)] } : ExecState V).store k v)) t' →
        J' (prune g req n.dependencies (({ s with calls := s.calls ++ [(k, kw)] } : ExecState V).store k v)) t'
      | (.error _, t') => K t' → K' t') :
    Faithful g inputs overrides req run P' (fun s t => J s t ∧ J' s t) (fun t => K t ∧ K' t) killed where
  keep h1 := ⟨h.keep h1.1, hkeep h1.2⟩
  input h1 h2 h3 h4 := ⟨h.input h1.1 h2 h3 h4, hinput h1.2 h2 h3 h4⟩
  override h1 h2 h3 := ⟨h.override h1.1 h2 h3, hover h1.2 h2 h3⟩
  call := by
    intro s t k n hJ hk hf ho kw hkw hp
    have h1 := h.call hJ.1 hk hf ho kw hkw (hP _ hp)
    have h2 := hcall hJ.1 hJ.2 hk hf ho kw hp
    revert h1 h2
    generalize run n kw t = r
    obtain ⟨r, t'⟩ := r
    cases r with
    | ok v => exact fun h1 h2 => ⟨h1.1, h1.2, h2 h1.1 h1.2⟩
    | error e => exact fun h1 h2 => ⟨⟨h1.1, h2 h1.1⟩, h1.2⟩

section
variable {env : CacheEnv V} {S : MetaStore M} {impl : String → String → Dict Name V → Except UserErr V}
  {Open : M → Prop} {Ready : M → String → Prop} {sess : Session T V}

/-- Every value has a fingerprint. -/
def Hashable (env : CacheEnv V) : Prop := ∀ v, ∃ d, env.hash v = some d

/-- Every version in the metadata store is a fingerprint. -/
def StoreHashed (env : CacheEnv V) (S : MetaStore M) (t : CacheState M V) : Prop :=
  ∀ k ver, S.get t.store (some k) = .ok (some ver) → ∃ v, env.hash v = some ver

/-- Every version in memory is a fingerprint. -/
def VersionsHashed (env : CacheEnv V) (t : CacheState M V) : Prop :=
  ∀ k ver, t.versions.get? k = some ver → ∃ v, env.hash v = some ver

theorem versionData_hashed (ht : Hashable env) (v : V) (t : CacheState M V) :
    ∃ d, env.hash v = some d ∧ t.versionData env v = (d, t) := by
  obtain ⟨d, hd⟩ := ht v
  refine ⟨d, hd, ?_⟩
  unfold CacheState.versionData
  rw [hd]

theorem fresh_drawn (pre : String) (v : V) (t : CacheState M V) : Drawn t (t.fresh env pre v).2 :=
  ⟨rfl, rfl, rfl, rfl, rfl, rfl, rfl, fun _ h => List.mem_cons_of_mem _ h⟩

theorem versionData_drawn (v : V) (t : CacheState M V) : Drawn t (t.versionData env v).2 := by
  unfold CacheState.versionData
  cases h : env.hash v with
  | some d => exact .refl t
  | none => exact fresh_drawn _ v t

theorem depVersions_drawn (kw : Dict Name V) :
    ∀ (acc : Dict Name String) (t : CacheState M V), Drawn t (depVersions env sess kw acc t).2 := by
  induction kw with
  | nil => intro acc t; exact .refl t
  | cons p rest ih =>
    obtain ⟨d, v⟩ := p
    intro acc t
    have h1 : Drawn t (depVersion env sess d v t).2 := by
      unfold depVersion
      split
      · exact .refl t
      · exact .refl t
      · exact fresh_drawn _ v t
      · split
        · exact .refl t
        · exact versionData_drawn v t
    unfold depVersions
    revert h1
    generalize depVersion env sess d v t = r
    obtain ⟨r, t1⟩ := r
    intro h1
    cases r with
    | error e => exact h1
    | ok ver => exact h1.trans (ih _ _)

theorem preNode_frame (n : Node T V) (kw : Dict Name V) (t : CacheState M V) :
    (preNode env sess n kw t).2.store = t.store ∧ (preNode env sess n kw t).2.versions = t.versions ∧
    (preNode env sess n kw t).2.results = t.results := by
  unfold preNode
  split
  · exact ⟨rfl, rfl, rfl⟩
  · exact ⟨rfl, rfl, rfl⟩
  · exact ⟨rfl, rfl, rfl⟩
  · have h1 := depVersions_drawn (env := env) (sess := sess) (resolveDefaults (sess.defaults n.name) kw) [] t
    revert h1
    generalize depVersions env sess (resolveDefaults (sess.defaults n.name) kw) [] t = r
    obtain ⟨r, t1⟩ := r
    intro h1
    cases r with
    | error e => exact ⟨h1.store, h1.versions, h1.results⟩
    | ok deps =>
      simp only
      split <;> exact ⟨h1.store, h1.versions, h1.results⟩

theorem tick_frame (t : CacheState M V) : t.tick.2.store = t.store ∧ t.tick.2.versions = t.versions ∧
    t.tick.2.results = t.results := by
  unfold CacheState.tick
  split <;> exact ⟨rfl, rfl, rfl⟩

theorem setStored_hashed (hS : S.Lawful Open Ready) {name : Name} {key : CKey} {ver : String} {t : CacheState M V}
    (hr : Ready t.store sess.runId) (hver : ∃ v, env.hash v = some ver) (h : StoreHashed env S t) :
    StoreHashed env S (setStored S sess name key ver t).2 ∧ (setStored S sess name key ver t).2.versions = t.versions ∧
    (setStored S sess name key ver t).2.results = t.results := by
  unfold setStored
  split
  · exact ⟨h, rfl, rfl⟩
  · rename_i code _
    obtain ⟨h1, h2, h3⟩ := tick_frame t
    revert h1 h2 h3
    generalize t.tick = r
    obtain ⟨b, t1⟩ := r
    intro h1 h2 h3
    simp only at h1 h2 h3
    cases b with
    | true => exact ⟨by unfold StoreHashed; rw [h1]; exact h, h2, h3⟩
    | false =>
      simp only
      have h4 := @MetaStore.Lawful.set_get _ S Open Ready hS t1.store sess.runId key ver name code
      rw [h1] at h4 ⊢
      revert h4
      generalize S.set t.store key ver sess.runId name code = r
      obtain ⟨m, e⟩ := r
      intro h4
      have hm : StoreHashed env S { t1 with store := m } := by
        intro k' v' hget
        rcases h4 hr hget with h5 | ⟨_, rfl⟩
        · exact h k' v' h5
        · exact hver
      cases e <;> exact ⟨hm, h2, h3⟩

theorem record_hashed (ht : Hashable env) (hS : S.Lawful Open Ready) (hsv : sess.savers = []) {n : Node T V} {kw : Dict Name V}
    {t : CacheState M V} (hr : Ready t.store sess.runId) (h1 : StoreHashed env S t) (h2 : VersionsHashed env t) :
    StoreHashed env S (executeAndRecord env S sess n kw t).2 ∧ VersionsHashed env (executeAndRecord env S sess n kw t).2 := by
  unfold executeAndRecord
  simp only
  cases hf : n.fn kw with
  | error e => exact ⟨h1, h2⟩
  | ok v =>
    simp only
    unfold recordResult
    simp only
    generalize (if sess.loaders.contains n.name = true then (env.tupleHead v).getD v else v) = r
    obtain ⟨d, hd, hvd⟩ := versionData_hashed ht r { t with executed := t.executed ++ [n.name] }
    rw [hvd, hsv]
    simp only [List.contains_nil, Bool.false_eq_true, if_false]
    generalize ht1 : ({ t with executed := t.executed ++ [n.name], versions := t.versions.set n.name d } : CacheState M V) = t1
    have hs1 : t1.store = t.store := by subst ht1; rfl
    have hv1 : VersionsHashed env t1 := by
      subst ht1
      intro k ver hk
      simp only [Dict.get?_set] at hk
      split at hk
      · cases hk; exact ⟨r, hd⟩
      · exact h2 k ver hk
    have h3 := setStored_hashed (env := env) (sess := sess) (name := n.name) (key := t.keys.get? n.name) (ver := d) hS
      (by rw [hs1]; exact hr) ⟨r, hd⟩ (t := t1) (by unfold StoreHashed; rw [hs1]; exact h1)
    revert h3
    generalize setStored S sess n.name (t.keys.get? n.name) d t1 = o
    obtain ⟨o, t2⟩ := o
    intro h3
    have hv2 : VersionsHashed env t2 := by
      unfold VersionsHashed; rw [h3.2.1]; exact hv1
    cases o <;> exact ⟨h3.1, hv2⟩

theorem doNode_hashed (ht : Hashable env) (hS : S.Lawful Open Ready) (hsv : sess.savers = []) {n : Node T V} {kw : Dict Name V}
    {t : CacheState M V} (hr : Ready t.store sess.runId) (h1 : StoreHashed env S t) (h2 : VersionsHashed env t) :
    StoreHashed env S (doNode env S sess n kw t).2 ∧ VersionsHashed env (doNode env S sess n kw t).2 := by
  have hx := record_hashed (n := n) (kw := resolveDefaults (sess.defaults n.name) kw) ht hS hsv hr h1 h2
  unfold doNode
  simp only
  split
  · exact ⟨h1, h2⟩
  · split <;> exact ⟨h1, h2⟩
  · exact hx
  · exact hx
  · cases hg : getDataVersion S n.name (t.keys.get? n.name) t with
    | error e => exact ⟨h1, h2⟩
    | ok o =>
      cases o with
      | none => exact hx
      | some ver =>
        simp only
        split
        · exact hx
        · cases hres : t.results.get? ver with
          | none => exact hx
          | some o =>
            cases o with
            | none => exact ⟨h1, h2⟩
            | some v =>
              refine ⟨h1, ?_⟩
              intro k ver' hk
              simp only [Dict.get?_set] at hk
              split at hk
              · cases hk
                unfold getDataVersion at hg
                split at hg
                · rename_i w hw; cases hg; exact h2 _ _ hw
                · split at hg
                  · cases hg
                  · split at hg
                    · cases hg
                    · rename_i hget; cases hg; exact h1 _ _ hget
              · exact h2 k ver' hk

theorem postNode_frame (n : Node T V) (v : V) (t : CacheState M V) :
    (postNode S sess n v t).2.store = t.store ∧ (postNode S sess n v t).2.versions = t.versions ∧
    ∀ d, t.results.has d = true → (postNode S sess n v t).2.results.has d = true := by
  unfold postNode
  split
  · exact ⟨rfl, rfl, fun _ h => h⟩
  · exact ⟨rfl, rfl, fun _ h => h⟩
  · split
    · exact ⟨rfl, rfl, fun _ h => h⟩
    · exact ⟨rfl, rfl, fun _ h => h⟩
    · rename_i ver _
      split
      · exact ⟨rfl, rfl, fun _ h => h⟩
      · obtain ⟨h1, h2, h3⟩ := tick_frame t
        revert h1 h2 h3
        generalize t.tick = r
        obtain ⟨b, t1⟩ := r
        intro h1 h2 h3
        simp only at h1 h2 h3
        have hset : ∀ (x : Option V) d, t.results.has d = true → (t1.results.set ver x).has d = true := by
          intro x d hd
          rw [h3, Dict.has_eq_true_iff] at *
          obtain ⟨y, hy⟩ := hd
          rw [Dict.get?_set]
          split
          · exact ⟨_, rfl⟩
          · exact ⟨y, hy⟩
        cases b with
        | true =>
          simp only
          split
          · exact ⟨h1, h2, hset none⟩
          · exact ⟨h1, h2, fun d hd => by rw [h3]; exact hd⟩
        | false => exact ⟨h1, h2, hset (some v)⟩

theorem runCached_hashed (ht : Hashable env) (hS : S.Lawful Open Ready) (hsv : sess.savers = []) {n : Node T V} {kw : Dict Name V}
    {t : CacheState M V} (hr : Ready t.store sess.runId) (h1 : StoreHashed env S t) (h2 : VersionsHashed env t) :
    StoreHashed env S (runCached env S sess n kw t).2 ∧ VersionsHashed env (runCached env S sess n kw t).2 := by
  unfold runCached
  obtain ⟨f1, f2, f3⟩ := preNode_frame (env := env) (sess := sess) n kw t
  revert f1 f2 f3
  generalize preNode env sess n kw t = r
  obtain ⟨r, t1⟩ := r
  intro f1 f2 f3
  simp only at f1 f2 f3
  have g1 : StoreHashed env S t1 := by unfold StoreHashed; rw [f1]; exact h1
  have g2 : VersionsHashed env t1 := by unfold VersionsHashed; rw [f2]; exact h2
  cases r with
  | error e => exact ⟨g1, g2⟩
  | ok u =>
    simp only
    have h3 := doNode_hashed (n := n) (kw := kw) ht hS hsv (by rw [f1]; exact hr) g1 g2
    revert h3
    generalize doNode env S sess n kw t1 = r
    obtain ⟨r, t2⟩ := r
    intro h3
    cases r with
    | error e => exact h3
    | ok v =>
      simp only
      obtain ⟨p1, p2, p3⟩ := postNode_frame (S := S) (sess := sess) n v t2
      revert p1 p2 p3
      generalize postNode S sess n v t2 = r
      obtain ⟨r, t3⟩ := r
      intro p1 p2 p3
      simp only at p1 p2 h3
      have q1 : StoreHashed env S t3 := by unfold StoreHashed; rw [p1]; exact h3.1
      have q2 : VersionsHashed env t3 := by unfold VersionsHashed; rw [p2]; exact h3.2
      cases r <;> exact ⟨q1, q2⟩

theorem faithful_hashed (ht : Hashable env) (he : env.Lawful) (hS : S.Lawful Open Ready) (hu : Unordered impl)
    (hv : sess.Valid env impl) (htorn : sess.torn = false) :
    Faithful sess.graph sess.inputs sess.overrides (sess.nodes.map (·.name)) (runCached env S sess) (CallsOk sess)
      (fun s t => Running env S impl Ready sess s t ∧ (StoreHashed env S t ∧ VersionsHashed env t))
      (fun t => Persisting env S impl Open sess t ∧ StoreHashed env S t) (fun t => t.killed = true) := by
  refine (faithful he hS hu hv htorn).strengthen (J' := fun _ t => StoreHashed env S t ∧ VersionsHashed env t)
    (K' := StoreHashed env S) (fun _ h => h) (fun h => h.1) (fun h _ _ _ => h) (fun h _ _ => h) ?_
  intro s t k n hJ hJ' _ _ _ kw _
  have h := runCached_hashed (n := n) (kw := kw) ht hS hv.savers hJ.ready hJ'.1 hJ'.2
  revert h
  generalize runCached env S sess n kw t = r
  obtain ⟨r, t'⟩ := r
  cases r with
  | ok v => exact fun h _ _ => h
  | error e => exact fun h _ => h.1

theorem versionGiven_hashed (ht : Hashable env) (given : Dict Name V) :
    ∀ (t : CacheState M V), VersionsHashed env t →
      VersionsHashed env (versionGiven env given t) ∧ (versionGiven env given t).store = t.store ∧
      (versionGiven env given t).results = t.results ∧ (versionGiven env given t).executed = t.executed := by
  induction given with
  | nil => intro t h; exact ⟨h, rfl, rfl, rfl⟩
  | cons p l ih =>
    intro t h
    obtain ⟨d, hd, hvd⟩ := versionData_hashed ht p.2 t
    have hstep : versionGiven env (p :: l) t = versionGiven env l { t with versions := t.versions.set p.1 d } := by
      unfold versionGiven
      rw [List.foldl_cons, hvd]
    rw [hstep]
    obtain ⟨h1, h2, h3, h4⟩ := ih { t with versions := t.versions.set p.1 d } (by
      intro k ver hk
      simp only [Dict.get?_set] at hk
      split at hk
      · cases hk; exact ⟨_, hd⟩
      · exact h k ver hk)
    exact ⟨h1, h2, h3, h4⟩

theorem startRun_hashed (ht : Hashable env) (hS : S.Lawful Open Ready) {t : CacheState M V} (ho : Open t.store)
    (h : StoreHashed env S t) :
    StoreHashed env S (startRun env S sess t).2 ∧ VersionsHashed env (startRun env S sess t).2 ∧
    (startRun env S sess t).2.results = t.results ∧ (startRun env S sess t).2.executed = [] ∧
    ((startRun env S sess t).1 = .ok () → (startRun env S sess t).2.store = (S.start t.store sess.runId).1) := by
  unfold startRun
  simp only
  generalize ht0 : ({ t with versions := [], keys := [], executed := [], killAfter := sess.killAfter, killed := false } :
    CacheState M V) = t0
  have e1 : t0.store = t.store := by subst ht0; rfl
  have e2 : t0.versions = [] := by subst ht0; rfl
  have e3 : t0.results = t.results := by subst ht0; rfl
  have e4 : t0.executed = [] := by subst ht0; rfl
  clear ht0
  obtain ⟨h1, h2, h3⟩ := tick_frame t0
  have h4 : t0.tick.2.executed = t0.executed := by unfold CacheState.tick; split <;> rfl
  revert h1 h2 h3 h4
  generalize t0.tick = r
  obtain ⟨b, t1⟩ := r
  intro h1 h2 h3 h4
  simp only at h1 h2 h3 h4
  have hn : VersionsHashed env t1 := by
    unfold VersionsHashed; rw [h2, e2]; intro k ver hk; cases hk
  cases b with
  | true =>
    refine ⟨by unfold StoreHashed; rw [h1, e1]; exact h, hn, h3.trans e3, h4.trans e4, fun h => by cases h⟩
  | false =>
    simp only
    have hst := @MetaStore.Lawful.start_get _ S Open Ready hS t1.store sess.runId
    rw [h1, e1] at hst ⊢
    revert hst
    generalize S.start t.store sess.runId = r
    obtain ⟨m, e⟩ := r
    intro hst
    have hm : ∀ k ver, S.get m (some k) = .ok (some ver) → ∃ v, env.hash v = some ver :=
      fun k ver hg => h k ver (hst ho hg)
    cases e with
    | some e => exact ⟨hm, hn, h3.trans e3, h4.trans e4, fun h => by cases h⟩
    | none =>
      simp only
      obtain ⟨a1, a2, a3, a4⟩ := versionGiven_hashed ht sess.rawInputs { t1 with store := m } hn
      obtain ⟨b1, b2, b3, b4⟩ := versionGiven_hashed ht sess.overrides _ a1
      refine ⟨?_, b1, b3.trans (a3.trans (h3.trans e3)), b4.trans (a4.trans (h4.trans e4)), fun _ => b2.trans a2⟩
      unfold StoreHashed
      rw [b2, a2]
      exact hm

/-- The calls of the plain execution are as they should be. -/
theorem plain_callsOk (hv : sess.Valid env impl) :
    CallsOk sess (executeSubdag sess.graph sess.nodes sess.inputs sess.overrides).state.calls := by
  have h := executeSubdag_spec hv.wf sess.nodes hv.nodes sess.inputs sess.overrides
  revert h
  generalize executeSubdag sess.graph sess.nodes sess.inputs sess.overrides = r
  cases r with
  | ok s => intro h; exact ⟨h.1.calls_nodup, h.1.calls_ok⟩
  | err e s => intro h; exact ⟨h.1.calls_nodup, h.1.calls_ok⟩

theorem runSession_hashed (ht : Hashable env) (he : env.Lawful) (hS : S.Lawful Open Ready) (hu : Unordered impl)
    (hv : sess.Valid env impl) (htorn : sess.torn = false) {t : CacheState M V} (hg : Good env S impl t) (ho : Open t.store)
    (hh : StoreHashed env S t) : StoreHashed env S (runSession env S sess t).state.2 := by
  have hstart := startRun_spec he hS hv hg ho
  have hsh := startRun_hashed (sess := sess) ht hS ho hh
  unfold runSession
  revert hstart hsh
  generalize startRun env S sess t = o
  obtain ⟨o, t1⟩ := o
  intro hstart hsh
  cases o with
  | error e => exact hsh.1
  | ok u =>
    simp only
    have hsim := executeWith_matches hv.wf hv.nodes callsOk_prefix (faithful_hashed ht he hS hu hv htorn)
      ⟨hstart, hsh.1, hsh.2.1⟩ (plain_callsOk hv)
    revert hsim
    generalize executeWith sess.graph sess.nodes sess.inputs sess.overrides (runCached env S sess) t1 = r
    intro hsim
    cases r with
    | ok st => obtain ⟨s, t2⟩ := st; exact hsim.2.2.1
    | err e st => obtain ⟨s, t2⟩ := st; exact hsim.1.2

theorem history_hashed (ht : Hashable env) (he : env.Lawful) (hS : S.Lawful Open Ready) (hu : Unordered impl)
    {t : CacheState M V} (h : History env S Open impl t) : StoreHashed env S t := by
  induction h with
  | empty h1 h2 h3 h4 => intro k ver h; exact absurd h (h2 k ver)
  | session h hv htorn ih =>
    obtain ⟨hg, ho⟩ := history_good he hS hu h
    exact runSession_hashed ht he hS hu hv htorn hg ho ih
  | delete _ hd ih => exact fun k ver h => ih k ver (hd.store k ver h)

/-! ### The key of a call is determined by the call -/

/-- The versions of the arguments when all are fingerprints. -/
def hashedDeps (env : CacheEnv V) (rk : Dict Name V) (acc : Dict Name String) : Dict Name String :=
  rk.foldl (fun a p => a.set p.1 ((env.hash p.2).getD "")) acc

/-- The cache key of a call. -/
def callKey (env : CacheEnv V) (sess : Session T V) (c : Name × Dict Name V) : String :=
  createCacheKey env.codec env.alnum c.1 ((sess.allCodes.get? c.1).getD "")
    (hashedDeps env (resolveDefaults (sess.defaults c.1) c.2) [])

theorem depVersions_default (ht : Hashable env) (rk : Dict Name V) :
    ∀ (acc : Dict Name String) (t : CacheState M V), (∀ p ∈ rk, sess.behaviors.get? p.1 = some .default) →
      (∀ p ∈ rk, ∀ ver, t.versions.get? p.1 = some ver → env.hash p.2 = some ver) →
      depVersions env sess rk acc t = (.ok (hashedDeps env rk acc), t) := by
  induction rk with
  | nil => intro acc t _ _; rfl
  | cons p rest ih =>
    obtain ⟨d, v⟩ := p
    intro acc t hb hh
    have h1 : depVersion env sess d v t = (.ok ((env.hash v).getD ""), t) := by
      unfold depVersion
      rw [hb (d, v) (by simp)]
      simp only
      cases hg : t.versions.get? d with
      | some ver => rw [hh (d, v) (by simp) ver hg]; rfl
      | none =>
        simp only
        obtain ⟨e, h1, h2⟩ := versionData_hashed ht v t
        rw [h2, h1]; rfl
    unfold depVersions
    rw [h1]
    simp only
    rw [ih _ _ (fun p hp => hb p (by simp [hp])) (fun p hp => hh p (by simp [hp]))]
    rfl

/-- Every node has the default behaviour. -/
def AllDefault (sess : Session T V) : Prop := ∀ {k n}, sess.graph.get? k = some n → sess.behaviors.get? k = some .default

theorem preNode_default (ht : Hashable env) (he : env.Lawful) (hv : sess.Valid env impl) (hd : AllDefault sess) {s : ExecState V}
    {t : CacheState M V} {n : Node T V} {kw : Dict Name V} {code : String}
    (h : AtNode (env := env) (S := S) (impl := impl) (Ready := Ready) (sess := sess) s t n kw code)
    (hh : VersionsHashed env t) :
    preNode env sess n kw t = (.ok (), { t with keys := t.keys.set n.name (callKey env sess (n.name, kw)) }) := by
  obtain ⟨r1, r2, r3, r4⟩ := resolved_args hv h
  unfold preNode
  rw [hd h.node]
  simp only
  rw [depVersions_default ht]
  · simp only
    rw [h.hasCode]
    simp only [callKey, h.hasCode, Option.getD_some]
  · intro p hp
    obtain ⟨dn, hdn⟩ := hv.wf.deps_in h.node (r2 p hp)
    exact hd hdn
  · intro p hp ver hver
    obtain ⟨v, hvv⟩ := hh _ _ hver
    rw [← (r3 p hp ver hver).unique he h.run.good.issued (.inl hvv)] at hvv
    exact hvv

/-- The result of the call can be found in the stores. -/
def Stored (S : MetaStore M) (t : CacheState M V) (key : String) : Prop :=
  ∃ ver, S.get t.store (some key) = .ok (some ver) ∧ t.results.has ver = true

theorem atNode_of_call (hv : sess.Valid env impl) {s : ExecState V} {t : CacheState M V} {n : Node T V} {kw : Dict Name V}
    (h : Running env S impl Ready sess s t) (hk : sess.graph.get? n.name = some n) (hext : n.kind ≠ .external)
    (hov : sess.overrides.get? n.name = none) (hP : CallsOk sess (s.calls ++ [(n.name, kw)])) :
    ∃ code, AtNode (env := env) (S := S) (impl := impl) (Ready := Ready) (sess := sess) s t n kw code := by
  obtain ⟨hnd, hok⟩ := hP
  obtain ⟨_, _, n', hn', _, hargs⟩ := hok (n.name, kw) (by simp)
  simp only at hn' hargs
  rw [hk] at hn'; cases hn'
  have hfresh : n.name ∉ s.calls.map (·.1) := by
    rw [List.map_append, List.nodup_append] at hnd
    intro hm
    exact hnd.2.2 _ hm _ (by simp) rfl
  obtain ⟨code, hcode, himpl⟩ := hv.codes hk hext
  exact ⟨code, h, hk, hext, hov, hargs, hfresh, himpl, by rw [allCodes_get (hv.raw_inputs hk hext)]; exact hcode⟩

/-- A call whose result is in the stores executes nothing and changes neither store. -/
theorem runCached_hit (ht : Hashable env) (he : env.Lawful) (hv : sess.Valid env impl) (hd : AllDefault sess) {s : ExecState V}
    {t : CacheState M V} {n : Node T V} {kw : Dict Name V} {code : String}
    (h : AtNode (env := env) (S := S) (impl := impl) (Ready := Ready) (sess := sess) s t n kw code)
    (h1 : StoreHashed env S t) (h2 : VersionsHashed env t) (hs : Stored S t (callKey env sess (n.name, kw))) :
    (runCached env S sess n kw t).2.executed = t.executed ∧ (runCached env S sess n kw t).2.store = t.store ∧
    (runCached env S sess n kw t).2.results = t.results := by
  have hno : t.versions.get? n.name = none := by
    cases hc : t.versions.get? n.name with
    | none => rfl
    | some ver => exact absurd (h.run.unseen _ _ _ h.node h.fn h.plain hc) h.fresh
  obtain ⟨ver, hget, hres⟩ := hs
  obtain ⟨w, hw⟩ := h1 _ _ hget
  have hne : ver ≠ "<unhashable>" := by
    rintro rfl
    exact he.hash_plain hw (by decide)
  obtain ⟨r, hr⟩ := (Dict.has_eq_true_iff _ _).1 hres
  obtain ⟨v, rfl, _⟩ := h.run.good.results _ _ hr
  unfold runCached
  rw [preNode_default ht he hv hd h h2]
  simp only
  have hdo : doNode env S sess n kw { t with keys := t.keys.set n.name (callKey env sess (n.name, kw)) } =
      (.ok v, { t with keys := t.keys.set n.name (callKey env sess (n.name, kw)), versions := t.versions.set n.name ver }) := by
    unfold doNode
    simp only
    rw [hd h.node]
    simp only
    have hgv : getDataVersion S n.name (Dict.get? (t.keys.set n.name (callKey env sess (n.name, kw))) n.name)
        { t with keys := t.keys.set n.name (callKey env sess (n.name, kw)) } = .ok (some ver) := by
      unfold getDataVersion
      simp only [hno, Dict.get?_set_self, hget]
    rw [hgv]
    simp only
    rw [if_neg hne, hr]
  rw [hdo]
  simp only
  have hpo : postNode S sess n v { t with keys := t.keys.set n.name (callKey env sess (n.name, kw)), versions := t.versions.set n.name ver } =
      (.ok (), { t with keys := t.keys.set n.name (callKey env sess (n.name, kw)), versions := t.versions.set n.name ver }) := by
    unfold postNode
    rw [hd h.node]
    simp only
    have hgv : getDataVersion S n.name (Dict.get? (t.keys.set n.name (callKey env sess (n.name, kw))) n.name)
        { t with keys := t.keys.set n.name (callKey env sess (n.name, kw)), versions := t.versions.set n.name ver } =
        .ok (some ver) := by
      unfold getDataVersion
      simp only [Dict.get?_set_self]
    rw [hgv]
    simp only
    rw [if_pos hres]
  rw [hpo]
  exact ⟨rfl, rfl, rfl⟩

/-! ### The first run stores everything -/

theorem tick_issued (t : CacheState M V) : t.tick.2.issued = t.issued := by
  unfold CacheState.tick
  split <;> rfl

theorem postNode_issued (n : Node T V) (v : V) (t : CacheState M V) : (postNode S sess n v t).2.issued = t.issued := by
  unfold postNode
  split
  · rfl
  · rfl
  · split
    · rfl
    · rfl
    · split
      · rfl
      · have h1 := tick_issued t
        revert h1
        generalize t.tick = r
        obtain ⟨b, t1⟩ := r
        intro h1
        cases b with
        | true => simp only; split <;> exact h1
        | false => exact h1

theorem record_stores (ht : Hashable env) (hR : S.Retains Open Ready) (hsv : sess.savers = []) {n : Node T V} {kw : Dict Name V}
    {t t' : CacheState M V} {v : V} {key : String} (hr : Ready t.store sess.runId) (hk : t.keys.get? n.name = some key)
    (h : executeAndRecord env S sess n kw t = (.ok v, t')) :
    (∃ ver, S.get t'.store (some key) = .ok (some ver)) ∧ (∃ d, env.hash v = some d ∧ t'.versions.get? n.name = some d) ∧
    t'.results = t.results ∧ t'.issued = t.issued ∧
    ∀ k', k' ≠ key → S.get t'.store (some k') = S.get t.store (some k') := by
  unfold executeAndRecord at h
  simp only at h
  cases hf : n.fn kw with
  | error e => rw [hf] at h; cases h
  | ok w =>
    rw [hf] at h
    simp only at h
    unfold recordResult at h
    simp only at h
    generalize (if sess.loaders.contains n.name = true then (env.tupleHead w).getD w else w) = r at h
    obtain ⟨d, hd, hvd⟩ := versionData_hashed ht r { t with executed := t.executed ++ [n.name] }
    rw [hvd, hsv] at h
    simp only [List.contains_nil, Bool.false_eq_true, if_false] at h
    rw [hk] at h
    unfold setStored at h
    cases hc : sess.allCodes.get? n.name with
    | none => rw [hc] at h; cases h
    | some code =>
      rw [hc] at h
      simp only at h
      obtain ⟨f1, f2, f3⟩ := tick_frame ({ t with executed := t.executed ++ [n.name], versions := t.versions.set n.name d } :
        CacheState M V)
      have f4 := tick_issued ({ t with executed := t.executed ++ [n.name], versions := t.versions.set n.name d } : CacheState M V)
      revert h f1 f2 f3 f4
      generalize ({ t with executed := t.executed ++ [n.name], versions := t.versions.set n.name d } : CacheState M V).tick = q
      obtain ⟨b, t1⟩ := q
      intro h f1 f2 f3 f4
      simp only at f1 f2 f3 f4
      cases b with
      | true => cases h
      | false =>
        simp only at h
        have g1 := hR.set_same (k := key) (v := d) (name := n.name) (code := code) hr
        have g2 := fun k' => @MetaStore.Retains.set_other _ S Open Ready hR t.store sess.runId (some key) d n.name code (some k') hr
        rw [f1] at h
        revert h g1 g2
        generalize S.set t.store (some key) d sess.runId n.name code = q
        obtain ⟨m, e⟩ := q
        intro h g1 g2
        cases e with
        | some e => cases h
        | none =>
          simp only at h
          cases h
          refine ⟨g1, ⟨d, hd, ?_⟩, f3, f4, ?_⟩
          · show t1.versions.get? n.name = some d
            rw [f2]; simp
          · intro k' hne
            exact g2 k' (by simpa using hne)

/-- After a call, its result is in the stores, and nothing was lost. -/
theorem runCached_stores (ht : Hashable env) (he : env.Lawful) (hR : S.Retains Open Ready) (hu : Unordered impl)
    (hv : sess.Valid env impl) (hd : AllDefault sess) {s : ExecState V} {t t' : CacheState M V} {n : Node T V}
    {kw : Dict Name V} {code : String} {v : V}
    (h : AtNode (env := env) (S := S) (impl := impl) (Ready := Ready) (sess := sess) s t n kw code)
    (h2 : VersionsHashed env t) (hrun : runCached env S sess n kw t = (.ok v, t')) (hg' : Good env S impl t')
    (h1' : StoreHashed env S t') (hf : n.fn kw = .ok v) :
    Stored S t' (callKey env sess (n.name, kw)) ∧ ∀ k', Stored S t k' → Stored S t' k' := by
  have hsome : ∀ k', k' ≠ callKey env sess (n.name, kw) → (S.get t'.store (some k') = S.get t.store (some k')) →
      (∀ d, t.results.has d = true → t'.results.has d = true) → Stored S t k' → Stored S t' k' := by
    intro k' _ h1 h2 ⟨ver, a, b⟩
    exact ⟨ver, by rw [h1]; exact a, h2 _ b⟩
  have hno : t.versions.get? n.name = none := by
    cases hc : t.versions.get? n.name with
    | none => rfl
    | some ver => exact absurd (h.run.unseen _ _ _ h.node h.fn h.plain hc) h.fresh
  obtain ⟨t0, e0, hat0, _, _, _, hkey⟩ := preNode_spec he hv h
  rw [preNode_default ht he hv hd h h2] at e0
  cases e0
  obtain ⟨deps, hkd, hnd, hcf, hvo⟩ := (hkey (by rw [hd h.node]; simp)).key
  have hkd : (t.keys.set n.name (callKey env sess (n.name, kw))).get? n.name =
    some (createCacheKey env.codec env.alnum n.name code deps) := hkd
  rw [Dict.get?_set_self] at hkd
  have hkd : callKey env sess (n.name, kw) = createCacheKey env.codec env.alnum n.name code deps := by simpa using hkd
  unfold runCached at hrun
  rw [preNode_default ht he hv hd h h2] at hrun
  simp only at hrun
  generalize ht1 : ({ t with keys := t.keys.set n.name (callKey env sess (n.name, kw)) } : CacheState M V) = t1 at hrun hat0
  have k1 : t1.keys.get? n.name = some (callKey env sess (n.name, kw)) := by subst ht1; simp
  have s1 : t1.store = t.store := by subst ht1; rfl
  have v1 : t1.versions = t.versions := by subst ht1; rfl
  have r1 : t1.results = t.results := by subst ht1; rfl
  have i1 : t1.issued = t.issued := by subst ht1; rfl
  clear ht1
  cases hdo : doNode env S sess n kw t1 with
  | mk o t2 =>
    rw [hdo] at hrun
    cases o with
    | error e => cases hrun
    | ok w =>
      simp only at hrun
      -- what happened in `doNode`
      have hmid : (∃ ver, S.get t2.store (some (callKey env sess (n.name, kw))) = .ok (some ver) ∧
            ((t2.results.has ver = true) ∨ ∃ d, env.hash w = some d ∧ t2.versions.get? n.name = some d)) ∧
          t2.results = t.results ∧ t2.issued = t.issued ∧
          ∀ k', k' ≠ callKey env sess (n.name, kw) → S.get t2.store (some k') = S.get t.store (some k') := by
        have hrec : ∀ kw', executeAndRecord env S sess n kw' t1 = (.ok w, t2) →
            (∃ ver, S.get t2.store (some (callKey env sess (n.name, kw))) = .ok (some ver) ∧
              ((t2.results.has ver = true) ∨ ∃ d, env.hash w = some d ∧ t2.versions.get? n.name = some d)) ∧
            t2.results = t.results ∧ t2.issued = t.issued ∧
            ∀ k', k' ≠ callKey env sess (n.name, kw) → S.get t2.store (some k') = S.get t.store (some k') := by
          intro kw' hx
          obtain ⟨⟨ver, a⟩, b, c, i, d⟩ := record_stores ht hR hv.savers (by rw [s1]; exact h.run.ready) k1 hx
          exact ⟨⟨ver, a, .inr b⟩, by rw [c, r1], by rw [i, i1], fun k' hk' => by rw [d k' hk', s1]⟩
        unfold doNode at hdo
        simp only at hdo
        rw [hd h.node, k1] at hdo
        simp only at hdo
        unfold getDataVersion at hdo
        rw [v1, hno] at hdo
        simp only at hdo
        cases hget : S.get t1.store (some (callKey env sess (n.name, kw))) with
        | error e => rw [hget] at hdo; cases hdo
        | ok o =>
          rw [hget] at hdo
          cases o with
          | none => exact hrec _ hdo
          | some ver =>
            simp only at hdo
            split at hdo
            · exact hrec _ hdo
            · cases hres : t1.results.get? ver with
              | none => rw [hres] at hdo; exact hrec _ hdo
              | some o =>
                rw [hres] at hdo
                cases o with
                | none => cases hdo
                | some x =>
                  cases hdo
                  exact ⟨⟨ver, hget, .inl ((Dict.has_eq_true_iff _ _).2 ⟨_, hres⟩)⟩, r1, i1, fun k' _ => by
                    show S.get t1.store _ = _
                    rw [s1]⟩
      obtain ⟨⟨ver, hver, hor⟩, m2, m4, m3⟩ := hmid
      have p4 := postNode_issued (S := S) (sess := sess) n w t2
      obtain ⟨p1, p2, p3⟩ := postNode_frame (S := S) (sess := sess) n w t2
      have hpost : ∀ d, t2.versions.get? n.name = some d → (postNode S sess n w t2).1 = .ok () →
          (postNode S sess n w t2).2.results.has d = true := by
        intro d hd2 hok
        unfold postNode at hok ⊢
        rw [hd h.node] at hok ⊢
        simp only at hok ⊢
        have hgv : getDataVersion S n.name (t2.keys.get? n.name) t2 = .ok (some d) := by
          unfold getDataVersion; rw [hd2]
        rw [hgv] at hok ⊢
        simp only at hok ⊢
        by_cases hh : t2.results.has d = true
        · rw [if_pos hh]; exact hh
        · rw [if_neg hh] at hok ⊢
          revert hok
          generalize t2.tick = q
          obtain ⟨b, t3⟩ := q
          intro hok
          cases b with
          | true => cases hok
          | false => simp [Dict.has]
      cases hpo : postNode S sess n w t2 with
      | mk o t3 =>
        rw [hpo] at hrun p1 p2 p3 p4 hpost
        cases o with
        | error e => cases hrun
        | ok u =>
          simp only at hrun p1 p2 p3 p4
          cases hrun
          have hsto : Stored S t' (callKey env sess (n.name, kw)) := by
            refine ⟨ver, by rw [p1]; exact hver, ?_⟩
            rcases hor with hor | ⟨d, hd1, hd2⟩
            · exact p3 _ hor
            · have hres := hpost d hd2 rfl
              -- the stored version is the fingerprint of the same value
              have hver' : S.get t'.store (some (createCacheKey env.codec env.alnum n.name code deps)) = .ok (some ver) := by
                rw [p1, ← hkd]; exact hver
              obtain ⟨name', code', deps', kw', v', q1, q2, q3, q4, q5, q6⟩ := hg'.store _ _ hver'
              have hi := C29_injective_partial he.codec he.dash hnd q2 hcf q3 q1
              obtain ⟨x, hx⟩ := h1' _ _ hver'
              obtain ⟨j1, j2, j3⟩ := hi
              have hsame : SameArgs (resolveDefaults (sess.defaults n.name) kw) kw' := by
                refine VersionsOf.sameArgs he hg'.issued ?_ q4 j3
                rw [p4, m4]; exact hvo
              have hvv : v' = v := by
                have : impl (safeName env.alnum n.name) code (resolveDefaults (sess.defaults n.name) kw) = .ok v' := by
                  rw [hu _ _ _ _ hsame, j2]
                  unfold safeName
                  rw [j1]
                  exact q5
                rw [← h.implements, (resolved_args hv h).2.2.2, hf] at this
                cases this; rfl
              subst hvv
              have : x = v' := Denotes.unique he hg'.issued (.inl hx) q6
              subst this
              rw [hd1] at hx
              cases hx
              exact hres
          refine ⟨hsto, fun k' hk' => ?_⟩
          by_cases hkk : k' = callKey env sess (n.name, kw)
          · rw [hkk]; exact hsto
          · exact hsome k' hkk (by rw [p1]; exact m3 k' hkk) (fun d hd => p3 d (by rw [m2]; exact hd)) hk'

theorem Stored.congr {t t' : CacheState M V} {k : String} (h : Stored S t k) (h1 : ∀ k, S.get t'.store k = S.get t.store k)
    (h2 : t'.results = t.results) : Stored S t' k := by
  obtain ⟨ver, a, b⟩ := h
  exact ⟨ver, by rw [h1]; exact a, by rw [h2]; exact b⟩

theorem first_run (ht : Hashable env) (he : env.Lawful) (hS : S.Lawful Open Ready) (hR : S.Retains Open Ready) (hu : Unordered impl)
    (hv : sess.Valid env impl) (hd : AllDefault sess) (htorn : sess.torn = false) {t t1 : CacheState M V} {s1 : ExecState V}
    (hg : Good env S impl t) (ho : Open t.store) (hh : StoreHashed env S t) (h : runSession env S sess t = .ok (s1, t1)) :
    ∀ c ∈ s1.calls, Stored S t1 (callKey env sess c) := by
  have hF := (faithful_hashed ht he hS hu hv htorn).strengthen (P' := CallsOk sess)
    (J' := fun s t => ∀ c ∈ s.calls, Stored S t (callKey env sess c)) (K' := fun _ => True) (fun _ h => h)
    (fun _ => trivial) (fun h _ _ _ => by rw [prune_calls]; exact h) (fun h _ _ => h) (by
      intro s t k n hJ hJ' hk hext hov kw hP
      obtain rfl : n.name = k := hv.wf.name_eq hk
      obtain ⟨code, hat⟩ := atNode_of_call hv hJ.1 hk hext hov hP
      cases hrun : runCached env S sess n kw t with
      | mk o t' =>
        cases o with
        | error e => exact fun _ => trivial
        | ok v =>
          intro hf hJ2
          obtain ⟨h1, h2⟩ := runCached_stores ht he hR hu hv hd hat hJ.2.2 hrun hJ2.1.good hJ2.2.1 hf
          rw [prune_calls]
          intro c hc
          simp only [ExecState.store, List.mem_append, List.mem_singleton] at hc
          rcases hc with hc | rfl
          · exact h2 _ (hJ' c hc)
          · exact h1)
  have hstart := startRun_spec he hS hv hg ho
  have hsh := startRun_hashed (sess := sess) ht hS ho hh
  unfold runSession at h
  revert h hstart hsh
  generalize startRun env S sess t = o
  obtain ⟨o, t0⟩ := o
  intro h hstart hsh
  cases o with
  | error e => cases h
  | ok u =>
    simp only at h
    have hsim := executeWith_matches hv.wf hv.nodes callsOk_prefix hF
      (t := t0) ⟨⟨hstart, hsh.1, hsh.2.1⟩, by simp [ExecState.init]⟩ (plain_callsOk hv)
    rw [h] at hsim
    exact hsim.2.2

/-- `sess` under another run id. -/
theorem valid_runId (hv : sess.Valid env impl) (run : String) : ({ sess with runId := run } : Session T V).Valid env impl :=
  { hv with }

theorem second_run (ht : Hashable env) (he : env.Lawful) (hS : S.Lawful Open Ready) (hR : S.Retains Open Ready) (hu : Unordered impl)
    (hv : sess.Valid env impl) (hd : AllDefault sess) (htorn : sess.torn = false) {t : CacheState M V}
    (hg : Good env S impl t) (ho : Open t.store) (hh : StoreHashed env S t)
    (hall : ∀ c ∈ (executeSubdag sess.graph sess.nodes sess.inputs sess.overrides).state.calls, Stored S t (callKey env sess c))
    {s2 : ExecState V} {t2 : CacheState M V} (h : runSession env S sess t = .ok (s2, t2)) : t2.executed = [] := by
  generalize hpl : (executeSubdag sess.graph sess.nodes sess.inputs sess.overrides).state.calls = calls at hall
  have hF := (faithful_hashed ht he hS hu hv htorn).strengthen (P' := fun l => CallsOk sess l ∧ l <+: calls)
    (J' := fun (_ : ExecState V) (t : CacheState M V) => t.executed = [] ∧ ∀ c ∈ calls, Stored S t (callKey env sess c)) (K' := fun _ => True) (fun _ h => h.1)
    (fun _ => trivial) (fun h _ _ _ => h) (fun h _ _ => h) (by
      intro s t k n hJ hJ' hk hext hov kw hP
      obtain rfl : n.name = k := hv.wf.name_eq hk
      obtain ⟨code, hat⟩ := atNode_of_call hv hJ.1 hk hext hov hP.1
      have hin : (n.name, kw) ∈ calls := hP.2.subset (by simp)
      have hhit := runCached_hit ht he hv hd hat hJ.2.1 hJ.2.2 (hJ'.2 _ hin)
      revert hhit
      generalize runCached env S sess n kw t = r
      obtain ⟨r, t'⟩ := r
      intro hhit
      cases r with
      | error e => exact fun _ => trivial
      | ok v =>
        intro _ _
        exact ⟨hhit.1.trans hJ'.1, fun c hc => (hJ'.2 c hc).congr (fun k => by rw [hhit.2.1]) hhit.2.2⟩)
  have hstart := startRun_spec he hS hv hg ho
  have hsh := startRun_hashed (sess := sess) ht hS ho hh
  unfold runSession at h
  revert h hstart hsh
  generalize startRun env S sess t = o
  obtain ⟨o, t0⟩ := o
  intro h hstart hsh
  cases o with
  | error e => cases h
  | ok u =>
    simp only at h
    simp only at hsh
    have hsim := executeWith_matches hv.wf hv.nodes
      (P := fun l => CallsOk sess l ∧ l <+: calls)
      (fun l l' hp hl => ⟨callsOk_prefix l l' hp hl.1, hp.trans hl.2⟩) hF
      (t := t0) ⟨⟨hstart, hsh.1, hsh.2.1⟩, hsh.2.2.2.1, fun c hc => (hall c hc).congr (fun k => by
        rw [hsh.2.2.2.2 trivial]; exact hR.start_same ho) hsh.2.2.1⟩ (by rw [hpl]; exact ⟨hpl ▸ plain_callsOk hv, List.prefix_rfl⟩)
    rw [h] at hsim
    exact hsim.2.2.1

/-- The plain run in terms of the first cached one. -/
theorem rerun (ht : Hashable env) (he : env.Lawful) (hS : S.Lawful Open Ready) (hR : S.Retains Open Ready) (hu : Unordered impl)
    (hv : sess.Valid env impl) (hd : AllDefault sess) (htorn : sess.torn = false) (hk : sess.killAfter = none)
    {t t1 : CacheState M V} {s1 : ExecState V} (hg : Good env S impl t) (ho : Open t.store) (hh : StoreHashed env S t)
    (h : runSession env S sess t = .ok (s1, t1)) (run : String) :
    ∃ t2, runSession env S { sess with runId := run } t1 = .ok (s1, t2) ∧ t2.executed = [] := by
  have h1 := runSession_spec he hS hu hv htorn hg ho
  have hh1 := runSession_hashed ht he hS hu hv htorn hg ho hh
  have hst := first_run ht he hS hR hu hv hd htorn hg ho hh h
  rw [h] at h1 hh1
  have hpl := h1.2 hk
  simp only at hpl
  have hv' := valid_runId hv run
  have h2 := (runSession_spec (sess := { sess with runId := run }) (t := t1) he hS hu hv' htorn h1.1.good h1.1.isOpen).2 hk
  simp only at h2
  rw [hpl] at h2
  cases hrun : runSession env S { sess with runId := run } t1 with
  | err e st => rw [hrun] at h2; cases h2
  | ok st =>
    obtain ⟨s2, t2⟩ := st
    rw [hrun] at h2
    cases h2
    refine ⟨t2, rfl, ?_⟩
    exact second_run (sess := { sess with runId := run }) ht he hS hR hu hv' hd htorn h1.1.good h1.1.isOpen hh1
      (by show ∀ c ∈ (executeSubdag sess.graph sess.nodes sess.inputs sess.overrides).state.calls, _
          rw [hpl]; exact hst) hrun

end
end Verif
