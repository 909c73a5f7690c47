import Verif.Proofs.CachingHit
import Verif.Proofs.LifecycleInv
import Verif.Props.CachingSample

/-! Properties of cached executions: C25, C26, C31, C32, C33, C51. -/
namespace Verif
variable {T V M : Type}

/-! ### The two metadata stores satisfy what is assumed of a store -/

theorem memStore_lawful : memStore.Lawful (fun _ => True) (fun m run => m.keysByRun.has run = true) where
  open_of_ready _ := trivial
  get_ok k _ := ⟨_, rfl⟩
  start_ok run _ := ⟨rfl, by simp [memStore, MemMeta.initialize, Dict.has]⟩
  start_get _ h := h
  set_ok {m run} k v name code h := by
    simp only [memStore, MemMeta.set]
    obtain ⟨l, hl⟩ := (Dict.has_eq_true_iff _ _).1 h
    rw [hl]
    exact ⟨rfl, by simp [Dict.has]⟩
  set_get {m run k v name code k' v'} h hget := by
    simp only [memStore, MemMeta.set, MemMeta.get] at hget ⊢
    obtain ⟨l, hl⟩ := (Dict.has_eq_true_iff _ _).1 h
    rw [hl] at hget
    simp only [Dict.get?_set] at hget
    by_cases hk : k = k'
    · rw [if_pos hk] at hget; cases hget; exact .inr ⟨hk.symm, rfl⟩
    · rw [if_neg hk] at hget; exact .inl hget

theorem sqlStore_lawful (Z : Codec) : (sqlStore Z).Lawful (fun m => m.tables = true) (fun m _ => m.tables = true) where
  open_of_ready h := h
  get_ok {m} k h := ⟨(m.find k).map (·.version), by simp only [sqlStore, SqlMeta.get, h, if_true]⟩
  start_ok run h := by simp [sqlStore, SqlMeta.initialize, h]
  start_get {m run k v} ho h := by
    simp only [sqlStore, SqlMeta.initialize, ho, if_true, SqlMeta.get, SqlMeta.find] at h ⊢
    exact h
  set_ok {m run} k v name code h := by
    simp only [sqlStore, SqlMeta.set, h, if_true, true_and]
    unfold SqlMeta.insertOrIgnore
    split <;> simp [h]
  set_get {m run k v name code k' v'} h hget := by
    simp only [sqlStore] at hget ⊢
    have hset : (m.set Z k v run (some name) (some code)).1 =
        ({ m with history := m.history ++ [(k, run)] } : SqlMeta).insertOrIgnore ⟨k, v, name, code⟩ := by
      unfold SqlMeta.set
      simp only
      rw [if_pos h]
    rw [hset] at hget
    have ht : ∀ r, ({ m with history := m.history ++ [(k, run)] } : SqlMeta).insertOrIgnore r =
        (if (m.find r.key).isSome then { m with history := m.history ++ [(k, run)] }
         else { m with history := m.history ++ [(k, run)], entries := m.entries ++ [r] }) := fun _ => rfl
    rw [ht] at hget
    split at hget
    · left
      simp only [SqlMeta.get, h, if_true] at hget ⊢
      exact hget
    · simp only [SqlMeta.get, h, if_true] at hget ⊢
      cases k' with
      | none => simp [SqlMeta.find] at hget
      | some x =>
        simp only [SqlMeta.find, List.find?_append] at hget ⊢
        cases hf : List.find? (fun r => decide (r.key = some x)) m.entries with
        | some r => rw [hf] at hget; left; simpa using hget
        | none =>
          rw [hf] at hget
          right
          simp only [Option.none_or, List.find?_cons, List.find?_nil] at hget
          by_cases hkx : k = some x
          · simp [hkx] at hget; exact ⟨hkx.symm, hget.symm⟩
          · simp [hkx] at hget

/-! ### C25 and C26 -/

/-- C25: after any history of cached executions, of any graphs and with any changes of code, inputs, config and overrides in
between, a cached execution has exactly the outcome of the execution without cache: same values, or same exception. For every
metadata store that satisfies `MetaStore.Lawful`; see `memStore_lawful`, `sqlStore_lawful`.
Missing are the sessions excluded by `Session.Valid`; three of these exclusions are necessary, see the `C25_violated` theorems.
-/
theorem C25_transparent_partial {env : CacheEnv V} (he : env.Lawful) {S : MetaStore M} {Open : M → Prop}
    {Ready : M → String → Prop} (hS : S.Lawful Open Ready) {impl : String → String → Dict Name V → Except UserErr V}
    (hu : Unordered impl) {t : CacheState M V} (h : History env S Open impl t) {sess : Session T V} (hv : sess.Valid env impl)
    (hk : sess.killAfter = none) (htorn : sess.torn = false) :
    SameOutcome (runSession env S sess t) sess.plain := by
  obtain ⟨hg, ho⟩ := history_good he hS hu h
  have h1 := (runSession_spec he hS hu hv htorn hg ho).2 hk
  revert h1
  unfold Session.plain
  generalize runSession env S sess t = o
  intro h1
  cases o with
  | ok st => simp only at h1; rw [h1]; exact .ok
  | err e st => simp only at h1; rw [h1]; exact .err

/-- C26: when an execution was killed at any point between two operations on the stores, later executions still have the outcome
of the execution without cache. Missing: the sessions excluded by `Session.Valid`, as for C25. -/
theorem C26_crash_partial {T' : Type} {env : CacheEnv V} (he : env.Lawful) {S : MetaStore M} {Open : M → Prop}
    {Ready : M → String → Prop} (hS : S.Lawful Open Ready) {impl : String → String → Dict Name V → Except UserErr V}
    (hu : Unordered impl) {t : CacheState M V} (h : History env S Open impl t) {killed : Session T' V}
    (hkt : killed.torn = false) (hkv : killed.Valid env impl) (point : Nat) {sess : Session T V}
    (hv : sess.Valid env impl) (hk : sess.killAfter = none) (htorn : sess.torn = false) :
    SameOutcome (runSession env S sess (runSession env S { killed with killAfter := some point } t).state.2)
      sess.plain :=
  C25_transparent_partial he hS hu (History.session (sess := { killed with killAfter := some point }) h
    { hkv with } hkt) hv hk htorn

/-! ### C52 -/

theorem memStore_retains : memStore.Retains (fun _ => True) (fun m run => m.keysByRun.has run = true) where
  start_same _ := rfl
  set_same {m run k v name code} h := by
    obtain ⟨l, hl⟩ := (Dict.has_eq_true_iff _ _).1 h
    refine ⟨v, ?_⟩
    simp only [memStore, MemMeta.set, MemMeta.get]
    rw [hl]
    simp
  set_other {m run k v name code k'} h hne := by
    obtain ⟨l, hl⟩ := (Dict.has_eq_true_iff _ _).1 h
    simp only [memStore, MemMeta.set, MemMeta.get]
    rw [hl]
    simp only
    rw [Dict.get?_set_ne _ _ (fun e => hne e.symm)]

theorem SqlMeta.set_eq (Z : Codec) (m : SqlMeta) (k : CKey) (v run name code : String) (h : m.tables = true) :
    (m.set Z k v run (some name) (some code)).1 =
      ({ m with history := m.history ++ [(k, run)] } : SqlMeta).insertOrIgnore ⟨k, v, name, code⟩ := by
  unfold SqlMeta.set
  simp only
  rw [if_pos h]

theorem sqlStore_retains (Z : Codec) : (sqlStore Z).Retains (fun m => m.tables = true) (fun m _ => m.tables = true) where
  start_same {m run k} h := by
    simp only [sqlStore, SqlMeta.initialize, h, if_true, SqlMeta.get, SqlMeta.find]
  set_same {m run k v name code} h := by
    simp only [sqlStore, SqlMeta.set_eq Z m (some k) v run name code h, SqlMeta.insertOrIgnore]
    split
    · rename_i hs
      obtain ⟨r, hr⟩ := Option.isSome_iff_exists.1 hs
      refine ⟨r.version, ?_⟩
      unfold SqlMeta.get
      rw [if_pos h, hr]; rfl
    · rename_i hs
      refine ⟨v, ?_⟩
      simp only [SqlMeta.get, h, if_true]
      simp only [SqlMeta.find, Bool.not_eq_true, Option.isSome_eq_false_iff, Option.isNone_iff_eq_none] at hs ⊢
      rw [List.find?_append, hs]
      simp
  set_other {m run k v name code k'} h hne := by
    simp only [sqlStore, SqlMeta.set_eq Z m k v run name code h, SqlMeta.insertOrIgnore]
    split
    · simp only [SqlMeta.get, SqlMeta.find]
    · simp only [SqlMeta.get, SqlMeta.find]
      cases k' with
      | none => rfl
      | some x =>
        simp only [List.find?_append]
        cases List.find? (fun r => decide (r.key = some x)) m.entries with
        | some r => rfl
        | none =>
          have : ¬ k = some x := fun e => hne e.symm
          simp [this]

/-- C52: after any history, when a cached execution in which every node has the default behaviour succeeds, executing the same
thing again executes no function and returns the same values. Missing: the sessions excluded by `Session.Valid`, as for C25. -/
theorem C52_rerun_partial {env : CacheEnv V} (he : env.Lawful) (ht : ∀ v, ∃ d, env.hash v = some d) {S : MetaStore M}
    {Open : M → Prop} {Ready : M → String → Prop} (hS : S.Lawful Open Ready) (hR : S.Retains Open Ready)
    {impl : String → String → Dict Name V → Except UserErr V} (hu : Unordered impl) {t : CacheState M V}
    (h : History env S Open impl t) {sess : Session T V} (hv : sess.Valid env impl) (hk : sess.killAfter = none)
    (htorn : sess.torn = false) (hd : ∀ {k n}, sess.graph.get? k = some n → sess.behaviors.get? k = some .default)
    {s1 : ExecState V} {t1 : CacheState M V} (hrun : runSession env S sess t = .ok (s1, t1)) (run : String) :
    ∃ t2, runSession env S { sess with runId := run } t1 = .ok (s1, t2) ∧ t2.executed = [] := by
  obtain ⟨hg, ho⟩ := history_good he hS hu h
  exact rerun ht he hS hR hu hv hd htorn hk hg ho (history_hashed ht he hS hu h) hrun run

/-! ### C31 and C32: behaviours -/

/-- The name is never removed from the record of executed functions. -/
theorem versionData_executed (env : CacheEnv V) (v : V) (t : CacheState M V) : (t.versionData env v).2.executed = t.executed := by
  unfold CacheState.versionData
  split <;> rfl

theorem depVersions_executed (env : CacheEnv V) (sess : Session T V) (kw : Dict Name V) :
    ∀ (acc : Dict Name String) (t : CacheState M V), (depVersions env sess kw acc t).2.executed = t.executed := by
  induction kw with
  | nil => intro acc t; rfl
  | cons p rest ih =>
    obtain ⟨d, v⟩ := p
    intro acc t
    have h1 : (depVersion env sess d v t).2.executed = t.executed := by
      unfold depVersion
      split
      · rfl
      · rfl
      · rfl
      · split
        · rfl
        · exact versionData_executed env v t
    unfold depVersions
    revert h1
    generalize depVersion env sess d v t = r
    obtain ⟨r, t1⟩ := r
    intro h1
    cases r with
    | error e => exact h1
    | ok ver => exact (ih _ _).trans h1

theorem tick_executed (t : CacheState M V) : t.tick.2.executed = t.executed := by
  unfold CacheState.tick
  split <;> rfl

theorem preNode_executed (env : CacheEnv V) (sess : Session T V) (n : Node T V) (kw : Dict Name V) (t : CacheState M V) :
    (preNode env sess n kw t).2.executed = t.executed := by
  unfold preNode
  split
  · rfl
  · rfl
  · rfl
  · have h1 := depVersions_executed env sess (resolveDefaults (sess.defaults n.name) kw) [] t
    revert h1
    generalize depVersions env sess (resolveDefaults (sess.defaults n.name) kw) [] t = r
    obtain ⟨r, t1⟩ := r
    intro h1
    cases r with
    | error e => exact h1
    | ok deps =>
      simp only
      split
      · exact h1
      · exact h1

theorem setStored_executed (S : MetaStore M) (sess : Session T V) (name : Name) (key : CKey) (ver : String)
    (t : CacheState M V) : (setStored S sess name key ver t).2.executed = t.executed := by
  unfold setStored
  split
  · rfl
  · have h1 := tick_executed t
    revert h1
    generalize t.tick = r
    obtain ⟨b, t1⟩ := r
    intro h1
    cases b with
    | true => exact h1
    | false =>
      simp only
      split
      · exact h1
      · exact h1

theorem executeAndRecord_executed (env : CacheEnv V) (S : MetaStore M) (sess : Session T V) (n : Node T V) (kw : Dict Name V)
    (t : CacheState M V) : (executeAndRecord env S sess n kw t).2.executed = t.executed ++ [n.name] := by
  unfold executeAndRecord
  simp only
  cases n.fn kw with
  | error e => rfl
  | ok v =>
    unfold recordResult
    simp only
    generalize hr : (if sess.loaders.contains n.name = true then (env.tupleHead v).getD v else v) = r
    have h1 := versionData_executed env r { t with executed := t.executed ++ [n.name] }
    revert h1
    generalize ({ t with executed := t.executed ++ [n.name] } : CacheState M V).versionData env r = p
    obtain ⟨ver, t1⟩ := p
    intro h1
    simp only at h1 ⊢
    generalize (if sess.savers.contains n.name = true then n.name ++ "__metadata" else ver) = ver'
    have h2 := setStored_executed S sess n.name (t1.keys.get? n.name) ver' { t1 with versions := t1.versions.set n.name ver' }
    revert h2
    generalize setStored S sess n.name (t1.keys.get? n.name) ver' { t1 with versions := t1.versions.set n.name ver' } = o
    obtain ⟨o, t2⟩ := o
    intro h2
    cases o with
    | error e => exact h2.trans h1
    | ok u => exact h2.trans h1

theorem doNode_executed (env : CacheEnv V) (S : MetaStore M) (sess : Session T V) (n : Node T V) (kw : Dict Name V)
    (t : CacheState M V) : (doNode env S sess n kw t).2.executed = t.executed ∨
      (doNode env S sess n kw t).2.executed = t.executed ++ [n.name] := by
  have hx := executeAndRecord_executed env S sess n (resolveDefaults (sess.defaults n.name) kw) t
  unfold doNode
  simp only
  split
  · exact .inl rfl
  · right; split <;> rfl
  · exact .inr hx
  · exact .inr hx
  · split
    · exact .inl rfl
    · exact .inr hx
    · split
      · exact .inr hx
      · split
        · exact .inr hx
        · exact .inl rfl
        · exact .inl rfl

theorem doNode_always (env : CacheEnv V) (S : MetaStore M) (sess : Session T V) (n : Node T V) (kw : Dict Name V)
    (t : CacheState M V) {b : Behavior} (hb : sess.behaviors.get? n.name = some b) (hd : b ≠ .default) :
    (doNode env S sess n kw t).2.executed = t.executed ++ [n.name] := by
  have hx := executeAndRecord_executed env S sess n (resolveDefaults (sess.defaults n.name) kw) t
  unfold doNode
  simp only
  rw [hb]
  cases b with
  | default => exact absurd rfl hd
  | disable => simp only; split <;> rfl
  | recompute => exact hx
  | ignore => exact hx

theorem postNode_executed (S : MetaStore M) (sess : Session T V) (n : Node T V) (v : V) (t : CacheState M V) :
    (postNode S sess n v t).2.executed = t.executed := by
  unfold postNode
  split
  · rfl
  · rfl
  · split
    · rfl
    · rfl
    · split
      · rfl
      · have h1 := tick_executed t
        revert h1
        generalize t.tick = r
        obtain ⟨b, t1⟩ := r
        intro h1
        cases b with
        | true => simp only; split <;> exact h1
        | false => exact h1

theorem runCached_executed (env : CacheEnv V) (S : MetaStore M) (sess : Session T V) (n : Node T V) (kw : Dict Name V)
    (t : CacheState M V) :
    (∀ k ∈ t.executed, k ∈ (runCached env S sess n kw t).2.executed) ∧
    (∀ b v, sess.behaviors.get? n.name = some b → b ≠ .default → (runCached env S sess n kw t).1 = .ok v →
      n.name ∈ (runCached env S sess n kw t).2.executed) := by
  unfold runCached
  have h1 := preNode_executed env sess n kw t
  revert h1
  generalize preNode env sess n kw t = r
  obtain ⟨r, t1⟩ := r
  intro h1
  simp only at h1
  cases r with
  | error e => exact ⟨fun k hk => by simpa [h1] using hk, fun b v _ _ h => by cases h⟩
  | ok u =>
    simp only
    have h2 := doNode_executed env S sess n kw t1
    have h3 := fun b => doNode_always env S sess n kw t1 (b := b)
    revert h2 h3
    generalize doNode env S sess n kw t1 = r
    obtain ⟨r, t2⟩ := r
    intro h2 h3
    simp only at h2 h3
    have hsub : ∀ k ∈ t.executed, k ∈ t2.executed := by
      intro k hk
      rw [← h1] at hk
      rcases h2 with h2 | h2 <;> rw [h2]
      · exact hk
      · exact List.mem_append_left _ hk
    cases r with
    | error e => exact ⟨hsub, fun b v _ _ h => by cases h⟩
    | ok v =>
      simp only
      have h4 := postNode_executed S sess n v t2
      revert h4
      generalize postNode S sess n v t2 = r
      obtain ⟨r, t3⟩ := r
      intro h4
      simp only at h4
      cases r with
      | error e => exact ⟨by rw [h4]; exact hsub, fun b v _ _ h => by cases h⟩
      | ok u =>
        refine ⟨by rw [h4]; exact hsub, fun b v hb hd _ => ?_⟩
        show n.name ∈ t3.executed
        rw [h4, h3 b hb hd]; simp

/-- Every function with a behaviour other than default is executed in every successful run that needs it. -/
theorem always_executed {env : CacheEnv V} {S : MetaStore M} {sess : Session T V} (hw : WellFormed sess.graph)
    (hnodes : ∀ n ∈ sess.nodes, sess.graph.get? n.name = some n) {t t' : CacheState M V} {s' : ExecState V}
    (h : runSession env S sess t = .ok (s', t')) {k : Name} {n : Node T V} (hk : sess.graph.get? k = some n)
    (hf : n.kind ≠ .external) (ho : sess.overrides.get? k = none)
    (hneed : Needed sess.graph sess.overrides (sess.nodes.map (·.name)) k) {b : Behavior}
    (hb : sess.behaviors.get? k = some b) (hd : b ≠ .default) : k ∈ t'.executed := by
  unfold runSession at h
  cases hs : startRun env S sess t with
  | mk o t1 =>
    rw [hs] at h
    cases o with
    | error e => cases h
    | ok u =>
      simp only at h
      have hcall := executeWith_calls hw hnodes h hk hf ho hneed
      have hinv := executeWith_preserved (g := sess.graph) (inputs := sess.inputs) (overrides := sess.overrides)
        (run := runCached env S sess) (K := fun _ _ _ => True)
        (J := fun s t => ∀ x ∈ s.calls.map Prod.fst, ∀ b, sess.behaviors.get? x = some b → b ≠ .default → x ∈ t.executed)
        hw hnodes
        { keep := fun _ _ _ => trivial
          input := by
            intro s t k n v hJ _ _ _
            rw [(prune_spec _ _ _ _).1]; exact hJ
          override := fun hJ _ _ => hJ
          call := by
            intro s t k n hJ hk _ _ kw hkw
            obtain rfl : n.name = k := hw.name_eq hk
            have hr := runCached_executed env S sess n kw t
            revert hr
            generalize runCached env S sess n kw t = r
            obtain ⟨r, t2⟩ := r
            intro hr
            cases r with
            | error e => trivial
            | ok v =>
              simp only at hr ⊢
              rw [(prune_spec _ _ _ _).1]
              intro x hx b hb hd
              simp only [ExecState.store, List.map_append, List.map_cons, List.map_nil, List.mem_append, List.mem_singleton] at hx
              rcases hx with hx | rfl
              · exact hr.1 _ (hJ x hx b hb hd)
              · exact hr.2 b v hb hd rfl }
        (t := t1) (by simp [ExecState.init])
      rw [h] at hinv
      exact hinv k hcall b hb hd

/-- C32, first part: a function with behaviour "recompute" or "disable" is executed in every successful run that needs it,
whatever the stores contain and for every combination of behaviours of the other nodes. -/
theorem C32_always_executed {env : CacheEnv V} {S : MetaStore M} {sess : Session T V} (hw : WellFormed sess.graph)
    (hnodes : ∀ n ∈ sess.nodes, sess.graph.get? n.name = some n) {t t' : CacheState M V} {s' : ExecState V}
    (h : runSession env S sess t = .ok (s', t')) {k : Name} {n : Node T V} (hk : sess.graph.get? k = some n)
    (hf : n.kind ≠ .external) (ho : sess.overrides.get? k = none)
    (hneed : Needed sess.graph sess.overrides (sess.nodes.map (·.name)) k)
    (hb : sess.behaviors.get? k = some .recompute ∨ sess.behaviors.get? k = some .disable) : k ∈ t'.executed := by
  rcases hb with hb | hb
  · exact always_executed hw hnodes h hk hf ho hneed hb (by simp)
  · exact always_executed hw hnodes h hk hf ho hneed hb (by simp)

/-- C32, second part: handling a node with behaviour "disable" leaves both stores as they are, and its outcome is that of the
function, whatever is in the stores. -/
theorem C32_disable_no_store {env : CacheEnv V} {S : MetaStore M} {sess : Session T V} {n : Node T V} (kw : Dict Name V)
    (hb : sess.behaviors.get? n.name = some .disable) (t : CacheState M V) :
    (runCached env S sess n kw t).2.store = t.store ∧ (runCached env S sess n kw t).2.results = t.results ∧
    (runCached env S sess n kw t).1 = n.fn (resolveDefaults (sess.defaults n.name) kw) := by
  have hpre : preNode env sess n kw t = (.ok (), t) := by unfold preNode; rw [hb]
  unfold runCached
  rw [hpre]
  simp only
  unfold doNode
  simp only
  rw [hb]
  simp only
  cases hf : n.fn (resolveDefaults (sess.defaults n.name) kw) with
  | error e => exact ⟨rfl, rfl, rfl⟩
  | ok v =>
    simp only
    unfold postNode
    rw [hb]
    exact ⟨rfl, rfl, rfl⟩

/-- C31, the part that holds: a function with behaviour "ignore" is executed in every successful run that needs it, whatever the
stores contain. Missing: nothing is stored or versioned, which is false, see `C31_violated`. -/
theorem C31_always_executed_partial {env : CacheEnv V} {S : MetaStore M} {sess : Session T V} (hw : WellFormed sess.graph)
    (hnodes : ∀ n ∈ sess.nodes, sess.graph.get? n.name = some n) {t t' : CacheState M V} {s' : ExecState V}
    (h : runSession env S sess t = .ok (s', t')) {k : Name} {n : Node T V} (hk : sess.graph.get? k = some n)
    (hf : n.kind ≠ .external) (ho : sess.overrides.get? k = none)
    (hneed : Needed sess.graph sess.overrides (sess.nodes.map (·.name)) k)
    (hb : sess.behaviors.get? k = some .ignore) : k ∈ t'.executed :=
  always_executed hw hnodes h hk hf ho hneed hb (by simp)

/-! ### C33: data savers -/

/-- C33, the part that holds: when the save is performed, its own metadata is returned (unless the process is killed or the
metadata store fails). Missing: when the metadata comes from the cache, see `C33_violated`. -/
theorem C33_performed_partial {env : CacheEnv V} {S : MetaStore M} {sess : Session T V} {n : Node T V} {kw : Dict Name V}
    {t t' : CacheState M V} {v : V} (h : runCached env S sess n kw t = (.ok v, t'))
    (hx : t'.executed = t.executed ++ [n.name]) (hl : n.name ∉ sess.loaders) :
    n.fn (resolveDefaults (sess.defaults n.name) kw) = .ok v := by
  have hrec : ∀ t1 t2 : CacheState M V, executeAndRecord env S sess n (resolveDefaults (sess.defaults n.name) kw) t1 = (.ok v, t2) →
      n.fn (resolveDefaults (sess.defaults n.name) kw) = .ok v := by
    intro t1 t2 he
    unfold executeAndRecord at he
    simp only at he
    cases hf : n.fn (resolveDefaults (sess.defaults n.name) kw) with
    | error e => rw [hf] at he; cases he
    | ok w =>
      rw [hf] at he
      simp only at he
      unfold recordResult at he
      simp only at he
      have hlf : sess.loaders.contains n.name = false := by simpa using hl
      rw [hlf] at he
      simp only [Bool.false_eq_true, if_false] at he
      split at he
      · cases he
      · cases he; rfl
  unfold runCached at h
  have h1 := preNode_executed env sess n kw t
  cases hp : preNode env sess n kw t with
  | mk o t1 =>
    rw [hp] at h h1
    simp only at h1
    cases o with
    | error e => cases h
    | ok u =>
      simp only at h
      cases hd : doNode env S sess n kw t1 with
      | mk o t2 =>
        rw [hd] at h
        cases o with
        | error e => cases h
        | ok w =>
          simp only at h
          have h4 := postNode_executed S sess n w t2
          cases hq : postNode S sess n w t2 with
          | mk o t3 =>
            rw [hq] at h h4
            cases o with
            | error e => cases h
            | ok u =>
              simp only at h h4
              cases h
              have hx2 : t2.executed ≠ t1.executed := by
                rw [← h4, h1, hx]; simp
              unfold doNode at hd
              simp only at hd
              split at hd
              · cases hd
              · cases hf : n.fn (resolveDefaults (sess.defaults n.name) kw) with
                | error e => rw [hf] at hd; cases hd
                | ok w => rw [hf] at hd; cases hd; rfl
              · exact hrec _ _ hd
              · exact hrec _ _ hd
              · split at hd
                · cases hd
                · exact hrec _ _ hd
                · split at hd
                  · exact hrec _ _ hd
                  · split at hd
                    · exact hrec _ _ hd
                    · cases hd
                    · cases hd; exact absurd rfl hx2

/-! ### Concrete runs -/

namespace CacheSample
open Sample

/-- Every node has the default behaviour. -/
def allDefault : Name → Behavior := fun _ => .default

theorem allDefault_ne (k : Name) : allDefault k ≠ .ignore := by simp [allDefault]

/-- The value of a node after a cached run. -/
def valueOf (k : Name) : Out (ExecState V × CacheState M V) ExecErr → Option V
  | .ok st => st.1.computed.get? k
  | .err _ _ => none

/-- The value of a node after a run without cache. -/
def plainValueOf (k : Name) : Out (ExecState V) ExecErr → Option V
  | .ok st => st.computed.get? k
  | .err _ _ => none

theorem empty_mem : History env memStore (fun _ => True) impl emptyMem :=
  .empty trivial (by intro k v h; cases h) rfl rfl

theorem empty_sql : History env (sqlStore toyCodec) (fun m => m.tables = true) impl emptySql :=
  .empty rfl (by intro k v h; cases h) rfl rfl

/-- The state after a run that is killed after `kill` store operations (or not). -/
def after (t : CacheState MemMeta Int) (run : String) (b : Bool) (x : Int) (kill : Option Nat) : CacheState MemMeta Int :=
  (runSession env memStore { session run b x allDefault with killAfter := kill } t).state.2

theorem after_history {t : CacheState MemMeta Int} (h : History env memStore (fun _ => True) impl t) (run : String) (b : Bool)
    (x : Int) (kill : Option Nat) : History env memStore (fun _ => True) impl (after t run b x kill) :=
  History.session (sess := { session run b x allDefault with killAfter := kill }) h (session_valid run b x allDefault_ne kill) rfl

/-- The state after a run with `x = 1`, one killed after four store operations with the edited code, and one with `x = 5`. -/
def used : CacheState MemMeta Int :=
  after (after (after emptyMem "r1" false 1 none) "r2" true 1 (some 4)) "r3" false 5 none

theorem used_history : History env memStore (fun _ => True) impl used :=
  after_history (t := after (after emptyMem "r1" false 1 none) "r2" true 1 (some 4))
    (after_history (t := after emptyMem "r1" false 1 none) (after_history (t := emptyMem) empty_mem "r1" false 1 none)
      "r2" true 1 (some 4)) "r3" false 5 none

/-- Non-vacuity of C25: the edited module for `x = 5` after that history, with both kinds of stores. -/
example : SameOutcome (runSession env memStore (session "r4" true 5 allDefault) used)
    (session "r4" true 5 allDefault).plain :=
  C25_transparent_partial env_lawful memStore_lawful impl_unordered used_history
    (session_valid "r4" true 5 allDefault_ne none) rfl rfl
example : SameOutcome (runSession env (sqlStore toyCodec) (session "r4" true 5 allDefault) emptySql)
    (session "r4" true 5 allDefault).plain :=
  C25_transparent_partial env_lawful (sqlStore_lawful _) impl_unordered empty_sql
    (sess := session "r4" true 5 allDefault) (session_valid "r4" true 5 allDefault_ne none) rfl rfl
/-- In that run `base` and `right` come from the cache, `left` and `top` are executed. -/
example : (runSession env memStore (session "r4" true 5 allDefault) used).state.2.executed = ["left", "top"] ∧
    valueOf "top" (runSession env memStore (session "r4" true 5 allDefault) used) = some 34 := by decide +kernel

/-- Non-vacuity of C26: killed between the metadata and the result of `left`; the next run executes `left` again. -/
example : SameOutcome (runSession env memStore (session "r2" true 1 allDefault)
      (runSession env memStore { session "r1" true 1 allDefault with killAfter := some 4 } emptyMem).state.2)
    (session "r2" true 1 allDefault).plain :=
  C26_crash_partial env_lawful memStore_lawful impl_unordered empty_mem rfl
    (killed := session "r1" true 1 allDefault) (sess := session "r2" true 1 allDefault) (session_valid "r1" true 1 allDefault_ne none) 4 (session_valid "r2" true 1 allDefault_ne none) rfl rfl
example : (runSession env memStore { session "r1" true 1 allDefault with killAfter := some 4 } emptyMem).state.2.killed = true ∧
    (runSession env memStore (session "r2" true 1 allDefault)
      (runSession env memStore { session "r1" true 1 allDefault with killAfter := some 4 } emptyMem).state.2).state.2.executed =
      ["left", "right", "top"] := by decide +kernel

/-- Non-vacuity of C52, after the history above. -/
example : ∃ s1 t1, runSession env memStore (session "r4" true 5 allDefault) used = .ok (s1, t1) ∧
    ∃ t2, runSession env memStore { session "r4" true 5 allDefault with runId := "r5" } t1 = .ok (s1, t2) ∧ t2.executed = [] := by
  cases hr : runSession env memStore (session "r4" true 5 allDefault) used with
  | err e st =>
    have : (valueOf "top" (runSession env memStore (session "r4" true 5 allDefault) used)).isSome = true := by decide +kernel
    rw [hr] at this; cases this
  | ok st =>
    refine ⟨st.1, st.2, rfl, ?_⟩
    exact C52_rerun_partial env_lawful (fun v => ⟨_, rfl⟩) memStore_lawful memStore_retains impl_unordered used_history
      (session_valid "r4" true 5 allDefault_ne none) rfl rfl (by
        intro k n hk
        obtain ⟨b, hb, _⟩ := (session_valid "r4" true 5 allDefault_ne none).behaviors hk
        have hb2 := Dict.get?_mem hb
        have hb3 : (k, b) ∈ (graphOf true).map (fun p => (p.1, Behavior.default)) := hb2
        obtain ⟨p, _, hp⟩ := List.mem_map.1 hb3
        cases hp
        exact hb) hr "r5"

/-- C25 is violated when an input has the name of a function: the execution without cache ignores it, but the cached one returns
a cached result with the version of that input instead of executing the function. -/
theorem C25_violated_input : ∃ t, History env memStore (fun _ => True) impl t ∧
    let sess : Session Unit Int := { session "r2" false 5 allDefault with
      rawInputs := [("x", 5), ("base", 2)], inputs := [("x", 5), ("base", 2), ("c", 7)] }
    valueOf "top" (runSession env memStore sess t) = some 16 ∧ plainValueOf "top" sess.plain = some 28 :=
  ⟨_, after_history empty_mem "r1" false 1 none, by decide +kernel⟩

/-- The sample with `right` made from `def f(base, y=10)` by renaming `y` to `x`, as `parameterize(right={"y": source("x")})`
does: the default value is still recorded for `y`. -/
def renamedGraph : Graph Unit Int :=
  [ ("base", { fnNode "base" [("x", .required)] fnBase with dependencies := ["x"], dependedOnBy := ["right"] }),
    ("right", { fnNode "right" [("base", .required), ("x", .optional)] (fun kw => .ok (arg kw "base" 0 + arg kw "x" 10)) with
      dependencies := ["base", "x"] }),
    ("x", inNode "x" ["base", "right"]) ]

/-- C25 is violated when a parameter with a default value was renamed: the cached execution fails with a `KeyError`, the one
without cache succeeds. -/
theorem C25_violated_default :
    let sess : Session Unit Int := { session "r" false 1 allDefault with
      graph := renamedGraph
      nodes := (renamedGraph.get? "right").toList
      behaviors := renamedGraph.map (fun p => (p.1, .default)) }
    runSession env memStore sess emptyMem =
      .err (.raised "right" "KeyError") (runSession env memStore sess emptyMem).state ∧
    plainValueOf "right" sess.plain = some 3 := by
  refine ⟨?_, by decide +kernel⟩
  rfl

/-- Values that are an integer or a pair of integers, all unhashable. -/
def pairEnv : CacheEnv (Int × Option Int) where
  hash _ := none
  tupleHead v := v.2.map (fun _ => (v.1, none))
  uuid i := toString i
  codec := toyCodec
  alnum := Char.isAlphanum

theorem pairEnv_lawful : pairEnv.Lawful where
  separates h := by cases h
  hash_comma h := by cases h
  hash_plain h := by cases h
  uuid_inj h := toString_nat_inj h
  uuid_comma i := nat_chars (by decide) i
  codec := toyCodec_lawful
  dash := by decide

/-- A graph with one node, the main node of a data loader, whose data is the tuple `(1, 2)`. -/
def loaderGraph : Graph Unit (Int × Option Int) :=
  [("data", ⟨"data", (), .standard, [], [], [], fun _ => .ok (1, some 2)⟩)]

/-- C25 is violated for a data loader whose data is a tuple: the cached execution returns only its first item. -/
theorem C25_violated_loader :
    let sess : Session Unit (Int × Option Int) :=
      { runId := "r", graph := loaderGraph, nodes := (loaderGraph.get? "data").toList, rawInputs := [], inputs := [],
        overrides := [], behaviors := [("data", .default)], codes := [("data", "D")], defaults := fun _ => [],
        loaders := ["data"], savers := [], killAfter := none, torn := false }
    valueOf "data" (runSession pairEnv memStore sess ⟨.empty, [], [], [], 0, [], [], none, false⟩) = some (1, none) ∧
    plainValueOf "data" sess.plain = some (1, some 2) := by decide +kernel

/-- Behaviour `b` for `left`, default for the others. -/
def leftOnly (b : Behavior) : Name → Behavior := fun k => if k = "left" then b else .default

/-- Non-vacuity of C32: `left` is executed although its result is stored; the others are not. -/
example : (runSession env memStore (session "r4" false 5 (leftOnly .recompute)) used).state.2.executed = ["left"] ∧
    (runSession env memStore (session "r4" false 5 allDefault) used).state.2.executed = [] := by decide +kernel
example : (runSession env memStore (session "r4" false 5 (leftOnly .disable)) used).state.2.executed = ["left", "top"] := by
  decide +kernel
example : Needed (graphOf false) [] ["top"] "left" ∧ (session "r4" false 5 (leftOnly .disable)).behaviors.get? "left" = some .disable :=
  ⟨.param (m := "top") (.req (by simp)) rfl (rfl : (graphOf false).get? "top" = some _) (by decide), rfl⟩

/-- C31 is violated: the result of a node with behaviour "ignore" is in the result store after the run, under a version that is
recorded in the metadata store for the key `None`. -/
theorem C31_violated :
    let before := emptyMem
    let after := (runSession env memStore (session "r1" false 1 (leftOnly .ignore)) before).state.2
    before.results.get? "4" = none ∧ valueOf "left" (runSession env memStore
      { session "r1" false 1 (leftOnly .ignore) with nodes := ((graphOf false).get? "left").toList } before) = some 4 ∧
    after.results.get? "4" = some (some 4) ∧ before.store.get none = none ∧ after.store.get none = some "4" ∧
    after.versions.get? "left" = some "4" := by decide +kernel

/-- Non-vacuity of the part of C31 that holds. -/
example : (runSession env memStore (session "r4" false 5 (leftOnly .ignore)) used).state.2.executed = ["left", "top"] := by
  decide +kernel

/-- A node that saves its input and returns as metadata how much was saved, here 100 plus the input. -/
def saverGraph : Graph Unit Int :=
  [ ("save", { fnNode "save" [("x", .required)] (fun kw => .ok (100 + arg kw "x" 0)) with dependencies := ["x"] }),
    ("x", inNode "x" ["save"]) ]

/-- A run of the saver. -/
def saverSession (run : String) (x : Int) : Session Unit Int :=
  { session run false x allDefault with
    graph := saverGraph
    nodes := (saverGraph.get? "save").toList
    behaviors := [("save", .default), ("x", .default)]
    codes := [("save", "S")]
    defaults := fun _ => []
    savers := ["save"] }

/-- C33 is violated: saving 1, then 2, then 2 again returns in the third run the metadata of the save of 1. -/
theorem C33_violated :
    let t1 := (runSession env memStore (saverSession "r1" 1) emptyMem).state.2
    let t2 := (runSession env memStore (saverSession "r2" 2) t1).state.2
    valueOf "save" (runSession env memStore (saverSession "r1" 1) emptyMem) = some 101 ∧
    valueOf "save" (runSession env memStore (saverSession "r2" 2) t1) = some 102 ∧
    valueOf "save" (runSession env memStore (saverSession "r3" 2) t2) = some 101 ∧
    plainValueOf "save" (saverSession "r3" 2).plain = some 102 := by decide +kernel

/-- Non-vacuity of the part of C33 that holds: in the second of these runs the save is performed. -/
example : (runSession env memStore (saverSession "r2" 2)
    (runSession env memStore (saverSession "r1" 1) emptyMem).state.2).state.2.executed = ["save"] := by decide +kernel

/-- C51 is violated: when the process is killed while the file of a result is being written, every later execution of the same
thing fails, although the one without cache succeeds. -/
theorem C51_violated :
    let t1 := (runSession env memStore { session "r1" false 1 allDefault with killAfter := some 4, torn := true } emptyMem).state.2
    let out := runSession env memStore (session "r2" false 1 allDefault) t1
    out = .err (.raised "left" "UnpicklingError") out.state ∧
    plainValueOf "top" (session "r2" false 1 allDefault).plain = some 16 := by
  refine ⟨?_, by decide +kernel⟩
  rfl

end CacheSample
end Verif
