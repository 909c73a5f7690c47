import Verif.Spec.LegacyCache
import Verif.Proofs.Lifecycle
import Verif.Proofs.Subdag
import Verif.Proofs.LifecycleInv
import Verif.Props.Sample

/-! C65: the deprecated caching adapters do not change the results of a run and skip what was computed before. -/
namespace Verif
variable {T V : Type}

/-! ### All parameters are passed -/

theorem argsFor_all_keys {params : Dict Name (T × DepType)} {val : Name → Option V}
    (h : ∀ d t, (d, t) ∈ params → val d = none → False) : (argsFor params val).keys = params.keys := by
  induction params with
  | nil => rfl
  | cons p ps ih =>
    have hps := ih fun d t hd => h d t (List.mem_cons_of_mem _ hd)
    unfold argsFor at hps ⊢
    rw [List.filterMap_cons]
    cases hv : val p.1 with
    | none => exact (h p.1 p.2 List.mem_cons_self hv).elim
    | some v =>
      simp only [Option.map_some]
      exact congrArg (p.1 :: ·) hps

/-- Every call of the list passes all parameters. -/
def AllPassed (g : Graph T V) (calls : List (Name × Dict Name V)) : Prop :=
  ∀ c ∈ calls, ∀ n, g.get? c.1 = some n → c.2.keys = n.inputTypes.keys

theorem allPassed_prefix {g : Graph T V} : PrefixClosed (AllPassed g) :=
  fun _ _ hp h c hc => h c (hp.subset hc)

theorem allPassed_of_trace {g : Graph T V} {inputs overrides : Dict Name V} {req : List Name} {calls : List (Name × Dict Name V)}
    (ho : NoOptional g) (h : ∀ c ∈ calls, CallOk g inputs overrides req c) : AllPassed g calls := by
  intro c hc n hn
  obtain ⟨_, _, n', hn', _, val, _, h2, h3⟩ := h c hc
  rw [hn] at hn'
  cases hn'
  rw [h3]
  apply argsFor_all_keys
  intro d t hd hv
  have h4 := (h2 d t hd hv).1
  have h5 := ho _ _ hn (d, t) hd
  simp only at h5
  rw [h5] at h4
  cases h4

theorem plain_allPassed {g : Graph T V} (hw : WellFormed g) (ho : NoOptional g) {nodes : List (Node T V)}
    (hnodes : ∀ n ∈ nodes, g.get? n.name = some n) (inputs overrides : Dict Name V) :
    AllPassed g (executeSubdag g nodes inputs overrides).state.calls := by
  have h := executeSubdag_spec hw nodes hnodes inputs overrides
  revert h
  generalize executeSubdag g nodes inputs overrides = o
  intro h
  cases o with
  | ok s => exact allPassed_of_trace ho h.1.calls_ok
  | err e s => exact allPassed_of_trace ho h.1.calls_ok

variable [DecidableEq V]

/-! ### One node -/

/-- What the state of the adapter has to satisfy; only `CacheAdapter` (`strict`) uses the sources it remembers. -/
structure LegacyOk (strict : Bool) (g : Graph T V) (src : Node T V → String) (pyNone : V) (code : String → List V → Except UserErr V)
    (t : LegacyCache V) : Prop where
  sound : EntriesSound pyNone code t
  remembers : strict = true → RemembersGraph g src t

/-- What happens to a node: the value is that of the function, the adapter stays sound, results stay, the result is recorded,
the function is only invoked if there was no result. -/
structure StepOk (strict : Bool) (g : Graph T V) (src : Node T V → String) (pyNone : V) (code : String → List V → Except UserErr V)
    (vars : List Name) (k : Name) (n : Node T V) (kw : Dict Name V) (t : LegacyCache V) (r : Except UserErr V)
    (t' : LegacyCache V) : Prop where
  value : r = n.fn kw
  ok : LegacyOk strict g src pyNone code t'
  keeps : ∀ key v, t.entries.get? key = some v → v ≠ pyNone → t'.entries.get? key = some v
  records : k ∈ vars → ∀ v, r = .ok v → v ≠ pyNone → t'.entries.get? (legacyKey (src n) kw) = some v
  invokes : t'.invoked = t.invoked ∨
    (t'.invoked = t.invoked ++ [(k, kw)] ∧ (k ∈ vars → ¬ HasResult pyNone t (legacyKey (src n) kw)))

/-- The outcome of a node as it is told to `post_node_execute`. -/
def resultOf {ε : Type} : Except ε V → Option V
  | .ok v => some v
  | .error _ => none

theorem sound_set {pyNone : V} {code : String → List V → Except UserErr V} {t : LegacyCache V}
    (hs : EntriesSound pyNone code t) {h : String} {vs : List V} {r : Except UserErr V} (hr : code h vs = r) :
    EntriesSound pyNone code { t with entries := t.entries.set (h, vs) ((resultOf r).getD pyNone) } := by
  intro h' vs' v hv
  simp only at hv
  rw [Dict.get?_set] at hv
  split at hv
  · rename_i he
    cases he
    cases hv
    rw [hr]
    cases r with
    | ok v => exact .inl rfl
    | error e => exact .inr ⟨rfl, e, rfl⟩
  · exact hs _ _ _ hv

theorem keeps_set {pyNone : V} {code : String → List V → Except UserErr V} {t : LegacyCache V}
    (hs : EntriesSound pyNone code t) {h : String} {vs : List V} {r : Except UserErr V} (hr : code h vs = r) :
    ∀ key v, t.entries.get? key = some v → v ≠ pyNone →
      (t.entries.set (h, vs) ((resultOf r).getD pyNone)).get? key = some v := by
  intro key v hv hne
  rw [Dict.get?_set]
  split
  · rename_i he
    subst he
    rcases hs _ _ _ hv with h1 | ⟨h1, _⟩
    · rw [← hr, h1]; rfl
    · exact absurd h1 hne
  · exact hv

/-- The run of a node with `CacheAdapter`. -/
theorem shelve_step (isException : UserErr → Bool) (src : Node T V → String) (pyNone : V) (vars : List Name) (n : Node T V)
    (kw : Dict Name V) (s : HookState V (LegacyCache V)) :
    (executeLifecycle isException [shelveAdapter src pyNone vars] n kw s).1 = (shelveExec src pyNone vars n kw s.st).1 ∧
    (executeLifecycle isException [shelveAdapter src pyNone vars] n kw s).2.st
      = shelveAfter pyNone vars n kw (resultOf (shelveExec src pyNone vars n kw s.st).1) (shelveExec src pyNone vars n kw s.st).2 := by
  unfold executeLifecycle
  simp only [preHooks, shelveAdapter, List.filterMap_cons, Option.map_none, List.filterMap_nil, callHooks, callBody,
    List.findSome?_cons, finishNode, postHooks, Option.map_some]
  cases h : shelveExec src pyNone vars n kw s.st with
  | mk o t =>
    cases o with
    | ok v => exact ⟨rfl, rfl⟩
    | error e =>
      simp only
      split
      · exact ⟨rfl, rfl⟩
      · exact ⟨rfl, rfl⟩

/-- The run of a node with `DiskCacheAdapter`, if its hook does not raise. -/
theorem disk_step (isException : UserErr → Bool) (src : Node T V → String) (pyNone : V) (vars : List Name) (n : Node T V)
    (kw : Dict Name V) (s : HookState V (LegacyCache V)) {t' : LegacyCache V}
    (h : diskAfter pyNone vars n kw (resultOf (diskExec src pyNone vars n kw s.st).1) (diskExec src pyNone vars n kw s.st).2
      = some t') :
    (executeLifecycle isException [diskAdapter src pyNone vars] n kw s).1 = (diskExec src pyNone vars n kw s.st).1 ∧
    (executeLifecycle isException [diskAdapter src pyNone vars] n kw s).2.st = t' := by
  unfold executeLifecycle
  simp only [preHooks, diskAdapter, List.filterMap_cons, Option.map_none, List.filterMap_nil, callHooks, callBody,
    List.findSome?_cons, finishNode, postHooks, Option.map_some]
  cases hd : diskExec src pyNone vars n kw s.st with
  | mk o t =>
    rw [hd] at h
    cases o with
    | ok v =>
      have h : diskAfter pyNone vars n kw (some v) t = some t' := h
      simp only [h, and_self]
    | error e =>
      have h : diskAfter pyNone vars n kw none t = some t' := h
      simp only
      split
      · simp only [h, and_self]
      · simp only [h, and_self]

section
variable {g : Graph T V} {src : Node T V → String} {pyNone : V} {code : String → List V → Except UserErr V} {vars : List Name}

/-- A miss: the function is invoked and its outcome stored. -/
theorem shelve_miss (hw : WellFormed g) (ht : SourceTells g src code) {k : Name} {n : Node T V} (hk : g.get? k = some n)
    (hf : n.kind ≠ .external) {kw : Dict Name V} (hkw : kw.keys = n.inputTypes.keys) (hm : k ∈ vars) {t : LegacyCache V}
    (ho : LegacyOk true g src pyNone code t) (hno : ¬ HasResult pyNone t (legacyKey (src n) kw)) (hist : Dict Name (List String)) :
    StepOk true g src pyNone code vars k n kw t (n.fn kw)
      (shelveAfter pyNone vars n kw (resultOf (n.fn kw))
        { t with used := t.used.set n.name (src n), history := hist, invoked := t.invoked ++ [(n.name, kw)] }) := by
  have hname := hw.name_eq hk
  subst hname
  have hcode := (ht n.name n hk hf kw hkw).symm
  unfold shelveAfter
  rw [if_pos hm]
  simp only [Dict.get?_set_self]
  refine ⟨rfl, ⟨?_, ?_⟩, ?_, ?_, ?_⟩
  · exact fun h vs v hv => sound_set ho.sound hcode h vs v hv
  · intro _ k' h hh n' hn'
    simp only at hh
    rw [Dict.get?_set] at hh
    split at hh
    · rename_i he
      subst he
      cases hh
      rw [hk] at hn'
      cases hn'
      rfl
    · exact ho.remembers rfl k' h hh n' hn'
  · exact keeps_set ho.sound hcode
  · intro _ v hv _
    simp only [hv]
    rw [Dict.get?_set_self]
    rfl
  · exact .inr ⟨rfl, fun _ => hno⟩

theorem shelve_stepOk (hw : WellFormed g) (ht : SourceTells g src code) {k : Name} {n : Node T V} (hk : g.get? k = some n)
    (hf : n.kind ≠ .external) {kw : Dict Name V} (hkw : kw.keys = n.inputTypes.keys) {t : LegacyCache V}
    (ho : LegacyOk true g src pyNone code t) :
    StepOk true g src pyNone code vars k n kw t (shelveExec src pyNone vars n kw t).1
      (shelveAfter pyNone vars n kw (resultOf (shelveExec src pyNone vars n kw t).1) (shelveExec src pyNone vars n kw t).2) := by
  have hname := hw.name_eq hk
  subst hname
  have hcode := (ht n.name n hk hf kw hkw).symm
  by_cases hm : n.name ∈ vars
  · unfold shelveExec
    rw [if_pos hm]
    cases hg : t.entries.get? (legacyKey (src n) kw) with
    | none =>
      simp only [invoke]
      exact shelve_miss hw ht hk hf hkw hm ho (fun ⟨v, h, _⟩ => by rw [hg] at h; cases h) _
    | some v =>
      by_cases hv : v = pyNone
      · simp only [if_pos hv, invoke]
        exact shelve_miss hw ht hk hf hkw hm ho (fun ⟨w, h, hne⟩ => by rw [hg] at h; cases h; exact hne hv) _
      · simp only [if_neg hv]
        have hval : n.fn kw = .ok v := by
          rcases ho.sound _ _ _ hg with h | ⟨h, _⟩
          · rw [← hcode]; exact h
          · exact absurd h hv
        unfold shelveAfter
        rw [if_pos hm]
        cases hu : t.used.get? n.name with
        | none =>
          simp only
          exact ⟨hval.symm, ho, fun _ _ h _ => h, fun _ w hw _ => by cases hw; exact hg, .inl rfl⟩
        | some h =>
          have hh := ho.remembers rfl _ h hu n hk
          subst hh
          simp only
          have hr : code (src n) (kw.map (·.2)) = (.ok v : Except UserErr V) := hcode.trans hval
          refine ⟨hval.symm, ⟨sound_set ho.sound hr, ho.remembers⟩, keeps_set ho.sound hr, ?_, .inl rfl⟩
          intro _ w hw' _
          cases hw'
          exact Dict.get?_set_self _ _ _
  · unfold shelveExec
    rw [if_neg hm]
    unfold shelveAfter
    rw [if_neg hm]
    simp only [invoke]
    exact ⟨rfl, ⟨ho.sound, ho.remembers⟩, fun _ _ h _ => h, fun h => absurd h hm, .inr ⟨rfl, fun h => absurd h hm⟩⟩

/-- A miss with diskcache. -/
theorem disk_miss (hw : WellFormed g) (ht : SourceTells g src code) {k : Name} {n : Node T V} (hk : g.get? k = some n)
    (hf : n.kind ≠ .external) {kw : Dict Name V} (hkw : kw.keys = n.inputTypes.keys) (hm : k ∈ vars) {t : LegacyCache V}
    (ho : LegacyOk false g src pyNone code t) (hno : ¬ HasResult pyNone t (legacyKey (src n) kw)) (hist : Dict Name (List String)) :
    ∃ t', diskAfter pyNone vars n kw (resultOf (n.fn kw))
        { t with used := t.used.set n.name (src n), history := hist, invoked := t.invoked ++ [(n.name, kw)] } = some t' ∧
      StepOk false g src pyNone code vars k n kw t (n.fn kw) t' := by
  have hname := hw.name_eq hk
  subst hname
  have hcode := (ht n.name n hk hf kw hkw).symm
  unfold diskAfter
  rw [if_pos hm]
  simp only [Dict.get?_set_self]
  cases hg : t.entries.get? (legacyKey (src n) kw) with
  | none =>
    rw [if_neg (by rw [Dict.has, hg]; simp)]
    refine ⟨_, rfl, rfl, ⟨?_, ?_⟩, ?_, ?_, ?_⟩
    · exact fun h vs v hv => sound_set ho.sound hcode h vs v hv
    · exact nofun
    · exact keeps_set ho.sound hcode
    · intro _ v hv _
      simp only [hv]
      rw [Dict.get?_set_self]
      rfl
    · exact .inr ⟨rfl, fun _ => hno⟩
  | some v =>
    rw [if_pos (by rw [Dict.has, hg]; rfl)]
    have hv : v = pyNone := Classical.byContradiction fun h => hno ⟨v, hg, h⟩
    subst hv
    refine ⟨_, rfl, rfl, ⟨ho.sound, ?_⟩, fun _ _ h _ => h, ?_, ?_⟩
    · exact nofun
    · intro _ w hw' hne
      rcases ho.sound _ _ _ hg with h | ⟨_, e, h⟩
      · rw [hcode, hw'] at h; cases h; exact absurd rfl hne
      · rw [hcode, hw'] at h; cases h
    · exact .inr ⟨rfl, fun _ => hno⟩

theorem disk_stepOk (hw : WellFormed g) (ht : SourceTells g src code) {k : Name} {n : Node T V} (hk : g.get? k = some n)
    (hf : n.kind ≠ .external) {kw : Dict Name V} (hkw : kw.keys = n.inputTypes.keys) {t : LegacyCache V}
    (ho : LegacyOk false g src pyNone code t) :
    ∃ t', diskAfter pyNone vars n kw (resultOf (diskExec src pyNone vars n kw t).1) (diskExec src pyNone vars n kw t).2 = some t' ∧
      StepOk false g src pyNone code vars k n kw t (diskExec src pyNone vars n kw t).1 t' := by
  have hname := hw.name_eq hk
  subst hname
  have hcode := (ht n.name n hk hf kw hkw).symm
  by_cases hm : n.name ∈ vars
  · unfold diskExec
    rw [if_pos hm]
    cases hg : t.entries.get? (legacyKey (src n) kw) with
    | none =>
      simp only [invoke]
      exact disk_miss hw ht hk hf hkw hm ho (fun ⟨v, h, _⟩ => by rw [hg] at h; cases h) _
    | some v =>
      by_cases hv : v = pyNone
      · simp only [if_pos hv, invoke]
        exact disk_miss hw ht hk hf hkw hm ho (fun ⟨w, h, hne⟩ => by rw [hg] at h; cases h; exact hne hv) _
      · simp only [if_neg hv]
        have hval : n.fn kw = .ok v := by
          rcases ho.sound _ _ _ hg with h | ⟨h, _⟩
          · rw [← hcode]; exact h
          · exact absurd h hv
        unfold diskAfter
        rw [if_pos hm]
        simp only [Dict.get?_set_self]
        rw [if_pos (by rw [Dict.has, hg]; rfl)]
        refine ⟨_, rfl, hval.symm, ⟨ho.sound, ?_⟩, fun _ _ h _ => h, fun _ w hw _ => by cases hw; exact hg, .inl rfl⟩
        exact nofun
  · unfold diskExec
    rw [if_neg hm]
    unfold diskAfter
    rw [if_neg hm]
    simp only [invoke]
    exact ⟨_, rfl, rfl, ⟨ho.sound, ho.remembers⟩, fun _ _ h _ => h, fun h => absurd h hm,
      .inr ⟨rfl, fun h => absurd h hm⟩⟩

/-! ### A run -/

/-- How the adapter has changed since the state `t0`. -/
structure Kept (strict : Bool) (g : Graph T V) (src : Node T V → String) (pyNone : V)
    (code : String → List V → Except UserErr V) (vars : List Name) (t0 t : LegacyCache V) : Prop where
  ok : LegacyOk strict g src pyNone code t
  keeps : ∀ key v, t0.entries.get? key = some v → v ≠ pyNone → t.entries.get? key = some v
  spared : ∃ extra, t.invoked = t0.invoked ++ extra ∧ ∀ c ∈ extra, c.1 ∈ vars → ∀ n, g.get? c.1 = some n →
    ¬ HasResult pyNone t0 (legacyKey (src n) c.2)

/-- How the adapter relates to the run while it goes on, since it began with the state `t0`. -/
structure Progress (strict : Bool) (g : Graph T V) (src : Node T V → String) (pyNone : V)
    (code : String → List V → Except UserErr V) (vars : List Name) (t0 : LegacyCache V) (s : ExecState V)
    (t : LegacyCache V) : Prop where
  kept : Kept strict g src pyNone code vars t0 t
  known : ∀ c ∈ s.calls, ∃ n v, g.get? c.1 = some n ∧ n.fn c.2 = .ok v ∧
    (c.1 ∈ vars → v ≠ pyNone → t.entries.get? (legacyKey (src n) c.2) = some v)
  sub : ∃ extra, t.invoked = t0.invoked ++ extra ∧ ∀ c ∈ extra, c ∈ s.calls

variable {strict : Bool}

theorem Kept.step {t0 t t' : LegacyCache V} (h : Kept strict g src pyNone code vars t0 t) {k : Name} {n : Node T V}
    (hk : g.get? k = some n) {kw : Dict Name V} {r : Except UserErr V}
    (hs : StepOk strict g src pyNone code vars k n kw t r t') : Kept strict g src pyNone code vars t0 t' := by
  refine ⟨hs.ok, fun key w hw' hne => hs.keeps key w (h.keeps key w hw' hne) hne, ?_⟩
  obtain ⟨extra, h1, h2⟩ := h.spared
  rcases hs.invokes with h3 | ⟨h3, h4⟩
  · exact ⟨extra, by rw [h3, h1], h2⟩
  · refine ⟨extra ++ [(k, kw)], by rw [h3, h1]; simp, ?_⟩
    intro c hc
    rcases List.mem_append.1 hc with hc | hc
    · exact h2 c hc
    · rw [List.mem_singleton] at hc
      subst hc
      intro hcv n' hn' ⟨w, hw', hne⟩
      simp only at hn'
      rw [hk] at hn'
      cases hn'
      exact h4 hcv ⟨w, h.keeps _ _ hw' hne, hne⟩

theorem Progress.same_calls {t0 t : LegacyCache V} {s s' : ExecState V} (h : Progress strict g src pyNone code vars t0 s t)
    (hc : s'.calls = s.calls) : Progress strict g src pyNone code vars t0 s' t := by
  constructor
  · exact h.kept
  · rw [hc]; exact h.known
  · rw [hc]; exact h.sub

/-- A runner each step of which is right makes a run that is. -/
theorem legacy_faithful {inputs overrides : Dict Name V} {req : List Name}
    {run : Runner T V (HookState V (LegacyCache V))}
    (hrun : ∀ k n, g.get? k = some n → n.kind ≠ .external → ∀ kw : Dict Name V, kw.keys = n.inputTypes.keys → ∀ t,
      LegacyOk strict g src pyNone code t.st →
      StepOk strict g src pyNone code vars k n kw t.st (run n kw t).1 (run n kw t).2.st)
    (t0 : LegacyCache V) :
    Faithful g inputs overrides req run (AllPassed g) (fun s t => Progress strict g src pyNone code vars t0 s t.st)
      (fun t => Kept strict g src pyNone code vars t0 t.st) (fun _ => False) where
  keep h := h.kept
  input h _ _ _ := h.same_calls (by rw [prune_calls]; rfl)
  override h _ _ := h.same_calls rfl
  call {s t k n} h hk hf _ kw _ hP := by
    have hkw := hP (k, kw) (by simp) n hk
    have hs := hrun k n hk hf kw hkw t h.kept.ok
    revert hs
    cases run n kw t with
    | mk o t' =>
      intro hs
      have hkept := h.kept.step hk hs
      cases o with
      | error e => exact ⟨hkept, .inr hs.value.symm⟩
      | ok v =>
        refine ⟨hs.value.symm, ?_⟩
        have hval : n.fn kw = .ok v := hs.value.symm
        have hcalls : (prune g req n.dependencies
            (({ s with calls := s.calls ++ [(k, kw)] } : ExecState V).store k v)).calls = s.calls ++ [(k, kw)] := by
          rw [prune_calls]; rfl
        constructor
        · exact hkept
        · rw [hcalls]
          intro c hc
          rcases List.mem_append.1 hc with hc | hc
          · obtain ⟨n', w, h1, h2, h3⟩ := h.known c hc
            exact ⟨n', w, h1, h2, fun hcv hne => hs.keeps _ _ (h3 hcv hne) hne⟩
          · rw [List.mem_singleton] at hc
            subst hc
            exact ⟨n, v, hk, hval, fun hcv hne => hs.records hcv v rfl hne⟩
        · rw [hcalls]
          obtain ⟨extra, h1, h2⟩ := h.sub
          rcases hs.invokes with h3 | ⟨h3, _⟩
          · exact ⟨extra, by rw [h3, h1], fun c hc => List.mem_append_left _ (h2 c hc)⟩
          · refine ⟨extra ++ [(k, kw)], by rw [h3, h1]; simp, ?_⟩
            intro c hc
            rcases List.mem_append.1 hc with hc | hc
            · exact List.mem_append_left _ (h2 c hc)
            · exact List.mem_append_right _ hc

/-- The steps of an adapter are right. -/
def StepsOk (strict : Bool) (g : Graph T V) (src : Node T V → String) (pyNone : V)
    (code : String → List V → Except UserErr V) (vars : List Name) (isException : UserErr → Bool)
    (a : Adapter T V (LegacyCache V)) : Prop :=
  ∀ k n, g.get? k = some n → n.kind ≠ .external → ∀ kw : Dict Name V, kw.keys = n.inputTypes.keys → ∀ t,
    LegacyOk strict g src pyNone code t.st →
    StepOk strict g src pyNone code vars k n kw t.st (executeLifecycle isException [a] n kw t).1
      (executeLifecycle isException [a] n kw t).2.st

theorem legacy_matches (hw : WellFormed g) (ho : NoOptional g) {nodes : List (Node T V)}
    (hnodes : ∀ n ∈ nodes, g.get? n.name = some n) {isException : UserErr → Bool} {a : Adapter T V (LegacyCache V)}
    (hrun : StepsOk strict g src pyNone code vars isException a)
    (inputs overrides : Dict Name V) {t : LegacyCache V} (h : LegacyOk strict g src pyNone code t) :
    SimOut (fun s u => Progress strict g src pyNone code vars t s u.st) (fun u => Kept strict g src pyNone code vars t u.st)
      (fun _ => False)
      (executeSubdag g nodes inputs overrides) (legacyRun isException a g nodes inputs overrides t) :=
  executeWith_matches hw hnodes allPassed_prefix (legacy_faithful hrun t)
    ⟨⟨h, fun _ _ h _ => h, [], by simp, fun c hc => by cases hc⟩, fun c hc => by simp [ExecState.init] at hc,
      [], by simp, fun c hc => by cases hc⟩
    (plain_allPassed hw ho hnodes inputs overrides)

theorem legacy_same (hw : WellFormed g) (ho : NoOptional g) {nodes : List (Node T V)}
    (hnodes : ∀ n ∈ nodes, g.get? n.name = some n) {isException : UserErr → Bool} {a : Adapter T V (LegacyCache V)}
    (hrun : StepsOk strict g src pyNone code vars isException a)
    (inputs overrides : Dict Name V) {t : LegacyCache V} (h : LegacyOk strict g src pyNone code t) :
    withoutAdapter (legacyRun isException a g nodes inputs overrides t) = executeSubdag g nodes inputs overrides ∧
    Kept strict g src pyNone code vars t (cacheAfter (legacyRun isException a g nodes inputs overrides t)) := by
  have hm := legacy_matches hw ho hnodes hrun inputs overrides h
  revert hm
  generalize executeSubdag g nodes inputs overrides = o
  cases legacyRun isException a g nodes inputs overrides t with
  | ok s => intro ⟨h1, h2⟩; exact ⟨h1.symm, h2.kept⟩
  | err e s =>
    intro ⟨h1, h2⟩
    rcases h2 with h2 | h2
    · exact h2.elim
    · exact ⟨h2.symm, h1⟩

/-- A later run of any nodes of the graph on any inputs does not repeat what a run called, unless `None` came out. -/
theorem legacy_again (hw : WellFormed g) (ho : NoOptional g) {nodes nodes' : List (Node T V)}
    (hnodes : ∀ n ∈ nodes, g.get? n.name = some n) (hnodes' : ∀ n ∈ nodes', g.get? n.name = some n)
    {isException : UserErr → Bool} {a : Adapter T V (LegacyCache V)}
    (hrun : StepsOk strict g src pyNone code vars isException a)
    (inputs overrides inputs' overrides' : Dict Name V) {t : LegacyCache V} (h : LegacyOk strict g src pyNone code t)
    {s : ExecState V} {u : HookState V (LegacyCache V)} (h1 : legacyRun isException a g nodes inputs overrides t = .ok (s, u)) :
    ∃ extra, (cacheAfter (legacyRun isException a g nodes' inputs' overrides' u.st)).invoked = u.st.invoked ++ extra ∧
      ∀ c ∈ extra, c ∈ s.calls → ∃ n, g.get? c.1 = some n ∧ (c.1 ∈ vars → n.fn c.2 = .ok pyNone) := by
  have hm := legacy_matches hw ho hnodes hrun inputs overrides h
  rw [h1] at hm
  obtain ⟨_, hp⟩ := hm
  obtain ⟨_, hkept⟩ := legacy_same hw ho hnodes' hrun inputs' overrides' hp.kept.ok
  obtain ⟨extra, h2, h3⟩ := hkept.spared
  refine ⟨extra, h2, fun c hc hcs => ?_⟩
  obtain ⟨n, v, hn, hv, hrec⟩ := hp.known c hcs
  refine ⟨n, hn, fun hcv => ?_⟩
  by_cases hne : v = pyNone
  · rw [hv, hne]
  · exact absurd ⟨v, hrec hcv hne, hne⟩ (h3 c hc hcv n hn)

/-- The same run once more. -/
theorem legacy_repeat (hw : WellFormed g) (ho : NoOptional g) {nodes : List (Node T V)}
    (hnodes : ∀ n ∈ nodes, g.get? n.name = some n)
    {isException : UserErr → Bool} {a : Adapter T V (LegacyCache V)}
    (hrun : StepsOk strict g src pyNone code vars isException a)
    (inputs overrides : Dict Name V) {t : LegacyCache V} (h : LegacyOk strict g src pyNone code t)
    {s : ExecState V} {u : HookState V (LegacyCache V)} (h1 : legacyRun isException a g nodes inputs overrides t = .ok (s, u)) :
    ∃ u', legacyRun isException a g nodes inputs overrides u.st = .ok (s, u') ∧
      ∃ extra, u'.st.invoked = u.st.invoked ++ extra ∧
        ∀ c ∈ extra, ∃ n, g.get? c.1 = some n ∧ (c.1 ∈ vars → n.fn c.2 = .ok pyNone) := by
  have hm := legacy_matches hw ho hnodes hrun inputs overrides h
  rw [h1] at hm
  obtain ⟨hs, hp⟩ := hm
  have hm2 := legacy_matches hw ho hnodes hrun inputs overrides hp.kept.ok
  obtain ⟨extra, h2, h3⟩ := legacy_again hw ho hnodes hnodes hrun inputs overrides inputs overrides h h1
  revert hm2 h2
  rw [hs]
  cases legacyRun isException a g nodes inputs overrides u.st with
  | err e x => intro ⟨_, hx⟩ _; rcases hx with hx | hx; exact hx.elim; cases hx
  | ok x =>
    intro ⟨hx, hpx⟩ h2
    obtain ⟨s', u'⟩ := x
    cases hx
    refine ⟨u', rfl, extra, h2, fun c hc => h3 c hc ?_⟩
    obtain ⟨extra', h4, h5⟩ := hpx.sub
    have h2 : u'.st.invoked = u.st.invoked ++ extra := h2
    rw [h2] at h4
    rw [List.append_cancel_left h4] at hc
    exact h5 c hc

theorem shelve_run_ok (hw : WellFormed g) (ht : SourceTells g src code) (isException : UserErr → Bool) :
    StepsOk true g src pyNone code vars isException (shelveAdapter src pyNone vars) := by
  intro k n hk hf kw hkw t ho
  obtain ⟨h1, h2⟩ := shelve_step isException src pyNone vars n kw t
  rw [h1, h2]
  exact shelve_stepOk hw ht hk hf hkw ho

theorem disk_run_ok (hw : WellFormed g) (ht : SourceTells g src code) (isException : UserErr → Bool) :
    StepsOk false g src pyNone code vars isException (diskAdapter src pyNone vars) := by
  intro k n hk hf kw hkw t ho
  obtain ⟨t', h0, h3⟩ := disk_stepOk (vars := vars) hw ht hk hf hkw ho
  obtain ⟨h1, h2⟩ := disk_step isException src pyNone vars n kw t h0
  rw [h1, h2]
  exact h3

end

/-! ### A sample -/

namespace LegacySample

/-- A function that takes its arguments by position. -/
def posNode (name : Name) (params : List Name) (f : List (Option Int) → Except UserErr (Option Int)) : Node Unit (Option Int) :=
  { name, typ := (), kind := .standard, inputTypes := params.map (fun p => (p, ((), .required))),
    dependencies := [], dependedOnBy := [], fn := fun kw => f (kw.map (·.2)) }

/-- `x + 1`. -/
def plusOne : List (Option Int) → Except UserErr (Option Int)
  | [some x] => .ok (some (x + 1))
  | _ => .error "TypeError"

/-- `a * b`, which raises if `a` is 13. -/
def times : List (Option Int) → Except UserErr (Option Int)
  | [some a, some b] => if a = 13 then .error "unlucky" else .ok (some (a * b))
  | _ => .error "TypeError"

/-- A function without return value. -/
def nothing : List (Option Int) → Except UserErr (Option Int) := fun _ => .ok none

/-- `def base(x): …`, `def area(base, x): …`, `def note(area): …`. -/
def fns : List (Node Unit (Option Int)) :=
  [posNode "base" ["x"] plusOne, posNode "area" ["base", "x"] times, posNode "note" ["area"] nothing]

/-- The graph of the driver. -/
def graph : Graph Unit (Option Int) :=
  match createFunctionGraph Sample.tm () [] false fns with
  | .ok g => g
  | .error _ => []

theorem build_ok : createFunctionGraph Sample.tm () [] false fns = .ok graph := by
  have h : (createFunctionGraph Sample.tm () [] false fns).isOk = true := by decide
  unfold graph
  revert h
  generalize createFunctionGraph Sample.tm () [] false fns = r
  intro h
  cases r with
  | ok g => rfl
  | error e => simp [Except.isOk, Except.toBool] at h

theorem fns_fresh : ∀ n ∈ fns, Fresh n := by
  intro n hn
  simp only [fns, List.mem_cons, List.not_mem_nil, or_false] at hn
  rcases hn with rfl | rfl | rfl <;> exact ⟨by decide, rfl, rfl, by decide⟩

theorem wf : WellFormed graph := (createFunctionGraph_spec fns_fresh build_ok).1

theorem graph_cases {P : Name → Node Unit (Option Int) → Prop}
    (h : ∀ k ∈ ["base", "area", "note", "x"], ∀ n, graph.get? k = some n → P k n) :
    ∀ k n, graph.get? k = some n → P k n := by
  intro k n hk
  have hm : k ∈ graph.keys := Dict.mem_keys_iff.2 ⟨n, hk⟩
  have hkeys : graph.keys = ["base", "area", "note", "x"] := by decide +kernel
  rw [hkeys] at hm
  exact h k hm n hk

/-- The hash of the source: here the name, as the functions are different. -/
def src (n : Node Unit (Option Int)) : String := n.name

/-- What the sources compute. -/
def code (h : String) (vs : List (Option Int)) : Except UserErr (Option Int) :=
  if h = "base" then plusOne vs else if h = "area" then times vs else nothing vs

theorem noOptional : NoOptional graph := by
  have h : graph.all (fun p => p.2.inputTypes.all (fun q => decide (q.2.2 = .required))) = true := by decide +kernel
  intro k n hk p hp
  rw [List.all_eq_true] at h
  have h1 := h _ (Dict.get?_mem hk)
  rw [List.all_eq_true] at h1
  simpa using h1 p hp

theorem tells : SourceTells graph src code := by
  apply graph_cases (P := fun k n => n.kind ≠ .external → ∀ kw : Dict Name (Option Int), kw.keys = n.inputTypes.keys →
    n.fn kw = code (src n) (kw.map (·.2)))
  intro k hk n hn hf kw _
  simp only [List.mem_cons, List.not_mem_nil, or_false] at hk
  rcases hk with rfl | rfl | rfl | rfl
  · have e : (graph.get? "base").map (fun n => (n.name, n.fn)) = some ("base", fun kw => plusOne (kw.map (·.2))) := rfl
    rw [hn] at e
    simp only [Option.map_some, Option.some.injEq, Prod.mk.injEq] at e
    rw [e.2, src, e.1]; rfl
  · have e : (graph.get? "area").map (fun n => (n.name, n.fn)) = some ("area", fun kw => times (kw.map (·.2))) := rfl
    rw [hn] at e
    simp only [Option.map_some, Option.some.injEq, Prod.mk.injEq] at e
    rw [e.2, src, e.1]; rfl
  · have e : (graph.get? "note").map (fun n => (n.name, n.fn)) = some ("note", fun kw => nothing (kw.map (·.2))) := rfl
    rw [hn] at e
    simp only [Option.map_some, Option.some.injEq, Prod.mk.injEq] at e
    rw [e.2, src, e.1]; rfl
  · have e : (graph.get? "x").map (·.kind) = some NodeKind.external := rfl
    rw [hn] at e
    exact absurd (Option.some.inj e) hf

/-- All nodes are requested. -/
def nodes : List (Node Unit (Option Int)) := graph.map (·.2)

theorem nodes_ok : ∀ n ∈ nodes, graph.get? n.name = some n := by
  intro n hn
  obtain ⟨p, hp, rfl⟩ := List.mem_map.1 hn
  have h := Dict.get?_of_mem wf.keys_nodup (k := p.1) (v := p.2) hp
  rw [wf.name_eq h]
  exact h

theorem empty_sound : EntriesSound none code {} := fun _ _ _ h => by cases h

theorem empty_remembers : RemembersGraph graph src {} := fun _ _ h => by cases h

/-- Every node is cached. -/
def vars : List Name := legacyVars [] graph

/-- A run with `CacheAdapter`. -/
def shelved (x : Int) (t : LegacyCache (Option Int)) :=
  legacyRun (fun _ => true) (shelveAdapter src none vars) graph nodes [("x", some x)] [] t

/-- A run with `DiskCacheAdapter`. -/
def disked (x : Int) (t : LegacyCache (Option Int)) :=
  legacyRun (fun _ => true) (diskAdapter src none vars) graph nodes [("x", some x)] [] t

/-- Was the run a success? -/
def succeeded {σ ε : Type} : Out σ ε → Bool
  | .ok _ => true
  | .err _ _ => false

/-- The values of a run, and the functions invoked. -/
def seen {ε : Type} (o : Out (ExecState (Option Int) × HookState (Option Int) (LegacyCache (Option Int))) ε) :
    Bool × Dict Name (Option Int) × List Name :=
  (succeeded o, o.state.1.computed, (cacheAfter o).invoked.map (·.1))

end LegacySample

/-! ### The properties -/

section
variable {g : Graph T V} {src : Node T V → String} {pyNone : V} {code : String → List V → Except UserErr V}

/-- C65 for `CacheAdapter` (partial: no optional parameters, functions told apart by their source, one graph per adapter). A
run with the adapter has the outcome of a run without: the same values or the same exception, after the same nodes. Whatever
happens, what the cache holds afterwards is right. -/
theorem C65_shelve_partial (hw : WellFormed g) (ho : NoOptional g) (ht : SourceTells g src code) {nodes : List (Node T V)}
    (hnodes : ∀ n ∈ nodes, g.get? n.name = some n) (isException : UserErr → Bool) (vars : List Name)
    (inputs overrides : Dict Name V) {t : LegacyCache V} (hs : EntriesSound pyNone code t) (hr : RemembersGraph g src t) :
    withoutAdapter (legacyRun isException (shelveAdapter src pyNone vars) g nodes inputs overrides t)
      = executeSubdag g nodes inputs overrides ∧
    EntriesSound pyNone code (cacheAfter (legacyRun isException (shelveAdapter src pyNone vars) g nodes inputs overrides t)) ∧
    RemembersGraph g src (cacheAfter (legacyRun isException (shelveAdapter src pyNone vars) g nodes inputs overrides t)) := by
  obtain ⟨h1, h2⟩ := legacy_same hw ho hnodes (shelve_run_ok (vars := vars) hw ht isException) inputs overrides (t := t)
    ⟨hs, fun _ => hr⟩
  exact ⟨h1, h2.ok.sound, h2.ok.remembers rfl⟩

open LegacySample in
example := C65_shelve_partial wf noOptional tells nodes_ok (fun _ => true) vars [("x", some 4)] [] empty_sound empty_remembers

open LegacySample in
-- with the values of the run; the second time only the function without result is invoked
example : seen (shelved 4 {}) = (true, [("x", some 4), ("base", some 5), ("area", some 20), ("note", none)], ["base", "area", "note"]) ∧
    seen (shelved 4 (cacheAfter (shelved 4 {})))
      = (true, [("x", some 4), ("base", some 5), ("area", some 20), ("note", none)], ["base", "area", "note", "note"]) := by
  decide +kernel

/-- C65 for `DiskCacheAdapter` (partial: no optional parameters, functions told apart by their source). It may have been used
with other graphs before. -/
theorem C65_disk_partial (hw : WellFormed g) (ho : NoOptional g) (ht : SourceTells g src code) {nodes : List (Node T V)}
    (hnodes : ∀ n ∈ nodes, g.get? n.name = some n) (isException : UserErr → Bool) (vars : List Name)
    (inputs overrides : Dict Name V) {t : LegacyCache V} (hs : EntriesSound pyNone code t) :
    withoutAdapter (legacyRun isException (diskAdapter src pyNone vars) g nodes inputs overrides t)
      = executeSubdag g nodes inputs overrides ∧
    EntriesSound pyNone code (cacheAfter (legacyRun isException (diskAdapter src pyNone vars) g nodes inputs overrides t)) := by
  obtain ⟨h1, h2⟩ := legacy_same hw ho hnodes (disk_run_ok (vars := vars) hw ht isException) inputs overrides (t := t)
    ⟨hs, nofun⟩
  exact ⟨h1, h2.ok.sound⟩

open LegacySample in
example := C65_disk_partial wf noOptional tells nodes_ok (fun _ => true) vars [("x", some 12)] [] empty_sound

open LegacySample in
-- a run that raises does so with the adapter too
example : seen (disked 12 {}) = (false, [("x", some 12), ("base", some 13)], ["base", "area"]) ∧
    seen (disked 4 (cacheAfter (disked 12 {})))
      = (true, [("x", some 4), ("base", some 5), ("area", some 20), ("note", none)], ["base", "area", "base", "area", "note"]) := by
  decide +kernel

theorem mem_legacyVars {g : Graph T V} {cacheVars : List Name} {k : Name} {n : Node T V} (hk : g.get? k = some n)
    (h : cacheVars = [] ∨ k ∈ cacheVars) : k ∈ legacyVars cacheVars g := by
  unfold legacyVars
  split
  · exact Dict.mem_keys_iff.2 ⟨n, hk⟩
  · rename_i hne
    rcases h with h | h
    · subst h; exact absurd rfl hne
    · exact h

theorem repeat_selected {cacheVars : List Name} {α : Type} {p : α → Prop} {inv : α → List (Name × Dict Name V)}
    {l : List (Name × Dict Name V)}
    (h : ∃ u', p u' ∧ ∃ extra, inv u' = l ++ extra ∧
      ∀ c ∈ extra, ∃ n, g.get? c.1 = some n ∧ (c.1 ∈ legacyVars cacheVars g → n.fn c.2 = .ok pyNone)) :
    ∃ u', p u' ∧ ∃ extra, inv u' = l ++ extra ∧
      ∀ c ∈ extra, (cacheVars = [] ∨ c.1 ∈ cacheVars) → ∃ n, g.get? c.1 = some n ∧ n.fn c.2 = .ok pyNone := by
  obtain ⟨u', h1, extra, h2, h3⟩ := h
  refine ⟨u', h1, extra, h2, fun c hc hv => ?_⟩
  obtain ⟨n, hn, h4⟩ := h3 c hc
  exact ⟨n, hn, h4 (mem_legacyVars hn hv)⟩

theorem later_selected {cacheVars : List Name} {l l' calls : List (Name × Dict Name V)}
    (h : ∃ extra, l' = l ++ extra ∧
      ∀ c ∈ extra, c ∈ calls → ∃ n, g.get? c.1 = some n ∧ (c.1 ∈ legacyVars cacheVars g → n.fn c.2 = .ok pyNone)) :
    ∃ extra, l' = l ++ extra ∧
      ∀ c ∈ extra, (cacheVars = [] ∨ c.1 ∈ cacheVars) → c ∈ calls → ∃ n, g.get? c.1 = some n ∧ n.fn c.2 = .ok pyNone := by
  obtain ⟨extra, h2, h3⟩ := h
  refine ⟨extra, h2, fun c hc hv hcs => ?_⟩
  obtain ⟨n, hn, h4⟩ := h3 c hc hcs
  exact ⟨n, hn, h4 (mem_legacyVars hn hv)⟩

/-- C65, with `CacheAdapter` (partial as above): after a successful run, the same run once more gives the same values, and the
functions it invokes are those that were not selected for caching (without a selection, all are cached) or whose result was
`None`. -/
theorem C65_shelve_repeat_partial (hw : WellFormed g) (ho : NoOptional g) (ht : SourceTells g src code)
    {nodes : List (Node T V)} (hnodes : ∀ n ∈ nodes, g.get? n.name = some n) (isException : UserErr → Bool) (cacheVars : List Name)
    (inputs overrides : Dict Name V) {t : LegacyCache V} (hs : EntriesSound pyNone code t) (hr : RemembersGraph g src t)
    {s : ExecState V} {u : HookState V (LegacyCache V)}
    (h1 : legacyRun isException (shelveAdapter src pyNone (legacyVars cacheVars g)) g nodes inputs overrides t = .ok (s, u)) :
    ∃ u', legacyRun isException (shelveAdapter src pyNone (legacyVars cacheVars g)) g nodes inputs overrides u.st = .ok (s, u') ∧
      ∃ extra, u'.st.invoked = u.st.invoked ++ extra ∧
        ∀ c ∈ extra, (cacheVars = [] ∨ c.1 ∈ cacheVars) → ∃ n, g.get? c.1 = some n ∧ n.fn c.2 = .ok pyNone :=
  repeat_selected <| legacy_repeat hw ho hnodes (shelve_run_ok (vars := legacyVars cacheVars g) hw ht isException) inputs overrides ⟨hs, fun _ => hr⟩ h1

/-- C65, with `DiskCacheAdapter` (partial as above): the same run once more. -/
theorem C65_disk_repeat_partial (hw : WellFormed g) (ho : NoOptional g) (ht : SourceTells g src code)
    {nodes : List (Node T V)} (hnodes : ∀ n ∈ nodes, g.get? n.name = some n) (isException : UserErr → Bool) (cacheVars : List Name)
    (inputs overrides : Dict Name V) {t : LegacyCache V} (hs : EntriesSound pyNone code t)
    {s : ExecState V} {u : HookState V (LegacyCache V)}
    (h1 : legacyRun isException (diskAdapter src pyNone (legacyVars cacheVars g)) g nodes inputs overrides t = .ok (s, u)) :
    ∃ u', legacyRun isException (diskAdapter src pyNone (legacyVars cacheVars g)) g nodes inputs overrides u.st = .ok (s, u') ∧
      ∃ extra, u'.st.invoked = u.st.invoked ++ extra ∧
        ∀ c ∈ extra, (cacheVars = [] ∨ c.1 ∈ cacheVars) → ∃ n, g.get? c.1 = some n ∧ n.fn c.2 = .ok pyNone :=
  repeat_selected <| legacy_repeat hw ho hnodes (disk_run_ok (vars := legacyVars cacheVars g) hw ht isException) inputs overrides ⟨hs, nofun⟩ h1

/-- A successful run comes with its state. -/
theorem ok_of_succeeded {σ ε : Type} {o : Out σ ε} (h : LegacySample.succeeded o = true) : ∃ s, o = .ok s := by
  cases o with
  | ok s => exact ⟨s, rfl⟩
  | err e s => cases h

open LegacySample in
example : ∃ s u u', shelved 4 {} = .ok (s, u) ∧ shelved 4 u.st = .ok (s, u') ∧ u'.st.invoked ≠ u.st.invoked := by
  obtain ⟨⟨s, u⟩, h⟩ := ok_of_succeeded (o := shelved 4 {}) (by decide +kernel)
  obtain ⟨u', h1, _⟩ := C65_shelve_repeat_partial wf noOptional tells nodes_ok (fun _ => true) [] [("x", some 4)] []
    empty_sound empty_remembers h
  refine ⟨s, u, u', h, h1, ?_⟩
  have h2 : (cacheAfter (shelved 4 (cacheAfter (shelved 4 {})))).invoked ≠ (cacheAfter (shelved 4 {})).invoked := by
    decide +kernel
  rw [h] at h2
  change (cacheAfter (shelved 4 u.st)).invoked ≠ _ at h2
  unfold shelved vars at h2
  rw [h1] at h2
  exact h2

/-- C65 (partial as above): nor does a later run, of other nodes or on other inputs, invoke a cached function on arguments on
which the first run had it; whether the later run succeeds or not. -/
theorem C65_shelve_later_partial (hw : WellFormed g) (ho : NoOptional g) (ht : SourceTells g src code)
    {nodes nodes' : List (Node T V)} (hnodes : ∀ n ∈ nodes, g.get? n.name = some n)
    (hnodes' : ∀ n ∈ nodes', g.get? n.name = some n) (isException : UserErr → Bool) (cacheVars : List Name)
    (inputs overrides inputs' overrides' : Dict Name V) {t : LegacyCache V} (hs : EntriesSound pyNone code t)
    (hr : RemembersGraph g src t) {s : ExecState V} {u : HookState V (LegacyCache V)}
    (h1 : legacyRun isException (shelveAdapter src pyNone (legacyVars cacheVars g)) g nodes inputs overrides t = .ok (s, u)) :
    ∃ extra, (cacheAfter (legacyRun isException (shelveAdapter src pyNone (legacyVars cacheVars g)) g nodes' inputs' overrides' u.st)).invoked
        = u.st.invoked ++ extra ∧
      ∀ c ∈ extra, (cacheVars = [] ∨ c.1 ∈ cacheVars) → c ∈ s.calls → ∃ n, g.get? c.1 = some n ∧ n.fn c.2 = .ok pyNone :=
  later_selected <| legacy_again hw ho hnodes hnodes' (shelve_run_ok (vars := legacyVars cacheVars g) hw ht isException) inputs overrides inputs' overrides'
    ⟨hs, fun _ => hr⟩ h1

open LegacySample in
-- the result of a call, given instead of computed
example : seen (legacyRun (fun _ => true) (shelveAdapter LegacySample.src none vars) graph nodes [("x", some 4)] [("base", some 5)]
      (cacheAfter (shelved 4 {})))
    = (true, [("base", some 5), ("x", some 4), ("area", some 20), ("note", none)], ["base", "area", "note", "note"]) := by
  decide +kernel

/-- C65, with `DiskCacheAdapter` (partial as above): a later run. -/
theorem C65_disk_later_partial (hw : WellFormed g) (ho : NoOptional g) (ht : SourceTells g src code)
    {nodes nodes' : List (Node T V)} (hnodes : ∀ n ∈ nodes, g.get? n.name = some n)
    (hnodes' : ∀ n ∈ nodes', g.get? n.name = some n) (isException : UserErr → Bool) (cacheVars : List Name)
    (inputs overrides inputs' overrides' : Dict Name V) {t : LegacyCache V} (hs : EntriesSound pyNone code t)
    {s : ExecState V} {u : HookState V (LegacyCache V)}
    (h1 : legacyRun isException (diskAdapter src pyNone (legacyVars cacheVars g)) g nodes inputs overrides t = .ok (s, u)) :
    ∃ extra, (cacheAfter (legacyRun isException (diskAdapter src pyNone (legacyVars cacheVars g)) g nodes' inputs' overrides' u.st)).invoked
        = u.st.invoked ++ extra ∧
      ∀ c ∈ extra, (cacheVars = [] ∨ c.1 ∈ cacheVars) → c ∈ s.calls → ∃ n, g.get? c.1 = some n ∧ n.fn c.2 = .ok pyNone :=
  later_selected <| legacy_again hw ho hnodes hnodes' (disk_run_ok (vars := legacyVars cacheVars g) hw ht isException) inputs overrides inputs' overrides'
    ⟨hs, nofun⟩ h1

open LegacySample in
example : ∃ s u, disked 4 {} = .ok (s, u) := by
  obtain ⟨⟨s, u⟩, h⟩ := ok_of_succeeded (o := disked 4 {}) (by decide +kernel)
  exact ⟨s, u, h⟩

end

/-! ### Eviction -/

theorem get?_filter_key {K W : Type} [DecidableEq K] (d : Dict K W) (p : K → Bool) (k : K) :
    Dict.get? (d.filter (fun e => p e.1)) k = if p k = true then d.get? k else none := by
  induction d with
  | nil => simp [Dict.get?]
  | cons e d ih =>
    obtain ⟨k', w⟩ := e
    by_cases hk : k' = k
    · subst hk
      by_cases hp : p k' = true
      · rw [List.filter_cons_of_pos (by exact hp), Dict.get?_cons, Dict.get?_cons, if_pos rfl, if_pos rfl, if_pos hp]
      · rw [List.filter_cons_of_neg (by exact hp), ih, if_neg hp, if_neg hp]
    · by_cases hp : p k' = true
      · rw [List.filter_cons_of_pos (by exact hp), Dict.get?_cons, Dict.get?_cons, if_neg hk, if_neg hk, ih]
      · rw [List.filter_cons_of_neg (by exact hp), Dict.get?_cons, if_neg hk, ih]

/-- From `t` to `t'` exactly the entries with the tags `S` are lost. -/
def Evicted (S : List (Name × String)) (t t' : LegacyCache V) : Prop :=
  (∀ key v, t'.entries.get? key = some v ↔ t.entries.get? key = some v ∧ ∀ tag, t.tags.get? key = some tag → tag ∉ S) ∧
  (∀ key x, t'.tags.get? key = some x ↔ t.tags.get? key = some x ∧ x ∉ S)

theorem Evicted.trans {S S' : List (Name × String)} {t t' t'' : LegacyCache V} (h : Evicted S t t') (h' : Evicted S' t' t'') :
    Evicted (S ++ S') t t'' := by
  constructor
  · intro key v
    rw [h'.1, h.1]
    constructor
    · rintro ⟨⟨h1, h2⟩, h3⟩
      refine ⟨h1, fun tag ht hm => ?_⟩
      rcases List.mem_append.1 hm with hm | hm
      · exact h2 tag ht hm
      · exact h3 tag ((h.2 key tag).2 ⟨ht, h2 tag ht⟩) hm
    · rintro ⟨h1, h2⟩
      exact ⟨⟨h1, fun tag ht hm => h2 tag ht (List.mem_append_left _ hm)⟩,
        fun tag ht hm => h2 tag ((h.2 key tag).1 ht).1 (List.mem_append_right _ hm)⟩
  · intro key x
    rw [h'.2, h.2, List.mem_append, not_or, and_assoc]

theorem evictTag_evicted (tag : Name × String) (t : LegacyCache V) : Evicted [tag] t (evictTag tag t) := by
  constructor
  · intro key v
    simp only [evictTag]
    rw [get?_filter_key t.entries (fun k => t.tags.get? k != some tag)]
    by_cases h : t.tags.get? key = some tag
    · simp [h]
    · have hb : (t.tags.get? key != some tag) = true := by simpa using h
      rw [if_pos hb]
      refine ⟨fun h1 => ⟨h1, fun tag' ht hm => ?_⟩, fun h1 => h1.1⟩
      rw [List.mem_singleton] at hm
      subst hm
      exact h ht
  · intro key x
    simp only [evictTag]
    rw [get?_filter_key t.tags (fun k => t.tags.get? k != some tag)]
    by_cases h : t.tags.get? key = some tag
    · simp only [h, bne_self_eq_false, Bool.false_eq_true, if_false]
      constructor
      · exact nofun
      · rintro ⟨h1, h2⟩; cases h1; exact absurd (List.mem_singleton.2 rfl) h2
    · have hb : (t.tags.get? key != some tag) = true := by simpa using h
      rw [if_pos hb]
      refine ⟨fun h1 => ⟨h1, fun hm => ?_⟩, fun h1 => h1.1⟩
      rw [List.mem_singleton] at hm
      subst hm
      exact h h1

theorem evictAll_evicted (node : Name) : ∀ (l : List String) (t : LegacyCache V),
    Evicted (l.map (fun h => (node, h))) t (evictAll node l t)
  | [], t => ⟨by simp [evictAll], by simp [evictAll]⟩
  | h :: rest, t => (evictTag_evicted (node, h) t).trans (evictAll_evicted node rest _)

/-- The tags `evict_all_except` evicts. -/
def toEvict (keep : Name → Option String) (hist : Dict Name (List String)) : List (Name × String) :=
  hist.flatMap fun e =>
    match keep e.1 with
    | some h => (e.2.erase h).map (fun x => (e.1, x))
    | none => e.2.map (fun x => (e.1, x))

theorem toEvict_cons (keep : Name → Option String) (node : Name) (l : List String) (rest : Dict Name (List String)) :
    toEvict keep ((node, l) :: rest) = (match keep node with
      | some h => (l.erase h).map (fun x => (node, x))
      | none => l.map (fun x => (node, x))) ++ toEvict keep rest := rfl

theorem evictLoop_spec (keep : Name → Option String) : ∀ (hist : Dict Name (List String)) (t : LegacyCache V) {news k t'},
    evictLoop keep hist t = some (news, k, t') → Evicted (toEvict keep hist) t t' ∧ k = (toEvict keep hist).length ∧
      ∀ node l, (node, l) ∈ news ↔ ∃ h, keep node = some h ∧ l = [h] ∧ ∃ old, (node, old) ∈ hist ∧ h ∈ old
  | [], t, news, k, t', h => by
    simp only [evictLoop, Option.some.injEq, Prod.mk.injEq] at h
    obtain ⟨rfl, rfl, rfl⟩ := h
    exact ⟨⟨by simp [toEvict], by simp [toEvict]⟩, rfl, by simp⟩
  | (node, l) :: rest, t, news, k, t', h => by
    rw [toEvict_cons]
    unfold evictLoop at h
    by_cases hl : l.length < 1
    · rw [if_pos hl] at h
      have : l = [] := List.length_eq_zero_iff.1 (by omega)
      subst this
      have ih := evictLoop_spec keep rest t h
      refine ⟨?_, ?_, ?_⟩
      · have : (match keep node with
          | some h => (([] : List String).erase h).map (fun x => (node, x))
          | none => ([] : List String).map (fun x => (node, x))) = [] := by split <;> rfl
        rw [this]
        exact ih.1
      · have : (match keep node with
          | some h => (([] : List String).erase h).map (fun x => (node, x))
          | none => ([] : List String).map (fun x => (node, x))) = [] := by split <;> rfl
        rw [this]
        exact ih.2.1
      · intro node' l'
        rw [ih.2.2]
        constructor
        · rintro ⟨h, h1, h2, old, h3, h4⟩; exact ⟨h, h1, h2, old, List.mem_cons_of_mem _ h3, h4⟩
        · rintro ⟨h, h1, h2, old, h3, h4⟩
          refine ⟨h, h1, h2, old, ?_, h4⟩
          rcases List.mem_cons.1 h3 with h3 | h3
          · cases h3; cases h4
          · exact h3
    · rw [if_neg hl] at h
      cases hk : keep node with
      | some c =>
        simp only [hk] at h
        by_cases hc : c ∈ l
        · rw [if_pos hc] at h
          cases hr : evictLoop keep rest (evictAll node (l.erase c) t) with
          | none => rw [hr] at h; cases h
          | some r =>
            obtain ⟨news', k', t''⟩ := r
            rw [hr] at h
            simp only [Option.some.injEq, Prod.mk.injEq] at h
            obtain ⟨rfl, rfl, rfl⟩ := h
            have ih := evictLoop_spec keep rest _ hr
            refine ⟨(evictAll_evicted node (l.erase c) t).trans ih.1, by simp [ih.2.1], ?_⟩
            intro node' l'
            rw [List.mem_cons, ih.2.2]
            constructor
            · rintro (h | ⟨h, h1, h2, old, h3, h4⟩)
              · cases h; exact ⟨c, hk, rfl, l, List.mem_cons_self, hc⟩
              · exact ⟨h, h1, h2, old, List.mem_cons_of_mem _ h3, h4⟩
            · rintro ⟨h, h1, h2, old, h3, h4⟩
              rcases List.mem_cons.1 h3 with h3 | h3
              · cases h3; rw [hk] at h1; cases h1; exact .inl (by rw [h2])
              · exact .inr ⟨h, h1, h2, old, h3, h4⟩
        · rw [if_neg hc] at h; cases h
      | none =>
        simp only [hk] at h
        cases hr : evictLoop keep rest (evictAll node l t) with
        | none => rw [hr] at h; cases h
        | some r =>
          obtain ⟨news', k', t''⟩ := r
          rw [hr] at h
          simp only [Option.some.injEq, Prod.mk.injEq] at h
          obtain ⟨rfl, rfl, rfl⟩ := h
          have ih := evictLoop_spec keep rest _ hr
          refine ⟨(evictAll_evicted node l t).trans ih.1, by simp [ih.2.1], ?_⟩
          intro node' l'
          rw [ih.2.2]
          constructor
          · rintro ⟨h, h1, h2, old, h3, h4⟩; exact ⟨h, h1, h2, old, List.mem_cons_of_mem _ h3, h4⟩
          · rintro ⟨h, h1, h2, old, h3, h4⟩
            refine ⟨h, h1, h2, old, ?_, h4⟩
            rcases List.mem_cons.1 h3 with h3 | h3
            · cases h3; rw [hk] at h1; cases h1
            · exact h3

theorem evictLoop_returns (keep : Name → Option String) : ∀ (hist : Dict Name (List String)) (t : LegacyCache V),
    (∀ node l h, (node, l) ∈ hist → keep node = some h → h ∈ l) → ∃ r, evictLoop keep hist t = some r
  | [], t, _ => ⟨_, rfl⟩
  | (node, l) :: rest, t, hh => by
    have hrest : ∀ node l h, (node, l) ∈ rest → keep node = some h → h ∈ l :=
      fun node l h hm => hh node l h (List.mem_cons_of_mem _ hm)
    unfold evictLoop
    by_cases hl : l.length < 1
    · rw [if_pos hl]; exact evictLoop_returns keep rest t hrest
    · rw [if_neg hl]
      cases hk : keep node with
      | some c =>
        simp only
        rw [if_pos (hh node l c List.mem_cons_self hk)]
        obtain ⟨r, hr⟩ := evictLoop_returns keep rest (evictAll node (l.erase c) t) hrest
        rw [hr]
        exact ⟨_, rfl⟩
      | none =>
        simp only
        obtain ⟨r, hr⟩ := evictLoop_returns keep rest (evictAll node l t) hrest
        rw [hr]
        exact ⟨_, rfl⟩

theorem evictLoop_count (keep : Name → Option String) : ∀ (hist : Dict Name (List String)) (t : LegacyCache V) {news k t'},
    evictLoop keep hist t = some (news, k, t') → k + news.length = (hist.map (fun e => e.2.length)).sum
  | [], t, news, k, t', h => by
    simp only [evictLoop, Option.some.injEq, Prod.mk.injEq] at h
    obtain ⟨rfl, rfl, rfl⟩ := h
    rfl
  | (node, l) :: rest, t, news, k, t', h => by
    unfold evictLoop at h
    simp only [List.map_cons, List.sum_cons]
    by_cases hl : l.length < 1
    · rw [if_pos hl] at h
      have ih := evictLoop_count keep rest t h
      omega
    · rw [if_neg hl] at h
      cases hk : keep node with
      | some c =>
        simp only [hk] at h
        by_cases hc : c ∈ l
        · rw [if_pos hc] at h
          cases hr : evictLoop keep rest (evictAll node (l.erase c) t) with
          | none => rw [hr] at h; cases h
          | some r =>
            obtain ⟨news', k', t''⟩ := r
            rw [hr] at h
            simp only [Option.some.injEq, Prod.mk.injEq] at h
            obtain ⟨rfl, rfl, rfl⟩ := h
            have ih := evictLoop_count keep rest _ hr
            have he := List.length_erase_of_mem hc
            simp only [List.length_cons]
            omega
        · rw [if_neg hc] at h; cases h
      | none =>
        simp only [hk] at h
        cases hr : evictLoop keep rest (evictAll node l t) with
        | none => rw [hr] at h; cases h
        | some r =>
          obtain ⟨news', k', t''⟩ := r
          rw [hr] at h
          simp only [Option.some.injEq, Prod.mk.injEq] at h
          obtain ⟨rfl, rfl, rfl⟩ := h
          have ih := evictLoop_count keep rest _ hr
          omega

theorem mem_toEvict {keep : Name → Option String} {hist : Dict Name (List String)} {node : Name} {x : String} :
    (node, x) ∈ toEvict keep hist ↔ ∃ l, (node, l) ∈ hist ∧
      (match keep node with | some h => x ∈ l.erase h | none => x ∈ l) := by
  unfold toEvict
  rw [List.mem_flatMap]
  constructor
  · rintro ⟨⟨node', l⟩, hm, hx⟩
    simp only at hx
    cases hk : keep node' with
    | some h =>
      rw [hk] at hx
      obtain ⟨y, hy, he⟩ := List.mem_map.1 hx
      cases he
      exact ⟨l, hm, by rw [hk]; exact hy⟩
    | none =>
      rw [hk] at hx
      obtain ⟨y, hy, he⟩ := List.mem_map.1 hx
      cases he
      exact ⟨l, hm, by rw [hk]; exact hy⟩
  · rintro ⟨l, hm, hx⟩
    refine ⟨(node, l), hm, ?_⟩
    simp only
    cases hk : keep node with
    | some h => rw [hk] at hx; exact List.mem_map.2 ⟨x, hx, rfl⟩
    | none => rw [hk] at hx; exact List.mem_map.2 ⟨x, hx, rfl⟩

/-- C65, for `evict_all_except` (partial: the version to keep was computed exactly once per node, see the violation below). It
returns, and an entry remains exactly if it was there and is a version to keep. -/
theorem C65_evict_partial {t : LegacyCache V} (ht : TagsRecorded t) (hn : t.history.keys.Nodup) (keep : Name → Option String)
    (hk : ∀ node l h, t.history.get? node = some l → keep node = some h → l.count h = 1) :
    ∃ k t', evictAllExcept keep t = some (k, t') ∧
      ∀ key v, t'.entries.get? key = some v ↔
        t.entries.get? key = some v ∧ ∃ node h, t.tags.get? key = some (node, h) ∧ keep node = some h := by
  obtain ⟨r, hr⟩ := evictLoop_returns keep t.history t (by
    intro node l h hm hkeep
    have := hk node l h (Dict.get?_of_mem hn hm) hkeep
    exact List.count_pos_iff.1 (by omega))
  obtain ⟨news, k, t'⟩ := r
  have hspec := evictLoop_spec keep _ _ hr
  refine ⟨k, { t' with history := news }, by rw [evictAllExcept, hr], fun key v => ?_⟩
  change t'.entries.get? key = some v ↔ _
  rw [hspec.1.1]
  constructor
  · rintro ⟨h1, h2⟩
    obtain ⟨node, hash, hist, h3, h4, h5⟩ := ht key v h1
    refine ⟨h1, node, hash, h3, ?_⟩
    have h6 := h2 _ h3
    rw [mem_toEvict] at h6
    cases hkn : keep node with
    | none => exact absurd ⟨hist, Dict.get?_mem h4, by rw [hkn]; exact h5⟩ h6
    | some h =>
      by_cases he : hash = h
      · rw [he]
      · exact absurd ⟨hist, Dict.get?_mem h4, by rw [hkn]; exact (List.mem_erase_of_ne he).2 h5⟩ h6
  · rintro ⟨h1, node, h, h2, h3⟩
    refine ⟨h1, fun tag htag => ?_⟩
    rw [h2] at htag
    cases htag
    rw [mem_toEvict]
    rintro ⟨l, h4, h5⟩
    rw [h3] at h5
    simp only at h5
    have h6 := hk node l h (Dict.get?_of_mem hn h4) h3
    have h7 : 0 < (l.erase h).count h := List.count_pos_iff.2 h5
    rw [List.count_erase_self] at h7
    omega

/-- C65, for `evict_all_except`, without knowing how often the versions were computed: if it returns, nothing remains but
versions to keep, the history lists the versions kept, and the number returned is how many the history lost. -/
theorem C65_evict_rest {t t' : LegacyCache V} {k : Nat} (ht : TagsRecorded t) (hn : t.history.keys.Nodup)
    (keep : Name → Option String) (h : evictAllExcept keep t = some (k, t')) :
    (∀ key v, t'.entries.get? key = some v →
      t.entries.get? key = some v ∧ ∃ node h, t.tags.get? key = some (node, h) ∧ keep node = some h) ∧
    (∀ node l, (node, l) ∈ t'.history ↔ ∃ h, keep node = some h ∧ l = [h] ∧ ∃ old, t.history.get? node = some old ∧ h ∈ old) ∧
    k + t'.history.length = (t.history.map (fun e => e.2.length)).sum := by
  unfold evictAllExcept at h
  cases hr : evictLoop keep t.history t with
  | none => rw [hr] at h; cases h
  | some r =>
    obtain ⟨news, k', t1⟩ := r
    rw [hr] at h
    simp only [Option.some.injEq, Prod.mk.injEq] at h
    obtain ⟨rfl, rfl⟩ := h
    have hspec := evictLoop_spec keep _ _ hr
    refine ⟨?_, ?_, evictLoop_count keep _ _ hr⟩
    · intro key v hv
      obtain ⟨h1, h2⟩ := (hspec.1.1 key v).1 hv
      obtain ⟨node, hash, hist, h3, h4, h5⟩ := ht key v h1
      refine ⟨h1, node, hash, h3, ?_⟩
      have h6 := h2 _ h3
      rw [mem_toEvict] at h6
      cases hkn : keep node with
      | none => exact absurd ⟨hist, Dict.get?_mem h4, by rw [hkn]; exact h5⟩ h6
      | some h =>
        by_cases he : hash = h
        · rw [he]
        · exact absurd ⟨hist, Dict.get?_mem h4, by rw [hkn]; exact (List.mem_erase_of_ne he).2 h5⟩ h6
    · intro node l
      rw [hspec.2.2]
      constructor
      · rintro ⟨h, h1, h2, old, h3, h4⟩; exact ⟨h, h1, h2, old, Dict.get?_of_mem hn h3, h4⟩
      · rintro ⟨h, h1, h2, old, h3, h4⟩; exact ⟨h, h1, h2, old, Dict.get?_mem h3, h4⟩

/-! ### What the history says -/

/-- The history is one entry per node and lists everything in the cache. -/
def HistoryOk (t : LegacyCache V) : Prop := TagsRecorded t ∧ t.history.keys.Nodup

theorem historyOk_append {t : LegacyCache V} (h : HistoryOk t) (node : Name) (x : String) (used : Dict Name String)
    (inv : List (Name × Dict Name V)) :
    HistoryOk { t with used := used, history := t.history.set node ((t.history.get? node).getD [] ++ [x]), invoked := inv } := by
  refine ⟨?_, Dict.keys_set_nodup h.2 _ _⟩
  intro key v hv
  obtain ⟨node', hash, hist, h1, h2, h3⟩ := h.1 key v hv
  by_cases he : node = node'
  · subst he
    exact ⟨node, hash, _, h1, Dict.get?_set_self _ _ _, by rw [h2]; exact List.mem_append_left _ h3⟩
  · exact ⟨node', hash, hist, h1, (Dict.get?_set_ne _ _ he).trans h2, h3⟩

theorem disk_history (src : Node T V → String) (pyNone : V) (vars : List Name) (n : Node T V) (kw : Dict Name V)
    {t : LegacyCache V} (h : HistoryOk t) :
    ∃ t', diskAfter pyNone vars n kw (resultOf (diskExec src pyNone vars n kw t).1) (diskExec src pyNone vars n kw t).2 = some t' ∧
      HistoryOk t' := by
  by_cases hm : n.name ∈ vars
  · unfold diskExec
    rw [if_pos hm]
    cases hg : t.entries.get? (legacyKey (src n) kw) with
    | none =>
      simp only [invoke]
      unfold diskAfter
      rw [if_pos hm]
      simp only [Dict.get?_set_self]
      rw [if_neg (by rw [Dict.has, hg]; simp)]
      refine ⟨_, rfl, ?_, Dict.keys_set_nodup h.2 _ _⟩
      intro key v hv
      simp only at hv ⊢
      by_cases he : legacyKey (src n) kw = key
      · subst he
        exact ⟨n.name, src n, _, Dict.get?_set_self _ _ _, Dict.get?_set_self _ _ _, by simp⟩
      · rw [Dict.get?_set_ne _ _ he] at hv
        obtain ⟨node', hash, hist, h1, h2, h3⟩ := (historyOk_append h n.name (src n) t.used t.invoked).1 key v hv
        exact ⟨node', hash, hist, (Dict.get?_set_ne _ _ he).trans h1, h2, h3⟩
    | some v =>
      by_cases hv : v = pyNone
      · simp only [if_pos hv, invoke]
        unfold diskAfter
        rw [if_pos hm]
        simp only [Dict.get?_set_self]
        rw [if_pos (by rw [Dict.has, hg]; rfl)]
        exact ⟨_, rfl, historyOk_append h _ _ _ _⟩
      · simp only [if_neg hv]
        unfold diskAfter
        rw [if_pos hm]
        simp only [Dict.get?_set_self]
        rw [if_pos (by rw [Dict.has, hg]; rfl)]
        exact ⟨_, rfl, h⟩
  · unfold diskExec diskAfter
    rw [if_neg hm, if_neg hm]
    exact ⟨_, rfl, h⟩

/-- C65, for `DiskCacheAdapter`: a run of any graph, successful or not, keeps the history complete, so that
`evict_all_except` knows about everything in the cache. -/
theorem C65_disk_history {g : Graph T V} (hw : WellFormed g) {nodes : List (Node T V)}
    (hnodes : ∀ n ∈ nodes, g.get? n.name = some n) (isException : UserErr → Bool) (src : Node T V → String) (pyNone : V)
    (vars : List Name) (inputs overrides : Dict Name V) {t : LegacyCache V} (h1 : TagsRecorded t) (h2 : t.history.keys.Nodup) :
    TagsRecorded (cacheAfter (legacyRun isException (diskAdapter src pyNone vars) g nodes inputs overrides t)) ∧
    (cacheAfter (legacyRun isException (diskAdapter src pyNone vars) g nodes inputs overrides t)).history.keys.Nodup := by
  have hp : Preserved g inputs overrides (nodes.map (·.name)) (executeLifecycle isException [diskAdapter src pyNone vars])
      (fun _ u => HistoryOk u.st) (fun _ _ u => HistoryOk u.st) := by
    refine ⟨fun h _ _ => h, fun h _ _ _ => h, fun h _ _ => h, ?_⟩
    intro s u k n h _ _ _ kw _
    obtain ⟨t', h3, h4⟩ := disk_history src pyNone vars n kw h
    obtain ⟨_, h5⟩ := disk_step isException src pyNone vars n kw u h3
    rw [← h5] at h4
    revert h4
    cases executeLifecycle isException [diskAdapter src pyNone vars] n kw u with
    | mk o u' => intro h4; cases o <;> exact h4
  have h := executeWith_preserved hw hnodes hp (t := ⟨[], t⟩) ⟨h1, h2⟩
  change Holds _ _ (legacyRun isException (diskAdapter src pyNone vars) g nodes inputs overrides t) at h
  revert h
  cases legacyRun isException (diskAdapter src pyNone vars) g nodes inputs overrides t <;> exact id

namespace LegacySample

theorem empty_tags : TagsRecorded ({} : LegacyCache (Option Int)) := fun _ _ h => by cases h

/-- The cache after a run. -/
def once : LegacyCache (Option Int) := cacheAfter (disked 4 {})

theorem once_ok : TagsRecorded once ∧ once.history.keys.Nodup :=
  C65_disk_history wf nodes_ok (fun _ => true) src none vars [("x", some 4)] [] empty_tags (by decide)

/-- The functions after an edit: `base` and `note` are as before, `area` is gone. -/
def kept (k : Name) : Option String := if k = "base" then some "base" else if k = "note" then some "note" else none

theorem once_counts : ∀ node l h, once.history.get? node = some l → kept node = some h → l.count h = 1 := by
  have hall : once.history.all (fun e => match kept e.1 with | some h => decide (e.2.count h = 1) | none => true) = true := by
    decide +kernel
  intro node l h hl hk
  rw [List.all_eq_true] at hall
  have := hall _ (Dict.get?_mem hl)
  simp only [hk] at this
  exact of_decide_eq_true this

-- the theorem applies to the cache after a run; the entry of `area` goes, the others stay
example := C65_evict_partial once_ok.1 once_ok.2 kept once_counts

example : (evictAllExcept kept once).map (fun r => r.2.entries.keys) = some [("base", [some 4]), ("note", [some 20])] ∧
    (evictAllExcept kept once).map (fun r => r.2.history) = some [("base", ["base"]), ("note", ["note"])] ∧
    (evictAllExcept kept once).map (fun r => r.1) = some 1 ∧
    once.entries.length = 3 := by decide +kernel

example (k : Nat) (t' : LegacyCache (Option Int)) (h : evictAllExcept kept once = some (k, t')) :=
  C65_evict_rest once_ok.1 once_ok.2 kept h

/-! ### Violations -/

/-- The cache after runs on two inputs. -/
def twice : LegacyCache (Option Int) := cacheAfter (disked 5 (cacheAfter (disked 4 {})))

/-- C65 is violated by `evict_all_except`: of a version that was computed for two inputs, only one occurrence is taken off the
list (h_diskcache.py:30), so the version to keep is evicted; although nothing was edited, the cache is empty afterwards. -/
theorem C65_violated_evict : kept "base" = some "base" ∧ ("base", [some 4]) ∈ twice.entries.keys ∧
    (evictAllExcept (fun k => some k) twice).map (fun r => r.2.entries) = some [] := by decide +kernel

/-- C65 is violated by `evict_all_except`: after an edit of a function it raises `ValueError` instead of evicting the old
version, unless the new one was run (h_diskcache.py:30). -/
theorem C65_violated_evict_edit : (evictAllExcept (fun k => some (k ++ " v2")) once).isNone = true := by decide +kernel

/-- `def wide(big): …` twice, made by a decorator from one function. -/
def twins : List (Node Unit (Option Int)) :=
  [posNode "high" ["x"] plusOne, posNode "low" ["x"] (fun vs => match vs with | [some x] => .ok (some (x - 1)) | _ => .error "TypeError")]

/-- Their graph. -/
def twinGraph : Graph Unit (Option Int) :=
  match createFunctionGraph Sample.tm () [] false twins with
  | .ok g => g
  | .error _ => []

/-- What a plain run of all nodes gives. -/
def plain (g : Graph Unit (Option Int)) (inputs : Dict Name (Option Int)) : Dict Name (Option Int) :=
  (executeSubdag g (g.map (·.2)) inputs []).state.computed

/-- What a run with an adapter gives. -/
def cached (a : Adapter Unit (Option Int) (LegacyCache (Option Int))) (g : Graph Unit (Option Int))
    (inputs : Dict Name (Option Int)) (t : LegacyCache (Option Int)) : Dict Name (Option Int) :=
  (legacyRun (fun _ => true) a g (g.map (·.2)) inputs [] t).state.1.computed

/-- C65 is violated: nodes made from one function, like the extractors of `@extract_fields` (expanders.py:829-845) and
`@extract_columns` (expanders.py:672-690), have the same source. The key tells neither the node nor the field, so one node gets
the value of the other; with both adapters. -/
theorem C65_violated_same_source :
    plain twinGraph [("x", some 4)] = [("x", some 4), ("high", some 5), ("low", some 3)] ∧
    cached (shelveAdapter (fun _ => "def extractor_fn") none ["high", "low"]) twinGraph [("x", some 4)] {}
      = [("x", some 4), ("high", some 5), ("low", some 5)] ∧
    cached (diskAdapter (fun _ => "def extractor_fn") none ["high", "low"]) twinGraph [("x", some 4)] {}
      = [("x", some 4), ("high", some 5), ("low", some 5)] := by decide +kernel

/-- `def diff(a=0, b=0): return a - b`. -/
def optFns : List (Node Unit (Option Int)) :=
  [{ name := "diff", typ := (), kind := .standard, inputTypes := [("a", ((), .optional)), ("b", ((), .optional))],
     dependencies := [], dependedOnBy := [],
     fn := fun kw => .ok (some ((((kw.get? "a").getD none).getD 0) - (((kw.get? "b").getD none).getD 0))) }]

/-- Its graph. -/
def optGraph : Graph Unit (Option Int) :=
  match createFunctionGraph Sample.tm () [] false optFns with
  | .ok g => g
  | .error _ => []

/-- C65 is violated: the key has the values of the arguments but not their names (default.py:435, h_diskcache.py:111). With
optional parameters `a=5` is mistaken for `b=5`. -/
theorem C65_violated_optional :
    plain optGraph [("b", some 5)] = [("b", some 5), ("diff", some (-5))] ∧
    cached (shelveAdapter src none ["diff"]) optGraph [("b", some 5)]
        (cacheAfter (legacyRun (fun _ => true) (shelveAdapter src none ["diff"]) optGraph (optGraph.map (·.2)) [("a", some 5)] [] {}))
      = [("b", some 5), ("diff", some 5)] := by decide +kernel

/-- C65 is violated by `CacheAdapter` used for two graphs: the source remembered from a run of the one graph is taken for that of
a node of the other when the result comes from the cache (default.py:410-415), which overwrites a right entry by a wrong one.
First the one version is run, then the other, then the first from the cache: now its value is stored for the other version. -/
theorem C65_violated_two_graphs :
    let g1 := twinGraph
    let old : Node Unit (Option Int) → String := fun n => n.name ++ " v1"
    let new : Node Unit (Option Int) → String := fun n => n.name ++ " v2"
    let g2 : Graph Unit (Option Int) := match createFunctionGraph Sample.tm () [] false
        [posNode "high" ["x"] (fun _ => .ok (some 100))] with | .ok g => g | .error _ => []
    let run (s : Node Unit (Option Int) → String) (g : Graph Unit (Option Int)) (t : LegacyCache (Option Int)) :=
      cacheAfter (legacyRun (fun _ => true) (shelveAdapter s none ["high"]) g (g.map (·.2)) [("x", some 4)] [] t)
    plain g2 [("x", some 4)] = [("x", some 4), ("high", some 100)] ∧
    cached (shelveAdapter new none ["high"]) g2 [("x", some 4)] (run old g1 (run new g2 (run old g1 {})))
      = [("x", some 4), ("high", some 5)] := by decide +kernel

/-- C65 is violated by `DiskCacheAdapter`: a function that raised once is never cached for these arguments, since the `None`
stored then stays (`cache.add`, h_diskcache.py:138). Here `area` raises for want of a file, and then is invoked each time. -/
theorem C65_violated_failed_once :
    let flaky (up : Bool) : Graph Unit (Option Int) := match createFunctionGraph Sample.tm () [] false
        [posNode "area" ["x"] (fun vs => if up then plusOne vs else .error "down")] with | .ok g => g | .error _ => []
    let run (up : Bool) (t : LegacyCache (Option Int)) :=
      cacheAfter (legacyRun (fun _ => true) (diskAdapter src none ["area"]) (flaky up) ((flaky up).map (·.2)) [("x", some 4)] [] t)
    ((run true (run true (run true {}))).invoked.length = 1) ∧
    ((run true (run true (run true (run false {})))).invoked.length = 4) := by decide +kernel

end LegacySample

end Verif
