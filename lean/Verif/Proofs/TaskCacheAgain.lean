import Verif.Proofs.TaskCacheRun

/-! Running again: what is in the stores is not executed. -/
namespace Verif.TaskCache
variable {V : Type} {env : TaskEnv V} {col : String → String → Option Name}
  {impl : String → String → Dict Name V → Except UserErr V} {H : V → String}

/-- The stores have a result for the key. -/
def Has (s : State V) (k : String) : Prop := ∃ x, s.store.get? (some k) = some x ∧ s.results.get? x ≠ none

/-- The versions in the metadata store are fingerprints. -/
def Hashed (env : TaskEnv V) (s : State V) : Prop := ∀ k x, s.store.get? k = some x → ∃ v, env.hash v = some x

theorem versionData_pure (hH : ∀ v, env.hash v = some (H v)) (v : V) (s : State V) : s.versionData env v = (H v, s) := by
  unfold State.versionData
  rw [hH v]

theorem versionItems_pure (hH : ∀ v, env.hash v = some (H v)) : ∀ (vs : List V) (s : State V),
    s.versionItems env vs = (vs.map H, s)
  | [], _ => rfl
  | v :: rest, s => by
    simp only [State.versionItems, versionData_pure hH, versionItems_pure hH rest s, List.map_cons]

theorem depVersion_pure (hH : ∀ v, env.hash v = some (H v)) {f : Flow V} (hd : ∀ n, f.behaviorOf n ≠ .disable) (c : Option Name)
    (task : String) (d : Name) (v : V) (vs : Dict Name Entry) :
    ∃ r, ∀ s : State V, s.versions = vs → depVersion env f c task d v s = (r, s) := by
  have hl : ∃ r, ∀ s : State V, s.versions = vs → lookupDep env task d v s = (r, s) := by
    unfold lookupDep
    cases he : vs.get? d with
    | none => exact ⟨.ok (H v), fun s h => by rw [h, he]; simp only [versionData_pure hH]⟩
    | some e =>
      cases e with
      | one x => exact ⟨.ok x, fun s h => by rw [h, he]⟩
      | perTask m =>
        cases hm : m.get? task with
        | none => exact ⟨.error "TypeError", fun s h => by rw [h, he]; simp only [hm]⟩
        | some x => exact ⟨.ok x, fun s h => by rw [h, he]; simp only [hm]⟩
  have main : ∃ r, ∀ s : State V, s.versions = vs →
      (if c = some d then
        ((.ok (env.hashList (sortBy strLe (s.versionItems env (env.items v)).1)), (s.versionItems env (env.items v)).2) :
          Except UserErr String × State V)
      else match f.kinds d with
        | .expand => (.ok (s.versionData env v).1, (s.versionData env v).2)
        | _ => lookupDep env task d v s) = (r, s) := by
    by_cases hc : c = some d
    · exact ⟨.ok (env.hashList (sortBy strLe ((env.items v).map H))), fun s _ => by rw [if_pos hc, versionItems_pure hH]⟩
    · obtain ⟨r, hr⟩ := hl
      cases hk : f.kinds d with
      | expand => exact ⟨.ok (H v), fun s _ => by rw [if_neg hc]; simp only [versionData_pure hH]⟩
      | plain => exact ⟨r, fun s h => by rw [if_neg hc]; exact hr s h⟩
      | collect e => exact ⟨r, fun s h => by rw [if_neg hc]; exact hr s h⟩
  unfold depVersion
  cases hb : f.behaviorOf d with
  | ignore => exact ⟨.ok "<ignore>", fun _ _ => rfl⟩
  | disable => exact absurd hb (hd d)
  | default => exact main
  | recompute => exact main

theorem depVersions_pure (hH : ∀ v, env.hash v = some (H v)) {f : Flow V} (hd : ∀ n, f.behaviorOf n ≠ .disable) (c : Option Name)
    (task : String) (vs : Dict Name Entry) : ∀ (kw : Dict Name V) (acc : Dict Name String),
    ∃ r, ∀ s : State V, s.versions = vs → depVersions env f c task kw acc s = (r, s)
  | [], acc => ⟨.ok acc, fun _ _ => rfl⟩
  | (d, v) :: rest, acc => by
    obtain ⟨r, hr⟩ := depVersion_pure hH hd c task d v vs
    cases r with
    | error e => exact ⟨.error e, fun s h => by simp only [depVersions, hr s h]⟩
    | ok x =>
      obtain ⟨r2, hr2⟩ := depVersions_pure hH hd c task vs rest (acc.set d x)
      exact ⟨r2, fun s h => by simp only [depVersions, hr s h]; exact hr2 s h⟩

/-- Remember a key, or raise. -/
def applyKey (role : Role) (name : Name) (task : String) (r : Except UserErr String) (s : State V) :
    Except UserErr Unit × State V :=
  match r with
  | .error e => (.error e, s)
  | .ok key => setKey role name task key s

theorem preNode_pure (hH : ∀ v, env.hash v = some (H v)) {f : Flow V} (hd : ∀ n, f.behaviorOf n ≠ .disable) (name : Name)
    (hi : f.behaviorOf name ≠ .ignore) (task : String) (kw : Dict Name V) (vs : Dict Name Entry) :
    ∃ r, ∀ s : State V, s.versions = vs →
      preNode env f name task kw s = applyKey (roleOf (f.kinds name) name task) name task r s := by
  obtain ⟨r, hr⟩ := depVersions_pure hH hd (collected (f.kinds name)) task vs kw []
  unfold preNode
  cases hb : f.behaviorOf name with
  | ignore => exact absurd hb hi
  | disable => exact absurd hb (hd name)
  | default =>
    cases r with
    | error e => exact ⟨.error e, fun s h => by simp only [hr s h]; rfl⟩
    | ok deps => exact ⟨.ok (createCacheKey env.codec env.alnum name (f.codes name) deps), fun s h => by simp only [hr s h]; rfl⟩
  | recompute =>
    cases r with
    | error e => exact ⟨.error e, fun s h => by simp only [hr s h]; rfl⟩
    | ok deps => exact ⟨.ok (createCacheKey env.codec env.alnum name (f.codes name) deps), fun s h => by simp only [hr s h]; rfl⟩

theorem setVersion_congr {role : Role} {name : Name} {task x : String} {s s2 : State V} (h : s.versions = s2.versions) :
    (setVersion role name task x s).2.versions = (setVersion role name task x s2).2.versions := by
  unfold setVersion
  cases role with
  | expand => simp only [h]
  | inside => simp only [h]; split <;> simp [h]
  | outside => simp only [h]; split <;> simp [h]
  | collect => simp only [h]; split <;> simp [h]

theorem setKey_congr {role : Role} {name : Name} {task x : String} {s s2 : State V} (h : s.keys = s2.keys) :
    (setKey role name task x s).2.keys = (setKey role name task x s2).2.keys := by
  unfold setKey
  simp only [h]
  split <;> simp [h]

/-- A node was executed, or its result retrieved. -/
structure After (env : TaskEnv V) (H : V → String) (f : Flow V) (name : Name) (task key : String) (s s' : State V) (v : V) :
    Prop where
  versions : s'.versions = (setVersion (roleOf (f.kinds name) name task) name task (H v) s).2.versions
  keys : s'.keys = (setKey (roleOf (f.kinds name) name task) name task key s).2.keys
  cached : Has s' key
  mono : ∀ k, Has s k → Has s' k
  hashed : Hashed env s'
  executed : s'.executed = s.executed ∨
    (s'.executed = s.executed ++ [(name, task)] ∧ (f.behaviorOf name = .recompute ∨ ¬ Has s key))

/-- A node was executed and raised. -/
structure Raised (env : TaskEnv V) (name : Name) (task : String) (s s' : State V) : Prop where
  store : s'.store = s.store
  results : s'.results = s.results
  executed : s'.executed = s.executed ++ [(name, task)]

/-- `do_node_execute`: the result was executed and recorded, or it was there. -/
structure DoAfter (H : V → String) (f : Flow V) (name : Name) (task key : String) (s s' : State V) (v : V) : Prop where
  versions : s'.versions = (setVersion (roleOf (f.kinds name) name task) name task (H v) s).2.versions
  keys : s'.keys = s.keys
  results : s'.results = s.results
  way : (s'.store = s.store.set (some key) (H v) ∧ s'.executed = s.executed ++ [(name, task)] ∧
      (f.behaviorOf name = .recompute ∨ ¬ Has s key)) ∨
    (s'.store = s.store ∧ s'.executed = s.executed ∧ s.store.get? (some key) = some (H v) ∧ s.results.get? (H v) ≠ none ∧
      roleOf (f.kinds name) name task ≠ .expand)

theorem execute_again (hH : ∀ v, env.hash v = some (H v)) {f : Flow V} {name : Name} {task key : String} {kw : Dict Name V}
    {s : State V} (hk : getKey (roleOf (f.kinds name) name task) name task s = .ok (some key))
    (hr : roleOf (f.kinds name) name task = .inside → ∀ y, s.versions.get? name ≠ some (.one y))
    (hw : f.behaviorOf name = .recompute ∨ ¬ Has s key) :
    (∀ e, f.fns name kw = .error e → ∃ s', executeAndRecord env f name task kw s = (.error e, s') ∧ Raised env name task s s') ∧
    (∀ v, f.fns name kw = .ok v → ∃ s', executeAndRecord env f name task kw s = (.ok v, s') ∧
      DoAfter H f name task key s s' v) := by
  constructor
  · intro e hv
    exact ⟨{ s with executed := s.executed ++ [(name, task)] }, by simp only [executeAndRecord, callNode, hv], rfl, rfl, rfl⟩
  · intro v hv
    obtain ⟨vs, h1, _⟩ := setVersion_spec (role := roleOf (f.kinds name) name task) (name := name) (task := task)
      (x := H v) (s := { s with executed := s.executed ++ [(name, task)] }) hr
    have hkey : getKey (roleOf (f.kinds name) name task) name task { s with executed := s.executed ++ [(name, task)] } =
        .ok (some key) := (getKey_congr rfl).trans hk
    refine ⟨{ s with executed := s.executed ++ [(name, task)], versions := vs, store := s.store.set (some key) (H v) },
      by simp only [executeAndRecord, callNode, hv, hkey, recordResult, versionData_pure hH, h1], ?_, rfl, rfl, .inl ⟨rfl, rfl, hw⟩⟩
    have h2 := setVersion_congr (role := roleOf (f.kinds name) name task) (name := name) (task := task) (x := H v) (s := s)
      (s2 := { s with executed := s.executed ++ [(name, task)] }) rfl
    rw [h1] at h2
    exact h2.symm

theorem hash_of_denotes (he : env.Lawful) (hH : ∀ v, env.hash v = some (H v)) {s : State V} (hg : Good env col impl s)
    (hh : Hashed env s) {k : CKey} {x : String} {v : V} (hx : s.store.get? k = some x) (hd : Denotes env.toCacheEnv s.issued x v) :
    x = H v := by
  rcases hd with h | h
  · rw [hH v] at h
    injection h with h
    exact h.symm
  · obtain ⟨w, hw⟩ := hh k x hx
    exact absurd (issued_lt hg.issued h) (he.base.hash_plain hw)

theorem doNode_again (he : env.Lawful) (hu : OrderFree env col impl) (hH : ∀ v, env.hash v = some (H v)) {f : Flow V} {name : Name}
    {task key : String} {kw : Dict Name V} {s : State V}
    (hfn : f.fns name kw = impl (safeName env.alnum name) (f.codes name) kw)
    (hg : Good env col impl s) (hh : Hashed env s) (hb : f.behaviorOf name ≠ .disable) (hi : f.behaviorOf name ≠ .ignore)
    (hk : Keyed env col f name task kw s key)
    (hr : roleOf (f.kinds name) name task = .inside → ∀ y, s.versions.get? name ≠ some (.one y))
    (hfree : memVersion (roleOf (f.kinds name) name task) name task s = .ok none) :
    (∀ e, f.fns name kw = .error e → ∃ s', doNode env f name task kw s = (.error e, s') ∧ Raised env name task s s') ∧
    (∀ v, f.fns name kw = .ok v → ∃ s', doNode env f name task kw s = (.ok v, s') ∧ DoAfter H f name task key s s' v) := by
  unfold doNode
  cases hbn : f.behaviorOf name with
  | disable => exact absurd hbn hb
  | ignore => exact absurd hbn hi
  | recompute => exact execute_again hH hk.get hr (.inl hbn)
  | default =>
    have hne : roleOf (f.kinds name) name task ≠ .expand := by
      intro h
      have := roleOf_expand h
      unfold Flow.behaviorOf at hbn
      rw [this] at hbn
      cases hbn
    have hgd : getDataVersion (roleOf (f.kinds name) name task) name task (some key) s = .ok (s.store.get? (some key)) := by
      unfold getDataVersion
      rw [hfree]
    simp only [hk.get, hgd]
    unfold retrieve
    cases hst : s.store.get? (some key) with
    | none =>
      refine execute_again hH hk.get hr (.inr ?_)
      rintro ⟨x, hx, _⟩
      rw [hst] at hx
      cases hx
    | some x =>
      obtain ⟨w, hw⟩ := hh _ _ hst
      have hx : x ≠ "<unhashable>" := by
        rintro rfl
        exact he.base.hash_plain hw (by decide)
      simp only [if_neg hx]
      cases hres : s.results.get? x with
      | none =>
        refine execute_again hH hk.get hr (.inr ?_)
        rintro ⟨y, hy, hy2⟩
        rw [hst] at hy
        injection hy with hy
        subst hy
        exact hy2 hres
      | some u =>
        obtain ⟨deps, h1, h2, h3, h4⟩ := hk.form
        subst h1
        obtain ⟨v, h5, h6⟩ := hg.hit he hu h2 h3 h4 hst
        have hxv := hash_of_denotes he hH hg hh hst h6
        have huv : u = v := (hg.results x u hres).unique he.base hg.issued h6
        subst huv
        rw [← hfn] at h5
        obtain ⟨vs, h7, _⟩ := setVersion_spec (role := roleOf (f.kinds name) name task) (name := name) (task := task)
          (x := x) (s := s) hr
        constructor
        · intro e he'
          rw [h5] at he'
          cases he'
        · intro v' hv'
          rw [h5] at hv'
          injection hv' with hv'
          subst hv'
          refine ⟨{ s with versions := vs }, by simp only [h7], ?_, rfl, rfl, .inr ⟨rfl, rfl, ?_, ?_, hne⟩⟩
          · rw [← hxv, h7]
          · rw [hst, hxv]
          · rw [← hxv, hres]
            exact fun h => by cases h

theorem postNode_again {f : Flow V} {name : Name} {task key : String} {s s' : State V} {v : V}
    (hb : f.behaviorOf name ≠ .disable) (hk : getKey (roleOf (f.kinds name) name task) name task s = .ok (some key))
    (hr : roleOf (f.kinds name) name task = .inside → ∀ y, s.versions.get? name ≠ some (.one y))
    (hd : DoAfter H f name task key s s' v) :
    ∃ rs, postNode f name task v s' = (.ok (), { s' with results := rs }) ∧ rs.get? (H v) ≠ none ∧
      ∀ x, s'.results.get? x ≠ none → rs.get? x ≠ none := by
  obtain ⟨vs, h1, h2⟩ := setVersion_spec (role := roleOf (f.kinds name) name task) (name := name) (task := task)
    (x := H v) (s := s) hr
  have hvs : s'.versions = vs := by rw [hd.versions, h1]
  have hrec : Recorded (roleOf (f.kinds name) name task) name task (H v) s s' :=
    ⟨fun n hn => by rw [hvs]; exact h2.others n hn, fun h => by rw [hvs]; exact h2.expand h,
      fun h => by rw [hvs]; exact h2.entry h⟩
  have hkey : getKey (roleOf (f.kinds name) name task) name task s' = .ok (some key) := (getKey_congr hd.keys).trans hk
  have hver := getDataVersion_spec (key := key) hrec (by
    intro h
    rcases hd.way with ⟨h3, _⟩ | ⟨_, _, _, _, h3⟩
    · rw [h3]
      exact Dict.get?_set_self _ _ _
    · exact absurd h h3)
  have main : ∃ rs, (match getKey (roleOf (f.kinds name) name task) name task s' with
      | .error e => ((.error e, s') : Except UserErr Unit × State V)
      | .ok key =>
        match getDataVersion (roleOf (f.kinds name) name task) name task key s' with
        | .error e => (.error e, s')
        | .ok none => (.error "AssertionError", s')
        | .ok (some x) =>
          if s'.results.has x then (.ok (), s') else (.ok (), { s' with results := s'.results.set x v })) =
        (.ok (), { s' with results := rs }) ∧ rs.get? (H v) ≠ none ∧ ∀ x, s'.results.get? x ≠ none → rs.get? x ≠ none := by
    simp only [hkey, hver]
    by_cases hh : s'.results.has (H v) = true
    · refine ⟨s'.results, by rw [if_pos hh], ?_, fun _ h => h⟩
      have := (Dict.has_iff _ _).1 hh
      intro hn
      exact (Dict.get?_eq_none_iff _ _).1 hn this
    · refine ⟨s'.results.set (H v) v, by rw [if_neg hh], ?_, ?_⟩
      · rw [Dict.get?_set_self]
        exact fun h => by cases h
      · intro x hx
        rw [Dict.get?_set]
        split
        · exact fun h => by cases h
        · exact hx
  unfold postNode
  cases hbn : f.behaviorOf name with
  | disable => exact absurd hbn hb
  | ignore => exact main
  | default => exact main
  | recompute => exact main

/-- One node; `r` is what the key, or the exception, is in all states with these versions. -/
theorem cachedNode_again (he : env.Lawful) (hu : OrderFree env col impl) (hH : ∀ v, env.hash v = some (H v)) {f : Flow V}
    {name : Name} {task : String} {kw : Dict Name V} {s : State V}
    (hfn : f.fns name kw = impl (safeName env.alnum name) (f.codes name) kw)
    (hcol : collected (f.kinds name) = col (safeName env.alnum name) (f.codes name))
    (hg : Good env col impl s) (hh : Hashed env s) (hb : f.behaviorOf name ≠ .ignore) (hbd : ∀ n, f.behaviorOf n ≠ .disable)
    (hn : kw.keys.Nodup) (hnames : ∀ x ∈ kw.keys, ',' ∉ x.toList)
    (hf : ∀ p ∈ kw, Fits env f (collected (f.kinds name)) task s p.1 p.2)
    (hr : Ready (roleOf (f.kinds name) name task) name task s) {r : Except UserErr String}
    (hp : preNode env f name task kw s = applyKey (roleOf (f.kinds name) name task) name task r s) :
    ∃ key, r = .ok key ∧
      (∀ e s', cachedNode env f name task kw s = (.error e, s') → Raised env name task s s') ∧
      (∀ v s', cachedNode env f name task kw s = (.ok v, s') → After env H f name task key s s' v) := by
  obtain ⟨s1, h1, hg1, hv1, hst1, hrs1, hex1, hi1, hk1, hk1', hkey⟩ := preNode_spec he hcol hg hb hn hnames hf hr
  obtain ⟨key, hk⟩ := hkey (hbd name)
  rw [h1] at hp
  cases r with
  | error e => cases hp
  | ok key' =>
    have hset : setKey (roleOf (f.kinds name) name task) name task key' s = (.ok (), s1) := hp.symm
    obtain ⟨ks, h5, h6, h7⟩ := setEntry_spec (role := roleOf (f.kinds name) name task) (name := name) (task := task)
      (x := key') (d := s.keys) hr.keys
    have hs1 : s1 = { s with keys := ks } := by
      unfold setKey at hset
      rw [h5] at hset
      injection hset with _ hset
      exact hset.symm
    have hkk : key = key' := by
      have h8 := Stored.getKey (s := s1) (name := name) (x := key') (old := s.keys.get? name) (by rw [hs1]; exact h7)
      have := hk.get.symm.trans h8
      injection this with this
      injection this
    subst hkk
    refine ⟨key, rfl, ?_⟩
    have hh1 : Hashed env s1 := by
      intro k x h
      rw [hst1] at h
      exact hh k x h
    have hro : roleOf (f.kinds name) name task = .inside → ∀ y, s1.versions.get? name ≠ some (.one y) := by
      rw [hv1]; exact hr.versions
    have hdo := doNode_again he hu hH hfn hg1 hh1 (hbd name) hb hk hro
      (by
        have := hr.free
        unfold memVersion at this ⊢
        rw [hv1]
        exact this)
    have hhas : ∀ k, Has s k ↔ Has s1 k := by
      intro k
      unfold Has
      rw [hst1, hrs1]
    cases hv : f.fns name kw with
    | error e =>
      obtain ⟨s2, h2, h3⟩ := hdo.1 e hv
      have heq : cachedNode env f name task kw s = (.error e, s2) := by simp only [cachedNode, h1, h2]
      rw [heq]
      constructor
      · intro e' s' h
        injection h with _ h
        subst h
        exact ⟨h3.store.trans hst1, h3.results.trans hrs1, by rw [h3.executed, hex1]⟩
      · intro v s' h
        cases h
    | ok v =>
      obtain ⟨s2, h2, h3⟩ := hdo.2 v hv
      obtain ⟨rs, h4, h8, h9⟩ := postNode_again (hbd name) hk.get hro h3
      have heq : cachedNode env f name task kw s = (.ok v, { s2 with results := rs }) := by
        simp only [cachedNode, h1, h2, h4]
      rw [heq]
      constructor
      · intro e s' h
        cases h
      · intro v' s' h
        injection h with h h'
        injection h with h
        subst h h'
        have hcached : Has { s2 with results := rs } key := by
          rcases h3.way with ⟨h10, _⟩ | ⟨h10, _, h11, _⟩
          · exact ⟨H v, by show s2.store.get? _ = _; rw [h10]; exact Dict.get?_set_self _ _ _, h8⟩
          · exact ⟨H v, by show s2.store.get? _ = _; rw [h10]; exact h11, h8⟩
        refine ⟨?_, ?_, hcached, ?_, ?_, ?_⟩
        · show s2.versions = _
          rw [h3.versions]
          exact setVersion_congr hv1
        · show s2.keys = _
          rw [h3.keys, hset]
        · intro k hhk
          by_cases hkk : k = key
          · subst hkk
            exact hcached
          · obtain ⟨x, h10, h11⟩ := (hhas k).1 hhk
            refine ⟨x, ?_, h9 x (by rw [h3.results]; exact h11)⟩
            show s2.store.get? _ = _
            rcases h3.way with ⟨h12, _⟩ | ⟨h12, _⟩
            · rw [h12, Dict.get?_set_ne _ _ (fun h => hkk (by injection h with h; exact h.symm))]
              exact h10
            · rw [h12]
              exact h10
        · intro k x hx
          have hx : s2.store.get? k = some x := hx
          rcases h3.way with ⟨h12, _⟩ | ⟨h12, _⟩
          · rw [h12, Dict.get?_set] at hx
            split at hx
            · injection hx with hx
              exact ⟨v, hx ▸ hH v⟩
            · exact hh1 k x hx
          · rw [h12] at hx
            exact hh1 k x hx
        · rcases h3.way with ⟨_, h12, h13⟩ | ⟨_, h12, _⟩
          · refine .inr ⟨by show s2.executed = _; rw [h12, hex1], ?_⟩
            rw [hhas key]
            exact h13
          · exact .inl (by show s2.executed = _; rw [h12, hex1])

/-! ### The versions in the metadata store are fingerprints -/

theorem Hashed.of_store {s s' : State V} (h : Hashed env s) (he : s'.store = s.store) : Hashed env s' := by
  intro k x hx
  rw [he] at hx
  exact h k x hx

theorem versionData_store (v : V) (s : State V) : (s.versionData env v).2.store = s.store := by
  unfold State.versionData
  cases env.hash v <;> rfl

theorem versionItems_store : ∀ (vs : List V) (s : State V), (s.versionItems env vs).2.store = s.store
  | [], _ => rfl
  | v :: rest, s => (versionItems_store rest _).trans (versionData_store v s)

theorem depVersion_store (f : Flow V) (c : Option Name) (task : String) (d : Name) (v : V) (s : State V) :
    (depVersion env f c task d v s).2.store = s.store := by
  have hl : (lookupDep env task d v s).2.store = s.store := by
    unfold lookupDep
    split
    · exact versionData_store v s
    · rfl
    · split <;> rfl
  unfold depVersion
  split
  · rfl
  · rfl
  · split
    · exact versionItems_store _ s
    · split
      · exact versionData_store v s
      · exact hl

theorem depVersions_store (f : Flow V) (c : Option Name) (task : String) : ∀ (kw : Dict Name V) (acc : Dict Name String)
    (s : State V), (depVersions env f c task kw acc s).2.store = s.store
  | [], _, _ => rfl
  | (d, v) :: rest, acc, s => by
    have h := depVersion_store (env := env) f c task d v s
    obtain ⟨r, s1, hp⟩ : ∃ r s1, depVersion env f c task d v s = (r, s1) := ⟨_, _, rfl⟩
    rw [hp] at h
    cases r with
    | error e => simp only [depVersions, hp]; exact h
    | ok x => simp only [depVersions, hp]; exact (depVersions_store f c task rest _ s1).trans h

theorem setKey_store (role : Role) (name : Name) (task key : String) (s : State V) :
    (setKey role name task key s).2.store = s.store := by
  unfold setKey
  split <;> rfl

theorem setVersion_store (role : Role) (name : Name) (task x : String) (s : State V) :
    (setVersion role name task x s).2.store = s.store := by
  unfold setVersion
  split
  · rfl
  · split <;> rfl

theorem preNode_store (f : Flow V) (name : Name) (task : String) (kw : Dict Name V) (s : State V) :
    (preNode env f name task kw s).2.store = s.store := by
  unfold preNode
  have h := depVersions_store (env := env) f (collected (f.kinds name)) task kw [] s
  obtain ⟨r, s1, hp⟩ : ∃ r s1, depVersions env f (collected (f.kinds name)) task kw [] s = (r, s1) := ⟨_, _, rfl⟩
  rw [hp] at h
  split
  · rfl
  · rfl
  · rw [hp]
    cases r with
    | error e => exact h
    | ok deps => exact (setKey_store _ _ _ _ s1).trans h

theorem executeAndRecord_hashed (hH : ∀ v, env.hash v = some (H v)) (f : Flow V) (name : Name) (task : String) (kw : Dict Name V)
    {s : State V} (h : Hashed env s) : Hashed env (executeAndRecord env f name task kw s).2 := by
  unfold executeAndRecord
  simp only [callNode]
  cases f.fns name kw with
  | error e => exact h.of_store rfl
  | ok v =>
    simp only
    split
    · exact h.of_store rfl
    · rename_i key _
      simp only [recordResult, versionData_pure hH]
      have h1 := setVersion_store (roleOf (f.kinds name) name task) name task (H v)
        { s with executed := s.executed ++ [(name, task)] }
      obtain ⟨r, s1, hp⟩ : ∃ r s1, setVersion (roleOf (f.kinds name) name task) name task (H v)
        { s with executed := s.executed ++ [(name, task)] } = (r, s1) := ⟨_, _, rfl⟩
      rw [hp] at h1 ⊢
      cases r with
      | error e => exact h.of_store h1
      | ok u =>
        intro k x hx
        have hx : (s1.store.set key (H v)).get? k = some x := hx
        rw [Dict.get?_set] at hx
        split at hx
        · injection hx with hx
          exact ⟨v, hx ▸ hH v⟩
        · exact h.of_store h1 k x hx

theorem retrieve_hashed (hH : ∀ v, env.hash v = some (H v)) (f : Flow V) (name : Name) (task : String) (kw : Dict Name V)
    (ver : Option String) {s : State V} (h : Hashed env s) : Hashed env (retrieve env f name task kw ver s).2 := by
  have hx := executeAndRecord_hashed hH f name task kw h
  unfold retrieve
  split
  · exact hx
  · rename_i x
    split
    · exact hx
    · split
      · exact hx
      · have h1 := setVersion_store (roleOf (f.kinds name) name task) name task x s
        obtain ⟨r, s1, hp⟩ : ∃ r s1, setVersion (roleOf (f.kinds name) name task) name task x s = (r, s1) := ⟨_, _, rfl⟩
        rw [hp] at h1 ⊢
        cases r <;> exact h.of_store h1

theorem doNode_hashed (hH : ∀ v, env.hash v = some (H v)) (f : Flow V) (name : Name) (task : String) (kw : Dict Name V)
    {s : State V} (h : Hashed env s) : Hashed env (doNode env f name task kw s).2 := by
  have hx := executeAndRecord_hashed hH f name task kw h
  unfold doNode
  split
  · exact h.of_store rfl
  · exact hx
  · exact hx
  · split
    · exact h
    · split
      · exact h
      · exact retrieve_hashed hH f name task kw _ h

theorem postNode_store (f : Flow V) (name : Name) (task : String) (v : V) (s : State V) :
    (postNode f name task v s).2.store = s.store := by
  unfold postNode
  split
  · rfl
  · split
    · rfl
    · split
      · rfl
      · rfl
      · split <;> rfl

theorem cachedNode_hashed (hH : ∀ v, env.hash v = some (H v)) (f : Flow V) (name : Name) (task : String) (kw : Dict Name V)
    {s : State V} (h : Hashed env s) : Hashed env (cachedNode env f name task kw s).2 := by
  have h1 : Hashed env (preNode env f name task kw s).2 := h.of_store (preNode_store f name task kw s)
  unfold cachedNode
  obtain ⟨r, s1, hp⟩ : ∃ r s1, preNode env f name task kw s = (r, s1) := ⟨_, _, rfl⟩
  rw [hp] at h1 ⊢
  cases r with
  | error e => exact h1
  | ok u =>
    have h2 := doNode_hashed hH f name task kw h1
    simp only
    obtain ⟨r2, s2, hp2⟩ : ∃ r s2, doNode env f name task kw s1 = (r, s2) := ⟨_, _, rfl⟩
    simp only [hp2] at h2 ⊢
    cases r2 with
    | error e => exact h2
    | ok v =>
      have h3 : Hashed env (postNode f name task v s2).2 := h2.of_store (postNode_store f name task v s2)
      simp only
      obtain ⟨r3, s3, hp3⟩ : ∃ r s3, postNode f name task v s2 = (r, s3) := ⟨_, _, rfl⟩
      simp only [hp3] at h3 ⊢
      cases r3 <;> exact h3

theorem runSteps_hashed (hH : ∀ v, env.hash v = some (H v)) (f : Flow V) : ∀ (rest : List (Step V)) (vals : Vals V) (s : State V),
    Hashed env s → Hashed env (runSteps env (cachedNode env f) rest vals s).2
  | [], _, _, h => h
  | st :: rest, vals, s, h => by
    unfold runSteps
    cases evalArgs env vals st.args with
    | none => exact h
    | some kw =>
      have h1 := cachedNode_hashed hH f st.name st.task kw h
      simp only
      obtain ⟨r, s1, hp⟩ : ∃ r s1, cachedNode env f st.name st.task kw s = (r, s1) := ⟨_, _, rfl⟩
      simp only [hp] at h1 ⊢
      cases r with
      | error e => exact h1
      | ok v => exact runSteps_hashed hH f rest _ s1 h1

theorem startRun_stores (hH : ∀ v, env.hash v = some (H v)) : ∀ (given : Dict Name V) (s : State V),
    (versionGiven env given s).store = s.store ∧ (versionGiven env given s).results = s.results ∧
      (versionGiven env given s).executed = s.executed
  | [], _ => ⟨rfl, rfl, rfl⟩
  | (d, v) :: rest, s => by
    simp only [versionGiven, versionData_pure hH]
    exact startRun_stores hH rest _

theorem Reached.hashed (hH : ∀ v, env.hash v = some (H v)) {s : State V} (h : Reached env col impl s) : Hashed env s := by
  induction h with
  | empty h1 _ _ =>
    intro k x h
    rw [h1] at h
    cases h
  | @run s r _ _ ih => exact runSteps_hashed hH r.flow r.steps [] _ (ih.of_store (startRun_stores hH r.given _).1)
  | delete _ h1 _ _ _ ih => exact fun k x hx => ih k x (h1 k x hx)

/-! ### Runs -/

theorem behaviorOf_ne_disable {f : Flow V} (h : ∀ n, f.behavior n ≠ .disable) (n : Name) : f.behaviorOf n ≠ .disable := by
  unfold Flow.behaviorOf
  split
  · exact Behavior.noConfusion
  · exact h n

/-- What the lemmas about one node need, collected. -/
structure Going (env : TaskEnv V) (col : String → String → Option Name)
    (impl : String → String → Dict Name V → Except UserErr V) (r : Run V) (vals : Vals V) (rest : List (Step V)) (s : State V) :
    Prop where
  good : Good env col impl s
  hashed : Hashed env s
  mem : Mem env r vals s
  pending : Pending r vals rest

/-- One step of a run: it raises, or the run goes on. The key does not depend on the stores. -/
theorem Going.step (he : env.Lawful) (hu : OrderFree env col impl) (hH : ∀ v, env.hash v = some (H v)) {r : Run V}
    (hv : Run.Valid env col impl r) (hb : ∀ n, r.flow.behavior n ≠ .disable) {vals : Vals V} {st : Step V} {rest : List (Step V)}
    {kw : Dict Name V} (hk : evalArgs env vals st.args = some kw) (vs : Dict Name Entry) :
    ∃ key, ∀ s, s.versions = vs → Going env col impl r vals (st :: rest) s →
      (∀ e, r.flow.fns st.name kw = .error e → ∃ s', cachedNode env r.flow st.name st.task kw s = (.error e, s') ∧
        Raised env st.name st.task s s') ∧
      (∀ v, r.flow.fns st.name kw = .ok v → ∃ s', cachedNode env r.flow st.name st.task kw s = (.ok v, s') ∧
        Going env col impl r (vals.set (st.name, st.task) v) rest s' ∧ After env H r.flow st.name st.task key s s' v) := by
  obtain ⟨h1, h2⟩ := evalArgs_spec hk
  obtain ⟨res, hres⟩ := preNode_pure hH (behaviorOf_ne_disable hb) st.name (behaviorOf_ne_ignore hv _) st.task kw vs
  have main : ∀ s, s.versions = vs → Going env col impl r vals (st :: rest) s → ∃ key, res = .ok key ∧
      (∀ e, r.flow.fns st.name kw = .error e → ∃ s', cachedNode env r.flow st.name st.task kw s = (.error e, s') ∧
        Raised env st.name st.task s s') ∧
      (∀ v, r.flow.fns st.name kw = .ok v → ∃ s', cachedNode env r.flow st.name st.task kw s = (.ok v, s') ∧
        Going env col impl r (vals.set (st.name, st.task) v) rest s' ∧ After env H r.flow st.name st.task key s s' v) := by
    intro s hs hg
    have hst : st ∈ r.steps := hg.pending.sub st List.mem_cons_self
    have hn : kw.keys.Nodup := by rw [h1]; exact hv.args_nodup st hst
    have hnames : ∀ x ∈ kw.keys, ',' ∉ x.toList := by
      intro x hx
      rw [h1] at hx
      obtain ⟨p, hp1, rfl⟩ := List.mem_map.1 hx
      exact hv.names st hst p hp1
    have hf : ∀ p ∈ kw, Fits env r.flow (collected (r.flow.kinds st.name)) st.task s p.1 p.2 := by
      intro p hpk
      obtain ⟨src, h3, h4⟩ := h2 p hpk
      exact hg.mem.fits hv hg.pending h3 h4
    have hr := hg.mem.ready hv hg.pending
    have hnode := cachedNode_spec he hu (hv.fns st.name kw) (collected_eq hv st.name) hg.good (behaviorOf_ne_ignore hv _)
      hn hnames hf hr
    obtain ⟨key, hkey, h3, h4⟩ := cachedNode_again he hu hH (hv.fns st.name kw) (collected_eq hv st.name) hg.good hg.hashed
      (behaviorOf_ne_ignore hv _) (behaviorOf_ne_disable hb) hn hnames hf hr (hres s hs)
    refine ⟨key, hkey, ?_, ?_⟩
    · intro e hfe
      obtain ⟨s', h5, _⟩ := hnode.1 e hfe
      exact ⟨s', h5, h3 e s' h5⟩
    · intro v hfv
      obtain ⟨s', h5, h6, h7⟩ := hnode.2 v hfv
      have h8 := h4 v s' h5
      exact ⟨s', h5, ⟨h6, h8.hashed, hg.mem.next hv hg.pending h7, hg.pending.next v⟩, h8⟩
  cases res with
  | error e =>
    refine ⟨"", fun s hs hg => ?_⟩
    obtain ⟨_, h, _⟩ := main s hs hg
    cases h
  | ok key =>
    refine ⟨key, fun s hs hg => ?_⟩
    obtain ⟨key', h, h'⟩ := main s hs hg
    injection h with h
    subst h
    exact h'

/-- Nothing that is in the stores gets lost in a run. -/
theorem runSteps_has (he : env.Lawful) (hu : OrderFree env col impl) (hH : ∀ v, env.hash v = some (H v)) {r : Run V}
    (hv : Run.Valid env col impl r) (hb : ∀ n, r.flow.behavior n ≠ .disable) {k : String} :
    ∀ (rest : List (Step V)) (vals : Vals V) (s : State V), Going env col impl r vals rest s → Has s k →
      Has (runSteps env (cachedNode env r.flow) rest vals s).2 k := by
  intro rest
  induction rest with
  | nil => intro _ _ _ h; exact h
  | cons st rest ih =>
    intro vals s hg h
    cases hk : evalArgs env vals st.args with
    | none => simp only [runSteps, hk]; exact h
    | some kw =>
      obtain ⟨key, hstep⟩ := Going.step he hu hH hv hb (rest := rest) hk s.versions
      obtain ⟨h1, h2⟩ := hstep s rfl hg
      cases hf : r.flow.fns st.name kw with
      | error e =>
        obtain ⟨s', h3, h4⟩ := h1 e hf
        simp only [runSteps, hk, h3]
        unfold Has
        rw [h4.store, h4.results]
        exact h
      | ok v =>
        obtain ⟨s', h3, h4, h5⟩ := h2 v hf
        simp only [runSteps, hk, h3]
        exact ih _ s' h4 (h5.mono k h)

/-- Two runs of the same steps, the second with everything in the stores that the first leaves there. -/
theorem runSteps_again (he : env.Lawful) (hu : OrderFree env col impl) (hH : ∀ v, env.hash v = some (H v)) {r : Run V}
    (hv : Run.Valid env col impl r) (hb : ∀ n, r.flow.behavior n ≠ .disable) :
    ∀ (rest : List (Step V)) (vals : Vals V) (s t : State V), Going env col impl r vals rest s → Going env col impl r vals rest t →
      s.versions = t.versions → s.keys = t.keys →
      (∀ k, Has (runSteps env (cachedNode env r.flow) rest vals s).2 k → Has t k) →
      ∀ p ∈ (runSteps env (cachedNode env r.flow) rest vals t).2.executed, p ∈ t.executed ∨
        r.flow.behaviorOf p.1 = .recompute ∨
        (runSteps env (fun name _ kw (u : Unit) => (r.flow.fns name kw, u)) rest vals ()).1.vals.get? p = none := by
  intro rest
  induction rest with
  | nil => intro _ _ _ _ _ _ _ _ p hp; exact .inl hp
  | cons st rest ih =>
    intro vals s t hs ht hvs hks hhas p hp
    cases hk : evalArgs env vals st.args with
    | none =>
      simp only [runSteps, hk] at hp
      exact .inl hp
    | some kw =>
      obtain ⟨key, hstep⟩ := Going.step he hu hH hv hb (rest := rest) hk t.versions
      obtain ⟨h1, h2⟩ := hstep t rfl ht
      obtain ⟨_, h2'⟩ := hstep s hvs hs
      cases hf : r.flow.fns st.name kw with
      | error e =>
        obtain ⟨t', h3, h4⟩ := h1 e hf
        simp only [runSteps, hk, h3, hf] at hp ⊢
        rw [h4.executed] at hp
        rcases List.mem_append.1 hp with hp | hp
        · exact .inl hp
        · have hp := List.mem_singleton.1 hp
          subst hp
          right; right
          cases hx : vals.get? (st.name, st.task) with
          | none => rfl
          | some v => exact absurd rfl (ht.pending.apart _ _ _ hx st List.mem_cons_self rfl).1
      | ok v =>
        obtain ⟨t', h3, h4, h5⟩ := h2 v hf
        obtain ⟨s', h3', h4', h5'⟩ := h2' v hf
        simp only [runSteps, hk, h3, hf] at hp ⊢
        simp only [runSteps, hk, h3'] at hhas
        have hfinal := runSteps_has he hu hH hv hb rest _ s' h4' h5'.cached
        rcases ih _ s' t' h4' h4 (by rw [h5.versions, h5'.versions]; exact setVersion_congr hvs)
          (by rw [h5.keys, h5'.keys]; exact setKey_congr hks) (fun k h => h5.mono k (hhas k h)) p hp with h | h | h
        · rcases h5.executed with h6 | ⟨h6, h7⟩
          · rw [h6] at h
            exact .inl h
          · rw [h6] at h
            rcases List.mem_append.1 h with h | h
            · exact .inl h
            · have h := List.mem_singleton.1 h
              subst h
              rcases h7 with h7 | h7
              · exact .inr (.inl h7)
              · exact absurd (hhas key hfinal) h7
        · exact .inr (.inl h)
        · exact .inr (.inr h)

theorem startRun_going (he : env.Lawful) (hH : ∀ v, env.hash v = some (H v)) {r : Run V} (hv : Run.Valid env col impl r)
    {s : State V} (hg : Good env col impl s) (hh : Hashed env s) : Going env col impl r [] r.steps (startRun env r s) := by
  obtain ⟨h1, h2, h3⟩ := startRun_spec he hv hg
  exact ⟨h1, hh.of_store (startRun_stores hH r.given _).1, h2, h3⟩

theorem startRun_has (hH : ∀ v, env.hash v = some (H v)) {r : Run V} {s : State V} {k : String} :
    Has (startRun env r s) k ↔ Has s k := by
  obtain ⟨h1, h2, _⟩ := startRun_stores hH r.given { s with versions := [], keys := [], executed := [] }
  unfold Has startRun
  rw [h1, h2]

theorem versionGiven_pure (hH : ∀ v, env.hash v = some (H v)) : ∀ (given : Dict Name V) (s t : State V),
    s.versions = t.versions → s.keys = t.keys → (versionGiven env given s).versions = (versionGiven env given t).versions ∧
      (versionGiven env given s).keys = (versionGiven env given t).keys
  | [], _, _, h, h' => ⟨h, h'⟩
  | (d, v) :: rest, s, t, h, h' => by
    simp only [versionGiven, versionData_pure hH]
    exact versionGiven_pure hH rest _ _ (by simp only [h]) h'

theorem cachedRun_again (he : env.Lawful) (hu : OrderFree env col impl) (hH : ∀ v, env.hash v = some (H v)) {r : Run V}
    (hv : Run.Valid env col impl r) (hb : ∀ n, r.flow.behavior n ≠ .disable) {s t : State V} (hs : Reached env col impl s)
    (ht : Reached env col impl t) (hhas : ∀ k, Has (cachedRun env r s).2 k → Has t k) :
    ∀ p ∈ (cachedRun env r t).2.executed, r.flow.behaviorOf p.1 = .recompute ∨ (plainRun env r).vals.get? p = none := by
  intro p hp
  obtain ⟨h1, h2⟩ := versionGiven_pure hH r.given { s with versions := [], keys := [], executed := [] }
    { t with versions := [], keys := [], executed := [] } rfl rfl
  rcases runSteps_again he hu hH hv hb r.steps [] (startRun env r s) (startRun env r t)
    (startRun_going he hH hv (hs.good he hu) (hs.hashed hH)) (startRun_going he hH hv (ht.good he hu) (ht.hashed hH))
    h1 h2 (fun k h => (startRun_has hH).2 (hhas k h)) p hp with h | h | h
  · have : (startRun env r t).executed = [] := (startRun_stores hH r.given _).2.2
    rw [this] at h
    cases h
  · exact .inl h
  · exact .inr h

theorem cachedRun_has (he : env.Lawful) (hu : OrderFree env col impl) (hH : ∀ v, env.hash v = some (H v)) {r : Run V}
    (hv : Run.Valid env col impl r) (hb : ∀ n, r.flow.behavior n ≠ .disable) {s : State V} (hs : Reached env col impl s)
    {k : String} (h : Has s k) : Has (cachedRun env r s).2 k :=
  runSteps_has he hu hH hv hb r.steps [] _ (startRun_going he hH hv (hs.good he hu) (hs.hashed hH)) ((startRun_has hH).2 h)

end Verif.TaskCache
