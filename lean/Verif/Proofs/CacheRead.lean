import Verif.Proofs.TaskCacheRun

/-! Reading results from the cache after a run. -/
namespace Verif.TaskCache.Read
open Verif.TaskCache
variable {V : Type} {env : TaskEnv V} {col : String → String → Option Name}
  {impl : String → String → Dict Name V → Except UserErr V}

/-! ### Results are never lost -/

/-- Every result of `s` is in `s'`. -/
def Keeps (s s' : State V) : Prop := ∀ x v, s.results.get? x = some v → s'.results.get? x = some v

theorem Keeps.of_eq {s s' : State V} (h : s'.results = s.results) : Keeps s s' := by
  intro x v hx
  rw [h]
  exact hx

theorem Keeps.trans {s s' s'' : State V} (h : Keeps s s') (h' : Keeps s' s'') : Keeps s s'' := fun x v hx => h' x v (h x v hx)

theorem versionData_results (v : V) (s : State V) : (s.versionData env v).2.results = s.results := by
  unfold State.versionData
  cases env.hash v <;> rfl

theorem setVersion_results (role : Role) (name : Name) (task x : String) (s : State V) :
    (setVersion role name task x s).2.results = s.results := by
  unfold setVersion
  split
  · rfl
  · split <;> rfl

theorem executeAndRecord_results (f : Flow V) (name : Name) (task : String) (kw : Dict Name V) (s : State V) :
    (executeAndRecord env f name task kw s).2.results = s.results := by
  unfold executeAndRecord
  simp only [callNode]
  cases f.fns name kw with
  | error e => rfl
  | ok v =>
    simp only
    split
    · rfl
    · unfold recordResult
      have h1 := versionData_results (env := env) v { s with executed := s.executed ++ [(name, task)] }
      obtain ⟨x, s1, hp⟩ : ∃ x s1, State.versionData env v { s with executed := s.executed ++ [(name, task)] } = (x, s1) :=
        ⟨_, _, rfl⟩
      rw [hp] at h1
      have h2 := setVersion_results (roleOf (f.kinds name) name task) name task x s1
      obtain ⟨r, s2, hp2⟩ : ∃ r s2, setVersion (roleOf (f.kinds name) name task) name task x s1 = (r, s2) := ⟨_, _, rfl⟩
      rw [hp2] at h2
      simp only [hp, hp2]
      cases r <;> exact h2.trans h1

theorem depVersion_results (f : Flow V) (c : Option Name) (task : String) (d : Name) (v : V) (s : State V) :
    (depVersion env f c task d v s).2.results = s.results := by
  have hi : ∀ (vs : List V) (s : State V), (s.versionItems env vs).2.results = s.results := by
    intro vs
    induction vs with
    | nil => intro s; rfl
    | cons v rest ih => intro s; exact (ih _).trans (versionData_results v s)
  have hl : (lookupDep env task d v s).2.results = s.results := by
    unfold lookupDep
    split
    · exact versionData_results v s
    · rfl
    · split <;> rfl
  unfold depVersion
  split
  · rfl
  · rfl
  · split
    · exact hi _ s
    · split
      · exact versionData_results v s
      · exact hl

theorem depVersions_results (f : Flow V) (c : Option Name) (task : String) : ∀ (kw : Dict Name V) (acc : Dict Name String)
    (s : State V), (depVersions env f c task kw acc s).2.results = s.results
  | [], _, _ => rfl
  | (d, v) :: rest, acc, s => by
    have h := depVersion_results (env := env) f c task d v s
    obtain ⟨r, s1, hp⟩ : ∃ r s1, depVersion env f c task d v s = (r, s1) := ⟨_, _, rfl⟩
    rw [hp] at h
    cases r with
    | error e => simp only [depVersions, hp]; exact h
    | ok x => simp only [depVersions, hp]; exact (depVersions_results f c task rest _ s1).trans h

theorem preNode_results (f : Flow V) (name : Name) (task : String) (kw : Dict Name V) (s : State V) :
    (preNode env f name task kw s).2.results = s.results := by
  unfold preNode
  have h := depVersions_results (env := env) f (collected (f.kinds name)) task kw [] s
  obtain ⟨r, s1, hp⟩ : ∃ r s1, depVersions env f (collected (f.kinds name)) task kw [] s = (r, s1) := ⟨_, _, rfl⟩
  rw [hp] at h
  split
  · rfl
  · rfl
  · rw [hp]
    cases r with
    | error e => exact h
    | ok deps =>
      simp only [setKey]
      split <;> exact h

theorem doNode_results (f : Flow V) (name : Name) (task : String) (kw : Dict Name V) (s : State V) :
    (doNode env f name task kw s).2.results = s.results := by
  have hx := executeAndRecord_results (env := env) f name task kw s
  unfold doNode
  split
  · simp only [callNode]
  · exact hx
  · exact hx
  · split
    · rfl
    · split
      · rfl
      · unfold retrieve
        split
        · exact hx
        · rename_i x _
          split
          · exact hx
          · split
            · exact hx
            · have h := setVersion_results (roleOf (f.kinds name) name task) name task x s
              obtain ⟨r, s1, hp⟩ : ∃ r s1, setVersion (roleOf (f.kinds name) name task) name task x s = (r, s1) := ⟨_, _, rfl⟩
              rw [hp] at h
              rw [hp]
              cases r <;> exact h

theorem postNode_keeps (f : Flow V) (name : Name) (task : String) (v : V) (s : State V) :
    Keeps s (postNode f name task v s).2 := by
  unfold postNode
  split
  · exact .of_eq rfl
  · split
    · exact .of_eq rfl
    · split
      · exact .of_eq rfl
      · exact .of_eq rfl
      · rename_i x _
        split
        · exact .of_eq rfl
        · rename_i hno
          intro y w hy
          show (s.results.set x v).get? y = some w
          rw [Dict.get?_set_ne]
          · exact hy
          · rintro rfl
            exact hno ((Dict.has_iff _ _).2 (Dict.mem_keys_iff.2 ⟨w, hy⟩))

theorem cachedNode_keeps (f : Flow V) (name : Name) (task : String) (kw : Dict Name V) (s : State V) :
    Keeps s (cachedNode env f name task kw s).2 := by
  have h1 := preNode_results (env := env) f name task kw s
  obtain ⟨r1, s1, hp1⟩ : ∃ r1 s1, preNode env f name task kw s = (r1, s1) := ⟨_, _, rfl⟩
  rw [hp1] at h1
  unfold cachedNode
  rw [hp1]
  cases r1 with
  | error e => exact .of_eq h1
  | ok u =>
    have h2 := doNode_results (env := env) f name task kw s1
    obtain ⟨r2, s2, hp2⟩ : ∃ r2 s2, doNode env f name task kw s1 = (r2, s2) := ⟨_, _, rfl⟩
    rw [hp2] at h2
    simp only [hp2]
    have h3 : Keeps s s2 := .of_eq (h2.trans h1)
    cases r2 with
    | error e => exact h3
    | ok v =>
      have h4 := postNode_keeps f name task v s2
      obtain ⟨r3, s3, hp3⟩ : ∃ r3 s3, postNode f name task v s2 = (r3, s3) := ⟨_, _, rfl⟩
      rw [hp3] at h4
      simp only [hp3]
      cases r3 <;> exact h3.trans h4

theorem runSteps_keeps (f : Flow V) : ∀ (rest : List (Step V)) (vals : Vals V) (s : State V),
    Keeps s (runSteps env (cachedNode env f) rest vals s).2
  | [], _, _ => .of_eq rfl
  | st :: rest, vals, s => by
    unfold runSteps
    cases evalArgs env vals st.args with
    | none => exact .of_eq rfl
    | some kw =>
      simp only
      have h := cachedNode_keeps (env := env) f st.name st.task kw s
      obtain ⟨r, s1, hp⟩ : ∃ r s1, cachedNode env f st.name st.task kw s = (r, s1) := ⟨_, _, rfl⟩
      rw [hp] at h
      simp only [hp]
      cases r with
      | error e => exact h
      | ok v => exact h.trans (runSteps_keeps f rest _ s1)

theorem versionGiven_results : ∀ (given : Dict Name V) (s : State V), (versionGiven env given s).results = s.results
  | [], _ => rfl
  | (d, v) :: rest, s => by
    have h := versionData_results (env := env) v s
    unfold versionGiven
    obtain ⟨x, s2, hp⟩ : ∃ x s2, State.versionData env v s = (x, s2) := ⟨_, _, rfl⟩
    rw [hp] at h
    simp only [hp]
    rw [versionGiven_results rest]
    exact h

theorem cachedRun_keeps (r : Run V) (s : State V) : Keeps s (cachedRun env r s).2 := by
  unfold cachedRun startRun
  refine Keeps.trans (s' := versionGiven env r.given { s with versions := [], keys := [], executed := [] }) ?_
    (runSteps_keeps r.flow r.steps [] _)
  exact .of_eq (versionGiven_results _ _)

theorem runs_keep : ∀ (later : List (Run V)) (s : State V), Keeps s (later.foldl (fun s r => (cachedRun env r s).2) s)
  | [], _ => .of_eq rfl
  | r :: rest, s => (cachedRun_keeps r s).trans (runs_keep rest _)

/-! ### The result of a node is stored under its version -/

theorem memVersion_congr {role : Role} {name : Name} {task : String} {s s' : State V}
    (h : s'.versions.get? name = s.versions.get? name) : memVersion role name task s' = memVersion role name task s := by
  unfold memVersion
  rw [h]

theorem postNode_stores {f : Flow V} {name : Name} {task x : String} {v : V} {s s' : State V}
    (hb : f.behaviorOf name ≠ .disable) (hm : memVersion (roleOf (f.kinds name) name task) name task s' = .ok (some x))
    (h : postNode f name task v s = (.ok (), s')) : ∃ w, s'.results.get? x = some w := by
  have hv : s'.versions = s.versions ∧ ∀ key, getKey (roleOf (f.kinds name) name task) name task s = .ok key →
      getDataVersion (roleOf (f.kinds name) name task) name task key s = .ok (some x) → ∃ w, s'.results.get? x = some w := by
    unfold postNode at h
    split at h
    · rename_i hd
      exact absurd hd hb
    · split at h
      · cases h
      · rename_i key hk
        split at h
        · cases h
        · cases h
        · rename_i y hy
          split at h
          · rename_i hhas
            injection h with _ h
            subst h
            refine ⟨rfl, ?_⟩
            intro key' h1 h2
            rw [hk] at h1
            injection h1 with h1
            subst h1
            rw [hy] at h2
            injection h2 with h2
            injection h2 with h2
            subst h2
            exact Dict.mem_keys_iff.1 ((Dict.has_iff _ _).1 hhas)
          · injection h with _ h
            subst h
            refine ⟨rfl, ?_⟩
            intro key' h1 h2
            rw [hk] at h1
            injection h1 with h1
            subst h1
            rw [hy] at h2
            injection h2 with h2
            injection h2 with h2
            subst h2
            exact ⟨v, Dict.get?_set_self _ _ _⟩
  have hm' : memVersion (roleOf (f.kinds name) name task) name task s = .ok (some x) := by
    rw [← hm]
    exact (memVersion_congr (by rw [hv.1])).symm
  cases hk : getKey (roleOf (f.kinds name) name task) name task s with
  | error e =>
    unfold postNode at h
    split at h
    · rename_i hd
      exact absurd hd hb
    · rw [hk] at h
      cases h
  | ok key => exact hv.2 key hk (by simp only [getDataVersion, hm'])

theorem cachedNode_stores {f : Flow V} {name : Name} {task x : String} {kw : Dict Name V} {v : V} {s s' : State V}
    (hb : f.behaviorOf name ≠ .disable) (hm : memVersion (roleOf (f.kinds name) name task) name task s' = .ok (some x))
    (h : cachedNode env f name task kw s = (.ok v, s')) : ∃ w, s'.results.get? x = some w := by
  unfold cachedNode at h
  obtain ⟨r1, s1, hp1⟩ : ∃ r1 s1, preNode env f name task kw s = (r1, s1) := ⟨_, _, rfl⟩
  rw [hp1] at h
  cases r1 with
  | error e => cases h
  | ok u =>
    obtain ⟨r2, s2, hp2⟩ : ∃ r2 s2, doNode env f name task kw s1 = (r2, s2) := ⟨_, _, rfl⟩
    simp only [hp2] at h
    cases r2 with
    | error e => cases h
    | ok w =>
      obtain ⟨r3, s3, hp3⟩ : ∃ r3 s3, postNode f name task w s2 = (r3, s3) := ⟨_, _, rfl⟩
      simp only [hp3] at h
      cases r3 with
      | error e => cases h
      | ok u =>
        simp only at h
        injection h with h1 h2
        subst h2
        exact postNode_stores hb hm hp3

theorem setVersion_error {role : Role} {name : Name} {task x : String} {s s' : State V} {e : UserErr}
    (h : setVersion role name task x s = (.error e, s')) : s' = s := by
  unfold setVersion at h
  split at h
  · cases h
  · split at h
    · injection h with _ h; exact h.symm
    · cases h

theorem versionData_versions (v : V) (s : State V) : (s.versionData env v).2.versions = s.versions := by
  unfold State.versionData
  cases env.hash v <;> rfl

theorem executeAndRecord_error {f : Flow V} {name : Name} {task : String} {kw : Dict Name V} {s s' : State V} {e : UserErr}
    (h : executeAndRecord env f name task kw s = (.error e, s')) : s'.versions = s.versions := by
  unfold executeAndRecord at h
  simp only [callNode] at h
  cases hf : f.fns name kw with
  | error e' =>
    simp only [hf] at h
    injection h with _ h
    subst h
    rfl
  | ok v =>
    simp only [hf] at h
    split at h
    · injection h with _ h
      subst h
      rfl
    · unfold recordResult at h
      have h1 := versionData_versions (env := env) v { s with executed := s.executed ++ [(name, task)] }
      obtain ⟨x, s1, hp⟩ : ∃ x s1, State.versionData env v { s with executed := s.executed ++ [(name, task)] } = (x, s1) :=
        ⟨_, _, rfl⟩
      rw [hp] at h1
      obtain ⟨r, s2, hp2⟩ : ∃ r s2, setVersion (roleOf (f.kinds name) name task) name task x s1 = (r, s2) := ⟨_, _, rfl⟩
      simp only [hp, hp2] at h
      cases r with
      | error e' =>
        simp only at h
        injection h with _ h
        subst h
        rw [setVersion_error hp2]
        exact h1
      | ok u => cases h

theorem doNode_error {f : Flow V} {name : Name} {task : String} {kw : Dict Name V} {s s' : State V} {e : UserErr}
    (h : doNode env f name task kw s = (.error e, s')) : s'.versions = s.versions := by
  unfold doNode at h
  split at h
  · simp only [callNode] at h
    injection h with _ h
    subst h
    rfl
  · exact executeAndRecord_error h
  · exact executeAndRecord_error h
  · split at h
    · injection h with _ h
      subst h
      rfl
    · split at h
      · injection h with _ h
        subst h
        rfl
      · unfold retrieve at h
        split at h
        · exact executeAndRecord_error h
        · rename_i x _
          split at h
          · exact executeAndRecord_error h
          · split at h
            · exact executeAndRecord_error h
            · obtain ⟨r, s1, hp⟩ : ∃ r s1, setVersion (roleOf (f.kinds name) name task) name task x s = (r, s1) := ⟨_, _, rfl⟩
              rw [hp] at h
              cases r with
              | error e' =>
                simp only at h
                injection h with _ h
                subst h
                rw [setVersion_error hp]
              | ok u => cases h

/-- Every result so far is in the result store, under the version in memory. -/
def Kept (r : Run V) (vals : Vals V) (s : State V) : Prop :=
  ∀ n t v, vals.get? (n, t) = some v → r.flow.behaviorOf n ≠ .disable → roleOf (r.flow.kinds n) n t ≠ .expand →
    ∃ x, memVersion (roleOf (r.flow.kinds n) n t) n t s = .ok (some x) ∧ s.results.get? x = some v

theorem Kept.next (he : env.Lawful) {r : Run V} {vals : Vals V} {s s' : State V} {st : Step V} {rest : List (Step V)}
    {kw : Dict Name V} {v : V} (hk : Kept r vals s) (hp : Pending r vals (st :: rest)) (hg : Good env col impl s')
    (hd : Done env r.flow st.name st.task s s' v) (hn : cachedNode env r.flow st.name st.task kw s = (.ok v, s')) :
    Kept r (vals.set (st.name, st.task) v) s' := by
  have hkeep := cachedNode_keeps (env := env) r.flow st.name st.task kw s
  rw [hn] at hkeep
  intro n t w h hb hr
  rw [get?_setPair] at h
  by_cases hh : st.name = n ∧ st.task = t
  · rw [if_pos hh] at h
    obtain ⟨rfl, rfl⟩ := hh
    injection h with h
    subst h
    obtain ⟨x, h1, h2⟩ := hd.recorded hb
    have hm := (h2.entry hr).memVersion hr
    obtain ⟨w, hw⟩ := cachedNode_stores hb hm hn
    refine ⟨x, hm, ?_⟩
    rw [hw, (hg.results x w hw).unique he.base hg.issued h1]
  · rw [if_neg hh] at h
    obtain ⟨x, h1, h2⟩ := hk n t w h hb hr
    refine ⟨x, ?_, hkeep x w h2⟩
    rw [← h1]
    by_cases hne : n = st.name
    · subst hne
      obtain ⟨g1, g2, g3, g4⟩ := hp.apart _ _ _ h st List.mem_cons_self rfl
      have hr' := role_inside g2 g4
      have hrt := role_inside g2 g3
      obtain ⟨y, _, h5⟩ := hd.recorded hb
      obtain ⟨m, h6, h7⟩ := (h5.entry (by rw [hr']; decide)).inside hr'
      rw [hrt] at h1 ⊢
      rcases h7 with h7 | ⟨h7, h8⟩
      · simp only [memVersion, h6, h7]
        rw [Dict.get?_set_ne _ _ (fun h => g1 h.symm)]
      · simp only [memVersion, h7] at h1
        cases h1
    · refine memVersion_congr ?_
      by_cases hbd : r.flow.behaviorOf st.name = .disable
      · rw [hd.disabled hbd]
      · obtain ⟨y, _, h5⟩ := hd.recorded hbd
        exact h5.others n hne

theorem runSteps_kept (he : env.Lawful) (hu : OrderFree env col impl) {r : Run V} (hv : Run.Valid env col impl r) :
    ∀ (rest : List (Step V)) (vals : Vals V) (s : State V), Good env col impl s → Mem env r vals s → Pending r vals rest →
      Kept r vals s →
      Kept r (runSteps env (cachedNode env r.flow) rest vals s).1.vals (runSteps env (cachedNode env r.flow) rest vals s).2 := by
  intro rest
  induction rest with
  | nil => intro vals s _ _ _ h; exact h
  | cons st rest ih =>
    intro vals s hg hm hp hkept
    have hst : st ∈ r.steps := hp.sub st List.mem_cons_self
    cases hk : evalArgs env vals st.args with
    | none =>
      simp only [runSteps, hk]
      exact hkept
    | some kw =>
      obtain ⟨h1, h2⟩ := evalArgs_spec hk
      have hn : kw.keys.Nodup := by rw [h1]; exact hv.args_nodup st hst
      have hnm : ∀ x ∈ kw.keys, ',' ∉ x.toList := by
        intro x hx
        rw [h1] at hx
        obtain ⟨p, hp1, rfl⟩ := List.mem_map.1 hx
        exact hv.names st hst p hp1
      have hft : ∀ p ∈ kw, Fits env r.flow (collected (r.flow.kinds st.name)) st.task s p.1 p.2 := by
        intro p hpk
        obtain ⟨src, h3, h4⟩ := h2 p hpk
        exact hm.fits hv hp h3 h4
      have hnode := cachedNode_spec he hu (hv.fns st.name kw) (collected_eq hv st.name) hg (behaviorOf_ne_ignore hv _)
        hn hnm hft (hm.ready hv hp)
      cases hf : r.flow.fns st.name kw with
      | error e =>
        obtain ⟨s', h3, h4⟩ := hnode.1 e hf
        simp only [runSteps, hk, h3]
        have hkeep := cachedNode_keeps (env := env) r.flow st.name st.task kw s
        rw [h3] at hkeep
        have hvs : s'.versions = s.versions := by
          obtain ⟨s1, e1, hg1, hv1, _, _, _, _, _, _, hkey⟩ := preNode_spec he (collected_eq hv st.name) hg
            (behaviorOf_ne_ignore hv _) hn hnm hft (hm.ready hv hp)
          by_cases hd : r.flow.behaviorOf st.name = .disable
          · simp only [cachedNode, e1, doNode, hd, callNode, hf] at h3
            injection h3 with _ h3
            subst h3
            exact hv1
          · obtain ⟨key, hkk⟩ := hkey hd
            have hr := hm.ready hv hp
            have hdo := doNode_spec he hu (hv.fns st.name kw) hg1 hd hkk (by rw [hv1]; exact hr.versions)
              (by
                have := hr.free
                unfold memVersion at this ⊢
                rw [hv1]
                exact this)
            obtain ⟨s2, h2, _⟩ := hdo.1 e hf
            simp only [cachedNode, e1, h2] at h3
            injection h3 with _ h3
            subst h3
            exact (doNode_error h2).trans hv1
        intro n t w h5 h6 h7
        obtain ⟨x, h8, h9⟩ := hkept n t w h5 h6 h7
        exact ⟨x, by rw [memVersion_congr (s := s) (by rw [hvs])]; exact h8, hkeep x w h9⟩
      | ok v =>
        obtain ⟨s', h3, h4, h5⟩ := hnode.2 v hf
        simp only [runSteps, hk, h3]
        exact ih _ s' h4 (hm.next hv hp h5) (hp.next v) (hkept.next he hp h4 h5 h3)

end Verif.TaskCache.Read
