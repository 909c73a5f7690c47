import Verif.Model.CacheLog
import Verif.Proofs.TaskCacheAgain

/-! What the log of the caching adapter contains. -/
namespace Verif.TaskCache.Log
variable {V : Type} {env : TaskEnv V} {col : String → String → Option Name}
  {impl : String → String → Dict Name V → Except UserErr V} {H : V → String}

/-- Events of the hooks that say nothing at level "info". -/
def Quiet (shown : Option String) (e : Event) : Prop :=
  (e.what = .getVersion ∨ e.what = .getStored ∨ e.what = .setVersion ∨ e.what = .setStored ∨ e.what = .getKey ∨ e.what = .setKey ∨
    e.what = .setResult ∨ e.what = .missing ∨ e.what = .failed ∨ e.what = .unhashable) ∧ (e.task = none ∨ e.task = shown)

theorem versionLog_quiet {shown : Option String} {n : Option Name} {v : V} : ∀ e ∈ versionLog env n v, Quiet shown e := by
  intro e he
  unfold versionLog at he
  split at he
  · cases he
  · rw [List.mem_singleton.1 he]
    exact ⟨by simp, .inl rfl⟩

theorem depLog_quiet {shown : Option String} {f : Flow V} {c : Option Name} {d : Name} {v : V} {s : State V} :
    ∀ e ∈ depLog env f c d v s, Quiet shown e := by
  intro e he
  unfold depLog at he
  split at he
  · cases he
  · cases he
  · split at he
    · obtain ⟨x, _, h⟩ := List.mem_flatMap.1 he
      exact versionLog_quiet e h
    · split at he
      · exact versionLog_quiet e he
      · rcases List.mem_cons.1 he with h | h
        · rw [h]
          exact ⟨by simp, .inl rfl⟩
        · split at h
          · exact versionLog_quiet e h
          · cases h

theorem depsLog_quiet {shown : Option String} {f : Flow V} {c : Option Name} {task : String} : ∀ (kw : Dict Name V) (s : State V),
    ∀ e ∈ depsLog env f c task kw s, Quiet shown e
  | [], _, e, he => by cases he
  | (d, v) :: rest, s, e, he => by
    unfold depsLog at he
    rcases List.mem_append.1 he with h | h
    · exact depLog_quiet e h
    · split at h
      · cases h
      · exact depsLog_quiet rest _ e h

theorem preLog_quiet {shown : Option String} {f : Flow V} {name : Name} {task : String} {kw : Dict Name V} {s : State V} :
    ∀ e ∈ preLog env f name task shown kw s, Quiet shown e := by
  intro e he
  unfold preLog at he
  split at he
  · cases he
  · cases he
  · rcases List.mem_append.1 he with h | h
    · exact depsLog_quiet _ _ e h
    · split at h
      · cases h
      · rw [List.mem_singleton.1 h]
        exact ⟨by simp, .inr rfl⟩

theorem getVersionLog_quiet {role : Role} {shown : Option String} {name : Name} {task : String} {key : CKey} {s : State V} :
    ∀ e ∈ getVersionLog role name task shown key s, Quiet shown e := by
  intro e he
  unfold getVersionLog at he
  rcases List.mem_cons.1 he with h | h
  · rw [h]
    exact ⟨by simp, .inr rfl⟩
  · split at h
    · rw [List.mem_singleton.1 h]
      exact ⟨by simp, .inr rfl⟩
    · cases h

theorem postLog_quiet {shown : Option String} {f : Flow V} {name : Name} {task : String} {b : Bool} {s : State V} :
    ∀ e ∈ postLog f name task shown b s, Quiet shown e := by
  intro e he
  unfold postLog at he
  split at he
  · split at he
    · cases he
    · rcases List.mem_cons.1 he with h | h
      · rw [h]
        exact ⟨by simp, .inr rfl⟩
      · split at h
        · cases h
        · rcases List.mem_append.1 h with h | h
          · exact getVersionLog_quiet e h
          · split at h
            · split at h
              · cases h
              · rw [List.mem_singleton.1 h]
                exact ⟨by simp, .inr rfl⟩
            · cases h
  · rw [List.mem_singleton.1 he]
    exact ⟨by simp, .inr rfl⟩

theorem infoOnly_quiet {shown : Option String} {l : List Event} (h : ∀ e ∈ l, Quiet shown e) : infoOnly l = [] := by
  unfold infoOnly
  rw [List.filter_eq_nil_iff]
  intro e he
  obtain ⟨h1, _⟩ := h e he
  rcases h1 with h1 | h1 | h1 | h1 | h1 | h1 | h1 | h1 | h1 | h1 <;> simp [h1]

theorem infoOnly_append (a b : List Event) : infoOnly (a ++ b) = infoOnly a ++ infoOnly b := List.filter_append ..

/-- The rest of what `executeLog` logs. -/
theorem executeLog_eq {f : Flow V} {name : Name} {shown : Option String} {kw : Dict Name V} {b : Bool} {v : V}
    (h : f.fns name kw = .ok v) : ∃ l, executeLog env f name shown kw b = ⟨.execute, some name, shown⟩ :: l ∧
      ∀ e ∈ l, Quiet shown e := by
  unfold executeLog
  rw [h]
  refine ⟨_, rfl, ?_⟩
  intro e he
  rcases List.mem_append.1 he with h | h
  · rcases List.mem_append.1 h with h | h
    · split at h
      · rw [List.mem_singleton.1 h]
        exact ⟨by simp, .inr rfl⟩
      · cases h
    · exact versionLog_quiet e h
  · rcases List.mem_cons.1 h with h | h
    · rw [h]
      exact ⟨by simp, .inr rfl⟩
    · rw [List.mem_singleton.1 h]
      exact ⟨by simp, .inr rfl⟩

theorem executeLog_error {f : Flow V} {name : Name} {shown : Option String} {kw : Dict Name V} {b : Bool} {e : UserErr}
    (h : f.fns name kw = .error e) : executeLog env f name shown kw b = [] := by
  unfold executeLog
  rw [h]

theorem infoOnly_execute {n : Option Name} {t : Option String} {l : List Event} {shown : Option String} (h : ∀ e ∈ l, Quiet shown e) :
    infoOnly (⟨.execute, n, t⟩ :: l) = [⟨.execute, n, t⟩] := by
  have := infoOnly_quiet h
  unfold infoOnly at this ⊢
  rw [List.filter_cons, this]
  simp

theorem infoOnly_skip {e : Event} {l : List Event} {shown : Option String} (h : Quiet shown e) : infoOnly (e :: l) = infoOnly l := by
  have := infoOnly_quiet (l := [e]) (shown := shown) (by intro x hx; rw [List.mem_singleton.1 hx]; exact h)
  rw [show e :: l = [e] ++ l from rfl, infoOnly_append, this]
  rfl

/-! ### Who was executed -/

theorem versionData_executed (v : V) (s : State V) : (s.versionData env v).2.executed = s.executed := by
  unfold State.versionData
  cases env.hash v <;> rfl

theorem setVersion_executed (role : Role) (name : Name) (task x : String) (s : State V) :
    (setVersion role name task x s).2.executed = s.executed := by
  unfold setVersion
  split
  · rfl
  · split <;> rfl

theorem executeAndRecord_executed (f : Flow V) (name : Name) (task : String) (kw : Dict Name V) (s : State V) :
    (executeAndRecord env f name task kw s).2.executed = s.executed ++ [(name, task)] := by
  unfold executeAndRecord
  simp only [callNode]
  cases f.fns name kw with
  | error e => rfl
  | ok v =>
    simp only
    split
    · rfl
    · unfold recordResult
      have h1 := versionData_executed (env := env) v { s with executed := s.executed ++ [(name, task)] }
      obtain ⟨x, s1, hp⟩ : ∃ x s1, State.versionData env v { s with executed := s.executed ++ [(name, task)] } = (x, s1) :=
        ⟨_, _, rfl⟩
      rw [hp] at h1
      have h2 := setVersion_executed (roleOf (f.kinds name) name task) name task x s1
      obtain ⟨r, s2, hp2⟩ : ∃ r s2, setVersion (roleOf (f.kinds name) name task) name task x s1 = (r, s2) := ⟨_, _, rfl⟩
      rw [hp2] at h2
      simp only [hp, hp2]
      cases r <;> exact h2.trans h1

theorem depVersion_executed (f : Flow V) (c : Option Name) (task : String) (d : Name) (v : V) (s : State V) :
    (depVersion env f c task d v s).2.executed = s.executed := by
  have hi : ∀ (vs : List V) (s : State V), (s.versionItems env vs).2.executed = s.executed := by
    intro vs
    induction vs with
    | nil => intro s; rfl
    | cons v rest ih => intro s; exact (ih _).trans (versionData_executed v s)
  have hl : (lookupDep env task d v s).2.executed = s.executed := by
    unfold lookupDep
    split
    · exact versionData_executed v s
    · rfl
    · split <;> rfl
  unfold depVersion
  split
  · rfl
  · rfl
  · split
    · exact hi _ s
    · split
      · exact versionData_executed v s
      · exact hl

theorem depVersions_executed (f : Flow V) (c : Option Name) (task : String) : ∀ (kw : Dict Name V) (acc : Dict Name String)
    (s : State V), (depVersions env f c task kw acc s).2.executed = s.executed
  | [], _, _ => rfl
  | (d, v) :: rest, acc, s => by
    have h := depVersion_executed (env := env) f c task d v s
    obtain ⟨r, s1, hp⟩ : ∃ r s1, depVersion env f c task d v s = (r, s1) := ⟨_, _, rfl⟩
    rw [hp] at h
    cases r with
    | error e => simp only [depVersions, hp]; exact h
    | ok x => simp only [depVersions, hp]; exact (depVersions_executed f c task rest _ s1).trans h

theorem preNode_executed (f : Flow V) (name : Name) (task : String) (kw : Dict Name V) (s : State V) :
    (preNode env f name task kw s).2.executed = s.executed := by
  unfold preNode
  have h := depVersions_executed (env := env) f (collected (f.kinds name)) task kw [] s
  obtain ⟨r, s1, hp⟩ : ∃ r s1, depVersions env f (collected (f.kinds name)) task kw [] s = (r, s1) := ⟨_, _, rfl⟩
  rw [hp] at h
  split
  · rfl
  · rfl
  · rw [hp]
    cases r with
    | error e => exact h
    | ok deps =>
      simp only [setKey]
      split <;> exact h

theorem postNode_executed (f : Flow V) (name : Name) (task : String) (v : V) (s : State V) :
    (postNode f name task v s).2.executed = s.executed := by
  unfold postNode
  split
  · rfl
  · split
    · rfl
    · split
      · rfl
      · rfl
      · split <;> rfl

/-- What a hook logs at level "info" agrees with what it did. -/
def Agrees (f : Flow V) (name : Name) (task : String) (shown : Option String) (kw : Dict Name V) (log : List Event) (s : State V)
    (res : Except UserErr V × State V) : Prop :=
  (res.2.executed = s.executed ++ [(name, task)] ∧
    ((∃ v, f.fns name kw = .ok v) → infoOnly log = [⟨.execute, some name, shown⟩]) ∧
    ((∃ e, f.fns name kw = .error e) → infoOnly log = [] ∧ ∃ e, res.1 = .error e)) ∨
  (res.2.executed = s.executed ∧ ((∃ v, res.1 = .ok v) → infoOnly log = [⟨.getResult, some name, shown⟩]) ∧
    ((∃ e, res.1 = .error e) → infoOnly log = [] ∨ ∃ x, (setVersion (roleOf (f.kinds name) name task) name task x s).1 ≠ .ok ()))

theorem execute_agrees (f : Flow V) (name : Name) (task : String) (shown : Option String) (kw : Dict Name V) (b : Bool)
    (s : State V) : Agrees f name task shown kw (executeLog env f name shown kw b) s (executeAndRecord env f name task kw s) := by
  refine .inl ⟨executeAndRecord_executed f name task kw s, ?_, ?_⟩
  · rintro ⟨v, hv⟩
    obtain ⟨l, h1, h2⟩ := executeLog_eq (env := env) (shown := shown) (b := b) hv
    rw [h1]
    exact infoOnly_execute h2
  · rintro ⟨e, he⟩
    refine ⟨by rw [executeLog_error he]; rfl, e, ?_⟩
    simp only [executeAndRecord, callNode, he]

theorem Agrees.quiet {f : Flow V} {name : Name} {task : String} {shown : Option String} {kw : Dict Name V} {log l : List Event}
    {s : State V} {res : Except UserErr V × State V} (h : Agrees f name task shown kw log s res) (hq : infoOnly l = []) :
    Agrees f name task shown kw (l ++ log) s res := by
  unfold Agrees at h ⊢
  rw [infoOnly_append, hq, List.nil_append]
  exact h

theorem doNode_agrees (f : Flow V) (name : Name) (task : String) (shown : Option String) (kw : Dict Name V) (s : State V) :
    Agrees f name task shown kw (doLog env f name task shown kw s) s (doNode env f name task kw s) := by
  unfold doLog doNode
  cases f.behaviorOf name with
  | disable =>
    refine .inl ⟨rfl, ?_, ?_⟩
    · rintro ⟨v, hv⟩
      simp only [hv]
      rfl
    · rintro ⟨e, he⟩
      simp only [he]
      exact ⟨rfl, e, by simp only [callNode, he]⟩
  | recompute => exact execute_agrees f name task shown kw true s
  | ignore => exact execute_agrees f name task shown kw true s
  | default =>
    have hk : Quiet shown ⟨.getKey, some name, shown⟩ := ⟨by simp, .inr rfl⟩
    simp only
    refine Agrees.quiet (l := [⟨.getKey, some name, shown⟩]) ?_
      (infoOnly_quiet (shown := shown) (by intro x hx; rw [List.mem_singleton.1 hx]; exact hk))
    cases hg : TaskCache.getKey (roleOf (f.kinds name) name task) name task s with
    | error e =>
      simp only
      refine .inr ⟨rfl, ?_, fun _ => .inl rfl⟩
      rintro ⟨v, hv⟩
      cases hv
    | ok key =>
      simp only
      refine Agrees.quiet ?_ (infoOnly_quiet (shown := shown) getVersionLog_quiet)
      cases getDataVersion (roleOf (f.kinds name) name task) name task key s with
      | error e =>
        simp only
        refine .inr ⟨rfl, ?_, fun _ => .inl rfl⟩
        rintro ⟨v, hv⟩
        cases hv
      | ok ver =>
        have hx := execute_agrees (env := env) f name task shown kw false s
        simp only
        unfold retrieveLog retrieve
        cases ver with
        | none => exact hx
        | some x =>
          simp only
          by_cases hu : x = "<unhashable>"
          · rw [if_pos hu, if_pos hu]
            exact hx
          · rw [if_neg hu, if_neg hu]
            cases s.results.get? x with
            | none =>
              refine Agrees.quiet (l := [⟨.missing, some name, shown⟩]) hx (infoOnly_quiet (shown := shown) ?_)
              intro e he
              rw [List.mem_singleton.1 he]
              exact ⟨by simp, .inr rfl⟩
            | some v =>
              simp only
              have h1 := setVersion_executed (roleOf (f.kinds name) name task) name task x s
              obtain ⟨r, s1, hp⟩ : ∃ r s1, setVersion (roleOf (f.kinds name) name task) name task x s = (r, s1) := ⟨_, _, rfl⟩
              rw [hp] at h1
              simp only [hp]
              cases r with
              | error e => exact .inr ⟨h1, (fun ⟨v, hv⟩ => by cases hv), fun _ => .inr ⟨x, by rw [hp]; exact fun h => by cases h⟩⟩
              | ok u => exact .inr ⟨h1, fun _ => rfl, (fun ⟨e, he⟩ => by cases he)⟩

theorem cachedNode_executed (f : Flow V) (name : Name) (task : String) (kw : Dict Name V) (s : State V) :
    (cachedNode env f name task kw s).2.executed = s.executed ∨
      (cachedNode env f name task kw s).2.executed = s.executed ++ [(name, task)] := by
  have h1 := preNode_executed (env := env) f name task kw s
  obtain ⟨r1, s1, hp1⟩ : ∃ r1 s1, preNode env f name task kw s = (r1, s1) := ⟨_, _, rfl⟩
  rw [hp1] at h1
  simp only at h1
  unfold cachedNode
  rw [hp1]
  cases r1 with
  | error e => exact .inl h1
  | ok u =>
    have h2 : (doNode env f name task kw s1).2.executed = s.executed ∨
        (doNode env f name task kw s1).2.executed = s.executed ++ [(name, task)] := by
      rcases doNode_agrees (env := env) f name task none kw s1 with h | h
      · exact .inr (by rw [h.1, h1])
      · exact .inl (by rw [h.1, h1])
    obtain ⟨r2, s2, hp2⟩ : ∃ r2 s2, doNode env f name task kw s1 = (r2, s2) := ⟨_, _, rfl⟩
    rw [hp2] at h2
    simp only [hp2]
    cases r2 with
    | error e => exact h2
    | ok v =>
      have h3 := postNode_executed f name task v s2
      obtain ⟨r3, s3, hp3⟩ : ∃ r3 s3, postNode f name task v s2 = (r3, s3) := ⟨_, _, rfl⟩
      rw [hp3] at h3
      simp only at h2 h3
      simp only [hp3]
      rw [← h3] at h2
      cases r3 <;> exact h2

/-- One node. -/
theorem node_logged (he : env.Lawful) (hu : OrderFree env col impl) {f : Flow V} {name : Name} {task : String}
    {kw : Dict Name V} {s : State V} (shown : Option String)
    (hfn : f.fns name kw = impl (safeName env.alnum name) (f.codes name) kw)
    (hcol : collected (f.kinds name) = col (safeName env.alnum name) (f.codes name))
    (hg : Good env col impl s) (hb : f.behaviorOf name ≠ .ignore) (hn : kw.keys.Nodup)
    (hnames : ∀ x ∈ kw.keys, ',' ∉ x.toList)
    (hf : ∀ p ∈ kw, Fits env f (collected (f.kinds name)) task s p.1 p.2)
    (hr : Ready (roleOf (f.kinds name) name task) name task s) :
    (∀ e, f.fns name kw = .error e → infoOnly (nodeLog env f name task shown kw s) = []) ∧
    (∀ v, f.fns name kw = .ok v →
      (infoOnly (nodeLog env f name task shown kw s) = [⟨.execute, some name, shown⟩] ∧
        (cachedNode env f name task kw s).2.executed = s.executed ++ [(name, task)]) ∨
      (infoOnly (nodeLog env f name task shown kw s) = [⟨.getResult, some name, shown⟩] ∧
        (cachedNode env f name task kw s).2.executed = s.executed)) := by
  obtain ⟨s1, h1, hg1, hv1, hst1, hrs1, hex1, hi1, hk1, hk1', hkey⟩ := preNode_spec he hcol hg hb hn hnames hf hr
  have hset : ∀ x, (setVersion (roleOf (f.kinds name) name task) name task x s1).1 = .ok () := by
    intro x
    obtain ⟨d, h, _⟩ := setVersion_spec (role := roleOf (f.kinds name) name task) (name := name) (task := task) (x := x)
      (s := s1) (by rw [hv1]; exact hr.versions)
    rw [h]
  have hdo : (∀ e, f.fns name kw = .error e → ∃ s', doNode env f name task kw s1 = (.error e, s')) ∧
      (∀ v, f.fns name kw = .ok v → ∃ s' s'', doNode env f name task kw s1 = (.ok v, s') ∧
        postNode f name task v s' = (.ok (), s'')) := by
    by_cases hd : f.behaviorOf name = .disable
    · constructor
      · intro e hv
        exact ⟨_, by simp only [doNode, hd, callNode, hv]; rfl⟩
      · intro v hv
        exact ⟨_, _, by simp only [doNode, hd, callNode, hv]; rfl, by simp only [postNode, hd]; rfl⟩
    · obtain ⟨key, hk⟩ := hkey hd
      have hdo := doNode_spec he hu hfn hg1 hd hk (by rw [hv1]; exact hr.versions)
        (by
          have := hr.free
          unfold memVersion at this ⊢
          rw [hv1]
          exact this)
      constructor
      · intro e hv
        obtain ⟨s2, h2, _⟩ := hdo.1 e hv
        exact ⟨s2, h2⟩
      · intro v hv
        obtain ⟨s2, h2, hd2⟩ := hdo.2 v hv
        obtain ⟨rs, h3, _⟩ := postNode_spec hd hk hd2
        exact ⟨_, _, h2, h3⟩
  have hagree := doNode_agrees (env := env) f name task shown kw s1
  have hlog : infoOnly (nodeLog env f name task shown kw s) = infoOnly (doLog env f name task shown kw s1) := by
    unfold nodeLog
    rw [infoOnly_append, infoOnly_quiet (shown := shown) preLog_quiet, List.nil_append, h1]
    simp only
    rw [infoOnly_append]
    obtain ⟨r2, s2, hp2⟩ : ∃ r2 s2, doNode env f name task kw s1 = (r2, s2) := ⟨_, _, rfl⟩
    rw [hp2]
    cases r2 <;> simp only <;> rw [infoOnly_quiet (shown := shown) postLog_quiet, List.append_nil]
  rw [hlog]
  constructor
  · intro e hv
    obtain ⟨s2, h2⟩ := hdo.1 e hv
    rcases hagree with ⟨_, _, h⟩ | ⟨_, _, h⟩
    · exact (h ⟨e, hv⟩).1
    · rcases h ⟨e, by rw [h2]⟩ with h | ⟨x, h⟩
      · exact h
      · exact absurd (hset x) h
  · intro v hv
    obtain ⟨s2, s3, h2, h3⟩ := hdo.2 v hv
    have h4 : (cachedNode env f name task kw s).2 = s3 := by simp only [cachedNode, h1, h2, h3]
    have h5 := postNode_executed f name task v s2
    rw [h3] at h5
    simp only at h5
    rw [h4, h5]
    rcases hagree with ⟨h, h', _⟩ | ⟨h, h', _⟩
    · rw [h2] at h
      exact .inl ⟨h' ⟨v, hv⟩, by rw [← hex1]; exact h⟩
    · rw [h2] at h h'
      exact .inr ⟨h' ⟨v, rfl⟩, by rw [← hex1]; exact h⟩

/-! ### All steps -/

/-- The event for a node that got a value in the run. -/
def eventOf (std : Bool) (ran : List (Name × String)) (p : Name × String) : Event :=
  ⟨if p ∈ ran then .execute else .getResult, some p.1, if std then none else some p.2⟩

theorem runSteps_executed (f : Flow V) : ∀ (rest : List (Step V)) (vals : Vals V) (s : State V),
    ∃ l, (runSteps env (cachedNode env f) rest vals s).2.executed = s.executed ++ l ∧
      ∀ p ∈ l, ∃ st ∈ rest, p = (st.name, st.task)
  | [], vals, s => ⟨[], by simp [runSteps], (fun p h => by cases h)⟩
  | st :: rest, vals, s => by
    unfold runSteps
    cases evalArgs env vals st.args with
    | none => exact ⟨[], by simp, (fun p h => by cases h)⟩
    | some kw =>
      simp only
      have h := cachedNode_executed (env := env) f st.name st.task kw s
      obtain ⟨r, s1, hp⟩ : ∃ r s1, cachedNode env f st.name st.task kw s = (r, s1) := ⟨_, _, rfl⟩
      rw [hp] at h
      simp only [hp]
      have h0 : ∃ l, s1.executed = s.executed ++ l ∧ ∀ p ∈ l, ∃ st' ∈ st :: rest, p = (st'.name, st'.task) := by
        rcases h with h | h
        · exact ⟨[], by rw [List.append_nil]; exact h, (fun p h => by cases h)⟩
        · refine ⟨_, h, ?_⟩
          intro p hp
          rw [List.mem_singleton.1 hp]
          exact ⟨st, List.mem_cons_self, rfl⟩
      cases r with
      | error e => exact h0
      | ok v =>
        obtain ⟨l, h1, h2⟩ := h0
        obtain ⟨l', h3, h4⟩ := runSteps_executed f rest (vals.set (st.name, st.task) v) s1
        refine ⟨l ++ l', by simp only; rw [h3, h1, List.append_assoc], ?_⟩
        intro p hp
        rcases List.mem_append.1 hp with h | h
        · exact h2 p h
        · obtain ⟨st', h5, h6⟩ := h4 p h
          exact ⟨st', List.mem_cons_of_mem _ h5, h6⟩

theorem steps_logged (he : env.Lawful) (hu : OrderFree env col impl) {r : Run V} (hv : Run.Valid env col impl r) (std : Bool) :
    ∀ (rest : List (Step V)) (vals : Vals V) (s : State V), Good env col impl s → Mem env r vals s → Pending r vals rest →
      (∀ st ∈ rest, (st.name, st.task) ∉ s.executed) →
      ∃ done : List (Name × String), done.Nodup ∧ (∀ p ∈ done, ∃ st ∈ rest, p = (st.name, st.task)) ∧
        infoOnly (stepsLog env r.flow std rest vals s) =
          done.map (eventOf std (runSteps env (cachedNode env r.flow) rest vals s).2.executed) ∧
        ∀ p, (∃ v, (runSteps env (cachedNode env r.flow) rest vals s).1.vals.get? p = some v) ↔
          ((∃ v, vals.get? p = some v) ∨ p ∈ done) := by
  intro rest
  induction rest with
  | nil =>
    intro vals s _ _ _ _
    refine ⟨[], List.nodup_nil, (fun p h => by cases h), rfl, ?_⟩
    intro p
    simp [runSteps]
  | cons st rest ih =>
    intro vals s hg hm hp hex
    have hst : st ∈ r.steps := hp.sub st List.mem_cons_self
    cases hk : evalArgs env vals st.args with
    | none =>
      refine ⟨[], List.nodup_nil, (fun p h => by cases h), by simp only [stepsLog, hk]; rfl, ?_⟩
      intro p
      simp only [runSteps, hk]
      simp
    | some kw =>
      obtain ⟨h1, h2⟩ := evalArgs_spec hk
      have hn : kw.keys.Nodup := by rw [h1]; exact hv.args_nodup st hst
      have hnm : ∀ x ∈ kw.keys, ',' ∉ x.toList := by
        intro x hx
        rw [h1] at hx
        obtain ⟨p, hp1, rfl⟩ := List.mem_map.1 hx
        exact hv.names st hst p hp1
      have hft : ∀ p ∈ kw, Fits env r.flow (collected (r.flow.kinds st.name)) st.task s p.1 p.2 := by
        intro p hpk
        obtain ⟨src, h3, h4⟩ := h2 p hpk
        exact hm.fits hv hp h3 h4
      have hnode := cachedNode_spec he hu (hv.fns st.name kw) (collected_eq hv st.name) hg (behaviorOf_ne_ignore hv _)
        hn hnm hft (hm.ready hv hp)
      have hlog := node_logged he hu (if std then none else some st.task) (hv.fns st.name kw) (collected_eq hv st.name) hg
        (behaviorOf_ne_ignore hv _) hn hnm hft (hm.ready hv hp)
      cases hf : r.flow.fns st.name kw with
      | error e =>
        obtain ⟨s', h3, h4⟩ := hnode.1 e hf
        have h5 := hlog.1 e hf
        refine ⟨[], List.nodup_nil, (fun p h => by cases h), ?_, ?_⟩
        · simp only [stepsLog, hk, h3, List.append_nil]
          exact h5
        · intro p
          simp only [runSteps, hk, h3]
          simp
      | ok v =>
        obtain ⟨s', h3, h4, h5⟩ := hnode.2 v hf
        have h6 := hlog.2 v hf
        rw [h3] at h6
        simp only at h6
        have hother : ∀ st' ∈ rest, (st'.name, st'.task) ≠ (st.name, st.task) := by
          intro st' h heq
          injection heq with ha hb
          exact ((List.pairwise_cons.1 hp.pair).1 st' h ha.symm).1 hb.symm
        have hex' : ∀ st' ∈ rest, (st'.name, st'.task) ∉ s'.executed := by
          intro st' h hmem
          have h0 := hex st' (List.mem_cons_of_mem _ h)
          rcases h6 with ⟨_, h6⟩ | ⟨_, h6⟩
          · rw [h6] at hmem
            rcases List.mem_append.1 hmem with h7 | h7
            · exact h0 h7
            · exact hother st' h (List.mem_singleton.1 h7)
          · rw [h6] at hmem
            exact h0 hmem
        obtain ⟨done, d1, d2, d3, d4⟩ := ih _ s' h4 (hm.next hv hp h5) (hp.next v) hex'
        have hnd : (st.name, st.task) ∉ done := by
          intro h
          obtain ⟨st', h7, h8⟩ := d2 _ h
          exact hother st' h7 h8.symm
        refine ⟨(st.name, st.task) :: done, List.nodup_cons.2 ⟨hnd, d1⟩, ?_, ?_, ?_⟩
        · intro p h
          rcases List.mem_cons.1 h with rfl | h
          · exact ⟨st, List.mem_cons_self, rfl⟩
          · obtain ⟨st', h7, h8⟩ := d2 _ h
            exact ⟨st', List.mem_cons_of_mem _ h7, h8⟩
        · obtain ⟨l, h7, h8⟩ := runSteps_executed (env := env) r.flow rest (vals.set (st.name, st.task) v) s'
          have hmem : (st.name, st.task) ∈ (runSteps env (cachedNode env r.flow) rest (vals.set (st.name, st.task) v) s').2.executed ↔
              (st.name, st.task) ∈ s'.executed := by
            rw [h7]
            constructor
            · intro h
              rcases List.mem_append.1 h with h | h
              · exact h
              · obtain ⟨st', h9, h10⟩ := h8 _ h
                exact absurd h10.symm (hother st' h9)
            · exact fun h => List.mem_append_left _ h
          simp only [stepsLog, hk, h3, runSteps]
          rw [infoOnly_append, d3, List.map_cons]
          have : infoOnly (nodeLog env r.flow st.name st.task (if std then none else some st.task) kw s) =
              [eventOf std (runSteps env (cachedNode env r.flow) rest (vals.set (st.name, st.task) v) s').2.executed
                (st.name, st.task)] := by
            unfold eventOf
            rcases h6 with ⟨h9, h10⟩ | ⟨h9, h10⟩
            · have hin := hmem.2 (by rw [h10]; exact List.mem_append_right _ (List.mem_singleton.2 rfl))
              rw [h9]
              simp only [if_pos hin]
            · have hout : (st.name, st.task) ∉
                  (runSteps env (cachedNode env r.flow) rest (vals.set (st.name, st.task) v) s').2.executed := by
                intro h
                have := hmem.1 h
                rw [h10] at this
                exact hex st List.mem_cons_self this
              rw [h9]
              simp only [if_neg hout]
          rw [this]
          rfl
        · intro p
          simp only [runSteps, hk, h3]
          rw [d4 p]
          obtain ⟨n, t⟩ := p
          rw [get?_setPair, List.mem_cons]
          by_cases hh : st.name = n ∧ st.task = t
          · rw [if_pos hh]
            obtain ⟨rfl, rfl⟩ := hh
            simp
          · rw [if_neg hh]
            have : (n, t) ≠ (st.name, st.task) := by
              intro h
              injection h with a b
              exact hh ⟨a.symm, b.symm⟩
            simp [this]

/-! ### The start of a run -/

theorem versionGiven_executed : ∀ (given : Dict Name V) (s : State V), (versionGiven env given s).executed = s.executed
  | [], _ => rfl
  | (d, v) :: rest, s => by
    have h := versionData_executed (env := env) v s
    unfold versionGiven
    obtain ⟨x, s2, hp⟩ : ∃ x s2, State.versionData env v s = (x, s2) := ⟨_, _, rfl⟩
    rw [hp] at h
    simp only [hp]
    rw [versionGiven_executed rest]
    exact h

theorem startLog_what {j : Job V} {e : Event} (h : e ∈ startLog env j) :
    (e.what = .behavior ∧ ∃ n ∈ j.nodes, e.node = some n) ∨ (e.what = .finalVar ∧ ∃ n ∈ j.finalVars, e.node = some n) ∨
      e.what = .unhashable ∨ (e.what = .input ∧ ∃ n ∈ j.inputs.keys, e.node = some n) ∨
      (e.what = .override ∧ ∃ n ∈ j.overrides.keys, e.node = some n) := by
  have hv : ∀ {n : Option Name} {v : V} {e : Event}, e ∈ versionLog env n v → e.what = .unhashable := by
    intro n v e h
    unfold versionLog at h
    split at h
    · cases h
    · rw [List.mem_singleton.1 h]
  unfold startLog at h
  rcases List.mem_append.1 h with h | h
  · rcases List.mem_append.1 h with h | h
    · rcases List.mem_append.1 h with h | h
      · obtain ⟨n, h1, rfl⟩ := List.mem_map.1 h
        exact .inl ⟨rfl, n, h1, rfl⟩
      · obtain ⟨n, h1, rfl⟩ := List.mem_map.1 h
        exact .inr (.inl ⟨rfl, n, h1, rfl⟩)
    · obtain ⟨p, h1, h2⟩ := List.mem_flatMap.1 h
      rcases List.mem_append.1 h2 with h2 | h2
      · exact .inr (.inr (.inl (hv h2)))
      · rw [List.mem_singleton.1 h2]
        exact .inr (.inr (.inr (.inl ⟨rfl, p.1, List.mem_map.2 ⟨p, h1, rfl⟩, rfl⟩)))
  · obtain ⟨p, h1, h2⟩ := List.mem_flatMap.1 h
    rcases List.mem_append.1 h2 with h2 | h2
    · exact .inr (.inr (.inl (hv h2)))
    · rw [List.mem_singleton.1 h2]
      exact .inr (.inr (.inr (.inr ⟨rfl, p.1, List.mem_map.2 ⟨p, h1, rfl⟩, rfl⟩)))

theorem startLog_task {j : Job V} {e : Event} (h : e ∈ startLog env j) : e.task = none := by
  have hv : ∀ {n : Option Name} {v : V} {e : Event}, e ∈ versionLog env n v → e.task = none := by
    intro n v e h
    unfold versionLog at h
    split at h
    · cases h
    · rw [List.mem_singleton.1 h]
  unfold startLog at h
  rcases List.mem_append.1 h with h | h
  · rcases List.mem_append.1 h with h | h
    · rcases List.mem_append.1 h with h | h
      · obtain ⟨n, h1, rfl⟩ := List.mem_map.1 h
        rfl
      · obtain ⟨n, h1, rfl⟩ := List.mem_map.1 h
        rfl
    · obtain ⟨p, h1, h2⟩ := List.mem_flatMap.1 h
      rcases List.mem_append.1 h2 with h2 | h2
      · exact hv h2
      · rw [List.mem_singleton.1 h2]
  · obtain ⟨p, h1, h2⟩ := List.mem_flatMap.1 h
    rcases List.mem_append.1 h2 with h2 | h2
    · exact hv h2
    · rw [List.mem_singleton.1 h2]

theorem startLog_info (j : Job V) : infoOnly (startLog env j) = [] := by
  unfold infoOnly
  rw [List.filter_eq_nil_iff]
  intro e he
  rcases startLog_what he with ⟨h, _⟩ | ⟨h, _⟩ | h | ⟨h, _⟩ | ⟨h, _⟩ <;> simp [h]

/-- What the steps log never says anything about what was requested or given. -/
def Loud (shown : Option String) (e : Event) : Prop :=
  Quiet shown e ∨ ((e.what = .execute ∨ e.what = .getResult) ∧ e.task = shown)

theorem executeLog_loud {f : Flow V} {name : Name} {shown : Option String} {kw : Dict Name V} {b : Bool} :
    ∀ e ∈ executeLog env f name shown kw b, Loud shown e := by
  intro e he
  cases h : f.fns name kw with
  | error x => rw [executeLog_error h] at he; cases he
  | ok v =>
    obtain ⟨l, h1, h2⟩ := executeLog_eq (env := env) (shown := shown) (b := b) h
    rw [h1] at he
    rcases List.mem_cons.1 he with h | h
    · rw [h]
      exact .inr ⟨.inl rfl, rfl⟩
    · exact .inl (h2 e h)

theorem doLog_loud {f : Flow V} {name : Name} {task : String} {shown : Option String} {kw : Dict Name V} {s : State V} :
    ∀ e ∈ doLog env f name task shown kw s, Loud shown e := by
  intro e he
  unfold doLog at he
  split at he
  · split at he
    · cases he
    · rw [List.mem_singleton.1 he]
      exact .inr ⟨.inl rfl, rfl⟩
  · exact executeLog_loud e he
  · exact executeLog_loud e he
  · rcases List.mem_cons.1 he with h | h
    · rw [h]
      exact .inl ⟨by simp, .inr rfl⟩
    · split at h
      · cases h
      · rcases List.mem_append.1 h with h | h
        · exact .inl (getVersionLog_quiet e h)
        · split at h
          · cases h
          · unfold retrieveLog at h
            split at h
            · exact executeLog_loud e h
            · split at h
              · exact executeLog_loud e h
              · split at h
                · rcases List.mem_cons.1 h with h | h
                  · rw [h]
                    exact .inl ⟨by simp, .inr rfl⟩
                  · exact executeLog_loud e h
                · rcases List.mem_cons.1 h with h | h
                  · rw [h]
                    exact .inr ⟨.inr rfl, rfl⟩
                  · rw [List.mem_singleton.1 h]
                    exact .inl ⟨by simp, .inr rfl⟩

theorem nodeLog_loud {f : Flow V} {name : Name} {task : String} {shown : Option String} {kw : Dict Name V} {s : State V} :
    ∀ e ∈ nodeLog env f name task shown kw s, Loud shown e := by
  intro e he
  unfold nodeLog at he
  rcases List.mem_append.1 he with h | h
  · exact .inl (preLog_quiet e h)
  · split at h
    · cases h
    · rcases List.mem_append.1 h with h | h
      · exact doLog_loud e h
      · split at h <;> exact .inl (postLog_quiet e h)

theorem stepsLog_loud {f : Flow V} : ∀ (rest : List (Step V)) (vals : Vals V) (s : State V),
    ∀ e ∈ stepsLog env f true rest vals s, Loud none e
  | [], _, _, e, he => by cases he
  | st :: rest, vals, s, e, he => by
    unfold stepsLog at he
    split at he
    · cases he
    · rcases List.mem_append.1 he with h | h
      · exact nodeLog_loud e h
      · split at h
        · cases h
        · exact stepsLog_loud rest _ _ e h

/-- Everything at level "info" that a job logs. -/
theorem job_logged (he : env.Lawful) (hu : OrderFree env col impl) {j : Job V} (hv : Run.Valid env col impl j.run) {s : State V}
    (hg : Good env col impl s) : ∃ done : List (Name × String), done.Nodup ∧
      (∀ p ∈ done, ∃ st ∈ j.run.steps, p = (st.name, st.task)) ∧
      infoOnly (jobLog env j s) = done.map (eventOf j.std (cachedRun env j.run s).2.executed) ∧
      ∀ p, (∃ v, (plainRun env j.run).vals.get? p = some v) ↔ p ∈ done := by
  obtain ⟨h1, h2, h3⟩ := startRun_spec he hv hg
  have hex : (startRun env j.run s).executed = [] := versionGiven_executed _ _
  obtain ⟨done, d1, d2, d3, d4⟩ := steps_logged he hu hv j.std j.run.steps [] _ h1 h2 h3
    (by intro st _; rw [hex]; exact List.not_mem_nil)
  refine ⟨done, d1, d2, ?_, ?_⟩
  · unfold jobLog
    rw [infoOnly_append, startLog_info, List.nil_append]
    exact d3
  · intro p
    rw [← (cachedRun_spec he hu hv hg).1]
    have h := d4 p
    constructor
    · intro hp
      rcases h.1 hp with ⟨v, h⟩ | h
      · cases h
      · exact h
    · exact fun hp => h.2 (.inr hp)

/-! ### Reading -/

theorem group_get : ∀ (l : List Event) (d : Dict (Option Name × Option String) (List Event)) (k : Option Name × Option String),
    (group l d).get? k = if l.filter (fun e => keyOf e = k) = [] then d.get? k
      else some ((d.get? k).getD [] ++ l.filter (fun e => keyOf e = k))
  | [], _, _ => rfl
  | e :: rest, d, k => by
    unfold group
    rw [group_get rest, Dict.get?_set]
    by_cases h : keyOf e = k
    · have h1 : (e :: rest).filter (fun e => keyOf e = k) = e :: rest.filter (fun e => keyOf e = k) := by
        rw [List.filter_cons, if_pos (by simp [h])]
      rw [h1, if_pos h, if_neg (by simp : ¬ (e :: List.filter (fun e => decide (keyOf e = k)) rest = []))]
      split
      · rename_i h2
        rw [h2, h]
      · simp [h]
    · have h1 : (e :: rest).filter (fun e => keyOf e = k) = rest.filter (fun e => keyOf e = k) := by
        rw [List.filter_cons, if_neg (by simp [h])]
      rw [h1, if_neg h]

theorem group_nodup : ∀ (l : List Event) (d : Dict (Option Name × Option String) (List Event)), d.keys.Nodup →
    (group l d).keys.Nodup
  | [], _, h => h
  | _ :: rest, _, h => group_nodup rest _ (Dict.keys_set_nodup h _ _)

theorem filter_one {α β : Type} [DecidableEq β] [DecidableEq α] {f : α → Event} {key : Event → β} {k : β} {q : α} : ∀ {l : List α},
    l.Nodup → (∀ p ∈ l, key (f p) = k ↔ p = q) →
    (l.map f).filter (fun e => key e = k) = if q ∈ l then [f q] else []
  | [], _, _ => rfl
  | p :: rest, hn, h => by
    have hn := List.nodup_cons.1 hn
    have ih := filter_one (f := f) (key := key) (k := k) (q := q) hn.2 (fun x hx => h x (List.mem_cons_of_mem _ hx))
    rw [List.map_cons, List.filter_cons]
    by_cases hp : p = q
    · subst hp
      rw [if_pos (by simpa using (h p List.mem_cons_self).2 rfl), if_pos List.mem_cons_self, ih, if_neg hn.1]
    · rw [if_neg (by simpa using fun hh => hp ((h p List.mem_cons_self).1 hh)), ih]
      by_cases hq : q ∈ rest
      · rw [if_pos hq, if_pos (List.mem_cons_of_mem _ hq)]
      · rw [if_neg hq, if_neg]
        intro hh
        rcases List.mem_cons.1 hh with hh | hh
        · exact hp hh.symm
        · exact hq hh

/-- The entries that `view_run` lists under one heading. -/
def Listed (L : List ((Option Name × Option String) × List Event)) (p : List Event → Prop) (n : Name) : Prop :=
  ∃ es, ((some n, none), es) ∈ L ∧ p es

def says (w : What) (es : List Event) : Bool := es.any (fun e => e.what = w)

theorem Listed.cons {x : (Option Name × Option String) × List Event} {L : List ((Option Name × Option String) × List Event)}
    {p : List Event → Prop} {n : Name} : Listed (x :: L) p n ↔ (x.1 = (some n, none) ∧ p x.2) ∨ Listed L p n := by
  unfold Listed
  constructor
  · rintro ⟨es, h1, h2⟩
    rcases List.mem_cons.1 h1 with h | h
    · rw [← h]
      exact .inl ⟨rfl, h2⟩
    · exact .inr ⟨es, h, h2⟩
  · rintro (⟨h1, h2⟩ | ⟨es, h1, h2⟩)
    · exact ⟨x.2, List.mem_cons.2 (.inl (by rw [← h1])), h2⟩
    · exact ⟨es, List.mem_cons_of_mem _ h1, h2⟩

theorem viewLoop_spec : ∀ (L : List ((Option Name × Option String) × List Event)) (w : View), (∀ x ∈ L, x.1.2 = none) →
    ∃ w', viewLoop L w = .ok w' ∧ w'.fromCache = w.fromCache ∧
      (∀ n, n ∈ w'.finalVars ↔ n ∈ w.finalVars ∨ Listed L (fun es => says .finalVar es = true) n) ∧
      (∀ n, n ∈ w'.inputs ↔ n ∈ w.inputs ∨ Listed L (fun es => says .input es = true) n) ∧
      (∀ n, n ∈ w'.overrides ↔ n ∈ w.overrides ∨
        Listed L (fun es => says .override es = true ∧ says .input es = false) n)
  | [], w, _ => ⟨w, rfl, rfl, by simp [Listed], by simp [Listed], by simp [Listed]⟩
  | ((m, some t), es) :: rest, w, h => by
    have := h _ List.mem_cons_self
    cases this
  | ((none, none), es) :: rest, w, h => by
    obtain ⟨w', h1, h2, h3, h4, h5⟩ := viewLoop_spec rest w (fun x hx => h x (List.mem_cons_of_mem _ hx))
    refine ⟨w', by simp only [viewLoop]; exact h1, h2, ?_, ?_, ?_⟩
    · intro n; rw [h3, Listed.cons]; simp
    · intro n; rw [h4, Listed.cons]; simp
    · intro n; rw [h5, Listed.cons]; simp
  | ((some m, none), es) :: rest, w, h => by
    have hr := fun x hx => h x (List.mem_cons_of_mem _ hx)
    let w1 : View := if says .finalVar es then { w with finalVars := w.finalVars ++ [m] } else w
    have e1 : w1.fromCache = w.fromCache := by simp only [w1]; split <;> rfl
    have e2 : w1.inputs = w.inputs := by simp only [w1]; split <;> rfl
    have e3 : w1.overrides = w.overrides := by simp only [w1]; split <;> rfl
    have e4 : ∀ n, n ∈ w1.finalVars ↔ n ∈ w.finalVars ∨ (m = n ∧ says .finalVar es = true) := by
      intro n
      simp only [w1]
      split <;> rename_i hs <;> simp [hs, eq_comm]
    have hw : ∀ w2, w2 = (if says .input es then { w1 with inputs := w1.inputs ++ [m] }
        else if says .override es then { w1 with overrides := w1.overrides ++ [m] } else w1) →
        viewLoop (((some m, none), es) :: rest) w = viewLoop rest w2 := by
      intro w2 h2
      rw [h2]
      simp only [viewLoop]
      by_cases hi : says .input es = true
      · rw [if_pos hi]
        unfold says at hi
        rw [if_pos hi]
        rfl
      · rw [if_neg hi]
        unfold says at hi
        rw [if_neg hi]
        by_cases ho : says .override es = true
        · rw [if_pos ho]
          unfold says at ho
          rw [if_pos ho]
          rfl
        · rw [if_neg ho]
          unfold says at ho
          rw [if_neg ho]
          rfl
    obtain ⟨w', h1, h2, h3, h4, h5⟩ := viewLoop_spec rest (if says .input es then { w1 with inputs := w1.inputs ++ [m] }
        else if says .override es then { w1 with overrides := w1.overrides ++ [m] } else w1) hr
    refine ⟨w', by rw [hw _ rfl]; exact h1, ?_, ?_, ?_, ?_⟩
    · rw [h2, ← e1]
      split
      · rfl
      · split <;> rfl
    · intro n
      rw [h3, Listed.cons]
      have : ∀ x : View, (x = w1 ∨ x = { w1 with inputs := w1.inputs ++ [m] } ∨ x = { w1 with overrides := w1.overrides ++ [m] }) →
          x.finalVars = w1.finalVars := by
        rintro x (rfl | rfl | rfl) <;> rfl
      rw [this _ (by split; exact .inr (.inl rfl); split; exact .inr (.inr rfl); exact .inl rfl), e4, or_assoc]
      simp
    · intro n
      rw [h4, Listed.cons]
      by_cases hi : says .input es = true
      · rw [if_pos hi]
        simp [e2, hi, or_assoc, @eq_comm _ m n]
      · rw [if_neg hi]
        have hi' : says .input es = false := by simpa using hi
        split <;> simp [e2, hi']
    · intro n
      rw [h5, Listed.cons]
      by_cases hi : says .input es = true
      · rw [if_pos hi]
        simp [e3, hi]
      · rw [if_neg hi]
        have hi' : says .input es = false := by simpa using hi
        by_cases ho : says .override es = true
        · rw [if_pos ho]
          simp [e3, hi', ho, or_assoc, @eq_comm _ m n]
        · rw [if_neg ho]
          simp [e3, hi', ho]

theorem says_iff {w : What} {es : List Event} : says w es = true ↔ ∃ e ∈ es, e.what = w := by
  simp [says]

/-- Entries of the grouped log. -/
theorem listed_group {l : List Event} {p : List Event → Prop} (hp : ¬ p []) {n : Name} :
    Listed (group l []) p n ↔ p (l.filter (fun e => keyOf e = (some n, none))) := by
  have hn := group_nodup l [] List.nodup_nil
  have hg := group_get l [] (some n, none)
  unfold Listed
  constructor
  · rintro ⟨es, h1, h2⟩
    rw [Dict.get?_of_mem hn h1] at hg
    split at hg
    · cases hg
    · injection hg with hg
      rw [hg] at h2
      exact h2
  · intro h
    rw [if_neg (by intro h0; rw [h0] at h; exact hp h)] at hg
    exact ⟨_, Dict.get?_mem hg, h⟩

end Verif.TaskCache.Log
