import Verif.Proofs.RunFacts
import Verif.Proofs.NoFail

/-! Runs of arbitrary plans: no condition on the list of tasks. -/
namespace Verif
variable {T V : Type}
variable {ops : TaskOps T V} {g : Graph T V} {specs : List (TaskSpec T V)} {ex : Executors} {sf : Prop}

theorem mem_dict_set {K W : Type} [DecidableEq K] {d : Dict K W} {k : K} {v : W} {p : K × W} (h : p ∈ d.set k v) :
    p = (k, v) ∨ p ∈ d := by
  induction d with
  | nil =>
    simp only [Dict.set, List.mem_singleton] at h
    exact .inl h
  | cons q d ih =>
    obtain ⟨a, b⟩ := q
    simp only [Dict.set] at h
    split at h
    · rcases List.mem_cons.1 h with h | h
      · exact .inl h
      · exact .inr (List.mem_cons_of_mem _ h)
    · rcases List.mem_cons.1 h with h | h
      · exact .inr (h ▸ List.mem_cons_self)
      · rcases ih h with h | h
        · exact .inl h
        · exact .inr (List.mem_cons_of_mem _ h)

/-- The specifications the scheduler knows: one per name. -/
def baseOf (specs : List (TaskSpec T V)) : List (TaskSpec T V) :=
  (specs.foldl (fun (d : Dict Name (TaskSpec T V)) t => d.set t.baseId t) []).map (·.2)

theorem mem_baseOf {s : TaskSpec T V} (h : s ∈ baseOf specs) : s ∈ specs := by
  have key : ∀ (l : List (TaskSpec T V)) (d : Dict Name (TaskSpec T V)) (p : Name × TaskSpec T V),
      p ∈ l.foldl (fun (d : Dict Name (TaskSpec T V)) t => d.set t.baseId t) d → p ∈ d ∨ p.2 ∈ l := by
    intro l
    induction l with
    | nil => exact fun d p h => .inl h
    | cons a l ih =>
      intro d p h
      rcases ih _ p h with h | h
      · rcases mem_dict_set h with h | h
        · exact .inr (by rw [h]; exact List.mem_cons_self)
        · exact .inl h
      · exact .inr (List.mem_cons_of_mem _ h)
  obtain ⟨p, hp, rfl⟩ := List.mem_map.1 h
  rcases key specs [] p hp with h | h
  · cases h
  · exact h

/-- The tasks that a run of an arbitrary plan may realize. -/
inductive AnyReal (ops : TaskOps T V) (specs : List (TaskSpec T V)) (trace : List (Event T V)) : Task T V → Prop
  | static (s : TaskSpec T V) : s ∈ specs → (s.spawning = none ∨ s.purpose = .expand ∨ s.baseDeps = []) →
      AnyReal ops specs trace (mkTask s none none [])
  | inst (s : TaskSpec T V) (e x : Name) (items : List V) (i : Nat) (item : V) : s ∈ baseOf specs → s.MemberOf e →
      Yielded ops specs trace e x items → items[i]? = some item →
      AnyReal ops specs trace (instTask (baseOf specs) e x i item s)
  | coll (s : TaskSpec T V) (e x : Name) (items : List V) : s ∈ baseOf specs → s.CollectorOf e →
      Yielded ops specs trace e x items → AnyReal ops specs trace (collTask (baseOf specs) e items s)

theorem AnyReal.mono {tr tr' : List (Event T V)} {t : Task T V}
    (hsub : ∀ id r, .done id r ∈ tr → .done id r ∈ tr') (h : AnyReal ops specs tr t) : AnyReal ops specs tr' t := by
  cases h with
  | static s h1 h2 => exact .static s h1 h2
  | inst s e x items i item h1 h2 h3 h4 => exact .inst s e x items i item h1 h2 (h3.mono hsub) h4
  | coll s e x items h1 h2 h3 => exact .coll s e x items h1 h2 (h3.mono hsub)

theorem AnyReal.spec {tr : List (Event T V)} {t : Task T V} (h : AnyReal ops specs tr t) : t.toTaskSpec ∈ specs := by
  cases h with
  | static s h1 h2 => exact h1
  | inst s e x items i item h1 h2 h3 h4 => exact mem_baseOf h1
  | coll s e x items h1 h2 h3 => exact mem_baseOf h1

theorem AnyReal.of_expand {tr : List (Event T V)} {t : Task T V} (h : AnyReal ops specs tr t)
    (hp : t.purpose = .expand) : ∃ s ∈ specs, t = mkTask s none none [] := by
  cases h with
  | static s h1 h2 => exact ⟨s, h1, rfl⟩
  | inst s e x items i item h1 h2 h3 h4 => exact absurd hp h2.2.1
  | coll s e x items h1 h2 h3 =>
    have h2' : (collTask (baseOf specs) e items s).purpose = .gather := h2.2
    rw [h2'] at hp; cases hp

/-- The task was realized before, and everything it waits for is done. -/
def AnyReady (ops : TaskOps T V) (specs : List (TaskSpec T V)) (tr : List (Event T V)) (t : Task T V) : Prop :=
  ∃ t0, AnyReal ops specs tr t0 ∧ SameCore t t0 ∧ ∀ d ∈ t0.deps, Done tr d

theorem AnyReady.mono {tr tr' : List (Event T V)} {t : Task T V}
    (hsub : ∀ id r, .done id r ∈ tr → .done id r ∈ tr') (h : AnyReady ops specs tr t) : AnyReady ops specs tr' t := by
  obtain ⟨t0, h1, h2, h3⟩ := h
  refine ⟨t0, h1.mono hsub, h2, fun d hd => ?_⟩
  obtain ⟨r, hr⟩ := h3 d hd
  exact ⟨r, hsub _ _ hr⟩

/-- What holds of the trace of any plan. -/
structure AnyTrace (ops : TaskOps T V) (g : Graph T V) (specs : List (TaskSpec T V)) (tr : List (Event T V)) : Prop where
  submit_ok : ∀ pre t post, tr = pre ++ .submit t :: post → AnyReady ops specs pre t
  done_ok : ∀ id r, .done id r ∈ tr → ∃ t, .submit t ∈ tr ∧ t.id = id ∧ executeTask g t = .ok r

/-- Invariant of the scheduler for any plan. -/
structure AnySched (ops : TaskOps T V) (specs : List (TaskSpec T V)) (tr : List (Event T V)) (s : Sched T V) : Prop where
  specs_eq : s.specs = specs
  pool_ok : ∀ p ∈ s.pool, p.2.id = p.1 ∧ AnyReal ops specs tr p.2
  queue_ok : ∀ t ∈ s.queue, AnyReady ops specs tr t ∧ t.id ∈ s.states.keys
  succ : ∀ id, stOf s id = .successful → Done tr id
  states_nodup : s.states.keys.Nodup

/-- The future belongs to the task. -/
def FutureOf (g : Graph T V) (t : Task T V) (f : Future T V) : Prop :=
  (∃ r, f = .now r ∧ executeTask g t = .ok r) ∨ f = .later t

theorem SameWork.of_append {tr : List (Event T V)} {e : Event T V} (h : SameWork g (tr ++ [e])) : SameWork g tr :=
  fun t t' h1 h2 => h t t' (List.mem_append_left _ h1) (List.mem_append_left _ h2)

/-- Invariant of the loop for any plan.  `sf`: executors may report failure without raising. -/
structure AnyInv (sf : Prop) (ops : TaskOps T V) (g : Graph T V) (specs : List (TaskSpec T V)) (l : Loop T V) : Prop
    extends AnyTrace ops g specs l.trace, AnySched ops specs l.trace l.sched where
  fut_nodup : l.futures.keys.Nodup
  fut_ok : ∀ id f, l.futures.get? id = some f → (∃ t, .submit t ∈ l.trace ∧ t.id = id ∧ FutureOf g t f) ∧
    id ∈ l.sched.states.keys
  /-- unless one task id stands for different work, no submission is lost -/
  kept : SameWork g l.trace → ¬ sf → ∀ t, .submit t ∈ l.trace →
    (∃ r, executeTask g t = .ok r ∧ .done t.id r ∈ l.trace) ∨ (t.id ∈ l.futures.keys ∧ stOf l.sched t.id ≠ .successful)

/-- Registering tasks, with no condition on their names. -/
theorem register_any (ts : List (Task T V)) (s : Sched T V) :
    (ts.foldl Sched.register s).specs = s.specs ∧ (ts.foldl Sched.register s).queue = s.queue ∧
    (∀ p ∈ (ts.foldl Sched.register s).pool, (p.2 ∈ ts ∧ p.2.id = p.1) ∨ p ∈ s.pool) ∧
    (∀ id, stOf (ts.foldl Sched.register s) id = .successful → stOf s id = .successful) ∧
    (∀ id ∈ s.states.keys, id ∈ (ts.foldl Sched.register s).states.keys) ∧
    (s.states.keys.Nodup → (ts.foldl Sched.register s).states.keys.Nodup) := by
  induction ts generalizing s with
  | nil => exact ⟨rfl, rfl, fun p h => .inr h, fun _ h => h, fun _ h => h, fun h => h⟩
  | cons t ts ih =>
    simp only [List.foldl_cons]
    obtain ⟨h1, h2, h3, h4, h5, h6⟩ := ih (s.register t)
    refine ⟨h1, h2, fun p hp => ?_, fun id hid => ?_, fun id hid => ?_, fun hn => h6 (Dict.keys_set_nodup hn _ _)⟩
    · rcases h3 p hp with h | h
      · exact .inl ⟨List.mem_cons_of_mem _ h.1, h.2⟩
      · rcases mem_dict_set h with h | h
        · subst h; exact .inl ⟨List.mem_cons_self, rfl⟩
        · exact .inr h
    · have := h4 id hid
      unfold stOf Sched.register at this
      simp only [Dict.get?_set] at this
      split at this
      · cases this
      · exact this
    · refine h5 id ?_
      unfold Sched.register
      exact (Dict.mem_keys_set _ _ _ _).2 (.inr hid)

theorem AnySched.register {tr : List (Event T V)} {s : Sched T V} (h : AnySched ops specs tr s) {ts : List (Task T V)}
    (hts : ∀ t ∈ ts, AnyReal ops specs tr t) : AnySched ops specs tr (ts.foldl Sched.register s) := by
  obtain ⟨h1, h2, h3, h4, h5, h6⟩ := register_any ts s
  refine ⟨h1.trans h.specs_eq, fun p hp => ?_, fun t ht => ?_, fun id hid => h.succ id (h4 id hid), h6 h.states_nodup⟩
  · rcases h3 p hp with h' | h'
    · exact ⟨h'.2, hts _ h'.1⟩
    · exact h.pool_ok p h'
  · rw [h2] at ht
    exact ⟨(h.queue_ok t ht).1, h5 _ (h.queue_ok t ht).2⟩

theorem mem_enqueued_keys (s : Sched T V) {t : Task T V} (ht : t ∈ readyList s) : t.id ∈ (enqueueReady s).states.keys := by
  obtain ⟨_, _, _, _, h5, _, _, _⟩ := enqueueReady_spec s
  have := h5 t.id
  rw [if_pos (List.mem_map.2 ⟨t, ht, rfl⟩)] at this
  unfold stOf at this
  cases hs : (enqueueReady s).states.get? t.id with
  | none => rw [hs] at this; cases this
  | some v => exact Dict.mem_keys_iff.2 ⟨v, hs⟩

theorem AnySched.enqueue {tr : List (Event T V)} {s : Sched T V} (h : AnySched ops specs tr s) :
    AnySched ops specs tr (enqueueReady s) := by
  obtain ⟨h1, h2, h3, h4, h5, h6, h7, h8⟩ := enqueueReady_spec s
  refine ⟨h1.trans h.specs_eq, by rw [h2]; exact h.pool_ok, fun t ht => ?_, fun id hid => ?_, h8 h.states_nodup⟩
  · rw [h4] at ht
    rcases List.mem_append.1 ht with ht | ht
    · exact ⟨(h.queue_ok t ht).1, h7 _ (h.queue_ok t ht).2⟩
    · refine ⟨?_, mem_enqueued_keys s ht⟩
      unfold readyList at ht
      rw [List.mem_filter] at ht
      obtain ⟨p, hp, rfl⟩ := List.mem_map.1 ht.1
      refine ⟨p.2, (h.pool_ok p hp).2, ⟨rfl, rfl, rfl⟩, fun d hd => ?_⟩
      have hr := ht.2
      unfold readyIn at hr
      simp only [Bool.and_eq_true, List.all_eq_true, beq_iff_eq] at hr
      exact h.succ d (hr.2 d hd)
  · rw [h5] at hid
    split at hid
    · cases hid
    · exact h.succ id hid

/-- States never become successful through `enqueueReady`. -/
theorem enqueue_succ {s : Sched T V} {id : Name} (h : stOf (enqueueReady s) id = .successful) : stOf s id = .successful := by
  obtain ⟨_, _, _, _, h5, _, _, _⟩ := enqueueReady_spec s
  rw [h5] at h
  split at h
  · cases h
  · exact h

theorem realizeGroup_any (s : Sched T V) (e x : Name) (items : List V) :
    realizeGroup s e x items = (instTasks (baseOf s.specs) e x items ++ collTasks (baseOf s.specs) e items).foldl Sched.register s := by
  have hb : ∀ s' : Sched T V, s'.specs = s.specs → s'.baseTasks = baseOf s.specs := by
    intro s' h'
    unfold Sched.baseTasks baseOf
    rw [h']
  unfold realizeGroup
  simp only
  rw [hb s rfl, hb _ (register_fold_specs _ _), List.foldl_append, named_names]
  have hi : (items.zipIdx.map (fun p => (toString p.2, p.1))).flatMap
      (fun p => groupTasks ((baseOf s.specs).filter
        (fun t => t.spawning == some e && t.purpose != .expand && t.purpose != .gather)) e p.1 x p.2) =
      instTasks (baseOf s.specs) e x items := by
    unfold instTasks
    rw [List.flatMap_map]
    rfl
  rw [hi]
  rfl

/-- `realizeDependents` registers some tasks that depend on the completed one. -/
theorem realizeDependents_any (s : Sched T V) (completed : Name) :
    ∃ ts : List (Task T V), realizeDependents s completed = ts.foldl Sched.register s ∧
      ∀ t ∈ ts, ∃ c ∈ s.specs, (c.spawning = none ∨ c.purpose = .expand) ∧ t = mkTask c none none [] := by
  have key : ∀ (l : List (TaskSpec T V)) (s0 : Sched T V), ∃ ts : List (Task T V),
      l.foldl (fun (s : Sched T V) c =>
        if (c.spawning.isNone || c.purpose == .expand) && !s.pool.has c.baseId then
          s.register (mkTask c none none []) else s) s0 = ts.foldl Sched.register s0 ∧
      ∀ t ∈ ts, ∃ c ∈ l, (c.spawning = none ∨ c.purpose = .expand) ∧ t = mkTask c none none [] := by
    intro l
    induction l with
    | nil => exact fun s0 => ⟨[], rfl, fun t ht => by cases ht⟩
    | cons a l ih =>
      intro s0
      simp only [List.foldl_cons]
      split
      · rename_i hc
        obtain ⟨ts, h1, h2⟩ := ih (s0.register (mkTask a none none []))
        refine ⟨mkTask a none none [] :: ts, h1, fun t ht => ?_⟩
        rcases List.mem_cons.1 ht with rfl | ht
        · simp only [Bool.and_eq_true, Bool.or_eq_true, Option.isNone_iff_eq_none, beq_iff_eq] at hc
          exact ⟨a, List.mem_cons_self, hc.1, rfl⟩
        · obtain ⟨c, h3, h4⟩ := h2 t ht
          exact ⟨c, List.mem_cons_of_mem _ h3, h4⟩
      · obtain ⟨ts, h1, h2⟩ := ih s0
        refine ⟨ts, h1, fun t ht => ?_⟩
        obtain ⟨c, h3, h4⟩ := h2 t ht
        exact ⟨c, List.mem_cons_of_mem _ h3, h4⟩
  obtain ⟨ts, h1, h2⟩ := key (s.specs.filter (fun t => t.baseDeps.contains completed)) s
  refine ⟨ts, h1, fun t ht => ?_⟩
  obtain ⟨c, h3, h4⟩ := h2 t ht
  exact ⟨c, (List.mem_filter.1 h3).1, h4⟩

/-- A successful completion in any plan. -/
theorem AnySched.success (hlaw : ∀ l, ops.toList (ops.ofList l) = some l) {tr : List (Event T V)} {s s' : Sched T V}
    (h : AnySched ops specs tr s) {id : Name} {r : Dict Name V} (hs : updateTaskState ops s id .successful r = .ok s') :
    AnySched ops specs (tr ++ [.done id r]) s' ∧ (∀ k, stOf s' k = .successful → stOf s k = .successful ∨ k = id) ∧
    ∀ k ∈ s.states.keys, k ∈ s'.states.keys := by
  have hsub : ∀ i q, .done i q ∈ tr → .done i q ∈ tr ++ [.done id r] := fun i q hq => List.mem_append_left _ hq
  unfold updateTaskState at hs
  simp only [TaskState.isTerminal, Bool.not_true, Bool.false_eq_true, if_false, if_true] at hs
  split at hs
  · cases hs
  split at hs
  · cases hs
  rename_i t ht
  obtain ⟨hti, htr⟩ := h.pool_ok _ (Dict.get?_mem ht)
  split at hs
  · cases hs
  rename_i c hc
  have hstart : AnySched ops specs (tr ++ [.done id r]) { s with states := s.states.set id .successful, cache := c } := by
    refine ⟨h.specs_eq, fun p hp => ⟨(h.pool_ok p hp).1, (h.pool_ok p hp).2.mono hsub⟩, fun t ht => ?_, fun k hk => ?_,
      Dict.keys_set_nodup h.states_nodup _ _⟩
    · exact ⟨(h.queue_ok t ht).1.mono hsub, (Dict.mem_keys_set _ _ _ _).2 (.inr (h.queue_ok t ht).2)⟩
    · unfold stOf at hk
      simp only [Dict.get?_set] at hk
      split at hk
      · rename_i he; subst he; exact ⟨r, by simp⟩
      · obtain ⟨q, hq⟩ := h.succ k hk
        exact ⟨q, hsub _ _ hq⟩
  have hsucc : ∀ k, stOf { s with states := s.states.set id .successful, cache := c } k = .successful →
      stOf s k = .successful ∨ k = id := by
    intro k hk
    unfold stOf at hk
    simp only [Dict.get?_set] at hk
    split at hk
    · rename_i he; exact .inr he.symm
    · exact .inl hk
  have hkeys : ∀ k ∈ s.states.keys, k ∈ (s.states.set id .successful).keys := fun k hk => (Dict.mem_keys_set _ _ _ _).2 (.inr hk)
  have hfin : ∀ ts : List (Task T V), (∀ t ∈ ts, AnyReal ops specs (tr ++ [.done id r]) t) →
      s' = enqueueReady (ts.foldl Sched.register { s with states := s.states.set id .successful, cache := c }) →
      AnySched ops specs (tr ++ [.done id r]) s' ∧ (∀ k, stOf s' k = .successful → stOf s k = .successful ∨ k = id) ∧
      ∀ k ∈ s.states.keys, k ∈ s'.states.keys := by
    intro ts hts he
    subst he
    obtain ⟨r1, r2, r3, r4, r5, _⟩ := register_any ts { s with states := s.states.set id .successful, cache := c }
    obtain ⟨_, _, _, _, _, _, h7, _⟩ := enqueueReady_spec (ts.foldl Sched.register { s with states := s.states.set id .successful, cache := c })
    exact ⟨(hstart.register hts).enqueue, fun k hk => hsucc k (r4 k (enqueue_succ hk)), fun k hk => h7 k (r5 k (hkeys k hk))⟩
  split at hs
  · rename_i hpe
    obtain ⟨s0, hs0, rfl⟩ := htr.of_expand hpe
    have hbid : s0.baseId = id := hti
    obtain ⟨n, v, items, hn, hv, hi, hcache⟩ := write_expand hpe hc
    have hn' : expanderNode (mkTask s0 none none ([] : Dict Name V)).nodes = some n := hn
    rw [hn'] at hs
    simp only [formatKey_plain, hcache, hlaw] at hs
    cases hs
    have hy : Yielded ops specs (tr ++ [.done id r]) id n.name items :=
      ⟨s0, hs0, hbid, hpe, ⟨n, hn, rfl⟩, r, v, by simp, hv, hi⟩
    refine hfin _ ?_ (by rw [realizeGroup_any])
    intro t' ht'
    have hse : ({ s with states := s.states.set id .successful, cache := c } : Sched T V).specs = specs := h.specs_eq
    rw [hse, mkTask_id, hbid] at ht'
    rcases List.mem_append.1 ht' with ht' | ht'
    · obtain ⟨m, h1, h2, i, item, h3, rfl⟩ := mem_instTasks.1 ht'
      exact .inst m id n.name items i item h1 h2 hy h3
    · obtain ⟨c', h1, h2, rfl⟩ := mem_collTasks.1 ht'
      exact .coll c' id n.name items h1 h2 hy
  · cases hs
    obtain ⟨ts, h1, h2⟩ := realizeDependents_any { s with states := s.states.set id .successful, cache := c } t.baseId
    refine hfin ts ?_ (by rw [h1])
    intro t' ht'
    obtain ⟨c', h3, h4, rfl⟩ := h2 t' ht'
    have h3' : c' ∈ specs := h.specs_eq ▸ h3
    exact .static c' h3' (h4.elim .inl (fun h => .inr (.inl h)))

/-- Reporting a state other than success. -/
theorem AnySched.report {tr : List (Event T V)} {s s' : Sched T V} (h : AnySched ops specs tr s) {id : Name} {st : TaskState}
    (hst : st = .running ∨ st = .failed) {r : Dict Name V} (hs : updateTaskState ops s id st r = .ok s') :
    AnySched ops specs tr s' ∧ s' = { s with states := s.states.set id st } := by
  have he : s' = { s with states := s.states.set id st } := by
    rcases hst with rfl | rfl
    · rw [updateTaskState_nonterm] at hs
      cases hs; rfl
    · unfold updateTaskState at hs
      simp only [TaskState.isTerminal, Bool.not_true, Bool.false_eq_true, if_false, reduceCtorEq] at hs
      split at hs
      · cases hs
      split at hs
      · cases hs
      · cases hs; rfl
  subst he
  refine ⟨⟨h.specs_eq, h.pool_ok, fun t ht => ⟨(h.queue_ok t ht).1, (Dict.mem_keys_set _ _ _ _).2 (.inr (h.queue_ok t ht).2)⟩,
    fun k hk => ?_, Dict.keys_set_nodup h.states_nodup _ _⟩, rfl⟩
  unfold stOf at hk
  simp only [Dict.get?_set] at hk
  split at hk
  · rcases hst with rfl | rfl <;> cases hk
  · exact h.succ k hk

theorem AnyTrace.submit {tr : List (Event T V)} (h : AnyTrace ops g specs tr) {t : Task T V} (hr : AnyReady ops specs tr t) :
    AnyTrace ops g specs (tr ++ [.submit t]) := by
  refine ⟨fun pre t' post he => ?_, fun id r hd => ?_⟩
  · rcases snoc_split he with ⟨_, rfl, hx⟩ | ⟨post', _, rfl⟩
    · cases hx; exact hr
    · exact h.submit_ok pre t' post' rfl
  · rw [List.mem_append, List.mem_singleton] at hd
    rcases hd with hd | hd
    · obtain ⟨t', h1, h2⟩ := h.done_ok id r hd
      exact ⟨t', List.mem_append_left _ h1, h2⟩
    · cases hd

theorem AnyTrace.done {tr : List (Event T V)} (h : AnyTrace ops g specs tr) {id : Name} {r : Dict Name V}
    (hr : ∃ t, .submit t ∈ tr ∧ t.id = id ∧ executeTask g t = .ok r) : AnyTrace ops g specs (tr ++ [.done id r]) := by
  refine ⟨fun pre t' post he => ?_, fun id' r' hd => ?_⟩
  · rcases snoc_split he with ⟨_, rfl, hx⟩ | ⟨post', _, rfl⟩
    · cases hx
    · exact h.submit_ok pre t' post' rfl
  · rw [List.mem_append, List.mem_singleton] at hd
    rcases hd with hd | hd
    · obtain ⟨t', h1, h2⟩ := h.done_ok id' r' hd
      exact ⟨t', List.mem_append_left _ h1, h2⟩
    · cases hd
      obtain ⟨t', h1, h2⟩ := hr
      exact ⟨t', List.mem_append_left _ h1, h2⟩

theorem AnyInv.submit {l : Loop T V} (h : AnyInv sf ops g specs l) {t t' : Task T V} {rest : List (Task T V)}
    (hq : l.sched.queue = t :: rest) (hc : SameCore t' t) {f : Future T V} (hf : FutureOf g t' f) :
    AnyInv sf ops g specs { sched := { l.sched with queue := rest }, futures := l.futures.set t'.id f,
                            trace := l.trace ++ [.submit t'] } := by
  have hsub : ∀ i q, .done i q ∈ l.trace → .done i q ∈ l.trace ++ [.submit t'] := fun i q hq => List.mem_append_left _ hq
  obtain ⟨hrd, hkey⟩ := h.queue_ok t (by rw [hq]; exact List.mem_cons_self)
  have hrd' : AnyReady ops specs l.trace t' := by
    obtain ⟨t0, h1, h2, h3⟩ := hrd
    exact ⟨t0, h1, hc.trans h2, h3⟩
  refine { toAnyTrace := h.toAnyTrace.submit hrd', specs_eq := h.specs_eq, pool_ok := ?_, queue_ok := ?_, succ := ?_,
           states_nodup := h.states_nodup,
           fut_nodup := Dict.keys_set_nodup h.fut_nodup _ _, fut_ok := ?_, kept := ?_ }
  · exact fun p hp => ⟨(h.pool_ok p hp).1, (h.pool_ok p hp).2.mono hsub⟩
  · intro x hx
    have := h.queue_ok x (by rw [hq]; exact List.mem_cons_of_mem _ hx)
    exact ⟨this.1.mono hsub, this.2⟩
  · intro id hid
    obtain ⟨q, hq⟩ := h.succ id hid
    exact ⟨q, hsub _ _ hq⟩
  · intro id f' hf'
    simp only [Dict.get?_set] at hf'
    split at hf'
    · rename_i he
      cases hf'
      refine ⟨⟨t', by simp, he, hf⟩, ?_⟩
      rw [← he, hc.id_eq]; exact hkey
    · obtain ⟨⟨t1, h1, h2⟩, h3⟩ := h.fut_ok id f' hf'
      exact ⟨⟨t1, List.mem_append_left _ h1, h2⟩, h3⟩
  · intro hn hnf t1 ht1
    by_cases hid : t1.id = t'.id
    · by_cases hst : stOf l.sched t1.id = .successful
      · obtain ⟨q, hq'⟩ := h.succ _ hst
        obtain ⟨t2, h1, h2, h3⟩ := h.done_ok _ _ hq'
        exact .inl ⟨q, (hn t1 t2 ht1 (List.mem_append_left _ h1) h2.symm).trans h3, hsub _ _ hq'⟩
      · exact .inr ⟨(Dict.mem_keys_set _ _ _ _).2 (.inl hid), hst⟩
    · have ht1' : .submit t1 ∈ l.trace := by
        rcases List.mem_append.1 ht1 with h' | h'
        · exact h'
        · simp only [List.mem_singleton, Event.submit.injEq] at h'
          exact absurd (h' ▸ rfl) hid
      rcases h.kept hn.of_append hnf t1 ht1' with ⟨r, h1, h2⟩ | ⟨h1, h2⟩
      · exact .inl ⟨r, h1, hsub _ _ h2⟩
      · exact .inr ⟨(Dict.mem_keys_set _ _ _ _).2 (.inr h1), h2⟩

theorem AnyInv.reject {l : Loop T V} (h : AnyInv sf ops g specs l) {t t' : Task T V} {rest : List (Task T V)}
    (hq : l.sched.queue = t :: rest) (hc : SameCore t' t) :
    AnyInv sf ops g specs { l with sched := { l.sched with queue := t' :: rest } } := by
  refine { toAnyTrace := h.toAnyTrace, specs_eq := h.specs_eq, pool_ok := h.pool_ok, queue_ok := ?_, succ := h.succ,
           states_nodup := h.states_nodup,
           fut_nodup := h.fut_nodup, fut_ok := h.fut_ok, kept := h.kept }
  intro x hx
  rcases List.mem_cons.1 hx with rfl | hx
  · obtain ⟨⟨t0, h1, h2, h3⟩, hkey⟩ := h.queue_ok t (by rw [hq]; exact List.mem_cons_self)
    exact ⟨⟨t0, h1, hc.trans h2, h3⟩, by rw [hc.id_eq]; exact hkey⟩
  · exact h.queue_ok x (by rw [hq]; exact List.mem_cons_of_mem _ hx)

theorem AnyInv.finish (hlaw : ∀ l, ops.toList (ops.ofList l) = some l) {l l' : Loop T V} (h : AnyInv sf ops g specs l) {id : Name}
    {f : Future T V} (hf : l.futures.get? id = some f) {r : Dict Name V}
    (hr : ∀ t, FutureOf g t f → executeTask g t = .ok r) (hok : finishTask ops l id r = .ok l') : AnyInv sf ops g specs l' := by
  unfold finishTask at hok
  split at hok
  · cases hok
  rename_i s hs
  cases hok
  obtain ⟨h1, h2, h3⟩ := h.toAnySched.success hlaw hs
  obtain ⟨⟨t, ht1, ht2, ht3⟩, _⟩ := h.fut_ok id f hf
  have hsub : ∀ e : Event T V, e ∈ l.trace → e ∈ l.trace ++ [.done id r] := fun e he => List.mem_append_left _ he
  have hdel : ∀ k, k ∈ (l.futures.del id).keys ↔ k ≠ id ∧ k ∈ l.futures.keys := by
    intro k
    rw [Dict.mem_keys_iff, Dict.mem_keys_iff]
    simp only [Dict.get?_del]
    constructor
    · rintro ⟨v, hv⟩
      split at hv
      · cases hv
      · rename_i hne; exact ⟨Ne.symm hne, v, hv⟩
    · rintro ⟨hne, v, hv⟩
      exact ⟨v, by rw [if_neg (Ne.symm hne)]; exact hv⟩
  refine { toAnyTrace := h.toAnyTrace.done ⟨t, ht1, ht2, hr t ht3⟩, toAnySched := h1,
           fut_nodup := Dict.keys_del_nodup h.fut_nodup _, fut_ok := ?_, kept := ?_ }
  · intro k f' hf'
    simp only [Dict.get?_del] at hf'
    split at hf'
    · cases hf'
    · obtain ⟨⟨t1, a, b⟩, c⟩ := h.fut_ok k f' hf'
      exact ⟨⟨t1, hsub _ a, b⟩, h3 _ c⟩
  · intro hn hnf t1 ht1'
    have ht1'' : .submit t1 ∈ l.trace := by
      rcases List.mem_append.1 ht1' with h' | h'
      · exact h'
      · simp at h'
    by_cases hid : t1.id = id
    · refine .inl ⟨r, (hn t1 t ht1' (hsub _ ht1) (by rw [hid, ht2])).trans (hr _ ht3), by rw [hid]; simp⟩
    · rcases h.kept hn.of_append hnf t1 ht1'' with ⟨q, a, b⟩ | ⟨a, b⟩
      · exact .inl ⟨q, a, hsub _ b⟩
      · refine .inr ⟨(hdel _).2 ⟨hid, a⟩, fun hs' => ?_⟩
        rcases h2 _ hs' with h' | h'
        · exact b h'
        · exact hid h'

theorem AnyInv.report {l l' : Loop T V} (h : AnyInv sf ops g specs l) {id : Name} {st : TaskState} (hst : st = .running ∨ st = .failed) (hsf : st = .failed → sf)
    (hok : reportState ops l id st = .ok l') : AnyInv sf ops g specs l' := by
  unfold reportState at hok
  split at hok
  · cases hok
  rename_i s hs
  cases hok
  obtain ⟨h1, rfl⟩ := h.toAnySched.report hst hs
  have hmem : ∀ k f', (if st.isTerminal = true then l.futures.del id else l.futures).get? k = some f' →
      l.futures.get? k = some f' := by
    intro k f' hk
    split at hk
    · rw [Dict.get?_del] at hk
      split at hk
      · cases hk
      · exact hk
    · exact hk
  refine { toAnyTrace := h.toAnyTrace, toAnySched := h1, fut_nodup := ?_, fut_ok := ?_, kept := ?_ }
  · simp only
    split
    · exact Dict.keys_del_nodup h.fut_nodup _
    · exact h.fut_nodup
  · intro k f' hk
    obtain ⟨a, b⟩ := h.fut_ok k f' (hmem k f' hk)
    exact ⟨a, (Dict.mem_keys_set _ _ _ _).2 (.inr b)⟩
  · intro hn hnf t ht
    rcases hst with rfl | rfl
    · rcases h.kept hn hnf t ht with a | ⟨a, b⟩
      · exact .inl a
      · refine .inr ⟨a, fun hs' => ?_⟩
        unfold stOf at hs'
        simp only [Dict.get?_set] at hs'
        split at hs'
        · cases hs'
        · exact b hs'
    · exact absurd (hsf rfl) hnf

/-- The invariant after a part of the loop; when it raises, what holds of the trace. -/
def AnyOut (sf : Prop) (ops : TaskOps T V) (g : Graph T V) (specs : List (TaskSpec T V)) : Out (Loop T V) TaskErr → Prop
  | .ok l => AnyInv sf ops g specs l
  | .err _ l => AnyTrace ops g specs l.trace

theorem AnyOut.bind {o : Out (Loop T V) TaskErr} {k : Loop T V → Out (Loop T V) TaskErr} (h : AnyOut sf ops g specs o)
    (hk : ∀ l, o = .ok l → AnyInv sf ops g specs l → AnyOut sf ops g specs (k l)) : AnyOut sf ops g specs (o.bind k) := by
  cases o with
  | err e l => exact h
  | ok l => exact hk l rfl h

theorem AnyInv.release {l : Loop T V} (h : AnyInv sf ops g specs l) (c : Choice) :
    AnyOut sf ops g specs (releaseAndSubmit ops g ex c l) := by
  unfold releaseAndSubmit
  split
  · exact h
  · rename_i t rest hq
    split
    · exact h.toAnyTrace
    · rename_i t' ht'
      have hc := bindTask_core ht'
      split
      · unfold submitTask
        by_cases hs : ex.sync t'.purpose = true
        · rw [if_pos hs]
          cases he : executeTask g t' with
          | error e =>
            obtain ⟨⟨t0, a, b, d⟩, _⟩ := h.queue_ok t (by rw [hq]; exact List.mem_cons_self)
            exact h.toAnyTrace.submit ⟨t0, a, hc.trans b, d⟩
          | ok r => exact h.submit hq hc (.inl ⟨r, rfl, he⟩)
        · rw [if_neg hs]
          exact h.submit hq hc (.inr rfl)
      · exact h.reject hq hc

theorem AnyInv.poll (hlaw : ∀ l, ops.toList (ops.ofList l) = some l) {c : Choice} (hc : ∀ id, c.obs id = .silentFail → sf)
    {l : Loop T V} (h : AnyInv sf ops g specs l) {p : Name × Future T V} (hp : l.futures.get? p.1 = some p.2) :
    AnyOut sf ops g specs (pollOne ops g c p l) ∧
    ∀ l', pollOne ops g c p l = .ok l' → ∀ k, k ≠ p.1 → l'.futures.get? k = l.futures.get? k := by
  obtain ⟨id, f⟩ := p
  simp only at hp
  have hfin : ∀ r, (∀ t, FutureOf g t f → executeTask g t = .ok r) → AnyOut sf ops g specs (finishTask ops l id r) ∧
      ∀ l', finishTask ops l id r = .ok l' → ∀ k, k ≠ id → l'.futures.get? k = l.futures.get? k := by
    intro r hr
    constructor
    · cases hfn : finishTask ops l id r with
      | ok l' => exact h.finish hlaw hp hr hfn
      | err e l' =>
        unfold finishTask at hfn
        split at hfn <;> cases hfn
        exact h.toAnyTrace
    · intro l' hl k hne
      unfold finishTask at hl
      split at hl
      · cases hl
      · cases hl
        simp only [Dict.get?_del]
        rw [if_neg (Ne.symm hne)]
  have hrep : ∀ st : TaskState, st = .running ∨ st = .failed → (st = .failed → sf) →
      AnyOut sf ops g specs (reportState ops l id st) ∧
      ∀ l', reportState ops l id st = .ok l' → ∀ k, k ≠ id → l'.futures.get? k = l.futures.get? k := by
    intro st hst hsf
    constructor
    · cases hr : reportState ops l id st with
      | ok l' => exact h.report hst hsf hr
      | err e l' =>
        unfold reportState at hr
        split at hr <;> cases hr
        exact h.toAnyTrace
    · intro l' hl k hne
      unfold reportState at hl
      split at hl
      · cases hl
      · cases hl
        simp only
        split
        · rw [Dict.get?_del, if_neg (Ne.symm hne)]
        · rfl
  cases f with
  | now r =>
    refine hfin r ?_
    rintro t (⟨r', h1, h2⟩ | h1)
    · cases h1; exact h2
    · cases h1
  | later t =>
    have hlat : ∀ r, executeTask g t = .ok r → ∀ t', FutureOf g t' (.later t) → executeTask g t' = .ok r := by
      rintro r hr t' (⟨r', h1, _⟩ | h1)
      · cases h1
      · cases h1; exact hr
    unfold pollOne
    simp only
    cases ho : c.obs id with
    | pending => exact hrep _ (.inl rfl) (by intro hx; cases hx)
    | broken => exact ⟨h.toAnyTrace, fun l' hl => by cases hl⟩
    | silentFail => exact hrep _ (.inr rfl) (fun _ => hc id ho)
    | late =>
      simp only
      cases he : executeTask g t with
      | error e => exact ⟨h.toAnyTrace, fun l' hl => by cases hl⟩
      | ok r => exact hrep _ (.inl rfl) (by intro hx; cases hx)
    | finished =>
      simp only
      cases he : executeTask g t with
      | error e => exact ⟨h.toAnyTrace, fun l' hl => by cases hl⟩
      | ok r => exact hfin r (hlat r he)

theorem AnyInv.polls (hlaw : ∀ l, ops.toList (ops.ofList l) = some l) {c : Choice} (hc : ∀ id, c.obs id = .silentFail → sf)
    (ps : List (Name × Future T V)) {l : Loop T V} (h : AnyInv sf ops g specs l)
    (hn : (ps.map (·.1)).Nodup) (hp : ∀ p ∈ ps, l.futures.get? p.1 = some p.2) :
    AnyOut sf ops g specs (forEach (pollOne ops g c) ps l) := by
  induction ps generalizing l with
  | nil => exact h
  | cons p ps ih =>
    simp only [List.map_cons, List.nodup_cons] at hn
    obtain ⟨h1, h2⟩ := h.poll hlaw hc (hp p (by simp))
    unfold forEach
    refine h1.bind fun l' hl' h' => ih h' hn.2 fun q hq => ?_
    rw [h2 l' hl' q.1]
    · exact hp q (by simp [hq])
    · intro he; exact hn.1 (List.mem_map.2 ⟨q, hq, he⟩)

theorem AnyInv.run (hlaw : ∀ l, ops.toList (ops.ofList l) = some l) (cs : List Choice)
    (hc : ∀ c ∈ cs, ∀ id, c.obs id = .silentFail → sf) {l : Loop T V} (h : AnyInv sf ops g specs l) :
    AnyOut sf ops g specs (runLoop ops g ex cs l) := by
  induction cs generalizing l with
  | nil => exact h
  | cons c cs ih =>
    unfold runLoop
    split
    · exact h
    · refine AnyOut.bind ?_ fun l' _ h' => ih (fun c' hc' => hc c' (List.mem_cons_of_mem _ hc')) h'
      unfold loopStep
      exact (h.release c).bind fun l' _ h' => h'.polls hlaw (hc c List.mem_cons_self) l'.futures h'.fut_nodup
        fun p hp => Dict.get?_of_mem h'.fut_nodup hp

theorem AnyInv.init (specs : List (TaskSpec T V)) (c0 : Dict Name V) : AnyInv sf ops g specs (initLoop specs c0) := by
  have hreal : ∀ t ∈ initTasks specs, AnyReal ops specs [] t := by
    intro t ht
    obtain ⟨s, hs, rfl⟩ := List.mem_map.1 ht
    rw [List.mem_filter] at hs
    exact .static s hs.1 (.inr (.inr (by simpa using hs.2)))
  have h0 : AnySched ops specs [] { specs, pool := [], states := [], queue := [], cache := c0 } :=
    ⟨rfl, fun p hp => (nomatch hp), fun t ht => (nomatch ht), fun id hid => (nomatch hid),
      by simp [Dict.keys]⟩
  have h1 := h0.register hreal
  have hno : ∀ (ts : List (Task T V)) (s : Sched T V), AnySched ops specs [] s →
      (∀ t ∈ ts, AnyReal ops specs [] t ∧ t.baseDeps = []) →
      AnySched ops specs [] (ts.foldl Sched.initQueueOne s) := by
    intro ts
    induction ts with
    | nil => exact fun s h _ => h
    | cons t ts ih =>
      intro s h hts
      refine ih _ ?_ fun t' ht' => hts t' (List.mem_cons_of_mem _ ht')
      unfold Sched.initQueueOne
      split
      · refine ⟨h.specs_eq, h.pool_ok, fun t' ht' => ?_, fun id hid => ?_, Dict.keys_set_nodup h.states_nodup _ _⟩
        · rcases List.mem_append.1 ht' with ht' | ht'
          · exact ⟨(h.queue_ok t' ht').1, (Dict.mem_keys_set _ _ _ _).2 (.inr (h.queue_ok t' ht').2)⟩
          · rw [List.mem_singleton] at ht'
            subst ht'
            obtain ⟨a, b⟩ := hts t' List.mem_cons_self
            refine ⟨⟨t', a, ⟨rfl, rfl, rfl⟩, fun d hd => ?_⟩, (Dict.mem_keys_set _ _ _ _).2 (.inl rfl)⟩
            exfalso
            cases a with
            | static s a b' => rw [mkTask_deps] at hd; rw [show s.baseDeps = [] from b] at hd; cases hd
            | inst s e x items i item a b' c d' =>
              obtain ⟨_, _, _, _, _, _, _, hdn, _⟩ := c
              cases hdn
            | coll s e x items a b' c =>
              obtain ⟨_, _, _, _, _, _, _, hdn, _⟩ := c
              cases hdn
        · unfold stOf at hid
          simp only [Dict.get?_set] at hid
          split at hid
          · cases hid
          · exact h.succ id hid
      · exact h
  unfold initLoop initSched
  simp only
  rw [init_register]
  refine { toAnyTrace := ⟨fun pre t post he => by simp at he, fun id r hd => by cases hd⟩, toAnySched := ?_,
           fut_nodup := by simp [Dict.keys], fut_ok := by intro k r hk; simp [Dict.get?] at hk,
           kept := by intro _ _ t ht; cases ht }
  refine hno _ _ h1 fun t ht => ?_
  obtain ⟨p, hp, rfl⟩ := List.mem_map.1 ht
  refine ⟨(h1.pool_ok p hp).2, ?_⟩
  obtain ⟨_, _, h3, _, _, _⟩ := register_any (initTasks specs) { specs, pool := [], states := [], queue := [], cache := c0 }
  rcases h3 p hp with h' | h'
  · obtain ⟨s, hs, he⟩ := List.mem_map.1 h'.1
    rw [List.mem_filter] at hs
    rw [← he]
    exact (show s.baseDeps = [] by simpa using hs.2)
  · cases h'

/-- Runs of any plan. -/
theorem run_any (hlaw : ∀ l, ops.toList (ops.ofList l) = some l) (c0 : Dict Name V) (cs : List Choice)
    (hc : ∀ c ∈ cs, ∀ id, c.obs id = .silentFail → sf) :
    AnyOut sf ops g specs (runLoop ops g ex cs (initLoop specs c0)) :=
  (AnyInv.init specs c0).run hlaw cs hc

theorem run_any_trace (hlaw : ∀ l, ops.toList (ops.ofList l) = some l) (c0 : Dict Name V) (cs : List Choice) :
    AnyTrace ops g specs (traceOf (runLoop ops g ex cs (initLoop specs c0))) := by
  have h := run_any (sf := True) (g := g) (specs := specs) (ex := ex) hlaw c0 cs (fun _ _ _ _ => trivial)
  cases hr : runLoop ops g ex cs (initLoop specs c0) with
  | ok l => rw [hr] at h; exact h.toAnyTrace
  | err e l => rw [hr] at h; exact h

theorem dot_mem_instanceId (e m : Name) (i : Nat) : "." ∈ strChars (instanceId e i m) := by
  unfold strChars instanceId
  refine List.mem_map.2 ⟨'.', ?_, by decide⟩
  simp [String.toList_append]

theorem instanceId_ne_dot (e m : Name) (i : Nat) : instanceId e i m ≠ "." := by
  intro h
  have := congrArg String.length h
  unfold instanceId at this
  simp only [String.length_append] at this
  have h1 : (".").length = 1 := by decide
  omega

theorem instTask_deps_any {B : List (TaskSpec T V)} {e x : Name} {i : Nat} {item : V} {s : TaskSpec T V} {d : Name}
    (hd : d ∈ s.baseDeps) : d ∈ (instTask B e x i item s).deps ∨ "." ∈ (instTask B e x i item s).deps := by
  unfold Task.deps instTask memberDeps
  simp only
  rw [mem_deps_of_fold (f := memberDep (nameMap (memberSpecs B e) e (toString i))),
    mem_deps_of_fold (f := memberDep (nameMap (memberSpecs B e) e (toString i)))]
  cases hm : (nameMap (memberSpecs B e) e (toString i)).get? d with
  | none => exact .inl ⟨d, hd, by unfold memberDep; rw [hm]; exact List.mem_singleton.2 rfl⟩
  | some k =>
    refine .inr ⟨d, hd, ?_⟩
    have hk : k = instanceId e i d := by
      rw [nameMap_get?] at hm
      split at hm
      · exact (Option.some.inj hm).symm
      · cases hm
    unfold memberDep
    rw [hm, hk]
    exact dot_mem_instanceId e d i

theorem AnyTrace.no_dot {tr : List (Event T V)} (h : AnyTrace ops g specs tr) (hdot : ∀ s ∈ specs, s.baseId ≠ ".")
    {r : Dict Name V} : .done "." r ∉ tr := by
  intro hd
  obtain ⟨t, h1, h2, _⟩ := h.done_ok _ _ hd
  obtain ⟨pre, post, hpp⟩ := List.append_of_mem h1
  obtain ⟨t0, h3, h4, _⟩ := h.submit_ok pre t post hpp
  rw [h4.id_eq] at h2
  cases h3 with
  | static s a b => exact hdot s a h2
  | inst s e x items i item a b c d => exact instanceId_ne_dot e s.baseId i h2
  | coll s e x items a b c => exact hdot s (mem_baseOf a) h2

theorem AnyTrace.ready {tr : List (Event T V)} (h : AnyTrace ops g specs tr) (hdot : ∀ s ∈ specs, s.baseId ≠ ".")
    {pre post : List (Event T V)} {t : Task T V} (he : tr = pre ++ .submit t :: post) :
    t.toTaskSpec ∈ specs ∧ ReadyToRun ops specs pre t.toTaskSpec t.id := by
  obtain ⟨t0, h1, h2, hd⟩ := h.submit_ok pre t post he
  rw [h2.spec_eq, h2.id_eq]
  refine ⟨h1.spec, ?_⟩
  have hno : ¬ Done pre "." := by
    rintro ⟨r, hr⟩
    exact h.no_dot hdot (by rw [he]; exact List.mem_append_left _ hr)
  cases h1 with
  | static s a b => exact .inl ⟨b, rfl, fun d hd' => hd d ((mkTask_deps s none none [] d).2 hd')⟩
  | inst s e x items i item a b c d =>
    have hi : i < items.length := by
      rw [List.getElem?_eq_some_iff] at d
      exact d.1
    refine .inr (.inl ⟨e, x, items, i, b, c, hi, rfl, fun k hk => ?_⟩)
    rcases instTask_deps_any (B := baseOf specs) (e := e) (x := x) (i := i) (item := item) hk with h' | h'
    · exact hd _ h'
    · exact absurd (hd _ h') hno
  | coll s e x items a b c =>
    refine .inr (.inr ⟨e, x, items, b, c, rfl, fun d hd' => ?_⟩)
    by_cases hm : ∃ m ∈ baseOf specs, m.MemberOf e ∧ m.baseId = d
    · obtain ⟨m, hm1, hm2, rfl⟩ := hm
      exact .inl ⟨⟨m, mem_baseOf hm1, hm2, rfl⟩,
        fun i hi => hd _ ((collTask_deps _).2 (.inl ⟨m, hm1, hm2, hd', i, hi, rfl⟩))⟩
    · exact .inr (hd _ ((collTask_deps _).2 (.inr ⟨hd', hm⟩)))

end Verif
