import Verif.Spec.Plan

/-! Basic facts about the operations of the task scheduler. -/
namespace Verif
variable {T V : Type}

section dictlemmas
variable {K W : Type} [DecidableEq K]

theorem foldl_set_get? (f : K → W) (ds : List K) (m : Dict K W) (k : K) :
    (ds.foldl (fun (m : Dict K W) d => m.set d (f d)) m).get? k = if k ∈ ds then some (f k) else m.get? k := by
  induction ds generalizing m with
  | nil => simp
  | cons d ds ih =>
    simp only [List.foldl_cons]
    rw [ih, Dict.get?_set]
    by_cases h1 : k ∈ ds
    · simp [h1]
    · by_cases h2 : d = k
      · simp [h1, h2]
      · simp [h1, h2, Ne.symm h2]

theorem foldl_set_nodup (f : K → W) (ds : List K) (m : Dict K W) (h : m.keys.Nodup) :
    (ds.foldl (fun (m : Dict K W) d => m.set d (f d)) m).keys.Nodup := by
  induction ds generalizing m with
  | nil => simpa
  | cons d ds ih => exact ih _ (Dict.keys_set_nodup h _ _)

theorem mem_foldl_set {f : K → W} {ds : List K} {p : K × W} :
    p ∈ ds.foldl (fun (m : Dict K W) d => m.set d (f d)) [] ↔ p.1 ∈ ds ∧ p.2 = f p.1 := by
  have hn := foldl_set_nodup f ds [] (by simp [Dict.keys])
  have hg := fun k => foldl_set_get? f ds [] k
  obtain ⟨k, w⟩ := p
  constructor
  · intro h
    have := Dict.get?_of_mem hn h
    rw [hg] at this
    split at this
    · exact ⟨by assumption, by simpa using this.symm⟩
    · simp at this
  · rintro ⟨h1, h2⟩
    apply Dict.get?_mem
    simp only at h1 h2
    rw [hg, if_pos h1, h2]

end dictlemmas

theorem determineTaskId_static (b : Name) : determineTaskId b none none = b := rfl

theorem determineTaskId_inst (e m : Name) (i : Nat) :
    determineTaskId m (some e) (some (toString i)) = instanceId e i m := rfl

theorem formatKey_plain (k : Name) : formatKey none none k = k := rfl

/-- The realized dependencies of a task, flattened. -/
def Task.deps (t : Task T V) : List Name := t.realizedDeps.flatMap (·.2)

theorem mem_deps_of_fold {f : Name → List Name} {ds : List Name} {x : Name} :
    x ∈ (ds.foldl (fun (m : Dict Name (List Name)) d => m.set d (f d)) []).flatMap (·.2) ↔ ∃ d ∈ ds, x ∈ f d := by
  rw [List.mem_flatMap]
  constructor
  · rintro ⟨p, hp, hx⟩
    obtain ⟨h1, h2⟩ := mem_foldl_set.1 hp
    exact ⟨p.1, h1, h2 ▸ hx⟩
  · rintro ⟨d, hd, hx⟩
    exact ⟨(d, f d), mem_foldl_set.2 ⟨hd, rfl⟩, hx⟩

theorem mkTask_deps (s : TaskSpec T V) (a b : Option Name) (bind : Dict Name V) (x : Name) :
    x ∈ (mkTask s a b bind).deps ↔ x ∈ s.baseDeps := by
  unfold Task.deps mkTask
  rw [mem_deps_of_fold (f := fun d => [d])]
  constructor
  · rintro ⟨d, hd, hx⟩; simp only [List.mem_singleton] at hx; exact hx ▸ hd
  · intro h; exact ⟨x, h, by simp⟩

/-! ### State of a task, with the default -/

/-- `task_states[id]` with the default of the `defaultdict`. -/
def stOf (s : Sched T V) (id : Name) : TaskState := (s.states.get? id).getD .uninitialized

theorem touch_getD (st : Dict Name TaskState) (k id : Name) :
    ((touch st k).get? id).getD .uninitialized = (st.get? id).getD .uninitialized := by
  unfold touch
  split
  · rfl
  · rename_i h
    rw [Dict.get?_set]
    split
    · subst_vars
      have : st.get? id = none := by
        rw [Dict.has_eq_true_iff] at h
        cases h' : st.get? id with
        | none => rfl
        | some v => exact absurd ⟨v, h'⟩ h
      simp [this]
    · rfl

theorem touch_keys (st : Dict Name TaskState) (k id : Name) :
    id ∈ (touch st k).keys ↔ id = k ∨ id ∈ st.keys := by
  unfold touch
  split
  · rename_i h
    rw [Dict.has_iff] at h
    constructor
    · exact .inr
    · rintro (rfl | h')
      · exact h
      · exact h'
  · exact Dict.mem_keys_set _ _ _ _

theorem touch_nodup {st : Dict Name TaskState} (h : st.keys.Nodup) (k : Name) : (touch st k).keys.Nodup := by
  unfold touch
  split
  · exact h
  · exact Dict.keys_set_nodup h _ _

theorem scanDep_fold (deps : List Name) (p : Bool × Dict Name TaskState) :
    ((deps.foldl scanDep p).1 = (p.1 && deps.all (fun d => (p.2.get? d).getD .uninitialized == .successful))) ∧
    (∀ id, ((deps.foldl scanDep p).2.get? id).getD .uninitialized = (p.2.get? id).getD .uninitialized) ∧
    (∀ id, id ∈ (deps.foldl scanDep p).2.keys ↔ id ∈ deps ∨ id ∈ p.2.keys) ∧
    (p.2.keys.Nodup → (deps.foldl scanDep p).2.keys.Nodup) := by
  induction deps generalizing p with
  | nil => simp
  | cons d ds ih =>
    obtain ⟨h1, h2, h3, h4⟩ := ih (scanDep p d)
    simp only [List.foldl_cons]
    have ht : ∀ id, ((scanDep p d).2.get? id).getD .uninitialized = (p.2.get? id).getD .uninitialized :=
      fun id => touch_getD p.2 d id
    have hb : ((touch p.2 d).get? d == some TaskState.successful) =
        ((p.2.get? d).getD .uninitialized == .successful) := by
      have := touch_getD p.2 d d
      have hk : d ∈ (touch p.2 d).keys := (touch_keys _ _ _).2 (.inl rfl)
      obtain ⟨v, hv⟩ := Dict.mem_keys_iff.1 hk
      rw [hv] at this ⊢
      simp only [Option.getD_some] at this
      rw [← this]
      cases v <;> rfl
    refine ⟨?_, fun id => (h2 id).trans (ht id), fun id => ?_, fun hn => h4 (touch_nodup hn _)⟩
    · rw [h1]
      simp only [List.all_cons]
      have : (scanDep p d).1 = (p.1 && ((p.2.get? d).getD .uninitialized == .successful)) := by
        unfold scanDep; simp only [hb]
      rw [this, Bool.and_assoc]
      congr 2
      congr 1
      funext x
      rw [ht]
    · rw [h3]
      have : (scanDep p d).2 = touch p.2 d := rfl
      rw [this, touch_keys]
      simp only [List.mem_cons]
      constructor
      · rintro (h | h | h)
        · exact .inl (.inr h)
        · exact .inl (.inl h)
        · exact .inr h
      · rintro ((h | h) | h)
        · exact .inr (.inl h)
        · exact .inl h
        · exact .inr (.inr h)

/-- The task can start: initialized and all its dependencies are successful. -/
def readyIn (st : Dict Name TaskState) (t : Task T V) : Bool :=
  ((st.get? t.id).getD .uninitialized == .initialized) &&
    t.deps.all (fun d => (st.get? d).getD .uninitialized == .successful)

theorem readyIn_congr {st st' : Dict Name TaskState}
    (h : ∀ id, (st'.get? id).getD .uninitialized = (st.get? id).getD .uninitialized) (t : Task T V) :
    readyIn st' t = readyIn st t := by
  unfold readyIn
  rw [h]
  congr 2
  funext d
  rw [h]

theorem scanTask_spec (p : List (Task T V) × Dict Name TaskState) (t : Task T V) :
    ((scanTask p t).1 = p.1 ++ [t].filter (readyIn p.2)) ∧
    (∀ id, ((scanTask p t).2.get? id).getD .uninitialized = (p.2.get? id).getD .uninitialized) ∧
    (∀ id, id ∈ (scanTask p t).2.keys → id = t.id ∨ id ∈ t.deps ∨ id ∈ p.2.keys) ∧
    (∀ id ∈ p.2.keys, id ∈ (scanTask p t).2.keys) ∧
    (p.2.keys.Nodup → (scanTask p t).2.keys.Nodup) := by
  have hst : ∀ id, ((touch p.2 t.id).get? id).getD .uninitialized = (p.2.get? id).getD .uninitialized :=
    fun id => touch_getD _ _ _
  have hk : t.id ∈ (touch p.2 t.id).keys := (touch_keys _ _ _).2 (.inl rfl)
  obtain ⟨v, hv⟩ := Dict.mem_keys_iff.1 hk
  have hv' : (p.2.get? t.id).getD .uninitialized = v := by
    rw [← hst, hv]; rfl
  unfold scanTask
  simp only [hv, Option.some.injEq]
  by_cases hi : v = .initialized
  · rw [if_pos hi]
    obtain ⟨h1, h2, h3, h4⟩ := scanDep_fold (t.realizedDeps.flatMap (·.2)) (true, touch p.2 t.id)
    refine ⟨?_, fun id => (h2 id).trans (hst id), fun id h => ?_, fun id h => ?_,
      fun hn => h4 (touch_nodup hn _)⟩
    · simp only [h1, Bool.true_and]
      have : readyIn p.2 t = (t.realizedDeps.flatMap (·.2)).all
          (fun d => ((touch p.2 t.id).get? d).getD .uninitialized == .successful) := by
        unfold readyIn
        rw [hv', hi]
        simp only [BEq.rfl, Bool.true_and]
        unfold Task.deps
        congr 1
        funext d
        rw [hst]
      simp only [List.filter_cons, List.filter_nil, this]
      split <;> simp_all
    · rw [h3, touch_keys] at h
      rcases h with h | h | h
      · exact .inr (.inl h)
      · exact .inl h
      · exact .inr (.inr h)
    · rw [h3, touch_keys]; exact .inr (.inr h)
  · rw [if_neg hi]
    refine ⟨?_, hst, fun id h => ?_, fun id h => ?_, fun hn => touch_nodup hn _⟩
    · have : readyIn p.2 t = false := by
        unfold readyIn
        rw [hv']
        simp [hi]
      simp [this]
    · rw [touch_keys] at h
      rcases h with h | h
      · exact .inl h
      · exact .inr (.inr h)
    · rw [touch_keys]; exact .inr h

theorem scanTask_fold (ts : List (Task T V)) (p : List (Task T V) × Dict Name TaskState) :
    ((ts.foldl scanTask p).1 = p.1 ++ ts.filter (readyIn p.2)) ∧
    (∀ id, ((ts.foldl scanTask p).2.get? id).getD .uninitialized = (p.2.get? id).getD .uninitialized) ∧
    (∀ id, id ∈ (ts.foldl scanTask p).2.keys → (∃ t ∈ ts, id = t.id ∨ id ∈ t.deps) ∨ id ∈ p.2.keys) ∧
    (∀ id ∈ p.2.keys, id ∈ (ts.foldl scanTask p).2.keys) ∧
    (p.2.keys.Nodup → (ts.foldl scanTask p).2.keys.Nodup) := by
  induction ts generalizing p with
  | nil => simp
  | cons t ts ih =>
    obtain ⟨h1, h2, h3, h4, h5⟩ := ih (scanTask p t)
    obtain ⟨g1, g2, g3, g4, g5⟩ := scanTask_spec p t
    simp only [List.foldl_cons]
    refine ⟨?_, fun id => (h2 id).trans (g2 id), fun id h => ?_, fun id h => h4 _ (g4 _ h), fun hn => h5 (g5 hn)⟩
    · rw [h1, g1, List.append_assoc]
      congr 1
      have : ts.filter (readyIn (scanTask p t).2) = ts.filter (readyIn p.2) := by
        congr 1
        funext x
        exact readyIn_congr g2 x
      rw [this]
      simp only [List.filter_cons, List.filter_nil]
      split <;> simp
    · rcases h3 id h with ⟨t', ht', h'⟩ | h'
      · exact .inl ⟨t', List.mem_cons_of_mem _ ht', h'⟩
      · rcases g3 id h' with h' | h' | h'
        · exact .inl ⟨t, by simp, .inl h'⟩
        · exact .inl ⟨t, by simp, .inr h'⟩
        · exact .inr h'

theorem enqueue_fold (ts : List (Task T V)) (s : Sched T V) :
    let s' := ts.foldl (fun (s : Sched T V) t =>
      { s with queue := s.queue ++ [t], states := s.states.set t.id .queued }) s
    s'.specs = s.specs ∧ s'.pool = s.pool ∧ s'.cache = s.cache ∧ s'.queue = s.queue ++ ts ∧
    (∀ id, stOf s' id = if id ∈ ts.map Task.id then .queued else stOf s id) ∧
    (∀ id, id ∈ s'.states.keys ↔ id ∈ ts.map Task.id ∨ id ∈ s.states.keys) ∧
    (s.states.keys.Nodup → s'.states.keys.Nodup) := by
  induction ts generalizing s with
  | nil => simp
  | cons t ts ih =>
    obtain ⟨h1, h2, h3, h4, h5, h6, h7⟩ :=
      ih { s with queue := s.queue ++ [t], states := s.states.set t.id .queued }
    simp only [List.foldl_cons]
    refine ⟨h1, h2, h3, ?_, fun id => ?_, fun id => ?_, fun hn => h7 (Dict.keys_set_nodup hn _ _)⟩
    · rw [h4]; simp
    · rw [h5]
      by_cases h : id ∈ ts.map Task.id
      · simp [h]
      · simp only [h, if_false, List.map_cons, List.mem_cons, or_false]
        unfold stOf
        simp only [Dict.get?_set]
        by_cases h' : t.id = id
        · simp [h']
        · simp [h', Ne.symm h']
    · rw [h6]
      simp only [Dict.mem_keys_set, List.map_cons, List.mem_cons]
      constructor
      · rintro (h | h | h)
        · exact .inl (.inr h)
        · exact .inl (.inl h)
        · exact .inr h
      · rintro ((h | h) | h)
        · exact .inr (.inl h)
        · exact .inl h
        · exact .inr (.inr h)

/-- The tasks put in the queue by a scan. -/
def readyList (s : Sched T V) : List (Task T V) := (s.pool.map (·.2)).filter (readyIn s.states)

theorem enqueueReady_spec (s : Sched T V) :
    (enqueueReady s).specs = s.specs ∧ (enqueueReady s).pool = s.pool ∧ (enqueueReady s).cache = s.cache ∧
    (enqueueReady s).queue = s.queue ++ readyList s ∧
    (∀ id, stOf (enqueueReady s) id = if id ∈ (readyList s).map Task.id then .queued else stOf s id) ∧
    (∀ id, id ∈ (enqueueReady s).states.keys →
      (∃ t ∈ s.pool.map (·.2), id = t.id ∨ id ∈ t.deps) ∨ id ∈ s.states.keys) ∧
    (∀ id ∈ s.states.keys, id ∈ (enqueueReady s).states.keys) ∧
    (s.states.keys.Nodup → (enqueueReady s).states.keys.Nodup) := by
  obtain ⟨h1, h2, h3, h4, h5⟩ := scanTask_fold (s.pool.map (·.2)) ([], s.states)
  simp only [List.nil_append] at h1
  obtain ⟨g1, g2, g3, g4, g5, g6, g7⟩ := enqueue_fold (readyList s)
    { s with states := ((s.pool.map (·.2)).foldl scanTask ([], s.states)).2 }
  have he : enqueueReady s = (readyList s).foldl (fun (s : Sched T V) t =>
      { s with queue := s.queue ++ [t], states := s.states.set t.id .queued })
      { s with states := ((s.pool.map (·.2)).foldl scanTask ([], s.states)).2 } := by
    unfold enqueueReady readyList
    simp only [h1]
  rw [he]
  refine ⟨g1, g2, g3, g4, fun id => ?_, fun id h => ?_, fun id h => ?_, fun hn => g7 (h5 hn)⟩
  · rw [g5]
    split
    · rfl
    · exact h2 id
  · rcases (g6 id).1 h with h | h
    · obtain ⟨t, ht, rfl⟩ := List.mem_map.1 h
      exact .inl ⟨t, (List.mem_filter.1 ht).1, .inl rfl⟩
    · exact h3 id h
  · exact (g6 id).2 (.inr (h4 id h))

/-! ### Registering tasks -/

theorem register_fold (ts : List (Task T V)) (s : Sched T V) (hn : (ts.map Task.id).Nodup) :
    let s' := ts.foldl Sched.register s
    s'.specs = s.specs ∧ s'.queue = s.queue ∧ s'.cache = s.cache ∧
    (∀ id, s'.pool.get? id = (ts.find? (fun t => t.id == id)).or (s.pool.get? id)) ∧
    (∀ id, stOf s' id = if id ∈ ts.map Task.id then .initialized else stOf s id) ∧
    (∀ id, id ∈ s'.states.keys ↔ id ∈ ts.map Task.id ∨ id ∈ s.states.keys) ∧
    (s.states.keys.Nodup → s'.states.keys.Nodup) ∧
    (s.pool.keys.Nodup → s'.pool.keys.Nodup) := by
  induction ts generalizing s with
  | nil => simp
  | cons t ts ih =>
    simp only [List.map_cons, List.nodup_cons] at hn
    obtain ⟨h1, h2, h3, h4, h5, h6, h7, h8⟩ := ih (s.register t) hn.2
    simp only [List.foldl_cons]
    refine ⟨h1, h2, h3, fun id => ?_, fun id => ?_, fun id => ?_, fun hn => h7 (Dict.keys_set_nodup hn _ _),
      fun hn => h8 (Dict.keys_set_nodup hn _ _)⟩
    · rw [h4]
      simp only [Sched.register, Dict.get?_set, List.find?_cons]
      by_cases h : t.id = id
      · have hno : ts.find? (fun t => t.id == id) = none := by
          rw [List.find?_eq_none]
          intro x hx
          simp only [beq_iff_eq]
          intro hxi
          exact hn.1 (List.mem_map.2 ⟨x, hx, hxi.trans h.symm⟩)
        simp [h, hno]
      · have : (t.id == id) = false := by simpa using h
        simp [h, this]
    · rw [h5]
      by_cases h : id ∈ ts.map Task.id
      · simp [h]
      · simp only [h, if_false, List.map_cons, List.mem_cons, or_false]
        unfold stOf Sched.register
        simp only [Dict.get?_set]
        by_cases h' : t.id = id
        · simp [h']
        · simp [h', Ne.symm h']
    · rw [h6]
      simp only [Sched.register, Dict.mem_keys_set, List.map_cons, List.mem_cons]
      constructor
      · rintro (h | h | h)
        · exact .inl (.inr h)
        · exact .inl (.inl h)
        · exact .inr h
      · rintro ((h | h) | h)
        · exact .inr (.inl h)
        · exact .inl h
        · exact .inr (.inr h)

theorem baseTasks_eq {specs : List (TaskSpec T V)} (h : (specs.map (·.baseId)).Nodup) :
    (specs.foldl (fun (d : Dict Name (TaskSpec T V)) t => d.set t.baseId t) []).map (·.2) = specs := by
  suffices H : ∀ (l : List (TaskSpec T V)) (d : Dict Name (TaskSpec T V)),
      (l.map (·.baseId)).Nodup → (∀ t ∈ l, t.baseId ∉ d.keys) →
      (l.foldl (fun (d : Dict Name (TaskSpec T V)) t => d.set t.baseId t) d).map (·.2) = d.map (·.2) ++ l by
    simpa using H specs [] h (by simp [Dict.keys])
  intro l
  induction l with
  | nil => simp
  | cons t l ih =>
    intro d hn hd
    simp only [List.map_cons, List.nodup_cons] at hn
    simp only [List.foldl_cons]
    rw [Dict.keys_set_of_not_mem (hd t (by simp)), ih _ hn.2]
    · simp
    · intro x hx
      simp only [Dict.keys, List.map_append, List.map_cons, List.map_nil, List.mem_append, List.mem_singleton, not_or]
      refine ⟨hd x (by simp [hx]), ?_⟩
      intro he
      exact hn.1 (List.mem_map.2 ⟨x, hx, he⟩)

end Verif
