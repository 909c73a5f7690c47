import Verif.Proofs.Sched9

/-! The inputs bound to a task. -/
namespace Verif
variable {T V : Type}
variable {ops : TaskOps T V} {g : Graph T V} {specs : List (TaskSpec T V)} {ex : Executors}

theorem done_unique {tr : List (Event T V)} (hT : (doneIds tr).Nodup) {e : Name} {r r' : Dict Name V}
    (h5 : .done e r ∈ tr) (k5 : .done e r' ∈ tr) : r = r' := by
  induction tr with
  | nil => cases h5
  | cons ev tr ih =>
    cases ev with
    | submit t =>
      simp only [List.mem_cons, reduceCtorEq, false_or] at h5 k5
      exact ih hT h5 k5
    | done i r0 =>
      have hT' : (i :: doneIds tr).Nodup := hT
      rw [List.nodup_cons] at hT'
      simp only [List.mem_cons, Event.done.injEq] at h5 k5
      rcases h5 with ⟨rfl, rfl⟩ | h5 <;> rcases k5 with ⟨hx, rfl⟩ | k5
      · rfl
      · exact absurd (mem_doneIds.2 ⟨_, k5⟩) hT'.1
      · subst hx; exact absurd (mem_doneIds.2 ⟨_, h5⟩) hT'.1
      · exact ih hT'.2 h5 k5

theorem cacheRead_spec {c : Dict Name V} {opt : Bool} {ks : List Name} {r : Dict Name V}
    (h : cacheRead c none none opt ks = .ok r) :
    r.keys.Nodup ∧ (∀ k v, r.get? k = some v ↔ k ∈ ks ∧ c.get? k = some v) ∧
    (opt = false → ∀ k ∈ ks, ∃ v, r.get? k = some v) := by
  induction ks generalizing r with
  | nil => cases h; simp [Dict.keys]
  | cons k0 ks ih =>
    unfold cacheRead at h
    rw [formatKey_plain] at h
    cases hc : c.get? k0 with
    | none =>
      rw [hc] at h
      simp only at h
      split at h
      · rename_i ho
        obtain ⟨h1, h2, h3⟩ := ih h
        refine ⟨h1, ?_, by intro h'; rw [ho] at h'; cases h'⟩
        intro k v
        rw [h2, List.mem_cons]
        constructor
        · rintro ⟨a, b⟩; exact ⟨.inr a, b⟩
        · rintro ⟨rfl | a, b⟩
          · rw [hc] at b; cases b
          · exact ⟨a, b⟩
      · cases h
    | some v0 =>
      rw [hc] at h
      simp only at h
      cases hr : cacheRead c none none opt ks with
      | error e => rw [hr] at h; cases h
      | ok r0 =>
        rw [hr] at h
        cases h
        obtain ⟨h1, h2, h3⟩ := ih hr
        have hget : ∀ k, (Dict.merge [(k0, v0)] r0).get? k = (r0.get? k).or (if k0 = k then some v0 else none) := by
          intro k
          rw [Dict.get?_merge _ _ h1, Dict.get?_cons]
          rfl
        have hiff : ∀ k v, (Dict.merge [(k0, v0)] r0).get? k = some v ↔ k ∈ k0 :: ks ∧ c.get? k = some v := by
          intro k v
          rw [hget, List.mem_cons]
          cases hrk : r0.get? k with
          | some w =>
            have := (h2 k w).1 hrk
            simp only [Option.some_or, Option.some.injEq]
            constructor
            · rintro rfl; exact ⟨.inr this.1, this.2⟩
            · rintro ⟨_, hb⟩; rw [this.2] at hb; exact Option.some.inj hb
          | none =>
            rw [Option.none_or]
            by_cases hk : k0 = k
            · subst hk
              simp only [if_true, Option.some.injEq, true_or, true_and]
              rw [hc]; simp
            · simp only [hk, if_false, reduceCtorEq, false_iff]
              rintro ⟨rfl | a, b⟩
              · exact hk rfl
              · have := (h2 k v).2 ⟨a, b⟩; rw [hrk] at this; cases this
        refine ⟨Dict.merge_keys_nodup (by simp [Dict.keys]) _, hiff, ?_⟩
        intro ho k hk
        rcases List.mem_cons.1 hk with rfl | hk
        · exact ⟨v0, (hiff _ v0).2 ⟨by simp, hc⟩⟩
        · obtain ⟨v, hv⟩ := h3 ho k hk
          exact ⟨v, (hiff k v).2 ⟨by simp [hk], ((h2 k v).1 hv).2⟩⟩

/-- The node whose list the collector `t` receives. -/
def gatherArg (ops : TaskOps T V) (t : TaskSpec T V) : Option Name :=
  (collectorNode t.nodes).bind (collectDependency ops)

/-- Where a value bound to the realized task `t0` comes from. -/
def GoodInput (ops : TaskOps T V) (g : Graph T V) (specs : List (TaskSpec T V)) (c0 : Dict Name V)
    (tr : List (Event T V)) (t0 : Task T V) (k : Name) (v : V) : Prop :=
  t0.dynamicInputs.get? k = some v ∨
  (t0.purpose ≠ .gather ∧ t0.overrides.get? k = some v) ∨
  (t0.purpose = .gather ∧ gatherArg ops t0.toTaskSpec = some k ∧ ∃ s e x items vs, s ∈ specs ∧ s.CollectorOf e ∧
    t0 = collTask specs e items s ∧ Yielded ops specs tr e x items ∧ v = ops.ofList vs ∧
    Gathered specs tr s e k items vs) ∨
  ((k ∈ (getInputVars g t0.toTaskSpec).required ∨ k ∈ (getInputVars g t0.toTaskSpec).optional) ∧
    (c0.get? k = some v ∨ Produced ops tr (Realized ops specs tr) k v) ∧
    ∀ p ∈ specs, p.baseId ∈ t0.deps → ∀ r w, .done p.baseId r ∈ tr → r.get? k = some w →
      p.storedValue ops k w = some v)

theorem Produced.mono {tr tr' : List (Event T V)} (hsub : ∀ id r, .done id r ∈ tr → .done id r ∈ tr') {key : Name}
    {v : V} (h : Produced ops tr (Realized ops specs tr) key v) : Produced ops tr' (Realized ops specs tr') key v := by
  obtain ⟨id, r, t, k, w, h1, h2, h3⟩ := h
  exact ⟨id, r, t, k, w, hsub _ _ h1, h2.mono hsub, h3⟩

theorem GoodInput.mono {c0 : Dict Name V} {tr tr' : List (Event T V)}
    (hsub : ∀ id r, .done id r ∈ tr → .done id r ∈ tr') (hn : (doneIds tr').Nodup) {t0 : Task T V}
    (hd : ∀ d ∈ t0.deps, Done tr d) {k : Name} {v : V} (h : GoodInput ops g specs c0 tr t0 k v) :
    GoodInput ops g specs c0 tr' t0 k v := by
  rcases h with h | h | ⟨h0, h, s, e, x, items, vs, h1, h2, h3, h4, h5, h6⟩ | ⟨h1, h2, h3⟩
  · exact .inl h
  · exact .inr (.inl h)
  · refine .inr (.inr (.inl ⟨h0, h, s, e, x, items, vs, h1, h2, h3, h4.mono hsub, h5, ?_⟩))
    intro m a1 a2 a3 a4
    obtain ⟨b1, b2⟩ := h6 m a1 a2 a3 a4
    refine ⟨b1, fun i hi => ?_⟩
    obtain ⟨r, v, c1, c2, c3⟩ := b2 i hi
    exact ⟨r, v, hsub _ _ c1, c2, c3⟩
  · refine .inr (.inr (.inr ⟨h1, ?_, ?_⟩))
    · rcases h2 with h2 | h2
      · exact .inl h2
      · exact .inr (h2.mono hsub)
    · intro p hp hpd r w hr hw
      obtain ⟨r', hr'⟩ := hd _ hpd
      have := done_unique hn hr (hsub _ _ hr')
      subst this
      exact h3 p hp hpd _ w hr' hw

/-- What is known of a task about to run, in terms of the trace so far. -/
structure Bound (ops : TaskOps T V) (g : Graph T V) (specs : List (TaskSpec T V)) (c0 : Dict Name V)
    (tr : List (Event T V)) (t t0 : Task T V) : Prop where
  nodup : t.dynamicInputs.keys.Nodup
  good : ∀ k v, t.dynamicInputs.get? k = some v → GoodInput ops g specs c0 tr t0 k v
  own : ∀ k v, t0.dynamicInputs.get? k = some v → t.dynamicInputs.get? k = some v
  required : ∀ k ∈ (getInputVars g t0.toTaskSpec).required,
    (∃ v, t.dynamicInputs.get? k = some v) ∨ ∃ v, t0.overrides.get? k = some v
  optional : ∀ k ∈ (getInputVars g t0.toTaskSpec).optional,
    ((∃ v, c0.get? k = some v) ∨ ∃ p ∈ specs, p.baseId ∈ t0.deps ∧ ∃ r v, .done p.baseId r ∈ tr ∧ r.get? k = some v) →
    ∃ v, t.dynamicInputs.get? k = some v
  overrides : t0.purpose ≠ .gather → ∀ k v, t0.overrides.get? k = some v → ∃ v, t.dynamicInputs.get? k = some v
  gather : t0.purpose = .gather → ∃ arg v, gatherArg ops t0.toTaskSpec = some arg ∧ t.dynamicInputs.get? arg = some v

/-- Invariant of the queue. -/
def QueueOk (ops : TaskOps T V) (g : Graph T V) (specs : List (TaskSpec T V)) (c0 : Dict Name V) (l : Loop T V) : Prop :=
  ∀ t ∈ l.sched.queue, ∀ t0, l.sched.pool.get? t.id = some t0 → t.dynamicInputs.keys.Nodup ∧
    (∀ k v, t.dynamicInputs.get? k = some v → GoodInput ops g specs c0 l.trace t0 k v) ∧
    (∀ k v, t0.dynamicInputs.get? k = some v → t.dynamicInputs.get? k = some v) ∧
    (t.realizedDeps = t0.realizedDeps ∨
      ∀ arg, gatherArg ops t0.toTaskSpec = some arg → ∃ v, t.dynamicInputs.get? arg = some v)

/-- What is known of every submission. -/
def SubmitOk (ops : TaskOps T V) (g : Graph T V) (specs : List (TaskSpec T V)) (c0 : Dict Name V)
    (tr : List (Event T V)) : Prop :=
  ∀ pre t post, tr = pre ++ .submit t :: post → ∃ t0, Realized ops specs pre t0 ∧ SameCore t t0 ∧
    (∀ d ∈ t0.deps, Done pre d) ∧ Bound ops g specs c0 pre t t0

/-! ### Gathering -/

theorem mapM_ok {α β ε : Type} {f : α → Except ε β} {l : List α} {r : List β} (h : l.mapM f = .ok r) :
    r.length = l.length ∧ ∀ i (hi : i < l.length), ∃ b, f l[i] = .ok b ∧ r[i]? = some b := by
  induction l generalizing r with
  | nil =>
    rw [List.mapM_nil] at h
    cases h
    exact ⟨rfl, fun i hi => by cases hi⟩
  | cons a l ih =>
    rw [List.mapM_cons] at h
    cases ha : f a with
    | error e => rw [ha] at h; cases h
    | ok b =>
      rw [ha] at h
      cases hl : l.mapM f with
      | error e => rw [hl] at h; cases h
      | ok bs =>
        rw [hl] at h
        cases h
        obtain ⟨h1, h2⟩ := ih hl
        refine ⟨by simp [h1], ?_⟩
        intro i hi
        cases i with
        | zero => exact ⟨b, ha, rfl⟩
        | succ i =>
          obtain ⟨b', c1, c2⟩ := h2 i (by simpa using hi)
          exact ⟨b', by simpa using c1, by simpa using c2⟩

/-- What one dependency of a collector contributes. -/
def contribution (s : Sched T V) (arg : Name) (dep : Name × List Name) : List V :=
  match dep.2 with
  | [] => []
  | d0 :: _ =>
    match s.pool.get? d0 with
    | none => []
    | some t0 =>
      if (t0.nodes.map (·.name)).contains arg then
        match dep.2.mapM (readGathered s arg) with
        | .ok vs => vs
        | .error _ => []
      else []

theorem bindGatherDep_spec {s : Sched T V} {arg : Name} {p q : List V × Dict Name (List Name)} {dep : Name × List Name}
    (h : bindGatherDep s arg p dep = .ok q) : q.1 = p.1 ++ contribution s arg dep ∧
      (∀ d0 ds t0, dep.2 = d0 :: ds → s.pool.get? d0 = some t0 → (t0.nodes.map (·.name)).contains arg = true →
        ∃ vs, dep.2.mapM (readGathered s arg) = .ok vs) := by
  obtain ⟨dn, dl⟩ := dep
  unfold bindGatherDep at h
  unfold contribution
  cases dl with
  | nil =>
    cases h
    exact ⟨by simp, fun d0 ds t0 h => by cases h⟩
  | cons d0 ds =>
    dsimp only at h ⊢
    cases ht0 : s.pool.get? d0 with
    | none => rw [ht0] at h; cases h
    | some t0 =>
      rw [ht0] at h
      dsimp only at h ⊢
      by_cases hc : (t0.nodes.map (·.name)).contains arg = true
      · rw [if_pos hc] at h ⊢
        cases hm : (d0 :: ds).mapM (readGathered s arg) with
        | error e => rw [hm] at h; cases h
        | ok vs =>
          rw [hm] at h
          cases h
          exact ⟨rfl, fun _ _ _ _ _ _ => ⟨vs, rfl⟩⟩
      · rw [if_neg hc] at h ⊢
        cases h
        refine ⟨by simp, ?_⟩
        intro d0' ds' t0' h1 h2 h3
        cases h1
        rw [ht0] at h2
        cases h2
        exact absurd h3 hc

theorem bindGather_fold {s : Sched T V} {arg : Name} (deps : List (Name × List Name))
    {p q : List V × Dict Name (List Name)} (h : deps.foldlM (bindGatherDep s arg) p = .ok q) :
    q.1 = p.1 ++ deps.flatMap (contribution s arg) ∧
    ∀ dep ∈ deps, ∀ d0 ds t0, dep.2 = d0 :: ds → s.pool.get? d0 = some t0 →
      (t0.nodes.map (·.name)).contains arg = true → ∃ vs, dep.2.mapM (readGathered s arg) = .ok vs := by
  induction deps generalizing p with
  | nil =>
    rw [List.foldlM_nil] at h
    cases h
    exact ⟨by simp, fun dep hd => by cases hd⟩
  | cons dep deps ih =>
    rw [List.foldlM_cons] at h
    cases hd : bindGatherDep s arg p dep with
    | error e => rw [hd] at h; cases h
    | ok p1 =>
      rw [hd] at h
      obtain ⟨h1, h2⟩ := bindGatherDep_spec hd
      obtain ⟨h3, h4⟩ := ih h
      refine ⟨by rw [h3, h1]; simp, ?_⟩
      intro dep' hdep'
      rcases List.mem_cons.1 hdep' with rfl | hdep'
      · exact h2
      · exact h4 dep' hdep'

theorem flatMap_single {α β : Type} (l : List (Name × α)) (hn : (l.map (·.1)).Nodup) (f : Name × α → List β)
    {p : Name × α} (hp : p ∈ l) (h : ∀ q ∈ l, q.1 ≠ p.1 → f q = []) : l.flatMap f = f p := by
  induction l with
  | nil => cases hp
  | cons a l ih =>
    simp only [List.map_cons, List.nodup_cons] at hn
    rw [List.flatMap_cons]
    rcases List.mem_cons.1 hp with rfl | hp'
    · have : l.flatMap f = [] := by
        rw [List.flatMap_eq_nil_iff]
        intro q hq
        exact h q (by simp [hq]) (fun he => hn.1 (List.mem_map.2 ⟨q, hq, he⟩))
      rw [this, List.append_nil]
    · rw [h a (by simp) (fun he => hn.1 (List.mem_map.2 ⟨p, hp', he.symm⟩)), List.nil_append]
      exact ih hn.2 hp' (fun q hq hne => h q (by simp [hq]) hne)

theorem LInv.pool_of_done {l : Loop T V} (h : LInv ops g specs l) {id : Name} (hd : Done l.trace id) :
    ∃ t, l.sched.pool.get? id = some t := by
  cases hp : l.sched.pool.get? id with
  | some t => exact ⟨t, rfl⟩
  | none =>
    have := h.pool_none id hp
    rw [(h.done_iff id).2 hd] at this
    cases this

/-- The pool task of a base id carries that spec. -/
theorem LInv.pool_spec (hp : PlanOk specs) {l : Loop T V} (h : LInv ops g specs l) {p : TaskSpec T V} (hps : p ∈ specs)
    {t : Task T V} (ht : l.sched.pool.get? p.baseId = some t) :
    t.toTaskSpec = p ∧ ∀ k, t.key k = k := by
  obtain ⟨hti, htr⟩ := h.pool_ok _ _ ht
  cases htr with
  | static s k1 k2 => exact ⟨spec_unique hp k1 hps hti, fun k => rfl⟩
  | coll s e x items k1 k2 k3 => exact ⟨spec_unique hp k1 hps hti, fun k => rfl⟩
  | inst s e x items i item k1 k2 k3 k4 => exact absurd hti (hp.inst_fresh s k1 p hps e i k2)

theorem LInv.gathered (hp : PlanOk specs) (hk : KeysOk specs) {c0 : Dict Name V}
    (hc0 : HasRepeated specs → ∀ key v, c0.get? key = some v → ColonFree key)
    {l : Loop T V} (h : LInv ops g specs l) (hc : CInv ops c0 l) {s : TaskSpec T V} {e x arg : Name} {items : List V}
    (hs : s ∈ specs) (hcol : s.CollectorOf e) (hy : Yielded ops specs l.trace e x items)
    (hdone : ∀ d ∈ (collTask specs e items s).deps, Done l.trace d)
    {q : List V × Dict Name (List Name)}
    (hq : (collTask specs e items s).realizedDeps.foldlM (bindGatherDep l.sched arg)
      ([], (collTask specs e items s).realizedDeps) = .ok q) :
    Gathered specs l.trace s e arg items q.1 := by
  intro m hm hmm hmd ⟨n, hn, hna⟩
  obtain ⟨h1, h2⟩ := bindGather_fold _ hq
  rw [List.nil_append] at h1
  -- the entry of `m`
  have hentry : (m.baseId, (groupNames items).map (fun gn => determineTaskId m.baseId (some e) (some gn))) ∈
      (collTask specs e items s).realizedDeps := by
    unfold collTask gatherDeps
    simp only
    rw [mem_foldl_set (f := fun d => if ((memberSpecs specs e).map (·.baseId)).contains d then
      ((groupNames items).map (fun gn => nameMap (memberSpecs specs e) e gn)).filterMap (fun nm => nm.get? d) else [d])]
    refine ⟨hmd, ?_⟩
    have hin : m.baseId ∈ (memberSpecs specs e).map (·.baseId) :=
      List.mem_map.2 ⟨m, mem_memberSpecs.2 ⟨hm, hmm⟩, rfl⟩
    rw [if_pos (List.contains_iff_mem.2 hin), List.filterMap_map]
    have : (fun nm : Dict Name Name => nm.get? m.baseId) ∘ (fun gn => nameMap (memberSpecs specs e) e gn) =
        fun gn => some (determineTaskId m.baseId (some e) (some gn)) := by
      funext gn
      simp only [Function.comp, nameMap_get?, if_pos hin]
    rw [this]
    exact (List.filterMap_eq_map (f := fun gn => determineTaskId m.baseId (some e) (some gn))).symm ▸ rfl
  have hnodup : ((collTask specs e items s).realizedDeps.map (·.1)).Nodup := by
    unfold collTask gatherDeps
    exact foldl_set_nodup (fun d => if ((memberSpecs specs e).map (·.baseId)).contains d then
      ((groupNames items).map (fun gn => nameMap (memberSpecs specs e) e gn)).filterMap (fun nm => nm.get? d) else [d])
      _ [] (by simp [Dict.keys])
  -- the instances
  have hinst : ∀ i < items.length, ∃ t, l.sched.pool.get? (instanceId e i m.baseId) = some t ∧
      t.toTaskSpec = m ∧ t.groupId = some (toString i) ∧ t.spawningTaskId = some e := by
    intro i hi
    obtain ⟨t, ht⟩ := (h.exp_in e x items hy).1 m hm hmm i hi
    obtain ⟨hti, htr⟩ := h.pool_ok _ _ ht
    cases htr with
    | static s' k1 k2 => exact absurd hti.symm (hp.inst_fresh m hm s' k1 e i hmm)
    | coll s' e' x' items' k1 k2 k3 => exact absurd hti.symm (hp.inst_fresh m hm s' k1 e i hmm)
    | inst s' e' x' items' i' item' k1 k2 k3 k4 =>
      obtain ⟨rfl, rfl, hb⟩ := hp.inst_inj s' k1 m hm e' e i' i k2 hmm hti
      have := spec_unique hp k1 hm hb
      subst this
      exact ⟨_, ht, rfl, rfl, rfl⟩
  -- other entries contribute nothing
  have hother : ∀ dep ∈ (collTask specs e items s).realizedDeps, dep.1 ≠ m.baseId →
      contribution l.sched arg dep = [] := by
    intro dep hdep hne
    unfold contribution
    cases hd2 : dep.2 with
    | nil => rfl
    | cons d0 ds =>
      simp only
      cases hpool : l.sched.pool.get? d0 with
      | none => rfl
      | some t0 =>
        simp only
        rw [if_neg]
        intro hcon
        rw [List.contains_iff_mem, List.mem_map] at hcon
        obtain ⟨n0, hn0, hn0a⟩ := hcon
        obtain ⟨ht0i, ht0r⟩ := h.pool_ok _ _ hpool
        have hbase : t0.baseId = m.baseId :=
          hk.node_disjoint _ ht0r.spec m hm n0 hn0 n hn (hn0a.trans hna.symm)
        -- so `d0` is realized from `m`, hence the entry is that of `m`
        have hdep' := hdep
        unfold collTask gatherDeps at hdep'
        simp only at hdep'
        rw [mem_foldl_set (f := fun d => if ((memberSpecs specs e).map (·.baseId)).contains d then
          ((groupNames items).map (fun gn => nameMap (memberSpecs specs e) e gn)).filterMap (fun nm => nm.get? d)
          else [d])] at hdep'
        obtain ⟨hd1, hd3⟩ := hdep'
        rw [hd2] at hd3
        split at hd3
        · rename_i hc1
          have hc1' := List.contains_iff_mem.1 hc1
          have : d0 ∈ ((groupNames items).map (fun gn => nameMap (memberSpecs specs e) e gn)).filterMap
              (fun nm => nm.get? dep.1) := by rw [← hd3]; simp
          obtain ⟨nm, hnm, hnm2⟩ := List.mem_filterMap.1 this
          obtain ⟨gn, hgn, rfl⟩ := List.mem_map.1 hnm
          unfold groupNames at hgn
          obtain ⟨i, _, rfl⟩ := List.mem_map.1 hgn
          rw [nameMap_get?, if_pos hc1'] at hnm2
          have hd0 : d0 = instanceId e i dep.1 := (Option.some.inj hnm2).symm
          obtain ⟨m2, hm2, hm2b⟩ := List.mem_map.1 hc1'
          obtain ⟨hm2s, hm2m⟩ := mem_memberSpecs.1 hm2
          subst hd0
          rw [← hm2b] at ht0i hne
          cases ht0r with
          | static s' k1 k2 => exact hp.inst_fresh m2 hm2s s' k1 e i hm2m ht0i.symm
          | coll s' e' x' items' k1 k2 k3 => exact hp.inst_fresh m2 hm2s s' k1 e i hm2m ht0i.symm
          | inst s' e' x' items' i' item' k1 k2 k3 k4 =>
            have := (hp.inst_inj s' k1 m2 hm2s e' e i' i k2 hm2m ht0i).2.2
            exact hne (this.symm.trans hbase)
        · simp only [List.cons.injEq] at hd3
          have hd0 := hd3.1
          subst hd0
          obtain ⟨p, hps, hpd⟩ := hp.deps_in s hs _ hd1
          rw [← hpd] at hpool hne
          have := (h.pool_spec hp hps hpool).1
          rw [this] at hbase
          exact hne hbase
  have hval : q.1 = contribution l.sched arg
      (m.baseId, (groupNames items).map (fun gn => determineTaskId m.baseId (some e) (some gn))) := by
    rw [h1]
    exact flatMap_single _ hnodup _ hentry hother
  by_cases hz : items.length = 0
  · have : q.1 = [] := by
      rw [hval]
      unfold contribution groupNames
      rw [hz]
      rfl
    rw [this, hz]
    exact ⟨rfl, fun i hi => by omega⟩
  · obtain ⟨t0, ht0, hsp0, _, _⟩ := hinst 0 (by omega)
    have hcons : ∃ ds, (groupNames items).map (fun gn => determineTaskId m.baseId (some e) (some gn)) =
        instanceId e 0 m.baseId :: ds := by
      unfold groupNames
      cases hl : items.length with
      | zero => exact absurd hl hz
      | succ k =>
        rw [List.range_succ_eq_map]
        exact ⟨_, rfl⟩
    obtain ⟨ds, hds⟩ := hcons
    have hcont : (t0.nodes.map (·.name)).contains arg = true := by
      rw [List.contains_iff_mem, List.mem_map, hsp0]
      exact ⟨n, hn, hna⟩
    obtain ⟨vs, hvs⟩ := h2 _ hentry _ _ t0 hds ht0 hcont
    have hq1 : q.1 = vs := by
      rw [hval]
      unfold contribution
      simp only [hds] at hvs ⊢
      simp only [ht0, hvs]
      rw [if_pos hcont]
    obtain ⟨hlen, hall⟩ := mapM_ok hvs
    have hlen' : ((groupNames items).map (fun gn => determineTaskId m.baseId (some e) (some gn))).length =
        items.length := by
      simp [groupNames]
    rw [hq1]
    refine ⟨hlen.trans hlen', ?_⟩
    intro i hi
    obtain ⟨b, hb1, hb2⟩ := hall i (by simpa [groupNames] using hi)
    have hgi : ((groupNames items).map (fun gn => determineTaskId m.baseId (some e) (some gn)))[i]'(by
        simpa [groupNames] using hi) = instanceId e i m.baseId := by
      simp only [groupNames, List.getElem_map, List.getElem_range]
      exact determineTaskId_inst e m.baseId i
    simp only [hgi] at hb1
    obtain ⟨t, ht, hts, htg, htsp⟩ := hinst i hi
    unfold readGathered at hb1
    rw [ht] at hb1
    simp only at hb1
    split at hb1
    · cases hb1
    · rename_i w hw
      cases hb1
      obtain ⟨hti, htr⟩ := h.pool_ok _ _ ht
      rcases hc.source _ _ hw with hw0 | ⟨id2, r2, t2, k2, v2, a1, a2, a3, a4, a5⟩
      · exfalso
        have := hc0 ⟨m, hm, e, hmm⟩ _ _ hw0
        rw [htg, htsp] at this
        exact formatKey_inst_plain this rfl
      · obtain ⟨n2, hn2, rfl⟩ := h.done_node hk hp a1 a2 a3
        obtain ⟨ht2i, ht2r⟩ := h.pool_ok _ _ a2
        have hn' : n ∈ t.nodes := by rw [hts]; exact hn
        have hkey : t.key n.name = t2.key n2.name := by rw [hna]; exact a4
        obtain ⟨b1, b2⟩ := key_inj hk htr ht2r hp hn' hn2 hkey
        have hid2 : id2 = instanceId e i m.baseId := by rw [← ht2i, ← b1, hti]
        subst hid2
        rw [ht] at a2
        cases a2
        have hst : t.storedValue ops n2.name v2 = some v2 := by
          unfold TaskSpec.storedValue
          rw [hts]
          simp [hmm.2.1]
        rw [hst] at a5
        cases a5
        exact ⟨r2, _, a1, by rw [← hna, b2]; exact a3, hb2⟩

/-! ### Binding -/

theorem LInv.bind_ok (hp : PlanOk specs) (hk : KeysOk specs) {c0 : Dict Name V}
    (hc0 : HasRepeated specs → ∀ key v, c0.get? key = some v → ColonFree key)
    {l : Loop T V} (h : LInv ops g specs l) (hc : CInv ops c0 l) (hq : QueueOk ops g specs c0 l)
    {t t' t0 : Task T V} (ht : t ∈ l.sched.queue) (ht0 : l.sched.pool.get? t.id = some t0) (hcore : SameCore t t0)
    (hb : bindTask ops g l.sched t = .ok t') : Bound ops g specs c0 l.trace t' t0 := by
  obtain ⟨q1, q2, q3, q4⟩ := hq t ht t0 ht0
  obtain ⟨hst, _, _⟩ := h.queue_ok t ht
  have hspec : t.toTaskSpec = t0.toTaskSpec := hcore.1
  obtain ⟨ht0i, ht0r⟩ := h.pool_ok _ _ ht0
  have hdone : ∀ d ∈ t0.deps, Done l.trace d := by
    intro d hd
    rw [← h.done_iff]
    exact h.started _ t0 ht0 (by rw [hst]; simp) d hd
  -- a value read from the cache
  have hread : ∀ k v, l.sched.cache.get? k = some v →
      (k ∈ (getInputVars g t0.toTaskSpec).required ∨ k ∈ (getInputVars g t0.toTaskSpec).optional) →
      GoodInput ops g specs c0 l.trace t0 k v := by
    intro k v hkv hvars
    refine .inr (.inr (.inr ⟨hvars, ?_, ?_⟩))
    · rcases hc.source k v hkv with h' | ⟨id, r, t1, k1, v1, a1, a2, a3, a4, a5⟩
      · exact .inl h'
      · obtain ⟨b1, b2⟩ := h.pool_ok _ _ a2
        exact .inr ⟨id, r, t1, k1, v1, a1, b2, b1, a3, a4, a5⟩
    · intro p hps hpd r w hr hw
      obtain ⟨t1, ht1⟩ := h.pool_of_done (hdone _ hpd)
      obtain ⟨b1, b2⟩ := h.pool_spec hp hps ht1
      obtain ⟨v', c1, c2⟩ := hc.stored _ r t1 k w hr ht1 hw
      rw [b2] at c2
      rw [hkv] at c2
      cases c2
      rw [← b1]
      exact c1
  unfold bindTask at hb
  simp only at hb
  split at hb
  · cases hb
  rename_i dyn deps hstart
  split at hb
  · cases hb
  rename_i r1 hr1
  split at hb
  · cases hb
  rename_i r2 hr2
  cases hb
  obtain ⟨a1, a2, a3⟩ := cacheRead_spec hr1
  obtain ⟨b1, b2, _⟩ := cacheRead_spec hr2
  rw [hspec] at a2 a3 b2
  have hget : ∀ k, (Dict.merge (Dict.merge (Dict.merge dyn r1) r2) t.dynamicInputs).get? k =
      (t.dynamicInputs.get? k).or ((r2.get? k).or ((r1.get? k).or (dyn.get? k))) := by
    intro k
    rw [Dict.get?_merge _ _ q1, Dict.get?_merge _ _ b1, Dict.get?_merge _ _ a1]
  -- the start of the binding
  have hdyn : dyn.keys.Nodup ∧
      (t0.purpose ≠ .gather → dyn = t0.overrides) ∧
      (t0.purpose = .gather → ∃ arg v, gatherArg ops t0.toTaskSpec = some arg ∧ dyn = [(arg, v)] ∧
        (t.realizedDeps = t0.realizedDeps → GoodInput ops g specs c0 l.trace t0 arg v)) := by
    unfold bindStart at hstart
    have hpur : t.purpose = t0.purpose := by rw [hspec]
    by_cases hg : t0.purpose = .gather
    · rw [if_pos (hpur.trans hg)] at hstart
      split at hstart
      · cases hstart
      rename_i cn hcn
      split at hstart
      · cases hstart
      rename_i arg harg
      have hga : gatherArg ops t0.toTaskSpec = some arg := by
        unfold gatherArg
        rw [← hspec, hcn]
        exact harg
      cases hf : t.realizedDeps.foldlM (bindGatherDep l.sched arg) ([], t.realizedDeps) with
      | error e => rw [hf] at hstart; cases hstart
      | ok q =>
        rw [hf] at hstart
        cases hstart
        refine ⟨by simp [Dict.keys], fun hn => absurd hg hn, fun _ => ⟨arg, ops.ofList q.1, hga, rfl, ?_⟩⟩
        intro hrd
        rw [hrd] at hf
        refine .inr (.inr (.inl ⟨hg, hga, ?_⟩))
        cases ht0r with
        | static s k1 k2 =>
          -- a collector is always spawned or has no gather dependencies
          exfalso
          exact absurd hg (by
            intro hg'
            have : (mkTask s none none ([] : Dict Name V)).purpose = .gather := hg'
            have hs : s.purpose = .gather := this
            exact (hk.gather_spawned s k1 hs) k2)
        | inst s e x items i item k1 k2 k3 k4 => exact absurd hg k2.2.2
        | coll s e x items k1 k2 k3 =>
          exact ⟨s, e, x, items, q.1, k1, k2, rfl, k3, rfl, h.gathered hp hk hc0 hc k1 k2 k3 hdone hf⟩
    · rw [if_neg (by rw [hpur]; exact hg)] at hstart
      cases hstart
      refine ⟨?_, fun _ => by rw [hspec], fun h' => absurd h' hg⟩
      rw [hspec]
      exact hk.overrides_nodup _ ht0r.spec
  obtain ⟨d1, d2, d3⟩ := hdyn
  refine ⟨?_, ?_, ?_, ?_, ?_, ?_, ?_⟩
  · exact Dict.merge_keys_nodup (Dict.merge_keys_nodup (Dict.merge_keys_nodup d1 _) _) _
  · intro k v hkv
    simp only [hget] at hkv
    cases h1 : t.dynamicInputs.get? k with
    | some w =>
      rw [h1, Option.some_or] at hkv
      cases hkv
      exact q2 k _ h1
    | none =>
      rw [h1, Option.none_or] at hkv
      cases h2 : r2.get? k with
      | some w =>
        rw [h2, Option.some_or] at hkv
        cases hkv
        obtain ⟨c1, c2⟩ := (b2 k _).1 h2
        exact hread k _ c2 (.inr c1)
      | none =>
        rw [h2, Option.none_or] at hkv
        cases h3 : r1.get? k with
        | some w =>
          rw [h3, Option.some_or] at hkv
          cases hkv
          obtain ⟨c1, c2⟩ := (a2 k _).1 h3
          exact hread k _ c2 (.inl (List.mem_filter.1 c1).1)
        | none =>
          rw [h3, Option.none_or] at hkv
          by_cases hg : t0.purpose = .gather
          · obtain ⟨arg, v0, e1, e2, e3⟩ := d3 hg
            rw [e2, Dict.get?_cons] at hkv
            split at hkv
            · rename_i hka
              subst hka
              cases hkv
              rcases q4 with q4 | q4
              · exact e3 q4
              · obtain ⟨v1, hv1⟩ := q4 _ e1
                rw [h1] at hv1; cases hv1
            · cases hkv
          · rw [d2 hg] at hkv
            exact .inr (.inl ⟨hg, hkv⟩)
  · intro k v hkv
    simp only [hget, q3 k v hkv, Option.some_or]
  · intro k hkr
    by_cases hf : (!dyn.has k && !t0.overrides.has k) = true
    · obtain ⟨v, hv⟩ := a3 rfl k (List.mem_filter.2 ⟨hkr, hf⟩)
      left
      simp only [hget, hv]
      cases t.dynamicInputs.get? k <;> cases r2.get? k <;> simp
    · simp only [Bool.and_eq_true, Bool.not_eq_true', Dict.has_eq_false_iff, Classical.not_and_iff_not_or_not] at hf
      rcases hf with hf | hf
      · left
        cases hd : dyn.get? k with
        | none => exact absurd hd hf
        | some v =>
          simp only [hget, hd]
          cases t.dynamicInputs.get? k <;> cases r2.get? k <;> cases r1.get? k <;> simp
      · right
        cases hd : t0.overrides.get? k with
        | none => exact absurd hd hf
        | some v => exact ⟨v, rfl⟩
  · intro k hko hex
    have hcache : ∃ v, l.sched.cache.get? k = some v := by
      rcases hex with ⟨v, hv⟩ | ⟨p, hps, hpd, r, v, hr, hv⟩
      · exact hc.kept k v hv
      · obtain ⟨t1, ht1⟩ := h.pool_of_done (hdone _ hpd)
        obtain ⟨_, c2⟩ := h.pool_spec hp hps ht1
        obtain ⟨v', _, c4⟩ := hc.stored _ r t1 k v hr ht1 hv
        rw [c2] at c4
        exact ⟨v', c4⟩
    obtain ⟨v, hv⟩ := hcache
    have := (b2 k v).2 ⟨hko, hv⟩
    simp only [hget, this]
    cases t.dynamicInputs.get? k <;> simp
  · intro hg k v hkv
    have : dyn.get? k = some v := by rw [d2 hg]; exact hkv
    simp only [hget, this]
    cases t.dynamicInputs.get? k <;> cases r2.get? k <;> cases r1.get? k <;> simp
  · intro hg
    obtain ⟨arg, v0, e1, e2, e3⟩ := d3 hg
    refine ⟨arg, ?_⟩
    have : dyn.get? arg = some v0 := by rw [e2, Dict.get?_cons, if_pos rfl]
    simp only [hget, this]
    cases t.dynamicInputs.get? arg <;> cases r2.get? arg <;> cases r1.get? arg <;> simp [e1]

end Verif
