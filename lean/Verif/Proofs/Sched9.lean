import Verif.Proofs.Sched8
import Verif.Proofs.Exec
import Verif.Spec.Keys
import Std.Data.String.ToNat

/-! Contents of the result cache. -/
namespace Verif
variable {T V : Type}
variable {ops : TaskOps T V} {g : Graph T V} {specs : List (TaskSpec T V)} {ex : Executors}

/-! ### Keys -/

theorem split_first {α : Type} {c : α} {a a' b b' : List α} (h1 : c ∉ a) (h2 : c ∉ a')
    (h : a ++ c :: b = a' ++ c :: b') : a = a' ∧ b = b' := by
  induction a generalizing a' with
  | nil =>
    cases a' with
    | nil => simpa using h
    | cons x a' =>
      simp only [List.nil_append, List.cons_append, List.cons.injEq] at h
      exact absurd (by simp [h.1]) h2
  | cons y a ih =>
    cases a' with
    | nil =>
      simp only [List.nil_append, List.cons_append, List.cons.injEq] at h
      exact absurd (by simp [h.1]) h1
    | cons x a' =>
      simp only [List.cons_append, List.cons.injEq] at h
      obtain ⟨h3, h4⟩ := ih (fun hm => h1 (by simp [hm])) (fun hm => h2 (by simp [hm])) h.2
      exact ⟨by rw [h.1, h3], h4⟩

theorem formatKey_inst (e gn k : Name) : formatKey (some gn) (some e) k = e ++ ":" ++ (gn ++ ":" ++ k) := rfl

theorem formatKey_inst_toList (e gn k : Name) :
    (formatKey (some gn) (some e) k).toList = e.toList ++ ':' :: (gn.toList ++ ':' :: k.toList) := by
  rw [formatKey_inst]
  simp [String.toList_append]

theorem colonFree_nat (i : Nat) : ColonFree (toString i) := by
  unfold ColonFree
  rw [Nat.toString_eq_ofList_toDigits, String.toList_ofList]
  intro h
  have := Nat.isDigit_of_mem_toDigits (by omega) (by omega) h
  exact absurd this (by decide)

theorem toString_nat_inj {i j : Nat} (h : toString i = toString j) : i = j := Nat.repr_injective h

theorem formatKey_inst_inj {e gn k e' gn' k' : Name} (he : ColonFree e) (he' : ColonFree e') (hg : ColonFree gn)
    (hg' : ColonFree gn') (h : formatKey (some gn) (some e) k = formatKey (some gn') (some e') k') :
    e = e' ∧ gn = gn' ∧ k = k' := by
  have h' := congrArg String.toList h
  rw [formatKey_inst_toList, formatKey_inst_toList] at h'
  obtain ⟨h1, h2⟩ := split_first he he' h'
  obtain ⟨h3, h4⟩ := split_first hg hg' h2
  exact ⟨String.toList_injective h1, String.toList_injective h3, String.toList_injective h4⟩

theorem formatKey_inst_plain {e gn k k' : Name} (hk : ColonFree k') : formatKey (some gn) (some e) k ≠ k' := by
  intro h
  apply hk
  rw [← h, formatKey_inst_toList]
  simp

theorem formatKey_inj (gr sp : Option Name) {k k' : Name} (h : formatKey gr sp k = formatKey gr sp k') : k = k' := by
  have ha : ∀ p : String, p ++ k = p ++ k' → k = k' := by
    intro p hp
    have := congrArg String.toList hp
    rw [String.toList_append, String.toList_append] at this
    exact String.toList_injective (List.append_cancel_left this)
  cases gr with
  | none =>
    cases sp with
    | none => exact h
    | some s =>
      have h' : s ++ ":" ++ k = s ++ ":" ++ k' := h
      exact ha _ h'
  | some gg =>
    cases sp with
    | none =>
      have h' : gg ++ ":" ++ k = gg ++ ":" ++ k' := h
      exact ha _ h'
    | some s =>
      have h' : s ++ ":" ++ (gg ++ ":" ++ k) = s ++ ":" ++ (gg ++ ":" ++ k') := h
      have h2 : (s ++ ":" ++ (gg ++ ":")) ++ k = (s ++ ":" ++ (gg ++ ":")) ++ k' := by
        simpa only [String.append_assoc] using h'
      exact ha _ h2

/-- Distinct results have distinct keys. -/
theorem key_inj (hk : KeysOk specs) {tr : List (Event T V)} {t t' : Task T V}
    (ht : Realized ops specs tr t) (ht' : Realized ops specs tr t')
    (hp : PlanOk specs) {n n' : Node T V} (hn : n ∈ t.nodes) (hn' : n' ∈ t'.nodes)
    (h : t.key n.name = t'.key n'.name) : t.id = t'.id ∧ n.name = n'.name := by
  have hcf := fun hr => hk.names_plain hr _ ht.spec n hn
  have hcf' := fun hr => hk.names_plain hr _ ht'.spec n' hn'
  have hexp : ∀ (s : TaskSpec T V) e, s ∈ specs → s.MemberOf e → ColonFree e := by
    intro s e hs he
    obtain ⟨_, p, hp1, hp2, _⟩ := hp.spawned s hs e he.1
    exact hp2 ▸ hk.ids_plain ⟨s, hs, e, he⟩ p hp1
  have hid : ∀ (a : Task T V), a = t ∨ a = t' → True := fun _ _ => trivial
  clear hid
  have hdisj : n.name = n'.name → t.baseId = t'.baseId := fun he =>
    hk.node_disjoint _ ht.spec _ ht'.spec n hn n' hn' he
  cases ht with
  | static s k1 k2 =>
    have e1 : (mkTask s none none ([] : Dict Name V)).key n.name = n.name := rfl
    rw [e1] at h
    cases ht' with
    | static s' m1 m2 => exact ⟨hdisj h, h⟩
    | coll s' e x items m1 m2 m3 => exact ⟨hdisj h, h⟩
    | inst s' e x items i item m1 m2 m3 m4 => exact absurd h.symm (formatKey_inst_plain (hcf ⟨s', m1, e, m2⟩))
  | coll s e x items k1 k2 k3 =>
    have e1 : (collTask specs e items s).key n.name = n.name := rfl
    rw [e1] at h
    cases ht' with
    | static s' m1 m2 => exact ⟨hdisj h, h⟩
    | coll s' e x items m1 m2 m3 => exact ⟨hdisj h, h⟩
    | inst s' e x items i item m1 m2 m3 m4 => exact absurd h.symm (formatKey_inst_plain (hcf ⟨s', m1, e, m2⟩))
  | inst s e x items i item k1 k2 k3 k4 =>
    cases ht' with
    | static s' m1 m2 => exact absurd h (formatKey_inst_plain (hcf' ⟨s, k1, e, k2⟩))
    | coll s' e' x' items' m1 m2 m3 => exact absurd h (formatKey_inst_plain (hcf' ⟨s, k1, e, k2⟩))
    | inst s' e' x' items' i' item' m1 m2 m3 m4 =>
      obtain ⟨rfl, h2, h3⟩ := formatKey_inst_inj (hexp s e k1 k2) (hexp s' e' m1 m2) (colonFree_nat i)
        (colonFree_nat i') h
      have hii := toString_nat_inj h2
      subst hii
      refine ⟨?_, h3⟩
      have hb : s.baseId = s'.baseId := hdisj h3
      rw [instTask_id, instTask_id, hb]

/-! ### Writing -/

theorem cacheWrite_spec {c r : Dict Name V} {gr sp : Option Name} (hn : r.keys.Nodup) (k : Name) :
    (∀ v, r.get? k = some v → (cacheWrite c r gr sp).get? (formatKey gr sp k) = some v) ∧
    (r.get? k = none → (cacheWrite c r gr sp).get? (formatKey gr sp k) = c.get? (formatKey gr sp k)) := by
  constructor
  · intro v hv
    unfold cacheWrite
    induction r generalizing c with
    | nil => cases hv
    | cons p r ih =>
      simp only [Dict.keys, List.map_cons, List.nodup_cons] at hn
      simp only [List.foldl_cons]
      unfold Dict.get? at hv
      by_cases hpk : p.1 = k
      · have hv' : p.2 = v := by simpa [List.find?_cons, hpk] using hv
        have hnot : ∀ q ∈ r, formatKey gr sp q.1 ≠ formatKey gr sp p.1 := by
          intro q hq he
          exact hn.1 (List.mem_map.2 ⟨q, hq, formatKey_inj gr sp he⟩)
        have := mem_cacheWrite (c := c.set (formatKey gr sp p.1) p.2) hnot
        unfold cacheWrite at this
        rw [← hpk, this, Dict.get?_set, if_pos rfl, hv']
      · apply ih hn.2
        simpa [List.find?_cons, hpk] using hv
  · intro hnone
    apply mem_cacheWrite
    intro p hp he
    have := formatKey_inj gr sp he
    subst this
    have := Dict.get?_of_mem hn hp
    rw [hnone] at this
    cases this

theorem cacheWrite_mem {c r : Dict Name V} {gr sp : Option Name} {key : Name} {v : V}
    (h : (cacheWrite c r gr sp).get? key = some v) :
    (∃ k, (k, v) ∈ r ∧ key = formatKey gr sp k) ∨ c.get? key = some v := by
  unfold cacheWrite at h
  induction r generalizing c with
  | nil => exact .inr h
  | cons p r ih =>
    simp only [List.foldl_cons] at h
    rcases ih h with ⟨k, h1, h2⟩ | h'
    · exact .inl ⟨k, by simp [h1], h2⟩
    · rw [Dict.get?_set] at h'
      split at h'
      · rename_i he
        cases h'
        exact .inl ⟨p.1, by simp, he.symm⟩
      · exact .inr h'

theorem cacheWrite_keep {c r : Dict Name V} {gr sp : Option Name} {key : Name} {v : V}
    (h : c.get? key = some v) : ∃ v', (cacheWrite c r gr sp).get? key = some v' := by
  unfold cacheWrite
  induction r generalizing c v with
  | nil => exact ⟨v, h⟩
  | cons p r ih =>
    simp only [List.foldl_cons]
    by_cases he : formatKey gr sp p.1 = key
    · exact ih (v := p.2) (by rw [Dict.get?_set, if_pos he])
    · exact ih (v := v) (by rw [Dict.get?_set, if_neg he]; exact h)

/-- What `writeTaskResults` does to the cache. -/
theorem write_spec {c c' : Dict Name V} {t : Task T V} {r : Dict Name V} (hn : r.keys.Nodup)
    (hplain : t.purpose = .expand → t.groupId = none ∧ t.spawningTaskId = none)
    (h : writeTaskResults ops c t r = .ok c') :
    (∀ k v, r.get? k = some v → ∃ v', t.storedValue ops k v = some v' ∧ c'.get? (t.key k) = some v') ∧
    (∀ key v', c'.get? key = some v' → c.get? key = some v' ∨
      ∃ k v, r.get? k = some v ∧ key = t.key k ∧ t.storedValue ops k v = some v') ∧
    (∀ key, (∀ k v, r.get? k = some v → t.key k ≠ key) → c'.get? key = c.get? key) ∧
    (∀ key v, c.get? key = some v → ∃ v', c'.get? key = some v') := by
  unfold writeTaskResults at h
  by_cases hp : t.purpose = .expand
  · rw [if_pos hp] at h
    obtain ⟨hg, hs⟩ := hplain hp
    have hkey : ∀ k, t.key k = k := by intro k; unfold Task.key; rw [hg, hs]; rfl
    split at h
    · cases h
    rename_i e he
    split at h
    · cases h
    rename_i v0 hv0
    split at h
    · cases h
    rename_i l hl
    cases h
    have hsv : ∀ k v, t.storedValue ops k v = if e.name = k then (ops.toList v).map ops.ofList else some v := by
      intro k v
      unfold TaskSpec.storedValue
      simp [hp, he]
    rw [hg, hs]
    have hnd : (r.del e.name).keys.Nodup := Dict.keys_del_nodup hn _
    refine ⟨?_, ?_, ?_, ?_⟩
    · intro k v hv
      rw [hsv, hkey]
      obtain ⟨w1, w2⟩ := cacheWrite_spec (c := cacheWrite c [(e.name, ops.ofList l)] none none) (gr := none) (sp := none) hnd k
      rw [formatKey_plain] at w1 w2
      by_cases hk : e.name = k
      · subst hk
        rw [hv0] at hv
        cases hv
        refine ⟨ops.ofList l, by simp [hl], ?_⟩
        rw [w2 (by rw [Dict.get?_del, if_pos rfl])]
        unfold cacheWrite
        simp only [List.foldl_cons, List.foldl_nil, formatKey_plain, Dict.get?_set, if_true]
      · exact ⟨v, by simp [hk], w1 v (by rw [Dict.get?_del, if_neg hk]; exact hv)⟩
    · intro key v' hv'
      rcases cacheWrite_mem hv' with ⟨k, h1, h2⟩ | h1
      · have hne := keys_of_del h1
        have h3 := Dict.get?_of_mem hnd h1
        rw [Dict.get?_del, if_neg (Ne.symm hne)] at h3
        exact .inr ⟨k, v', h3, by rw [hkey]; exact h2, by rw [hsv, if_neg (Ne.symm hne)]⟩
      · rcases cacheWrite_mem h1 with ⟨k, h3, h4⟩ | h3
        · simp only [List.mem_singleton, Prod.mk.injEq] at h3
          obtain ⟨rfl, rfl⟩ := h3
          exact .inr ⟨e.name, v0, hv0, by rw [hkey]; exact h4, by rw [hsv, if_pos rfl, hl]; rfl⟩
        · exact .inl h3
    · intro key hkk
      rw [mem_cacheWrite, mem_cacheWrite]
      · intro p hp'
        simp only [List.mem_singleton] at hp'
        subst hp'
        have := hkk _ _ hv0
        rw [hkey] at this
        exact this
      · intro p hp'
        have h3 := Dict.get?_of_mem hnd hp'
        rw [Dict.get?_del, if_neg (Ne.symm (keys_of_del hp'))] at h3
        have := hkk _ _ h3
        rw [hkey] at this
        exact this
    · intro key v hv
      obtain ⟨v1, h1⟩ := cacheWrite_keep (r := [(e.name, ops.ofList l)]) (gr := none) (sp := none) hv
      exact cacheWrite_keep h1
  · rw [if_neg hp] at h
    cases h
    have hsv : ∀ k v, t.storedValue ops k v = some v := by
      intro k v
      unfold TaskSpec.storedValue
      simp [hp]
    refine ⟨?_, ?_, ?_, ?_⟩
    · intro k v hv
      exact ⟨v, hsv k v, (cacheWrite_spec hn k).1 v hv⟩
    · intro key v' hv'
      rcases cacheWrite_mem hv' with ⟨k, h1, h2⟩ | h1
      · exact .inr ⟨k, v', Dict.get?_of_mem hn h1, h2, hsv _ _⟩
      · exact .inl h1
    · intro key hkk
      apply mem_cacheWrite
      intro p hp'
      exact hkk _ _ (Dict.get?_of_mem hn hp')
    · intro key v hv
      exact cacheWrite_keep hv

/-! ### Results of a task -/

theorem prune_nodup (req : List Name) (deps : List Name) (s : ExecState V) (h : s.computed.keys.Nodup) :
    (prune g req deps s).computed.keys.Nodup := by
  unfold prune
  induction deps generalizing s with
  | nil => exact h
  | cons d ds ih =>
    simp only [List.foldl_cons]
    apply ih
    split
    · exact Dict.keys_del_nodup h _
    · exact h

theorem dfs_nodup (inputs overrides : Dict Name V) (req : List Name) (fuel : Nat) (n : Node T V) (dt : DepType)
    (s s' : ExecState V) (hs : s.computed.keys.Nodup) (h : dfs g inputs overrides req fuel n dt s = .ok s') :
    s'.computed.keys.Nodup := by
  induction fuel generalizing n dt s s' with
  | zero => cases h
  | succ fuel ih =>
    unfold dfs at h
    split at h
    · cases h; exact hs
    · split at h
      · cases h
        exact Dict.keys_set_nodup hs _ _
      · have hloop : ∀ (ds : List Name) (s s' : ExecState V), s.computed.keys.Nodup →
            forEach (fun d s =>
              if s.computed.has d then .ok s
              else
                match n.inputTypes.get? d, g.get? d with
                | some (_, t), some dn => dfs g inputs overrides req fuel dn t s
                | _, _ => .err (.keyError d) s) ds s = .ok s' → s'.computed.keys.Nodup := by
          intro ds
          induction ds with
          | nil => intro s s' hs h; cases h; exact hs
          | cons d ds ihd =>
            intro s s' hs h
            unfold forEach at h
            split at h
            · exact ihd _ _ hs h
            · split at h
              · rename_i dn _ _
                cases hd : dfs g inputs overrides req fuel dn _ s with
                | err e s1 => rw [hd] at h; cases h
                | ok s1 => rw [hd] at h; exact ihd _ _ (ih _ _ _ _ hs hd) h
              · cases h
        revert h
        generalize hfe : forEach _ n.dependencies s = o
        cases o with
        | err e s1 => intro h; cases h
        | ok s1 =>
          intro h
          have hs1 := hloop _ _ _ hs hfe
          simp only [Out.bind] at h
          split at h
          · split at h
            · split at h
              · cases h; exact hs1
              · cases h
            · cases h
              exact prune_nodup _ _ _ (Dict.keys_set_nodup hs1 _ _)
          · split at h
            · cases h
            · cases h
              exact prune_nodup _ _ _ (Dict.keys_set_nodup hs1 _ _)

theorem executeSubdag_nodup {nodes : List (Node T V)} {inputs overrides : Dict Name V} {s : ExecState V}
    (h : executeSubdag g nodes inputs overrides = .ok s) : s.computed.keys.Nodup := by
  unfold executeSubdag at h
  suffices H : ∀ (ns : List (Node T V)) (s s' : ExecState V), s.computed.keys.Nodup →
      forEach (fun n s => dfs g inputs overrides (nodes.map (·.name)) (g.length + 1) n
        (if n.userDefined then .optional else .required) s) ns s = .ok s' → s'.computed.keys.Nodup from
    H _ _ _ (by simp [ExecState.init, Dict.keys]) h
  intro ns
  induction ns with
  | nil => intro s s' hs h; cases h; exact hs
  | cons n ns ih =>
    intro s s' hs h
    unfold forEach at h
    generalize hd : dfs g inputs overrides (nodes.map (·.name)) (g.length + 1) n
        (if n.userDefined then .optional else .required) s = o at h
    cases o with
    | err e s1 => cases h
    | ok s1 => exact ih _ _ (dfs_nodup _ _ _ _ _ _ _ _ hs hd) h

theorem executeTask_keys {t : Task T V} {r : Dict Name V} (h : executeTask g t = .ok r) :
    r.keys.Nodup ∧ ∀ k v, r.get? k = some v → k ∈ t.outputs ∨ ∃ w, t.overrides.get? k = some w := by
  unfold executeTask at h
  split at h
  · cases h
  · rename_i s hs
    cases h
    have hn := executeSubdag_nodup hs
    constructor
    · exact hn.sublist (List.filter_sublist.map _)
    · intro k v hv
      have hm := Dict.get?_mem hv
      have := (List.mem_filter.1 hm).2
      simp only [Bool.or_eq_true, List.contains_iff_mem, Dict.has_eq_true_iff] at this
      exact this

/-! ### The invariant -/

/-- Contents of the cache in terms of the trace; `c0` is the initial cache. -/
structure CInv (ops : TaskOps T V) (c0 : Dict Name V) (l : Loop T V) : Prop where
  stored : ∀ id r t k v, .done id r ∈ l.trace → l.sched.pool.get? id = some t → r.get? k = some v →
    ∃ v', t.storedValue ops k v = some v' ∧ l.sched.cache.get? (t.key k) = some v'
  source : ∀ key v', l.sched.cache.get? key = some v' → c0.get? key = some v' ∨
    ∃ id r t k v, .done id r ∈ l.trace ∧ l.sched.pool.get? id = some t ∧ r.get? k = some v ∧ key = t.key k ∧
      t.storedValue ops k v = some v'
  kept : ∀ key v, c0.get? key = some v → ∃ v', l.sched.cache.get? key = some v'

theorem initLoop_cache (specs : List (TaskSpec T V)) (c0 : Dict Name V) : (initLoop specs c0).sched.cache = c0 := by
  unfold initLoop initSched
  simp only
  have h1 : ∀ (ts : List (Task T V)) (s : Sched T V), (ts.foldl Sched.initQueueOne s).cache = s.cache := by
    intro ts
    induction ts with
    | nil => intro s; rfl
    | cons t ts ih =>
      intro s
      simp only [List.foldl_cons]
      rw [ih]
      unfold Sched.initQueueOne
      split <;> rfl
  have h2 : ∀ (ss : List (TaskSpec T V)) (s : Sched T V), (ss.foldl (fun (s : Sched T V) spec =>
      if spec.baseDeps.length = 0 then s.register (mkTask spec none none []) else s) s).cache = s.cache := by
    intro ss
    induction ss with
    | nil => intro s; rfl
    | cons t ss ih =>
      intro s
      simp only [List.foldl_cons]
      rw [ih]
      split <;> rfl
  rw [h1, h2]

theorem CInv.init (c0 : Dict Name V) : CInv ops c0 (initLoop specs c0) where
  stored := by intro id r t k v h; cases h
  source := by intro key v' h; rw [initLoop_cache] at h; exact .inl h
  kept := by intro key v h; rw [initLoop_cache]; exact ⟨v, h⟩

theorem CInv.same {c0 : Dict Name V} {l l' : Loop T V} (h : CInv ops c0 l) (h1 : l'.sched.pool = l.sched.pool)
    (h2 : l'.sched.cache = l.sched.cache) (h3 : ∀ id r, .done id r ∈ l'.trace ↔ .done id r ∈ l.trace) :
    CInv ops c0 l' where
  stored := by
    intro id r t k v a b c
    rw [h1] at b
    rw [h2]
    exact h.stored id r t k v ((h3 _ _).1 a) b c
  source := by
    intro key v' a
    rw [h2] at a
    rcases h.source key v' a with b | ⟨id, r, t, k, v, b1, b2, b3⟩
    · exact .inl b
    · exact .inr ⟨id, r, t, k, v, (h3 _ _).2 b1, by rw [h1]; exact b2, b3⟩
  kept := by intro key v a; rw [h2]; exact h.kept key v a

theorem Realized.result_node {tr : List (Event T V)} (hk : KeysOk specs) {t t0 : Task T V}
    (h : Realized ops specs tr t0) (hc : SameCore t t0) {r : Dict Name V} (hr : executeTask g t = .ok r) {k : Name}
    {v : V} (hv : r.get? k = some v) : ∃ n ∈ t0.nodes, n.name = k := by
  have hspec := h.spec
  have he : t.toTaskSpec = t0.toTaskSpec := hc.1
  rcases (executeTask_keys hr).2 k v hv with h' | ⟨w, h'⟩
  · rw [he] at h'
    exact hk.outputs_in _ hspec k h'
  · rw [he] at h'
    exact hk.overrides_in _ hspec k w h'

/-- A reported result comes from a node of the task. -/
theorem LInv.done_node (hk : KeysOk specs) (hp : PlanOk specs) {l : Loop T V} (h : LInv ops g specs l) {id : Name}
    {r : Dict Name V} (hd : .done id r ∈ l.trace) {t : Task T V} (ht : l.sched.pool.get? id = some t) {k : Name} {v : V}
    (hv : r.get? k = some v) : ∃ n ∈ t.nodes, n.name = k := by
  obtain ⟨pre, post, htr⟩ := List.append_of_mem hd
  obtain ⟨t1, h1, h2, h3⟩ := h.done_ok pre id r post htr
  obtain ⟨pre', post', hpre⟩ := List.append_of_mem h1
  have htr' : l.trace = pre' ++ .submit t1 :: (post' ++ .done id r :: post) := by
    rw [htr, hpre]; simp
  obtain ⟨t0, k1, k2, _⟩ := h.submit_ok pre' t1 _ htr'
  obtain ⟨n, hn, hnk⟩ := k1.result_node hk k2 h3 hv
  refine ⟨n, ?_, hnk⟩
  obtain ⟨hti, htr0⟩ := h.pool_ok id t ht
  have hmono : ∀ i r', Event.done i r' ∈ pre' → Event.done i r' ∈ l.trace := by
    intro i r' hm; rw [htr']; simp [hm]
  have k1' := k1.mono hmono
  have hids : t0.id = t.id := by rw [← k2.id_eq, h2, hti]
  have hspec : t0.toTaskSpec = t.toTaskSpec := by
    cases k1' with
    | static s a1 a2 =>
      cases htr0 with
      | static s' b1 b2 => exact spec_unique hp a1 b1 hids
      | coll s' e x items b1 b2 b3 => exact spec_unique hp a1 b1 hids
      | inst s' e x items i item b1 b2 b3 b4 => exact absurd hids.symm (hp.inst_fresh s' b1 s a1 e i b2)
    | coll s e x items a1 a2 a3 =>
      cases htr0 with
      | static s' b1 b2 => exact spec_unique hp a1 b1 hids
      | coll s' e x items b1 b2 b3 => exact spec_unique hp a1 b1 hids
      | inst s' e x items i item b1 b2 b3 b4 => exact absurd hids.symm (hp.inst_fresh s' b1 s a1 e i b2)
    | inst s e x items i item a1 a2 a3 a4 =>
      cases htr0 with
      | static s' b1 b2 => exact absurd hids (hp.inst_fresh s a1 s' b1 e i a2)
      | coll s' e' x' items' b1 b2 b3 => exact absurd hids (hp.inst_fresh s a1 s' b1 e i a2)
      | inst s' e' x' items' i' item' b1 b2 b3 b4 =>
        exact spec_unique hp a1 b1 (hp.inst_inj s a1 s' b1 e e' i i' a2 b2 hids).2.2
  rw [← hspec]
  exact hn

theorem finish_pool (new : List (Task T V)) (s : Sched T V) (hn : (new.map Task.id).Nodup)
    (hf : ∀ t ∈ new, s.pool.get? t.id = none) :
    (∀ k t, s.pool.get? k = some t → (enqueueReady (new.foldl Sched.register s)).pool.get? k = some t) ∧
    (enqueueReady (new.foldl Sched.register s)).cache = s.cache ∧
    (∀ k t, (enqueueReady (new.foldl Sched.register s)).pool.get? k = some t →
      s.pool.get? k = some t ∨ (t ∈ new ∧ t.id = k)) := by
  obtain ⟨r1, r2, r3, r4, _⟩ := register_fold new s hn
  obtain ⟨e1, e2, e3, _⟩ := enqueueReady_spec (new.foldl Sched.register s)
  refine ⟨?_, by rw [e3, r3], ?_⟩
  · intro k t hk
    rw [e2, r4]
    have : new.find? (fun t => t.id == k) = none := by
      rw [List.find?_eq_none]
      intro x hx
      simp only [beq_iff_eq]
      rintro rfl
      rw [hf x hx] at hk; cases hk
    rw [this]
    exact hk
  · intro k t hk
    rw [e2, r4] at hk
    cases hf' : new.find? (fun t => t.id == k) with
    | none => rw [hf'] at hk; exact .inl hk
    | some t' =>
      rw [hf'] at hk
      simp only [Option.some_or, Option.some.injEq] at hk
      subst hk
      exact .inr ⟨List.mem_of_find?_eq_some hf', by simpa using List.find?_some hf'⟩

/-- The tasks realized by a completion are new. -/
theorem finish_fresh (hlaw : ∀ l, ops.toList (ops.ofList l) = some l) (hp : PlanOk specs)
    {l l' : Loop T V} (h : LInv ops g specs l) {id : Name} (hid : id ∈ l.futures.keys) {r : Dict Name V}
    (hok : finishTask ops l id r = .ok l') :
    ∃ (t : Task T V) (c : Dict Name V) (new : List (Task T V)),
      l.sched.pool.get? id = some t ∧ writeTaskResults ops l.sched.cache t r = .ok c ∧
      l' = { sched := enqueueReady (new.foldl Sched.register
               { l.sched with states := l.sched.states.set id .successful, cache := c }),
             futures := l.futures.del id, trace := l.trace ++ [.done id r] } ∧
      (new.map Task.id).Nodup ∧ ∀ t' ∈ new, l.sched.pool.get? t'.id = none := by
  have hnd : ¬ Done l.trace id := by
    rw [← h.done_iff]
    rcases h.fut_ok id hid with h' | h' <;> rw [h'] <;> simp
  obtain ⟨t, c, new, h1, h2, h3, h4⟩ := finish_form hlaw hp h hok
  refine ⟨t, c, new, h1, h2, h3, ?_⟩
  rcases h4 with ⟨hpe, n, v, items, _, _, _, rfl⟩ | ⟨_, h5, h6⟩
  · refine ⟨expansion_nodup hp _ _ _, ?_⟩
    have hnoy : ∀ x' items', ¬ Yielded ops specs l.trace id x' items' := by
      rintro x' items' ⟨_, _, _, _, _, r', _, hd, _⟩
      exact hnd ⟨r', hd⟩
    intro t' ht'
    cases hpool : l.sched.pool.get? t'.id with
    | none => rfl
    | some t'' =>
      exfalso
      obtain ⟨hii, hrr⟩ := h.pool_ok _ _ hpool
      rcases List.mem_append.1 ht' with ht' | ht'
      · obtain ⟨m, h1, h2, i, item, h3, rfl⟩ := mem_instTasks.1 ht'
        cases hrr with
        | static s' k1 k2 => exact hp.inst_fresh m h1 s' k1 id i h2 hii.symm
        | coll s' e x its k1 k2 k3 => exact hp.inst_fresh m h1 s' k1 id i h2 hii.symm
        | inst s' e x its j item' k1 k2 k3 k4 =>
          have := (hp.inst_inj _ k1 m h1 e id j i k2 h2 hii).1
          subst this
          exact hnoy _ _ k3
      · obtain ⟨c', h1, h2, rfl⟩ := mem_collTasks.1 ht'
        cases hrr with
        | static s' k1 k2 =>
          have := spec_unique hp k1 h1 hii
          subst this
          rw [h2.1] at k2; cases k2
        | coll s' e x its k1 k2 k3 =>
          have := spec_unique hp k1 h1 hii
          subst this
          have : e = id := by have a := k2.1; rw [h2.1] at a; exact (Option.some.inj a).symm
          subst this
          exact hnoy _ _ k3
        | inst s' e x its j item' k1 k2 k3 k4 => exact hp.inst_fresh _ k1 c' h1 e j k2 hii
  · exact ⟨h5, fun t' ht' => (h6 t' ht').1⟩

theorem CInv.finish (hlaw : ∀ l, ops.toList (ops.ofList l) = some l) (hp : PlanOk specs) (hk : KeysOk specs)
    {c0 : Dict Name V} {l l' : Loop T V} (h : LInv ops g specs l) (hc : CInv ops c0 l) {id : Name}
    (hid : id ∈ l.futures.keys) {r : Dict Name V}
    (hr : ∃ t, .submit t ∈ l.trace ∧ t.id = id ∧ executeTask g t = .ok r)
    (hok : finishTask ops l id r = .ok l') : CInv ops c0 l' := by
  have hnd : ¬ Done l.trace id := by
    rw [← h.done_iff]
    rcases h.fut_ok id hid with h' | h' <;> rw [h'] <;> simp
  have hl' := h.finishTask hlaw hp hid hr hok
  obtain ⟨t, c, new, h1, h2, h3, h4, h5⟩ := finish_fresh hlaw hp h hid hok
  obtain ⟨p1, p2, p3⟩ := finish_pool new
    { l.sched with states := l.sched.states.set id .successful, cache := c } h4 h5
  obtain ⟨hti, htr⟩ := h.pool_ok id t h1
  obtain ⟨t1, _, _, hex⟩ := hr
  have hplain : t.purpose = .expand → t.groupId = none ∧ t.spawningTaskId = none := by
    intro hpe
    obtain ⟨s, _, _, rfl⟩ := htr.of_expand hpe
    exact ⟨rfl, rfl⟩
  obtain ⟨w1, w2, w3, w4⟩ := write_spec (executeTask_keys hex).1 hplain h2
  have hpool' : l'.sched.pool.get? id = some t := by rw [h3]; exact p1 id t h1
  have hcache : l'.sched.cache = c := by rw [h3]; exact p2
  have htrace : ∀ i r', .done i r' ∈ l'.trace ↔ (.done i r' ∈ l.trace ∨ (i = id ∧ r' = r)) := by
    intro i r'; rw [h3]; simp
  refine ⟨?_, ?_, ?_⟩
  · intro i r' t' k v a b d
    rw [hcache]
    have hb := hl'.pool_ok i t' b
    rcases (htrace i r').1 a with a' | ⟨rfl, rfl⟩
    · -- an older result is not overwritten
      have hne : i ≠ id := by rintro rfl; exact hnd ⟨r', a'⟩
      have hold : l.sched.pool.get? i = some t' := by
        have : stOf l.sched i = .successful := (h.done_iff i).2 ⟨r', a'⟩
        cases hx : l.sched.pool.get? i with
        | none => have := h.pool_none i hx; simp_all
        | some t2 =>
          have hx2 := p1 i t2 hx
          rw [h3] at b
          rw [hx2] at b
          exact b
      obtain ⟨v', q1, q2⟩ := hc.stored i r' t' k v a' hold d
      refine ⟨v', q1, ?_⟩
      rw [w3]
      · exact q2
      · intro k2 v2 hk2 heq
        obtain ⟨n, hn, rfl⟩ := h.done_node hk hp a' hold d
        obtain ⟨n2, hn2, rfl⟩ := hl'.done_node hk hp ((htrace id r).2 (.inr ⟨rfl, rfl⟩)) hpool' hk2
        have := (key_inj hk (hl'.pool_ok id t hpool').2 hb.2 hp hn2 hn heq).1
        rw [hti, hb.1] at this
        exact hne this.symm
    · rw [hpool'] at b
      cases b
      exact w1 k v d
  · intro key v' hv'
    rw [hcache] at hv'
    rcases w2 key v' hv' with h' | ⟨k, v, q1, q2, q3⟩
    · rcases hc.source key v' h' with h'' | ⟨i, r', t', k, v, q1, q2, q3⟩
      · exact .inl h''
      · refine .inr ⟨i, r', t', k, v, (htrace i r').2 (.inl q1), ?_, q3⟩
        rw [h3]; exact p1 i t' q2
    · exact .inr ⟨id, r, t, k, v, (htrace id r).2 (.inr ⟨rfl, rfl⟩), hpool', q1, q2, q3⟩
  · intro key v hv
    rw [hcache]
    obtain ⟨v1, q1⟩ := hc.kept key v hv
    exact w4 key v1 q1

theorem CInv.act (hlaw : ∀ l, ops.toList (ops.ofList l) = some l) (hp : PlanOk specs) (hk : KeysOk specs)
    {c0 : Dict Name V} {l l' : Loop T V} (h : LInv ops g specs l) (hc : CInv ops c0 l)
    (ha : Act ops g ex l l') : CInv ops c0 l' := by
  have hkk : ∀ id f, l.futures.get? id = some f → id ∈ l.futures.keys := fun id f hf =>
    Dict.mem_keys_iff.2 ⟨f, hf⟩
  cases ha with
  | submitNow t rest t' r h1 h2 h3 h4 => exact hc.same rfl rfl (fun _ _ => done_snoc_submit)
  | submitLater t rest t' h1 h2 h3 => exact hc.same rfl rfl (fun _ _ => done_snoc_submit)
  | reject t rest t' h1 h2 h3 => exact hc.same rfl rfl (fun _ _ => Iff.rfl)
  | running id t h1 => exact hc.same rfl rfl (fun _ _ => Iff.rfl)
  | failed id t h1 => exact hc.same rfl rfl (fun _ _ => Iff.rfl)
  | finishNow _ id r h1 h2 => exact CInv.finish hlaw hp hk h hc (hkk _ _ h1) (h.fut_now id r h1) h2
  | finishLater _ id t r h1 h2 h3 =>
    obtain ⟨a, b⟩ := h.fut_later id t h1
    exact CInv.finish hlaw hp hk h hc (hkk _ _ h1) ⟨t, a, b, h2⟩ h3

end Verif
