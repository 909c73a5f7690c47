import Verif.Proofs.Sched11
import Verif.Proofs.InputVars

/-! The run invariants in terms of the specification vocabulary. -/
namespace Verif
variable {T V : Type}
variable {ops : TaskOps T V} {g : Graph T V} {specs : List (TaskSpec T V)} {ex : Executors}

theorem run_trace (hlaw : ∀ l, ops.toList (ops.ofList l) = some l) (hp : PlanOk specs) (hk : KeysOk specs)
    {c0 : Dict Name V} (hc0 : HasRepeated specs → ∀ key v, c0.get? key = some v → ColonFree key) (cs : List Choice) :
    TInv ops g specs (traceOf (runLoop ops g ex cs (initLoop specs c0))) ∧
    SubmitOk ops g specs c0 (traceOf (runLoop ops g ex cs (initLoop specs c0))) := by
  obtain ⟨h1, h2⟩ := run_ainv (g := g) (ex := ex) hlaw hp hk hc0 cs
  cases hr : runLoop ops g ex cs (initLoop specs c0) with
  | ok l => exact ⟨(h1 l hr).loop.toTInv, (h1 l hr).submit⟩
  | err e l => exact h2 e l hr

theorem SameCore.spec_eq {t t0 : Task T V} (h : SameCore t t0) : t.toTaskSpec = t0.toTaskSpec := h.1

theorem ready_of_realized {pre : List (Event T V)} (hp : PlanOk specs) {t0 : Task T V}
    (h : Realized ops specs pre t0) (hd : ∀ d ∈ t0.deps, Done pre d) :
    ReadyToRun ops specs pre t0.toTaskSpec t0.id := by
  cases h with
  | static s h1 h2 =>
    refine .inl ⟨.inl h2, rfl, fun d hd' => hd d ?_⟩
    exact (mkTask_deps s none none [] d).2 hd'
  | inst s e x items i item h1 h2 h3 h4 =>
    have hi : i < items.length := by
      rw [List.getElem?_eq_some_iff] at h4
      exact h4.1
    exact .inr (.inl ⟨e, x, items, i, h2, h3, hi, rfl, fun d hd' => hd d ((instTask_deps hp h1 h2 d).2 hd')⟩)
  | coll s e x items h1 h2 h3 =>
    refine .inr (.inr ⟨e, x, items, h2, h3, rfl, fun d hd' => ?_⟩)
    by_cases hm : ∃ m ∈ specs, m.MemberOf e ∧ m.baseId = d
    · refine .inl ⟨hm, fun i hi => ?_⟩
      obtain ⟨m, hm1, hm2, rfl⟩ := hm
      exact hd _ ((collTask_deps _).2 (.inl ⟨m, hm1, hm2, hd', i, hi, rfl⟩))
    · exact .inr (hd _ ((collTask_deps _).2 (.inr ⟨hd', hm⟩)))

theorem inputVar_plain (hk : KeysOk specs) (hr : HasRepeated specs) {s : TaskSpec T V} (hs : s ∈ specs) {k : Name}
    (h : k ∈ (getInputVars g s).required ∨ k ∈ (getInputVars g s).optional) : ColonFree k := by
  obtain ⟨h1, h2, _⟩ := getInputVars_spec g s
  rcases h with h | h
  · obtain ⟨n, hn, _, ⟨_, rfl⟩ | ⟨hd, _⟩⟩ := (h1 k).1 h
    · exact hk.names_plain hr s hs n hn
    · exact hk.deps_plain hr s hs n hn k hd
  · obtain ⟨n, hn, _, hd, _⟩ := h2 k h
    exact hk.deps_plain hr s hs n hn k hd

theorem produced_plain {pre : List (Event T V)} {k : Name} (hc : HasRepeated specs → ColonFree k) {v : V}
    (h : Produced ops pre (Realized ops specs pre) k v) :
    ∃ p ∈ specs, (∀ e, ¬ p.MemberOf e) ∧ ∃ r w, .done p.baseId r ∈ pre ∧ r.get? k = some w ∧
      p.storedValue ops k w = some v := by
  obtain ⟨id, r, t, k', w, h1, h2, h3, h4, h5, h6⟩ := h
  cases h2 with
  | static s a b =>
    have hk : k = k' := h5
    subst hk
    refine ⟨s, a, ?_, r, w, by rw [← h3] at h1; exact h1, h4, h6⟩
    intro e he
    rw [TaskSpec.MemberOf, b] at he
    cases he.1
  | inst s e x items i item a b c d =>
    exact absurd h5.symm (formatKey_inst_plain (hc ⟨s, a, e, b⟩))
  | coll s e x items a b c =>
    have hk : k = k' := h5
    subst hk
    refine ⟨s, a, ?_, r, w, by rw [← h3] at h1; exact h1, h4, h6⟩
    intro e he
    exact he.2.2 b.2

theorem legitimate_of_good (hp : PlanOk specs) (hk : KeysOk specs) {c0 : Dict Name V} {pre : List (Event T V)}
    {t0 : Task T V} (hr : Realized ops specs pre t0) {k : Name} {v : V}
    (h : GoodInput ops g specs c0 pre t0 k v) : Legitimate ops specs c0 pre t0.toTaskSpec t0.id k v := by
  rcases h with h | ⟨_, h⟩ | ⟨_, h0, s, e, x, items, vs, h1, h2, h3, h4, h5, h6⟩ | ⟨h1, h2, h3⟩
  · cases hr with
    | static s a b => cases h
    | inst s e x items i item a b c d =>
      have h' : Dict.get? [(x, item)] k = some v := h
      rw [Dict.get?_cons] at h'
      split at h'
      · rename_i hx
        cases h'
        have hx' : x = k := hx
        subst hx'
        exact .inl ⟨e, items, i, b, c, d, rfl⟩
      · cases h'
    | coll s e x items a b c => cases h
  · exact .inr (.inl h)
  · subst h3
    exact .inr (.inr (.inl ⟨e, x, items, vs, h2, h4, h5, h6⟩))
  · refine .inr (.inr (.inr ⟨?_, ?_⟩))
    · rcases h2 with h2 | h2
      · exact .inl h2
      · exact .inr (produced_plain (fun hrep => inputVar_plain hk hrep hr.spec h1) h2)
    · intro p hps hpd hnm r w hd hw
      by_cases hdep : p.baseId ∈ t0.deps
      · exact h3 p hps hdep r w hd hw
      · exfalso
        apply hdep
        cases hr with
        | static s a b => exact (mkTask_deps s none none [] _).2 hpd
        | inst s e x items i item a b c d => exact (instTask_deps hp a b _).2 hpd
        | coll s e x items a b c =>
          refine (collTask_deps _).2 (.inr ⟨hpd, ?_⟩)
          rintro ⟨m, hm, hme, he⟩
          exact hnm e (spec_unique hp hm hps he ▸ hme)

/-- Realized tasks with the same id come from the same specification. -/
theorem realized_same (hp : PlanOk specs) {tr tr' : List (Event T V)} {t t' : Task T V} (h : Realized ops specs tr t)
    (h' : Realized ops specs tr' t') (hid : t.id = t'.id) : t.nodes = t'.nodes ∧ t.toTaskSpec = t'.toTaskSpec := by
  suffices H : t.toTaskSpec = t'.toTaskSpec from ⟨congrArg (·.nodes) H, H⟩
  cases h with
  | static s a b =>
    cases h' with
    | static s' a' b' => exact spec_unique hp a a' hid
    | inst s' e' x' items' i' item' a' b' c' d' => exact absurd hid.symm (hp.inst_fresh s' a' s a e' i' b')
    | coll s' e' x' items' a' b' c' => exact spec_unique hp a a' hid
  | inst s e x items i item a b c d =>
    cases h' with
    | static s' a' b' => exact absurd hid (hp.inst_fresh s a s' a' e i b)
    | inst s' e' x' items' i' item' a' b' c' d' =>
      exact spec_unique hp a a' (hp.inst_inj s a s' a' e e' i i' b b' hid).2.2
    | coll s' e' x' items' a' b' c' => exact absurd hid (hp.inst_fresh s a s' a' e i b)
  | coll s e x items a b c =>
    cases h' with
    | static s' a' b' => exact spec_unique hp a a' hid
    | inst s' e' x' items' i' item' a' b' c' d' => exact absurd hid.symm (hp.inst_fresh s' a' s a e' i' b')
    | coll s' e' x' items' a' b' c' => exact spec_unique hp a a' hid

/-- ... and have the same coordinates. -/
theorem realized_coord (hp : PlanOk specs) {tr tr' : List (Event T V)} {t t' : Task T V} (h : Realized ops specs tr t)
    (h' : Realized ops specs tr' t') (hid : t.id = t'.id) :
    t.groupId = t'.groupId ∧ t.spawningTaskId = t'.spawningTaskId := by
  cases h with
  | static s a b =>
    cases h' with
    | static s' a' b' => exact ⟨rfl, rfl⟩
    | inst s' e' x' items' i' item' a' b' c' d' => exact absurd hid.symm (hp.inst_fresh s' a' s a e' i' b')
    | coll s' e' x' items' a' b' c' => exact ⟨rfl, rfl⟩
  | inst s e x items i item a b c d =>
    cases h' with
    | static s' a' b' => exact absurd hid (hp.inst_fresh s a s' a' e i b)
    | inst s' e' x' items' i' item' a' b' c' d' =>
      obtain ⟨rfl, rfl, _⟩ := hp.inst_inj s a s' a' e e' i i' b b' hid
      exact ⟨rfl, rfl⟩
    | coll s' e' x' items' a' b' c' => exact absurd hid (hp.inst_fresh s a s' a' e i b)
  | coll s e x items a b c =>
    cases h' with
    | static s' a' b' => exact ⟨rfl, rfl⟩
    | inst s' e' x' items' i' item' a' b' c' d' => exact absurd hid.symm (hp.inst_fresh s' a' s a e' i' b')
    | coll s' e' x' items' a' b' c' => exact ⟨rfl, rfl⟩

theorem cacheWrite_other {c r : Dict Name V} {gr sp : Option Name} {key : Name}
    (h : ∀ k ∈ r.keys, formatKey gr sp k ≠ key) : (cacheWrite c r gr sp).get? key = c.get? key := by
  unfold cacheWrite
  induction r generalizing c with
  | nil => rfl
  | cons p r ih =>
    simp only [List.foldl_cons]
    rw [ih (fun k hk => h k (by simp only [Dict.keys, List.map_cons, List.mem_cons]; exact .inr hk)), Dict.get?_set,
      if_neg (h p.1 (by simp [Dict.keys]))]

end Verif
