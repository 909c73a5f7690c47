import Verif.Model.Async
import Verif.Proofs.Stateless
import Verif.Proofs.LifecycleInv
import Verif.Proofs.DriverExec

/-! Facts about the asynchronous driver. -/
namespace Verif
variable {T V : Type}

/-! ### The lifted graph -/

theorem liftGraph_get? (g : Graph T V) (k : Name) : (liftGraph g).get? k = (g.get? k).map liftNode := by
  induction g with
  | nil => rfl
  | cons p g ih =>
    obtain ⟨a, n⟩ := p
    change Dict.get? ((a, liftNode n) :: liftGraph g) k = _
    rw [Dict.get?_cons, Dict.get?_cons]
    split
    · rfl
    · exact ih

theorem liftGraph_some {g : Graph T V} {k : Name} {n' : Node T (AVal V)} (h : (liftGraph g).get? k = some n') :
    ∃ n, g.get? k = some n ∧ n' = liftNode n := by
  rw [liftGraph_get?] at h
  cases hg : g.get? k with
  | none => rw [hg] at h; cases h
  | some n => rw [hg] at h; cases h; exact ⟨n, rfl, rfl⟩

theorem liftGraph_keys (g : Graph T V) : (liftGraph g).keys = g.keys := by
  unfold liftGraph Dict.keys
  rw [List.map_map]; rfl

theorem liftVals_get? (d : Dict Name V) (k : Name) : (liftVals d).get? k = (d.get? k).map .raw := by
  induction d with
  | nil => rfl
  | cons p d ih =>
    obtain ⟨a, v⟩ := p
    change Dict.get? ((a, AVal.raw v) :: liftVals d) k = _
    rw [Dict.get?_cons, Dict.get?_cons]
    split
    · rfl
    · exact ih

theorem liftVals_none {d : Dict Name V} {k : Name} : (liftVals d).get? k = none ↔ d.get? k = none := by
  rw [liftVals_get?]; cases d.get? k <;> simp

theorem lift_wf {g : Graph T V} (hw : WellFormed g) : WellFormed (liftGraph g) where
  keys_nodup := by rw [liftGraph_keys]; exact hw.keys_nodup
  name_eq := by
    intro k n h
    obtain ⟨m, hm, rfl⟩ := liftGraph_some h
    have := hw.name_eq hm
    exact this
  deps_eq := by
    intro k n h
    obtain ⟨m, hm, rfl⟩ := liftGraph_some h
    have := hw.deps_eq hm
    exact this
  params_nodup := by
    intro k n h
    obtain ⟨m, hm, rfl⟩ := liftGraph_some h
    have := hw.params_nodup hm
    exact this
  deps_in := by
    intro k n d h hd
    obtain ⟨m, hm, rfl⟩ := liftGraph_some h
    obtain ⟨dn, hdn⟩ := hw.deps_in hm hd
    exact ⟨liftNode dn, by rw [liftGraph_get?, hdn]; rfl⟩
  consumers := by
    intro d dn h m
    obtain ⟨dn0, hd0, rfl⟩ := liftGraph_some h
    refine (hw.consumers hd0 m).trans ⟨?_, ?_⟩
    · rintro ⟨mn, h1, h2⟩
      exact ⟨liftNode mn, by rw [liftGraph_get?, h1]; rfl, h2⟩
    · rintro ⟨mn, h1, h2⟩
      obtain ⟨m0, hm0, rfl⟩ := liftGraph_some h1
      exact ⟨m0, hm0, h2⟩
  external_no_params := by
    intro k n h hk
    obtain ⟨m, hm, rfl⟩ := liftGraph_some h
    have := hw.external_no_params hm hk
    exact this

theorem lift_acyclic {g : Graph T V} (hac : Acyclic g) : Acyclic (liftGraph g) := by
  obtain ⟨rank, hr⟩ := hac
  refine ⟨rank, ?_⟩
  intro k n h d hd
  obtain ⟨m, hm, rfl⟩ := liftGraph_some h
  exact hr k m hm d hd

section
variable {g : Graph T V} {inputs overrides : Dict Name V}

theorem lift_absent {k : Name} : Absent (liftGraph g) (liftVals inputs) (liftVals overrides) k ↔ Absent g inputs overrides k := by
  constructor
  · rintro ⟨n, h1, h2, h3, h4⟩
    obtain ⟨m, hm, rfl⟩ := liftGraph_some h1
    exact ⟨m, hm, h2, liftVals_none.1 h3, liftVals_none.1 h4⟩
  · rintro ⟨n, h1, h2, h3, h4⟩
    exact ⟨liftNode n, by rw [liftGraph_get?, h1]; rfl, h2, liftVals_none.2 h3, liftVals_none.2 h4⟩

theorem withFn_absent {R : Node T V → Dict Name V → Except UserErr V} {k : Name} :
    Absent (Graph.withFn R g) inputs overrides k ↔ Absent g inputs overrides k := by
  constructor
  · rintro ⟨n, h1, h2, h3, h4⟩
    obtain ⟨m, hm, rfl⟩ := withFn_some R g h1
    exact ⟨m, hm, h2, h3, h4⟩
  · rintro ⟨n, h1, h2, h3, h4⟩
    exact ⟨n.withFn R, by rw [withFn_get?, h1]; rfl, h2, h3, h4⟩

theorem lift_needed {req : List Name} {k : Name} :
    Needed (liftGraph g) (liftVals overrides) req k → Needed g overrides req k := by
  intro h
  induction h with
  | req h => exact .req h
  | param _ ho hg hd ih =>
    obtain ⟨m, hm, rfl⟩ := liftGraph_some hg
    exact .param ih (liftVals_none.1 ho) hm hd

theorem needed_lift {req : List Name} {k : Name} :
    Needed g overrides req k → Needed (liftGraph g) (liftVals overrides) req k := by
  intro h
  induction h with
  | req h => exact .req h
  | @param m mn d _ ho hg hd ih =>
    exact .param (mn := liftNode mn) ih (liftVals_none.2 ho) (by rw [liftGraph_get?, hg]; rfl) hd

end

/-! ### Sorted dictionaries -/

theorem insertKw_perm (p : Name × V) (d : Dict Name V) : (insertKw p d).Perm (p :: d) := by
  induction d with
  | nil => exact .refl _
  | cons q r ih =>
    unfold insertKw
    split
    · exact .refl _
    · exact (ih.cons q).trans (.swap p q r)

theorem sortKw_perm (d : Dict Name V) : (sortKw d).Perm d := by
  induction d with
  | nil => exact .refl _
  | cons p r ih => exact (insertKw_perm p (sortKw r)).trans (ih.cons p)

theorem keys_nodup_perm {d e : Dict Name V} (h : d.Perm e) (he : e.keys.Nodup) : d.keys.Nodup :=
  ((h.map (fun p : Name × V => p.1)).nodup_iff).2 he

theorem kw_get?_perm {d e : Dict Name V} (h : d.Perm e) (he : e.keys.Nodup) (k : Name) : d.get? k = e.get? k := by
  cases hd : d.get? k with
  | some v => exact (Dict.get?_of_mem he (h.mem_iff.1 (Dict.get?_mem hd))).symm
  | none =>
    cases hk : e.get? k with
    | none => rfl
    | some v =>
      rw [Dict.get?_of_mem (keys_nodup_perm h he) (h.mem_iff.2 (Dict.get?_mem hk))] at hd
      cases hd

theorem sortKw_get? {d : Dict Name V} (hd : d.keys.Nodup) (k : Name) : (sortKw d).get? k = d.get? k :=
  kw_get?_perm (sortKw_perm d) hd k

/-! ### Awaiting -/

/-- The value of an awaitable, if it has finished without an exception. -/
def avalOf (st : Dict Name (TaskSt V)) : AVal V → Option V
  | .raw v => some v
  | .task t => match st.get? t with
    | some (.done (.ok v)) => some v
    | _ => none

theorem awaitAll_some {st : Dict Name (TaskSt V)} : ∀ {kw : Dict Name (AVal V)} {args : Dict Name V}, awaitAll st kw = some args →
    (∀ p ∈ kw, ∃ v, avalOf st p.2 = some v) ∧ args = kw.filterMap (fun p => (avalOf st p.2).map (fun v => (p.1, v))) := by
  intro kw
  induction kw with
  | nil => intro args h; cases h; exact ⟨by simp, rfl⟩
  | cons p kw ih =>
    intro args h
    obtain ⟨k, a⟩ := p
    have key : ∃ v rest, avalOf st a = some v ∧ awaitAll st kw = some rest ∧ args = (k, v) :: rest := by
      cases a with
      | raw v =>
        simp only [awaitAll, Option.map_eq_some_iff] at h
        obtain ⟨r, h1, h2⟩ := h
        exact ⟨v, r, rfl, h1, h2.symm⟩
      | task t =>
        simp only [awaitAll] at h
        simp only [avalOf]
        cases hs : st.get? t with
        | none => rw [hs] at h; cases h
        | some x =>
          rw [hs] at h
          cases x with
          | waiting => cases h
          | running _ => cases h
          | done r =>
            cases r with
            | error e => cases h
            | ok v =>
              simp only [Option.map_eq_some_iff] at h
              obtain ⟨r, h1, h2⟩ := h
              exact ⟨v, r, rfl, h1, h2.symm⟩
    obtain ⟨v, rest, h1, h2, rfl⟩ := key
    obtain ⟨h3, rfl⟩ := ih h2
    refine ⟨?_, ?_⟩
    · intro q hq
      rcases List.mem_cons.1 hq with rfl | hq
      · exact ⟨v, h1⟩
      · exact h3 q hq
    · rw [List.filterMap_cons, h1]; rfl

theorem awaitAll_none {st : Dict Name (TaskSt V)} : ∀ {kw : Dict Name (AVal V)}, awaitAll st kw = none →
    ∃ k t, (k, AVal.task t) ∈ kw ∧ avalOf st (.task t) = none := by
  intro kw
  induction kw with
  | nil => intro h; cases h
  | cons p kw ih =>
    intro h
    obtain ⟨k, a⟩ := p
    cases a with
    | raw v =>
      simp only [awaitAll, Option.map_eq_none_iff] at h
      obtain ⟨k', t, h1, h2⟩ := ih h
      exact ⟨k', t, by simp [h1], h2⟩
    | task t =>
      cases hv : avalOf st (.task t) with
      | none => exact ⟨k, t, by simp, hv⟩
      | some v =>
        simp only [awaitAll] at h
        simp only [avalOf] at hv
        cases hs : st.get? t with
        | none => rw [hs] at hv; cases hv
        | some x =>
          rw [hs] at h hv
          cases x with
          | waiting => cases hv
          | running _ => cases hv
          | done r =>
            cases r with
            | error e => cases hv
            | ok w =>
              simp only [Option.map_eq_none_iff] at h
              obtain ⟨k', t', h1, h2⟩ := ih h
              exact ⟨k', t', by simp [h1], h2⟩

theorem awaitErr_some {st : Dict Name (TaskSt V)} {kw : Dict Name (AVal V)} {k : Name} {e : UserErr} (h : awaitErr st kw k = some e) :
    ∃ t, kw.get? k = some (.task t) ∧ st.get? t = some (.done (.error e)) := by
  unfold awaitErr at h
  cases hk : kw.get? k with
  | none => rw [hk] at h; cases h
  | some a =>
    rw [hk] at h
    cases a with
    | raw v => cases h
    | task t =>
      dsimp only at h
      cases hs : st.get? t with
      | none => rw [hs] at h; cases h
      | some x =>
        rw [hs] at h
        cases x with
        | waiting => cases h
        | running _ => cases h
        | done r =>
          cases r with
          | ok v => cases h
          | error e' => cases h; exact ⟨t, rfl, hs⟩

/-! ### What the first phase gives -/

/-- The functions as the asynchronous driver calls them: with keyword arguments sorted by name. -/
def Graph.sorted (g : Graph T V) : Graph T V := Graph.withFn (fun n kw => n.fn (sortKw kw)) g

section
variable (g : Graph T V) (inputs overrides : Dict Name V) (finalVars : List Name)

/-- What an entry of `computed` stands for. -/
def Stands (tasks : List Name) (k : Name) (a : AVal V) : Prop :=
  (∃ v, a = .raw v ∧ Den g.sorted inputs overrides k v) ∨
    (a = .task k ∧ k ∈ tasks ∧ (∃ n, g.get? k = some n ∧ n.kind ≠ .external) ∧ overrides.get? k = none)

/-- The tasks and what is awaited. -/
structure ProgOk (p : AsyncProg V) : Prop where
  nodup : p.tasks.keys.Nodup
  task : ∀ k kw, p.tasks.get? k = some kw → Needed g overrides finalVars k ∧ overrides.get? k = none ∧
    ∃ n, g.get? k = some n ∧ n.kind ≠ .external ∧ ∃ val : Name → Option (AVal V), kw = argsFor n.inputTypes val ∧
      (∀ d a, d ∈ n.inputTypes.keys → val d = some a → Stands g inputs overrides p.tasks.keys d a) ∧
      (∀ d t, (d, t) ∈ n.inputTypes → val d = none → t.2 = .optional ∧ Absent g inputs overrides d)
  acc : ∀ k ∈ p.tasks.keys, Acc (fun b a => LiveEdge g overrides a b) k
  final_nodup : p.final.keys.Nodup
  final_keys : ∀ k, k ∈ p.final.keys ↔ k ∈ finalVars
  final : ∀ k a, p.final.get? k = some a → Stands g inputs overrides p.tasks.keys k a

/-- An exception of a needed function called with the right arguments. -/
def Cause (e : UserErr) : Prop :=
  ∃ m n kw, Needed g overrides finalVars m ∧ overrides.get? m = none ∧ g.get? m = some n ∧ n.kind ≠ .external ∧
    RightArgs g.sorted inputs overrides n kw ∧ n.fn (sortKw kw) = .error e

/-- The invariant of the event loop. -/
structure AsyncInv (p : AsyncProg V) (s : AState V) : Prop where
  keys : s.st.keys = p.tasks.keys
  running : ∀ k n args, g.get? k = some n → s.st.get? k = some (.running args) →
    ∃ kw, RightArgs g.sorted inputs overrides n kw ∧ args = sortKw kw
  value : ∀ k v, s.st.get? k = some (.done (.ok v)) → Den g.sorted inputs overrides k v
  error : ∀ k e, s.st.get? k = some (.done (.error e)) →
    (∀ v, ¬ Den g.sorted inputs overrides k v) ∧ Cause g inputs overrides finalVars e
  main_ok : ∀ out, s.main = some (.ok out) → out.keys.Nodup ∧ (∀ k, k ∈ out.keys ↔ k ∈ finalVars) ∧
    ∀ k v, out.get? k = some v → Den g.sorted inputs overrides k v
  main_err : ∀ e, s.main = some (.error e) →
    (∃ k ∈ finalVars, ∀ v, ¬ Den g.sorted inputs overrides k v) ∧ Cause g inputs overrides finalVars e
  calls_nodup : (s.calls.map (·.1)).Nodup
  calls_started : ∀ c ∈ s.calls, s.st.get? c.1 ≠ some .waiting
  calls_ok : ∀ c ∈ s.calls, Needed g overrides finalVars c.1 ∧ overrides.get? c.1 = none ∧
    ∃ n kw, g.get? c.1 = some n ∧ n.kind ≠ .external ∧ RightArgs g.sorted inputs overrides n kw ∧ c.2 = sortKw kw

end

section
variable {g : Graph T V} {inputs overrides : Dict Name V} {finalVars : List Name} {p : AsyncProg V}

theorem argsFor_keys_nodup {params : Dict Name (T × DepType)} (h : params.keys.Nodup) (val : Name → Option V) :
    (argsFor params val).keys.Nodup := by
  have hsub : ∀ l : Dict Name (T × DepType), (argsFor l val).keys.Sublist l.keys := by
    intro l
    induction l with
    | nil => exact .slnil
    | cons q l ih =>
      unfold argsFor at ih ⊢
      rw [List.filterMap_cons]
      cases val q.1 with
      | none => exact .cons _ ih
      | some v => exact .cons_cons _ ih
  exact (hsub params).nodup h

theorem argsFor_mem {params : Dict Name (T × DepType)} {val : Name → Option V} {d : Name} {v : V} (h : (d, v) ∈ argsFor params val) :
    d ∈ params.keys ∧ val d = some v := by
  obtain ⟨q, hq, he⟩ := List.mem_filterMap.1 h
  simp only [Option.map_eq_some_iff, Prod.mk.injEq] at he
  obtain ⟨w, h1, h2, h3⟩ := he
  subst h2 h3
  exact ⟨List.mem_map.2 ⟨q, hq, rfl⟩, h1⟩

/-- Awaiting arguments gives the right arguments. -/
theorem awaitAll_right {s : AState V} (hi : AsyncInv g inputs overrides finalVars p s) {n : Node T V} {val : Name → Option (AVal V)}
    (h1 : ∀ d a, d ∈ n.inputTypes.keys → val d = some a → Stands g inputs overrides p.tasks.keys d a)
    (h2 : ∀ d t, (d, t) ∈ n.inputTypes → val d = none → t.2 = .optional ∧ Absent g inputs overrides d) {args : Dict Name V}
    (h : awaitAll s.st (argsFor n.inputTypes val) = some args) : RightArgs g.sorted inputs overrides n args := by
  obtain ⟨h3, rfl⟩ := awaitAll_some h
  refine ⟨fun d => (val d).bind (avalOf s.st), ?_, ?_, ?_⟩
  · intro d w hd hw
    cases hv : val d with
    | none => dsimp only at hw; rw [hv] at hw; cases hw
    | some a =>
      dsimp only at hw
      rw [hv, Option.bind_some] at hw
      rcases h1 d a hd hv with ⟨v, rfl, hden⟩ | ⟨rfl, _, _⟩
      · cases hw; exact hden
      · simp only [avalOf] at hw
        cases hs : s.st.get? d with
        | none => rw [hs] at hw; cases hw
        | some x =>
          rw [hs] at hw
          cases x with
          | waiting => cases hw
          | running _ => cases hw
          | done r =>
            cases r with
            | error e => cases hw
            | ok v => cases hw; exact hi.value d w hs
  · intro d t hd hw
    cases hv : val d with
    | none =>
      obtain ⟨a, b⟩ := h2 d t hd hv
      exact ⟨a, withFn_absent.2 b⟩
    | some a =>
      exfalso
      have hm : (d, a) ∈ argsFor n.inputTypes val := List.mem_filterMap.2 ⟨(d, t), hd, by rw [hv]; rfl⟩
      obtain ⟨v, hv'⟩ := h3 (d, a) hm
      dsimp only at hw hv'
      rw [hv, Option.bind_some, hv'] at hw
      cases hw
  · unfold argsFor
    rw [List.filterMap_filterMap]
    congr 1
    funext q
    dsimp only
    cases val q.1 with
    | none => rfl
    | some a => rfl

/-- Right arguments are unique. -/
theorem RightArgs.det {n : Node T V} {kw kw' : Dict Name V} (h : RightArgs g inputs overrides n kw) (h' : RightArgs g inputs overrides n kw') :
    kw = kw' := by
  obtain ⟨val, h1, h2, rfl⟩ := h
  obtain ⟨val', h1', h2', rfl⟩ := h'
  exact args_unique h1 h2 h1' h2' (fun d w w' hd e1 e2 => (h1 d w hd e1).det (h1' d w' hd e2))

theorem RightArgs.den {k : Name} {n : Node T V} {kw : Dict Name V} {v : V} (hn : g.get? k = some n) (hk : n.kind ≠ .external)
    (ho : overrides.get? k = none) (h : RightArgs g.sorted inputs overrides n kw) (hf : n.fn (sortKw kw) = .ok v) :
    Den g.sorted inputs overrides k v := by
  obtain ⟨val, h1, h2, rfl⟩ := h
  exact .call (n := n.withFn (fun n kw => n.fn (sortKw kw))) val (by unfold Graph.sorted; rw [withFn_get?, hn]; rfl) ho hk h1 h2 hf

theorem RightArgs.not_den {k : Name} {n : Node T V} {kw : Dict Name V} {e : UserErr} (hn : g.get? k = some n) (hk : n.kind ≠ .external)
    (ho : overrides.get? k = none) (h : RightArgs g.sorted inputs overrides n kw) (hf : n.fn (sortKw kw) = .error e) (v : V) :
    ¬ Den g.sorted inputs overrides k v := by
  intro hd
  cases hd with
  | override _ h2 => rw [ho] at h2; cases h2
  | input h1 _ h3 _ =>
    obtain ⟨m, hm, rfl⟩ := withFn_some _ g h1
    rw [hn] at hm; cases hm
    exact hk h3
  | call val h1 _ _ h4 h5 h6 =>
    obtain ⟨m, hm, rfl⟩ := withFn_some _ g h1
    rw [hn] at hm; cases hm
    have := h.det ⟨val, h4, h5, rfl⟩
    subst this
    have h6' : n.fn (sortKw (argsFor n.inputTypes val)) = .ok v := h6
    rw [hf] at h6'; cases h6'

/-- A parameter without a value. -/
theorem param_not_den {k d : Name} {n : Node T V} (hn : g.get? k = some n) (hk : n.kind ≠ .external)
    (ho : overrides.get? k = none) (hd : d ∈ n.inputTypes.keys) (hdn : ∃ m, g.get? d = some m ∧ m.kind ≠ .external)
    (hno : ∀ v, ¬ Den g.sorted inputs overrides d v) (v : V) : ¬ Den g.sorted inputs overrides k v := by
  intro hden
  cases hden with
  | override _ h2 => rw [ho] at h2; cases h2
  | input h1 _ h3 _ =>
    obtain ⟨m, hm, rfl⟩ := withFn_some _ g h1
    rw [hn] at hm; cases hm
    exact hk h3
  | call val h1 _ _ h4 h5 h6 =>
    obtain ⟨m, hm, rfl⟩ := withFn_some _ g h1
    rw [hn] at hm; cases hm
    cases hv : val d with
    | some w => exact hno w (h4 d w hd hv)
    | none =>
      obtain ⟨q, hq, rfl⟩ := List.mem_map.1 hd
      obtain ⟨m, hm, he, _⟩ := withFn_absent.1 (h5 q.1 q.2 hq hv).2
      obtain ⟨m', hm', he'⟩ := hdn
      rw [hm] at hm'; cases hm'
      exact he' he

theorem keys_set_same {W : Type} {d : Dict Name W} {k : Name} {w w' : W} (h : d.get? k = some w') : (d.set k w).keys = d.keys :=
  Dict.keys_set_of_mem (Dict.mem_keys_iff.2 ⟨w', h⟩) w

theorem AsyncInv.init (p : AsyncProg V) : AsyncInv g inputs overrides finalVars p (AState.init p) := by
  have hst : ∀ k x, (AState.init p).st.get? k = some x → x = .waiting := by
    intro k x h
    have := Dict.get?_mem h
    obtain ⟨q, _, hq⟩ := List.mem_map.1 this
    cases hq; rfl
  constructor
  · simp [AState.init, Dict.keys, Function.comp_def]
  · intro k n args _ h; cases hst _ _ h
  · intro k v h; cases hst _ _ h
  · intro k v h; cases hst _ _ h
  · intro out h; cases h
  · intro out h; cases h
  · simp [AState.init]
  · simp [AState.init]
  · simp [AState.init]

/-- Replacing the state of one task. -/
theorem AsyncInv.set {s : AState V} (hi : AsyncInv g inputs overrides finalVars p s) {k : Name} {x y : TaskSt V}
    (hk : s.st.get? k = some y) (hx : x ≠ .waiting)
    (h1 : ∀ n args, g.get? k = some n → x = .running args → ∃ kw, RightArgs g.sorted inputs overrides n kw ∧ args = sortKw kw)
    (h2 : ∀ v, x = .done (.ok v) → Den g.sorted inputs overrides k v)
    (h3 : ∀ e, x = .done (.error e) → (∀ v, ¬ Den g.sorted inputs overrides k v) ∧ Cause g inputs overrides finalVars e) :
    AsyncInv g inputs overrides finalVars p { s with st := s.st.set k x } := by
  constructor
  · dsimp only; rw [keys_set_same hk]; exact hi.keys
  · intro j n args hn hj
    dsimp only at hj
    rw [Dict.get?_set] at hj
    by_cases he : k = j
    · subst he; rw [if_pos rfl] at hj; exact h1 n args hn (Option.some.inj hj)
    · rw [if_neg he] at hj; exact hi.running j n args hn hj
  · intro j v hj
    dsimp only at hj
    rw [Dict.get?_set] at hj
    by_cases he : k = j
    · subst he; rw [if_pos rfl] at hj; exact h2 v (Option.some.inj hj)
    · rw [if_neg he] at hj; exact hi.value j v hj
  · intro j v hj
    dsimp only at hj
    rw [Dict.get?_set] at hj
    by_cases he : k = j
    · subst he; rw [if_pos rfl] at hj; exact h3 v (Option.some.inj hj)
    · rw [if_neg he] at hj; exact hi.error j v hj
  · exact hi.main_ok
  · exact hi.main_err
  · exact hi.calls_nodup
  · intro c hc
    dsimp only
    rw [Dict.get?_set]
    by_cases he : k = c.1
    · rw [if_pos he]; intro h; exact hx (Option.some.inj h)
    · rw [if_neg he]; exact hi.calls_started c hc
  · exact hi.calls_ok

theorem AsyncInv.step (hp : ProgOk g inputs overrides finalVars p) {s s' : AState V} {c : AChoice}
    (hi : AsyncInv g inputs overrides finalVars p s) (h : astep g p s c = some s') : AsyncInv g inputs overrides finalVars p s' := by
  cases c with
  | start k =>
    unfold astep at h
    dsimp only at h
    cases hkw : p.tasks.get? k with
    | none => rw [hkw] at h; cases h
    | some kw =>
      cases hst : s.st.get? k with
      | none => rw [hkw, hst] at h; cases h
      | some x =>
        rw [hkw, hst] at h
        cases x with
        | running _ => cases h
        | done _ => cases h
        | waiting =>
          simp only [Option.map_eq_some_iff] at h
          obtain ⟨args, ha, rfl⟩ := h
          obtain ⟨hneed, ho, n, hn, hk, val, rfl, h1, h2⟩ := hp.task k kw hkw
          have hr := awaitAll_right hi h1 h2 ha
          have hi' := hi.set (x := .running (sortKw args)) hst (by simp)
            (by intro n' args' hn' he; rw [hn] at hn'; cases hn'; cases he; exact ⟨args, hr, rfl⟩)
            (by intro v he; cases he) (by intro e he; cases he)
          constructor
          · exact hi'.keys
          · exact hi'.running
          · exact hi'.value
          · exact hi'.error
          · exact hi'.main_ok
          · exact hi'.main_err
          · dsimp only
            rw [List.map_append, List.nodup_append]
            refine ⟨hi.calls_nodup, by simp, ?_⟩
            intro a ha b hb hab
            simp only [List.map_cons, List.map_nil, List.mem_singleton] at hb
            subst hb hab
            obtain ⟨c, hc, rfl⟩ := List.mem_map.1 ha
            exact hi.calls_started c hc hst
          · intro c hc
            rcases List.mem_append.1 hc with hc | hc
            · exact hi'.calls_started c hc
            · simp only [List.mem_singleton] at hc
              subst hc
              dsimp only
              rw [Dict.get?_set_self]; simp
          · intro c hc
            rcases List.mem_append.1 hc with hc | hc
            · exact hi.calls_ok c hc
            · simp only [List.mem_singleton] at hc
              subst hc
              exact ⟨hneed, ho, n, args, hn, hk, hr, rfl⟩
  | fail k d =>
    unfold astep at h
    dsimp only at h
    cases hkw : p.tasks.get? k with
    | none => rw [hkw] at h; cases h
    | some kw =>
      cases hst : s.st.get? k with
      | none => rw [hkw, hst] at h; cases h
      | some x =>
        rw [hkw, hst] at h
        cases x with
        | running _ => cases h
        | done _ => cases h
        | waiting =>
          simp only [Option.map_eq_some_iff] at h
          obtain ⟨e, he, rfl⟩ := h
          obtain ⟨t, ht, hte⟩ := awaitErr_some he
          obtain ⟨hneed, ho, n, hn, hk, val, rfl, h1, h2⟩ := hp.task k kw hkw
          obtain ⟨hd, hv⟩ := argsFor_mem (Dict.get?_mem ht)
          rcases h1 d _ hd hv with ⟨v, hc, _⟩ | ⟨hc, _, hdn, _⟩
          · cases hc
          · cases hc
            obtain ⟨hno, hcause⟩ := hi.error _ _ hte
            exact hi.set hst (by simp) (by intro n args _ hx; cases hx) (by intro v hx; cases hx)
              (by intro e' hx; cases hx; exact ⟨param_not_den hn hk ho hd hdn hno, hcause⟩)
  | finish k =>
    unfold astep at h
    dsimp only at h
    cases hst : s.st.get? k with
    | none => rw [hst] at h; cases h
    | some x =>
      cases hn : g.get? k with
      | none => rw [hst, hn] at h; cases x <;> cases h
      | some n =>
        rw [hst, hn] at h
        cases x with
        | waiting => cases h
        | done _ => cases h
        | running args =>
          cases h
          obtain ⟨kw, hr, rfl⟩ := hi.running k n args hn hst
          have hmem : k ∈ p.tasks.keys := by rw [← hi.keys]; exact Dict.mem_keys_iff.2 ⟨_, hst⟩
          obtain ⟨kw0, hkw0⟩ := Dict.mem_keys_iff.1 hmem
          obtain ⟨hneed, ho, n', hn', hk, _⟩ := hp.task k kw0 hkw0
          rw [hn] at hn'; cases hn'
          exact hi.set hst (by simp) (by intro n args _ hx; cases hx)
            (by intro v hx; exact RightArgs.den hn hk ho hr (TaskSt.done.inj hx))
            (by
              intro e hx
              exact ⟨RightArgs.not_den hn hk ho hr (TaskSt.done.inj hx), k, n, kw, hneed, ho, hn, hk, hr, TaskSt.done.inj hx⟩)
  | mainOk =>
    unfold astep at h
    dsimp only at h
    cases hm : s.main with
    | some r => rw [hm] at h; cases h
    | none =>
      rw [hm] at h
      simp only [Option.map_eq_some_iff] at h
      obtain ⟨out, ho, rfl⟩ := h
      obtain ⟨h1, hout⟩ := awaitAll_some ho
      have hkeys : out.keys = p.final.keys := by
        rw [hout]
        clear ho hout
        generalize p.final = l at h1
        induction l with
        | nil => rfl
        | cons q l ih =>
          obtain ⟨v, hv⟩ := h1 q (by simp)
          rw [List.filterMap_cons, hv]
          simp only [Option.map_some, Dict.keys_cons]
          rw [ih (fun r hr => h1 r (by simp [hr]))]
          rfl
      have hnod : out.keys.Nodup := by rw [hkeys]; exact hp.final_nodup
      refine { hi with main_ok := ?_, main_err := ?_ }
      · intro out' he
        simp only [Option.some.injEq, Except.ok.injEq] at he
        subst he
        refine ⟨keys_nodup_perm (sortKw_perm out) hnod, ?_, ?_⟩
        · intro k
          rw [← hp.final_keys, ← hkeys]
          exact ((sortKw_perm out).map (·.1)).mem_iff
        · intro k v hk
          rw [sortKw_get? hnod] at hk
          have := Dict.get?_mem hk
          rw [hout] at this
          obtain ⟨q, hq, he⟩ := List.mem_filterMap.1 this
          simp only [Option.map_eq_some_iff, Prod.mk.injEq] at he
          obtain ⟨w, e1, e2, e3⟩ := he
          subst e2 e3
          rcases hp.final q.1 q.2 (Dict.get?_of_mem hp.final_nodup hq) with ⟨v, hc, hd⟩ | ⟨hc, _⟩
          · rw [hc] at e1; cases e1; exact hd
          · rw [hc] at e1
            simp only [avalOf] at e1
            cases hs : s.st.get? q.1 with
            | none => rw [hs] at e1; cases e1
            | some x =>
              rw [hs] at e1
              cases x with
              | waiting => cases e1
              | running _ => cases e1
              | done r =>
                cases r with
                | error e => cases e1
                | ok v => cases e1; exact hi.value _ _ hs
      · intro e he; cases he
  | mainErr d =>
    unfold astep at h
    dsimp only at h
    cases hm : s.main with
    | some r => rw [hm] at h; cases h
    | none =>
      rw [hm] at h
      simp only [Option.map_eq_some_iff] at h
      obtain ⟨e, he, rfl⟩ := h
      obtain ⟨t, ht, hte⟩ := awaitErr_some he
      refine { hi with main_ok := ?_, main_err := ?_ }
      · intro out' he; cases he
      · intro e' he'
        cases he'
        obtain ⟨hno, hcause⟩ := hi.error _ _ hte
        rcases hp.final d _ ht with ⟨v, hc, _⟩ | ⟨hc, _⟩
        · cases hc
        · cases hc
          exact ⟨⟨d, (hp.final_keys d).1 (Dict.mem_keys_iff.2 ⟨_, ht⟩), hno⟩, hcause⟩

theorem AsyncInv.run (hp : ProgOk g inputs overrides finalVars p) : ∀ {cs : List AChoice} {s s' : AState V},
    AsyncInv g inputs overrides finalVars p s → arun g p cs s = some s' → AsyncInv g inputs overrides finalVars p s' := by
  intro cs
  induction cs with
  | nil => intro s s' hi h; cases h; exact hi
  | cons c cs ih =>
    intro s s' hi h
    unfold arun at h
    cases hs : astep g p s c with
    | none => rw [hs] at h; cases h
    | some s1 => rw [hs] at h; exact ih (hi.step hp hs) h

/-! ### Progress and termination -/

/-- A task that has not finished can go on, or a task before it can. -/
theorem task_progress (hp : ProgOk g inputs overrides finalVars p) {s : AState V}
    (hi : AsyncInv g inputs overrides finalVars p s) (k : Name) (hk : k ∈ p.tasks.keys)
      (hnd : ∀ x, s.st.get? k ≠ some (.done x)) : ∃ c s', astep g p s c = some s' := by
  have hacc := hp.acc k hk
  induction hacc with
  | intro k _ ih =>
    obtain ⟨kw, hkw⟩ := Dict.mem_keys_iff.1 hk
    obtain ⟨x, hx⟩ := Dict.mem_keys_iff.1 (by rw [hi.keys]; exact hk : k ∈ s.st.keys)
    obtain ⟨_, hov, n, hn, _, val, rfl, h1, _⟩ := hp.task k kw hkw
    cases x with
    | done y => exact absurd hx (hnd y)
    | running args => exact ⟨.finish k, _, by simp only [astep, hx, hn]; rfl⟩
    | waiting =>
      cases ha : awaitAll s.st (argsFor n.inputTypes val) with
      | some args => exact ⟨.start k, _, by simp only [astep, hkw, hx, ha, Option.map_some]; rfl⟩
      | none =>
        obtain ⟨d, t, hdt, hv⟩ := awaitAll_none ha
        obtain ⟨hd, hval⟩ := argsFor_mem hdt
        rcases h1 d _ hd hval with ⟨v, hc, _⟩ | ⟨hc, hmem, _, _⟩
        · cases hc
        · cases hc
          obtain ⟨y, hy⟩ := Dict.mem_keys_iff.1 (by rw [hi.keys]; exact hmem : d ∈ s.st.keys)
          have hrec : (∀ x, s.st.get? d ≠ some (.done x)) → ∃ c s', astep g p s c = some s' := fun h =>
            ih d ⟨hov, n, hn, hd⟩ hmem h
          cases y with
          | waiting => exact hrec (by intro z hz; rw [hy] at hz; cases hz)
          | running _ => exact hrec (by intro z hz; rw [hy] at hz; cases hz)
          | done res =>
            cases res with
            | ok v => simp only [avalOf, hy] at hv; cases hv
            | error e =>
              have hget : Dict.get? (argsFor n.inputTypes val) d = some (.task d) := by
                cases hg : Dict.get? (argsFor n.inputTypes val) d with
                | none =>
                  exact absurd (List.mem_map.2 ⟨_, hdt, rfl⟩) ((Dict.get?_eq_none_iff _ _).1 hg)
                | some a =>
                  have := (argsFor_mem (Dict.get?_mem hg)).2
                  rw [hval] at this; cases this; rfl
              exact ⟨.fail k d, _, by simp only [astep, hkw, hx, awaitErr, hget, hy, Option.map_some]; rfl⟩

theorem progress (hp : ProgOk g inputs overrides finalVars p) {s : AState V}
    (hi : AsyncInv g inputs overrides finalVars p s) (hm : s.main = none) : ∃ c s', astep g p s c = some s' := by
  cases ha : awaitAll s.st p.final with
  | some out => exact ⟨.mainOk, _, by simp only [astep, hm, ha, Option.map_some]; rfl⟩
  | none =>
    obtain ⟨d, t, hdt, hv⟩ := awaitAll_none ha
    have hget := Dict.get?_of_mem hp.final_nodup hdt
    rcases hp.final d _ hget with ⟨v, hc, _⟩ | ⟨hc, hmem, _, _⟩
    · cases hc
    · cases hc
      obtain ⟨y, hy⟩ := Dict.mem_keys_iff.1 (by rw [hi.keys]; exact hmem : d ∈ s.st.keys)
      cases y with
      | waiting => exact task_progress hp hi d hmem (by intro z hz; rw [hy] at hz; cases hz)
      | running _ => exact task_progress hp hi d hmem (by intro z hz; rw [hy] at hz; cases hz)
      | done res =>
        cases res with
        | ok v => simp only [avalOf, hy] at hv; cases hv
        | error e => exact ⟨.mainErr d, _, by simp only [astep, hm, awaitErr, hget, hy, Option.map_some]; rfl⟩

/-- How many steps a task has left at most. -/
def TaskSt.left : TaskSt V → Nat
  | .waiting => 2
  | .running _ => 1
  | .done _ => 0

/-- How many steps are left at most. -/
def AState.left (s : AState V) : Nat :=
  (s.st.map (·.2.left)).sum + (match s.main with | none => 1 | some _ => 0)

theorem left_set {d : Dict Name (TaskSt V)} {k : Name} {x y : TaskSt V} (h : d.get? k = some y) :
    ((d.set k x).map (·.2.left)).sum + y.left = (d.map (·.2.left)).sum + x.left := by
  induction d with
  | nil => cases h
  | cons q d ih =>
    obtain ⟨a, z⟩ := q
    rw [Dict.get?_cons] at h
    unfold Dict.set
    by_cases he : a = k
    · rw [if_pos he] at h ⊢
      cases h
      simp only [List.map_cons, List.sum_cons]
      omega
    · rw [if_neg he] at h ⊢
      have := ih h
      simp only [List.map_cons, List.sum_cons]
      omega

theorem left_step {s s' : AState V} {c : AChoice} (h : astep g p s c = some s') : s'.left < s.left := by
  have key : ∀ {k : Name} {x y : TaskSt V} (calls : List (Name × Dict Name V)), s.st.get? k = some y → x.left < y.left →
      AState.left { s with st := s.st.set k x, calls := calls } < s.left := by
    intro k x y calls hk hlt
    have := left_set (x := x) hk
    unfold AState.left
    dsimp only
    omega
  cases c with
  | start k =>
    unfold astep at h
    dsimp only at h
    cases hkw : p.tasks.get? k with
    | none => rw [hkw] at h; cases h
    | some kw =>
      cases hst : s.st.get? k with
      | none => rw [hkw, hst] at h; cases h
      | some x =>
        rw [hkw, hst] at h
        cases x with
        | running _ => cases h
        | done _ => cases h
        | waiting =>
          simp only [Option.map_eq_some_iff] at h
          obtain ⟨args, ha, rfl⟩ := h
          exact key _ hst (by simp [TaskSt.left])
  | fail k d =>
    unfold astep at h
    dsimp only at h
    cases hkw : p.tasks.get? k with
    | none => rw [hkw] at h; cases h
    | some kw =>
      cases hst : s.st.get? k with
      | none => rw [hkw, hst] at h; cases h
      | some x =>
        rw [hkw, hst] at h
        cases x with
        | running _ => cases h
        | done _ => cases h
        | waiting =>
          simp only [Option.map_eq_some_iff] at h
          obtain ⟨e, he, rfl⟩ := h
          exact key s.calls hst (by simp [TaskSt.left])
  | finish k =>
    unfold astep at h
    dsimp only at h
    cases hst : s.st.get? k with
    | none => rw [hst] at h; cases h
    | some x =>
      cases hn : g.get? k with
      | none => rw [hst, hn] at h; cases x <;> cases h
      | some n =>
        rw [hst, hn] at h
        cases x with
        | waiting => cases h
        | done _ => cases h
        | running args => cases h; exact key s.calls hst (by simp [TaskSt.left])
  | mainOk =>
    unfold astep at h
    dsimp only at h
    cases hm : s.main with
    | some r => rw [hm] at h; cases h
    | none =>
      rw [hm] at h
      simp only [Option.map_eq_some_iff] at h
      obtain ⟨out, ho, rfl⟩ := h
      unfold AState.left
      rw [hm]
      dsimp only
      omega
  | mainErr d =>
    unfold astep at h
    dsimp only at h
    cases hm : s.main with
    | some r => rw [hm] at h; cases h
    | none =>
      rw [hm] at h
      simp only [Option.map_eq_some_iff] at h
      obtain ⟨out, ho, rfl⟩ := h
      unfold AState.left
      rw [hm]
      dsimp only
      omega

theorem left_run : ∀ {cs : List AChoice} {s s' : AState V}, arun g p cs s = some s' → cs.length + s'.left ≤ s.left := by
  intro cs
  induction cs with
  | nil => intro s s' h; cases h; simp
  | cons c cs ih =>
    intro s s' h
    unfold arun at h
    cases hs : astep g p s c with
    | none => rw [hs] at h; cases h
    | some s1 =>
      rw [hs] at h
      have h1 := ih h
      have h2 := left_step hs
      simp only [List.length_cons]
      omega

theorem left_init (p : AsyncProg V) : (AState.init p).left = 2 * p.tasks.length + 1 := by
  unfold AState.left AState.init
  dsimp only
  have : ∀ l : Dict Name (Dict Name (AVal V)), ((l.map (fun t => (t.1, (TaskSt.waiting : TaskSt V)))).map (·.2.left)).sum = 2 * l.length := by
    intro l
    induction l with
    | nil => rfl
    | cons q l ih =>
      simp only [List.map_cons, List.sum_cons, List.length_cons, TaskSt.left] at ih ⊢
      omega
  rw [this]

end
end Verif
