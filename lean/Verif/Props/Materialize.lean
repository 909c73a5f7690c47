import Verif.Proofs.Adapters
import Verif.Props.Execution
import Verif.Props.Subdag

/-!
Properties C46 (materializers add nodes only, loaders act like overrides) and C53 (savers and loaders get their arguments and
data).
-/
namespace Verif
variable {T V : Type}

section
variable {ops : AdapterOps T V} {tm : T → T → Bool} {g g' : Graph T V} {ms : List (Materializer T V)} {xs : List (Extractor T V)}
  {inputs overrides : Dict Name V}

/-! ### C46 -/

/-- `loaded` are the values loaded for the targets. -/
structure Loaded (g' : Graph T V) (inputs overrides : Dict Name V) (xs : List (Extractor T V)) (loaded : Dict Name V) : Prop where
  nodup : loaded.keys.Nodup
  keys : ∀ k, k ∈ loaded.keys ↔ k ∈ xs.map (·.target)
  value : ∀ k v, loaded.get? k = some v → Den g' inputs overrides k v

theorem loaders_names {g1 : Graph T V} {loaders : List (Node T V)} (h : generateAll (extractorNodes ops g1) xs = .ok loaders)
    {k : Name} {n : Node T V} (hl : lastDef loaders k = some n) :
    (∃ x ∈ xs, k = loadName x.target) ∨ (∃ x ∈ xs, k = x.target) := by
  obtain ⟨rfl, hm⟩ := lastDef_name hl
  obtain ⟨x, hx, m, h1, h2⟩ := (generateAll_mem h n).1 hm
  obtain ⟨t, cls, _, _, _, rfl⟩ := extractorNodes_cases h1
  simp only [List.mem_cons, List.not_mem_nil, or_false] at h2
  rcases h2 with rfl | rfl
  · exact .inl ⟨x, hx, rfl⟩
  · exact .inr ⟨x, hx, rfl⟩

theorem loaders_target {g1 : Graph T V} {loaders : List (Node T V)} (h : generateAll (extractorNodes ops g1) xs = .ok loaders)
    {x : Extractor T V} (hx : x ∈ xs) : lastDef loaders x.target ≠ none := by
  intro hn
  rw [lastDef_none] at hn
  obtain ⟨m, h1, h2⟩ := generateAll_each h x hx
  obtain ⟨t, cls, _, _, _, rfl⟩ := extractorNodes_cases h1
  exact hn _ (h2 (filterNode ops x.target t.typ) (by simp)) rfl

/-- **C46, values (partial).**  In a graph modified by any materializers and extractors, every node of the original graph has
exactly the value it has in the original graph when the loaded values are given as overrides (explicit overrides taking
precedence).  Missing: a graph that already has a node called `load_data.<target>`, which is replaced
(`C46_violated_clash`). -/
theorem C46_values_partial (hg : WellFormed g) (h : modifyGraph ops tm g ms xs = .ok g')
    (hclash : ∀ x ∈ xs, g.get? (loadName x.target) = none) (ho : overrides.keys.Nodup)
    {loaded : Dict Name V} (hl : Loaded g' inputs overrides xs loaded) {k : Name} (hk : ∃ n, g.get? k = some n) (v : V) :
    Den g' inputs overrides k v ↔ Den g inputs (loaded.merge overrides) k v := by
  obtain ⟨savers, g1, loaders, hs, hx, _, _, _, hload, _, hold, _, _⟩ := modifyGraph_spec hg h
  have hget : ∀ k, (loaded.merge overrides).get? k = (overrides.get? k).or (loaded.get? k) := Dict.get?_merge _ _ ho
  -- a name of the graph is a target or keeps its function
  have hcase : ∀ k n, g.get? k = some n → (∃ v, loaded.get? k = some v ∧ Den g' inputs overrides k v ∧
      ∃ n', g'.get? k = some n' ∧ n'.kind ≠ .external) ∨
      (loaded.get? k = none ∧ ∃ n', g'.get? k = some n' ∧ SameFn n n') := by
    intro k n hn
    cases hlast : lastDef loaders k with
    | none =>
      right
      refine ⟨?_, hold k n hlast hn⟩
      cases hk : loaded.get? k with
      | none => rfl
      | some w =>
        have := (hl.keys k).1 (Dict.mem_keys_iff.2 ⟨w, hk⟩)
        obtain ⟨x, hx', rfl⟩ := List.mem_map.1 this
        exact absurd hlast (loaders_target hx hx')
    | some m =>
      left
      rcases loaders_names hx hlast with ⟨x, hx', rfl⟩ | ⟨x, hx', rfl⟩
      · rw [hclash x hx'] at hn; cases hn
      · obtain ⟨w, hw⟩ := Dict.mem_keys_iff.1 ((hl.keys x.target).2 (List.mem_map.2 ⟨x, hx', rfl⟩))
        obtain ⟨n', h1, h2⟩ := hload _ m hlast
        refine ⟨w, hw, hl.value _ _ hw, n', h1, ?_⟩
        rw [h2.kind]
        obtain ⟨_, hm⟩ := lastDef_name hlast
        obtain ⟨y, _, m', h3, h4⟩ := (generateAll_mem hx m).1 hm
        obtain ⟨t, cls, _, _, _, rfl⟩ := extractorNodes_cases h3
        simp only [List.mem_cons, List.not_mem_nil, or_false] at h4
        rcases h4 with rfl | rfl
        · simp [loaderNode]
        · simp [filterNode]
  have habs : ∀ d, (∃ n, g.get? d = some n) → (Absent g' inputs overrides d ↔ Absent g inputs (loaded.merge overrides) d) := by
    rintro d ⟨n, hn⟩
    rcases hcase d n hn with ⟨w, hw, _, n', h1, h2⟩ | ⟨hnone, n', h1, h2⟩
    · constructor
      · rintro ⟨m, hm, hk, _⟩; rw [h1] at hm; cases hm; exact absurd hk h2
      · rintro ⟨m, hm, hk, _, hov⟩
        rw [hget, hw] at hov
        cases ho' : overrides.get? d <;> rw [ho'] at hov <;> cases hov
    · constructor
      · rintro ⟨m, hm, hk, hi, hov⟩
        rw [h1] at hm; cases hm
        exact ⟨n, hn, by rw [← h2.kind]; exact hk, hi, by rw [hget, hov, hnone]; rfl⟩
      · rintro ⟨m, hm, hk, hi, hov⟩
        rw [hn] at hm; cases hm
        rw [hget, hnone, Option.or_none] at hov
        exact ⟨n', h1, by rw [h2.kind]; exact hk, hi, hov⟩
  obtain ⟨n0, hk⟩ := hk
  constructor
  · intro hd
    -- along the derivation in the modified graph
    have key : ∀ k v, Den g' inputs overrides k v → ∀ n, g.get? k = some n → Den g inputs (loaded.merge overrides) k v := by
      intro k v hd
      induction hd with
      | @override k n' v h1 h2 =>
        intro n hn
        exact .override hn (by rw [hget, h2]; rfl)
      | @input k n' v h1 h2 h3 h4 =>
        intro n hn
        rcases hcase k n hn with ⟨w, _, _, n'', e1, e2⟩ | ⟨hnone, n'', e1, e2⟩
        · rw [h1] at e1; cases e1; exact absurd h3 e2
        · rw [h1] at e1; cases e1
          exact .input hn (by rw [hget, h2, hnone]; rfl) (by rw [← e2.kind]; exact h3) h4
      | @call k n' v val h1 h2 h3 h4 h5 h6 ih =>
        intro n hn
        rcases hcase k n hn with ⟨w, hw, hdw, _⟩ | ⟨hnone, n'', e1, e2⟩
        · have : v = w := Den.det (.call val h1 h2 h3 h4 h5 h6) hdw
          subst this
          exact .override hn (by rw [hget, h2, hw]; rfl)
        · rw [h1] at e1; cases e1
          rw [e2.inputTypes] at h5 h6
          rw [e2.fn] at h6
          refine .call val hn (by rw [hget, h2, hnone]; rfl) (by rw [← e2.kind]; exact h3) ?_ ?_ h6
          · intro d w hd hv
            obtain ⟨dn, hdn⟩ := hg.deps_in hn hd
            exact ih d w (by rw [e2.inputTypes]; exact hd) hv dn hdn
          · intro d t hd hv
            obtain ⟨a, b⟩ := h5 d t hd hv
            exact ⟨a, (habs d (hg.deps_in hn (List.mem_map.2 ⟨_, hd, rfl⟩))).1 b⟩
    exact key k v hd n0 hk
  · intro hd
    clear hk n0
    induction hd with
    | @override k n v h1 h2 =>
      rw [hget] at h2
      rcases hcase k n h1 with ⟨w, hw, hdw, n', e1, _⟩ | ⟨hnone, n', e1, _⟩
      · cases hov : overrides.get? k with
        | some u => rw [hov] at h2; cases h2; exact .override e1 hov
        | none => rw [hov, hw] at h2; cases h2; exact hdw
      · rw [hnone, Option.or_none] at h2
        exact .override e1 h2
    | @input k n v h1 h2 h3 h4 =>
      rw [hget] at h2
      rcases hcase k n h1 with ⟨w, hw, _⟩ | ⟨hnone, n', e1, e2⟩
      · rw [hw] at h2; cases hov : overrides.get? k <;> rw [hov] at h2 <;> cases h2
      · rw [hnone, Option.or_none] at h2
        exact .input e1 h2 (by rw [e2.kind]; exact h3) h4
    | @call k n v val h1 h2 h3 h4 h5 h6 ih =>
      rw [hget] at h2
      rcases hcase k n h1 with ⟨w, hw, _⟩ | ⟨hnone, n', e1, e2⟩
      · rw [hw] at h2; cases hov : overrides.get? k <;> rw [hov] at h2 <;> cases h2
      · rw [hnone, Option.or_none] at h2
        refine .call val e1 h2 (by rw [e2.kind]; exact h3) ?_ ?_ (by rw [e2.inputTypes, e2.fn]; exact h6)
        · rw [e2.inputTypes]; intro d w hd hv; exact ih d w hd hv
        · rw [e2.inputTypes]
          intro d t hd hv
          obtain ⟨a, b⟩ := h5 d t hd hv
          exact ⟨a, (habs d (hg.deps_in h1 (List.mem_map.2 ⟨_, hd, rfl⟩))).2 b⟩

/-- **C46, materializers.**  Materializers add nodes only: every node of the graph keeps its value. -/
theorem C46_materializers (hg : WellFormed g) (h : modifyGraph ops tm g ms [] = .ok g') {k : Name}
    (hk : ∃ n, g.get? k = some n) (v : V) : Den g' inputs overrides k v ↔ Den g inputs overrides k v := by
  obtain ⟨savers, g1, loaders, hs, hx, _, _, _, _, _, hold, _, _⟩ := modifyGraph_spec hg h
  cases hx
  have hS : ∀ k n, g.get? k = some n → ∃ n', g'.get? k = some n' ∧ SameFn n n' := fun k n hn => hold k n rfl hn
  obtain ⟨n0, hn0⟩ := hk
  constructor
  · intro hd
    refine Den.transport (S := fun k => ∃ n, g.get? k = some n) ?_ hd ⟨n0, hn0⟩
    rintro k n' ⟨n, hn⟩ hn'
    obtain ⟨m, h1, h2⟩ := hS k n hn
    rw [hn'] at h1; cases h1
    refine ⟨n, hn, h2.kind.symm, fun _ => ⟨h2.fn.symm, h2.inputTypes.symm, ?_⟩⟩
    intro d hd
    rw [h2.inputTypes] at hd
    exact hg.deps_in hn hd
  · intro hd
    refine Den.transport (S := fun k => ∃ n, g.get? k = some n) ?_ hd ⟨n0, hn0⟩
    rintro k n _ hn
    obtain ⟨m, h1, h2⟩ := hS k n hn
    exact ⟨m, h1, h2.kind, fun _ => ⟨h2.fn, h2.inputTypes, fun d hd => hg.deps_in hn hd⟩⟩

theorem foldl_pick {keys : List Name} {out : Dict Name (Option V)} (hout : ∀ k ∈ keys, ∃ v, out.get? k = some v) :
    ∀ k ∈ keys, (keys.foldl (fun (d : Dict Name (Option V)) k => d.set k ((out.get? k).getD none)) []).get? k = out.get? k := by
  have key : ∀ (l : List Name) (acc : Dict Name (Option V)) (k : Name),
      (l.foldl (fun (d : Dict Name (Option V)) k => d.set k ((out.get? k).getD none)) acc).get? k =
        if k ∈ l then some ((out.get? k).getD none) else acc.get? k := by
    intro l
    induction l with
    | nil => intro acc k; simp
    | cons a l ih =>
      intro acc k
      rw [List.foldl_cons, ih, Dict.get?_set]
      by_cases h1 : k ∈ l
      · simp [h1]
      · by_cases h2 : a = k
        · subst h2; simp
        · simp [h1, h2, Ne.symm h2]
  intro k hk
  rw [key, if_pos hk]
  obtain ⟨v, hv⟩ := hout k hk
  rw [hv]; rfl

/-- **C46, driver.**  If `Driver.materialize` returns, then the requested variables can be computed without the materializers,
and they have the same values. -/
theorem C46_driver {o : TypeOracle T V} {fg : FnGraph T V} (hg : DriverGraph fg) {finalVars : List Name}
    {inputs overrides : Option (Dict Name V)} (hin : (inputs.getD []).keys.Nodup)
    (hvars : ∀ k ∈ finalVars, ∃ n, fg.nodes.get? k = some n)
    {info out : Dict Name (Option V)}
    (h : driverMaterialize ops tm o fg ms [] finalVars inputs overrides = .ok (info, out)) :
    ∃ plain, defaultExecutorExecute fg finalVars (overrides.getD []) (inputs.getD []) = .ok plain ∧
      ∀ k ∈ finalVars, out.get? k = plain.get? k := by
  unfold driverMaterialize at h
  split at h
  · cases h
  · cases hm : modifyGraph ops tm fg.nodes ms [] with
    | error e => rw [hm] at h; cases h
    | ok g' =>
      rw [hm] at h
      dsimp only at h
      cases hx : driverExecute o ⟨g', fg.config⟩ (finalVars ++ ms.map (·.id)) inputs overrides with
      | error e => rw [hx] at h; cases h
      | ok raw =>
        rw [hx] at h
        simp only [Except.ok.injEq, Prod.mk.injEq] at h
        obtain ⟨_, rfl⟩ := h
        obtain ⟨savers, g1, loaders, hs, hxs, _, hw', _, _, _, hold, _, _⟩ := modifyGraph_spec hg.wf hm
        cases hxs
        have hg' : DriverGraph (⟨g', fg.config⟩ : FnGraph T V) := by
          refine ⟨hw', ?_⟩
          intro k hk
          obtain ⟨n, hn, he⟩ := hg.config_in k hk
          obtain ⟨n', h1, h2⟩ := hold k n rfl hn
          exact ⟨n', h1, by rw [h2.kind]; exact he⟩
        obtain ⟨hkeys, hval, _⟩ := C01_execute_sound hg' hin hx
        have habs : ∀ k n, fg.nodes.get? k = some n → ∀ I O, Absent g' I O k → Absent fg.nodes I O k := by
          rintro k n hn I O ⟨m, hm', hk', hi, ho⟩
          obtain ⟨n', h1, h2⟩ := hold k n rfl hn
          rw [hm'] at h1; cases h1
          exact ⟨n, hn, by rw [← h2.kind]; exact hk', hi, ho⟩
        have hdisj : ∀ k ∈ (inputs.getD []).keys, k ∉ fg.config.keys := by
          obtain ⟨hex, _⟩ := driverExecute_ok hx
          exact (defaultExecutor_ok (g := g') (config := fg.config) hw' hex).1
        obtain ⟨plain, hp, hpv⟩ := C04_execute_complete hg (finalVars := finalVars) (inputs := inputs.getD [])
          (overrides := overrides.getD []) hdisj (by
            intro k hk n hn
            obtain ⟨n', h1, _⟩ := hold k n rfl hn
            rcases hval k (by simp [hk]) n' h1 with ⟨v, _, hd⟩ | ⟨_, ha⟩
            · exact .inl ⟨v, (C46_materializers hg.wf hm ⟨n, hn⟩ v).1 hd⟩
            · exact .inr (habs k n hn _ _ ha))
        refine ⟨plain, hp, ?_⟩
        intro k hk
        rw [foldl_pick (fun k hk => Dict.mem_keys_iff.1 ((hkeys k).2 (by simp [hk]))) k hk]
        obtain ⟨n, hn⟩ := hvars k hk
        obtain ⟨n', h1, _⟩ := hold k n rfl hn
        obtain ⟨_, _, h3⟩ := defaultExecutor_ok (g := fg.nodes) (config := fg.config) hg.wf hp
        rcases hval k (by simp [hk]) n' h1 with ⟨v, hv, hd⟩ | ⟨hv, ha⟩
        · rw [hpv k hk v ((C46_materializers hg.wf hm ⟨n, hn⟩ v).1 hd)]; exact hv
        · rcases h3 k hk n hn with ⟨w, _, hd⟩ | ⟨hw, _⟩
          · exact absurd hd (habs k n hn _ _ ha).not_den
          · obtain ⟨_, _, _, hnone, _⟩ := habs k n hn _ _ ha
            rw [FnGraph.given, has_merge _ _ hin] at hnone
            rw [hw, (Dict.has_eq_false_iff _ _).1 hnone.1]; exact hv

/-! ### C53: arguments and data -/

/-- The keyword arguments an adapter must get: each literal as given; each source its value, unless the argument is optional
and the source is an input that was not supplied; nothing else. -/
def AdapterArgs (g : Graph T V) (inputs overrides : Dict Name V) (optional : Dict Name T) (kwargs : Dict Name (SingleDep V))
    (kw : Dict Name V) : Prop :=
  ∀ p, match kwargs.get? p with
    | some (.value v) => kw.get? p = some v
    | some (.source s) => (∃ v, Den g inputs overrides s v ∧ kw.get? p = some v) ∨
        (kw.get? p = none ∧ p ∈ optional.keys ∧ Absent g inputs overrides s)
    | none => kw.get? p = none

theorem adapterKwargs_get {kwargs : Dict Name (SingleDep V)} (h : CleanKwargs kwargs) {types : Dict Name (T × DepType)}
    (hn : types.keys.Nodup) {extra : List Name} (hk : ∀ s, s ∈ types.keys ↔ (∃ p, kwargs.get? p = some (.source s)) ∨ s ∈ extra)
    (he1 : ∀ e ∈ extra, ∀ p, kwargs.get? p ≠ some (.source e)) (he2 : ∀ e ∈ extra, kwargs.get? e = none) (val : Name → Option V) :
    (∀ s p, kwargs.get? p = some (.source s) → (adapterKwargs kwargs (argsFor types val)).get? p = val s) ∧
    (∀ p v, kwargs.get? p = some (.value v) → (adapterKwargs kwargs (argsFor types val)).get? p = some v) ∧
    (∀ e ∈ extra, (adapterKwargs kwargs (argsFor types val)).get? e = val e) ∧
    (∀ p, kwargs.get? p = none → p ∉ extra → (adapterKwargs kwargs (argsFor types val)).get? p = none) := by
  let f : Name → Name := fun s => ((invertSources (kwargSources kwargs)).get? s).getD s
  have fs : ∀ {s p}, kwargs.get? p = some (.source s) → f s = p := fun hp => invert_getD h hp
  have fe : ∀ e ∈ extra, f e = e := fun e he => invert_getD_other h (he1 e he)
  have hinj : ∀ a ∈ types.keys, ∀ b ∈ types.keys, f a = f b → a = b := by
    intro a ha b hb hab
    rcases (hk a).1 ha with ⟨p, hp⟩ | ha <;> rcases (hk b).1 hb with ⟨q, hq⟩ | hb
    · rw [fs hp, fs hq] at hab
      subst hab
      rw [hp] at hq
      cases hq; rfl
    · rw [fs hp, fe b hb] at hab
      subst hab
      rw [he2 p hb] at hp; cases hp
    · rw [fe a ha, fs hq] at hab
      subst hab
      rw [he2 a ha] at hq; cases hq
    · rw [fe a ha, fe b hb] at hab; exact hab
  obtain ⟨r1, r2, r3⟩ := renamedArgs_get (f := f) hn hinj val
  have hget : ∀ p, (adapterKwargs kwargs (argsFor types val)).get? p =
      (((argsFor types val).foldl (fun d q => Dict.set d (f q.1) q.2) []).get? p).or ((kwargLiterals kwargs).get? p) :=
    fun p => Dict.get?_merge _ _ r3 p
  have hlit : ∀ p, (∀ v, kwargs.get? p ≠ some (.value v)) → (kwargLiterals kwargs).get? p = none := by
    intro p hp
    cases hl : (kwargLiterals kwargs).get? p with
    | none => rfl
    | some v => exact absurd ((kwargLiterals_get h.nodup p v).1 hl) (hp v)
  refine ⟨?_, ?_, ?_, ?_⟩
  · intro s p hp
    have := r1 s ((hk s).2 (.inl ⟨p, hp⟩))
    rw [fs hp] at this
    rw [hget, this, hlit p (by rw [hp]; intro v hv; cases hv), Option.or_none]
  · intro p v hp
    rw [hget, r2 p ?_, (kwargLiterals_get h.nodup p v).2 hp]
    · rfl
    · intro s hs hfs
      rcases (hk s).1 hs with ⟨q, hq⟩ | hs
      · rw [fs hq] at hfs; subst hfs; rw [hp] at hq; cases hq
      · rw [fe s hs] at hfs; subst hfs; rw [he2 s hs] at hp; cases hp
  · intro e he
    have := r1 e ((hk e).2 (.inr he))
    rw [fe e he] at this
    rw [hget, this, hlit e (by rw [he2 e he]; intro v hv; cases hv), Option.or_none]
  · intro p hp hpe
    rw [hget, r2 p ?_, hlit p (by rw [hp]; intro v hv; cases hv)]
    · rfl
    · intro s hs hfs
      rcases (hk s).1 hs with ⟨q, hq⟩ | hs
      · rw [fs hq] at hfs; subst hfs; rw [hp] at hq; cases hq
      · rw [fe s hs] at hfs; subst hfs; exact hpe hs

/-- The names of the sources. -/
theorem adapterInputTypes_keys {required optional : Dict Name T} {kwargs : Dict Name (SingleDep V)} (h : CleanKwargs kwargs)
    (hargs : (required.keys ++ optional.keys).Nodup) (hv : adapterValid required optional kwargs = true) (s : Name) :
    s ∈ (adapterInputTypes required optional kwargs).keys ↔ ∃ p, kwargs.get? p = some (.source s) := by
  constructor
  · intro hs
    obtain ⟨q, hq, rfl⟩ := List.mem_map.1 hs
    obtain ⟨p, hp, _⟩ := (adapterInputTypes_mem h hargs hv q.1 q.2).1 hq
    exact ⟨p, hp⟩
  · rintro ⟨p, hp⟩
    have hv' := hv
    unfold adapterValid at hv'
    rw [Bool.and_eq_true, List.all_eq_true, List.all_eq_true] at hv'
    have := hv'.2 p (Dict.mem_keys_iff.2 ⟨_, hp⟩)
    rw [Bool.or_eq_true] at this
    rcases this with h1 | h1
    · obtain ⟨t, ht⟩ := (Dict.has_eq_true_iff _ _).1 h1
      have := (adapterInputTypes_mem h hargs hv s (t, .required)).2 ⟨p, hp, .inl ⟨Dict.get?_mem ht, rfl⟩⟩
      exact List.mem_map.2 ⟨_, this, rfl⟩
    · obtain ⟨t, ht⟩ := (Dict.has_eq_true_iff _ _).1 h1
      have := (adapterInputTypes_mem h hargs hv s (t, .optional)).2 ⟨p, hp, .inr ⟨Dict.get?_mem ht, rfl⟩⟩
      exact List.mem_map.2 ⟨_, this, rfl⟩

/-- A class whose arguments have distinct names. -/
structure ClsArgs (required optional : Dict Name T) : Prop where
  distinct : (required.keys ++ optional.keys).Nodup

/-- Keyword arguments have no order. -/
def SameKwargs (a b : Dict Name V) : Prop := ∀ p, a.get? p = b.get? p

/-- From the values of the sources to the arguments. -/
theorem adapterArgs_of_val {required optional : Dict Name T} {kwargs : Dict Name (SingleDep V)} (h : CleanKwargs kwargs)
    (hargs : ClsArgs required optional) (hv : adapterValid required optional kwargs = true) {val : Name → Option V} {kw : Dict Name V}
    (h1 : ∀ d w, d ∈ (adapterInputTypes required optional kwargs).keys → val d = some w → Den g inputs overrides d w)
    (h2 : ∀ d t, (d, t) ∈ adapterInputTypes required optional kwargs → val d = none → t.2 = .optional ∧ Absent g inputs overrides d)
    (k1 : ∀ s p, kwargs.get? p = some (.source s) → kw.get? p = val s)
    (k2 : ∀ p v, kwargs.get? p = some (.value v) → kw.get? p = some v)
    (k3 : ∀ p, kwargs.get? p = none → kw.get? p = none) : AdapterArgs g inputs overrides optional kwargs kw := by
  intro p
  cases hp : kwargs.get? p with
  | none => exact k3 p hp
  | some d =>
    cases d with
    | value v => exact k2 p v hp
    | source s =>
      dsimp only
      rw [k1 s p hp]
      have hs := (adapterInputTypes_keys h hargs.distinct hv s).2 ⟨p, hp⟩
      cases hval : val s with
      | some w => exact .inl ⟨w, h1 s w hs hval, rfl⟩
      | none =>
        right
        obtain ⟨q, hq, rfl⟩ := List.mem_map.1 hs
        obtain ⟨a, b⟩ := h2 q.1 q.2 hq hval
        obtain ⟨p', hp', hc⟩ := (adapterInputTypes_mem h hargs.distinct hv q.1 q.2).1 hq
        have := h.sources _ _ _ hp hp'
        subst this
        rcases hc with ⟨_, hc⟩ | ⟨hc, _⟩
        · rw [a] at hc; cases hc
        · exact ⟨rfl, List.mem_map.2 ⟨_, hc, rfl⟩, b⟩

/-- From the arguments to values of the sources. -/
theorem val_of_adapterArgs {required optional : Dict Name T} {kwargs : Dict Name (SingleDep V)} (h : CleanKwargs kwargs)
    (hargs : ClsArgs required optional) (hv : adapterValid required optional kwargs = true) {kw : Dict Name V}
    (ha : AdapterArgs g inputs overrides optional kwargs kw) :
    ∃ val : Name → Option V, (∀ s p, kwargs.get? p = some (.source s) → val s = kw.get? p) ∧
      (∀ d w, d ∈ (adapterInputTypes required optional kwargs).keys → val d = some w → Den g inputs overrides d w) ∧
      (∀ d t, (d, t) ∈ adapterInputTypes required optional kwargs → val d = none → t.2 = .optional ∧ Absent g inputs overrides d) := by
  refine ⟨fun s => kw.get? (((invertSources (kwargSources kwargs)).get? s).getD s), ?_, ?_, ?_⟩
  · intro s p hp
    dsimp only
    rw [invert_getD h hp]
  · intro d w hd hw
    obtain ⟨p, hp⟩ := (adapterInputTypes_keys h hargs.distinct hv d).1 hd
    dsimp only at hw
    rw [invert_getD h hp] at hw
    have := ha p
    rw [hp] at this
    dsimp only at this
    rcases this with ⟨v, h1, h2⟩ | ⟨h1, _⟩
    · rw [hw] at h2; cases h2; exact h1
    · rw [hw] at h1; cases h1
  · intro d t hd hw
    obtain ⟨p, hp, hc⟩ := (adapterInputTypes_mem h hargs.distinct hv d t).1 hd
    dsimp only at hw
    rw [invert_getD h hp] at hw
    have := ha p
    rw [hp] at this
    dsimp only at this
    rcases this with ⟨v, h1, h2⟩ | ⟨_, h2, h3⟩
    · rw [hw] at h2; cases h2
    · refine ⟨?_, h3⟩
      rcases hc with ⟨hc, _⟩ | ⟨_, hc⟩
      · have := (List.nodup_append.1 hargs.distinct).2.2 p (List.mem_map.2 ⟨_, hc, rfl⟩) p h2
        exact absurd rfl this
      · exact hc

/-- **C53, loading (partial).**  In the modified graph the target has exactly the values that its loader class returns for the
arguments given: literals as they are, sources with the values of the named nodes.  Missing: two arguments with the same source
and sources named like an argument given as a literal (`C53_violated_source`, `C53_violated_literal`). -/
theorem C53_loader_partial (hl : ops.Lawful) (hg : WellFormed g) (h : modifyGraph ops tm g ms xs = .ok g')
    (hdis : (xs.map (·.target)).Nodup) (hname : ∀ x ∈ xs, ∀ y ∈ xs, loadName x.target ≠ y.target)
    {x : Extractor T V} (hx : x ∈ xs) (hclean : CleanKwargs x.kwargs)
    (hcls : ∀ t cls, x.loader t = some cls → ClsArgs cls.required cls.optional ∧
      ∀ a b, SameKwargs a b → cls.load a = cls.load b)
    (ho : overrides.get? x.target = none) (ho' : overrides.get? (loadName x.target) = none) :
    ∃ t cls, x.loader t = some cls ∧ (∀ n, g.get? x.target = some n → n.kind ≠ .external → t = n.typ) ∧
      ∀ v, Den g' inputs overrides x.target v ↔
        ∃ kw info, AdapterArgs g' inputs overrides cls.optional x.kwargs kw ∧ cls.load kw = .ok (v, info) := by
  obtain ⟨savers, g1, loaders, hs, hxs, _, _, _, hload, _, _, hkeep, _⟩ := modifyGraph_spec hg h
  obtain ⟨ns, hns, hmem⟩ := generateAll_each hxs x hx
  obtain ⟨n, cls, hn, hc, hv, rfl⟩ := extractorNodes_cases hns
  refine ⟨n.typ, cls, hc, ?_, ?_⟩
  · intro m hm hk
    obtain ⟨m', h1, h2⟩ := hkeep _ m hm
    rw [hn] at h1; cases h1
    exact h2.typ hk
  -- the nodes of the graph
  have huniq : ∀ y ∈ xs, y.target = x.target → y = x := by
    intro y hy he
    have : ∀ l : List (Extractor T V), (l.map (·.target)).Nodup → ∀ a ∈ l, ∀ b ∈ l, a.target = b.target → a = b := by
      intro l
      induction l with
      | nil => intro _ a ha; cases ha
      | cons c l ih =>
        intro hn a ha b hb hab
        rw [List.map_cons, List.nodup_cons] at hn
        rcases List.mem_cons.1 ha with h1 | ha <;> rcases List.mem_cons.1 hb with h2 | hb
        · rw [h1, h2]
        · exact absurd (List.mem_map.2 ⟨b, hb, by rw [← hab, h1]⟩) hn.1
        · exact absurd (List.mem_map.2 ⟨a, ha, by rw [hab, h2]⟩) hn.1
        · exact ih hn.2 a ha b hb hab
    exact this xs hdis y hy x hx he
  have hinj : ∀ a b, loadName a = loadName b → a = b := by
    intro a b hab
    exact (String.append_right_inj _).1 hab
  have hdef : ∀ m ∈ [loaderNode ops x.target n.typ cls x.kwargs, filterNode ops x.target n.typ], Defines g' m := by
    intro m hm
    cases hlast : lastDef loaders m.name with
    | none => rw [lastDef_none] at hlast; exact absurd rfl (hlast m (hmem m hm))
    | some m' =>
      obtain ⟨h1, h2⟩ := lastDef_name hlast
      obtain ⟨y, hy, ns', h3, h4⟩ := (generateAll_mem hxs m').1 h2
      obtain ⟨n2, cls2, hn2, hc2, _, rfl⟩ := extractorNodes_cases h3
      have : m' = m := by
        simp only [List.mem_cons, List.not_mem_nil, or_false] at hm h4
        rcases hm with rfl | rfl <;> rcases h4 with rfl | rfl
        · have : y.target = x.target := hinj _ _ h1
          have := huniq y hy this
          subst this
          rw [hn] at hn2; cases hn2
          rw [hc] at hc2; cases hc2
          rfl
        · exact absurd h1.symm (hname x hx y hy)
        · exact absurd h1 (hname y hy x hx)
        · have := huniq y hy h1
          subst this
          rw [hn] at hn2; cases hn2
          rfl
      subst this
      obtain ⟨m'', e1, e2⟩ := hload _ m' hlast
      exact ⟨m'', e1, e2⟩
  obtain ⟨hca, hext⟩ := hcls _ _ hc
  have hkeys : ∀ s, s ∈ (adapterInputTypes cls.required cls.optional x.kwargs).keys ↔
      (∃ p, x.kwargs.get? p = some (.source s)) ∨ s ∈ ([] : List Name) := by
    intro s; rw [adapterInputTypes_keys hclean hca.distinct hv]; simp
  have hkw := fun val => adapterKwargs_get hclean (adapterInputTypes_nodup cls.required cls.optional x.kwargs)
    (extra := []) hkeys (by simp) (by simp) val (T := T)
  intro v
  have hf := den_iff_fnValue (hdef _ (by simp)) (by simp [filterNode]) ho v (n := filterNode ops x.target n.typ) (inputs := inputs)
  rw [show (filterNode ops x.target n.typ).name = x.target from rfl] at hf
  rw [hf]
  have hload' : ∀ w, Den g' inputs overrides (loadName x.target) w ↔
      FnValue g' inputs overrides (loaderNode ops x.target n.typ cls x.kwargs) w :=
    fun w => den_iff_fnValue (hdef _ (by simp)) (by simp [loaderNode]) ho' w (n := loaderNode ops x.target n.typ cls x.kwargs)
  constructor
  · rintro ⟨kw, hkw1, hkw2⟩
    rw [rightArgs_single (n := filterNode ops x.target n.typ) rfl] at hkw1
    obtain ⟨w, hw, rfl⟩ := hkw1
    obtain ⟨kw', ⟨val, h1, h2, rfl⟩, h3⟩ := (hload' w).1 hw
    simp only [loaderNode] at h3 h1 h2
    cases hr : cls.load (adapterKwargs x.kwargs (argsFor (adapterInputTypes cls.required cls.optional x.kwargs) val)) with
    | error e => rw [hr] at h3; cases h3
    | ok r =>
      obtain ⟨a, info⟩ := r
      rw [hr] at h3
      cases h3
      simp only [filterNode, Dict.get?_cons, if_true, hl.first] at hkw2
      cases hkw2
      obtain ⟨k1, k2, _, k4⟩ := hkw val
      exact ⟨_, info, adapterArgs_of_val hclean hca hv h1 h2 k1 k2 (fun p hp => k4 p hp (by simp)), hr⟩
  · rintro ⟨kw, info, ha, hr⟩
    obtain ⟨val, v1, v2, v3⟩ := val_of_adapterArgs hclean hca hv ha
    obtain ⟨k1, k2, _, k4⟩ := hkw val
    have hsame : SameKwargs (adapterKwargs x.kwargs (argsFor (adapterInputTypes cls.required cls.optional x.kwargs) val)) kw := by
      intro p
      have hap := ha p
      cases hp : x.kwargs.get? p with
      | none => rw [hp] at hap; rw [k4 p hp (by simp)]; exact hap.symm
      | some d =>
        cases d with
        | value u => rw [hp] at hap; rw [k2 p u hp]; exact hap.symm
        | source s => rw [k1 s p hp, v1 s p hp]
    refine ⟨[(loadName x.target, ops.pair v info)], ?_, ?_⟩
    · rw [rightArgs_single (n := filterNode ops x.target n.typ) rfl]
      refine ⟨_, (hload' _).2 ⟨_, ⟨val, v2, v3, rfl⟩, ?_⟩, rfl⟩
      simp only [loaderNode]
      rw [hext _ _ hsame, hr]
    · simp only [filterNode, Dict.get?_cons, if_true, hl.first]

/-- What a materializer is asked to save: the value of its single dependency, or what its result builder makes of the values of
its dependencies. -/
inductive ToSave (g : Graph T V) (inputs overrides : Dict Name V) (m : Materializer T V) : V → Prop
  | single {d v} : m.combine = none → m.dependencies = [d] → Den g inputs overrides d v → ToSave g inputs overrides m v
  | combined {rb vs v} : m.combine = some rb → AllPairs (Den g inputs overrides) m.dependencies vs →
      rb.build (m.dependencies.zip vs) = .ok v → ToSave g inputs overrides m v


theorem joinNode_value {m : Materializer T V} {rb : ResultBuilder T V} (hcomb : m.combine = some rb) {g0 : Graph T V}
    (hg : WellFormed g0) (hd : m.dependencies.Nodup) (hin : ∀ d ∈ m.dependencies, ∃ n, g0.get? d = some n) (data : V) :
    FnValue g inputs overrides (joinNode m.id rb (m.dependencies.filterMap g0.get?)) data ↔ ToSave g inputs overrides m data := by
  -- the parameters of the node
  have hty : ∃ types : Dict Name (T × DepType), (joinNode m.id rb (m.dependencies.filterMap g0.get?)).inputTypes = types ∧
      types.keys = m.dependencies ∧ ∀ p ∈ types, p.2.2 = DepType.required := by
    refine ⟨_, rfl, ?_⟩
    have hnames : (m.dependencies.filterMap g0.get?).map (·.name) = m.dependencies := by
      clear hcomb hd
      revert hin
      generalize m.dependencies = l
      intro hin
      induction l with
      | nil => rfl
      | cons a l ih =>
        obtain ⟨n, hn⟩ := hin a (by simp)
        rw [List.filterMap_cons_some hn, List.map_cons, ih (fun d hd => hin d (by simp [hd])), hg.name_eq hn]
    have heq : (m.dependencies.filterMap g0.get?).foldl
        (fun (d : Dict Name (T × DepType)) n => d.set n.name (n.typ, .required)) [] =
        (m.dependencies.filterMap g0.get?).map (fun n => (n.name, (n.typ, DepType.required))) := by
      have := foldl_set_append ((m.dependencies.filterMap g0.get?).map (fun n => (n.name, (n.typ, DepType.required))))
        ([] : Dict Name (T × DepType)) (by simpa [Dict.keys, Function.comp_def, hnames] using hd)
      rw [List.foldl_map] at this
      simpa using this
    simp only [joinNode]
    rw [heq]
    refine ⟨?_, ?_⟩
    · simpa [Dict.keys, Function.comp_def] using hnames
    · intro p hp
      obtain ⟨n, _, rfl⟩ := List.mem_map.1 hp
      rfl
  obtain ⟨types, h0, hkeys, hreq⟩ := hty
  have hargs : ∀ (types : Dict Name (T × DepType)) (val : Name → Option V) (vs : List V),
      AllPairs (fun d v => val d = some v) types.keys vs → argsFor types val = types.keys.zip vs := by
    intro types
    induction types with
    | nil => intro val vs h; cases h; rfl
    | cons p t ih =>
      intro val vs h
      rw [Dict.keys_cons] at h ⊢
      cases h with
      | cons h1 h2 =>
        rw [List.zip_cons_cons, ← ih val _ h2]
        simp only [argsFor, List.filterMap_cons, h1, Option.map_some]
  constructor
  · rintro ⟨kw, ⟨val, h1, h2, rfl⟩, h3⟩
    rw [h0] at h1 h2 h3
    have hex : ∀ l : List Name, (∀ d ∈ l, d ∈ types.keys) → ∃ vs, AllPairs (fun d v => val d = some v) l vs ∧
        AllPairs (Den g inputs overrides) l vs := by
      intro l
      induction l with
      | nil => intro _; exact ⟨[], .nil, .nil⟩
      | cons a l ih =>
        intro hl
        obtain ⟨vs, e1, e2⟩ := ih (fun d hd => hl d (by simp [hd]))
        have ha := hl a (by simp)
        cases hv : val a with
        | some w => exact ⟨w :: vs, .cons hv e1, .cons (h1 a w ha hv) e2⟩
        | none =>
          obtain ⟨p, hp, rfl⟩ := List.mem_map.1 ha
          have := (h2 p.1 p.2 hp hv).1
          rw [hreq p hp] at this; cases this
    obtain ⟨vs, e1, e2⟩ := hex types.keys (fun _ h => h)
    rw [hargs types val vs e1] at h3
    rw [hkeys] at e2 h3
    exact .combined hcomb e2 h3
  · intro h
    cases h with
    | single h1 => rw [hcomb] at h1; cases h1
    | @combined rb' vs v h1 h2 h3 =>
      rw [hcomb] at h1; cases h1
      have hval : ∀ (l : List Name) (vs : List V), l.Nodup → AllPairs (Den g inputs overrides) l vs →
          ∃ val : Name → Option V, AllPairs (fun d v => val d = some v) l vs ∧
            (∀ d ∈ l, ∃ v, val d = some v ∧ Den g inputs overrides d v) := by
        intro l vs hn h
        induction h with
        | nil => exact ⟨fun _ => none, .nil, by simp⟩
        | @cons a b l m hab hlm ih =>
          rw [List.nodup_cons] at hn
          obtain ⟨val, e1, e2⟩ := ih hn.2
          refine ⟨fun d => if d = a then some b else val d, .cons (by simp) ?_, ?_⟩
          · have : ∀ (l : List Name) (m : List V), a ∉ l → AllPairs (fun d v => val d = some v) l m →
                AllPairs (fun d v => (if d = a then some b else val d) = some v) l m := by
              intro l m hl h
              induction h with
              | nil => exact .nil
              | @cons c e l m hce hlm ih' =>
                simp only [List.mem_cons, not_or] at hl
                exact .cons (by rw [if_neg (Ne.symm hl.1)]; exact hce) (ih' hl.2)
            exact this l m hn.1 e1
          · intro d hd
            rcases List.mem_cons.1 hd with rfl | hd
            · exact ⟨b, by simp, hab⟩
            · obtain ⟨v, f1, f2⟩ := e2 d hd
              exact ⟨v, (if_neg (fun (h : d = a) => hn.1 (h ▸ hd))).trans f1, f2⟩
      obtain ⟨val, e1, e2⟩ := hval m.dependencies vs hd h2
      refine ⟨argsFor types val, ⟨val, ?_, ?_, by rw [h0]⟩, ?_⟩
      · rw [h0, hkeys]
        intro d w hd hv
        obtain ⟨v, f1, f2⟩ := e2 d hd
        rw [f1] at hv; cases hv; exact f2
      · rw [h0]
        intro d t hd hv
        obtain ⟨v, f1, _⟩ := e2 d (by rw [← hkeys]; exact List.mem_map.2 ⟨_, hd, rfl⟩)
        rw [f1] at hv; cases hv
      · rw [hargs types val vs (by rw [hkeys]; exact e1), hkeys]
        exact h3

/-- The value of a saver node, from the value of the node it saves. -/
theorem saverNode_value {id : Name} {cls : SaverCls T V} {kwargs : Dict Name (SingleDep V)} {saved : Node T V}
    (hclean : CleanKwargs kwargs) (hca : ClsArgs cls.required cls.optional)
    (hext : ∀ a b d, SameKwargs a b → cls.save a d = cls.save b d)
    (hv : adapterValid cls.required cls.optional kwargs = true) (hs1 : ∀ p, kwargs.get? p ≠ some (.source saved.name))
    (hs2 : kwargs.get? saved.name = none) (v : V) :
    FnValue g inputs overrides (saverNode ops id cls kwargs saved) v ↔
      ∃ data kw, Den g inputs overrides saved.name data ∧ AdapterArgs g inputs overrides cls.optional kwargs kw ∧
        cls.save kw data = .ok v := by
  have hnot : saved.name ∉ (adapterInputTypes cls.required cls.optional kwargs).keys := by
    intro hc
    obtain ⟨p, hp⟩ := (adapterInputTypes_keys hclean hca.distinct hv _).1 hc
    exact hs1 p hp
  let types := (adapterInputTypes cls.required cls.optional kwargs).set saved.name (saved.typ, DepType.required)
  have hnod : types.keys.Nodup := Dict.keys_set_nodup (adapterInputTypes_nodup cls.required cls.optional kwargs) _ _
  have hk : ∀ s, s ∈ types.keys ↔ (∃ p, kwargs.get? p = some (.source s)) ∨ s ∈ [saved.name] := by
    intro s
    simp only [types]
    rw [Dict.mem_keys_set, adapterInputTypes_keys hclean hca.distinct hv]
    simp only [List.mem_cons, List.not_mem_nil, or_false]
    exact Or.comm
  have hmem : ∀ d t, (d, t) ∈ types ↔ (d, t) ∈ adapterInputTypes cls.required cls.optional kwargs ∨
      (d = saved.name ∧ t = (saved.typ, DepType.required)) := by
    intro d t
    have h1 := Dict.get?_of_mem (k := d) (v := t) hnod
    constructor
    · intro hm
      have := h1 hm
      simp only [types, Dict.get?_set] at this
      by_cases he : saved.name = d
      · rw [if_pos he] at this
        cases this
        exact .inr ⟨he.symm, rfl⟩
      · rw [if_neg he] at this
        exact .inl (Dict.get?_mem this)
    · rintro (hm | ⟨rfl, rfl⟩)
      · have hne : saved.name ≠ d := fun he => hnot (he ▸ List.mem_map.2 ⟨_, hm, rfl⟩)
        apply Dict.get?_mem
        simp only [types]
        rw [Dict.get?_set, if_neg hne]
        exact Dict.get?_of_mem (adapterInputTypes_nodup cls.required cls.optional kwargs) hm
      · apply Dict.get?_mem
        simp only [types]
        rw [Dict.get?_set, if_pos rfl]
  have hkw := fun val => adapterKwargs_get hclean hnod (extra := [saved.name]) hk
    (by simpa using hs1) (by simpa using hs2) val (T := T)
  constructor
  · rintro ⟨kw, ⟨val, h1, h2, rfl⟩, h3⟩
    simp only [saverNode, saveData] at h3 h1 h2
    obtain ⟨k1, k2, k3, k4⟩ := hkw val
    have hd := k3 saved.name (by simp)
    simp only [types] at hd k1 k2 k4
    rw [hd] at h3
    cases hval : val saved.name with
    | none => rw [hval] at h3; cases h3
    | some data =>
      rw [hval] at h3
      refine ⟨data, _, h1 _ _ ((hk saved.name).2 (by simp)) hval, ?_, h3⟩
      refine adapterArgs_of_val hclean hca hv (val := val) ?_ ?_ ?_ ?_ ?_
      · intro d w hd hw
        exact h1 d w ((hk d).2 (.inl ((adapterInputTypes_keys hclean hca.distinct hv d).1 hd))) hw
      · intro d t hd hw
        exact h2 d t ((hmem d t).2 (.inl hd)) hw
      · intro s p hp
        rw [Dict.get?_del, if_neg (by rintro rfl; rw [hs2] at hp; cases hp)]
        exact k1 s p hp
      · intro p u hp
        rw [Dict.get?_del, if_neg (by rintro rfl; rw [hs2] at hp; cases hp)]
        exact k2 p u hp
      · intro p hp
        rw [Dict.get?_del]
        by_cases he : saved.name = p
        · rw [if_pos he]
        · rw [if_neg he]
          exact k4 p hp (by simpa using Ne.symm he)
  · rintro ⟨data, kw, hdat, ha, hr⟩
    obtain ⟨val0, v1, v2, v3⟩ := val_of_adapterArgs hclean hca hv ha
    let val : Name → Option V := fun d => if d = saved.name then some data else val0 d
    obtain ⟨k1, k2, k3, k4⟩ := hkw val
    have hval : ∀ d, d ≠ saved.name → val d = val0 d := fun d hd => if_neg hd
    refine ⟨argsFor types val, ⟨val, ?_, ?_, rfl⟩, ?_⟩
    · intro d w hd hw
      by_cases he : d = saved.name
      · subst he; simp only [val, if_true] at hw; cases hw; exact hdat
      · rw [hval d he] at hw
        rcases (hk d).1 hd with hd | hd
        · exact v2 d w ((adapterInputTypes_keys hclean hca.distinct hv d).2 hd) hw
        · exact absurd (List.mem_singleton.1 hd) he
    · intro d t hd hw
      rcases (hmem d t).1 hd with hd | ⟨rfl, _⟩
      · have he : d ≠ saved.name := fun he => hnot (he ▸ List.mem_map.2 ⟨_, hd, rfl⟩)
        rw [hval d he] at hw
        exact v3 d t hd hw
      · simp [val] at hw
    · simp only [saverNode, saveData]
      rw [k3 saved.name (by simp)]
      simp only [val, if_true]
      rw [← hr]
      apply hext
      intro p
      rw [Dict.get?_del]
      have hap := ha p
      by_cases he : saved.name = p
      · rw [if_pos he]
        rw [← he, hs2] at hap
        rw [← he]; exact hap.symm
      · rw [if_neg he]
        cases hp : kwargs.get? p with
        | none => rw [hp] at hap; rw [k4 p hp (by simpa using Ne.symm he)]; exact hap.symm
        | some d =>
          cases d with
          | value u => rw [hp] at hap; rw [k2 p u hp]; exact hap.symm
          | source s => rw [k1 s p hp, hval s (fun h => hs1 p (h ▸ hp)), v1 s p hp]

/-- The node that a materializer saves. -/
def Materializer.savedName (m : Materializer T V) : Name :=
  match m.combine, m.dependencies with
  | none, [d] => d
  | _, _ => m.id ++ "_build_result"

/-- **C53, saving (partial).**  In the modified graph the materializer's node has exactly the values (metadata) that its saver
class returns when it saves the value of the dependency, or what the result builder makes of the dependencies, with the
arguments given.  Missing: two arguments with the same source, sources named like an argument given as a literal, an argument
named like the saved node (`C53_violated_saved`), two materializers with the same id (`C53_violated_ids`). -/
theorem C53_saver_partial (hg : WellFormed g) (h : modifyGraph ops tm g ms xs = .ok g')
    (hids : (ms.map (·.id)).Nodup) (hjoin : ∀ m ∈ ms, ∀ m' ∈ ms, m.id ++ "_build_result" ≠ m'.id)
    {m : Materializer T V} (hm : m ∈ ms) (hdeps : m.dependencies.Nodup) (hclean : CleanKwargs m.kwargs)
    (hsrc : ∀ p, m.kwargs.get? p ≠ some (.source m.savedName)) (harg : m.kwargs.get? m.savedName = none)
    (hcls : ∀ t cls, m.saver t = some cls → ClsArgs cls.required cls.optional ∧
      ∀ a b d, SameKwargs a b → cls.save a d = cls.save b d)
    (hxs : ∀ x ∈ xs, ∀ k ∈ [m.id, m.id ++ "_build_result"], x.target ≠ k ∧ loadName x.target ≠ k)
    (ho : overrides.get? m.id = none) (ho' : overrides.get? (m.id ++ "_build_result") = none) :
    ∃ t cls, m.saver t = some cls ∧
      (∀ d n, m.combine = none → m.dependencies = [d] → g.get? d = some n → t = n.typ) ∧
      (∀ rb, m.combine = some rb → t = rb.outputType) ∧
      ∀ v, Den g' inputs overrides m.id v ↔
        ∃ data kw, ToSave g' inputs overrides m data ∧ AdapterArgs g' inputs overrides cls.optional m.kwargs kw ∧
          cls.save kw data = .ok v := by
  obtain ⟨savers, g1, loaders, hs, hl, _, _, _, _, hsav, _, _, _⟩ := modifyGraph_spec hg h
  obtain ⟨ns, hns, hmem⟩ := generateAll_each hs m hm
  have huniq : ∀ y ∈ ms, y.id = m.id → y = m := by
    intro y hy he
    have : ∀ l : List (Materializer T V), (l.map (·.id)).Nodup → ∀ a ∈ l, ∀ b ∈ l, a.id = b.id → a = b := by
      intro l
      induction l with
      | nil => intro _ a ha; cases ha
      | cons c l ih =>
        intro hn a ha b hb hab
        rw [List.map_cons, List.nodup_cons] at hn
        rcases List.mem_cons.1 ha with h1 | ha <;> rcases List.mem_cons.1 hb with h2 | hb
        · rw [h1, h2]
        · exact absurd (List.mem_map.2 ⟨b, hb, by rw [← hab, h1]⟩) hn.1
        · exact absurd (List.mem_map.2 ⟨a, ha, by rw [hab, h2]⟩) hn.1
        · exact ih hn.2 a ha b hb hab
    exact this ms hids y hy m hm he
  obtain ⟨hin, saved, cls, hc, hv, hcase⟩ := materializerNodes_cases hns
  have hnm : ∀ k ∈ ns, k.name = m.id ∨ k.name = m.id ++ "_build_result" := by
    intro k hk
    rcases hcase with ⟨_, _, rfl⟩ | ⟨rb, _, rfl, rfl⟩
    · simp only [List.mem_singleton] at hk; subst hk; exact .inl rfl
    · simp only [List.mem_cons, List.not_mem_nil, or_false] at hk
      rcases hk with rfl | rfl
      · exact .inr rfl
      · exact .inl rfl
  have hdef : ∀ k ∈ ns, Defines g' k := by
    intro k hk
    have hnl : lastDef loaders k.name = none := by
      cases hlast : lastDef loaders k.name with
      | none => rfl
      | some k' =>
        have hb : k.name ∈ [m.id, m.id ++ "_build_result"] := by simpa using hnm k hk
        rcases loaders_names hl hlast with ⟨x, hx, he⟩ | ⟨x, hx, he⟩
        · exact absurd he.symm (hxs x hx _ hb).2
        · exact absurd he.symm (hxs x hx _ hb).1
    cases hlast : lastDef savers k.name with
    | none => rw [lastDef_none] at hlast; exact absurd rfl (hlast k (hmem k hk))
    | some k' =>
      obtain ⟨h1, h2⟩ := lastDef_name hlast
      obtain ⟨y, hy, ns', h3, h4⟩ := (generateAll_mem hs k').1 h2
      have hym : y = m := by
        obtain ⟨_, saved', cls', _, _, hcase'⟩ := materializerNodes_cases h3
        have hnm' : k'.name = y.id ∨ k'.name = y.id ++ "_build_result" := by
          rcases hcase' with ⟨_, _, rfl⟩ | ⟨rb, _, rfl, rfl⟩
          · simp only [List.mem_singleton] at h4; subst h4; exact .inl rfl
          · simp only [List.mem_cons, List.not_mem_nil, or_false] at h4
            rcases h4 with rfl | rfl
            · exact .inr rfl
            · exact .inl rfl
        rcases hnm k hk with e1 | e1 <;> rcases hnm' with e2 | e2
        · exact huniq y hy (by rw [← e2, h1, e1])
        · exact absurd (by rw [← e2, h1, e1]) (hjoin y hy m hm)
        · exact absurd (by rw [← e1, ← h1, e2]) (hjoin m hm y hy)
        · exact huniq y hy ((String.append_left_inj "_build_result").1 (by rw [← e2, h1, e1]))
      subst hym
      rw [hns] at h3; cases h3
      -- the two nodes of one materializer have different names
      have : k' = k := by
        rcases hcase with ⟨_, _, rfl⟩ | ⟨rb, _, rfl, rfl⟩
        · simp only [List.mem_singleton] at hk h4; rw [hk, h4]
        · simp only [List.mem_cons, List.not_mem_nil, or_false] at hk h4
          rcases hk with rfl | rfl <;> rcases h4 with rfl | rfl
          · rfl
          · exact absurd h1.symm (hjoin y hy y hy)
          · exact absurd h1 (hjoin y hy y hy)
          · rfl
      subst this
      obtain ⟨m'', e1, e2⟩ := hsav _ k' hnl hlast
      exact ⟨m'', e1, e2⟩
  obtain ⟨hca, hext⟩ := hcls _ _ hc
  have hsn : saved.name = m.savedName := by
    rcases hcase with ⟨hn, hd, rfl⟩ | ⟨rb, hrb, rfl, rfl⟩
    · obtain ⟨d, hd', hdn⟩ : ∃ d, m.dependencies = [d] ∧ g.get? d = some saved := by
        clear hdeps hns
        revert hd hin
        generalize m.dependencies = l
        intro hin hd
        match l, hin, hd with
        | [a], hin, hd =>
          obtain ⟨n, hn⟩ := hin a (by simp)
          rw [List.filterMap_cons_some hn] at hd
          simp only [List.filterMap_nil, List.cons.injEq, and_true] at hd
          exact ⟨a, rfl, by rw [hn, hd]⟩
        | a :: b :: l, hin, hd =>
          obtain ⟨n, hn⟩ := hin a (by simp)
          obtain ⟨n', hn'⟩ := hin b (by simp)
          rw [List.filterMap_cons_some hn, List.filterMap_cons_some hn'] at hd
          simp at hd
      unfold Materializer.savedName
      rw [hn, hd']
      exact hg.name_eq hdn
    · unfold Materializer.savedName
      rw [hrb]
      rfl
  rw [← hsn] at hsrc harg
  refine ⟨saved.typ, cls, hc, ?_, ?_, ?_⟩
  · intro d n h1 h2 h3
    rcases hcase with ⟨_, hd, _⟩ | ⟨rb, hrb, _⟩
    · rw [h2, List.filterMap_cons_some h3] at hd
      simp only [List.filterMap_nil, List.cons.injEq, and_true] at hd
      rw [hd]
    · rw [h1] at hrb; cases hrb
  · intro rb hrb
    rcases hcase with ⟨hn, _⟩ | ⟨rb', hrb', rfl, _⟩
    · rw [hn] at hrb; cases hrb
    · rw [hrb'] at hrb; cases hrb; rfl
  · intro v
    have hsaver : saverNode ops m.id cls m.kwargs saved ∈ ns := by
      rcases hcase with ⟨_, _, rfl⟩ | ⟨rb, _, _, rfl⟩ <;> simp
    have h1 := den_iff_fnValue (inputs := inputs) (hdef _ hsaver) (by simp [saverNode]) ho v
    rw [show (saverNode ops m.id cls m.kwargs saved).name = m.id from rfl] at h1
    rw [h1, saverNode_value hclean hca hext hv hsrc harg]
    have hts : ∀ data, Den g' inputs overrides saved.name data ↔ ToSave g' inputs overrides m data := by
      intro data
      rcases hcase with ⟨hn, hd, rfl⟩ | ⟨rb, hrb, hsv, rfl⟩
      · unfold Materializer.savedName at hsn
        rw [hn] at hsn
        have hone : ∃ d, m.dependencies = [d] := by
          clear hdeps hns hsn
          revert hd hin
          generalize m.dependencies = l
          intro hin hd
          match l, hin, hd with
          | [a], _, _ => exact ⟨a, rfl⟩
          | a :: b :: l, hin, hd =>
            obtain ⟨n, hn⟩ := hin a (by simp)
            obtain ⟨n', hn'⟩ := hin b (by simp)
            rw [List.filterMap_cons_some hn, List.filterMap_cons_some hn'] at hd
            simp at hd
        obtain ⟨d, hd'⟩ := hone
        rw [hd'] at hsn
        dsimp only at hsn
        rw [hsn]
        constructor
        · intro hx; exact .single hn hd' hx
        · intro hx
          cases hx with
          | single _ e1 e2 => rw [hd'] at e1; cases e1; exact e2
          | combined e1 => rw [hn] at e1; cases e1
      · have h2 := den_iff_fnValue (inputs := inputs) (hdef saved (by simp)) (by rw [hsv]; simp [joinNode])
          (by rw [hsv]; exact ho') data
        rw [h2, hsv, joinNode_value hrb hg hdeps hin]
    constructor
    · rintro ⟨data, kw, e1, e2, e3⟩; exact ⟨data, kw, (hts data).1 e1, e2, e3⟩
    · rintro ⟨data, kw, e1, e2, e3⟩; exact ⟨data, kw, (hts data).2 e1, e2, e3⟩

end

/-! ### Examples and violations -/

namespace MaterializeSample
open Sample (fnNode arg fns config tm oracle)

/-- Values are integers; a pair is represented by its first component. -/
def sops : AdapterOps Unit Int := ⟨fun a _ => a, some, (), fun _ => ()⟩

theorem sops_lawful : sops.Lawful := ⟨fun _ _ => rfl⟩

/-- A saver with an argument `path` and an optional argument `fmt`, whose metadata shows everything it was given. -/
def saver : SaverCls Unit Int :=
  ⟨[("path", ())], [("fmt", ())], fun kw d => .ok (1000 * d + 10 * arg kw "path" 0 + arg kw "fmt" 0)⟩

/-- A loader with the same arguments. -/
def loader : LoaderCls Unit Int := ⟨[("path", ())], [("fmt", ())], fun kw => .ok (50 + arg kw "path" 0 + 100 * arg kw "fmt" 0, 0)⟩

/-- A result builder. -/
def builder : ResultBuilder Unit Int := ⟨(), fun kw => .ok (1000 * arg kw "left" 0 + arg kw "right" 0)⟩

/-- `to.x(id="save_top", dependencies=["top"], path=source("c"), fmt=3)`. -/
def saveTop : Materializer Unit Int := ⟨"save_top", fun _ => some saver, none, ["top"], [("path", .source "c"), ("fmt", .value 3)]⟩

/-- `to.x(id="save_both", dependencies=["left", "right"], combine=builder, path=5)`. -/
def saveBoth : Materializer Unit Int :=
  ⟨"save_both", fun _ => some saver, some builder, ["left", "right"], [("path", .value 5)]⟩

/-- `from_.x(target="base", path=source("x"))`. -/
def loadBase : Extractor Unit Int := ⟨"base", fun _ => some loader, [("path", .source "x")]⟩

/-- The modified graph (empty on errors). -/
def modified (g : Graph Unit Int) (ms : List (Materializer Unit Int)) (xs : List (Extractor Unit Int)) : Graph Unit Int :=
  match modifyGraph sops tm g ms xs with
  | .ok g' => g'
  | .error _ => []

theorem modified_ok {g : Graph Unit Int} {ms : List (Materializer Unit Int)} {xs : List (Extractor Unit Int)}
    (h : (modifyGraph sops tm g ms xs).isOk = true) : modifyGraph sops tm g ms xs = .ok (modified g ms xs) := by
  unfold modified
  revert h
  generalize modifyGraph sops tm g ms xs = r
  intro h
  cases r with
  | ok g => rfl
  | error e => simp [Except.isOk, Except.toBool] at h

/-- The graph of some functions (empty on errors). -/
def graphOf (fs : List (Node Unit Int)) : Graph Unit Int :=
  match createFunctionGraph tm () config false fs with
  | .ok g => g
  | .error _ => []

/-- The value of a node in a run; `none` if the run fails. -/
def runOne (g : Graph Unit Int) (inputs overrides : Dict Name Int) (k : Name) : Option Int :=
  match defaultExecutorExecute ⟨g, config⟩ [k] overrides inputs with
  | .ok d => (d.get? k).join
  | .error _ => none

/-- The sample graph with two materializers and a loader. -/
def full : Graph Unit Int := modified Sample.graph [saveTop, saveBoth] [loadBase]

theorem full_ok : modifyGraph sops tm Sample.graph [saveTop, saveBoth] [loadBase] = .ok full := modified_ok (by decide +kernel)

-- what is saved and loaded
example : runOne full [("x", 1)] [] "base" = some 51 ∧ runOne full [("x", 1)] [] "top" = some 163 ∧
    runOne full [("x", 1)] [] "save_top" = some 163073 ∧ runOne full [("x", 1)] [] "save_both" = some 102061050 := by decide +kernel

theorem full_wf : WellFormed full := by
  obtain ⟨_, _, _, _, _, _, h, _⟩ := modifyGraph_spec Sample.graph_wf full_ok
  exact h

/-- A successful run computes the denotation. -/
theorem runOne_den {g : Graph Unit Int} (hw : WellFormed g) {inputs overrides : Dict Name Int} {k : Name} {v : Int}
    (h : runOne g inputs overrides k = some v) (hin : inputs.get? k = none) (hk : ∃ n, g.get? k = some n) :
    Den g (config.merge inputs) overrides k v := by
  unfold runOne at h
  cases hx : defaultExecutorExecute ⟨g, config⟩ [k] overrides inputs with
  | error e => rw [hx] at h; cases h
  | ok d =>
    rw [hx] at h
    dsimp only at h
    obtain ⟨_, _, h3⟩ := defaultExecutor_ok (g := g) (config := config) hw hx
    obtain ⟨n, hn⟩ := hk
    rcases h3 k (by simp) n hn with ⟨w, h4, h5⟩ | ⟨h4, _⟩
    · rw [h4] at h; cases h; exact h5
    · rw [h4, hin] at h; cases h

/-- The loaded values. -/
theorem full_loaded : Loaded full (config.merge [("x", 1)]) [] [loadBase] [("base", 51)] where
  nodup := by decide
  keys := by intro k; simp [loadBase, Dict.keys]
  value := by
    intro k v h
    rw [Dict.get?_cons] at h
    by_cases hk : k = "base"
    · subst hk
      simp at h
      subst h
      exact runOne_den full_wf (by decide +kernel) rfl ⟨_, rfl⟩
    · have : ("base" : Name) ≠ k := fun h => hk h.symm
      simp [this] at h

-- C46_values_partial: `top` has in the modified graph the value it has when `base` is overridden
example (v : Int) : Den full (config.merge [("x", 1)]) [] "top" v ↔
    Den Sample.graph (config.merge [("x", 1)]) (Dict.merge [("base", 51)] []) "top" v :=
  C46_values_partial Sample.graph_wf full_ok (by simp [loadBase]; decide +kernel) (by simp [Dict.keys]) full_loaded ⟨_, rfl⟩ v

example : runOne Sample.graph [("x", 1)] [("base", 51)] "top" = some 163 := by decide +kernel

-- C46_materializers, C46_driver
example : driverMaterialize sops tm oracle ⟨Sample.graph, config⟩ [saveTop, saveBoth] [] ["top"] (some [("x", 1)]) none =
    .ok ([("save_top", some 16073), ("save_both", some 4012050)], [("top", some 16)]) := by rfl

example (v : Int) : Den (modified Sample.graph [saveTop, saveBoth] []) [("x", 1)] [] "top" v ↔ Den Sample.graph [("x", 1)] [] "top" v :=
  C46_materializers Sample.graph_wf (modified_ok (by decide +kernel)) ⟨_, rfl⟩ v

theorem plain_ok : modifyGraph sops tm Sample.graph [saveTop, saveBoth] [] = .ok (modified Sample.graph [saveTop, saveBoth] []) :=
  modified_ok (by decide +kernel)

example : ∃ plain, defaultExecutorExecute ⟨Sample.graph, config⟩ ["top"] [] [("x", 1)] = .ok plain ∧
    ∀ k ∈ ["top"], Dict.get? [("top", some (16 : Int))] k = plain.get? k :=
  C46_driver (ops := sops) (tm := tm) (ms := [saveTop, saveBoth]) (o := oracle) (fg := ⟨Sample.graph, config⟩) (inputs := some [("x", 1)])
    (overrides := none) (info := [("save_top", some 16073), ("save_both", some 4012050)])
    ⟨Sample.graph_wf, by
      intro k hk
      have : k = "c" := by simpa [config, Dict.keys] using hk
      subst this
      exact ⟨_, rfl, rfl⟩⟩ (by simp [Dict.keys])
    (by intro k hk; simp only [List.mem_singleton] at hk; subst hk; exact ⟨_, rfl⟩)
    rfl

theorem clean_one (p : Name) (d : SingleDep Int) (hd : ∀ s v, d = .source s → d = .value v → False) : CleanKwargs [(p, d)] where
  nodup := by simp [Dict.keys]
  sources := by
    intro a b s h1 h2
    simp only [Dict.get?_cons, Dict.get?_nil] at h1 h2
    split at h1 <;> split at h2 <;> simp_all
  literals := by
    intro a b s v h1 h2
    simp only [Dict.get?_cons, Dict.get?_nil] at h1 h2
    split at h1 <;> split at h2 <;> simp_all

theorem cls_ext : ∀ (a b : Dict Name Int), SameKwargs a b → ∀ k d, arg a k d = arg b k d := by
  intro a b h k d
  unfold arg
  rw [h k]

-- C53_loader_partial
example : ∃ t cls, loadBase.loader t = some cls ∧
    (∀ n, Dict.get? Sample.graph loadBase.target = some n → n.kind ≠ .external → t = n.typ) ∧
    ∀ v, Den full (config.merge [("x", 1)]) [] "base" v ↔
      ∃ kw info, AdapterArgs full (config.merge [("x", 1)]) [] cls.optional loadBase.kwargs kw ∧ cls.load kw = .ok (v, info) :=
  C53_loader_partial sops_lawful Sample.graph_wf full_ok (by simp) (by simp [loadBase, loadName]) (x := loadBase) (by simp)
    (clean_one _ _ (by intro s v h1 h2; cases h2)) (by
      intro t cls h
      cases h
      refine ⟨⟨by decide⟩, fun a b h => ?_⟩
      simp only [loader]
      rw [cls_ext a b h, cls_ext a b h]) rfl rfl

-- C53_saver_partial
example : ∃ t cls, saveBoth.saver t = some cls ∧
    (∀ d n, saveBoth.combine = none → saveBoth.dependencies = [d] → Dict.get? Sample.graph d = some n → t = n.typ) ∧
    (∀ rb, saveBoth.combine = some rb → t = rb.outputType) ∧
    ∀ v, Den full (config.merge [("x", 1)]) [] "save_both" v ↔
      ∃ data kw, ToSave full (config.merge [("x", 1)]) [] saveBoth data ∧
        AdapterArgs full (config.merge [("x", 1)]) [] cls.optional saveBoth.kwargs kw ∧ cls.save kw data = .ok v :=
  C53_saver_partial Sample.graph_wf full_ok (by decide) (by decide) (m := saveBoth) (by simp) (by decide)
    (clean_one _ _ (by intro s v h1 h2; cases h1))
    (by
      intro p h
      simp only [saveBoth, Dict.get?_cons, Dict.get?_nil] at h
      split at h <;> cases h)
    rfl
    (by
      intro t cls h
      cases h
      refine ⟨⟨by decide⟩, fun a b d h => ?_⟩
      simp only [saver]
      rw [cls_ext a b h, cls_ext a b h])
    (by decide) rfl rfl

/-- The sample functions and `def load_data.base()` (for instance a subdag or loader with namespace `load_data`), used by `w`. -/
def clashing : Graph Unit Int :=
  graphOf (fns ++ [fnNode "load_data.base" [] (fun _ => .ok 5), fnNode "w" [("load_data.base", .required)]
    (fun kw => .ok (arg kw "load_data.base" 0 + 1))])

/-- **C46 is false when a node is already called `load_data.<target>`**: a loader for `base` changes `w`, which does not depend
on `base`. -/
theorem C46_violated_clash : runOne clashing [("x", 1)] [] "w" = some 6 ∧ runOne clashing [("x", 1)] [("base", 51)] "w" = some 6 ∧
    runOne (modified clashing [] [loadBase]) [("x", 1)] [] "base" = some 51 ∧
    runOne (modified clashing [] [loadBase]) [("x", 1)] [] "w" = some 52 := by decide +kernel

/-- Two arguments with the same source. -/
def loadTwice : Extractor Unit Int := ⟨"base", fun _ => some loader, [("path", .source "x"), ("fmt", .source "x")]⟩

/-- **C53 is false when two arguments have the same source**: `from_.x(target="base", path=source("x"), fmt=source("x"))` with
`x = 1` should load with `path=1, fmt=1`; the loader gets `fmt` only. -/
theorem C53_violated_source :
    (∃ kw, AdapterArgs (modified Sample.graph [] [loadTwice]) [("x", 1)] [] loader.optional loadTwice.kwargs kw ∧
      loader.load kw = .ok (151, 0)) ∧
    runOne (modified Sample.graph [] [loadTwice]) [("x", 1)] [] "base" = some 150 := by
  refine ⟨⟨[("path", 1), ("fmt", 1)], ?_, rfl⟩, by decide +kernel⟩
  have hx : Den (modified Sample.graph [] [loadTwice]) [("x", 1)] [] "x" (1 : Int) := .input rfl rfl rfl rfl
  generalize modified Sample.graph [] [loadTwice] = gg at hx ⊢
  intro p
  simp only [loadTwice, Dict.get?_cons, Dict.get?_nil]
  by_cases h1 : "path" = p
  · simp only [h1, if_true]; exact .inl ⟨1, hx, rfl⟩
  · by_cases h2 : "fmt" = p
    · simp only [h1, h2, if_false, if_true]; exact .inl ⟨1, hx, rfl⟩
    · simp [h1, h2]

/-- A source named like an argument given as a literal. -/
def loadNamed : Extractor Unit Int := ⟨"base", fun _ => some loader, [("path", .source "fmt"), ("fmt", .value 3)]⟩

/-- The sample functions and `def fmt(): return 8` and `def path(): return 9`. -/
def named : Graph Unit Int := graphOf (fns ++ [fnNode "fmt" [] (fun _ => .ok 8), fnNode "path" [] (fun _ => .ok 9)])

/-- **C53 is false when a source is named like an argument given as a literal**: with `path=source("fmt"), fmt=3` and
`fmt() = 8` the loader should get `path=8, fmt=3`; it gets no `path`. -/
theorem C53_violated_literal :
    (∃ kw, AdapterArgs (modified named [] [loadNamed]) [("x", 1)] [] loader.optional loadNamed.kwargs kw ∧
      loader.load kw = .ok (358, 0)) ∧
    runOne (modified named [] [loadNamed]) [("x", 1)] [] "base" = some 350 := by
  refine ⟨⟨[("path", 8), ("fmt", 3)], ?_, rfl⟩, by decide +kernel⟩
  have hx : Den (modified named [] [loadNamed]) [("x", 1)] [] "fmt" (8 : Int) :=
    .call (fun _ => none) rfl rfl (by decide) (by intro d w hd; cases hd) (by intro d t hd; cases hd) rfl
  generalize modified named [] [loadNamed] = gg at hx ⊢
  intro p
  simp only [loadNamed, Dict.get?_cons, Dict.get?_nil]
  by_cases h1 : "path" = p
  · simp only [h1, if_true]; exact .inl ⟨8, hx, rfl⟩
  · by_cases h2 : "fmt" = p
    · simp only [h1, h2, if_false, if_true]
    · simp [h1, h2]

/-- `to.x(id="s", dependencies=["path"], path=5)`. -/
def savePath : Materializer Unit Int := ⟨"s", fun _ => some saver, none, ["path"], [("path", .value 5)]⟩

/-- **C53 is false when the saved node is named like an argument of the saver**: saving the node `path` (value 9) with the
argument `path=5` calls the saver without `path`. -/
theorem C53_violated_saved :
    (∃ data kw, ToSave (modified named [savePath] []) [("x", 1)] [] savePath data ∧
      AdapterArgs (modified named [savePath] []) [("x", 1)] [] saver.optional savePath.kwargs kw ∧ saver.save kw data = .ok 9050) ∧
    runOne (modified named [savePath] []) [("x", 1)] [] "s" = some 9000 := by
  refine ⟨⟨9, [("path", 5)], .single rfl rfl ?_, ?_, rfl⟩, by decide +kernel⟩
  · exact .call (fun _ => none) rfl rfl (by decide) (by intro d w hd; cases hd) (by intro d t hd; cases hd) rfl
  · intro p
    simp only [savePath, Dict.get?_cons, Dict.get?_nil]
    by_cases h1 : "path" = p
    · simp only [h1, if_true]
    · simp [h1]

/-- **C53 is false when two materializers have the same id**: the first one is silently dropped. -/
theorem C53_violated_ids :
    driverMaterialize sops tm oracle ⟨Sample.graph, config⟩
      [{ saveTop with id := "s" }, { saveTop with id := "s", dependencies := ["left"] }] [] [] (some [("x", 1)]) none =
    .ok ([("s", some 4073)], []) := by rfl

end MaterializeSample
end Verif
