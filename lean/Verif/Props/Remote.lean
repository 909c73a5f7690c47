import Verif.Proofs.Remote
import Verif.Props.Execution
import Verif.Props.ExecutionPath
import Verif.Props.Cycles
import Verif.Proofs.Async

/-! C75: execution on a cluster (Ray, Dask). -/
namespace Verif
variable {T V B : Type}

/-- What is true of the cluster at any time. -/
structure ClusterInv (g : Graph T V) (inputs overrides : Dict Name V) (req : List Name) (s : Cluster V) : Prop where
  done : ∀ k v, s.res.get? k = some (.ok v) → Den g inputs overrides k v
  failed : ∀ k e, s.res.get? k = some (.error e) → (∀ v, ¬ Den g inputs overrides k v) ∧
    ∃ m n kw, Needed g overrides req m ∧ overrides.get? m = none ∧ g.get? m = some n ∧ n.kind ≠ .external ∧
      RightArgs g inputs overrides n kw ∧ n.fn kw = .error e
  ran_ok : ∀ c ∈ s.ran, CallOk g inputs overrides req c
  ran_nodup : (s.ran.map (·.1)).Nodup
  ran_res : ∀ c ∈ s.ran, ∃ r, s.res.get? c.1 = some r

section
variable {reserved : List Name} {g : Graph T V} {inputs overrides : Dict Name V} {req : List Name}

theorem ClusterInv.start : ClusterInv g inputs overrides req (Cluster.init : Cluster V) where
  done := by intro k v h; cases h
  failed := by intro k v h; cases h
  ran_ok := by intro c h; cases h
  ran_nodup := List.nodup_nil
  ran_res := by intro c h; cases h

/-- The values behind the arguments of a submitted call are the right arguments. -/
theorem gather_right (hw : WellFormed g) {s : Cluster V} (hi : ClusterInv g inputs overrides req s) {k : Name} {n : Node T V}
    (hn : g.get? k = some n) {kw : Dict Name (Obj V)}
    (hkw : RightArgs (remoteGraph reserved g) (valDict inputs) (valDict overrides) (remoteNode reserved n) kw)
    {args : Dict Name V} (h : gather (valueOf s.res) kw = some args) : RightArgs g inputs overrides n args := by
  obtain ⟨val, h1, h2, rfl⟩ := hkw
  obtain ⟨h3, rfl⟩ := gather_some h
  change ∀ d w, d ∈ n.inputTypes.keys → _ at h1
  change ∀ d t, (d, t) ∈ n.inputTypes → _ at h2
  refine ⟨fun d => (val d).bind (valueOf s.res), ?_, ?_, ?_⟩
  · intro d w hd hv
    obtain ⟨o, ho, hov⟩ := Option.bind_eq_some_iff.1 hv
    rcases remote_den_cases hw (h1 d o hd ho) with ⟨v, rfl, hden⟩ | ⟨rfl, _, _⟩
    · cases hov; exact hden
    · unfold valueOf at hov
      cases hr : s.res.get? d with
      | none => simp only [hr] at hov; cases hov
      | some r =>
        cases r with
        | error e => simp only [hr] at hov; cases hov
        | ok v => simp only [hr] at hov; cases hov; exact hi.done d _ hr
  · intro d t hd hv
    cases hval : val d with
    | none =>
      obtain ⟨e1, e2⟩ := h2 d t hd hval
      exact ⟨e1, remote_absent.1 e2⟩
    | some o =>
      exfalso
      have hmem : (d, o) ∈ argsFor (remoteNode reserved n).inputTypes val :=
        List.mem_filterMap.2 ⟨(d, t), hd, by simp [hval]⟩
      obtain ⟨b, hb⟩ := h3 _ hmem
      simp only [hval, Option.bind_some] at hv
      rw [hv] at hb; cases hb
  · unfold argsFor
    rw [List.filterMap_filterMap]
    change List.filterMap _ n.inputTypes = _
    congr 1
    funext p
    cases hval : val p.1 with
    | none => simp [hval]
    | some o => simp [hval]

/-- Right arguments are unique. -/
theorem rightArgs_unique {n : Node T V} {kw kw' : Dict Name V} (h : RightArgs g inputs overrides n kw)
    (h' : RightArgs g inputs overrides n kw') : kw = kw' := by
  obtain ⟨v1, a1, a2, rfl⟩ := h
  obtain ⟨v2, b1, b2, rfl⟩ := h'
  exact args_unique a1 a2 b1 b2 (fun d w w' hd e1 e2 => (a1 d w hd e1).det (b1 d w' hd e2))

/-- What a move does. -/
theorem Cluster.step_cases (g : Graph T V) (subs : List (Name × Dict Name (Obj V))) (s : Cluster V) (m : Move) :
    s.step g subs m = s ∨
    (∃ k kw n args, m = .run k ∧ s.res.get? k = none ∧ Dict.get? subs k = some kw ∧ g.get? k = some n ∧
      gather (valueOf s.res) kw = some args ∧
      s.step g subs m = ⟨s.res.set k (n.fn args), s.ran ++ [(k, args)]⟩) ∨
    (∃ k p kw o e, m = .fail k p ∧ s.res.get? k = none ∧ Dict.get? subs k = some kw ∧ Dict.get? kw p = some o ∧
      errorOf s.res o = some e ∧ s.step g subs m = ⟨s.res.set k (.error e), s.ran⟩) := by
  cases m with
  | run k =>
    simp only [Cluster.step]
    split
    · rename_i kw n h1 h2 h3
      split
      · rename_i args h4
        exact .inr (.inl ⟨k, kw, n, args, rfl, h1, h2, h3, h4, rfl⟩)
      · exact .inl rfl
    · exact .inl rfl
  | fail k p =>
    simp only [Cluster.step]
    split
    · rename_i kw h1 h2
      split
      · rename_i e h3
        obtain ⟨o, h4, h5⟩ := Option.bind_eq_some_iff.1 h3
        exact .inr (.inr ⟨k, p, kw, o, e, rfl, h1, h2, h4, h5, rfl⟩)
      · exact .inl rfl
    · exact .inl rfl

theorem ClusterInv.step (hw : WellFormed g) {subs : List (Name × Dict Name (Obj V))}
    (hs : ∀ c ∈ subs, CallOk (remoteGraph reserved g) (valDict inputs) (valDict overrides) req c)
    {s : Cluster V} (hi : ClusterInv g inputs overrides req s) (m : Move) :
    ClusterInv g inputs overrides req (s.step g subs m) := by
  rcases Cluster.step_cases g subs s m with heq | ⟨k, kw, n, args, _, hr, hsub, hn, hga, heq⟩ |
      ⟨k, p, kw, o, e, _, hr, hsub, hp, hoe, heq⟩
  · rw [heq]; exact hi
  · rw [heq]
    obtain ⟨hneed, ho, n', hn', hkind, hargs⟩ := hs _ (Dict.get?_mem hsub)
    obtain ⟨n0, h0, rfl⟩ := remoteGraph_some hn'
    rw [hn] at h0; cases h0
    have hright := gather_right hw hi hn hargs hga
    have hneed' := remote_needed hneed
    have ho' := valDict_none.1 ho
    refine ⟨?_, ?_, ?_, ?_, ?_⟩
    · intro j v hj
      rw [Dict.get?_set] at hj
      split at hj
      · subst_vars
        obtain ⟨val, a1, a2, rfl⟩ := hright
        exact .call val hn ho' hkind a1 a2 (Option.some.inj hj)
      · exact hi.done j v hj
    · intro j e hj
      rw [Dict.get?_set] at hj
      split at hj
      · subst_vars
        have hfn := Option.some.inj hj
        refine ⟨?_, _, n, args, hneed', ho', hn, hkind, hright, hfn⟩
        intro v hv
        cases hv with
        | override _ h => rw [ho'] at h; cases h
        | input h1 _ h3 _ => rw [hn] at h1; cases h1; exact hkind h3
        | call val h1 _ _ h4 h5 h6 =>
          rw [hn] at h1; cases h1
          rw [rightArgs_unique ⟨val, h4, h5, rfl⟩ hright, hfn] at h6
          cases h6
      · exact hi.failed j e hj
    · intro c hc
      rcases List.mem_append.1 hc with hc | hc
      · exact hi.ran_ok c hc
      · rw [List.mem_singleton.1 hc]
        exact ⟨hneed', ho', n, hn, hkind, hright⟩
    · rw [List.map_append, List.nodup_append]
      refine ⟨hi.ran_nodup, by simp, ?_⟩
      intro a ha b hb
      obtain ⟨c, hc, rfl⟩ := List.mem_map.1 ha
      obtain ⟨r, hr'⟩ := hi.ran_res c hc
      simp only [List.map_cons, List.map_nil, List.mem_singleton] at hb
      subst hb
      intro heq
      rw [heq, hr] at hr'; cases hr'
    · intro c hc
      rw [Dict.get?_set]
      split
      · exact ⟨_, rfl⟩
      · rename_i hne
        rcases List.mem_append.1 hc with hc | hc
        · exact hi.ran_res c hc
        · rw [List.mem_singleton.1 hc] at hne
          exact absurd rfl hne
  · rw [heq]
    obtain ⟨hneed, ho, n', hn', hkind, val, a1, a2, a3⟩ := hs _ (Dict.get?_mem hsub)
    obtain ⟨n, hn, rfl⟩ := remoteGraph_some hn'
    have ho' := valDict_none.1 ho
    dsimp only at a3
    rw [a3] at hp
    obtain ⟨⟨d, t⟩, hd, hdp⟩ := List.mem_filterMap.1 (Dict.get?_mem hp)
    change (d, t) ∈ n.inputTypes at hd
    obtain ⟨o', ho1, ho2⟩ := Option.map_eq_some_iff.1 hdp
    have e1 : p = d := (Prod.mk.inj ho2).1.symm
    have e2 : o = o' := (Prod.mk.inj ho2).2.symm
    subst e1; subst e2
    have hdk : p ∈ n.inputTypes.keys := mem_keys_of_mem hd
    have hbad : (∀ v, ¬ Den g inputs overrides p v) ∧ (∃ m, g.get? p = some m ∧ m.kind ≠ .external) ∧
        ∃ m n kw, Needed g overrides req m ∧ overrides.get? m = none ∧ g.get? m = some n ∧ n.kind ≠ .external ∧
          RightArgs g inputs overrides n kw ∧ n.fn kw = .error e := by
      rcases remote_den_cases hw (a1 p o hdk ho1) with ⟨v, rfl, _⟩ | ⟨rfl, _, m, hm, hmk⟩
      · cases hoe
      · unfold errorOf at hoe
        cases hrp : s.res.get? p with
        | none => simp only [hrp] at hoe; cases hoe
        | some r =>
          cases r with
          | ok v => simp only [hrp] at hoe; cases hoe
          | error e' =>
            simp only [hrp] at hoe; cases hoe
            obtain ⟨b1, b2⟩ := hi.failed p _ hrp
            exact ⟨b1, ⟨m, hm, hmk⟩, b2⟩
    obtain ⟨hno, ⟨m, hm, hmk⟩, hblame⟩ := hbad
    refine ⟨?_, ?_, hi.ran_ok, hi.ran_nodup, ?_⟩
    · intro j v hj
      rw [Dict.get?_set] at hj
      split at hj
      · cases hj
      · exact hi.done j v hj
    · intro j e' hj
      rw [Dict.get?_set] at hj
      split at hj
      · subst_vars
        cases hj
        refine ⟨?_, hblame⟩
        intro v hv
        cases hv with
        | override _ h => rw [ho'] at h; cases h
        | input h1 _ h3 _ => rw [hn] at h1; cases h1; exact hkind h3
        | call val' h1 _ _ h4 h5 _ =>
          rw [hn] at h1; cases h1
          cases hv' : val' p with
          | some w => exact hno w (h4 p w hdk hv')
          | none =>
            obtain ⟨_, m', hm', hk', _⟩ := h5 p t hd hv'
            rw [hm] at hm'; cases hm'
            exact hmk hk'
      · exact hi.failed j e' hj
    · intro c hc
      rw [Dict.get?_set]
      split
      · exact ⟨_, rfl⟩
      · exact hi.ran_res c hc

theorem ClusterInv.after (hw : WellFormed g) {subs : List (Name × Dict Name (Obj V))}
    (hs : ∀ c ∈ subs, CallOk (remoteGraph reserved g) (valDict inputs) (valDict overrides) req c) (moves : List Move) :
    ClusterInv g inputs overrides req (Cluster.after g subs moves) := by
  unfold Cluster.after
  have key : ∀ (ms : List Move) (s : Cluster V), ClusterInv g inputs overrides req s →
      ClusterInv g inputs overrides req (ms.foldl (Cluster.step g subs) s) := by
    intro ms
    induction ms with
    | nil => intro s h; exact h
    | cons m ms ih => intro s h; exact ih _ (h.step hw hs m)
  exact key moves _ .start

end

/-! ### The walk -/

section
variable {reserved : List Name} {fg : FnGraph T V} {finalVars : List Name} {overrides inputs : Dict Name V}

/-- The run of the walk. -/
def walkRun (reserved : List Name) (fg : FnGraph T V) (finalVars : List Name) (overrides inputs : Dict Name V) :
    Out (ExecState (Obj V)) ExecErr :=
  executeSubdag (remoteGraph reserved fg.nodes) (requestedNodes (remoteGraph reserved fg.nodes) finalVars)
    (valDict (fg.config.merge inputs)) (valDict overrides)

theorem submissions_eq : submissions reserved fg finalVars overrides inputs =
    (walkRun reserved fg finalVars overrides inputs).state.calls := by
  unfold submissions walkRun requestedNodes
  rw [valDict_merge]

theorem submissions_ok (hw : WellFormed fg.nodes) :
    ((submissions reserved fg finalVars overrides inputs).map (·.1)).Nodup ∧
    ∀ c ∈ submissions reserved fg finalVars overrides inputs,
      CallOk (remoteGraph reserved fg.nodes) (valDict (fg.config.merge inputs)) (valDict overrides) finalVars c := by
  rw [submissions_eq]
  have hw' : WellFormed (remoteGraph reserved fg.nodes) := remote_wf hw
  have h := executeSubdag_spec hw' _ (requestedNodes_ok hw' finalVars) (valDict (fg.config.merge inputs)) (valDict overrides)
  have ht : TraceInv (remoteGraph reserved fg.nodes) (valDict (fg.config.merge inputs)) (valDict overrides)
      ((requestedNodes (remoteGraph reserved fg.nodes) finalVars).map (·.name))
      (walkRun reserved fg finalVars overrides inputs).state := by
    cases hr : walkRun reserved fg finalVars overrides inputs with
    | ok s => unfold walkRun at hr; rw [hr] at h; exact h.1.toTraceInv
    | err e s => unfold walkRun at hr; rw [hr] at h; exact h.1
  refine ⟨ht.calls_nodup, fun c hc => ?_⟩
  obtain ⟨h1, h2⟩ := ht.calls_ok c hc
  exact ⟨h1.requested hw', h2⟩

/-- A walk that succeeds. -/
theorem remoteWalk_ok {outs : Dict Name (Option (Obj V))} (h : remoteWalk reserved fg finalVars overrides inputs = .ok outs) :
    (∃ s, walkRun reserved fg finalVars overrides inputs = .ok s ∧
      outs = finalVars.foldl (fun (out : Dict Name (Option (Obj V))) k => out.set k (s.computed.get? k <|> (valDict inputs).get? k)) []) ∧
    ∀ k ∈ inputs.keys, k ∉ fg.config.keys := by
  unfold remoteWalk defaultExecutorExecute at h
  cases hc : combineConfigAndInputs (valDict fg.config) (valDict inputs) with
  | error ks => rw [hc] at h; cases h
  | ok all =>
    rw [hc] at h
    obtain ⟨rfl, hdisj⟩ := combine_ok hc
    rw [valDict_keys, valDict_keys] at hdisj
    refine ⟨?_, hdisj⟩
    rw [← valDict_merge] at h
    dsimp only at h
    cases hr : walkRun reserved fg finalVars overrides inputs with
    | err e s => unfold walkRun requestedNodes at hr; rw [hr] at h; cases h
    | ok s =>
      unfold walkRun requestedNodes at hr
      rw [hr] at h
      refine ⟨s, rfl, ?_⟩
      rw [← Except.ok.inj h]
      congr 1
      funext out k
      cases s.computed.get? k <;> rfl

theorem walk_ok_remote {s : ExecState (Obj V)} (hdisj : ∀ k ∈ inputs.keys, k ∉ fg.config.keys)
    (hr : walkRun reserved fg finalVars overrides inputs = .ok s) :
    remoteWalk reserved fg finalVars overrides inputs =
      .ok (finalVars.foldl (fun (out : Dict Name (Option (Obj V))) k => out.set k (s.computed.get? k <|> (valDict inputs).get? k)) []) := by
  have hcomb : combineConfigAndInputs (valDict fg.config) (valDict inputs) = .ok (valDict (fg.config.merge inputs)) := by
    unfold combineConfigAndInputs
    have : (valDict inputs).keys.filter (fun k => (valDict fg.config).has k) = [] := by
      rw [List.filter_eq_nil_iff, valDict_keys]
      intro k hk hc
      have := (Dict.has_iff _ _).1 hc
      rw [valDict_keys] at this
      exact hdisj k hk this
    simp [this, valDict_merge]
  unfold remoteWalk defaultExecutorExecute
  rw [hcomb]
  dsimp only
  unfold walkRun requestedNodes at hr
  rw [hr]
  dsimp only
  congr 2
  funext out k
  cases s.computed.get? k <;> rfl

/-- What is stored at the end of a walk that succeeds. -/
theorem walkRun_ok (hw : WellFormed fg.nodes) {s : ExecState (Obj V)}
    (hr : walkRun reserved fg finalVars overrides inputs = .ok s) :
    (∀ k o, s.computed.get? k = some o →
      Den (remoteGraph reserved fg.nodes) (valDict (fg.config.merge inputs)) (valDict overrides) k o) ∧
    (∀ k ∈ finalVars, ∀ n, fg.nodes.get? k = some n → (∃ o, s.computed.get? k = some o) ∨
      (n.kind = .external ∧ Absent fg.nodes (fg.config.merge inputs) overrides k)) ∧
    (∀ c ∈ s.calls, ∃ o, Den (remoteGraph reserved fg.nodes) (valDict (fg.config.merge inputs)) (valDict overrides) c.1 o) ∧
    (∀ k n, fg.nodes.get? k = some n → n.kind ≠ .external → overrides.get? k = none → Needed fg.nodes overrides finalVars k →
      k ∈ s.calls.map (·.1)) := by
  have hw' : WellFormed (remoteGraph reserved fg.nodes) := remote_wf hw
  have h := executeSubdag_spec hw' _ (requestedNodes_ok hw' finalVars) (valDict (fg.config.merge inputs)) (valDict overrides)
  unfold walkRun at hr
  rw [hr] at h
  obtain ⟨hinv, hall⟩ := h
  refine ⟨hinv.den, ?_, ?_, ?_⟩
  · intro k hk n hn
    have hmem : remoteNode reserved n ∈ requestedNodes (remoteGraph reserved fg.nodes) finalVars :=
      List.mem_filterMap.2 ⟨k, hk, remoteGraph_of hn⟩
    have hname : (remoteNode reserved n).name = k := hw.name_eq hn
    rcases hall _ hmem with h1 | ⟨h1, h2⟩
    · rw [hname] at h1; exact .inl h1
    · rw [hname] at h2; exact .inr ⟨h1, remote_absent.1 h2⟩
  · intro c hc
    exact hinv.has_den _ (hinv.calls_sub c hc)
  · intro k n hn hkind ho hneed
    exact executeSubdag_all_called hw' (requestedNodes_ok hw' finalVars) hr (remoteGraph_of hn) hkind (valDict_none.2 ho)
      ((needed_remote hneed).nodes hw' ⟨_, remoteGraph_of hn⟩)

/-! ### The properties -/

/-- **C75, what is submitted.**  Whether the walk succeeds or not, every call is handed to the cluster at most once, and only
calls of functions that are needed and not overridden; each argument is the given value of the parameter, or the reference of the
call of the function with the parameter's name. -/
theorem C75_submitted_once (hg : DriverGraph fg) :
    ((submissions reserved fg finalVars overrides inputs).map (·.1)).Nodup ∧
    ∀ c ∈ submissions reserved fg finalVars overrides inputs,
      Needed fg.nodes overrides finalVars c.1 ∧ overrides.get? c.1 = none ∧
      ∃ n, fg.nodes.get? c.1 = some n ∧ n.kind ≠ .external ∧
        ∀ d o, Dict.get? c.2 d = some o → d ∈ n.inputTypes.keys ∧
          ((∃ v, o = .val v ∧ Den fg.nodes (fg.config.merge inputs) overrides d v) ∨
            (o = .ref d ∧ overrides.get? d = none ∧ ∃ dn, fg.nodes.get? d = some dn ∧ dn.kind ≠ .external)) := by
  obtain ⟨h1, h2⟩ := submissions_ok (reserved := reserved) (finalVars := finalVars) (overrides := overrides) (inputs := inputs) hg.wf
  refine ⟨h1, fun c hc => ?_⟩
  obtain ⟨h3, h4, n', h5, h6, val, a1, a2, a3⟩ := h2 c hc
  obtain ⟨n, hn, rfl⟩ := remoteGraph_some h5
  refine ⟨remote_needed h3, valDict_none.1 h4, n, hn, h6, fun d o hd => ?_⟩
  rw [a3] at hd
  obtain ⟨h7, h8⟩ := argsFor_mem (Dict.get?_mem hd)
  exact ⟨h7, remote_den_cases hg.wf (a1 d o h7 h8)⟩

/-- **C75, everything needed is submitted.**  When the walk succeeds, every needed function that is not overridden has been
handed to the cluster. -/
theorem C75_all_submitted (hg : DriverGraph fg) {outs : Dict Name (Option (Obj V))}
    (h : remoteWalk reserved fg finalVars overrides inputs = .ok outs) {k : Name} {n : Node T V} (hn : fg.nodes.get? k = some n)
    (hk : n.kind ≠ .external) (ho : overrides.get? k = none) (hneed : Needed fg.nodes overrides finalVars k) :
    k ∈ (submissions reserved fg finalVars overrides inputs).map (·.1) := by
  obtain ⟨⟨s, hr, _⟩, _⟩ := remoteWalk_ok h
  rw [submissions_eq, hr]
  exact (walkRun_ok hg.wf hr).2.2.2 k n hn hk ho hneed

/-- **C75, results on the cluster.**  In whatever order the cluster runs the calls: a result is the value of the node by
functional composition; a call fails only if its node has no value, with the exception of a needed function that raises it on its
right arguments; and every function is run at most once, with its right arguments. -/
theorem C75_cluster (hg : DriverGraph fg) (moves : List Move) {s : Cluster V}
    (hs : s = Cluster.after fg.nodes (submissions reserved fg finalVars overrides inputs) moves) :
    (∀ k v, s.res.get? k = some (.ok v) → Den fg.nodes (fg.config.merge inputs) overrides k v) ∧
    (∀ k e, s.res.get? k = some (.error e) → (∀ v, ¬ Den fg.nodes (fg.config.merge inputs) overrides k v) ∧
      ∃ m n kw, Needed fg.nodes overrides finalVars m ∧ overrides.get? m = none ∧ fg.nodes.get? m = some n ∧
        RightArgs fg.nodes (fg.config.merge inputs) overrides n kw ∧ n.fn kw = .error e) ∧
    (s.ran.map (·.1)).Nodup ∧
    (∀ c ∈ s.ran, Needed fg.nodes overrides finalVars c.1 ∧ overrides.get? c.1 = none ∧
      ∃ n, fg.nodes.get? c.1 = some n ∧ n.kind ≠ .external ∧ RightArgs fg.nodes (fg.config.merge inputs) overrides n c.2) := by
  obtain ⟨_, h2⟩ := submissions_ok (reserved := reserved) (finalVars := finalVars) (overrides := overrides) (inputs := inputs) hg.wf
  have hi := ClusterInv.after hg.wf h2 moves
  rw [← hs] at hi
  refine ⟨hi.done, fun k e h => ?_, hi.ran_nodup, hi.ran_ok⟩
  obtain ⟨h3, m, n, kw, h4, h5, h6, _, h7, h8⟩ := hi.failed k e h
  exact ⟨h3, m, n, kw, h4, h5, h6, h7, h8⟩

/-- **C75, the cluster gets there.**  Results never change; a move does nothing or ends exactly one more of the submitted calls.
And as long as some submitted call has not ended, some move ends one: there is no deadlock. -/
theorem C75_progress (hg : DriverGraph fg) {outs : Dict Name (Option (Obj V))}
    (h : remoteWalk reserved fg finalVars overrides inputs = .ok outs) (moves : List Move) {s : Cluster V}
    (hs : s = Cluster.after fg.nodes (submissions reserved fg finalVars overrides inputs) moves) :
    (∀ m, s.step fg.nodes (submissions reserved fg finalVars overrides inputs) m = s ∨
      ∃ j ∈ (submissions reserved fg finalVars overrides inputs).map (·.1), s.res.get? j = none ∧
        ∃ r, ∀ k, (s.step fg.nodes (submissions reserved fg finalVars overrides inputs) m).res.get? k =
          if k = j then some r else s.res.get? k) ∧
    (∀ k ∈ (submissions reserved fg finalVars overrides inputs).map (·.1), s.res.get? k = none →
      ∃ m j r, s.res.get? j = none ∧
        (s.step fg.nodes (submissions reserved fg finalVars overrides inputs) m).res.get? j = some r) := by
  obtain ⟨hnd, h2⟩ := submissions_ok (reserved := reserved) (finalVars := finalVars) (overrides := overrides) (inputs := inputs) hg.wf
  have hi := ClusterInv.after hg.wf h2 moves
  rw [← hs] at hi
  obtain ⟨⟨st, hr, _⟩, _⟩ := remoteWalk_ok h
  have hsub : submissions reserved fg finalVars overrides inputs = st.calls := by rw [submissions_eq, hr]; rfl
  obtain ⟨_, _, hden, hall⟩ := walkRun_ok hg.wf hr
  rw [← hsub] at hden hall
  clear hs
  refine ⟨?_, ?_⟩
  · intro m
    rcases Cluster.step_cases fg.nodes (submissions reserved fg finalVars overrides inputs) s m with heq |
        ⟨k, kw, n, args, _, hr, hsub, hn, hga, heq⟩ | ⟨k, p, kw, o, e, _, hr, hsub, hp, hoe, heq⟩
    · exact .inl heq
    · refine .inr ⟨k, List.mem_map_of_mem (Dict.get?_mem hsub), hr, n.fn args, fun j => ?_⟩
      rw [heq]
      rw [Dict.get?_set]
      by_cases hjk : j = k
      · subst hjk; simp
      · rw [if_neg hjk, if_neg (fun e => hjk e.symm)]
    · refine .inr ⟨k, List.mem_map_of_mem (Dict.get?_mem hsub), hr, .error e, fun j => ?_⟩
      rw [heq]
      rw [Dict.get?_set]
      by_cases hjk : j = k
      · subst hjk; simp
      · rw [if_neg hjk, if_neg (fun e => hjk e.symm)]
  · have key : ∀ k o, Den (remoteGraph reserved fg.nodes) (valDict (fg.config.merge inputs)) (valDict overrides) k o →
        k ∈ (submissions reserved fg finalVars overrides inputs).map (·.1) → s.res.get? k = none →
        ∃ m j r, s.res.get? j = none ∧
          (s.step fg.nodes (submissions reserved fg finalVars overrides inputs) m).res.get? j = some r := by
      intro k o hd
      induction hd with
      | @override k n v h1 h2' =>
        intro hk
        exfalso
        obtain ⟨c, hc, rfl⟩ := List.mem_map.1 hk
        have := (h2 c hc).2.1
        rw [h2'] at this; cases this
      | @input k n v h1 h2' h3 h4 =>
        intro hk
        exfalso
        obtain ⟨c, hc, rfl⟩ := List.mem_map.1 hk
        obtain ⟨n', e1, e2, _⟩ := (h2 c hc).2.2
        rw [h1] at e1; cases e1
        exact e2 h3
      | @call k n' v val h1 h2' h3 h4 h5 h6 ih =>
        intro hk hnone
        obtain ⟨n, hn, rfl⟩ := remoteGraph_some h1
        obtain ⟨⟨k', kw⟩, hc, rfl⟩ := List.mem_map.1 hk
        dsimp only at *
        have hget : Dict.get? (submissions reserved fg finalVars overrides inputs) k' = some kw := Dict.get?_of_mem hnd hc
        obtain ⟨hneed, ho, n2, e1, e2, hargs⟩ := h2 _ hc
        dsimp only at *
        rw [h1] at e1; cases e1
        have hkw : kw = argsFor n.inputTypes val := rightArgs_unique hargs ⟨val, h4, h5, rfl⟩
        cases hga : gather (valueOf s.res) kw with
        | some args =>
          refine ⟨.run k', k', n.fn args, hnone, ?_⟩
          simp only [Cluster.step, hnone, hget, hn, hga, Dict.get?_set_self]
        | none =>
          obtain ⟨⟨d, o⟩, hmem, hval⟩ := gather_none hga
          dsimp only at hval
          have hmem' := hmem
          rw [hkw] at hmem'
          obtain ⟨hdk, hdo⟩ := argsFor_mem hmem'
          rcases remote_den_cases hg.wf (h4 d o hdk hdo) with ⟨v, rfl, _⟩ | ⟨rfl, hod, dn, hdn, hdkind⟩
          · cases hval
          · cases hrd : s.res.get? d with
            | none =>
              refine ih d _ hdk hdo ?_ hrd
              exact hall d dn hdn hdkind hod
                (.param (remote_needed hneed) (valDict_none.1 ho) hn hdk)
            | some r =>
              cases r with
              | ok v => simp only [valueOf, hrd] at hval; cases hval
              | error e =>
                have hkn : kw.keys.Nodup := by
                  rw [hkw]; exact argsFor_keys_nodup (hg.wf.params_nodup hn) val
                have hgd : Dict.get? kw d = some (.ref d) := Dict.get?_of_mem hkn hmem
                have hb : (Dict.get? kw d).bind (errorOf s.res) = some e := by
                  rw [hgd]; simp only [Option.bind_some, errorOf, hrd]
                refine ⟨.fail k' d, k', .error e, hnone, ?_⟩
                simp only [Cluster.step, hnone, hget, hb, Dict.get?_set_self]
    intro k hk hnone
    obtain ⟨c, hc, rfl⟩ := List.mem_map.1 hk
    obtain ⟨o, ho⟩ := hden c hc
    exact key _ o ho hk hnone

/-- A node with a value is walked without a refused call if no needed function has a reserved parameter. -/
theorem den_remote {req : List Name} {g : Graph T V} {given ovr : Dict Name V}
    (hfree : ∀ k n, Needed g ovr req k → ovr.get? k = none → g.get? k = some n → n.kind ≠ .external →
      ∀ p ∈ n.inputTypes.keys, p ∉ reserved) {k : Name} {v : V} (h : Den g given ovr k v) :
    Needed g ovr req k → ∃ o, Den (remoteGraph reserved g) (valDict given) (valDict ovr) k o := by
  induction h with
  | @override k n v h1 h2 =>
    intro _
    exact ⟨.val v, .override (remoteGraph_of h1) (by rw [valDict_get?, h2]; rfl)⟩
  | @input k n v h1 h2 h3 h4 =>
    intro _
    exact ⟨.val v, .input (remoteGraph_of h1) (valDict_none.2 h2) h3 (by rw [valDict_get?, h4]; rfl)⟩
  | @call k n v val h1 h2 h3 h4 h5 h6 ih =>
    intro hneed
    have hex : ∀ d, ∃ o : Option (Obj V), d ∈ n.inputTypes.keys →
        (val d = none → o = none) ∧ (∀ w, val d = some w → ∃ x, o = some x ∧
          Den (remoteGraph reserved g) (valDict given) (valDict ovr) d x) := by
      intro d
      by_cases hd : d ∈ n.inputTypes.keys
      · cases hv : val d with
        | none => exact ⟨none, fun _ => ⟨fun _ => rfl, fun w hw => (by cases hw)⟩⟩
        | some w =>
          obtain ⟨x, hx⟩ := ih d w hd hv (.param hneed h2 h1 hd)
          exact ⟨some x, fun _ => ⟨fun h => (by cases h), fun w' hw => ⟨x, rfl, hx⟩⟩⟩
      · exact ⟨none, fun h => absurd h hd⟩
    let val' : Name → Option (Obj V) := fun d => Classical.choose (hex d)
    have hval' : ∀ d, d ∈ n.inputTypes.keys → (val d = none → val' d = none) ∧ (∀ w, val d = some w → ∃ x, val' d = some x ∧
          Den (remoteGraph reserved g) (valDict given) (valDict ovr) d x) := fun d => Classical.choose_spec (hex d)
    refine ⟨.ref n.name, .call (n := remoteNode reserved n) val' (remoteGraph_of h1) (valDict_none.2 h2) h3 ?_ ?_ ?_⟩
    · intro d w hd hw
      cases hv : val d with
      | none => rw [(hval' d hd).1 hv] at hw; cases hw
      | some u =>
        obtain ⟨x, hx, hx'⟩ := (hval' d hd).2 u hv
        rw [hw] at hx; cases hx; exact hx'
    · intro d t hd hw
      have hdk : d ∈ n.inputTypes.keys := mem_keys_of_mem hd
      cases hv : val d with
      | none =>
        obtain ⟨a, b⟩ := h5 d t hd hv
        exact ⟨a, remote_absent.2 b⟩
      | some u =>
        obtain ⟨x, hx, _⟩ := (hval' d hdk).2 u hv
        rw [hw] at hx; cases hx
    · change (if _ then Except.error "TypeError" else Except.ok (Obj.ref n.name)) = _
      rw [if_neg]
      intro hany
      obtain ⟨p, hp, hres⟩ := List.any_eq_true.1 hany
      obtain ⟨q, hq, rfl⟩ := List.mem_map.1 hp
      obtain ⟨hpk, _⟩ := argsFor_mem (d := q.1) (v := q.2) hq
      exact hfree k n hneed h2 h1 h3 q.1 hpk (List.contains_iff_mem.1 hres)

/-- What an output of the walk stands for. -/
theorem outputOf_walk (hg : DriverGraph fg) {s : ExecState (Obj V)}
    (hr : walkRun reserved fg finalVars overrides inputs = .ok s) {c : Cluster V}
    (hi : ClusterInv fg.nodes (fg.config.merge inputs) overrides finalVars c)
    (hdone : ∀ k ∈ s.calls.map (·.1), ∃ r, c.res.get? k = some r) {k : Name} (hk : k ∈ finalVars) {v : V}
    (hv : Den fg.nodes (fg.config.merge inputs) overrides k v) :
    outputOf c.res (s.computed.get? k <|> (valDict inputs).get? k) = some (some v) := by
  obtain ⟨h1, h2, _, h4⟩ := walkRun_ok hg.wf hr
  have hn : ∃ n, fg.nodes.get? k = some n := by
    cases hv with
    | override h _ => exact ⟨_, h⟩
    | input h _ _ _ => exact ⟨_, h⟩
    | call _ h _ _ _ _ _ => exact ⟨_, h⟩
  obtain ⟨n, hn⟩ := hn
  rcases h2 k hk n hn with ⟨o, ho⟩ | ⟨_, habs⟩
  · rw [ho]
    change (valueOf c.res o).map some = _
    rcases remote_den_cases hg.wf (h1 k o ho) with ⟨w, rfl, hw⟩ | ⟨rfl, hov, n', hn', hkind⟩
    · rw [hw.det hv]; rfl
    · obtain ⟨r, hres⟩ := hdone k (h4 k n' hn' hkind hov (.req hk))
      cases r with
      | ok w => simp only [valueOf, hres, Option.map_some]; rw [(hi.done k w hres).det hv]
      | error e => exact absurd hv ((hi.failed k e hres).1 v)
  · exact absurd hv habs.not_den

/-- A local run that succeeds. -/
theorem localRun_ok {out : Dict Name (Option V)} (h : defaultExecutorExecute fg finalVars overrides inputs = .ok out) :
    (∃ s, executeSubdag fg.nodes (requestedNodes fg.nodes finalVars) (fg.config.merge inputs) overrides = .ok s ∧
      out = finalVars.foldl (fun (out : Dict Name (Option V)) k => out.set k (s.computed.get? k <|> inputs.get? k)) []) ∧
    ∀ k ∈ inputs.keys, k ∉ fg.config.keys := by
  unfold defaultExecutorExecute at h
  cases hc : combineConfigAndInputs fg.config inputs with
  | error ks => rw [hc] at h; cases h
  | ok all =>
    rw [hc] at h
    obtain ⟨rfl, hdisj⟩ := combine_ok hc
    refine ⟨?_, hdisj⟩
    dsimp only at h
    unfold requestedNodes
    cases hr : executeSubdag fg.nodes (finalVars.filterMap (fun k => fg.nodes.get? k)) (fg.config.merge inputs) overrides with
    | err e s => rw [hr] at h; cases h
    | ok s =>
      rw [hr] at h
      refine ⟨s, rfl, ?_⟩
      rw [← Except.ok.inj h]
      congr 1
      funext out k
      cases s.computed.get? k <;> rfl

/-- A local run that fails: config and inputs clash, or some requested node has no value and is not an input. -/
theorem localRun_err (hg : DriverGraph fg) {e : DriverErr} (h : defaultExecutorExecute fg finalVars overrides inputs = .error e) :
    (¬ ∀ k ∈ inputs.keys, k ∉ fg.config.keys) ∨
    ∃ k ∈ finalVars, ∃ n, fg.nodes.get? k = some n ∧ (∀ v, ¬ Den fg.nodes (fg.config.merge inputs) overrides k v) ∧
      ¬ Absent fg.nodes (fg.config.merge inputs) overrides k := by
  apply Classical.byContradiction
  intro hno
  have hdisj : ∀ k ∈ inputs.keys, k ∉ fg.config.keys := Classical.byContradiction (fun h => hno (.inl h))
  obtain ⟨out, ho⟩ := defaultExecutor_complete (g := fg.nodes) (config := fg.config) (finalVars := finalVars)
    (overrides := overrides) hg.wf hdisj (by
      intro k hk n hn
      apply Classical.byContradiction
      intro hc
      exact hno (.inr ⟨k, hk, n, hn, fun v hv => hc (.inl ⟨v, hv⟩), fun ha => hc (.inr ha)⟩))
  rw [h] at ho; cases ho

/-- **C75, same result (partial: parameters with reserved names are excluded, see `C75_violated_reserved`).**  If the call
succeeds locally, then with the adapter the walk succeeds, and once the cluster has ended all the calls, in whatever order,
the result fetched is what the result builder makes of exactly the outputs of the local execution. -/
theorem C75_same_result_partial (hg : DriverGraph fg)
    (hfree : ∀ k n, Needed fg.nodes overrides finalVars k → overrides.get? k = none → fg.nodes.get? k = some n →
      n.kind ≠ .external → ∀ p ∈ n.inputTypes.keys, p ∉ reserved)
    {out : Dict Name (Option V)} (h : defaultExecutorExecute fg finalVars overrides inputs = .ok out) :
    ∃ outs, remoteWalk reserved fg finalVars overrides inputs = .ok outs ∧
      ∀ moves s, s = Cluster.after fg.nodes (submissions reserved fg finalVars overrides inputs) moves →
        (∀ k ∈ (submissions reserved fg finalVars overrides inputs).map (·.1), ∃ r, s.res.get? k = some r) →
        ∀ (build : Dict Name (Option V) → Except UserErr B) p, fetchResult s.res build outs p = some (build out) := by
  obtain ⟨⟨sl, hl, hout⟩, hdisj⟩ := localRun_ok h
  have hspec := executeSubdag_spec hg.wf _ (requestedNodes_ok hg.wf finalVars) (fg.config.merge inputs) overrides
  rw [hl] at hspec
  obtain ⟨hinv, hall⟩ := hspec
  have hw' : WellFormed (remoteGraph reserved fg.nodes) := remote_wf hg.wf
  have hlocal : ∀ k ∈ finalVars, ∀ n, fg.nodes.get? k = some n →
      (∃ v, sl.computed.get? k = some v ∧ Den fg.nodes (fg.config.merge inputs) overrides k v) ∨
      (n.kind = .external ∧ Absent fg.nodes (fg.config.merge inputs) overrides k) := by
    intro k hk n hn
    have hname := hg.wf.name_eq hn
    rcases hall n (List.mem_filterMap.2 ⟨k, hk, hn⟩) with ⟨v, hv⟩ | ⟨h1, h2⟩
    · rw [hname] at hv; exact .inl ⟨v, hv, hinv.den _ _ hv⟩
    · rw [hname] at h2; exact .inr ⟨h1, h2⟩
  have hwalk : ∃ s, walkRun reserved fg finalVars overrides inputs = .ok s := by
    have hs := executeSubdag_spec hw' _ (requestedNodes_ok hw' finalVars) (valDict (fg.config.merge inputs)) (valDict overrides)
    cases hr : walkRun reserved fg finalVars overrides inputs with
    | ok s => exact ⟨s, rfl⟩
    | err e s =>
      exfalso
      unfold walkRun at hr
      rw [hr] at hs
      obtain ⟨_, _, n', hn', hres⟩ := hs
      obtain ⟨k, hk, hgk⟩ := List.mem_filterMap.1 hn'
      obtain ⟨n, hn, rfl⟩ := remoteGraph_some hgk
      have hname : (remoteNode reserved n).name = k := hg.wf.name_eq hn
      rw [hname] at hres
      apply hres
      rcases hlocal k hk n hn with ⟨v, _, hv⟩ | ⟨hkind, habs⟩
      · exact .inl (den_remote hfree hv (.req hk))
      · refine .inr ⟨?_, remote_absent.2 habs⟩
        have : (remoteNode reserved n).kind = .external := hkind
        simp [topDep, Node.userDefined, this]
  obtain ⟨s, hr⟩ := hwalk
  refine ⟨_, walk_ok_remote hdisj hr, ?_⟩
  intro moves c hc hdone build p
  obtain ⟨_, h2⟩ := submissions_ok (reserved := reserved) (finalVars := finalVars) (overrides := overrides) (inputs := inputs) hg.wf
  have hi := ClusterInv.after hg.wf h2 moves
  rw [← hc] at hi
  have hsub : submissions reserved fg finalVars overrides inputs = s.calls := by rw [submissions_eq, hr]; rfl
  rw [hsub] at hdone
  obtain ⟨g1, _, _, _⟩ := walkRun_ok hg.wf hr
  have hga : gather (outputOf c.res) (finalVars.foldl (fun (out : Dict Name (Option (Obj V))) k =>
      out.set k (s.computed.get? k <|> (valDict inputs).get? k)) []) = some out := by
    rw [hout]
    refine gather_outputs (fun k => (s.computed.get? k <|> (valDict inputs).get? k))
      (fun k => (sl.computed.get? k <|> inputs.get? k)) finalVars ?_ rfl
    intro k hk
    have hinp : outputOf c.res ((valDict inputs).get? k) = some (inputs.get? k) := by
      rw [valDict_get?]; cases inputs.get? k <;> rfl
    have hnoden : (∀ v, ¬ Den fg.nodes (fg.config.merge inputs) overrides k v) →
        (∀ o, ¬ Den (remoteGraph reserved fg.nodes) (valDict (fg.config.merge inputs)) (valDict overrides) k o) →
        outputOf c.res (s.computed.get? k <|> (valDict inputs).get? k) = some (sl.computed.get? k <|> inputs.get? k) := by
      intro e1 e2
      have a1 : sl.computed.get? k = none := by
        cases hx : sl.computed.get? k with
        | none => rfl
        | some v => exact absurd (hinv.den _ _ hx) (e1 v)
      have a2 : s.computed.get? k = none := by
        cases hx : s.computed.get? k with
        | none => rfl
        | some v => exact absurd (g1 _ _ hx) (e2 v)
      rw [a1, a2]
      exact hinp
    cases hn : fg.nodes.get? k with
    | none =>
      have hn' : (remoteGraph reserved fg.nodes).get? k = none := by rw [remoteGraph_get?, hn]; rfl
      apply hnoden
      · intro v hv
        cases hv with
        | override h _ => rw [hn] at h; cases h
        | input h _ _ _ => rw [hn] at h; cases h
        | call _ h _ _ _ _ _ => rw [hn] at h; cases h
      · intro v hv
        cases hv with
        | override h _ => rw [hn'] at h; cases h
        | input h _ _ _ => rw [hn'] at h; cases h
        | call _ h _ _ _ _ _ => rw [hn'] at h; cases h
    | some n =>
      rcases hlocal k hk n hn with ⟨v, hv, hd⟩ | ⟨_, habs⟩
      · rw [outputOf_walk hg hr hi hdone hk hd, hv]; rfl
      · exact hnoden (fun v => habs.not_den) (fun o => (remote_absent.2 habs).not_den)
  unfold fetchResult
  rw [hga]

/-- **C75, same failure.**  If the call fails locally, then with the adapter either the walk raises, or, once the cluster has
ended all the calls, fetching the result raises; what is raised is always the exception of a needed function on its right
arguments, and never is a result returned. -/
theorem C75_same_failure (hg : DriverGraph fg) {e : DriverErr}
    (h : defaultExecutorExecute fg finalVars overrides inputs = .error e) {outs : Dict Name (Option (Obj V))}
    (hw : remoteWalk reserved fg finalVars overrides inputs = .ok outs) (moves : List Move) {s : Cluster V}
    (hs : s = Cluster.after fg.nodes (submissions reserved fg finalVars overrides inputs) moves)
    (hdone : ∀ k ∈ (submissions reserved fg finalVars overrides inputs).map (·.1), ∃ r, s.res.get? k = some r)
    (build : Dict Name (Option V) → Except UserErr B) :
    (∃ p e', fetchResult s.res build outs p = some (.error e')) ∧
    ∀ p r, fetchResult s.res build outs p = some r → ∃ e', r = .error e' ∧
      ∃ m n kw, Needed fg.nodes overrides finalVars m ∧ overrides.get? m = none ∧ fg.nodes.get? m = some n ∧
        RightArgs fg.nodes (fg.config.merge inputs) overrides n kw ∧ n.fn kw = .error e' := by
  obtain ⟨⟨st, hr, hout⟩, hdisj⟩ := remoteWalk_ok hw
  rcases localRun_err hg h with hclash | ⟨k, hk, n, hn, hno, hnabs⟩
  · exact absurd hdisj hclash
  obtain ⟨_, h2⟩ := submissions_ok (reserved := reserved) (finalVars := finalVars) (overrides := overrides) (inputs := inputs) hg.wf
  have hi := ClusterInv.after hg.wf h2 moves
  rw [← hs] at hi
  have hsub : submissions reserved fg finalVars overrides inputs = st.calls := by rw [submissions_eq, hr]; rfl
  rw [hsub] at hdone
  obtain ⟨g1, g2, _, g4⟩ := walkRun_ok hg.wf hr
  have hfail : ∃ e', s.res.get? k = some (.error e') ∧ st.computed.get? k = some (.ref k) := by
    rcases g2 k hk n hn with ⟨o, ho⟩ | ⟨_, habs⟩
    · rcases remote_den_cases hg.wf (g1 k o ho) with ⟨v, _, hv⟩ | ⟨rfl, hov, n', hn', hkind⟩
      · exact absurd hv (hno v)
      · obtain ⟨r, hres⟩ := hdone k (g4 k n' hn' hkind hov (.req hk))
        cases r with
        | ok v => exact absurd (hi.done k v hres) (hno v)
        | error e' => exact ⟨e', hres, ho⟩
    · exact absurd habs hnabs
  obtain ⟨e', hres, hcomp⟩ := hfail
  have hget : Dict.get? outs k = some (some (.ref k)) := by
    rw [hout, outputs_get, if_pos hk, hcomp]; rfl
  have hga : gather (outputOf s.res) outs = none := by
    cases hga : gather (outputOf s.res) outs with
    | none => rfl
    | some o =>
      obtain ⟨hall, _⟩ := gather_some hga
      obtain ⟨b, hb⟩ := hall _ (Dict.get?_mem hget)
      simp only [outputOf, valueOf, hres, Option.map_none] at hb
      cases hb
  refine ⟨⟨k, e', ?_⟩, ?_⟩
  · unfold fetchResult
    rw [hga, hget]
    simp only [Option.bind_some, id_eq, errorOf, hres, Option.map_some]
  · intro p r hf
    unfold fetchResult at hf
    rw [hga] at hf
    obtain ⟨x, hx, rfl⟩ := Option.map_eq_some_iff.1 hf
    obtain ⟨o, _, hoe⟩ := Option.bind_eq_some_iff.1 hx
    refine ⟨x, rfl, ?_⟩
    cases o with
    | val v => cases hoe
    | ref j =>
      unfold errorOf at hoe
      cases hj : s.res.get? j with
      | none => simp only [hj] at hoe; cases hoe
      | some r =>
        cases r with
        | ok v => simp only [hj] at hoe; cases hoe
        | error y =>
          simp only [hj] at hoe; cases hoe
          obtain ⟨_, m, n, kw, b1, b2, b3, _, b4, b5⟩ := hi.failed j _ hj
          exact ⟨m, n, kw, b1, b2, b3, b4, b5⟩

end

/-! ### Examples -/

namespace RemoteSample
open Sample

/-- The calls for `top`. -/
def subs : List (Name × Dict Name (Obj Int)) := submissions rayReserved fg ["top"] [] [("x", 1)]

/-- `right` is tried before `base` (nothing happens), then all are run. -/
def moves : List Move := [.run "right", .run "base", .run "right", .run "left", .run "top"]

/-- Non-trivial case of `C75_submitted_once`: the diamond; `left` and `right` get the reference of `base`. -/
example : subs = [("base", [("x", .val 1)]), ("left", [("base", .ref "base")]), ("right", [("base", .ref "base")]),
    ("top", [("left", .ref "left"), ("right", .ref "right")])] := by decide +kernel

/-- The values on the cluster after the moves. -/
def values (s : Cluster Int) : Dict Name (Option Int) := s.res.map (fun p => (p.1, p.2.toOption))

example : values (Cluster.after fg.nodes subs moves) = [("base", some 2), ("right", some 12), ("left", some 4), ("top", some 16)] ∧
    (Cluster.after fg.nodes subs moves).ran.map (·.1) = ["base", "right", "left", "top"] := by decide +kernel

theorem walk_ok : remoteWalk rayReserved fg ["top"] [] [("x", 1)] = .ok [("top", some (.ref "top"))] := rfl

/-- `C75_all_submitted` applies. -/
example : "base" ∈ subs.map (·.1) :=
  C75_all_submitted driverGraph walk_ok (k := "base") (n := (fg.nodes.get? "base").get (by decide)) (Option.some_get _).symm
    (by decide +kernel) rfl
    (.param (m := "left") (mn := (fg.nodes.get? "left").get (by decide))
      (.param (m := "top") (mn := (fg.nodes.get? "top").get (by decide)) (.req (by simp)) rfl (Option.some_get _).symm (by decide +kernel))
      rfl (Option.some_get _).symm (by decide +kernel))

theorem local_ok : defaultExecutorExecute fg ["top"] [] [("x", 1)] = .ok [("top", some 16)] := rfl

theorem free : ∀ k n, Needed fg.nodes [] ["top"] k → Dict.get? ([] : Dict Name Int) k = none → fg.nodes.get? k = some n →
    n.kind ≠ .external → ∀ p ∈ n.inputTypes.keys, p ∉ rayReserved := by
  intro k n _ _ hn _ p hp
  have hall : fg.nodes.all (fun q => q.2.inputTypes.keys.all (fun d => !(rayReserved.contains d))) = true := by decide +kernel
  have h1 := List.all_eq_true.1 (List.all_eq_true.1 hall _ (Dict.get?_mem hn)) p hp
  intro hc
  rw [List.contains_iff_mem.2 hc] at h1
  cases h1

/-- `C75_same_result_partial` applies: the result is the local one. -/
example : fetchResult (Cluster.after fg.nodes subs moves).res (fun o => Except.ok o) [("top", some (.ref "top"))] "" =
    some (.ok [("top", some 16)]) := by
  obtain ⟨outs, h1, h2⟩ := C75_same_result_partial (B := Dict Name (Option Int)) driverGraph free local_ok
  rw [walk_ok] at h1
  cases h1
  refine h2 moves _ rfl ?_ _ _
  intro k hk
  have hall : (subs.map (·.1)).all (fun k => (Cluster.after fg.nodes subs moves).res.has k) = true := by decide +kernel
  exact (Dict.has_eq_true_iff _ _).1 (List.all_eq_true.1 hall k hk)

/-- `C75_cluster` and `C75_progress` apply after any moves, here none. -/
example : ∃ m j r, (Cluster.after fg.nodes subs []).res.get? j = none ∧
    ((Cluster.after fg.nodes subs []).step fg.nodes subs m).res.get? j = some r :=
  (C75_progress driverGraph walk_ok [] rfl).2 "base" (by decide +kernel) rfl

/-- A graph whose `left` raises. -/
def badFns : List (Node Unit Int) :=
  [ fnNode "base" [("x", .required)] (fun kw => .ok (arg kw "x" 0 + 1)),
    fnNode "left" [("base", .required)] (fun _ => .error "boom"),
    fnNode "top" [("left", .required), ("node", .required)] (fun kw => .ok (arg kw "left" 0 + arg kw "node" 0)),
    fnNode "use" [("node", .required)] (fun kw => .ok (arg kw "node" 0 + 1)) ]

/-- The graph of these functions. -/
def badGraph : Graph Unit Int :=
  match createFunctionGraph tm () [] false badFns with
  | .ok g => g
  | .error _ => []

theorem badFresh : ∀ n ∈ badFns, Fresh n := by
  intro n hn
  simp only [badFns, List.mem_cons, List.not_mem_nil, or_false] at hn
  rcases hn with rfl | rfl | rfl | rfl <;> exact ⟨by decide, rfl, rfl, by decide⟩

theorem bad_ok : createFunctionGraph tm () [] false badFns = .ok badGraph := by
  have h : (createFunctionGraph tm () [] false badFns).isOk = true := by decide +kernel
  unfold badGraph
  revert h
  generalize createFunctionGraph tm () [] false badFns = r
  intro h
  cases r with
  | ok g => rfl
  | error e => simp [Except.isOk, Except.toBool] at h

/-- The driver of these functions. -/
def badFg : FnGraph Unit Int := ⟨badGraph, []⟩

theorem badDriver : DriverGraph badFg :=
  ⟨(createFunctionGraph_spec badFresh bad_ok).1, by intro k hk; cases hk⟩

/-- `C75_same_failure` applies: `top` fails because `left` raised (walked here as with Dask, which has no parameter `node`). -/
example : ∃ p e', fetchResult (Cluster.after badFg.nodes (submissions daskReserved badFg ["top"] [] [("x", 1), ("node", 5)])
      [.run "base", .run "left", .fail "top" "left"]).res (fun o => Except.ok o) [("top", some (.ref "top"))] p = some (.error e') := by
  refine (C75_same_failure (reserved := daskReserved) (fg := badFg) (finalVars := ["top"]) (overrides := [])
    (inputs := [("x", 1), ("node", 5)]) (e := .exec (.raised "left" "boom")) badDriver rfl rfl _ rfl ?_ (fun o => Except.ok o)).1
  intro k hk
  have hall : ((submissions daskReserved badFg ["top"] [] [("x", 1), ("node", 5)]).map (·.1)).all
      (fun k => (Cluster.after badFg.nodes (submissions daskReserved badFg ["top"] [] [("x", 1), ("node", 5)])
        [.run "base", .run "left", .fail "top" "left"]).res.has k) = true := by decide +kernel
  exact (Dict.has_eq_true_iff _ _).1 (List.all_eq_true.1 hall k hk)

/-- **C75 is violated** by a function with a parameter named `node` (or `self`, `method_name`, `execute_lifecycle_for_node`):
it is fine locally, but with the Ray adapter the call cannot even be handed over. -/
theorem C75_violated_reserved :
    defaultExecutorExecute badFg ["use"] [] [("node", 5)] = .ok [("use", some 6)] ∧
    remoteWalk rayReserved badFg ["use"] [] [("node", 5)] = .error (.exec (.raised "use" "TypeError")) := ⟨rfl, rfl⟩

end RemoteSample
end Verif
