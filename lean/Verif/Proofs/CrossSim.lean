import Verif.Model.Spark
import Verif.Proofs.Lifecycle

/-! Two executions of the same graph with different representations of values: one with a stateful runner, one without. -/
namespace Verif.Spark
open Verif
variable {T U V V' σ : Type}

theorem dict_has_eq {W : Type} (d : Dict Name W) (k : Name) : d.has k = (d.get? k).isSome := by
  cases h : d.get? k with
  | none => rw [(Dict.has_eq_false_iff d k).2 h]; rfl
  | some v => rw [(Dict.has_eq_true_iff d k).2 ⟨v, h⟩]; rfl

/-! ### The graphs -/

section
variable {f : (Dict Name U → Except UserErr U) → Dict Name V → Except UserErr V} {g : Graph T U}

theorem revalGraph_get? (k : Name) : (revalGraph f g).get? k = (g.get? k).map (revalNode f) := by
  induction g with
  | nil => rfl
  | cons p g ih =>
    obtain ⟨a, n⟩ := p
    change Dict.get? ((a, revalNode f n) :: revalGraph f g) k = _
    rw [Dict.get?_cons, Dict.get?_cons]
    split
    · rfl
    · exact ih

theorem revalGraph_some {k : Name} {n' : Node T V}
    (h : (revalGraph f g).get? k = some n') : ∃ n, g.get? k = some n ∧ n' = revalNode f n := by
  rw [revalGraph_get?] at h
  cases hg : g.get? k with
  | none => rw [hg] at h; cases h
  | some n => rw [hg] at h; cases h; exact ⟨n, rfl, rfl⟩

theorem revalGraph_of {k : Name} {n : Node T U} (h : g.get? k = some n) :
    (revalGraph f g).get? k = some (revalNode f n) := by rw [revalGraph_get?, h]; rfl

theorem revalGraph_keys : (revalGraph f g).keys = g.keys := by
  unfold revalGraph Dict.keys
  rw [List.map_map]; rfl

theorem reval_wf (hw : WellFormed g) : WellFormed (revalGraph f g) where
  keys_nodup := by rw [revalGraph_keys]; exact hw.keys_nodup
  name_eq := by
    intro k n h
    obtain ⟨m, hm, rfl⟩ := revalGraph_some h
    have := hw.name_eq hm
    exact this
  deps_eq := by
    intro k n h
    obtain ⟨m, hm, rfl⟩ := revalGraph_some h
    have := hw.deps_eq hm
    exact this
  params_nodup := by
    intro k n h
    obtain ⟨m, hm, rfl⟩ := revalGraph_some h
    have := hw.params_nodup hm
    exact this
  deps_in := by
    intro k n d h hd
    obtain ⟨m, hm, rfl⟩ := revalGraph_some h
    obtain ⟨dn, hdn⟩ := hw.deps_in hm hd
    exact ⟨revalNode f dn, revalGraph_of hdn⟩
  consumers := by
    intro d dn h m
    obtain ⟨dn0, hd0, rfl⟩ := revalGraph_some h
    refine (hw.consumers hd0 m).trans ⟨?_, ?_⟩
    · rintro ⟨mn, h1, h2⟩
      exact ⟨revalNode f mn, revalGraph_of h1, h2⟩
    · rintro ⟨mn, h1, h2⟩
      obtain ⟨m0, hm0, rfl⟩ := revalGraph_some h1
      exact ⟨m0, hm0, h2⟩
  external_no_params := by
    intro k n h hk
    obtain ⟨m, hm, rfl⟩ := revalGraph_some h
    have := hw.external_no_params hm hk
    exact this

end

/-! ### Arguments that correspond -/

inductive KwRel (R : Name → V → V' → Prop) : Dict Name V → Dict Name V' → Prop
  | nil : KwRel R [] []
  | cons {k v v' r r'} : R k v v' → KwRel R r r' → KwRel R ((k, v) :: r) ((k, v') :: r')

section
variable (g : Graph T U)
variable (fA : (Dict Name U → Except UserErr U) → Dict Name V → Except UserErr V)
variable (fB : (Dict Name U → Except UserErr U) → Dict Name V' → Except UserErr V')
variable (inA ovA : Dict Name V) (inB ovB : Dict Name V') (req : List Name) (run : Runner T V σ)
variable (R : σ → Name → V → V' → Prop) (I : List Name → σ → Prop) (Bad : ExecErr → Prop)
variable (P : List (Name × Dict Name V') → Prop)

/-- The state with the runner corresponds to the state without. -/
structure Corr (s : ExecState V) (s' : ExecState V') (t : σ) : Prop where
  keys : ∀ k, s.computed.has k = s'.computed.has k
  vals : ∀ k v v', s.computed.get? k = some v → s'.computed.get? k = some v' → R t k v v'
  calls : s.calls.map (·.1) = s'.calls.map (·.1)
  inv : I (s.calls.map (·.1)) t

/-- What is needed of the runner. -/
structure Simulates : Prop where
  input : ∀ {k n}, g.get? k = some n → n.kind = .external → ovA.get? k = none →
    (inA.get? k = none ∧ inB.get? k = none) ∨
    ∃ v v', inA.get? k = some v ∧ inB.get? k = some v' ∧ ∀ l t, I l t → R t k v v'
  override : ∀ {k n}, g.get? k = some n →
    (ovA.get? k = none ∧ ovB.get? k = none) ∨
    ∃ v v', ovA.get? k = some v ∧ ovB.get? k = some v' ∧ ∀ l t, I l t → R t k v v'
  call : ∀ {k n l t kw kw' c}, I l t → g.get? k = some n → n.kind ≠ .external → ovA.get? k = none →
    l = c.map (·.1) → KwRel (R t) kw kw' → P (c ++ [(k, kw')]) → ∀ r t', run (revalNode fA n) kw t = (r, t') →
    (∀ v, r = .ok v → ∃ v', fB n.fn kw' = .ok v' ∧ R t' k v v' ∧ I (l ++ [k]) t' ∧
      ∀ d w w', d ≠ k → R t d w w' → R t' d w w') ∧
    (∀ e, r = .error e → fB n.fn kw' = .error e ∨ Bad (.raised k e))

/-- The outcome with the runner corresponds to that without. -/
def CrossOut (o : Out (ExecState V') ExecErr) : Out (ExecState V × σ) ExecErr → Prop
  | .ok (s, t) => ∃ s', o = .ok s' ∧ Corr R I s s' t
  | .err e _ => Bad e ∨ ∃ s', o = .err e s'

variable {g fA fB inA ovA inB ovB req run R I Bad P}

theorem Corr.kw {s : ExecState V} {s' : ExecState V'} {t : σ} (h : Corr R I s s' t) (deps : List Name) :
    KwRel (R t) (kwargsOf deps s.computed) (kwargsOf deps s'.computed) := by
  induction deps with
  | nil => exact .nil
  | cons d deps ih =>
    unfold kwargsOf at ih ⊢
    have hk := h.keys d
    cases h1 : s.computed.get? d with
    | none =>
      have h2 : s'.computed.get? d = none := by
        rw [(Dict.has_eq_false_iff _ _).2 h1] at hk
        exact (Dict.has_eq_false_iff _ _).1 hk.symm
      rw [List.filterMap_cons_none (by rw [h1]; rfl), List.filterMap_cons_none (by rw [h2]; rfl)]
      exact ih
    | some v =>
      have h2 : ∃ v', s'.computed.get? d = some v' := by
        rw [(Dict.has_eq_true_iff _ _).2 ⟨v, h1⟩] at hk
        exact (Dict.has_eq_true_iff _ _).1 hk.symm
      obtain ⟨v', h2⟩ := h2
      rw [List.filterMap_cons_some (by rw [h1]; rfl), List.filterMap_cons_some (by rw [h2]; rfl)]
      exact .cons (h.vals d v v' h1 h2) ih

theorem Corr.prune {s : ExecState V} {s' : ExecState V'} {t : σ} (h : Corr R I s s' t) (deps : List Name) :
    Corr R I (Verif.prune (revalGraph fA g) req deps s) (Verif.prune (revalGraph fB g) req deps s') t := by
  induction deps generalizing s s' with
  | nil => exact h
  | cons d deps ih =>
    unfold Verif.prune at ih ⊢
    rw [List.foldl_cons, List.foldl_cons]
    apply ih
    have hp : prunable (revalGraph fA g) req s.computed d = prunable (revalGraph fB g) req s'.computed d := by
      unfold prunable
      rw [h.keys d, revalGraph_get?, revalGraph_get?]
      cases g.get? d with
      | none => rfl
      | some dn =>
        simp only [Option.map_some, revalNode]
        have : (fun m => s.computed.has m && !(req.contains m)) = (fun m => s'.computed.has m && !(req.contains m)) := by
          funext m; rw [h.keys m]
        rw [this]
    rw [hp]
    split
    · refine ⟨?_, ?_, h.calls, h.inv⟩
      · intro k
        have hk := h.keys k
        simp only [dict_has_eq, Dict.get?_del] at hk ⊢
        split
        · rfl
        · exact hk
      · intro k v v' h1 h2
        simp only [Dict.get?_del] at h1 h2
        split at h1
        · cases h1
        · rename_i hne
          rw [if_neg hne] at h2
          exact h.vals k v v' h1 h2
    · exact h

theorem Corr.store {s : ExecState V} {s' : ExecState V'} {t : σ} (h : Corr R I s s' t) {k : Name} {v : V} {v' : V'}
    (hr : R t k v v') : Corr R I (s.store k v) (s'.store k v') t := by
  refine ⟨?_, ?_, h.calls, h.inv⟩
  · intro j
    have hj := h.keys j
    simp only [ExecState.store, dict_has_eq, Dict.get?_set] at hj ⊢
    split
    · rfl
    · exact hj
  · intro j w w' h1 h2
    simp only [ExecState.store, Dict.get?_set] at h1 h2
    split at h1
    · rename_i hjk
      rw [if_pos hjk] at h2
      cases h1; cases h2; subst hjk; exact hr
    · rename_i hjk
      rw [if_neg hjk] at h2
      exact h.vals j w w' h1 h2

theorem forEach_cross {α β γ : Type} {a : γ → α} {b : γ → β} {body : β → ExecState V' → Out (ExecState V') ExecErr}
    {body' : α → ExecState V × σ → Out (ExecState V × σ) ExecErr} {l : List γ}
    (hP : PrefixClosed P) (hg : ∀ x ∈ l, ∀ s, CallsGrow s (body (b x) s))
    (h : ∀ x ∈ l, ∀ s s' t, Corr R I s s' t → P (body (b x) s').state.calls →
      CrossOut R I Bad (body (b x) s') (body' (a x) (s, t)))
    {s : ExecState V} {s' : ExecState V'} {t : σ} (hJ : Corr R I s s' t) (hn : P (forEach body (l.map b) s').state.calls) :
    CrossOut R I Bad (forEach body (l.map b) s') (forEach body' (l.map a) (s, t)) := by
  induction l generalizing s s' t with
  | nil => exact ⟨_, rfl, hJ⟩
  | cons x l ih =>
    have hgl : ∀ y ∈ l, ∀ s, CallsGrow s (body (b y) s) := fun y hy => hg y (by simp [hy])
    have hgl' : ∀ y ∈ l.map b, ∀ s, CallsGrow s (body y s) := by
      intro y hy
      obtain ⟨z, hz, rfl⟩ := List.mem_map.1 hy
      exact hgl z hz
    have hpre : (body (b x) s').state.calls <+: (forEach body ((x :: l).map b) s').state.calls := by
      simp only [forEach, List.map_cons]
      cases hb : body (b x) s' with
      | err e s' => exact List.prefix_refl _
      | ok s' => exact forEach_grow hgl' s'
    have h1 := h x (by simp) s s' t hJ (hP _ _ hpre hn)
    simp only [forEach, List.map_cons] at hn ⊢
    cases hb' : body' (a x) (s, t) with
    | err e st =>
      rw [hb'] at h1
      rcases h1 with h2 | ⟨s'', h2⟩
      · exact .inl h2
      · exact .inr ⟨s'', by rw [h2]; rfl⟩
    | ok st =>
      rw [hb'] at h1
      obtain ⟨s1, t1⟩ := st
      obtain ⟨s'', h2, h3⟩ := h1
      rw [h2] at hn ⊢
      exact ih hgl (fun y hy => h y (by simp [hy])) h3 hn

theorem cross_dfs (hw : WellFormed g) (hP : PrefixClosed P)
    (hf : Simulates g fA fB inA ovA inB ovB run R I Bad P) (fuel : Nat) :
    ∀ (n : Node T U) (dt : DepType) (s : ExecState V) (s' : ExecState V') (t : σ), g.get? n.name = some n → Corr R I s s' t →
      P (dfs (revalGraph fB g) inB ovB req fuel (revalNode fB n) dt s').state.calls →
      CrossOut R I Bad (dfs (revalGraph fB g) inB ovB req fuel (revalNode fB n) dt s')
        (dfsWith (revalGraph fA g) inA ovA req run fuel (revalNode fA n) dt (s, t)) := by
  induction fuel with
  | zero => intro n dt s s' t _ hJ _; exact .inr ⟨s', rfl⟩
  | succ fuel ih =>
    intro n dt s s' t hgn hJ hn
    unfold dfs at hn ⊢
    unfold dfsWith
    simp only
    have hname : (revalNode fA n).name = n.name := rfl
    have hname' : (revalNode fB n).name = n.name := rfl
    have hdeps : (revalNode fA n).dependencies = n.dependencies := rfl
    have hdeps' : (revalNode fB n).dependencies = n.dependencies := rfl
    have hty : (revalNode fA n).inputTypes = n.inputTypes := rfl
    have hty' : (revalNode fB n).inputTypes = n.inputTypes := rfl
    have hud : (revalNode fA n).userDefined = n.userDefined := rfl
    have hud' : (revalNode fB n).userDefined = n.userDefined := rfl
    simp only [hname, hname', hdeps, hdeps', hty, hty', hud, hud'] at hn ⊢
    rw [hJ.keys n.name]
    by_cases hc : s'.computed.has n.name = true
    · rw [if_pos hc, if_pos hc]; exact ⟨_, rfl, hJ⟩
    · rw [if_neg hc] at hn ⊢
      rw [if_neg hc]
      rcases hf.override hgn with ⟨ho, ho'⟩ | ⟨v, v', ho, ho', hr⟩
      rotate_left
      · rw [ho, ho']
        exact ⟨_, rfl, hJ.store (hr _ _ hJ.inv)⟩
      · rw [ho'] at hn
        rw [ho, ho']
        simp only at hn ⊢
        have hgrow : ∀ d ∈ n.dependencies, ∀ s : ExecState V', CallsGrow s ((fun d s =>
            if s.computed.has d then Out.ok s
            else
              match n.inputTypes.get? d, (revalGraph fB g).get? d with
              | some (_, t), some dn => dfs (revalGraph fB g) inB ovB req fuel dn t s
              | _, _ => .err (.keyError d) s) (id d) s) := by
          intro d _ s
          simp only [id]
          split
          · exact List.prefix_refl _
          · split
            · exact dfs_grow _ _ _ _ _ _ _ _
            · exact List.prefix_refl _
        have hpre : P (forEach (fun d s =>
            if s.computed.has d then Out.ok s
            else
              match n.inputTypes.get? d, (revalGraph fB g).get? d with
              | some (_, t), some dn => dfs (revalGraph fB g) inB ovB req fuel dn t s
              | _, _ => .err (.keyError d) s) n.dependencies s').state.calls := by
          refine hP _ _ ?_ hn
          generalize forEach (fun d s =>
            if s.computed.has d then Out.ok s
            else
              match n.inputTypes.get? d, (revalGraph fB g).get? d with
              | some (_, t), some dn => dfs (revalGraph fB g) inB ovB req fuel dn t s
              | _, _ => .err (.keyError d) s) n.dependencies s' = o
          cases o with
          | err e s' => exact List.prefix_refl _
          | ok s' => exact tail_grow (revalGraph fB g) inB req (revalNode fB n) dt s'
        have hloop := forEach_cross (P := P) (R := R) (I := I) (Bad := Bad) (a := id) (b := id) (body := fun d s =>
            if s.computed.has d then Out.ok s
            else
              match n.inputTypes.get? d, (revalGraph fB g).get? d with
              | some (_, t), some dn => dfs (revalGraph fB g) inB ovB req fuel dn t s
              | _, _ => .err (.keyError d) s) (body' := fun d s =>
            if s.1.computed.has d then Out.ok s
            else
              match n.inputTypes.get? d, (revalGraph fA g).get? d with
              | some (_, t), some dn => dfsWith (revalGraph fA g) inA ovA req run fuel dn t s
              | _, _ => .err (.keyError d) s) (l := n.dependencies) hP hgrow (by
          intro d _ s s' t hJ hn
          simp only [id] at hn ⊢
          rw [hJ.keys d]
          by_cases hc : s'.computed.has d = true
          · rw [if_pos hc, if_pos hc]; exact ⟨_, rfl, hJ⟩
          · rw [if_neg hc] at hn ⊢
            rw [if_neg hc]
            cases hi : n.inputTypes.get? d with
            | none => exact .inr ⟨_, rfl⟩
            | some it =>
              rw [hi, revalGraph_get?] at hn
              rw [revalGraph_get?, revalGraph_get?]
              cases hd : g.get? d with
              | none => exact .inr ⟨_, rfl⟩
              | some dn =>
                rw [hd] at hn
                exact ih dn it.2 s s' t (by rw [hw.name_eq hd]; exact hd) hJ hn) hJ (by rw [List.map_id]; exact hpre)
        rw [List.map_id] at hloop
        revert hloop hn
        generalize forEach (fun d s =>
            if s.computed.has d then Out.ok s
            else
              match n.inputTypes.get? d, (revalGraph fB g).get? d with
              | some (_, t), some dn => dfs (revalGraph fB g) inB ovB req fuel dn t s
              | _, _ => .err (.keyError d) s) n.dependencies s' = o
        generalize forEach (fun d s =>
            if s.1.computed.has d then Out.ok s
            else
              match n.inputTypes.get? d, (revalGraph fA g).get? d with
              | some (_, t), some dn => dfsWith (revalGraph fA g) inA ovA req run fuel dn t s
              | _, _ => .err (.keyError d) s) n.dependencies (s, t) = o'
        intro hn hloop
        cases o' with
        | err e st =>
          rcases hloop with h2 | ⟨s'', h2⟩
          · exact .inl h2
          · exact .inr ⟨s'', by rw [h2]; rfl⟩
        | ok st =>
          obtain ⟨s1, t1⟩ := st
          obtain ⟨s2, rfl, hJ'⟩ := hloop
          simp only [Out.bind] at hn ⊢
          by_cases hu : n.userDefined = true
          · rw [if_pos hu, if_pos hu]
            have hk : n.kind = .external := by simpa [Node.userDefined] using hu
            rcases hf.input hgn hk ho with ⟨hin, hin'⟩ | ⟨v, v', hin, hin', hr⟩
            · rw [hin, hin']
              simp only
              split
              · exact ⟨_, rfl, hJ'⟩
              · exact .inr ⟨_, rfl⟩
            · rw [hin, hin']
              exact ⟨_, rfl, (hJ'.store (hr _ _ hJ'.inv)).prune _⟩
          · rw [if_neg hu] at hn ⊢
            rw [if_neg hu]
            have hk : n.kind ≠ .external := by simpa [Node.userDefined] using hu
            have hfresh : P (s2.calls ++ [(n.name, kwargsOf n.dependencies s2.computed)]) := by
              revert hn
              split
              · exact id
              · rw [Out.state, prune_calls]; exact id
            have hfn : (revalNode fB n).fn = fB n.fn := rfl
            rw [hfn]
            cases hrun : run (revalNode fA n) (kwargsOf n.dependencies s1.computed) t1 with
            | mk r t2 =>
              have hcall := hf.call hJ'.inv hgn hk ho hJ'.calls (hJ'.kw n.dependencies) hfresh r t2 hrun
              cases r with
              | ok v =>
                obtain ⟨v', h1, h2, h3, h4⟩ := hcall.1 v rfl
                simp only [h1]
                refine ⟨_, rfl, Corr.prune ?_ _⟩
                refine ⟨?_, ?_, ?_, ?_⟩
                · intro j
                  have hj := hJ'.keys j
                  simp only [ExecState.store, dict_has_eq, Dict.get?_set] at hj ⊢
                  split
                  · rfl
                  · exact hj
                · intro j w w' e1 e2
                  simp only [ExecState.store, Dict.get?_set] at e1 e2
                  split at e1
                  · rename_i hjk
                    rw [if_pos hjk] at e2
                    cases e1; cases e2; subst hjk; exact h2
                  · rename_i hjk
                    rw [if_neg hjk] at e2
                    exact h4 j w w' (fun e => hjk e.symm) (hJ'.vals j w w' e1 e2)
                · simp only [ExecState.store, List.map_append, hJ'.calls]; rfl
                · simp only [ExecState.store, List.map_append]; exact h3
              | error e =>
                simp only
                rcases hcall.2 e rfl with h2 | h2
                · right; simp only [h2]; exact ⟨_, rfl⟩
                · exact .inl h2

theorem cross_execute (hw : WellFormed g) (hP : PrefixClosed P) (ks : List Name)
    (hf : Simulates g fA fB inA ovA inB ovB run R I Bad P) {t : σ} (hI : I [] t)
    (hn : P (executeSubdag (revalGraph fB g) (ks.filterMap (fun k => (revalGraph fB g).get? k)) inB ovB).state.calls) :
    CrossOut R I Bad (executeSubdag (revalGraph fB g) (ks.filterMap (fun k => (revalGraph fB g).get? k)) inB ovB)
      (executeWith (revalGraph fA g) (ks.filterMap (fun k => (revalGraph fA g).get? k)) inA ovA run t) := by
  have hA : ∀ {W : Type} (f : (Dict Name U → Except UserErr U) → Dict Name W → Except UserErr W),
      ks.filterMap (fun k => (revalGraph f g).get? k) = (ks.filterMap (fun k => g.get? k)).map (revalNode f) := by
    intro W f
    rw [List.map_filterMap]
    congr 1
    funext k
    exact revalGraph_get? k
  rw [hA] at hn ⊢
  rw [hA]
  have hlen : ∀ {W : Type} (f : (Dict Name U → Except UserErr U) → Dict Name W → Except UserErr W),
      (revalGraph f g).length = g.length := fun f => List.length_map _
  have hreq : ∀ {W : Type} (f : (Dict Name U → Except UserErr U) → Dict Name W → Except UserErr W) (l : List (Node T U)),
      (l.map (revalNode f)).map (·.name) = l.map (·.name) := by
    intro W f l; rw [List.map_map]; rfl
  unfold executeSubdag executeWith at *
  rw [hlen, hreq] at hn ⊢
  rw [hlen, hreq]
  refine forEach_cross (P := P) (R := R) (I := I) (Bad := Bad) hP ?_ ?_ ⟨fun _ => rfl, (by intro k v v' h; cases h), rfl, hI⟩ hn
  · intro n _ s; exact dfs_grow _ _ _ _ _ _ _ _
  · intro n hn' s s' t hJ hnd
    obtain ⟨k, _, hk⟩ := List.mem_filterMap.1 hn'
    exact cross_dfs hw hP hf _ n _ s s' t (by rw [hw.name_eq hk]; exact hk) hJ hnd

end

end Verif.Spark
