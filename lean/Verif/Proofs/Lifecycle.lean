import Verif.Model.Lifecycle
import Verif.Proofs.Exec

/-! Execution with adapters that do not change what functions return simulates execution without adapters. -/
namespace Verif
variable {T V σ : Type}

/-! ### Calls are only ever appended -/

def CallsGrow (s : ExecState V) (o : Out (ExecState V) ExecErr) : Prop := s.calls <+: o.state.calls

theorem prune_calls (g : Graph T V) (req deps : List Name) (s : ExecState V) : (prune g req deps s).calls = s.calls :=
  (prune_spec g req deps s).1

theorem forEach_grow {α : Type} {body : α → ExecState V → Out (ExecState V) ExecErr} {l : List α}
    (h : ∀ a ∈ l, ∀ s, CallsGrow s (body a s)) (s : ExecState V) : CallsGrow s (forEach body l s) := by
  induction l generalizing s with
  | nil => exact List.prefix_refl _
  | cons a l ih =>
    have h1 := h a (by simp) s
    unfold forEach
    unfold CallsGrow at h1 ⊢
    cases hb : body a s with
    | err e s' => rw [hb] at h1; exact h1
    | ok s' =>
      rw [hb] at h1
      exact h1.trans (ih (fun b hb => h b (by simp [hb])) s')

/-- The part of `dfs` after the dependencies were computed. -/
theorem tail_grow (g : Graph T V) (inputs : Dict Name V) (req : List Name) (n : Node T V) (dt : DepType) (s : ExecState V) :
    CallsGrow s (if n.userDefined then
          match inputs.get? n.name with
          | none => if dt = .optional then Out.ok s else .err (.missing n.name) s
          | some v => .ok (prune g req n.dependencies (s.store n.name v))
        else
          let kwargs := kwargsOf n.dependencies s.computed
          let s1 := { s with calls := s.calls ++ [(n.name, kwargs)] }
          match n.fn kwargs with
          | .error e => .err (.raised n.name e) s1
          | .ok v => .ok (prune g req n.dependencies (s1.store n.name v))) := by
  unfold CallsGrow
  by_cases hu : n.userDefined = true
  · rw [if_pos hu]
    cases inputs.get? n.name with
    | none => by_cases hd : dt = .optional <;> simp [hd, Out.state]
    | some v => simp [Out.state, prune_calls, ExecState.store]
  · rw [if_neg hu]
    cases h : n.fn (kwargsOf n.dependencies s.computed) <;> simp [h, Out.state, prune_calls, ExecState.store]

theorem dfs_grow (g : Graph T V) (inputs overrides : Dict Name V) (req : List Name) (fuel : Nat) :
    ∀ (n : Node T V) (dt : DepType) (s : ExecState V), CallsGrow s (dfs g inputs overrides req fuel n dt s) := by
  induction fuel with
  | zero => intro n dt s; exact List.prefix_refl _
  | succ fuel ih =>
    intro n dt s
    unfold dfs
    split
    · exact List.prefix_refl _
    · split
      · exact List.prefix_refl _
      · have hloop := forEach_grow (l := n.dependencies) (body := fun d s =>
            if s.computed.has d then .ok s
            else
              match n.inputTypes.get? d, g.get? d with
              | some (_, t), some dn => dfs g inputs overrides req fuel dn t s
              | _, _ => .err (.keyError d) s) (by
          intro d _ s
          split
          · exact List.prefix_refl _
          · split
            · exact ih _ _ _
            · exact List.prefix_refl _) s
        revert hloop
        generalize forEach (fun d s =>
            if s.computed.has d then Out.ok s
            else
              match n.inputTypes.get? d, g.get? d with
              | some (_, t), some dn => dfs g inputs overrides req fuel dn t s
              | _, _ => .err (.keyError d) s) n.dependencies s = o
        intro hloop
        cases o with
        | err e s' => exact hloop
        | ok s' =>
          exact List.IsPrefix.trans hloop (tail_grow g inputs req n dt s')

/-! ### Simulation -/

section
variable (g : Graph T V) (inputs overrides : Dict Name V) (req : List Name) (run : Runner T V σ)
variable (P : List (Name × Dict Name V) → Prop) (J : ExecState V → σ → Prop) (K killed : σ → Prop)

/-- What the runner has to satisfy: relative to a relation `J` between the state of the execution and that of the adapters,
it returns what the function returns, unless the process was killed. `P` is what is known of the calls. -/
structure Faithful : Prop where
  keep : ∀ {s t}, J s t → K t
  input : ∀ {s t k n v}, J s t → g.get? k = some n → n.kind = .external → inputs.get? k = some v →
    J (prune g req n.dependencies (s.store k v)) t
  override : ∀ {s t k n v}, J s t → g.get? k = some n → overrides.get? k = some v → J (s.store k v) t
  call : ∀ {s t k n}, J s t → g.get? k = some n → n.kind ≠ .external → overrides.get? k = none →
    ∀ kw, kw = kwargsOf n.dependencies s.computed → P (s.calls ++ [(k, kw)]) →
    match run n kw t with
    | (.ok v, t') => n.fn kw = .ok v ∧
        J (prune g req n.dependencies (({ s with calls := s.calls ++ [(k, kw)] } : ExecState V).store k v)) t'
    | (.error e, t') => K t' ∧ (killed t' ∨ n.fn kw = .error e)

/-- The outcome with adapters matches the outcome without. -/
def SimOut (o : Out (ExecState V) ExecErr) : Out (ExecState V × σ) ExecErr → Prop
  | .ok (s, t) => o = .ok s ∧ J s t
  | .err e (s, t) => K t ∧ (killed t ∨ o = .err e s)

variable {g inputs overrides req run P J K killed}

/-- `P` holds of every earlier moment. -/
def PrefixClosed (P : List (Name × Dict Name V) → Prop) : Prop := ∀ l l', l <+: l' → P l' → P l

theorem forEach_matches {α : Type} {body : α → ExecState V → Out (ExecState V) ExecErr}
    {body' : α → ExecState V × σ → Out (ExecState V × σ) ExecErr} {l : List α}
    (hP : PrefixClosed P) (hg : ∀ a ∈ l, ∀ s, CallsGrow s (body a s))
    (h : ∀ a ∈ l, ∀ s t, J s t → P (body a s).state.calls → SimOut J K killed (body a s) (body' a (s, t)))
    {s : ExecState V} {t : σ} (hJ : J s t) (hn : P (forEach body l s).state.calls) :
    SimOut J K killed (forEach body l s) (forEach body' l (s, t)) := by
  induction l generalizing s t with
  | nil => exact ⟨rfl, hJ⟩
  | cons a l ih =>
    have hgl : ∀ b ∈ l, ∀ s, CallsGrow s (body b s) := fun b hb => hg b (by simp [hb])
    have hpre : (body a s).state.calls <+: (forEach body (a :: l) s).state.calls := by
      simp only [forEach]
      cases hb : body a s with
      | err e s' => exact List.prefix_refl _
      | ok s' => exact forEach_grow hgl s'
    have h1 := h a (by simp) s t hJ (hP _ _ hpre hn)
    simp only [forEach] at hn ⊢
    cases hb' : body' a (s, t) with
    | err e st =>
      rw [hb'] at h1
      obtain ⟨s', t'⟩ := st
      obtain ⟨hK, h2⟩ := h1
      refine ⟨hK, ?_⟩
      rcases h2 with h2 | h2
      · exact .inl h2
      · right; rw [h2]; rfl
    | ok st =>
      rw [hb'] at h1
      obtain ⟨s', t'⟩ := st
      obtain ⟨h2, h3⟩ := h1
      rw [h2] at hn ⊢
      exact ih hgl (fun b hb => h b (by simp [hb])) h3 hn

theorem dfs_matches (hw : WellFormed g) (hP : PrefixClosed P) (hf : Faithful g inputs overrides req run P J K killed) (fuel : Nat) :
    ∀ (n : Node T V) (dt : DepType) (s : ExecState V) (t : σ), g.get? n.name = some n → J s t →
      P (dfs g inputs overrides req fuel n dt s).state.calls →
      SimOut J K killed (dfs g inputs overrides req fuel n dt s) (dfsWith g inputs overrides req run fuel n dt (s, t)) := by
  induction fuel with
  | zero => intro n dt s t _ hJ _; exact ⟨hf.keep hJ, .inr rfl⟩
  | succ fuel ih =>
    intro n dt s t hgn hJ hn
    unfold dfs at hn ⊢
    unfold dfsWith
    simp only
    by_cases hc : s.computed.has n.name = true
    · rw [if_pos hc, if_pos hc]; exact ⟨rfl, hJ⟩
    · rw [if_neg hc] at hn ⊢
      rw [if_neg hc]
      cases ho : overrides.get? n.name with
      | some v => exact ⟨rfl, hf.override hJ hgn ho⟩
      | none =>
        rw [ho] at hn
        simp only at hn ⊢
        have hgrow : ∀ d ∈ n.dependencies, ∀ s : ExecState V, CallsGrow s ((fun d s =>
            if s.computed.has d then Out.ok s
            else
              match n.inputTypes.get? d, g.get? d with
              | some (_, t), some dn => dfs g inputs overrides req fuel dn t s
              | _, _ => .err (.keyError d) s) d s) := by
          intro d _ s
          simp only
          split
          · exact List.prefix_refl _
          · split
            · exact dfs_grow _ _ _ _ _ _ _ _
            · exact List.prefix_refl _
        have hpre : P (forEach (fun d s =>
            if s.computed.has d then Out.ok s
            else
              match n.inputTypes.get? d, g.get? d with
              | some (_, t), some dn => dfs g inputs overrides req fuel dn t s
              | _, _ => .err (.keyError d) s) n.dependencies s).state.calls := by
          refine hP _ _ ?_ hn
          generalize forEach (fun d s =>
            if s.computed.has d then Out.ok s
            else
              match n.inputTypes.get? d, g.get? d with
              | some (_, t), some dn => dfs g inputs overrides req fuel dn t s
              | _, _ => .err (.keyError d) s) n.dependencies s = o
          cases o with
          | err e s' => exact List.prefix_refl _
          | ok s' => exact tail_grow g inputs req n dt s'
        have hloop := forEach_matches (P := P) (J := J) (K := K) (killed := killed) (body := fun d s =>
            if s.computed.has d then Out.ok s
            else
              match n.inputTypes.get? d, g.get? d with
              | some (_, t), some dn => dfs g inputs overrides req fuel dn t s
              | _, _ => .err (.keyError d) s) (body' := fun d s =>
            if s.1.computed.has d then Out.ok s
            else
              match n.inputTypes.get? d, g.get? d with
              | some (_, t), some dn => dfsWith g inputs overrides req run fuel dn t s
              | _, _ => .err (.keyError d) s) (l := n.dependencies) hP hgrow (by
          intro d _ s t hJ hn
          simp only at hn ⊢
          by_cases hc : s.computed.has d = true
          · rw [if_pos hc, if_pos hc]; exact ⟨rfl, hJ⟩
          · rw [if_neg hc] at hn ⊢
            rw [if_neg hc]
            cases hi : n.inputTypes.get? d with
            | none => exact ⟨hf.keep hJ, .inr rfl⟩
            | some it =>
              cases hd : g.get? d with
              | none => exact ⟨hf.keep hJ, .inr rfl⟩
              | some dn =>
                rw [hi, hd] at hn
                exact ih dn it.2 s t (by rw [hw.name_eq hd]; exact hd) hJ hn) hJ hpre
        revert hloop hn
        generalize forEach (fun d s =>
            if s.computed.has d then Out.ok s
            else
              match n.inputTypes.get? d, g.get? d with
              | some (_, t), some dn => dfs g inputs overrides req fuel dn t s
              | _, _ => .err (.keyError d) s) n.dependencies s = o
        generalize forEach (fun d s =>
            if s.1.computed.has d then Out.ok s
            else
              match n.inputTypes.get? d, g.get? d with
              | some (_, t), some dn => dfsWith g inputs overrides req run fuel dn t s
              | _, _ => .err (.keyError d) s) n.dependencies (s, t) = o'
        intro hn hloop
        cases o' with
        | err e st =>
          obtain ⟨s', t'⟩ := st
          obtain ⟨hK, h2⟩ := hloop
          refine ⟨hK, ?_⟩
          rcases h2 with h2 | h2
          · exact .inl h2
          · right; rw [h2]; rfl
        | ok st =>
          obtain ⟨s', t'⟩ := st
          obtain ⟨rfl, hJ'⟩ := hloop
          simp only [Out.bind] at hn ⊢
          by_cases hu : n.userDefined = true
          · rw [if_pos hu, if_pos hu]
            have hk : n.kind = .external := by simpa [Node.userDefined] using hu
            cases hin : inputs.get? n.name with
            | none =>
              simp only
              split
              · exact ⟨rfl, hJ'⟩
              · exact ⟨hf.keep hJ', .inr rfl⟩
            | some v => exact ⟨rfl, hf.input hJ' hgn hk hin⟩
          · rw [if_neg hu] at hn ⊢
            rw [if_neg hu]
            have hk : n.kind ≠ .external := by simpa [Node.userDefined] using hu
            have hfresh : P (s'.calls ++ [(n.name, kwargsOf n.dependencies s'.computed)]) := by
              revert hn
              split
              · exact id
              · rw [Out.state, prune_calls]; exact id
            have hcall := hf.call hJ' hgn hk ho _ rfl hfresh
            revert hcall
            generalize run n (kwargsOf n.dependencies s'.computed) t' = r
            obtain ⟨res, t''⟩ := r
            cases res with
            | ok v =>
              rintro ⟨h1, h2⟩
              simp only [h1]
              exact ⟨rfl, h2⟩
            | error e =>
              rintro ⟨h1, h2⟩
              refine ⟨h1, ?_⟩
              rcases h2 with h2 | h2
              · exact .inl h2
              · right; simp only [h2]

theorem executeWith_matches (hw : WellFormed g) {nodes : List (Node T V)} (hnodes : ∀ n ∈ nodes, g.get? n.name = some n)
    (hP : PrefixClosed P)
    (hf : Faithful g inputs overrides (nodes.map (·.name)) run P J K killed) {t : σ} (hJ : J ExecState.init t)
    (hn : P (executeSubdag g nodes inputs overrides).state.calls) :
    SimOut J K killed (executeSubdag g nodes inputs overrides) (executeWith g nodes inputs overrides run t) := by
  unfold executeSubdag executeWith at *
  refine forEach_matches hP ?_ ?_ hJ hn
  · intro n _ s; exact dfs_grow _ _ _ _ _ _ _ _
  · intro n hn' s t hJ hnd
    exact dfs_matches hw hP hf _ n _ s t (hnodes n hn') hJ hnd

end

end Verif
