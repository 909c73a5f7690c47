import Verif.Model.Lifecycle
import Verif.Proofs.Exec

/-! Facts about execution with arbitrary adapters. -/
namespace Verif
variable {T V σ : Type}

section
variable (g : Graph T V) (inputs overrides : Dict Name V) (req : List Name) (run : Runner T V σ)
  (J : ExecState V → σ → Prop) (K : ExecErr → ExecState V → σ → Prop)

/-- `J` is preserved by every step of an execution, and `K` holds when a node fails. -/
structure Preserved : Prop where
  keep : ∀ {s t}, J s t → ∀ e, (∀ k m, e ≠ ExecErr.raised k m) → K e s t
  input : ∀ {s t k n v}, J s t → g.get? k = some n → n.kind = .external → inputs.get? k = some v →
    J (prune g req n.dependencies (s.store k v)) t
  override : ∀ {s t k n v}, J s t → g.get? k = some n → overrides.get? k = some v → J (s.store k v) t
  call : ∀ {s t k n}, J s t → g.get? k = some n → n.kind ≠ .external → overrides.get? k = none →
    ∀ kw, kw = kwargsOf n.dependencies s.computed →
    match run n kw t with
    | (.ok v, t') => J (prune g req n.dependencies (({ s with calls := s.calls ++ [(k, kw)] } : ExecState V).store k v)) t'
    | (.error e, t') => K (.raised k e) { s with calls := s.calls ++ [(k, kw)] } t'

variable {g inputs overrides req run J K}

/-- `J` if the outcome is a success, `K` if it is an exception. -/
def Holds {ε τ : Type} (J : τ → Prop) (K : ε → τ → Prop) : Out τ ε → Prop
  | .ok s => J s
  | .err e s => K e s

theorem forEach_preserved {α ε τ : Type} {J : τ → Prop} {K : ε → τ → Prop} {body : α → τ → Out τ ε} {l : List α}
    (h : ∀ a ∈ l, ∀ s, J s → Holds J K (body a s)) {s : τ} (hs : J s) : Holds J K (forEach body l s) := by
  induction l generalizing s with
  | nil => exact hs
  | cons a l ih =>
    unfold forEach
    have h1 := h a (by simp) s hs
    cases hb : body a s with
    | err e s' => rw [hb] at h1; exact h1
    | ok s' => rw [hb] at h1; exact ih (fun b hb => h b (by simp [hb])) h1

theorem dfsWith_preserved (hw : WellFormed g) (hp : Preserved g inputs overrides req run J K) (fuel : Nat) :
    ∀ (n : Node T V) (dt : DepType) (s : ExecState V × σ), g.get? n.name = some n → J s.1 s.2 →
      Holds (fun s => J s.1 s.2) (fun e s => K e s.1 s.2) (dfsWith g inputs overrides req run fuel n dt s) := by
  induction fuel with
  | zero => intro n dt s _ h; exact hp.keep h _ (by simp)
  | succ fuel ih =>
    intro n dt s hgn h
    unfold dfsWith
    by_cases hc : s.1.computed.has n.name = true
    · rw [if_pos hc]; exact h
    · rw [if_neg hc]
      cases ho : overrides.get? n.name with
      | some v => exact hp.override h hgn ho
      | none =>
        simp only
        have hloop := forEach_preserved (J := fun s : ExecState V × σ => J s.1 s.2) (K := fun e s => K e s.1 s.2) (l := n.dependencies)
          (body := fun d (s : ExecState V × σ) =>
            if s.1.computed.has d then Out.ok s
            else
              match n.inputTypes.get? d, g.get? d with
              | some (_, t), some dn => dfsWith g inputs overrides req run fuel dn t s
              | _, _ => .err (.keyError d) s) (by
            intro d _ s hs
            by_cases hc : s.1.computed.has d = true
            · rw [if_pos hc]; exact hs
            · rw [if_neg hc]
              cases hi : n.inputTypes.get? d with
              | none => exact hp.keep hs _ (by simp)
              | some it =>
                cases hd : g.get? d with
                | none => exact hp.keep hs _ (by simp)
                | some dn => exact ih dn it.2 s (by rw [hw.name_eq hd]; exact hd) hs) h
        revert hloop
        generalize forEach (fun d (s : ExecState V × σ) =>
            if s.1.computed.has d then Out.ok s
            else
              match n.inputTypes.get? d, g.get? d with
              | some (_, t), some dn => dfsWith g inputs overrides req run fuel dn t s
              | _, _ => .err (.keyError d) s) n.dependencies s = o
        intro hloop
        cases o with
        | err e s' => exact hloop
        | ok s' =>
          simp only [Out.bind]
          replace hloop : J s'.1 s'.2 := hloop
          by_cases hu : n.userDefined = true
          · rw [if_pos hu]
            have hk : n.kind = .external := by simpa [Node.userDefined] using hu
            cases hin : inputs.get? n.name with
            | none =>
              simp only
              split
              · exact hloop
              · exact hp.keep hloop _ (by simp)
            | some v => exact hp.input hloop hgn hk hin
          · rw [if_neg hu]
            have hk : n.kind ≠ .external := by simpa [Node.userDefined] using hu
            have hcall := hp.call hloop hgn hk ho _ rfl
            revert hcall
            generalize run n (kwargsOf n.dependencies s'.1.computed) s'.2 = r
            obtain ⟨res, t''⟩ := r
            cases res with
            | ok v => exact id
            | error e => exact id

/-- `J` holds at the end of every successful execution, `K` after an exception. -/
theorem executeWith_preserved (hw : WellFormed g) {nodes : List (Node T V)} (hnodes : ∀ n ∈ nodes, g.get? n.name = some n)
    (hp : Preserved g inputs overrides (nodes.map (·.name)) run J K) {t : σ} (h : J ExecState.init t) :
    Holds (fun s => J s.1 s.2) (fun e s => K e s.1 s.2) (executeWith g nodes inputs overrides run t) := by
  unfold executeWith
  exact forEach_preserved (J := fun s : ExecState V × σ => J s.1 s.2) (K := fun e s => K e s.1 s.2)
    (fun n hn s hs => dfsWith_preserved hw hp _ n _ s (hnodes n hn) hs) h

/-! ### What was run -/

/-- Every stored name was overridden, given, or called after its parameters. -/
structure Closed (g : Graph T V) (inputs overrides : Dict Name V) (s : ExecState V) : Prop where
  sub : ∀ k v, s.computed.get? k = some v → k ∈ s.stored
  closed : ∀ k n, k ∈ s.stored → g.get? k = some n → overrides.get? k = none → n.kind ≠ .external →
    k ∈ s.calls.map (·.1) ∧ ∀ d ∈ n.inputTypes.keys, d ∈ s.stored ∨ Absent g inputs overrides d

/-- Progress of a successful traversal of `k`. -/
def Reached (g : Graph T V) (inputs overrides : Dict Name V) (k : Name) (s : ExecState V) : Out (ExecState V × σ) ExecErr → Prop
  | .ok s' => Closed g inputs overrides s'.1 ∧ (∀ j ∈ s.stored, j ∈ s'.1.stored) ∧
      (k ∈ s'.1.stored ∨ Absent g inputs overrides k)
  | .err _ _ => True

theorem Closed.store_prune {s : ExecState V} (h : Closed g inputs overrides s) {k : Name} {v : V} {deps : List Name}
    {calls : List (Name × Dict Name V)} (hc : ∀ x, x ∈ s.calls.map (·.1) → x ∈ calls.map (·.1))
    (hk : ∀ n, g.get? k = some n → overrides.get? k = none → n.kind ≠ .external →
      k ∈ calls.map (·.1) ∧ ∀ d ∈ n.inputTypes.keys, d ∈ s.stored ∨ Absent g inputs overrides d) :
    Closed g inputs overrides (prune g req deps (({ s with calls := calls } : ExecState V).store k v)) := by
  obtain ⟨h1, h2, h3⟩ := prune_spec g req deps (({ s with calls := calls } : ExecState V).store k v)
  constructor
  · intro j w hj
    rw [h2]
    simp only [ExecState.store, List.mem_append, List.mem_singleton]
    rcases h3 j with h' | h'
    · rw [h'] at hj
      simp only [ExecState.store, Dict.get?_set] at hj
      by_cases hkj : k = j
      · exact .inr hkj.symm
      · rw [if_neg hkj] at hj; exact .inl (h.sub j w hj)
    · rw [h'.1] at hj; cases hj
  · intro j n hj hn ho he
    rw [h2] at hj ⊢
    rw [h1]
    simp only [ExecState.store, List.mem_append, List.mem_singleton] at hj ⊢
    rcases hj with hj | rfl
    · obtain ⟨a, b⟩ := h.closed j n hj hn ho he
      refine ⟨hc _ a, fun d hd => ?_⟩
      rcases b d hd with b | b
      · exact .inl (.inl b)
      · exact .inr b
    · obtain ⟨a, b⟩ := hk n hn ho he
      refine ⟨a, fun d hd => ?_⟩
      rcases b d hd with b | b
      · exact .inl (.inl b)
      · exact .inr b

theorem forEach_reached {τ : Type} {α : Type} {body : α → ExecState V × τ → Out (ExecState V × τ) ExecErr} {name : α → Name}
    {l : List α} (h : ∀ a ∈ l, ∀ s : ExecState V × τ, Closed g inputs overrides s.1 →
      Reached g inputs overrides (name a) s.1 (body a s)) {s : ExecState V × τ} (hs : Closed g inputs overrides s.1) :
    match forEach body l s with
    | .ok s' => Closed g inputs overrides s'.1 ∧ (∀ j ∈ s.1.stored, j ∈ s'.1.stored) ∧
        ∀ a ∈ l, name a ∈ s'.1.stored ∨ Absent g inputs overrides (name a)
    | .err _ _ => True := by
  induction l generalizing s with
  | nil => exact ⟨hs, fun _ h => h, by simp⟩
  | cons a l ih =>
    unfold forEach
    have h1 := h a (by simp) s hs
    cases hb : body a s with
    | err e s' => trivial
    | ok s' =>
      rw [hb] at h1
      obtain ⟨a1, a2, a3⟩ := h1
      have h2 := ih (fun b hb => h b (by simp [hb])) a1
      simp only [Out.bind]
      revert h2
      generalize forEach body l s' = o
      cases o with
      | err e s'' => exact fun _ => trivial
      | ok s'' =>
        rintro ⟨b1, b2, b3⟩
        refine ⟨b1, fun j hj => b2 j (a2 j hj), fun b hb => ?_⟩
        rcases List.mem_cons.1 hb with rfl | hb
        · rcases a3 with a3 | a3
          · exact .inl (b2 _ a3)
          · exact .inr a3
        · exact b3 b hb

theorem dfsWith_reached (hw : WellFormed g) (fuel : Nat) :
    ∀ (n : Node T V) (dt : DepType) (s : ExecState V × σ), g.get? n.name = some n → Closed g inputs overrides s.1 →
      Reached g inputs overrides n.name s.1 (dfsWith g inputs overrides req run fuel n dt s) := by
  induction fuel with
  | zero => intro n dt s _ h; trivial
  | succ fuel ih =>
    intro n dt s hgn h
    unfold dfsWith
    by_cases hc : s.1.computed.has n.name = true
    · rw [if_pos hc]
      obtain ⟨v, hv⟩ := (Dict.has_eq_true_iff _ _).1 hc
      exact ⟨h, fun _ h => h, .inl (h.sub _ _ hv)⟩
    · rw [if_neg hc]
      cases ho : overrides.get? n.name with
      | some v =>
        refine ⟨?_, fun j hj => by simp [ExecState.store, hj], .inl (by simp [ExecState.store])⟩
        exact h.store_prune (req := []) (deps := []) (fun _ h => h) (fun _ _ h' => by rw [ho] at h'; cases h')
      | none =>
        simp only
        have hloop := forEach_reached (g := g) (inputs := inputs) (overrides := overrides) (name := id) (l := n.dependencies)
          (body := fun d (s : ExecState V × σ) =>
            if s.1.computed.has d then Out.ok s
            else
              match n.inputTypes.get? d, g.get? d with
              | some (_, t), some dn => dfsWith g inputs overrides req run fuel dn t s
              | _, _ => .err (.keyError d) s) (by
            intro d _ s hs
            by_cases hc : s.1.computed.has d = true
            · rw [if_pos hc]
              obtain ⟨v, hv⟩ := (Dict.has_eq_true_iff _ _).1 hc
              exact ⟨hs, fun _ h => h, .inl (hs.sub _ _ hv)⟩
            · rw [if_neg hc]
              cases hi : n.inputTypes.get? d with
              | none => trivial
              | some it =>
                cases hd : g.get? d with
                | none => trivial
                | some dn =>
                  have hn := hw.name_eq hd
                  have := ih dn it.2 s (by rw [hn]; exact hd) hs
                  rw [hn] at this; exact this) h
        revert hloop
        generalize forEach (fun d (s : ExecState V × σ) =>
            if s.1.computed.has d then Out.ok s
            else
              match n.inputTypes.get? d, g.get? d with
              | some (_, t), some dn => dfsWith g inputs overrides req run fuel dn t s
              | _, _ => .err (.keyError d) s) n.dependencies s = o
        intro hloop
        cases o with
        | err e s' => trivial
        | ok s' =>
          obtain ⟨a1, a2, a3⟩ := hloop
          simp only [Out.bind]
          by_cases hu : n.userDefined = true
          · rw [if_pos hu]
            have hk : n.kind = .external := by simpa [Node.userDefined] using hu
            cases hin : inputs.get? n.name with
            | none =>
              simp only
              split
              · exact ⟨a1, a2, .inr ⟨n, hgn, hk, hin, ho⟩⟩
              · trivial
            | some v =>
              refine ⟨?_, fun j hj => ?_, .inl ?_⟩
              · exact a1.store_prune (fun _ h => h) (fun n' h1 _ h3 => by rw [hgn] at h1; cases h1; exact absurd hk h3)
              · rw [(prune_spec _ _ _ _).2.1]; simp [ExecState.store, a2 j hj]
              · rw [(prune_spec _ _ _ _).2.1]; simp [ExecState.store]
          · rw [if_neg hu]
            generalize run n (kwargsOf n.dependencies s'.1.computed) s'.2 = r
            obtain ⟨res, t''⟩ := r
            cases res with
            | error e => trivial
            | ok v =>
              refine ⟨?_, fun j hj => ?_, .inl ?_⟩
              · refine a1.store_prune ?_ ?_
                · intro x hx; rw [List.map_append]; exact List.mem_append_left _ hx
                · intro n' h1 _ _
                  rw [hgn] at h1; cases h1
                  refine ⟨by simp, fun d hd => ?_⟩
                  rw [← hw.deps_eq hgn] at hd
                  exact a3 d hd
              · rw [(prune_spec _ _ _ _).2.1]; simp [ExecState.store, a2 j hj]
              · rw [(prune_spec _ _ _ _).2.1]; simp [ExecState.store]

/-- In a successful execution with any adapters, every needed function was called. -/
theorem executeWith_calls (hw : WellFormed g) {nodes : List (Node T V)} (hnodes : ∀ n ∈ nodes, g.get? n.name = some n)
    {t : σ} {s' : ExecState V} {t' : σ} (h : executeWith g nodes inputs overrides run t = .ok (s', t')) {k : Name} {n : Node T V}
    (hk : g.get? k = some n) (hf : n.kind ≠ .external) (ho : overrides.get? k = none)
    (hneed : Needed g overrides (nodes.map (·.name)) k) : k ∈ s'.calls.map (·.1) := by
  have hinit : Closed g inputs overrides (ExecState.init : ExecState V) :=
    ⟨by simp [ExecState.init], by simp [ExecState.init]⟩
  have hmain := forEach_reached (g := g) (inputs := inputs) (overrides := overrides) (name := fun n : Node T V => n.name)
    (l := nodes) (body := fun n s =>
      dfsWith g inputs overrides (nodes.map (·.name)) run (g.length + 1) n
        (if n.userDefined then .optional else .required) s)
    (fun n hn s hs => dfsWith_reached hw _ n _ s (hnodes n hn) hs) (s := (ExecState.init, t)) hinit
  unfold executeWith at h
  rw [h] at hmain
  obtain ⟨h1, _, h3⟩ := hmain
  have hall : ∀ k, Needed g overrides (nodes.map (·.name)) k → k ∈ s'.stored ∨ Absent g inputs overrides k := by
    intro k hk
    induction hk with
    | req hk =>
      obtain ⟨n, hn, rfl⟩ := List.mem_map.1 hk
      exact h3 n hn
    | param hm hmo hmn hd ih =>
      rename_i m mn d
      have hext : mn.kind ≠ .external := by
        intro he
        rw [hw.external_no_params hmn he] at hd
        cases hd
      rcases ih with ih | ⟨n', hn', he, _⟩
      · exact (h1.closed m mn ih hmn hmo hext).2 d hd
      · rw [hmn] at hn'; cases hn'; exact absurd he hext
  rcases hall k hneed with h' | ⟨n', hn', he, _⟩
  · exact (h1.closed k n h' hk ho hf).1
  · rw [hk] at hn'; cases hn'; exact absurd he hf

end
end Verif
