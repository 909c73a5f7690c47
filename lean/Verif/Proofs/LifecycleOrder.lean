import Verif.Proofs.LifecycleInv
import Verif.Proofs.Lifecycle
import Verif.Proofs.Stateless

/-! Functions are called after the functions they depend on, and executions with replaced functions. -/
namespace Verif
variable {T V σ : Type}

/-- Every function called was called after the functions its parameters stand for. -/
def OrderedCalls (g : Graph T V) (overrides : Dict Name V) (calls : List (Name × Dict Name V)) : Prop :=
  ∀ l1 c l2, calls = l1 ++ c :: l2 → ∀ n, g.get? c.1 = some n → ∀ d ∈ n.inputTypes.keys, overrides.get? d = none →
    ∀ dn, g.get? d = some dn → dn.kind ≠ .external → d ∈ l1.map (·.1)

theorem orderedCalls_nil (g : Graph T V) (overrides : Dict Name V) : OrderedCalls g overrides [] := by
  intro l1 c l2 h
  simp at h

theorem orderedCalls_prefix {g : Graph T V} {overrides : Dict Name V} : PrefixClosed (OrderedCalls g overrides) := by
  rintro l l' ⟨r, rfl⟩ h l1 c l2 hl
  exact h l1 c (l2 ++ r) (by rw [hl]; simp)

theorem orderedCalls_snoc {g : Graph T V} {overrides : Dict Name V} {calls : List (Name × Dict Name V)}
    (h : OrderedCalls g overrides calls) {c : Name × Dict Name V}
    (hc : ∀ n, g.get? c.1 = some n → ∀ d ∈ n.inputTypes.keys, overrides.get? d = none →
      ∀ dn, g.get? d = some dn → dn.kind ≠ .external → d ∈ calls.map (·.1)) : OrderedCalls g overrides (calls ++ [c]) := by
  intro l1 c' l2 hl
  rcases List.eq_nil_or_concat l2 with rfl | ⟨l2', x, rfl⟩
  · have := List.append_inj' hl (by simp)
    obtain ⟨rfl, h2⟩ := this
    cases h2
    exact hc
  · rw [List.concat_eq_append] at hl
    rw [show l1 ++ c' :: (l2' ++ [x]) = (l1 ++ c' :: l2') ++ [x] by simp] at hl
    have := List.append_inj' hl (by simp)
    exact h l1 c' l2' this.1

section
variable {g : Graph T V} {inputs overrides : Dict Name V} {req : List Name} {run : Runner T V σ}

/-- The calls are in order, whether the outcome is a success or not. -/
def OrderedOut (g : Graph T V) (overrides : Dict Name V) (o : Out (ExecState V × σ) ExecErr) : Prop :=
  OrderedCalls g overrides o.state.1.calls

theorem forEach_ordered {α : Type} {body : α → ExecState V × σ → Out (ExecState V × σ) ExecErr} {name : α → Name} {l : List α}
    (h : ∀ a ∈ l, ∀ s : ExecState V × σ, Closed g inputs overrides s.1 → Reached g inputs overrides (name a) s.1 (body a s))
    (ho : ∀ a ∈ l, ∀ s : ExecState V × σ, Closed g inputs overrides s.1 → OrderedCalls g overrides s.1.calls →
      OrderedOut g overrides (body a s)) {s : ExecState V × σ} (hs : Closed g inputs overrides s.1)
    (hc : OrderedCalls g overrides s.1.calls) : OrderedOut g overrides (forEach body l s) := by
  induction l generalizing s with
  | nil => exact hc
  | cons a l ih =>
    unfold forEach
    have h1 := h a (by simp) s hs
    have h2 := ho a (by simp) s hs hc
    cases hb : body a s with
    | err e s' => rw [hb] at h2; exact h2
    | ok s' =>
      rw [hb] at h1 h2
      exact ih (fun b hb => h b (by simp [hb])) (fun b hb => ho b (by simp [hb])) h1.1 h2

theorem dfsWith_ordered (hw : WellFormed g) (fuel : Nat) :
    ∀ (n : Node T V) (dt : DepType) (s : ExecState V × σ), g.get? n.name = some n → Closed g inputs overrides s.1 →
      OrderedCalls g overrides s.1.calls → OrderedOut g overrides (dfsWith g inputs overrides req run fuel n dt s) := by
  induction fuel with
  | zero => intro n dt s _ _ h; exact h
  | succ fuel ih =>
    intro n dt s hgn h hord
    unfold dfsWith
    by_cases hc : s.1.computed.has n.name = true
    · rw [if_pos hc]; exact hord
    · rw [if_neg hc]
      cases ho : overrides.get? n.name with
      | some v => exact hord
      | none =>
        simp only
        have hreach : ∀ d ∈ n.dependencies, ∀ s : ExecState V × σ, Closed g inputs overrides s.1 →
            Reached g inputs overrides d s.1 (if s.1.computed.has d then Out.ok s
            else
              match n.inputTypes.get? d, g.get? d with
              | some (_, t), some dn => dfsWith g inputs overrides req run fuel dn t s
              | _, _ => .err (.keyError d) s) := by
          intro d _ s hs
          by_cases hc : s.1.computed.has d = true
          · rw [if_pos hc]
            obtain ⟨v, hv⟩ := (Dict.has_eq_true_iff _ _).1 hc
            exact ⟨hs, fun _ h => h, .inl (hs.sub _ _ hv)⟩
          · rw [if_neg hc]
            cases hi : n.inputTypes.get? d with
            | none => trivial
            | some it =>
              cases hd : g.get? d with
              | none => trivial
              | some dn =>
                have hn := hw.name_eq hd
                have := dfsWith_reached (req := req) (run := run) hw fuel dn it.2 s (by rw [hn]; exact hd) hs
                rw [hn] at this; exact this
        have hloop := forEach_reached (g := g) (inputs := inputs) (overrides := overrides) (name := id) (l := n.dependencies)
          (body := fun d (s : ExecState V × σ) =>
            if s.1.computed.has d then Out.ok s
            else
              match n.inputTypes.get? d, g.get? d with
              | some (_, t), some dn => dfsWith g inputs overrides req run fuel dn t s
              | _, _ => .err (.keyError d) s) hreach h
        have hloop2 := forEach_ordered (g := g) (inputs := inputs) (overrides := overrides) (name := id) (l := n.dependencies)
          (body := fun d (s : ExecState V × σ) =>
            if s.1.computed.has d then Out.ok s
            else
              match n.inputTypes.get? d, g.get? d with
              | some (_, t), some dn => dfsWith g inputs overrides req run fuel dn t s
              | _, _ => .err (.keyError d) s) hreach (by
            intro d _ s hs hso
            by_cases hc : s.1.computed.has d = true
            · rw [if_pos hc]; exact hso
            · rw [if_neg hc]
              cases hi : n.inputTypes.get? d with
              | none => exact hso
              | some it =>
                cases hd : g.get? d with
                | none => exact hso
                | some dn =>
                  have hn := hw.name_eq hd
                  exact ih dn it.2 s (by rw [hn]; exact hd) hs hso) h hord
        revert hloop hloop2
        generalize forEach (fun d (s : ExecState V × σ) =>
            if s.1.computed.has d then Out.ok s
            else
              match n.inputTypes.get? d, g.get? d with
              | some (_, t), some dn => dfsWith g inputs overrides req run fuel dn t s
              | _, _ => .err (.keyError d) s) n.dependencies s = o
        intro hloop hloop2
        cases o with
        | err e s' => exact hloop2
        | ok s' =>
          obtain ⟨a1, a2, a3⟩ := hloop
          have hloop2 : OrderedCalls g overrides s'.1.calls := hloop2
          simp only [Out.bind]
          by_cases hu : n.userDefined = true
          · rw [if_pos hu]
            cases hin : inputs.get? n.name with
            | none =>
              simp only
              split
              · exact hloop2
              · exact hloop2
            | some v =>
              simp only
              unfold OrderedOut
              simp only [Out.state]
              rw [prune_calls]
              exact hloop2
          · rw [if_neg hu]
            have hsnoc : OrderedCalls g overrides (s'.1.calls ++ [(n.name, kwargsOf n.dependencies s'.1.computed)]) := by
              apply orderedCalls_snoc hloop2
              intro n' hn' d hd hod dn hdn hf
              simp only at hn'
              rw [hgn] at hn'
              cases hn'
              rw [← hw.deps_eq hgn] at hd
              rcases a3 d hd with h' | ⟨dn', h1, h2, _⟩
              · exact (a1.closed d dn h' hdn hod hf).1
              · simp only [id] at h1; rw [hdn] at h1; cases h1; exact absurd h2 hf
            generalize run n (kwargsOf n.dependencies s'.1.computed) s'.2 = r
            obtain ⟨res, t''⟩ := r
            cases res with
            | error e => exact hsnoc
            | ok v =>
              simp only
              unfold OrderedOut
              simp only [Out.state]
              rw [prune_calls]
              exact hsnoc

/-- In any execution, with any adapters, successful or not, functions are called after those they depend on. -/
theorem executeWith_ordered (hw : WellFormed g) {nodes : List (Node T V)} (hnodes : ∀ n ∈ nodes, g.get? n.name = some n)
    (t : σ) : OrderedCalls g overrides (executeWith g nodes inputs overrides run t).state.1.calls := by
  have hinit : Closed g inputs overrides (ExecState.init : ExecState V) :=
    ⟨by simp [ExecState.init], by simp [ExecState.init]⟩
  unfold executeWith
  exact forEach_ordered (name := fun n : Node T V => n.name)
    (fun n hn s hs => dfsWith_reached hw _ n _ s (hnodes n hn) hs)
    (fun n hn s hs ho => dfsWith_ordered hw _ n _ s (hnodes n hn) hs ho) (s := (ExecState.init, t)) hinit
    (orderedCalls_nil g overrides)

/-! ### Replaced functions -/

theorem dfsWith_relabel (R : Node T V → Dict Name V → Except UserErr V) {run' : Runner T V σ} (hw : WellFormed g)
    (hrun : ∀ n, g.get? n.name = some n → ∀ kw t, run' (n.withFn R) kw t = run n kw t) (fuel : Nat) :
    ∀ (n : Node T V) (dt : DepType) (s : ExecState V × σ), g.get? n.name = some n →
      dfsWith (Graph.withFn R g) inputs overrides req run' fuel (n.withFn R) dt s =
        dfsWith g inputs overrides req run fuel n dt s := by
  induction fuel with
  | zero => intro n dt s _; rfl
  | succ fuel ih =>
    intro n dt s hgn
    unfold dfsWith
    change (if s.1.computed.has n.name then Out.ok s else _) = (if s.1.computed.has n.name then Out.ok s else _)
    by_cases hc : s.1.computed.has n.name = true
    · rw [if_pos hc, if_pos hc]
    · rw [if_neg hc, if_neg hc]
      change (match overrides.get? n.name with | some v => _ | none => _) = (match overrides.get? n.name with | some v => _ | none => _)
      cases overrides.get? n.name with
      | some v => rfl
      | none =>
        dsimp only
        have hbody : (fun d (s : ExecState V × σ) => if s.1.computed.has d then Out.ok s else
              match (n.withFn R).inputTypes.get? d, (Graph.withFn R g).get? d with
              | some (_, t), some dn => dfsWith (Graph.withFn R g) inputs overrides req run' fuel dn t s
              | _, _ => Out.err (.keyError d) s) =
            (fun d (s : ExecState V × σ) => if s.1.computed.has d then Out.ok s else
              match n.inputTypes.get? d, g.get? d with
              | some (_, t), some dn => dfsWith g inputs overrides req run fuel dn t s
              | _, _ => Out.err (.keyError d) s) := by
          funext d s
          by_cases hc : s.1.computed.has d = true
          · rw [if_pos hc, if_pos hc]
          · rw [if_neg hc, if_neg hc, withFn_get?]
            change (match n.inputTypes.get? d, (g.get? d).map (Node.withFn R) with | some (_, t'), some dn => _ | _, _ => _) = _
            cases n.inputTypes.get? d with
            | none => rfl
            | some it =>
              cases hd : g.get? d with
              | none => rfl
              | some dn => exact ih dn it.2 s (by rw [hw.name_eq hd]; exact hd)
        refine Eq.trans (congrArg (fun b => Out.bind (forEach b n.dependencies s) _) hbody) ?_
        refine congrArg (Out.bind (forEach _ n.dependencies s)) (funext fun s' => ?_)
        change (if n.userDefined then _ else _) = (if n.userDefined then _ else _)
        by_cases hu : n.userDefined = true
        · rw [if_pos hu, if_pos hu]
          change (match inputs.get? n.name with | none => _ | some v => _) = (match inputs.get? n.name with | none => _ | some v => _)
          cases inputs.get? n.name with
          | none => rfl
          | some v => dsimp only; rw [withFn_prune]; rfl
        · rw [if_neg hu, if_neg hu]
          change (match run' (n.withFn R) (kwargsOf n.dependencies s'.1.computed) s'.2 with | (.error e, t) => _ | (.ok v, t) => _) = _
          rw [hrun n hgn]
          cases run n (kwargsOf n.dependencies s'.1.computed) s'.2 with
          | mk r t =>
            cases r with
            | error e => rfl
            | ok v => dsimp only; rw [withFn_prune]; rfl

theorem executeWith_relabel (R : Node T V → Dict Name V → Except UserErr V) {run' : Runner T V σ} (hw : WellFormed g)
    (hrun : ∀ n, g.get? n.name = some n → ∀ kw t, run' (n.withFn R) kw t = run n kw t)
    {nodes : List (Node T V)} (hnodes : ∀ n ∈ nodes, g.get? n.name = some n) (t : σ) :
    executeWith (Graph.withFn R g) (nodes.map (Node.withFn R)) inputs overrides run' t =
      executeWith g nodes inputs overrides run t := by
  unfold executeWith
  have hn : (nodes.map (Node.withFn R)).map (·.name) = nodes.map (·.name) := by rw [List.map_map]; rfl
  have hl : (Graph.withFn R g).length = g.length := List.length_map _
  rw [hn, hl]
  generalize nodes.map (·.name) = req
  generalize (ExecState.init, t) = s
  induction nodes generalizing s with
  | nil => rfl
  | cons a l ih =>
    simp only [List.map_cons, forEach]
    have h1 := dfsWith_relabel (inputs := inputs) (overrides := overrides) (req := req) R hw hrun (g.length + 1) a
      (if a.userDefined then .optional else .required) s (hnodes a (by simp))
    change Out.bind (dfsWith (Graph.withFn R g) inputs overrides req run' (g.length + 1) (a.withFn R)
      (if a.userDefined then .optional else .required) s) _ = _
    rw [h1]
    congr 1
    funext s'
    exact ih (fun n hn => hnodes n (by simp [hn])) (by rw [List.map_map]; rfl) s'

/-- The runner of the graph with replaced functions that runs the original ones. -/
def original (g : Graph T V) (run : Runner T V σ) : Runner T V σ := fun n' kw t =>
  match g.get? n'.name with
  | some n => run n kw t
  | none => (n'.fn kw, t)

/-- An execution with adapters matches the plain execution of the graph in which the functions are replaced by what the
adapters make of them. -/
theorem executeWith_replaced (R : Node T V → Dict Name V → Except UserErr V) (hw : WellFormed g)
    {nodes : List (Node T V)} (hnodes : ∀ n ∈ nodes, g.get? n.name = some n)
    {P : List (Name × Dict Name V) → Prop} {J : ExecState V → σ → Prop} {K killed : σ → Prop} (hP : PrefixClosed P)
    (hf : Faithful (Graph.withFn R g) inputs overrides (nodes.map (·.name)) (original g run) P J K killed) {t : σ}
    (hJ : J ExecState.init t)
    (hn : P (executeSubdag (Graph.withFn R g) (nodes.map (Node.withFn R)) inputs overrides).state.calls) :
    SimOut J K killed (executeSubdag (Graph.withFn R g) (nodes.map (Node.withFn R)) inputs overrides)
      (executeWith g nodes inputs overrides run t) := by
  rw [← executeWith_relabel (run' := original g run) R hw (fun n h kw t => by
    unfold original
    change (match g.get? n.name with | some n => _ | none => _) = _
    rw [h]) hnodes t]
  have hreq : (nodes.map (Node.withFn R)).map (·.name) = nodes.map (·.name) := by rw [List.map_map]; rfl
  refine executeWith_matches (withFn_wf R hw) ?_ hP (by rw [hreq]; exact hf) hJ hn
  intro n' hn'
  obtain ⟨n, h1, rfl⟩ := List.mem_map.1 hn'
  rw [withFn_get?]
  change (g.get? n.name).map _ = _
  rw [hnodes n h1]
  rfl

/-- The calls of the plain execution of the graph with replaced functions are in order. -/
theorem replaced_ordered (R : Node T V → Dict Name V → Except UserErr V) (hw : WellFormed g)
    {nodes : List (Node T V)} (hnodes : ∀ n ∈ nodes, g.get? n.name = some n) :
    OrderedCalls g overrides
      (executeSubdag (Graph.withFn R g) (nodes.map (Node.withFn R)) inputs overrides).state.calls := by
  have h := executeWith_ordered (inputs := inputs) (overrides := overrides) (run := stateless R) hw hnodes ()
  rw [executeWith_stateless] at h
  revert h
  generalize executeSubdag (Graph.withFn R g) (nodes.map (Node.withFn R)) inputs overrides = o
  cases o <;> exact id

end
end Verif
