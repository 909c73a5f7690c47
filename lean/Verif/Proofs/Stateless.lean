import Verif.Model.Lifecycle
import Verif.Proofs.Subdag

/-! Adapters that only replace what a node computes: the execution is that of a graph with other functions. -/
namespace Verif
variable {T V : Type}

/-- The node with another function. -/
def Node.withFn (R : Node T V → Dict Name V → Except UserErr V) (n : Node T V) : Node T V := { n with fn := R n }

/-- The graph with other functions. -/
def Graph.withFn (R : Node T V → Dict Name V → Except UserErr V) (g : Graph T V) : Graph T V :=
  g.map fun p => (p.1, p.2.withFn R)

/-- The runner without state. -/
def stateless {σ : Type} (R : Node T V → Dict Name V → Except UserErr V) : Runner T V σ := fun n kw t => (R n kw, t)

variable (R : Node T V → Dict Name V → Except UserErr V) (g : Graph T V)

theorem withFn_get? (k : Name) : (Graph.withFn R g).get? k = (g.get? k).map (Node.withFn R) := by
  induction g with
  | nil => rfl
  | cons p g ih =>
    obtain ⟨a, n⟩ := p
    change Dict.get? ((a, n.withFn R) :: Graph.withFn R g) k = _
    rw [Dict.get?_cons, Dict.get?_cons]
    split
    · rfl
    · exact ih

theorem withFn_some {k : Name} {n' : Node T V} (h : (Graph.withFn R g).get? k = some n') :
    ∃ n, g.get? k = some n ∧ n' = n.withFn R := by
  rw [withFn_get?] at h
  cases hg : g.get? k with
  | none => rw [hg] at h; cases h
  | some n => rw [hg] at h; cases h; exact ⟨n, rfl, rfl⟩

theorem withFn_keys : (Graph.withFn R g).keys = g.keys := by
  unfold Graph.withFn Dict.keys
  rw [List.map_map]; rfl

variable {g}

theorem withFn_wf (hw : WellFormed g) : WellFormed (Graph.withFn R g) where
  keys_nodup := by rw [withFn_keys]; exact hw.keys_nodup
  name_eq := by
    intro k n h
    obtain ⟨m, hm, rfl⟩ := withFn_some R g h
    have := hw.name_eq hm
    exact this
  deps_eq := by
    intro k n h
    obtain ⟨m, hm, rfl⟩ := withFn_some R g h
    have := hw.deps_eq hm
    exact this
  params_nodup := by
    intro k n h
    obtain ⟨m, hm, rfl⟩ := withFn_some R g h
    have := hw.params_nodup hm
    exact this
  deps_in := by
    intro k n d h hd
    obtain ⟨m, hm, rfl⟩ := withFn_some R g h
    obtain ⟨dn, hdn⟩ := hw.deps_in hm hd
    exact ⟨dn.withFn R, by rw [withFn_get?, hdn]; rfl⟩
  consumers := by
    intro d dn h m
    obtain ⟨dn0, hd0, rfl⟩ := withFn_some R g h
    refine (hw.consumers hd0 m).trans ⟨?_, ?_⟩
    · rintro ⟨mn, h1, h2⟩
      exact ⟨mn.withFn R, by rw [withFn_get?, h1]; rfl, h2⟩
    · rintro ⟨mn, h1, h2⟩
      obtain ⟨m0, hm0, rfl⟩ := withFn_some R g h1
      exact ⟨m0, hm0, h2⟩
  external_no_params := by
    intro k n h hk
    obtain ⟨m, hm, rfl⟩ := withFn_some R g h
    have := hw.external_no_params hm hk
    exact this

theorem withFn_acyclic (hac : Acyclic g) : Acyclic (Graph.withFn R g) := by
  obtain ⟨rank, hr⟩ := hac
  refine ⟨rank, ?_⟩
  intro k n h d hd
  obtain ⟨m, hm, rfl⟩ := withFn_some R g h
  exact hr k m hm d hd

variable (g)

theorem withFn_prunable (req : List Name) (c : Dict Name V) (d : Name) :
    prunable (Graph.withFn R g) req c d = prunable g req c d := by
  unfold prunable
  rw [withFn_get?]
  cases g.get? d <;> rfl

theorem withFn_prune (req deps : List Name) (s : ExecState V) :
    prune (Graph.withFn R g) req deps s = prune g req deps s := by
  unfold prune
  simp only [withFn_prunable]

/-- The same outcome beside a state. -/
def Out.beside {τ ε σ : Type} (t : σ) : Out τ ε → Out (τ × σ) ε
  | .ok s => .ok (s, t)
  | .err e s => .err e (s, t)

theorem forEach_beside {α τ ε σ : Type} {body : α → τ → Out τ ε} {body' : α → τ × σ → Out (τ × σ) ε} (t : σ)
    (l : List α) (h : ∀ a ∈ l, ∀ s, body' a (s, t) = (body a s).beside t) (s : τ) :
    forEach body' l (s, t) = (forEach body l s).beside t := by
  induction l generalizing s with
  | nil => rfl
  | cons a l ih =>
    unfold forEach
    rw [h a (by simp) s]
    cases body a s with
    | err e s' => rfl
    | ok s' => exact ih (fun b hb => h b (by simp [hb])) s'

theorem dfsWith_stateless {σ : Type} (inputs overrides : Dict Name V) (req : List Name) (fuel : Nat) :
    ∀ (n : Node T V) (dt : DepType) (s : ExecState V) (t : σ),
      dfsWith g inputs overrides req (stateless R) fuel n dt (s, t) =
        (dfs (Graph.withFn R g) inputs overrides req fuel (n.withFn R) dt s).beside t := by
  induction fuel with
  | zero => intro n dt s t; rfl
  | succ fuel ih =>
    intro n dt s t
    unfold dfsWith dfs
    change (if s.computed.has n.name then Out.ok (s, t) else _) = Out.beside t (if s.computed.has n.name then Out.ok s else _)
    by_cases hc : s.computed.has n.name = true
    · rw [if_pos hc, if_pos hc]; rfl
    · rw [if_neg hc, if_neg hc]
      change (match overrides.get? n.name with | some v => _ | none => _) =
        Out.beside t (match overrides.get? n.name with | some v => _ | none => _)
      cases overrides.get? n.name with
      | some v => rfl
      | none =>
        dsimp only
        rw [forEach_beside (body := fun d s => if s.computed.has d then Out.ok s else
              match (n.withFn R).inputTypes.get? d, (Graph.withFn R g).get? d with
              | some (_, t), some dn => dfs (Graph.withFn R g) inputs overrides req fuel dn t s
              | _, _ => Out.err (.keyError d) s) t n.dependencies]
        · change (Out.beside t (forEach _ n.dependencies s)).bind _ = Out.beside t (Out.bind (forEach _ n.dependencies s) _)
          generalize forEach (fun d s => if s.computed.has d then Out.ok s else
              match (n.withFn R).inputTypes.get? d, (Graph.withFn R g).get? d with
              | some (_, t), some dn => dfs (Graph.withFn R g) inputs overrides req fuel dn t s
              | _, _ => Out.err (.keyError d) s) n.dependencies s = o
          cases o with
          | err e s' => rfl
          | ok s' =>
            change (if n.userDefined then _ else _) = Out.beside t (if n.userDefined then _ else _)
            by_cases hu : n.userDefined = true
            · rw [if_pos hu, if_pos hu]
              change (match inputs.get? n.name with | none => _ | some v => _) =
                Out.beside t (match inputs.get? n.name with | none => _ | some v => _)
              cases inputs.get? n.name with
              | none => dsimp only; split <;> rfl
              | some v => dsimp only; rw [withFn_prune]; rfl
            · rw [if_neg hu, if_neg hu]
              dsimp only [stateless, Node.withFn]
              cases R n (kwargsOf n.dependencies s'.computed) with
              | error e => rfl
              | ok v => dsimp only; rw [withFn_prune]; rfl
        · intro d _ s
          dsimp only
          by_cases hc : s.computed.has d = true
          · rw [if_pos hc, if_pos hc]; rfl
          · rw [if_neg hc, if_neg hc, withFn_get?]
            change (match n.inputTypes.get? d, g.get? d with | some (_, t'), some dn => _ | _, _ => _) =
              Out.beside t (match n.inputTypes.get? d, (g.get? d).map (Node.withFn R) with | some (_, t), some dn => _ | _, _ => _)
            cases n.inputTypes.get? d with
            | none => rfl
            | some it =>
              cases g.get? d with
              | none => rfl
              | some dn => exact ih dn it.2 s t

/-- Execution with an adapter that replaces what nodes compute. -/
theorem executeWith_stateless {σ : Type} (nodes : List (Node T V)) (inputs overrides : Dict Name V) (t : σ) :
    executeWith g nodes inputs overrides (stateless R) t =
      (executeSubdag (Graph.withFn R g) (nodes.map (Node.withFn R)) inputs overrides).beside t := by
  unfold executeWith executeSubdag
  have hn : (nodes.map (Node.withFn R)).map (·.name) = nodes.map (·.name) := by rw [List.map_map]; rfl
  have hl : (Graph.withFn R g).length = g.length := List.length_map _
  rw [hn, hl]
  have hmap : ∀ (l : List (Node T V)) s,
      forEach (fun n s => dfs (Graph.withFn R g) inputs overrides (nodes.map (·.name)) (g.length + 1) n
        (if n.userDefined then .optional else .required) s) (l.map (Node.withFn R)) s =
      forEach (fun n s => dfs (Graph.withFn R g) inputs overrides (nodes.map (·.name)) (g.length + 1) (n.withFn R)
        (if n.userDefined then .optional else .required) s) l s := by
    intro l
    induction l with
    | nil => intro s; rfl
    | cons a l ih =>
      intro s
      simp only [List.map_cons, forEach]
      congr 1
      funext s'
      exact ih s'
  rw [hmap]
  exact forEach_beside t nodes (fun n _ s => dfsWith_stateless R g inputs overrides _ _ n _ s t) _

end Verif
