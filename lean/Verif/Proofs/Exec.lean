import Verif.Model.Exec
import Verif.Spec.Denotation

namespace Verif
variable {T V : Type}

/-! ### Denotation lemmas -/

theorem Absent.not_den {g : Graph T V} {inputs overrides : Dict Name V} {k : Name} {v : V}
    (ha : Absent g inputs overrides k) : ¬ Den g inputs overrides k v := by
  obtain ⟨n, hn, hk, hi, ho⟩ := ha
  intro hd
  cases hd with
  | override _ h => simp_all
  | input _ _ _ h => simp_all
  | call val h1 h2 h3 => simp_all

theorem argsFor_congr {params : Dict Name (T × DepType)} {f f' : Name → Option V}
    (h : ∀ d ∈ params.keys, f d = f' d) : argsFor params f = argsFor params f' := by
  unfold argsFor
  induction params with
  | nil => rfl
  | cons p t ih =>
    simp only [List.filterMap_cons]
    rw [h p.1 (by simp [Dict.keys]), ih (fun d hd => h d (by simp only [Dict.keys] at hd ⊢; simp [hd]))]

theorem mem_keys_of_mem {K W : Type} {l : Dict K W} {p : K × W} (h : p ∈ l) : p.1 ∈ l.keys :=
  List.mem_map_of_mem h

/-- Two valuations that satisfy the conditions of `Den.call` and agree give the same arguments. -/
theorem args_unique {g : Graph T V} {inputs overrides : Dict Name V} {n : Node T V}
    {val val' : Name → Option V}
    (h4 : ∀ d w, d ∈ n.inputTypes.keys → val d = some w → Den g inputs overrides d w)
    (h5 : ∀ d t, (d, t) ∈ n.inputTypes → val d = none → t.2 = .optional ∧ Absent g inputs overrides d)
    (g4 : ∀ d w, d ∈ n.inputTypes.keys → val' d = some w → Den g inputs overrides d w)
    (g5 : ∀ d t, (d, t) ∈ n.inputTypes → val' d = none → t.2 = .optional ∧ Absent g inputs overrides d)
    (hag : ∀ d w w', d ∈ n.inputTypes.keys → val d = some w → val' d = some w' → w = w') :
    argsFor n.inputTypes val = argsFor n.inputTypes val' := by
  apply argsFor_congr
  intro d hd
  obtain ⟨p, hp, rfl⟩ := List.mem_map.1 hd
  cases hv : val p.1 with
  | none =>
    cases hv' : val' p.1 with
    | none => rfl
    | some w => exact absurd (g4 _ _ hd hv') (h5 _ _ hp hv).2.not_den
  | some w =>
    cases hv' : val' p.1 with
    | none => exact absurd (h4 _ _ hd hv) (g5 _ _ hp hv').2.not_den
    | some w' => rw [hag _ _ _ hd hv hv']

/-- The functional value of a node is unique. -/
theorem Den.det {g : Graph T V} {inputs overrides : Dict Name V} {k : Name} {v v' : V}
    (h : Den g inputs overrides k v) (h' : Den g inputs overrides k v') : v = v' := by
  induction h generalizing v' with
  | override h1 h2 => cases h' <;> simp_all
  | input h1 h2 h3 h4 => cases h' <;> simp_all
  | call val h1 h2 h3 h4 h5 h6 ih =>
    cases h' with
    | override => simp_all
    | input => simp_all
    | call val' g1 g2 g3 g4 g5 g6 =>
      rw [h1] at g1; cases g1
      rw [args_unique h4 h5 g4 g5 (fun d w w' hd hv hv' => ih _ _ hd hv (g4 _ _ hd hv')), g6] at h6
      cases h6; rfl

/-! ### Circular dependencies -/

theorem LivePath.trans {g : Graph T V} {overrides : Dict Name V} {a b c : Name}
    (h : LivePath g overrides a b) (h' : LivePath g overrides b c) : LivePath g overrides a c := by
  induction h with
  | edge h => exact .step h h'
  | step h _ ih => exact .step h (ih h')

theorem LivePath.snoc {g : Graph T V} {overrides : Dict Name V} {a b c : Name}
    (h : LivePath g overrides a b) (h' : LiveEdge g overrides b c) : LivePath g overrides a c :=
  h.trans (.edge h')

theorem Needed.live {g : Graph T V} {overrides : Dict Name V} {req : List Name} {a b : Name}
    (h : Needed g overrides req a) (he : LiveEdge g overrides a b) : Needed g overrides req b := by
  obtain ⟨ho, n, hn, hb⟩ := he
  exact .param h ho hn hb

theorem Needed.path {g : Graph T V} {overrides : Dict Name V} {req : List Name} {a b : Name}
    (h : Needed g overrides req a) (hp : LivePath g overrides a b) : Needed g overrides req b := by
  induction hp with
  | edge he => exact h.live he
  | step he _ ih => exact ih (h.live he)

/-- A node that has a value is in no circular dependency, nor does it lead to one. -/
theorem Den.acc {g : Graph T V} (hw : WellFormed g) {inputs overrides : Dict Name V} {k : Name} {v : V}
    (h : Den g inputs overrides k v) : Acc (fun b a => LiveEdge g overrides a b) k := by
  induction h with
  | override h1 h2 =>
    constructor
    rintro b ⟨ho, _⟩
    rw [h2] at ho; cases ho
  | input h1 h2 h3 h4 =>
    constructor
    rintro b ⟨_, n, hn, hb⟩
    rw [h1] at hn; cases hn
    rw [hw.external_no_params h1 h3] at hb; cases hb
  | call val h1 h2 h3 h4 h5 h6 ih =>
    constructor
    rintro b ⟨_, n, hn, hb⟩
    rw [h1] at hn; cases hn
    cases hv : val b with
    | some w => exact ih b w hb hv
    | none =>
      obtain ⟨t, ht⟩ := Dict.mem_keys_iff.1 hb
      obtain ⟨_, m, hm, hk, _⟩ := h5 b t (Dict.get?_mem ht) hv
      constructor
      rintro c ⟨_, m', hm', hc⟩
      rw [hm] at hm'; cases hm'
      rw [hw.external_no_params hm hk] at hc; cases hc

theorem acc_path {g : Graph T V} {overrides : Dict Name V} {a b : Name}
    (h : Acc (fun b a => LiveEdge g overrides a b) a) (hp : LivePath g overrides a b) :
    Acc (fun b a => LiveEdge g overrides a b) b := by
  induction hp with
  | edge he => exact h.inv he
  | step he _ ih => exact ih (h.inv he)

theorem acc_no_cycle {g : Graph T V} {overrides : Dict Name V} {a : Name}
    (h : Acc (fun b a => LiveEdge g overrides a b) a) : ¬ LivePath g overrides a a := by
  induction h with
  | intro a _ ih =>
    intro hp
    cases hp with
    | edge he => exact ih a he (.edge he)
    | step he hp => exact ih _ he (hp.snoc he)

theorem Den.no_cycle {g : Graph T V} (hw : WellFormed g) {inputs overrides : Dict Name V} {k : Name} {v : V}
    (h : Den g inputs overrides k v) : ¬ LivePath g overrides k k := acc_no_cycle (h.acc hw)

theorem Acyclic.no_cycle {g : Graph T V} (h : Acyclic g) {overrides : Dict Name V} {req : List Name} :
    ¬ NeededCycle g overrides req := by
  obtain ⟨rank, hr⟩ := h
  have : ∀ {a b}, LivePath g overrides a b → rank b < rank a := by
    intro a b h
    induction h with
    | edge he => obtain ⟨_, n, hn, hb⟩ := he; exact hr _ _ hn _ hb
    | step he _ ih =>
      obtain ⟨_, n, hn, hb⟩ := he
      have := hr _ _ hn _ hb
      omega
  rintro ⟨k, _, hk⟩
  exact absurd (this hk) (Nat.lt_irrefl _)

/-- A descending chain of `n` steps that starts at `k`. -/
inductive LiveChain (g : Graph T V) (overrides : Dict Name V) : Nat → Name → Prop
  | nil {k} : LiveChain g overrides 0 k
  | cons {n a b} : LiveEdge g overrides a b → LiveChain g overrides n b → LiveChain g overrides (n + 1) a

theorem LiveChain.list {g : Graph T V} {overrides : Dict Name V} {n : Nat} {a : Name}
    (h : LiveChain g overrides n a) :
    ∃ l : List Name, l.length = n ∧ (∀ x ∈ l, x ∈ g.keys ∧ (x = a ∨ LivePath g overrides a x)) ∧
      (l.Nodup ∨ ∃ x ∈ l, LivePath g overrides x x) := by
  induction h with
  | nil => exact ⟨[], rfl, by simp, .inl (by simp)⟩
  | @cons n a b he _ ih =>
    obtain ⟨l, h1, h2, h3⟩ := ih
    obtain ⟨ho, an, han, hb⟩ := id he
    refine ⟨a :: l, by simp [h1], ?_, ?_⟩
    · intro x hx
      rcases List.mem_cons.1 hx with rfl | hx
      · exact ⟨Dict.mem_keys_iff.2 ⟨_, han⟩, .inl rfl⟩
      · obtain ⟨p1, p2⟩ := h2 x hx
        refine ⟨p1, .inr ?_⟩
        rcases p2 with rfl | p2
        · exact .edge he
        · exact .step he p2
    · rcases h3 with h3 | ⟨x, hx, hc⟩
      · by_cases ha : a ∈ l
        · right
          refine ⟨a, by simp, ?_⟩
          rcases (h2 a ha).2 with rfl | p
          · exact .edge he
          · exact .step he p
        · exact .inl (List.nodup_cons.2 ⟨ha, h3⟩)
      · exact .inr ⟨x, by simp [hx], hc⟩

theorem nodup_length_le {l : List Name} : ∀ {m : List Name}, l.Nodup → (∀ x ∈ l, x ∈ m) → l.length ≤ m.length := by
  induction l with
  | nil => intros; simp
  | cons a t ih =>
    intro m hn hs
    obtain ⟨h1, h2⟩ := List.nodup_cons.1 hn
    have ha : a ∈ m := hs a (by simp)
    have := ih (m := m.erase a) h2 (fun x hx => (List.mem_erase_of_ne (fun e : x = a => h1 (e ▸ hx))).2 (hs x (by simp [hx])))
    have hl := List.length_erase_of_mem ha
    have := List.length_pos_of_mem ha
    simp only [List.length_cons]
    omega

/-- A chain longer than the graph runs into a circular dependency. -/
theorem LiveChain.cycle {g : Graph T V} {overrides : Dict Name V} {n : Nat} {a : Name}
    (h : LiveChain g overrides n a) (hn : g.length < n) :
    ∃ x, (x = a ∨ LivePath g overrides a x) ∧ LivePath g overrides x x := by
  obtain ⟨l, h1, h2, h3⟩ := h.list
  rcases h3 with h3 | ⟨x, hx, hc⟩
  · have := nodup_length_le h3 (fun x hx => (h2 x hx).1)
    rw [h1] at this
    simp only [Dict.keys, List.length_map] at this
    omega
  · exact ⟨x, (h2 x hx).2, hc⟩

/-! ### Pruning -/

theorem prune_spec (g : Graph T V) (req : List Name) (deps : List Name) (s : ExecState V) :
    (prune g req deps s).calls = s.calls ∧ (prune g req deps s).stored = s.stored ∧
    ∀ k, (prune g req deps s).computed.get? k = s.computed.get? k ∨
      ((prune g req deps s).computed.get? k = none ∧ k ∈ deps ∧ k ∉ req ∧
        ∃ dn, g.get? k = some dn ∧ ∀ m ∈ dn.dependedOnBy, ∃ v, s.computed.get? m = some v) := by
  induction deps generalizing s with
  | nil => exact ⟨rfl, rfl, fun k => .inl rfl⟩
  | cons d ds ih =>
    simp only [prune, List.foldl_cons]
    by_cases hp : prunable g req s.computed d = true
    · rw [if_pos hp]
      obtain ⟨h1, h2, h3⟩ := ih { s with computed := s.computed.del d }
      refine ⟨h1, h2, fun k => ?_⟩
      have hk := h3 k
      by_cases hdk : d = k
      · subst hdk
        right
        unfold prunable at hp
        simp only [Bool.and_eq_true] at hp
        obtain ⟨⟨_, hr⟩, hm⟩ := hp
        refine ⟨?_, by simp, by simpa using hr, ?_⟩
        · rcases hk with hk | hk
          · simp only [prune] at hk; rw [hk]; simp [Dict.get?_del]
          · exact hk.1
        · cases hg : g.get? d with
          | none => simp [hg] at hm
          | some dn =>
            refine ⟨dn, rfl, fun m hmm => ?_⟩
            simp only [hg, List.all_eq_true, Bool.and_eq_true] at hm
            exact (Dict.has_eq_true_iff _ _).1 (hm m hmm).1
      · rcases hk with hk | ⟨hk1, hk2, hk3, dn, hk4, hk5⟩
        · left
          simp only [prune] at hk; rw [hk]; simp [Dict.get?_del, hdk]
        · right
          refine ⟨hk1, by simp [hk2], hk3, dn, hk4, fun m hm => ?_⟩
          obtain ⟨v, hv⟩ := hk5 m hm
          rw [Dict.get?_del] at hv
          split at hv
          · cases hv
          · exact ⟨v, hv⟩
    · rw [if_neg hp]
      obtain ⟨h1, h2, h3⟩ := ih s
      refine ⟨h1, h2, fun k => ?_⟩
      rcases h3 k with hk | ⟨hk1, hk2, hk3, hk4⟩
      · exact .inl hk
      · exact .inr ⟨hk1, by simp [hk2], hk3, hk4⟩

/-! ### Invariant of the traversal -/

section
variable (g : Graph T V) (inputs overrides : Dict Name V) (req : List Name)

/-- A recorded call is a call of a non-overridden function node with the right arguments. -/
def CallOk (c : Name × Dict Name V) : Prop :=
  Needed g overrides req c.1 ∧ overrides.get? c.1 = none ∧
  ∃ n, g.get? c.1 = some n ∧ n.kind ≠ .external ∧ RightArgs g inputs overrides n c.2

/-- What holds of the trace at any time, also after an exception. -/
structure TraceInv (s : ExecState V) : Prop where
  calls_nodup : (s.calls.map (·.1)).Nodup
  calls_ok : ∀ c ∈ s.calls, CallOk g inputs overrides req c

/-- Invariant between traversals. -/
structure Inv (s : ExecState V) : Prop extends TraceInv g inputs overrides req s where
  den : ∀ k v, s.computed.get? k = some v → Den g inputs overrides k v
  sub : ∀ k v, s.computed.get? k = some v → k ∈ s.stored
  pruned : ∀ k, k ∈ s.stored → s.computed.get? k = none →
    k ∉ req ∧ ∀ m mn, g.get? m = some mn → k ∈ mn.inputTypes.keys → m ∈ s.stored
  stored_nodup : s.stored.Nodup
  calls_sub : ∀ c ∈ s.calls, c.1 ∈ s.stored
  needed : ∀ k ∈ s.stored, Needed g overrides req k
  has_den : ∀ k ∈ s.stored, ∃ v, Den g inputs overrides k v

/-- What an exception of the executor tells. -/
def ErrOk : ExecErr → Prop
  | .missing m => Needed g overrides req m ∧ Absent g inputs overrides m ∧
      ∃ p pn t, Needed g overrides req p ∧ overrides.get? p = none ∧ g.get? p = some pn ∧
        (m, t, DepType.required) ∈ pn.inputTypes
  | .raised m e => Needed g overrides req m ∧ overrides.get? m = none ∧
      ∃ n kw, g.get? m = some n ∧ n.kind ≠ .external ∧ RightArgs g inputs overrides n kw ∧ n.fn kw = .error e
  | .keyError _ => False
  | .diverge => NeededCycle g overrides req

/-- `n` can be resolved: it has a value or may be left out. -/
def Resolvable (k : Name) (dt : DepType) : Prop :=
  (∃ v, Den g inputs overrides k v) ∨ (dt = .optional ∧ Absent g inputs overrides k)

variable {g inputs overrides req}

theorem TraceInv.init : TraceInv g inputs overrides req ExecState.init :=
  ⟨by simp [ExecState.init], by simp [ExecState.init]⟩

theorem Inv.init : Inv g inputs overrides req ExecState.init :=
  { TraceInv.init with
    den := by simp [ExecState.init]
    sub := by simp [ExecState.init]
    pruned := by simp [ExecState.init]
    stored_nodup := by simp [ExecState.init]
    calls_sub := by simp [ExecState.init]
    needed := by simp [ExecState.init]
    has_den := by simp [ExecState.init] }

/-- Storing the value of a node that was not stored before, then pruning, keeps the invariant. -/
theorem Inv.store_prune (hw : WellFormed g) {s : ExecState V} (h : Inv g inputs overrides req s)
    {k : Name} {v : V} (hk : k ∉ s.stored) (hd : Den g inputs overrides k v)
    (hn : Needed g overrides req k) (deps : List Name) (hdeps : k ∉ deps) :
    Inv g inputs overrides req (prune g req deps (s.store k v)) ∧
    (∀ j, j ∈ (prune g req deps (s.store k v)).stored ↔ j ∈ s.stored ∨ j = k) ∧
    (prune g req deps (s.store k v)).computed.get? k = some v := by
  obtain ⟨hc, hs, hp⟩ := prune_spec g req deps (s.store k v)
  have hst : (prune g req deps (s.store k v)).stored = s.stored ++ [k] := hs
  have hcl : (prune g req deps (s.store k v)).calls = s.calls := hc
  have hget : ∀ j w, (prune g req deps (s.store k v)).computed.get? j = some w →
      (j = k ∧ w = v) ∨ s.computed.get? j = some w := by
    intro j w hj
    rcases hp j with h' | h'
    · rw [h'] at hj
      simp only [ExecState.store, Dict.get?_set] at hj
      split at hj
      · left; simp_all
      · right; exact hj
    · rw [h'.1] at hj; cases hj
  refine ⟨?_, ?_, ?_⟩
  · refine
      { calls_nodup := by rw [hcl]; exact h.calls_nodup
        calls_ok := by rw [hcl]; exact h.calls_ok
        den := ?_, sub := ?_, pruned := ?_, stored_nodup := ?_, calls_sub := ?_, needed := ?_, has_den := ?_ }
    · intro j w hj
      rcases hget j w hj with ⟨rfl, rfl⟩ | hj
      · exact hd
      · exact h.den j w hj
    · intro j w hj
      rw [hst]
      rcases hget j w hj with ⟨rfl, rfl⟩ | hj
      · simp
      · simp [h.sub j w hj]
    · intro j hj hnone
      rw [hst] at hj ⊢
      rcases hp j with h' | ⟨_, _, hr, dn, hdn, hall⟩
      · rw [h'] at hnone
        simp only [ExecState.store, Dict.get?_set] at hnone
        split at hnone
        · cases hnone
        · rename_i hkj
          have hjs : j ∈ s.stored := by
            rcases List.mem_append.1 hj with h1 | h1
            · exact h1
            · simp at h1; exact absurd h1.symm hkj
          obtain ⟨h1, h2⟩ := h.pruned j hjs hnone
          exact ⟨h1, fun m mn hm hd' => by simp [h2 m mn hm hd']⟩
      · refine ⟨hr, fun m mn hm hd' => ?_⟩
        obtain ⟨w, hw'⟩ := hall m ((hw.consumers hdn m).2 ⟨mn, hm, hd'⟩)
        simp only [ExecState.store, Dict.get?_set] at hw'
        split at hw'
        · subst_vars; simp
        · simp [h.sub m w hw']
    · rw [hst]
      rw [List.nodup_append]
      refine ⟨h.stored_nodup, by simp, ?_⟩
      intro a ha b hb
      simp at hb; subst hb
      exact fun e => hk (e ▸ ha)
    · intro c hc'
      rw [hcl] at hc'; rw [hst]
      simp [h.calls_sub c hc']
    · intro j hj
      rw [hst] at hj
      rcases List.mem_append.1 hj with h1 | h1
      · exact h.needed j h1
      · simp at h1; subst h1; exact hn
    · intro j hj
      rw [hst] at hj
      rcases List.mem_append.1 hj with h1 | h1
      · exact h.has_den j h1
      · simp at h1; subst h1; exact ⟨v, hd⟩
  · intro j; rw [hst]; simp
  · rcases hp k with h' | h'
    · rw [h']; simp [ExecState.store]
    · exact absurd h'.2.1 hdeps

theorem Inv.store (hw : WellFormed g) {s : ExecState V} (h : Inv g inputs overrides req s)
    {k : Name} {v : V} (hk : k ∉ s.stored) (hd : Den g inputs overrides k v)
    (hn : Needed g overrides req k) : Inv g inputs overrides req (s.store k v) := by
  have := (h.store_prune hw hk hd hn [] (by simp)).1
  exact this

/-- Post-condition of a traversal of `k`. -/
def Post (fuel : Nat) (k : Name) (dt : DepType) (s : ExecState V) :
    Out (ExecState V) ExecErr → Prop
  | .ok s' => Inv g inputs overrides req s' ∧ (∀ j ∈ s.stored, j ∈ s'.stored) ∧
      (∀ j ∈ s'.stored, j ∈ s.stored ∨ j = k ∨ LivePath g overrides k j) ∧
      ((∃ v, s'.computed.get? k = some v) ∨ (dt = .optional ∧ Absent g inputs overrides k))
  | .err e s' => TraceInv g inputs overrides req s' ∧
      ((e = .diverge ∧ LiveChain g overrides fuel k) ∨
        (ErrOk g inputs overrides req e ∧ ¬ Resolvable g inputs overrides k dt))

theorem kwargsOf_eq_argsFor {n : Node T V} (hdeps : n.dependencies = n.inputTypes.keys)
    (c : Dict Name V) : kwargsOf n.dependencies c = argsFor n.inputTypes (fun d => c.get? d) := by
  unfold kwargsOf argsFor
  rw [hdeps, Dict.keys, List.filterMap_map]
  rfl

theorem dfs_spec (hw : WellFormed g) :
    ∀ (fuel : Nat) (n : Node T V) (dt : DepType) (s : ExecState V),
      g.get? n.name = some n → Inv g inputs overrides req s →
      (n.name ∈ s.stored → ∃ v, s.computed.get? n.name = some v) →
      Needed g overrides req n.name →
      (dt = .required → n.kind = .external → ∃ p pn t, Needed g overrides req p ∧
        overrides.get? p = none ∧ g.get? p = some pn ∧ (n.name, t, DepType.required) ∈ pn.inputTypes) →
      Post (g := g) (inputs := inputs) (overrides := overrides) (req := req) fuel n.name dt s
        (dfs g inputs overrides req fuel n dt s) := by
  intro fuel
  induction fuel with
  | zero => intro n dt s _ h _ _ _; exact ⟨h.toTraceInv, .inl ⟨rfl, .nil⟩⟩
  | succ fuel ih =>
    intro n dt s hgn hinv hst hneed horig
    unfold dfs
    split
    · rename_i hhas
      exact ⟨hinv, fun _ h => h, fun _ h => .inl h, .inl ((Dict.has_eq_true_iff _ _).1 hhas)⟩
    · rename_i hhas
      have hnc : s.computed.get? n.name = none := by
        simpa [Dict.has] using hhas
      have hns : n.name ∉ s.stored := by
        intro h; obtain ⟨v, hv⟩ := hst h; simp [hnc] at hv
      split
      · rename_i v hov
        have hden : Den g inputs overrides n.name v := .override hgn hov
        refine ⟨hinv.store hw hns hden hneed, ?_, ?_, .inl ⟨v, by simp [ExecState.store]⟩⟩
        · intro j hj; simp [ExecState.store, hj]
        · intro j hj
          simp only [ExecState.store, List.mem_append, List.mem_singleton] at hj
          rcases hj with hj | rfl
          · exact .inl hj
          · exact .inr (.inl rfl)
      · rename_i hov
        have hde := hw.deps_eq hgn
        -- the loop over the dependencies
        have loop : ∀ (ds : List Name), (∀ d ∈ ds, d ∈ n.inputTypes.keys) → ∀ s0 : ExecState V,
            Inv g inputs overrides req s0 → n.name ∉ s0.stored →
            match forEach (fun d s =>
              if s.computed.has d then .ok s
              else
                match n.inputTypes.get? d, g.get? d with
                | some (_, t), some dn => dfs g inputs overrides req fuel dn t s
                | _, _ => .err (.keyError d) s) ds s0 with
            | .ok s' => Inv g inputs overrides req s' ∧ (∀ j ∈ s0.stored, j ∈ s'.stored) ∧
                (∀ j ∈ s'.stored, j ∈ s0.stored ∨ LivePath g overrides n.name j) ∧
                (∀ d ∈ ds, (∃ v, s'.computed.get? d = some v) ∨
                  ((∃ t, n.inputTypes.get? d = some (t, .optional)) ∧ Absent g inputs overrides d))
            | .err e s' => TraceInv g inputs overrides req s' ∧
                ((e = .diverge ∧ LiveChain g overrides (fuel + 1) n.name) ∨ (ErrOk g inputs overrides req e ∧
                ∃ d ∈ ds, ∃ t, n.inputTypes.get? d = some t ∧ ¬ Resolvable g inputs overrides d t.2)) := by
          intro ds
          induction ds with
          | nil =>
            intro _ s0 h0 _
            exact ⟨h0, fun _ h => h, fun _ h => .inl h, by simp⟩
          | cons d ds ihds =>
            intro hds s0 h0 hn0
            have hd : d ∈ n.inputTypes.keys := hds d (by simp)
            obtain ⟨⟨ty, t⟩, ht⟩ := Dict.mem_keys_iff.1 hd
            obtain ⟨dn, hdn⟩ := hw.deps_in hgn hd
            have hdname := hw.name_eq hdn
            have hlive : LiveEdge g overrides n.name d := ⟨hov, n, hgn, hd⟩
            -- one step
            have step : match (if s0.computed.has d then Out.ok s0
                else
                  match n.inputTypes.get? d, g.get? d with
                  | some (_, t), some dn => dfs g inputs overrides req fuel dn t s0
                  | _, _ => Out.err (.keyError d) s0 : Out (ExecState V) ExecErr) with
              | .ok s' => Inv g inputs overrides req s' ∧ (∀ j ∈ s0.stored, j ∈ s'.stored) ∧
                (∀ j ∈ s'.stored, j ∈ s0.stored ∨ LivePath g overrides n.name j) ∧
                ((∃ v, s'.computed.get? d = some v) ∨
                  (t = .optional ∧ Absent g inputs overrides d))
              | .err e s' => TraceInv g inputs overrides req s' ∧
                  ((e = .diverge ∧ LiveChain g overrides fuel d) ∨
                    (ErrOk g inputs overrides req e ∧ ¬ Resolvable g inputs overrides d t)) := by
              split
              · rename_i heq
                split at heq
                · cases heq
                  rename_i hh
                  exact ⟨h0, fun _ h => h, fun _ h => .inl h, .inl ((Dict.has_eq_true_iff _ _).1 hh)⟩
                · rw [ht, hdn] at heq
                  simp only at heq
                  have := ih dn t s0 (by rw [hdname]; exact hdn) h0 (by
                      rw [hdname]
                      intro hds0
                      cases hcd : s0.computed.get? d with
                      | some v => exact ⟨v, rfl⟩
                      | none => exact absurd ((h0.pruned d hds0 hcd).2 _ _ hgn hd) hn0)
                    (by rw [hdname]; exact .param hneed hov hgn hd)
                    (by
                      intro htr _
                      subst htr
                      rw [hdname]
                      exact ⟨n.name, n, ty, hneed, hov, hgn, Dict.get?_mem ht⟩)
                  rw [heq] at this
                  obtain ⟨p1, p2, p3, p4⟩ := this
                  rw [hdname] at p3 p4
                  refine ⟨p1, p2, fun j hj => ?_, p4⟩
                  rcases p3 j hj with h | rfl | h
                  · exact .inl h
                  · exact .inr (.edge hlive)
                  · exact .inr (.step hlive h)
              · rename_i heq
                split at heq
                · cases heq
                · rw [ht, hdn] at heq
                  simp only at heq
                  have := ih dn t s0 (by rw [hdname]; exact hdn) h0 (by
                      rw [hdname]
                      intro hds0
                      cases hcd : s0.computed.get? d with
                      | some v => exact ⟨v, rfl⟩
                      | none => exact absurd ((h0.pruned d hds0 hcd).2 _ _ hgn hd) hn0)
                    (by rw [hdname]; exact .param hneed hov hgn hd)
                    (by
                      intro htr _
                      subst htr
                      rw [hdname]
                      exact ⟨n.name, n, ty, hneed, hov, hgn, Dict.get?_mem ht⟩)
                  rw [heq] at this
                  rw [hdname] at this
                  exact this
            simp only [forEach]
            revert step
            generalize (if s0.computed.has d then Out.ok s0
                else
                  match n.inputTypes.get? d, g.get? d with
                  | some (_, t), some dn => dfs g inputs overrides req fuel dn t s0
                  | _, _ => Out.err (.keyError d) s0 : Out (ExecState V) ExecErr) = o
            intro step
            cases o with
            | err e s' =>
              simp only [Out.bind]
              obtain ⟨p1, ⟨rfl, p2⟩ | ⟨p2, p3⟩⟩ := step
              · exact ⟨p1, .inl ⟨rfl, .cons hlive p2⟩⟩
              · exact ⟨p1, .inr ⟨p2, d, by simp, (ty, t), ht, p3⟩⟩
            | ok s1 =>
              simp only [Out.bind]
              obtain ⟨p1, p2, p3, p4⟩ := step
              have hn1 : n.name ∉ s1.stored := by
                intro h
                rcases p3 _ h with h' | h'
                · exact hn0 h'
                · obtain ⟨v, hv⟩ := p1.has_den _ h
                  exact hv.no_cycle hw h'
              have := ihds (fun d' h' => hds d' (by simp [h'])) s1 p1 hn1
              revert this
              generalize (forEach _ ds s1 : Out (ExecState V) ExecErr) = o'
              intro this
              cases o' with
              | err e s' =>
                obtain ⟨q1, q2 | ⟨q2, d', q3, q4⟩⟩ := this
                · exact ⟨q1, .inl q2⟩
                · exact ⟨q1, .inr ⟨q2, d', by simp [q3], q4⟩⟩
              | ok s2 =>
                obtain ⟨q1, q2, q3, q4⟩ := this
                refine ⟨q1, fun j hj => q2 j (p2 j hj), ?_, ?_⟩
                · intro j hj
                  rcases q3 j hj with h | h
                  · exact p3 j h
                  · exact .inr h
                · intro d' hd'
                  rcases List.mem_cons.1 hd' with rfl | hd'
                  · rcases p4 with ⟨v, hv⟩ | ⟨hopt, habs⟩
                    · left
                      -- still computed: otherwise it was pruned, so `n` would be stored
                      cases hcd : s2.computed.get? d' with
                      | some w => exact ⟨w, rfl⟩
                      | none =>
                        have hds2 : d' ∈ s2.stored := q2 _ (p1.sub _ _ hv)
                        have hn2 := (q1.pruned d' hds2 hcd).2 _ _ hgn hd
                        rcases q3 _ hn2 with h | h
                        · exact absurd h hn1
                        · obtain ⟨v', hv'⟩ := q1.has_den _ hn2
                          exact absurd h (hv'.no_cycle hw)
                    · right; subst hopt; exact ⟨⟨ty, ht⟩, habs⟩
                  · exact q4 d' hd'
        have hl := loop n.dependencies (by rw [hde]; exact fun _ h => h) s hinv hns
        revert hl
        generalize (forEach _ n.dependencies s : Out (ExecState V) ExecErr) = o
        intro hl
        cases o with
        | err e s' =>
          simp only [Out.bind]
          obtain ⟨p1, p2 | ⟨p2, d, hd, ⟨ty, t⟩, ht, hres⟩⟩ := hl
          · exact ⟨p1, .inl p2⟩
          refine ⟨p1, .inr ⟨p2, ?_⟩⟩
          intro hresn
          apply hres
          have hmem := Dict.get?_mem ht
          rcases hresn with ⟨v, hv⟩ | ⟨_, hab⟩
          · cases hv with
            | override _ h => simp [hov] at h
            | input h1 _ h3 _ =>
              rw [hgn] at h1; cases h1
              rw [hw.external_no_params hgn h3] at hmem; cases hmem
            | call val h1 h2 h3 h4 h5 h6 =>
              rw [hgn] at h1; cases h1
              cases hval : val d with
              | some w => exact .inl ⟨w, h4 d w (mem_keys_of_mem hmem) hval⟩
              | none =>
                obtain ⟨h, h'⟩ := h5 d (ty, t) hmem hval
                exact .inr ⟨h, h'⟩
          · obtain ⟨n', hn', hk, _⟩ := hab
            rw [hgn] at hn'; cases hn'
            rw [hw.external_no_params hgn hk] at hmem; cases hmem
        | ok s1 =>
          simp only [Out.bind]
          obtain ⟨p1, p2, p3, p4⟩ := hl
          have hn1 : n.name ∉ s1.stored := by
            intro h
            rcases p3 _ h with h' | h'
            · exact hns h'
            · obtain ⟨v, hv⟩ := p1.has_den _ h
              exact hv.no_cycle hw h'
          have hself : n.name ∉ n.dependencies := by
            rw [hde]; intro h
            rcases p4 n.name (by rw [hde]; exact h) with ⟨v, hv⟩ | ⟨_, m, hm, hk, _⟩
            · exact (p1.den _ _ hv).no_cycle hw (.edge ⟨hov, n, hgn, h⟩)
            · rw [hgn] at hm; cases hm
              rw [hw.external_no_params hgn hk] at h; cases h
          have rankle : ∀ j, j ∈ s1.stored ∨ j = n.name →
              j ∈ s.stored ∨ j = n.name ∨ LivePath g overrides n.name j := by
            intro j hj
            rcases hj with hj | rfl
            · rcases p3 j hj with h | h
              · exact .inl h
              · exact .inr (.inr h)
            · exact .inr (.inl rfl)
          split
          · rename_i hext
            have hkind : n.kind = .external := by simpa [Node.userDefined] using hext
            split
            · rename_i hin
              have habs : Absent g inputs overrides n.name := ⟨n, hgn, hkind, hin, hov⟩
              split
              · rename_i hopt
                refine ⟨p1, p2, ?_, .inr ⟨hopt, habs⟩⟩
                intro j hj
                exact rankle j (.inl hj)
              · rename_i hopt
                have hreq : dt = .required := by cases dt <;> simp_all
                refine ⟨p1.toTraceInv, .inr ⟨⟨hneed, habs, horig hreq hkind⟩, ?_⟩⟩
                rintro (⟨v, hv⟩ | ⟨h, _⟩)
                · exact habs.not_den hv
                · exact hopt h
            · rename_i v hin
              have hden : Den g inputs overrides n.name v := .input hgn hov hkind hin
              obtain ⟨q1, q2, q3⟩ := p1.store_prune hw hn1 hden hneed n.dependencies hself
              refine ⟨q1, fun j hj => (q2 j).2 (.inl (p2 j hj)), ?_, .inl ⟨v, q3⟩⟩
              intro j hj
              exact rankle j ((q2 j).1 hj)
          · rename_i hext
            have hkind : n.kind ≠ .external := by simpa [Node.userDefined] using hext
            -- the arguments are right
            let val : Name → Option V := fun d => s1.computed.get? d
            have hval1 : ∀ d w, d ∈ n.inputTypes.keys → val d = some w → Den g inputs overrides d w :=
              fun d w _ h => p1.den d w h
            have hval2 : ∀ d t, (d, t) ∈ n.inputTypes → val d = none →
                t.2 = .optional ∧ Absent g inputs overrides d := by
              intro d t hdt hv
              have hdk : d ∈ n.inputTypes.keys := mem_keys_of_mem hdt
              rcases p4 d (by rw [hde]; exact hdk) with ⟨v, hv'⟩ | ⟨⟨ty, hty⟩, habs⟩
              · simp [val, hv'] at hv
              · have := Dict.get?_of_mem (hw.params_nodup hgn) hdt
                rw [hty] at this; cases this
                exact ⟨rfl, habs⟩
            have hkw : kwargsOf n.dependencies s1.computed = argsFor n.inputTypes val :=
              kwargsOf_eq_argsFor hde _
            have hright : RightArgs g inputs overrides n (kwargsOf n.dependencies s1.computed) :=
              ⟨val, hval1, hval2, hkw⟩
            have hcall : CallOk g inputs overrides req
                (n.name, kwargsOf n.dependencies s1.computed) :=
              ⟨hneed, hov, n, hgn, hkind, hright⟩
            have htr : TraceInv g inputs overrides req
                { s1 with calls := s1.calls ++ [(n.name, kwargsOf n.dependencies s1.computed)] } := by
              refine ⟨?_, ?_⟩
              · simp only [List.map_append, List.map_cons, List.map_nil]
                rw [List.nodup_append]
                refine ⟨p1.calls_nodup, by simp, ?_⟩
                intro a ha b hb
                simp at hb; subst hb
                obtain ⟨c, hc, rfl⟩ := List.mem_map.1 ha
                exact fun e => hn1 (e ▸ p1.calls_sub c hc)
              · intro c hc
                rcases List.mem_append.1 hc with hc | hc
                · exact p1.calls_ok c hc
                · simp at hc; subst hc; exact hcall
            split
            · rename_i e he
              refine ⟨htr, .inr ⟨⟨hneed, hov, n, _, hgn, hkind, hright, he⟩, ?_⟩⟩
              rintro (⟨v, hv⟩ | ⟨_, habs⟩)
              · cases hv with
                | override _ h => simp [hov] at h
                | input h1 _ h3 _ => rw [hgn] at h1; cases h1; exact hkind h3
                | call val' h1 h2 h3 h4 h5 h6 =>
                  rw [hgn] at h1; cases h1
                  have := args_unique hval1 hval2 h4 h5
                    (fun d w w' hd hv hv' => (hval1 _ _ hd hv).det (h4 _ _ hd hv'))
                  rw [hkw, this, h6] at he
                  cases he
              · obtain ⟨n', hn', hk, _⟩ := habs
                rw [hgn] at hn'; cases hn'
                exact hkind hk
            · rename_i v hv
              have hden : Den g inputs overrides n.name v :=
                .call val hgn hov hkind hval1 hval2 (by rw [← hkw]; exact hv)
              -- the invariant with the call appended, once stored
              obtain ⟨q1, q2, q3⟩ := p1.store_prune hw hn1 hden hneed n.dependencies hself
              have hcomm : ∀ (ds : List Name) (x : ExecState V) (c : List (Name × Dict Name V)),
                  prune g req ds { x with calls := c } = { prune g req ds x with calls := c } := by
                intro ds
                induction ds with
                | nil => intro x c; rfl
                | cons d ds ihd =>
                  intro x c
                  simp only [prune, List.foldl_cons] at ihd ⊢
                  split
                  · exact ihd { x with computed := x.computed.del d } c
                  · exact ihd x c
              have hs2 : prune g req n.dependencies
                  (ExecState.store { s1 with calls := s1.calls ++ [(n.name, kwargsOf n.dependencies s1.computed)] } n.name v)
                  = { prune g req n.dependencies (s1.store n.name v) with
                      calls := s1.calls ++ [(n.name, kwargsOf n.dependencies s1.computed)] } :=
                hcomm _ (s1.store n.name v) _
              rw [hs2]
              refine ⟨?_, fun j hj => (q2 j).2 (.inl (p2 j hj)), fun j hj => rankle j ((q2 j).1 hj),
                .inl ⟨v, q3⟩⟩
              exact
                { calls_nodup := htr.calls_nodup
                  calls_ok := htr.calls_ok
                  den := q1.den
                  sub := q1.sub
                  pruned := q1.pruned
                  stored_nodup := q1.stored_nodup
                  calls_sub := by
                    intro c hc
                    rcases List.mem_append.1 hc with hc | hc
                    · exact (q2 _).2 (.inl (p1.calls_sub c hc))
                    · simp at hc; subst hc; exact (q2 _).2 (.inr rfl)
                  needed := q1.needed
                  has_den := q1.has_den }

end
end Verif
