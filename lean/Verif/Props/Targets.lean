import Verif.Model.Targets
import Verif.Proofs.Topo

/-!
Property C48: which nodes a decorator with a target transforms.
Property C42: pruning to a selection keeps exactly what is needed.
-/
namespace Verif

/-! ### Specification -/

/-- A sink: no node of the list has it as a parameter, and it is not tagged as non-final. -/
def IsSink (nodes : List TNode) (n : TNode) : Prop := (∀ m ∈ nodes, n.name ∉ m.params) ∧ n.nonFinal = false

/-- The nodes a target stands for. -/
def Aimed (nodes : List TNode) : Target → TNode → Prop
  | .sinks, n => IsSink nodes n
  | .all, _ => True
  | .name t, n => n.name = t
  | .names ts, n => n.name ∈ ts

/-- `n` is the last node of its name in the list. -/
def LastNamed (nodes : List TNode) (n : TNode) : Prop := ∃ a b, nodes = a ++ n :: b ∧ ∀ m ∈ b, m.name ≠ n.name

/-- A name is selected, or a node of the list needs it transitively. -/
inductive Wanted (nodes : List TNode) (select : List Name) : Name → Prop
  | selected {s} : s ∈ select → Wanted nodes select s
  | needed {n d} : Wanted nodes select n.name → LastNamed nodes n → d ∈ n.params → Wanted nodes select d

/-! ### C48 -/

theorem extractFinal_mem (nodes : List TNode) (n : TNode) : n ∈ extractFinal nodes ↔ n ∈ nodes ∧ IsSink nodes n := by
  unfold extractFinal IsSink
  simp only [List.mem_filter, Bool.and_eq_true, Bool.not_eq_true', List.contains_eq_mem, decide_eq_false_iff_not,
    List.mem_flatMap, not_exists, not_and]

/-- The nodes selected are a filter of the list by a test that only depends on what `==` compares. -/
theorem selectNodes_filter {target : Target} {nodes chosen : List TNode} (h : selectNodes target nodes = .ok chosen) :
    ∃ p : TNode → Bool, chosen = nodes.filter p ∧ (∀ n ∈ nodes, p n = true ↔ Aimed nodes target n) ∧
      ∀ a b : TNode, a.pyEq b = true → p a = p b := by
  have eqs : ∀ a b : TNode, a.pyEq b = true → a.name = b.name ∧ a.nonFinal = b.nonFinal := by
    intro a b hab
    simp only [TNode.pyEq, Bool.and_eq_true, beq_iff_eq] at hab
    exact ⟨hab.1.1, hab.1.2⟩
  cases target with
  | sinks =>
    simp only [selectNodes, Except.ok.injEq] at h
    refine ⟨fun n => !(nodes.flatMap (fun x : TNode => x.params)).contains n.name && !n.nonFinal, h.symm, ?_, ?_⟩
    · intro n hn
      have := extractFinal_mem nodes n
      unfold extractFinal at this
      rw [List.mem_filter] at this
      simp only [hn, true_and] at this
      exact this
    · intro a b hab
      obtain ⟨h1, h2⟩ := eqs a b hab
      simp only [h1, h2]
  | all =>
    simp only [selectNodes, Except.ok.injEq] at h
    exact ⟨fun _ => true, by rw [← h]; exact (List.filter_eq_self.2 (by simp)).symm, by simp [Aimed], by simp⟩
  | name t =>
    simp only [selectNodes] at h
    split at h
    · cases h
    · simp only [Except.ok.injEq] at h
      refine ⟨fun n => n.name == t, h.symm, by simp [Aimed], ?_⟩
      intro a b hab; simp only [(eqs a b hab).1]
  | names ts =>
    simp only [selectNodes] at h
    split at h
    · cases h
    · simp only [Except.ok.injEq] at h
      refine ⟨fun n => ts.contains n.name, h.symm, by simp [Aimed], ?_⟩
      intro a b hab; simp only [(eqs a b hab).1]

theorem pyEq_refl (a : TNode) : a.pyEq a = true := by simp [TNode.pyEq]

theorem compliment_filter {p : TNode → Bool} (nodes : List TNode) (hp : ∀ a b : TNode, a.pyEq b = true → p a = p b) :
    complimentNodes nodes (nodes.filter p) = nodes.filter (fun n => !p n) := by
  unfold complimentNodes
  apply List.filter_congr
  intro n hn
  congr 1
  rw [Bool.eq_iff_iff, List.any_eq_true]
  constructor
  · rintro ⟨m, hm, he⟩
    rw [hp n m he]; exact (List.mem_filter.1 hm).2
  · intro h; exact ⟨n, List.mem_filter.2 ⟨hn, h⟩, pyEq_refl n⟩

/-- **C48, partition.**  If decorating succeeds, the nodes are split into those that the target stands for and the rest
(each node of the list on exactly one side, in the order of the list); the rest is kept as it is and the result consists of
it and of the nodes the decorator makes out of each of the others.  Node equality in the code ignores the callable and the
parameters; the theorem shows that this does not matter, whatever the list of nodes. -/
theorem C48_partition (f : TNode → List TNode) (target : Target) (nodes out : List TNode)
    (h : transformDag f target nodes = .ok out) :
    ∃ keep hit : List TNode, out = keep ++ hit.flatMap f ∧ keep.Sublist nodes ∧ hit.Sublist nodes ∧
      (keep ++ hit).Perm nodes ∧ (∀ n, n ∈ hit ↔ n ∈ nodes ∧ Aimed nodes target n) ∧
      (∀ n, n ∈ keep ↔ n ∈ nodes ∧ ¬ Aimed nodes target n) := by
  unfold transformDag at h
  cases hs : selectNodes target nodes with
  | error e => rw [hs] at h; cases h
  | ok chosen =>
    rw [hs] at h
    simp only [Except.ok.injEq] at h
    obtain ⟨p, hc, hp, he⟩ := selectNodes_filter hs
    subst hc
    rw [compliment_filter nodes he] at h
    refine ⟨nodes.filter (fun n => !p n), nodes.filter p, h.symm, List.filter_sublist, List.filter_sublist, ?_, ?_, ?_⟩
    · exact List.perm_append_comm.trans (List.filter_append_perm p nodes)
    · intro n
      rw [List.mem_filter]
      exact ⟨fun ⟨h1, h2⟩ => ⟨h1, (hp n h1).1 h2⟩, fun ⟨h1, h2⟩ => ⟨h1, (hp n h1).2 h2⟩⟩
    · intro n
      rw [List.mem_filter, Bool.not_eq_true', ← Bool.not_eq_true]
      exact ⟨fun ⟨h1, h2⟩ => ⟨h1, fun h3 => h2 ((hp n h1).2 h3)⟩, fun ⟨h1, h2⟩ => ⟨h1, fun h3 => h2 ((hp n h1).1 h3)⟩⟩

/-- The names a target mentions. -/
def Target.mentions : Target → List Name
  | .sinks => []
  | .all => []
  | .name n => [n]
  | .names ns => ns

/-- **C48, unknown names.**  With nodes of distinct names and a target that lists no name twice, decorating fails iff the
target mentions a name that no node has; targeting the sinks or everything never fails. -/
theorem C48_unknown (f : TNode → List TNode) (target : Target) (nodes : List TNode)
    (hn : (nodes.map (·.name)).Nodup) (ht : target.mentions.Nodup) :
    (∃ e, transformDag f target nodes = .error e) ↔ ∃ t ∈ target.mentions, ∀ n ∈ nodes, n.name ≠ t := by
  have red : (∃ e, transformDag f target nodes = .error e) ↔ ∃ e, selectNodes target nodes = .error e := by
    unfold transformDag
    cases selectNodes target nodes <;> simp
  rw [red]
  cases target with
  | sinks => simp [selectNodes, Target.mentions]
  | all => simp [selectNodes, Target.mentions]
  | name t =>
    simp only [selectNodes, Target.mentions, List.mem_singleton, exists_eq_left]
    split
    · rename_i hl
      have := List.length_eq_zero_iff.1 hl
      rw [List.filter_eq_nil_iff] at this
      simp only [beq_iff_eq] at this
      simpa using this
    · rename_i hl
      simp only [reduceCtorEq, exists_false, false_iff]
      intro hall
      apply hl
      rw [List.length_eq_zero_iff, List.filter_eq_nil_iff]
      simpa using hall
  | names ts =>
    simp only [selectNodes, Target.mentions] at ht ⊢
    have hfn : ((nodes.filter (fun n => ts.contains n.name)).map (·.name)).Nodup :=
      List.Nodup.sublist (List.Sublist.map _ List.filter_sublist) hn
    have hsub : ∀ x ∈ (nodes.filter (fun n => ts.contains n.name)).map (·.name), x ∈ ts := by
      intro x hx
      obtain ⟨n, h1, rfl⟩ := List.mem_map.1 hx
      simpa using (List.mem_filter.1 h1).2
    have hle := nodup_sub_length hfn hsub
    rw [List.length_map] at hle
    split
    · rename_i hl
      simp only [Except.error.injEq, exists_eq', true_iff]
      apply Classical.byContradiction
      intro hno
      apply hl
      have : ∀ x ∈ ts, x ∈ (nodes.filter (fun n => ts.contains n.name)).map (·.name) := by
        intro x hx
        apply Classical.byContradiction
        intro hx'
        apply hno
        refine ⟨x, hx, fun n hnm he => hx' ?_⟩
        exact List.mem_map.2 ⟨n, List.mem_filter.2 ⟨hnm, by simpa [he] using hx⟩, he⟩
      have := nodup_sub_length ht this
      rw [List.length_map] at this
      omega
    · rename_i hl
      simp only [reduceCtorEq, exists_false, false_iff]
      rintro ⟨t, htm, hno⟩
      have hl' : (nodes.filter (fun n => ts.contains n.name)).length = ts.length := by
        simpa using hl
      have hsub' : ∀ x ∈ t :: (nodes.filter (fun n => ts.contains n.name)).map (·.name), x ∈ ts := by
        intro x hx
        rcases List.mem_cons.1 hx with rfl | hx
        · exact htm
        · exact hsub x hx
      have hnd : (t :: (nodes.filter (fun n => ts.contains n.name)).map (·.name)).Nodup := by
        rw [List.nodup_cons]
        refine ⟨fun hm => ?_, hfn⟩
        obtain ⟨n, h1, h2⟩ := List.mem_map.1 hm
        exact hno n (List.mem_filter.1 h1).1 h2
      have := nodup_sub_length hnd hsub'
      simp only [List.length_cons, List.length_map] at this
      omega

/-- **C48, single node decorators.**  A decorator that wants a single node succeeds iff there is exactly one sink; it then
replaces that node and keeps the others. -/
theorem C48_single (f : TNode → List TNode) (nodes : List TNode) :
    (∀ out, transformDagSingle f nodes = .ok out → ∃ n keep, out = keep ++ f n ∧ (keep ++ [n]).Perm nodes ∧
      IsSink nodes n ∧ ∀ m ∈ keep, ¬ IsSink nodes m) ∧
    ((∃ n rest, (n :: rest).Perm nodes ∧ IsSink nodes n ∧ ∀ m ∈ rest, ¬ IsSink nodes m) →
      ∃ out, transformDagSingle f nodes = .ok out) := by
  constructor
  · intro out h
    unfold transformDagSingle at h
    cases hs : selectNodes .sinks nodes with
    | error e => rw [hs] at h; cases h
    | ok chosen =>
      rw [hs] at h
      dsimp only at h
      by_cases hl : chosen.length ≠ 1
      · rw [if_pos hl] at h; cases h
      · rw [if_neg hl] at h
        simp only [Except.ok.injEq] at h
        obtain ⟨n, hn⟩ := List.length_eq_one_iff.1 (by omega : chosen.length = 1)
        have hok : transformDag f .sinks nodes = .ok out := by unfold transformDag; rw [hs]; simp only [h]
        obtain ⟨p, hc, hp, he⟩ := selectNodes_filter hs
        rw [hc, compliment_filter nodes he, ← hc, hn] at h
        refine ⟨n, nodes.filter (fun n => !p n), ?_, ?_, ?_, ?_⟩
        · rw [← h]; simp [transformTargets]
        · rw [← hn, hc]
          exact List.perm_append_comm.trans (List.filter_append_perm p nodes)
        · have : n ∈ nodes.filter p := by rw [← hc, hn]; simp
          exact (hp n (List.mem_filter.1 this).1).1 (List.mem_filter.1 this).2
        · intro m hm hsink
          obtain ⟨h1, h2⟩ := List.mem_filter.1 hm
          have := (hp m h1).2 hsink
          rw [this] at h2; cases h2
  · rintro ⟨n, rest, hperm, hsink, hno⟩
    unfold transformDagSingle
    simp only [selectNodes]
    have hl : (extractFinal nodes).length = 1 := by
      have hpf : ∀ q : TNode → Bool, ((n :: rest).filter q).length = (nodes.filter q).length := fun q =>
        (hperm.filter q).length_eq
      have key : ∀ x ∈ nodes, (!(nodes.flatMap (·.params)).contains x.name && !x.nonFinal) = true ↔ IsSink nodes x := by
        intro x hx
        have := extractFinal_mem nodes x
        unfold extractFinal at this
        rw [List.mem_filter] at this
        simp only [hx, true_and] at this
        exact this
      unfold extractFinal
      rw [← hpf, List.filter_cons, if_pos ((key n (hperm.mem_iff.1 (by simp))).2 hsink)]
      have : rest.filter (fun x => !(nodes.flatMap (·.params)).contains x.name && !x.nonFinal) = [] := by
        rw [List.filter_eq_nil_iff]
        intro x hx hc
        exact hno x hx ((key x (hperm.mem_iff.1 (by simp [hx]))).1 hc)
      rw [this]; rfl
    rw [if_neg (by omega)]
    exact ⟨_, rfl⟩

/-! ### C42 -/

theorem nodeNameMap_get (nodes : List TNode) (k : Name) (n : TNode) :
    (nodeNameMap nodes).get? k = some n ↔ n.name = k ∧ LastNamed nodes n := by
  have gen : ∀ (l : List TNode) (acc : Dict Name TNode),
      (l.foldl (fun d n => d.set n.name n) acc).get? k = some n ↔
        (n.name = k ∧ LastNamed l n) ∨ ((∀ m ∈ l, m.name ≠ k) ∧ acc.get? k = some n) := by
    intro l
    induction l with
    | nil =>
      intro acc
      simp only [List.foldl_nil, List.not_mem_nil, false_implies, implies_true, true_and]
      constructor
      · exact .inr
      · rintro (⟨_, a, b, h, _⟩ | h)
        · simp at h
        · exact h
    | cons x t ih =>
      intro acc
      rw [List.foldl_cons, ih]
      by_cases hxt : ∀ m ∈ t, m.name ≠ k
      · rw [Dict.get?_set]
        by_cases hx : x.name = k
        · rw [if_pos hx]
          constructor
          · rintro (⟨h1, a, b, h, _⟩ | ⟨_, h⟩)
            · exact absurd h1 (hxt n (by rw [h]; simp))
            · cases h; exact .inl ⟨hx, [], t, rfl, fun m hm => by rw [hx]; exact hxt m hm⟩
          · rintro (⟨h1, a, b, h, h2⟩ | ⟨h, _⟩)
            · cases a with
              | nil => simp only [List.nil_append, List.cons.injEq] at h; exact .inr ⟨hxt, by rw [h.1]⟩
              | cons y a =>
                simp only [List.cons_append, List.cons.injEq] at h
                exact absurd h1 (hxt n (by rw [h.2]; simp))
            · exact absurd hx (h x (by simp))
        · rw [if_neg hx]
          constructor
          · rintro (⟨h1, a, b, h, _⟩ | ⟨_, h⟩)
            · exact absurd h1 (hxt n (by rw [h]; simp))
            · refine .inr ⟨?_, h⟩
              intro m hm
              rcases List.mem_cons.1 hm with rfl | hm
              · exact hx
              · exact hxt m hm
          · rintro (⟨h1, a, b, h, h2⟩ | ⟨_, h⟩)
            · cases a with
              | nil => simp only [List.nil_append, List.cons.injEq] at h; rw [← h.1] at h1; exact absurd h1 hx
              | cons y a =>
                simp only [List.cons_append, List.cons.injEq] at h
                exact absurd h1 (hxt n (by rw [h.2]; simp))
            · exact .inr ⟨hxt, h⟩
      · constructor
        · rintro (⟨h1, a, b, h, h2⟩ | ⟨h, _⟩)
          · exact .inl ⟨h1, x :: a, b, by simp [h], h2⟩
          · exact absurd h hxt
        · rintro (⟨h1, a, b, h, h2⟩ | ⟨h, _⟩)
          · cases a with
            | nil =>
              simp only [List.nil_append, List.cons.injEq] at h
              exfalso; apply hxt; intro m hm; rw [← h1]; exact h2 m (by rw [← h.2]; exact hm)
            | cons y a =>
              simp only [List.cons_append, List.cons.injEq] at h
              exact .inl ⟨h1, a, b, h.2, h2⟩
          · exact absurd (fun m hm => h m (by simp [hm])) hxt
  unfold nodeNameMap
  rw [gen nodes []]
  simp

theorem pushDeps_spec (m : Dict Name TNode) (hm : ∀ k n, m.get? k = some n → n.name = k) :
    ∀ (ds : List Name) (stack : List TNode) (seen : List Name),
    ∃ new : List TNode, pushDeps m ds stack seen = (stack ++ new, seen ++ new.map (·.name)) ∧
      (new.map (·.name)).Nodup ∧ (∀ n ∈ new, n.name ∉ seen ∧ n.name ∈ ds ∧ m.get? n.name = some n) ∧
      (∀ d ∈ ds, ∀ n, m.get? d = some n → d ∈ seen ++ new.map (·.name)) := by
  intro ds
  induction ds with
  | nil => intro stack seen; exact ⟨[], by simp [pushDeps], by simp, by simp, by simp⟩
  | cons d ds ih =>
    intro stack seen
    by_cases hs : seen.contains d = true
    · obtain ⟨new, h1, h2, h3, h4⟩ := ih stack seen
      refine ⟨new, by simp only [pushDeps, hs, if_true, h1], h2, ?_, ?_⟩
      · intro n hn; exact ⟨(h3 n hn).1, by simp [(h3 n hn).2.1], (h3 n hn).2.2⟩
      · intro d' hd' n hn
        rcases List.mem_cons.1 hd' with rfl | hd'
        · simp only [List.contains_eq_mem, decide_eq_true_eq] at hs
          simp [hs]
        · exact h4 d' hd' n hn
    · cases hg : m.get? d with
      | none =>
        obtain ⟨new, h1, h2, h3, h4⟩ := ih stack seen
        refine ⟨new, by simp only [pushDeps, hs, hg]; exact h1, h2, ?_, ?_⟩
        · intro n hn; exact ⟨(h3 n hn).1, by simp [(h3 n hn).2.1], (h3 n hn).2.2⟩
        · intro d' hd' n hn
          rcases List.mem_cons.1 hd' with rfl | hd'
          · rw [hg] at hn; cases hn
          · exact h4 d' hd' n hn
      | some x =>
        have hx := hm d x hg
        have hsd : d ∉ seen := by simpa using hs
        obtain ⟨new, h1, h2, h3, h4⟩ := ih (stack ++ [x]) (seen ++ [d])
        refine ⟨x :: new, by simp only [pushDeps, hs, hg]; simp [h1, hx], ?_, ?_, ?_⟩
        · rw [List.map_cons, List.nodup_cons]
          refine ⟨fun hmem => ?_, h2⟩
          obtain ⟨y, hy, he⟩ := List.mem_map.1 hmem
          apply (h3 y hy).1
          rw [he, hx]; simp
        · intro n hn
          rcases List.mem_cons.1 hn with rfl | hn
          · exact ⟨by rw [hx]; exact hsd, by rw [hx]; simp, by rw [hx]; exact hg⟩
          · obtain ⟨a, b, c⟩ := h3 n hn
            exact ⟨fun h => a (by simp [h]), by simp [b], c⟩
        · intro d' hd' n hn
          rcases List.mem_cons.1 hd' with rfl | hd'
          · simp [hx]
          · have := h4 d' hd' n hn
            simp only [List.mem_append, List.map_cons, List.mem_cons, List.not_mem_nil, or_false] at this ⊢
            rw [hx]
            rcases this with (h | h) | h
            · exact .inl h
            · exact .inr (.inl h)
            · exact .inr (.inr h)

/-- What holds at the head of the pruning loop. -/
structure PruneInv (m : Dict Name TNode) (sel : List Name) (R : Name → Prop) (stack : List TNode) (seen : List Name)
    (out : List TNode) : Prop where
  nodup : ((out ++ stack).map (·.name)).Nodup
  known : ∀ n ∈ out ++ stack, m.get? n.name = some n ∧ R n.name
  seen_of : ∀ s ∈ seen, ∀ n, m.get? s = some n → n ∈ out ++ stack
  closed : ∀ n ∈ out, ∀ d ∈ n.params, ∀ dn, m.get? d = some dn → d ∈ seen
  sel_in : ∀ s ∈ sel, s ∈ seen
  in_seen : ∀ n ∈ out ++ stack, n.name ∈ seen

theorem pruneLoop_spec {m : Dict Name TNode} {sel : List Name} {R : Name → Prop}
    (hm : ∀ k n, m.get? k = some n → n.name = k)
    (hR : ∀ n, R n.name → m.get? n.name = some n → ∀ d ∈ n.params, R d) :
    ∀ (fuel : Nat) (stack : List TNode) (seen : List Name) (out : List TNode),
      PruneInv m sel R stack seen out → m.keys.length ≤ fuel + out.length →
      ∃ seen' res, pruneLoop m fuel stack seen out = some res ∧ PruneInv m sel R [] seen' res := by
  intro fuel
  induction fuel with
  | zero =>
    intro stack seen out hi hf
    cases hs : stack.getLast? with
    | none =>
      have : stack = [] := List.getLast?_eq_none_iff.1 hs
      subst this
      exact ⟨seen, out, by unfold pruneLoop; simp, hi⟩
    | some n =>
      exfalso
      have hne : stack ≠ [] := by intro h; rw [h] at hs; simp at hs
      have hsub : ∀ x ∈ (out ++ stack).map (·.name), x ∈ m.keys := by
        intro x hx
        obtain ⟨y, hy, rfl⟩ := List.mem_map.1 hx
        exact Dict.mem_keys_iff.2 ⟨y, (hi.known y hy).1⟩
      have := nodup_sub_length hi.nodup hsub
      have hpos : 0 < stack.length := List.length_pos_iff.2 hne
      simp only [List.length_map, List.length_append] at this
      omega
  | succ fuel ih =>
    intro stack seen out hi hf
    cases hs : stack.getLast? with
    | none =>
      have : stack = [] := List.getLast?_eq_none_iff.1 hs
      subst this
      exact ⟨seen, out, by unfold pruneLoop; simp, hi⟩
    | some n =>
      have hst : stack = stack.dropLast ++ [n] := by
        have hne : stack ≠ [] := by intro h; rw [h] at hs; simp at hs
        have := List.dropLast_concat_getLast hne
        rw [List.getLast?_eq_some_getLast hne] at hs
        cases hs
        exact this.symm
      obtain ⟨new, h1, h2, h3, h4⟩ := pushDeps_spec m hm n.params stack.dropLast seen
      have hmem : ∀ x, x ∈ out ++ stack ↔ x ∈ (out ++ [n]) ++ stack.dropLast := by
        intro x
        conv => lhs; rw [hst]
        simp only [List.mem_append, List.mem_singleton]
        constructor
        · rintro (h | h | h)
          · exact .inl (.inl h)
          · exact .inr h
          · exact .inl (.inr h)
        · rintro ((h | h) | h)
          · exact .inl h
          · exact .inr (.inr h)
          · exact .inr (.inl h)
      have hnm : n ∈ out ++ stack := by rw [hst]; simp
      have hinv : PruneInv m sel R (stack.dropLast ++ new) (seen ++ new.map (·.name)) (out ++ [n]) := by
        constructor
        · have hold : (((out ++ [n]) ++ stack.dropLast).map (·.name)).Nodup := by
            have := hi.nodup
            rw [hst] at this
            refine (List.Perm.nodup_iff ?_).1 this
            apply List.Perm.map
            rw [List.append_assoc]
            exact (List.perm_append_left_iff _).2 List.perm_append_comm
          rw [← List.append_assoc, List.map_append, List.nodup_append]
          refine ⟨hold, h2, ?_⟩
          intro a ha b hb hab
          subst hab
          obtain ⟨x, hx, rfl⟩ := List.mem_map.1 ha
          obtain ⟨y, hy, he⟩ := List.mem_map.1 hb
          apply (h3 y hy).1
          rw [he]
          exact hi.in_seen x ((hmem x).2 hx)
        · intro x hx
          rw [← List.append_assoc, List.mem_append] at hx
          rcases hx with hx | hx
          · exact hi.known x ((hmem x).2 hx)
          · refine ⟨(h3 x hx).2.2, ?_⟩
            obtain ⟨k1, k2⟩ := hi.known n hnm
            exact hR n k2 k1 _ (h3 x hx).2.1
        · intro s hs' y hy
          rw [← List.append_assoc, List.mem_append]
          rcases List.mem_append.1 hs' with h | h
          · exact .inl ((hmem y).1 (hi.seen_of s h y hy))
          · obtain ⟨x, hx, rfl⟩ := List.mem_map.1 h
            have := (h3 x hx).2.2
            rw [hy] at this; cases this
            exact .inr hx
        · intro x hx d hd dn hdn
          rcases List.mem_append.1 hx with hx | hx
          · exact List.mem_append.2 (.inl (hi.closed x hx d hd dn hdn))
          · have : x = n := by simpa using hx
            subst this
            exact h4 d hd dn hdn
        · intro s hs'; exact List.mem_append.2 (.inl (hi.sel_in s hs'))
        · intro x hx
          rw [← List.append_assoc, List.mem_append] at hx
          rcases hx with hx | hx
          · exact List.mem_append.2 (.inl (hi.in_seen x ((hmem x).2 hx)))
          · exact List.mem_append.2 (.inr (List.mem_map.2 ⟨x, hx, rfl⟩))
      obtain ⟨seen', res, hr, hinv'⟩ := ih _ _ _ hinv (by simp only [List.length_append, List.length_singleton]; omega)
      refine ⟨seen', res, ?_, hinv'⟩
      unfold pruneLoop
      rw [hs]
      simp only [h1]
      exact hr

theorem nodeNameMap_length (nodes : List TNode) : (nodeNameMap nodes).keys.length ≤ nodes.length := by
  have hset : ∀ (d : Dict Name TNode) (k : Name) (v : TNode), (d.set k v).length ≤ d.length + 1 := by
    intro d k v
    induction d with
    | nil => simp [Dict.set]
    | cons p t ih =>
      obtain ⟨a, b⟩ := p
      simp only [Dict.set]
      split
      · simp
      · simp only [List.length_cons]; omega
  have : ∀ (l : List TNode) (acc : Dict Name TNode),
      (l.foldl (fun d n => d.set n.name n) acc).length ≤ acc.length + l.length := by
    intro l
    induction l with
    | nil => intro acc; simp
    | cons x t ih =>
      intro acc
      have h1 := ih (acc.set x.name x)
      have h2 := hset acc x.name x
      simp only [List.foldl_cons, List.length_cons]
      omega
  have := this nodes []
  simpa [nodeNameMap, Dict.keys] using this

/-- **C42.**  For every list of nodes, every selection and every order in which Python may iterate over the set of selected
nodes: pruning terminates; it fails iff a selected name does not exist; otherwise it returns, each once, exactly the nodes
that are selected or needed transitively by a selected node inside the list.  (Where several nodes have the same name the
last one counts.) -/
theorem C42_prune (nodes : List TNode) (select : List Name) (initial : List TNode)
    (hinit : InitialStack nodes select initial) :
    ((∃ s ∈ select, ∀ n ∈ nodes, n.name ≠ s) →
      pruneNodes nodes (some select) initial nodes.length = some .missing) ∧
    ((∀ s ∈ select, ∃ n ∈ nodes, n.name = s) →
      ∃ out, pruneNodes nodes (some select) initial nodes.length = some (.nodes out) ∧ (out.map (·.name)).Nodup ∧
        ∀ n, n ∈ out ↔ LastNamed nodes n ∧ Wanted nodes select n.name) := by
  have hm : ∀ k n, (nodeNameMap nodes).get? k = some n → n.name = k := fun k n h => ((nodeNameMap_get nodes k n).1 h).1
  have hinv : PruneInv (nodeNameMap nodes) select (Wanted nodes select) initial select [] := by
    constructor
    · simpa using hinit.nodup
    · intro n hn
      obtain ⟨h1, h2⟩ := (hinit.mem n).1 (by simpa using hn)
      exact ⟨h2, .selected h1⟩
    · intro s hs n hn
      have := hm s n hn
      subst this
      simpa using (hinit.mem n).2 ⟨hs, hn⟩
    · simp
    · intro s hs; exact hs
    · intro n hn; exact ((hinit.mem n).1 (by simpa using hn)).1
  have hR : ∀ n : TNode, Wanted nodes select n.name → (nodeNameMap nodes).get? n.name = some n → ∀ d ∈ n.params,
      Wanted nodes select d := fun n h1 h2 d hd => .needed h1 ((nodeNameMap_get nodes _ n).1 h2).2 hd
  obtain ⟨seen, out, hr, hi⟩ := pruneLoop_spec hm hR nodes.length initial select [] hinv
    (by have := nodeNameMap_length nodes; simpa using this)
  have exists_last : ∀ s, (∃ n ∈ nodes, n.name = s) → ∃ n, (nodeNameMap nodes).get? s = some n := by
    intro s hs
    have : ∃ n, n.name = s ∧ LastNamed nodes n := by
      clear hr hi hinv hR hm hinit
      induction nodes with
      | nil => obtain ⟨n, hn, _⟩ := hs; simp at hn
      | cons x t ih =>
        by_cases ht : ∃ n ∈ t, n.name = s
        · obtain ⟨n, h1, a, b, h2, h3⟩ := ih ht
          exact ⟨n, h1, x :: a, b, by simp [h2], h3⟩
        · obtain ⟨n, hn, he⟩ := hs
          rcases List.mem_cons.1 hn with rfl | hn
          · exact ⟨n, he, [], t, rfl, fun m hmm h => ht ⟨m, hmm, h.trans he⟩⟩
          · exact absurd ⟨n, hn, he⟩ ht
    obtain ⟨n, h1, h2⟩ := this
    exact ⟨n, (nodeNameMap_get nodes s n).2 ⟨h1, h2⟩⟩
  constructor
  · rintro ⟨s, hs, hno⟩
    unfold pruneNodes
    simp only [hr]
    rw [if_neg]
    intro hall
    rw [List.all_eq_true] at hall
    have := hall s hs
    simp only [List.contains_eq_mem, decide_eq_true_eq] at this
    obtain ⟨n, hn, he⟩ := List.mem_map.1 this
    obtain ⟨_, a, b, hab, _⟩ := (nodeNameMap_get nodes _ n).1 (hi.known n (by simpa using hn)).1
    exact hno n (by rw [hab]; simp) he
  · intro hall
    refine ⟨out, ?_, by simpa using hi.nodup, ?_⟩
    · unfold pruneNodes
      simp only [hr]
      rw [if_pos]
      rw [List.all_eq_true]
      intro s hs
      simp only [List.contains_eq_mem, decide_eq_true_eq]
      obtain ⟨n, hn⟩ := exists_last s (hall s hs)
      have := hi.seen_of s (hi.sel_in s hs) n hn
      exact List.mem_map.2 ⟨n, by simpa using this, hm s n hn⟩
    · intro n
      constructor
      · intro hn
        obtain ⟨h1, h2⟩ := hi.known n (by simpa using hn)
        exact ⟨((nodeNameMap_get nodes _ n).1 h1).2, h2⟩
      · rintro ⟨hl, hw⟩
        have hseen : ∀ s, Wanted nodes select s → ∀ x, (nodeNameMap nodes).get? s = some x → s ∈ seen := by
          intro s hws
          induction hws with
          | selected h => intro _ _; exact hi.sel_in _ h
          | @needed y d hwy hly hd ih =>
            intro x hx
            have hy : (nodeNameMap nodes).get? y.name = some y := (nodeNameMap_get nodes _ y).2 ⟨rfl, hly⟩
            have := hi.seen_of _ (ih y hy) y hy
            exact hi.closed y (by simpa using this) d hd x hx
        have hg : (nodeNameMap nodes).get? n.name = some n := (nodeNameMap_get nodes _ n).2 ⟨rfl, hl⟩
        simpa using hi.seen_of _ (hseen _ hw n hg) n hg

/-- **C42, no selection.**  Without a selection every node is kept. -/
theorem C42_no_selection (nodes initial : List TNode) (fuel : Nat) :
    pruneNodes nodes none initial fuel = some (.nodes nodes) := rfl

namespace TargetSample

instance instDecEqExcept {ε α : Type} [DecidableEq ε] [DecidableEq α] : DecidableEq (Except ε α) := fun a b =>
  match a, b with
  | .ok x, .ok y => if h : x = y then isTrue (by rw [h]) else isFalse (fun e => h (by cases e; rfl))
  | .error x, .error y => if h : x = y then isTrue (by rw [h]) else isFalse (fun e => h (by cases e; rfl))
  | .ok _, .error _ => isFalse (fun e => by cases e)
  | .error _, .ok _ => isFalse (fun e => by cases e)

def nd (name : Name) (params : List Name) (body : Nat) : TNode := { name, params, nonFinal := false, data := 0, body }
/-- The graph of the documentation of targets (base.py:388-405): A → B → C and B → D → E. -/
def nodes : List TNode := [nd "A" ["x"] 1, nd "B" ["A"] 2, nd "C" ["B"] 3, nd "D" ["B"] 4, nd "E" ["D"] 5]
def dup (n : TNode) : List TNode := [{ n with name := n.name ++ "_raw" }, { n with body := n.body + 10 }]

/-- Non-vacuity of `C48_partition`: the default target is C and E. -/
example : transformDag dup .sinks nodes = .ok [nd "A" ["x"] 1, nd "B" ["A"] 2, nd "D" ["B"] 4,
    nd "C_raw" ["B"] 3, nd "C" ["B"] 13, nd "E_raw" ["D"] 5, nd "E" ["D"] 15] := by decide +kernel
example : transformDag dup (.names ["B", "A"]) nodes = .ok [nd "C" ["B"] 3, nd "D" ["B"] 4, nd "E" ["D"] 5,
    nd "A_raw" ["x"] 1, nd "A" ["x"] 11, nd "B_raw" ["A"] 2, nd "B" ["A"] 12] := by decide +kernel

/-- Non-vacuity of `C48_unknown`: one known and one unknown name. -/
example : transformDag dup (.names ["B", "Z"]) nodes = .error .notAllFound ∧ (nodes.map (·.name)).Nodup ∧
    (Target.names ["B", "Z"]).mentions.Nodup := by decide +kernel

/-- Non-vacuity of `C48_single`: two sinks here, one in the list without E and D. -/
example : transformDagSingle dup nodes = .error .notSingle ∧
    transformDagSingle dup (nodes.take 3) = .ok [nd "A" ["x"] 1, nd "B" ["A"] 2, nd "C_raw" ["B"] 3, nd "C" ["B"] 13] := by
  decide +kernel

/-- Beside `C48_unknown`: a name that is listed twice is refused although the node exists (the code compares lengths,
base.py:456). -/
example : transformDag dup (.names ["B", "B"]) nodes = .error .notAllFound := by decide +kernel

/-- Non-vacuity of `C42_prune`: D and what it needs, but neither C nor E. -/
example : InitialStack nodes ["D", "B"] [nd "D" ["B"] 4, nd "B" ["A"] 2] ∧
    pruneNodes nodes (some ["D", "B"]) [nd "D" ["B"] 4, nd "B" ["A"] 2] nodes.length =
      some (.nodes [nd "B" ["A"] 2, nd "A" ["x"] 1, nd "D" ["B"] 4]) := by
  refine ⟨⟨by decide, ?_⟩, by decide +kernel⟩
  intro n
  constructor
  · intro h
    simp only [List.mem_cons, List.not_mem_nil, or_false] at h
    rcases h with rfl | rfl <;> exact ⟨by decide, by decide +kernel⟩
  · rintro ⟨h1, h2⟩
    simp only [List.mem_cons, List.not_mem_nil, or_false] at h1
    rcases h1 with h | h <;> rw [h] at h2
    · have e : (nodeNameMap nodes).get? "D" = some (nd "D" ["B"] 4) := by decide +kernel
      rw [e] at h2; cases h2; simp
    · have e : (nodeNameMap nodes).get? "B" = some (nd "B" ["A"] 2) := by decide +kernel
      rw [e] at h2; cases h2; simp

example : pruneNodes nodes (some ["D", "Z"]) [nd "D" ["B"] 4] nodes.length = some .missing := by decide +kernel

end TargetSample
end Verif
