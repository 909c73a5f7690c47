import Verif.Proofs.Topo
import Verif.Props.Sample

/-!
Property theorem C12: topological order and levels.
-/
namespace Verif
variable {T V : Type}

/-- `d` is a dependency of the node named `k`, both in the list. -/
def DepAmong (nodes : List (Node T V)) (k d : Name) : Prop :=
  ∃ n ∈ nodes, n.name = k ∧ d ∈ n.inputTypes.keys ∧ ∃ m ∈ nodes, m.name = d

theorem mem_depsIn {nodes : List (Node T V)} {n : Node T V} {d : Name} :
    d ∈ depsIn (nodes.map (·.name)) n ↔ d ∈ n.inputTypes.keys ∧ ∃ m ∈ nodes, m.name = d := by
  unfold depsIn
  rw [List.mem_filter, List.contains_iff_mem, List.mem_map]

/-- C12 (order). Sorting always terminates, returns each given node at most once and nothing else, and every node comes
after all of its dependencies that are in the list.  What is left out are only nodes having a dependency that is left out too. -/
theorem C12_sorted {nodes : List (Node T V)} (hn : (nodes.map (·.name)).Nodup)
    (hp : ∀ n ∈ nodes, n.inputTypes.keys.Nodup) :
    ∃ res, topologicallySortNodes nodes = some res ∧ (res.map (·.name)).Nodup ∧ (∀ n ∈ res, n ∈ nodes) ∧
      (∀ a x b, res = a ++ x :: b → ∀ d, DepAmong nodes x.name d → d ∈ a.map (·.name)) ∧
      (∀ n ∈ nodes, n ∉ res → ∃ d m, DepAmong nodes n.name d ∧ m ∈ nodes ∧ m.name = d ∧ m ∉ res) := by
  obtain ⟨res, deg, h1, h2⟩ := topoSort_spec hn hp
  refine ⟨res, h1, by simpa using h2.nodup, fun n hn' => h2.sub n (by simp [hn']), ?_, ?_⟩
  · rintro a x b hab d ⟨n, hn', hnx, hd, hm⟩
    have hx : x ∈ nodes := h2.sub x (by simp [hab])
    have := name_inj hn hn' hx hnx
    subst this
    exact h2.order a n b hab d (mem_depsIn.2 ⟨hd, hm⟩)
  · intro n hn' hnr
    have h3 := (h2.mem_iff n hn')
    have h4 : pending (nodes.map (·.name)) res n ≠ 0 := fun h => hnr (by simpa using h3.2 h)
    unfold pending at h4
    cases hl : (depsIn (nodes.map (·.name)) n).filter (fun d => decide (d ∉ res.map (·.name))) with
    | nil => rw [hl] at h4; simp at h4
    | cons d t =>
      have hd : d ∈ (depsIn (nodes.map (·.name)) n).filter (fun d => decide (d ∉ res.map (·.name))) := by rw [hl]; simp
      obtain ⟨h5, h6⟩ := List.mem_filter.1 hd
      obtain ⟨h7, m, hm, hmd⟩ := mem_depsIn.1 h5
      refine ⟨d, m, ⟨n, hn', rfl, h7, m, hm, hmd⟩, hm, hmd, ?_⟩
      intro hmr
      have : d ∉ res.map (·.name) := by simpa using h6
      exact this (List.mem_map.2 ⟨m, hmr, hmd⟩)

/-- C12 (completeness). If the dependencies among the nodes are acyclic, no node is dropped: the result is a permutation. -/
theorem C12_acyclic_complete {nodes : List (Node T V)} (hn : (nodes.map (·.name)).Nodup)
    (hp : ∀ n ∈ nodes, n.inputTypes.keys.Nodup) (rank : Name → Nat)
    (hr : ∀ k d, DepAmong nodes k d → rank d < rank k) :
    ∃ res, topologicallySortNodes nodes = some res ∧ res.Perm nodes := by
  obtain ⟨res, h1, h2, h3, _, h5⟩ := C12_sorted hn hp
  refine ⟨res, h1, ?_⟩
  have hall : ∀ (N : Nat) (n : Node T V), n ∈ nodes → rank n.name < N → n ∈ res := by
    intro N
    induction N with
    | zero => intro n _ h; omega
    | succ N ih =>
      intro n hn' hlt
      by_cases hres : n ∈ res
      · exact hres
      · obtain ⟨d, m, hd, hm, rfl, hmr⟩ := h5 n hn' hres
        have := hr _ _ hd
        exact absurd (ih m hm (by omega)) hmr
  have nd : ∀ {l : List (Node T V)}, (l.map (·.name)).Nodup → l.Nodup := by
    intro l
    induction l with
    | nil => intro _; simp
    | cons a t ih =>
      intro h
      rw [List.map_cons, List.nodup_cons] at h
      exact List.nodup_cons.2 ⟨fun ha => h.1 (List.mem_map.2 ⟨a, ha, rfl⟩), ih h.2⟩
  classical
  rw [List.perm_ext_iff_of_nodup (nd h2) (nd hn)]
  intro n
  exact ⟨h3 n, fun h => hall (rank n.name + 1) n h (Nat.lt_succ_self _)⟩

/-- The sample functions given in reverse order are sorted; a two-node cycle is dropped together with what depends on it. -/
example : (topologicallySortNodes Sample.fns.reverse).map (·.map (·.name)) = some ["base", "right", "left", "top"] ∧
    (topologicallySortNodes [Sample.fnNode "p" [("q", .required)] (fun _ => .ok 0), Sample.fnNode "q" [("p", .required)] (fun _ => .ok 0),
      Sample.fnNode "r" [("q", .required)] (fun _ => .ok 0), Sample.fnNode "s" [] (fun _ => .ok 0)]).map (·.map (·.name))
      = some ["s"] := by decide

example : (Sample.fns.reverse.map (·.name)).Nodup ∧ (∀ n ∈ Sample.fns.reverse, n.inputTypes.keys.Nodup) ∧
    (∀ k d, DepAmong Sample.fns.reverse k d → Sample.rank d < Sample.rank k) := by
  refine ⟨by decide, by decide, ?_⟩
  rintro k d ⟨n, hn, rfl, hd, m, hm, rfl⟩
  have : ∀ n ∈ Sample.fns.reverse, ∀ d ∈ n.inputTypes.keys, Sample.rank d < Sample.rank n.name := by decide
  exact this n hn _ hd

/-- A chain of `L` steps of `E` starting at a name. -/
inductive ChainLen (E : Name → Name → Prop) : Name → Nat → Prop
  | nil (a : Name) : ChainLen E a 0
  | cons {a b : Name} {L : Nat} : E a b → ChainLen E b L → ChainLen E a (L + 1)

/-- `k` has the recorded dependency `d` inside the list. -/
def EdgeAmong (nodes : List (Node T V)) (k d : Name) : Prop :=
  ∃ n ∈ nodes, n.name = k ∧ d ∈ n.dependencies ∧ d ∈ nodes.map (·.name)

theorem maxOf_spec (l : List Nat) : (∀ x ∈ l, x ≤ maxOf l) ∧ (l ≠ [] → maxOf l ∈ l) := by
  unfold maxOf
  have key : ∀ (l : List Nat) (a : Nat), (∀ x ∈ l, x ≤ l.foldl max a) ∧ a ≤ l.foldl max a ∧
      (l.foldl max a = a ∨ l.foldl max a ∈ l) := by
    intro l
    induction l with
    | nil => intro a; simp
    | cons b t ih =>
      intro a
      simp only [List.foldl_cons]
      obtain ⟨h1, h2, h3⟩ := ih (max a b)
      refine ⟨?_, by omega, ?_⟩
      · intro x hx
        rcases List.mem_cons.1 hx with rfl | hx
        · omega
        · exact h1 x hx
      · rcases h3 with h3 | h3
        · rw [h3]
          by_cases hab : a ≤ b
          · right; simp [Nat.max_eq_right hab]
          · left; omega
        · right; simp [h3]
  obtain ⟨h1, h2, h3⟩ := key l 0
  refine ⟨h1, fun hne => ?_⟩
  rcases h3 with h3 | h3
  · cases l with
    | nil => exact absurd rfl hne
    | cons b t =>
      have := h1 b (by simp)
      rw [h3] at this ⊢
      have : b = 0 := by omega
      simp [this]
  · exact h3

theorem mapM_get_spec {W : Type} (levels : Dict Name W) : ∀ (l : List Name), (∀ d ∈ l, ∃ v, levels.get? d = some v) →
    ∃ ls, l.mapM (fun d => levels.get? d) = some ls ∧ (∀ x, x ∈ ls ↔ ∃ d ∈ l, levels.get? d = some x) := by
  intro l
  induction l with
  | nil => intro _; exact ⟨[], rfl, by simp⟩
  | cons a t ih =>
    intro h
    obtain ⟨v, hv⟩ := h a (by simp)
    obtain ⟨ls, h1, h2⟩ := ih (fun d hd => h d (by simp [hd]))
    refine ⟨v :: ls, ?_, ?_⟩
    · rw [List.mapM_cons, hv, h1]; rfl
    · intro x
      rw [List.mem_cons, h2]
      constructor
      · rintro (rfl | ⟨d, h3, h4⟩)
        · exact ⟨a, by simp, hv⟩
        · exact ⟨d, by simp [h3], h4⟩
      · rintro ⟨d, h3, h4⟩
        rcases List.mem_cons.1 h3 with rfl | h3
        · left; rw [hv] at h4; cases h4; rfl
        · exact .inr ⟨d, h3, h4⟩

/-- C12 (levels). On a topologically sorted list, the level of a node is the length of the longest dependency chain inside
the list that starts at it. -/
theorem C12_levels {nodes : List (Node T V)} (hn : (nodes.map (·.name)).Nodup)
    (hsorted : ∀ a x b, nodes = a ++ x :: b → ∀ d, d ∈ x.dependencies → d ∈ nodes.map (·.name) → d ∈ a.map (·.name)) :
    ∃ levels, getNodeLevels nodes = some levels ∧ ∀ n ∈ nodes, ∃ L, levels.get? n.name = some L ∧
      ChainLen (EdgeAmong nodes) n.name L ∧ ∀ L', ChainLen (EdgeAmong nodes) n.name L' → L' ≤ L := by
  have key : ∀ (post pre : List (Node T V)) (levels : Dict Name Nat), nodes = pre ++ post →
      (∀ k, (∃ L, levels.get? k = some L) ↔ k ∈ pre.map (·.name)) →
      (∀ k L, levels.get? k = some L → ChainLen (EdgeAmong nodes) k L ∧ ∀ L', ChainLen (EdgeAmong nodes) k L' → L' ≤ L) →
      ∃ res, post.foldlM (levelStep (nodes.map (·.name))) levels = some res ∧
        (∀ k, (∃ L, res.get? k = some L) ↔ k ∈ nodes.map (·.name)) ∧
        (∀ k L, res.get? k = some L → ChainLen (EdgeAmong nodes) k L ∧ ∀ L', ChainLen (EdgeAmong nodes) k L' → L' ≤ L) := by
    intro post
    induction post with
    | nil =>
      intro pre levels hpre h1 h2
      exact ⟨levels, rfl, by rw [hpre]; simpa using h1, h2⟩
    | cons x t ih =>
      intro pre levels hpre h1 h2
      have hxn : x ∈ nodes := by rw [hpre]; simp
      have hedge : ∀ d, EdgeAmong nodes x.name d ↔ d ∈ x.dependencies ∧ d ∈ nodes.map (·.name) := by
        intro d
        constructor
        · rintro ⟨n, hn', hname, h3, h4⟩
          rw [← name_inj hn hn' hxn hname]; exact ⟨h3, h4⟩
        · rintro ⟨h3, h4⟩; exact ⟨x, hxn, rfl, h3, h4⟩
      have hin : ∀ d, d ∈ x.dependencies.filter (fun d => (nodes.map (·.name)).contains d) ↔ EdgeAmong nodes x.name d := by
        intro d; rw [hedge, List.mem_filter, List.contains_iff_mem]
      have hstep : ∃ L, levelStep (nodes.map (·.name)) levels x = some (levels.set x.name L) ∧
          ChainLen (EdgeAmong nodes) x.name L ∧ ∀ L', ChainLen (EdgeAmong nodes) x.name L' → L' ≤ L := by
        unfold levelStep
        simp only
        by_cases hnil : x.dependencies.filter (fun d => (nodes.map (·.name)).contains d) = []
        · rw [if_pos hnil]
          refine ⟨0, rfl, .nil _, ?_⟩
          intro L' hL'
          cases hL' with
          | nil => exact Nat.le_refl _
          | cons e _ =>
            have := (hin _).2 e
            rw [hnil] at this; cases this
        · rw [if_neg hnil]
          obtain ⟨ls, hls, hmem⟩ := mapM_get_spec levels (x.dependencies.filter (fun d => (nodes.map (·.name)).contains d))
            (fun d hd => by
              obtain ⟨h3, h4⟩ := (hedge d).1 ((hin d).1 hd)
              exact (h1 d).2 (hsorted pre x t hpre d h3 h4))
          rw [hls]
          obtain ⟨hm1, hm2⟩ := maxOf_spec ls
          have hne : ls ≠ [] := by
            intro hls0
            obtain ⟨d, hd⟩ := List.exists_mem_of_ne_nil _ hnil
            obtain ⟨h3, h4⟩ := (hedge d).1 ((hin d).1 hd)
            obtain ⟨L, hL⟩ := (h1 d).2 (hsorted pre x t hpre d h3 h4)
            have := (hmem L).2 ⟨d, hd, hL⟩
            rw [hls0] at this; cases this
          refine ⟨maxOf ls + 1, rfl, ?_, ?_⟩
          · obtain ⟨d, hd, hL⟩ := (hmem _).1 (hm2 hne)
            exact .cons ((hin d).1 hd) (h2 d _ hL).1
          · intro L' hL'
            cases hL' with
            | nil => omega
            | cons e hc =>
              rename_i d L''
              obtain ⟨h3, h4⟩ := (hedge d).1 e
              obtain ⟨L, hL⟩ := (h1 d).2 (hsorted pre x t hpre d h3 h4)
              have h5 := (h2 d L hL).2 _ hc
              have h6 := hm1 L ((hmem L).2 ⟨d, (hin d).2 e, hL⟩)
              omega
      obtain ⟨L, hs, hc1, hc2⟩ := hstep
      have := ih (pre ++ [x]) (levels.set x.name L) (by rw [hpre]; simp) (by
          intro k
          rw [Dict.get?_set, List.map_append, List.mem_append, ← h1 k]
          by_cases hk : x.name = k
          · simp [hk]
          · simp [hk, Ne.symm hk]) (by
          intro k M hM
          rw [Dict.get?_set] at hM
          split at hM
          · rename_i hk; cases hM; subst hk; exact ⟨hc1, hc2⟩
          · exact h2 k M hM)
      rw [List.foldlM_cons, hs]
      exact this
  obtain ⟨res, h1, h2, h3⟩ := key nodes [] [] rfl (by simp) (by simp)
  refine ⟨res, h1, fun n hn' => ?_⟩
  obtain ⟨L, hL⟩ := (h2 n.name).2 (List.mem_map.2 ⟨n, hn', rfl⟩)
  exact ⟨L, hL, h3 _ L hL⟩

/-- Levels of the sample graph's functions (in construction order they are sorted). -/
example : getNodeLevels ((["base", "left", "right", "top"].filterMap (fun k => Sample.graph.get? k)))
    = some [("base", 0), ("left", 1), ("right", 1), ("top", 2)] := by decide

end Verif
