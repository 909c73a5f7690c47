import Verif.Props.Topo
import Verif.Spec.Groups
import Verif.Proofs.Sched9

/-! The grouping strategies partition the nodes. -/
namespace Verif
variable {T V : Type}

/-- What the strategies are given: nodes with distinct names and parameters, without cyclic dependencies. -/
structure GroupInput (nodes : List (Node T V)) : Prop where
  names_nodup : (nodes.map (·.name)).Nodup
  params_nodup : ∀ n ∈ nodes, n.inputTypes.keys.Nodup
  deps_eq : ∀ n ∈ nodes, n.dependencies = n.inputTypes.keys
  acyclic : ∃ rank : Name → Nat, ∀ n ∈ nodes, ∀ d ∈ n.dependencies, rank d < rank n.name

theorem plain_purpose {k : NodeKind} (h1 : k ≠ .expand) (h2 : k ≠ .collect) :
    purposeOfKind k ≠ .expand ∧ purposeOfKind k ≠ .gather := by
  cases k <;> simp_all [purposeOfKind]

/-- Every node a group of its own. -/
theorem singles_plain {nodes : List (Node T V)} (h : GroupInput nodes) {p : Node T V → Purpose}
    (hp : ∀ n ∈ nodes, p n ≠ .expand ∧ p n ≠ .gather) :
    PlainGroups nodes (nodes.map (fun n => { baseId := n.name, spawning := none, nodes := [n], purpose := p n })) := by
  refine { ids_nodup := ?_, once := ?_, covers := ?_, plain := ?_, order := ?_ }
  · rw [List.map_map]; exact h.names_nodup
  · rw [List.flatMap_map]
    have : ∀ l : List (Node T V), l.flatMap (fun a => [a.name]) = l.map (·.name) := by
      intro l
      induction l with
      | nil => rfl
      | cons a l ih => simp [List.flatMap_cons, ih]
    simpa [this] using h.names_nodup
  · intro n
    constructor
    · rintro ⟨gr, hg, hgn⟩
      obtain ⟨m, hm, rfl⟩ := List.mem_map.1 hg
      simp only [List.mem_singleton] at hgn
      subst hgn; exact hm
    · intro hn
      exact ⟨_, List.mem_map.2 ⟨n, hn, rfl⟩, by simp⟩
  · intro gr hg
    obtain ⟨n, hn, rfl⟩ := List.mem_map.1 hg
    exact ⟨rfl, hp n hn⟩
  · obtain ⟨rank, hr⟩ := h.acyclic
    refine ⟨rank, ?_⟩
    intro gr hg gr' hg' _ n hn n' hn' hd
    obtain ⟨m, hm, rfl⟩ := List.mem_map.1 hg
    obtain ⟨m', hm', rfl⟩ := List.mem_map.1 hg'
    simp only [List.mem_singleton] at hn hn'
    subst hn; subst hn'
    exact hr n hm _ hd

theorem groupIndividually_plain {nodes : List (Node T V)} (h : GroupInput nodes)
    (hk : ∀ n ∈ nodes, n.kind ≠ .expand ∧ n.kind ≠ .collect) : PlainGroups nodes (groupIndividually nodes) :=
  singles_plain h (fun n hn => plain_purpose (hk n hn).1 (hk n hn).2)

theorem groupByRepeatableBlocks_plain {g : Graph T V} {nodes : List (Node T V)} (h : GroupInput nodes)
    (hk : ∀ n ∈ nodes, n.kind ≠ .collect) :
    ∃ groups, groupByRepeatableBlocks g nodes = some groups ∧ PlainGroups nodes groups ∧
      groups.map (·.baseId) = nodes.map (·.name) := by
  have hnone : nodes.filter (fun n => n.kind == .collect) = [] := by
    rw [List.filter_eq_nil_iff]
    intro n hn
    simpa using hk n hn
  refine ⟨_, by unfold groupByRepeatableBlocks; rw [hnone]; rfl, ?_⟩
  have : nodes.filter (fun n => !(([] : List Name).contains n.name)) = nodes := by
    rw [List.filter_eq_self]
    intro n _; rfl
  simp only [List.nil_append]
  rw [this]
  exact ⟨singles_plain h (fun n hn => ⟨by simp, by simp⟩), by rw [List.map_map]; rfl⟩

theorem groupAllAsOne_plain {nodes : List (Node T V)} (h : GroupInput nodes) (hne : nodes ≠ [])
    (hk : ∀ n ∈ nodes, n.kind ≠ .expand ∧ n.kind ≠ .collect) :
    ∃ groups, groupAllAsOne nodes = some groups ∧ PlainGroups nodes groups ∧ groups.map (·.baseId) = ["root"] := by
  cases nodes with
  | nil => exact absurd rfl hne
  | cons n ns =>
    refine ⟨_, rfl, ?_, rfl⟩
    have hkn := hk n (by simp)
    refine { ids_nodup := by simp, once := ?_, covers := ?_, plain := ?_, order := ⟨fun _ => 0, ?_⟩ }
    · simpa using h.names_nodup
    · intro m; simp
    · intro gr hg
      rw [List.mem_singleton] at hg
      subst hg
      exact ⟨rfl, plain_purpose hkn.1 hkn.2⟩
    · intro gr hg gr' hg' hne
      rw [List.mem_singleton] at hg hg'
      subst hg; subst hg'
      exact absurd rfl hne

/-! ### Levels -/

theorem levels_keys {nodes : List (Node T V)} {levels : Dict Name Nat} (h : getNodeLevels nodes = some levels) :
    levels.keys.Nodup ∧ ∀ k, k ∈ levels.keys ↔ k ∈ nodes.map (·.name) := by
  suffices H : ∀ (names : List Name) (post : List (Node T V)) (l l' : Dict Name Nat),
      post.foldlM (levelStep names) l = some l' → l.keys.Nodup →
      l'.keys.Nodup ∧ ∀ k, k ∈ l'.keys ↔ k ∈ l.keys ∨ k ∈ post.map (·.name) by
    obtain ⟨h1, h2⟩ := H _ _ _ _ h (by simp [Dict.keys])
    exact ⟨h1, fun k => by rw [h2]; simp [Dict.keys]⟩
  intro names post
  induction post with
  | nil => intro l l' hl hn; cases hl; exact ⟨hn, by simp⟩
  | cons x t ih =>
    intro l l' hl hn
    rw [List.foldlM_cons] at hl
    have hset : ∃ L, levelStep names l x = some (l.set x.name L) ∨ levelStep names l x = none := by
      unfold levelStep
      simp only
      split
      · exact ⟨0, .inl rfl⟩
      · cases hm : (x.dependencies.filter (fun d => names.contains d)).mapM (fun d => l.get? d) with
        | none => exact ⟨0, .inr rfl⟩
        | some ls => exact ⟨_, .inl rfl⟩
    obtain ⟨L, hs | hs⟩ := hset
    · rw [hs] at hl
      obtain ⟨h1, h2⟩ := ih (l.set x.name L) l' hl (Dict.keys_set_nodup hn _ _)
      refine ⟨h1, fun k => ?_⟩
      rw [h2, Dict.mem_keys_iff, Dict.mem_keys_iff, Dict.get?_set]
      by_cases hk : x.name = k
      · simp [hk]
      · have hk' : k ≠ x.name := fun h => hk h.symm
        simp [hk, hk']
    · rw [hs] at hl; cases hl

theorem nat_nodup_sub_length {l : List Nat} : ∀ {l' : List Nat}, l.Nodup → (∀ x ∈ l, x ∈ l') → l.length ≤ l'.length := by
  induction l with
  | nil => intro l' _ _; simp
  | cons a t ih =>
    intro l' hn hs
    rw [List.nodup_cons] at hn
    obtain ⟨p, q, rfl⟩ := List.append_of_mem (hs a (by simp))
    have := ih (l' := p ++ q) hn.2 (by
      intro x hx
      have := hs x (by simp [hx])
      simp only [List.mem_append, List.mem_cons] at this ⊢
      rcases this with h | rfl | h
      · exact .inl h
      · exact absurd hx hn.1
      · exact .inr h)
    simp only [List.length_append, List.length_cons] at this ⊢
    omega

theorem flatMap_nodup {α β : Type} {f : α → List β} {l : List α} (hl : l.Nodup) (h1 : ∀ a ∈ l, (f a).Nodup)
    (h2 : ∀ a ∈ l, ∀ b ∈ l, ∀ x, x ∈ f a → x ∈ f b → a = b) : (l.flatMap f).Nodup := by
  induction l with
  | nil => simp
  | cons a t ih =>
    rw [List.nodup_cons] at hl
    rw [List.flatMap_cons, List.nodup_append]
    refine ⟨h1 a (by simp), ih hl.2 (fun b hb => h1 b (by simp [hb]))
      (fun b hb c hc => h2 b (by simp [hb]) c (by simp [hc])), ?_⟩
    intro x hx y hy hxy
    subst hxy
    obtain ⟨b, hb, hxb⟩ := List.mem_flatMap.1 hy
    exact hl.1 (h2 a (by simp) b (by simp [hb]) x hx hxb ▸ hb)

theorem map_nodup {α β : Type} {f : α → β} {l : List α} (hl : l.Nodup) (h : ∀ a b, f a = f b → a = b) :
    (l.map f).Nodup := by
  induction l with
  | nil => simp
  | cons a t ih =>
    rw [List.nodup_cons] at hl
    rw [List.map_cons, List.nodup_cons]
    refine ⟨?_, ih hl.2⟩
    intro hm
    obtain ⟨b, hb, he⟩ := List.mem_map.1 hm
    exact hl.1 (h _ _ he ▸ hb)

/-- The nodes of one level. -/
theorem mem_levelBucket {nodes : List (Node T V)} (hn : (nodes.map (·.name)).Nodup) {levels : Dict Name Nat}
    (hk : levels.keys.Nodup) {i : Nat} {n : Node T V} :
    n ∈ levelBucket nodes levels i ↔ n ∈ nodes ∧ levels.get? n.name = some i := by
  unfold levelBucket
  rw [List.mem_filterMap]
  constructor
  · rintro ⟨p, hp, hf⟩
    rw [List.mem_filter] at hp
    have h1 := List.mem_of_find?_eq_some hf
    have h2 := List.find?_some hf
    simp only [beq_iff_eq] at h2 hp
    refine ⟨h1, ?_⟩
    rw [h2, ← hp.2]
    exact Dict.get?_of_mem hk hp.1
  · rintro ⟨h1, h2⟩
    refine ⟨(n.name, i), ?_, ?_⟩
    · rw [List.mem_filter]
      exact ⟨Dict.get?_mem h2, by simp⟩
    · cases hf : nodes.find? (fun m => m.name == n.name) with
      | none =>
        rw [List.find?_eq_none] at hf
        exact absurd (by simp) (hf n h1)
      | some m =>
        have h3 := List.mem_of_find?_eq_some hf
        have h4 := List.find?_some hf
        simp only [beq_iff_eq] at h4
        rw [name_inj hn h3 h1 h4]

theorem levelBucket_nodup {nodes : List (Node T V)} {levels : Dict Name Nat}
    (hk : levels.keys.Nodup) (i : Nat) : ((levelBucket nodes levels i).map (·.name)).Nodup := by
  unfold levelBucket
  have hsub : ((levels.filter (fun p => p.2 == i)).map (·.1)).Nodup := (List.filter_sublist.map _).nodup hk
  generalize levels.filter (fun p => p.2 == i) = l at hsub
  induction l with
  | nil => simp
  | cons p t ih =>
    simp only [List.map_cons, List.nodup_cons] at hsub
    rw [List.filterMap_cons]
    split
    · exact ih hsub.2
    · rename_i n hf
      have h4 := List.find?_some hf
      simp only [beq_iff_eq] at h4
      rw [List.map_cons, List.nodup_cons]
      refine ⟨?_, ih hsub.2⟩
      intro hm
      obtain ⟨m, hm1, hm2⟩ := List.mem_map.1 hm
      obtain ⟨q, hq, hqf⟩ := List.mem_filterMap.1 hm1
      have h5 := List.find?_some hqf
      simp only [beq_iff_eq] at h5
      apply hsub.1
      rw [← h4, ← hm2, h5]
      exact List.mem_map.2 ⟨q, hq, rfl⟩

theorem level_down {E : Name → Name → Prop} {lv : Name → Option Nat}
    (h1 : ∀ k L, lv k = some L → ChainLen E k L ∧ ∀ L', ChainLen E k L' → L' ≤ L)
    (h2 : ∀ k d, E k d → ∃ L, lv d = some L) {k : Name} {L : Nat} (hk : lv k = some L) :
    ∀ j ≤ L, ∃ d, lv d = some j := by
  induction L generalizing k with
  | zero => intro j hj; exact ⟨k, by rw [hk, Nat.le_zero.1 hj]⟩
  | succ L ih =>
    intro j hj
    by_cases he : j = L + 1
    · subst he; exact ⟨k, hk⟩
    · obtain ⟨hc, hmax⟩ := h1 k _ hk
      generalize hM : L + 1 = M at hc
      cases hc with
      | nil => omega
      | @cons _ d L1 e hcd =>
        have : L1 = L := by omega
        subst this
        obtain ⟨L2, hL2⟩ := h2 _ _ e
        have h3 := (h1 _ _ hL2).2 _ hcd
        have h4 := hmax _ (.cons e (h1 _ _ hL2).1)
        have : L2 = L1 := by omega
        subst this
        exact ih hL2 j (by omega)

theorem groupByLevel_plain {nodes : List (Node T V)} (h : GroupInput nodes) :
    ∃ groups, groupByLevel nodes = some groups ∧ PlainGroups nodes groups ∧
      ∀ gr ∈ groups, ∃ i : Nat, gr.baseId = "level_" ++ toString i := by
  obtain ⟨rank, hrank⟩ := h.acyclic
  have hn := h.names_nodup
  obtain ⟨res, hs, hperm⟩ := C12_acyclic_complete hn h.params_nodup rank (by
    rintro k d ⟨n, hn', rfl, hd, _⟩
    exact hrank n hn' d (by rw [h.deps_eq n hn']; exact hd))
  obtain ⟨res', hs', _, _, hsorted, _⟩ := C12_sorted hn h.params_nodup
  rw [hs] at hs'
  cases hs'
  have hmem : ∀ n, n ∈ res ↔ n ∈ nodes := fun n => hperm.mem_iff
  have hrn : (res.map (·.name)).Nodup := (hperm.map _).nodup_iff.2 hn
  obtain ⟨levels, hl, hspec⟩ := C12_levels hrn (by
    intro a x b hab d hd hdin
    have hx : x ∈ res := by rw [hab]; simp
    refine hsorted a x b hab d ⟨x, (hmem x).1 hx, rfl, ?_, ?_⟩
    · rw [← h.deps_eq x ((hmem x).1 hx)]; exact hd
    · obtain ⟨m, hm, hmd⟩ := List.mem_map.1 hdin
      exact ⟨m, (hmem m).1 hm, hmd⟩)
  obtain ⟨hk1, hk2⟩ := levels_keys hl
  have hlev : ∀ k L, levels.get? k = some L → ChainLen (EdgeAmong res) k L ∧
      ∀ L', ChainLen (EdgeAmong res) k L' → L' ≤ L := by
    intro k L hkL
    obtain ⟨n, hnr, rfl⟩ := List.mem_map.1 ((hk2 k).1 (Dict.mem_keys_iff.2 ⟨L, hkL⟩))
    obtain ⟨L0, hL0, hc⟩ := hspec n hnr
    rw [hkL] at hL0; cases hL0
    exact hc
  have hedge : ∀ k d, EdgeAmong res k d → ∃ L, levels.get? d = some L := by
    rintro k d ⟨_, _, _, _, hd⟩
    exact Dict.mem_keys_iff.1 ((hk2 d).2 hd)
  have hcount : ∀ k L, levels.get? k = some L → L < (levels.map (·.2)).eraseDups.length := by
    intro k L hkL
    have hsub : ∀ x ∈ List.range (L + 1), x ∈ (levels.map (·.2)).eraseDups := by
      intro x hx
      rw [List.mem_range] at hx
      obtain ⟨d, hd⟩ := level_down (lv := fun k => levels.get? k) hlev hedge hkL x (by omega)
      rw [List.mem_eraseDups]
      exact List.mem_map.2 ⟨(d, x), Dict.get?_mem hd, rfl⟩
    have := nat_nodup_sub_length List.nodup_range hsub
    rw [List.length_range] at this
    omega
  refine ⟨_, by unfold groupByLevel; rw [hs]; simp only [Option.bind_some]; rw [hl]; rfl, ?_, ?_⟩
  rotate_left
  · intro gr hg
    obtain ⟨i, _, rfl⟩ := List.mem_map.1 hg
    exact ⟨i, rfl⟩
  have hbucket : ∀ i n, n ∈ levelBucket nodes levels i ↔ n ∈ nodes ∧ levels.get? n.name = some i :=
    fun i n => mem_levelBucket hn hk1
  refine { ids_nodup := ?_, once := ?_, covers := ?_, plain := ?_, order := ?_ }
  · rw [List.map_map]
    refine map_nodup List.nodup_range ?_
    intro i j hij
    simp only [Function.comp] at hij
    have : ("level_".toList ++ (toString i).toList) = "level_".toList ++ (toString j).toList := by
      rw [← String.toList_append, ← String.toList_append, hij]
    exact toString_nat_inj (String.toList_inj.1 (List.append_cancel_left this))
  · rw [List.flatMap_map]
    apply flatMap_nodup List.nodup_range
    · intro i _; exact levelBucket_nodup hk1 i
    · intro i _ j _ x hx hy
      obtain ⟨n, hn1, rfl⟩ := List.mem_map.1 hx
      obtain ⟨m, hm1, hm2⟩ := List.mem_map.1 hy
      have h1 := ((hbucket i n).1 hn1).2
      have h2 := ((hbucket j m).1 hm1).2
      rw [hm2, h1] at h2
      cases h2; rfl
  · intro n
    constructor
    · rintro ⟨gr, hg, hgn⟩
      obtain ⟨i, _, rfl⟩ := List.mem_map.1 hg
      exact ((hbucket i n).1 hgn).1
    · intro hnn
      obtain ⟨L, hL, _⟩ := hspec n ((hmem n).2 hnn)
      exact ⟨_, List.mem_map.2 ⟨L, List.mem_range.2 (hcount _ _ hL), rfl⟩, (hbucket L n).2 ⟨hnn, hL⟩⟩
  · intro gr hg
    obtain ⟨i, _, rfl⟩ := List.mem_map.1 hg
    exact ⟨rfl, by simp, by simp⟩
  · -- the level of a group, read off its nodes
    refine ⟨fun b => match (List.range (levels.map (·.2)).eraseDups.length).find? (fun i => "level_" ++ toString i == b) with
      | some i => i
      | none => 0, ?_⟩
    have hfind : ∀ i, i < (levels.map (·.2)).eraseDups.length →
        (List.range (levels.map (·.2)).eraseDups.length).find? (fun j => "level_" ++ toString j == "level_" ++ toString i)
          = some i := by
      intro i hi
      cases hf : (List.range (levels.map (·.2)).eraseDups.length).find?
          (fun j => "level_" ++ toString j == "level_" ++ toString i) with
      | none =>
        rw [List.find?_eq_none] at hf
        exact absurd (by simp) (hf i (List.mem_range.2 hi))
      | some j =>
        have h4 := List.find?_some hf
        simp only [beq_iff_eq] at h4
        have : ("level_".toList ++ (toString j).toList) = "level_".toList ++ (toString i).toList := by
          rw [← String.toList_append, ← String.toList_append, h4]
        rw [toString_nat_inj (String.toList_inj.1 (List.append_cancel_left this))]
    intro gr hg gr' hg' _ n hgn n' hgn' hd
    obtain ⟨i, hi, rfl⟩ := List.mem_map.1 hg
    obtain ⟨j, hj, rfl⟩ := List.mem_map.1 hg'
    simp only [hfind i (List.mem_range.1 hi), hfind j (List.mem_range.1 hj)]
    obtain ⟨hn1, hn2⟩ := (hbucket i n).1 hgn
    obtain ⟨hm1, hm2⟩ := (hbucket j n').1 hgn'
    have he : EdgeAmong res n.name n'.name :=
      ⟨n, (hmem n).2 hn1, rfl, hd, List.mem_map.2 ⟨n', (hmem n').2 hm1, rfl⟩⟩
    have := (hlev _ _ hn2).2 _ (.cons he (hlev _ _ hm2).1)
    omega

end Verif
