import Verif.Proofs.Blocks

namespace Verif
variable {T V : Type} {g : Graph T V} {nodes : List (Node T V)} {overrides : Dict Name V} {requested : List Name}
  {specs : List (TaskSpec T V)}

/-- The groups of the default strategy. -/
def blockGroups (g : Graph T V) (nodes : List (Node T V)) : List (NodeGroup T V) :=
  (collectors nodes).flatMap (trio g) ++
    (loose g nodes).map (fun n => { baseId := n.name, spawning := none, nodes := [n], purpose := .single })

/-- What a group of the default strategy is. -/
inductive GroupCase (g : Graph T V) (nodes : List (Node T V)) : NodeGroup T V → Prop
  | expand {c e : Node T V} : c ∈ nodes → c.kind = .collect → e ∈ nodes → Feeds g e.name c.name →
      GroupCase g nodes { baseId := "expand-" ++ e.name, spawning := none, nodes := [e], purpose := .expand }
  | block {c e : Node T V} {bn : List (Node T V)} : c ∈ nodes → c.kind = .collect → e ∈ nodes → Feeds g e.name c.name →
      (∀ n, n ∈ bn ↔ n ∈ nodes ∧ InBlock g c.name n.name) →
      GroupCase g nodes { baseId := "block-" ++ e.name, spawning := some ("expand-" ++ e.name), nodes := bn, purpose := .block }
  | gather {c e : Node T V} : c ∈ nodes → c.kind = .collect → e ∈ nodes → Feeds g e.name c.name →
      GroupCase g nodes { baseId := "collect-" ++ e.name, spawning := some ("expand-" ++ e.name), nodes := [c], purpose := .gather }
  | single {n : Node T V} : n ∈ nodes → (∀ c ∈ nodes, c.kind = .collect → ¬ Owns g c.name n.name) →
      GroupCase g nodes { baseId := n.name, spawning := none, nodes := [n], purpose := .single }

theorem BlockShape.case (hs : BlockShape g nodes) (hw : WellFormed g) (hac : Acyclic g) {gr : NodeGroup T V}
    (hg : gr ∈ blockGroups g nodes) : GroupCase g nodes gr := by
  rcases List.mem_append.1 hg with hg | hg
  · obtain ⟨c, hc, hg⟩ := List.mem_flatMap.1 hg
    obtain ⟨h1, h2⟩ := mem_collectors.1 hc
    obtain ⟨e, bn, k1, k2, k3, k4, k5, k6⟩ := hs.trio_mem hw hac h1 h2
    rw [k5] at hg
    simp only [List.mem_cons, List.not_mem_nil, or_false] at hg
    rcases hg with rfl | rfl | rfl
    · exact .expand h1 h2 k1 k2
    · exact .block h1 h2 k1 k2 k3
    · exact .gather h1 h2 k1 k2
  · obtain ⟨n, hn, rfl⟩ := List.mem_map.1 hg
    obtain ⟨h1, h2⟩ := (mem_loose hs hw hac).1 hn
    exact .single h1 h2

/-- The three groups of a block are there. -/
theorem BlockShape.trio_in (hs : BlockShape g nodes) (hw : WellFormed g) (hac : Acyclic g) {c e : Node T V}
    (hc : c ∈ nodes) (hk : c.kind = .collect) (he : e ∈ nodes) (hf : Feeds g e.name c.name) :
    (∃ gr ∈ blockGroups g nodes, gr.baseId = "expand-" ++ e.name ∧ gr.purpose = .expand ∧ gr.nodes = [e]) ∧
    (∃ gr ∈ blockGroups g nodes, gr.baseId = "block-" ++ e.name ∧ gr.spawning = some ("expand-" ++ e.name) ∧
      gr.purpose = .block ∧ ∀ n, n ∈ gr.nodes ↔ n ∈ nodes ∧ InBlock g c.name n.name) ∧
    (∃ gr ∈ blockGroups g nodes, gr.baseId = "collect-" ++ e.name ∧ gr.spawning = some ("expand-" ++ e.name) ∧
      gr.purpose = .gather ∧ gr.nodes = [c]) := by
  obtain ⟨e', bn, k1, k2, k3, k4, k5, k6⟩ := hs.trio_mem hw hac hc hk
  have : e' = e := nodup_map_inj hs.names_nodup k1 he (hs.one_start c hc hk _ _ k2 hf)
  subst this
  have hin : ∀ gr ∈ trio g c, gr ∈ blockGroups g nodes := fun gr hg =>
    List.mem_append.2 (.inl (List.mem_flatMap.2 ⟨c, mem_collectors.2 ⟨hc, hk⟩, hg⟩))
  refine ⟨⟨_, hin _ (by rw [k5]; exact .head _), rfl, rfl, rfl⟩,
    ⟨_, hin _ (by rw [k5]; exact .tail _ (.head _)), rfl, rfl, rfl, k3⟩,
    ⟨_, hin _ (by rw [k5]; exact .tail _ (.tail _ (.head _))), rfl, rfl, rfl, rfl⟩⟩

/-- Largest rank in a list of nodes. -/
def maxRank (rank : Name → Nat) (ns : List (Node T V)) : Nat := ns.foldr (fun n m => max (rank n.name) m) 0

theorem le_maxRank {rank : Name → Nat} {ns : List (Node T V)} {n : Node T V} (h : n ∈ ns) : rank n.name ≤ maxRank rank ns := by
  induction ns with
  | nil => cases h
  | cons a t ih =>
    unfold maxRank
    simp only [List.foldr_cons]
    rcases List.mem_cons.1 h with rfl | h
    · omega
    · have := ih h
      unfold maxRank at this
      omega

theorem maxRank_le {rank : Name → Nat} {ns : List (Node T V)} {b : Nat} (h : ∀ n ∈ ns, rank n.name ≤ b) :
    maxRank rank ns ≤ b := by
  induction ns with
  | nil => exact Nat.zero_le _
  | cons a t ih =>
    unfold maxRank
    simp only [List.foldr_cons]
    have := ih (fun n hn => h n (by simp [hn]))
    have := h a (by simp)
    unfold maxRank at *
    omega

/-- Weight of a group: respects dependencies. -/
def weight (rank : Name → Nat) (gr : NodeGroup T V) : Nat :=
  2 * maxRank rank gr.nodes + if gr.purpose = .block then 1 else 0

/-- Path from a collector down to the expander: it ends in a node of the block. -/
theorem SealedBlocks.last (hs : SealedBlocks g nodes overrides) {rank : Name → Nat} (hr : Ranked g rank) {c : Node T V}
    {e : Name} (hc : c ∈ nodes) (hk : c.kind = .collect) (hf : Feeds g e c.name) :
    (∃ x, InBlock g c.name x ∧ DependsOn g x e) ∧ ∃ d, InBlock g c.name d ∧ DependsOn g c.name d := by
  obtain ⟨he, d, hd, hre⟩ := hf
  have hne : d ≠ e := by
    rintro rfl
    have := (hs.start_use c hc hk d ⟨he, d, hd, .refl _⟩ c hc hd).rank hr
    omega
  have hd1 : ∀ {a b : Name}, Reaches (InsideEdge g) a b → a = b ∨ ¬ Expander g a := by
    intro a b h
    induction h with
    | refl => exact .inl rfl
    | step _ ed ih =>
      rcases ih with rfl | h
      · exact .inr ed.1
      · exact .inr h
  refine ⟨?_, ⟨d, ⟨(hd1 hre).resolve_left hne, ⟨d, hd, .refl _⟩, e, he, hre⟩, hd⟩⟩
  cases hre with
  | refl => exact absurd rfl hne
  | step h1 h2 => exact ⟨_, ⟨h2.1, ⟨d, hd, h1⟩, e, he, .step (.refl _) h2⟩, h2.2⟩

theorem depends_iff (hw : WellFormed g) (hs : BlockShape g nodes) {n : Node T V} (hn : n ∈ nodes) {d : Name} :
    d ∈ n.dependencies ↔ DependsOn g n.name d := by
  have hg := hs.in_graph n hn
  rw [hw.deps_eq hg]
  constructor
  · intro h; exact ⟨n, hg, h⟩
  · rintro ⟨m, hm, h⟩; rw [hg] at hm; cases hm; exact h

/-- Plans of the default strategy run to the end. -/
theorem SealedBlocks.live (hs : SealedBlocks g nodes overrides) (hw : WellFormed g) (hac : Acyclic g)
    (hdash : ∀ n ∈ nodes, DashFree n.name) (hne : nodes ≠ [])
    (h : createTaskPlan (blockGroups g nodes) requested overrides = some specs) : PlanLive specs := by
  have hp : Partition nodes (blockGroups g nodes) := hs.toBlockShape.partition hw hac hdash
  have hcase : ∀ gr ∈ blockGroups g nodes, GroupCase g nodes gr := fun gr hg => hs.toBlockShape.case hw hac hg
  obtain ⟨rank, hr⟩ := hac
  have hac : Acyclic g := ⟨rank, hr⟩
  obtain ⟨h1, h2⟩ := createTaskPlan_spec h
  have hspec : ∀ gr ∈ blockGroups g nodes, ∃ s ∈ specs, s.toNodeGroup = gr := fun gr hg => plan_of_group h hg
  have hdn : ∀ n ∈ nodes, ∀ d, d ∈ n.dependencies ↔ DependsOn g n.name d := fun n hn d => depends_iff hw hs.toBlockShape hn
  -- what a dependency is
  have hdep : ∀ s ∈ specs, ∀ b, b ∈ s.baseDeps ↔ ∃ n ∈ s.nodes, overrides.get? n.name = none ∧
      ∃ gr ∈ blockGroups g nodes, gr.baseId = b ∧ ∃ m ∈ gr.nodes, m.name ∈ n.dependencies ∧ overrides.get? m.name = none ∧
        m.name ∉ s.nodes.map (·.name) := by
    intro s hss b
    rw [(h2 s hss).deps]
    constructor
    · rintro ⟨n, k1, k2, d, k3, k4, k5, k6⟩
      obtain ⟨_, gr, hg, rfl, m, hm, rfl⟩ := hp.n2t.1 k6
      exact ⟨n, k1, k2, gr, hg, rfl, m, hm, k3, k4, k5⟩
    · rintro ⟨n, k1, k2, gr, hg, rfl, m, hm, k3, k4, k5⟩
      exact ⟨n, k1, k2, m.name, k3, k4, k5, hp.n2t.2 ⟨k4, gr, hg, rfl, m, hm, rfl⟩⟩
  have hids : ∀ a ∈ blockGroups g nodes, ∀ b ∈ blockGroups g nodes, a.baseId = b.baseId → a = b := fun a ha b hb hab =>
    nodup_map_inj hp.ids_nodup ha hb hab
  have hmember : ∀ m ∈ specs, ∀ e', m.MemberOf e' → ∃ c e : Node T V, c ∈ nodes ∧ c.kind = .collect ∧ e ∈ nodes ∧
      Feeds g e.name c.name ∧ m.baseId = "block-" ++ e.name ∧ e' = "expand-" ++ e.name ∧
      ∀ n, n ∈ m.nodes ↔ n ∈ nodes ∧ InBlock g c.name n.name := by
    rintro m hm e' ⟨k1, k2, k3⟩
    have hg := (h2 m hm).group
    have hcs := hcase _ hg
    generalize hgr : m.toNodeGroup = gr at hcs
    have e1 : m.spawning = gr.spawning := by rw [← hgr]
    have e2 : m.purpose = gr.purpose := by rw [← hgr]
    have e3 : m.nodes = gr.nodes := by rw [← hgr]
    have e4 : m.baseId = gr.baseId := by rw [← hgr]
    rw [e1] at k1
    rw [e2] at k2 k3
    cases hcs with
    | expand => cases k1
    | @block c e bn j1 j2 j3 j4 j5 =>
      cases k1
      exact ⟨c, e, j1, j2, j3, j4, rfl, rfl, j5⟩
    | gather => exact absurd rfl k3
    | single => cases k1
  have hmu : ∀ t ∈ specs, ∀ m ∈ specs, ∀ e', m.MemberOf e' → m.baseId ∈ t.baseDeps → t.CollectorOf e' ∧
      ∃ c ∈ nodes, t.nodes = [c] ∧ ∀ n, n ∈ m.nodes → InBlock g c.name n.name := by
    intro t ht m hm e' hme hd
    obtain ⟨c, e, k1, k2, k3, k4, k5, k6, k7⟩ := hmember m hm e' hme
    obtain ⟨n, hn, ho, gr, hg, hgb, x, hx, hxd, hxo, hxn⟩ := (hdep t ht _).1 hd
    have hgm : gr = m.toNodeGroup := hids _ hg _ (h2 m hm).group hgb
    subst hgm
    have hxb := ((k7 x).1 hx)
    have hnn : n ∈ nodes := (hp.covers n).1 ⟨_, (h2 t ht).group, hn⟩
    rcases hs.inside_use c k1 k2 x.name hxb.2 n hnn ((hdn n hnn _).1 hxd) with hb | hb
    · exfalso
      have hnm : n ∈ m.nodes := (k7 n).2 ⟨hnn, hb⟩
      have hsame := hp.same_group (h2 t ht).group (h2 m hm).group hn hnm rfl
      have hnodes : t.nodes = m.nodes := congrArg NodeGroup.nodes hsame
      rw [hnodes] at hxn
      exact hxn (List.mem_map.2 ⟨x, hx, rfl⟩)
    · obtain ⟨gr, hg', j1, j2, j3, j4⟩ := (hs.toBlockShape.trio_in hw hac k1 k2 k3 k4).2.2
      have hsame := hp.same_group (h2 t ht).group hg' hn (n' := c) (by rw [j4]; simp) hb
      refine ⟨⟨?_, ?_⟩, c, k1, ?_, fun n hn => ((k7 n).1 hn).2⟩
      · have := congrArg NodeGroup.spawning hsame
        rw [j2] at this
        rw [k6]
        exact this
      · have := congrArg NodeGroup.purpose hsame
        rw [j3] at this
        exact this
      · have := congrArg NodeGroup.nodes hsame
        rw [j4] at this
        exact this
  -- ids
  have hcount : ∀ p : String, p.toList.count '-' = 1 → ∀ x : Name, DashFree x → (p ++ x).toList.count '-' ≤ 1 := by
    intro p hp x hx
    rw [String.toList_append, List.count_append, hp, List.count_eq_zero.2 hx]
    omega
  have hinst := inst_names (specs := specs) (by
      intro m hm e' hme
      obtain ⟨c, e, k1, k2, k3, k4, k5, k6, k7⟩ := hmember m hm e' hme
      exact ⟨e.name, hdash e k3, k6, k5⟩) (by
      intro s hss
      have hcs := hcase _ (h2 s hss).group
      generalize hgr : s.toNodeGroup = gr at hcs
      have e4 : s.baseId = gr.baseId := by rw [← hgr]
      cases hcs with
      | expand _ _ j _ => exact hcount "expand-" (by decide) _ (hdash _ j)
      | block _ _ j _ _ => exact hcount "block-" (by decide) _ (hdash _ j)
      | gather _ _ j _ => exact hcount "collect-" (by decide) _ (hdash _ j)
      | single j _ =>
        have := List.count_eq_zero.2 (hdash _ j)
        simp only
        omega)
  have hgne : specs ≠ [] := by
    obtain ⟨n, hn⟩ := List.exists_mem_of_ne_nil _ hne
    obtain ⟨gr, hg, _⟩ := (hp.covers n).2 hn
    obtain ⟨s, hss, _⟩ := hspec gr hg
    intro he
    rw [he] at hss; cases hss
  have hspawn : ∀ t ∈ specs, ∀ e', t.spawning = some e' → t.baseDeps ≠ [] ∧ ∃ s ∈ specs, s.baseId = e' ∧
      s.purpose = .expand ∧ weight rank s.toNodeGroup < weight rank t.toNodeGroup := by
    intro t ht e' hte
    have hcs := hcase _ (h2 t ht).group
    generalize hgr : t.toNodeGroup = gr at hcs
    have e1 : t.spawning = gr.spawning := by rw [← hgr]
    have e2 : t.purpose = gr.purpose := by rw [← hgr]
    have e3 : t.nodes = gr.nodes := by rw [← hgr]
    have e4 : t.baseId = gr.baseId := by rw [← hgr]
    rw [e1] at hte
    cases hcs with
    | expand => cases hte
    | single => cases hte
    | @block c e bn j1 j2 j3 j4 j5 =>
      cases hte
      obtain ⟨gr, hg, i1, i2, i3⟩ := (hs.toBlockShape.trio_in hw hac j1 j2 j3 j4).1
      obtain ⟨s, hss, hsg⟩ := hspec gr hg
      obtain ⟨⟨x, hx, hxe⟩, _⟩ := hs.last hr j1 j2 j4
      obtain ⟨xn, hxn, rfl⟩ := hs.whole c j1 j2 x (.inr hx)
      have hxb : xn ∈ bn := (j5 xn).2 ⟨hxn, hx⟩
      refine ⟨?_, s, hss, ?_, ?_, ?_⟩
      · apply List.ne_nil_of_mem (a := gr.baseId)
        rw [hdep t ht]
        refine ⟨xn, by rw [e3]; exact hxb, hs.untouched c j1 j2 _ (.inr (.inl hx)), gr, hg, rfl, e, by rw [i3]; simp,
          (hdn xn hxn _).2 hxe, hs.untouched c j1 j2 _ (.inl j4), ?_⟩
        rw [e3]
        intro hm
        obtain ⟨y, hy, hye⟩ := List.mem_map.1 hm
        have := ((j5 y).1 hy).2
        rw [hye] at this
        exact this.1 j4.1
      · have := congrArg NodeGroup.baseId hsg; rw [i1] at this; exact this
      · have := congrArg NodeGroup.purpose hsg; rw [i2] at this; exact this
      · rw [hsg]
        unfold weight
        rw [i3, i2]
        have : rank e.name < rank xn.name := by obtain ⟨nn, hnn, hd⟩ := hxe; exact hr _ _ hnn _ hd
        have hle := le_maxRank (rank := rank) hxb
        simp only [maxRank, List.foldr_cons, List.foldr_nil] at hle ⊢
        simp
        omega
    | @gather c e j1 j2 j3 j4 =>
      cases hte
      obtain ⟨⟨gr, hg, i1, i2, i3⟩, ⟨gb, hgb, i4, _, _, i5⟩, _⟩ := hs.toBlockShape.trio_in hw hac j1 j2 j3 j4
      obtain ⟨s, hss, hsg⟩ := hspec gr hg
      obtain ⟨_, d, hd, hcd⟩ := hs.last hr j1 j2 j4
      obtain ⟨dn, hdnn, rfl⟩ := hs.whole c j1 j2 d (.inr hd)
      refine ⟨?_, s, hss, ?_, ?_, ?_⟩
      · apply List.ne_nil_of_mem (a := gb.baseId)
        rw [hdep t ht]
        refine ⟨c, by rw [e3]; simp, hs.untouched c j1 j2 _ (.inr (.inr rfl)), gb, hgb, rfl, dn,
          (i5 dn).2 ⟨hdnn, hd⟩, (hdn c j1 _).2 hcd, hs.untouched c j1 j2 _ (.inr (.inl hd)), ?_⟩
        rw [e3]
        intro hm
        simp only [List.map_cons, List.map_nil, List.mem_singleton] at hm
        have := hd.rank hr
        rw [hm] at this
        omega
      · have := congrArg NodeGroup.baseId hsg; rw [i1] at this; exact this
      · have := congrArg NodeGroup.purpose hsg; rw [i2] at this; exact this
      · rw [hsg]
        unfold weight
        rw [i3, i2]
        have := j4.rank hr
        simp only [maxRank, List.foldr_cons, List.foldr_nil]
        simp
        omega
  refine { ids_nodup := ?_, deps_in := ?_, expand_static := ?_, spawned := ?_, member_use := ?_, inst_inj := hinst.1,
           inst_fresh := hinst.2, nonempty := hgne, rank := ?_, realizable := ?_ }
  · rw [plan_ids h]; exact hp.ids_nodup
  · intro t ht d hd
    obtain ⟨_, _, _, gr, hg, rfl, _⟩ := (hdep t ht d).1 hd
    obtain ⟨s, hss, hsg⟩ := hspec gr hg
    exact ⟨s, hss, congrArg NodeGroup.baseId hsg⟩
  · intro t ht hte
    have hcs := hcase _ (h2 t ht).group
    generalize hgr : t.toNodeGroup = gr at hcs
    have e1 : t.spawning = gr.spawning := by rw [← hgr]
    have e2 : t.purpose = gr.purpose := by rw [← hgr]
    rw [e2] at hte
    cases hcs with
    | expand => rfl
    | block => cases hte
    | gather => cases hte
    | single => cases hte
  · intro t ht e' hte
    obtain ⟨k1, s, k2, k3, k4, _⟩ := hspawn t ht e' hte
    exact ⟨k1, s, k2, k3, k4⟩
  · intro t ht m hm e' hme hd
    exact (hmu t ht m hm e' hme hd).1
  · -- rank of a task
    let R : Name → Nat := fun id =>
      match (blockGroups g nodes).find? (fun gr => gr.baseId == id) with
      | some gr => weight rank gr
      | none => 0
    have hR : ∀ gr ∈ blockGroups g nodes, R gr.baseId = weight rank gr := by
      intro gr hg
      show (match (blockGroups g nodes).find? (fun x => x.baseId == gr.baseId) with
        | some gr => weight rank gr
        | none => 0) = _
      cases hf : (blockGroups g nodes).find? (fun x => x.baseId == gr.baseId) with
      | none =>
        rw [List.find?_eq_none] at hf
        exact absurd (by simp) (hf gr hg)
      | some gr' =>
        have h4 := List.find?_some hf
        simp only [beq_iff_eq] at h4
        rw [hids _ (List.mem_of_find?_eq_some hf) _ hg h4]
    refine ⟨R, ?_, ?_⟩
    · intro t ht d hd
      obtain ⟨n, hn, ho, gr, hg, rfl, m, hm, hmd, hmo, hmn⟩ := (hdep t ht d).1 hd
      have ht' : R t.baseId = weight rank t.toNodeGroup := hR _ (h2 t ht).group
      rw [ht', hR gr hg]
      have hnn : n ∈ nodes := (hp.covers n).1 ⟨_, (h2 t ht).group, hn⟩
      have hlt : rank m.name < rank n.name := by
        obtain ⟨nn, h5, h6⟩ := (hdn n hnn _).1 hmd
        exact hr _ _ h5 _ h6
      have hle : rank n.name ≤ maxRank rank t.toNodeGroup.nodes := le_maxRank hn
      have hcs := hcase gr hg
      cases hcs with
      | expand =>
        rw [List.mem_singleton] at hm
        subst hm
        unfold weight
        simp only [maxRank, List.foldr_cons, List.foldr_nil] at hle ⊢
        simp
        omega
      | single =>
        rw [List.mem_singleton] at hm
        subst hm
        unfold weight
        simp only [maxRank, List.foldr_cons, List.foldr_nil] at hle ⊢
        simp
        omega
      | gather =>
        rw [List.mem_singleton] at hm
        subst hm
        unfold weight
        simp only [maxRank, List.foldr_cons, List.foldr_nil] at hle ⊢
        simp
        omega
      | @block c e bn j1 j2 j3 j4 j5 =>
        obtain ⟨s, hss, hsg⟩ := hspec _ hg
        obtain ⟨⟨q1, q2⟩, c', hc', hn1, hn2⟩ := hmu t ht s hss ("expand-" ++ e.name) (by
          refine ⟨congrArg NodeGroup.spawning hsg, ?_, ?_⟩
          · rw [show s.purpose = .block from congrArg NodeGroup.purpose hsg]; simp
          · rw [show s.purpose = .block from congrArg NodeGroup.purpose hsg]; simp)
          (by rw [show s.baseId = _ from congrArg NodeGroup.baseId hsg]; exact hd)
        have hsn : s.nodes = bn := congrArg NodeGroup.nodes hsg
        have hmlt : rank m.name < rank c'.name := (hn2 m (by rw [hsn]; exact hm)).rank hr
        have hmax : maxRank rank bn ≤ rank c'.name - 1 := maxRank_le (fun x hx => by
          have := (hn2 x (by rw [hsn]; exact hx)).rank hr
          omega)
        unfold weight
        have hp' : t.toNodeGroup.purpose = .gather := q2
        have hn1' : t.toNodeGroup.nodes = [c'] := hn1
        rw [hp', hn1']
        simp only [maxRank, List.foldr_cons, List.foldr_nil] at hmax ⊢
        simp
        omega
    · intro t ht e' hte
      obtain ⟨_, s, k2, k3, _, k5⟩ := hspawn t ht e' hte
      rw [← k3, show R s.baseId = weight rank s.toNodeGroup from hR _ (h2 s k2).group,
        show R t.baseId = weight rank t.toNodeGroup from hR _ (h2 t ht).group]
      exact k5
  · intro t ht hts hb
    obtain ⟨d, hd⟩ := List.exists_mem_of_ne_nil _ hb
    obtain ⟨n, hn, ho, gr, hg, rfl, m, hm, hmd, hmo, hmn⟩ := (hdep t ht d).1 hd
    obtain ⟨s, hss, hsg⟩ := hspec gr hg
    refine ⟨s, hss, by rw [show s.baseId = _ from congrArg NodeGroup.baseId hsg]; exact hd, ?_⟩
    rw [show s.purpose = gr.purpose from congrArg NodeGroup.purpose hsg]
    have hcs := hcase gr hg
    cases hcs with
    | block => simp
    | gather => simp
    | single => simp
    | @expand c e j1 j2 j3 j4 =>
      exfalso
      rw [List.mem_singleton] at hm
      subst hm
      have hnn : n ∈ nodes := (hp.covers n).1 ⟨_, (h2 t ht).group, hn⟩
      have hnb := hs.start_use c j1 j2 m.name j4 n hnn ((hdn n hnn _).1 hmd)
      obtain ⟨gb, hgb, _, i2, _, i5⟩ := (hs.toBlockShape.trio_in hw hac j1 j2 j3 j4).2.1
      have hsame := hp.same_group (h2 t ht).group hgb hn ((i5 n).2 ⟨hnn, hnb⟩) rfl
      have := congrArg NodeGroup.spawning hsame
      rw [i2] at this
      have hts' : t.toNodeGroup.spawning = none := hts
      rw [hts'] at this
      cases this

theorem SealedBlocks.keys (hs : SealedBlocks g nodes overrides) (hw : WellFormed g) (hac : Acyclic g)
    (hdash : ∀ n ∈ nodes, DashFree n.name) (hcolon : ∀ k n, g.get? k = some n → ColonFree k)
    (h : createTaskPlan (blockGroups g nodes) requested overrides = some specs) : KeysOk specs := by
  have hp : Partition nodes (blockGroups g nodes) := hs.toBlockShape.partition hw hac hdash
  have hname : ∀ n ∈ nodes, ColonFree n.name := fun n hn => hcolon _ _ (hs.in_graph n hn)
  have hpre : ∀ p : String, ':' ∉ p.toList → ∀ x : Name, ColonFree x → ColonFree (p ++ x) := by
    intro p hp x hx
    unfold ColonFree
    rw [String.toList_append, List.mem_append]
    rintro (h | h)
    · exact hp h
    · exact hx h
  refine hp.keys h ?_ (fun _ => ⟨?_, hname, ?_⟩)
  · intro gr hg hpg
    cases hs.toBlockShape.case hw hac hg with
    | expand => cases hpg
    | block => cases hpg
    | gather => simp
    | single => cases hpg
  · intro gr hg
    cases hs.toBlockShape.case hw hac hg with
    | expand _ _ j _ => exact hpre "expand-" (by decide) _ (hname _ j)
    | block _ _ j _ _ => exact hpre "block-" (by decide) _ (hname _ j)
    | gather _ _ j _ => exact hpre "collect-" (by decide) _ (hname _ j)
    | single j _ => exact hname _ j
  · intro n hn d hd
    obtain ⟨nn, h1, h2⟩ := (depends_iff hw hs.toBlockShape hn).1 hd
    obtain ⟨dn, hdn⟩ := hw.deps_in h1 h2
    exact hcolon d dn hdn

end Verif
