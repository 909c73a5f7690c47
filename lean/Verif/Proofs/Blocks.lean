import Verif.Spec.Groups
import Verif.Proofs.Between
import Verif.Proofs.Groupings
import Verif.Proofs.Names
import Verif.Proofs.PlainPlan

namespace Verif
variable {T V : Type} {g : Graph T V}

theorem forEach_inv {α σ ε : Type} {P : σ → Prop} {body : α → σ → Out σ ε} {l : List α}
    (h : ∀ a ∈ l, ∀ s, P s → P (body a s).state) {s : σ} (hs : P s) : P (forEach body l s).state := by
  induction l generalizing s with
  | nil => exact hs
  | cons a t ih =>
    unfold forEach
    have h1 := h a (by simp) s hs
    cases hb : body a s with
    | err e s' => rw [hb] at h1; exact h1
    | ok s' =>
      rw [hb] at h1
      exact ih (fun b hb' => h b (by simp [hb'])) h1

theorem betweenVisit_nodup (cond : Node T V → Bool) (fuel : Nat) (n : Node T V) (s : Between) (hs : s.out.Nodup) :
    (betweenVisit g cond fuel n s).state.1.out.Nodup := by
  induction fuel generalizing n s with
  | zero => exact hs
  | succ f ih =>
    unfold betweenVisit
    split
    · exact hs
    · split
      · exact hs
      · have := forEach_inv (P := fun p : Between × Bool => p.1.out.Nodup)
          (body := betweenDep g (betweenVisit g cond f)) (l := n.dependencies)
          (s := ({ s with visited := setAdd s.visited n.name }, false)) (by
            intro d _ p hp
            unfold betweenDep
            split
            · exact hp
            · rename_i dn _
              have := ih dn p.1 hp
              cases hb : betweenVisit g cond f dn p.1 with
              | err e s' => rw [hb] at this; exact this
              | ok q => rw [hb] at this; exact this) hs
        revert this
        generalize forEach (betweenDep g (betweenVisit g cond f)) n.dependencies _ = r
        intro h
        cases r with
        | err e s' => exact h
        | ok p =>
          simp only [Out.bind, Out.state] at h ⊢
          split
          · exact setAdd_nodup h _
          · exact h

theorem nodesBetween_nodup (en : Node T V) (cond : Node T V → Bool) :
    (nodesBetween g en cond).state.1.out.Nodup := by
  unfold nodesBetween
  exact forEach_inv (P := fun p : Between × Bool => p.1.out.Nodup) (by
    intro d _ p hp
    unfold betweenDep
    split
    · exact hp
    · rename_i dn _
      have := betweenVisit_nodup (g := g) cond (g.length + 1) dn p.1 hp
      cases hb : betweenVisit g cond (g.length + 1) dn p.1 with
      | err e s' => rw [hb] at this; exact this
      | ok q => rw [hb] at this; exact this) (by simp)

theorem matches_expand {x : Name} : Matches g (fun n => n.kind == .expand) x ↔ Expander g x := by
  constructor
  · rintro ⟨n, hn, h⟩; exact ⟨n, hn, by simpa using h⟩
  · rintro ⟨n, hn, h⟩; exact ⟨n, hn, by simpa using h⟩

theorem searchEdge_inside {a b : Name} : SearchEdge g (fun n => n.kind == .expand) a b ↔ InsideEdge g a b := by
  unfold SearchEdge InsideEdge
  rw [matches_expand]

/-- The first expander on a path. -/
theorem first_expander {x c : Name} (h : Reaches (DependsOn g) x c) (hc : Expander g c) :
    ∃ e, Expander g e ∧ Reaches (InsideEdge g) x e := by
  have : Reaches (InsideEdge g) x c ∨ ∃ e, Expander g e ∧ Reaches (InsideEdge g) x e := by
    clear hc
    induction h with
    | refl => exact .inl (.refl _)
    | @step y z _ e ih =>
      rcases ih with h | h
      · by_cases hy : Expander g y
        · exact .inr ⟨y, hy, h⟩
        · exact .inl (.step h ⟨hy, e⟩)
      · exact .inr h
  rcases this with h | h
  · exact ⟨c, hc, h⟩
  · exact h

variable {nodes : List (Node T V)}

/-- What the search of the default grouping strategy finds. -/
theorem BlockShape.after (hs : BlockShape g nodes) (hw : WellFormed g) (hac : Acyclic g) {c : Node T V} (hc : c ∈ nodes)
    (hk : c.kind = .collect) :
    ∃ e bn, nodesAfterLastExpand g c = (some e, bn) ∧ e ∈ nodes ∧ Feeds g e.name c.name ∧
      (∀ n, n ∈ bn ↔ n ∈ nodes ∧ InBlock g c.name n.name) ∧ (bn.map (·.name)).Nodup := by
  obtain ⟨s, b, h1, h2, h3, h4⟩ := nodesBetween_spec hw hac (hs.in_graph c hc) (fun n => n.kind == .expand)
  have hn := nodesBetween_nodup (g := g) c (fun n => n.kind == .expand)
  have hmono : ∀ {a b}, Reaches (SearchEdge g (fun n => n.kind == .expand)) a b ↔ Reaches (InsideEdge g) a b :=
    ⟨fun h => h.mono (fun _ _ e => searchEdge_inside.1 e), fun h => h.mono (fun _ _ e => searchEdge_inside.2 e)⟩
  unfold nodesAfterLastExpand
  rw [h1] at hn ⊢
  simp only [Out.state] at hn ⊢
  have hin : ∀ x, x ∈ s.out ↔ InBlock g c.name x := by
    intro x
    rw [h2, matches_expand]
    unfold InBlock
    constructor
    · rintro ⟨k1, ⟨c', k2, k3⟩, d, k4, k5⟩
      exact ⟨k1, ⟨d, k4, hmono.1 k5⟩, first_expander k2 (matches_expand.1 k3)⟩
    · rintro ⟨k1, ⟨d, k4, k5⟩, e, k2, k3⟩
      exact ⟨k1, ⟨e, k3.mono (fun _ _ h => h.2), matches_expand.2 k2⟩, d, k4, hmono.2 k5⟩
  cases hf : s.found with
  | none =>
    exfalso
    obtain ⟨e, he, d, hd, hr⟩ := hs.start c hc hk
    exact h4 hf e (matches_expand.2 he) ⟨d, hd, hmono.2 hr⟩
  | some x =>
    obtain ⟨k1, d, k2, k3⟩ := h3 x hf
    have hfeeds : Feeds g x c.name := ⟨matches_expand.1 k1, d, k2, hmono.1 k3⟩
    obtain ⟨e, he, rfl⟩ := hs.whole c hc hk x (.inl hfeeds)
    have hge := hs.in_graph e he
    refine ⟨e, _, by simp only [Option.bind_some, hge]; rfl, he, hfeeds, ?_, ?_⟩
    · intro n
      rw [List.mem_filterMap]
      constructor
      · rintro ⟨k, hk', hkn⟩
        have hname := hw.name_eq hkn
        subst hname
        obtain ⟨m, hm, hmn⟩ := hs.whole c hc hk _ (.inr ((hin _).1 hk'))
        have := hs.in_graph m hm
        rw [hmn, hkn] at this
        cases this
        exact ⟨hm, (hin _).1 hk'⟩
      · rintro ⟨hn1, hn2⟩
        exact ⟨_, (hin _).2 hn2, hs.in_graph n hn1⟩
    · have hsub : ∀ x ∈ s.out, ∃ n, g.get? x = some n ∧ n.name = x := by
        intro x hx
        obtain ⟨n, hn1, rfl⟩ := hs.whole c hc hk x (.inr ((hin x).1 hx))
        exact ⟨n, hs.in_graph n hn1, rfl⟩
      have key : ∀ l : List Name, (∀ x ∈ l, ∃ n, g.get? x = some n ∧ n.name = x) →
          (l.filterMap (fun k => g.get? k)).map (·.name) = l := by
        intro l
        induction l with
        | nil => intro _; rfl
        | cons a t ih =>
          intro hl
          obtain ⟨n, hn, hna⟩ := hl a (by simp)
          rw [List.filterMap_cons, hn]
          simp only [List.map_cons]
          rw [ih (fun x hx => hl x (by simp [hx])), hna]
      rw [key _ hsub]
      exact hn

/-- The three groups of a block. -/
def trio (g : Graph T V) (c : Node T V) : List (NodeGroup T V) :=
  match nodesAfterLastExpand g c with
  | (some e, bn) =>
    [{ baseId := "expand-" ++ e.name, spawning := none, nodes := [e], purpose := .expand },
     { baseId := "block-" ++ e.name, spawning := some ("expand-" ++ e.name), nodes := bn, purpose := .block },
     { baseId := "collect-" ++ e.name, spawning := some ("expand-" ++ e.name), nodes := [c], purpose := .gather }]
  | (none, _) => []

/-- The names of a block. -/
def seen (g : Graph T V) (c : Node T V) : List Name :=
  match nodesAfterLastExpand g c with
  | (some e, bn) => bn.map (·.name) ++ [e.name] ++ [c.name]
  | (none, _) => []

theorem collect_fold {names : List Name} (cs : List (Node T V))
    (h : ∀ c ∈ cs, ∃ e bn, nodesAfterLastExpand g c = (some e, bn) ∧ e.name ∈ names) (acc : BlockAcc T V) :
    cs.foldlM (groupCollector g names) acc = some ⟨acc.groups ++ cs.flatMap (trio g), acc.visited ++ cs.flatMap (seen g)⟩ := by
  induction cs generalizing acc with
  | nil => simp
  | cons c cs ih =>
    obtain ⟨e, bn, h1, h2⟩ := h c (by simp)
    rw [List.foldlM_cons]
    have : groupCollector g names acc c = some ⟨acc.groups ++ trio g c, acc.visited ++ seen g c⟩ := by
      unfold groupCollector trio seen
      rw [h1]
      simp only
      rw [if_pos (by rw [List.contains_iff_mem]; exact h2)]
      simp [List.append_assoc]
    rw [this]
    simp only [Option.bind_eq_bind, Option.bind_some]
    rw [ih (fun c' hc' => h c' (by simp [hc']))]
    simp [List.flatMap_cons, List.append_assoc]

/-- The collectors among the nodes. -/
def collectors (nodes : List (Node T V)) : List (Node T V) := nodes.filter (fun n => n.kind == .collect)

theorem mem_collectors {c : Node T V} : c ∈ collectors nodes ↔ c ∈ nodes ∧ c.kind = .collect := by
  unfold collectors
  rw [List.mem_filter]
  simp

/-- The remaining nodes. -/
def loose (g : Graph T V) (nodes : List (Node T V)) : List (Node T V) :=
  nodes.filter (fun n => !((collectors nodes).flatMap (seen g)).contains n.name)

theorem BlockShape.groups (hs : BlockShape g nodes) (hw : WellFormed g) (hac : Acyclic g) :
    groupByRepeatableBlocks g nodes = some ((collectors nodes).flatMap (trio g) ++
      (loose g nodes).map (fun n => { baseId := n.name, spawning := none, nodes := [n], purpose := .single })) := by
  unfold groupByRepeatableBlocks
  have := collect_fold (g := g) (names := nodes.map (·.name)) (collectors nodes) (by
    intro c hc
    obtain ⟨h1, h2⟩ := mem_collectors.1 hc
    obtain ⟨e, bn, k1, k2, _⟩ := hs.after hw hac h1 h2
    exact ⟨e, bn, k1, List.mem_map.2 ⟨e, k2, rfl⟩⟩) ⟨[], []⟩
  unfold collectors at this
  rw [this]
  simp only [Option.map_some, List.nil_append]
  rfl

theorem BlockShape.trio_mem (hs : BlockShape g nodes) (hw : WellFormed g) (hac : Acyclic g) {c : Node T V} (hc : c ∈ nodes)
    (hk : c.kind = .collect) : ∃ e bn, e ∈ nodes ∧ Feeds g e.name c.name ∧
      (∀ n, n ∈ bn ↔ n ∈ nodes ∧ InBlock g c.name n.name) ∧ (bn.map (·.name)).Nodup ∧
      trio g c = [{ baseId := "expand-" ++ e.name, spawning := none, nodes := [e], purpose := .expand },
        { baseId := "block-" ++ e.name, spawning := some ("expand-" ++ e.name), nodes := bn, purpose := .block },
        { baseId := "collect-" ++ e.name, spawning := some ("expand-" ++ e.name), nodes := [c], purpose := .gather }] ∧
      seen g c = bn.map (·.name) ++ [e.name] ++ [c.name] := by
  obtain ⟨e, bn, h1, h2, h3, h4, h5⟩ := hs.after hw hac hc hk
  refine ⟨e, bn, h2, h3, h4, h5, ?_, ?_⟩
  · unfold trio; rw [h1]
  · unfold seen; rw [h1]

theorem InBlock.feeds {c x : Name} (h : InBlock g c x) : ∃ e, Feeds g e c ∧ Reaches (InsideEdge g) x e := by
  obtain ⟨_, ⟨d, h1, h2⟩, e, h3, h4⟩ := h
  exact ⟨e, ⟨h3, d, h1, h2.trans h4⟩, h4⟩

theorem mono_rank {rank : Name → Nat} (hr : Ranked g rank) {x y : Name} (h : Reaches (InsideEdge g) x y) :
    rank y ≤ rank x := by
  induction h with
  | refl => exact Nat.le_refl _
  | step _ e ih => obtain ⟨_, n, hn, hd⟩ := e; have := hr _ _ hn _ hd; omega

theorem InBlock.rank {rank : Name → Nat} (hr : Ranked g rank) {c x : Name} (h : InBlock g c x) : rank x < rank c := by
  obtain ⟨_, ⟨d, ⟨n, hn, hd⟩, h2⟩, _⟩ := h
  have := hr _ _ hn _ hd
  have := mono_rank hr h2
  omega

theorem Feeds.rank {rank : Name → Nat} (hr : Ranked g rank) {c x : Name} (h : Feeds g x c) : rank x < rank c := by
  obtain ⟨_, d, ⟨n, hn, hd⟩, h2⟩ := h
  have := hr _ _ hn _ hd
  have := mono_rank hr h2
  omega

/-- Who is in which block. -/
def Owns (g : Graph T V) (c x : Name) : Prop := Feeds g x c ∨ InBlock g c x ∨ x = c

theorem BlockShape.mem_seen (hs : BlockShape g nodes) (hw : WellFormed g) (hac : Acyclic g) {c : Node T V} (hc : c ∈ nodes)
    (hk : c.kind = .collect) {x : Name} : x ∈ seen g c ↔ Owns g c.name x := by
  obtain ⟨e, bn, h1, h2, h3, _, _, h4⟩ := hs.trio_mem hw hac hc hk
  rw [h4]
  simp only [List.mem_append, List.mem_map, List.mem_singleton]
  constructor
  · rintro ((⟨n, hn, rfl⟩ | rfl) | rfl)
    · exact .inr (.inl ((h3 n).1 hn).2)
    · exact .inl h2
    · exact .inr (.inr rfl)
  · rintro (h | h | h)
    · exact .inl (.inr (hs.one_start c hc hk _ _ h h2))
    · obtain ⟨n, hn, rfl⟩ := hs.whole c hc hk x (.inr h)
      exact .inl (.inl ⟨n, (h3 n).2 ⟨hn, h⟩, rfl⟩)
    · exact .inr h

theorem BlockShape.owner (hs : BlockShape g nodes) {c c' : Node T V} (hc : c ∈ nodes)
    (hk : c.kind = .collect) (hc' : c' ∈ nodes) (hk' : c'.kind = .collect) {x : Name} (h : Owns g c.name x)
    (h' : Owns g c'.name x) : c.name = c'.name := by
  have hce : ∀ c ∈ nodes, c.kind = .collect → ¬ Expander g c.name := by
    rintro c hc hk ⟨n, hn, hke⟩
    rw [hs.in_graph c hc] at hn
    cases hn
    rw [hk] at hke; cases hke
  -- a collector inside another block starts from the expander of that block too
  have hin : ∀ c ∈ nodes, c.kind = .collect → ∀ c' ∈ nodes, c'.kind = .collect → InBlock g c.name c'.name →
      c.name = c'.name := by
    intro c hc hk c' hc' hk' hb
    obtain ⟨e, he⟩ := hs.start c' hc' hk'
    obtain ⟨_, ⟨d, h1, h2⟩, _⟩ := hb
    obtain ⟨k1, d', k2, k3⟩ := he
    exact hs.one_end c hc hk c' hc' hk' e ⟨k1, d, h1, h2.trans (Reaches.head ⟨hce c' hc' hk', k2⟩ k3)⟩ ⟨k1, d', k2, k3⟩
  rcases h with h | h | h <;> rcases h' with h' | h' | h'
  · exact hs.one_end c hc hk c' hc' hk' x h h'
  · exact absurd h.1 h'.1
  · subst h'; exact absurd h.1 (hce c' hc' hk')
  · exact absurd h'.1 h.1
  · obtain ⟨e, h1, h2⟩ := h.feeds
    obtain ⟨_, ⟨d, h3, h4⟩, _⟩ := h'
    exact hs.one_end c hc hk c' hc' hk' e h1 ⟨h1.1, d, h3, h4.trans h2⟩
  · subst h'; exact hin c hc hk c' hc' hk' h
  · subst h; exact absurd h'.1 (hce c hc hk)
  · subst h; exact (hin c' hc' hk' c hc hk h').symm
  · rw [← h, ← h']

theorem filter_nodup {α : Type} {l : List α} (h : l.Nodup) (p : α → Bool) : (l.filter p).Nodup :=
  List.Sublist.nodup List.filter_sublist h

theorem map_filter_nodup {α β : Type} {f : α → β} {l : List α} (h : (l.map f).Nodup) (p : α → Bool) :
    ((l.filter p).map f).Nodup :=
  List.Sublist.nodup (List.filter_sublist.map f) h

theorem nodup_of_map {α β : Type} {f : α → β} {l : List α} (h : (l.map f).Nodup) : l.Nodup := by
  induction l with
  | nil => simp
  | cons a t ih =>
    rw [List.map_cons, List.nodup_cons] at h
    rw [List.nodup_cons]
    exact ⟨fun ha => h.1 (List.mem_map.2 ⟨a, ha, rfl⟩), ih h.2⟩

theorem mem_loose (hs : BlockShape g nodes) (hw : WellFormed g) (hac : Acyclic g) {n : Node T V} :
    n ∈ loose g nodes ↔ n ∈ nodes ∧ ∀ c ∈ nodes, c.kind = .collect → ¬ Owns g c.name n.name := by
  unfold loose
  rw [List.mem_filter]
  simp only [Bool.not_eq_true', List.contains_eq_mem, decide_eq_false_iff_not, List.mem_flatMap, not_exists, not_and]
  constructor
  · rintro ⟨h1, h2⟩
    exact ⟨h1, fun c hc hk h => h2 c (mem_collectors.2 ⟨hc, hk⟩) ((hs.mem_seen hw hac hc hk).2 h)⟩
  · rintro ⟨h1, h2⟩
    refine ⟨h1, fun c hc h => ?_⟩
    obtain ⟨hc1, hk⟩ := mem_collectors.1 hc
    exact h2 c hc1 hk ((hs.mem_seen hw hac hc1 hk).1 h)

theorem prefix_inj {p a b : String} (h : p ++ a = p ++ b) : a = b := by
  have : p.toList ++ a.toList = p.toList ++ b.toList := by rw [← String.toList_append, ← String.toList_append, h]
  exact String.toList_inj.1 (List.append_cancel_left this)

theorem dash_prefix {p a x : String} (hp : '-' ∈ p.toList) (hx : DashFree x) : p ++ a ≠ x := by
  rintro rfl
  apply hx
  rw [String.toList_append]
  simp [hp]

theorem head_ne {p q : String} {a b : String} {c d : Char} {p' q' : List Char} (hp : p.toList = c :: p')
    (hq : q.toList = d :: q') (hcd : c ≠ d) : p ++ a ≠ q ++ b := by
  intro h
  have : p.toList ++ a.toList = q.toList ++ b.toList := by rw [← String.toList_append, ← String.toList_append, h]
  rw [hp, hq, List.cons_append, List.cons_append, List.cons.injEq] at this
  exact hcd this.1

/-- The default strategy partitions the nodes. -/
theorem BlockShape.partition (hs : BlockShape g nodes) (hw : WellFormed g) (hac : Acyclic g)
    (hdash : ∀ n ∈ nodes, DashFree n.name) :
    Partition nodes ((collectors nodes).flatMap (trio g) ++
      (loose g nodes).map (fun n => { baseId := n.name, spawning := none, nodes := [n], purpose := .single })) := by
  obtain ⟨rank, hr⟩ := hac
  have hac : Acyclic g := ⟨rank, hr⟩
  have hcn : (collectors nodes).Nodup := filter_nodup (nodup_of_map hs.names_nodup) _
  have hsame : ∀ a ∈ nodes, ∀ b ∈ nodes, a.name = b.name → a = b := fun a ha b hb h =>
    nodup_map_inj hs.names_nodup ha hb h
  have heb : ∀ a b : String, "expand-" ++ a ≠ "block-" ++ b := fun a b =>
    head_ne (p := "expand-") (q := "block-") rfl rfl (by decide)
  have hec : ∀ a b : String, "expand-" ++ a ≠ "collect-" ++ b := fun a b =>
    head_ne (p := "expand-") (q := "collect-") rfl rfl (by decide)
  have hbc : ∀ a b : String, "block-" ++ a ≠ "collect-" ++ b := fun a b =>
    head_ne (p := "block-") (q := "collect-") rfl rfl (by decide)
  refine { ids_nodup := ?_, once := ?_, covers := ?_ }
  · rw [List.map_append, List.nodup_append]
    refine ⟨?_, ?_, ?_⟩
    · rw [List.map_flatMap]
      refine flatMap_nodup hcn ?_ ?_
      · intro c hc
        obtain ⟨h1, h2⟩ := mem_collectors.1 hc
        obtain ⟨e, bn, _, _, _, _, k5, _⟩ := hs.trio_mem hw hac h1 h2
        rw [k5]
        simp [heb, hec, hbc]
      · intro c hc c' hc' x hx hx'
        obtain ⟨h1, h2⟩ := mem_collectors.1 hc
        obtain ⟨h1', h2'⟩ := mem_collectors.1 hc'
        obtain ⟨e, bn, _, k2, _, _, k5, _⟩ := hs.trio_mem hw hac h1 h2
        obtain ⟨e', bn', _, k2', _, _, k5', _⟩ := hs.trio_mem hw hac h1' h2'
        rw [k5] at hx
        rw [k5'] at hx'
        have : e.name = e'.name := by
          simp only [List.map_cons, List.map_nil, List.mem_cons, List.not_mem_nil, or_false] at hx hx'
          rcases hx with rfl | rfl | rfl <;> rcases hx' with h | h | h
          · exact prefix_inj h
          · exact absurd h (heb _ _)
          · exact absurd h (hec _ _)
          · exact absurd h.symm (heb _ _)
          · exact prefix_inj h
          · exact absurd h (hbc _ _)
          · exact absurd h.symm (hec _ _)
          · exact absurd h.symm (hbc _ _)
          · exact prefix_inj h
        rw [← this] at k2'
        exact hsame c h1 c' h1' (hs.one_end c h1 h2 c' h1' h2' _ k2 k2')
    · rw [List.map_map]
      exact map_filter_nodup hs.names_nodup _
    · intro a ha b hb hab
      subst hab
      obtain ⟨gr, hg, rfl⟩ := List.mem_map.1 ha
      obtain ⟨c, hc, hg⟩ := List.mem_flatMap.1 hg
      obtain ⟨h1, h2⟩ := mem_collectors.1 hc
      obtain ⟨e, bn, _, k2, _, _, k5, _⟩ := hs.trio_mem hw hac h1 h2
      rw [k5] at hg
      obtain ⟨gr', hg', hb⟩ := List.mem_map.1 hb
      obtain ⟨n, hn, rfl⟩ := List.mem_map.1 hg'
      have hd := hdash n ((mem_loose hs hw hac).1 hn).1
      simp only [List.mem_cons, List.not_mem_nil, or_false] at hg
      rcases hg with rfl | rfl | rfl
      · exact dash_prefix (p := "expand-") (by decide) hd hb.symm
      · exact dash_prefix (p := "block-") (by decide) hd hb.symm
      · exact dash_prefix (p := "collect-") (by decide) hd hb.symm
  · rw [List.flatMap_append, List.nodup_append]
    have hnames : ∀ c ∈ collectors nodes, ∀ x, x ∈ (trio g c).flatMap (fun gr => gr.nodes.map (·.name)) ↔
        Owns g c.name x := by
      intro c hc x
      obtain ⟨h1, h2⟩ := mem_collectors.1 hc
      obtain ⟨e, bn, _, k2, _, _, k5, k6⟩ := hs.trio_mem hw hac h1 h2
      rw [← hs.mem_seen hw hac h1 h2, k5, k6]
      simp only [List.flatMap_cons, List.flatMap_nil, List.append_nil, List.map_cons, List.map_nil, List.mem_append,
        List.mem_singleton]
      constructor
      · rintro (h | h | h)
        · exact .inl (.inr h)
        · exact .inl (.inl h)
        · exact .inr h
      · rintro ((h | h) | h)
        · exact .inr (.inl h)
        · exact .inl h
        · exact .inr (.inr h)
    refine ⟨?_, ?_, ?_⟩
    · rw [List.flatMap_assoc]
      refine flatMap_nodup hcn ?_ ?_
      · intro c hc
        obtain ⟨h1, h2⟩ := mem_collectors.1 hc
        obtain ⟨e, bn, k1, k2, k3, k4, k5, k6⟩ := hs.trio_mem hw hac h1 h2
        rw [k5]
        simp only [List.flatMap_cons, List.flatMap_nil, List.append_nil, List.map_cons, List.map_nil]
        have hcr : ∀ x, InBlock g c.name x → x ≠ c.name := by
          rintro x hx rfl
          have := hx.rank hr
          omega
        rw [List.singleton_append, List.nodup_cons, List.nodup_append]
        refine ⟨?_, k4, by simp, ?_⟩
        · rw [List.mem_append]
          rintro (h | h)
          · obtain ⟨n, hn, he⟩ := List.mem_map.1 h
            have := ((k3 n).1 hn).2
            rw [he] at this
            exact this.1 k2.1
          · rw [List.mem_singleton] at h
            have := k2.rank hr
            rw [h] at this
            omega
        · intro a ha b hb
          rw [List.mem_singleton] at hb
          obtain ⟨n, hn, rfl⟩ := List.mem_map.1 ha
          rw [hb]
          exact hcr _ ((k3 n).1 hn).2
      · intro c hc c' hc' x hx hx'
        obtain ⟨h1, h2⟩ := mem_collectors.1 hc
        obtain ⟨h1', h2'⟩ := mem_collectors.1 hc'
        exact hsame c h1 c' h1' (hs.owner h1 h2 h1' h2' ((hnames c hc x).1 hx) ((hnames c' hc' x).1 hx'))
    · rw [List.flatMap_map]
      have : ∀ l : List (Node T V), l.flatMap (fun a => [a.name]) = l.map (·.name) := by
        intro l
        induction l with
        | nil => rfl
        | cons a l ih => simp [List.flatMap_cons, ih]
      have h2 : ((loose g nodes).map (·.name)).Nodup := map_filter_nodup hs.names_nodup _
      simpa [this] using h2
    · intro a ha b hb hab
      subst hab
      rw [List.flatMap_assoc] at ha
      obtain ⟨c, hc, ha⟩ := List.mem_flatMap.1 ha
      obtain ⟨h1, h2⟩ := mem_collectors.1 hc
      obtain ⟨gr, hg, hb⟩ := List.mem_flatMap.1 hb
      obtain ⟨n, hn, rfl⟩ := List.mem_map.1 hg
      simp only [List.map_cons, List.map_nil, List.mem_singleton] at hb
      subst hb
      exact ((mem_loose hs hw hac).1 hn).2 c h1 h2 ((hnames c hc _).1 ha)
  · intro n
    constructor
    · rintro ⟨gr, hg, hn⟩
      rcases List.mem_append.1 hg with hg | hg
      · obtain ⟨c, hc, hg⟩ := List.mem_flatMap.1 hg
        obtain ⟨h1, h2⟩ := mem_collectors.1 hc
        obtain ⟨e, bn, k1, k2, k3, k4, k5, k6⟩ := hs.trio_mem hw hac h1 h2
        rw [k5] at hg
        simp only [List.mem_cons, List.not_mem_nil, or_false] at hg
        rcases hg with rfl | rfl | rfl
        · rw [List.mem_singleton] at hn; subst hn; exact k1
        · exact ((k3 n).1 hn).1
        · rw [List.mem_singleton] at hn; subst hn; exact h1
      · obtain ⟨m, hm, rfl⟩ := List.mem_map.1 hg
        rw [List.mem_singleton] at hn
        subst hn
        exact ((mem_loose hs hw hac).1 hm).1
    · intro hn
      by_cases ho : ∃ c ∈ nodes, c.kind = .collect ∧ Owns g c.name n.name
      · obtain ⟨c, hc, hk, ho⟩ := ho
        obtain ⟨e, bn, k1, k2, k3, k4, k5, k6⟩ := hs.trio_mem hw hac hc hk
        have hcc := mem_collectors.2 ⟨hc, hk⟩
        rcases ho with h | h | h
        · have := hs.one_start c hc hk _ _ h k2
          have := hsame n hn e k1 this
          subst this
          exact ⟨_, List.mem_append.2 (.inl (List.mem_flatMap.2 ⟨c, hcc, by rw [k5]; exact .head _⟩)), by simp⟩
        · exact ⟨_, List.mem_append.2 (.inl (List.mem_flatMap.2 ⟨c, hcc, by rw [k5]; exact .tail _ (.head _)⟩)),
            (k3 n).2 ⟨hn, h⟩⟩
        · have := hsame n hn c hc h
          subst this
          exact ⟨_, List.mem_append.2 (.inl (List.mem_flatMap.2 ⟨n, hcc, by rw [k5]; exact .tail _ (.tail _ (.head _))⟩)),
            by simp⟩
      · exact ⟨_, List.mem_append.2 (.inr (List.mem_map.2 ⟨n, (mem_loose hs hw hac).2
          ⟨hn, fun c hc hk h => ho ⟨c, hc, hk, h⟩⟩, rfl⟩)), by simp⟩

end Verif
