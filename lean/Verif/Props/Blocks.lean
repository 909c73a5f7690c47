import Verif.Proofs.BlockPlan
import Verif.Props.TaskSample
import Verif.Proofs.Create

/-! C50 for graphs with `Parallelizable` blocks, under the default grouping strategy. -/
namespace Verif
section General
variable {T V : Type} {g : Graph T V} {nodes : List (Node T V)}

/-- **C50, default strategy.** If every collector has one expander and every expander one collector, every node is put in
exactly one task; the block of an expander is exactly what lies between it and its collector; the expander and
the collector are tasks of their own; everything else is a task of its own. -/
theorem C50_blocks (hw : WellFormed g) (hac : Acyclic g) (hs : BlockShape g nodes)
    (hdash : ∀ n ∈ nodes, DashFree n.name) :
    ∃ groups, groupByRepeatableBlocks g nodes = some groups ∧ Partition nodes groups ∧
      (∀ c ∈ nodes, c.kind = .collect → ∀ e ∈ nodes, Feeds g e.name c.name →
        (∃ gr ∈ groups, gr.nodes = [e] ∧ gr.purpose = .expand ∧ gr.baseId = "expand-" ++ e.name) ∧
        (∃ gr ∈ groups, (∀ n, n ∈ gr.nodes ↔ n ∈ nodes ∧ InBlock g c.name n.name) ∧ gr.purpose = .block ∧
          gr.spawning = some ("expand-" ++ e.name)) ∧
        (∃ gr ∈ groups, gr.nodes = [c] ∧ gr.purpose = .gather ∧ gr.spawning = some ("expand-" ++ e.name))) ∧
      (∀ n ∈ nodes, (∀ c ∈ nodes, c.kind = .collect → ¬ Feeds g n.name c.name ∧ ¬ InBlock g c.name n.name ∧
          n.name ≠ c.name) →
        ∃ gr ∈ groups, gr.nodes = [n] ∧ gr.purpose = .single ∧ gr.spawning = none) := by
  refine ⟨blockGroups g nodes, hs.groups hw hac, hs.partition hw hac hdash, ?_, ?_⟩
  · intro c hc hk e he hf
    obtain ⟨⟨g1, h1, a1, a2, a3⟩, ⟨g2, h2, _, b2, b3, b4⟩, ⟨g3, h3, _, c2, c3, c4⟩⟩ := hs.trio_in hw hac hc hk he hf
    exact ⟨⟨g1, h1, a3, a2, a1⟩, ⟨g2, h2, b4, b3, b2⟩, ⟨g3, h3, c4, c3, c2⟩⟩
  · intro n hn hno
    refine ⟨_, List.mem_append.2 (.inr (List.mem_map.2 ⟨n, (mem_loose hs hw hac).2 ⟨hn, ?_⟩, rfl⟩)), rfl, rfl, rfl⟩
    rintro c hc hk (h | h | h)
    · exact (hno c hc hk).1 h
    · exact (hno c hc hk).2.1 h
    · exact (hno c hc hk).2.2 h

/-- **C50/C18.** If moreover blocks are sealed and the nodes to execute are closed under required parameters, the plan exists
and is one for which the guarantees C16–C20 and C23–C24 hold: it runs to the end. -/
theorem C50_default_plan (hw : WellFormed g) (hac : Acyclic g) {overrides : Dict Name V}
    (hs : SealedBlocks g nodes overrides) (hdash : ∀ n ∈ nodes, DashFree n.name)
    (hcolon : ∀ k n, g.get? k = some n → ColonFree k) (hne : nodes ≠ []) (requested : List Name)
    (hclosed : ∀ n ∈ nodes, overrides.get? n.name = none → ∀ d ∈ n.inputTypes.keys, n.requires d = true →
      ∃ m ∈ nodes, m.name = d) :
    ∃ groups specs, groupByRepeatableBlocks g nodes = some groups ∧
      createTaskPlan groups requested overrides = some specs ∧ PlanLive specs ∧ KeysOk specs := by
  have hp : Partition nodes (blockGroups g nodes) := hs.toBlockShape.partition hw hac hdash
  obtain ⟨specs, hplan⟩ := createTaskPlan_some (groups := blockGroups g nodes) (requested := requested)
    (overrides := overrides) (by
      intro gr hg n hn hno d hd hdo hdg hdall
      have hnn := (hp.covers n).1 ⟨gr, hg, hn⟩
      cases hreq : n.requires d with
      | false => rfl
      | true =>
        obtain ⟨m, hm, hmd⟩ := hclosed n hnn hno d (by rw [← hw.deps_eq (hs.in_graph n hnn)]; exact hd) hreq
        obtain ⟨gr', hg', hm'⟩ := (hp.covers m).2 hm
        exact absurd hmd (hdall gr' hg' m hm'))
  exact ⟨_, specs, hs.toBlockShape.groups hw hac, hplan, hs.live hw hac hdash hne hplan,
    hs.keys hw hac hdash hcolon hplan⟩

theorem get?_map_val {α β : Type} [DecidableEq α] (d : Dict α β) (f : β → β) (k : α) :
    (Dict.get? (d.map (fun p => (p.1, f p.2))) k) = (d.get? k).map f := by
  induction d with
  | nil => rfl
  | cons p t ih =>
    rw [List.map_cons, Dict.get?_cons, Dict.get?_cons]
    split
    · rfl
    · exact ih

/-- Turning generators into lists changes no edge. -/
theorem listify_wf {ops : TaskOps T V} (hw : WellFormed g) : WellFormed (listifyGraph ops g) := by
  have hget : ∀ k, (listifyGraph ops g).get? k = (g.get? k).map (listifyNode ops) := fun k =>
    get?_map_val g (listifyNode ops) k
  have hsame : ∀ n : Node T V, (listifyNode ops n).name = n.name ∧ (listifyNode ops n).inputTypes = n.inputTypes ∧
      (listifyNode ops n).dependencies = n.dependencies ∧ (listifyNode ops n).dependedOnBy = n.dependedOnBy ∧
      (listifyNode ops n).kind = n.kind := by
    intro n
    unfold listifyNode
    split <;> exact ⟨rfl, rfl, rfl, rfl, rfl⟩
  have hinv : ∀ {k n}, (listifyGraph ops g).get? k = some n → ∃ m, g.get? k = some m ∧ n = listifyNode ops m := by
    intro k n h
    rw [hget, Option.map_eq_some_iff] at h
    obtain ⟨m, h1, h2⟩ := h
    exact ⟨m, h1, h2.symm⟩
  refine ⟨?_, ?_, ?_, ?_, ?_, ?_, ?_⟩
  · have : (listifyGraph ops g).keys = g.keys := by
      unfold listifyGraph Dict.keys
      rw [List.map_map]
      rfl
    rw [this]; exact hw.keys_nodup
  · intro k n h
    obtain ⟨m, h1, rfl⟩ := hinv h
    rw [(hsame m).1]; exact hw.name_eq h1
  · intro k n h
    obtain ⟨m, h1, rfl⟩ := hinv h
    rw [(hsame m).2.2.1, (hsame m).2.1]; exact hw.deps_eq h1
  · intro k n h
    obtain ⟨m, h1, rfl⟩ := hinv h
    rw [(hsame m).2.1]; exact hw.params_nodup h1
  · intro k n d h hd
    obtain ⟨m, h1, rfl⟩ := hinv h
    rw [(hsame m).2.1] at hd
    obtain ⟨dn, hdn⟩ := hw.deps_in h1 hd
    exact ⟨_, by rw [hget, hdn]; rfl⟩
  · intro d dn h x
    obtain ⟨m, h1, rfl⟩ := hinv h
    rw [(hsame m).2.2.2.1, hw.consumers h1 x]
    constructor
    · rintro ⟨mn, h2, h3⟩
      exact ⟨listifyNode ops mn, by rw [hget, h2]; rfl, by rw [(hsame mn).2.1]; exact h3⟩
    · rintro ⟨mn, h2, h3⟩
      obtain ⟨mm, h4, rfl⟩ := hinv h2
      exact ⟨mm, h4, by rw [(hsame mm).2.1] at h3; exact h3⟩
  · intro k n h hk
    obtain ⟨m, h1, rfl⟩ := hinv h
    rw [(hsame m).2.2.2.2] at hk
    rw [(hsame m).2.1]; exact hw.external_no_params h1 hk

/-! ### The sample satisfies the hypotheses -/

/-- Parameters of a node. -/
def depsOf (g : Graph T V) (k : Name) : List Name := (g.get? k).elim [] (·.inputTypes.keys)

theorem dependsOn_iff {k d : Name} : DependsOn g k d ↔ d ∈ depsOf g k := by
  unfold DependsOn depsOf
  cases h : g.get? k with
  | none => simp
  | some n => simp

/-- Is the node an expander? -/
def isExpander (g : Graph T V) (k : Name) : Bool := (g.get? k).any (fun n => n.kind == .expand)

theorem expander_iff {k : Name} : Expander g k ↔ isExpander g k = true := by
  unfold Expander isExpander
  cases h : g.get? k with
  | none => simp
  | some n => simp

theorem inside_closed {S : List Name} (h : ∀ k ∈ S, isExpander g k = true ∨ ∀ d ∈ depsOf g k, d ∈ S) {x y : Name}
    (hx : x ∈ S) (hr : Reaches (InsideEdge g) x y) : y ∈ S := by
  induction hr with
  | refl => exact hx
  | step _ e ih =>
    rcases h _ ih with h1 | h1
    · exact absurd (expander_iff.2 h1) e.1
    · exact h1 _ (dependsOn_iff.1 e.2)

theorem inside_step {x y : Name} (h1 : isExpander g x = false) (h2 : y ∈ depsOf g x) : InsideEdge g x y :=
  ⟨fun h => Bool.noConfusion (h1.symm.trans (expander_iff.1 h)), dependsOn_iff.2 h2⟩

end General

namespace TaskSample

/-- The nodes needed for `d`. -/
def nodes : List (Node Bool Va) := ["d", "c", "b", "a", "e", "n", "x"].filterMap g.get?

theorem feeds_iff {x : Name} : Feeds g x "c" ↔ x = "e" := by
  constructor
  · rintro ⟨he, d, hd, hr⟩
    rw [dependsOn_iff] at hd
    have hd' : d ∈ ["b", "a", "e", "n", "x"] := by
      have : ∀ d ∈ depsOf g "c", d ∈ ["b", "a", "e", "n", "x"] := by decide
      exact this d hd
    have hx := inside_closed (g := g) (S := ["b", "a", "e", "n", "x"]) (by decide) hd' hr
    have : ∀ x ∈ ["b", "a", "e", "n", "x"], isExpander g x = true → x = "e" := by decide
    exact this x hx (expander_iff.1 he)
  · rintro rfl
    refine ⟨expander_iff.2 (by decide), "b", dependsOn_iff.2 (by decide), ?_⟩
    exact .step (.step (.refl _) (inside_step (y := "a") (by decide) (by decide))) (inside_step (by decide) (by decide))

theorem inBlock_iff {x : Name} : InBlock g "c" x ↔ x = "a" ∨ x = "b" := by
  constructor
  · rintro ⟨h1, ⟨d, hd, hr⟩, e, he, hre⟩
    rw [dependsOn_iff] at hd
    have hd' : d ∈ ["b", "a", "e", "n", "x"] := by
      have : ∀ d ∈ depsOf g "c", d ∈ ["b", "a", "e", "n", "x"] := by decide
      exact this d hd
    have hx := inside_closed (g := g) (S := ["b", "a", "e", "n", "x"]) (by decide) hd' hr
    simp only [List.mem_cons, List.not_mem_nil, or_false] at hx
    have hno : ∀ y ∈ ["n", "x"], isExpander g y = false := by decide
    rcases hx with rfl | rfl | rfl | rfl | rfl
    · exact .inr rfl
    · exact .inl rfl
    · exact absurd (expander_iff.2 (by decide)) h1
    · have := inside_closed (g := g) (S := ["n", "x"]) (by decide) (by decide) hre
      rw [expander_iff, hno e this] at he; cases he
    · have := inside_closed (g := g) (S := ["n", "x"]) (by decide) (by decide) hre
      rw [expander_iff, hno e this] at he; cases he
  · have hne : ∀ y ∈ ["a", "b"], isExpander g y = false := by decide
    have hcb : DependsOn g "c" "b" := dependsOn_iff.2 (by decide)
    have hba : InsideEdge g "b" "a" := inside_step (by decide) (by decide)
    have hae : InsideEdge g "a" "e" := inside_step (by decide) (by decide)
    have hexp : Expander g "e" := expander_iff.2 (by decide)
    rintro (rfl | rfl)
    · exact ⟨fun h => Bool.noConfusion ((hne _ (by simp)).symm.trans (expander_iff.1 h)), ⟨"b", hcb, .step (.refl _) hba⟩, "e", hexp,
        .step (.refl _) hae⟩
    · exact ⟨fun h => Bool.noConfusion ((hne _ (by simp)).symm.trans (expander_iff.1 h)), ⟨"b", hcb, .refl _⟩, "e", hexp,
        .step (.step (.refl _) hba) hae⟩

theorem only_collector : ∀ c ∈ nodes, c.kind = .collect → c.name = "c" := by decide

theorem nodes_in_graph : ∀ n ∈ nodes, g.get? n.name = some n := by
  have h : ∀ k ∈ ["d", "c", "b", "a", "e", "n", "x"], ∀ n ∈ g.get? k, n.name = k := by decide
  intro n hn
  obtain ⟨k, hk, hkn⟩ := List.mem_filterMap.1 hn
  rw [h k hk n (by rw [hkn]; rfl)]
  exact hkn

theorem sealed : SealedBlocks g nodes ([] : Dict Name Va) where
  in_graph := nodes_in_graph
  names_nodup := by decide
  start := by
    intro c hc hk
    rw [only_collector c hc hk]
    exact ⟨"e", feeds_iff.2 rfl⟩
  one_start := by
    intro c hc hk e e' h h'
    rw [only_collector c hc hk] at h h'
    rw [feeds_iff.1 h, feeds_iff.1 h']
  one_end := by
    intro c hc hk c' hc' hk' _ _ _
    rw [only_collector c hc hk, only_collector c' hc' hk']
  whole := by
    intro c hc hk x hx
    rw [only_collector c hc hk, feeds_iff, inBlock_iff] at hx
    have : ∀ x ∈ ["e", "a", "b"], ∃ n ∈ nodes, n.name = x := by decide
    apply this
    rcases hx with rfl | rfl | rfl <;> simp
  inside_use := by
    intro c hc hk x hx m hm hd
    rw [only_collector c hc hk, inBlock_iff] at *
    have : ∀ m ∈ nodes, "a" ∈ depsOf g m.name ∨ "b" ∈ depsOf g m.name →
        (m.name = "a" ∨ m.name = "b") ∨ m.name = "c" := by decide
    apply this m hm
    rw [dependsOn_iff] at hd
    rcases hx with rfl | rfl
    · exact .inl hd
    · exact .inr hd
  start_use := by
    intro c hc hk e he m hm hd
    rw [only_collector c hc hk] at *
    rw [feeds_iff] at he
    subst he
    rw [inBlock_iff]
    have : ∀ m ∈ nodes, "e" ∈ depsOf g m.name → m.name = "a" ∨ m.name = "b" := by decide
    exact this m hm (dependsOn_iff.1 hd)
  untouched := fun _ _ _ _ _ => rfl

theorem fns_fresh : ∀ n ∈ fns, Fresh n := by
  intro n hn
  simp only [fns, List.mem_cons, List.not_mem_nil, or_false] at hn
  rcases hn with rfl | rfl | rfl | rfl | rfl | rfl <;> exact ⟨by decide, rfl, rfl, by decide⟩

theorem graph_ok : createFunctionGraph (fun _ _ => true) false [] false fns = .ok graph := by
  have h : (createFunctionGraph (fun _ _ => true) false [] false fns).isOk = true := by decide
  unfold graph
  revert h
  generalize createFunctionGraph (fun _ _ => true) false [] false fns = r
  intro h
  cases r with
  | ok g => rfl
  | error e => simp [Except.isOk, Except.toBool] at h

theorem g_wf : WellFormed g := listify_wf (createFunctionGraph_spec fns_fresh graph_ok).1

/-- Heights of the nodes. -/
def nodeRank (k : Name) : Nat :=
  if k = "d" then 6 else if k = "c" then 5 else if k = "b" then 4 else if k = "a" then 3 else if k = "e" then 2
  else if k = "n" then 1 else 0

theorem g_acyclic : Acyclic g := by
  refine ⟨nodeRank, ?_⟩
  have h : g.all (fun p => p.2.inputTypes.keys.all (fun d => decide (nodeRank d < nodeRank p.1))) = true := by decide
  intro k n hk d hd
  rw [List.all_eq_true] at h
  have h1 := h _ (Dict.get?_mem hk)
  rw [List.all_eq_true] at h1
  simpa using h1 d hd

theorem nodes_dash : ∀ n ∈ nodes, DashFree n.name := by unfold DashFree; decide

example : ∃ groups, groupByRepeatableBlocks g nodes = some groups ∧ Partition nodes groups := by
  obtain ⟨groups, h1, h2, _⟩ := C50_blocks g_wf g_acyclic sealed.toBlockShape nodes_dash
  exact ⟨groups, h1, h2⟩

example : ∃ groups specs, groupByRepeatableBlocks g nodes = some groups ∧
    createTaskPlan groups ["d"] ([] : Dict Name Va) = some specs ∧ PlanLive specs ∧ KeysOk specs := by
  refine C50_default_plan g_wf g_acyclic sealed nodes_dash ?_ ?_ ["d"] ?_
  · intro k n hk
    have h : ∀ k ∈ g.keys, ColonFree k := by unfold ColonFree; decide
    exact h k (Dict.mem_keys_iff.2 ⟨n, hk⟩)
  · intro h
    have : nodes.map (·.name) = ["d", "c", "b", "a", "e", "n", "x"] := by decide
    rw [h] at this; cases this
  · have h : ∀ n ∈ nodes, ∀ d ∈ n.inputTypes.keys, ∃ m ∈ nodes, m.name = d := by decide
    intro n hn _ d hd _
    exact h n hn d hd

end TaskSample
end Verif
