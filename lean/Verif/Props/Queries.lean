import Verif.Proofs.Between
import Verif.Props.Execution

/-!
Property theorems C09, C10: lineage queries.  Specification: plain reachability (`Verif.Spec.Reach`).
-/
namespace Verif
variable {T V : Type}

/-- `Driver.what_is_the_path_between`, driver.py:1294-1318, with `_get_nodes_between`, driver.py:1320-1335. The result is a
set in Python; here the order of the downstream search is kept. -/
def pathBetween (fg : FnGraph T V) (up down : Name) : Except QueryErr (List Name) :=
  if !fg.nodes.has up then .error (.unknown [up])
  else if !fg.nodes.has down then .error (.unknown [down])
  else
    match getDownstreamNodes fg [up] with
    | .err e _ => .error e
    | .ok sd =>
      match getUpstreamNodes fg [down] none none with
      | .err e _ => .error e
      | .ok su => .ok (sd.nodes.filter (fun x => su.nodes.contains x))

/-- The unknown names among the queried ones. -/
def unknownNames (fg : FnGraph T V) (names : List Name) : List Name :=
  names.filter (fun k => decide (k ∉ fg.nodes.keys))

theorem unknown_filter {fg : FnGraph T V} (hg : DriverGraph fg) (names : List Name) :
    names.filter (fun v => !(fg.nodes.has v || fg.config.has v) && !(((none : Option (Dict Name V)).getD []).has v))
      = unknownNames fg names := by
  unfold unknownNames
  apply List.filter_congr
  intro x _
  have h0 : (((none : Option (Dict Name V)).getD []).has x) = false := rfl
  rw [h0]
  by_cases hx : x ∈ fg.nodes.keys
  · have := (Dict.has_iff _ _).2 hx
    simp [this, hx]
  · have h1 : fg.nodes.has x = false := by
      cases h : fg.nodes.has x with
      | false => rfl
      | true => exact absurd ((Dict.has_iff _ _).1 h) hx
    have h2 : fg.config.has x = false := by
      cases h : fg.config.has x with
      | false => rfl
      | true =>
        obtain ⟨n, hn, _⟩ := hg.config_in x ((Dict.has_iff _ _).1 h)
        exact absurd (Dict.mem_keys_iff.2 ⟨n, hn⟩) hx
    simp [h1, h2, hx]

/-- C09 (downstream). `what_is_downstream_of(names)` returns, without repetition, exactly the nodes from which some given
name is reachable along dependencies; if some names are unknown it fails and the error lists all of them. -/
theorem C09_downstream {fg : FnGraph T V} (hg : DriverGraph fg) (names : List Name) :
    (unknownNames fg names = [] → ∃ s, getDownstreamNodes fg names = .ok s ∧ s.nodes.Nodup ∧
      ∀ x, x ∈ s.nodes ↔ ∃ r ∈ names, Reaches (DependsOn fg.nodes) x r ∧ x ∈ fg.nodes.keys) ∧
    (unknownNames fg names ≠ [] → ∃ s, getDownstreamNodes fg names = .err (.unknown (unknownNames fg names)) s) := by
  obtain ⟨s, hs, hmem, _, hnd⟩ := directionalDfs_spec (fg := fg) (next := fun n => n.dependedOnBy)
    (downstream_closed hg.wf)
    (fun k hk => (hg.config_in k ((Dict.has_iff _ _).1 hk)).imp (fun _ h => h.1)) names none
  rw [unknown_filter hg] at hs
  refine ⟨fun h => ⟨s, ?_, hnd, fun x => ?_⟩, fun h => ⟨s, ?_⟩⟩
  · unfold getDownstreamNodes; rw [hs, if_pos h]
  · rw [hmem]
    constructor
    · rintro ⟨r, hr, ⟨rn, hrn⟩, hreach⟩
      have hin : x ∈ fg.nodes.keys := by
        refine hreach.closed (P := fun y => y ∈ fg.nodes.keys) ?_ (Dict.mem_keys_iff.2 ⟨rn, hrn⟩)
        intro a b _ e
        obtain ⟨⟨bn, hbn, _⟩, _⟩ := (nextOf_downstream hg.wf a b).1 e
        exact Dict.mem_keys_iff.2 ⟨bn, hbn⟩
      exact ⟨r, hr, (hreach.mono (fun a b e => ((nextOf_downstream hg.wf a b).1 e).1)).flip, hin⟩
    · rintro ⟨r, hr, hreach, hx⟩
      have hrk : r ∈ fg.nodes.keys := by
        by_cases h' : r ∈ fg.nodes.keys
        · exact h'
        · have : r ∈ unknownNames fg names := List.mem_filter.2 ⟨hr, by simpa using h'⟩
          rw [h] at this; cases this
      refine ⟨r, hr, Dict.mem_keys_iff.1 hrk, ?_⟩
      -- every node on the path is in the graph
      have : ∀ {a b : Name}, Reaches (DependsOn fg.nodes) a b → b ∈ fg.nodes.keys →
          Reaches (nextOf fg.nodes (fun n => n.dependedOnBy)) b a := by
        intro a b hab
        induction hab with
        | refl => intro _; exact .refl _
        | step _ e ih =>
          rename_i y z _
          intro hz
          obtain ⟨yn, hyn, hd⟩ := e
          exact Reaches.head ((nextOf_downstream hg.wf z y).2 ⟨⟨yn, hyn, hd⟩, Dict.mem_keys_iff.1 hz⟩)
            (ih (Dict.mem_keys_iff.2 ⟨yn, hyn⟩))
      exact this hreach hrk
  · unfold getDownstreamNodes; rw [hs, if_neg h]

example : (getDownstreamNodes Sample.fg ["base"]).state.nodes = ["base", "left", "top", "right"] ∧
    unknownNames Sample.fg ["base"] = [] ∧ unknownNames Sample.fg ["nope", "left", "no"] = ["nope", "no"] := by decide

/-- C09 (upstream). `what_is_upstream_of(names)` returns, without repetition, exactly the nodes reachable from a given name
along dependencies; if some names are unknown it fails and the error lists all of them. -/
theorem C09_upstream {fg : FnGraph T V} (hg : DriverGraph fg) (names : List Name) :
    (unknownNames fg names = [] → ∃ s, getUpstreamNodes fg names none none = .ok s ∧ s.nodes.Nodup ∧
      ∀ x, x ∈ s.nodes ↔ ∃ r ∈ names, Reaches (DependsOn fg.nodes) r x) ∧
    (unknownNames fg names ≠ [] →
      ∃ s, getUpstreamNodes fg names none none = .err (.unknown (unknownNames fg names)) s) := by
  obtain ⟨s, hs, hmem, _, hnd⟩ := directionalDfs_spec (fg := fg) (next := upstreamNext fg none none)
    (upstream_closed (config := fg.config) hg.wf none none)
    (fun k hk => (hg.config_in k ((Dict.has_iff _ _).1 hk)).imp (fun _ h => h.1)) names none
  rw [unknown_filter hg] at hs
  refine ⟨fun h => ⟨s, ?_, hnd, fun x => ?_⟩, fun h => ⟨s, ?_⟩⟩
  · unfold getUpstreamNodes; rw [hs, if_pos h]
  · rw [hmem]
    constructor
    · rintro ⟨r, hr, _, hreach⟩
      exact ⟨r, hr, hreach.mono (fun a b e => ((nextOf_upstream_none (config := fg.config) hg.wf none a b).1 e).2)⟩
    · rintro ⟨r, hr, hreach⟩
      have hrk : r ∈ fg.nodes.keys := by
        by_cases h' : r ∈ fg.nodes.keys
        · exact h'
        · have : r ∈ unknownNames fg names := List.mem_filter.2 ⟨hr, by simpa using h'⟩
          rw [h] at this; cases this
      exact ⟨r, hr, Dict.mem_keys_iff.1 hrk,
        hreach.mono (fun a b e => (nextOf_upstream_none (config := fg.config) hg.wf none a b).2 ⟨rfl, e⟩)⟩
  · unfold getUpstreamNodes; rw [hs, if_neg h]

example : (getUpstreamNodes Sample.fg ["left", "right"] none none).state.nodes = ["left", "base", "x", "right", "y"] := by
  decide

/-- C10 (path). `what_is_the_path_between(a, b)` returns exactly the nodes lying on a dependency path between `a` and `b`. -/
theorem C10_path_between {fg : FnGraph T V} (hg : DriverGraph fg) {up down : Name} (hu : up ∈ fg.nodes.keys)
    (hd : down ∈ fg.nodes.keys) :
    ∃ l, pathBetween fg up down = .ok l ∧ l.Nodup ∧
      ∀ x, x ∈ l ↔ Reaches (DependsOn fg.nodes) down x ∧ Reaches (DependsOn fg.nodes) x up := by
  have h1 : unknownNames fg [up] = [] := by simp [unknownNames, hu]
  have h2 : unknownNames fg [down] = [] := by simp [unknownNames, hd]
  obtain ⟨sd, hsd, hnd, hmd⟩ := (C09_downstream hg [up]).1 h1
  obtain ⟨su, hsu, _, hmu⟩ := (C09_upstream hg [down]).1 h2
  refine ⟨sd.nodes.filter (fun x => su.nodes.contains x), ?_, hnd.filter _, fun x => ?_⟩
  · unfold pathBetween
    rw [(Dict.has_iff _ _).2 hu, (Dict.has_iff _ _).2 hd, hsd, hsu]
    rfl
  · rw [List.mem_filter, List.contains_iff_mem, hmd, hmu]
    simp only [List.mem_singleton, exists_eq_left]
    constructor
    · rintro ⟨⟨h3, _⟩, h4⟩; exact ⟨h4, h3⟩
    · rintro ⟨h4, h3⟩
      refine ⟨⟨h3, ?_⟩, h4⟩
      refine h4.closed (P := fun y => y ∈ fg.nodes.keys) ?_ hd
      rintro a b _ ⟨an, han, hb⟩
      exact Dict.mem_keys_iff.2 (hg.wf.deps_in han hb)

/-- A name that is no node is rejected, the upstream end first. -/
theorem C10_path_unknown (fg : FnGraph T V) (up down : Name) :
    (up ∉ fg.nodes.keys → pathBetween fg up down = .error (.unknown [up])) ∧
    (up ∈ fg.nodes.keys → down ∉ fg.nodes.keys → pathBetween fg up down = .error (.unknown [down])) := by
  have hf : ∀ k, k ∉ fg.nodes.keys → fg.nodes.has k = false := by
    intro k hk
    cases h : fg.nodes.has k with
    | false => rfl
    | true => exact absurd ((Dict.has_iff _ _).1 h) hk
  constructor
  · intro h; unfold pathBetween; rw [hf up h]; rfl
  · intro h h'; unfold pathBetween; rw [(Dict.has_iff _ _).2 h, hf down h']; rfl

example : pathBetween Sample.fg "base" "top" = .ok ["base", "left", "top", "right"] ∧
    pathBetween Sample.fg "top" "base" = .ok [] ∧ pathBetween Sample.fg "base" "nope" = .error (.unknown ["nope"]) :=
  ⟨rfl, rfl, rfl⟩

/-- In an acyclic graph nothing reaches itself by a nonempty path. -/
theorem Acyclic.irrefl {g : Graph T V} (h : Acyclic g) {a b : Name} (hab : DependsOn g a b)
    (hba : Reaches (DependsOn g) b a) : False := by
  obtain ⟨rank, hr⟩ := h
  have hmono : ∀ {x y : Name}, Reaches (DependsOn g) x y → rank y ≤ rank x := by
    intro x y hxy
    induction hxy with
    | refl => exact Nat.le_refl _
    | step _ e ih => obtain ⟨n, hn, hd⟩ := e; have := hr _ _ hn _ hd; omega
  obtain ⟨n, hn, hd⟩ := hab
  have h1 := hr _ _ hn _ hd
  have h2 := hmono hba
  omega

/-- C10 (block search). Searching back from node `e` for the node named `st` finds it exactly if `e` depends on it
transitively, and then returns exactly the nodes strictly between the two. -/
theorem C10_nodes_between {g : Graph T V} (hw : WellFormed g) (hac : Acyclic g) {e st : Name} {en : Node T V}
    (he : g.get? e = some en) (hst : st ∈ g.keys) :
    ∃ s b, nodesBetween g en (fun n => n.name == st) = .ok (s, b) ∧
      (s.found = some st ↔ ∃ d, DependsOn g e d ∧ Reaches (DependsOn g) d st) ∧
      (s.found = none ∨ s.found = some st) ∧
      (∀ x, x ∈ s.out ↔ (∃ d, DependsOn g e d ∧ Reaches (DependsOn g) d x) ∧
        (∃ d, DependsOn g x d ∧ Reaches (DependsOn g) d st)) := by
  have hmatch : ∀ c, Matches g (fun n => n.name == st) c ↔ c = st := by
    intro c
    constructor
    · rintro ⟨n, hn, hc⟩
      have hc : (n.name == st) = true := hc
      rw [hw.name_eq hn] at hc
      simpa using hc
    · rintro rfl
      obtain ⟨n, hn⟩ := Dict.mem_keys_iff.1 hst
      exact ⟨n, hn, by simp [hw.name_eq hn]⟩
  have hmono : ∀ {a b}, Reaches (SearchEdge g (fun n => n.name == st)) a b → Reaches (DependsOn g) a b :=
    fun h => h.mono (fun _ _ e => e.2)
  have hfirst : ∀ {a c : Name}, Reaches (DependsOn g) a c → a = c ∨ ∃ d, DependsOn g a d ∧ Reaches (DependsOn g) d c := by
    intro a c h
    induction h with
    | refl => exact .inl rfl
    | step _ e ih =>
      rcases ih with rfl | ⟨d, h1, h2⟩
      · exact .inr ⟨_, e, .refl _⟩
      · exact .inr ⟨d, h1, .step h2 e⟩
  -- a path to a node that still reaches `st` does not pass through `st`
  have hlift : ∀ {a b : Name}, Reaches (DependsOn g) a b → Reaches (DependsOn g) b st →
      Reaches (SearchEdge g (fun n => n.name == st)) a b := by
    intro a b h
    induction h with
    | refl => intro _; exact .refl _
    | step _ e ih =>
      rename_i y z _
      intro hz
      have hy : y ≠ st := by
        rintro rfl
        exact hac.irrefl e hz
      exact .step (ih (Reaches.head e hz)) ⟨fun h => hy ((hmatch y).1 h), e⟩
  obtain ⟨s, b, h1, h2, h3, h4⟩ := nodesBetween_spec hw hac he (fun n => n.name == st)
  refine ⟨s, b, h1, ⟨fun h => ?_, fun h => ?_⟩, ?_, fun x => ?_⟩
  · obtain ⟨_, d, h5, h6⟩ := h3 st h
    exact ⟨d, h5, hmono h6⟩
  · obtain ⟨d, h5, h6⟩ := h
    cases hf : s.found with
    | none => exact absurd ⟨d, h5, hlift h6 (.refl _)⟩ (h4 hf st ((hmatch st).2 rfl))
    | some c => rw [(hmatch c).1 (h3 c hf).1]
  · cases hf : s.found with
    | none => exact .inl rfl
    | some c => right; rw [(hmatch c).1 (h3 c hf).1]
  · rw [h2]
    constructor
    · rintro ⟨h5, ⟨c, h6, h7⟩, d, h8, h9⟩
      refine ⟨⟨d, h8, hmono h9⟩, ?_⟩
      rw [(hmatch c).1 h7] at h6
      rcases hfirst h6 with rfl | h
      · exact absurd ((hmatch _).2 rfl) h5
      · exact h
    · rintro ⟨⟨d, h5, h6⟩, d', h7, h8⟩
      refine ⟨?_, ⟨st, Reaches.head h7 h8, (hmatch st).2 rfl⟩, d, h5, hlift h6 (Reaches.head h7 h8)⟩
      intro hx
      rw [(hmatch x).1 hx] at h7
      exact hac.irrefl h7 h8

example : (fgNodesBetween Sample.graph "base" "top").state = ["base", "left", "right", "top"] ∧
    (fgNodesBetween Sample.graph "y" "left").state = [] := by decide

end Verif
