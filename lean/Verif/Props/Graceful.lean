import Verif.Spec.Graceful
import Verif.Proofs.Stateless
import Verif.Props.Sample

/-!
C36: graceful error handling isolates failures.
-/
namespace Verif
variable {T V : Type}

/-- The graph with the functions the adapter makes of them. -/
abbrev Graceful.graph (c : Graceful V) (g : Graph T V) : Graph T V := Graph.withFn c.execute g

theorem any_args {params : Dict Name (T × DepType)} {val : Name → Option V} {p : V → Bool} :
    (argsFor params val).any (fun x => p x.2) = true ↔ ∃ d w, d ∈ params.keys ∧ val d = some w ∧ p w = true := by
  rw [List.any_eq_true]
  constructor
  · rintro ⟨⟨d, w⟩, hm, hp⟩
    obtain ⟨⟨a, t⟩, ha, he⟩ := List.mem_filterMap.mp hm
    cases hv : val a with
    | none => simp only [hv] at he; cases he
    | some x =>
      simp only [hv] at he
      cases he
      exact ⟨d, w, List.mem_map.mpr ⟨_, ha, rfl⟩, hv, hp⟩
  · rintro ⟨d, w, hd, hv, hp⟩
    obtain ⟨⟨a, t⟩, ha, rfl⟩ := List.mem_map.mp hd
    exact ⟨(a, w), List.mem_filterMap.mpr ⟨_, ha, by simp only [hv]; rfl⟩, hp⟩

theorem absent_withFn {R : Node T V → Dict Name V → Except UserErr V} {g : Graph T V} {i o : Dict Name V} {k : Name} :
    Absent (Graph.withFn R g) i o k ↔ Absent g i o k := by
  constructor
  · rintro ⟨n, h, h1⟩
    obtain ⟨m, hm, rfl⟩ := withFn_some R g h
    exact ⟨m, hm, h1⟩
  · rintro ⟨n, h, h1⟩
    exact ⟨n.withFn R, by rw [withFn_get?, h]; rfl, h1⟩

/-- Outcomes of a function under the adapter. -/
theorem execute_ok (c : Graceful V) (n : Node T V) (params : Dict Name (T × DepType)) (val : Name → Option V) (v : V) :
    c.execute n (argsFor params val) = .ok v ↔
      (¬ c.Allowed n.name ∧ (∃ d w, d ∈ params.keys ∧ val d = some w ∧ c.same w = true) ∧ v = c.sentinel) ∨
      ((c.Allowed n.name ∨ ∀ d w, d ∈ params.keys → val d = some w → c.same w = false) ∧
        (n.fn (argsFor params val) = .ok v ∨ ∃ e, n.fn (argsFor params val) = .error e ∧ c.catches e = true ∧ v = c.sentinel)) := by
  unfold Graceful.execute
  dsimp only
  have hall : (c.accepts n.name && c.allowInjection) = true ↔ c.Allowed n.name := by
    rw [Bool.and_eq_true]; exact Iff.rfl
  have hcond : ((!(c.accepts n.name && c.allowInjection) && (argsFor params val).any (fun x => c.same x.2)) = true) ↔
      ¬ c.Allowed n.name ∧ ∃ d w, d ∈ params.keys ∧ val d = some w ∧ c.same w = true := by
    rw [Bool.and_eq_true, any_args, Bool.not_eq_true', ← hall]
    simp
  have hneg : ¬ (¬ c.Allowed n.name ∧ ∃ d w, d ∈ params.keys ∧ val d = some w ∧ c.same w = true) ↔
      (c.Allowed n.name ∨ ∀ d w, d ∈ params.keys → val d = some w → c.same w = false) := by
    constructor
    · intro h
      by_cases ha : c.Allowed n.name
      · exact Or.inl ha
      · right
        intro d w hd hv
        cases hs : c.same w with
        | false => rfl
        | true => exact absurd ⟨ha, d, w, hd, hv, hs⟩ h
    · rintro (h | h) ⟨h1, d, w, hd, hv, hs⟩
      · exact h1 h
      · rw [h d w hd hv] at hs; cases hs
  by_cases hc : ¬ c.Allowed n.name ∧ ∃ d w, d ∈ params.keys ∧ val d = some w ∧ c.same w = true
  · rw [if_pos (hcond.mpr hc)]
    constructor
    · intro h; cases h; exact Or.inl ⟨hc.1, hc.2, rfl⟩
    · rintro (⟨_, _, rfl⟩ | ⟨h, _⟩)
      · rfl
      · exact absurd hc (hneg.mpr h)
  · rw [if_neg (fun h => hc (hcond.mp h))]
    have hn := hneg.mp hc
    cases hf : n.fn (argsFor params val) with
    | ok x =>
      constructor
      · intro h; cases h; exact Or.inr ⟨hn, Or.inl rfl⟩
      · rintro (⟨h1, h2, _⟩ | ⟨_, h | ⟨e, h, _⟩⟩)
        · exact absurd ⟨h1, h2⟩ hc
        · cases h; rfl
        · cases h
    | error e =>
      dsimp only
      by_cases he : c.catches e = true
      · rw [if_pos he]
        constructor
        · intro h; cases h; exact Or.inr ⟨hn, Or.inr ⟨e, rfl, he, rfl⟩⟩
        · rintro (⟨h1, h2, _⟩ | ⟨_, h | ⟨e', h, _, rfl⟩⟩)
          · exact absurd ⟨h1, h2⟩ hc
          · cases h
          · rfl
      · rw [if_neg he]
        constructor
        · intro h; cases h
        · rintro (⟨h1, h2, _⟩ | ⟨_, h | ⟨e', h, he', _⟩⟩)
          · exact absurd ⟨h1, h2⟩ hc
          · cases h
          · cases h; exact absurd he' he

/-- The specification is the functional composition of the guarded functions. -/
theorem gden_iff {c : Graceful V} {g : Graph T V} (hw : WellFormed g) {i o : Dict Name V} {k : Name} {v : V} :
    GDen c g i o k v ↔ Den (c.graph g) i o k v := by
  have hget : ∀ {k n}, g.get? k = some n → (c.graph g).get? k = some (n.withFn c.execute) := by
    intro k n h; rw [withFn_get?, h]; rfl
  constructor
  · intro h
    induction h with
    | override h1 h2 => exact .override (hget h1) h2
    | input h1 h2 h3 h4 => exact .input (hget h1) h2 h3 h4
    | skipped val h1 h2 h3 h4 h5 h6 h7 h8 h9 ih =>
      have hname := hw.name_eq h1
      refine .call val (hget h1) h2 h3 ih (fun d t hd hv => ?_) ?_
      · exact ⟨(h5 d t hd hv).1, absent_withFn.mpr (h5 d t hd hv).2⟩
      · exact (execute_ok c _ _ val _).mpr (Or.inl ⟨by rw [hname]; exact h6, ⟨_, _, h7, h8, h9⟩, rfl⟩)
    | value val h1 h2 h3 h4 h5 h6 h7 ih =>
      have hname := hw.name_eq h1
      refine .call val (hget h1) h2 h3 ih (fun d t hd hv => ?_) ?_
      · exact ⟨(h5 d t hd hv).1, absent_withFn.mpr (h5 d t hd hv).2⟩
      · exact (execute_ok c _ _ val _).mpr (Or.inr ⟨by rw [hname]; exact h6, Or.inl h7⟩)
    | caught val h1 h2 h3 h4 h5 h6 h7 h8 ih =>
      have hname := hw.name_eq h1
      refine .call val (hget h1) h2 h3 ih (fun d t hd hv => ?_) ?_
      · exact ⟨(h5 d t hd hv).1, absent_withFn.mpr (h5 d t hd hv).2⟩
      · exact (execute_ok c _ _ val _).mpr (Or.inr ⟨by rw [hname]; exact h6, Or.inr ⟨_, h7, h8, rfl⟩⟩)
  · intro h
    induction h with
    | override h1 h2 =>
      obtain ⟨m, hm, rfl⟩ := withFn_some _ _ h1
      exact .override hm h2
    | input h1 h2 h3 h4 =>
      obtain ⟨m, hm, rfl⟩ := withFn_some _ _ h1
      exact .input hm h2 h3 h4
    | @call k n v val h1 h2 h3 h4 h5 h6 ih =>
      obtain ⟨m, hm, rfl⟩ := withFn_some _ _ h1
      have hname := hw.name_eq hm
      have h5' : ∀ d t, (d, t) ∈ m.inputTypes → val d = none → t.2 = .optional ∧ Absent g i o d :=
        fun d t hd hv => ⟨(h5 d t hd hv).1, absent_withFn.mp (h5 d t hd hv).2⟩
      rcases (execute_ok c m _ val v).mp h6 with ⟨ha, ⟨d, w, hd, hv, hs⟩, rfl⟩ | ⟨ha, hf | ⟨e, hf, he, rfl⟩⟩
      · exact .skipped val hm h2 h3 ih h5' (by rw [← hname]; exact ha) hd hv hs
      · exact .value val hm h2 h3 ih h5' (by rw [← hname]; exact ha) hf
      · exact .caught val hm h2 h3 ih h5' (by rw [← hname]; exact ha) hf he

/-- **C36**, soundness: after a successful run with the adapter every requested node has the value that the specification
gives, and that value is unique: the function's value if it ran without raising, the sentinel if it raised the caught
error or was skipped because of a sentinel among its arguments. -/
theorem C36_values {g : Graph T V} (hw : WellFormed g) (c : Graceful V) {nodes : List (Node T V)}
    (hnodes : ∀ n ∈ nodes, g.get? n.name = some n) (inputs overrides : Dict Name V) {σ : Type} {t t' : σ} {s : ExecState V}
    (h : executeWith g nodes inputs overrides c.runner t = .ok (s, t')) :
    ∀ n ∈ nodes, (∃ v, s.computed.get? n.name = some v ∧ GDen c g inputs overrides n.name v ∧
        ∀ v', GDen c g inputs overrides n.name v' → v' = v) ∨
      (n.kind = .external ∧ Absent g inputs overrides n.name) := by
  have he := executeWith_stateless c.execute g nodes inputs overrides t
  change executeWith g nodes inputs overrides c.runner t = _ at he
  rw [h] at he
  have hsp := executeSubdag_spec (withFn_wf c.execute hw) (nodes.map (Node.withFn c.execute)) (by
    intro n hn
    obtain ⟨m, hm, rfl⟩ := List.mem_map.mp hn
    change (c.graph g).get? m.name = _
    rw [withFn_get?, hnodes m hm]; rfl) inputs overrides
  revert he hsp
  generalize executeSubdag (Graph.withFn c.execute g) (nodes.map (Node.withFn c.execute)) inputs overrides = o
  intro he hsp
  cases o with
  | err e s' => cases he
  | ok s' =>
    cases he
    intro n hn
    rcases hsp.2 (n.withFn c.execute) (List.mem_map.mpr ⟨n, hn, rfl⟩) with ⟨v, hv⟩ | ⟨h1, h2⟩
    · left
      have hd := hsp.1.den _ _ hv
      exact ⟨v, hv, (gden_iff hw).mpr hd, fun v' hv' => ((gden_iff hw).mp hv').det hd⟩
    · exact Or.inr ⟨h1, absent_withFn.mp h2⟩

/-- The caught error never ends a run. -/
theorem C36_no_caught_error {g : Graph T V} (hw : WellFormed g) (c : Graceful V) {nodes : List (Node T V)}
    (hnodes : ∀ n ∈ nodes, g.get? n.name = some n) (inputs overrides : Dict Name V) {σ : Type} {t : σ} {s : ExecState V × σ}
    {k : Name} {e : UserErr} (h : executeWith g nodes inputs overrides c.runner t = .err (.raised k e) s) :
    c.catches e = false := by
  have he := executeWith_stateless c.execute g nodes inputs overrides t
  change executeWith g nodes inputs overrides c.runner t = _ at he
  rw [h] at he
  have hsp := executeSubdag_spec (withFn_wf c.execute hw) (nodes.map (Node.withFn c.execute)) (by
    intro n hn
    obtain ⟨m, hm, rfl⟩ := List.mem_map.mp hn
    change (c.graph g).get? m.name = _
    rw [withFn_get?, hnodes m hm]; rfl) inputs overrides
  revert he hsp
  generalize executeSubdag (Graph.withFn c.execute g) (nodes.map (Node.withFn c.execute)) inputs overrides = o
  intro he hsp
  cases o with
  | ok s' => cases he
  | err e' s' =>
    cases he
    obtain ⟨_, ⟨_, _, n, kw, hn, _, _, hf⟩, _⟩ := hsp
    obtain ⟨m, hm, rfl⟩ := withFn_some _ _ hn
    change c.execute m kw = .error e at hf
    unfold Graceful.execute at hf
    dsimp only at hf
    split at hf
    · cases hf
    · split at hf
      · cases hf
      · split at hf
        · cases hf
        · rename_i hc
          cases hf
          simpa using hc

theorem needed_below {g : Graph T V} {o : Dict Name V} {k d m : Name} (hd : Needed g o [k] d) (h : Needed g o [d] m) :
    Needed g o [k] m := by
  induction h with
  | req h => rw [List.mem_singleton] at h; rw [h]; exact hd
  | param _ h1 h2 h3 ih => exact .param ih h1 h2 h3

/-- **C36**, isolation (1): a node that has a value in a normal run, and upstream of which no argument is the sentinel, has
the same value with the adapter. -/
theorem C36_isolated {g : Graph T V} (c : Graceful V) {inputs overrides : Dict Name V} {k : Name} {v : V}
    (h : Den g inputs overrides k v)
    (hclean : ∀ m mn d w, Needed g overrides [k] m → overrides.get? m = none → g.get? m = some mn → d ∈ mn.inputTypes.keys →
      Den g inputs overrides d w → c.same w = false) :
    GDen c g inputs overrides k v := by
  induction h with
  | override h1 h2 => exact .override h1 h2
  | input h1 h2 h3 h4 => exact .input h1 h2 h3 h4
  | @call k n v val h1 h2 h3 h4 h5 h6 ih =>
    have hk : Needed g overrides [k] k := .req (by simp)
    refine .value val h1 h2 h3 (fun d w hd hv => ?_) h5 (Or.inr fun d w hd hv => ?_) h6
    · exact ih d w hd hv fun m mn d' w' a1 a2 a3 a4 a5 =>
        hclean m mn d' w' (needed_below (.param hk h2 h1 hd) a1) a2 a3 a4 a5
    · exact hclean k n d w hk h2 h1 hd (h4 d w hd hv)

/-- **C36**, isolation (2): a value computed with the adapter is the one of a normal run if neither it nor any value upstream
of it is the sentinel. -/
theorem C36_untouched {g : Graph T V} (c : Graceful V) (hs : c.same c.sentinel = true) {inputs overrides : Dict Name V}
    {k : Name} {v : V} (h : GDen c g inputs overrides k v)
    (hclean : ∀ m w, Needed g overrides [k] m → GDen c g inputs overrides m w → c.same w = false) :
    Den g inputs overrides k v := by
  induction h with
  | override h1 h2 => exact .override h1 h2
  | input h1 h2 h3 h4 => exact .input h1 h2 h3 h4
  | @skipped k n d w val h1 h2 h3 h4 h5 h6 h7 h8 h9 ih =>
    have := hclean k _ (.req (by simp)) (.skipped val h1 h2 h3 h4 h5 h6 h7 h8 h9)
    rw [hs] at this; cases this
  | @caught k n e val h1 h2 h3 h4 h5 h6 h7 h8 ih =>
    have := hclean k _ (.req (by simp)) (.caught val h1 h2 h3 h4 h5 h6 h7 h8)
    rw [hs] at this; cases this
  | @value k n v val h1 h2 h3 h4 h5 h6 h7 ih =>
    have hk : Needed g overrides [k] k := .req (by simp)
    refine .call val h1 h2 h3 (fun d w hd hv => ?_) h5 h7
    exact ih d w hd hv fun m w' a1 a2 => hclean m w' (needed_below (.param hk h2 h1 hd) a1) a2

/-- **C36**, completeness: if functions raise nothing but the caught error and every required input is given, a run with the
adapter succeeds, whatever fails (unless the request runs into a circular dependency). -/
theorem C36_total {g : Graph T V} (hw : WellFormed g) (c : Graceful V) {nodes : List (Node T V)}
    (hnodes : ∀ n ∈ nodes, g.get? n.name = some n) (inputs overrides : Dict Name V) {σ : Type} (t : σ)
    (hcyc : ¬ NeededCycle g overrides (nodes.map (·.name)))
    (hraise : ∀ k n kw e, g.get? k = some n → n.fn kw = .error e → c.catches e = true)
    (hin : ∀ m, Needed g overrides (nodes.map (·.name)) m → Absent g inputs overrides m →
      ∀ p pn t, Needed g overrides (nodes.map (·.name)) p → g.get? p = some pn → (m, t, DepType.required) ∈ pn.inputTypes → False) :
    ∃ s, executeWith g nodes inputs overrides c.runner t = .ok (s, t) := by
  have he := executeWith_stateless c.execute g nodes inputs overrides t
  change executeWith g nodes inputs overrides c.runner t = _ at he
  have hsp := executeSubdag_spec (withFn_wf c.execute hw) (nodes.map (Node.withFn c.execute)) (by
    intro n hn
    obtain ⟨m, hm, rfl⟩ := List.mem_map.mp hn
    change (c.graph g).get? m.name = _
    rw [withFn_get?, hnodes m hm]; rfl) inputs overrides
  have hneed : ∀ k, Needed (Graph.withFn c.execute g) overrides ((nodes.map (Node.withFn c.execute)).map (·.name)) k →
      Needed g overrides (nodes.map (·.name)) k := by
    intro k hk
    induction hk with
    | req h =>
      rw [List.map_map] at h
      exact .req h
    | param _ h1 h2 h3 ih =>
      obtain ⟨m, hm, rfl⟩ := withFn_some _ _ h2
      exact .param ih h1 hm h3
  have hpath : ∀ {a b}, LivePath (Graph.withFn c.execute g) overrides a b → LivePath g overrides a b := by
    have hedge : ∀ {a b}, LiveEdge (Graph.withFn c.execute g) overrides a b → LiveEdge g overrides a b := by
      rintro a b ⟨h1, n, h2, h3⟩
      obtain ⟨m, hm, rfl⟩ := withFn_some _ _ h2
      exact ⟨h1, m, hm, h3⟩
    intro a b h
    induction h with
    | edge h => exact .edge (hedge h)
    | step h _ ih => exact .step (hedge h) ih
  revert he hsp
  generalize executeSubdag (Graph.withFn c.execute g) (nodes.map (Node.withFn c.execute)) inputs overrides = o
  intro he hsp
  cases o with
  | ok s => exact ⟨s, he⟩
  | err e s =>
    exfalso
    obtain ⟨_, herr, _⟩ := hsp
    cases e with
    | keyError k => exact herr
    | diverge =>
      obtain ⟨k, h1, h2⟩ := herr
      exact hcyc ⟨k, hneed k h1, hpath h2⟩
    | missing m =>
      obtain ⟨h1, h2, p, pn, t, h3, h4, h5, h6⟩ := herr
      obtain ⟨p0, hp0, rfl⟩ := withFn_some _ _ h5
      exact hin m (hneed m h1) (absent_withFn.mp h2) p p0 t (hneed p h3) hp0 h6
    | raised m e =>
      obtain ⟨h1, h2, n, kw, hn, _, _, hf⟩ := herr
      obtain ⟨n0, hn0, rfl⟩ := withFn_some _ _ hn
      change c.execute n0 kw = .error e at hf
      unfold Graceful.execute at hf
      dsimp only at hf
      split at hf
      · cases hf
      · cases hfn : n0.fn kw with
        | ok v => rw [hfn] at hf; cases hf
        | error e' =>
          rw [hfn] at hf
          dsimp only at hf
          rw [if_pos (hraise m n0 kw e' hn0 hfn)] at hf
          cases hf

namespace GracefulSample
open Sample

/-- The sample module where `left` raises when `base` is even. -/
def fns : List (Node Unit Int) :=
  [ fnNode "base" [("x", .required)] (fun kw => .ok (arg kw "x" 0 + 1)),
    fnNode "left" [("base", .required)] (fun kw => if arg kw "base" 0 % 2 = 0 then .error "DoNotProceed" else .ok (arg kw "base" 0 * 2)),
    fnNode "right" [("base", .required), ("y", .optional)] (fun kw => .ok (arg kw "base" 0 + arg kw "y" 10)),
    fnNode "top" [("left", .required), ("right", .required)] (fun kw => .ok (arg kw "left" 0 + arg kw "right" 0)),
    fnNode "report" [("left", .required), ("right", .required)] (fun kw => .ok (arg kw "right" 0 - arg kw "left" 0)) ]

/-- The graph built from them. -/
def graph : Graph Unit Int :=
  match createFunctionGraph tm () [] false fns with
  | .ok g => g
  | .error _ => []

/-- Sentinel `-1`, accepted by `report`. -/
def adapter : Graceful Int :=
  { sentinel := -1, same := fun v => decide (v = -1), catches := fun e => decide (e = "DoNotProceed"),
    accepts := fun k => decide (k = "report") }

/-- A run that requests everything. -/
def run (x : Int) : Out (ExecState Int × Unit) ExecErr :=
  executeWith graph (["left", "right", "top", "report"].flatMap fun k => (graph.get? k).toList) [("x", x)] [] adapter.runner ()

/-- `left` fails: `top` is skipped, `report` is told, `right` is not affected. -/
example : (run 1).state.1.computed = [("base", 2), ("left", -1), ("right", 12), ("top", -1), ("report", 13)] := by decide +kernel
/-- Nothing fails: the values are those of a normal run. -/
example : (run 2).state.1.computed = [("base", 3), ("left", 6), ("right", 13), ("top", 19), ("report", 7)] := by decide +kernel
example : (executeSubdag graph (["left", "right", "top", "report"].flatMap fun k => (graph.get? k).toList) [("x", 2)] []).state.computed =
    [("base", 3), ("left", 6), ("right", 13), ("top", 19), ("report", 7)] := by decide +kernel
example : adapter.same adapter.sentinel = true := by decide

theorem fns_fresh : ∀ n ∈ fns, Fresh n := by
  intro n hn
  simp only [fns, List.mem_cons, List.not_mem_nil, or_false] at hn
  rcases hn with rfl | rfl | rfl | rfl | rfl <;> exact ⟨by decide, rfl, rfl, by decide⟩

theorem build_ok : createFunctionGraph tm () [] false fns = .ok graph := by
  have h : (createFunctionGraph tm () [] false fns).isOk = true := by decide
  unfold graph
  revert h
  generalize createFunctionGraph tm () [] false fns = r
  intro h
  cases r with
  | ok g => rfl
  | error e => simp [Except.isOk, Except.toBool] at h

theorem graph_wf : WellFormed graph := (createFunctionGraph_spec fns_fresh build_ok).1

/-- Topological numbering. -/
def rank (k : Name) : Nat :=
  if k = "top" ∨ k = "report" then 3 else if k = "left" ∨ k = "right" then 2 else if k = "base" then 1 else 0

theorem graph_acyclic : Acyclic graph := by
  refine ⟨rank, ?_⟩
  have hc : graph.all (fun p => p.2.inputTypes.keys.all (fun d => decide (rank d < rank p.1))) = true := by decide
  intro k n hk d hd
  rw [List.all_eq_true] at hc
  have h1 := hc _ (Dict.get?_mem hk)
  rw [List.all_eq_true] at h1
  simpa using h1 d hd

/-- The hypotheses of `C36_values` hold for a run in which `left` failed. -/
example : ∃ s, run 1 = .ok (s, ()) ∧ s.computed.get? "top" = some (-1) := by
  have h : (match run 1 with | .ok s => decide (s.1.computed.get? "top" = some (-1)) | .err _ _ => false) = true := by decide +kernel
  revert h
  generalize run 1 = o
  intro h
  cases o with
  | err e s => simp at h
  | ok s => exact ⟨s.1, rfl, by simpa using h⟩

/-- **C36 is violated** as stated: a function that returns the value used as sentinel without raising makes the nodes
downstream of it skipped, although nothing failed. (The documentation warns about `None` as sentinel, default.py:600-602.) -/
theorem C36_violated_sentinel_value :
    ∃ (g : Graph Unit Int) (inputs : Dict Name Int), WellFormed g ∧ Acyclic g ∧
      (∃ s, executeSubdag g ((g.get? "top").toList) inputs [] = .ok s ∧ s.computed.get? "top" = some 7) ∧
      (∃ s, executeWith g ((g.get? "top").toList) inputs [] adapter.runner () = .ok (s, ()) ∧ s.computed.get? "top" = some (-1)) := by
  refine ⟨Sample.graph, [("x", -2)], Sample.graph_wf, Sample.graph_acyclic, ?_, ?_⟩
  · have h : (match executeSubdag Sample.graph ((Sample.graph.get? "top").toList) [("x", -2)] [] with
        | .ok s => decide (s.computed.get? "top" = some 7) | .err _ _ => false) = true := by decide +kernel
    revert h
    generalize executeSubdag Sample.graph ((Sample.graph.get? "top").toList) [("x", -2)] [] = o
    intro h
    cases o with
    | err e s => simp at h
    | ok s => exact ⟨s, rfl, by simpa using h⟩
  · have h : (match executeWith Sample.graph ((Sample.graph.get? "top").toList) [("x", -2)] [] adapter.runner () with
        | .ok s => decide (s.1.computed.get? "top" = some (-1)) | .err _ _ => false) = true := by decide +kernel
    revert h
    generalize executeWith Sample.graph ((Sample.graph.get? "top").toList) [("x", -2)] [] adapter.runner () = o
    intro h
    cases o with
    | err e s => simp at h
    | ok s => exact ⟨s.1, rfl, by simpa using h⟩

end GracefulSample
end Verif
