import Verif.Props.CheckInstance
import Verif.Proofs.LifecycleInv
import Verif.Proofs.Lifecycle
import Verif.Props.Sample

/-! **C62**: graphs run with `FunctionInputOutputTypeChecker`. -/
namespace Verif

section
variable {W : RWorld} {meaning : Name → RVal → Prop} {σ : Type}

theorem store_get_ne (s : ExecState RVal) {k k' : Name} (v : RVal) (h : k ≠ k') :
    (s.store k v).computed.get? k' = s.computed.get? k' := Dict.get?_set_ne _ _ h

theorem store_get_self (s : ExecState RVal) (k : Name) (v : RVal) : (s.store k v).computed.get? k = some v :=
  Dict.get?_set_self ..

theorem callHooks_none {V : Type} {hooks : List ((Option UserErr → HookEvent V) × (σ → Option UserErr × σ))} {s s' : HookState V σ}
    (h : callHooks hooks s = (none, s')) : ∀ p ∈ hooks, ∃ t, (p.2 t).1 = none := by
  induction hooks generalizing s with
  | nil => intro p hp; cases hp
  | cons q rest ih =>
    intro p hp
    obtain ⟨ev, hook⟩ := q
    cases hh : hook s.st with
    | mk r t =>
      cases r with
      | some e => simp [callHooks, hh] at h
      | none =>
        rcases List.mem_cons.mp hp with rfl | hp
        · exact ⟨s.st, by simp [hh]⟩
        · simp only [callHooks, hh] at h
          exact ih h p hp

theorem checkKwargs_none {types : Dict Name (RTy × DepType)} {kw : Dict Name RVal} :
    checkKwargs W types kw = none ↔ ∀ p ∈ kw, ∃ t d, types.get? p.1 = some (t, d) ∧ checkInstance W t p.2 = .ok true := by
  induction kw with
  | nil => simp [checkKwargs]
  | cons q rest ih =>
    obtain ⟨k, v⟩ := q
    have h1 : checkKwarg W types k v = none ↔ ∃ t d, types.get? k = some (t, d) ∧ checkInstance W t v = .ok true := by
      unfold checkKwarg
      cases hk : types.get? k with
      | none => simp
      | some td =>
        obtain ⟨t, d⟩ := td
        simp only [Option.some.injEq, Prod.mk.injEq]
        cases hc : checkInstance W t v with
        | error e => simp [hc]
        | ok b => cases b <;> simp [hc]
    rw [checkKwargs]
    cases hc : checkKwarg W types k v with
    | some e =>
      simp only [List.mem_cons, forall_eq_or_imp, reduceCtorEq, false_iff]
      intro h
      rw [h1.mpr h.1] at hc; cases hc
    | none => simp only [List.mem_cons, forall_eq_or_imp, ih, h1.mp hc, true_and]

theorem checkResult_none {t : RTy} {r : Option RVal} :
    checkResult W t r = none ↔ checkInstance W t (r.getD .pyNone) = .ok true := by
  unfold checkResult
  cases hc : checkInstance W t (r.getD .pyNone) with
  | error e => simp
  | ok b => cases b <;> simp

theorem mem_preHooks {A : List (Adapter RTy RVal σ)} {id : Nat} {co : Bool} (h : typeChecker W id true co ∈ A) (n : Node RTy RVal)
    (kw : Dict Name RVal) :
    (HookEvent.pre id n.name, fun s => (checkKwargs W n.inputTypes kw, s)) ∈ preHooks A n kw :=
  List.mem_filterMap.mpr ⟨_, h, rfl⟩

theorem mem_postHooks {A : List (Adapter RTy RVal σ)} {id : Nat} {ci : Bool} (h : typeChecker W id ci true ∈ A) (n : Node RTy RVal)
    (kw : Dict Name RVal) (b : Bool) (e : Option UserErr) (r : Option RVal) :
    (HookEvent.post id n.name b e r, fun s => (checkResult W n.typ r, s)) ∈ postHooks A n kw b e r :=
  List.mem_filterMap.mpr ⟨_, h, rfl⟩

/-- What comes out of the last step is what went in, unless a hook raised. -/
theorem finishNode_ok {A : List (Adapter RTy RVal σ)} {n : Node RTy RVal} {kw : Dict Name RVal} {b : Bool} {e : Option UserErr}
    {r : Option RVal} {out : Except UserErr RVal} {s s' : HookState RVal σ} {v : RVal}
    (h : finishNode A n kw b e r out s = (.ok v, s')) : out = .ok v ∧ callHooks (postHooks A n kw b e r) s = (none, s') := by
  unfold finishNode at h
  cases hc : callHooks (postHooks A n kw b e r) s with
  | mk x s'' =>
    rw [hc] at h
    cases x with
    | some e => cases h
    | none =>
      simp only [Prod.mk.injEq] at h
      exact ⟨h.1, by rw [h.2]⟩

theorem lifecycle_ok {isException : UserErr → Bool} {A : List (Adapter RTy RVal σ)} {n : Node RTy RVal} {kw : Dict Name RVal}
    {s s' : HookState RVal σ} {v : RVal} (h : executeLifecycle isException A n kw s = (.ok v, s')) :
    (∃ s1, callHooks (preHooks A n kw) s = (none, s1)) ∧
      ∃ s2, callHooks (postHooks A n kw true none (some v)) s2 = (none, s') := by
  unfold executeLifecycle at h
  cases hp : callHooks (preHooks A n kw) s with
  | mk x s1 =>
    rw [hp] at h
    cases x with
    | some e =>
      dsimp only at h
      cases hi : isException e with
      | true => rw [hi] at h; cases h
      | false => rw [hi] at h; exact absurd (finishNode_ok h).1 (by simp)
    | none =>
      dsimp only at h
      refine ⟨⟨s1, rfl⟩, ?_⟩
      cases hb : callBody A n kw s1 with
      | mk r s2 =>
        rw [hb] at h
        cases r with
        | ok w =>
          obtain ⟨h1, h2⟩ := finishNode_ok h
          cases h1
          exact ⟨s2, h2⟩
        | error e =>
          dsimp only at h
          cases hi : isException e with
          | true => rw [hi] at h; exact absurd (finishNode_ok h).1 (by simp)
          | false => rw [hi] at h; exact absurd (finishNode_ok h).1 (by simp)

/-- With the checker among the adapters, a node that returns a value got arguments that pass and the value passes. -/
theorem lifecycle_checked {isException : UserErr → Bool} {A : List (Adapter RTy RVal σ)} {id : Nat}
    (hA : typeChecker W id true true ∈ A) {n : Node RTy RVal} {kw : Dict Name RVal}
    {s s' : HookState RVal σ} {v : RVal} (h : executeLifecycle isException A n kw s = (.ok v, s')) :
    checkKwargs W n.inputTypes kw = none ∧ checkInstance W n.typ v = .ok true := by
  obtain ⟨⟨s1, h1⟩, s2, h2⟩ := lifecycle_ok h
  obtain ⟨_, h3⟩ := callHooks_none h1 _ (mem_preHooks hA n kw)
  obtain ⟨_, h4⟩ := callHooks_none h2 _ (mem_postHooks hA n kw true none (some v))
  exact ⟨h3, checkResult_none.mp h4⟩

/-- **C62** (an ill-typed argument stops the node): if an argument does not have the type of its parameter (and the
annotation is one the check can decide), the function is not called and an exception propagates, whatever other adapters
there are. -/
theorem C62_stops_partial (isException : UserErr → Bool) (A : List (Adapter RTy RVal σ)) {id : Nat} {co : Bool}
    (hA : typeChecker W id true co ∈ A) (n : Node RTy RVal) (kw : Dict Name RVal) (s : HookState RVal σ)
    (hr : ∀ k t d, n.inputTypes.get? k = some (t, d) → Regular W True t) (hbad : ¬ ArgsTyped W meaning n kw) :
    (∃ e, (executeLifecycle isException A n kw s).1 = .error e) ∧
    ∃ evs, (executeLifecycle isException A n kw s).2.log = s.log ++ evs ∧ ∀ k r, HookEvent.body k r ∉ evs := by
  have hne : checkKwargs W n.inputTypes kw ≠ none := by
    intro h
    refine hbad fun p hp => ?_
    obtain ⟨t, d, h1, h2⟩ := checkKwargs_none.mp h p hp
    exact ⟨t, d, h1, C62_accepts_partial t _ (hr _ _ _ h1) h2⟩
  unfold executeLifecycle
  rcases preHooks_spec A n kw s with ⟨t, h⟩ | ⟨before, i, after, e, t, _, h⟩
  · obtain ⟨_, h3⟩ := callHooks_none h _ (mem_preHooks hA n kw)
    exact absurd h3 hne
  · rw [h]
    dsimp only
    cases hi : isException e with
    | true =>
      rw [if_pos rfl]
      refine ⟨⟨e, rfl⟩, _, rfl, ?_⟩
      intro k r hm
      simp at hm
    | false =>
      rw [if_neg (by simp)]
      unfold finishNode
      rcases postHooks_spec A n kw true none none
        ⟨s.log ++ (before.map (fun i => .pre i n.name none) ++ [.pre i n.name (some e)]), t⟩ with
        ⟨t2, h2⟩ | ⟨before2, id2, after2, e2, t2, _, h2⟩
      · rw [h2]
        refine ⟨⟨e, rfl⟩, _, List.append_assoc .., ?_⟩
        intro k r hm
        simp at hm
      · rw [h2]
        refine ⟨⟨e2, rfl⟩, _, List.append_assoc .., ?_⟩
        intro k r hm
        simp at hm

/-- **C62** (runs with the checker): whatever other adapters there are, if the run succeeds, every function was called with
arguments of the annotated types, and every value that was computed and kept has the annotated type; if the run fails, this
still holds of all calls before the last one. -/
theorem C62_run_partial {g : Graph RTy RVal} (hw : WellFormed g) {nodes : List (Node RTy RVal)}
    (hnodes : ∀ n ∈ nodes, g.get? n.name = some n) (inputs overrides : Dict Name RVal) (isException : UserErr → Bool)
    (A : List (Adapter RTy RVal σ)) {id : Nat} (hA : typeChecker W id true true ∈ A) (st : σ)
    (hr : ∀ k n, g.get? k = some n → Annotations (Regular W True) n) :
    match executeWith g nodes inputs overrides (executeLifecycle isException A) ⟨[], st⟩ with
    | .ok (s, _) => (∀ c ∈ s.calls, ∀ n, g.get? c.1 = some n → ArgsTyped W meaning n c.2) ∧
        ∀ k n v, s.computed.get? k = some v → g.get? k = some n → n.kind ≠ .external → overrides.get? k = none →
          HasTy W meaning n.typ v
    | .err _ (s, _) => ∀ c ∈ s.calls.dropLast, ∀ n, g.get? c.1 = some n → ArgsTyped W meaning n c.2 := by
  have hinv := executeWith_preserved (g := g) (inputs := inputs) (overrides := overrides)
    (run := executeLifecycle isException A)
    (J := fun s _ => (∀ c ∈ s.calls, ∀ n, g.get? c.1 = some n → ArgsTyped W meaning n c.2) ∧
        ∀ k n v, s.computed.get? k = some v → g.get? k = some n → n.kind ≠ .external → overrides.get? k = none →
          HasTy W meaning n.typ v)
    (K := fun _ s _ => ∀ c ∈ s.calls.dropLast, ∀ n, g.get? c.1 = some n → ArgsTyped W meaning n c.2)
    hw hnodes
    { keep := fun hJ e _ c hc => hJ.1 c (List.dropLast_subset _ hc)
      input := by
        intro s t k n v hJ hk hext _
        obtain ⟨h1, _, h3⟩ := prune_spec g (nodes.map (·.name)) n.dependencies (s.store k v)
        refine ⟨by rw [h1]; exact hJ.1, fun k' n' v' hc hk' hne ho => ?_⟩
        rcases h3 k' with h3 | ⟨h3, _⟩
        · rw [h3] at hc
          by_cases hkk : k' = k
          · subst hkk; rw [hk] at hk'; cases hk'; exact absurd hext hne
          · rw [store_get_ne _ _ (Ne.symm hkk)] at hc
            exact hJ.2 k' n' v' hc hk' hne ho
        · rw [h3] at hc; cases hc
      override := by
        intro s t k n v hJ _ hov
        refine ⟨hJ.1, fun k' n' v' hc hk' hne ho => ?_⟩
        by_cases hkk : k' = k
        · subst hkk; rw [hov] at ho; cases ho
        · rw [store_get_ne _ _ (Ne.symm hkk)] at hc
          exact hJ.2 k' n' v' hc hk' hne ho
      call := by
        intro s t k n hJ hk _ _ kw hkw
        cases hrun : executeLifecycle isException A n kw t with
        | mk r t' =>
          cases r with
          | error e =>
            dsimp only
            rw [List.dropLast_concat]
            exact hJ.1
          | ok v =>
            dsimp only
            obtain ⟨hargs, hres⟩ := lifecycle_checked hA hrun
            have hann := hr k n hk
            obtain ⟨h1, _, h3⟩ := prune_spec g (nodes.map (·.name)) n.dependencies
              (({ s with calls := s.calls ++ [(k, kw)] } : ExecState RVal).store k v)
            refine ⟨?_, fun k' n' v' hc hk' hne ho => ?_⟩
            · rw [h1]
              intro c hc n' hn'
              rcases List.mem_append.mp hc with hc | hc
              · exact hJ.1 c hc n' hn'
              · obtain rfl := List.mem_singleton.mp hc
                rw [hk] at hn'; cases hn'
                intro p hp
                obtain ⟨t, d, h4, h5⟩ := checkKwargs_none.mp hargs p hp
                exact ⟨t, d, h4, C62_accepts_partial t _ (hann.2 _ _ _ h4) h5⟩
            · rcases h3 k' with h3 | ⟨h3, _⟩
              · rw [h3] at hc
                by_cases hkk : k' = k
                · subst hkk
                  rw [hk] at hk'; cases hk'
                  rw [store_get_self] at hc
                  cases hc
                  exact C62_accepts_partial _ _ hann.1 hres
                · rw [store_get_ne _ _ (Ne.symm hkk)] at hc
                  exact hJ.2 k' n' v' hc hk' hne ho
              · rw [h3] at hc; cases hc }
    (t := ⟨[], st⟩) ⟨fun c hc => (by cases hc), fun k n v hc => (by cases hc)⟩
  revert hinv
  generalize executeWith g nodes inputs overrides (executeLifecycle isException A) ⟨[], st⟩ = o
  intro hinv
  cases o with
  | ok s => exact hinv
  | err e s => exact hinv

theorem lifecycle_alone {isException : UserErr → Bool} {id : Nat} {n : Node RTy RVal} {kw : Dict Name RVal} {s : HookState RVal σ}
    {v : RVal} (hk : checkKwargs W n.inputTypes kw = none) (hf : n.fn kw = .ok v) (hv : checkInstance W n.typ v = .ok true) :
    ∃ s', executeLifecycle isException [typeChecker W id true true] n kw s = (.ok v, s') := by
  have hc : checkResult W n.typ (some v) = none := checkResult_none.mpr hv
  refine ⟨⟨s.log ++ [.pre id n.name none] ++ [.body n.name (n.fn kw)] ++ [.post id n.name true none (some v) none], s.st⟩, ?_⟩
  simp only [executeLifecycle, preHooks, typeChecker, List.filterMap_cons, List.filterMap_nil, Option.map_some, callHooks, hk, if_true,
    callBody, List.findSome?_cons, List.findSome?_nil, hf, finishNode, postHooks, hc]

/-- **C62** (no interference): if, without the checker, no function fails, every function is called with arguments of the
annotated types and returns a value of the annotated type, then the run with the checker gives the same result, as long as
all annotations are ones the check can decide. -/
theorem C62_transparent_partial {g : Graph RTy RVal} (hw : WellFormed g) {nodes : List (Node RTy RVal)}
    (hnodes : ∀ n ∈ nodes, g.get? n.name = some n) (inputs overrides : Dict Name RVal) (isException : UserErr → Bool)
    {id : Nat} (st : σ) (hsimple : ∀ k n, g.get? k = some n → Annotations (Simple W) n)
    (htyped : ∀ c ∈ (executeSubdag g nodes inputs overrides).state.calls, ∀ n, g.get? c.1 = some n →
      ArgsTyped W meaning n c.2 ∧ ∃ v, n.fn c.2 = .ok v ∧ HasTy W meaning n.typ v) :
    match executeWith g nodes inputs overrides (executeLifecycle isException [typeChecker W id true true]) ⟨[], st⟩ with
    | .ok (s, _) => executeSubdag g nodes inputs overrides = .ok s
    | .err e (s, _) => executeSubdag g nodes inputs overrides = .err e s := by
  have hpass : ∀ (t : RTy) (v : RVal), Simple W t → HasTy W meaning t v → checkInstance W t v = .ok true := by
    intro t v ht hv
    rcases C62_exact_partial (meaning := meaning) t v ht with h | h
    · exact h.1
    · exact absurd hv h.2
  have := executeWith_matches (g := g) (inputs := inputs) (overrides := overrides)
    (run := executeLifecycle (σ := σ) isException [typeChecker W id true true])
    (P := fun calls => ∀ c ∈ calls, ∀ n, g.get? c.1 = some n →
      ArgsTyped W meaning n c.2 ∧ ∃ v, n.fn c.2 = .ok v ∧ HasTy W meaning n.typ v)
    (J := fun _ _ => True) (K := fun _ => True) (killed := fun _ => False) hw hnodes
    (fun l l' hl hP c hc => hP c (hl.subset hc))
    { keep := fun _ => trivial
      input := fun _ _ _ _ => trivial
      override := fun _ _ _ => trivial
      call := by
        intro s t k n _ hk _ _ kw _ hP
        obtain ⟨hargs, v, hf, hv⟩ := hP (k, kw) (by simp) n hk
        have hann := hsimple k n hk
        have hk1 : checkKwargs W n.inputTypes kw = none := checkKwargs_none.mpr fun p hp => by
          obtain ⟨ty, d, h1, h2⟩ := hargs p hp
          exact ⟨ty, d, h1, hpass ty _ (hann.2 _ _ _ h1) h2⟩
        obtain ⟨s', h'⟩ := lifecycle_alone (isException := isException) (id := id) (s := t) hk1 hf (hpass _ _ hann.1 hv)
        rw [h']
        exact ⟨hf, trivial⟩ }
    (t := ⟨[], st⟩) trivial htyped
  revert this
  generalize executeWith g nodes inputs overrides (executeLifecycle isException [typeChecker W id true true]) ⟨[], st⟩ = o
  intro this
  cases o with
  | ok s => exact this.1
  | err e s => exact this.2.resolve_left fun h => h

end

namespace CheckSample

/-- The classes above a class. -/
def above : Name → List Name
  | "bool" => ["int", "object"]
  | "list" => ["Sequence", "Iterable", "object"]
  | "tuple" => ["Sequence", "Iterable", "object"]
  | "set" => ["Iterable", "object"]
  | "frozenset" => ["Iterable", "object"]
  | "dict" => ["Iterable", "object"]
  | "generator" => ["Iterable", "object"]
  | _ => ["object"]

/-- Some classes, and the literal `"a" | "b"`. -/
def world : RWorld where
  sub a b := a == b || (above a).contains b
  lit n v := match n, v with
    | "a|b", .obj "str" t => t == "a" || t == "b"
    | _, _ => false

def i (n : Name) : RVal := .obj "int" n
def str (n : Name) : RVal := .obj "str" n
def int : RTy := .cls "int"
/-- `Dict[str, List[Optional[int]]]` -/
def table : RTy := .gen "dict" [.cls "str", .gen "list" [.union [int, .cls "NoneType"]]]

theorem below_self {a b : Name} (h : world.sub a b = true) (hb : b ∈ ["list", "set", "tuple", "dict"]) : a = b := by
  simp only [world, Bool.or_eq_true, beq_iff_eq, List.contains_eq_mem, decide_eq_true_eq] at h
  rcases h with h | h
  · exact h
  · unfold above at h
    simp only [List.mem_cons, List.not_mem_nil, or_false] at hb
    split at h <;> rcases hb with rfl | rfl | rfl | rfl <;> simp at h

theorem table_simple : Simple world table := by
  simp only [table, Simple, SimpleArgs, SimpleAll, int, and_true, true_and]
  refine ⟨by decide, ?_, ?_, by decide, ?_, ?_⟩
  · intro c hc; rw [below_self hc (by simp)]; decide
  · intro c hc; rw [below_self hc (by simp)]; decide
  · intro c hc; rw [below_self hc (by simp)]; decide
  · intro c hc; rw [below_self hc (by simp)]; decide

/-- `{"x": [1, None], "y": []}` -/
def good : RVal := .map "dict" [(str "x", .seq "list" [i "1", .pyNone]), (str "y", .seq "list" [])]
/-- `{"x": [1, "2"]}` -/
def bad : RVal := .map "dict" [(str "x", .seq "list" [i "1", str "2"])]

/-- The result of a check as plain data. -/
def shown (r : Except UserErr Bool) : String := match r with
  | .ok true => "True"
  | .ok false => "False"
  | .error e => e

/-- The check decides a nested annotation. -/
example : shown (checkInstance world table good) = "True" ∧ shown (checkInstance world table bad) = "False" := by decide +kernel

example : HasTy world (fun _ _ => False) table good :=
  (C62_exact_partial table good table_simple).elim (·.2) fun h => by
    have : shown (checkInstance world table good) = "True" := by decide +kernel
    rw [h.1] at this; exact absurd this (by decide)

/-- `Annotated[int, …] | Iterable[int]`-like annotations meet the hypotheses of `C62_accepts_partial` and, without the first
one, of `C62_rejects_partial`; the second one is not always decided. -/
example : Regular world True (.union [.annotated int, .gen "Iterable" [int]]) ∧ Regular world False (.gen "Iterable" [int]) ∧
    shown (checkInstance world (.gen "Iterable" [int]) (.seq "list" [i "1"])) = "True" ∧
    shown (checkInstance world (.gen "Iterable" [int]) (.seq "list" [str "1"])) = "False" := by
  refine ⟨?_, ?_, by decide +kernel, by decide +kernel⟩ <;> simp [Regular, RegularAll, int]

/-- **C62 is violated**: `Tuple[int, str]` rejects `(1, "a")` and accepts `(1, 2)`, `Tuple[int]` accepts `(1, 2)`, and
`Tuple[()]` cannot be checked at all. -/
theorem C62_violated_tuple :
    (shown (checkInstance world (.gen "tuple" [int, .cls "str"]) (.seq "tuple" [i "1", str "a"])) = "False" ∧
      HasTy world (fun _ _ => False) (.gen "tuple" [int, .cls "str"]) (.seq "tuple" [i "1", str "a"])) ∧
    (shown (checkInstance world (.gen "tuple" [int, .cls "str"]) (.seq "tuple" [i "1", i "2"])) = "True" ∧
      ¬ HasTy world (fun _ _ => False) (.gen "tuple" [int, .cls "str"]) (.seq "tuple" [i "1", i "2"])) ∧
    (shown (checkInstance world (.gen "tuple" [int]) (.seq "tuple" [i "1", i "2"])) = "True" ∧
      ¬ HasTy world (fun _ _ => False) (.gen "tuple" [int]) (.seq "tuple" [i "1", i "2"])) ∧
    (shown (checkInstance world (.gen "tuple" []) (.seq "tuple" [])) = "IndexError" ∧
      HasTy world (fun _ _ => False) (.gen "tuple" []) (.seq "tuple" [])) := by
  refine ⟨⟨by decide +kernel, ?_⟩, ⟨by decide +kernel, ?_⟩, ⟨by decide +kernel, ?_⟩, ⟨by decide +kernel, ?_⟩⟩
  · rw [HasTy]
    refine ⟨by decide, ?_⟩
    rw [if_pos rfl, HasEach]
    · refine ⟨_, _, rfl, by rw [int, HasTy]; decide, ?_⟩
      rw [HasEach]
      · exact ⟨_, _, rfl, by rw [HasTy]; decide, by rw [HasEach]⟩
      · intro h; cases h
    · intro h; cases h
  · simp [HasTy, HasEach, RVal.items, RVal.cls, world, above, int, i]
  · simp [HasTy, HasEach, RVal.items, RVal.cls, world, above, int, i]
  · simp [HasTy, HasEach, RVal.items, RVal.cls, world]

/-- **C62 is violated**: values of the annotated type make the check raise if the annotation is a subscripted generic type and
the value is not a list, set, tuple or dictionary with two type arguments: a `frozenset` for `FrozenSet[int]`, a function for
`Callable[[int], str]`, a generator for `Iterable[int]`, a dictionary for `Iterable[str]`; likewise `list[int] | None`. -/
theorem C62_violated_raises :
    (shown (checkInstance world (.gen "frozenset" [int]) (.seq "frozenset" [i "1"])) = "TypeError: isinstance" ∧
      HasTy world (fun _ _ => False) (.gen "frozenset" [int]) (.seq "frozenset" [i "1"])) ∧
    (shown (checkInstance world (.gen "Callable" [int, .cls "str"]) (.obj "Callable" "f")) = "TypeError: isinstance" ∧
      HasTy world (fun _ _ => False) (.gen "Callable" [int, .cls "str"]) (.obj "Callable" "f")) ∧
    (shown (checkInstance world (.gen "Iterable" [int]) (.obj "generator" "g")) = "TypeError: isinstance" ∧
      HasTy world (fun _ _ => False) (.gen "Iterable" [int]) (.obj "generator" "g")) ∧
    (shown (checkInstance world (.gen "Iterable" [.cls "str"]) (.map "dict" [(str "a", i "1")])) = "IndexError" ∧
      HasTy world (fun _ _ => False) (.gen "Iterable" [.cls "str"]) (.map "dict" [(str "a", i "1")])) ∧
    (shown (checkInstance world (.pipe [.gen "list" [int], .cls "NoneType"]) .pyNone) = "TypeError: isinstance" ∧
      HasTy world (fun _ _ => False) (.pipe [.gen "list" [int], .cls "NoneType"]) .pyNone) := by
  refine ⟨⟨by decide +kernel, ?_⟩, ⟨by decide +kernel, ?_⟩, ⟨by decide +kernel, ?_⟩, ⟨by decide +kernel, ?_⟩, ⟨by decide +kernel, ?_⟩⟩ <;>
  simp [HasTy, HasAll, HasPairs, HasSome, RVal.items, RVal.pairs, RVal.cls, RVal.pyNone, world, above, int, i, str]

/-- **C62 is violated**: `Annotated[t, …]` is never handled as `t`: an `int` makes `Annotated[int, …]` raise, a list makes
`Annotated[List[int], …]` raise, and `[1]` is rejected by `Annotated[list, …]`. -/
theorem C62_violated_annotated :
    (shown (checkInstance world (.annotated int) (i "1")) = "TypeError: isinstance" ∧
      HasTy world (fun _ _ => False) (.annotated int) (i "1")) ∧
    (shown (checkInstance world (.annotated (.gen "list" [int])) (.seq "list" [i "1"])) = "TypeError: isinstance" ∧
      HasTy world (fun _ _ => False) (.annotated (.gen "list" [int])) (.seq "list" [i "1"])) ∧
    (shown (checkInstance world (.annotated (.cls "list")) (.seq "list" [i "1"])) = "False" ∧
      HasTy world (fun _ _ => False) (.annotated (.cls "list")) (.seq "list" [i "1"])) := by
  refine ⟨⟨by decide +kernel, ?_⟩, ⟨by decide +kernel, ?_⟩, ⟨by decide +kernel, ?_⟩⟩ <;>
  simp [HasTy, HasAll, RVal.items, RVal.cls, world, above, int, i]

/-! ### Runs -/

/-- A function `name(params) -> typ`. -/
def fn (name : Name) (typ : RTy) (params : List (Name × RTy)) (f : Dict Name RVal → Except UserErr RVal) : Node RTy RVal :=
  { name, typ, kind := .standard, inputTypes := params.map (fun p => (p.1, (p.2, .required))),
    dependencies := [], dependedOnBy := [], fn := f }

/-- `def row(x: int) -> List[int]: return [x, x]` and `def total(row: List[int]) -> int: return 2`. -/
def fns : List (Node RTy RVal) :=
  [fn "row" (.gen "list" [int]) [("x", int)] (fun kw => .ok (.seq "list" [(kw.get? "x").getD .pyNone, (kw.get? "x").getD .pyNone])),
   fn "total" int [("row", .gen "list" [int])] (fun _ => .ok (i "2"))]

/-- The graph of these functions. -/
def graph : Graph RTy RVal :=
  match createFunctionGraph (fun _ _ => true) .any [] false fns with
  | .ok g => g
  | .error _ => []

theorem fns_fresh : ∀ n ∈ fns, Fresh n := by
  intro n hn
  simp only [fns, List.mem_cons, List.not_mem_nil, or_false] at hn
  rcases hn with rfl | rfl <;> exact ⟨by decide, rfl, rfl, by decide⟩

theorem build_ok : createFunctionGraph (fun _ _ => true) .any [] false fns = .ok graph := by
  have h : (createFunctionGraph (fun _ _ => true) .any [] false fns).isOk = true := by decide +kernel
  unfold graph
  revert h
  generalize createFunctionGraph (fun _ _ => true) .any [] false fns = r
  intro h
  cases r with
  | ok g => rfl
  | error e => simp [Except.isOk, Except.toBool] at h

theorem graph_wf : WellFormed graph := (createFunctionGraph_spec fns_fresh build_ok).1

/-- What is requested. -/
def want : List (Node RTy RVal) := (graph.get? "total").toList

/-- The run with the checker on input `x`: the names of the functions called and the exception, if any. -/
def outcome (x : RVal) : List Name × Option String :=
  match executeWith graph want [("x", x)] [] (executeLifecycle (σ := Unit) (fun _ => true) [typeChecker world 1 true true]) ⟨[], ()⟩ with
  | .ok (s, _) => (s.calls.map (·.1), none)
  | .err (.raised k e) (_, t) => ((t.log.filterMap fun ev => match ev with | .body n _ => some n | _ => none), some (k ++ ": " ++ e))
  | .err _ (s, _) => (s.calls.map (·.1), some "other")

/-- A run that succeeds, and one that is stopped before the first function is called. -/
example : outcome (i "1") = (["row", "total"], none) ∧ outcome (str "1") = ([], some "row: TypeError: input") := by decide +kernel

theorem all_nodes {P : Node RTy RVal → Prop} (h : ∀ p ∈ graph, P p.2) : ∀ k n, graph.get? k = some n → P n :=
  fun _ _ hk => h _ (Dict.get?_mem hk)

theorem list_simple : Simple world (.gen "list" [int]) := by
  simp only [Simple, SimpleArgs, int, and_true]
  refine ⟨by decide, ?_, ?_⟩
  · intro c hc; rw [below_self hc (by simp)]; decide
  · intro c hc; rw [below_self hc (by simp)]; decide

/-- The annotations in the graph: `int` and `List[int]`. -/
def simpleTy : RTy → Bool
  | .cls _ => true
  | .gen "list" [.cls "int"] => true
  | _ => false

theorem simple_of_simpleTy {t : RTy} (h : simpleTy t = true) : Simple world t := by
  unfold simpleTy at h
  split at h
  · simp [Simple]
  · exact list_simple
  · cases h

theorem graph_simple : ∀ k n, graph.get? k = some n → Annotations (Simple world) n := by
  intro k n hk
  have h : graph.all (fun p => simpleTy p.2.typ && p.2.inputTypes.all fun q => simpleTy q.2.1) = true := by decide +kernel
  rw [List.all_eq_true] at h
  have h1 := h _ (Dict.get?_mem hk)
  rw [Bool.and_eq_true, List.all_eq_true] at h1
  exact ⟨simple_of_simpleTy h1.1, fun k' t d hk' => simple_of_simpleTy (h1.2 _ (Dict.get?_mem hk'))⟩

/-- The hypotheses of `C62_run_partial` and `C62_stops_partial` about annotations. -/
example : ∀ k n, graph.get? k = some n → Annotations (Regular world False) n := fun k n hk =>
  ⟨regular_of_simple _ (graph_simple k n hk).1, fun k' t d h => regular_of_simple _ ((graph_simple k n hk).2 k' t d h)⟩

theorem want_ok : ∀ n ∈ want, graph.get? n.name = some n := by
  intro n hn
  have h : graph.get? "total" = some n := by simpa [want] using hn
  rw [graph_wf.name_eq h]; exact h

/-- **C62 is violated**: when a function fails, its exception is replaced by the checker's complaint about the result `None`;
with `-> Optional[int]` it is not. -/
theorem C62_violated_masks :
    (executeLifecycle (σ := Unit) (fun _ => true) [typeChecker world 1 true true]
      (fn "f" int [] fun _ => .error "ZeroDivisionError") [] ⟨[], ()⟩).1 = .error "TypeError: output" ∧
    (executeLifecycle (σ := Unit) (fun _ => true) [typeChecker world 1 true true]
      (fn "f" (.union [int, .cls "NoneType"]) [] fun _ => .error "ZeroDivisionError") [] ⟨[], ()⟩).1 = .error "ZeroDivisionError" :=
  ⟨rfl, rfl⟩

/-- **C62 is violated**: what a function annotated with `Parallelizable[int]` returns is rejected although it is an iterable of
integers, so the checker cannot be used with dynamic execution. (Both classes are protocols, so in Python it is already
`isinstance` that raises the `TypeError`.) -/
theorem C62_violated_parallel :
    (executeLifecycle (σ := Unit) (fun _ => true) [typeChecker world 1 true true]
      (fn "f" (.gen "Parallelizable" [int]) [] fun _ => .ok (.seq "list" [i "1"])) [] ⟨[], ()⟩).1 = .error "TypeError: output" ∧
    (executeLifecycle (σ := Unit) (fun _ => true) [typeChecker world 1 true true]
      (fn "g" int [("f", .gen "Collect" [int])] fun _ => .ok (i "1")) [("f", .seq "list" [i "1"])] ⟨[], ()⟩).1 = .error "TypeError: input" :=
  ⟨rfl, rfl⟩

end CheckSample
end Verif
