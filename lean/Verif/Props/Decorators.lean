import Verif.Model.Decorators
import Verif.Spec.Decor
import Verif.Proofs.Create
import Verif.Proofs.Subdag
import Std.Data.String.ToNat

/-!
Property C41 (`@extract_fields`), C37 (`@check_output`) and C39 (`@parameterize`, `@inject`): what the nodes made by these
decorators compute in any graph that contains them.
-/
namespace Verif
variable {T V : Type}

/-- Distinct names identify nodes. -/
theorem node_of_nodup_names : ∀ {l : List (Node T V)}, (l.map (·.name)).Nodup → ∀ {a b}, a ∈ l → b ∈ l → a.name = b.name → a = b := by
  intro l
  induction l with
  | nil => intro _ a b h; cases h
  | cons c l ih =>
    intro hn a b ha hb he
    rw [List.map_cons, List.nodup_cons] at hn
    rcases List.mem_cons.1 ha with h1 | h1 <;> rcases List.mem_cons.1 hb with h2 | h2
    · rw [h1, h2]
    · subst h1; exact absurd (List.mem_map.2 ⟨b, h2, he.symm⟩) hn.1
    · subst h2; exact absurd (List.mem_map.2 ⟨a, h1, he⟩) hn.1
    · exact ih hn.2 h1 h2 he

/-- A graph built from functions without name clashes contains every one of them that the configuration does not replace:
the hypotheses "the graph contains the nodes" below hold for the graphs the driver builds. -/
theorem build_defines {tm : T → T → Bool} {any : T} {config : Dict Name V} {fns : List (Node T V)}
    (hf : ∀ n ∈ fns, Fresh n) {g : Graph T V} (h : createFunctionGraph tm any config false fns = .ok g) {n : Node T V}
    (hn : n ∈ fns) (hc : n.name ∉ config.keys) : Defines g n := by
  obtain ⟨_, _, h3, _, _, h6⟩ := createFunctionGraph_spec hf h
  have hnd : (unshadowed config fns).Nodup := by
    rcases h6 with h | h
    · cases h
    · exact h
  have hl : lastDef fns n.name = some n := by
    cases hl : lastDef fns n.name with
    | none => exact absurd rfl (lastDef_none.1 hl n hn)
    | some m =>
      obtain ⟨h1, h2⟩ := lastDef_name hl
      have hnd : ((fns.filter (fun n => !config.has n.name)).map (·.name)).Nodup := by
        unfold unshadowed at hnd
        rw [List.filter_map] at hnd
        exact hnd
      have hno : ∀ k, k ∉ config.keys → config.has k = false := by
        intro k hk
        cases hh : config.has k with
        | false => rfl
        | true => exact absurd ((Dict.has_iff _ _).1 hh) hk
      have e := node_of_nodup_names hnd (a := m) (b := n) (by simp [h2, h1, hno _ hc]) (by simp [hn, hno _ hc]) h1
      rw [e]
  exact h3 n.name n hc hl

/-! ### C41 -/

theorem fillFields_get (fill : V) : ∀ (fs : List Name) (d : Dict Name V) (k : Name),
    (fillFields fill fs d).get? k = match d.get? k with
      | some x => some x
      | none => if k ∈ fs then some fill else none := by
  intro fs
  induction fs with
  | nil => intro d k; simp only [fillFields, List.not_mem_nil, if_false]; cases d.get? k <;> rfl
  | cons f fs ih =>
    intro d k
    simp only [fillFields]
    by_cases hf : d.has f = true
    · rw [if_pos hf, ih]
      cases hk : d.get? k with
      | some x => rfl
      | none =>
        have hne : k ≠ f := by
          intro h; subst h
          simp [Dict.has, hk] at hf
        simp [hne]
    · rw [if_neg hf, ih, Dict.get?_set]
      by_cases hk : f = k
      · subst hk
        have : d.get? f = none := by
          cases h : d.get? f with
          | none => rfl
          | some x => simp [Dict.has, h] at hf
        simp [this]
      · rw [if_neg hk]
        cases d.get? k with
        | some x => rfl
        | none => simp [Ne.symm hk]

/-- **C41, the dictionary.**  In a graph containing the nodes of an `@extract_fields`, the node of the function has a value
`v` iff the undecorated function has one: without a fill value it is the same, with a fill value (and a dictionary as the
function's value) it is that dictionary with exactly the missing fields added. -/
theorem C41_dict {g : Graph T V} {inputs overrides : Dict Name V} {ops : PyOps V} (hl : ops.Lawful) {dictT : T}
    {fields : Dict Name T} {fill : Option V} {n : Node T V} (hk : n.kind ≠ .external)
    (hdef : ∀ m ∈ extractFields ops dictT fields fill n, Defines g m) (hov : overrides.get? n.name = none) :
    (fill = none → ∀ v, Den g inputs overrides n.name v ↔ FnValue g inputs overrides n v) ∧
    (∀ f, fill = some f → ∀ v d, FnValue g inputs overrides n v → ops.asDict v = some d →
      ∃ v' d', Den g inputs overrides n.name v' ∧ ops.asDict v' = some d' ∧
        ∀ k, d'.get? k = match d.get? k with
          | some x => some x
          | none => if k ∈ fields.keys then some f else none) ∧
    (∀ v', Den g inputs overrides n.name v' → ∃ v, FnValue g inputs overrides n v) := by
  have hd : Defines g { n with fn := dictGenerator ops n.fn fields.keys fill } := hdef _ (by simp [extractFields])
  have key := fun v => den_iff_fnValue (inputs := inputs) (overrides := overrides) hd hk hov v
  refine ⟨?_, ?_, ?_⟩
  · intro hf v
    rw [key v]
    subst hf
    constructor
    · rintro ⟨kw, ha, hv⟩
      refine ⟨kw, ha, ?_⟩
      simp only [dictGenerator] at hv
      cases hfn : n.fn kw with
      | error e => rw [hfn] at hv; cases hv
      | ok w => rw [hfn] at hv; exact hv
    · rintro ⟨kw, ha, hv⟩
      exact ⟨kw, ha, by simp only [dictGenerator, hv]⟩
  · intro f hf v d hv hvd
    subst hf
    obtain ⟨kw, ha, hv⟩ := hv
    refine ⟨ops.mkDict (fillFields f fields.keys d), fillFields f fields.keys d, ?_, hl.dict _, ?_⟩
    · exact (key _).2 ⟨kw, ha, by simp only [dictGenerator, hv, hvd]⟩
    · intro k; exact fillFields_get f fields.keys d k
  · intro v' hv'
    obtain ⟨kw, ha, hv⟩ := (key v').1 hv'
    simp only [dictGenerator] at hv
    cases hfn : n.fn kw with
    | error e => rw [hfn] at hv; cases hv
    | ok w => exact ⟨w, kw, ha, hfn⟩

/-- **C41, the fields (partial).**  In a graph containing the nodes of an `@extract_fields`, the node of a field has exactly
the value stored under that key in the dictionary; if the key is missing, the node's function raises.  Missing: a function
called `field_to_extract` (`C41_violated_name`). -/
theorem C41_field_partial {g : Graph T V} {inputs overrides : Dict Name V} {ops : PyOps V} {dictT : T} {fields : Dict Name T}
    {fill : Option V} {n : Node T V} (hdef : ∀ m ∈ extractFields ops dictT fields fill n, Defines g m)
    (hname : n.name ≠ "field_to_extract") {f : Name} (hf : f ∈ fields.keys) (hov : overrides.get? f = none) {v : V}
    {d : Dict Name V} (hv : Den g inputs overrides n.name v) (hd : ops.asDict v = some d) :
    (∀ w, Den g inputs overrides f w ↔ d.get? f = some w) ∧
    (d.get? f = none → ∃ m, g.get? f = some m ∧ ∀ kw, RightArgs g inputs overrides m kw →
      m.fn kw = .error "InvalidDecoratorException") := by
  obtain ⟨p, hp, rfl⟩ := List.mem_map.1 hf
  let m : Node T V :=
    { name := p.1, typ := p.2, kind := .standard, inputTypes := [(n.name, (dictT, .required))],
      dependencies := [], dependedOnBy := [], fn := extractorFn ops n.name p.1 }
  have hdm : Defines g m := hdef m (List.mem_cons_of_mem _ (List.mem_map.2 ⟨p, hp, rfl⟩))
  have hexn : d.get? p.1 = none → extractorFn ops n.name p.1 [(n.name, v)] = .error "InvalidDecoratorException" := by
    intro hg
    simp only [extractorFn, if_neg hname, Dict.get?_cons, if_true, hd, hg]
  have hexs : ∀ x, d.get? p.1 = some x → extractorFn ops n.name p.1 [(n.name, v)] = .ok x := by
    intro x hg
    simp only [extractorFn, if_neg hname, Dict.get?_cons, if_true, hd, hg]
  constructor
  · intro w
    rw [show p.1 = m.name from rfl, den_iff_fnValue hdm (by simp [m]) hov w]
    constructor
    · rintro ⟨kw, ha, hw⟩
      obtain ⟨v', hv', rfl⟩ := (rightArgs_single (n := m) rfl kw).1 ha
      have := hv.det hv'
      subst this
      have hw : extractorFn ops n.name p.1 [(n.name, v)] = .ok w := hw
      cases hg : d.get? p.1 with
      | none => rw [hexn hg] at hw; cases hw
      | some x => rw [hexs x hg] at hw; cases hw; rfl
    · intro hg
      refine ⟨[(n.name, v)], (rightArgs_single (n := m) rfl _).2 ⟨v, hv, rfl⟩, ?_⟩
      exact hexs w hg
  · intro hg
    obtain ⟨m', hm', hs⟩ := hdm
    refine ⟨m', hm', ?_⟩
    intro kw ha
    rw [hs.fn]
    obtain ⟨v', hv', rfl⟩ := (rightArgs_single (n := m') (by rw [hs.inputTypes]) kw).1 ha
    have := hv.det hv'
    subst this
    exact hexn hg

/-! ### C37 -/

theorem validatorNames_length (base : Name) : ∀ (vs : List (Validator V)) (c : Dict Name Nat),
    (validatorNames base vs c).length = vs.length := by
  intro vs
  induction vs with
  | nil => intro c; rfl
  | cons v vs ih => intro c; simp only [validatorNames, List.length_cons, ih]

theorem foldl_set_get {K W : Type} [DecidableEq K] : ∀ (l : List (K × W)) (acc : Dict K W) (k : K),
    (l.map (·.1)).Nodup →
    (l.foldl (fun d p => Dict.set d p.1 p.2) acc).get? k =
      match Dict.get? (l : Dict K W) k with
      | some v => some v
      | none => acc.get? k := by
  intro l
  induction l with
  | nil => intro acc k _; rfl
  | cons p t ih =>
    intro acc k hn
    obtain ⟨a, b⟩ := p
    simp only [List.map_cons, List.nodup_cons] at hn
    rw [List.foldl_cons, ih _ _ hn.2, Dict.get?_cons]
    by_cases ha : a = k
    · subst ha
      have : Dict.get? (t : Dict K W) a = none := (Dict.get?_eq_none_iff _ _).2 hn.1
      rw [this, if_pos rfl, Dict.get?_set_self]
    · rw [if_neg ha, Dict.get?_set_ne _ _ ha]

/-- The results collected are those of the validators of importance FAIL, in order. -/
theorem collectFailures_spec {ops : PyOps V} (hl : ops.Lawful) {byName : Dict Name (Validator V)} {kw : Dict Name V}
    (b : Validator V → Bool) : ∀ (pairs : List (Name × Validator V)),
    (∀ p ∈ pairs, byName.get? p.1 = some p.2 ∧ kw.get? p.1 = some (ops.mkResult (b p.2))) →
    collectFailures ops byName kw (pairs.map (·.1)) =
      .ok ((pairs.filter (fun p => decide (p.2.level ≠ .warn))).map (fun p => b p.2)) := by
  intro pairs
  induction pairs with
  | nil => intro _; rfl
  | cons p t ih =>
    intro h
    obtain ⟨h1, h2⟩ := h p (by simp)
    simp only [List.map_cons, collectFailures, h1, h2, hl.result, ih (fun q hq => h q (by simp [hq]))]
    by_cases hw : p.2.level = .warn
    · simp [hw]
    · simp [hw]

theorem foldl_set_keys {W : Type} (w : W) : ∀ (names : List Name) (acc : Dict Name W),
    (acc.keys ++ names).Nodup →
    names.foldl (fun d m => Dict.set d m w) acc = acc ++ names.map (fun m => (m, w)) := by
  have hset : ∀ (d : Dict Name W) (k : Name), k ∉ d.keys → Dict.set d k w = d ++ [(k, w)] := by
    intro d k hk
    induction d with
    | nil => rfl
    | cons p t ih =>
      obtain ⟨a, b⟩ := p
      simp only [Dict.keys, List.map_cons, List.mem_cons, not_or] at hk
      simp only [Dict.set, if_neg (Ne.symm hk.1), List.cons_append]
      rw [ih hk.2]
  intro names
  induction names with
  | nil => intro acc _; simp
  | cons m ms ih =>
    intro acc h
    rw [List.foldl_cons, hset acc m ?_, ih]
    · simp
    · have : Dict.keys (acc ++ [(m, w)]) = acc.keys ++ [m] := by simp [Dict.keys]
      rw [this]; simpa using h
    · intro hm
      rw [List.nodup_append] at h
      exact h.2.2 m hm m (by simp) rfl

/-- Digits contain no underscore. -/
theorem nat_no_underscore (k : Nat) : '_' ∉ (toString k).toList := by
  intro h
  have h' : '_' ∈ Nat.toDigits 10 k := by simpa [Nat.repr] using h
  exact absurd (Nat.isDigit_of_mem_toDigits (b := 10) (by omega) (by omega) h') (by decide)

/-- The last separator of a list is determined. -/
theorem last_sep_unique {c : Char} : ∀ {a b d e : List Char}, c ∉ d → c ∉ e → a ++ c :: d = b ++ c :: e → a = b ∧ d = e := by
  intro a
  induction a with
  | nil =>
    intro b d e hd he h
    cases b with
    | nil => simp only [List.nil_append, List.cons.injEq, true_and] at h; exact ⟨rfl, h⟩
    | cons x b =>
      simp only [List.nil_append, List.cons_append, List.cons.injEq] at h
      exact absurd (h.2 ▸ by simp : c ∈ d) hd
  | cons x a ih =>
    intro b d e hd he h
    cases b with
    | nil =>
      simp only [List.nil_append, List.cons_append, List.cons.injEq] at h
      exact absurd (h.2 ▸ by simp : c ∈ e) he
    | cons y b =>
      simp only [List.cons_append, List.cons.injEq] at h
      obtain ⟨h1, h2⟩ := ih hd he h.2
      exact ⟨by rw [h.1, h1], h2⟩

theorem numbered_inj {a b : String} {i j : Nat} (h : a ++ "_" ++ toString i = b ++ "_" ++ toString j) : a = b ∧ i = j := by
  have h' := congrArg String.toList h
  simp only [String.toList_append] at h'
  have e : "_".toList = ['_'] := by decide
  rw [e, List.append_assoc, List.append_assoc, List.singleton_append, List.singleton_append] at h'
  obtain ⟨h1, h2⟩ := last_sep_unique (nat_no_underscore i) (nat_no_underscore j) h'
  exact ⟨String.toList_inj.1 h1, Nat.repr_injective (String.toList_inj.1 h2)⟩

/-- The name of the `i`-th occurrence of a validator. -/
def numbered (base v : Name) : Nat → Name
  | 0 => base ++ "_" ++ v
  | i + 1 => base ++ "_" ++ v ++ "_" ++ toString (i + 1)

/-- No validator has the name of another one with a number, nor the name `raw`. -/
structure ClearNames (vs : List (Validator V)) : Prop where
  numbers : ∀ u ∈ vs, ∀ w ∈ vs, ∀ k : Nat, u.name ≠ w.name ++ "_" ++ toString (k + 1)
  raw : ∀ v ∈ vs, v.name ≠ "raw"

theorem str_append_inj_left {a b c : String} (h : a ++ b = a ++ c) : b = c := by
  have h' := congrArg String.toList h
  simp only [String.toList_append] at h'
  exact String.toList_inj.1 (List.append_cancel_left h')

theorem numbered_clear {base : Name} {vs : List (Validator V)} (h : ClearNames vs) {u w : Validator V} (hu : u ∈ vs) (hw : w ∈ vs)
    {i j : Nat} (he : numbered base u.name i = numbered base w.name j) : u.name = w.name ∧ i = j := by
  cases i with
  | zero =>
    cases j with
    | zero => exact ⟨str_append_inj_left he, rfl⟩
    | succ j =>
      simp only [numbered, String.append_assoc] at he
      have he := str_append_inj_left (str_append_inj_left he)
      exact absurd (by rw [he, String.append_assoc]) (h.numbers u hu w hw j)
  | succ i =>
    cases j with
    | zero =>
      simp only [numbered, String.append_assoc] at he
      have he := str_append_inj_left (str_append_inj_left he)
      exact absurd (by rw [← he, String.append_assoc]) (h.numbers w hw u hu i)
    | succ j =>
      obtain ⟨h1, h2⟩ := numbered_inj he
      exact ⟨str_append_inj_left h1, h2⟩

/-- The names given to validators, in terms of how often each name has occurred before. -/
theorem validatorNames_mem (base : Name) : ∀ (vs : List (Validator V)) (c : Dict Name Nat) (m : Name),
    m ∈ validatorNames base vs c → ∃ v ∈ vs, ∃ j, (c.get? (base ++ "_" ++ v.name)).getD 0 ≤ j ∧ m = numbered base v.name j := by
  intro vs
  induction vs with
  | nil => intro c m h; cases h
  | cons v vs ih =>
    intro c m h
    simp only [validatorNames, List.mem_cons] at h
    rcases h with h | h
    · refine ⟨v, by simp, _, Nat.le_refl _, ?_⟩
      rw [h]
      cases (c.get? (base ++ "_" ++ v.name)).getD 0 with
      | zero => rfl
      | succ k => simp [numbered]
    · obtain ⟨w, hw, j, hj, rfl⟩ := ih _ _ h
      refine ⟨w, by simp [hw], j, ?_, rfl⟩
      rw [Dict.get?_set] at hj
      split at hj
      · rename_i he
        rw [← he]
        simp only [Option.getD_some] at hj
        omega
      · exact hj

theorem validatorNames_nodup {base : Name} : ∀ (vs : List (Validator V)) (c : Dict Name Nat), ClearNames vs →
    (validatorNames base vs c).Nodup := by
  intro vs
  induction vs with
  | nil => intro c _; simp [validatorNames]
  | cons v vs ih =>
    intro c h
    simp only [validatorNames]
    rw [List.nodup_cons]
    refine ⟨?_, ih _ ⟨fun u hu w hw => h.numbers u (by simp [hu]) w (by simp [hw]), fun u hu => h.raw u (by simp [hu])⟩⟩
    intro hm
    obtain ⟨w, hw, j, hj, he⟩ := validatorNames_mem base vs _ _ hm
    have hhead : (if (c.get? (base ++ "_" ++ v.name)).getD 0 + 1 > 1 then
        base ++ "_" ++ v.name ++ "_" ++ toString ((c.get? (base ++ "_" ++ v.name)).getD 0 + 1 - 1)
        else base ++ "_" ++ v.name) = numbered base v.name ((c.get? (base ++ "_" ++ v.name)).getD 0) := by
      cases (c.get? (base ++ "_" ++ v.name)).getD 0 with
      | zero => rfl
      | succ k => simp [numbered]
    rw [hhead] at he
    obtain ⟨h1, h2⟩ := numbered_clear h (by simp) (by simp [hw]) he
    rw [h1, Dict.get?_set_self] at hj
    rw [h1] at h2
    simp only [Option.getD_some] at hj
    omega

section CheckOutput
variable {g : Graph T V} {inputs overrides : Dict Name V} {ops : PyOps V} {resultT : T} {vs : List (Validator V)} {n : Node T V}

/-- The node holding the undecorated function. -/
def rawNode (n : Node T V) : Node T V :=
  { name := n.name ++ "_raw", typ := n.typ, kind := n.kind, inputTypes := n.inputTypes, dependencies := [],
    dependedOnBy := [], fn := n.fn }

/-- The names given to the validators, with the validators. -/
def checkPairs (vs : List (Validator V)) (n : Node T V) : List (Name × Validator V) := (validatorNames n.name vs []).zip vs

/-- The node of a validator. -/
def validatorNode (ops : PyOps V) (resultT : T) (n : Node T V) (p : Name × Validator V) : Node T V :=
  { name := p.1, typ := resultT, kind := .standard, inputTypes := [(n.name ++ "_raw", (n.typ, .required))],
    dependencies := [], dependedOnBy := [], fn := validationFn ops p.2 }

/-- The node that carries the name of the function. -/
def finalNode (ops : PyOps V) (resultT : T) (vs : List (Validator V)) (n : Node T V) : Node T V :=
  { name := n.name, typ := n.typ, kind := n.kind,
    inputTypes := (validatorNames n.name vs []).foldl (fun d m => d.set m (resultT, .required))
      [(n.name ++ "_raw", (n.typ, .required))],
    dependencies := [], dependedOnBy := [],
    fn := finalFn ops (n.name ++ "_raw") (validatorNames n.name vs [])
      ((checkPairs vs n).foldl (fun d p => d.set p.1 p.2) []) }

theorem checkOutput_eq : checkOutput ops resultT vs n =
    (checkPairs vs n).map (validatorNode ops resultT n) ++ [finalNode ops resultT vs n, rawNode n] := rfl

theorem checkPairs_names (vs : List (Validator V)) (n : Node T V) :
    (checkPairs vs n).map (·.1) = validatorNames n.name vs [] := by
  unfold checkPairs
  exact List.map_fst_zip (by rw [validatorNames_length]; exact Nat.le_refl _)

theorem checkPairs_validators (vs : List (Validator V)) (n : Node T V) : (checkPairs vs n).map (·.2) = vs := by
  unfold checkPairs
  exact List.map_snd_zip (by rw [validatorNames_length]; exact Nat.le_refl _)

/-- Unless validators are named like numbered ones or `raw`, the nodes of a `@check_output` have distinct names. -/
theorem checkOutput_distinct (h : ClearNames vs) : ((checkOutput ops resultT vs n).map (·.name)).Nodup := by
  have hnames : (checkOutput ops resultT vs n).map (·.name) = validatorNames n.name vs [] ++ [n.name, n.name ++ "_raw"] := by
    rw [checkOutput_eq, List.map_append, List.map_map, ← checkPairs_names vs n]
    rfl
  rw [hnames, List.nodup_append]
  refine ⟨validatorNames_nodup vs [] h, ?_, ?_⟩
  · simp only [List.nodup_cons, List.mem_singleton, List.not_mem_nil, not_false_eq_true, List.nodup_nil, and_true]
    intro he
    have := congrArg String.length he
    simp [String.length_append] at this
  · intro a ha b hb he
    subst he
    obtain ⟨v, hv, j, _, rfl⟩ := validatorNames_mem n.name vs [] a ha
    simp only [List.mem_cons, List.not_mem_nil, or_false] at hb
    rcases hb with hb | hb
    · have hl := congrArg String.length hb
      have e1 : ("_" : String).length = 1 := by decide
      cases j with
      | zero => simp only [numbered, String.length_append] at hl; omega
      | succ j => simp only [numbered, String.length_append] at hl; omega
    · have e : n.name ++ "_raw" = n.name ++ "_" ++ "raw" := by
        rw [String.append_assoc]; rfl
      rw [e] at hb
      cases j with
      | zero => exact h.raw v hv (str_append_inj_left hb)
      | succ j =>
        simp only [numbered, String.append_assoc] at hb
        have hb := congrArg String.toList (str_append_inj_left (str_append_inj_left hb))
        simp only [String.toList_append] at hb
        have h1 : '_' ∈ "raw".toList := by
          rw [← hb]; simp
        exact absurd h1 (by decide)

/-- Everything about the final node's arguments. -/
theorem finalNode_facts (hl : ops.Lawful) (hdis : ((checkOutput ops resultT vs n).map (·.name)).Nodup) :
    (finalNode ops resultT vs n).inputTypes =
      (n.name ++ "_raw", (n.typ, .required)) :: (validatorNames n.name vs []).map (fun m => (m, (resultT, .required))) ∧
    ∀ (kw : Dict Name V) (x : V) (b : Validator V → Bool), kw.get? (n.name ++ "_raw") = some x →
      (∀ p ∈ checkPairs vs n, kw.get? p.1 = some (ops.mkResult (b p.2))) →
      ((∀ v ∈ vs, v.level = .fail → b v = true) → (finalNode ops resultT vs n).fn kw = .ok x) ∧
      ((∃ v ∈ vs, v.level = .fail ∧ b v = false) → (finalNode ops resultT vs n).fn kw = .error "DataValidationError") := by
  have hn : ((n.name ++ "_raw") :: validatorNames n.name vs []).Nodup := by
    rw [checkOutput_eq] at hdis
    simp only [List.map_append, List.map_map, List.map_cons, List.map_nil] at hdis
    have e : ((fun x : Node T V => x.name) ∘ validatorNode ops resultT n) = (fun p : Name × Validator V => p.1) := rfl
    rw [e, checkPairs_names, List.nodup_append] at hdis
    rw [List.nodup_cons]
    refine ⟨fun hm => ?_, hdis.1⟩
    exact hdis.2.2 _ hm _ (by simp [rawNode]) rfl
  refine ⟨?_, ?_⟩
  · have : Dict.keys [(n.name ++ "_raw", (n.typ, DepType.required))] = [n.name ++ "_raw"] := rfl
    simp only [finalNode]
    rw [foldl_set_keys _ _ _ (by rw [this]; exact hn)]
    rfl
  · intro kw x b hx hr
    have hby : ∀ p ∈ checkPairs vs n, ((checkPairs vs n).foldl (fun d p => Dict.set d p.1 p.2) []).get? p.1 = some p.2 := by
      intro p hp
      have hnd : ((checkPairs vs n).map (·.1)).Nodup := by
        rw [checkPairs_names]; exact (List.nodup_cons.1 hn).2
      rw [foldl_set_get _ _ _ hnd, Dict.get?_of_mem hnd hp]
    have hc := collectFailures_spec hl (byName := (checkPairs vs n).foldl (fun d p => Dict.set d p.1 p.2) []) (kw := kw)
      b (checkPairs vs n) (fun p hp => ⟨hby p hp, hr p hp⟩)
    rw [checkPairs_names] at hc
    have hany : (((checkPairs vs n).filter (fun p => decide (p.2.level ≠ .warn))).map (fun p => b p.2)).any (fun b => !b) = true
        ↔ ∃ v ∈ vs, v.level = .fail ∧ b v = false := by
      rw [List.any_eq_true]
      constructor
      · rintro ⟨y, hy, hy'⟩
        obtain ⟨p, hp, rfl⟩ := List.mem_map.1 hy
        obtain ⟨hp1, hp2⟩ := List.mem_filter.1 hp
        refine ⟨p.2, ?_, ?_, by simpa using hy'⟩
        · rw [← checkPairs_validators vs n]; exact List.mem_map.2 ⟨p, hp1, rfl⟩
        · simp only [ne_eq, decide_not, Bool.not_eq_true', decide_eq_false_iff_not] at hp2
          cases hlv : p.2.level with
          | warn => exact absurd hlv hp2
          | fail => rfl
      · rintro ⟨v, hv, hf, hb⟩
        rw [← checkPairs_validators vs n] at hv
        obtain ⟨p, hp, rfl⟩ := List.mem_map.1 hv
        refine ⟨b p.2, List.mem_map.2 ⟨p, List.mem_filter.2 ⟨hp, by simp [hf]⟩, rfl⟩, by simp [hb]⟩
    constructor
    · intro hall
      simp only [finalNode, finalFn, hc]
      rw [if_neg, hx]
      rw [hany]
      rintro ⟨v, hv, hf, hb⟩
      rw [hall v hv hf] at hb; cases hb
    · intro hex
      simp only [finalNode, finalFn, hc]
      rw [if_pos (hany.2 hex)]

/-- The value of a validator's node is its verdict on the value of the raw node. -/
theorem validatorNode_den (hdef : ∀ m ∈ checkOutput ops resultT vs n, Defines g m)
    {p : Name × Validator V} (hp : p ∈ checkPairs vs n) (hov : overrides.get? p.1 = none) (r : V) :
    Den g inputs overrides p.1 r ↔ ∃ x b, Den g inputs overrides (n.name ++ "_raw") x ∧ p.2.validate x = .ok b ∧
      r = ops.mkResult b := by
  have hd : Defines g (validatorNode ops resultT n p) :=
    hdef _ (by rw [checkOutput_eq]; exact List.mem_append_left _ (List.mem_map.2 ⟨p, hp, rfl⟩))
  have := den_iff_fnValue (inputs := inputs) (overrides := overrides) hd (by simp [validatorNode]) hov r
  rw [show p.1 = (validatorNode ops resultT n p).name from rfl, this]
  constructor
  · rintro ⟨kw, ha, hf⟩
    obtain ⟨x, hx, rfl⟩ := (rightArgs_single (n := validatorNode ops resultT n p) rfl kw).1 ha
    simp only [validatorNode, validationFn] at hf
    cases hv : p.2.validate x with
    | error e => rw [hv] at hf; cases hf
    | ok b => rw [hv] at hf; cases hf; exact ⟨x, b, hx, hv, rfl⟩
  · rintro ⟨x, b, hx, hv, rfl⟩
    refine ⟨[(n.name ++ "_raw", x)], (rightArgs_single (n := validatorNode ops resultT n p) rfl _).2 ⟨x, hx, rfl⟩, ?_⟩
    simp only [validatorNode, validationFn, hv]

/-- The raw node has the value of the undecorated function. -/
theorem rawNode_den (hdef : ∀ m ∈ checkOutput ops resultT vs n, Defines g m) (hk : n.kind ≠ .external)
    (hov : overrides.get? (n.name ++ "_raw") = none) (v : V) :
    Den g inputs overrides (n.name ++ "_raw") v ↔ FnValue g inputs overrides n v :=
  den_iff_fnValue (n := rawNode n) (hdef _ (by rw [checkOutput_eq]; simp)) hk hov v

/-- Arguments of the final node, once the raw node has a value on which no validator raises. -/
theorem finalNode_args (hl : ops.Lawful) (hdef : ∀ m ∈ checkOutput ops resultT vs n, Defines g m)
    (hdis : ((checkOutput ops resultT vs n).map (·.name)).Nodup)
    (hov : ∀ m ∈ checkOutput ops resultT vs n, overrides.get? m.name = none) {v : V}
    (hraw : Den g inputs overrides (n.name ++ "_raw") v) {kw : Dict Name V}
    (ha : RightArgs g inputs overrides (finalNode ops resultT vs n) kw) :
    kw.get? (n.name ++ "_raw") = some v ∧ ∃ b : Validator V → Bool,
      (∀ d ∈ vs, d.validate v = .ok (b d)) ∧
      ∀ p ∈ checkPairs vs n, kw.get? p.1 = some (ops.mkResult (b p.2)) := by
  obtain ⟨hin, _⟩ := finalNode_facts (n := n) (resultT := resultT) hl hdis
  constructor
  · rcases rightArgs_get ha (d := n.name ++ "_raw") (t := (n.typ, .required)) (by rw [hin]; simp) with ⟨w, h1, h2⟩ | ⟨_, h, _⟩
    · rw [h1, hraw.det h2]
    · cases h
  · have hval : ∀ p ∈ checkPairs vs n, ∃ b, p.2.validate v = .ok b ∧ kw.get? p.1 = some (ops.mkResult b) := by
      intro p hp
      have hpn : p.1 ∈ validatorNames n.name vs [] := by
        rw [← checkPairs_names]; exact List.mem_map.2 ⟨p, hp, rfl⟩
      have hovp : overrides.get? p.1 = none := hov (validatorNode ops resultT n p)
        (by rw [checkOutput_eq]; exact List.mem_append_left _ (List.mem_map.2 ⟨p, hp, rfl⟩))
      rcases rightArgs_get ha (d := p.1) (t := (resultT, .required))
        (by rw [hin]; exact List.mem_cons_of_mem _ (List.mem_map.2 ⟨p.1, hpn, rfl⟩)) with ⟨w, h1, h2⟩ | ⟨_, h, _⟩
      · obtain ⟨x, b, hx, hb, rfl⟩ := (validatorNode_den hdef hp hovp w).1 h2
        rw [← hraw.det hx] at hb
        exact ⟨b, hb, h1⟩
      · cases h
    refine ⟨fun d => match d.validate v with | .ok b => b | .error _ => false, ?_, ?_⟩
    · intro d hd
      rw [← checkPairs_validators vs n] at hd
      obtain ⟨p, hp, rfl⟩ := List.mem_map.1 hd
      obtain ⟨b, h1, _⟩ := hval p hp
      simp only [h1]
    · intro p hp
      obtain ⟨b, h1, h2⟩ := hval p hp
      simp only [h1, h2]

/-- Arguments of the final node exist, once the raw node has a value on which no validator raises. -/
theorem finalNode_args_exist (hl : ops.Lawful) (hdef : ∀ m ∈ checkOutput ops resultT vs n, Defines g m)
    (hdis : ((checkOutput ops resultT vs n).map (·.name)).Nodup)
    (hov : ∀ m ∈ checkOutput ops resultT vs n, overrides.get? m.name = none) {v : V}
    (hraw : Den g inputs overrides (n.name ++ "_raw") v) (hnr : ∀ d ∈ vs, ∃ b, d.validate v = .ok b) :
    ∃ kw, RightArgs g inputs overrides (finalNode ops resultT vs n) kw := by
  obtain ⟨hin, _⟩ := finalNode_facts (n := n) (resultT := resultT) hl hdis
  have hden : ∀ d ∈ (finalNode ops resultT vs n).inputTypes.keys, ∃ w, Den g inputs overrides d w := by
    intro d hd
    rw [hin] at hd
    rw [Dict.keys_cons] at hd
    rcases List.mem_cons.1 hd with rfl | hd
    · exact ⟨v, hraw⟩
    · have hd' : d ∈ validatorNames n.name vs [] := by simpa [Dict.keys] using hd
      rw [← checkPairs_names] at hd'
      obtain ⟨p, hp, rfl⟩ := List.mem_map.1 hd'
      have hovp : overrides.get? p.1 = none := hov (validatorNode ops resultT n p)
        (by rw [checkOutput_eq]; exact List.mem_append_left _ (List.mem_map.2 ⟨p, hp, rfl⟩))
      have : p.2 ∈ vs := by rw [← checkPairs_validators vs n]; exact List.mem_map.2 ⟨p, hp, rfl⟩
      obtain ⟨b, hb⟩ := hnr _ this
      exact ⟨ops.mkResult b, (validatorNode_den hdef hp hovp _).2 ⟨v, b, hraw, hb, rfl⟩⟩
  classical
  let val : Name → Option V := fun d =>
    if h : ∃ w, Den g inputs overrides d w then some h.choose else none
  refine ⟨_, val, ?_, ?_, rfl⟩
  · intro d w _ hw
    simp only [val] at hw
    split at hw
    · rename_i h; cases hw; exact h.choose_spec
    · cases hw
  · intro d t hd hv
    have : d ∈ (finalNode ops resultT vs n).inputTypes.keys := List.mem_map.2 ⟨_, hd, rfl⟩
    simp only [val, dif_pos (hden d this)] at hv
    cases hv

/-- **C37 (partial).**  In a graph containing the nodes of a `@check_output` (none of them overridden):
* a value of the decorated function is a value of the undecorated function that every validator of importance FAIL accepts;
* a value of the undecorated function that every validator of importance FAIL accepts is the value of the decorated one,
  provided that no validator raises on it, whatever the validators of importance WARN say;
* if a validator of importance FAIL rejects it (and none raises), the decorated function is called and raises.
Several validators of the same kind (same name) are all run.
Missing: a validator of importance WARN that raises fails the run (`C37_violated_warn`); a validator named like the
second occurrence of another one (`C37_violated_names`). -/
theorem C37_partial (hl : ops.Lawful) (hk : n.kind ≠ .external)
    (hdef : ∀ m ∈ checkOutput ops resultT vs n, Defines g m)
    (hnames : ClearNames vs)
    (hov : ∀ m ∈ checkOutput ops resultT vs n, overrides.get? m.name = none) (v : V) :
    (Den g inputs overrides n.name v →
      FnValue g inputs overrides n v ∧ ∀ d ∈ vs, d.level = .fail → d.validate v = .ok true) ∧
    (FnValue g inputs overrides n v → (∀ d ∈ vs, d.level = .fail → d.validate v = .ok true) →
      (∀ d ∈ vs, ∃ b, d.validate v = .ok b) → Den g inputs overrides n.name v) ∧
    (FnValue g inputs overrides n v → (∃ d ∈ vs, d.level = .fail ∧ d.validate v = .ok false) →
      (∀ d ∈ vs, ∃ b, d.validate v = .ok b) →
      ∃ m, g.get? n.name = some m ∧ (∃ kw, RightArgs g inputs overrides m kw) ∧
        ∀ kw, RightArgs g inputs overrides m kw → m.fn kw = .error "DataValidationError") := by
  have hdis : ((checkOutput ops resultT vs n).map (·.name)).Nodup := checkOutput_distinct hnames
  have hdf : Defines g (finalNode ops resultT vs n) := hdef _ (by rw [checkOutput_eq]; simp)
  have hovr : overrides.get? (n.name ++ "_raw") = none := hov (rawNode n) (by rw [checkOutput_eq]; simp)
  have hovf : overrides.get? n.name = none := hov (finalNode ops resultT vs n) (by rw [checkOutput_eq]; simp)
  have hfinal := den_iff_fnValue (inputs := inputs) (overrides := overrides) hdf hk hovf
  obtain ⟨hin, hfn⟩ := finalNode_facts (n := n) (resultT := resultT) hl hdis
  refine ⟨?_, ?_, ?_⟩
  · intro h
    obtain ⟨kw, ha, hw⟩ := (hfinal v).1 h
    obtain ⟨x, hx1, hx2⟩ : ∃ w, kw.get? (n.name ++ "_raw") = some w ∧ Den g inputs overrides (n.name ++ "_raw") w := by
      rcases rightArgs_get ha (d := n.name ++ "_raw") (t := (n.typ, .required)) (by rw [hin]; simp) with h | ⟨_, h, _⟩
      · exact h
      · cases h
    obtain ⟨_, b, hb, hp⟩ := finalNode_args hl hdef hdis hov hx2 ha
    obtain ⟨h1, h2⟩ := hfn kw x b hx1 hp
    by_cases hbad : ∃ d ∈ vs, d.level = .fail ∧ b d = false
    · rw [h2 hbad] at hw; cases hw
    · have hall : ∀ d ∈ vs, d.level = .fail → b d = true := by
        intro d hd hf
        cases hbd : b d with
        | true => rfl
        | false => exact absurd ⟨d, hd, hf, hbd⟩ hbad
      rw [h1 hall] at hw
      cases hw
      refine ⟨(rawNode_den hdef hk hovr v).1 hx2, ?_⟩
      intro d hd hf
      rw [hb d hd, hall d hd hf]
  · intro hv hall hnr
    have hraw := (rawNode_den hdef hk hovr v).2 hv
    obtain ⟨kw, ha⟩ := finalNode_args_exist hl hdef hdis hov hraw hnr
    obtain ⟨hx, b, hb, hp⟩ := finalNode_args hl hdef hdis hov hraw ha
    refine (hfinal v).2 ⟨kw, ha, (hfn kw v b hx hp).1 ?_⟩
    intro d hd hf
    have h1 := hall d hd hf
    rw [hb d hd] at h1
    exact Except.ok.inj h1
  · intro hv hex hnr
    have hraw := (rawNode_den hdef hk hovr v).2 hv
    obtain ⟨kw0, ha0⟩ := finalNode_args_exist hl hdef hdis hov hraw hnr
    obtain ⟨m, hm, hs⟩ := hdf
    have hra : ∀ kw, RightArgs g inputs overrides m kw ↔ RightArgs g inputs overrides (finalNode ops resultT vs n) kw := by
      intro kw; unfold RightArgs; rw [hs.inputTypes]
    refine ⟨m, hm, ⟨kw0, (hra kw0).2 ha0⟩, ?_⟩
    intro kw ha
    have ha := (hra kw).1 ha
    rw [hs.fn]
    obtain ⟨hx, b, hb, hp⟩ := finalNode_args hl hdef hdis hov hraw ha
    refine (hfn kw v b hx hp).2 ?_
    obtain ⟨d, hd, hf, hbad⟩ := hex
    rw [hb d hd] at hbad
    cases hbb : b d with
    | false => exact ⟨d, hd, hf, hbb⟩
    | true => rw [hbb] at hbad; cases hbad

end CheckOutput

/-! ### C39 -/
section Parameterize
variable {g : Graph T V} {inputs overrides : Dict Name V} {ops : PyOps V} {comp : T → T} {spec : Dict Name (ParamDep V)}
  {n : Node T V}

/-- The nodes a replacement refers to. -/
def ParamDep.refs : ParamDep V → List Name
  | .single (.value _) => []
  | .single (.source s) => [s]
  | .groupList ds => ds.filterMap (fun d => match d with | .value _ => none | .source s => some s)
  | .groupDict ds => ds.filterMap (fun d => match d.2 with | .value _ => none | .source s => some s)

/-- `s` is the source of a parameter of the function. -/
def UsedSource (spec : Dict Name (ParamDep V)) (n : Node T V) (s : Name) : Prop :=
  ∃ p ∈ n.inputTypes.keys, ∃ d, spec.get? p = some d ∧ s ∈ d.refs

/-- Two lists of the same length, related member by member. -/
inductive AllPairs {A B : Type} (R : A → B → Prop) : List A → List B → Prop
  | nil : AllPairs R [] []
  | cons {a b l m} : R a b → AllPairs R l m → AllPairs R (a :: l) (b :: m)

/-- The value a single replacement stands for. -/
inductive SingleVal (g : Graph T V) (inputs overrides : Dict Name V) : SingleDep V → V → Prop
  | value {v} : SingleVal g inputs overrides (.value v) v
  | source {s v} : Den g inputs overrides s v → SingleVal g inputs overrides (.source s) v

/-- The value that a specification gives to a parameter. -/
inductive ParamVal (ops : PyOps V) (g : Graph T V) (inputs overrides : Dict Name V) (spec : Dict Name (ParamDep V)) (p : Name) :
    V → Prop
  | single {d v} : spec.get? p = some (.single d) → SingleVal g inputs overrides d v → ParamVal ops g inputs overrides spec p v
  | groupList {ds vs} : spec.get? p = some (.groupList ds) → AllPairs (SingleVal g inputs overrides) ds vs →
      ParamVal ops g inputs overrides spec p (ops.mkList vs)
  | groupDict {ds} {vs : Dict Name V} : spec.get? p = some (.groupDict ds) →
      AllPairs (fun d v => d.1 = v.1 ∧ SingleVal g inputs overrides d.2 v.2) ds vs →
      ParamVal ops g inputs overrides spec p (ops.mkDict vs)
  | same {v} : spec.get? p = none → Den g inputs overrides p v → ParamVal ops g inputs overrides spec p v

/-- The arguments the decorated function must be called with: every parameter as specified; a parameter that is not
mentioned, has a default and whose input is not supplied is left to its default. -/
def SpecArgs (ops : PyOps V) (g : Graph T V) (inputs overrides : Dict Name V) (spec : Dict Name (ParamDep V)) (n : Node T V)
    (kw : Dict Name V) : Prop :=
  ∃ val : Name → Option V,
    (∀ p v, p ∈ n.inputTypes.keys → val p = some v → ParamVal ops g inputs overrides spec p v) ∧
    (∀ p t, (p, t) ∈ n.inputTypes → val p = none → spec.get? p = none ∧ t.2 = .optional ∧ Absent g inputs overrides p) ∧
    kw = argsFor n.inputTypes val

theorem sources_flatMap (ds : List (SingleDep V)) :
    ds.flatMap SingleDep.sources = ds.filterMap (fun d => match d with | .value _ => none | .source s => some s) := by
  induction ds with
  | nil => rfl
  | cons d ds ih => cases d <;> simp [SingleDep.sources, ih]

theorem sources_flatMap_dict (ds : Dict Name (SingleDep V)) :
    ds.flatMap (fun q => q.2.sources) = ds.filterMap (fun d => match d.2 with | .value _ => none | .source s => some s) := by
  induction ds with
  | nil => rfl
  | cons d ds ih =>
    obtain ⟨k, d⟩ := d
    rw [List.flatMap_cons, List.filterMap_cons, ih]
    cases d <;> rfl

/-- Parameters contributed by one parameter of the function. -/
def contributed (spec : Dict Name (ParamDep V)) (p : Name) : List Name :=
  match spec.get? p with
  | some d => d.refs
  | none => [p]

theorem foldl_set_mem {W : Type} (w : W) : ∀ (l : List Name) (acc : Dict Name W),
    (∀ k, k ∈ (l.foldl (fun d s => Dict.set d s w) acc).keys ↔ k ∈ acc.keys ∨ k ∈ l) ∧
    (∀ k t, (l.foldl (fun d s => Dict.set d s w) acc).get? k = some t → acc.get? k = some t ∨ (k ∈ l ∧ t = w)) := by
  intro l
  induction l with
  | nil => intro acc; simp
  | cons a l ih =>
    intro acc
    obtain ⟨h1, h2⟩ := ih (acc.set a w)
    refine ⟨?_, ?_⟩
    · intro k
      rw [List.foldl_cons, h1, Dict.mem_keys_set]
      simp only [List.mem_cons]
      grind
    · intro k t h
      rw [List.foldl_cons] at h
      rcases h2 k t h with h | ⟨hm, rfl⟩
      · rw [Dict.get?_set] at h
        by_cases ha : a = k
        · rw [if_pos ha] at h; cases h; exact .inr ⟨by simp [ha], rfl⟩
        · rw [if_neg ha] at h; exact .inl h
      · exact .inr ⟨by simp [hm], rfl⟩

/-- One round of the loop, uniformly. -/
theorem newInputTypes_step (comp : T → T) (spec : Dict Name (ParamDep V)) (acc : Dict Name (T × DepType)) (p : Name × (T × DepType)) :
    ∃ w : T × DepType, w.2 = p.2.2 ∧
    (match spec.get? p.1 with
    | some (.single (.source s)) => acc.set s p.2
    | some (.single (.value _)) => acc
    | some (.groupList ds) => (ds.flatMap SingleDep.sources).foldl (fun acc s => acc.set s (comp p.2.1, p.2.2)) acc
    | some (.groupDict ds) =>
      (ds.flatMap (fun q => q.2.sources)).foldl (fun acc s => acc.set s (comp p.2.1, p.2.2)) acc
    | none => acc.set p.1 p.2) = (contributed spec p.1).foldl (fun d s => Dict.set d s w) acc := by
  unfold contributed
  cases spec.get? p.1 with
  | none => exact ⟨p.2, rfl, rfl⟩
  | some d =>
    cases d with
    | single d => cases d with
      | value v => exact ⟨p.2, rfl, rfl⟩
      | source s => exact ⟨p.2, rfl, rfl⟩
    | groupList ds => exact ⟨(comp p.2.1, p.2.2), rfl, by simp only [sources_flatMap, ParamDep.refs]⟩
    | groupDict ds => exact ⟨(comp p.2.1, p.2.2), rfl, by simp only [sources_flatMap_dict, ParamDep.refs]⟩

theorem newInputTypes_spec (comp : T → T) (spec : Dict Name (ParamDep V)) (params : Dict Name (T × DepType)) :
    (newInputTypes comp spec params).keys.Nodup ∧
    (∀ k, k ∈ (newInputTypes comp spec params).keys ↔ ∃ p ∈ params.keys, k ∈ contributed spec p) ∧
    (∀ k t, (k, t) ∈ newInputTypes comp spec params → ∃ p ∈ params, k ∈ contributed spec p.1 ∧ t.2 = p.2.2) := by
  suffices H : ∀ (params acc : Dict Name (T × DepType)), acc.keys.Nodup →
      ∃ r, r = params.foldl (fun acc p =>
        match spec.get? p.1 with
        | some (.single (.source s)) => acc.set s p.2
        | some (.single (.value _)) => acc
        | some (.groupList ds) => (ds.flatMap SingleDep.sources).foldl (fun acc s => acc.set s (comp p.2.1, p.2.2)) acc
        | some (.groupDict ds) =>
          (ds.flatMap (fun q => q.2.sources)).foldl (fun acc s => acc.set s (comp p.2.1, p.2.2)) acc
        | none => acc.set p.1 p.2) acc ∧ r.keys.Nodup ∧
        (∀ k, k ∈ r.keys ↔ k ∈ acc.keys ∨ ∃ p ∈ params.keys, k ∈ contributed spec p) ∧
        (∀ k t, r.get? k = some t → acc.get? k = some t ∨ ∃ p ∈ params, k ∈ contributed spec p.1 ∧ t.2 = p.2.2) by
    obtain ⟨r, hr, h1, h2, h3⟩ := H params [] (by simp [Dict.keys])
    have : newInputTypes comp spec params = r := by rw [hr]; rfl
    rw [this]
    refine ⟨h1, ?_, ?_⟩
    · intro k; rw [h2]; simp [Dict.keys]
    · intro k t hk
      rcases h3 k t (Dict.get?_of_mem h1 hk) with h | h
      · cases h
      · exact h
  intro params
  induction params with
  | nil => intro acc hn; exact ⟨acc, rfl, hn, by simp [Dict.keys], fun k t h => .inl h⟩
  | cons p ps ih =>
    intro acc hn
    obtain ⟨w, hw, he⟩ := newInputTypes_step comp spec acc p
    have hn' : ∀ (l : List Name) (acc : Dict Name (T × DepType)), acc.keys.Nodup →
        (l.foldl (fun d s => Dict.set d s w) acc).keys.Nodup := by
      intro l
      induction l with
      | nil => intro acc h; exact h
      | cons a l ih => intro acc h; exact ih _ (Dict.keys_set_nodup h _ _)
    obtain ⟨r, hr, h1, h2, h3⟩ := ih _ (hn' (contributed spec p.1) acc hn)
    obtain ⟨m1, m2⟩ := foldl_set_mem w (contributed spec p.1) acc
    refine ⟨r, ?_, h1, ?_, ?_⟩
    · rw [hr, List.foldl_cons, ← he]
    · intro k
      rw [h2, m1, Dict.keys_cons]
      simp only [List.mem_cons, exists_eq_or_imp]
      grind
    · intro k t hk
      rcases h3 k t hk with h | ⟨q, hq, h, h'⟩
      · rcases m2 k t h with h | ⟨hm, rfl⟩
        · exact .inl h
        · exact .inr ⟨p, by simp, hm, hw⟩
      · exact .inr ⟨q, by simp [hq], h, h'⟩

theorem newKwargs_eq {kw : Dict Name V} (val : Name → Option V) : ∀ (ps : List Name),
    (∀ p ∈ ps, resolveParam ops spec kw p = .ok (val p)) →
    newKwargs ops spec kw ps = .ok (ps.filterMap (fun p => (val p).map (fun v => (p, v)))) := by
  intro ps
  induction ps with
  | nil => intro _; rfl
  | cons p ps ih =>
    intro h
    simp only [newKwargs, h p (by simp), ih (fun q hq => h q (by simp [hq])), List.filterMap_cons]
    cases val p <;> rfl

theorem argsFor_eq_filterMap (params : Dict Name (T × DepType)) (val : Name → Option V) :
    argsFor params val = params.keys.filterMap (fun p => (val p).map (fun v => (p, v))) := by
  simp only [argsFor, Dict.keys, List.filterMap_map]
  rfl

/-- Resolving against keyword arguments that hold the values of all sources. -/
theorem resolveParam_spec {kw : Dict Name V} {p : Name}
    (hs : ∀ d, spec.get? p = some d → ∀ s ∈ d.refs, ∃ w, kw.get? s = some w ∧ Den g inputs overrides s w)
    (hp : spec.get? p = none → ∀ v, kw.get? p = some v → Den g inputs overrides p v) :
    ∃ o, resolveParam ops spec kw p = .ok o ∧ (∀ v, o = some v → ParamVal ops g inputs overrides spec p v) ∧
      (o = none → spec.get? p = none ∧ kw.get? p = none) := by
  have single : ∀ d : SingleDep V, (∀ s ∈ (ParamDep.single d).refs, ∃ w, kw.get? s = some w ∧ Den g inputs overrides s w) →
      ∃ v, resolveSingle kw d = .ok v ∧ SingleVal g inputs overrides d v := by
    intro d h
    cases d with
    | value v => exact ⟨v, rfl, .value⟩
    | source s =>
      obtain ⟨w, h1, h2⟩ := h s (by simp [ParamDep.refs])
      exact ⟨w, by simp only [resolveSingle, h1], .source h2⟩
  unfold resolveParam
  cases hsp : spec.get? p with
  | none =>
    refine ⟨kw.get? p, rfl, ?_, fun h => ⟨rfl, h⟩⟩
    intro v hv
    exact .same hsp (hp hsp v hv)
  | some d =>
    have hs := hs d hsp
    cases d with
    | single d =>
      obtain ⟨v, h1, h2⟩ := single d hs
      refine ⟨some v, by simp only [h1], ?_, by simp⟩
      intro v' h; cases h; exact .single hsp h2
    | groupList ds =>
      have : ∀ ds : List (SingleDep V), (∀ s ∈ (ParamDep.groupList ds).refs, ∃ w, kw.get? s = some w ∧ Den g inputs overrides s w) →
          ∃ vs, resolveList kw ds = .ok vs ∧ AllPairs (SingleVal g inputs overrides) ds vs := by
        intro ds
        induction ds with
        | nil => intro _; exact ⟨[], rfl, .nil⟩
        | cons d ds ih =>
          intro h
          obtain ⟨v, h1, h2⟩ := single d (fun s hs => h s (by
            cases d with
            | value v => simp [ParamDep.refs] at hs
            | source s' => simp only [ParamDep.refs, List.mem_singleton] at hs; subst hs; simp [ParamDep.refs]))
          obtain ⟨vs, h3, h4⟩ := ih (fun s hs => h s (by
            cases d with
            | value v => simpa [ParamDep.refs] using hs
            | source s' => simp only [ParamDep.refs, List.filterMap_cons, List.mem_cons] at hs ⊢; exact .inr hs))
          exact ⟨v :: vs, by simp only [resolveList, h1, h3], .cons h2 h4⟩
      obtain ⟨vs, h1, h2⟩ := this ds hs
      refine ⟨some (ops.mkList vs), by simp only [h1], ?_, by simp⟩
      intro v' h; cases h; exact .groupList hsp h2
    | groupDict ds =>
      have : ∀ ds : Dict Name (SingleDep V), (∀ s ∈ (ParamDep.groupDict ds).refs, ∃ w, kw.get? s = some w ∧ Den g inputs overrides s w) →
          ∃ vs, resolveDict kw ds = .ok vs ∧
            AllPairs (fun (d : Name × SingleDep V) (v : Name × V) => d.1 = v.1 ∧ SingleVal g inputs overrides d.2 v.2) ds vs := by
        intro ds
        induction ds with
        | nil => intro _; exact ⟨[], rfl, .nil⟩
        | cons q ds ih =>
          intro h
          obtain ⟨k, d⟩ := q
          obtain ⟨v, h1, h2⟩ := single d (fun s hs => h s (by
            cases d with
            | value v => simp [ParamDep.refs] at hs
            | source s' => simp only [ParamDep.refs, List.mem_singleton] at hs; subst hs; simp [ParamDep.refs]))
          obtain ⟨vs, h3, h4⟩ := ih (fun s hs => h s (by
            cases d with
            | value v => simpa [ParamDep.refs] using hs
            | source s' => simp only [ParamDep.refs, List.filterMap_cons, List.mem_cons] at hs ⊢; exact .inr hs))
          exact ⟨(k, v) :: vs, by simp only [resolveDict, h1, h3], .cons ⟨rfl, h2⟩ h4⟩
      obtain ⟨vs, h1, h2⟩ := this ds hs
      refine ⟨some (ops.mkDict vs), by simp only [h1], ?_, by simp⟩
      intro v' h; cases h; exact .groupDict hsp h2

theorem SingleVal.det {d : SingleDep V} {v w : V} (h1 : SingleVal g inputs overrides d v) (h2 : SingleVal g inputs overrides d w) :
    v = w := by
  cases h1 with
  | value => cases h2; rfl
  | source h => cases h2 with | source h' => exact h.det h'

theorem forall2_det {A B : Type} {R : A → B → Prop} (hR : ∀ a b c, R a b → R a c → b = c) :
    ∀ {l : List A} {m m' : List B}, AllPairs R l m → AllPairs R l m' → m = m' := by
  intro l m m' h
  induction h generalizing m' with
  | nil => intro h; cases h; rfl
  | cons h _ ih => intro h'; cases h' with | cons h1 h2 => rw [hR _ _ _ h h1, ih h2]

theorem ParamVal.det {p : Name} {v w : V} (h1 : ParamVal ops g inputs overrides spec p v)
    (h2 : ParamVal ops g inputs overrides spec p w) : v = w := by
  cases h1 with
  | single e h => cases h2 with
    | single e' h' => rw [e] at e'; cases e'; exact h.det h'
    | groupList e' _ => rw [e] at e'; cases e'
    | groupDict e' _ => rw [e] at e'; cases e'
    | same e' _ => rw [e] at e'; cases e'
  | groupList e h => cases h2 with
    | single e' _ => rw [e] at e'; cases e'
    | groupList e' h' => rw [e] at e'; cases e'; rw [forall2_det (R := SingleVal g inputs overrides) (fun _ _ _ h h' => SingleVal.det h h') h h']
    | groupDict e' _ => rw [e] at e'; cases e'
    | same e' _ => rw [e] at e'; cases e'
  | groupDict e h => cases h2 with
    | single e' _ => rw [e] at e'; cases e'
    | groupList e' _ => rw [e] at e'; cases e'
    | groupDict e' h' =>
      rw [e] at e'; cases e'
      rw [forall2_det (fun a b c h h' => Prod.ext (h.1.symm.trans h'.1) (h.2.det h'.2)) h h']
    | same e' _ => rw [e] at e'; cases e'
  | same e h => cases h2 with
    | single e' _ => rw [e] at e'; cases e'
    | groupList e' _ => rw [e] at e'; cases e'
    | groupDict e' _ => rw [e] at e'; cases e'
    | same _ h' => exact h.det h'

/-- A specified value presupposes a value of every source. -/
theorem ParamVal.sources_den {p : Name} {v : V} (h : ParamVal ops g inputs overrides spec p v) :
    ∀ s ∈ contributed spec p, ∃ w, Den g inputs overrides s w := by
  intro s hs
  unfold contributed at hs
  cases h with
  | single e h =>
    rw [e] at hs
    cases h with
    | value => simp [ParamDep.refs] at hs
    | source h => simp only [ParamDep.refs, List.mem_singleton] at hs; subst hs; exact ⟨_, h⟩
  | groupList e h =>
    rw [e] at hs
    simp only [ParamDep.refs, List.mem_filterMap] at hs
    obtain ⟨d, hd, he⟩ := hs
    cases d with
    | value v => cases he
    | source s' =>
      cases he
      clear e
      induction h with
      | nil => cases hd
      | cons h1 _ ih =>
        rcases List.mem_cons.1 hd with h2 | h2
        · subst h2; cases h1 with | source h => exact ⟨_, h⟩
        · exact ih h2
  | groupDict e h =>
    rw [e] at hs
    simp only [ParamDep.refs, List.mem_filterMap] at hs
    obtain ⟨⟨k, d⟩, hd, he⟩ := hs
    cases d with
    | value v => cases he
    | source s' =>
      cases he
      clear e
      induction h with
      | nil => cases hd
      | cons h1 _ ih =>
        rcases List.mem_cons.1 hd with h2 | h2
        · subst h2; cases h1.2 with | source h => exact ⟨_, h⟩
        · exact ih h2
  | same e h => rw [e] at hs; simp only [List.mem_singleton] at hs; subst hs; exact ⟨_, h⟩

theorem literalKwargs_none (spec : Dict Name (ParamDep V)) {p : Name} (h : spec.get? p = none) :
    (literalKwargs spec).get? p = none := by
  rw [Dict.get?_eq_none_iff] at h ⊢
  intro hm
  apply h
  unfold Dict.keys literalKwargs at hm
  obtain ⟨q, hq, rfl⟩ := List.mem_map.1 hm
  obtain ⟨r, hr, hr'⟩ := List.mem_filterMap.1 hq
  have : r.1 = q.1 := by
    revert hr'
    cases r.2 with
    | single d => cases d <;> simp <;> intro h <;> rw [← h]
    | groupList => simp
    | groupDict => simp
  rw [← this]
  exact List.mem_map.2 ⟨r, hr, rfl⟩

/-- The node made for one output. -/
def paramNode (ops : PyOps V) (comp : T → T) (n : Node T V) (p : Option Name × Dict Name (ParamDep V)) : Node T V :=
  { n with name := p.1.getD n.name, inputTypes := newInputTypes comp p.2 n.inputTypes,
           dependencies := [], dependedOnBy := [], fn := replacementFn ops p.2 n }

/-- On right arguments, the generated function is the decorated function on the specified arguments. -/
theorem replacementFn_spec (hnd : n.inputTypes.keys.Nodup) (hsrc : ∀ s, UsedSource spec n s → ¬ Absent g inputs overrides s)
    {m : Node T V} (hi : m.inputTypes = newInputTypes comp spec n.inputTypes) {kw : Dict Name V}
    (ha : RightArgs g inputs overrides m kw) :
    ∃ kw', SpecArgs ops g inputs overrides spec n kw' ∧ replacementFn ops spec n kw = n.fn kw' := by
  obtain ⟨hkn, hkeys, htypes⟩ := newInputTypes_spec comp spec n.inputTypes
  have hget : ∀ k, k ∈ (newInputTypes comp spec n.inputTypes).keys →
      (∃ w, kw.get? k = some w ∧ Den g inputs overrides k w) ∨
      (kw.get? k = none ∧ Absent g inputs overrides k ∧ ∃ p ∈ n.inputTypes, k ∈ contributed spec p.1 ∧ p.2.2 = .optional) := by
    intro k hk
    obtain ⟨t, ht⟩ := Dict.mem_keys_iff.1 hk
    have hm := Dict.get?_mem ht
    rcases rightArgs_get ha (d := k) (t := t) (by rw [hi]; exact hm) with h | ⟨h1, h2, h3⟩
    · exact .inl h
    · obtain ⟨p, hp, hp1, hp2⟩ := htypes k t hm
      exact .inr ⟨h1, h3, p, hp, hp1, by rw [← hp2]; exact h2⟩
  let kwm : Dict Name V := (literalKwargs spec).merge kw
  have hkwm : ∀ k, kwm.get? k = match kw.get? k with | some v => some v | none => (literalKwargs spec).get? k := by
    intro k
    have hkk : kw.keys.Nodup := by
      obtain ⟨val, _, _, rfl⟩ := ha
      rw [hi]
      have hsub : ∀ (l : Dict Name (T × DepType)), l.keys.Nodup → (argsFor l val).keys.Nodup := by
        intro l
        induction l with
        | nil => intro _; simp [argsFor, Dict.keys]
        | cons q l ih =>
          intro h
          rw [Dict.keys_cons, List.nodup_cons] at h
          have h' := ih h.2
          unfold argsFor at h' ⊢
          rw [List.filterMap_cons]
          cases hq : val q.1 with
          | none => simpa [hq] using h'
          | some v =>
            simp only [Option.map_some, Dict.keys_cons, List.nodup_cons]
            refine ⟨?_, h'⟩
            intro hm
            apply h.1
            obtain ⟨r, hr, hr'⟩ := List.mem_map.1 hm
            obtain ⟨s, hs, hs'⟩ := List.mem_filterMap.1 hr
            cases hvs : val s.1 with
            | none => rw [hvs] at hs'; cases hs'
            | some x => rw [hvs] at hs'; cases hs'; rw [← hr']; exact List.mem_map.2 ⟨s, hs, rfl⟩
      exact hsub _ hkn
    rw [Dict.get?_merge _ _ hkk]
    cases kw.get? k <;> rfl
  have hres : ∀ p ∈ n.inputTypes.keys, ∃ o, resolveParam ops spec kwm p = .ok o ∧
      (∀ v, o = some v → ParamVal ops g inputs overrides spec p v) ∧
      (o = none → spec.get? p = none ∧ kwm.get? p = none) := by
    intro p hp
    apply resolveParam_spec
    · intro d hd s hs
      have hc : s ∈ contributed spec p := by unfold contributed; rw [hd]; exact hs
      rcases hget s ((hkeys s).2 ⟨p, hp, hc⟩) with ⟨w, h1, h2⟩ | ⟨_, h, _⟩
      · exact ⟨w, by rw [hkwm, h1], h2⟩
      · exact absurd h (hsrc s ⟨p, hp, d, hd, hs⟩)
    · intro hsp v hv
      have hc : p ∈ contributed spec p := by unfold contributed; rw [hsp]; simp
      rcases hget p ((hkeys p).2 ⟨p, hp, hc⟩) with ⟨w, h1, h2⟩ | ⟨h1, _⟩
      · rw [hkwm, h1] at hv; cases hv; exact h2
      · rw [hkwm, h1, literalKwargs_none spec hsp] at hv; cases hv
  let val : Name → Option V := fun p => match resolveParam ops spec kwm p with | .ok o => o | .error _ => none
  have hval : ∀ p ∈ n.inputTypes.keys, resolveParam ops spec kwm p = .ok (val p) := by
    intro p hp
    obtain ⟨o, ho, _⟩ := hres p hp
    simp only [val, ho]
  refine ⟨argsFor n.inputTypes val, ⟨val, ?_, ?_, rfl⟩, ?_⟩
  · intro p v hp hv
    obtain ⟨o, ho, h1, _⟩ := hres p hp
    rw [hval p hp] at ho; cases ho
    exact h1 v hv
  · intro p t hpt hv
    have hp : p ∈ n.inputTypes.keys := List.mem_map.2 ⟨_, hpt, rfl⟩
    obtain ⟨o, ho, _, h2⟩ := hres p hp
    rw [hval p hp] at ho; cases ho
    obtain ⟨h3, h4⟩ := h2 hv
    have hc : p ∈ contributed spec p := by unfold contributed; rw [h3]; simp
    rcases hget p ((hkeys p).2 ⟨p, hp, hc⟩) with ⟨w, h1, _⟩ | ⟨h1, h5, q, hq, hq1, hq2⟩
    · rw [hkwm, h1] at h4; cases h4
    · refine ⟨h3, ?_, h5⟩
      unfold contributed at hq1
      cases hsq : spec.get? q.1 with
      | some d =>
        rw [hsq] at hq1
        exact absurd h5 (hsrc p ⟨q.1, List.mem_map.2 ⟨q, hq, rfl⟩, d, hsq, hq1⟩)
      | none =>
        rw [hsq] at hq1
        simp only [List.mem_singleton] at hq1
        have e1 := Dict.get?_of_mem hnd hpt
        have e2 := Dict.get?_of_mem hnd (k := q.1) (v := q.2) hq
        rw [← hq1, e1] at e2
        cases e2; exact hq2
  · unfold replacementFn
    rw [newKwargs_eq val _ hval, argsFor_eq_filterMap]

/-- Specified arguments are unique. -/
theorem SpecArgs.det {kw kw' : Dict Name V} (h : SpecArgs ops g inputs overrides spec n kw)
    (h' : SpecArgs ops g inputs overrides spec n kw') : kw = kw' := by
  obtain ⟨val, a1, a2, rfl⟩ := h
  obtain ⟨val', b1, b2, rfl⟩ := h'
  rw [argsFor_eq_filterMap, argsFor_eq_filterMap]
  have hne : ∀ p v, ParamVal ops g inputs overrides spec p v → spec.get? p = none → Absent g inputs overrides p → False := by
    intro p v hv hs habs
    cases hv with
    | single e _ => rw [hs] at e; cases e
    | groupList e _ => rw [hs] at e; cases e
    | groupDict e _ => rw [hs] at e; cases e
    | same _ h => exact habs.not_den h
  have : ∀ p ∈ n.inputTypes.keys, val p = val' p := by
    intro p hp
    obtain ⟨q, hq, rfl⟩ := List.mem_map.1 hp
    cases h1 : val q.1 with
    | none =>
      obtain ⟨e1, _, e3⟩ := a2 q.1 q.2 hq h1
      cases h2 : val' q.1 with
      | none => rfl
      | some w => exact (hne _ _ (b1 _ _ hp h2) e1 e3).elim
    | some v =>
      cases h2 : val' q.1 with
      | none =>
        obtain ⟨e1, _, e3⟩ := b2 q.1 q.2 hq h2
        exact (hne _ _ (a1 _ _ hp h1) e1 e3).elim
      | some w => rw [(a1 _ _ hp h1).det (b1 _ _ hp h2)]
  generalize n.inputTypes.keys = ks at this
  induction ks with
  | nil => rfl
  | cons k ks ih =>
    rw [List.filterMap_cons, List.filterMap_cons, this k (by simp), ih (fun p hp => this p (by simp [hp]))]

/-- **C39 (partial).**  In a graph containing the nodes generated by a `@parameterize` (or `@inject`), each of them has a
value iff the decorated function returns it on the arguments the specification asks for: literals, values of sources, lists
and dictionaries of them, and for parameters that are not mentioned the node of the same name or the default.  Missing:
sources that are optional inputs and are not supplied (`C39_violated_default`, `C39_violated_leak`). -/
theorem C39_partial {specs : List (Option Name × Dict Name (ParamDep V))} (hk : n.kind ≠ .external)
    (hnd : n.inputTypes.keys.Nodup) (hdef : ∀ m ∈ parameterize ops comp specs n, Defines g m)
    {out : Option Name} (hmem : (out, spec) ∈ specs) (hov : overrides.get? (out.getD n.name) = none)
    (hsrc : ∀ s, UsedSource spec n s → ¬ Absent g inputs overrides s) (v : V) :
    Den g inputs overrides (out.getD n.name) v ↔ ∃ kw, SpecArgs ops g inputs overrides spec n kw ∧ n.fn kw = .ok v := by
  have hd : Defines g (paramNode ops comp n (out, spec)) := hdef _ (List.mem_map.2 ⟨_, hmem, rfl⟩)
  have key := den_iff_fnValue (inputs := inputs) (overrides := overrides) hd hk hov v
  rw [show (paramNode ops comp n (out, spec)).name = out.getD n.name from rfl] at key
  rw [key]
  constructor
  · rintro ⟨kw, ha, hv⟩
    obtain ⟨kw', h1, h2⟩ := replacementFn_spec (ops := ops) hnd hsrc (m := paramNode ops comp n (out, spec)) rfl ha
    exact ⟨kw', h1, by rw [← h2]; exact hv⟩
  · rintro ⟨kw', hs, hv⟩
    obtain ⟨hkn, hkeys, htypes⟩ := newInputTypes_spec comp spec n.inputTypes
    have hex : ∃ kw, RightArgs g inputs overrides (paramNode ops comp n (out, spec)) kw := by
      classical
      let val : Name → Option V := fun d => if h : ∃ w, Den g inputs overrides d w then some h.choose else none
      refine ⟨_, val, ?_, ?_, rfl⟩
      · intro d w _ hw
        simp only [val] at hw
        split at hw
        · rename_i h; cases hw; exact h.choose_spec
        · cases hw
      · intro d t hdt hv'
        have hno : ¬ ∃ w, Den g inputs overrides d w := by
          intro h; simp only [val, dif_pos h] at hv'; cases hv'
        obtain ⟨p, hp, hp1, hp2⟩ := htypes d t hdt
        obtain ⟨sv, a1, a2, _⟩ := hs
        cases hsv : sv p.1 with
        | some x => exact absurd ((a1 p.1 x (List.mem_map.2 ⟨p, hp, rfl⟩) hsv).sources_den d hp1) hno
        | none =>
          obtain ⟨e1, e2, e3⟩ := a2 p.1 p.2 hp hsv
          unfold contributed at hp1
          rw [e1] at hp1
          simp only [List.mem_singleton] at hp1
          subst hp1
          exact ⟨hp2.trans e2, e3⟩
    obtain ⟨kw, ha⟩ := hex
    obtain ⟨kw'', h1, h2⟩ := replacementFn_spec (ops := ops) hnd hsrc (m := paramNode ops comp n (out, spec)) rfl ha
    rw [h1.det hs, hv] at h2
    exact ⟨kw, ha, h2⟩

end Parameterize

/-! ### Examples and counterexamples -/
namespace DecorSample

/-- Values: integers, lists, dictionaries and validation results. -/
inductive DV where
  | int (i : Int)
  | list (l : List DV)
  | dict (d : List (String × DV))
  | res (b : Bool)

/-- Sample operations. -/
def ops : PyOps DV where
  mkList := .list
  mkDict := .dict
  asDict := fun v => match v with | .dict d => some d | _ => none
  mkResult := .res
  asResult := fun v => match v with | .res b => some b | _ => none

theorem lawful : ops.Lawful := ⟨fun _ => rfl, fun _ => rfl⟩

/-- The integer in a value. -/
def toInt : DV → Option Int
  | .int i => some i
  | _ => none

/-- Integer argument with default. -/
def argI (kw : Dict Name DV) (k : Name) (dflt : Int) : Int := ((kw.get? k).bind toInt).getD dflt

/-- A function node. -/
def fnode (name : Name) (params : List (Name × DepType)) (f : Dict Name DV → Except UserErr DV) : Node Unit DV :=
  { name, typ := (), kind := .standard, inputTypes := params.map (fun p => (p.1, ((), p.2))),
    dependencies := [], dependedOnBy := [], fn := f }

/-- Build without configuration. -/
def build (fns : List (Node Unit DV)) : Graph Unit DV :=
  match createFunctionGraph (fun _ _ => true) () [] false fns with
  | .ok g => g
  | .error _ => []

theorem build_eq {fns : List (Node Unit DV)}
    (h : (createFunctionGraph (fun _ _ => true) () ([] : Dict Name DV) false fns).isOk = true) :
    createFunctionGraph (fun _ _ => true) () [] false fns = .ok (build fns) := by
  unfold build
  revert h
  generalize createFunctionGraph (fun _ _ => true) () ([] : Dict Name DV) false fns = r
  intro h
  cases r with
  | ok g => rfl
  | error e => simp [Except.isOk, Except.toBool] at h

/-- Outcome of requesting one node: its integer, or the error. -/
def run (fns : List (Node Unit DV)) (inputs : Dict Name DV) (k : Name) : Option Int ⊕ Option ExecErr :=
  match (build fns).get? k with
  | none => .inr none
  | some n =>
    match executeSubdag (build fns) [n] inputs [] with
    | .ok s => .inl ((s.computed.get? k).bind toInt)
    | .err e _ => .inr (some e)

/-! `@extract_fields(fields={"a": …, "c": …}, fill_with=9)` on `def f(x): return {"a": x, "b": 1}`. -/

/-- The function. -/
def dictFn (name : Name) : Node Unit DV :=
  fnode name [("x", .required)] (fun kw => .ok (.dict [("a", .int (argI kw "x" 0)), ("b", .int 1)]))

/-- Its nodes. -/
def extracted (name : Name) (fill : Option DV) : List (Node Unit DV) :=
  extractFields ops () [("a", ()), ("c", ())] fill (dictFn name)

example : run (extracted "f" (some (.int 9))) [("x", .int 5)] "a" = .inl (some 5) ∧
    run (extracted "f" (some (.int 9))) [("x", .int 5)] "c" = .inl (some 9) ∧
    run (extracted "f" none) [("x", .int 5)] "a" = .inl (some 5) ∧
    run (extracted "f" none) [("x", .int 5)] "c" = .inr (some (.raised "c" "InvalidDecoratorException")) := by decide +kernel

theorem extracted_fresh (name : Name) (fill : Option DV) : ∀ n ∈ extracted name fill, Fresh n := by
  intro n hn
  simp only [extracted, extractFields, List.map_cons, List.map_nil, List.mem_cons, List.not_mem_nil, or_false] at hn
  rcases hn with rfl | rfl | rfl <;> exact ⟨by simp [dictFn, fnode, Dict.keys], rfl, rfl, by simp [dictFn, fnode]⟩

theorem extracted_defines (name : Name) (fill : Option DV)
    (hb : (createFunctionGraph (fun _ _ => true) () ([] : Dict Name DV) false (extracted name fill)).isOk = true) :
    ∀ m ∈ extracted name fill, Defines (build (extracted name fill)) m :=
  fun _ hm => build_defines (extracted_fresh name fill) (build_eq hb) hm (by simp [Dict.keys])

/-- The value of the input of the sample. -/
theorem x_den {fns : List (Node Unit DV)} (h : ((build fns).get? "x").map (·.kind) = some .external) (i : Int) :
    Den (build fns) [("x", .int i)] [] "x" (.int i) := by
  cases hx : (build fns).get? "x" with
  | none => rw [hx] at h; cases h
  | some n =>
    rw [hx] at h
    exact .input hx rfl (Option.some.inj h) rfl

/-- The undecorated function has a value. -/
theorem dictFn_value {fns : List (Node Unit DV)} (h : ((build fns).get? "x").map (·.kind) = some .external) (name : Name) (i : Int) :
    FnValue (build fns) [("x", .int i)] [] (dictFn name) (.dict [("a", .int i), ("b", .int 1)]) :=
  ⟨[("x", .int i)], (rightArgs_single (n := dictFn name) (t := ()) rfl _).2 ⟨.int i, x_den h i, rfl⟩, rfl⟩

/-- Non-vacuity of `C41_dict` and `C41_field_partial`: with a fill value, on a missing field. -/
example : ∃ v', Den (build (extracted "f" (some (.int 9)))) [("x", .int 5)] [] "f" v' ∧
    Den (build (extracted "f" (some (.int 9)))) [("x", .int 5)] [] "c" (.int 9) := by
  have hdef := extracted_defines "f" (some (.int 9)) (by decide +kernel)
  obtain ⟨v', d', h1, h2, h3⟩ := (C41_dict (inputs := [("x", .int 5)]) (overrides := []) lawful (n := dictFn "f") (by decide)
    hdef rfl).2.1 _ rfl _ _ (dictFn_value (by decide +kernel) "f" 5) rfl
  refine ⟨v', h1, ?_⟩
  refine ((C41_field_partial hdef (by decide) (f := "c") (by decide) rfl h1 h2).1 (.int 9)).2 ?_
  rw [h3]
  rfl

/-- **C41 violated.**  A function called `field_to_extract` returns a dictionary with the key `a`, but the node `a` has no
value: the name is captured by a parameter of the generated function, which then raises `KeyError`. -/
theorem C41_violated_name :
    (∃ v d, Den (build (extracted "field_to_extract" none)) [("x", .int 5)] [] "field_to_extract" v ∧ ops.asDict v = some d ∧
      d.get? "a" = some (.int 5)) ∧
    (¬ ∃ w, Den (build (extracted "field_to_extract" none)) [("x", .int 5)] [] "a" w) ∧
    run (extracted "field_to_extract" none) [("x", .int 5)] "a" = .inr (some (.raised "a" "KeyError")) := by
  have hdef := extracted_defines "field_to_extract" none (by decide +kernel)
  refine ⟨⟨_, _, ((C41_dict (inputs := [("x", .int 5)]) (overrides := []) lawful (n := dictFn "field_to_extract") (by decide)
    hdef rfl).1 rfl _).2 (dictFn_value (by decide +kernel) _ 5), rfl, rfl⟩, ?_, by decide +kernel⟩
  rintro ⟨w, hw⟩
  have ha := hdef ((extracted "field_to_extract" none)[1]) (List.getElem_mem _)
  obtain ⟨kw, _, hf⟩ := (den_iff_fnValue (inputs := [("x", .int 5)]) (overrides := []) ha (by decide) rfl w).1 hw
  simp [extracted, extractFields, extractorFn, dictFn, fnode] at hf

/-! `@check_output` on `def f(x): return x` with a validator of importance FAIL (`x < 10`) and one of importance WARN
(`x < 3`, raising on negative numbers). -/

/-- The function. -/
def idFn : Node Unit DV := fnode "f" [("x", .required)] (fun kw => .ok (.int (argI kw "x" 0)))

/-- The validators. -/
def validators : List (Validator DV) :=
  [ { name := "range", level := .fail, validate := fun v => .ok (match toInt v with | some i => decide (i < 10) | none => false) },
    { name := "small", level := .warn, validate := fun v => match toInt v with
        | some i => if i < 0 then .error "ValueError" else .ok (decide (i < 3))
        | none => .ok false } ]

/-- The nodes. -/
def checked : List (Node Unit DV) := checkOutput ops () validators idFn

example : checked.map (·.name) = ["f_range", "f_small", "f", "f_raw"] := by decide +kernel

example : run checked [("x", .int 2)] "f" = .inl (some 2) ∧ run checked [("x", .int 5)] "f" = .inl (some 5) ∧
    run checked [("x", .int 15)] "f" = .inr (some (.raised "f" "DataValidationError")) := by decide +kernel

theorem checked_fresh : ∀ n ∈ checked, Fresh n := by
  intro n hn
  have : checked = [checked[0], checked[1], checked[2], checked[3]] := rfl
  rw [this] at hn
  simp only [List.mem_cons, List.not_mem_nil, or_false] at hn
  rcases hn with rfl | rfl | rfl | rfl <;> exact ⟨by decide +kernel, rfl, rfl, by decide +kernel⟩

theorem checked_defines : ∀ m ∈ checked, Defines (build checked) m :=
  fun _ hm => build_defines checked_fresh (build_eq (by decide +kernel)) hm (by simp [Dict.keys])

theorem idFn_value (i : Int) : FnValue (build checked) [("x", .int i)] [] idFn (.int i) :=
  ⟨[("x", .int i)], (rightArgs_single (n := idFn) (t := ()) rfl _).2 ⟨.int i, x_den (by decide +kernel) i, rfl⟩, rfl⟩

/-- A name without underscore is not a numbered name. -/
theorem plain_not_numbered {u w : Name} (hu : '_' ∉ u.toList) (k : Nat) : u ≠ w ++ "_" ++ toString (k + 1) := by
  intro h
  apply hu
  rw [h]
  simp

theorem validators_clear : ClearNames validators where
  numbers u hu w _ k := by
    refine plain_not_numbered ?_ k
    simp only [validators, List.mem_cons, List.not_mem_nil, or_false] at hu
    rcases hu with rfl | rfl <;> decide
  raw v hv := by
    simp only [validators, List.mem_cons, List.not_mem_nil, or_false] at hv
    rcases hv with rfl | rfl <;> decide

/-- Validators with given names that accept everything. -/
def named (names : List Name) : List (Validator DV) := names.map (fun m => { name := m, level := .fail, validate := fun _ => .ok true })

-- two validators of the same kind get two nodes
example : (checkOutput ops () (named ["range", "range", "small"]) idFn).map (·.name) =
    ["f_range", "f_range_1", "f_small", "f", "f_raw"] := by decide +kernel

example : ClearNames (named ["range", "range", "small"]) where
  numbers u hu w _ k := by
    refine plain_not_numbered ?_ k
    simp only [named, List.map_cons, List.map_nil, List.mem_cons, List.not_mem_nil, or_false] at hu
    rcases hu with rfl | rfl | rfl <;> decide
  raw v hv := by
    simp only [named, List.map_cons, List.map_nil, List.mem_cons, List.not_mem_nil, or_false] at hv
    rcases hv with rfl | rfl | rfl <;> decide

/-- **C37 violated, names.**  A validator whose name is that of the second occurrence of another one: the nodes of the
decorator clash and no graph can be built, although every validator accepts every value. -/
theorem C37_violated_names :
    (∀ d ∈ named ["range", "range", "range_1"], ∀ v, d.validate v = .ok true) ∧
    (checkOutput ops () (named ["range", "range", "range_1"]) idFn).map (·.name) = ["f_range", "f_range_1", "f_range_1", "f", "f_raw"] ∧
    (createFunctionGraph (fun _ _ => true) () ([] : Dict Name DV) false
      (checkOutput ops () (named ["range", "range", "range_1"]) idFn)).isOk = false := by
  refine ⟨?_, by decide +kernel, by decide +kernel⟩
  intro d hd v
  simp only [named, List.map_cons, List.map_nil, List.mem_cons, List.not_mem_nil, or_false] at hd
  rcases hd with rfl | rfl | rfl <;> rfl

/-- Non-vacuity of `C37_partial`: 5 fails the WARN validator and is passed through. -/
example : Den (build checked) [("x", .int 5)] [] "f" (.int 5) := by
  refine (C37_partial (ops := ops) (resultT := ()) (vs := validators) (n := idFn) lawful (by decide) checked_defines
    validators_clear (fun _ _ => rfl) (.int 5)).2.1 (idFn_value 5) ?_ ?_
  · intro d hd hl
    simp only [validators, List.mem_cons, List.not_mem_nil, or_false] at hd
    rcases hd with rfl | rfl
    · rfl
    · cases hl
  · intro d hd
    simp only [validators, List.mem_cons, List.not_mem_nil, or_false] at hd
    rcases hd with rfl | rfl
    · exact ⟨true, rfl⟩
    · exact ⟨false, rfl⟩

/-- **C37 violated.**  Every validator of importance FAIL accepts the value, but a validator of importance WARN raises: the
run fails. -/
theorem C37_violated_warn :
    FnValue (build checked) [("x", .int (-1))] [] idFn (.int (-1)) ∧
    (∀ d ∈ validators, d.level = .fail → d.validate (.int (-1)) = .ok true) ∧
    run checked [("x", .int (-1))] "f" = .inr (some (.raised "f_small" "ValueError")) := by
  refine ⟨idFn_value (-1), ?_, by decide +kernel⟩
  intro d hd hl
  simp only [validators, List.mem_cons, List.not_mem_nil, or_false] at hd
  rcases hd with rfl | rfl
  · rfl
  · cases hl

/-! `@parameterize` on `def f(a, b=10, c=0): return 100 * a + b + c` (`c` a list in the grouped case). -/

/-- The function. -/
def paramFn : Node Unit DV :=
  fnode "f" [("a", .required), ("b", .optional), ("c", .optional)] (fun kw =>
    .ok (.int (100 * argI kw "a" 0 + argI kw "b" 10 +
      (match kw.get? "c" with | some (.list l) => (l.filterMap toInt).sum | some (.int i) => i | _ => 0))))

/-- `out1={"a": value(1), "b": source("x")}`, `out2={"a": source("x"), "c": group(source("x"), value(7))}`. -/
def specs : List (Option Name × Dict Name (ParamDep DV)) :=
  [ (some "out1", [("a", .single (.value (.int 1))), ("b", .single (.source "x"))]),
    (some "out2", [("a", .single (.source "x")), ("c", .groupList [.source "x", .value (.int 7)])]) ]

/-- The nodes. -/
def parameterized : List (Node Unit DV) := parameterize ops id specs paramFn

example : run parameterized [("x", .int 5)] "out1" = .inl (some 105) ∧
    run parameterized [("x", .int 5)] "out2" = .inl (some 522) ∧
    run parameterized [("x", .int 5), ("b", .int 1), ("c", .int 3)] "out1" = .inl (some 108) := by decide +kernel

theorem parameterized_defines : ∀ m ∈ parameterized, Defines (build parameterized) m := by
  refine fun _ hm => build_defines ?_ (build_eq (by decide +kernel)) hm (by simp [Dict.keys])
  intro n hn
  have : parameterized = [parameterized[0], parameterized[1]] := rfl
  rw [this] at hn
  simp only [List.mem_cons, List.not_mem_nil, or_false] at hn
  rcases hn with rfl | rfl <;> exact ⟨by decide +kernel, rfl, rfl, by decide +kernel⟩

/-- Non-vacuity of `C39_partial`. -/
example : Den (build parameterized) [("x", .int 5)] [] "out2" (.int 522) := by
  refine (C39_partial (ops := ops) (comp := id) (n := paramFn) (out := some "out2") (by decide) (by decide +kernel)
    parameterized_defines (List.getElem_mem (l := specs) (n := 1) (by decide)) rfl ?_ _).2 ?_
  · rintro s ⟨p, hp, d, hd, hs⟩ ⟨n, _, _, h, _⟩
    have : s = "x" := by
      simp only [Dict.get?_cons] at hd
      by_cases h1 : "a" = p
      · rw [if_pos h1] at hd; cases hd; simpa [ParamDep.refs] using hs
      · rw [if_neg h1] at hd
        by_cases h2 : "c" = p
        · rw [if_pos h2] at hd; cases hd; simpa [ParamDep.refs] using hs
        · rw [if_neg h2] at hd; cases hd
    subst this
    cases h
  · have hx : Den (build parameterized) [("x", .int 5)] [] "x" (.int 5) := x_den (by decide +kernel) 5
    refine ⟨_, ⟨fun p => if p = "a" then some (.int 5) else if p = "c" then some (.list [.int 5, .int 7]) else none, ?_, ?_, rfl⟩, ?_⟩
    · intro p v _ hv
      dsimp only at hv
      by_cases h1 : p = "a"
      · rw [if_pos h1] at hv; cases hv; subst h1
        exact .single rfl (.source hx)
      · rw [if_neg h1] at hv
        by_cases h2 : p = "c"
        · rw [if_pos h2] at hv; cases hv; subst h2
          exact .groupList rfl (.cons (.source hx) (.cons .value .nil))
        · rw [if_neg h2] at hv; cases hv
    · intro p t hp hv
      dsimp only at hv
      simp only [paramFn, fnode, List.map_cons, List.map_nil, List.mem_cons, List.not_mem_nil, or_false] at hp
      rcases hp with h | h | h <;> cases h
      · cases hv
      · refine ⟨rfl, rfl, ?_⟩
        cases hb : (build parameterized).get? "b" with
        | none =>
          have : ((build parameterized).get? "b").isSome = true := by decide +kernel
          rw [hb] at this; cases this
        | some n =>
          have : ((build parameterized).get? "b").map (·.kind) = some .external := by decide +kernel
          rw [hb] at this
          exact ⟨n, hb, Option.some.inj this, rfl, rfl⟩
      · cases hv
    · rfl

/-- A parameter with a default whose source is an optional input. -/
def optSpec : List (Option Name × Dict Name (ParamDep DV)) :=
  [(some "out", [("a", .single (.value (.int 1))), ("b", .single (.source "s"))])]

/-- The source has the name of a parameter that is replaced by a literal. -/
def leakSpec : List (Option Name × Dict Name (ParamDep DV)) :=
  [(some "out", [("a", .single (.value (.int 1))), ("b", .single (.source "a"))])]

/-- **C39 violated.**  The source of `b` is an optional input that is not supplied; the function on the remaining specified
arguments, `f(a=1)`, returns 110, but the node raises `KeyError`. -/
theorem C39_violated_default :
    ((build (parameterize ops id optSpec paramFn)).get? "out").map (fun n => n.inputTypes.get? "s") =
      some (some ((), .optional)) ∧
    (paramFn.fn [("a", .int 1)]).toOption.bind toInt = some 110 ∧
    run (parameterize ops id optSpec paramFn) [] "out" = .inr (some (.raised "out" "KeyError")) := by decide +kernel

/-- **C39 violated.**  The source of `b` is an optional input called `a`, and the parameter `a` is replaced by the literal
1: when the input is not supplied, `b` silently becomes the literal (`f(a=1, b=1)` = 101) instead of its default
(`f(a=1)` = 110). -/
theorem C39_violated_leak :
    (paramFn.fn [("a", .int 1)]).toOption.bind toInt = some 110 ∧
    run (parameterize ops id leakSpec paramFn) [] "out" = .inl (some 101) ∧
    run (parameterize ops id leakSpec paramFn) [("a", .int 3)] "out" = .inl (some 103) := by decide +kernel

end DecorSample
end Verif
