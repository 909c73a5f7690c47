import Verif.Model.SparkColumns
import Verif.Proofs.SparkRun
import Verif.Proofs.WithColumns
import Verif.Props.Topo

/-!
Lemmas for C80.
-/
namespace Verif.Spark
open Verif
variable {T V : Type}

/-- A function does not see the order of its keyword arguments. -/
def OrderFree (n : Node T V) : Prop := ∀ kw kw', SameArgs kw kw' → n.fn kw = n.fn kw'

/-- `given` is what a separate driver for the functions (with graph `h`) is given for a row of the table `F`: a parameter that no
function computes is the cell of the row if it is among `passed` (nothing, if there is no such column), else the value that the
surrounding graph `g` has for it (nothing, if it is an input that is not supplied). -/
structure RowInputs (g : Graph T (SVal V)) (h : Graph T V) (inputs overrides : Dict Name (SVal V)) (F : Frame V)
    (passed : List Name) (row : Dict Name (Cell V)) (given : Dict Name V) : Prop where
  column : ∀ p m, h.get? p = some m → m.kind = .external → p ∈ passed → p ∈ F.columns →
    ∃ v, row.get? p = some (.ok v) ∧ given.get? p = some v
  missing : ∀ p m, h.get? p = some m → m.kind = .external → p ∈ passed → p ∉ F.columns → given.get? p = none
  value : ∀ p m, h.get? p = some m → m.kind = .external → p ∉ passed → ∀ v, Den g inputs overrides p (.scalar v) →
    given.get? p = some v
  absent : ∀ p m, h.get? p = some m → m.kind = .external → p ∉ passed → Absent g inputs overrides p → given.get? p = none

/-! ### Dictionaries -/

theorem get?_filter_keys {W : Type} (q : Name → Bool) (d : Dict Name W) (k : Name) :
    Dict.get? (d.filter (fun p => q p.1)) k = if q k then d.get? k else none := by
  induction d with
  | nil => simp [Dict.get?]
  | cons p d ih =>
    obtain ⟨a, w⟩ := p
    rw [List.filter_cons]
    by_cases ha : q a = true
    · rw [if_pos ha, Dict.get?_cons, Dict.get?_cons, ih]
      by_cases he : a = k
      · subst he; rw [if_pos rfl, if_pos rfl, if_pos ha]
      · rw [if_neg he, if_neg he]
    · rw [if_neg ha, ih, Dict.get?_cons]
      by_cases he : a = k
      · subst he; rw [if_neg ha, if_neg ha]
      · rw [if_neg he]

theorem keys_filter_sublist {W : Type} (q : Name × W → Bool) (d : Dict Name W) :
    (Dict.keys (d.filter q)).Sublist d.keys := List.Sublist.map _ List.filter_sublist

theorem get?_foldl_set {W : Type} (w : W) : ∀ (l : List Name) (d : Dict Name W) (k : Name),
    (l.foldl (fun d k => Dict.set d k w) d).get? k = if k ∈ l then some w else d.get? k := by
  intro l
  induction l with
  | nil => intro d k; simp
  | cons a l ih =>
    intro d k
    rw [List.foldl_cons, ih, Dict.get?_set]
    by_cases h1 : k ∈ l
    · rw [if_pos h1, if_pos (by simp [h1])]
    · rw [if_neg h1]
      by_cases h2 : k = a
      · subst h2; simp
      · have h2' : ¬ a = k := fun h => h2 h.symm
        simp [h1, h2, h2']

theorem nodup_foldl_set {W : Type} (w : W) : ∀ (l : List Name) (d : Dict Name W), d.keys.Nodup →
    (l.foldl (fun d k => Dict.set d k w) d).keys.Nodup := by
  intro l
  induction l with
  | nil => intro d h; exact h
  | cons a l ih => intro d h; rw [List.foldl_cons]; exact ih _ (Dict.keys_set_nodup h _ _)

theorem udfInputs_get (dfT : T) (types : Dict Name (T × DepType)) (linear base : Name) (inGroup fromDf : List Name) (k : Name) :
    (udfInputs dfT types linear base inGroup fromDf).get? k =
      if (fromDf ≠ [] ∧ k = base) ∨ k ∈ inGroup ∨ k = linear then some (dfT, .required)
      else if k ∈ fromDf then none else types.get? k := by
  have hall : (inGroup.foldl (fun d k => Dict.set d k (dfT, DepType.required))
      (Dict.set (types.filter (fun p => !fromDf.contains p.1)) linear (dfT, DepType.required))).get? k =
      if k ∈ inGroup ∨ k = linear then some (dfT, .required) else if k ∈ fromDf then none else types.get? k := by
    rw [get?_foldl_set, Dict.get?_set]
    by_cases h1 : k ∈ inGroup
    · rw [if_pos h1, if_pos (.inl h1)]
    · rw [if_neg h1]
      by_cases h2 : k = linear
      · subst h2; simp
      · rw [if_neg (by simp [h1, h2] : ¬ (k ∈ inGroup ∨ k = linear))]
        first | rw [if_neg (fun h => h2 h.symm)] | rw [if_neg h2]
        rw [get?_filter_keys (fun k => !fromDf.contains k)]
        by_cases h3 : k ∈ fromDf <;> simp [h3]
  unfold udfInputs
  by_cases he : fromDf = []
  · subst he
    simp only [List.isEmpty_nil, if_true] at hall ⊢
    rw [hall]; simp
  · have : fromDf.isEmpty = false := by simp [he]
    simp only [this, Bool.false_eq_true, if_false]
    rw [Dict.get?_set, hall]
    by_cases h1 : k = base
    · subst h1; simp [he]
    · have h1' : ¬ base = k := fun h => h1 h.symm
      simp [h1, h1']

theorem udfInputs_nodup {dfT : T} {types : Dict Name (T × DepType)} (hn : types.keys.Nodup) (linear base : Name)
    (inGroup fromDf : List Name) : (udfInputs dfT types linear base inGroup fromDf).keys.Nodup := by
  have hall : (inGroup.foldl (fun d k => Dict.set d k (dfT, DepType.required))
      (Dict.set (types.filter (fun p => !fromDf.contains p.1)) linear (dfT, DepType.required))).keys.Nodup := by
    refine nodup_foldl_set _ _ _ (Dict.keys_set_nodup ?_ _ _)
    exact (keys_filter_sublist _ _).nodup hn
  unfold udfInputs
  split
  · exact hall
  · exact Dict.keys_set_nodup hall _ _

/-! ### One UDF -/

theorem determineParams_optional {actual : Dict Name V} {columns : List Name} {params : Dict Name (T × DepType)}
    {r : List Name × Dict Name V} (h : determineParams actual columns params = .ok r) :
    ∀ d t, (d, t) ∈ params → d ∉ columns → actual.get? d = none → t.2 = .optional := by
  induction params generalizing r with
  | nil => intro d t hm; cases hm
  | cons p params ih =>
    obtain ⟨k, t0⟩ := p
    unfold determineParams at h
    intro d t hm hd ha
    by_cases hk : columns.contains k = true
    · rw [if_pos hk] at h
      cases hr : determineParams actual columns params with
      | error e => rw [hr] at h; cases h
      | ok r' =>
        rcases List.mem_cons.1 hm with he | hm
        · cases he; exact absurd (List.contains_iff_mem.1 hk) hd
        · exact ih hr d t hm hd ha
    · rw [if_neg hk] at h
      cases hg : actual.get? k with
      | some v =>
        rw [hg] at h
        dsimp only at h
        cases hr : determineParams actual columns params with
        | error e => rw [hr] at h; cases h
        | ok r' =>
          rcases List.mem_cons.1 hm with he | hm
          · cases he; rw [ha] at hg; cases hg
          · exact ih hr d t hm hd ha
      | none =>
        rw [hg] at h
        dsimp only at h
        by_cases hq : t0.2 = .required
        · rw [if_pos hq] at h; cases h
        · rw [if_neg hq] at h
          rcases List.mem_cons.1 hm with he | hm
          · cases he
            cases ht : t0.2 with
            | required => exact absurd ht hq
            | optional => rfl
          · exact ih h d t hm hd ha

theorem lambdaUdf_ok {o : Kinds T} {df f' : Frame V} {n : Node T (SVal V)} {rest : Dict Name V}
    (h : lambdaUdf o df n rest = .ok f') : ∃ fromDf bound, determineParams rest df.columns n.inputTypes = .ok (fromDf, bound) ∧
      f' = df.withColumn n.name (udfCell n bound fromDf) := by
  unfold lambdaUdf at h
  cases hd : determineParams rest df.columns n.inputTypes with
  | error e => rw [hd] at h; cases h
  | ok r =>
    obtain ⟨fromDf, bound⟩ := r
    rw [hd] at h
    dsimp only at h
    refine ⟨fromDf, bound, rfl, ?_⟩
    split at h
    · cases h
    · split at h
      · split at h
        · cases h; rfl
        · cases h
      · split at h
        · cases h; rfl
        · cases h

/-- The cell that a UDF computes is what the function returns on the values that its parameters have for the row. -/
theorem udf_cell_value {h : Graph T V} {given : Dict Name V} {n : Node T V} (hu : OrderFree n)
    {columns : List Name} {rest : Dict Name V} {fromDf : List Name} {bound : Dict Name V}
    (hdet : determineParams rest columns n.inputTypes = .ok (fromDf, bound)) {row : Dict Name (Cell V)}
    (hcol : ∀ d ∈ n.inputTypes.keys, d ∈ columns → ¬ Absent h given [] d ∧
      ∃ c, row.get? d = some c ∧ ∀ v, c = .ok v ↔ Den h given [] d v)
    (hpl : ∀ d t, (d, t) ∈ n.inputTypes → d ∉ columns →
      (∃ v, rest.get? d = some v ∧ Den h given [] d v) ∨ (rest.get? d = none ∧ t.2 = .optional ∧ Absent h given [] d)) (x : V) :
    udfCell (revalNode scalarFn n) bound fromDf row = .ok x ↔ FnValue h given [] n x := by
  obtain ⟨hfrom, hbound⟩ := determineParams_ok hdet
  have hfn : (revalNode scalarFn n).fn = scalarFn n.fn := rfl
  unfold udfCell
  cases hc : cellsOf row (sortNames fromDf) with
  | error e =>
    obtain ⟨d, hd, hno⟩ := cellsOf_error hc
    rw [mem_sortNames, hfrom] at hd
    obtain ⟨ha, c, h1, h2⟩ := hcol d hd.1 hd.2
    refine ⟨(by intro hx; cases hx), ?_⟩
    rintro ⟨kw, hr, _⟩
    obtain ⟨t, ht⟩ := Dict.mem_keys_iff.1 hd.1
    rcases rightArgs_get hr (Dict.get?_mem ht) with ⟨w, _, hw⟩ | ⟨_, _, hab⟩
    · rw [(h2 w).2 hw] at h1
      exact absurd h1 (hno w)
    · exact absurd hab ha
  | ok args =>
    obtain ⟨h1, h2⟩ := cellsOf_ok hc
    simp only [hfn, scalarFn_scalars]
    -- the values of the parameters
    have hval : ∀ d t, (d, t) ∈ n.inputTypes → ((∃ w, Dict.get? (bound ++ args) d = some w ∧ Den h given [] d w) ∨
        (Dict.get? (bound ++ args) d = none ∧ t.2 = .optional ∧ Absent h given [] d)) := by
      intro d t hdt
      have hd : d ∈ n.inputTypes.keys := List.mem_map.2 ⟨_, hdt, rfl⟩
      rw [Dict.get?_append, hbound]
      by_cases hdc : d ∈ columns
      · rw [if_neg (fun h => h.2 hdc)]
        obtain ⟨_, c, h3, h4⟩ := hcol d hd hdc
        obtain ⟨v, h6, h7⟩ := h1 d (mem_sortNames.2 ((hfrom d).2 ⟨hd, hdc⟩))
        rw [h3] at h6; cases h6
        exact .inl ⟨v, h7, (h4 v).1 rfl⟩
      · rw [if_pos ⟨hd, hdc⟩]
        have hno : args.get? d = none := h2 d (by rw [mem_sortNames, hfrom]; exact fun h => hdc h.2)
        rcases hpl d t hdt hdc with ⟨v, h3, h4⟩ | ⟨h3, h4, h5⟩
        · rw [h3]; exact .inl ⟨v, rfl, h4⟩
        · rw [h3, hno]; exact .inr ⟨rfl, h4, h5⟩
    have hout : ∀ d, d ∉ n.inputTypes.keys → Dict.get? (bound ++ args) d = none := by
      intro d hd
      rw [Dict.get?_append, hbound, if_neg (fun h => hd h.1), h2 d (by rw [mem_sortNames, hfrom]; exact fun h => hd h.1)]
      rfl
    have hright : RightArgs h given [] n (argsFor n.inputTypes (fun d => Dict.get? (bound ++ args) d)) := by
      refine ⟨_, ?_, ?_, rfl⟩
      · intro d w hd hw
        obtain ⟨t, ht⟩ := Dict.mem_keys_iff.1 hd
        rcases hval d t (Dict.get?_mem ht) with ⟨w', h3, h4⟩ | ⟨h3, _, _⟩
        · rw [h3] at hw; cases hw; exact h4
        · rw [h3] at hw; cases hw
      · intro d t hdt hw
        rcases hval d t hdt with ⟨w', h3, h4⟩ | ⟨_, h4, h5⟩
        · rw [h3] at hw; cases hw
        · exact ⟨h4, h5⟩
    have hsame : ∀ kw, RightArgs h given [] n kw → SameArgs (bound ++ args) kw := by
      intro kw hr d
      by_cases hd : d ∈ n.inputTypes.keys
      · obtain ⟨t, ht⟩ := Dict.mem_keys_iff.1 hd
        rcases rightArgs_get hr (Dict.get?_mem ht) with ⟨w, h3, h4⟩ | ⟨h3, _, h4⟩ <;>
          rcases hval d t (Dict.get?_mem ht) with ⟨w', h5, h6⟩ | ⟨h5, _, h6⟩
        · rw [h3, h5, Den.det h4 h6]
        · exact absurd h4 h6.not_den
        · exact absurd h6 h4.not_den
        · rw [h3, h5]
      · rw [hout d hd]
        obtain ⟨val, _, _, rfl⟩ := hr
        rw [mem_argsFor_get, if_neg hd]
    have hcall : ∀ kw, RightArgs h given [] n kw → n.fn kw = n.fn (bound ++ args) := fun kw hr => (hu _ _ (hsame kw hr)).symm
    constructor
    · intro hx
      refine ⟨_, hright, ?_⟩
      rw [hcall _ hright]
      cases hf : n.fn (bound ++ args) with
      | error e => rw [hf] at hx; cases hx
      | ok v => rw [hf] at hx; exact hx
    · rintro ⟨kw, hr, hx⟩
      rw [hcall _ hr] at hx
      rw [hx]; rfl

/-! ### The chain -/

section
variable {o : Kinds T} {dfT : T} {g : Graph T (SVal V)} {h : Graph T V} {inputs overrides : Dict Name (SVal V)} {F : Frame V}
  {passed group : List Name} {param : Name} {ren : Name → Name}

/-- The node made from a function, with `cur` holding the dataframe so far. -/
def udfNode (o : Kinds T) (dfT : T) (param : Name) (group passed : List Name) (n : Node T V) (cur : Name) : Node T (SVal V) :=
  sparkifyUdf o dfT (revalNode scalarFn n) cur param (n.inputTypes.keys.filter group.contains)
    (n.inputTypes.keys.filter passed.contains)

/-- What is known about a function of the chain that does not depend on values. -/
structure StepAt (o : Kinds T) (dfT : T) (g : Graph T (SVal V)) (h : Graph T V) (overrides : Dict Name (SVal V)) (F : Frame V)
    (passed group : List Name) (param : Name) (ren : Name → Name) (pre : List Name) (cur : Name) (n : Node T V) : Prop where
  params_nodup : n.inputTypes.keys.Nodup
  order_free : OrderFree n
  kind : n.kind ≠ .external
  apart : KeepsApart ren (udfNode o dfT param group passed n cur)
  defines : Defines g (renameNode ren (ren n.name) (udfNode o dfT param group passed n cur))
  plain : overrides.get? (ren n.name) = none
  defines_h : Defines h n
  earlier : ∀ d ∈ n.inputTypes.keys, d ∈ group → d ∈ pre
  external : ∀ d ∈ n.inputTypes.keys, d ∉ group → (∃ m, h.get? d = some m ∧ m.kind = .external) ∧ ren d = d ∧
    (d ∉ passed → d ∉ F.columns)
  group_fn : ∀ d ∈ group, ∃ m, h.get? d = some m ∧ m.kind ≠ .external
  not_param : param ∉ n.inputTypes.keys
  cur_in : cur = param ∨ cur ∈ group

/-- The arguments that are bound to the UDF. -/
def Rest (g : Graph T (SVal V)) (inputs overrides : Dict Name (SVal V)) (passed group : List Name) (n : Node T V)
    (rest : Dict Name V) : Prop :=
  ∀ d t, (d, t) ∈ n.inputTypes → (d ∈ group ∨ d ∈ passed → rest.get? d = none) ∧
    (d ∉ group → d ∉ passed → (∃ v, rest.get? d = some v ∧ Den g inputs overrides d (.scalar v)) ∨
      (rest.get? d = none ∧ t.2 = .optional ∧ Absent g inputs overrides d))

variable {pre : List Name} {cur : Name} {n : Node T V}

theorem udfNode_get (d : Name) : (udfNode o dfT param group passed n cur).inputTypes.get? d =
    if ((∃ k ∈ n.inputTypes.keys, k ∈ passed) ∧ d = param) ∨ (d ∈ n.inputTypes.keys ∧ d ∈ group) ∨ d = cur then
      some (dfT, .required)
    else if d ∈ passed then none else n.inputTypes.get? d := by
  unfold udfNode sparkifyUdf
  simp only
  rw [udfInputs_get]
  have h1 : (n.inputTypes.keys.filter passed.contains ≠ []) ↔ ∃ k ∈ n.inputTypes.keys, k ∈ passed := by
    simp [List.filter_eq_nil_iff]
  have h2 : (revalNode scalarFn n : Node T (SVal V)).inputTypes = n.inputTypes := rfl
  rw [h2]
  simp only [h1, List.mem_filter, List.contains_iff_mem]
  split
  · rfl
  · by_cases h3 : d ∈ passed
    · rw [if_pos h3]
      by_cases h4 : d ∈ n.inputTypes.keys
      · rw [if_pos ⟨h4, h3⟩]
      · rw [if_neg (fun h => h4 h.1)]
        cases hg : n.inputTypes.get? d with
        | none => rfl
        | some t => exact absurd (Dict.mem_keys_iff.2 ⟨t, hg⟩) h4
    · rw [if_neg h3, if_neg (fun h => h3 h.2)]

theorem udfNode_nodup (hn : n.inputTypes.keys.Nodup) : (udfNode o dfT param group passed n cur).inputTypes.keys.Nodup :=
  udfInputs_nodup (types := (revalNode scalarFn n : Node T (SVal V)).inputTypes) hn _ _ _ _

theorem StepAt.den_iff (hs : StepAt o dfT g h overrides F passed group param ren pre cur n) (w : SVal V) :
    Den g inputs overrides (ren n.name) w ↔ ∃ val : Name → Option (SVal V),
      (∀ d x, d ∈ (udfNode o dfT param group passed n cur).inputTypes.keys → val d = some x → Den g inputs overrides (ren d) x) ∧
      (∀ d t, (d, t) ∈ (udfNode o dfT param group passed n cur).inputTypes → val d = none →
        t.2 = .optional ∧ Absent g inputs overrides (ren d)) ∧
      (udfNode o dfT param group passed n cur).fn (argsFor (udfNode o dfT param group passed n cur).inputTypes val) = .ok w := by
  rw [← renamed_value hs.apart (ren n.name)]
  exact den_iff_fnValue (n := renameNode ren (ren n.name) (udfNode o dfT param group passed n cur)) hs.defines hs.kind hs.plain w

/-- Without a dataframe so far there is none afterwards. -/
theorem StepAt.back (hs : StepAt o dfT g h overrides F passed group param ren pre cur n) {w : SVal V}
    (hw : Den g inputs overrides (ren n.name) w) : (∃ f, w = .frame f) ∧ ∃ f, Den g inputs overrides (ren cur) (.frame f) := by
  obtain ⟨val, h1, h2, h3⟩ := hs.den_iff w |>.1 hw
  have hfn : (udfNode o dfT param group passed n cur).fn = udfCallable o (revalNode scalarFn n) cur param
    (n.inputTypes.keys.filter group.contains) (n.inputTypes.keys.filter passed.contains) := rfl
  rw [hfn] at h3
  have hg : (udfNode o dfT param group passed n cur).inputTypes.get? cur = some (dfT, .required) := by
    rw [udfNode_get, if_pos (.inr (.inr rfl))]
  have hk : cur ∈ (udfNode o dfT param group passed n cur).inputTypes.keys := Dict.mem_keys_iff.2 ⟨_, hg⟩
  unfold udfCallable at h3
  rw [mem_argsFor_get, if_pos hk] at h3
  cases hv : val cur with
  | none => rw [hv] at h3; cases h3
  | some x =>
    rw [hv] at h3
    cases x with
    | scalar v => cases h3
    | frame f =>
      dsimp only at h3
      refine ⟨?_, f, h1 cur _ hk hv⟩
      split at h3
      · cases h3
      · rename_i rest _
        cases hl : lambdaUdf o f (revalNode scalarFn n) rest with
        | error e => rw [hl] at h3; cases h3
        | ok f' => rw [hl] at h3; cases h3; exact ⟨f', rfl⟩

/-- What the node made from a function computes. -/
theorem StepAt.value (hs : StepAt o dfT g h overrides F passed group param ren pre cur n) {f : Frame V}
    (hf : Den g inputs overrides (ren cur) (.frame f)) {w : SVal V} (hw : Den g inputs overrides (ren n.name) w) :
    ∃ rest f', lambdaUdf o f (revalNode scalarFn n) rest = .ok f' ∧ w = .frame f' ∧ Rest g inputs overrides passed group n rest := by
  obtain ⟨val, h1, h2, h3⟩ := hs.den_iff w |>.1 hw
  have hfn : (udfNode o dfT param group passed n cur).fn = udfCallable o (revalNode scalarFn n) cur param
    (n.inputTypes.keys.filter group.contains) (n.inputTypes.keys.filter passed.contains) := rfl
  rw [hfn] at h3
  have hg : (udfNode o dfT param group passed n cur).inputTypes.get? cur = some (dfT, .required) := by
    rw [udfNode_get, if_pos (.inr (.inr rfl))]
  have hk : cur ∈ (udfNode o dfT param group passed n cur).inputTypes.keys := Dict.mem_keys_iff.2 ⟨_, hg⟩
  unfold udfCallable at h3
  rw [mem_argsFor_get, if_pos hk] at h3
  cases hv : val cur with
  | none => rw [hv] at h3; cases h3
  | some x =>
    have hx := Den.det hf (h1 cur _ hk hv)
    subst hx
    rw [hv] at h3
    dsimp only at h3
    cases hgr : gather SVal.value? (List.filter (fun p =>
      !(n.inputTypes.keys.filter passed.contains).contains p.1 && (!(n.inputTypes.keys.filter group.contains).contains p.1 &&
        (p.1 != cur && p.1 != param))) (argsFor (udfNode o dfT param group passed n cur).inputTypes val)) with
    | none => rw [hgr] at h3; cases h3
    | some rest =>
      rw [hgr] at h3
      dsimp only at h3
      cases hl : lambdaUdf o f (revalNode scalarFn n) rest with
      | error e => rw [hl] at h3; cases h3
      | ok f' =>
        rw [hl] at h3; cases h3
        refine ⟨rest, f', hl, rfl, ?_⟩
        have hget : ∀ d, rest.get? d = (if !(n.inputTypes.keys.filter passed.contains).contains d &&
            (!(n.inputTypes.keys.filter group.contains).contains d && (d != cur && d != param)) then
            (if d ∈ (udfNode o dfT param group passed n cur).inputTypes.keys then val d else none) else none).bind SVal.value? := by
          intro d
          rw [gather_get? hgr d, get?_filter_keys (fun d => !(n.inputTypes.keys.filter passed.contains).contains d &&
            (!(n.inputTypes.keys.filter group.contains).contains d && (d != cur && d != param))), mem_argsFor_get]
        intro d t hdt
        have hd : d ∈ n.inputTypes.keys := List.mem_map.2 ⟨_, hdt, rfl⟩
        constructor
        · intro hor
          rw [hget d, if_neg]
          · rfl
          · rcases hor with hor | hor <;> simp [hd, hor]
        · intro hng hnp
          have hdp : d ≠ param := by rintro rfl; exact hs.not_param hd
          have hdc : d ≠ cur := by
            rintro rfl
            rcases hs.cur_in with h' | h'
            · exact hdp h'
            · exact hng h'
          have hty : (udfNode o dfT param group passed n cur).inputTypes.get? d = some t := by
            rw [udfNode_get, if_neg (by simp [hdp, hng, hdc]), if_neg hnp]
            exact Dict.get?_of_mem hs.params_nodup hdt
          have hdk := Dict.mem_keys_iff.2 ⟨_, hty⟩
          obtain ⟨_, hren, _⟩ := hs.external d hd hng
          rw [hget d, if_pos (by simp [hng, hnp, hdp, hdc]), if_pos hdk]
          cases hvd : val d with
          | none =>
            have := h2 d t (Dict.get?_mem hty) hvd
            rw [hren] at this
            exact .inr ⟨rfl, this⟩
          | some x =>
            have hden := h1 d x hdk hvd
            rw [hren] at hden
            cases x with
            | scalar v => exact .inl ⟨v, rfl, hden⟩
            | frame f0 =>
              exfalso
              have hm : (d, SVal.frame f0) ∈ (List.filter (fun p =>
                  !(n.inputTypes.keys.filter passed.contains).contains p.1 && (!(n.inputTypes.keys.filter group.contains).contains p.1 &&
                  (p.1 != cur && p.1 != param))) (argsFor (udfNode o dfT param group passed n cur).inputTypes val)) := by
                refine List.mem_filter.2 ⟨Dict.get?_mem ?_, by simp [hng, hnp, hdp, hdc]⟩
                rw [mem_argsFor_get, if_pos hdk, hvd]
              obtain ⟨b, hb⟩ := (gather_some hgr).1 _ hm
              cases hb

/-- When the node made from a function computes something. -/
theorem StepAt.has_value (hs : StepAt o dfT g h overrides F passed group param ren pre cur n) {f : Frame V}
    (hf : Den g inputs overrides (ren cur) (.frame f)) (hp : ∃ w, Den g inputs overrides (ren param) w)
    (hpre : ∀ k ∈ pre, ∃ w, Den g inputs overrides (ren k) w)
    (hext : ∀ d t, (d, t) ∈ n.inputTypes → d ∉ group → d ∉ passed → (∃ v, Den g inputs overrides d (.scalar v)) ∨
      (t.2 = .optional ∧ Absent g inputs overrides d)) :
    ∃ rest, Rest g inputs overrides passed group n rest ∧ ∀ f', lambdaUdf o f (revalNode scalarFn n) rest = .ok f' →
      Den g inputs overrides (ren n.name) (.frame f') := by
  classical
  let val : Name → Option (SVal V) := fun d =>
    if hd : ∃ w, Den g inputs overrides (ren d) w then some hd.choose else none
  have hsome : ∀ d w, Den g inputs overrides (ren d) w → val d = some w := by
    intro d w hw
    have hd : ∃ w, Den g inputs overrides (ren d) w := ⟨w, hw⟩
    simp only [val, dif_pos hd]
    rw [Den.det hd.choose_spec hw]
  have hval : ∀ d x, val d = some x → Den g inputs overrides (ren d) x := by
    intro d x hx
    by_cases hd : ∃ w, Den g inputs overrides (ren d) w
    · simp only [val, dif_pos hd] at hx
      cases hx; exact hd.choose_spec
    · simp only [val, dif_neg hd] at hx; cases hx
  have hcases : ∀ d t, (d, t) ∈ (udfNode o dfT param group passed n cur).inputTypes →
      (∃ w, Den g inputs overrides (ren d) w) ∨ ((d, t) ∈ n.inputTypes ∧ d ∉ group ∧ d ∉ passed ∧ d ≠ cur ∧ d ≠ param) := by
    intro d t hdt
    have hg := Dict.get?_of_mem (udfNode_nodup hs.params_nodup) hdt
    rw [udfNode_get] at hg
    by_cases hc : ((∃ k ∈ n.inputTypes.keys, k ∈ passed) ∧ d = param) ∨ (d ∈ n.inputTypes.keys ∧ d ∈ group) ∨ d = cur
    · rcases hc with ⟨_, rfl⟩ | ⟨h1, h2⟩ | rfl
      · exact .inl hp
      · exact .inl (hpre d (hs.earlier d h1 h2))
      · exact .inl ⟨_, hf⟩
    · rw [if_neg hc] at hg
      by_cases hpd : d ∈ passed
      · rw [if_pos hpd] at hg; cases hg
      · rw [if_neg hpd] at hg
        have hk := Dict.mem_keys_iff.2 ⟨_, hg⟩
        refine .inr ⟨Dict.get?_mem hg, fun hgr => hc (.inr (.inl ⟨hk, hgr⟩)), hpd, fun he => hc (.inr (.inr he)), ?_⟩
        rintro rfl; exact hs.not_param hk
  have hk : ∀ d, d ∈ (udfNode o dfT param group passed n cur).inputTypes.keys → ∃ t, (d, t) ∈ (udfNode o dfT param group passed n cur).inputTypes := by
    intro d hd
    obtain ⟨t, ht⟩ := Dict.mem_keys_iff.1 hd
    exact ⟨t, Dict.get?_mem ht⟩
  obtain ⟨rest, hrest⟩ := gather_of (f := SVal.value?) (d := List.filter (fun p =>
      !(n.inputTypes.keys.filter passed.contains).contains p.1 && (!(n.inputTypes.keys.filter group.contains).contains p.1 &&
        (p.1 != cur && p.1 != param))) (argsFor (udfNode o dfT param group passed n cur).inputTypes val)) (by
    rintro ⟨d, x⟩ hm
    obtain ⟨hm, hq⟩ := List.mem_filter.1 hm
    obtain ⟨hdk, hx⟩ := argsFor_mem hm
    obtain ⟨t, ht⟩ := hk d hdk
    simp only [Bool.and_eq_true, bne_iff_ne, ne_eq] at hq
    have hg := Dict.get?_of_mem (udfNode_nodup hs.params_nodup) ht
    rw [udfNode_get] at hg
    by_cases hc : ((∃ k ∈ n.inputTypes.keys, k ∈ passed) ∧ d = param) ∨ (d ∈ n.inputTypes.keys ∧ d ∈ group) ∨ d = cur
    · exfalso
      rcases hc with ⟨_, rfl⟩ | ⟨h1, h2⟩ | rfl
      · exact hq.2.2.2 rfl
      · have := hq.2.1
        simp [h1, h2] at this
      · exact hq.2.2.1 rfl
    · rw [if_neg hc] at hg
      by_cases hpd : d ∈ passed
      · rw [if_pos hpd] at hg; cases hg
      · rw [if_neg hpd] at hg
        have hdn := Dict.mem_keys_iff.2 ⟨_, hg⟩
        have hng : d ∉ group := fun hgr => hc (.inr (.inl ⟨hdn, hgr⟩))
        have hren := (hs.external d hdn hng).2.1
        have hden := hval d x hx
        rw [hren] at hden
        rcases hext d t (Dict.get?_mem hg) hng hpd with ⟨v, hv⟩ | ⟨_, ha⟩
        · have := Den.det hv hden
          subst this
          exact ⟨v, rfl⟩
        · exact absurd hden ha.not_den)
  refine ⟨rest, ?_, ?_⟩
  · have hget : ∀ d, rest.get? d = (if !(n.inputTypes.keys.filter passed.contains).contains d &&
        (!(n.inputTypes.keys.filter group.contains).contains d && (d != cur && d != param)) then
        (if d ∈ (udfNode o dfT param group passed n cur).inputTypes.keys then val d else none) else none).bind SVal.value? := by
      intro d
      rw [gather_get? hrest d, get?_filter_keys (fun d => !(n.inputTypes.keys.filter passed.contains).contains d &&
        (!(n.inputTypes.keys.filter group.contains).contains d && (d != cur && d != param))), mem_argsFor_get]
    intro d t hdt
    have hd : d ∈ n.inputTypes.keys := List.mem_map.2 ⟨_, hdt, rfl⟩
    constructor
    · intro hor
      rw [hget d, if_neg]
      · rfl
      · rcases hor with hor | hor <;> simp [hd, hor]
    · intro hng hnp
      have hdp : d ≠ param := by rintro rfl; exact hs.not_param hd
      have hdc : d ≠ cur := by
        rintro rfl
        rcases hs.cur_in with h' | h'
        · exact hdp h'
        · exact hng h'
      have hty : (udfNode o dfT param group passed n cur).inputTypes.get? d = some t := by
        rw [udfNode_get, if_neg (by simp [hdp, hng, hdc]), if_neg hnp]
        exact Dict.get?_of_mem hs.params_nodup hdt
      have hren := (hs.external d hd hng).2.1
      rw [hget d, if_pos (by simp [hng, hnp, hdp, hdc]), if_pos (Dict.mem_keys_iff.2 ⟨_, hty⟩)]
      rcases hext d t hdt hng hnp with ⟨v, hv⟩ | ⟨ho, ha⟩
      · rw [hsome d _ (by rw [hren]; exact hv)]
        exact .inl ⟨v, rfl, hv⟩
      · cases hvd : val d with
        | none => exact .inr ⟨rfl, ho, ha⟩
        | some x =>
          have hden := hval d x hvd
          rw [hren] at hden
          exact absurd hden ha.not_den
  · intro f' hl
    refine (hs.den_iff _).2 ⟨val, fun d x _ hx => hval d x hx, ?_, ?_⟩
    · intro d t hdt hv
      rcases hcases d t hdt with ⟨w, hw⟩ | ⟨h1, h2, h3, _⟩
      · rw [hsome d w hw] at hv; cases hv
      · have hd : d ∈ n.inputTypes.keys := List.mem_map.2 ⟨_, h1, rfl⟩
        have hren := (hs.external d hd h2).2.1
        rcases hext d t h1 h2 h3 with ⟨v, hv'⟩ | ⟨ho, ha⟩
        · rw [hsome d _ (by rw [hren]; exact hv')] at hv; cases hv
        · rw [hren]; exact ⟨ho, ha⟩
    · have hfn : (udfNode o dfT param group passed n cur).fn = udfCallable o (revalNode scalarFn n) cur param
        (n.inputTypes.keys.filter group.contains) (n.inputTypes.keys.filter passed.contains) := rfl
      have hg : (udfNode o dfT param group passed n cur).inputTypes.get? cur = some (dfT, .required) := by
        rw [udfNode_get, if_pos (.inr (.inr rfl))]
      rw [hfn]
      unfold udfCallable
      rw [mem_argsFor_get, if_pos (Dict.mem_keys_iff.2 ⟨_, hg⟩), hsome cur _ hf]
      dsimp only
      rw [hrest]
      dsimp only
      rw [hl]; rfl

end

end Verif.Spark
