import Verif.Proofs.CrossSim
import Verif.Proofs.Remote
import Verif.Props.Execution
import Verif.Spec.Caching

/-! C79: facts about execution as UDFs of PySpark. -/
namespace Verif.Spark
open Verif
variable {T V : Type}

/-! ### Specification -/

/-- `k` is given the value `w`: overridden, or an input. -/
def Given (g : Graph T V) (inputs overrides : Dict Name (SVal V)) (k : Name) (w : SVal V) : Prop :=
  ∃ n, g.get? k = some n ∧ (overrides.get? k = some w ∨
    (overrides.get? k = none ∧ n.kind = .external ∧ inputs.get? k = some w))

/-- The table `F` is given for exactly those names of nodes that are names of its columns, and no other table is given. -/
structure OneTable (F : Frame V) (g : Graph T V) (inputs overrides : Dict Name (SVal V)) : Prop where
  nodup : F.columns.Nodup
  cells : ∀ r ∈ F.rows, ∀ k ∈ F.columns, ∃ v, r.get? k = some (.ok v)
  frames : ∀ k f, Given g inputs overrides k (.frame f) → f = F ∧ k ∈ F.columns
  columns : ∀ k ∈ F.columns, ∀ n, g.get? k = some n → ∃ f, Given g inputs overrides k (.frame f)

/-- What is given, seen from a row: in the place of a table stands the cell of the row. -/
def atRow (null : V) (row : Dict Name (Cell V)) (d : Dict Name (SVal V)) : Dict Name V :=
  d.map (fun p => (p.1, match p.2 with
    | .scalar v => v
    | .frame _ => match row.get? p.1 with
      | some (.ok v) => v
      | _ => null))

/-- `k` is computed by Spark: it is a column of the given table, or a function of such nodes. -/
inductive InSpark (g : Graph T V) (inputs overrides : Dict Name (SVal V)) : Name → Prop
  | given {k f} : Given g inputs overrides k (.frame f) → InSpark g inputs overrides k
  | fn {k n d} : g.get? k = some n → overrides.get? k = none → n.kind ≠ .external → d ∈ n.inputTypes.keys →
      InSpark g inputs overrides d → InSpark g inputs overrides k

/-- Functions do not see the order of their keyword arguments. -/
def Unordered (g : Graph T V) : Prop :=
  ∀ k n, g.get? k = some n → n.kind ≠ .external → ∀ kw kw', SameArgs kw kw' → n.fn kw = n.fn kw'

/-- The types of a function can be handled: the required parameters that come from Spark are not series and the returned type
has a counterpart in Spark, or they are all series and the type of the elements of the returned series has one. -/
def Supported (o : Kinds T) (g : Graph T V) (inputs overrides : Dict Name (SVal V)) (n : Node T V) : Prop :=
  ((∀ d t, (d, t, DepType.required) ∈ n.inputTypes → InSpark g inputs overrides d → o.isSeries t = false) ∧ o.udfReturn n.typ = true) ∨
  ((∀ d t, (d, t, DepType.required) ∈ n.inputTypes → InSpark g inputs overrides d → o.isSeries t = true) ∧
    (∃ d t, (d, t, DepType.required) ∈ n.inputTypes ∧ InSpark g inputs overrides d) ∧ o.seriesReturn n.typ = true)

/-! ### Executing without Spark, on columns -/

/-- A value, or the values of all rows (`none`: the function raises). -/
inductive PVal (V : Type) where
  | scalar (v : V)
  | col (c : Nat → Option V)

def PVal.at (i : Nat) : PVal V → Option V
  | .scalar v => some v
  | .col c => c i

def PVal.value? : PVal V → Option V
  | .scalar v => some v
  | .col _ => none

def pureFn (f : Dict Name V → Except UserErr V) (kw : Dict Name (PVal V)) : Except UserErr (PVal V) :=
  match gather PVal.value? kw with
  | some args => (f args).map .scalar
  | none => .ok (.col fun i => (gather (PVal.at i) kw).bind fun args => (f args).toOption)

def pvalOf (F : Frame V) (k : Name) : SVal V → PVal V
  | .scalar v => .scalar v
  | .frame _ => .col fun i => (F.rows[i]?).bind fun r => (r.get? k).bind Except.toOption

def pvals (F : Frame V) (d : Dict Name (SVal V)) : Dict Name (PVal V) := d.map (fun p => (p.1, pvalOf F p.1 p.2))

theorem mapDict_get? {α β : Type} (f : Name → α → β) (d : Dict Name α) (k : Name) :
    Dict.get? (d.map (fun p => (p.1, f p.1 p.2))) k = (d.get? k).map (f k) := by
  induction d with
  | nil => rfl
  | cons p d ih =>
    obtain ⟨a, v⟩ := p
    rw [List.map_cons, Dict.get?_cons, Dict.get?_cons]
    split
    · rename_i h; subst h; rfl
    · exact ih

theorem pvals_get? (F : Frame V) (d : Dict Name (SVal V)) (k : Name) : (pvals F d).get? k = (d.get? k).map (pvalOf F k) :=
  mapDict_get? (pvalOf F) d k

def rowVal (null : V) (row : Dict Name (Cell V)) (k : Name) : SVal V → V
  | .scalar v => v
  | .frame _ => match row.get? k with
    | some (.ok v) => v
    | _ => null

theorem atRow_get? (null : V) (row : Dict Name (Cell V)) (d : Dict Name (SVal V)) (k : Name) :
    (atRow null row d).get? k = (d.get? k).map (rowVal null row k) := by
  rw [← mapDict_get? (rowVal null row)]
  congr 1

/-! ### Gathering -/

theorem gather_get? {α β : Type} {f : α → Option β} {d : Dict Name α} {d' : Dict Name β} (h : gather f d = some d') (k : Name) :
    d'.get? k = (d.get? k).bind f := by
  induction d generalizing d' with
  | nil => cases h; rfl
  | cons p d ih =>
    obtain ⟨a, v⟩ := p
    unfold gather at h
    cases h1 : f v with
    | none => rw [h1] at h; cases h
    | some b =>
      cases h2 : gather f d with
      | none => rw [h1, h2] at h; cases h
      | some r =>
        rw [h1, h2] at h
        cases h
        rw [Dict.get?_cons, Dict.get?_cons]
        split
        · rw [Option.bind_some, h1]
        · exact ih h2

theorem gather_of {α β : Type} {f : α → Option β} {d : Dict Name α} (h : ∀ p ∈ d, ∃ b, f p.2 = some b) :
    ∃ d', gather f d = some d' := by
  cases hg : gather f d with
  | some d' => exact ⟨d', rfl⟩
  | none =>
    obtain ⟨p, hp, hn⟩ := gather_none hg
    obtain ⟨b, hb⟩ := h p hp
    rw [hb] at hn; cases hn

theorem gather_scalars (d : Dict Name V) : gather SVal.value? (d.map (fun p => (p.1, SVal.scalar p.2))) = some d := by
  induction d with
  | nil => rfl
  | cons p d ih =>
    obtain ⟨a, v⟩ := p
    unfold gather
    rw [List.map_cons]
    simp only [SVal.value?, ih]

theorem scalarFn_scalars (f : Dict Name V → Except UserErr V) (d : Dict Name V) :
    scalarFn f (d.map (fun p => (p.1, SVal.scalar p.2))) = (f d).map .scalar := by
  unfold scalarFn
  rw [gather_scalars]

theorem pureFn_ok {f : Dict Name V → Except UserErr V} {kw : Dict Name (PVal V)} {w : PVal V} (h : pureFn f kw = .ok w) (i : Nat)
    (v : V) : w.at i = some v ↔ ∃ args, gather (PVal.at i) kw = some args ∧ f args = .ok v := by
  unfold pureFn at h
  cases hg : gather PVal.value? kw with
  | some args =>
    rw [hg] at h
    have hat : gather (PVal.at i) kw = some args := by
      obtain ⟨h1, h2⟩ := gather_some hg
      have h3 : ∀ p ∈ kw, PVal.at i p.2 = PVal.value? p.2 := by
        intro p hp
        obtain ⟨b, hb⟩ := h1 p hp
        cases hp2 : p.2 with
        | scalar v => rfl
        | col c => rw [hp2] at hb; cases hb
      clear h1 h2 h
      induction kw generalizing args with
      | nil => exact hg
      | cons p kw ih =>
        unfold gather at hg ⊢
        rw [h3 p (by simp)]
        cases h4 : gather PVal.value? kw with
        | none =>
          rw [h4] at hg
          cases h5 : PVal.value? p.2 <;> rw [h5] at hg <;> cases hg
        | some r =>
          rw [ih r h4 (fun q hq => h3 q (by simp [hq]))]
          rw [h4] at hg
          exact hg
    dsimp only at h
    cases hf : f args with
    | error e => rw [hf] at h; cases h
    | ok a =>
      rw [hf] at h
      cases h
      constructor
      · intro e; cases e; exact ⟨args, hat, hf⟩
      · rintro ⟨args', h1, h2⟩
        rw [hat] at h1; cases h1
        rw [hf] at h2; cases h2; rfl
  | none =>
    rw [hg] at h
    cases h
    change Option.bind _ _ = _ ↔ _
    rw [Option.bind_eq_some_iff]
    constructor
    · rintro ⟨args, h1, h2⟩
      refine ⟨args, h1, ?_⟩
      cases hf : f args with
      | error e => rw [hf] at h2; cases h2
      | ok a => rw [hf] at h2; cases h2; rfl
    · rintro ⟨args, h1, h2⟩
      exact ⟨args, h1, by rw [h2]; rfl⟩

theorem pureFn_shape {f : Dict Name V → Except UserErr V} {kw : Dict Name (PVal V)} {w : PVal V} (h : pureFn f kw = .ok w) :
    (∃ v, w = .scalar v ∧ ∀ p ∈ kw, ∃ x, p.2 = .scalar x) ∨ (∃ c, w = .col c ∧ ∃ p ∈ kw, ∃ x, p.2 = .col x) := by
  unfold pureFn at h
  cases hg : gather PVal.value? kw with
  | some args =>
    rw [hg] at h
    dsimp only at h
    cases hf : f args with
    | error e => rw [hf] at h; cases h
    | ok a =>
      rw [hf] at h
      cases h
      refine .inl ⟨a, rfl, fun p hp => ?_⟩
      obtain ⟨b, hb⟩ := (gather_some hg).1 p hp
      cases hp2 : p.2 with
      | scalar v => exact ⟨v, rfl⟩
      | col c => rw [hp2] at hb; cases hb
  | none =>
    rw [hg] at h
    cases h
    refine .inr ⟨_, rfl, ?_⟩
    obtain ⟨p, hp, hn⟩ := gather_none hg
    refine ⟨p, hp, ?_⟩
    cases hp2 : p.2 with
    | scalar v => rw [hp2] at hn; cases hn
    | col c => exact ⟨c, rfl⟩

/-! ### The meaning of the execution on columns -/

section
variable {F : Frame V} {g : Graph T V} {inputs overrides : Dict Name (SVal V)}

theorem Given.det {k : Name} {w w' : SVal V} (h : Given g inputs overrides k w) (h' : Given g inputs overrides k w') : w = w' := by
  obtain ⟨n, h1, h2⟩ := h
  obtain ⟨n', h1', h2'⟩ := h'
  rw [h1] at h1'; cases h1'
  rcases h2 with h2 | ⟨h2, h3, h4⟩
  · rcases h2' with h2' | ⟨h2', _, _⟩
    · rw [h2] at h2'; cases h2'; rfl
    · rw [h2] at h2'; cases h2'
  · rcases h2' with h2' | ⟨_, _, h4'⟩
    · rw [h2] at h2'; cases h2'
    · rw [h4] at h4'; cases h4'; rfl

theorem pure_absent {k : Name} : Absent (revalGraph pureFn g) (pvals F inputs) (pvals F overrides) k ↔
    ∃ n, g.get? k = some n ∧ n.kind = .external ∧ inputs.get? k = none ∧ overrides.get? k = none := by
  constructor
  · rintro ⟨n, h1, h2, h3, h4⟩
    obtain ⟨m, hm, rfl⟩ := revalGraph_some h1
    rw [pvals_get?, Option.map_eq_none_iff] at h3 h4
    exact ⟨m, hm, h2, h3, h4⟩
  · rintro ⟨n, h1, h2, h3, h4⟩
    exact ⟨revalNode pureFn n, revalGraph_of h1, h2, by rw [pvals_get?, h3]; rfl, by rw [pvals_get?, h4]; rfl⟩

theorem row_absent {null : V} {row : Dict Name (Cell V)} {k : Name} :
    Absent g (atRow null row inputs) (atRow null row overrides) k ↔
    ∃ n, g.get? k = some n ∧ n.kind = .external ∧ inputs.get? k = none ∧ overrides.get? k = none := by
  unfold Absent
  simp only [atRow_get?, Option.map_eq_none_iff]

theorem argsFor_mem {W : Type} {params : Dict Name (T × DepType)} {val : Name → Option W} {d : Name} {w : W}
    (h : (d, w) ∈ argsFor params val) : d ∈ params.keys ∧ val d = some w := by
  obtain ⟨p, hp, he⟩ := List.mem_filterMap.1 h
  obtain ⟨x, hx, he⟩ := Option.map_eq_some_iff.1 he
  cases he
  exact ⟨mem_keys_of_mem hp, hx⟩

/-- The cell of a given table. -/
theorem rowVal_pval (ho : OneTable F g inputs overrides) {null : V} {i : Nat} {row : Dict Name (Cell V)} (hr : F.rows[i]? = some row)
    {k : Name} {x : SVal V} (hk : Given g inputs overrides k x) : (pvalOf F k x).at i = some (rowVal null row k x) := by
  cases x with
  | scalar v => rfl
  | frame f =>
    obtain ⟨rfl, hc⟩ := ho.frames k f hk
    obtain ⟨v, hv⟩ := ho.cells row (List.mem_of_getElem? hr) k hc
    simp only [pvalOf, PVal.at, hr, Option.bind_some, hv, rowVal]
    rfl

theorem pure_den (hw : WellFormed g) (ho : OneTable F g inputs overrides) {null : V} {i : Nat} {row : Dict Name (Cell V)}
    (hr : F.rows[i]? = some row) {k : Name} {w : PVal V}
    (h : Den (revalGraph pureFn g) (pvals F inputs) (pvals F overrides) k w) :
    ∀ v, w.at i = some v ↔ Den g (atRow null row inputs) (atRow null row overrides) k v := by
  induction h with
  | @override k n w h1 h2 =>
    obtain ⟨m, hm, rfl⟩ := revalGraph_some h1
    rw [pvals_get?] at h2
    obtain ⟨x, hx, rfl⟩ := Option.map_eq_some_iff.1 h2
    rw [rowVal_pval ho hr ⟨m, hm, .inl hx⟩ (null := null)]
    have hden : Den g (atRow null row inputs) (atRow null row overrides) k (rowVal null row k x) :=
      .override hm (by rw [atRow_get?, hx]; rfl)
    intro v
    constructor
    · intro e; cases e; exact hden
    · intro e; rw [hden.det e]
  | @input k n w h1 h2 h3 h4 =>
    obtain ⟨m, hm, rfl⟩ := revalGraph_some h1
    rw [pvals_get?, Option.map_eq_none_iff] at h2
    rw [pvals_get?] at h4
    obtain ⟨x, hx, rfl⟩ := Option.map_eq_some_iff.1 h4
    rw [rowVal_pval ho hr ⟨m, hm, .inr ⟨h2, h3, hx⟩⟩ (null := null)]
    have hden : Den g (atRow null row inputs) (atRow null row overrides) k (rowVal null row k x) :=
      .input hm (by rw [atRow_get?, h2]; rfl) h3 (by rw [atRow_get?, hx]; rfl)
    intro v
    constructor
    · intro e; cases e; exact hden
    · intro e; rw [hden.det e]
  | @call k n w val h1 h2 h3 h4 h5 h6 ih =>
    obtain ⟨m, hm, rfl⟩ := revalGraph_some h1
    rw [pvals_get?, Option.map_eq_none_iff] at h2
    change ∀ d w, d ∈ m.inputTypes.keys → val d = some w → _ at h4
    change ∀ d t, (d, t) ∈ m.inputTypes → _ at h5
    change ∀ d w, d ∈ m.inputTypes.keys → val d = some w → _ at ih
    change m.kind ≠ _ at h3
    change pureFn m.fn (argsFor m.inputTypes val) = _ at h6
    have ho' : (atRow null row overrides).get? k = none := by rw [atRow_get?, h2]; rfl
    -- the arguments in this row
    have hval : ∀ args, gather (PVal.at i) (argsFor m.inputTypes val) = some args →
        args = argsFor m.inputTypes (fun d => (val d).bind (PVal.at i)) := by
      intro args hargs
      obtain ⟨_, rfl⟩ := gather_some hargs
      unfold argsFor
      rw [List.filterMap_filterMap]
      congr 1
      funext p
      cases hv : val p.1 with
      | none => simp [hv]
      | some o => simp [hv]
    intro v
    rw [pureFn_ok h6 i v]
    constructor
    · rintro ⟨args, ha, hf⟩
      have hmem := (gather_some ha).1
      rw [hval args ha] at hf
      refine .call _ hm ho' h3 ?_ ?_ hf
      · intro d x hd hx
        obtain ⟨w, hw1, hw2⟩ := Option.bind_eq_some_iff.1 hx
        exact (ih d w hd hw1 x).1 hw2
      · intro d t hd hx
        cases hv : val d with
        | none =>
          obtain ⟨e1, e2⟩ := h5 d t hd hv
          exact ⟨e1, row_absent.2 (pure_absent.1 e2)⟩
        | some w =>
          obtain ⟨b, hb⟩ := hmem (d, w) (List.mem_filterMap.2 ⟨(d, t), hd, by simp [hv]⟩)
          simp only [hv, Option.bind_some] at hx
          rw [hx] at hb; cases hb
    · intro hden
      cases hden with
      | override _ e => rw [ho'] at e; cases e
      | input e1 _ e3 _ => rw [hm] at e1; cases e1; exact absurd e3 h3
      | call val2 e1 _ _ e4 e5 e6 =>
        rw [hm] at e1; cases e1
        have hsome : ∀ d w, d ∈ m.inputTypes.keys → val d = some w → ∃ x, val2 d = some x ∧ w.at i = some x := by
          intro d w hd hv
          cases hv2 : val2 d with
          | some x => exact ⟨x, rfl, (ih d w hd hv x).2 (e4 d x hd hv2)⟩
          | none =>
            exfalso
            obtain ⟨t, ht⟩ := Dict.mem_keys_iff.1 hd
            obtain ⟨_, habs⟩ := e5 d t (Dict.get?_mem ht) hv2
            exact (pure_absent.2 (row_absent.1 habs)).not_den (h4 d w hd hv)
        obtain ⟨args, ha⟩ := gather_of (f := PVal.at i) (d := argsFor m.inputTypes val) (by
          rintro ⟨d, w⟩ hp
          obtain ⟨h7, h8⟩ := argsFor_mem hp
          obtain ⟨x, _, hx⟩ := hsome d w h7 h8
          exact ⟨x, hx⟩)
        refine ⟨args, ha, ?_⟩
        rw [hval args ha, ← e6]
        congr 1
        apply argsFor_congr
        intro d hd
        cases hv : val d with
        | some w =>
          obtain ⟨x, hx1, hx2⟩ := hsome d w hd hv
          rw [hx1]; exact hx2
        | none =>
          cases hv2 : val2 d with
          | none => rfl
          | some x =>
            exfalso
            obtain ⟨t, ht⟩ := Dict.mem_keys_iff.1 hd
            obtain ⟨_, habs⟩ := h5 d t (Dict.get?_mem ht) hv
            exact (row_absent.2 (pure_absent.1 habs)).not_den (e4 d x hd hv2)

/-- Columns are what Spark computes. -/
theorem pure_inSpark {k : Name} {w : PVal V}
    (h : Den (revalGraph pureFn g) (pvals F inputs) (pvals F overrides) k w) :
    (∃ v, w = .scalar v ∧ ¬ InSpark g inputs overrides k) ∨ (∃ c, w = .col c ∧ InSpark g inputs overrides k) := by
  have hgiven : ∀ {k : Name} {x : SVal V}, Given g inputs overrides k x →
      (∃ v, pvalOf F k x = .scalar v ∧ ¬ InSpark g inputs overrides k) ∨ (∃ c, pvalOf F k x = .col c ∧ InSpark g inputs overrides k) := by
    intro k x hx
    cases x with
    | frame f => exact .inr ⟨_, rfl, .given hx⟩
    | scalar v =>
      refine .inl ⟨v, rfl, fun hs => ?_⟩
      cases hs with
      | given h => cases hx.det h
      | fn h1 h2 h3 _ _ =>
        obtain ⟨n, hn, hx⟩ := hx
        rw [h1] at hn; cases hn
        rcases hx with hx | ⟨_, hx, _⟩
        · rw [h2] at hx; cases hx
        · exact h3 hx
  induction h with
  | @override k n w h1 h2 =>
    obtain ⟨m, hm, rfl⟩ := revalGraph_some h1
    rw [pvals_get?] at h2
    obtain ⟨x, hx, rfl⟩ := Option.map_eq_some_iff.1 h2
    exact hgiven ⟨m, hm, .inl hx⟩
  | @input k n w h1 h2 h3 h4 =>
    obtain ⟨m, hm, rfl⟩ := revalGraph_some h1
    rw [pvals_get?, Option.map_eq_none_iff] at h2
    rw [pvals_get?] at h4
    obtain ⟨x, hx, rfl⟩ := Option.map_eq_some_iff.1 h4
    exact hgiven ⟨m, hm, .inr ⟨h2, h3, hx⟩⟩
  | @call k n w val h1 h2 h3 h4 h5 h6 ih =>
    obtain ⟨m, hm, rfl⟩ := revalGraph_some h1
    rw [pvals_get?, Option.map_eq_none_iff] at h2
    change ∀ d w, d ∈ m.inputTypes.keys → val d = some w → _ at h4
    change ∀ d t, (d, t) ∈ m.inputTypes → _ at h5
    change ∀ d w, d ∈ m.inputTypes.keys → val d = some w → _ at ih
    change m.kind ≠ _ at h3
    change pureFn m.fn (argsFor m.inputTypes val) = _ at h6
    rcases pureFn_shape h6 with ⟨v, rfl, hall⟩ | ⟨c, rfl, p, hp, x, hx⟩
    · refine .inl ⟨v, rfl, fun hs => ?_⟩
      cases hs with
      | given hg =>
        obtain ⟨n, hn, hx⟩ := hg
        rw [hm] at hn; cases hn
        rcases hx with hx | ⟨_, hx, _⟩
        · rw [h2] at hx; cases hx
        · exact h3 hx
      | @fn _ n d e1 _ _ e4 e5 =>
        rw [hm] at e1; cases e1
        obtain ⟨t, ht⟩ := Dict.mem_keys_iff.1 e4
        have hmem := Dict.get?_mem ht
        cases hv : val d with
        | some w =>
          obtain ⟨y, hy⟩ := hall (d, w) (List.mem_filterMap.2 ⟨(d, t), hmem, by simp [hv]⟩)
          rcases ih d w e4 hv with ⟨_, _, hn⟩ | ⟨c, hc, _⟩
          · exact hn e5
          · cases hy.symm.trans hc
        | none =>
          obtain ⟨n, a1, a2, a3, a4⟩ := pure_absent.1 (h5 d t hmem hv).2
          cases e5 with
          | given hg =>
            obtain ⟨n', hn', hx⟩ := hg
            rcases hx with hx | ⟨_, _, hx⟩
            · rw [a4] at hx; cases hx
            · rw [a3] at hx; cases hx
          | fn b1 _ b3 _ _ => rw [a1] at b1; cases b1; exact b3 a2
    · obtain ⟨d, w⟩ := p
      obtain ⟨hd, hv⟩ := argsFor_mem hp
      rcases ih d w hd hv with ⟨y, hy, _⟩ | ⟨_, _, hs⟩
      · cases hx.symm.trans hy
      · exact .inr ⟨c, rfl, .fn hm h2 h3 hd hs⟩

end

end Verif.Spark
