import Verif.Proofs.SparkColumns

/-!
Lemmas for C80: the dataframe along the chain.
-/
namespace Verif.Spark
open Verif
variable {T V : Type}

section
variable {o : Kinds T} {dfT : T} {g : Graph T (SVal V)} {h : Graph T V} {inputs overrides : Dict Name (SVal V)} {F : Frame V}
  {passed group : List Name} {param : Name} {ren : Name → Name}

/-- The dataframe after the functions `pre`. -/
structure ChainInv (g : Graph T (SVal V)) (h : Graph T V) (inputs overrides : Dict Name (SVal V)) (F : Frame V)
    (passed : List Name) (pre : List Name) (f : Frame V) : Prop where
  columns : f.columns = F.columns ++ pre.filter (fun k => !F.columns.contains k)
  len : f.rows.length = F.rows.length
  other : ∀ (i : Nat) (row row' : Dict Name (Cell V)), F.rows[i]? = some row → f.rows[i]? = some row' →
    ∀ k, k ∉ pre → row'.get? k = row.get? k
  cell : ∀ (i : Nat) (row row' : Dict Name (Cell V)), F.rows[i]? = some row → f.rows[i]? = some row' →
    ∀ given, RowInputs g h inputs overrides F passed row given →
    ∀ k ∈ pre, ∃ c, row'.get? k = some c ∧ ∀ v, c = .ok v ↔ Den h given [] k v

theorem ChainInv.nil : ChainInv g h inputs overrides F passed [] F := by
  refine ⟨by simp, rfl, ?_, ?_⟩
  · intro i row row' h1 h2 k _
    rw [h1] at h2; cases h2; rfl
  · intro i row row' _ _ given _ k hk; cases hk

theorem ChainInv.mem_columns {pre : List Name} {f : Frame V} (hi : ChainInv g h inputs overrides F passed pre f) (k : Name) :
    k ∈ f.columns ↔ k ∈ F.columns ∨ k ∈ pre := by
  rw [hi.columns, List.mem_append, List.mem_filter]
  by_cases hk : k ∈ F.columns <;> simp [hk]

variable {pre : List Name} {cur : Name} {n : Node T V}

/-- A UDF preserves the invariant. -/
theorem ChainInv.step (hs : StepAt o dfT g h overrides F passed group param ren pre cur n) (hn : n.name ∉ pre)
    (hpg : ∀ k ∈ pre, k ∈ group) {f f' : Frame V}
    (hi : ChainInv g h inputs overrides F passed pre f) {rest : Dict Name V}
    (hl : lambdaUdf o f (revalNode scalarFn n) rest = .ok f') (hr : Rest g inputs overrides passed group n rest) :
    ChainInv g h inputs overrides F passed (pre ++ [n.name]) f' := by
  obtain ⟨fromDf, bound, hdet, rfl⟩ := lambdaUdf_ok hl
  have hname : (revalNode scalarFn n : Node T (SVal V)).name = n.name := rfl
  have htypes : (revalNode scalarFn n : Node T (SVal V)).inputTypes = n.inputTypes := rfl
  rw [htypes] at hdet
  rw [hname]
  refine ⟨?_, ?_, ?_, ?_⟩
  · unfold Frame.withColumn
    simp only
    have hc : f.columns.contains n.name = F.columns.contains n.name := by
      rw [Bool.eq_iff_iff, List.contains_iff_mem, List.contains_iff_mem, hi.mem_columns]
      exact ⟨fun h => h.resolve_right hn, .inl⟩
    rw [hc, List.filter_append, List.filter_cons]
    cases hb : F.columns.contains n.name with
    | true => simp [hi.columns]
    | false => simp [hi.columns]
  · unfold Frame.withColumn
    simp only [List.length_map]
    exact hi.len
  · intro i row row' h1 h2 k hk
    obtain ⟨r, h3, rfl⟩ := Frame.withColumn_row h2
    rw [List.mem_append, List.mem_singleton] at hk
    rw [Dict.get?_set_ne _ _ (fun he => hk (.inr he.symm))]
    exact hi.other i row r h1 h3 k (fun h => hk (.inl h))
  · intro i row row' h1 h2 given hgiven k hk
    obtain ⟨r, h3, rfl⟩ := Frame.withColumn_row h2
    by_cases hkn : k = n.name
    · subst hkn
      refine ⟨_, Dict.get?_set_self _ _ _, ?_⟩
      intro v
      rw [den_iff_fnValue hs.defines_h hs.kind rfl v]
      refine udf_cell_value hs.order_free hdet ?_ ?_ v
      · intro d hd hdc
        by_cases hdp : d ∈ pre
        · obtain ⟨c, hc1, hc2⟩ := hi.cell i row r h1 h3 given hgiven d hdp
          refine ⟨?_, c, hc1, hc2⟩
          rintro ⟨m, hm, he, hgn, _⟩
          have hng : d ∈ group := hpg d hdp
          exact (hs.group_fn d hng).elim fun m' hm' => by
            rw [hm] at hm'; exact hm'.2 (Option.some.inj hm'.1 ▸ he)
        · have hng : d ∉ group := fun hg => hdp (hs.earlier d hd hg)
          obtain ⟨⟨m, hm, he⟩, _, hcol⟩ := hs.external d hd hng
          have hF : d ∈ F.columns := ((hi.mem_columns d).1 hdc).resolve_right hdp
          have hpass : d ∈ passed := by
            by_cases hp : d ∈ passed
            · exact hp
            · exact absurd hF (hcol hp)
          obtain ⟨v, hv1, hv2⟩ := hgiven.column d m hm he hpass hF
          have hden : Den h given [] d v := .input hm rfl he hv2
          refine ⟨fun ha => ha.not_den hden, .ok v, ?_, ?_⟩
          · rw [hi.other i row r h1 h3 d hdp, hv1]
          · intro v'
            constructor
            · intro hv'; cases hv'; exact hden
            · intro hv'; rw [Den.det hden hv']
      · intro d t hdt hdc
        have hd : d ∈ n.inputTypes.keys := List.mem_map.2 ⟨_, hdt, rfl⟩
        have hdp : d ∉ pre := fun hp => hdc ((hi.mem_columns d).2 (.inr hp))
        have hF : d ∉ F.columns := fun hp => hdc ((hi.mem_columns d).2 (.inl hp))
        have hng : d ∉ group := fun hg => hdp (hs.earlier d hd hg)
        obtain ⟨⟨m, hm, he⟩, _, _⟩ := hs.external d hd hng
        by_cases hpass : d ∈ passed
        · have hnone := (hr d t hdt).1 (.inr hpass)
          refine .inr ⟨hnone, determineParams_optional hdet d t hdt hdc hnone, m, hm, he, ?_, rfl⟩
          exact hgiven.missing d m hm he hpass hF
        · rcases (hr d t hdt).2 hng hpass with ⟨v, hv1, hv2⟩ | ⟨h4, h5, h6⟩
          · exact .inl ⟨v, hv1, .input hm rfl he (hgiven.value d m hm he hpass v hv2)⟩
          · exact .inr ⟨h4, h5, m, hm, he, hgiven.absent d m hm he hpass h6, rfl⟩
    · rw [List.mem_append, List.mem_singleton] at hk
      have hk := hk.resolve_right hkn
      rw [Dict.get?_set_ne _ _ (fun he => hkn he.symm)]
      exact hi.cell i row r h1 h3 given hgiven k hk

/-! ### When Spark accepts a function -/

/-- The types of a function can be handled: the required parameters that come from the table are not series and the returned type
has a counterpart in Spark, or they are all series and the type of the elements of the returned series has one. -/
def UdfTypes (o : Kinds T) (F : Frame V) (passed group : List Name) (n : Node T V) : Prop :=
  ((∀ d t, (d, t, DepType.required) ∈ n.inputTypes → (d ∈ group ∨ (d ∈ passed ∧ d ∈ F.columns)) → o.isSeries t = false) ∧
    o.udfReturn n.typ = true) ∨
  ((∀ d t, (d, t, DepType.required) ∈ n.inputTypes → (d ∈ group ∨ (d ∈ passed ∧ d ∈ F.columns)) → o.isSeries t = true) ∧
    (∃ d t, (d, t, DepType.required) ∈ n.inputTypes ∧ (d ∈ group ∨ (d ∈ passed ∧ d ∈ F.columns))) ∧ o.seriesReturn n.typ = true)

theorem ChainInv.accepts (hs : StepAt o dfT g h overrides F passed group param ren pre cur n)
    (hpg : ∀ k ∈ pre, k ∈ group) {f : Frame V}
    (hi : ChainInv g h inputs overrides F passed pre f) {rest : Dict Name V} (hr : Rest g inputs overrides passed group n rest)
    (hmiss : ∀ d t, (d, t) ∈ n.inputTypes → d ∉ group → d ∈ passed → d ∉ F.columns → t.2 = .optional)
    (hty : UdfTypes o F passed group n) : ∃ f', lambdaUdf o f (revalNode scalarFn n) rest = .ok f' := by
  have htypes : (revalNode scalarFn n : Node T (SVal V)).inputTypes = n.inputTypes := rfl
  have htyp : (revalNode scalarFn n : Node T (SVal V)).typ = n.typ := rfl
  have hbind : ∀ d t, (d, t) ∈ n.inputTypes → d ∉ f.columns → t.2 = .required → ∃ v, rest.get? d = some v := by
    intro d t hdt hdc hq
    have hd : d ∈ n.inputTypes.keys := List.mem_map.2 ⟨_, hdt, rfl⟩
    have hdp : d ∉ pre := fun hp => hdc ((hi.mem_columns d).2 (.inr hp))
    have hF : d ∉ F.columns := fun hp => hdc ((hi.mem_columns d).2 (.inl hp))
    have hng : d ∉ group := fun hg => hdp (hs.earlier d hd hg)
    by_cases hp : d ∈ passed
    · rw [hmiss d t hdt hng hp hF] at hq; cases hq
    · rcases (hr d t hdt).2 hng hp with ⟨v, h1, _⟩ | ⟨_, h1, _⟩
      · exact ⟨v, h1⟩
      · rw [h1] at hq; cases hq
  have hfrom : ∀ d, d ∈ n.inputTypes.keys → (d ∈ f.columns ↔ (d ∈ group ∨ (d ∈ passed ∧ d ∈ F.columns))) := by
    intro d hd
    rw [hi.mem_columns]
    constructor
    · intro hor
      by_cases hg : d ∈ group
      · exact .inl hg
      · have hF := hor.resolve_right (fun hp => hg (hpg d hp))
        refine .inr ⟨?_, hF⟩
        by_cases hp : d ∈ passed
        · exact hp
        · exact absurd hF ((hs.external d hd hg).2.2 hp)
    · rintro (hg | ⟨_, hF⟩)
      · exact .inr (hs.earlier d hd hg)
      · exact .inl hF
  unfold lambdaUdf
  rw [htypes, htyp]
  cases hd : determineParams rest f.columns n.inputTypes with
  | error e =>
    obtain ⟨d, t, h1, h2, h3, h4⟩ := determineParams_error hd
    obtain ⟨v, hv⟩ := hbind d t h1 h2 h4
    rw [h3] at hv; cases hv
  | ok r =>
    obtain ⟨fromDf, bound⟩ := r
    dsimp only
    obtain ⟨_, hbound⟩ := determineParams_ok hd
    have hmem : ∀ b, b ∈ pandasAnnotations o bound n.inputTypes ↔
        ∃ d ty, (d, ty, DepType.required) ∈ n.inputTypes ∧ (d ∈ group ∨ (d ∈ passed ∧ d ∈ F.columns)) ∧ o.isSeries ty = b := by
      intro b
      rw [pandasAnnotations_mem]
      constructor
      · rintro ⟨d, ty, h1, h2, h3⟩
        have hk : d ∈ n.inputTypes.keys := List.mem_map.2 ⟨_, h1, rfl⟩
        refine ⟨d, ty, h1, (hfrom d hk).1 ?_, h3⟩
        by_cases hdc : d ∈ f.columns
        · exact hdc
        · obtain ⟨v, hv⟩ := hbind d _ h1 hdc rfl
          rw [hbound, if_pos ⟨hk, hdc⟩, hv] at h2; cases h2
      · rintro ⟨d, ty, h1, h2, h3⟩
        have hk : d ∈ n.inputTypes.keys := List.mem_map.2 ⟨_, h1, rfl⟩
        refine ⟨d, ty, h1, ?_, h3⟩
        rw [hbound, if_neg (fun h => h.2 ((hfrom d hk).2 h2))]
    generalize pandasAnnotations o bound n.inputTypes = ann at hmem
    rcases hty with ⟨h1, h2⟩ | ⟨h1, ⟨d, t, h2, h3⟩, h4⟩
    · have hall : ∀ b ∈ ann, b = false := by
        intro b hb
        obtain ⟨d, ty, a1, a2, a3⟩ := (hmem b).1 hb
        rw [← a3]; exact h1 d ty a1 a2
      have hany : ann.any id = false := by
        rw [List.any_eq_false]
        intro b hb; rw [hall b hb]; simp
      have hser : (ann.all id && !ann.isEmpty) = false := by
        cases ann with
        | nil => rfl
        | cons b r => simp [hall b (by simp)]
      rw [hany, hser, h2]
      exact ⟨_, by simp; rfl⟩
    · have hall : ann.all id = true := by
        rw [List.all_eq_true]
        intro b hb
        obtain ⟨d, ty, a1, a2, a3⟩ := (hmem b).1 hb
        rw [← a3]; exact h1 d ty a1 a2
      have hne : ann.isEmpty = false := by
        have := (hmem _).2 ⟨d, t, h2, h3, rfl⟩
        cases ann with
        | nil => cases this
        | cons _ _ => rfl
      rw [hall, hne, h4]
      exact ⟨_, by simp; rfl⟩

/-! ### All functions -/

/-- The facts about all functions of the chain. -/
def ChainSteps (o : Kinds T) (dfT : T) (g : Graph T (SVal V)) (h : Graph T V) (overrides : Dict Name (SVal V)) (F : Frame V)
    (passed group : List Name) (param : Name) (ren : Name → Name) : List Name → Name → List (Node T V) → Prop
  | _, _, [] => True
  | pre, cur, n :: r => StepAt o dfT g h overrides F passed group param ren pre cur n ∧ n.name ∉ pre ∧ n.name ∈ group ∧
      ChainSteps o dfT g h overrides F passed group param ren (pre ++ [n.name]) n.name r

/-- The name of the last function. -/
def lastName (cur : Name) : List (Node T V) → Name
  | [] => cur
  | n :: r => lastName n.name r

theorem chain_back : ∀ {l : List (Node T V)} {pre : List Name} {cur : Name},
    ChainSteps o dfT g h overrides F passed group param ren pre cur l → ∀ {w : SVal V},
    Den g inputs overrides (ren (lastName cur l)) w → (l ≠ [] → ∃ f, w = .frame f) ∧ (∃ w', Den g inputs overrides (ren cur) w') ∧
      (l ≠ [] → ∃ f, Den g inputs overrides (ren cur) (.frame f)) := by
  intro l
  induction l with
  | nil => intro pre cur _ w hw; exact ⟨fun h => absurd rfl h, ⟨w, hw⟩, fun h => absurd rfl h⟩
  | cons n r ih =>
    intro pre cur hs w hw
    obtain ⟨h1, h2, _, h3⟩ := hs
    obtain ⟨a1, ⟨w', a2⟩, _⟩ := ih h3 (show Den g inputs overrides (ren (lastName n.name r)) w from hw)
    obtain ⟨_, f, hf⟩ := h1.back a2
    refine ⟨fun _ => ?_, ⟨_, hf⟩, fun _ => ⟨f, hf⟩⟩
    cases r with
    | nil =>
      have : w = w' := Den.det hw a2
      subst this
      exact (h1.back a2).1
    | cons m r' => exact a1 (by simp)

theorem chain_sound : ∀ {l : List (Node T V)} {pre : List Name} {cur : Name} {f : Frame V},
    ChainSteps o dfT g h overrides F passed group param ren pre cur l → (∀ k ∈ pre, k ∈ group) →
    ChainInv g h inputs overrides F passed pre f → Den g inputs overrides (ren cur) (.frame f) → ∀ {w : SVal V},
    Den g inputs overrides (ren (lastName cur l)) w →
    ∃ f', w = .frame f' ∧ ChainInv g h inputs overrides F passed (pre ++ l.map (·.name)) f' := by
  intro l
  induction l with
  | nil =>
    intro pre cur f _ _ hi hd w hw
    have := Den.det hd hw
    subst this
    exact ⟨f, rfl, by simpa using hi⟩
  | cons n r ih =>
    intro pre cur f hs hpg hi hd w hw
    obtain ⟨h1, h2, h2g, h3⟩ := hs
    obtain ⟨_, ⟨w', hw'⟩, _⟩ := chain_back h3 (show Den g inputs overrides (ren (lastName n.name r)) w from hw)
    obtain ⟨rest, f', a1, rfl, a3⟩ := h1.value hd hw'
    have hi' := hi.step h1 h2 hpg a1 a3
    obtain ⟨f2, b1, b2⟩ := ih h3 (by
      intro k hk
      rw [List.mem_append, List.mem_singleton] at hk
      rcases hk with hk | rfl
      · exact hpg k hk
      · exact h2g) hi' hw' hw
    exact ⟨f2, b1, by simpa using b2⟩

theorem chain_complete (hp : ∃ w, Den g inputs overrides (ren param) w) :
    ∀ {l : List (Node T V)} {pre : List Name} {cur : Name} {f : Frame V},
    ChainSteps o dfT g h overrides F passed group param ren pre cur l → (∀ k ∈ pre, k ∈ group) →
    ChainInv g h inputs overrides F passed pre f → Den g inputs overrides (ren cur) (.frame f) →
    (∀ k ∈ pre, ∃ w, Den g inputs overrides (ren k) w) →
    (∀ n ∈ l, (∀ d t, (d, t) ∈ n.inputTypes → d ∉ group → d ∉ passed → (∃ v, Den g inputs overrides d (.scalar v)) ∨
        (t.2 = .optional ∧ Absent g inputs overrides d)) ∧
      (∀ d t, (d, t) ∈ n.inputTypes → d ∉ group → d ∈ passed → d ∉ F.columns → t.2 = .optional) ∧
      UdfTypes o F passed group n) →
    ∃ f', Den g inputs overrides (ren (lastName cur l)) (.frame f') := by
  intro l
  induction l with
  | nil => intro pre cur f _ _ _ hd _ _; exact ⟨f, hd⟩
  | cons n r ih =>
    intro pre cur f hs hpg hi hd hpre hok
    obtain ⟨h1, h2, h2g, h3⟩ := hs
    obtain ⟨c1, c2, c3⟩ := hok n (by simp)
    obtain ⟨rest, hr, hden⟩ := h1.has_value hd hp hpre c1
    obtain ⟨f', hf'⟩ := hi.accepts h1 hpg hr c2 c3
    have hi' := hi.step h1 h2 hpg hf' hr
    refine ih h3 (cur := n.name) ?_ hi' (hden f' hf') ?_ (fun m hm => hok m (by simp [hm]))
    · intro k hk
      rw [List.mem_append, List.mem_singleton] at hk
      rcases hk with hk | rfl
      · exact hpg k hk
      · exact h2g
    · intro k hk
      rw [List.mem_append, List.mem_singleton] at hk
      rcases hk with hk | rfl
      · exact hpre k hk
      · exact ⟨_, hden f' hf'⟩

end
end Verif.Spark
