import Verif.Proofs.Spark

/-! C79: the adapter and the execution on columns go together. -/
namespace Verif.Spark
open Verif
variable {T V : Type}

/-! ### Helpers of the adapter -/

theorem mem_insertName {k x : Name} {l : List Name} : x ∈ insertName k l ↔ x = k ∨ x ∈ l := by
  induction l with
  | nil => simp [insertName]
  | cons a l ih =>
    unfold insertName
    split
    · simp
    · rw [List.mem_cons, ih, List.mem_cons]
      constructor
      · rintro (h | h | h)
        · exact .inr (.inl h)
        · exact .inl h
        · exact .inr (.inr h)
      · rintro (h | h | h)
        · exact .inr (.inl h)
        · exact .inl h
        · exact .inr (.inr h)

theorem mem_sortNames {x : Name} {l : List Name} : x ∈ sortNames l ↔ x ∈ l := by
  induction l with
  | nil => simp [sortNames]
  | cons a l ih =>
    unfold sortNames at ih ⊢
    rw [List.foldr_cons, mem_insertName, ih, List.mem_cons]

theorem cellsOf_ok {row : Dict Name (Cell V)} {l : List Name} {args : Dict Name V} (h : cellsOf row l = .ok args) :
    (∀ d ∈ l, ∃ v, row.get? d = some (.ok v) ∧ args.get? d = some v) ∧ ∀ d, d ∉ l → args.get? d = none := by
  induction l generalizing args with
  | nil => cases h; exact ⟨fun d hd => by simp at hd, fun d _ => rfl⟩
  | cons k l ih =>
    unfold cellsOf at h
    cases hk : row.get? k with
    | none => rw [hk] at h; cases h
    | some c =>
      cases c with
      | error e => rw [hk] at h; cases h
      | ok v =>
        rw [hk] at h
        dsimp only at h
        cases hr : cellsOf row l with
        | error e => rw [hr] at h; cases h
        | ok r =>
          rw [hr] at h
          have h := (Except.ok.inj h).symm
          subst h
          obtain ⟨h1, h2⟩ := ih hr
          constructor
          · intro d hd
            rw [Dict.get?_cons]
            by_cases he : k = d
            · subst he; rw [if_pos rfl]; exact ⟨v, hk, rfl⟩
            · rw [if_neg he]
              rcases List.mem_cons.1 hd with h3 | h3
              · exact absurd h3.symm he
              · exact h1 d h3
          · intro d hd
            rw [Dict.get?_cons, if_neg (fun e => hd (by simp [e]))]
            exact h2 d (fun e => hd (by simp [e]))

theorem cellsOf_error {row : Dict Name (Cell V)} {l : List Name} {e : UserErr} (h : cellsOf row l = .error e) :
    ∃ d ∈ l, ∀ v, row.get? d ≠ some (.ok v) := by
  induction l with
  | nil => cases h
  | cons k l ih =>
    unfold cellsOf at h
    cases hk : row.get? k with
    | none => exact ⟨k, by simp, by rw [hk]; intro v h; cases h⟩
    | some c =>
      cases c with
      | error e => exact ⟨k, by simp, by rw [hk]; intro v h; cases h⟩
      | ok v =>
        rw [hk] at h
        dsimp only at h
        cases hr : cellsOf row l with
        | ok r => rw [hr] at h; cases h
        | error e' =>
          rw [hr] at h
          cases h
          obtain ⟨d, hd, h1⟩ := ih hr
          exact ⟨d, by simp [hd], h1⟩

theorem determineParams_ok {actual : Dict Name V} {columns : List Name} {params : Dict Name (T × DepType)}
    {fromDf : List Name} {bound : Dict Name V} (h : determineParams actual columns params = .ok (fromDf, bound)) :
    (∀ d, d ∈ fromDf ↔ d ∈ params.keys ∧ d ∈ columns) ∧
    ∀ d, bound.get? d = if d ∈ params.keys ∧ d ∉ columns then actual.get? d else none := by
  induction params generalizing fromDf bound with
  | nil => cases h; simp [Dict.keys]
  | cons p params ih =>
    obtain ⟨k, t⟩ := p
    unfold determineParams at h
    simp only [Dict.keys_cons, List.mem_cons]
    by_cases hc : columns.contains k = true
    · rw [if_pos hc] at h
      have hc' : k ∈ columns := by simpa using hc
      cases hr : determineParams actual columns params with
      | error e => rw [hr] at h; cases h
      | ok q =>
        obtain ⟨a, b⟩ := q
        rw [hr] at h
        cases h
        obtain ⟨h1, h2⟩ := ih hr
        constructor
        · intro d
          rw [List.mem_cons, h1]
          constructor
          · rintro (rfl | ⟨h3, h4⟩)
            · exact ⟨.inl rfl, hc'⟩
            · exact ⟨.inr h3, h4⟩
          · rintro ⟨rfl | h3, h4⟩
            · exact .inl rfl
            · exact .inr ⟨h3, h4⟩
        · intro d
          rw [h2]
          by_cases hd : d = k
          · subst hd; simp [hc']
          · simp [hd]
    · rw [if_neg hc] at h
      have hc' : k ∉ columns := by simpa using hc
      cases ha : actual.get? k with
      | some v =>
        rw [ha] at h
        dsimp only at h
        cases hr : determineParams actual columns params with
        | error e => rw [hr] at h; cases h
        | ok q =>
          obtain ⟨a, b⟩ := q
          rw [hr] at h
          cases h
          obtain ⟨h1, h2⟩ := ih hr
          constructor
          · intro d
            rw [h1]
            constructor
            · rintro ⟨h3, h4⟩; exact ⟨.inr h3, h4⟩
            · rintro ⟨rfl | h3, h4⟩
              · exact absurd h4 hc'
              · exact ⟨h3, h4⟩
          · intro d
            rw [Dict.get?_cons]
            by_cases hd : k = d
            · subst hd; simp [hc', ha]
            · rw [if_neg hd, h2]
              have : ¬ d = k := fun e => hd e.symm
              simp [this]
      | none =>
        rw [ha] at h
        dsimp only at h
        split at h
        · cases h
        · obtain ⟨h1, h2⟩ := ih h
          constructor
          · intro d
            rw [h1]
            constructor
            · rintro ⟨h3, h4⟩; exact ⟨.inr h3, h4⟩
            · rintro ⟨rfl | h3, h4⟩
              · exact absurd h4 hc'
              · exact ⟨h3, h4⟩
          · intro d
            rw [h2]
            by_cases hd : d = k
            · subst hd; simp [hc', ha]
            · simp [hd]

theorem determineParams_error {actual : Dict Name V} {columns : List Name} {params : Dict Name (T × DepType)} {e : UserErr}
    (h : determineParams actual columns params = .error e) :
    ∃ d t, (d, t) ∈ params ∧ d ∉ columns ∧ actual.get? d = none ∧ t.2 = .required := by
  induction params generalizing e with
  | nil => cases h
  | cons p params ih =>
    obtain ⟨k, t⟩ := p
    unfold determineParams at h
    cases hr : determineParams actual columns params with
    | error e' =>
      obtain ⟨d, t', h1, h2⟩ := ih hr
      exact ⟨d, t', by simp [h1], h2⟩
    | ok q =>
      rw [hr] at h
      by_cases hc : columns.contains k = true
      · rw [if_pos hc] at h; cases h
      · rw [if_neg hc] at h
        cases ha : actual.get? k with
        | some v => rw [ha] at h; cases h
        | none =>
          rw [ha] at h
          dsimp only at h
          split at h
          · rename_i hq
            exact ⟨k, t, by simp, by simpa using hc, ha, hq⟩
          · cases h

theorem plainKwargs_scalar {kw : Dict Name (SVal V)} {d : Name} {v : V} (h : kw.get? d = some (.scalar v)) :
    (plainKwargs kw).get? d = some v := by
  induction kw with
  | nil => cases h
  | cons p kw ih =>
    obtain ⟨k, w⟩ := p
    rw [Dict.get?_cons] at h
    cases w with
    | frame f =>
      unfold plainKwargs
      split at h
      · cases h
      · exact ih h
    | scalar x =>
      unfold plainKwargs
      rw [Dict.get?_cons]
      split at h
      · rename_i he
        rw [if_pos he]; cases h; rfl
      · rename_i he
        rw [if_neg he]; exact ih h

theorem plainKwargs_none {kw : Dict Name (SVal V)} {d : Name} (h : kw.get? d = none) : (plainKwargs kw).get? d = none := by
  induction kw with
  | nil => rfl
  | cons p kw ih =>
    obtain ⟨k, w⟩ := p
    rw [Dict.get?_cons] at h
    split at h
    · cases h
    · rename_i he
      cases w with
      | frame f => unfold plainKwargs; exact ih h
      | scalar x => unfold plainKwargs; rw [Dict.get?_cons, if_neg he]; exact ih h

theorem firstFrame_some {kw : Dict Name (SVal V)} {f : Frame V} (h : firstFrame kw = some f) : ∃ d, (d, SVal.frame f) ∈ kw := by
  induction kw with
  | nil => cases h
  | cons p kw ih =>
    obtain ⟨k, w⟩ := p
    cases w with
    | frame f' => cases h; exact ⟨k, by simp⟩
    | scalar v =>
      obtain ⟨d, hd⟩ := ih h
      exact ⟨d, by simp [hd]⟩

theorem KwRel.get? {W W' : Type} {R : Name → W → W' → Prop} {kw : Dict Name W} {kw' : Dict Name W'} (h : KwRel R kw kw') (d : Name) :
    (kw.get? d = none ∧ kw'.get? d = none) ∨ ∃ v v', kw.get? d = some v ∧ kw'.get? d = some v' ∧ R d v v' := by
  induction h with
  | nil => exact .inl ⟨rfl, rfl⟩
  | @cons k v v' r r' hr _ ih =>
    rw [Dict.get?_cons, Dict.get?_cons]
    by_cases he : k = d
    · subst he; rw [if_pos rfl, if_pos rfl]; exact .inr ⟨v, v', rfl, rfl, hr⟩
    · rw [if_neg he, if_neg he]; exact ih

theorem KwRel.mem {W W' : Type} {R : Name → W → W' → Prop} {kw : Dict Name W} {kw' : Dict Name W'} (h : KwRel R kw kw')
    {d : Name} {v : W} (hv : (d, v) ∈ kw) : ∃ v', (d, v') ∈ kw' ∧ R d v v' := by
  induction h with
  | nil => cases hv
  | @cons k w w' r r' hr _ ih =>
    rcases List.mem_cons.1 hv with h1 | h1
    · cases h1; exact ⟨w', by simp, hr⟩
    · obtain ⟨x, hx, h2⟩ := ih h1
      exact ⟨x, by simp [hx], h2⟩

/-! ### The relation -/

/-- The table the adapter works on. -/
def cur (F : Frame V) (t : Adapter V) : Frame V := t.df.getD F

inductive Rel (F : Frame V) (t : Adapter V) (k : Name) : SVal V → PVal V → Prop
  | scalar {v} : k ∉ (cur F t).columns → Rel F t k (.scalar v) (.scalar v)
  | frame {f c} : k ∈ (cur F t).columns → f.columns.length ≤ (cur F t).columns.length → (t.df = none → f = F) →
      (∀ (i : Nat) (row : Dict Name (Cell V)), (cur F t).rows[i]? = some row → ∃ x, row.get? k = some x ∧ x.toOption = c i) →
      Rel F t k (.frame f) (.col c)

structure AInv (F : Frame V) (g : Graph T V) (overrides : Dict Name (SVal V)) (l : List Name) (t : Adapter V) : Prop where
  schema : t.df ≠ none → t.schema = F.columns
  nodup : (cur F t).columns.Nodup
  sub : ∀ c ∈ F.columns, c ∈ (cur F t).columns
  cols : ∀ c ∈ (cur F t).columns, c ∈ F.columns ∨ c ∈ l
  called : ∀ c ∈ l, overrides.get? c = none ∧ ∃ n, g.get? c = some n ∧ n.kind ≠ .external
  len : (cur F t).rows.length = F.rows.length
  same : ∀ (i : Nat) (row row' : Dict Name (Cell V)), F.rows[i]? = some row → (cur F t).rows[i]? = some row' →
    ∀ k ∈ F.columns, row'.get? k = row.get? k

section
variable {F : Frame V} {g : Graph T V} {inputs overrides : Dict Name (SVal V)} {o : Kinds T}

theorem scalar_not_column (ho : OneTable F g inputs overrides) {l : List Name} {t : Adapter V} (hi : AInv F g overrides l t)
    {k : Name} {v : V} (hk : Given g inputs overrides k (.scalar v)) : k ∉ (cur F t).columns := by
  intro hc
  rcases hi.cols k hc with h | h
  · have hk' := hk
    obtain ⟨n, hn, _⟩ := hk'
    obtain ⟨f, hf⟩ := ho.columns k h n hn
    cases Given.det hk hf
  · obtain ⟨h1, n, hn, h2⟩ := hi.called k h
    obtain ⟨m, hm, hx⟩ := hk
    rw [hn] at hm; cases hm
    rcases hx with hx | ⟨_, hx, _⟩
    · rw [h1] at hx; cases hx
    · exact h2 hx

/-- What is given corresponds, at any time. -/
theorem given_rel (ho : OneTable F g inputs overrides) {l : List Name} {t : Adapter V} (hi : AInv F g overrides l t)
    {k : Name} {x : SVal V} (hk : Given g inputs overrides k x) : Rel F t k x (pvalOf F k x) := by
  cases x with
  | scalar v => exact .scalar (scalar_not_column ho hi hk)
  | frame f =>
    obtain ⟨rfl, hc⟩ := ho.frames k f hk
    refine .frame (hi.sub k hc) (nodup_length_le ho.nodup hi.sub) (fun _ => rfl) ?_
    intro i row' hr'
    have hlt : i < f.rows.length := by
      rw [← hi.len]
      exact (List.getElem?_eq_some_iff.1 hr').1
    have hrow : f.rows[i]? = some f.rows[i] := List.getElem?_eq_getElem hlt
    obtain ⟨v, hv⟩ := ho.cells _ (List.mem_of_getElem? hrow) k hc
    refine ⟨.ok v, ?_, ?_⟩
    · rw [hi.same i _ _ hrow hr' k hc, hv]
    · rw [hrow, Option.bind_some, hv]; rfl

/-- A function is not a column before it is run. -/
theorem fresh_column (ho : OneTable F g inputs overrides) {l : List Name} {t : Adapter V} (hi : AInv F g overrides l t)
    {k : Name} {n : Node T V} (hn : g.get? k = some n) (hk : n.kind ≠ .external) (hov : overrides.get? k = none) (hl : k ∉ l) :
    k ∉ (cur F t).columns := by
  intro hc
  rcases hi.cols k hc with h | h
  · obtain ⟨f, m, hm, hx⟩ := ho.columns k h n hn
    rw [hn] at hm; cases hm
    rcases hx with hx | ⟨_, hx, _⟩
    · rw [hov] at hx; cases hx
    · exact hk hx
  · exact hl h

theorem Frame.withColumn_columns {f : Frame V} {k : Name} {c : Dict Name (Cell V) → Cell V} (h : k ∉ f.columns) :
    (f.withColumn k c).columns = f.columns ++ [k] := by
  unfold Frame.withColumn
  simp [h]

theorem Frame.withColumn_row {f : Frame V} {k : Name} {c : Dict Name (Cell V) → Cell V} {i : Nat} {row : Dict Name (Cell V)}
    (h : (f.withColumn k c).rows[i]? = some row) : ∃ r, f.rows[i]? = some r ∧ row = r.set k (c r) := by
  unfold Frame.withColumn at h
  simp only [List.getElem?_map] at h
  obtain ⟨r, h1, h2⟩ := Option.map_eq_some_iff.1 h
  exact ⟨r, h1, h2.symm⟩

theorem AInv.withColumn {l : List Name} {t : Adapter V} (hi : AInv F g overrides l t)
    {k : Name} {n : Node T V} (hn : g.get? k = some n) (hk : n.kind ≠ .external) (hov : overrides.get? k = none)
    (hf : k ∉ (cur F t).columns) {c : Dict Name (Cell V) → Cell V} :
    AInv F g overrides (l ++ [k]) ⟨some ((cur F t).withColumn k c), F.columns⟩ := by
  have hcur : cur F ⟨some ((cur F t).withColumn k c), F.columns⟩ = (cur F t).withColumn k c := rfl
  refine ⟨fun _ => rfl, ?_, ?_, ?_, ?_, ?_, ?_⟩
  · rw [hcur, Frame.withColumn_columns hf, List.nodup_append]
    refine ⟨hi.nodup, by simp, ?_⟩
    intro a ha b hb e
    simp only [List.mem_singleton] at hb
    exact hf (hb ▸ e ▸ ha)
  · intro x hx
    rw [hcur, Frame.withColumn_columns hf]
    simp [hi.sub x hx]
  · intro x hx
    rw [hcur, Frame.withColumn_columns hf] at hx
    rcases List.mem_append.1 hx with hx | hx
    · rcases hi.cols x hx with h | h
      · exact .inl h
      · exact .inr (by simp [h])
    · exact .inr (by simp at hx; simp [hx])
  · intro x hx
    rcases List.mem_append.1 hx with hx | hx
    · exact hi.called x hx
    · simp only [List.mem_singleton] at hx
      subst hx
      exact ⟨hov, n, hn, hk⟩
  · rw [hcur]
    unfold Frame.withColumn
    rw [List.length_map]; exact hi.len
  · intro i row row' h1 h2 x hx
    rw [hcur] at h2
    obtain ⟨r, h3, rfl⟩ := Frame.withColumn_row h2
    rw [Dict.get?_set, if_neg (fun e => hf (hi.sub k (by rw [e]; exact hx)))]
    exact hi.same i row r h1 h3 x hx

theorem Rel.withColumn {t : Adapter V} {k : Name} (hf : k ∉ (cur F t).columns) {c : Dict Name (Cell V) → Cell V}
    {schema : List Name} {d : Name} {w : SVal V} {w' : PVal V} (hd : d ≠ k) (h : Rel F t d w w') :
    Rel F ⟨some ((cur F t).withColumn k c), schema⟩ d w w' := by
  have hcur : cur F ⟨some ((cur F t).withColumn k c), schema⟩ = (cur F t).withColumn k c := rfl
  cases h with
  | scalar h1 =>
    refine .scalar ?_
    rw [hcur, Frame.withColumn_columns hf]
    intro hm
    rcases List.mem_append.1 hm with hm | hm
    · exact h1 hm
    · exact hd (by simpa using hm)
  | frame h1 h2 h3 h4 =>
    refine .frame ?_ ?_ (by intro h; cases h) ?_
    · rw [hcur, Frame.withColumn_columns hf]; simp [h1]
    · rw [hcur, Frame.withColumn_columns hf, List.length_append]; omega
    · intro i row hr
      rw [hcur] at hr
      obtain ⟨r, h5, rfl⟩ := Frame.withColumn_row hr
      obtain ⟨x, hx, hx'⟩ := h4 i r h5
      exact ⟨x, by rw [Dict.get?_set, if_neg (fun e => hd e.symm)]; exact hx, hx'⟩

/-- Without dataframes among the arguments, the arguments are plain values on both sides. -/
theorem kwRel_plain {t : Adapter V} {kw : Dict Name (SVal V)} {kw' : Dict Name (PVal V)} (h : KwRel (Rel F t) kw kw')
    (hf : firstFrame kw = none) : gather PVal.value? kw' = some (plainKwargs kw) := by
  induction h with
  | nil => rfl
  | @cons k v v' r r' hr _ ih =>
    cases hr with
    | scalar h1 =>
      have := ih hf
      unfold gather
      rw [this]
      rfl
    | frame => cases hf

/-- What is known of the calls of the execution on columns. -/
def Calls (F : Frame V) (g : Graph T V) (inputs overrides : Dict Name (SVal V)) (c : List (Name × Dict Name (PVal V))) : Prop :=
  (c.map (·.1)).Nodup ∧ ∀ x ∈ c, ∃ n', (revalGraph pureFn g).get? x.1 = some n' ∧
    RightArgs (revalGraph pureFn g) (pvals F inputs) (pvals F overrides) n' x.2

theorem calls_prefix : PrefixClosed (Calls F g inputs overrides) := by
  rintro l l' ⟨r, rfl⟩ ⟨h1, h2⟩
  refine ⟨?_, fun x hx => h2 x (by simp [hx])⟩
  rw [List.map_append, List.nodup_append] at h1
  exact h1.1

/-- The parameters of a function that is run: those that are columns come from Spark, the others are bound or left out. -/
theorem params_of (hw : WellFormed g) (ho : OneTable F g inputs overrides) {l : List Name} {t : Adapter V}
    (hi : AInv F g overrides l t) {k : Name} {n : Node T V} (hn : g.get? k = some n) {kw : Dict Name (SVal V)}
    {kw' : Dict Name (PVal V)} (hkw : KwRel (Rel F t) kw kw')
    (hr : RightArgs (revalGraph pureFn g) (pvals F inputs) (pvals F overrides) (revalNode pureFn n) kw') :
    (∀ d, d ∉ n.inputTypes.keys → kw'.get? d = none) ∧
    (∀ d ∈ n.inputTypes.keys, d ∈ (cur F t).columns → InSpark g inputs overrides d ∧ ∃ f c, kw.get? d = some (.frame f) ∧
      kw'.get? d = some (.col c) ∧ Rel F t d (.frame f) (.col c)) ∧
    (∀ d ty, (d, ty) ∈ n.inputTypes → d ∉ (cur F t).columns → ¬ InSpark g inputs overrides d ∧
      ((∃ v, kw.get? d = some (.scalar v) ∧ kw'.get? d = some (.scalar v)) ∨
       (kw.get? d = none ∧ kw'.get? d = none ∧ ty.2 = .optional))) := by
  obtain ⟨val, h1, h2, rfl⟩ := hr
  change ∀ d w, d ∈ n.inputTypes.keys → val d = some w → _ at h1
  change ∀ d t, (d, t) ∈ n.inputTypes → _ at h2
  have hget : ∀ d, (argsFor n.inputTypes val).get? d = if d ∈ n.inputTypes.keys then val d else none := by
    intro d
    generalize n.inputTypes = ps
    induction ps with
    | nil => rfl
    | cons p ps ih =>
      obtain ⟨a, ty⟩ := p
      unfold argsFor at ih ⊢
      simp only [Dict.keys_cons, List.mem_cons]
      cases hv : val a with
      | none =>
        rw [List.filterMap_cons_none (by simp [hv])]
        rw [ih]
        by_cases hd : d = a
        · subst hd; simp [hv]
        · simp [hd]
      | some w =>
        rw [List.filterMap_cons_some (b := (a, w)) (by simp only [hv, Option.map_some])]
        rw [Dict.get?_cons]
        by_cases hd : a = d
        · subst hd; simp [hv]
        · have hd' : ¬ d = a := fun e => hd e.symm
          rw [if_neg hd, ih]
          simp [hd']
  refine ⟨fun d hd => (hget d).trans (if_neg hd), ?_, ?_⟩
  · intro d hd hc
    obtain ⟨ty, hty⟩ := Dict.mem_keys_iff.1 hd
    have hmem := Dict.get?_mem hty
    rcases hkw.get? d with ⟨_, h4⟩ | ⟨v, v', h3, h4, hrel⟩
    · exfalso
      change (argsFor n.inputTypes val).get? d = none at h4
      rw [hget, if_pos hd] at h4
      obtain ⟨m, a1, a2, a3, a4⟩ := pure_absent.1 (h2 d ty hmem h4).2
      rcases hi.cols d hc with hF | hl
      · obtain ⟨f, m', hm', hx⟩ := ho.columns d hF m a1
        rcases hx with hx | ⟨_, _, hx⟩
        · rw [a4] at hx; cases hx
        · rw [a3] at hx; cases hx
      · obtain ⟨_, m', hm', hx⟩ := hi.called d hl
        rw [a1] at hm'; cases hm'; exact hx a2
    · have h5 := h4
      change (argsFor n.inputTypes val).get? d = some v' at h5
      rw [hget, if_pos hd] at h5
      have hden := h1 d v' hd h5
      cases hrel with
      | scalar hno => exact absurd hc hno
      | frame e1 e2 e3 e4 =>
        rcases pure_inSpark hden with ⟨v, hv, _⟩ | ⟨_, _, hs⟩
        · cases hv
        · exact ⟨hs, _, _, h3, h4, .frame e1 e2 e3 e4⟩
  · intro d ty hmem hc
    have hd := mem_keys_of_mem hmem
    rcases hkw.get? d with ⟨h3, h4⟩ | ⟨v, v', h3, h4, hrel⟩
    · have h5 := h4
      change (argsFor n.inputTypes val).get? d = none at h5
      rw [hget, if_pos hd] at h5
      obtain ⟨e1, e2⟩ := h2 d ty hmem h5
      obtain ⟨m, a1, a2, a3, a4⟩ := pure_absent.1 e2
      refine ⟨fun hs => ?_, .inr ⟨h3, h4, e1⟩⟩
      cases hs with
      | given hg =>
        obtain ⟨m', hm', hx⟩ := hg
        rcases hx with hx | ⟨_, _, hx⟩
        · rw [a4] at hx; cases hx
        · rw [a3] at hx; cases hx
      | fn b1 _ b3 _ _ => rw [a1] at b1; cases b1; exact b3 a2
    · have h5 := h4
      change (argsFor n.inputTypes val).get? d = some v' at h5
      rw [hget, if_pos hd] at h5
      have hden := h1 d v' hd h5
      cases hrel with
      | frame e1 _ _ _ => exact absurd e1 hc
      | scalar hno =>
        rcases pure_inSpark hden with ⟨_, _, hs⟩ | ⟨c, hc', _⟩
        · exact ⟨hs, .inl ⟨_, h3, h4⟩⟩
        · cases hc'

/-- The cell the UDF computes is the value of the function in that row. -/
theorem udf_cell (hu : Unordered g) {t : Adapter V} {k : Name} {n : Node T V} (hn : g.get? k = some n)
    (hk : n.kind ≠ .external) {kw : Dict Name (SVal V)} {kw' : Dict Name (PVal V)}
    (hout : ∀ d, d ∉ n.inputTypes.keys → kw'.get? d = none)
    (hcol : ∀ d ∈ n.inputTypes.keys, d ∈ (cur F t).columns → InSpark g inputs overrides d ∧ ∃ f c, kw.get? d = some (.frame f) ∧
      kw'.get? d = some (.col c) ∧ Rel F t d (.frame f) (.col c))
    (hpl : ∀ d ty, (d, ty) ∈ n.inputTypes → d ∉ (cur F t).columns → ¬ InSpark g inputs overrides d ∧
      ((∃ v, kw.get? d = some (.scalar v) ∧ kw'.get? d = some (.scalar v)) ∨
       (kw.get? d = none ∧ kw'.get? d = none ∧ ty.2 = .optional)))
    (hnd : kw'.keys.Nodup)
    {fromDf : List Name} {bound : Dict Name V}
    (hdet : determineParams (plainKwargs kw) (cur F t).columns n.inputTypes = .ok (fromDf, bound))
    {i : Nat} {row : Dict Name (Cell V)} (hrow : (cur F t).rows[i]? = some row) :
    (udfCell (revalNode scalarFn n) bound fromDf row).toOption =
      (gather (PVal.at i) kw').bind fun args => (n.fn args).toOption := by
  obtain ⟨hfrom, hbound⟩ := determineParams_ok hdet
  have hcell : ∀ d ∈ fromDf, ∃ c x, kw'.get? d = some (.col c) ∧ row.get? d = some x ∧ x.toOption = c i := by
    intro d hd
    obtain ⟨h1, h2⟩ := (hfrom d).1 hd
    obtain ⟨_, f, c, _, h4, h5⟩ := hcol d h1 h2
    cases h5 with
    | frame _ _ _ h6 =>
      obtain ⟨x, hx, hx'⟩ := h6 i row hrow
      exact ⟨c, x, h4, hx, hx'⟩
  unfold udfCell
  cases hc : cellsOf row (sortNames fromDf) with
  | error e =>
    obtain ⟨d, hd, hno⟩ := cellsOf_error hc
    rw [mem_sortNames] at hd
    obtain ⟨c, x, h1, h2, h3⟩ := hcell d hd
    have hx : c i = none := by
      cases x with
      | error e => rw [← h3]; rfl
      | ok v => exact absurd h2 (hno v)
    have hg : gather (PVal.at i) kw' = none := by
      cases hg : gather (PVal.at i) kw' with
      | none => rfl
      | some args =>
        obtain ⟨b, hb⟩ := (gather_some hg).1 (d, .col c) (Dict.get?_mem h1)
        change c i = some b at hb
        rw [hx] at hb; cases hb
    rw [hg]; rfl
  | ok args =>
    obtain ⟨h1, h2⟩ := cellsOf_ok hc
    have hfn : (revalNode scalarFn n).fn = scalarFn n.fn := rfl
    simp only [hfn, scalarFn_scalars]
    obtain ⟨args', hg⟩ := gather_of (f := PVal.at i) (d := kw') (by
      rintro ⟨d, w⟩ hp
      have hget := Dict.get?_of_mem hnd hp
      cases w with
      | scalar v => exact ⟨v, rfl⟩
      | col c =>
        have hd : d ∈ n.inputTypes.keys := by
          by_cases hd : d ∈ n.inputTypes.keys
          · exact hd
          · rw [hout d hd] at hget; cases hget
        have hdc : d ∈ (cur F t).columns := by
          by_cases hdc : d ∈ (cur F t).columns
          · exact hdc
          · exfalso
            obtain ⟨ty, hty⟩ := Dict.mem_keys_iff.1 hd
            rcases (hpl d ty (Dict.get?_mem hty) hdc).2 with ⟨v, _, h3⟩ | ⟨_, h3, _⟩
            · rw [hget] at h3; cases h3
            · rw [hget] at h3; cases h3
        obtain ⟨c', x, h3, h4, h5⟩ := hcell d ((hfrom d).2 ⟨hd, hdc⟩)
        rw [hget] at h3; cases h3
        obtain ⟨v, h6, _⟩ := h1 d (mem_sortNames.2 ((hfrom d).2 ⟨hd, hdc⟩))
        rw [h4] at h6; cases h6
        exact ⟨v, h5.symm⟩)
    rw [hg, Option.bind_some]
    have hsame : SameArgs (bound ++ args) args' := by
      intro d
      rw [gather_get? hg d, Dict.get?_append, hbound]
      by_cases hd : d ∈ n.inputTypes.keys
      · by_cases hdc : d ∈ (cur F t).columns
        · rw [if_neg (fun h => h.2 hdc)]
          obtain ⟨c, x, h3, h4, h5⟩ := hcell d ((hfrom d).2 ⟨hd, hdc⟩)
          obtain ⟨v, h6, h7⟩ := h1 d (mem_sortNames.2 ((hfrom d).2 ⟨hd, hdc⟩))
          rw [h4] at h6; cases h6
          rw [h7, h3]
          exact h5
        · rw [if_pos ⟨hd, hdc⟩]
          obtain ⟨ty, hty⟩ := Dict.mem_keys_iff.1 hd
          have hno : args.get? d = none := h2 d (by rw [mem_sortNames, hfrom]; exact fun h => hdc h.2)
          rcases (hpl d ty (Dict.get?_mem hty) hdc).2 with ⟨v, h3, h4⟩ | ⟨h3, h4, _⟩
          · rw [plainKwargs_scalar h3, h4]; rfl
          · rw [plainKwargs_none h3, h4, hno]; rfl
      · rw [if_neg (fun h => hd h.1), h2 d (by rw [mem_sortNames, hfrom]; exact fun h => hd h.1), hout d hd]
        rfl
    rw [hu k n hn hk _ _ hsame]
    cases n.fn args' with
    | error e => rfl
    | ok v => rfl

/-- Reasons for which the adapter refuses a function. -/
def Refused (o : Kinds T) (g : Graph T V) (inputs overrides : Dict Name (SVal V)) (e : ExecErr) : Prop :=
  ∃ k n, e = .raised k "ValueError" ∧ g.get? k = some n ∧ InSpark g inputs overrides k ∧ overrides.get? k = none ∧
    n.kind ≠ .external ∧ ¬ Supported o g inputs overrides n

theorem kwRel_keys {W W' : Type} {R : Name → W → W' → Prop} {kw : Dict Name W} {kw' : Dict Name W'} (h : KwRel R kw kw') :
    kw.keys = kw'.keys := by
  induction h with
  | nil => rfl
  | cons _ _ ih => rw [Dict.keys_cons, Dict.keys_cons, ih]

theorem argsFor_nodup {W : Type} {params : Dict Name (T × DepType)} (h : params.keys.Nodup) (val : Name → Option W) :
    (argsFor params val).keys.Nodup := by
  induction params with
  | nil => exact List.nodup_nil
  | cons p ps ih =>
    obtain ⟨a, ty⟩ := p
    rw [Dict.keys_cons, List.nodup_cons] at h
    unfold argsFor at ih ⊢
    cases hv : val a with
    | none => rw [List.filterMap_cons_none (by simp [hv])]; exact ih h.2
    | some w =>
      rw [List.filterMap_cons_some (b := (a, w)) (by simp only [hv, Option.map_some]), Dict.keys_cons, List.nodup_cons]
      refine ⟨fun hm => ?_, ih h.2⟩
      obtain ⟨x, hx⟩ := Dict.mem_keys_iff.1 hm
      exact h.1 (argsFor_mem (Dict.get?_mem hx)).1

theorem pandasAnnotations_mem {bound : Dict Name V} {params : Dict Name (T × DepType)} {b : Bool} :
    b ∈ pandasAnnotations o bound params ↔ ∃ d ty, (d, ty, DepType.required) ∈ params ∧ bound.get? d = none ∧ o.isSeries ty = b := by
  unfold pandasAnnotations
  rw [List.mem_map]
  constructor
  · rintro ⟨⟨d, ty, dt⟩, hp, rfl⟩
    obtain ⟨h1, h2⟩ := List.mem_filter.1 hp
    simp only [Bool.and_eq_true, Bool.not_eq_true', decide_eq_true_eq] at h2
    obtain ⟨h2, rfl⟩ := h2
    exact ⟨d, ty, h1, (Dict.has_eq_false_iff _ _).1 h2, rfl⟩
  · rintro ⟨d, ty, h1, h2, rfl⟩
    refine ⟨(d, ty, .required), List.mem_filter.2 ⟨h1, ?_⟩, rfl⟩
    simp [(Dict.has_eq_false_iff _ _).2 h2]

theorem spark_call (hw : WellFormed g) (hu : Unordered g) (ho : OneTable F g inputs overrides)
    {k : Name} {n : Node T V} {l : List Name} {t : Adapter V} {kw : Dict Name (SVal V)} {kw' : Dict Name (PVal V)}
    {c : List (Name × Dict Name (PVal V))} (hi : AInv F g overrides l t) (hn : g.get? k = some n) (hk : n.kind ≠ .external)
    (hov : overrides.get? k = none) (hl : l = c.map (·.1)) (hkw : KwRel (Rel F t) kw kw')
    (hP : Calls F g inputs overrides (c ++ [(k, kw')])) (r : Except UserErr (SVal V)) (t' : Adapter V)
    (hrun : sparkRun o (revalNode scalarFn n) kw t = (r, t')) :
    (∀ v, r = .ok v → ∃ v', pureFn n.fn kw' = .ok v' ∧ Rel F t' k v v' ∧ AInv F g overrides (l ++ [k]) t' ∧
      ∀ d w w', d ≠ k → Rel F t d w w' → Rel F t' d w w') ∧
    (∀ e, r = .error e → pureFn n.fn kw' = .error e ∨ Refused o g inputs overrides (.raised k e)) := by
  have hname := hw.name_eq hn
  have hkl : k ∉ l := by
    have := hP.1
    rw [List.map_append, List.nodup_append] at this
    intro hmem
    exact this.2.2 k (hl ▸ hmem) k (by simp) rfl
  have hfresh := fresh_column ho hi hn hk hov hkl
  have hright : RightArgs (revalGraph pureFn g) (pvals F inputs) (pvals F overrides) (revalNode pureFn n) kw' := by
    obtain ⟨n', h1, h2⟩ := hP.2 (k, kw') (by simp)
    rw [revalGraph_of hn] at h1; cases h1
    exact h2
  unfold sparkRun at hrun
  have hfn : (revalNode scalarFn n).fn = scalarFn n.fn := rfl
  have hnm : (revalNode scalarFn n).name = k := hname
  have hit : (revalNode scalarFn n).inputTypes = n.inputTypes := rfl
  have htyp : (revalNode scalarFn n).typ = n.typ := rfl
  cases hff : firstFrame kw with
  | none =>
    rw [hff] at hrun
    simp only [hfn, scalarFn_scalars, Prod.mk.injEq] at hrun
    obtain ⟨rfl, rfl⟩ := hrun
    have hpure : pureFn n.fn kw' = (n.fn (plainKwargs kw)).map .scalar := by
      unfold pureFn
      rw [kwRel_plain hkw hff]
    rw [hpure]
    cases hf : n.fn (plainKwargs kw) with
    | error e => exact ⟨fun v h => (by cases h), fun e' h => (by cases h; exact .inl rfl)⟩
    | ok a =>
      refine ⟨fun v h => ?_, fun e h => (by cases h)⟩
      cases h
      refine ⟨.scalar a, rfl, .scalar hfresh, ?_, fun d w w' _ h => h⟩
      refine { hi with cols := ?_, called := ?_ }
      · intro x hx
        rcases hi.cols x hx with h | h
        · exact .inl h
        · exact .inr (by simp [h])
      · intro x hx
        rcases List.mem_append.1 hx with hx | hx
        · exact hi.called x hx
        · simp only [List.mem_singleton] at hx
          subst hx; exact ⟨hov, n, hn, hk⟩
  | some df =>
    rw [hff] at hrun
    obtain ⟨d0, hd0⟩ := firstFrame_some hff
    obtain ⟨w0, hw0, hrel0⟩ := hkw.mem hd0
    -- the table that is used
    have hdf : df.columns.length ≤ (cur F t).columns.length ∧ (t.df = none → df = F) ∧ ∃ c0, w0 = .col c0 := by
      cases hrel0 with
      | frame h1 h2 h3 h4 => exact ⟨h2, h3, _, rfl⟩
    obtain ⟨hlen, hdfF, c0, rfl⟩ := hdf
    have hstart : (t.start df).df.getD df = cur F t ∧ (t.start df).schema = F.columns := by
      unfold Adapter.start
      cases htd : t.df with
      | none =>
        refine ⟨?_, ?_⟩
        · rw [hdfF htd]; simp [cur, htd]
        · rw [hdfF htd]
      | some D =>
        refine ⟨?_, ?_⟩
        · simp [cur, htd]
        · exact hi.schema (by rw [htd]; simp)
    obtain ⟨hcur, hsch⟩ := hstart
    simp only [hcur] at hrun
    obtain ⟨hout, hcol, hpl⟩ := params_of hw ho hi hn hkw hright
    have hnd : kw'.keys.Nodup := by
      obtain ⟨val, _, _, rfl⟩ := hright
      exact argsFor_nodup (params := n.inputTypes) (hw.params_nodup hn) val
    have hsp : InSpark g inputs overrides k := by
      have hget := Dict.get?_of_mem hnd hw0
      have hd : d0 ∈ n.inputTypes.keys := by
        by_cases hd : d0 ∈ n.inputTypes.keys
        · exact hd
        · rw [hout d0 hd] at hget; cases hget
      by_cases hdc : d0 ∈ (cur F t).columns
      · exact .fn hn hov hk hd (hcol d0 hd hdc).1
      · exfalso
        obtain ⟨ty, hty⟩ := Dict.mem_keys_iff.1 hd
        rcases (hpl d0 ty (Dict.get?_mem hty) hdc).2 with ⟨v, _, h3⟩ | ⟨_, h3, _⟩
        · rw [hget] at h3; cases h3
        · rw [hget] at h3; cases h3
    have hpure : pureFn n.fn kw' = .ok (.col fun i => (gather (PVal.at i) kw').bind fun args => (n.fn args).toOption) := by
      unfold pureFn
      cases hg : gather PVal.value? kw' with
      | none => rfl
      | some args =>
        obtain ⟨b, hb⟩ := (gather_some hg).1 _ hw0
        cases hb
    cases hdet : determineParams (plainKwargs kw) (cur F t).columns n.inputTypes with
    | error e =>
      exfalso
      obtain ⟨d, ty, h1, h2, h3, h4⟩ := determineParams_error hdet
      rcases (hpl d ty h1 h2).2 with ⟨v, h5, _⟩ | ⟨_, _, h6⟩
      · rw [plainKwargs_scalar h5] at h3; cases h3
      · rw [h4] at h6; cases h6
    | ok q =>
      obtain ⟨fromDf, bound⟩ := q
      obtain ⟨hfrom, hbound⟩ := determineParams_ok hdet
      have hinS : ∀ d ty, (d, ty, DepType.required) ∈ n.inputTypes → (bound.get? d = none ↔ InSpark g inputs overrides d) := by
        intro d ty hmem
        have hd := mem_keys_of_mem hmem
        change d ∈ n.inputTypes.keys at hd
        rw [hbound]
        by_cases hdc : d ∈ (cur F t).columns
        · rw [if_neg (fun h => h.2 hdc)]
          exact ⟨fun _ => (hcol d hd hdc).1, fun _ => rfl⟩
        · rw [if_pos ⟨hd, hdc⟩]
          obtain ⟨h1, h2⟩ := hpl d _ hmem hdc
          rcases h2 with ⟨v, h3, _⟩ | ⟨_, _, h3⟩
          · rw [plainKwargs_scalar h3]
            exact ⟨fun h => (by cases h), fun h => absurd h h1⟩
          · cases h3
      have hrefuse : ¬ Supported o g inputs overrides n → Refused o g inputs overrides (.raised k "ValueError") :=
        fun h => ⟨k, n, rfl, hn, hsp, hov, hk, h⟩
      have hdone : ∀ res, lambdaUdf o (cur F t) (revalNode scalarFn n) (plainKwargs kw) = res →
          (res = .error "ValueError" ∧ ¬ Supported o g inputs overrides n) ∨
          res = .ok ((cur F t).withColumn k (udfCell (revalNode scalarFn n) bound fromDf)) := by
        rintro res rfl
        unfold lambdaUdf
        rw [hit, hdet]
        simp only [hnm, htyp]
        have hmem := fun b => pandasAnnotations_mem (o := o) (bound := bound) (params := n.inputTypes) (b := b)
        generalize pandasAnnotations o bound n.inputTypes = ann at hmem ⊢
        by_cases h1 : (ann.any id && !(ann.all id)) = true
        · rw [if_pos h1]
          left
          refine ⟨rfl, ?_⟩
          simp only [Bool.and_eq_true, List.any_eq_true, id_eq, exists_eq_right, Bool.not_eq_true', List.all_eq_false,
            Bool.not_eq_true] at h1
          obtain ⟨h1, hb⟩ := h1
          obtain ⟨d1, ty1, e1, e2, e3⟩ := (hmem true).1 h1
          obtain ⟨d2, ty2, f1, f2, f3⟩ := (hmem false).1 hb
          rintro (⟨s1, _⟩ | ⟨s1, _, _⟩)
          · have := s1 d1 ty1 e1 ((hinS _ _ e1).1 e2)
            rw [e3] at this; cases this
          · have := s1 d2 ty2 f1 ((hinS _ _ f1).1 f2)
            rw [f3] at this; cases this
        · rw [if_neg h1]
          by_cases h2 : (ann.all id && !ann.isEmpty) = true
          · rw [if_pos h2]
            simp only [Bool.and_eq_true, List.all_eq_true, id_eq, Bool.not_eq_true', List.isEmpty_eq_false_iff] at h2
            obtain ⟨h2, h3⟩ := h2
            cases hs : o.seriesReturn n.typ with
            | true => exact .inr rfl
            | false =>
              refine .inl ⟨rfl, ?_⟩
              obtain ⟨b, hb⟩ := List.exists_mem_of_ne_nil ann h3
              have hbt := h2 b hb
              subst hbt
              obtain ⟨d1, ty1, e1, e2, e3⟩ := (hmem true).1 hb
              rintro (⟨s1, _⟩ | ⟨_, _, s1⟩)
              · have := s1 d1 ty1 e1 ((hinS _ _ e1).1 e2)
                rw [e3] at this; cases this
              · rw [hs] at s1; cases s1
          · rw [if_neg h2]
            cases hs : o.udfReturn n.typ with
            | true => exact .inr rfl
            | false =>
              refine .inl ⟨rfl, ?_⟩
              rintro (⟨_, s1⟩ | ⟨s1, ⟨d1, ty1, e1, e2⟩, _⟩)
              · rw [hs] at s1; cases s1
              · apply h2
                have hin := (hmem (o.isSeries ty1)).2 ⟨d1, ty1, e1, (hinS _ _ e1).2 e2, rfl⟩
                rw [Bool.and_eq_true]
                constructor
                · rw [List.all_eq_true]
                  intro b hb
                  obtain ⟨d2, ty2, f1, f2, f3⟩ := (hmem b).1 hb
                  rw [← f3]
                  exact s1 d2 ty2 f1 ((hinS _ _ f1).1 f2)
                · cases ann with
                  | nil => cases hin
                  | cons => rfl
      rcases hdone _ rfl with ⟨hres, hns⟩ | hres
      · rw [hres] at hrun
        simp only [Prod.mk.injEq] at hrun
        obtain ⟨rfl, rfl⟩ := hrun
        exact ⟨fun v h => (by cases h), fun e h => (by cases h; exact .inr (hrefuse hns))⟩
      · rw [hres] at hrun
        simp only at hrun
        rw [if_neg (by rw [Frame.withColumn_columns hfresh, List.length_append]; simp; omega)] at hrun
        simp only [Prod.mk.injEq] at hrun
        obtain ⟨rfl, rfl⟩ := hrun
        refine ⟨fun v h => ?_, fun e h => (by cases h)⟩
        cases h
        rw [hsch]
        refine ⟨_, hpure, ?_, hi.withColumn hn hk hov hfresh, fun d w w' hd h => h.withColumn hfresh hd⟩
        refine .frame ?_ (Nat.le_refl _) (by intro h; cases h) ?_
        · change k ∈ (Frame.withColumn _ _ _).columns
          rw [Frame.withColumn_columns hfresh]; simp
        · intro i row hr
          obtain ⟨r0, h5, rfl⟩ := Frame.withColumn_row hr
          refine ⟨_, by rw [Dict.get?_set, if_pos rfl], ?_⟩
          exact udf_cell (inputs := inputs) (overrides := overrides) hu hn hk hout hcol hpl hnd hdet h5

/-- The execution with the adapter goes with the execution on columns. -/
theorem spark_cross (hw : WellFormed g) (hu : Unordered g) (ho : OneTable F g inputs overrides) (finalVars : List Name)
    {t : Adapter V} (ht : t.df = none) :
    CrossOut (Rel F) (AInv F g overrides) (Refused o g inputs overrides)
      (executeSubdag (revalGraph pureFn g) (finalVars.filterMap (fun k => (revalGraph pureFn g).get? k)) (pvals F inputs) (pvals F overrides))
      (executeWith (sparkGraph g) (finalVars.filterMap (fun k => (sparkGraph g).get? k)) inputs overrides (sparkRun o) t) := by
  have hcur : cur F t = F := by simp [cur, ht]
  refine cross_execute (P := Calls F g inputs overrides) hw calls_prefix finalVars ?_ ?_ ?_
  · refine ⟨?_, ?_, ?_⟩
    · intro k n hn hk hov
      cases hx : inputs.get? k with
      | none => exact .inl ⟨rfl, by rw [pvals_get?, hx]; rfl⟩
      | some x =>
        exact .inr ⟨x, pvalOf F k x, rfl, by rw [pvals_get?, hx]; rfl,
          fun l t hi => given_rel ho hi ⟨n, hn, .inr ⟨hov, hk, hx⟩⟩⟩
    · intro k n hn
      cases hx : overrides.get? k with
      | none => exact .inl ⟨rfl, by rw [pvals_get?, hx]; rfl⟩
      | some x =>
        exact .inr ⟨x, pvalOf F k x, rfl, by rw [pvals_get?, hx]; rfl, fun l t hi => given_rel ho hi ⟨n, hn, .inl hx⟩⟩
    · intro k n l t kw kw' c hi hn hk hov hl hkw hP r t' hrun
      exact spark_call hw hu ho hi hn hk hov hl hkw hP r t' hrun
  · refine ⟨fun h => absurd ht h, ?_, ?_, ?_, ?_, ?_, ?_⟩
    · rw [hcur]; exact ho.nodup
    · rw [hcur]; exact fun c h => h
    · rw [hcur]; exact fun c h => .inl h
    · intro c h; cases h
    · rw [hcur]
    · rw [hcur]
      intro i row row' h1 h2 k _
      rw [h1] at h2; cases h2; rfl
  · have hwB : WellFormed (revalGraph pureFn g) := reval_wf hw
    have hs := executeSubdag_spec hwB (finalVars.filterMap (fun k => (revalGraph pureFn g).get? k))
      (fun n h => by
        obtain ⟨k, _, hk⟩ := List.mem_filterMap.1 h
        rw [hwB.name_eq hk]; exact hk) (pvals F inputs) (pvals F overrides)
    revert hs
    generalize executeSubdag (revalGraph pureFn g) (finalVars.filterMap (fun k => (revalGraph pureFn g).get? k))
      (pvals F inputs) (pvals F overrides) = out
    intro hs
    have htr : TraceInv (revalGraph pureFn g) (pvals F inputs) (pvals F overrides)
        ((finalVars.filterMap (fun k => (revalGraph pureFn g).get? k)).map (·.name)) out.state := by
      cases out with
      | ok s => exact hs.1.toTraceInv
      | err e s => exact hs.1
    refine ⟨htr.calls_nodup, fun x hx => ?_⟩
    obtain ⟨_, _, n', h1, _, h2⟩ := htr.calls_ok x hx
    exact ⟨n', h1, h2⟩

end

end Verif.Spark
