import Verif.Proofs.SparkRun
import Verif.Proofs.Create

/-! C79: execution as UDFs of PySpark. The specification is at the top of `Verif.Proofs.Spark`. -/
namespace Verif.Spark
open Verif
variable {T V : Type}

/-! ### The result -/

theorem addOutputs_ok {null : V} {outs : Dict Name (Option (SVal V))} (hnd : outs.keys.Nodup) {df df' : Frame V}
    {schema schema' : List Name} (h : addOutputs null outs df schema = (.ok df', schema')) :
    df'.rows.length = df.rows.length ∧ schema' = schema ++ outs.keys.filter (fun k => !schema.contains k) ∧
    ∀ (i : Nat) (r : Dict Name (Cell V)), df.rows[i]? = some r → ∃ r' : Dict Name (Cell V), df'.rows[i]? = some r' ∧
      (∀ k, k ∈ df.columns ∨ k ∉ outs.keys → r'.get? k = r.get? k) ∧
      ∀ k w, outs.get? k = some w → k ∉ df.columns →
        (w = none ∧ r'.get? k = some (.ok null)) ∨ ∃ v, w = some (.scalar v) ∧ r'.get? k = some (.ok v) := by
  induction outs generalizing df schema with
  | nil =>
    cases h
    exact ⟨rfl, by simp [Dict.keys], fun i r hr => ⟨r, hr, fun _ _ => rfl, fun k w h => by cases h⟩⟩
  | cons p outs ih =>
    obtain ⟨k, w⟩ := p
    rw [Dict.keys_cons, List.nodup_cons] at hnd
    obtain ⟨hk, hnd⟩ := hnd
    unfold addOutputs at h
    simp only at h
    -- the schema
    have hsch : (if schema.contains k then schema else schema ++ [k]) ++
        (Dict.keys outs).filter (fun j => !(if schema.contains k then schema else schema ++ [k]).contains j) =
        schema ++ (k :: (Dict.keys outs)).filter (fun j => !schema.contains j) := by
      by_cases hc : schema.contains k = true
      · rw [if_pos hc, List.filter_cons_of_neg (by rw [hc]; decide)]
      · rw [if_neg hc, List.filter_cons_of_pos (by simpa using hc), List.append_assoc]
        congr 1
        rw [List.singleton_append]
        congr 1
        apply List.filter_congr
        intro j hj
        have : j ≠ k := fun e => hk (e ▸ hj)
        simp [this]
    by_cases hc : df.columns.contains k = true
    · rw [if_pos hc] at h
      have hc' : k ∈ df.columns := by simpa using hc
      obtain ⟨h1, h2, h3⟩ := ih hnd h
      refine ⟨h1, by rw [h2, Dict.keys_cons, ← hsch], fun i r hr => ?_⟩
      obtain ⟨r', hr', h4, h5⟩ := h3 i r hr
      refine ⟨r', hr', ?_, ?_⟩
      · intro j hj
        refine h4 j ?_
        rcases hj with hj | hj
        · exact .inl hj
        · exact .inr (fun hm => hj (by rw [Dict.keys_cons]; simp [hm]))
      · intro j x hj hno
        rw [Dict.get?_cons, if_neg (fun e => hno (by rw [← e]; exact hc'))] at hj
        exact h5 j x hj hno
    · rw [if_neg hc] at h
      have hc' : k ∉ df.columns := by simpa using hc
      have hlit : ∀ (v : V), addOutputs null outs (df.withColumn k (fun _ => .ok v))
            (if schema.contains k then schema else schema ++ [k]) = (.ok df', schema') →
          (w = none ∧ v = null ∨ w = some (.scalar v)) →
          df'.rows.length = df.rows.length ∧ schema' = schema ++ (Dict.keys ((k, w) :: outs)).filter (fun k => !schema.contains k) ∧
          ∀ (i : Nat) (r : Dict Name (Cell V)), df.rows[i]? = some r → ∃ r' : Dict Name (Cell V), df'.rows[i]? = some r' ∧
            (∀ j, j ∈ df.columns ∨ j ∉ (Dict.keys ((k, w) :: outs)) → r'.get? j = r.get? j) ∧
            ∀ j x, Dict.get? ((k, w) :: outs : Dict Name (Option (SVal V))) j = some x → j ∉ df.columns →
              (x = none ∧ r'.get? j = some (.ok null)) ∨ ∃ v, x = some (.scalar v) ∧ r'.get? j = some (.ok v) := by
        intro v hv hwv
        obtain ⟨h1, h2, h3⟩ := ih hnd hv
        refine ⟨?_, by rw [h2, Dict.keys_cons, ← hsch], fun i r hr => ?_⟩
        · rw [h1]; unfold Frame.withColumn; rw [List.length_map]
        · obtain ⟨r', hr', h4, h5⟩ := h3 i (r.set k (.ok v)) (by
            unfold Frame.withColumn; simp only [List.getElem?_map, hr, Option.map_some])
          have hcols : ∀ j, j ∈ (df.withColumn k (fun _ => .ok v)).columns ↔ j ∈ df.columns ∨ j = k := by
            intro j; rw [Frame.withColumn_columns hc']; simp
          refine ⟨r', hr', ?_, ?_⟩
          · intro j hj
            have hjk : j ≠ k := by
              rintro rfl
              rcases hj with hj | hj
              · exact hc' hj
              · exact hj (by rw [Dict.keys_cons]; simp)
            rw [h4 j ?_, Dict.get?_set, if_neg (fun e => hjk e.symm)]
            rcases hj with hj | hj
            · exact .inl ((hcols j).2 (.inl hj))
            · exact .inr (fun hm => hj (by rw [Dict.keys_cons]; simp [hm]))
          · intro j x hj hno
            rw [Dict.get?_cons] at hj
            by_cases he : k = j
            · subst he
              rw [if_pos rfl] at hj
              cases hj
              have hget := h4 k (.inl ((hcols k).2 (.inr rfl)))
              rw [Dict.get?_set, if_pos rfl] at hget
              rcases hwv with ⟨rfl, rfl⟩ | rfl
              · exact .inl ⟨rfl, hget⟩
              · exact .inr ⟨v, rfl, hget⟩
            · rw [if_neg he] at hj
              exact h5 j x hj (fun hm => ((hcols j).1 hm).elim hno (fun e => he e.symm))
      cases w with
      | none => exact hlit null h (.inl ⟨rfl, rfl⟩)
      | some x =>
        cases x with
        | scalar v => exact hlit v h (.inr rfl)
        | frame f => cases h

theorem addOutputs_total {null : V} {outs : Dict Name (Option (SVal V))} {df : Frame V} (schema : List Name)
    (h : ∀ k f, (k, some (SVal.frame f)) ∈ outs → k ∈ df.columns) : ∃ df' schema', addOutputs null outs df schema = (.ok df', schema') := by
  induction outs generalizing df schema with
  | nil => exact ⟨df, schema, rfl⟩
  | cons p outs ih =>
    obtain ⟨k, w⟩ := p
    have hrest : ∀ (c : Dict Name (Cell V) → Cell V), ∀ j f, (j, some (SVal.frame f)) ∈ outs → j ∈ (df.withColumn k c).columns := by
      intro c j f hj
      have := h j f (by simp [hj])
      unfold Frame.withColumn
      simp only
      split
      · exact this
      · simp [this]
    unfold addOutputs
    simp only
    by_cases hc : df.columns.contains k = true
    · rw [if_pos hc]
      exact ih _ (fun j f hj => h j f (by simp [hj]))
    · rw [if_neg hc]
      cases w with
      | none => exact ih _ (hrest _)
      | some x =>
        cases x with
        | scalar v => exact ih _ (hrest _)
        | frame f => exact absurd (h k f (by simp)) (by simpa using hc)

theorem select_get? {f : Frame V} {ks : List Name} {i : Nat} {r : Dict Name (Cell V)} (h : f.rows[i]? = some r) :
    ∃ r', (f.select ks).rows[i]? = some r' ∧ ∀ k ∈ ks, r'.get? k = r.get? k := by
  refine ⟨_, by unfold Frame.select; simp only [List.getElem?_map, h, Option.map_some]; rfl, ?_⟩
  intro k hk
  induction ks with
  | nil => cases hk
  | cons a ks ih =>
    cases ha : r.get? a with
    | none =>
      rw [List.filterMap_cons_none (by rw [ha]; rfl)]
      by_cases he : k = a
      · subst he
        rw [ha]
        rw [Dict.get?_eq_none_iff]
        intro hm
        obtain ⟨x, hx⟩ := Dict.mem_keys_iff.1 hm
        obtain ⟨b, _, hb⟩ := List.mem_filterMap.1 (Dict.get?_mem hx)
        obtain ⟨c, hc, hb⟩ := Option.map_eq_some_iff.1 hb
        cases hb
        rw [ha] at hc; cases hc
      · exact ih ((List.mem_cons.1 hk).resolve_left he)
    | some c =>
      rw [List.filterMap_cons_some (b := (a, c)) (by rw [ha]; rfl), Dict.get?_cons]
      by_cases he : a = k
      · subst he; rw [if_pos rfl, ha]
      · rw [if_neg he]
        exact ih ((List.mem_cons.1 hk).resolve_left (fun e => he e.symm))

theorem merge_none {W : Type} {a b : Dict Name W} {k : Name} (h : (a.merge b).get? k = none) : a.get? k = none ∧ b.get? k = none := by
  unfold Dict.merge at h
  induction b generalizing a with
  | nil => exact ⟨h, rfl⟩
  | cons p b ih =>
    obtain ⟨h1, h2⟩ := ih h
    rw [Dict.get?_set] at h1
    split at h1
    · cases h1
    · rename_i he
      exact ⟨h1, by rw [show p = (p.1, p.2) from rfl, Dict.get?_cons, if_neg he]; exact h2⟩

/-- The keys of the outputs, in order. -/
theorem outputs_keys {W : Type} (f : Name → W) (l : List Name) (acc : Dict Name W) (ha : acc.keys.Nodup) :
    (l.foldl (fun out k => out.set k (f k)) acc).keys.Nodup ∧
    (l.Nodup → (∀ k ∈ l, k ∉ acc.keys) → (l.foldl (fun out k => out.set k (f k)) acc).keys = acc.keys ++ l) := by
  induction l generalizing acc with
  | nil => exact ⟨ha, fun _ _ => by simp⟩
  | cons a l ih =>
    rw [List.foldl_cons]
    obtain ⟨h1, h2⟩ := ih (acc.set a (f a)) (Dict.keys_set_nodup ha a (f a))
    refine ⟨h1, fun hn hd => ?_⟩
    rw [List.nodup_cons] at hn
    have hk : (acc.set a (f a)).keys = acc.keys ++ [a] := by
      have hna := hd a (by simp)
      clear h1 h2 ih hd ha
      induction acc with
      | nil => rfl
      | cons p acc ih =>
        obtain ⟨b, w⟩ := p
        rw [Dict.keys_cons] at hna ⊢
        have hb : ¬ b = a := fun e => hna (by simp [e])
        change Dict.keys (if b = a then (a, f a) :: acc else (b, w) :: Dict.set acc a (f a)) = _
        rw [if_neg hb, Dict.keys_cons, ih (fun h => hna (by simp [h]))]
        rfl
    rw [h2 hn.2 ?_, hk, List.append_assoc]
    · rfl
    · intro k hkl
      rw [hk]
      intro hm
      rcases List.mem_append.1 hm with hm | hm
      · exact hd k (by simp [hkl]) hm
      · simp only [List.mem_singleton] at hm
        exact hn.1 (hm ▸ hkl)

section
variable {F : Frame V} {g : Graph T V} {config inputs overrides : Dict Name (SVal V)} {o : Kinds T} {null : V}
  {finalVars : List Name}

/-- What the outputs of an execution are. -/
theorem outputs_ok (hw : WellFormed g) (hu : Unordered g) (ho : OneTable F g inputs overrides)
    {t t' : Adapter V} (ht : t.df = none) {s : ExecState (SVal V)}
    (h : executeWith (sparkGraph g) (finalVars.filterMap (fun k => (sparkGraph g).get? k)) inputs overrides (sparkRun o) t =
      .ok (s, t')) :
    (∃ l, AInv F g overrides l t') ∧ ∀ k ∈ finalVars, k ∈ g.keys →
      (∃ x w, s.computed.get? k = some x ∧ Rel F t' k x w ∧ Den (revalGraph pureFn g) (pvals F inputs) (pvals F overrides) k w) ∨
      (s.computed.get? k = none ∧ k ∉ (cur F t').columns ∧
        ∃ n, g.get? k = some n ∧ n.kind = .external ∧ inputs.get? k = none ∧ overrides.get? k = none) := by
  have hx := spark_cross (o := o) hw hu ho finalVars ht
  rw [h] at hx
  obtain ⟨s', hs', hc⟩ := hx
  have hwB : WellFormed (revalGraph pureFn g) := reval_wf hw
  have hs := executeSubdag_spec hwB (finalVars.filterMap (fun k => (revalGraph pureFn g).get? k))
    (fun n h => by
      obtain ⟨k, _, hk⟩ := List.mem_filterMap.1 h
      rw [hwB.name_eq hk]; exact hk) (pvals F inputs) (pvals F overrides)
  rw [hs'] at hs
  obtain ⟨hinv, hall⟩ := hs
  refine ⟨⟨_, hc.inv⟩, fun k hk hkg => ?_⟩
  obtain ⟨n, hn⟩ := Dict.mem_keys_iff.1 hkg
  have hnB := revalGraph_of (f := pureFn) hn
  have hname := hwB.name_eq hnB
  have hkeys := hc.keys k
  rcases hall _ (List.mem_filterMap.2 ⟨k, hk, hnB⟩) with ⟨w, hw'⟩ | ⟨_, habs⟩
  · rw [hname] at hw'
    rw [(Dict.has_eq_true_iff _ _).2 ⟨w, hw'⟩] at hkeys
    obtain ⟨x, hx⟩ := (Dict.has_eq_true_iff _ _).1 hkeys
    exact .inl ⟨x, w, hx, hc.vals k x w hx hw', hinv.den k w hw'⟩
  · rw [hname] at habs
    have hnone : s'.computed.get? k = none := by
      cases hg : s'.computed.get? k with
      | none => rfl
      | some w => exact absurd (hinv.den k w hg) habs.not_den
    rw [(Dict.has_eq_false_iff _ _).2 hnone] at hkeys
    obtain ⟨m, a1, a2, a3, a4⟩ := pure_absent.1 habs
    refine .inr ⟨(Dict.has_eq_false_iff _ _).1 hkeys, ?_, m, a1, a2, a3, a4⟩
    intro hcol
    rcases hc.inv.cols k hcol with hF | hl
    · obtain ⟨f, m', hm', hx⟩ := ho.columns k hF m a1
      rcases hx with hx | ⟨_, _, hx⟩
      · rw [a4] at hx; cases hx
      · rw [a3] at hx; cases hx
    · obtain ⟨_, m', hm', hx⟩ := hc.inv.called k hl
      rw [a1] at hm'; cases hm'; exact hx a2

/-- C79. If an execution with a new `PySparkUDFGraphAdapter` (or one whose last execution succeeded) gives a result, then the
columns of the given table come first, unchanged, followed by the requested outputs in order, the rows are the rows of the given
table, and in every row the cell of a requested output holds the value that the functions have by composition when every given table
is replaced by the cell of that row; the cell fails to have a value exactly if there is no such value. An input that is not
supplied gives `None`. Afterwards the adapter is as new.

Partial: tables are given for exactly those nodes that are named like columns, all tables are the same (`OneTable`);
what Spark does to values that it stores is not modelled. -/
theorem C79_rows_partial (hw : WellFormed g) (hu : Unordered g) (ho : OneTable F g (config.merge inputs) overrides)
    (hv : ∀ k ∈ finalVars, k ∈ g.keys) {t t' : Adapter V} (ht : t.df = none) {res : Frame V}
    (h : sparkExecute o null ⟨sparkGraph g, config⟩ finalVars overrides inputs t = (.ok res, t')) :
    t' = ⟨none, []⟩ ∧
    res.columns.Nodup ∧ (∀ k, k ∈ res.columns ↔ k ∈ F.columns ∨ k ∈ finalVars) ∧
    (finalVars.Nodup → res.columns = F.columns ++ finalVars.filter (fun k => !F.columns.contains k)) ∧
    res.rows.length = F.rows.length ∧
    ∀ (i : Nat) row, F.rows[i]? = some row → ∃ row', res.rows[i]? = some row' ∧
      (∀ k ∈ F.columns, row'.get? k = row.get? k) ∧
      ∀ k ∈ finalVars,
        (Absent g (atRow null row (config.merge inputs)) (atRow null row overrides) k → row'.get? k = some (.ok null)) ∧
        (¬ Absent g (atRow null row (config.merge inputs)) (atRow null row overrides) k →
          ∃ c, row'.get? k = some c ∧
            ∀ v, c = .ok v ↔ Den g (atRow null row (config.merge inputs)) (atRow null row overrides) k v) := by
  unfold sparkExecute at h
  cases hcomb : combineConfigAndInputs (FnGraph.mk (sparkGraph g) config).config inputs with
  | error ks => rw [hcomb] at h; cases h
  | ok all =>
    rw [hcomb] at h
    obtain ⟨rfl, hdisj⟩ := combine_ok hcomb
    change OneTable F g (config.merge inputs) overrides at ho
    dsimp only at h
    cases hex : executeWith (sparkGraph g) (finalVars.filterMap (fun k => (sparkGraph g).get? k)) (config.merge inputs) overrides
        (sparkRun o) t with
    | err e st => obtain ⟨s, t1⟩ := st; rw [hex] at h; cases h
    | ok st =>
      obtain ⟨s, t1⟩ := st
      rw [hex] at h
      obtain ⟨⟨l, hi⟩, hout⟩ := outputs_ok hw hu ho ht hex
      dsimp only at h
      have hkeys := outputs_keys (fun k => (match s.computed.get? k with
          | some v => some v
          | none => inputs.get? k)) finalVars [] List.nodup_nil
      have hget := fun k => outputs_get (fun k => (match s.computed.get? k with
          | some v => some v
          | none => inputs.get? k)) finalVars [] k
      generalize hO : finalVars.foldl (fun out k => Dict.set out k (match s.computed.get? k with
          | some v => some v
          | none => inputs.get? k)) [] = outs at h hkeys hget
      obtain ⟨hnd, hord⟩ := hkeys
      unfold buildResult at h
      cases hdf : t1.df with
      | none => rw [hdf] at h; cases h
      | some D =>
        rw [hdf] at h
        dsimp only at h
        have hcur : cur F t1 = D := by simp [cur, hdf]
        have hsch : t1.schema = F.columns := hi.schema (by rw [hdf]; simp)
        rw [hsch] at h
        cases hadd : addOutputs null outs D F.columns with
        | mk r schema =>
          rw [hadd] at h
          cases r with
          | error e => cases h
          | ok df' =>
            simp only [Prod.mk.injEq, Except.ok.injEq] at h
            obtain ⟨rfl, rfl⟩ := h
            obtain ⟨h1, h2, h3⟩ := addOutputs_ok hnd hadd
            have hmem : ∀ k, k ∈ outs.keys ↔ k ∈ finalVars := by
              intro k
              rw [Dict.mem_keys_iff, hget k]
              by_cases hk : k ∈ finalVars
              · simp [hk]
              · simp [hk]
            have hcols : (df'.select schema).columns = schema := rfl
            have hmemS : ∀ k, k ∈ schema ↔ k ∈ F.columns ∨ k ∈ finalVars := by
              intro k
              rw [h2, List.mem_append, List.mem_filter, hmem]
              by_cases hk : k ∈ F.columns
              · simp [hk]
              · simp [hk]
            refine ⟨rfl, ?_, ?_, ?_, ?_, ?_⟩
            · rw [hcols, h2, List.nodup_append]
              refine ⟨ho.nodup, hnd.filter _, ?_⟩
              intro a ha b hb e
              subst e
              have := (List.mem_filter.1 hb).2
              simp [ha] at this
            · intro k; rw [hcols]; exact hmemS k
            · intro hfn
              rw [hcols, h2, hord hfn (by simp [Dict.keys])]
              rfl
            · have : (df'.select schema).rows.length = df'.rows.length := by unfold Frame.select; simp
              rw [this, h1, ← hcur, hi.len]
            · intro i row hrow
              have hlt : i < D.rows.length := by
                rw [← hcur, hi.len]
                exact (List.getElem?_eq_some_iff.1 hrow).1
              have hDrow : D.rows[i]? = some D.rows[i] := List.getElem?_eq_getElem hlt
              obtain ⟨r1, hr1, h4, h5⟩ := h3 i _ hDrow
              obtain ⟨r2, hr2, h6⟩ := select_get? (ks := schema) hr1
              refine ⟨r2, hr2, ?_, ?_⟩
              · intro k hk
                rw [h6 k ((hmemS k).2 (.inl hk)), h4 k (.inl (by rw [← hcur]; exact hi.sub k hk))]
                exact hi.same i row _ hrow (by rw [hcur]; exact hDrow) k hk
              · intro k hk
                rw [h6 k ((hmemS k).2 (.inr hk))]
                have hgk := hget k
                rw [if_pos hk] at hgk
                rcases hout k hk (hv k hk) with ⟨x, w, hx, hrel, hden⟩ | ⟨hx, hnc, habs⟩
                · have hnabs : ¬ Absent g (atRow null row (config.merge inputs)) (atRow null row overrides) k :=
                    fun ha => (pure_absent.2 (row_absent.1 ha)).not_den hden
                  refine ⟨fun ha => absurd ha hnabs, fun _ => ?_⟩
                  have hpd := pure_den (null := null) hw ho hrow hden
                  simp only [hx] at hgk
                  cases hrel with
                  | @scalar a e1 =>
                    rw [hcur] at e1
                    rcases h5 k _ hgk e1 with ⟨e2, _⟩ | ⟨b, e2, e3⟩
                    · cases e2
                    · cases e2
                      refine ⟨_, e3, fun v => ?_⟩
                      rw [← hpd v]
                      constructor
                      · intro e; cases e; rfl
                      · intro e; cases e; rfl
                  | frame e1 _ _ e4 =>
                    rw [hcur] at e1 e4
                    obtain ⟨c, e5, e6⟩ := e4 i _ hDrow
                    refine ⟨c, by rw [h4 k (.inl e1)]; exact e5, fun v => ?_⟩
                    rw [← hpd v]
                    unfold PVal.at
                    dsimp only
                    rw [← e6]
                    cases c with
                    | error e => exact ⟨fun h => (by cases h), fun h => (by cases h)⟩
                    | ok a =>
                      constructor
                      · intro h; cases h; rfl
                      · intro h; cases h; rfl
                · have ha := row_absent (null := null) (row := row).2 habs
                  refine ⟨fun _ => ?_, fun hna => absurd ha hna⟩
                  simp only [hx] at hgk
                  rw [hcur] at hnc
                  have hin : inputs.get? k = none := by
                    obtain ⟨_, _, _, h7, _⟩ := habs
                    exact (merge_none h7).2
                  rw [hin] at hgk
                  rcases h5 k _ hgk hnc with ⟨_, e2⟩ | ⟨b, e2, _⟩
                  · exact e2
                  · cases e2

theorem den_pure {inputs : Dict Name (SVal V)} (hw : WellFormed g) (ho : OneTable F g inputs overrides) {i : Nat} {row : Dict Name (Cell V)}
    (hr : F.rows[i]? = some row) {k : Name} {v : V} (h : Den g (atRow null row inputs) (atRow null row overrides) k v) :
    ∃ w, Den (revalGraph pureFn g) (pvals F inputs) (pvals F overrides) k w := by
  induction h with
  | @override k n v h1 h2 =>
    rw [atRow_get?] at h2
    obtain ⟨x, hx, _⟩ := Option.map_eq_some_iff.1 h2
    exact ⟨pvalOf F k x, .override (revalGraph_of h1) (by rw [pvals_get?, hx]; rfl)⟩
  | @input k n v h1 h2 h3 h4 =>
    rw [atRow_get?] at h4
    rw [atRow_get?, Option.map_eq_none_iff] at h2
    obtain ⟨x, hx, _⟩ := Option.map_eq_some_iff.1 h4
    exact ⟨pvalOf F k x, .input (revalGraph_of h1) (by rw [pvals_get?, h2]; rfl) h3 (by rw [pvals_get?, hx]; rfl)⟩
  | @call k n v val h1 h2 h3 h4 h5 h6 ih =>
    rw [atRow_get?, Option.map_eq_none_iff] at h2
    have hchoice : ∀ d, ∃ o : Option (PVal V), (∀ w, o = some w → Den (revalGraph pureFn g) (pvals F inputs) (pvals F overrides) d w) ∧
        (o = none → ∀ w, ¬ Den (revalGraph pureFn g) (pvals F inputs) (pvals F overrides) d w) := by
      intro d
      by_cases hd : ∃ w, Den (revalGraph pureFn g) (pvals F inputs) (pvals F overrides) d w
      · obtain ⟨w, hw⟩ := hd
        exact ⟨some w, fun w' e => (by cases e; exact hw), fun e => (by cases e)⟩
      · exact ⟨none, fun w' e => (by cases e), fun _ w hw => hd ⟨w, hw⟩⟩
    have hval := fun d => (Classical.choose_spec (hchoice d))
    generalize hgv : (fun d => Classical.choose (hchoice d)) = valP at hval
    have hval1 : ∀ d w, valP d = some w → Den (revalGraph pureFn g) (pvals F inputs) (pvals F overrides) d w := by
      intro d; subst hgv; exact (hval d).1
    have hval2 : ∀ d, valP d = none → ∀ w, ¬ Den (revalGraph pureFn g) (pvals F inputs) (pvals F overrides) d w := by
      intro d; subst hgv; exact (hval d).2
    have hnone : ∀ d t, (d, t) ∈ n.inputTypes → valP d = none → val d = none := by
      intro d t hd he
      cases hv : val d with
      | none => rfl
      | some x =>
        obtain ⟨w, hw⟩ := ih d x (mem_keys_of_mem hd) hv
        exact absurd hw (hval2 d he w)
    have hok : ∃ w, pureFn n.fn (argsFor n.inputTypes valP) = .ok w := by
      unfold pureFn
      cases hg : gather PVal.value? (argsFor n.inputTypes valP) with
      | none => exact ⟨_, rfl⟩
      | some args =>
        dsimp only
        have hargs : args = argsFor n.inputTypes val := by
          obtain ⟨h7, rfl⟩ := gather_some hg
          have e1 : List.filterMap (fun p => Option.map (fun b => (p.1, b)) (PVal.value? p.2)) (argsFor n.inputTypes valP) =
              argsFor n.inputTypes (fun d => (valP d).bind PVal.value?) := by
            unfold argsFor
            rw [List.filterMap_filterMap]
            congr 1
            funext p
            cases hv : valP p.1 <;> simp [hv]
          rw [e1]
          apply argsFor_congr
          intro d hd
          obtain ⟨t, ht⟩ := Dict.mem_keys_iff.1 hd
          have hmem := Dict.get?_mem ht
          cases hv : valP d with
          | none => rw [hnone d t hmem hv]; rfl
          | some w =>
            obtain ⟨b, hb⟩ := h7 (d, w) (List.mem_filterMap.2 ⟨(d, t), hmem, by simp [hv]⟩)
            cases w with
            | col c => cases hb
            | scalar x =>
              have hx := (pure_den (null := null) hw ho hr (hval1 d _ hv) x).1 rfl
              cases hv2 : val d with
              | some y => rw [(h4 d y hd hv2).det hx]; rfl
              | none => exact absurd hx (h5 d t hmem hv2).2.not_den
        rw [hargs, h6]
        exact ⟨_, rfl⟩
    obtain ⟨w, hw'⟩ := hok
    refine ⟨w, .call (n := revalNode pureFn n) valP (revalGraph_of h1) (by rw [pvals_get?, h2]; rfl) h3 ?_ ?_ hw'⟩
    · intro d x _ hx; exact hval1 d x hx
    · intro d t hd hx
      obtain ⟨e1, e2⟩ := h5 d t hd (hnone d t hd hx)
      exact ⟨e1, pure_absent.2 (row_absent.1 e2)⟩

/-- C79. An execution gives a result if the functions that are run by Spark have types that can be handled, if the functions
succeed on the first row, and if at least one output is a function that is run by Spark. (Whether the functions succeed on the other
rows only shows when the cells are looked at.) -/
theorem C79_complete_partial (hw : WellFormed g) (hu : Unordered g) (ho : OneTable F g (config.merge inputs) overrides)
    (hdisj : ∀ k ∈ inputs.keys, k ∉ config.keys) {row : Dict Name (Cell V)} (hrow : F.rows[0]? = some row)
    (hv : ∀ k ∈ finalVars, (∃ v, Den g (atRow null row (config.merge inputs)) (atRow null row overrides) k v) ∨
      Absent g (atRow null row (config.merge inputs)) (atRow null row overrides) k)
    (hsome : ∃ k ∈ finalVars, ∃ n, g.get? k = some n ∧ n.kind ≠ .external ∧ overrides.get? k = none ∧
      InSpark g (config.merge inputs) overrides k)
    (hty : ∀ k n, g.get? k = some n → n.kind ≠ .external → overrides.get? k = none → InSpark g (config.merge inputs) overrides k →
      Supported o g (config.merge inputs) overrides n)
    {t : Adapter V} (ht : t.df = none) :
    ∃ res t', sparkExecute o null ⟨sparkGraph g, config⟩ finalVars overrides inputs t = (.ok res, t') := by
  have hcomb : combineConfigAndInputs config inputs = .ok (config.merge inputs) := by
    unfold combineConfigAndInputs
    have : inputs.keys.filter (fun k => config.has k) = [] := by
      rw [List.filter_eq_nil_iff]
      intro k hk hc
      exact hdisj k hk ((Dict.has_iff _ _).1 hc)
    simp [this]
  have hwB : WellFormed (revalGraph pureFn g) := reval_wf hw
  have hkeys : ∀ k ∈ finalVars, k ∈ g.keys := by
    intro k hk
    rcases hv k hk with ⟨v, h⟩ | ⟨n, h, _⟩
    · cases h with
      | override h1 _ => exact Dict.mem_keys_iff.2 ⟨_, h1⟩
      | input h1 _ _ _ => exact Dict.mem_keys_iff.2 ⟨_, h1⟩
      | call _ h1 _ _ _ _ _ => exact Dict.mem_keys_iff.2 ⟨_, h1⟩
    · exact Dict.mem_keys_iff.2 ⟨_, h⟩
  have hx := spark_cross (o := o) hw hu ho finalVars ht
  have hs := executeSubdag_spec hwB (finalVars.filterMap (fun k => (revalGraph pureFn g).get? k))
    (fun n h => by
      obtain ⟨k, _, hk⟩ := List.mem_filterMap.1 h
      rw [hwB.name_eq hk]; exact hk) (pvals F (config.merge inputs)) (pvals F overrides)
  unfold sparkExecute
  dsimp only
  rw [hcomb]
  dsimp only
  cases hex : executeWith (sparkGraph g) (finalVars.filterMap (fun k => (sparkGraph g).get? k)) (config.merge inputs) overrides
      (sparkRun o) t with
  | err e st =>
    exfalso
    rw [hex] at hx
    rcases hx with ⟨k, n, _, h2, h3, h4, h5, h6⟩ | ⟨s', hs'⟩
    · exact h6 (hty k n h2 h5 h4 h3)
    · rw [hs'] at hs
      obtain ⟨_, _, n, hn, hres⟩ := hs
      apply hres
      obtain ⟨k, hk, hg⟩ := List.mem_filterMap.1 hn
      have hname := hwB.name_eq hg
      rw [hname]
      rcases hv k hk with ⟨v, h⟩ | h
      · exact .inl (den_pure hw ho hrow h)
      · right
        have habs := pure_absent (F := F) (g := g).2 (row_absent.1 h)
        refine ⟨?_, habs⟩
        obtain ⟨n', hn', hext, _⟩ := habs
        rw [hg] at hn'; cases hn'
        simp [topDep, Node.userDefined, hext]
  | ok st =>
    obtain ⟨s, t1⟩ := st
    obtain ⟨⟨l, hi⟩, hout⟩ := outputs_ok hw hu ho ht hex
    dsimp only
    have hget := fun k => outputs_get (fun k => (match s.computed.get? k with
        | some v => some v
        | none => inputs.get? k)) finalVars [] k
    have hnd := (outputs_keys (fun k => (match s.computed.get? k with
          | some v => some v
          | none => inputs.get? k)) finalVars [] List.nodup_nil).1
    generalize hO : finalVars.foldl (fun out k => Dict.set out k (match s.computed.get? k with
        | some v => some v
        | none => inputs.get? k)) [] = outs at hget hnd
    have hdf : ∃ D, t1.df = some D := by
      cases hdf : t1.df with
      | some D => exact ⟨D, rfl⟩
      | none =>
        exfalso
        have hcur : cur F t1 = F := by simp [cur, hdf]
        obtain ⟨k, hk, n, h1, h2, h3, h4⟩ := hsome
        rcases hout k hk (hkeys k hk) with ⟨x, w, _, hrel, hden⟩ | ⟨_, _, m, a1, a2, _⟩
        · rcases pure_inSpark hden with ⟨_, _, hno⟩ | ⟨c, rfl, _⟩
          · exact hno h4
          · cases hrel with
            | frame e1 _ _ _ =>
              rw [hcur] at e1
              obtain ⟨f, m, hm, hx⟩ := ho.columns k e1 n h1
              rw [h1] at hm; cases hm
              rcases hx with hx | ⟨_, hx, _⟩
              · rw [h3] at hx; cases hx
              · exact h2 hx
        · rw [h1] at a1; cases a1; exact h2 a2
    obtain ⟨D, hdf⟩ := hdf
    have hcur : cur F t1 = D := by simp [cur, hdf]
    obtain ⟨df', schema, hadd⟩ := addOutputs_total (null := null) (outs := outs) (df := D) t1.schema (by
      intro k f hm
      have hgk := Dict.get?_of_mem hnd hm
      rw [hget k] at hgk
      by_cases hk : k ∈ finalVars
      · rw [if_pos hk] at hgk
        rcases hout k hk (hkeys k hk) with ⟨x, w, hx, hrel, _⟩ | ⟨hx, _, m, a1, a2, a3, a4⟩
        · simp only [hx, Option.some.injEq] at hgk
          subst hgk
          cases hrel with
          | frame e1 _ _ _ => rw [← hcur]; exact e1
        · simp only [hx, (merge_none a3).2, Option.some.injEq] at hgk
          cases hgk
      · rw [if_neg hk] at hgk; cases hgk)
    unfold buildResult
    rw [hdf]
    simp only [hadd]
    exact ⟨_, _, rfl⟩

end

/-! ### Cases -/
namespace SparkSample

/-- A function. -/
def fnNode (name : Name) (params : List (Name × String × DepType)) (typ : String) (f : Dict Name Int → Except UserErr Int) :
    Node String Int :=
  { name, typ, kind := .standard, inputTypes := params, dependencies := [], dependedOnBy := [], fn := f }

def arg (kw : Dict Name Int) (k : Name) (dflt : Int) : Int := (kw.get? k).getD dflt

/-- `total` and `taxed` are computed by Spark, `scaled` on the driver; `ratio` fails where `qty` is zero. -/
def fns : List (Node String Int) :=
  [ fnNode "total" [("price", "int", .required), ("qty", "int", .required)] "int" (fun kw => .ok (arg kw "price" 0 * arg kw "qty" 0)),
    fnNode "scaled" [("rate", "int", .required)] "int" (fun kw => .ok (arg kw "rate" 0 * 10)),
    fnNode "taxed" [("scaled", "int", .required), ("total", "int", .required), ("bonus", "int", .optional)] "int"
      (fun kw => .ok (arg kw "total" 0 + arg kw "scaled" 0 + arg kw "bonus" 7)),
    fnNode "ratio" [("price", "int", .required), ("qty", "int", .required)] "int"
      (fun kw => if arg kw "qty" 0 = 0 then .error "ZeroDivisionError" else .ok (arg kw "price" 0 / arg kw "qty" 0)) ]

def graphOf (fns : List (Node String Int)) : Graph String Int :=
  match createFunctionGraph (fun _ _ => true) "any" [] false fns with
  | .ok g => g
  | .error _ => []

def graph : Graph String Int := graphOf fns

/-- Only `int` has a counterpart in Spark. -/
def kinds : Kinds String := ⟨fun t => t == "series", fun t => t == "int", fun t => t == "series"⟩

/-- A row. -/
def mkRow (l : List (Name × Int)) : Dict Name (Cell Int) := l.map (fun p => (p.1, .ok p.2))

/-- A table. -/
def table : Frame Int :=
  ⟨["price", "shop", "qty"], [mkRow [("price", 10), ("shop", 1), ("qty", 3)], mkRow [("price", 20), ("shop", 2), ("qty", 0)]]⟩

/-- The cells of a result. -/
def cells (f : Frame Int) : List (List (Name × Option Int)) := f.rows.map (fun r => r.map (fun p => (p.1, p.2.toOption)))

/-- What an execution gives: the table, or the message. -/
def view (r : Except SparkErr (Frame Int) × Adapter Int) : Sum String (List Name × List (List (Name × Option Int))) :=
  match r.1 with
  | .ok f => .inr (f.columns, cells f)
  | .error (.build e) => .inl e
  | .error (.driver (.exec (.raised _ e))) => .inl e
  | .error _ => .inl ""

def inputs : Dict Name (SVal Int) := [("price", .frame table), ("qty", .frame table), ("rate", .scalar 2)]

def run (g : Graph String Int) (inputs : Dict Name (SVal Int)) (final : List Name) (t : Adapter Int) :=
  sparkExecute kinds (-1) ⟨sparkGraph g, []⟩ final [] inputs t

/-- The result: a column `taxed` computed row by row, a constant column `scaled`, a column `ratio` with a cell that fails, and
`None` (here `-1`) for the input that was not supplied. -/
example : view (run graph inputs ["taxed", "ratio", "scaled", "bonus"] ⟨none, []⟩) = .inr
    (["price", "shop", "qty", "taxed", "ratio", "scaled", "bonus"],
      [[("price", some 10), ("shop", some 1), ("qty", some 3), ("taxed", some 57), ("ratio", some 3), ("scaled", some 20), ("bonus", some (-1))],
       [("price", some 20), ("shop", some 2), ("qty", some 0), ("taxed", some 27), ("ratio", none), ("scaled", some 20), ("bonus", some (-1))]]) := by
  decide +kernel

theorem fresh : ∀ n ∈ fns, Fresh n := by
  intro n hn
  simp only [fns, List.mem_cons, List.not_mem_nil, or_false] at hn
  rcases hn with rfl | rfl | rfl | rfl <;> exact ⟨by decide, rfl, rfl, by decide⟩

theorem build_ok : createFunctionGraph (fun _ _ => true) "any" [] false fns = .ok graph := by
  have h : (createFunctionGraph (fun _ _ => true) "any" [] false fns).isOk = true := by decide +kernel
  unfold graph graphOf
  revert h
  generalize createFunctionGraph (fun _ _ => true) "any" [] false fns = r
  intro h
  cases r with
  | ok g => rfl
  | error e => simp [Except.isOk, Except.toBool] at h

theorem wf : WellFormed graph := (createFunctionGraph_spec fresh build_ok).1

theorem fn_cases {k : Name} {n : Node String Int} (h : graph.get? k = some n) (hk : n.kind ≠ .external) :
    ∃ m ∈ fns, n.fn = m.fn := by
  have hs := createFunctionGraph_spec fresh build_ok
  cases hl : lastDef fns k with
  | none => exact absurd (hs.2.2.2.2.1 k n h (by simp [Dict.keys]) hl) hk
  | some m =>
    obtain ⟨n', h1, h2⟩ := hs.2.2.1 k m (by simp [Dict.keys]) hl
    rw [h] at h1; cases h1
    exact ⟨m, (lastDef_name hl).2, h2.fn⟩

theorem unordered : Unordered graph := by
  intro k n hn hk kw kw' hs
  obtain ⟨m, hm, e⟩ := fn_cases hn hk
  rw [e]
  have ha : ∀ j d, arg kw j d = arg kw' j d := fun j d => by unfold arg; rw [hs j]
  simp only [fns, List.mem_cons, List.not_mem_nil, or_false] at hm
  rcases hm with rfl | rfl | rfl | rfl <;> simp only [fnNode, ha]

theorem inputs_frame {k : Name} {f : Frame Int} (h : inputs.get? k = some (.frame f)) : f = table ∧ (k = "price" ∨ k = "qty") := by
  unfold inputs at h
  rw [Dict.get?_cons] at h
  split at h
  · rename_i e; cases h; exact ⟨rfl, .inl e.symm⟩
  · rw [Dict.get?_cons] at h
    split at h
    · rename_i e; cases h; exact ⟨rfl, .inr e.symm⟩
    · rw [Dict.get?_cons] at h
      split at h
      · cases h
      · cases h

theorem has {k : Name} (h : (graph.get? k).isSome = true) : ∃ n, graph.get? k = some n := Option.isSome_iff_exists.1 h

theorem given {k : Name} (h : k = "price" ∨ k = "qty") : Given graph inputs [] k (.frame table) := by
  rcases h with rfl | rfl
  · exact ⟨(graph.get? "price").get (by decide +kernel), (Option.some_get _).symm, .inr ⟨rfl, by decide +kernel, rfl⟩⟩
  · exact ⟨(graph.get? "qty").get (by decide +kernel), (Option.some_get _).symm, .inr ⟨rfl, by decide +kernel, rfl⟩⟩

theorem oneTable : OneTable table graph inputs [] where
  nodup := by decide
  cells := by
    intro r hr k hk
    simp only [table, List.mem_cons, List.not_mem_nil, or_false] at hr hk
    rcases hr with rfl | rfl <;> rcases hk with rfl | rfl | rfl <;> exact ⟨_, rfl⟩
  frames := by
    rintro k f ⟨n, _, h | ⟨_, _, h⟩⟩
    · cases h
    · obtain ⟨rfl, rfl | rfl⟩ := inputs_frame h <;> exact ⟨rfl, by decide⟩
  columns := by
    intro k hk n hn
    simp only [table, List.mem_cons, List.not_mem_nil, or_false] at hk
    rcases hk with rfl | rfl | rfl
    · exact ⟨_, given (.inl rfl)⟩
    · exfalso
      have : (graph.get? "shop").isNone = true := by decide +kernel
      rw [hn] at this; cases this
    · exact ⟨_, given (.inr rfl)⟩

/-- The value of `taxed` in the first row. -/
theorem den_taxed : Den graph (atRow (-1) (mkRow [("price", 10), ("shop", 1), ("qty", 3)]) inputs) (atRow (-1) (mkRow [("price", 10), ("shop", 1), ("qty", 3)]) [])
    "taxed" 57 := by
  have input : ∀ {k : Name} {v : Int}, (graph.get? k).any (fun n => n.kind == .external) = true →
      (atRow (-1) (mkRow [("price", 10), ("shop", 1), ("qty", 3)]) inputs).get? k = some v →
      Den graph (atRow (-1) (mkRow [("price", 10), ("shop", 1), ("qty", 3)]) inputs) (atRow (-1) (mkRow [("price", 10), ("shop", 1), ("qty", 3)]) []) k v := by
    intro k v h1 h2
    cases hg : graph.get? k with
    | none => rw [hg] at h1; cases h1
    | some n =>
      rw [hg, Option.any_some] at h1
      exact .input hg rfl (by simpa using h1) h2
  have h0 : graph.get? "taxed" = some ((graph.get? "taxed").get (by decide +kernel)) := (Option.some_get _).symm
  have h1 : graph.get? "total" = some ((graph.get? "total").get (by decide +kernel)) := (Option.some_get _).symm
  have h2 : graph.get? "scaled" = some ((graph.get? "scaled").get (by decide +kernel)) := (Option.some_get _).symm
  have h3 : graph.get? "bonus" = some ((graph.get? "bonus").get (by decide +kernel)) := (Option.some_get _).symm
  refine .call (fun d => Dict.get? [("scaled", 20), ("total", 30)] d) h0 rfl (by decide +kernel) ?_ ?_ rfl
  · intro d v _ hd
    rw [Dict.get?_cons] at hd
    split at hd
    · rename_i e; cases e; cases hd
      refine .call (fun d => Dict.get? [("rate", 2)] d) h2 rfl (by decide +kernel) ?_ ?_ rfl
      · intro d v _ hd
        rw [Dict.get?_cons] at hd
        split at hd
        · rename_i e; cases e; cases hd; exact input (by decide +kernel) rfl
        · cases hd
      · intro d ty hd hn
        have : ((graph.get? "scaled").get (by decide +kernel)).inputTypes = [("rate", "int", .required)] := rfl
        rw [this, List.mem_singleton] at hd
        cases hd; cases hn
    · rw [Dict.get?_cons] at hd
      split at hd
      · rename_i e; cases e; cases hd
        refine .call (fun d => Dict.get? [("price", 10), ("qty", 3)] d) h1 rfl (by decide +kernel) ?_ ?_ rfl
        · intro d v _ hd
          rw [Dict.get?_cons] at hd
          split at hd
          · rename_i e; cases e; cases hd; exact input (by decide +kernel) rfl
          · rw [Dict.get?_cons] at hd
            split at hd
            · rename_i e; cases e; cases hd; exact input (by decide +kernel) rfl
            · cases hd
        · intro d ty hd hn
          have : ((graph.get? "total").get (by decide +kernel)).inputTypes = [("price", "int", .required), ("qty", "int", .required)] := rfl
          rw [this] at hd
          simp only [List.mem_cons, List.not_mem_nil, or_false] at hd
          rcases hd with hd | hd <;> cases hd <;> cases hn
      · cases hd
  · intro d ty hd hn
    have : ((graph.get? "taxed").get (by decide +kernel)).inputTypes =
        [("scaled", "int", .required), ("total", "int", .required), ("bonus", "int", .optional)] := rfl
    rw [this] at hd
    simp only [List.mem_cons, List.not_mem_nil, or_false] at hd
    rcases hd with hd | hd | hd
    · cases hd; cases hn
    · cases hd; cases hn
    · cases hd; exact ⟨rfl, _, h3, by decide +kernel, rfl, rfl⟩

theorem all_int {k : Name} {n : Node String Int} (h : graph.get? k = some n) (hk : n.kind ≠ .external) :
    (∀ d t, (d, t, DepType.required) ∈ n.inputTypes → t = "int") ∧ n.typ = "int" := by
  have hall : graph.all (fun p => p.2.kind == .external || (p.2.typ == "int" && p.2.inputTypes.all (fun q => q.2.1 == "int"))) = true := by
    decide +kernel
  have h1 := List.all_eq_true.1 hall _ (Dict.get?_mem h)
  have h2 : (n.kind == .external) = false := by simpa using hk
  simp only [h2, Bool.false_or, Bool.and_eq_true, List.all_eq_true] at h1
  exact ⟨fun d t hd => by simpa using h1.2 _ hd, by simpa using h1.1⟩

theorem inSpark_taxed : InSpark graph inputs [] "taxed" :=
  .fn (n := (graph.get? "taxed").get (by decide +kernel)) (d := "total") (Option.some_get _).symm rfl (by decide +kernel) (by decide +kernel)
    (.fn (n := (graph.get? "total").get (by decide +kernel)) (d := "price") (Option.some_get _).symm rfl (by decide +kernel) (by decide +kernel)
      (.given (given (.inl rfl))))

/-- `C79_complete_partial` applies, then `C79_rows_partial`: the value in the first row. -/
example : ∃ res t', run graph inputs ["taxed"] ⟨none, []⟩ = (.ok res, t') ∧ res.columns = ["price", "shop", "qty", "taxed"] ∧
    ∃ row', res.rows[0]? = some row' ∧ row'.get? "taxed" = some (.ok 57) := by
  obtain ⟨res, t', h⟩ := C79_complete_partial (o := kinds) (null := -1) (config := []) (inputs := inputs) (overrides := [])
    (finalVars := ["taxed"]) (t := ⟨none, []⟩) wf unordered oneTable (by simp [Dict.keys])
    (row := mkRow [("price", 10), ("shop", 1), ("qty", 3)]) rfl
    (by intro k hk; rw [List.mem_singleton] at hk; subst hk; exact .inl ⟨_, den_taxed⟩)
    ⟨"taxed", List.mem_singleton.2 rfl, (graph.get? "taxed").get (by decide +kernel), (Option.some_get _).symm, by decide +kernel, rfl, inSpark_taxed⟩
    (by
      intro k n hn hk _ _
      refine .inl ⟨fun d t hd _ => ?_, ?_⟩
      · rw [(all_int hn hk).1 d t hd]; decide
      · rw [(all_int hn hk).2]; decide)
    rfl
  have hr := C79_rows_partial wf unordered oneTable
    (by intro k hk; rw [List.mem_singleton] at hk; subst hk; exact Dict.mem_keys_iff.2 (has (by decide +kernel))) rfl h
  refine ⟨res, t', h, hr.2.2.2.1 (by simp), ?_⟩
  obtain ⟨row', h1, _, h2⟩ := hr.2.2.2.2.2 0 (mkRow [("price", 10), ("shop", 1), ("qty", 3)]) rfl
  refine ⟨row', h1, ?_⟩
  obtain ⟨c, h3, h4⟩ := (h2 "taxed" (by simp)).2 (fun ha => ha.not_den den_taxed)
  rw [h3, (h4 57).2 den_taxed]

/-- Another table. -/
def other : Frame Int := ⟨["price", "qty"], [mkRow [("price", 1), ("qty", 1)]]⟩

/-- Functions with a type that has no counterpart in Spark. -/
def badFns : List (Node String Int) := fns ++ [fnNode "note" [("total", "int", .required)] "object" (fun _ => .ok 0)]

/-- **C79 is violated** after an execution that failed: the adapter keeps the table, and the next execution, with other inputs, gives
the rows and values of that table. -/
theorem C79_violated_after_failure :
    (run (graphOf badFns) inputs ["note"] ⟨none, []⟩).1.isOk = false ∧
    (view (run graph [("price", .frame other), ("qty", .frame other)] ["ratio"] (run (graphOf badFns) inputs ["note"] ⟨none, []⟩).2) = .inr
      (["price", "shop", "qty", "ratio"],
        [[("price", some 10), ("shop", some 1), ("qty", some 3), ("ratio", some 3)],
         [("price", some 20), ("shop", some 2), ("qty", some 0), ("ratio", none)]])) := by
  decide +kernel

/-- A table with a column `scaled`. -/
def withRate : Frame Int :=
  ⟨["price", "qty", "scaled"], [mkRow [("price", 10), ("qty", 3), ("scaled", 500)]]⟩

/-- **C79 is violated** by a table with a column that is named like a value computed on the driver: `scaled` is 20, but `taxed` is
computed with the column. -/
theorem C79_violated_scalar_column :
    view (run graph [("price", .frame withRate), ("qty", .frame withRate), ("rate", .scalar 2)] ["taxed"] ⟨none, []⟩) = .inr
      (["price", "qty", "scaled", "taxed"], [[("price", some 10), ("qty", some 3), ("scaled", some 500), ("taxed", some 537)]]) ∧
    (∀ kw : Dict Name Int, kw.get? "rate" = some 2 → ((graph.get? "scaled").map (fun n => (n.fn kw).toOption)) = some (some 20)) := by
  refine ⟨by decide +kernel, fun kw h => ?_⟩
  have : (graph.get? "scaled").map (fun n => n.fn) = some (fun kw => .ok (arg kw "rate" 0 * 10)) := rfl
  obtain ⟨n, h1, h2⟩ := Option.map_eq_some_iff.1 this
  rw [h1, Option.map_some, h2]
  simp [arg, h, Except.toOption]

/-- **C79 is violated** when two tables are given: `qty` is taken from the table that came first. -/
theorem C79_violated_two_tables :
    view (run graph [("price", .frame other), ("qty", .frame table)] ["total"] ⟨none, []⟩) = .inr
      (["price", "qty", "total"], [[("price", some 1), ("qty", some 1), ("total", some 1)]]) := by
  decide +kernel

/-- **C79 is violated** when all outputs are computed on the driver, or are inputs: there is no result. -/
theorem C79_violated_driver_side :
    view (run graph inputs ["scaled"] ⟨none, []⟩) = .inl "AttributeError" ∧
    view (run graph inputs ["price"] ⟨none, []⟩) = .inl "AttributeError" :=
  ⟨by decide +kernel, by decide +kernel⟩

/-- A table that has a column `ratio` already. -/
def withRatio : Frame Int := ⟨["price", "qty", "ratio"], [mkRow [("price", 10), ("qty", 3), ("ratio", 99)]]⟩

/-- **C79 is violated** by a function that is named like a column: it is refused if it is the first one that Spark runs, else it replaces
the column of the table. -/
theorem C79_violated_replaced :
    view (run graph [("price", .frame withRatio), ("qty", .frame withRatio)] ["ratio"] ⟨none, []⟩) = .inl "ValueError" ∧
    view (run graph [("price", .frame withRatio), ("qty", .frame withRatio)] ["total", "ratio"] ⟨none, []⟩) = .inr
      (["price", "qty", "ratio", "total"], [[("price", some 10), ("qty", some 3), ("ratio", some 3), ("total", some 30)]]) :=
  ⟨by decide +kernel, by decide +kernel⟩

end SparkSample
end Verif.Spark
