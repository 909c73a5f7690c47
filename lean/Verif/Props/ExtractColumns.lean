import Verif.Model.ExtractColumns
import Verif.Props.Decorators

/-!
C71: `@extract_columns`.  C72: `@parameterize_extract_columns`.
-/
namespace Verif
variable {T V : Type} {g : Graph T V} {inputs overrides : Dict Name V} {fops : FrameOps V} {ops : PyOps V} {colT : T}

/-! ### C71 -/

theorem fillColumns_spec {f : V} : ∀ (names : List Name) (d : Frame V), d.lib = .inPlace →
    ∃ d', fillColumns fops f (names.map .name) d = .ok d' ∧ d'.lib = .inPlace ∧ d'.height = d.height ∧
      d.columns <+: d'.columns ∧
      ∀ k, d'.columns.get? k = match d.columns.get? k with
        | some x => some x
        | none => if ∃ c ∈ names, k = .str c then some (fops.repeated d.height f) else none := by
  intro names
  induction names with
  | nil =>
    intro d hd
    refine ⟨d, rfl, hd, rfl, List.prefix_refl _, fun k => ?_⟩
    cases d.columns.get? k <;> simp
  | cons c cs ih =>
    intro d hd
    by_cases hh : d.columns.has (.str c) = true
    · obtain ⟨d', h1, h2, h3, h4, h5⟩ := ih d hd
      refine ⟨d', ?_, h2, h3, h4, ?_⟩
      · simp only [List.map_cons, fillColumns, ColumnArg.label, hh, if_true]; exact h1
      · intro k
        rw [h5 k]
        cases hk : d.columns.get? k with
        | some x => rfl
        | none =>
          have : k ≠ .str c := by
            rintro rfl
            rw [Dict.has, hk] at hh; cases hh
          simp [this]
    · have hnone : d.columns.get? (.str c) = none := by
        rw [Dict.has] at hh
        cases hg : d.columns.get? (.str c) with
        | none => rfl
        | some x => rw [hg] at hh; exact absurd rfl hh
      obtain ⟨d', h1, h2, h3, h4, h5⟩ := ih { d with columns := d.columns.set (.str c) (fops.repeated d.height f) } hd
      have hset : d.columns.set (.str c) (fops.repeated d.height f) = d.columns ++ [(.str c, fops.repeated d.height f)] := by
        have hno := (Dict.get?_eq_none_iff _ _).1 hnone
        clear h1 h2 h3 h4 h5 hnone hh
        generalize d.columns = l at *
        induction l with
        | nil => rfl
        | cons p t iht =>
          obtain ⟨a, b⟩ := p
          simp only [Dict.keys, List.map_cons, List.mem_cons, not_or] at hno
          simp only [Dict.set, if_neg (Ne.symm hno.1), List.cons_append]
          rw [iht hno.2]
      refine ⟨d', ?_, h2, h3, ?_, ?_⟩
      · simp only [hd] at h1
        simp only [List.map_cons, fillColumns, ColumnArg.label, if_neg hh, hd]
        exact h1
      · refine List.IsPrefix.trans ?_ h4
        simp only [hset]
        exact List.prefix_append _ _
      · intro k
        rw [h5 k]
        simp only [Dict.get?_set]
        by_cases hk : Label.str c = k
        · subst hk
          simp [hnone]
        · rw [if_neg hk]
          cases d.columns.get? k with
          | some x => rfl
          | none => simp [Ne.symm hk]

/-- **C71, the dataframe (partial).**  In a graph containing the nodes of an `@extract_columns`, without a fill value the node of
the function has the value of the undecorated function, whatever it is.  With a fill value, and a dataframe of a library that
adds columns in place as the function's value, it is that dataframe with exactly the missing columns added at the end, each
repeating the fill value.  Missing: columns given with documentation (`C71_violated_documented`) and polars
(`C71_violated_polars`). -/
theorem C71_frame_partial (hl : fops.Lawful) {args : List ColumnArg} {fill : Option V} {n : Node T V} {nodes : List (Node T V)}
    (hk : n.kind ≠ .external) (hn : extractColumns fops colT args fill n = .ok nodes) (hdef : ∀ m ∈ nodes, Defines g m)
    (hov : overrides.get? n.name = none) :
    (fill = none → ∀ v, Den g inputs overrides n.name v ↔ FnValue g inputs overrides n v) ∧
    (∀ f (names : List Name), fill = some f → args = names.map .name → ∀ v d, FnValue g inputs overrides n v → fops.asFrame v = some d →
      d.lib = .inPlace →
      ∃ v' d', Den g inputs overrides n.name v' ∧ fops.asFrame v' = some d' ∧ d'.height = d.height ∧
        d.columns <+: d'.columns ∧
        ∀ k, d'.columns.get? k = match d.columns.get? k with
          | some x => some x
          | none => if ∃ c ∈ names, k = .str c then some (fops.repeated d.height f) else none) ∧
    (∀ v', Den g inputs overrides n.name v' → ∃ v, FnValue g inputs overrides n v) := by
  unfold extractColumns at hn
  split at hn
  · cases hn
  cases hn
  have hd : Defines g { n with fn := dfGenerator fops n.fn args fill } := hdef _ List.mem_cons_self
  have key := fun v => den_iff_fnValue (inputs := inputs) (overrides := overrides) hd hk hov v
  refine ⟨?_, ?_, ?_⟩
  · rintro rfl v
    rw [show n.name = ({ n with fn := dfGenerator fops n.fn args none } : Node T V).name from rfl, key v]
    constructor
    · rintro ⟨kw, ha, hv⟩
      refine ⟨kw, ha, ?_⟩
      simp only [dfGenerator] at hv
      cases hfn : n.fn kw with
      | error e => rw [hfn] at hv; cases hv
      | ok w => rw [hfn] at hv; exact hv
    · rintro ⟨kw, ha, hv⟩
      exact ⟨kw, ha, by simp only [dfGenerator, hv]⟩
  · rintro f names rfl rfl v d ⟨kw, ha, hv⟩ hfr hlib
    obtain ⟨d', h1, h2, h3, h4, h5⟩ := fillColumns_spec (fops := fops) (f := f) names d hlib
    refine ⟨fops.mkFrame d', d', (key _).2 ⟨kw, ha, ?_⟩, hl.frame d', h3, h4, h5⟩
    simp only [dfGenerator, hv, hfr, h1]
  · intro v' hv'
    obtain ⟨kw, ha, hv⟩ := (key v').1 hv'
    simp only [dfGenerator] at hv
    cases hfn : n.fn kw with
    | error e => rw [hfn] at hv; cases hv
    | ok w => exact ⟨w, kw, ha, hfn⟩

/-- What an extractor node is worth. -/
theorem extractedColumn_value {n : Node T V} (hname : n.name ≠ "column_to_extract") {c : Name}
    (hdm : Defines g (extractedColumn fops colT n c)) (hov : overrides.get? c = none) {v : V} {d : Frame V}
    (hv : Den g inputs overrides n.name v) (hd : fops.asFrame v = some d) :
    (∀ w, Den g inputs overrides c w ↔ d.columns.get? (.str c) = some w) ∧
    (d.columns.get? (.str c) = none → ∃ m, g.get? c = some m ∧ (∃ kw, RightArgs g inputs overrides m kw) ∧
      ∀ kw, RightArgs g inputs overrides m kw → m.fn kw = .error "InvalidDecoratorException") := by
  have hfound : ∀ x, d.columns.get? (.str c) = some x → columnExtractor fops n.name c [(n.name, v)] = .ok x := by
    intro x hx
    simp [columnExtractor, hname, Dict.get?_cons, hd, hx]
  have hnone : d.columns.get? (.str c) = none →
      columnExtractor fops n.name c [(n.name, v)] = .error "InvalidDecoratorException" := by
    intro hx
    simp [columnExtractor, hname, Dict.get?_cons, hd, hx]
  constructor
  · intro w
    rw [show c = (extractedColumn fops colT n c).name from rfl,
      den_iff_fnValue hdm (by simp [extractedColumn]) hov w]
    constructor
    · rintro ⟨kw, ha, hw⟩
      obtain ⟨v', hv', rfl⟩ := (rightArgs_single (n := extractedColumn fops colT n c) rfl kw).1 ha
      have := hv.det hv'
      subst this
      have hw : columnExtractor fops n.name c [(n.name, v)] = .ok w := hw
      cases hg : d.columns.get? (.str c) with
      | none => rw [hnone hg] at hw; cases hw
      | some x => rw [hfound x hg] at hw; cases hw; exact hg
    · intro hg
      refine ⟨[(n.name, v)], (rightArgs_single (n := extractedColumn fops colT n c) rfl _).2 ⟨v, hv, rfl⟩, ?_⟩
      exact hfound w hg
  · intro hg
    obtain ⟨m', hm', hs⟩ := hdm
    refine ⟨m', hm', ⟨[(n.name, v)], (rightArgs_single (n := m') (by rw [hs.inputTypes]; rfl) _).2 ⟨v, hv, rfl⟩⟩, ?_⟩
    intro kw ha
    rw [hs.fn]
    obtain ⟨v', hv', rfl⟩ := (rightArgs_single (n := m') (by rw [hs.inputTypes]; rfl) kw).1 ha
    have := hv.det hv'
    subst this
    exact hnone hg

/-- **C71, the columns (partial).**  In a graph containing the nodes of an `@extract_columns`, the node of a column (given with or
without documentation) has exactly the value of the column of that name in the dataframe; if there is none, the node's function
raises.  Missing: a function called `column_to_extract` (`C71_violated_name`). -/
theorem C71_column_partial {args : List ColumnArg} {fill : Option V} {n : Node T V} {nodes : List (Node T V)}
    (hn : extractColumns fops colT args fill n = .ok nodes) (hdef : ∀ m ∈ nodes, Defines g m)
    (hname : n.name ≠ "column_to_extract") {c : Name} (hc : .name c ∈ args ∨ ∃ doc, .documented c doc ∈ args)
    (hov : overrides.get? c = none) {v : V} {d : Frame V}
    (hv : Den g inputs overrides n.name v) (hd : fops.asFrame v = some d) :
    (∀ w, Den g inputs overrides c w ↔ d.columns.get? (.str c) = some w) ∧
    (d.columns.get? (.str c) = none → ∃ m, g.get? c = some m ∧ (∃ kw, RightArgs g inputs overrides m kw) ∧
      ∀ kw, RightArgs g inputs overrides m kw → m.fn kw = .error "InvalidDecoratorException") := by
  unfold extractColumns at hn
  split at hn
  · cases hn
  cases hn
  refine extractedColumn_value (colT := colT) hname (hdef _ (List.mem_cons_of_mem _ ?_)) hov hv hd
  rcases hc with hc | ⟨doc, hc⟩
  · exact List.mem_map.2 ⟨_, hc, rfl⟩
  · exact List.mem_map.2 ⟨_, hc, rfl⟩

/-- **C71, what is generated.**  The decorator is refused iff no column is given; otherwise it generates the node of the function
and one node per column, in order. -/
theorem C71_nodes {args : List ColumnArg} {fill : Option V} {n : Node T V} :
    ((∃ nodes, extractColumns fops colT args fill n = .ok nodes) ↔ args ≠ []) ∧
    ∀ nodes, extractColumns fops colT args fill n = .ok nodes →
      AllPairs (fun (a : Option ColumnArg) (m : Node T V) => match a with
        | none => m.name = n.name ∧ m.typ = n.typ ∧ m.inputTypes = n.inputTypes
        | some (.name c) => m.name = c ∧ m.typ = colT ∧ m.inputTypes = [(n.name, (n.typ, .required))]
        | some (.documented c _) => m.name = c ∧ m.typ = colT ∧ m.inputTypes = [(n.name, (n.typ, .required))])
        (none :: args.map some) nodes := by
  constructor
  · cases args with
    | nil => simp [extractColumns]
    | cons a as => simp [extractColumns]
  · intro nodes hn
    unfold extractColumns at hn
    split at hn
    · cases hn
    cases hn
    rename_i hne
    clear hne
    refine .cons ⟨rfl, rfl, rfl⟩ ?_
    induction args with
    | nil => exact .nil
    | cons a as ih => exact .cons (by cases a <;> exact ⟨rfl, rfl, rfl⟩) ih

/-! ### C72 -/

/-- `d'` is `d` with its columns called `outputs`, in order. -/
structure RenamedTo (outputs : List Name) (d d' : Frame V) : Prop where
  lib : d'.lib = d.lib
  height : d'.height = d.height
  labels : d'.columns.map (·.1) = outputs.map .str
  data : d'.columns.map (·.2) = d.columns.map (·.2)

theorem RenamedTo.length {outputs : List Name} {d d' : Frame V} (h : RenamedTo outputs d d') :
    d.columns.length = outputs.length := by
  have h1 := congrArg List.length h.labels
  have h2 := congrArg List.length h.data
  simp only [List.length_map] at h1 h2
  omega

theorem RenamedTo.eq {outputs : List Name} {d d' : Frame V} (h : RenamedTo outputs d d') :
    d' = { d with columns := (outputs.map Label.str).zip (d.columns.map (·.2)) } := by
  obtain ⟨l, k, cs⟩ := d'
  obtain ⟨h1, h2, h3, h4⟩ := h
  simp only at h1 h2 h3 h4
  subst h1 h2
  congr 1
  rw [← h3, ← h4]
  clear h3 h4
  induction cs with
  | nil => rfl
  | cons p t ih => simp only [List.map_cons, List.zip_cons_cons]; rw [← ih]

theorem renamedTo_zip {outputs : List Name} {d : Frame V} (h : d.columns.length = outputs.length) :
    RenamedTo outputs d { d with columns := (outputs.map Label.str).zip (d.columns.map (·.2)) } where
  lib := rfl
  height := rfl
  labels := List.map_fst_zip (by simp [h])
  data := List.map_snd_zip (by simp [h])

theorem wrapperFn_ok {raw : Dict Name V → Except UserErr V} {outputs : List Name} {kw : Dict Name V} {v : V} :
    wrapperFn fops raw outputs kw = .ok v ↔
      ∃ w d d', raw kw = .ok w ∧ fops.asFrame w = some d ∧ RenamedTo outputs d d' ∧ v = fops.mkFrame d' := by
  unfold wrapperFn
  cases hr : raw kw with
  | error e => simp
  | ok w =>
    simp only
    cases hf : fops.asFrame w with
    | none => simp [hf]
    | some d =>
      simp only
      constructor
      · intro h
        split at h
        · rename_i hlen
          cases h
          exact ⟨w, d, _, rfl, hf, renamedTo_zip hlen, rfl⟩
        · cases h
      · rintro ⟨w', e, d', h1, h2, h3, rfl⟩
        cases h1
        rw [hf] at h2
        cases h2
        rw [if_pos h3.length, h3.eq]

/-- The nodes generated for the extract number `i`. -/
theorem parameterizeExtract_mem {comp : T → T} {raw : Dict Name V → Except UserErr V} {reassign : Bool} {n : Node T V} :
    ∀ (ps : List (ParameterizedExtract V)) (j : Nat) (nodes : List (Node T V)),
    parameterizeExtract fops ops comp colT raw reassign n j ps = .ok nodes →
    ∀ i p, ps[i]? = some p → ∃ ms,
      extractColumns fops colT (p.outputs.map .name) none
        (paramNode ops comp { n with fn := wrapperFn fops raw p.outputs } (some (n.name ++ "__" ++ toString (j + i)), p.mapping)) = .ok ms ∧
      ∀ m ∈ ms, m ∈ nodes := by
  intro ps
  induction ps with
  | nil => intro j nodes _ i p hp; simp at hp
  | cons q ps ih =>
    intro j nodes h i p hp
    simp only [parameterizeExtract, parameterize, List.map_cons, List.map_nil] at h
    cases hm : extractColumns fops colT (q.outputs.map .name) none
        (paramNode ops comp { n with fn := wrapperFn fops raw q.outputs } (some (n.name ++ "__" ++ toString j), q.mapping)) with
    | error e => simp only [paramNode] at hm; rw [hm] at h; cases h
    | ok ms =>
      have hm' := hm
      simp only [paramNode] at hm'
      simp only [hm'] at h
      cases hr : parameterizeExtract fops ops comp colT raw reassign n (j + 1) ps with
      | error e => rw [hr] at h; cases h
      | ok rest =>
        rw [hr] at h
        cases h
        cases i with
        | zero =>
          simp only [List.getElem?_cons_zero, Option.some.injEq] at hp
          subst hp
          exact ⟨ms, hm, fun m hm => List.mem_append_left _ hm⟩
        | succ i =>
          rw [List.getElem?_cons_succ] at hp
          obtain ⟨ms', h1, h2⟩ := ih (j + 1) rest hr i p hp
          refine ⟨ms', ?_, fun m hm => List.mem_append_right _ (h2 m hm)⟩
          rw [← h1, show j + 1 + i = j + (i + 1) by omega]

theorem dfGenerator_none {fn : Dict Name V → Except UserErr V} {args : List ColumnArg} : dfGenerator fops fn args none = fn := by
  funext kw
  unfold dfGenerator
  cases fn kw <;> rfl

/-- No node of an extract has the reserved name. -/
theorem numbered_ne (a : String) (i : Nat) : a ++ "__" ++ toString i ≠ "column_to_extract" := by
  intro h
  have h := congrArg String.toList h
  simp only [String.toList_append, List.append_assoc] at h
  have h2 : (("column_to_extract".toList.drop a.toList.length).take 2) = ['_', '_'] := by
    rw [← h, List.drop_left]
    rfl
  have hle : a.toList.length ≤ 17 := by
    have := congrArg List.length h
    simp only [List.length_append] at this
    have h17 : "column_to_extract".toList.length = 17 := by decide
    omega
  have : ∀ k ≤ 17, (("column_to_extract".toList.drop k).take 2) ≠ ['_', '_'] := by decide
  exact this _ hle h2

/-- A column of a dataframe by name and by position. -/
theorem renamed_get : ∀ (outputs : List Name) (cols : Dict Label V), outputs.Nodup → cols.map (·.1) = outputs.map .str →
    ∀ (j : Nat) (c : Name), outputs[j]? = some c → cols.get? (.str c) = (cols.map (·.2))[j]? := by
  intro outputs
  induction outputs with
  | nil => intro cols _ _ j c hj; simp at hj
  | cons o os ih =>
    intro cols hn hl j c hj
    cases cols with
    | nil => cases hl
    | cons p t =>
      obtain ⟨a, b⟩ := p
      simp only [List.map_cons, List.cons.injEq] at hl
      obtain ⟨rfl, hl⟩ := hl
      cases j with
      | zero =>
        simp only [List.getElem?_cons_zero, Option.some.injEq] at hj
        subst hj
        simp [Dict.get?_cons]
      | succ j =>
        rw [List.getElem?_cons_succ] at hj
        have hne : o ≠ c := by
          rintro rfl
          exact (List.nodup_cons.1 hn).1 (List.mem_of_getElem? hj)
        simp only [Dict.get?_cons, Label.str.injEq, if_neg hne, List.map_cons, List.getElem?_cons_succ]
        exact ih t (List.nodup_cons.1 hn).2 hl j c hj

section Extract
variable {comp : T → T} {n : Node T V} {ps : List (ParameterizedExtract V)} {nodes : List (Node T V)}

/-- The nodes of the extract number `i` are in the graph. -/
theorem extract_defines {raw : Dict Name V → Except UserErr V} {reassign : Bool}
    (hn : parameterizeExtract fops ops comp colT raw reassign n 0 ps = .ok nodes)
    (hdef : ∀ m ∈ nodes, Defines g m) {i : Nat} {p : ParameterizedExtract V} (hp : ps[i]? = some p) :
    Defines g (paramNode ops comp { n with fn := wrapperFn fops raw p.outputs } (some (n.name ++ "__" ++ toString i), p.mapping)) ∧
    ∀ c ∈ p.outputs, Defines g (extractedColumn fops colT
      (paramNode ops comp { n with fn := wrapperFn fops raw p.outputs } (some (n.name ++ "__" ++ toString i), p.mapping)) c) := by
  obtain ⟨ms, h1, h2⟩ := parameterizeExtract_mem ps 0 nodes hn i p hp
  rw [Nat.zero_add] at h1
  unfold extractColumns at h1
  split at h1
  · cases h1
  cases h1
  constructor
  · have := hdef _ (h2 _ List.mem_cons_self)
    rw [dfGenerator_none] at this
    exact this
  · intro c hc
    refine hdef _ (h2 _ (List.mem_cons_of_mem _ ?_))
    exact List.mem_map.2 ⟨.name c, List.mem_map.2 ⟨c, hc, rfl⟩, rfl⟩

theorem parameterizeExtract_nodes {raw : Dict Name V → Except UserErr V} {reassign : Bool} :
    ∀ (ps : List (ParameterizedExtract V)) (i : Nat),
      ((∃ nodes, parameterizeExtract fops ops comp colT raw reassign n i ps = .ok nodes) ↔ ∀ p ∈ ps, p.outputs ≠ []) ∧
      ∀ nodes, parameterizeExtract fops ops comp colT raw reassign n i ps = .ok nodes →
        nodes.map (·.name) = (ps.zipIdx i).flatMap (fun q => (n.name ++ "__" ++ toString q.2) :: q.1.outputs) := by
  intro ps
  induction ps with
  | nil => intro i; exact ⟨⟨fun _ _ h => (by cases h), fun _ => ⟨_, rfl⟩⟩, fun _ h => by cases h; rfl⟩
  | cons p ps ih =>
    intro i
    obtain ⟨ih1, ih2⟩ := ih (i + 1)
    simp only [parameterizeExtract, parameterize, List.map_cons, List.map_nil]
    by_cases ho : p.outputs = []
    · simp [extractColumns, ho]
    · have hne : (p.outputs.map ColumnArg.name).isEmpty = false := by
        cases hp : p.outputs with
        | nil => exact absurd hp ho
        | cons _ _ => rfl
      simp only [extractColumns, hne, Bool.false_eq_true, if_false]
      cases hr : parameterizeExtract fops ops comp colT raw reassign n (i + 1) ps with
      | error e =>
        rw [hr] at ih1
        refine ⟨⟨(by rintro ⟨_, h⟩; cases h), fun h => ?_⟩, fun _ h => by cases h⟩
        obtain ⟨_, h⟩ := ih1.2 (fun q hq => h q (List.mem_cons_of_mem _ hq))
        cases h
      | ok rest =>
        rw [hr] at ih1
        refine ⟨⟨fun _ => ?_, fun _ => ⟨_, rfl⟩⟩, ?_⟩
        · intro q hq
          rcases List.mem_cons.1 hq with rfl | hq
          · exact ho
          · exact ih1.1 ⟨_, rfl⟩ q hq
        · intro nodes h
          cases h
          rw [List.map_append, ih2 rest hr, List.zipIdx_cons, List.flatMap_cons]
          simp only [List.map_cons, List.map_map]
          have hcols : ∀ l : List Name, List.map ((fun x : Node T V => x.name) ∘ (fun a : ColumnArg => extractedColumn fops colT
              (paramNode ops comp { n with fn := wrapperFn fops raw p.outputs }
                (some (n.name ++ "__" ++ toString i), p.mapping)) a.column) ∘ ColumnArg.name) l = l := by
            intro l
            induction l with
            | nil => rfl
            | cons a l ih => rw [List.map_cons, ih]; rfl
          exact congrArg (fun l : List Name => ((n.name ++ "__" ++ toString i) :: l) ++ _) (hcols p.outputs)

/-- **C72, the nodes.**  `@parameterize_extract_columns` accepts exactly the extracts that have outputs, and generates exactly the
nodes `function__0`, its outputs, `function__1`, its outputs and so on. -/
theorem C72_nodes {raw : Dict Name V → Except UserErr V} {reassign : Bool} :
    ((∃ nodes, parameterizeExtract fops ops comp colT raw reassign n 0 ps = .ok nodes) ↔ ∀ p ∈ ps, p.outputs ≠ []) ∧
    ∀ nodes, parameterizeExtract fops ops comp colT raw reassign n 0 ps = .ok nodes →
      nodes.map (·.name) = ps.zipIdx.flatMap (fun q => (n.name ++ "__" ++ toString q.2) :: q.1.outputs) :=
  parameterizeExtract_nodes ps 0

/-- **C72, the dataframes (partial).**  In a graph containing the nodes of a `@parameterize_extract_columns` on a function, the
node of the `i`-th extract (called `function__i`) has as value exactly the dataframe the function returns on the arguments the
extract asks for (literals, values of sources, ...), its columns called as the extract says, in order; there is no value if the
number of columns is another.  Missing: `reassign_columns=False` (`C72_violated_reassign`), functions whose body is replaced by
`@does` (`C72_violated_does`), misspelled parameters, which are ignored (`C72_violated_misspelled`), and sources that are
optional inputs and not supplied. -/
theorem C72_frame_partial (hn : parameterizeExtract fops ops comp colT n.fn true n 0 ps = .ok nodes) (hk : n.kind ≠ .external)
    (hnd : n.inputTypes.keys.Nodup) (hdef : ∀ m ∈ nodes, Defines g m) {i : Nat} {p : ParameterizedExtract V}
    (hp : ps[i]? = some p) (hov : overrides.get? (n.name ++ "__" ++ toString i) = none)
    (hsrc : ∀ s, UsedSource p.mapping n s → ¬ Absent g inputs overrides s) (v : V) :
    Den g inputs overrides (n.name ++ "__" ++ toString i) v ↔
      ∃ kw w d d', SpecArgs ops g inputs overrides p.mapping n kw ∧ n.fn kw = .ok w ∧ fops.asFrame w = some d ∧
        RenamedTo p.outputs d d' ∧ v = fops.mkFrame d' := by
  obtain ⟨h1, -⟩ := extract_defines hn hdef hp
  have key := C39_partial (ops := ops) (comp := comp) (n := { n with fn := wrapperFn fops n.fn p.outputs })
    (spec := p.mapping) (specs := [(some (n.name ++ "__" ++ toString i), p.mapping)]) (out := some (n.name ++ "__" ++ toString i))
    (g := g) (inputs := inputs) (overrides := overrides) hk hnd
    (by intro m hm; simp only [parameterize, List.map_cons, List.map_nil, List.mem_singleton] at hm; subst hm; exact h1)
    List.mem_cons_self hov hsrc v
  simp only [Option.getD_some] at key
  rw [key]
  constructor
  · rintro ⟨kw, hs, hv⟩
    obtain ⟨w, d, d', a1, a2, a3, a4⟩ := wrapperFn_ok.1 hv
    exact ⟨kw, w, d, d', hs, a1, a2, a3, a4⟩
  · rintro ⟨kw, w, d, d', hs, a1, a2, a3, a4⟩
    exact ⟨kw, hs, wrapperFn_ok.2 ⟨w, d, d', a1, a2, a3, a4⟩⟩

/-- **C72, the columns (partial).**  The node called as the `j`-th output of an extract has as value exactly the `j`-th column of
the dataframe the function returns on the arguments the extract asks for (provided that it has as many columns as outputs were
given).  Missing: as for `C72_frame_partial`. -/
theorem C72_column_partial (hl : fops.Lawful) (hn : parameterizeExtract fops ops comp colT n.fn true n 0 ps = .ok nodes)
    (hk : n.kind ≠ .external) (hnd : n.inputTypes.keys.Nodup) (hdef : ∀ m ∈ nodes, Defines g m) {i : Nat}
    {p : ParameterizedExtract V} (hp : ps[i]? = some p) (hov : overrides.get? (n.name ++ "__" ++ toString i) = none)
    (hsrc : ∀ s, UsedSource p.mapping n s → ¬ Absent g inputs overrides s) (hout : p.outputs.Nodup)
    {j : Nat} {c : Name} (hj : p.outputs[j]? = some c) (hovc : overrides.get? c = none) (w : V) :
    Den g inputs overrides c w ↔
      ∃ kw v d l, SpecArgs ops g inputs overrides p.mapping n kw ∧ n.fn kw = .ok v ∧ fops.asFrame v = some d ∧
        d.columns.length = p.outputs.length ∧ d.columns[j]? = some (l, w) := by
  have hfr := fun v => C72_frame_partial (inputs := inputs) hn hk hnd hdef hp hov hsrc v
  obtain ⟨-, h2⟩ := extract_defines hn hdef hp
  have hdm := h2 c (List.mem_of_getElem? hj)
  have step : ∀ d d' : Frame V, RenamedTo p.outputs d d' →
      (d'.columns.get? (.str c) = some w ↔ ∃ l, d.columns[j]? = some (l, w)) := by
    intro d d' hr
    rw [renamed_get p.outputs d'.columns hout hr.labels j c hj, hr.data, List.getElem?_map]
    cases d.columns[j]? with
    | none => simp
    | some q => obtain ⟨a, b⟩ := q; simp
  constructor
  · intro hw
    obtain ⟨kw, ha, _⟩ := (den_iff_fnValue hdm (by simp [extractedColumn]) hovc w).1 hw
    obtain ⟨v, hv, -⟩ := (rightArgs_single (n := extractedColumn fops colT
      (paramNode ops comp { n with fn := wrapperFn fops n.fn p.outputs } (some (n.name ++ "__" ++ toString i), p.mapping)) c)
      rfl kw).1 ha
    obtain ⟨kw', v0, d, d', a1, a2, a3, a4, rfl⟩ := (hfr v).1 hv
    have := ((extractedColumn_value (numbered_ne _ _) hdm hovc hv (hl.frame d')).1 w).1 hw
    obtain ⟨l, hl'⟩ := (step d d' a4).1 this
    exact ⟨kw', v0, d, l, a1, a2, a3, a4.length, hl'⟩
  · rintro ⟨kw, v, d, l, a1, a2, a3, a4, a5⟩
    have hr := renamedTo_zip (outputs := p.outputs) a4
    have hv := (hfr _).2 ⟨kw, v, d, _, a1, a2, a3, hr, rfl⟩
    exact ((extractedColumn_value (numbered_ne _ _) hdm hovc hv (hl.frame _)).1 w).2 ((step d _ hr).2 ⟨l, a5⟩)

end Extract

/-! ### Examples and counterexamples -/
namespace ExtractSample

/-- Values: integers, columns, dictionaries and dataframes. -/
inductive FV where
  | int (i : Int)
  | list (l : List FV)
  | dict (d : List (String × FV))
  | res (b : Bool)
  | frame (lib : FillKind) (height : Nat) (columns : List (Label × FV))

/-- Sample operations. -/
def pops : PyOps FV where
  mkList := .list
  mkDict := .dict
  asDict := fun v => match v with | .dict d => some d | _ => none
  mkResult := .res
  asResult := fun v => match v with | .res b => some b | _ => none

/-- Sample dataframes. -/
def frames : FrameOps FV where
  asFrame := fun v => match v with | .frame l h c => some ⟨l, h, c⟩ | _ => none
  mkFrame := fun d => .frame d.lib d.height d.columns
  repeated := fun h v => .list (List.replicate h v)

theorem frames_lawful : frames.Lawful := ⟨fun _ => rfl⟩

/-- The integer in a value. -/
def toInt : FV → Option Int
  | .int i => some i
  | _ => none

/-- The integers of a column. -/
def ints : FV → Option (List Int)
  | .list l => some (l.filterMap toInt)
  | .int i => some [i]
  | _ => none

/-- The labels of a dataframe. -/
def labels : FV → Option (List Label)
  | .frame _ _ c => some (c.map (·.1))
  | _ => none

/-- Integer argument with default. -/
def arg (kw : Dict Name FV) (k : Name) (dflt : Int) : Int := ((kw.get? k).bind toInt).getD dflt

/-- A function node. -/
def fnode (name : Name) (params : List (Name × DepType)) (f : Dict Name FV → Except UserErr FV) : Node Unit FV :=
  { name, typ := (), kind := .standard, inputTypes := params.map (fun p => (p.1, ((), p.2))),
    dependencies := [], dependedOnBy := [], fn := f }

/-- Build without configuration. -/
def build (fns : List (Node Unit FV)) : Graph Unit FV :=
  match createFunctionGraph (fun _ _ => true) () [] false fns with
  | .ok g => g
  | .error _ => []

theorem build_eq {fns : List (Node Unit FV)}
    (h : (createFunctionGraph (fun _ _ => true) () ([] : Dict Name FV) false fns).isOk = true) :
    createFunctionGraph (fun _ _ => true) () [] false fns = .ok (build fns) := by
  unfold build
  revert h
  generalize createFunctionGraph (fun _ _ => true) () ([] : Dict Name FV) false fns = r
  intro h
  cases r with
  | ok g => rfl
  | error e => simp [Except.isOk, Except.toBool] at h

/-- Outcome of requesting one node: what is seen of its value, or the error. -/
def run {A : Type} (see : FV → Option A) (fns : List (Node Unit FV)) (inputs : Dict Name FV) (k : Name) : Option A ⊕ Option ExecErr :=
  match (build fns).get? k with
  | none => .inr none
  | some n =>
    match executeSubdag (build fns) [n] inputs [] with
    | .ok s => .inl ((s.computed.get? k).bind see)
    | .err e _ => .inr (some e)

theorem x_den {fns : List (Node Unit FV)} (h : ((build fns).get? "x").map (·.kind) = some .external) (i : Int) :
    Den (build fns) [("x", .int i)] [] "x" (.int i) := by
  cases hx : (build fns).get? "x" with
  | none => rw [hx] at h; cases h
  | some n =>
    rw [hx] at h
    exact .input hx rfl (Option.some.inj h) rfl

/-! `@extract_columns("a", "c", fill_with=9)` on `def f(x): return DataFrame({"a": [x, x], "b": [1, 2]})`. -/

/-- The function. -/
def frameFn (name : Name) (lib : FillKind) : Node Unit FV :=
  fnode name [("x", .required)] (fun kw =>
    .ok (.frame lib 2 [(.str "a", .list [.int (arg kw "x" 0), .int (arg kw "x" 0)]), (.str "b", .list [.int 1, .int 2])]))

/-- Its nodes. -/
def extracted (name : Name) (lib : FillKind) (args : List ColumnArg) (fill : Option FV) : List (Node Unit FV) :=
  match extractColumns frames () args fill (frameFn name lib) with
  | .ok ns => ns
  | .error _ => []

example : run ints (extracted "f" .inPlace [.name "a", .name "c"] (some (.int 9))) [("x", .int 5)] "a" = .inl (some [5, 5]) ∧
    run ints (extracted "f" .inPlace [.name "a", .name "c"] (some (.int 9))) [("x", .int 5)] "c" = .inl (some [9, 9]) ∧
    run labels (extracted "f" .inPlace [.name "a", .name "c"] (some (.int 9))) [("x", .int 5)] "f" =
      .inl (some [.str "a", .str "b", .str "c"]) ∧
    run ints (extracted "f" .copying [.documented "a" "the a"] none) [("x", .int 5)] "a" = .inl (some [5, 5]) ∧
    run ints (extracted "f" .inPlace [.name "a", .name "c"] none) [("x", .int 5)] "c" =
      .inr (some (.raised "c" "InvalidDecoratorException")) := by decide +kernel

/-- The decorated function of the examples. -/
def sampleArgs : List ColumnArg := [.name "a", .name "c"]

theorem sample_fresh : ∀ n ∈ extracted "f" .inPlace sampleArgs (some (.int 9)), Fresh n := by
  intro n hn
  simp only [extracted, extractColumns, sampleArgs, List.isEmpty_cons, Bool.false_eq_true, if_false, List.map_cons, List.map_nil,
    List.mem_cons, List.not_mem_nil, or_false] at hn
  rcases hn with rfl | rfl | rfl <;>
    exact ⟨by simp [frameFn, fnode, extractedColumn, Dict.keys], rfl, rfl, by simp [frameFn, fnode, extractedColumn]⟩

theorem sample_defines : ∀ m ∈ extracted "f" .inPlace sampleArgs (some (.int 9)),
    Defines (build (extracted "f" .inPlace sampleArgs (some (.int 9)))) m :=
  fun _ hm => build_defines sample_fresh (build_eq (by decide +kernel)) hm (by simp [Dict.keys])

theorem frameFn_value {fns : List (Node Unit FV)} (h : ((build fns).get? "x").map (·.kind) = some .external) (name : Name)
    (lib : FillKind) (i : Int) :
    FnValue (build fns) [("x", .int i)] [] (frameFn name lib)
      (.frame lib 2 [(.str "a", .list [.int i, .int i]), (.str "b", .list [.int 1, .int 2])]) :=
  ⟨[("x", .int i)], (rightArgs_single (n := frameFn name lib) (t := ()) rfl _).2 ⟨.int i, x_den h i, rfl⟩, rfl⟩

/-- `C71_frame_partial` and `C71_column_partial`: the missing column is filled. -/
example : ∃ v, Den (build (extracted "f" .inPlace sampleArgs (some (.int 9)))) [("x", .int 5)] [] "f" v ∧
    Den (build (extracted "f" .inPlace sampleArgs (some (.int 9)))) [("x", .int 5)] [] "c" (.list [.int 9, .int 9]) := by
  obtain ⟨v', d', h1, h2, _, _, h3⟩ := (C71_frame_partial (inputs := [("x", .int 5)]) (overrides := []) (colT := ()) frames_lawful
    (n := frameFn "f" .inPlace) (by decide) rfl sample_defines rfl).2.1 _ ["a", "c"] rfl rfl _ _
    (frameFn_value (by decide +kernel) "f" .inPlace 5) rfl rfl
  refine ⟨v', h1, ?_⟩
  refine ((C71_column_partial (fops := frames) (colT := ()) (args := sampleArgs) (fill := some (.int 9)) (n := frameFn "f" .inPlace) rfl sample_defines
    (by decide) (c := "c") (.inl (by decide)) rfl h1 h2).1 _).2 ?_
  rw [h3]
  rfl

/-- **C71 violated, documentation.**  With `@extract_columns(("c", "the c"), fill_with=9)` the missing column `c` is not filled: the
node `c` raises, although a fill value was given.  And with `@extract_columns(("a", "the a"), fill_with=9)`, where nothing is
missing, the dataframe gets a column that nobody asked for: it is labelled by the pair. -/
theorem C71_violated_documented :
    run ints (extracted "f" .inPlace [.documented "c" "the c"] (some (.int 9))) [("x", .int 5)] "c" =
      .inr (some (.raised "c" "InvalidDecoratorException")) ∧
    run labels (extracted "f" .inPlace [.documented "a" "the a"] (some (.int 9))) [("x", .int 5)] "f" =
      .inl (some [.str "a", .str "b", .pair "a" "the a"]) ∧
    run labels [frameFn "f" .inPlace] [("x", .int 5)] "f" = .inl (some [.str "a", .str "b"]) := by decide +kernel

/-- **C71 violated, polars.**  With a dataframe of a library that copies, a missing column is not filled: the node of the function
itself raises, although it returns a dataframe and a fill value was given. -/
theorem C71_violated_polars :
    run labels [frameFn "f" .copying] [("x", .int 5)] "f" = .inl (some [.str "a", .str "b"]) ∧
    run labels (extracted "f" .copying [.name "a", .name "c"] (some (.int 9))) [("x", .int 5)] "f" =
      .inr (some (.raised "f" "AssertionError")) := by decide +kernel

/-- **C71 violated, name.**  A function called `column_to_extract` returns a dataframe with the column `a`, but the node `a`
raises `KeyError`. -/
theorem C71_violated_name :
    run labels (extracted "column_to_extract" .inPlace [.name "a"] none) [("x", .int 5)] "column_to_extract" =
      .inl (some [.str "a", .str "b"]) ∧
    run ints (extracted "column_to_extract" .inPlace [.name "a"] none) [("x", .int 5)] "a" =
      .inr (some (.raised "a" "KeyError")) := by decide +kernel

/-! `@parameterize_extract_columns(ParameterizedExtract(("p", "q"), {"x": source("u"), "k": value(10)}),
ParameterizedExtract(("r", "s"), {"x": source("w"), "k": value(100)}))` on
`def f(x, k): return DataFrame({"a": [x * k], "b": [x + k]})`. -/

/-- The function. -/
def compute (kw : Dict Name FV) : Except UserErr FV :=
  .ok (.frame .inPlace 1 [(.str "a", .list [.int (arg kw "x" 0 * arg kw "k" 0)]), (.str "b", .list [.int (arg kw "x" 0 + arg kw "k" 0)])])

/-- Its node. -/
def computeFn : Node Unit FV := fnode "f" [("x", .required), ("k", .required)] compute

/-- The extracts. -/
def extracts : List (ParameterizedExtract FV) :=
  [{ outputs := ["p", "q"], mapping := [("x", .single (.source "u")), ("k", .single (.value (.int 10)))] },
   { outputs := ["r", "s"], mapping := [("x", .single (.source "w")), ("k", .single (.value (.int 100)))] }]

/-- The nodes. -/
def extractNodes (raw : Dict Name FV → Except UserErr FV) (reassign : Bool) (n : Node Unit FV)
    (ps : List (ParameterizedExtract FV)) : List (Node Unit FV) :=
  match parameterizeExtract frames pops id () raw reassign n 0 ps with
  | .ok ns => ns
  | .error _ => []

example : run ints (extractNodes compute true computeFn extracts) [("u", .int 2), ("w", .int 3)] "p" = .inl (some [20]) ∧
    run ints (extractNodes compute true computeFn extracts) [("u", .int 2), ("w", .int 3)] "q" = .inl (some [12]) ∧
    run ints (extractNodes compute true computeFn extracts) [("u", .int 2), ("w", .int 3)] "r" = .inl (some [300]) ∧
    run ints (extractNodes compute true computeFn extracts) [("u", .int 2), ("w", .int 3)] "s" = .inl (some [103]) ∧
    run labels (extractNodes compute true computeFn extracts) [("u", .int 2), ("w", .int 3)] "f__1" =
      .inl (some [.str "r", .str "s"]) := by decide +kernel

theorem extractNodes_eq : parameterizeExtract frames pops id () compute true computeFn 0 extracts =
    .ok (extractNodes compute true computeFn extracts) := rfl

theorem extractNodes_defines : ∀ m ∈ extractNodes compute true computeFn extracts,
    Defines (build (extractNodes compute true computeFn extracts)) m := by
  refine fun _ hm => build_defines ?_ (build_eq (by decide +kernel)) hm (by simp [Dict.keys])
  intro n hn
  let ns := extractNodes compute true computeFn extracts
  have : ns = [ns[0], ns[1], ns[2], ns[3], ns[4], ns[5]] := rfl
  rw [show extractNodes compute true computeFn extracts = ns from rfl, this] at hn
  simp only [List.mem_cons, List.not_mem_nil, or_false] at hn
  rcases hn with rfl | rfl | rfl | rfl | rfl | rfl <;> exact ⟨by decide +kernel, rfl, rfl, by decide +kernel⟩

/-- `C72_nodes`. -/
example : (extractNodes compute true computeFn extracts).map (·.name) = ["f__0", "p", "q", "f__1", "r", "s"] :=
  C72_nodes.2 _ extractNodes_eq

/-- `C72_column_partial`: the second column of the second extract (`3 + 100`). -/
example : Den (build (extractNodes compute true computeFn extracts)) [("u", .int 2), ("w", .int 3)] [] "s" (.list [.int 103]) := by
  refine (C72_column_partial (fops := frames) (ops := pops) (comp := id) (colT := ()) (n := computeFn) (ps := extracts) (i := 1)
    frames_lawful extractNodes_eq (by decide) (by decide +kernel) extractNodes_defines rfl rfl ?_ (by decide) (j := 1) rfl rfl _).2 ?_
  · rintro s ⟨p, hp, d, hd, hs⟩ ⟨n, _, _, h, _⟩
    have : s = "w" := by
      simp only [Dict.get?_cons] at hd
      by_cases h1 : "x" = p
      · rw [if_pos h1] at hd; cases hd; simpa [ParamDep.refs] using hs
      · rw [if_neg h1] at hd
        by_cases h2 : "k" = p
        · rw [if_pos h2] at hd; cases hd; simp [ParamDep.refs] at hs
        · rw [if_neg h2] at hd; cases hd
    subst this
    cases h
  · have hw : Den (build (extractNodes compute true computeFn extracts)) [("u", .int 2), ("w", .int 3)] [] "w" (.int 3) := by
      have h : ((build (extractNodes compute true computeFn extracts)).get? "w").map (·.kind) = some .external := by decide +kernel
      cases hx : (build (extractNodes compute true computeFn extracts)).get? "w" with
      | none => rw [hx] at h; cases h
      | some n =>
        rw [hx] at h
        exact .input hx rfl (Option.some.inj h) rfl
    refine ⟨[("x", .int 3), ("k", .int 100)], _, _, .str "b",
      ⟨fun p => if p = "x" then some (.int 3) else if p = "k" then some (.int 100) else none, ?_, ?_, rfl⟩, rfl, rfl, rfl, rfl⟩
    · intro p v _ hv
      dsimp only at hv
      by_cases h1 : p = "x"
      · rw [if_pos h1] at hv; cases hv; subst h1
        exact .single rfl (.source hw)
      · rw [if_neg h1] at hv
        by_cases h2 : p = "k"
        · rw [if_pos h2] at hv; cases hv; subst h2
          exact .single rfl .value
        · rw [if_neg h2] at hv; cases hv
    · intro p t hp hv
      dsimp only at hv
      simp only [computeFn, fnode, List.map_cons, List.map_nil, List.mem_cons, List.not_mem_nil, or_false] at hp
      rcases hp with h | h <;> cases h <;> cases hv

/-- **C72 violated, `reassign_columns`.**  With `reassign_columns=False` the columns are to keep their names; but they
are renamed all the same: with the outputs `("b", "a")` the node `b` is the first column, which the function calls `a`. -/
theorem C72_violated_reassign :
    run labels [computeFn] [("x", .int 2), ("k", .int 10)] "f" = .inl (some [.str "a", .str "b"]) ∧
    run ints (extractNodes compute false computeFn [{ outputs := ["b", "a"], mapping := [("k", .single (.value (.int 10)))] }])
      [("x", .int 2)] "b" = .inl (some [20]) ∧
    run labels (extractNodes compute false computeFn [{ outputs := ["b", "a"], mapping := [("k", .single (.value (.int 10)))] }])
      [("x", .int 2)] "f__0" = .inl (some [.str "b", .str "a"]) := by decide +kernel

/-- **C72 violated, `@does`.**  The body of the function is replaced (its node calculates the dataframe), but the wrapped function
is the original one, which returns something else (`None`, here an integer): the node raises. -/
theorem C72_violated_does :
    run labels [computeFn] [("x", .int 2), ("k", .int 10)] "f" = .inl (some [.str "a", .str "b"]) ∧
    run labels (extractNodes (fun _ => .ok (.int 0)) true computeFn extracts) [("u", .int 2), ("w", .int 3)] "f__0" =
      .inr (some (.raised "f__0" "AttributeError")) := by decide +kernel

/-- **C72 violated, misspelled parameters.**  `{"xx": source("u"), "k": value(10)}` for a function without a parameter `xx` is
accepted; the source is ignored, and the node depends on `x` instead. -/
theorem C72_violated_misspelled :
    run ints (extractNodes compute true computeFn [{ outputs := ["p", "q"], mapping :=
      [("xx", .single (.source "u")), ("k", .single (.value (.int 10)))] }]) [("x", .int 7)] "p" = .inl (some [70]) ∧
    (build (extractNodes compute true computeFn [{ outputs := ["p", "q"], mapping :=
      [("xx", .single (.source "u")), ("k", .single (.value (.int 10)))] }])).get? "u" = none ∧
    "xx" ∉ computeFn.inputTypes.keys := by
  refine ⟨by decide +kernel, ?_, by decide +kernel⟩
  have : ((build (extractNodes compute true computeFn [{ outputs := ["p", "q"], mapping :=
      [("xx", .single (.source "u")), ("k", .single (.value (.int 10)))] }])).get? "u").isNone = true := by decide +kernel
  exact Option.isNone_iff_eq_none.1 this

end ExtractSample

end Verif
