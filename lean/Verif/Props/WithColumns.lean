import Verif.Proofs.WithColumns
import Verif.Proofs.CachingRun
import Verif.Props.Pipe

/-!
Property C68: `@with_columns` gives the decorated function its dataframe with the selected columns added.
-/
namespace Verif
variable {T V : Type}

section
variable {tm : T → T → Bool} {any : T} {g h : Graph T V} {inputs overrides given : Dict Name V} {lib : FrameLib T V}
  {d d' : WithColumns} {fnName param : Name} {sig sel : List Name} {nodes subs out pruned : List (Node T V)}
  {initial : List TNode} {df : V}

/-! ### The node `_append` -/

theorem foldl_set_fresh {W : Type} (w : W) : ∀ (l : List Name) (acc : Dict Name W), (acc.keys ++ l).Nodup →
    l.foldl (fun d c => Dict.set d c w) acc = acc ++ l.map (fun c => (c, w)) := by
  intro l
  induction l with
  | nil => intro acc _; simp
  | cons a l ih =>
    intro acc hn
    have ha : a ∉ acc.keys := by
      intro hm
      rw [List.nodup_append] at hn
      exact hn.2.2 a hm a (by simp) rfl
    rw [List.foldl_cons, Dict.keys_set_of_not_mem ha, ih]
    · simp
    · have : Dict.keys (acc ++ [(a, w)]) = acc.keys ++ [a] := by simp [Dict.keys]
      rw [this]; simpa using hn

theorem appendNode_types (hn : sel.Nodup) (hp : param ∉ sel) :
    (appendNode lib param sel).inputTypes =
      sel.map (fun c => (c, (lib.colT, DepType.required))) ++ [(param, (lib.dfT, .required))] := by
  simp only [appendNode]
  rw [foldl_set_fresh _ _ _ (by simpa [Dict.keys] using hn), Dict.keys_set_of_not_mem]
  · rfl
  · simpa [Dict.keys] using hp

theorem appendNode_keys (hn : sel.Nodup) (hp : param ∉ sel) :
    (appendNode lib param sel).inputTypes.keys = sel ++ [param] := by
  rw [appendNode_types hn hp]
  simp [Dict.keys, Function.comp_def]

theorem append_fold {kw : Dict Name V} : ∀ (cols acc : Dict Name V), (acc.keys ++ cols.keys).Nodup →
    (∀ c w, (c, w) ∈ cols → kw.get? c = some w) →
    cols.keys.foldl (fun acc c => match acc, kw.get? c with
      | some d, some v => some (Dict.set d c v)
      | _, _ => none) (some acc) = some (acc ++ cols) := by
  intro cols
  induction cols with
  | nil => intro acc _ _; simp [Dict.keys]
  | cons q cols ih =>
    obtain ⟨c, w⟩ := q
    intro acc hn hw
    rw [Dict.keys_cons] at hn ⊢
    have hc : c ∉ acc.keys := by
      intro hm
      rw [List.nodup_append] at hn
      exact hn.2.2 c hm c (by simp) rfl
    rw [List.foldl_cons, hw c w (by simp)]
    simp only
    rw [Dict.keys_set_of_not_mem hc, ih]
    · simp
    · have : Dict.keys (acc ++ [(c, w)]) = acc.keys ++ [c] := by simp [Dict.keys]
      rw [this]; simpa using hn
    · intro c' w' h; exact hw c' w' (by simp [h])

theorem cols_of_val {val : Name → Option V} : ∀ {l : List Name}, (∀ c ∈ l, ∃ w, val c = some w) →
    ∃ cols : Dict Name V, cols.keys = l ∧ ∀ c w, (c, w) ∈ cols → val c = some w := by
  intro l
  induction l with
  | nil => intro _; exact ⟨[], rfl, nofun⟩
  | cons a l ih =>
    intro h
    obtain ⟨w, hw⟩ := h a (by simp)
    obtain ⟨cols, h1, h2⟩ := ih (fun c hc => h c (by simp [hc]))
    refine ⟨(a, w) :: cols, by rw [Dict.keys_cons, h1], ?_⟩
    intro c x hm
    rcases List.mem_cons.1 hm with he | hm
    · cases he; exact hw
    · exact h2 c x hm

theorem columnsToAppend_eq {kw cols : Dict Name V} (hn : cols.keys.Nodup) (h : ∀ c w, (c, w) ∈ cols → kw.get? c = some w) :
    columnsToAppend kw cols.keys = some cols := by
  unfold columnsToAppend
  have := append_fold (kw := kw) cols [] (by simpa [Dict.keys] using hn) h
  exact this

/-- What the node `_append` computes, under other names for its inputs. -/
theorem append_value {ren : Name → Name} (hn : sel.Nodup) (hp : param ∉ sel) (hka : KeepsApart ren (appendNode lib param sel))
    (name : Name) (y : V) :
    FnValue g inputs overrides (renameNode ren name (appendNode lib param sel)) y ↔
      ∃ x cols, Den g inputs overrides (ren param) x ∧ cols.keys = sel ∧
        (∀ c w, (c, w) ∈ cols → Den g inputs overrides (ren c) w) ∧ lib.assign x cols = .ok y := by
  have hkeys := appendNode_keys (lib := lib) hn hp
  have hnd : (appendNode lib param sel).inputTypes.keys.Nodup := hka.params
  have hreq : ∀ c t, (c, t) ∈ (appendNode lib param sel).inputTypes → t.2 = .required := by
    intro c t hm
    rw [appendNode_types hn hp] at hm
    rcases List.mem_append.1 hm with hm | hm
    · obtain ⟨c', _, he⟩ := List.mem_map.1 hm
      cases he; rfl
    · simp only [List.mem_singleton, Prod.mk.injEq] at hm
      rw [hm.2]
  have hfn : ∀ (val : Name → Option V) (x : V) (cols : Dict Name V), val param = some x → cols.keys = sel →
      (∀ c w, (c, w) ∈ cols → val c = some w) →
      (appendNode lib param sel).fn (argsFor (appendNode lib param sel).inputTypes val) = lib.assign x cols := by
    intro val x cols hx hck hcv
    have hget : ∀ c ∈ sel ++ [param], (argsFor (appendNode lib param sel).inputTypes val).get? c = val c := by
      intro c hc
      rw [argsFor_get hnd, if_pos (by rw [hkeys]; exact hc)]
    generalize (argsFor (appendNode lib param sel).inputTypes val) = kw at hget
    simp only [appendNode]
    rw [hget param (by simp), hx]
    simp only
    subst hck
    rw [columnsToAppend_eq hn]
    · intro c w hm
      rw [hget c (by simp only [List.mem_append]; exact .inl (List.mem_map.2 ⟨_, hm, rfl⟩))]
      exact hcv c w hm
  rw [renamed_value hka]
  constructor
  · rintro ⟨val, h1, h2, h3⟩
    have hsome : ∀ c ∈ sel ++ [param], ∃ w, val c = some w := by
      intro c hc
      cases hv : val c with
      | some w => exact ⟨w, rfl⟩
      | none =>
        rw [← hkeys] at hc
        obtain ⟨q, hq, rfl⟩ := List.mem_map.1 hc
        have := (h2 q.1 q.2 hq hv).1
        rw [hreq q.1 q.2 hq] at this; cases this
    obtain ⟨x, hx⟩ := hsome param (by simp)
    obtain ⟨cols, hck, hcv⟩ := cols_of_val (l := sel) (val := val) (fun c hc => hsome c (by simp [hc]))
    rw [hfn val x cols hx hck hcv] at h3
    refine ⟨x, cols, h1 param x (by rw [hkeys]; simp) hx, hck, ?_, h3⟩
    intro c w hm
    have hc : c ∈ sel := by rw [← hck]; exact List.mem_map.2 ⟨_, hm, rfl⟩
    exact h1 c w (by rw [hkeys]; simp [hc]) (hcv c w hm)
  · rintro ⟨x, cols, h1, hck, h2, h3⟩
    have hcn : cols.keys.Nodup := by rw [hck]; exact hn
    let val : Name → Option V := fun c => if c = param then some x else cols.get? c
    have hvp : val param = some x := by simp [val]
    have hvc : ∀ c ∈ sel, val c = cols.get? c := by
      intro c hc
      have : c ≠ param := by rintro rfl; exact hp hc
      simp [val, this]
    have hcv : ∀ c w, (c, w) ∈ cols → val c = some w := by
      intro c w hm
      rw [hvc c (by rw [← hck]; exact List.mem_map.2 ⟨_, hm, rfl⟩)]
      exact Dict.get?_of_mem hcn hm
    refine ⟨val, ?_, ?_, by rw [hfn val x cols hvp hck hcv]; exact h3⟩
    · intro c w hc hv
      rw [hkeys] at hc
      rcases List.mem_append.1 hc with hc | hc
      · rw [hvc c hc] at hv
        exact h2 c w (Dict.get?_mem hv)
      · simp only [List.mem_singleton] at hc
        subst hc
        rw [hvp] at hv; cases hv; exact h1
    · intro c t hm hv
      have hc : c ∈ sel ++ [param] := by rw [← hkeys]; exact List.mem_map.2 ⟨_, hm, rfl⟩
      rcases List.mem_append.1 hc with hc | hc
      · rw [hvc c hc] at hv
        rw [← hck] at hc
        obtain ⟨w, hw⟩ := Dict.mem_keys_iff.1 hc
        rw [hw] at hv; cases hv
      · simp only [List.mem_singleton] at hc
        subst hc
        rw [hvp] at hv; cases hv

/-! ### The values -/

theorem columnNode_fresh (c : Name) : Fresh (columnNode lib param c) :=
  ⟨by simp [columnNode, Dict.keys], rfl, rfl, by simp [columnNode]⟩

theorem injectable_mem (hp : param ∈ injectableParams nodes) : ∃ n ∈ nodes, param ∈ n.inputTypes.keys := by
  unfold injectableParams at hp
  have := (List.mem_filter.1 hp).1
  obtain ⟨n, hn, h⟩ := List.mem_flatMap.1 this
  exact ⟨n, hn, h⟩

theorem chosen_sub [DecidableEq T] (hk : KeptNodes (generatedNodes lib d param subs) d.select pruned) :
    ∀ c ∈ chosenColumns lib d.select pruned, c ∈ pruned.map (·.name) := by
  intro c hc
  unfold chosenColumns at hc
  cases hs : d.select with
  | some s => rw [hs] at hc; exact hk.selected s hs c hc
  | none =>
    rw [hs] at hc
    obtain ⟨n, hn, rfl⟩ := List.mem_map.1 hc
    exact List.mem_map.2 ⟨n, (List.mem_filter.1 hn).1, rfl⟩

theorem chosen_nodup [DecidableEq T] (hk : KeptNodes (generatedNodes lib d param subs) d.select pruned)
    (hs : ∀ s, d.select = some s → s.Nodup) : (chosenColumns lib d.select pruned).Nodup := by
  unfold chosenColumns
  cases h : d.select with
  | some s => exact hs s h
  | none =>
    have : (pruned.filter (fun n => n.typ = lib.colT)).Sublist pruned := List.filter_sublist
    exact (this.map (fun n => n.name)).nodup hk.nodup

/-- Everything about the injected nodes that does not depend on values. -/
structure Placed (g : Graph T V) (overrides : Dict Name V) (lib : FrameLib T V) (ns param : Name) (passed sel : List Name)
    (subs pruned : List (Node T V)) (ren : Name → Name) : Prop where
  mem : ∀ n ∈ pruned, (∃ c ∈ passed, n = columnNode lib param c) ∨ n ∈ subs
  closed : ∀ n ∈ pruned, ∀ k ∈ n.inputTypes.keys, k ∈ passed ++ subs.map (·.name) → k ∈ pruned.map (·.name)
  inside : ∀ k ∈ pruned.map (·.name), ren k = assignNamespace k ns
  outside : ∀ k, k ∉ pruned.map (·.name) → k ≠ "_append" → ren k = k
  apart : ∀ n ∈ pruned, KeepsApart ren n
  apart_append : KeepsApart ren (appendNode lib param sel)
  defines : ∀ n ∈ pruned, Defines g (renameNode ren (assignNamespace n.name ns) n)
  plain : ∀ n ∈ pruned, overrides.get? (assignNamespace n.name ns) = none
  defines_append : Defines g (renameNode ren (assignNamespace "_append" ns) (appendNode lib param sel))
  plain_append : overrides.get? (assignNamespace "_append" ns) = none

theorem placed [DecidableEq T] (hfresh : ∀ n ∈ subs, Fresh n) (hk : KeptNodes (generatedNodes lib d param subs) d.select pruned)
    (hs : ∀ s, d.select = some s → s.Nodup)
    {ns : Name} (hnames : ColumnNames ns param d.passed subs nodes) (hpar : ∃ n ∈ nodes, param ∈ n.inputTypes.keys)
    (hdef : ∀ m ∈ addNamespace (pruned ++ [appendNode lib param (chosenColumns lib d.select pruned)]) (nsSpec ns), Defines g m)
    (hov : ∀ m ∈ addNamespace (pruned ++ [appendNode lib param (chosenColumns lib d.select pruned)]) (nsSpec ns),
      overrides.get? m.name = none) :
    Placed g overrides lib ns param d.passed (chosenColumns lib d.select pruned) subs pruned
      (inNamespace (pruned ++ [appendNode lib param (chosenColumns lib d.select pruned)]) (nsSpec ns)) := by
  have hsub := chosen_sub hk
  have hnd := chosen_nodup hk hs
  generalize chosenColumns lib d.select pruned = sel at hsub hnd hdef hov
  have hmem : ∀ n ∈ pruned, (∃ c ∈ d.passed, n = columnNode lib param c) ∨ n ∈ subs := by
    intro n hn
    rcases List.mem_append.1 (hk.mem n hn) with h | h
    · obtain ⟨c, hc, rfl⟩ := List.mem_map.1 h
      exact .inl ⟨c, hc, rfl⟩
    · exact .inr h
  have hname : ∀ n ∈ pruned, n.name ≠ param := by
    intro n hn
    rcases hmem n hn with ⟨c, hc, rfl⟩ | h
    · intro he
      exact hnames.param_col ((show c = param from he) ▸ hc)
    · exact hnames.param_sub n h
  have hpsel : param ∉ sel := by
    intro hp
    obtain ⟨n, hn, he⟩ := List.mem_map.1 (hsub param hp)
    exact hname n hn he
  have hfa : Fresh (appendNode lib param sel) := by
    refine ⟨?_, rfl, rfl, by simp [appendNode]⟩
    rw [appendNode_keys hnd hpsel, List.nodup_append]
    refine ⟨hnd, by simp, ?_⟩
    intro a ha b hb
    simp only [List.mem_singleton] at hb
    subst hb
    rintro rfl; exact hpsel ha
  have hall : ∀ n ∈ pruned ++ [appendNode lib param sel], Fresh n := by
    intro n hn
    rcases List.mem_append.1 hn with hn | hn
    · rcases hmem n hn with ⟨c, _, rfl⟩ | h
      · exact columnNode_fresh c
      · exact hfresh n h
    · simp only [List.mem_singleton] at hn
      subst hn; exact hfa
  have hpout : ∀ q, param ≠ assignNamespace q ns := by
    obtain ⟨n, hn, hp⟩ := hpar
    exact hnames.outside_fn n hn param hp
  have hesc : NoEscape (pruned ++ [appendNode lib param sel]) (nsSpec ns : SubdagSpec V) := by
    intro n hn p hp hin q
    rcases List.mem_append.1 hn with hn | hn
    · rcases hmem n hn with ⟨c, _, rfl⟩ | h
      · simp only [columnNode, Dict.keys, List.map_cons, List.map_nil, List.mem_singleton] at hp
        subst hp; exact hpout q
      · exact hnames.outside_sub n h p hp q
    · simp only [List.mem_singleton] at hn
      subst hn
      rw [appendNode_keys hnd hpsel] at hp
      rcases List.mem_append.1 hp with hp | hp
      · exfalso
        apply hin
        refine .inl ?_
        rw [List.map_append]
        exact List.mem_append_left _ (hsub p hp)
      · simp only [List.mem_singleton] at hp
        subst hp; exact hpout q
  refine ⟨hmem, ?_, ?_, ?_, ?_, ?_, ?_, ?_, ?_, ?_⟩
  · intro n hn k hkk hkm
    exact hk.closed n hn k hkk (by rw [generated_names]; exact hkm)
  · intro k hkm
    refine inNamespace_inside (.inl ?_)
    rw [List.map_append]; exact List.mem_append_left _ hkm
  · intro k h1 h2
    refine inNamespace_outside ?_
    rintro (h | h | h)
    · rw [List.map_append] at h
      rcases List.mem_append.1 h with h | h
      · exact h1 h
      · simp only [appendNode, List.map_cons, List.map_nil, List.mem_singleton] at h
        exact h2 h
    · cases h
    · cases h
  · intro n hn
    exact keepsApart hall hesc (List.mem_append_left _ hn)
  · exact keepsApart hall hesc (by simp)
  · intro n hn
    refine hdef _ ?_
    rw [addNamespace_eq]
    exact List.mem_map.2 ⟨n, List.mem_append_left _ hn, rfl⟩
  · intro n hn
    refine hov (renameNode (inNamespace (pruned ++ [appendNode lib param sel]) (nsSpec ns)) (assignNamespace n.name ns) n) ?_
    rw [addNamespace_eq]
    exact List.mem_map.2 ⟨n, List.mem_append_left _ hn, rfl⟩
  · refine hdef _ ?_
    rw [addNamespace_eq]
    exact List.mem_map.2 ⟨appendNode lib param sel, by simp, rfl⟩
  · refine hov (renameNode (inNamespace (pruned ++ [appendNode lib param sel]) (nsSpec ns)) (assignNamespace "_append" ns) (appendNode lib param sel)) ?_
    rw [addNamespace_eq]
    exact List.mem_map.2 ⟨appendNode lib param sel, by simp, rfl⟩

/-- A column node that was kept. -/
theorem placed_column {ns : Name} {passed : List Name} {ren : Name → Name} (hpl : Placed g overrides lib ns param passed sel subs pruned ren)
    (hren : ren param = param) (hdf : Den g inputs overrides param df) {c : Name} (hc : columnNode lib param c ∈ pruned) (v : V) :
    Den g inputs overrides (assignNamespace c ns) v ↔ lib.column df c = .ok v := by
  have hden := den_iff_fnValue (inputs := inputs) (hpl.defines _ hc) (by simp [renameNode, columnNode]) (hpl.plain _ hc) v
  have hn : (renameNode ren (assignNamespace (columnNode lib param c).name ns) (columnNode lib param c)).name =
    assignNamespace c ns := rfl
  rw [hn] at hden
  rw [hden, renamed_value (hpl.apart _ hc)]
  have hk : (columnNode lib param c).inputTypes = [(param, (lib.dfT, .required))] := rfl
  constructor
  · rintro ⟨val, h1, h2, h3⟩
    cases hv : val param with
    | none =>
      have := (h2 param (lib.dfT, .required) (by rw [hk]; simp) hv).1
      cases this
    | some x =>
      have hx := h1 param x (by rw [hk]; simp [Dict.keys]) hv
      rw [hren] at hx
      have := Den.det hdf hx
      subst this
      simpa [columnNode, argsFor, hv, Dict.get?] using h3
  · intro h
    refine ⟨fun _ => some df, ?_, ?_, ?_⟩
    · intro p w hp hw
      rw [hk] at hp
      simp only [Dict.keys, List.map_cons, List.map_nil, List.mem_singleton] at hp
      subst hp
      cases hw
      rw [hren]; exact hdf
    · intro _ _ _ h; cases h
    · simpa [columnNode, argsFor, Dict.get?] using h

/-- What is needed for the selected columns was kept. -/
theorem needed_kept {ns : Name} {passed : List Name} {ren : Name → Name} (hpl : Placed g overrides lib ns param passed sel subs pruned ren)
    (hfresh : ∀ n ∈ subs, Fresh n) (hsep : createFunctionGraph tm any ([] : Dict Name V) false subs = .ok h)
    (hnd : (passed ++ subs.map (·.name)).Nodup) (hsub : ∀ c ∈ sel, c ∈ pruned.map (·.name)) {k : Name}
    (hn : Needed h [] sel k) (hk : k ∈ passed ++ subs.map (·.name)) : k ∈ pruned.map (·.name) := by
  obtain ⟨_, f2, _, _⟩ := sep_facts (s := nsSpec ns) hfresh hsep (by simp [nsSpec, Dict.keys])
  have hw := (createFunctionGraph_spec hfresh hsep).1
  cases hn with
  | req hm => exact hsub k hm
  | @param m mn _ h1 h2 h3 h4 =>
    have gen : ∀ m, Needed h [] sel m → ∀ mn, h.get? m = some mn → mn.kind ≠ .external → ∃ n ∈ pruned, n ∈ subs ∧ n.name = m ∧ SameFn n mn := by
      intro m hm
      induction hm with
      | @req m hm =>
        intro mn hmn hke
        obtain ⟨n, hn, rfl, hs⟩ := f2 m mn hmn hke
        obtain ⟨n', hn', he⟩ := List.mem_map.1 (hsub _ hm)
        refine ⟨n, ?_, hn, rfl, hs⟩
        rcases hpl.mem n' hn' with ⟨c, hc, rfl⟩ | h'
        · exfalso
          rw [List.nodup_append] at hnd
          exact hnd.2.2 c hc n.name (List.mem_map.2 ⟨n, hn, rfl⟩) he
        · rw [List.nodup_append] at hnd
          rw [← eq_of_name hnd.2.1 h' hn he]; exact hn'
      | @param m' mn' x h1 h2 h3 h4 ih =>
        intro mn hmn hke
        have hke' : mn'.kind ≠ .external := by
          intro he
          rw [hw.external_no_params h3 he] at h4; cases h4
        obtain ⟨n1, hn1, hs1, _, hsf⟩ := ih mn' h3 hke'
        obtain ⟨n, hn, rfl, hs⟩ := f2 x mn hmn hke
        rw [hsf.inputTypes] at h4
        have hin := hpl.closed n1 hn1 n.name h4 (List.mem_append_right _ (List.mem_map.2 ⟨n, hn, rfl⟩))
        obtain ⟨n', hn', he⟩ := List.mem_map.1 hin
        refine ⟨n, ?_, hn, rfl, hs⟩
        rcases hpl.mem n' hn' with ⟨c, hc, rfl⟩ | h'
        · exfalso
          rw [List.nodup_append] at hnd
          exact hnd.2.2 c hc n.name (List.mem_map.2 ⟨n, hn, rfl⟩) he
        · rw [List.nodup_append] at hnd
          rw [← eq_of_name hnd.2.1 h' hn he]; exact hn'
    have hke : mn.kind ≠ .external := by
      intro he
      rw [hw.external_no_params h3 he] at h4; cases h4
    obtain ⟨n1, hn1, _, _, hsf⟩ := gen m h1 mn h3 hke
    rw [hsf.inputTypes] at h4
    exact hpl.closed n1 hn1 k h4 hk

/-- The selected columns, seen from the surrounding graph. -/
theorem placed_values {ns : Name} {passed : List Name} {ren : Name → Name}
    (hpl : Placed g overrides lib ns param passed sel subs pruned ren) (hren : ren param = param)
    (hfresh : ∀ n ∈ subs, Fresh n) (hsep : createFunctionGraph tm any ([] : Dict Name V) false subs = .ok h)
    (hnd : (passed ++ subs.map (·.name)).Nodup) (hsub : ∀ c ∈ sel, c ∈ pruned.map (·.name))
    (happ : ∀ n ∈ subs, "_append" ∉ n.inputTypes.keys)
    (hdf : Den g inputs overrides param df) (hgiven : GivenColumns lib g h inputs overrides passed sel df given)
    {c : Name} (hc : c ∈ sel) (v : V) :
    Den g inputs overrides (ren c) v ↔ ColumnValue lib h passed df given c v := by
  obtain ⟨f1, f2, f3, f4⟩ := sep_facts (s := nsSpec ns) hfresh hsep (by simp [nsSpec, Dict.keys])
  have hsplit := hnd
  rw [List.nodup_append] at hsplit
  have hcol : ∀ c ∈ passed, c ∈ pruned.map (·.name) → columnNode lib param c ∈ pruned := by
    intro c hc hm
    obtain ⟨n, hn, he⟩ := List.mem_map.1 hm
    rcases hpl.mem n hn with ⟨c', _, rfl⟩ | h'
    · have : c' = c := he
      subst this; exact hn
    · exact absurd he.symm (hsplit.2.2 c hc n.name (List.mem_map.2 ⟨n, h', rfl⟩))
  have hsubk : ∀ n ∈ subs, n.name ∈ pruned.map (·.name) → n ∈ pruned := by
    intro n hn hm
    obtain ⟨n', hn', he⟩ := List.mem_map.1 hm
    rcases hpl.mem n' hn' with ⟨c', hc', rfl⟩ | h'
    · exact absurd (show c' = n.name from he) (hsplit.2.2 c' hc' n.name (List.mem_map.2 ⟨n, hn, rfl⟩))
    · rw [← eq_of_name hsplit.2.1 h' hn he]; exact hn'
  have key : ∀ k, Needed h [] sel k → (∃ m, h.get? k = some m) → ∀ v,
      (Den h given [] k v ↔ Den g inputs overrides (ren k) v) := by
    intro k hK hk v
    refine renamed_refines (K := Needed h [] sel) ?_ ?_ hK hk v
    · intro k m hK hm he
      obtain ⟨n, hn, rfl, hs⟩ := f2 k m hm he
      have hin := needed_kept hpl hfresh hsep hnd hsub hK (List.mem_append_right _ (List.mem_map.2 ⟨n, hn, rfl⟩))
      have hnp := hsubk n hn hin
      refine ⟨n, hs, (hfresh n hn).kind, hpl.apart n hnp, ?_, ?_, ?_⟩
      · rw [hpl.inside _ hin]; exact hpl.defines n hnp
      · rw [hpl.inside _ hin]; exact hpl.plain n hnp
      · intro x hx
        exact ⟨.param hK rfl hm (by rw [hs.inputTypes]; exact hx), f4 n hn x hx⟩
    · intro k m hK hm he
      obtain ⟨hks, hku⟩ := f3 k m hm he
      obtain ⟨g1, g2⟩ := hgiven k m hK hm he
      by_cases hkp : k ∈ passed
      · have hin := needed_kept hpl hfresh hsep hnd hsub hK (List.mem_append_left _ hkp)
        obtain ⟨w, hw1, hw2⟩ := g1 hkp
        refine .inl ⟨w, hw2, ?_⟩
        rw [hpl.inside _ hin]
        exact (placed_column hpl hren hdf (hcol k hkp hin) w).2 hw1
      · have hkn : k ∉ pruned.map (·.name) := by
          intro hm'
          obtain ⟨n, hn, he'⟩ := List.mem_map.1 hm'
          rcases hpl.mem n hn with ⟨c', hc', rfl⟩ | h'
          · exact hkp ((show c' = k from he') ▸ hc')
          · exact hks (List.mem_map.2 ⟨n, h', he'⟩)
        have hka : k ≠ "_append" := by
          rintro rfl
          rcases hku with h' | ⟨n, hn, h'⟩
          · cases h'
          · exact happ n hn h'
        rw [hpl.outside k hkn hka]
        exact g2 hkp
  unfold ColumnValue
  by_cases hcp : c ∈ passed
  · rw [hpl.inside _ (hsub c hc), placed_column hpl hren hdf (hcol c hcp (hsub c hc)) v]
    simp [hcp]
  · obtain ⟨n, hn, he⟩ := List.mem_map.1 (hsub c hc)
    have hns : n ∈ subs := by
      rcases hpl.mem n hn with ⟨c', hc', rfl⟩ | h'
      · exact absurd ((show c' = c from he) ▸ hc') hcp
      · exact h'
    obtain ⟨m, hm, _⟩ := f1 n hns
    rw [he] at hm
    rw [← key c (.req hc) ⟨m, hm⟩ v]
    simp [hcp]

/-- The situation of C68: `out` are the nodes of the decorated function, `g` a graph that contains them, `h` the graph of a
separate driver for the functions given to the decorator. -/
structure ColumnsSetting [DecidableEq T] (tm : T → T → Bool) (any : T) (lib : FrameLib T V) (g h : Graph T V)
    (overrides : Dict Name V) (d d' : WithColumns) (fnName : Name) (sig : List Name) (param : Name)
    (nodes subs : List (Node T V)) (initial : List TNode) (out : List (Node T V)) : Prop where
  /-- the functions are plain definitions -/
  fresh : ∀ n ∈ subs, Fresh n
  own_fresh : ∀ n ∈ nodes, Fresh n
  /-- the decorator accepts them -/
  built : withColumnsNodes lib d fnName sig nodes subs initial = .ok (out, d')
  frame : FrameParam d sig param
  /-- `initial` is an order of the set of selected nodes -/
  order : ∀ s, d.select = some s → InitialStack ((d.passed.map (columnNode lib param) ++ subs).map toTNode) s initial
  /-- no column is selected twice -/
  select_nodup : ∀ s, d.select = some s → s.Nodup
  names : ColumnNames (d.ns.getD fnName) param d.passed subs nodes
  /-- the separate driver can be built -/
  separate : createFunctionGraph tm any ([] : Dict Name V) false subs = .ok h
  /-- the surrounding graph contains the generated nodes, none of them overridden -/
  defines : ∀ m ∈ out, Defines g m
  not_overridden : ∀ m ∈ out, overrides.get? m.name = none

/-- The setting, taken apart. -/
theorem ColumnsSetting.parts [DecidableEq T]
    (hs : ColumnsSetting tm any lib g h overrides d d' fnName sig param nodes subs initial out) :
    ∃ sel pruned ren, d'.select = some sel ∧ sel.Nodup ∧ param ∉ sel ∧
      Placed g overrides lib (d.ns.getD fnName) param d.passed sel subs pruned ren ∧ ren param = param ∧
      (∀ c ∈ sel, c ∈ pruned.map (·.name)) ∧ (d.passed ++ subs.map (·.name)).Nodup ∧
      ∀ n ∈ nodes, param ∈ n.inputTypes.keys →
        reassignInputs [(param, assignNamespace "_append" (d.ns.getD fnName))] [] n ∈ out := by
  obtain ⟨p, pruned, hp, hpi, _, hnd, hpr, _, rfl, rfl⟩ := withColumns_ok hs.built
  have := FrameParam.det hp hs.frame
  subst this
  have hk := prune_facts hnd hs.order hpr
  have hsub := chosen_sub hk
  have hpl := placed (g := g) (overrides := overrides) (nodes := nodes) hs.fresh hk hs.select_nodup hs.names (injectable_mem hpi)
    (fun m hm => hs.defines m (List.mem_append_right _ hm)) (fun m hm => hs.not_overridden m (List.mem_append_right _ hm))
  have hpk : p ∉ pruned.map (·.name) := by
    intro hm
    obtain ⟨n, hn, he⟩ := List.mem_map.1 hm
    rcases hpl.mem n hn with ⟨c, hc, rfl⟩ | h'
    · exact hs.names.param_col ((show c = p from he) ▸ hc)
    · exact hs.names.param_sub n h' he
  refine ⟨_, pruned, _, rfl, chosen_nodup hk hs.select_nodup, fun hm => hpk (hsub _ hm), hpl, hpl.outside _ hpk hs.names.param_append,
    hsub, by rw [generated_names] at hnd; exact hnd, ?_⟩
  intro n hn hpn
  refine List.mem_append_left _ (List.mem_map.2 ⟨n, hn, ?_⟩)
  rw [if_pos ((Dict.has_iff _ _).2 hpn)]

/-- **C68, the columns are added (partial).**  Let `df` be the value of the dataframe parameter.  The value of a function
decorated with `@with_columns` is what it returns when that parameter is `df` with the selected columns added or replaced
(and the other parameters are unaffected); the value of a selected column is the column of `df` if it is one of
`columns_to_pass`, and otherwise what a separate driver computes for the function of that name, given the columns of `df`
and the values of the surrounding graph.  Missing: names that clash (`ColumnNames`), repeated selection, and dataframes
that lack a passed column (then `given` does not exist; `C68_missing_column`). -/
theorem C68_value_partial [DecidableEq T]
    (hs : ColumnsSetting tm any lib g h overrides d d' fnName sig param nodes subs initial out)
    (hsel : d'.select = some sel) (hdf : Den g inputs overrides param df)
    (hgiven : GivenColumns lib g h inputs overrides d.passed sel df given)
    {n : Node T V} (hn : n ∈ nodes) (hpn : param ∈ n.inputTypes.keys) (v : V) :
    Den g inputs overrides n.name v ↔
      InjectedValue g inputs overrides n param (Extended lib h d.passed df given sel) v := by
  obtain ⟨sel', pruned, ren, hsel', hnd, hps, hpl, hren, hsub, hnodup, hout⟩ := hs.parts
  rw [hsel] at hsel'; cases hsel'
  have hm := hout n hn hpn
  have hname : (reassignInputs [(param, assignNamespace "_append" (d.ns.getD fnName))] [] n).name = n.name := rfl
  rw [← hname, den_iff_fnValue (hs.defines _ hm) (hs.own_fresh n hn).kind (hs.not_overridden _ hm) v]
  refine injected_value (hs.own_fresh n hn).params_nodup hpn ?_ ?_ ?_ v
  · intro _ hin
    exact hs.names.outside_fn n hn _ hin "_append" rfl
  · exact Defines.not_absent hpl.defines_append (by simp [renameNode, appendNode])
  · intro y
    have hden := den_iff_fnValue (inputs := inputs) hpl.defines_append (by simp [renameNode, appendNode]) hpl.plain_append y
    have he : (renameNode ren (assignNamespace "_append" (d.ns.getD fnName)) (appendNode lib param sel)).name =
      assignNamespace "_append" (d.ns.getD fnName) := rfl
    rw [he] at hden
    rw [hden, append_value hnd hps hpl.apart_append]
    have hval : ∀ c ∈ sel, ∀ w, (Den g inputs overrides (ren c) w ↔ ColumnValue lib h d.passed df given c w) :=
      fun c hc w => placed_values hpl hren hs.fresh hs.separate hnodup hsub (fun n hn => (hs.names.append_sub n hn).2) hdf
        hgiven hc w
    unfold Extended
    constructor
    · rintro ⟨x, cols, hx, hck, hcv, ha⟩
      rw [hren] at hx
      have := Den.det hdf hx
      subst this
      refine ⟨cols, hck, ?_, ha⟩
      intro c w hcw
      exact (hval c (by rw [← hck]; exact List.mem_map.2 ⟨_, hcw, rfl⟩) w).1 (hcv c w hcw)
    · rintro ⟨cols, hck, hcv, ha⟩
      refine ⟨df, cols, by rw [hren]; exact hdf, hck, ?_, ha⟩
      intro c w hcw
      exact (hval c (by rw [← hck]; exact List.mem_map.2 ⟨_, hcw, rfl⟩) w).2 (hcv c w hcw)

/-- **C68, no dataframe, no value.**  Without a value for the dataframe parameter the decorated function has none. -/
theorem C68_no_frame [DecidableEq T]
    (hs : ColumnsSetting tm any lib g h overrides d d' fnName sig param nodes subs initial out)
    (hdf : ∀ x, ¬ Den g inputs overrides param x) {n : Node T V} (hn : n ∈ nodes) (hpn : param ∈ n.inputTypes.keys) (v : V) :
    ¬ Den g inputs overrides n.name v := by
  obtain ⟨sel, pruned, ren, _, hnd, hps, hpl, hren, _, _, hout⟩ := hs.parts
  have hm := hout n hn hpn
  have hname : (reassignInputs [(param, assignNamespace "_append" (d.ns.getD fnName))] [] n).name = n.name := rfl
  rw [← hname, den_iff_fnValue (hs.defines _ hm) (hs.own_fresh n hn).kind (hs.not_overridden _ hm) v,
    injected_value (R := fun _ => False) (hs.own_fresh n hn).params_nodup hpn]
  · rintro ⟨val, ⟨y, hy, _⟩, _⟩
    exact hy
  · intro _ hin
    exact hs.names.outside_fn n hn _ hin "_append" rfl
  · exact Defines.not_absent hpl.defines_append (by simp [renameNode, appendNode])
  · intro y
    have hden := den_iff_fnValue (inputs := inputs) hpl.defines_append (by simp [renameNode, appendNode]) hpl.plain_append y
    have he : (renameNode ren (assignNamespace "_append" (d.ns.getD fnName)) (appendNode lib param sel)).name =
      assignNamespace "_append" (d.ns.getD fnName) := rfl
    rw [he] at hden
    rw [hden, append_value hnd hps hpl.apart_append]
    constructor
    · rintro ⟨x, _, hx, _⟩
      rw [hren] at hx
      exact hdf x hx
    · exact False.elim

/-- **C68, a passed column is missing.**  If a column of `columns_to_pass` that is needed for the selected columns is not in
the dataframe, the decorated function has no value (the exception of the column node ends the run). -/
theorem C68_missing_column [DecidableEq T]
    (hs : ColumnsSetting tm any lib g h overrides d d' fnName sig param nodes subs initial out)
    (hsel : d'.select = some sel) (hdf : Den g inputs overrides param df) {c : Name} (hc : c ∈ d.passed)
    (hneed : Needed h [] sel c) (hmiss : ∀ v, lib.column df c ≠ .ok v)
    {n : Node T V} (hn : n ∈ nodes) (hpn : param ∈ n.inputTypes.keys) (v : V) : ¬ Den g inputs overrides n.name v := by
  obtain ⟨sel', pruned, ren, hsel', hnd, hps, hpl, hren, hsub, hnodup, hout⟩ := hs.parts
  rw [hsel] at hsel'; cases hsel'
  have hsplit := hnodup
  rw [List.nodup_append] at hsplit
  obtain ⟨f1, f2, f3, f4⟩ := sep_facts (s := nsSpec (d.ns.getD fnName)) hs.fresh hs.separate (by simp [nsSpec, Dict.keys])
  have hw := (createFunctionGraph_spec hs.fresh hs.separate).1
  have hm := hout n hn hpn
  have hname : (reassignInputs [(param, assignNamespace "_append" (d.ns.getD fnName))] [] n).name = n.name := rfl
  rw [← hname, den_iff_fnValue (hs.defines _ hm) (hs.own_fresh n hn).kind (hs.not_overridden _ hm) v,
    injected_value (R := fun _ => False) (hs.own_fresh n hn).params_nodup hpn]
  · rintro ⟨val, ⟨y, hy, _⟩, _⟩
    exact hy
  · intro _ hin
    exact hs.names.outside_fn n hn _ hin "_append" rfl
  · exact Defines.not_absent hpl.defines_append (by simp [renameNode, appendNode])
  · intro y
    have hden := den_iff_fnValue (inputs := inputs) hpl.defines_append (by simp [renameNode, appendNode]) hpl.plain_append y
    have he : (renameNode ren (assignNamespace "_append" (d.ns.getD fnName)) (appendNode lib param sel)).name =
      assignNamespace "_append" (d.ns.getD fnName) := rfl
    rw [he] at hden
    rw [hden, append_value hnd hps hpl.apart_append]
    refine ⟨?_, False.elim⟩
    rintro ⟨x, cols, hx, hck, hcv, _⟩
    have hsubk : ∀ n ∈ subs, n.name ∈ pruned.map (·.name) → n ∈ pruned := by
      intro n hn hm
      obtain ⟨n', hn', he⟩ := List.mem_map.1 hm
      rcases hpl.mem n' hn' with ⟨c', hc', rfl⟩ | h'
      · exact absurd (show c' = n.name from he) (hsplit.2.2 c' hc' n.name (List.mem_map.2 ⟨n, hn, rfl⟩))
      · rw [← eq_of_name hsplit.2.1 h' hn he]; exact hn'
    -- everything needed has a value or is an optional input left out
    have key : ∀ k, Needed h [] sel k → (∃ w, Den g inputs overrides (ren k) w) ∨ Absent g inputs overrides (ren k) := by
      intro k hk
      induction hk with
      | @req k hk =>
        rw [← hck] at hk
        obtain ⟨w, hw⟩ := Dict.mem_keys_iff.1 hk
        exact .inl ⟨w, hcv k w (Dict.get?_mem hw)⟩
      | @param m mn x h1 _ h3 h4 ih =>
        have hke : mn.kind ≠ .external := by
          intro he
          rw [hw.external_no_params h3 he] at h4; cases h4
        obtain ⟨n1, hn1, rfl, hsf⟩ := f2 m mn h3 hke
        have hin := needed_kept hpl hs.fresh hs.separate hnodup hsub h1
          (List.mem_append_right _ (List.mem_map.2 ⟨n1, hn1, rfl⟩))
        have hn1p := hsubk n1 hn1 hin
        rw [hpl.inside _ hin] at ih
        rcases ih with ⟨w, hw'⟩ | ha
        · have := (den_iff_fnValue (inputs := inputs) (hpl.defines n1 hn1p) (hs.fresh n1 hn1).kind (hpl.plain n1 hn1p) w).1 hw'
          obtain ⟨val, a1, a2, _⟩ := (renamed_value (hpl.apart n1 hn1p) _ w).1 this
          rw [hsf.inputTypes] at h4
          cases hv : val x with
          | some u => exact .inl ⟨u, a1 x u h4 hv⟩
          | none =>
            obtain ⟨q, hq, rfl⟩ := List.mem_map.1 h4
            exact .inr (a2 q.1 q.2 hq hv).2
        · exact absurd ha (Defines.not_absent (hpl.defines n1 hn1p) (hs.fresh n1 hn1).kind)
    have hin := needed_kept hpl hs.fresh hs.separate hnodup hsub hneed (List.mem_append_left _ hc)
    have hcol : columnNode lib param c ∈ pruned := by
      obtain ⟨n, hn, he⟩ := List.mem_map.1 hin
      rcases hpl.mem n hn with ⟨c', _, rfl⟩ | h'
      · have : c' = c := he
        subst this; exact hn
      · exact absurd he.symm (hsplit.2.2 c hc n.name (List.mem_map.2 ⟨n, h', rfl⟩))
    have := key c hneed
    rw [hpl.inside _ hin] at this
    rcases this with ⟨w, hw'⟩ | ha
    · exact hmiss w ((placed_column hpl hren hdf hcol w).1 hw')
    · exact (Defines.not_absent (hpl.defines _ hcol) (by simp [renameNode, columnNode])) ha

/-- **C68, only what is needed.**  With a selection, a function given to the decorator becomes a node (`namespace.name`) of
the driver iff the separate driver needs it for one of the selected columns. -/
theorem C68_pruned [DecidableEq T]
    (hs : ColumnsSetting tm any lib g h overrides d d' fnName sig param nodes subs initial out)
    (hsel : d.select = some sel) (hown : ∀ n ∈ nodes, ∀ q, n.name ≠ d.ns.getD fnName ++ "." ++ q)
    {k : Name} (hk : k ∈ subs.map (·.name)) :
    (d.ns.getD fnName ++ "." ++ k) ∈ out.map (·.name) ↔ Needed h [] sel k := by
  obtain ⟨p, pruned, hp, hpi, _, hnd, hpr, _, rfl, rfl⟩ := withColumns_ok hs.built
  have := FrameParam.det hp hs.frame
  subst this
  have hkept := prune_facts hnd hs.order hpr
  have hsub := chosen_sub hkept
  have hpl := placed (g := g) (overrides := overrides) (nodes := nodes) hs.fresh hkept hs.select_nodup hs.names (injectable_mem hpi)
    (fun m hm => hs.defines m (List.mem_append_right _ hm)) (fun m hm => hs.not_overridden m (List.mem_append_right _ hm))
  have hch : chosenColumns lib d.select pruned = sel := by rw [hsel]; rfl
  rw [hch] at hsub hpl
  have hnames := hnd
  rw [generated_names] at hnames
  have hnames' := hnames
  rw [List.nodup_append] at hnames'
  obtain ⟨f1, _, _, _⟩ := sep_facts (s := nsSpec (d.ns.getD fnName)) hs.fresh hs.separate (by simp [nsSpec, Dict.keys])
  -- membership in the result is membership in the pruned nodes
  have hiff : (d.ns.getD fnName ++ "." ++ k) ∈ (nodes.map (fun n => if n.inputTypes.has p then
          reassignInputs [(p, assignNamespace "_append" (d.ns.getD fnName))] [] n else n) ++
        addNamespace (pruned ++ [appendNode lib p (chosenColumns lib d.select pruned)]) (nsSpec (d.ns.getD fnName))).map (·.name) ↔
      k ∈ pruned.map (·.name) := by
    rw [List.map_append, List.mem_append]
    constructor
    · rintro (hm | hm)
      · exfalso
        obtain ⟨n', hn', he⟩ := List.mem_map.1 hm
        obtain ⟨n, hn, rfl⟩ := List.mem_map.1 hn'
        refine hown n hn k ?_
        rw [← he]
        split <;> rfl
      · obtain ⟨n', hn', he⟩ := List.mem_map.1 hm
        rw [addNamespace_eq] at hn'
        obtain ⟨n, hn, rfl⟩ := List.mem_map.1 hn'
        have : n.name = k := assignNamespace_inj (ns := d.ns.getD fnName) he
        rcases List.mem_append.1 hn with hn | hn
        · exact List.mem_map.2 ⟨n, hn, this⟩
        · simp only [List.mem_singleton] at hn
          subst hn
          obtain ⟨x, hx, hxe⟩ := List.mem_map.1 hk
          exact absurd (hxe.trans this.symm) (hs.names.append_sub x hx).1
    · intro hm
      obtain ⟨n, hn, rfl⟩ := List.mem_map.1 hm
      refine .inr ?_
      rw [addNamespace_eq, List.map_map]
      exact List.mem_map.2 ⟨n, List.mem_append_left _ hn, rfl⟩
  rw [hiff]
  constructor
  · intro hm
    obtain ⟨n, hn, rfl⟩ := List.mem_map.1 hm
    have hwant := hkept.wanted sel hsel n hn
    have gen : ∀ k, Wanted ((generatedNodes lib d p subs).map toTNode) sel k → k ∈ d.passed ++ subs.map (·.name) →
        Needed h [] sel k := by
      intro k hwk
      induction hwk with
      | selected h => intro _; exact .req h
      | @needed y x h1 h2 h3 ih =>
        intro hx
        obtain ⟨a, b, hab, _⟩ := h2
        have hy : y ∈ (generatedNodes lib d p subs).map toTNode := by rw [hab]; simp
        obtain ⟨n1, hn1, rfl⟩ := List.mem_map.1 hy
        rcases List.mem_append.1 hn1 with hc | hsn
        · obtain ⟨c, _, rfl⟩ := List.mem_map.1 hc
          simp only [toTNode, columnNode, Dict.keys, List.map_cons, List.map_nil, List.mem_singleton] at h3
          subst h3
          exfalso
          rcases List.mem_append.1 hx with hx | hx
          · exact hs.names.param_col hx
          · obtain ⟨z, hz, hze⟩ := List.mem_map.1 hx
            exact hs.names.param_sub z hz hze
        · obtain ⟨m, hm, hsf⟩ := f1 n1 hsn
          refine .param (ih (List.mem_append_right _ (List.mem_map.2 ⟨n1, hsn, rfl⟩))) rfl hm ?_
          rw [hsf.inputTypes]; exact h3
    exact gen n.name hwant (List.mem_append_right _ hk)
  · intro hneed
    exact needed_kept hpl hs.fresh hs.separate hnames hsub hneed (List.mem_append_right _ hk)

/-- **C68, which columns are added.**  The columns added are those of `select`; without `select`, all of `columns_to_pass`
and all functions that return a column. -/
theorem C68_selection [DecidableEq T] (hb : withColumnsNodes lib d fnName sig nodes subs initial = .ok (out, d')) :
    (∀ s, d.select = some s → d'.select = some s) ∧
    (d.select = none → d'.select = some (d.passed ++ (subs.filter (fun n => n.typ = lib.colT)).map (·.name))) ∧
    d'.columns = d.columns ∧ d'.onInput = d.onInput ∧ d'.ns = d.ns := by
  obtain ⟨p, pruned, _, _, _, hnd, hpr, _, rfl, _⟩ := withColumns_ok hb
  refine ⟨?_, ?_, rfl, rfl, rfl⟩
  · intro s hs; simp only [hs]; rfl
  · intro hn
    have hkept := prune_facts hnd (by rw [hn]; nofun) hpr
    simp only [hn]
    rw [hkept.all hn]
    congr 1
    simp only [chosenColumns, generatedNodes, List.filter_append, List.map_append]
    congr 1
    induction d.passed with
    | nil => rfl
    | cons c cs ih =>
      rw [List.map_cons, List.filter_cons, if_pos (by simp [columnNode]), List.map_cons, ih]
      rfl

/-- **C68, what is accepted.**  The decorator is accepted iff there is a dataframe parameter that the nodes of the function
need, `columns_to_pass` (not empty) or `on_input` is given, no two columns or functions have the same name, all selected
columns exist, and there is at least one column or function (and, with `select`, one selected). -/
theorem C68_accepted [DecidableEq T]
    (horder : ∀ p s, FrameParam d sig p → d.select = some s →
      InitialStack ((d.passed.map (columnNode lib p) ++ subs).map toTNode) s initial) :
    (∃ out d', withColumnsNodes lib d fnName sig nodes subs initial = .ok (out, d')) ↔
      (∃ p, FrameParam d sig p ∧ (∃ n ∈ nodes, p ∈ n.inputTypes.keys) ∧ p ∉ nodes.map (·.name)) ∧
      (d.onInput = none → ∃ cs, d.columns = some cs ∧ cs ≠ []) ∧
      (d.passed ++ subs.map (·.name)).Nodup ∧
      (∀ s, d.select = some s → s ≠ [] ∧ ∀ c ∈ s, c ∈ d.passed ++ subs.map (·.name)) ∧
      (d.select = none → d.passed ++ subs.map (·.name) ≠ []) := by
  have hinj : ∀ p, p ∈ injectableParams nodes ↔ (∃ n ∈ nodes, p ∈ n.inputTypes.keys) ∧ p ∉ nodes.map (·.name) := by
    intro p
    unfold injectableParams
    rw [List.mem_filter, List.mem_flatMap]
    simp
  constructor
  · rintro ⟨out, d', hb⟩
    obtain ⟨p, pruned, hp, hpi, hcols, hnd, hpr, hne, _, _⟩ := withColumns_ok hb
    have hkept := prune_facts hnd (fun s h => horder p s hp h) hpr
    have hacc := (prune_accepts (nodes := generatedNodes lib d p subs) (fun s h => horder p s hp h)).1 ⟨pruned, hpr⟩
    rw [generated_names] at hnd hacc
    refine ⟨⟨p, hp, (hinj p).1 hpi⟩, hcols, hnd, ?_, ?_⟩
    · intro s hs
      refine ⟨?_, hacc s hs⟩
      rintro rfl
      apply hne
      cases hpd : pruned with
      | nil => rfl
      | cons x l =>
        exfalso
        have := hkept.wanted [] hs x (by rw [hpd]; simp)
        have none : ∀ k, ¬ Wanted ((generatedNodes lib d p subs).map toTNode) [] k := by
          intro k hk
          induction hk with
          | selected h => cases h
          | needed _ _ _ ih => exact ih
        exact none _ this
    · intro hn he
      apply hne
      rw [hkept.all hn]
      have : (generatedNodes lib d p subs).map (·.name) = [] := by rw [generated_names]; exact he
      simpa using this
  · rintro ⟨⟨p, hp, hpi⟩, hcols, hnd, hsel, hnon⟩
    have h1 : initialNodes lib d sig (injectableParams nodes) = .ok (p, d.passed.map (columnNode lib p)) :=
      initialNodes_ok.2 ⟨hp, (hinj p).2 hpi, hcols, rfl⟩
    have h2 : containsDuplicates ((d.passed.map (columnNode lib p) ++ subs).map (·.name)) = false := by
      rw [containsDuplicates_iff]
      have := generated_names lib d p subs
      unfold generatedNodes at this
      rw [this]; exact hnd
    obtain ⟨pruned, h3⟩ := (prune_accepts (nodes := generatedNodes lib d p subs) (fun s h => horder p s hp h)).2 (by
      intro s hs; rw [generated_names]; exact (hsel s hs).2)
    have hkept := prune_facts (nodes := generatedNodes lib d p subs) (by rw [generated_names]; exact hnd) (fun s h => horder p s hp h) h3
    have h4 : pruned.length ≠ 0 := by
      intro hl
      have hnil : pruned = [] := List.length_eq_zero_iff.1 hl
      cases hs : d.select with
      | some s =>
        obtain ⟨hne, _⟩ := hsel s hs
        cases s with
        | nil => exact hne rfl
        | cons c s =>
          have := hkept.selected _ hs c (by simp)
          rw [hnil] at this; cases this
      | none =>
        have := hkept.all hs
        apply hnon hs
        rw [← generated_names lib d p subs, ← this, hnil]
        rfl
    unfold generatedNodes at h3
    unfold withColumnsNodes withColumnsInject
    rw [h1]
    simp only [h2, h3, Bool.false_eq_true, if_false, if_neg h4]
    exact ⟨_, _, rfl⟩

/-- **C68, arguments.**  The decorator can be created iff `pass_dataframe_as` is not used and not both of `columns_to_pass` and
`on_input` are given. -/
theorem C68_arguments {columns select : Option (List Name)} {passAs onInput ns : Option Name} :
    (∃ d, WithColumns.init columns passAs onInput select ns = .ok d) ↔
      passAs = none ∧ ¬ (columns.isSome ∧ onInput.isSome) := by
  unfold WithColumns.init
  cases passAs <;> cases columns <;> cases onInput <;> simp

end

namespace ColumnSample
open DecorSample PipeSample

/-- A dataframe is a dictionary of numbers here. -/
def frames : FrameLib Unit DV where
  colT := ()
  dfT := ()
  column := fun v c => match v with
    | .dict l => match Dict.get? l c with
      | some x => .ok x
      | none => .error "InvalidDecoratorException"
    | _ => .error "TypeError"
  assign := fun v cols => match v with
    | .dict l => .ok (.dict (Dict.merge l cols))
    | _ => .error "TypeError"

/-- `def a2(x): return 2 * x`, `def s(a2, w): return a2 + w`, `def unused(z): return z`. -/
def subFns : List (Node Unit DV) :=
  [fnode "a2" [("x", .required)] (fun kw => .ok (.int (2 * argI kw "x" 0))),
    fnode "s" [("a2", .required), ("w", .required)] (fun kw => .ok (.int (argI kw "a2" 0 + argI kw "w" 0))),
    fnode "unused" [("z", .required)] (fun kw => .ok (.int (argI kw "z" 0)))]

/-- `@with_columns(a2, s, unused, columns_to_pass=["x"], select=["s", "x"])`. -/
def deco : WithColumns := { columns := some ["x"], onInput := none, select := some ["s", "x"], ns := none }

/-- `def f(df, k): return 100 * df["s"] + k`. -/
def fn : Node Unit DV := fnode "f" [("df", .required), ("k", .required)] (fun kw =>
  match kw.get? "df" with
  | some (.dict l) => .ok (.int (100 * argI l "s" 0 + argI kw "k" 0))
  | _ => .error "TypeError")

/-- The order of the selected nodes. -/
def order : List TNode := [toTNode (columnNode frames "df" "x"), toTNode subFns[1]]

/-- The nodes of `f`. -/
def all : List (Node Unit DV) :=
  match withColumnsNodes frames deco "f" ["df", "k"] [fn] subFns order with
  | .ok r => r.1
  | .error _ => []

/-- Inputs of the run. -/
def ins (l : List (String × DV)) : Dict Name DV := [("df", .dict l), ("k", .int 3), ("w", .int 7)]

example : all.map (·.name) = ["f", "f.s", "f.a2", "f.x", "f._append"] ∧
    run all (ins [("x", .int 5), ("y", .int 1)]) "f" = .inl (some 1703) ∧
    run all (ins [("y", .int 1)]) "f" = .inr (some (.raised "f.x" "InvalidDecoratorException")) := by decide +kernel

/-- The decorator after the build. -/
def deco' : WithColumns := { deco with select := some ["s", "x"] }

theorem built : withColumnsNodes frames deco "f" ["df", "k"] [fn] subFns order = .ok (all, deco') := by
  have h : (match withColumnsNodes frames deco "f" ["df", "k"] [fn] subFns order with
    | .ok r => decide (r.2 = deco')
    | .error _ => false) = true := by decide +kernel
  unfold all
  revert h
  generalize withColumnsNodes frames deco "f" ["df", "k"] [fn] subFns order = r
  intro h
  match r, h with
  | .ok (o, d), h =>
    have : d = deco' := by simpa using h
    rw [this]

theorem order_ok : InitialStack ((deco.passed.map (columnNode frames "df") ++ subFns).map toTNode) ["s", "x"] order := by
  refine ⟨by decide +kernel, ?_⟩
  intro n
  constructor
  · intro hn
    have : ∀ m ∈ order, m.name ∈ ["s", "x"] ∧
      (nodeNameMap ((deco.passed.map (columnNode frames "df") ++ subFns).map toTNode)).get? m.name = some m := by decide +kernel
    exact this n hn
  · rintro ⟨h1, h2⟩
    have hs : (nodeNameMap ((deco.passed.map (columnNode frames "df") ++ subFns).map toTNode)).get? "s" = some (toTNode subFns[1]) := by
      decide +kernel
    have hx : (nodeNameMap ((deco.passed.map (columnNode frames "df") ++ subFns).map toTNode)).get? "x" =
        some (toTNode (columnNode frames "df" "x")) := by decide +kernel
    simp only [List.mem_cons, List.not_mem_nil, or_false] at h1
    rcases h1 with h1 | h1
    · rw [h1, hs] at h2; cases h2; simp [order]
    · rw [h1, hx] at h2; cases h2; simp [order]

theorem not_prefixed {p : Name} (h : p.toList.take 2 ≠ ['f', '.']) (q : Name) : p ≠ "f" ++ "." ++ q := by
  rintro rfl
  apply h
  simp

theorem names_ok : ColumnNames "f" "df" deco.passed subFns [fn] where
  param_sub := by decide +kernel
  param_col := by decide +kernel
  param_append := by decide
  append_sub := by decide +kernel
  append_col := by decide +kernel
  outside_sub := by
    have key : ∀ n ∈ subFns, ∀ p ∈ n.inputTypes.keys, p.toList.take 2 ≠ ['f', '.'] := by decide +kernel
    intro n hn p hp q
    exact not_prefixed (key n hn p hp) q
  outside_fn := by
    have key : ∀ n ∈ [fn], ∀ p ∈ n.inputTypes.keys, p.toList.take 2 ≠ ['f', '.'] := by decide +kernel
    intro n hn p hp q
    exact not_prefixed (key n hn p hp) q

theorem setting : ColumnsSetting (fun _ _ => true) () frames (build all) (build subFns) [] deco deco' "f" ["df", "k"] "df" [fn]
    subFns order all where
  fresh := fresh_of (by decide +kernel)
  own_fresh := fresh_of (by decide +kernel)
  built := built
  frame := .inr ⟨rfl, rfl⟩
  order := by intro s hs; cases hs; exact order_ok
  select_nodup := by intro s hs; cases hs; decide
  names := names_ok
  separate := build_eq (by decide +kernel)
  defines := defines_of (by decide +kernel) (by decide +kernel)
  not_overridden := fun _ _ => rfl

/-- An input of the sample. -/
theorem input_den {l : List (String × DV)} {k : Name} {v : DV} (h : ((build all).get? k).map (·.kind) = some .external)
    (hv : (ins l).get? k = some v) : Den (build all) (ins l) [] k v := by
  cases hx : (build all).get? k with
  | none => rw [hx] at h; cases h
  | some n => rw [hx] at h; exact .input hx rfl (Option.some.inj h) hv

/-- The dataframe of the run. -/
def frame : List (String × DV) := [("x", .int 5), ("y", .int 1)]

theorem given_ok : GivenColumns frames (build all) (build subFns) (ins frame) [] deco.passed ["s", "x"] (.dict frame)
    [("x", .int 5), ("w", .int 7)] := by
  have hneed : ∀ p, Needed (build subFns) [] ["s", "x"] p → p ∈ ["s", "x", "a2", "w"] := by
    have key : ∀ m ∈ ["s", "x", "a2", "w"], (match (build subFns).get? m with
      | some n => n.inputTypes.keys.all (fun d => ["s", "x", "a2", "w"].contains d)
      | none => true) = true := by decide +kernel
    intro p hp
    induction hp with
    | req h =>
      simp only [List.mem_cons, List.not_mem_nil, or_false] at h ⊢
      rcases h with rfl | rfl <;> simp
    | @param m mn x _ _ h3 h4 ih =>
      have := key m ih
      rw [h3] at this
      simp only at this
      have := List.all_eq_true.1 this x h4
      simpa using this
  intro p m hp hm he
  have := hneed p hp
  simp only [List.mem_cons, List.not_mem_nil, or_false] at this
  rcases this with rfl | rfl | rfl | rfl
  · have : ((build subFns).get? "s").map (·.kind) = some .standard := by decide +kernel
    rw [hm] at this; simp only [Option.map_some, Option.some.injEq] at this; rw [he] at this; cases this
  · exact ⟨fun _ => ⟨.int 5, rfl, rfl⟩, fun h => absurd (by decide : "x" ∈ deco.passed) h⟩
  · have : ((build subFns).get? "a2").map (·.kind) = some .standard := by decide +kernel
    rw [hm] at this; simp only [Option.map_some, Option.some.injEq] at this; rw [he] at this; cases this
  · exact ⟨fun h => absurd h (by decide), fun _ => .inl ⟨.int 7, rfl, input_den (by decide +kernel) rfl⟩⟩

/-- Non-vacuity of `C68_value_partial`. -/
example (v : DV) : Den (build all) (ins frame) [] "f" v ↔
    InjectedValue (build all) (ins frame) [] fn "df" (Extended frames (build subFns) ["x"] (.dict frame)
      [("x", .int 5), ("w", .int 7)] ["s", "x"]) v :=
  C68_value_partial setting rfl (input_den (by decide +kernel) rfl) given_ok (List.mem_singleton.2 rfl) (by decide +kernel) v

/-- Non-vacuity of `C68_no_frame`: without an input `df` there is no value. -/
example (v : DV) : ¬ Den (build all) [("k", .int 3), ("w", .int 7)] [] "f" v := by
  refine C68_no_frame setting ?_ (List.mem_singleton.2 rfl) (by decide +kernel) v
  intro x hx
  have h : ((build all).get? "df").map (·.kind) = some .external := by decide +kernel
  cases hx with
  | override _ h2 => cases h2
  | input _ _ _ h4 => cases h4
  | call _ h1 _ h3 => rw [h1] at h; simp only [Option.map_some, Option.some.injEq] at h; exact h3 h

/-- Non-vacuity of `C68_missing_column`: a dataframe without `x`. -/
example (v : DV) : ¬ Den (build all) (ins [("y", .int 1)]) [] "f" v := by
  refine C68_missing_column setting (sel := ["s", "x"]) (df := .dict [("y", .int 1)]) (c := "x") rfl (input_den (by decide +kernel) rfl)
    (by decide +kernel) (.req (by simp)) ?_ (List.mem_singleton.2 rfl) (by decide +kernel) v
  intro w h
  cases h

/-- Non-vacuity of `C68_pruned`: `a2` is there, `unused` is not. -/
example : ("f.a2" ∈ all.map (·.name) ↔ Needed (build subFns) [] ["s", "x"] "a2") ∧
    ("f.unused" ∈ all.map (·.name) ↔ Needed (build subFns) [] ["s", "x"] "unused") ∧
    "f.a2" ∈ all.map (·.name) ∧ "f.unused" ∉ all.map (·.name) := by
  have hown : ∀ n ∈ [fn], ∀ q, n.name ≠ deco.ns.getD "f" ++ "." ++ q := by
    intro n hn q
    simp only [List.mem_singleton] at hn
    subst hn
    exact not_prefixed (by decide +kernel) q
  exact ⟨C68_pruned setting (k := "a2") rfl hown (by decide +kernel), C68_pruned setting (k := "unused") rfl hown (by decide +kernel),
    by decide +kernel, by decide +kernel⟩

/-! The decorator remembers the selection of the first build. -/

/-- Types: a column, a dataframe, something else. -/
inductive CT where
  | col
  | df
  | other
  deriving DecidableEq

/-- A library for these types. -/
def lib3 : FrameLib CT DV := { colT := .col, dfT := .df, column := frames.column, assign := frames.assign }

/-- A function without parameters of interest. -/
def node3 (name : Name) (typ : CT) (params : List Name) : Node CT DV :=
  { name, typ, kind := .standard, inputTypes := params.map (fun p => (p, (.col, .required))), dependencies := [],
    dependedOnBy := [], fn := fun _ => .ok (.int 0) }

/-- `def f(df): ...`. -/
def fn3 : Node CT DV := node3 "f" .other ["df"]

/-- `@with_columns(..., columns_to_pass=["x"])`, no selection. -/
def fresh3 : WithColumns := { columns := some ["x"], onInput := none, select := none, ns := none }

/-- The names of the nodes and the decorator after a build. -/
def names3 (d : WithColumns) (subs : List (Node CT DV)) (order : List TNode) : Option (List Name × WithColumns) :=
  match withColumnsNodes lib3 d "f" ["df"] [fn3] subs order with
  | .ok r => some (r.1.map (·.name), r.2)
  | .error _ => none

/-- The functions with one configuration: `a` and a helper that is not a column. -/
def subs1 : List (Node CT DV) := [node3 "a" .col ["x"], node3 "helper" .other ["x"]]

/-- The functions with another configuration: `b` in place of `a`. -/
def subs2 : List (Node CT DV) := [node3 "b" .col ["x"]]

/-- The decorator after a first driver was built. -/
def used3 : WithColumns := { fresh3 with select := some ["x", "a"] }

/-- Non-vacuity of `C68_selection` and `C68_accepted`. -/
example : names3 fresh3 subs1 [] = some (["f", "f.x", "f.a", "f.helper", "f._append"], used3) ∧
    fresh3.passed ++ (subs1.filter (fun n => n.typ = lib3.colT)).map (·.name) = ["x", "a"] ∧
    names3 { fresh3 with columns := some [] } subs1 [] = none ∧
    names3 { fresh3 with columns := some ["a"] } subs1 [] = none ∧
    names3 { fresh3 with select := some ["q"] } subs1 [] = none := by decide +kernel

/-- Non-vacuity of `C68_arguments`. -/
example : (∃ d, WithColumns.init (some ["x"]) none none none none = .ok d) ∧
    ¬ ∃ d, WithColumns.init (some ["x"]) none (some "df") none none = .ok d :=
  ⟨C68_arguments.2 ⟨rfl, by simp⟩, fun h => by have := (C68_arguments.1 h).2; simp at this⟩

/-- **C68, violated: a second driver.**  A decorator without `select` is built into a driver.  Building a second driver with
another configuration (`b` in place of `a`) then fails, though it would succeed with a fresh decorator, and adding `b` while
`a` remains adds no column `b`. -/
theorem C68_violated_select :
    names3 fresh3 subs2 [] = some (["f", "f.x", "f.b", "f._append"], { fresh3 with select := some ["x", "b"] }) ∧
    names3 fresh3 subs1 [] = some (["f", "f.x", "f.a", "f.helper", "f._append"], used3) ∧
    (∀ order, InitialStack ((["x"].map (columnNode lib3 "df") ++ subs2).map toTNode) ["x", "a"] order →
      names3 used3 subs2 order = none) ∧
    (∀ order out d', withColumnsNodes lib3 used3 "f" ["df"] [fn3] (subs1 ++ subs2) order = .ok (out, d') →
      d'.select = some ["x", "a"]) := by
  refine ⟨by decide +kernel, by decide +kernel, ?_, ?_⟩
  · intro order ho
    unfold names3
    cases hr : withColumnsNodes lib3 used3 "f" ["df"] [fn3] subs2 order with
    | error e => rfl
    | ok r =>
      exfalso
      have hord : ∀ p s, FrameParam used3 ["df"] p → used3.select = some s →
          InitialStack ((used3.passed.map (columnNode lib3 p) ++ subs2).map toTNode) s order := by
        intro p s hp hs
        have : p = "df" := FrameParam.det hp (.inr ⟨rfl, rfl⟩)
        subst this
        cases hs
        exact ho
      have := ((C68_accepted (fnName := "f") (nodes := [fn3]) hord).1 ⟨r.1, r.2, hr⟩).2.2.2.1 _ rfl
      exact absurd (this.2 "a" (by simp)) (by decide +kernel)
  · intro order out d' h
    exact (C68_selection h).1 _ rfl

/-- **C68, violated: the same driver again.**  With the very same functions the second driver lacks a node (`f.helper`) that
the first one has, for every order of the selected nodes. -/
theorem C68_violated_rebuild :
    (∃ out d', withColumnsNodes lib3 fresh3 "f" ["df"] [fn3] subs1 [] = .ok (out, d') ∧ d' = used3 ∧
      "f.helper" ∈ out.map (·.name)) ∧
    names3 used3 subs1 [toTNode (columnNode lib3 "df" "x"), toTNode subs1[0]] =
      some (["f", "f.a", "f.x", "f._append"], used3) ∧
    names3 used3 subs1 [toTNode subs1[0], toTNode (columnNode lib3 "df" "x")] =
      some (["f", "f.x", "f.a", "f._append"], used3) := by
  refine ⟨?_, by decide +kernel, by decide +kernel⟩
  have h : names3 fresh3 subs1 [] = some (["f", "f.x", "f.a", "f.helper", "f._append"], used3) := by decide +kernel
  unfold names3 at h
  cases hr : withColumnsNodes lib3 fresh3 "f" ["df"] [fn3] subs1 [] with
  | error e => rw [hr] at h; cases h
  | ok r =>
    rw [hr] at h
    simp only [Option.some.injEq, Prod.mk.injEq] at h
    exact ⟨r.1, r.2, rfl, h.2, by rw [h.1]; simp⟩

end ColumnSample

end Verif
