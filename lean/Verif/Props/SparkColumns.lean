import Verif.Proofs.SparkChain
import Verif.Props.Spark

/-!
Property C80: `@with_columns` and `@select` for PySpark add, row by row, what the functions compute.
-/
namespace Verif.Spark
open Verif
variable {T V : Type}

/-! ### Specification -/

/-- The columns that are added: those of `select`, or all functions. -/
def chosen (select : Option (List Name)) (subs : List (Node T V)) : List Name := select.getD (subs.map (·.name))

/-- `fr` is the table `F` with the columns `sel` added (or replaced), or only them: it has as many rows, in the same order; a cell
of a column `c` of `sel` holds what a separate driver for the functions computes for `c`, given the cells of the row of `F` under
the names `passed` and the values of the surrounding graph; every other column of `F` is kept as it is (dropped by `@select`). -/
structure TableWith (g : Graph T (SVal V)) (h : Graph T V) (inputs overrides : Dict Name (SVal V)) (F : Frame V)
    (passed : List Name) (select : Option (List Name)) (only : Bool) (sel : List Name) (fr : Frame V) : Prop where
  added : only = false → ∃ new, fr.columns = F.columns ++ new ∧ new.Nodup ∧ ∀ c, c ∈ new ↔ c ∈ sel ∧ c ∉ F.columns
  selected : only = true → ∀ s, select = some s → fr.columns = s
  selected_all : only = true → select = none → fr.columns.Nodup ∧ ∀ c, c ∈ fr.columns ↔ c ∈ sel
  rows : fr.rows.length = F.rows.length
  kept : only = false → ∀ (i : Nat) (row row' : Dict Name (Cell V)), F.rows[i]? = some row → fr.rows[i]? = some row' →
    ∀ k ∈ F.columns, k ∉ sel → row'.get? k = row.get? k
  cell : ∀ (i : Nat) (row row' : Dict Name (Cell V)), F.rows[i]? = some row → fr.rows[i]? = some row' →
    ∀ given, RowInputs g h inputs overrides F passed row given →
    ∀ c ∈ sel, ∃ x, row'.get? c = some x ∧ ∀ v, x = .ok v ↔ Den h given [] c v

/-- Names that do not get into each other's way: nothing is called like the dataframe parameter or `_select`, and nobody refers
to the namespace `ns` from outside. -/
structure SparkNames (ns param : Name) (subs : List (Node T V)) (nodes : List (Node T (SVal V))) : Prop where
  param_sub : ∀ n ∈ subs, n.name ≠ param ∧ param ∉ n.inputTypes.keys
  param_select : param ≠ "_select"
  select_sub : ∀ n ∈ subs, n.name ≠ "_select" ∧ "_select" ∉ n.inputTypes.keys
  outside_sub : ∀ n ∈ subs, ∀ p ∈ n.inputTypes.keys, ∀ q, p ≠ ns ++ "." ++ q
  outside_fn : ∀ n ∈ nodes, ∀ p ∈ n.inputTypes.keys, ∀ q, p ≠ ns ++ "." ++ q

/-- A function decorated with `@with_columns` or `@select`, and the surrounding graph. -/
structure SparkSetting (tm : T → T → Bool) (any : T) (o : Kinds T) (dfT : T) (g : Graph T (SVal V)) (h : Graph T V)
    (overrides : Dict Name (SVal V)) (d : SparkColumns) (fnName : Name) (sig : List (Name × Bool)) (param : Name)
    (nodes : List (Node T (SVal V))) (subs : List (Node T V)) (initial : List TNode) (out : List (Node T (SVal V))) : Prop where
  /-- the functions are plain definitions that do not see the order of their keyword arguments -/
  fresh : ∀ n ∈ subs, Fresh n
  own_fresh : ∀ n ∈ nodes, Fresh n
  unordered : ∀ n ∈ subs, ∀ kw kw', SameArgs kw kw' → n.fn kw = n.fn kw'
  /-- they do not depend on each other in a circle -/
  acyclic : ∃ rank : Name → Nat, ∀ n ∈ subs, ∀ m ∈ subs, m.name ∈ n.inputTypes.keys → rank m.name < rank n.name
  /-- the decorator accepts them -/
  built : sparkColumnsNodes o dfT d fnName sig nodes (subs.map (revalNode scalarFn)) initial = .ok out
  frame : sig.head?.map (·.1) = some param
  /-- `initial` is an order of the set of selected nodes -/
  order : ∀ s, d.select = some s → InitialStack ((subs.map (revalNode scalarFn : Node T V → Node T (SVal V))).map toTNode) s initial
  names : SparkNames (d.ns.getD fnName) param subs nodes
  /-- the separate driver can be built -/
  separate : createFunctionGraph tm any ([] : Dict Name V) false subs = .ok h
  /-- the surrounding graph contains the generated nodes, none of them overridden -/
  defines : ∀ m ∈ out, Defines g m
  not_overridden : ∀ m ∈ out, overrides.get? m.name = none

section
variable {tm : T → T → Bool} {any : T} {o : Kinds T} {dfT : T} {g : Graph T (SVal V)} {h : Graph T V}
  {inputs overrides : Dict Name (SVal V)} {d : SparkColumns} {fnName param : Name} {sig : List (Name × Bool)}
  {nodes out : List (Node T (SVal V))} {subs : List (Node T V)} {initial : List TNode} {F : Frame V}

/-! ### Lemmas -/

theorem inject_ok (hb : sparkColumnsNodes o dfT d fnName sig nodes (subs.map (revalNode scalarFn)) initial = .ok out)
    (hp : sig.head?.map (·.1) = some param) :
    ∃ pruned sorted, param ∈ injectableParams nodes ∧
      ((subs.map (revalNode scalarFn : Node T V → Node T (SVal V))).map (·.name)).Nodup ∧
      pruneGenerated (subs.map (revalNode scalarFn)) d.select initial = .ok pruned ∧ pruned ≠ [] ∧
      topologicallySortNodes pruned = some sorted ∧
      out = nodes.map (fun n => if n.inputTypes.has param then
          reassignInputs [(param, assignNamespace (chainSubdag o dfT d param sorted).2 (d.ns.getD fnName))] [] n else n) ++
        addNamespace (chainSubdag o dfT d param sorted).1 (nsSpec (d.ns.getD fnName)) := by
  unfold sparkColumnsNodes at hb
  cases hi : sparkInject o dfT d fnName sig (injectableParams nodes) (subs.map (revalNode scalarFn)) initial with
  | error e => rw [hi] at hb; cases hb
  | ok r =>
    obtain ⟨injected, p, last⟩ := r
    rw [hi] at hb
    dsimp only at hb
    unfold sparkInject at hi
    cases sig with
    | nil => cases hi
    | cons s sig =>
      obtain ⟨q, b⟩ := s
      simp only [List.head?_cons, Option.map_some, Option.some.injEq] at hp
      subst hp
      cases b with
      | false => cases hi
      | true =>
        dsimp only at hi
        split at hi
        · cases hi
        · rename_i hc
          split at hi
          · cases hi
          · rename_i hdup
            cases hpr : pruneGenerated (subs.map (revalNode scalarFn)) d.select initial with
            | error e => rw [hpr] at hi; cases hi
            | ok pruned =>
              rw [hpr] at hi
              dsimp only at hi
              split at hi
              · cases hi
              · rename_i hlen
                cases hso : topologicallySortNodes pruned with
                | none => rw [hso] at hi; cases hi
                | some sorted =>
                  rw [hso] at hi
                  dsimp only at hi
                  cases hi
                  cases hb
                  refine ⟨pruned, sorted, by simpa using hc, ?_, rfl, ?_, hso, rfl⟩
                  · exact (containsDuplicates_iff _).1 (by simpa using hdup)
                  · rintro rfl; exact hlen rfl

theorem exists_plain {l : List (Node T (SVal V))} (hl : ∀ n ∈ l, n ∈ subs.map (revalNode scalarFn)) :
    ∃ lV : List (Node T V), l = lV.map (revalNode scalarFn) ∧ ∀ n ∈ lV, n ∈ subs := by
  induction l with
  | nil => exact ⟨[], rfl, by simp⟩
  | cons n l ih =>
    obtain ⟨m, hm, rfl⟩ := List.mem_map.1 (hl n (by simp))
    obtain ⟨lV, rfl, h2⟩ := ih (fun n hn => hl n (by simp [hn]))
    refine ⟨m :: lV, rfl, ?_⟩
    intro x hx
    rcases List.mem_cons.1 hx with rfl | hx
    · exact hm
    · exact h2 x hx

theorem reval_names (l : List (Node T V)) :
    (l.map (revalNode scalarFn : Node T V → Node T (SVal V))).map (·.name) = l.map (·.name) := by
  rw [List.map_map]; rfl

theorem chainUdfs_last (base : Name) (produced passed : List Name) : ∀ (l : List (Node T V)) (cur : Name),
    (chainUdfs o dfT base produced passed (l.map (revalNode scalarFn)) cur).2 = lastName cur l := by
  intro l
  induction l with
  | nil => intro cur; rfl
  | cons n l ih => intro cur; exact ih n.name

theorem chainUdfs_names (base : Name) (produced passed : List Name) : ∀ (l : List (Node T V)) (cur : Name),
    (chainUdfs o dfT base produced passed (l.map (revalNode scalarFn)) cur).1.map (·.name) = l.map (·.name) := by
  intro l
  induction l with
  | nil => intro cur; rfl
  | cons n l ih =>
    intro cur
    simp only [List.map_cons, chainUdfs]
    exact congrArg (n.name :: ·) (ih n.name)

theorem lastName_mem : ∀ (l : List (Node T V)) (cur : Name), l ≠ [] → lastName cur l ∈ l.map (·.name) := by
  intro l
  induction l with
  | nil => intro cur h; exact absurd rfl h
  | cons n l ih =>
    intro cur _
    cases l with
    | nil => simp [lastName]
    | cons m l' =>
      have := ih n.name (by simp)
      rw [List.map_cons]
      exact List.mem_cons_of_mem _ this

/-- Every node of the chain is made from a function of the list; `cur` is a function of the group or the parameter. -/
theorem chainUdfs_mem {base : Name} {produced passed : List Name} : ∀ {l : List (Node T V)} {cur : Name}
    {s : Node T (SVal V)}, s ∈ (chainUdfs o dfT base produced passed (l.map (revalNode scalarFn)) cur).1 →
    ∃ n ∈ l, ∃ c, (c = cur ∨ c ∈ l.map (·.name)) ∧ s = udfNode o dfT base produced passed n c := by
  intro l
  induction l with
  | nil => intro cur s hs; cases hs
  | cons n l ih =>
    intro cur s hs
    simp only [List.map_cons, chainUdfs] at hs
    rcases List.mem_cons.1 hs with rfl | hs
    · exact ⟨n, by simp, cur, .inl rfl, rfl⟩
    · obtain ⟨m, hm, c, hc, rfl⟩ := ih hs
      refine ⟨m, by simp [hm], c, .inr ?_, rfl⟩
      rcases hc with rfl | hc
      · exact List.mem_cons.2 (.inl rfl)
      · simp only [List.map_cons, List.mem_cons]; exact .inr hc

/-- The steps of the chain from facts about all nodes. -/
theorem chainSteps_of {passed group : List Name} {ren : Name → Name}
    (hgfn : ∀ d ∈ group, ∃ m, h.get? d = some m ∧ m.kind ≠ .external) : ∀ {l : List (Node T V)} {pre : List Name} {cur : Name},
    (pre ++ l.map (·.name)).Nodup → (cur = param ∨ cur ∈ group) → (∀ n ∈ l, n.name ∈ group) →
    (∀ n ∈ l, n.inputTypes.keys.Nodup ∧ OrderFree n ∧ n.kind ≠ .external ∧ Defines h n ∧ param ∉ n.inputTypes.keys ∧
      ∀ d ∈ n.inputTypes.keys, d ∉ group → (∃ m, h.get? d = some m ∧ m.kind = .external) ∧ ren d = d ∧ (d ∉ passed → d ∉ F.columns)) →
    (∀ a x b, l = a ++ x :: b → ∀ d ∈ x.inputTypes.keys, d ∈ group → d ∈ pre ++ a.map (·.name)) →
    (∀ s ∈ (chainUdfs o dfT param group passed (l.map (revalNode scalarFn)) cur).1, KeepsApart ren s ∧
      Defines g (renameNode ren (ren s.name) s) ∧ overrides.get? (ren s.name) = none) →
    ChainSteps o dfT g h overrides F passed group param ren pre cur l := by
  intro l
  induction l with
  | nil => intros; trivial
  | cons n l ih =>
    intro pre cur hnd hcur hgr hn hord hch
    have hmem : udfNode o dfT param group passed n cur ∈
        (chainUdfs o dfT param group passed ((n :: l).map (revalNode scalarFn)) cur).1 := by
      simp only [List.map_cons, chainUdfs]
      exact List.mem_cons.2 (.inl rfl)
    obtain ⟨c1, c2, c3⟩ := hch _ hmem
    obtain ⟨n1, n2, n3, n4, n5, n6⟩ := hn n (by simp)
    refine ⟨⟨n1, n2, n3, c1, c2, c3, n4, ?_, n6, hgfn, n5, hcur⟩, ?_, hgr n (by simp), ?_⟩
    · intro d hd hdg
      simpa using hord [] n l rfl d hd hdg
    · rw [List.nodup_append] at hnd
      intro hp
      exact hnd.2.2 n.name hp n.name (by simp) rfl
    · refine ih ?_ (.inr (hgr n (by simp))) (fun m hm => hgr m (by simp [hm])) (fun m hm => hn m (by simp [hm])) ?_ ?_
      · simpa using hnd
      · intro a x b he d hd hdg
        have := hord (n :: a) x b (by rw [he]; rfl) d hd hdg
        simpa using this
      · intro s hs
        refine hch s ?_
        simp only [List.map_cons, chainUdfs]
        exact List.mem_cons.2 (.inr hs)

/-- A node with one required parameter. -/
theorem single_value {ren : Name → Name} {s : Node T (SVal V)} {up : Name} (hi : s.inputTypes = [(up, (dfT, .required))])
    (hk : s.kind ≠ .external) (hka : KeepsApart ren s) (hd : Defines g (renameNode ren (ren s.name) s))
    (ho : overrides.get? (ren s.name) = none) (y : SVal V) :
    Den g inputs overrides (ren s.name) y ↔ ∃ x, Den g inputs overrides (ren up) x ∧ s.fn [(up, x)] = .ok y := by
  have hden := den_iff_fnValue (inputs := inputs) (n := renameNode ren (ren s.name) s) hd hk ho y
  have hn : (renameNode ren (ren s.name) s).name = ren s.name := rfl
  rw [hn] at hden
  rw [hden, renamed_value hka]
  constructor
  · rintro ⟨val, h1, h2, h3⟩
    rw [hi] at h1 h2 h3
    cases hv : val up with
    | none =>
      have := (h2 up (dfT, .required) (by simp) hv).1
      cases this
    | some x =>
      refine ⟨x, h1 up x (by simp [Dict.keys]) hv, ?_⟩
      simpa [argsFor, hv] using h3
  · rintro ⟨x, hx, h3⟩
    refine ⟨fun _ => some x, ?_, ?_, ?_⟩
    · intro p w hp hw
      rw [hi] at hp
      simp only [Dict.keys, List.map_cons, List.map_nil, List.mem_singleton] at hp
      subst hp; cases hw; exact hx
    · intro _ _ _ h; cases h
    · rw [hi]; simpa [argsFor] using h3

/-- What the last node holds, given what the chain holds. -/
def LastValue (d : SparkColumns) (names : List Name) (f : Frame V) (y : SVal V) : Prop :=
  if d.selectMode then (∀ c ∈ d.select.getD names, c ∈ f.columns) ∧ y = .frame (f.select (d.select.getD names))
  else if dropList d.select names = [] then y = .frame f
  else y = .frame (f.drop (dropList d.select names))

/-- The setting, taken apart. -/
theorem SparkSetting.parts (hs : SparkSetting tm any o dfT g h overrides d fnName sig param nodes subs initial out)
    (hshadow : ∀ n ∈ subs, ∀ p ∈ n.inputTypes.keys, p ∉ subs.map (·.name) → p ∉ d.columns.getD [] → p ∉ F.columns) :
    ∃ (l : List (Node T V)) (ren : Name → Name) (last : Name), l ≠ [] ∧ (l.map (·.name)).Nodup ∧ (∀ n ∈ l, n ∈ subs) ∧
      (∀ n ∈ l, ∀ p ∈ n.inputTypes.keys, p ∈ subs.map (·.name) → p ∈ l.map (·.name)) ∧
      (∀ c ∈ chosen d.select subs, c ∈ l.map (·.name)) ∧ (d.select = none → ∀ n ∈ subs, n ∈ l) ∧
      (∀ n ∈ l, Needed h [] (chosen d.select subs) n.name) ∧
      ChainSteps o dfT g h overrides F (d.columns.getD []) (l.map (·.name)) param ren [] param l ∧ ren param = param ∧
      (∀ inputs y, Den g inputs overrides (assignNamespace last (d.ns.getD fnName)) y ↔
        ∃ f, Den g inputs overrides (ren (lastName param l)) (.frame f) ∧ LastValue d (l.map (·.name)) f y) ∧
      (∀ inputs, ¬ Absent g inputs overrides (assignNamespace last (d.ns.getD fnName))) ∧
      ∀ n ∈ nodes, param ∈ n.inputTypes.keys → reassignInputs [(param, assignNamespace last (d.ns.getD fnName))] [] n ∈ out := by
  obtain ⟨pruned, sorted, hinj, hnd, hpr, hne, hsort, hout⟩ := inject_ok hs.built hs.frame
  have hkept := prune_facts hnd hs.order hpr
  obtain ⟨rank, hrank⟩ := hs.acyclic
  have hpnd : ∀ n ∈ pruned, n.inputTypes.keys.Nodup := by
    intro n hn
    obtain ⟨m, hm, rfl⟩ := List.mem_map.1 (hkept.mem n hn)
    exact (hs.fresh m hm).params_nodup
  obtain ⟨res, hr1, hperm⟩ := C12_acyclic_complete hkept.nodup hpnd rank (by
    rintro k dd ⟨n, hn, rfl, hd, m, hm, rfl⟩
    obtain ⟨n', hn', rfl⟩ := List.mem_map.1 (hkept.mem n hn)
    obtain ⟨m', hm', rfl⟩ := List.mem_map.1 (hkept.mem m hm)
    exact hrank n' hn' m' hm' hd)
  rw [hsort] at hr1; cases hr1
  obtain ⟨res, hr1, hsn, _, hord, _⟩ := C12_sorted hkept.nodup hpnd
  rw [hsort] at hr1; cases hr1
  obtain ⟨l, rfl, hl⟩ := exists_plain (subs := subs) (l := sorted) (fun n hn => hkept.mem n (hperm.mem_iff.1 hn))
  rw [reval_names] at hsn
  have hnames : ∀ k, k ∈ l.map (·.name) ↔ k ∈ pruned.map (·.name) := by
    intro k
    rw [← reval_names]
    exact (hperm.map _).mem_iff
  have hclosed : ∀ n ∈ l, ∀ p ∈ n.inputTypes.keys, p ∈ subs.map (·.name) → p ∈ l.map (·.name) := by
    intro n hn p hp hps
    rw [hnames]
    exact hkept.closed (revalNode scalarFn n) (hperm.mem_iff.1 (List.mem_map.2 ⟨n, hn, rfl⟩)) p hp
      (by rw [reval_names]; exact hps)
  have hlne : l ≠ [] := by
    rintro rfl
    exact hne (List.nil_perm.1 hperm)
  have hchosen : ∀ c ∈ chosen d.select subs, c ∈ l.map (·.name) := by
    intro c hc
    rw [hnames]
    unfold chosen at hc
    cases hsel : d.select with
    | some s => rw [hsel] at hc; exact hkept.selected s hsel c hc
    | none =>
      rw [hsel] at hc
      rw [hkept.all hsel, reval_names]; exact hc
  have hall : d.select = none → ∀ n ∈ subs, n ∈ l := by
    intro hsel n hn
    have hp := hkept.all hsel
    have h1 : n.name ∈ l.map (·.name) := by
      rw [hnames, hp, reval_names]; exact List.mem_map.2 ⟨n, hn, rfl⟩
    obtain ⟨m, hm, he⟩ := List.mem_map.1 h1
    rw [reval_names] at hnd
    rw [eq_of_name hnd hn (hl m hm) he.symm]; exact hm
  obtain ⟨f1, f2, f3, f4⟩ := sep_facts (s := nsSpec (d.ns.getD fnName)) hs.fresh hs.separate (by simp [nsSpec, Dict.keys])
  -- the functions of the chain are needed
  have hneed : ∀ n ∈ l, Needed h [] (chosen d.select subs) n.name := by
    intro n hn
    cases hsel : d.select with
    | none => exact .req (List.mem_map.2 ⟨n, hl n hn, rfl⟩)
    | some s =>
      have hwant := hkept.wanted s hsel (revalNode scalarFn n) (hperm.mem_iff.1 (List.mem_map.2 ⟨n, hn, rfl⟩))
      have gen : ∀ k, Wanted ((subs.map (revalNode scalarFn : Node T V → Node T (SVal V))).map toTNode) s k → Needed h [] s k := by
        intro k hwk
        induction hwk with
        | selected h => exact .req h
        | @needed y x h1 h2 h3 ih =>
          obtain ⟨a, b, hab, _⟩ := h2
          have hy : y ∈ (subs.map (revalNode scalarFn : Node T V → Node T (SVal V))).map toTNode := by rw [hab]; simp
          obtain ⟨n1, hn1, rfl⟩ := List.mem_map.1 hy
          obtain ⟨n2, hn2, rfl⟩ := List.mem_map.1 hn1
          obtain ⟨m, hm, hsf⟩ := f1 n2 hn2
          exact .param ih rfl hm (by rw [hsf.inputTypes]; exact h3)
      exact gen _ hwant
  -- the nodes
  let chain := (chainSubdag o dfT d param (l.map (revalNode scalarFn)))
  let ren := inNamespace chain.1 (nsSpec (d.ns.getD fnName) : SubdagSpec (SVal V))
  have hshape : ∃ extra : List (Node T (SVal V)), chain.1 = (chainUdfs o dfT param (l.map (·.name)) (d.columns.getD [])
      (l.map (revalNode scalarFn)) param).1 ++ extra ∧
      ((extra = [] ∧ chain.2 = lastName param l ∧ d.selectMode = false ∧ dropList d.select (l.map (·.name)) = []) ∨
       (extra = [selectorNode dfT (lastName param l) (d.select.getD (l.map (·.name)))] ∧ chain.2 = "_select" ∧ d.selectMode = true) ∨
       (extra = [dropNode dfT (lastName param l) (dropList d.select (l.map (·.name)))] ∧ chain.2 = "_select" ∧ d.selectMode = false ∧
        dropList d.select (l.map (·.name)) ≠ [])) := by
    simp only [chain, chainSubdag, reval_names, chainUdfs_last]
    cases hm : d.selectMode with
    | true => exact ⟨_, rfl, .inr (.inl ⟨rfl, rfl, rfl⟩)⟩
    | false =>
      cases hdl : (dropList d.select (l.map (·.name))).isEmpty with
      | true => exact ⟨[], by simp, .inl ⟨rfl, by simp [chainUdfs_last], rfl, List.isEmpty_iff.1 hdl⟩⟩
      | false =>
        refine ⟨_, rfl, .inr (.inr ⟨rfl, rfl, rfl, ?_⟩)⟩
        intro he; rw [he] at hdl; cases hdl
  obtain ⟨extra, hext, hcase⟩ := hshape
  have hextra : ∀ s ∈ extra, s.name = "_select" ∧ s.inputTypes = [(lastName param l, (dfT, .required))] ∧ s.kind ≠ .external ∧ Fresh s := by
    intro s hsm
    rcases hcase with ⟨he, _⟩ | ⟨he, _⟩ | ⟨he, _⟩
    · rw [he] at hsm; cases hsm
    · rw [he, List.mem_singleton] at hsm
      subst hsm
      exact ⟨rfl, rfl, by simp [selectorNode], by simp [selectorNode, Dict.keys], rfl, rfl, by simp [selectorNode]⟩
    · rw [he, List.mem_singleton] at hsm
      subst hsm
      exact ⟨rfl, rfl, by simp [dropNode], by simp [dropNode, Dict.keys], rfl, rfl, by simp [dropNode]⟩
  have hcnames : chain.1.map (·.name) = l.map (·.name) ++ extra.map (·.name) := by
    rw [hext, List.map_append, chainUdfs_names]
  have hinside : ∀ k, k ∈ chain.1.map (·.name) → ren k = assignNamespace k (d.ns.getD fnName) := fun k hk =>
    inNamespace_inside (.inl hk)
  have houtside : ∀ k, k ∉ l.map (·.name) → k ≠ "_select" → ren k = k := by
    intro k h1 h2
    refine inNamespace_outside ?_
    rintro (h' | h' | h')
    · rw [hcnames, List.mem_append] at h'
      rcases h' with h' | h'
      · exact h1 h'
      · obtain ⟨s, hsm, rfl⟩ := List.mem_map.1 h'
        exact h2 (hextra s hsm).1
    · cases h'
    · cases h'
  have hfresh : ∀ s ∈ chain.1, Fresh s := by
    intro s hsm
    rw [hext, List.mem_append] at hsm
    rcases hsm with hsm | hsm
    · obtain ⟨n, hn, c, _, rfl⟩ := chainUdfs_mem hsm
      have hf := hs.fresh n (hl n hn)
      exact ⟨udfNode_nodup hf.params_nodup, hf.no_deps, hf.no_cons, hf.kind⟩
    · exact (hextra s hsm).2.2.2
  have hpar : ∀ q, param ≠ assignNamespace q (d.ns.getD fnName) := by
    obtain ⟨n, hn, hp⟩ := List.mem_flatMap.1 (List.mem_filter.1 hinj).1
    exact hs.names.outside_fn n hn param hp
  have hlastin : lastName param l ∈ chain.1.map (·.name) := by
    rw [hcnames]; exact List.mem_append_left _ (lastName_mem l param hlne)
  have hesc : NoEscape chain.1 (nsSpec (d.ns.getD fnName) : SubdagSpec (SVal V)) := by
    intro s hsm p hp hnot q
    rw [hext, List.mem_append] at hsm
    rcases hsm with hsm | hsm
    · obtain ⟨n, hn, c, hc, rfl⟩ := chainUdfs_mem hsm
      obtain ⟨t, ht⟩ := Dict.mem_keys_iff.1 hp
      rw [udfNode_get] at ht
      by_cases hcc : ((∃ k ∈ n.inputTypes.keys, k ∈ d.columns.getD []) ∧ p = param) ∨
          (p ∈ n.inputTypes.keys ∧ p ∈ l.map (·.name)) ∨ p = c
      · rcases hcc with ⟨_, rfl⟩ | ⟨_, hg⟩ | rfl
        · exact hpar q
        · exact absurd (.inl (by rw [hcnames]; exact List.mem_append_left _ hg)) hnot
        · rcases hc with rfl | hc
          · exact hpar q
          · exact absurd (.inl (by rw [hcnames]; exact List.mem_append_left _ hc)) hnot
      · rw [if_neg hcc] at ht
        by_cases hpd : p ∈ d.columns.getD []
        · rw [if_pos hpd] at ht; cases ht
        · rw [if_neg hpd] at ht
          exact hs.names.outside_sub n (hl n hn) p (Dict.mem_keys_iff.2 ⟨_, ht⟩) q
    · rw [(hextra s hsm).2.1] at hp
      simp only [Dict.keys, List.map_cons, List.map_nil, List.mem_singleton] at hp
      subst hp
      exact absurd (.inl hlastin) hnot
  have hinout : ∀ s ∈ chain.1, renameNode ren (ren s.name) s ∈ out := by
    intro s hsm
    rw [hout]
    refine List.mem_append_right _ ?_
    rw [addNamespace_eq, hinside _ (List.mem_map.2 ⟨s, hsm, rfl⟩)]
    exact List.mem_map.2 ⟨s, hsm, rfl⟩
  have hfacts : ∀ s ∈ chain.1, KeepsApart ren s ∧ Defines g (renameNode ren (ren s.name) s) ∧ overrides.get? (ren s.name) = none := by
    intro s hsm
    exact ⟨keepsApart hfresh hesc hsm, hs.defines _ (hinout s hsm), hs.not_overridden _ (hinout s hsm)⟩
  have hparsub : param ∉ l.map (·.name) := by
    intro hm
    obtain ⟨n, hn, he⟩ := List.mem_map.1 hm
    exact (hs.names.param_sub n (hl n hn)).1 he
  have hrenp : ren param = param := houtside param hparsub hs.names.param_select
  have hgfn : ∀ dd ∈ l.map (·.name), ∃ m, h.get? dd = some m ∧ m.kind ≠ .external := by
    intro dd hd
    obtain ⟨n, hn, rfl⟩ := List.mem_map.1 hd
    obtain ⟨m, hm, hsf⟩ := f1 n (hl n hn)
    exact ⟨m, hm, by rw [hsf.kind]; exact (hs.fresh n (hl n hn)).kind⟩
  have hsteps : ChainSteps o dfT g h overrides F (d.columns.getD []) (l.map (·.name)) param ren [] param l := by
    refine chainSteps_of hgfn (by simpa using hsn) (.inl rfl) (fun n hn => List.mem_map.2 ⟨n, hn, rfl⟩) ?_ ?_ ?_
    · intro n hn
      have hf := hs.fresh n (hl n hn)
      refine ⟨hf.params_nodup, hs.unordered n (hl n hn), hf.kind, f1 n (hl n hn), (hs.names.param_sub n (hl n hn)).2, ?_⟩
      intro dd hd hng
      have hnsub : dd ∉ subs.map (·.name) := fun hm => hng (hclosed n hn dd hd hm)
      obtain ⟨m, hm⟩ := f4 n (hl n hn) dd hd
      refine ⟨⟨m, hm, ?_⟩, houtside dd hng ?_, hshadow n (hl n hn) dd hd hnsub⟩
      · by_cases he : m.kind = .external
        · exact he
        · obtain ⟨n', hn', hname, _⟩ := f2 dd m hm he
          exact absurd (List.mem_map.2 ⟨n', hn', hname⟩) hnsub
      · rintro rfl
        exact (hs.names.select_sub n (hl n hn)).2 hd
    · intro a x b he dd hd hdg
      have := hord (a.map (revalNode scalarFn)) (revalNode scalarFn x) (b.map (revalNode scalarFn)) (by rw [he]; simp) dd
        (by
          have hx : (revalNode scalarFn x : Node T (SVal V)) ∈ pruned := hperm.mem_iff.1 (List.mem_map.2 ⟨x, by rw [he]; simp, rfl⟩)
          rw [hnames] at hdg
          obtain ⟨m, hm, hmn⟩ := List.mem_map.1 hdg
          exact ⟨_, hx, rfl, hd, m, hm, hmn⟩)
      rw [reval_names] at this
      simpa using this
    · intro s hsm
      exact hfacts s (by rw [hext]; exact List.mem_append_left _ hsm)
  have hreassign : ∀ n ∈ nodes, param ∈ n.inputTypes.keys →
      reassignInputs [(param, assignNamespace chain.2 (d.ns.getD fnName))] [] n ∈ out := by
    intro n hn hpn
    rw [hout]
    refine List.mem_append_left _ (List.mem_map.2 ⟨n, hn, ?_⟩)
    rw [if_pos ((Dict.has_iff _ _).2 hpn)]
  have hframe : ∀ inputs x, Den g inputs overrides (ren (lastName param l)) x → ∃ f, x = .frame f :=
    fun inputs x hx => (chain_back hsteps hx).1 hlne
  have hnabs : ∀ s ∈ chain.1, ∀ inputs, ¬ Absent g inputs overrides (ren s.name) := by
    intro s hsm inputs
    exact Defines.not_absent (n := renameNode ren (ren s.name) s) (hfacts s hsm).2.1 (hfresh s hsm).kind
  refine ⟨l, ren, chain.2, hlne, hsn, hl, hclosed, hchosen, hall, hneed, hsteps, hrenp, ?_, ?_, hreassign⟩
  · intro inputs y
    rcases hcase with ⟨_, h2, h3, h4⟩ | ⟨he, h2, h3⟩ | ⟨he, h2, h3, h4⟩
    · rw [h2, ← hinside _ hlastin]
      unfold LastValue
      simp only [h3, h4, Bool.false_eq_true, if_false, if_true]
      constructor
      · intro hy
        obtain ⟨f, rfl⟩ := hframe inputs y hy
        exact ⟨f, hy, rfl⟩
      · rintro ⟨f, hf, rfl⟩; exact hf
    · have hsm : selectorNode dfT (lastName param l) (d.select.getD (l.map (·.name))) ∈ chain.1 := by rw [hext, he]; simp
      obtain ⟨a1, a2, a3⟩ := hfacts _ hsm
      have hv := single_value (inputs := inputs) (dfT := dfT) rfl (by simp [selectorNode]) a1 a2 a3 y
      rw [hinside _ (List.mem_map.2 ⟨_, hsm, rfl⟩)] at hv
      have hn : (selectorNode dfT (lastName param l) (d.select.getD (l.map (·.name))) : Node T (SVal V)).name = "_select" := rfl
      rw [hn] at hv
      rw [h2, hv]
      unfold LastValue
      simp only [h3, if_true]
      constructor
      · rintro ⟨x, hx, hfx⟩
        obtain ⟨f, rfl⟩ := hframe inputs x hx
        refine ⟨f, hx, ?_⟩
        simp only [selectorNode, Dict.get?_cons, if_true] at hfx
        split at hfx
        · rename_i hall'
          cases hfx
          refine ⟨?_, rfl⟩
          intro c hc
          exact List.contains_iff_mem.1 (List.all_eq_true.1 hall' c hc)
        · cases hfx
      · rintro ⟨f, hf, hc, rfl⟩
        refine ⟨_, hf, ?_⟩
        simp only [selectorNode, Dict.get?_cons, if_true]
        rw [if_pos (List.all_eq_true.2 (fun c hcm => List.contains_iff_mem.2 (hc c hcm)))]
    · have hsm : dropNode dfT (lastName param l) (dropList d.select (l.map (·.name))) ∈ chain.1 := by rw [hext, he]; simp
      obtain ⟨a1, a2, a3⟩ := hfacts _ hsm
      have hv := single_value (inputs := inputs) (dfT := dfT) rfl (by simp [dropNode]) a1 a2 a3 y
      rw [hinside _ (List.mem_map.2 ⟨_, hsm, rfl⟩)] at hv
      have hn : (dropNode dfT (lastName param l) (dropList d.select (l.map (·.name))) : Node T (SVal V)).name = "_select" := rfl
      rw [hn] at hv
      rw [h2, hv]
      unfold LastValue
      simp only [h3, Bool.false_eq_true, if_false, if_neg h4]
      constructor
      · rintro ⟨x, hx, hfx⟩
        obtain ⟨f, rfl⟩ := hframe inputs x hx
        refine ⟨f, hx, ?_⟩
        simp only [dropNode, Dict.get?_cons, if_true] at hfx
        cases hfx; rfl
      · rintro ⟨f, hf, rfl⟩
        exact ⟨_, hf, by simp only [dropNode, Dict.get?_cons, if_true]⟩
  · intro inputs
    rcases hcase with ⟨_, h2, _⟩ | ⟨he, h2, _⟩ | ⟨he, h2, _⟩
    · obtain ⟨s, hsm, hse⟩ := List.mem_map.1 hlastin
      rw [h2, ← hse, ← hinside _ (List.mem_map.2 ⟨s, hsm, rfl⟩)]
      exact hnabs s hsm inputs
    · have hsm : selectorNode dfT (lastName param l) (d.select.getD (l.map (·.name))) ∈ chain.1 := by rw [hext, he]; simp
      have := hnabs _ hsm inputs
      rw [hinside _ (List.mem_map.2 ⟨_, hsm, rfl⟩)] at this
      rw [h2]; exact this
    · have hsm : dropNode dfT (lastName param l) (dropList d.select (l.map (·.name))) ∈ chain.1 := by rw [hext, he]; simp
      have := hnabs _ hsm inputs
      rw [hinside _ (List.mem_map.2 ⟨_, hsm, rfl⟩)] at this
      rw [h2]; exact this

theorem mem_dropList {select : Option (List Name)} {names : List Name} {k : Name} :
    k ∈ dropList select names ↔ k ∈ names ∧ ∃ s, select = some s ∧ k ∉ s := by
  unfold dropList
  cases select with
  | none => simp
  | some s => simp

theorem drop_get? {f : Frame V} {ks : List Name} {i : Nat} {r' : Dict Name (Cell V)} (h : (f.drop ks).rows[i]? = some r') :
    ∃ r, f.rows[i]? = some r ∧ ∀ k, k ∉ ks → r'.get? k = r.get? k := by
  unfold Frame.drop at h
  simp only [List.getElem?_map] at h
  obtain ⟨r, h1, rfl⟩ := Option.map_eq_some_iff.1 h
  refine ⟨r, h1, ?_⟩
  intro k hk
  rw [get?_filter_keys (fun k => !ks.contains k), if_pos (by simp [hk])]

/-- The table that the last node holds. -/
theorem tableWith_of {l : List (Node T V)} {f fr : Frame V}
    (hi : ChainInv g h inputs overrides F (d.columns.getD []) (l.map (·.name)) f) (hnd : (l.map (·.name)).Nodup)
    (hl : ∀ n ∈ l, n ∈ subs) (hchosen : ∀ c ∈ chosen d.select subs, c ∈ l.map (·.name))
    (hcols : d.selectMode = false → ∀ n ∈ subs, n.name ∈ F.columns → n.name ∈ chosen d.select subs)
    (hlast : LastValue d (l.map (·.name)) f (.frame fr)) :
    TableWith g h inputs overrides F (d.columns.getD []) d.select d.selectMode (chosen d.select subs) fr := by
  unfold LastValue at hlast
  cases hm : d.selectMode with
  | true =>
    rw [hm, if_pos rfl] at hlast
    obtain ⟨_, he⟩ := hlast
    cases he
    have hsub : ∀ c ∈ chosen d.select subs, c ∈ d.select.getD (l.map (·.name)) := by
      intro c hc
      have hc' := hchosen c hc
      unfold chosen at hc
      cases hsel : d.select with
      | none => simpa using hc'
      | some s => rw [hsel] at hc; exact hc
    have hrow : ∀ {i : Nat} {r' : Dict Name (Cell V)}, (f.select (d.select.getD (l.map (·.name)))).rows[i]? = some r' →
        ∃ r, f.rows[i]? = some r ∧ ∀ k ∈ d.select.getD (l.map (·.name)), r'.get? k = r.get? k := by
      intro i r' hr'
      have hlt : i < f.rows.length := by
        obtain ⟨hlt, _⟩ := List.getElem?_eq_some_iff.1 hr'
        simpa [Frame.select] using hlt
      obtain ⟨r2, h1, h2⟩ := select_get? (ks := d.select.getD (l.map (·.name))) (List.getElem?_eq_getElem hlt)
      rw [h1] at hr'; cases hr'
      exact ⟨_, List.getElem?_eq_getElem hlt, h2⟩
    refine ⟨nofun, ?_, ?_, ?_, nofun, ?_⟩
    · intro _ s hsel
      simp only [Frame.select, hsel, Option.getD_some]
    · intro _ hsel
      simp only [Frame.select, hsel, Option.getD_none, chosen]
      refine ⟨hnd, fun c => ⟨?_, ?_⟩⟩
      · intro hc
        obtain ⟨n, hn, rfl⟩ := List.mem_map.1 hc
        exact List.mem_map.2 ⟨n, hl n hn, rfl⟩
      · intro hc
        refine hchosen c ?_
        unfold chosen
        rw [hsel]; exact hc
    · simp only [Frame.select, List.length_map]; exact hi.len
    · intro i row row' h1 h2 given hg c hc
      obtain ⟨r, hr1, hr2⟩ := hrow h2
      rw [hr2 c (hsub c hc)]
      exact hi.cell i row r h1 hr1 given hg c (hchosen c hc)
  | false =>
    rw [hm, if_neg (by simp)] at hlast
    have hdl : ∀ k ∈ F.columns, k ∉ dropList d.select (l.map (·.name)) := by
      intro k hk hkd
      obtain ⟨h1, s, h2, h3⟩ := mem_dropList.1 hkd
      obtain ⟨n, hn, rfl⟩ := List.mem_map.1 h1
      have := hcols hm n (hl n hn) hk
      unfold chosen at this
      rw [h2] at this
      exact h3 this
    have hchd : ∀ c ∈ chosen d.select subs, c ∉ dropList d.select (l.map (·.name)) := by
      intro c hc hcd
      obtain ⟨_, s, h2, h3⟩ := mem_dropList.1 hcd
      unfold chosen at hc
      rw [h2] at hc
      exact h3 hc
    have hin : ∀ c, c ∈ l.map (·.name) → (c ∉ dropList d.select (l.map (·.name)) ↔ c ∈ chosen d.select subs) := by
      intro c hc
      refine ⟨fun hnd => ?_, hchd c⟩
      unfold chosen
      cases hsel : d.select with
      | none =>
        obtain ⟨n, hn, rfl⟩ := List.mem_map.1 hc
        exact List.mem_map.2 ⟨n, hl n hn, rfl⟩
      | some s =>
        by_cases hcs : c ∈ s
        · exact hcs
        · exact absurd (mem_dropList.2 ⟨hc, s, hsel, hcs⟩) hnd
    by_cases hde : dropList d.select (l.map (·.name)) = []
    · rw [if_pos hde] at hlast
      cases hlast
      rw [hde] at hin
      refine ⟨fun _ => ⟨_, hi.columns, List.filter_sublist.nodup hnd, ?_⟩, nofun, nofun, hi.len, ?_, ?_⟩
      · intro c
        simp only [List.mem_filter, Bool.not_eq_true', List.contains_eq_mem, decide_eq_false_iff_not]
        constructor
        · rintro ⟨h1, h2⟩; exact ⟨(hin c h1).1 (by simp), h2⟩
        · rintro ⟨h1, h2⟩; exact ⟨hchosen c h1, h2⟩
      · intro _ i row row' h1 h2 k hk hks
        refine hi.other i row row' h1 h2 k ?_
        intro hkl
        exact hks ((hin k hkl).1 (by simp))
      · intro i row row' h1 h2 given hg c hc
        exact hi.cell i row row' h1 h2 given hg c (hchosen c hc)
    · rw [if_neg hde] at hlast
      cases hlast
      refine ⟨fun _ => ?_, nofun, nofun, ?_, ?_, ?_⟩
      · refine ⟨((l.map (·.name)).filter (fun k => !F.columns.contains k)).filter
          (fun k => !(dropList d.select (l.map (·.name))).contains k), ?_, ?_, ?_⟩
        · simp only [Frame.drop]
          rw [hi.columns, List.filter_append]
          congr 1
          rw [List.filter_eq_self]
          intro k hk
          simpa using hdl k hk
        · exact (List.filter_sublist.trans List.filter_sublist).nodup hnd
        · intro c
          simp only [List.mem_filter, Bool.not_eq_true', List.contains_eq_mem, decide_eq_false_iff_not]
          constructor
          · rintro ⟨⟨h1, h2⟩, h3⟩; exact ⟨(hin c h1).1 h3, h2⟩
          · rintro ⟨h1, h2⟩; exact ⟨⟨hchosen c h1, h2⟩, hchd c h1⟩
      · simp only [Frame.drop, List.length_map]; exact hi.len
      · intro _ i row row' h1 h2 k hk hks
        obtain ⟨r, hr1, hr2⟩ := drop_get? h2
        rw [hr2 k (hdl k hk)]
        refine hi.other i row r h1 hr1 k ?_
        intro hkl
        exact hks ((hin k hkl).1 (hdl k hk))
      · intro i row row' h1 h2 given hg c hc
        obtain ⟨r, hr1, hr2⟩ := drop_get? h2
        rw [hr2 c (hchd c hc)]
        exact hi.cell i row r h1 hr1 given hg c (hchosen c hc)

theorem LastValue.frame {names : List Name} {f : Frame V} {y : SVal V} (hy : LastValue d names f y) : ∃ fr, y = .frame fr := by
  unfold LastValue at hy
  split at hy
  · exact ⟨_, hy.2⟩
  · split at hy
    · exact ⟨_, hy⟩
    · exact ⟨_, hy⟩

theorem LastValue.det {names : List Name} {f : Frame V} {y y' : SVal V} (hy : LastValue d names f y)
    (hy' : LastValue d names f y') : y = y' := by
  unfold LastValue at hy hy'
  split at hy
  · rename_i hm
    rw [if_pos hm] at hy'
    rw [hy.2, hy'.2]
  · rename_i hm
    rw [if_neg hm] at hy'
    split at hy
    · rename_i hd
      rw [if_pos hd] at hy'; rw [hy, hy']
    · rename_i hd
      rw [if_neg hd] at hy'; rw [hy, hy']

/-! ### Theorems -/

/-- **C80, the columns are added row by row (partial).** Let `F` be the value of the dataframe parameter of a function decorated
with `@with_columns` or `@select`. Either the decorated function has no value, or its value is what it returns when that parameter
is `F` with the chosen columns added (with `@select`: only these), see `TableWith`, and the other parameters are unaffected.

Missing: names that clash (`SparkNames`), functions that take a dataframe, a parameter that is neither a function nor among
`columns_to_pass` but is called like a column (`C80_violated_shadowed`), and, for `@with_columns`, functions that are not selected
and are called like a column of the table (`C80_violated_column_dropped`). -/
theorem C80_value_partial (hs : SparkSetting tm any o dfT g h overrides d fnName sig param nodes subs initial out)
    (hdf : Den g inputs overrides param (.frame F))
    (hshadow : ∀ n ∈ subs, ∀ p ∈ n.inputTypes.keys, p ∉ subs.map (·.name) → p ∉ d.columns.getD [] → p ∉ F.columns)
    (hcols : d.selectMode = false → ∀ n ∈ subs, n.name ∈ F.columns → n.name ∈ chosen d.select subs)
    {n : Node T (SVal V)} (hn : n ∈ nodes) (hpn : param ∈ n.inputTypes.keys) :
    (∀ v, ¬ Den g inputs overrides n.name v) ∨
    ∃ fr, TableWith g h inputs overrides F (d.columns.getD []) d.select d.selectMode (chosen d.select subs) fr ∧
      ∀ v, Den g inputs overrides n.name v ↔ InjectedValue g inputs overrides n param (fun y => y = .frame fr) v := by
  obtain ⟨l, ren, last, _, hnd, hl, _, hchosen, _, _, hsteps, hrenp, hval, habs, hout⟩ := hs.parts hshadow
  have hm := hout n hn hpn
  have hname : (reassignInputs [(param, assignNamespace last (d.ns.getD fnName))] [] n).name = n.name := rfl
  have hden : ∀ (P : SVal V → Prop), (∀ y, Den g inputs overrides (assignNamespace last (d.ns.getD fnName)) y ↔ P y) → ∀ v,
      Den g inputs overrides n.name v ↔ InjectedValue g inputs overrides n param P v := by
    intro P hP v
    rw [← hname, den_iff_fnValue (hs.defines _ hm) (hs.own_fresh n hn).kind (hs.not_overridden _ hm) v]
    refine injected_value (hs.own_fresh n hn).params_nodup hpn ?_ (habs inputs) hP v
    intro _ hin
    exact hs.names.outside_fn n hn _ hin last rfl
  by_cases hex : ∃ y, Den g inputs overrides (assignNamespace last (d.ns.getD fnName)) y
  · obtain ⟨y, hy⟩ := hex
    obtain ⟨f, hf, hlast⟩ := (hval inputs y).1 hy
    obtain ⟨fr, rfl⟩ := hlast.frame
    obtain ⟨f', he, hi⟩ := chain_sound hsteps (by simp) .nil (by rw [hrenp]; exact hdf) hf
    cases he
    rw [List.nil_append] at hi
    refine .inr ⟨fr, tableWith_of hi hnd hl hchosen hcols hlast, hden _ ?_⟩
    intro y
    exact ⟨fun hy' => Den.det hy' hy, fun he => he ▸ hy⟩
  · refine .inl ?_
    intro v hv
    obtain ⟨val, ⟨y, hy, _⟩, _⟩ := (hden (fun _ => False) (fun y => ⟨fun hy => hex ⟨y, hy⟩, False.elim⟩) v).1 hv
    exact hy

/-- **C80, nothing is refused without reason (partial).** In the situation of `C80_value_partial`, the first case does not occur
if, for every function that is needed for the chosen columns, a parameter that is neither a function nor among `columns_to_pass`
has a value that is not a dataframe (or has a default and is an input not supplied), a parameter among `columns_to_pass` is a
column of the table or has a default, and the types can be handled: the required parameters that come from the table are not
series and the returned type has a counterpart in Spark, or they are all series, there is one, and the type of the elements of the
returned series has a counterpart. -/
theorem C80_complete_partial (hs : SparkSetting tm any o dfT g h overrides d fnName sig param nodes subs initial out)
    (hdf : Den g inputs overrides param (.frame F))
    (hshadow : ∀ n ∈ subs, ∀ p ∈ n.inputTypes.keys, p ∉ subs.map (·.name) → p ∉ d.columns.getD [] → p ∉ F.columns)
    (hcols : d.selectMode = false → ∀ n ∈ subs, n.name ∈ F.columns → n.name ∈ chosen d.select subs)
    (hvalues : ∀ n ∈ subs, Needed h [] (chosen d.select subs) n.name → ∀ p t, (p, t) ∈ n.inputTypes →
      p ∉ subs.map (·.name) → p ∉ d.columns.getD [] →
      (∃ v, Den g inputs overrides p (.scalar v)) ∨ (t.2 = .optional ∧ Absent g inputs overrides p))
    (hpassed : ∀ n ∈ subs, Needed h [] (chosen d.select subs) n.name → ∀ p t, (p, t) ∈ n.inputTypes →
      p ∉ subs.map (·.name) → p ∈ d.columns.getD [] → p ∉ F.columns → t.2 = .optional)
    (htypes : ∀ n ∈ subs, Needed h [] (chosen d.select subs) n.name →
      ((∀ p t, (p, t, DepType.required) ∈ n.inputTypes →
          (p ∈ subs.map (·.name) ∨ (p ∈ d.columns.getD [] ∧ p ∈ F.columns)) → o.isSeries t = false) ∧ o.udfReturn n.typ = true) ∨
      ((∀ p t, (p, t, DepType.required) ∈ n.inputTypes →
          (p ∈ subs.map (·.name) ∨ (p ∈ d.columns.getD [] ∧ p ∈ F.columns)) → o.isSeries t = true) ∧
        (∃ p t, (p, t, DepType.required) ∈ n.inputTypes ∧ (p ∈ subs.map (·.name) ∨ (p ∈ d.columns.getD [] ∧ p ∈ F.columns))) ∧
        o.seriesReturn n.typ = true))
    {n : Node T (SVal V)} (hn : n ∈ nodes) (hpn : param ∈ n.inputTypes.keys) :
    ∃ fr, TableWith g h inputs overrides F (d.columns.getD []) d.select d.selectMode (chosen d.select subs) fr ∧
      ∀ v, Den g inputs overrides n.name v ↔ InjectedValue g inputs overrides n param (fun y => y = .frame fr) v := by
  obtain ⟨l, ren, last, hlne, hnd, hl, hclosed, hchosen, _, hneed, hsteps, hrenp, hval, habs, hout⟩ := hs.parts hshadow
  have hm := hout n hn hpn
  have hname : (reassignInputs [(param, assignNamespace last (d.ns.getD fnName))] [] n).name = n.name := rfl
  have hgroup : ∀ m ∈ l, ∀ p ∈ m.inputTypes.keys, (p ∈ l.map (·.name) ↔ p ∈ subs.map (·.name)) := by
    intro m hml p hp
    constructor
    · intro h'
      obtain ⟨x, hx, rfl⟩ := List.mem_map.1 h'
      exact List.mem_map.2 ⟨x, hl x hx, rfl⟩
    · exact hclosed m hml p hp
  obtain ⟨f, hf⟩ := chain_complete (inputs := inputs) ⟨.frame F, by rw [hrenp]; exact hdf⟩ hsteps (by simp) .nil
    (by rw [hrenp]; exact hdf) (by simp) (by
      intro m hml
      refine ⟨?_, ?_, ?_⟩
      · intro p t hpt hng hnp
        have hp : p ∈ m.inputTypes.keys := List.mem_map.2 ⟨_, hpt, rfl⟩
        exact hvalues m (hl m hml) (hneed m hml) p t hpt (fun h' => hng ((hgroup m hml p hp).2 h')) hnp
      · intro p t hpt hng hps hF
        have hp : p ∈ m.inputTypes.keys := List.mem_map.2 ⟨_, hpt, rfl⟩
        exact hpassed m (hl m hml) (hneed m hml) p t hpt (fun h' => hng ((hgroup m hml p hp).2 h')) hps hF
      · have hfrom : ∀ p t, (p, t, DepType.required) ∈ m.inputTypes →
            ((p ∈ l.map (·.name) ∨ (p ∈ d.columns.getD [] ∧ p ∈ F.columns)) ↔
              (p ∈ subs.map (·.name) ∨ (p ∈ d.columns.getD [] ∧ p ∈ F.columns))) := by
          intro p t hpt
          rw [hgroup m hml p (List.mem_map.2 ⟨_, hpt, rfl⟩)]
        rcases htypes m (hl m hml) (hneed m hml) with ⟨a, b⟩ | ⟨a, ⟨p, t, b, c⟩, e⟩
        · exact .inl ⟨fun p t hpt hor => a p t hpt ((hfrom p t hpt).1 hor), b⟩
        · exact .inr ⟨fun p t hpt hor => a p t hpt ((hfrom p t hpt).1 hor), ⟨p, t, b, (hfrom p t b).2 c⟩, e⟩)
  obtain ⟨f', he, hi⟩ := chain_sound hsteps (by simp) .nil (by rw [hrenp]; exact hdf) hf
  cases he
  rw [List.nil_append] at hi
  have hlast : ∃ fr, LastValue d (l.map (·.name)) f (.frame fr) := by
    unfold LastValue
    cases hsm : d.selectMode with
    | true =>
      refine ⟨f.select (d.select.getD (l.map (·.name))), ?_⟩
      rw [if_pos rfl]
      refine ⟨?_, rfl⟩
      intro c hc
      rw [hi.mem_columns]
      refine .inr ?_
      cases hsel : d.select with
      | none => rw [hsel] at hc; exact hc
      | some s =>
        rw [hsel] at hc
        exact hchosen c (by unfold chosen; rw [hsel]; exact hc)
    | false =>
      simp only [Bool.false_eq_true, if_false]
      by_cases hde : dropList d.select (l.map (·.name)) = []
      · exact ⟨f, by rw [if_pos hde]⟩
      · exact ⟨_, by rw [if_neg hde]⟩
  obtain ⟨fr, hlast⟩ := hlast
  have hy := (hval inputs (.frame fr)).2 ⟨f, hf, hlast⟩
  refine ⟨fr, tableWith_of hi hnd hl hchosen hcols hlast, ?_⟩
  intro v
  rw [← hname, den_iff_fnValue (hs.defines _ hm) (hs.own_fresh n hn).kind (hs.not_overridden _ hm) v]
  refine injected_value (hs.own_fresh n hn).params_nodup hpn ?_ (habs inputs) ?_ v
  · intro _ hin
    exact hs.names.outside_fn n hn _ hin last rfl
  · intro y
    exact ⟨fun hy' => Den.det hy' hy, fun he => he ▸ hy⟩

/-- **C80, no dataframe, no value.** If the dataframe parameter has no value, or one that is not a dataframe, the decorated
function has no value. -/
theorem C80_no_table (hs : SparkSetting tm any o dfT g h overrides d fnName sig param nodes subs initial out)
    (hdf : ∀ F : Frame V, ¬ Den g inputs overrides param (.frame F))
    {n : Node T (SVal V)} (hn : n ∈ nodes) (hpn : param ∈ n.inputTypes.keys) (v : SVal V) :
    ¬ Den g inputs overrides n.name v := by
  obtain ⟨l, ren, last, hlne, _, _, _, _, _, _, hsteps, hrenp, hval, habs, hout⟩ := hs.parts (F := ⟨[], []⟩) (by simp)
  have hm := hout n hn hpn
  have hname : (reassignInputs [(param, assignNamespace last (d.ns.getD fnName))] [] n).name = n.name := rfl
  rw [← hname, den_iff_fnValue (hs.defines _ hm) (hs.own_fresh n hn).kind (hs.not_overridden _ hm) v,
    injected_value (R := fun _ => False) (hs.own_fresh n hn).params_nodup hpn _ (habs inputs)]
  · rintro ⟨val, ⟨y, hy, _⟩, _⟩
    exact hy
  · intro y
    rw [hval]
    refine ⟨?_, False.elim⟩
    rintro ⟨f, hf, _⟩
    obtain ⟨_, _, h3⟩ := chain_back hsteps hf
    obtain ⟨F, hF⟩ := h3 hlne
    rw [hrenp] at hF
    exact hdf F hF
  · intro _ hin
    exact hs.names.outside_fn n hn _ hin last rfl

end

namespace SparkColumnsSample
open SparkSample

/-- `total` and `taxed` for every row; `rate` comes from the surrounding graph, `bonus` is an input that has a default. -/
def subs : List (Node String Int) :=
  [ fnNode "taxed" [("total", "int", .required), ("rate", "int", .required), ("bonus", "int", .optional)] "int"
      (fun kw => .ok (arg kw "total" 0 + arg kw "rate" 0 + arg kw "bonus" 7)),
    fnNode "total" [("price", "int", .required), ("qty", "int", .required)] "int"
      (fun kw => .ok (arg kw "price" 0 * arg kw "qty" 0)),
    fnNode "unused" [("other", "int", .required)] "int" (fun kw => .ok (arg kw "other" 0)) ]

/-- `@with_columns(taxed, total, unused, columns_to_pass=["price", "qty"], select=["taxed"])`. -/
def deco : SparkColumns := { columns := some ["price", "qty"], select := some ["taxed"], ns := none, selectMode := false }

/-- `def final(df, k): return df` (it fails for an odd `k`). -/
def fn : Node String (SVal Int) :=
  { name := "final", typ := "df", kind := .standard, inputTypes := [("df", "df", .required), ("k", "int", .required)],
    dependencies := [], dependedOnBy := [],
    fn := fun kw => match kw.get? "df", kw.get? "k" with
      | some (.frame f), some (.scalar k) => if k % 2 = 0 then .ok (.frame f) else .error "ValueError"
      | _, _ => .error "TypeError" }

/-- `def rate(base): return base + 1`, in the surrounding graph. -/
def rateFn : Node String (SVal Int) :=
  { name := "rate", typ := "int", kind := .standard, inputTypes := [("base", "int", .required)],
    dependencies := [], dependedOnBy := [],
    fn := fun kw => match kw.get? "base" with
      | some (.scalar k) => .ok (.scalar (k + 1))
      | _ => .error "TypeError" }

/-- The nodes that the decorated function gives. -/
def outOf (d : SparkColumns) (subs : List (Node String Int)) (order : List TNode) : List (Node String (SVal Int)) :=
  match sparkColumnsNodes kinds "df" d "final" [("df", true), ("k", false)] [fn] (subs.map (revalNode scalarFn)) order with
  | .ok r => r
  | .error _ => []

/-- The graph of a driver. -/
def graphS (fns : List (Node String (SVal Int))) : Graph String (SVal Int) :=
  match createFunctionGraph (fun _ _ => true) "any" [] false fns with
  | .ok g => g
  | .error _ => []

theorem graphS_eq {fns : List (Node String (SVal Int))}
    (h : (createFunctionGraph (fun _ _ => true) "any" ([] : Dict Name (SVal Int)) false fns).isOk = true) :
    createFunctionGraph (fun _ _ => true) "any" [] false fns = .ok (graphS fns) := by
  unfold graphS
  revert h
  generalize createFunctionGraph (fun _ _ => true) "any" ([] : Dict Name (SVal Int)) false fns = r
  intro h
  cases r with
  | ok g => rfl
  | error e => simp [Except.isOk, Except.toBool] at h

theorem graphOf_eq {fns : List (Node String Int)}
    (h : (createFunctionGraph (fun _ _ => true) "any" ([] : Dict Name Int) false fns).isOk = true) :
    createFunctionGraph (fun _ _ => true) "any" [] false fns = .ok (graphOf fns) := by
  unfold graphOf
  revert h
  generalize createFunctionGraph (fun _ _ => true) "any" ([] : Dict Name Int) false fns = r
  intro h
  cases r with
  | ok g => rfl
  | error e => simp [Except.isOk, Except.toBool] at h

theorem fresh_of {W : Type} {fns : List (Node String W)}
    (h : fns.all (fun n => decide n.inputTypes.keys.Nodup && n.dependencies.isEmpty && n.dependedOnBy.isEmpty &&
      decide (n.kind ≠ .external)) = true) : ∀ n ∈ fns, Fresh n := by
  intro n hn
  have := List.all_eq_true.1 h n hn
  simp only [Bool.and_eq_true, decide_eq_true_eq, List.isEmpty_iff] at this
  exact ⟨this.1.1.1, this.1.1.2, this.1.2, this.2⟩

/-- What a requested node gives: the table, or the message. -/
def runS (fns : List (Node String (SVal Int))) (inputs : Dict Name (SVal Int)) (k : Name) :
    Sum String (List Name × List (List (Name × Option Int))) :=
  match (graphS fns).get? k with
  | none => .inl "no node"
  | some n =>
    match executeSubdag (graphS fns) [n] inputs [] with
    | .ok s => match s.computed.get? k with
      | some (.frame f) => .inr (f.columns, cells f)
      | _ => .inl ""
    | .err (.raised _ e) _ => .inl e
    | .err (.missing k) _ => .inl k
    | .err _ _ => .inl ""

/-- The order of the selected nodes. -/
def order : List TNode := [toTNode (revalNode scalarFn subs[0] : Node String (SVal Int))]

def ins : Dict Name (SVal Int) := [("df", .frame table), ("base", .scalar 1), ("k", .scalar 4)]

/-- Two rows are taxed, `total` is computed and dropped again, `unused` is not computed. -/
example : runS (rateFn :: outOf deco subs order) ins "final" = .inr (["price", "shop", "qty", "taxed"],
    [[("price", some 10), ("shop", some 1), ("qty", some 3), ("taxed", some 39)],
     [("price", some 20), ("shop", some 2), ("qty", some 0), ("taxed", some 9)]]) := by decide +kernel

/-- The nodes of the driver. -/
def all : List (Node String (SVal Int)) := rateFn :: outOf deco subs order

theorem out_eq : sparkColumnsNodes kinds "df" deco "final" [("df", true), ("k", false)] [fn] (subs.map (revalNode scalarFn)) order =
    .ok (outOf deco subs order) := by
  have h : (sparkColumnsNodes kinds "df" deco "final" [("df", true), ("k", false)] [fn] (subs.map (revalNode scalarFn)) order).isOk
    = true := by decide +kernel
  unfold outOf
  revert h
  generalize sparkColumnsNodes kinds "df" deco "final" [("df", true), ("k", false)] [fn] (subs.map (revalNode scalarFn)) order = r
  intro h
  cases r with
  | ok g => rfl
  | error e => simp [Except.isOk, Except.toBool] at h

theorem order_ok : InitialStack ((subs.map (revalNode scalarFn : Node String Int → Node String (SVal Int))).map toTNode) ["taxed"]
    order := by
  refine ⟨by decide +kernel, ?_⟩
  have hs : (nodeNameMap ((subs.map (revalNode scalarFn : Node String Int → Node String (SVal Int))).map toTNode)).get? "taxed" =
      some (toTNode (revalNode scalarFn subs[0] : Node String (SVal Int))) := by decide +kernel
  intro n
  constructor
  · intro hn
    simp only [order, List.mem_singleton] at hn
    subst hn
    exact ⟨by decide +kernel, hs⟩
  · rintro ⟨h1, h2⟩
    simp only [List.mem_singleton] at h1
    rw [h1, hs] at h2; cases h2; simp [order]

theorem not_prefixed {p : Name} (h : p.toList.take 6 ≠ "final.".toList) (q : Name) : p ≠ "final" ++ "." ++ q := by
  rintro rfl
  apply h
  simp

theorem subs_unordered : ∀ n ∈ subs, ∀ kw kw', SameArgs kw kw' → n.fn kw = n.fn kw' := by
  intro n hn kw kw' hs
  have ha : ∀ j d, arg kw j d = arg kw' j d := fun j d => by unfold arg; rw [hs j]
  simp only [subs, List.mem_cons, List.not_mem_nil, or_false] at hn
  rcases hn with rfl | rfl | rfl <;> simp only [fnNode, ha]

theorem setting : SparkSetting (fun _ _ => true) "any" kinds "df" (graphS all) (graphOf subs) [] deco "final"
    [("df", true), ("k", false)] "df" [fn] subs order (outOf deco subs order) where
  fresh := fresh_of (by decide +kernel)
  own_fresh := fresh_of (by decide +kernel)
  unordered := subs_unordered
  acyclic := ⟨fun k => if k = "taxed" then 1 else 0, by decide +kernel⟩
  built := out_eq
  frame := rfl
  order := by intro s hs; cases hs; exact order_ok
  names :=
    { param_sub := by decide +kernel
      param_select := by decide
      select_sub := by decide +kernel
      outside_sub := by
        have key : ∀ n ∈ subs, ∀ p ∈ n.inputTypes.keys, p.toList.take 6 ≠ "final.".toList := by decide +kernel
        exact fun n hn p hp q => not_prefixed (key n hn p hp) q
      outside_fn := by
        have key : ∀ n ∈ [fn], ∀ p ∈ n.inputTypes.keys, p.toList.take 6 ≠ "final.".toList := by decide +kernel
        exact fun n hn p hp q => not_prefixed (key n hn p hp) q }
  separate := graphOf_eq (by decide +kernel)
  defines := fun m hm => build_defines (fresh_of (by decide +kernel)) (graphS_eq (by decide +kernel)) (List.mem_cons_of_mem _ hm)
    (by simp [Dict.keys])
  not_overridden := fun _ _ => rfl

/-- An input of the sample. -/
theorem input_den {k : Name} {v : SVal Int} (h : ((graphS all).get? k).map (·.kind) = some .external)
    (hv : ins.get? k = some v) : Den (graphS all) ins [] k v := by
  cases hx : (graphS all).get? k with
  | none => rw [hx] at h; cases h
  | some n => rw [hx] at h; exact .input hx rfl (Option.some.inj h) hv

theorem den_rate' {inputs : Dict Name (SVal Int)} (h : inputs.get? "base" = some (.scalar 1)) :
    Den (graphS all) inputs [] "rate" (.scalar 2) := by
  have hd : Defines (graphS all) rateFn :=
    build_defines (fns := all) (fresh_of (by decide +kernel)) (graphS_eq (by decide +kernel)) List.mem_cons_self (by simp [Dict.keys])
  refine (den_iff_fnValue hd nofun rfl _).2 ⟨[("base", .scalar 1)],
    (rightArgs_single rfl _).2 ⟨.scalar 1, ?_, rfl⟩, rfl⟩
  have hk : ((graphS all).get? "base").map (·.kind) = some .external := by decide +kernel
  cases hx : (graphS all).get? "base" with
  | none => rw [hx] at hk; cases hk
  | some n => rw [hx] at hk; exact .input hx rfl (Option.some.inj hk) h

theorem den_rate : Den (graphS all) ins [] "rate" (.scalar 2) := den_rate' rfl

theorem shadow_ok : ∀ n ∈ subs, ∀ p ∈ n.inputTypes.keys, p ∉ subs.map (·.name) → p ∉ deco.columns.getD [] → p ∉ table.columns := by
  decide +kernel

theorem columns_ok : deco.selectMode = false → ∀ n ∈ subs, n.name ∈ table.columns → n.name ∈ chosen deco.select subs := by
  decide +kernel

/-- Only these are needed. -/
theorem needed_ok {p : Name} (hp : Needed (graphOf subs) [] ["taxed"] p) : p ∈ ["taxed", "total", "rate", "bonus", "price", "qty"] := by
  have key : ∀ m ∈ ["taxed", "total", "rate", "bonus", "price", "qty"], (match (graphOf subs).get? m with
    | some n => n.inputTypes.keys.all (fun d => ["taxed", "total", "rate", "bonus", "price", "qty"].contains d)
    | none => true) = true := by decide +kernel
  induction hp with
  | req h =>
    simp only [List.mem_singleton] at h
    subst h; simp
  | @param m mn x _ _ h3 h4 ih =>
    have := key m ih
    rw [h3] at this
    simp only at this
    have := List.all_eq_true.1 this x h4
    simpa using this

theorem needed_sub : ∀ n ∈ subs, Needed (graphOf subs) [] (chosen deco.select subs) n.name → n.name = "taxed" ∨ n.name = "total" := by
  have key : ∀ n ∈ subs, n.name ∈ ["taxed", "total", "rate", "bonus", "price", "qty"] → n.name = "taxed" ∨ n.name = "total" := by
    decide +kernel
  exact fun n hn h => key n hn (needed_ok h)

/-- Non-vacuity of `C80_complete_partial`. -/
theorem value : ∃ fr, TableWith (graphS all) (graphOf subs) ins [] table ["price", "qty"] (some ["taxed"]) false ["taxed"] fr ∧
    ∀ v, Den (graphS all) ins [] "final" v ↔ InjectedValue (graphS all) ins [] fn "df" (fun y => y = .frame fr) v := by
  refine C80_complete_partial setting (input_den (by decide +kernel) rfl) shadow_ok columns_ok ?_ ?_ ?_ (List.mem_singleton.2 rfl)
    (by decide +kernel)
  · intro n hn h p t hpt h1 h2
    have key : ∀ n ∈ subs, (n.name = "taxed" ∨ n.name = "total") → ∀ pt ∈ n.inputTypes, pt.1 ∉ subs.map (·.name) →
        pt.1 ∉ deco.columns.getD [] → pt.1 = "rate" ∨ (pt.1 = "bonus" ∧ pt.2.2 = .optional) := by decide +kernel
    rcases key n hn (needed_sub n hn h) _ hpt h1 h2 with rfl | ⟨rfl, ht⟩
    · exact .inl ⟨2, den_rate⟩
    · refine .inr ⟨ht, (graphS all).get? "bonus" |>.get (by decide +kernel), (Option.some_get _).symm, by decide +kernel, rfl, rfl⟩
  · intro n hn h p t hpt h1 h2 h3
    have key : ∀ p ∈ deco.columns.getD [], p ∈ table.columns := by decide +kernel
    exact absurd (key p h2) h3
  · intro n hn h
    have key : ∀ n ∈ subs, n.typ = "int" ∧ ∀ pt ∈ n.inputTypes, pt.2.1 = "int" := by decide +kernel
    refine .inl ⟨?_, ?_⟩
    · intro p t hpt _
      have : t = "int" := (key n hn).2 _ hpt
      subst this; decide
    · rw [(key n hn).1]; decide

/-- Non-vacuity of `C80_value_partial`: the second case occurs. -/
example : ∃ v, Den (graphS all) ins [] "final" v ∧
    ((∀ v, ¬ Den (graphS all) ins [] "final" v) ∨
    ∃ fr, TableWith (graphS all) (graphOf subs) ins [] table ["price", "qty"] (some ["taxed"]) false ["taxed"] fr ∧
      ∀ v, Den (graphS all) ins [] "final" v ↔ InjectedValue (graphS all) ins [] fn "df" (fun y => y = .frame fr) v) := by
  obtain ⟨fr, _, h⟩ := value
  refine ⟨.frame fr, (h _).2 ?_, C80_value_partial setting (input_den (by decide +kernel) rfl) shadow_ok columns_ok
    (List.mem_singleton.2 rfl) (by decide +kernel)⟩
  refine ⟨fun k => if k = "df" then some (.frame fr) else some (.scalar 4), ⟨_, rfl, rfl⟩, ?_, ?_, rfl⟩
  · intro d w hd hne hw
    simp only [if_neg hne] at hw
    cases hw
    have : d ∈ ["df", "k"] := hd
    simp only [List.mem_cons, List.not_mem_nil, or_false] at this
    rcases this with rfl | rfl
    · exact absurd rfl hne
    · exact input_den (by decide +kernel) rfl
  · intro d t _ hne hnone
    simp only [if_neg hne] at hnone
    cases hnone

/-- What a separate driver is given for the first row. -/
example : RowInputs (graphS all) (graphOf subs) ins [] table ["price", "qty"] (mkRow [("price", 10), ("shop", 1), ("qty", 3)])
    [("price", 10), ("qty", 3), ("rate", 2)] := by
  have hext : ∀ p m, (graphOf subs).get? p = some m → m.kind = .external → p ∈ ["price", "qty", "rate", "bonus", "other"] := by
    have key : ∀ p ∈ Dict.keys (graphOf subs), ((graphOf subs).get? p).all (fun m => m.kind != .external ||
      ["price", "qty", "rate", "bonus", "other"].contains p) = true := by decide +kernel
    intro p m hm he
    have := key p (Dict.mem_keys_iff.2 ⟨m, hm⟩)
    rw [hm, Option.all_some, he] at this
    simpa using this
  have hno : ∀ p, p ∉ Dict.keys (graphS all) → ∀ n, (graphS all).get? p ≠ some n :=
    fun p hp n hn => hp (Dict.mem_keys_iff.2 ⟨n, hn⟩)
  have hkind : ((graphS all).get? "bonus").map (·.kind) = some .external := by decide +kernel
  refine ⟨?_, ?_, ?_, ?_⟩
  · intro p m _ _ hp _
    simp only [List.mem_cons, List.not_mem_nil, or_false] at hp
    rcases hp with rfl | rfl
    · exact ⟨10, rfl, rfl⟩
    · exact ⟨3, rfl, rfl⟩
  · intro p m _ _ hp hF
    simp only [List.mem_cons, List.not_mem_nil, or_false] at hp
    rcases hp with rfl | rfl <;> exact absurd (by decide) hF
  · intro p m hm he hp v hv
    have := hext p m hm he
    simp only [List.mem_cons, List.not_mem_nil, or_false] at this hp
    rcases this with rfl | rfl | rfl | rfl | rfl
    · exact absurd (.inl rfl) hp
    · exact absurd (.inr rfl) hp
    · cases Den.det hv den_rate; rfl
    · cases hv with
      | override _ h2 => cases h2
      | input _ _ _ h4 => cases h4
      | call _ h1 _ h3 => rw [h1] at hkind; simp only [Option.map_some, Option.some.injEq] at hkind; exact absurd hkind h3
    · have hn := hno "other" (by decide +kernel)
      cases hv with
      | override h1 _ => exact absurd h1 (hn _)
      | input h1 _ _ _ => exact absurd h1 (hn _)
      | call _ h1 _ _ => exact absurd h1 (hn _)
  · intro p m hm he hp ha
    have := hext p m hm he
    simp only [List.mem_cons, List.not_mem_nil, or_false] at this hp
    rcases this with rfl | rfl | rfl | rfl | rfl
    · exact absurd (.inl rfl) hp
    · exact absurd (.inr rfl) hp
    · obtain ⟨n, h1, h2, _⟩ := ha
      have h3 : ((graphS all).get? "rate").map (·.kind) = some .standard := by decide +kernel
      rw [h1, Option.map_some, h2] at h3; cases h3
    · rfl
    · rfl

/-- Non-vacuity of `C80_no_table`: a number in place of the table. -/
example (v : SVal Int) : ¬ Den (graphS all) [("df", .scalar 1), ("base", .scalar 1), ("k", .scalar 4)] [] "final" v := by
  refine C80_no_table setting ?_ (List.mem_singleton.2 rfl) (by decide +kernel) v
  intro F hx
  have h : ((graphS all).get? "df").map (·.kind) = some .external := by decide +kernel
  cases hx with
  | override _ h2 => cases h2
  | input _ _ _ h4 => cases h4
  | call _ h1 _ h3 => rw [h1] at h; simp only [Option.map_some, Option.some.injEq] at h; exact h3 h

/-! Violations. -/

/-- A table with a column `rate`. -/
def withRate : Frame Int := ⟨["price", "qty", "rate"], [mkRow [("price", 10), ("qty", 3), ("rate", 1000)]]⟩

/-- **C80 is violated** by a parameter that is not among `columns_to_pass`, is computed by the surrounding graph (`rate` is 2 there),
and happens to be called like a column: the cell is used in place of the value. -/
theorem C80_violated_shadowed :
    Den (graphS all) (ins.set "df" (.frame withRate)) [] "rate" (.scalar 2) ∧
    runS all (ins.set "df" (.frame withRate)) "final" = .inr (["price", "qty", "rate", "taxed"],
      [[("price", some 10), ("qty", some 3), ("rate", some 1000), ("taxed", some 1037)]]) := by
  exact ⟨den_rate' rfl, by decide +kernel⟩

/-- A table that has a column `total` already. -/
def withTotal : Frame Int := ⟨["price", "total", "qty"], [mkRow [("price", 10), ("total", 5), ("qty", 3)]]⟩

/-- **C80 is violated** by `@with_columns` ("it will keep all original columns in the dataframe, and append what's in select") if a
function that is not selected is called like a column: the column disappears. -/
theorem C80_violated_column_dropped :
    runS all (ins.set "df" (.frame withTotal)) "final" = .inr (["price", "qty", "taxed"],
      [[("price", some 10), ("qty", some 3), ("taxed", some 39)]]) := by decide +kernel

/-- The decorator without `columns_to_pass`. -/
def open' : SparkColumns := { deco with columns := none }

/-- **C80 is violated** by the decorator without `columns_to_pass` ("if this is left empty … we will assume that all dependencies
come from the dataframe"): the columns are required as inputs. If they are supplied, they are not used. -/
theorem C80_violated_no_columns :
    runS (rateFn :: outOf open' subs order) ins "final" = .inl "price" ∧
    runS (rateFn :: outOf open' subs order) (ins ++ [("price", .scalar 0), ("qty", .scalar 0)]) "final" =
      runS all ins "final" := ⟨by decide +kernel, by decide +kernel⟩

/-- A function whose column is misspelt. -/
def typo : List (Node String Int) :=
  [ fnNode "discounted" [("price", "int", .required), ("discont", "int", .optional)] "int"
      (fun kw => .ok (arg kw "price" 0 - arg kw "discont" 0)) ]

/-- **C80 is violated** by a name of `columns_to_pass` that is not a column: it is not refused, a default is used. -/
theorem C80_violated_missing_column :
    runS (outOf { columns := some ["price", "discont"], select := none, ns := none, selectMode := true } typo []) ins "final" =
      .inr (["discounted"], [[("discounted", some 10)], [("discounted", some 20)]]) := by decide +kernel

end SparkColumnsSample
end Verif.Spark
