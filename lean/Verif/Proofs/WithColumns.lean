import Verif.Spec.WithColumns
import Verif.Props.Subdag
import Verif.Props.Targets
import Verif.Proofs.Pipe

/-!
Lemmas for C68.
-/
namespace Verif
variable {T V : Type}

/-- Functions copied under other names compute the same as in a separate graph: for a set `K` of names of `h` closed under
parameters, if `g` defines the copies of the functions of `K` and supplies what the inputs of `K` are given. -/
theorem renamed_refines {g h : Graph T V} {inputs overrides given : Dict Name V} {ren : Name → Name} {K : Name → Prop}
    (hfun : ∀ k m, K k → h.get? k = some m → m.kind ≠ .external → ∃ n : Node T V, SameFn n m ∧ n.kind ≠ .external ∧
      KeepsApart ren n ∧ Defines g (renameNode ren (ren k) n) ∧ overrides.get? (ren k) = none ∧
      ∀ d ∈ n.inputTypes.keys, K d ∧ ∃ m', h.get? d = some m')
    (hext : ∀ k m, K k → h.get? k = some m → m.kind = .external →
      (∃ v, given.get? k = some v ∧ Den g inputs overrides (ren k) v) ∨
      (given.get? k = none ∧ Absent g inputs overrides (ren k)))
    {k : Name} (hK : K k) (hk : ∃ m, h.get? k = some m) (v : V) :
    Den h given [] k v ↔ Den g inputs overrides (ren k) v := by
  have hdf : ∀ k m, K k → h.get? k = some m → ∀ n : Node T V, n.kind ≠ .external → Defines g (renameNode ren (ren k) n) →
      overrides.get? (ren k) = none →
      ∀ v, Den g inputs overrides (ren k) v ↔ FnValue g inputs overrides (renameNode ren (ren k) n) v := by
    intro k m _ _ n hn hd ho v
    exact den_iff_fnValue (n := renameNode ren (ren k) n) hd hn ho v
  have habs1 : ∀ k, K k → Absent h given [] k → Absent g inputs overrides (ren k) := by
    rintro k hK ⟨m, hm, he, hg, _⟩
    rcases hext k m hK hm he with ⟨v, hv, _⟩ | ⟨_, h2⟩
    · rw [hg] at hv; cases hv
    · exact h2
  have habs2 : ∀ k, K k → (∃ m, h.get? k = some m) → Absent g inputs overrides (ren k) → Absent h given [] k := by
    rintro k hK ⟨m, hm⟩ ha
    by_cases he : m.kind = .external
    · rcases hext k m hK hm he with ⟨v, _, hv⟩ | ⟨h1, _⟩
      · exact absurd hv ha.not_den
      · exact ⟨m, hm, he, h1, rfl⟩
    · obtain ⟨n, _, hn, _, hd, _⟩ := hfun k m hK hm he
      exact absurd ha (Defines.not_absent (n := renameNode ren (ren k) n) hd hn)
  constructor
  · intro hd
    clear hk
    induction hd with
    | override h1 h2 => cases h2
    | @input p m v h1 _ he hg =>
      rcases hext p m hK h1 he with ⟨x, hx, hx'⟩ | ⟨h0, _⟩
      · rw [hg] at hx; cases hx; exact hx'
      · rw [hg] at h0; cases h0
    | @call p m v val h1 _ he h4 h5 h6 ih =>
      obtain ⟨n, hs, hn, hka, hd, ho, hp⟩ := hfun p m hK h1 he
      rw [hs.inputTypes] at h4 h5 h6 ih
      rw [hs.fn] at h6
      refine (hdf p m hK h1 n hn hd ho v).2 ((renamed_value hka _ v).2 ⟨val, ?_, ?_, h6⟩)
      · intro d w hdm hv
        exact ih d w hdm hv (hp d hdm).1
      · intro d t hdt hv
        obtain ⟨a, b⟩ := h5 d t hdt hv
        exact ⟨a, habs1 d (hp d (List.mem_map.2 ⟨_, hdt, rfl⟩)).1 b⟩
  · intro hd
    generalize hq : ren k = q at hd
    induction hd generalizing k with
    | @override q m v h1 h2 =>
      subst hq
      obtain ⟨m, hm⟩ := hk
      by_cases he : m.kind = .external
      · rcases hext k m hK hm he with ⟨y, hy, hy'⟩ | ⟨_, a⟩
        · have : y = v := Den.det hy' (.override h1 h2)
          subst this
          exact .input hm rfl he hy
        · exact absurd (Den.override h1 h2) a.not_den
      · obtain ⟨n, _, _, _, _, ho, _⟩ := hfun k m hK hm he
        rw [ho] at h2; cases h2
    | @input q m v h1 h2 h3 h4 =>
      subst hq
      obtain ⟨m0, hm⟩ := hk
      by_cases he : m0.kind = .external
      · rcases hext k m0 hK hm he with ⟨y, hy, hy'⟩ | ⟨_, a⟩
        · have : y = v := Den.det hy' (.input h1 h2 h3 h4)
          subst this
          exact .input hm rfl he hy
        · exact absurd (Den.input h1 h2 h3 h4) a.not_den
      · obtain ⟨n, _, hn, _, ⟨m', hm', hs'⟩, _, _⟩ := hfun k m0 hK hm he
        rw [show (renameNode ren (ren k) n).name = ren k from rfl, h1] at hm'
        cases hm'
        rw [hs'.kind] at h3
        exact absurd h3 hn
    | @call q m v val h1 h2 h3 h4 h5 h6 ih =>
      subst hq
      obtain ⟨m0, hm⟩ := hk
      by_cases he : m0.kind = .external
      · have hden : Den g inputs overrides (ren k) v := .call val h1 h2 h3 h4 h5 h6
        rcases hext k m0 hK hm he with ⟨y, hy, hy'⟩ | ⟨_, a⟩
        · have : y = v := Den.det hy' hden
          subst this
          exact .input hm rfl he hy
        · exact absurd hden a.not_den
      · obtain ⟨n, hs, hn, hka, ⟨m', hm', hs'⟩, _, hp⟩ := hfun k m0 hK hm he
        rw [show (renameNode ren (ren k) n).name = ren k from rfl, h1] at hm'
        cases hm'
        rw [hs'.inputTypes] at h4 h5 h6 ih
        rw [hs'.fn] at h6
        rw [hka.inputTypes] at h4 h5 ih
        have h6' : n.fn (argsFor n.inputTypes (fun d => val (ren d))) = .ok v := by
          rw [hka.inputTypes] at h6
          simp only [renameNode] at h6
          rw [translate_argsFor val _ hka.get] at h6
          exact h6
        refine .call (fun d => val (ren d)) hm rfl he ?_ ?_ (by rw [hs.inputTypes, hs.fn]; exact h6')
        · rw [hs.inputTypes]
          intro d w hd hv
          refine ih (ren d) w ?_ hv (hp d hd).1 (hp d hd).2 rfl
          obtain ⟨p, hp, rfl⟩ := List.mem_map.1 hd
          exact List.mem_map.2 ⟨(ren p.1, p.2), List.mem_map.2 ⟨p, hp, rfl⟩, rfl⟩
        · rw [hs.inputTypes]
          intro d t hdt hv
          obtain ⟨a, b⟩ := h5 (ren d) t (List.mem_map.2 ⟨(d, t), hdt, rfl⟩) hv
          have hd := hp d (List.mem_map.2 ⟨(d, t), hdt, rfl⟩)
          exact ⟨a, habs2 d hd.1 hd.2 b⟩

/-! ### Pruning -/

theorem containsDuplicates_iff : ∀ l : List Name, containsDuplicates l = false ↔ l.Nodup
  | [] => by simp [containsDuplicates]
  | a :: l => by
    rw [containsDuplicates, List.nodup_cons, ← containsDuplicates_iff l]
    simp

theorem eq_of_name {nodes : List (Node T V)} (hn : (nodes.map (·.name)).Nodup) {a b : Node T V} (ha : a ∈ nodes) (hb : b ∈ nodes)
    (he : a.name = b.name) : a = b := by
  induction nodes with
  | nil => cases ha
  | cons x l ih =>
    rw [List.map_cons, List.nodup_cons] at hn
    rcases List.mem_cons.1 ha with rfl | ha' <;> rcases List.mem_cons.1 hb with rfl | hb'
    · rfl
    · exact absurd (List.mem_map.2 ⟨b, hb', he.symm⟩) hn.1
    · exact absurd (List.mem_map.2 ⟨a, ha', he⟩) hn.1
    · exact ih hn.2 ha' hb'

theorem find_by_name {nodes : List (Node T V)} (hn : (nodes.map (·.name)).Nodup) {a : Node T V} (ha : a ∈ nodes) :
    nodes.find? (fun n => n.name == a.name) = some a := by
  cases hf : nodes.find? (fun n => n.name == a.name) with
  | none =>
    have := List.find?_eq_none.1 hf a ha
    simp at this
  | some b =>
    have h1 := List.find?_some hf
    have h2 := List.mem_of_find?_eq_some hf
    simp only [beq_iff_eq] at h1
    rw [eq_of_name hn h2 ha h1]

theorem find_back {nodes : List (Node T V)} (hn : (nodes.map (·.name)).Nodup) : ∀ {l : List (Node T V)}, (∀ n ∈ l, n ∈ nodes) →
    (l.map toTNode).filterMap (fun m => nodes.find? (fun n => n.name == m.name)) = l := by
  intro l
  induction l with
  | nil => intro _; rfl
  | cons a l ih =>
    intro h
    rw [List.map_cons, List.filterMap_cons]
    simp only [toTNode]
    rw [find_by_name hn (h a (by simp))]
    simp only
    rw [ih (fun n hn => h n (by simp [hn]))]

theorem exists_nodes_of {nodes : List (Node T V)} : ∀ {out : List TNode}, (∀ m ∈ out, ∃ n ∈ nodes, toTNode n = m) →
    ∃ l : List (Node T V), (∀ n ∈ l, n ∈ nodes) ∧ l.map toTNode = out := by
  intro out
  induction out with
  | nil => intro _; exact ⟨[], by simp, rfl⟩
  | cons m out ih =>
    intro h
    obtain ⟨n, hn, he⟩ := h m (by simp)
    obtain ⟨l, hl, hle⟩ := ih (fun m hm => h m (by simp [hm]))
    refine ⟨n :: l, ?_, by rw [List.map_cons, he, hle]⟩
    intro x hx
    rcases List.mem_cons.1 hx with rfl | hx
    · exact hn
    · exact hl x hx

theorem lastNamed_iff {nodes : List TNode} (hn : (nodes.map (·.name)).Nodup) (n : TNode) : LastNamed nodes n ↔ n ∈ nodes := by
  constructor
  · rintro ⟨a, b, rfl, _⟩; simp
  · intro h
    obtain ⟨a, b, rfl⟩ := List.append_of_mem h
    refine ⟨a, b, rfl, ?_⟩
    intro m hm he
    rw [List.map_append, List.map_cons, List.nodup_append, List.nodup_cons] at hn
    exact hn.2.1.1 (List.mem_map.2 ⟨m, hm, he⟩)

theorem toTNode_names (nodes : List (Node T V)) : (nodes.map toTNode).map (·.name) = nodes.map (·.name) := by
  rw [List.map_map]; rfl

/-- What pruning keeps. -/
structure KeptNodes (nodes : List (Node T V)) (select : Option (List Name)) (pruned : List (Node T V)) : Prop where
  mem : ∀ n ∈ pruned, n ∈ nodes
  nodup : (pruned.map (·.name)).Nodup
  selected : ∀ sel, select = some sel → ∀ c ∈ sel, c ∈ pruned.map (·.name)
  closed : ∀ n ∈ pruned, ∀ d ∈ n.inputTypes.keys, d ∈ nodes.map (·.name) → d ∈ pruned.map (·.name)
  all : select = none → pruned = nodes
  wanted : ∀ sel, select = some sel → ∀ n ∈ pruned, Wanted (nodes.map toTNode) sel n.name

theorem prune_facts {nodes pruned : List (Node T V)} {select : Option (List Name)} {initial : List TNode}
    (hn : (nodes.map (·.name)).Nodup) (hi : ∀ sel, select = some sel → InitialStack (nodes.map toTNode) sel initial)
    (h : pruneGenerated nodes select initial = .ok pruned) : KeptNodes nodes select pruned := by
  unfold pruneGenerated at h
  cases select with
  | none =>
    rw [C42_no_selection] at h
    simp only at h
    rw [find_back hn (fun _ h => h)] at h
    cases h
    exact ⟨fun _ h => h, hn, nofun, fun _ _ _ _ h => h, fun _ => rfl, nofun⟩
  | some sel =>
    obtain ⟨h1, h2⟩ := C42_prune (nodes.map toTNode) sel initial (hi sel rfl)
    by_cases hall : ∀ s ∈ sel, ∃ n ∈ nodes.map toTNode, n.name = s
    · obtain ⟨out, ho, hnd, hmem⟩ := h2 hall
      rw [ho] at h
      simp only at h
      have hn' : ((nodes.map toTNode).map (·.name)).Nodup := by rw [toTNode_names]; exact hn
      obtain ⟨l, hl, rfl⟩ := exists_nodes_of (nodes := nodes) (out := out) (by
        intro m hm
        have := (lastNamed_iff hn' m).1 ((hmem m).1 hm).1
        obtain ⟨n, a, b⟩ := List.mem_map.1 this
        exact ⟨n, a, b⟩)
      rw [find_back hn hl] at h
      cases h
      have hin : ∀ n ∈ nodes, (n ∈ pruned ↔ Wanted (nodes.map toTNode) sel n.name) := by
        intro n hnn
        constructor
        · intro h; exact ((hmem (toTNode n)).1 (List.mem_map.2 ⟨n, h, rfl⟩)).2
        · intro h
          have := (hmem (toTNode n)).2 ⟨(lastNamed_iff hn' _).2 (List.mem_map.2 ⟨n, hnn, rfl⟩), h⟩
          obtain ⟨n', a, b⟩ := List.mem_map.1 this
          have : n'.name = n.name := congrArg TNode.name b
          rw [← eq_of_name hn (hl n' a) hnn this]; exact a
      refine ⟨hl, by rw [toTNode_names] at hnd; exact hnd, ?_, ?_, nofun, ?_⟩
      · intro s hs c hc
        cases hs
        obtain ⟨m, hm, rfl⟩ := hall c hc
        obtain ⟨n, hnn, rfl⟩ := List.mem_map.1 hm
        exact List.mem_map.2 ⟨n, (hin n hnn).2 (.selected hc), rfl⟩
      · intro n hnp d hd hdn
        obtain ⟨x, hx, rfl⟩ := List.mem_map.1 hdn
        refine List.mem_map.2 ⟨x, (hin x hx).2 ?_, rfl⟩
        exact .needed (n := toTNode n) ((hin n (hl n hnp)).1 hnp)
          ((lastNamed_iff hn' _).2 (List.mem_map.2 ⟨n, hl n hnp, rfl⟩)) hd
      · intro s hs n hnp
        cases hs
        exact (hin n (hl n hnp)).1 hnp
    · have : ∃ s ∈ sel, ∀ n ∈ nodes.map toTNode, n.name ≠ s := by
        apply Classical.byContradiction
        intro hno
        apply hall
        intro s hs
        apply Classical.byContradiction
        intro hno'
        exact hno ⟨s, hs, fun n hn he => hno' ⟨n, hn, he⟩⟩
      rw [h1 this] at h
      cases h

theorem prune_accepts {nodes : List (Node T V)} {select : Option (List Name)} {initial : List TNode}
    (hi : ∀ sel, select = some sel → InitialStack (nodes.map toTNode) sel initial) :
    (∃ pruned, pruneGenerated nodes select initial = .ok pruned) ↔
      ∀ sel, select = some sel → ∀ c ∈ sel, c ∈ nodes.map (·.name) := by
  cases select with
  | none =>
    refine ⟨fun _ => nofun, fun _ => ?_⟩
    unfold pruneGenerated
    rw [C42_no_selection]
    exact ⟨_, rfl⟩
  | some sel =>
    obtain ⟨h1, h2⟩ := C42_prune (nodes.map toTNode) sel initial (hi sel rfl)
    constructor
    · rintro ⟨pruned, h⟩ s hs c hc
      cases hs
      apply Classical.byContradiction
      intro hno
      unfold pruneGenerated at h
      rw [h1 ⟨c, hc, fun n hn he => hno ?_⟩] at h
      · cases h
      · rw [← toTNode_names]; exact List.mem_map.2 ⟨n, hn, he⟩
    · intro h
      obtain ⟨out, ho, _⟩ := h2 (by
        intro s hs
        have := h sel rfl s hs
        rw [← toTNode_names] at this
        obtain ⟨n, hn, he⟩ := List.mem_map.1 this
        exact ⟨n, hn, he⟩)
      unfold pruneGenerated
      rw [ho]
      exact ⟨_, rfl⟩

/-! ### The injected nodes -/

/-- The generated nodes: the columns and the functions. -/
def generatedNodes (lib : FrameLib T V) (d : WithColumns) (param : Name) (subs : List (Node T V)) : List (Node T V) :=
  d.passed.map (columnNode lib param) ++ subs

theorem generated_names (lib : FrameLib T V) (d : WithColumns) (param : Name) (subs : List (Node T V)) :
    (generatedNodes lib d param subs).map (·.name) = d.passed ++ subs.map (·.name) := by
  unfold generatedNodes
  rw [List.map_append, List.map_map]
  congr 1
  exact List.map_id _

theorem initialNodes_ok {lib : FrameLib T V} {d : WithColumns} {sig params : List Name} {r : Name × List (Node T V)} :
    initialNodes lib d sig params = .ok r ↔ FrameParam d sig r.1 ∧ r.1 ∈ params ∧
      (d.onInput = none → ∃ cs, d.columns = some cs ∧ cs ≠ []) ∧ r.2 = d.passed.map (columnNode lib r.1) := by
  obtain ⟨p, cols⟩ := r
  unfold initialNodes injectParameter FrameParam WithColumns.passed
  cases hon : d.onInput with
  | some q =>
    simp only [List.contains_eq_mem, decide_eq_true_eq]
    by_cases hq : q ∈ params
    · rw [if_pos hq]
      simp only [Except.ok.injEq, Prod.mk.injEq, Option.some.injEq, Option.isSome_some, if_true, List.map_nil]
      constructor
      · rintro ⟨rfl, rfl⟩; exact ⟨.inl rfl, hq, nofun, rfl⟩
      · rintro ⟨h | h, _, _, rfl⟩
        · exact ⟨h, rfl⟩
        · cases h.1
    · rw [if_neg hq]
      constructor
      · intro h; cases h
      · rintro ⟨h | h, h', _⟩
        · cases h; exact absurd h' hq
        · cases h.1
  | none =>
    cases sig with
    | nil =>
      simp only
      constructor
      · intro h; cases h
      · rintro ⟨h | h, _⟩
        · cases h
        · simp at h
    | cons q sig =>
      simp only [List.contains_eq_mem, decide_eq_true_eq]
      by_cases hq : q ∈ params
      · rw [if_pos hq]
        cases hc : d.columns with
        | none =>
          simp only
          constructor
          · intro h; cases h
          · rintro ⟨_, _, h, _⟩
            obtain ⟨cs, h, _⟩ := h trivial
            cases h
        | some cs =>
          cases cs with
          | nil =>
            simp only
            constructor
            · intro h; cases h
            · rintro ⟨_, _, h, _⟩
              obtain ⟨cs, h, h'⟩ := h trivial
              cases h; exact absurd rfl h'
          | cons c cs =>
            simp only [Except.ok.injEq, Prod.mk.injEq]
            constructor
            · rintro ⟨rfl, rfl⟩
              exact ⟨.inr ⟨trivial, rfl⟩, hq, fun _ => ⟨_, rfl, by simp⟩, rfl⟩
            · rintro ⟨h | h, _, _, h'⟩
              · cases h
              · have : q = p := by simpa using h.2
                subst this
                exact ⟨rfl, h'.symm⟩
      · rw [if_neg hq]
        constructor
        · intro h; cases h
        · rintro ⟨h | h, h', _⟩
          · cases h
          · have : q = p := by simpa using h.2
            subst this
            exact absurd h' hq

/-- The result of the decorator, taken apart. -/
theorem withColumns_ok [DecidableEq T] {lib : FrameLib T V} {d d' : WithColumns} {fnName : Name} {sig : List Name}
    {nodes subs out : List (Node T V)} {initial : List TNode}
    (h : withColumnsNodes lib d fnName sig nodes subs initial = .ok (out, d')) :
    ∃ param pruned, FrameParam d sig param ∧ param ∈ injectableParams nodes ∧
      (d.onInput = none → ∃ cs, d.columns = some cs ∧ cs ≠ []) ∧
      ((generatedNodes lib d param subs).map (·.name)).Nodup ∧
      pruneGenerated (generatedNodes lib d param subs) d.select initial = .ok pruned ∧ pruned ≠ [] ∧
      d' = { d with select := some (chosenColumns lib d.select pruned) } ∧
      out = nodes.map (fun n => if n.inputTypes.has param then
          reassignInputs [(param, assignNamespace "_append" (d.ns.getD fnName))] [] n else n) ++
        addNamespace (pruned ++ [appendNode lib param (chosenColumns lib d.select pruned)]) (nsSpec (d.ns.getD fnName)) := by
  unfold withColumnsNodes withColumnsInject at h
  cases h1 : initialNodes lib d sig (injectableParams nodes) with
  | error e => rw [h1] at h; cases h
  | ok r =>
    rw [h1] at h
    obtain ⟨a, b, c, e⟩ := initialNodes_ok.1 h1
    obtain ⟨p, cols⟩ := r
    simp only at a b e h
    subst e
    cases hd : containsDuplicates ((d.passed.map (columnNode lib p) ++ subs).map (·.name)) with
    | true => simp only [hd, if_true] at h; cases h
    | false =>
      simp only [hd, Bool.false_eq_true, if_false] at h
      cases hp : pruneGenerated (d.passed.map (columnNode lib p) ++ subs) d.select initial with
      | error e => simp only [hp] at h; cases h
      | ok pruned =>
        simp only [hp] at h
        by_cases hl : pruned.length = 0
        · rw [if_pos hl] at h; cases h
        · rw [if_neg hl] at h
          simp only [Except.ok.injEq, Prod.mk.injEq] at h
          refine ⟨p, pruned, a, b, c, (containsDuplicates_iff _).1 hd, hp, ?_, h.2.symm, h.1.symm⟩
          intro hx; subst hx; exact hl rfl

theorem FrameParam.det {d : WithColumns} {sig : List Name} {p q : Name} (h : FrameParam d sig p) (h' : FrameParam d sig q) :
    p = q := by
  rcases h with h | ⟨h, h2⟩ <;> rcases h' with h' | ⟨h', h2'⟩
  · rw [h] at h'; exact Option.some.inj h'
  · rw [h] at h'; cases h'
  · rw [h] at h'; cases h'
  · rw [h2] at h2'; exact Option.some.inj h2'

end Verif
