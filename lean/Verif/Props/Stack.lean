import Verif.Spec.Stack

/-!
Property C60: what a stack of decorators means.
-/
namespace Verif

section
variable {F N V : Type}

theorem DecoAttrs.get_put (a : DecoAttrs F N V) (l : List (StaticDeco F N V)) (k k' : DecoKind) :
    (a.put l k).get k' = if k = k' then l else a.get k' := by
  cases k <;> cases k' <;> rfl

theorem DecoAttrs.dynamic_put (a : DecoAttrs F N V) (l : List (StaticDeco F N V)) (k : DecoKind) :
    (a.put l k).dynamic = a.dynamic := by
  cases k <;> rfl

theorem DecoAttrs.ext_get {a b : DecoAttrs F N V} (h : ∀ k, a.get k = b.get k) (hd : a.dynamic = b.dynamic) : a = b := by
  obtain ⟨a1, a2, a3, a4, a5, a6, a7⟩ := a
  obtain ⟨b1, b2, b3, b4, b5, b6, b7⟩ := b
  have h1 := h .resolve
  have h2 := h .generate
  have h3 := h .expand
  have h4 := h .transform
  have h5 := h .inject
  have h6 := h .decorate
  simp only [DecoAttrs.get] at h1 h2 h3 h4 h5 h6
  subst h1 h2 h3 h4 h5 h6 hd
  rfl

theorem ofKind_static_eq {d : StaticDeco F N V} {k : DecoKind} (ds : List (Deco F N V)) (h : d.kind = k) :
    ofKind k (.static d :: ds) = d :: ofKind k ds := by
  simp [ofKind, h]

theorem ofKind_static_ne {d : StaticDeco F N V} {k : DecoKind} (ds : List (Deco F N V)) (h : d.kind ≠ k) :
    ofKind k (.static d :: ds) = ofKind k ds := by
  simp [ofKind, h]

theorem ofKind_dynamic {d : DynDeco F N V} {k : DecoKind} (ds : List (Deco F N V)) :
    ofKind k (.dynamic d :: ds) = ofKind k ds := rfl

theorem dynamics_static {d : StaticDeco F N V} (ds : List (Deco F N V)) : dynamics (.static d :: ds) = dynamics ds := rfl

theorem dynamics_dynamic {d : DynDeco F N V} (ds : List (Deco F N V)) : dynamics (.dynamic d :: ds) = d :: dynamics ds := rfl

/-- A decorator that can only be used once. -/
def Single (k : DecoKind) : Prop := k.multiple = false

/-- What can be in the list of one kind: at most one of a kind that can be used once, and an exclusive one only at the bottom. -/
def Fits (k : DecoKind) (l : List (StaticDeco F N V)) : Prop :=
  (Single k → l.length ≤ 1) ∧ ∀ d ∈ l.tail, d.exclusive = false

/-- What attaching accepts and where the decorators go. -/
theorem attachAll_iff (fn : F) : ∀ (s : List (Deco F N V)) (a a' : DecoAttrs F N V),
    (∀ k, Fits k (a.get k)) →
    (attachAll fn s a = .ok a' ↔ (∀ k, ∀ d ∈ ofKind k s, d.valid fn = true) ∧
      (∀ k, Fits k (a.get k ++ ofKind k s)) ∧
      (∀ k, a'.get k = a.get k ++ ofKind k s) ∧ a'.dynamic = a.dynamic ++ dynamics s) := by
  intro s
  induction s with
  | nil =>
    intro a a' ha
    simp only [attachAll, ofKind, dynamics, List.filterMap_nil, List.append_nil]
    constructor
    · intro h
      cases h
      exact ⟨by simp, ha, fun _ => rfl, rfl⟩
    · rintro ⟨_, _, h, hd⟩
      rw [DecoAttrs.ext_get h hd]
  | cons d ds ih =>
    intro a a' ha
    cases d with
    | dynamic d =>
      have hg : ∀ k, DecoAttrs.get { a with dynamic := a.dynamic ++ [d] } k = a.get k := by intro k; cases k <;> rfl
      simp only [attachAll, attachDeco]
      rw [ih { a with dynamic := a.dynamic ++ [d] } a' (by simpa only [hg] using ha)]
      simp only [hg, ofKind_dynamic, dynamics_dynamic, List.append_assoc, List.singleton_append]
    | static d =>
      simp only [attachAll, attachDeco]
      by_cases hv : d.valid fn = true
      · rw [show (!d.valid fn) = false by rw [hv]; rfl]
        simp only [Bool.false_eq_true, if_false]
        by_cases hm : (!(a.get d.kind).isEmpty && (!d.kind.multiple || d.exclusive)) = true
        · rw [if_pos hm]
          simp only [Bool.and_eq_true, Bool.or_eq_true, Bool.not_eq_true', List.isEmpty_eq_false_iff] at hm
          constructor
          · intro h; cases h
          · rintro ⟨_, h2, _⟩
            have h3 := h2 d.kind
            rw [ofKind_static_eq ds rfl] at h3
            rcases hm.2 with hs | hs
            · have := h3.1 hs
              rw [List.length_append, List.length_cons] at this
              have : (a.get d.kind).length ≠ 0 := by
                intro h
                exact hm.1 (List.length_eq_zero_iff.1 h)
              omega
            · have := h3.2 d (by
                rw [List.tail_append_of_ne_nil hm.1]
                exact List.mem_append_right _ List.mem_cons_self)
              rw [hs] at this; cases this
        · rw [if_neg hm]
          simp only
          have hg : ∀ k, (a.put (a.get d.kind ++ [d]) d.kind).get k ++ ofKind k ds = a.get k ++ ofKind k (.static d :: ds) := by
            intro k
            rw [DecoAttrs.get_put]
            by_cases hk : d.kind = k
            · rw [if_pos hk, ofKind_static_eq ds hk, hk]
              simp
            · rw [if_neg hk, ofKind_static_ne ds hk]
          have ha' : ∀ k, Fits k ((a.put (a.get d.kind ++ [d]) d.kind).get k) := by
            intro k
            rw [DecoAttrs.get_put]
            by_cases h : d.kind = k
            · rw [if_pos h]
              subst h
              by_cases he : a.get d.kind = []
              · rw [he]
                exact ⟨fun _ => by simp, fun e h => by simp at h⟩
              · have hmm : (!d.kind.multiple || d.exclusive) = false := by
                  have h0 : (a.get d.kind).isEmpty = false := by simpa using he
                  rw [h0] at hm
                  simpa using hm
                simp only [Bool.or_eq_false_iff, Bool.not_eq_false'] at hmm
                refine ⟨fun hk => ?_, ?_⟩
                · rw [Single, hmm.1] at hk; cases hk
                · intro e h
                  rw [List.tail_append_of_ne_nil he] at h
                  rcases List.mem_append.1 h with h | h
                  · exact (ha d.kind).2 e h
                  · rw [List.mem_singleton] at h; rw [h]; exact hmm.2
            · rw [if_neg h]; exact ha k
          rw [ih _ a' ha']
          simp only [hg, DecoAttrs.dynamic_put, dynamics_static]
          constructor
          · rintro ⟨h1, h2⟩
            refine ⟨?_, h2⟩
            intro k e he
            by_cases hk : d.kind = k
            · rw [ofKind_static_eq ds hk] at he
              rcases List.mem_cons.1 he with rfl | he
              · exact hv
              · exact h1 k e he
            · rw [ofKind_static_ne ds hk] at he
              exact h1 k e he
          · rintro ⟨h1, h2⟩
            refine ⟨?_, h2⟩
            intro k e he
            apply h1 k e
            by_cases hk : d.kind = k
            · rw [ofKind_static_eq ds hk]; exact .tail _ he
            · rw [ofKind_static_ne ds hk]; exact he
      · rw [show (!d.valid fn) = true by simpa using hv]
        simp only [if_true]
        constructor
        · intro h; cases h
        · rintro ⟨h1, _⟩
          exact absurd (h1 d.kind d (by rw [ofKind_static_eq ds rfl]; exact .head _)) hv

/-- The same from nothing. -/
theorem attachAll_nil_iff (fn : F) (s : List (Deco F N V)) (a : DecoAttrs F N V) :
    attachAll fn s {} = .ok a ↔ (∀ k, ∀ d ∈ ofKind k s, d.valid fn = true) ∧
      (∀ k, Fits k (ofKind k s)) ∧ (∀ k, a.get k = ofKind k s) ∧ a.dynamic = dynamics s := by
  have hg : ∀ k, (({} : DecoAttrs F N V)).get k = [] := by intro k; cases k <;> rfl
  rw [attachAll_iff fn s {} a (by intro k; rw [hg]; exact ⟨fun _ => by simp, fun e h => by simp at h⟩)]
  simp only [hg, List.nil_append]

/-- The attributes that hold the decorators of a stack. -/
def attrsOf (s : List (Deco F N V)) : DecoAttrs F N V :=
  ⟨ofKind .resolve s, ofKind .generate s, ofKind .expand s, ofKind .transform s, ofKind .inject s, ofKind .decorate s, dynamics s⟩

theorem attrsOf_get (s : List (Deco F N V)) (k : DecoKind) : (attrsOf s).get k = ofKind k s := by
  cases k <;> rfl

theorem filter_kind_get {a : DecoAttrs F N V} (h : ∀ k, ∀ d ∈ a.get k, d.kind = k) (dyn : List (StaticDeco F N V))
    (k : DecoKind) : decoratorsOf a dyn k = a.get k ++ dyn.filter (fun d => d.kind = k) := by
  have hf : ∀ k', (a.get k').filter (fun d => decide (d.kind = k)) = if k' = k then a.get k' else [] := by
    intro k'
    by_cases hk : k' = k
    · rw [if_pos hk, List.filter_eq_self]
      intro d hd
      rw [h k' d hd, hk]; simp
    · rw [if_neg hk, List.filter_eq_nil_iff]
      intro d hd
      rw [h k' d hd]; simpa using hk
  have h1 := hf .resolve
  have h2 := hf .generate
  have h3 := hf .expand
  have h4 := hf .transform
  have h5 := hf .inject
  have h6 := hf .decorate
  simp only [DecoAttrs.get] at h1 h2 h3 h4 h5 h6
  unfold decoratorsOf allDecorators
  simp only [List.filter_append, h1, h2, h3, h4, h5, h6]
  cases k <;> simp [DecoAttrs.get]

theorem ofKind_kind {k : DecoKind} {s : List (Deco F N V)} {d : StaticDeco F N V} (h : d ∈ ofKind k s) : d.kind = k := by
  unfold ofKind at h
  obtain ⟨x, _, hx⟩ := List.mem_filterMap.1 h
  cases x with
  | dynamic => cases hx
  | static x =>
    simp only at hx
    split at hx
    · rename_i hk; cases hx; exact hk
    · cases hx

variable [DecidableEq V]

/-- **C60, interleaving.**  Decorators of different kinds can be stacked in any relative order: whether the function can be
built, and the nodes it becomes, depend only on the order among decorators of the same kind. -/
theorem C60_interleaving (truthy : V → Bool) (pyFalse : V) (config : Dict Name V) (fromFn : F → Except UserErr (List N)) (fn : F)
    {s s' : List (Deco F N V)} (h : SameDecorators s s') (nodes : List N) :
    decorated truthy pyFalse config fromFn fn s = .ok nodes ↔ decorated truthy pyFalse config fromFn fn s' = .ok nodes := by
  have key : ∀ {s s' : List (Deco F N V)}, SameDecorators s s' → decorated truthy pyFalse config fromFn fn s = .ok nodes →
      decorated truthy pyFalse config fromFn fn s' = .ok nodes := by
    intro s s' h hd
    unfold decorated at hd ⊢
    cases ha : attachAll fn s {} with
    | error e => rw [ha] at hd; cases hd
    | ok a =>
      rw [ha] at hd
      have h1 := (attachAll_nil_iff fn s a).1 ha
      have h2 : attachAll fn s' {} = .ok a := by
        rw [attachAll_nil_iff]
        simp only [← h.1, ← h.2]
        exact h1
      rw [h2]
      exact hd
  exact ⟨key h, key ⟨fun k => (h.1 k).symm, h.2.symm⟩⟩

/-! ### One by one -/

theorem filterMap_ofKind_map (l : List (StaticDeco F N V)) (k : DecoKind) :
    ofKind k (l.map .static) = l.filter (fun d => d.kind = k) := by
  induction l with
  | nil => rfl
  | cons d l ih =>
    rw [List.map_cons, List.filter_cons]
    by_cases h : d.kind = k
    · rw [ofKind_static_eq _ h, ih, if_pos (by simpa using h)]
    · rw [ofKind_static_ne _ h, ih, if_neg (by simpa using h)]

theorem dynamics_map (l : List (StaticDeco F N V)) : dynamics (l.map .static) = [] := by
  induction l with
  | nil => rfl
  | cons d l ih => exact ih

theorem stage_split : ∀ {l : List (StaticDeco F N V)}, l.Pairwise (fun d e => d.kind.rank ≤ e.kind.rank) →
    l = l.filter (fun d => d.kind = .resolve) ++ (l.filter (fun d => d.kind = .generate) ++
      (l.filter (fun d => d.kind = .inject) ++ (l.filter (fun d => d.kind = .expand) ++
      (l.filter (fun d => d.kind = .transform) ++ l.filter (fun d => d.kind = .decorate))))) := by
  intro l
  induction l with
  | nil => intro _; rfl
  | cons d l ih =>
    intro h
    rw [List.pairwise_cons] at h
    have ih := ih h.2
    have hnil : ∀ k : DecoKind, k.rank < d.kind.rank → l.filter (fun e => decide (e.kind = k)) = [] := by
      intro k hk
      rw [List.filter_eq_nil_iff]
      intro e he
      have := h.1 e he
      intro hek
      simp only [decide_eq_true_eq] at hek
      rw [hek] at this
      omega
    have n0 := hnil .resolve
    have n1 := hnil .generate
    have n2 := hnil .inject
    have n3 := hnil .expand
    have n4 := hnil .transform
    simp only [List.filter_cons]
    cases hd : d.kind <;> rw [hd] at n0 n1 n2 n3 n4 <;>
      simp only [reduceCtorEq, decide_false, decide_true, Bool.false_eq_true, if_false, if_true]
    · rw [List.cons_append, ← ih]
    · rw [n0 (by decide)] at ih ⊢
      rw [List.nil_append] at ih ⊢
      rw [List.cons_append, ← ih]
    · rw [n0 (by decide), n1 (by decide), n2 (by decide)] at ih ⊢
      simp only [List.nil_append] at ih ⊢
      rw [List.cons_append, ← ih]
    · rw [n0 (by decide), n1 (by decide), n2 (by decide), n3 (by decide)] at ih ⊢
      simp only [List.nil_append] at ih ⊢
      rw [List.cons_append, ← ih]
    · rw [n0 (by decide), n1 (by decide)] at ih ⊢
      simp only [List.nil_append] at ih ⊢
      rw [List.cons_append, ← ih]
    · rw [n0 (by decide), n1 (by decide), n2 (by decide), n3 (by decide), n4 (by decide)] at ih ⊢
      simp only [List.nil_append] at ih ⊢
      rw [← ih]

theorem applyAll_dropped (pyFalse : V) (config : Dict Name V) (fromFn : F → Except UserErr (List N)) :
    ∀ l : List (StaticDeco F N V), applyAll pyFalse config fromFn l .dropped = .ok [] := by
  intro l
  induction l with
  | nil => rfl
  | cons d l ih => exact ih

theorem applyAll_nodes (pyFalse : V) (config : Dict Name V) (fromFn : F → Except UserErr (List N)) (fn : F) :
    ∀ (l : List (StaticDeco F N V)) (nodes : List N), applyAll pyFalse config fromFn l (.nodes fn nodes) = runDag pyFalse config fn l nodes := by
  intro l
  induction l with
  | nil => intro nodes; rfl
  | cons d l ih =>
    intro nodes
    simp only [applyAll, applyOne, runDag, bind, Except.bind, pure, Except.pure]
    cases d.config pyFalse config with
    | error e => rfl
    | ok c =>
      simp only
      cases d.transformDag nodes c fn with
      | error e => rfl
      | ok n => exact ih n

theorem runDag_append (pyFalse : V) (config : Dict Name V) (fn : F) (l' : List (StaticDeco F N V)) :
    ∀ (l : List (StaticDeco F N V)) (nodes : List N), runDag pyFalse config fn (l ++ l') nodes =
      match runDag pyFalse config fn l nodes with
      | .error e => .error e
      | .ok n => runDag pyFalse config fn l' n := by
  intro l
  induction l with
  | nil => intro nodes; rfl
  | cons d l ih =>
    intro nodes
    simp only [List.cons_append, runDag]
    cases d.config pyFalse config with
    | error e => rfl
    | ok c =>
      simp only
      cases d.transformDag nodes c fn with
      | error e => rfl
      | ok n => exact ih n

theorem applyAll_resolve (pyFalse : V) (config : Dict Name V) (fromFn : F → Except UserErr (List N))
    (l' : List (StaticDeco F N V)) : ∀ (l : List (StaticDeco F N V)) (fn : F), (∀ d ∈ l, d.kind = .resolve) →
    applyAll pyFalse config fromFn (l ++ l') (.fn fn) =
      match runResolve pyFalse config l fn with
      | .error e => .error e
      | .ok none => .ok []
      | .ok (some fn') => applyAll pyFalse config fromFn l' (.fn fn') := by
  intro l
  induction l with
  | nil => intro fn _; rfl
  | cons d l ih =>
    intro fn h
    have hd := h d (.head _)
    simp only [List.cons_append, applyAll, applyOne, runResolve, hd, true_or, if_true, bind, Except.bind, pure, Except.pure]
    cases d.config pyFalse config with
    | error e => rfl
    | ok c =>
      simp only
      cases d.resolve fn c with
      | error e => rfl
      | ok r =>
        cases r with
        | none => exact applyAll_dropped _ _ _ _
        | some fn' => exact ih fn' (fun e he => h e (.tail _ he))

theorem applyAll_dag (pyFalse : V) (config : Dict Name V) (fromFn : F → Except UserErr (List N)) (fn : F)
    (l : List (StaticDeco F N V)) (h : ∀ d ∈ l, d.kind ≠ .resolve ∧ d.kind ≠ .generate) :
    applyAll pyFalse config fromFn l (.fn fn) =
      match fromFn fn with
      | .error e => .error e
      | .ok n => runDag pyFalse config fn l n := by
  cases l with
  | nil =>
    simp only [applyAll, runDag]
    cases fromFn fn <;> rfl
  | cons d l =>
    have hd := h d (.head _)
    simp only [applyAll, applyOne, hd.1, hd.2, or_self, if_false, bind, Except.bind, pure, Except.pure]
    cases fromFn fn with
    | error e => rfl
    | ok n =>
      simp only [runDag]
      cases d.config pyFalse config with
      | error e => rfl
      | ok c =>
        simp only
        cases d.transformDag n c fn with
        | error e => rfl
        | ok n' => exact applyAll_nodes _ _ _ _ _ _

theorem runExpand_eq (pyFalse : V) (config : Dict Name V) (fn : F) {l : List (StaticDeco F N V)} (h : l.length ≤ 1)
    (nodes : List N) : runExpand pyFalse config fn l nodes = runDag pyFalse config fn l nodes := by
  match l, h with
  | [], _ => rfl
  | [d], _ => rfl
  | _ :: _ :: _, h => simp at h

/-- **C60, one by one.**  For a function whose decorators are stacked in the order resolve, create, inject, expand, transform,
decorate (any other order can be brought into this one, `C60_interleaving`) and that Python accepts, the nodes are what one
gets by applying the decorators one after the other, the innermost first, each to the result of the ones below. -/
theorem C60_one_by_one (truthy : V → Bool) (pyFalse : V) (config : Dict Name V) (fromFn : F → Except UserErr (List N)) (fn : F)
    {l : List (StaticDeco F N V)} (hs : l.Pairwise (fun d e => d.kind.rank ≤ e.kind.rank))
    (ha : ∃ a, attachAll fn (l.map .static) {} = .ok a) :
    decorated truthy pyFalse config fromFn fn (l.map .static) = applyAll pyFalse config fromFn l (.fn fn) := by
  obtain ⟨a, ha⟩ := ha
  obtain ⟨_, hsg, hget, hdyn⟩ := (attachAll_nil_iff fn _ a).1 ha
  rw [dynamics_map] at hdyn
  have hof : ∀ k, decoratorsOf a [] k = l.filter (fun d => d.kind = k) := by
    intro k
    rw [filter_kind_get (by intro k d hd; rw [hget] at hd; exact ofKind_kind hd), hget, filterMap_ofKind_map]
    simp
  simp only [filterMap_ofKind_map] at hsg
  have hk : ∀ (k : DecoKind), ∀ d ∈ l.filter (fun d => decide (d.kind = k)), d.kind = k := by
    intro k d hd
    simpa using (List.mem_filter.1 hd).2
  have hmem : ∀ (ks : List DecoKind), ∀ d ∈ ks.flatMap (fun k => l.filter (fun d => decide (d.kind = k))), d.kind ∈ ks := by
    intro ks d hd
    obtain ⟨k, hk', hd⟩ := List.mem_flatMap.1 hd
    rw [hk k d hd]; exact hk'
  unfold decorated
  rw [ha]
  simp only [resolveNodes, hdyn, resolveDynamic, hof]
  rw [show applyAll pyFalse config fromFn l (.fn fn) = applyAll pyFalse config fromFn _ (.fn fn) from
    congrArg (fun x => applyAll pyFalse config fromFn x (.fn fn)) (stage_split hs)]
  rw [applyAll_resolve _ _ _ _ _ _ (hk .resolve)]
  cases runResolve pyFalse config (l.filter (fun d => decide (d.kind = .resolve))) fn with
  | error e => rfl
  | ok r =>
    cases r with
    | none => rfl
    | some fn' =>
      simp only [runStages, hof]
      have he := (hsg .expand).1 rfl
      have hg := (hsg .generate).1 rfl
      have hgk := hk .generate
      have hrest := hmem [.inject, .expand, .transform, .decorate]
      simp only [List.flatMap_cons, List.flatMap_nil, List.append_nil] at hrest
      generalize l.filter (fun d => decide (d.kind = .generate)) = gen at hg hgk
      generalize l.filter (fun d => decide (d.kind = .inject)) = inj at hrest
      generalize l.filter (fun d => decide (d.kind = .expand)) = exp at he hrest
      generalize l.filter (fun d => decide (d.kind = .transform)) = tr at hrest
      generalize l.filter (fun d => decide (d.kind = .decorate)) = dec at hrest
      have hdag : ∀ n, runDag pyFalse config fn' (inj ++ (exp ++ (tr ++ dec))) n =
          match runDag pyFalse config fn' inj n with
          | .error e => .error e
          | .ok n2 =>
            match runExpand pyFalse config fn' exp n2 with
            | .error e => .error e
            | .ok n3 =>
              match runDag pyFalse config fn' tr n3 with
              | .error e => .error e
              | .ok n4 => runDag pyFalse config fn' dec n4 := by
        intro n
        rw [runDag_append]
        cases runDag pyFalse config fn' inj n with
        | error e => rfl
        | ok n2 =>
          simp only
          rw [runDag_append, runExpand_eq _ _ _ he]
          cases runDag pyFalse config fn' exp n2 with
          | error e => rfl
          | ok n3 =>
            simp only
            rw [runDag_append]
      match gen, hg, hgk with
      | [], _, _ =>
        simp only [runGenerate, List.nil_append]
        rw [applyAll_dag]
        · cases fromFn fn' with
          | error e => rfl
          | ok n => exact (hdag n).symm
        · intro d hd
          have := hrest d hd
          constructor <;> (intro h; rw [h] at this; revert this; decide)
      | [g], _, hgk =>
        have hgk := hgk g (.head _)
        simp only [runGenerate, List.cons_append, List.nil_append, applyAll, applyOne, hgk, or_true, if_true, bind, Except.bind,
          pure, Except.pure, reduceCtorEq, if_false]
        cases g.config pyFalse config with
        | error e => rfl
        | ok c =>
          simp only
          cases g.generate fn' c with
          | error e => rfl
          | ok n =>
            simp only
            rw [applyAll_nodes]
            exact (hdag n).symm
      | _ :: _ :: _, hg, _ => simp at hg

/-! ### Configuration -/

theorem copyRequired_congr {c c' : Dict Name V} : ∀ {ks : List Name}, (∀ k ∈ ks, c.get? k = c'.get? k) →
    copyRequired c ks = copyRequired c' ks := by
  intro ks
  induction ks with
  | nil => intro _; rfl
  | cons k ks ih =>
    intro h
    simp only [copyRequired, h k (.head _), ih (fun k hk => h k (.tail _ hk))]

theorem foldl_set_congr {c c' : Dict Name V} : ∀ (l : List (Name × V)) (acc : Dict Name V), (∀ p ∈ l, c.get? p.1 = c'.get? p.1) →
    l.foldl (fun acc p => acc.set p.1 ((c.get? p.1).getD p.2)) acc =
      l.foldl (fun acc p => acc.set p.1 ((c'.get? p.1).getD p.2)) acc := by
  intro l
  induction l with
  | nil => intro _ _; rfl
  | cons p l ih =>
    intro acc h
    simp only [List.foldl_cons]
    rw [h p (.head _)]
    exact ih _ (fun q hq => h q (.tail _ hq))

theorem has_congr {c c' : Dict Name V} {k : Name} (h : c.get? k = c'.get? k) : c.has k = c'.has k := by
  rw [Bool.eq_iff_iff, Dict.has_eq_true_iff, Dict.has_eq_true_iff, h]

theorem config_congr {pyFalse : V} {c c' : Dict Name V} {d : StaticDeco F N V} (h : d.Agree c c') :
    d.config pyFalse c = d.config pyFalse c' := by
  obtain ⟨ks, hks, h⟩ := h
  unfold StaticDeco.declared at hks
  cases hr : d.required with
  | none => rw [hr] at hks; cases hks
  | some req =>
    rw [hr] at hks
    cases hks
    have h1 : ∀ k ∈ req, c.get? k = c'.get? k := fun k hk => h k (by simp [hk])
    have h2 : ∀ k ∈ (withGlobalDefault pyFalse d.optional).keys, c.get? k = c'.get? k := by
      intro k hk
      unfold withGlobalDefault at hk
      rw [Dict.mem_keys_set] at hk
      rcases hk with rfl | hk
      · exact h _ (by simp)
      · exact h k (by simp [hk])
    unfold StaticDeco.config resolveConfig
    rw [hr]
    simp only
    have hm : (req.filter (fun k => !c.has k && !(withGlobalDefault pyFalse d.optional).has k)) =
        req.filter (fun k => !c'.has k && !(withGlobalDefault pyFalse d.optional).has k) := by
      apply List.filter_congr
      intro k hk
      rw [has_congr (h1 k hk)]
    have hf : ∀ acc : Dict Name V, (withGlobalDefault pyFalse d.optional).foldl
          (fun (acc : Dict Name V) p => acc.set p.1 ((c.get? p.1).getD p.2)) acc =
        (withGlobalDefault pyFalse d.optional).foldl (fun (acc : Dict Name V) p => acc.set p.1 ((c'.get? p.1).getD p.2)) acc := by
      intro acc
      apply foldl_set_congr
      intro p hp
      exact h2 p.1 (List.mem_map.2 ⟨p, hp, rfl⟩)
    rw [hm, copyRequired_congr h1]
    simp only [hf]

theorem dyn_congr {truthy : V → Bool} {c c' : Dict Name V} {d : DynDeco F N V}
    (h : ∀ k ∈ powerUserMode :: d.required ++ d.optional, c.get? k = c'.get? k) :
    d.resolveWith truthy c = d.resolveWith truthy c' := by
  have h0 := h powerUserMode (by simp)
  have h1 : ∀ k ∈ d.required ++ d.optional, c.get? k = c'.get? k := fun k hk => h k (by simpa using .inr (List.mem_append.1 hk))
  have h2 : d.required.any (fun k => !c.has k) = d.required.any (fun k => !c'.has k) := by
    rw [Bool.eq_iff_iff, List.any_eq_true, List.any_eq_true]
    constructor
    · rintro ⟨k, hk, h⟩
      exact ⟨k, hk, by rw [← has_congr (h1 k (by simp [hk]))]; exact h⟩
    · rintro ⟨k, hk, h⟩
      exact ⟨k, hk, by rw [has_congr (h1 k (by simp [hk]))]; exact h⟩
  have h3 : (d.required ++ d.optional).filterMap (fun k => (c.get? k).map (fun v => (k, v))) =
      (d.required ++ d.optional).filterMap (fun k => (c'.get? k).map (fun v => (k, v))) := by
    revert h1
    generalize d.required ++ d.optional = ks
    intro h1
    induction ks with
    | nil => rfl
    | cons k ks ih => simp only [List.filterMap_cons, h1 k (.head _), ih (fun k hk => h1 k (.tail _ hk))]
  unfold DynDeco.resolveWith
  rw [h0, h2, h3]

theorem runResolve_congr {pyFalse : V} {c c' : Dict Name V} : ∀ {l : List (StaticDeco F N V)}, (∀ d ∈ l, d.Agree c c') → ∀ fn,
    runResolve pyFalse c l fn = runResolve pyFalse c' l fn := by
  intro l
  induction l with
  | nil => intro _ _; rfl
  | cons d l ih =>
    intro h fn
    simp only [runResolve, config_congr (h d (.head _)), ih (fun e he => h e (.tail _ he))]

theorem runDag_congr {pyFalse : V} {c c' : Dict Name V} {fn : F} : ∀ {l : List (StaticDeco F N V)}, (∀ d ∈ l, d.Agree c c') →
    ∀ nodes, runDag pyFalse c fn l nodes = runDag pyFalse c' fn l nodes := by
  intro l
  induction l with
  | nil => intro _ _; rfl
  | cons d l ih =>
    intro h nodes
    simp only [runDag, config_congr (h d (.head _)), ih (fun e he => h e (.tail _ he))]

theorem runStages_congr {pyFalse : V} {c c' : Dict Name V} {fromFn : F → Except UserErr (List N)} {fn : F}
    {of : DecoKind → List (StaticDeco F N V)} (h : ∀ k, ∀ d ∈ of k, d.Agree c c') :
    runStages pyFalse c fromFn fn of = runStages pyFalse c' fromFn fn of := by
  have hg : runGenerate pyFalse c fromFn fn (of .generate) = runGenerate pyFalse c' fromFn fn (of .generate) := by
    have hk := h .generate
    match hof : of .generate with
    | [] => rfl
    | [d] =>
      rw [hof] at hk
      simp only [runGenerate, config_congr (hk d (.head _))]
    | _ :: _ :: _ => rfl
  have he : ∀ n, runExpand pyFalse c fn (of .expand) n = runExpand pyFalse c' fn (of .expand) n := by
    intro n
    have hk := h .expand
    match hof : of .expand with
    | [] => rfl
    | [d] =>
      rw [hof] at hk
      simp only [runExpand, runDag_congr hk]
    | _ :: _ :: _ => rfl
  unfold runStages
  simp only [hg, he, runDag_congr (h .inject), runDag_congr (h .transform), runDag_congr (h .decorate)]

theorem mem_decoratorsOf {a : DecoAttrs F N V} {dyn : List (StaticDeco F N V)} {k : DecoKind} {d : StaticDeco F N V}
    (h : d ∈ decoratorsOf a dyn k) : d ∈ dyn ∨ ∃ k', d ∈ a.get k' := by
  have := (List.mem_filter.1 h).1
  unfold allDecorators at this
  simp only [List.mem_append] at this
  rcases this with (((((h | h) | h) | h) | h) | h) | h
  · exact .inr ⟨.resolve, h⟩
  · exact .inr ⟨.generate, h⟩
  · exact .inr ⟨.expand, h⟩
  · exact .inr ⟨.transform, h⟩
  · exact .inr ⟨.inject, h⟩
  · exact .inr ⟨.decorate, h⟩
  · exact .inl h

theorem mem_of_ofKind {k : DecoKind} {s : List (Deco F N V)} {d : StaticDeco F N V} (h : d ∈ ofKind k s) : .static d ∈ s := by
  obtain ⟨x, hx, hd⟩ := List.mem_filterMap.1 h
  cases x with
  | dynamic => cases hd
  | static x =>
    simp only at hd
    split at hd
    · cases hd; exact hx
    · cases hd

theorem mem_of_dynamics {s : List (Deco F N V)} {d : DynDeco F N V} (h : d ∈ dynamics s) : .dynamic d ∈ s := by
  obtain ⟨x, hx, hd⟩ := List.mem_filterMap.1 h
  cases x with
  | static => cases hd
  | dynamic x => cases hd; exact hx

theorem resolveDynamic_congr {truthy : V → Bool} {c c' : Dict Name V} : ∀ {l : List (DynDeco F N V)},
    (∀ d ∈ l, Deco.Agree truthy c c' (.dynamic d)) → resolveDynamic truthy c l = resolveDynamic truthy c' l ∧
      ∀ r, resolveDynamic truthy c l = .ok r → ∀ s ∈ r, s.Agree c c' := by
  intro l
  induction l with
  | nil =>
    intro _
    refine ⟨rfl, ?_⟩
    intro r h
    cases h
    intro s hs; cases hs
  | cons d l ih =>
    intro h
    obtain ⟨i1, i2⟩ := ih (fun e he => h e (.tail _ he))
    obtain ⟨h1, h2⟩ := h d (.head _)
    have hd := dyn_congr (truthy := truthy) h1
    constructor
    · simp only [resolveDynamic, hd, i1]
    · intro r hr
      simp only [resolveDynamic] at hr
      cases hs : d.resolveWith truthy c with
      | error e => rw [hs] at hr; cases hr
      | ok s =>
        rw [hs] at hr
        cases hl : resolveDynamic truthy c l with
        | error e => rw [hl] at hr; cases hr
        | ok r' =>
          rw [hl] at hr
          cases hr
          intro t ht
          rcases List.mem_cons.1 ht with rfl | ht
          · exact h2 t hs
          · exact i2 r' hl t ht

/-- **C60, configuration.**  A key of the configuration that no decorator of a function declares has no influence on what the
function becomes (or on whether building fails). -/
theorem C60_config (truthy : V → Bool) (pyFalse : V) {c c' : Dict Name V} (fromFn : F → Except UserErr (List N)) (fn : F)
    {s : List (Deco F N V)} (h : ∀ d ∈ s, d.Agree truthy c c') :
    decorated truthy pyFalse c fromFn fn s = decorated truthy pyFalse c' fromFn fn s := by
  unfold decorated
  cases ha : attachAll fn s {} with
  | error e => rfl
  | ok a =>
    obtain ⟨_, _, hget, hdyn⟩ := (attachAll_nil_iff fn s a).1 ha
    obtain ⟨h1, h2⟩ := resolveDynamic_congr (l := a.dynamic) (truthy := truthy) (c := c) (c' := c') (by
      intro d hd
      rw [hdyn] at hd
      exact h _ (mem_of_dynamics hd))
    simp only [resolveNodes, ← h1]
    cases hr : resolveDynamic truthy c a.dynamic with
    | error e => rfl
    | ok dyn =>
      have hall : ∀ k, ∀ d ∈ decoratorsOf a dyn k, d.Agree c c' := by
        intro k d hd
        rcases mem_decoratorsOf hd with hd | ⟨k', hd⟩
        · exact h2 dyn hr d hd
        · rw [hget] at hd
          exact h _ (mem_of_ofKind hd)
      simp only [runResolve_congr (hall .resolve)]
      cases runResolve pyFalse c' (decoratorsOf a dyn .resolve) fn with
      | error e => rfl
      | ok r =>
        cases r with
        | none => rfl
        | some fn' => exact runStages_congr hall

/-! ### `@resolve` -/

theorem ofKind_append (k : DecoKind) (s t : List (Deco F N V)) : ofKind k (s ++ t) = ofKind k s ++ ofKind k t :=
  List.filterMap_append

theorem dynamics_append (s t : List (Deco F N V)) : dynamics (s ++ t) = dynamics s ++ dynamics t := List.filterMap_append

theorem stages_none {pyFalse : V} {config : Dict Name V} {fromFn : F → Except UserErr (List N)} {fn : F}
    {of : DecoKind → List (StaticDeco F N V)} {k : DecoKind} (hk : Single k) (h : 1 < (of k).length) (nodes : List N) :
    runStages pyFalse config fromFn fn of ≠ .ok nodes := by
  intro hr
  unfold runStages at hr
  cases k with
  | generate =>
    match hof : of .generate, h with
    | _ :: _ :: _, _ => rw [hof] at hr; simp [runGenerate] at hr
  | expand =>
    cases h1 : runGenerate pyFalse config fromFn fn (of .generate) with
    | error e => rw [h1] at hr; cases hr
    | ok n1 =>
      rw [h1] at hr
      simp only at hr
      cases h2 : runDag pyFalse config fn (of .inject) n1 with
      | error e => rw [h2] at hr; cases hr
      | ok n2 =>
        rw [h2] at hr
        match hof : of .expand, h with
        | _ :: _ :: _, _ => rw [hof] at hr; simp [runExpand] at hr
  | resolve => cases hk
  | transform => cases hk
  | inject => cases hk
  | decorate => cases hk

/-- **C60, `@resolve` (partial).**  A decorator made by `@resolve` from the configuration acts like the same decorator written
in its place, provided that it is valid for the function and that no decorator of the same kind is stacked above it (nor below it, if it is
exclusive, as `@schema.output`); then the function becomes the same nodes, if the resolvers do not drop it.  Missing: order (`C60_violated_order`, `C60_violated_exclusive`), validation
(`C60_violated_validate`), functions that are dropped (`C60_violated_dropped`). -/
theorem C60_resolve_partial (truthy : V → Bool) (pyFalse : V) (config : Dict Name V) (fromFn : F → Except UserErr (List N))
    (fn : F) (lo hi : List (StaticDeco F N V)) {d : DynDeco F N V} {r : StaticDeco F N V}
    (hr : d.resolveWith truthy config = .ok r) (hv : r.valid fn = true) (hk : ∀ e ∈ hi, e.kind ≠ r.kind)
    (hx : r.exclusive = true → ∀ e ∈ lo, e.kind ≠ r.kind) (nodes : List N)
    (hne : nodes ≠ []) :
    decorated truthy pyFalse config fromFn fn (lo.map .static ++ .dynamic d :: hi.map .static) = .ok nodes ↔
      decorated truthy pyFalse config fromFn fn (lo.map .static ++ .static r :: hi.map .static) = .ok nodes := by
  have hof : ∀ k, ofKind k (lo.map .static ++ .dynamic d :: hi.map .static) ++ [r].filter (fun d => d.kind = k) =
      ofKind k (lo.map .static ++ .static r :: hi.map .static) := by
    intro k
    by_cases h : r.kind = k
    · have hn : ofKind k (hi.map .static) = ([] : List (StaticDeco F N V)) := by
        rw [filterMap_ofKind_map, List.filter_eq_nil_iff]
        intro e he
        rw [← h]
        simpa using hk e he
      rw [ofKind_append, ofKind_append, ofKind_dynamic, ofKind_static_eq _ h, hn]
      simp [h]
    · rw [ofKind_append, ofKind_append, ofKind_dynamic, ofKind_static_ne _ h]
      simp [h]
  have hd1 : dynamics (lo.map .static ++ .dynamic d :: hi.map .static) = [d] := by
    rw [dynamics_append, dynamics_map, dynamics_dynamic, dynamics_map]; rfl
  have hd2 : dynamics (lo.map .static ++ .static r :: hi.map .static) = [] := by
    rw [dynamics_append, dynamics_map, dynamics_static, dynamics_map]; rfl
  have hdyn : resolveDynamic truthy config [d] = .ok [r] := by simp only [resolveDynamic, hr]
  have key : ∀ {a b : DecoAttrs F N V},
      attachAll fn (lo.map .static ++ .dynamic d :: hi.map .static) {} = .ok a →
      attachAll fn (lo.map .static ++ .static r :: hi.map .static) {} = .ok b →
      resolveNodes truthy pyFalse config fromFn fn a = resolveNodes truthy pyFalse config fromFn fn b := by
    intro a b ha hb
    obtain ⟨_, _, ga, da⟩ := (attachAll_nil_iff fn _ a).1 ha
    obtain ⟨_, _, gb, db⟩ := (attachAll_nil_iff fn _ b).1 hb
    have h1 : decoratorsOf a [r] = decoratorsOf b [] := by
      funext k
      rw [filter_kind_get (by intro k d hd; rw [ga] at hd; exact ofKind_kind hd),
        filter_kind_get (by intro k d hd; rw [gb] at hd; exact ofKind_kind hd), ga, gb, hof]
      simp
    simp only [resolveNodes, da, db, hd1, hd2, hdyn, resolveDynamic, h1]
  unfold decorated
  cases ha : attachAll fn (lo.map .static ++ .dynamic d :: hi.map .static) {} with
  | error e =>
    constructor
    · intro h; cases h
    · intro h
      cases hb : attachAll fn (lo.map .static ++ .static r :: hi.map .static) {} with
      | error e' => rw [hb] at h; cases h
      | ok b =>
        obtain ⟨b1, b2, b3, _⟩ := (attachAll_nil_iff fn _ b).1 hb
        -- the attributes without the last decorator
        have : ∃ a, attachAll fn (lo.map .static ++ .dynamic d :: hi.map .static) {} = .ok a := by
          refine ⟨attrsOf _, (attachAll_nil_iff fn _ _).2 ⟨?_, ?_, attrsOf_get _, rfl⟩⟩
          · intro k e he
            apply b1 k e
            rw [← hof]; exact List.mem_append_left _ he
          · intro k
            have := b2 k
            rw [← hof] at this
            refine ⟨fun hk => ?_, fun e he => this.2 e ?_⟩
            · have := this.1 hk
              rw [List.length_append] at this
              omega
            · generalize ofKind k (lo.map .static ++ .dynamic d :: hi.map .static) = l at he ⊢
              cases l with
              | nil => cases he
              | cons x l => exact List.mem_append_left _ he
        obtain ⟨a, ha'⟩ := this
        rw [ha'] at ha; cases ha
  | ok a =>
    obtain ⟨a1, a2, a3, a4⟩ := (attachAll_nil_iff fn _ a).1 ha
    cases hb : attachAll fn (lo.map .static ++ .static r :: hi.map .static) {} with
    | ok b => simp only [key ha hb]
    | error e =>
      simp only [reduceCtorEq, iff_false]
      intro h
      -- more than one decorator of a kind that can be used once
      have hex : ∃ k, Single k ∧ 1 < (ofKind k (lo.map .static ++ .static r :: hi.map .static)).length := by
        apply Classical.byContradiction
        intro hno
        have : ∃ b, attachAll fn (lo.map .static ++ .static r :: hi.map .static) {} = .ok b := by
          refine ⟨attrsOf _, (attachAll_nil_iff fn _ _).2 ⟨?_, ?_, attrsOf_get _, rfl⟩⟩
          · intro k e he
            rw [← hof] at he
            rcases List.mem_append.1 he with he | he
            · exact a1 k e he
            · have := (List.mem_filter.1 he).1
              rw [List.mem_singleton] at this
              rw [this]; exact hv
          · intro k
            refine ⟨fun hk => ?_, fun e he => ?_⟩
            · apply Classical.byContradiction
              intro hlt
              exact hno ⟨k, hk, by omega⟩
            · rw [← hof] at he
              have h2 := (a2 k).2 e
              cases hl : ofKind k (lo.map .static ++ .dynamic d :: hi.map .static) with
              | nil =>
                rw [hl] at he
                have : ([r].filter (fun d => decide (d.kind = k))).tail = [] := by
                  by_cases h : r.kind = k <;> simp [h]
                rw [List.nil_append, this] at he
                cases he
              | cons x l =>
                rw [hl] at he h2
                rcases List.mem_append.1 (show e ∈ l ++ [r].filter (fun d => decide (d.kind = k)) from he) with he | he
                · exact h2 he
                · obtain ⟨h3, h4⟩ := List.mem_filter.1 he
                  rw [List.mem_singleton] at h3
                  subst h3
                  have h4 : e.kind = k := by simpa using h4
                  cases hex : e.exclusive with
                  | false => rfl
                  | true =>
                    exfalso
                    have hlo : ofKind k (lo.map .static ++ .dynamic d :: hi.map .static) = [] := by
                      rw [ofKind_append, ofKind_dynamic, filterMap_ofKind_map, filterMap_ofKind_map, List.append_eq_nil_iff,
                        List.filter_eq_nil_iff, List.filter_eq_nil_iff]
                      refine ⟨fun q hq => ?_, fun q hq => ?_⟩
                      · rw [← h4]; simpa using hx hex q hq
                      · rw [← h4]; simpa using hk q hq
                    rw [hlo] at hl; cases hl
        obtain ⟨b, hb'⟩ := this
        rw [hb'] at hb; cases hb
      obtain ⟨k, hk1, hk2⟩ := hex
      have h1 : decoratorsOf a [r] k = ofKind k (lo.map .static ++ .static r :: hi.map .static) := by
        rw [filter_kind_get (by intro k d hd; rw [a3] at hd; exact ofKind_kind hd), a3, hof]
      simp only [resolveNodes, a4, hd1, hdyn] at h
      cases hres : runResolve pyFalse config (decoratorsOf a [r] .resolve) fn with
      | error e => rw [hres] at h; cases h
      | ok o =>
        rw [hres] at h
        cases o with
        | none =>
          cases h
          exact hne rfl
        | some fn' => exact stages_none hk1 (by rw [h1]; exact hk2) nodes h

end

/-! ### Examples and violations -/
namespace StackSample

/-- A module-level function is its name, a node is its name, configuration values are numbers. -/
abbrev SD := StaticDeco Name Name Nat

def truthy (v : Nat) : Bool := v ≠ 0

def blank (k : DecoKind) : SD :=
  ⟨k, false, fun _ => true, some [], [], fun f _ => .ok (some f), fun f _ => .ok [f], fun l _ _ => .ok l⟩

/-- Like `@config.when(region=1)`. -/
def when1 : SD :=
  { blank .resolve with
    required := some ["region"]
    resolve := fun f c => .ok (if c.get? "region" = some 1 then some f else none) }

/-- Like `@config.when_in(...)` that replaces the function. -/
def swap : SD := { blank .resolve with resolve := fun f _ => .ok (some (f ++ "_v2")) }

/-- Like `@pipe_input`: a node in front of the function. -/
def pipeIn : SD := { blank .inject with transformDag := fun l _ f => .ok ((f ++ ".in") :: l) }

/-- Like `@extract_fields`. -/
def extract : SD :=
  { blank .expand with transformDag := expanderDag (fun n _ _ => .ok [n, n ++ "_a", n ++ "_b"]) }

/-- A transformer that renames all nodes, by the value of an optional key. -/
def mark (s : Name) : SD :=
  { blank .transform with
    optional := [("double", 0)]
    transformDag := fun l c _ => .ok (l.map (fun n => if c.get? "double" = some 1 then n ++ s ++ s else n ++ s)) }

/-- Like `@tag`. -/
def tagged : SD := { blank .decorate with transformDag := fun l _ _ => .ok (l.map (fun n => n ++ "!")) }

def build (config : Dict Name Nat) (s : List (Deco Name Name Nat)) : Except UserErr (List Name) :=
  decorated truthy 0 config (fun f => .ok [f]) "f" s

/-- The stack `@tag @mark("y") @config.when(region=1) @extract_fields @swap @mark("x")`, read from the bottom. -/
def stack : List (Deco Name Name Nat) :=
  [.static (mark "x"), .static swap, .static extract, .static when1, .static (mark "y"), .static tagged]

/-- The same in the order of the stages. -/
def sorted : List SD := [swap, when1, extract, mark "x", mark "y", tagged]

def cfg : Dict Name Nat := [("region", 1), ("other", 7)]

/-- `C60_interleaving` and `C60_one_by_one` apply to this stack, and both results are these nodes. -/
example : SameDecorators stack (sorted.map .static) ∧
    build cfg stack = .ok ["f_v2xy!", "f_v2_axy!", "f_v2_bxy!"] :=
  ⟨⟨fun k => by cases k <;> rfl, rfl⟩, rfl⟩

example : sorted.Pairwise (fun d e => d.kind.rank ≤ e.kind.rank) ∧
    (∃ a, attachAll "f" (sorted.map .static) {} = .ok a) ∧
    applyAll 0 cfg (fun f => .ok [f]) sorted (.fn "f") = .ok ["f_v2xy!", "f_v2_axy!", "f_v2_bxy!"] :=
  ⟨by simp [sorted, swap, when1, extract, mark, tagged, blank, DecoKind.rank], ⟨_, rfl⟩, rfl⟩

/-- A configuration that excludes the function. -/
example : build [("region", 2)] stack = .ok [] := rfl

/-- Two transformers in the other order make other nodes: the order among decorators of the same kind matters. -/
example : build cfg [.static (mark "x"), .static (mark "y")] = .ok ["fxy"] ∧
    build cfg [.static (mark "y"), .static (mark "x")] = .ok ["fyx"] := ⟨rfl, rfl⟩

/-- Two expanders are refused. -/
example : build cfg [.static extract, .static extract] = .error "ValueError" := rfl

/-- A decorator that adds nodes in front of the function and one that expands the function can be written together, but
building raises an error in every order (an expander insists on a single node). -/
example : build cfg [.static extract, .static pipeIn] = .error "ValueError" ∧
    build cfg [.static pipeIn, .static extract] = .error "ValueError" := ⟨rfl, rfl⟩

/-- `C60_config`: the key `other` is not declared by any decorator of the stack. -/
example : ∀ d ∈ stack, d.Agree truthy cfg [("region", 1)] := by
  have h : ∀ k, k ≠ "other" → cfg.get? k = Dict.get? [("region", 1)] k := by
    intro k hk
    simp only [cfg, Dict.get?_cons]
    split
    · rfl
    · rw [if_neg (fun h => hk h.symm)]
  intro d hd
  have : ∃ r o, d = .static r ∧ r.declared = some o ∧ "other" ∉ o := by
    simp only [stack, List.mem_cons, List.not_mem_nil, or_false] at hd
    rcases hd with rfl | rfl | rfl | rfl | rfl | rfl <;> exact ⟨_, _, rfl, rfl, by decide⟩
  obtain ⟨r, o, rfl, ho, hn⟩ := this
  exact ⟨o, ho, fun k hk => h k (fun e => hn (e ▸ hk))⟩

/-- … while `double` is. -/
example : build (("double", 1) :: cfg) stack = .ok ["f_v2xxyy!", "f_v2_axxyy!", "f_v2_bxxyy!"] := rfl

/-- `@resolve(when=CONFIG_AVAILABLE, decorate_with=lambda n: mark("x" or "z"))`. -/
def dyn : DynDeco Name Name Nat := ⟨["n"], [], fun c => .ok (mark (if c.get? "n" = some 1 then "x" else "z"))⟩

def cfgN : Dict Name Nat := [(powerUserMode, 1), ("n", 1), ("region", 1)]

theorem dyn_is : dyn.resolveWith truthy cfgN = .ok (mark "x") := rfl

/-- `C60_resolve_partial` applies. -/
example : dyn.resolveWith truthy cfgN = .ok (mark "x") ∧ (mark "x").valid "f" = true ∧
    (∀ e ∈ [when1, tagged], e.kind ≠ (mark "x").kind) ∧
    build cfgN (List.map Deco.static [mark "w"] ++ .dynamic dyn :: List.map Deco.static [when1, tagged]) = .ok ["fwx!"] :=
  ⟨rfl, rfl, by simp [when1, tagged, mark, blank], rfl⟩

/-- **Violation.**  A transformer made by `@resolve` is applied after a transformer that is written above it. -/
theorem C60_violated_order : build cfgN [.dynamic dyn, .static (mark "y")] = .ok ["fyx"] ∧
    build cfgN [.static (mark "x"), .static (mark "y")] = .ok ["fxy"] := ⟨rfl, rfl⟩

/-- Like `@schema.output(...)`: it tags nodes, and it is exclusive. -/
def schemaOut : SD := { blank .decorate with exclusive := true, transformDag := fun l _ _ => .ok (l.map (fun n => n ++ "#")) }

/-- **Violation.**  `@schema.output` cannot be written above `@tag`, although it can be written below it, and although it is
accepted in that place when it is made by `@resolve`. -/
theorem C60_violated_exclusive :
    build cfgN [.static tagged, .static schemaOut] = .error "ValueError" ∧
    build cfgN [.static schemaOut, .static tagged] = .ok ["f#!"] ∧
    build cfgN [.static tagged, .dynamic ⟨["n"], [], fun _ => .ok schemaOut⟩] = .ok ["f!#"] := ⟨rfl, rfl, rfl⟩

/-- A decorator that refuses every function. -/
def refusing : SD := { mark "x" with valid := fun _ => false }

/-- **Violation.**  A decorator made by `@resolve` is not validated: it is applied to a function that the same decorator
refuses when it is written directly. -/
theorem C60_violated_validate :
    build cfgN [.dynamic ⟨["n"], [], fun _ => .ok refusing⟩] = .ok ["fx"] ∧
    build cfgN [.static refusing] = .error "InvalidDecoratorException" := ⟨rfl, rfl⟩

/-- **Violation.**  For a function that the configuration excludes, the configuration that `@resolve` asks for must be there
nevertheless; and without the power-user key the error is a `KeyError`. -/
theorem C60_violated_dropped :
    build [(powerUserMode, 1), ("region", 2)] [.dynamic dyn, .static when1] = .error "InvalidDecoratorException" ∧
    build [("n", 1), ("region", 2)] [.dynamic dyn, .static when1] = .error "KeyError" ∧
    build [(powerUserMode, 1), ("region", 2)] [.static (mark "x"), .static when1] = .ok [] := ⟨rfl, rfl, rfl⟩

end StackSample
end Verif
