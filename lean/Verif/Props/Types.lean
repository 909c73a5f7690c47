import Verif.Proofs.Types
import Verif.Proofs.BuildTypes
import Verif.Props.Construction

/-! C49: type compatibility of edges and inputs. -/
namespace Verif
section
variable {T V : Type}

/-! ### The check on types -/

/-- **C49, reflexive.** -/
theorem C49_refl (H : Hier) (t : PyTy) : typesMatch H t t = true := by
  unfold typesMatch
  simp [PyTy.eq_refl t]

/-- **C49, `Any`.**  A parameter without a specific type accepts everything except a type variable, and a node of type `Any` can be
used everywhere. -/
theorem C49_any (H : Hier) (t : PyTy) : typesMatch H t .any = true ∧ (t.isVar = false → typesMatch H .any t = true) := by
  refine ⟨by simp [typesMatch, PyTy.eq_refl], fun hv => ?_⟩
  unfold typesMatch
  by_cases h1 : t.eq .any = true
  · rw [if_pos h1]
  · rw [if_neg h1, hv, if_neg h1]
    simp only [PyTy.isVar, Bool.or_self, Bool.false_eq_true, if_false]
    obtain ⟨f, hf⟩ : ∃ f, t.size + PyTy.any.size = f + 1 := ⟨t.size, by simp [PyTy.size]⟩
    rw [hf, customCheck]
    simp [PyTy.strip, PyTy.eq_refl]

/-- An annotation without markers of dynamic execution and without `typing.T`. -/
def PyTy.Ordinary (t : PyTy) : Prop :=
  ¬ t.mentions "Parallelizable" ∧ ¬ t.mentions "Collect" ∧ ¬ t.mentions "typing.T"

/-- **C49, soundness (partial).**  If the types match, every value of the node's type is a value of the parameter's type, in every
world in which subclasses take their type arguments in the same places.  Missing: a node of type `Any`; a parameter with type
arguments where the node's type has none (accepted on purpose, htypes.py:80); user-defined generic classes without arguments
(`C49_violated_generic`); the markers `Parallelizable` and `Collect` (see `C49_markers`). -/
theorem C49_sound_partial {H : Hier} {p r : PyTy} (h : typesMatch H p r = true) (hany : r ≠ .any) (hp : p.Ordinary) (hr : r.Ordinary)
    (hargs : r.hasArgs ∨ p.noArgs H) {W : Type} (S : TySem H W) (w : W) (hw : S.mem r w) : S.mem p w := by
  unfold typesMatch at h
  rw [if_neg (fun h => hany (PyTy.eq_any h))] at h
  split at h
  · exact (eq_mem S w r p h).1 hw
  · split at h
    · rename_i he
      exact (eq_mem S w r p he).1 hw
    · exact customCheck_sound S _ r p h hr.1 hp.2.1 hr.2.2 hp.2.2 hargs w hw

theorem customCheck_of_eq {H : Hier} {r p : PyTy} (h : r.eq p = true) (hr : r.Ordinary) (hp : p.Ordinary)
    (ha : ∀ t ms, r ≠ .annotated t ms) (f : Nat) : customCheck H (f + 1) r p = true := by
  have hstrip : p.strip = p := by
    cases p <;> try rfl
    cases r <;> simp [PyTy.eq] at h
    exact absurd rfl (ha _ _)
  have horig : optEq (r.origin H) (p.origin H) = true := by
    have h0 := h
    cases r <;> cases p <;> simp [PyTy.eq] at h
    · exact h0
    · subst h
      cases PyTy.origin H _ with
      | none => rfl
      | some a => exact PyTy.eq_refl a
    · rw [h.1.2]; exact PyTy.eq_refl (.cls _)
    · exact h0
    · exact h0
    · exact absurd rfl (ha _ _)
    · exact h0
  have hm : argsMatch r.args p.args = true ∨ (r.isGeneric H || p.isGeneric H) = false := by
    cases r <;> cases p <;> simp [PyTy.eq] at h
    · right; rfl
    · left; rfl
    · left; simp [PyTy.args, argsMatch, h]
    · right; rfl
    · right; rfl
    · exact absurd rfl (ha _ _)
    · right; rfl
  rw [customCheck]
  dsimp only
  rw [hstrip]
  by_cases h1 : p.eq .any = true
  · rw [if_pos h1]
  rw [if_neg h1]
  by_cases h2 : safeSubclass H r p = true
  · rw [if_pos h2]
  rw [if_neg h2]
  split
  · rfl
  · rw [if_neg, if_neg, if_pos (by rw [horig]; rfl)]
    · rcases hm with hm | hm
      · rw [hm]; simp
      · rw [hm]; rfl
    · intro h'; rw [Bool.and_eq_true] at h'; exact hp.2.1 (origin_mentions h'.2)
    · intro h'; rw [Bool.and_eq_true] at h'; exact hr.1 (origin_mentions h'.2)

theorem size_le_sizes {a : PyTy} : ∀ {as : List PyTy}, a ∈ as → a.size ≤ PyTy.sizes as
  | b :: bs, h => by
    unfold PyTy.sizes
    rcases List.mem_cons.1 h with rfl | h
    · omega
    · have := size_le_sizes h; omega

/-- **C49, members of a union.**  A parameter `Union[…]` (or `Optional`) accepts whatever one of its members accepts. -/
theorem C49_union_member {H : Hier} {ps : List PyTy} {p r : PyTy} (hmem : p ∈ ps) (h : typesMatch H p r = true) (hr : r.Ordinary)
    (hp : p.Ordinary) (hv : r.isVar = false) (hv' : p.isVar = false) (ha : ∀ t ms, r ≠ .annotated t ms) :
    typesMatch H (.union ps) r = true := by
  unfold typesMatch at h ⊢
  by_cases h1 : r.eq .any = true
  · rw [if_pos h1]
  rw [if_neg h1] at h ⊢
  rw [hv, hv'] at h
  rw [hv]
  simp only [Bool.or_self, Bool.false_eq_true, if_false, PyTy.isVar] at h ⊢
  split
  · rfl
  · have hsz : ∀ t : PyTy, 0 < t.size := by intro t; cases t <;> simp [PyTy.size] <;> omega
    have hc : customCheck H (r.size + p.size) r p = true := by
      split at h
      · rename_i he
        obtain ⟨f, hf⟩ : ∃ f, r.size + p.size = f + 1 := ⟨r.size + p.size - 1, by have := hsz r; omega⟩
        rw [hf]
        exact customCheck_of_eq he hr hp ha f
      · exact h
    have hle := size_le_sizes hmem
    rw [PyTy.size, show r.size + (1 + PyTy.sizes ps) = (r.size + PyTy.sizes ps) + 1 by omega, customCheck]
    dsimp only
    have hany : (ps.any (customCheck H (r.size + PyTy.sizes ps) r)) = true :=
      List.any_eq_true.2 ⟨p, hmem, customCheck_le (by omega) hc⟩
    simp [PyTy.strip, PyTy.isUnion, PyTy.args, hany]

theorem customCheck_cls {H : Hier} (hrefl : ∀ c, H.sub c c = true) {r p : Name} (hr : H.generic r = false) (f : Nat)
    (hp : H.generic p = false) : customCheck H (f + 1) (.cls r) (.cls p) = H.sub r p := by
  rw [customCheck]
  simp only [PyTy.strip, PyTy.eq, safeSubclass, PyTy.isUnion, PyTy.isGeneric, hp, hr, PyTy.origin, optEq, optSub]
  cases hs : H.sub r p with
  | true => simp
  | false =>
    have : r ≠ p := by rintro rfl; rw [hrefl] at hs; cases hs
    simp [this, PyTy.eq, hs]

theorem typesMatch_cls {H : Hier} (hrefl : ∀ c, H.sub c c = true) {r p : Name} (hr : H.generic r = false)
    (hp : H.generic p = false) : typesMatch H (.cls p) (.cls r) = H.sub r p := by
  unfold typesMatch
  simp only [PyTy.eq, PyTy.isVar, PyTy.size, Bool.false_eq_true, if_false, Bool.or_self]
  by_cases hrp : r = p
  · subst hrp; simp [hrefl]
  · simp only [beq_iff_eq, hrp, if_false]
    exact customCheck_cls hrefl hr 1 hp

/-- **C49, classes.**  Between classes the check is `issubclass`, and a class is accepted by a union of classes exactly if it is a
subclass of a member. -/
theorem C49_classes {H : Hier} (hrefl : ∀ c, H.sub c c = true) (r : Name) (hr : H.generic r = false) (ps : List Name)
    (hps : ∀ p ∈ ps, H.generic p = false) :
    (∀ p ∈ ps, (typesMatch H (.cls p) (.cls r) = true ↔ H.sub r p = true)) ∧
    (typesMatch H (.union (ps.map .cls)) (.cls r) = true ↔ ∃ p ∈ ps, H.sub r p = true) := by
  have hcls : ∀ f p, H.generic p = false → (customCheck H (f + 1) (.cls r) (.cls p) = true ↔ H.sub r p = true) := by
    intro f p hp
    rw [customCheck_cls hrefl hr f hp]
  constructor
  · intro p hp
    rw [typesMatch_cls hrefl hr (hps p hp)]
  · unfold typesMatch
    simp only [PyTy.eq, PyTy.isVar, PyTy.size, Bool.false_eq_true, if_false, Bool.or_self]
    rw [show 1 + (1 + PyTy.sizes (ps.map .cls)) = (1 + PyTy.sizes (ps.map PyTy.cls)) + 1 by omega, customCheck]
    simp only [PyTy.strip, PyTy.eq, safeSubclass, PyTy.isUnion, PyTy.args, PyTy.isGeneric, hr, PyTy.origin, optEq, optSub,
      List.any_map, Bool.true_and, Bool.false_eq_true, if_false, Bool.or_self, Bool.false_and]
    rw [show 1 + PyTy.sizes (ps.map PyTy.cls) = PyTy.sizes (ps.map PyTy.cls) + 1 by omega]
    constructor
    · intro h
      split at h
      · rename_i ha
        obtain ⟨p, hp, hc⟩ := List.any_eq_true.1 ha
        exact ⟨p, hp, (hcls _ p (hps p hp)).1 hc⟩
      · cases h
    · rintro ⟨p, hp, hs⟩
      rw [if_pos (List.any_eq_true.2 ⟨p, hp, (hcls _ p (hps p hp)).2 hs⟩)]

/-- **C49, exactness for classes and unions of classes.**  The check accepts precisely if every value of the node's class is a value
of the parameter's type, whatever the values are. -/
theorem C49_exact {H : Hier} (hrefl : ∀ c, H.sub c c = true) (htrans : ∀ a b c, H.sub a b = true → H.sub b c = true → H.sub a c = true)
    (r : Name) (hr : H.generic r = false) (ps : List Name) (hps : ∀ p ∈ ps, H.generic p = false) :
    typesMatch H (.union (ps.map .cls)) (.cls r) = true ↔
      ∀ (W : Type) (S : TySem H W) (w : W), S.mem (.cls r) w → S.mem (.union (ps.map .cls)) w := by
  rw [(C49_classes hrefl r hr ps hps).2]
  constructor
  · rintro ⟨p, hp, hs⟩ W S w hw
    exact (memAny_iff S _ w).2 ⟨.cls p, List.mem_map.2 ⟨p, hp, rfl⟩, S.inst_sub hs hw⟩
  · intro h
    let S : TySem H Unit :=
      { inst := fun _ c => H.sub r c = true
        inst_sub := fun h1 h2 => htrans _ _ _ h2 h1
        args := fun _ _ _ => True
        args_eq := fun _ => Iff.rfl
        aligned := fun _ _ => trivial
        var := fun _ _ => True
        other := fun _ _ => True }
    obtain ⟨a, ha, hm⟩ := (memAny_iff S _ ()).1 (h Unit S () (hrefl r))
    obtain ⟨p, hp, rfl⟩ := List.mem_map.1 ha
    exact ⟨p, hp, hm⟩

/-- **C49, dynamic execution.**  A `Parallelizable[t]` node is used as a `t`; a `Collect[t]` parameter takes what a parameter of type
`t` takes. -/
theorem C49_markers {H : Hier} (c d : Name) (hc : H.generic c = false) (hd : H.generic d = false) (hrefl : ∀ c, H.sub c c = true)
    (f g : Bool) :
    (typesMatch H (.cls d) (.alias f "Parallelizable" [.cls c]) = typesMatch H (.cls d) (.cls c)) ∧
    (c ≠ "Parallelizable" → typesMatch H (.alias g "Collect" [.cls d]) (.cls c) = typesMatch H (.cls d) (.cls c)) := by
  rw [typesMatch_cls hrefl hc hd]
  constructor
  · unfold typesMatch
    simp only [PyTy.eq, PyTy.isVar, PyTy.size, PyTy.sizes, Bool.false_eq_true, if_false, Bool.or_self]
    rw [customCheck]
    simp only [PyTy.strip, PyTy.eq, safeSubclass, PyTy.isUnion, PyTy.isGeneric, PyTy.origin, optEq, PyTy.args, beq_self_eq_true,
      Bool.false_eq_true, if_false, Bool.false_and, Bool.true_or, Bool.true_and, if_true]
    exact customCheck_cls hrefl hc 1 hd
  · intro hne
    unfold typesMatch
    simp only [PyTy.eq, PyTy.isVar, PyTy.size, PyTy.sizes, Bool.false_eq_true, if_false, Bool.or_self]
    rw [customCheck]
    simp only [PyTy.strip, PyTy.eq, safeSubclass, PyTy.isUnion, PyTy.isGeneric, PyTy.origin, optEq, PyTy.args, beq_self_eq_true,
      Bool.false_eq_true, if_false, Bool.false_and, Bool.or_true, Bool.true_and, if_true, hc, beq_iff_eq, hne]
    exact customCheck_cls hrefl hc 1 hd

/-! ### Edges of a graph -/

/-- `n` is the function that the graph uses under the name `k`. -/
def FnDef (config : Dict Name V) (fns : List (Node T V)) (k : Name) (n : Node T V) : Prop :=
  k ∉ config.keys ∧ lastDef fns k = some n

/-- What construction does after the functions have been collected. -/
theorem create_stages {tm : T → T → Bool} {any : T} {config : Dict Name V} {allow : Bool} {fns : List (Node T V)}
    (hdup : allow = true ∨ (unshadowed config fns).Nodup) :
    ∃ g0 : Graph T V, g0.keys.Nodup ∧ (∀ k n, g0.get? k = some n ↔ FnDef config fns k n) ∧
      createFunctionGraph tm any config allow fns =
        ((typedEdges g0).foldlM (wireStep tm) g0).bind (fun g1 => .ok (config.keys.foldl (fun (nodes : Graph T V) k =>
          if nodes.has k then nodes else nodes.set k (externalNode k any)) g1)) := by
  have hc := collect_spec config allow fns [] [] (by simp [Dict.keys]) (by intro k; simp [lastDef])
  cases hcol : List.foldlM (collectStep config allow) [] fns with
  | error e =>
    rw [hcol] at hc
    obtain ⟨_, ha, hno⟩ := hc
    rcases hdup with h | h
    · rw [h] at ha; cases ha
    · exact absurd ⟨h, by intro k _; rfl⟩ hno
  | ok g0 =>
    rw [hcol] at hc
    simp only [List.nil_append] at hc
    obtain ⟨hn0, hl0, _⟩ := hc
    refine ⟨g0, hn0, fun k n => ?_, ?_⟩
    · rw [hl0 k]
      unfold FnDef
      by_cases hk : k ∈ config.keys
      · rw [if_pos ((Dict.has_iff _ _).2 hk)]
        constructor
        · intro h; cases h
        · intro h; exact absurd hk h.1
      · rw [if_neg (by rw [Dict.has_iff]; exact hk)]
        exact ⟨fun h => ⟨hk, h⟩, fun h => h.2⟩
    · unfold createFunctionGraph
      rw [collectNodes_eq, hcol, ← wire_eq]
      rfl

/-- **C49, acceptance in every order.**  Construction succeeds, in whatever order the functions are listed, if every parameter
matches the function it names and any two types declared for the same input are comparable. -/
theorem C49_accepts {tm : T → T → Bool} {any : T} {config : Dict Name V} {allow : Bool} {fns : List (Node T V)}
    (hfresh : ∀ n ∈ fns, Fresh n) (hdup : allow = true ∨ (unshadowed config fns).Nodup)
    (hfn : ∀ f fn p t d pn, FnDef config fns f fn → (p, (t, d)) ∈ fn.inputTypes → FnDef config fns p pn → tm t pn.typ = true)
    (hin : ∀ f fn f' fn' p t d t' d', FnDef config fns f fn → FnDef config fns f' fn' → (p, (t, d)) ∈ fn.inputTypes →
      (p, (t', d')) ∈ fn'.inputTypes → (∀ pn, ¬ FnDef config fns p pn) → tm t t' = true ∨ tm t' t = true) :
    ∃ g, createFunctionGraph tm any config allow fns = .ok g := by
  obtain ⟨g0, hn0, hdef, heq⟩ := create_stages (tm := tm) (any := any) hdup
  have hw := wire_accepts (tm := tm) (g0 := g0) (E0 := typedEdges g0)
    (fun k n hk => (hfresh n (lastDef_name ((hdef k n).1 hk).2).2).kind)
    (by
      rintro ⟨f, p, t⟩ he
      obtain ⟨n, d, hn, _⟩ := (mem_typedEdges hn0).1 he
      exact ⟨n, hn⟩)
    (by
      intro f p t n he hp
      obtain ⟨fn, d, hf, hd⟩ := (mem_typedEdges hn0).1 he
      exact hfn f fn p t d n ((hdef _ _).1 hf) hd ((hdef _ _).1 hp))
    (by
      intro f f' p t t' he he' hp
      obtain ⟨fn, d, hf, hd⟩ := (mem_typedEdges hn0).1 he
      obtain ⟨fn', d', hf', hd'⟩ := (mem_typedEdges hn0).1 he'
      exact hin f fn f' fn' p t d t' d' ((hdef _ _).1 hf) ((hdef _ _).1 hf') hd hd' (fun pn hpn => by
        rw [(hdef _ _).2 hpn] at hp; cases hp))
    (typedEdges g0) [] g0 (by simp) (TypeInv.start g0)
  obtain ⟨g1, hg1⟩ := hw
  exact ⟨_, by rw [heq, hg1]; rfl⟩

/-- **C49, edges are checked.**  In a graph that was built, every parameter matches the function it names.  The type of an input
is the type that some parameter declares for it, and it is below every type declared for it, in every preorder `R k` that
contains the check on these types. -/
theorem C49_edges {tm : T → T → Bool} {any : T} {config : Dict Name V} {allow : Bool} {fns : List (Node T V)}
    (hfresh : ∀ n ∈ fns, Fresh n) {g : Graph T V} (h : createFunctionGraph tm any config allow fns = .ok g)
    {R : Name → T → T → Prop} (hrefl : ∀ k a, R k a a) (htrans : ∀ k a b c, R k a b → R k b c → R k a c) {P : Name → T → Prop}
    (hP : ∀ f fn k t d, FnDef config fns f fn → (k, (t, d)) ∈ fn.inputTypes → P k t)
    (hR : ∀ k a b, P k a → P k b → tm a b = true → R k a b)
    {f k : Name} {fn kn : Node T V} {t : T} {d : DepType} (hf : FnDef config fns f fn) (hd : (k, (t, d)) ∈ fn.inputTypes)
    (hk : g.get? k = some kn) :
    (kn.kind ≠ .external → tm t kn.typ = true) ∧
    (kn.kind = .external → R k t kn.typ ∧ ∃ f' fn' d', FnDef config fns f' fn' ∧ (k, (kn.typ, d')) ∈ fn'.inputTypes) := by
  have hspec := createFunctionGraph_spec hfresh h
  obtain ⟨g0, hn0, hdef, heq⟩ := create_stages (tm := tm) (any := any) hspec.2.2.2.2.2
  rw [heq] at h
  cases hg1 : (typedEdges g0).foldlM (wireStep tm) g0 with
  | error e => rw [hg1] at h; cases h
  | ok g1 =>
    rw [hg1] at h
    have hg := Except.ok.inj h
    have hk0 : ∀ k n, g0.get? k = some n → n.kind ≠ .external :=
      fun k n hk => (hfresh n (lastDef_name ((hdef k n).1 hk).2).2).kind
    have hun : Unwired g0 := by
      have hfr : ∀ k n, g0.get? k = some n → n.name = k ∧ Fresh n := by
        intro k n hk
        have h1 := ((hdef k n).1 hk).2
        exact ⟨(lastDef_name h1).1, hfresh _ (lastDef_name h1).2⟩
      exact ⟨hn0, fun k n hk => (hfr k n hk).1, fun k n hk => (hfr k n hk).2.params_nodup,
        fun k n hk => ⟨(hfr k n hk).2.no_deps, (hfr k n hk).2.no_cons⟩,
        fun k n hk he => absurd he (hfr k n hk).2.kind⟩
    have hw1 := (updateDependencies_spec (tm := tm) (g := g1) hun (by unfold updateDependencies; simpa [wire_eq] using hg1)).1
    obtain ⟨_, hkeep, _, _⟩ := addConfig_spec any config.keys g1 hw1
    rw [hg] at hkeep
    have hti := TypeInv.run (P := P) hk0 hrefl htrans hR (typedEdges g0) [] g0 g1
      (by
        rintro ⟨f, p, t⟩ he
        rw [List.nil_append] at he
        obtain ⟨n, d, hn, hd⟩ := (mem_typedEdges hn0).1 he
        exact hP f n p t d ((hdef _ _).1 hn) hd)
      (TypeInv.start g0) hg1
    rw [List.nil_append] at hti
    have he : (f, k, t) ∈ typedEdges g0 := (mem_typedEdges hn0).2 ⟨fn, d, (hdef _ _).2 hf, hd⟩
    obtain ⟨kn', hkn'⟩ := hti.ins _ he
    dsimp only at hkn'
    have := hkeep k kn' hkn'
    rw [hk] at this
    cases this
    cases h0 : g0.get? k with
    | some n0 =>
      have ho := hti.old k n0 h0
      rw [hkn'] at ho
      have := Option.some.inj ho
      simp only [Prod.mk.injEq] at this
      refine ⟨fun _ => by rw [this.1]; exact hti.fn f k t n0 he h0, fun hx => absurd (this.2 ▸ hx) (hk0 k n0 h0)⟩
    | none =>
      obtain ⟨h1, ⟨f', h2⟩, h3⟩ := hti.inp k kn hkn' h0
      refine ⟨fun hx => absurd h1 hx, fun _ => ⟨h3 f t he, ?_⟩⟩
      obtain ⟨fn', d', h4, h5⟩ := (mem_typedEdges hn0).1 h2
      exact ⟨f', fn', d', (hdef _ _).1 h4, h5⟩

/-- The types declared under the name `k`: by the parameters named `k`, and by the function `k`. -/
def DeclaredTy (config : Dict Name V) (fns : List (Node T V)) (k : Name) (t : T) : Prop :=
  ∃ f fn, FnDef config fns f fn ∧ ((∃ d, (k, (t, d)) ∈ fn.inputTypes) ∨ (f = k ∧ t = fn.typ))

/-- **C49, values on edges (partial).**  In a graph that was built, every value of the type of a node is a value of the type of every
parameter that takes it; for an input, a value of the type recorded for it suits every function that takes it.  Missing: as for
`C49_sound_partial`; here the types declared under the name either all have type arguments or all have none. -/
theorem C49_values_partial {H : Hier} {anyTy : PyTy} {config : Dict Name V} {allow : Bool} {fns : List (Node PyTy V)}
    (hfresh : ∀ n ∈ fns, Fresh n) {g : Graph PyTy V} (h : createFunctionGraph (typesMatch H) anyTy config allow fns = .ok g)
    {f k : Name} {fn kn : Node PyTy V} {t : PyTy} {d : DepType} (hf : FnDef config fns f fn) (hd : (k, (t, d)) ∈ fn.inputTypes)
    (hk : g.get? k = some kn)
    (hord : ∀ t, DeclaredTy config fns k t → t.Ordinary ∧ t ≠ .any)
    (hargs : (∀ t, DeclaredTy config fns k t → t.hasArgs) ∨ (∀ t, DeclaredTy config fns k t → t.noArgs H))
    {W : Type} (S : TySem H W) (w : W) (hw : S.mem kn.typ w) : S.mem t w := by
  have hsound : ∀ a b, DeclaredTy config fns k a → DeclaredTy config fns k b → typesMatch H a b = true →
      ∀ w, S.mem b w → S.mem a w := by
    intro a b ha hb hm w hw
    exact C49_sound_partial hm (hord b hb).2 (hord a ha).1 (hord b hb).1
      (hargs.imp (fun h => h b hb) (fun h => h a ha)) S w hw
  have ht : DeclaredTy config fns k t := ⟨f, fn, hf, .inl ⟨d, hd⟩⟩
  obtain ⟨h1, h2⟩ := C49_edges (R := fun k' a b => k' = k → ∀ w, S.mem b w → S.mem a w)
    (P := fun k' t => k' = k → DeclaredTy config fns k t)
    hfresh h (fun _ _ _ _ h => h) (fun _ a b c h1 h2 hkk w h3 => h1 hkk w (h2 hkk w h3))
    (fun f fn k' t d hf hd hkk => ⟨f, fn, hf, .inl ⟨d, hkk ▸ hd⟩⟩)
    (fun k' a b ha hb hm hkk => hsound a b (ha hkk) (hb hkk) hm) hf hd hk
  by_cases hx : kn.kind = .external
  · exact (h2 hx).1 rfl w hw
  · obtain ⟨_, hcfg, hold, _, hnone, _⟩ := createFunctionGraph_spec hfresh h
    have hkc : k ∉ config.keys := by
      intro hc
      obtain ⟨n, hn, he⟩ := hcfg k hc
      rw [hk] at hn; cases hn; exact hx he
    cases hl : lastDef fns k with
    | none => exact absurd (hnone k kn hk hkc hl) hx
    | some n0 =>
      obtain ⟨n, hn, hs⟩ := hold k n0 hkc hl
      rw [hk] at hn; cases hn
      have : kn.typ = n0.typ := hs.typ (by rw [← hs.kind]; exact hx)
      exact hsound t kn.typ ht ⟨k, n0, ⟨hkc, hl⟩, .inr ⟨rfl, this⟩⟩ (h1 hx) w hw

/-! ### Values given as inputs -/

mutual
/-- **C49, inputs of simple types.**  For classes, unions, literals and type variables the check of an input accepts exactly the values
of the type. -/
theorem C49_inputs_exact {H : Hier} (hrefl : ∀ c, H.sub c c = true) {lit : Name → InVal → Bool} :
    ∀ (t : PyTy), t.Simple H → ∀ v, checkInput H lit t v = true ↔ hasType H lit t v
  | .any, _, v => by simp [checkInput, hasType]
  | .cls c, h, v => by
    unfold PyTy.Simple at h
    simp only [checkInput, hasType, h, Bool.not_false, Bool.true_and, Bool.or_eq_true, beq_iff_eq]
    constructor
    · rintro (h | h)
      · exact h
      · rw [h]; exact hrefl _
    · exact .inl
  | .var _, _, v => by simp [checkInput, hasType]
  | .union as, h, v => by
    unfold PyTy.Simple at h
    unfold checkInput hasType
    exact inputs_exact_any hrefl as h v
  | .alias .., h, _ => by unfold PyTy.Simple at h; exact h.elim
  | .annotated .., h, _ => by unfold PyTy.Simple at h; exact h.elim
  | .other n, _, v => by simp [checkInput, hasType]
theorem inputs_exact_any {H : Hier} (hrefl : ∀ c, H.sub c c = true) {lit : Name → InVal → Bool} :
    ∀ (as : List PyTy), PyTy.AllSimple H as → ∀ v, checkAny H lit as v = true ↔ hasAny H lit as v
  | [], _, v => by simp [checkAny, hasAny]
  | a :: as, h, v => by
    unfold PyTy.AllSimple at h
    unfold checkAny hasAny
    rw [Bool.or_eq_true, C49_inputs_exact hrefl a h.1 v, inputs_exact_any hrefl as h.2 v]
end

mutual
/-- **C49, inputs are not rejected wrongly (partial).**  For classes, unions, literals, lists, sequences, sets and iterables a value of
the type is accepted.  Missing: tuples and other generic classes (`C49_violated_tuple`, `C49_violated_mapping`), generic classes
without arguments and annotated types, where only values of exactly the class are accepted. -/
theorem C49_inputs_accepted_partial {H : Hier} {lit : Name → InVal → Bool} :
    ∀ (t : PyTy), t.Checkable H → ∀ v, hasType H lit t v → checkInput H lit t v = true
  | .any, _, v, _ => by simp [checkInput]
  | .cls c, h, v, hv => by
    unfold PyTy.Checkable at h
    unfold hasType at hv
    simp [checkInput, h, hv]
  | .var _, _, v, _ => by simp [checkInput]
  | .union as, h, v, hv => by
    unfold PyTy.Checkable at h
    unfold hasType at hv
    unfold checkInput
    exact inputs_accepted_any as h v hv
  | .alias _ o as, h, v, hv => by
    unfold PyTy.Checkable at h
    unfold hasType at hv
    unfold checkInput
    have hfirst : checkFirst H lit as v.items = true := by
      cases as with
      | nil => unfold checkFirst; rfl
      | cons a as' =>
        have h2 := hv.2 h.1
        cases hi : v.items with
        | nil => unfold checkFirst; rfl
        | cons i is =>
          unfold checkFirst
          unfold allItems at h2
          exact C49_inputs_accepted_partial a (by have := h.2; unfold PyTy.AllCheckable at this; exact this.1) i
            (h2 i (by rw [hi]; simp))
    rcases h.1 with rfl | rfl | rfl | rfl <;> simp [hv.1, hfirst]
  | .annotated .., h, _, _ => by unfold PyTy.Checkable at h; exact h.elim
  | .other n, _, v, hv => by unfold hasType at hv; unfold checkInput; exact hv
theorem inputs_accepted_any {H : Hier} {lit : Name → InVal → Bool} :
    ∀ (as : List PyTy), PyTy.AllCheckable H as → ∀ v, hasAny H lit as v → checkAny H lit as v = true
  | [], _, v, hv => by unfold hasAny at hv; exact hv.elim
  | a :: as, h, v, hv => by
    unfold PyTy.AllCheckable at h
    unfold hasAny at hv
    unfold checkAny
    rw [Bool.or_eq_true]
    rcases hv with hv | hv
    · exact .inl (C49_inputs_accepted_partial a h.1 v hv)
    · exact .inr (inputs_accepted_any as h.2 v hv)
end

end

namespace TypesSample
open PyTy

/-- A few classes: `bool` is an `int`, `Both` derives from `L` and `R`, and `GenA`, `GenB` are unrelated generic classes. -/
def H : Hier where
  sub a b := a == b || b == "object" || [("bool", "int"), ("Both", "L"), ("Both", "R"), ("list", "Sequence")].contains (a, b)
  generic c := c == "GenA" || c == "GenB"

/-- `def f(x: Union[int, str])`, `def g(x: int, f: Sequence)`: the function `f` returns a `list`. -/
def fn (name : Name) (typ : PyTy) (params : List (Name × PyTy)) : Node PyTy Int :=
  { name, typ, kind := .standard, inputTypes := params.map (fun p => (p.1, (p.2, .required))), dependencies := [],
    dependedOnBy := [], fn := fun _ => .ok 0 }

def fns : List (Node PyTy Int) :=
  [ fn "f" (.cls "list") [("x", .union [.cls "int", .cls "str"])],
    fn "g" (.cls "int") [("x", .cls "int"), ("f", .cls "Sequence")],
    fn "h" (.cls "int") [("x", .cls "int"), ("g", .union [.cls "int", .cls "str"])] ]

example : typesMatch H (.cls "int") (.cls "bool") = true ∧ typesMatch H (.cls "bool") (.cls "int") = false ∧
    typesMatch H (.union [.cls "str", .cls "int"]) (.union [.cls "int", .cls "str"]) = true ∧
    typesMatch H (.alias true "Sequence" [.cls "int"]) (.alias false "list" [.cls "int"]) = true ∧
    typesMatch H (.alias true "Sequence" [.cls "int"]) (.alias false "list" [.cls "str"]) = false ∧
    typesMatch H (.alias true "Collect" [.cls "int"]) (.cls "bool") = true ∧
    typesMatch H (.cls "int") (.alias true "Parallelizable" [.cls "int"]) = true := by decide +kernel

/-- Soundness applies to `list[int]` for `Sequence[int]` and to `bool` for `Optional[int]`. -/
example {W : Type} (S : TySem H W) (w : W) (h : S.mem (.alias false "list" [.cls "int"]) w) :
    S.mem (.alias true "Sequence" [.cls "int"]) w :=
  C49_sound_partial (H := H) (by decide +kernel) (by simp) (by simp [Ordinary, mentions, mentionsAny])
    (by simp [Ordinary, mentions, mentionsAny]) (.inl (by simp [hasArgs])) S w h

example {W : Type} (S : TySem H W) (w : W) (h : S.mem (.cls "bool") w) : S.mem (.union [.cls "int", .cls "NoneType"]) w :=
  C49_sound_partial (H := H) (by decide +kernel) (by simp) (by simp [Ordinary, mentions, mentionsAny])
    (by simp [Ordinary, mentions]) (.inr (by simp [noArgs, allNoArgs, H])) S w h

example : typesMatch H (.union [.cls "str", .alias true "Sequence" [.cls "int"]]) (.alias false "list" [.cls "int"]) = true :=
  C49_union_member (p := .alias true "Sequence" [.cls "int"]) (by simp) (by decide +kernel)
    (by simp [Ordinary, mentions, mentionsAny]) (by simp [Ordinary, mentions, mentionsAny]) rfl rfl (by simp)

theorem sub_refl (c : Name) : H.sub c c = true := by simp [H]

example : typesMatch H (.union [.cls "str", .cls "int"]) (.cls "bool") = true :=
  (C49_classes sub_refl "bool" rfl ["str", "int"] (by decide)).2.2 ⟨"int", by simp, rfl⟩

/-- The sample is accepted in every order. -/
def built (fns : List (Node PyTy Int)) : Bool := (createFunctionGraph (typesMatch H) .any [] false fns).isOk

example : built fns = true ∧ built fns.reverse = true := by decide +kernel

def graph : Graph PyTy Int :=
  match createFunctionGraph (typesMatch H) .any [] false fns with
  | .ok g => g
  | .error _ => []

theorem graph_ok : createFunctionGraph (typesMatch H) .any [] false fns = .ok graph := by
  have h : built fns = true := by decide +kernel
  unfold built at h
  unfold graph
  cases hc : createFunctionGraph (typesMatch H) .any [] false fns with
  | ok g => rfl
  | error e => rw [hc] at h; cases h

/-- The recorded type of the input `x` is the tighter one, `int`. -/
example : (graph.get? "x").map (fun n => n.typ.eq (.cls "int")) = some true := by decide +kernel

theorem fns_fresh : ∀ n ∈ fns, Fresh n := by
  intro n hn
  simp only [fns, List.mem_cons, List.not_mem_nil, or_false] at hn
  rcases hn with rfl | rfl | rfl <;> exact ⟨by decide, rfl, rfl, by decide⟩

theorem declared_x {t : PyTy} (h : DeclaredTy ([] : Dict Name Int) fns "x" t) : t = .cls "int" ∨ t = .union [.cls "int", .cls "str"] := by
  obtain ⟨f, n, ⟨_, hl⟩, h⟩ := h
  obtain ⟨hname, hn⟩ := lastDef_name hl
  simp only [fns, List.mem_cons, List.not_mem_nil, or_false] at hn
  clear hl
  rcases hn with rfl | rfl | rfl <;> (simp [fn] at h hname; subst hname; simp at h; simp [h])

/-- `C49_values_partial` applies to the input `x` of the sample, as taken by `f`. -/
example {W : Type} (S : TySem H W) (w : W) (kn : Node PyTy Int) (hk : graph.get? "x" = some kn) (hw : S.mem kn.typ w) :
    S.mem (.union [.cls "int", .cls "str"]) w :=
  C49_values_partial (f := "f") (fn := fn "f" (.cls "list") [("x", .union [.cls "int", .cls "str"])]) (d := .required) fns_fresh graph_ok
    ⟨by simp [Dict.keys], by rfl⟩ (by simp [fn]) hk
    (by intro t ht; rcases declared_x ht with rfl | rfl <;> simp [Ordinary, mentions, mentionsAny])
    (.inr (by intro t ht; rcases declared_x ht with rfl | rfl <;> simp [noArgs, allNoArgs, H])) S w hw

/-- `C49_accepts` applies to the sample in every order. -/
example (fns' : List (Node PyTy Int)) (hperm : fns'.Perm fns) : ∃ g, createFunctionGraph (typesMatch H) .any [] false fns' = .ok g := by
  have hmem : ∀ f n, FnDef ([] : Dict Name Int) fns' f n → n ∈ fns ∧ n.name = f := fun f n h =>
    ⟨hperm.mem_iff.1 (lastDef_name h.2).2, (lastDef_name h.2).1⟩
  refine C49_accepts (fun n hn => fns_fresh n (hperm.mem_iff.1 hn)) (.inr ?_) ?_ ?_
  · have : (unshadowed ([] : Dict Name Int) fns').Perm (unshadowed ([] : Dict Name Int) fns) := (hperm.map _).filter _
    exact this.nodup_iff.2 (by decide)
  · intro f n p t d pn hf hd hp
    obtain ⟨h1, rfl⟩ := hmem f n hf
    obtain ⟨h2, rfl⟩ := hmem p pn hp
    have : ∀ n ∈ fns, ∀ pn ∈ fns, ∀ q ∈ n.inputTypes, q.1 = pn.name → typesMatch H q.2.1 pn.typ = true := by decide +kernel
    exact this n h1 pn h2 _ hd rfl
  · intro f n f' n' p t d t' d' hf hf' hd hd' hp
    obtain ⟨h1, _⟩ := hmem f n hf
    obtain ⟨h2, _⟩ := hmem f' n' hf'
    have hx : ∀ n ∈ fns, ∀ q ∈ n.inputTypes, ∀ n' ∈ fns, ∀ q' ∈ n'.inputTypes, q.1 = q'.1 →
        typesMatch H q.2.1 q'.2.1 = true ∨ typesMatch H q'.2.1 q.2.1 = true := by decide +kernel
    exact hx n h1 _ hd n' h2 _ hd' rfl

/-- **C49 is violated** by generic classes without type arguments: unrelated classes match, because the origin of both is `None`. -/
theorem C49_violated_generic : typesMatch H (.cls "GenB") (.cls "GenA") = true ∧ H.sub "GenA" "GenB" = false ∧
    ∃ (W : Type) (S : TySem H W) (w : W), S.mem (.cls "GenA") w ∧ ¬ S.mem (.cls "GenB") w := by
  refine ⟨by decide +kernel, by decide, Unit, ⟨fun _ c => H.sub "GenA" c = true, ?_, fun _ _ _ => True, fun _ => Iff.rfl,
    fun _ _ => trivial, fun _ _ => True, fun _ _ => True⟩, (), by simp [TySem.mem, H], by simp [TySem.mem, H]⟩
  intro a b _ h1 h2
  simp only [H, Bool.or_eq_true, beq_iff_eq] at h1 h2 ⊢
  rcases h1 with (rfl | rfl) | h1
  · exact h2
  · simp
  · rcases h2 with (rfl | rfl) | h2
    · simp at h1
    · simp at h1
    · simp at h2

/-- **C49 is violated** by unions on both sides: every value of `Union[int, str]` is a value of `Union[int, str, float]`, but the edge is
rejected. -/
theorem C49_violated_union :
    typesMatch H (.union [.cls "int", .cls "str", .cls "float"]) (.union [.cls "int", .cls "str"]) = false ∧
    ∀ (W : Type) (S : TySem H W) (w : W), S.mem (.union [.cls "int", .cls "str"]) w →
      S.mem (.union [.cls "int", .cls "str", .cls "float"]) w := by
  refine ⟨by decide +kernel, fun W S w h => ?_⟩
  simp only [TySem.mem, TySem.memAny, or_false] at h ⊢
  rcases h with h | h
  · exact .inl h
  · exact .inr (.inl h)

/-- **C49 is violated** by the order of functions.  An input that three functions take as `Both`, `L` and `R` (or as `Any`, `int` and
`str`) is accepted in one order and rejected in another. -/
theorem C49_violated_order :
    built [fn "a" (.cls "int") [("x", .cls "Both")], fn "b" (.cls "int") [("x", .cls "L")], fn "c" (.cls "int") [("x", .cls "R")]] = true ∧
    built [fn "b" (.cls "int") [("x", .cls "L")], fn "c" (.cls "int") [("x", .cls "R")], fn "a" (.cls "int") [("x", .cls "Both")]] = false ∧
    built [fn "a" (.cls "int") [("x", .any)], fn "b" (.cls "int") [("x", .cls "int")], fn "c" (.cls "int") [("x", .cls "str")]] = true ∧
    built [fn "b" (.cls "int") [("x", .cls "int")], fn "c" (.cls "int") [("x", .cls "str")], fn "a" (.cls "int") [("x", .any)]] = false := by
  decide +kernel

/-- Literals of the sample: `Literal["csv", "prq"]`. -/
def lit (n : Name) (v : InVal) : Bool := match n, v with
  | "Literal[csv,prq]", .obj "str" t _ => t == "csv" || t == "prq"
  | _, _ => false

def intVal (t : Name) : InVal := .obj "int" t []

/-- `Optional[Sequence[Union[int, str]]]` takes the list `[1, "a"]`; `Literal` takes the listed strings only. -/
example : checkInput H lit (.union [.alias true "Sequence" [.union [.cls "int", .cls "str"]], .cls "NoneType"])
      (.obj "list" "" [intVal "1", .obj "str" "a" []]) = true ∧
    checkInput H lit (.other "Literal[csv,prq]") (.obj "str" "csv" []) = true ∧
    checkInput H lit (.other "Literal[csv,prq]") (.obj "str" "txt" []) = false ∧
    checkInput H lit (.cls "int") (.obj "float" "1.0" []) = false := by decide +kernel

example : (PyTy.union [.alias true "Sequence" [.union [.cls "int", .cls "str"]], .cls "NoneType"]).Checkable H ∧
    hasType H lit (.union [.alias true "Sequence" [.union [.cls "int", .cls "str"]], .cls "NoneType"])
      (.obj "list" "" [intVal "1", .obj "str" "a" []]) := by
  constructor
  · simp [Checkable, AllCheckable, isContainer, H]
  · simp [hasType, hasAny, allItems, H, InVal.cls, InVal.items, intVal]

example : (PyTy.union [.cls "int", .cls "str"]).Simple H := by simp [Simple, AllSimple, H]

/-- **C49 is violated** by tuples: no value is accepted for an input declared as `Tuple[int, int]`. -/
theorem C49_violated_tuple : ∀ v, checkInput H lit (.alias true "tuple" [.cls "int", .cls "int"]) v = false := by
  intro v; simp [checkInput]

example : hasType H lit (.alias true "tuple" [.cls "int", .cls "int"]) (.obj "tuple" "" [intVal "1", intVal "2"]) := by
  simp [hasType, H, InVal.cls, isContainer]

/-- **C49 is violated** by `Mapping[str, int]`, which rejects dictionaries (as every generic class other than lists, sequences, sets and
iterables rejects instances of subclasses). -/
theorem C49_violated_mapping (H : Hier) (hd : H.sub "dict" "Mapping" = true) (items : List InVal) :
    hasType H lit (.alias true "Mapping" [.cls "str", .cls "int"]) (.obj "dict" "" items) ∧
    checkInput H lit (.alias true "Mapping" [.cls "str", .cls "int"]) (.obj "dict" "" items) = false := by
  constructor
  · simp [hasType, InVal.cls, hd, isContainer]
  · simp [checkInput, InVal.cls]

end TypesSample
end Verif
