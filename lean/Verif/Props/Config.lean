import Verif.Model.Config

/-!
Property C38: the `@config` family selects exactly the functions whose conditions hold, and names them.
Property C45: which functions of a module become nodes.
-/
namespace Verif
variable {V : Type} [DecidableEq V]

/-! ### Specification -/

/-- `n` contains a double underscore. -/
def HasDunder (n : List Char) : Prop := ∃ a b, n = a ++ '_' :: '_' :: b

/-- `p` is the part of `n` before its last double underscore (all of `n` if there is none). -/
def UpToDunder (n p : List Char) : Prop :=
  (¬ HasDunder n ∧ p = n) ∨
  ((∃ b, n = p ++ '_' :: '_' :: b) ∧ ∀ a b, n = a ++ '_' :: '_' :: b → a.length ≤ p.length)

/-- Under the configuration, the key has the value `v`; a key that is not given has the value `None`. -/
def CfgVal (pyNone : V) (config : Dict Name V) (k : Name) (v : V) : Prop :=
  config.get? k = some v ∨ (config.get? k = none ∧ v = pyNone)

/-- The condition of a decorator holds for the configuration. -/
def CondHolds (pyNone : V) (config : Dict Name V) : CfgCond V → Prop
  | .whenEq kv => ∀ k v, (k, v) ∈ kv → CfgVal pyNone config k v
  | .whenNot kv => ∀ k v, (k, v) ∈ kv → ¬ CfgVal pyNone config k v
  | .whenIn kv => ∀ k vs, (k, vs) ∈ kv → ∃ v ∈ vs, CfgVal pyNone config k v
  | .whenNotIn kv => ∀ k vs, (k, vs) ∈ kv → ∀ v ∈ vs, ¬ CfgVal pyNone config k v
  | .custom f => f config = true

/-- Every decorator of a function lets it into the graph. -/
def Selected (pyNone : V) (config : Dict Name V) (rs : List (FnResolver V)) : Prop :=
  ∀ r ∈ rs, ∃ c t, r = .config c t ∧ CondHolds pyNone config c

/-- `child` is `parent` or a (nested) submodule of it. -/
def IsSubmoduleOf (child parent : List Char) : Prop := child = parent ∨ ∃ rest, child = parent ++ '.' :: rest

/-- The function is public: its name does not start with an underscore. -/
def Public (n : Name) : Prop := n.toList.head? ≠ some '_'

/-! ### Names -/

theorem rfind_none {n : List Char} (h : rfindDunder n = none) : ¬ HasDunder n := by
  induction n with
  | nil => rintro ⟨a, b, h⟩; simp at h
  | cons c t ih =>
    unfold rfindDunder at h
    cases ht : rfindDunder t with
    | some i => rw [ht] at h; simp at h
    | none =>
      rw [ht] at h
      rintro ⟨a, b, hab⟩
      cases a with
      | nil =>
        simp only [List.nil_append, List.cons.injEq] at hab
        obtain ⟨rfl, rfl⟩ := hab
        simp at h
      | cons x a =>
        simp only [List.cons_append, List.cons.injEq] at hab
        exact ih ht ⟨a, b, hab.2⟩

theorem rfind_some {n : List Char} {i : Nat} (h : rfindDunder n = some i) :
    (∃ b, n = n.take i ++ '_' :: '_' :: b) ∧ (∀ a b, n = a ++ '_' :: '_' :: b → a.length ≤ i) ∧ (n.take i).length = i := by
  induction n generalizing i with
  | nil => simp [rfindDunder] at h
  | cons c t ih =>
    unfold rfindDunder at h
    cases ht : rfindDunder t with
    | some j =>
      rw [ht] at h
      simp only [Option.some.injEq] at h
      subst h
      obtain ⟨⟨b, hb⟩, hmax, hlen⟩ := ih ht
      refine ⟨⟨b, ?_⟩, ?_, ?_⟩
      · simp only [List.take_succ_cons, List.cons_append]; rw [← hb]
      · intro a b' hab
        cases a with
        | nil => simp
        | cons x a =>
          simp only [List.cons_append, List.cons.injEq] at hab
          have := hmax a b' hab.2
          simp only [List.length_cons]; omega
      · simp only [List.take_succ_cons, List.length_cons, hlen]
    | none =>
      rw [ht] at h
      dsimp only at h
      split at h
      · rename_i hc
        simp only [Option.some.injEq] at h
        subst h
        simp only [Bool.and_eq_true, decide_eq_true_eq, beq_iff_eq] at hc
        obtain ⟨rfl, hh⟩ := hc
        refine ⟨?_, ?_, by simp⟩
        · cases t with
          | nil => simp at hh
          | cons d t' =>
            simp only [List.head?_cons, Option.some.injEq] at hh
            subst hh
            exact ⟨t', by simp⟩
        · intro a b hab
          cases a with
          | nil => simp
          | cons x a =>
            simp only [List.cons_append, List.cons.injEq] at hab
            exact absurd ⟨a, b, hab.2⟩ (rfind_none ht)
      · simp at h

theorem sanitizeChars_spec (n : List Char) : UpToDunder n (sanitizeChars n) := by
  unfold sanitizeChars
  cases h : rfindDunder n with
  | none => exact .inl ⟨rfind_none h, rfl⟩
  | some i =>
    obtain ⟨h1, h2, h3⟩ := rfind_some h
    exact .inr ⟨h1, fun a b hab => by rw [h3]; exact h2 a b hab⟩

theorem upToDunder_det {n p q : List Char} (hp : UpToDunder n p) (hq : UpToDunder n q) : p = q := by
  rcases hp with ⟨hn, rfl⟩ | ⟨⟨b, hb⟩, hmax⟩
  · rcases hq with ⟨_, rfl⟩ | ⟨⟨c, hc⟩, _⟩
    · rfl
    · exact absurd ⟨_, _, hc⟩ hn
  · rcases hq with ⟨hn, _⟩ | ⟨⟨c, hc⟩, hmax'⟩
    · exact absurd ⟨_, _, hb⟩ hn
    · have h1 := hmax _ _ hc
      have h2 := hmax' _ _ hb
      have hl : p.length = q.length := by omega
      have := hb.symm.trans hc
      exact (List.append_inj this hl).1

theorem sanitizeName_eq {n : Name} {p : List Char} (hp : UpToDunder n.toList p) : sanitizeName n = String.ofList p := by
  unfold sanitizeName
  rw [upToDunder_det (sanitizeChars_spec _) hp]

theorem sanitizeName_public {n : Name} (h : Public n) : Public (sanitizeName n) := by
  unfold Public sanitizeName at *
  rw [String.toList_ofList]
  rcases sanitizeChars_spec n.toList with ⟨_, h2⟩ | ⟨⟨b, hb⟩, _⟩
  · rw [h2]; exact h
  · intro hc
    apply h
    rw [hb]
    cases hs : sanitizeChars n.toList with
    | nil => simp
    | cons x t => rw [hs] at hc; simpa using hc

/-- A name without a double underscore is left alone. -/
theorem sanitizeName_id {p : List Char} (h : ¬ HasDunder p) : sanitizeName (String.ofList p) = String.ofList p :=
  sanitizeName_eq (by rw [String.toList_ofList]; exact .inl ⟨h, rfl⟩)

/-! ### Conditions -/

theorem cfgGet_iff (pyNone : V) (config : Dict Name V) (k : Name) (v : V) :
    cfgGet pyNone config k = v ↔ CfgVal pyNone config k v := by
  unfold cfgGet CfgVal
  cases h : config.get? k with
  | none => simp [eq_comm]
  | some w => simp

theorem resolves_iff (pyNone : V) (config : Dict Name V) (c : CfgCond V) :
    c.resolves pyNone config = true ↔ CondHolds pyNone config c := by
  cases c with
  | whenEq kv =>
    simp only [CfgCond.resolves, CondHolds, List.all_eq_true, decide_eq_true_eq, Prod.forall, ← cfgGet_iff]
    exact ⟨fun h k v hm => (h k v hm).symm, fun h k v hm => (h k v hm).symm⟩
  | whenNot kv =>
    simp only [CfgCond.resolves, CondHolds, List.all_eq_true, decide_eq_true_eq, Prod.forall, ← cfgGet_iff]
    exact ⟨fun h k v hm => (h k v hm).symm, fun h k v hm => Ne.symm (h k v hm)⟩
  | whenIn kv =>
    simp only [CfgCond.resolves, CondHolds, List.all_eq_true, decide_eq_true_eq, Prod.forall, ← cfgGet_iff]
    constructor
    · intro h k vs hm; exact ⟨_, h k vs hm, rfl⟩
    · intro h k vs hm; obtain ⟨v, hv, he⟩ := h k vs hm; rw [he]; exact hv
  | whenNotIn kv =>
    simp only [CfgCond.resolves, CondHolds, List.all_eq_true, decide_eq_true_eq, Prod.forall, ← cfgGet_iff]
    constructor
    · intro h k vs hm v hv he; exact h k vs hm (he ▸ hv)
    · intro h k vs hm hv; exact h k vs hm _ hv rfl
  | custom f => simp [CfgCond.resolves, CondHolds]

/-- A condition only looks at the keys it names. -/
theorem resolves_congr (pyNone : V) {c1 c2 : Dict Name V} {c : CfgCond V} {ks : List Name} (hu : c.used = some ks)
    (h : ∀ k ∈ ks, cfgGet pyNone c1 k = cfgGet pyNone c2 k) : c.resolves pyNone c1 = c.resolves pyNone c2 := by
  have aux : ∀ {W : Type} (kv : Dict Name W) (q : W → V → Bool), ks = kv.keys →
      kv.all (fun p => q p.2 (cfgGet pyNone c1 p.1)) = kv.all (fun p => q p.2 (cfgGet pyNone c2 p.1)) := by
    intro W kv q hk
    rw [Bool.eq_iff_iff, List.all_eq_true, List.all_eq_true]
    have : ∀ p ∈ kv, cfgGet pyNone c1 p.1 = cfgGet pyNone c2 p.1 := fun p hp =>
      h _ (by rw [hk]; exact List.mem_map.2 ⟨p, hp, rfl⟩)
    constructor
    · intro H p hp; rw [← this p hp]; exact H p hp
    · intro H p hp; rw [this p hp]; exact H p hp
  cases c with
  | whenEq kv => simp only [CfgCond.used, Option.some.injEq] at hu; exact aux kv (fun a b => decide (a = b)) hu.symm
  | whenNot kv => simp only [CfgCond.used, Option.some.injEq] at hu; exact aux kv (fun a b => decide (a ≠ b)) hu.symm
  | whenIn kv => simp only [CfgCond.used, Option.some.injEq] at hu; exact aux kv (fun a b => decide (b ∈ a)) hu.symm
  | whenNotIn kv => simp only [CfgCond.used, Option.some.injEq] at hu; exact aux kv (fun a b => decide (b ∉ a)) hu.symm
  | custom f => simp [CfgCond.used] at hu

theorem fill_get (config : Dict Name V) (k : Name) (d : V) : ∀ (l acc : Dict Name V),
    (acc.get? k = some ((config.get? k).getD d) ∨ k ∈ l.keys) → (∀ v, (k, v) ∈ l → v = d) →
    (l.foldl (fun acc p => Dict.set acc p.1 ((config.get? p.1).getD p.2)) acc).get? k = some ((config.get? k).getD d) := by
  intro l
  induction l with
  | nil =>
    intro acc h _
    rcases h with h | h
    · exact h
    · simp [Dict.keys] at h
  | cons q t ih =>
    intro acc h hall
    obtain ⟨a, b⟩ := q
    simp only [List.foldl_cons]
    apply ih
    · by_cases ha : a = k
      · subst ha
        left
        rw [Dict.get?_set_self, hall b (by simp)]
      · rw [Dict.get?_set_ne _ _ ha]
        rcases h with h | h
        · exact .inl h
        · right
          simp only [Dict.keys, List.map_cons, List.mem_cons] at h ⊢
          rcases h with h | h
          · exact absurd h.symm ha
          · exact h
    · intro v hv; exact hall v (by simp [hv])

theorem mem_set_of {K W : Type} [DecidableEq K] {d : Dict K W} {k k' : K} {v v' : W} (h : (k', v') ∈ d.set k v) :
    (k' = k ∧ v' = v) ∨ (k', v') ∈ d := by
  induction d with
  | nil => simp only [Dict.set, List.mem_singleton, Prod.mk.injEq] at h; exact .inl h
  | cons q t ih =>
    obtain ⟨a, b⟩ := q
    simp only [Dict.set] at h
    split at h
    · simp only [List.mem_cons, Prod.mk.injEq] at h
      rcases h with h | h
      · exact .inl h
      · exact .inr (by simp [h])
    · simp only [List.mem_cons] at h
      rcases h with h | h
      · exact .inr (by simp [h])
      · rcases ih h with h | h
        · exact .inl h
        · exact .inr (by simp [h])

/-- Restricting the configuration to the keys a decorator declares never fails and does not change its decision. -/
theorem filter_spec (pyNone pyFalse : V) (config : Dict Name V) (c : CfgCond V) :
    ∃ cfg, c.filter pyNone pyFalse config = .ok cfg ∧ c.resolves pyNone cfg = c.resolves pyNone config := by
  cases hu : c.used with
  | none => exact ⟨config, by simp [CfgCond.filter, hu, resolveConfig], rfl⟩
  | some ks =>
    have hf : c.filter pyNone pyFalse config = .ok ((withGlobalDefault pyFalse (ks.map (fun k => (k, pyNone)))).foldl
        (fun acc p => Dict.set acc p.1 ((config.get? p.1).getD p.2)) []) := by
      simp only [CfgCond.filter, hu, resolveConfig, List.filter_nil, ne_eq, not_true_eq_false, if_false, copyRequired]
    refine ⟨_, hf, ?_⟩
    apply resolves_congr pyNone hu
    intro k hk
    unfold cfgGet
    have hkm : Dict.get? (ks.map (fun k => (k, pyNone))) k = some pyNone := by
      clear hu hf
      induction ks with
      | nil => simp at hk
      | cons a t ih =>
        simp only [List.map_cons, Dict.get?_cons]
        split
        · rfl
        · rename_i hne
          simp only [List.mem_cons] at hk
          rcases hk with hk | hk
          · exact absurd hk.symm hne
          · exact ih hk
    rw [fill_get config k pyNone]
    · cases hc : config.get? k <;> simp
    · right
      unfold withGlobalDefault
      rw [Dict.mem_keys_set]
      right
      exact Dict.mem_keys_iff.2 ⟨_, hkm⟩
    · intro v hv
      unfold withGlobalDefault at hv
      rcases mem_set_of hv with ⟨h1, h2⟩ | h
      · rw [h2, ← h1, hkm]; rfl
      · simp only [List.mem_map, Prod.mk.injEq] at h
        obtain ⟨_, _, _, h⟩ := h
        exact h.symm

/-! ### Resolvers, builds and histories of builds -/

/-- Running the resolvers never fails; the function stays iff every condition holds; whatever is preserved by cutting a
suffix and true of the explicit names is true of the name afterwards. -/
theorem runResolvers_spec (pyNone pyFalse : V) (config : Dict Name V) : ∀ (rs : List (FnResolver V)) (name : Name),
    ∃ b n, runResolvers pyNone pyFalse config rs name = .ok (b, n) ∧ (b = true ↔ Selected pyNone config rs) ∧
      ∀ P : Name → Prop, P name → (∀ m, P m → P (sanitizeName m)) → (∀ c t, .config c (some t) ∈ rs → P t) → P n := by
  intro rs
  induction rs with
  | nil => intro name; exact ⟨true, name, rfl, by simp [Selected], fun P h _ _ => h⟩
  | cons r rs ih =>
    intro name
    cases r with
    | exclude =>
      refine ⟨false, name, rfl, ?_, fun P h _ _ => h⟩
      simp only [Bool.false_eq_true, false_iff]
      intro h
      obtain ⟨c, t, h, _⟩ := h .exclude (by simp)
      cases h
    | config c t =>
      obtain ⟨cfg, hf, hr⟩ := filter_spec pyNone pyFalse config c
      have hiff : c.resolves pyNone cfg = true ↔ CondHolds pyNone config c := by rw [hr]; exact resolves_iff _ _ _
      by_cases hc : CondHolds pyNone config c
      · obtain ⟨b, n, hrun, hb, hP⟩ := ih (newName t name)
        refine ⟨b, n, ?_, ?_, ?_⟩
        · simp only [runResolvers, hf, hiff.2 hc, if_true]; exact hrun
        · rw [hb]
          constructor
          · intro h r hm
            rcases List.mem_cons.1 hm with rfl | hm
            · exact ⟨c, t, rfl, hc⟩
            · exact h r hm
          · intro h r hm; exact h r (by simp [hm])
        · intro P h hs ht
          refine hP P ?_ hs (fun c' t' hm => ht c' t' (by simp [hm]))
          cases t with
          | none => exact hs _ h
          | some t => exact ht c t (by simp)
      · refine ⟨false, name, ?_, ?_, fun P h _ _ => h⟩
        · have : c.resolves pyNone cfg = false := by rw [← Bool.not_eq_true]; exact fun h => hc (hiff.1 h)
          simp only [runResolvers, hf, this, Bool.false_eq_true, if_false]
        · simp only [Bool.false_eq_true, false_iff]
          intro h
          obtain ⟨c', t', he, hh⟩ := h (.config c t) (by simp)
          cases he
          exact hc hh

omit [DecidableEq V] in
theorem validFn_iff (module : Name) (f : PyFn V) :
    validFn module f = true ↔ Public f.name ∧ isSubmodule f.module module = true := by
  unfold validFn Public
  simp only [Bool.and_eq_true, Bool.not_eq_true']
  refine and_congr ?_ Iff.rfl
  cases h : f.name.toList with
  | nil => simp
  | cons c t =>
    have : ("_".toList.isPrefixOf (c :: t)) = ('_' == c) := by
      have h1 : "_".toList = ['_'] := by decide
      rw [h1]; simp [List.isPrefixOf]
    rw [this]
    simp only [List.head?_cons, ne_eq, Option.some.injEq, beq_eq_false_iff_ne]
    exact ⟨fun h h' => h h'.symm, fun h h' => h h'.symm⟩

theorem buildMember_spec (pyNone pyFalse : V) (config : Dict Name V) (module : Name) (f : PyFn V) :
    ∃ o f', buildMember pyNone pyFalse config module f = .ok (o, f') ∧ f'.module = f.module ∧ f'.resolvers = f.resolvers ∧
      (∀ n, o = some n → f'.name = n) ∧
      (o.isSome = true ↔ (Public f.name ∧ isSubmodule f.module module = true) ∧ Selected pyNone config f.resolvers) ∧
      ∀ P : Name → Prop, P f.name → (∀ m, P m → P (sanitizeName m)) → (∀ c t, .config c (some t) ∈ f.resolvers → P t) →
        P f'.name := by
  unfold buildMember
  by_cases hv : validFn module f = true
  · obtain ⟨b, n, hrun, hb, hP⟩ := runResolvers_spec pyNone pyFalse config f.resolvers f.name
    rw [if_pos hv, hrun]
    have hv' := (validFn_iff module f).1 hv
    cases b with
    | true =>
      exact ⟨some n, { f with name := n }, rfl, rfl, rfl, by simp, by simp [hv', hb.1 rfl], hP⟩
    | false =>
      exact ⟨none, { f with name := n }, rfl, rfl, rfl, by simp, by simp [← hb], hP⟩
  · rw [if_neg hv]
    exact ⟨none, f, rfl, rfl, rfl, by simp, by rw [← validFn_iff]; simp [hv], fun P h _ _ => h⟩

theorem buildModule_spec (pyNone pyFalse : V) (config : Dict Name V) (module : Name) : ∀ fs : List (PyFn V),
    ∃ ns fs', buildModule pyNone pyFalse config module fs = .ok (ns, fs') ∧
      ∀ (i : Nat) (f : PyFn V), fs[i]? = some f → ∃ o f', buildMember pyNone pyFalse config module f = .ok (o, f') ∧
        ns[i]? = some o ∧ fs'[i]? = some f' := by
  intro fs
  induction fs with
  | nil => exact ⟨[], [], rfl, by simp⟩
  | cons f fs ih =>
    obtain ⟨ns, fs', hb, hi⟩ := ih
    obtain ⟨o, f', hm, _⟩ := buildMember_spec pyNone pyFalse config module f
    refine ⟨o :: ns, f' :: fs', by simp only [buildModule, hm, hb], ?_⟩
    intro i g hg
    cases i with
    | zero =>
      simp only [List.getElem?_cons_zero, Option.some.injEq] at hg
      subst hg
      exact ⟨o, f', hm, by simp, by simp⟩
    | succ i =>
      simp only [List.getElem?_cons_succ] at hg ⊢
      exact hi i g hg

theorem buildHistory_spec (pyNone pyFalse : V) (module : Name) : ∀ (cs : List (Dict Name V)) (fs : List (PyFn V)),
    ∃ fs', buildHistory pyNone pyFalse module cs fs = .ok fs' ∧
      ∀ (i : Nat) (f : PyFn V), fs[i]? = some f → ∃ f', fs'[i]? = some f' ∧ f'.module = f.module ∧
        f'.resolvers = f.resolvers ∧
        ∀ P : Name → Prop, P f.name → (∀ m, P m → P (sanitizeName m)) →
          (∀ c t, .config c (some t) ∈ f.resolvers → P t) → P f'.name := by
  intro cs
  induction cs with
  | nil => intro fs; exact ⟨fs, rfl, fun i f hf => ⟨f, hf, rfl, rfl, fun P h _ _ => h⟩⟩
  | cons c cs ih =>
    intro fs
    obtain ⟨ns, fs1, hb, hi⟩ := buildModule_spec pyNone pyFalse c module fs
    obtain ⟨fs', hh, hj⟩ := ih fs1
    refine ⟨fs', by simp only [buildHistory, hb, hh], ?_⟩
    intro i f hf
    obtain ⟨o, f1, hm, _, hf1⟩ := hi i f hf
    obtain ⟨o', f1', hm', hmod, hres, _, _, hP⟩ := buildMember_spec pyNone pyFalse c module f
    rw [hm] at hm'
    cases hm'
    obtain ⟨f', hf', hmod', hres', hP'⟩ := hj i f1 hf1
    refine ⟨f', hf', hmod'.trans hmod, hres'.trans hres, ?_⟩
    intro P h hs ht
    exact hP' P (hP P h hs ht) hs (by rw [hres]; exact ht)

/-! ### Modules -/

theorem isSubstring_iff (needle : List Char) : ∀ text : List Char,
    isSubstring needle text = true ↔ ∃ a b, text = a ++ (needle ++ b) := by
  intro text
  induction text with
  | nil =>
    simp only [isSubstring, List.isPrefixOf_iff_prefix]
    constructor
    · rintro ⟨b, hb⟩; exact ⟨[], b, by simpa using hb.symm⟩
    · rintro ⟨a, b, h⟩
      have h2 := congrArg List.length h
      simp at h2
      have : needle = [] := List.length_eq_zero_iff.1 (by omega)
      subst this; exact ⟨[], rfl⟩
  | cons c t ih =>
    simp only [isSubstring, Bool.or_eq_true, ih, List.isPrefixOf_iff_prefix]
    constructor
    · rintro (⟨b, hb⟩ | ⟨a, b, h⟩)
      · exact ⟨[], b, by simpa using hb.symm⟩
      · exact ⟨c :: a, b, by simp [h]⟩
    · rintro ⟨a, b, h⟩
      cases a with
      | nil => exact .inl ⟨b, by simpa using h.symm⟩
      | cons x a =>
        simp only [List.cons_append, List.cons.injEq] at h
        exact .inr ⟨a, b, h.2⟩

theorem isSubmodule_of {child parent : Name} (h : IsSubmoduleOf child.toList parent.toList) :
    isSubmodule child parent = true := by
  unfold isSubmodule
  rw [isSubstring_iff]
  rcases h with h | ⟨rest, h⟩
  · exact ⟨[], [], by simp [h]⟩
  · exact ⟨[], '.' :: rest, by simp [h]⟩

/-! ### C38 -/

/-- **C38, selection.**  Whatever was built before from the same module, a public function of the module is in the graph
iff every condition it is decorated with holds for the configuration, keys that are not given counting as `None`; building
never fails.  (An explicit `name=` must not start with an underscore; see `C38_violated_private_name`.) -/
theorem C38_selection (pyNone pyFalse : V) (module : Name) (fs : List (PyFn V)) (before : List (Dict Name V))
    (config : Dict Name V) :
    ∃ fs' ns fs'', buildHistory pyNone pyFalse module before fs = .ok fs' ∧
      buildModule pyNone pyFalse config module fs' = .ok (ns, fs'') ∧
      ∀ (i : Nat) (f : PyFn V), fs[i]? = some f → Public f.name → IsSubmoduleOf f.module.toList module.toList →
        (∀ c t, FnResolver.config c (some t) ∈ f.resolvers → Public t) →
        ∃ o, ns[i]? = some o ∧ (o.isSome = true ↔ Selected pyNone config f.resolvers) := by
  obtain ⟨fs', hh, hj⟩ := buildHistory_spec pyNone pyFalse module before fs
  obtain ⟨ns, fs'', hb, hi⟩ := buildModule_spec pyNone pyFalse config module fs'
  refine ⟨fs', ns, fs'', hh, hb, ?_⟩
  intro i f hf hpub hsub ht
  obtain ⟨f', hf', hmod, hres, hP⟩ := hj i f hf
  obtain ⟨o, g, hm, hn, _⟩ := hi i f' hf'
  obtain ⟨o', g', hm', _, _, _, hs, _⟩ := buildMember_spec pyNone pyFalse config module f'
  rw [hm] at hm'
  cases hm'
  refine ⟨o, hn, ?_⟩
  rw [hs, hmod, hres]
  have h1 := hP Public hpub (fun m => sanitizeName_public) ht
  have h2 := isSubmodule_of hsub
  simp [h1, h2]

theorem runResolvers_fixed {pyNone pyFalse : V} {config : Dict Name V} {rs : List (FnResolver V)} {p n : Name} {b : Bool}
    (hp : sanitizeName p = p) (ht : ∀ c t, FnResolver.config c (some t) ∉ rs)
    (h : runResolvers pyNone pyFalse config rs p = .ok (b, n)) : n = p := by
  obtain ⟨b', n', h', _, hP⟩ := runResolvers_spec pyNone pyFalse config rs p
  rw [h] at h'
  cases h'
  exact hP (fun m => m = p) rfl (fun m hm => by rw [hm, hp]) (fun c t hm => absurd hm (ht c t))

theorem runResolvers_named {pyNone pyFalse : V} {config : Dict Name V} {rs : List (FnResolver V)} {m p n : Name}
    (hm : m = p ∨ sanitizeName m = p) (hne : rs ≠ []) (hp : sanitizeName p = p)
    (ht : ∀ c t, FnResolver.config c (some t) ∉ rs)
    (h : runResolvers pyNone pyFalse config rs m = .ok (true, n)) : n = p := by
  cases rs with
  | nil => exact absurd rfl hne
  | cons r rs =>
    cases r with
    | exclude => simp [runResolvers] at h
    | config c t =>
      cases t with
      | some t => exact absurd (by simp) (ht c t)
      | none =>
        obtain ⟨cfg, hf, _⟩ := filter_spec pyNone pyFalse config c
        simp only [runResolvers, hf] at h
        split at h
        · have : newName none m = p := by
            unfold newName
            rcases hm with rfl | hm
            · exact hp
            · exact hm
          rw [this] at h
          exact runResolvers_fixed hp (fun c t hm => ht c t (List.mem_cons_of_mem _ hm)) h
        · simp at h

/-- **C38, names (partial).**  Whatever was built before from the same module, a decorated function that is in the graph has
as its node name the part of the function's name before the last double underscore — provided that this part contains no
further double underscore and no decorator gives an explicit name.  Missing: names with several double underscores
(`C38_violated_rebuild`, `C38_violated_stacked`). -/
theorem C38_names_partial (pyNone pyFalse : V) (module : Name) (fs : List (PyFn V)) (before : List (Dict Name V))
    (config : Dict Name V) (fs' fs'' : List (PyFn V)) (ns : List (Option Name))
    (hh : buildHistory pyNone pyFalse module before fs = .ok fs')
    (hb : buildModule pyNone pyFalse config module fs' = .ok (ns, fs'')) (i : Nat) (f : PyFn V) (n : Name) (p : List Char)
    (hf : fs[i]? = some f) (hn : ns[i]? = some (some n)) (hdec : f.resolvers ≠ [])
    (hexpl : ∀ c t, FnResolver.config c (some t) ∉ f.resolvers)
    (hup : UpToDunder f.name.toList p) (hone : ¬ HasDunder p) : n = String.ofList p := by
  obtain ⟨fs1, hh', hj⟩ := buildHistory_spec pyNone pyFalse module before fs
  rw [hh] at hh'
  cases hh'
  obtain ⟨f', hf', hmod, hres, hP⟩ := hj i f hf
  obtain ⟨ns', fs2, hb', hi⟩ := buildModule_spec pyNone pyFalse config module fs'
  rw [hb] at hb'
  cases hb'
  obtain ⟨o, g, hm, hn', _⟩ := hi i f' hf'
  rw [hn] at hn'
  cases hn'
  have hs := sanitizeName_eq hup
  have hs' := sanitizeName_id hone
  have hname : f'.name = String.ofList p ∨ sanitizeName f'.name = String.ofList p := by
    refine hP (fun m => m = String.ofList p ∨ sanitizeName m = String.ofList p) (.inr hs) ?_
      (fun c t hc => absurd hc (hexpl c t))
    rintro m (rfl | hm)
    · exact .inl hs'
    · exact .inl hm
  unfold buildMember at hm
  split at hm
  · rw [hres] at hm
    cases hr : runResolvers pyNone pyFalse config f.resolvers f'.name with
    | error e => rw [hr] at hm; simp at hm
    | ok r =>
      obtain ⟨b, n'⟩ := r
      rw [hr] at hm
      cases b with
      | false => simp at hm
      | true =>
        simp only [Except.ok.injEq, Prod.mk.injEq, Option.some.injEq] at hm
        rw [← hm.1]
        exact runResolvers_named hname hdec hs' hexpl hr
  · simp at hm

/-- **C38, first build.**  The first time a module is built, a function with a single condition and no explicit name is
named by the part of its name before the last double underscore, however many there are. -/
theorem C38_first_build (pyNone pyFalse : V) (config : Dict Name V) (module : Name) (fs fs' : List (PyFn V))
    (ns : List (Option Name)) (hb : buildModule pyNone pyFalse config module fs = .ok (ns, fs')) (i : Nat) (f : PyFn V)
    (n : Name) (p : List Char) (c : CfgCond V) (hf : fs[i]? = some f) (hn : ns[i]? = some (some n))
    (hone : f.resolvers = [.config c none]) (hup : UpToDunder f.name.toList p) : n = String.ofList p := by
  obtain ⟨ns', fs2, hb', hi⟩ := buildModule_spec pyNone pyFalse config module fs
  rw [hb] at hb'
  cases hb'
  obtain ⟨o, g, hm, hn', _⟩ := hi i f hf
  rw [hn] at hn'
  cases hn'
  obtain ⟨cfg, hfil, _⟩ := filter_spec pyNone pyFalse config c
  unfold buildMember at hm
  simp only [hone, runResolvers, hfil, newName, sanitizeName_eq hup] at hm
  by_cases hr : c.resolves pyNone cfg = true
  · simp only [hr, if_true] at hm
    split at hm
    · simp only [Except.ok.injEq, Prod.mk.injEq, Option.some.injEq] at hm
      exact hm.1.symm
    · simp at hm
  · simp only [hr] at hm
    split at hm <;> simp at hm

/-! ### C45 -/

/-- **C45 (partial).**  Collecting the functions of a module finds every public function defined in the module or in one of
its submodules, keeps them in order and finds no private function; everything it finds was defined in a module whose name
contains the module's name.  Hence, if no member comes from a foreign module with such a name, it finds exactly the public
functions of the module and its submodules.  Missing: foreign modules whose name merely contains the module's
(`C45_violated_foreign`). -/
theorem C45_partial (module : Name) (members : List (PyFn V)) :
    (findFunctions module members).Sublist members ∧
    (∀ f ∈ members, Public f.name → IsSubmoduleOf f.module.toList module.toList → f ∈ findFunctions module members) ∧
    (∀ f ∈ findFunctions module members, Public f.name ∧ ∃ a b, f.module.toList = a ++ (module.toList ++ b)) ∧
    ((∀ f ∈ members, (∃ a b, f.module.toList = a ++ (module.toList ++ b)) → IsSubmoduleOf f.module.toList module.toList) →
      ∀ f ∈ members, (f ∈ findFunctions module members ↔ Public f.name ∧ IsSubmoduleOf f.module.toList module.toList)) := by
  have key : ∀ f, f ∈ findFunctions module members ↔ f ∈ members ∧ Public f.name ∧
      ∃ a b, f.module.toList = a ++ (module.toList ++ b) := by
    intro f
    unfold findFunctions
    rw [List.mem_filter, validFn_iff]
    unfold isSubmodule
    rw [isSubstring_iff]
  have hsub : ∀ f : PyFn V, IsSubmoduleOf f.module.toList module.toList →
      ∃ a b, f.module.toList = a ++ (module.toList ++ b) := by
    intro f h
    have := isSubmodule_of h
    unfold isSubmodule at this
    exact (isSubstring_iff _ _).1 this
  refine ⟨List.filter_sublist, ?_, ?_, ?_⟩
  · intro f hm hp hs; exact (key f).2 ⟨hm, hp, hsub f hs⟩
  · intro f hm; exact ((key f).1 hm).2
  · intro hno f hm
    rw [key]
    constructor
    · rintro ⟨_, hp, hs⟩; exact ⟨hp, hno f hm hs⟩
    · rintro ⟨hp, hs⟩; exact ⟨hm, hp, hsub f hs⟩

/-! ### Samples and violations -/
namespace ConfigSample

/-- `@config.when(region="us")` -/
def us : FnResolver String := .config (.whenEq [("region", "us")]) none
/-- `@config.when_not_in(line=["mens", "kids"])` -/
def notKids : FnResolver String := .config (.whenNotIn [("line", ["mens", "kids"])]) none

def fUs : PyFn String := { name := "spend__us", module := "marketing.eu", resolvers := [us, notKids] }
def fHidden : PyFn String := { name := "_help", module := "marketing.eu", resolvers := [] }
def fPlain : PyFn String := { name := "signups", module := "marketing", resolvers := [] }
def fTwice : PyFn String := { name := "spend__per__us", module := "marketing", resolvers := [us] }
def fStacked : PyFn String := { name := "spend__per__us", module := "marketing", resolvers := [us, notKids] }
def fPrivate : PyFn String :=
  { name := "spend", module := "marketing", resolvers := [.config (.whenEq [("region", "us")]) (some "_spend")] }
def fForeign : PyFn String := { name := "read_csv", module := "pandas", resolvers := [] }

abbrev build := buildModule "None" "False"
abbrev history := buildHistory "None" "False"

/-- The names of the nodes made by the last of several builds. -/
def lastNames (module : Name) (before : List (Dict Name String)) (config : Dict Name String) (fs : List (PyFn String)) :
    List (Option Name) :=
  match history module before fs with
  | .error _ => []
  | .ok fs' => match build config module fs' with
    | .error _ => []
    | .ok (ns, _) => ns

/-- Non-vacuity of `C38_selection` and `C38_names_partial`: built with another region first, then with `region=us` and no
`line`; the decorated function is there under its short name, the plain one under its own. -/
example : lastNames "marketing" [[("region", "uk")], [("region", "us"), ("line", "kids")]] [("region", "us")]
    [fUs, fHidden, fPlain] = [some "spend", none, some "signups"] := by decide +kernel

example : Public fUs.name ∧ IsSubmoduleOf fUs.module.toList "marketing".toList ∧
    Selected "None" [("region", "us")] fUs.resolvers ∧ ¬ Selected "None" [("region", "uk")] fUs.resolvers := by
  refine ⟨by unfold Public; decide, .inr ⟨"eu".toList, by decide⟩, ?_, ?_⟩
  · intro r hr
    simp only [fUs, List.mem_cons, List.not_mem_nil, or_false] at hr
    rcases hr with rfl | rfl
    · refine ⟨_, _, rfl, ?_⟩
      intro k v hm
      simp only [List.mem_singleton, Prod.mk.injEq] at hm
      obtain ⟨rfl, rfl⟩ := hm
      exact .inl rfl
    · refine ⟨_, _, rfl, ?_⟩
      intro k vs hm v hv
      simp only [List.mem_singleton, Prod.mk.injEq] at hm
      obtain ⟨rfl, rfl⟩ := hm
      rintro (h | ⟨_, rfl⟩)
      · have h' : Dict.get? [("region", "us")] "line" = (none : Option String) := by decide
        rw [h'] at h; cases h
      · revert hv; decide
  · intro h
    obtain ⟨c, t, he, hc⟩ := h us (by simp [fUs])
    simp only [us, FnResolver.config.injEq] at he
    obtain ⟨rfl, rfl⟩ := he
    rcases hc "region" "us" (by simp) with h | ⟨h, _⟩
    · revert h; decide
    · revert h; decide

example : UpToDunder fUs.name.toList "spend".toList ∧ ¬ HasDunder "spend".toList := by
  have h := sanitizeChars_spec fUs.name.toList
  have e : sanitizeChars fUs.name.toList = "spend".toList := by decide +kernel
  rw [e] at h
  refine ⟨h, rfind_none (by decide +kernel)⟩

/-- Non-vacuity of `C38_first_build`, with two double underscores in the name. -/
example : lastNames "marketing" [] [("region", "us")] [fTwice] = [some "spend__per"] := by decide +kernel

/-- **C38 is violated** by rebuilding: the first build renames the function object to `spend__per`, the second one cuts that
name again, so the same module with the same configuration gives a node called `spend__per` and then one called `spend`
(configuration.py:183). -/
theorem C38_violated_rebuild :
    lastNames "marketing" [] [("region", "us")] [fTwice] = [some "spend__per"] ∧
    lastNames "marketing" [[("region", "us")]] [("region", "us")] [fTwice] = [some "spend"] := by decide +kernel

/-- **C38 is violated** by two decorators on one function: each of them cuts the name at its last double underscore, so
`spend__per__us` becomes `spend` instead of `spend__per` in the very first build. -/
theorem C38_violated_stacked :
    lastNames "marketing" [] [("region", "us")] [fStacked] = [some "spend"] ∧
    UpToDunder fStacked.name.toList "spend__per".toList := by
  refine ⟨by decide +kernel, ?_⟩
  have h := sanitizeChars_spec fStacked.name.toList
  have e : sanitizeChars fStacked.name.toList = "spend__per".toList := by decide +kernel
  rwa [e] at h

/-- **C38 is violated** by an explicit name that starts with an underscore: the renamed function is no longer public, so the
second build of the module does not find it (graph_utils.py:20). -/
theorem C38_violated_private_name :
    lastNames "marketing" [] [("region", "us")] [fPrivate] = [some "_spend"] ∧
    lastNames "marketing" [[("region", "us")]] [("region", "us")] [fPrivate] = [none] := by decide +kernel

/-- Non-vacuity of `C45_partial`. -/
example : (findFunctions "marketing" [fUs, fHidden, fPlain, fForeign]).map (·.name) = ["spend__us", "signups"] := by
  decide +kernel

/-- **C45 is violated**: whether a function belongs to a module is decided by looking for the module's name anywhere in the
name of the function's module (graph_utils.py:7), so a function imported from `pandas` into a module called `a` becomes a
node. -/
theorem C45_violated_foreign :
    fForeign ∈ findFunctions "a" [fForeign] ∧ ¬ IsSubmoduleOf fForeign.module.toList "a".toList := by
  constructor
  · unfold findFunctions
    rw [List.mem_filter]
    exact ⟨by simp, by decide +kernel⟩
  · rintro (h | ⟨rest, h⟩)
    · revert h; decide
    · have := congrArg List.head? h
      revert this
      have e : ("a".toList ++ '.' :: rest).head? = some 'a' := by
        have : "a".toList = ['a'] := by decide
        rw [this]; rfl
      rw [e]; decide

end ConfigSample
end Verif
