import Verif.Model.Deprecation

/-! C92: deprecated functions and classes keep working, with a warning, until the announced version. -/
namespace Verif.Deprecation
variable {A B : Type}

/-! ### Specification -/

/-- `a` was released before `b`. -/
def Before (a b : Ver) : Prop :=
  a.major < b.major ∨ a.major = b.major ∧ (a.minor < b.minor ∨ a.minor = b.minor ∧ a.patch < b.patch)

/-- The effect of a notice on a use: `rest` is what happens without the notice. -/
inductive Effect (d : Notice) (subject : Name) (rest : List Msg × Except Err B) : List Msg × Except Err B → Prop
  /-- Not announced yet: nothing changes. -/
  | silent : ¬ Before d.warn d.current → ¬ Before d.fail d.current → Effect d subject rest rest
  /-- Announced: a warning that names the replacement, then nothing changes. -/
  | warned : Before d.warn d.current → ¬ Before d.fail d.current →
      Effect d subject rest (⟨false, subject, d.fail, d.useThis, d.guide⟩ :: rest.1, rest.2)
  /-- Gone: an exception that names the replacement, and nothing else happens. -/
  | gone : Before d.fail d.current → d.raises = true →
      Effect d subject rest ([], .error (.deprecation subject d.fail d.useThis d.guide))
  /-- Gone, and the one who wrote the notice chose only to report it. -/
  | reported : Before d.fail d.current → d.raises = false →
      Effect d subject rest (⟨true, subject, d.fail, d.useThis, d.guide⟩ :: rest.1, rest.2)

/-- What calling an instance of a class does: the notice of the class, if it has one, then its own method, or what its base does. -/
inductive Calls (orig : Name → A → Except Err B) (x : A) : List Decl → Name → List Msg × Except Err B → Prop
  | other {c : Decl} {rest : List Decl} {n : Name} {o : List Msg × Except Err B} :
      c.name ≠ n → Calls orig x rest n o → Calls orig x (c :: rest) n o
  | own {c : Decl} {rest : List Decl} : c.notice = none → c.defines = true →
      Calls orig x (c :: rest) c.name ([], orig c.name x)
  | inherited {c : Decl} {rest : List Decl} {b : Name} {o : List Msg × Except Err B} : c.notice = none → c.defines = false →
      c.base = some b → Calls orig x rest b o → Calls orig x (c :: rest) c.name o
  | ownNotice {c : Decl} {rest : List Decl} {d : Notice} {o : List Msg × Except Err B} : c.notice = some d → c.defines = true →
      Effect d c.name ([], orig c.name x) o → Calls orig x (c :: rest) c.name o
  | inheritedNotice {c : Decl} {rest : List Decl} {d : Notice} {b : Name} {o o' : List Msg × Except Err B} :
      c.notice = some d → c.defines = false → c.base = some b → Calls orig x rest b o → Effect d c.name o o' →
      Calls orig x (c :: rest) c.name o'

/-- Class statements (the newest first) of a program: names are used once, and each class has a `__call__` or a base that is
there. -/
inductive Program : List Decl → Prop
  | nil : Program []
  | cons {c : Decl} {rest : List Decl} : Program rest → c.name ∉ rest.map (·.name) →
      (c.defines = true ∨ ∃ b, c.base = some b ∧ b ∈ rest.map (·.name)) → Program (c :: rest)

/-! ### Functions -/

theorem gt_iff (a b : Ver) : a.gt b = true ↔ Before b a := by
  unfold Ver.gt Before
  by_cases h1 : a.major = b.major
  · by_cases h2 : a.minor = b.minor
    · simp only [h1, h2, ne_eq, not_true_eq_false, if_false, decide_eq_true_eq]
      grind
    · simp only [h1, h2, ne_eq, not_true_eq_false, not_false_eq_true, if_false, if_true, decide_eq_true_eq]
      grind
  · simp only [h1, ne_eq, not_false_eq_true, if_true, decide_eq_true_eq]
    grind

theorem gt_false (a b : Ver) : ¬ a.gt b = true ↔ ¬ Before b a := not_congr (gt_iff a b)

/-- The action, followed by the rest unless it raises. -/
theorem action_effect (d : Notice) (subject : Name) (rest : List Msg × Except Err B) :
    ∃ ms e, action d subject = (ms, e) ∧
      (∀ err, e = some err → Effect d subject rest (ms, .error err)) ∧ (e = none → Effect d subject rest (ms ++ rest.1, rest.2)) := by
  unfold action
  by_cases h1 : d.current.gt d.fail = true
  · rw [if_pos h1]
    cases hr : d.raises with
    | true =>
      refine ⟨_, _, rfl, ?_, fun h => by cases h⟩
      intro err h
      cases h
      exact .gone ((gt_iff _ _).1 h1) hr
    | false => exact ⟨_, _, rfl, (fun err h => by cases h), fun _ => .reported ((gt_iff _ _).1 h1) hr⟩
  · rw [if_neg h1]
    by_cases h2 : d.current.gt d.warn = true
    · rw [if_pos h2]
      exact ⟨_, _, rfl, (fun err h => by cases h), fun _ => .warned ((gt_iff _ _).1 h2) ((gt_false _ _).1 h1)⟩
    · rw [if_neg h2]
      exact ⟨_, _, rfl, (fun err h => by cases h), fun _ => .silent ((gt_false _ _).1 h2) ((gt_false _ _).1 h1)⟩

/-- C92: calling a deprecated function calls it with the same arguments and returns, or raises, the same, with one warning once the
version given for warnings has passed; after the version given for failures it raises and the function is not called.
Missing: the two versions themselves, see `C92_violated_starting`. -/
theorem C92_function_partial (d : Notice) (name : Name) (f : A → Except Err B) (x : A) :
    Effect d name ([], f x) (callFn d name f x) := by
  obtain ⟨ms, e, h1, h2, h3⟩ := action_effect d name (([], f x) : List Msg × Except Err B)
  unfold callFn
  rw [h1]
  cases e with
  | some err => exact h2 err rfl
  | none =>
    have := h3 rfl
    rw [List.append_nil] at this
    exact this

/-- C92: exactly one of the effects applies. -/
theorem C92_one_effect {d : Notice} {name : Name} {rest o o' : List Msg × Except Err B} (h : Effect d name rest o)
    (h' : Effect d name rest o') : o = o' := by
  cases h <;> cases h' <;> simp_all

/-- C92: a notice is accepted iff it has a replacement or a guide, failures start with a major release (from 1.0.0 on), and not
before the warnings. -/
theorem C92_declaration (d : Notice) :
    make d = .ok d ↔ (d.useThis ≠ none ∨ d.guide ≠ none) ∧ (d.fail.major = 0 ∨ d.fail.minor = 0 ∧ d.fail.patch = 0) ∧
      ¬ Before d.fail d.warn := by
  unfold make
  by_cases h1 : d.useThis = none ∧ d.guide = none
  · rw [if_pos h1]
    constructor
    · intro h; cases h
    · rintro ⟨h | h, _⟩
      · exact absurd h1.1 h
      · exact absurd h1.2 h
  · rw [if_neg h1]
    by_cases h2 : d.fail.major > 0 ∧ (d.fail.minor ≠ 0 ∨ d.fail.patch ≠ 0)
    · rw [if_pos h2]
      constructor
      · intro h; cases h
      · rintro ⟨_, h, _⟩
        omega
    · rw [if_neg h2]
      by_cases h3 : d.warn.gt d.fail = true
      · rw [if_pos h3]
        constructor
        · intro h; cases h
        · rintro ⟨_, _, h⟩
          exact absurd ((gt_iff _ _).1 h3) h
      · rw [if_neg h3]
        refine ⟨fun _ => ⟨?_, by omega, (gt_false _ _).1 h3⟩, fun _ => rfl⟩
        by_cases h : d.useThis = none
        · exact .inr (fun hg => h1 ⟨h, hg⟩)
        · exact .inl h

/-- C92: upgrading never brings back what is gone, and does not skip the warnings: what raises in one version raises in all later
ones, and an accepted notice whose warnings come first warns, and works, in the version announced for the failure. -/
theorem C92_upgrade {d : Notice} (hr : d.raises = true) (name : Name) (f : A → Except Err B) (x : A) :
    (∀ v v' e, Before v v' → callFn { d with current := v } name f x = ([], .error e) → (∀ y, f y ≠ .error e) →
      callFn { d with current := v' } name f x = ([], .error e)) ∧
    (Before d.warn d.fail →
      callFn { d with current := d.fail } name f x = ([⟨false, name, d.fail, d.useThis, d.guide⟩], f x)) := by
  constructor
  · intro v v' e hv h hf
    have h1 := C92_function_partial { d with current := v } name f x
    rw [h] at h1
    have hb : Before d.fail v ∧ e = .deprecation name d.fail d.useThis d.guide := by
      generalize ho : (([], Except.error e) : List Msg × Except Err B) = o at h1
      cases h1 with
      | silent _ _ =>
        injection ho with _ ho
        exact absurd ho.symm (hf x)
      | warned _ _ => cases ho
      | gone h2 _ =>
        injection ho with _ ho
        injection ho with ho
        exact ⟨h2, ho⟩
      | reported _ _ => cases ho
    obtain ⟨hb, rfl⟩ := hb
    have hb' : Before d.fail v' := by
      unfold Before at hb hv ⊢
      omega
    exact C92_one_effect (C92_function_partial { d with current := v' } name f x)
      (.gone (d := { d with current := v' }) hb' hr)
  · intro hw
    refine C92_one_effect (C92_function_partial { d with current := d.fail } name f x)
      (.warned (d := { d with current := d.fail }) hw ?_)
    show ¬ Before d.fail d.fail
    unfold Before
    omega

/-! ### Classes -/

/-- The entry that a class statement makes. -/
def entryOf (c : Decl) (w : World) : Option Impl :=
  if c.defines then some (.orig c.name) else
    match c.base with
    | none => none
    | some b => lookup Cls.call w b

theorem assign_none {n : Name} {f : Cls → Cls} : ∀ {w : World}, n ∉ w.map (·.1) → assign n f w = w
  | [], _ => rfl
  | (m, c) :: rest, h => by
    rw [List.map_cons, List.mem_cons] at h
    have h1 : m ≠ n := fun e => h (.inl e.symm)
    have ih := assign_none (n := n) (f := f) (w := rest) (fun e => h (.inr e))
    unfold assign at ih ⊢
    rw [List.map_cons, if_neg h1, ih]

theorem lookup_new (c : Decl) (w : World) :
    lookup Cls.call ((c.name, ⟨c.base, if c.defines then some (.orig c.name) else none, none⟩) :: w) c.name = entryOf c w := by
  rw [lookup, if_pos rfl]
  unfold entryOf
  cases c.defines with
  | true => rfl
  | false =>
    simp only [Bool.false_eq_true, if_false]
    cases c.base <;> rfl

theorem define_plain {c : Decl} {w : World} (h : c.notice = none) :
    define c w = (c.name, ⟨c.base, if c.defines then some (.orig c.name) else none, none⟩) :: w := by
  unfold define
  rw [h]

theorem define_notice {c : Decl} {w : World} {d : Notice} {i : Impl} (h : c.notice = some d) (hn : c.name ∉ w.map (·.1))
    (hi : entryOf c w = some i) : define c w = (c.name, ⟨c.base, some (.wrapper c.name d), some i⟩) :: w := by
  have hl : lookup Cls.call ((c.name, ⟨c.base, if c.defines then some (.orig c.name) else none, none⟩) :: w) c.name = some i := by
    rw [← hi]
    exact lookup_new c w
  unfold define
  rw [h]
  simp only [decorate, hl]
  have hrest := assign_none (f := fun c' => { c' with old := some i, call := some (Impl.wrapper c.name d) }) hn
  unfold assign at hrest ⊢
  rw [List.map_cons, if_pos rfl, hrest]

theorem lookup_ne {sel : Cls → Option Impl} {m n : Name} {c : Cls} {w : World} (h : m ≠ n) :
    lookup sel ((m, c) :: w) n = lookup sel w n := by
  rw [lookup, if_neg h]

/-- The implementation only refers to classes that are there. -/
def Impl.Inside (w : World) : Impl → Prop
  | .orig _ => True
  | .wrapper n _ => n ∈ w.map (·.1)

/-- The classes of a program. -/
structure Built (ds : List Decl) (w : World) : Prop where
  names : w.map (·.1) = ds.map (·.name)
  inside : ∀ n i, lookup Cls.call w n = some i ∨ lookup Cls.old w n = some i → i.Inside w
  call : ∀ n ∈ ds.map (·.name), ∃ i, lookup Cls.call w n = some i

theorem Impl.Inside.cons {w : World} {i : Impl} (h : i.Inside w) (p : Name × Cls) : i.Inside (p :: w) := by
  cases i with
  | orig m => trivial
  | wrapper n d => exact List.mem_cons_of_mem _ h

theorem define_built {c : Decl} {rest : List Decl} {w : World} (h : Built rest w) (hn : c.name ∉ rest.map (·.name))
    (hc : c.defines = true ∨ ∃ b, c.base = some b ∧ b ∈ rest.map (·.name)) :
    ∃ i, entryOf c w = some i ∧ i.Inside w ∧ Built (c :: rest) (define c w) ∧
      (∀ d, c.notice = some d → define c w = (c.name, ⟨c.base, some (.wrapper c.name d), some i⟩) :: w) ∧
      (c.notice = none → lookup Cls.call (define c w) c.name = some i) := by
  have hn' : c.name ∉ w.map (·.1) := by rw [h.names]; exact hn
  obtain ⟨i, hi, hin⟩ : ∃ i, entryOf c w = some i ∧ i.Inside w := by
    unfold entryOf
    rcases hc with hc | ⟨b, hb, hm⟩
    · rw [if_pos hc]
      exact ⟨_, rfl, trivial⟩
    · cases hd : c.defines with
      | true => exact ⟨_, rfl, trivial⟩
      | false =>
        obtain ⟨i, hi⟩ := h.call b hm
        simp only [hb, Bool.false_eq_true, if_false]
        exact ⟨i, hi, h.inside b i (.inl hi)⟩
  refine ⟨i, hi, hin, ?_, fun d hd => define_notice hd hn' hi, ?_⟩
  · cases hd : c.notice with
    | some d =>
      rw [define_notice hd hn' hi]
      refine ⟨by rw [List.map_cons, List.map_cons, h.names], ?_, ?_⟩
      · intro n j hj
        by_cases he : c.name = n
        · subst he
          simp only [lookup, if_true] at hj
          rcases hj with hj | hj <;> cases hj
          · exact List.mem_cons_self
          · exact hin.cons _
        · rw [lookup_ne he, lookup_ne he] at hj
          exact (h.inside n j hj).cons _
      · intro n hm
        by_cases he : c.name = n
        · subst he
          exact ⟨_, by simp only [lookup, if_true]; rfl⟩
        · rw [lookup_ne he]
          rw [List.map_cons, List.mem_cons] at hm
          exact h.call n (hm.resolve_left (fun e => he e.symm))
    | none =>
      rw [define_plain hd]
      refine ⟨by rw [List.map_cons, List.map_cons, h.names], ?_, ?_⟩
      · intro n j hj
        by_cases he : c.name = n
        · subst he
          have hold : ∀ j, lookup Cls.old ((c.name, ⟨c.base, if c.defines then some (.orig c.name) else none, none⟩) :: w)
              c.name = some j → j.Inside w := by
            intro j hj
            simp only [lookup, if_true] at hj
            cases hb : c.base with
            | none => rw [hb] at hj; cases hj
            | some b => rw [hb] at hj; exact h.inside b j (.inr hj)
          rcases hj with hj | hj
          · simp only [lookup, if_true] at hj
            cases hdf : c.defines with
            | true =>
              simp only [hdf, if_true] at hj
              cases hj
              trivial
            | false =>
              simp only [hdf, Bool.false_eq_true, if_false] at hj
              cases hb : c.base with
              | none => rw [hb] at hj; cases hj
              | some b => rw [hb] at hj; exact (h.inside b j (.inl hj)).cons _
          · exact (hold j hj).cons _
        · rw [lookup_ne he, lookup_ne he] at hj
          exact (h.inside n j hj).cons _
      · intro n hm
        by_cases he : c.name = n
        · subst he
          refine ⟨i, ?_⟩
          rw [← hi]
          exact lookup_new c w
        · rw [lookup_ne he]
          rw [List.map_cons, List.mem_cons] at hm
          exact h.call n (hm.resolve_left (fun e => he e.symm))
  · intro hd
    rw [define_plain hd, ← hi]
    exact lookup_new c w

theorem Program.built {ds : List Decl} (h : Program ds) : Built ds (build ds) := by
  induction h with
  | nil => exact ⟨rfl, (fun n i h => by rcases h with h | h <;> cases h), fun n h => by cases h⟩
  | cons _ h1 h2 ih =>
    obtain ⟨i, _, _, h3, _⟩ := define_built ih h1 h2
    exact h3

/-- A newer class does not change what older ones do. -/
theorem invoke_cons {orig : Name → A → Except Err B} {ds : List Decl} {w : World} (hw : Built ds w) {m : Name} {c : Cls}
    (hm : m ∉ w.map (·.1)) : ∀ (fuel : Nat) (i : Impl) (x : A), i.Inside w →
      invoke orig ((m, c) :: w) fuel i x = invoke orig w fuel i x
  | 0, _, _, _ => rfl
  | fuel + 1, .orig _, _, _ => rfl
  | fuel + 1, .wrapper n d, x, h => by
    have hne : m ≠ n := fun e => hm (e ▸ h)
    simp only [invoke, lookup_ne hne]
    cases ha : action d n with
    | mk ms e =>
      cases e with
      | some e => rfl
      | none =>
        simp only
        cases hl : lookup Cls.old w n with
        | none => rfl
        | some i =>
          simp only
          rw [invoke_cons hw hm fuel i x (hw.inside n i (.inr hl))]

theorem calls_spec (orig : Name → A → Except Err B) (x : A) {ds : List Decl} (h : Program ds) :
    ∀ n ∈ ds.map (·.name), ∀ i, lookup Cls.call (build ds) n = some i → ∀ fuel, ds.length < fuel →
      Calls orig x ds n (invoke orig (build ds) fuel i x) := by
  induction h with
  | nil => intro n hn; cases hn
  | @cons c rest hp h1 h2 ih =>
    have hb := hp.built
    have h1' : c.name ∉ (build rest).map (·.1) := by rw [hb.names]; exact h1
    obtain ⟨i0, e1, e2, e3, e4, e5⟩ := define_built hb h1 h2
    have hbuild : build (c :: rest) = define c (build rest) := rfl
    intro n hn i hi fuel hf
    rw [hbuild] at hi ⊢
    obtain ⟨cls, hdef⟩ : ∃ cls, define c (build rest) = (c.name, cls) :: build rest := by
      cases hd : c.notice with
      | none => exact ⟨_, define_plain hd⟩
      | some d => exact ⟨_, e4 d hd⟩
    have hf' : rest.length < fuel := by rw [List.length_cons] at hf; omega
    -- what the entry of the class does, before a notice
    have hentry : ∀ fuel, rest.length < fuel →
        (c.defines = true ∧ invoke orig ((c.name, cls) :: build rest) fuel i0 x = ([], orig c.name x)) ∨
        (c.defines = false ∧ ∃ b, c.base = some b ∧
          Calls orig x rest b (invoke orig ((c.name, cls) :: build rest) fuel i0 x)) := by
      intro fuel hf
      rw [invoke_cons hb h1' fuel i0 x e2]
      unfold entryOf at e1
      cases hdf : c.defines with
      | true =>
        left
        simp only [hdf, if_true] at e1
        cases e1
        refine ⟨rfl, ?_⟩
        obtain ⟨k, rfl⟩ : ∃ k, fuel = k + 1 := ⟨fuel - 1, by omega⟩
        rfl
      | false =>
        right
        simp only [hdf, Bool.false_eq_true, if_false] at e1
        cases hbs : c.base with
        | none => rw [hbs] at e1; cases e1
        | some b =>
          rw [hbs] at e1
          have hbm : b ∈ rest.map (·.name) := by
            rcases h2 with h2 | ⟨b', h2, h3⟩
            · rw [hdf] at h2; cases h2
            · rw [hbs] at h2; cases h2; exact h3
          exact ⟨rfl, b, rfl, ih b hbm i0 e1 fuel hf⟩
    by_cases he : c.name = n
    · subst he
      cases hd : c.notice with
      | none =>
        have := e5 hd
        rw [hi] at this
        cases this
        rw [hdef]
        rcases hentry fuel hf' with ⟨h3, h4⟩ | ⟨h3, b, h4, h5⟩
        · rw [h4]
          exact .own hd h3
        · exact .inherited hd h3 h4 h5
      | some d =>
        have hcls : define c (build rest) = (c.name, ⟨c.base, some (.wrapper c.name d), some i0⟩) :: build rest := e4 d hd
        rw [hcls] at hi
        simp only [lookup, if_true] at hi
        cases hi
        obtain ⟨k, rfl⟩ : ∃ k, fuel = k + 1 := ⟨fuel - 1, by omega⟩
        rw [List.length_cons] at hf
        have hent := hentry k (by omega)
        have hold : lookup Cls.old (define c (build rest)) c.name = some i0 := by
          rw [hcls]
          simp only [lookup, if_true]
        rw [← hdef] at hent
        obtain ⟨ms, e, g1, g2, g3⟩ := action_effect d c.name (invoke orig (define c (build rest)) k i0 x)
        have heff : Effect d c.name (invoke orig (define c (build rest)) k i0 x)
            (invoke orig (define c (build rest)) (k + 1) (.wrapper c.name d) x) := by
          simp only [invoke, g1, hold]
          cases e with
          | some err => exact g2 err rfl
          | none => exact g3 rfl
        rcases hent with ⟨h3, h4⟩ | ⟨h3, b, h4, h5⟩
        · rw [h4] at heff
          exact .ownNotice hd h3 heff
        · exact .inheritedNotice hd h3 h4 h5 heff
    · rw [hdef] at hi ⊢
      rw [lookup_ne he] at hi
      rw [invoke_cons hb h1' fuel i x (hb.inside n i (.inl hi))]
      rw [List.map_cons, List.mem_cons] at hn
      exact .other he (ih n (hn.resolve_left (fun e => he e.symm)) i hi fuel hf')

/-- C92: calling an instance of a class of a program, whichever classes have notices, does what the notice of its class says, and
then runs the method of its class, or what its base does, with the notice of the base. The recursion limit plays no role.
Missing: the two versions themselves, and a class with two notices, see `C92_violated_starting` and `C92_violated_twice`. -/
theorem C92_class_partial (orig : Name → A → Except Err B) (x : A) {ds : List Decl} (h : Program ds) {n : Name}
    (hn : n ∈ ds.map (·.name)) {fuel : Nat} (hf : ds.length < fuel) :
    Calls orig x ds n (callInstance orig (build ds) fuel n x) := by
  obtain ⟨i, hi⟩ := h.built.call n hn
  unfold callInstance
  rw [hi]
  exact calls_spec orig x h n hn i hi fuel hf

/-- C92: that determines what happens. -/
theorem C92_one_call {orig : Name → A → Except Err B} {x : A} {ds : List Decl} (h : Program ds) {n : Name}
    {o o' : List Msg × Except Err B} (h1 : Calls orig x ds n o) (h2 : Calls orig x ds n o') : o = o' := by
  induction h1 generalizing o' with
  | other hne _ ih =>
    cases h with
    | cons hp _ _ =>
      cases h2 with
      | other _ h2 => exact ih hp h2
      | own _ _ => exact absurd rfl hne
      | inherited _ _ _ _ => exact absurd rfl hne
      | ownNotice _ _ _ => exact absurd rfl hne
      | inheritedNotice _ _ _ _ _ => exact absurd rfl hne
  | own g1 g2 =>
    cases h2 with
    | other hne _ => exact absurd rfl hne
    | own _ _ => rfl
    | inherited _ g3 _ _ => rw [g2] at g3; cases g3
    | ownNotice g3 _ _ => rw [g1] at g3; cases g3
    | inheritedNotice g3 _ _ _ _ => rw [g1] at g3; cases g3
  | inherited g1 g2 g3 _ ih =>
    cases h with
    | cons hp _ _ =>
      cases h2 with
      | other hne _ => exact absurd rfl hne
      | own _ g4 => rw [g2] at g4; cases g4
      | inherited _ _ g4 g5 =>
        rw [g3] at g4
        cases g4
        exact ih hp g5
      | ownNotice g4 _ _ => rw [g1] at g4; cases g4
      | inheritedNotice g4 _ _ _ _ => rw [g1] at g4; cases g4
  | ownNotice g1 g2 g3 =>
    cases h2 with
    | other hne _ => exact absurd rfl hne
    | own g4 _ => rw [g1] at g4; cases g4
    | inherited g4 _ _ _ => rw [g1] at g4; cases g4
    | ownNotice g4 _ g5 =>
      rw [g1] at g4
      cases g4
      exact C92_one_effect g3 g5
    | inheritedNotice _ g4 _ _ _ => rw [g2] at g4; cases g4
  | inheritedNotice g1 g2 g3 _ g5 ih =>
    cases h with
    | cons hp _ _ =>
      cases h2 with
      | other hne _ => exact absurd rfl hne
      | own g6 _ => rw [g1] at g6; cases g6
      | inherited g6 _ _ _ => rw [g1] at g6; cases g6
      | ownNotice _ g6 _ => rw [g2] at g6; cases g6
      | inheritedNotice g6 _ g7 g8 g9 =>
        rw [g1] at g6
        cases g6
        rw [g3] at g7
        cases g7
        have := ih hp g8
        subst this
        exact C92_one_effect g5 g9

/-! ### What the library announces -/

/-- C92: `raw_execute`, `parametrized`, `parametrized_input` and `parameterized_inputs` warn and work in every version after 1.10.0
up to 2.0.0, and raise in later ones. Missing: `dynamic_transform` and `pipe`, see below. -/
theorem C92_announced_partial {installed : Ver} {n : Name} {d : Notice} (hm : (n, d) ∈ announced installed)
    (hn : n ≠ "dynamic_transform" ∧ n ≠ "pipe") (f : A → Except Err B) (x : A) :
    (Before ⟨1, 10, 0⟩ installed → ¬ Before ⟨2, 0, 0⟩ installed → ∃ m, callFn d n f x = ([m], f x) ∧ m.subject = n) ∧
    (Before ⟨2, 0, 0⟩ installed → ∃ since instead guide, callFn d n f x = ([], .error (.deprecation n since instead guide))) := by
  have hmain : ∀ d : Notice, d.current = installed → d.raises = true → d.fail = ⟨2, 0, 0⟩ →
      (Before ⟨1, 10, 0⟩ installed → Before d.warn installed) →
      (Before ⟨1, 10, 0⟩ installed → ¬ Before ⟨2, 0, 0⟩ installed → ∃ m, callFn d n f x = ([m], f x) ∧ m.subject = n) ∧
      (Before ⟨2, 0, 0⟩ installed →
        ∃ since instead guide, callFn d n f x = ([], .error (.deprecation n since instead guide))) := by
    intro d h1 h2 h3 h4
    have heff := C92_function_partial d n f x
    constructor
    · intro g1 g2
      refine ⟨_, C92_one_effect heff (.warned ?_ ?_), rfl⟩
      · rw [h1]; exact h4 g1
      · rw [h1, h3]; exact g2
    · intro g1
      refine ⟨_, _, _, C92_one_effect heff (.gone ?_ h2)⟩
      rw [h1, h3]
      exact g1
  simp only [announced, List.mem_cons, List.not_mem_nil, or_false, Prod.mk.injEq] at hm
  rcases hm with ⟨rfl, rfl⟩ | ⟨rfl, rfl⟩ | ⟨rfl, rfl⟩ | ⟨rfl, rfl⟩ | ⟨rfl, _⟩ | ⟨rfl, _⟩
  · refine hmain _ rfl rfl rfl ?_
    intro h
    unfold Before at h ⊢
    simp only at h ⊢
    omega
  · exact hmain _ rfl rfl rfl id
  · exact hmain _ rfl rfl rfl id
  · exact hmain _ rfl rfl rfl id
  · exact absurd rfl hn.1
  · exact absurd rfl hn.2

/-- C92 as stated does not hold: `dynamic_transform` warns in no version, although warnings are announced from 1.20.0 on. -/
theorem C92_violated_dynamic_transform (installed : Ver) (f : A → Except Err B) (x : A) :
    ∃ d, ("dynamic_transform", d) ∈ announced installed ∧ d.warn = ⟨1, 20, 0⟩ ∧ callFn d "dynamic_transform" f x = ([], f x) := by
  refine ⟨⟨⟨1, 20, 0⟩, ⟨2, 0, 0⟩, some "resolve", some "guide", ⟨1, 19, 0⟩, true⟩, ?_, rfl, ?_⟩
  · simp [announced]
  · rfl

/-- C92 as stated does not hold: `pipe` raises in no version, although it is announced to fail from 2.0.0 on. -/
theorem C92_violated_pipe (installed : Ver) (f : A → Except Err B) (x : A) :
    ∃ d m, ("pipe", d) ∈ announced installed ∧ d.fail = ⟨2, 0, 0⟩ ∧ callFn d "pipe" f x = ([m], f x) := by
  refine ⟨⟨⟨1, 20, 0⟩, ⟨2, 0, 0⟩, some "pipe_input", some "guide", ⟨1, 77, 0⟩, true⟩,
    ⟨false, "pipe", ⟨2, 0, 0⟩, some "pipe_input", some "guide"⟩, ?_, rfl, ?_⟩
  · simp [announced]
  · rfl

/-! ### Samples -/

namespace Sample

/-- A notice in the version 1.84.0. -/
def notice : Notice := ⟨⟨1, 10, 0⟩, ⟨2, 0, 0⟩, some "new", none, ⟨1, 84, 0⟩, true⟩

/-- To evaluate the samples. -/
local instance : DecidableEq (Except Err Nat)
  | .ok a, .ok b => if h : a = b then .isTrue (by rw [h]) else .isFalse (fun e => h (Except.ok.inj e))
  | .error a, .error b => if h : a = b then .isTrue (by rw [h]) else .isFalse (fun e => h (Except.error.inj e))
  | .ok _, .error _ => .isFalse (fun e => by cases e)
  | .error _, .ok _ => .isFalse (fun e => by cases e)

/-- A function. -/
def double (n : Nat) : Except Err Nat := if n = 0 then .error (.user "ZeroDivisionError") else .ok (n + n)

example : callFn notice "old" double 3 = ([⟨false, "old", ⟨2, 0, 0⟩, some "new", none⟩], .ok 6) := by decide
example : callFn { notice with current := ⟨1, 9, 7⟩ } "old" double 3 = ([], .ok 6) := by decide
example : callFn { notice with current := ⟨2, 0, 1⟩ } "old" double 3 =
    ([], .error (.deprecation "old" ⟨2, 0, 0⟩ (some "new") none)) := by decide
example : make notice = .ok notice := rfl
/-- Non-vacuity: what is gone in 2.0.1 is gone in 2.1.0. -/
example : callFn { notice with current := ⟨2, 1, 0⟩ } "old" double 3 =
    ([], .error (.deprecation "old" ⟨2, 0, 0⟩ (some "new") none)) :=
  (C92_upgrade (d := notice) rfl "old" double 3).1 ⟨2, 0, 1⟩ ⟨2, 1, 0⟩ _ (.inr ⟨rfl, .inl (by decide)⟩) (by decide) (by
    intro y
    unfold double
    split <;> simp)
/-- A release candidate counts as the release. -/
example : fromTuple [.num 2, .num 0, .num 0, .text "rc", .num 1] = .ok ⟨2, 0, 0⟩ := rfl

/-- Three classes: the oldest has the method, the next is deprecated, the newest too. -/
def classes : List Decl :=
  [⟨"child", some "parent", false, some { notice with useThis := some "other" }⟩, ⟨"parent", some "root", false, some notice⟩,
   ⟨"root", none, true, none⟩]

theorem classes_program : Program classes :=
  .cons (.cons (.cons .nil (by decide) (.inl rfl)) (by decide) (.inr ⟨"root", rfl, by decide⟩)) (by decide)
    (.inr ⟨"parent", rfl, by decide⟩)

/-- Non-vacuity: both notices, the one of the class first, and then the method. -/
example : Calls (fun _ => double) 3 classes "child" (callInstance (fun _ => double) (build classes) 4 "child" 3) :=
  C92_class_partial _ _ classes_program (by decide) (by decide)
example : callInstance (fun _ => double) (build classes) 4 "child" 3 =
    ([⟨false, "child", ⟨2, 0, 0⟩, some "other", none⟩, ⟨false, "parent", ⟨2, 0, 0⟩, some "new", none⟩], .ok 6) := by decide

/-- Non-vacuity: `parametrized` in the version 1.84.0 and in 2.0.1. -/
example : ∃ d, ("parametrized", d) ∈ announced ⟨1, 84, 0⟩ ∧ ∃ m, callFn d "parametrized" double 3 = ([m], .ok 6) ∧
    m.subject = "parametrized" :=
  ⟨_, List.mem_cons_of_mem _ List.mem_cons_self,
    (C92_announced_partial (installed := ⟨1, 84, 0⟩) (List.mem_cons_of_mem _ List.mem_cons_self) (by decide) double 3).1
      (.inr ⟨rfl, .inl (by decide)⟩) (by unfold Before; decide)⟩

/-- C92 as stated does not hold: in the version in which warnings are announced to start there is none, and in the one in which
failures are announced to start there is only a warning. -/
theorem C92_violated_starting :
    make notice = .ok notice ∧ callFn { notice with current := notice.warn } "old" double 3 = ([], .ok 6) ∧
    callFn { notice with current := notice.fail } "old" double 3 =
      ([⟨false, "old", ⟨2, 0, 0⟩, some "new", none⟩], .ok 6) := by
  refine ⟨rfl, ?_, ?_⟩ <;> decide

/-- C92 as stated does not hold for a class with two notices: with any recursion limit, calling an instance ends in that limit. -/
theorem C92_violated_twice (fuel : Nat) (x : Nat) :
    ∃ ms, callInstance (fun _ => double) (decorate notice "root" (build [⟨"root", none, true, some notice⟩])) fuel "root" x =
      (ms, .error .recursion) := by
  have h : ∀ fuel, ∃ ms, invoke (fun _ => double) (decorate notice "root" (build [⟨"root", none, true, some notice⟩])) fuel
      (.wrapper "root" notice) x = (ms, .error .recursion) := by
    intro fuel
    induction fuel with
    | zero => exact ⟨[], rfl⟩
    | succ k ih =>
      obtain ⟨ms, ih⟩ := ih
      have hold : lookup Cls.old (decorate notice "root" (build [⟨"root", none, true, some notice⟩])) "root" =
          some (.wrapper "root" notice) := by decide
      have hact : action notice "root" = ([⟨false, "root", ⟨2, 0, 0⟩, some "new", none⟩], none) := by decide
      refine ⟨[⟨false, "root", ⟨2, 0, 0⟩, some "new", none⟩] ++ ms, ?_⟩
      simp only [invoke, hact, hold, ih]
  exact h fuel

end Sample
end Verif.Deprecation
