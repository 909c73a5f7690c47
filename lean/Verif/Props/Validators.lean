import Verif.Spec.Validators
import Verif.Props.Decorators

/-!
Property C69: the arguments of `@check_output` mean what they say.
-/
namespace Verif
variable {T V : Type} {sub : String → String → Bool} {t : OutType}

/-! ### Which validator is chosen -/

/-- The class for an argument and a declared type. -/
def classFor (sub : String → String → Bool) (t : OutType) : Check → Option ValidatorClass
  | .range _ _ => match t with
    | .cls c => if sub c "Series" then some .rangeSeries else if sub c "Real" then some .rangePrimitive else none
    | .generic _ => none
  | .valuesIn _ => match t with
    | .cls c => if sub c "Series" then some .valuesSeries else if sub c "Real" ∨ sub c "str" then some .valuesPrimitive else none
    | .generic _ => none
  | .dataType _ => match t with
    | .cls c => if sub c "Series" then some .dataTypeSeries
      else if sub c "Real" ∨ c = "str" ∨ c = "bool" then some .dataTypePrimitive else none
    | .generic _ => none
  | .maxFractionNans _ => match t with
    | .cls c => if sub c "Series" then some .maxFractionNans else none
    | .generic _ => none
  | .allowNans _ => match t with
    | .cls c => if sub c "Series" then some .allowNaNsSeries else none
    | .generic _ => none
  | .maxStandardDev _ => match t with
    | .cls c => if sub c "Series" then some .maxStandardDev else none
    | .generic _ => none
  | .meanInRange _ _ => match t with
    | .cls c => if sub c "Series" then some .meanInRange else none
    | .generic _ => none
  | .allowNone _ => some .allowNone
  | .contains _ => if t = .cls "str" then some .strContains else none
  | .doesNotContain _ => if t = .cls "str" then some .strDoesNotContain else none
  | .unknown _ => none

theorem find_eq {c : Check} (hp : c.Proper) :
    (∀ k, findValidator sub t c.key availableValidators = .ok k ↔ classFor sub t c = some k) := by
  intro k
  cases c with
  | unknown key =>
    simp only [Check.Proper, List.mem_cons, List.not_mem_nil, or_false, not_or] at hp
    simp [Check.key, classFor, findValidator, availableValidators, ValidatorClass.arg, hp]
  | allowNone b => simp [Check.key, classFor, findValidator, availableValidators, ValidatorClass.arg, ValidatorClass.appliesTo]
  | contains l =>
    by_cases h : t = .cls "str" <;>
      simp [Check.key, classFor, findValidator, availableValidators, ValidatorClass.arg, ValidatorClass.appliesTo, h]
  | doesNotContain l =>
    by_cases h : t = .cls "str" <;>
      simp [Check.key, classFor, findValidator, availableValidators, ValidatorClass.arg, ValidatorClass.appliesTo, h]
  | range lo hi =>
    cases t with
    | generic s =>
      simp [Check.key, classFor, findValidator, availableValidators, ValidatorClass.arg, ValidatorClass.appliesTo, isSubclass]
    | cls c =>
      cases h1 : sub c "Series" <;> cases h2 : sub c "Real" <;>
        simp [Check.key, classFor, findValidator, availableValidators, ValidatorClass.arg, ValidatorClass.appliesTo, isSubclass, h1, h2]
  | valuesIn vs =>
    cases t with
    | generic s =>
      simp [Check.key, classFor, findValidator, availableValidators, ValidatorClass.arg, ValidatorClass.appliesTo, isSubclass]
    | cls c =>
      cases h1 : sub c "Series" <;> cases h2 : sub c "Real" <;> cases h3 : sub c "str" <;>
        simp [Check.key, classFor, findValidator, availableValidators, ValidatorClass.arg, ValidatorClass.appliesTo, isSubclass, orRaise,
          h1, h2, h3]
  | dataType d =>
    cases t with
    | generic s =>
      simp [Check.key, classFor, findValidator, availableValidators, ValidatorClass.arg, ValidatorClass.appliesTo, isSubclass]
    | cls c =>
      by_cases h3 : c = "str" ∨ c = "bool" <;> cases h1 : sub c "Series" <;> cases h2 : sub c "Real" <;>
        simp [Check.key, classFor, findValidator, availableValidators, ValidatorClass.arg, ValidatorClass.appliesTo, isSubclass, orRaise,
          h1, h2, h3]
  | maxFractionNans q =>
    cases t with
    | generic s =>
      simp [Check.key, classFor, findValidator, availableValidators, ValidatorClass.arg, ValidatorClass.appliesTo, isSubclass]
    | cls c =>
      cases h1 : sub c "Series" <;>
        simp [Check.key, classFor, findValidator, availableValidators, ValidatorClass.arg, ValidatorClass.appliesTo, isSubclass, h1]
  | allowNans b =>
    cases t with
    | generic s =>
      simp [Check.key, classFor, findValidator, availableValidators, ValidatorClass.arg, ValidatorClass.appliesTo, isSubclass]
    | cls c =>
      cases h1 : sub c "Series" <;>
        simp [Check.key, classFor, findValidator, availableValidators, ValidatorClass.arg, ValidatorClass.appliesTo, isSubclass, h1]
  | maxStandardDev m =>
    cases t with
    | generic s =>
      simp [Check.key, classFor, findValidator, availableValidators, ValidatorClass.arg, ValidatorClass.appliesTo, isSubclass]
    | cls c =>
      cases h1 : sub c "Series" <;>
        simp [Check.key, classFor, findValidator, availableValidators, ValidatorClass.arg, ValidatorClass.appliesTo, isSubclass, h1]
  | meanInRange lo hi =>
    cases t with
    | generic s =>
      simp [Check.key, classFor, findValidator, availableValidators, ValidatorClass.arg, ValidatorClass.appliesTo, isSubclass]
    | cls c =>
      cases h1 : sub c "Series" <;>
        simp [Check.key, classFor, findValidator, availableValidators, ValidatorClass.arg, ValidatorClass.appliesTo, isSubclass, h1]

/-- The level of an importance. -/
def IsLevel (importance : String) (l : VLevel) : Prop := (importance = "warn" ∧ l = .warn) ∨ (importance = "fail" ∧ l = .fail)

theorem construct_iff {c : Check} {importance : String} {k : ValidatorClass} (hk : classFor sub t c = some k) (l : VLevel) :
    constructValidator c importance = .ok l ↔ Usable sub t c ∧ IsLevel importance l := by
  have hl : (if importance = "warn" then (Except.ok .warn : Except UserErr VLevel)
      else if importance = "fail" then .ok .fail else .error "ValueError") = .ok l ↔ IsLevel importance l := by
    unfold IsLevel
    by_cases h1 : importance = "warn"
    · subst h1; simp [eq_comm]
    · by_cases h2 : importance = "fail"
      · subst h2; simp [eq_comm]
      · simp [h1, h2]
  cases c with
  | allowNans b =>
    cases b with
    | true => simp [constructValidator, Usable]
    | false =>
      simp only [constructValidator, hl, Usable]
      cases t with
      | generic s => simp [classFor] at hk
      | cls c => simp only [classFor] at hk; split at hk <;> simp_all
  | maxFractionNans q =>
    simp only [constructValidator, Usable]
    have : ∃ c, t = .cls c ∧ sub c "Series" = true := by
      cases t with
      | generic s => simp [classFor] at hk
      | cls c => simp only [classFor] at hk; split at hk <;> simp_all
    by_cases h : 0 ≤ q ∧ q ≤ 1
    · rw [if_pos h, hl]; simp [this, h]
    · rw [if_neg h]; simp [h]
  | unknown key => simp [classFor] at hk
  | allowNone b => simp only [constructValidator, hl, Usable, true_and]
  | contains l =>
    simp only [constructValidator, hl, Usable]
    simp only [classFor] at hk
    split at hk <;> simp_all
  | doesNotContain l =>
    simp only [constructValidator, hl, Usable]
    simp only [classFor] at hk
    split at hk <;> simp_all
  | range lo hi =>
    simp only [constructValidator, hl, Usable]
    cases t with
    | generic s => simp [classFor] at hk
    | cls c => simp only [classFor] at hk; split at hk <;> (try split at hk) <;> simp_all
  | valuesIn vs =>
    simp only [constructValidator, hl, Usable]
    cases t with
    | generic s => simp [classFor] at hk
    | cls c => simp only [classFor] at hk; split at hk <;> (try split at hk) <;> simp_all
  | dataType d =>
    simp only [constructValidator, hl, Usable]
    cases t with
    | generic s => simp [classFor] at hk
    | cls c => simp only [classFor] at hk; split at hk <;> (try split at hk) <;> simp_all
  | maxStandardDev m =>
    simp only [constructValidator, hl, Usable]
    cases t with
    | generic s => simp [classFor] at hk
    | cls c => simp only [classFor] at hk; split at hk <;> simp_all
  | meanInRange lo hi =>
    simp only [constructValidator, hl, Usable]
    cases t with
    | generic s => simp [classFor] at hk
    | cls c => simp only [classFor] at hk; split at hk <;> simp_all

theorem classFor_of_usable {c : Check} (h : Usable sub t c) : ∃ k, classFor sub t c = some k := by
  cases c <;> simp only [Usable] at h
  all_goals first
    | exact ⟨_, rfl⟩
    | (obtain ⟨c, rfl, h⟩ := h
       simp only [classFor]
       first
         | exact ⟨_, if_pos h⟩
         | (split
            · exact ⟨_, rfl⟩
            · refine ⟨_, if_pos ?_⟩; simp_all))
    | (obtain ⟨⟨c, rfl, h⟩, _⟩ := h
       exact ⟨_, if_pos h⟩)
    | exact ⟨_, if_pos h⟩

theorem resolve_ok {importance : String} : ∀ {checks : List Check} {vs : List DefaultValidator}, (∀ c ∈ checks, c.Proper) →
    (resolveValidators sub t importance availableValidators checks = .ok vs ↔
      vs.map (·.check) = checks ∧
      ∀ d ∈ vs, Usable sub t d.check ∧ IsLevel importance d.level ∧ classFor sub t d.check = some d.cls) := by
  intro checks
  induction checks with
  | nil =>
    intro vs _
    simp only [resolveValidators, Except.ok.injEq]
    constructor
    · rintro rfl; simp
    · rintro ⟨h, _⟩; simpa using h.symm
  | cons c cs ih =>
    intro vs hp
    have hpc := hp c List.mem_cons_self
    have ih := fun vs' => ih (vs := vs') (fun c hc => hp c (List.mem_cons_of_mem _ hc))
    simp only [resolveValidators]
    constructor
    · intro h
      cases hf : findValidator sub t c.key availableValidators with
      | error e => rw [hf] at h; cases h
      | ok k =>
        rw [hf] at h
        have hk := (find_eq hpc k).1 hf
        cases hc : constructValidator c importance with
        | error e => simp only [hc] at h; cases h
        | ok l =>
          simp only [hc] at h
          cases hr : resolveValidators sub t importance availableValidators cs with
          | error e => simp only [hr] at h; cases h
          | ok vs' =>
            simp only [hr, Except.ok.injEq] at h
            subst h
            obtain ⟨h1, h2⟩ := (ih vs').1 hr
            obtain ⟨hu, hl⟩ := (construct_iff hk l).1 hc
            refine ⟨by simp [h1], ?_⟩
            intro d hd
            rcases List.mem_cons.1 hd with rfl | hd
            · exact ⟨hu, hl, hk⟩
            · exact h2 d hd
    · rintro ⟨h1, h2⟩
      cases vs with
      | nil => simp at h1
      | cons d vs =>
        simp only [List.map_cons, List.cons.injEq] at h1
        obtain ⟨rfl, h1⟩ := h1
        obtain ⟨hu, hl, hk⟩ := h2 d List.mem_cons_self
        rw [(find_eq hpc d.cls).2 hk]
        simp only [(construct_iff hk d.level).2 ⟨hu, hl⟩,
          (ih vs).2 ⟨h1, fun e he => h2 e (List.mem_cons_of_mem _ he)⟩]

/-- **C69, what is accepted.**  `@check_output` with some arguments can be applied to a function iff every argument can be
used for its declared type and the importance is "warn" or "fail" (which is not looked at without arguments); there is one
validator per argument then, in order, with that importance. -/
theorem C69_accepted {importance : String} {checks : List Check} (hp : ∀ c ∈ checks, c.Proper) :
    ((∃ vs, resolveValidators sub t importance availableValidators checks = .ok vs) ↔
      (∀ c ∈ checks, Usable sub t c) ∧ (checks = [] ∨ importance = "warn" ∨ importance = "fail")) ∧
    ∀ vs, resolveValidators sub t importance availableValidators checks = .ok vs →
      vs.map (·.check) = checks ∧ ∀ d ∈ vs, (importance = "warn" ∧ d.level = .warn) ∨ (importance = "fail" ∧ d.level = .fail) := by
  refine ⟨⟨?_, ?_⟩, ?_⟩
  · rintro ⟨vs, h⟩
    obtain ⟨h1, h2⟩ := (resolve_ok hp).1 h
    subst h1
    refine ⟨fun c hc => ?_, ?_⟩
    · obtain ⟨d, hd, rfl⟩ := List.mem_map.1 hc
      exact (h2 d hd).1
    · cases vs with
      | nil => exact .inl rfl
      | cons d vs =>
        rcases (h2 d List.mem_cons_self).2.1 with ⟨h, _⟩ | ⟨h, _⟩
        · exact .inr (.inl h)
        · exact .inr (.inr h)
  · rintro ⟨hu, hi⟩
    have hl : checks = [] ∨ ∃ l, IsLevel importance l := by
      rcases hi with h | h | h
      · exact .inl h
      · exact .inr ⟨.warn, .inl ⟨h, rfl⟩⟩
      · exact .inr ⟨.fail, .inr ⟨h, rfl⟩⟩
    rcases hl with rfl | ⟨l, hl⟩
    · exact ⟨[], rfl⟩
    · have : ∀ cs : List Check, (∀ c ∈ cs, Usable sub t c) → ∃ vs : List DefaultValidator, vs.map (·.check) = cs ∧
          ∀ d ∈ vs, Usable sub t d.check ∧ IsLevel importance d.level ∧ classFor sub t d.check = some d.cls := by
        intro cs
        induction cs with
        | nil => intro _; exact ⟨[], rfl, by simp⟩
        | cons c cs ih =>
          intro h
          obtain ⟨vs, h1, h2⟩ := ih (fun c hc => h c (List.mem_cons_of_mem _ hc))
          obtain ⟨k, hk⟩ := classFor_of_usable (h c List.mem_cons_self)
          refine ⟨⟨k, c, l⟩ :: vs, by simp [h1], ?_⟩
          intro d hd
          rcases List.mem_cons.1 hd with rfl | hd
          · exact ⟨h c List.mem_cons_self, hl, hk⟩
          · exact h2 d hd
      obtain ⟨vs, h⟩ := this checks hu
      exact ⟨vs, (resolve_ok hp).2 h⟩
  · intro vs h
    obtain ⟨h1, h2⟩ := (resolve_ok hp).1 h
    exact ⟨h1, fun d hd => (h2 d hd).2.1⟩

/-! ### The verdicts -/

theorem isNumber_iff {x : PyScalar} {q : Rat} : IsNumber x q ↔ x.real? = some q := by
  constructor
  · rintro ⟨⟩ <;> rfl
  · intro h
    cases x with
    | int z => cases h; exact .int z
    | float q => cases h; exact .float _
    | nan => cases h
    | bool b => cases b <;> cases h <;> constructor
    | str s => cases h

theorem inRange_iff {lo hi : Rat} {x : PyScalar} {b : Bool} (h : inRange lo hi x = .ok b) :
    b = true ↔ ∃ q, IsNumber x q ∧ lo ≤ q ∧ q ≤ hi := by
  simp only [isNumber_iff]
  cases x with
  | nan => cases h; simp [PyScalar.real?]
  | str s => cases h
  | int z => cases h; simp [PyScalar.real?]
  | float q => cases h; simp [PyScalar.real?]
  | bool b => cases h; simp [PyScalar.real?]

theorem betweenAll_iff {lo hi : Rat} : ∀ {cells : List PyScalar} {bs : List Bool}, betweenAll lo hi cells = .ok bs →
    (countFalse bs = 0 ↔ ∀ x ∈ cells, ∃ q, IsNumber x q ∧ lo ≤ q ∧ q ≤ hi) := by
  intro cells
  induction cells with
  | nil => intro bs h; cases h; simp [countFalse]
  | cons x xs ih =>
    intro bs h
    simp only [betweenAll] at h
    cases hx : inRange lo hi x with
    | error e => rw [hx] at h; cases h
    | ok b =>
      simp only [hx] at h
      cases hxs : betweenAll lo hi xs with
      | error e => simp only [hxs] at h; cases h
      | ok bs' =>
        simp only [hxs, Except.ok.injEq] at h
        subst h
        have h1 := inRange_iff hx
        have h2 := ih hxs
        rw [List.forall_mem_cons, ← h1, ← h2]
        cases b <;> simp [countFalse]

theorem betweenAll_ok {lo hi : Rat} : ∀ {cells : List PyScalar}, (∀ s, .str s ∉ cells) → ∃ bs, betweenAll lo hi cells = .ok bs := by
  intro cells
  induction cells with
  | nil => intro _; exact ⟨[], rfl⟩
  | cons x xs ih =>
    intro h
    obtain ⟨bs, hbs⟩ := ih (fun s hm => h s (List.mem_cons_of_mem _ hm))
    simp only [betweenAll, hbs]
    cases x with
    | str s => exact absurd List.mem_cons_self (h s)
    | nan => exact ⟨_, rfl⟩
    | int z => exact ⟨_, rfl⟩
    | float q => exact ⟨_, rfl⟩
    | bool b => exact ⟨_, rfl⟩

theorem pyEq_iff {x y : PyScalar} : pyEq x y = true ↔ SameScalar x y := by
  unfold SameScalar
  simp only [isNumber_iff]
  cases x <;> cases y <;> simp [pyEq, PyScalar.real?, eq_comm]

theorem countFalse_map {A : Type} {p : A → Bool} {l : List A} : countFalse (l.map p) = 0 ↔ ∀ x ∈ l, p x = true := by
  induction l with
  | nil => simp [countFalse]
  | cons a l ih =>
    rw [List.forall_mem_cons, ← ih]
    cases h : p a <;> simp [countFalse, h]

theorem any_pyEq {vs : List PyScalar} {x : PyScalar} : vs.any (pyEq x) = true ↔ ∃ y ∈ vs, SameScalar x y := by
  simp [List.any_eq_true, pyEq_iff]

theorem seriesNumbers_iff : ∀ {cells : List PyScalar} {qs : List Rat}, seriesNumbers cells = .ok qs ↔ NumbersOf cells qs := by
  intro cells
  induction cells with
  | nil =>
    intro qs
    constructor
    · intro h; cases h; exact .nil
    · rintro ⟨⟩; rfl
  | cons x xs ih =>
    intro qs
    simp only [seriesNumbers]
    cases hs : seriesNumbers xs with
    | error e =>
      simp only [reduceCtorEq, false_iff]
      intro h
      cases h with
      | missing h => have := ih.2 h; rw [hs] at this; cases this
      | number _ h => have := ih.2 h; rw [hs] at this; cases this
    | ok ps =>
      have hn := ih.1 hs
      constructor
      · intro h
        cases x with
        | nan => cases h; exact .missing hn
        | str s => cases h
        | int z => cases h; exact .number (.int z) hn
        | float q => cases h; exact .number (.float q) hn
        | bool b => cases h; exact .number (isNumber_iff.2 rfl) hn
      · intro h
        cases h with
        | missing h => have := ih.2 h; rw [hs] at this; cases this; rfl
        | number hq h =>
          have := ih.2 h; rw [hs] at this; cases this
          cases hq <;> rfl

theorem NumbersOf.det {cells : List PyScalar} {qs ps : List Rat} (h : NumbersOf cells qs) (h' : NumbersOf cells ps) : qs = ps := by
  have := seriesNumbers_iff.2 h
  rw [seriesNumbers_iff.2 h'] at this
  exact (Except.ok.inj this).symm

theorem seriesNumbers_ok : ∀ {cells : List PyScalar}, (∀ s, .str s ∉ cells) → ∃ qs, seriesNumbers cells = .ok qs := by
  intro cells
  induction cells with
  | nil => intro _; exact ⟨[], rfl⟩
  | cons x xs ih =>
    intro h
    obtain ⟨qs, hqs⟩ := ih (fun s hm => h s (List.mem_cons_of_mem _ hm))
    simp only [seriesNumbers, hqs]
    cases x with
    | str s => exact absurd List.mem_cons_self (h s)
    | nan => exact ⟨_, rfl⟩
    | int z => exact ⟨_, rfl⟩
    | float q => exact ⟨_, rfl⟩
    | bool b => exact ⟨_, rfl⟩

theorem natCast_pos {n : Nat} (h : 0 < n) : (0 : Rat) < (n : Rat) := by
  have : ((0 : Nat) : Rat) < (n : Rat) := Rat.natCast_lt_natCast.2 h
  simpa using this

theorem le_div_iff' {a b c : Rat} (hc : 0 < c) : a ≤ b / c ↔ a * c ≤ b := by
  rw [← Rat.not_lt, ← Rat.not_lt, Rat.div_lt_iff hc]

theorem div_le_iff' {a b c : Rat} (hb : 0 < b) : a / b ≤ c ↔ a ≤ c * b := by
  rw [← Rat.not_lt, ← Rat.not_lt, Rat.lt_div_iff hb]

theorem fraction_iff {q : Rat} {cells : List PyScalar} (hq : 0 ≤ q) :
    fractionAtMost q cells = true ↔ (cells.countP (· = .nan) : Rat) ≤ q * (cells.length : Rat) := by
  unfold fractionAtMost
  simp only [decide_eq_true_eq, List.countP_eq_length_filter]
  by_cases h : cells.length > 0
  · rw [if_pos h, div_le_iff' (natCast_pos h)]
  · rw [if_neg h]
    have : cells = [] := by cases cells with | nil => rfl | cons => simp at h
    subst this
    simp [hq]

theorem noNans_iff {cells : List PyScalar} : fractionAtMost 0 cells = true ↔ .nan ∉ cells := by
  rw [fraction_iff Rat.le_refl, Rat.zero_mul]
  constructor
  · intro h hm
    have h1 : 0 < cells.countP (· = .nan) := List.countP_pos_iff.2 ⟨_, hm, by simp⟩
    exact absurd (natCast_pos h1) (Rat.not_lt.2 h)
  · intro h
    have h1 : cells.countP (· = .nan) = 0 := List.countP_eq_zero.2 (by
      intro x hx hc
      simp only [decide_eq_true_eq] at hc
      subst hc
      exact h hx)
    rw [h1]
    exact Rat.le_refl

/-- The sum of squared distances. -/
theorem sum_sq (a : Rat) : ∀ qs : List Rat, (qs.map (fun q => (q - a) * (q - a))).sum =
    (qs.map (fun q => q * q)).sum - 2 * a * qs.sum + (qs.length : Rat) * (a * a) := by
  intro qs
  induction qs with
  | nil => simp; grind
  | cons q qs ih =>
    simp only [List.map_cons, List.sum_cons, ih, List.length_cons]
    have : ((qs.length + 1 : Nat) : Rat) = (qs.length : Rat) + 1 := by simp
    rw [this]
    grind

theorem std_iff {qs : List Rat} {m : Rat} : stdAtMost qs m = true ↔ 2 ≤ qs.length ∧ 0 ≤ m ∧
    (qs.length : Rat) * (qs.map (fun q => q * q)).sum - qs.sum * qs.sum ≤ m * m * ((qs.length : Rat) * ((qs.length : Rat) - 1)) := by
  unfold stdAtMost seriesMean
  by_cases h0 : qs.length = 0
  · simp [h0]
  · simp only [h0, if_false]
    by_cases h1 : qs.length ≤ 1
    · simp only [h1, if_true]
      constructor
      · intro h; cases h
      · rintro ⟨h, _⟩; omega
    · simp only [h1, if_false, decide_eq_true_eq, sum_sq]
      have hn : (0 : Rat) < (qs.length : Rat) := natCast_pos (by omega)
      have hn1 : (0 : Rat) < (qs.length : Rat) - 1 := by
        have : ((1 : Nat) : Rat) < (qs.length : Rat) := Rat.natCast_lt_natCast.2 (by omega)
        have h1 : ((1 : Nat) : Rat) = 1 := by simp
        rw [h1] at this
        grind
      generalize (qs.length : Rat) = n at hn hn1 ⊢
      generalize qs.sum = s
      generalize (qs.map (fun q => q * q)).sum = sq
      have hs : s / n * n = s := Rat.div_mul_cancel (by intro h; rw [h] at hn; exact absurd hn (by decide))
      generalize s / n = a at hs ⊢
      subst hs
      rw [div_le_iff' hn1]
      have e : n * (sq - 2 * a * (a * n) + n * (a * a)) = n * sq - a * n * (a * n) := by grind
      have h2 : 2 ≤ qs.length := by omega
      constructor
      · rintro ⟨hm, h⟩
        refine ⟨h2, hm, ?_⟩
        rw [← e]
        have := Rat.mul_le_mul_of_nonneg_left h (Rat.le_of_lt hn)
        grind
      · rintro ⟨_, hm, h⟩
        refine ⟨hm, ?_⟩
        rw [← e] at h
        refine Rat.le_of_mul_le_mul_left (c := n) ?_ hn
        grind

theorem mean_iff {qs : List Rat} {lo hi : Rat} :
    (∃ a, seriesMean qs = some a ∧ lo ≤ a ∧ a ≤ hi) ↔ qs ≠ [] ∧ lo * (qs.length : Rat) ≤ qs.sum ∧ qs.sum ≤ hi * (qs.length : Rat) := by
  unfold seriesMean
  by_cases h : qs.length = 0
  · simp [h, List.length_eq_zero_iff.1 h]
  · have hn : (0 : Rat) < (qs.length : Rat) := natCast_pos (by omega)
    have hne : qs ≠ [] := by rintro rfl; exact h rfl
    simp [h, hne, le_div_iff' hn, div_le_iff' hn]

theorem occursIn_iff {p : List Char} : ∀ {l : List Char}, occursIn p l = true ↔ ∃ a b, l = a ++ p ++ b := by
  intro l
  induction l with
  | nil =>
    simp only [occursIn, List.isEmpty_iff]
    constructor
    · rintro rfl; exact ⟨[], [], rfl⟩
    · rintro ⟨a, b, h⟩
      simp only [List.nil_eq, List.append_eq_nil_iff] at h
      exact h.1.2
  | cons c cs ih =>
    simp only [occursIn, Bool.or_eq_true, ih, List.isPrefixOf_iff_prefix]
    constructor
    · rintro (⟨b, h⟩ | ⟨a, b, h⟩)
      · exact ⟨[], b, h.symm⟩
      · exact ⟨c :: a, b, by rw [h]; rfl⟩
    · rintro ⟨a, b, h⟩
      cases a with
      | nil => exact .inl ⟨b, h.symm⟩
      | cons d a =>
        simp only [List.cons_append, List.cons.injEq] at h
        exact .inr ⟨a, b, h.2⟩

theorem substring_iff {c s : String} : occursIn c.toList s.toList = true ↔ Occurs c s := by
  rw [occursIn_iff]
  constructor
  · rintro ⟨a, b, h⟩
    refine ⟨String.ofList a, String.ofList b, String.toList_inj.1 ?_⟩
    simp [h]
  · rintro ⟨a, b, rfl⟩
    exact ⟨a.toList, b.toList, by simp⟩

theorem asStrings_iff {l : List String ⊕ String} {c : String} : c ∈ asStrings l ↔ GivenString l c := by
  unfold GivenString
  cases l <;> simp [asStrings, eq_comm]

/-- The class of a value is `PyData.cls`. -/
theorem classOf_eq {v : PyData} {k : String} (h : ClassOf v k) : v.cls = k := by
  cases h <;> rfl

/-- Everything but a series has a class. -/
theorem classOf_cls {v : PyData} (h : ∀ dtype cells, v ≠ .series dtype cells) : ClassOf v v.cls := by
  cases v with
  | scalar x => cases x <;> constructor
  | series d c => exact absurd rfl (h d c)
  | none => exact .none
  | other c => exact .other c

/-- What is known of a validator that was resolved for a function. -/
theorem resolved_class {importance : String} {checks : List Check} {vs : List DefaultValidator} (hp : ∀ c ∈ checks, c.Proper)
    (hr : resolveValidators sub t importance availableValidators checks = .ok vs) {d : DefaultValidator} (hd : d ∈ vs) :
    Usable sub t d.check ∧ classFor sub t d.check = some d.cls :=
  let h := ((resolve_ok hp).1 hr).2 d hd
  ⟨h.1, h.2.2⟩

/-- **C69, verdicts.**  If a validator of `@check_output` gives a verdict on a value, it is positive iff the value is as the
argument promises. (Only a series is expected from a function declared to return one and vice versa.) -/
theorem C69_verdict {importance : String} {checks : List Check} {vs : List DefaultValidator} (hp : ∀ c ∈ checks, c.Proper)
    (hr : resolveValidators sub t importance availableValidators checks = .ok vs) {d : DefaultValidator} (hd : d ∈ vs)
    {v : PyData} (hv : ∀ dtype cells, v = .series dtype cells → ∃ c, t = .cls c ∧ sub c "Series" = true)
    {b : Bool} (h : d.validate sub v = .ok b) : b = true ↔ Promise sub d.check v := by
  obtain ⟨hu, hk⟩ := resolved_class hp hr hd
  obtain ⟨k, c, l⟩ := d
  simp only at hu hk
  cases c with
  | unknown key => simp [classFor] at hk
  | range lo hi =>
    cases t with
    | generic s => simp [classFor] at hk
    | cls c =>
      simp only [classFor] at hk
      split at hk
      · cases hk
        cases v <;> simp only [DefaultValidator.validate] at h <;> try cases h
        rename_i dtype cells
        cases hb : betweenAll lo hi cells with
        | error e => rw [hb] at h; cases h
        | ok bs =>
          simp only [hb, Except.ok.injEq] at h
          subst h
          simp only [decide_eq_true_eq, betweenAll_iff hb]
          constructor
          · exact .rangeSeries
          · rintro ⟨⟩; assumption
      · split at hk
        · cases hk
          cases v <;> simp only [DefaultValidator.validate] at h <;> try cases h
          rw [inRange_iff h]
          constructor
          · rintro ⟨q, h1, h2, h3⟩; exact .range h1 h2 h3
          · rintro ⟨⟩; exact ⟨_, by assumption, by assumption, by assumption⟩
        · cases hk
  | valuesIn ws =>
    cases t with
    | generic s => simp [classFor] at hk
    | cls c =>
      simp only [classFor] at hk
      split at hk
      · cases hk
        cases v <;> simp only [DefaultValidator.validate] at h <;> try cases h
        simp only [decide_eq_true_eq, countFalse_map, Bool.or_eq_true, any_pyEq]
        constructor
        · intro h; exact .valuesSeries (fun x hx => (h x hx).symm)
        · intro h
          cases h with
          | valuesSeries h => exact fun x hx => (h x hx).symm
      · split at hk
        · cases hk
          cases v <;> simp only [DefaultValidator.validate] at h <;> try cases h
          · rw [any_pyEq]
            constructor
            · rintro ⟨y, hy, hs⟩; exact .values hy hs
            · rintro ⟨⟩; exact ⟨_, by assumption, by assumption⟩
          · constructor
            · intro h; cases h
            · rintro ⟨⟩
        · cases hk
  | dataType e =>
    cases t with
    | generic s => simp [classFor] at hk
    | cls c =>
      simp only [classFor] at hk
      split at hk
      · cases hk
        cases v <;> simp only [DefaultValidator.validate] at h <;> try cases h
        rename_i dtype cells
        constructor
        · exact .dataTypeSeries
        · intro h
          cases h with
          | dataType hn _ => cases hn
          | dataTypeSeries h => exact h
      · rename_i hns
        split at hk
        · cases hk
          have hnv : ∀ dtype cells, v ≠ .series dtype cells := by
            intro dtype cells he
            obtain ⟨c', hc, hs⟩ := hv dtype cells he
            cases hc
            exact hns hs
          simp only [DefaultValidator.validate] at h
          cases h
          constructor
          · exact .dataType (classOf_cls hnv)
          · intro h
            cases h with
            | dataType hk h => rw [classOf_eq hk]; exact h
            | dataTypeSeries h => exact absurd rfl (hnv _ _)
        · cases hk
  | maxFractionNans q =>
    cases t with
    | generic s => simp [classFor] at hk
    | cls c =>
      simp only [classFor] at hk
      split at hk
      · cases hk
        cases v <;> simp only [DefaultValidator.validate] at h <;> try cases h
        rw [fraction_iff hu.2.1]
        constructor
        · exact .maxFractionNans
        · rintro ⟨⟩; assumption
      · cases hk
  | allowNans a =>
    cases t with
    | generic s => simp [classFor] at hk
    | cls c =>
      simp only [classFor] at hk
      split at hk
      · cases hk
        cases v <;> simp only [DefaultValidator.validate] at h <;> try cases h
        rw [noNans_iff]
        constructor
        · exact .allowNans
        · rintro ⟨⟩; assumption
      · cases hk
  | maxStandardDev m =>
    cases t with
    | generic s => simp [classFor] at hk
    | cls c =>
      simp only [classFor] at hk
      split at hk
      · cases hk
        cases v <;> simp only [DefaultValidator.validate] at h <;> try cases h
        rename_i dtype cells
        cases hb : seriesNumbers cells with
        | error e => rw [hb] at h; cases h
        | ok qs =>
          simp only [hb, Except.ok.injEq] at h
          subst h
          have hn := seriesNumbers_iff.1 hb
          rw [std_iff]
          constructor
          · rintro ⟨h1, h2, h3⟩; exact .maxStandardDev hn h1 h2 h3
          · intro h
            cases h with
            | maxStandardDev hn' h1 h2 h3 => rw [hn.det hn']; exact ⟨h1, h2, h3⟩
      · cases hk
  | meanInRange lo hi =>
    cases t with
    | generic s => simp [classFor] at hk
    | cls c =>
      simp only [classFor] at hk
      split at hk
      · cases hk
        cases v <;> simp only [DefaultValidator.validate] at h <;> try cases h
        rename_i dtype cells
        cases hb : seriesNumbers cells with
        | error e => rw [hb] at h; cases h
        | ok qs =>
          have hn := seriesNumbers_iff.1 hb
          have hm := mean_iff (qs := qs) (lo := lo) (hi := hi)
          have hb' : b = true ↔ ∃ a, seriesMean qs = some a ∧ lo ≤ a ∧ a ≤ hi := by
            simp only [hb] at h
            cases hs : seriesMean qs with
            | none => simp only [hs] at h; cases h; simp
            | some a => simp only [hs] at h; cases h; simp
          rw [hb', hm]
          constructor
          · rintro ⟨h1, h2, h3⟩; exact .meanInRange hn h1 h2 h3
          · intro h
            cases h with
            | meanInRange hn' h1 h2 h3 => rw [hn.det hn']; exact ⟨h1, h2, h3⟩
      · cases hk
  | allowNone a =>
    cases hk
    simp only [DefaultValidator.validate] at h
    cases h
    cases a with
    | true => simp only [if_true, true_iff]; exact .allowNone
    | false =>
      simp only [Bool.false_eq_true, if_false, Bool.not_eq_true', decide_eq_false_iff_not]
      constructor
      · exact .notNone
      · rintro ⟨⟩; assumption
  | contains l =>
    simp only [classFor] at hk
    split at hk
    · cases hk
      cases v with
      | scalar x =>
        cases x <;> simp only [DefaultValidator.validate] at h <;> try cases h
        simp only [List.all_eq_true, substring_iff, asStrings_iff]
        constructor
        · exact .contains
        · rintro ⟨⟩; assumption
      | series => cases h
      | none => cases h
      | other => cases h
    · cases hk
  | doesNotContain l =>
    simp only [classFor] at hk
    split at hk
    · cases hk
      cases v with
      | scalar x =>
        cases x <;> simp only [DefaultValidator.validate] at h <;> try cases h
        simp only [List.all_eq_true, Bool.not_eq_true', ← Bool.not_eq_true, substring_iff, asStrings_iff]
        constructor
        · exact .doesNotContain
        · rintro ⟨⟩; assumption
      | series => cases h
      | none => cases h
      | other => cases h
    · cases hk

/-- **C69, no exception.**  A validator gives a verdict on every value that is suited to the argument: it does not raise. -/
theorem C69_no_raise {importance : String} {checks : List Check} {vs : List DefaultValidator} (hp : ∀ c ∈ checks, c.Proper)
    (hr : resolveValidators sub t importance availableValidators checks = .ok vs) {d : DefaultValidator} (hd : d ∈ vs)
    {v : PyData} (hs : Suited sub t d.check v) : ∃ b, d.validate sub v = .ok b := by
  obtain ⟨hu, hk⟩ := resolved_class hp hr hd
  obtain ⟨k, c, l⟩ := d
  simp only at hu hk hs
  cases hs with
  | range hn hx =>
    cases t with
    | generic s => simp [classFor] at hk
    | cls c =>
      simp only [classFor, hn c rfl, Bool.false_eq_true, if_false] at hk
      split at hk
      · cases hk
        simp only [DefaultValidator.validate]
        rename_i x _
        cases x with
        | str s => exact absurd rfl (hx s)
        | nan => exact ⟨_, rfl⟩
        | int z => exact ⟨_, rfl⟩
        | float q => exact ⟨_, rfl⟩
        | bool b => exact ⟨_, rfl⟩
      · cases hk
  | rangeSeries hc h hx =>
    subst hc
    simp only [classFor, h, if_true] at hk
    cases hk
    rename_i lo hi _ _ _
    obtain ⟨bs, hb⟩ := betweenAll_ok (lo := lo) (hi := hi) hx
    simp only [DefaultValidator.validate, hb]
    exact ⟨_, rfl⟩
  | values hn =>
    cases t with
    | generic s => simp [classFor] at hk
    | cls c =>
      simp only [classFor, hn c rfl, Bool.false_eq_true, if_false] at hk
      split at hk
      · cases hk; exact ⟨_, rfl⟩
      · cases hk
  | valuesNone hn =>
    cases t with
    | generic s => simp [classFor] at hk
    | cls c =>
      simp only [classFor, hn c rfl, Bool.false_eq_true, if_false] at hk
      split at hk
      · cases hk; exact ⟨_, rfl⟩
      · cases hk
  | valuesSeries hc h =>
    subst hc
    simp only [classFor, h, if_true] at hk
    cases hk
    exact ⟨_, rfl⟩
  | dataType hn =>
    cases t with
    | generic s => simp [classFor] at hk
    | cls c =>
      simp only [classFor, hn c rfl, Bool.false_eq_true, if_false] at hk
      split at hk
      · cases hk; exact ⟨_, rfl⟩
      · cases hk
  | dataTypeSeries =>
    cases t with
    | generic s => simp [classFor] at hk
    | cls c =>
      simp only [classFor] at hk
      split at hk
      · cases hk; exact ⟨_, rfl⟩
      · split at hk
        · cases hk; exact ⟨_, rfl⟩
        · cases hk
  | maxFractionNans =>
    cases t with
    | generic s => simp [classFor] at hk
    | cls c =>
      simp only [classFor] at hk
      split at hk <;> cases hk
      exact ⟨_, rfl⟩
  | allowNans =>
    cases t with
    | generic s => simp [classFor] at hk
    | cls c =>
      simp only [classFor] at hk
      split at hk <;> cases hk
      exact ⟨_, rfl⟩
  | maxStandardDev hx =>
    cases t with
    | generic s => simp [classFor] at hk
    | cls c =>
      simp only [classFor] at hk
      split at hk <;> cases hk
      obtain ⟨qs, hq⟩ := seriesNumbers_ok hx
      simp only [DefaultValidator.validate, hq]
      exact ⟨_, rfl⟩
  | meanInRange hx =>
    cases t with
    | generic s => simp [classFor] at hk
    | cls c =>
      simp only [classFor] at hk
      split at hk <;> cases hk
      obtain ⟨qs, hq⟩ := seriesNumbers_ok hx
      simp only [DefaultValidator.validate, hq]
      cases seriesMean qs <;> exact ⟨_, rfl⟩
  | allowNone => cases hk; exact ⟨_, rfl⟩
  | contains =>
    simp only [classFor] at hk
    split at hk <;> cases hk
    exact ⟨_, rfl⟩
  | doesNotContain =>
    simp only [classFor] at hk
    split at hk <;> cases hk
    exact ⟨_, rfl⟩

/-! ### The decorated function -/

theorem validator_suffix (u w : String) (k : Nat) : u ++ "_validator" ≠ w ++ "_" ++ toString (k + 1) := by
  intro h
  have h := congrArg (fun s => s.toList.getLast?) h
  simp only [String.toList_append] at h
  rw [List.getLast?_append] at h
  have hd : (toString (k + 1)).toList = Nat.toDigits 10 (k + 1) := Nat.toList_repr
  rw [hd, List.getLast?_append] at h
  have hr : "_validator".toList.getLast? = some 'r' := by decide
  rw [hr] at h
  cases hl : (Nat.toDigits 10 (k + 1)).getLast? with
  | none =>
    have := List.getLast?_eq_none_iff.1 hl
    have h1 : 0 < (Nat.toDigits 10 (k + 1)).length := Nat.length_toDigits_pos
    rw [this] at h1
    exact absurd h1 (by simp)
  | some c =>
    rw [hl] at h
    simp only [Option.some_or, Option.some.injEq] at h
    subst h
    have := Nat.isDigit_of_mem_toDigits (b := 10) (by omega) (by omega) (List.mem_of_getLast? hl)
    exact absurd this (by decide)

theorem default_names_clear (view : V → PyData) (vs : List DefaultValidator) : ClearNames (vs.map (·.toValidator sub view)) where
  numbers u hu w _ k := by
    obtain ⟨d, _, rfl⟩ := List.mem_map.1 hu
    exact validator_suffix d.cls.arg _ k
  raw v hv := by
    obtain ⟨d, _, rfl⟩ := List.mem_map.1 hv
    intro h
    have := congrArg String.length h
    simp only [DefaultValidator.toValidator, String.length_append] at this
    have h1 : "_validator".length = 10 := by decide
    have h2 : "raw".length = 3 := by decide
    omega

section
variable {g : Graph T V} {inputs overrides : Dict Name V} {ops : PyOps V} {resultT : T} {out : T → OutType} {view : V → PyData}
  {importance : String} {checks : List Check} {n : Node T V} {nodes : List (Node T V)}

theorem checkOutputWith_ok (hb : checkOutputWith ops resultT sub out view importance none checks n = .ok nodes) :
    ∃ vs, resolveValidators sub (out n.typ) importance availableValidators checks = .ok vs ∧
      nodes = checkOutput ops resultT (vs.map (·.toValidator sub view)) n := by
  unfold checkOutputWith at hb
  simp only [Option.getD_none] at hb
  cases hr : resolveValidators sub (out n.typ) importance availableValidators checks with
  | error e => rw [hr] at hb; cases hb
  | ok vs => simp only [hr, Except.ok.injEq] at hb; exact ⟨vs, rfl, hb.symm⟩

/-- **C69, importance "fail".**  In a graph with the nodes of `@check_output(importance="fail", ...)`: a value of the function
is a value of the undecorated function that is as every argument promises; a value of the undecorated function that is (and is
suited to the arguments) is the value of the function; if it is not, the function raises `DataValidationError`. -/
theorem C69_fail (hp : ∀ c ∈ checks, c.Proper)
    (hb : checkOutputWith ops resultT sub out view "fail" none checks n = .ok nodes)
    (hl : ops.Lawful) (hk : n.kind ≠ .external) (hdef : ∀ m ∈ nodes, Defines g m)
    (hov : ∀ m ∈ nodes, overrides.get? m.name = none) (v : V)
    (hv : ∀ dtype cells, view v = .series dtype cells → ∃ c, out n.typ = .cls c ∧ sub c "Series" = true) :
    (Den g inputs overrides n.name v → FnValue g inputs overrides n v ∧ ∀ c ∈ checks, Promise sub c (view v)) ∧
    (FnValue g inputs overrides n v → (∀ c ∈ checks, Suited sub (out n.typ) c (view v)) →
      (∀ c ∈ checks, Promise sub c (view v)) → Den g inputs overrides n.name v) ∧
    (FnValue g inputs overrides n v → (∀ c ∈ checks, Suited sub (out n.typ) c (view v)) →
      (∃ c ∈ checks, ¬ Promise sub c (view v)) →
      ∃ m, g.get? n.name = some m ∧ (∃ kw, RightArgs g inputs overrides m kw) ∧
        ∀ kw, RightArgs g inputs overrides m kw → m.fn kw = .error "DataValidationError") := by
  obtain ⟨vs, hr, rfl⟩ := checkOutputWith_ok hb
  obtain ⟨hchecks, hlevel⟩ := (C69_accepted hp).2 vs hr
  obtain ⟨h1, h2, h3⟩ := C37_partial (inputs := inputs) hl hk hdef (default_names_clear view vs) hov v
  have hmem : ∀ d ∈ vs, d.check ∈ checks := fun d hd => by rw [← hchecks]; exact List.mem_map.2 ⟨d, hd, rfl⟩
  have hfail : ∀ d ∈ vs, d.level = .fail := by
    intro d hd
    rcases hlevel d hd with ⟨h, _⟩ | ⟨_, h⟩
    · exact absurd h (by decide)
    · exact h
  have hok : (∀ c ∈ checks, Suited sub (out n.typ) c (view v)) →
      ∀ d ∈ vs.map (·.toValidator sub view), ∃ b, d.validate v = .ok b := by
    intro hs d hd
    obtain ⟨e, he, rfl⟩ := List.mem_map.1 hd
    exact C69_no_raise hp hr he (hs _ (hmem e he))
  refine ⟨?_, ?_, ?_⟩
  · intro h
    obtain ⟨hf, hall⟩ := h1 h
    refine ⟨hf, ?_⟩
    intro c hc
    rw [← hchecks] at hc
    obtain ⟨d, hd, rfl⟩ := List.mem_map.1 hc
    exact (C69_verdict hp hr hd hv (hall _ (List.mem_map.2 ⟨d, hd, rfl⟩) (hfail d hd))).1 rfl
  · intro hf hs hall
    refine h2 hf ?_ (hok hs)
    intro d hd _
    obtain ⟨b, hbv⟩ := hok hs d hd
    obtain ⟨e, he, rfl⟩ := List.mem_map.1 hd
    rw [hbv, (C69_verdict hp hr he hv hbv).2 (hall _ (hmem e he))]
  · rintro hf hs ⟨c, hc, hn⟩
    rw [← hchecks] at hc
    obtain ⟨d, hd, rfl⟩ := List.mem_map.1 hc
    have hdm : d.toValidator sub view ∈ vs.map (·.toValidator sub view) := List.mem_map.2 ⟨d, hd, rfl⟩
    obtain ⟨b, hbv⟩ := hok hs _ hdm
    refine h3 hf ⟨_, hdm, hfail d hd, ?_⟩ (hok hs)
    rw [hbv]
    cases b with
    | false => rfl
    | true => exact absurd ((C69_verdict hp hr hd hv hbv).1 rfl) hn

/-- **C69, importance "warn" (the default; partial).**  The value of the function is that of the undecorated function, whatever
the verdicts, provided that the value is suited to the arguments. Missing: a value that is not suited (`None`, say) makes the
validator raise and fails the run (`C69_violated_warn`). -/
theorem C69_warn_partial (hp : ∀ c ∈ checks, c.Proper)
    (hb : checkOutputWith ops resultT sub out view "warn" none checks n = .ok nodes)
    (hl : ops.Lawful) (hk : n.kind ≠ .external) (hdef : ∀ m ∈ nodes, Defines g m)
    (hov : ∀ m ∈ nodes, overrides.get? m.name = none) (v : V) :
    (Den g inputs overrides n.name v → FnValue g inputs overrides n v) ∧
    (FnValue g inputs overrides n v → (∀ c ∈ checks, Suited sub (out n.typ) c (view v)) → Den g inputs overrides n.name v) := by
  obtain ⟨vs, hr, rfl⟩ := checkOutputWith_ok hb
  obtain ⟨hchecks, hlevel⟩ := (C69_accepted hp).2 vs hr
  obtain ⟨h1, h2, _⟩ := C37_partial (inputs := inputs) hl hk hdef (default_names_clear view vs) hov v
  have hmem : ∀ d ∈ vs, d.check ∈ checks := fun d hd => by rw [← hchecks]; exact List.mem_map.2 ⟨d, hd, rfl⟩
  refine ⟨fun h => (h1 h).1, ?_⟩
  intro hf hs
  refine h2 hf ?_ ?_
  · intro d hd hlev
    obtain ⟨e, he, rfl⟩ := List.mem_map.1 hd
    rcases hlevel e he with ⟨_, h⟩ | ⟨h, _⟩
    · exact absurd (h.symm.trans hlev) (by decide)
    · exact absurd h (by decide)
  · intro d hd
    obtain ⟨e, he, rfl⟩ := List.mem_map.1 hd
    exact C69_no_raise hp hr he (hs _ (hmem e he))

end

namespace ValidatorSample
open DecorSample

/-- Some classes. -/
def classes : String → String → Bool
  | "int", "Real" => true
  | "bool", "Real" => true
  | "bool", "int" => true
  | "float", "Real" => true
  | a, b => a = b

/-- Values: a list of numbers is a series, the empty dictionary `None`. -/
def view : DV → PyData
  | .int i => .scalar (.int i)
  | .list l => .series "int64" (l.map (fun x => match x with | .int i => .int i | _ => .nan))
  | .dict [] => .none
  | _ => .other "dict"

/-- `@check_output(range=(0, 10), values_in=[1, 5], importance="fail")` on `def f(x) -> int: return x`. -/
def checks : List Check := [.range 0 10, .valuesIn [.int 1, .float 5]]

/-- The nodes. -/
def nodes : List (Node Unit DV) :=
  match checkOutputWith ops () classes (fun _ => .cls "int") view "fail" none checks idFn with
  | .ok ns => ns
  | .error _ => []

theorem nodes_eq : checkOutputWith ops () classes (fun _ => .cls "int") view "fail" none checks idFn = .ok nodes := rfl

example : nodes.map (·.name) = ["f_range_validator", "f_values_in_validator", "f", "f_raw"] := by decide +kernel

theorem proper : ∀ c ∈ checks, c.Proper := by simp [checks, Check.Proper]

theorem nodes_fresh : ∀ n ∈ nodes, Fresh n := by
  intro n hn
  have : nodes = [nodes[0], nodes[1], nodes[2], nodes[3]] := rfl
  rw [this] at hn
  simp only [List.mem_cons, List.not_mem_nil, or_false] at hn
  rcases hn with rfl | rfl | rfl | rfl <;> exact ⟨by decide +kernel, rfl, rfl, by decide +kernel⟩

theorem nodes_define : ∀ m ∈ nodes, Defines (build nodes) m :=
  fun _ hm => build_defines nodes_fresh (build_eq (by decide +kernel)) hm (by simp [Dict.keys])

theorem value (i : Int) : FnValue (build nodes) [("x", .int i)] [] idFn (.int i) :=
  ⟨[("x", .int i)], (rightArgs_single (n := idFn) (t := ()) rfl _).2 ⟨.int i, x_den (by decide +kernel) i, rfl⟩, rfl⟩

theorem suited (i : Int) : ∀ c ∈ checks, Suited classes (.cls "int") c (view (.int i)) := by
  intro c hc
  simp only [checks, List.mem_cons, List.not_mem_nil, or_false] at hc
  have hn : ∀ c, OutType.cls "int" = .cls c → classes c "Series" = false := by
    intro c h; cases h; decide
  rcases hc with rfl | rfl
  · exact .range hn (by nofun)
  · exact .values hn

/-- 5 is in the range and one of the values. -/
example : Den (build nodes) [("x", .int 5)] [] "f" (.int 5) := by
  refine (C69_fail (sub := classes) proper nodes_eq lawful (by decide) nodes_define (by simp [Dict.get?]) _ (by simp [view])).2.1
    (value 5) (suited 5) ?_
  intro c hc
  simp only [checks, List.mem_cons, List.not_mem_nil, or_false] at hc
  rcases hc with rfl | rfl
  · exact .range (.int 5) (by decide) (by decide)
  · exact .values (y := .float 5) (by simp) (.inl ⟨5, .int 5, .float 5⟩)

/-- 7 is not one of the values: no value of the function is 7. -/
example : ¬ Den (build nodes) [("x", .int 7)] [] "f" (.int 7) := by
  intro h
  have := ((C69_fail (sub := classes) proper nodes_eq lawful (by decide) nodes_define (by simp [Dict.get?]) _ (by simp [view])).1 h).2
    (.valuesIn [.int 1, .float 5]) (by simp [checks])
  cases this with
  | values hy hs =>
    simp only [List.mem_cons, List.not_mem_nil, or_false] at hy
    rcases hs with ⟨q, h1, h2⟩ | ⟨s, h1, _⟩
    · rcases hy with rfl | rfl <;> cases h1 <;> revert h2 <;> intro h2 <;> have h3 := isNumber_iff.1 h2 <;>
        revert h3 <;> decide
    · cases h1

example : run nodes [("x", .int 5)] "f" = .inl (some 5) ∧
    run nodes [("x", .int 7)] "f" = .inr (some (.raised "f" "DataValidationError")) := by decide +kernel

/-- The validators of a function that returns a series. -/
def seriesChecks : List Check :=
  [.range 0 10, .maxFractionNans (1 / 2), .maxStandardDev 2, .meanInRange 1 3, .dataType "int64", .allowNone false]

example : ∃ vs, resolveValidators classes (.cls "Series") "fail" availableValidators seriesChecks = .ok vs :=
  (C69_accepted (by simp [seriesChecks, Check.Proper])).1.2 ⟨by
    intro c hc
    simp only [seriesChecks, List.mem_cons, List.not_mem_nil, or_false] at hc
    have h : ∃ c, OutType.cls "Series" = .cls c ∧ classes c "Series" = true := ⟨_, rfl, by decide⟩
    rcases hc with rfl | rfl | rfl | rfl | rfl | rfl
    · exact ⟨_, rfl, .inl (by decide)⟩
    · exact ⟨h, by decide +kernel, by decide +kernel⟩
    · exact h
    · exact h
    · exact ⟨_, rfl, .inl (by decide)⟩
    · trivial, .inr (.inr rfl)⟩

/-- The verdicts on a series, in order. -/
def verdicts (v : PyData) : Option (List (Option Bool)) :=
  match resolveValidators classes (.cls "Series") "fail" availableValidators seriesChecks with
  | .error _ => none
  | .ok vs => some (vs.map (fun d => match d.validate classes v with | .ok b => some b | .error _ => none))

example : verdicts (.series "int64" [.int 1, .int 2, .int 4]) = some [some true, some true, some true, some true, some true, some true] := by
  decide +kernel

-- a missing entry is out of range, a single number has no standard deviation, and strings raise
example : verdicts (.series "float64" [.float 2, .nan]) = some [some false, some true, some false, some true, some false, some true] ∧
    verdicts (.series "object" [.str "a"]) = some [none, some true, none, none, some false, some true] ∧
    verdicts .none = some [none, none, none, none, none, some false] := by decide +kernel

example : Promise classes (.contains (.inr "bc")) (.scalar (.str "abcd")) ∧ Promise classes (.doesNotContain (.inl ["x", "y"])) (.scalar (.str "abcd")) := by
  refine ⟨.contains ?_, .doesNotContain ?_⟩
  · rintro c (h | ⟨cs, h, _⟩)
    · cases h; exact ⟨"a", "d", by decide⟩
    · cases h
  · intro c hc
    rw [← asStrings_iff] at hc
    simp only [asStrings, List.mem_cons, List.not_mem_nil, or_false] at hc
    rw [← substring_iff]
    rcases hc with rfl | rfl <;> decide

/-- **C69 violated, documentation.**  The documented example of `@check_output` (`data_type=np.int64, data_in_range=(0, 100)`,
validation.py:160-166) is refused, whatever the function is declared to return. -/
theorem C69_violated_docs {sub : String → String → Bool} {t : OutType} {importance : String} :
    ¬ ∃ vs, resolveValidators sub t importance availableValidators [.dataType "int64", .unknown "data_in_range"] = .ok vs := by
  intro h
  have := ((C69_accepted (by simp [Check.Proper])).1.1 h).1 (.unknown "data_in_range") (by simp)
  exact this

/-- `def f(x) -> int: return None`. -/
def noneFn : Node Unit DV := fnode "f" [("x", .required)] (fun _ => .ok (.dict []))

/-- `@check_output(range=(0, 10))`, with importance "warn", on it. -/
def warnNodes : List (Node Unit DV) :=
  match checkOutputWith ops () classes (fun _ => .cls "int") view "warn" none [.range 0 10] noneFn with
  | .ok ns => ns
  | .error _ => []

/-- **C69 violated, warnings.**  With importance "warn" a bad value is to be passed on with a warning; but if the function
returns `None`, the comparison raises and the run fails. -/
theorem C69_violated_warn :
    checkOutputWith ops () classes (fun _ => .cls "int") view "warn" none [.range 0 10] noneFn = .ok warnNodes ∧
    FnValue (build warnNodes) [("x", .int 1)] [] noneFn (.dict []) ∧
    run warnNodes [("x", .int 1)] "f" = .inr (some (.raised "f_range_validator" "TypeError")) := by
  refine ⟨rfl, ⟨[("x", .int 1)], (rightArgs_single (n := noneFn) (t := ()) rfl _).2 ⟨.int 1, x_den (by decide +kernel) 1, rfl⟩, rfl⟩,
    by decide +kernel⟩

/-- With importance "warn", 20 is passed on. -/
def warnIdNodes : List (Node Unit DV) :=
  match checkOutputWith ops () classes (fun _ => .cls "int") view "warn" none [.range 0 10] idFn with
  | .ok ns => ns
  | .error _ => []

example : Den (build warnIdNodes) [("x", .int 20)] [] "f" (.int 20) := by
  refine (C69_warn_partial (sub := classes) (out := fun _ => .cls "int") (view := view) (checks := [.range 0 10]) (n := idFn)
    (by simp [Check.Proper]) (nodes := warnIdNodes) rfl lawful (by decide) ?_ (by simp [Dict.get?]) _).2 ?_ ?_
  · intro m hm
    refine build_defines ?_ (build_eq (by decide +kernel)) hm (by simp [Dict.keys])
    intro n hn
    have : warnIdNodes = [warnIdNodes[0], warnIdNodes[1], warnIdNodes[2]] := rfl
    rw [this] at hn
    simp only [List.mem_cons, List.not_mem_nil, or_false] at hn
    rcases hn with rfl | rfl | rfl <;> exact ⟨by decide +kernel, rfl, rfl, by decide +kernel⟩
  · exact ⟨[("x", .int 20)], (rightArgs_single (n := idFn) (t := ()) rfl _).2 ⟨.int 20, x_den (by decide +kernel) 20, rfl⟩, rfl⟩
  · intro c hc
    simp only [List.mem_singleton] at hc
    subst hc
    exact .range (by intro c h; cases h; decide) (by nofun)

end ValidatorSample

end Verif
