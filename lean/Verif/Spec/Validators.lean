import Verif.Model.Validators

/-!
What the arguments of `@check_output` promise about the value of a function.
-/
namespace Verif

/-- `x` is the number `q`. -/
inductive IsNumber : PyScalar → Rat → Prop
  | int (z : Int) : IsNumber (.int z) z
  | float (q : Rat) : IsNumber (.float q) q
  | true : IsNumber (.bool true) 1
  | false : IsNumber (.bool false) 0

/-- The same number or the same string. -/
def SameScalar (x y : PyScalar) : Prop := (∃ q, IsNumber x q ∧ IsNumber y q) ∨ ∃ s, x = .str s ∧ y = .str s

/-- `qs` are the numbers of a series, in order, without the missing entries. -/
inductive NumbersOf : List PyScalar → List Rat → Prop
  | nil : NumbersOf [] []
  | missing {xs qs} : NumbersOf xs qs → NumbersOf (.nan :: xs) qs
  | number {x q xs qs} : IsNumber x q → NumbersOf xs qs → NumbersOf (x :: xs) (q :: qs)

/-- `c` occurs in `s`. -/
def Occurs (c s : String) : Prop := ∃ a b, s = a ++ c ++ b

/-- The strings given, one or several. -/
def GivenString (l : List String ⊕ String) (c : String) : Prop := l = .inr c ∨ ∃ cs, l = .inl cs ∧ c ∈ cs

/-- The class of a value that is not a series; a missing value is a `float`. -/
inductive ClassOf : PyData → String → Prop
  | int (z : Int) : ClassOf (.scalar (.int z)) "int"
  | float (q : Rat) : ClassOf (.scalar (.float q)) "float"
  | nan : ClassOf (.scalar .nan) "float"
  | bool (b : Bool) : ClassOf (.scalar (.bool b)) "bool"
  | str (s : String) : ClassOf (.scalar (.str s)) "str"
  | none : ClassOf .none "NoneType"
  | other (c : String) : ClassOf (.other c) c

/-- What the argument promises. The mean `a` of `n` numbers satisfies `n * a = sum`; their variance (one degree of freedom) is
`(n * sum of squares - square of the sum) / (n * (n - 1))`. A series without numbers has no mean, one with a single number no
standard deviation. -/
inductive Promise (sub : String → String → Bool) : Check → PyData → Prop
  | range {lo hi x q} : IsNumber x q → lo ≤ q → q ≤ hi → Promise sub (.range lo hi) (.scalar x)
  | rangeSeries {lo hi dtype cells} : (∀ x ∈ cells, ∃ q, IsNumber x q ∧ lo ≤ q ∧ q ≤ hi) →
      Promise sub (.range lo hi) (.series dtype cells)
  | values {vs x y} : y ∈ vs → SameScalar x y → Promise sub (.valuesIn vs) (.scalar x)
  | valuesSeries {vs dtype cells} : (∀ x ∈ cells, x = .nan ∨ ∃ y ∈ vs, SameScalar x y) →
      Promise sub (.valuesIn vs) (.series dtype cells)
  | dataType {c v k} : ClassOf v k → sub k c = true → Promise sub (.dataType c) v
  | dataTypeSeries {c dtype cells} : sub dtype c = true → Promise sub (.dataType c) (.series dtype cells)
  | maxFractionNans {q dtype cells} : (cells.countP (· = .nan) : Rat) ≤ q * (cells.length : Rat) →
      Promise sub (.maxFractionNans q) (.series dtype cells)
  | allowNans {b dtype cells} : .nan ∉ cells → Promise sub (.allowNans b) (.series dtype cells)
  | maxStandardDev {m dtype cells qs} : NumbersOf cells qs → 2 ≤ qs.length → 0 ≤ m →
      (qs.length : Rat) * (qs.map (fun q => q * q)).sum - qs.sum * qs.sum ≤ m * m * ((qs.length : Rat) * ((qs.length : Rat) - 1)) →
      Promise sub (.maxStandardDev m) (.series dtype cells)
  | meanInRange {lo hi dtype cells qs} : NumbersOf cells qs → qs ≠ [] → lo * (qs.length : Rat) ≤ qs.sum →
      qs.sum ≤ hi * (qs.length : Rat) → Promise sub (.meanInRange lo hi) (.series dtype cells)
  | allowNone {v} : Promise sub (.allowNone true) v
  | notNone {v} : v ≠ .none → Promise sub (.allowNone false) v
  | contains {l s} : (∀ c, GivenString l c → Occurs c s) → Promise sub (.contains l) (.scalar (.str s))
  | doesNotContain {l s} : (∀ c, GivenString l c → ¬ Occurs c s) → Promise sub (.doesNotContain l) (.scalar (.str s))

/-- The functions an argument can be used for, by their declared type. -/
def Usable (sub : String → String → Bool) (t : OutType) : Check → Prop
  | .range _ _ => ∃ c, t = .cls c ∧ (sub c "Series" = true ∨ sub c "Real" = true)
  | .valuesIn _ => ∃ c, t = .cls c ∧ (sub c "Series" = true ∨ sub c "Real" = true ∨ sub c "str" = true)
  | .dataType _ => ∃ c, t = .cls c ∧ (sub c "Series" = true ∨ sub c "Real" = true ∨ c = "str" ∨ c = "bool")
  | .maxFractionNans q => (∃ c, t = .cls c ∧ sub c "Series" = true) ∧ 0 ≤ q ∧ q ≤ 1
  | .allowNans b => (∃ c, t = .cls c ∧ sub c "Series" = true) ∧ b = false
  | .maxStandardDev _ => ∃ c, t = .cls c ∧ sub c "Series" = true
  | .meanInRange _ _ => ∃ c, t = .cls c ∧ sub c "Series" = true
  | .allowNone _ => True
  | .contains _ => t = .cls "str"
  | .doesNotContain _ => t = .cls "str"
  | .unknown _ => False

/-- `unknown` stands for the keywords that none of the others has. -/
def Check.Proper : Check → Prop
  | .unknown k => k ∉ ["range", "values_in", "data_type", "max_fraction_nans", "allow_nans", "max_standard_dev", "mean_in_range",
      "allow_none", "contains", "does_not_contain"]
  | _ => True

/-- A value the check can be applied to: an entry or value that is compared with numbers is not a string, a value that is
searched is a string; a function declared to return a series does. -/
inductive Suited (sub : String → String → Bool) (t : OutType) : Check → PyData → Prop
  | range {lo hi x} : (∀ c, t = .cls c → sub c "Series" = false) → (∀ s, x ≠ .str s) → Suited sub t (.range lo hi) (.scalar x)
  | rangeSeries {lo hi dtype cells c} : t = .cls c → sub c "Series" = true → (∀ s, .str s ∉ cells) →
      Suited sub t (.range lo hi) (.series dtype cells)
  | values {vs x} : (∀ c, t = .cls c → sub c "Series" = false) → Suited sub t (.valuesIn vs) (.scalar x)
  | valuesNone {vs} : (∀ c, t = .cls c → sub c "Series" = false) → Suited sub t (.valuesIn vs) .none
  | valuesSeries {vs dtype cells c} : t = .cls c → sub c "Series" = true → Suited sub t (.valuesIn vs) (.series dtype cells)
  | dataType {d v} : (∀ c, t = .cls c → sub c "Series" = false) → Suited sub t (.dataType d) v
  | dataTypeSeries {d dtype cells} : Suited sub t (.dataType d) (.series dtype cells)
  | maxFractionNans {q dtype cells} : Suited sub t (.maxFractionNans q) (.series dtype cells)
  | allowNans {b dtype cells} : Suited sub t (.allowNans b) (.series dtype cells)
  | maxStandardDev {m dtype cells} : (∀ s, .str s ∉ cells) → Suited sub t (.maxStandardDev m) (.series dtype cells)
  | meanInRange {lo hi dtype cells} : (∀ s, .str s ∉ cells) → Suited sub t (.meanInRange lo hi) (.series dtype cells)
  | allowNone {b v} : Suited sub t (.allowNone b) v
  | contains {l s} : Suited sub t (.contains l) (.scalar (.str s))
  | doesNotContain {l s} : Suited sub t (.doesNotContain l) (.scalar (.str s))

end Verif
