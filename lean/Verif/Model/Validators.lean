import Verif.Model.Decorators

/-!
The default validators of `@check_output` (`hamilton/data_quality/default_validators.py`) and how they are chosen.
The validators for pandera schemas, which are appended to the list if pandera is installed (default_validators.py:494-508), are
not modelled; their argument is `schema`, which none of the others has. Dask objects (`hasattr(data, "dask")`) are not modelled
either. Numbers are rational: the rounding of floats and infinite floats are left out.
-/
namespace Verif
variable {T V : Type}

/-- A Python scalar, or an entry of a pandas series; there `nan` is any missing entry (`isna`). -/
inductive PyScalar where
  | int (z : Int)
  | float (q : Rat)
  | nan
  | bool (b : Bool)
  | str (s : String)
  deriving DecidableEq

/-- What a function returns, as far as the validators look at it; `other` is something without hash and without order (a list or
dictionary) of a class. -/
inductive PyData where
  | scalar (x : PyScalar)
  | series (dtype : String) (cells : List PyScalar)
  | none
  | other (cls : String)
  deriving DecidableEq

/-- The declared type of a function: a class, or something else as `Optional[float]`. -/
inductive OutType where
  | cls (name : String)
  | generic (name : String)
  deriving DecidableEq

/-- `issubclass(datatype, cls)`; `sub` is the relation between classes. A `TypeError` if `datatype` is not a class. -/
def isSubclass (sub : String → String → Bool) (t : OutType) (c : String) : Except UserErr Bool :=
  match t with
  | .cls n => .ok (sub n c)
  | .generic _ => .error "TypeError"

/-- An argument of `@check_output`: its keyword and value, default_validators.py:13-474. Values of another form (for which the
constructor or `validate` raises) are left out. -/
inductive Check where
  | range (lo hi : Rat)
  | valuesIn (values : List PyScalar)
  | dataType (cls : String)
  | maxFractionNans (q : Rat)
  | allowNans (b : Bool)
  | maxStandardDev (m : Rat)
  | meanInRange (lo hi : Rat)
  | allowNone (b : Bool)
  | contains (s : List String ⊕ String)
  | doesNotContain (s : List String ⊕ String)
  | unknown (key : Name)

/-- The keyword. -/
def Check.key : Check → Name
  | .range _ _ => "range"
  | .valuesIn _ => "values_in"
  | .dataType _ => "data_type"
  | .maxFractionNans _ => "max_fraction_nans"
  | .allowNans _ => "allow_nans"
  | .maxStandardDev _ => "max_standard_dev"
  | .meanInRange _ _ => "mean_in_range"
  | .allowNone _ => "allow_none"
  | .contains _ => "contains"
  | .doesNotContain _ => "does_not_contain"
  | .unknown k => k

/-- The classes of `AVAILABLE_DEFAULT_VALIDATORS`, default_validators.py:477-491. -/
inductive ValidatorClass where
  | allowNaNsSeries
  | rangeSeries
  | rangePrimitive
  | valuesSeries
  | valuesPrimitive
  | dataTypeSeries
  | dataTypePrimitive
  | maxFractionNans
  | maxStandardDev
  | meanInRange
  | allowNone
  | strContains
  | strDoesNotContain
  deriving DecidableEq

/-- `AVAILABLE_DEFAULT_VALIDATORS`, default_validators.py:477-491. -/
def availableValidators : List ValidatorClass :=
  [.allowNaNsSeries, .rangeSeries, .rangePrimitive, .valuesSeries, .valuesPrimitive, .dataTypeSeries, .dataTypePrimitive,
    .maxFractionNans, .maxStandardDev, .meanInRange, .allowNone, .strContains, .strDoesNotContain]

/-- `arg()` of the classes: default_validators.py:23, 68, 138, 152, 220, 241, 274, 312, 343, 374, 406, 438, 473. -/
def ValidatorClass.arg : ValidatorClass → Name
  | .allowNaNsSeries => "allow_nans"
  | .rangeSeries => "range"
  | .rangePrimitive => "range"
  | .valuesSeries => "values_in"
  | .valuesPrimitive => "values_in"
  | .dataTypeSeries => "data_type"
  | .dataTypePrimitive => "data_type"
  | .maxFractionNans => "max_fraction_nans"
  | .maxStandardDev => "max_standard_dev"
  | .meanInRange => "mean_in_range"
  | .allowNone => "allow_none"
  | .strContains => "contains"
  | .strDoesNotContain => "does_not_contain"

/-- `a or b`, where both may raise. -/
def orRaise (a b : Except UserErr Bool) : Except UserErr Bool :=
  match a with
  | .error e => .error e
  | .ok true => .ok true
  | .ok false => b

/-- `applies_to` of the classes: default_validators.py:27, 72, 116, 156, 194, 256, 289, 322, 353, 384, 419, 451. -/
def ValidatorClass.appliesTo (sub : String → String → Bool) (t : OutType) : ValidatorClass → Except UserErr Bool
  | .rangePrimitive => isSubclass sub t "Real"
  | .valuesPrimitive => orRaise (isSubclass sub t "Real") (isSubclass sub t "str")
  | .dataTypePrimitive => orRaise (isSubclass sub t "Real") (.ok (t = .cls "str" ∨ t = .cls "bool"))
  | .allowNone => .ok true
  | .strContains => .ok (t = .cls "str")
  | .strDoesNotContain => .ok (t = .cls "str")
  | _ => isSubclass sub t "Series"

/-- The constructors: the importance (data_quality/base.py:32-33, an enumeration), `_validate_max_fraction_nans`
(default_validators.py:223-226) and default_validators.py:230-238. -/
def constructValidator (c : Check) (importance : String) : Except UserErr VLevel :=
  let level : Except UserErr VLevel :=
    if importance = "warn" then .ok .warn else if importance = "fail" then .ok .fail else .error "ValueError"
  match c with
  | .allowNans true => .error "ValueError"
  | .maxFractionNans q => if 0 ≤ q ∧ q ≤ 1 then level else .error "ValueError"
  | _ => level

/-- A validator: its class, argument and importance. -/
structure DefaultValidator where
  cls : ValidatorClass
  check : Check
  level : VLevel

/-- The inner loop of `resolve_default_validators`, default_validators.py:528-542. -/
def findValidator (sub : String → String → Bool) (t : OutType) (key : Name) : List ValidatorClass → Except UserErr ValidatorClass
  | [] => .error "ValueError"
  | c :: cs =>
    if key = c.arg then
      match c.appliesTo sub t with
      | .error e => .error e
      | .ok true => .ok c
      | .ok false => findValidator sub t key cs
    else findValidator sub t key cs

/-- `resolve_default_validators`, default_validators.py:511-542; the keywords are those of a call, so they are distinct. -/
def resolveValidators (sub : String → String → Bool) (t : OutType) (importance : String) (available : List ValidatorClass) :
    List Check → Except UserErr (List DefaultValidator)
  | [] => .ok []
  | c :: cs =>
    match findValidator sub t c.key available with
    | .error e => .error e
    | .ok k =>
      match constructValidator c importance with
      | .error e => .error e
      | .ok level =>
        match resolveValidators sub t importance available cs with
        | .error e => .error e
        | .ok vs => .ok ({ cls := k, check := c, level := level } :: vs)

/-! ### `validate` -/

/-- A number, also of a `bool`. -/
def PyScalar.real? : PyScalar → Option Rat
  | .int z => some z
  | .float q => some q
  | .bool b => some (if b then 1 else 0)
  | .nan => none
  | .str _ => none

/-- `min_ <= x <= max_`, default_validators.py:126, and, for an entry, `Series.between`, default_validators.py:35; comparing a
string with a number raises. -/
def inRange (lo hi : Rat) (x : PyScalar) : Except UserErr Bool :=
  match x with
  | .nan => .ok false
  | _ =>
    match x.real? with
    | some q => .ok (decide (lo ≤ q ∧ q ≤ hi))
    | none => .error "TypeError"

/-- `Series.between`, entry by entry. -/
def betweenAll (lo hi : Rat) : List PyScalar → Except UserErr (List Bool)
  | [] => .ok []
  | x :: xs =>
    match inRange lo hi x with
    | .error e => .error e
    | .ok b =>
      match betweenAll lo hi xs with
      | .error e => .error e
      | .ok bs => .ok (b :: bs)

/-- `value_counts().to_dict().get(False, 0)`. -/
def countFalse (bs : List Bool) : Nat := (bs.filter (fun b => !b)).length

/-- `==`; `nan` is not equal to itself (the identity of objects is left out). -/
def pyEq (x y : PyScalar) : Bool :=
  match x.real?, y.real? with
  | some p, some q => p = q
  | _, _ =>
    match x, y with
    | .str s, .str t => s = t
    | _, _ => false

/-- The numbers of a series: missing entries are skipped (`skipna`), strings raise. -/
def seriesNumbers : List PyScalar → Except UserErr (List Rat)
  | [] => .ok []
  | x :: xs =>
    match seriesNumbers xs with
    | .error e => .error e
    | .ok qs =>
      match x with
      | .nan => .ok qs
      | _ =>
        match x.real? with
        | some q => .ok (q :: qs)
        | none => .error "TypeError"

/-- `Series.mean()`; `none` is NaN. -/
def seriesMean (qs : List Rat) : Option Rat := if qs.length = 0 then none else some (qs.sum / qs.length)

/-- `Series.std() <= m`, with one degree of freedom: NaN (and so false) with less than two numbers. The square root is avoided. -/
def stdAtMost (qs : List Rat) (m : Rat) : Bool :=
  match seriesMean qs with
  | none => false
  | some a =>
    if qs.length ≤ 1 then false
    else decide (0 ≤ m ∧ (qs.map (fun q => (q - a) * (q - a))).sum / ((qs.length : Rat) - 1) ≤ m * m)

/-- `c in data` for strings. -/
def occursIn (p : List Char) : List Char → Bool
  | [] => p.isEmpty
  | c :: cs => p.isPrefixOf (c :: cs) || occursIn p cs

/-- default_validators.py:413-416: a single string is a list of one. -/
def asStrings : List String ⊕ String → List String
  | .inl l => l
  | .inr s => [s]

/-- The class of a value, for `isinstance`. -/
def PyData.cls : PyData → String
  | .scalar (.int _) => "int"
  | .scalar (.float _) => "float"
  | .scalar .nan => "float"
  | .scalar (.bool _) => "bool"
  | .scalar (.str _) => "str"
  | .series _ _ => "Series"
  | .none => "NoneType"
  | .other c => c

/-- `data.isna().sum() / len(data) <= max_fraction_nans`, default_validators.py:201-204. -/
def fractionAtMost (q : Rat) (cells : List PyScalar) : Bool :=
  let total := cells.length
  let na := (cells.filter (· = .nan)).length
  let fraction : Rat := if total > 0 then (na : Rat) / total else 0
  decide (fraction ≤ q)

/-- `validate` of the classes: `passes` of the result, or an exception. default_validators.py:33-52 (range of a series), 78-103
(values of a series), 122-135 (range), 164-180 (values), 200-217 (missing entries), 262-271 and 295-309 (type), 328-340
(standard deviation), 359-371 (mean), 392-403 (`None`), 425-435 and 457-470 (strings). -/
def DefaultValidator.validate (sub : String → String → Bool) (d : DefaultValidator) (v : PyData) : Except UserErr Bool :=
  match d.cls, d.check, v with
  | .rangeSeries, .range lo hi, .series _ cells =>
    match betweenAll lo hi cells with
    | .error e => .error e
    | .ok bs => .ok (decide (countFalse bs = 0))
  | .rangePrimitive, .range lo hi, .scalar x => inRange lo hi x
  | .valuesSeries, .valuesIn vs, .series _ cells =>
    .ok (decide (countFalse (cells.map (fun x => vs.any (pyEq x) || decide (x = .nan))) = 0))
  | .valuesPrimitive, .valuesIn vs, .scalar x => .ok (vs.any (pyEq x))
  | .valuesPrimitive, .valuesIn _, .none => .ok false
  | .dataTypeSeries, .dataType c, .series dtype _ => .ok (sub dtype c)
  | .dataTypePrimitive, .dataType c, v => .ok (sub v.cls c)
  | .maxFractionNans, .maxFractionNans q, .series _ cells => .ok (fractionAtMost q cells)
  | .allowNaNsSeries, .allowNans _, .series _ cells => .ok (fractionAtMost 0 cells)
  | .maxStandardDev, .maxStandardDev m, .series _ cells =>
    match seriesNumbers cells with
    | .error e => .error e
    | .ok qs => .ok (stdAtMost qs m)
  | .meanInRange, .meanInRange lo hi, .series _ cells =>
    match seriesNumbers cells with
    | .error e => .error e
    | .ok qs =>
      match seriesMean qs with
      | none => .ok false
      | some a => .ok (decide (lo ≤ a ∧ a ≤ hi))
  | .allowNone, .allowNone b, v => .ok (if b then true else !decide (v = .none))
  | .strContains, .contains l, .scalar (.str s) => .ok ((asStrings l).all (fun c => occursIn c.toList s.toList))
  | .strDoesNotContain, .doesNotContain l, .scalar (.str s) => .ok ((asStrings l).all (fun c => !occursIn c.toList s.toList))
  | _, _, _ => .error "TypeError"

/-- The validator as `transform_node` sees it; `name()` is data_quality/base.py:144-146. `view` is what a value looks like. -/
def DefaultValidator.toValidator (sub : String → String → Bool) (view : V → PyData) (d : DefaultValidator) : Validator V :=
  { name := d.cls.arg ++ "_validator", level := d.level, validate := fun v => d.validate sub (view v) }

/-- `check_output.transform_node`: `get_validators` (validation.py:190-203, which turns a `ValueError` into another one) and
`BaseDataValidationDecorator.transform_node`. `out` is the class of a type. -/
def checkOutputWith (ops : PyOps V) (resultT : T) (sub : String → String → Bool) (out : T → OutType) (view : V → PyData)
    (importance : String) (available : Option (List ValidatorClass)) (checks : List Check) (n : Node T V) :
    Except UserErr (List (Node T V)) :=
  match resolveValidators sub (out n.typ) importance (available.getD availableValidators) checks with
  | .error e => .error e
  | .ok vs => .ok (checkOutput ops resultT (vs.map (·.toValidator sub view)) n)

end Verif
