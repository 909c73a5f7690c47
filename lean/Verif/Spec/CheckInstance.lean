import Verif.Model.CheckInstance

/-! What it means for a value to have the annotated type, and for which annotations the check can decide it. -/
namespace Verif

mutual
/-- The value has the type. Objects that cannot be looked into (iterators, functions, user-defined generic classes) only need
to be of the right class; `meaning` is that of other annotations. -/
def HasTy (W : RWorld) (meaning : Name → RVal → Prop) : RTy → RVal → Prop
  | .any, _ => True
  | .cls c, v => W.sub v.cls c = true
  | .union as, v => HasSome W meaning as v
  | .pipe as, v => HasSome W meaning as v
  | .lit n, v => W.lit n v = true
  | .annotated t, v => HasTy W meaning t v
  | .ellipsis, _ => False
  | .other n, v => meaning n v
  | .gen o as, v => W.sub v.cls o = true ∧
      (if o = "tuple" then HasEach W meaning as v.items
       else if W.sub v.cls "dict" = true then HasPairs W meaning as v.pairs
       else HasAll W meaning as v.items)
/-- It has one of the types. -/
def HasSome (W : RWorld) (meaning : Name → RVal → Prop) : List RTy → RVal → Prop
  | [], _ => False
  | a :: as, v => HasTy W meaning a v ∨ HasSome W meaning as v
/-- The items of a tuple: `Tuple[a, ...]` has any number of items of type `a`, otherwise there is one type per item. -/
def HasEach (W : RWorld) (meaning : Name → RVal → Prop) : List RTy → List RVal → Prop
  | [a, .ellipsis], is => ∀ i ∈ is, HasTy W meaning a i
  | [], is => is = []
  | a :: as, is => ∃ x xs, is = x :: xs ∧ HasTy W meaning a x ∧ HasEach W meaning as xs
/-- The items of a dictionary: the first argument is the type of the keys, the second one that of the values. -/
def HasPairs (W : RWorld) (meaning : Name → RVal → Prop) : List RTy → List (RVal × RVal) → Prop
  | [k], ps => ∀ p ∈ ps, HasTy W meaning k p.1
  | [k, w], ps => ∀ p ∈ ps, HasTy W meaning k p.1 ∧ HasTy W meaning w p.2
  | _, _ => True
/-- The items of any other collection: a single argument is the type of the items. -/
def HasAll (W : RWorld) (meaning : Name → RVal → Prop) : List RTy → List RVal → Prop
  | [a], is => ∀ i ∈ is, HasTy W meaning a i
  | _, _ => True
end

/-- The class derives from `list`, `set` or `tuple`. -/
def HoldsItems (W : RWorld) (c : Name) : Prop := W.sub c "list" = true ∨ W.sub c "set" = true ∨ W.sub c "tuple" = true

instance (W : RWorld) (c : Name) : Decidable (HoldsItems W c) := inferInstanceAs (Decidable (_ ∨ _ ∨ _))

/-- No class below `o` derives from `list`, `set` or `tuple`. -/
def NoListBelow (W : RWorld) (o : Name) : Prop := ∀ c, W.sub c o = true → ¬ HoldsItems W c
/-- No class below `o` derives from `dict`. -/
def NoDictBelow (W : RWorld) (o : Name) : Prop := ∀ c, W.sub c o = true → W.sub c "dict" = false

mutual
/-- Annotations whose arguments mean what the check takes them to mean: no tuples of fixed length, one argument is the type of
the items, two are the types of keys and values. `Annotated` is allowed only if `annot`. -/
def Regular (W : RWorld) (annot : Prop) : RTy → Prop
  | .gen o as =>
    (if o = "tuple" then (∃ a, as = [a, .ellipsis]) ∧ NoDictBelow W "tuple"
     else as.length = 1 ∨ (NoListBelow W o ∧ (as.length = 2 ∨ NoDictBelow W o))) ∧ RegularAll W annot as
  | .union as => RegularAll W annot as
  | .annotated _ => annot
  | _ => True
def RegularAll (W : RWorld) (annot : Prop) : List RTy → Prop
  | [] => True
  | a :: as => Regular W annot a ∧ RegularAll W annot as
end

mutual
/-- Annotations made of classes, `Any`, unions, literals, lists, sets, tuples of any length and dictionaries. -/
def Simple (W : RWorld) : RTy → Prop
  | .any => True
  | .cls _ => True
  | .lit _ => True
  | .union as => SimpleAll W as
  | .pipe as => ∀ a ∈ as, ∃ c, a = .cls c
  | .gen o as => SimpleArgs W o as
  | _ => False
def SimpleAll (W : RWorld) : List RTy → Prop
  | [] => True
  | a :: as => Simple W a ∧ SimpleAll W as
/-- One argument for a class of lists, sets or tuples, two for a class of dictionaries, `…, ...` for tuples. -/
def SimpleArgs (W : RWorld) (o : Name) : List RTy → Prop
  | [a, .ellipsis] => o = "tuple" ∧ NoDictBelow W "tuple" ∧ Simple W a
  | [a] => o ≠ "tuple" ∧ (∀ c, W.sub c o = true → HoldsItems W c) ∧ NoDictBelow W o ∧ Simple W a
  | [k, w] => o ≠ "tuple" ∧ (∀ c, W.sub c o = true → W.sub c "dict" = true) ∧ NoListBelow W o ∧ Simple W k ∧ Simple W w
  | _ => False
end

/-- Every argument of the call has the type its parameter is annotated with. -/
def ArgsTyped (W : RWorld) (meaning : Name → RVal → Prop) (n : Node RTy RVal) (kw : Dict Name RVal) : Prop :=
  ∀ p ∈ kw, ∃ t d, n.inputTypes.get? p.1 = some (t, d) ∧ HasTy W meaning t p.2

/-- All annotations of a function satisfy `P`. -/
def Annotations (P : RTy → Prop) (n : Node RTy RVal) : Prop :=
  P n.typ ∧ ∀ k t d, n.inputTypes.get? k = some (t, d) → P t

end Verif
