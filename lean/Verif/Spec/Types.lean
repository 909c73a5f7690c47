import Verif.Model.Types

/-!
What type annotations mean: the set of values they describe.  Independent of the checks in `Verif.Model.Types`.
-/
namespace Verif

/-- A world of values.  `inst w c`: `isinstance(w, c)`.  `args c as w`: as an instance of the generic class `c`, `w` conforms to the
arguments `as`.  Assumptions: instances of a subclass are instances of the class; equal arguments mean the same; a subclass of a
generic class takes its arguments in the same places (`aligned`). -/
structure TySem (H : Hier) (W : Type) where
  inst : W → Name → Prop
  inst_sub : ∀ {a b w}, H.sub a b = true → inst w a → inst w b
  args : Name → List PyTy → W → Prop
  args_eq : ∀ {c as bs w}, PyTy.eqs as bs = true → (args c as w ↔ args c bs w)
  aligned : ∀ {a b as w}, H.sub a b = true → args a as w → args b as w
  var : Name → W → Prop
  other : Name → W → Prop

namespace TySem
variable {H : Hier} {W : Type}

mutual
/-- `w` is a value of type `t`. -/
def mem (S : TySem H W) : PyTy → W → Prop
  | .any, _ => True
  | .cls c, w => S.inst w c
  | .alias _ c as, w => S.inst w c ∧ (as ≠ [] → S.args c as w)
  | .union as, w => memAny S as w
  | .var n, w => S.var n w
  | .annotated t _, w => mem S t w
  | .other n, w => S.other n w
/-- `w` is a value of one of the types. -/
def memAny (S : TySem H W) : List PyTy → W → Prop
  | [], _ => False
  | a :: as, w => mem S a w ∨ memAny S as w
end

end TySem

mutual
/-- The class or type variable `c` occurs in the annotation. -/
def PyTy.mentions (c : Name) : PyTy → Prop
  | .cls d => d = c
  | .alias _ d as => d = c ∨ mentionsAny c as
  | .union as => mentionsAny c as
  | .var d => d = c
  | .annotated t ms => mentions c t ∨ mentionsAny c ms
  | _ => False
def PyTy.mentionsAny (c : Name) : List PyTy → Prop
  | [] => False
  | a :: as => mentions c a ∨ mentionsAny c as
end

mutual
/-- Neither the annotation nor a member of it, if it is a union, has type arguments or is a user-defined generic class. -/
def PyTy.noArgs (H : Hier) : PyTy → Prop
  | .cls c => H.generic c = false
  | .alias _ _ as => as = []
  | .union as => allNoArgs H as
  | .annotated t _ => noArgs H t
  | _ => True
def PyTy.allNoArgs (H : Hier) : List PyTy → Prop
  | [] => True
  | a :: as => noArgs H a ∧ allNoArgs H as
end

/-- The annotation is a generic with type arguments, e.g. `List[int]`. -/
def PyTy.hasArgs : PyTy → Prop
  | .alias _ _ as => as ≠ []
  | _ => False

/-! ### Values given as inputs -/

/-- Classes whose type argument is the type of the items. -/
def isContainer (c : Name) : Prop := c = "list" ∨ c = "Sequence" ∨ c = "set" ∨ c = "Iterable"

mutual
/-- The value has the type: a container has items of the type given as its argument; the arguments of other generic classes are not
looked at. -/
def hasType (H : Hier) (lit : Name → InVal → Bool) : PyTy → InVal → Prop
  | .any, _ => True
  | .cls c, v => H.sub v.cls c = true
  | .var _, _ => True
  | .union as, v => hasAny H lit as v
  | .alias _ o as, v => H.sub v.cls o = true ∧ (isContainer o → allItems H lit as v.items)
  | .annotated t _, v => hasType H lit t v
  | .other n, v => lit n v = true
def hasAny (H : Hier) (lit : Name → InVal → Bool) : List PyTy → InVal → Prop
  | [], _ => False
  | a :: as, v => hasType H lit a v ∨ hasAny H lit as v
def allItems (H : Hier) (lit : Name → InVal → Bool) : List PyTy → List InVal → Prop
  | a :: _, is => ∀ i ∈ is, hasType H lit a i
  | [], _ => True
end

mutual
/-- Classes, unions, literals and type variables. -/
def PyTy.Simple (H : Hier) : PyTy → Prop
  | .cls c => H.generic c = false
  | .union as => AllSimple H as
  | .alias .. => False
  | .annotated .. => False
  | _ => True
def PyTy.AllSimple (H : Hier) : List PyTy → Prop
  | [] => True
  | a :: as => Simple H a ∧ AllSimple H as
end

mutual
/-- As `Simple`, and also lists, sequences, sets and iterables of such types. -/
def PyTy.Checkable (H : Hier) : PyTy → Prop
  | .cls c => H.generic c = false
  | .union as => AllCheckable H as
  | .alias _ o as => isContainer o ∧ AllCheckable H as
  | .annotated .. => False
  | _ => True
def PyTy.AllCheckable (H : Hier) : List PyTy → Prop
  | [] => True
  | a :: as => Checkable H a ∧ AllCheckable H as
end

end Verif
