import Verif.Model.Adapters

/-!
Which adapter a user expects.
-/
namespace Verif

/-- The last element with a property. -/
def Latest {α : Type} (P : α → Prop) (l : List α) (a : α) : Prop :=
  ∃ pre post, l = pre ++ a :: post ∧ P a ∧ ∀ b ∈ post, ¬ P b

/-- The first element with a property. -/
def Earliest {α : Type} (P : α → Prop) (l : List α) (a : α) : Prop :=
  ∃ pre post, l = pre ++ a :: post ∧ P a ∧ ∀ b ∈ pre, ¬ P b

/-- A loader called `key` that makes values of a subclass of `c`. -/
def LoadsClass (H : Hier) (key c : Name) (a : AdapterCls) : Prop :=
  a.key = key ∧ a.canLoad = true ∧ ∃ d, .cls d ∈ a.types ∧ H.sub d c = true

/-- A loader called `key` that makes anything. -/
def LoadsAny (key : Name) (a : AdapterCls) : Prop := a.key = key ∧ a.canLoad = true ∧ .any ∈ a.types

/-- A saver called `key` that takes values of a superclass of `c`. -/
def SavesClass (H : Hier) (key c : Name) (a : AdapterCls) : Prop :=
  a.key = key ∧ a.canSave = true ∧ ∃ d, .cls d ∈ a.types ∧ H.sub c d = true

/-- A loader called `key` that declares a superclass of `c`. -/
def LoadsSuper (H : Hier) (key c : Name) (a : AdapterCls) : Prop :=
  a.key = key ∧ a.canLoad = true ∧ ∃ d, .cls d ∈ a.types ∧ H.sub c d = true

/-- The arguments given are those the class has, and none without default is missing. -/
def ArgsFit (a : AdapterCls) (kwargs : List Name) : Prop :=
  (∀ k ∈ a.required, k ∈ kwargs) ∧ ∀ k ∈ kwargs, k ∈ a.required ∨ k ∈ a.optional

/-- An annotation that is a class without type arguments, or `Any`. -/
def ClassOrAny (H : Hier) (t : PyTy) : Prop := t = .any ∨ ∃ d, t = .cls d ∧ H.generic d = false

end Verif
