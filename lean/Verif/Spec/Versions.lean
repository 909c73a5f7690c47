import Verif.Model.Versions

/-!
When two pieces of code are the same up to documentation.
-/
namespace Verif

/-- `rest` are the statements `body` of a function without its docstring (a string that comes first). -/
def IsBody (body rest : List PyAst) : Prop :=
  (∃ s, body = .strExpr s :: rest) ∨ (body = rest ∧ ∀ s r, body ≠ .strExpr s :: r)

mutual
/-- Equal up to docstrings of functions (comments and layout are not part of a syntax tree). -/
inductive SameCode : PyAst → PyAst → Prop
  | fnDef {h e e' b b' r r'} : SameCodes e e' → IsBody b r → IsBody b' r' → SameCodes r r' →
      SameCode (.fnDef h e b) (.fnDef h e' b')
  | strExpr {s} : SameCode (.strExpr s) (.strExpr s)
  | other {l c c'} : SameCodes c c' → SameCode (.other l c) (.other l c')
/-- Elementwise. -/
inductive SameCodes : List PyAst → List PyAst → Prop
  | nil : SameCodes [] []
  | cons {a b as bs} : SameCode a b → SameCodes as bs → SameCodes (a :: as) (b :: bs)
end

/-- The idealised library: hashes do not collide, and different trees without docstrings are printed differently. -/
structure SrcOps.Faithful (ops : SrcOps) : Prop where
  sha_inj : ∀ s t, ops.sha s = ops.sha t → s = t
  shaList_inj : ∀ s t, ops.shaList s = ops.shaList t → s = t
  unparse_inj : ∀ s t, ops.unparse (stripDocs s) = ops.unparse (stripDocs t) → stripDocs s = stripDocs t

/-- The syntax tree of the source of a function. -/
def FnObj.Parsed (ops : SrcOps) (f : FnObj) (t : PyAst) : Prop := ∃ s, f.source = some s ∧ ops.parse (ops.trim s) = some t

end Verif
