import Verif.Model.Fingerprint

/-! Vocabulary for statements about data versions. -/
namespace Verif

/-- Format of the digests: base64 of 16 (md5) or 28 (sha224) bytes is a body followed by `==`, the body containing neither
`=` nor `<`. -/
def Base64Format (D : Digest) : Prop :=
  ∀ m, ∃ body : List Char, (D m).toList = body ++ ['=', '='] ∧ '=' ∉ body ∧ '<' ∉ body

mutual
/-- The messages digested when a value is fingerprinted. -/
def messages (D : Digest) : PyVal → Nat → List Message
  | .none, _ => []
  | .bool b, _ => [.md5 (encode (if b then "True" else "False"))]
  | .int i, _ => [.md5 (encode (toString i))]
  | .float t, _ => [.md5 (encode t)]
  | .str s, _ => [.md5 (encode s)]
  | .bytes b, _ => [.md5 b]
  | .seq _ xs, d => .sha (String.join (hashValues D xs (d + 1))) :: messagesAll D xs (d + 1)
  | .map kvs, d => .sha (String.join ((sortBy pairLe
      ((hashPairs D kvs (d + 1)).foldl (fun (m : Dict String String) p => m.set p.1 p.2) [])).map
        (fun p => p.1 ++ p.2))) :: messagesPairs D kvs (d + 1)
  | .set xs, d => .sha (String.join (sortBy strLe (hashValues D xs (d + 1)))) :: messagesAll D xs (d + 1)
  | .obj _ attrs, d => messagesAttrs D attrs (d + 2)
  | .text r, _ => [.md5 (encode r)]

/-- Of a list of values. -/
def messagesAll (D : Digest) : List PyVal → Nat → List Message
  | [], _ => []
  | x :: xs, d => messages D x d ++ messagesAll D xs d

/-- Of the entries of a mapping. -/
def messagesPairs (D : Digest) : List (PyVal × PyVal) → Nat → List Message
  | [], _ => []
  | (k, v) :: xs, d => messages D k d ++ messages D v d ++ messagesPairs D xs d

/-- Of the attributes of an object. -/
def messagesAttrs (D : Digest) : List (String × PyVal) → Nat → List Message
  | [], _ => []
  | (k, v) :: xs, d => .md5 (encode k) :: messages D v d ++ messagesAttrs D xs d
end

/-- The digest has no collision among these messages. -/
def NoCollision (D : Digest) (ms : List Message) : Prop := ∀ m ∈ ms, ∀ m' ∈ ms, D m = D m' → m = m'

/-- Static types of data. -/
inductive Shape where
  | bool | int | float | str | bytes
  | opt (τ : Shape)
  | seq (tag : String) (τ : Shape)
  | map (κ τ : Shape)
  | set (τ : Shape)

/-- Element by element. -/
inductive Pointwise {α : Type} (R : α → α → Prop) : List α → List α → Prop
  | nil : Pointwise R [] []
  | cons {a b l l'} : R a b → Pointwise R l l' → Pointwise R (a :: l) (b :: l')

/-- Two values of a static type are equal in the sense of Python: the order of the entries of a dict and of the elements of
a set does not matter. -/
def SameValue : Shape → PyVal → PyVal → Prop
  | .opt τ, v, w => (v = .none ∧ w = .none) ∨ SameValue τ v w
  | .seq t τ, v, w => ∃ xs ys, v = .seq t xs ∧ w = .seq t ys ∧ Pointwise (SameValue τ) xs ys
  | .map κ τ, v, w => ∃ xs ys ys', v = .map xs ∧ w = .map ys ∧ ys'.Perm ys ∧
      Pointwise (fun p q => SameValue κ p.1 q.1 ∧ SameValue τ p.2 q.2) xs ys'
  | .set τ, v, w => ∃ xs ys ys', v = .set xs ∧ w = .set ys ∧ ys'.Perm ys ∧ Pointwise (SameValue τ) xs ys'
  | _, v, w => v = w

/-- Values of a static type; the keys of a dict are different. -/
def HasShape : Shape → PyVal → Prop
  | .bool, v => ∃ b, v = .bool b
  | .int, v => ∃ i, v = .int i
  | .float, v => ∃ t, v = .float t
  | .str, v => ∃ s, v = .str s
  | .bytes, v => ∃ b, v = .bytes b
  | .opt τ, v => v = .none ∨ HasShape τ v
  | .seq t τ, v => ∃ xs, v = .seq t xs ∧ ∀ x ∈ xs, HasShape τ x
  | .map κ τ, v => ∃ xs, v = .map xs ∧ (∀ p ∈ xs, HasShape κ p.1 ∧ HasShape τ p.2) ∧
      xs.Pairwise (fun p q => ¬ SameValue κ p.1 q.1)
  | .set τ, v => ∃ xs, v = .set xs ∧ ∀ x ∈ xs, HasShape τ x

end Verif
