import Verif.Model.Node

/-!
Data versions: hamilton/caching/fingerprinting.py.
-/
namespace Verif

/-- Python values as `hash_value` distinguishes them (the registered implementations, fingerprinting.py:63-271, without
pandas, polars and numpy).  `float` carries the text `str(x)`.  `seq tag xs` is an instance of `Sequence` other than `str` and
`bytes` of class `tag`; `map` a `Mapping` in iteration order; `set` a `Set` in iteration order; `obj` an instance of another
class with its `__dict__`, class not of a builtin module; `text` an object without `__dict__` entries that is hashed through its
`repr` (builtin modules and `datetime`). -/
inductive PyVal where
  | none
  | bool (b : Bool)
  | int (i : Int)
  | float (text : String)
  | str (s : String)
  | bytes (b : List UInt8)
  | seq (tag : String) (xs : List PyVal)
  | map (kvs : List (PyVal × PyVal))
  | set (xs : List PyVal)
  | obj (cls : String) (attrs : List (String × PyVal))
  | text (repr : String)

/-- What is given to a digest: md5 of bytes (fingerprinting.py:129, 139) or sha224 of the concatenation of the encoded strings
passed to `update` (lines 149-151, 173-176, 223-225).  `str.encode` is an injective homomorphism for concatenation, so the
latter is given as a string. -/
inductive Message where
  | md5 (b : List UInt8)
  | sha (s : String)
  deriving DecidableEq, Repr

/-- `str.encode()`. -/
def encode (s : String) : List UInt8 := s.toUTF8.data.toList

/-- Insertion in a sorted list. -/
def insertBy {α : Type} (le : α → α → Bool) (a : α) : List α → List α
  | [] => [a]
  | b :: l => if le a b then a :: b :: l else b :: insertBy le a l

/-- `sorted(l)`. -/
def sortBy {α : Type} (le : α → α → Bool) (l : List α) : List α := l.foldr (insertBy le) []

/-- Order of strings. -/
def strLe (a b : String) : Bool := decide (a ≤ b)

/-- Order of pairs of strings (tuples). -/
def pairLe (a b : String × String) : Bool := decide (a.1 < b.1) || (a.1 == b.1 && strLe a.2 b.2)

/-- `MAX_DEPTH`, fingerprinting.py:41. -/
def maxDepth : Nat := 6

/-- `UNHASHABLE`, fingerprinting.py:42. -/
def unhashable : String := "<unhashable>"

/-- `NONE_HASH`, fingerprinting.py:43. -/
def noneHash : String := "<none>"

/-- `_compact_hash` of the digest of a message, fingerprinting.py:54-60; `D` is the digest followed by base64. -/
abbrev Digest := Message → String

/-- End of `hash_unordered_mapping`, fingerprinting.py:169-178: `hashed_mapping` is a dict, so of two keys with equal
hashes the last one wins; then sort the items and digest. -/
def digestItems (D : Digest) (items : List (String × String)) : String :=
  let hashed := items.foldl (fun (m : Dict String String) p => m.set p.1 p.2) []
  D (.sha (String.join ((sortBy pairLe hashed).map (fun p => p.1 ++ p.2))))

mutual
/-- `hash_value`, fingerprinting.py:63-94, with its registered implementations: `hash_none` 97-103, `hash_repr` 106-115,
`hash_primitive` 118-130, `hash_bytes` 133-140, `hash_sequence` 143-153, `hash_mapping` 181-209 (with `ignore_order`),
`hash_set` 212-227. -/
def hashValue (D : Digest) : PyVal → Nat → String
  | .none, _ => noneHash
  | .bool b, _ => D (.md5 (encode (if b then "True" else "False")))
  | .int i, _ => D (.md5 (encode (toString i)))
  | .float t, _ => D (.md5 (encode t))
  | .str s, _ => D (.md5 (encode s))
  | .bytes b, _ => D (.md5 b)
  | .seq _ xs, d => D (.sha (String.join (hashValues D xs (d + 1))))
  | .map kvs, d => digestItems D (hashPairs D kvs (d + 1))
  | .set xs, d => D (.sha (String.join (sortBy strLe (hashValues D xs (d + 1)))))
  | .obj _ attrs, d =>
    if d > maxDepth then unhashable
    else if attrs.isEmpty then unhashable
    else digestItems D (hashAttrs D attrs (d + 2))
  | .text r, d => if d > maxDepth then unhashable else D (.md5 (encode r))

/-- Hashes of the elements. -/
def hashValues (D : Digest) : List PyVal → Nat → List String
  | [], _ => []
  | x :: xs, d => hashValue D x d :: hashValues D xs d

/-- Hashes of keys and values, fingerprinting.py:169-171. -/
def hashPairs (D : Digest) : List (PyVal × PyVal) → Nat → List (String × String)
  | [], _ => []
  | (k, v) :: xs, d => (hashValue D k d, hashValue D v d) :: hashPairs D xs d

/-- The same for `obj.__dict__`, whose keys are strings. -/
def hashAttrs (D : Digest) : List (String × PyVal) → Nat → List (String × String)
  | [], _ => []
  | (k, v) :: xs, d => (D (.md5 (encode k)), hashValue D v d) :: hashAttrs D xs d
end

end Verif
