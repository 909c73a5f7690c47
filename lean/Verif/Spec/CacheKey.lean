import Verif.Model.CacheKey

/-! Vocabulary for statements about cache keys. -/
namespace Verif

/-- What is assumed of base64 and zlib: compressing is undone by decompressing, and base64 text contains no dash. -/
structure Codec.Lawful (Z : Codec) : Prop where
  roundtrip : ∀ s, Z.decompress (Z.compress s) = some s
  noDash : ∀ s, '-' ∉ (Z.compress s).toList

/-- A name made of letters, digits and underscores only. -/
def PlainName (alnum : Char → Bool) (name : String) : Prop := ∀ c ∈ name.toList, alnum c = true ∨ c = '_'

/-- Neither names nor versions contain a comma. -/
def CommaFree (deps : Dict String String) : Prop := ∀ p ∈ deps, ',' ∉ p.1.toList ∧ ',' ∉ p.2.toList

/-- Two dicts are equal in the sense of Python. -/
def SameDict (d d' : Dict String String) : Prop := ∀ k, d.get? k = d'.get? k

end Verif
