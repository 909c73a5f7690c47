import Verif.Model.Fingerprint

/-! Cache keys (`hamilton/caching/cache_key.py`). -/
namespace Verif

/-- `_compress_string` / `_decompress_string`, cache_key.py:6-11: base64 of zlib; decompressing may fail. Only these two
functions are assumed, not zlib itself. -/
structure Codec where
  compress : String → String
  decompress : String → Option String

/-- `",".join(items)`, cache_key.py:16. -/
def joinComma : List String → String
  | [] => ""
  | [a] => a
  | a :: b :: t => a ++ "," ++ joinComma (b :: t)

/-- `_encode_str_dict`, cache_key.py:14-16: keys and values interleaved, items sorted. -/
def encodeStrDict (d : Dict String String) : String :=
  joinComma ((sortBy pairLe d).flatMap (fun p => [p.1, p.2]))

/-- `s.split(c)` on the characters: never empty. -/
def splitOnChar (c : Char) : List Char → List (List Char)
  | [] => [[]]
  | x :: xs =>
    if x = c then [] :: splitOnChar c xs
    else match splitOnChar c xs with
      | [] => [[x]]
      | h :: t => (x :: h) :: t

/-- The loop of `_decode_str_dict`, cache_key.py:21-23; an odd number of items is an `IndexError`. -/
def pairUp : List String → Dict String String → Option (Dict String String)
  | [], d => some d
  | [_], _ => none
  | k :: v :: t, d => pairUp t (d.set k v)

/-- `_decode_str_dict`, cache_key.py:19-24. -/
def decodeStrDict (s : String) : Option (Dict String String) :=
  pairUp ((splitOnChar ',' s.toList).map String.ofList) []

/-- `s.partition("-")`: the text before and after the first dash. -/
def partitionDash : List Char → List Char × List Char
  | [] => ([], [])
  | c :: cs => if c = '-' then ([], cs) else let p := partitionDash cs; (c :: p.1, p.2)

/-- `decode_key`, cache_key.py:27-41; `none` when an exception is raised. -/
def decodeKey (Z : Codec) (key : String) : Option (String × String × Dict String String) :=
  let p := partitionDash key.toList
  let q := partitionDash p.2
  match Z.decompress (String.ofList q.2) with
  | none => none
  | some s =>
    if s = "<none>" then some (String.ofList p.1, String.ofList q.1, [])
    else match decodeStrDict s with
      | none => none
      | some d => some (String.ofList p.1, String.ofList q.1, d)

/-- `safe_node_name`, cache_key.py:52. `alnum` is `str.isalnum` on one character. The `rstrip` that follows has no effect:
no character kept is white space. -/
def safeName (alnum : Char → Bool) (name : String) : String :=
  String.ofList (name.toList.filter (fun c => alnum c || c = '_'))

/-- `create_cache_key`, cache_key.py:44-54. -/
def createCacheKey (Z : Codec) (alnum : Char → Bool) (name code : String) (deps : Dict String String) : String :=
  let deps' := if deps.length > 0 then encodeStrDict deps else "<none>"
  safeName alnum name ++ "-" ++ code ++ "-" ++ Z.compress deps'

end Verif
