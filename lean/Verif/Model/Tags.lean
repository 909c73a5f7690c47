import Verif.Dict

/-!
Tags of nodes and queries over them (`hamilton/node.py`, `hamilton/driver.py`).
-/
namespace Verif

/-- The value of a tag: `Union[str, List[str]]` for the tags set by `@tag` (function_modifiers/metadata.py), and the
booleans that materializers set (function_modifiers/adapters.py:229-235). -/
inductive TagVal where
  | str (s : String)
  | list (l : List String)
  | bool (b : Bool)
  deriving DecidableEq, Repr

/-- The elements of tags and queries that are compared. -/
inductive TagAtom where
  | str (s : String)
  | bool (b : Bool)
  deriving DecidableEq, Repr

/-- `if not isinstance(node_tag_value, list): node_tag_value = [node_tag_value]`, node.py:420-423. -/
def TagVal.atoms : TagVal → List TagAtom
  | .str s => [.str s]
  | .list l => l.map .str
  | .bool b => [.bool b]

/-- `matches_query`, node.py:400-430. `none` as value of a query stands for `None`. The intersection of the two sets
(node.py:424) is tested by looking for an element of the query among the tag's. -/
def matchesQuery (tags : Dict String TagVal) : Dict String (Option TagVal) → Bool
  | [] => true
  | (tag, value) :: rest =>
    match tags.get? tag with
    | none => false
    | some nodeValue =>
      match value with
      | none => matchesQuery tags rest
      | some q =>
        if q.atoms.any (fun a => decide (a ∈ nodeValue.atoms)) then matchesQuery tags rest else false

/-- A node with its tags: the part of `Variable`/`HamiltonNode` (graph_types.py:100-160) that `list_available_variables`
looks at. -/
structure Tagged where
  name : String
  tags : Dict String TagVal
  deriving DecidableEq, Repr

/-- The values a query accepts, driver.py:870-877: a string, a non-empty list or `None`. -/
def validQueryValue : Option TagVal → Bool
  | none => true
  | some (.str _) => true
  | some (.list l) => decide (l.length ≠ 0)
  | some (.bool _) => false

/-- `Driver.list_available_variables`, driver.py:837-887: no query (`None` or an empty dict, both falsy at driver.py:869)
lists every node; `none` is the `ValueError` of driver.py:878-879. -/
def listAvailable (nodes : List Tagged) : Option (Dict String (Option TagVal)) → Option (List Tagged)
  | none => some nodes
  | some [] => some nodes
  | some (p :: q) =>
    if ((p :: q).map Prod.snd).all validQueryValue then some (nodes.filter (fun n => matchesQuery n.tags (p :: q))) else none

end Verif
