import Verif.Dict
import Verif.Model.Node
import Verif.Model.Fingerprint

/-!
Code versions of nodes and dataflows, and the comparison of two versions of a dataflow by the command line tool:
`hamilton/graph_types.py:26-240`, `hamilton/cli/logic.py:71-194` and the part of `hamilton/graph.py:40-188` that records which
functions a node originates from.
-/
namespace Verif

/-- A Python syntax tree, as far as `_remove_docs_and_comments` looks at it (graph_types.py:44-58): function definitions
(`head`: kind and name; `extra`: arguments, decorators, annotations) with their statements, statements consisting of a string
literal, and everything else.  Comments are not part of a tree. -/
inductive PyAst where
  | fnDef (head : String) (extra body : List PyAst)
  | strExpr (s : String)
  | other (label : String) (children : List PyAst)

/-- `n.body[1:]` if the first statement is a string, graph_types.py:48-58. -/
def dropDoc : List PyAst → List PyAst
  | .strExpr _ :: rest => rest
  | body => body

mutual
/-- The effect of the loop in `_remove_docs_and_comments`, graph_types.py:44-58.  Simplification: `ast.walk` visits the nodes
breadth first and edits in place; as every edit concerns only the statement list of the function visited, the result is written
as a recursion.  A statement list is edited before its members are visited; members are never turned into or from strings,
so that both orders agree. -/
def stripDocs : PyAst → PyAst
  | .fnDef h e b => .fnDef h (stripDocsAll e) (dropDoc (stripDocsAll b))
  | .strExpr s => .strExpr s
  | .other l c => .other l (stripDocsAll c)
/-- The same for a list of trees. -/
def stripDocsAll : List PyAst → List PyAst
  | [] => []
  | a :: as => stripDocs a :: stripDocsAll as
end

/-- The functions of Python's standard library used for versions: `str.strip`, `ast.parse` (`none`: it raises), `ast.unparse`
and sha256 of a string, and of the `str` of a list of strings (graph_types.py:44, 60, 73, 83, 214). -/
structure SrcOps where
  trim : String → String
  parse : String → Option PyAst
  unparse : PyAst → String
  sha : String → String
  shaList : List String → String

/-- `hash_source_code`, graph_types.py:65-86. -/
def hashSourceCode (ops : SrcOps) (source : String) (strip : Bool) : String :=
  let source := ops.trim source
  if strip then
    match ops.parse source with
    | none => ops.sha source
    | some t => ops.sha (ops.unparse (stripDocs t))
  else ops.sha source

/-- A function object: its name and what `inspect.getsource` returns (`none`: it raises `OSError`). -/
structure FnObj where
  name : Name
  source : Option String

/-- A node as `HamiltonNode.from_node` copies it (graph_types.py:130-157); types, tags and documentation do not enter the
version and are left out. `params` are the names of `input_types`. -/
structure VNode where
  name : Name
  external : Bool
  orig : Option (List FnObj)
  params : List Name

/-- `HamiltonNode.version`, graph_types.py:159-183. -/
def VNode.version (ops : SrcOps) (n : VNode) : Option String :=
  match n.orig with
  | none => if n.external then some n.name else none
  | some [] => if n.external then some n.name else none
  | some (f :: _) =>
    match f.source with
    | none => none
    | some s => some (hashSourceCode ops s true)

/-- `Node.from_fn` (node.py:263-305) as used for an ordinary function (base.py:627), and for a step of a pipe
(macros.py:1392-1397) or of `mutate`: the function is *not* recorded as originating function. -/
def VNode.fromFn (name : Name) (_fn : FnObj) (params : List Name) : VNode :=
  { name := name, external := false, orig := none, params := params }

/-- `_add_original_function_to_nodes`, base.py:747-771: all nodes made from a decorated function get that function. -/
def addOriginal (f : FnObj) (nodes : List VNode) : List VNode :=
  nodes.map (fun n => { n with orig := some (n.orig.getD [] ++ [f]) })

/-- The originating functions that `add_dependency` records on the node of a parameter, graph.py:59-111.  `tighter f p`: the
type of the parameter `p` in `f` replaces the one of the input `p` (the types themselves are in `Model/Build`). -/
def recordOrigin (tighter : Name → Name → Bool) (f : VNode) (nodes : Dict Name VNode) (p : Name) : Dict Name VNode :=
  match nodes.get? p with
  | some r =>
    if r.external && tighter f.name p then nodes.set p { r with orig := some (r.orig.getD [] ++ f.orig.getD []) } else nodes
  | none => nodes.set p { name := p, external := true, orig := f.orig, params := [] }

/-- `update_dependencies`, graph.py:135-142. -/
def recordOrigins (tighter : Name → Name → Bool) (nodes : Dict Name VNode) : Dict Name VNode :=
  nodes.foldl (fun (acc : Dict Name VNode) q => q.2.params.foldl (fun acc p => recordOrigin tighter q.2 acc p) acc) nodes

/-- The nodes of a driver with their originating functions, graph.py:165-188: `fns` are the nodes made from the functions of
the modules, `config` the keys of the configuration. -/
def versionedGraph (tighter : Name → Name → Bool) (config : List Name) (fns : List VNode) : Dict Name VNode :=
  let nodes := (fns.filter (fun n => !config.contains n.name)).foldl (fun (d : Dict Name VNode) n => d.set n.name n) []
  config.foldl (fun (d : Dict Name VNode) k => if d.has k then d else d.set k { name := k, external := true, orig := none, params := [] })
    (recordOrigins tighter nodes)

/-- `hash_hamilton_nodes`, cli/logic.py:71-76. -/
def nodeVersions (ops : SrcOps) (g : Dict Name VNode) : Dict Name (Option String) :=
  g.map (fun p => (p.1, p.2.version ops))

/-- `HamiltonGraph.version`, graph_types.py:214-222. -/
def graphVersion (ops : SrcOps) (g : Dict Name VNode) : String :=
  ops.shaList (sortBy strLe (g.filterMap (fun p => p.2.version ops)))

/-- `hash_dataflow`, cli/logic.py:97-102: sorting raises if `None` is compared, which happens as soon as there are two values
and one of them is `None`.  (A single `None` is hashed as the string `[None]`.) -/
def hashDataflow (ops : SrcOps) (versions : Dict Name (Option String)) : Except UserErr String :=
  match versions with
  | [] => .ok (ops.shaList [])
  | [(_, none)] => .ok (ops.sha "[None]")
  | _ =>
    if versions.any (fun p => p.2.isNone) then .error "TypeError"
    else .ok (ops.shaList (sortBy strLe (versions.filterMap (fun p => p.2))))

/-- The result of `diff_versions`. -/
structure VersionDiff where
  currentOnly : List Name
  referenceOnly : List Name
  edit : List Name

/-- The first loop of `diff_versions`, cli/logic.py:176-186: names only in the current map, and edited ones. -/
def diffCurrent (reference : Dict Name (Option String)) : Dict Name (Option String) → List Name × List Name
  | [] => ([], [])
  | (k, v) :: rest =>
    let r := diffCurrent reference rest
    match (reference.get? k).join with
    | none => (k :: r.1, r.2)
    | some w => if v ≠ some w then (r.1, k :: r.2) else r

/-- `diff_versions`, cli/logic.py:170-194. -/
def diffVersions (current reference : Dict Name (Option String)) : VersionDiff :=
  let c := diffCurrent reference current
  { currentOnly := c.1, edit := c.2
    referenceOnly := (reference.filter (fun p => (current.get? p.1).join.isNone)).map (·.1) }

end Verif
