import Verif.Model.Driver

/-!
Drawings of a dataflow: hamilton/graph.py:202-664 (`create_graphviz_graph`), 767-823 (`display_all`), 855-948 (`display`) and
hamilton/driver.py:890-1092, 1150-1281, 1320-1440 (the methods that draw).

A drawing is the list of statements of the DOT document in the order in which they are written.  Left out: colours and shapes
beyond the class that determines them, `orient`, `graphviz_kwargs`, `custom_style_function`, the rendering of the document to a
file, and the case that graphviz is not installed.
-/
namespace Verif.Visualize
variable {T V : Type}

/-- `VisualizationNodeModifiers`, graph.py:31-37. -/
inductive Modifier where
  | isOutput
  | isPath
  | isUserInput
  | isOverride
  deriving DecidableEq, Repr

/-- The classes that determine the look of a box, in the order of the legend: `sorted_types`, graph.py:414-425. -/
inductive Look where
  | config
  | input
  | function
  | cluster
  | field
  | output
  | materializer
  | override
  | expand
  | collect
  deriving DecidableEq, Repr

/-- The strings of graph.py:414-425; they are also the identifiers of the boxes of the legend (graph.py:431). -/
def Look.key : Look → Name
  | .config => "config"
  | .input => "input"
  | .function => "function"
  | .cluster => "cluster"
  | .field => "field"
  | .output => "output"
  | .materializer => "materializer"
  | .override => "override"
  | .expand => "expand"
  | .collect => "collect"

/-- `sorted_types`, graph.py:414-425. -/
def Look.all : List Look :=
  [.config, .input, .function, .cluster, .field, .output, .materializer, .override, .expand, .collect]

/-- The text in a box: a name and a type (`_get_node_label`, graph.py:260-284), or the rows of a table of inputs
(`_get_input_label`, graph.py:286-297). -/
inductive Label where
  | text (name type : String)
  | table (rows : List (Name × String))
  deriving DecidableEq, Repr

/-- One statement of the DOT document.  `box`: `digraph.node(id, label=…, **style)`, with `looks` the classes whose styles are
applied, in that order, `path` whether the colour of a path is the fallback colour (graph.py:549-552) and `inside` the subgraph in
which the statement stands.  `arrow`: `digraph.edge(src, dst, **style)` with the decorations of graph.py:380-396 and the path colour. -/
inductive Stmt where
  | box (id : Name) (label : Option Label) (looks : List Look) (path : Bool) (inside : Option Name)
  | arrow (src dst : Name) (fromExpand toCollect path : Bool)
  deriving DecidableEq, Repr

/-- What the drawing uses of a node besides its place in the graph: the name of its type (`get_type_as_string`), whether it has
originating functions, and its tags: `hamilton.config`, `hamilton.data_saver(.classname)`, `hamilton.data_loader(.classname)`
(with the tests of graph.py:508-521) and the columns of the schema tag, already formatted (graph.py:562-576). -/
structure Meta (T : Type) where
  typeName : T → String
  originating : Name → Bool
  configTag : Name → Option String
  saver : Name → Option String
  loader : Name → Option String
  columns : Name → List String

/-- The options of graph.py:202-215. -/
structure Options where
  strict : Bool
  showLegend : Bool
  hideInputs : Bool
  dedupInputs : Bool
  displayFields : Bool

/-- `_get_node_type`, graph.py:299-315. -/
def nodeType (m : Meta T) (n : Node T V) : Look :=
  if n.kind == .external && !n.dependedOnBy.isEmpty then .input
  else if n.kind == .external && !m.originating n.name && n.dependedOnBy.isEmpty then .config
  else .function

/-- The label of the box of a function: graph.py:477, 488-491, 508-510, 517-521.  A later assignment replaces an earlier one. -/
def boxLabel (m : Meta T) (n : Node T V) : Label :=
  match m.loader n.name with
  | some c => .text n.name c
  | none =>
    match m.saver n.name with
    | some c => .text n.name c
    | none =>
      match m.configTag n.name with
      | some k => .text (n.name ++ ": " ++ k) (m.typeName n.typ)
      | none => .text n.name (m.typeName n.typ)

/-- The classes applied to the box of a function, in order: graph.py:493-547. -/
def boxLooks (m : Meta T) (mods : List Modifier) (n : Node T V) : List Look :=
  [.function] ++ (if n.kind = .expand then [.expand] else []) ++ (if n.kind = .collect then [.collect] else [])
    ++ (if (m.saver n.name).isSome then [.materializer] else [])
    ++ (if (m.loader n.name).isSome then [.materializer] else [])
    ++ (if mods.contains .isOutput then [.output] else [])
    ++ (if mods.contains .isOverride then [.override] else [])

/-- `node_modifiers.get(n.name, set())`, graph.py:537-538, 610, 625. -/
def modsOf (mods : Dict Name (List Modifier)) (k : Name) : List Modifier := (mods.get? k).getD []

/-- The columns that are drawn for a node, graph.py:557. -/
def shownColumns (m : Meta T) (o : Options) (k : Name) : List String :=
  if o.displayFields then m.columns k else []

/-- The body of the loop graph.py:476-604 for one node: the statements written. -/
def drawNode (m : Meta T) (o : Options) (mods : Dict Name (List Modifier)) (n : Node T V) : List Stmt :=
  match nodeType m n with
  | .function =>
    .box n.name (some (boxLabel m n)) (boxLooks m (modsOf mods n.name) n) ((modsOf mods n.name).contains .isPath) none
    :: (if shownColumns m o n.name = [] then []
        else (shownColumns m o n.name).map
            (fun c => .box (n.name ++ ":" ++ c) (some (.text c "")) [.function, .field] false (some ("cluster_" ++ n.name)))
          ++ [.box n.name none [] false (some ("cluster_" ++ n.name))])
  | _ => []

/-- What the same iteration adds to `seen_node_types`. -/
def seenBy (m : Meta T) (o : Options) (mods : Dict Name (List Modifier)) (n : Node T V) : List Look :=
  match nodeType m n with
  | .input => [.input]
  | .function =>
    (if (m.configTag n.name).isSome then [.config] else []) ++ boxLooks m (modsOf mods n.name) n
      ++ (if shownColumns m o n.name = [] then [] else [.cluster, .field])
  | _ => []

/-- The boxes of the configuration, graph.py:469-472.  `shown` is `str(config_value)`. -/
def drawConfig (shown : V → String) (config : Dict Name V) : List Stmt :=
  config.map (fun p => .box p.1 (some (.text p.1 (shown p.2))) [.config] false none)

/-- `input_node_name`, graph.py:641. -/
def tableName (k : Name) : Name := "_" ++ k ++ "_inputs"

/-- Equality of frozensets of nodes. -/
def sameSet (a b : List Name) : Bool := a.all b.contains && b.all a.contains

/-- The dependencies that are looked at, graph.py:613-615. -/
def keptDeps (o : Options) (sel : List Name) (n : Node T V) : List Name :=
  n.dependencies.filter (fun d => !(o.strict && !sel.contains d))

/-- `_get_node_type(d) == "input"` for a dependency given by name, graph.py:617-622. -/
def isInputDep (m : Meta T) (g : Graph T V) (d : Name) : Bool := (g.get? d).any (fun dn => nodeType m dn == .input)

/-- `d.node_role == EXPAND`, graph.py:624. -/
def isExpandDep (g : Graph T V) (d : Name) : Bool := (g.get? d).any (fun dn => dn.kind == .expand)

/-- The arrows between boxes of functions that end at `n`, graph.py:608-633. -/
def drawArrows (m : Meta T) (g : Graph T V) (o : Options) (mods : Dict Name (List Modifier)) (sel : List Name) (n : Node T V) :
    List Stmt :=
  ((keptDeps o sel n).filter (fun d => !isInputDep m g d)).map (fun d =>
    .arrow d n.name (isExpandDep g d) (n.kind == .collect)
      ((modsOf mods d).contains .isPath && (modsOf mods n.name).contains .isPath))

/-- `input_nodes`, graph.py:612, 621. -/
def inputDeps (m : Meta T) (g : Graph T V) (o : Options) (sel : List Name) (n : Node T V) : List Name :=
  ((keptDeps o sel n).filter (isInputDep m g)).foldl setAdd []

/-- A row of the table, graph.py:292-296. -/
def tableRow (m : Meta T) (g : Graph T V) (d : Name) : Name × String :=
  (d, ((g.get? d).map (fun dn => m.typeName dn.typ)).getD "")

/-- The tables already drawn that may be used again, `input_sets`, graph.py:607: from a set of inputs to the name of its table. -/
abbrev Tables := List (List Name × Name)

/-- The inputs of one node, graph.py:635-659. -/
def drawInputs (m : Meta T) (g : Graph T V) (o : Options) (n : Node T V) (ins : List Name) (tables : Tables) :
    List Stmt × Tables :=
  if o.hideInputs then ([], tables)
  else if ins = [] then ([], tables)
  else
    match tables.find? (fun t => sameSet t.1 ins) with
    | some t => ([.arrow t.2 n.name false false false], tables)
    | none =>
      ([.box (tableName n.name) (some (.table (ins.map (tableRow m g)))) [.input] false none,
        .arrow (tableName n.name) n.name false false false],
       if o.dedupInputs then tables ++ [(ins, tableName n.name)] else tables)

/-- The loop graph.py:606-659. -/
def drawEdges (m : Meta T) (g : Graph T V) (o : Options) (mods : Dict Name (List Modifier)) (sel : List Name) :
    List (Node T V) → Tables → List Stmt
  | [], _ => []
  | n :: rest, tables =>
    drawArrows m g o mods sel n ++ ((drawInputs m g o n (inputDeps m g o sel n) tables).1
      ++ drawEdges m g o mods sel rest (drawInputs m g o n (inputDeps m g o sel n) tables).2)

/-- The name of the legend's subgraph, graph.py:404-406. -/
def legendName : Name := "cluster__legend"

/-- `_get_legend`, graph.py:398-438 (no custom style function): one box for every class seen, in a fixed order. -/
def drawLegend (seen : List Look) : List Stmt :=
  (Look.all.filter (fun l => seen.contains l)).map (fun l => .box l.key none [l] false (some legendName))

/-- `create_graphviz_graph`, graph.py:202-664.  `nodes` is the set of nodes in the order of iteration. -/
def createGraph (m : Meta T) (shown : V → String) (g : Graph T V) (config : Dict Name V) (o : Options)
    (mods : Dict Name (List Modifier)) (nodes : List (Node T V)) : List Stmt :=
  drawConfig shown config ++ (nodes.flatMap (drawNode m o mods)
    ++ (drawEdges m g o mods (nodes.map (·.name)) nodes []
      ++ if o.showLegend then drawLegend (nodes.flatMap (seenBy m o mods)) else []))

/-- `display`, graph.py:855-948, on nodes given by name: `create_graphviz_graph` with the driver's configuration. -/
def display (m : Meta T) (shown : V → String) (fg : FnGraph T V) (o : Options) (mods : Dict Name (List Modifier))
    (sel : List Name) : List Stmt :=
  createGraph m shown fg.nodes fg.config o mods (sel.filterMap (fun k => fg.nodes.get? k))

/-- `Driver.display_all_functions`, driver.py:890-941 → `FunctionGraph.display_all`, graph.py:767-823: every node, not strict. -/
def displayAll (m : Meta T) (shown : V → String) (fg : FnGraph T V) (o : Options) : List Stmt :=
  display m shown fg { o with strict := false }
    ((fg.nodes.filter (fun p => p.2.userDefined)).map (fun p => (p.2.name, [Modifier.isUserInput]))) fg.nodes.keys

/-- `node_modifiers[k].add(x)` after `if k not in node_modifiers: node_modifiers[k] = set()`, driver.py:994-996, 1003-1005,
1411-1413. -/
def addMod (x : Modifier) (mods : Dict Name (List Modifier)) (k : Name) : Dict Name (List Modifier) :=
  mods.set k (modsOf mods k ++ [x])

/-- `node_modifiers` of `_visualize_execution_helper`, driver.py:992-1005. -/
def executionMods (finalVars : List Name) (overrides : Option (Dict Name V)) (s : Visited) (sel : List Name) :
    Dict Name (List Modifier) :=
  (sel.filter (fun k => isOverridden overrides k)).foldl (addMod .isOverride)
    (s.userNodes.foldl (addMod .isUserInput) (finalVars.foldl (fun d k => d.set k [Modifier.isOutput]) []))

/-- `Driver.visualize_execution`, driver.py:1027-1092 → `_visualize_execution_helper`, driver.py:943-1024: what would be executed,
after the inputs are validated (unless `bypass_validation`). -/
def visualizeExecution (m : Meta T) (shown : V → String) (o : TypeOracle T V) (fg : FnGraph T V) (opts : Options)
    (bypass : Bool) (finalVars : List Name) (inputs overrides : Option (Dict Name V)) : Except DriverErr (List Stmt) :=
  match getUpstreamNodes fg finalVars inputs overrides with
  | .err e _ => .error (.query e)
  | .ok s =>
    match (if bypass then .ok () else validateInputs o fg s.userNodes inputs s.nodes) with
    | .error e => .error e
    | .ok () =>
      .ok (display m shown fg { opts with strict := true }
        (executionMods finalVars overrides s (s.userNodes.foldl setAdd s.nodes)) (s.userNodes.foldl setAdd s.nodes))

/-- The direct dependencies of a node, by name. -/
def depsOf (g : Graph T V) (k : Name) : List Name := ((g.get? k).map (·.dependencies)).getD []

/-- `Driver.display_downstream_of`, driver.py:1150-1216: the nodes downstream and their direct dependencies. -/
def displayDownstreamOf (m : Meta T) (shown : V → String) (fg : FnGraph T V) (opts : Options) (names : List Name) :
    Except QueryErr (List Stmt) :=
  match getDownstreamNodes fg names with
  | .err e _ => .error e
  | .ok s =>
    .ok (display m shown fg { opts with strict := true } [] ((s.nodes.flatMap (depsOf fg.nodes)).foldl setAdd s.nodes))

/-- `Driver.display_upstream_of`, driver.py:1219-1281. -/
def displayUpstreamOf (m : Meta T) (shown : V → String) (fg : FnGraph T V) (opts : Options) (names : List Name) :
    Except QueryErr (List Stmt) :=
  match getUpstreamNodes fg names none none with
  | .err e _ => .error e
  | .ok s =>
    .ok (display m shown fg { opts with strict := true } (s.userNodes.map (fun k => (k, [Modifier.isUserInput]))) s.nodes)

/-- `_get_nodes_between`, driver.py:1320-1335. -/
def nodesForPath (fg : FnGraph T V) (up down : Name) : Except QueryErr (List Name) :=
  match getDownstreamNodes fg [up] with
  | .err e _ => .error e
  | .ok sd =>
    match getUpstreamNodes fg [down] none none with
    | .err e _ => .error e
    | .ok su => .ok (sd.nodes.filter (fun x => su.nodes.contains x))

/-- `Driver.visualize_path_between`, driver.py:1338-1440.  `none` is the ValueError of lines 1405-1408. -/
def visualizePathBetween (m : Meta T) (shown : V → String) (fg : FnGraph T V) (opts : Options) (strictPath : Bool)
    (up down : Name) : Except QueryErr (Option (List Stmt)) :=
  if !fg.nodes.has up then .error (.unknown [up])
  else if !fg.nodes.has down then .error (.unknown [down])
  else
    match nodesForPath fg up down with
    | .error e => .error e
    | .ok path =>
      if path = [] then .ok none
      else .ok (some (display m shown fg { opts with strict := true }
        (path.foldl (addMod .isPath)
          ((fg.nodes.filter (fun p => p.2.userDefined)).map (fun p => (p.2.name, [Modifier.isUserInput]))))
        (if strictPath then path else (path.flatMap (depsOf fg.nodes)).foldl setAdd path)))

/-- One character under `html.escape(s, quote=True)`, used at graph.py:283.  Python replaces `&` first and then the other four
characters, which is one replacement per character. -/
def escapeChar (c : Char) : List Char :=
  if c = '&' then ['&', 'a', 'm', 'p', ';']
  else if c = '<' then ['&', 'l', 't', ';']
  else if c = '>' then ['&', 'g', 't', ';']
  else if c = '"' then ['&', 'q', 'u', 'o', 't', ';']
  else if c = '\'' then ['&', '#', 'x', '2', '7', ';']
  else [c]

/-- `html.escape`. -/
def escape (s : List Char) : List Char := s.flatMap escapeChar

/-- The cut of graph.py:280-281; `MAX_STRING_LENGTH` is 80 (graph.py:239). -/
def shorten (s : List Char) : List Char := if 80 < s.length then s.take 80 ++ ['[', '.', '.', '.', ']'] else s

/-- `<<b>`, graph.py:284. -/
def labelOpen : List Char := ['<', '<', 'b', '>']

/-- `</b><br /><br /><i>`, graph.py:284. -/
def labelMid : List Char :=
  ['<', '/', 'b', '>', '<', 'b', 'r', ' ', '/', '>', '<', 'b', 'r', ' ', '/', '>', '<', 'i', '>']

/-- `</i>>`, graph.py:284. -/
def labelClose : List Char := ['<', '/', 'i', '>', '>']

/-- The string `_get_node_label` returns, graph.py:280-284: the name as it is, the type cut and escaped. -/
def labelHtml (name type : List Char) : List Char :=
  labelOpen ++ (name ++ (labelMid ++ (escape (shorten type) ++ labelClose)))

end Verif.Visualize
