import Verif.Model.Behaviors
import Verif.Model.Subdag

/-!
`@dataloader` and `@datasaver` (`hamilton/function_modifiers/adapters.py:692-874`).
-/
namespace Verif
variable {T V : Type}

/-- What `inspect.signature(fn).return_annotation` is: nothing, a text (under `from __future__ import annotations`, or a quoted
annotation), or the type itself; adapters.py:736-742, 849-855. -/
inductive Annotated where
  | missing
  | text
  | given
  deriving DecidableEq

/-- What the decorators need to know of types: the arguments of a tuple type (`typing_inspect.is_tuple_type`, `get_args`), and
whether a type is `dict` or `Dict` without arguments; adapters.py:742-751, 855. -/
structure TyOps (T : Type) where
  tupleArgs : T → Option (List T)
  isDict : T → Bool

/-- A function: its annotation, and the node `Node.from_fn` makes of it under its own name (node.py:265-305), where the types are
resolved (`typing.get_type_hints`), with its tags. -/
structure DataFn (T V : Type) where
  annotated : Annotated
  node : Node T V
  tags : Dict String TagVal

/-- A node with its tags, node.py:70-84. -/
structure TaggedNode (T V : Type) where
  node : Node T V
  tags : Dict String TagVal

/-- `dataloader.validate`, adapters.py:734-754. -/
def validateLoader (ty : TyOps T) (f : DataFn T V) : Except UserErr Unit :=
  match f.annotated with
  | .missing => .error "InvalidDecoratorException"
  | .text => .error "InvalidDecoratorException"
  | .given =>
    match ty.tupleArgs f.node.typ with
    | none => .error "InvalidDecoratorException"
    | some [_, second] => if ty.isDict second then .ok () else .error "InvalidDecoratorException"
    | some _ => .error "InvalidDecoratorException"

/-- The tags of the loader node, adapters.py:769-779. -/
def loaderTags (name : Name) : Dict String TagVal :=
  [("hamilton.data_loader", .bool true), ("hamilton.data_loader.has_metadata", .bool true),
   ("hamilton.data_loader.node", .str name), ("hamilton.data_loader.classname", .str (name ++ "()")),
   ("hamilton.data_loader.source", .str "loader")]

/-- The tags of the filter node, adapters.py:789-796. -/
def filterTags (name : Name) : Dict String TagVal :=
  [("hamilton.data_loader", .bool true), ("hamilton.data_loader.has_metadata", .bool false),
   ("hamilton.data_loader.node", .str name), ("hamilton.data_loader.classname", .str (name ++ "()")),
   ("hamilton.data_loader.source", .str name)]

/-- `filter_function`, adapters.py:781-782. `first` is `[0]`. -/
def filterFunction (first : V → Except UserErr V) (name : Name) (kw : Dict Name V) : Except UserErr V :=
  match kw.get? (name ++ ".loader") with
  | none => .error "KeyError"
  | some v => first v

/-- `dataloader.generate_nodes`, adapters.py:756-799; the name of the copy is `namespace.name`, node.py:166-168, after `validate`. -/
def dataLoader (ty : TyOps T) (first : V → Except UserErr V) (f : DataFn T V) : Except UserErr (List (TaggedNode T V)) :=
  match validateLoader ty f with
  | .error e => .error e
  | .ok () =>
    match ty.tupleArgs f.node.typ with
    | some (t :: _) =>
      .ok [{ node := { f.node with name := f.node.name ++ ".loader" }, tags := f.tags.merge (loaderTags f.node.name) },
           { node := { name := f.node.name, typ := t, kind := .standard,
                       inputTypes := [(f.node.name ++ ".loader", (f.node.typ, .required))],
                       dependencies := [], dependedOnBy := [], fn := filterFunction first f.node.name },
             tags := filterTags f.node.name }]
    | _ => .error "IndexError"

/-- `datasaver.validate`, adapters.py:847-856. -/
def validateSaver (ty : TyOps T) (f : DataFn T V) : Except UserErr Unit :=
  match f.annotated with
  | .missing => .error "InvalidDecoratorException"
  | .text => .error "InvalidDecoratorException"
  | .given => if ty.isDict f.node.typ then .ok () else .error "InvalidDecoratorException"

/-- `datasaver.generate_nodes`, adapters.py:858-874, after `validate`. -/
def dataSaver (ty : TyOps T) (f : DataFn T V) : Except UserErr (List (TaggedNode T V)) :=
  match validateSaver ty f with
  | .error e => .error e
  | .ok () =>
    .ok [{ node := f.node,
           tags := f.tags.merge [("hamilton.data_saver", .bool true), ("hamilton.data_saver.sink", .str f.node.name),
             ("hamilton.data_saver.classname", .str (f.node.name ++ "()"))] }]

/-- What `resolve_behaviors` looks at, caching/adapter.py:945-987. -/
def TaggedNode.toCNode (n : TaggedNode T V) : CNode := ⟨n.node.name, decide (n.node.kind = .expand), n.tags⟩

/-- The name and tags of a node in a `@subdag`: `copy_with(name=...)` keeps the tags, recursive.py:368-370. -/
def TaggedNode.inNamespace (ns : Name) (n : TaggedNode T V) : TaggedNode T V :=
  { n with node := { n.node with name := assignNamespace n.node.name ns } }

end Verif
