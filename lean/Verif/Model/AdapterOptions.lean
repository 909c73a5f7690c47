import Verif.Model.Node

/-!
How the data loaders and savers of the plugins turn their options into a call of the library.

An adapter is a dataclass: its options are the fields.  `load_data` and `save_data` build a dict of
keyword arguments out of the fields (`_get_loading_kwargs`, `_get_saving_kwargs`), call one function
of the library with the location of the data and these keyword arguments, and then gather metadata
about the location.  The bodies of these functions are a handful of kinds of statement, which are
represented as data here and run by an interpreter; the tables of `Model/AdapterTables*.lean` give
fields and bodies of each adapter.
-/

namespace Verif.Options

/-- Python values as far as the adapters tell them apart.  `obj` is any other object; the flag says
whether `copy.deepcopy` works on it (it does not for an open file).  `buffer` is an object that is
read or written like a file (`BytesIO`, an open file), with the same flag.  `record` is an instance
of a dataclass.  Simplified: lists and tuples are `obj`. -/
inductive Val where
  | none
  | bool (b : Bool)
  | int (n : Int)
  | str (s : String)
  | path (s : String)
  | buffer (copies : Bool) (id : Nat)
  | obj (copies : Bool) (id : Nat)
  | dict (items : List (Name × Val))
  | record (items : List (Name × Val))
  deriving Inhabited

/-- The exceptions that can occur: TypeError (also of `copy.deepcopy`), ValueError, KeyError,
AttributeError. -/
inductive Err where
  | type
  | value
  | key
  | attribute
  deriving DecidableEq

/-- The test of an `if` of a `_get_…_kwargs` function: `self.f is not None`, `self.f is not False`
(pandas_extensions.py:665), `pd.__version__ >= "2.0"` (pandas_extensions.py:243), `pd.__version__ <
"2.0"` (pandas_extensions.py:376), `self.f == n` (pandas_extensions.py:1230). -/
inductive Cond where
  | notNone (field : Name)
  | notFalse (field : Name)
  | pandas2
  | pandas1
  | equals (field : Name) (n : Int)
  deriving DecidableEq

/-- The statements of the `_get_…_kwargs` functions.

* `set cs key field`: `if <cs>: kwargs[key] = self.field` (pandas_extensions.py:154-245);
* `asdict`: `kwargs = dataclasses.asdict(self)` (pandas_extensions.py:1457);
* `del key`: `del kwargs[key]` (pandas_extensions.py:1461);
* `delIfNone key`: `if kwargs[key] is None: del kwargs[key]` (pandas_extensions.py:1465-1466);
* `update field`: `if self.field is not None: kwargs.update(self.field)`
  (pandas_extensions.py:429-430);
* `popUpdate key`: `d = kwargs.pop(key, None)`, `if d: kwargs.update(d)`
  (huggingface_extensions.py:83-86);
* `rename new old`: `kwargs[new] = kwargs.pop(old, None)` (huggingface_extensions.py:89);
* `changed skip`: every field outside `skip` whose value differs from its default, under its own name
  (dlt_extensions.py:107-114). -/
inductive Stmt where
  | set (conds : List Cond) (key field : Name)
  | asdict
  | del (key : Name)
  | delIfNone (key : Name)
  | update (field : Name)
  | popUpdate (key : Name)
  | rename (new old : Name)
  | changed (skip : List Name)
  deriving DecidableEq

/-- `if self.k is not None: kwargs["k"] = self.k`, the usual statement (for example
pandas_extensions.py:156-157). -/
def own (k : Name) : Stmt := .set [.notNone k] k k

/-- Which keyword arguments a call gets: all, or (PandasExcelWriter, pandas_extensions.py:1542-1543)
only those of a list, or only the others. -/
inductive Pick where
  | all
  | only (keys : List Name)
  | others (keys : List Name)

/-- The text of a call of the library: the function, the fields passed by position, the fields passed
by name (as pairs of keyword and field), and the part of `kwargs` that is passed. -/
structure CallText where
  function : Name
  positional : List Name
  named : List (Name × Name)
  pick : Pick

/-- What `__post_init__` does: nothing, or (PandasPickleReader, pandas_extensions.py:481-492) demand
exactly one of two fields and copy it to the first. -/
inductive PostInit where
  | nothing
  | oneOf (first second : Name)

/-- The metadata gathered after the call: about the file named by a field (`get_file_metadata`,
`get_file_and_dataframe_metadata`), about a query or table (`get_sql_metadata`), or none that looks
at a field. -/
inductive MetaText where
  | file (field : Name)
  | sql (field : Name)
  | other

/-- A data adapter: where it is defined, its fields with their defaults (`none`: required), and the
text of its functions. -/
structure Adapter where
  name : Name
  fields : List (Name × Option Val)
  post : PostInit
  body : List Stmt
  calls : List CallText
  metadata : MetaText

/-- A call of a function of the library. -/
structure Call where
  function : Name
  positional : List Val
  keywords : Dict Name Val

/-- What came of using an adapter: the calls that were made, and the exception that ended it, if
any. -/
structure Outcome where
  calls : List Call
  error : Option Err

/-- `x is None`. -/
def Val.isNone : Val → Bool
  | .none => true
  | _ => false

/-- `x is False`. -/
def Val.isFalse : Val → Bool
  | .bool b => !b
  | _ => false

/-- `x == n` for an int literal (a bool equals 0 or 1 in Python; other objects are taken to differ). -/
def Val.equalsInt (n : Int) : Val → Bool
  | .int m => m == n
  | .bool b => (if b then 1 else 0) == n
  | _ => false

/-- `x == y`.  Simplified: dicts and dataclass instances differ from everything (they are compared with
defaults only, and none of those is a dict). -/
def Val.same : Val → Val → Bool
  | .none, .none => true
  | .bool a, .bool b => a == b
  | .int a, .int b => a == b
  | .str a, .str b => a == b
  | .path a, .path b => a == b
  | .buffer _ i, .buffer _ j => i == j
  | .obj _ i, .obj _ j => i == j
  | _, _ => false

/-- Truth value of a Python value.  Simplified: objects, paths and dataclass instances are true. -/
def Val.truthy : Val → Bool
  | .none => false
  | .bool b => b
  | .int n => n != 0
  | .str s => s != ""
  | .dict items => !items.isEmpty
  | _ => true

mutual
/-- `_asdict_inner` of the standard library's `dataclasses`, used through `dataclasses.asdict`
(pandas_extensions.py:1457): dataclass instances become dicts, recursively, and everything else is
copied with `copy.deepcopy`, which raises TypeError for an object that cannot be copied. -/
def copyVal : Val → Except Err Val
  | .buffer c i => if c then .ok (.buffer c i) else .error .type
  | .obj c i => if c then .ok (.obj c i) else .error .type
  | .dict items =>
    match copyItems items with
    | .error e => .error e
    | .ok items => .ok (.dict items)
  | .record items =>
    match copyItems items with
    | .error e => .error e
    | .ok items => .ok (.dict items)
  | v => .ok v

/-- The entries of a dict or the fields of a dataclass instance, in order: the loops of
`dataclasses.asdict` (pandas_extensions.py:1457). -/
def copyItems : List (Name × Val) → Except Err (List (Name × Val))
  | [] => .ok []
  | (k, v) :: rest =>
    match copyVal v with
    | .error e => .error e
    | .ok v =>
      match copyItems rest with
      | .error e => .error e
      | .ok rest => .ok ((k, v) :: rest)
end

/-- The field `f` of an instance (`self.f`); every field has a value. -/
def field (s : Dict Name Val) (f : Name) : Val := (s.get? f).getD .none

/-- The values of the fields after `__init__` (generated by `dataclasses.dataclass`, for example
pandas_extensions.py:89): what was given, else the default. -/
def settings (fields : List (Name × Option Val)) (args : Dict Name Val) : Dict Name Val :=
  fields.map fun f => (f.1, (args.get? f.1).getD (f.2.getD .none))

/-- `__init__` of a dataclass called with keyword arguments (for example pandas_extensions.py:89): an
unknown argument is a TypeError and so is a missing one without default. -/
def construct (fields : List (Name × Option Val)) (args : Dict Name Val) :
    Except Err (Dict Name Val) :=
  if args.keys.all fun k => fields.any fun f => f.1 == k then
    if fields.all fun f => f.2.isSome || args.has f.1 then .ok (settings fields args)
    else .error .type
  else .error .type

/-- `__post_init__` (pandas_extensions.py:481-492). -/
def postInit (p : PostInit) (s : Dict Name Val) : Except Err (Dict Name Val) :=
  match p with
  | .nothing => .ok s
  | .oneOf a b =>
    if (field s a).isNone && (field s b).isNone then .error .value
    else if !(field s a).isNone && !(field s b).isNone then .error .value
    else if (field s a).isNone then .ok (s.set a (field s b))
    else .ok s

/-- The test of an `if` (for example pandas_extensions.py:156, 243, 376, 665, 1230); `version` is
`pd.__version__`, and versions are compared as strings. -/
def Cond.holds (version : String) (s : Dict Name Val) : Cond → Bool
  | .notNone f => !(field s f).isNone
  | .notFalse f => !(field s f).isFalse
  | .pandas2 => !decide (version < "2.0")
  | .pandas1 => decide (version < "2.0")
  | .equals f n => (field s f).equalsInt n

/-- `kwargs.update(d)` (pandas_extensions.py:430, huggingface_extensions.py:86). -/
def updateWith (kw : Dict Name Val) (items : List (Name × Val)) : Dict Name Val :=
  items.foldl (fun kw p => kw.set p.1 p.2) kw

/-- `kwargs.update(x)` for any value.  Simplified: only a dict is accepted (Python also takes an
iterable of pairs). -/
def updateVal (kw : Dict Name Val) : Val → Except Err (Dict Name Val)
  | .dict items => .ok (updateWith kw items)
  | _ => .error .type

/-- One statement of a `_get_…_kwargs` function (citations at `Stmt`). -/
def Stmt.exec (fields : List (Name × Option Val)) (version : String) (s : Dict Name Val) :
    Stmt → Dict Name Val → Except Err (Dict Name Val)
  | .set cs key f, kw =>
    if cs.all (Cond.holds version s) then .ok (kw.set key (field s f)) else .ok kw
  | .asdict, _ => copyItems s
  | .del key, kw => if kw.has key then .ok (kw.del key) else .error .key
  | .delIfNone key, kw =>
    match kw.get? key with
    | none => .error .key
    | some v => if v.isNone then .ok (kw.del key) else .ok kw
  | .update f, kw => if (field s f).isNone then .ok kw else updateVal kw (field s f)
  | .popUpdate key, kw =>
    if (field kw key).truthy then updateVal (kw.del key) (field kw key) else .ok (kw.del key)
  | .rename new old, kw => .ok ((kw.del old).set new (field kw old))
  | .changed skip, kw =>
    .ok (fields.foldl (fun kw f =>
      if skip.contains f.1 then kw
      else if f.2.any (fun d => (field s f.1).same d) then kw
      else kw.set f.1 (field s f.1)) kw)

/-- The body of a `_get_…_kwargs` function (for example pandas_extensions.py:154-245). -/
def kwargsOf (fields : List (Name × Option Val)) (version : String) (s : Dict Name Val) :
    List Stmt → Dict Name Val → Except Err (Dict Name Val)
  | [], kw => .ok kw
  | t :: rest, kw =>
    match t.exec fields version s kw with
    | .error e => .error e
    | .ok kw => kwargsOf fields version s rest kw

/-- The part of the keyword arguments that a call gets (pandas_extensions.py:1542-1543). -/
def Pick.of (kw : Dict Name Val) : Pick → Dict Name Val
  | .all => kw
  | .only keys => kw.filter fun p => keys.contains p.1
  | .others keys => kw.filter fun p => !keys.contains p.1

/-- A call `f(self.a, …, key=self.b, …, **kwargs)` (for example pandas_extensions.py:249,
numpy_extensions.py:62-68); a keyword given twice is a TypeError. -/
def CallText.make (s kw : Dict Name Val) (c : CallText) : Except Err Call :=
  if (c.pick.of kw).keys.any fun k => c.named.any fun p => p.1 == k then .error .type
  else .ok
    { function := c.function
      positional := c.positional.map (field s)
      keywords := c.named.map (fun p => (p.1, field s p.2)) ++ c.pick.of kw }

/-- The calls of a `load_data` or `save_data`, in order. -/
def makeCalls (s kw : Dict Name Val) : List CallText → Except Err (List Call)
  | [] => .ok []
  | c :: rest =>
    match c.make s kw with
    | .error e => .error e
    | .ok call =>
      match makeCalls s kw rest with
      | .error e => .error e
      | .ok calls => .ok (call :: calls)

/-- `get_file_metadata`, io/utils.py:16-52, as far as it can raise: `urlparse` takes a string, `None`
(or bytes), and raises AttributeError for any other object.  Simplified: a dict or list, which is no
location, raises as well (an empty one would not), and `0`, `False` are taken as any other number. -/
def fileMetadata : Val → Option Err
  | .none => none
  | .str _ => none
  | .path _ => none
  | _ => some .attribute

/-- `get_sql_metadata`, io/utils.py:108-136, as far as it can raise: `"SELECT" in x` needs a string
(TypeError otherwise).  Simplified: any other object counts as no container. -/
def sqlMetadata : Val → Option Err
  | .str _ => none
  | _ => some .type

/-- The metadata of the location. -/
def MetaText.gather (s : Dict Name Val) : MetaText → Option Err
  | .file f => fileMetadata (field s f)
  | .sql f => sqlMetadata (field s f)
  | .other => none

/-- Using an adapter: construct it with keyword arguments, then `load_data` or `save_data` (for
example pandas_extensions.py:248-251).  The library's own functions are taken to return. -/
def Adapter.use (a : Adapter) (version : String) (args : Dict Name Val) : Outcome :=
  match construct a.fields args with
  | .error e => { calls := [], error := some e }
  | .ok s =>
    match postInit a.post s with
    | .error e => { calls := [], error := some e }
    | .ok s =>
      match kwargsOf a.fields version s a.body [] with
      | .error e => { calls := [], error := some e }
      | .ok kw =>
        match makeCalls s kw a.calls with
        | .error e => { calls := [], error := some e }
        | .ok calls => { calls := calls, error := a.metadata.gather s }

end Verif.Options
