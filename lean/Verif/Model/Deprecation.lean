import Verif.Model.Node

/-!
`hamilton/dev_utils/deprecation.py`: announcing that functions and classes go away. Texts of messages are left out except for what
they name.
-/
namespace Verif.Deprecation

/-- `Version`, deprecation.py:12-16. -/
structure Ver where
  major : Nat
  minor : Nat
  patch : Nat
  deriving DecidableEq, Repr

/-- `Version.__gt__`, deprecation.py:18-19: comparison of tuples, the first different component decides. -/
def Ver.gt (a b : Ver) : Bool :=
  if a.major ≠ b.major then decide (a.major > b.major)
  else if a.minor ≠ b.minor then decide (a.minor > b.minor)
  else decide (a.patch > b.patch)

/-- A component of `version.VERSION`, deprecation.py:22: a release candidate has texts. -/
inductive Part where
  | num (n : Nat)
  | text (t : String)
  deriving DecidableEq, Repr

/-- What is raised: `ValueError` and `TypeError` of Python, `DeprecationError` with what the message names
(deprecation.py:40-42, 111-128), a missing attribute, too deep recursion, and an exception of the user's function. -/
inductive Err where
  | value
  | type
  | deprecation (subject : Name) (since : Ver) (instead : Option Name) (guide : Option String)
  | attribute
  | recursion
  | user (e : String)
  deriving DecidableEq, Repr

/-- `Version.from_version_tuple`, deprecation.py:21-26. A text among the first three components is reported here; in Python it
would be at the comparison. -/
def fromTuple (t : List Part) : Except Err Ver :=
  match (if t.length > 3 then t.take 3 else t) with
  | [.num a, .num b, .num c] => .ok ⟨a, b, c⟩
  | _ => .error .type

/-- The fields of `deprecated`, deprecation.py:61-76; `raises` is whether `fail_action` is the default. -/
structure Notice where
  warn : Ver
  fail : Ver
  useThis : Option Name
  guide : Option String
  current : Ver
  raises : Bool
  deriving DecidableEq, Repr

/-- `__post_init__` and `_validate_fail_starting`, deprecation.py:88-108. -/
def make (d : Notice) : Except Err Notice :=
  if d.useThis = none ∧ d.guide = none then .error .value
  else if d.fail.major > 0 ∧ (d.fail.minor ≠ 0 ∨ d.fail.patch ≠ 0) then .error .value
  else if d.warn.gt d.fail then .error .value
  else .ok d

/-- What `warn_action` and `fail_action` are called with, deprecation.py:110-146. -/
structure Msg where
  failed : Bool
  subject : Name
  since : Ver
  instead : Option Name
  guide : Option String
  deriving DecidableEq, Repr

/-- `_do_deprecation_action` with `_should_fail` and `_should_warn`, deprecation.py:110-152: the messages, and the exception if
one is raised. -/
def action (d : Notice) (subject : Name) : List Msg × Option Err :=
  if d.current.gt d.fail then
    if d.raises then ([], some (.deprecation subject d.fail d.useThis d.guide))
    else ([⟨true, subject, d.fail, d.useThis, d.guide⟩], none)
  else if d.current.gt d.warn then ([⟨false, subject, d.fail, d.useThis, d.guide⟩], none)
  else ([], none)

/-- A decorated function, deprecation.py:166-173. -/
def callFn {A B : Type} (d : Notice) (name : Name) (f : A → Except Err B) (x : A) : List Msg × Except Err B :=
  match action d name with
  | (ms, some e) => (ms, .error e)
  | (ms, none) => (ms, f x)

/-! ### Classes -/

/-- What `__call__` of a class is: the method in the body of a class, or `new__call__` with its defaults (deprecation.py:179-181). -/
inductive Impl where
  | orig (cls : Name)
  | wrapper (cls : Name) (d : Notice)
  deriving DecidableEq, Repr

/-- A class with the attributes `__call__` and `__old_call__`, if it has them itself (deprecation.py:177-186). One base class. -/
structure Cls where
  base : Option Name
  call : Option Impl
  old : Option Impl
  deriving DecidableEq, Repr

/-- The classes, the newest first; the base of a class is older (Python, used in deprecation.py:177-186). -/
abbrev World := List (Name × Cls)

/-- Reading an attribute of a class: its own, or that of its base (Python, used in deprecation.py:177 and 181). -/
def lookup (sel : Cls → Option Impl) : World → Name → Option Impl
  | [], _ => none
  | (m, c) :: rest, n =>
    if m = n then
      match sel c with
      | some i => some i
      | none =>
        match c.base with
        | none => none
        | some b => lookup sel rest b
    else lookup sel rest n

/-- Setting attributes of a class (Python, used in deprecation.py:177 and 186). -/
def assign (n : Name) (f : Cls → Cls) (w : World) : World :=
  w.map (fun p => if p.1 = n then (p.1, f p.2) else p)

/-- Decorating a class, deprecation.py:175-187. A class without `__call__` is left alone here. -/
def decorate (d : Notice) (n : Name) (w : World) : World :=
  match lookup Cls.call w n with
  | none => w
  | some i => assign n (fun c => { c with old := some i, call := some (.wrapper n d) }) w

/-- A class statement, with the decorator if there is one (as in macros.py:1070-1096, expanders.py:448-456). -/
structure Decl where
  name : Name
  base : Option Name
  defines : Bool
  notice : Option Notice
  deriving DecidableEq, Repr

/-- Executing a class statement (Python). -/
def define (c : Decl) (w : World) : World :=
  let w := (c.name, ⟨c.base, if c.defines then some (.orig c.name) else none, none⟩) :: w
  match c.notice with
  | none => w
  | some d => decorate d c.name w

/-- The class statements of a program, the newest first (Python). -/
def build (ds : List Decl) : World := ds.foldr define []

/-- Calling `__call__`, deprecation.py:179-181: the wrapper reads `__old_call__` from the class it was made for. -/
def invoke {A B : Type} (orig : Name → A → Except Err B) (w : World) : Nat → Impl → A → List Msg × Except Err B
  | 0, _, _ => ([], .error .recursion)
  | _ + 1, .orig m, x => ([], orig m x)
  | fuel + 1, .wrapper n d, x =>
    match action d n with
    | (ms, some e) => (ms, .error e)
    | (ms, none) =>
      match lookup Cls.old w n with
      | none => (ms, .error .attribute)
      | some i =>
        let p := invoke orig w fuel i x
        (ms ++ p.1, p.2)

/-- Calling an instance of the class: `__call__` is looked up in the class (Python). -/
def callInstance {A B : Type} (orig : Name → A → Except Err B) (w : World) (fuel : Nat) (n : Name) (x : A) :
    List Msg × Except Err B :=
  match lookup Cls.call w n with
  | none => ([], .error .type)
  | some i => invoke orig w fuel i x

/-! ### What the library announces -/

/-- The declarations in driver.py:703-709 (`raw_execute`), expanders.py:448-454, 516-524 and 556-562, macros.py:238-247 and
1070-1078, for the installed version (version.py:1, deprecation.py:28-31 and 37). -/
def announced (installed : Ver) : List (Name × Notice) :=
  [("raw_execute", ⟨⟨1, 0, 0⟩, ⟨2, 0, 0⟩, none, some "guide", installed, true⟩),
   ("parametrized", ⟨⟨1, 10, 0⟩, ⟨2, 0, 0⟩, some "parameterize_values", some "guide", installed, true⟩),
   ("parametrized_input", ⟨⟨1, 10, 0⟩, ⟨2, 0, 0⟩, some "parameterize_sources", some "guide", installed, true⟩),
   ("parameterized_inputs", ⟨⟨1, 10, 0⟩, ⟨2, 0, 0⟩, some "parameterize_sources", some "guide", installed, true⟩),
   ("dynamic_transform", ⟨⟨1, 20, 0⟩, ⟨2, 0, 0⟩, some "resolve", some "guide", ⟨1, 19, 0⟩, true⟩),
   ("pipe", ⟨⟨1, 20, 0⟩, ⟨2, 0, 0⟩, some "pipe_input", some "guide", ⟨1, 77, 0⟩, true⟩)]

end Verif.Deprecation
