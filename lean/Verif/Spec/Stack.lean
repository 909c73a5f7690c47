import Verif.Model.Stack

/-!
Stacks of decorators as the user writes them: a list, the innermost first.
-/
namespace Verif
variable {F N V : Type}

/-- The decorators of one kind, in their order. -/
def ofKind (k : DecoKind) (stack : List (Deco F N V)) : List (StaticDeco F N V) :=
  stack.filterMap (fun d => match d with | .static s => if s.kind = k then some s else none | .dynamic _ => none)

/-- The `@resolve` decorators, in their order. -/
def dynamics (stack : List (Deco F N V)) : List (DynDeco F N V) :=
  stack.filterMap (fun d => match d with | .static _ => none | .dynamic d => some d)

/-- Two stacks that differ only in how decorators of different kinds are interleaved. -/
def SameDecorators (s s' : List (Deco F N V)) : Prop :=
  (∀ k, ofKind k s = ofKind k s') ∧ dynamics s = dynamics s'

/-- What there is of a function while its decorators are applied one by one. -/
inductive Built (F N : Type) where
  | fn (f : F)
  | nodes (f : F) (l : List N)
  | dropped

/-- Applying one decorator to what the ones below it have produced; `cfg` is the part of the configuration it declares. -/
def applyOne [DecidableEq V] (pyFalse : V) (config : Dict Name V) (fromFn : F → Except UserErr (List N))
    (d : StaticDeco F N V) : Built F N → Except UserErr (Built F N)
  | .dropped => .ok .dropped
  | .fn f => do
    let cfg ← if d.kind = .resolve ∨ d.kind = .generate then d.config pyFalse config else pure []
    if d.kind = .resolve then
      match ← d.resolve f cfg with
      | none => pure .dropped
      | some f' => pure (.fn f')
    else if d.kind = .generate then pure (.nodes f (← d.generate f cfg))
    else
      let l ← fromFn f
      pure (.nodes f (← d.transformDag l (← d.config pyFalse config) f))
  | .nodes f l => do pure (.nodes f (← d.transformDag l (← d.config pyFalse config) f))

/-- Applying decorators one by one, the innermost first; a function without any decorator that makes nodes becomes one. -/
def applyAll [DecidableEq V] (pyFalse : V) (config : Dict Name V) (fromFn : F → Except UserErr (List N)) :
    List (StaticDeco F N V) → Built F N → Except UserErr (List N)
  | [], .fn f => fromFn f
  | [], .nodes _ l => .ok l
  | [], .dropped => .ok []
  | d :: ds, b => do applyAll pyFalse config fromFn ds (← applyOne pyFalse config fromFn d b)

/-- The order in which kinds of decorators take effect. -/
def DecoKind.rank : DecoKind → Nat
  | .resolve => 0
  | .generate => 1
  | .inject => 2
  | .expand => 3
  | .transform => 4
  | .decorate => 5

/-- The keys of the configuration that a decorator declares (`none`: it may use all of them). -/
def StaticDeco.declared (d : StaticDeco F N V) : Option (List Name) :=
  d.required.map (fun r => powerUserMode :: r ++ d.optional.keys)

/-- The two configurations agree on the keys that a decorator declares. -/
def StaticDeco.Agree (c c' : Dict Name V) (d : StaticDeco F N V) : Prop :=
  ∃ ks, d.declared = some ks ∧ ∀ k ∈ ks, c.get? k = c'.get? k

/-- The same for a decorator of a stack; for `@resolve`, also on the keys that the decorator it makes declares. -/
def Deco.Agree (truthy : V → Bool) (c c' : Dict Name V) : Deco F N V → Prop
  | .static d => d.Agree c c'
  | .dynamic d => (∀ k ∈ powerUserMode :: d.required ++ d.optional, c.get? k = c'.get? k) ∧
      ∀ s, d.resolveWith truthy c = .ok s → s.Agree c c'

end Verif
