import Verif.Model.Exec

/-!
In-memory execution with lifecycle adapters. `dfs` of `Verif.Model.Exec` is the case without adapters; here the call of
the node function (graph_functions.py:206-222) is replaced by a runner with its own state, which stands for
`execute_lifecycle_for_node` (graph_functions.py:255-331) with the adapters at hand.
-/
namespace Verif
variable {T V σ : Type}

/-- What runs a node: `execute_lifecycle_for_node`, graph_functions.py:255-331. It may raise; the state of the adapters is
kept in both cases. -/
abbrev Runner (T V σ : Type) := Node T V → Dict Name V → σ → Except UserErr V × σ

/-- `dfs_traverse`, graph_functions.py:178-243, with adapters. -/
def dfsWith (g : Graph T V) (inputs overrides : Dict Name V) (req : List Name) (run : Runner T V σ) :
    Nat → Node T V → DepType → ExecState V × σ → Out (ExecState V × σ) ExecErr
  | 0, _, _, s => .err .diverge s
  | fuel + 1, n, dt, s =>
    if s.1.computed.has n.name then .ok s
    else
      match overrides.get? n.name with
      | some v => .ok (s.1.store n.name v, s.2)
      | none =>
        (forEach (fun d s =>
            if s.1.computed.has d then .ok s
            else
              match n.inputTypes.get? d, g.get? d with
              | some (_, t), some dn => dfsWith g inputs overrides req run fuel dn t s
              | _, _ => .err (.keyError d) s) n.dependencies s).bind fun s =>
        if n.userDefined then
          match inputs.get? n.name with
          | none => if dt = .optional then .ok s else .err (.missing n.name) s
          | some v => .ok (prune g req n.dependencies (s.1.store n.name v), s.2)
        else
          let kwargs := kwargsOf n.dependencies s.1.computed
          let s1 := { s.1 with calls := s.1.calls ++ [(n.name, kwargs)] }
          match run n kwargs s.2 with
          | (.error e, t) => .err (.raised n.name e) (s1, t)
          | (.ok v, t) => .ok (prune g req n.dependencies (s1.store n.name v), t)

/-- `execute_subdag`, graph_functions.py:245-251, with adapters. -/
def executeWith (g : Graph T V) (nodes : List (Node T V)) (inputs overrides : Dict Name V) (run : Runner T V σ) (t : σ) :
    Out (ExecState V × σ) ExecErr :=
  forEach (fun n s =>
      dfsWith g inputs overrides (nodes.map (·.name)) run (g.length + 1) n
        (if n.userDefined then .optional else .required) s)
    nodes (ExecState.init, t)

end Verif
