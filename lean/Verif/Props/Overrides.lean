import Verif.Props.Execution
import Verif.Props.TaskSample

/-! C21: overrides win over inputs. -/
namespace Verif
variable {T V : Type}

/-- The value of a node depends only on the inputs that are not overridden. -/
theorem Den.ignore_overridden {g : Graph T V} {i i' o : Dict Name V}
    (h : ∀ k, o.get? k = none → i.get? k = i'.get? k) {k : Name} {v : V} (hd : Den g i o k v) : Den g i' o k v := by
  induction hd with
  | override h1 h2 => exact .override h1 h2
  | input h1 h2 h3 h4 => exact .input h1 h2 h3 (by rw [← h _ h2]; exact h4)
  | call val h1 h2 h3 h4 h5 h6 ih =>
    refine .call val h1 h2 h3 ih (fun d t hd hv => ?_) h6
    obtain ⟨a, n, b, c, d1, d2⟩ := h5 d t hd hv
    exact ⟨a, n, b, c, by rw [← h _ d2]; exact d1, d2⟩

theorem merge_congr {c i i' : Dict Name V} (hi : i.keys.Nodup) (hi' : i'.keys.Nodup) {k : Name}
    (h : i.get? k = i'.get? k) : (c.merge i).get? k = (c.merge i').get? k := by
  rw [Dict.get?_merge c i hi, Dict.get?_merge c i' hi', h]

/-- **C21, in-memory execution.** Two calls whose inputs differ only in names that are overridden return the same values;
and an overridden node that is requested has the overriding value. -/
theorem C21_overrides_win_partial {o : TypeOracle T V} {fg : FnGraph T V} (hg : DriverGraph fg)
    {finalVars : List Name} {inputs inputs' overrides : Dict Name V} (hin : inputs.keys.Nodup) (hin' : inputs'.keys.Nodup)
    (hsame : ∀ k, overrides.get? k = none → inputs.get? k = inputs'.get? k) {out out' : Dict Name (Option V)}
    (h : driverExecute o fg finalVars (some inputs) (some overrides) = .ok out)
    (h' : driverExecute o fg finalVars (some inputs') (some overrides) = .ok out')
    {k : Name} (hk : k ∈ finalVars) {n : Node T V} (hn : fg.nodes.get? k = some n) :
    out.get? k = out'.get? k ∧ ∀ v, overrides.get? k = some v → out.get? k = some (some v) := by
  have hd := (C01_execute_sound hg (inputs := some inputs) hin h).2.1 k hk n hn
  have hd' := (C01_execute_sound hg (inputs := some inputs') hin' h').2.1 k hk n hn
  have hgiven : ∀ k, overrides.get? k = none → (fg.given (some inputs)).get? k = (fg.given (some inputs')).get? k :=
    fun k hk => merge_congr hin hin' (hsame k hk)
  constructor
  · rcases hd with ⟨v, h1, h2⟩ | ⟨h1, h2⟩
    · have h3 : Den fg.nodes (fg.given (some inputs')) overrides k v := Den.ignore_overridden hgiven h2
      rcases hd' with ⟨v', h1', h2'⟩ | ⟨_, h2'⟩
      · rw [h1, h1', h3.det h2']
      · exact absurd h3 h2'.not_den
    · rcases hd' with ⟨v', _, h2'⟩ | ⟨h1', _⟩
      · have h3 : Den fg.nodes (fg.given (some inputs)) overrides k v' :=
          Den.ignore_overridden (fun k hk => (hgiven k hk).symm) h2'
        exact absurd h3 h2.not_den
      · rw [h1, h1']
  · intro v hv
    rcases hd with ⟨w, h1, h2⟩ | ⟨_, h2⟩
    · have : Den fg.nodes (fg.given (some inputs)) overrides k v := .override hn hv
      rw [h1, h2.det this]
    · obtain ⟨_, _, _, _, h4⟩ := h2
      have h4' : overrides.get? k = none := h4
      rw [hv] at h4'; cases h4'

/-- Both calls succeed in the sample: `x` and `base` are given twice. -/
example : driverExecute Sample.oracle Sample.fg ["top"] (some [("x", 1), ("base", 8)]) (some [("x", 3), ("base", 4)]) =
      .ok [("top", some 22)] ∧
    driverExecute Sample.oracle Sample.fg ["top"] (some [("x", 2)]) (some [("x", 3), ("base", 4)]) =
      .ok [("top", some 22)] := ⟨rfl, rfl⟩

/-- **C21, violated by task-based execution.** `n` is computed from the input `x = 1` although `x` is overridden by 5; the
same call in memory uses 5. -/
theorem C21_violated :
    taskBasedExecute TaskSample.ops TaskSample.ex groupByRepeatableBlocks ⟨TaskSample.graph, []⟩ ["n"] [("x", .i 5)]
      [("x", .i 1)] (TaskSample.eager 5) = .ok [("n", .i 2)] ∧
    defaultExecutorExecute ⟨TaskSample.graph, []⟩ ["n"] [("x", .i 5)] [("x", .i 1)] = .ok [("n", some (.i 6))] :=
  ⟨rfl, rfl⟩

/-- **C19, violated when an input and an override of one name differ.** The call of `C21_violated`, which has no
`Parallelizable` node among what it computes, on the graph of the first function only. -/
theorem C19_violated :
    taskBasedExecute TaskSample.ops TaskSample.ex groupByRepeatableBlocks
      ⟨(createFunctionGraph (fun _ _ => true) false [] false (TaskSample.fns.take 1)).toOption.getD [], []⟩ ["n"]
      [("x", .i 5)] [("x", .i 1)] (TaskSample.eager 5) = .ok [("n", .i 2)] ∧
    defaultExecutorExecute
      ⟨(createFunctionGraph (fun _ _ => true) false [] false (TaskSample.fns.take 1)).toOption.getD [], []⟩ ["n"]
      [("x", .i 5)] [("x", .i 1)] = .ok [("n", some (.i 6))] := ⟨rfl, rfl⟩

end Verif
