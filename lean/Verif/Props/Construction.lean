import Verif.Props.Execution

/-!
Property theorems C13, C14, C15: graph construction.
-/
namespace Verif
variable {T V : Type}

/-! ### C13 -/

/-- C13. In every graph built from functions: a node lists as dependencies exactly its parameter names, in order and
without repetition, each of them is a node, and consumers are exactly the nodes having the name as a parameter. -/
theorem C13_wiring {tm : T → T → Bool} {any : T} {config : Dict Name V} {allow : Bool}
    {fns : List (Node T V)} (hf : ∀ n ∈ fns, Fresh n) {g : Graph T V}
    (h : createFunctionGraph tm any config allow fns = .ok g) :
    g.keys.Nodup ∧
    (∀ k n, g.get? k = some n → n.name = k ∧ n.dependencies = n.inputTypes.keys ∧ n.dependencies.Nodup ∧
      ∀ d ∈ n.dependencies, d ∈ g.keys) ∧
    (∀ k n m, g.get? k = some n → (m ∈ n.dependedOnBy ↔ ∃ mn, g.get? m = some mn ∧ k ∈ mn.dependencies)) := by
  have hw := (createFunctionGraph_spec hf h).1
  refine ⟨hw.keys_nodup, fun k n hk => ⟨hw.name_eq hk, hw.deps_eq hk, ?_, ?_⟩, fun k n m hk => ?_⟩
  · rw [hw.deps_eq hk]; exact hw.params_nodup hk
  · intro d hd
    rw [hw.deps_eq hk] at hd
    exact Dict.mem_keys_iff.2 (hw.deps_in hk hd)
  · rw [hw.consumers hk]
    constructor
    · rintro ⟨mn, h1, h2⟩; exact ⟨mn, h1, by rw [hw.deps_eq h1]; exact h2⟩
    · rintro ⟨mn, h1, h2⟩; exact ⟨mn, h1, by rw [← hw.deps_eq h1]; exact h2⟩

/-- C13 (nodes). The nodes of the graph are exactly: the function names not shadowed by config, the config names, and the
parameter names of the remaining functions. -/
theorem C13_nodes {tm : T → T → Bool} {any : T} {config : Dict Name V} {allow : Bool}
    {fns : List (Node T V)} (hf : ∀ n ∈ fns, Fresh n) {g : Graph T V}
    (h : createFunctionGraph tm any config allow fns = .ok g) (k : Name) :
    k ∈ g.keys ↔ k ∈ config.keys ∨ (∃ n ∈ fns, n.name = k) ∨
      ∃ f n0, f ∉ config.keys ∧ lastDef fns f = some n0 ∧ k ∈ n0.inputTypes.keys := by
  obtain ⟨hw, hc, hd, hx, hu, _⟩ := createFunctionGraph_spec hf h
  constructor
  · intro hk
    obtain ⟨n, hn⟩ := Dict.mem_keys_iff.1 hk
    by_cases hkc : k ∈ config.keys
    · exact .inl hkc
    · right
      cases hl : lastDef fns k with
      | some n0 => exact .inl ⟨n0, (lastDef_name hl).2, (lastDef_name hl).1⟩
      | none =>
        right
        rcases hx k n hn (hu k n hn hkc hl) with h | ⟨f, fn, hfg, hfk⟩
        · exact absurd h hkc
        · have hfe : fn.kind ≠ .external := by
            intro he; rw [hw.external_no_params hfg he] at hfk; simp [Dict.keys] at hfk
          have hfc : f ∉ config.keys := by
            intro hfc
            obtain ⟨x, hx', hxe⟩ := hc f hfc
            rw [hfg] at hx'; cases hx'; exact hfe hxe
          cases hlf : lastDef fns f with
          | none => exact absurd (hu f fn hfg hfc hlf) hfe
          | some n0 =>
            obtain ⟨x, hx', hs⟩ := hd f n0 hfc hlf
            rw [hfg] at hx'; cases hx'
            exact ⟨f, n0, hfc, hlf, by rw [← hs.inputTypes]; exact hfk⟩
  · rintro (h | ⟨n, hn, rfl⟩ | ⟨f, n0, hfc, hlf, hk⟩)
    · obtain ⟨n, hn, _⟩ := hc k h; exact Dict.mem_keys_iff.2 ⟨n, hn⟩
    · by_cases hkc : n.name ∈ config.keys
      · obtain ⟨n', hn', _⟩ := hc _ hkc; exact Dict.mem_keys_iff.2 ⟨n', hn'⟩
      · cases hl : lastDef fns n.name with
        | none => exact absurd rfl (lastDef_none.1 hl n hn)
        | some n0 => obtain ⟨x, hx', _⟩ := hd _ n0 hkc hl; exact Dict.mem_keys_iff.2 ⟨x, hx'⟩
    · obtain ⟨x, hx', hs⟩ := hd f n0 hfc hlf
      exact Dict.mem_keys_iff.2 (hw.deps_in hx' (by rw [hs.inputTypes]; exact hk))

/-- The sample meets the hypotheses and has all three sorts of nodes. -/
example : createFunctionGraph Sample.tm () Sample.config false Sample.fns = .ok Sample.graph ∧
    Sample.graph.keys = ["base", "left", "right", "top", "x", "y", "c"] ∧
    (Sample.graph.get? "base").map (·.dependedOnBy) = some ["left", "right"] := ⟨Sample.build_ok, by decide, by decide⟩

/-! ### C14 -/

/-- C14 (resolution). A name bound in config is an input node whatever the modules define; otherwise the definition
coming last in module order is the one in the graph, with its parameters, function and type. -/
theorem C14_resolution {tm : T → T → Bool} {any : T} {config : Dict Name V} {allow : Bool}
    {fns : List (Node T V)} (hf : ∀ n ∈ fns, Fresh n) {g : Graph T V}
    (h : createFunctionGraph tm any config allow fns = .ok g) :
    (∀ k ∈ config.keys, ∃ n, g.get? k = some n ∧ n.kind = .external) ∧
    (∀ pre n0 post, fns = pre ++ n0 :: post → (∀ m ∈ post, m.name ≠ n0.name) → n0.name ∉ config.keys →
      ∃ n, g.get? n0.name = some n ∧ n.kind = n0.kind ∧ n.inputTypes = n0.inputTypes ∧ n.fn = n0.fn ∧ n.typ = n0.typ) := by
  obtain ⟨hw, hc, hd, hx, hu, _⟩ := createFunctionGraph_spec hf h
  refine ⟨hc, ?_⟩
  rintro pre n0 post rfl hpost hnc
  have hl : lastDef (pre ++ n0 :: post) n0.name = some n0 := by
    have h1 : post.reverse.find? (fun n => decide (n.name = n0.name)) = none := by
      rw [List.find?_eq_none]
      intro m hm
      simpa using hpost m (List.mem_reverse.1 hm)
    simp [lastDef, List.find?_append, h1]
  obtain ⟨n, hn, hs⟩ := hd _ n0 hnc hl
  exact ⟨n, hn, hs.kind, hs.inputTypes, hs.fn, hs.typ (hf n0 (by simp)).kind⟩

/-- C14 (duplicates). Without `allow_module_overrides`, construction fails with a duplicate-name error exactly when two
functions that config does not shadow share a name; with it, never. -/
theorem C14_duplicate_rejected {tm : T → T → Bool} {any : T} {config : Dict Name V} {allow : Bool}
    {fns : List (Node T V)} :
    (∃ k, createFunctionGraph tm any config allow fns = .error (.duplicate k)) ↔
      allow = false ∧ ¬ ((fns.map (·.name)).filter (fun k => decide (k ∉ config.keys))).Nodup := by
  rw [createFunctionGraph_duplicate]
  have : unshadowed config fns = (fns.map (·.name)).filter (fun k => decide (k ∉ config.keys)) := by
    unfold unshadowed
    apply List.filter_congr
    intro x _
    by_cases hx : x ∈ config.keys
    · simp [hx, (Dict.has_iff _ _).2 hx]
    · have : config.has x = false := by
        cases h : config.has x with
        | false => rfl
        | true => exact absurd ((Dict.has_iff _ _).1 h) hx
      simp [hx, this]
  rw [this]

/-- Two definitions of `left`: rejected, accepted with overrides (the second wins), accepted when config shadows it. -/
def Sample.fnsDup : List (Node Unit Int) :=
  Sample.fns ++ [Sample.fnNode "left" [("z", .required)] (fun kw => .ok (Sample.arg kw "z" 0))]

example : (∃ k, createFunctionGraph Sample.tm () Sample.config false Sample.fnsDup = .error (.duplicate k)) ∧
    (∃ g, createFunctionGraph Sample.tm () Sample.config true Sample.fnsDup = .ok g ∧
      (g.get? "left").map (·.dependencies) = some ["z"]) ∧
    (∃ g, createFunctionGraph Sample.tm () [("left", 3)] false Sample.fnsDup = .ok g ∧
      (g.get? "left").map (·.kind) = some .external) :=
  ⟨⟨"left", rfl⟩, ⟨_, rfl, by decide⟩, ⟨_, rfl, by decide⟩⟩

/-! ### C15 -/

/-- C15. A runtime input whose name is already bound in config makes the execution fail: it is never silently preferred
nor dropped.  If the names are disjoint both are visible. -/
theorem C15_config_input_clash {o : TypeOracle T V} {fg : FnGraph T V} {finalVars : List Name}
    {inputs overrides : Option (Dict Name V)} :
    (∀ k, k ∈ (inputs.getD []).keys → k ∈ fg.config.keys →
      ∀ out, driverExecute o fg finalVars inputs overrides ≠ .ok out) ∧
    (∀ k, k ∈ (inputs.getD []).keys → k ∈ fg.config.keys →
      ∀ s, getUpstreamNodes fg finalVars inputs overrides = .ok s →
        ∃ names, driverExecute o fg finalVars inputs overrides = .error (.clash names) ∧ k ∈ names ∧
          ∀ m ∈ names, m ∈ (inputs.getD []).keys ∧ m ∈ fg.config.keys) ∧
    (∀ out, driverExecute o fg finalVars inputs overrides = .ok out →
      ∀ k, k ∈ (inputs.getD []).keys → k ∉ fg.config.keys) := by
  have hclash : ∀ k, k ∈ (inputs.getD []).keys → k ∈ fg.config.keys →
      ∃ names, combineConfigAndInputs fg.config (inputs.getD []) = .error names ∧ k ∈ names ∧
          ∀ m ∈ names, m ∈ (inputs.getD []).keys ∧ m ∈ fg.config.keys := by
    intro k hk hc
    have hmem : k ∈ (inputs.getD []).keys.filter (fun k => fg.config.has k) :=
      List.mem_filter.2 ⟨hk, (Dict.has_iff _ _).2 hc⟩
    refine ⟨_, ?_, hmem, ?_⟩
    · unfold combineConfigAndInputs
      simp only
      rw [if_pos (List.length_pos_of_mem hmem)]
    · intro m hm
      obtain ⟨h1, h2⟩ := List.mem_filter.1 hm
      exact ⟨h1, (Dict.has_iff _ _).1 h2⟩
  have h2 : ∀ k, k ∈ (inputs.getD []).keys → k ∈ fg.config.keys →
      ∀ s, getUpstreamNodes fg finalVars inputs overrides = .ok s →
        ∃ names, driverExecute o fg finalVars inputs overrides = .error (.clash names) ∧ k ∈ names ∧
          ∀ m ∈ names, m ∈ (inputs.getD []).keys ∧ m ∈ fg.config.keys := by
    intro k hk hc s hs
    obtain ⟨names, h1, h2, h3⟩ := hclash k hk hc
    refine ⟨names, ?_, h2, h3⟩
    unfold driverExecute
    rw [hs]
    simp only [validateInputs, h1]
  have h1 : ∀ k, k ∈ (inputs.getD []).keys → k ∈ fg.config.keys →
      ∀ out, driverExecute o fg finalVars inputs overrides ≠ .ok out := by
    intro k hk hc out h
    obtain ⟨_, s, hs, _⟩ := driverExecute_ok h
    obtain ⟨names, h', _⟩ := h2 k hk hc s hs
    rw [h] at h'; cases h'
  exact ⟨h1, h2, fun out h k hk hc => h1 k hk hc out h⟩

example : driverExecute Sample.oracle Sample.fg ["top"] (some [("x", 1), ("c", 2)]) none = .error (.clash ["c"]) := by rfl

end Verif
