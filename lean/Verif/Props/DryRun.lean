import Verif.Model.DryRun
import Verif.Props.Cycles
import Verif.Props.Materialize
import Verif.Props.Queries

/-!
Property C81: dry runs agree with execution, and outputs may be requested by name, function or `Variable`.
-/
namespace Verif.DryRun
variable {T V : Type}

/-! ### Specification -/

/-- The request names the node: a string is the name itself, a `Variable` has a name, a function of one of the driver's modules
stands for its name. -/
inductive Names (modules : List Name) : Request → Name → Prop
  | str (s : Name) : Names modules (.str s) s
  | byVariable (n : Name) : Names modules (.named n) n
  | function {m : Name} (n : Name) : m ∈ modules → Names modules (.function m n) n

/-- The requests name these nodes, in this order. -/
inductive AllNamed (modules : List Name) : List Request → List Name → Prop
  | nil : AllNamed modules [] []
  | cons {r n rs ns} : Names modules r n → AllNamed modules rs ns → AllNamed modules (r :: rs) (n :: ns)

/-- A requested node depends, directly or not, on a node that depends on itself, directly or not. -/
def Circle (g : Graph T V) (names : List Name) : Prop :=
  ∃ r ∈ names, ∃ k d, Reaches (DependsOn g) r k ∧ DependsOn g k d ∧ Reaches (DependsOn g) d k

/-- In a run `b` is looked at because of `a`: `a` is not overridden and has a parameter `b`; with inputs given, `b` is not an
optional input without a value. -/
def PlanEdge (fg : FnGraph T V) (inputs overrides : Option (Dict Name V)) (a b : Name) : Prop :=
  (overrides.getD []).get? a = none ∧ ∃ n t, fg.nodes.get? a = some n ∧ n.inputTypes.get? b = some t ∧
    ∀ ins, inputs = some ins →
      ¬ (t.2 = .optional ∧ ∃ dn, fg.nodes.get? b = some dn ∧ dn.kind = .external ∧ (fg.config.merge ins).get? b = none)

/-- What a run that passed validation can still fail with: the exception of a needed function, called with the right arguments, or
an endless recursion because the request needs a circle that no override cuts. -/
def OwnFailure (fg : FnGraph T V) (names : List Name) (inputs overrides : Option (Dict Name V)) (e : DriverErr) : Prop :=
  (∃ m x n kw, e = .exec (.raised m x) ∧ fg.nodes.get? m = some n ∧ n.kind ≠ .external ∧
    Needed fg.nodes (overrides.getD []) names m ∧ (overrides.getD []).get? m = none ∧
    RightArgs fg.nodes (fg.config.merge (inputs.getD [])) (overrides.getD []) n kw ∧ n.fn kw = .error x) ∨
  (e = .exec .diverge ∧ NeededCycle fg.nodes (overrides.getD []) names)

/-! ### Requests -/

theorem convertOne_ok {modules : List Name} {r : Request} {n : Name} :
    convertOne modules r = .ok n ↔ Names modules r n := by
  constructor
  · intro h
    cases r with
    | str s => cases h; exact .str _
    | named m => cases h; exact .byVariable _
    | function m k =>
      have hd : convertOne modules (.function m k) =
          if modules.contains m then .ok k else .error "not in a module given" := rfl
      rw [hd] at h
      by_cases hc : modules.contains m = true
      · rw [if_pos hc] at h
        cases h
        exact .function n (by simpa using hc)
      · rw [if_neg hc] at h
        cases h
    | other => cases h
  · intro h
    cases h with
    | str => rfl
    | byVariable => rfl
    | function _ hm =>
      unfold convertOne
      dsimp only
      rw [if_pos (by simpa using hm)]

theorem convertLoop_named {modules : List Name} {rs : List Request} {names : List Name} (h : AllNamed modules rs names) :
    convertLoop modules rs = (names.filter (fun n => n != ""), []) := by
  induction h with
  | nil => rfl
  | cons hr _ ih =>
    unfold convertLoop
    rw [convertOne_ok.2 hr, ih]
    dsimp only
    rename_i r n rs ns _
    by_cases he : n = ""
    · rw [if_pos he, List.filter_cons_of_neg (by simp [he])]
    · rw [if_neg he, List.filter_cons_of_pos (by simp [he])]

theorem createFinalVars_named {modules : List Name} {rs : List Request} {names : List Name} (h : AllNamed modules rs names)
    (hne : "" ∉ names) : createFinalVars modules rs = .ok names := by
  have hf : names.filter (fun n => n != "") = names := by
    rw [List.filter_eq_self]
    intro a ha
    simp only [bne_iff_ne]
    intro he
    exact hne (he ▸ ha)
  unfold createFinalVars
  rw [convertLoop_named h, hf]
  rfl

theorem convertLoop_errors {modules : List Name} {P : Request → Bool} (hP : ∀ r, P r = true ↔ ¬ ∃ n, Names modules r n)
    (rs : List Request) : (convertLoop modules rs).2.length = (rs.filter P).length := by
  induction rs with
  | nil => rfl
  | cons r rs ih =>
    unfold convertLoop
    cases hc : convertOne modules r with
    | ok v =>
      dsimp only
      rw [List.filter_cons_of_neg (fun h => (hP r).1 h ⟨v, convertOne_ok.1 hc⟩)]
      split
      · exact ih
      · exact ih
    | error e =>
      dsimp only
      rw [List.filter_cons_of_pos ((hP r).2 (fun ⟨n, hn⟩ => by rw [convertOne_ok.2 hn] at hc; cases hc))]
      simp [ih]

theorem allNamed_str (modules : List Name) (names : List Name) : AllNamed modules (names.map .str) names := by
  induction names with
  | nil => exact .nil
  | cons a l ih => exact .cons (.str a) ih

theorem strings_map (names : List Name) : strings (names.map .str) = some names := by
  induction names with
  | nil => rfl
  | cons a l ih => rw [List.map_cons]; unfold strings; rw [ih]

/-- **C81, requests (partial).**  Whether a node is requested by its name, by the function, or by the `Variable` makes no difference:
`execute` does what it does for the list of names.  Missing: the empty string, which is silently dropped
(`C81_violated_empty`). -/
theorem C81_requests_partial {o : TypeOracle T V} {modules : List Name} {fg : FnGraph T V} {rs : List Request} {names : List Name}
    (hn : AllNamed modules rs names) (hne : "" ∉ names) (inputs overrides : Option (Dict Name V)) :
    (∀ out, execute o modules fg rs inputs overrides = .ok out ↔ driverExecute o fg names inputs overrides = .ok out) ∧
    ∀ e, execute o modules fg rs inputs overrides = .error e ↔
      ∃ e', e = .driver e' ∧ driverExecute o fg names inputs overrides = .error e' := by
  unfold execute
  rw [createFinalVars_named hn hne]
  dsimp only
  cases hd : driverExecute o fg names inputs overrides with
  | ok out => simp
  | error e => simp [eq_comm]

/-- **C81, impossible requests.**  If a request names no node — a function of another module, or an object that is neither a string
nor a function and has no name — `execute`, `materialize` and `has_cycles` refuse the whole list before anything is looked
up or run, and count all such requests. -/
theorem C81_impossible {o : TypeOracle T V} {ops : AdapterOps T V} {tm : T → T → Bool} {modules : List Name} {fg : FnGraph T V}
    {ms : List (Materializer T V)} {xs : List (Extractor T V)} {rs : List Request} {r : Request} (hr : r ∈ rs)
    (hbad : ¬ ∃ n, Names modules r n) {P : Request → Bool} (hP : ∀ r, P r = true ↔ ¬ ∃ n, Names modules r n)
    (networkx : Bool) (inputs overrides : Option (Dict Name V)) :
    execute o modules fg rs inputs overrides = .error (.convert (rs.filter P).length) ∧
    materialize ops tm o modules fg ms xs rs inputs overrides = .error (.convert (rs.filter P).length) ∧
    validateMaterialization ops tm o modules fg ms xs rs inputs overrides = .error (.convert (rs.filter P).length) ∧
    hasCycles networkx modules fg rs = .error (.convert (rs.filter P).length) := by
  have hc : createFinalVars modules rs = .error (.convert (rs.filter P).length) := by
    unfold createFinalVars
    dsimp only
    have hpos : 0 < (rs.filter P).length := List.length_pos_of_mem (List.mem_filter.2 ⟨hr, (hP r).2 hbad⟩)
    rw [convertLoop_errors hP, if_neg (by omega)]
  unfold execute materialize validateMaterialization hasCycles
  rw [hc]
  exact ⟨rfl, rfl, rfl, rfl⟩

/-! ### Validation -/

theorem driverExecute_of_names {o : TypeOracle T V} {fg : FnGraph T V} {fv : List Name} {inputs overrides : Option (Dict Name V)} :
    (∀ e, validateNames o fg fv inputs overrides = .error e → driverExecute o fg fv inputs overrides = .error e) ∧
    (validateNames o fg fv inputs overrides = .ok () →
      driverExecute o fg fv inputs overrides = defaultExecutorExecute fg fv (overrides.getD []) (inputs.getD []) ∧
      ∃ s, getUpstreamNodes fg fv inputs overrides = .ok s ∧ validateInputs o fg s.userNodes inputs s.nodes = .ok ()) := by
  unfold validateNames driverExecute
  cases hs : getUpstreamNodes fg fv inputs overrides with
  | err e s => exact ⟨fun e' h => (by cases h; rfl), fun h => (by cases h)⟩
  | ok s =>
    dsimp only
    cases hv : validateInputs o fg s.userNodes inputs s.nodes with
    | error e => exact ⟨fun e' h => (by cases h; rfl), fun h => (by cases h)⟩
    | ok u =>
      dsimp only
      cases hx : defaultExecutorValidate fg.nodes (s.nodes ++ s.userNodes) with
      | error e => exact ⟨fun e' h => (by cases h; rfl), fun h => (by cases h)⟩
      | ok u => exact ⟨fun e' h => (by cases h), fun _ => ⟨rfl, s, rfl, hv⟩⟩

theorem Needed.ofNodes {g : Graph T V} (hw : WellFormed g) {overrides : Dict Name V} {fv : List Name} {k : Name}
    (h : Verif.Needed g overrides ((requestedNodes g fv).map (·.name)) k) : Verif.Needed g overrides fv k := by
  induction h with
  | req hk => exact .req ((mem_requested_names hw fv _).1 hk).1
  | param _ ho hm hd ih => exact .param ih ho hm hd

theorem accepted_failure {o : TypeOracle T V} {fg : FnGraph T V} (hg : DriverGraph fg) {fv : List Name}
    {inputs overrides : Option (Dict Name V)} (hin : (inputs.getD []).keys.Nodup)
    (hv : validateNames o fg fv inputs overrides = .ok ()) {e : DriverErr}
    (h : driverExecute o fg fv inputs overrides = .error e) : OwnFailure fg fv inputs overrides e := by
  obtain ⟨heq, s, _, hvi⟩ := driverExecute_of_names.2 hv
  have hmiss := C06_validated_never_missing (o := o) hg (finalVars := fv) (overrides := overrides) hin
  have hdiv := C54_recursion_needs_cycle (o := o) hg (finalVars := fv) (inputs := inputs) (overrides := overrides)
  rw [h] at hmiss hdiv
  rw [heq] at h
  unfold defaultExecutorExecute at h
  cases hc : combineConfigAndInputs fg.config (inputs.getD []) with
  | error ks =>
    unfold validateInputs at hvi
    rw [hc] at hvi
    cases hvi
  | ok all =>
    rw [hc] at h
    dsimp only at h
    have hall : all = fg.config.merge (inputs.getD []) := by
      unfold combineConfigAndInputs at hc
      dsimp only at hc
      split at hc
      · cases hc
      · cases hc; rfl
    subst hall
    have hsub := executeSubdag_spec hg.wf (requestedNodes fg.nodes fv) (requestedNodes_ok hg.wf fv)
      (fg.config.merge (inputs.getD [])) (overrides.getD [])
    have hreq : fv.filterMap (fun k => fg.nodes.get? k) = requestedNodes fg.nodes fv := rfl
    rw [hreq] at h
    cases hx : executeSubdag fg.nodes (requestedNodes fg.nodes fv) (fg.config.merge (inputs.getD [])) (overrides.getD []) with
    | ok s => rw [hx] at h; cases h
    | err x s =>
      rw [hx] at h hsub
      dsimp only at h hsub
      obtain ⟨_, herr, _⟩ := hsub
      cases x with
      | missing m => cases h; exact absurd rfl (hmiss m)
      | keyError m => exact absurd herr (by simp [ErrOk])
      | diverge => cases h; exact .inr ⟨rfl, hdiv rfl⟩
      | raised m x =>
        cases h
        obtain ⟨h1, h2, n, kw, h3, h4, h5, h6⟩ := herr
        exact .inl ⟨m, x, n, kw, rfl, h3, h4, Needed.ofNodes hg.wf h1, h2, h5, h6⟩

/-- **C81, validation (partial).**  For outputs requested by name, `validate_execution` refuses exactly what `execute` refuses before
running anything, with the same error; if it accepts, `execute` can only fail with the exception of a needed function called
with its right arguments, or by running in a circle.  Missing: outputs requested by function or `Variable`, for which
`validate_execution` always raises a TypeError (`C81_violated_function`), and the empty string. -/
theorem C81_validate_partial {o : TypeOracle T V} {modules : List Name} {fg : FnGraph T V} (hg : DriverGraph fg) {names : List Name}
    (hne : "" ∉ names) {inputs overrides : Option (Dict Name V)} (hin : (inputs.getD []).keys.Nodup) :
    (∀ e, validateExecution o fg (names.map .str) inputs overrides = .error e →
      execute o modules fg (names.map .str) inputs overrides = .error e ∧
      ∀ e', e = .driver e' → ¬ OwnFailure fg names inputs overrides e') ∧
    (validateExecution o fg (names.map .str) inputs overrides = .ok () →
      ∀ e, execute o modules fg (names.map .str) inputs overrides = .error e →
        ∃ e', e = .driver e' ∧ OwnFailure fg names inputs overrides e') := by
  unfold validateExecution execute
  rw [strings_map, createFinalVars_named (allNamed_str modules names) hne]
  dsimp only
  cases hv : validateNames o fg names inputs overrides with
  | error e =>
    dsimp only
    refine ⟨?_, fun h => by cases h⟩
    intro e1 h1
    cases h1
    rw [driverExecute_of_names.1 e hv]
    refine ⟨rfl, ?_⟩
    intro e' he
    cases he
    have hnx : ∀ x, e ≠ .exec x := by
      intro x hx
      subst hx
      unfold validateNames at hv
      cases hs : getUpstreamNodes fg names inputs overrides with
      | err q s => rw [hs] at hv; cases hv
      | ok s =>
        rw [hs] at hv
        dsimp only at hv
        cases hvi : validateInputs o fg s.userNodes inputs s.nodes with
        | error q =>
          rw [hvi] at hv
          cases hv
          unfold validateInputs at hvi
          split at hvi
          · cases hvi
          · dsimp only at hvi
            split at hvi
            · cases hvi
            · cases hvi
        | ok u =>
          rw [hvi] at hv
          dsimp only at hv
          unfold defaultExecutorValidate at hv
          split at hv
          · cases hv
          · cases hv
    rintro (⟨_, _, _, _, h, _⟩ | ⟨h, _⟩)
    · exact hnx _ h
    · exact hnx _ h
  | ok u =>
    dsimp only
    refine ⟨fun e h => (by cases h), fun _ e h => ?_⟩
    cases hd : driverExecute o fg names inputs overrides with
    | ok out => rw [hd] at h; cases h
    | error e' =>
      rw [hd] at h
      cases h
      exact ⟨e', rfl, accepted_failure hg hin hv hd⟩

/-- A graph modified by materializers and extractors that leave the config alone is a graph of a driver again. -/
theorem modified_driverGraph {ops : AdapterOps T V} {tm : T → T → Bool} {fg : FnGraph T V} (hg : DriverGraph fg)
    {ms : List (Materializer T V)} {xs : List (Extractor T V)} {g' : Graph T V}
    (hx : ∀ x ∈ xs, x.target ∉ fg.config.keys ∧ loadName x.target ∉ fg.config.keys)
    (h : modifyGraph ops tm fg.nodes ms xs = .ok g') : DriverGraph (⟨g', fg.config⟩ : FnGraph T V) := by
  obtain ⟨savers, g1, loaders, _, hxs, _, hw', _, _, _, hold, _, _⟩ := modifyGraph_spec hg.wf h
  refine ⟨hw', ?_⟩
  intro k hk
  obtain ⟨n, hn, he⟩ := hg.config_in k hk
  have hlast : lastDef loaders k = none := by
    cases hl : lastDef loaders k with
    | none => rfl
    | some m =>
      rcases loaders_names hxs hl with ⟨x, hm, rfl⟩ | ⟨x, hm, rfl⟩
      · exact absurd hk (hx x hm).2
      · exact absurd hk (hx x hm).1
  obtain ⟨n', h1, h2⟩ := hold k n hlast hn
  exact ⟨n', h1, by rw [h2.kind]; exact he⟩

/-- **C81, validation of a materialization (partial).**  If something is requested, `validate_materialization` refuses with the error
with which `materialize` fails; if it accepts, `materialize` can only fail with the exception of a needed function (of
the graph with the loaders and savers added) called with its right arguments, or by running in a circle.  Missing: requests of
nothing, which are accepted although `materialize` refuses them (`C81_violated_nothing`), and loaders for config
items. -/
theorem C81_validate_materialization_partial {o : TypeOracle T V} {ops : AdapterOps T V} {tm : T → T → Bool} {modules : List Name}
    {fg : FnGraph T V} (hg : DriverGraph fg) {ms : List (Materializer T V)} {xs : List (Extractor T V)}
    (hx : ∀ x ∈ xs, x.target ∉ fg.config.keys ∧ loadName x.target ∉ fg.config.keys)
    {rs : List Request} {names : List Name} (hn : AllNamed modules rs names) (hne : "" ∉ names) (hsome : ms ≠ [] ∨ names ≠ [])
    {inputs overrides : Option (Dict Name V)} (hin : (inputs.getD []).keys.Nodup) :
    (∀ e, validateMaterialization ops tm o modules fg ms xs rs inputs overrides = .error e →
      materialize ops tm o modules fg ms xs rs inputs overrides = .error e) ∧
    (validateMaterialization ops tm o modules fg ms xs rs inputs overrides = .ok () →
      ∃ g', modifyGraph ops tm fg.nodes ms xs = .ok g' ∧
        ∀ e, materialize ops tm o modules fg ms xs rs inputs overrides = .error e →
          ∃ e', e = .materialize (.driver e') ∧ OwnFailure ⟨g', fg.config⟩ (names ++ ms.map (·.id)) inputs overrides e') := by
  have hlen : ¬ (ms.length = 0 ∧ names.length = 0) := by
    rintro ⟨h1, h2⟩
    rcases hsome with h | h
    · exact h (List.length_eq_zero_iff.1 h1)
    · exact h (List.length_eq_zero_iff.1 h2)
  unfold validateMaterialization materialize driverMaterialize
  rw [createFinalVars_named hn hne]
  dsimp only
  rw [if_neg hlen]
  cases hm : modifyGraph ops tm fg.nodes ms xs with
  | error e => exact ⟨fun e' h => (by cases h; rfl), fun h => (by cases h)⟩
  | ok g' =>
    dsimp only
    cases hv : validateNames o (⟨g', fg.config⟩ : FnGraph T V) (names ++ ms.map (·.id)) inputs overrides with
    | error e =>
      refine ⟨fun e' h => ?_, fun h => by cases h⟩
      cases h
      rw [driverExecute_of_names.1 e hv]
    | ok u =>
      refine ⟨fun e' h => (by cases h), fun _ => ⟨g', rfl, fun e h => ?_⟩⟩
      cases hd : driverExecute o (⟨g', fg.config⟩ : FnGraph T V) (names ++ ms.map (·.id)) inputs overrides with
      | ok out => rw [hd] at h; cases h
      | error e' =>
        rw [hd] at h
        cases h
        exact ⟨e', rfl, accepted_failure (modified_driverGraph hg hx hm) hin hv hd⟩

/-! ### Circles -/

theorem peel_nil (edges : List (Name × Name)) (k : Nat) : peel edges k [] = [] := by
  induction k with
  | zero => rfl
  | succ k ih => unfold peel; exact ih

theorem peel_left {edges : List (Name × Name)} (k : Nat) : ∀ l : List Name, l.length ≤ k → peel edges k l ≠ [] →
    ∃ l', l' ≠ [] ∧ (∀ b ∈ l', b ∈ l ∧ ∃ a ∈ l', (a, b) ∈ edges) := by
  induction k with
  | zero =>
    intro l hl h
    exact absurd (List.length_eq_zero_iff.1 (Nat.le_zero.1 hl)) h
  | succ k ih =>
    intro l hl h
    unfold peel at h
    by_cases he : (peelRound edges l).length = l.length
    · refine ⟨l, ?_, ?_⟩
      · intro hnil
        subst hnil
        exact h (peel_nil edges k)
      · intro b hb
        have h1 := List.length_filter_eq_length_iff.1 he b hb
        obtain ⟨a, ha, hab⟩ := List.any_eq_true.1 h1
        exact ⟨hb, a, ha, by simpa using hab⟩
    · have hle : (peelRound edges l).length ≤ l.length := List.length_filter_le _ _
      obtain ⟨l', h1, h2⟩ := ih (peelRound edges l) (by omega) h
      exact ⟨l', h1, fun b hb => ⟨(List.mem_filter.1 (h2 b hb).1).1, (h2 b hb).2⟩⟩

theorem peel_keeps {edges : List (Name × Name)} {S : Name → Prop} (hS : ∀ b, S b → ∃ a, S a ∧ (a, b) ∈ edges) (k : Nat) :
    ∀ l : List Name, (∀ b, S b → b ∈ l) → ∀ b, S b → b ∈ peel edges k l := by
  induction k with
  | zero => intro l h; exact h
  | succ k ih =>
    intro l h
    unfold peel
    apply ih
    intro b hb
    obtain ⟨a, ha, hab⟩ := hS b hb
    exact List.mem_filter.2 ⟨h b hb, List.any_eq_true.2 ⟨a, h a ha, by simpa using hab⟩⟩

/-- Where every member has a predecessor that is a member there is a circle. -/
theorem circle_of_preds {E : Name → Name → Prop} {l : List Name} (hne : l ≠ []) (h : ∀ b ∈ l, ∃ a ∈ l, E a b) :
    ∃ k ∈ l, ∃ d, E d k ∧ Reaches E k d := by
  obtain ⟨x0, hx0⟩ := List.exists_mem_of_ne_nil l hne
  have hp : ∃ p : Name → Name, ∀ b ∈ l, p b ∈ l ∧ E (p b) b := by
    refine ⟨fun b => if hb : b ∈ l then Classical.choose (h b hb) else b, ?_⟩
    intro b hb
    dsimp only
    rw [dif_pos hb]
    exact Classical.choose_spec (h b hb)
  obtain ⟨p, hp⟩ := hp
  have hx : ∃ x : Nat → Name, x 0 = x0 ∧ ∀ i, x (i + 1) = p (x i) :=
    ⟨fun i => Nat.rec x0 (fun _ y => p y) i, rfl, fun _ => rfl⟩
  obtain ⟨x, hx1, hx2⟩ := hx
  have hmem : ∀ i, x i ∈ l := by
    intro i
    induction i with
    | zero => rw [hx1]; exact hx0
    | succ i ih => rw [hx2]; exact (hp _ ih).1
  have hE : ∀ i, E (x (i + 1)) (x i) := fun i => by rw [hx2]; exact (hp _ (hmem i)).2
  have hreach : ∀ i j, Reaches E (x (i + j)) (x i) := by
    intro i j
    induction j with
    | zero => exact .refl _
    | succ j ih => exact Reaches.head (hE (i + j)) ih
  have hrep : ∃ i j, i < j ∧ x i = x j := by
    apply Classical.byContradiction
    intro hno
    have hnd : ((List.range (l.length + 1)).map x).Nodup :=
      List.pairwise_map.2 (List.pairwise_lt_range.imp (fun {i j} hlt heq => hno ⟨i, j, hlt, heq⟩))
    have := nodup_length_le hnd (m := l) (by
      intro y hy
      obtain ⟨i, _, rfl⟩ := List.mem_map.1 hy
      exact hmem i)
    simp at this
    omega
  obtain ⟨i, j, hij, heq⟩ := hrep
  refine ⟨x i, hmem i, x (i + 1), hE i, ?_⟩
  obtain ⟨t, rfl⟩ : ∃ t, j = i + 1 + t := ⟨j - (i + 1), by omega⟩
  rw [heq]
  exact hreach (i + 1) t

theorem mem_networkxEdges {g : Graph T V} (hw : WellFormed g) {nodes : List Name} {a b : Name} :
    (a, b) ∈ networkxEdges g nodes ↔ b ∈ nodes ∧ DependsOn g b a := by
  unfold networkxEdges DependsOn
  rw [List.mem_flatMap]
  constructor
  · rintro ⟨k, hk, h⟩
    cases hn : g.get? k with
    | none => rw [hn] at h; simp at h
    | some n =>
      rw [hn] at h
      obtain ⟨d, hd, he⟩ := List.mem_map.1 h
      cases he
      exact ⟨hk, n, hn, by rw [← hw.deps_eq hn]; exact hd⟩
  · rintro ⟨hb, n, hn, ha⟩
    refine ⟨b, hb, ?_⟩
    rw [hn]
    exact List.mem_map.2 ⟨a, by rw [hw.deps_eq hn]; exact ha, rfl⟩

theorem simpleCycles_iff {g : Graph T V} (hw : WellFormed g) {nodes : List Name}
    (hcl : ∀ a b, a ∈ nodes → DependsOn g a b → b ∈ nodes) :
    simpleCycles (networkxEdges g nodes) nodes = true ↔
      ∃ k ∈ nodes, ∃ d, DependsOn g k d ∧ Reaches (DependsOn g) d k := by
  unfold simpleCycles
  constructor
  · intro h
    have hne : peel (networkxEdges g nodes) nodes.length nodes ≠ [] := by
      intro h0
      rw [h0] at h
      simp at h
    obtain ⟨l', h1, h2⟩ := peel_left nodes.length nodes (Nat.le_refl _) hne
    obtain ⟨k, hk, d, hd, hr⟩ := circle_of_preds (E := fun a b => DependsOn g b a) h1 (fun b hb => by
      obtain ⟨_, a, ha, hab⟩ := h2 b hb
      exact ⟨a, ha, ((mem_networkxEdges hw).1 hab).2⟩)
    exact ⟨k, (h2 k hk).1, d, hd, hr.flip⟩
  · rintro ⟨k, hk, d, hd, hr⟩
    have hkeep := peel_keeps (edges := networkxEdges g nodes)
      (S := fun b => Reaches (DependsOn g) k b ∧ Reaches (DependsOn g) b k) (by
        rintro b ⟨h1, h2⟩
        have hb : b ∈ nodes := h1.closed (P := fun x => x ∈ nodes) hcl hk
        have hcase : ∃ a, DependsOn g b a ∧ Reaches (DependsOn g) a k := by
          have hflip := h2.flip
          cases hflip with
          | refl => exact ⟨d, hd, hr⟩
          | step ha hab => exact ⟨_, hab, ha.flip⟩
        obtain ⟨a, hba, hak⟩ := hcase
        exact ⟨a, ⟨.step h1 hba, hak⟩, (mem_networkxEdges hw).2 ⟨hb, hba⟩⟩)
      nodes.length nodes (fun b hb => hb.1.closed (P := fun x => x ∈ nodes) hcl hk) k ⟨.refl _, .refl _⟩
    have := List.length_pos_of_mem hkeep
    simp only [bne_iff_ne]
    omega

theorem needed_reaches {g : Graph T V} {overrides : Dict Name V} {fv : List Name} {k : Name}
    (h : Verif.Needed g overrides fv k) : ∃ r ∈ fv, Reaches (DependsOn g) r k := by
  induction h with
  | req hk => exact ⟨_, hk, .refl _⟩
  | param _ _ hm hd ih =>
    obtain ⟨r, hr, h⟩ := ih
    exact ⟨r, hr, .step h ⟨_, hm, hd⟩⟩

theorem livePath_reaches {g : Graph T V} {overrides : Dict Name V} {a b : Name} (h : LivePath g overrides a b) :
    ∃ d, DependsOn g a d ∧ Reaches (DependsOn g) d b := by
  induction h with
  | edge e => exact ⟨_, e.2, .refl _⟩
  | step e _ ih =>
    obtain ⟨d, hd, hr⟩ := ih
    exact ⟨_, e.2, Reaches.head hd hr⟩

theorem livePath_of_reaches {g : Graph T V} {a d b : Name} (h : DependsOn g a d) (hr : Reaches (DependsOn g) d b) :
    LivePath g [] a b := by
  have key : ∀ {x y}, Reaches (DependsOn g) x y → ∀ {c}, LivePath g [] y c → LivePath g [] x c := by
    intro x y hxy
    induction hxy with
    | refl => intro c hc; exact hc
    | step _ e ih => intro c hc; exact ih (.step ⟨rfl, e⟩ hc)
  cases hr with
  | refl => exact .edge ⟨rfl, h⟩
  | step hr e => exact .step ⟨rfl, h⟩ (key hr (.edge ⟨rfl, e⟩))

theorem needed_of_reaches {g : Graph T V} {fv : List Name} {r k : Name} (hr : r ∈ fv) (h : Reaches (DependsOn g) r k) :
    Verif.Needed g ([] : Dict Name V) fv k := by
  induction h with
  | refl => exact .req hr
  | step _ e ih =>
    obtain ⟨n, hn, hd⟩ := e
    exact .param ih rfl hn hd

theorem circle_of_needed {g : Graph T V} {overrides : Dict Name V} {fv : List Name} (h : NeededCycle g overrides fv) :
    Circle g fv := by
  obtain ⟨k, hk, hp⟩ := h
  obtain ⟨r, hr, h1⟩ := needed_reaches hk
  obtain ⟨d, h2, h3⟩ := livePath_reaches hp
  exact ⟨r, hr, k, d, h1, h2, h3⟩

theorem needed_of_circle {g : Graph T V} {fv : List Name} (h : Circle g fv) : NeededCycle g ([] : Dict Name V) fv := by
  obtain ⟨r, hr, k, d, h1, h2, h3⟩ := h
  exact ⟨k, needed_of_reaches hr h1, livePath_of_reaches h2 h3⟩

/-- **C81, circles (partial).**  With networkx installed, `has_cycles` answers for known nodes, however they are requested, and says
true exactly if a requested node depends on a node that depends on itself.  If it says false, no execution of the request ever
recurses endlessly, whatever the inputs and overrides; if it says true, no execution without overrides returns.  Names of no
node are refused, all of them being listed.  Missing: without networkx the answer is always false (`C81_violated_networkx`). -/
theorem C81_has_cycles_partial {modules : List Name} {fg : FnGraph T V} (hg : DriverGraph fg) {rs : List Request} {names : List Name}
    (hn : AllNamed modules rs names) (hne : "" ∉ names) :
    ((∀ k ∈ names, ∃ n, fg.nodes.get? k = some n) →
      ∃ b, hasCycles true modules fg rs = .ok b ∧ (b = true ↔ Circle fg.nodes names) ∧
        (b = false → ∀ o inputs overrides, execute o modules fg rs inputs overrides ≠ .error (.driver (.exec .diverge))) ∧
        (b = true → ∀ o inputs out, execute o modules fg rs inputs none ≠ .ok out)) ∧
    ((∃ k ∈ names, fg.nodes.get? k = none) →
      ∃ l, hasCycles true modules fg rs = .error (.driver (.query (.unknown l))) ∧
        ∀ k, k ∈ l ↔ k ∈ names ∧ fg.nodes.get? k = none) := by
  have hup := C09_upstream hg names
  have hunk : ∀ k, k ∈ unknownNames fg names ↔ k ∈ names ∧ fg.nodes.get? k = none := by
    intro k
    unfold unknownNames
    rw [List.mem_filter]
    cases hk : fg.nodes.get? k with
    | none => simp [Dict.mem_keys_iff, hk]
    | some n => simp [Dict.mem_keys_iff, hk]
  unfold hasCycles
  rw [createFinalVars_named hn hne]
  dsimp only
  constructor
  · intro hk
    have hnil : unknownNames fg names = [] := by
      apply List.eq_nil_iff_forall_not_mem.2
      intro k hmem
      obtain ⟨h1, h2⟩ := (hunk k).1 hmem
      obtain ⟨n, h3⟩ := hk k h1
      rw [h3] at h2
      cases h2
    obtain ⟨s, hs, _, hmem⟩ := hup.1 hnil
    obtain ⟨s2, hs2, hmem2, huser, _⟩ := directionalDfs_spec (fg := fg) (next := upstreamNext fg none none)
      (upstream_closed (config := fg.config) hg.wf none none)
      (fun k hk => (hg.config_in k ((Dict.has_iff _ _).1 hk)).imp (fun _ h => h.1)) names none
    have hs12 : s = s2 := by
      rw [unknown_filter hg, if_pos hnil] at hs2
      unfold getUpstreamNodes at hs
      rw [hs2] at hs
      cases hs
      rfl
    subst hs12
    rw [hs]
    dsimp only
    rw [if_pos rfl]
    have hall : ∀ x, x ∈ s.nodes ++ s.userNodes ↔ ∃ r ∈ names, Reaches (DependsOn fg.nodes) r x := by
      intro x
      rw [List.mem_append, ← hmem]
      exact ⟨fun h => h.elim id (fun h => ((huser x).1 h).1), .inl⟩
    have hiff := simpleCycles_iff hg.wf (nodes := s.nodes ++ s.userNodes) (by
      intro a b ha hab
      obtain ⟨r, hr, h⟩ := (hall a).1 ha
      exact (hall b).2 ⟨r, hr, .step h hab⟩)
    have hcirc : simpleCycles (networkxEdges fg.nodes (s.nodes ++ s.userNodes)) (s.nodes ++ s.userNodes) = true ↔
        Circle fg.nodes names := by
      rw [hiff]
      constructor
      · rintro ⟨k, hk, d, h1, h2⟩
        obtain ⟨r, hr, h⟩ := (hall k).1 hk
        exact ⟨r, hr, k, d, h, h1, h2⟩
      · rintro ⟨r, hr, k, d, h, h1, h2⟩
        exact ⟨k, (hall k).2 ⟨r, hr, h⟩, d, h1, h2⟩
    refine ⟨_, rfl, hcirc, ?_, ?_⟩
    · intro hb o inputs overrides hex
      obtain ⟨e', he, hd⟩ := ((C81_requests_partial hn hne inputs overrides).2 _).1 hex
      cases he
      have := hcirc.2 (circle_of_needed (C54_recursion_needs_cycle hg hd))
      rw [this] at hb
      cases hb
    · intro hb o inputs out hex
      have hd := ((C81_requests_partial hn hne inputs none).1 out).1 hex
      exact C54_needed_cycle_fails (o := o) (inputs := inputs) hg (overrides := none) (needed_of_circle (hcirc.1 hb)) out hd
  · rintro ⟨k, hk, hnone⟩
    have hmem := (hunk k).2 ⟨hk, hnone⟩
    obtain ⟨s, hs⟩ := hup.2 (List.ne_nil_of_mem hmem)
    rw [hs]
    exact ⟨_, rfl, hunk⟩

/-! ### Export -/

theorem mem_insertName {x k : Name} {l : List Name} : x ∈ insertName k l ↔ x = k ∨ x ∈ l := by
  induction l with
  | nil => simp [insertName]
  | cons a l ih =>
    unfold insertName
    split
    · simp
    · rw [List.mem_cons, ih, List.mem_cons]
      constructor
      · rintro (h | h | h)
        · exact .inr (.inl h)
        · exact .inl h
        · exact .inr (.inr h)
      · rintro (h | h | h)
        · exact .inr (.inl h)
        · exact .inl h
        · exact .inr (.inr h)

theorem mem_sortNames {x : Name} {l : List Name} : x ∈ sortNames l ↔ x ∈ l := by
  induction l with
  | nil => simp [sortNames]
  | cons a l ih =>
    unfold sortNames at ih ⊢
    rw [List.foldr_cons, mem_insertName, ih, List.mem_cons]

theorem lt_of_le_ne {a b : Name} (h : a ≤ b) (hne : a ≠ b) : a < b :=
  String.not_le.1 (fun h' => hne (String.le_antisymm h h'))

theorem le_of_lt' {a b : Name} (h : a < b) : a ≤ b :=
  (String.le_total a b).elim id (fun h' => absurd h (fun hlt => String.not_le.2 hlt h'))

theorem lt_trans' {a b c : Name} (h : a < b) (h' : b < c) : a < c := by
  refine lt_of_le_ne (String.le_trans (le_of_lt' h) (le_of_lt' h')) ?_
  rintro rfl
  exact String.not_le.2 h (le_of_lt' h')

theorem insertName_sorted {k : Name} {l : List Name} (h : l.Pairwise (· < ·)) (hk : k ∉ l) :
    (insertName k l).Pairwise (· < ·) := by
  induction l with
  | nil => simp [insertName]
  | cons a l ih =>
    unfold insertName
    obtain ⟨h1, h2⟩ := List.pairwise_cons.1 h
    have hka : k ≠ a := fun he => hk (by simp [he])
    split
    · rename_i hle
      have hlt := lt_of_le_ne hle hka
      refine List.pairwise_cons.2 ⟨?_, h⟩
      intro b hb
      rcases List.mem_cons.1 hb with rfl | hb
      · exact hlt
      · exact lt_trans' hlt (h1 b hb)
    · rename_i hle
      refine List.pairwise_cons.2 ⟨?_, ih h2 (fun hm => hk (by simp [hm]))⟩
      intro b hb
      rcases mem_insertName.1 hb with rfl | hb
      · exact String.not_le.1 hle
      · exact h1 b hb

theorem sortNames_sorted {l : List Name} (h : l.Nodup) : (sortNames l).Pairwise (· < ·) := by
  induction l with
  | nil => simp [sortNames]
  | cons a l ih =>
    obtain ⟨h1, h2⟩ := List.nodup_cons.1 h
    have hi := ih h2
    unfold sortNames at hi ⊢
    exact insertName_sorted hi (fun hm => h1 ((mem_sortNames (l := l)).1 hm))

theorem mem_insertExported {x k : Exported} {l : List Exported} : x ∈ insertExported k l ↔ x = k ∨ x ∈ l := by
  induction l with
  | nil => simp [insertExported]
  | cons a l ih =>
    unfold insertExported
    split
    · simp
    · rw [List.mem_cons, ih, List.mem_cons]
      constructor
      · rintro (h | h | h)
        · exact .inr (.inl h)
        · exact .inl h
        · exact .inr (.inr h)
      · rintro (h | h | h)
        · exact .inr (.inl h)
        · exact .inl h
        · exact .inr (.inr h)

theorem mem_sortExported {x : Exported} {l : List Exported} : x ∈ sortExported l ↔ x ∈ l := by
  induction l with
  | nil => simp [sortExported]
  | cons a l ih =>
    unfold sortExported at ih ⊢
    rw [List.foldr_cons, mem_insertExported, ih, List.mem_cons]

theorem insertExported_sorted {k : Exported} {l : List Exported} (h : l.Pairwise (fun a b => a.name < b.name))
    (hk : ∀ x ∈ l, x.name ≠ k.name) : (insertExported k l).Pairwise (fun a b => a.name < b.name) := by
  induction l with
  | nil => simp [insertExported]
  | cons a l ih =>
    unfold insertExported
    obtain ⟨h1, h2⟩ := List.pairwise_cons.1 h
    have hka : k.name ≠ a.name := fun he => hk a (by simp) he.symm
    split
    · rename_i hle
      have hlt := lt_of_le_ne hle hka
      refine List.pairwise_cons.2 ⟨?_, h⟩
      intro b hb
      rcases List.mem_cons.1 hb with rfl | hb
      · exact hlt
      · exact lt_trans' hlt (h1 b hb)
    · rename_i hle
      refine List.pairwise_cons.2 ⟨?_, ih h2 (fun x hx => hk x (by simp [hx]))⟩
      intro b hb
      rcases mem_insertExported.1 hb with rfl | hb
      · exact String.not_le.1 hle
      · exact h1 b hb

theorem sortExported_sorted {l : List Exported} (h : l.Pairwise (fun a b => a.name ≠ b.name)) :
    (sortExported l).Pairwise (fun a b => a.name < b.name) := by
  induction l with
  | nil => simp [sortExported]
  | cons a l ih =>
    obtain ⟨h1, h2⟩ := List.pairwise_cons.1 h
    have hi := ih h2
    unfold sortExported at hi ⊢
    exact insertExported_sorted hi (fun x hx he => h1 x ((mem_sortExported (l := l)).1 hx) he.symm)

theorem planEdge_iff {fg : FnGraph T V} (hw : WellFormed fg.nodes) {inputs : Option (Dict Name V)}
    (hin : (inputs.getD []).keys.Nodup) (overrides : Option (Dict Name V)) (a b : Name) :
    nextOf fg.nodes (upstreamNext fg inputs overrides) a b ↔ PlanEdge fg inputs overrides a b := by
  cases inputs with
  | none =>
    rw [nextOf_upstream_none (config := fg.config) hw overrides a b]
    unfold PlanEdge DependsOn
    constructor
    · rintro ⟨h1, n, h2, h3⟩
      obtain ⟨t, ht⟩ := Dict.mem_keys_iff.1 h3
      exact ⟨h1, n, t, h2, ht, fun _ h => (by cases h)⟩
    · rintro ⟨h1, n, t, h2, h3, _⟩
      exact ⟨h1, n, h2, Dict.mem_keys_iff.2 ⟨t, h3⟩⟩
  | some ins =>
    rw [nextOf_upstream_some (config := fg.config) hw (ins := ins) hin overrides a b]
    unfold PlanEdge RunEdge
    constructor
    · rintro ⟨h1, n, t, h2, h3, h4⟩
      exact ⟨h1, n, t, h2, h3, fun _ h => (by cases h; exact h4)⟩
    · rintro ⟨h1, n, t, h2, h3, h4⟩
      exact ⟨h1, n, t, h2, h3, h4 ins rfl⟩

theorem filter_dep {n : Node T V} (hnd : n.inputTypes.keys.Nodup) (dt : DepType) :
    ((n.inputTypes.filter (fun p => p.2.2 = dt)).map (·.1)).Nodup ∧
    ∀ d, d ∈ (n.inputTypes.filter (fun p => p.2.2 = dt)).map (·.1) ↔ ∃ t, n.inputTypes.get? d = some (t, dt) := by
  constructor
  · exact List.Pairwise.sublist (List.Sublist.map (fun p : Name × T × DepType => p.1) List.filter_sublist) hnd
  · intro d
    rw [List.mem_map]
    constructor
    · rintro ⟨⟨k, t, t'⟩, hp, rfl⟩
      obtain ⟨h1, h2⟩ := List.mem_filter.1 hp
      simp only [decide_eq_true_eq] at h2
      subst h2
      exact ⟨t, Dict.get?_of_mem hnd h1⟩
    · rintro ⟨t, ht⟩
      exact ⟨(d, t, dt), List.mem_filter.2 ⟨Dict.get?_mem ht, by simp⟩, rfl⟩

/-- **C81, export (partial).**  For outputs requested by name: `export_execution` succeeds whenever `validate_execution` accepts and
fails only with its error; the exported list is sorted by name, has each node that a run with these inputs and overrides looks
at once and no other, and lists for each its required and its optional parameters, sorted.  Missing: outputs requested by function
or `Variable`, which always raise a TypeError; the other fields (type, tags, source, documentation, version). -/
theorem C81_export_partial {o : TypeOracle T V} {fg : FnGraph T V} (hg : DriverGraph fg) {names : List Name}
    {inputs overrides : Option (Dict Name V)} (hin : (inputs.getD []).keys.Nodup) :
    (∀ e, exportExecution o fg (names.map .str) inputs overrides = .error e →
      validateExecution o fg (names.map .str) inputs overrides = .error e) ∧
    ∀ l, exportExecution o fg (names.map .str) inputs overrides = .ok l →
      l.Pairwise (fun a b => a.name < b.name) ∧
      (∀ x, (∃ r ∈ l, r.name = x) ↔
        ∃ r ∈ names, (∃ n, fg.nodes.get? r = some n) ∧ Reaches (PlanEdge fg inputs overrides) r x) ∧
      ∀ r ∈ l, ∃ n, fg.nodes.get? r.name = some n ∧ r.required.Pairwise (· < ·) ∧ r.optional.Pairwise (· < ·) ∧
        (∀ d, d ∈ r.required ↔ ∃ t, n.inputTypes.get? d = some (t, .required)) ∧
        (∀ d, d ∈ r.optional ↔ ∃ t, n.inputTypes.get? d = some (t, .optional)) := by
  obtain ⟨s, hs, hmem, huser, hnd⟩ := directionalDfs_spec (fg := fg) (next := upstreamNext fg inputs overrides)
    (upstream_closed (config := fg.config) hg.wf inputs overrides)
    (fun k hk => (hg.config_in k ((Dict.has_iff _ _).1 hk)).imp (fun _ h => h.1)) names inputs
  unfold exportExecution validateExecution validateNames
  rw [strings_map]
  dsimp only
  unfold getUpstreamNodes
  rw [hs]
  by_cases hmiss : names.filter (fun v => !(fg.nodes.has v || fg.config.has v) && !((inputs.getD []).has v)) = []
  · rw [if_pos hmiss]
    dsimp only
    cases hv : validateInputs o fg s.userNodes inputs s.nodes with
    | error e => exact ⟨fun e' h => (by cases h; rfl), fun l h => (by cases h)⟩
    | ok u =>
      dsimp only
      refine ⟨fun e' h => (by cases h), fun l h => ?_⟩
      have hunion : unionNames s.nodes s.userNodes = s.nodes := by
        unfold unionNames
        have : s.userNodes.filter (fun x => !s.nodes.contains x) = [] := by
          rw [List.filter_eq_nil_iff]
          intro x hx
          simp [((huser x).1 hx).1]
        rw [this, List.append_nil]
      rw [hunion] at h
      have h := (Except.ok.inj h).symm
      have hreach : ∀ x, x ∈ s.nodes ↔
          ∃ r ∈ names, (∃ n, fg.nodes.get? r = some n) ∧ Reaches (PlanEdge fg inputs overrides) r x := by
        intro x
        rw [hmem]
        constructor
        · rintro ⟨r, hr, h1, h2⟩
          exact ⟨r, hr, h1, h2.mono (fun a b e => (planEdge_iff hg.wf hin overrides a b).1 e)⟩
        · rintro ⟨r, hr, h1, h2⟩
          exact ⟨r, hr, h1, h2.mono (fun a b e => (planEdge_iff hg.wf hin overrides a b).2 e)⟩
      have hnode : ∀ x ∈ s.nodes, ∃ n, fg.nodes.get? x = some n := by
        intro x hx
        obtain ⟨r, _, h1, h2⟩ := (hreach x).1 hx
        exact h2.closed (P := fun x => ∃ n, fg.nodes.get? x = some n) (by
          rintro a b _ ⟨_, n, t, h3, h4, _⟩
          exact hg.wf.deps_in h3 (Dict.mem_keys_iff.2 ⟨t, h4⟩)) h1
      have hin' : ∀ r, r ∈ l ↔ ∃ x ∈ s.nodes, ∃ n, fg.nodes.get? x = some n ∧ r = exportNode n := by
        intro r
        rw [h, mem_sortExported, List.mem_filterMap]
        constructor
        · rintro ⟨x, hx, he⟩
          obtain ⟨n, hn⟩ := hnode x hx
          rw [hn] at he
          exact ⟨x, hx, n, hn, (Option.some.inj he).symm⟩
        · rintro ⟨x, hx, n, hn, rfl⟩
          exact ⟨x, hx, by rw [hn]⟩
      refine ⟨?_, ?_, ?_⟩
      · rw [h]
        apply sortExported_sorted
        rw [List.pairwise_filterMap]
        refine hnd.imp ?_
        intro a b hab r1 h1 r2 h2 he
        cases hga : fg.nodes.get? a with
        | none => rw [hga] at h1; cases h1
        | some na =>
          cases hgb : fg.nodes.get? b with
          | none => rw [hgb] at h2; cases h2
          | some nb =>
            rw [hga] at h1
            rw [hgb] at h2
            have h1 := (Option.some.inj h1).symm
            have h2 := (Option.some.inj h2).symm
            rw [h1, h2] at he
            have he : na.name = nb.name := he
            rw [hg.wf.name_eq hga, hg.wf.name_eq hgb] at he
            exact hab he
      · intro x
        rw [← hreach]
        constructor
        · rintro ⟨r, hr, rfl⟩
          obtain ⟨x, hx, n, hn, rfl⟩ := (hin' r).1 hr
          have : (exportNode n).name = x := hg.wf.name_eq hn
          rw [this]
          exact hx
        · intro hx
          obtain ⟨n, hn⟩ := hnode x hx
          exact ⟨exportNode n, (hin' _).2 ⟨x, hx, n, hn, rfl⟩, hg.wf.name_eq hn⟩
      · intro r hr
        obtain ⟨x, hx, n, hn, rfl⟩ := (hin' r).1 hr
        have hname : (exportNode n).name = x := hg.wf.name_eq hn
        have hp := hg.wf.params_nodup hn
        refine ⟨n, by rw [hname]; exact hn, sortNames_sorted (filter_dep hp .required).1,
          sortNames_sorted (filter_dep hp .optional).1, ?_, ?_⟩
        · intro d
          exact mem_sortNames.trans ((filter_dep hp .required).2 d)
        · intro d
          exact mem_sortNames.trans ((filter_dep hp .optional).2 d)
  · rw [if_neg hmiss]
    exact ⟨fun e h => (by cases h; rfl), fun l h => (by cases h)⟩

/-! ### Samples and violations -/

namespace DryRunSample
open MaterializeSample

/-- The function `left` of the driver's module, the `Variable` of `right`, and a name. -/
def requests : List Request := [.function "mod" "left", .named "right", .str "base"]

theorem requests_named : AllNamed ["mod"] requests ["left", "right", "base"] :=
  .cons (.function _ (by simp)) (.cons (.byVariable _) (.cons (.str _) .nil))

-- C81_requests_partial
example : execute Sample.oracle ["mod"] Sample.fg requests (some [("x", 1)]) none =
    execute Sample.oracle ["mod"] Sample.fg [.str "left", .str "right", .str "base"] (some [("x", 1)]) none ∧
    (execute Sample.oracle ["mod"] Sample.fg requests (some [("x", 1)]) none).isOk = true := ⟨rfl, by decide +kernel⟩

-- C81_impossible: a function of another module and a number
example : ¬ (∃ n, Names ["mod"] (.function "elsewhere" "left") n) ∧ ¬ (∃ n, Names ["mod"] .other n) ∧
    execute Sample.oracle ["mod"] Sample.fg [.str "left", .function "elsewhere" "left", .other] none none = .error (.convert 2) := by
  refine ⟨?_, ?_, rfl⟩
  · rintro ⟨n, h⟩
    cases h with
    | function _ hm => simp at hm
  · rintro ⟨n, h⟩
    cases h

-- C81_validate_partial: refused and accepted
example : validateExecution Sample.oracle Sample.fg [.str "left"] (some []) none =
    .error (.driver (.validation [.requiredMissing "x"])) := rfl
example : validateExecution Sample.oracle Sample.fg [.str "left"] (some [("x", 1)]) none = .ok () := rfl

-- C81_validate_materialization_partial
example : validateMaterialization sops Sample.tm Sample.oracle ["mod"] Sample.fg [saveTop] [loadBase] [.function "mod" "left"]
    (some [("x", 1)]) none = .ok () ∧ (∀ x ∈ [loadBase], x.target ∉ Sample.fg.config.keys ∧
      loadName x.target ∉ Sample.fg.config.keys) := ⟨rfl, by decide +kernel⟩

-- C81_has_cycles_partial
example : hasCycles true ["mod"] CycleSample.fg [.function "mod" "user"] = .ok true ∧
    hasCycles true ["mod"] CycleSample.fg [.named "free"] = .ok false ∧
    hasCycles true ["mod"] CycleSample.fg [.str "free", .str "nope"] = .error (.driver (.query (.unknown ["nope"]))) :=
  ⟨rfl, rfl, rfl⟩

-- C81_export_partial
example : exportExecution Sample.oracle Sample.fg [.str "right"] (some [("x", 1)]) none =
    .ok [⟨"base", ["x"], []⟩, ⟨"right", ["base"], ["y"]⟩, ⟨"x", [], []⟩] := rfl

/-- C81 is violated for functions and `Variable`s: `validate_execution` and `export_execution` raise a TypeError for a request that
`execute` carries out. -/
theorem C81_violated_function :
    (∃ out, execute Sample.oracle ["mod"] Sample.fg [.function "mod" "left"] (some [("x", 1)]) none = .ok out ∧
      out = [("left", some 4)]) ∧
    validateExecution Sample.oracle Sample.fg [.function "mod" "left"] (some [("x", 1)]) none = .error .typeError ∧
    validateExecution Sample.oracle Sample.fg [.named "left"] (some [("x", 1)]) none = .error .typeError ∧
    exportExecution Sample.oracle Sample.fg [.named "left"] (some [("x", 1)]) none = .error .typeError :=
  ⟨⟨_, rfl, rfl⟩, rfl, rfl, rfl⟩

/-- C81 is violated for the empty string: `execute` drops it and returns the rest, `validate_execution` refuses it as unknown. -/
theorem C81_violated_empty :
    execute Sample.oracle ["mod"] Sample.fg [.str "", .str "left"] (some [("x", 1)]) none = .ok [("left", some 4)] ∧
    validateExecution Sample.oracle Sample.fg [.str "", .str "left"] (some [("x", 1)]) none =
      .error (.driver (.query (.unknown [""]))) :=
  ⟨rfl, rfl⟩

/-- C81 is violated without networkx: `has_cycles` says there is no circle, and execution recurses endlessly. -/
theorem C81_violated_networkx :
    hasCycles false ["mod"] CycleSample.fg [.str "user"] = .ok false ∧ Circle CycleSample.fg.nodes ["user"] ∧
    execute Sample.oracle ["mod"] CycleSample.fg [.str "user"] (some [("x", 1)]) none = .error (.driver (.exec .diverge)) :=
  ⟨rfl, circle_of_needed CycleSample.cycle, rfl⟩

/-- C81 is violated for an empty materialization: it is accepted by `validate_materialization` and refused by `materialize`. -/
theorem C81_violated_nothing :
    validateMaterialization sops Sample.tm Sample.oracle ["mod"] Sample.fg [] [] [] (some [("x", 1)]) none = .ok () ∧
    materialize sops Sample.tm Sample.oracle ["mod"] Sample.fg [] [] [] (some [("x", 1)]) none = .error (.materialize .nothing) :=
  ⟨rfl, rfl⟩

end DryRunSample

end Verif.DryRun
