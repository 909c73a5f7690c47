import Verif.Model.Kedro
import Verif.Proofs.Pipe
import Verif.Proofs.Materialize
import Verif.Props.Execution

/-!
Property C82: the driver made of Kedro pipelines computes what the pipelines compute.
-/
namespace Verif.Kedro
variable {T V : Type}

/-! ### Specification -/

/-- The name under which an input of a Kedro node is known to the driver. -/
def KInput.label : KInput → Name
  | .dataset d => d
  | .param p => p

/-- The input is passed to the parameter: inputs are passed by position. -/
def Fed (k : KNode T V) (q : Name) (i : KInput) : Prop :=
  ∃ n : Nat, k.func.params.keys[n]? = some q ∧ k.inputs[n]? = some i

/-- The arguments of the call: the parameters that are fed, in order; the others keep their defaults. -/
def callArgs (k : KNode T V) (val : Name → V) : Dict Name V :=
  (k.func.params.keys.take k.inputs.length).map (fun q => (q, val q))

/-- The dataset is declared as an output. -/
def HasOutput : KOutputs → Name → Prop
  | .none, _ => False
  | .one d, x => x = d
  | .list ds, x => x ∈ ds
  | .dict ds, x => ∃ key, (key, x) ∈ ds

/-- What the datasets are, given what the function returned: the whole value, the components of the sequence by position, or the
entries of the dictionary by key.  Kedro insists that there are as many components as outputs, and the same keys. -/
inductive Produces (ops : PyOps V) (iter : V → Option (List V)) : KOutputs → V → Name → V → Prop
  | one {d v} : Produces ops iter (.one d) v d v
  | list {ds d v w l} {n : Nat} : iter v = some l → l.length = ds.length → ds[n]? = some d → l[n]? = some w →
      Produces ops iter (.list ds) v d w
  | dict {ds : Dict Name Name} {key d v w m} : ops.asDict v = some m → (∀ x, x ∈ m.keys ↔ x ∈ ds.keys) → (key, d) ∈ ds →
      m.get? key = some w → Produces ops iter (.dict ds) v d w

/-- No node of the pipelines produces this. -/
def Free (p : List (KNode T V)) (i : KInput) : Prop := ∀ k ∈ p, ∀ d, i = .dataset d → ¬ HasOutput k.outputs d

/-- What a dataset or parameter is when Kedro runs the pipelines on the given data. -/
inductive KValue (ops : PyOps V) (iter : V → Option (List V)) (p : List (KNode T V)) (given : KInput → Option V) :
    KInput → V → Prop
  | given {i v} : Free p i → given i = some v → KValue ops iter p given i v
  | produced {k d r v} (val : Name → V) : k ∈ p → (∀ q i, Fed k q i → KValue ops iter p given i (val q)) →
      k.func.fn (callArgs k val) = .ok r → Produces ops iter k.outputs r d v → KValue ops iter p given (.dataset d) v

/-- It is an input or an output of some node. -/
def Occurs (p : List (KNode T V)) (i : KInput) : Prop :=
  ∃ k ∈ p, i ∈ k.inputs ∨ ∃ d, i = .dataset d ∧ HasOutput k.outputs d

/-- The node does not have exactly one output, so that its function needs a name of its own in the driver. -/
def Internal (k : KNode T V) : Prop := ¬ ∃ d, k.outputs = .one d

/-- Nodes the conversion treats properly: one output given by its name (or no output); several outputs given by a list, the function
being annotated with the bare class `tuple` and returning as many components; several outputs given by a dictionary whose keys are
the names of the datasets, the function being annotated with the bare class `dict` and returning these keys. -/
inductive Proper (ops : PyOps V) (iter : V → Option (List V)) (k : KNode T V) : Prop
  | none : k.outputs = .none → k.func.ann ≠ .missing → Proper ops iter k
  | one {d} : k.outputs = .one d → k.func.ann ≠ .missing → Proper ops iter k
  | list {ds} : k.outputs = .list ds → 2 ≤ ds.length → ds.Nodup → k.func.ann = .tuple →
      (∀ kw v, k.func.fn kw = .ok v → ∃ l, iter v = some l ∧ l.length = ds.length) → Proper ops iter k
  | dict {ds : Dict Name Name} : k.outputs = .dict ds → 2 ≤ ds.length → (∀ e ∈ ds, e.1 = e.2) → ds.keys.Nodup → k.func.ann = .dict →
      (∀ kw v, k.func.fn kw = .ok v → ∃ m, ops.asDict v = some m ∧ ∀ x, x ∈ m.keys ↔ x ∈ ds.keys) → Proper ops iter k

/-- Nothing collides, and the data are given. -/
structure Clean (ops : PyOps V) (iter : V → Option (List V)) (p : List (KNode T V)) (given : KInput → Option V)
    (ins : Dict Name V) : Prop where
  proper : ∀ k ∈ p, Proper ops iter k
  /-- No dataset is produced twice; no function with several outputs is used twice, nor two of one name. -/
  distinct : p.Pairwise (fun k k' => (∀ d, HasOutput k.outputs d → ¬ HasOutput k'.outputs d) ∧
    (Internal k → Internal k' → k.func.name ≠ k'.func.name ∧ k.func.id ≠ k'.func.id))
  params_nodup : ∀ k ∈ p, k.func.params.keys.Nodup
  /-- At most as many inputs as parameters, none passed twice. -/
  inputs_le : ∀ k ∈ p, k.inputs.length ≤ k.func.params.length
  inputs_distinct : ∀ k ∈ p, (k.inputs.map KInput.label).Nodup
  /-- Parameters that are not fed have defaults, and nothing in the driver is called like them. -/
  unfed : ∀ k ∈ p, ∀ (n : Nat) q t, k.func.params[n]? = some (q, t) → k.inputs.length ≤ n → t.2 = .optional ∧
    (∀ i, Occurs p i → i.label ≠ q) ∧ (∀ k' ∈ p, Internal k' → k'.func.name ≠ q) ∧ ins.get? q = none
  /-- A dataset and a parameter have different names. -/
  apart : ∀ i j, Occurs p i → Occurs p j → i.label = j.label → i = j
  /-- The name of a function with several outputs is no dataset, no parameter of Kedro, and none of its own parameters. -/
  internal : ∀ k ∈ p, Internal k → (∀ i, Occurs p i → i.label ≠ k.func.name) ∧ k.func.name ∉ k.func.params.keys ∧
    k.func.name ≠ "field_to_extract"
  /-- What is not produced is given. -/
  supplied : ∀ i, Occurs p i → Free p i → ∃ v, given i = some v ∧ ins.get? i.label = some v

/-! ### Renaming of parameters -/

theorem inputName_eq (i : KInput) : inputName i = i.label := by cases i <;> rfl

theorem newParams_eq : ∀ (ps : List Name) (is : List KInput), newParams ps is = ps.zip (is.map KInput.label) := by
  intro ps
  induction ps with
  | nil => intro is; cases is <;> rfl
  | cons q ps ih =>
    intro is
    cases is with
    | nil => rfl
    | cons i is => unfold newParams; rw [ih, inputName_eq]; rfl

theorem mem_newParams {k : KNode T V} {q x : Name} :
    (q, x) ∈ newParams k.func.params.keys k.inputs ↔ ∃ i, Fed k q i ∧ i.label = x := by
  rw [newParams_eq, List.mem_iff_getElem?]
  constructor
  · rintro ⟨n, hn⟩
    rw [List.getElem?_zip_eq_some] at hn
    obtain ⟨h1, h2⟩ := hn
    rw [List.getElem?_map] at h2
    cases hi : k.inputs[n]? with
    | none => rw [hi] at h2; cases h2
    | some i => rw [hi] at h2; exact ⟨i, ⟨n, h1, hi⟩, Option.some.inj h2⟩
  · rintro ⟨i, ⟨n, h1, h2⟩, rfl⟩
    exact ⟨n, List.getElem?_zip_eq_some.2 ⟨h1, by rw [List.getElem?_map, h2]; rfl⟩⟩

theorem set_fresh {W : Type} : ∀ {d : Dict Name W} {x : Name} (v : W), x ∉ d.keys → d.set x v = d ++ [(x, v)] := by
  intro d
  induction d with
  | nil => intro x v _; rfl
  | cons a d ih =>
    intro x v h
    have h1 : ¬ a.1 = x := fun he => h (by simp [Dict.keys, he])
    have h2 : x ∉ Dict.keys d := fun hm => h (List.mem_cons_of_mem _ hm)
    have hd : Dict.set (a :: d) x v = if a.1 = x then (x, v) :: d else (a.1, a.2) :: Dict.set d x v := rfl
    rw [hd, if_neg h1, ih v h2]
    rfl

theorem foldl_swap (l acc : Dict Name Name) (h : (Dict.keys acc ++ l.map (·.2)).Nodup) :
    l.foldl (fun (d : Dict Name Name) p => d.set p.2 p.1) acc = acc ++ l.map (fun p => (p.2, p.1)) := by
  induction l generalizing acc with
  | nil => simp
  | cons a l ih =>
    rw [List.foldl_cons]
    have hna : a.2 ∉ Dict.keys acc := by
      intro hm
      rw [List.nodup_append] at h
      exact h.2.2 a.2 hm a.2 (by simp) rfl
    rw [set_fresh _ hna, ih]
    · simp
    · simpa [Dict.keys] using h

theorem reverse_get {names : Dict Name Name} (h : (names.map (·.2)).Nodup) (q x : Name) :
    (reverseNames names).get? x = some q ↔ (q, x) ∈ names := by
  have he : reverseNames names = names.map (fun p => (p.2, p.1)) := by
    have := foldl_swap names [] (by simpa [Dict.keys] using h)
    simpa [reverseNames] using this
  rw [he]
  have hnd : (Dict.keys (names.map (fun p => (p.2, p.1)))).Nodup := by
    have : Dict.keys (names.map (fun p => (p.2, p.1))) = names.map (·.2) := by simp [Dict.keys, List.map_map, Function.comp_def]
    rw [this]; exact h
  constructor
  · intro hg
    obtain ⟨a, ha, he⟩ := List.mem_map.1 (Dict.get?_mem hg)
    cases he
    exact ha
  · intro hm
    exact Dict.get?_of_mem hnd (List.mem_map.2 ⟨(q, x), hm, rfl⟩)

section
variable {ops : PyOps V} {iter : V → Option (List V)} {p : List (KNode T V)} {given : KInput → Option V} {ins : Dict Name V}

/-- The renaming of the parameters of a node. -/
def renamed (k : KNode T V) : Dict Name Name := newParams k.func.params.keys k.inputs

theorem fed_input {k : KNode T V} {q : Name} {i : KInput} (h : Fed k q i) : i ∈ k.inputs := by
  obtain ⟨n, _, h2⟩ := h
  exact List.mem_of_getElem? h2

theorem fed_param {k : KNode T V} {q : Name} {i : KInput} (h : Fed k q i) : q ∈ k.func.params.keys := by
  obtain ⟨n, h1, _⟩ := h
  exact List.mem_of_getElem? h1

theorem params_length (k : KNode T V) : k.func.params.keys.length = k.func.params.length := by simp [Dict.keys]

theorem renamed_values (hc : Clean ops iter p given ins) {k : KNode T V} (hk : k ∈ p) :
    ((renamed k).map (·.2)).Nodup := by
  have : (renamed k).map (·.2) = k.inputs.map KInput.label := by
    unfold renamed
    rw [newParams_eq]
    rw [List.map_snd_zip]
    rw [List.length_map, params_length]
    exact hc.inputs_le k hk
  rw [this]
  exact hc.inputs_distinct k hk

theorem renamed_keys (hc : Clean ops iter p given ins) {k : KNode T V} (hk : k ∈ p) : (renamed k).keys.Nodup := by
  have hsub : (renamed k).keys.Sublist k.func.params.keys := by
    unfold renamed
    rw [newParams_eq]
    have : Dict.keys (k.func.params.keys.zip (k.inputs.map KInput.label)) =
        k.func.params.keys.take (k.inputs.map KInput.label).length := by
      unfold Dict.keys
      rw [List.zip_eq_zip_take_min, List.map_fst_zip]
      · congr 1
        have := hc.inputs_le k hk
        have := params_length k
        simp only [List.length_map, Dict.keys] at *
        omega
      · simp
    rw [this]
    exact List.take_sublist _ _
  exact hsub.nodup (hc.params_nodup k hk)

theorem tgt_fed (hc : Clean ops iter p given ins) {k : KNode T V} (hk : k ∈ p) {q : Name} {i : KInput} (h : Fed k q i) :
    tgt (renamed k) q = i.label := by
  unfold tgt
  rw [Dict.get?_of_mem (renamed_keys hc hk) (mem_newParams.2 ⟨i, h, rfl⟩)]
  rfl

theorem tgt_unfed {k : KNode T V} {q : Name} (h : ∀ i, ¬ Fed k q i) : tgt (renamed k) q = q := by
  unfold tgt
  cases hg : (renamed k).get? q with
  | none => rfl
  | some x =>
    obtain ⟨i, hi, _⟩ := mem_newParams.1 (Dict.get?_mem hg)
    exact absurd hi (h i)

/-- A parameter is fed, or it is optional and nothing is called like it. -/
theorem param_cases (hc : Clean ops iter p given ins) {k : KNode T V} (hk : k ∈ p) {q : Name} {t : T × DepType}
    (hq : (q, t) ∈ k.func.params) : (∃ i, Fed k q i) ∨
      ((∀ i, ¬ Fed k q i) ∧ t.2 = .optional ∧ (∀ i, Occurs p i → i.label ≠ q) ∧ (∀ k' ∈ p, Internal k' → k'.func.name ≠ q) ∧
        ins.get? q = none) := by
  obtain ⟨n, hn⟩ := List.mem_iff_getElem?.1 hq
  have hkey : k.func.params.keys[n]? = some q := by
    unfold Dict.keys
    rw [List.getElem?_map, hn]
    rfl
  by_cases hlt : n < k.inputs.length
  · exact .inl ⟨k.inputs[n], n, hkey, List.getElem?_eq_getElem hlt⟩
  · refine .inr ⟨?_, hc.unfed k hk n q t hn (by omega)⟩
    rintro i ⟨m, h1, h2⟩
    have hmlt : m < k.inputs.length := (List.getElem?_eq_some_iff.1 h2).1
    have hnd := hc.params_nodup k hk
    have hm' := (List.getElem?_eq_some_iff.1 h1).1
    have := (List.getElem?_inj hm' hnd).1 (h1.trans hkey.symm)
    omega

theorem occurs_input {k : KNode T V} (hk : k ∈ p) {i : KInput} (hi : i ∈ k.inputs) : Occurs p i := ⟨k, hk, .inl hi⟩

theorem back (hc : Clean ops iter p given ins) {k : KNode T V} (hk : k ∈ p) {q : Name} (hq : q ∈ k.func.params.keys) :
    ((reverseNames (renamed k)).get? (tgt (renamed k) q)).getD (tgt (renamed k) q) = q := by
  obtain ⟨t, ht⟩ := Dict.mem_keys_iff.1 hq
  rcases param_cases hc hk (Dict.get?_mem ht) with ⟨i, hi⟩ | ⟨hun, _, hocc, _, _⟩
  · rw [tgt_fed hc hk hi, (reverse_get (renamed_values hc hk) q i.label).2 (mem_newParams.2 ⟨i, hi, rfl⟩)]
    rfl
  · rw [tgt_unfed hun]
    cases hg : (reverseNames (renamed k)).get? q with
    | none => rfl
    | some x =>
      obtain ⟨i, hi, he⟩ := mem_newParams.1 ((reverse_get (renamed_values hc hk) x q).1 hg)
      exact absurd he (hocc i (occurs_input hk (fed_input hi)))

/-- Calling a node whose parameters are renamed. -/
theorem reassigned_gen {names : Dict Name Name} {n : Node T V} (hp : n.inputTypes.keys.Nodup)
    (hb : ∀ q ∈ n.inputTypes.keys, ((reverseNames names).get? (tgt names q)).getD (tgt names q) = q) :
    (reassignInputs names ([] : Dict Name V) n).inputTypes = n.inputTypes.map (fun q => (tgt names q.1, q.2)) ∧
    (reassignInputs names ([] : Dict Name V) n).inputTypes.keys.Nodup ∧
    ∀ val, (reassignInputs names ([] : Dict Name V) n).fn
        (argsFor (reassignInputs names ([] : Dict Name V) n).inputTypes val) =
      n.fn (argsFor n.inputTypes (fun q => val (tgt names q))) := by
  have h := fun val => reassign_args (names := names) (values := ([] : Dict Name V)) (params := n.inputTypes)
    hp (by simp [Dict.keys]) (fun q hq _ => ⟨hb q hq, by simp [Dict.keys]⟩) (by simp [Dict.keys]) val
  have hf : n.inputTypes.filter (fun q => !(Dict.has ([] : Dict Name V) q.1)) = n.inputTypes := by
    rw [List.filter_eq_self]
    intro a _
    rfl
  rw [hf] at h
  have hin : (reassignInputs names ([] : Dict Name V) n).inputTypes =
      reassignTypes names ([] : Dict Name V) n.inputTypes := rfl
  refine ⟨?_, ?_, ?_⟩
  · rw [hin, (h (fun _ => none)).1]
  · rw [hin]; exact (h (fun _ => none)).2.1
  · intro val
    rw [hin]
    have h3 := (h val).2.2
    rw [List.append_nil] at h3
    show n.fn _ = _
    rw [h3]

theorem take_args {k : KNode T V} {f : Name → Option V} {val : Name → V}
    (h1 : ∀ q i, Fed k q i → f q = some (val q))
    (h2 : ∀ (n : Nat) q t, k.func.params[n]? = some (q, t) → k.inputs.length ≤ n → f q = none) :
    argsFor k.func.params f = callArgs k val := by
  have hsplit : k.func.params = k.func.params.take k.inputs.length ++ k.func.params.drop k.inputs.length :=
    (List.take_append_drop _ _).symm
  unfold argsFor callArgs
  rw [hsplit, List.filterMap_append]
  have hd : (k.func.params.drop k.inputs.length).filterMap (fun q => (f q.1).map (fun v => (q.1, v))) = [] := by
    rw [List.filterMap_eq_nil_iff]
    rintro ⟨q, t⟩ hq
    obtain ⟨n, hn⟩ := List.mem_iff_getElem?.1 hq
    rw [List.getElem?_drop] at hn
    rw [h2 _ q t hn (by omega)]
    rfl
  rw [hd, List.append_nil, ← hsplit]
  have hkeys : k.func.params.keys.take k.inputs.length = (k.func.params.take k.inputs.length).map (·.1) := by
    unfold Dict.keys
    rw [List.map_take]
  rw [hkeys, List.map_map]
  have hall : ∀ q ∈ k.func.params.take k.inputs.length, f q.1 = some (val q.1) := by
    rintro ⟨q, t⟩ hq
    obtain ⟨n, hn⟩ := List.mem_iff_getElem?.1 hq
    rw [List.getElem?_take] at hn
    split at hn
    · rename_i hlt
      exact h1 q k.inputs[n] ⟨n, by unfold Dict.keys; rw [List.getElem?_map, hn]; rfl, List.getElem?_eq_getElem hlt⟩
    · cases hn
  generalize k.func.params.take k.inputs.length = l at hall
  induction l with
  | nil => rfl
  | cons a l ih =>
    rw [List.filterMap_cons_some (b := (a.1, val a.1)) (by rw [hall a (by simp)]; rfl),
      ih (fun q hq => hall q (by simp [hq]))]
    rfl

/-! ### The nodes of the driver -/

theorem fields_eq (anyT : T) (ds : List Name) (h : ds.Nodup) :
    ds.foldl (fun (d : Dict Name T) o => d.set o anyT) [] = ds.map (fun o => (o, anyT)) := by
  have key : ∀ (ds : List Name) (acc : Dict Name T), (Dict.keys acc ++ ds).Nodup →
      ds.foldl (fun (d : Dict Name T) o => d.set o anyT) acc = acc ++ ds.map (fun o => (o, anyT)) := by
    intro ds
    induction ds with
    | nil => intro acc _; simp
    | cons a ds ih =>
      intro acc h
      rw [List.foldl_cons]
      have hna : a ∉ Dict.keys acc := by
        intro hm
        rw [List.nodup_append] at h
        exact h.2.2 a hm a (by simp) rfl
      rw [set_fresh _ hna, ih]
      · simp
      · simpa [Dict.keys] using h
  simpa using key ds [] (by simpa [Dict.keys] using h)

theorem dict_names {ds : Dict Name Name} (h : ∀ e ∈ ds, e.1 = e.2) : ds.map (·.2) = ds.keys := by
  unfold Dict.keys
  apply List.map_congr_left
  intro e he
  exact (h e he).symm

theorem outputNames_mem (o : KOutputs) (d : Name) : d ∈ outputNames o ↔ HasOutput o d := by
  cases o with
  | none => simp [outputNames, HasOutput]
  | one x => simp [outputNames, HasOutput]
  | list ds => simp [outputNames, HasOutput]
  | dict ds =>
    simp only [outputNames, HasOutput, List.mem_map]
    constructor
    · rintro ⟨e, he, rfl⟩; exact ⟨e.1, he⟩
    · rintro ⟨key, h⟩; exact ⟨_, h, rfl⟩

/-- The function of the base node in the driver. -/
def baseFn (ops : PyOps V) (iter : V → Option (List V)) (k : KNode T V) : Dict Name V → Except UserErr V :=
  match k.outputs with
  | .list ds => tupleToDict ops iter ds k.func.fn
  | _ => k.func.fn

/-- The type of the base node in the driver. -/
def baseTyp (dictT : T) (k : KNode T V) : T :=
  match k.outputs with
  | .list _ => dictT
  | _ => k.func.outT

/-- The base node before its parameters are renamed. -/
def base (ops : PyOps V) (iter : V → Option (List V)) (dictT : T) (k : KNode T V) : Node T V :=
  { name := baseName k, typ := baseTyp dictT k, kind := .standard, inputTypes := k.func.params, dependencies := [],
    dependedOnBy := [], fn := baseFn ops iter k }

/-- The datasets that are extracted from the base node. -/
def extracted : KOutputs → List Name
  | .list ds => ds
  | .dict ds => ds.map (·.2)
  | _ => []

theorem dictGenerator_none (fn : Dict Name V → Except UserErr V) (fields : List Name) :
    dictGenerator ops fn fields none = fn := by
  funext kw
  unfold dictGenerator
  cases fn kw <;> rfl

/-- The node that extracts a dataset. -/
def extractor (ops : PyOps V) (anyT dictT : T) (k : KNode T V) (d : Name) : Node T V :=
  { name := d, typ := anyT, kind := .standard, inputTypes := [(k.func.name, (dictT, .required))],
    dependencies := [], dependedOnBy := [], fn := extractorFn ops k.func.name d }

theorem extractFields_eq (anyT dictT : T) {ds : List Name} {n : Node T V} {k : KNode T V} (hn : n.name = k.func.name) :
    extractFields ops dictT (ds.map (fun o => (o, anyT))) none n = n :: ds.map (extractor ops anyT dictT k) := by
  unfold extractFields
  rw [dictGenerator_none, List.map_map]
  congr 1
  apply List.map_congr_left
  intro d _
  show _ = extractor ops anyT dictT k d
  unfold extractor
  rw [← hn]
  rfl

theorem baseName_internal {k : KNode T V} {ds : List Name} (h : outputNames k.outputs = ds) (hl : ds.length ≠ 1) :
    baseName k = k.func.name := by
  unfold baseName
  rw [h]
  match ds, hl with
  | [], _ => rfl
  | [_], hl => exact absurd rfl hl
  | _ :: _ :: _, _ => rfl

theorem internal_of {k : KNode T V} (h : ∀ d, k.outputs ≠ .one d) : Internal k := fun ⟨d, hd⟩ => h d hd

/-- The nodes of a proper node. -/
def hNodes (ops : PyOps V) (iter : V → Option (List V)) (anyT dictT : T) (k : KNode T V) : List (Node T V) :=
  (base ops iter dictT k :: (extracted k.outputs).map (extractor ops anyT dictT k)).map (reassignInputs (renamed k) [])

/-- What a proper node becomes, whatever functions were converted before, if this one was not. -/
theorem kNode_spec {anyT dictT : T} {k : KNode T V} (hp : Proper ops iter k) (converted : List Nat)
    (hfresh : Internal k → k.func.id ∉ converted) :
    ∃ added, (∀ x ∈ added, Internal k ∧ x = k.func.id) ∧
      kNodeToHNodes ops iter anyT dictT converted k = .ok (hNodes ops iter anyT dictT k, added ++ converted) := by
  cases hp with
  | none ho ha =>
    refine ⟨[], by simp, ?_⟩
    simp [kNodeToHNodes, baseNode, ha, ho, outputNames, hNodes, extracted, base, baseTyp, baseFn, renamed]
  | one ho ha =>
    refine ⟨[], by simp, ?_⟩
    simp [kNodeToHNodes, baseNode, ha, ho, outputNames, hNodes, extracted, base, baseTyp, baseFn, renamed]
  | @list ds ho hl hnd ha _ =>
    have hint : Internal k := internal_of (fun d hd => by rw [ho] at hd; cases hd)
    have hcon : converted.contains k.func.id = false := by simpa using hfresh hint
    have hbn : baseName k = k.func.name := baseName_internal (ds := ds) (by rw [ho]; rfl) (by omega)
    refine ⟨[k.func.id], by simpa using hint, ?_⟩
    have hb : base ops iter dictT k =
        { name := baseName k, typ := dictT, kind := .standard, inputTypes := k.func.params, dependencies := [],
          dependedOnBy := [], fn := tupleToDict ops iter ds k.func.fn } := by
      simp only [base, baseTyp, baseFn, ho]
    simp only [kNodeToHNodes, baseNode, ha, ho, outputNames, expandKNode, hcon, fields_eq anyT ds hnd]
    simp only [hNodes, hb, ho, extracted]
    rw [← extractFields_eq (ops := ops) anyT dictT (k := k) (ds := ds) hbn]
    have : ds.length > 1 := by omega
    simp [this, renamed]
  | @dict ds ho hl he hnd ha _ =>
    have hint : Internal k := internal_of (fun d hd => by rw [ho] at hd; cases hd)
    have hcon : converted.contains k.func.id = false := by simpa using hfresh hint
    have hlen : (ds.map (·.2)).length = ds.length := by simp
    have hbn : baseName k = k.func.name := baseName_internal (ds := ds.map (·.2)) (by rw [ho]; rfl) (by omega)
    refine ⟨[], by simp, ?_⟩
    have hb : base ops iter dictT k =
        { name := baseName k, typ := k.func.outT, kind := .standard, inputTypes := k.func.params, dependencies := [],
          dependedOnBy := [], fn := k.func.fn } := by
      simp only [base, baseTyp, baseFn, ho]
    have hnd' : (ds.map (·.2)).Nodup := by rw [dict_names he]; exact hnd
    simp only [kNodeToHNodes, baseNode, ha, ho, outputNames, expandKNode, hcon, fields_eq anyT _ hnd']
    simp only [hNodes, hb, ho, extracted]
    rw [← extractFields_eq (ops := ops) anyT dictT (k := k) (ds := ds.map (·.2)) hbn]
    have : ds.length > 1 := by omega
    simp [this, renamed]

theorem pipeline_spec {anyT dictT : T} : ∀ (p : List (KNode T V)) (converted : List Nat), (∀ k ∈ p, Proper ops iter k) →
    p.Pairwise (fun k k' => Internal k → Internal k' → k.func.id ≠ k'.func.id) →
    (∀ k ∈ p, Internal k → k.func.id ∉ converted) →
    ∃ converted', pipelineNodes ops iter anyT dictT converted p = .ok (p.flatMap (hNodes ops iter anyT dictT), converted') := by
  intro p
  induction p with
  | nil => intro converted _ _ _; exact ⟨converted, rfl⟩
  | cons k p ih =>
    intro converted hp hd hf
    obtain ⟨added, hadd, hk⟩ := kNode_spec (anyT := anyT) (dictT := dictT) (hp k (by simp)) converted (hf k (by simp))
    rw [List.pairwise_cons] at hd
    obtain ⟨conv', hc'⟩ := ih (added ++ converted) (fun k' h' => hp k' (by simp [h'])) hd.2 (by
      intro k' hk' hi hm
      rcases List.mem_append.1 hm with hm | hm
      · obtain ⟨hi0, he⟩ := hadd _ hm
        exact hd.1 k' hk' hi0 hi he.symm
      · exact hf k' (by simp [hk']) hi hm)
    refine ⟨conv', ?_⟩
    simp only [pipelineNodes, hk, hc', List.flatMap_cons]

theorem two (hc : Clean ops iter p given ins) {k k' : KNode T V} (hk : k ∈ p) (hk' : k' ∈ p) :
    k = k' ∨ ((∀ d, HasOutput k.outputs d → ¬ HasOutput k'.outputs d) ∧ (Internal k → Internal k' → k.func.name ≠ k'.func.name)) := by
  obtain ⟨a, ha, rfl⟩ := List.mem_iff_getElem.1 hk
  obtain ⟨b, hb, rfl⟩ := List.mem_iff_getElem.1 hk'
  have hd := List.pairwise_iff_getElem.1 hc.distinct
  rcases Nat.lt_trichotomy a b with h | h | h
  · exact .inr ⟨(hd a b ha hb h).1, fun h1 h2 => ((hd a b ha hb h).2 h1 h2).1⟩
  · subst h; exact .inl rfl
  · exact .inr ⟨fun d h1 h2 => (hd b a hb ha h).1 d h2 h1, fun h1 h2 he => ((hd b a hb ha h).2 h2 h1).1 he.symm⟩

theorem reassign_name {names : Dict Name Name} {n : Node T V} : (reassignInputs names ([] : Dict Name V) n).name = n.name := rfl

theorem reassign_kind {names : Dict Name Name} {n : Node T V} : (reassignInputs names ([] : Dict Name V) n).kind = n.kind := rfl

theorem base_name_one {k : KNode T V} {d : Name} (h : k.outputs = .one d) : baseName k = d := by
  simp [baseName, h, outputNames]

theorem base_name_internal (hc : Clean ops iter p given ins) {k : KNode T V} (hk : k ∈ p) (hi : Internal k) :
    baseName k = k.func.name := by
  cases hc.proper k hk with
  | none ho _ => exact baseName_internal (ds := []) (by rw [ho]; rfl) (by simp)
  | one ho _ => exact absurd ⟨_, ho⟩ hi
  | @list ds ho hl _ _ _ => exact baseName_internal (ds := ds) (by rw [ho]; rfl) (by omega)
  | @dict ds ho hl _ _ _ _ => exact baseName_internal (ds := ds.map (·.2)) (by rw [ho]; rfl) (by simp; omega)

theorem extracted_internal {k : KNode T V} {d : Name} (h : d ∈ extracted k.outputs) : Internal k ∧ HasOutput k.outputs d := by
  refine ⟨internal_of (fun x hx => (by rw [hx] at h; cases h)), ?_⟩
  cases ho : k.outputs with
  | none => rw [ho] at h; cases h
  | one x => rw [ho] at h; cases h
  | list ds => rw [ho] at h; exact h
  | dict ds =>
    rw [ho] at h
    obtain ⟨e, he, rfl⟩ := List.mem_map.1 h
    exact ⟨e.1, he⟩

theorem output_cases (o : KOutputs) {d : Name} (h : HasOutput o d) : o = .one d ∨ d ∈ extracted o := by
  cases o with
  | none => cases h
  | one x => left; rw [show d = x from h]
  | list ds => right; exact h
  | dict ds =>
    right
    obtain ⟨key, hk⟩ := h
    exact List.mem_map.2 ⟨_, hk, rfl⟩

theorem occurs_output {k : KNode T V} (hk : k ∈ p) {d : Name} (h : HasOutput k.outputs d) : Occurs p (.dataset d) :=
  ⟨k, hk, .inr ⟨d, rfl, h⟩⟩

/-- The name of the base node: the dataset, or the function's name. -/
theorem base_name_cases (hc : Clean ops iter p given ins) {k : KNode T V} (hk : k ∈ p) :
    (k.outputs = .one (baseName k)) ∨ (Internal k ∧ baseName k = k.func.name) := by
  by_cases h : Internal k
  · exact .inr ⟨h, base_name_internal hc hk h⟩
  · obtain ⟨d, hd⟩ := Classical.not_not.1 h
    left
    rw [base_name_one hd, hd]

theorem mem_hNodes {anyT dictT : T} {k : KNode T V} {n : Node T V} : n ∈ hNodes ops iter anyT dictT k ↔
    n = reassignInputs (renamed k) [] (base ops iter dictT k) ∨
      ∃ d ∈ extracted k.outputs, n = reassignInputs (renamed k) [] (extractor ops anyT dictT k d) := by
  unfold hNodes
  simp only [List.map_cons, List.mem_cons, List.map_map, List.mem_map, Function.comp_def]
  constructor
  · rintro (h | ⟨d, hd, rfl⟩)
    · exact .inl h
    · exact .inr ⟨d, hd, rfl⟩
  · rintro (h | ⟨d, hd, rfl⟩)
    · exact .inl h
    · exact .inr ⟨d, hd, rfl⟩

/-- No two nodes of the driver have the same name. -/
theorem unique {anyT dictT : T} (hc : Clean ops iter p given ins) {n n' : Node T V}
    (h : n ∈ p.flatMap (hNodes ops iter anyT dictT)) (h' : n' ∈ p.flatMap (hNodes ops iter anyT dictT)) (he : n.name = n'.name) :
    n = n' := by
  obtain ⟨k, hk, hn⟩ := List.mem_flatMap.1 h
  obtain ⟨k', hk', hn'⟩ := List.mem_flatMap.1 h'
  have key : ∀ {k k' : KNode T V} {d : Name}, k ∈ p → k' ∈ p → d ∈ extracted k'.outputs → baseName k = d → False := by
    intro k k' d hk hk' hd hb
    obtain ⟨hi', ho'⟩ := extracted_internal hd
    rcases base_name_cases hc hk with ho | ⟨hi, hbn⟩
    · rcases two hc hk hk' with rfl | ⟨h1, _⟩
      · exact hi' ⟨_, ho⟩
      · exact h1 d (by rw [ho]; exact hb.symm) ho'
    · exact (hc.internal k hk hi).1 (.dataset d) (occurs_output hk' ho') (by rw [← hbn, hb]; rfl)
  rcases mem_hNodes.1 hn with rfl | ⟨d, hd, rfl⟩ <;> rcases mem_hNodes.1 hn' with rfl | ⟨d', hd', rfl⟩
  · have he' : baseName k = baseName k' := he
    rcases two hc hk hk' with rfl | ⟨h1, h2⟩
    · rfl
    · exfalso
      rcases base_name_cases hc hk with ho | ⟨hi, hbn⟩ <;> rcases base_name_cases hc hk' with ho' | ⟨hi', hbn'⟩
      · exact h1 (baseName k) (by rw [ho]; exact rfl) (by rw [ho']; exact he')
      · exact (hc.internal k' hk' hi').1 (.dataset (baseName k)) (occurs_output hk (by rw [ho]; exact rfl)) (by rw [← hbn', ← he']; rfl)
      · exact (hc.internal k hk hi).1 (.dataset (baseName k')) (occurs_output hk' (by rw [ho']; exact rfl)) (by rw [← hbn, he']; rfl)
      · exact h2 hi hi' (by rw [← hbn, ← hbn', he'])
  · exact (key hk hk' hd' he).elim
  · exact (key hk' hk hd he.symm).elim
  · have he' : d = d' := he
    subst he'
    rcases two hc hk hk' with rfl | ⟨h1, _⟩
    · rfl
    · exact absurd (extracted_internal hd').2 (h1 d (extracted_internal hd).2)

/-- What the proofs need of the graph. -/
structure Built (ops : PyOps V) (iter : V → Option (List V)) (anyT dictT : T) (p : List (KNode T V)) (g : Graph T V) : Prop where
  wf : WellFormed g
  node : ∀ k ∈ p, ∀ n ∈ hNodes ops iter anyT dictT k, ∃ m, g.get? n.name = some m ∧ SameFn n m
  other : ∀ x m, g.get? x = some m → (∀ k ∈ p, ∀ n ∈ hNodes ops iter anyT dictT k, n.name ≠ x) → m.kind = .external

theorem back_extractor (hc : Clean ops iter p given ins) {k : KNode T V} (hk : k ∈ p) (hi : Internal k) :
    tgt (renamed k) k.func.name = k.func.name ∧
    ((reverseNames (renamed k)).get? k.func.name).getD k.func.name = k.func.name := by
  obtain ⟨h1, h2, _⟩ := hc.internal k hk hi
  refine ⟨tgt_unfed (fun i hf => h2 (fed_param hf)), ?_⟩
  cases hg : (reverseNames (renamed k)).get? k.func.name with
  | none => rfl
  | some x =>
    obtain ⟨i, hf, he⟩ := mem_newParams.1 ((reverse_get (renamed_values hc hk) x _).1 hg)
    exact absurd he (h1 i (occurs_input hk (fed_input hf)))

theorem base_call (hc : Clean ops iter p given ins) (dictT : T) {k : KNode T V} (hk : k ∈ p) :
    (reassignInputs (renamed k) ([] : Dict Name V) (base ops iter dictT k)).inputTypes =
      k.func.params.map (fun q => (tgt (renamed k) q.1, q.2)) ∧
    (reassignInputs (renamed k) ([] : Dict Name V) (base ops iter dictT k)).inputTypes.keys.Nodup ∧
    ∀ val, (reassignInputs (renamed k) ([] : Dict Name V) (base ops iter dictT k)).fn
        (argsFor (reassignInputs (renamed k) ([] : Dict Name V) (base ops iter dictT k)).inputTypes val) =
      baseFn ops iter k (argsFor k.func.params (fun q => val (tgt (renamed k) q))) :=
  reassigned_gen (n := base ops iter dictT k) (hc.params_nodup k hk) (fun _ hq => back hc hk hq)

theorem extractor_call (hc : Clean ops iter p given ins) (anyT dictT : T) {k : KNode T V} (hk : k ∈ p) (hi : Internal k) (d : Name) :
    (reassignInputs (renamed k) ([] : Dict Name V) (extractor ops anyT dictT k d)).inputTypes =
      [(k.func.name, (dictT, .required))] ∧
    ∀ val, (reassignInputs (renamed k) ([] : Dict Name V) (extractor ops anyT dictT k d)).fn
        (argsFor [(k.func.name, (dictT, DepType.required))] val) =
      extractorFn ops k.func.name d (argsFor [(k.func.name, (dictT, DepType.required))] val) := by
  obtain ⟨h1, h2⟩ := back_extractor hc hk hi
  have hkeys : (extractor ops anyT dictT k d).inputTypes.keys = [k.func.name] := rfl
  obtain ⟨h3, _, h5⟩ := reassigned_gen (names := renamed k) (n := extractor ops anyT dictT k d) (by rw [hkeys]; simp) (by
    intro q hq
    rw [hkeys, List.mem_singleton] at hq
    subst hq
    rw [h1]
    exact h2)
  have h3' : (reassignInputs (renamed k) ([] : Dict Name V) (extractor ops anyT dictT k d)).inputTypes =
      [(k.func.name, (dictT, .required))] := by
    rw [h3]
    show [(tgt (renamed k) k.func.name, _)] = _
    rw [h1]
  refine ⟨h3', fun val => ?_⟩
  have := h5 val
  rw [h3'] at this
  rw [this]
  show extractorFn ops k.func.name d (argsFor [(k.func.name, (dictT, DepType.required))] _) = _
  unfold argsFor
  simp only [List.filterMap_cons, List.filterMap_nil, h1]

theorem built {anyT dictT : T} {tm : T → T → Bool} {converted : List Nat} (hc : Clean ops iter p given ins)
    (hconv : ∀ k ∈ p, Internal k → k.func.id ∉ converted) {r : FnGraph T V × List Nat}
    (h : kedroToDriver ops iter anyT dictT tm converted p = .ok r) : Built ops iter anyT dictT p r.1.nodes ∧ r.1.config = [] := by
  obtain ⟨conv', hp⟩ := pipeline_spec (anyT := anyT) (dictT := dictT) p converted hc.proper
    (hc.distinct.imp (fun h hi hi' => (h.2 hi hi').2)) hconv
  unfold kedroToDriver at h
  rw [hp] at h
  dsimp only at h
  cases hu : updateDependencies tm true (insertNodes [] (p.flatMap (hNodes ops iter anyT dictT))) with
  | error e => rw [hu] at h; cases h
  | ok g =>
    rw [hu] at h
    cases h
    refine ⟨?_, rfl⟩
    have hplain : PlainGraph (insertNodes ([] : Graph T V) (p.flatMap (hNodes ops iter anyT dictT))) := by
      refine insertNodes_plain ?_ ⟨by simp [Dict.keys], fun k n h => (by cases h), fun k n h => (by cases h), fun k n h => (by cases h)⟩
      intro n hn
      obtain ⟨k, hk, hn⟩ := List.mem_flatMap.1 hn
      rcases mem_hNodes.1 hn with rfl | ⟨d, hd, rfl⟩
      · exact ⟨(base_call hc dictT hk).2.1, rfl, rfl, fun h => (by cases h)⟩
      · refine ⟨?_, rfl, rfl, fun h => (by cases h)⟩
        rw [(extractor_call hc anyT dictT hk (extracted_internal hd).1 d).1]
        simp [Dict.keys]
    obtain ⟨h1, h2, h3⟩ := rewire_spec hplain hu
    have hget : ∀ k ∈ p, ∀ n ∈ hNodes ops iter anyT dictT k,
        (insertNodes ([] : Graph T V) (p.flatMap (hNodes ops iter anyT dictT))).get? n.name = some n := by
      intro k hk n hn
      rw [insertNodes_get]
      have hmem : n ∈ p.flatMap (hNodes ops iter anyT dictT) := List.mem_flatMap.2 ⟨k, hk, hn⟩
      cases hl : lastDef (p.flatMap (hNodes ops iter anyT dictT)) n.name with
      | none => exact absurd rfl (lastDef_none.1 hl n hmem)
      | some n' =>
        obtain ⟨hn1, hn2⟩ := lastDef_name hl
        rw [unique hc hn2 hmem hn1]
        rfl
    refine ⟨h1, fun k hk n hn => h2 _ _ (hget k hk n hn), fun x m hm hno => h3 x m hm ?_⟩
    rw [insertNodes_get]
    have : lastDef (p.flatMap (hNodes ops iter anyT dictT)) x = none := by
      rw [lastDef_none]
      intro n hn
      obtain ⟨k, hk, hn⟩ := List.mem_flatMap.1 hn
      exact hno k hk n hn
    rw [this]
    rfl

/-! ### Values -/

theorem zipDict_eq {ds : List Name} {l : List V} (h : ds.Nodup) : zipDict ds l = ds.zip l := by
  have key : ∀ (ds : List Name) (l : List V) (acc : Dict Name V), (Dict.keys acc ++ ds).Nodup →
      (ds.zip l).foldl (fun (d : Dict Name V) p => d.set p.1 p.2) acc = acc ++ ds.zip l := by
    intro ds
    induction ds with
    | nil => intro l acc _; simp
    | cons a ds ih =>
      intro l acc h
      cases l with
      | nil => simp
      | cons w l =>
        have hna : a ∉ Dict.keys acc := by
          intro hm
          rw [List.nodup_append] at h
          exact h.2.2 a hm a (by simp) rfl
        rw [List.zip_cons_cons, List.foldl_cons, set_fresh _ hna, ih]
        · simp
        · simpa [Dict.keys] using h
  simpa [zipDict] using key ds l [] (by simpa [Dict.keys] using h)

theorem zip_get {ds : List Name} {l : List V} (h : ds.Nodup) {d : Name} {v : V} :
    Dict.get? (ds.zip l : Dict Name V) d = some v ↔ ∃ n : Nat, ds[n]? = some d ∧ l[n]? = some v := by
  constructor
  · intro hg
    obtain ⟨n, hn⟩ := List.mem_iff_getElem?.1 (Dict.get?_mem hg)
    exact ⟨n, List.getElem?_zip_eq_some.1 hn⟩
  · rintro ⟨n, h1, h2⟩
    have hmem : (d, v) ∈ ds.zip l := List.mem_iff_getElem?.2 ⟨n, List.getElem?_zip_eq_some.2 ⟨h1, h2⟩⟩
    refine Dict.get?_of_mem ?_ hmem
    have hsub : (Dict.keys (ds.zip l : Dict Name V)).Sublist ds := by
      unfold Dict.keys
      have : ∀ (ds : List Name) (l : List V), ((ds.zip l).map (·.1)).Sublist ds := by
        intro ds
        induction ds with
        | nil => intro l; simp
        | cons a ds ih =>
          intro l
          cases l with
          | nil => simp
          | cons w l => simpa using ih l
      exact this ds l
    exact hsub.nodup h

/-- The value extracted for a dataset is the one the function produced for it. -/
theorem produces_iff (hl : ops.Lawful) {k : KNode T V} (hp : Proper ops iter k) {d : Name} (hd : d ∈ extracted k.outputs)
    {kw : Dict Name V} {v : V} :
    (∃ r, k.func.fn kw = .ok r ∧ Produces ops iter k.outputs r d v) ↔
      ∃ w m, baseFn ops iter k kw = .ok w ∧ ops.asDict w = some m ∧ m.get? d = some v := by
  cases hp with
  | none ho _ => rw [ho] at hd; cases hd
  | one ho _ => rw [ho] at hd; cases hd
  | @list ds ho _ hnd _ hall =>
    rw [ho] at hd
    have hb : baseFn ops iter k kw = tupleToDict ops iter ds k.func.fn kw := by simp only [baseFn, ho]
    rw [hb, ho]
    unfold tupleToDict
    constructor
    · rintro ⟨r, hr, hpr⟩
      cases hpr with
      | @list _ _ _ _ l n h1 h2 h3 h4 =>
        refine ⟨ops.mkDict (zipDict ds l), zipDict ds l, ?_, hl.dict _, ?_⟩
        · rw [hr]; dsimp only; rw [h1]
        · rw [zipDict_eq hnd]; exact (zip_get hnd).2 ⟨n, h3, h4⟩
    · rintro ⟨w, m, hw, hm, hg⟩
      cases hr : k.func.fn kw with
      | error e => rw [hr] at hw; cases hw
      | ok r =>
        rw [hr] at hw
        dsimp only at hw
        cases hi : iter r with
        | none => rw [hi] at hw; cases hw
        | some l =>
          rw [hi] at hw
          cases hw
          rw [hl.dict] at hm
          cases hm
          rw [zipDict_eq hnd] at hg
          obtain ⟨n, h1, h2⟩ := (zip_get hnd).1 hg
          obtain ⟨l', hl1, hl2⟩ := hall kw r hr
          rw [hi] at hl1
          cases hl1
          exact ⟨r, rfl, .list hi hl2 h1 h2⟩
  | @dict ds ho _ he hnd _ hall =>
    rw [ho] at hd
    have hb : baseFn ops iter k kw = k.func.fn kw := by simp only [baseFn, ho]
    rw [hb, ho]
    constructor
    · rintro ⟨r, hr, hpr⟩
      cases hpr with
      | @dict _ key _ _ _ m h1 h2 h3 h4 =>
        have : key = d := he _ h3
        subst this
        exact ⟨r, m, hr, h1, h4⟩
    · rintro ⟨w, m, hw, hm, hg⟩
      obtain ⟨m', hm1, hm2⟩ := hall kw w hw
      rw [hm] at hm1
      cases hm1
      obtain ⟨e, hemem, rfl⟩ := List.mem_map.1 hd
      have he' := he e hemem
      exact ⟨w, hw, .dict (key := e.2) hm hm2 (by rw [← he'] ; rw [show (e.1, e.1) = e from by rw [Prod.ext_iff]; exact ⟨rfl, he'⟩]; exact hemem) hg⟩

section
variable {anyT dictT : T} {g : Graph T V}

/-- What occurs and is not produced is an input of the driver that has a value. -/
theorem not_absent (hc : Clean ops iter p given ins) (hb : Built ops iter anyT dictT p g) {i : KInput} (hi : Occurs p i) :
    ¬ Absent g ins [] i.label := by
  rintro ⟨m, hm, hkind, hnone, _⟩
  by_cases hf : Free p i
  · obtain ⟨v, _, hv⟩ := hc.supplied i hi hf
    rw [hv] at hnone
    cases hnone
  · unfold Free at hf
    simp only [Classical.not_forall, Classical.not_not] at hf
    obtain ⟨k, hk, d, rfl, ho⟩ := hf
    rcases output_cases _ ho with h1 | h1
    · obtain ⟨m', hm', hs⟩ := hb.node k hk _ (mem_hNodes.2 (.inl rfl))
      have hname : (reassignInputs (renamed k) ([] : Dict Name V) (base ops iter dictT k)).name = d := base_name_one h1
      rw [hname] at hm'
      have : g.get? d = some m := hm
      rw [this] at hm'
      cases hm'
      rw [hs.kind] at hkind
      cases hkind
    · obtain ⟨m', hm', hs⟩ := hb.node k hk _ (mem_hNodes.2 (.inr ⟨d, h1, rfl⟩))
      have hm2 : g.get? d = some m' := hm'
      have : g.get? d = some m := hm
      rw [this] at hm2
      cases hm2
      rw [hs.kind] at hkind
      cases hkind

/-- No node made of the pipelines is called like this. -/
theorem name_of_node (hc : Clean ops iter p given ins) {k : KNode T V} (hk : k ∈ p) {n : Node T V}
    (hn : n ∈ hNodes ops iter anyT dictT k) :
    (∃ d, HasOutput k.outputs d ∧ n.name = d) ∨ (Internal k ∧ n.name = k.func.name) := by
  rcases mem_hNodes.1 hn with rfl | ⟨d, hd, rfl⟩
  · rcases base_name_cases hc hk with h | h
    · exact .inl ⟨baseName k, by rw [h]; exact rfl, rfl⟩
    · exact .inr h
  · exact .inl ⟨d, (extracted_internal hd).2, rfl⟩

theorem external_of (hc : Clean ops iter p given ins) (hb : Built ops iter anyT dictT p g) {x : Name} {m : Node T V}
    (hm : g.get? x = some m) (h1 : ∀ k ∈ p, ∀ d, HasOutput k.outputs d → d ≠ x) (h2 : ∀ k ∈ p, Internal k → k.func.name ≠ x) :
    m.kind = .external := by
  refine hb.other x m hm (fun k hk n hn he => ?_)
  rcases name_of_node hc hk hn with ⟨d, hd, hnd⟩ | ⟨hi, hnd⟩
  · exact h1 k hk d hd (hnd.symm.trans he)
  · exact h2 k hk hi (hnd.symm.trans he)

theorem unfed_not_den (hc : Clean ops iter p given ins) (hb : Built ops iter anyT dictT p g) {q : Name}
    (h1 : ∀ i, Occurs p i → i.label ≠ q) (h2 : ∀ k' ∈ p, Internal k' → k'.func.name ≠ q) (h3 : ins.get? q = none) {v : V} :
    ¬ Den g ins [] q v := by
  have hext : ∀ m, g.get? q = some m → m.kind = .external := fun m hm =>
    external_of hc hb hm (fun k hk d hd => h1 (.dataset d) (occurs_output hk hd)) h2
  intro hden
  cases hden with
  | override _ h => cases h
  | input _ _ _ h => rw [h3] at h; cases h
  | call _ hg _ hk _ _ _ => exact hk (hext _ hg)

/-- The arguments of the base node are those of the Kedro node. -/
theorem args_forward (hc : Clean ops iter p given ins) (hb : Built ops iter anyT dictT p g) {k : KNode T V} (hk : k ∈ p)
    {val : Name → Option V} (v0 : V) {Q : Name → V → Prop}
    (h1 : ∀ d w, d ∈ Dict.keys (k.func.params.map (fun q => (tgt (renamed k) q.1, q.2))) → val d = some w →
      Den g ins [] d w ∧ Q d w)
    (h2 : ∀ d t, (d, t) ∈ k.func.params.map (fun q => (tgt (renamed k) q.1, q.2)) → val d = none →
      t.2 = .optional ∧ Absent g ins [] d) :
    ∃ val' : Name → V, (∀ q i, Fed k q i → Q i.label (val' q)) ∧
      argsFor k.func.params (fun q => val (tgt (renamed k) q)) = callArgs k val' := by
  have hmem : ∀ q t, (q, t) ∈ k.func.params →
      (tgt (renamed k) q, t) ∈ k.func.params.map (fun q => (tgt (renamed k) q.1, q.2)) := fun q t hq =>
    List.mem_map.2 ⟨(q, t), hq, rfl⟩
  have hfed : ∀ q i, Fed k q i → ∃ w, val (tgt (renamed k) q) = some w := by
    intro q i hf
    obtain ⟨t, ht⟩ := Dict.mem_keys_iff.1 (fed_param hf)
    cases hv : val (tgt (renamed k) q) with
    | some w => exact ⟨w, rfl⟩
    | none =>
      have habs := (h2 _ t (hmem q t (Dict.get?_mem ht)) hv).2
      rw [tgt_fed hc hk hf] at habs
      exact absurd habs (not_absent hc hb (occurs_input hk (fed_input hf)))
  refine ⟨fun q => (val (tgt (renamed k) q)).getD v0, ?_, ?_⟩
  · intro q i hf
    obtain ⟨w, hw⟩ := hfed q i hf
    obtain ⟨t, ht⟩ := Dict.mem_keys_iff.1 (fed_param hf)
    have := (h1 _ w (List.mem_map.2 ⟨_, hmem q t (Dict.get?_mem ht), rfl⟩) hw).2
    show Q i.label ((val (tgt (renamed k) q)).getD v0)
    rw [hw]
    rw [tgt_fed hc hk hf] at this
    exact this
  · apply take_args
    · intro q i hf
      obtain ⟨w, hw⟩ := hfed q i hf
      rw [hw]
      rfl
    · intro n q t hn hle
      have hq : (q, t) ∈ k.func.params := List.mem_of_getElem? hn
      obtain ⟨_, hocc, hint, hnone⟩ := hc.unfed k hk n q t hn hle
      have hunf : ∀ i, ¬ Fed k q i := by
        rcases param_cases hc hk hq with ⟨i, hi⟩ | ⟨hu, _⟩
        · obtain ⟨n', hn1, hn2⟩ := hi
          have hkey : k.func.params.keys[n]? = some q := by
            unfold Dict.keys
            rw [List.getElem?_map, hn]
            rfl
          have hlt := (List.getElem?_eq_some_iff.1 hn2).1
          have := (List.getElem?_inj (List.getElem?_eq_some_iff.1 hn1).1 (hc.params_nodup k hk)).1 (hn1.trans hkey.symm)
          omega
        · exact hu
      cases hv : val (tgt (renamed k) q) with
      | none => rfl
      | some w =>
        have hden := (h1 _ w (List.mem_map.2 ⟨_, hmem q t hq, rfl⟩) hv).1
        rw [tgt_unfed hunf] at hden
        exact absurd hden (unfed_not_den hc hb hocc hint hnone)

theorem den_value (hl : ops.Lawful) (hc : Clean ops iter p given ins) (hb : Built ops iter anyT dictT p g) {x : Name} {v : V}
    (h : Den g ins [] x v) :
    (∀ i, Occurs p i → i.label = x → KValue ops iter p given i v) ∧
    (∀ k ∈ p, Internal k → k.func.name = x → ∃ val : Name → V, (∀ q i, Fed k q i → KValue ops iter p given i (val q)) ∧
      baseFn ops iter k (callArgs k val) = .ok v) := by
  induction h with
  | override _ h => cases h
  | @input x m v hm _ hkind hv =>
    have hno : ∀ k ∈ p, ∀ n ∈ hNodes ops iter anyT dictT k, n.name ≠ x := by
      intro k hk n hn he
      obtain ⟨m', hm', hs⟩ := hb.node k hk n hn
      rw [he, hm] at hm'
      cases hm'
      rw [hs.kind] at hkind
      rcases mem_hNodes.1 hn with rfl | ⟨d, hd, rfl⟩ <;> cases hkind
    refine ⟨?_, ?_⟩
    · rintro i hi rfl
      have hf : Free p i := by
        rintro k hk d rfl ho
        rcases output_cases _ ho with h1 | h1
        · exact hno k hk _ (mem_hNodes.2 (.inl rfl)) (base_name_one h1)
        · exact hno k hk _ (mem_hNodes.2 (.inr ⟨d, h1, rfl⟩)) rfl
      obtain ⟨w, hg, hw⟩ := hc.supplied i hi hf
      rw [hw] at hv
      cases hv
      exact .given hf hg
    · rintro k hk hi rfl
      exact absurd (base_name_internal hc hk hi) (hno k hk _ (mem_hNodes.2 (.inl rfl)))
  | @call x m v val hm _ hkind hden habs hfn ih =>
    have hbase : ∀ k ∈ p, baseName k = x → ∃ val : Name → V, (∀ q i, Fed k q i → KValue ops iter p given i (val q)) ∧
        baseFn ops iter k (callArgs k val) = .ok v := by
      intro k hk hname
      obtain ⟨m', hm', hs⟩ := hb.node k hk _ (mem_hNodes.2 (.inl rfl))
      have hm2 : g.get? (baseName k) = some m' := hm'
      rw [hname, hm] at hm2
      cases hm2
      obtain ⟨hin, _, hcall⟩ := base_call hc dictT hk
      rw [hs.inputTypes] at hden habs ih hfn
      rw [hs.fn, hcall] at hfn
      rw [hin] at hden habs ih
      obtain ⟨val', h1, h2⟩ := args_forward (Q := fun x v => ∀ i, Occurs p i → i.label = x → KValue ops iter p given i v) hc hb hk v
        (fun d w hd hw => ⟨hden d w hd hw, (ih d w hd hw).1⟩) habs
      rw [h2] at hfn
      exact ⟨val', fun q i hf => h1 q i hf i (occurs_input hk (fed_input hf)) rfl, hfn⟩
    refine ⟨?_, fun k hk hi hx => hbase k hk ((base_name_internal hc hk hi).trans hx)⟩
    rintro i hi rfl
    by_cases hf : Free p i
    · exfalso
      refine hkind (external_of hc hb hm ?_ ?_)
      · intro k hk d hd he
        exact hf k hk d (hc.apart i (.dataset d) hi (occurs_output hk hd) he.symm) hd
      · intro k hk hik he
        exact (hc.internal k hk hik).1 i hi he.symm
    · unfold Free at hf
      simp only [Classical.not_forall, Classical.not_not] at hf
      obtain ⟨k, hk, d, rfl, ho⟩ := hf
      rcases output_cases _ ho with h1 | h1
      · obtain ⟨val', h2, h3⟩ := hbase k hk (base_name_one h1)
        have hbf : baseFn ops iter k = k.func.fn := by simp only [baseFn, h1]
        rw [hbf] at h3
        exact .produced val' hk h2 h3 (by rw [h1]; exact .one)
      · obtain ⟨hik, _⟩ := extracted_internal h1
        obtain ⟨m', hm', hs⟩ := hb.node k hk _ (mem_hNodes.2 (.inr ⟨d, h1, rfl⟩))
        have hm2 : g.get? d = some m' := hm'
        have hm3 : g.get? d = some m := hm
        rw [hm3] at hm2
        cases hm2
        obtain ⟨hin, hcall⟩ := extractor_call (ops := ops) hc anyT dictT hk hik d
        rw [hs.inputTypes, hin] at hden habs ih hfn
        rw [hs.fn, hcall] at hfn
        cases hv : val k.func.name with
        | none => exact absurd (habs _ _ (List.mem_singleton.2 rfl) hv).1 (by simp)
        | some w =>
          obtain ⟨val', h2, h3⟩ := (ih k.func.name w (by simp [Dict.keys]) hv).2 k hk hik rfl
          have hargs : argsFor [(k.func.name, (dictT, DepType.required))] val = [(k.func.name, w)] := by
            simp [argsFor, hv]
          rw [hargs] at hfn
          unfold extractorFn at hfn
          rw [if_neg (hc.internal k hk hik).2.2] at hfn
          have hgw : Dict.get? ([(k.func.name, w)] : Dict Name V) k.func.name = some w := by simp [Dict.get?]
          rw [hgw] at hfn
          dsimp only at hfn
          cases ha : ops.asDict w with
          | none => rw [ha] at hfn; cases hfn
          | some mm =>
            rw [ha] at hfn
            dsimp only at hfn
            cases hg : mm.get? d with
            | none => rw [hg] at hfn; cases hfn
            | some u =>
              rw [hg] at hfn
              cases hfn
              obtain ⟨r, hr, hpr⟩ := (produces_iff hl (hc.proper k hk) h1).2 ⟨w, mm, h3, ha, hg⟩
              exact .produced val' hk h2 hr hpr

theorem value_den (hl : ops.Lawful) (hc : Clean ops iter p given ins) (hb : Built ops iter anyT dictT p g) {i : KInput} {v : V}
    (h : KValue ops iter p given i v) : Occurs p i → Den g ins [] i.label v := by
  induction h with
  | @given i v hf hg =>
    intro hi
    obtain ⟨w, hw, hins⟩ := hc.supplied i hi hf
    rw [hg] at hw
    cases hw
    obtain ⟨k, hk, ho⟩ := hi
    rcases ho with ho | ⟨d, rfl, ho⟩
    · -- an input of a node is a parameter of its base node
      have hi : Occurs p i := ⟨k, hk, .inl ho⟩
      obtain ⟨n, hn⟩ := List.mem_iff_getElem?.1 ho
      have hlt := (List.getElem?_eq_some_iff.1 hn).1
      have hle := hc.inputs_le k hk
      have hlen := params_length k
      have hkey : k.func.params.keys[n]? = some (k.func.params.keys[n]'(by omega)) := List.getElem?_eq_getElem (by omega)
      have hfed : Fed k (k.func.params.keys[n]'(by omega)) i := ⟨n, hkey, hn⟩
      obtain ⟨m, hm, hs⟩ := hb.node k hk _ (mem_hNodes.2 (.inl rfl))
      obtain ⟨t, ht⟩ := Dict.mem_keys_iff.1 (fed_param hfed)
      obtain ⟨dn, hdn⟩ := hb.wf.deps_in (d := i.label) hm (by
        rw [hs.inputTypes, (base_call hc dictT hk).1, ← tgt_fed hc hk hfed]
        exact List.mem_map.2 ⟨_, List.mem_map.2 ⟨_, Dict.get?_mem ht, rfl⟩, rfl⟩)
      refine .input hdn rfl ?_ hins
      refine external_of hc hb hdn ?_ ?_
      · intro k' hk' d hd he
        exact hf k' hk' d (hc.apart i (.dataset d) hi (occurs_output hk' hd) he.symm) hd
      · intro k' hk' hik he
        exact (hc.internal k' hk' hik).1 i hi he.symm
    · exact absurd ho (hf k hk d rfl)
  | @produced k d r v val hk _ hr hpr ih =>
    intro _
    -- the value of the base node
    have hbase : ∀ w, baseFn ops iter k (callArgs k val) = .ok w → Den g ins [] (baseName k) w := by
      intro w hw
      obtain ⟨m, hm, hs⟩ := hb.node k hk _ (mem_hNodes.2 (.inl rfl))
      obtain ⟨hin, _, hcall⟩ := base_call (ops := ops) (iter := iter) hc dictT hk
      have hrev : ∀ q i, Fed k q i → (reverseNames (renamed k)).get? i.label = some q := fun q i hf =>
        (reverse_get (renamed_values hc hk) q i.label).2 (mem_newParams.2 ⟨i, hf, rfl⟩)
      have hrev' : ∀ x, (∀ i, Occurs p i → i.label ≠ x) → (reverseNames (renamed k)).get? x = none := by
        intro x hx
        cases hg : (reverseNames (renamed k)).get? x with
        | none => rfl
        | some q =>
          obtain ⟨i, hf, he⟩ := mem_newParams.1 ((reverse_get (renamed_values hc hk) q x).1 hg)
          exact absurd he (hx i (occurs_input hk (fed_input hf)))
      refine .call (fun x => ((reverseNames (renamed k)).get? x).map val) hm rfl (by rw [hs.kind]; exact fun h => (by cases h)) ?_ ?_ ?_
      · intro x u hx hu
        cases hg : (reverseNames (renamed k)).get? x with
        | none => rw [hg] at hu; cases hu
        | some q =>
          rw [hg] at hu
          cases hu
          obtain ⟨i, hf, he⟩ := mem_newParams.1 ((reverse_get (renamed_values hc hk) q x).1 hg)
          rw [← he]
          exact ih q i hf (occurs_input hk (fed_input hf))
      · intro x t hx hu
        rw [hs.inputTypes, hin] at hx
        have hxk := hx
        obtain ⟨e, he, hxe⟩ := List.mem_map.1 hx
        cases hxe
        rcases param_cases hc hk he with ⟨i, hf⟩ | ⟨hun, hopt, hocc, hint, hnone⟩
        · rw [tgt_fed hc hk hf, hrev _ i hf] at hu
          cases hu
        · refine ⟨hopt, ?_⟩
          rw [tgt_unfed hun] at hxk ⊢
          obtain ⟨dn, hdn⟩ := hb.wf.deps_in (d := e.1) hm (by
            rw [hs.inputTypes, hin]
            exact List.mem_map.2 ⟨_, hxk, rfl⟩)
          exact ⟨dn, hdn, external_of hc hb hdn (fun k' hk' d hd => hocc (.dataset d) (occurs_output hk' hd)) hint, hnone, rfl⟩
      · rw [hs.fn, hs.inputTypes, hcall]
        have : argsFor k.func.params (fun q => ((reverseNames (renamed k)).get? (tgt (renamed k) q)).map val) = callArgs k val := by
          apply take_args
          · intro q i hf
            rw [tgt_fed hc hk hf, hrev q i hf]
            rfl
          · intro n q t hn hle
            obtain ⟨_, hocc, _, _⟩ := hc.unfed k hk n q t hn hle
            rcases param_cases hc hk (List.mem_of_getElem? hn) with ⟨i, hf⟩ | ⟨hun, _⟩
            · exfalso
              obtain ⟨n', hn1, hn2⟩ := hf
              have hkey : k.func.params.keys[n]? = some q := by
                unfold Dict.keys
                rw [List.getElem?_map, hn]
                rfl
              have hlt := (List.getElem?_eq_some_iff.1 hn2).1
              have := (List.getElem?_inj (List.getElem?_eq_some_iff.1 hn1).1 (hc.params_nodup k hk)).1 (hn1.trans hkey.symm)
              omega
            · rw [tgt_unfed hun, hrev' q hocc]
              rfl
        rw [this]
        exact hw
    have ho : HasOutput k.outputs d := by
      cases hk' : k.outputs with
      | none => rw [hk'] at hpr; cases hpr
      | one x => rw [hk'] at hpr; cases hpr; exact rfl
      | list ds =>
        rw [hk'] at hpr
        cases hpr with
        | list _ _ h3 _ => exact List.mem_of_getElem? h3
      | dict ds =>
        rw [hk'] at hpr
        cases hpr with
        | dict _ _ h3 _ => exact ⟨_, h3⟩
    rcases output_cases _ ho with h1 | h1
    · rw [h1] at hpr
      cases hpr
      have hbf : baseFn ops iter k = k.func.fn := by simp only [baseFn, h1]
      have := hbase r (by rw [hbf]; exact hr)
      rw [base_name_one h1] at this
      exact this
    · obtain ⟨hik, _⟩ := extracted_internal h1
      obtain ⟨w, mm, hw, ha, hg⟩ := (produces_iff hl (hc.proper k hk) h1).1 ⟨r, hr, hpr⟩
      have hdw := hbase w hw
      rw [base_name_internal hc hk hik] at hdw
      obtain ⟨m, hm, hs⟩ := hb.node k hk _ (mem_hNodes.2 (.inr ⟨d, h1, rfl⟩))
      obtain ⟨hin, hcall⟩ := extractor_call (ops := ops) hc anyT dictT hk hik d
      refine .call (fun _ => some w) hm rfl (by rw [hs.kind]; exact fun h => (by cases h)) ?_ (fun _ _ _ h => (by cases h)) ?_
      · intro x u hx hu
        cases hu
        rw [hs.inputTypes, hin] at hx
        have : x = k.func.name := by simpa [Dict.keys] using hx
        rw [this]
        exact hdw
      · rw [hs.fn, hs.inputTypes, hin, hcall]
        have hgw : Dict.get? ([(k.func.name, w)] : Dict Name V) k.func.name = some w := by simp [Dict.get?]
        simp [argsFor, extractorFn, (hc.internal k hk hik).2.2, hgw, ha, hg]

end
end

/-! ### A sample -/

namespace Sample

/-- Sample values: numbers, truth values, tuples and dictionaries. -/
inductive Val where
  | int (n : Int)
  | bool (b : Bool)
  | tuple (l : List Val)
  | dict (d : List (String × Val))

/-- Operations on them. -/
def ops : PyOps Val where
  mkList l := .tuple l
  mkDict d := .dict d
  asDict v := match v with | .dict d => some d | _ => none
  mkResult b := .bool b
  asResult v := match v with | .bool b => some b | _ => none

theorem lawful : ops.Lawful := ⟨fun _ => rfl, fun _ => rfl⟩

/-- The elements of a tuple. -/
def iter : Val → Option (List Val)
  | .tuple l => some l
  | _ => none

/-- The number. -/
def asInt : Val → Option Int
  | .int n => some n
  | _ => none

/-- The numbers passed for two parameters. -/
def nums (a b : Name) (kw : Dict Name Val) (f : Int → Int → Val) : Except UserErr Val :=
  match (kw.get? a).bind asInt, (kw.get? b).bind asInt with
  | some x, some y => .ok (f x y)
  | _, _ => .error "TypeError"

/-- `def split(x: int, k: int) -> Tuple: return x - k, x + k`. -/
def split : KFn Unit Val :=
  ⟨0, "split", .tuple, (), [("x", ((), .required)), ("k", ((), .required))],
    fun kw => nums "x" "k" kw (fun x k => .tuple [.int (x - k), .int (x + k)])⟩

/-- `def total(a: int, b: int, scale: int = 2) -> int: return (a + b) * scale`. -/
def total : KFn Unit Val :=
  ⟨1, "total_fn", .other, (), [("a", ((), .required)), ("b", ((), .required)), ("scale", ((), .optional))],
    fun kw => nums "a" "b" kw (fun a b => .int ((a + b) * ((kw.get? "scale").bind asInt).getD 2))⟩

/-- `def stats(t: int, lo: int) -> dict: return {"mean": t, "size": lo}`. -/
def stats : KFn Unit Val :=
  ⟨2, "stats", .dict, (), [("t", ((), .required)), ("lo", ((), .required))],
    fun kw => nums "t" "lo" kw (fun t lo => .dict [("mean", .int t), ("size", .int lo)])⟩

/-- The pipeline: `raw` and `params:step` are split into `low` and `high`, and so on. -/
def pipeline : List (KNode Unit Val) :=
  [⟨split, [.dataset "raw", .param "step"], .list ["low", "high"]⟩,
   ⟨total, [.dataset "low", .dataset "high"], .one "total"⟩,
   ⟨stats, [.dataset "total", .dataset "low"], .dict [("mean", "mean"), ("size", "size")]⟩]

/-- What is given. -/
def given : KInput → Option Val
  | .dataset d => if d = "raw" then some (.int 10) else none
  | .param q => if q = "step" then some (.int 3) else none

/-- The inputs of the driver. -/
def ins : Dict Name Val := [("raw", .int 10), ("step", .int 3)]

theorem nums_ok {a b : Name} {kw : Dict Name Val} {f : Int → Int → Val} {v : Val} (h : nums a b kw f = .ok v) :
    ∃ x y, v = f x y := by
  unfold nums at h
  split at h
  · cases h; exact ⟨_, _, rfl⟩
  · cases h

theorem occurs {i : KInput} (h : Occurs pipeline i) :
    i ∈ [.dataset "raw", .param "step", .dataset "low", .dataset "high", .dataset "total", .dataset "mean", .dataset "size"] := by
  obtain ⟨k, hk, h⟩ := h
  simp only [pipeline, List.mem_cons, List.not_mem_nil, or_false] at hk
  rcases hk with rfl | rfl | rfl <;> rcases h with h | ⟨d, rfl, h⟩ <;>
    simp [HasOutput] at h ⊢
  all_goals grind

theorem clean : Clean ops iter pipeline given ins := by
  refine ⟨?_, ?_, ?_, ?_, ?_, ?_, ?_, ?_, ?_⟩
  · intro k hk
    simp only [pipeline, List.mem_cons, List.not_mem_nil, or_false] at hk
    rcases hk with rfl | rfl | rfl
    · refine .list rfl (by decide) (by decide) rfl (fun kw v h => ?_)
      obtain ⟨x, y, rfl⟩ := nums_ok h
      exact ⟨_, rfl, rfl⟩
    · exact .one rfl (by decide)
    · refine .dict rfl (by decide) (by decide) (by decide) rfl (fun kw v h => ?_)
      obtain ⟨x, y, rfl⟩ := nums_ok h
      exact ⟨_, rfl, fun z => Iff.rfl⟩
  · simp [pipeline, HasOutput, Internal, split, total, stats]
  · decide
  · decide
  · decide
  · intro k hk n q t hn hle
    simp only [pipeline, List.mem_cons, List.not_mem_nil, or_false] at hk
    rcases hk with rfl | rfl | rfl
    · rw [List.getElem?_eq_none (by simpa [split] using hle)] at hn; cases hn
    · have hn2 : n < 3 := (List.getElem?_eq_some_iff.1 hn).1
      have h2 : 2 ≤ n := hle
      have : n = 2 := by omega
      subst this
      cases hn
      refine ⟨rfl, ?_, ?_, rfl⟩
      · intro i hi he
        have := occurs hi
        simp only [List.mem_cons, List.not_mem_nil, or_false] at this
        rcases this with rfl | rfl | rfl | rfl | rfl | rfl | rfl <;> revert he <;> decide
      · intro k' hk' _
        simp only [pipeline, List.mem_cons, List.not_mem_nil, or_false] at hk'
        rcases hk' with rfl | rfl | rfl <;> decide
    · rw [List.getElem?_eq_none (by simpa [stats] using hle)] at hn; cases hn
  · intro i j hi hj he
    have h1 := occurs hi
    have h2 := occurs hj
    simp only [List.mem_cons, List.not_mem_nil, or_false] at h1 h2
    rcases h1 with rfl | rfl | rfl | rfl | rfl | rfl | rfl <;>
      rcases h2 with rfl | rfl | rfl | rfl | rfl | rfl | rfl <;> first | rfl | (revert he; decide)
  · intro k hk _
    refine ⟨?_, ?_⟩
    · intro i hi he
      have h1 := occurs hi
      simp only [pipeline, List.mem_cons, List.not_mem_nil, or_false] at hk h1
      rcases hk with rfl | rfl | rfl <;> rcases h1 with rfl | rfl | rfl | rfl | rfl | rfl | rfl <;> revert he <;> decide
    · simp only [pipeline, List.mem_cons, List.not_mem_nil, or_false] at hk
      rcases hk with rfl | rfl | rfl <;> decide
  · intro i hi hf
    have h1 := occurs hi
    simp only [List.mem_cons, List.not_mem_nil, or_false] at h1
    rcases h1 with rfl | rfl | rfl | rfl | rfl | rfl | rfl
    · exact ⟨_, rfl, rfl⟩
    · exact ⟨_, rfl, rfl⟩
    all_goals
      exfalso
      unfold Free at hf
      simp [pipeline, HasOutput] at hf

/-- The driver made of a pipeline. -/
def driver (p : List (KNode Unit Val)) (converted : List Nat) : Except KedroErr (FnGraph Unit Val × List Nat) :=
  kedroToDriver ops iter () () (fun _ _ => true) converted p

/-- All inputs are accepted. -/
def oracle : TypeOracle Unit Val := ⟨fun _ => false, fun _ _ => true⟩

/-- The number a run of the driver returns for one name. -/
def run (p : List (KNode Unit Val)) (ins : Dict Name Val) (d : Name) : Option Int :=
  ((((driver p []).toOption.bind (fun r => (driverExecute oracle r.1 [d] (some ins) none).toOption)).bind
    (fun out => out.get? d)).bind id).bind asInt

example : (driver pipeline []).isOk = true := by decide +kernel
example : run pipeline ins "total" = some 40 ∧ run pipeline ins "size" = some 7 := by decide +kernel

end Sample

/-! ### The property -/

/-- **C82**, conversion: proper pipelines are converted, whatever the types are, unless types of connected nodes do not fit. -/
theorem C82_converts {ops : PyOps V} {iter : V → Option (List V)} {p : List (KNode T V)} (anyT dictT : T) (tm : T → T → Bool)
    (hp : ∀ k ∈ p, Proper ops iter k) (hd : p.Pairwise (fun k k' => Internal k → Internal k' → k.func.id ≠ k'.func.id)) (e : UserErr) :
    kedroToDriver ops iter anyT dictT tm [] p ≠ .error (.convert e) := by
  obtain ⟨conv', h⟩ := pipeline_spec (anyT := anyT) (dictT := dictT) p [] hp hd (fun _ _ _ h => (by cases h))
  unfold kedroToDriver
  rw [h]
  dsimp only
  cases updateDependencies tm true (insertNodes [] (p.flatMap (hNodes ops iter anyT dictT))) <;> simp

example (e : UserErr) : Sample.driver Sample.pipeline [] ≠ .error (.convert e) :=
  C82_converts () () (fun _ _ => true) Sample.clean.proper (Sample.clean.distinct.imp (fun h hi hi' => (h.2 hi hi').2)) e

/-- **C82**, values: in the driver, a dataset or parameter of the pipelines has exactly the values that the pipelines give it.
Partial: see `Clean`, and the violations below. -/
theorem C82_values_partial {ops : PyOps V} (hl : ops.Lawful) {iter : V → Option (List V)} {p : List (KNode T V)}
    {given : KInput → Option V} {ins : Dict Name V} (hc : Clean ops iter p given ins) {anyT dictT : T} {tm : T → T → Bool}
    {converted : List Nat} (hconv : ∀ k ∈ p, Internal k → k.func.id ∉ converted) {r : FnGraph T V × List Nat}
    (h : kedroToDriver ops iter anyT dictT tm converted p = .ok r) {i : KInput} (hi : Occurs p i) (v : V) :
    Den r.1.nodes ins [] i.label v ↔ KValue ops iter p given i v :=
  ⟨fun hd => (den_value hl hc (built hc hconv h).1 hd).1 i hi rfl, fun hk => value_den hl hc (built hc hconv h).1 hk hi⟩

example (r : FnGraph Unit Sample.Val × List Nat) (h : Sample.driver Sample.pipeline [] = .ok r) (v : Sample.Val) :
    Den r.1.nodes Sample.ins [] "size" v ↔ KValue Sample.ops Sample.iter Sample.pipeline Sample.given (.dataset "size") v :=
  C82_values_partial Sample.lawful Sample.clean (fun _ _ _ h => (by cases h)) h (i := .dataset "size")
    (occurs_output (k := Sample.pipeline[2]) (by simp [Sample.pipeline]) ⟨"size", by decide⟩) v

theorem empty_given {fg : FnGraph T V} (h : fg.config = []) (ins : Dict Name V) (hn : ins.keys.Nodup) :
    fg.config.merge ins = ins := by
  rw [h, merge_disjoint [] ins (by simpa [Dict.keys] using hn)]
  rfl

theorem kedro_graph {ops : PyOps V} {iter : V → Option (List V)} {p : List (KNode T V)}
    {given : KInput → Option V} {ins : Dict Name V} (hc : Clean ops iter p given ins) {anyT dictT : T} {tm : T → T → Bool}
    {converted : List Nat} (hconv : ∀ k ∈ p, Internal k → k.func.id ∉ converted) {r : FnGraph T V × List Nat}
    (h : kedroToDriver ops iter anyT dictT tm converted p = .ok r) : DriverGraph r.1 := by
  obtain ⟨hb, hcfg⟩ := built hc hconv h
  exact ⟨hb.wf, fun k hk => (by rw [hcfg] at hk; cases hk)⟩

theorem kedro_in {ops : PyOps V} (hl : ops.Lawful) {iter : V → Option (List V)} {p : List (KNode T V)}
    {given : KInput → Option V} {ins : Dict Name V} (hc : Clean ops iter p given ins) {anyT dictT : T} {g : Graph T V}
    (hb : Built ops iter anyT dictT p g) {i : KInput} (hi : Occurs p i) : ∃ n, g.get? i.label = some n := by
  by_cases hf : Free p i
  · obtain ⟨v, hv, _⟩ := hc.supplied i hi hf
    have := value_den hl hc hb (.given hf hv) hi
    cases this <;> exact ⟨_, by assumption⟩
  · unfold Free at hf
    simp only [Classical.not_forall, Classical.not_not] at hf
    obtain ⟨k, hk, d, rfl, ho⟩ := hf
    rcases output_cases _ ho with h1 | h1
    · obtain ⟨m, hm, _⟩ := hb.node k hk _ (mem_hNodes.2 (.inl rfl))
      have hm2 : g.get? (baseName k) = some m := hm
      rw [base_name_one h1] at hm2
      exact ⟨m, hm2⟩
    · obtain ⟨m, hm, _⟩ := hb.node k hk _ (mem_hNodes.2 (.inr ⟨d, h1, rfl⟩))
      exact ⟨m, hm⟩

/-- **C82**, execution: whatever datasets are requested, a run of the driver that succeeds returns for each of them the value that
the pipelines give it. Partial: see `Clean`, and the violations below. -/
theorem C82_execute_partial {ops : PyOps V} (hl : ops.Lawful) {iter : V → Option (List V)} {p : List (KNode T V)}
    {given : KInput → Option V} {ins : Dict Name V} (hins : ins.keys.Nodup) (hc : Clean ops iter p given ins) {anyT dictT : T}
    {tm : T → T → Bool} {converted : List Nat} (hconv : ∀ k ∈ p, Internal k → k.func.id ∉ converted) {r : FnGraph T V × List Nat}
    (h : kedroToDriver ops iter anyT dictT tm converted p = .ok r) {o : TypeOracle T V} {req : List Name}
    {out : Dict Name (Option V)} (hx : driverExecute o r.1 req (some ins) none = .ok out) :
    (∀ x, x ∈ out.keys ↔ x ∈ req) ∧
    ∀ i, Occurs p i → i.label ∈ req → ∃ v, out.get? i.label = some (some v) ∧ KValue ops iter p given i v := by
  obtain ⟨hb, hcfg⟩ := built hc hconv h
  obtain ⟨h1, h2, _⟩ := C01_execute_sound (kedro_graph hc hconv h) (by simpa using hins) hx
  refine ⟨h1, fun i hi hreq => ?_⟩
  obtain ⟨n, hn⟩ := kedro_in hl hc hb hi
  have hg : r.1.given (some ins) = ins := empty_given hcfg ins hins
  rw [hg] at h2
  rcases h2 _ hreq n hn with ⟨v, hv, hd⟩ | ⟨_, habs⟩
  · exact ⟨v, hv, (den_value hl hc hb hd).1 i hi rfl⟩
  · exact absurd habs (not_absent hc hb hi)

example (r : FnGraph Unit Sample.Val × List Nat) (h : Sample.driver Sample.pipeline [] = .ok r)
    (out : Dict Name (Option Sample.Val)) (hx : driverExecute Sample.oracle r.1 ["total", "size"] (some Sample.ins) none = .ok out) :
    ∃ v, out.get? "size" = some (some v) ∧ KValue Sample.ops Sample.iter Sample.pipeline Sample.given (.dataset "size") v :=
  (C82_execute_partial Sample.lawful (by decide) Sample.clean (fun _ _ _ h => (by cases h)) h hx).2 (.dataset "size")
    (occurs_output (k := Sample.pipeline[2]) (by simp [Sample.pipeline]) ⟨"size", by decide⟩) (by decide)

example : ((Sample.driver Sample.pipeline []).toOption.any
    (fun r => (driverExecute Sample.oracle r.1 ["total", "size"] (some Sample.ins) none).isOk)) = true := by decide +kernel

/-- **C82**, completeness: if the pipelines give every requested dataset a value, the driver's executor returns these values. -/
theorem C82_complete_partial {ops : PyOps V} (hl : ops.Lawful) {iter : V → Option (List V)} {p : List (KNode T V)}
    {given : KInput → Option V} {ins : Dict Name V} (hins : ins.keys.Nodup) (hc : Clean ops iter p given ins) {anyT dictT : T}
    {tm : T → T → Bool} {converted : List Nat} (hconv : ∀ k ∈ p, Internal k → k.func.id ∉ converted) {r : FnGraph T V × List Nat}
    (h : kedroToDriver ops iter anyT dictT tm converted p = .ok r) {req : List Name}
    (hreq : ∀ x ∈ req, ∃ i v, Occurs p i ∧ i.label = x ∧ KValue ops iter p given i v) :
    ∃ out, defaultExecutorExecute r.1 req [] ins = .ok out ∧
      ∀ i v, Occurs p i → i.label ∈ req → KValue ops iter p given i v → out.get? i.label = some (some v) := by
  obtain ⟨hb, hcfg⟩ := built hc hconv h
  have hg : r.1.config.merge ins = ins := empty_given hcfg ins hins
  obtain ⟨out, h1, h2⟩ := C04_execute_complete (kedro_graph hc hconv h) (finalVars := req) (inputs := ins) (overrides := [])
    (by rw [hcfg]; intro k _ hk; cases hk)
    (fun x hx n hn => by
      obtain ⟨i, v, hi, rfl, hv⟩ := hreq x hx
      rw [hg]
      exact .inl ⟨v, value_den hl hc hb hv hi⟩)
  refine ⟨out, h1, fun i v hi hx hv => h2 _ hx v ?_⟩
  rw [hg]
  exact value_den hl hc hb hv hi

/-! ### Violations -/

namespace Sample

theorem fed_all {k : KNode Unit Val} {P : KInput → Val → Prop} {val : Name → Val}
    (h : ∀ e ∈ k.func.params.keys.zip k.inputs, P e.2 (val e.1)) : ∀ q i, Fed k q i → P i (val q) := by
  rintro q i ⟨n, h1, h2⟩
  exact h (q, i) (List.mem_of_getElem? (List.getElem?_zip_eq_some.2 ⟨h1, h2⟩))

/-- What Kedro computes. -/
abbrev Kedro (p : List (KNode Unit Val)) (given : KInput → Option Val) (i : KInput) (v : Val) : Prop :=
  KValue ops iter p given i v

/-- Data that are given, by the name of the dataset. -/
def data (ins : Dict Name Val) : KInput → Option Val
  | .dataset d => ins.get? d
  | .param _ => none

theorem low : Kedro pipeline given (.dataset "low") (.int 7) :=
  .produced (k := pipeline[0]) (fun q => if q = "x" then .int 10 else .int 3) (by simp [pipeline])
    (fed_all (by
      intro e he
      simp [pipeline, split, Dict.keys] at he
      rcases he with rfl | rfl
      · exact .given (by simp [Free, pipeline, HasOutput]) rfl
      · exact .given (by simp [Free]) rfl))
    rfl (.list (n := 0) rfl rfl rfl rfl)

example (r : FnGraph Unit Val × List Nat) (h : driver pipeline [] = .ok r) :
    ∃ out, defaultExecutorExecute r.1 ["low"] [] ins = .ok out ∧ out.get? "low" = some (some (.int 7)) := by
  have hocc : Occurs pipeline (.dataset "low") :=
    occurs_output (k := pipeline[0]) (by simp [pipeline]) (show "low" ∈ ["low", "high"] by decide)
  obtain ⟨out, h1, h2⟩ := C82_complete_partial lawful (by decide) clean (fun _ _ _ h => (by cases h)) h (req := ["low"])
    (fun x hx => ⟨.dataset "low", .int 7, hocc, (List.mem_singleton.1 hx).symm, low⟩)
  exact ⟨out, h1, h2 (.dataset "low") _ hocc (by decide) low⟩

/-- Two nodes that use the same function with several outputs. -/
def reused : List (KNode Unit Val) :=
  [⟨split, [.dataset "raw", .dataset "k"], .list ["low", "high"]⟩, ⟨split, [.dataset "raw2", .dataset "k"], .list ["low2", "high2"]⟩]

/-- Its data. -/
def reusedIns : Dict Name Val := [("raw", .int 10), ("raw2", .int 20), ("k", .int 3)]

/-- **C82** is violated: a function with several outputs that is used by two nodes. The driver is built, and can compute none of the
datasets. -/
theorem C82_violated_reused : Kedro reused (data reusedIns) (.dataset "low") (.int 7) ∧
    Kedro reused (data reusedIns) (.dataset "low2") (.int 17) ∧ (driver reused []).isOk = true ∧
    run reused reusedIns "low" = none ∧ run reused reusedIns "low2" = none := by
  refine ⟨?_, ?_, by decide +kernel, by decide +kernel, by decide +kernel⟩
  · exact .produced (k := reused[0]) (fun q => if q = "x" then .int 10 else .int 3) (by simp [reused])
      (fed_all (by
        intro e he
        simp [reused, split, Dict.keys] at he
        rcases he with rfl | rfl
        · exact .given (by simp [Free, reused, HasOutput]) rfl
        · exact .given (by simp [Free, reused, HasOutput]) rfl))
      rfl (.list (n := 0) rfl rfl rfl rfl)
  · exact .produced (k := reused[1]) (fun q => if q = "x" then .int 20 else .int 3) (by simp [reused])
      (fed_all (by
        intro e he
        simp [reused, split, Dict.keys] at he
        rcases he with rfl | rfl
        · exact .given (by simp [Free, reused, HasOutput]) rfl
        · exact .given (by simp [Free, reused, HasOutput]) rfl))
      rfl (.list (n := 0) rfl rfl rfl rfl)

/-- **C82** is violated: making a driver replaces the annotation of the function, and a second driver made of the same pipeline no
longer splits the tuple. -/
theorem C82_violated_again : run pipeline ins "low" = some 7 ∧
    ∃ r r', driver pipeline [] = .ok r ∧ driver pipeline r.2 = .ok r' ∧
      (driverExecute oracle r'.1 ["low"] (some ins) none).isOk = false := by
  refine ⟨by decide +kernel, ?_⟩
  have h : (driver pipeline []).toOption.any (fun r => (driver pipeline r.2).toOption.any
      (fun r' => !(driverExecute oracle r'.1 ["low"] (some ins) none).isOk)) = true := by decide +kernel
  cases h1 : driver pipeline [] with
  | error e => rw [h1] at h; cases h
  | ok r =>
    rw [h1] at h
    have h' : (driver pipeline r.2).toOption.any
      (fun r' => !(driverExecute oracle r'.1 ["low"] (some ins) none).isOk) = true := h
    cases h2 : driver pipeline r.2 with
    | error e => rw [h2] at h'; cases h'
    | ok r' =>
      rw [h2] at h'
      exact ⟨r, r', rfl, h2, by simpa [Except.toOption] using h'⟩

/-- `def one(x: int, k: int) -> list: return [x + k]`, with the outputs `["sum"]`. -/
def oneOutput : List (KNode Unit Val) :=
  [⟨⟨5, "one", .other, (), [("x", ((), .required)), ("k", ((), .required))],
    fun kw => nums "x" "k" kw (fun x k => .tuple [.int (x + k)])⟩, [.dataset "raw", .dataset "k"], .list ["sum"]⟩]

/-- **C82** is violated: a list with one output. For Kedro the dataset is the only component; in the driver it is the list. -/
theorem C82_violated_single : Kedro oneOutput (data reusedIns) (.dataset "sum") (.int 13) ∧
    ∃ r out, driver oneOutput [] = .ok r ∧ driverExecute oracle r.1 ["sum"] (some reusedIns) none = .ok out ∧
      out.get? "sum" = some (some (.tuple [.int 13])) := by
  refine ⟨?_, _, _, rfl, rfl, rfl⟩
  exact .produced (k := oneOutput[0]) (fun q => if q = "x" then .int 10 else .int 3) (by simp [oneOutput])
      (fed_all (by
        intro e he
        simp [oneOutput, Dict.keys] at he
        rcases he with rfl | rfl
        · exact .given (by simp [Free, oneOutput, HasOutput]) rfl
        · exact .given (by simp [Free, oneOutput, HasOutput]) rfl))
      rfl (.list (n := 0) rfl rfl rfl rfl)

/-- The outputs `{"mean": "size", "size": "mean"}`: the keys of the dictionary are not the names of the datasets. -/
def swapped : List (KNode Unit Val) := [⟨stats, [.dataset "raw", .dataset "k"], .dict [("mean", "size"), ("size", "mean")]⟩]

/-- **C82** is violated: outputs declared by a dictionary are looked up by the name of the dataset, not by the key. -/
theorem C82_violated_keys : Kedro swapped (data reusedIns) (.dataset "size") (.int 10) ∧
    run swapped reusedIns "size" = some 3 := by
  refine ⟨?_, by decide +kernel⟩
  exact .produced (k := swapped[0]) (fun q => if q = "t" then .int 10 else .int 3) (by simp [swapped])
      (fed_all (by
        intro e he
        simp [swapped, stats, Dict.keys] at he
        rcases he with rfl | rfl
        · exact .given (by simp [Free, swapped, HasOutput]) rfl
        · exact .given (by simp [Free, swapped, HasOutput]) rfl))
      rfl (.dict (key := "mean") (m := [("mean", .int 10), ("size", .int 3)]) rfl (fun x => Iff.rfl) (by decide) rfl)

/-- `split` with three outputs. -/
def tooMany : List (KNode Unit Val) := [⟨split, [.dataset "raw", .dataset "k"], .list ["low", "high", "middle"]⟩]

/-- **C82** is violated: Kedro refuses results with more or fewer components than outputs; the driver does not notice. -/
theorem C82_violated_length : (∀ v, ¬ Kedro tooMany (data reusedIns) (.dataset "low") v) ∧
    run tooMany reusedIns "low" = some 7 := by
  refine ⟨?_, by decide +kernel⟩
  intro v h
  cases h with
  | given hf _ => simp [Free, tooMany, HasOutput] at hf
  | @produced k _ r _ val hk _ hr hpr =>
    simp only [tooMany, List.mem_cons, List.not_mem_nil, or_false] at hk
    subst hk
    obtain ⟨x, y, rfl⟩ := nums_ok hr
    cases hpr with
    | list h1 h2 _ _ =>
      cases h1
      simp at h2

/-- A dataset and a parameter of the same name, used by two nodes. -/
def conflated : List (KNode Unit Val) :=
  [⟨⟨6, "f", .other, (), [("a", ((), .required))], fun kw => nums "a" "a" kw (fun a _ => .int a)⟩, [.dataset "x"], .one "fa"⟩,
   ⟨⟨7, "g", .other, (), [("b", ((), .required))], fun kw => nums "b" "b" kw (fun b _ => .int b)⟩, [.param "x"], .one "gb"⟩]

/-- The dataset is 1, the parameter is 2. -/
def conflatedData : KInput → Option Val
  | .dataset d => if d = "x" then some (.int 1) else none
  | .param q => if q = "x" then some (.int 2) else none

/-- **C82** is violated: `params:x` and the dataset `x` are one input of the driver: whatever is given for it, both get it. -/
theorem C82_violated_parameter : Kedro conflated conflatedData (.dataset "fa") (.int 1) ∧
    Kedro conflated conflatedData (.dataset "gb") (.int 2) ∧
    ∀ n, run conflated [("x", .int n)] "fa" = some n ∧ run conflated [("x", .int n)] "gb" = some n := by
  refine ⟨?_, ?_, fun n => ⟨rfl, rfl⟩⟩
  · exact .produced (k := conflated[0]) (fun _ => .int 1) (by simp [conflated])
      (fed_all (by
        intro e he
        simp [conflated, Dict.keys] at he
        subst he
        exact .given (by simp [Free, conflated, HasOutput]) rfl)) rfl .one
  · exact .produced (k := conflated[1]) (fun _ => .int 2) (by simp [conflated])
      (fed_all (by
        intro e he
        simp [conflated, Dict.keys] at he
        subst he
        exact .given (by simp [Free]) rfl)) rfl .one

/-- One dataset for both parameters. -/
def twice : List (KNode Unit Val) := [⟨total, [.dataset "raw", .dataset "raw"], .one "total"⟩]

/-- **C82** is violated: a dataset that is passed to two parameters reaches only the last of them. -/
theorem C82_violated_twice : Kedro twice (data reusedIns) (.dataset "total") (.int 40) ∧ (driver twice []).isOk = true ∧
    run twice reusedIns "total" = none := by
  refine ⟨?_, by decide +kernel, by decide +kernel⟩
  exact .produced (k := twice[0]) (fun _ => .int 10) (by simp [twice])
      (fed_all (by
        intro e he
        simp [twice, total, Dict.keys] at he
        rcases he with rfl | rfl <;> exact .given (by simp [Free, twice, HasOutput]) rfl)) rfl .one

/-- A parameter with a default that is not fed is called like a dataset. -/
def wired : List (KNode Unit Val) := [⟨total, [.dataset "raw", .dataset "raw2"], .one "total"⟩,
  ⟨total, [.dataset "raw", .dataset "scale"], .one "other"⟩]

/-- Its data. -/
def wiredIns : Dict Name Val := [("raw", .int 1), ("raw2", .int 2), ("scale", .int 10)]

/-- **C82** is violated: a parameter with a default gets the dataset of its name, though no input is passed to it. -/
theorem C82_violated_default : Kedro wired (data wiredIns) (.dataset "total") (.int 6) ∧ run wired wiredIns "total" = some 30 := by
  refine ⟨?_, by decide +kernel⟩
  exact .produced (k := wired[0]) (fun q => if q = "a" then .int 1 else .int 2) (by simp [wired])
      (fed_all (by
        intro e he
        simp [wired, total, Dict.keys] at he
        rcases he with rfl | rfl <;> exact .given (by simp [Free, wired, HasOutput]) rfl)) rfl .one

/-- `split` with the annotation `Tuple[int, int]`. -/
def subscripted : List (KNode Unit Val) :=
  [⟨{ split with ann := .subscripted }, [.dataset "raw", .dataset "k"], .list ["low", "high"]⟩]

/-- **C82** is violated: an annotation with type arguments cannot be converted. -/
theorem C82_violated_annotation : Kedro subscripted (data reusedIns) (.dataset "low") (.int 7) ∧
    driver subscripted [] = .error (.convert "TypeError") := by
  refine ⟨?_, rfl⟩
  exact .produced (k := subscripted[0]) (fun q => if q = "x" then .int 10 else .int 3) (by simp [subscripted])
      (fed_all (by
        intro e he
        simp [subscripted, split, Dict.keys] at he
        rcases he with rfl | rfl <;> exact .given (by simp [Free, subscripted, HasOutput]) rfl))
      rfl (.list (n := 0) rfl rfl rfl rfl)

end Sample

end Verif.Kedro
