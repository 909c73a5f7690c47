import Verif.Model.Metadata
import Verif.Props.Stack
import Verif.Props.Targets

/-!
C73: decorators that attach metadata to nodes.
-/
namespace Verif
variable {B J : Type} {isIdent : String → Bool} {dumps : J → String} {nodes out : List (MNode B)} {ds : List (MetaDeco J)}

/-! ### Specification -/

/-- The characters of words separated by dots. -/
def joinDots : List String → List Char
  | [] => []
  | [w] => w.toList
  | w :: ws => w.toList ++ '.' :: joinDots ws

/-- A key of a tag that is allowed: identifiers separated by dots, the first of which is not reserved (unless this is bypassed). -/
def AllowedKey (isIdent : String → Bool) (bypass : Bool) (key : String) : Prop :=
  ∃ c cs, key.toList = joinDots (c :: cs) ∧ (∀ w ∈ c :: cs, isIdent w = true) ∧
    (bypass = false → c ∉ ["hamilton", "data_quality", "gdpr", "ccpa", "dag", "module", "ray_remote"])

/-- A value of a tag that is allowed: a string, or a list of strings that is not empty and has no repetitions. -/
inductive AllowedValue : PyTag → Prop
  | str (s : String) : AllowedValue (.str s)
  | strs (l : List String) : l ≠ [] → l.Nodup → AllowedValue (.strs l)

/-- A node that is marked as not final. -/
def MarkedNonFinal (n : MNode B) : Prop :=
  ∃ v, n.tags.get? "hamilton.non_final_node" = some v ∧ v ≠ .str "" ∧ v ≠ .strs [] ∧ v ≠ .bool false ∧ ∀ h, v ≠ .other h false

/-- The nodes a target stands for. -/
def Hits (nodes : List (MNode B)) (n : MNode B) : Target → Prop
  | .sinks => (∀ m ∈ nodes, n.name ∉ m.params) ∧ ¬ MarkedNonFinal n
  | .all => True
  | .name t => n.name = t
  | .names ts => n.name ∈ ts

/-- The decorator sets a tag of the node. -/
inductive SetsTag (dumps : J → String) (nodes : List (MNode B)) (n : MNode B) : MetaDeco J → String → PyTag → Prop
  | tag {t b tags k v} : Hits nodes n t → (k, v) ∈ tags → SetsTag dumps nodes n (.tag t b tags) k v
  | outputs {m tags k v} : (n.name, tags) ∈ m → (k, v) ∈ tags → SetsTag dumps nodes n (.tagOutputs m) k v
  | schema {fields} : Hits nodes n .sinks → SetsTag dumps nodes n (.schemaOutput none fields) "hamilton.internal.schema_output"
      (.str (",".intercalate (fields.map (fun p => p.1 ++ "=" ++ p.2))))
  | schemaOf {t fields} : n.name = t → SetsTag dumps nodes n (.schemaOutput (some t) fields) "hamilton.internal.schema_output"
      (.str (",".intercalate (fields.map (fun p => p.1 ++ "=" ++ p.2))))
  | ray {options o j} : Hits nodes n .sinks → (o, j) ∈ options →
      SetsTag dumps nodes n (.rayRemote options) ("ray_remote." ++ o) (.str (dumps j))
  | behavior {t b f} : Hits nodes n t → b ≠ "" → SetsTag dumps nodes n (.cache t (some b) f) "cache.behavior" (.str b)
  | format {t b f} : Hits nodes n t → f ≠ "" → SetsTag dumps nodes n (.cache t b (some f)) "cache.format" (.str f)

/-- The tag of a node under a stack of decorators, the innermost first: the outermost decorator that sets it decides, else it is
the tag the node had. -/
def TagUnder (dumps : J → String) (nodes : List (MNode B)) (n : MNode B) (ds : List (MetaDeco J)) (k : String) (v : PyTag) : Prop :=
  (∃ lo d hi, ds = lo ++ d :: hi ∧ SetsTag dumps nodes n d k v ∧ ∀ e ∈ hi, ∀ w, ¬ SetsTag dumps nodes n e k w) ∨
  ((∀ d ∈ ds, ∀ w, ¬ SetsTag dumps nodes n d k w) ∧ n.tags.get? k = some v)

/-- Everything but the tags is the same. -/
structure SameButTags (n n' : MNode B) : Prop where
  name : n'.name = n.name
  params : n'.params = n.params
  frame : n'.frame = n.frame
  body : n'.body = n.body

/-- The arguments are dictionaries and lists of names without repetitions. -/
def MetaDeco.WellFormed : MetaDeco J → Prop
  | .tag t _ tags => t.mentions.Nodup ∧ tags.keys.Nodup
  | .tagOutputs m => m.keys.Nodup ∧ ∀ p ∈ m, p.2.keys.Nodup
  | .schemaOutput _ _ => True
  | .rayRemote o => o.keys.Nodup
  | .cache t _ _ => t.mentions.Nodup

/-- What `@tag` and `@ray_remote_options` check of the tags. -/
def MetaDeco.Acceptable (isIdent : String → Bool) : MetaDeco J → Prop
  | .tag _ b tags => ∀ p ∈ tags, AllowedKey isIdent b p.1 ∧ AllowedValue p.2
  | .rayRemote o => ∀ p ∈ o, AllowedKey isIdent true p.1
  | _ => True

/-- The names that a decorator aims at. -/
def MetaDeco.Names : MetaDeco J → List Name
  | .tag t _ _ => t.mentions
  | .tagOutputs _ => []
  | .schemaOutput t _ => t.toList
  | .rayRemote _ => []
  | .cache t _ _ => t.mentions

/-! ### One decorator -/

theorem tag_truthy_iff (v : PyTag) : v.truthy = true ↔ v ≠ .str "" ∧ v ≠ .strs [] ∧ v ≠ .bool false ∧ ∀ h, v ≠ .other h false := by
  cases v with
  | str s => simp [PyTag.truthy]
  | strs l => simp [PyTag.truthy]
  | mixed => simp [PyTag.truthy]
  | bool b => simp [PyTag.truthy]
  | other h t => cases t <;> simp [PyTag.truthy]

theorem nonFinal_iff (n : MNode B) : n.toT.nonFinal = true ↔ MarkedNonFinal n := by
  unfold MNode.toT MarkedNonFinal
  simp only [nonFinalKey]
  cases h : n.tags.get? "hamilton.non_final_node" with
  | none => simp
  | some v =>
    simp only [Option.map_some, Option.getD_some, Option.some.injEq, exists_eq_left']
    exact tag_truthy_iff v

theorem aimed_iff (nodes : List (MNode B)) (n : MNode B) (t : Target) :
    Aimed (nodes.map MNode.toT) t n.toT ↔ Hits nodes n t := by
  cases t with
  | sinks =>
    simp only [Aimed, IsSink, Hits]
    refine and_congr ?_ ?_
    · simp only [List.mem_map, forall_exists_index, and_imp, forall_apply_eq_imp_iff₂]
      exact Iff.rfl
    · rw [← nonFinal_iff]; simp
  | all => simp [Aimed, Hits]
  | name t => exact Iff.rfl
  | names ts => exact Iff.rfl

/-- The target, as the specification sees it. -/
theorem hits_target (nodes : List (MNode B)) (n : MNode B) {t : Option Name} {fields : List (String × String)} :
    Hits nodes n (MetaDeco.schemaOutput (J := J) t fields).target ↔ (t = none ∧ Hits nodes n .sinks) ∨ t = some n.name := by
  cases t with
  | none => simp [MetaDeco.target]
  | some t => simp [MetaDeco.target, Hits, eq_comm]

theorem mentions_target (d : MetaDeco J) : d.target.mentions = d.Names := by
  cases d with
  | schemaOutput t f => cases t <;> rfl
  | _ => rfl

/-- What `transform_dag` does: the nodes the target stands for get the new tags and come last. -/
theorem meta_transform (hnd : (nodes.map (·.name)).Nodup) (d : MetaDeco J) (hwf : d.WellFormed) :
    ∃ p : MNode B → Bool, (∀ n ∈ nodes, p n = true ↔ Hits nodes n d.target) ∧
      ∀ out, d.transformDag dumps nodes = .ok out ↔
        (∀ t ∈ d.Names, ∃ n ∈ nodes, n.name = t) ∧ (∀ n ∈ nodes, Hits nodes n d.target → d.validNode n = true) ∧
        out = nodes.filter (fun n => !p n) ++ (nodes.filter p).map (fun n => { n with tags := d.newTags dumps n }) := by
  have hT : ((nodes.map MNode.toT).map (·.name)) = nodes.map (·.name) := by
    rw [List.map_map]; rfl
  have hm : d.target.mentions.Nodup := by
    rw [mentions_target]
    cases d with
    | tag t _ _ => exact hwf.1
    | cache t _ _ => exact hwf
    | schemaOutput t _ => cases t <;> simp [MetaDeco.Names]
    | tagOutputs _ => simp [MetaDeco.Names]
    | rayRemote _ => simp [MetaDeco.Names]
  have hunk := C48_unknown (fun n => [n]) d.target (nodes.map MNode.toT) (by rw [hT]; exact hnd) hm
  have hred : (∃ e, transformDag (fun n => [n]) d.target (nodes.map MNode.toT) = .error e) ↔
      ∃ e, selectNodes d.target (nodes.map MNode.toT) = .error e := by
    unfold transformDag
    cases selectNodes d.target (nodes.map MNode.toT) <;> simp
  rw [hred] at hunk
  unfold MetaDeco.transformDag
  cases hs : selectNodes d.target (nodes.map MNode.toT) with
  | error e =>
    have hno : ¬ ∀ t ∈ d.Names, ∃ n ∈ nodes, n.name = t := by
      intro hall
      obtain ⟨t, ht, hn⟩ := hunk.1 ⟨e, hs⟩
      rw [mentions_target] at ht
      obtain ⟨n, hn', he⟩ := hall t ht
      exact hn n.toT (List.mem_map_of_mem hn') he
    classical
    exact ⟨fun n => decide (Hits nodes n d.target), fun n _ => by simp,
      fun out => ⟨fun h => (by cases h), fun h => absurd h.1 hno⟩⟩
  | ok chosen =>
    obtain ⟨p, hc, hp, he⟩ := selectNodes_filter hs
    have hany : ∀ n ∈ nodes, chosen.any (fun m => n.toT.pyEq m) = p n.toT := by
      intro n hn
      rw [hc, Bool.eq_iff_iff, List.any_eq_true]
      constructor
      · rintro ⟨m, hm, hpe⟩
        rw [he _ _ hpe]; exact (List.mem_filter.1 hm).2
      · intro h
        exact ⟨n.toT, List.mem_filter.2 ⟨List.mem_map_of_mem hn, h⟩, pyEq_refl _⟩
    have hyes : ∀ t ∈ d.Names, ∃ n ∈ nodes, n.name = t := by
      intro t ht
      apply Classical.byContradiction
      intro hno
      obtain ⟨e, h⟩ := hunk.2 ⟨t, by rw [mentions_target]; exact ht, by
        intro n hn he
        obtain ⟨m, hm, rfl⟩ := List.mem_map.1 hn
        exact hno ⟨m, hm, he⟩⟩
      rw [hs] at h; cases h
    have hpn : ∀ n ∈ nodes, p n.toT = true ↔ Hits nodes n d.target := by
      intro n hn
      rw [hp n.toT (List.mem_map_of_mem hn)]
      exact aimed_iff nodes n d.target
    refine ⟨fun n => p n.toT, hpn, fun out => ?_⟩
    have f1 : nodes.filter (fun n => chosen.any (fun m => n.toT.pyEq m)) = nodes.filter (fun n => p n.toT) :=
      List.filter_congr hany
    have f2 : nodes.filter (fun n => !chosen.any (fun m => n.toT.pyEq m)) = nodes.filter (fun n => !p n.toT) :=
      List.filter_congr (fun n hn => by rw [hany n hn])
    simp only [f1, f2]
    have hall : ((nodes.filter (fun n => p n.toT)).all (fun n => d.validNode n)) = true ↔
        ∀ n ∈ nodes, Hits nodes n d.target → d.validNode n = true := by
      rw [List.all_eq_true]
      constructor
      · intro h n hn hh
        exact h n (List.mem_filter.2 ⟨hn, (hpn n hn).2 hh⟩)
      · intro h n hn
        obtain ⟨h1, h2⟩ := List.mem_filter.1 hn
        exact h n h1 ((hpn n h1).1 h2)
    constructor
    · intro h
      split at h
      · rename_i hv
        cases h
        exact ⟨hyes, hall.1 hv, rfl⟩
      · cases h
    · rintro ⟨_, h2, rfl⟩
      rw [if_pos (hall.2 h2)]

theorem merge_some (a : Dict String PyTag) {b : Dict String PyTag} (hb : b.keys.Nodup) (k : String) (v : PyTag) :
    (a.merge b).get? k = some v ↔ (k, v) ∈ b ∨ (∀ w, (k, w) ∉ b) ∧ a.get? k = some v := by
  rw [Dict.get?_merge a b hb k]
  cases h : b.get? k with
  | none =>
    have hno : ∀ w, (k, w) ∉ b := by
      intro w hw
      rw [Dict.get?_of_mem hb hw] at h; cases h
    simp [hno]
  | some x =>
    have hm := Dict.get?_mem h
    constructor
    · intro hv; cases hv; exact .inl hm
    · rintro (hv | ⟨hno, _⟩)
      · have := (Dict.get?_of_mem hb hv).symm.trans h
        rw [this]; rfl
      · exact absurd hm (hno x)

theorem filter_keys_nodup {a : Dict String PyTag} (h : a.keys.Nodup) (q : String × PyTag → Bool) :
    (Dict.keys (a.filter q)).Nodup := (List.filter_sublist.map _).nodup h

theorem ray_key_inj {a b : String} (h : "ray_remote." ++ a = "ray_remote." ++ b) : a = b := by
  have := congrArg String.toList h
  simp only [String.toList_append, List.append_cancel_left_eq] at this
  exact String.toList_inj.1 this

theorem rayTags_nodup {o : Dict String J} (h : o.keys.Nodup) : (rayTags dumps o).keys.Nodup := by
  unfold rayTags Dict.keys at *
  rw [List.map_map, show ((fun x : String × PyTag => x.1) ∘ fun p : String × J => ("ray_remote." ++ p.1, PyTag.str (dumps p.2))) =
    (fun s => "ray_remote." ++ s) ∘ (fun p : String × J => p.1) from rfl, ← List.map_map]
  exact List.Pairwise.map _ (fun _ _ hne h => hne (ray_key_inj h)) h

theorem cacheTags_nodup (b f : Option String) : (cacheTags b f).keys.Nodup := by
  unfold cacheTags Dict.keys
  cases b with
  | none =>
    cases f with
    | none => simp
    | some f => by_cases h : f = "" <;> simp [h]
  | some b =>
    cases f with
    | none => by_cases h : b = "" <;> simp [h]
    | some f => by_cases h : b = "" <;> by_cases h' : f = "" <;> simp [h, h']

theorem mem_cacheTags (b f : Option String) (k : String) (v : PyTag) : (k, v) ∈ cacheTags b f ↔
    (∃ x, b = some x ∧ x ≠ "" ∧ k = "cache.behavior" ∧ v = .str x) ∨ (∃ x, f = some x ∧ x ≠ "" ∧ k = "cache.format" ∧ v = .str x) := by
  unfold cacheTags
  rw [List.mem_append]
  refine or_congr ?_ ?_
  · cases b with
    | none => simp
    | some b => by_cases h : b = "" <;> simp [h]
  · cases f with
    | none => simp
    | some f => by_cases h : f = "" <;> simp [h]

/-- What a decorator leaves of the tags of a node it applies to. -/
theorem newTags_get (d : MetaDeco J) (hwf : d.WellFormed) {n : MNode B} (hn : n.tags.keys.Nodup) (hh : Hits nodes n d.target)
    {k : String} (hk : k ∉ ["target_", "bypass_reserved_namespaces_"]) (v : PyTag) :
    (d.newTags dumps n).get? k = some v ↔ SetsTag dumps nodes n d k v ∨ (∀ w, ¬ SetsTag dumps nodes n d k w) ∧ n.tags.get? k = some v := by
  have red : ∀ (b : Dict String PyTag), b.keys.Nodup → (∀ w, (k, w) ∈ b ↔ SetsTag dumps nodes n d k w) →
      ((n.tags.merge b).get? k = some v ↔
        SetsTag dumps nodes n d k v ∨ (∀ w, ¬ SetsTag dumps nodes n d k w) ∧ n.tags.get? k = some v) := by
    intro b hb hs
    rw [merge_some n.tags hb k v, hs]
    simp only [hs]
  cases d with
  | tag t b tags =>
    refine red tags hwf.2 (fun w => ⟨fun h => .tag hh h, ?_⟩)
    intro h; cases h with | tag _ h => exact h
  | tagOutputs m =>
    simp only [MetaDeco.newTags]
    cases hm : m.get? n.name with
    | none =>
      have hno : ∀ w, ¬ SetsTag dumps nodes n (.tagOutputs m) k w := by
        intro w h
        cases h with
        | outputs h _ => rw [Dict.get?_of_mem hwf.1 h] at hm; cases hm
      simp [hno]
    | some t =>
      have ht : t.keys.Nodup := hwf.2 _ (Dict.get?_mem hm)
      have hmt : (n.tags.merge t).keys.Nodup := Dict.merge_keys_nodup hn t
      have hs : ∀ w, (k, w) ∈ t ↔ SetsTag dumps nodes n (.tagOutputs m) k w := by
        intro w
        refine ⟨fun h => .outputs (Dict.get?_mem hm) h, ?_⟩
        intro h
        cases h with
        | outputs h h' =>
          have := (Dict.get?_of_mem hwf.1 h).symm.trans hm
          cases this
          exact h'
      have hin : ∀ w, (k, w) ∈ (n.tags.merge t).filter (fun p => !tagParams.contains p.1) ↔
          (n.tags.merge t).get? k = some w := by
        intro w
        rw [List.mem_filter]
        have : (!tagParams.contains k) = true := by
          simp only [tagParams, Bool.not_eq_true', List.contains_eq_mem, decide_eq_false_iff_not]; exact hk
        simp only [this, and_true]
        exact ⟨Dict.get?_of_mem hmt, Dict.get?_mem⟩
      rw [merge_some n.tags (filter_keys_nodup hmt _) k v]
      simp only [hin]
      rw [merge_some n.tags ht k v]
      simp only [hs]
      constructor
      · rintro (h | ⟨h1, h2⟩)
        · exact h
        · refine .inr ⟨fun w hw => h1 w ?_, h2⟩
          exact (merge_some n.tags ht k w).2 (.inl ((hs w).2 hw))
      · exact .inl
  | schemaOutput t fields =>
    refine red _ (by simp [Dict.keys]) (fun w => ?_)
    rw [hits_target] at hh
    simp only [List.mem_singleton, Prod.mk.injEq]
    constructor
    · rintro ⟨rfl, rfl⟩
      rcases hh with ⟨rfl, hh⟩ | rfl
      · exact .schema hh
      · exact .schemaOf rfl
    · intro h
      cases h with
      | schema _ => exact ⟨rfl, rfl⟩
      | schemaOf _ => exact ⟨rfl, rfl⟩
  | rayRemote o =>
    refine red _ (rayTags_nodup hwf) (fun w => ?_)
    unfold rayTags
    rw [List.mem_map]
    constructor
    · rintro ⟨⟨a, j⟩, hm, he⟩
      cases he
      exact .ray hh hm
    · intro h
      cases h with
      | ray _ h => exact ⟨_, h, rfl⟩
  | cache t b f =>
    refine red _ (cacheTags_nodup b f) (fun w => ?_)
    rw [mem_cacheTags]
    constructor
    · rintro (⟨x, rfl, h1, rfl, rfl⟩ | ⟨x, rfl, h1, rfl, rfl⟩)
      · exact .behavior hh h1
      · exact .format hh h1
    · intro h
      cases h with
      | behavior _ h => exact .inl ⟨_, rfl, h, rfl, rfl⟩
      | format _ h => exact .inr ⟨_, rfl, h, rfl, rfl⟩

theorem sets_hits {d : MetaDeco J} {n : MNode B} {k : String} {v : PyTag} (h : SetsTag dumps nodes n d k v) : Hits nodes n d.target := by
  cases h with
  | tag h _ => exact h
  | outputs _ _ => exact True.intro
  | schema h => exact h
  | schemaOf h => exact h
  | ray h _ => exact h
  | behavior h _ => exact h
  | format h _ => exact h

theorem newTags_nodup (d : MetaDeco J) {n : MNode B} (hn : n.tags.keys.Nodup) : (d.newTags dumps n).keys.Nodup := by
  cases d with
  | tagOutputs m =>
    simp only [MetaDeco.newTags]
    cases m.get? n.name with
    | none => exact hn
    | some t => exact Dict.merge_keys_nodup hn _
  | tag t b tags => exact Dict.merge_keys_nodup hn _
  | schemaOutput t f => exact Dict.merge_keys_nodup hn _
  | rayRemote o => exact Dict.merge_keys_nodup hn _
  | cache t b f => exact Dict.merge_keys_nodup hn _

/-- The decorators one after the other. -/
def runMeta (dumps : J → String) : List (MetaDeco J) → List (MNode B) → Except UserErr (List (MNode B))
  | [], nodes => .ok nodes
  | d :: ds, nodes =>
    match d.transformDag dumps nodes with
    | .error e => .error e
    | .ok nodes' => runMeta dumps ds nodes'

/-- The mark of nodes that are not final is not touched. -/
def KeepsMark (dumps : J → String) (nodes : List (MNode B)) (ds : List (MetaDeco J)) : Prop :=
  ∀ d ∈ ds, ∀ n ∈ nodes, ∀ v, ¬ SetsTag dumps nodes n d "hamilton.non_final_node" v

/-- One step. -/
theorem meta_step (hnd : (nodes.map (·.name)).Nodup) (htn : ∀ n ∈ nodes, n.tags.keys.Nodup) (d : MetaDeco J) (hwf : d.WellFormed) :
    (∃ out, d.transformDag dumps nodes = .ok out) ↔
      (∀ t ∈ d.Names, ∃ n ∈ nodes, n.name = t) ∧ (∀ n ∈ nodes, Hits nodes n d.target → d.validNode n = true) := by
  obtain ⟨p, _, h⟩ := meta_transform (dumps := dumps) hnd d hwf
  constructor
  · rintro ⟨out, ho⟩
    exact ⟨((h out).1 ho).1, ((h out).1 ho).2.1⟩
  · rintro ⟨h1, h2⟩
    exact ⟨_, (h _).2 ⟨h1, h2, rfl⟩⟩

theorem meta_out (hnd : (nodes.map (·.name)).Nodup) (htn : ∀ n ∈ nodes, n.tags.keys.Nodup) (d : MetaDeco J) (hwf : d.WellFormed)
    (ho : d.transformDag dumps nodes = .ok out) :
    ∃ f : MNode B → MNode B, out.Perm (nodes.map f) ∧ ∀ n ∈ nodes, SameButTags n (f n) ∧ (f n).tags.keys.Nodup ∧
      ∀ k, k ∉ ["target_", "bypass_reserved_namespaces_"] → ∀ v, (f n).tags.get? k = some v ↔
        SetsTag dumps nodes n d k v ∨ (∀ w, ¬ SetsTag dumps nodes n d k w) ∧ n.tags.get? k = some v := by
  obtain ⟨p, hp, h⟩ := meta_transform (dumps := dumps) hnd d hwf
  obtain ⟨_, _, rfl⟩ := (h out).1 ho
  refine ⟨fun n => if p n then { n with tags := d.newTags dumps n } else n, ?_, ?_⟩
  · have e1 : (nodes.filter p).map (fun n => { n with tags := d.newTags dumps n }) =
        (nodes.filter p).map (fun n => if p n then { n with tags := d.newTags dumps n } else n) := by
      apply List.map_congr_left
      intro n hn
      rw [if_pos (List.mem_filter.1 hn).2]
    have e2 : nodes.filter (fun n => !p n) =
        (nodes.filter (fun n => !p n)).map (fun n => if p n then { n with tags := d.newTags dumps n } else n) := by
      conv => lhs; rw [← List.map_id (nodes.filter (fun n => !p n))]
      apply List.map_congr_left
      intro n hn
      have : p n = false := by simpa using (List.mem_filter.1 hn).2
      rw [this]; rfl
    rw [e1, e2, ← List.map_append]
    exact (List.perm_append_comm.trans (List.filter_append_perm p nodes)).map _
  · intro n hn
    dsimp only
    by_cases hpn : p n = true
    · rw [if_pos hpn]
      exact ⟨⟨rfl, rfl, rfl, rfl⟩, newTags_nodup d (htn n hn),
        fun k hk v => newTags_get d hwf (htn n hn) ((hp n hn).1 hpn) hk v⟩
    · rw [if_neg hpn]
      have hno : ∀ k w, ¬ SetsTag dumps nodes n d k w := fun k w h => hpn ((hp n hn).2 (sets_hits h))
      exact ⟨⟨rfl, rfl, rfl, rfl⟩, htn n hn, fun k _ v => by simp [hno]⟩

/-- What a target stands for does not change. -/
theorem hits_step {f : MNode B → MNode B} (hperm : out.Perm (nodes.map f))
    (hf : ∀ n ∈ nodes, SameButTags n (f n) ∧ ((f n).tags.get? "hamilton.non_final_node" = n.tags.get? "hamilton.non_final_node"))
    {n : MNode B} (hn : n ∈ nodes) (t : Target) : Hits out (f n) t ↔ Hits nodes n t := by
  cases t with
  | sinks =>
    simp only [Hits]
    refine and_congr ?_ (not_congr ?_)
    · rw [(hf n hn).1.name]
      constructor
      · intro h m hm
        have := h (f m) (hperm.mem_iff.2 (List.mem_map_of_mem hm))
        rwa [(hf m hm).1.params] at this
      · intro h m hm
        obtain ⟨m', hm', rfl⟩ := List.mem_map.1 (hperm.mem_iff.1 hm)
        rw [(hf m' hm').1.params]
        exact h m' hm'
    · unfold MarkedNonFinal; rw [(hf n hn).2]
  | all => exact Iff.rfl
  | name t => simp only [Hits]; rw [(hf n hn).1.name]
  | names ts => simp only [Hits]; rw [(hf n hn).1.name]

theorem sets_mono {nodes' : List (MNode B)} {n n' : MNode B} (hname : n'.name = n.name)
    (hh : ∀ t, Hits nodes n t → Hits nodes' n' t) {d : MetaDeco J} {k : String} {v : PyTag}
    (h : SetsTag dumps nodes n d k v) : SetsTag dumps nodes' n' d k v := by
  cases h with
  | tag h1 h2 => exact .tag (hh _ h1) h2
  | outputs h1 h2 => exact .outputs (hname ▸ h1) h2
  | schema h => exact .schema (hh _ h)
  | schemaOf h => exact .schemaOf (hname.trans h)
  | ray h1 h2 => exact .ray (hh _ h1) h2
  | behavior h1 h2 => exact .behavior (hh _ h1) h2
  | format h1 h2 => exact .format (hh _ h1) h2

theorem tagUnder_cons {n : MNode B} {d : MetaDeco J} {k : String} {v : PyTag} :
    TagUnder dumps nodes n (d :: ds) k v ↔
      (∃ lo e hi, ds = lo ++ e :: hi ∧ SetsTag dumps nodes n e k v ∧ ∀ e ∈ hi, ∀ w, ¬ SetsTag dumps nodes n e k w) ∨
      ((∀ e ∈ ds, ∀ w, ¬ SetsTag dumps nodes n e k w) ∧
        (SetsTag dumps nodes n d k v ∨ (∀ w, ¬ SetsTag dumps nodes n d k w) ∧ n.tags.get? k = some v)) := by
  unfold TagUnder
  constructor
  · rintro (⟨lo, e, hi, he, hs, hno⟩ | ⟨hno, hk⟩)
    · cases lo with
      | nil => cases he; exact .inr ⟨hno, .inl hs⟩
      | cons x lo => cases he; exact .inl ⟨lo, e, hi, rfl, hs, hno⟩
    · exact .inr ⟨fun e he => hno e (.tail _ he), .inr ⟨hno d (.head _), hk⟩⟩
  · rintro (⟨lo, e, hi, rfl, hs, hno⟩ | ⟨hno, hs | ⟨h1, h2⟩⟩)
    · exact .inl ⟨d :: lo, e, hi, rfl, hs, hno⟩
    · exact .inl ⟨[], d, ds, rfl, hs, hno⟩
    · refine .inr ⟨?_, h2⟩
      intro e he
      rcases List.mem_cons.1 he with rfl | he
      · exact h1
      · exact hno e he

/-- The whole stack. -/
theorem runMeta_spec : ∀ (ds : List (MetaDeco J)) (nodes out : List (MNode B)), (nodes.map (·.name)).Nodup →
    (∀ n ∈ nodes, n.tags.keys.Nodup) → (∀ d ∈ ds, d.WellFormed) → KeepsMark dumps nodes ds →
    ((∃ out, runMeta dumps ds nodes = .ok out) ↔
      ∀ d ∈ ds, (∀ t ∈ d.Names, ∃ n ∈ nodes, n.name = t) ∧ (∀ n ∈ nodes, Hits nodes n d.target → d.validNode n = true)) ∧
    (runMeta dumps ds nodes = .ok out →
      ∃ f : MNode B → MNode B, out.Perm (nodes.map f) ∧ ∀ n ∈ nodes, SameButTags n (f n) ∧ (f n).tags.keys.Nodup ∧
        ∀ k, k ∉ ["target_", "bypass_reserved_namespaces_"] → ∀ v, (f n).tags.get? k = some v ↔ TagUnder dumps nodes n ds k v) := by
  intro ds
  induction ds with
  | nil =>
    intro nodes out _ htn _ _
    refine ⟨⟨fun _ d hd => (by cases hd), fun _ => ⟨_, rfl⟩⟩, ?_⟩
    intro h
    cases h
    refine ⟨id, by simp, fun n hn => ⟨⟨rfl, rfl, rfl, rfl⟩, htn n hn, fun k _ v => ?_⟩⟩
    unfold TagUnder
    simp
  | cons d ds ih =>
    intro nodes out hnd htn hwf hmark
    have hwd := hwf d (.head _)
    have hstep := meta_step (dumps := dumps) hnd htn d hwd
    simp only [runMeta]
    cases ho : d.transformDag dumps nodes with
    | error e =>
      refine ⟨⟨(by rintro ⟨_, h⟩; cases h), fun h => ?_⟩, fun h => (by cases h)⟩
      obtain ⟨_, h'⟩ := hstep.2 (h d (.head _))
      rw [ho] at h'; cases h'
    | ok nodes1 =>
      obtain ⟨f1, hp1, hf1⟩ := meta_out hnd htn d hwd ho
      have hmark1 : ∀ n ∈ nodes, (f1 n).tags.get? "hamilton.non_final_node" = n.tags.get? "hamilton.non_final_node" := by
        intro n hn
        apply Option.ext
        intro v
        rw [(hf1 n hn).2.2 _ (by decide) v]
        have := hmark d (.head _) n hn
        simp [this]
      have hhit : ∀ n ∈ nodes, ∀ t, Hits nodes1 (f1 n) t ↔ Hits nodes n t :=
        fun n hn t => hits_step hp1 (fun m hm => ⟨(hf1 m hm).1, hmark1 m hm⟩) hn t
      have hset : ∀ n ∈ nodes, ∀ e k v, SetsTag dumps nodes1 (f1 n) e k v ↔ SetsTag dumps nodes n e k v := fun n hn e k v =>
        ⟨sets_mono (hf1 n hn).1.name.symm (fun t => (hhit n hn t).1), sets_mono (hf1 n hn).1.name (fun t => (hhit n hn t).2)⟩
      have hmem : ∀ m, m ∈ nodes1 ↔ ∃ n ∈ nodes, f1 n = m := fun m => by rw [hp1.mem_iff, List.mem_map]
      have hnames : (nodes1.map (·.name)).Perm (nodes.map (·.name)) := by
        refine (hp1.map _).trans ?_
        rw [List.map_map]
        have : nodes.map ((fun x : MNode B => x.name) ∘ f1) = nodes.map (·.name) :=
          List.map_congr_left (fun n hn => (hf1 n hn).1.name)
        rw [this]
      have hnd1 : (nodes1.map (·.name)).Nodup := hnames.nodup_iff.2 hnd
      obtain ⟨ih1, ih2⟩ := ih nodes1 out hnd1 (by
        intro m hm
        obtain ⟨n, hn, rfl⟩ := (hmem m).1 hm
        exact (hf1 n hn).2.1) (fun e he => hwf e (.tail _ he)) (by
        intro e he m hm v hs
        obtain ⟨n, hn, rfl⟩ := (hmem m).1 hm
        exact hmark e (.tail _ he) n hn v ((hset n hn _ _ _).1 hs))
      have hvalid : ∀ (e : MetaDeco J), ∀ n ∈ nodes, e.validNode (f1 n) = e.validNode n := by
        intro e n hn
        cases e <;> simp [MetaDeco.validNode, (hf1 n hn).1.frame]
      refine ⟨?_, ?_⟩
      · constructor
        · intro h e he
          rcases List.mem_cons.1 he with rfl | he
          · exact hstep.1 ⟨_, ho⟩
          · obtain ⟨h1, h2⟩ := ih1.1 h e he
            refine ⟨fun t ht => ?_, fun n hn hh => ?_⟩
            · obtain ⟨m, hm, rfl⟩ := h1 t ht
              obtain ⟨n, hn, rfl⟩ := (hmem m).1 hm
              exact ⟨n, hn, (hf1 n hn).1.name.symm⟩
            · rw [← hvalid e n hn]
              exact h2 _ ((hmem _).2 ⟨n, hn, rfl⟩) ((hhit n hn _).2 hh)
        · intro h
          refine ih1.2 (fun e he => ?_)
          obtain ⟨h1, h2⟩ := h e (.tail _ he)
          refine ⟨fun t ht => ?_, fun m hm hh => ?_⟩
          · obtain ⟨n, hn, rfl⟩ := h1 t ht
            exact ⟨f1 n, (hmem _).2 ⟨n, hn, rfl⟩, (hf1 n hn).1.name⟩
          · obtain ⟨n, hn, rfl⟩ := (hmem m).1 hm
            rw [hvalid e n hn]
            exact h2 n hn ((hhit n hn _).1 hh)
      · intro h
        obtain ⟨f2, hp2, hf2⟩ := ih2 h
        refine ⟨f2 ∘ f1, ?_, ?_⟩
        · rw [← List.map_map]
          exact hp2.trans (hp1.map _)
        · intro n hn
          obtain ⟨hs, hnd2, ht⟩ := hf2 (f1 n) ((hmem _).2 ⟨n, hn, rfl⟩)
          obtain ⟨hs1, _, ht1⟩ := hf1 n hn
          refine ⟨⟨hs.name.trans hs1.name, hs.params.trans hs1.params, hs.frame.trans hs1.frame, hs.body.trans hs1.body⟩, hnd2, ?_⟩
          intro k hk v
          rw [Function.comp_apply, ht k hk v, tagUnder_cons, ← ht1 k hk v]
          unfold TagUnder
          simp only [hset n hn]

/-! ### What is accepted -/

theorem splitDots_word : ∀ (w : List Char), '.' ∉ w → splitDots w = [w] := by
  intro w
  induction w with
  | nil => intro _; rfl
  | cons c w ih =>
    intro h
    have hc : c ≠ '.' := fun e => h (e ▸ List.mem_cons_self ..)
    rw [splitDots, if_neg hc, ih (fun hm => h (.tail _ hm))]

theorem splitDots_cons : ∀ (w r : List Char), '.' ∉ w → splitDots (w ++ '.' :: r) = w :: splitDots r := by
  intro w
  induction w with
  | nil => intro r _; simp [splitDots]
  | cons c w ih =>
    intro r h
    have hc : c ≠ '.' := fun e => h (e ▸ List.mem_cons_self ..)
    rw [List.cons_append, splitDots, if_neg hc, ih r (fun hm => h (.tail _ hm))]

theorem splitDots_join : ∀ (ws : List String), ws ≠ [] → (∀ w ∈ ws, '.' ∉ w.toList) → splitDots (joinDots ws) = ws.map String.toList := by
  intro ws
  induction ws with
  | nil => intro h; exact absurd rfl h
  | cons w ws ih =>
    intro _ h
    cases ws with
    | nil => exact splitDots_word _ (h w (.head _))
    | cons x ws =>
      rw [joinDots, splitDots_cons _ _ (h w (.head _)), ih (by simp) (fun y hy => h y (.tail _ hy))]
      · rfl
      · simp

theorem joinDots_split : ∀ (cs : List Char), splitDots cs ≠ [] ∧ joinDots ((splitDots cs).map String.ofList) = cs := by
  intro cs
  induction cs with
  | nil => exact ⟨by simp [splitDots], by simp [splitDots, joinDots]⟩
  | cons c cs ih =>
    obtain ⟨h1, h2⟩ := ih
    by_cases hc : c = '.'
    · subst hc
      rw [splitDots, if_pos rfl]
      refine ⟨by simp, ?_⟩
      cases hs : splitDots cs with
      | nil => exact absurd hs h1
      | cons w ws =>
        rw [hs] at h2
        simp only [List.map_cons, joinDots, String.toList_ofList, List.nil_append]
        rw [← List.map_cons, h2]
    · rw [splitDots, if_neg hc]
      cases hs : splitDots cs with
      | nil => exact absurd hs h1
      | cons w ws =>
        rw [hs] at h2
        refine ⟨by simp, ?_⟩
        cases ws with
        | nil =>
          simp only [List.map_cons, List.map_nil, joinDots, String.toList_ofList] at h2 ⊢
          rw [h2]
        | cons x ws =>
          simp only [List.map_cons, joinDots, String.toList_ofList, List.cons_append] at h2 ⊢
          rw [h2]

theorem keyAllowed_split {b : Bool} {key : String} {c : String} {cs : List String}
    (h : (splitDots key.toList).map String.ofList = c :: cs) :
    keyAllowed isIdent b key = true ↔
      (∀ w ∈ c :: cs, isIdent w = true) ∧
        (b = false → c ∉ ["hamilton", "data_quality", "gdpr", "ccpa", "dag", "module", "ray_remote"]) := by
  unfold keyAllowed
  rw [h]
  dsimp only
  by_cases hr : (!b && reservedNamespaces.contains c) = true
  · rw [if_pos hr]
    rw [Bool.and_eq_true, List.contains_iff_mem] at hr
    have hb : b = false := by simpa using hr.1
    constructor
    · intro h; cases h
    · rintro ⟨_, h⟩; exact absurd hr.2 (h hb)
  · rw [if_neg hr, List.all_eq_true]
    refine ⟨fun h => ⟨h, fun hb hc => hr ?_⟩, fun h => h.1⟩
    rw [hb, Bool.and_eq_true, List.contains_iff_mem]
    exact ⟨rfl, hc⟩

theorem keyAllowed_iff (hident : ∀ w, isIdent w = true → '.' ∉ w.toList) (b : Bool) (key : String) :
    keyAllowed isIdent b key = true ↔ AllowedKey isIdent b key := by
  constructor
  · intro h
    obtain ⟨h1, h2⟩ := joinDots_split key.toList
    cases hs : (splitDots key.toList).map String.ofList with
    | nil => simp at hs; exact absurd hs h1
    | cons c cs =>
      obtain ⟨h3, h4⟩ := (keyAllowed_split hs).1 h
      exact ⟨c, cs, by rw [← hs, h2], h3, h4⟩
  · rintro ⟨c, cs, h1, h2, h3⟩
    refine (keyAllowed_split (c := c) (cs := cs) ?_).2 ⟨h2, h3⟩
    rw [h1, splitDots_join (c :: cs) (by simp) (fun w hw => hident w (h2 w hw)), List.map_map]
    conv => rhs; rw [← List.map_id (c :: cs)]
    exact List.map_congr_left (fun w _ => by simp)

theorem valueAllowed_iff (v : PyTag) : valueAllowed v = true ↔ AllowedValue v := by
  cases v with
  | str s => exact ⟨fun _ => .str s, fun _ => rfl⟩
  | strs l =>
    simp only [valueAllowed, Bool.and_eq_true, decide_eq_true_eq, Bool.not_eq_true', List.isEmpty_eq_false_iff]
    exact ⟨fun h => .strs l h.1 h.2, fun h => by cases h with | strs _ h1 h2 => exact ⟨h1, h2⟩⟩
  | mixed => exact ⟨fun h => (by cases h), fun h => (by cases h)⟩
  | bool b => exact ⟨fun h => (by cases h), fun h => (by cases h)⟩
  | other a b => exact ⟨fun h => (by cases h), fun h => (by cases h)⟩

theorem validateTags_iff (b : Bool) : ∀ (tags : Dict String PyTag),
    validateTags isIdent b tags = .ok () ↔ ∀ p ∈ tags, keyAllowed isIdent b p.1 = true ∧ valueAllowed p.2 = true := by
  intro tags
  induction tags with
  | nil => exact ⟨fun _ p hp => (by cases hp), fun _ => rfl⟩
  | cons q tags ih =>
    obtain ⟨k, v⟩ := q
    by_cases hq : (keyAllowed isIdent b k && valueAllowed v) = true
    · have e : validateTags isIdent b ((k, v) :: tags) = validateTags isIdent b tags := by
        rw [validateTags.eq_def]; dsimp only; rw [if_pos hq]
      rw [e, ih]
      rw [Bool.and_eq_true] at hq
      constructor
      · intro h p hp
        rcases List.mem_cons.1 hp with rfl | hp
        · exact hq
        · exact h p hp
      · exact fun h p hp => h p (.tail _ hp)
    · have hno : ¬ ∀ p ∈ (k, v) :: tags, keyAllowed isIdent b p.1 = true ∧ valueAllowed p.2 = true := by
        intro h
        exact hq (by rw [Bool.and_eq_true]; exact h (k, v) (.head _))
      refine ⟨fun h => ?_, fun h => absurd h hno⟩
      exfalso
      rw [validateTags.eq_def] at h
      dsimp only at h
      rw [if_neg hq] at h
      cases v with
      | other x y =>
        cases x with
        | false => cases h
        | true => cases hr : validateTags isIdent b tags <;> simp [hr] at h
      | _ => cases hr : validateTags isIdent b tags <;> simp [hr] at h

theorem ray_key_split (o : String) :
    (splitDots ("ray_remote." ++ o).toList).map String.ofList = "ray_remote" :: (splitDots o.toList).map String.ofList := by
  have : ("ray_remote." ++ o).toList = "ray_remote".toList ++ '.' :: o.toList := by
    rw [String.toList_append]
    have : "ray_remote.".toList = "ray_remote".toList ++ ['.'] := by decide
    rw [this, List.append_assoc]; rfl
  rw [this, splitDots_cons _ _ (by decide), List.map_cons]
  simp

theorem ray_key_allowed (hident : ∀ w, isIdent w = true → '.' ∉ w.toList) (hray : isIdent "ray_remote" = true) (o : String) :
    keyAllowed isIdent true ("ray_remote." ++ o) = true ↔ AllowedKey isIdent true o := by
  rw [keyAllowed_split (ray_key_split o), ← keyAllowed_iff hident]
  cases hs : (splitDots o.toList).map String.ofList with
  | nil => simp at hs; exact absurd hs (joinDots_split o.toList).1
  | cons c cs =>
    rw [keyAllowed_split hs]
    simp [hray]

/-- `validate` of one decorator. -/
theorem meta_validate (hident : ∀ w, isIdent w = true → '.' ∉ w.toList) (hray : isIdent "ray_remote" = true) (d : MetaDeco J) :
    d.validate isIdent dumps = .ok () ↔ d.Acceptable isIdent := by
  cases d with
  | tag t b tags =>
    simp only [MetaDeco.validate, MetaDeco.Acceptable]
    rw [validateTags_iff]
    constructor
    · exact fun h p hp => ⟨(keyAllowed_iff hident _ _).1 (h p hp).1, (valueAllowed_iff _).1 (h p hp).2⟩
    · exact fun h p hp => ⟨(keyAllowed_iff hident _ _).2 (h p hp).1, (valueAllowed_iff _).2 (h p hp).2⟩
  | rayRemote o =>
    simp only [MetaDeco.validate, MetaDeco.Acceptable]
    rw [validateTags_iff]
    constructor
    · intro h p hp
      exact (ray_key_allowed hident hray _).1 (h (_, _) (List.mem_map_of_mem hp)).1
    · intro h p hp
      obtain ⟨q, hq, rfl⟩ := List.mem_map.1 hp
      exact ⟨(ray_key_allowed hident hray _).2 (h q hq), rfl⟩
  | tagOutputs m => exact ⟨fun _ => trivial, fun _ => rfl⟩
  | schemaOutput t f => exact ⟨fun _ => trivial, fun _ => rfl⟩
  | cache t b f => exact ⟨fun _ => trivial, fun _ => rfl⟩

theorem toStatic_valid (d : MetaDeco J) :
    (d.toStatic (B := B) isIdent dumps).valid () = true ↔ d.validate isIdent dumps = .ok () := by
  unfold MetaDeco.toStatic
  dsimp only
  cases h : d.validate isIdent dumps with
  | ok u => simp
  | error e => simp

theorem toStatic_exclusive (d : MetaDeco J) :
    (d.toStatic (B := B) isIdent dumps).exclusive = true ↔ ∃ t f, d = .schemaOutput t f := by
  unfold MetaDeco.toStatic
  cases d <;> simp

/-- What a stack of these decorators needs. -/
def StackOk (isIdent : String → Bool) (dumps : J → String) (empty : Bool) (ds : List (MetaDeco J)) : Prop :=
  (∀ d ∈ ds, d.validate isIdent dumps = .ok ()) ∧
  ∀ lo t f hi, ds = lo ++ .schemaOutput t f :: hi → lo = [] ∧ empty = true

theorem attach_meta : ∀ (ds : List (MetaDeco J)) (acc : List (StaticDeco Unit (MNode B) Unit)),
    (StackOk isIdent dumps acc.isEmpty ds →
      attachAll () (ds.map (fun d => .static (d.toStatic isIdent dumps))) { decorate := acc } =
        .ok { decorate := acc ++ ds.map (fun d => d.toStatic isIdent dumps) }) ∧
    (¬ StackOk isIdent dumps acc.isEmpty ds →
      ∃ e, attachAll () (ds.map (fun d => .static (d.toStatic isIdent dumps))) { decorate := acc } = .error e) := by
  intro ds
  induction ds with
  | nil =>
    intro acc
    refine ⟨fun _ => by simp [attachAll], fun h => absurd ⟨fun d hd => (by cases hd), ?_⟩ h⟩
    intro lo t f hi h
    cases lo <;> cases h
  | cons d ds ih =>
    intro acc
    simp only [List.map_cons, attachAll]
    have hkind : (d.toStatic (B := B) isIdent dumps).kind = .decorate := rfl
    by_cases hv : d.validate isIdent dumps = .ok ()
    · by_cases hx : (∃ t f, d = .schemaOutput t f) ∧ acc.isEmpty = false
      · have herr : attachDeco () ({ decorate := acc } : DecoAttrs Unit (MNode B) Unit) (.static (d.toStatic isIdent dumps)) = .error "ValueError" := by
          unfold attachDeco
          dsimp only
          rw [(toStatic_valid d).2 hv, (toStatic_exclusive d).2 hx.1, hkind]
          simp [DecoAttrs.get, hx.2]
        rw [herr]
        refine ⟨fun h => ?_, fun _ => ⟨_, rfl⟩⟩
        obtain ⟨⟨t, f, rfl⟩, he⟩ := hx
        have := (h.2 [] t f ds rfl).2
        rw [he] at this; cases this
      · have hok : attachDeco () ({ decorate := acc } : DecoAttrs Unit (MNode B) Unit) (.static (d.toStatic isIdent dumps)) =
            .ok { decorate := acc ++ [d.toStatic isIdent dumps] } := by
          unfold attachDeco
          dsimp only
          rw [(toStatic_valid d).2 hv, hkind]
          cases hex : (d.toStatic (B := B) isIdent dumps).exclusive with
          | false => simp [DecoAttrs.get, DecoAttrs.put, DecoKind.multiple]
          | true =>
            have : acc.isEmpty = true := by
              cases hacc : acc.isEmpty with
              | true => rfl
              | false => exact absurd ⟨(toStatic_exclusive d).1 hex, hacc⟩ hx
            simp [DecoAttrs.get, DecoAttrs.put, this]
        rw [hok]
        obtain ⟨ih1, ih2⟩ := ih (acc ++ [d.toStatic isIdent dumps])
        have hiff : StackOk isIdent dumps acc.isEmpty (d :: ds) ↔ StackOk isIdent dumps (acc ++ [d.toStatic (B := B) isIdent dumps]).isEmpty ds := by
          constructor
          · intro h
            refine ⟨fun e he => h.1 e (.tail _ he), ?_⟩
            intro lo t f hi he
            have := (h.2 (d :: lo) t f hi (by rw [he]; rfl)).1
            cases this
          · intro h
            refine ⟨?_, ?_⟩
            · intro e he
              rcases List.mem_cons.1 he with rfl | he
              · exact hv
              · exact h.1 e he
            · intro lo t f hi he
              cases lo with
              | nil =>
                cases he
                refine ⟨rfl, ?_⟩
                cases hacc : acc.isEmpty with
                | true => rfl
                | false => exact absurd ⟨⟨t, f, rfl⟩, hacc⟩ hx
              | cons x lo =>
                cases he
                have := (h.2 lo t f hi rfl).2
                simp at this
        refine ⟨fun h => ?_, fun h => ih2 (fun h' => h (hiff.2 h'))⟩
        dsimp only
        rw [ih1 (hiff.1 h)]
        simp
    · have herr : attachDeco () ({ decorate := acc } : DecoAttrs Unit (MNode B) Unit) (.static (d.toStatic isIdent dumps)) =
          .error "InvalidDecoratorException" := by
        unfold attachDeco
        dsimp only
        have : (d.toStatic (B := B) isIdent dumps).valid () = false := by
          cases h : (d.toStatic (B := B) isIdent dumps).valid () with
          | false => rfl
          | true => exact absurd ((toStatic_valid d).1 h) hv
        rw [this]; rfl
      rw [herr]
      exact ⟨fun h => absurd (h.1 d (.head _)) hv, fun _ => ⟨_, rfl⟩⟩

theorem runDag_meta : ∀ (ds : List (MetaDeco J)) (nodes : List (MNode B)),
    runDag () [] () (ds.map (fun d => d.toStatic isIdent dumps)) nodes = runMeta dumps ds nodes := by
  intro ds
  induction ds with
  | nil => intro nodes; rfl
  | cons d ds ih =>
    intro nodes
    rw [List.map_cons, runDag, runMeta]
    have hc : ∃ c, (d.toStatic (B := B) isIdent dumps).config () [] = .ok c := ⟨_, rfl⟩
    obtain ⟨c, hc⟩ := hc
    have ht : (d.toStatic (B := B) isIdent dumps).transformDag nodes c () = d.transformDag dumps nodes := rfl
    rw [hc]
    dsimp only
    rw [ht]
    cases d.transformDag dumps nodes with
    | error e => rfl
    | ok n => exact ih n

theorem withMetadata_ok : withMetadata isIdent dumps nodes ds = .ok out ↔
    StackOk isIdent dumps true ds ∧ runMeta dumps ds nodes = .ok out := by
  obtain ⟨h1, h2⟩ := attach_meta (B := B) (isIdent := isIdent) (dumps := dumps) ds []
  unfold withMetadata decorated
  by_cases hs : StackOk isIdent dumps true ds
  · rw [h1 hs]
    dsimp only [List.nil_append]
    unfold resolveNodes
    dsimp only [resolveDynamic]
    have hk : ∀ k, decoratorsOf ({ decorate := ds.map (fun d => d.toStatic isIdent dumps) } : DecoAttrs Unit (MNode B) Unit) [] k =
        if k = .decorate then ds.map (fun d => d.toStatic isIdent dumps) else [] := by
      intro k
      unfold decoratorsOf allDecorators
      dsimp only [List.nil_append, List.append_nil]
      rw [List.append_nil]
      by_cases hk : k = .decorate
      · rw [if_pos hk, List.filter_eq_self]
        intro d hd
        obtain ⟨e, _, rfl⟩ := List.mem_map.1 hd
        rw [hk]; rfl
      · rw [if_neg hk, List.filter_eq_nil_iff]
        intro d hd
        obtain ⟨e, _, rfl⟩ := List.mem_map.1 hd
        simp only [decide_eq_true_eq]
        exact fun h => hk h.symm
    rw [hk, if_neg (by decide), runResolve]
    dsimp only
    unfold runStages
    simp only [hk]
    simp only [runGenerate, runDag, runExpand, runDag_meta, hs, true_and, reduceCtorEq, if_false, if_true]
  · obtain ⟨e, he⟩ := h2 hs
    rw [he]
    exact ⟨fun h => (by cases h), fun h => absurd h.1 hs⟩

/-! ### The properties -/

/-- A stack of these decorators, applied to the nodes of a function, changes tags only, and the tags that a node ends up with are
those that the outermost decorator aiming at it gives, and for the other keys those it had.

The statement in full would also speak about stacks that set the tag `hamilton.non_final_node` itself, and about lists of targets
with repetitions. -/
theorem C73_tags_partial (hnd : (nodes.map (·.name)).Nodup) (htn : ∀ n ∈ nodes, n.tags.keys.Nodup) (hwf : ∀ d ∈ ds, d.WellFormed)
    (hmark : ∀ d ∈ ds, ∀ n ∈ nodes, ∀ v, ¬ SetsTag dumps nodes n d "hamilton.non_final_node" v)
    (h : withMetadata isIdent dumps nodes ds = .ok out) :
    (out.map (·.name)).Perm (nodes.map (·.name)) ∧
    ∀ n ∈ nodes, ∃ n' ∈ out, SameButTags n n' ∧
      ∀ k, k ∉ ["target_", "bypass_reserved_namespaces_"] → ∀ v, n'.tags.get? k = some v ↔ TagUnder dumps nodes n ds k v := by
  obtain ⟨f, hp, hf⟩ := (runMeta_spec ds nodes out hnd htn hwf hmark).2 (withMetadata_ok.1 h).2
  constructor
  · refine (hp.map _).trans ?_
    rw [List.map_map]
    have : nodes.map ((fun x : MNode B => x.name) ∘ f) = nodes.map (·.name) :=
      List.map_congr_left (fun n hn => (hf n hn).1.name)
    rw [this]
  · intro n hn
    exact ⟨f n, hp.mem_iff.2 (List.mem_map_of_mem hn), (hf n hn).1, (hf n hn).2.2⟩

/-- A stack of these decorators is accepted if and only if the tags of `@tag` and the options of `@ray_remote_options` are allowed,
`@schema.output` is only used at the bottom and on dataframes, and the names aimed at are names of nodes.

The statement in full would also speak about stacks that set the tag `hamilton.non_final_node` itself, about lists of targets with
repetitions, and about decorators of other kinds. -/
theorem C73_accepted_partial (hident : ∀ w, isIdent w = true → '.' ∉ w.toList) (hray : isIdent "ray_remote" = true)
    (hnd : (nodes.map (·.name)).Nodup) (htn : ∀ n ∈ nodes, n.tags.keys.Nodup) (hwf : ∀ d ∈ ds, d.WellFormed)
    (hmark : ∀ d ∈ ds, ∀ n ∈ nodes, ∀ v, ¬ SetsTag dumps nodes n d "hamilton.non_final_node" v) :
    (∃ out, withMetadata isIdent dumps nodes ds = .ok out) ↔
      (∀ d ∈ ds, d.Acceptable isIdent) ∧
      (∀ lo t f hi, ds = lo ++ .schemaOutput t f :: hi → lo = []) ∧
      (∀ d ∈ ds, ∀ t ∈ d.Names, ∃ n ∈ nodes, n.name = t) ∧
      (∀ f, .schemaOutput none f ∈ ds → ∀ n ∈ nodes, Hits nodes n .sinks → n.frame = true) ∧
      (∀ t f, .schemaOutput (some t) f ∈ ds → ∀ n ∈ nodes, n.name = t → n.frame = true) := by
  have hr := (runMeta_spec ds nodes [] hnd htn hwf hmark).1
  have hvalid : (∀ d ∈ ds, ∀ n ∈ nodes, Hits nodes n d.target → d.validNode n = true) ↔
      (∀ f, .schemaOutput none f ∈ ds → ∀ n ∈ nodes, Hits nodes n .sinks → n.frame = true) ∧
      (∀ t f, .schemaOutput (some t) f ∈ ds → ∀ n ∈ nodes, n.name = t → n.frame = true) := by
    constructor
    · intro h
      exact ⟨fun f hd n hn hh => h _ hd n hn hh, fun t f hd n hn hh => h _ hd n hn hh⟩
    · rintro ⟨h1, h2⟩ d hd n hn hh
      cases d with
      | schemaOutput t f =>
        cases t with
        | none => exact h1 f hd n hn hh
        | some t => exact h2 t f hd n hn hh
      | _ => rfl
  rw [← hvalid]
  constructor
  · rintro ⟨out, h⟩
    obtain ⟨⟨h1, h2⟩, h3⟩ := withMetadata_ok.1 h
    have h4 := hr.1 ⟨out, h3⟩
    exact ⟨fun d hd => (meta_validate hident hray d).1 (h1 d hd), fun lo t f hi he => (h2 lo t f hi he).1,
      fun d hd => (h4 d hd).1, fun d hd => (h4 d hd).2⟩
  · rintro ⟨h1, h2, h3, h4⟩
    obtain ⟨out, ho⟩ := hr.2 (fun d hd => ⟨h3 d hd, h4 d hd⟩)
    exact ⟨out, withMetadata_ok.2 ⟨⟨fun d hd => (meta_validate hident hray d).2 (h1 d hd),
      fun lo t f hi he => ⟨h2 lo t f hi he, rfl⟩⟩, ho⟩⟩

/-! ### Options for Ray -/

/-- The option that a stack of decorators gives to a node. -/
def RayUnder (nodes : List (MNode B)) (n : MNode B) (ds : List (MetaDeco J)) (k : String) (j : J) : Prop :=
  ∃ lo options hi, ds = lo ++ .rayRemote options :: hi ∧ Hits nodes n .sinks ∧ (k, j) ∈ options ∧
    ∀ options', .rayRemote options' ∈ hi → ∀ j', (k, j') ∉ options'

theorem ray_prefix {k : String} (h : "ray_remote.".toList.isPrefixOf k.toList = true) :
    "ray_remote." ++ String.ofList (k.toList.drop 11) = k := by
  obtain ⟨t, ht⟩ := List.isPrefixOf_iff_prefix.1 h
  apply String.toList_inj.1
  have : k.toList.drop 11 = t := by rw [← ht]; rfl
  rw [String.toList_append, this, String.toList_ofList (l := t), ht]

theorem ray_head (k : String) {s : String} (h : "ray_remote." ++ k = s) : s.toList.head? = some 'r' := by
  subst h
  rw [String.toList_append]; rfl

theorem ray_prefix_append (k : String) : "ray_remote.".toList.isPrefixOf ("ray_remote." ++ k).toList = true := by
  rw [String.toList_append]
  exact List.isPrefixOf_iff_prefix.2 ⟨_, rfl⟩

theorem rayOptions_spec (loads : String → Option J) : ∀ (tags : Dict String PyTag), tags.keys.Nodup →
    (∀ k v, ("ray_remote." ++ k, v) ∈ tags → ∃ s j, v = .str s ∧ loads s = some j) →
    ∃ o, rayOptions loads tags = .ok o ∧
      ∀ k j, o.get? k = some j ↔ ∃ s, tags.get? ("ray_remote." ++ k) = some (.str s) ∧ loads s = some j := by
  intro tags
  induction tags with
  | nil => intro _ _; exact ⟨[], rfl, fun k j => by simp [Dict.get?]⟩
  | cons p rest ih =>
    obtain ⟨k, v⟩ := p
    intro hnd hall
    obtain ⟨o, ho, hspec⟩ := ih (List.nodup_cons.1 hnd).2 (fun k' v' hm => hall k' v' (.tail _ hm))
    by_cases hk : "ray_remote.".toList.isPrefixOf k.toList = true
    · have hk' := ray_prefix hk
      obtain ⟨s, j, rfl, hj⟩ := hall (String.ofList (k.toList.drop 11)) v (by rw [hk']; exact .head _)
      refine ⟨(String.ofList (k.toList.drop 11), j) :: o, ?_, ?_⟩
      · rw [rayOptions, if_pos hk]
        rw [hj]
        dsimp only
        rw [ho]
      · intro k' j'
        rw [Dict.get?_cons, Dict.get?_cons]
        by_cases he : String.ofList (k.toList.drop 11) = k'
        · have he' : k = "ray_remote." ++ k' := by rw [← he, hk']
          rw [if_pos he, if_pos he']
          constructor
          · intro h; cases h; exact ⟨s, rfl, hj⟩
          · rintro ⟨s', h1, h2⟩
            cases h1
            rw [hj] at h2
            exact h2
        · have he' : ¬ k = "ray_remote." ++ k' := by
            intro h
            rw [← hk'] at h
            exact he (ray_key_inj h)
          rw [if_neg he, if_neg he']
          exact hspec k' j'
    · refine ⟨o, ?_, ?_⟩
      · rw [rayOptions.eq_def]
        dsimp only
        rw [if_neg hk]
        exact ho
      · intro k' j'
        have he' : ¬ k = "ray_remote." ++ k' := by
          intro h
          exact hk (h ▸ ray_prefix_append k')
        rw [Dict.get?_cons, if_neg he']
        exact hspec k' j'

/-- Only `@ray_remote_options` sets such keys. -/
theorem sets_ray {n : MNode B} {d : MetaDeco J} (hident : ∀ w, isIdent w = true → '.' ∉ w.toList)
    (hacc : d.Acceptable isIdent) (hb : ∀ t b tags, d = .tag t b tags → b = false)
    (hout : ∀ m, d = .tagOutputs m → ∀ x tags, (x, tags) ∈ m → ∀ k v, ("ray_remote." ++ k, v) ∉ tags) (k : String) (v : PyTag) :
    SetsTag dumps nodes n d ("ray_remote." ++ k) v ↔
      ∃ options j, d = .rayRemote options ∧ Hits nodes n .sinks ∧ (k, j) ∈ options ∧ v = .str (dumps j) := by
  constructor
  · intro h
    generalize hk : "ray_remote." ++ k = key at h
    cases h with
    | @tag t b tags _ _ h1 h2 =>
      cases hb _ _ _ rfl
      have h3 := (hacc _ h2).1
      subst hk
      have h4 := (keyAllowed_split (ray_key_split k)).1 ((keyAllowed_iff hident _ _).2 h3)
      exact absurd (by decide) (h4.2 rfl)
    | @outputs m tags _ _ h1 h2 =>
      subst hk
      exact absurd h2 (hout m rfl _ _ h1 _ _)
    | schema => exact absurd (ray_head k hk) (by decide)
    | schemaOf => exact absurd (ray_head k hk) (by decide)
    | @ray options o j h1 h2 => exact ⟨options, j, rfl, h1, ray_key_inj hk ▸ h2, rfl⟩
    | behavior => exact absurd (ray_head k hk) (by decide)
    | format => exact absurd (ray_head k hk) (by decide)
  · rintro ⟨options, j, rfl, h1, h2, rfl⟩
    exact .ray h1 h2

/-- The Ray adapters read from the tags of a node exactly the options that `@ray_remote_options` gave, provided that the JSON texts
are read back as they were written, that no `@tag` bypasses the reserved namespaces and that no `@tag_outputs` gives such tags. -/
theorem C73_ray_partial {loads : String → Option J} (hjson : ∀ j, loads (dumps j) = some j)
    (hident : ∀ w, isIdent w = true → '.' ∉ w.toList) (hray : isIdent "ray_remote" = true)
    (hnd : (nodes.map (·.name)).Nodup) (htn : ∀ n ∈ nodes, n.tags.keys.Nodup) (hwf : ∀ d ∈ ds, d.WellFormed)
    (hmark : ∀ d ∈ ds, ∀ n ∈ nodes, ∀ v, ¬ SetsTag dumps nodes n d "hamilton.non_final_node" v)
    (hb : ∀ t b tags, .tag t b tags ∈ ds → b = false)
    (hout : ∀ m, .tagOutputs m ∈ ds → ∀ x tags, (x, tags) ∈ m → ∀ k v, ("ray_remote." ++ k, v) ∉ tags)
    (hbefore : ∀ n ∈ nodes, ∀ k v, ("ray_remote." ++ k, v) ∉ n.tags)
    (h : withMetadata isIdent dumps nodes ds = .ok out) :
    ∀ n ∈ nodes, ∃ n' ∈ out, n'.name = n.name ∧ ∃ o, rayOptions loads n'.tags = .ok o ∧
      ∀ k j, o.get? k = some j ↔ RayUnder nodes n ds k j := by
  obtain ⟨⟨hval, _⟩, hrun⟩ := withMetadata_ok.1 h
  obtain ⟨f, hp, hf⟩ := (runMeta_spec ds nodes out hnd htn hwf hmark).2 hrun
  intro n hn
  obtain ⟨hs, hn2, ht⟩ := hf n hn
  have hset : ∀ d ∈ ds, ∀ k v, SetsTag dumps nodes n d ("ray_remote." ++ k) v ↔
      ∃ options j, d = .rayRemote options ∧ Hits nodes n .sinks ∧ (k, j) ∈ options ∧ v = .str (dumps j) := fun d hd k v =>
    sets_ray hident ((meta_validate hident hray d).1 (hval d hd)) (fun t b tags e => hb t b tags (e ▸ hd))
      (fun m e => hout m (e ▸ hd)) k v
  have hkey : ∀ k, "ray_remote." ++ k ∉ ["target_", "bypass_reserved_namespaces_"] := by
    intro k hm
    have := ray_head k rfl
    simp only [List.mem_cons, List.not_mem_nil, or_false] at hm
    rcases hm with hm | hm <;> rw [hm] at this <;> revert this <;> decide
  have hunder : ∀ k v, (f n).tags.get? ("ray_remote." ++ k) = some v ↔ ∃ j, RayUnder nodes n ds k j ∧ v = .str (dumps j) := by
    intro k v
    rw [ht _ (hkey k) v]
    constructor
    · rintro (⟨lo, d, hi, rfl, hsd, hno⟩ | ⟨_, hold⟩)
      · obtain ⟨options, j, rfl, h1, h2, rfl⟩ := (hset d (by simp) k v).1 hsd
        refine ⟨j, ⟨lo, options, hi, rfl, h1, h2, ?_⟩, rfl⟩
        intro options' ho' j' hj'
        exact hno _ ho' (.str (dumps j')) (.ray h1 hj')
      · exact absurd (Dict.get?_mem hold) (hbefore n hn k v)
    · rintro ⟨j, ⟨lo, options, hi, rfl, h1, h2, h3⟩, rfl⟩
      refine .inl ⟨lo, _, hi, rfl, .ray h1 h2, ?_⟩
      intro e he w hw
      obtain ⟨options', j', rfl, _, h5, _⟩ := (hset e (by simp [he]) k w).1 hw
      exact h3 options' he j' h5
  obtain ⟨o, ho, hspec⟩ := rayOptions_spec loads (f n).tags hn2 (by
    intro k v hm
    obtain ⟨j, _, rfl⟩ := (hunder k v).1 (Dict.get?_of_mem hn2 hm)
    exact ⟨_, j, rfl, hjson j⟩)
  refine ⟨f n, hp.mem_iff.2 (List.mem_map_of_mem hn), hs.name, o, ho, ?_⟩
  intro k j
  rw [hspec k j]
  constructor
  · rintro ⟨s, h1, h2⟩
    obtain ⟨j', hu, he⟩ := (hunder k _).1 h1
    cases he
    rw [hjson] at h2
    cases h2
    exact hu
  · intro hu
    exact ⟨dumps j, (hunder k _).2 ⟨j, hu, rfl⟩, hjson j⟩

/-! ### Cases -/

namespace MetaSample

/-- `str.isidentifier`, for texts in ASCII. -/
def ident (w : String) : Bool :=
  !w.toList.isEmpty && w.toList.all (fun c => c.isAlphanum || c == '_') && !(w.toList.head?.map Char.isDigit).getD false

theorem ident_dots (w : String) (h : ident w = true) : '.' ∉ w.toList := by
  intro hm
  unfold ident at h
  rw [Bool.and_eq_true, Bool.and_eq_true, List.all_eq_true] at h
  exact absurd (h.1.2 _ hm) (by decide)

/-- The nodes of a function `f` decorated by `@extract_columns("a", "b")`: `a` and `b` depend on `f`, a dataframe. -/
def fabNodes : List (MNode Nat) :=
  [⟨"f", [], true, [("module", .str "m")], 0⟩, ⟨"a", ["f"], false, [("module", .str "m")], 1⟩,
   ⟨"b", ["f"], false, [("module", .str "m")], 2⟩]

/-- Options are numbers, written as digits. -/
def ones (n : Nat) : String := String.ofList (List.replicate n '1')
def loads (s : String) : Option Nat := some s.length

/-- `@schema.output(("a", "int"), target_="f")`, then `@tag(owner="me", level=["x", "y"])`, then `@tag(target_="f", owner="you")`,
then `@cache(behavior="recompute", target_=...)`, then `@ray_remote_options(num_cpus=2)`, upwards. -/
def stack : List (MetaDeco Nat) :=
  [.schemaOutput (some "f") [("a", "int")], .tag .sinks false [("owner", .str "me"), ("team.level", .strs ["x", "y"])],
   .tag (.name "f") false [("owner", .str "you")], .cache .all (some "recompute") none, .rayRemote [("num_cpus", 2)]]

theorem stack_wf : ∀ d ∈ stack, d.WellFormed := by
  intro d hd
  simp only [stack, List.mem_cons, List.not_mem_nil, or_false] at hd
  rcases hd with rfl | rfl | rfl | rfl | rfl
  · trivial
  · exact ⟨List.nodup_nil, by decide⟩
  · exact ⟨by decide, by decide⟩
  · exact List.nodup_nil
  · show List.Nodup _; decide

theorem stack_mark : ∀ d ∈ stack, ∀ n ∈ fabNodes, ∀ v, ¬ SetsTag ones fabNodes n d "hamilton.non_final_node" v := by
  intro d hd n _ v h
  simp only [stack, List.mem_cons, List.not_mem_nil, or_false] at hd
  generalize hk : "hamilton.non_final_node" = k at h
  rcases hd with rfl | rfl | rfl | rfl | rfl
  · cases h; exact absurd hk (by decide)
  · cases h with | tag h1 h2 =>
      subst hk
      simp at h2
  · cases h with | tag h1 h2 =>
      subst hk
      simp at h2
  · cases h; exact absurd hk (by decide)
  · cases h with | ray h1 h2 => exact absurd (ray_head _ hk.symm) (by decide)

/-- What the stack gives, evaluated. -/
example : (withMetadata ident ones fabNodes stack).toOption.map (fun l => l.map (fun n => (n.name, n.tags))) = some
    [("f", [("module", .str "m"), ("hamilton.internal.schema_output", .str "a=int"), ("owner", .str "you"), ("cache.behavior", .str "recompute")]),
     ("a", [("module", .str "m"), ("owner", .str "me"), ("team.level", .strs ["x", "y"]), ("cache.behavior", .str "recompute"), ("ray_remote.num_cpus", .str "11")]),
     ("b", [("module", .str "m"), ("owner", .str "me"), ("team.level", .strs ["x", "y"]), ("cache.behavior", .str "recompute"), ("ray_remote.num_cpus", .str "11")])] := by
  decide +kernel

theorem stack_ok : ∃ out, withMetadata ident ones fabNodes stack = .ok out := by
  cases h : withMetadata ident ones fabNodes stack with
  | ok out => exact ⟨out, rfl⟩
  | error e =>
    have : (withMetadata ident ones fabNodes stack).isOk = true := by decide +kernel
    rw [h] at this; cases this

/-- `C73_tags_partial` applies: the owner of the node `f` is `you`. -/
example : ∃ out, withMetadata ident ones fabNodes stack = .ok out ∧
    ∃ n' ∈ out, n'.name = "f" ∧ n'.tags.get? "owner" = some (.str "you") := by
  obtain ⟨out, h⟩ := stack_ok
  obtain ⟨n', hn', hs, ht⟩ := (C73_tags_partial (by decide) (by decide) stack_wf stack_mark h).2 fabNodes[0] (List.getElem_mem _)
  refine ⟨out, h, n', hn', hs.name, (ht "owner" (by decide) _).2 (.inl ⟨stack.take 2, stack[2], stack.drop 3, rfl, .tag rfl (.head _), ?_⟩)⟩
  intro e he w hw
  have : e = stack[3] ∨ e = stack[4] := (List.mem_cons.1 he).imp id List.mem_singleton.1
  generalize hk : "owner" = k at hw
  rcases this with rfl | rfl
  · cases hw; exact absurd hk (by decide)
  · cases hw with | ray h1 h2 => exact absurd (ray_head _ hk.symm) (by decide)

/-- `C73_accepted_partial` applies; its right-hand side holds for this stack. -/
example : (∀ d ∈ stack, d.Acceptable ident) ∧ (∀ lo t f hi, stack = lo ++ .schemaOutput t f :: hi → lo = []) := by
  have := (C73_accepted_partial ident_dots (by decide) (by decide) (by decide) stack_wf stack_mark).1 stack_ok
  exact ⟨this.1, this.2.1⟩

/-- `C73_ray_partial` applies: `a` is run with two CPUs. -/
example : ∃ out, withMetadata ident ones fabNodes stack = .ok out ∧
    ∃ n' ∈ out, n'.name = "a" ∧ ∃ o, rayOptions loads n'.tags = .ok o ∧ o.get? "num_cpus" = some 2 := by
  obtain ⟨out, h⟩ := stack_ok
  have hsub : ∀ d ∈ stack, d = stack[0] ∨ d = stack[1] ∨ d = stack[2] ∨ d = stack[3] ∨ d = stack[4] := by
    intro d hd
    simp only [stack, List.mem_cons, List.not_mem_nil, or_false] at hd
    exact hd
  obtain ⟨n', hn', hname, o, ho, hspec⟩ := C73_ray_partial (loads := loads) (fun j => by simp [loads, ones]) ident_dots (by decide)
    (by decide) (by decide) stack_wf stack_mark
    (by
      intro t b tags hd
      rcases hsub _ hd with e | e | e | e | e <;> cases e <;> rfl)
    (by
      intro m hd
      rcases hsub _ hd with e | e | e | e | e <;> cases e)
    (by
      intro n hn k v hm
      have : n.tags = [("module", .str "m")] := by
        simp only [fabNodes, List.mem_cons, List.not_mem_nil, or_false] at hn
        rcases hn with rfl | rfl | rfl <;> rfl
      rw [this] at hm
      have hk : "ray_remote." ++ k = "module" := (Prod.mk.inj (List.mem_singleton.1 hm)).1
      exact absurd (ray_head k hk) (by decide))
    h fabNodes[1] (List.getElem_mem _)
  refine ⟨out, h, n', hn', hname, o, ho, (hspec _ _).2 ⟨stack.take 4, _, [], rfl, ⟨by decide, ?_⟩, .head _, fun _ h => (by cases h)⟩⟩
  rintro ⟨v, hv, _⟩
  cases hv

/-- **Violation (order).**  Whether `@schema.output` is accepted depends on where it is written: above a `@tag` it is refused, below
it is accepted. -/
theorem C73_violated_order :
    withMetadata ident ones (fabNodes.take 1) [.tag .sinks false [("owner", .str "me")], .schemaOutput none [("a", "int")]] =
      .error "ValueError" ∧
    (withMetadata ident ones (fabNodes.take 1) [.schemaOutput none [("a", "int")], .tag .sinks false [("owner", .str "me")]]).isOk = true :=
  ⟨by rfl, by decide +kernel⟩

/-- **Violation (`@tag_outputs`).**  Tags that `@tag` refuses (reserved, no identifier, no string) are accepted by `@tag_outputs`. -/
theorem C73_violated_outputs : ∀ p ∈ [("hamilton.x", PyTag.str "1"), ("a b", .str "1"), ("owner", .other true true)],
    withMetadata ident ones fabNodes [.tag .all false [p]] = .error "InvalidDecoratorException" ∧
    (withMetadata ident ones fabNodes [.tagOutputs [("a", [p])]]).toOption.map (fun l => l.map (fun n => (n.name, n.tags.get? p.1))) =
      some [("f", none), ("a", some p.2), ("b", none)] := by
  intro p hp
  simp only [List.mem_cons, List.not_mem_nil, or_false] at hp
  rcases hp with rfl | rfl | rfl
  · exact ⟨by rfl, by decide +kernel⟩
  · exact ⟨by rfl, by decide +kernel⟩
  · exact ⟨by rfl, by decide +kernel⟩

/-- **Violation (Ray).**  On a function whose nodes depend on each other, `@ray_remote_options` gives its options to the final nodes
only: the node that calls the function runs without them. -/
theorem C73_violated_ray :
    (withMetadata ident ones fabNodes [.rayRemote [("num_cpus", 2)]]).toOption.map
      (fun l => l.map (fun n => (n.name, ((rayOptions loads n.tags).toOption.map (fun o => o.get? "num_cpus"))))) =
    some [("f", some none), ("a", some (some 2)), ("b", some (some 2))] := by decide +kernel

end MetaSample
end Verif
