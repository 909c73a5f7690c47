import Verif.Model.Schema

/-!
C74: schemas of dataframes, their differences, and `SchemaValidator`.
-/
namespace Verif

/-! ### Specification -/

/-- Two fields are the same: name, type, nullability and, if they count, metadata. -/
structure SameField (metadata : Bool) (c r : SField) : Prop where
  name : c.name = r.name
  typ : c.typ = r.typ
  nullable : c.nullable = r.nullable
  metadata : metadata = true → ∀ k, c.metadata.get? k = r.metadata.get? k

/-- Two schemas are the same: the same fields in the same order and, if they count, the same metadata. -/
structure SameSchema (metadata : Bool) (c r : PaSchema) : Prop where
  length : c.fields.length = r.fields.length
  field : ∀ i (hc : i < c.fields.length) (hr : i < r.fields.length), SameField metadata c.fields[i] r.fields[i]
  metadata : metadata = true → ∀ k, c.metadata.get? k = r.metadata.get? k

/-- Metadata are dictionaries. -/
structure PaSchema.Proper (s : PaSchema) : Prop where
  metadata : s.metadata.keys.Nodup
  field : ∀ f ∈ s.fields, f.metadata.keys.Nodup

/-- What is to be said about a key of two dictionaries of texts. -/
def keyReport {X : Type} (w : String → X) : Option String → Option String → Option (DiffOf X)
  | some a, none => some (.added (w a))
  | none, some b => some (.removed (w b))
  | some a, some b => some (if a = b then .equal (w a) else .unequal (w a) (w b))
  | none, none => none

/-- What is to be said about a field that both schemas have: every attribute, and which of them differ; metadata key by key if they
are to be checked. -/
structure FieldReport (metadata : Bool) (f g : SField) (a : Dict String AttrDiff) : Prop where
  once : a.keys.Nodup
  name : a.get? "name" = some (.plain (.equal (.str f.name)))
  typ : a.get? "type" = some (.plain (if f.typ = g.typ then .equal (.str f.typ) else .unequal (.str f.typ) (.str g.typ)))
  nullable : a.get? "nullable" =
    some (.plain (if f.nullable = g.nullable then .equal (.bool f.nullable) else .unequal (.bool f.nullable) (.bool g.nullable)))
  sameMetadata : (∀ k, f.metadata.get? k = g.metadata.get? k) → a.get? "metadata" = some (.plain (.equal (.obj f.metadata)))
  otherMetadata : metadata = false → (¬ ∀ k, f.metadata.get? k = g.metadata.get? k) →
    a.get? "metadata" = some (.plain (.unequal (.obj f.metadata) (.obj g.metadata)))
  byKey : metadata = true → (¬ ∀ k, f.metadata.get? k = g.metadata.get? k) →
    ∃ m, a.get? "metadata" = some (.byKey m) ∧ ∀ k, m.get? k = keyReport id (f.metadata.get? k) (g.metadata.get? k)
  only : ∀ k, k ≠ "name" → k ≠ "type" → k ≠ "nullable" → k ≠ "metadata" → a.get? k = none

/-- What is to be said about a name. -/
structure NameReport (metadata : Bool) (c r : PaSchema) (k : String) (e : Option FieldDiff) : Prop where
  absent : k ∉ c.fields.map (·.name) → k ∉ r.fields.map (·.name) → e = none
  added : ∀ f ∈ c.fields, f.name = k → k ∉ r.fields.map (·.name) → e = some (.added
    [("name", .str f.name), ("type", .str f.typ), ("nullable", .bool f.nullable), ("metadata", .obj f.metadata)])
  removed : ∀ g ∈ r.fields, g.name = k → k ∉ c.fields.map (·.name) → e = some (.removed
    [("name", .str g.name), ("type", .str g.typ), ("nullable", .bool g.nullable), ("metadata", .obj g.metadata)])
  equal : ∀ f ∈ c.fields, ∀ g ∈ r.fields, f.name = k → g.name = k → SameField true f g → e = some (.equal
    [("name", .str f.name), ("type", .str f.typ), ("nullable", .bool f.nullable), ("metadata", .obj f.metadata)])
  unequal : ∀ f ∈ c.fields, ∀ g ∈ r.fields, f.name = k → g.name = k → ¬ SameField true f g →
    ∃ a, e = some (.unequal a) ∧ FieldReport metadata f g a

/-- A name whose field has been added, removed or changed in any way. -/
inductive Changed (c r : PaSchema) (k : String) : Prop where
  | added : k ∈ c.fields.map (·.name) → k ∉ r.fields.map (·.name) → Changed c r k
  | removed : k ∉ c.fields.map (·.name) → k ∈ r.fields.map (·.name) → Changed c r k
  | changed (f g : SField) : f ∈ c.fields → g ∈ r.fields → f.name = k → g.name = k → ¬ SameField true f g → Changed c r k

/-- What a person is told about a changed attribute. -/
inductive ReadAttr (f g : SField) : String → Readable → Prop where
  | typ : f.typ ≠ g.typ → ReadAttr f g "type" (.values (.str f.typ) (.str g.typ))
  | nullable : f.nullable ≠ g.nullable → ReadAttr f g "nullable" (.values (.bool f.nullable) (.bool g.nullable))
  | metadata : (¬ ∀ k, f.metadata.get? k = g.metadata.get? k) →
    ReadAttr f g "metadata" (.values (.obj f.metadata) (.obj g.metadata))

/-- What a person is told about a name. -/
inductive ReadName (c r : PaSchema) (k : String) : Readable → Prop where
  | added : k ∈ c.fields.map (·.name) → k ∉ r.fields.map (·.name) → ReadName c r k (.sign "+")
  | removed : k ∉ c.fields.map (·.name) → k ∈ r.fields.map (·.name) → ReadName c r k (.sign "-")
  | changed (f g : SField) (a : List (String × Readable)) : f ∈ c.fields → g ∈ r.fields → f.name = k → g.name = k →
    ¬ SameField true f g → (∀ x e, (x, e) ∈ a ↔ ReadAttr f g x e) → ReadName c r k (.attrs a)

/-- Where an attribute differs, Python takes its current value for true. -/
structure Tellable (c r : PaSchema) : Prop where
  typ : ∀ f ∈ c.fields, ∀ g ∈ r.fields, f.name = g.name → f.typ = g.typ ∨ f.typ ≠ ""
  nullable : ∀ f ∈ c.fields, ∀ g ∈ r.fields, f.name = g.name → f.nullable = g.nullable ∨ f.nullable = true
  metadata : ∀ f ∈ c.fields, ∀ g ∈ r.fields, f.name = g.name → (∀ k, f.metadata.get? k = g.metadata.get? k) ∨ f.metadata ≠ []

/-! ### Equality -/

theorem sameDict_iff {c r : Dict String String} (hc : c.keys.Nodup) (hr : r.keys.Nodup) :
    sameDict c r = true ↔ ∀ k, c.get? k = r.get? k := by
  unfold sameDict
  rw [Bool.and_eq_true, List.all_eq_true, List.all_eq_true]
  constructor
  · rintro ⟨h1, h2⟩ k
    cases hk : c.get? k with
    | some v =>
      have := h1 (k, v) (Dict.get?_mem hk)
      exact (by simpa using this : r.get? k = some v).symm
    | none =>
      cases hk' : r.get? k with
      | none => rfl
      | some v =>
        have := h2 (k, v) (Dict.get?_mem hk')
        rw [show c.get? k = some v by simpa using this] at hk
        cases hk
  · intro h
    refine ⟨fun p hp => ?_, fun p hp => ?_⟩
    · have := Dict.get?_of_mem hc (k := p.1) (v := p.2) hp
      rw [h] at this
      simpa using this
    · have := Dict.get?_of_mem hr (k := p.1) (v := p.2) hp
      rw [← h] at this
      simpa using this

theorem field_equals_iff {m : Bool} {c r : SField} (hc : c.metadata.keys.Nodup) (hr : r.metadata.keys.Nodup) :
    c.equals m r = true ↔ SameField m c r := by
  unfold SField.equals
  simp only [Bool.and_eq_true, beq_iff_eq, Bool.or_eq_true, Bool.not_eq_true']
  constructor
  · rintro ⟨⟨⟨h1, h2⟩, h3⟩, h4⟩
    refine ⟨h1, h2, h3, fun hm => ?_⟩
    rcases h4 with h4 | h4
    · rw [hm] at h4; cases h4
    · exact (sameDict_iff hc hr).1 h4
  · intro h
    refine ⟨⟨⟨h.name, h.typ⟩, h.nullable⟩, ?_⟩
    cases m with
    | false => exact .inl rfl
    | true => exact .inr ((sameDict_iff hc hr).2 (h.metadata rfl))

theorem fieldsEqual_iff {m : Bool} : ∀ (c r : List SField), (∀ f ∈ c, f.metadata.keys.Nodup) → (∀ f ∈ r, f.metadata.keys.Nodup) →
    (fieldsEqual m c r = true ↔ c.length = r.length ∧
      ∀ i (hc : i < c.length) (hr : i < r.length), SameField m c[i] r[i]) := by
  intro c
  induction c with
  | nil =>
    intro r _ _
    cases r with
    | nil => exact ⟨fun _ => ⟨rfl, fun i hc => absurd hc (Nat.not_lt_zero i)⟩, fun _ => rfl⟩
    | cons x r => exact ⟨fun h => (by cases h), fun h => (by cases h.1)⟩
  | cons y c ih =>
    intro r hc hr
    cases r with
    | nil => exact ⟨fun h => (by cases h), fun h => (by cases h.1)⟩
    | cons x r =>
      rw [fieldsEqual, Bool.and_eq_true, field_equals_iff (hc y (.head _)) (hr x (.head _)),
        ih r (fun f hf => hc f (.tail _ hf)) (fun f hf => hr f (.tail _ hf))]
      constructor
      · rintro ⟨h1, h2, h3⟩
        refine ⟨by simp [h2], ?_⟩
        intro i hi hi'
        cases i with
        | zero => exact h1
        | succ i => exact h3 i (by simpa using hi) (by simpa using hi')
      · rintro ⟨h1, h2⟩
        refine ⟨h2 0 (by simp) (by simp), by simpa using h1, ?_⟩
        intro i hi hi'
        exact h2 (i + 1) (by simpa using hi) (by simpa using hi')

theorem equals_iff {m : Bool} {c r : PaSchema} (hc : c.Proper) (hr : r.Proper) : c.equals m r = true ↔ SameSchema m c r := by
  unfold PaSchema.equals
  rw [Bool.and_eq_true, fieldsEqual_iff _ _ hc.field hr.field, Bool.or_eq_true, Bool.not_eq_true']
  constructor
  · rintro ⟨⟨h1, h2⟩, h3⟩
    refine ⟨h1, h2, fun hm => ?_⟩
    rcases h3 with h3 | h3
    · rw [hm] at h3; cases h3
    · exact (sameDict_iff hc.metadata hr.metadata).1 h3
  · intro h
    refine ⟨⟨h.length, h.field⟩, ?_⟩
    cases m with
    | false => exact .inl rfl
    | true => exact .inr ((sameDict_iff hc.metadata hr.metadata).2 (h.metadata rfl))

/-! ### Differences of mappings -/

theorem get?_filterMap_key {W X : Type} (g : String → W → Option X) : ∀ (l : Dict String W), l.keys.Nodup → ∀ k,
    Dict.get? (l.filterMap (fun p => (g p.1 p.2).map (fun x => (p.1, x)))) k = (l.get? k).bind (g k) := by
  intro l
  induction l with
  | nil => intro _ k; rfl
  | cons p l ih =>
    obtain ⟨a, w⟩ := p
    intro hnd k
    rw [Dict.keys_cons, List.nodup_cons] at hnd
    rw [Dict.get?_cons]
    by_cases hk : a = k
    · subst hk
      rw [if_pos rfl]
      cases hg : g a w with
      | none =>
        rw [List.filterMap_cons_none (by simp [hg]), ih hnd.2, (Dict.get?_eq_none_iff l a).2 hnd.1]
        simp [hg]
      | some x =>
        rw [List.filterMap_cons_some (b := (a, x)) (by simp [hg]), Dict.get?_cons, if_pos rfl]
        simp [hg]
    · rw [if_neg hk]
      cases hg : g a w with
      | none => rw [List.filterMap_cons_none (by simp [hg]), ih hnd.2]
      | some x => rw [List.filterMap_cons_some (b := (a, x)) (by simp [hg]), Dict.get?_cons, if_neg hk, ih hnd.2]

/-- What `_diff_mappings` says about a key. -/
def diffAt {W : Type} (eq : W → W → Bool) : Option W → Option W → Option (DiffOf W)
  | some a, none => some (.added a)
  | none, some b => some (.removed b)
  | some a, some b => some (if eq a b then .equal a else .unequal a b)
  | none, none => none

theorem diffMappings_get {W : Type} (eq : W → W → Bool) {c r : Dict String W} (hc : c.keys.Nodup) (hr : r.keys.Nodup) (k : String) :
    (diffMappings eq c r).get? k = diffAt eq (c.get? k) (r.get? k) := by
  have e1 : (c.filter (fun p => !r.has p.1)).map (fun p => (p.1, DiffOf.added p.2)) =
      c.filterMap (fun p => ((if r.has p.1 then none else some (DiffOf.added p.2)).map (fun x => (p.1, x)))) := by
    clear hc hr
    induction c with
    | nil => rfl
    | cons p c ih => cases h : r.has p.1 <;> simp [h, ih]
  have e2 : (r.filter (fun p => !c.has p.1)).map (fun p => (p.1, DiffOf.removed p.2)) =
      r.filterMap (fun p => ((if c.has p.1 then none else some (DiffOf.removed p.2)).map (fun x => (p.1, x)))) := by
    clear hc hr e1
    induction r with
    | nil => rfl
    | cons p r ih => cases h : c.has p.1 <;> simp [h, ih]
  have e3 : c.filterMap (fun p => (r.get? p.1).map (fun r => (p.1, if eq p.2 r then DiffOf.equal p.2 else .unequal p.2 r))) =
      c.filterMap (fun p => (((r.get? p.1).map (fun r => if eq p.2 r then DiffOf.equal p.2 else .unequal p.2 r)).map (fun x => (p.1, x)))) := by
    congr 1
    funext p
    cases r.get? p.1 <;> rfl
  unfold diffMappings
  rw [Dict.get?_append, Dict.get?_append, e1, e2, e3,
    get?_filterMap_key (fun k w => if r.has k then none else some (DiffOf.added w)) c hc,
    get?_filterMap_key (fun k w => if c.has k then none else some (DiffOf.removed w)) r hr,
    get?_filterMap_key (fun k w => (r.get? k).map (fun r => if eq w r then DiffOf.equal w else .unequal w r)) c hc]
  cases h1 : c.get? k with
  | none =>
    cases h2 : r.get? k with
    | none => simp [diffAt]
    | some b => simp [diffAt, (Dict.has_eq_false_iff c k).2 h1]
  | some a =>
    cases h2 : r.get? k with
    | none => simp [diffAt, (Dict.has_eq_false_iff r k).2 h2]
    | some b => simp [diffAt, (Dict.has_eq_true_iff r k).2 ⟨b, h2⟩, (Dict.has_eq_true_iff c k).2 ⟨a, h1⟩]

theorem diffMappings_keys_nodup {W : Type} (eq : W → W → Bool) {c r : Dict String W} (hc : c.keys.Nodup) (hr : r.keys.Nodup) :
    (diffMappings eq c r).keys.Nodup := by
  unfold diffMappings Dict.keys
  rw [List.map_append, List.map_append, List.map_map, List.map_map, List.map_filterMap]
  have e3 : c.filterMap (fun p => Option.map (fun x : String × DiffOf W => x.1)
      ((r.get? p.1).map (fun r => (p.1, if eq p.2 r then DiffOf.equal p.2 else .unequal p.2 r)))) =
      (c.filter (fun p => r.has p.1)).map (·.1) := by
    clear hc hr
    induction c with
    | nil => rfl
    | cons p c ih =>
      cases h : r.get? p.1 with
      | none => rw [List.filterMap_cons_none (by simp [h]), ih, List.filter_cons_of_neg (by simp [(Dict.has_eq_false_iff r p.1).2 h])]
      | some b =>
        rw [List.filterMap_cons_some (b := p.1) (by simp [h]), ih,
          List.filter_cons_of_pos (p := fun p : String × W => r.has p.1) ((Dict.has_eq_true_iff r p.1).2 ⟨b, h⟩)]
        rfl
  rw [e3]
  have hc' : (c.map (·.1)).Nodup := hc
  have hr' : (r.map (·.1)).Nodup := hr
  refine List.nodup_append.2 ⟨List.nodup_append.2 ⟨?_, ?_, ?_⟩, ?_, ?_⟩
  · exact hc'.sublist (List.filter_sublist.map _)
  · exact hr'.sublist (List.filter_sublist.map _)
  · intro a ha b hb hab
    subst hab
    obtain ⟨p, hp, rfl⟩ := List.mem_map.1 ha
    obtain ⟨q, hq, he⟩ := List.mem_map.1 hb
    have h1 : r.has p.1 = false := by simpa using (List.mem_filter.1 hp).2
    have h2 : q.1 ∈ r.keys := List.mem_map_of_mem (List.mem_filter.1 hq).1
    have he : q.1 = p.1 := he
    rw [he, ← Dict.has_iff, h1] at h2
    cases h2
  · exact hc'.sublist (List.filter_sublist.map _)
  · intro a ha b hb hab
    subst hab
    obtain ⟨q, hq, rfl⟩ := List.mem_map.1 hb
    have h1 : r.has q.1 = true := (List.mem_filter.1 hq).2
    have h2 : c.has q.1 = true := (Dict.has_iff c q.1).2 (List.mem_map_of_mem (List.mem_filter.1 hq).1)
    rcases List.mem_append.1 ha with ha | ha
    · obtain ⟨p, hp, he⟩ := List.mem_map.1 ha
      have h3 : r.has p.1 = false := by simpa using (List.mem_filter.1 hp).2
      have he : p.1 = q.1 := he
      rw [he, h1] at h3; cases h3
    · obtain ⟨p, hp, he⟩ := List.mem_map.1 ha
      have h3 : c.has p.1 = false := by simpa using (List.mem_filter.1 hp).2
      have he : p.1 = q.1 := he
      rw [he, h2] at h3; cases h3

theorem diffMappings_nil {W : Type} (eq : W → W → Bool) {c r : Dict String W} (h : diffMappings eq c r = []) : c = [] ∧ r = [] := by
  unfold diffMappings at h
  rw [List.append_eq_nil_iff, List.append_eq_nil_iff, List.map_eq_nil_iff, List.map_eq_nil_iff, List.filterMap_eq_nil_iff,
    List.filter_eq_nil_iff, List.filter_eq_nil_iff] at h
  obtain ⟨⟨h1, h2⟩, h3⟩ := h
  have hc : c = [] := by
    cases c with
    | nil => rfl
    | cons p c =>
      exfalso
      have a1 := h1 p (.head _)
      have a3 := h3 p (.head _)
      cases hr : r.get? p.1 with
      | none => exact a1 (by simp [(Dict.has_eq_false_iff r p.1).2 hr])
      | some b => rw [hr] at a3; cases a3
  refine ⟨hc, ?_⟩
  cases r with
  | nil => rfl
  | cons p r =>
    exfalso
    refine h2 p (.head _) ?_
    rw [hc]; rfl

/-! ### The JSON form -/

theorem set_ne_nil {W : Type} (d : Dict String W) (k : String) (w : W) : d.set k w ≠ [] := by
  intro h
  have := (Dict.mem_keys_set d k w k).2 (.inl rfl)
  rw [h] at this
  cases this

theorem jsonFields_nil (s : PaSchema) : ∀ (fs : List SField) (acc j : Dict String (Dict String JV)),
    jsonFields s fs acc = .ok j → j = [] → fs = [] ∧ acc = [] := by
  intro fs
  induction fs with
  | nil => intro acc j h hj; cases h; exact ⟨rfl, hj⟩
  | cons f fs ih =>
    intro acc j h hj
    rw [jsonFields] at h
    by_cases hl : (s.fields.filter (fun g => g.name = f.name)).length = 1
    · rw [if_pos hl] at h
      exact absurd (ih _ _ h hj).2 (set_ne_nil _ _ _)
    · rw [if_neg hl] at h; cases h

theorem json_nil {s : PaSchema} (h : s.json = .ok []) : s.fields = [] ∧ s.metadata = [] := by
  obtain ⟨h1, h2⟩ := jsonFields_nil s _ _ _ h rfl
  refine ⟨h1, ?_⟩
  cases hm : s.metadata with
  | nil => rfl
  | cons p m => rw [hm] at h2; cases h2

theorem jsonFields_spec (s : PaSchema) : ∀ (fs : List SField) (acc : Dict String (Dict String JV)), acc.keys.Nodup →
    (fs.map (·.name)).Nodup → (∀ f ∈ fs, (s.fields.filter (fun g => g.name = f.name)).length = 1) →
    ∃ j, jsonFields s fs acc = .ok j ∧ j.keys.Nodup ∧ ∀ k w, j.get? k = some w ↔
      (∃ f ∈ fs, f.name = k ∧ f.json = w) ∨ (k ∉ fs.map (·.name)) ∧ acc.get? k = some w := by
  intro fs
  induction fs with
  | nil => intro acc hacc _ _; exact ⟨acc, rfl, hacc, by simp⟩
  | cons f fs ih =>
    intro acc hacc hnd hone
    rw [List.map_cons, List.nodup_cons] at hnd
    obtain ⟨j, hj, hjn, hspec⟩ := ih (acc.set f.name f.json) (Dict.keys_set_nodup hacc _ _) hnd.2 (fun g hg => hone g (.tail _ hg))
    refine ⟨j, by rw [jsonFields, if_pos (hone f (.head _)), hj], hjn, ?_⟩
    intro k w
    rw [hspec k w, Dict.get?_set]
    constructor
    · rintro (⟨g, hg, h1, h2⟩ | ⟨h1, h2⟩)
      · exact .inl ⟨g, .tail _ hg, h1, h2⟩
      · by_cases hk : f.name = k
        · rw [if_pos hk] at h2
          exact .inl ⟨f, .head _, hk, Option.some.inj h2⟩
        · rw [if_neg hk] at h2
          exact .inr ⟨by rw [List.map_cons, List.mem_cons]; exact fun h => h.elim (fun h => hk h.symm) h1, h2⟩
    · rintro (⟨g, hg, h1, h2⟩ | ⟨h1, h2⟩)
      · rcases List.mem_cons.1 hg with rfl | hg
        · exact .inr ⟨h1 ▸ hnd.1, by rw [if_pos h1, h2]⟩
        · exact .inl ⟨g, hg, h1, h2⟩
      · rw [List.map_cons, List.mem_cons, not_or] at h1
        exact .inr ⟨h1.2, by rw [if_neg (fun h => h1.1 h.symm), h2]⟩

/-- The JSON form of the metadata of a schema. -/
def metaJson (m : Dict String String) : Dict String JV := m.map (fun p => (p.1, .str p.2))

theorem json_spec {s : PaSchema} (hnd : (s.fields.map (·.name)).Nodup) (hm : "__metadata" ∉ s.fields.map (·.name)) :
    ∃ j, s.json = .ok j ∧ j.keys.Nodup ∧
      (∀ k, k ≠ "__metadata" → ∀ w, j.get? k = some w ↔ ∃ f ∈ s.fields, f.name = k ∧ f.json = w) ∧
      (∀ w, j.get? "__metadata" = some w ↔ s.metadata ≠ [] ∧ w = metaJson s.metadata) := by
  have hone : ∀ f ∈ s.fields, (s.fields.filter (fun g => g.name = f.name)).length = 1 := by
    intro f hf
    clear hm
    revert hnd hf
    generalize s.fields = l
    intro hnd hf
    induction l with
    | nil => cases hf
    | cons g l ih =>
      rw [List.map_cons, List.nodup_cons] at hnd
      rcases List.mem_cons.1 hf with rfl | hf
      · have : l.filter (fun g => decide (g.name = f.name)) = [] := by
          rw [List.filter_eq_nil_iff]
          intro x hx h
          rw [decide_eq_true_eq] at h
          exact hnd.1 (h ▸ List.mem_map_of_mem hx)
        rw [List.filter_cons_of_pos (by simp), this]; rfl
      · have hne : g.name ≠ f.name := fun h => hnd.1 (h ▸ List.mem_map_of_mem hf)
        rw [List.filter_cons_of_neg (by simpa using hne)]
        exact ih hnd.2 hf
  have hacc : Dict.keys (K := String) (V := Dict String JV) (if s.metadata.isEmpty then [] else
      [("__metadata", s.metadata.map (fun p => (p.1, .str p.2)))]) |>.Nodup := by
    cases s.metadata.isEmpty <;> simp [Dict.keys]
  obtain ⟨j, hj, hjn, hspec⟩ := jsonFields_spec s s.fields _ hacc hnd hone
  refine ⟨j, hj, hjn, ?_, ?_⟩
  · intro k hk w
    rw [hspec k w]
    have : Dict.get? (K := String) (V := Dict String JV) (if s.metadata.isEmpty then [] else
        [("__metadata", s.metadata.map (fun p => (p.1, .str p.2)))]) k = none := by
      cases s.metadata.isEmpty with
      | true => rfl
      | false => rw [if_neg (by simp), Dict.get?_cons, if_neg (fun h => hk h.symm)]; rfl
    rw [this]
    simp
  · intro w
    rw [hspec "__metadata" w]
    constructor
    · rintro (⟨f, hf, h1, _⟩ | ⟨_, h2⟩)
      · exact absurd (h1 ▸ List.mem_map_of_mem hf) hm
      · cases hmm : s.metadata with
        | nil => rw [hmm] at h2; cases h2
        | cons p m =>
          rw [hmm, List.isEmpty_cons, if_neg (by simp), Dict.get?_cons, if_pos rfl] at h2
          exact ⟨by simp, (Option.some.inj h2).symm⟩
    · rintro ⟨h1, h2⟩
      refine .inr ⟨hm, ?_⟩
      cases hmm : s.metadata with
      | nil => exact absurd hmm h1
      | cons p m =>
        rw [List.isEmpty_cons, if_neg (by simp), Dict.get?_cons, if_pos rfl, h2, hmm]
        rfl

theorem refineAll_nil {b : Bool} {d : Dict String (DiffOf (Dict String JV))} (h : refineAll b d = .ok []) : d = [] := by
  cases d with
  | nil => rfl
  | cons p d =>
    rw [refineAll] at h
    cases h1 : refine b p.2 with
    | error e => rw [h1] at h; cases h
    | ok f =>
      rw [h1] at h
      cases h2 : refineAll b d with
      | error e => rw [h2] at h; cases h
      | ok fs => rw [h2] at h; cases h

/-- **C74, equality.**  The difference of two schemas is empty if and only if they have the same fields in the same order and,
if the metadata are to be checked, the same metadata. -/
theorem C74_empty (checkSchema checkField : Bool) {c r : PaSchema} (hc : c.Proper) (hr : r.Proper) :
    diffSchemas checkSchema checkField c r = .ok [] ↔ SameSchema (checkSchema || checkField) c r := by
  rw [← equals_iff hc hr]
  unfold diffSchemas
  by_cases he : c.equals (checkSchema || checkField) r = true
  · rw [if_pos he]; simp [he]
  · rw [if_neg he]
    refine ⟨fun h => ?_, fun h => absurd h he⟩
    exfalso
    cases h1 : c.json with
    | error e => rw [h1] at h; cases h
    | ok j1 =>
      cases h2 : r.json with
      | error e => rw [h1, h2] at h; cases h
      | ok j2 =>
        rw [h1, h2] at h
        dsimp only at h
        cases h3 : refineAll checkField (diffMappings sameJson j1 j2) with
        | error e => rw [h3] at h; cases h
        | ok out =>
          rw [h3] at h
          dsimp only at h
          cases checkSchema with
          | true => rw [if_pos rfl] at h; exact set_ne_nil _ _ _ (Except.ok.inj h)
          | false =>
            rw [if_neg (by simp)] at h
            cases h
            obtain ⟨rfl, rfl⟩ := diffMappings_nil _ (refineAll_nil h3)
            obtain ⟨a1, a2⟩ := json_nil h1
            obtain ⟨b1, b2⟩ := json_nil h2
            refine he ((equals_iff hc hr).2 ⟨by rw [a1, b1], ?_, fun _ k => by rw [a2, b2]⟩)
            intro i hi
            rw [a1] at hi
            exact absurd hi (Nat.not_lt_zero i)

/-! ### The entries of a difference -/

theorem refineAll_spec {b : Bool} : ∀ (d : Dict String (DiffOf (Dict String JV))), (∀ p ∈ d, ∃ f, refine b p.2 = .ok f) →
    ∃ out, refineAll b d = .ok out ∧ out.keys = d.keys ∧
      (∀ k, d.get? k = none → out.get? k = none) ∧ (∀ k x f, d.get? k = some x → refine b x = .ok f → out.get? k = some f) := by
  intro d
  induction d with
  | nil => intro _; exact ⟨[], rfl, rfl, fun _ _ => rfl, fun k x f h => (by cases h)⟩
  | cons p d ih =>
    obtain ⟨a, w⟩ := p
    intro h
    obtain ⟨f, hf⟩ := h (a, w) (.head _)
    obtain ⟨out, ho, hk, hn, hs⟩ := ih (fun p hp => h p (.tail _ hp))
    refine ⟨(a, f) :: out, by rw [refineAll, hf, ho], by rw [Dict.keys_cons, Dict.keys_cons, hk], ?_, ?_⟩
    · intro k hk
      rw [Dict.get?_cons] at hk ⊢
      by_cases ha : a = k
      · rw [if_pos ha] at hk; cases hk
      · rw [if_neg ha] at hk ⊢; exact hn k hk
    · intro k x f' hk hx
      rw [Dict.get?_cons] at hk ⊢
      by_cases ha : a = k
      · rw [if_pos ha] at hk ⊢
        cases hk
        rw [hf] at hx
        rw [Except.ok.inj hx]
      · rw [if_neg ha] at hk ⊢; exact hs k x f' hk hx

theorem get?_map_vals {W X : Type} (g : W → X) : ∀ (d : Dict String W) (k : String),
    Dict.get? (d.map (fun p => (p.1, g p.2))) k = (d.get? k).map g := by
  intro d
  induction d with
  | nil => intro k; rfl
  | cons p d ih =>
    intro k
    rw [List.map_cons, Dict.get?_cons, Dict.get?_cons]
    by_cases hk : p.1 = k
    · rw [if_pos hk, if_pos hk]; rfl
    · rw [if_neg hk, if_neg hk, ih]

theorem keys_map_val {W X : Type} (g : W → X) (d : Dict String W) : Dict.keys (d.map (fun p => (p.1, g p.2))) = d.keys := by
  unfold Dict.keys
  rw [List.map_map]; rfl

theorem metaJson_get (m : Dict String String) (k : String) : (metaJson m).get? k = (m.get? k).map .str := get?_map_vals _ _ _

theorem metaJson_keys (m : Dict String String) : (metaJson m).keys = m.keys := by
  unfold metaJson Dict.keys
  rw [List.map_map]; rfl

theorem json_keys_nodup (f : SField) : f.json.keys.Nodup := by
  show ["name", "type", "nullable", "metadata"].Nodup
  decide

theorem diffAt_str (a b : Option String) : diffAt JV.eq (a.map .str) (b.map .str) = keyReport JV.str a b := by
  cases a <;> cases b <;> simp [diffAt, keyReport, JV.eq]

theorem diffAt_id (a b : Option String) : diffAt (· == ·) a b = keyReport id a b := by
  cases a <;> cases b <;> simp [diffAt, keyReport]

theorem sameJson_field {f g : SField} (hf : f.metadata.keys.Nodup) (hg : g.metadata.keys.Nodup) :
    sameJson f.json g.json = true ↔ SameField true f g := by
  rw [← field_equals_iff hf hg]
  have e1 : f.json.all (fun p => (g.json.get? p.1).any (fun w => p.2.eq w)) = true ↔
      (f.name == g.name) = true ∧ (f.typ == g.typ) = true ∧ (f.nullable == g.nullable) = true ∧ sameDict f.metadata g.metadata = true := by
    simp [SField.json, Dict.get?_cons, JV.eq]
  have e2 : g.json.all (fun p => (f.json.get? p.1).any (fun w => w.eq p.2)) = true ↔
      (f.name == g.name) = true ∧ (f.typ == g.typ) = true ∧ (f.nullable == g.nullable) = true ∧ sameDict f.metadata g.metadata = true := by
    simp [SField.json, Dict.get?_cons, JV.eq]
  unfold sameJson
  rw [Bool.and_eq_true, e1, e2, and_self]
  unfold SField.equals
  simp only [Bool.and_eq_true, Bool.not_true, Bool.false_or, and_assoc]

theorem sameJson_meta {c r : Dict String String} (hc : c.keys.Nodup) (hr : r.keys.Nodup) :
    sameJson (metaJson c) (metaJson r) = true ↔ ∀ k, c.get? k = r.get? k := by
  rw [← sameDict_iff hc hr]
  unfold sameJson sameDict
  rw [Bool.and_eq_true, Bool.and_eq_true]
  have e1 : (metaJson c).all (fun p => ((metaJson r).get? p.1).any (fun w => p.2.eq w)) = c.all (fun p => r.get? p.1 == some p.2) := by
    rw [metaJson, List.all_map]
    congr 1
    funext p
    rw [Function.comp, metaJson_get]
    cases r.get? p.1 <;> simp [JV.eq, Bool.beq_comm]
  have e2 : (metaJson r).all (fun p => ((metaJson c).get? p.1).any (fun w => w.eq p.2)) = r.all (fun p => c.get? p.1 == some p.2) := by
    rw [metaJson, List.all_map]
    congr 1
    funext p
    rw [Function.comp, metaJson_get]
    cases c.get? p.1 <;> simp [JV.eq]
  rw [e1, e2]

/-- What is said about a field that both have. -/
theorem refine_field {b : Bool} {f g : SField} (hn : f.name = g.name) (hf : f.metadata.keys.Nodup) (hg : g.metadata.keys.Nodup) :
    ∃ a, refine b (.unequal f.json g.json) = .ok (.unequal a) ∧ FieldReport b f g a := by
  have hget := diffMappings_get JV.eq (json_keys_nodup f) (json_keys_nodup g)
  have e1 : (diffMappings JV.eq f.json g.json).get? "name" = some (.equal (.str f.name)) := by
    rw [hget]; simp [SField.json, Dict.get?_cons, diffAt, JV.eq, hn]
  have e2 : (diffMappings JV.eq f.json g.json).get? "type" =
      some (if f.typ = g.typ then .equal (.str f.typ) else .unequal (.str f.typ) (.str g.typ)) := by
    rw [hget]; simp [SField.json, Dict.get?_cons, diffAt, JV.eq]
  have e3 : (diffMappings JV.eq f.json g.json).get? "nullable" =
      some (if f.nullable = g.nullable then .equal (.bool f.nullable) else .unequal (.bool f.nullable) (.bool g.nullable)) := by
    rw [hget]; simp [SField.json, Dict.get?_cons, diffAt, JV.eq]
  have e4 : (diffMappings JV.eq f.json g.json).get? "metadata" =
      some (if sameDict f.metadata g.metadata = true then .equal (.obj f.metadata) else .unequal (.obj f.metadata) (.obj g.metadata)) := by
    rw [hget]; by_cases h : sameDict f.metadata g.metadata = true <;> simp [SField.json, Dict.get?_cons, diffAt, JV.eq, h]
  have e5 : ∀ k, k ≠ "name" → k ≠ "type" → k ≠ "nullable" → k ≠ "metadata" → (diffMappings JV.eq f.json g.json).get? k = none := by
    intro k h1 h2 h3 h4
    rw [hget]
    have : ∀ h : SField, h.json.get? k = none := by
      intro h
      unfold SField.json
      rw [Dict.get?_cons, if_neg h1.symm, Dict.get?_cons, if_neg h2.symm, Dict.get?_cons, if_neg h3.symm, Dict.get?_cons, if_neg h4.symm]
      rfl
    rw [this, this]; rfl
  have hmeta := sameDict_iff hf hg
  have plain : ∀ k, Dict.get? ((diffMappings JV.eq f.json g.json).map (fun p => (p.1, AttrDiff.plain p.2))) k =
      ((diffMappings JV.eq f.json g.json).get? k).map .plain := get?_map_vals _ _
  have hplain : Dict.keys ((diffMappings JV.eq f.json g.json).map (fun p => (p.1, AttrDiff.plain p.2))) |>.Nodup := by
    rw [keys_map_val]
    exact diffMappings_keys_nodup _ (json_keys_nodup f) (json_keys_nodup g)
  by_cases hs : sameDict f.metadata g.metadata = true
  · rw [if_pos hs] at e4
    refine ⟨(diffMappings JV.eq f.json g.json).map (fun p => (p.1, AttrDiff.plain p.2)), ?_, ?_⟩
    · unfold refine
      cases b with
      | false => rfl
      | true => simp only [e4]; rfl
    · refine ⟨hplain, by rw [plain, e1]; rfl, by rw [plain, e2]; rfl, by rw [plain, e3]; rfl, fun _ => by rw [plain, e4]; rfl, ?_, ?_, ?_⟩
      · intro _ h; exact absurd (hmeta.1 hs) h
      · intro _ h; exact absurd (hmeta.1 hs) h
      · intro k h1 h2 h3 h4; rw [plain, e5 k h1 h2 h3 h4]; rfl
  · rw [if_neg hs] at e4
    cases b with
    | false =>
      refine ⟨(diffMappings JV.eq f.json g.json).map (fun p => (p.1, AttrDiff.plain p.2)), rfl, ?_⟩
      refine ⟨hplain, by rw [plain, e1]; rfl, by rw [plain, e2]; rfl, by rw [plain, e3]; rfl, fun h => absurd (hmeta.2 h) hs, ?_, ?_, ?_⟩
      · intro _ _; rw [plain, e4]; rfl
      · intro h; cases h
      · intro k h1 h2 h3 h4; rw [plain, e5 k h1 h2 h3 h4]; rfl
    | true =>
      refine ⟨Dict.set ((diffMappings JV.eq f.json g.json).map (fun p => (p.1, AttrDiff.plain p.2))) "metadata"
        (.byKey (diffMappings (· == ·) f.metadata g.metadata)), ?_, ?_⟩
      · unfold refine
        simp only [e4]
        rfl
      · refine ⟨Dict.keys_set_nodup hplain _ _, ?_, ?_, ?_, fun h => absurd (hmeta.2 h) hs, ?_, ?_, ?_⟩
        · rw [Dict.get?_set, if_neg (by decide), plain, e1]; rfl
        · rw [Dict.get?_set, if_neg (by decide), plain, e2]; rfl
        · rw [Dict.get?_set, if_neg (by decide), plain, e3]; rfl
        · intro h; cases h
        · intro _ _
          refine ⟨_, by rw [Dict.get?_set, if_pos rfl], fun k => ?_⟩
          rw [diffMappings_get _ hf hg, diffAt_id]
        · intro k h1 h2 h3 h4
          rw [Dict.get?_set, if_neg h4.symm, plain, e5 k h1 h2 h3 h4]; rfl

/-- The field of a name, and what the JSON form says about the name. -/
theorem json_of_field {s : PaSchema} {j : Dict String (Dict String JV)} {k : String}
    (hj : ∀ w, j.get? k = some w ↔ ∃ f ∈ s.fields, f.name = k ∧ f.json = w) :
    (∀ f ∈ s.fields, f.name = k → j.get? k = some f.json) ∧ (k ∉ s.fields.map (·.name) → j.get? k = none) := by
  refine ⟨fun f hf hk => (hj _).2 ⟨f, hf, hk, rfl⟩, fun h => ?_⟩
  cases hw : j.get? k with
  | none => rfl
  | some w =>
    obtain ⟨f, hf, hk, _⟩ := (hj w).1 hw
    exact absurd (hk ▸ List.mem_map_of_mem hf) h

/-- **C74, entries.**  Field names are distinct and none is `__metadata`. If two schemas are not the same, the difference says for
every name what has been added, removed, left as it was or changed, attribute by attribute; with `check_schema_metadata` it says for
every key of the metadata of the schemas what became of it. Missing: with `check_field_metadata` the metadata of the schemas have to
be the same (`C74_violated_field_metadata`); without it, the metadata of a field are compared nevertheless. -/
theorem C74_entries_partial (checkSchema checkField : Bool) {c r : PaSchema} (hc : c.Proper) (hr : r.Proper)
    (hcn : (c.fields.map (·.name)).Nodup) (hrn : (r.fields.map (·.name)).Nodup)
    (hcm : "__metadata" ∉ c.fields.map (·.name)) (hrm : "__metadata" ∉ r.fields.map (·.name))
    (hfm : checkField = true → ∀ k, c.metadata.get? k = r.metadata.get? k)
    (hne : ¬ SameSchema (checkSchema || checkField) c r) :
    ∃ d, diffSchemas checkSchema checkField c r = .ok d ∧ d.keys.Nodup ∧
      (∀ k, k ≠ "__metadata" → NameReport checkField c r k (d.get? k)) ∧
      (checkSchema = true → ∃ a, d.get? "__metadata" = some (.unequal a) ∧ a.keys.Nodup ∧
        ∀ k, a.get? k = (keyReport JV.str (c.metadata.get? k) (r.metadata.get? k)).map .plain) ∧
      (checkSchema = false → c.metadata ≠ [] → r.metadata ≠ [] → (∀ k, c.metadata.get? k = r.metadata.get? k) →
        ∃ x, d.get? "__metadata" = some (.equal x)) ∧
      (checkSchema = false → c.metadata ≠ [] → r.metadata ≠ [] → (¬ ∀ k, c.metadata.get? k = r.metadata.get? k) →
        ∃ a, d.get? "__metadata" = some (.unequal a) ∧ a.keys.Nodup ∧
          ∀ k, a.get? k = (keyReport JV.str (c.metadata.get? k) (r.metadata.get? k)).map .plain) := by
  obtain ⟨jc, hjc, hjcn, hcf, hcmeta⟩ := json_spec hcn hcm
  obtain ⟨jr, hjr, hjrn, hrf, hrmeta⟩ := json_spec hrn hrm
  have hget := diffMappings_get sameJson hjcn hjrn
  have hnd := diffMappings_keys_nodup sameJson hjcn hjrn
  have mnone : ∀ {s : PaSchema} {j : Dict String (Dict String JV)},
      (∀ w, j.get? "__metadata" = some w ↔ s.metadata ≠ [] ∧ w = metaJson s.metadata) →
      (j.get? "__metadata").getD [] = metaJson s.metadata := by
    intro s j h
    cases hm : j.get? "__metadata" with
    | some w => exact ((h w).1 hm).2
    | none =>
      by_cases he : s.metadata = []
      · rw [he]; rfl
      · rw [(h _).2 ⟨he, rfl⟩] at hm; cases hm
  have hmetaReport : ∀ k, Dict.get? ((diffMappings JV.eq (metaJson c.metadata) (metaJson r.metadata)).map (fun p => (p.1, AttrDiff.plain p.2))) k =
      (keyReport JV.str (c.metadata.get? k) (r.metadata.get? k)).map .plain := by
    intro k
    rw [get?_map_vals, diffMappings_get _ (by rw [metaJson_keys]; exact hc.metadata) (by rw [metaJson_keys]; exact hr.metadata),
      metaJson_get, metaJson_get, diffAt_str]
  have hmetaNodup : Dict.keys ((diffMappings JV.eq (metaJson c.metadata) (metaJson r.metadata)).map (fun p => (p.1, AttrDiff.plain p.2))) |>.Nodup := by
    rw [keys_map_val]
    exact diffMappings_keys_nodup _ (by rw [metaJson_keys]; exact hc.metadata) (by rw [metaJson_keys]; exact hr.metadata)
  have hsame := sameJson_meta hc.metadata hr.metadata
  -- nothing raises
  have hok : ∀ p ∈ diffMappings sameJson jc jr, ∃ f, refine checkField p.2 = .ok f := by
    rintro ⟨k, x⟩ hp
    have hx := Dict.get?_of_mem hnd hp
    cases x with
    | added w => exact ⟨_, rfl⟩
    | removed w => exact ⟨_, rfl⟩
    | equal w => exact ⟨_, rfl⟩
    | unequal w v =>
      rw [hget] at hx
      cases h1 : jc.get? k with
      | none => rw [h1] at hx; cases h2 : jr.get? k <;> rw [h2] at hx <;> cases hx
      | some w' =>
        cases h2 : jr.get? k with
        | none => rw [h1, h2] at hx; cases hx
        | some v' =>
          rw [h1, h2] at hx
          have hx : (if sameJson w' v' = true then DiffOf.equal w' else .unequal w' v') = .unequal w v := Option.some.inj hx
          by_cases hs : sameJson w' v' = true
          · rw [if_pos hs] at hx; cases hx
          · rw [if_neg hs] at hx
            cases hx
            by_cases hk : k = "__metadata"
            · subst hk
              cases hcf' : checkField with
              | false => exact ⟨_, rfl⟩
              | true =>
                exfalso
                rw [((hcmeta w).1 h1).2, ((hrmeta v).1 h2).2] at hs
                exact hs (hsame.2 (hfm hcf'))
            · obtain ⟨f, hf, hfk, hfj⟩ := (hcf k hk w).1 h1
              obtain ⟨g, hg, hgk, hgj⟩ := (hrf k hk v).1 h2
              rw [← hfj, ← hgj]
              obtain ⟨a, ha, _⟩ := refine_field (b := checkField) (hfk.trans hgk.symm) (hc.field f hf) (hr.field g hg)
              exact ⟨_, ha⟩
  obtain ⟨out, hout, hok', hnone, hsome⟩ := refineAll_spec _ hok
  have hequals : ¬ c.equals (checkSchema || checkField) r = true := fun h => hne ((equals_iff hc hr).1 h)
  -- what the loop says about a name
  have hnames : ∀ k, k ≠ "__metadata" → NameReport checkField c r k (out.get? k) := by
    intro k hk
    have hjc' := json_of_field (hcf k hk)
    have hjr' := json_of_field (hrf k hk)
    refine ⟨?_, ?_, ?_, ?_, ?_⟩
    · intro h1 h2
      exact hnone k (by rw [hget, hjc'.2 h1, hjr'.2 h2]; rfl)
    · intro f hf hfk h2
      exact hsome k _ _ (by rw [hget, hjc'.1 f hf hfk, hjr'.2 h2]; rfl) rfl
    · intro g hg hgk h1
      exact hsome k _ _ (by rw [hget, hjc'.2 h1, hjr'.1 g hg hgk]; rfl) rfl
    · intro f hf g hg hfk hgk hs
      refine hsome k (.equal f.json) _ ?_ rfl
      rw [hget, hjc'.1 f hf hfk, hjr'.1 g hg hgk, diffAt, if_pos ((sameJson_field (hc.field f hf) (hr.field g hg)).2 hs)]
    · intro f hf g hg hfk hgk hs
      obtain ⟨a, ha, hrep⟩ := refine_field (b := checkField) (hfk.trans hgk.symm) (hc.field f hf) (hr.field g hg)
      refine ⟨a, hsome k (.unequal f.json g.json) _ ?_ ha, hrep⟩
      rw [hget, hjc'.1 f hf hfk, hjr'.1 g hg hgk, diffAt,
        if_neg (fun h => hs ((sameJson_field (hc.field f hf) (hr.field g hg)).1 h))]
  have houtnd : out.keys.Nodup := by rw [hok']; exact hnd
  cases hcs : checkSchema with
  | true =>
    refine ⟨out.set "__metadata" (.unequal ((diffMappings JV.eq (metaJson c.metadata) (metaJson r.metadata)).map
      (fun p => (p.1, AttrDiff.plain p.2)))), ?_, Dict.keys_set_nodup houtnd _ _, ?_, ?_, ?_, ?_⟩
    · unfold diffSchemas
      rw [hcs] at hequals
      rw [if_neg hequals, hjc, hjr]
      dsimp only
      rw [hout, ← mnone hcmeta, ← mnone hrmeta]
      rfl
    · intro k hk
      rw [Dict.get?_set, if_neg hk.symm]
      exact hnames k hk
    · intro _
      exact ⟨_, by rw [Dict.get?_set, if_pos rfl], hmetaNodup, hmetaReport⟩
    · intro h; cases h
    · intro h; cases h
  | false =>
    refine ⟨out, ?_, houtnd, hnames, (by intro h; cases h), ?_, ?_⟩
    · unfold diffSchemas
      rw [hcs] at hequals
      rw [if_neg hequals, hjc, hjr]
      dsimp only
      rw [hout]
      rfl
    · intro _ h1 h2 hs
      refine ⟨metaJson c.metadata, hsome _ (.equal (metaJson c.metadata)) _ ?_ rfl⟩
      rw [hget, (hcmeta _).2 ⟨h1, rfl⟩, (hrmeta _).2 ⟨h2, rfl⟩, diffAt, if_pos (hsame.2 hs)]
    · intro _ h1 h2 hs
      have hcf' : checkField = false := by
        cases hcf' : checkField with
        | false => rfl
        | true => exact absurd (hfm hcf') hs
      refine ⟨_, hsome _ (.unequal (metaJson c.metadata) (metaJson r.metadata)) _ ?_ ?_, hmetaNodup, hmetaReport⟩
      · rw [hget, (hcmeta _).2 ⟨h1, rfl⟩, (hrmeta _).2 ⟨h2, rfl⟩, diffAt, if_neg (fun h => hs (hsame.1 h))]
      · rw [hcf']; rfl

/-! ### What a person reads -/

/-- What is shown of a difference of values. -/
def shownValue : DiffOf JV → Option Readable
  | .equal _ => none
  | .added _ => some (.sign "+")
  | .removed _ => some (.sign "-")
  | .unequal c r => some (.values c r)

theorem readableAttrs_spec : ∀ (a : Dict String AttrDiff),
    (∀ p ∈ a, p.1 ≠ "__metadata" ∧ ∃ d, p.2 = .plain d ∧ ∀ c r, d = .unequal c r → c.truthy = true) →
    ∃ l, readableAttrs a = .ok l ∧ ∀ x e, (x, e) ∈ l ↔ ∃ d, (x, AttrDiff.plain d) ∈ a ∧ shownValue d = some e := by
  intro a
  induction a with
  | nil => intro _; exact ⟨[], rfl, by simp⟩
  | cons p a ih =>
    obtain ⟨k, w⟩ := p
    intro h
    obtain ⟨hk, d, hd, ht⟩ := h (k, w) (.head _)
    obtain ⟨l, hl, hspec⟩ := ih (fun p hp => h p (.tail _ hp))
    have hd : w = .plain d := hd
    subst hd
    have hone : ∃ l1, readableKeys id [(k, d)] = .ok l1 ∧ ∀ x e, (x, e) ∈ l1 ↔ x = k ∧ shownValue d = some e := by
      cases d with
      | equal c => exact ⟨[], by simp [readableKeys, hk], by simp [shownValue]⟩
      | added c =>
        refine ⟨[(k, .sign "+")], by simp [readableKeys, hk], fun x e => ?_⟩
        simp only [shownValue, List.mem_singleton, Prod.mk.injEq, Option.some.injEq]
        exact ⟨fun h => ⟨h.1, h.2.symm⟩, fun h => ⟨h.1, h.2.symm⟩⟩
      | removed c =>
        refine ⟨[(k, .sign "-")], by simp [readableKeys, hk], fun x e => ?_⟩
        simp only [shownValue, List.mem_singleton, Prod.mk.injEq, Option.some.injEq]
        exact ⟨fun h => ⟨h.1, h.2.symm⟩, fun h => ⟨h.1, h.2.symm⟩⟩
      | unequal c r =>
        refine ⟨[(k, .values c r)], by simp [readableKeys, hk, ht c r rfl], fun x e => ?_⟩
        simp only [shownValue, List.mem_singleton, Prod.mk.injEq, Option.some.injEq]
        exact ⟨fun h => ⟨h.1, h.2.symm⟩, fun h => ⟨h.1, h.2.symm⟩⟩
    obtain ⟨l1, hl1, hspec1⟩ := hone
    refine ⟨l1 ++ l, by rw [readableAttrs, hl1, hl], fun x e => ?_⟩
    rw [List.mem_append, hspec1, hspec]
    constructor
    · rintro (⟨rfl, hs⟩ | ⟨d', hd', hs⟩)
      · exact ⟨d, .head _, hs⟩
      · exact ⟨d', .tail _ hd', hs⟩
    · rintro ⟨d', hd', h⟩
      rcases List.mem_cons.1 hd' with he | hd'
      · cases he; exact .inl ⟨rfl, h⟩
      · exact .inr ⟨d', hd', h⟩

/-- What is said about one entry of a difference of schemas. -/
inductive Said : String → FieldDiff → Option Readable → Prop where
  | equal (k x) : k ≠ "__metadata" → Said k (.equal x) none
  | added (k x) : k ≠ "__metadata" → Said k (.added x) (some (.sign "+"))
  | removed (k x) : k ≠ "__metadata" → Said k (.removed x) (some (.sign "-"))
  | unequal (k a l) : k ≠ "__metadata" → readableAttrs a = .ok l → Said k (.unequal a) (some (.attrs l))
  | silent (a) : readableAttrs a = .ok [] → Said "__metadata" (.unequal a) none
  | metadata (a l) : l ≠ [] → readableAttrs a = .ok l → Said "__metadata" (.unequal a) (some (.attrs l))

theorem humanReadable_spec : ∀ (d : Dict String FieldDiff), (∀ p ∈ d, ∃ o, Said p.1 p.2 o) →
    ∃ l, humanReadable d = .ok l ∧ ∀ k e, (k, e) ∈ l ↔ ∃ x, (k, x) ∈ d ∧ Said k x (some e) := by
  intro d
  induction d with
  | nil => intro _; exact ⟨[], rfl, by simp⟩
  | cons p d ih =>
    obtain ⟨k, w⟩ := p
    intro h
    obtain ⟨o, ho⟩ := h (k, w) (.head _)
    obtain ⟨l, hl, hspec⟩ := ih (fun p hp => h p (.tail _ hp))
    have ho : Said k w o := ho
    -- an entry that is left out, and one that is not
    have out : humanReadable ((k, w) :: d) = .ok l → (∀ e, ¬ Said k w (some e)) →
        ∃ l, humanReadable ((k, w) :: d) = .ok l ∧ ∀ k' e, (k', e) ∈ l ↔ ∃ x, (k', x) ∈ (k, w) :: d ∧ Said k' x (some e) := by
      intro h1 h2
      refine ⟨l, h1, fun k' e => ?_⟩
      rw [hspec]
      constructor
      · rintro ⟨x, hx, hs⟩; exact ⟨x, .tail _ hx, hs⟩
      · rintro ⟨x, hx, hs⟩
        rcases List.mem_cons.1 hx with he | hx
        · cases he; exact absurd hs (h2 e)
        · exact ⟨x, hx, hs⟩
    have inn : ∀ r, humanReadable ((k, w) :: d) = .ok ((k, r) :: l) → Said k w (some r) → (∀ e, Said k w (some e) → e = r) →
        ∃ l, humanReadable ((k, w) :: d) = .ok l ∧ ∀ k' e, (k', e) ∈ l ↔ ∃ x, (k', x) ∈ (k, w) :: d ∧ Said k' x (some e) := by
      intro r h1 h2 h3
      refine ⟨_, h1, fun k' e => ?_⟩
      rw [List.mem_cons, hspec]
      constructor
      · rintro (he | ⟨x, hx, hs⟩)
        · cases he; exact ⟨w, .head _, h2⟩
        · exact ⟨x, .tail _ hx, hs⟩
      · rintro ⟨x, hx, hs⟩
        rcases List.mem_cons.1 hx with he | hx
        · cases he; exact .inl (by rw [h3 e hs])
        · exact .inr ⟨x, hx, hs⟩
    cases ho with
    | equal _ x hk => exact out (by simp [humanReadable, hl, hk]) (fun e he => by cases he)
    | added _ x hk => exact inn _ (by simp [humanReadable, hl, hk]) (.added _ _ hk) (fun e he => by cases he; rfl)
    | removed _ x hk => exact inn _ (by simp [humanReadable, hl, hk]) (.removed _ _ hk) (fun e he => by cases he; rfl)
    | unequal _ a r hk hr =>
      refine inn _ (by simp [humanReadable, hl, hk, hr]) (.unequal _ _ _ hk hr) (fun e he => ?_)
      cases he with
      | unequal _ _ r' _ hr' => rw [hr] at hr'; rw [Except.ok.inj hr']
      | metadata _ _ _ _ => exact absurd rfl hk
    | silent a hr =>
      refine out (by simp [humanReadable, hl, hr]) (fun e he => ?_)
      cases he with
      | unequal _ _ r' hk _ => exact hk rfl
      | metadata _ r' hne hr' => rw [hr] at hr'; exact hne (Except.ok.inj hr').symm
    | metadata a r hne hr =>
      have hcall : humanReadable (("__metadata", .unequal a) :: d) = .ok (("__metadata", .attrs r) :: l) := by
        cases r with
        | nil => exact absurd rfl hne
        | cons x r => simp [humanReadable, hl, hr]
      refine inn _ hcall (.metadata _ _ hne hr) (fun e he => ?_)
      cases he with
      | unequal _ _ r' hk _ => exact absurd rfl hk
      | metadata _ r' _ hr' => rw [hr] at hr'; rw [Except.ok.inj hr']

theorem field_readable {f g : SField} {a : Dict String AttrDiff} (ha : FieldReport false f g a)
    (ht : f.typ = g.typ ∨ f.typ ≠ "") (hn : f.nullable = g.nullable ∨ f.nullable = true)
    (hm : (∀ k, f.metadata.get? k = g.metadata.get? k) ∨ f.metadata ≠ []) :
    ∃ l, readableAttrs a = .ok l ∧ ∀ x e, (x, e) ∈ l ↔ ReadAttr f g x e := by
  have hmem : ∀ k w, (k, w) ∈ a ↔ a.get? k = some w := fun k w => ⟨Dict.get?_of_mem ha.once, Dict.get?_mem⟩
  obtain ⟨l, hl, hspec⟩ := readableAttrs_spec a (by
    rintro ⟨k, w⟩ hp
    rw [hmem] at hp
    by_cases h1 : k = "name"
    · subst h1
      rw [ha.name] at hp; cases hp
      exact ⟨(by dsimp only; decide), _, rfl, fun c r h => by cases h⟩
    by_cases h2 : k = "type"
    · subst h2
      rw [ha.typ] at hp; cases hp
      refine ⟨(by dsimp only; decide), _, rfl, fun c r h => ?_⟩
      by_cases he : f.typ = g.typ
      · rw [if_pos he] at h; cases h
      · rw [if_neg he] at h; cases h
        simpa [JV.truthy] using ht.resolve_left he
    by_cases h3 : k = "nullable"
    · subst h3
      rw [ha.nullable] at hp; cases hp
      refine ⟨(by dsimp only; decide), _, rfl, fun c r h => ?_⟩
      by_cases he : f.nullable = g.nullable
      · rw [if_pos he] at h; cases h
      · rw [if_neg he] at h; cases h
        simpa [JV.truthy] using hn.resolve_left he
    by_cases h4 : k = "metadata"
    · subst h4
      by_cases he : ∀ k, f.metadata.get? k = g.metadata.get? k
      · rw [ha.sameMetadata he] at hp; cases hp
        exact ⟨(by dsimp only; decide), _, rfl, fun c r h => by cases h⟩
      · rw [ha.otherMetadata rfl he] at hp; cases hp
        refine ⟨(by dsimp only; decide), _, rfl, fun c r h => ?_⟩
        cases h
        simpa [JV.truthy] using hm.resolve_left he
    · rw [ha.only k h1 h2 h3 h4] at hp; cases hp)
  refine ⟨l, hl, fun x e => ?_⟩
  rw [hspec]
  constructor
  · rintro ⟨d, hd, hs⟩
    rw [hmem] at hd
    by_cases h1 : x = "name"
    · subst h1
      rw [ha.name] at hd; cases hd; cases hs
    by_cases h2 : x = "type"
    · subst h2
      rw [ha.typ] at hd
      by_cases he : f.typ = g.typ
      · rw [if_pos he] at hd; cases hd; cases hs
      · rw [if_neg he] at hd; cases hd; cases hs; exact .typ he
    by_cases h3 : x = "nullable"
    · subst h3
      rw [ha.nullable] at hd
      by_cases he : f.nullable = g.nullable
      · rw [if_pos he] at hd; cases hd; cases hs
      · rw [if_neg he] at hd; cases hd; cases hs; exact .nullable he
    by_cases h4 : x = "metadata"
    · subst h4
      by_cases he : ∀ k, f.metadata.get? k = g.metadata.get? k
      · rw [ha.sameMetadata he] at hd; cases hd; cases hs
      · rw [ha.otherMetadata rfl he] at hd; cases hd; cases hs; exact .metadata he
    · rw [ha.only x h1 h2 h3 h4] at hd; cases hd
  · intro h
    cases h with
    | typ he => exact ⟨_, (hmem _ _).2 (by rw [ha.typ, if_neg he]), rfl⟩
    | nullable he => exact ⟨_, (hmem _ _).2 (by rw [ha.nullable, if_neg he]), rfl⟩
    | metadata he => exact ⟨_, (hmem _ _).2 (ha.otherMetadata rfl he), rfl⟩

theorem meta_readable {nm doc ver doc' ver' : String} {a : Dict String AttrDiff} (hnd : a.keys.Nodup)
    (ha : ∀ k, a.get? k = (keyReport JV.str
      (Dict.get? [("name", nm), ("documentation", doc), ("version", ver)] k)
      (Dict.get? [("name", nm), ("documentation", doc'), ("version", ver')] k)).map .plain)
    (hd : doc = doc' ∨ doc ≠ "") (hv : ver = ver' ∨ ver ≠ "") :
    ∃ l, readableAttrs a = .ok l ∧ (l ≠ [] ↔ doc ≠ doc' ∨ ver ≠ ver') := by
  have hmem : ∀ k w, (k, w) ∈ a ↔ a.get? k = some w := fun k w => ⟨Dict.get?_of_mem hnd, Dict.get?_mem⟩
  have e1 : a.get? "name" = some (.plain (.equal (.str nm))) := by
    rw [ha]; simp [Dict.get?_cons, keyReport]
  have e2 : a.get? "documentation" = some (.plain (if doc = doc' then .equal (.str doc) else .unequal (.str doc) (.str doc'))) := by
    rw [ha]; simp [Dict.get?_cons, keyReport]
  have e3 : a.get? "version" = some (.plain (if ver = ver' then .equal (.str ver) else .unequal (.str ver) (.str ver'))) := by
    rw [ha]; simp [Dict.get?_cons, keyReport]
  have e4 : ∀ k, k ≠ "name" → k ≠ "documentation" → k ≠ "version" → a.get? k = none := by
    intro k h1 h2 h3
    rw [ha]
    simp only [Dict.get?_cons, if_neg h1.symm, if_neg h2.symm, if_neg h3.symm]
    rfl
  obtain ⟨l, hl, hspec⟩ := readableAttrs_spec a (by
    rintro ⟨k, w⟩ hp
    rw [hmem] at hp
    by_cases h1 : k = "name"
    · subst h1
      rw [e1] at hp; cases hp
      exact ⟨(by dsimp only; decide), _, rfl, fun c r h => by cases h⟩
    by_cases h2 : k = "documentation"
    · subst h2
      rw [e2] at hp; cases hp
      refine ⟨(by dsimp only; decide), _, rfl, fun c r h => ?_⟩
      by_cases he : doc = doc'
      · rw [if_pos he] at h; cases h
      · rw [if_neg he] at h; cases h
        simpa [JV.truthy] using hd.resolve_left he
    by_cases h3 : k = "version"
    · subst h3
      rw [e3] at hp; cases hp
      refine ⟨(by dsimp only; decide), _, rfl, fun c r h => ?_⟩
      by_cases he : ver = ver'
      · rw [if_pos he] at h; cases h
      · rw [if_neg he] at h; cases h
        simpa [JV.truthy] using hv.resolve_left he
    · rw [e4 k h1 h2 h3] at hp; cases hp)
  refine ⟨l, hl, ?_⟩
  constructor
  · intro hne
    obtain ⟨p, hp⟩ := List.exists_mem_of_ne_nil l hne
    obtain ⟨x, e⟩ := p
    obtain ⟨d, hd', hs⟩ := (hspec x e).1 hp
    rw [hmem] at hd'
    by_cases h1 : x = "name"
    · subst h1
      rw [e1] at hd'; cases hd'; cases hs
    by_cases h2 : x = "documentation"
    · subst h2
      refine .inl fun he => ?_
      rw [e2, if_pos he] at hd'; cases hd'; cases hs
    by_cases h3 : x = "version"
    · subst h3
      refine .inr fun he => ?_
      rw [e3, if_pos he] at hd'; cases hd'; cases hs
    · rw [e4 x h1 h2 h3] at hd'; cases hd'
  · intro h hnil
    rcases h with h | h
    · have := (hspec "documentation" (.values (.str doc) (.str doc'))).2 ⟨_, (hmem _ _).2 (by rw [e2, if_neg h]), rfl⟩
      rw [hnil] at this; cases this
    · have := (hspec "version" (.values (.str ver) (.str ver'))).2 ⟨_, (hmem _ _).2 (by rw [e3, if_neg h]), rfl⟩
      rw [hnil] at this; cases this

/-! ### The validator -/

theorem schemaPath_plain {name : Name} (h : '.' ∉ name.toList) : schemaPath name = name ++ ".schema" := by
  have hd : name.toList.reverse.dropWhile (fun c => decide (c ≠ '.')) = [] := by
    have all : ∀ l : List Char, '.' ∉ l → l.dropWhile (fun c => decide (c ≠ '.')) = [] := by
      intro l
      induction l with
      | nil => intro _; rfl
      | cons c l ih =>
        intro hl
        rw [List.mem_cons, not_or] at hl
        rw [List.dropWhile_cons_of_pos (by simpa using fun e => hl.1 e.symm)]
        exact ih hl.2
    exact all _ (fun hc => h (List.mem_reverse.1 hc))
  unfold schemaPath withSuffix
  dsimp only
  rw [hd]
  apply String.toList_inj.1
  simp

/-- **C74, a difference is told.**  The node has a reference schema saved for it, and the schema of its value is another one. With
`importance="warn"` the run goes on and a warning names exactly the fields that were added, removed or changed, with the changed
attributes and their values, and the metadata of the node if they have changed; with `importance="fail"` it raises `RuntimeError`.
Missing: metadata of fields are not checked; either the metadata of the schemas are checked or those of the node have changed
(`C74_violated_unchanged_node`); a changed attribute has a current value that is true for Python (`C74_violated_nullable`). -/
theorem C74_warn_partial (cfg : SchemaCfg) (st : SchemaState) (n : SchemaResult) (fields : List SField) (r : PaSchema)
    (doc' ver' : String) (hcheck : cfg.check = true) (hcf : cfg.checkField = false)
    (hschema : n.schema = some fields) (hdot : '.' ∉ n.name.toList) (hfile : st.files.get? (n.name ++ ".schema") = some r)
    (hmeta : r.metadata = [("name", n.name), ("documentation", doc'), ("version", ver')])
    (hfm : ∀ f ∈ fields, f.metadata.keys.Nodup) (hrm : ∀ f ∈ r.fields, f.metadata.keys.Nodup)
    (hfn : (fields.map (·.name)).Nodup) (hrn : (r.fields.map (·.name)).Nodup)
    (hfx : "__metadata" ∉ fields.map (·.name)) (hrx : "__metadata" ∉ r.fields.map (·.name))
    (hshape : cfg.checkSchema = true ∨ n.documentation ≠ doc' ∨ n.version ≠ ver')
    (hdoc : n.documentation = doc' ∨ n.documentation ≠ "") (hver : n.version = ver' ∨ n.version ≠ "")
    (htell : Tellable { fields := fields, metadata := [] } r)
    (hne : ¬ SameSchema cfg.checkSchema
      { fields := fields, metadata := [("name", n.name), ("documentation", n.documentation), ("version", n.version)] } r) :
    ∃ l, afterNode cfg st n =
        (if cfg.fail then .error "RuntimeError" else .ok { st with warnings := st.warnings ++ [(n.name, l)] }) ∧
      (∀ k e, k ≠ "__metadata" → (k, e) ∈ l → ReadName { fields := fields, metadata := [] } r k e) ∧
      (∀ k, k ≠ "__metadata" → ((∃ e, (k, e) ∈ l) ↔ Changed { fields := fields, metadata := [] } r k)) ∧
      ((∃ e, ("__metadata", e) ∈ l) ↔ n.documentation ≠ doc' ∨ n.version ≠ ver') := by
  have hpath := schemaPath_plain hdot
  have hcp : (n.full fields).Proper := ⟨(show ["name", "documentation", "version"].Nodup by decide), hfm⟩
  have hrp : r.Proper := ⟨(by rw [hmeta]; show ["name", "documentation", "version"].Nodup; decide), hrm⟩
  have hne' : ¬ SameSchema (cfg.checkSchema || cfg.checkField) (n.full fields) r := by
    rw [hcf, Bool.or_false]; exact hne
  obtain ⟨d, hd, hdn, hnames, hm1, hm2, hm3⟩ := C74_entries_partial cfg.checkSchema cfg.checkField hcp hrp hfn hrn hfx hrx
    (by rw [hcf]; intro h; cases h) hne'
  have hmem : ∀ k w, (k, w) ∈ d ↔ d.get? k = some w := fun k w => ⟨Dict.get?_of_mem hdn, Dict.get?_mem⟩
  have hfull : (n.full fields).metadata = [("name", n.name), ("documentation", n.documentation), ("version", n.version)] := rfl
  -- the entry of the metadata
  obtain ⟨am, ham, hamn, hamk⟩ : ∃ a, d.get? "__metadata" = some (.unequal a) ∧ a.keys.Nodup ∧
      ∀ k, a.get? k = (keyReport JV.str ((n.full fields).metadata.get? k) (r.metadata.get? k)).map .plain := by
    cases hcs : cfg.checkSchema with
    | true => exact hm1 hcs
    | false =>
      have hch := hshape.resolve_left (by rw [hcs]; simp)
      refine hm3 hcs (by rw [hfull]; simp) (by rw [hmeta]; simp) (fun h => ?_)
      rw [hmeta, hfull] at h
      rcases hch with hch | hch
      · exact hch (by simpa [Dict.get?_cons] using h "documentation")
      · exact hch (by simpa [Dict.get?_cons] using h "version")
  rw [hmeta, hfull] at hamk
  obtain ⟨lm, hlm, hlmne⟩ := meta_readable hamn hamk hdoc hver
  have hsaidMeta : ∃ o, Said "__metadata" (.unequal am) o := by
    cases hlm' : lm with
    | nil => rw [hlm'] at hlm; exact ⟨_, .silent am hlm⟩
    | cons x y => exact ⟨_, .metadata am lm (by rw [hlm']; simp) hlm⟩
  -- the entries of the names
  have hentry : ∀ k, k ≠ "__metadata" → ∀ x, d.get? k = some x → ∃ o, Said k x o ∧
      (∀ e, o = some e → ReadName { fields := fields, metadata := [] } r k e) ∧
      (o = none → ¬ Changed { fields := fields, metadata := [] } r k) := by
    intro k hk x hx
    have hrep := hnames k hk
    rw [hcf] at hrep
    by_cases h1 : k ∈ fields.map (·.name)
    · obtain ⟨f, hf, hfk⟩ := List.mem_map.1 h1
      by_cases h2 : k ∈ r.fields.map (·.name)
      · obtain ⟨g, hg, hgk⟩ := List.mem_map.1 h2
        have huniq : ∀ (l : List SField), (l.map (·.name)).Nodup → ∀ a ∈ l, ∀ b ∈ l, a.name = b.name → a = b := by
          intro l hl
          induction l with
          | nil => intro a ha; cases ha
          | cons y l ih =>
            rw [List.map_cons, List.nodup_cons] at hl
            intro a ha b hb hab
            rcases List.mem_cons.1 ha with rfl | ha'
            · rcases List.mem_cons.1 hb with rfl | hb'
              · rfl
              · exact absurd (List.mem_map.2 ⟨b, hb', hab.symm⟩) hl.1
            · rcases List.mem_cons.1 hb with rfl | hb'
              · exact absurd (List.mem_map.2 ⟨a, ha', hab⟩) hl.1
              · exact ih hl.2 a ha' b hb' hab
        by_cases hs : SameField true f g
        · have := hrep.equal f hf g hg hfk hgk hs
          rw [hx] at this
          cases this
          refine ⟨none, .equal _ _ hk, fun e h => (by cases h), fun _ hch => ?_⟩
          cases hch with
          | added _ h => exact h h2
          | removed h _ => exact h h1
          | changed f' g' hf' hg' hfk' hgk' hs' =>
            rw [huniq fields hfn f' hf' f hf (hfk'.trans hfk.symm), huniq r.fields hrn g' hg' g hg (hgk'.trans hgk.symm)] at hs'
            exact hs' hs
        · obtain ⟨a, ha, hfr⟩ := hrep.unequal f hf g hg hfk hgk hs
          rw [hx] at ha
          cases ha
          have hfg := hfk.trans hgk.symm
          obtain ⟨l, hl, hread⟩ := field_readable hfr (htell.typ f hf g hg hfg) (htell.nullable f hf g hg hfg) (htell.metadata f hf g hg hfg)
          refine ⟨_, .unequal _ _ l hk hl, fun e h => ?_, fun h => by cases h⟩
          cases h
          exact .changed f g l hf hg hfk hgk hs hread
      · have := hrep.added f hf hfk h2
        rw [hx] at this
        cases this
        refine ⟨_, .added _ _ hk, fun e h => ?_, fun h => by cases h⟩
        cases h
        exact .added h1 h2
    · by_cases h2 : k ∈ r.fields.map (·.name)
      · obtain ⟨g, hg, hgk⟩ := List.mem_map.1 h2
        have := hrep.removed g hg hgk h1
        rw [hx] at this
        cases this
        refine ⟨_, .removed _ _ hk, fun e h => ?_, fun h => by cases h⟩
        cases h
        exact .removed h1 h2
      · have := hrep.absent h1 h2
        rw [hx] at this
        cases this
  have hsaidUniq : ∀ k x o o', Said k x o → Said k x o' → o = o' := by
    intro k x o o' h1 h2
    cases h1 with
    | equal => cases h2; rfl
    | added => cases h2; rfl
    | removed => cases h2; rfl
    | unequal _ a r hk hr =>
      cases h2 with
      | unequal _ _ r' _ hr' => rw [hr] at hr'; rw [Except.ok.inj hr']
      | silent _ _ => exact absurd rfl hk
      | metadata _ _ _ _ => exact absurd rfl hk
    | silent a hr =>
      cases h2 with
      | unequal _ _ _ hk _ => exact absurd rfl hk
      | silent _ _ => rfl
      | metadata _ r' hn hr' => rw [hr] at hr'; exact absurd (Except.ok.inj hr').symm hn
    | metadata a r hn hr =>
      cases h2 with
      | unequal _ _ _ hk _ => exact absurd rfl hk
      | silent _ hr' => rw [hr] at hr'; exact absurd (Except.ok.inj hr') hn
      | metadata _ r' _ hr' => rw [hr] at hr'; rw [Except.ok.inj hr']
  obtain ⟨l, hl, hspec⟩ := humanReadable_spec d (by
    rintro ⟨k, x⟩ hp
    rw [hmem] at hp
    by_cases hk : k = "__metadata"
    · subst hk
      rw [ham] at hp
      cases hp
      exact hsaidMeta
    · obtain ⟨o, ho, _⟩ := hentry k hk x hp
      exact ⟨o, ho⟩)
  refine ⟨l, ?_, ?_, ?_, ?_⟩
  · have hdne : d ≠ [] := by intro h; rw [h] at ham; cases ham
    unfold afterNode
    rw [hschema]
    dsimp only
    rw [hcheck, if_neg (by simp), hpath, hfile]
    dsimp only
    rw [hd]
    cases d with
    | nil => exact absurd rfl hdne
    | cons p d =>
      dsimp only
      rw [hl]
  · intro k e hk he
    obtain ⟨x, hx, hs⟩ := (hspec k e).1 he
    rw [hmem] at hx
    obtain ⟨o, ho, hread, _⟩ := hentry k hk x hx
    exact hread e (hsaidUniq _ _ _ _ ho hs)
  · intro k hk
    constructor
    · rintro ⟨e, he⟩
      obtain ⟨x, hx, hs⟩ := (hspec k e).1 he
      rw [hmem] at hx
      obtain ⟨o, ho, hread, _⟩ := hentry k hk x hx
      cases hread e (hsaidUniq _ _ _ _ ho hs) with
      | added h1 h2 => exact .added h1 h2
      | removed h1 h2 => exact .removed h1 h2
      | changed f g a hf hg h1 h2 h3 _ => exact .changed f g hf hg h1 h2 h3
    · intro hch
      have hsome : ∃ x, d.get? k = some x := by
        have hrep := hnames k hk
        cases hch with
        | added h1 h2 =>
          obtain ⟨f, hf, hfk⟩ := List.mem_map.1 h1
          exact ⟨_, hrep.added f hf hfk h2⟩
        | removed h1 h2 =>
          obtain ⟨g, hg, hgk⟩ := List.mem_map.1 h2
          exact ⟨_, hrep.removed g hg hgk h1⟩
        | changed f g hf hg h1 h2 h3 =>
          obtain ⟨a, ha, _⟩ := hrep.unequal f hf g hg h1 h2 h3
          exact ⟨_, ha⟩
      obtain ⟨x, hx⟩ := hsome
      obtain ⟨o, ho, _, hnone⟩ := hentry k hk x hx
      cases o with
      | none => exact absurd hch (hnone rfl)
      | some e => exact ⟨e, (hspec k e).2 ⟨x, (hmem _ _).2 hx, ho⟩⟩
  · rw [← hlmne]
    constructor
    · rintro ⟨e, he⟩
      obtain ⟨x, hx, hs⟩ := (hspec _ e).1 he
      rw [hmem, ham] at hx
      cases hx
      cases hs with
      | unequal _ _ _ hk _ => exact absurd rfl hk
      | metadata _ _ hne hr => rw [hlm] at hr; rw [Except.ok.inj hr]; exact hne
    · intro h
      exact ⟨_, (hspec _ _).2 ⟨_, (hmem _ _).2 ham, .metadata am lm h hlm⟩⟩

/-- The schema that belongs to a result: its fields, and the name, the documentation and the version of the node as metadata. -/
def fullSchema (n : SchemaResult) (fields : List SField) : PaSchema :=
  { fields := fields, metadata := [("name", n.name), ("documentation", n.documentation), ("version", n.version)] }

theorem full_proper (n : SchemaResult) {fields : List SField} (h : ∀ f ∈ fields, f.metadata.keys.Nodup) : (n.full fields).Proper :=
  ⟨(show ["name", "documentation", "version"].Nodup by decide), h⟩

theorem same_refl (m : Bool) (s : PaSchema) : SameSchema m s s :=
  ⟨rfl, fun _ _ _ => ⟨rfl, rfl, rfl, fun _ _ => rfl⟩, fun _ _ => rfl⟩

/-- The reference is there: what comes after the comparison. -/
theorem afterNode_file (cfg : SchemaCfg) (st : SchemaState) (n : SchemaResult) {fields : List SField} {r : PaSchema}
    (hcheck : cfg.check = true) (hschema : n.schema = some fields) (hfile : st.files.get? (schemaPath n.name) = some r)
    (hf : ∀ f ∈ fields, f.metadata.keys.Nodup) (hr : r.Proper) :
    (SameSchema (cfg.checkSchema || cfg.checkField) (fullSchema n fields) r → afterNode cfg st n = .ok st) ∧
    (¬ SameSchema (cfg.checkSchema || cfg.checkField) (fullSchema n fields) r →
      (∃ e, afterNode cfg st n = .error e) ∨
      cfg.fail = false ∧ ∃ l, afterNode cfg st n = .ok { st with warnings := st.warnings ++ [(n.name, l)] }) := by
  have key := C74_empty cfg.checkSchema cfg.checkField (full_proper n hf) hr
  cases hd : diffSchemas cfg.checkSchema cfg.checkField (n.full fields) r with
  | error e =>
    refine ⟨fun h => (by rw [key.2 h] at hd; cases hd), fun _ => .inl ⟨e, ?_⟩⟩
    unfold afterNode
    rw [hschema]
    dsimp only
    rw [hcheck, if_neg (by simp), hfile]
    dsimp only
    rw [hd]
  | ok d =>
    cases d with
    | nil =>
      refine ⟨fun _ => ?_, fun h => absurd (key.1 hd) h⟩
      unfold afterNode
      rw [hschema]
      dsimp only
      rw [hcheck, if_neg (by simp), hfile]
      dsimp only
      rw [hd]
    | cons p d =>
      refine ⟨fun h => (by rw [key.2 h] at hd; cases hd), fun _ => ?_⟩
      unfold afterNode
      rw [hschema]
      dsimp only
      rw [hcheck, if_neg (by simp), hfile]
      dsimp only
      rw [hd]
      dsimp only
      cases hh : humanReadable (p :: d) with
      | error e => exact .inl ⟨e, rfl⟩
      | ok l =>
        dsimp only
        cases hfail : cfg.fail with
        | true => exact .inl ⟨_, rfl⟩
        | false => exact .inr ⟨rfl, l, rfl⟩

/-- **C74, one node.**  A value that is no dataframe changes nothing. With `check=False` the schema is saved, whatever was there. With
`check=True`: without a reference, `must_exist` raises and otherwise the schema is saved; with a reference that is the same, nothing
happens; with another one, `importance="fail"` raises, and `importance="warn"` raises or warns once and leaves the reference. -/
theorem C74_outcomes (cfg : SchemaCfg) (st : SchemaState) (n : SchemaResult) (hdot : '.' ∉ n.name.toList) :
    (n.schema = none → afterNode cfg st n = .ok st) ∧
    ∀ fields, n.schema = some fields → (∀ f ∈ fields, f.metadata.keys.Nodup) →
      (cfg.check = false → afterNode cfg st n = .ok { st with files := st.files.set (n.name ++ ".schema") (fullSchema n fields) }) ∧
      (cfg.check = true → st.files.get? (n.name ++ ".schema") = none → cfg.mustExist = true →
        afterNode cfg st n = .error "FileNotFoundError") ∧
      (cfg.check = true → st.files.get? (n.name ++ ".schema") = none → cfg.mustExist = false →
        afterNode cfg st n = .ok { st with files := st.files.set (n.name ++ ".schema") (fullSchema n fields) }) ∧
      (∀ r, cfg.check = true → st.files.get? (n.name ++ ".schema") = some r → r.Proper →
        (SameSchema (cfg.checkSchema || cfg.checkField) (fullSchema n fields) r → afterNode cfg st n = .ok st) ∧
        (¬ SameSchema (cfg.checkSchema || cfg.checkField) (fullSchema n fields) r → cfg.fail = true →
          ∃ e, afterNode cfg st n = .error e) ∧
        (¬ SameSchema (cfg.checkSchema || cfg.checkField) (fullSchema n fields) r → cfg.fail = false →
          (∃ e, afterNode cfg st n = .error e) ∨
          ∃ l, afterNode cfg st n = .ok { st with warnings := st.warnings ++ [(n.name, l)] })) := by
  have hpath := schemaPath_plain hdot
  refine ⟨fun h => by unfold afterNode; rw [h], fun fields hs hf => ⟨?_, ?_, ?_, ?_⟩⟩
  · intro hc
    unfold afterNode
    rw [hs]
    dsimp only
    rw [hc, if_pos (by decide), hpath]
    rfl
  · intro hc hn hm
    unfold afterNode
    rw [hs]
    dsimp only
    rw [hc, if_neg (by simp), hpath, hn]
    dsimp only
    rw [if_pos hm]
  · intro hc hn hm
    unfold afterNode
    rw [hs]
    dsimp only
    rw [hc, if_neg (by simp), hpath, hn]
    dsimp only
    rw [if_neg (by rw [hm]; simp)]
    rfl
  · intro r hc hfile hr
    have h := afterNode_file cfg st n hc hs (by rw [hpath]; exact hfile) hf hr
    refine ⟨h.1, fun hne hfail => ?_, fun hne _ => ?_⟩
    · rcases h.2 hne with h | ⟨h, _⟩
      · exact h
      · rw [hfail] at h; cases h
    · rcases h.2 hne with h | ⟨_, h⟩
      · exact .inl h
      · exact .inr h

/-! ### Runs -/

/-- A step of a run that checks keeps the references and adds warnings; without a warning the schema is the reference. -/
theorem afterNode_keeps {cfg : SchemaCfg} {st st' : SchemaState} {n : SchemaResult} (hcheck : cfg.check = true)
    (h : afterNode cfg st n = .ok st') :
    (∀ p r, st.files.get? p = some r → st'.files.get? p = some r) ∧ ∃ w, st'.warnings = st.warnings ++ w := by
  unfold afterNode at h
  cases hs : n.schema with
  | none => rw [hs] at h; cases h; exact ⟨fun _ _ h => h, [], by simp⟩
  | some fields =>
    rw [hs] at h
    dsimp only at h
    rw [hcheck, if_neg (by simp)] at h
    cases hf : st.files.get? (schemaPath n.name) with
    | none =>
      rw [hf] at h
      dsimp only at h
      cases hm : cfg.mustExist with
      | true => rw [hm, if_pos rfl] at h; cases h
      | false =>
        rw [hm, if_neg (by simp)] at h
        cases h
        refine ⟨fun p r hp => ?_, [], by simp⟩
        show (st.files.set _ _).get? p = some r
        rw [Dict.get?_set]
        by_cases he : schemaPath n.name = p
        · rw [← he, hf] at hp; cases hp
        · rw [if_neg he]; exact hp
    | some r =>
      rw [hf] at h
      dsimp only at h
      cases hd : diffSchemas cfg.checkSchema cfg.checkField (n.full fields) r with
      | error e => rw [hd] at h; cases h
      | ok d =>
        rw [hd] at h
        cases d with
        | nil => cases h; exact ⟨fun _ _ h => h, [], by simp⟩
        | cons p d =>
          dsimp only at h
          cases hh : humanReadable (p :: d) with
          | error e => rw [hh] at h; cases h
          | ok l =>
            rw [hh] at h
            dsimp only at h
            cases hfail : cfg.fail with
            | true => rw [hfail, if_pos rfl] at h; cases h
            | false =>
              rw [hfail, if_neg (by simp)] at h
              cases h
              exact ⟨fun _ _ h => h, [(n.name, l)], rfl⟩

theorem schemaRun_keeps {cfg : SchemaCfg} (hcheck : cfg.check = true) : ∀ (ns : List SchemaResult) (st st' : SchemaState),
    schemaRun cfg ns st = .ok st' →
    (∀ p r, st.files.get? p = some r → st'.files.get? p = some r) ∧ ∃ w, st'.warnings = st.warnings ++ w := by
  intro ns
  induction ns with
  | nil => intro st st' h; cases h; exact ⟨fun _ _ h => h, [], by simp⟩
  | cons n ns ih =>
    intro st st' h
    rw [schemaRun] at h
    cases h1 : afterNode cfg st n with
    | error e => rw [h1] at h; cases h
    | ok st1 =>
      rw [h1] at h
      obtain ⟨a1, w1, b1⟩ := afterNode_keeps hcheck h1
      obtain ⟨a2, w2, b2⟩ := ih st1 st' h
      exact ⟨fun p r hp => a2 p r (a1 p r hp), w1 ++ w2, by rw [b2, b1, List.append_assoc]⟩

/-- **C74, silence.**  If a run with `check=True` ends without an error and without a warning, then the value of every node with a
reference schema has that schema. -/
theorem C74_silent {cfg : SchemaCfg} (hcheck : cfg.check = true) : ∀ (ns : List SchemaResult) (st st' : SchemaState),
    schemaRun cfg ns st = .ok st' → st'.warnings = st.warnings →
    ∀ n ∈ ns, '.' ∉ n.name.toList → ∀ fields, n.schema = some fields → (∀ f ∈ fields, f.metadata.keys.Nodup) →
    ∀ r, st.files.get? (n.name ++ ".schema") = some r → r.Proper →
      SameSchema (cfg.checkSchema || cfg.checkField) (fullSchema n fields) r := by
  intro ns
  induction ns with
  | nil => intro st st' _ _ n hn; cases hn
  | cons m ns ih =>
    intro st st' h hw n hn hdot fields hs hf r hr hrp
    rw [schemaRun] at h
    cases h1 : afterNode cfg st m with
    | error e => rw [h1] at h; cases h
    | ok st1 =>
      rw [h1] at h
      obtain ⟨a1, w1, b1⟩ := afterNode_keeps hcheck h1
      obtain ⟨a2, w2, b2⟩ := schemaRun_keeps hcheck ns st1 st' h
      have hnil : w1 = [] ∧ w2 = [] := by
        rw [b2, b1, List.append_assoc] at hw
        have := List.append_right_eq_self.1 hw
        exact List.append_eq_nil_iff.1 this
      rw [hnil.2, List.append_nil] at b2
      rcases List.mem_cons.1 hn with rfl | hn
      · refine Classical.byContradiction fun hne => ?_
        have hstep := (afterNode_file cfg st n hcheck hs (by rw [schemaPath_plain hdot]; exact hr) hf hrp).2 hne
        rcases hstep with ⟨e, he⟩ | ⟨_, l, hl⟩
        · rw [h1] at he; cases he
        · rw [h1] at hl
          cases hl
          rw [hnil.1, List.append_nil] at b1
          have := congrArg List.length b1
          simp at this
      · exact ih st1 st' h b2 n hn hdot fields hs hf r (a1 _ _ hr) hrp

theorem schema_path_inj {a b : Name} (h : a ++ ".schema" = b ++ ".schema") : a = b := by
  have := congrArg String.toList h
  rw [String.toList_append, String.toList_append] at this
  exact String.toList_inj.1 (List.append_cancel_right this)

/-- What a run records. -/
theorem schemaRun_records {cfg : SchemaCfg} : ∀ (ns : List SchemaResult) (st st' : SchemaState),
    (ns.map (·.name)).Nodup → (∀ n ∈ ns, '.' ∉ n.name.toList) →
    (cfg.check = false ∨ cfg.mustExist = false ∧ ∀ n ∈ ns, st.files.get? (n.name ++ ".schema") = none) →
    schemaRun cfg ns st = .ok st' →
    (∀ n ∈ ns, ∀ fields, n.schema = some fields → st'.files.get? (n.name ++ ".schema") = some (n.full fields)) ∧
    (∀ p, (∀ n ∈ ns, p ≠ n.name ++ ".schema") → st'.files.get? p = st.files.get? p) := by
  intro ns
  induction ns with
  | nil => intro st st' _ _ _ h; cases h; exact ⟨fun n hn => (by cases hn), fun _ _ => rfl⟩
  | cons m ns ih =>
    intro st st' hnd hdot hcfg h
    rw [List.map_cons, List.nodup_cons] at hnd
    rw [schemaRun] at h
    have hother : ∀ n ∈ ns, n.name ++ ".schema" ≠ m.name ++ ".schema" :=
      fun n hn he => hnd.1 (List.mem_map.2 ⟨n, hn, schema_path_inj he⟩)
    have hstep : ∃ st1, afterNode cfg st m = .ok st1 ∧
        (∀ fields, m.schema = some fields → st1.files.get? (m.name ++ ".schema") = some (m.full fields)) ∧
        (∀ p, p ≠ m.name ++ ".schema" → st1.files.get? p = st.files.get? p) := by
      cases hs : m.schema with
      | none => exact ⟨st, by unfold afterNode; rw [hs], fun _ h => (by cases h), fun _ _ => rfl⟩
      | some fields =>
        have hsave : ∃ st1 : SchemaState, afterNode cfg st m = .ok st1 ∧ st1.files = st.files.set (m.name ++ ".schema") (m.full fields) := by
          unfold afterNode
          rw [hs]
          dsimp only
          rw [schemaPath_plain (hdot m (.head _))]
          cases hc : cfg.check with
          | false => exact ⟨_, rfl, rfl⟩
          | true =>
            obtain ⟨h1, h2⟩ := hcfg.resolve_left (by rw [hc]; simp)
            rw [if_neg (by simp), h2 m (.head _)]
            dsimp only
            rw [if_neg (by rw [h1]; simp)]
            exact ⟨_, rfl, rfl⟩
        obtain ⟨st1, h1, h2⟩ := hsave
        refine ⟨st1, h1, fun fs h => ?_, fun p hp => ?_⟩
        · cases h
          rw [h2, Dict.get?_set, if_pos rfl]
        · rw [h2, Dict.get?_set, if_neg (fun h => hp h.symm)]
    obtain ⟨st1, h1, hrec, hkeep⟩ := hstep
    rw [h1] at h
    obtain ⟨i1, i2⟩ := ih st1 st' hnd.2 (fun n hn => hdot n (.tail _ hn)) (by
      rcases hcfg with hc | ⟨h1, h2⟩
      · exact .inl hc
      · exact .inr ⟨h1, fun n hn => by rw [hkeep _ (hother n hn)]; exact h2 n (.tail _ hn)⟩) h
    refine ⟨fun n hn fields hs => ?_, fun p hp => ?_⟩
    · rcases List.mem_cons.1 hn with rfl | hn
      · rw [i2 _ (fun k hk he => hother k hk he.symm)]
        exact hrec fields hs
      · exact i1 n hn fields hs
    · rw [i2 p (fun n hn => hp n (.tail _ hn))]
      exact hkeep p (hp m (.head _))

/-- **C74, a second run.**  The names of the nodes are distinct and have no dot. After a run that records their schemas, a run with
`check=True` over the same results, in whatever order and with whatever of the other settings, passes without a warning and leaves
the references as they are. Missing: names with a dot (`C74_violated_subdag`). -/
theorem C74_rerun_partial {cfg cfg' : SchemaCfg} {ns ns' : List SchemaResult} {st st' : SchemaState}
    (hnd : (ns.map (·.name)).Nodup) (hdot : ∀ n ∈ ns, '.' ∉ n.name.toList)
    (hmeta : ∀ n ∈ ns, ∀ fields, n.schema = some fields → ∀ f ∈ fields, f.metadata.keys.Nodup)
    (hcfg : cfg.check = false ∨ cfg.mustExist = false ∧ ∀ n ∈ ns, st.files.get? (n.name ++ ".schema") = none)
    (hrun : schemaRun cfg ns st = .ok st') (hcheck : cfg'.check = true) (hsub : ∀ n ∈ ns', n ∈ ns) :
    schemaRun cfg' ns' st' = .ok st' := by
  have hrec := (schemaRun_records ns st st' hnd hdot hcfg hrun).1
  have all : ∀ l : List SchemaResult, (∀ n ∈ l, n ∈ ns) → schemaRun cfg' l st' = .ok st' := by
    intro l
    induction l with
    | nil => intro _; rfl
    | cons n l ih =>
      intro hl
      have hn := hl n (.head _)
      have hstep : afterNode cfg' st' n = .ok st' := by
        cases hs : n.schema with
        | none => unfold afterNode; rw [hs]
        | some fields =>
          have hf := hmeta n hn fields hs
          exact (afterNode_file cfg' st' n hcheck hs (by rw [schemaPath_plain (hdot n hn)]; exact hrec n hn fields hs) hf
            (full_proper n hf)).1 (same_refl _ _)
      rw [schemaRun, hstep]
      exact ih (fun m hm => hl m (.tail _ hm))
  exact all ns' hsub

/-- **C74 is violated if a node has not changed but its value has.**  With the default settings, `importance="warn"` included: if the
saved schema has the documentation and the version that the node has now, and the fields of the value are not those of the reference,
the run raises instead of warning. -/
theorem C74_violated_unchanged_node (cfg : SchemaCfg) (st : SchemaState) (n : SchemaResult) (fields : List SField) (r : PaSchema)
    (hcheck : cfg.check = true) (hcs : cfg.checkSchema = false) (hcf : cfg.checkField = false)
    (hschema : n.schema = some fields) (hdot : '.' ∉ n.name.toList) (hfile : st.files.get? (n.name ++ ".schema") = some r)
    (hmeta : r.metadata = [("name", n.name), ("documentation", n.documentation), ("version", n.version)])
    (hfm : ∀ f ∈ fields, f.metadata.keys.Nodup) (hrm : ∀ f ∈ r.fields, f.metadata.keys.Nodup)
    (hfn : (fields.map (·.name)).Nodup) (hrn : (r.fields.map (·.name)).Nodup)
    (hfx : "__metadata" ∉ fields.map (·.name)) (hrx : "__metadata" ∉ r.fields.map (·.name))
    (hne : ¬ SameSchema false (fullSchema n fields) r) :
    ∃ e, afterNode cfg st n = .error e := by
  have hrp : r.Proper := ⟨(by rw [hmeta]; show ["name", "documentation", "version"].Nodup; decide), hrm⟩
  obtain ⟨d, hd, hdn, _, _, hm, _⟩ := C74_entries_partial cfg.checkSchema cfg.checkField (full_proper n hfm) hrp hfn hrn hfx hrx
    (by rw [hcf]; intro h; cases h) (by rw [hcs, hcf]; exact hne)
  obtain ⟨x, hx⟩ := hm hcs (by show [_, _, _] ≠ []; simp) (by rw [hmeta]; simp) (fun k => by rw [hmeta]; rfl)
  have hread : ∀ d : Dict String FieldDiff, ("__metadata", FieldDiff.equal x) ∈ d → ∃ e, humanReadable d = .error e := by
    intro d
    induction d with
    | nil => intro h; cases h
    | cons p d ih =>
      intro h
      rw [humanReadable.eq_def]
      dsimp only
      rcases List.mem_cons.1 h with rfl | h
      · cases humanReadable d with
        | error e => exact ⟨e, rfl⟩
        | ok l => exact ⟨_, rfl⟩
      · obtain ⟨e, he⟩ := ih h
        exact ⟨e, by rw [he]⟩
  obtain ⟨e, he⟩ := hread d (Dict.get?_mem hx)
  refine ⟨e, ?_⟩
  unfold afterNode
  rw [hschema]
  dsimp only
  rw [hcheck, if_neg (by simp), schemaPath_plain hdot, hfile]
  dsimp only
  rw [hd]
  cases d with
  | nil => cases hx
  | cons p d => dsimp only; rw [he]

/-! ### Samples -/

namespace SchemaSample

def fa : SField := { name := "a", typ := "int64", nullable := true, metadata := [] }
def fa' : SField := { name := "a", typ := "double", nullable := true, metadata := [] }
def fastrict : SField := { name := "a", typ := "int64", nullable := false, metadata := [] }
def fb : SField := { name := "b", typ := "string", nullable := true, metadata := [("unit", "m")] }
def fc : SField := { name := "c", typ := "bool", nullable := true, metadata := [] }

/-- The node `df` before and after its function was edited. -/
def before : SchemaResult := { name := "df", documentation := "Data.", version := "1", schema := some [fa, fb] }
def after : SchemaResult := { name := "df", documentation := "Data.", version := "2", schema := some [fa', fc] }
def number : SchemaResult := { name := "n", documentation := "", version := "9", schema := none }

def record : SchemaCfg := { check := false, mustExist := false, fail := false, checkSchema := false, checkField := false }
def warn : SchemaCfg := { check := true, mustExist := false, fail := false, checkSchema := false, checkField := false }
def strict : SchemaCfg := { check := true, mustExist := true, fail := true, checkSchema := true, checkField := false }
def stored : SchemaState := { files := [("df.schema", fullSchema before [fa, fb])], warnings := [] }

theorem proper_ab : (fullSchema before [fa, fb]).Proper :=
  ⟨(by show ["name", "documentation", "version"].Nodup; decide), by decide⟩

theorem proper_ac : (fullSchema after [fa', fc]).Proper :=
  ⟨(by show ["name", "documentation", "version"].Nodup; decide), by decide⟩

theorem differ (m : Bool) : ¬ SameSchema m (fullSchema after [fa', fc]) (fullSchema before [fa, fb]) :=
  fun h => absurd (h.field 0 (by decide) (by decide)).typ (by decide)

/-- Equal schemas: no difference. -/
example : diffSchemas true true (fullSchema before [fa, fb]) (fullSchema before [fa, fb]) = .ok [] :=
  (C74_empty true true proper_ab proper_ab).2 (same_refl _ _)

/-- The type of `a` has changed, `b` is gone and `c` is new. -/
example : ∃ d, diffSchemas false false (fullSchema after [fa', fc]) (fullSchema before [fa, fb]) = .ok d ∧
    (∃ a, d.get? "a" = some (.unequal a) ∧ a.get? "type" = some (.plain (.unequal (.str "double") (.str "int64")))) ∧
    (∃ x, d.get? "b" = some (.removed x)) ∧ (∃ x, d.get? "c" = some (.added x)) := by
  obtain ⟨d, hd, _, hn, _⟩ := C74_entries_partial false false proper_ac proper_ab (by decide) (by decide) (by decide) (by decide)
    (by intro h; cases h) (differ _)
  refine ⟨d, hd, ?_, ⟨_, (hn "b" (by decide)).removed fb (by decide) rfl (by decide)⟩,
    ⟨_, (hn "c" (by decide)).added fc (by decide) rfl (by decide)⟩⟩
  obtain ⟨a, ha, hr⟩ := (hn "a" (by decide)).unequal fa' (by decide) fa (by decide) rfl rfl
    (fun h => absurd h.typ (by decide))
  exact ⟨a, ha, hr.typ⟩

/-- The warning for it. -/
example : ∃ l, afterNode warn stored after = .ok { stored with warnings := [("df", l)] } ∧
    (∀ k, k ≠ "__metadata" → ((∃ e, (k, e) ∈ l) ↔ Changed { fields := [fa', fc], metadata := [] } (fullSchema before [fa, fb]) k)) := by
  obtain ⟨l, h1, _, h2, _⟩ := C74_warn_partial warn stored after [fa', fc] (fullSchema before [fa, fb]) "Data." "1" rfl rfl rfl
    (by decide) rfl rfl (by decide) (by decide) (by decide) (by decide) (by decide) (by decide) (.inr (.inr (by decide)))
    (.inl rfl) (.inr (by decide))
    ⟨fun f hf _ _ _ => .inr ((by decide : ∀ f ∈ [fa', fc], f.typ ≠ "") f hf),
      fun f hf _ _ _ => .inr ((by decide : ∀ f ∈ [fa', fc], f.nullable = true) f hf), by
      intro f hf g hg h
      refine .inl ?_
      have hf : f = fa' ∨ f = fc := by simpa using hf
      have hg : g = fa ∨ g = fb := by simpa [fullSchema] using hg
      rcases hf with rfl | rfl <;> rcases hg with rfl | rfl
      · intro k; rfl
      · exact absurd h (by decide)
      · exact absurd h (by decide)
      · exact absurd h (by decide)⟩
    (differ _)
  exact ⟨l, h1, h2⟩

/-- A value that is no dataframe, a first run, and a missing reference. -/
example : afterNode strict stored number = .ok stored ∧
    afterNode record { files := [], warnings := [] } before = .ok stored ∧
    afterNode strict { files := [], warnings := [] } before = .error "FileNotFoundError" :=
  ⟨(C74_outcomes strict stored number (by decide)).1 rfl,
    ((C74_outcomes record { files := [], warnings := [] } before (by decide)).2 [fa, fb] rfl (by decide)).1 rfl,
    ((C74_outcomes strict { files := [], warnings := [] } before (by decide)).2 [fa, fb] rfl (by decide)).2.1 rfl rfl rfl⟩

/-- Recording, then checking strictly in another order. -/
example : schemaRun record [before, number] { files := [], warnings := [] } = .ok stored ∧
    schemaRun strict [number, before] stored = .ok stored := by
  have h : schemaRun record [before, number] { files := [], warnings := [] } = .ok stored := rfl
  refine ⟨h, C74_rerun_partial (by decide) (by decide) ?_ (.inl rfl) h rfl (by simp)⟩
  intro n hn fields hs
  have hn : n = before ∨ n = number := by simpa using hn
  rcases hn with rfl | rfl
  · cases hs; decide
  · cases hs

/-- Silence: the strict run has passed, hence the schema is the recorded one. -/
example : SameSchema true (fullSchema before [fa, fb]) (fullSchema before [fa, fb]) :=
  C74_silent (cfg := strict) rfl [number, before] stored stored rfl rfl before (by simp) (by decide) [fa, fb] rfl (by decide) _ rfl
    proper_ab

/-- **C74 is violated** by the default settings: the data have changed, the function has not, and the run raises. -/
theorem C74_violated_warn : (afterNode warn stored { before with schema := some [fa', fb] }).isOk = false := by
  obtain ⟨e, he⟩ := C74_violated_unchanged_node warn stored { before with schema := some [fa', fb] } [fa', fb]
    (fullSchema before [fa, fb]) rfl rfl rfl rfl (by decide) rfl rfl (by decide) (by decide) (by decide) (by decide) (by decide)
    (by decide) (fun h => absurd (h.field 0 (by decide) (by decide)).typ (by decide))
  rw [he]; rfl

/-- **C74 is violated** where a column is no longer nullable: `importance="warn"` raises even if the metadata of the schemas are
checked. -/
theorem C74_violated_nullable :
    (afterNode { warn with checkSchema := true } stored { after with schema := some [fastrict, fb] }).isOk = false := by decide +kernel

/-- **C74 is violated** with `check_field_metadata`: the function has been edited, the columns are the same, and the run raises. -/
theorem C74_violated_field_metadata :
    (afterNode { warn with checkField := true } stored { after with schema := some [fa, fb] }).isOk = false := by decide +kernel

/-- **C74 is violated** by nodes of a subdag: the two nodes `sub.x` and `sub.y` share one file, and the second run fails on results
that have not changed. -/
theorem C74_violated_subdag :
    ∃ st, schemaRun record [{ before with name := "sub.x" }, { after with name := "sub.y" }] { files := [], warnings := [] } = .ok st ∧
      (schemaRun strict [{ before with name := "sub.x" }, { after with name := "sub.y" }] st).isOk = false :=
  ⟨_, rfl, by decide +kernel⟩

end SchemaSample

end Verif
