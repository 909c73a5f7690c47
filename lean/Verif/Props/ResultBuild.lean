import Verif.Spec.ResultBuild
import Verif.Proofs.Topo

/-! C67: the result builders return all outputs, under their names. -/
namespace Verif
variable {S : Type}

/-! ### Tables -/

theorem set_new {K V : Type} [DecidableEq K] {d : Dict K V} {k : K} (h : k ∉ d.keys) (v : V) : d.set k v = d ++ [(k, v)] := by
  induction d with
  | nil => rfl
  | cons p d ih =>
    obtain ⟨a, b⟩ := p
    rw [Dict.keys_cons, List.mem_cons, not_or] at h
    unfold Dict.set
    rw [if_neg (fun e => h.1 e.symm), ih h.2]
    rfl

theorem foldl_set_new {α : Type} (f : α → String × PdOutput S) {l : List α} {d : Dict String (PdOutput S)}
    (hn : (l.map fun a => (f a).1).Nodup) (hd : ∀ a ∈ l, (f a).1 ∉ d.keys) :
    l.foldl (fun d a => d.set (f a).1 (f a).2) d = d ++ l.map f := by
  induction l generalizing d with
  | nil => simp
  | cons a l ih =>
    rw [List.foldl_cons, set_new (hd a (by simp))]
    rw [List.map_cons, List.nodup_cons] at hn
    rw [ih hn.2]
    · simp
    · intro b hb hm
      unfold Dict.keys at hm
      rw [List.map_append, List.mem_append] at hm
      rcases hm with hm | hm
      · exact hd b (by simp [hb]) hm
      · simp only [List.map_cons, List.map_nil, List.mem_singleton] at hm
        exact hn.1 (hm ▸ List.mem_map.2 ⟨b, hb, rfl⟩)

theorem flatten_step (name : Name) (o : PdOutput S) (hf : o.isFrame = false) (rest : Dict Name (PdOutput S))
    (flat : Dict String (PdOutput S)) :
    flatten ((name, o) :: rest) flat = if flat.has name then none else flatten rest (flat.set name o) := by
  cases o with
  | frame => cases hf
  | series => rfl
  | index => rfl
  | other => rfl

theorem columnsOf_other (name : Name) (o : PdOutput S) (hf : o.isFrame = false) : columnsOf (name, o) = [(name, o)] := by
  cases o with
  | frame => cases hf
  | series => rfl
  | index => rfl
  | other => rfl

theorem nodup_prefixed {name : String} {columns : List (String × S)} (h : (columns.map (·.1)).Nodup) :
    (columns.map fun c => name ++ "." ++ c.1).Nodup := by
  have : (columns.map fun c => name ++ "." ++ c.1) = (columns.map (·.1)).map (fun c => name ++ "." ++ c) := by
    rw [List.map_map]; rfl
  rw [this]
  exact List.Pairwise.map _ (fun a b hne he => hne ((String.append_right_inj _).1 he)) h

/-- The table: all columns, or an error if two have the same name. -/
theorem flatten_eq {outputs before : Dict Name (PdOutput S)} (h : NoOverwrite (before ++ outputs))
    (hn : ((allColumns before).map (·.1)).Nodup) :
    ((allColumns (before ++ outputs)).map (·.1)).Nodup ∧ flatten outputs (allColumns before) = some (allColumns (before ++ outputs)) ∨
    (¬ ((allColumns (before ++ outputs)).map (·.1)).Nodup ∧ flatten outputs (allColumns before) = none) := by
  induction outputs generalizing before with
  | nil => exact .inl (by simp only [List.append_nil]; exact ⟨hn, rfl⟩)
  | cons p rest ih =>
    obtain ⟨name, o⟩ := p
    have happ : before ++ (name, o) :: rest = (before ++ [(name, o)]) ++ rest := by simp
    have hcols : allColumns (before ++ [(name, o)]) = allColumns before ++ columnsOf (name, o) := by
      unfold allColumns; simp
    have hnext : NoOverwrite ((before ++ [(name, o)]) ++ rest) := by rw [← happ]; exact h
    cases hf : o.isFrame with
    | true =>
      cases o with
      | series => cases hf
      | index => cases hf
      | other => cases hf
      | frame columns i =>
        obtain ⟨h1, h2⟩ := h before name columns i rest rfl
        have hinj : (columns.map fun c => name ++ "." ++ c.1).Nodup := nodup_prefixed h1
        have hfold : columns.foldl (fun flat c => Dict.set flat (name ++ "." ++ c.1) (.series c.2 i)) (allColumns before) =
            allColumns (before ++ [(name, .frame columns i)]) := by
          rw [hcols]
          exact foldl_set_new (fun c : String × S => (name ++ "." ++ c.1, PdOutput.series c.2 i)) hinj h2
        have hn' : ((allColumns (before ++ [(name, .frame columns i)])).map (·.1)).Nodup := by
          rw [hcols, List.map_append, List.nodup_append]
          refine ⟨hn, ?_, ?_⟩
          · unfold columnsOf; rw [List.map_map]; exact hinj
          · intro a ha b hb
            unfold columnsOf at hb
            rw [List.map_map] at hb
            obtain ⟨c, hc, rfl⟩ := List.mem_map.1 hb
            rintro rfl
            exact h2 c hc ha
        have := ih hnext hn'
        rw [happ]
        rw [← hfold] at this
        unfold flatten
        exact this
    | false =>
      rw [flatten_step name o hf rest]
      rw [columnsOf_other name o hf] at hcols
      by_cases hm : name ∈ (allColumns before).map (·.1)
      · have hhas : Dict.has (allColumns before) name = true := (Dict.has_iff _ _).2 hm
        rw [if_pos hhas]
        refine .inr ⟨?_, rfl⟩
        rw [happ]
        intro hnd
        unfold allColumns at hnd
        rw [List.flatMap_append, List.map_append, List.nodup_append] at hnd
        have h3 := hnd.1
        change ((allColumns (before ++ [(name, o)])).map (·.1)).Nodup at h3
        rw [hcols, List.map_append, List.nodup_append] at h3
        exact h3.2.2 name hm name (by simp) rfl
      · have hhas : ¬ Dict.has (allColumns before) name = true := fun h => hm ((Dict.has_iff _ _).1 h)
        rw [if_neg hhas, set_new hm, happ]
        change _ ∨ (_ ∧ _)
        rw [← hcols]
        refine ih hnext ?_
        rw [hcols, List.map_append, List.nodup_append]
        refine ⟨hn, by simp, ?_⟩
        intro a ha b hb
        simp only [List.map_cons, List.map_nil, List.mem_singleton] at hb
        subst hb
        rintro rfl
        exact hm ha

/-- How the builder makes a table if there is a frame among several outputs. -/
theorem pandas_flatten {outputs : Dict Name (PdOutput S)} (hlen : outputs.length ≠ 1) (hf : ∃ p ∈ outputs, p.2.isFrame = true) :
    pandasResult outputs = (flatten outputs []).map .table := by
  obtain ⟨p, hp, hpf⟩ := hf
  have h1 : outputs.any (fun p => p.2.listLike) = true := by
    rw [List.any_eq_true]
    refine ⟨p, hp, ?_⟩
    obtain ⟨a, o⟩ := p
    cases o with
    | frame => rfl
    | series => rfl
    | index => rfl
    | other => cases hpf
  have h2 : outputs.any (fun p => p.2.isFrame) = true := List.any_eq_true.2 ⟨p, hp, hpf⟩
  unfold pandasResult
  split
  · exact absurd rfl hlen
  · rw [h1, h2]; rfl

/-- **C67 (table)**: with frames among the outputs, unless a frame has a column named like an earlier output or column, the
result has exactly the columns of all outputs in the order of the request, frames prefixed by their name; if two columns would
have the same name an error is raised. -/
theorem C67_table_partial {outputs : Dict Name (PdOutput S)} (hlen : outputs.length ≠ 1)
    (hf : ∃ name columns i, (name, PdOutput.frame columns i) ∈ outputs) (h : NoOverwrite outputs) :
    (((allColumns outputs).map (·.1)).Nodup → pandasResult outputs = some (.table (allColumns outputs))) ∧
    (¬ ((allColumns outputs).map (·.1)).Nodup → pandasResult outputs = none) := by
  have hfl := flatten_eq (before := []) (outputs := outputs) h List.nodup_nil
  rw [pandas_flatten hlen (let ⟨_, _, _, hm⟩ := hf; ⟨_, hm, rfl⟩)]
  simp only [List.nil_append] at hfl
  change _ ∧ flatten outputs [] = _ ∨ _ ∧ flatten outputs [] = _ at hfl
  rcases hfl with ⟨h1, h2⟩ | ⟨h1, h2⟩
  · exact ⟨fun _ => by rw [h2]; rfl, fun hc => absurd h1 hc⟩
  · exact ⟨fun hc => absurd hc h1, fun _ => by rw [h2]; rfl⟩

/-- **C67 (no frames)**: without frames among them, the outputs are the columns of the table, or the entries of its only row if
none of them is a list or has an index; a frame that is the only output is returned as it is. -/
theorem C67_plain (outputs : Dict Name (PdOutput S)) :
    ((∀ name columns i, (name, PdOutput.frame columns i) ∉ outputs) →
      pandasResult outputs = some (.row outputs) ∧ (∀ p ∈ outputs, ∃ v, p.2 = .other false v) ∨
      pandasResult outputs = some (.table outputs) ∧ ∃ p ∈ outputs, ∀ v, p.2 ≠ .other false v) ∧
    ∀ name columns i, outputs = [(name, .frame columns i)] → pandasResult outputs = some (.same (.frame columns i)) := by
  constructor
  · intro h
    have h2 : outputs.any (fun p => p.2.isFrame) = false := by
      rw [List.any_eq_false]
      rintro ⟨name, o⟩ hp hc
      cases o with
      | frame columns i => exact h name columns i hp
      | series => cases hc
      | index => cases hc
      | other => cases hc
    unfold pandasResult
    split
    · exact absurd List.mem_cons_self (h _ _ _)
    · cases h1 : outputs.any (fun p => p.2.listLike) with
      | false =>
        refine .inl ⟨rfl, fun p hp => ?_⟩
        rw [List.any_eq_false] at h1
        have := h1 p hp
        obtain ⟨name, o⟩ := p
        cases o with
        | other l v =>
          cases l with
          | false => exact ⟨v, rfl⟩
          | true => exact absurd rfl this
        | frame => exact absurd rfl this
        | series => exact absurd rfl this
        | index => exact absurd rfl this
      | true =>
        obtain ⟨p, hp, hl⟩ := List.any_eq_true.1 h1
        refine .inr ⟨?_, p, hp, fun v he => ?_⟩
        · rw [h2]
          rfl
        · rw [he] at hl
          cases hl
  · rintro name columns i rfl
    rfl

/-- The dots of a name and the first prefix tell names apart. -/
theorem dot_split {a b x y : List Char} (ha : '.' ∉ a) (hb : '.' ∉ b) (h : a ++ '.' :: x = b ++ '.' :: y) : a = b ∧ x = y := by
  induction a generalizing b with
  | nil =>
    cases b with
    | nil => simp at h; exact ⟨rfl, h⟩
    | cons c b =>
      simp only [List.nil_append, List.cons_append, List.cons.injEq] at h
      exact absurd (List.mem_cons.2 (.inl h.1)) hb
  | cons c a ih =>
    cases b with
    | nil =>
      simp only [List.nil_append, List.cons_append, List.cons.injEq] at h
      exact absurd (List.mem_cons.2 (.inl h.1.symm)) ha
    | cons d b =>
      simp only [List.cons_append, List.cons.injEq] at h
      obtain ⟨rfl, h⟩ := h
      obtain ⟨rfl, h2⟩ := ih (fun hm => ha (List.mem_cons_of_mem _ hm)) (fun hm => hb (List.mem_cons_of_mem _ hm)) h
      exact ⟨rfl, h2⟩

theorem dotted_toList (a x : String) : (a ++ "." ++ x).toList = a.toList ++ '.' :: x.toList := by
  rw [String.toList_append, String.toList_append, List.append_assoc]
  rfl

/-- No two columns share a name if no output has a dot in its name. -/
theorem nodup_of_no_dots {outputs : Dict Name (PdOutput S)} (hn : outputs.keys.Nodup) (hd : ∀ k ∈ outputs.keys, '.' ∉ k.toList)
    (hc : ∀ name columns i, (name, PdOutput.frame columns i) ∈ outputs → (columns.map (·.1)).Nodup) :
    ((allColumns outputs).map (·.1)).Nodup := by
  have hform : ∀ {outputs : Dict Name (PdOutput S)} {c : String}, c ∈ (allColumns outputs).map (·.1) →
      c ∈ outputs.keys ∨ ∃ k ∈ outputs.keys, ∃ x, c = k ++ "." ++ x := by
    intro outputs c hc
    obtain ⟨⟨c', o'⟩, hm, rfl⟩ := List.mem_map.1 hc
    obtain ⟨⟨k, o⟩, hp, hco⟩ := List.mem_flatMap.1 hm
    have hk : k ∈ outputs.keys := List.mem_map.2 ⟨_, hp, rfl⟩
    cases o with
    | frame columns i =>
      obtain ⟨x, hx, he⟩ := List.mem_map.1 hco
      cases he
      exact .inr ⟨k, hk, x.1, rfl⟩
    | series v i => rw [columnsOf_other k _ rfl, List.mem_singleton] at hco; cases hco; exact .inl hk
    | index v => rw [columnsOf_other k _ rfl, List.mem_singleton] at hco; cases hco; exact .inl hk
    | other l v => rw [columnsOf_other k _ rfl, List.mem_singleton] at hco; cases hco; exact .inl hk
  induction outputs with
  | nil => exact List.nodup_nil
  | cons p rest ih =>
    obtain ⟨name, o⟩ := p
    rw [Dict.keys_cons, List.nodup_cons] at hn
    have hdn : '.' ∉ name.toList := hd name (by rw [Dict.keys_cons]; simp)
    have hdr : ∀ k ∈ Dict.keys rest, '.' ∉ k.toList := fun k hk => hd k (by rw [Dict.keys_cons]; simp [hk])
    have hrest := ih hn.2 hdr (fun name columns i hm => hc name columns i (by simp [hm]))
    have : allColumns ((name, o) :: rest) = columnsOf (name, o) ++ allColumns rest := rfl
    rw [this, List.map_append, List.nodup_append]
    refine ⟨?_, hrest, ?_⟩
    · cases hf : o.isFrame with
      | false => rw [columnsOf_other name o hf]; simp
      | true =>
        cases o with
        | series => cases hf
        | index => cases hf
        | other => cases hf
        | frame columns i =>
          unfold columnsOf
          rw [List.map_map]
          exact nodup_prefixed (hc name columns i (by simp))
    · intro a ha b hb he
      subst he
      have h1 := hform (outputs := [(name, o)]) (c := a) (by unfold allColumns; simpa using ha)
      simp only [Dict.keys, List.map_cons, List.map_nil, List.mem_singleton, exists_eq_left] at h1
      have h2 := hform hb
      have hne : ∀ {k x : String}, '.' ∉ k.toList → k ≠ name → ¬ ∃ y, name ++ "." ++ y = k ++ "." ++ x := by
        rintro k x hk hkn ⟨y, he⟩
        have := congrArg String.toList he
        rw [dotted_toList, dotted_toList] at this
        exact hkn (String.toList_inj.1 (dot_split hdn hk this).1).symm
      have hdot : ∀ {k x c : String}, '.' ∉ c.toList → c ≠ k ++ "." ++ x := by
        intro k x c hc' he
        rw [he, dotted_toList] at hc'
        exact hc' (by simp)
      rcases h1 with rfl | ⟨x, rfl⟩
      · rcases h2 with h2 | ⟨k, hk, x, he⟩
        · exact hn.1 h2
        · exact hdot hdn he
      · rcases h2 with h2 | ⟨k, hk, y, he⟩
        · exact hdot (hdr _ h2) rfl
        · exact hne (x := y) (hdr k hk) (fun e => hn.1 (e ▸ hk)) ⟨x, he⟩

theorem noOverwrite_of_nodup {outputs : Dict Name (PdOutput S)} (h : ((allColumns outputs).map (·.1)).Nodup) :
    NoOverwrite outputs := by
  rintro before name columns i after rfl
  have happ : allColumns (before ++ (name, .frame columns i) :: after) =
      allColumns before ++ (columnsOf (name, .frame columns i) ++ allColumns after) := by
    unfold allColumns
    rw [List.flatMap_append, List.flatMap_cons]
  rw [happ, List.map_append, List.map_append, List.nodup_append, List.nodup_append] at h
  obtain ⟨_, ⟨h1, _, _⟩, h2⟩ := h
  unfold columnsOf at h1 h2
  rw [List.map_map] at h1 h2
  constructor
  · have h1 : (columns.map fun c => name ++ "." ++ c.1).Nodup := h1
    have he : (columns.map fun c => name ++ "." ++ c.1) = (columns.map (·.1)).map (fun c => name ++ "." ++ c) := by
      rw [List.map_map]; rfl
    rw [he] at h1
    exact List.Pairwise.of_map _ (fun a b hne he => hne (by rw [he])) h1
  · intro c hc hm
    exact h2 _ hm _ (List.mem_append_left _ (List.mem_map.2 ⟨c, hc, rfl⟩)) rfl

/-- **C67 (ordinary names)**: if no output has a dot in its name and no frame repeats a column, a request with frames never
fails and nothing is lost: the result has exactly the columns of all outputs. -/
theorem C67_no_dots {outputs : Dict Name (PdOutput S)} (hlen : outputs.length ≠ 1)
    (hf : ∃ name columns i, (name, PdOutput.frame columns i) ∈ outputs)
    (hn : outputs.keys.Nodup) (hd : ∀ k ∈ outputs.keys, '.' ∉ k.toList)
    (hc : ∀ name columns i, (name, PdOutput.frame columns i) ∈ outputs → (columns.map (·.1)).Nodup) :
    pandasResult outputs = some (.table (allColumns outputs)) := by
  have h := nodup_of_no_dots hn hd hc
  exact (C67_table_partial hlen hf (noOverwrite_of_nodup h)).1 h

/-! ### Strict index types -/

/-- What the dictionaries of index types hold, given the kinds of index seen and whether there was an output without. -/
structure IndexTypes.Holds (t : IndexTypes) (kinds : String → Prop) (other : Prop) : Prop where
  all_nodup : t.all.keys.Nodup
  time_nodup : t.time.keys.Nodup
  no_nodup : t.no.keys.Nodup
  all_iff : ∀ k, k ∈ t.all.keys ↔ kinds k ∨ (k = "no-index" ∧ other)
  time_sub : ∀ k ∈ t.time.keys, kinds k
  no_iff : ∀ k, k ∈ t.no.keys ↔ k = "no-index" ∧ other

theorem addTo_nodup {d : Dict String (List Name)} (h : d.keys.Nodup) (k : String) (n : Name) : (addTo d k n).keys.Nodup :=
  Dict.keys_set_nodup h _ _

theorem mem_addTo (d : Dict String (List Name)) (k k' : String) (n : Name) :
    k' ∈ (addTo d k n).keys ↔ k' = k ∨ k' ∈ d.keys := Dict.mem_keys_set _ _ _ _

theorem holds_step {t : IndexTypes} {kinds : String → Prop} {other : Prop} (h : t.Holds kinds other) (intKey : String) (name : Name)
    (o : PdOutput S) :
    (indexStep intKey t name o).Holds (fun k => kinds k ∨ kindOf intKey o = some k) (other ∨ kindOf intKey o = none) := by
  have hidx : ∀ (i : IndexKind) (b : Bool),
      IndexTypes.Holds { t with all := addTo t.all i.key name, time := if b then addTo t.time i.key name else t.time }
        (fun k => kinds k ∨ some i.key = some k) (other ∨ some i.key = none) := by
    intro i b
    refine ⟨addTo_nodup h.all_nodup _ _, ?_, h.no_nodup, ?_, ?_, ?_⟩
    · cases b
      · exact h.time_nodup
      · exact addTo_nodup h.time_nodup _ _
    · intro k
      rw [mem_addTo, h.all_iff]
      grind
    · intro k hk
      cases b
      · exact .inl (h.time_sub k hk)
      · rcases (mem_addTo _ _ _ _).1 hk with rfl | hk
        · exact .inr rfl
        · exact .inl (h.time_sub k hk)
    · intro k
      rw [h.no_iff]
      grind
  cases o with
  | frame c i => exact hidx i i.time
  | series v i => exact hidx i i.time
  | index v => exact hidx ⟨intKey, false⟩ false
  | other l v =>
    refine ⟨addTo_nodup h.all_nodup _ _, h.time_nodup, addTo_nodup h.no_nodup _ _, ?_, ?_, ?_⟩
    · intro k
      change k ∈ (addTo t.all "no-index" name).keys ↔ _
      rw [mem_addTo, h.all_iff]
      simp only [kindOf]
      grind
    · intro k hk
      exact .inl (h.time_sub k hk)
    · intro k
      change k ∈ (addTo t.no "no-index" name).keys ↔ _
      rw [mem_addTo, h.no_iff]
      simp only [kindOf]
      grind

theorem holds_types {intKey : String} {outputs : Dict Name (PdOutput S)} {t : IndexTypes} {kinds : String → Prop} {other : Prop}
    (h : t.Holds kinds other) :
    (pandasIndexTypes intKey outputs t).Holds (fun k => kinds k ∨ ∃ p ∈ outputs, kindOf intKey p.2 = some k)
      (other ∨ ∃ p ∈ outputs, kindOf intKey p.2 = none) := by
  induction outputs generalizing t kinds other with
  | nil =>
    have h1 : (fun k => kinds k ∨ ∃ p ∈ ([] : Dict Name (PdOutput S)), kindOf intKey p.2 = some k) = kinds := by
      funext k; simp
    have h2 : (other ∨ ∃ p ∈ ([] : Dict Name (PdOutput S)), kindOf intKey p.2 = none) = other := by simp
    rw [h1, h2]
    exact h
  | cons p rest ih =>
    have := ih (holds_step h intKey p.1 p.2)
    have h1 : (fun k => kinds k ∨ ∃ q ∈ p :: rest, kindOf intKey q.2 = some k) =
        (fun k => (kinds k ∨ kindOf intKey p.2 = some k) ∨ ∃ q ∈ rest, kindOf intKey q.2 = some k) := by
      funext k; simp [or_assoc]
    have h2 : (other ∨ ∃ q ∈ p :: rest, kindOf intKey q.2 = none) =
        ((other ∨ kindOf intKey p.2 = none) ∨ ∃ q ∈ rest, kindOf intKey q.2 = none) := by simp [or_assoc]
    rw [h1, h2]
    exact this

/-- The check of the index types: exactly one kind. -/
theorem match_iff {t : IndexTypes} {kinds : String → Prop} {other : Prop} (h : t.Holds kinds other) (hk : ¬ kinds "no-index") :
    indexTypesMatch t = true ↔ ∃ k, kinds k ∧ ∀ k', kinds k' → k' = k := by
  let ks := t.all.keys.filter (fun k => k ≠ "no-index")
  have hks : ∀ k, k ∈ ks ↔ kinds k := by
    intro k
    rw [List.mem_filter, h.all_iff]
    constructor
    · rintro ⟨h1 | h1, h2⟩
      · exact h1
      · simp [h1.1] at h2
    · intro h1
      refine ⟨.inl h1, ?_⟩
      simp only [decide_not, Bool.not_eq_eq_eq_not, Bool.not_true, decide_eq_false_iff_not]
      rintro rfl
      exact hk h1
  have hksn : ks.Nodup := List.Pairwise.filter _ h.all_nodup
  have hnono : t.no.keys = (t.all.keys.filter (fun k => k = "no-index")) ∨ t.no.keys.length = (t.all.keys.filter (fun k => k = "no-index")).length := by
    right
    apply Nat.le_antisymm
    · apply nodup_sub_length h.no_nodup
      intro k hm
      have := (h.no_iff k).1 hm
      rw [List.mem_filter, h.all_iff]
      exact ⟨.inr this, by simp [this.1]⟩
    · apply nodup_sub_length (List.Pairwise.filter _ h.all_nodup)
      intro k hm
      rw [List.mem_filter, h.all_iff] at hm
      obtain ⟨h1, h2⟩ := hm
      have h2 : k = "no-index" := by simpa using h2
      subst h2
      rw [h.no_iff]
      rcases h1 with h1 | h1
      · exact absurd h1 hk
      · exact h1
  have hno : t.no.keys.length = (t.all.keys.filter (fun k => k = "no-index")).length := by
    rcases hnono with h | h
    · rw [h]
    · exact h
  have hsplit : t.all.keys.length = t.no.keys.length + ks.length := by
    have h3 : ∀ l : List String, l.length =
        (l.filter (fun k => k = "no-index")).length + (l.filter (fun k => k ≠ "no-index")).length := by
      intro l
      induction l with
      | nil => rfl
      | cons a l ih =>
        by_cases ha : a = "no-index"
        · simp only [List.filter_cons, ha, List.length_cons, decide_true, if_true, ne_eq, not_true, decide_false] at ih ⊢
          simp only [Bool.false_eq_true, if_false]
          omega
        · simp only [List.filter_cons, ha, List.length_cons, decide_true, if_true, ne_eq, not_false_iff, decide_false] at ih ⊢
          simp only [Bool.false_eq_true, if_false, List.length_cons]
          omega
    rw [hno]
    exact h3 _
  have htime : t.time.keys.length ≤ ks.length := nodup_sub_length h.time_nodup (fun k hm => (hks k).2 (h.time_sub k hm))
  have hone : (∃ k, kinds k ∧ ∀ k', kinds k' → k' = k) ↔ ks.length = 1 := by
    constructor
    · rintro ⟨k, h1, h2⟩
      have hle : ks.length ≤ [k].length :=
        nodup_sub_length hksn (fun k' hm => List.mem_singleton.2 (h2 k' ((hks k').1 hm)))
      have hpos : 0 < ks.length := List.length_pos_of_mem ((hks k).2 h1)
      simp at hle
      omega
    · intro hl
      obtain ⟨k, hk'⟩ := List.length_eq_one_iff.1 hl
      refine ⟨k, (hks k).1 (by simp [hk']), fun k' h' => ?_⟩
      have := (hks k').2 h'
      rw [hk'] at this
      exact List.mem_singleton.1 this
  rw [hone]
  have e1 : t.all.length = t.all.keys.length := by unfold Dict.keys; rw [List.length_map]
  have e2 : t.no.length = t.no.keys.length := by unfold Dict.keys; rw [List.length_map]
  have e3 : t.time.length = t.time.keys.length := by unfold Dict.keys; rw [List.length_map]
  unfold indexTypesMatch
  simp only [e1, e2, e3, hsplit]
  split
  · constructor
    · intro h; cases h
    · intro h; omega
  · split
    · constructor
      · intro _; omega
      · intro _; rfl
    · split
      · constructor
        · intro h; cases h
        · intro h; omega
      · split
        · constructor
          · intro h; cases h
          · intro h; omega
        · constructor
          · intro _; omega
          · intro _; rfl

/-- **C67 (strict)**: the strict builder raises unless some output has an index and all that have one have the same kind of
index; otherwise it returns what the other builder returns. -/
theorem C67_strict {intKey : String} {outputs : Dict Name (PdOutput S)} (hk : ∀ p ∈ outputs, kindOf intKey p.2 ≠ some "no-index") :
    (OneKind intKey outputs → strictResult intKey outputs = pandasResult outputs) ∧
    (¬ OneKind intKey outputs → strictResult intKey outputs = none) := by
  have hempty : (({} : IndexTypes)).Holds (fun _ => False) False :=
    ⟨List.nodup_nil, List.nodup_nil, List.nodup_nil, fun k => by simp [Dict.keys], fun k h => by simp [Dict.keys] at h,
      fun k => by simp [Dict.keys]⟩
  have h := match_iff (holds_types (intKey := intKey) (outputs := outputs) hempty) (by
    rintro (h | ⟨p, hp, he⟩)
    · exact h
    · exact hk p hp he)
  simp only [false_or] at h
  have h2 : OneKind intKey outputs ↔ indexTypesMatch (pandasIndexTypes intKey outputs {}) = true := by
    rw [h]
    constructor
    · rintro ⟨k, h1, h2⟩
      exact ⟨k, h1, fun k' ⟨p, hp, he⟩ => h2 p hp k' he⟩
    · rintro ⟨k, h1, h2⟩
      exact ⟨k, h1, fun p hp k' he => h2 k' ⟨p, hp, he⟩⟩
  unfold strictResult
  constructor
  · intro h3
    rw [if_pos (h2.1 h3)]
  · intro h3
    rw [if_neg (fun h4 => h3 (h2.2 h4))]

/-! ### Matrices -/

/-- An output with its length. -/
def withLength : Name × NpOutput S → Nat × NpOutput S
  | (_, .scalar v) => (1, .scalar v)
  | (_, .vector vs) => (vs.length, .vector vs)

theorem matrixLengths_ok {outputs : Dict Name (NpOutput S)} {rows : Option Nat} {n : Nat}
    (h : ∀ name vs, (name, NpOutput.vector vs) ∈ outputs → vs.length = n) (hr : rows = none ∨ rows = some n) :
    ∃ r, matrixLengths outputs rows = some (r, outputs.map withLength) := by
  induction outputs generalizing rows with
  | nil => exact ⟨rows, rfl⟩
  | cons p rest ih =>
    obtain ⟨name, o⟩ := p
    have h' : ∀ name vs, (name, NpOutput.vector vs) ∈ rest → vs.length = n := fun name vs hm => h name vs (by simp [hm])
    cases o with
    | scalar v =>
      obtain ⟨r, hr'⟩ := ih h' hr
      refine ⟨r, ?_⟩
      unfold matrixLengths
      rw [hr']
      rfl
    | vector vs =>
      have hn : vs.length = n := h name vs (by simp)
      obtain ⟨r, hr'⟩ := ih h' (.inr rfl)
      refine ⟨r, ?_⟩
      rcases hr with rfl | rfl
      · unfold matrixLengths
        rw [hn, hr']
        simp [withLength, hn]
      · unfold matrixLengths
        rw [if_pos hn, hr']
        simp [withLength, hn]

theorem matrixLengths_fails {outputs : Dict Name (NpOutput S)} {rows r : Option Nat} {cs : List (Nat × NpOutput S)}
    (h : matrixLengths outputs rows = some (r, cs)) :
    (∀ name vs, (name, NpOutput.vector vs) ∈ outputs → r = some vs.length) ∧ ∀ n, rows = some n → r = some n := by
  induction outputs generalizing rows r cs with
  | nil =>
    cases h
    exact ⟨fun name vs hm => (by cases hm), fun n hn => hn⟩
  | cons p rest ih =>
    obtain ⟨name, o⟩ := p
    have hgo : ∀ {rows'} {c}, (match matrixLengths rest rows' with
        | none => none
        | some (r, cs) => some (r, c :: cs)) = some (r, cs) → ∃ cs', matrixLengths rest rows' = some (r, cs') := by
      intro rows' c he
      cases hm : matrixLengths rest rows' with
      | none => rw [hm] at he; cases he
      | some q => rw [hm] at he; obtain ⟨r', cs'⟩ := q; cases he; exact ⟨_, rfl⟩
    cases o with
    | scalar v =>
      unfold matrixLengths at h
      obtain ⟨cs', h⟩ := hgo h
      have := ih h
      refine ⟨fun name' vs hm => ?_, this.2⟩
      rcases List.mem_cons.1 hm with hm | hm
      · cases hm
      · exact this.1 name' vs hm
    | vector vs =>
      cases rows with
      | none =>
        unfold matrixLengths at h
        obtain ⟨cs', h⟩ := hgo h
        have := ih h
        refine ⟨fun name' vs' hm => ?_, fun n hn => (by cases hn)⟩
        rcases List.mem_cons.1 hm with hm | hm
        · cases hm; exact this.2 _ rfl
        · exact this.1 name' vs' hm
      | some n =>
        unfold matrixLengths at h
        by_cases hn : vs.length = n
        · rw [if_pos hn] at h
          obtain ⟨cs', h⟩ := hgo h
          have := ih h
          refine ⟨fun name' vs' hm => ?_, this.2⟩
          rcases List.mem_cons.1 hm with hm | hm
          · cases hm; rw [hn]; exact this.2 _ rfl
          · exact this.1 name' vs' hm
        · rw [if_neg hn] at h
          cases h

theorem matrixColumns_ok {outputs : Dict Name (NpOutput S)} {n : Nat}
    (h : ∀ name vs, (name, NpOutput.vector vs) ∈ outputs → vs.length = n)
    (hs : n ≠ 1 ∨ ∀ name v, (name, NpOutput.scalar v) ∉ outputs) :
    ∃ columns, matrixColumns (some n) (outputs.map withLength) = some columns ∧ IsMatrix n outputs columns := by
  induction outputs with
  | nil => exact ⟨[], rfl, rfl, fun j h => (by simp at h)⟩
  | cons p rest ih =>
    obtain ⟨name, o⟩ := p
    obtain ⟨columns, h1, h2, h3⟩ := ih (fun name vs hm => h name vs (by simp [hm])) (by
      rcases hs with hs | hs
      · exact .inl hs
      · exact .inr (fun name v hm => hs name v (by simp [hm])))
    have hcol : ∃ col, matrixColumn (some n) (withLength (name, o)) = some col ∧ col.length = n ∧
        ∀ i < n, col[i]? = entry i o := by
      cases o with
      | scalar v =>
        rcases hs with hs | hs
        · refine ⟨List.replicate n v, ?_, List.length_replicate, fun i hi => ?_⟩
          · exact if_neg (fun e => hs e.symm)
          · rw [List.getElem?_replicate, if_pos hi]
            rfl
        · exact absurd List.mem_cons_self (hs name v)
      | vector vs => exact ⟨vs, rfl, h name vs (by simp), fun i _ => rfl⟩
    obtain ⟨col, h4, h5, h6⟩ := hcol
    refine ⟨col :: columns, ?_, by simp [h2], ?_⟩
    · rw [List.map_cons]
      unfold matrixColumns
      rw [h4, h1]
    · intro j hj hj'
      cases j with
      | zero => exact ⟨h5, h6⟩
      | succ j => exact h3 j (by simpa using hj) (by simpa using hj')

/-- **C67 (matrix)**: with at least one output that has a length, if all those have length `n` and (with a number among the
outputs) `n` is not 1, the result is the matrix with the outputs as columns, numbers repeated; if two lengths differ an error is
raised. -/
theorem C67_numpy_partial {outputs : Dict Name (NpOutput S)} {first : Name} {vs : List S} (hv : (first, NpOutput.vector vs) ∈ outputs) :
    ((∀ name vs', (name, NpOutput.vector vs') ∈ outputs → vs'.length = vs.length) →
      (vs.length ≠ 1 ∨ ∀ name v, (name, NpOutput.scalar v) ∉ outputs) →
      ∃ columns, numpyResult outputs = some columns ∧ IsMatrix vs.length outputs columns) ∧
    ((∃ name vs', (name, NpOutput.vector vs') ∈ outputs ∧ vs'.length ≠ vs.length) → numpyResult outputs = none) := by
  constructor
  · intro h hs
    unfold numpyResult
    obtain ⟨r, hr⟩ := matrixLengths_ok h (.inl rfl)
    rw [hr, (matrixLengths_fails hr).1 first vs hv]
    exact matrixColumns_ok h hs
  · rintro ⟨name, vs', hm, hne⟩
    unfold numpyResult
    cases h : matrixLengths outputs none with
    | none => rfl
    | some q =>
      obtain ⟨r, cs⟩ := q
      have := (matrixLengths_fails h).1
      have h1 := this _ _ hv
      have h2 := this _ _ hm
      rw [h1] at h2
      exact absurd (Option.some.inj h2).symm hne

namespace ResultSample

/-- A frame and a series. -/
def outputs : Dict Name (PdOutput Nat) :=
  [("frame", .frame [("x", 1), ("y", 2)] ⟨"RangeIndex:::int64", false⟩), ("z", .series 3 ⟨"RangeIndex:::int64", false⟩),
    ("w", .other false 4)]

example : pandasResult outputs = some (.table (allColumns outputs)) :=
  C67_no_dots (by decide) ⟨_, _, _, List.mem_cons_self⟩ (by decide) (by decide) (by
    intro name columns i hm
    simp only [outputs, List.mem_cons, Prod.mk.injEq, reduceCtorEq, and_false, List.not_mem_nil, or_false,
      PdOutput.frame.injEq] at hm
    obtain ⟨_, rfl, _⟩ := hm
    decide)

example : (allColumns outputs).map (·.1) = ["frame.x", "frame.y", "z", "w"] := rfl

/-- A dot in a later name: an error. -/
def clash : Dict Name (PdOutput Nat) :=
  [("sub", .frame [("x", 1)] ⟨"RangeIndex:::int64", false⟩), ("sub.x", .series 2 ⟨"RangeIndex:::int64", false⟩)]

example : pandasResult clash = none :=
  (C67_table_partial (by decide) ⟨_, _, _, List.mem_cons_self⟩ (by
    intro before name columns i after he
    match before with
    | [] => simp at he; obtain ⟨⟨rfl, rfl, rfl⟩, rfl⟩ := he; decide
    | [a] => simp at he
    | a :: b :: rest => simp at he)).2 (by decide)

/-- **C67 violated**: a frame that comes after a column of the same name silently replaces it. -/
theorem C67_violated_overwrite : ∃ outputs : Dict Name (PdOutput Nat), ¬ ((allColumns outputs).map (·.1)).Nodup ∧
    outputs.keys.Nodup ∧ pandasResult outputs = some (.table [("sub.x", .series 1 ⟨"RangeIndex:::int64", false⟩)]) :=
  ⟨[("sub.x", .series 2 ⟨"RangeIndex:::int64", false⟩), ("sub", .frame [("x", 1)] ⟨"RangeIndex:::int64", false⟩)],
    by decide, by decide, rfl⟩

example : pandasResult [("a", PdOutput.other false 1), ("b", .other false 2)] =
    some (.row [("a", .other false 1), ("b", .other false 2)]) := rfl

example : pandasResult [("a", PdOutput.series 1 ⟨"k", false⟩), ("b", .other false 2)] =
    some (.table [("a", .series 1 ⟨"k", false⟩), ("b", .other false 2)]) := by
  rcases (C67_plain [("a", PdOutput.series 1 ⟨"k", false⟩), ("b", .other false 2)]).1 (by simp) with ⟨_, h⟩ | ⟨h, _⟩
  · obtain ⟨v, hv⟩ := h _ List.mem_cons_self
    cases hv
  · exact h

example : strictResult "RangeIndex:::int64" outputs = pandasResult outputs :=
  (C67_strict (by decide)).1 ⟨"RangeIndex:::int64", by decide, by decide⟩

example : strictResult "RangeIndex:::int64" (("t", .series 5 ⟨"DatetimeIndex:::datetime64", true⟩) :: outputs) = none :=
  (C67_strict (by decide)).2 (by
    rintro ⟨k, _, h⟩
    have h1 := h ("t", .series 5 ⟨"DatetimeIndex:::datetime64", true⟩) (by simp) _ rfl
    have h2 := h ("z", .series 3 ⟨"RangeIndex:::int64", false⟩) (by simp [outputs]) _ rfl
    subst h1
    exact absurd h2 (by decide))

example : ∃ columns, numpyResult [("a", NpOutput.scalar 7), ("b", .vector [1, 2, 3])] = some columns ∧
    IsMatrix 3 [("a", NpOutput.scalar 7), ("b", .vector [1, 2, 3])] columns :=
  (C67_numpy_partial (first := "b") (vs := [1, 2, 3]) (by simp)).1 (by simp) (.inl (by simp))

/-- **C67 violated**: numbers alone give a matrix without entries. -/
theorem C67_violated_scalars : numpyResult [("a", NpOutput.scalar 7), ("b", .scalar 8)] = some [[], []] := rfl

/-- **C67 violated**: with vectors of length one, a number raises. -/
theorem C67_violated_one_row : numpyResult [("a", NpOutput.scalar 7), ("b", .vector [1])] = none := rfl

end ResultSample

end Verif
