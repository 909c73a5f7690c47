import Verif.Model.Visualize
import Verif.Props.Queries

/-!
C78: what a drawing shows.

Specification: `Faithful`, about the statements of the DOT document only: boxes (`Drawn`, `HasBox`), arrows (`Arrow`), tables of
inputs.
-/
namespace Verif.Visualize
variable {T V : Type}

/-! ### Specification -/

/-- There is an arrow from `a` to `b`. -/
def Arrow (p : List Stmt) (a b : Name) : Prop := ∃ e c r, Stmt.arrow a b e c r ∈ p

/-- There is an arrow from `a` to `b` in the colour of a path. -/
def PathArrow (p : List Stmt) (a b : Name) : Prop := ∃ e c, Stmt.arrow a b e c true ∈ p

/-- Outside the legend there is a box. -/
def HasBox (p : List Stmt) (id : Name) : Prop := ∃ l ls r i, Stmt.box id l ls r i ∈ p ∧ i ≠ some "cluster__legend"

/-- The box `id` shows `l` in the classes `ls`: one statement says so, and no other statement changes text or look of this box or
puts it into the legend (DOT merges all statements about one identifier). -/
def Drawn (p : List Stmt) (id : Name) (l : Label) (ls : List Look) : Prop :=
  (∃ r, Stmt.box id (some l) ls r none ∈ p) ∧
  ∀ l' ls' r i, Stmt.box id l' ls' r i ∈ p →
    (l' = some l ∧ ls' = ls ∧ i = none) ∨ (l' = none ∧ ls' = [] ∧ i ≠ some "cluster__legend")

/-- `d` is an input of `k`: a parameter that no function computes. -/
def InputOf (g : Graph T V) (k d : Name) : Prop := DependsOn g k d ∧ ∃ dn, g.get? d = some dn ∧ dn.kind = .external

/-- The identifiers that graphviz and the drawing use for themselves do not occur as names of nodes. -/
structure Clear (g : Graph T V) : Prop where
  no_colon : ∀ k ∈ g.keys, ':' ∉ k.toList
  no_table : ∀ k ∈ g.keys, ∀ x ∈ g.keys, k ≠ "_" ++ x ++ "_inputs"
  no_legend : ∀ k ∈ g.keys, k ∉ ["config", "input", "function", "cluster", "field", "output", "materializer", "override",
    "expand", "collect", "_legend"]

/-- `p` is a faithful picture of the selected nodes (`Sel`): exactly these functions have boxes, showing name and type and marked
as requested (`Out`) or overridden (`Ovr`); exactly the dependencies between selected functions are arrows, decorated at the end of a
function that expands and at the start of one that collects; the columns of the schema of a selected function are boxes (if asked for);
every selected function has one table with exactly its selected inputs. -/
structure Faithful (m : Meta T) (shown : V → String) (fg : FnGraph T V) (o : Options) (Sel Out Ovr : Name → Prop)
    (p : List Stmt) : Prop where
  functions : ∀ k n, fg.nodes.get? k = some n → n.kind ≠ .external → Sel k → ∃ name type ls,
    Drawn p k (.text name type) ls ∧ (m.configTag k = none → name = k) ∧
    (m.saver k = none → m.loader k = none → type = m.typeName n.typ ∧ ∀ c, m.configTag k = some c → name = k ++ ": " ++ c) ∧
    (∀ c, m.loader k = some c ∨ (m.loader k = none ∧ m.saver k = some c) → name = k ∧ type = c) ∧
    (Look.output ∈ ls ↔ Out k) ∧ (Look.override ∈ ls ↔ Ovr k) ∧
    (Look.expand ∈ ls ↔ n.kind = .expand) ∧ (Look.collect ∈ ls ↔ n.kind = .collect) ∧
    (Look.materializer ∈ ls ↔ m.saver k ≠ none ∨ m.loader k ≠ none)
  config : ∀ k v, (k, v) ∈ fg.config → Drawn p k (.text k (shown v)) [.config]
  only : ∀ id, HasBox p id → id ∈ fg.config.keys ∨ (∃ n, fg.nodes.get? id = some n ∧ n.kind ≠ .external ∧ Sel id) ∨
    (o.hideInputs = false ∧ ∃ k d, Sel k ∧ Sel d ∧ InputOf fg.nodes k d ∧ id = "_" ++ k ++ "_inputs") ∨
    (o.displayFields = true ∧ ∃ k c, Sel k ∧ c ∈ m.columns k ∧ id = k ++ ":" ++ c)
  arrows : ∀ a b, a ∈ fg.nodes.keys → (Arrow p a b ↔ Sel a ∧ Sel b ∧ DependsOn fg.nodes b a ∧ ¬ InputOf fg.nodes b a)
  targets : ∀ a b, Arrow p a b → Sel b
  decorations : ∀ a b e c r, a ∈ fg.nodes.keys → Stmt.arrow a b e c r ∈ p →
    (e = true ↔ ∃ an, fg.nodes.get? a = some an ∧ an.kind = .expand) ∧
    (c = true ↔ ∃ bn, fg.nodes.get? b = some bn ∧ bn.kind = .collect)
  fields : o.displayFields = true → ∀ k n c, fg.nodes.get? k = some n → n.kind ≠ .external → Sel k → c ∈ m.columns k →
    (∃ r, Stmt.box (k ++ ":" ++ c) (some (.text c "")) [.function, .field] r (some ("cluster_" ++ k)) ∈ p) ∧
    ∀ l ls r i, Stmt.box (k ++ ":" ++ c) l ls r i ∈ p → l = some (.text c "") ∧ ls = [.function, .field] ∧ i = some ("cluster_" ++ k)
  tables : o.hideInputs = false → ∀ k d, Sel k → Sel d → InputOf fg.nodes k d → ∃ t rows, t ∉ fg.nodes.keys ∧
    Arrow p t k ∧ (∀ t', t' ∉ fg.nodes.keys → Arrow p t' k → t' = t) ∧ Drawn p t (.table rows) [.input] ∧
    ∀ x s, (x, s) ∈ rows ↔ Sel x ∧ InputOf fg.nodes k x ∧ ∃ xn, fg.nodes.get? x = some xn ∧ s = m.typeName xn.typ
  no_table : ∀ t k, t ∉ fg.nodes.keys → Arrow p t k → o.hideInputs = false ∧ ∃ d, Sel d ∧ InputOf fg.nodes k d
  sharing : ∀ t t' k k', t ∉ fg.nodes.keys → t' ∉ fg.nodes.keys → Arrow p t k → Arrow p t' k' →
    (t = t' ↔ k = k' ∨ (o.dedupInputs = true ∧ ∀ d, Sel d → (InputOf fg.nodes k d ↔ InputOf fg.nodes k' d)))

/-! ### Names -/

theorem tableName_inj {a b : Name} (h : tableName a = tableName b) : a = b := by
  have h' := congrArg String.toList h
  unfold tableName at h'
  rw [String.toList_append, String.toList_append, String.toList_append, String.toList_append] at h'
  exact String.toList_inj.1 (List.append_cancel_left (List.append_cancel_right h'))

theorem colon_tableName {k : Name} (h : ':' ∉ k.toList) : ':' ∉ (tableName k).toList := by
  unfold tableName
  rw [String.toList_append, String.toList_append]
  simp only [List.mem_append, not_or]
  exact ⟨⟨by decide, h⟩, by decide⟩

theorem colon_field (k c : Name) : ':' ∈ (k ++ ":" ++ c).toList := by
  rw [String.toList_append, String.toList_append]
  simp only [List.mem_append]
  exact .inl (.inr (by decide))

theorem colon_legend (l : Look) : ':' ∉ l.key.toList := by cases l <;> decide

theorem tableName_legend (k : Name) (l : Look) : tableName k ≠ l.key := by
  intro h
  have h' := congrArg (fun s => s.toList.head?) h
  unfold tableName at h'
  simp only [String.toList_append] at h'
  cases l <;> simp [Look.key] at h'

theorem legend_words (l : Look) : l.key ∈ ["config", "input", "function", "cluster", "field", "output", "materializer",
    "override", "expand", "collect", "_legend"] := by cases l <;> decide

/-! ### Tables of inputs -/

section
variable (m : Meta T) (g : Graph T V) (o : Options) (sel : List Name)

/-- Which node gets an arrow from which table, and whether the table is drawn for it. -/
def assigned : List (Node T V) → Tables → List (Node T V × Name × Bool)
  | [], _ => []
  | n :: rest, tb =>
    if o.hideInputs then assigned rest tb
    else if inputDeps m g o sel n = [] then assigned rest tb
    else
      match tb.find? (fun t => sameSet t.1 (inputDeps m g o sel n)) with
      | some t => (n, t.2, false) :: assigned rest tb
      | none => (n, tableName n.name, true)
          :: assigned rest (if o.dedupInputs then tb ++ [(inputDeps m g o sel n, tableName n.name)] else tb)

/-- The statements of an assignment. -/
def StmtOf (x : Node T V × Name × Bool) (s : Stmt) : Prop :=
  s = .arrow x.2.1 x.1.name false false false ∨
  (x.2.2 = true ∧ s = .box x.2.1 (some (.table ((inputDeps m g o sel x.1).map (tableRow m g)))) [.input] false none)

variable {m g o sel}

theorem mem_drawEdges {mods : Dict Name (List Modifier)} (ns : List (Node T V)) : ∀ (tb : Tables) (s : Stmt),
    s ∈ drawEdges m g o mods sel ns tb ↔
      (∃ n ∈ ns, s ∈ drawArrows m g o mods sel n) ∨ ∃ x ∈ assigned m g o sel ns tb, StmtOf m g o sel x s := by
  induction ns with
  | nil => intro tb s; simp [drawEdges, assigned]
  | cons n rest ih =>
    intro tb s
    rw [drawEdges, List.mem_append, List.mem_append, ih]
    unfold drawInputs
    rw [assigned]
    by_cases hh : o.hideInputs = true
    · simp only [hh, if_true, List.not_mem_nil, false_or, List.mem_cons, exists_eq_or_imp]
      constructor
      · rintro (h | h | h)
        · exact .inl (.inl h)
        · exact .inl (.inr h)
        · exact .inr h
      · rintro ((h | h) | h)
        · exact .inl h
        · exact .inr (.inl h)
        · exact .inr (.inr h)
    · by_cases hi : inputDeps m g o sel n = []
      · simp only [hh, hi, if_true, if_false, List.not_mem_nil, false_or, List.mem_cons, exists_eq_or_imp]
        simp only [Bool.false_eq_true, if_false, if_true, List.not_mem_nil, false_or]
        constructor
        · rintro (h | h | h)
          · exact .inl (.inl h)
          · exact .inl (.inr h)
          · exact .inr h
        · rintro ((h | h) | h)
          · exact .inl h
          · exact .inr (.inl h)
          · exact .inr (.inr h)
      · cases hf : tb.find? (fun t => sameSet t.1 (inputDeps m g o sel n)) with
        | some t =>
          simp only [hh, hi, if_false, List.mem_cons, exists_eq_or_imp, List.not_mem_nil, or_false, StmtOf,
            Bool.false_eq_true, false_and]
          grind
        | none =>
          simp only [hh, hi, if_false, List.mem_cons, exists_eq_or_imp, List.not_mem_nil, or_false, StmtOf,
            Bool.false_eq_true, true_and]
          grind

theorem assigned_sub (ns : List (Node T V)) : ∀ (tb : Tables) (x), x ∈ assigned m g o sel ns tb →
    x.1 ∈ ns ∧ inputDeps m g o sel x.1 ≠ [] ∧ o.hideInputs = false ∧ (x.2.2 = true → x.2.1 = tableName x.1.name) := by
  induction ns with
  | nil => intro tb x h; cases h
  | cons n rest ih =>
    intro tb x h
    rw [assigned] at h
    split at h
    · obtain ⟨h1, h2⟩ := ih _ _ h; exact ⟨List.mem_cons_of_mem _ h1, h2⟩
    · split at h
      · obtain ⟨h1, h2⟩ := ih _ _ h; exact ⟨List.mem_cons_of_mem _ h1, h2⟩
      · split at h
        · rcases List.mem_cons.1 h with rfl | h
          · exact ⟨List.mem_cons_self, by assumption, by simp_all, fun h => by cases h⟩
          · obtain ⟨h1, h2⟩ := ih _ _ h; exact ⟨List.mem_cons_of_mem _ h1, h2⟩
        · rcases List.mem_cons.1 h with rfl | h
          · exact ⟨List.mem_cons_self, by assumption, by simp_all, fun _ => rfl⟩
          · obtain ⟨h1, h2⟩ := ih _ _ h; exact ⟨List.mem_cons_of_mem _ h1, h2⟩

theorem assigned_all (ho : o.hideInputs = false) (ns : List (Node T V)) : ∀ (tb : Tables) (n), n ∈ ns →
    inputDeps m g o sel n ≠ [] → ∃ t f, (n, t, f) ∈ assigned m g o sel ns tb := by
  induction ns with
  | nil => intro tb n h; cases h
  | cons n0 rest ih =>
    intro tb n h hne
    rw [assigned, if_neg (by simp [ho])]
    rcases List.mem_cons.1 h with rfl | h
    · rw [if_neg hne]
      split
      · exact ⟨_, _, List.mem_cons_self⟩
      · exact ⟨_, _, List.mem_cons_self⟩
    · split
      · exact ih _ _ h hne
      · split
        · obtain ⟨t, f, h1⟩ := ih tb n h hne; exact ⟨t, f, List.mem_cons_of_mem _ h1⟩
        · obtain ⟨t, f, h1⟩ := ih _ n h hne; exact ⟨t, f, List.mem_cons_of_mem _ h1⟩

/-- A table that is used again was drawn before, for the same set of inputs. -/
theorem assigned_reuse (ns : List (Node T V)) : ∀ (tb : Tables) (n) (t : Name), (n, t, false) ∈ assigned m g o sel ns tb →
    (∃ ins, (ins, t) ∈ tb ∧ sameSet ins (inputDeps m g o sel n) = true) ∨
    (o.dedupInputs = true ∧ ∃ n', (n', t, true) ∈ assigned m g o sel ns tb ∧
      sameSet (inputDeps m g o sel n') (inputDeps m g o sel n) = true) := by
  induction ns with
  | nil => intro tb n t h; cases h
  | cons n0 rest ih =>
    intro tb n t h
    rw [assigned] at h ⊢
    split at h
    · rename_i hh; rw [if_pos hh]; exact ih _ _ _ h
    · rename_i hh
      rw [if_neg hh]
      split at h
      · rename_i hi; rw [if_pos hi]; exact ih _ _ _ h
      · rename_i hi
        rw [if_neg hi]
        cases hf : tb.find? (fun t => sameSet t.1 (inputDeps m g o sel n0)) with
        | some t0 =>
          simp only [hf] at h ⊢
          rcases List.mem_cons.1 h with e | h
          · cases e
            exact .inl ⟨t0.1, List.mem_of_find?_eq_some hf, by simpa using List.find?_some hf⟩
          · rcases ih _ _ _ h with h1 | ⟨h1, n', h2, h3⟩
            · exact .inl h1
            · exact .inr ⟨h1, n', List.mem_cons_of_mem _ h2, h3⟩
        | none =>
          simp only [hf] at h ⊢
          rcases List.mem_cons.1 h with e | h
          · cases e
          · rcases ih _ _ _ h with ⟨ins, h1, h2⟩ | ⟨h1, n', h2, h3⟩
            · by_cases hd : o.dedupInputs = true
              · rw [if_pos hd] at h1
                rcases List.mem_append.1 h1 with h1 | h1
                · exact .inl ⟨ins, h1, h2⟩
                · cases List.mem_singleton.1 h1
                  exact .inr ⟨hd, n0, List.mem_cons_self, h2⟩
              · rw [if_neg hd] at h1
                exact .inl ⟨ins, h1, h2⟩
            · exact .inr ⟨h1, n', List.mem_cons_of_mem _ h2, h3⟩

theorem sameSet_iff {a b : List Name} : sameSet a b = true ↔ ∀ x, x ∈ a ↔ x ∈ b := by
  unfold sameSet
  rw [Bool.and_eq_true, List.all_eq_true, List.all_eq_true]
  simp only [List.contains_iff_mem]
  exact ⟨fun h x => ⟨h.1 x, h.2 x⟩, fun h => ⟨fun x => (h x).1, fun x => (h x).2⟩⟩

theorem sameSet_congr {a b : List Name} (h : sameSet a b = true) (c : List Name) : sameSet c a = sameSet c b := by
  rw [Bool.eq_iff_iff, sameSet_iff, sameSet_iff]
  have h := sameSet_iff.1 h
  exact ⟨fun h' x => (h' x).trans (h x), fun h' x => (h' x).trans (h x).symm⟩

theorem find_congr {a b : List Name} (h : sameSet a b = true) (tb : Tables) :
    tb.find? (fun t => sameSet t.1 a) = tb.find? (fun t => sameSet t.1 b) := by
  congr 1
  funext t
  exact sameSet_congr h _

theorem assigned_known (ns : List (Node T V)) : ∀ (tb : Tables) (n) (t : Name) (f) (t0), (n, t, f) ∈ assigned m g o sel ns tb →
    tb.find? (fun t => sameSet t.1 (inputDeps m g o sel n)) = some t0 → t = t0.2 := by
  induction ns with
  | nil => intro tb n t f t0 h; cases h
  | cons n0 rest ih =>
    intro tb n t f t0 h h0
    rw [assigned] at h
    split at h
    · exact ih _ _ _ _ _ h h0
    · split at h
      · exact ih _ _ _ _ _ h h0
      · cases hf : tb.find? (fun t => sameSet t.1 (inputDeps m g o sel n0)) with
        | some t1 =>
          simp only [hf] at h
          rcases List.mem_cons.1 h with e | h
          · cases e; rw [hf] at h0; cases h0; rfl
          · exact ih _ _ _ _ _ h h0
        | none =>
          simp only [hf] at h
          rcases List.mem_cons.1 h with e | h
          · cases e; rw [hf] at h0; cases h0
          · refine ih _ _ _ _ t0 h ?_
            split
            · rw [List.find?_append, h0]; rfl
            · exact h0

theorem assigned_share (hd : o.dedupInputs = true) (ns : List (Node T V)) : ∀ (tb : Tables) (n n') (t t' : Name) (f f'),
    (n, t, f) ∈ assigned m g o sel ns tb → (n', t', f') ∈ assigned m g o sel ns tb →
    sameSet (inputDeps m g o sel n) (inputDeps m g o sel n') = true → t = t' := by
  induction ns with
  | nil => intro tb n n' t t' f f' h; cases h
  | cons n0 rest ih =>
    intro tb n n' t t' f f' h h' hs
    have hs' : sameSet (inputDeps m g o sel n') (inputDeps m g o sel n) = true :=
      sameSet_iff.2 fun x => (sameSet_iff.1 hs x).symm
    rw [assigned] at h h'
    split at h
    · rename_i hh
      rw [if_pos hh] at h'
      exact ih _ _ _ _ _ _ _ h h' hs
    · rename_i hh
      rw [if_neg hh] at h'
      split at h
      · rename_i hi
        rw [if_pos hi] at h'
        exact ih _ _ _ _ _ _ _ h h' hs
      · rename_i hi
        rw [if_neg hi] at h'
        cases hf : tb.find? (fun t => sameSet t.1 (inputDeps m g o sel n0)) with
        | some t1 =>
          simp only [hf] at h h'
          rcases List.mem_cons.1 h with e | h <;> rcases List.mem_cons.1 h' with e' | h'
          · cases e; cases e'; rfl
          · cases e
            rw [find_congr hs] at hf
            exact (assigned_known _ _ _ _ _ _ h' hf).symm
          · cases e'
            rw [find_congr hs'] at hf
            exact assigned_known _ _ _ _ _ _ h hf
          · exact ih _ _ _ _ _ _ _ h h' hs
        | none =>
          simp only [hf, if_pos hd] at h h'
          rcases List.mem_cons.1 h with e | h <;> rcases List.mem_cons.1 h' with e' | h'
          · cases e; cases e'; rfl
          · cases e
            rw [find_congr hs] at hf
            have : (tb ++ [(inputDeps m g o sel n0, tableName n0.name)]).find?
                (fun t => sameSet t.1 (inputDeps m g o sel n')) = some (inputDeps m g o sel n0, tableName n0.name) := by
              rw [List.find?_append, hf]
              simp [hs]
            exact (assigned_known _ _ _ _ _ _ h' this).symm
          · cases e'
            rw [find_congr hs'] at hf
            have : (tb ++ [(inputDeps m g o sel n0, tableName n0.name)]).find?
                (fun t => sameSet t.1 (inputDeps m g o sel n)) = some (inputDeps m g o sel n0, tableName n0.name) := by
              rw [List.find?_append, hf]
              simp [hs']
            exact assigned_known _ _ _ _ _ _ h this
          · exact ih _ _ _ _ _ _ _ h h' hs

/-- Every table is drawn, for the same set of inputs. -/
theorem assigned_owner {ns : List (Node T V)} {n : Node T V} {t : Name} {f : Bool}
    (h : (n, t, f) ∈ assigned m g o sel ns []) : ∃ n', (n', t, true) ∈ assigned m g o sel ns [] ∧ t = tableName n'.name ∧
      sameSet (inputDeps m g o sel n') (inputDeps m g o sel n) = true ∧ (n' = n ∨ o.dedupInputs = true) := by
  cases f with
  | true => exact ⟨n, h, (assigned_sub _ _ _ h).2.2.2 rfl, sameSet_iff.2 fun _ => .rfl, .inl rfl⟩
  | false =>
    rcases assigned_reuse _ _ _ _ h with ⟨ins, h1, _⟩ | ⟨h1, n', h2, h3⟩
    · cases h1
    · exact ⟨n', h2, (assigned_sub _ _ _ h2).2.2.2 rfl, h3, .inr h1⟩

theorem assigned_once (ns : List (Node T V)) (hnd : ns.Nodup) : ∀ (tb : Tables) (n) (t t' : Name) (f f'),
    (n, t, f) ∈ assigned m g o sel ns tb → (n, t', f') ∈ assigned m g o sel ns tb → t = t' ∧ f = f' := by
  induction ns with
  | nil => intro tb n t t' f f' h; cases h
  | cons n0 rest ih =>
    intro tb n t t' f f' h h'
    have ih := ih (List.nodup_cons.1 hnd).2
    have hn0 := (List.nodup_cons.1 hnd).1
    have key : ∀ tb t f, (n0, t, f) ∉ assigned m g o sel rest tb := fun tb t f hm => hn0 (assigned_sub _ _ _ hm).1
    rw [assigned] at h h'
    split at h
    · rename_i hh
      rw [if_pos hh] at h'
      exact ih _ _ _ _ _ _ h h'
    · rename_i hh
      rw [if_neg hh] at h'
      split at h
      · rename_i hi
        rw [if_pos hi] at h'
        exact ih _ _ _ _ _ _ h h'
      · rename_i hi
        rw [if_neg hi] at h'
        cases hf : tb.find? (fun t => sameSet t.1 (inputDeps m g o sel n0)) with
        | some t1 =>
          simp only [hf] at h h'
          rcases List.mem_cons.1 h with e | h <;> rcases List.mem_cons.1 h' with e' | h'
          · cases e; cases e'; exact ⟨rfl, rfl⟩
          · cases e; exact absurd h' (key _ _ _)
          · cases e'; exact absurd h (key _ _ _)
          · exact ih _ _ _ _ _ _ h h'
        | none =>
          simp only [hf] at h h'
          rcases List.mem_cons.1 h with e | h <;> rcases List.mem_cons.1 h' with e' | h'
          · cases e; cases e'; exact ⟨rfl, rfl⟩
          · cases e; exact absurd h' (key _ _ _)
          · cases e'; exact absurd h (key _ _ _)
          · exact ih _ _ _ _ _ _ h h'

end

/-! ### The picture -/

/-- The selection of a picture: nodes of the graph, each once; without the strict option it must be everything. -/
structure Selection (g : Graph T V) (o : Options) (sel : List Name) : Prop where
  nodup : sel.Nodup
  sub : ∀ k ∈ sel, k ∈ g.keys
  strict : o.strict = true ∨ ∀ k ∈ g.keys, k ∈ sel

section
variable {m : Meta T} {shown : V → String} {fg : FnGraph T V} {o : Options} {mods : Dict Name (List Modifier)} {sel : List Name}

theorem mem_selected (hw : WellFormed fg.nodes) (n : Node T V) :
    n ∈ sel.filterMap (fun k => fg.nodes.get? k) ↔ fg.nodes.get? n.name = some n ∧ n.name ∈ sel := by
  rw [List.mem_filterMap]
  constructor
  · rintro ⟨k, hk, h⟩
    have := hw.name_eq h
    subst this
    exact ⟨h, hk⟩
  · rintro ⟨h, hk⟩; exact ⟨_, hk, h⟩

theorem names_selected (hw : WellFormed fg.nodes) (hs : ∀ k ∈ sel, k ∈ fg.nodes.keys) :
    (sel.filterMap (fun k => fg.nodes.get? k)).map (·.name) = sel := by
  induction sel with
  | nil => rfl
  | cons k rest ih =>
    obtain ⟨n, hn⟩ := Dict.mem_keys_iff.1 (hs k List.mem_cons_self)
    rw [List.filterMap_cons, hn]
    simp only [List.map_cons]
    rw [ih (fun x hx => hs x (List.mem_cons_of_mem _ hx)), hw.name_eq hn]

theorem nodup_selected (hw : WellFormed fg.nodes) (hs : Selection fg.nodes o sel) :
    (sel.filterMap (fun k => fg.nodes.get? k)).Nodup := by
  have := hs.nodup
  rw [← names_selected hw hs.sub] at this
  exact (List.pairwise_map.1 this).imp (fun h e => h (by rw [e]))

theorem mem_foldl_setAdd (l : List Name) : ∀ (acc : List Name) (x : Name), x ∈ l.foldl setAdd acc ↔ x ∈ acc ∨ x ∈ l := by
  induction l with
  | nil => intro acc x; simp
  | cons y rest ih =>
    intro acc x
    rw [List.foldl_cons, ih, mem_setAdd, List.mem_cons, or_assoc]

theorem nodup_foldl_setAdd (l : List Name) : ∀ (acc : List Name), acc.Nodup → (l.foldl setAdd acc).Nodup := by
  induction l with
  | nil => intro acc h; exact h
  | cons y rest ih => intro acc h; exact ih _ (setAdd_nodup h y)

theorem isInputDep_iff (hw : WellFormed fg.nodes) {k d : Name} (hd : DependsOn fg.nodes k d) :
    isInputDep m fg.nodes d = true ↔ InputOf fg.nodes k d := by
  obtain ⟨kn, hk, hdk⟩ := hd
  obtain ⟨dn, hdn⟩ := hw.deps_in hk hdk
  have hc : dn.dependedOnBy.isEmpty = false := by
    have := (hw.consumers hdn k).2 ⟨kn, hk, hdk⟩
    cases h : dn.dependedOnBy with
    | nil => rw [h] at this; cases this
    | cons => rfl
  unfold isInputDep nodeType
  rw [hdn]
  simp only [Option.any_some, hc, Bool.not_false, Bool.and_true, Bool.and_false, Bool.false_eq_true, if_false]
  constructor
  · intro h
    refine ⟨⟨kn, hk, hdk⟩, dn, hdn, ?_⟩
    by_cases he : dn.kind = .external
    · exact he
    · simp [he] at h
  · rintro ⟨_, dn', h1, h2⟩
    rw [hdn] at h1
    cases h1
    simp [h2]

theorem mem_keptDeps (hw : WellFormed fg.nodes) (hs : Selection fg.nodes o sel) {n : Node T V}
    (hn : fg.nodes.get? n.name = some n) (d : Name) :
    d ∈ keptDeps o sel n ↔ DependsOn fg.nodes n.name d ∧ d ∈ sel := by
  unfold keptDeps
  rw [List.mem_filter, hw.deps_eq hn]
  constructor
  · rintro ⟨h1, h2⟩
    refine ⟨⟨n, hn, h1⟩, ?_⟩
    rcases hs.strict with h | h
    · simpa [h] using h2
    · exact h d (Dict.mem_keys_iff.2 (hw.deps_in hn h1))
  · rintro ⟨⟨n', h1, h2⟩, h3⟩
    rw [hn] at h1
    cases h1
    exact ⟨h2, by simp [h3]⟩

theorem mem_inputDeps (hw : WellFormed fg.nodes) (hs : Selection fg.nodes o sel) {n : Node T V}
    (hn : fg.nodes.get? n.name = some n) (d : Name) :
    d ∈ inputDeps m fg.nodes o sel n ↔ InputOf fg.nodes n.name d ∧ d ∈ sel := by
  unfold inputDeps
  rw [mem_foldl_setAdd, List.mem_filter, mem_keptDeps hw hs hn]
  constructor
  · rintro (h | ⟨⟨h1, h2⟩, h3⟩)
    · cases h
    · exact ⟨(isInputDep_iff hw h1).1 h3, h2⟩
  · rintro ⟨h1, h2⟩
    exact .inr ⟨⟨h1.1, h2⟩, (isInputDep_iff hw h1.1).2 h1⟩

theorem mem_drawArrows (hw : WellFormed fg.nodes) (hs : Selection fg.nodes o sel) {n : Node T V}
    (hn : fg.nodes.get? n.name = some n) (s : Stmt) :
    s ∈ drawArrows m fg.nodes o mods sel n ↔ ∃ d, DependsOn fg.nodes n.name d ∧ d ∈ sel ∧ ¬ InputOf fg.nodes n.name d ∧
      s = .arrow d n.name (isExpandDep fg.nodes d) (n.kind == .collect)
        ((modsOf mods d).contains .isPath && (modsOf mods n.name).contains .isPath) := by
  unfold drawArrows
  rw [List.mem_map]
  constructor
  · rintro ⟨d, h1, rfl⟩
    rw [List.mem_filter, mem_keptDeps hw hs hn] at h1
    obtain ⟨⟨h1, h2⟩, h3⟩ := h1
    refine ⟨d, h1, h2, ?_, rfl⟩
    intro h
    rw [(isInputDep_iff hw h1).2 h] at h3
    cases h3
  · rintro ⟨d, h1, h2, h3, rfl⟩
    refine ⟨d, ?_, rfl⟩
    rw [List.mem_filter, mem_keptDeps hw hs hn]
    refine ⟨⟨h1, h2⟩, ?_⟩
    cases h : isInputDep m fg.nodes d with
    | false => rfl
    | true => exact absurd ((isInputDep_iff hw h1).1 h) h3

theorem nodeType_function {n : Node T V} (h : n.kind ≠ .external) : nodeType m n = .function := by
  unfold nodeType
  simp [h]

/-- What a box of the picture can be. -/
inductive BoxKind (m : Meta T) (shown : V → String) (fg : FnGraph T V) (o : Options) (mods : Dict Name (List Modifier))
    (sel : List Name) : Name → Option Label → List Look → Option Name → Prop
  | config {k v} : (k, v) ∈ fg.config → BoxKind m shown fg o mods sel k (some (.text k (shown v))) [.config] none
  | function {n} : fg.nodes.get? n.name = some n → n.name ∈ sel → nodeType m n = .function →
      BoxKind m shown fg o mods sel n.name (some (boxLabel m n)) (boxLooks m (modsOf mods n.name) n) none
  | field {n c} : fg.nodes.get? n.name = some n → n.name ∈ sel → o.displayFields = true → c ∈ m.columns n.name →
      BoxKind m shown fg o mods sel (n.name ++ ":" ++ c) (some (.text c "")) [.function, .field] (some ("cluster_" ++ n.name))
  | again {n} : fg.nodes.get? n.name = some n → n.name ∈ sel → nodeType m n = .function →
      BoxKind m shown fg o mods sel n.name none [] (some ("cluster_" ++ n.name))
  | table {n t} : (n, t, true) ∈ assigned m fg.nodes o sel (sel.filterMap (fun k => fg.nodes.get? k)) [] →
      BoxKind m shown fg o mods sel t (some (.table ((inputDeps m fg.nodes o sel n).map (tableRow m fg.nodes)))) [.input] none
  | legend {l} : BoxKind m shown fg o mods sel l.key none [l] (some legendName)

theorem box_kind (hw : WellFormed fg.nodes) (hs : Selection fg.nodes o sel) {id l ls r i}
    (h : Stmt.box id l ls r i ∈ display m shown fg o mods sel) : BoxKind m shown fg o mods sel id l ls i := by
  unfold display createGraph at h
  rw [names_selected hw hs.sub] at h
  rcases List.mem_append.1 h with h | h
  · obtain ⟨⟨k, v⟩, hp, e⟩ := List.mem_map.1 h
    cases e
    exact .config hp
  · rcases List.mem_append.1 h with h | h
    · obtain ⟨n, hn, h⟩ := List.mem_flatMap.1 h
      obtain ⟨h1, h2⟩ := (mem_selected hw n).1 hn
      unfold drawNode at h
      cases ht : nodeType m n with
      | function =>
        rw [ht] at h
        simp only at h
        rcases List.mem_cons.1 h with e | h
        · cases e
          exact .function h1 h2 ht
        · by_cases hc : shownColumns m o n.name = []
          · rw [if_pos hc] at h; cases h
          · rw [if_neg hc] at h
            rcases List.mem_append.1 h with h | h
            · obtain ⟨c, hc, e⟩ := List.mem_map.1 h
              cases e
              unfold shownColumns at hc
              split at hc
              · exact .field h1 h2 (by assumption) hc
              · cases hc
            · cases List.mem_singleton.1 h
              exact .again h1 h2 ht
      | _ => rw [ht] at h; cases h
    · rcases List.mem_append.1 h with h | h
      · rcases (mem_drawEdges _ _ _).1 h with ⟨n, hn, h⟩ | ⟨x, hx, h⟩
        · obtain ⟨d, _, _, _, e⟩ := (mem_drawArrows hw hs ((mem_selected hw n).1 hn).1 _).1 h
          cases e
        · rcases h with e | ⟨h1, e⟩
          · cases e
          · cases e
            obtain ⟨n, t, f⟩ := x
            simp only at h1
            subst h1
            exact .table hx
      · split at h
        · obtain ⟨l, _, e⟩ := List.mem_map.1 h
          cases e
          exact .legend
        · cases h

theorem arrow_kind (hw : WellFormed fg.nodes) (hs : Selection fg.nodes o sel) (a b : Name) (e c r : Bool) :
    Stmt.arrow a b e c r ∈ display m shown fg o mods sel ↔
      (b ∈ sel ∧ a ∈ sel ∧ DependsOn fg.nodes b a ∧ ¬ InputOf fg.nodes b a ∧ e = isExpandDep fg.nodes a ∧
        c = (fg.nodes.get? b).any (fun n => n.kind == .collect) ∧
        r = ((modsOf mods a).contains .isPath && (modsOf mods b).contains .isPath)) ∨
      (∃ n f, (n, a, f) ∈ assigned m fg.nodes o sel (sel.filterMap (fun k => fg.nodes.get? k)) [] ∧ b = n.name ∧
        e = false ∧ c = false ∧ r = false) := by
  unfold display createGraph
  rw [names_selected hw hs.sub, List.mem_append, List.mem_append, List.mem_append]
  constructor
  · rintro (h | h | h | h)
    · obtain ⟨p, _, e⟩ := List.mem_map.1 h; cases e
    · obtain ⟨n, hn, h⟩ := List.mem_flatMap.1 h
      unfold drawNode at h
      cases ht : nodeType m n with
      | function =>
        rw [ht] at h
        simp only at h
        rcases List.mem_cons.1 h with e | h
        · cases e
        · split at h
          · cases h
          · rcases List.mem_append.1 h with h | h
            · obtain ⟨c, _, e⟩ := List.mem_map.1 h; cases e
            · cases List.mem_singleton.1 h
      | _ => rw [ht] at h; cases h
    · rcases (mem_drawEdges _ _ _).1 h with ⟨n, hn, h⟩ | ⟨x, hx, h⟩
      · obtain ⟨h1, h2⟩ := (mem_selected hw n).1 hn
        obtain ⟨d, h3, h4, h5, e⟩ := (mem_drawArrows hw hs h1 _).1 h
        cases e
        exact .inl ⟨h2, h4, h3, h5, rfl, by rw [h1]; rfl, rfl⟩
      · rcases h with e | ⟨_, e⟩
        · cases e
          exact .inr ⟨x.1, x.2.2, hx, rfl, rfl, rfl, rfl⟩
        · cases e
    · split at h
      · obtain ⟨l, _, e⟩ := List.mem_map.1 h; cases e
      · cases h
  · rintro (⟨h1, h2, h3, h4, rfl, rfl, rfl⟩ | ⟨n, f, h1, rfl, rfl, rfl, rfl⟩)
    · refine .inr (.inr (.inl ((mem_drawEdges _ _ _).2 (.inl ?_))))
      obtain ⟨n, hn⟩ := Dict.mem_keys_iff.1 (hs.sub b h1)
      cases hw.name_eq hn
      refine ⟨n, (mem_selected hw n).2 ⟨hn, h1⟩, (mem_drawArrows hw hs hn _).2 ⟨a, h3, h2, h4, ?_⟩⟩
      rw [hn]; rfl
    · exact .inr (.inr (.inl ((mem_drawEdges _ _ _).2 (.inr ⟨_, h1, .inl rfl⟩))))

theorem box_of_function (hw : WellFormed fg.nodes) {n : Node T V} (hn : fg.nodes.get? n.name = some n) (hk : n.name ∈ sel)
    (ht : nodeType m n = .function) :
    ∃ r, Stmt.box n.name (some (boxLabel m n)) (boxLooks m (modsOf mods n.name) n) r none ∈ display m shown fg o mods sel := by
  refine ⟨(modsOf mods n.name).contains .isPath, ?_⟩
  unfold display createGraph
  refine List.mem_append_right _ (List.mem_append_left _ (List.mem_flatMap.2 ⟨n, (mem_selected hw n).2 ⟨hn, hk⟩, ?_⟩))
  unfold drawNode
  rw [ht]
  exact List.mem_cons_self

theorem box_of_config {k : Name} {v : V} (h : (k, v) ∈ fg.config) :
    Stmt.box k (some (.text k (shown v))) [.config] false none ∈ display m shown fg o mods sel := by
  unfold display createGraph
  exact List.mem_append_left _ (List.mem_map.2 ⟨_, h, rfl⟩)

theorem box_of_table (hw : WellFormed fg.nodes) (hs : Selection fg.nodes o sel) {n : Node T V} {t : Name}
    (h : (n, t, true) ∈ assigned m fg.nodes o sel (sel.filterMap (fun k => fg.nodes.get? k)) []) :
    Stmt.box t (some (.table ((inputDeps m fg.nodes o sel n).map (tableRow m fg.nodes)))) [.input] false none
      ∈ display m shown fg o mods sel := by
  unfold display createGraph
  rw [names_selected hw hs.sub]
  exact List.mem_append_right _ (List.mem_append_right _ (List.mem_append_left _
    ((mem_drawEdges _ _ _).2 (.inr ⟨_, h, .inr ⟨rfl, rfl⟩⟩))))

theorem cluster_not_legend {g : Graph T V} (hcl : Clear g) {k : Name} (hk : k ∈ g.keys) :
    some ("cluster_" ++ k) ≠ some "cluster__legend" := by
  intro h
  have h' := congrArg String.toList (Option.some.inj h)
  rw [String.toList_append, show "cluster__legend" = "cluster_" ++ "_legend" from by decide, String.toList_append] at h'
  have := String.toList_inj.1 (List.append_cancel_left h')
  subst this
  exact hcl.no_legend _ hk (by decide)

theorem looks_iff (ms : List Modifier) (n : Node T V) :
    (Look.output ∈ boxLooks m ms n ↔ Modifier.isOutput ∈ ms) ∧ (Look.override ∈ boxLooks m ms n ↔ Modifier.isOverride ∈ ms) ∧
    (Look.expand ∈ boxLooks m ms n ↔ n.kind = .expand) ∧ (Look.collect ∈ boxLooks m ms n ↔ n.kind = .collect) ∧
    (Look.materializer ∈ boxLooks m ms n ↔ m.saver n.name ≠ none ∨ m.loader n.name ≠ none) := by
  unfold boxLooks
  simp only [List.mem_append, List.mem_singleton, List.contains_iff_mem]
  refine ⟨?_, ?_, ?_, ?_, ?_⟩
  · by_cases h1 : n.kind = .expand <;> by_cases h2 : n.kind = .collect <;> by_cases h3 : (m.saver n.name).isSome = true <;>
      by_cases h4 : (m.loader n.name).isSome = true <;> by_cases h5 : Modifier.isOutput ∈ ms <;>
      by_cases h6 : Modifier.isOverride ∈ ms <;> simp_all
  · by_cases h1 : n.kind = .expand <;> by_cases h2 : n.kind = .collect <;> by_cases h3 : (m.saver n.name).isSome = true <;>
      by_cases h4 : (m.loader n.name).isSome = true <;> by_cases h5 : Modifier.isOutput ∈ ms <;>
      by_cases h6 : Modifier.isOverride ∈ ms <;> simp_all
  · by_cases h1 : n.kind = .expand <;> by_cases h2 : n.kind = .collect <;> by_cases h3 : (m.saver n.name).isSome = true <;>
      by_cases h4 : (m.loader n.name).isSome = true <;> by_cases h5 : Modifier.isOutput ∈ ms <;>
      by_cases h6 : Modifier.isOverride ∈ ms <;> simp_all
  · by_cases h1 : n.kind = .expand <;> by_cases h2 : n.kind = .collect <;> by_cases h3 : (m.saver n.name).isSome = true <;>
      by_cases h4 : (m.loader n.name).isSome = true <;> by_cases h5 : Modifier.isOutput ∈ ms <;>
      by_cases h6 : Modifier.isOverride ∈ ms <;> simp_all
  · cases h3 : m.saver n.name <;> cases h4 : m.loader n.name <;>
      by_cases h1 : n.kind = .expand <;> by_cases h2 : n.kind = .collect <;>  by_cases h5 : Modifier.isOutput ∈ ms <;>
      by_cases h6 : Modifier.isOverride ∈ ms <;> simp_all

theorem label_text (n : Node T V) : ∃ name type, boxLabel m n = .text name type ∧ (m.configTag n.name = none → name = n.name) ∧
    (m.saver n.name = none → m.loader n.name = none →
      type = m.typeName n.typ ∧ ∀ c, m.configTag n.name = some c → name = n.name ++ ": " ++ c) ∧
    (∀ c, m.loader n.name = some c ∨ (m.loader n.name = none ∧ m.saver n.name = some c) → name = n.name ∧ type = c) := by
  unfold boxLabel
  cases h1 : m.loader n.name with
  | some c => exact ⟨_, _, rfl, fun _ => rfl, fun _ h => by (cases h), by rintro _ (h | ⟨h, _⟩) <;> cases h; exact ⟨rfl, rfl⟩⟩
  | none =>
    cases h2 : m.saver n.name with
    | some c => exact ⟨_, _, rfl, fun _ => rfl, fun h => by (cases h), by rintro _ (h | ⟨_, h⟩) <;> cases h; exact ⟨rfl, rfl⟩⟩
    | none =>
      cases h3 : m.configTag n.name with
      | some k => exact ⟨_, _, rfl, fun h => by (cases h), fun _ _ => ⟨rfl, fun _ h => by cases h; rfl⟩,
          by rintro _ (h | ⟨_, h⟩) <;> cases h⟩
      | none => exact ⟨_, _, rfl, fun _ => rfl, fun _ _ => ⟨rfl, fun _ h => by cases h⟩, by rintro _ (h | ⟨_, h⟩) <;> cases h⟩

theorem split_colon : ∀ {a a' x x' : List Char}, ':' ∉ a → ':' ∉ a' → a ++ ':' :: x = a' ++ ':' :: x' → a = a' ∧ x = x'
  | [], [], _, _, _, _, e => ⟨rfl, (List.cons.inj e).2⟩
  | [], c :: a', _, _, _, h', e => absurd (List.mem_cons.2 (.inl (List.cons.inj e).1)) h'
  | c :: a, [], _, _, h, _, e => absurd (List.mem_cons.2 (.inl (List.cons.inj e).1.symm)) h
  | c :: a, c' :: a', _, _, h, h', e => by
    have h1 := List.cons.inj e
    obtain ⟨h2, h3⟩ := split_colon (fun hm => h (List.mem_cons_of_mem _ hm)) (fun hm => h' (List.mem_cons_of_mem _ hm)) h1.2
    exact ⟨by rw [h1.1, h2], h3⟩

theorem field_inj {k k' c c' : Name} (h : ':' ∉ k.toList) (h' : ':' ∉ k'.toList) (e : k ++ ":" ++ c = k' ++ ":" ++ c') :
    k = k' ∧ c = c' := by
  have e' := congrArg String.toList e
  simp only [String.toList_append, List.append_assoc] at e'
  obtain ⟨h1, h2⟩ := split_colon (x := c.toList) (x' := c'.toList) h h' e'
  exact ⟨String.toList_inj.1 h1, String.toList_inj.1 h2⟩

theorem drawn_field (hg : DriverGraph fg) (hcl : Clear fg.nodes) (hs : Selection fg.nodes o sel) {n : Node T V} {c : Name}
    (hn : fg.nodes.get? n.name = some n) (hk : n.name ∈ sel) (he : n.kind ≠ .external) (ho : o.displayFields = true)
    (hc : c ∈ m.columns n.name) :
    (∃ r, Stmt.box (n.name ++ ":" ++ c) (some (.text c "")) [.function, .field] r (some ("cluster_" ++ n.name))
      ∈ display m shown fg o mods sel) ∧
    ∀ l ls r i, Stmt.box (n.name ++ ":" ++ c) l ls r i ∈ display m shown fg o mods sel →
      l = some (.text c "") ∧ ls = [.function, .field] ∧ i = some ("cluster_" ++ n.name) := by
  constructor
  · refine ⟨false, ?_⟩
    unfold display createGraph
    refine List.mem_append_right _ (List.mem_append_left _ (List.mem_flatMap.2 ⟨n, (mem_selected hg.wf n).2 ⟨hn, hk⟩, ?_⟩))
    unfold drawNode
    rw [nodeType_function he]
    have hc' : c ∈ shownColumns m o n.name := by unfold shownColumns; rw [if_pos ho]; exact hc
    have hne : shownColumns m o n.name ≠ [] := by intro h; rw [h] at hc'; cases hc'
    simp only [if_neg hne]
    exact List.mem_cons_of_mem _ (List.mem_append_left _ (List.mem_map.2 ⟨c, hc', rfl⟩))
  · intro l ls r i h
    have hb := box_kind hg.wf hs h
    have hcol := colon_field n.name c
    have hin : n.name ∈ fg.nodes.keys := hs.sub _ hk
    generalize hid : n.name ++ ":" ++ c = id at hb
    rw [hid] at hcol
    cases hb with
    | config hv =>
      obtain ⟨n', h1, _⟩ := hg.config_in id (List.mem_map.2 ⟨_, hv, rfl⟩)
      exact absurd hcol (hcl.no_colon _ (Dict.mem_keys_iff.2 ⟨_, h1⟩))
    | function h1 h2 h3 => exact absurd hcol (hcl.no_colon _ (hs.sub _ h2))
    | field h1 h2 h3 h4 =>
      obtain ⟨e1, e2⟩ := field_inj (hcl.no_colon _ hin) (hcl.no_colon _ (hs.sub _ h2)) hid
      rw [e1, e2]
      exact ⟨rfl, rfl, rfl⟩
    | again h1 h2 h3 => exact absurd hcol (hcl.no_colon _ (hs.sub _ h2))
    | table h1 =>
      obtain ⟨h2, _, _, h3⟩ := assigned_sub _ _ _ h1
      have h4 := (mem_selected hg.wf _).1 h2
      have h3 := h3 rfl
      dsimp only at h3
      rw [h3] at hcol
      exact absurd hcol (colon_tableName (hcl.no_colon _ (hs.sub _ h4.2)))
    | legend => exact absurd hcol (colon_legend _)

theorem drawn_function (hg : DriverGraph fg) (hcl : Clear fg.nodes) (hs : Selection fg.nodes o sel) {n : Node T V}
    (hn : fg.nodes.get? n.name = some n) (hk : n.name ∈ sel) (he : n.kind ≠ .external) :
    Drawn (display m shown fg o mods sel) n.name (boxLabel m n) (boxLooks m (modsOf mods n.name) n) := by
  refine ⟨box_of_function hg.wf hn hk (nodeType_function he), fun l' ls' r i h => ?_⟩
  have hb := box_kind hg.wf hs h
  have hin : n.name ∈ fg.nodes.keys := hs.sub _ hk
  generalize hid : n.name = id at hb
  cases hb with
  | config hv =>
    obtain ⟨n', h1, h2⟩ := hg.config_in id (List.mem_map.2 ⟨_, hv, rfl⟩)
    rw [← hid, hn] at h1
    cases h1
    exact absurd h2 he
  | function h1 h2 h3 =>
    rw [← hid, hn] at h1
    cases h1
    exact .inl ⟨rfl, by rw [hid], rfl⟩
  | field h1 h2 h3 h4 =>
    exact absurd (hid ▸ colon_field _ _) (hcl.no_colon _ hin)
  | again h1 h2 h3 =>
    exact .inr ⟨rfl, rfl, cluster_not_legend hcl (hid ▸ hin)⟩
  | table h1 =>
    obtain ⟨h2, _, _, h3⟩ := assigned_sub _ _ _ h1
    have h3 := h3 rfl
    have h4 := (mem_selected hg.wf _).1 h2
    exact (hcl.no_table _ hin _ (Dict.mem_keys_iff.2 ⟨_, h4.1⟩) (hid.trans h3)).elim
  | legend =>
    exact absurd (hid ▸ legend_words _) (hcl.no_legend _ hin)

theorem drawn_config (hg : DriverGraph fg) (hcn : fg.config.keys.Nodup) (hcl : Clear fg.nodes) (hs : Selection fg.nodes o sel)
    (horig : ∀ k n, fg.nodes.get? k = some n → n.kind = .external → m.originating k = false) {k : Name} {v : V}
    (hkv : (k, v) ∈ fg.config) : Drawn (display m shown fg o mods sel) k (.text k (shown v)) [.config] := by
  refine ⟨⟨_, box_of_config hkv⟩, fun l' ls' r i h => ?_⟩
  have hb := box_kind hg.wf hs h
  obtain ⟨n, hn, he⟩ := hg.config_in k (List.mem_map.2 ⟨_, hkv, rfl⟩)
  have hin : k ∈ fg.nodes.keys := Dict.mem_keys_iff.2 ⟨_, hn⟩
  have hnt : nodeType m n ≠ .function := by
    have := horig k n hn he
    rw [← hg.wf.name_eq hn] at this
    unfold nodeType
    cases n.dependedOnBy.isEmpty <;> simp [he, this]
  generalize hid : k = id at hb
  cases hb with
  | config hv =>
    subst hid
    have h1 := Dict.get?_of_mem hcn hv
    have h2 := Dict.get?_of_mem hcn hkv
    rw [h1] at h2
    cases h2
    exact .inl ⟨rfl, rfl, rfl⟩
  | function h1 h2 h3 =>
    rw [← hid, hn] at h1
    cases h1
    exact absurd h3 hnt
  | field h1 h2 h3 h4 =>
    exact absurd (hid ▸ colon_field _ _) (hcl.no_colon _ hin)
  | again h1 h2 h3 =>
    rw [← hid, hn] at h1
    cases h1
    exact absurd h3 hnt
  | table h1 =>
    obtain ⟨h2, _, _, h3⟩ := assigned_sub _ _ _ h1
    have h3 := h3 rfl
    have h4 := (mem_selected hg.wf _).1 h2
    exact (hcl.no_table _ hin _ (Dict.mem_keys_iff.2 ⟨_, h4.1⟩) (hid.trans h3)).elim
  | legend =>
    exact absurd (hid ▸ legend_words _) (hcl.no_legend _ hin)

theorem drawn_table (hg : DriverGraph fg) (hcl : Clear fg.nodes) (hs : Selection fg.nodes o sel) {n : Node T V} {t : Name}
    (h : (n, t, true) ∈ assigned m fg.nodes o sel (sel.filterMap (fun k => fg.nodes.get? k)) []) :
    Drawn (display m shown fg o mods sel) t (.table ((inputDeps m fg.nodes o sel n).map (tableRow m fg.nodes))) [.input] := by
  refine ⟨⟨_, box_of_table hg.wf hs h⟩, fun l' ls' r i hm => ?_⟩
  have hb := box_kind hg.wf hs hm
  obtain ⟨h2, _, _, h3⟩ := assigned_sub _ _ _ h
  have ht : t = tableName n.name := h3 rfl
  obtain ⟨hn, _⟩ := (mem_selected hg.wf _).1 h2
  have hin : n.name ∈ fg.nodes.keys := Dict.mem_keys_iff.2 ⟨_, hn⟩
  have hno : t ∉ fg.nodes.keys := fun h => hcl.no_table _ h _ hin ht
  generalize hid : t = id at hb
  cases hb with
  | config hv =>
    obtain ⟨n', h1, _⟩ := hg.config_in id (List.mem_map.2 ⟨_, hv, rfl⟩)
    exact absurd (hid ▸ Dict.mem_keys_iff.2 ⟨_, h1⟩) hno
  | function h1 h2 h3 => exact absurd (hid ▸ Dict.mem_keys_iff.2 ⟨_, h1⟩) hno
  | field h1 h2 h3 h4 =>
    refine absurd ?_ (colon_tableName (hcl.no_colon _ hin))
    rw [← ht, hid]
    exact colon_field _ _
  | again h1 h2 h3 => exact absurd (hid ▸ Dict.mem_keys_iff.2 ⟨_, h1⟩) hno
  | table h1 =>
    rename_i n'
    obtain ⟨h4, _, _, h5⟩ := assigned_sub _ _ _ h1
    have h5 := h5 rfl
    obtain ⟨hn', _⟩ := (mem_selected hg.wf _).1 h4
    have h6 : n.name = n'.name := tableName_inj (ht.symm.trans (hid.trans h5))
    rw [h6, hn'] at hn
    cases hn
    exact .inl ⟨rfl, rfl, rfl⟩
  | legend => exact absurd (ht.symm.trans hid) (tableName_legend _ _)

/-- Selected nodes as members. -/
theorem assigned_node (hw : WellFormed fg.nodes) (hs : Selection fg.nodes o sel) {n : Node T V} {t : Name} {f : Bool}
    (h : (n, t, f) ∈ assigned m fg.nodes o sel (sel.filterMap (fun k => fg.nodes.get? k)) []) :
    fg.nodes.get? n.name = some n ∧ n.name ∈ sel ∧ o.hideInputs = false ∧ ∃ d, d ∈ sel ∧ InputOf fg.nodes n.name d := by
  obtain ⟨h1, h2, h3, _⟩ := assigned_sub _ _ _ h
  obtain ⟨h4, h5⟩ := (mem_selected hw _).1 h1
  refine ⟨h4, h5, h3, ?_⟩
  cases hi : inputDeps m fg.nodes o sel n with
  | nil => exact absurd hi h2
  | cons d _ =>
    obtain ⟨h6, h7⟩ := (mem_inputDeps (m := m) hw hs h4 d).1 (by rw [hi]; exact List.mem_cons_self)
    exact ⟨d, h7, h6⟩

/-- An arrow that does not start at a node starts at a table. -/
theorem table_arrow (hw : WellFormed fg.nodes) (hs : Selection fg.nodes o sel) {t k : Name} (ht : t ∉ fg.nodes.keys)
    (h : Arrow (display m shown fg o mods sel) t k) : ∃ n f,
      (n, t, f) ∈ assigned m fg.nodes o sel (sel.filterMap (fun k => fg.nodes.get? k)) [] ∧ k = n.name := by
  obtain ⟨e, c, r, h⟩ := h
  rcases (arrow_kind hw hs _ _ _ _ _).1 h with ⟨_, h2, _⟩ | ⟨n, f, h1, h2, _⟩
  · exact absurd (hs.sub _ h2) ht
  · exact ⟨n, f, h1, h2⟩

theorem table_not_node (hw : WellFormed fg.nodes) (hcl : Clear fg.nodes) {n : Node T V} {t : Name} {f : Bool}
    (h : (n, t, f) ∈ assigned m fg.nodes o sel (sel.filterMap (fun k => fg.nodes.get? k)) []) : t ∉ fg.nodes.keys := by
  obtain ⟨n', h1, h2, _⟩ := assigned_owner h
  obtain ⟨h4, _⟩ := (mem_selected hw _).1 (assigned_sub _ _ _ h1).1
  intro h
  exact hcl.no_table _ h _ (Dict.mem_keys_iff.2 ⟨_, h4⟩) h2

theorem same_inputs (hw : WellFormed fg.nodes) (hs : Selection fg.nodes o sel) {n n' : Node T V}
    (hn : fg.nodes.get? n.name = some n) (hn' : fg.nodes.get? n'.name = some n') :
    sameSet (inputDeps m fg.nodes o sel n) (inputDeps m fg.nodes o sel n') = true ↔
      ∀ d, d ∈ sel → (InputOf fg.nodes n.name d ↔ InputOf fg.nodes n'.name d) := by
  rw [sameSet_iff]
  constructor
  · intro h d hd
    have := h d
    rw [mem_inputDeps hw hs hn, mem_inputDeps hw hs hn'] at this
    exact ⟨fun h' => (this.1 ⟨h', hd⟩).1, fun h' => (this.2 ⟨h', hd⟩).1⟩
  · intro h d
    rw [mem_inputDeps hw hs hn, mem_inputDeps hw hs hn']
    exact ⟨fun h' => ⟨(h d h'.2).1 h'.1, h'.2⟩, fun h' => ⟨(h d h'.2).2 h'.1, h'.2⟩⟩

/-- **C78, a picture is faithful** to the nodes it is given. -/
theorem display_faithful (hg : DriverGraph fg) (hcn : fg.config.keys.Nodup) (hcl : Clear fg.nodes)
    (horig : ∀ k n, fg.nodes.get? k = some n → n.kind = .external → m.originating k = false)
    (hs : Selection fg.nodes o sel) :
    Faithful m shown fg o (fun k => k ∈ sel) (fun k => Modifier.isOutput ∈ modsOf mods k)
      (fun k => Modifier.isOverride ∈ modsOf mods k) (display m shown fg o mods sel) := by
  have hw := hg.wf
  refine ⟨?_, ?_, ?_, ?_, ?_, ?_, ?_, ?_, ?_, ?_⟩
  · intro k n hn he hk
    cases hw.name_eq hn
    obtain ⟨name, type, h1, h2, h3, h9⟩ := label_text (m := m) n
    obtain ⟨h4, h5, h6, h7, h8⟩ := looks_iff (m := m) (modsOf mods n.name) n
    refine ⟨name, type, _, ?_, h2, h3, h9, h4, h5, h6, h7, h8⟩
    rw [← h1]
    exact drawn_function hg hcl hs hn hk he
  · intro k v hkv
    exact drawn_config hg hcn hcl hs horig hkv
  · rintro id ⟨l, ls, r, i, h, hi⟩
    have hb := box_kind hw hs h
    cases hb with
    | config hv => exact .inl (List.mem_map.2 ⟨_, hv, rfl⟩)
    | function h1 h2 h3 =>
      rename_i n
      refine .inr (.inl ⟨n, h1, ?_, h2⟩)
      intro he
      have ho := horig _ _ h1 he
      unfold nodeType at h3
      cases h4 : n.dependedOnBy.isEmpty <;> simp [he, ho, h4] at h3
    | field h1 h2 h3 h4 => exact .inr (.inr (.inr ⟨h3, _, _, h2, h4, rfl⟩))
    | again h1 h2 h3 =>
      rename_i n
      refine .inr (.inl ⟨n, h1, ?_, h2⟩)
      intro he
      have ho := horig _ _ h1 he
      unfold nodeType at h3
      cases h4 : n.dependedOnBy.isEmpty <;> simp [he, ho, h4] at h3
    | table h1 =>
      obtain ⟨h2, h3, h4, d, h5, h6⟩ := assigned_node hw hs h1
      exact .inr (.inr (.inl ⟨h4, _, d, h3, h5, h6, (assigned_sub _ _ _ h1).2.2.2 rfl⟩))
    | legend => exact absurd rfl hi
  · intro a b ha
    constructor
    · rintro ⟨e, c, r, h⟩
      rcases (arrow_kind hw hs _ _ _ _ _).1 h with ⟨h1, h2, h3, h4, _⟩ | ⟨n, f, h1, _⟩
      · exact ⟨h2, h1, h3, h4⟩
      · exact absurd ha (table_not_node hw hcl h1)
    · rintro ⟨h1, h2, h3, h4⟩
      exact ⟨_, _, _, (arrow_kind hw hs _ _ _ _ _).2 (.inl ⟨h2, h1, h3, h4, rfl, rfl, rfl⟩)⟩
  · rintro a b ⟨e, c, r, h⟩
    rcases (arrow_kind hw hs _ _ _ _ _).1 h with ⟨h1, _⟩ | ⟨n, f, h1, h2, _⟩
    · exact h1
    · rw [h2]; exact (assigned_node hw hs h1).2.1
  · intro a b e c r ha h
    rcases (arrow_kind hw hs _ _ _ _ _).1 h with ⟨h1, _, _, _, he, hc, _⟩ | ⟨n, f, h1, _⟩
    · rw [he, hc]
      unfold isExpandDep
      constructor
      · cases fg.nodes.get? a <;> simp
      · cases fg.nodes.get? b <;> simp
    · exact absurd ha (table_not_node hw hcl h1)
  · intro ho k n c hn he hk hc
    cases hw.name_eq hn
    exact drawn_field hg hcl hs hn hk he ho hc
  · intro ho k d hk hd hi
    obtain ⟨n, hn⟩ := Dict.mem_keys_iff.1 (hs.sub k hk)
    cases hw.name_eq hn
    have hne : inputDeps m fg.nodes o sel n ≠ [] := by
      intro h
      have := (mem_inputDeps (m := m) hw hs hn d).2 ⟨hi, hd⟩
      rw [h] at this
      cases this
    obtain ⟨t, f, ha⟩ := assigned_all ho _ [] n ((mem_selected hw n).2 ⟨hn, hk⟩) hne
    obtain ⟨n', hb, _, hsame, _⟩ := assigned_owner ha
    refine ⟨t, _, table_not_node hw hcl ha, ⟨_, _, _, (arrow_kind hw hs _ _ _ _ _).2 (.inr ⟨n, f, ha, rfl, rfl, rfl, rfl⟩)⟩,
      ?_, drawn_table hg hcl hs hb, ?_⟩
    · intro t' ht' har
      obtain ⟨n1, f1, h1, h2⟩ := table_arrow hw hs ht' har
      have h3 := (assigned_node hw hs h1).1
      rw [← h2, hn] at h3
      cases h3
      exact (assigned_once _ (nodup_selected hw hs) _ _ _ _ _ _ h1 ha).1
    · intro x s
      have hx := sameSet_iff.1 hsame x
      rw [mem_inputDeps hw hs hn] at hx
      rw [List.mem_map]
      constructor
      · rintro ⟨y, hy, e⟩
        cases e
        obtain ⟨h1, h2⟩ := hx.1 hy
        obtain ⟨xn, h3, _⟩ := h1.2
        exact ⟨h2, h1, xn, h3, by rw [h3]; rfl⟩
      · rintro ⟨h1, h2, xn, h3, rfl⟩
        refine ⟨x, hx.2 ⟨h2, h1⟩, ?_⟩
        unfold tableRow
        rw [h3]; rfl
  · intro t k ht h
    obtain ⟨n, f, h1, rfl⟩ := table_arrow hw hs ht h
    obtain ⟨_, _, h2, h3⟩ := assigned_node hw hs h1
    exact ⟨h2, h3⟩
  · intro t t' k k' ht ht' h h'
    obtain ⟨n, f, h1, rfl⟩ := table_arrow hw hs ht h
    obtain ⟨n', f', h1', rfl⟩ := table_arrow hw hs ht' h'
    have hn := (assigned_node hw hs h1).1
    have hn' := (assigned_node hw hs h1').1
    constructor
    · rintro rfl
      obtain ⟨x, h2, h3, h4, h5⟩ := assigned_owner h1
      obtain ⟨x', h2', h3', h4', h5'⟩ := assigned_owner h1'
      have hx := (assigned_node hw hs h2).1
      have hx' := (assigned_node hw hs h2').1
      have e : x.name = x'.name := tableName_inj (h3.symm.trans h3')
      rw [e, hx'] at hx
      cases hx
      rcases h5 with rfl | h5
      · rcases h5' with rfl | h5'
        · exact .inl rfl
        · exact .inr ⟨h5', (same_inputs hw hs hn hn').1 h4'⟩
      · refine .inr ⟨h5, (same_inputs (m := m) hw hs hn hn').1 (sameSet_iff.2 fun y => ?_)⟩
        exact (sameSet_iff.1 h4 y).symm.trans (sameSet_iff.1 h4' y)
    · rintro (h | ⟨hd, h⟩)
      · rw [h, hn'] at hn
        cases hn
        exact (assigned_once _ (nodup_selected hw hs) _ _ _ _ _ _ h1 h1').1
      · exact assigned_share hd _ _ _ _ _ _ _ _ h1 h1' ((same_inputs hw hs hn hn').2 h)

/-- The same picture for an equivalent description of what is selected. -/
theorem Faithful.congr {Sel Sel' Out Out' Ovr Ovr' : Name → Prop} {p : List Stmt} {b : Bool}
    (h : Faithful m shown fg { o with strict := b } Sel Out Ovr p) (h1 : ∀ k, Sel k ↔ Sel' k)
    (h2 : ∀ k, Sel k → (Out k ↔ Out' k)) (h3 : ∀ k, Sel k → (Ovr k ↔ Ovr' k)) :
    Faithful m shown fg o Sel' Out' Ovr' p := by
  have e : Sel = Sel' := funext fun k => propext (h1 k)
  subst e
  refine ⟨?_, h.config, h.only, h.arrows, h.targets, h.decorations, h.fields, h.tables, h.no_table, h.sharing⟩
  intro k n hn he hk
  obtain ⟨name, type, ls, a1, a2, a3, a0, a4, a5, a6⟩ := h.functions k n hn he hk
  exact ⟨name, type, ls, a1, a2, a3, a0, a4.trans (h2 k hk), a5.trans (h3 k hk), a6⟩

theorem modsOf_addMod (x y : Modifier) (d : Dict Name (List Modifier)) (k k' : Name) :
    x ∈ modsOf (addMod y d k) k' ↔ x ∈ modsOf d k' ∨ (x = y ∧ k' = k) := by
  unfold addMod
  by_cases h : k = k'
  · subst h
    have : modsOf (Dict.set d k (modsOf d k ++ [y])) k = modsOf d k ++ [y] := by
      show (Dict.get? (Dict.set d k (modsOf d k ++ [y])) k).getD [] = _
      rw [Dict.get?_set_self]; rfl
    rw [this, List.mem_append, List.mem_singleton]
    simp
  · have : modsOf (Dict.set d k (modsOf d k ++ [y])) k' = modsOf d k' := by
      show (Dict.get? (Dict.set d k (modsOf d k ++ [y])) k').getD [] = _
      rw [Dict.get?_set_ne _ _ h]; rfl
    rw [this]
    constructor
    · exact .inl
    · rintro (h' | ⟨_, h'⟩)
      · exact h'
      · exact absurd h'.symm h

theorem modsOf_foldl (x y : Modifier) (l : List Name) (k : Name) : ∀ d : Dict Name (List Modifier),
    x ∈ modsOf (l.foldl (addMod y) d) k ↔ x ∈ modsOf d k ∨ (x = y ∧ k ∈ l) := by
  induction l with
  | nil => intro d; simp
  | cons a rest ih =>
    intro d
    rw [List.foldl_cons, ih, modsOf_addMod, List.mem_cons]
    grind

theorem modsOf_outputs (x : Modifier) (l : List Name) (k : Name) : ∀ d : Dict Name (List Modifier),
    (∀ k y, y ∈ modsOf d k → y = .isOutput) →
    (x ∈ modsOf (l.foldl (fun d k => d.set k [Modifier.isOutput]) d) k ↔ x ∈ modsOf d k ∨ (x = .isOutput ∧ k ∈ l)) := by
  induction l with
  | nil => intro d _; simp
  | cons a rest ih =>
    intro d hd
    have hset : ∀ k' y, y ∈ modsOf (Dict.set d a [Modifier.isOutput]) k' ↔ y ∈ modsOf d k' ∨ (y = .isOutput ∧ k' = a) := by
      intro k' y
      by_cases h : a = k'
      · subst h
        have : modsOf (Dict.set d a [Modifier.isOutput]) a = [.isOutput] := by
          show (Dict.get? (Dict.set d a [Modifier.isOutput]) a).getD [] = _
          rw [Dict.get?_set_self]; rfl
        rw [this, List.mem_singleton]
        exact ⟨fun h => .inr ⟨h, rfl⟩, fun h => h.elim (fun h => hd _ _ h) (fun h => h.1)⟩
      · have : modsOf (Dict.set d a [Modifier.isOutput]) k' = modsOf d k' := by
          show (Dict.get? (Dict.set d a [Modifier.isOutput]) k').getD [] = _
          rw [Dict.get?_set_ne _ _ h]; rfl
        rw [this]
        exact ⟨.inl, fun h' => h'.elim id (fun h' => absurd h'.2.symm h)⟩
    rw [List.foldl_cons, ih _ (fun k' y hy => ((hset k' y).1 hy).elim (hd _ _) (·.1)), hset, List.mem_cons]
    grind

theorem modsOf_users {α : Type} (f : α → Name) (l : List α) (k : Name) (x : Modifier)
    (h : x ∈ modsOf (l.map (fun a => (f a, [Modifier.isUserInput]))) k) : x = .isUserInput := by
  unfold modsOf at h
  cases hg : Dict.get? (K := Name) (V := List Modifier) (l.map (fun a => (f a, [Modifier.isUserInput]))) k with
  | none => rw [hg] at h; cases h
  | some v =>
    rw [hg] at h
    obtain ⟨a, _, e⟩ := List.mem_map.1 (Dict.get?_mem hg)
    cases e
    exact List.mem_singleton.1 h

/-- **C78, everything.**  `display_all_functions` draws every function, every dependency between functions, and every function's
inputs. -/
theorem C78_all_partial (hg : DriverGraph fg) (hcn : fg.config.keys.Nodup) (hcl : Clear fg.nodes)
    (horig : ∀ k n, fg.nodes.get? k = some n → n.kind = .external → m.originating k = false) :
    Faithful m shown fg o (fun k => k ∈ fg.nodes.keys) (fun _ => False) (fun _ => False) (displayAll m shown fg o) := by
  have hs : Selection fg.nodes { o with strict := false } fg.nodes.keys :=
    ⟨hg.wf.keys_nodup, fun _ h => h, .inr fun _ h => h⟩
  refine (display_faithful hg hcn hcl horig hs).congr (fun _ => .rfl) (fun k _ => ?_) (fun k _ => ?_)
  · exact ⟨fun h => (by cases modsOf_users _ _ _ _ h), False.elim⟩
  · exact ⟨fun h => (by cases modsOf_users _ _ _ _ h), False.elim⟩

theorem mem_executionMods (x : Modifier) (finalVars : List Name) (overrides : Option (Dict Name V)) (s : Visited)
    (l : List Name) (k : Name) : x ∈ modsOf (executionMods finalVars overrides s l) k ↔
      (x = .isOutput ∧ k ∈ finalVars) ∨ (x = .isUserInput ∧ k ∈ s.userNodes) ∨
      (x = .isOverride ∧ k ∈ l ∧ isOverridden overrides k = true) := by
  unfold executionMods
  rw [modsOf_foldl, modsOf_foldl, modsOf_outputs _ _ _ [] (by intro k y h; cases h), List.mem_filter]
  have : x ∈ modsOf ([] : Dict Name (List Modifier)) k ↔ False := ⟨fun h => (by cases h), False.elim⟩
  rw [this]
  grind

/-- The picture of an execution, for the nodes found by the search. -/
theorem execution_faithful (hg : DriverGraph fg) (hcn : fg.config.keys.Nodup) (hcl : Clear fg.nodes)
    (horig : ∀ k n, fg.nodes.get? k = some n → n.kind = .external → m.originating k = false)
    {orc : TypeOracle T V} {bypass : Bool} {finalVars : List Name} {inputs overrides : Option (Dict Name V)} {p : List Stmt}
    (h : visualizeExecution m shown orc fg o bypass finalVars inputs overrides = .ok p) :
    ∃ s, getUpstreamNodes fg finalVars inputs overrides = .ok s ∧
      Faithful m shown fg o (fun k => k ∈ s.nodes) (fun k => k ∈ finalVars) (fun k => (overrides.getD []).has k = true) p := by
  unfold visualizeExecution at h
  have hspec := directionalDfs_spec (fg := fg) (next := upstreamNext fg inputs overrides)
    (upstream_closed (config := fg.config) hg.wf inputs overrides)
    (fun k hk => (hg.config_in k ((Dict.has_iff _ _).1 hk)).imp (fun _ h => h.1)) finalVars inputs
  obtain ⟨s2, hs2, hmem, huser, hnd⟩ := hspec
  cases hu : getUpstreamNodes fg finalVars inputs overrides with
  | err e s => rw [hu] at h; cases h
  | ok s =>
    rw [hu] at h
    have hss : s2 = s := by
      unfold getUpstreamNodes at hu
      rw [hs2] at hu
      split at hu
      · cases hu; rfl
      · cases hu
    subst hss
    simp only at h
    cases hv : (if bypass then Except.ok () else validateInputs orc fg s2.userNodes inputs s2.nodes) with
    | error e => rw [hv] at h; cases h
    | ok u =>
      rw [hv] at h
      have hp := (Except.ok.inj h).symm
      subst hp
      refine ⟨s2, rfl, ?_⟩
      have hall : ∀ k, k ∈ s2.userNodes.foldl setAdd s2.nodes ↔ k ∈ s2.nodes := by
        intro k
        rw [mem_foldl_setAdd]
        exact ⟨fun h => h.elim id (fun h => ((huser k).1 h).1), .inl⟩
      have hs : Selection fg.nodes { o with strict := true } (s2.userNodes.foldl setAdd s2.nodes) := by
        refine ⟨nodup_foldl_setAdd _ _ hnd, fun k hk => ?_, .inl rfl⟩
        obtain ⟨r, _, ⟨rn, hr⟩, hreach⟩ := (hmem k).1 ((hall k).1 hk)
        refine hreach.closed (P := fun y => y ∈ fg.nodes.keys) ?_ (Dict.mem_keys_iff.2 ⟨rn, hr⟩)
        rintro a b _ ⟨an, ha, hb⟩
        exact Dict.mem_keys_iff.2 ((upstream_closed (config := fg.config) hg.wf inputs overrides a an ha).2 b hb)
      refine (display_faithful hg hcn hcl horig hs).congr hall (fun k _ => ?_) (fun k hk => ?_)
      · rw [mem_executionMods]
        simp
      · rw [mem_executionMods]
        simp only [reduceCtorEq, false_and, false_or, true_and]
        exact ⟨fun h => h.2, fun h => ⟨hk, h⟩⟩

/-- **C78, executions.**  `visualize_execution` draws exactly what the requested variables need, given the inputs and with the
overrides cutting off what is above them: the requested variables are marked as outputs, the overridden ones as overrides; and every
function that the execution calls has a box. -/
theorem C78_execution_partial (hg : DriverGraph fg) (hcn : fg.config.keys.Nodup) (hcl : Clear fg.nodes)
    (horig : ∀ k n, fg.nodes.get? k = some n → n.kind = .external → m.originating k = false)
    {orc : TypeOracle T V} {bypass : Bool} {finalVars : List Name} {ins : Dict Name V} {overrides : Option (Dict Name V)}
    (hin : ins.keys.Nodup) {p : List Stmt}
    (h : visualizeExecution m shown orc fg o bypass finalVars (some ins) overrides = .ok p) :
    Faithful m shown fg o
      (fun k => ∃ r ∈ finalVars, r ∈ fg.nodes.keys ∧
        Reaches (RunEdge fg.nodes (fg.config.merge ins) (overrides.getD [])) r k)
      (fun k => k ∈ finalVars) (fun k => k ∈ (overrides.getD []).keys) p ∧
    ∀ c ∈ (executeSubdag fg.nodes (requestedNodes fg.nodes finalVars) (fg.config.merge ins) (overrides.getD [])).state.calls,
      HasBox p c.1 := by
  obtain ⟨s, hs, hf⟩ := execution_faithful hg hcn hcl horig h
  obtain ⟨h1, _, h3, _⟩ := C11_plan_exact_partial hg hin hs
  refine ⟨hf.congr (b := o.strict) (fun k => ?_) (fun k _ => .rfl) (fun k _ => Dict.has_iff _ _), fun c hc => ?_⟩
  · rw [h1]
    constructor
    · rintro ⟨r, hr, hn, hreach⟩; exact ⟨r, hr, Dict.mem_keys_iff.2 hn, hreach⟩
    · rintro ⟨r, hr, hn, hreach⟩; exact ⟨r, hr, Dict.mem_keys_iff.1 hn, hreach⟩
  · obtain ⟨_, _, n, hn, he⟩ := C03_only_needed hg.wf _ (requestedNodes_ok hg.wf finalVars) _ _ c hc
    obtain ⟨_, _, _, ⟨⟨r, hd⟩, _⟩, _⟩ := hf.functions c.1 n hn he (h3 c hc)
    exact ⟨_, _, r, none, hd, by simp⟩

/-- The same when no inputs are passed: then optional inputs are drawn too. -/
theorem C78_execution_no_inputs_partial (hg : DriverGraph fg) (hcn : fg.config.keys.Nodup) (hcl : Clear fg.nodes)
    (horig : ∀ k n, fg.nodes.get? k = some n → n.kind = .external → m.originating k = false)
    {orc : TypeOracle T V} {bypass : Bool} {finalVars : List Name} {overrides : Option (Dict Name V)} {p : List Stmt}
    (h : visualizeExecution m shown orc fg o bypass finalVars none overrides = .ok p) :
    Faithful m shown fg o
      (fun k => ∃ r ∈ finalVars, r ∈ fg.nodes.keys ∧
        Reaches (fun a b => a ∉ (overrides.getD []).keys ∧ DependsOn fg.nodes a b) r k)
      (fun k => k ∈ finalVars) (fun k => k ∈ (overrides.getD []).keys) p := by
  obtain ⟨s, hs, hf⟩ := execution_faithful hg hcn hcl horig h
  obtain ⟨s2, hs2, hmem, _⟩ := directionalDfs_spec (fg := fg) (next := upstreamNext fg none overrides)
    (upstream_closed (config := fg.config) hg.wf none overrides)
    (fun k hk => (hg.config_in k ((Dict.has_iff _ _).1 hk)).imp (fun _ h => h.1)) finalVars none
  have hss : s2 = s := by
    unfold getUpstreamNodes at hs
    rw [hs2] at hs
    split at hs
    · cases hs; rfl
    · cases hs
  subst hss
  have hedge : ∀ a b, nextOf fg.nodes (upstreamNext fg none overrides) a b ↔
      (a ∉ (overrides.getD []).keys ∧ DependsOn fg.nodes a b) := by
    intro a b
    have := nextOf_upstream_none (config := fg.config) hg.wf overrides a b
    rw [Dict.get?_eq_none_iff] at this
    exact this
  refine hf.congr (b := o.strict) (fun k => ?_) (fun k _ => .rfl) (fun k _ => Dict.has_iff _ _)
  rw [hmem]
  constructor
  · rintro ⟨r, hr, hn, hreach⟩
    exact ⟨r, hr, Dict.mem_keys_iff.2 hn, hreach.mono fun a b e => (hedge a b).1 e⟩
  · rintro ⟨r, hr, hn, hreach⟩
    exact ⟨r, hr, Dict.mem_keys_iff.1 hn, hreach.mono fun a b e => (hedge a b).2 e⟩

theorem mem_depsOf (hw : WellFormed fg.nodes) (k d : Name) : d ∈ depsOf fg.nodes k ↔ DependsOn fg.nodes k d := by
  unfold depsOf
  cases hn : fg.nodes.get? k with
  | none => exact ⟨fun h => by (cases h), fun ⟨n, h, _⟩ => by rw [hn] at h; cases h⟩
  | some n =>
    show d ∈ n.dependencies ↔ _
    rw [hw.deps_eq hn]
    exact ⟨fun h => ⟨n, hn, h⟩, fun ⟨n', h, h'⟩ => by rw [hn] at h; cases h; exact h'⟩

theorem mem_withDeps (hw : WellFormed fg.nodes) (l : List Name) (k : Name) :
    k ∈ (l.flatMap (depsOf fg.nodes)).foldl setAdd l ↔ k ∈ l ∨ ∃ b ∈ l, DependsOn fg.nodes b k := by
  rw [mem_foldl_setAdd, List.mem_flatMap]
  simp only [mem_depsOf hw]

/-- **C78, downstream.**  `display_downstream_of` draws everything that depends on the given names, and what these nodes depend on
directly; unknown names raise the error that lists them. -/
theorem C78_downstream_partial (hg : DriverGraph fg) (hcn : fg.config.keys.Nodup) (hcl : Clear fg.nodes)
    (horig : ∀ k n, fg.nodes.get? k = some n → n.kind = .external → m.originating k = false) (names : List Name) :
    ((∀ k ∈ names, k ∈ fg.nodes.keys) → ∃ p, displayDownstreamOf m shown fg o names = .ok p ∧
      Faithful m shown fg o
        (fun k => ∃ b, (b = k ∨ DependsOn fg.nodes b k) ∧ b ∈ fg.nodes.keys ∧
          ∃ r ∈ names, Reaches (DependsOn fg.nodes) b r)
        (fun _ => False) (fun _ => False) p) ∧
    (¬ (∀ k ∈ names, k ∈ fg.nodes.keys) →
      displayDownstreamOf m shown fg o names = .error (.unknown (names.filter (fun k => decide (k ∉ fg.nodes.keys))))) := by
  have hunk : unknownNames fg names = [] ↔ ∀ k ∈ names, k ∈ fg.nodes.keys := by
    unfold unknownNames
    rw [List.filter_eq_nil_iff]
    simp
  obtain ⟨h1, h2⟩ := C09_downstream hg names
  constructor
  · intro h
    obtain ⟨s, hs, hnd, hmem⟩ := h1 (hunk.2 h)
    refine ⟨_, by unfold displayDownstreamOf; rw [hs], ?_⟩
    have hsel : Selection fg.nodes { o with strict := true } ((s.nodes.flatMap (depsOf fg.nodes)).foldl setAdd s.nodes) := by
      refine ⟨nodup_foldl_setAdd _ _ hnd, fun k hk => ?_, .inl rfl⟩
      rcases (mem_withDeps hg.wf _ _).1 hk with hk | ⟨b, _, bn, hb, hd⟩
      · obtain ⟨_, _, _, h⟩ := (hmem k).1 hk; exact h
      · exact Dict.mem_keys_iff.2 (hg.wf.deps_in hb hd)
    refine (display_faithful hg hcn hcl horig hsel).congr (fun k => ?_) (fun k _ => ?_) (fun k _ => ?_)
    · rw [mem_withDeps hg.wf]
      constructor
      · rintro (hk | ⟨b, hb, hd⟩)
        · obtain ⟨r, hr, h3, h4⟩ := (hmem k).1 hk
          exact ⟨k, .inl rfl, h4, r, hr, h3⟩
        · obtain ⟨r, hr, h3, h4⟩ := (hmem b).1 hb
          exact ⟨b, .inr hd, h4, r, hr, h3⟩
      · rintro ⟨b, hb, h4, r, hr, h3⟩
        have := (hmem b).2 ⟨r, hr, h3, h4⟩
        rcases hb with rfl | hd
        · exact .inl this
        · exact .inr ⟨b, this, hd⟩
    · exact ⟨fun h => (by cases h), False.elim⟩
    · exact ⟨fun h => (by cases h), False.elim⟩
  · intro h
    obtain ⟨s, hs⟩ := h2 (fun e => h (hunk.1 e))
    unfold displayDownstreamOf
    rw [hs]
    rfl

/-- **C78, upstream.**  `display_upstream_of` draws everything the given names depend on. -/
theorem C78_upstream_partial (hg : DriverGraph fg) (hcn : fg.config.keys.Nodup) (hcl : Clear fg.nodes)
    (horig : ∀ k n, fg.nodes.get? k = some n → n.kind = .external → m.originating k = false) (names : List Name) :
    ((∀ k ∈ names, k ∈ fg.nodes.keys) → ∃ p, displayUpstreamOf m shown fg o names = .ok p ∧
      Faithful m shown fg o (fun k => ∃ r ∈ names, Reaches (DependsOn fg.nodes) r k) (fun _ => False) (fun _ => False) p) ∧
    (¬ (∀ k ∈ names, k ∈ fg.nodes.keys) →
      displayUpstreamOf m shown fg o names = .error (.unknown (names.filter (fun k => decide (k ∉ fg.nodes.keys))))) := by
  have hunk : unknownNames fg names = [] ↔ ∀ k ∈ names, k ∈ fg.nodes.keys := by
    unfold unknownNames
    rw [List.filter_eq_nil_iff]
    simp
  obtain ⟨h1, h2⟩ := C09_upstream hg names
  constructor
  · intro h
    obtain ⟨s, hs, hnd, hmem⟩ := h1 (hunk.2 h)
    refine ⟨_, by unfold displayUpstreamOf; rw [hs], ?_⟩
    have hsel : Selection fg.nodes { o with strict := true } s.nodes := by
      refine ⟨hnd, fun k hk => ?_, .inl rfl⟩
      obtain ⟨r, hr, hreach⟩ := (hmem k).1 hk
      refine hreach.closed (P := fun y => y ∈ fg.nodes.keys) ?_ (h r hr)
      rintro a b _ ⟨an, ha, hb⟩
      exact Dict.mem_keys_iff.2 (hg.wf.deps_in ha hb)
    refine (display_faithful hg hcn hcl horig hsel).congr hmem (fun k _ => ?_) (fun k _ => ?_)
    · exact ⟨fun h => (by cases modsOf_users id _ _ _ h), False.elim⟩
    · exact ⟨fun h => (by cases modsOf_users id _ _ _ h), False.elim⟩
  · intro h
    obtain ⟨s, hs⟩ := h2 (fun e => h (hunk.1 e))
    unfold displayUpstreamOf
    rw [hs]
    rfl

/-- **C78, paths.**  `visualize_path_between` fails if there is no path; otherwise it draws the nodes on the paths (and, unless the
path is to be shown strictly, what they depend on directly), and the arrows in the colour of the path are exactly the dependencies
on a path. -/
theorem C78_path_partial (hg : DriverGraph fg) (hcn : fg.config.keys.Nodup) (hcl : Clear fg.nodes)
    (horig : ∀ k n, fg.nodes.get? k = some n → n.kind = .external → m.originating k = false) (strictPath : Bool)
    {up down : Name} (hu : up ∈ fg.nodes.keys) (hd : down ∈ fg.nodes.keys) :
    (¬ Reaches (DependsOn fg.nodes) down up → visualizePathBetween m shown fg o strictPath up down = .ok none) ∧
    (Reaches (DependsOn fg.nodes) down up → ∃ p, visualizePathBetween m shown fg o strictPath up down = .ok (some p) ∧
      Faithful m shown fg o
        (fun k => ∃ b, (b = k ∨ (strictPath = false ∧ DependsOn fg.nodes b k)) ∧
          Reaches (DependsOn fg.nodes) down b ∧ Reaches (DependsOn fg.nodes) b up)
        (fun _ => False) (fun _ => False) p ∧
      ∀ a b, PathArrow p a b ↔ Reaches (DependsOn fg.nodes) down b ∧ DependsOn fg.nodes b a ∧
        Reaches (DependsOn fg.nodes) a up ∧ ¬ InputOf fg.nodes b a) := by
  obtain ⟨l, hl, hnd, hmem⟩ := C10_path_between hg hu hd
  have hpath : nodesForPath fg up down = .ok l := by
    unfold pathBetween at hl
    rw [(Dict.has_iff _ _).2 hu, (Dict.has_iff _ _).2 hd] at hl
    exact hl
  have hstart : visualizePathBetween m shown fg o strictPath up down = (if l = [] then .ok none
      else .ok (some (display m shown fg { o with strict := true }
        (l.foldl (addMod .isPath)
          ((fg.nodes.filter (fun p => p.2.userDefined)).map (fun p => (p.2.name, [Modifier.isUserInput]))))
        (if strictPath then l else (l.flatMap (depsOf fg.nodes)).foldl setAdd l)))) := by
    unfold visualizePathBetween
    rw [(Dict.has_iff _ _).2 hu, (Dict.has_iff _ _).2 hd, hpath]
    rfl
  constructor
  · intro hno
    have : l = [] := by
      cases l with
      | nil => rfl
      | cons x r =>
        obtain ⟨h1, h2⟩ := (hmem x).1 List.mem_cons_self
        exact absurd (h1.trans h2) hno
    rw [hstart, if_pos this]
  · intro hyes
    have hne : ∃ x r, l = x :: r := by
      cases l with
      | nil =>
        have := (hmem down).2 ⟨.refl _, hyes⟩
        cases this
      | cons x r => exact ⟨x, r, rfl⟩
    have hin : ∀ k ∈ l, k ∈ fg.nodes.keys := by
      intro k hk
      refine ((hmem k).1 hk).1.closed (P := fun y => y ∈ fg.nodes.keys) ?_ hd
      rintro a b _ ⟨an, ha, hb⟩
      exact Dict.mem_keys_iff.2 (hg.wf.deps_in ha hb)
    generalize hsel0 : (if strictPath then l else (l.flatMap (depsOf fg.nodes)).foldl setAdd l) = sel at *
    have hselmem : ∀ k, k ∈ sel ↔ k ∈ l ∨ (strictPath = false ∧ ∃ b ∈ l, DependsOn fg.nodes b k) := by
      intro k
      rw [← hsel0]
      cases strictPath with
      | true => simp
      | false =>
        simp only [Bool.false_eq_true, if_false, true_and]
        exact mem_withDeps hg.wf _ _
    have hsel : Selection fg.nodes { o with strict := true } sel := by
      refine ⟨?_, fun k hk => ?_, .inl rfl⟩
      · rw [← hsel0]
        cases strictPath with
        | true => exact hnd
        | false => exact nodup_foldl_setAdd _ _ hnd
      · rcases (hselmem k).1 hk with h | ⟨_, b, _, bn, hb, hdk⟩
        · exact hin k h
        · exact Dict.mem_keys_iff.2 (hg.wf.deps_in hb hdk)
    generalize hm0 : l.foldl (addMod .isPath)
      ((fg.nodes.filter (fun p => p.2.userDefined)).map (fun p => (p.2.name, [Modifier.isUserInput]))) = mods at *
    have hmods : ∀ x k, x ∈ modsOf mods k → x = .isUserInput ∨ (x = .isPath ∧ k ∈ l) := by
      intro x k hx
      rw [← hm0, modsOf_foldl] at hx
      exact hx.elim (fun h => .inl (modsOf_users _ _ _ _ h)) .inr
    have hispath : ∀ k, (modsOf mods k).contains Modifier.isPath = true ↔ k ∈ l := by
      intro k
      rw [List.contains_iff_mem]
      constructor
      · intro h
        rcases hmods _ _ h with h | h
        · cases h
        · exact h.2
      · intro h
        rw [← hm0, modsOf_foldl]
        exact .inr ⟨rfl, h⟩
    refine ⟨display m shown fg { o with strict := true } mods sel, ?_, ?_, ?_⟩
    · obtain ⟨x, r, e⟩ := hne
      rw [hstart, if_neg (by rw [e]; simp)]
    · refine (display_faithful hg hcn hcl horig hsel).congr (fun k => ?_) (fun k _ => ?_) (fun k _ => ?_)
      · rw [hselmem]
        constructor
        · rintro (h | ⟨h0, b, hb, hdk⟩)
          · exact ⟨k, .inl rfl, (hmem k).1 h⟩
          · exact ⟨b, .inr ⟨h0, hdk⟩, (hmem b).1 hb⟩
        · rintro ⟨b, rfl | ⟨h0, hdk⟩, h⟩
          · exact .inl ((hmem _).2 h)
          · exact .inr ⟨h0, b, (hmem b).2 h, hdk⟩
      · exact ⟨fun h => (by rcases hmods _ _ h with h | h <;> simp at h), False.elim⟩
      · exact ⟨fun h => (by rcases hmods _ _ h with h | h <;> simp at h), False.elim⟩
    · intro a b
      constructor
      · rintro ⟨e, c, h⟩
        rcases (arrow_kind hg.wf hsel _ _ _ _ _).1 h with ⟨_, _, h3, h4, _, _, h5⟩ | ⟨n, f, _, _, _, _, h5⟩
        · have h5 := h5.symm
          rw [Bool.and_eq_true, hispath, hispath, hmem, hmem] at h5
          exact ⟨h5.2.1, h3, h5.1.2, h4⟩
        · cases h5
      · rintro ⟨h1, h2, h3, h4⟩
        have ha : a ∈ l := (hmem a).2 ⟨h1.step h2, h3⟩
        have hb : b ∈ l := (hmem b).2 ⟨h1, Reaches.head h2 h3⟩
        refine ⟨_, _, (arrow_kind hg.wf hsel _ _ _ _ _).2 (.inl ⟨(hselmem b).2 (.inl hb), (hselmem a).2 (.inl ha), h2, h4, rfl,
          rfl, ?_⟩)⟩
        rw [(hispath a).2 ha, (hispath b).2 hb]
        rfl

/-! ### The legend -/

/-- The legend has an entry `w`. -/
def InLegend (p : List Stmt) (w : Name) : Prop := ∃ ls r, Stmt.box w none ls r (some "cluster__legend") ∈ p

theorem key_inj {l l' : Look} (h : l.key = l'.key) : l = l' := by
  cases l <;> cases l' <;> first | rfl | (exact absurd h (by decide))

theorem inLegend_iff (hw : WellFormed fg.nodes) (hcl : Clear fg.nodes) (hs : Selection fg.nodes o sel)
    (ho : o.showLegend = true) (l : Look) : InLegend (display m shown fg o mods sel) l.key ↔
      ∃ n, fg.nodes.get? n.name = some n ∧ n.name ∈ sel ∧ l ∈ seenBy m o mods n := by
  have hd : ∀ ls r, Stmt.box l.key none ls r (some "cluster__legend") ∈ display m shown fg o mods sel →
      ∃ n, fg.nodes.get? n.name = some n ∧ n.name ∈ sel ∧ l ∈ seenBy m o mods n := by
    intro ls r h
    have hlast : Stmt.box l.key none ls r (some "cluster__legend") ∈
        drawLegend ((sel.filterMap (fun k => fg.nodes.get? k)).flatMap (seenBy m o mods)) := by
      unfold display createGraph at h
      rw [names_selected hw hs.sub] at h
      rcases List.mem_append.1 h with h | h
      · obtain ⟨_, _, e⟩ := List.mem_map.1 h; simp at e
      · rcases List.mem_append.1 h with h | h
        · obtain ⟨n, hn, h⟩ := List.mem_flatMap.1 h
          obtain ⟨h1, h2⟩ := (mem_selected hw n).1 hn
          unfold drawNode at h
          cases ht : nodeType m n with
          | function =>
            rw [ht] at h
            simp only at h
            rcases List.mem_cons.1 h with e | h
            · simp at e
            · split at h
              · cases h
              · rcases List.mem_append.1 h with h | h
                · obtain ⟨c, _, e⟩ := List.mem_map.1 h; simp at e
                · have e := List.mem_singleton.1 h
                  rw [Stmt.box.injEq] at e
                  exact absurd e.2.2.2.2.symm (cluster_not_legend hcl (Dict.mem_keys_iff.2 ⟨_, h1⟩))
          | _ => rw [ht] at h; cases h
        · rcases List.mem_append.1 h with h | h
          · rcases (mem_drawEdges _ _ _).1 h with ⟨n, hn, h⟩ | ⟨x, hx, h⟩
            · obtain ⟨d, _, _, _, e⟩ := (mem_drawArrows hw hs ((mem_selected hw n).1 hn).1 _).1 h
              simp at e
            · rcases h with e | ⟨_, e⟩ <;> simp at e
          · rw [if_pos ho] at h
            exact h
    obtain ⟨l', hl', e⟩ := List.mem_map.1 hlast
    rw [Stmt.box.injEq] at e
    have := key_inj e.1
    subst this
    obtain ⟨n, hn, h3⟩ := List.mem_flatMap.1 (List.contains_iff_mem.1 (List.mem_filter.1 hl').2)
    obtain ⟨h1, h2⟩ := (mem_selected hw n).1 hn
    exact ⟨n, h1, h2, h3⟩
  constructor
  · rintro ⟨ls, r, h⟩; exact hd ls r h
  · rintro ⟨n, h1, h2, h3⟩
    refine ⟨[l], false, ?_⟩
    unfold display createGraph
    refine List.mem_append_right _ (List.mem_append_right _ (List.mem_append_right _ ?_))
    rw [if_pos ho]
    refine List.mem_map.2 ⟨l, List.mem_filter.2 ⟨by cases l <;> decide, List.contains_iff_mem.2
      (List.mem_flatMap.2 ⟨n, (mem_selected hw n).2 ⟨h1, h2⟩, h3⟩)⟩, rfl⟩

/-- **C78, the legend** (partial) has an entry for a class of boxes exactly if the picture has a box of this class: for all classes
but those of inputs and of the configuration (`C78_violated_legend_inputs`, `C78_violated_legend_config`) and the frames around
columns. -/
theorem C78_legend_partial (hw : WellFormed fg.nodes) (hcl : Clear fg.nodes) (hs : Selection fg.nodes o sel)
    (ho : o.showLegend = true) {l : Look} (hl : l ∉ [Look.config, Look.input, Look.cluster]) :
    InLegend (display m shown fg o mods sel) l.key ↔
      ∃ id text ls r i, Stmt.box id (some text) ls r i ∈ display m shown fg o mods sel ∧ l ∈ ls := by
  rw [inLegend_iff hw hcl hs ho]
  simp only [List.mem_cons, List.not_mem_nil, or_false, not_or] at hl
  constructor
  · rintro ⟨n, h1, h2, h3⟩
    unfold seenBy at h3
    cases ht : nodeType m n with
    | function =>
      rw [ht] at h3
      simp only at h3
      rcases List.mem_append.1 h3 with h3 | h3
      · rcases List.mem_append.1 h3 with h3 | h3
        · split at h3
          · exact absurd (List.mem_singleton.1 h3) hl.1
          · cases h3
        · obtain ⟨r, hb⟩ := box_of_function (shown := shown) (o := o) (mods := mods) hw h1 h2 ht
          exact ⟨_, _, _, r, _, hb, h3⟩
      · split at h3
        · cases h3
        · rename_i hc
          rcases List.mem_cons.1 h3 with h3 | h3
          · exact absurd h3 hl.2.2
          · have := List.mem_singleton.1 h3
            subst this
            obtain ⟨c, hcm⟩ : ∃ c, c ∈ shownColumns m o n.name := by
              cases hcs : shownColumns m o n.name with
              | nil => exact absurd hcs hc
              | cons c _ => exact ⟨c, List.mem_cons_self⟩
            refine ⟨n.name ++ ":" ++ c, .text c "", [.function, .field], false, some ("cluster_" ++ n.name), ?_, by simp⟩
            unfold display createGraph
            refine List.mem_append_right _ (List.mem_append_left _ (List.mem_flatMap.2 ⟨n, (mem_selected hw n).2 ⟨h1, h2⟩, ?_⟩))
            unfold drawNode
            rw [ht]
            simp only
            rw [if_neg hc]
            exact List.mem_cons_of_mem _ (List.mem_append_left _ (List.mem_map.2 ⟨c, hcm, rfl⟩))
    | input =>
      rw [ht] at h3
      exact absurd (List.mem_singleton.1 h3) hl.2.1
    | _ => rw [ht] at h3; cases h3
  · rintro ⟨id, text, ls, r, i, hb, hm⟩
    have hk := box_kind hw hs hb
    cases hk with
    | config _ => exact absurd (List.mem_singleton.1 hm) hl.1
    | function h1 h2 h3 =>
      refine ⟨_, h1, h2, ?_⟩
      unfold seenBy
      rw [h3]
      exact List.mem_append_left _ (List.mem_append_right _ hm)
    | table _ => exact absurd (List.mem_singleton.1 hm) hl.2.1
    | field h1 h2 h3 h4 =>
      -- the node of the column is a function that is drawn
      rename_i n c
      unfold display createGraph at hb
      rw [names_selected hw hs.sub] at hb
      have hnode : ∃ n', n' ∈ sel.filterMap (fun k => fg.nodes.get? k) ∧ nodeType m n' = .function ∧
          shownColumns m o n'.name ≠ [] := by
        rcases List.mem_append.1 hb with h | h
        · obtain ⟨_, _, e⟩ := List.mem_map.1 h; simp at e
        · rcases List.mem_append.1 h with h | h
          · obtain ⟨n', hn', h⟩ := List.mem_flatMap.1 h
            unfold drawNode at h
            cases ht : nodeType m n' with
            | function =>
              rw [ht] at h
              simp only at h
              rcases List.mem_cons.1 h with e | h
              · simp at e
              · split at h
                · cases h
                · rename_i hc
                  exact ⟨n', hn', ht, hc⟩
            | _ => rw [ht] at h; cases h
          · rcases List.mem_append.1 h with h | h
            · rcases (mem_drawEdges _ _ _).1 h with ⟨n', hn', h⟩ | ⟨x, hx, h⟩
              · obtain ⟨d, _, _, _, e⟩ := (mem_drawArrows hw hs ((mem_selected hw n').1 hn').1 _).1 h
                simp at e
              · rcases h with e | ⟨_, e⟩ <;> simp at e
            · rw [if_pos ho] at h
              obtain ⟨l', _, e⟩ := List.mem_map.1 h; simp at e
      obtain ⟨n', h5, h6, h7⟩ := hnode
      obtain ⟨h8, h9⟩ := (mem_selected hw n').1 h5
      refine ⟨n', h8, h9, ?_⟩
      unfold seenBy
      rw [h6]
      simp only
      rw [if_neg h7]
      rcases List.mem_cons.1 hm with e | hm
      · subst e
        exact List.mem_append_left _ (List.mem_append_right _ (by unfold boxLooks; simp))
      · rw [List.mem_singleton.1 hm]
        exact List.mem_append_right _ (by simp)

end

/-! ### Labels -/

/-- HTML text `h` is displayed as `t`. -/
inductive Displays : List Char → List Char → Prop
  | nil : Displays [] []
  | plain {c h t} : c ≠ '<' → c ≠ '>' → c ≠ '&' → Displays h t → Displays (c :: h) (c :: t)
  | amp {h t} : Displays h t → Displays ('&' :: 'a' :: 'm' :: 'p' :: ';' :: h) ('&' :: t)
  | lt {h t} : Displays h t → Displays ('&' :: 'l' :: 't' :: ';' :: h) ('<' :: t)
  | gt {h t} : Displays h t → Displays ('&' :: 'g' :: 't' :: ';' :: h) ('>' :: t)
  | quot {h t} : Displays h t → Displays ('&' :: 'q' :: 'u' :: 'o' :: 't' :: ';' :: h) ('"' :: t)
  | apos {h t} : Displays h t → Displays ('&' :: '#' :: 'x' :: '2' :: '7' :: ';' :: h) ('\'' :: t)

/-- The label `html` is read as a name in bold, two line breaks, and a type in italics. -/
def ReadsAs (html name type : List Char) : Prop :=
  ∃ a b, html = "<<b>".toList ++ (a ++ ("</b><br /><br /><i>".toList ++ (b ++ "</i>>".toList))) ∧ Displays a name ∧ Displays b type

theorem displays_escape (s : List Char) : Displays (escape s) s := by
  induction s with
  | nil => exact .nil
  | cons c r ih =>
    unfold escape
    rw [List.flatMap_cons]
    unfold escapeChar
    by_cases h1 : c = '&'
    · rw [if_pos h1, h1]; exact .amp ih
    · rw [if_neg h1]
      by_cases h2 : c = '<'
      · rw [if_pos h2, h2]; exact .lt ih
      · rw [if_neg h2]
        by_cases h3 : c = '>'
        · rw [if_pos h3, h3]; exact .gt ih
        · rw [if_neg h3]
          by_cases h4 : c = '"'
          · rw [if_pos h4, h4]; exact .quot ih
          · rw [if_neg h4]
            by_cases h5 : c = '\''
            · rw [if_pos h5, h5]; exact .apos ih
            · rw [if_neg h5]; exact .plain h2 h3 h1 ih

theorem displays_plain {s : List Char} (h : ∀ c ∈ s, c ≠ '<' ∧ c ≠ '>' ∧ c ≠ '&') : Displays s s := by
  induction s with
  | nil => exact .nil
  | cons c r ih =>
    obtain ⟨h1, h2, h3⟩ := h c List.mem_cons_self
    exact .plain h1 h2 h3 (ih fun x hx => h x (List.mem_cons_of_mem _ hx))

theorem Displays.unique {h t t' : List Char} (d : Displays h t) (d' : Displays h t') : t = t' := by
  induction d generalizing t' with
  | nil => cases d'; rfl
  | plain h1 h2 h3 _ ih =>
    cases d' with
    | plain _ _ _ d' => rw [ih d']
    | amp _ => exact absurd rfl h3
    | lt _ => exact absurd rfl h3
    | gt _ => exact absurd rfl h3
    | quot _ => exact absurd rfl h3
    | apos _ => exact absurd rfl h3
  | amp _ ih =>
    cases d' with
    | plain _ _ h3 _ => exact absurd rfl h3
    | amp d' => rw [ih d']
  | lt _ ih =>
    cases d' with
    | plain _ _ h3 _ => exact absurd rfl h3
    | lt d' => rw [ih d']
  | gt _ ih =>
    cases d' with
    | plain _ _ h3 _ => exact absurd rfl h3
    | gt d' => rw [ih d']
  | quot _ ih =>
    cases d' with
    | plain _ _ h3 _ => exact absurd rfl h3
    | quot d' => rw [ih d']
  | apos _ ih =>
    cases d' with
    | plain _ _ h3 _ => exact absurd rfl h3
    | apos d' => rw [ih d']

theorem Displays.no_lt {h t : List Char} (d : Displays h t) : '<' ∉ h := by
  induction d with
  | nil => simp
  | plain h1 _ _ _ ih => simp only [List.mem_cons, not_or]; exact ⟨fun e => h1 e.symm, ih⟩
  | amp _ ih => simp only [List.mem_cons, not_or]; exact ⟨by decide, by decide, by decide, by decide, by decide, ih⟩
  | lt _ ih => simp only [List.mem_cons, not_or]; exact ⟨by decide, by decide, by decide, by decide, ih⟩
  | gt _ ih => simp only [List.mem_cons, not_or]; exact ⟨by decide, by decide, by decide, by decide, ih⟩
  | quot _ ih => simp only [List.mem_cons, not_or]; exact ⟨by decide, by decide, by decide, by decide, by decide, by decide, ih⟩
  | apos _ ih => simp only [List.mem_cons, not_or]; exact ⟨by decide, by decide, by decide, by decide, by decide, by decide, ih⟩

/-- Two texts without `<` in front of tags are equal if the whole is. -/
theorem split_lt {a a' x x' : List Char} (h : '<' ∉ a) (h' : '<' ∉ a') (e : a ++ '<' :: x = a' ++ '<' :: x') : a = a' ∧ x = x' := by
  induction a generalizing a' with
  | nil =>
    cases a' with
    | nil => exact ⟨rfl, by simpa using e⟩
    | cons c r =>
      simp only [List.nil_append, List.cons_append, List.cons.injEq] at e
      exact absurd (by rw [← e.1]; exact List.mem_cons_self) h'
  | cons c r ih =>
    cases a' with
    | nil =>
      simp only [List.nil_append, List.cons_append, List.cons.injEq] at e
      exact absurd (by rw [e.1]; exact List.mem_cons_self) h
    | cons c' r' =>
      simp only [List.cons_append, List.cons.injEq] at e
      obtain ⟨rfl, e⟩ := e
      obtain ⟨h1, h2⟩ := ih (fun m => h (List.mem_cons_of_mem _ m)) (fun m => h' (List.mem_cons_of_mem _ m)) e
      exact ⟨by rw [h1], h2⟩

/-- **C78, labels** (partial).  Whatever the type or the configuration value is, the label of a box is well formed and shows the
name and the text of the type, cut after 80 characters — provided the name contains none of `<`, `>`, `&`
(`C78_violated_label`). -/
theorem C78_label_partial {name : List Char} (hn : ∀ c ∈ name, c ≠ '<' ∧ c ≠ '>' ∧ c ≠ '&') (type : List Char) :
    ∃ t, ReadsAs (labelHtml name type) name t ∧ (type.length ≤ 80 → t = type) ∧
      (80 < type.length → t = type.take 80 ++ "[...]".toList) ∧
      ∀ name' t', ReadsAs (labelHtml name type) name' t' → name' = name ∧ t' = t := by
  refine ⟨shorten type, ⟨name, escape (shorten type), rfl, displays_plain hn, displays_escape _⟩, ?_, ?_, ?_⟩
  · intro h
    unfold shorten
    rw [if_neg (by omega)]
  · intro h
    unfold shorten
    rw [if_pos h]
    rfl
  · rintro name' t' ⟨a, b, e, ha, hb⟩
    have e1 : name ++ '<' :: ("/b><br /><br /><i>".toList ++ (escape (shorten type) ++ "</i>>".toList))
        = a ++ '<' :: ("/b><br /><br /><i>".toList ++ (b ++ "</i>>".toList)) :=
      List.append_cancel_left (as := "<<b>".toList) e
    obtain ⟨h1, h2⟩ := split_lt (fun h => (hn _ h).1 rfl) ha.no_lt e1
    have e2 : escape (shorten type) ++ '<' :: "/i>>".toList = b ++ '<' :: "/i>>".toList := List.append_cancel_left h2
    obtain ⟨h3, _⟩ := split_lt (displays_escape _).no_lt hb.no_lt e2
    subst h1
    subst h3
    exact ⟨ha.unique (displays_plain hn), hb.unique (displays_escape _)⟩

example : (∀ c ∈ "rate".toList, c ≠ '<' ∧ c ≠ '>' ∧ c ≠ '&') ∧
    labelHtml "rate".toList "{'a': <b>}".toList
      = "<<b>rate</b><br /><br /><i>{&#x27;a&#x27;: &lt;b&gt;}</i>>".toList := by decide

/-- **C78 is violated for names with a special character**: the label of the configuration key `a<b` is not well formed (the drawing
fails), although the value is escaped. -/
theorem C78_violated_label : ∃ name type, ∀ n t, ¬ ReadsAs (labelHtml name type) n t := by
  refine ⟨['a', '<', 'b'], ['1'], ?_⟩
  rintro n t ⟨a, b, e, ha, _⟩
  have e1 : ['a'] ++ '<' :: ('b' :: labelMid ++ (['1'] ++ labelClose))
      = a ++ '<' :: ("/b><br /><br /><i>".toList ++ (b ++ "</i>>".toList)) :=
    List.append_cancel_left (as := "<<b>".toList) e
  obtain ⟨_, h⟩ := split_lt (by decide) ha.no_lt e1
  exact absurd (List.cons.inj h).1 (by decide)

/-! ### Examples and violations -/

namespace VizSample

/-- No tags; every type is shown as `int`. -/
def info : Meta Unit := ⟨fun _ => "int", fun _ => false, fun _ => none, fun _ => none, fun _ => none, fun _ => []⟩

/-- The default options. -/
def opts : Options := ⟨true, true, false, false, true⟩

/-- `str` of a value. -/
def str : Int → String := fun i => toString i

theorem clear : Clear Sample.fg.nodes := by
  have h : Sample.fg.nodes.keys = ["base", "left", "right", "top", "x", "y", "c"] := Sample.graph_keys
  constructor
  · rw [h]; decide
  · rw [h]; decide
  · rw [h]; decide

theorem no_originating : ∀ k n, Sample.fg.nodes.get? k = some n → n.kind = .external → info.originating k = false :=
  fun _ _ _ _ => rfl

end VizSample

open VizSample

-- the hypotheses of the theorems hold of the sample driver
example : DriverGraph Sample.fg ∧ Sample.fg.config.keys.Nodup ∧ Clear Sample.fg.nodes ∧
    (∀ k n, Sample.fg.nodes.get? k = some n → n.kind = .external → info.originating k = false) :=
  ⟨Sample.driverGraph, by decide, clear, no_originating⟩

-- everything: `right` has the input `y`, `base` the input `x`
example : Arrow (displayAll info str Sample.fg opts) "base" "left" ∧
    Arrow (displayAll info str Sample.fg opts) "_right_inputs" "right" ∧
    Stmt.box "_right_inputs" (some (.table [("y", "int")])) [.input] false none ∈ displayAll info str Sample.fg opts :=
  ⟨⟨false, false, false, by decide +kernel⟩, ⟨false, false, false, by decide +kernel⟩, by decide +kernel⟩

-- executions
example : (visualizeExecution info str Sample.oracle Sample.fg opts false ["right"] (some [("x", 1)]) (some [("base", 3)])).toOption
    = some [
      .box "c" (some (.text "c" "7")) [.config] false none,
      .box "right" (some (.text "right" "int")) [.function, .output] false none,
      .box "base" (some (.text "base" "int")) [.function, .override] false none,
      .arrow "base" "right" false false false,
      .box "function" none [.function] false (some "cluster__legend"),
      .box "output" none [.output] false (some "cluster__legend"),
      .box "override" none [.override] false (some "cluster__legend")] := by decide +kernel

-- downstream, upstream, paths
example : (displayDownstreamOf info str Sample.fg opts ["right"]).isOk = true ∧
    (displayUpstreamOf info str Sample.fg opts ["right"]).isOk = true ∧
    ((visualizePathBetween info str Sample.fg opts true "base" "top").toOption.bind id).isSome = true ∧
    (visualizePathBetween info str Sample.fg opts true "left" "right").toOption = some none := by decide +kernel

example : Selection Sample.fg.nodes opts ["right", "base", "x"] ∧
    Look.output ∉ [Look.config, Look.input, Look.cluster] :=
  ⟨⟨by decide, by decide +kernel, .inl rfl⟩, by decide⟩

namespace OutputSample

/-- `def output(x): …`. -/
def fns : List (Node Unit Int) := [Sample.fnNode "output" [("x", .required)] (fun kw => .ok (Sample.arg kw "x" 0 + 1))]

/-- The graph of the driver. -/
def graph : Graph Unit Int :=
  match createFunctionGraph Sample.tm () [] false fns with
  | .ok g => g
  | .error _ => []

/-- The function graph. -/
def fg : FnGraph Unit Int := ⟨graph, []⟩

theorem build_ok : createFunctionGraph Sample.tm () [] false fns = .ok graph := by
  have h : (createFunctionGraph Sample.tm () [] false fns).isOk = true := by decide
  unfold graph
  revert h
  generalize createFunctionGraph Sample.tm () [] false fns = r
  intro h
  cases r with
  | ok g => rfl
  | error e => simp [Except.isOk, Except.toBool] at h

theorem fns_fresh : ∀ n ∈ fns, Fresh n := by
  intro n hn
  simp only [fns, List.mem_cons, List.not_mem_nil, or_false] at hn
  rcases hn with rfl
  exact ⟨by decide, rfl, rfl, by decide⟩

theorem driverGraph : DriverGraph fg :=
  ⟨(createFunctionGraph_spec fns_fresh build_ok).1, (createFunctionGraph_spec fns_fresh build_ok).2.1⟩

end OutputSample

/-- **C78 is violated for a function named like a class of the legend**: the box of the function `output` is moved into the legend
and restyled as its entry. -/
theorem C78_violated_legend_name : ∃ (fg : FnGraph Unit Int) (p : List Stmt), DriverGraph fg ∧ "output" ∈ fg.nodes.keys ∧
    visualizeExecution info str Sample.oracle fg opts false ["output"] (some [("x", 1)]) none = .ok p ∧
    ∀ l ls, ¬ Drawn p "output" l ls := by
  refine ⟨OutputSample.fg, _, OutputSample.driverGraph, by decide +kernel, rfl, ?_⟩
  rintro l ls ⟨_, h⟩
  rcases h none [.output] false (some "cluster__legend") (by decide +kernel) with ⟨h, _⟩ | ⟨_, h, _⟩
  · cases h
  · cases h

/-- **C78 is violated for a requested input**: requesting an input that nothing requested consumes draws nothing for it. -/
theorem C78_violated_requested_input : ∃ (fg : FnGraph Unit Int) (p : List Stmt), DriverGraph fg ∧ "x" ∈ fg.nodes.keys ∧
    visualizeExecution info str Sample.oracle fg opts false ["x"] (some [("x", 1)]) none = .ok p ∧
    ¬ HasBox p "x" ∧ ∀ id rows ls r i, Stmt.box id (some (.table rows)) ls r i ∉ p := by
  have hp : (visualizeExecution info str Sample.oracle Sample.fg opts false ["x"] (some [("x", 1)]) none).toOption = some
      [.box "c" (some (.text "c" "7")) [.config] false none, .box "input" none [.input] false (some "cluster__legend")] := by
    decide +kernel
  cases hv : visualizeExecution info str Sample.oracle Sample.fg opts false ["x"] (some [("x", 1)]) none with
  | error e => rw [hv] at hp; cases hp
  | ok p =>
    rw [hv] at hp
    cases hp
    refine ⟨Sample.fg, _, Sample.driverGraph, by decide +kernel, hv, ?_, ?_⟩
    · rintro ⟨l, ls, r, i, h, _⟩
      simp at h
    · intro id rows ls r i h
      simp at h

/-- **C78 is violated by overrides**: the arrow from `base` to the overridden `left` is drawn although the value of `left` does not
come from `base`, as soon as `base` is needed for something else. -/
theorem C78_violated_override_arrow : ∃ (fg : FnGraph Unit Int) (p : List Stmt), DriverGraph fg ∧
    visualizeExecution info str Sample.oracle fg opts false ["top"] (some [("x", 1)]) (some [("left", 5)]) = .ok p ∧
    Arrow p "base" "left" ∧
    ¬ RunEdge fg.nodes (fg.config.merge [("x", 1)]) [("left", 5)] "left" "base" :=
  ⟨Sample.fg, _, Sample.driverGraph, rfl, ⟨false, false, false, by decide +kernel⟩, fun h => by cases h.1⟩

/-- **C78 is violated by the legend**: the boxes of the configuration are drawn but have no entry. -/
theorem C78_violated_legend_config : HasBox (displayAll info str Sample.fg opts) "c" ∧
    ¬ InLegend (displayAll info str Sample.fg opts) "config" := by
  constructor
  · exact ⟨some (.text "c" "7"), [.config], false, none, by decide +kernel, by simp⟩
  · rintro ⟨ls, r, h⟩
    have hs : Selection Sample.fg.nodes { opts with strict := false } Sample.fg.nodes.keys :=
      ⟨Sample.graph_wf.keys_nodup, fun _ h => h, .inr fun _ h => h⟩
    obtain ⟨n, h1, h2, h3⟩ := (inLegend_iff (m := info) (shown := str) (l := .config) Sample.graph_wf clear hs rfl).1 ⟨ls, r, h⟩
    unfold seenBy at h3
    cases ht : nodeType info n <;> rw [ht] at h3
    case function =>
      simp [info, boxLooks, shownColumns] at h3
    all_goals simp at h3

/-- **C78 is violated by the legend**: with hidden inputs no input is drawn but the legend has an entry for them. -/
theorem C78_violated_legend_inputs :
    InLegend (displayAll info str Sample.fg { opts with hideInputs := true }) "input" ∧
    ∀ id l ls r i, Stmt.box id (some l) ls r i ∈ displayAll info str Sample.fg { opts with hideInputs := true } →
      Look.input ∉ ls := by
  constructor
  · exact ⟨[.input], false, by decide +kernel⟩
  · have hall : (displayAll info str Sample.fg { opts with hideInputs := true }).all (fun s =>
        match s with | .box _ (some _) ls _ _ => !ls.contains .input | _ => true) = true := by decide +kernel
    intro id l ls r i h hm
    have := List.all_eq_true.1 hall _ h
    simp [hm] at this

end Verif.Visualize
