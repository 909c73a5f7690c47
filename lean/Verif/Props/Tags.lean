import Verif.Model.Tags

/-!
C44: tag queries.
-/
namespace Verif

/-- The values carried by a tag (or asked for by a query). -/
inductive HasValue : TagVal → TagAtom → Prop
  | str (s : String) : HasValue (.str s) (.str s)
  | list (l : List String) (s : String) : s ∈ l → HasValue (.list l) (.str s)
  | bool (b : Bool) : HasValue (.bool b) (.bool b)

/-- The condition a query expresses: every queried tag is present and, when values are asked for, shares one of them. -/
def Satisfies (tags : Dict String TagVal) (q : Dict String (Option TagVal)) : Prop :=
  ∀ tag asked, (tag, asked) ∈ q →
    ∃ v, tags.get? tag = some v ∧ ∀ w, asked = some w → ∃ a, HasValue w a ∧ HasValue v a

theorem hasValue_iff (v : TagVal) (a : TagAtom) : HasValue v a ↔ a ∈ v.atoms := by
  constructor
  · intro h
    cases h with
    | str s => simp [TagVal.atoms]
    | list l s hs => simpa [TagVal.atoms] using hs
    | bool b => simp [TagVal.atoms]
  · intro h
    cases v with
    | str s => simp only [TagVal.atoms, List.mem_singleton] at h; subst h; exact .str s
    | bool b => simp only [TagVal.atoms, List.mem_singleton] at h; subst h; exact .bool b
    | list l =>
      simp only [TagVal.atoms, List.mem_map] at h
      obtain ⟨s, hs, rfl⟩ := h
      exact .list l s hs

/-- A node matches a query exactly when it satisfies its condition. -/
theorem C44_matches (tags : Dict String TagVal) (q : Dict String (Option TagVal)) :
    matchesQuery tags q = true ↔ Satisfies tags q := by
  induction q with
  | nil => simp [matchesQuery, Satisfies]
  | cons p rest ih =>
    obtain ⟨tag, asked⟩ := p
    have hs : Satisfies tags ((tag, asked) :: rest) ↔
        (∃ v, tags.get? tag = some v ∧ ∀ w, asked = some w → ∃ a, HasValue w a ∧ HasValue v a) ∧ Satisfies tags rest := by
      constructor
      · intro h
        exact ⟨h tag asked (List.mem_cons_self ..), fun t a ha => h t a (List.mem_cons_of_mem _ ha)⟩
      · rintro ⟨h1, h2⟩ t a ha
        rcases List.mem_cons.mp ha with h | h
        · cases h; exact h1
        · exact h2 t a h
    rw [hs, ← ih]
    simp only [matchesQuery]
    cases hv : tags.get? tag with
    | none => simp
    | some nodeValue =>
      cases asked with
      | none => simp
      | some w =>
        have hany : (w.atoms.any (fun a => decide (a ∈ nodeValue.atoms)) = true) ↔
            ∃ a, HasValue w a ∧ HasValue nodeValue a := by
          simp only [List.any_eq_true, decide_eq_true_eq, hasValue_iff]
        dsimp only
        by_cases hx : ∃ a, HasValue w a ∧ HasValue nodeValue a
        · rw [if_pos (hany.mpr hx)]
          constructor
          · intro h
            exact ⟨⟨nodeValue, rfl, fun w' hw => by cases hw; exact hx⟩, h⟩
          · exact fun h => h.2
        · rw [if_neg (fun h => hx (hany.mp h))]
          constructor
          · intro h; exact absurd h (by simp)
          · rintro ⟨⟨v, hv', hw⟩, _⟩
            cases hv'
            exact absurd (hw w rfl) hx

/-- `list_available_variables` with a query of strings, non-empty lists and `None`: exactly the nodes that satisfy the
query, in the order of the graph and each as often as in the graph. -/
theorem C44_list (nodes : List Tagged) (q : Dict String (Option TagVal))
    (hq : ∀ tag asked, (tag, asked) ∈ q → asked = none ∨ (∃ s, asked = some (.str s)) ∨ (∃ s l, asked = some (.list (s :: l)))) :
    ∃ out, listAvailable nodes (some q) = some out ∧ out.Sublist nodes ∧
      (∀ n, n ∈ out ↔ n ∈ nodes ∧ Satisfies n.tags q) ∧
      (∀ n, Satisfies n.tags q → out.count n = nodes.count n) := by
  cases q with
  | nil =>
    refine ⟨nodes, rfl, List.Sublist.refl _, fun n => ⟨fun h => ⟨h, ?_⟩, fun h => h.1⟩, fun n _ => rfl⟩
    intro t a h; cases h
  | cons p q =>
    have hall : ((p :: q).map Prod.snd).all validQueryValue = true := by
      rw [List.all_eq_true]
      intro v hv
      obtain ⟨⟨t, a⟩, hx, rfl⟩ := List.mem_map.mp hv
      rcases hq t a hx with h | ⟨s, h⟩ | ⟨s, l, h⟩ <;> (simp only [h]; rfl)
    refine ⟨nodes.filter (fun n => matchesQuery n.tags (p :: q)), ?_, List.filter_sublist, ?_, ?_⟩
    · simp only [listAvailable]; rw [if_pos hall]
    · intro n
      rw [List.mem_filter, C44_matches]
    · intro n hn
      exact List.count_filter (p := fun n : Tagged => matchesQuery n.tags (p :: q)) ((C44_matches _ _).mpr hn)

/-- Without query every node is listed; a query with another value is refused whatever the graph. -/
theorem C44_other (nodes : List Tagged) :
    listAvailable nodes none = some nodes ∧
    ∀ q tag asked, (tag, asked) ∈ q → (asked = some (.list []) ∨ ∃ b, asked = some (.bool b)) →
      listAvailable nodes (some q) = none := by
  refine ⟨rfl, ?_⟩
  intro q tag asked hm hbad
  cases q with
  | nil => cases hm
  | cons p q =>
    have hall : ¬ ((p :: q).map Prod.snd).all validQueryValue = true := by
      rw [List.all_eq_true]
      intro h
      have := h asked (List.mem_map.mpr ⟨(tag, asked), hm, rfl⟩)
      rcases hbad with rfl | ⟨b, rfl⟩ <;> simp [validQueryValue] at this
    simp only [listAvailable]; rw [if_neg hall]

namespace TagSample
/-- Three nodes with string and list tags. -/
def nodes : List Tagged :=
  [⟨"a", [("team", .str "x"), ("kind", .list ["raw", "daily"])]⟩, ⟨"b", [("team", .str "y"), ("kind", .str "daily")]⟩,
   ⟨"c", [("kind", .list ["raw"])]⟩]

example : listAvailable nodes (some [("team", none), ("kind", some (.list ["daily", "weekly"]))]) = some (nodes.take 2) := by decide
example : listAvailable nodes (some [("kind", some (.str "raw"))]) = some [nodes[0], nodes[2]] := by decide
example : ∀ tag asked, (tag, asked) ∈ [("team", none), ("kind", some (TagVal.list ["daily", "weekly"]))] →
    asked = none ∨ (∃ s, asked = some (.str s)) ∨ (∃ s l, asked = some (TagVal.list (s :: l))) := by
  intro t a h
  simp only [List.mem_cons, List.not_mem_nil, or_false, Prod.mk.injEq] at h
  rcases h with ⟨_, rfl⟩ | ⟨_, rfl⟩
  · exact Or.inl rfl
  · exact Or.inr (Or.inr ⟨_, _, rfl⟩)
example : Satisfies nodes[0].tags [("kind", some (.str "raw"))] ∧ ¬ Satisfies nodes[1].tags [("kind", some (.str "raw"))] := by
  rw [← C44_matches, ← C44_matches]; decide
example : listAvailable nodes (some [("kind", some (.list []))]) = none := by decide
end TagSample
end Verif
