/-
Python dictionaries as association lists.

Not a function of /repo: this is the modelling of the Python built-in `dict`
used throughout /repo (e.g. `computed`, `inputs`, `overrides` in
hamilton/execution/graph_functions.py:149-251).  Keys are kept in insertion
order; `set` overwrites in place or appends.  Distinctness of keys is an
invariant (`Nodup (keys d)`) preserved by every operation.
-/
namespace Verif

/-- Python `dict` with keys `K` and values `V`: insertion ordered association list. -/
abbrev Dict (K V : Type) := List (K × V)

namespace Dict
variable {K V : Type} [DecidableEq K]

/-- `d.get(k)` distinguishing absence (`none`) from a stored value. -/
def get? : Dict K V → K → Option V
  | [], _ => none
  | (k', v) :: t, k => if k' = k then some v else get? t k

/-- `k in d`. -/
def has (d : Dict K V) (k : K) : Bool := (d.get? k).isSome

/-- `d[k] = v`. -/
def set : Dict K V → K → V → Dict K V
  | [], k, v => [(k, v)]
  | (k', v') :: t, k, v => if k' = k then (k, v) :: t else (k', v') :: set t k v

/-- `del d[k]` (no effect when absent). -/
def del (d : Dict K V) (k : K) : Dict K V := d.filter (fun p => decide (p.1 ≠ k))

/-- `list(d)`. -/
def keys (d : Dict K V) : List K := d.map (·.1)

/-- `{**a, **b}`. -/
def merge (a b : Dict K V) : Dict K V := b.foldl (fun acc p => acc.set p.1 p.2) a

@[simp] theorem get?_nil (k : K) : get? ([] : Dict K V) k = none := rfl

theorem get?_cons (k' : K) (v : V) (t : Dict K V) (k : K) :
    get? ((k', v) :: t) k = if k' = k then some v else get? t k := rfl

omit [DecidableEq K] in
theorem keys_cons (k : K) (v : V) (t : Dict K V) : keys ((k, v) :: t) = k :: keys t := rfl

theorem get?_set (d : Dict K V) (k : K) (v : V) (k' : K) :
    (d.set k v).get? k' = if k = k' then some v else d.get? k' := by
  induction d with
  | nil => simp [set, get?]
  | cons p t ih =>
    obtain ⟨a, b⟩ := p
    simp only [set]
    split
    · subst_vars; simp only [get?]; split <;> rfl
    · simp only [get?, ih]
      split
      · split
        · subst_vars; contradiction
        · rfl
      · rfl

@[simp] theorem get?_set_self (d : Dict K V) (k : K) (v : V) : (d.set k v).get? k = some v := by
  simp [get?_set]

theorem get?_set_ne (d : Dict K V) {k k' : K} (v : V) (h : k ≠ k') :
    (d.set k v).get? k' = d.get? k' := by
  simp [get?_set, h]

theorem get?_del (d : Dict K V) (k k' : K) :
    (d.del k).get? k' = if k = k' then none else d.get? k' := by
  induction d with
  | nil => simp [del, get?]
  | cons p t ih =>
    obtain ⟨a, b⟩ := p
    unfold del at ih ⊢
    by_cases h : a = k
    · subst h; simp only [List.filter_cons, ne_eq, not_true_eq_false, decide_false, get?]
      split <;> simp_all
    · simp only [List.filter_cons, ne_eq, h, not_false_eq_true, decide_true, if_true, get?, ih]
      split
      · split
        · subst_vars; contradiction
        · rfl
      · rfl

theorem get?_eq_none_iff (d : Dict K V) (k : K) : d.get? k = none ↔ k ∉ d.keys := by
  induction d with
  | nil => simp [keys]
  | cons p t ih =>
    obtain ⟨a, b⟩ := p
    simp only [get?, keys, List.map_cons, List.mem_cons, not_or] at *
    split
    · subst_vars; simp
    · rw [ih]; constructor
      · intro h; exact ⟨fun h' => by subst h'; contradiction, h⟩
      · exact fun h => h.2

theorem has_iff (d : Dict K V) (k : K) : d.has k = true ↔ k ∈ d.keys := by
  unfold has
  have := get?_eq_none_iff d k
  cases h : d.get? k <;> simp_all

theorem has_eq_true_iff (d : Dict K V) (k : K) : d.has k = true ↔ ∃ v, d.get? k = some v := by
  unfold has; exact Option.isSome_iff_exists

theorem has_eq_false_iff (d : Dict K V) (k : K) : d.has k = false ↔ d.get? k = none := by
  unfold has; cases d.get? k <;> simp

theorem get?_mem {d : Dict K V} {k : K} {v : V} (h : d.get? k = some v) : (k, v) ∈ d := by
  induction d with
  | nil => simp at h
  | cons p t ih =>
    obtain ⟨a, b⟩ := p
    simp only [get?] at h
    split at h
    · subst_vars; simp_all
    · exact List.mem_cons_of_mem _ (ih h)

theorem get?_of_mem {d : Dict K V} (hn : d.keys.Nodup) {k : K} {v : V} (h : (k, v) ∈ d) :
    d.get? k = some v := by
  induction d with
  | nil => simp at h
  | cons p t ih =>
    obtain ⟨a, b⟩ := p
    simp only [keys, List.map_cons, List.nodup_cons] at hn
    simp only [get?]
    rcases List.mem_cons.1 h with h | h
    · simp_all
    · split
      · subst_vars; exact absurd (List.mem_map_of_mem (f := (·.1)) h) hn.1
      · exact ih hn.2 h

theorem mem_keys_iff {d : Dict K V} {k : K} : k ∈ d.keys ↔ ∃ v, d.get? k = some v := by
  rw [← has_iff, has_eq_true_iff]

theorem mem_keys_set (d : Dict K V) (k : K) (v : V) (k' : K) :
    k' ∈ (d.set k v).keys ↔ k' = k ∨ k' ∈ d.keys := by
  rw [mem_keys_iff, mem_keys_iff]
  simp only [get?_set]
  by_cases h : k = k'
  · simp [h]
  · simp [h, Ne.symm h]

theorem keys_set_nodup {d : Dict K V} (h : d.keys.Nodup) (k : K) (v : V) :
    (d.set k v).keys.Nodup := by
  induction d with
  | nil => simp [set, keys]
  | cons p t ih =>
    obtain ⟨a, b⟩ := p
    simp only [keys, List.map_cons, List.nodup_cons] at h
    simp only [set]
    split
    · subst_vars; simpa [keys] using h
    · simp only [keys, List.map_cons, List.nodup_cons]
      refine ⟨?_, ih h.2⟩
      intro hm
      have := (mem_keys_set t k v a).1 hm
      rcases this with rfl | h'
      · contradiction
      · exact h.1 h'

theorem keys_del_nodup {d : Dict K V} (h : d.keys.Nodup) (k : K) : (d.del k).keys.Nodup := by
  unfold del keys at *
  exact List.Nodup.sublist (List.Sublist.map _ (List.filter_sublist)) h

theorem keys_set_of_not_mem {d : Dict K V} {k : K} (h : k ∉ d.keys) (v : V) :
    d.set k v = d ++ [(k, v)] := by
  induction d with
  | nil => rfl
  | cons p t ih =>
    obtain ⟨a, b⟩ := p
    simp only [keys, List.map_cons, List.mem_cons, not_or] at h
    simp only [set, if_neg (Ne.symm h.1), List.cons_append]
    rw [ih h.2]

theorem keys_set_of_mem {d : Dict K V} {k : K} (h : k ∈ d.keys) (v : V) :
    (d.set k v).keys = d.keys := by
  induction d with
  | nil => simp [keys] at h
  | cons p t ih =>
    obtain ⟨a, b⟩ := p
    simp only [set]
    split
    · subst_vars; rfl
    · simp only [keys, List.map_cons, List.mem_cons] at h ⊢
      rcases h with h | h
      · subst h; contradiction
      · congr 1; exact ih h

theorem get?_append (a b : Dict K V) (k : K) :
    (a ++ b).get? k = (a.get? k).or (b.get? k) := by
  induction a with
  | nil => simp
  | cons p t ih =>
    obtain ⟨x, y⟩ := p
    simp only [List.cons_append, get?, ih]
    split <;> simp

/-- `{**a, **b}` looks up in `b` (last entry wins) first. -/
theorem get?_merge (a b : Dict K V) (hb : b.keys.Nodup) (k : K) :
    (merge a b).get? k = (b.get? k).or (a.get? k) := by
  unfold merge
  induction b generalizing a with
  | nil => simp
  | cons p t ih =>
    obtain ⟨x, y⟩ := p
    simp only [keys, List.map_cons, List.nodup_cons] at hb
    simp only [List.foldl_cons, get?]
    rw [ih _ hb.2, get?_set]
    split
    · subst_vars
      rw [(get?_eq_none_iff t x).2 hb.1]; simp
    · rfl

theorem merge_keys_nodup {a : Dict K V} (ha : a.keys.Nodup) (b : Dict K V) :
    (merge a b).keys.Nodup := by
  unfold merge
  induction b generalizing a with
  | nil => simpa
  | cons p t ih => exact ih (keys_set_nodup ha _ _)

end Dict
end Verif
