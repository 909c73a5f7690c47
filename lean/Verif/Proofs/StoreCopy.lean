import Verif.Model.StoreCopy
import Verif.Props.MetadataStore
import Verif.Props.ResultStore

/-! Lemmas for C86. -/
namespace Verif.StoreCopy
open Verif

/-! ### Loading -/

theorem loadRows_spec {W : CKey → Option String} {run : String} {rows : List MetaRow}
    (hW : ∀ r ∈ rows, W r.key = some r.version) {m : MemMeta} {l : List CKey} (hl : m.keysByRun.get? run = some l) :
    ∃ m', loadRows m run rows = .ok m' ∧ m'.runIds = m.runIds ∧
      (∀ run', m'.keysByRun.get? run' = if run = run' then some (l ++ rows.map (·.key)) else m.keysByRun.get? run') ∧
      ∀ key, m'.versions.get? key = if key ∈ rows.map (·.key) then W key else m.versions.get? key := by
  induction rows generalizing m l with
  | nil =>
    refine ⟨m, rfl, rfl, fun run' => ?_, fun key => by simp⟩
    by_cases e : run = run'
    · subst e; simp [hl]
    · simp [e]
  | cons r rest ih =>
    have h1 : m.set r.key r.version run =
        (⟨m.versions.set r.key r.version, m.keysByRun.set run (l ++ [r.key]), m.runIds⟩, none) := by
      unfold MemMeta.set
      simp only [hl]
    have hd : loadRows m run (r :: rest) =
        loadRows ⟨m.versions.set r.key r.version, m.keysByRun.set run (l ++ [r.key]), m.runIds⟩ run rest := by
      conv => lhs; unfold loadRows
      rw [h1]
    rw [hd]
    obtain ⟨m', e1, e2, e3, e4⟩ := ih (fun q hq => hW q (by simp [hq]))
      (m := ⟨m.versions.set r.key r.version, m.keysByRun.set run (l ++ [r.key]), m.runIds⟩) (l := l ++ [r.key])
      (Dict.get?_set_self ..)
    refine ⟨m', e1, e2, fun run' => ?_, fun key => ?_⟩
    · rw [e3]
      by_cases e : run = run'
      · simp [e]
      · rw [if_neg e, if_neg e]; exact Dict.get?_set_ne _ _ e
    · rw [e4]
      by_cases h : key ∈ rest.map (·.key)
      · rw [if_pos h, if_pos (by simp only [List.map_cons, List.mem_cons]; exact .inr h)]
      · rw [if_neg h]
        show (m.versions.set r.key r.version).get? key = _
        rw [Dict.get?_set]
        by_cases e : r.key = key
        · rw [if_pos e, if_pos (by simp [e]), ← e]; exact (hW r (by simp)).symm
        · rw [if_neg e, if_neg]
          simp only [List.map_cons, List.mem_cons]
          rintro (h' | h')
          · exact e h'.symm
          · exact h h'

theorem loadRuns_spec {src : Source} {rowsOf : String → List MetaRow} {W : CKey → Option String} {ids : List String}
    (hg : ∀ run ∈ ids, src.getRun run = .ok (rowsOf run)) (hW : ∀ run ∈ ids, ∀ r ∈ rowsOf run, W r.key = some r.version)
    (m : MemMeta) :
    ∃ m', loadRuns src m ids = .ok m' ∧ m'.runIds = m.runIds ++ ids ∧
      (∀ run, m'.keysByRun.get? run = if run ∈ ids then some ((rowsOf run).map (·.key)) else m.keysByRun.get? run) ∧
      ∀ key, m'.versions.get? key =
        if key ∈ ids.flatMap (fun run => (rowsOf run).map (·.key)) then W key else m.versions.get? key := by
  induction ids generalizing m with
  | nil => exact ⟨m, rfl, by simp, fun _ => by simp, fun _ => by simp⟩
  | cons run rest ih =>
    obtain ⟨m1, f1, f2, f3, f4⟩ := loadRows_spec (m := m.initialize run) (l := []) (hW run (by simp))
      (Dict.get?_set_self ..)
    obtain ⟨m2, g1, g2, g3, g4⟩ := ih (fun q hq => hg q (by simp [hq])) (fun q hq => hW q (by simp [hq])) m1
    refine ⟨m2, ?_, ?_, fun run' => ?_, fun key => ?_⟩
    · unfold loadRuns
      rw [hg run (by simp)]
      dsimp only
      rw [f1]
      exact g1
    · rw [g2, f2]; simp [MemMeta.initialize]
    · rw [g3]
      by_cases h : run' ∈ rest
      · rw [if_pos h, if_pos (by simp [h])]
      · rw [if_neg h, f3]
        by_cases e : run = run'
        · subst e; simp
        · rw [if_neg e, if_neg (by simp only [List.mem_cons]; rintro (h' | h'); exact e h'.symm; exact h h')]
          exact Dict.get?_set_ne _ _ e
    · rw [g4]
      by_cases h : key ∈ rest.flatMap (fun run => (rowsOf run).map (·.key))
      · rw [if_pos h, if_pos (by rw [List.flatMap_cons]; exact List.mem_append_right _ h)]
      · rw [if_neg h, f4]
        by_cases h' : key ∈ (rowsOf run).map (·.key)
        · rw [if_pos h', if_pos (by rw [List.flatMap_cons]; exact List.mem_append_left _ h')]
        · rw [if_neg h', if_neg]
          · rfl
          · rw [List.flatMap_cons]
            intro hh
            rcases List.mem_append.1 hh with hh | hh
            · exact h' hh
            · exact h hh

/-! ### Rows of the in-memory store -/

theorem row_key {Z : Codec} {m : MemMeta} {key : CKey} {r : MetaRow} (h : m.row Z key = .ok r) :
    ∃ k n c d, key = some k ∧ decodeKey Z k = some (n, c, d) ∧ m.versions.get? key = some r.version ∧
      r = ⟨key, r.version, n, c⟩ := by
  cases key with
  | none => cases h
  | some k =>
    have h' : (match decodeKey Z k with
      | none => .error .decode
      | some (name, code, _) =>
        match m.versions.get? (some k) with
        | none => .error .keyError
        | some v => .ok ⟨some k, v, name, code⟩ : Except StoreErr MetaRow) = .ok r := h
    cases hd : decodeKey Z k with
    | none => rw [hd] at h'; cases h'
    | some t =>
      obtain ⟨n, c, d⟩ := t
      rw [hd] at h'
      dsimp only at h'
      cases hv : m.versions.get? (some k) with
      | none => rw [hv] at h'; cases h'
      | some v =>
        rw [hv] at h'
        cases h'
        exact ⟨k, n, c, d, rfl, hd, rfl, rfl⟩

theorem row_of {Z : Codec} {m : MemMeta} {k v n c : String} {d : Dict String String} (hd : decodeKey Z k = some (n, c, d))
    (hv : m.versions.get? (some k) = some v) : m.row Z (some k) = .ok ⟨some k, v, n, c⟩ := by
  show (match decodeKey Z k with
      | none => .error .decode
      | some (name, code, _) =>
        match m.versions.get? (some k) with
        | none => .error .keyError
        | some v => .ok ⟨some k, v, name, code⟩ : Except StoreErr MetaRow) = _
  rw [hd]
  dsimp only
  rw [hv]

theorem mapM_rows {α β ε : Type} {f : α → Except ε β} : ∀ {l : List α} {rows : List β}, l.mapM f = .ok rows →
    (∀ x ∈ l, ∃ r ∈ rows, f x = .ok r) ∧ (∀ r ∈ rows, ∃ x ∈ l, f x = .ok r) := by
  intro l
  induction l with
  | nil =>
    intro rows h
    cases h
    exact ⟨fun _ h => (by cases h), fun _ h => (by cases h)⟩
  | cons x rest ih =>
    intro rows h
    rw [List.mapM_cons] at h
    cases hx : f x with
    | error e => rw [hx] at h; cases h
    | ok r =>
      rw [hx] at h
      cases hm : rest.mapM f with
      | error e => rw [hm] at h; cases h
      | ok rs =>
        rw [hm] at h
        cases h
        obtain ⟨i1, i2⟩ := ih hm
        constructor
        · intro y hy
          rcases List.mem_cons.1 hy with rfl | hy
          · exact ⟨r, by simp, hx⟩
          · obtain ⟨r', h1, h2⟩ := i1 y hy; exact ⟨r', by simp [h1], h2⟩
        · intro y hy
          rcases List.mem_cons.1 hy with rfl | hy
          · exact ⟨x, by simp, hx⟩
          · obtain ⟨r', h1, h2⟩ := i2 y hy; exact ⟨r', by simp [h1], h2⟩

theorem mapM_of {α β ε : Type} {f : α → Except ε β} {g : α → β} : ∀ {l : List α}, (∀ x ∈ l, f x = .ok (g x)) →
    l.mapM f = .ok (l.map g) := by
  intro l
  induction l with
  | nil => intro _; rfl
  | cons x rest ih =>
    intro h
    rw [List.mapM_cons, h x (by simp), ih (fun y hy => h y (by simp [hy]))]
    rfl

theorem mapM_congr {α β ε : Type} {f g : α → Except ε β} : ∀ {l : List α}, (∀ x ∈ l, f x = g x) → l.mapM f = l.mapM g := by
  intro l
  induction l with
  | nil => intro _; rfl
  | cons x rest ih =>
    intro h
    rw [List.mapM_cons, List.mapM_cons, h x (by simp), ih (fun y hy => h y (by simp [hy]))]

/-- The rows of a run are those of its keys. -/
theorem mapM_filterMap {α β ε : Type} {f : α → Except ε β} {g : α → Option β} : ∀ {l : List α} {rows : List β},
    l.mapM f = .ok rows → (∀ x ∈ l, ∀ r, f x = .ok r → g x = some r) → l.filterMap g = rows := by
  intro l
  induction l with
  | nil => intro rows h _; cases h; rfl
  | cons x rest ih =>
    intro rows h hg
    rw [List.mapM_cons] at h
    cases hx : f x with
    | error e => rw [hx] at h; cases h
    | ok r =>
      rw [hx] at h
      cases hm : rest.mapM f with
      | error e => rw [hm] at h; cases h
      | ok rs =>
        rw [hm] at h
        cases h
        rw [List.filterMap_cons, hg x (by simp) r hx, ih hm (fun y hy => hg y (by simp [hy]))]

theorem mapM_keys {Z : Codec} {m : MemMeta} : ∀ {l : List CKey} {rows : List MetaRow}, l.mapM (m.row Z) = .ok rows →
    rows.map (·.key) = l := by
  intro l
  induction l with
  | nil => intro rows h; cases h; rfl
  | cons x rest ih =>
    intro rows h
    rw [List.mapM_cons] at h
    cases hx : m.row Z x with
    | error e => rw [hx] at h; cases h
    | ok r =>
      rw [hx] at h
      cases hm : rest.mapM (m.row Z) with
      | error e => rw [hm] at h; cases h
      | ok rs =>
        rw [hm] at h
        cases h
        obtain ⟨k, n, c, d, hk, _, _, hr⟩ := row_key hx
        rw [List.map_cons, ih hm, hr]

/-! ### Invariants of the in-memory store -/

theorem mem_set_runs (s : MemMeta) (key : CKey) (v run : String) : ((s.set key v run).1).runIds = s.runIds := by
  unfold MemMeta.set
  simp only
  split <;> rfl

theorem mem_set_keys (s : MemMeta) (key : CKey) (v run : String) (run' : String) :
    ((s.set key v run).1).keysByRun.get? run' =
      if run = run' then (s.keysByRun.get? run).map (· ++ [key]) else s.keysByRun.get? run' := by
  unfold MemMeta.set
  dsimp only
  cases h : s.keysByRun.get? run with
  | none =>
    dsimp only
    by_cases e : run = run'
    · rw [if_pos e, ← e, h]; rfl
    · rw [if_neg e]
  | some l =>
    dsimp only
    rw [Dict.get?_set]
    rfl

theorem mem_set_nodup (s : MemMeta) (key : CKey) (v run : String) (h : s.keysByRun.keys.Nodup) :
    ((s.set key v run).1).keysByRun.keys.Nodup := by
  unfold MemMeta.set
  dsimp only
  cases s.keysByRun.get? run with
  | none => exact h
  | some l => exact Dict.keys_set_nodup h _ _

/-- The runs that have a list of keys are those that were started. -/
theorem mem_runs (ops : List MetaOp) : (MemMeta.after ops).keysByRun.keys.Nodup ∧
    ∀ run, (∃ l, (MemMeta.after ops).keysByRun.get? run = some l) ↔ run ∈ (MemMeta.after ops).runIds := by
  induction ops using history_ind with
  | h0 => exact ⟨List.nodup_nil, fun run => ⟨fun ⟨l, h⟩ => (by cases h), fun h => (by cases h)⟩⟩
  | hs ops op ih =>
    obtain ⟨i1, i2⟩ := ih
    rw [mem_after_snoc]
    cases op with
    | start run =>
      refine ⟨Dict.keys_set_nodup i1 _ _, fun run' => ?_⟩
      show (∃ l, ((MemMeta.after ops).keysByRun.set run []).get? run' = some l) ↔ run' ∈ (MemMeta.after ops).runIds ++ [run]
      rw [Dict.get?_set, List.mem_append, List.mem_singleton, ← i2]
      by_cases e : run = run'
      · subst e; simp
      · rw [if_neg e]
        exact ⟨.inl, fun h => h.elim id (fun h => absurd h.symm e)⟩
    | set key v run n c =>
      refine ⟨mem_set_nodup _ _ _ _ i1, fun run' => ?_⟩
      show (∃ l, (((MemMeta.after ops).set key v run).1).keysByRun.get? run' = some l) ↔
        run' ∈ (((MemMeta.after ops).set key v run).1).runIds
      rw [mem_set_keys, mem_set_runs, ← i2]
      by_cases e : run = run'
      · subst e
        rw [if_pos rfl]
        cases (MemMeta.after ops).keysByRun.get? run <;> simp
      · rw [if_neg e]
    | delete key =>
      have h1 : (((MemMeta.after ops).delete key).1).keysByRun = (MemMeta.after ops).keysByRun := by
        unfold MemMeta.delete; split <;> rfl
      have h2 : (((MemMeta.after ops).delete key).1).runIds = (MemMeta.after ops).runIds := by
        unfold MemMeta.delete; split <;> rfl
      show (((MemMeta.after ops).delete key).1).keysByRun.keys.Nodup ∧ ∀ run,
        (∃ l, (((MemMeta.after ops).delete key).1).keysByRun.get? run = some l) ↔ run ∈ (((MemMeta.after ops).delete key).1).runIds
      rw [h1, h2]; exact ⟨i1, i2⟩
    | deleteAll => exact ⟨i1, i2⟩

/-! ### Persisting -/

theorem each_start {Z : Codec} : ∀ {ids : List String} {s : SqlMeta}, s.tables = true →
    each (sqlTarget Z).start s ids = ({ s with runIds := s.runIds ++ ids }, none) := by
  intro ids
  induction ids with
  | nil => intro s _; simp [each]
  | cons run rest ih =>
    intro s ht
    have h1 : (sqlTarget Z).start s run = ({ s with runIds := s.runIds ++ [run] }, none) := by
      show s.initialize run = _
      unfold SqlMeta.initialize
      rw [if_pos ht]
    unfold each
    rw [h1]
    dsimp only
    have h2 := ih (s := { s with runIds := s.runIds ++ [run] }) ht
    rw [h2]
    simp

theorem insert_history (s : SqlMeta) (r : MetaRow) : (s.insertOrIgnore r).history = s.history := by
  unfold SqlMeta.insertOrIgnore; split <;> rfl

theorem insert_runs (s : SqlMeta) (r : MetaRow) : (s.insertOrIgnore r).runIds = s.runIds := by
  unfold SqlMeta.insertOrIgnore; split <;> rfl

theorem find_history (s : SqlMeta) (h : List (CKey × String)) (k : CKey) :
    ({ s with history := h } : SqlMeta).find k = s.find k := by
  cases k <;> rfl

theorem set_decoded {Z : Codec} {s : SqlMeta} (ht : s.tables = true) {k n c : String} {d : Dict String String}
    (hd : decodeKey Z k = some (n, c, d)) (v run : String) :
    s.set Z (some k) v run none none =
      ({ s with history := s.history ++ [(some k, run)] }.insertOrIgnore ⟨some k, v, n, c⟩, none) := by
  unfold SqlMeta.set
  simp [ht, hd]

/-- The first of two answers. -/
def orElse {α : Type} (a b : Option α) : Option α := if a.isSome then a else b

theorem insert_find (s : SqlMeta) (r : MetaRow) (k : String) :
    (s.insertOrIgnore r).find (some k) = orElse (s.find (some k)) (if r.key = some k then some r else none) := by
  rw [sql_insert_find]
  unfold orElse
  by_cases h : r.key = some k
  · rw [if_pos h, if_pos h]
    cases s.find (some k) <;> rfl
  · rw [if_neg h, if_neg h]
    cases s.find (some k) <;> rfl

theorem each_keys {Z : Codec} {m : MemMeta} {run : String} : ∀ {keys : List CKey} {s : SqlMeta}, s.tables = true →
    (∀ key ∈ keys, ∃ r, m.row Z key = .ok r) →
    ∃ s', each (persistKey (sqlTarget Z) m run) s keys = (s', none) ∧ s'.tables = true ∧ s'.runIds = s.runIds ∧
      s'.history = s.history ++ keys.map (fun k => (k, run)) ∧
      ∀ k, s'.find (some k) = orElse (s.find (some k)) (if some k ∈ keys then (m.row Z (some k)).toOption else none) := by
  intro keys
  induction keys with
  | nil =>
    intro s ht _
    refine ⟨s, rfl, ht, rfl, by simp, fun k => ?_⟩
    unfold orElse
    cases s.find (some k) <;> simp
  | cons key rest ih =>
    intro s ht hk
    obtain ⟨r, hr⟩ := hk key (by simp)
    obtain ⟨k, n, c, d, rfl, hd, hv, he⟩ := row_key hr
    have h1 : persistKey (sqlTarget Z) m run s (some k) =
        ({ s with history := s.history ++ [(some k, run)] }.insertOrIgnore r, none) := by
      unfold persistKey
      rw [hv]
      show s.set Z (some k) r.version run none none = _
      rw [set_decoded ht hd, ← he]
    obtain ⟨s', e1, e2, e3, e4, e5⟩ := ih (s := { s with history := s.history ++ [(some k, run)] }.insertOrIgnore r)
      (by rw [insertOrIgnore_tables]; exact ht) (fun q hq => hk q (by simp [hq]))
    refine ⟨s', ?_, e2, ?_, ?_, fun j => ?_⟩
    · unfold each
      rw [h1]
      exact e1
    · rw [e3, insert_runs]
    · rw [e4, insert_history]; simp
    · rw [e5, insert_find, find_history]
      have hrk : r.key = some k := by rw [he]
      by_cases hjk : k = j
      · subst hjk
        have hm : (some k : CKey) ∈ some k :: rest := by simp
        rw [if_pos hrk, if_pos hm, hr]
        unfold orElse
        cases s.find (some k) <;> rfl
      · have hne : ¬ r.key = some j := by rw [hrk]; intro e; exact hjk (by cases e; rfl)
        have hiff : (some j : CKey) ∈ some k :: rest ↔ some j ∈ rest := by
          simp only [List.mem_cons, Option.some.injEq]
          exact ⟨fun h => h.elim (fun h => absurd h.symm hjk) id, .inr⟩
        rw [if_neg hne]
        by_cases hj : (some j : CKey) ∈ rest
        · rw [if_pos hj, if_pos (hiff.2 hj)]
          unfold orElse
          cases s.find (some j) <;> rfl
        · rw [if_neg hj, if_neg (fun h => hj (hiff.1 h))]
          unfold orElse
          cases s.find (some j) <;> rfl

/-- All that is recorded, in order. -/
def flat (d : Dict String (List CKey)) : List (CKey × String) := d.flatMap (fun p => p.2.map (fun k => (k, p.1)))

theorem each_runs {Z : Codec} {m : MemMeta} : ∀ {d : Dict String (List CKey)} {s : SqlMeta}, s.tables = true →
    (∀ p ∈ d, ∀ key ∈ p.2, ∃ r, m.row Z key = .ok r) →
    ∃ s', each (persistRun (sqlTarget Z) m) s d = (s', none) ∧ s'.tables = true ∧ s'.runIds = s.runIds ∧
      s'.history = s.history ++ flat d ∧
      ∀ k, s'.find (some k) =
        orElse (s.find (some k)) (if some k ∈ (flat d).map (·.1) then (m.row Z (some k)).toOption else none) := by
  intro d
  induction d with
  | nil =>
    intro s ht _
    refine ⟨s, rfl, ht, rfl, by simp [flat], fun k => ?_⟩
    unfold orElse
    cases s.find (some k) <;> simp [flat]
  | cons p rest ih =>
    intro s ht hk
    obtain ⟨s1, e1, e2, e3, e4, e5⟩ := each_keys (run := p.1) ht (hk p (by simp))
    obtain ⟨s2, f1, f2, f3, f4, f5⟩ := ih e2 (fun q hq => hk q (by simp [hq]))
    have hflat : flat (p :: rest) = p.2.map (fun k => (k, p.1)) ++ flat rest := by
      unfold flat; rw [List.flatMap_cons]
    refine ⟨s2, ?_, f2, by rw [f3, e3], ?_, fun k => ?_⟩
    · unfold each
      have : persistRun (sqlTarget Z) m s p = (s1, none) := e1
      rw [this]
      exact f1
    · rw [f4, e4, hflat]; simp
    · rw [f5, e5, hflat, List.map_append, List.map_map]
      have hfst : (p.2.map ((fun x : CKey × String => x.1) ∘ fun k => (k, p.1))) = p.2 := by
        rw [show ((fun x : CKey × String => x.1) ∘ fun k => (k, p.1)) = id from rfl, List.map_id]
      rw [hfst]
      have hor : (some k : CKey) ∈ p.2 ++ (flat rest).map (·.1) ↔ some k ∈ p.2 ∨ some k ∈ (flat rest).map (·.1) :=
        List.mem_append
      unfold orElse
      by_cases h1 : (some k : CKey) ∈ p.2
      · rw [if_pos h1, if_pos (hor.2 (.inl h1))]
        cases hs : s.find (some k) with
        | some r => rfl
        | none =>
          simp only [Option.isSome_none, Bool.false_eq_true, if_false]
          obtain ⟨r, hr⟩ := hk p (by simp) _ h1
          rw [hr]; rfl
      · rw [if_neg h1]
        by_cases h2 : (some k : CKey) ∈ (flat rest).map (·.1)
        · rw [if_pos h2, if_pos (hor.2 (.inr h2))]
          cases s.find (some k) <;> rfl
        · rw [if_neg h2, if_neg (fun h => (hor.1 h).elim h1 h2)]
          cases s.find (some k) <;> rfl

/-- What is recorded for a run. -/
theorem flat_run {d : Dict String (List CKey)} (hn : d.keys.Nodup) (run : String) :
    ((flat d).filter (fun h => decide (h.2 = run))).map (·.1) = (d.get? run).getD [] := by
  induction d with
  | nil => rfl
  | cons p rest ih =>
    obtain ⟨r, l⟩ := p
    rw [Dict.keys_cons, List.nodup_cons] at hn
    have hflat : flat ((r, l) :: rest) = l.map (fun k => (k, r)) ++ flat rest := by
      unfold flat; rw [List.flatMap_cons]
    rw [hflat, List.filter_append, List.map_append, ih hn.2, Dict.get?_cons]
    by_cases e : r = run
    · subst e
      have h1 : Dict.get? rest r = none := (Dict.get?_eq_none_iff _ _).2 hn.1
      rw [h1]
      have h2 : (l.map (fun k => (k, r))).filter (fun h => decide (h.2 = r)) = l.map (fun k => (k, r)) :=
        List.filter_eq_self.2 (by intro a ha; obtain ⟨x, _, rfl⟩ := List.mem_map.1 ha; simp)
      rw [h2, List.map_map]
      simp [Function.comp_def]
    · have h2 : (l.map (fun k => (k, r))).filter (fun h => decide (h.2 = run)) = [] :=
        List.filter_eq_nil_iff.2 (by intro a ha; obtain ⟨x, _, rfl⟩ := List.mem_map.1 ha; simp [e])
      rw [h2]
      simp [e]

theorem mem_flat {d : Dict String (List CKey)} (hn : d.keys.Nodup) {key : CKey} :
    key ∈ (flat d).map (·.1) ↔ ∃ run l, d.get? run = some l ∧ key ∈ l := by
  constructor
  · intro h
    obtain ⟨x, hx, rfl⟩ := List.mem_map.1 h
    unfold flat at hx
    obtain ⟨p, hp, hx⟩ := List.mem_flatMap.1 hx
    obtain ⟨k, hk, rfl⟩ := List.mem_map.1 hx
    exact ⟨p.1, p.2, Dict.get?_of_mem hn hp, hk⟩
  · rintro ⟨run, l, h, hk⟩
    refine List.mem_map.2 ⟨(key, run), ?_, rfl⟩
    unfold flat
    exact List.mem_flatMap.2 ⟨(run, l), Dict.get?_mem h, List.mem_map.2 ⟨key, hk, rfl⟩⟩

end Verif.StoreCopy
