import Verif.Proofs.StoreCopy

/-! C86: moving a cache between stores keeps it. -/
namespace Verif.StoreCopy
open Verif

/-! ### Specification -/

/-- Histories as the adapter produces them: what is set belongs to a run that was started, and no run is started twice. -/
def Proper (ops : List MetaOp) : Prop :=
  (∀ before key v run n c after, ops = before ++ .set key v run n c :: after → .start run ∈ before) ∧
  ∀ before run after, ops = before ++ .start run :: after → .start run ∉ before

/-- The key is one that `create_cache_key` makes: it can be decoded. -/
def Decodable (Z : Codec) (key : CKey) : Prop := ∃ k t, key = some k ∧ decodeKey Z k = some t

/-- Every run of the store can be listed. -/
def Listable (src : Source) (ids : List String) : Prop :=
  src.runIds = .ok ids ∧ ∀ run ∈ ids, ∃ rows, src.getRun run = .ok rows

/-- The data version of some node of some run, or one of those given. -/
def Asked (metadata : Option Source) (versions : Option (List String)) (v : String) : Prop :=
  (∃ vs, versions = some vs ∧ v ∈ vs) ∨
  ∃ src ids run rows r, metadata = some src ∧ src.runIds = .ok ids ∧ run ∈ ids ∧ src.getRun run = .ok rows ∧ r ∈ rows ∧
    r.version = v

/-! ### Histories -/

theorem Proper.init {ops : List MetaOp} {op : MetaOp} (h : Proper (ops ++ [op])) : Proper ops := by
  constructor
  · intro b key v run n c a e
    exact h.1 b key v run n c (a ++ [op]) (by rw [e]; simp)
  · intro b run a e
    exact h.2 b run (a ++ [op]) (by rw [e]; simp)

theorem mem_started (ops : List MetaOp) (run : String) : run ∈ (MemMeta.after ops).runIds ↔ .start run ∈ ops := by
  induction ops using history_ind with
  | h0 => exact ⟨fun h => (by cases h), fun h => (by cases h)⟩
  | hs ops op ih =>
    rw [mem_after_snoc, List.mem_append, List.mem_singleton, ← ih]
    cases op with
    | start r =>
      show run ∈ (MemMeta.after ops).runIds ++ [r] ↔ _
      rw [List.mem_append, List.mem_singleton]
      constructor
      · rintro (h | rfl)
        · exact .inl h
        · exact .inr rfl
      · rintro (h | h)
        · exact .inl h
        · cases h; exact .inr rfl
    | set key v r n c =>
      show run ∈ (((MemMeta.after ops).set key v r).1).runIds ↔ _
      rw [mem_set_runs]
      exact ⟨.inl, fun h => h.elim id (fun h => (by cases h))⟩
    | delete key =>
      have h2 : (((MemMeta.after ops).delete key).1).runIds = (MemMeta.after ops).runIds := by
        unfold MemMeta.delete; split <;> rfl
      show run ∈ (((MemMeta.after ops).delete key).1).runIds ↔ _
      rw [h2]
      exact ⟨.inl, fun h => h.elim id (fun h => (by cases h))⟩
    | deleteAll => exact ⟨.inl, fun h => h.elim id (fun h => (by cases h))⟩

/-- In such histories every key that has a version is recorded for a run. -/
theorem mem_recorded {ops : List MetaOp} (hp : Proper ops) {key : CKey} {v : String}
    (h : (MemMeta.after ops).versions.get? key = some v) :
    ∃ run l, (MemMeta.after ops).keysByRun.get? run = some l ∧ key ∈ l := by
  induction ops using history_ind generalizing v with
  | h0 => cases h
  | hs ops op ih =>
    have ih := @ih hp.init
    rw [mem_after_snoc] at h ⊢
    cases op with
    | start r =>
      obtain ⟨run, l, h1, h2⟩ := ih h
      refine ⟨run, l, ?_, h2⟩
      show ((MemMeta.after ops).keysByRun.set r []).get? run = some l
      have hne : r ≠ run := by
        intro e
        subst e
        have := (mem_started ops r).1 (((mem_runs ops).2 r).1 ⟨l, h1⟩)
        exact hp.2 ops r [] rfl this
      rw [Dict.get?_set_ne _ _ hne]
      exact h1
    | set k w r n c =>
      have hr : ∃ l, (MemMeta.after ops).keysByRun.get? r = some l :=
        ((mem_runs ops).2 r).2 ((mem_started ops r).2 (hp.1 ops k w r n c [] rfl))
      obtain ⟨l0, hl0⟩ := hr
      show ∃ run l, (((MemMeta.after ops).set k w r).1).keysByRun.get? run = some l ∧ key ∈ l
      have h' : (((MemMeta.after ops).set k w r).1).versions.get? key = some v := h
      rw [mem_set_versions, Dict.get?_set] at h'
      by_cases e : k = key
      · refine ⟨r, l0 ++ [k], ?_, by simp [e]⟩
        rw [mem_set_keys, if_pos rfl, hl0]; rfl
      · rw [if_neg e] at h'
        obtain ⟨run, l, h1, h2⟩ := ih h'
        by_cases er : r = run
        · refine ⟨r, l0 ++ [k], ?_, ?_⟩
          · rw [mem_set_keys, if_pos rfl, hl0]; rfl
          · subst er
            rw [h1] at hl0
            cases hl0
            simp [h2]
        · exact ⟨run, l, by rw [mem_set_keys, if_neg er]; exact h1, h2⟩
    | delete k =>
      have h1 : (((MemMeta.after ops).delete k).1).keysByRun = (MemMeta.after ops).keysByRun := by
        unfold MemMeta.delete; split <;> rfl
      show ∃ run l, (((MemMeta.after ops).delete k).1).keysByRun.get? run = some l ∧ key ∈ l
      rw [h1]
      have h' : (((MemMeta.after ops).delete k).1).versions.get? key = some v := h
      unfold MemMeta.delete at h'
      by_cases hh : (MemMeta.after ops).versions.has k = true
      · rw [if_pos hh] at h'
        dsimp only at h'
        rw [Dict.get?_del] at h'
        by_cases e : k = key
        · rw [if_pos e] at h'; cases h'
        · rw [if_neg e] at h'; exact ih h'
      · rw [if_neg hh] at h'; exact ih h'
    | deleteAll => cases h

theorem find_key {s : SqlMeta} {key : CKey} {r : MetaRow} (h : s.find key = some r) : r.key = key := by
  cases key with
  | none => cases h
  | some k =>
    have := List.find?_some h
    simpa using this

/-- The rows of a run, as a total function. -/
def sqlRows (s : SqlMeta) (run : String) : List MetaRow :=
  (s.history.filter (fun h => decide (h.2 = run))).filterMap (fun h => s.find h.1)

theorem sql_open {s : SqlMeta} {ids : List String} (h : s.getRunIds = .ok ids) : s.tables = true ∧ s.runIds = ids := by
  unfold SqlMeta.getRunIds at h
  by_cases ht : s.tables = true
  · rw [if_pos ht] at h; cases h; exact ⟨ht, rfl⟩
  · rw [if_neg ht] at h; cases h

theorem sql_getRun {s : SqlMeta} (ht : s.tables = true) {run : String} (hr : run ∈ s.runIds) :
    s.getRun run = .ok (sqlRows s run) := by
  unfold SqlMeta.getRun
  rw [if_pos ht, if_pos (List.contains_iff_mem.2 hr)]
  rfl

theorem sql_getRun_inv {s : SqlMeta} {run : String} {rows : List MetaRow} (h : s.getRun run = .ok rows) :
    s.tables = true ∧ run ∈ s.runIds ∧ rows = sqlRows s run := by
  unfold SqlMeta.getRun at h
  by_cases ht : s.tables = true
  · rw [if_pos ht] at h
    by_cases hc : s.runIds.contains run = true
    · rw [if_pos hc] at h
      cases h
      exact ⟨ht, List.contains_iff_mem.1 hc, rfl⟩
    · rw [if_neg hc] at h; cases h
  · rw [if_neg ht] at h; cases h

theorem sqlRows_mem {s : SqlMeta} {run : String} {r : MetaRow} :
    r ∈ sqlRows s run ↔ (r.key, run) ∈ s.history ∧ s.find r.key = some r := by
  unfold sqlRows
  rw [List.mem_filterMap]
  constructor
  · rintro ⟨h, hh, hf⟩
    obtain ⟨h1, h2⟩ := List.mem_filter.1 hh
    have hk := find_key hf
    refine ⟨?_, by rw [hk]; exact hf⟩
    rw [hk, ← of_decide_eq_true h2]
    exact h1
  · rintro ⟨h1, h2⟩
    exact ⟨(r.key, run), List.mem_filter.2 ⟨h1, by simp⟩, h2⟩

/-! ### Metadata -/

/-- Loading a SQLite store into memory: it never fails on a store that is open, the runs are the same in the same order, a key has
exactly the version that a run of the store lists for it, and each run lists the same keys with the same versions. -/
theorem C86_load (Z : Codec) {s : SqlMeta} {ids : List String} (ho : s.getRunIds = .ok ids) :
    ∃ m, loadFrom (sqlSource s) = .ok m ∧ m.getRunIds = ids ∧
      (∀ key v, m.get key = some v ↔ ∃ run ∈ ids, ∃ rows, s.getRun run = .ok rows ∧ ∃ r ∈ rows, r.key = key ∧ r.version = v) ∧
      ∀ run rows, s.getRun run = .ok rows → (∀ r ∈ rows, Decodable Z r.key) →
        ∃ rows', m.getRun Z run = .ok rows' ∧ rows'.map (fun r => (r.key, r.version)) = rows.map (fun r => (r.key, r.version)) := by
  obtain ⟨ht, rfl⟩ := sql_open ho
  have hW : ∀ run ∈ s.runIds, ∀ r ∈ sqlRows s run, (fun key => (s.find key).map (·.version)) r.key = some r.version := by
    intro run _ r hr
    show (s.find r.key).map (·.version) = _
    rw [(sqlRows_mem.1 hr).2]; rfl
  obtain ⟨m, e1, e2, e3, e4⟩ := loadRuns_spec (src := sqlSource s) (rowsOf := sqlRows s)
    (W := fun key => (s.find key).map (·.version)) (fun run hr => sql_getRun ht hr) hW MemMeta.empty
  have hversion : ∀ run ∈ s.runIds, ∀ r ∈ sqlRows s run, m.versions.get? r.key = some r.version := by
    intro run hrun r hr
    rw [e4, if_pos (List.mem_flatMap.2 ⟨run, hrun, List.mem_map.2 ⟨r, hr, rfl⟩⟩)]
    exact hW run hrun r hr
  refine ⟨m, ?_, ?_, fun key v => ?_, fun run rows hrows hdec => ?_⟩
  · unfold loadFrom
    have : (sqlSource s).runIds = .ok s.runIds := ho
    rw [this]
    exact e1
  · show m.runIds = _
    rw [e2]; rfl
  · constructor
    · intro h
      have h' : m.versions.get? key = some v := h
      rw [e4] at h'
      by_cases hm : key ∈ s.runIds.flatMap (fun run => (sqlRows s run).map (·.key))
      · obtain ⟨run, hrun, hk⟩ := List.mem_flatMap.1 hm
        obtain ⟨r, hr, rfl⟩ := List.mem_map.1 hk
        refine ⟨run, hrun, _, sql_getRun ht hrun, r, hr, rfl, ?_⟩
        rw [if_pos hm] at h'
        have := hW run hrun r hr
        dsimp only at this h'
        rw [this] at h'
        exact Option.some.inj h'
      · rw [if_neg hm] at h'; cases h'
    · rintro ⟨run, hrun, rows, hrows, r, hr, rfl, rfl⟩
      obtain ⟨_, _, rfl⟩ := sql_getRun_inv hrows
      exact hversion run hrun r hr
  · obtain ⟨_, hrun, rfl⟩ := sql_getRun_inv hrows
    have hk : m.keysByRun.get? run = some ((sqlRows s run).map (·.key)) := by rw [e3, if_pos hrun]
    unfold MemMeta.getRun
    rw [hk]
    show ∃ rows', ((sqlRows s run).map (·.key)).mapM (m.row Z) = .ok rows' ∧ _
    have hall : ∀ r ∈ sqlRows s run, ∃ r', m.row Z r.key = .ok r' ∧ r'.key = r.key ∧ r'.version = r.version := by
      intro r hr
      obtain ⟨k, ⟨n, c, d⟩, hk, hd⟩ := hdec r hr
      have := hversion run hrun r hr
      rw [hk] at this
      rw [hk]
      exact ⟨_, row_of hd this, rfl, rfl⟩
    generalize sqlRows s run = rows at hall
    induction rows with
    | nil => exact ⟨[], rfl, rfl⟩
    | cons r rest ih =>
      obtain ⟨rs, g1, g2⟩ := ih (fun q hq => hall q (by simp [hq]))
      obtain ⟨r', q1, q2, q3⟩ := hall r (by simp)
      refine ⟨r' :: rs, ?_, ?_⟩
      · rw [List.map_cons, List.mapM_cons, q1, g1]; rfl
      · rw [List.map_cons, List.map_cons, g2, q2, q3]

theorem sql_recorded (Z : Codec) {ops : List MetaOp} (hd : Deterministic ops) (hp : Proper ops) :
    ∀ r ∈ (SqlMeta.after Z ops).entries, ∃ run ∈ (SqlMeta.after Z ops).runIds, (r.key, run) ∈ (SqlMeta.after Z ops).history := by
  induction ops using history_ind with
  | h0 => intro r h; cases h
  | hs ops op ih =>
    have ht := sql_tables (Z := Z) hd.init
    have hruns : (SqlMeta.after Z ops).runIds = (MemMeta.after ops).runIds := (sql_open (C30_run_ids Z hd.init)).2
    have hop := hd ops op [] rfl
    have ih := ih hd.init hp.init
    rw [sql_after_snoc]
    cases op with
    | start run =>
      show ∀ r ∈ (((SqlMeta.after Z ops).initialize run).1).entries, ∃ run' ∈ (((SqlMeta.after Z ops).initialize run).1).runIds,
        (r.key, run') ∈ (((SqlMeta.after Z ops).initialize run).1).history
      unfold SqlMeta.initialize
      rw [if_pos ht]
      intro r hr
      obtain ⟨run', h1, h2⟩ := ih r hr
      exact ⟨run', List.mem_append_left _ h1, h2⟩
    | set key w run n c =>
      obtain ⟨hk, hn, hc, hdet⟩ := hop
      obtain ⟨n, rfl⟩ := Option.ne_none_iff_exists'.1 hn
      obtain ⟨c, rfl⟩ := Option.ne_none_iff_exists'.1 hc
      show ∀ r ∈ (((SqlMeta.after Z ops).set Z key w run (some n) (some c)).1).entries,
        ∃ run' ∈ (((SqlMeta.after Z ops).set Z key w run (some n) (some c)).1).runIds,
        (r.key, run') ∈ (((SqlMeta.after Z ops).set Z key w run (some n) (some c)).1).history
      rw [sql_set_given ht, insert_history, insert_runs]
      intro r hr
      have hr' : r ∈ (SqlMeta.after Z ops).entries ∨ r = ⟨key, w, n, c⟩ := by
        unfold SqlMeta.insertOrIgnore at hr
        split at hr
        · exact .inl hr
        · rcases List.mem_append.1 hr with h | h
          · exact .inl h
          · exact .inr (List.mem_singleton.1 h)
      rcases hr' with h | rfl
      · obtain ⟨run', h1, h2⟩ := ih r h
        exact ⟨run', h1, List.mem_append_left _ h2⟩
      · refine ⟨run, ?_, List.mem_append_right _ (by simp)⟩
        show run ∈ (SqlMeta.after Z ops).runIds
        rw [hruns]
        exact (mem_started ops run).2 (hp.1 ops key w run (some n) (some c) [] rfl)
    | delete key =>
      show ∀ r ∈ (((SqlMeta.after Z ops).delete key).1).entries, ∃ run' ∈ (((SqlMeta.after Z ops).delete key).1).runIds,
        (r.key, run') ∈ (((SqlMeta.after Z ops).delete key).1).history
      unfold SqlMeta.delete
      rw [if_pos ht]
      cases key with
      | none => exact ih
      | some k => intro r hr; exact ih r (List.mem_filter.1 hr).1
    | deleteAll => exact absurd hop id

/-- A SQLite store that the adapter has filled, deletions included, is loaded completely: `get` answers the same for every key.
Missing: versions that change under the same key (C30). -/
theorem C86_load_all_partial (Z : Codec) {ops : List MetaOp} (hd : Deterministic ops) (hp : Proper ops) :
    ∃ m, loadFrom (sqlSource (SqlMeta.after Z ops)) = .ok m ∧
      ∀ k, (SqlMeta.after Z ops).get (some k) = .ok (m.get (some k)) := by
  have ho := C30_run_ids Z hd
  obtain ⟨m, h1, h2, h3, _⟩ := C86_load Z ho
  refine ⟨m, h1, fun k => ?_⟩
  have ht := sql_tables (Z := Z) hd
  unfold SqlMeta.get
  rw [if_pos ht]
  congr 1
  apply Option.ext
  intro v
  rw [h3]
  constructor
  · intro h
    cases hf : (SqlMeta.after Z ops).find (some k) with
    | none => rw [hf] at h; cases h
    | some r =>
      rw [hf] at h
      have hk := find_key hf
      have hmem : r ∈ (SqlMeta.after Z ops).entries := List.mem_of_find?_eq_some hf
      obtain ⟨run, hr1, hr2⟩ := sql_recorded Z hd hp r hmem
      refine ⟨run, by rw [← (sql_open ho).2]; exact hr1, _, sql_getRun ht hr1, r, sqlRows_mem.2 ⟨hr2, by rw [hk]; exact hf⟩, hk, ?_⟩
      exact Option.some.inj h
  · rintro ⟨run, hrun, rows, hrows, r, hr, hk, rfl⟩
    obtain ⟨_, _, rfl⟩ := sql_getRun_inv hrows
    have := (sqlRows_mem.1 hr).2
    rw [hk] at this
    rw [this]; rfl

theorem listed_rows {Z : Codec} {ops : List MetaOp}
    (hl : ∀ run ∈ (MemMeta.after ops).getRunIds, ∃ rows, (MemMeta.after ops).getRun Z run = .ok rows) :
    ∀ run l, (MemMeta.after ops).keysByRun.get? run = some l → ∀ key ∈ l, ∃ r, (MemMeta.after ops).row Z key = .ok r := by
  intro run l h key hk
  obtain ⟨rows, hr⟩ := hl run (((mem_runs ops).2 run).1 ⟨l, h⟩)
  unfold MemMeta.getRun at hr
  rw [h] at hr
  obtain ⟨r, _, hr⟩ := (mapM_rows hr).1 key hk
  exact ⟨r, hr⟩

theorem persist_spec {Z : Codec} {ops : List MetaOp}
    (hl : ∀ run ∈ (MemMeta.after ops).getRunIds, ∃ rows, (MemMeta.after ops).getRun Z run = .ok rows) {s : SqlMeta}
    (ht : s.tables = true) :
    ∃ s', persistTo (sqlTarget Z) (MemMeta.after ops) s = (s', none) ∧ s'.tables = true ∧
      s'.runIds = s.runIds ++ (MemMeta.after ops).runIds ∧ s'.history = s.history ++ flat (MemMeta.after ops).keysByRun ∧
      ∀ k, s'.find (some k) = orElse (s.find (some k)) (if some k ∈ (flat (MemMeta.after ops).keysByRun).map (·.1)
        then ((MemMeta.after ops).row Z (some k)).toOption else none) := by
  have hrows := listed_rows hl
  have hn := (mem_runs ops).1
  have h1 : ∀ p ∈ (MemMeta.after ops).keysByRun, ∀ key ∈ p.2, ∃ r, (MemMeta.after ops).row Z key = .ok r :=
    fun p hp key hk => hrows p.1 p.2 (Dict.get?_of_mem hn hp) key hk
  obtain ⟨s', e1, e2, e3, e4, e5⟩ := each_runs (s := { s with runIds := s.runIds ++ (MemMeta.after ops).runIds }) ht h1
  refine ⟨s', ?_, e2, e3, e4, ?_⟩
  · unfold persistTo
    rw [each_start ht]
    exact e1
  · intro k
    rw [e5]
    rfl

/-- Persisting an in-memory store that the adapter has filled and whose runs can be listed: it does not fail, the runs are appended
in their order, a key the other store did not have gets the version it has in memory, and a key the other store had keeps its version.
Missing: stores with deleted keys or with nodes of behaviour "ignore" (`C86_violated_deleted`, `C86_violated_ignored`), and keys the
other store has with another version (`C86_violated_other`). -/
theorem C86_persist_partial (Z : Codec) {ops : List MetaOp} (hp : Proper ops)
    (hl : ∀ run ∈ (MemMeta.after ops).getRunIds, ∃ rows, (MemMeta.after ops).getRun Z run = .ok rows)
    {s : SqlMeta} {ids : List String} (ho : s.getRunIds = .ok ids) :
    ∃ s', persistTo (sqlTarget Z) (MemMeta.after ops) s = (s', none) ∧
      s'.getRunIds = .ok (ids ++ (MemMeta.after ops).getRunIds) ∧
      (∀ k, s.get (some k) = .ok none → s'.get (some k) = .ok ((MemMeta.after ops).get (some k))) ∧
      ∀ k v, s.get (some k) = .ok (some v) → s'.get (some k) = .ok (some v) := by
  obtain ⟨ht, rfl⟩ := sql_open ho
  obtain ⟨s', e1, e2, e3, e4, e5⟩ := persist_spec hl ht
  have hn := (mem_runs ops).1
  refine ⟨s', e1, ?_, ?_, ?_⟩
  · unfold SqlMeta.getRunIds; rw [if_pos e2, e3]; rfl
  · intro k hk
    unfold SqlMeta.get at hk ⊢
    rw [if_pos ht] at hk
    rw [if_pos e2, e5]
    have hnone : s.find (some k) = none := by
      cases hf : s.find (some k) with
      | none => rfl
      | some r => rw [hf] at hk; cases hk
    rw [hnone]
    congr 1
    unfold orElse
    simp only [Option.isSome_none, Bool.false_eq_true, if_false]
    by_cases hm : (some k : CKey) ∈ (flat (MemMeta.after ops).keysByRun).map (·.1)
    · rw [if_pos hm]
      obtain ⟨run, l, g1, g2⟩ := (mem_flat hn).1 hm
      obtain ⟨r, hr⟩ := listed_rows hl run l g1 _ g2
      obtain ⟨_, _, _, _, _, _, hv, _⟩ := row_key hr
      rw [hr]
      exact hv.symm
    · rw [if_neg hm]
      show none = (MemMeta.after ops).versions.get? (some k)
      cases hv : (MemMeta.after ops).versions.get? (some k) with
      | none => rfl
      | some v => exact absurd ((mem_flat hn).2 (mem_recorded hp hv)) hm
  · intro k v hk
    unfold SqlMeta.get at hk ⊢
    rw [if_pos ht] at hk
    rw [if_pos e2, e5]
    cases hf : s.find (some k) with
    | none => rw [hf] at hk; cases hk
    | some r => rw [hf] at hk; exact hk

/-- Into a new database: the same versions, the same runs, and `get_run` lists the same for every run. -/
theorem C86_persist_new_partial (Z : Codec) {ops : List MetaOp} (hp : Proper ops)
    (hl : ∀ run ∈ (MemMeta.after ops).getRunIds, ∃ rows, (MemMeta.after ops).getRun Z run = .ok rows) :
    ∃ s', persistTo (sqlTarget Z) (MemMeta.after ops) .empty = (s', none) ∧
      s'.getRunIds = .ok (MemMeta.after ops).getRunIds ∧
      (∀ k, s'.get (some k) = .ok ((MemMeta.after ops).get (some k))) ∧
      ∀ run, s'.getRun run = (MemMeta.after ops).getRun Z run := by
  obtain ⟨s', e1, e2, e3, _⟩ := C86_persist_partial Z hp hl (s := .empty) (ids := []) rfl
  obtain ⟨s'', f1, f2, f3, f4, f5⟩ := persist_spec hl (s := .empty) rfl
  rw [e1] at f1
  cases f1
  have hn := (mem_runs ops).1
  refine ⟨s', e1, by rw [e2]; rfl, fun k => e3 k rfl, fun run => ?_⟩
  unfold SqlMeta.getRun MemMeta.getRun
  rw [if_pos f2]
  have hrun : s'.runIds = (MemMeta.after ops).runIds := by rw [f3]; rfl
  cases hk : (MemMeta.after ops).keysByRun.get? run with
  | none =>
    have hc : ¬ s'.runIds.contains run = true := by
      intro hc
      rw [hrun] at hc
      obtain ⟨l, h⟩ := ((mem_runs ops).2 run).2 (List.contains_iff_mem.1 hc)
      rw [h] at hk; cases hk
    rw [if_neg hc]
  | some l =>
    have hin := ((mem_runs ops).2 run).1 ⟨l, hk⟩
    have hc : s'.runIds.contains run = true := by rw [hrun]; exact List.contains_iff_mem.2 hin
    rw [if_pos hc]
    obtain ⟨rows, hr⟩ := hl run hin
    unfold MemMeta.getRun at hr
    rw [hk] at hr
    dsimp only at hr ⊢
    rw [hr]
    congr 1
    have hh : s'.history = flat (MemMeta.after ops).keysByRun := by rw [f4]; rfl
    have hcomp : (s'.history.filter (fun h => decide (h.2 = run))).filterMap (fun h => s'.find h.1) =
        ((s'.history.filter (fun h => decide (h.2 = run))).map (·.1)).filterMap s'.find := by
      rw [List.filterMap_map]; rfl
    rw [hcomp, hh, flat_run hn, hk]
    refine mapM_filterMap hr (fun key hkey r hrow => ?_)
    obtain ⟨k, n, c, d, rfl, _, _, _⟩ := row_key hrow
    rw [f5, if_pos ((mem_flat hn).2 ⟨run, l, hk, hkey⟩), hrow]
    rfl

/-- There and back: what is persisted into a new database and loaded again gives the same answers to everything. -/
theorem C86_round_trip_partial (Z : Codec) {ops : List MetaOp} (hp : Proper ops)
    (hl : ∀ run ∈ (MemMeta.after ops).getRunIds, ∃ rows, (MemMeta.after ops).getRun Z run = .ok rows) :
    ∃ s' m', persistTo (sqlTarget Z) (MemMeta.after ops) .empty = (s', none) ∧ loadFrom (sqlSource s') = .ok m' ∧
      m'.getRunIds = (MemMeta.after ops).getRunIds ∧ (∀ key, m'.get key = (MemMeta.after ops).get key) ∧
      ∀ run ∈ (MemMeta.after ops).getRunIds, m'.getRun Z run = (MemMeta.after ops).getRun Z run := by
  obtain ⟨s', e1, e2, e3, e4⟩ := C86_persist_new_partial Z hp hl
  obtain ⟨m', f1, f2, f3, f4⟩ := C86_load Z e2
  have hn := (mem_runs ops).1
  have hget : ∀ key, m'.get key = (MemMeta.after ops).get key := by
    intro key
    apply Option.ext
    intro v
    rw [f3]
    constructor
    · rintro ⟨run, hrun, rows, hrows, r, hr, rfl, rfl⟩
      rw [e4] at hrows
      unfold MemMeta.getRun at hrows
      cases hk : (MemMeta.after ops).keysByRun.get? run with
      | none => rw [hk] at hrows; cases hrows
      | some l =>
        rw [hk] at hrows
        obtain ⟨x, _, hx⟩ := (mapM_rows hrows).2 r hr
        obtain ⟨_, _, _, _, _, _, hv, he⟩ := row_key hx
        rw [show r.key = x by rw [he]]
        exact hv
    · intro h
      obtain ⟨run, l, g1, g2⟩ := mem_recorded hp h
      have hin := ((mem_runs ops).2 run).1 ⟨l, g1⟩
      obtain ⟨rows, hr⟩ := hl run hin
      refine ⟨run, hin, rows, by rw [e4]; exact hr, ?_⟩
      unfold MemMeta.getRun at hr
      rw [g1] at hr
      obtain ⟨r, hr1, hr2⟩ := (mapM_rows hr).1 key g2
      obtain ⟨_, _, _, _, _, _, hv, he⟩ := row_key hr2
      refine ⟨r, hr1, by rw [he], ?_⟩
      have h' : (MemMeta.after ops).versions.get? key = some v := h
      rw [hv] at h'
      exact Option.some.inj h'
  refine ⟨s', m', e1, f1, f2, hget, fun run hin => ?_⟩
  obtain ⟨rows, hr⟩ := hl run hin
  have hs : s'.getRun run = .ok rows := by rw [e4]; exact hr
  have hrow : ∀ r ∈ rows, ∃ x, (MemMeta.after ops).row Z x = .ok r := by
    intro r hrr
    unfold MemMeta.getRun at hr
    cases hk : (MemMeta.after ops).keysByRun.get? run with
    | none => rw [hk] at hr; cases hr
    | some l => rw [hk] at hr; obtain ⟨x, _, hx⟩ := (mapM_rows hr).2 r hrr; exact ⟨x, hx⟩
  obtain ⟨rows', g1, g2⟩ := f4 run rows hs (by
    intro r hrr
    obtain ⟨x, hx⟩ := hrow r hrr
    obtain ⟨k, n, c, d, rfl, hd, _, he⟩ := row_key hx
    exact ⟨k, _, by rw [he], hd⟩)
  rw [g1, hr]
  congr 1
  -- both lists have the same keys and versions, and the names come from the keys
  have hrow' : ∀ r ∈ rows', ∃ x, m'.row Z x = .ok r := by
    intro r hrr
    unfold MemMeta.getRun at g1
    cases hk : m'.keysByRun.get? run with
    | none => rw [hk] at g1; cases g1
    | some l => rw [hk] at g1; obtain ⟨x, _, hx⟩ := (mapM_rows g1).2 r hrr; exact ⟨x, hx⟩
  clear hs g1 hr f4
  induction rows generalizing rows' with
  | nil =>
    cases rows' with
    | nil => rfl
    | cons a b => cases g2
  | cons r rest ih =>
    cases rows' with
    | nil => cases g2
    | cons r' rest' =>
      rw [List.map_cons, List.map_cons, List.cons.injEq, Prod.mk.injEq] at g2
      obtain ⟨⟨k1, k2⟩, k3⟩ := g2
      obtain ⟨x, hx⟩ := hrow r (by simp)
      obtain ⟨x', hx'⟩ := hrow' r' (by simp)
      obtain ⟨k, n, c, d, rfl, hd, _, he⟩ := row_key hx
      obtain ⟨k', n', c', d', rfl, hd', _, he'⟩ := row_key hx'
      have hkk : k' = k := by
        have h1 : r.key = some k := by rw [he]
        have h2 : r'.key = some k' := by rw [he']
        rw [h1, h2] at k1
        exact Option.some.inj k1
      subst hkk
      rw [hd] at hd'
      cases hd'
      have hrr : r' = r := by rw [he, he', k2]
      rw [hrr, ih (fun q hq => hrow q (by simp [hq])) rest' k3 (fun q hq => hrow' q (by simp [hq]))]

/-! ### Results -/

section
open Results
variable {V : Type}

theorem mem_nodup (ops : List (Op V)) : (Mem.after ops).keys.Nodup := by
  induction ops using ops_ind with
  | h0 => exact List.nodup_nil
  | hs ops op ih =>
    rw [Results.mem_after_snoc]
    cases op with
    | set k w s l => exact Dict.keys_set_nodup ih _ _
    | delete k =>
      show (((Mem.after ops).delete k).1).keys.Nodup
      unfold Mem.delete
      by_cases h : (Mem.after ops).has k = true
      · rw [if_pos h]; exact Dict.keys_del_nodup ih _
      · rw [if_neg h]; exact ih
    | deleteAll => exact List.nodup_nil

/-- Persisting results into files: after it, whatever was in memory is found with its value, and everything else is as before. -/
theorem C86_results_persist_partial {env : Env V} (hf : Faithful env) {ops dops : List (Op V)}
    (hm : ∀ version v, (Mem.after ops).get version = some v → Plain version ∧ env.picklable v = true)
    (hn : ∀ op ∈ dops, WellNamed op) :
    ∃ d', persistResults env (Mem.after ops) (Dir.after env dops) = (d', none) ∧ ∀ version, Plain version →
      (∀ v, (Mem.after ops).get version = some v → d'.get env version = .ok (some v) ∧ d'.exists_ version = true) ∧
      ((Mem.after ops).get version = none → d'.get env version = (Dir.after env dops).get env version ∧
        d'.exists_ version = (Dir.after env dops).exists_ version) := by
  have main : ∀ (l : List (String × V)) (d : Dir V), (Dict.keys l).Nodup → (∀ p ∈ l, Plain p.1 ∧ env.picklable p.2 = true) →
      ∃ d', persistResults env l d = (d', none) ∧ ∀ version, Plain version → ∀ r, Holds d version r →
        Holds d' version (match Dict.get? l version with | some v => some v | none => r) := by
    intro l
    induction l with
    | nil => intro d _ _; exact ⟨d, rfl, fun version _ r hr => hr⟩
    | cons p rest ih =>
      intro d hnd hl
      obtain ⟨k, w⟩ := p
      have hp := hl (k, w) (by simp)
      have ha : Accepted env (.set k w none none) := .inl ⟨rfl, rfl, hp.2⟩
      have hw : WellNamed (.set k w none none : Op V) := ⟨hp.1, fun s l h => (by cases h)⟩
      rw [Dict.keys_cons, List.nodup_cons] at hnd
      obtain ⟨d', e1, e2⟩ := ih (d.set env k w none none).1 hnd.2 (fun q hq => hl q (by simp [hq]))
      refine ⟨d', ?_, fun version hv r hr => ?_⟩
      · have h1 := (holds_set_self (d := d) ha hw).2
        unfold persistResults each
        have h2 : d.set env k w none none = ((d.set env k w none none).1, none) := by rw [← h1]
        rw [h2]
        exact e1
      · rw [Dict.get?_cons]
        by_cases e : k = version
        · subst e
          have := e2 k hv (some w) (holds_set_self (d := d) ha hw).1
          rw [(Dict.get?_eq_none_iff _ _).2 hnd.1] at this
          rw [if_pos rfl]
          exact this
        · rw [if_neg e]
          exact e2 version hv r (holds_set_ne hp.1 hv e hr)
  obtain ⟨d', e1, e2⟩ := main (Mem.after ops) (Dir.after env dops) (mem_nodup ops)
    (fun p hp => hm p.1 p.2 (Dict.get?_of_mem (mem_nodup ops) hp))
  refine ⟨d', e1, fun version hv => ?_⟩
  obtain ⟨r, hr, _⟩ := holds_after env hn hv
  have h := e2 version hv r hr
  refine ⟨fun v hg => ?_, fun hg => ?_⟩
  · have hg' : Dict.get? (Mem.after ops) version = some v := hg
    rw [hg'] at h
    exact h.get hf
  · have hg' : Dict.get? (Mem.after ops) version = none := hg
    rw [hg'] at h
    obtain ⟨g1, g2⟩ := h.get hf
    obtain ⟨g3, g4⟩ := hr.get hf
    exact ⟨g1.trans g3.symm, g2.trans g4.symm⟩

theorem loadLoop_spec {pyNone : V} {get : String → Except Err (Option V)} : ∀ {vs : List String} {m : Mem V},
    (∀ v ∈ vs, ∃ r, get v = .ok r) → ∃ m', loadLoop pyNone get m vs = .ok m' ∧
      ∀ v, (v ∈ vs → ∃ r, get v = .ok r ∧ m'.get v = some (r.getD pyNone)) ∧ (v ∉ vs → m'.get v = m.get v) := by
  intro vs
  induction vs with
  | nil => intro m _; exact ⟨m, rfl, fun v => ⟨fun h => (by cases h), fun _ => rfl⟩⟩
  | cons x rest ih =>
    intro m h
    obtain ⟨r, hr⟩ := h x (by simp)
    obtain ⟨m', e1, e2⟩ := ih (m := m.set x (r.getD pyNone)) (fun v hv => h v (by simp [hv]))
    refine ⟨m', ?_, fun v => ⟨fun hv => ?_, fun hv => ?_⟩⟩
    · unfold loadLoop
      rw [hr]
      exact e1
    · by_cases hrest : v ∈ rest
      · exact (e2 v).1 hrest
      · have hx : v = x := by
          rcases List.mem_cons.1 hv with h | h
          · exact h
          · exact absurd h hrest
        subst hx
        refine ⟨r, hr, ?_⟩
        rw [(e2 v).2 hrest]
        exact Dict.get?_set_self ..
    · have h1 : v ∉ rest := fun h => hv (by simp [h])
      have h2 : x ≠ v := fun h => hv (by simp [h])
      rw [(e2 v).2 h1]
      exact Dict.get?_set_ne _ _ h2

theorem runVersions_spec {src : Source} : ∀ {ids : List String}, (∀ run ∈ ids, ∃ rows, src.getRun run = .ok rows) →
    ∃ vs, runVersions src ids = .ok vs ∧
      ∀ v, v ∈ vs ↔ ∃ run ∈ ids, ∃ rows, src.getRun run = .ok rows ∧ ∃ r ∈ rows, r.version = v := by
  intro ids
  induction ids with
  | nil => intro _; exact ⟨[], rfl, fun v => ⟨fun h => (by cases h), fun ⟨run, h, _⟩ => (by cases h)⟩⟩
  | cons run rest ih =>
    intro h
    obtain ⟨rows, hr⟩ := h run (by simp)
    obtain ⟨vs, e1, e2⟩ := ih (fun q hq => h q (by simp [hq]))
    refine ⟨rows.map (·.version) ++ vs, ?_, fun v => ?_⟩
    · unfold runVersions
      rw [hr]
      dsimp only
      rw [e1]
    · rw [List.mem_append, e2]
      constructor
      · rintro (h | ⟨run', h1, h2⟩)
        · obtain ⟨r, h1, h2⟩ := List.mem_map.1 h
          exact ⟨run, by simp, rows, hr, r, h1, h2⟩
        · exact ⟨run', by simp [h1], h2⟩
      · rintro ⟨run', h1, rows', h2, r, h3, h4⟩
        rcases List.mem_cons.1 h1 with rfl | h1
        · rw [hr] at h2
          cases h2
          exact .inl (List.mem_map.2 ⟨r, h3, h4⟩)
        · exact .inr ⟨run', h1, rows', h2, r, h3, h4⟩

/-- Loading results into memory: with a list of data versions, a metadata store whose runs can be listed, or both, the new store has
exactly the data versions asked for, each with what `get` of the other store returns. Missing: a data version for which the other
store has no result gets one (`C86_violated_missing`). -/
theorem C86_results_load_partial {pyNone : V} {get : String → Except Err (Option V)} {metadata : Option Source}
    {versions : Option (List String)} (hne : metadata ≠ none ∨ versions ≠ none)
    (hsrc : ∀ src, metadata = some src → ∃ ids, Listable src ids)
    (hget : ∀ v, Asked metadata versions v → ∃ r, get v = .ok r) :
    ∃ m, loadResults pyNone get metadata versions = .ok m ∧ ∀ v,
      (Asked metadata versions v → m.exists_ v = true ∧ ∃ r, get v = .ok r ∧ m.get v = some (r.getD pyNone)) ∧
      (¬ Asked metadata versions v → m.exists_ v = false ∧ m.get v = none) := by
  have hw : ∃ vs, wanted metadata versions = .ok vs ∧ ∀ v, v ∈ vs ↔ Asked metadata versions v := by
    cases metadata with
    | none =>
      cases versions with
      | none => exact hne.elim (fun h => absurd rfl h) (fun h => absurd rfl h)
      | some vs =>
        refine ⟨vs, rfl, fun v => ⟨fun h => .inl ⟨vs, rfl, h⟩, ?_⟩⟩
        rintro (⟨vs', h1, h2⟩ | ⟨src, _, _, _, _, h, _⟩)
        · cases h1; exact h2
        · cases h
    | some src =>
      obtain ⟨ids, hi1, hi2⟩ := hsrc src rfl
      obtain ⟨ws, e1, e2⟩ := runVersions_spec hi2
      refine ⟨versions.getD [] ++ ws, ?_, fun v => ?_⟩
      · unfold wanted
        simp only [hi1, e1]
      · rw [List.mem_append, e2]
        constructor
        · rintro (h | ⟨run, h1, rows, h2, r, h3, h4⟩)
          · cases versions with
            | none => cases h
            | some vs => exact .inl ⟨vs, rfl, h⟩
          · exact .inr ⟨src, ids, run, rows, r, rfl, hi1, h1, h2, h3, h4⟩
        · rintro (⟨vs, rfl, h⟩ | ⟨src', ids', run, rows, r, h0, h00, h1, h2, h3, h4⟩)
          · exact .inl h
          · cases h0
            rw [hi1] at h00
            cases h00
            exact .inr ⟨run, h1, rows, h2, r, h3, h4⟩
  obtain ⟨vs, e1, e2⟩ := hw
  obtain ⟨m, f1, f2⟩ := loadLoop_spec (pyNone := pyNone) (m := []) (fun v hv => hget v ((e2 v).1 hv))
  refine ⟨m, ?_, fun v => ⟨fun ha => ?_, fun ha => ?_⟩⟩
  · unfold loadResults
    rw [e1]
    exact f1
  · obtain ⟨r, h1, h2⟩ := (f2 v).1 ((e2 v).2 ha)
    exact ⟨(Dict.has_eq_true_iff _ _).2 ⟨_, h2⟩, r, h1, h2⟩
  · have := (f2 v).2 (fun h => ha ((e2 v).1 h))
    have hn : m.get v = none := this
    exact ⟨(Dict.has_eq_false_iff _ _).2 hn, hn⟩

/-- Without either source of data versions it refuses. -/
theorem C86_results_refused (pyNone : V) (get : String → Except Err (Option V)) :
    loadResults pyNone get none none = .error .noVersions := rfl

end

/-! ### Samples and violations -/
namespace Sample
open Results

/-- No compression. -/
def plainCodec : Codec := ⟨id, some⟩

/-- The key of a node `name` without dependencies. -/
def key (name : String) : CKey := some (name ++ "-c-<none>")

/-- Two runs that share a node. -/
def story : List MetaOp :=
  [.start "r1", .set (key "n") "v1" "r1" (some "n") (some "c"), .start "r2",
   .set (key "n") "v1" "r2" (some "n") (some "c"), .set (key "m") "w" "r2" (some "m") (some "c")]

theorem story_split {b : List MetaOp} {op : MetaOp} {a : List MetaOp} (e : story = b ++ op :: a) :
    ∃ i, i < 5 ∧ b = story.take i ∧ op :: a = story.drop i := by
  refine ⟨b.length, ?_, ?_, ?_⟩
  · have := congrArg List.length e
    simp [story] at this
    omega
  · rw [e]; simp
  · rw [e]; simp

theorem story_proper : Proper story := by
  constructor
  · intro b k v run n c a e
    obtain ⟨i, hi, rfl, hd⟩ := story_split e
    match i, hi with
    | 0, _ => cases hd
    | 1, _ => cases hd; simp [story]
    | 2, _ => cases hd
    | 3, _ => cases hd; simp [story]
    | 4, _ => cases hd; simp [story]
  · intro b run a e
    obtain ⟨i, hi, rfl, hd⟩ := story_split e
    match i, hi with
    | 0, _ => cases hd; simp [story]
    | 1, _ => cases hd
    | 2, _ => cases hd; simp [story]
    | 3, _ => cases hd
    | 4, _ => cases hd

theorem story_det : Deterministic story := by
  have cur : ∀ {ops : List MetaOp} {k : CKey} {v w : String}, (MemMeta.after ops).get k = some w → Current ops k v → v = w := by
    intro ops k v w h hc
    have := (C30_memory_get ops k v).2 hc
    rw [h] at this
    exact (Option.some.inj this).symm
  have none_cur : ∀ {ops : List MetaOp} {k : CKey} {v : String}, (MemMeta.after ops).get k = none → ¬ Current ops k v := by
    intro ops k v hn hc
    have := (C30_memory_get ops k v).2 hc
    rw [hn] at this; cases this
  intro b op a e
  obtain ⟨i, hi, rfl, hd⟩ := story_split e
  match i, hi with
  | 0, _ => cases hd; trivial
  | 1, _ => cases hd; exact ⟨by simp [key], by simp, by simp, fun v hv => absurd hv (none_cur (by decide))⟩
  | 2, _ => cases hd; trivial
  | 3, _ => cases hd; exact ⟨by simp [key], by simp, by simp, fun v hv => cur (by decide) hv⟩
  | 4, _ => cases hd; exact ⟨by simp [key], by simp, by simp, fun v hv => absurd hv (none_cur (by decide))⟩

/-- What `get_run` lists for the second run. -/
def secondRun : List MetaRow := [⟨key "n", "v1", "n", "c"⟩, ⟨key "m", "w", "m", "c"⟩]

theorem story_rows : (MemMeta.after story).getRun plainCodec "r1" = .ok [⟨key "n", "v1", "n", "c"⟩] ∧
    (MemMeta.after story).getRun plainCodec "r2" = .ok secondRun := ⟨rfl, rfl⟩

theorem story_listed : ∀ run ∈ (MemMeta.after story).getRunIds, ∃ rows, (MemMeta.after story).getRun plainCodec run = .ok rows := by
  intro run h
  have h' : run ∈ ["r1", "r2"] := h
  simp only [List.mem_cons, List.not_mem_nil, or_false] at h'
  rcases h' with rfl | rfl
  · exact ⟨_, story_rows.1⟩
  · exact ⟨_, story_rows.2⟩

/-- Non-vacuity of the theorems on persisting. -/
example : ∃ s', persistTo (sqlTarget plainCodec) (MemMeta.after story) .empty = (s', none) ∧
    s'.get (key "m") = .ok (some "w") ∧ s'.getRun "r2" = .ok secondRun := by
  obtain ⟨s', h1, _, h3, h4⟩ := C86_persist_new_partial plainCodec story_proper story_listed
  exact ⟨s', h1, h3 _, (h4 "r2").trans story_rows.2⟩

/-- Non-vacuity of `C86_persist_partial`: into a database that has a key already. -/
example : ∃ s', persistTo (sqlTarget plainCodec) (MemMeta.after story)
      (SqlMeta.after plainCodec [.start "r0", .set (key "n") "v1" "r0" (some "n") (some "c")]) = (s', none) ∧
    s'.getRunIds = .ok ["r0", "r1", "r2"] ∧ s'.get (key "n") = .ok (some "v1") ∧ s'.get (key "m") = .ok (some "w") := by
  obtain ⟨s', h1, h2, h3, h4⟩ := C86_persist_partial plainCodec story_proper story_listed
    (s := SqlMeta.after plainCodec [.start "r0", .set (key "n") "v1" "r0" (some "n") (some "c")]) (ids := ["r0"]) rfl
  exact ⟨s', h1, h2, h4 _ _ rfl, h3 _ rfl⟩

/-- Non-vacuity of `C86_round_trip_partial`. -/
example : ∃ s' m', persistTo (sqlTarget plainCodec) (MemMeta.after story) .empty = (s', none) ∧
    loadFrom (sqlSource s') = .ok m' ∧ m'.get (key "n") = some "v1" ∧ m'.getRun plainCodec "r2" = .ok secondRun := by
  obtain ⟨s', m', h1, h2, _, h4, h5⟩ := C86_round_trip_partial plainCodec story_proper story_listed
  exact ⟨s', m', h1, h2, h4 _, (h5 "r2" (by decide)).trans story_rows.2⟩

/-- Non-vacuity of `C86_load_all_partial`. -/
example : ∃ m, loadFrom (sqlSource (SqlMeta.after plainCodec story)) = .ok m ∧ m.get (key "m") = some "w" := by
  obtain ⟨m, h1, h2⟩ := C86_load_all_partial plainCodec story_det story_proper
  refine ⟨m, h1, ?_⟩
  have h : (SqlMeta.after plainCodec story).get (key "m") = .ok (some "w") := rfl
  have h' := h2 "m-c-<none>"
  rw [show (some "m-c-<none>" : CKey) = key "m" from rfl, h] at h'
  injection h' with h'
  exact h'.symm

/-- Non-vacuity of `C86_load`. -/
example : ∃ m, loadFrom (sqlSource (SqlMeta.after plainCodec story)) = .ok m ∧ m.getRunIds = ["r1", "r2"] := by
  obtain ⟨m, h1, h2, _⟩ := C86_load plainCodec (s := SqlMeta.after plainCodec story) (ids := ["r1", "r2"]) rfl
  exact ⟨m, h1, h2⟩

/-- Results in memory. -/
def results : List (Op Int) := [.set "v1" 10 none none, .set "w" 20 none none]

/-- Non-vacuity of `C86_results_persist_partial`. -/
example : ∃ d', persistResults Results.Sample.env (Mem.after results)
      (Dir.after Results.Sample.env [.set "z" 30 (some Results.Sample.json) (some Results.Sample.json)]) = (d', none) ∧
    d'.get Results.Sample.env "w" = .ok (some 20) ∧ d'.get Results.Sample.env "z" = .ok (some 30) := by
  obtain ⟨d', h1, h2⟩ := C86_results_persist_partial Results.Sample.env_faithful (ops := results)
    (dops := [.set "z" 30 (some Results.Sample.json) (some Results.Sample.json)])
    (by
      intro version v h
      have h' := Dict.get?_mem (d := Mem.after results) h
      have h'' : (version, v) ∈ [("v1", (10 : Int)), ("w", 20)] := h'
      simp only [List.mem_cons, List.not_mem_nil, or_false, Prod.mk.injEq] at h''
      rcases h'' with ⟨rfl, rfl⟩ | ⟨rfl, rfl⟩ <;> exact ⟨by unfold Plain; decide, by decide⟩)
    (by
      intro op h
      rw [List.mem_singleton] at h
      subst h
      exact ⟨by unfold Plain; decide, by intro s l h1 h2; cases h1; cases h2; rfl⟩)
  exact ⟨d', h1, ((h2 "w" (by unfold Plain; decide)).1 20 rfl).1, ((h2 "z" (by unfold Plain; decide)).2 rfl).1⟩

/-- Non-vacuity of `C86_results_load_partial`. -/
example : ∃ m, loadResults 0 (fun v => .ok ((Mem.after results).get v)) (some (memSource plainCodec (MemMeta.after story)))
      (some ["z"]) = .ok m ∧ m.get "w" = some 20 := by
  have hl : Listable (memSource plainCodec (MemMeta.after story)) ["r1", "r2"] := ⟨rfl, story_listed⟩
  obtain ⟨m, h1, h2⟩ := C86_results_load_partial (pyNone := (0 : Int)) (get := fun v => .ok ((Mem.after results).get v))
    (metadata := some (memSource plainCodec (MemMeta.after story))) (versions := some ["z"]) (.inl (fun h => (by cases h)))
    (fun src h => ⟨_, (Option.some.inj h) ▸ hl⟩) (fun v _ => ⟨_, rfl⟩)
  refine ⟨m, h1, ?_⟩
  obtain ⟨_, r, hr, hm⟩ := (h2 "w").1 (.inr ⟨_, _, "r2", secondRun, ⟨key "m", "w", "m", "c"⟩, rfl, rfl,
    .tail _ (.head _), story_rows.2, .tail _ (.head _), rfl⟩)
  injection hr with hr
  rw [hm, ← hr]
  rfl

/-- Once a key was deleted, its run can neither be persisted nor listed; what came before it has been written. -/
theorem C86_violated_deleted :
    (persistTo (sqlTarget plainCodec) (MemMeta.after (story ++ [.delete (key "n")])) .empty).2 = some .keyError ∧
    (persistTo (sqlTarget plainCodec) (MemMeta.after (story ++ [.delete (key "m")])) .empty).2 = some .keyError ∧
    (persistTo (sqlTarget plainCodec) (MemMeta.after (story ++ [.delete (key "m")])) .empty).1.getRunIds.toOption = some ["r1", "r2"] ∧
    (loadFrom (memSource plainCodec (MemMeta.after (story ++ [.delete (key "m")])))).toOption.isSome = false := by
  decide +kernel

/-- A node of behaviour "ignore" is recorded under the key `None`, and then nothing can be persisted to SQLite. -/
theorem C86_violated_ignored :
    (persistTo (sqlTarget plainCodec) (MemMeta.after [.start "r", .set none "v" "r" (some "n") (some "c")]) .empty).2 =
      some .decode := by
  decide +kernel

/-- If the database has another version for a key, it keeps it. -/
theorem C86_violated_other :
    (MemMeta.after story).get (key "n") = some "v1" ∧
    (((persistTo (sqlTarget plainCodec) (MemMeta.after story)
      (SqlMeta.after plainCodec [.start "r0", .set (key "n") "v0" "r0" (some "n") (some "c")])).1).get (key "n")).toOption =
      some (some "v0") := by
  decide +kernel

/-- Persisting twice lists every run and every node of it twice. -/
theorem C86_violated_twice :
    (((persistTo (sqlTarget plainCodec) (MemMeta.after story)
      (persistTo (sqlTarget plainCodec) (MemMeta.after story) .empty).1).1).getRunIds).toOption = some ["r1", "r2", "r1", "r2"] ∧
    ((((persistTo (sqlTarget plainCodec) (MemMeta.after story)
      (persistTo (sqlTarget plainCodec) (MemMeta.after story) .empty).1).1).getRun "r1").toOption).map List.length = some 2 := by
  decide +kernel

/-- A data version without a result is loaded as `None` (here 0), and from then on `exists` says that there is one: the next
execution takes `None` for the value of the node. -/
theorem C86_violated_missing :
    Results.Dir.exists_ (Dir.after Results.Sample.env []) "v1" = false ∧
    ((loadResults 0 (Dir.get Results.Sample.env []) none (some ["v1"])).toOption.map
      (fun m => (Mem.exists_ m "v1", Mem.get m "v1"))) = some (true, some 0) := by
  decide +kernel

end Sample

end Verif.StoreCopy
