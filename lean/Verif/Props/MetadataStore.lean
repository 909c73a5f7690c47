import Verif.Spec.MetadataStore
import Verif.Props.CacheKey

/-! C30: metadata stores. -/
namespace Verif

/-! ### The specification, one operation at a time -/

theorem current_nil {key : CKey} {v : String} : ¬ Current [] key v := by
  rintro ⟨b, r, n, c, a, h, _⟩
  simp at h

theorem current_snoc {ops : List MetaOp} {op : MetaOp} {key : CKey} {v : String} :
    Current (ops ++ [op]) key v ↔
      (∃ r n c, op = .set key v r n c) ∨ (Current ops key v ∧ ¬ op.Touches key) := by
  constructor
  · rintro ⟨b, r, n, c, a, h, ha⟩
    rcases List.eq_nil_or_concat a with rfl | ⟨a', x, rfl⟩
    · have := List.append_inj_right' h rfl
      simp at this
      exact .inl ⟨r, n, c, this⟩
    · right
      have h' : ops ++ [op] = (b ++ .set key v r n c :: a') ++ [x] := by simpa using h
      have h1 := List.append_inj_left' h' rfl
      have h2 := List.append_inj_right' h' rfl
      simp only [List.cons.injEq, and_true] at h2
      subst h2
      exact ⟨⟨b, r, n, c, a', h1, fun o ho => ha o (by simp [ho])⟩, ha op (by simp)⟩
  · rintro (⟨r, n, c, rfl⟩ | ⟨⟨b, r, n, c, a, rfl, ha⟩, ht⟩)
    · exact ⟨ops, r, n, c, [], rfl, by simp⟩
    · refine ⟨b, r, n, c, a ++ [op], by simp, ?_⟩
      intro o ho
      rcases List.mem_append.1 ho with ho | ho
      · exact ha o ho
      · simp at ho; subst ho; exact ht

theorem Deterministic.init {ops : List MetaOp} {op : MetaOp} (h : Deterministic (ops ++ [op])) : Deterministic ops := by
  intro b o a e
  have := h b o (a ++ [op]) (by rw [e]; simp)
  exact this

/-- Induction on histories, last operation first. -/
theorem history_ind {p : List MetaOp → Prop} (h0 : p []) (hs : ∀ ops op, p ops → p (ops ++ [op])) (ops : List MetaOp) :
    p ops := by
  have : ∀ n, ∀ l : List MetaOp, l.length = n → p l := by
    intro n
    induction n with
    | zero => intro l hl; rw [List.length_eq_zero_iff.1 hl]; exact h0
    | succ n ih =>
      intro l hl
      rcases List.eq_nil_or_concat l with rfl | ⟨l', x, rfl⟩
      · exact h0
      · rw [List.concat_eq_append] at hl ⊢; exact hs l' x (ih l' (by simpa using hl))
  exact this _ ops rfl

theorem mem_after_snoc (ops : List MetaOp) (op : MetaOp) : MemMeta.after (ops ++ [op]) = (MemMeta.after ops).apply op := by
  unfold MemMeta.after; rw [List.foldl_append]; rfl

theorem sql_after_snoc (Z : Codec) (ops : List MetaOp) (op : MetaOp) :
    SqlMeta.after Z (ops ++ [op]) = (SqlMeta.after Z ops).apply Z op := by
  unfold SqlMeta.after; rw [List.foldl_append]; rfl

/-! ### In memory -/

theorem mem_set_versions (s : MemMeta) (key : CKey) (v run : String) :
    ((s.set key v run).1).versions = s.versions.set key v := by
  unfold MemMeta.set
  simp only
  split <;> rfl

/-- C30, in-memory store: after any history of operations whatsoever, `get` answers exactly the version set last and not
deleted since. -/
theorem C30_memory_get (ops : List MetaOp) (key : CKey) (v : String) :
    (MemMeta.after ops).get key = some v ↔ Current ops key v := by
  induction ops using history_ind generalizing v with
  | h0 => constructor
          · intro h; cases h
          · intro h; exact absurd h current_nil
  | hs ops op ih =>
    rw [mem_after_snoc, current_snoc]
    unfold MemMeta.get at ih ⊢
    cases op with
    | start run =>
      show (MemMeta.after ops).versions.get? key = some v ↔ _
      rw [ih]
      simp [MetaOp.Touches]
    | set k w run n c =>
      show (((MemMeta.after ops).set k w run).1).versions.get? key = some v ↔ _
      rw [mem_set_versions, Dict.get?_set]
      by_cases h : k = key
      · subst h
        simp [MetaOp.Touches]
      · simp only [h, if_false, ih, MetaOp.Touches, MetaOp.set.injEq, false_and, exists_false, false_or,
          not_false_eq_true, and_true]
    | delete k =>
      show (((MemMeta.after ops).delete k).1).versions.get? key = some v ↔ _
      unfold MemMeta.delete
      by_cases h : k = key
      · subst h
        split
        · rw [Dict.get?_del]
          simp [MetaOp.Touches]
        · rename_i hh
          have : (MemMeta.after ops).versions.get? k = none := by simpa [Dict.has] using hh
          simp [this, MetaOp.Touches]
      · have : ∀ x : MemMeta × Option StoreErr, x = ((MemMeta.after ops).delete k) →
            x.1.versions.get? key = (MemMeta.after ops).versions.get? key := by
          intro x hx
          subst hx
          unfold MemMeta.delete
          split
          · rw [Dict.get?_del, if_neg h]
          · rfl
        have := this _ rfl
        unfold MemMeta.delete at this
        rw [this, ih]
        simp [MetaOp.Touches, h]
    | deleteAll =>
      show ((MemMeta.after ops).deleteAll).versions.get? key = some v ↔ _
      simp [MemMeta.deleteAll, MetaOp.Touches]

/-- C30: a key exists in the in-memory store iff `get` answers a version. -/
theorem C30_memory_exists (ops : List MetaOp) (key : CKey) :
    (MemMeta.after ops).exists_ key = true ↔ (MemMeta.after ops).get key ≠ none := by
  unfold MemMeta.exists_ MemMeta.get Dict.has
  cases (MemMeta.after ops).versions.get? key <;> simp

/-! ### SQLite -/

/-- C30: a key exists in the SQLite store iff `get` answers a version; both fail after `delete_all`. -/
theorem C30_sqlite_exists (Z : Codec) (ops : List MetaOp) (key : CKey) :
    (SqlMeta.after Z ops).exists_ key = .ok true ↔ ∃ v, (SqlMeta.after Z ops).get key = .ok (some v) := by
  unfold SqlMeta.exists_ SqlMeta.get
  split
  · cases h : (SqlMeta.after Z ops).find key with
    | none => simp
    | some r => simp
  · simp

theorem find_filter_ne {l : List MetaRow} {k k' : String} (h : k' ≠ k) :
    (l.filter (fun r => decide (r.key ≠ some k'))).find? (fun r => r.key = some k) =
      l.find? (fun r => r.key = some k) := by
  induction l with
  | nil => rfl
  | cons r t ih =>
    by_cases hr : r.key = some k'
    · have hne : r.key ≠ some k := by rw [hr]; simpa using h
      rw [List.filter_cons_of_neg (by simp [hr]), ih, List.find?_cons_of_neg (by simpa using hne)]
    · rw [List.filter_cons_of_pos (by simp [hr])]
      by_cases hr' : r.key = some k
      · rw [List.find?_cons_of_pos (by simp [hr']), List.find?_cons_of_pos (by simp [hr'])]
      · rw [List.find?_cons_of_neg (by simp [hr']), List.find?_cons_of_neg (by simp [hr']), ih]

theorem find_filter_self (l : List MetaRow) (k : String) :
    (l.filter (fun r => decide (r.key ≠ some k))).find? (fun r => r.key = some k) = none := by
  rw [List.find?_eq_none]
  intro r hr
  simp only [List.mem_filter] at hr
  simpa using hr.2

theorem sql_insert_find (s : SqlMeta) (r : MetaRow) (k : String) :
    (s.insertOrIgnore r).find (some k) =
      if r.key = some k then (match s.find (some k) with | some r' => some r' | none => some r) else s.find (some k) := by
  unfold SqlMeta.insertOrIgnore
  by_cases hk : r.key = some k
  · rw [if_pos hk, hk]
    cases hf : s.find (some k) with
    | some r' => simp [hf]
    | none =>
      simp only [Option.isSome_none, Bool.false_eq_true, if_false]
      unfold SqlMeta.find at hf ⊢
      simp only at hf ⊢
      rw [List.find?_append, hf]
      simp [hk]
  · rw [if_neg hk]
    split
    · rfl
    · unfold SqlMeta.find
      simp only
      rw [List.find?_append]
      simp [hk]

theorem sql_set_given {Z : Codec} {s : SqlMeta} (ht : s.tables = true) (key : CKey) (v run n c : String) :
    (s.set Z key v run (some n) (some c)).1 =
      { s with history := s.history ++ [(key, run)] }.insertOrIgnore ⟨key, v, n, c⟩ := by
  unfold SqlMeta.set
  simp [ht]

theorem insertOrIgnore_tables (s : SqlMeta) (r : MetaRow) : (s.insertOrIgnore r).tables = s.tables := by
  unfold SqlMeta.insertOrIgnore; split <;> rfl

theorem sql_tables {Z : Codec} {ops : List MetaOp} (h : Deterministic ops) : (SqlMeta.after Z ops).tables = true := by
  induction ops using history_ind with
  | h0 => rfl
  | hs ops op ih =>
    have ih := ih h.init
    rw [sql_after_snoc]
    have hop := h ops op [] rfl
    cases op with
    | start run => show ((SqlMeta.after Z ops).initialize run).1.tables = true; unfold SqlMeta.initialize; simp [ih]
    | set k w run n c =>
      obtain ⟨_, hn, hc, _⟩ := hop
      obtain ⟨n, rfl⟩ := Option.ne_none_iff_exists'.1 hn
      obtain ⟨c, rfl⟩ := Option.ne_none_iff_exists'.1 hc
      show ((SqlMeta.after Z ops).set Z k w run _ _).1.tables = true
      rw [sql_set_given ih, insertOrIgnore_tables]; exact ih
    | delete k =>
      show ((SqlMeta.after Z ops).delete k).1.tables = true
      unfold SqlMeta.delete
      rw [if_pos ih]
      split <;> exact ih
    | deleteAll => exact absurd hop id

theorem sql_find_deterministic {Z : Codec} {ops : List MetaOp} (h : Deterministic ops) (k v : String) :
    ((SqlMeta.after Z ops).find (some k)).map (·.version) = some v ↔ Current ops (some k) v := by
  induction ops using history_ind generalizing v with
  | h0 => constructor
          · intro h; cases h
          · intro h; exact absurd h current_nil
  | hs ops op ih =>
    have ih := fun v => ih h.init v
    have ht := sql_tables (Z := Z) h.init
    have hop := h ops op [] rfl
    rw [sql_after_snoc, current_snoc]
    cases op with
    | start run =>
      have : (((SqlMeta.after Z ops).initialize run).1).find (some k) = (SqlMeta.after Z ops).find (some k) := by
        unfold SqlMeta.initialize; simp only [ht, if_true]; rfl
      show ((((SqlMeta.after Z ops).initialize run).1).find (some k)).map _ = some v ↔ _
      rw [this, ih]
      simp [MetaOp.Touches]
    | set key w run n c =>
      obtain ⟨hk, hn, hc, hdet⟩ := hop
      obtain ⟨n, rfl⟩ := Option.ne_none_iff_exists'.1 hn
      obtain ⟨c, rfl⟩ := Option.ne_none_iff_exists'.1 hc
      show ((((SqlMeta.after Z ops).set Z key w run _ _).1).find (some k)).map _ = some v ↔ _
      rw [sql_set_given ht, sql_insert_find]
      by_cases he : key = some k
      · subst he
        simp only [if_true]
        have hfind : SqlMeta.find { (SqlMeta.after Z ops) with history := (SqlMeta.after Z ops).history ++ [(some k, run)] }
            (some k) = (SqlMeta.after Z ops).find (some k) := rfl
        rw [hfind]
        cases hf : (SqlMeta.after Z ops).find (some k) with
        | none => simp [MetaOp.Touches]
        | some r =>
          have hcur := (ih r.version).1 (by rw [hf]; rfl)
          have := hdet _ hcur
          simp [MetaOp.Touches, this]
      · simp only [he, if_false, MetaOp.Touches, MetaOp.set.injEq, false_and, exists_false, false_or, not_false_eq_true,
          and_true]
        exact ih v
    | delete key =>
      show ((((SqlMeta.after Z ops).delete key).1).find (some k)).map _ = some v ↔ _
      unfold SqlMeta.delete
      rw [if_pos ht]
      cases key with
      | none => simp only [MetaOp.Touches]; rw [ih]; simp
      | some k' =>
        by_cases he : k' = k
        · subst he
          unfold SqlMeta.find
          simp only [find_filter_self]
          simp [MetaOp.Touches]
        · have := ih v
          unfold SqlMeta.find at this ⊢
          simp only at this ⊢
          rw [find_filter_ne he, this]
          simp [MetaOp.Touches, he]
    | deleteAll => exact absurd hop id

/-- C30, SQLite store, for histories in which a key is only set again with the version it has and `delete_all` is not
called: `get` answers exactly the version set last and not deleted since. Missing: other histories, see `C30_violated`. -/
theorem C30_sqlite_get_partial (Z : Codec) {ops : List MetaOp} (h : Deterministic ops) (k v : String) :
    (SqlMeta.after Z ops).get (some k) = .ok (some v) ↔ Current ops (some k) v := by
  rw [← sql_find_deterministic (Z := Z) h k v]
  unfold SqlMeta.get
  rw [if_pos (sql_tables h)]
  simp

/-- C30, agreement of the two implementations on such histories. -/
theorem C30_agree_partial (Z : Codec) {ops : List MetaOp} (h : Deterministic ops) (k : String) :
    (SqlMeta.after Z ops).get (some k) = .ok ((MemMeta.after ops).get (some k)) ∧
    (SqlMeta.after Z ops).exists_ (some k) = .ok ((MemMeta.after ops).exists_ (some k)) := by
  have hg : ((SqlMeta.after Z ops).find (some k)).map (·.version) = (MemMeta.after ops).get (some k) := by
    cases hm : (MemMeta.after ops).get (some k) with
    | some v => exact (sql_find_deterministic h k v).2 ((C30_memory_get ops (some k) v).1 hm)
    | none =>
      cases hs : ((SqlMeta.after Z ops).find (some k)).map (·.version) with
      | none => rfl
      | some v =>
        have := (C30_memory_get ops (some k) v).2 ((sql_find_deterministic h k v).1 hs)
        rw [hm] at this; cases this
  constructor
  · unfold SqlMeta.get; rw [if_pos (sql_tables h), hg]
  · unfold SqlMeta.exists_ MemMeta.exists_ Dict.has
    rw [if_pos (sql_tables h)]
    unfold MemMeta.get at hg
    rw [← hg]
    cases (SqlMeta.after Z ops).find (some k) <;> rfl

/-- The run ids agree as well, in the order of the runs. -/
theorem C30_run_ids (Z : Codec) {ops : List MetaOp} (h : Deterministic ops) :
    (SqlMeta.after Z ops).getRunIds = .ok (MemMeta.after ops).getRunIds := by
  have : (SqlMeta.after Z ops).runIds = (MemMeta.after ops).runIds := by
    induction ops using history_ind with
    | h0 => rfl
    | hs ops op ih =>
      have ih := ih h.init
      have ht := sql_tables (Z := Z) h.init
      have hop := h ops op [] rfl
      rw [sql_after_snoc, mem_after_snoc]
      cases op with
      | start run =>
        show (((SqlMeta.after Z ops).initialize run).1).runIds = (MemMeta.after ops).runIds ++ [run]
        unfold SqlMeta.initialize; simp [ht, ih]
      | set key w run n c =>
        obtain ⟨hk, hn, hc, hdet⟩ := hop
        obtain ⟨n, rfl⟩ := Option.ne_none_iff_exists'.1 hn
        obtain ⟨c, rfl⟩ := Option.ne_none_iff_exists'.1 hc
        have h1 : (((MemMeta.after ops).set key w run).1).runIds = (MemMeta.after ops).runIds := by
          unfold MemMeta.set; simp only; split <;> rfl
        show (((SqlMeta.after Z ops).set Z key w run _ _).1).runIds = (((MemMeta.after ops).set key w run).1).runIds
        rw [sql_set_given ht, h1, ← ih]
        unfold SqlMeta.insertOrIgnore
        split <;> rfl
      | delete key =>
        have h1 : (((MemMeta.after ops).delete key).1).runIds = (MemMeta.after ops).runIds := by
          unfold MemMeta.delete; split <;> rfl
        show (((SqlMeta.after Z ops).delete key).1).runIds = (((MemMeta.after ops).delete key).1).runIds
        rw [h1, ← ih]
        unfold SqlMeta.delete
        rw [if_pos ht]
        cases key <;> rfl
      | deleteAll => exact absurd hop id
  unfold SqlMeta.getRunIds MemMeta.getRunIds
  rw [if_pos (sql_tables h), this]

section
/-- Two runs that set the same entry, a deletion, and another version afterwards. -/
private def story : List MetaOp :=
  [.start "r1", .set (some "k") "v1" "r1" (some "n") (some "c"), .start "r2",
   .set (some "k") "v1" "r2" (some "n") (some "c"), .set (some "j") "w" "r2" (some "m") (some "c"),
   .delete (some "k"), .set (some "k") "v2" "r2" (some "n") (some "c")]

private theorem cur_of_mem {ops : List MetaOp} {k : CKey} {v w : String} (h : (MemMeta.after ops).get k = some w)
    (hc : Current ops k v) : v = w := by
  have := (C30_memory_get ops k v).2 hc
  rw [h] at this
  exact (Option.some.inj this).symm

private theorem story_det : Deterministic story := by
  intro b op a e
  have hsplit : ∃ i, i < story.length ∧ b = story.take i ∧ op :: a = story.drop i := by
    refine ⟨b.length, ?_, ?_, ?_⟩
    · rw [e]; simp
    · rw [e]; simp
    · rw [e]; simp
  obtain ⟨i, hi, rfl, hd⟩ := hsplit
  have hi : i < 7 := hi
  have none_cur : ∀ {ops : List MetaOp} {k : CKey} {v : String}, (MemMeta.after ops).get k = none → ¬ Current ops k v := by
    intro ops k v hn hc
    have := (C30_memory_get ops k v).2 hc
    rw [hn] at this; cases this
  match i, hi with
  | 0, _ => cases hd; trivial
  | 1, _ => cases hd; exact ⟨by simp, by simp, by simp, fun v hv => absurd hv (none_cur (by decide))⟩
  | 2, _ => cases hd; trivial
  | 3, _ => cases hd; exact ⟨by simp, by simp, by simp, fun v hv => cur_of_mem (by decide) hv⟩
  | 4, _ => cases hd; exact ⟨by simp, by simp, by simp, fun v hv => absurd hv (none_cur (by decide))⟩
  | 5, _ => cases hd; trivial
  | 6, _ => cases hd; exact ⟨by simp, by simp, by simp, fun v hv => absurd hv (none_cur (by decide))⟩

private def anyCodec : Codec := ⟨id, some⟩

example : (SqlMeta.after anyCodec story).get (some "k") = .ok (some "v2") :=
  (C30_sqlite_get_partial anyCodec story_det "k" "v2").2 ((C30_memory_get story (some "k") "v2").1 (by decide))
example : (MemMeta.after story).get (some "k") = some "v2" ∧ (MemMeta.after story).get (some "j") = some "w" := by decide
example : (SqlMeta.after anyCodec story).getRunIds = .ok ["r1", "r2"] := (C30_run_ids anyCodec story_det).trans rfl
end

/-- C30 as stated does not hold for SQLite: setting a key twice keeps the first version, and after `delete_all` every
operation fails, while the in-memory store answers as it should. -/
theorem C30_violated (Z : Codec) :
    (∃ ops, Current ops (some "k") "v2" ∧ (MemMeta.after ops).get (some "k") = some "v2" ∧
      (SqlMeta.after Z ops).get (some "k") = .ok (some "v1")) ∧
    (∃ ops, (MemMeta.after ops).get (some "k") = none ∧ (SqlMeta.after Z ops).get (some "k") = .error .operational) := by
  refine ⟨⟨[.start "r", .set (some "k") "v1" "r" (some "n") (some "c"),
    .set (some "k") "v2" "r" (some "n") (some "c")], ?_, rfl, rfl⟩, [.deleteAll], rfl, rfl⟩
  exact (C30_memory_get _ _ _).1 rfl

/-- The two stores also differ for the entries of a run: after a deletion the in-memory store fails where SQLite leaves the
entry out, and for a namespaced node they report different names. -/
theorem C30_violated_runs {Z : Codec} (hZ : Z.Lawful) :
    (∃ ops, (MemMeta.after ops).getRun Z "r" = .error .keyError ∧ (SqlMeta.after Z ops).getRun "r" = .ok []) ∧
    (∃ ops rm rs, (MemMeta.after ops).getRun Z "r" = .ok [rm] ∧ (SqlMeta.after Z ops).getRun "r" = .ok [rs] ∧
      rm.name ≠ rs.name) := by
  have hkey : createCacheKey Z Char.isAlphanum "a.b" "c" [] = createCacheKey Z Char.isAlphanum "ab" "c" [] := by
    unfold createCacheKey
    have : safeName Char.isAlphanum "a.b" = safeName Char.isAlphanum "ab" := by decide
    rw [this]
  obtain ⟨d, hd, _⟩ := C29_decode_partial hZ (alnum := Char.isAlphanum) (name := "ab") (code := "c") (deps := [])
    (by decide) (by unfold PlainName; decide) (by decide) (by decide) (by unfold CommaFree; decide)
  generalize hK : createCacheKey Z Char.isAlphanum "ab" "c" [] = K at hd hkey
  refine ⟨⟨[.start "r", .set (some K) "v" "r" (some "a.b") (some "c"), .delete (some K)], ?_, ?_⟩,
    ⟨[.start "r", .set (some K) "v" "r" (some "a.b") (some "c")], ⟨some K, "v", "ab", "c"⟩,
      ⟨some K, "v", "a.b", "c"⟩, ?_, ?_, by simp⟩⟩
  · simp [MemMeta.after, MemMeta.apply, MemMeta.empty, MemMeta.initialize, MemMeta.set, MemMeta.delete, MemMeta.getRun,
      MemMeta.row, Dict.set, Dict.get?, Dict.has, Dict.del, hd, List.mapM_cons, List.mapM_nil, bind, Except.bind]
  · simp [SqlMeta.after, SqlMeta.apply, SqlMeta.empty, SqlMeta.initialize, SqlMeta.set, SqlMeta.delete, SqlMeta.getRun,
      SqlMeta.insertOrIgnore, SqlMeta.find]
  · simp [MemMeta.after, MemMeta.apply, MemMeta.empty, MemMeta.initialize, MemMeta.set, MemMeta.getRun,
      MemMeta.row, Dict.set, Dict.get?, hd, List.mapM_cons, List.mapM_nil, bind, Except.bind, pure, Except.pure]
  · simp [SqlMeta.after, SqlMeta.apply, SqlMeta.empty, SqlMeta.initialize, SqlMeta.set, SqlMeta.getRun,
      SqlMeta.insertOrIgnore, SqlMeta.find]

end Verif
