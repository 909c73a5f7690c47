import Verif.Model.ResultStore

/-! C85: the result stores of the cache give back what was stored last. -/
namespace Verif.Results

variable {V : Type}

/-! ### Specification: in terms of the history of operations only -/

/-- The operation may change what is stored under `version`. -/
def Op.Touches (version : String) : Op V → Prop
  | .set k _ _ _ => k = version
  | .delete k => k = version
  | .deleteAll => True

/-- Among the operations that are carried out (`ok`), `v` was the last value set for `version`, and it was not deleted since. -/
def Latest (ok : Op V → Prop) (ops : List (Op V)) (version : String) (v : V) : Prop :=
  ∃ before saver loader after, ops = before ++ .set version v saver loader :: after ∧ ok (.set version v saver loader) ∧
    ∀ op ∈ after, ok op → ¬ op.Touches version

/-- What a directory carries out: neither saver nor loader and a value that can be pickled, or both of them, each taking a path. -/
def Accepted (env : Env V) : Op V → Prop
  | .set _ v saver loader => (saver = none ∧ loader = none ∧ env.picklable v = true) ∨
      ∃ s l, saver = some s ∧ loader = some l ∧ s.takesPath = true ∧ l.takesPath = true
  | _ => True

/-- A data version as the fingerprints make them: no dot in it. -/
def Plain (version : String) : Prop := '.' ∉ version.toList

/-- Data versions without dots, and a saver comes with the loader of the same name. -/
def WellNamed : Op V → Prop
  | .set version _ saver loader => Plain version ∧ ∀ s l, saver = some s → loader = some l → s.name = l.name
  | .delete version => Plain version
  | .deleteAll => True

/-- A loader gives back what the saver of the same name was given. -/
def Faithful (env : Env V) : Prop := ∀ format v, env.decode format format v = some v

/-! ### Lemmas -/

theorem latest_snoc {ok : Op V → Prop} {ops : List (Op V)} {op : Op V} {version : String} {v : V} :
    Latest ok (ops ++ [op]) version v ↔
      (ok op ∧ ∃ saver loader, op = .set version v saver loader) ∨
        (¬ (ok op ∧ op.Touches version) ∧ Latest ok ops version v) := by
  constructor
  · rintro ⟨b, s, l, a, e, hok, ha⟩
    rcases List.eq_nil_or_concat a with rfl | ⟨a', x, rfl⟩
    · have e' : ops ++ [op] = b ++ [Op.set version v s l] := e
      have := List.append_inj' e' rfl
      have h2 : op = Op.set version v s l := by simpa using this.2
      exact .inl ⟨h2 ▸ hok, s, l, h2⟩
    · have e' : ops ++ [op] = (b ++ Op.set version v s l :: a') ++ [x] := by simpa using e
      have := List.append_inj' e' rfl
      have h2 : op = x := by simpa using this.2
      subst h2
      refine .inr ⟨fun h => ha op (by simp) h.1 h.2, b, s, l, a', this.1, hok, fun o ho => ha o (by simp [ho])⟩
  · rintro (⟨hok, s, l, rfl⟩ | ⟨hn, b, s, l, a, rfl, hok, ha⟩)
    · exact ⟨ops, s, l, [], rfl, hok, by simp⟩
    · refine ⟨b, s, l, a ++ [op], by simp, hok, fun o ho hoo ht => ?_⟩
      rcases List.mem_append.1 ho with h | h
      · exact ha o h hoo ht
      · simp at h; subst h; exact hn ⟨hoo, ht⟩

theorem latest_nil {ok : Op V → Prop} {version : String} {v : V} : ¬ Latest ok [] version v := by
  rintro ⟨b, s, l, a, e, _⟩
  simp at e

theorem mem_after_snoc (ops : List (Op V)) (op : Op V) : Mem.after (ops ++ [op]) = (Mem.after ops).apply op := by
  simp [Mem.after]

theorem dir_after_snoc (env : Env V) (ops : List (Op V)) (op : Op V) :
    Dir.after env (ops ++ [op]) = (Dir.after env ops).apply env op := by
  simp [Dir.after]

theorem ops_ind {P : List (Op V) → Prop} (h0 : P []) (hs : ∀ ops op, P ops → P (ops ++ [op])) : ∀ ops, P ops := by
  intro ops
  have : ∀ l : List (Op V), P l.reverse := by
    intro l
    induction l with
    | nil => exact h0
    | cons x t ih => rw [List.reverse_cons]; exact hs _ _ ih
  have := this ops.reverse
  rwa [List.reverse_reverse] at this

/-- After any history the in-memory result store gives back the value set last and not deleted since, whatever the value, and
`exists` says whether there is one. -/
theorem C85_memory (ops : List (Op V)) (version : String) :
    (∀ v, (Mem.after ops).get version = some v ↔ Latest (fun _ => True) ops version v) ∧
    ((Mem.after ops).exists_ version = true ↔ ∃ v, Latest (fun _ => True) ops version v) := by
  have main : ∀ v, (Mem.after ops).get version = some v ↔ Latest (fun _ => True) ops version v := by
    intro v
    induction ops using ops_ind with
    | h0 => exact ⟨fun h => (by cases h), fun h => absurd h latest_nil⟩
    | hs ops op ih =>
      rw [mem_after_snoc, latest_snoc, ← ih]
      cases op with
      | set k w s l =>
        show (Dict.set (Mem.after ops) k w).get? version = some v ↔ _
        rw [Dict.get?_set]
        by_cases hk : k = version
        · subst hk
          simp [Op.Touches]
        · simp [Op.Touches, hk, Mem.get]
      | delete k =>
        have h1 : (((Mem.after ops).apply (.delete k)).get version) =
            if k = version then none else (Mem.after ops).get version := by
          show (((Mem.after ops).delete k).1).get? version = _
          unfold Mem.delete
          by_cases hh : (Mem.after ops).has k = true
          · rw [if_pos hh]
            show (Dict.del _ k).get? version = _
            rw [Dict.get?_del]
            by_cases hk : k = version
            · simp [hk]
            · simp [hk, Mem.get]
          · rw [if_neg hh]
            by_cases hk : k = version
            · subst hk
              rw [if_pos rfl]
              exact (Dict.has_eq_false_iff _ _).1 (by simpa using hh)
            · rw [if_neg hk]; rfl
        rw [h1]
        by_cases hk : k = version
        · simp [hk, Op.Touches]
        · simp [hk, Op.Touches]
      | deleteAll =>
        show (Dict.get? ([] : Dict String V) version) = some v ↔ _
        simp [Op.Touches]
  refine ⟨main, ?_⟩
  show (Mem.after ops).has version = true ↔ _
  rw [Dict.has_eq_true_iff]
  constructor
  · rintro ⟨v, h⟩; exact ⟨v, (main v).1 h⟩
  · rintro ⟨v, h⟩; exact ⟨v, (main v).2 h⟩

theorem stem_plain {version : String} (h : Plain version) : stem version = version := by
  have h1 : version.toList.reverse.takeWhile (fun c => decide (c ≠ '.')) = version.toList.reverse := by
    have : ∀ c ∈ version.toList.reverse, decide (c ≠ '.') = true := by
      intro c hc
      have : c ∈ version.toList := List.mem_reverse.1 hc
      simp only [decide_eq_true_eq]
      intro he; subst he; exact h this
    have gen : ∀ l : List Char, (∀ c ∈ l, decide (c ≠ '.') = true) → l.takeWhile (fun c => decide (c ≠ '.')) = l := by
      intro l
      induction l with
      | nil => intro _; rfl
      | cons x t ih =>
        intro h
        rw [List.takeWhile_cons, if_pos (h x (by simp)), ih (fun c hc => h c (by simp [hc]))]
    exact gen _ this
  unfold stem
  simp only [h1, List.drop_length]

theorem path_plain {version f : String} (h : Plain version) : materializedPath version f = version ++ "." ++ f := by
  unfold materializedPath
  rw [stem_plain h]

theorem path_ne_plain {version f k : String} (h : Plain k) : version ++ "." ++ f ≠ k := by
  intro e
  apply h
  rw [← e]
  simp [String.toList_append]

theorem splits_eq {a b : List Char} : ∀ {c d : List Char}, '.' ∉ a → '.' ∉ c → a ++ '.' :: b = c ++ '.' :: d →
    a = c ∧ b = d := by
  induction a with
  | nil =>
    intro c d _ hc e
    cases c with
    | nil => simpa using e
    | cons x t =>
      exfalso
      simp only [List.nil_append, List.cons_append, List.cons.injEq] at e
      exact hc (by simp [← e.1])
  | cons x a ih =>
    intro c d ha hc e
    cases c with
    | nil =>
      exfalso
      simp only [List.nil_append, List.cons_append, List.cons.injEq] at e
      exact ha (by simp [e.1])
    | cons y t =>
      simp only [List.cons_append, List.cons.injEq] at e
      have := ih (fun h => ha (by simp [h])) (fun h => hc (by simp [h])) e.2
      exact ⟨by rw [e.1, this.1], this.2⟩

theorem path_inj {v w f g : String} (hv : Plain v) (hw : Plain w) (e : v ++ "." ++ f = w ++ "." ++ g) : v = w ∧ f = g := by
  have e' : v.toList ++ '.' :: f.toList = w.toList ++ '.' :: g.toList := by
    have := congrArg String.toList e
    simpa [String.toList_append] using this
  have := splits_eq hv hw e'
  exact ⟨String.toList_injective this.1, String.toList_injective this.2⟩

/-- What the directory has under `version`. -/
inductive Holds (d : Dir V) (version : String) : Option V → Prop where
  | nothing : d.get? version = none → Holds d version none
  | value (v : V) : d.get? version = some (.value v) → Holds d version (some v)
  | loader (v : V) (f : String) : d.get? version = some (.loader f (version ++ "." ++ f)) →
      d.get? (version ++ "." ++ f) = some (.data f v) → Holds d version (some v)

theorem Holds.get {env : Env V} (hf : Faithful env) {d : Dir V} {version : String} {r : Option V}
    (h : Holds d version r) : d.get env version = .ok r ∧ d.exists_ version = r.isSome := by
  unfold Dir.get Dir.exists_ Dict.has
  cases h with
  | nothing h => rw [h]; exact ⟨rfl, rfl⟩
  | value v h => rw [h]; exact ⟨rfl, rfl⟩
  | loader v f h1 h2 =>
    rw [h1]
    refine ⟨?_, rfl⟩
    show d.read env f _ = _
    unfold Dir.read
    rw [h2]
    dsimp only
    rw [hf]

/-- A carried-out `set` of this version. -/
theorem holds_set_self {env : Env V} {d : Dir V} {k : String} {w : V} {s l : Option Adapter}
    (ha : Accepted env (.set k w s l)) (hn : WellNamed (.set k w s l)) :
    Holds (d.set env k w s l).1 k (some w) ∧ (d.set env k w s l).2 = none := by
  obtain ⟨hp, hsame⟩ := hn
  rcases ha with ⟨rfl, rfl, hpk⟩ | ⟨s', l', rfl, rfl, hs, hl⟩
  · unfold Dir.set
    dsimp only
    rw [if_pos hpk]
    exact ⟨.value w (Dict.get?_set_self ..), rfl⟩
  · have e := hsame s' l' rfl rfl
    unfold Dir.set
    dsimp only
    rw [if_pos hs, if_pos hl]
    refine ⟨.loader w l'.name ?_ ?_, rfl⟩
    · rw [path_plain hp, e]
      exact Dict.get?_set_self ..
    · rw [path_plain hp, e, Dict.get?_set_ne _ _ (Ne.symm (path_ne_plain hp))]
      exact Dict.get?_set_self ..

/-- A `set` of another version, carried out or not. -/
theorem holds_set_ne {env : Env V} {d : Dir V} {k version : String} {w : V} {s l : Option Adapter} {r : Option V}
    (hk : Plain k) (hv : Plain version) (hne : k ≠ version) (h : Holds d version r) :
    Holds (d.set env k w s l).1 version r := by
  have keep : ∀ d' : Dir V, (∀ q, d'.get? version = d.get? version ∧ d'.get? (version ++ "." ++ q) =
      d.get? (version ++ "." ++ q)) → Holds d' version r := by
    intro d' hd'
    cases h with
    | nothing h => exact .nothing ((hd' "").1.trans h)
    | value v h => exact .value v ((hd' "").1.trans h)
    | loader v f h1 h2 => exact .loader v f ((hd' "").1.trans h1) ((hd' f).2.trans h2)
  have hpath : ∀ q, version ++ "." ++ q ≠ k := fun q => path_ne_plain hk
  unfold Dir.set
  cases s with
  | none =>
    cases l with
    | none =>
      dsimp only
      by_cases hp : env.picklable w = true
      · rw [if_pos hp]
        exact keep _ (fun q => ⟨Dict.get?_set_ne _ _ hne, Dict.get?_set_ne _ _ (Ne.symm (hpath q))⟩)
      · rw [if_neg hp]; exact h
    | some l => exact h
  | some s =>
    cases l with
    | none => exact h
    | some l =>
      dsimp only
      by_cases hs : s.takesPath = true
      · rw [if_pos hs]
        by_cases hl : l.takesPath = true
        · rw [if_pos hl, path_plain hk]
          refine keep _ (fun q => ⟨?_, ?_⟩)
          · rw [Dict.get?_set_ne _ _ hne, Dict.get?_set_ne _ _ (path_ne_plain hv)]
          · rw [Dict.get?_set_ne _ _ (Ne.symm (hpath q)), Dict.get?_set_ne _ _ (fun e => hne (path_inj hk hv e).1)]
        · rw [if_neg hl]; exact h
      · rw [if_neg hs]; exact h

/-- A `set` that is rejected changes nothing. -/
theorem set_rejected {env : Env V} {d : Dir V} {k : String} {w : V} {s l : Option Adapter}
    (ha : ¬ Accepted env (.set k w s l)) :
    (d.set env k w s l).1 = d ∧ ∃ e, (d.set env k w s l).2 = some e ∧ (e = .pickle ↔ s = none ∧ l = none) := by
  unfold Accepted at ha
  unfold Dir.set
  cases s with
  | none =>
    cases l with
    | none =>
      have hp : ¬ env.picklable w = true := fun h => ha (.inl ⟨rfl, rfl, h⟩)
      dsimp only
      rw [if_neg hp]
      exact ⟨rfl, _, rfl, by simp⟩
    | some l => exact ⟨rfl, _, rfl, by simp⟩
  | some s =>
    cases l with
    | none => exact ⟨rfl, _, rfl, by simp⟩
    | some l =>
      dsimp only
      by_cases hs : s.takesPath = true
      · rw [if_pos hs]
        by_cases hl : l.takesPath = true
        · exact absurd (.inr ⟨s, l, rfl, rfl, hs, hl⟩) ha
        · rw [if_neg hl]; exact ⟨rfl, _, rfl, by simp⟩
      · rw [if_neg hs]; exact ⟨rfl, _, rfl, by simp⟩

theorem holds_delete {d : Dir V} {k version : String} {r : Option V} (hk : Plain k)
    (h : Holds d version r) : Holds (d.delete k) version (if k = version then none else r) := by
  have hg : ∀ q, (d.delete k).get? q = if k = q then none else d.get? q := fun q => Dict.get?_del d k q
  by_cases e : k = version
  · subst e
    rw [if_pos rfl]
    exact .nothing (by rw [hg, if_pos rfl])
  · rw [if_neg e]
    have e' := e
    have hp : ∀ q, ¬ k = version ++ "." ++ q := fun q => Ne.symm (path_ne_plain hk)
    cases h with
    | nothing h => exact .nothing (by rw [hg, if_neg e']; exact h)
    | value v h => exact .value v (by rw [hg, if_neg e']; exact h)
    | loader v f h1 h2 => exact .loader v f (by rw [hg, if_neg e']; exact h1) (by rw [hg, if_neg (hp f)]; exact h2)

theorem holds_after (env : Env V) {ops : List (Op V)} (hn : ∀ op ∈ ops, WellNamed op) {version : String}
    (hv : Plain version) :
    ∃ r, Holds (Dir.after env ops) version r ∧ ∀ v, r = some v ↔ Latest (Accepted env) ops version v := by
  induction ops using ops_ind with
  | h0 => exact ⟨none, .nothing rfl, fun v => ⟨fun h => (by cases h), fun h => absurd h latest_nil⟩⟩
  | hs ops op ih =>
    obtain ⟨r, hr, hl⟩ := ih (fun o ho => hn o (by simp [ho]))
    have hop := hn op (by simp)
    rw [dir_after_snoc]
    cases op with
    | set k w s l =>
      by_cases ha : Accepted env (.set k w s l)
      · by_cases hk : k = version
        · subst hk
          refine ⟨some w, (holds_set_self ha hop).1, fun v => ?_⟩
          rw [latest_snoc]
          constructor
          · intro h; cases h; exact .inl ⟨ha, s, l, rfl⟩
          · rintro (⟨_, s', l', e⟩ | ⟨h, _⟩)
            · cases e; rfl
            · exact absurd ⟨ha, rfl⟩ h
        · refine ⟨r, holds_set_ne hop.1 hv hk hr, fun v => ?_⟩
          rw [latest_snoc, hl]
          constructor
          · intro h; exact .inr ⟨fun hh => hk hh.2, h⟩
          · rintro (⟨_, s', l', e⟩ | ⟨_, h⟩)
            · cases e; exact absurd rfl hk
            · exact h
      · refine ⟨r, ?_, fun v => ?_⟩
        · show Holds ((Dir.after env ops).set env k w s l).1 version r
          rw [(set_rejected ha).1]; exact hr
        · rw [latest_snoc, hl]
          constructor
          · intro h; exact .inr ⟨fun hh => ha hh.1, h⟩
          · rintro (⟨h, _⟩ | ⟨_, h⟩)
            · exact absurd h ha
            · exact h
    | delete k =>
      refine ⟨_, holds_delete hop hr, fun v => ?_⟩
      rw [latest_snoc]
      by_cases hk : k = version
      · rw [if_pos hk]
        constructor
        · intro h; cases h
        · rintro (⟨_, s', l', e⟩ | ⟨h, _⟩)
          · cases e
          · exact absurd ⟨trivial, hk⟩ h
      · rw [if_neg hk, hl]
        constructor
        · intro h; exact .inr ⟨fun hh => hk hh.2, h⟩
        · rintro (⟨_, s', l', e⟩ | ⟨_, h⟩)
          · cases e
          · exact h
    | deleteAll =>
      refine ⟨none, .nothing rfl, fun v => ?_⟩
      rw [latest_snoc]
      constructor
      · intro h; cases h
      · rintro (⟨_, s', l', e⟩ | ⟨h, _⟩)
        · cases e
        · exact absurd ⟨trivial, trivial⟩ h

/-- After any history of operations on data versions without dots, with formats whose loader undoes the saver, the result store in
files gives back the value set last and not deleted since, however each was written, and `exists` says whether there is one. A `set`
with only a saver or only a loader, with one that takes no path, or of a value that cannot be pickled changes nothing and raises.
Missing: data versions with dots, and files changed by others (`C85_violated_dots`, `C85_violated_removed`). -/
theorem C85_file_partial {env : Env V} (hf : Faithful env) {ops : List (Op V)} (hn : ∀ op ∈ ops, WellNamed op)
    {version : String} (hv : Plain version) :
    (∃ r, (Dir.after env ops).get env version = .ok r ∧ (∀ v, r = some v ↔ Latest (Accepted env) ops version v)) ∧
    ((Dir.after env ops).exists_ version = true ↔ ∃ v, Latest (Accepted env) ops version v) ∧
    ∀ op, WellNamed op → (((Dir.after env ops).raises env op = none ↔ Accepted env op) ∧
      (¬ Accepted env op → (Dir.after env ops).apply env op = Dir.after env ops)) := by
  obtain ⟨r, hr, hl⟩ := holds_after env hn hv
  obtain ⟨h1, h2⟩ := hr.get hf
  refine ⟨⟨r, h1, hl⟩, ?_, ?_⟩
  · rw [h2]
    constructor
    · intro h
      obtain ⟨v, rfl⟩ := Option.isSome_iff_exists.1 h
      exact ⟨v, (hl v).1 rfl⟩
    · rintro ⟨v, h⟩
      rw [(hl v).2 h]; rfl
  · intro op hop
    cases op with
    | set k w s l =>
      refine ⟨⟨fun h => Classical.byContradiction fun ha => ?_, fun ha => (holds_set_self ha hop).2⟩, fun ha => ?_⟩
      · obtain ⟨e, he, _⟩ := (set_rejected (d := Dir.after env ops) ha).2
        have h' : ((Dir.after env ops).set env k w s l).2 = none := h
        rw [he] at h'; cases h'
      · exact (set_rejected ha).1
    | delete k => exact ⟨⟨fun _ => trivial, fun _ => rfl⟩, fun ha => absurd trivial ha⟩
    | deleteAll => exact ⟨⟨fun _ => trivial, fun _ => rfl⟩, fun ha => absurd trivial ha⟩

/-- So the two result stores give the same answers to the same operations. -/
theorem C85_agree_partial {env : Env V} (hf : Faithful env) {ops : List (Op V)}
    (hn : ∀ op ∈ ops, WellNamed op ∧ Accepted env op) {version : String} (hv : Plain version) :
    (Dir.after env ops).get env version = .ok ((Mem.after ops).get version) ∧
    (Dir.after env ops).exists_ version = (Mem.after ops).exists_ version := by
  obtain ⟨⟨r, hr, hl⟩, he, _⟩ := C85_file_partial hf (fun op h => (hn op h).1) hv
  obtain ⟨hm, hx⟩ := C85_memory ops version
  have same : ∀ v, Latest (Accepted env) ops version v ↔ Latest (fun _ => True) ops version v := by
    intro v
    constructor
    · rintro ⟨b, s, l, a, e, _, ha⟩
      exact ⟨b, s, l, a, e, trivial, fun op ho _ => ha op ho (hn op (by rw [e]; simp [ho])).2⟩
    · rintro ⟨b, s, l, a, e, _, ha⟩
      exact ⟨b, s, l, a, e, (hn _ (by rw [e]; simp)).2, fun op ho _ => ha op ho trivial⟩
  refine ⟨?_, ?_⟩
  · rw [hr]
    congr 1
    apply Option.ext
    intro v
    rw [hl, hm, same]
  · apply Bool.eq_iff_iff.2
    rw [he, hx]
    exact ⟨fun ⟨v, h⟩ => ⟨v, (same v).1 h⟩, fun ⟨v, h⟩ => ⟨v, (same v).2 h⟩⟩

/-- What the adapter has stored, in order: data version, value, format. -/
def storeAll (env : Env V) (d : Dir V) : List (String × V × Option (Adapter × Adapter)) → Dir V
  | [] => d
  | (k, v, f) :: rest => storeAll env (storeFile env d k v f).1 rest

theorem storeFile_holds {env : Env V} {d : Dir V} {k : String} {v : V} {f : Option (Adapter × Adapter)}
    (ha : Accepted env (.set k v (f.map (·.1)) (f.map (·.2)))) (hn : WellNamed (.set k v (f.map (·.1)) (f.map (·.2))))
    {r : Option V} (hr : Holds d k r) (hold : r = none ∨ r = some v) :
    Holds (storeFile env d k v f).1 k (some v) ∧ (storeFile env d k v f).2 = none := by
  unfold storeFile
  dsimp only
  split
  · exact holds_set_self ha hn
  · rename_i hc
    rcases hold with rfl | rfl
    · exfalso
      apply hc
      have : d.exists_ k = false := by
        cases hr with
        | nothing h => exact (Dict.has_eq_false_iff _ _).2 h
      rw [this]; rfl
    · exact ⟨hr, rfl⟩

theorem storeFile_holds_ne {env : Env V} {d : Dir V} {k version : String} {v : V} {f : Option (Adapter × Adapter)}
    (hk : Plain k) (hv : Plain version) (hne : k ≠ version) {r : Option V} (h : Holds d version r) :
    Holds (storeFile env d k v f).1 version r := by
  unfold storeFile
  dsimp only
  split
  · exact holds_set_ne hk hv hne h
  · exact h

/-- What the caching adapter stores in files it gets back: if equal data versions mean equal values, then after any number of nodes
have been computed and stored, each with the format it asks for or none, a lookup of any of their data versions is a hit with the
value, and a lookup of any other data version is no hit. -/
theorem C85_hits_partial {env : Env V} (hf : Faithful env) {stored : List (String × V × Option (Adapter × Adapter))}
    (hs : ∀ p ∈ stored, Plain p.1 ∧ Accepted env (.set p.1 p.2.1 (p.2.2.map (·.1)) (p.2.2.map (·.2))) ∧
      ∀ q, p.2.2 = some q → q.1.name = q.2.name)
    (heq : ∀ p ∈ stored, ∀ q ∈ stored, p.1 = q.1 → p.2.1 = q.2.1) {version : String} (hv : Plain version) :
    (∀ p ∈ stored, p.1 = version → hitFile env (storeAll env [] stored) version = .ok (some (some p.2.1))) ∧
    ((∀ p ∈ stored, p.1 ≠ version) → hitFile env (storeAll env [] stored) version = .ok none) := by
  have wn : ∀ p ∈ stored, WellNamed (.set p.1 p.2.1 (p.2.2.map (·.1)) (p.2.2.map (·.2))) := by
    intro p hp
    obtain ⟨h1, _, h3⟩ := hs p hp
    refine ⟨h1, fun s l e1 e2 => ?_⟩
    cases hq : p.2.2 with
    | none => rw [hq] at e1; cases e1
    | some q =>
      rw [hq] at e1 e2
      cases e1; cases e2
      exact h3 q hq
  have main : ∀ (l : List (String × V × Option (Adapter × Adapter))) (d : Dir V) (r : Option V), (∀ p ∈ l, p ∈ stored) →
      Holds d version r → (∀ p ∈ stored, p.1 = version → r = none ∨ r = some p.2.1) →
      ∃ r', Holds (storeAll env d l) version r' ∧ (∀ p ∈ l, p.1 = version → r' = some p.2.1) ∧
        ((∀ p ∈ l, p.1 ≠ version) → r' = r) ∧ ((∃ v, r = some v) → r' = r) := by
    intro l
    induction l with
    | nil => intro d r _ hr _; exact ⟨r, hr, fun p hp => (by cases hp), fun _ => rfl, fun _ => rfl⟩
    | cons p rest ih =>
      intro d r hl hr hold
      obtain ⟨k, v, f⟩ := p
      have hp := hl (k, v, f) (by simp)
      have hd : storeAll env d ((k, v, f) :: rest) = storeAll env (storeFile env d k v f).1 rest := rfl
      rw [hd]
      by_cases hk : k = version
      · subst hk
        have h1 := (storeFile_holds (hs _ hp).2.1 (wn _ hp) hr (hold _ hp rfl)).1
        obtain ⟨r', h2, h3, h4, h5⟩ := ih _ _ (fun q hq => hl q (by simp [hq])) h1
          (fun q hq e => .inr (congrArg some (heq _ hp _ hq e.symm)))
        have hr' : r' = some v := h5 ⟨v, rfl⟩
        refine ⟨r', h2, ?_, ?_, ?_⟩
        · intro q hq e
          have := heq _ hp _ (hl q hq) e.symm
          rw [hr']; exact congrArg some this
        · intro h; exact absurd rfl (h (k, v, f) (by simp))
        · rintro ⟨w, rfl⟩
          rcases hold _ hp rfl with h | h
          · cases h
          · rw [hr', h]
      · have h1 := storeFile_holds_ne (env := env) (v := v) (f := f) (hs _ hp).1 hv hk hr
        obtain ⟨r', h2, h3, h4, h5⟩ := ih _ _ (fun q hq => hl q (by simp [hq])) h1 hold
        refine ⟨r', h2, ?_, ?_, h5⟩
        · intro q hq e
          rcases List.mem_cons.1 hq with rfl | hq
          · exact absurd e hk
          · exact h3 q hq e
        · intro h; exact h4 (fun q hq => h q (by simp [hq]))
  obtain ⟨r', h2, h3, h4, _⟩ := main stored [] none (fun _ h => h) (.nothing rfl) (fun _ _ _ => .inl rfl)
  have hit : hitFile env (storeAll env [] stored) version = .ok (if r'.isSome then some r' else none) := by
    obtain ⟨g1, g2⟩ := h2.get hf
    unfold hitFile
    rw [g2, g1]
    cases r' <;> rfl
  constructor
  · intro p hp e
    rw [hit, h3 p hp e]; rfl
  · intro h
    rw [hit, h4 h]; rfl

/-- A result for which a format is asked is there as a file of that format, named after the data version, once the caching adapter
has stored it: also if the same data version had been stored without the format before. -/
theorem C85_format {env : Env V} {d : Dir V} {version : String} {v : V} {s l : Adapter} (hv : Plain version)
    (ha : Accepted env (.set version v (some s) (some l))) :
    ∃ c, (storeFile env d version v (some (s, l))).1.get? (version ++ "." ++ s.name) = some c := by
  have hp : s.takesPath = true ∧ l.takesPath = true := by
    rcases ha with h | ⟨s', l', e1, e2, h1, h2⟩
    · cases h.1
    · cases e1; cases e2; exact ⟨h1, h2⟩
  have hset : (d.set env version v (some s) (some l)).1 =
      Dict.set (Dict.set d (materializedPath version s.name) (.data s.name v)) version
        (.loader l.name (materializedPath version s.name)) := by
    unfold Dir.set
    dsimp only
    rw [if_pos hp.1, if_pos hp.2]
  have hd : storeFile env d version v (some (s, l)) =
      if !d.exists_ version || !d.has (materializedPath version s.name) then d.set env version v (some s) (some l)
      else (d, none) := rfl
  rw [hd]
  by_cases hb : (!d.exists_ version || !d.has (materializedPath version s.name)) = true
  · rw [if_pos hb, hset, path_plain hv, Dict.get?_set_ne _ _ (fun e => path_ne_plain hv e.symm), Dict.get?_set, if_pos rfl]
    exact ⟨_, rfl⟩
  · rw [if_neg hb]
    have h2 : d.has (materializedPath version s.name) = true := by
      cases h : d.has (materializedPath version s.name) with
      | true => rfl
      | false => simp [h] at hb
    rw [path_plain hv] at h2
    exact (Dict.has_eq_true_iff _ _).mp h2

/-- `delete_expired` on a directory in which only plain results were stored neither deletes anything nor fails. (No result in a file
has an expiry.) Missing: other files (`C85_violated_expired`). -/
theorem C85_expired_partial (env : Env V) {ops : List (Op V)}
    (hn : ∀ op ∈ ops, ∀ k v s l, op = .set k v s l → s = none ∨ l = none) :
    (Dir.after env ops).deleteExpired env = (Dir.after env ops, none) := by
  have inv : ∀ k c, (Dir.after env ops).get? k = some c → ∃ v, c = .value v := by
    induction ops using ops_ind with
    | h0 => intro k c h; cases h
    | hs ops op ih =>
      have ih := ih (fun o ho => hn o (by simp [ho]))
      rw [dir_after_snoc]
      intro k c h
      cases op with
      | set k' w s l =>
        have h : (((Dir.after env ops).set env k' w s l).1).get? k = some c := h
        have hsl := hn (.set k' w s l) (by simp) _ _ _ _ rfl
        cases s with
        | none =>
          cases l with
          | none =>
            unfold Dir.set at h
            dsimp only at h
            by_cases hp : env.picklable w = true
            · rw [if_pos hp] at h
              dsimp only at h
              rw [Dict.get?_set] at h
              by_cases e : k' = k
              · rw [if_pos e] at h; cases h; exact ⟨w, rfl⟩
              · rw [if_neg e] at h; exact ih k c h
            · rw [if_neg hp] at h; exact ih k c h
          | some l => exact ih k c h
        | some s =>
          cases l with
          | none => exact ih k c h
          | some l => rcases hsl with h | h <;> cases h
      | delete k' =>
        have h : (Dict.del (Dir.after env ops) k').get? k = some c := h
        rw [Dict.get?_del] at h
        by_cases e : k' = k
        · rw [if_pos e] at h; cases h
        · rw [if_neg e] at h; exact ih k c h
      | deleteAll => cases h
  have loop : ∀ names, Dir.expiredLoop env (Dir.after env ops) names = none := by
    intro names
    induction names with
    | nil => rfl
    | cons n rest ih =>
      have h1 : ∃ r, (Dir.after env ops).get env n = .ok r := by
        unfold Dir.get
        cases hg : (Dir.after env ops).get? n with
        | none => exact ⟨none, rfl⟩
        | some c => obtain ⟨v, rfl⟩ := inv n c hg; exact ⟨some v, rfl⟩
      obtain ⟨r, hr⟩ := h1
      unfold Dir.expiredLoop
      rw [hr]
      exact ih
  unfold Dir.deleteExpired
  rw [loop]

/-! ### Samples and violations -/
namespace Sample

/-- Integers; the negative ones cannot be pickled. -/
def env : Env Int := ⟨fun v => decide (0 ≤ v), fun f g v => if f = g then some v else none⟩

theorem env_faithful : Faithful env := by intro f v; simp [env]

/-- Saver or loader of a format. -/
def json : Adapter := ⟨"json", true⟩

/-- Saver or loader of another format. -/
def parquet : Adapter := ⟨"parquet", true⟩

/-- A data version that was stored without a format first. -/
example : ∃ c, (storeFile env [("a", .value 1)] "a" 1 (some (json, json))).1.get? "a.json" = some c :=
  C85_format (env := env) (s := json) (l := json) (by unfold Plain; decide) (.inr ⟨json, json, rfl, rfl, rfl, rfl⟩)

/-- Plain, with a format, another format, an overwritten and a deleted one, a rejected one. -/
def story : List (Op Int) :=
  [.set "a" 1 none none, .set "b" 2 (some json) (some json), .set "b" 2 (some parquet) (some parquet),
   .set "c" 3 none none, .delete "c", .set "a" 4 (some json) (some json), .set "a" (-1) none none, .set "b" 7 (some json) none]

theorem story_named : ∀ op ∈ story, WellNamed op := by
  intro op h
  simp only [story, List.mem_cons, List.not_mem_nil, or_false] at h
  rcases h with rfl | rfl | rfl | rfl | rfl | rfl | rfl | rfl <;>
    first
      | exact ⟨by unfold Plain; decide, by intro s l h1 h2; cases h1 <;> cases h2 <;> rfl⟩
      | (show Plain _; unfold Plain; decide)

example : (Dir.after env story).get env "a" = .ok (some 4) ∧ (Dir.after env story).get env "b" = .ok (some 2) ∧
    (Dir.after env story).exists_ "c" = false := ⟨rfl, rfl, by decide⟩

/-- Non-vacuity of `C85_file_partial`. -/
example : Latest (Accepted env) story "a" 4 := by
  obtain ⟨⟨r, hr, hl⟩, _⟩ := C85_file_partial env_faithful story_named (version := "a") (by unfold Plain; decide)
  have h : (Dir.after env story).get env "a" = .ok (some 4) := rfl
  rw [h] at hr
  exact (hl 4).1 (by injection hr with h'; exact h'.symm)

/-- Non-vacuity of `C85_memory`. -/
example : Latest (fun _ => True) story "b" 7 := ((C85_memory story "b").1 7).1 rfl

/-- Non-vacuity of `C85_agree_partial`. -/
example : (Dir.after env (story.take 6)).get env "a" = .ok ((Mem.after (story.take 6)).get "a") := by
  refine (C85_agree_partial env_faithful (fun op h => ⟨story_named op (List.mem_of_mem_take h), ?_⟩) (by unfold Plain; decide)).1
  simp only [story, List.take, List.mem_cons, List.not_mem_nil, or_false] at h
  rcases h with rfl | rfl | rfl | rfl | rfl | rfl <;>
    first
      | trivial
      | exact .inl ⟨rfl, rfl, by decide⟩
      | exact .inr ⟨_, _, rfl, rfl, rfl, rfl⟩

/-- Two nodes with the same value, one with a format, and another node. -/
def nodes : List (String × Int × Option (Adapter × Adapter)) :=
  [("h1", 10, none), ("h1", 10, some (json, json)), ("h2", 20, some (parquet, parquet)), ("h1", 10, none)]

/-- Non-vacuity of `C85_hits_partial`. -/
example : hitFile env (storeAll env [] nodes) "h1" = .ok (some (some 10)) ∧
    hitFile env (storeAll env [] nodes) "h3" = .ok none := by
  have hs : ∀ p ∈ nodes, Plain p.1 ∧ Accepted env (.set p.1 p.2.1 (p.2.2.map (·.1)) (p.2.2.map (·.2))) ∧
      ∀ q, p.2.2 = some q → q.1.name = q.2.name := by
    intro p h
    simp only [nodes, List.mem_cons, List.not_mem_nil, or_false] at h
    rcases h with rfl | rfl | rfl | rfl <;> refine ⟨by unfold Plain; decide, ?_, by intro q e; cases e; try rfl⟩ <;>
      first
        | exact .inl ⟨rfl, rfl, by decide⟩
        | exact .inr ⟨_, _, rfl, rfl, rfl, rfl⟩
  have he : ∀ p ∈ nodes, ∀ q ∈ nodes, p.1 = q.1 → p.2.1 = q.2.1 := by decide
  exact ⟨(C85_hits_partial env_faithful hs he (by unfold Plain; decide)).1 ("h1", 10, none) (by simp [nodes]) rfl,
    (C85_hits_partial env_faithful hs he (by unfold Plain; decide)).2 (by decide)⟩

/-- Non-vacuity of `C85_expired_partial`. -/
example : (Dir.after env [.set "a" 1 none none, .set "b" 2 none none]).deleteExpired env =
    (Dir.after env [.set "a" 1 none none, .set "b" 2 none none], none) := by
  refine C85_expired_partial env (fun op h k v s l e => ?_)
  simp only [List.mem_cons, List.not_mem_nil, or_false] at h
  rcases h with rfl | rfl <;> cases e <;> exact .inl rfl

/-- Once the file a saver wrote is gone, the lookup is a hit with `None`: the exception of the loader is taken for a missing result
after `exists` has said there is one. -/
theorem C85_violated_removed :
    hitFile env (storeAll env [] [("h", 5, some (json, json))]) "h" = .ok (some (some 5)) ∧
    hitFile env (Dict.del (storeAll env [] [("h", 5, some (json, json))]) "h.json") "h" = .ok (some none) := ⟨rfl, rfl⟩

/-- Two data versions with dots share the file of a format. -/
theorem C85_violated_dots :
    (Dir.after env [.set "a.b__metadata" 1 (some json) (some json), .set "a.c__metadata" 2 (some json) (some json)]).get env
      "a.b__metadata" = .ok (some 2) := by rfl

/-- In the directory the adapter uses by default the database of the metadata store lies beside the results: `delete_expired` fails
on it, as it fails on what a saver wrote, and `delete_all` removes it. -/
theorem C85_violated_expired :
    (Dir.deleteExpired env ((Dir.after env [.set "a" 1 none none]) ++ [("metadata_store.db", .other)])).2 = some .pickle ∧
    ((Dir.after env [.set "a" 1 (some json) (some json)]).deleteExpired env).2 = some .pickle ∧
    (Dir.deleteAll (Dir.after env [.set "a" 1 none none] ++ [("metadata_store.db", .other)])).has "metadata_store.db" = false := by
  decide +kernel

/-- With a format the in-memory store cannot be used, and the stores differ when something absent is deleted. -/
theorem C85_violated_memory :
    (storeMem ([] : Mem Int) "h" 5 (some (json, json))).2 = some .attribute ∧
    (storeFile env [] "h" 5 (some (json, json))).2 = none ∧
    (Mem.delete ([] : Mem Int) "h").2 = some .key ∧ Dir.raises env [] (.delete "h") = none := by
  decide +kernel

end Sample

end Verif.Results
