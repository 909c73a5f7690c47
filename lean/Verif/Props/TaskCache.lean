import Verif.Proofs.TaskCacheAgain

/-! C89: caching is transparent in task-based execution. -/
namespace Verif.TaskCache
variable {V : Type}

/-- C89: after any history of runs, of any dataflows and with any changes of code and inputs in between, and any deletions
from the stores, a run with the cache gives every node in every task the value, and ends with the exception, of the run without
cache. Missing: what `Run.Valid` and `OrderFree` exclude; three of these exclusions are necessary, see the `C89_violated`
theorems. -/
theorem C89_transparent_partial {env : TaskEnv V} (he : env.Lawful) {col : String → String → Option Name}
    {impl : String → String → Dict Name V → Except UserErr V} (hu : OrderFree env col impl) {s : State V}
    (hs : Reached env col impl s) {r : Run V} (hr : Run.Valid env col impl r) : (cachedRun env r s).1 = plainRun env r :=
  (cachedRun_spec he hu hr (hs.good he hu)).1

/-- C89, running again: if all values can be fingerprinted and nothing is disabled, then after a run, and any further runs of any
dataflows, the same run executes only nodes that are to be recomputed, parallelizable nodes, and a node that raised. -/
theorem C89_again {env : TaskEnv V} (he : env.Lawful) (hash : ∀ v, env.hash v ≠ none) {col : String → String → Option Name}
    {impl : String → String → Dict Name V → Except UserErr V} (hu : OrderFree env col impl) {s : State V}
    (hs : Reached env col impl s) {r : Run V} (hr : Run.Valid env col impl r) (hb : ∀ n, r.flow.behavior n ≠ .disable)
    {t : State V} (ht : Later env col impl (cachedRun env r s).2 t) {n : Name} {task : String}
    (hx : (n, task) ∈ (cachedRun env r t).2.executed) :
    r.flow.behavior n = .recompute ∨ r.flow.kinds n = .expand ∨ (plainRun env r).vals.get? (n, task) = none := by
  have hH : ∀ v, env.hash v = some ((env.hash v).getD "") := by
    intro v
    cases h : env.hash v with
    | none => exact absurd h (hash v)
    | some d => rfl
  have hlater : Reached env col impl t ∧ ∀ k, Has (cachedRun env r s).2 k → Has t k := by
    clear hx
    induction ht with
    | refl => exact ⟨hs.run hr, fun _ h => h⟩
    | run _ h1 h2 ih => exact ⟨ih.1.run h1, fun k h => cachedRun_has he hu hH h1 h2 ih.1 (ih.2 k h)⟩
  rcases cachedRun_again he hu hH hr hb hs hlater.1 hlater.2 _ hx with h | h
  · unfold Flow.behaviorOf at h
    cases hk : r.flow.kinds n with
    | expand => exact .inr (.inl rfl)
    | plain => simp only [hk] at h; exact .inl h
    | collect d => simp only [hk] at h; exact .inl h
  · exact .inr (.inr h)

/-! ### Threads -/

/-- The dict is there, and what the threads have stored is in it. -/
structure Both (name : Name) (a b : Thread) (d : Dict Name Entry) : Prop where
  dict : ∃ m, d.get? name = some (.perTask m) ∧ (a.pc = .done → m.get? a.task = some a.x) ∧
    (b.pc = .done → m.get? b.task = some b.x)
  a : a.pc ≠ .create
  b : b.pc ≠ .create

theorem Both.left {name : Name} {a b : Thread} {d : Dict Name Entry} (h : Both name a b d) (ht : a.task ≠ b.task) :
    Both name (a.step name d).1 b (a.step name d).2 ∧ (a.step name d).1.task = a.task ∧ (a.step name d).1.x = a.x := by
  obtain ⟨⟨m, h1, h2, h3⟩, h4, h5⟩ := h
  unfold Thread.step
  cases hp : a.pc with
  | test =>
    simp only [h1]
    exact ⟨⟨⟨m, h1, (fun h => by cases h), h3⟩, (fun h => by cases h), h5⟩, trivial, trivial⟩
  | create => exact absurd hp h4
  | store =>
    simp only [h1]
    refine ⟨⟨⟨m.set a.task a.x, Dict.get?_set_self _ _ _, fun _ => Dict.get?_set_self _ _ _, ?_⟩, (fun h => by cases h), h5⟩,
      trivial, trivial⟩
    intro h
    rw [Dict.get?_set_ne _ _ ht]
    exact h3 h
  | done => exact ⟨⟨⟨m, h1, h2, h3⟩, h4, h5⟩, rfl, rfl⟩

theorem Both.symm {name : Name} {a b : Thread} {d : Dict Name Entry} (h : Both name a b d) : Both name b a d :=
  ⟨h.dict.elim (fun m hm => ⟨m, hm.1, hm.2.2, hm.2.1⟩), h.b, h.a⟩

theorem interleave_both {name : Name} : ∀ (sched : List Bool) (a b : Thread) (d : Dict Name Entry), Both name a b d →
    a.task ≠ b.task → ∃ a' b' d', interleave name sched (a, b, d) = (a', b', d') ∧ Both name a' b' d' ∧ a'.task = a.task ∧
      a'.x = a.x ∧ b'.task = b.task ∧ b'.x = b.x := by
  intro sched
  induction sched with
  | nil => intro a b d h _; exact ⟨a, b, d, rfl, h, rfl, rfl, rfl, rfl⟩
  | cons w rest ih =>
    intro a b d h ht
    cases w with
    | true =>
      obtain ⟨h1, h2, h3⟩ := h.left ht
      obtain ⟨a', b', d', e1, e2, e3, e4, e5, e6⟩ := ih _ b _ h1 (by rw [h2]; exact ht)
      exact ⟨a', b', d', e1, e2, e3.trans h2, e4.trans h3, e5, e6⟩
    | false =>
      obtain ⟨h1, h2, h3⟩ := h.symm.left (fun h => ht h.symm)
      obtain ⟨a', b', d', e1, e2, e3, e4, e5, e6⟩ := ih a _ _ h1.symm (by rw [h2]; exact ht)
      exact ⟨a', b', d', e1, e2, e3, e4, e5.trans h2, e6.trans h3⟩

/-- C89, two threads: once some branch has recorded a version for a node of the block, two further branches that record theirs at
the same time, in any interleaving of their statements, both find their own version again. Missing: the first two branches, see
`C89_violated_threads`. -/
theorem C89_threads_partial {name : Name} {d : Dict Name Entry} {m : Dict String String}
    (hd : d.get? name = some (.perTask m)) {t t' x x' : String} (ht : t ≠ t') (sched : List Bool) {a b : Thread}
    {d' : Dict Name Entry} (hs : interleave name sched (⟨t, x, .test⟩, ⟨t', x', .test⟩, d) = (a, b, d'))
    (ha : a.pc = .done) (hb : b.pc = .done) :
    ∃ m', d'.get? name = some (.perTask m') ∧ m'.get? t = some x ∧ m'.get? t' = some x' := by
  obtain ⟨a', b', d'', e1, e2, e3, e4, e5, e6⟩ := interleave_both (name := name) sched ⟨t, x, .test⟩ ⟨t', x', .test⟩ d
    ⟨⟨m, hd, (fun h => by cases h), (fun h => by cases h)⟩, (fun h => by cases h), (fun h => by cases h)⟩ ht
  rw [hs] at e1
  cases e1
  obtain ⟨m', h1, h2, h3⟩ := e2.dict
  refine ⟨m', h1, ?_, ?_⟩
  · have h := h2 ha
    rw [e3, e4] at h
    exact h
  · have h := h3 hb
    rw [e5, e6] at h
    exact h

/-! ### Samples -/

namespace Sample

/-- A number in unary. -/
def encNat (n : Nat) : List Char := List.replicate n 'a' ++ ['b']

/-- Numbers. -/
def encNats (l : List Nat) : List Char := l.flatMap encNat

/-- A character, so that commas, angle brackets and semicolons are not used. -/
def esc (c : Char) : List Char :=
  if c = '!' then ['!', '!'] else if c = ',' then ['!', 'c'] else if c = '<' then ['!', 'l'] else if c = ';' then ['!', 's']
  else [c]

/-- Texts. -/
def encTexts (l : List (List Char)) : List Char := l.flatMap (fun x => x.flatMap esc ++ [';'])

theorem encNat_inj : ∀ {n m : Nat} {x y : List Char}, encNat n ++ x = encNat m ++ y → n = m ∧ x = y
  | 0, 0, x, y, h => by
    simp [encNat] at h
    exact ⟨rfl, h⟩
  | 0, m + 1, x, y, h => by
    simp [encNat, List.replicate_succ] at h
  | n + 1, 0, x, y, h => by
    simp [encNat, List.replicate_succ] at h
  | n + 1, m + 1, x, y, h => by
    have h' : encNat n ++ x = encNat m ++ y := by
      simp [encNat, List.replicate_succ] at h ⊢
      exact h
    obtain ⟨h1, h2⟩ := encNat_inj h'
    exact ⟨by rw [h1], h2⟩

theorem encNat_head (n : Nat) (x y : List Char) : encNat n ++ x ≠ 'c' :: y := by
  cases n with
  | zero => simp [encNat]
  | succ n => simp [encNat, List.replicate_succ]

theorem encNats_inj : ∀ {l m : List Nat} {x y : List Char}, encNats l ++ 'c' :: x = encNats m ++ 'c' :: y → l = m ∧ x = y
  | [], [], x, y, h => by
    simp [encNats] at h
    exact ⟨rfl, h⟩
  | [], b :: m, x, y, h => by
    have h : 'c' :: x = encNat b ++ (encNats m ++ 'c' :: y) := by simpa [encNats] using h
    exact absurd h.symm (encNat_head _ _ _)
  | a :: l, [], x, y, h => by
    have h : encNat a ++ (encNats l ++ 'c' :: x) = 'c' :: y := by simpa [encNats] using h
    exact absurd h (encNat_head _ _ _)
  | a :: l, b :: m, x, y, h => by
    have h : encNat a ++ (encNats l ++ 'c' :: x) = encNat b ++ (encNats m ++ 'c' :: y) := by
      simpa [encNats] using h
    obtain ⟨h1, h2⟩ := encNat_inj h
    obtain ⟨h3, h4⟩ := encNats_inj h2
    exact ⟨by rw [h1, h3], h4⟩

theorem esc_inj {c d : Char} {x y : List Char} (h : esc c ++ x = esc d ++ y) : c = d ∧ x = y := by
  unfold esc at h
  split at h <;> (try split at h) <;> (try split at h) <;> (try split at h) <;> (try split at h) <;> (try split at h) <;>
    (try split at h) <;> (try split at h) <;> simp_all <;> grind

theorem esc_head (c : Char) (x y : List Char) : esc c ++ x ≠ ';' :: y := by
  intro h
  unfold esc at h
  split at h <;> (try split at h) <;> (try split at h) <;> (try split at h) <;> simp_all

theorem escs_inj : ∀ {l m x y : List Char}, l.flatMap esc ++ ';' :: x = m.flatMap esc ++ ';' :: y → l = m ∧ x = y
  | [], [], x, y, h => by
    simp at h
    exact ⟨rfl, h⟩
  | [], b :: m, x, y, h => by
    have h : ';' :: x = esc b ++ (m.flatMap esc ++ ';' :: y) := by simpa using h
    exact absurd h.symm (esc_head _ _ _)
  | a :: l, [], x, y, h => by
    have h : esc a ++ (l.flatMap esc ++ ';' :: x) = ';' :: y := by simpa using h
    exact absurd h (esc_head _ _ _)
  | a :: l, b :: m, x, y, h => by
    have h : esc a ++ (l.flatMap esc ++ ';' :: x) = esc b ++ (m.flatMap esc ++ ';' :: y) := by simpa using h
    obtain ⟨h1, h2⟩ := esc_inj h
    obtain ⟨h3, h4⟩ := escs_inj h2
    exact ⟨by rw [h1, h3], h4⟩

theorem encTexts_inj : ∀ {l m : List (List Char)}, encTexts l = encTexts m → l = m
  | [], [], _ => rfl
  | [], b :: m, h => by
    simp [encTexts] at h
  | a :: l, [], h => by
    simp [encTexts] at h
  | a :: l, b :: m, h => by
    have h : a.flatMap esc ++ ';' :: encTexts l = b.flatMap esc ++ ';' :: encTexts m := by simpa [encTexts] using h
    obtain ⟨h1, h2⟩ := escs_inj h
    rw [h1, encTexts_inj h2]

theorem esc_chars {c d : Char} (h : d ∈ esc c) : d ≠ ',' ∧ d ≠ '<' := by
  unfold esc at h
  split at h <;> (try split at h) <;> (try split at h) <;> (try split at h) <;>
    simp only [List.mem_cons, List.not_mem_nil, or_false] at h
  · rcases h with rfl | rfl <;> decide
  · rcases h with rfl | rfl <;> decide
  · rcases h with rfl | rfl <;> decide
  · rcases h with rfl | rfl <;> decide
  · subst h
    exact ⟨by assumption, by assumption⟩

theorem encTexts_chars {l : List (List Char)} {d : Char} (h : d ∈ encTexts l) : d ≠ ',' ∧ d ≠ '<' := by
  obtain ⟨x, _, h⟩ := List.mem_flatMap.1 h
  rcases List.mem_append.1 h with h | h
  · obtain ⟨c, _, h⟩ := List.mem_flatMap.1 h
    exact esc_chars h
  · rw [List.mem_singleton.1 h]
    decide

theorem encNat_chars {n : Nat} {c : Char} (h : c ∈ encNat n) : c = 'a' ∨ c = 'b' := by
  simp only [encNat, List.mem_append, List.mem_replicate, List.mem_singleton] at h
  rcases h with ⟨_, h⟩ | h
  · exact .inl h
  · exact .inr h

theorem encNats_chars {l : List Nat} {c : Char} (h : c ∈ encNats l) : c = 'a' ∨ c = 'b' := by
  obtain ⟨n, _, h⟩ := List.mem_flatMap.1 h
  exact encNat_chars h

/-- Values are lists of numbers; a number is a list of length one. -/
def env : TaskEnv (List Nat) where
  hash v := some (String.ofList (encNats v))
  tupleHead _ := none
  uuid i := String.ofList (List.replicate i 'u')
  codec := toyCodec
  alnum := Char.isAlphanum
  hashList l := String.ofList (encTexts (l.map String.toList))
  items v := v.map (fun n => [n])
  listOf l := l.flatten

theorem env_lawful : env.Lawful where
  base := {
    separates := by
      intro v v' d h h'
      simp only [env] at h h'
      have h := Option.some.inj (h.trans h'.symm)
      have h := String.ofList_inj.1 h
      have h : encNats v ++ 'c' :: [] = encNats v' ++ 'c' :: [] := by rw [h]
      exact (encNats_inj h).1
    hash_comma := by
      intro v d h
      cases Option.some.inj h
      rw [String.toList_ofList]
      intro h
      rcases encNats_chars h with h | h <;> exact absurd h (by decide)
    hash_plain := by
      intro v d h
      cases Option.some.inj h
      rw [String.toList_ofList]
      intro h
      rcases encNats_chars h with h | h <;> exact absurd h (by decide)
    uuid_inj := by
      intro i j h
      have h := congrArg List.length (String.ofList_inj.1 h)
      simpa using h
    uuid_comma := by
      intro i
      simp only [env, String.toList_ofList, List.mem_replicate]
      exact fun h => absurd h.2 (by decide)
    codec := toyCodec_lawful
    dash := by decide }
  list_inj := by
    intro l l' h
    have h := encTexts_inj (String.ofList_inj.1 h)
    exact (List.map_inj_right (f := String.toList) (fun _ _ h => String.toList_inj.1 h)).1 h
  list_comma := by
    intro l
    simp only [env, String.toList_ofList]
    intro h
    exact (encTexts_chars h).1 rfl
  list_plain := by
    intro l
    simp only [env, String.toList_ofList]
    intro h
    exact (encTexts_chars h).2 rfl

/-- The argument, or nothing. -/
def arg (kw : Dict Name (List Nat)) (d : Name) : List Nat := (kw.get? d).getD []

/-- The functions: `parts` yields the items of `x`, `scaled` adds `base` to an item and fails on zero, `shifted` adds one, `total`
sums what it collects, `report` adds one. The code version "v2" of `shifted` adds two. -/
def impl (name code : String) (kw : Dict Name (List Nat)) : Except UserErr (List Nat) :=
  if name = "parts" then .ok (arg kw "x")
  else if name = "base" then .ok [2]
  else if name = "scaled" then if arg kw "parts" = [0] then .error "ValueError" else .ok [(arg kw "parts").sum + (arg kw "base").sum]
  else if name = "shifted" then .ok [(arg kw "scaled").sum + if code = "v2" then 2 else 1]
  else if name = "total" then .ok [(arg kw "shifted").sum]
  else if name = "report" then .ok [(arg kw "total").sum + 1]
  else .error "AttributeError"

/-- `total` collects `shifted`. -/
def col (name code : String) : Option Name := if name = "total" ∧ code = "collects" then some "shifted" else none

theorem impl_orderFree : OrderFree env col impl := by
  intro name code kw kw' h
  have hne : ∀ d, d ≠ "shifted" → arg kw d = arg kw' d := by
    intro d hd
    unfold arg
    rcases h d with h | ⟨h, _⟩
    · rw [h]
    · unfold col at h
      split at h
      · injection h with h; exact absurd h.symm hd
      · cases h
  have hs : (arg kw "shifted").sum = (arg kw' "shifted").sum := by
    unfold arg
    rcases h "shifted" with h | ⟨_, v, v', h1, h2, h3⟩
    · rw [h]
    · rw [h1, h2]
      have h3 : (v.map (fun n => [n])).Perm (v'.map (fun n => [n])) := h3
      have h4 : v.Perm v' := by
        have := h3.flatten
        simpa [← List.flatMap_def] using this
      exact h4.sum_nat
  unfold impl
  rw [hne "x" (by decide), hne "parts" (by decide), hne "base" (by decide), hne "scaled" (by decide), hne "total" (by decide), hs]

/-- The dataflow with the given version of `shifted`; `base` is disabled if asked for. -/
def flow (version : String) (b : Behavior) : Flow (List Nat) where
  kinds n := if n = "parts" then .expand else if n = "total" then .collect "shifted" else .plain
  behavior n := if n = "base" then b else .default
  codes n := if n = "total" then "collects" else if n = "shifted" then version else "v1"
  fns n kw := impl (safeName env.alnum n) (if n = "total" then "collects" else if n = "shifted" then version else "v1") kw

/-- The steps for two items, with the grouping into repeatable blocks: the second branch overtakes the first. -/
def steps : List (Step (List Nat)) :=
  [⟨"base", "base", []⟩,
   ⟨"parts", "expand-parts", [("x", .value [3, 1])]⟩,
   ⟨"scaled", "expand-parts.0.block-parts", [("parts", .item "expand-parts" 0), ("base", .result "base")]⟩,
   ⟨"scaled", "expand-parts.1.block-parts", [("parts", .item "expand-parts" 1), ("base", .result "base")]⟩,
   ⟨"shifted", "expand-parts.1.block-parts", [("scaled", .result "expand-parts.1.block-parts")]⟩,
   ⟨"shifted", "expand-parts.0.block-parts", [("scaled", .result "expand-parts.0.block-parts")]⟩,
   ⟨"total", "collect-parts", [("shifted", .gathered ["expand-parts.0.block-parts", "expand-parts.1.block-parts"])]⟩,
   ⟨"report", "report", [("total", .result "collect-parts")]⟩]

/-- The run with `x = [3, 1]`. -/
def run (version : String) (b : Behavior) : Run (List Nat) := ⟨flow version b, [("x", [3, 1])], steps⟩

theorem run_valid (version : String) {b : Behavior} (hb : b ≠ .ignore) (hv : version ≠ "collects") :
    Run.Valid env col impl (run version b) where
  fns n kw := rfl
  kinds n d := by
    simp only [run, flow, col]
    by_cases h1 : n = "parts"
    · subst h1
      simp
    · rw [if_neg h1]
      by_cases h2 : n = "total"
      · subst h2
        simp only [if_true]
        have : safeName env.alnum "total" = "total" := by decide +kernel
        simp [this]
      · have : (if n = "shifted" then version else "v1") ≠ "collects" := by
          split
          · exact hv
          · decide
        simp [h2, this]
  behaviors n := by
    simp only [run, flow]
    split
    · exact hb
    · decide
  given_nodup := by
    show (["x"] : List Name).Nodup
    decide
  args_nodup := by
    show ∀ st ∈ steps, (st.args.map (·.1)).Nodup
    decide
  names := by
    show ∀ st ∈ steps, ∀ p ∈ st.args, ',' ∉ p.1.toList
    decide
  notGiven := by
    show ∀ st ∈ steps, Dict.get? [("x", ([3, 1] : List Nat))] st.name = none
    decide
  apart := by
    show List.Pairwise (fun a b => a.name = b.name → a.task ≠ b.task ∧
      (if a.name = "parts" then Kind.expand else if a.name = "total" then .collect "shifted" else .plain) = .plain ∧
      a.task ≠ a.name ∧ b.task ≠ b.name) steps
    decide
  sources := by
    simp only [run, steps]
    intro st hst p hp
    simp only [List.mem_cons, List.not_mem_nil, or_false] at hst
    rcases hst with rfl | rfl | rfl | rfl | rfl | rfl | rfl | rfl <;>
      simp only [List.mem_cons, List.not_mem_nil, or_false] at hp
    · subst hp; exact .inr (.inr (.given rfl))
    · rcases hp with rfl | rfl
      · exact .inl rfl
      · exact .inr (.inr .own)
    · rcases hp with rfl | rfl
      · exact .inl rfl
      · exact .inr (.inr .own)
    · subst hp; exact .inr (.inr .same)
    · subst hp; exact .inr (.inr .same)
    · subst hp; exact .inr (.inl rfl)
    · subst hp; exact .inr (.inr (.collecting (e := "shifted") rfl))

/-- A new cache. -/
def fresh : State (List Nat) := ⟨[], [], [], [], 0, [], []⟩

/-- The cache after a run with the first version and one with `base` disabled and the second version. -/
def used : State (List Nat) := (cachedRun env (run "v2" .disable) (cachedRun env (run "v1" .default) fresh).2).2

theorem used_reached : Reached env col impl used :=
  .run (.run (.empty rfl rfl rfl) (run_valid "v1" (by decide) (by decide))) (run_valid "v2" (by decide) (by decide))

/-- Non-vacuity: the run with that history, and the values it has. -/
example : (cachedRun env (run "v1" .default) used).1 = plainRun env (run "v1" .default) :=
  C89_transparent_partial env_lawful impl_orderFree used_reached (run_valid "v1" (by decide) (by decide))
example : (plainRun env (run "v1" .default)).vals.get? ("report", "report") = some [11] := by decide +kernel
/-- It executes only what is recomputed. -/
example : (cachedRun env (run "v1" .default) used).2.executed = [("parts", "expand-parts")] := by decide +kernel

/-- Non-vacuity: running again, after a run with other code in between. -/
example {n : Name} {task : String}
    (hx : (n, task) ∈ (cachedRun env (run "v1" .default)
      (cachedRun env (run "v2" .default) (cachedRun env (run "v1" .default) used).2).2).2.executed) :
    (run "v1" .default).flow.behavior n = .recompute ∨ (run "v1" .default).flow.kinds n = .expand ∨
      (plainRun env (run "v1" .default)).vals.get? (n, task) = none := by
  have hnd : ∀ version m, (run version .default).flow.behavior m ≠ .disable := by
    intro version m
    show (flow version .default).behavior m ≠ .disable
    unfold flow
    simp only
    split <;> exact Behavior.noConfusion
  exact C89_again env_lawful (fun v h => by cases h) impl_orderFree used_reached
    (run_valid "v1" Behavior.noConfusion (by decide)) (hnd "v1")
    (.run .refl (run_valid "v2" Behavior.noConfusion (by decide)) (hnd "v2")) hx

/-- Non-vacuity: the second and third branch at the same time. -/
example : ∃ m', (interleave "scaled" [true, false, true, false] (⟨"t1", "x", .test⟩, ⟨"t2", "y", .test⟩,
    [("scaled", .perTask [("t0", "z")])])).2.2.get? "scaled" = some (.perTask m') ∧ m'.get? "t1" = some "x" ∧
      m'.get? "t2" = some "y" :=
  C89_threads_partial (m := [("t0", "z")]) rfl (by decide) [true, false, true, false] rfl (by decide) (by decide)

/-! ### Violations -/

/-- Two plain nodes, grouped by level. -/
def byLevel : Run (List Nat) :=
  ⟨flow "v1" .default, [],
    [⟨"base", "level_0", []⟩, ⟨"scaled", "level_1", [("base", .result "level_0"), ("parts", .value [1])]⟩]⟩

/-- C89 as stated does not hold: when nodes are grouped by level, a node that depends on a node of another level cannot be
executed with a cache, although it can without. -/
theorem C89_violated_by_level :
    (plainRun env byLevel).error = none ∧ (cachedRun env byLevel fresh).1.error = some "TypeError" := by decide +kernel

/-- Functions that keep the order of what they collect. -/
def ordered : Flow (List Nat) where
  kinds n := if n = "parts" then .expand else if n = "all" then .collect "one" else .plain
  behavior _ := .default
  codes _ := "v1"
  fns n kw := if n = "parts" then .ok (arg kw "x") else if n = "one" then .ok (arg kw "parts") else .ok (arg kw "one")

/-- A run for two items. -/
def pair (x : List Nat) : Run (List Nat) :=
  ⟨ordered, [("x", x)],
    [⟨"parts", "expand-parts", [("x", .value x)]⟩,
     ⟨"one", "t0", [("parts", .item "expand-parts" 0)]⟩,
     ⟨"one", "t1", [("parts", .item "expand-parts" 1)]⟩,
     ⟨"all", "collect-parts", [("one", .gathered ["t0", "t1"])]⟩]⟩

/-- C89 as stated does not hold: when the items come in another order than in an earlier run, the node that collects them gets the
result for the earlier order. -/
theorem C89_violated_order :
    (plainRun env (pair [1, 3])).vals.get? ("all", "collect-parts") = some [1, 3] ∧
    (cachedRun env (pair [1, 3]) (cachedRun env (pair [3, 1]) fresh).2).1.vals.get? ("all", "collect-parts") = some [3, 1] := by
  decide +kernel

/-- C89 as stated does not hold: of two threads that record the first versions for a node of the block at the same time, one can
lose its version, and the next node of its branch cannot be executed. -/
theorem C89_violated_threads : ∃ sched a b d,
    interleave "scaled" sched (⟨"t0", "x", .test⟩, ⟨"t1", "y", .test⟩, []) = (a, b, d) ∧ a.pc = .done ∧ b.pc = .done ∧
    (lookupDep env "t0" "scaled" [1] { fresh with versions := d }).1 = .error "TypeError" :=
  ⟨[true, false, true, true, false, false], _, _, _, rfl, rfl, rfl, rfl⟩

end Sample
end Verif.TaskCache
