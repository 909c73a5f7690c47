import Verif.Proofs.CacheLog
import Verif.Props.TaskCache

/-! C90: the log of the cache tells what a run did. -/
namespace Verif.TaskCache.Log
variable {V : Type}

/-- C90: in the log of a run at level "info", a node that got a value in a task has exactly one event under its name and task (its
name, without tasks): "execute" if its function was called in this run, "get result" if not. Nothing is listed for others, in
particular for a node that raised. Missing: the runs that `Run.Valid` and `OrderFree` exclude. -/
theorem C90_log_partial {env : TaskEnv V} (he : env.Lawful) {col : String → String → Option Name}
    {impl : String → String → Dict Name V → Except UserErr V} (hu : OrderFree env col impl) {s : State V}
    (hs : Reached env col impl s) {j : Job V} (hr : Run.Valid env col impl j.run)
    (hstd : j.std = true → ∀ st ∈ j.run.steps, st.task = st.name) (n : Name) (t : String) (ht : j.std = true → t = n) :
    ((∃ v, (plainRun env j.run).vals.get? (n, t) = some v) →
      ((n, t) ∈ (cachedRun env j.run s).2.executed →
        (logsOf true (jobLog env j s)).get? (some n, if j.std then none else some t) =
          some [⟨.execute, some n, if j.std then none else some t⟩]) ∧
      ((n, t) ∉ (cachedRun env j.run s).2.executed →
        (logsOf true (jobLog env j s)).get? (some n, if j.std then none else some t) =
          some [⟨.getResult, some n, if j.std then none else some t⟩])) ∧
    ((plainRun env j.run).vals.get? (n, t) = none →
      (logsOf true (jobLog env j s)).get? (some n, if j.std then none else some t) = none) := by
  obtain ⟨done, d1, d2, d3, d4⟩ := job_logged he hu hr (hs.good he hu)
  have hfilter : (infoOnly (jobLog env j s)).filter (fun e => keyOf e = (some n, if j.std then none else some t)) =
      if (n, t) ∈ done then [eventOf j.std (cachedRun env j.run s).2.executed (n, t)] else [] := by
    rw [d3]
    have hone := filter_one (f := eventOf j.std (cachedRun env j.run s).2.executed) (key := keyOf)
      (k := (some n, if j.std then none else some t)) (q := (n, t)) d1 ?_
    · rw [hone]
      by_cases h : (n, t) ∈ done
      · rw [if_pos h, if_pos h]
      · rw [if_neg h, if_neg h]
    rintro ⟨m, u⟩ hp
    unfold keyOf eventOf
    simp only [Prod.mk.injEq, Option.some.injEq]
    constructor
    · rintro ⟨h1, h2⟩
      refine ⟨h1, ?_⟩
      cases hj : j.std with
      | false => simpa [hj] using h2
      | true =>
        obtain ⟨st, h3, h4⟩ := d2 _ hp
        injection h4 with h4 h5
        rw [h5, hstd hj st h3, ← h4, ht hj, h1]
    · rintro ⟨h1, h2⟩
      exact ⟨h1, by rw [h2]⟩
  have hget := group_get (infoOnly (jobLog env j s)) [] (some n, if j.std then none else some t)
  rw [hfilter] at hget
  unfold logsOf
  simp only [if_true]
  rw [hget]
  constructor
  · intro hval
    have hin := (d4 (n, t)).1 hval
    simp only [if_pos hin]
    constructor
    · intro h
      simp [eventOf, h, Dict.get?]
    · intro h
      simp [eventOf, h, Dict.get?]
  · intro hnone
    have hout : (n, t) ∉ done := by
      intro h
      obtain ⟨v, hv⟩ := (d4 (n, t)).2 h
      rw [hnone] at hv
      cases hv
    simp only [if_neg hout]
    rfl

/-- Events of a job without tasks. -/
theorem mem_jobLog {env : TaskEnv V} {j : Job V} {s : State V} {e : Event} (h : e ∈ jobLog env j s) (hstd : j.std = true) :
    e ∈ startLog env j ∨ Loud none e := by
  unfold jobLog at h
  rcases List.mem_append.1 h with h | h
  · exact .inl h
  · rw [hstd] at h
    exact .inr (stepsLog_loud _ _ _ e h)

theorem loud_what {e : Event} (h : Loud none e) : e.what ≠ .finalVar ∧ e.what ≠ .input ∧ e.what ≠ .override := by
  rcases h with ⟨h, _⟩ | ⟨h, _⟩
  · rcases h with h | h | h | h | h | h | h | h | h | h <;> rw [h] <;> decide
  · rcases h with h | h <;> rw [h] <;> decide

/-- C90, the picture of a run without tasks: `view_run` draws as final variables, inputs and overrides what was requested and
given, and marks as "from cache" the nodes that have a value although their function was not called. A node that is both input
and override is drawn as input only, see `C90_violated_override`. -/
theorem C90_view_partial {env : TaskEnv V} (he : env.Lawful) {col : String → String → Option Name}
    {impl : String → String → Dict Name V → Except UserErr V} (hu : OrderFree env col impl) {s : State V}
    (hs : Reached env col impl s) {j : Job V} (hr : Run.Valid env col impl j.run) (hstd : j.std = true)
    (htask : ∀ st ∈ j.run.steps, st.task = st.name) :
    ∃ w, viewRun (jobLog env j s) = .ok w ∧ (∀ n, n ∈ w.finalVars ↔ n ∈ j.finalVars) ∧
      (∀ n, n ∈ w.inputs ↔ n ∈ j.inputs.keys) ∧
      (∀ n, n ∈ w.overrides ↔ n ∈ j.overrides.keys ∧ n ∉ j.inputs.keys) ∧
      ∀ n, w.fromCache n = true ↔
        (∃ v, (plainRun env j.run).vals.get? (n, n) = some v) ∧ (n, n) ∉ (cachedRun env j.run s).2.executed := by
  have htasks : ∀ e ∈ jobLog env j s, e.task = none := by
    intro e h
    rcases mem_jobLog h hstd with h | h
    · exact startLog_task h
    · rcases h with ⟨_, h | h⟩ | ⟨_, h⟩ <;> exact h
  have hkeys : ∀ x ∈ group (jobLog env j s) [], x.1.2 = none := by
    rintro ⟨k, es⟩ hx
    have hg := group_get (jobLog env j s) [] k
    rw [Dict.get?_of_mem (group_nodup (jobLog env j s) [] List.nodup_nil) hx] at hg
    split at hg
    · cases hg
    · rename_i hne
      obtain ⟨e, h1⟩ := List.exists_mem_of_ne_nil _ hne
      obtain ⟨h1, h2⟩ := List.mem_filter.1 h1
      have h2 : keyOf e = k := by simpa using h2
      rw [← h2]
      exact htasks e h1
  obtain ⟨w, h1, h2, h3, h4, h5⟩ := viewLoop_spec (group (jobLog env j s) [])
    ⟨[], [], [], fun n => (((group (jobLog env j s) []).get? (some n, none)).getD []).any (fun e => e.what = .getResult)⟩ hkeys
  -- what the events under a name say
  have hsays : ∀ (k : What) (n : Name), says k ((jobLog env j s).filter (fun e => keyOf e = (some n, none))) = true ↔
      ∃ e ∈ jobLog env j s, e.what = k ∧ e.node = some n := by
    intro k n
    rw [says_iff]
    constructor
    · rintro ⟨e, he, hk⟩
      obtain ⟨h1, h2⟩ := List.mem_filter.1 he
      have h2 : keyOf e = (some n, none) := by simpa using h2
      exact ⟨e, h1, hk, congrArg Prod.fst h2⟩
    · rintro ⟨e, he, hk, hn⟩
      refine ⟨e, List.mem_filter.2 ⟨he, ?_⟩, hk⟩
      have : keyOf e = (some n, none) := by unfold keyOf; rw [hn, htasks e he]
      simpa using this
  have hfin : ∀ n, (∃ e ∈ jobLog env j s, e.what = .finalVar ∧ e.node = some n) ↔ n ∈ j.finalVars := by
    intro n
    constructor
    · rintro ⟨e, he, hk, hn⟩
      rcases mem_jobLog he hstd with h | h
      · rcases startLog_what h with ⟨h, _⟩ | ⟨_, m, h1, h2⟩ | h | ⟨h, _⟩ | ⟨h, _⟩
        · rw [h] at hk; cases hk
        · rw [hn] at h2; injection h2 with h2; rw [h2]; exact h1
        · rw [h] at hk; cases hk
        · rw [h] at hk; cases hk
        · rw [h] at hk; cases hk
      · exact absurd hk (loud_what h).1
    · intro h
      refine ⟨⟨.finalVar, some n, none⟩, ?_, rfl, rfl⟩
      unfold jobLog startLog
      simp [h]
  have hinp : ∀ n, (∃ e ∈ jobLog env j s, e.what = .input ∧ e.node = some n) ↔ n ∈ j.inputs.keys := by
    intro n
    constructor
    · rintro ⟨e, he, hk, hn⟩
      rcases mem_jobLog he hstd with h | h
      · rcases startLog_what h with ⟨h, _⟩ | ⟨h, _⟩ | h | ⟨_, m, h1, h2⟩ | ⟨h, _⟩
        · rw [h] at hk; cases hk
        · rw [h] at hk; cases hk
        · rw [h] at hk; cases hk
        · rw [hn] at h2; injection h2 with h2; rw [h2]; exact h1
        · rw [h] at hk; cases hk
      · exact absurd hk (loud_what h).2.1
    · intro h
      obtain ⟨p, h1, h2⟩ := List.mem_map.1 h
      refine ⟨⟨.input, some n, none⟩, ?_, rfl, rfl⟩
      unfold jobLog startLog
      refine List.mem_append_left _ (List.mem_append_left _ (List.mem_append_right _ (List.mem_flatMap.2 ⟨p, h1, ?_⟩)))
      refine List.mem_append_right _ (List.mem_singleton.2 ?_)
      rw [← h2]
  have hover : ∀ n, (∃ e ∈ jobLog env j s, e.what = .override ∧ e.node = some n) ↔ n ∈ j.overrides.keys := by
    intro n
    constructor
    · rintro ⟨e, he, hk, hn⟩
      rcases mem_jobLog he hstd with h | h
      · rcases startLog_what h with ⟨h, _⟩ | ⟨h, _⟩ | h | ⟨h, _⟩ | ⟨_, m, h1, h2⟩
        · rw [h] at hk; cases hk
        · rw [h] at hk; cases hk
        · rw [h] at hk; cases hk
        · rw [h] at hk; cases hk
        · rw [hn] at h2; injection h2 with h2; rw [h2]; exact h1
      · exact absurd hk (loud_what h).2.2
    · intro h
      obtain ⟨p, h1, h2⟩ := List.mem_map.1 h
      refine ⟨⟨.override, some n, none⟩, ?_, rfl, rfl⟩
      unfold jobLog startLog
      refine List.mem_append_left _ (List.mem_append_right _ (List.mem_flatMap.2 ⟨p, h1, ?_⟩))
      refine List.mem_append_right _ (List.mem_singleton.2 ?_)
      rw [← h2]
  refine ⟨w, h1, ?_, ?_, ?_, ?_⟩
  · intro n
    rw [h3, listed_group (by simp [says]), hsays, hfin]
    simp
  · intro n
    rw [h4, listed_group (by simp [says]), hsays, hinp]
    simp
  · intro n
    rw [h5, listed_group (by simp [says]), hsays, hover, ← hinp n, ← hsays]
    simp
  · intro n
    rw [h2]
    simp only
    have hres : ((((group (jobLog env j s) []).get? (some n, none)).getD []).any (fun e => e.what = .getResult)) =
        says .getResult ((jobLog env j s).filter (fun e => keyOf e = (some n, none))) := by
      rw [group_get]
      split
      · rename_i h
        rw [h]
        rfl
      · rfl
    rw [hres, hsays]
    obtain ⟨done, d1, d2, d3, d4⟩ := job_logged he hu hr (hs.good he hu)
    have hmem : ∀ e, e.what = .getResult → (e ∈ jobLog env j s ↔ e ∈ done.map (eventOf j.std (cachedRun env j.run s).2.executed)) := by
      intro e hk
      rw [← d3]
      unfold infoOnly
      rw [List.mem_filter]
      simp [hk]
    constructor
    · rintro ⟨e, hm, hk, hn⟩
      obtain ⟨⟨m, u⟩, h6, rfl⟩ := List.mem_map.1 ((hmem e hk).1 hm)
      obtain ⟨st, h7, h8⟩ := d2 _ h6
      injection h8 with h8 h9
      have hu' : u = m := by rw [h9, htask st h7, ← h8]
      have hn : some m = some n := hn
      injection hn with hn
      rw [hu', hn] at h6 hk
      refine ⟨(d4 _).2 h6, ?_⟩
      intro hx
      simp [eventOf, hx] at hk
    · rintro ⟨hv, hx⟩
      have h6 := (d4 _).1 hv
      have hk : (eventOf j.std (cachedRun env j.run s).2.executed (n, n)).what = .getResult := by simp [eventOf, hx]
      exact ⟨_, (hmem _ hk).2 (List.mem_map.2 ⟨_, h6, rfl⟩), hk, rfl⟩

theorem viewLoop_tasks {n : Option Name} {t : String} {es : List Event} :
    ∀ {L : List ((Option Name × Option String) × List Event)} (w : View), ((n, some t), es) ∈ L →
      viewLoop L w = .error "ValueError"
  | [], _, h => by cases h
  | ((_, some _), _) :: rest, w, _ => by simp only [viewLoop]
  | ((none, none), _) :: rest, w, h => by
    have h : ((n, some t), es) ∈ rest := by
      rcases List.mem_cons.1 h with h | h
      · cases h
      · exact h
    simp only [viewLoop]
    exact viewLoop_tasks w h
  | ((some m, none), es') :: rest, w, h => by
    have h : ((n, some t), es) ∈ rest := by
      rcases List.mem_cons.1 h with h | h
      · cases h
      · exact h
    simp only [viewLoop]
    split
    · exact viewLoop_tasks _ h
    · split
      · exact viewLoop_tasks _ h
      · exact viewLoop_tasks _ h

/-- C90, with tasks: `view_run` refuses with `ValueError` as soon as a node got a value, instead of drawing something wrong. -/
theorem C90_view_tasks {env : TaskEnv V} (he : env.Lawful) {col : String → String → Option Name}
    {impl : String → String → Dict Name V → Except UserErr V} (hu : OrderFree env col impl) {s : State V}
    (hs : Reached env col impl s) {j : Job V} (hr : Run.Valid env col impl j.run) (hstd : j.std = false) {n : Name} {t : String}
    {v : V} (hval : (plainRun env j.run).vals.get? (n, t) = some v) : viewRun (jobLog env j s) = .error "ValueError" := by
  obtain ⟨done, d1, d2, d3, d4⟩ := job_logged he hu hr (hs.good he hu)
  have hin := (d4 (n, t)).1 ⟨v, hval⟩
  have hm : eventOf j.std (cachedRun env j.run s).2.executed (n, t) ∈ jobLog env j s := by
    have : eventOf j.std (cachedRun env j.run s).2.executed (n, t) ∈ infoOnly (jobLog env j s) := by
      rw [d3]
      exact List.mem_map.2 ⟨_, hin, rfl⟩
    exact (List.mem_filter.1 this).1
  have hg := group_get (jobLog env j s) [] (some n, some t)
  have hne : (jobLog env j s).filter (fun e => keyOf e = (some n, some t)) ≠ [] := by
    intro h0
    have : eventOf j.std (cachedRun env j.run s).2.executed (n, t) ∈
        (jobLog env j s).filter (fun e => keyOf e = (some n, some t)) := by
      refine List.mem_filter.2 ⟨hm, ?_⟩
      simp [keyOf, eventOf, hstd]
    rw [h0] at this
    cases this
  rw [if_neg hne] at hg
  exact viewLoop_tasks _ (Dict.get?_mem hg)

/-- Several runs of one adapter, their events in any order. -/
def logAll : List (String × Event) → Dict String (List Event) → Except UserErr (Dict String (List Event))
  | [], logs => .ok logs
  | (run, e) :: rest, logs =>
    match logEvent run e logs with
    | .error x => .error x
    | .ok logs => logAll rest logs

/-- C90, runs at the same time: when the events of several runs come in any order, the log of each run has exactly its own events, in
the order they came, after what it had. -/
theorem C90_apart : ∀ (evs : List (String × Event)) (logs : Dict String (List Event)),
    (∀ p ∈ evs, logs.get? p.1 ≠ none) → ∃ logs', logAll evs logs = .ok logs' ∧
      ∀ run, logs'.get? run = (logs.get? run).map (· ++ (evs.filter (fun p => p.1 = run)).map (·.2))
  | [], logs, _ => by
    refine ⟨logs, rfl, ?_⟩
    intro run
    cases logs.get? run <;> simp
  | (run, e) :: rest, logs, h => by
    cases hl : logs.get? run with
    | none => exact absurd hl (h _ List.mem_cons_self)
    | some l =>
      obtain ⟨logs', h1, h2⟩ := C90_apart rest (logs.set run (l ++ [e])) (by
        intro p hp
        rw [Dict.get?_set]
        split
        · exact fun h => by cases h
        · exact h p (List.mem_cons_of_mem _ hp))
      refine ⟨logs', by simp only [logAll, logEvent, hl]; exact h1, ?_⟩
      intro run'
      rw [h2, Dict.get?_set]
      by_cases hrr : run = run'
      · subst hrr
        rw [if_pos rfl, hl, List.filter_cons, if_pos (by simp)]
        simp
      · rw [if_neg hrr, List.filter_cons, if_neg (by simpa using hrr)]

/-! ### Samples -/

namespace Sample
open Verif.TaskCache.Sample

/-- The run of C89 with tasks. -/
def tasks : Job (List Nat) := ⟨run "v1" .default, false, ["base", "parts"], ["report"], [("x", [3, 1])], []⟩

/-- A run without tasks; `scaled` is overridden. -/
def plain (version : String) : Run (List Nat) :=
  ⟨flow version .default, [("scaled", [3])],
    [⟨"base", "base", []⟩, ⟨"shifted", "shifted", [("scaled", .value [3])]⟩]⟩

/-- The execution of it, with `scaled` possibly given as an input as well. -/
def job (version : String) (inputs : Dict Name (List Nat)) : Job (List Nat) :=
  ⟨plain version, true, ["base", "scaled", "shifted"], ["base", "shifted"], inputs, [("scaled", [3])]⟩

theorem plain_valid (version : String) (hv : version ≠ "collects") : Run.Valid env col impl (plain version) where
  fns := (run_valid version (b := .default) Behavior.noConfusion hv).fns
  kinds := (run_valid version (b := .default) Behavior.noConfusion hv).kinds
  behaviors := (run_valid version (b := .default) Behavior.noConfusion hv).behaviors
  given_nodup := by
    show (["scaled"] : List Name).Nodup
    decide
  args_nodup := by
    intro st hst
    simp only [plain, List.mem_cons, List.not_mem_nil, or_false] at hst
    rcases hst with rfl | rfl <;> simp
  names := by
    intro st hst
    simp only [plain, List.mem_cons, List.not_mem_nil, or_false] at hst
    rcases hst with rfl | rfl
    · intro p hp; cases hp
    · intro p hp
      rw [List.mem_singleton.1 hp]
      decide
  notGiven := by
    intro st hst
    simp only [plain, List.mem_cons, List.not_mem_nil, or_false] at hst
    rcases hst with rfl | rfl <;> rfl
  apart := by
    simp [plain]
  sources := by
    intro st hst p hp
    simp only [plain, List.mem_cons, List.not_mem_nil, or_false] at hst
    rcases hst with rfl | rfl
    · cases hp
    · rw [List.mem_singleton.1 hp]
      exact .inr (.inr (.given rfl))

theorem job_tasks (version : String) (inputs : Dict Name (List Nat)) : ∀ st ∈ (job version inputs).run.steps, st.task = st.name := by
  intro st hst
  simp only [job, plain, List.mem_cons, List.not_mem_nil, or_false] at hst
  rcases hst with rfl | rfl <;> rfl

/-- The cache after the run with the first version. -/
def once : State (List Nat) := (cachedRun env (plain "v1") fresh).2

theorem once_reached : Reached env col impl once := .run (.empty rfl rfl rfl) (plain_valid "v1" (by decide))

/-- Non-vacuity: after the code of `shifted` changed, `base` is taken from the cache and `shifted` is executed. -/
example : (logsOf true (jobLog env (job "v2" []) once)).get? (some "base", none) = some [⟨.getResult, some "base", none⟩] :=
  ((C90_log_partial env_lawful impl_orderFree once_reached (j := job "v2" []) (plain_valid "v2" (by decide))
    (fun _ => job_tasks "v2" []) "base" "base" (fun _ => rfl)).1 ⟨[2], by decide +kernel⟩).2 (by decide +kernel)
example : (logsOf true (jobLog env (job "v2" []) once)).get? (some "shifted", none) = some [⟨.execute, some "shifted", none⟩] :=
  ((C90_log_partial env_lawful impl_orderFree once_reached (j := job "v2" []) (plain_valid "v2" (by decide))
    (fun _ => job_tasks "v2" []) "shifted" "shifted" (fun _ => rfl)).1 ⟨[5], by decide +kernel⟩).1 (by decide +kernel)
/-- With tasks. -/
example : (logsOf true (jobLog env tasks used)).get? (some "total", some "collect-parts") =
    some [⟨.getResult, some "total", some "collect-parts"⟩] :=
  ((C90_log_partial env_lawful impl_orderFree used_reached (j := tasks) (run_valid "v1" (by decide) (by decide))
    (fun h => by cases h) "total" "collect-parts" (fun h => by cases h)).1 ⟨[10], by decide +kernel⟩).2 (by decide +kernel)

/-- Non-vacuity: the picture of that run. -/
example : ∃ w, viewRun (jobLog env (job "v2" []) once) = .ok w ∧ "shifted" ∈ w.finalVars ∧ "scaled" ∈ w.overrides ∧
    w.fromCache "base" = true ∧ w.fromCache "shifted" ≠ true := by
  obtain ⟨w, h1, h2, _, h4, h5⟩ := C90_view_partial env_lawful impl_orderFree once_reached (j := job "v2" [])
    (plain_valid "v2" (by decide)) rfl (job_tasks "v2" [])
  refine ⟨w, h1, (h2 _).2 (by decide), (h4 _).2 (by decide), (h5 _).2 ⟨⟨[2], by decide +kernel⟩, by decide +kernel⟩, ?_⟩
  intro h
  exact ((h5 _).1 h).2 (by decide +kernel)

/-- Non-vacuity: with tasks. -/
example : viewRun (jobLog env tasks used) = .error "ValueError" :=
  C90_view_tasks env_lawful impl_orderFree used_reached (j := tasks) (run_valid "v1" (by decide) (by decide)) rfl
    (n := "report") (t := "report") (v := [11]) (by decide +kernel)

/-- Non-vacuity: two runs at the same time. -/
example : ∃ logs', logAll [("r1", ⟨.execute, some "a", none⟩), ("r2", ⟨.getResult, some "a", none⟩), ("r1", ⟨.execute, some "b", none⟩)]
    [("r1", []), ("r2", [])] = .ok logs' ∧
      logs'.get? "r1" = some [⟨.execute, some "a", none⟩, ⟨.execute, some "b", none⟩] := by
  obtain ⟨logs', h1, h2⟩ := C90_apart
    [("r1", ⟨.execute, some "a", none⟩), ("r2", ⟨.getResult, some "a", none⟩), ("r1", ⟨.execute, some "b", none⟩)]
    [("r1", []), ("r2", [])] (by decide)
  exact ⟨logs', h1, by rw [h2]; decide⟩

/-- C90 as stated does not hold: a node given as input and as override is overridden, but drawn as an input. -/
theorem C90_violated_override : ∃ w, viewRun (jobLog env (job "v1" [("scaled", [4])]) fresh) = .ok w ∧
    "scaled" ∈ (job "v1" [("scaled", [4])]).overrides.keys ∧ "scaled" ∉ w.overrides := by
  obtain ⟨w, h1, _, _, h4, _⟩ := C90_view_partial env_lawful impl_orderFree (.empty rfl rfl rfl) (s := fresh)
    (j := job "v1" [("scaled", [4])]) (plain_valid "v1" (by decide)) rfl (job_tasks "v1" _)
  exact ⟨w, h1, by decide, fun h => ((h4 _).1 h).2 (by decide)⟩

/-- C90 as stated does not hold: `logs()` for all runs at level "info" has no entry for a run in which nothing got a value. -/
theorem C90_violated_missing_run :
    (allLogs true [("r1", jobLog env ⟨⟨flow "v1" .default, [], []⟩, true, ["base"], [], [], []⟩ fresh)]).get? "r1" = none ∧
    (allLogs false [("r1", jobLog env ⟨⟨flow "v1" .default, [], []⟩, true, ["base"], [], [], []⟩ fresh)]).get? "r1" ≠ none := by
  decide +kernel

end Sample

end Verif.TaskCache.Log
