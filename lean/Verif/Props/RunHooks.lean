import Verif.Spec.RunHooks

namespace Verif
variable {G V R σ : Type}

/-! ### C64: hooks around runs, and validators of graphs -/

/-! ### Sample adapters -/

namespace RunSample

/-- A hook that counts its calls. -/
def count : HookFn Nat := fun t => (none, t + 1)

/-- An adapter that implements every hook. -/
def watcher (id : Nat) : RunAdapter String Int Int Nat :=
  { id, preDo := some count, postConstruct := some fun _ => count, pre := some fun _ => count,
    post := some fun _ _ => count, preTask := some fun _ => count, postTask := some fun _ _ _ _ => count }

/-- A result builder: the sum of the outputs, an exception if there are none. -/
def adder : RunAdapter String Int Int Nat :=
  { id := 2, build := some fun d t => (if d.length = 0 then .error "empty" else .ok ((d.map (·.2)).foldl (· + ·) 0), t) }

/-- Validators: no node may be called `tmp`, and the graph may not be called `old`. -/
def checker : RunAdapter String Int Int Nat :=
  { id := 3, validateNode := some fun _ n t => (.ok (n != "tmp", some "temporary"), t),
    validateGraph := some fun g t => (.ok (g != "old", some "outdated"), t) }

/-- The adapters of the examples. -/
def adapters : List (RunAdapter String Int Int Nat) := [watcher 1, adder, checker, watcher 4]

theorem distinct : NoEqualAdapters adapters := by decide

theorem quiet : QuietHooks adapters := by
  constructor <;> intro a ha <;> simp only [adapters, List.mem_cons, List.not_mem_nil, or_false] at ha <;>
    rcases ha with rfl | rfl | rfl | rfl <;> simp [watcher, adder, checker, count]

/-- A run that returns two values. -/
def goodRun : RunBody Int Nat := fun t => (.ok [("a", 1), ("b", (t : Int))], t)

/-- A run that raises. -/
def badRun : RunBody Int Nat := fun t => (.error "boom", t)

/-- A run that is interrupted. -/
def interrupted : RunBody Int Nat := fun t => (.error "KeyboardInterrupt", t)

/-- Which exceptions derive from `Exception`. -/
def ordinary (e : UserErr) : Bool := e != "KeyboardInterrupt"

/-- The names of the nodes of the sample graphs. -/
def nodesOf (g : String) : List Name := if g = "dirty" then ["a", "tmp", "b"] else ["a", "b"]

theorem nodesOf_nodup (g : String) : (nodesOf g).Nodup := by
  unfold nodesOf
  split <;> decide

def call : RunCall String := ⟨"run-1", "dag", ["a", "b"]⟩

def fresh : RunState String Int Int Nat := ⟨[], 0⟩

/-- What happened, who did it, and whether it went well. -/
def shownEvent : RunEvent String Int Int → String × Nat × Bool
  | .preDo a r => ("pre_do", a, r.isNone)
  | .validateNode a n v => ("node " ++ n, a, (v.map (·.1)).getD false)
  | .validateGraph a v => ("graph", a, (v.map (·.1)).getD false)
  | .postConstruct a _ r => ("constructed", a, r.isNone)
  | .pre a _ r => ("pre", a, r.isNone)
  | .post a _ r _ => (match r.error with | none => "post" | some _ => "post with error", a, r.success)
  | .preTask a _ r => ("pre_task", a, r.isNone)
  | .postTask a _ s e _ _ => (match e with | none => "post_task" | some _ => "post_task with error", a, s)
  | .body o => ("run", 0, match o with | .ok _ => true | .error _ => false)
  | .build a o => ("build", a, match o with | .ok _ => true | .error _ => false)

/-- The history of a call. -/
def shown {α : Type} (r : α × RunState String Int Int Nat) : List (String × Nat × Bool) := r.2.log.map shownEvent

/-- The exception of a call. -/
def errOf {α ε : Type} : Except ε α → Option ε
  | .ok _ => none
  | .error e => some e

/-- The value of a call. -/
def valOf {α ε : Type} : Except ε α → Option α
  | .ok v => some v
  | .error _ => none

end RunSample

theorem registered_mem {has : RunAdapter G V R σ → Bool} :
    ∀ (A : List (RunAdapter G V R σ)) (seen : List Nat), ∀ a ∈ registered has seen A, a ∈ A ∧ has a = true
  | [], _, a, h => by simp [registered] at h
  | b :: rest, seen, a, h => by
    rw [registered] at h
    split at h
    · rename_i hc
      rcases List.mem_cons.1 h with h | h
      · subst h; exact ⟨List.mem_cons_self, by simp only [Bool.and_eq_true] at hc; exact hc.1⟩
      · have := registered_mem rest _ a h; exact ⟨List.mem_cons_of_mem _ this.1, this.2⟩
    · have := registered_mem rest _ a h; exact ⟨List.mem_cons_of_mem _ this.1, this.2⟩

theorem registered_filter {has : RunAdapter G V R σ → Bool} :
    ∀ (A : List (RunAdapter G V R σ)) (seen : List Nat), NoEqualAdapters A → (∀ a ∈ A, a.eqKey ∉ seen) →
      registered has seen A = A.filter has
  | [], _, _, _ => rfl
  | b :: rest, seen, hn, hs => by
    have hn' : b.eqKey ∉ rest.map (·.eqKey) ∧ NoEqualAdapters rest := by
      unfold NoEqualAdapters at hn ⊢
      rw [List.map_cons, List.nodup_cons] at hn
      exact hn
    have hb : b.eqKey ∉ seen := hs b List.mem_cons_self
    have hrest : ∀ a ∈ rest, a.eqKey ∉ seen := fun a ha => hs a (List.mem_cons_of_mem _ ha)
    rw [registered, List.filter_cons]
    cases hh : has b with
    | false => simp only [Bool.false_and]; exact registered_filter rest seen hn'.2 hrest
    | true =>
      have hc : seen.contains b.eqKey = false := by
        cases h : seen.contains b.eqKey with
        | false => rfl
        | true => exact absurd (List.contains_iff_mem.1 h) hb
      rw [hc]
      simp only [Bool.not_false, Bool.and_self, if_true]
      rw [registered_filter rest (b.eqKey :: seen) hn'.2]
      intro a ha
      rw [List.mem_cons, not_or]
      exact ⟨fun h => hn'.1 (h ▸ List.mem_map_of_mem ha), hrest a ha⟩

theorem filterMap_isSome {α β γ : Type} (sel : α → Option β) (f : α → γ) (l : List α) :
    (l.filter (fun a => (sel a).isSome)).filterMap (fun a => (sel a).map fun _ => f a)
      = (l.filter (fun a => (sel a).isSome)).map f := by
  induction l with
  | nil => rfl
  | cons a l ih =>
    rw [List.filter_cons]
    cases h : sel a with
    | none => simp only [Option.isSome_none]; exact ih
    | some b => simp only [Option.isSome_some, if_true, List.filterMap_cons, h, Option.map_some, List.map_cons, ih]

/-- The events of the hooks of one kind when none of them raises. -/
theorem hooksOf_events {A : List (RunAdapter G V R σ)} (hA : NoEqualAdapters A)
    (sel : RunAdapter G V R σ → Option (HookFn σ)) (ev : RunAdapter G V R σ → Option UserErr → RunEvent G V R) :
    (hooksOf A sel ev).map (fun h => h.1 none) = (A.filter (fun a => (sel a).isSome)).map (fun a => ev a none) := by
  unfold hooksOf
  rw [registered_filter A [] hA (fun _ _ => List.not_mem_nil), List.map_filterMap]
  rw [← filterMap_isSome sel (fun a => ev a none) A]
  congr 1
  funext a
  cases sel a <;> rfl

theorem hooksOf_mem {A : List (RunAdapter G V R σ)} {sel : RunAdapter G V R σ → Option (HookFn σ)}
    {ev : RunAdapter G V R σ → Option UserErr → RunEvent G V R} {x} (hx : x ∈ hooksOf A sel ev) :
    ∃ a ∈ A, sel a = some x.2 ∧ x.1 = ev a := by
  unfold hooksOf at hx
  rw [List.mem_filterMap] at hx
  obtain ⟨a, ha, h⟩ := hx
  cases hs : sel a with
  | none => rw [hs] at h; cases h
  | some f => rw [hs] at h; cases h; exact ⟨a, (registered_mem A [] a ha).1, hs, rfl⟩

/-- The loop over hooks: all return, or one raises and the rest is not called. -/
theorem callRunHooks_spec (hs : List ((Option UserErr → RunEvent G V R) × HookFn σ)) (s : RunState G V R σ) :
    (∃ s', callRunHooks hs s = (none, s') ∧ s'.log = s.log ++ hs.map (fun h => h.1 none)) ∨
    (∃ done x rest e s' t, hs = done ++ x :: rest ∧ callRunHooks hs s = (some e, s') ∧ (x.2 t).1 = some e ∧
      s'.log = s.log ++ done.map (fun h => h.1 none) ++ [x.1 (some e)]) := by
  induction hs generalizing s with
  | nil => exact .inl ⟨s, rfl, by simp⟩
  | cons x rest ih =>
    obtain ⟨ev, hook⟩ := x
    cases hh : hook s.st with
    | mk o t =>
      cases o with
      | some e =>
        refine .inr ⟨[], (ev, hook), rest, e, ⟨s.log ++ [ev (some e)], t⟩, s.st, rfl, ?_, ?_, by simp⟩
        · rw [callRunHooks, hh]
        · show (hook s.st).1 = some e
          rw [hh]
      | none =>
        have hc : callRunHooks ((ev, hook) :: rest) s = callRunHooks rest ⟨s.log ++ [ev none], t⟩ := by rw [callRunHooks, hh]
        rcases ih ⟨s.log ++ [ev none], t⟩ with ⟨s', h1, h2⟩ | ⟨done, x, r, e, s', t', h1, h2, h3, h4⟩
        · exact .inl ⟨s', hc.trans h1, by rw [h2]; simp⟩
        · refine .inr ⟨(ev, hook) :: done, x, r, e, s', t', by rw [h1]; rfl, hc.trans h2, h3, by rw [h4]; simp⟩

/-- Hooks that return are all called, in order. -/
theorem callRunHooks_quiet {A : List (RunAdapter G V R σ)} (hA : NoEqualAdapters A)
    {sel : RunAdapter G V R σ → Option (HookFn σ)} {ev : RunAdapter G V R σ → Option UserErr → RunEvent G V R}
    (hq : ∀ a ∈ A, ∀ h, sel a = some h → ∀ t, (h t).1 = none) (s : RunState G V R σ) :
    ∃ s', callRunHooks (hooksOf A sel ev) s = (none, s') ∧
      s'.log = s.log ++ (A.filter (fun a => (sel a).isSome)).map (fun a => ev a none) := by
  rcases callRunHooks_spec (hooksOf A sel ev) s with ⟨s', h1, h2⟩ | ⟨done, x, rest, e, s', t, h1, h2, h3, h4⟩
  · exact ⟨s', h1, by rw [h2, hooksOf_events hA]⟩
  · obtain ⟨a, ha, hs, _⟩ := hooksOf_mem (sel := sel) (ev := ev) (x := x) (by rw [h1]; simp)
    rw [hq a ha _ hs t] at h3
    cases h3

theorem isSome_map_fun {α β : Type} (o : Option α) (f : α → β) : (o.map f).isSome = o.isSome := by cases o <;> rfl

theorem callPre_quiet {A : List (RunAdapter G V R σ)} (hA : NoEqualAdapters A) (hq : QuietHooks A) (c : RunCall G)
    (s : RunState G V R σ) : ∃ s', callPre A c s = (none, s') ∧ s'.log = s.log ++ toldBefore A c := by
  obtain ⟨s', h1, h2⟩ := callRunHooks_quiet hA (sel := fun a => a.pre.map (fun h => h c)) (ev := fun a => .pre a.id c)
    (fun a ha h hh t => by
      cases hp : a.pre with
      | none => rw [hp] at hh; cases hh
      | some f => rw [hp] at hh; cases hh; exact hq.pre a ha f hp c t) s
  refine ⟨s', h1, ?_⟩
  rw [h2]
  simp only [isSome_map_fun, toldBefore]

theorem callPost_quiet {A : List (RunAdapter G V R σ)} (hA : NoEqualAdapters A) (hq : QuietHooks A) (i : String)
    (r : RunReport G V R) (s : RunState G V R σ) :
    ∃ s', callPost A i r s = (none, s') ∧ s'.log = s.log ++ toldAfter A i r := by
  obtain ⟨s', h1, h2⟩ := callRunHooks_quiet hA (sel := fun a => a.post.map (fun h => h i r)) (ev := fun a => .post a.id i r)
    (fun a ha h hh t => by
      cases hp : a.post with
      | none => rw [hp] at hh; cases hh
      | some f => rw [hp] at hh; cases hh; exact hq.post a ha f hp i r t) s
  refine ⟨s', h1, ?_⟩
  rw [h2]
  simp only [isSome_map_fun, toldAfter]

theorem callPreTask_quiet {A : List (RunAdapter G V R σ)} (hA : NoEqualAdapters A) (hq : QuietHooks A) (i : String)
    (s : RunState G V R σ) : ∃ s', callPreTask A i s = (none, s') ∧ s'.log = s.log ++ toldBeforeTask A i := by
  obtain ⟨s', h1, h2⟩ := callRunHooks_quiet hA (sel := fun a => a.preTask.map (fun h => h i)) (ev := fun a => .preTask a.id i)
    (fun a ha h hh t => by
      cases hp : a.preTask with
      | none => rw [hp] at hh; cases hh
      | some f => rw [hp] at hh; cases hh; exact hq.preTask a ha f hp i t) s
  refine ⟨s', h1, ?_⟩
  rw [h2]
  simp only [isSome_map_fun, toldBeforeTask]

theorem callPostTask_quiet {A : List (RunAdapter G V R σ)} (hA : NoEqualAdapters A) (hq : QuietHooks A) (i : String)
    (b : Bool) (e : Option RunErr) (r : Option (Dict Name V)) (s : RunState G V R σ) :
    ∃ s', callPostTask A i b e r s = (none, s') ∧ s'.log = s.log ++ toldAfterTask A i b e r := by
  obtain ⟨s', h1, h2⟩ := callRunHooks_quiet hA (sel := fun a => a.postTask.map (fun h => h i b e r))
    (ev := fun a => .postTask a.id i b e r)
    (fun a ha h hh t => by
      cases hp : a.postTask with
      | none => rw [hp] at hh; cases hh
      | some f => rw [hp] at hh; cases hh; exact hq.postTask a ha f hp i b e r t) s
  refine ⟨s', h1, ?_⟩
  rw [h2]
  simp only [isSome_map_fun, toldAfterTask]

theorem callPostConstruct_quiet {A : List (RunAdapter G V R σ)} (hA : NoEqualAdapters A) (hq : QuietHooks A) (g : G)
    (s : RunState G V R σ) : ∃ s', callPostConstruct A g s = (none, s') ∧ s'.log = s.log ++ toldConstructed A g := by
  obtain ⟨s', h1, h2⟩ := callRunHooks_quiet hA (sel := fun a => a.postConstruct.map (fun h => h g))
    (ev := fun a => .postConstruct a.id g)
    (fun a ha h hh t => by
      cases hp : a.postConstruct with
      | none => rw [hp] at hh; cases hh
      | some f => rw [hp] at hh; cases hh; exact hq.postConstruct a ha f hp g t) s
  refine ⟨s', h1, ?_⟩
  rw [h2]
  simp only [isSome_map_fun, toldConstructed]

/-- The builder: the events are those of the builder, the outcome is what it makes of the outputs. -/
theorem callBuild_spec (A : List (RunAdapter G V R σ)) (d : Dict Name V) (s : RunState G V R σ) :
    ∃ evs, (callBuild A d s).1 = builtFrom A d s.st ∧ (callBuild A d s).2.log = s.log ++ evs ∧
      (evs = [] ∨ ∃ i o, evs = [.build i o]) ∧ (A.findSome? (·.build) = none → evs = []) := by
  have key : (A.find? (fun a => a.build.isSome) = none ∧ A.findSome? (·.build) = none) ∨
      (∃ a b, A.find? (fun a => a.build.isSome) = some a ∧ a.build = some b ∧ A.findSome? (·.build) = some b) := by
    induction A with
    | nil => exact .inl ⟨rfl, rfl⟩
    | cons a A ih =>
      cases hb : a.build with
      | none =>
        rcases ih with ⟨h1, h2⟩ | ⟨x, b, h1, h2, h3⟩
        · exact .inl ⟨by rw [List.find?_cons]; simp only [hb, Option.isSome_none]; exact h1,
            by rw [List.findSome?_cons]; simp only [hb]; exact h2⟩
        · exact .inr ⟨x, b, by rw [List.find?_cons]; simp only [hb, Option.isSome_none]; exact h1, h2,
            by rw [List.findSome?_cons]; simp only [hb]; exact h3⟩
      | some b =>
        exact .inr ⟨a, b, by rw [List.find?_cons]; simp only [hb, Option.isSome_some], hb,
          by rw [List.findSome?_cons]; simp only [hb]⟩
  unfold callBuild builtFrom
  rcases key with ⟨h1, h2⟩ | ⟨a, b, h1, h2, h3⟩
  · exact ⟨[], by rw [h1, h2], by rw [h1]; simp, by simp, fun _ => rfl⟩
  · rw [h1, h3]
    simp only [h2]
    cases hb : b d s.st with
    | mk o t =>
      cases o with
      | error e => exact ⟨_, rfl, rfl, .inr ⟨_, _, rfl⟩, by simp⟩
      | ok r => exact ⟨_, rfl, rfl, .inr ⟨_, _, rfl⟩, by simp⟩

theorem callRun_eq (body : RunBody V σ) (s : RunState G V R σ) :
    callRun body s = ((body s.st).1, ⟨s.log ++ [.body (body s.st).1], (body s.st).2⟩) := rfl

/-- The exception as the caller sees it. -/
def liftErr {α : Type} : Except UserErr α → Except RunErr α
  | .ok a => .ok a
  | .error e => .error (.raised e)

/-- C64 (partial: adapters that are pairwise different, hooks that return, and exceptions that derive from `Exception`).
`execute` tells every adapter about the run before anything is computed, computes, builds the result if there is a builder,
and tells every adapter about the end, each exactly once and in the order of the adapters, under the same run id; what the
adapters are told afterwards is what the caller of `execute` gets; and that is what the run gives without any hook in the
world `t` the hooks left. -/
theorem C64_execute_partial (p : UserErr → Bool) {A : List (RunAdapter G V R σ)} (hA : NoEqualAdapters A)
    (hq : QuietHooks A) (c : RunCall G) (body : RunBody V σ)
    (hp : ∀ t e, plainRun A body t = .error e → p e = true) (s : RunState G V R σ) :
    ∃ (t : σ) (build : List (RunEvent G V R)) (r : RunReport G V R),
      (executeRun p A c body s).1 = liftErr (plainRun A body t) ∧
      (executeRun p A c body s).2.log
        = s.log ++ toldBefore A c ++ [.body (body t).1] ++ build ++ toldAfter A c.runId r ∧
      (build = [] ∨ ∃ i o, build = [.build i o]) ∧
      Tells r c.graph (executeRun p A c body s).1 := by
  obtain ⟨s1, h1, l1⟩ := callPre_quiet hA hq c s
  refine ⟨s1.st, ?_⟩
  have hp1 := hp s1.st
  unfold plainRun at hp1 ⊢
  unfold executeRun
  rw [h1]
  simp only [callRun_eq]
  cases hb : body s1.st with
  | mk o t2 =>
    rw [hb] at hp1
    cases o with
    | error e =>
      simp only [finishRun]
      obtain ⟨s3, h3, l3⟩ := callPost_quiet hA hq c.runId (failureReport p c.graph e none) ⟨s1.log ++ [.body (.error e)], t2⟩
      rw [h3]
      refine ⟨[], failureReport p c.graph e none, rfl, by rw [l3, l1]; simp, .inl rfl, ?_⟩
      simp only [failureReport, hp1 e rfl, if_true]
      exact ⟨rfl, rfl, rfl⟩
    | ok d =>
      obtain ⟨evs, hv, hl, hw, _⟩ := callBuild_spec A d (⟨s1.log ++ [.body (.ok d)], t2⟩ : RunState G V R σ)
      cases hc : callBuild A d (⟨s1.log ++ [.body (.ok d)], t2⟩ : RunState G V R σ) with
      | mk o s2 =>
        rw [hc] at hv hl
        simp only at hv hl
        simp only at hp1
        simp only
        rw [← hv] at hp1 ⊢
        cases o with
        | error e =>
          simp only [hc, finishRun]
          obtain ⟨s3, h3, l3⟩ := callPost_quiet hA hq c.runId (failureReport p c.graph e (some (.dict d))) s2
          rw [h3]
          refine ⟨evs, failureReport p c.graph e (some (.dict d)), rfl, by rw [l3, hl, l1], hw, ?_⟩
          simp only [failureReport, hp1 e rfl, if_true]
          exact ⟨rfl, rfl, rfl⟩
        | ok v =>
          simp only [hc, finishRun]
          obtain ⟨s3, h3, l3⟩ := callPost_quiet hA hq c.runId ⟨c.graph, true, none, some v⟩ s2
          rw [h3]
          exact ⟨evs, ⟨c.graph, true, none, some v⟩, rfl, by rw [l3, hl, l1], hw, rfl, rfl, rfl, rfl⟩

open RunSample in
/-- A run with two watchers and a result builder. -/
example : shown (executeRun ordinary adapters call goodRun fresh)
      = [("pre", 1, true), ("pre", 4, true), ("run", 0, true), ("build", 2, true), ("post", 1, true), ("post", 4, true)] ∧
    valOf (executeRun ordinary adapters call goodRun fresh).1 = some (.built 3) := by decide +kernel

open RunSample in
/-- The theorem applies to a run that fails. -/
example := C64_execute_partial (fun _ => true) distinct quiet call badRun (fun _ _ _ => rfl) fresh

open RunSample in
example : shown (executeRun ordinary adapters call badRun fresh)
    = [("pre", 1, true), ("pre", 4, true), ("run", 0, false), ("post with error", 1, false), ("post with error", 4, false)] := by
  decide +kernel

/-- Hooks that all returned were all called, in order. -/
theorem callRunHooks_none {A : List (RunAdapter G V R σ)} (hA : NoEqualAdapters A)
    {sel : RunAdapter G V R σ → Option (HookFn σ)} {ev : RunAdapter G V R σ → Option UserErr → RunEvent G V R}
    {s s' : RunState G V R σ} (h : callRunHooks (hooksOf A sel ev) s = (none, s')) :
    s'.log = s.log ++ (A.filter (fun a => (sel a).isSome)).map (fun a => ev a none) := by
  rcases callRunHooks_spec (hooksOf A sel ev) s with ⟨s1, h1, h2⟩ | ⟨done, x, rest, e, s1, t, h1, h2, h3, h4⟩
  · rw [h1] at h; cases h; rw [h2, hooksOf_events hA]
  · rw [h2] at h; cases h

/-- A hook that raised: the ones before it returned, and nothing else happened. -/
theorem callRunHooks_some {A : List (RunAdapter G V R σ)}
    {sel : RunAdapter G V R σ → Option (HookFn σ)} {ev : RunAdapter G V R σ → Option UserErr → RunEvent G V R}
    {s s' : RunState G V R σ} {u : UserErr} (h : callRunHooks (hooksOf A sel ev) s = (some u, s')) :
    ∃ a ∈ A, ∃ hook t, sel a = some hook ∧ (hook t).1 = some u ∧
      ∃ before, s'.log = s.log ++ before ++ [ev a (some u)] ∧ ∀ x ∈ before, ∃ b ∈ A, x = ev b none := by
  rcases callRunHooks_spec (hooksOf A sel ev) s with ⟨s1, h1, h2⟩ | ⟨done, x, rest, e, s1, t, h1, h2, h3, h4⟩
  · rw [h1] at h; cases h
  · rw [h2] at h; cases h
    obtain ⟨a, ha, hs, he⟩ := hooksOf_mem (A := A) (sel := sel) (ev := ev) (x := x) (by rw [h1]; simp)
    refine ⟨a, ha, x.2, t, hs, h3, done.map (fun h => h.1 none), by rw [h4, he], ?_⟩
    intro y hy
    obtain ⟨z, hz, hzy⟩ := List.mem_map.1 hy
    obtain ⟨b, hb, _, hb2⟩ := hooksOf_mem (A := A) (sel := sel) (ev := ev) (x := z) (by rw [h1]; simp [hz])
    exact ⟨b, hb, by rw [← hzy, hb2]⟩

theorem callPre_none {A : List (RunAdapter G V R σ)} (hA : NoEqualAdapters A) {c : RunCall G} {s s' : RunState G V R σ}
    (h : callPre A c s = (none, s')) : s'.log = s.log ++ toldBefore A c := by
  rw [callRunHooks_none hA h]; simp only [isSome_map_fun, toldBefore]

theorem callPost_none {A : List (RunAdapter G V R σ)} (hA : NoEqualAdapters A) {i : String} {r : RunReport G V R}
    {s s' : RunState G V R σ} (h : callPost A i r s = (none, s')) : s'.log = s.log ++ toldAfter A i r := by
  rw [callRunHooks_none hA h]; simp only [isSome_map_fun, toldAfter]

theorem callPostConstruct_none {A : List (RunAdapter G V R σ)} (hA : NoEqualAdapters A) {g : G}
    {s s' : RunState G V R σ} (h : callPostConstruct A g s = (none, s')) : s'.log = s.log ++ toldConstructed A g := by
  rw [callRunHooks_none hA h]; simp only [isSome_map_fun, toldConstructed]

theorem callPreDo_none {A : List (RunAdapter G V R σ)} (hA : NoEqualAdapters A)
    {s s' : RunState G V R σ} (h : callPreDo A s = (none, s')) : s'.log = s.log ++ toldFirst A :=
  callRunHooks_none hA h

/-- How the `finally` block ends. -/
theorem finishRun_cases {α : Type} {A : List (RunAdapter G V R σ)} (hA : NoEqualAdapters A) (i : String)
    (r : RunReport G V R) (out : Except RunErr α) (s : RunState G V R σ) :
    ((finishRun A i r out s).1 = out ∧ (finishRun A i r out s).2.log = s.log ++ toldAfter A i r) ∨
    (∃ u, (finishRun A i r out s).1 = .error (.raised u) ∧ ∃ a ∈ A, ∃ hook t, a.post = some hook ∧ (hook i r t).1 = some u ∧
      ∃ before, (finishRun A i r out s).2.log = s.log ++ before ++ [.post a.id i r (some u)] ∧
        ∀ x ∈ before, ∃ b ∈ A, x = .post b.id i r none) := by
  unfold finishRun
  cases h : callPost A i r s with
  | mk o s' =>
    cases o with
    | none => exact .inl ⟨rfl, callPost_none hA h⟩
    | some u =>
      refine .inr ⟨u, rfl, ?_⟩
      obtain ⟨a, ha, hook, t, hs, hr, before, hl, hb⟩ := callRunHooks_some h
      cases hp : a.post with
      | none => rw [hp] at hs; cases hs
      | some f => rw [hp] at hs; cases hs; exact ⟨a, ha, f, t, hp, hr, before, hl, hb⟩

/-- C64. When `execute` returns, whatever the hooks do: every adapter was told before and after, in order, once each, with
success and the very value that is returned; and the value is what the run gives without hooks in the world `t`. -/
theorem C64_returns_partial (p : UserErr → Bool) {A : List (RunAdapter G V R σ)} (hA : NoEqualAdapters A) (c : RunCall G)
    (body : RunBody V σ) {s s' : RunState G V R σ} {v : RunResult V R} (h : executeRun p A c body s = (.ok v, s')) :
    ∃ (t : σ) (d : Dict Name V) (build : List (RunEvent G V R)), (body t).1 = .ok d ∧ plainRun A body t = .ok v ∧
      (build = [] ∨ ∃ i o, build = [.build i o]) ∧
      s'.log = s.log ++ toldBefore A c ++ [.body (.ok d)] ++ build ++ toldAfter A c.runId ⟨c.graph, true, none, some v⟩ := by
  unfold executeRun at h
  cases h1 : callPre A c s with
  | mk o s1 =>
    rw [h1] at h
    cases o with
    | some e => cases h
    | none =>
      simp only [callRun_eq] at h
      cases hb : body s1.st with
      | mk o t2 =>
        rw [hb] at h
        cases o with
        | error e =>
          simp only at h
          rcases finishRun_cases hA c.runId (failureReport p c.graph e none) (.error (.raised e) : Except RunErr (RunResult V R))
            ⟨s1.log ++ [.body (.error e)], t2⟩ with ⟨k, _⟩ | ⟨u, k, _⟩
          · rw [h] at k; cases k
          · rw [h] at k; cases k
        | ok d =>
          simp only at h
          obtain ⟨evs, hv, hl, hw, _⟩ := callBuild_spec A d (⟨s1.log ++ [.body (.ok d)], t2⟩ : RunState G V R σ)
          cases hc : callBuild A d (⟨s1.log ++ [.body (.ok d)], t2⟩ : RunState G V R σ) with
          | mk o s2 =>
            rw [hc] at h hv hl
            cases o with
            | error e =>
              simp only at h
              rcases finishRun_cases hA c.runId (failureReport p c.graph e (some (.dict d)))
                (.error (.raised e) : Except RunErr (RunResult V R)) s2 with ⟨k, _⟩ | ⟨u, k, _⟩
              · rw [h] at k; cases k
              · rw [h] at k; cases k
            | ok w =>
              simp only at h hv hl
              rcases finishRun_cases hA c.runId ⟨c.graph, true, none, some w⟩ (.ok w) s2 with ⟨k, kl⟩ | ⟨u, k, _⟩
              · rw [h] at k kl
                cases k
                refine ⟨s1.st, d, evs, by rw [hb], ?_, hw, ?_⟩
                · rw [plainRun, hb]; exact hv.symm
                · rw [kl, hl, callPre_none hA h1]
              · rw [h] at k; cases k

open RunSample in
/-- A run that returns, with adapters one of which may raise in its hook: the hook of this one does not like failures. -/
example : valOf (executeRun ordinary
    (adapters ++ [{ id := 9, post := some fun _ r t => (if r.success then none else some "bad", t) }]) call goodRun fresh).1
      = some (.built 3) := by decide +kernel

/-- C64. When `execute` raises, the exception comes from where the history says: a `pre_graph_execute` hook, and then nothing
was computed and no adapter is told about the end; or the run or the builder, and then every adapter is told about the end,
truthfully if the exception derives from `Exception`; or a `post_graph_execute` hook. -/
theorem C64_raises_partial (p : UserErr → Bool) {A : List (RunAdapter G V R σ)} (hA : NoEqualAdapters A) (c : RunCall G)
    (body : RunBody V σ) {s s' : RunState G V R σ} {e : RunErr} (h : executeRun p A c body s = (.error e, s')) :
    ∃ u, e = .raised u ∧
      ((∃ a ∈ A, ∃ hook t, a.pre = some hook ∧ (hook c t).1 = some u ∧
          ∃ before, s'.log = s.log ++ before ++ [.pre a.id c (some u)] ∧ ∀ x ∈ before, ∃ b ∈ A, x = .pre b.id c none) ∨
        (∃ t build r, plainRun A body t = .error u ∧ (build = [] ∨ ∃ i o, build = [.build i o]) ∧
          s'.log = s.log ++ toldBefore A c ++ [.body (body t).1] ++ build ++ toldAfter A c.runId r ∧
          (p u = true → Tells r c.graph (.error e))) ∨
        (∃ a ∈ A, ∃ hook r t, a.post = some hook ∧ (hook c.runId r t).1 = some u ∧
          ∃ before, s'.log = before ++ [.post a.id c.runId r (some u)])) := by
  unfold executeRun at h
  cases h1 : callPre A c s with
  | mk o s1 =>
    rw [h1] at h
    cases o with
    | some u =>
      cases h
      refine ⟨u, rfl, .inl ?_⟩
      obtain ⟨a, ha, hook, t, hs, hr, before, hl, hb⟩ := callRunHooks_some h1
      cases hp : a.pre with
      | none => rw [hp] at hs; cases hs
      | some f => rw [hp] at hs; cases hs; exact ⟨a, ha, f, t, hp, hr, before, hl, hb⟩
    | none =>
      have l1 := callPre_none hA h1
      simp only [callRun_eq] at h
      cases hb : body s1.st with
      | mk o t2 =>
        rw [hb] at h
        cases o with
        | error u =>
          simp only at h
          rcases finishRun_cases hA c.runId (failureReport p c.graph u none) (.error (.raised u) : Except RunErr (RunResult V R))
            ⟨s1.log ++ [.body (.error u)], t2⟩ with ⟨k, kl⟩ | ⟨u', k, a, ha, hook, t, hs, hr, before, hl, _⟩
          · rw [h] at k kl
            cases k
            refine ⟨u, rfl, .inr (.inl ⟨s1.st, [], failureReport p c.graph u none, ?_, .inl rfl, ?_, ?_⟩)⟩
            · rw [plainRun, hb]
            · rw [kl, l1, hb]; simp
            · intro hp; simp only [failureReport, hp, if_true]; exact ⟨rfl, rfl, rfl⟩
          · rw [h] at k hl
            cases k
            exact ⟨u', rfl, .inr (.inr ⟨a, ha, hook, _, t, hs, hr, _, hl⟩)⟩
        | ok d =>
          simp only at h
          obtain ⟨evs, hv, hl, hw, _⟩ := callBuild_spec A d (⟨s1.log ++ [.body (.ok d)], t2⟩ : RunState G V R σ)
          cases hc : callBuild A d (⟨s1.log ++ [.body (.ok d)], t2⟩ : RunState G V R σ) with
          | mk o s2 =>
            rw [hc] at h hv hl
            cases o with
            | error u =>
              simp only at h hv hl
              rcases finishRun_cases hA c.runId (failureReport p c.graph u (some (.dict d)))
                (.error (.raised u) : Except RunErr (RunResult V R)) s2 with
                ⟨k, kl⟩ | ⟨u', k, a, ha, hook, t, hs, hr, before, hl, _⟩
              · rw [h] at k kl
                cases k
                refine ⟨u, rfl, .inr (.inl ⟨s1.st, evs, failureReport p c.graph u (some (.dict d)), ?_, hw, ?_, ?_⟩)⟩
                · rw [plainRun, hb]; exact hv.symm
                · rw [kl, hl, l1, hb]
                · intro hp; simp only [failureReport, hp, if_true]; exact ⟨rfl, rfl, rfl⟩
              · rw [h] at k hl
                cases k
                exact ⟨u', rfl, .inr (.inr ⟨a, ha, hook, _, t, hs, hr, _, hl⟩)⟩
            | ok w =>
              simp only at h hv hl
              rcases finishRun_cases hA c.runId ⟨c.graph, true, none, some w⟩ (.ok w) s2 with
                ⟨k, kl⟩ | ⟨u', k, a, ha, hook, t, hs, hr, before, hl, _⟩
              · rw [h] at k; cases k
              · rw [h] at k hl
                cases k
                exact ⟨u', rfl, .inr (.inr ⟨a, ha, hook, _, t, hs, hr, _, hl⟩)⟩

open RunSample in
/-- The three ways to fail: a hook before, the run, a hook after. -/
example : errOf (executeRun ordinary [{ id := 5, pre := some fun _ t => (some "early", t) }, watcher 1] call goodRun fresh).1
      = some (.raised "early") ∧
    errOf (executeRun ordinary adapters call badRun fresh).1 = some (.raised "boom") ∧
    errOf (executeRun ordinary [watcher 1, { id := 6, post := some fun _ _ t => (some "late", t) }] call goodRun fresh).1
      = some (.raised "late") := by decide +kernel

/-- C64 for `raw_execute` and for the asynchronous driver (partial: adapters that are pairwise different, hooks that return).
What is said after the run is right for every exception, also `KeyboardInterrupt`, except that only those deriving from
`Exception` are handed over. -/
theorem C64_raw_execute_partial (p : UserErr → Bool) {A : List (RunAdapter G V R σ)} (hA : NoEqualAdapters A)
    (hq : QuietHooks A) (c : RunCall G) (body : RunBody V σ) (s : RunState G V R σ) :
    ∃ (t : σ) (r : RunReport G V R),
      (rawExecuteRun p A c body s).1 = liftErr (body t).1 ∧
      (rawExecuteRun p A c body s).2.log
        = s.log ++ toldBefore A c ++ [.body (body t).1] ++ toldAfter A c.runId r ∧
      r.graph = c.graph ∧
      (∀ d, (body t).1 = .ok d → r.success = true ∧ r.error = none ∧ r.results = some (.dict d)) ∧
      (∀ e, (body t).1 = .error e → r.success = false ∧ r.results = none ∧ (p e = true → r.error = some (.raised e))) := by
  obtain ⟨s1, h1, l1⟩ := callPre_quiet hA hq c s
  refine ⟨s1.st, ?_⟩
  unfold rawExecuteRun
  rw [h1]
  simp only [callRun_eq]
  cases hb : body s1.st with
  | mk o t2 =>
    cases o with
    | error e =>
      simp only [finishRun]
      obtain ⟨s3, h3, l3⟩ := callPost_quiet hA hq c.runId (rawFailureReport p c.graph e) ⟨s1.log ++ [.body (.error e)], t2⟩
      rw [h3]
      refine ⟨rawFailureReport p c.graph e, rfl, by rw [l3, l1], rfl, fun d hd => by simp at hd, fun e' he => ?_⟩
      cases he
      refine ⟨rfl, rfl, fun hp => ?_⟩
      simp only [rawFailureReport, hp, if_true]
    | ok d =>
      simp only [finishRun]
      obtain ⟨s3, h3, l3⟩ := callPost_quiet hA hq c.runId ⟨c.graph, true, none, some (.dict d)⟩
        ⟨s1.log ++ [.body (.ok d)], t2⟩
      rw [h3]
      refine ⟨⟨c.graph, true, none, some (.dict d)⟩, rfl, by rw [l3, l1], rfl, fun d' hd => ?_, fun e he => by simp at he⟩
      cases hd
      exact ⟨rfl, rfl, rfl⟩

open RunSample in
example := C64_raw_execute_partial ordinary distinct quiet call interrupted fresh

open RunSample in
/-- `raw_execute` reports an interrupted run as failed, without the exception. -/
example : shown (rawExecuteRun ordinary adapters call interrupted fresh)
    = [("pre", 1, true), ("pre", 4, true), ("run", 0, false), ("post", 1, false), ("post", 4, false)] := by decide +kernel

/-- C64 for the asynchronous `execute` (partial: as above): it returns what the run gives without hooks, and the adapters
are told about the outcome of the computation, before the result is built. -/
theorem C64_async_partial (p : UserErr → Bool) {A : List (RunAdapter G V R σ)} (hA : NoEqualAdapters A)
    (hq : QuietHooks A) (c : RunCall G) (body : RunBody V σ) (s : RunState G V R σ) :
    ∃ (t t' : σ) (r : RunReport G V R) (build : List (RunEvent G V R)),
      (asyncExecuteRun p A c body s).1
        = liftErr (match (body t).1 with | .error e => .error e | .ok d => builtFrom A d t') ∧
      (asyncExecuteRun p A c body s).2.log
        = s.log ++ toldBefore A c ++ [.body (body t).1] ++ toldAfter A c.runId r ++ build ∧
      (build = [] ∨ ∃ i o, build = [.build i o]) ∧
      (∀ d, (body t).1 = .ok d → r.success = true ∧ r.error = none ∧ r.results = some (.dict d)) ∧
      (∀ e, (body t).1 = .error e → r.success = false ∧ r.results = none ∧ (p e = true → r.error = some (.raised e))) := by
  obtain ⟨t, r, h1, h2, _, h3, h4⟩ := C64_raw_execute_partial p hA hq c body s
  cases hr : rawExecuteRun p A c body s with
  | mk o s1 =>
    rw [hr] at h1 h2
    simp only at h1 h2
    refine ⟨t, s1.st, r, ?_⟩
    unfold asyncExecuteRun
    rw [hr]
    cases hb : (body t).1 with
    | error e =>
      rw [hb] at h1
      cases o with
      | ok d => cases h1
      | error e' =>
        refine ⟨[], ?_, by rw [h2, hb]; simp, .inl rfl, hb ▸ h3, hb ▸ h4⟩
        cases h1
        rfl
    | ok d =>
      rw [hb] at h1
      cases o with
      | error e' => cases h1
      | ok d' =>
        cases h1
        obtain ⟨evs, hv, hl, hw, _⟩ := callBuild_spec A d s1
        cases hc : callBuild A d s1 with
        | mk o s2 =>
          rw [hc] at hv hl
          simp only at hv hl
          simp only [hc, ← hv]
          cases o with
          | error e => exact ⟨evs, rfl, by rw [hl, h2, hb], hw, hb ▸ h3, hb ▸ h4⟩
          | ok v => exact ⟨evs, rfl, by rw [hl, h2, hb], hw, hb ▸ h3, hb ▸ h4⟩

open RunSample in
example : shown (asyncExecuteRun ordinary adapters call goodRun fresh)
    = [("pre", 1, true), ("pre", 4, true), ("run", 0, true), ("post", 1, true), ("post", 4, true), ("build", 2, true)] := by
  decide +kernel

/-- C64 for the tasks of the task-based executor (partial: adapters that are pairwise different, hooks that return,
exceptions that derive from `Exception`). -/
theorem C64_task_partial (p : UserErr → Bool) {A : List (RunAdapter G V R σ)} (hA : NoEqualAdapters A)
    (hq : QuietHooks A) (task : String) (keep : Name → Bool) (body : RunBody V σ)
    (hp : ∀ t e, (body t).1 = .error e → p e = true) (s : RunState G V R σ) :
    ∃ (t : σ),
      (∀ d, (body t).1 = .ok d →
        (executeTaskRun p A task keep body s).1 = .ok (d.filter (fun kv => keep kv.1)) ∧
        (executeTaskRun p A task keep body s).2.log = s.log ++ toldBeforeTask A task ++ [.body (.ok d)]
          ++ toldAfterTask A task true none (some d)) ∧
      (∀ e, (body t).1 = .error e →
        (executeTaskRun p A task keep body s).1 = .error (.raised e) ∧
        (executeTaskRun p A task keep body s).2.log = s.log ++ toldBeforeTask A task ++ [.body (.error e)]
          ++ toldAfterTask A task false (some (.raised e)) none) := by
  obtain ⟨s1, h1, l1⟩ := callPreTask_quiet hA hq task s
  refine ⟨s1.st, ?_⟩
  have hp1 := hp s1.st
  unfold executeTaskRun
  rw [h1]
  simp only [callRun_eq]
  cases hb : body s1.st with
  | mk o t2 =>
    rw [hb] at hp1
    cases o with
    | error e =>
      refine ⟨fun d hd => by simp at hd, fun e' he => ?_⟩
      cases he
      simp only [hp1 e rfl, if_true, finishTaskRun]
      obtain ⟨s3, h3, l3⟩ := callPostTask_quiet hA hq task false (some (.raised e)) none ⟨s1.log ++ [.body (.error e)], t2⟩
      rw [h3]
      exact ⟨rfl, by rw [l3, l1]⟩
    | ok d =>
      refine ⟨fun d' hd => ?_, fun e he => by simp at he⟩
      cases hd
      simp only [finishTaskRun]
      obtain ⟨s3, h3, l3⟩ := callPostTask_quiet hA hq task true none (some d) ⟨s1.log ++ [.body (.ok d)], t2⟩
      rw [h3]
      exact ⟨rfl, by rw [l3, l1]⟩

open RunSample in
example : shown (executeTaskRun ordinary adapters "t" (· == "a") goodRun fresh)
      = [("pre_task", 1, true), ("pre_task", 4, true), ("run", 0, true), ("post_task", 1, true), ("post_task", 4, true)] ∧
    valOf (executeTaskRun ordinary adapters "t" (· == "a") goodRun fresh).1 = some [("a", 1)] := by decide +kernel

/-! #### Validators -/

/-- One round of validators: without an exception everybody was asked, and the messages are those of the rejections. -/
theorem callValidators_spec (vs : List ((Option (Bool × Option String) → RunEvent G V R) × ValidatorFn σ))
    (s : RunState G V R σ) :
    ∃ L, (callValidators vs s).2.log = s.log ++ L ∧
      (∀ ev ∈ L, ∃ v ∈ vs, ∃ o, ev = v.1 o) ∧
      (∀ ms, (callValidators vs s).1 = .ok ms → ∃ outs : List (Bool × Option String),
        L = List.zipWith (fun v o => v.1 (some o)) vs outs ∧ outs.length = vs.length ∧
        ms = (outs.filter (fun o => !o.1)).map (·.2)) ∧
      (∀ e, (callValidators vs s).1 = .error e → ∃ v ∈ vs, v.1 none ∈ L ∧ ∃ t, (v.2 t).1 = .error e) := by
  induction vs generalizing s with
  | nil =>
    refine ⟨[], by simp [callValidators], by simp, fun ms h => ⟨[], rfl, rfl, ?_⟩, fun e h => by simp [callValidators] at h⟩
    simp only [callValidators] at h
    cases h
    rfl
  | cons v rest ih =>
    obtain ⟨ev, f⟩ := v
    rw [callValidators]
    cases hf : f s.st with
    | mk o t =>
      cases o with
      | error e =>
        refine ⟨[ev none], rfl, ?_, fun ms h => by simp at h, fun e' h => ?_⟩
        · intro x hx
          exact ⟨(ev, f), List.mem_cons_self, none, by simpa using hx⟩
        · cases h
          exact ⟨(ev, f), List.mem_cons_self, by simp, s.st, by simp only [hf]⟩
      | ok vm =>
        obtain ⟨valid, msg⟩ := vm
        simp only
        obtain ⟨L, h1, h2, h3, h4⟩ := ih ⟨s.log ++ [ev (some (valid, msg))], t⟩
        cases hc : callValidators rest ⟨s.log ++ [ev (some (valid, msg))], t⟩ with
        | mk o s' =>
          rw [hc] at h1 h3 h4
          have hmem : ∀ x ∈ ev (some (valid, msg)) :: L, ∃ v ∈ (ev, f) :: rest, ∃ o, x = v.1 o := by
            intro x hx
            rcases List.mem_cons.1 hx with hx | hx
            · exact ⟨(ev, f), List.mem_cons_self, _, hx⟩
            · obtain ⟨v, hv, o, ho⟩ := h2 x hx
              exact ⟨v, List.mem_cons_of_mem _ hv, o, ho⟩
          cases o with
          | error e =>
            refine ⟨ev (some (valid, msg)) :: L, by simp only; rw [h1]; simp, hmem, fun ms h => by simp at h, fun e' h => ?_⟩
            cases h
            obtain ⟨v, hv, hn, ht⟩ := h4 e rfl
            exact ⟨v, List.mem_cons_of_mem _ hv, List.mem_cons_of_mem _ hn, ht⟩
          | ok ms =>
            refine ⟨ev (some (valid, msg)) :: L, by simp only; rw [h1]; simp, hmem, fun ms' h => ?_, fun e' h => by simp at h⟩
            obtain ⟨outs, k1, k2, k3⟩ := h3 ms rfl
            cases h
            refine ⟨(valid, msg) :: outs, by rw [k1]; rfl, by simp [k2], ?_⟩
            cases valid <;> simp [k3]

theorem rejections_append (n : Name) (L M : List (RunEvent G V R)) :
    rejections n (L ++ M) = rejections n L ++ rejections n M := List.filterMap_append

theorem graphRejections_append (L M : List (RunEvent G V R)) :
    graphRejections (L ++ M) = graphRejections L ++ graphRejections M := List.filterMap_append

theorem rejections_node_cons (n : Name) (i : Nat) (m : Name) (o : Bool × Option String) (L : List (RunEvent G V R)) :
    rejections n (.validateNode i m (some o) :: L)
      = (if o.1 = false ∧ m = n then [o.2] else []) ++ rejections n L := by
  obtain ⟨b, msg⟩ := o
  cases b with
  | true => simp [rejections]; rfl
  | false => by_cases h : m = n <;> simp [rejections, rejection, h]

theorem rejections_none_cons (n : Name) (i : Nat) (m : Name) (L : List (RunEvent G V R)) :
    rejections n (.validateNode i m none :: L) = rejections n L := rfl

theorem graphRejections_graph_cons (i : Nat) (o : Bool × Option String) (L : List (RunEvent G V R)) :
    graphRejections (.validateGraph i (some o) :: L) = (if o.1 = false then [o.2] else []) ++ graphRejections L := by
  obtain ⟨b, msg⟩ := o
  cases b <;> simp [graphRejections] <;> rfl

theorem rejections_graph (n : Name) (L : List (RunEvent G V R)) (h : ∀ ev ∈ L, ∃ i o, ev = .validateGraph i o) :
    rejections n L = [] := by
  rw [rejections, List.filterMap_eq_nil_iff]
  intro ev hev
  obtain ⟨i, o, hx⟩ := h ev hev
  rw [hx]; rfl

theorem graphRejections_node (L : List (RunEvent G V R)) (h : ∀ ev ∈ L, ∃ i n o, ev = .validateNode i n o) :
    graphRejections L = [] := by
  rw [graphRejections, List.filterMap_eq_nil_iff]
  intro ev hev
  obtain ⟨i, n, o, hx⟩ := h ev hev
  rw [hx]; rfl

theorem zip_rejections (n : Name) : ∀ (vs : List ((Option (Bool × Option String) → RunEvent G V R) × ValidatorFn σ))
    (outs : List (Bool × Option String)), outs.length = vs.length → (∀ v ∈ vs, ∃ i, v.1 = fun o => .validateNode i n o) →
    rejections n (List.zipWith (fun v o => v.1 (some o)) vs outs) = (outs.filter (fun o => !o.1)).map (·.2)
  | [], [], _, _ => rfl
  | [], _ :: _, h, _ => by simp at h
  | _ :: _, [], h, _ => by simp at h
  | v :: vs, o :: outs, h, hv => by
    obtain ⟨i, hi⟩ := hv v List.mem_cons_self
    rw [List.zipWith_cons_cons, hi]
    simp only
    rw [rejections_node_cons, zip_rejections n vs outs (by simpa using h) (fun w hw => hv w (List.mem_cons_of_mem _ hw))]
    obtain ⟨b, msg⟩ := o
    cases b <;> simp

theorem zip_rejections_ne {n m : Name} (hne : m ≠ n) (vs : List ((Option (Bool × Option String) → RunEvent G V R) × ValidatorFn σ))
    (L : List (RunEvent G V R)) (hL : ∀ ev ∈ L, ∃ v ∈ vs, ∃ o, ev = v.1 o) (hv : ∀ v ∈ vs, ∃ i, v.1 = fun o => .validateNode i m o) :
    rejections n L = [] := by
  induction L with
  | nil => rfl
  | cons x L ih =>
    obtain ⟨v, hvm, o, hx⟩ := hL x List.mem_cons_self
    obtain ⟨i, hi⟩ := hv v hvm
    rw [hi] at hx
    subst hx
    have ih' := ih (fun ev hev => hL ev (List.mem_cons_of_mem _ hev))
    cases o with
    | none => rw [rejections_none_cons]; exact ih'
    | some o => rw [rejections_node_cons, ih']; simp [hne]

theorem zip_graphRejections : ∀ (vs : List ((Option (Bool × Option String) → RunEvent G V R) × ValidatorFn σ))
    (outs : List (Bool × Option String)), outs.length = vs.length → (∀ v ∈ vs, ∃ i, v.1 = fun o => .validateGraph i o) →
    graphRejections (List.zipWith (fun v o => v.1 (some o)) vs outs) = (outs.filter (fun o => !o.1)).map (·.2)
  | [], [], _, _ => rfl
  | [], _ :: _, h, _ => by simp at h
  | _ :: _, [], h, _ => by simp at h
  | v :: vs, o :: outs, h, hv => by
    obtain ⟨i, hi⟩ := hv v List.mem_cons_self
    rw [List.zipWith_cons_cons, hi]
    simp only
    rw [graphRejections_graph_cons, zip_graphRejections vs outs (by simpa using h) (fun w hw => hv w (List.mem_cons_of_mem _ hw))]
    obtain ⟨b, msg⟩ := o
    cases b <;> simp

/-- When nobody rejects, everybody is on record as having accepted. -/
theorem zip_judged : ∀ (vs : List ((Option (Bool × Option String) → RunEvent G V R) × ValidatorFn σ))
    (outs : List (Bool × Option String)), outs.length = vs.length → (outs.filter (fun o => !o.1)).map (·.2) = [] →
    (∀ v ∈ vs, ∀ b m, judged (v.1 (some (b, m))) = judged (v.1 (some (b, none)))) →
    (List.zipWith (fun v o => v.1 (some o)) vs outs).map judged = vs.map (fun v => judged (v.1 (some (true, none))))
  | [], [], _, _, _ => rfl
  | [], _ :: _, h, _, _ => by simp at h
  | _ :: _, [], h, _, _ => by simp at h
  | v :: vs, o :: outs, h, ho, hv => by
    obtain ⟨b, msg⟩ := o
    cases b with
    | false => simp at ho
    | true =>
      rw [List.zipWith_cons_cons, List.map_cons, List.map_cons, hv v List.mem_cons_self,
        zip_judged vs outs (by simpa using h) (by simpa using ho) (fun w hw => hv w (List.mem_cons_of_mem _ hw))]

theorem validatorsOf_map {α : Type} {A : List (RunAdapter G V R σ)} (hA : NoEqualAdapters A)
    (sel : RunAdapter G V R σ → Option (ValidatorFn σ))
    (ev : RunAdapter G V R σ → Option (Bool × Option String) → RunEvent G V R)
    (f : (Option (Bool × Option String) → RunEvent G V R) → α) :
    (validatorsOf A sel ev).map (fun v => f v.1) = (A.filter (fun a => (sel a).isSome)).map (fun a => f (ev a)) := by
  unfold validatorsOf
  rw [registered_filter A [] hA (fun _ _ => List.not_mem_nil), List.map_filterMap]
  rw [← filterMap_isSome sel (fun a => f (ev a)) A]
  congr 1
  funext a
  cases sel a <;> rfl

theorem validatorsOf_mem {A : List (RunAdapter G V R σ)} {sel : RunAdapter G V R σ → Option (ValidatorFn σ)}
    {ev : RunAdapter G V R σ → Option (Bool × Option String) → RunEvent G V R} {x} (hx : x ∈ validatorsOf A sel ev) :
    ∃ a ∈ A, sel a = some x.2 ∧ x.1 = ev a := by
  unfold validatorsOf at hx
  rw [List.mem_filterMap] at hx
  obtain ⟨a, ha, h⟩ := hx
  cases hs : sel a with
  | none => rw [hs] at h; cases h
  | some f => rw [hs] at h; cases h; exact ⟨a, (registered_mem A [] a ha).1, hs, rfl⟩

/-- The rounds of all nodes. -/
theorem validateNodes_spec {A : List (RunAdapter G V R σ)} (hA : NoEqualAdapters A) (g : G) (nodes : List Name) (s : RunState G V R σ) :
    ∃ L, (validateNodes A g nodes s).2.log = s.log ++ L ∧
      (∀ ev ∈ L, ∃ i n o, n ∈ nodes ∧ ev = .validateNode i n o) ∧
      (∀ fs, (validateNodes A g nodes s).1 = .ok fs →
        (fs = [] → L.map judged = nodes.flatMap fun n =>
          (A.filter (fun a => a.validateNode.isSome)).map fun a => some (a.id, some n, some true)) ∧
        (nodes.Nodup → ∀ n ms, (n, ms) ∈ fs ↔ n ∈ nodes ∧ rejections n L = ms ∧ ms ≠ [])) ∧
      (∀ e, (validateNodes A g nodes s).1 = .error e → ∃ i n, .validateNode i n none ∈ L) := by
  induction nodes generalizing s with
  | nil =>
    refine ⟨[], by simp [validateNodes], by simp, fun fs h => ?_, fun e h => by simp [validateNodes] at h⟩
    simp only [validateNodes] at h
    cases h
    exact ⟨fun _ => rfl, fun _ n ms => by simp⟩
  | cons n rest ih =>
    have hvs : ∀ v ∈ validatorsOf A (fun a => a.validateNode.map (fun v => v g n)) (fun a => .validateNode a.id n),
        ∃ i, v.1 = fun o => (.validateNode i n o : RunEvent G V R) := by
      intro v hv
      obtain ⟨a, _, _, h⟩ := validatorsOf_mem hv
      exact ⟨a.id, h⟩
    obtain ⟨L, h1, h2, h3, h4⟩ := callValidators_spec
      (validatorsOf A (fun a => a.validateNode.map (fun v => v g n)) (fun a => .validateNode a.id n)) s
    have hL : ∀ ev ∈ L, ∃ i o, ev = (.validateNode i n o : RunEvent G V R) := by
      intro ev hev
      obtain ⟨v, hv, o, ho⟩ := h2 ev hev
      obtain ⟨i, hi⟩ := hvs v hv
      exact ⟨i, o, by rw [ho, hi]⟩
    rw [validateNodes]
    cases hc : callValidators
      (validatorsOf A (fun a => a.validateNode.map (fun v => v g n)) (fun a => .validateNode a.id n)) s with
    | mk o s1 =>
      rw [hc] at h1 h3 h4
      cases o with
      | error e =>
        refine ⟨L, h1, ?_, fun fs h => by simp at h, fun e' h => ?_⟩
        · intro ev hev
          obtain ⟨i, o, ho⟩ := hL ev hev
          exact ⟨i, n, o, List.mem_cons_self, ho⟩
        · obtain ⟨v, hv, hn, _⟩ := h4 e rfl
          obtain ⟨i, hi⟩ := hvs v hv
          exact ⟨i, n, by rw [hi] at hn; exact hn⟩
      | ok ms =>
        obtain ⟨outs, k1, k2, k3⟩ := h3 ms rfl
        simp only
        obtain ⟨M, m1, m2, m3, m4⟩ := ih s1
        cases hr : validateNodes A g rest s1 with
        | mk o s2 =>
          rw [hr] at m1 m3 m4
          have hmem : ∀ ev ∈ L ++ M, ∃ i m o, m ∈ n :: rest ∧ ev = (.validateNode i m o : RunEvent G V R) := by
            intro ev hev
            rcases List.mem_append.1 hev with h | h
            · obtain ⟨i, o, ho⟩ := hL ev h
              exact ⟨i, n, o, List.mem_cons_self, ho⟩
            · obtain ⟨i, m, o, hm, ho⟩ := m2 ev h
              exact ⟨i, m, o, List.mem_cons_of_mem _ hm, ho⟩
          have hlog : s2.log = s.log ++ (L ++ M) := by rw [m1, h1]; simp
          cases o with
          | error e =>
            refine ⟨L ++ M, hlog, hmem, fun fs h => by simp at h, fun e' h => ?_⟩
            obtain ⟨i, m, hm⟩ := m4 e rfl
            exact ⟨i, m, List.mem_append_right _ hm⟩
          | ok fs =>
            refine ⟨L ++ M, hlog, hmem, fun fs' h => ?_, fun e' h => by simp at h⟩
            obtain ⟨q1, q2⟩ := m3 fs rfl
            simp only [Except.ok.injEq] at h
            constructor
            · intro hfs
              rw [hfs] at h
              by_cases hms : ms.length > 0
              · rw [if_pos hms] at h; cases h
              · rw [if_neg hms] at h
                have hms0 : ms = [] := List.length_eq_zero_iff.1 (by omega)
                rw [List.map_append, q1 h, List.flatMap_cons, k1,
                  zip_judged _ outs k2 (by rw [← k3, hms0]) (fun v hv b m => by
                    obtain ⟨i, hi⟩ := hvs v hv
                    rw [hi]; rfl),
                  validatorsOf_map hA _ _ (fun f => judged (f (some (true, none))))]
                simp only [isSome_map_fun]
                rfl
            · intro hnd n' ms'
              rw [List.nodup_cons] at hnd
              have hrL : rejections n L = ms := by rw [k1, zip_rejections n _ outs k2 hvs, k3]
              have hrM : ∀ x, x ∉ rest → rejections x M = [] := by
                intro x hx
                clear m1 m3 m4 hmem hlog q1 q2 hr
                induction M with
                | nil => rfl
                | cons y M ihM =>
                  obtain ⟨i, m, o, hm, hy⟩ := m2 y List.mem_cons_self
                  subst hy
                  have ih' := ihM (fun ev hev => m2 ev (List.mem_cons_of_mem _ hev))
                  cases o with
                  | none => rw [rejections_none_cons]; exact ih'
                  | some o =>
                    rw [rejections_node_cons, ih']
                    have hne : m ≠ x := fun h => hx (h ▸ hm)
                    simp [hne]
              rw [rejections_append]
              by_cases hn' : n' = n
              · subst hn'
                rw [hrL, hrM _ hnd.1, List.append_nil, ← h]
                have hnot : (n', ms') ∉ fs := fun hin => hnd.1 ((q2 hnd.2 n' ms').1 hin).1
                by_cases hms : ms.length > 0
                · rw [if_pos hms, List.mem_cons]
                  constructor
                  · rintro (heq | hin)
                    · cases heq; exact ⟨List.mem_cons_self, rfl, fun h0 => by rw [h0] at hms; simp at hms⟩
                    · exact absurd hin hnot
                  · rintro ⟨_, heq, _⟩
                    exact .inl (by rw [heq])
                · rw [if_neg hms]
                  have hms0 : ms = [] := List.length_eq_zero_iff.1 (by omega)
                  constructor
                  · exact fun hin => absurd hin hnot
                  · rintro ⟨_, heq, hne⟩
                    exact absurd (heq.symm.trans hms0) hne
              · rw [zip_rejections_ne (Ne.symm hn') _ L h2 hvs, List.nil_append, ← h]
                have hiff := q2 hnd.2 n' ms'
                have hin : (n', ms') ∈ (if ms.length > 0 then (n, ms) :: fs else fs) ↔ (n', ms') ∈ fs := by
                  by_cases hms : ms.length > 0
                  · rw [if_pos hms, List.mem_cons]
                    constructor
                    · rintro (heq | hin)
                      · cases heq; exact absurd rfl hn'
                      · exact hin
                    · exact .inr
                  · rw [if_neg hms]
                rw [hin, hiff, List.mem_cons]
                constructor
                · rintro ⟨a, b⟩; exact ⟨.inr a, b⟩
                · rintro ⟨a | a, b⟩
                  · exact absurd a hn'
                  · exact ⟨a, b⟩

theorem joinable_some {ms : List (Option String)} {l : List String} (h : joinable ms = some l) : ms = l.map some := by
  induction ms generalizing l with
  | nil => cases h; rfl
  | cons m ms ih =>
    cases m with
    | none => cases h
    | some m =>
      rw [joinable] at h
      cases hj : joinable ms with
      | none => rw [hj] at h; cases h
      | some r => rw [hj] at h; cases h; rw [ih hj]; rfl

theorem joinable_none {ms : List (Option String)} (h : joinable ms = none) : none ∈ ms := by
  induction ms with
  | nil => cases h
  | cons m ms ih =>
    cases m with
    | none => exact List.mem_cons_self
    | some m =>
      rw [joinable] at h
      cases hj : joinable ms with
      | none => exact List.mem_cons_of_mem _ (ih hj)
      | some r => rw [hj] at h; cases h

theorem joinNodes_some {fs : List (Name × List (Option String))} {l : List (Name × List String)} (h : joinNodes fs = some l) :
    ∀ n ms, (n, ms) ∈ l ↔ (n, ms.map some) ∈ fs := by
  induction fs generalizing l with
  | nil => cases h; simp
  | cons f fs ih =>
    obtain ⟨m, os⟩ := f
    rw [joinNodes] at h
    cases h1 : joinable os with
    | none => rw [h1] at h; cases h
    | some r =>
      cases h2 : joinNodes fs with
      | none => rw [h1, h2] at h; cases h
      | some q =>
        rw [h1, h2] at h
        cases h
        intro n ms
        rw [List.mem_cons, List.mem_cons, ih h2 n ms, joinable_some h1]
        have : (n, ms) = (m, r) ↔ (n, ms.map some) = (m, r.map some) := by
          simp only [Prod.mk.injEq]
          constructor
          · rintro ⟨rfl, rfl⟩; exact ⟨rfl, rfl⟩
          · rintro ⟨h1, h2⟩
            exact ⟨h1, (List.map_inj_right (fun _ _ h => by injection h)).1 h2⟩
        rw [this]

theorem joinNodes_none {fs : List (Name × List (Option String))} (h : joinNodes fs = none) :
    ∃ n ms, (n, ms) ∈ fs ∧ none ∈ ms := by
  induction fs with
  | nil => cases h
  | cons f fs ih =>
    obtain ⟨m, os⟩ := f
    rw [joinNodes] at h
    cases h1 : joinable os with
    | none => exact ⟨m, os, List.mem_cons_self, joinable_none h1⟩
    | some r =>
      cases h2 : joinNodes fs with
      | none =>
        obtain ⟨n, ms, hm, hn⟩ := ih h2
        exact ⟨n, ms, List.mem_cons_of_mem _ hm, hn⟩
      | some q => rw [h1, h2] at h; cases h

/-- The validation of the graph as a whole. -/
theorem validateWholeGraph_spec {A : List (RunAdapter G V R σ)} (hA : NoEqualAdapters A) (g : G) (s : RunState G V R σ) :
    ∃ L, (validateWholeGraph A g s).2.log = s.log ++ L ∧ (∀ ev ∈ L, ∃ i o, ev = .validateGraph i o) ∧
      match (validateWholeGraph A g s).1 with
      | none => L.map judged = (A.filter (fun a => a.validateGraph.isSome)).map fun a => some (a.id, none, some true)
      | some (.graphValidation l) => graphRejections L = l.map some ∧ l ≠ []
      | some .noMessage => none ∈ graphRejections L
      | some (.raised _) => ∃ i, .validateGraph i none ∈ L
      | _ => False := by
  have hvs : ∀ v ∈ validatorsOf A (fun a => a.validateGraph.map (fun v => v g)) (fun a => .validateGraph a.id),
      ∃ i, v.1 = fun o => (.validateGraph i o : RunEvent G V R) := by
    intro v hv
    obtain ⟨a, _, _, h⟩ := validatorsOf_mem hv
    exact ⟨a.id, h⟩
  obtain ⟨L, h1, h2, h3, h4⟩ := callValidators_spec
    (validatorsOf A (fun a => a.validateGraph.map (fun v => v g)) (fun a => .validateGraph a.id)) s
  have hL : ∀ ev ∈ L, ∃ i o, ev = (.validateGraph i o : RunEvent G V R) := by
    intro ev hev
    obtain ⟨v, hv, o, ho⟩ := h2 ev hev
    obtain ⟨i, hi⟩ := hvs v hv
    exact ⟨i, o, by rw [ho, hi]⟩
  refine ⟨L, ?_⟩
  unfold validateWholeGraph
  cases hc : callValidators
    (validatorsOf A (fun a => a.validateGraph.map (fun v => v g)) (fun a => .validateGraph a.id)) s with
  | mk o s1 =>
    rw [hc] at h1 h3 h4
    cases o with
    | error e =>
      refine ⟨h1, hL, ?_⟩
      obtain ⟨v, hv, hn, _⟩ := h4 e rfl
      obtain ⟨i, hi⟩ := hvs v hv
      exact ⟨i, by rw [hi] at hn; exact hn⟩
    | ok ms =>
      obtain ⟨outs, k1, k2, k3⟩ := h3 ms rfl
      have hrej : graphRejections L = ms := by rw [k1, zip_graphRejections _ outs k2 hvs, k3]
      cases ms with
      | nil =>
        refine ⟨h1, hL, ?_⟩
        simp only
        rw [k1, zip_judged _ outs k2 k3.symm (fun v hv b m => by
            obtain ⟨i, hi⟩ := hvs v hv
            rw [hi]; rfl),
          validatorsOf_map hA _ _ (fun f => judged (f (some (true, none))))]
        simp only [isSome_map_fun]
        rfl
      | cons m ms =>
        simp only
        cases hj : joinable (m :: ms) with
        | none => exact ⟨h1, hL, by rw [hrej]; exact joinable_none hj⟩
        | some l =>
          refine ⟨h1, hL, ?_⟩
          simp only
          rw [hrej]
          exact ⟨joinable_some hj, fun h0 => by have := joinable_some hj; rw [h0] at this; cases this⟩

/-- C64, validators (partial: the adapters are pairwise different). Everything that happens during the validation of a graph is that validators are asked. The graph is
accepted only if every validator of nodes accepted every node and every validator of graphs accepted the graph, each asked
exactly once; the exception lists exactly the nodes that were rejected with the messages given (for rejections of the whole
graph: the messages given); a rejection without a message gives a `TypeError`; any other exception was raised by a validator. -/
theorem C64_validators_partial (names : G → List Name) {A : List (RunAdapter G V R σ)} (hA : NoEqualAdapters A) (g : G)
    (hn : (names g).Nodup)
    (s : RunState G V R σ) :
    ∃ L, (performGraphValidations names A g s).2.log = s.log ++ L ∧
      match (performGraphValidations names A g s).1 with
      | none => L.map judged = allAccepted A (names g)
      | some (.validation l) => l ≠ [] ∧
          ∀ n ms, (n, ms) ∈ l ↔ n ∈ names g ∧ rejections n L = ms.map some ∧ ms ≠ []
      | some (.graphValidation l) => l ≠ [] ∧ graphRejections L = l.map some ∧ ∀ n ∈ names g, rejections n L = []
      | some .noMessage => none ∈ graphRejections L ∨ ∃ n ∈ names g, none ∈ rejections n L
      | some (.raised _) => ∃ ev ∈ L, ∃ i on, judged ev = some (i, on, none)
      | _ => False := by
  obtain ⟨L, h1, h2, h3, h4⟩ := validateNodes_spec hA g (names g) s
  unfold performGraphValidations
  cases hc : validateNodes A g (names g) s with
  | mk o s1 =>
    rw [hc] at h1 h3 h4
    cases o with
    | error e =>
      refine ⟨L, h1, ?_⟩
      obtain ⟨i, n, hm⟩ := h4 e rfl
      exact ⟨_, hm, i, some n, rfl⟩
    | ok fs =>
      obtain ⟨q1, q2⟩ := h3 fs rfl
      have q2 := q2 hn
      cases fs with
      | nil =>
        simp only
        obtain ⟨M, m1, m2, m3⟩ := validateWholeGraph_spec hA g s1
        have hgL : graphRejections L = [] := graphRejections_node L (fun ev hev => by
          obtain ⟨i, n, o, _, ho⟩ := h2 ev hev
          exact ⟨i, n, o, ho⟩)
        have hrL : ∀ n ∈ names g, rejections n L = [] := by
          intro n hnm
          cases hr : rejections n L with
          | nil => rfl
          | cons m ms => exact absurd ((q2 n (m :: ms)).2 ⟨hnm, hr, by simp⟩) List.not_mem_nil
        refine ⟨L ++ M, by rw [m1, h1]; simp, ?_⟩
        revert m3
        cases hw : (validateWholeGraph A g s1).1 with
        | none =>
          intro m3
          simp only at m3 ⊢
          rw [List.map_append, q1 rfl, m3]
          rfl
        | some e =>
          cases e with
          | graphValidation l =>
            intro m3
            simp only at m3 ⊢
            refine ⟨m3.2, ?_, fun n hnm => ?_⟩
            · rw [graphRejections_append, hgL, m3.1]; rfl
            · rw [rejections_append, hrL n hnm, rejections_graph n M m2]; rfl
          | noMessage =>
            intro m3
            simp only at m3 ⊢
            rw [graphRejections_append, hgL]
            exact .inl m3
          | raised u =>
            intro m3
            simp only at m3 ⊢
            obtain ⟨i, hm⟩ := m3
            exact ⟨_, List.mem_append_right _ hm, i, none, rfl⟩
          | validation l => exact fun m3 => m3.elim
          | noOutput => exact fun m3 => m3.elim
          | unbound => exact fun m3 => m3.elim
          | keyError n => exact fun m3 => m3.elim
      | cons f fs =>
        refine ⟨L, ?_⟩
        simp only
        cases hj : joinNodes (f :: fs) with
        | none =>
          refine ⟨h1, ?_⟩
          simp only
          obtain ⟨n, ms, hm, hno⟩ := joinNodes_none hj
          have := (q2 n ms).1 hm
          exact .inr ⟨n, this.1, by rw [this.2.1]; exact hno⟩
        | some l =>
          refine ⟨h1, ?_⟩
          simp only
          have hiff : ∀ n ms, (n, ms) ∈ l ↔ n ∈ names g ∧ rejections n L = ms.map some ∧ ms ≠ [] := by
            intro n ms
            rw [joinNodes_some hj n ms, q2 n (ms.map some)]
            simp
          refine ⟨?_, hiff⟩
          intro h0
          obtain ⟨n, ms⟩ := f
          obtain ⟨a, b, c⟩ := (q2 n ms).1 List.mem_cons_self
          rw [h0] at hj
          rw [joinNodes] at hj
          cases h5 : joinable ms with
          | none => rw [h5] at hj; cases hj
          | some r =>
            cases h6 : joinNodes fs with
            | none => rw [h5, h6] at hj; cases hj
            | some q => rw [h5, h6] at hj; cases hj

open RunSample in
/-- An accepted graph, a graph with a rejected node, a rejected graph. -/
example : (performGraphValidations nodesOf adapters "dag" fresh).1 = none ∧
    (performGraphValidations nodesOf adapters "dirty" fresh).1 = some (.validation [("tmp", ["temporary"])]) ∧
    (performGraphValidations nodesOf adapters "old" fresh).1 = some (.graphValidation ["outdated"]) ∧
    shown (performGraphValidations nodesOf adapters "dag" fresh) = [("node a", 3, true), ("node b", 3, true), ("graph", 3, true)] ∧
    shown (performGraphValidations nodesOf adapters "dirty" fresh)
      = [("node a", 3, true), ("node tmp", 3, false), ("node b", 3, true)] := by decide +kernel

/-- C64, construction (partial: the adapters are pairwise different). A driver is only made if every `pre_do_anything` hook returned, then every validator accepted, then
every `post_graph_construct` hook was given the graph and returned; nothing else happens. -/
theorem C64_construct_partial (names : G → List Name) {A : List (RunAdapter G V R σ)} (hA : NoEqualAdapters A)
    (buildGraph : σ → Except UserErr G × σ) {g : G} (hn : (names g).Nodup) {s s' : RunState G V R σ}
    (h : constructDriver names A buildGraph s = (.ok g, s')) :
    ∃ t L, (buildGraph t).1 = .ok g ∧ L.map judged = allAccepted A (names g) ∧
      s'.log = s.log ++ toldFirst A ++ L ++ toldConstructed A g := by
  unfold constructDriver at h
  cases h1 : callPreDo A s with
  | mk o s1 =>
    rw [h1] at h
    cases o with
    | some e => cases h
    | none =>
      simp only at h
      cases h2 : buildGraph s1.st with
      | mk o t =>
        rw [h2] at h
        cases o with
        | error e => cases h
        | ok g' =>
          simp only at h
          cases h3 : performGraphValidations names A g' ⟨s1.log, t⟩ with
          | mk o s2 =>
            rw [h3] at h
            cases o with
            | some e => cases h
            | none =>
              simp only at h
              cases h4 : callPostConstruct A g' s2 with
              | mk o s3 =>
                rw [h4] at h
                cases o with
                | some e => cases h
                | none =>
                  cases h
                  obtain ⟨L, l1, l2⟩ := C64_validators_partial names hA g hn ⟨s1.log, t⟩
                  rw [h3] at l1 l2
                  refine ⟨s1.st, L, by rw [h2], l2, ?_⟩
                  rw [callPostConstruct_none hA h4, l1, callPreDo_none hA h1]

open RunSample in
example : shown (constructDriver nodesOf adapters (fun t => (.ok "dag", t)) fresh)
      = [("pre_do", 1, true), ("pre_do", 4, true), ("node a", 3, true), ("node b", 3, true), ("graph", 3, true),
        ("constructed", 1, true), ("constructed", 4, true)] ∧
    valOf (constructDriver nodesOf adapters (fun t => (.ok "dag", t)) fresh).1 = some "dag" ∧
    errOf (constructDriver nodesOf adapters (fun t => (.ok "dirty", t)) fresh).1
      = some (.validation [("tmp", ["temporary"])]) := by decide +kernel

theorem selectKeys_mem {d : Dict Name V} : ∀ {ks : List Name} {acc m : Dict Name V}, selectKeys d acc ks = .ok m →
    ∀ k, m.get? k = if k ∈ ks then d.get? k else acc.get? k
  | [], acc, m, h => by cases h; intro k; simp
  | k0 :: ks, acc, m, h => by
    rw [selectKeys] at h
    cases hg : d.get? k0 with
    | none => rw [hg] at h; cases h
    | some v =>
      rw [hg] at h
      intro k
      rw [selectKeys_mem h k]
      by_cases hk : k ∈ ks
      · simp [hk]
      · rw [if_neg hk]
        by_cases hk0 : k = k0
        · subst hk0; rw [Dict.get?_set_self]; simp [hg]
        · rw [Dict.get?_set_ne _ _ (Ne.symm hk0)]; simp [hk, hk0]

theorem selectKeys_ok {d : Dict Name V} : ∀ {ks : List Name} {acc : Dict Name V}, (∀ k ∈ ks, d.get? k ≠ none) →
    ∃ m, selectKeys d acc ks = .ok m
  | [], acc, _ => ⟨acc, rfl⟩
  | k :: ks, acc, h => by
    rw [selectKeys]
    cases hg : d.get? k with
    | none => exact absurd hg (h k List.mem_cons_self)
    | some v => exact selectKeys_ok fun k' hk => h k' (List.mem_cons_of_mem _ hk)

/-- Validation consists of verdicts only. -/
theorem performGraphValidations_events (names : G → List Name) {A : List (RunAdapter G V R σ)} (hA : NoEqualAdapters A)
    (g : G)    (s : RunState G V R σ) :
    ∃ L, (performGraphValidations names A g s).2.log = s.log ++ L ∧ ∀ ev ∈ L, (judged ev).isSome = true := by
  obtain ⟨L, h1, h2, _, _⟩ := validateNodes_spec hA g (names g) s
  have hL : ∀ ev ∈ L, (judged ev).isSome = true := by
    intro ev hev
    obtain ⟨i, n, o, _, ho⟩ := h2 ev hev
    rw [ho]; rfl
  unfold performGraphValidations
  cases hc : validateNodes A g (names g) s with
  | mk o s1 =>
    rw [hc] at h1
    cases o with
    | error e => exact ⟨L, h1, hL⟩
    | ok fs =>
      cases fs with
      | nil =>
        obtain ⟨M, m1, m2, _⟩ := validateWholeGraph_spec hA g s1
        refine ⟨L ++ M, by simp only; rw [m1, h1]; simp, ?_⟩
        intro ev hev
        rcases List.mem_append.1 hev with h | h
        · exact hL ev h
        · obtain ⟨i, o, ho⟩ := m2 ev h
          rw [ho]; rfl
      | cons f fs =>
        simp only
        cases hj : joinNodes (f :: fs) with
        | none => exact ⟨L, h1, hL⟩
        | some l => exact ⟨L, h1, hL⟩

/-- C64 for `materialize` (partial: the graph could be made, the adapters are pairwise different, the hooks return, the
exceptions derive from `Exception`). The adapters are told about the end, each once; the report is what the caller gets
(`results` being the additional variables). Either the validation of the graph raised, and then nothing was computed; or
every validator accepted, every adapter was given the graph and told about the run before it was computed, and the results
are the requested ones among those computed. -/
theorem C64_materialize_partial (p : UserErr → Bool) (names : G → List Name) {A : List (RunAdapter G V R σ)}
    (hA : NoEqualAdapters A) (hq : QuietHooks A) (m : MaterializeCall G V σ) {mats : List Name} {g : G}
    (hg : m.process = .ok mats ∧ m.modify = .ok g ∧ (mats ≠ [] ∨ m.finalVars ≠ []))
    (hn : (names g).Nodup) (hp : ∀ u, p u = true) (s : RunState G V R σ) :
    ∃ (L : List (RunEvent G V R)) (r : RunReport G V R),
      (materializeRun p names A m s).2.log = s.log ++ L ++ toldAfter A m.runId r ∧ r.graph = g ∧
      (∀ o, (materializeRun p names A m s).1 = .ok o →
        r.success = true ∧ r.error = none ∧ r.results = some (.dict o.2)) ∧
      (∀ e, (materializeRun p names A m s).1 = .error e → r.success = false ∧ r.error = some e ∧ r.results = none) ∧
      ((∃ e, (materializeRun p names A m s).1 = .error e ∧ (performGraphValidations names A g s).1 = some e ∧
          ∀ ev ∈ L, (judged ev).isSome = true) ∨
        (∃ vs t, vs.map judged = allAccepted A (names g) ∧
          L = vs ++ toldConstructed A g ++ toldBefore A ⟨m.runId, g, m.finalVars ++ mats⟩ ++ [.body (m.run g t).1] ∧
          (∀ e, (m.run g t).1 = .error e → (materializeRun p names A m s).1 = .error (.raised e)) ∧
          (∀ d, (m.run g t).1 = .ok d → ∀ o, (materializeRun p names A m s).1 = .ok o →
            (∀ k, o.1.get? k = if k ∈ mats then d.get? k else none) ∧
            (∀ k, o.2.get? k = if k ∈ m.finalVars then d.get? k else none)) ∧
          (∀ d, (m.run g t).1 = .ok d → (∀ k ∈ mats ++ m.finalVars, d.get? k ≠ none) →
            ∃ o, (materializeRun p names A m s).1 = .ok o))) := by
  have hmg : materializeGraph m = .ok (mats, g) := by
    unfold materializeGraph
    rw [hg.1]
    simp only
    rw [if_neg, hg.2.1]
    rintro ⟨a, b⟩
    rcases hg.2.2 with h | h
    · exact h (List.length_eq_zero_iff.1 a)
    · exact h (List.length_eq_zero_iff.1 b)
  have hexc : ∀ e : RunErr, e.isException p = true := by
    intro e; cases e <;> simp [RunErr.isException, hp]
  have hfin : ∀ (out : Except RunErr (Dict Name V × Dict Name V)) (s1 : RunState G V R σ),
      materializeBound names A m mats g s = (out, s1) →
      (materializeRun p names A m s).1 = out ∧
      (materializeRun p names A m s).2.log = s1.log ++ toldAfter A m.runId (materializeReport p g out) := by
    intro out s1 hb
    obtain ⟨s2, h1, h2⟩ := callPost_quiet hA hq m.runId (materializeReport p g out) s1
    unfold materializeRun
    rw [hmg]
    simp only
    rw [hb]
    simp only [finishRun]
    rw [h1]
    exact ⟨rfl, h2⟩
  have hrep : ∀ out : Except RunErr (Dict Name V × Dict Name V), (materializeReport p g out : RunReport G V R).graph = g ∧
      (∀ o, out = .ok o → (materializeReport p g out : RunReport G V R).success = true ∧
        (materializeReport p g out : RunReport G V R).error = none ∧
        (materializeReport p g out : RunReport G V R).results = some (.dict o.2)) ∧
      (∀ e, out = .error e → (materializeReport p g out : RunReport G V R).success = false ∧
        (materializeReport p g out : RunReport G V R).error = some e ∧
        (materializeReport p g out : RunReport G V R).results = none) := by
    intro out
    cases out with
    | ok o => exact ⟨rfl, fun o' h => by cases h; exact ⟨rfl, rfl, rfl⟩, fun e h => by cases h⟩
    | error e =>
      have hr : (materializeReport p g (.error e) : RunReport G V R) = ⟨g, false, some e, none⟩ := by
        simp only [materializeReport, hexc e, if_true]
      rw [hr]
      exact ⟨rfl, (fun o' h => nomatch h), fun e' h => by cases h; exact ⟨rfl, rfl, rfl⟩⟩
  obtain ⟨L, l1, l2⟩ := C64_validators_partial names hA g hn s
  cases hv : performGraphValidations names A g s with
  | mk o s1 =>
    rw [hv] at l1 l2
    simp only at l1
    cases o with
    | some e =>
      have hb : materializeBound names A m mats g s = (.error e, s1) := by rw [materializeBound, hv]
      obtain ⟨f1, f2⟩ := hfin _ _ hb
      obtain ⟨r1, r2, r3⟩ := hrep (.error e)
      refine ⟨L, materializeReport p g (.error e), by rw [f2, l1], r1, fun o h => r2 o (f1.symm.trans h),
        fun e' h => r3 e' (f1.symm.trans h), .inl ⟨e, f1, rfl, ?_⟩⟩
      obtain ⟨L', k1, k2⟩ := performGraphValidations_events names hA g s
      rw [hv] at k1
      simp only at k1
      rw [l1] at k1
      rw [List.append_cancel_left k1]
      exact k2
    | none =>
      simp only at l2
      obtain ⟨s2, h2, l3⟩ := callPostConstruct_quiet hA hq g s1
      obtain ⟨s3, h3, l4⟩ := callPre_quiet hA hq ⟨m.runId, g, m.finalVars ++ mats⟩ s2
      have hlog : s3.log = s.log ++ (L ++ toldConstructed A g ++ toldBefore A ⟨m.runId, g, m.finalVars ++ mats⟩) := by
        rw [l4, l3, l1]; simp
      cases hb : m.run g s3.st with
      | mk o t =>
        cases o with
        | error u =>
          have hbound : materializeBound names A m mats g s = (.error (.raised u), ⟨s3.log ++ [.body (.error u)], t⟩) := by
            rw [materializeBound, hv]
            simp only
            rw [h2]
            simp only
            rw [h3]
            simp only
            rw [callRun_eq, hb]
          obtain ⟨f1, f2⟩ := hfin _ _ hbound
          obtain ⟨r1, r2, r3⟩ := hrep (.error (.raised u))
          refine ⟨L ++ toldConstructed A g ++ toldBefore A ⟨m.runId, g, m.finalVars ++ mats⟩ ++ [.body (.error u)],
            materializeReport p g (.error (.raised u)), by rw [f2]; simp only; rw [hlog]; simp, r1,
            fun o h => r2 o (f1.symm.trans h), fun e' h => r3 e' (f1.symm.trans h),
            .inr ⟨L, s3.st, l2, by rw [hb], ?_, ?_, ?_⟩⟩
          · intro e he; rw [hb] at he; cases he; exact f1
          · intro d hd; rw [hb] at hd; cases hd
          · intro d hd; rw [hb] at hd; cases hd
        | ok d =>
          have hbound : materializeBound names A m mats g s
              = (materializeOutputs mats m.finalVars d, ⟨s3.log ++ [.body (.ok d)], t⟩) := by
            rw [materializeBound, hv]
            simp only
            rw [h2]
            simp only
            rw [h3]
            simp only
            rw [callRun_eq, hb]
          obtain ⟨f1, f2⟩ := hfin _ _ hbound
          obtain ⟨r1, r2, r3⟩ := hrep (materializeOutputs mats m.finalVars d)
          refine ⟨L ++ toldConstructed A g ++ toldBefore A ⟨m.runId, g, m.finalVars ++ mats⟩ ++ [.body (.ok d)],
            materializeReport p g (materializeOutputs mats m.finalVars d), by rw [f2]; simp only; rw [hlog]; simp, r1,
            fun o h => r2 o (f1.symm.trans h), fun e' h => r3 e' (f1.symm.trans h),
            .inr ⟨L, s3.st, l2, by rw [hb], ?_, ?_, ?_⟩⟩
          · intro e he; rw [hb] at he; cases he
          · intro d' hd o ho
            rw [hb] at hd
            cases hd
            rw [f1, materializeOutputs] at ho
            cases ha : selectKeys d [] mats with
            | error e => rw [ha] at ho; cases ho
            | ok x =>
              cases hc : selectKeys d [] m.finalVars with
              | error e => rw [ha, hc] at ho; cases ho
              | ok y =>
                rw [ha, hc] at ho
                cases ho
                exact ⟨fun k => selectKeys_mem ha k, fun k => selectKeys_mem hc k⟩
          · intro d' hd hk
            rw [hb] at hd
            cases hd
            obtain ⟨x, hx⟩ := selectKeys_ok (d := d) (ks := mats) (acc := []) (fun k h => hk k (List.mem_append_left _ h))
            obtain ⟨y, hy⟩ := selectKeys_ok (d := d) (ks := m.finalVars) (acc := []) (fun k h => hk k (List.mem_append_right _ h))
            refine ⟨(x, y), ?_⟩
            rw [f1, materializeOutputs, hx, hy]

open RunSample in
example : shown (materializeRun (fun _ => true) nodesOf adapters ⟨"run-2", ["a"], .ok ["b"], .ok "dag", fun _ => goodRun⟩ fresh)
      = [("node a", 3, true), ("node b", 3, true), ("graph", 3, true), ("constructed", 1, true), ("constructed", 4, true),
        ("pre", 1, true), ("pre", 4, true), ("run", 0, true), ("post", 1, true), ("post", 4, true)] ∧
    valOf (materializeRun (fun _ => true) nodesOf adapters ⟨"run-2", ["a"], .ok ["b"], .ok "dag", fun _ => goodRun⟩ fresh).1
      = some ([("b", 4)], [("a", 1)]) := by decide +kernel

open RunSample in
example := C64_materialize_partial (fun _ => true) nodesOf distinct quiet
  (⟨"run-2", ["a"], .ok ["b"], .ok "dirty", fun _ => goodRun⟩ : MaterializeCall String Int Nat)
  ⟨rfl, rfl, .inl (by decide)⟩ (nodesOf_nodup _) (fun _ => rfl) fresh

/-! ### Where the code does not do what it promises -/

namespace RunSample

/-- C64 is violated by an exception that does not derive from `Exception`: the adapters are told that the run succeeded. -/
theorem C64_violated_interrupt : ∃ (A : List (RunAdapter String Int Int Nat)) (body : RunBody Int Nat),
    NoEqualAdapters A ∧ QuietHooks A ∧
    errOf (executeRun ordinary A call body fresh).1 = some (.raised "KeyboardInterrupt") ∧
    (executeRun ordinary A call body fresh).2.log
      = toldBefore A call ++ [.body (.error "KeyboardInterrupt")] ++ toldAfter A "run-1" ⟨"dag", true, none, none⟩ ∧
    toldAfter A "run-1" ⟨"dag", true, none, none⟩ ≠ [] :=
  ⟨adapters, interrupted, distinct, quiet, by decide +kernel, rfl, by simp [toldAfter, adapters, watcher]⟩

/-- The same for a task. -/
theorem C64_violated_task_interrupt : ∃ (A : List (RunAdapter String Int Int Nat)) (body : RunBody Int Nat),
    NoEqualAdapters A ∧ QuietHooks A ∧
    errOf (executeTaskRun ordinary A "t" (fun _ => true) body fresh).1 = some (.raised "KeyboardInterrupt") ∧
    ("post_task", 1, true) ∈ shown (executeTaskRun ordinary A "t" (fun _ => true) body fresh) :=
  ⟨adapters, interrupted, distinct, quiet, by decide +kernel, by decide +kernel⟩

/-- C64 is violated when a `pre_graph_execute` raises: an adapter that was told about the beginning of the run is never told
about its end. -/
theorem C64_violated_pre_raises : ∃ (A : List (RunAdapter String Int Int Nat)), NoEqualAdapters A ∧
    errOf (executeRun ordinary A call goodRun fresh).1 = some (.raised "early") ∧
    shown (executeRun ordinary A call goodRun fresh) = [("pre", 1, true), ("pre", 5, false)] :=
  ⟨[watcher 1, { id := 5, pre := some fun _ t => (some "early", t) }], by decide, by decide +kernel, by decide +kernel⟩

/-- C64 is violated when a `post_graph_execute` raises: its exception takes the place of the result, and of the exception, of
the run, and the adapters after it are not told. -/
theorem C64_violated_post_raises : ∃ (A : List (RunAdapter String Int Int Nat)), NoEqualAdapters A ∧
    errOf (executeRun ordinary A call goodRun fresh).1 = some (.raised "late") ∧
    errOf (executeRun ordinary A call badRun fresh).1 = some (.raised "late") ∧
    shown (executeRun ordinary A call goodRun fresh)
      = [("pre", 1, true), ("run", 0, true), ("post", 6, true)] :=
  ⟨[{ id := 6, post := some fun _ _ t => (some "late", t) }, watcher 1], by decide, by decide +kernel, by decide +kernel,
    by decide +kernel⟩

/-- C64 is violated by adapters that are equal (`==`), for instance two dataclass instances with the same fields: only the
first is told anything. -/
theorem C64_violated_equal : ∃ (A : List (RunAdapter String Int Int Nat)), (A.map (·.id)).Nodup ∧ QuietHooks A ∧
    shown (executeRun ordinary A call goodRun fresh) = [("pre", 1, true), ("run", 0, true), ("post", 1, true)] ∧
    toldBefore A call ≠ [.pre 1 call none] :=
  ⟨[watcher 1, { watcher 4 with eqKey := 1 }], by decide, by
    constructor <;> intro a ha <;> simp only [List.mem_cons, List.not_mem_nil, or_false] at ha <;>
      rcases ha with rfl | rfl <;> simp [watcher, count], by decide +kernel, by simp [toldBefore, watcher]⟩

/-- C64 is violated by the asynchronous driver: the adapters are told that the run succeeded although the caller gets the
exception of the result builder. -/
theorem C64_violated_async_build : ∃ (A : List (RunAdapter String Int Int Nat)) (body : RunBody Int Nat),
    NoEqualAdapters A ∧ QuietHooks A ∧
    errOf (asyncExecuteRun ordinary A call body fresh).1 = some (.raised "empty") ∧
    shown (asyncExecuteRun ordinary A call body fresh)
      = [("pre", 1, true), ("pre", 4, true), ("run", 0, true), ("post", 1, true), ("post", 4, true), ("build", 2, false)] :=
  ⟨adapters, fun t => (.ok [], t), distinct, quiet, by decide +kernel, by decide +kernel⟩

/-- C64 is violated by `materialize` when there is nothing to compute or the graph cannot be extended: with an adapter that
wants to be told about the end of runs, the caller gets an `UnboundLocalError` instead of the real exception, and the adapter
is not told; without it the real exception is raised. -/
theorem C64_violated_materialize_unbound : ∃ (A : List (RunAdapter String Int Int Nat)) (m : MaterializeCall String Int Nat),
    NoEqualAdapters A ∧ QuietHooks A ∧
    errOf (materializeRun ordinary nodesOf A m fresh).1 = some .unbound ∧
    shown (materializeRun ordinary nodesOf A m fresh) = [] ∧
    errOf (materializeRun ordinary nodesOf [adder] m fresh).1 = some (.raised "cannot materialize") :=
  ⟨adapters, ⟨"run-2", ["a"], .ok ["b"], .error "cannot materialize", fun _ => goodRun⟩, distinct, quiet, by decide +kernel,
    by decide +kernel, by decide +kernel⟩

/-- C64 is violated by `materialize` when a validator rejects the graph: the adapters are told about the end of a run of which
they were not told the beginning. -/
theorem C64_violated_materialize_validators : ∃ (A : List (RunAdapter String Int Int Nat)) (m : MaterializeCall String Int Nat),
    NoEqualAdapters A ∧ QuietHooks A ∧
    shown (materializeRun ordinary nodesOf A m fresh)
      = [("node a", 3, true), ("node b", 3, true), ("graph", 3, false), ("post with error", 1, false),
        ("post with error", 4, false)] :=
  ⟨adapters, ⟨"run-2", ["a"], .ok ["b"], .ok "old", fun _ => goodRun⟩, distinct, quiet, by decide +kernel⟩

/-- C64 is violated by a validator that rejects without a message: the exception does not name the rejected node. -/
theorem C64_violated_no_message : ∃ (A : List (RunAdapter String Int Int Nat)), NoEqualAdapters A ∧
    (performGraphValidations nodesOf A "dag" fresh).1 = some .noMessage ∧
    shown (performGraphValidations nodesOf A "dag" fresh) = [("node a", 7, true), ("node b", 7, false)] :=
  ⟨[{ id := 7, validateNode := some fun _ n t => (.ok (n != "b", none), t) }], by decide, by decide +kernel, by decide +kernel⟩

end RunSample

end Verif
