import Verif.Props.Builder

/-!
C55: which sequences of `Builder` calls are accepted.
-/
namespace Verif
variable {V M Z A X : Type} {isCache : A → Bool}

/-- The adapters that earlier calls have added. -/
def addedAdapters (pre : List (BCall V M Z A X)) : List A :=
  pre.flatMap (fun c => match c with | .adapters as => as | .cache a => [a] | _ => [])

/-- The call `c` does not contradict the calls `pre` made before on the same builder. -/
def Allowed (isCache : A → Bool) (pre : List (BCall V M Z A X)) : BCall V M Z A X → Prop
  | .enableDynamic allow => allow = true
  | .adapter _ => ∀ x, .adapter x ∉ pre
  | .adapters as => (∃ a ∈ as, isCache a = true) → ∀ a ∈ addedAdapters pre, isCache a = false
  | .cache _ => ∀ a ∈ addedAdapters pre, isCache a = false
  | .manager _ => .enableDynamic true ∈ pre ∧ (∀ x, .manager x ∉ pre) ∧ ∀ x, .remoteExecutor x ∉ pre
  | .remoteExecutor _ => .enableDynamic true ∈ pre ∧ (∀ x, .remoteExecutor x ∉ pre) ∧ ∀ x, .manager x ∉ pre
  | .localExecutor _ => .enableDynamic true ∈ pre ∧ (∀ x, .localExecutor x ∉ pre) ∧ ∀ x, .manager x ∉ pre
  | .grouping _ => .enableDynamic true ∈ pre ∧ ∀ x, .grouping x ∉ pre
  | .config _ | .modules _ | .materializers _ | .allowOverrides => True

/-- The builder reflects the calls made. -/
structure CallInv (pre : List (BCall V M Z A X)) (b : BuilderState M Z A X) : Prop where
  v2 : b.v2 = true ↔ .enableDynamic true ∈ pre
  legacy : ∀ a, b.legacyAdapter = some a ↔ .adapter a ∈ pre
  adapters : b.adapters = addedAdapters pre
  manager : ∀ x, b.manager = some x ↔ .manager x ∈ pre
  remote : ∀ x, b.remoteExecutor = some x ↔ .remoteExecutor x ∈ pre
  loc : ∀ x, b.localExecutor = some x ↔ .localExecutor x ∈ pre
  grouping : ∀ x, b.grouping = some x ↔ .grouping x ∈ pre

theorem CallInv.init (r : Nat) : CallInv ([] : List (BCall V M Z A X)) (.init r) := by
  constructor <;> simp [BuilderState.init, addedAdapters]

theorem none_iff_all {α β : Type} {o : Option α} {l : List β} {f : α → β} (h : ∀ x, o = some x ↔ f x ∈ l) :
    o.isSome = false ↔ ∀ x, f x ∉ l := by
  cases o with
  | none => simp only [Option.isSome_none, true_iff]; intro x hx; exact absurd ((h x).2 hx) (by simp)
  | some a => simp only [Option.isSome_some, Bool.true_eq_false, false_iff]; intro hx; exact hx a ((h a).1 rfl)

theorem none_of_isSome_false {α : Type} {o : Option α} (h : o.isSome = false) : o = none := by
  cases o with
  | none => rfl
  | some a => cases h

/-- A call is accepted iff it is allowed. -/
theorem CallInv.accepts {pre : List (BCall V M Z A X)} {b : BuilderState M Z A X} (h : CallInv pre b) (c : BCall V M Z A X) :
    (∃ b', applyCall isCache b c = some b') ↔ Allowed isCache pre c := by
  have hm := none_iff_all h.manager
  have hr := none_iff_all h.remote
  have hl := none_iff_all h.loc
  have hg := none_iff_all h.grouping
  have ha := none_iff_all h.legacy
  have hv := h.v2
  have hc : b.adapters.any isCache = false ↔ ∀ a ∈ addedAdapters pre, isCache a = false := by
    rw [h.adapters]; simp
  cases c with
  | enableDynamic a => cases a <;> simp [applyCall, Allowed]
  | config d => simp [applyCall, Allowed]
  | modules d => simp [applyCall, Allowed]
  | materializers d => simp [applyCall, Allowed]
  | allowOverrides => simp [applyCall, Allowed]
  | adapter a =>
    simp only [applyCall, Allowed, ← ha]
    cases b.legacyAdapter.isSome <;> simp
  | adapters as =>
    simp only [applyCall, Allowed, ← hc]
    cases h1 : as.any isCache with
    | false =>
      have h2 : ¬ ∃ a ∈ as, isCache a = true := by simpa using h1
      simp [h2]
    | true =>
      have h2 : ∃ a ∈ as, isCache a = true := by simpa using h1
      simp only [h2, true_imp_iff, Bool.true_and]
      cases b.adapters.any isCache <;> simp
  | cache a =>
    simp only [applyCall, Allowed, ← hc]
    cases b.adapters.any isCache <;> simp
  | manager x =>
    simp only [applyCall, Allowed, ← hm, ← hr, ← hv]
    cases b.v2 <;> cases b.manager.isSome <;> cases b.remoteExecutor.isSome <;> simp
  | remoteExecutor x =>
    simp only [applyCall, Allowed, ← hm, ← hr, ← hv]
    cases b.v2 <;> cases b.manager.isSome <;> cases b.remoteExecutor.isSome <;> simp
  | localExecutor x =>
    simp only [applyCall, Allowed, ← hm, ← hl, ← hv]
    cases b.v2 <;> cases b.manager.isSome <;> cases b.localExecutor.isSome <;> simp
  | grouping x =>
    simp only [applyCall, Allowed, ← hg, ← hv]
    cases b.v2 <;> cases b.grouping.isSome <;> simp

/-- An accepted call is recorded. -/
theorem CallInv.apply {pre : List (BCall V M Z A X)} {b b' : BuilderState M Z A X} (h : CallInv pre b) {c : BCall V M Z A X}
    (hc : applyCall isCache b c = some b') : CallInv (pre ++ [c]) b' := by
  obtain ⟨h1, h2, h3, h4, h5, h6, h7⟩ := h
  cases c <;> simp only [applyCall] at hc
  case enableDynamic a =>
    cases a with
    | false => cases hc
    | true => cases hc; constructor <;> simp_all [addedAdapters]
  case config d => cases hc; constructor <;> simp_all [addedAdapters]
  case modules d => cases hc; constructor <;> simp_all [addedAdapters]
  case materializers d => cases hc; constructor <;> simp_all [addedAdapters]
  case allowOverrides => cases hc; constructor <;> simp_all [addedAdapters]
  case adapters as =>
    split at hc
    · cases hc
    · cases hc; constructor <;> simp_all [addedAdapters]
  case cache a =>
    split at hc
    · cases hc
    · cases hc; constructor <;> simp_all [addedAdapters]
  case adapter a =>
    split at hc
    · cases hc
    · rename_i hn
      cases hc
      have hn' := none_of_isSome_false (by simpa using hn)
      constructor <;> simp_all [addedAdapters]
      exact fun x => eq_comm
  case manager x =>
    split at hc
    · cases hc
    · rename_i hn
      cases hc
      simp only [Bool.or_eq_true, not_or, Bool.not_eq_true] at hn
      have hn' := none_of_isSome_false hn.1.2
      constructor <;> simp_all [addedAdapters]
      exact fun x => eq_comm
  case remoteExecutor x =>
    split at hc
    · cases hc
    · rename_i hn
      cases hc
      simp only [Bool.or_eq_true, not_or, Bool.not_eq_true] at hn
      have hn' := none_of_isSome_false hn.1.2
      constructor <;> simp_all [addedAdapters]
      exact fun x => eq_comm
  case localExecutor x =>
    split at hc
    · cases hc
    · rename_i hn
      cases hc
      simp only [Bool.or_eq_true, not_or, Bool.not_eq_true] at hn
      have hn' := none_of_isSome_false hn.1.2
      constructor <;> simp_all [addedAdapters]
      exact fun x => eq_comm
  case grouping x =>
    split at hc
    · cases hc
    · rename_i hn
      cases hc
      simp only [Bool.or_eq_true, not_or, Bool.not_eq_true] at hn
      have hn' := none_of_isSome_false hn.2
      constructor <;> simp_all [addedAdapters]
      exact fun x => eq_comm

/-- All calls of a sequence are accepted iff each is allowed after those before it. -/
theorem CallInv.all {pre : List (BCall V M Z A X)} {b : BuilderState M Z A X} (h : CallInv pre b) :
    ∀ (cs : List (BCall V M Z A X)) (d : Dict Name V),
    ((∃ r, callAll isCache cs (b, d) = some r) ↔ ∀ p c q, cs = p ++ c :: q → Allowed isCache (pre ++ p) c) ∧
    ∀ r, callAll isCache cs (b, d) = some r → CallInv (pre ++ cs) r.1 := by
  intro cs
  induction cs generalizing pre b with
  | nil =>
    intro d
    refine ⟨⟨fun _ p c q hp => by simp at hp, fun _ => ⟨_, rfl⟩⟩, ?_⟩
    intro r hr
    cases hr
    simpa using h
  | cons c cs ih =>
    intro d
    have ha := h.accepts (isCache := isCache) c
    simp only [callAll]
    cases hc : applyCall isCache b c with
    | none =>
      refine ⟨⟨fun ⟨r, hr⟩ => (nomatch hr), fun hall => ?_⟩, fun r hr => by cases hr⟩
      obtain ⟨b', hb'⟩ := ha.2 (by simpa using hall [] c cs rfl)
      rw [hc] at hb'; cases hb'
    | some b' =>
      obtain ⟨i1, i2⟩ := ih (h.apply hc) (d.merge c.updates)
      refine ⟨i1.trans ⟨fun hall p e q hp => ?_, fun hall p e q hp => ?_⟩, ?_⟩
      · cases p with
        | nil =>
          simp only [List.nil_append, List.cons.injEq] at hp
          rw [← hp.1, List.append_nil]
          exact ha.1 ⟨b', hc⟩
        | cons x p =>
          simp only [List.cons_append, List.cons.injEq] at hp
          have := hall p e q hp.2
          rw [← hp.1]
          simpa using this
      · have := hall (c :: p) e q (by simp [hp])
        simpa using this
      · intro r hr
        have := i2 r hr
        simpa using this

/-- **C55, what is accepted.**  A sequence of method calls on a new builder raises no `ValueError` iff no call contradicts the
calls before it: executors, managers and groupings need dynamic execution and are set at most once, an executor is not set
after a manager, nor a manager after a remote executor, a cache is not added when there is one. -/
theorem C55_accepted (r : Nat) (cs : List (BCall V M Z A X)) :
    (∃ s, callAll isCache cs (.init r, []) = some s) ↔ ∀ p c q, cs = p ++ c :: q → Allowed isCache p c := by
  simpa using ((CallInv.init r).all (isCache := isCache) cs []).1

/-- **C55, one cache (partial).**  A driver that was built has at most one cache, if no single call of `with_adapters` gives
several and the adapter of `with_adapter` is none.  Missing: such calls (`C55_violated_caches`). -/
theorem C55_one_cache_partial {r : Nat} {cs : List (BCall V M Z A X)} {s : BuilderState M Z A X × Dict Name V}
    (h : callAll isCache cs (.init r, []) = some s)
    (hone : ∀ as, .adapters as ∈ cs → (as.filter isCache).length ≤ 1)
    (hleg : ∀ a, .adapter a ∈ cs → isCache a = false) :
    (s.1.driver.adapters.filter isCache).length ≤ 1 := by
  have hall := (C55_accepted r cs).1 ⟨s, h⟩
  have hinv := ((CallInv.init r).all (isCache := isCache) cs []).2 s h
  rw [List.nil_append] at hinv
  have hl : s.1.legacyAdapter.toList.filter isCache = [] := by
    cases hx : s.1.legacyAdapter with
    | none => rfl
    | some a => simp [hleg a ((hinv.legacy a).1 hx)]
  simp only [BuilderState.driver, List.filter_append, hl, List.append_nil, hinv.adapters]
  clear hinv h hl
  have key : ∀ n, ((addedAdapters (cs.take n)).filter isCache).length ≤ 1 := by
    intro n
    induction n with
    | zero => simp [addedAdapters]
    | succ n ih =>
      rcases Nat.lt_or_ge n cs.length with hn | hn
      · have hsplit : cs = cs.take n ++ cs[n] :: cs.drop (n + 1) := by
          rw [List.getElem_cons_drop, List.take_append_drop]
        have hal := hall _ _ _ hsplit
        have hmem : cs[n] ∈ cs := List.getElem_mem hn
        rw [List.take_add_one, List.getElem?_eq_getElem hn]
        generalize cs[n] = c at hal hmem
        simp only [addedAdapters, Option.toList_some, List.flatMap_append, List.flatMap_cons, List.flatMap_nil, List.append_nil,
          List.filter_append, List.length_append]
        change ((addedAdapters (cs.take n)).filter isCache).length + _ ≤ 1
        cases c with
        | adapters as =>
          by_cases hc : ∃ a ∈ as, isCache a = true
          · have h0 : (addedAdapters (cs.take n)).filter isCache = [] := by
              rw [List.filter_eq_nil_iff]
              intro a ha
              simp [hal hc a ha]
            have := hone as hmem
            simpa [h0] using this
          · have h0 : as.filter isCache = [] := by
              rw [List.filter_eq_nil_iff]
              intro a ha hca
              exact hc ⟨a, ha, hca⟩
            simpa [h0] using ih
        | cache a =>
          have h0 : (addedAdapters (cs.take n)).filter isCache = [] := by
            rw [List.filter_eq_nil_iff]
            intro a ha
            simp [hal a ha]
          rw [h0]
          simpa using List.length_filter_le isCache [a]
        | _ => simpa using ih
      · rw [List.take_of_length_le (by omega)]
        rw [List.take_of_length_le hn] at ih
        exact ih
  have := key cs.length
  rwa [List.take_length] at this

/-- **C55, the executors used (partial).**  In task-based execution the built driver uses the execution manager if one was set,
and otherwise exactly the executors that were set.  Setting a remote executor and a manager is refused in both orders.
Missing: a local executor set before a manager is accepted and ignored (`C55_violated_local`). -/
theorem C55_executors_partial {r : Nat} {cs : List (BCall V M Z A X)} {s : BuilderState M Z A X × Dict Name V}
    (h : callAll isCache cs (.init r, []) = some s) (hd : .enableDynamic true ∈ cs) :
    (∀ x, .manager x ∈ cs → (∃ g, s.1.driver.execution = .managed x g ∧ ∀ y, g = some y ↔ .grouping y ∈ cs) ∧
      ∀ y, .remoteExecutor y ∉ cs) ∧
    ((∀ x, .manager x ∉ cs) → ∃ l e g, s.1.driver.execution = .tasks l e g ∧ (∀ y, l = some y ↔ .localExecutor y ∈ cs) ∧
      (∀ y, e = some y ↔ .remoteExecutor y ∈ cs) ∧ ∀ y, g = some y ↔ .grouping y ∈ cs) := by
  have hall := (C55_accepted r cs).1 ⟨s, h⟩
  have hinv := ((CallInv.init r).all (isCache := isCache) cs []).2 s h
  rw [List.nil_append] at hinv
  have hv := hinv.v2.2 hd
  constructor
  · intro x hx
    refine ⟨⟨s.1.grouping, ?_, hinv.grouping⟩, ?_⟩
    · simp [BuilderState.driver, BuilderState.execution, hv, (hinv.manager x).2 hx]
    · intro y hy
      obtain ⟨p, q, hpq⟩ := List.append_of_mem hy
      have h1 := hall p _ q hpq
      obtain ⟨p', q', hpq'⟩ := List.append_of_mem hx
      have h2 := hall p' _ q' hpq'
      have hx' : BCall.manager x ∈ p ∨ BCall.manager x ∈ q := by
        rw [hpq] at hx
        rcases List.mem_append.1 hx with h | h
        · exact .inl h
        · rcases List.mem_cons.1 h with h | h
          · cases h
          · exact .inr h
      rcases hx' with h | h
      · exact h1.2.2 x h
      · obtain ⟨a, c, hac⟩ := List.append_of_mem h
        have := hall (p ++ .remoteExecutor y :: a) (.manager x) c (by rw [hpq, hac]; simp)
        exact this.2.2 y (by simp)
  · intro hm
    refine ⟨s.1.localExecutor, s.1.remoteExecutor, s.1.grouping, ?_, hinv.loc, hinv.remote, hinv.grouping⟩
    have : s.1.manager = none := by
      cases hx : s.1.manager with
      | none => rfl
      | some x => exact absurd ((hinv.manager x).1 hx) (hm x)
    simp [BuilderState.driver, BuilderState.execution, hv, this]

namespace BuilderSample

/-- The calls of a program that sets executors and a cache. -/
def calls : List (BCall Nat Nat Nat Nat Nat) :=
  [.modules [1], .enableDynamic true, .adapters [7, 9], .localExecutor 2, .remoteExecutor 3, .grouping 5, .config [("a", 1)]]

-- accepted: the hypotheses of the theorems hold
example : ∃ s, callAll (· == 9) calls (.init 0, []) = some s ∧ s.1.driver.execution = .tasks (some 2) (some 3) (some 5) ∧
    s.1.driver.adapters = [7, 9] := ⟨_, rfl, rfl, rfl⟩

example : ∀ as, .adapters as ∈ calls → (as.filter (· == 9)).length ≤ 1 := by
  intro as h
  simp only [calls, List.mem_cons, List.not_mem_nil, or_false, reduceCtorEq, false_or, BCall.adapters.injEq] at h
  subst h; decide

-- refused
example : callAll (· == 9) (calls ++ [.cache 9]) ((.init 0 : BuilderState Nat Nat Nat Nat), []) = none ∧
    callAll (· == 9) (calls ++ [.manager 4]) ((.init 0 : BuilderState Nat Nat Nat Nat), []) = none ∧
    callAll (· == 9) [.remoteExecutor 4] ((.init 0 : BuilderState Nat Nat Nat Nat), ([] : Dict Name Nat)) = none ∧
    callAll (· == 9) [.enableDynamic false] ((.init 0 : BuilderState Nat Nat Nat Nat), ([] : Dict Name Nat)) = none :=
  ⟨rfl, rfl, rfl, rfl⟩

/-- **C55 violated, caches.**  Two caches in one call of `with_adapters` are accepted. -/
theorem C55_violated_caches : ∃ s, callAll (· == 9) [.adapters [9, 9]] ((.init 0 : BuilderState Nat Nat Nat Nat), ([] : Dict Name Nat)) =
    some s ∧ s.1.driver.adapters = [9, 9] := ⟨_, rfl, rfl⟩

/-- **C55 violated, local executor.**  A local executor set before a manager is accepted, and the driver does not use it; in the
other order the call is refused. -/
theorem C55_violated_local :
    (∃ s, callAll (· == 9) [.enableDynamic true, .localExecutor 2, .manager 4]
      ((.init 0 : BuilderState Nat Nat Nat Nat), ([] : Dict Name Nat)) = some s ∧ s.1.driver.execution = .managed 4 none) ∧
    callAll (· == 9) [.enableDynamic true, .manager 4, .localExecutor 2]
      ((.init 0 : BuilderState Nat Nat Nat Nat), ([] : Dict Name Nat)) = none :=
  ⟨⟨_, rfl, rfl⟩, rfl⟩

end BuilderSample

end Verif
