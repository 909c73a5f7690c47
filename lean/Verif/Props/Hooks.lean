import Verif.Spec.Hooks
import Verif.Proofs.LifecycleInv
import Verif.Props.Sample

/-!
C35: node-level lifecycle hooks are balanced.
-/
namespace Verif
variable {T V σ : Type}

/-- How a list of hooks ends: all called without exception, or the first ones, one of which raised. -/
theorem callHooks_spec (hooks : List ((Option UserErr → HookEvent V) × (σ → Option UserErr × σ))) (s : HookState V σ) :
    (∃ t, callHooks hooks s = (none, ⟨s.log ++ hooks.map (fun h => h.1 none), t⟩)) ∨
    (∃ before ev hook after e t, hooks = before ++ (ev, hook) :: after ∧
      callHooks hooks s = (some e, ⟨s.log ++ (before.map (fun h => h.1 none) ++ [ev (some e)]), t⟩)) := by
  induction hooks generalizing s with
  | nil => exact Or.inl ⟨s.st, by simp [callHooks]⟩
  | cons h rest ih =>
    obtain ⟨ev, hook⟩ := h
    cases hh : hook s.st with
    | mk r t =>
      cases r with
      | some e => exact Or.inr ⟨[], ev, hook, rest, e, t, rfl, by simp [callHooks, hh]⟩
      | none =>
        rcases ih ⟨s.log ++ [ev none], t⟩ with ⟨t', h'⟩ | ⟨before, ev', hook', after, e, t', rfl, h'⟩
        · exact Or.inl ⟨t', by simp [callHooks, hh, h']⟩
        · exact Or.inr ⟨(ev, hook) :: before, ev', hook', after, e, t', rfl, by simp [callHooks, hh, h']⟩

/-- A hook of an adapter as an entry of the list of hooks. -/
theorem filterMap_ids (A : List (Adapter T V σ)) {H : Type} (f : Adapter T V σ → Option H)
    (ev : Nat → Option UserErr → HookEvent V) (g : Adapter T V σ → H → σ → Option UserErr × σ) :
    ∀ before ev' hook after,
      A.filterMap (fun a => (f a).map fun h => (ev a.id, g a h)) = before ++ (ev', hook) :: after →
      ∃ ids₁ id ids₂, (A.filter fun a => (f a).isSome).map (·.id) = ids₁ ++ id :: ids₂ ∧
        before.map (fun h => h.1 none) = ids₁.map (fun i => ev i none) ∧ ev' = ev id := by
  induction A with
  | nil => intro before ev' hook after h; simp at h
  | cons a A ih =>
    intro before ev' hook after h
    cases ha : f a with
    | none =>
      rw [List.filterMap_cons, ha] at h
      obtain ⟨ids₁, id, ids₂, h1, h2, h3⟩ := ih before ev' hook after h
      exact ⟨ids₁, id, ids₂, by rw [List.filter_cons, ha]; simpa using h1, h2, h3⟩
    | some x =>
      rw [List.filterMap_cons, ha] at h
      simp only [Option.map_some] at h
      cases before with
      | nil =>
        simp only [List.nil_append, List.cons.injEq, Prod.mk.injEq] at h
        exact ⟨[], a.id, _, by rw [List.filter_cons, ha]; simp; rfl, rfl, h.1.1.symm⟩
      | cons b before =>
        simp only [List.cons_append, List.cons.injEq] at h
        obtain ⟨rfl, h⟩ := h
        obtain ⟨ids₁, id, ids₂, h1, h2, h3⟩ := ih before ev' hook after h
        exact ⟨a.id :: ids₁, id, ids₂, by rw [List.filter_cons, ha]; simpa using h1, by simp [h2], h3⟩

theorem filterMap_all (A : List (Adapter T V σ)) {H : Type} (f : Adapter T V σ → Option H)
    (ev : Nat → Option UserErr → HookEvent V) (g : Adapter T V σ → H → σ → Option UserErr × σ) :
    (A.filterMap (fun a => (f a).map fun h => (ev a.id, g a h))).map (fun h => h.1 none) =
      ((A.filter fun a => (f a).isSome).map (·.id)).map (fun i => ev i none) := by
  induction A with
  | nil => rfl
  | cons a A ih =>
    cases ha : f a with
    | none => rw [List.filterMap_cons, List.filter_cons, ha]; simpa using ih
    | some x => rw [List.filterMap_cons, List.filter_cons, ha]; simpa using ih

theorem preHooks_spec (A : List (Adapter T V σ)) (n : Node T V) (kw : Dict Name V) (s : HookState V σ) :
    (∃ t, callHooks (preHooks A n kw) s = (none, ⟨s.log ++ (preIds A).map (fun i => .pre i n.name none), t⟩)) ∨
    (∃ before id after e t, preIds A = before ++ id :: after ∧ callHooks (preHooks A n kw) s =
      (some e, ⟨s.log ++ (before.map (fun i => .pre i n.name none) ++ [.pre id n.name (some e)]), t⟩)) := by
  rcases callHooks_spec (preHooks A n kw) s with ⟨t, h⟩ | ⟨before, ev, hook, after, e, t, hs, h⟩
  · left
    refine ⟨t, ?_⟩
    rw [h]
    have := filterMap_all A (·.pre) (fun i r => .pre i n.name r) (fun _ h => h n kw)
    unfold preHooks preIds
    exact congrArg (fun l => ((none : Option UserErr), (⟨s.log ++ l, t⟩ : HookState V σ))) this
  · right
    obtain ⟨ids₁, id, ids₂, h1, h2, h3⟩ := filterMap_ids A (·.pre) (fun i r => .pre i n.name r) (fun _ h => h n kw) _ _ _ _ hs
    refine ⟨ids₁, id, ids₂, e, t, h1, ?_⟩
    rw [h, h2, h3]

theorem postHooks_spec (A : List (Adapter T V σ)) (n : Node T V) (kw : Dict Name V) (success : Bool) (error : Option UserErr)
    (result : Option V) (s : HookState V σ) :
    (∃ t, callHooks (postHooks A n kw success error result) s =
      (none, ⟨s.log ++ (postIds A).map (fun i => .post i n.name success error result none), t⟩)) ∨
    (∃ before id after e t, postIds A = before ++ id :: after ∧ callHooks (postHooks A n kw success error result) s =
      (some e, ⟨s.log ++ (before.map (fun i => .post i n.name success error result none) ++
        [.post id n.name success error result (some e)]), t⟩)) := by
  rcases callHooks_spec (postHooks A n kw success error result) s with ⟨t, h⟩ | ⟨before, ev, hook, after, e, t, hs, h⟩
  · left
    refine ⟨t, ?_⟩
    rw [h]
    have := filterMap_all A (·.post) (fun i r => .post i n.name success error result r) (fun _ h => h n kw success error result)
    unfold postHooks postIds
    exact congrArg (fun l => ((none : Option UserErr), (⟨s.log ++ l, t⟩ : HookState V σ))) this
  · right
    obtain ⟨ids₁, id, ids₂, h1, h2, h3⟩ := filterMap_ids A (·.post) (fun i r => .post i n.name success error result r)
      (fun _ h => h n kw success error result) _ _ _ _ hs
    refine ⟨ids₁, id, ids₂, e, t, h1, ?_⟩
    rw [h, h2, h3]

theorem callBody_spec (A : List (Adapter T V σ)) (n : Node T V) (kw : Dict Name V) (s : HookState V σ) :
    ∃ r t, callBody A n kw s = (r, ⟨s.log ++ [.body n.name r], t⟩) := by
  unfold callBody
  cases A.findSome? (·.exec) with
  | none => exact ⟨_, _, rfl⟩
  | some h => exact ⟨_, _, rfl⟩

/-- The end of a node execution that told the truth. -/
theorem finish_spec (A : List (Adapter T V σ)) (n : Node T V) (kw : Dict Name V) (r : Except UserErr V) (success : Bool)
    (error : Option UserErr) (result : Option V)
    (htold : ∀ i x, told i n.name r x = .post i n.name success error result x) (s : HookState V σ) (log0 : List (HookEvent V))
    (hlog : s.log = log0 ++ ((preIds A).map (fun i => .pre i n.name none) ++ [.body n.name r])) :
    ∃ evs, (finishNode A n kw success error result r s).2.log = log0 ++ evs ∧
      NodeRun A n.name evs (finishNode A n kw success error result r s).1 := by
  unfold finishNode
  rcases postHooks_spec A n kw success error result s with ⟨t, h⟩ | ⟨before, id, after, e, t, h1, h⟩
  · rw [h]
    refine ⟨_, ?_, .done r⟩
    simp only [hlog, htold, List.append_assoc]
  · rw [h]
    refine ⟨_, ?_, .postFail r before id after e h1⟩
    simp only [hlog, htold, List.append_assoc]

/-- **C35** (one node): as long as nothing but subclasses of `Exception` is raised, the calls made for a node are: the hooks
before it in order; unless one of them raised, the function once and then the hooks after it in order, each told what
the function did; an exception of a hook ends the sequence and is the outcome, otherwise the outcome is that of the
function. What is missing for the full claim: interrupts (see `C35_violated_interrupt`) and hooks after the node that
raise (see `C35_violated_masked`). -/
theorem C35_node_partial (isException : UserErr → Bool) (A : List (Adapter T V σ)) (n : Node T V) (kw : Dict Name V)
    (s : HookState V σ) :
    ∃ evs, (executeLifecycle isException A n kw s).2.log = s.log ++ evs ∧
      ((∀ ev ∈ evs, Ordinary isException ev) → NodeRun A n.name evs (executeLifecycle isException A n kw s).1) := by
  unfold executeLifecycle
  rcases preHooks_spec A n kw s with ⟨t, h⟩ | ⟨before, id, after, e, t, hids, h⟩
  · rw [h]
    dsimp only
    obtain ⟨r, t', hb⟩ := callBody_spec A n kw ⟨s.log ++ (preIds A).map (fun i => .pre i n.name none), t⟩
    rw [hb]
    cases r with
    | ok v =>
      dsimp only
      obtain ⟨evs, h1, h2⟩ := finish_spec A n kw (.ok v) true none (some v) (fun _ _ => rfl)
        ⟨s.log ++ (preIds A).map (fun i => .pre i n.name none) ++ [.body n.name (.ok v)], t'⟩ s.log (by simp)
      exact ⟨evs, h1, fun _ => h2⟩
    | error e =>
      dsimp only
      by_cases he : isException e = true
      · rw [if_pos he]
        obtain ⟨evs, h1, h2⟩ := finish_spec A n kw (.error e) false (some e) none (fun _ _ => rfl)
          ⟨s.log ++ (preIds A).map (fun i => .pre i n.name none) ++ [.body n.name (.error e)], t'⟩ s.log (by simp)
        exact ⟨evs, h1, fun _ => h2⟩
      · rw [if_neg he]
        unfold finishNode
        rcases postHooks_spec A n kw true none none
          (⟨s.log ++ (preIds A).map (fun i => .pre i n.name none) ++ [.body n.name (.error e)], t'⟩ : HookState V σ) with
          ⟨t2, h2⟩ | ⟨before, id, after, e2, t2, hids, h2⟩
        · rw [h2]
          refine ⟨(preIds A).map (fun i => .pre i n.name none) ++ ([.body n.name (.error e)] ++
            (postIds A).map (fun i => .post i n.name true none none none)), by simp, ?_⟩
          intro hord
          exact absurd (hord (.body n.name (.error e)) (by simp)) he
        · rw [h2]
          refine ⟨(preIds A).map (fun i => .pre i n.name none) ++ ([.body n.name (.error e)] ++
            (before.map (fun i => .post i n.name true none none none) ++ [.post id n.name true none none (some e2)])), by simp, ?_⟩
          intro hord
          exact absurd (hord (.body n.name (.error e)) (by simp)) he
  · rw [h]
    dsimp only
    by_cases he : isException e = true
    · rw [if_pos he]
      exact ⟨_, rfl, fun _ => .preFail before id after e hids⟩
    · rw [if_neg he]
      unfold finishNode
      rcases postHooks_spec A n kw true none none
        (⟨s.log ++ (before.map (fun i => .pre i n.name none) ++ [.pre id n.name (some e)]), t⟩ : HookState V σ) with
        ⟨t2, h2⟩ | ⟨before2, id2, after2, e2, t2, hids2, h2⟩
      · rw [h2]
        refine ⟨(before.map (fun i => .pre i n.name none) ++ [.pre id n.name (some e)]) ++
          (postIds A).map (fun i => .post i n.name true none none none), by simp, ?_⟩
        intro hord
        exact absurd (hord (.pre id n.name (some e)) (by simp)) he
      · rw [h2]
        refine ⟨(before.map (fun i => .pre i n.name none) ++ [.pre id n.name (some e)]) ++
          (before2.map (fun i => .post i n.name true none none none) ++ [.post id2 n.name true none none (some e2)]), by simp, ?_⟩
        intro hord
        exact absurd (hord (.pre id n.name (some e)) (by simp)) he

/-- **C35** (whole runs): under the same condition the history of an execution is made of one such sequence per call of a
function, in the order of the calls; all of them succeeded, except the last one if the run ends with an exception of a
node, and then it is the one that propagates. -/
theorem C35_run_partial {g : Graph T V} (hw : WellFormed g) {nodes : List (Node T V)}
    (hnodes : ∀ n ∈ nodes, g.get? n.name = some n) (inputs overrides : Dict Name V) (isException : UserErr → Bool)
    (A : List (Adapter T V σ)) (st : σ) :
    match executeWith g nodes inputs overrides (executeLifecycle isException A) ⟨[], st⟩ with
    | .ok (s, t) => (∀ ev ∈ t.log, Ordinary isException ev) → RunHistory A s.calls t.log none
    | .err (.raised k e) (s, t) => (∀ ev ∈ t.log, Ordinary isException ev) → RunHistory A s.calls t.log (some (k, e))
    | .err _ (s, t) => (∀ ev ∈ t.log, Ordinary isException ev) → RunHistory A s.calls t.log none := by
  have hinv := executeWith_preserved (g := g) (inputs := inputs) (overrides := overrides)
    (run := executeLifecycle isException A)
    (J := fun s t => (∀ ev ∈ t.log, Ordinary isException ev) → RunHistory A s.calls t.log none)
    (K := fun e s t => (∀ ev ∈ t.log, Ordinary isException ev) →
      RunHistory A s.calls t.log (match e with | .raised k m => some (k, m) | _ => none))
    hw hnodes
    { keep := by
        intro s t hJ e he
        cases e with
        | raised k m => exact absurd rfl (he k m)
        | missing k => exact hJ
        | keyError k => exact hJ
        | diverge => exact hJ
      input := by
        intro s t k n v hJ _ _ _
        rw [(prune_spec _ _ _ _).1]; exact hJ
      override := fun hJ _ _ => hJ
      call := by
        intro s t k n hJ hk _ _ kw hkw
        obtain rfl : n.name = k := hw.name_eq hk
        obtain ⟨evs, h1, h2⟩ := C35_node_partial isException A n kw t
        revert h1 h2
        generalize executeLifecycle isException A n kw t = r
        obtain ⟨r, t2⟩ := r
        intro h1 h2
        dsimp only at h1 h2
        cases r with
        | error e =>
          dsimp only
          intro hord
          rw [h1] at hord ⊢
          exact .fail (hJ fun ev hev => hord ev (List.mem_append.mpr (Or.inl hev)))
            (h2 fun ev hev => hord ev (List.mem_append.mpr (Or.inr hev)))
        | ok v =>
          dsimp only
          rw [(prune_spec _ _ _ _).1]
          intro hord
          rw [h1] at hord ⊢
          exact .ok (hJ fun ev hev => hord ev (List.mem_append.mpr (Or.inl hev)))
            (h2 fun ev hev => hord ev (List.mem_append.mpr (Or.inr hev))) }
    (t := ⟨[], st⟩) (fun _ => .nil)
  revert hinv
  generalize executeWith g nodes inputs overrides (executeLifecycle isException A) ⟨[], st⟩ = o
  intro hinv
  cases o with
  | ok s => exact hinv
  | err e s => cases e <;> exact hinv

theorem mem_uniqify {a : Adapter T V σ} {A : List (Adapter T V σ)} {seen : List Nat} (h : a ∈ uniqify seen A) :
    a ∈ A ∧ a.id ∉ seen := by
  induction A generalizing seen with
  | nil => cases h
  | cons b A ih =>
    unfold uniqify at h
    split at h
    · obtain ⟨h1, h2⟩ := ih h; exact ⟨List.mem_cons_of_mem _ h1, h2⟩
    · rename_i hb
      rcases List.mem_cons.mp h with rfl | h
      · exact ⟨List.mem_cons_self .., hb⟩
      · obtain ⟨h1, h2⟩ := ih h
        exact ⟨List.mem_cons_of_mem _ h1, fun hh => h2 (List.mem_cons_of_mem _ hh)⟩

/-- Passing the same adapter several times has no effect: each adapter is in the set once, none is lost, and the order
is kept. Two adapters that both execute nodes are refused. -/
theorem C35_adapter_set (A : List (Adapter T V σ)) :
    match adapterSet A with
    | some S => (S.map (·.id)).Nodup ∧ S.Sublist A ∧ (∀ a ∈ A, a.id ∈ S.map (·.id)) ∧
        ∀ a ∈ S, ∀ b ∈ S, a.exec.isSome → b.exec.isSome → a.id = b.id
    | none => ∃ a ∈ A, ∃ b ∈ A, a.id ≠ b.id ∧ a.exec.isSome ∧ b.exec.isSome := by
  have hnd : ∀ (A : List (Adapter T V σ)) seen, ((uniqify seen A).map (·.id)).Nodup := by
    intro A
    induction A with
    | nil => intro seen; exact List.nodup_nil
    | cons a A ih =>
      intro seen
      unfold uniqify
      split
      · exact ih seen
      · rw [List.map_cons, List.nodup_cons]
        refine ⟨?_, ih _⟩
        intro h
        obtain ⟨b, hb, hab⟩ := List.mem_map.mp h
        exact (mem_uniqify hb).2 (by rw [hab]; exact List.mem_cons_self ..)
  have hsub : ∀ (A : List (Adapter T V σ)) seen, (uniqify seen A).Sublist A := by
    intro A
    induction A with
    | nil => intro seen; exact List.Sublist.refl _
    | cons a A ih =>
      intro seen
      unfold uniqify
      split
      · exact (ih seen).cons _
      · exact (ih _).cons₂ _
  have hmem : ∀ (A : List (Adapter T V σ)) seen, ∀ a ∈ A, a.id ∈ seen ∨ a.id ∈ (uniqify seen A).map (·.id) := by
    intro A
    induction A with
    | nil => intro seen a h; cases h
    | cons b A ih =>
      intro seen a h
      unfold uniqify
      rcases List.mem_cons.mp h with rfl | h
      · split
        · left; assumption
        · right; simp
      · split
        · exact ih seen a h
        · rcases ih (b.id :: seen) a h with h' | h'
          · rcases List.mem_cons.mp h' with h' | h'
            · right; simp [h']
            · exact Or.inl h'
          · right; rw [List.map_cons]; exact List.mem_cons_of_mem _ h'
  have hcount : ∀ (S : List (Adapter T V σ)), (S.map (·.id)).Nodup →
      (S.countP (fun a => a.exec.isSome) ≤ 1 → ∀ a ∈ S, ∀ b ∈ S, a.exec.isSome → b.exec.isSome → a.id = b.id) ∧
      (S.countP (fun a => a.exec.isSome) > 1 → ∃ a ∈ S, ∃ b ∈ S, a.id ≠ b.id ∧ a.exec.isSome ∧ b.exec.isSome) := by
    intro S
    induction S with
    | nil => intro _; exact ⟨fun _ a h => (by cases h), fun h => (by simp at h)⟩
    | cons x S ih =>
      intro hS
      rw [List.map_cons, List.nodup_cons] at hS
      obtain ⟨i1, i2⟩ := ih hS.2
      rw [List.countP_cons]
      cases hx : x.exec.isSome with
      | false =>
        simp only [Bool.false_eq_true, if_false, Nat.add_zero]
        refine ⟨?_, ?_⟩
        · intro hc a ha b hb hea heb
          rcases List.mem_cons.mp ha with rfl | ha'
          · rw [hx] at hea; cases hea
          · rcases List.mem_cons.mp hb with rfl | hb'
            · rw [hx] at heb; cases heb
            · exact i1 hc a ha' b hb' hea heb
        · intro hc
          obtain ⟨a, ha, b, hb, h⟩ := i2 hc
          exact ⟨a, List.mem_cons_of_mem _ ha, b, List.mem_cons_of_mem _ hb, h⟩
      | true =>
        simp only [if_true]
        refine ⟨?_, ?_⟩
        · intro hc a ha b hb hea heb
          have hnone : ∀ y ∈ S, ¬ (y.exec.isSome = true) := by
            intro y hy hey
            have : 0 < S.countP (fun a => a.exec.isSome) := List.countP_pos_iff.mpr ⟨y, hy, hey⟩
            omega
          rcases List.mem_cons.mp ha with rfl | ha'
          · rcases List.mem_cons.mp hb with rfl | hb'
            · rfl
            · exact absurd heb (hnone b hb')
          · exact absurd hea (hnone a ha')
        · intro hc
          have : 0 < S.countP (fun a => a.exec.isSome) := by omega
          obtain ⟨y, hy, hey⟩ := List.countP_pos_iff.mp this
          refine ⟨x, List.mem_cons_self .., y, List.mem_cons_of_mem _ hy, ?_, hx, hey⟩
          intro heq
          exact hS.1 (List.mem_map.mpr ⟨y, hy, heq.symm⟩)
  unfold adapterSet
  split
  · rename_i S hS
    split at hS
    · cases hS
    · rename_i hc
      cases hS
      exact ⟨hnd A [], hsub A [], fun a ha => (hmem A [] a ha).resolve_left (by simp),
        (hcount _ (hnd A [])).1 (by omega)⟩
  · rename_i hS
    split at hS
    · rename_i hc
      obtain ⟨a, ha, b, hb, h⟩ := (hcount _ (hnd A [])).2 hc
      exact ⟨a, (mem_uniqify ha).1, b, (mem_uniqify hb).1, h⟩
    · cases hS

namespace HookSample
open Sample

/-- Counts the nodes that started and ended. -/
def counter : Adapter Unit Int (Nat × Nat) :=
  { id := 1, pre := some fun _ _ s => (none, (s.1 + 1, s.2)), post := some fun _ _ _ _ _ s => (none, (s.1, s.2 + 1)) }

/-- Refuses to start a node when the previous hooks counted three starts. -/
def limit : Adapter Unit Int (Nat × Nat) :=
  { id := 2, pre := some fun _ _ s => (if s.1 = 3 then some "limit" else none, s) }

/-- Complains about large results. -/
def complain : Adapter Unit Int (Nat × Nat) :=
  { id := 3, post := some fun _ _ _ _ r s => (if r = some 16 then some "large" else none, s) }

/-- What is requested. -/
def want : List (Node Unit Int) := (graph.get? "top").toList

/-- Everything is an `Exception`. -/
def all : UserErr → Bool := fun _ => true

/-- The events of a history as plain data: kind, adapter, node, result, exceptions. -/
def shape : HookEvent Int → String × Nat × Name × Option Int × List UserErr
  | .pre i n r => ("pre", i, n, none, r.toList)
  | .body n (.ok v) => ("body", 0, n, some v, [])
  | .body n (.error e) => ("body", 0, n, none, [e])
  | .post i n _ e r x => ("post", i, n, r, e.toList ++ x.toList)

/-- The history of a run of the sample graph. -/
def history (A : List (Adapter Unit Int (Nat × Nat))) (x : Int) : List (String × Nat × Name × Option Int × List UserErr) :=
  (executeWith graph want [("x", x)] [] (executeLifecycle all A) ⟨[], (0, 0)⟩).state.2.log.map shape

/-- A run where the hook before the third node raises. -/
example : history [counter, limit, complain] 1 =
    [("pre", 1, "base", none, []), ("pre", 2, "base", none, []), ("body", 0, "base", some 2, []),
     ("post", 1, "base", some 2, []), ("post", 3, "base", some 2, []), ("pre", 1, "left", none, []),
     ("pre", 2, "left", none, []), ("body", 0, "left", some 4, []), ("post", 1, "left", some 4, []),
     ("post", 3, "left", some 4, []), ("pre", 1, "right", none, []), ("pre", 2, "right", none, ["limit"])] := by decide +kernel

/-- A run that succeeds. -/
example : (history [counter, complain] 1).length = 4 * 4 := by decide +kernel

example : ∀ n ∈ want, graph.get? n.name = some n := by
  intro n hn
  have h : graph.get? "top" = some n := by simpa [want] using hn
  rw [graph_wf.name_eq h]; exact h

/-- The hypothesis of `C35_node_partial` holds in these runs. -/
example (A : List (Adapter Unit Int (Nat × Nat))) (ev : HookEvent Int) : Ordinary all ev := by
  cases ev with
  | pre _ _ r => cases r <;> simp [Ordinary, all]
  | body _ r => cases r <;> simp [Ordinary, all]
  | post _ _ _ _ _ r => cases r <;> simp [Ordinary, all]

example : (adapterSet [counter, limit, counter, complain, limit]).map (·.map (·.id)) = some [1, 2, 3] := by decide

/-- A function that raises. -/
def failing (e : UserErr) : Node Unit Int := fnNode "f" [] (fun _ => .error e)

/-- `KeyboardInterrupt` is the only exception that does not derive from `Exception`. -/
def notInterrupt : UserErr → Bool := fun e => decide (e ≠ "KeyboardInterrupt")

/-- **C35 is violated**: when a node is interrupted (`KeyboardInterrupt`), the hooks after it are told that it succeeded with
result `None`; when a hook before it is interrupted, the hooks after it are called although the node was not. -/
theorem C35_violated_interrupt :
    (executeLifecycle notInterrupt [counter] (failing "KeyboardInterrupt") [] ⟨[], (0, 0)⟩).2.log =
      [.pre 1 "f" none, .body "f" (.error "KeyboardInterrupt"), .post 1 "f" true none none none] ∧
    ∃ a : Adapter Unit Int (Nat × Nat), a.pre.isSome ∧
      (executeLifecycle notInterrupt [a, counter] (failing "ValueError") [] ⟨[], (0, 0)⟩).2.log =
        [.pre 2 "f" (some "KeyboardInterrupt"), .post 1 "f" true none none none] :=
  ⟨rfl, { id := 2, pre := some fun _ _ s => (some "KeyboardInterrupt", s) }, rfl, rfl⟩

/-- **C35 is violated**: if a hook after the node raises, the hooks of later adapters are not called, and the exception of the
function does not reach the caller (it is only the context of the hook's exception). -/
theorem C35_violated_masked :
    ∃ a : Adapter Unit Int (Nat × Nat), a.post.isSome ∧
      ∃ s, executeLifecycle notInterrupt [a, counter] (failing "ValueError") [] ⟨[], (0, 0)⟩ = (.error "KeyError", s) ∧
        s.log = [.pre 1 "f" none, .body "f" (.error "ValueError"),
          .post 2 "f" false (some "ValueError") none (some "KeyError")] :=
  ⟨{ id := 2, post := some fun _ _ _ _ _ s => (some "KeyError", s) }, rfl, _, rfl, rfl⟩

end HookSample
end Verif
