import Verif.Spec.Recorders

/-! Lemmas about `Verif.Model.Recorders`. -/
namespace Verif.Recorders

open Spec

/-! ### Text -/

theorem hasPart_eq (part : List Char) (text : List Char) : hasPart part text = occurs part text := by
  induction text with
  | nil => cases part <;> simp [hasPart, occurs]
  | cons c cs ih =>
    have : occurs part (c :: cs) = (part.isPrefixOf (c :: cs) || occurs part cs) := by
      simp only [occurs, List.length_cons]
      rw [List.range_succ_eq_map, List.any_cons, List.any_map]
      rfl
    rw [this, hasPart, ih]

theorem cutAt_eq (part : List Char) (text : List Char) : cutAt part text = upTo part text := by
  induction text with
  | nil => simp [cutAt, upTo]
  | cons c cs ih =>
    simp only [upTo, List.length_cons, cutAt] at ih ⊢
    rw [List.range_succ_eq_map, List.find?_cons, List.find?_map, ih]
    simp only [List.drop_zero]
    by_cases h : part.isPrefixOf (c :: cs) = true
    · simp [h]
    · simp only [Bool.not_eq_true] at h
      simp only [h]
      have hf : ((fun i => part.isPrefixOf (List.drop i (c :: cs))) ∘ Nat.succ) = fun i => part.isPrefixOf (List.drop i cs) := rfl
      rw [hf]
      cases List.find? (fun i => part.isPrefixOf (List.drop i cs)) (List.range cs.length) <;> simp

theorem takeWhile_all {α : Type} (p : α → Bool) (l : List α) (h : ∀ x ∈ l, p x = true) : l.takeWhile p = l := by
  induction l with
  | nil => rfl
  | cons a l ih =>
    rw [List.takeWhile_cons, if_pos (h a (by simp)), ih fun x hx => h x (List.mem_cons_of_mem _ hx)]

theorem takeWhile_true {α : Type} (p : α → Bool) (l : List α) (x : α) (h : x ∈ l.takeWhile p) : p x = true := by
  induction l with
  | nil => cases h
  | cons a l ih =>
    rw [List.takeWhile_cons] at h
    by_cases ha : p a = true
    · rw [if_pos ha] at h
      cases List.mem_cons.mp h with
      | inl h => rw [h]; exact ha
      | inr h => exact ih h
    · rw [if_neg ha] at h; cases h

theorem ext_aux (cs : List Char) (acc : List Char) :
    cs.foldl (fun acc c => if c = '.' then [] else acc ++ [c]) acc =
      if '.' ∈ cs then (cs.reverse.takeWhile (· != '.')).reverse else acc ++ cs := by
  induction cs generalizing acc with
  | nil => simp
  | cons c cs ih =>
    rw [List.foldl_cons, ih]
    by_cases hm : '.' ∈ cs
    · have hm' : '.' ∈ c :: cs := List.mem_cons_of_mem _ hm
      rw [if_pos hm, if_pos hm', List.reverse_cons, List.takeWhile_append]
      have : (cs.reverse.takeWhile (· != '.')).length ≠ cs.reverse.length := by
        intro h
        have h2 := (List.takeWhile_prefix (p := (· != '.')) (l := cs.reverse)).eq_of_length h
        have h3 := takeWhile_true (· != '.') cs.reverse '.' (by rw [h2]; simpa using hm)
        simp at h3
      rw [if_neg this]
    · rw [if_neg hm]
      have hall : cs.reverse.takeWhile (· != '.') = cs.reverse := by
        apply takeWhile_all
        intro x hx
        have : x ≠ '.' := fun h => hm (by rw [← h]; simpa using hx)
        simpa using this
      by_cases hc : c = '.'
      · subst hc
        simp [List.takeWhile_append, hall]
      · have : '.' ∉ c :: cs := by simp [hm, Ne.symm hc]
        rw [if_neg hc, if_neg this]
        simp

theorem lastPart_eq (p : String) (h : '.' ∈ p.toList) : lastPart p = extension p := by
  simp only [lastPart, extension]
  rw [ext_aux, if_pos h]

theorem hasDot_iff (p : String) : hasDot p = true ↔ '.' ∈ p.toList := by simp [hasDot]

/-! ### MLflow -/

theorem modify_last {α : Type} (pre : List α) (x : α) (f : α → α) : (pre ++ [x]).modify pre.length f = pre ++ [f x] := by
  induction pre with
  | nil => rfl
  | cons a l ih => simp only [List.cons_append, List.length_cons, List.modify_succ_cons, ih]

theorem logParams_ok (xs : List (Name × Val)) : ∀ ps : List (Name × Val), ((ps ++ xs).map Prod.fst).Nodup →
    logParams ps xs = (ps ++ xs, none) := by
  induction xs with
  | nil => intro ps _; simp [logParams]
  | cons x xs ih =>
    intro ps h
    obtain ⟨k, v⟩ := x
    have hk : Dict.get? ps k = none := by
      rw [Dict.get?_eq_none_iff]
      intro hm
      rw [List.map_append, List.nodup_append] at h
      exact h.2.2 k hm k (by simp) rfl
    rw [logParams]
    simp only [hk]
    rw [ih _ (by simpa using h)]
    simp

/-- What one hook after a node does to the tracker. -/
structure Grows (n : Name) (ls : Option Logged) (ns : Option ModelNote) (k k' : Tracker) : Prop where
  run : k'.run = k.run
  config : k'.config = k.config
  choose : k'.choose = k.choose
  finals : k'.finalVars = k.finalVars
  active : k'.server.active = k.server.active
  notes : k'.server.notes = k.server.notes ++ ns.toList
  runs : k'.server.runs = k.server.runs.modify k.run fun r => { r with log := r.log ++ ls.toList }
  others : ∀ m, m ≠ n → find k'.graph m = find k.graph m
  same : ∀ m x, find k.graph m = some x → ∃ req, find k'.graph m = some { x with required := req }

theorem modify_id {α : Type} (l : List α) (i : Nat) (f : α → α) (h : ∀ x, f x = x) : l.modify i f = l := by
  have : f = id := funext h
  subst this
  simp

theorem grows_refl (n : Name) (k : Tracker) : Grows n none none k k where
  run := rfl
  config := rfl
  choose := rfl
  finals := rfl
  active := rfl
  notes := by simp
  runs := by rw [modify_id]; intro x; simp
  others := fun _ _ => rfl
  same := fun _ x h => ⟨x.required, h⟩

theorem grows_write (n : Name) (k : Tracker) (x : Logged) : Grows n (some x) none k (k.write x) where
  run := rfl
  config := rfl
  choose := rfl
  finals := rfl
  active := rfl
  notes := by simp [Tracker.write, Tracker.onRun]
  runs := rfl
  others := fun _ _ => rfl
  same := fun _ x h => ⟨x.required, h⟩

theorem find_map (g : List GNode) (n m : Name) (f : List Name → List Name) :
    find (g.map fun y => if y.name == n then { y with required := f y.required } else y) m =
      (find g m).map fun y => if y.name == n then { y with required := f y.required } else y := by
  induction g with
  | nil => rfl
  | cons a g ih =>
    simp only [find] at ih ⊢
    rw [List.map_cons, List.find?_cons, List.find?_cons, ih]
    have hn : (if a.name == n then { a with required := f a.required } else a).name = a.name := by
      by_cases h : (a.name == n) = true
      · rw [if_pos h]
      · rw [if_neg h]
    rw [hn]
    cases a.name == m <;> rfl

theorem find_name {g : List GNode} {n : Name} {x : GNode} (h : find g n = some x) : x.name = n := by
  have := List.find?_some h
  simpa using this

theorem find_mem {g : List GNode} (hn : (g.map GNode.name).Nodup) {x : GNode} (h : x ∈ g) : find g x.name = some x := by
  induction g with
  | nil => cases h
  | cons a g ih =>
    rw [List.map_cons, List.nodup_cons] at hn
    simp only [find] at ih ⊢
    rw [List.find?_cons]
    cases List.mem_cons.mp h with
    | inl h => rw [h]; simp
    | inr h =>
      have : (a.name == x.name) = false := by
        rw [beq_eq_false_iff_ne]
        intro he
        exact hn.1 (by rw [he]; exact List.mem_map_of_mem h)
      rw [this]
      exact ih hn.2 h

/-- Taking the only dependency of a node. -/
theorem pop_single (k : Tracker) (hc : ∀ l, l ≠ [] → k.choose l ∈ l) {n d : Name} {x : GNode} (hx : find k.graph n = some x)
    (hr : x.required = [d]) : ∃ g, k.pop n = .ok (d, { k with graph := g }) ∧ (∀ m, m ≠ n → find g m = find k.graph m) ∧
      (∀ m y, find k.graph m = some y → ∃ req, find g m = some { y with required := req }) := by
  have hd : k.choose [d] = d := by simpa using hc [d] (by simp)
  refine ⟨k.graph.map fun y => if y.name == n then { y with required := y.required.filter fun e => e != d } else y, ?_, ?_, ?_⟩
  · simp only [Tracker.pop, hx, hr, hd]
    rfl
  · intro m hm
    rw [find_map]
    cases h : find k.graph m with
    | none => rfl
    | some y =>
      have : y.name = m := find_name h
      simp only [Option.map_some]
      have hne : ¬ (y.name == n) = true := by rw [this]; simpa using hm
      rw [if_neg hne]
  · intro m y h
    rw [find_map, h]
    simp only [Option.map_some]
    by_cases hy : (y.name == n) = true
    · rw [if_pos hy]; exact ⟨_, rfl⟩
    · rw [if_neg hy]; exact ⟨y.required, rfl⟩

theorem grows_graph {n : Name} {ls : Option Logged} {ns : Option ModelNote} {k k' : Tracker} {g : List GNode}
    (h1 : ∀ m, m ≠ n → find g m = find k.graph m)
    (h2 : ∀ m y, find k.graph m = some y → ∃ req, find g m = some { y with required := req })
    (h : Grows n ls ns { k with graph := g } k') : Grows n ls ns k k' where
  run := h.run
  config := h.config
  choose := h.choose
  finals := h.finals
  active := h.active
  notes := h.notes
  runs := h.runs
  others := fun m hm => (h.others m hm).trans (h1 m hm)
  same := fun m x hx => by
    obtain ⟨r1, hr1⟩ := h2 m x hx
    obtain ⟨r2, hr2⟩ := h.same m _ hr1
    exact ⟨r2, hr2⟩

theorem place_eq (m : Meta) : place m = (pathOf m).filter fun p => p != "" := by
  simp only [place, pathOf]
  cases m.path <;> simp

theorem find_spec (g : List GNode) (d : Name) : (g.find? fun y => decide (y.name = d)) = find g d := by
  simp only [find]
  congr 1

theorem isInternal_eq (k : Name) : isInternal k = occurs "hamilton.".toList k.toList := by
  rw [isInternal, hasPart_eq]

/-- The conditions of `Trackable` on one execution. -/
structure StepOk (g : List GNode) (finals : List Name) (t : Step) : Prop where
  failing : ∀ e, t.outcome = .error e → t.node.saver = none ∧ t.node.name ∉ finals
  saved : ∀ v, t.outcome = .ok v → t.node.saver.isSome → ∃ m, v = .info m
  numbers : ∀ v, t.outcome = .ok v → t.node.saver = none → t.node.name ∈ finals →
    t.node.type = .float ∨ t.node.type = .int → ∃ n, v = .number n
  source : ∀ sink, t.node.saver = some sink → sink ∈ ["mlflow", "plt", "plotly"] →
    find g t.node.name = some t.node ∧ ∃ y, find g y.name = some y ∧ t.node.required = [y.name] ∧ y.origins ≠ [] ∧
      y.name ∈ t.kwargs.map Prod.fst

theorem after_ok (g : List GNode) (k : Tracker) (t : Step) (v : Val) (hc : ∀ l, l ≠ [] → k.choose l ∈ l)
    (ht : StepOk g k.finalVars t) (hv : t.outcome = .ok v)
    (hsame : ∀ m x, find g m = some x → ∃ req, find k.graph m = some { x with required := req })
    (hself : find k.graph t.node.name = find g t.node.name) :
    ∃ k', k.after t = (k', none) ∧ Grows t.node.name (loggedOf k.finalVars (t, v)) (noteOf g (t, v)) k k' := by
  have hres : t.result = v := by simp [Step.result, hv]
  cases hs : t.node.saver with
  | none =>
    have hnote : noteOf g (t, v) = none := by simp [noteOf, hs]
    rw [hnote]
    by_cases hf : t.node.name ∈ k.finalVars
    · have ha : k.after t = k.afterFinal t := by simp [Tracker.after, hs, hf]
      have hl : loggedOf k.finalVars (t, v) = loggedValue t.node v := by simp [loggedOf, hs, hf]
      rw [ha, hl]
      have hnum := ht.numbers v hv hs hf
      simp only [Tracker.afterFinal, loggedValue, hres]
      cases hty : t.node.type with
      | float =>
        obtain ⟨n, rfl⟩ := hnum (Or.inl hty)
        exact ⟨_, rfl, grows_write _ _ _⟩
      | int =>
        obtain ⟨n, rfl⟩ := hnum (Or.inr hty)
        exact ⟨_, rfl, grows_write _ _ _⟩
      | figure => exact ⟨_, rfl, grows_write _ _ _⟩
      | str => exact ⟨_, rfl, grows_write _ _ _⟩
      | dict => exact ⟨_, rfl, grows_write _ _ _⟩
      | other => exact ⟨_, rfl, grows_write _ _ _⟩
    · have ha : k.after t = (k, none) := by simp [Tracker.after, hs, hf]
      have hl : loggedOf k.finalVars (t, v) = none := by simp [loggedOf, hs, hf]
      rw [ha, hl]
      exact ⟨k, rfl, grows_refl _ _⟩
  | some sink =>
    obtain ⟨m, rfl⟩ := ht.saved v hv (by simp [hs])
    by_cases hml : sink = "mlflow"
    · have ha : k.after t = k.afterModel t := by simp [Tracker.after, hs, hml]
      have hl : loggedOf k.finalVars (t, .info m) = none := by simp [loggedOf, hs, hml]
      rw [ha, hl]
      cases hreg : m.registered with
      | none =>
        have hn : noteOf g (t, .info m) = none := by simp [noteOf, hreg]
        rw [hn]
        refine ⟨k, ?_, grows_refl _ _⟩
        simp [Tracker.afterModel, hres, hreg]
      | some mv =>
        obtain ⟨model, version⟩ := mv
        obtain ⟨hin, y, hy, hreq, hor, _⟩ := ht.source sink hs (by simp [hml])
        rw [hin] at hself
        obtain ⟨g', hpop, h1, h2⟩ := pop_single k hc hself hreq
        obtain ⟨r1, hr1⟩ := hsame _ _ hy
        obtain ⟨r2, hr2⟩ := h2 _ _ hr1
        cases hof : y.origins with
        | nil => exact absurd hof hor
        | cons f fs =>
          have hn : noteOf g (t, .info m) = some
              { model := model
                version := version
                doc := y.doc
                node := y.name
                function := f.name
                tags := y.tags.filter fun p => !occurs "hamilton.".toList p.1.toList } := by
            simp only [noteOf, hs, hml, hreg, hreq, find_spec, hy, hof]
            rfl
          rw [hn]
          have hmodel : k.afterModel t =
              ({ k with graph := g', server := { k.server with notes := k.server.notes ++
                [{ model := model, version := version, doc := y.doc, node := y.name, function := f.name,
                   tags := y.tags.filter fun p => !isInternal p.1 }] } }, none) := by
            simp only [Tracker.afterModel, hres, hreg, hpop, hr2, hof]
          rw [hmodel]
          refine ⟨_, rfl, grows_graph h1 h2 ?_⟩
          exact
            { run := rfl
              config := rfl
              choose := rfl
              finals := rfl
              active := rfl
              notes := by simp only [Option.toList, isInternal_eq]
              runs := by rw [modify_id]; intro x; simp
              others := fun _ _ => rfl
              same := fun _ x h => ⟨x.required, h⟩ }
    · have hn : noteOf g (t, .info m) = none := by simp [noteOf, hs, hml]
      rw [hn]
      by_cases hfig : sink = "plt" ∨ sink = "plotly"
      · have ha : k.after t = k.afterFigure t := by
          simp only [Tracker.after, hs]
          rw [if_neg hml, if_pos hfig]
        obtain ⟨hin, y, hy, hreq, _, hkw⟩ := ht.source sink hs (by rcases hfig with h | h <;> simp [h])
        rw [hin] at hself
        obtain ⟨g', hpop, h1, h2⟩ := pop_single k hc hself hreq
        obtain ⟨r1, hr1⟩ := hsame _ _ hy
        obtain ⟨r2, hr2⟩ := h2 _ _ hr1
        obtain ⟨fig, hget⟩ := Dict.mem_keys_iff.mp hkw
        rw [ha]
        cases hp : pathOf m with
        | none =>
          have hl : loggedOf k.finalVars (t, .info m) = none := by
            simp only [loggedOf, hs, place_eq, hp]
            rw [if_neg hml]; rfl
          rw [hl]
          refine ⟨{ k with graph := g' }, ?_, grows_graph h1 h2 (grows_refl _ _)⟩
          simp only [Tracker.afterFigure, hpop, hr2, hget, hres, hp]
        | some p =>
          by_cases hpe : p = ""
          · have hl : loggedOf k.finalVars (t, .info m) = none := by
              have hf : Option.filter (fun p => p != "") (some p) = none := by simp [hpe]
              simp only [loggedOf, hs, place_eq, hp, hf]
              rw [if_neg hml]
            rw [hl]
            refine ⟨{ k with graph := g' }, ?_, grows_graph h1 h2 (grows_refl _ _)⟩
            simp only [Tracker.afterFigure, hpop, hr2, hget, hres, hp, hpe, if_true]
          · have hl : loggedOf k.finalVars (t, .info m) = some (.figure fig p) := by
              have hf : Option.filter (fun p => p != "") (some p) = some p := by simp [hpe]
              simp only [loggedOf, hs, place_eq, hp, hf, hreq, hget]
              rw [if_neg hml, if_pos hfig]; rfl
            rw [hl]
            refine ⟨_, ?_, grows_graph h1 h2 (grows_write _ _ (.figure fig p))⟩
            simp only [Tracker.afterFigure, hpop, hr2, hget, hres, hp]
            rw [if_neg hpe]
      · have ha : k.after t = k.afterSaver t := by
          simp only [Tracker.after, hs]
          rw [if_neg hml, if_neg hfig]
        rw [ha]
        cases hp : pathOf m with
        | none =>
          have hl : loggedOf k.finalVars (t, .info m) = none := by
            simp only [loggedOf, hs, place_eq, hp]
            rw [if_neg hml]; rfl
          rw [hl]
          exact ⟨k, by simp only [Tracker.afterSaver, hres, hp], grows_refl _ _⟩
        | some p =>
          by_cases hpe : p = ""
          · have hl : loggedOf k.finalVars (t, .info m) = none := by
              have hf : Option.filter (fun p => p != "") (some p) = none := by simp [hpe]
              simp only [loggedOf, hs, place_eq, hp, hf]
              rw [if_neg hml]
            rw [hl]
            exact ⟨k, by simp only [Tracker.afterSaver, hres, hp, hpe, if_true], grows_refl _ _⟩
          · have hl : loggedOf k.finalVars (t, .info m) = some (.artifact p t.node.name) := by
              have hf : Option.filter (fun p => p != "") (some p) = some p := by simp [hpe]
              simp only [loggedOf, hs, place_eq, hp, hf]
              rw [if_neg hml, if_neg hfig]
            rw [hl]
            refine ⟨_, ?_, grows_write _ _ _⟩
            simp only [Tracker.afterSaver, hres, hp]
            rw [if_neg hpe]

theorem after_failed (g : List GNode) (k : Tracker) (t : Step) (e : Err) (ht : StepOk g k.finalVars t)
    (he : t.outcome = .error e) : k.after t = (k, none) := by
  obtain ⟨h1, h2⟩ := ht.failing e he
  simp [Tracker.after, h1, h2]

theorem ml_steps (g : List GNode) (id : Name) (steps : List Step) : ∀ (k : Tracker) (pre : List MlRun) (cur : MlRun),
    (∀ l, l ≠ [] → k.choose l ∈ l) → (∀ t ∈ steps, StepOk g k.finalVars t) →
    (steps.map fun t => t.node.name).Nodup →
    (∀ m x, find g m = some x → ∃ req, find k.graph m = some { x with required := req }) →
    (∀ t ∈ steps, find k.graph t.node.name = find g t.node.name) →
    k.server.runs = pre ++ [cur] → k.run = pre.length →
    ∃ k', driveSteps mlflow id k steps = (k', (failed steps).map Prod.snd) ∧
      k'.run = k.run ∧ k'.config = k.config ∧ k'.choose = k.choose ∧
      k'.server.notes = k.server.notes ++ (succeeded steps).filterMap (noteOf g) ∧
      k'.server.runs = pre ++ [{ cur with log := cur.log ++ (succeeded steps).filterMap (loggedOf k.finalVars) }] := by
  induction steps with
  | nil =>
    intro k pre cur _ _ _ _ _ hruns _
    exact ⟨k, rfl, rfl, rfl, rfl, by simp [succeeded], by simp [succeeded, hruns]⟩
  | cons t rest ih =>
    intro k pre cur hc hok hnd hsame hself hruns hrun
    have hb : mlflow.before k t = (k, none) := rfl
    have hd : mlflow.during k t = k := rfl
    have ha : mlflow.after k id t = k.after t := rfl
    cases ho : t.outcome with
    | error e =>
      refine ⟨k, ?_, rfl, rfl, rfl, by simp [succeeded, ho], by simp [succeeded, ho, hruns]⟩
      have := after_failed g k t e (hok t (by simp)) ho
      simp only [driveSteps, hb, hd, ha, this, Step.error, ho, failed, Option.map_some]
    | ok v =>
      obtain ⟨k1, h1, hg⟩ := after_ok g k t v hc (hok t (by simp)) ho hsame (hself t (by simp))
      rw [List.map_cons, List.nodup_cons] at hnd
      have hruns1 : k1.server.runs = pre ++ [{ cur with log := cur.log ++ (loggedOf k.finalVars (t, v)).toList }] := by
        rw [hg.runs, hruns, hrun, modify_last]
      obtain ⟨k2, h2, e1, e2, e3, e4, e5⟩ := ih k1 pre _ (by rw [hg.choose]; exact hc)
        (by rw [hg.finals]; exact fun u hu => hok u (List.mem_cons_of_mem _ hu)) hnd.2
        (fun m x hx => by
          obtain ⟨r1, hr1⟩ := hsame m x hx
          obtain ⟨r2, hr2⟩ := hg.same m _ hr1
          exact ⟨r2, hr2⟩)
        (fun u hu => by
          rw [hg.others _ (fun h => hnd.1 (by rw [← h]; exact List.mem_map_of_mem hu))]
          exact hself u (List.mem_cons_of_mem _ hu))
        hruns1 (by rw [hg.run]; exact hrun)
      refine ⟨k2, ?_, e1.trans hg.run, e2.trans hg.config, e3.trans hg.choose, ?_, ?_⟩
      · simp only [driveSteps, hb, hd, ha, h1, Step.error, ho, failed]
        exact h2
      · rw [e4, hg.notes]
        simp only [succeeded, ho, List.filterMap_cons]
        cases noteOf g (t, v) <;> simp
      · rw [e5, hg.finals]
        simp only [succeeded, ho, List.filterMap_cons]
        cases loggedOf k.finalVars (t, v) <;> simp

theorem failureOf_eq (r : Run) : ((failed r.steps).map Prod.snd).or r.build = failureOf r := by
  simp only [failureOf]
  cases failed r.steps <;> rfl

theorem ml_drive (k : Tracker) (r : Run) (hc : ∀ l, l ≠ [] → k.choose l ∈ l) (ha : k.server.active = none)
    (h : Trackable k.config r) : ∃ k', drive mlflow k r = (k', failureOf r) ∧ k'.config = k.config ∧ k'.choose = k.choose ∧
      k'.server =
        { runs := k.server.runs ++ [mlRunOf k.config r]
          notes := k.server.notes ++ (succeeded r.steps).filterMap (noteOf r.graph)
          active := none } := by
  obtain ⟨ins, hins, hnd⟩ := h.inputs
  have hlog : logParams [] (k.config ++ ins) = (k.config ++ ins, none) := by
    rw [logParams_ok _ _ (by simpa using hnd)]; simp
  let cur : MlRun := { hamiltonRun := r.id, codeVersion := r.version, params := k.config ++ ins }
  let k0 : Tracker :=
    { k with
      run := k.server.runs.length
      graph := r.graph
      finalVars := r.finalVars
      server := { runs := k.server.runs ++ [cur], notes := k.server.notes, active := some k.server.runs.length } }
  have hstart : mlflow.start k r = (k0, none) := by
    show k.start r = _
    simp only [Tracker.start, ha, hins, hlog, Tracker.onRun, modify_last]
    rfl
  obtain ⟨k1, h1, e1, e2, e3, e4, e5⟩ := ml_steps r.graph r.id r.steps k0 k.server.runs cur hc
    (fun t ht =>
      { failing := h.failing t ht
        saved := h.saved t ht
        numbers := h.numbers t ht
        source := fun sink hs hm => by
          obtain ⟨hin, y, hy, h3, h4, h5⟩ := h.source t ht sink hs hm
          exact ⟨find_mem h.names hin, y, find_mem h.names hy, h3, h4, h5⟩ })
    h.once (fun m x hx => ⟨x.required, hx⟩) (fun _ _ => rfl) rfl rfl
  refine ⟨(k1.finish (failureOf r)).1, ?_, ?_, ?_, ?_⟩
  · have hf2 : mlflow.finish k1 r (failureOf r) = ((k1.finish (failureOf r)).1, none) := rfl
    simp only [drive, hstart, h1, failureOf_eq, hf2]
  · exact e2
  · exact e3
  · have hr : k1.run = k.server.runs.length := e1
    simp only [Tracker.finish, Tracker.onRun, e5, hr, modify_last, e4]
    simp only [mlRunOf, hins]
    rfl

/-! ### Experiments -/

theorem resolve_eq (dir p : String) : resolve dir p = placeIn dir p := by
  simp only [resolve, placeIn]
  cases p.toList with
  | nil => rfl
  | cons c cs =>
    by_cases h : c = '/'
    · simp [List.isPrefixOf, h]
    · have : ('/' == c) = false := by rw [beq_eq_false_iff_ne]; exact Ne.symm h
      simp [List.isPrefixOf, h, this]

theorem scan_ok (ins : Dict Name Val) (g : List GNode) : ∀ l : Lab,
    (∀ n ∈ g, n.external = true → ∀ f, n.origins.head? = some f → n.name ∈ f.params.map Prod.fst) →
    ∃ ms, l.scan (some ins) g = ({ l with modules := ms, inputs := l.inputs ++ g.filterMap (inputOf ins) }, none) ∧
      (∀ m, m ∈ ms ↔ m ∈ l.modules ∨ ∃ n ∈ g, n.module = some m) ∧ (l.modules.Nodup → ms.Nodup) := by
  induction g with
  | nil => intro l _; exact ⟨l.modules, by simp [Lab.scan], by simp, fun h => h⟩
  | cons x rest ih =>
    intro l h
    have hrest : ∀ n ∈ rest, n.external = true → ∀ f, n.origins.head? = some f → n.name ∈ f.params.map Prod.fst :=
      fun n hn => h n (List.mem_cons_of_mem _ hn)
    cases hm : x.module with
    | some m =>
      obtain ⟨ms, h1, h2, h3⟩ := ih { l with modules := if m ∈ l.modules then l.modules else l.modules ++ [m] } hrest
      refine ⟨ms, ?_, ?_, ?_⟩
      · have hi : inputOf ins x = none := by simp [inputOf, hm]
        simp only [Lab.scan, hm, h1, List.filterMap_cons, hi]
      · intro m'
        rw [h2]
        by_cases hin : m ∈ l.modules
        · simp only [if_pos hin, List.mem_cons, exists_eq_or_imp, hm, Option.some.injEq]
          grind
        · simp only [if_neg hin, List.mem_cons, exists_eq_or_imp, hm, Option.some.injEq, List.mem_append]
          grind
      · intro hnd
        apply h3
        by_cases hin : m ∈ l.modules
        · simp only [if_pos hin]; exact hnd
        · simp only [if_neg hin]
          rw [List.nodup_append]
          refine ⟨hnd, by simp, ?_⟩
          intro a ha b hb
          simp only [List.mem_cons, List.not_mem_nil, or_false] at hb
          rw [hb]
          intro he
          exact hin (by rw [← he]; exact ha)
    | none =>
      have hmod : ∀ ms : List Name, (∀ m, m ∈ ms ↔ m ∈ l.modules ∨ ∃ n ∈ rest, n.module = some m) →
          (∀ m, m ∈ ms ↔ m ∈ l.modules ∨ ∃ n ∈ x :: rest, n.module = some m) := by
        intro ms h m
        rw [h]
        simp [hm]
      by_cases he : x.external = true
      · cases ho : x.origins with
        | nil =>
          obtain ⟨ms, h1, h2, h3⟩ := ih l hrest
          refine ⟨ms, ?_, hmod ms h2, h3⟩
          have hi : inputOf ins x = none := by simp [inputOf, ho]
          simp only [Lab.scan, hm, he, ho, h1, List.filterMap_cons, hi, if_true]
        | cons f fs =>
          have hin := h x (by simp) he f (by simp [ho])
          obtain ⟨d, hd⟩ := Dict.mem_keys_iff.mp hin
          have hdef : defaultOf x.name f = .ok (d.getD .none) := by
            cases d <;> simp [defaultOf, hd]
          have hi : inputOf ins x = some (x.name, (ins.get? x.name).getD .none, d.getD .none) := by
            simp [inputOf, ho, he, hm, hd]
          obtain ⟨ms, h1, h2, h3⟩ :=
            ih { l with inputs := l.inputs ++ [(x.name, (ins.get? x.name).getD .none, d.getD .none)] } hrest
          refine ⟨ms, ?_, hmod ms h2, h3⟩
          simp only [Lab.scan, hm, he, ho, hdef, h1, List.filterMap_cons, hi, if_true, List.append_assoc, List.cons_append,
            List.nil_append]
      · obtain ⟨ms, h1, h2, h3⟩ := ih l hrest
        refine ⟨ms, ?_, hmod ms h2, h3⟩
        have hi : inputOf ins x = none := by simp [inputOf, he]
        simp only [Lab.scan, hm, h1, List.filterMap_cons, hi, he]
        rfl

theorem lab_steps (id : Name) (steps : List Step) : ∀ l : Lab, l.cwd = l.initDir →
    (∀ t ∈ steps, ∀ e, t.outcome = .error e → t.node.saver = none) →
    (∀ t ∈ steps, ∀ v, t.outcome = .ok v → t.node.saver.isSome → ∃ m, v = .info m ∧ (m.path.isSome ∨ m.file.isSome)) →
    driveSteps experiment id l steps =
      ({ l with
        materialized := l.materialized ++ (succeeded steps).filterMap (materializedOf l.runDir)
        ran := l.ran ++ ranIn l.initDir l.runDir steps }, (failed steps).map Prod.snd) := by
  induction steps with
  | nil => intro l _ _ _; simp [driveSteps, succeeded, failed, ranIn]
  | cons t rest ih =>
    intro l hcwd hf hs
    have hb : experiment.before l t = (l.before t, none) := rfl
    have hd : ∀ l : Lab, experiment.during l t = { l with ran := l.ran ++ [(t.node.name, l.cwd)] } := fun _ => rfl
    have ha : ∀ l : Lab, experiment.after l id t = l.after t := fun _ => rfl
    cases ho : t.outcome with
    | error e =>
      have hsv := hf t (by simp) e ho
      simp [driveSteps, hb, hd, ha, Lab.before, Lab.after, hsv, Step.error, ho, succeeded, failed, ranIn, hcwd]
    | ok v =>
      cases hsv : t.node.saver with
      | none =>
        have := ih { l with ran := l.ran ++ [(t.node.name, l.cwd)] } hcwd (fun u hu => hf u (List.mem_cons_of_mem _ hu))
          (fun u hu => hs u (List.mem_cons_of_mem _ hu))
        have hn : materializedOf l.runDir (t, v) = none := by simp [materializedOf, hsv]
        simp only [driveSteps, hb, hd, ha, Lab.before, Lab.after, hsv, Step.error, ho, succeeded, failed, ranIn, hcwd,
          Option.isSome_none, Bool.false_eq_true, if_false, List.filterMap_cons, hn]
        rw [hcwd] at this
        rw [this]
        simp
      | some sink =>
        obtain ⟨m, rfl, hm⟩ := hs t (by simp) v ho (by simp [hsv])
        obtain ⟨p, hp⟩ : ∃ p, pathOf m = some p := by
          simp only [pathOf]
          cases hmp : m.path with
          | some p => exact ⟨p, rfl⟩
          | none =>
            rw [hmp] at hm
            cases hmf : m.file with
            | some p => exact ⟨p, rfl⟩
            | none => simp [hmf] at hm
        have hpo : m.path.or m.file = some p := by
          simp only [pathOf] at hp
          cases hmp : m.path <;> simp_all
        have hn : materializedOf l.runDir (t, .info m) =
            some ⟨t.kwargs.keys, resolve l.runDir p, sink, t.node.saverClass⟩ := by
          simp only [materializedOf, hsv, hpo, resolve_eq]
          rfl
        have hres : t.result = .info m := by simp [Step.result, ho]
        have := ih
          { l with
            ran := l.ran ++ [(t.node.name, l.runDir)]
            materialized := l.materialized ++ [⟨t.kwargs.keys, resolve l.runDir p, sink, t.node.saverClass⟩]
            cwd := l.initDir } rfl (fun u hu => hf u (List.mem_cons_of_mem _ hu)) (fun u hu => hs u (List.mem_cons_of_mem _ hu))
        simp only [driveSteps, hb, hd, ha, Lab.before, Lab.after, hsv, hres, hp, Step.error, ho, succeeded, failed, ranIn,
          Option.isSome_some, if_true, List.filterMap_cons, hn]
        rw [this]
        simp [hcwd]

theorem drive_of {S : Type} (a : Recorder S) {s s1 s2 s3 : S} {run : Run} {e e' : Option Err} (h1 : a.start s run = (s1, none))
    (h2 : driveSteps a run.id s1 run.steps = (s2, e)) (h3 : a.finish s2 run e' = (s3, none)) (h4 : e.or run.build = e') :
    drive a s run = (s3, e') := by
  simp only [drive, h1, h2, h4, h3]

theorem lab_drive (l : Lab) (r : Run) (hcwd : l.cwd = l.initDir) (h : Experimental r) :
    ∃ ms, (∀ m, m ∈ ms ↔ m ∈ l.modules ∨ ∃ n ∈ r.graph, n.module = some m) ∧ (l.modules.Nodup → ms.Nodup) ∧
      ∃ l', drive experiment l r = (l', failureOf r) ∧ l'.cwd = l.initDir ∧ l'.initDir = l.initDir ∧ l'.runDir = l.runDir ∧
        l'.ran = l.ran ++ ranIn l.initDir l.runDir r.steps ∧
        l'.db = l.db.set l.id
          { success := (failureOf r).isNone
            version := r.version
            modules := ms
            config := l.config
            inputs := l.inputs ++ r.graph.filterMap (inputOf (r.inputs.getD []))
            overrides := if (r.overrides.getD []).isEmpty then l.overrides else r.overrides.getD []
            materialized := l.materialized ++ (succeeded r.steps).filterMap (materializedOf l.runDir) } := by
  obtain ⟨ins, hins⟩ := Option.isSome_iff_exists.mp h.inputs
  obtain ⟨ms, h1, h2, h3⟩ := scan_ok ins r.graph { l with version := r.version } h.params
  refine ⟨ms, h2, h3, ?_⟩
  let l0 : Lab :=
    { l with
      version := r.version
      modules := ms
      inputs := l.inputs ++ r.graph.filterMap (inputOf ins)
      overrides := if (r.overrides.getD []).isEmpty then l.overrides else r.overrides.getD [] }
  have hstart : experiment.start l r = (l0, none) := by
    show l.start r = _
    simp only [Lab.start, hins, h1]
    cases ho : r.overrides with
    | none => simp [l0, ho]
    | some o =>
      by_cases he : o.isEmpty = true
      · simp [l0, ho, he]
      · simp [l0, ho, he]
  have hsteps := lab_steps r.id r.steps l0 hcwd h.failing h.saved
  have hfin : ∀ (a : Lab), a.cwd = a.initDir → experiment.finish a r (failureOf r) =
      (Lab.mk a.id a.initDir a.runDir a.relative a.config a.version a.modules a.inputs a.overrides a.materialized a.cwd
        (a.db.set a.id (Record.mk (failureOf r).isNone a.version a.modules a.config a.inputs a.overrides a.materialized))
        a.ran, none) := by
    intro a ha
    show a.finish _ = _
    simp [Lab.finish, Lab.store, ha]
  have hall := drive_of experiment hstart hsteps (hfin _ hcwd) (failureOf_eq r)
  refine ⟨_, hall, ?_⟩
  · exact ⟨hcwd, rfl, rfl, rfl, by simp only [hins, Option.getD_some]; rfl⟩

/-! ### OpenLineage -/

theorem isEmpty_iff (m : Meta) : m.isEmpty = true ↔ nothing m := by
  obtain ⟨a, b, c, d, e, f⟩ := m
  cases a <;> cases b <;> cases c <;> cases d <;> cases e <;> cases f <;> simp [Meta.isEmpty, nothing]

theorem columnsOf_ok (m : Meta) (h : framed m) : columnsOf m = .ok m.frame.join := by
  simp only [framed] at h
  simp only [columnsOf]
  cases hf : m.frame with
  | none => rfl
  | some x =>
    cases x with
    | none => exact absurd hf h
    | some cs => rfl

theorem format_eq (p : String) : (if hasDot p = true then lastPart p else "unknown") = format p := by
  simp only [format]
  by_cases h : '.' ∈ p.toList
  · rw [if_pos h, if_pos ((hasDot_iff p).mpr h), lastPart_eq p h]
  · rw [if_neg h, if_neg (fun hd => h ((hasDot_iff p).mp hd))]

theorem outputSet_ok (n : GNode) (m : Meta) (h : framed m) : outputSet n m = .ok (outputOf n m) := by
  simp only [outputSet, columnsOf_ok m h, outputOf]
  cases hf : m.file with
  | some p => simp only [format_eq]; simp
  | none =>
    cases hs : m.sql with
    | none => simp
    | some q => obtain ⟨a, b⟩ := q; simp

theorem loadedName_eq (n : Name) : loadedName n = String.ofList (upTo ".loader".toList n.toList) := by
  rw [loadedName, cutAt_eq]

theorem inputSet_ok (n : GNode) (m : Meta) (h : framed m)
    (hv : ∀ p, m.file = some p → '.' ∈ upTo ".loader".toList n.name.toList ∧ '.' ∈ p.toList) :
    inputSet n m = .ok (inputSetOf n m, if m.file.isSome then none else m.sql.map Prod.snd) := by
  simp only [inputSet, columnsOf_ok m h, inputSetOf]
  cases hf : m.file with
  | some p =>
    obtain ⟨h1, h2⟩ := hv p hf
    have hd : hasDot (loadedName n.name) = true := by
      rw [hasDot_iff, loadedName_eq]
      simpa using h1
    have hfmt : format p = lastPart p := by rw [← format_eq, if_pos ((hasDot_iff p).mpr h2)]
    simp only [hd, if_true, Option.map_some, hfmt]
    simp [loadedName_eq]
  | none =>
    cases hs : m.sql with
    | none => simp
    | some q => obtain ⟨a, b⟩ := q; simp

theorem lineage_after_ok (out : List Event) (run : Name) (t : Step) (v : Val) (ho : t.outcome = .ok v)
    (hn : t.node.saver = none ∨ t.node.loader = none)
    (hf : ∀ m, told (t, v) = some m → framed m) (hv : visible (t, v)) :
    lineageAfter out run t = (out ++ (runningOf run (t, v)).toList, none) := by
  simp only [lineageAfter, lineageEvents, ho, runningOf]
  cases v with
  | none => cases t.node.saver <;> cases hl : t.node.loader <;> simp <;> (rename_i b; cases b <;> simp)
  | number n => cases t.node.saver <;> cases hl : t.node.loader <;> simp <;> (rename_i b; cases b <;> simp)
  | other n => cases t.node.saver <;> cases hl : t.node.loader <;> simp <;> (rename_i b; cases b <;> simp)
  | info m =>
    cases hs : t.node.saver with
    | none => cases hl : t.node.loader <;> simp <;> (rename_i b; cases b <;> simp)
    | some s =>
      by_cases he : m.isEmpty = true
      · simp [he, (isEmpty_iff m).mp he]
      · have hne : ¬ nothing m := fun h => he ((isEmpty_iff m).mpr h)
        have := outputSet_ok t.node m (hf m (by simp [told, hs]))
        simp [he, hne, this]
  | pair id m =>
    cases hl : t.node.loader with
    | none => cases t.node.saver <;> simp
    | some b =>
      have hs : t.node.saver = none := by
        rcases hn with h | h
        · exact h
        · rw [hl] at h; cases h
      cases b with
      | false => simp [hs]
      | true =>
        by_cases he : m.isEmpty = true
        · simp [he, (isEmpty_iff m).mp he]
        · have hne : ¬ nothing m := fun h => he ((isEmpty_iff m).mpr h)
          have := inputSet_ok t.node m (hf m (by simp [told, hl])) (fun p hp => hv id m p rfl hp)
          simp [hs, he, hne, this]

theorem lineage_steps (run : Name) (steps : List Step) : ∀ out : List Event,
    (∀ t ∈ steps, t.node.saver = none ∨ t.node.loader = none) →
    (∀ x ∈ succeeded steps, (∀ m, told x = some m → framed m) ∧ visible x) →
    driveSteps lineage run out steps = (out ++ (succeeded steps).filterMap (runningOf run), (failed steps).map Prod.snd) := by
  induction steps with
  | nil => intro out _ _; simp [driveSteps, succeeded, failed]
  | cons t rest ih =>
    intro out hn h
    have hb : lineage.before out t = (out, none) := rfl
    have hd : lineage.during out t = out := rfl
    have ha : lineage.after out run t = lineageAfter out run t := rfl
    cases ho : t.outcome with
    | error e =>
      simp [driveSteps, hb, hd, ha, lineageAfter, lineageEvents, Step.error, ho, succeeded, failed]
    | ok v =>
      have hx := h (t, v) (by simp [succeeded, ho])
      have := lineage_after_ok out run t v ho (hn t (by simp)) hx.1 hx.2
      simp only [driveSteps, hb, hd, ha, this, Step.error, ho, failed, succeeded, List.filterMap_cons]
      rw [ih _ (fun u hu => hn u (List.mem_cons_of_mem _ hu)) (fun x hx => h x (by simp [succeeded, ho, hx]))]
      cases runningOf run (t, v) <;> simp

theorem lineage_drive (out : List Event) (r : Run) (hn : ∀ t ∈ r.steps, t.node.saver = none ∨ t.node.loader = none)
    (h : ∀ x ∈ succeeded r.steps, (∀ m, told x = some m → framed m) ∧ visible x) :
    drive lineage out r = (out ++ eventsOf r, failureOf r) := by
  have hs : lineage.start out r = (out ++ [.start r.id r.version r.finalVars ((r.inputs.getD []).map Prod.fst)
    ((r.overrides.getD []).map Prod.fst)], none) := rfl
  have hf : ∀ (o : List Event) (e : Option Err), lineage.finish o r e = lineageFinish o r e := fun _ _ => rfl
  simp only [drive, hs, lineage_steps r.id r.steps _ hn h, failureOf_eq, hf, lineageFinish, eventsOf]
  cases failureOf r <;> simp

/-! ### Slack -/

theorem slack_steps (run : Name) (steps : List Step) : ∀ out, driveSteps slack run out steps =
    (out ++ (failed steps).toList.map (fun x => (run, x.1.node.name, x.2)), (failed steps).map Prod.snd) := by
  induction steps with
  | nil => intro out; simp [driveSteps, failed]
  | cons t rest ih =>
    intro out
    have hb : slack.before out t = (out, none) := rfl
    have hd : slack.during out t = out := rfl
    have ha : slack.after out run t = slackAfter out run t := rfl
    cases ho : t.outcome with
    | error e => simp [driveSteps, hb, hd, ha, slackAfter, Step.error, ho, failed]
    | ok v =>
      simp only [driveSteps, hb, hd, ha, slackAfter, Step.error, ho, failed]
      exact ih out

end Verif.Recorders
