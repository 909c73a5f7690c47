import Verif.Spec.CheckInstance
import Verif.Props.Hooks

/-! **C62**: checking values against annotations while a graph runs. -/
namespace Verif

section
variable {W : RWorld} {meaning : Name → RVal → Prop}

theorem isListLike_iff {W : RWorld} {c : Name} : isListLike W c = true ↔ HoldsItems W c := by
  simp [isListLike, HoldsItems, or_assoc]

theorem allPass_true {α : Type} {f : α → Except UserErr Bool} : ∀ {l : List α}, allPass f l = .ok true → ∀ x ∈ l, f x = .ok true
  | [], _, _, hx => by cases hx
  | y :: ys, h, x, hx => by
    unfold allPass at h
    cases hy : f y with
    | error e => rw [hy] at h; cases h
    | ok b =>
      cases b with
      | false => rw [hy] at h; cases h
      | true =>
        rw [hy] at h
        rcases List.mem_cons.mp hx with rfl | hx
        · exact hy
        · exact allPass_true h x hx

theorem allPass_false {α : Type} {f : α → Except UserErr Bool} : ∀ {l : List α}, allPass f l = .ok false → ∃ x ∈ l, f x = .ok false
  | [], h => by cases h
  | y :: ys, h => by
    unfold allPass at h
    cases hy : f y with
    | error e => rw [hy] at h; cases h
    | ok b =>
      cases b with
      | false => exact ⟨y, List.mem_cons_self .., hy⟩
      | true =>
        rw [hy] at h
        obtain ⟨x, hx, hf⟩ := allPass_false h
        exact ⟨x, List.mem_cons_of_mem _ hx, hf⟩

theorem allPass_total {α : Type} {f : α → Except UserErr Bool} : ∀ {l : List α}, (∀ x ∈ l, ∃ b, f x = .ok b) → ∃ b, allPass f l = .ok b
  | [], _ => ⟨true, rfl⟩
  | y :: ys, h => by
    obtain ⟨b, hb⟩ := h y (List.mem_cons_self ..)
    unfold allPass
    rw [hb]
    cases b with
    | false => exact ⟨false, rfl⟩
    | true => exact allPass_total fun x hx => h x (List.mem_cons_of_mem _ hx)

theorem pairOk_true {key value : RVal → Except UserErr Bool} {p : RVal × RVal} (h : pairOk key value p = .ok true) :
    key p.1 = .ok true ∧ value p.2 = .ok true := by
  unfold pairOk at h
  cases hk : key p.1 with
  | error e => rw [hk] at h; cases h
  | ok a =>
    rw [hk] at h
    cases hv : value p.2 with
    | error e => simp only [hv] at h; cases h
    | ok b => simp only [hv, Except.ok.injEq, Bool.and_eq_true] at h; simp [h]

theorem pairOk_false {key value : RVal → Except UserErr Bool} {p : RVal × RVal} (h : pairOk key value p = .ok false) :
    key p.1 = .ok false ∨ value p.2 = .ok false := by
  unfold pairOk at h
  cases hk : key p.1 with
  | error e => rw [hk] at h; cases h
  | ok a =>
    rw [hk] at h
    cases hv : value p.2 with
    | error e => simp only [hv] at h; cases h
    | ok b => simp only [hv, Except.ok.injEq, Bool.and_eq_false_iff] at h; simpa using h

theorem asClass_eq {t : RTy} {c : Name} (h : t.asClass = some c) : t = .cls c := by
  cases t <;> simp_all [RTy.asClass]

theorem allClasses_hasSome : ∀ {as : List RTy} {cs : List Name} {v : RVal}, allClasses as = some cs →
    (cs.any (W.sub v.cls) = true ↔ HasSome W meaning as v)
  | [], cs, v, h => by
    simp only [allClasses, Option.some.injEq] at h
    subst h
    simp [HasSome]
  | a :: as, cs, v, h => by
    unfold allClasses at h
    cases hc : a.asClass with
    | none => rw [hc] at h; cases h
    | some c =>
      cases hcs : allClasses as with
      | none => rw [hc, hcs] at h; cases h
      | some cs' =>
        rw [hc, hcs] at h
        simp only [Option.some.injEq] at h
        subst h
        rw [asClass_eq hc]
        have := allClasses_hasSome (v := v) hcs
        simp only [List.any_cons, Bool.or_eq_true, HasSome, HasTy, this]

/-- When `isinstance` answers, it answers correctly. -/
theorem pyIsinstance_ok {v : RVal} {t : RTy} {b : Bool} (h : pyIsinstance W v t = .ok b) : b = true ↔ HasTy W meaning t v := by
  cases t with
  | cls c => simp only [pyIsinstance, Except.ok.injEq] at h; subst h; simp [HasTy]
  | union as =>
    simp only [pyIsinstance] at h
    cases hc : allClasses as with
    | none => rw [hc] at h; cases h
    | some cs =>
      rw [hc] at h
      simp only [Except.ok.injEq] at h
      subst h
      rw [HasTy]
      exact allClasses_hasSome hc
  | pipe as =>
    simp only [pyIsinstance] at h
    cases hc : allClasses as with
    | none => rw [hc] at h; cases h
    | some cs =>
      rw [hc] at h
      simp only [Except.ok.injEq] at h
      subst h
      rw [HasTy]
      exact allClasses_hasSome hc
  | _ => cases h

mutual
theorem accept_ty {annot : Prop} : ∀ (t : RTy) (v : RVal), Regular W annot t → checkInstance W t v = .ok true → HasTy W meaning t v
  | .any, v, _, _ => by rw [HasTy]; trivial
  | .cls c, v, _, h => by rw [checkInstance] at h; exact (pyIsinstance_ok h).mp rfl
  | .pipe as, v, _, h => by rw [checkInstance] at h; exact (pyIsinstance_ok h).mp rfl
  | .lit n, v, _, h => by rw [checkInstance] at h; rw [HasTy]; exact Except.ok.inj h
  | .ellipsis, v, _, h => by rw [checkInstance] at h; cases h
  | .other n, v, _, h => by rw [checkInstance] at h; cases h
  | .annotated t, v, _, h => by
    rw [checkInstance] at h
    rw [HasTy]
    cases hp : pyIsinstance W v t with
    | error e => rw [hp] at h; cases h
    | ok b =>
      cases b with
      | false => rw [hp] at h; cases h
      | true => exact (pyIsinstance_ok hp).mp rfl
  | .union as, v, hr, h => by
    rw [checkInstance] at h
    rw [HasTy]
    rw [Regular] at hr
    exact accept_any as v hr h
  | .gen o as, v, hr, h => by
    rw [checkInstance] at h
    rw [HasTy]
    rw [Regular] at hr
    obtain ⟨hr, hall⟩ := hr
    cases hs : W.sub v.cls o with
    | false => rw [hs] at h; simp at h
    | true =>
      rw [hs] at h
      refine ⟨rfl, ?_⟩
      simp only [if_true] at h
      have hacc := accept_all as hall
      by_cases ho : o = "tuple"
      · rw [if_pos ho] at hr ⊢
        obtain ⟨⟨a, rfl⟩, hnd⟩ := hr
        subst ho
        unfold checkArgs at h
        rw [hnd _ hs] at h
        simp only [Bool.false_eq_true, if_false] at h
        rw [HasEach]
        intro i hi
        cases hl : isListLike W v.cls with
        | false => rw [hl] at h; simp at h
        | true =>
          rw [hl] at h
          simp only [List.isEmpty_cons, Bool.not_false, if_true] at h
          have := allPass_true h i hi
          rw [checkInstance0] at this
          exact hacc a (List.mem_cons_self ..) i this
      · rw [if_neg ho] at hr ⊢
        cases hd : W.sub v.cls "dict" with
        | true =>
          unfold checkArgs at h
          simp only [hd, if_true] at h ⊢
          match as, hr, h, hacc with
          | [], _, _, _ => simp [HasPairs]
          | [a], _, h, hacc =>
            rw [HasPairs]
            intro p hp
            have := (pairOk_true (allPass_true h p hp)).1
            rw [checkInstance0] at this
            exact hacc a (List.mem_cons_self ..) _ this
          | [k, w], _, h, hacc =>
            rw [HasPairs]
            intro p hp
            have := pairOk_true (allPass_true h p hp)
            rw [checkInstance0, checkInstance1] at this
            exact ⟨hacc k (by simp) _ this.1, hacc w (by simp) _ this.2⟩
          | _ :: _ :: _ :: _, _, _, _ => simp [HasPairs]
        | false =>
          unfold checkArgs at h
          simp only [hd, Bool.false_eq_true, if_false] at h ⊢
          match as, hr, h, hacc with
          | [], _, _, _ => simp [HasAll]
          | _ :: _ :: _, _, _, _ => simp [HasAll]
          | [a], _, h, hacc =>
            rw [HasAll]
            cases hl : isListLike W v.cls with
            | false => rw [hl] at h; simp at h
            | true =>
              rw [hl] at h
              simp only [List.isEmpty_cons, Bool.not_false, if_true] at h
              intro i hi
              have := allPass_true h i hi
              rw [checkInstance0] at this
              exact hacc a (List.mem_cons_self ..) i this
theorem accept_any {annot : Prop} : ∀ (as : List RTy) (v : RVal), RegularAll W annot as → checkInstanceAny W as v = .ok true →
    HasSome W meaning as v
  | [], v, _, h => by rw [checkInstanceAny] at h; cases h
  | a :: as, v, hr, h => by
    rw [checkInstanceAny] at h
    rw [RegularAll] at hr
    rw [HasSome]
    cases ha : checkInstance W a v with
    | error e => rw [ha] at h; cases h
    | ok b =>
      cases b with
      | true => exact Or.inl (accept_ty a v hr.1 ha)
      | false => rw [ha] at h; exact Or.inr (accept_any as v hr.2 h)
theorem accept_all {annot : Prop} : ∀ (as : List RTy), RegularAll W annot as → ∀ a ∈ as, ∀ v, checkInstance W a v = .ok true →
    HasTy W meaning a v
  | [], _, a, ha, _, _ => by cases ha
  | b :: as, hr, a, ha, v, h => by
    rw [RegularAll] at hr
    rcases List.mem_cons.mp ha with heq | ha
    · rw [heq] at h ⊢; exact accept_ty b v hr.1 h
    · exact accept_all as hr.2 a ha v h
end

mutual
theorem reject_ty : ∀ (t : RTy) (v : RVal), Regular W False t → checkInstance W t v = .ok false → ¬ HasTy W meaning t v
  | .any, v, _, h => by rw [checkInstance] at h; cases h
  | .cls c, v, _, h => by rw [checkInstance] at h; exact fun hh => Bool.noConfusion ((pyIsinstance_ok h).mpr hh)
  | .pipe as, v, _, h => by rw [checkInstance] at h; exact fun hh => Bool.noConfusion ((pyIsinstance_ok h).mpr hh)
  | .lit n, v, _, h => by rw [checkInstance] at h; rw [HasTy, Except.ok.inj h]; simp
  | .ellipsis, v, _, h => by rw [checkInstance] at h; cases h
  | .other n, v, _, h => by rw [checkInstance] at h; cases h
  | .annotated t, v, hr, h => by rw [Regular] at hr; exact hr.elim
  | .union as, v, hr, h => by
    rw [checkInstance] at h
    rw [HasTy]
    rw [Regular] at hr
    exact reject_any as v hr h
  | .gen o as, v, hr, h => by
    rw [checkInstance] at h
    rw [HasTy]
    rw [Regular] at hr
    obtain ⟨hr, hall⟩ := hr
    cases hs : W.sub v.cls o with
    | false => rintro ⟨hh, _⟩; cases hh
    | true =>
      rw [hs] at h
      simp only [if_true] at h
      rintro ⟨-, hh⟩
      have hrej := reject_all as hall
      by_cases ho : o = "tuple"
      · rw [if_pos ho] at hr hh
        obtain ⟨⟨a, rfl⟩, hnd⟩ := hr
        subst ho
        unfold checkArgs at h
        rw [hnd _ hs] at h
        simp only [Bool.false_eq_true, if_false] at h
        rw [HasEach] at hh
        cases hl : isListLike W v.cls with
        | false => rw [hl] at h; simp at h
        | true =>
          rw [hl] at h
          simp only [List.isEmpty_cons, Bool.not_false, if_true] at h
          obtain ⟨i, hi, hf⟩ := allPass_false h
          rw [checkInstance0] at hf
          exact hrej a (List.mem_cons_self ..) i hf (hh i hi)
      · rw [if_neg ho] at hr hh
        cases hd : W.sub v.cls "dict" with
        | true =>
          unfold checkArgs at h
          simp only [hd, if_true] at h hh
          obtain ⟨p, hp, hf⟩ := allPass_false h
          match as, hr, hh, hf, hrej with
          | [], hr, _, _, _ =>
            simp only [List.length_nil, Nat.reduceEqDiff, false_or] at hr
            rw [hr.2 _ hs] at hd; cases hd
          | [a], _, hh, hf, hrej =>
            rw [HasPairs] at hh
            rcases pairOk_false hf with hf | hf
            · rw [checkInstance0] at hf; exact hrej a (List.mem_cons_self ..) _ hf (hh p hp)
            · simp [checkInstance1] at hf
          | [k, w], _, hh, hf, hrej =>
            rw [HasPairs] at hh
            rcases pairOk_false hf with hf | hf
            · rw [checkInstance0] at hf; exact hrej k (by simp) _ hf (hh p hp).1
            · rw [checkInstance1] at hf; exact hrej w (by simp) _ hf (hh p hp).2
          | _ :: _ :: _ :: _, hr, _, _, _ =>
            simp only [List.length_cons] at hr
            rcases hr with hr | ⟨_, hr | hr⟩
            · omega
            · omega
            · rw [hr _ hs] at hd; cases hd
        | false =>
          unfold checkArgs at h
          simp only [hd, Bool.false_eq_true, if_false] at h hh
          cases hl : isListLike W v.cls with
          | false => rw [hl] at h; simp at h
          | true =>
            rw [hl] at h
            simp only [if_true] at h
            match as, hr, h, hh, hrej with
            | [], _, h, _, _ => simp at h
            | _ :: _ :: _, hr, _, _, _ =>
              simp only [List.length_cons] at hr
              rcases hr with hr | ⟨hr, _⟩
              · omega
              · exact absurd (isListLike_iff.1 hl) (hr _ hs)
            | [a], _, h, hh, hrej =>
              rw [HasAll] at hh
              simp only [List.isEmpty_cons, Bool.not_false, if_true] at h
              obtain ⟨i, hi, hf⟩ := allPass_false h
              rw [checkInstance0] at hf
              exact hrej a (List.mem_cons_self ..) i hf (hh i hi)
theorem reject_any : ∀ (as : List RTy) (v : RVal), RegularAll W False as → checkInstanceAny W as v = .ok false →
    ¬ HasSome W meaning as v
  | [], v, _, h => by rw [HasSome]; exact id
  | a :: as, v, hr, h => by
    rw [checkInstanceAny] at h
    rw [RegularAll] at hr
    rw [HasSome]
    cases ha : checkInstance W a v with
    | error e => rw [ha] at h; cases h
    | ok b =>
      cases b with
      | true => rw [ha] at h; cases h
      | false =>
        rw [ha] at h
        rintro (hh | hh)
        · exact reject_ty a v hr.1 ha hh
        · exact reject_any as v hr.2 h hh
theorem reject_all : ∀ (as : List RTy), RegularAll W False as → ∀ a ∈ as, ∀ v, checkInstance W a v = .ok false →
    ¬ HasTy W meaning a v
  | [], _, a, ha, _, _ => by cases ha
  | b :: as, hr, a, ha, v, h => by
    rw [RegularAll] at hr
    rcases List.mem_cons.mp ha with heq | ha
    · rw [heq] at h ⊢; exact reject_ty b v hr.1 h
    · exact reject_all as hr.2 a ha v h
end

theorem simpleArgs_three {o : Name} {a b c : RTy} {as : List RTy} (h : SimpleArgs W o (a :: b :: c :: as)) : False := by
  rw [SimpleArgs] at h
  · exact h
  · intro _ hh; cases hh
  · intro _ hh; cases hh
  · intro _ _ hh; cases hh

mutual
theorem regular_of_simple : ∀ (t : RTy), Simple W t → Regular W False t
  | .any, _ => by simp [Regular]
  | .cls _, _ => by simp [Regular]
  | .lit _, _ => by simp [Regular]
  | .pipe _, _ => by simp [Regular]
  | .union as, h => by rw [Simple] at h; rw [Regular]; exact regular_of_simpleAll as h
  | .annotated _, h => by simp [Simple] at h
  | .ellipsis, h => by simp [Simple] at h
  | .other _, h => by simp [Simple] at h
  | .gen o as, h => by rw [Simple] at h; rw [Regular]; exact regular_of_simpleArgs o as h
theorem regular_of_simpleAll : ∀ (as : List RTy), SimpleAll W as → RegularAll W False as
  | [], _ => by simp [RegularAll]
  | a :: as, h => by
    rw [SimpleAll] at h; rw [RegularAll]
    exact ⟨regular_of_simple a h.1, regular_of_simpleAll as h.2⟩
theorem regular_of_simpleArgs (o : Name) : ∀ (as : List RTy), SimpleArgs W o as →
    (if o = "tuple" then (∃ a, as = [a, .ellipsis]) ∧ NoDictBelow W "tuple"
     else as.length = 1 ∨ (NoListBelow W o ∧ (as.length = 2 ∨ NoDictBelow W o))) ∧ RegularAll W False as
  | [], h => by simp [SimpleArgs] at h
  | [a], h => by
    simp only [SimpleArgs] at h
    rw [if_neg h.1]
    refine ⟨Or.inl rfl, ?_⟩
    simp only [RegularAll, and_true]
    exact regular_of_simple a h.2.2.2
  | [a, b], h => by
    by_cases hb : b = .ellipsis
    · subst hb
      simp only [SimpleArgs] at h
      rw [if_pos h.1]
      refine ⟨⟨⟨a, rfl⟩, h.2.1⟩, ?_⟩
      simp only [RegularAll, and_true, Regular]
      exact regular_of_simple a h.2.2
    · rw [SimpleArgs] at h
      · rw [if_neg h.1]
        refine ⟨Or.inr ⟨h.2.2.1, Or.inl rfl⟩, ?_⟩
        simp only [RegularAll, and_true]
        exact ⟨regular_of_simple a h.2.2.2.1, regular_of_simple b h.2.2.2.2⟩
      · exact hb
  | _ :: _ :: _ :: _, h => (simpleArgs_three h).elim
end

theorem allClasses_total : ∀ {as : List RTy}, (∀ a ∈ as, ∃ c, a = .cls c) → ∃ cs, allClasses as = some cs
  | [], _ => ⟨[], rfl⟩
  | a :: as, h => by
    obtain ⟨c, rfl⟩ := h a (List.mem_cons_self ..)
    obtain ⟨cs, hcs⟩ := allClasses_total (as := as) fun b hb => h b (List.mem_cons_of_mem _ hb)
    exact ⟨c :: cs, by simp [allClasses, RTy.asClass, hcs]⟩

mutual
theorem total_ty : ∀ (t : RTy) (v : RVal), Simple W t → ∃ b, checkInstance W t v = .ok b
  | .any, v, _ => ⟨true, by rw [checkInstance]⟩
  | .cls c, v, _ => ⟨_, by rw [checkInstance, pyIsinstance]⟩
  | .lit n, v, _ => ⟨_, by rw [checkInstance]⟩
  | .pipe as, v, h => by
    rw [Simple] at h
    obtain ⟨cs, hcs⟩ := allClasses_total h
    exact ⟨cs.any (W.sub v.cls), by rw [checkInstance, pyIsinstance, hcs]⟩
  | .union as, v, h => by
    rw [Simple] at h
    rw [checkInstance]
    exact total_any as v h
  | .annotated _, v, h => by simp [Simple] at h
  | .ellipsis, v, h => by simp [Simple] at h
  | .other _, v, h => by simp [Simple] at h
  | .gen o as, v, h => by
    rw [Simple] at h
    rw [checkInstance]
    cases hs : W.sub v.cls o with
    | false => exact ⟨false, by simp⟩
    | true => rw [if_pos rfl]; exact total_args o as v h hs
theorem total_any : ∀ (as : List RTy) (v : RVal), SimpleAll W as → ∃ b, checkInstanceAny W as v = .ok b
  | [], v, _ => ⟨false, by rw [checkInstanceAny]⟩
  | a :: as, v, h => by
    rw [SimpleAll] at h
    obtain ⟨b, hb⟩ := total_ty a v h.1
    rw [checkInstanceAny, hb]
    cases b with
    | true => exact ⟨true, rfl⟩
    | false => exact total_any as v h.2
theorem total_args (o : Name) : ∀ (as : List RTy) (v : RVal), SimpleArgs W o as → W.sub v.cls o = true →
    ∃ b, checkArgs W (checkInstance0 W as) (checkInstance1 W as) (!as.isEmpty) v = .ok b
  | [], v, h, _ => by simp [SimpleArgs] at h
  | [a], v, h, hs => by
    simp only [SimpleArgs] at h
    unfold checkArgs
    rw [h.2.2.1 _ hs, isListLike_iff.2 (h.2.1 _ hs)]
    simp only [Bool.false_eq_true, if_false, if_true, List.isEmpty_cons, Bool.not_false]
    refine allPass_total fun x _ => ?_
    rw [checkInstance0]
    exact total_ty a x h.2.2.2
  | [a, b], v, h, hs => by
    by_cases hb : b = .ellipsis
    · subst hb
      simp only [SimpleArgs] at h
      obtain ⟨rfl, hnd, ha⟩ := h
      unfold checkArgs
      have hl : isListLike W v.cls = true := by simp [isListLike, hs]
      rw [hnd _ hs, hl]
      simp only [Bool.false_eq_true, if_false, if_true, List.isEmpty_cons, Bool.not_false]
      refine allPass_total fun x _ => ?_
      rw [checkInstance0]
      exact total_ty a x ha
    · rw [SimpleArgs] at h
      · unfold checkArgs
        rw [if_pos (h.2.1 _ hs)]
        refine allPass_total fun p _ => ?_
        obtain ⟨b1, h1⟩ := total_ty a p.1 h.2.2.2.1
        obtain ⟨b2, h2⟩ := total_ty b p.2 h.2.2.2.2
        exact ⟨b1 && b2, by unfold pairOk; rw [checkInstance0, checkInstance1, h1]; simp only [h2]⟩
      · exact hb
  | _ :: _ :: _ :: _, v, h, _ => (simpleArgs_three h).elim
end

/-- **C62** (exactness): for annotations made of classes, `Any`, unions, literals, lists, sets, tuples of any length and
dictionaries, nested in any way, the check never raises and accepts a value exactly if every part of it has the annotated
type. What is missing for the full claim: tuples of fixed length (`C62_violated_tuple`), other generic types
(`C62_violated_raises`) and `Annotated` (`C62_violated_annotated`). -/
theorem C62_exact_partial (t : RTy) (v : RVal) (h : Simple W t) :
    (checkInstance W t v = .ok true ∧ HasTy W meaning t v) ∨ (checkInstance W t v = .ok false ∧ ¬ HasTy W meaning t v) := by
  obtain ⟨b, hb⟩ := total_ty t v h
  cases b with
  | true => exact Or.inl ⟨hb, accept_ty t v (regular_of_simple t h) hb⟩
  | false => exact Or.inr ⟨hb, reject_ty t v (regular_of_simple t h) hb⟩

/-- **C62** (soundness): for all annotations whose arguments are the types of the items or of keys and values, including ones
the check cannot decide and `Annotated`: what it accepts has the annotated type. -/
theorem C62_accepts_partial (t : RTy) (v : RVal) (h : Regular W True t) (hc : checkInstance W t v = .ok true) :
    HasTy W meaning t v := accept_ty t v h hc

/-- **C62** (no false alarm): for the same annotations without `Annotated`: what it rejects does not have the annotated type
(it may raise instead of answering, see `C62_violated_raises`). -/
theorem C62_rejects_partial (t : RTy) (v : RVal) (h : Regular W False t) (hc : checkInstance W t v = .ok false) :
    ¬ HasTy W meaning t v := reject_ty t v h hc

end
end Verif
