import Verif.Spec.Types

/-! Lemmas about type annotations. -/
namespace Verif
namespace PyTy

mutual
theorem eq_refl : ∀ t : PyTy, t.eq t = true
  | any => by unfold eq; rfl
  | cls _ => by unfold eq; simp
  | alias _ _ as => by unfold eq; simp [eqs_refl as]
  | union as => by
    unfold eq
    rw [Bool.and_eq_true, List.all_eq_true]
    exact ⟨allIn_of_subset as as (fun _ h => h), fun b hb => coveredBy_of_mem as b hb⟩
  | var _ => by unfold eq; simp
  | annotated t ms => by unfold eq; simp [eq_refl t, eqs_refl ms]
  | other _ => by unfold eq; simp
theorem eqs_refl : ∀ as : List PyTy, eqs as as = true
  | [] => by unfold eqs; rfl
  | a :: as => by unfold eqs; simp [eq_refl a, eqs_refl as]
theorem allIn_of_subset : ∀ (as bs : List PyTy), (∀ a ∈ as, a ∈ bs) → allIn as bs = true
  | [], _, _ => by unfold allIn; rfl
  | a :: as, bs, h => by
    unfold allIn
    rw [Bool.and_eq_true, List.any_eq_true]
    exact ⟨⟨a, h a (by simp), eq_refl a⟩, allIn_of_subset as bs (fun x hx => h x (by simp [hx]))⟩
theorem coveredBy_of_mem : ∀ (as : List PyTy) (b : PyTy), b ∈ as → coveredBy as b = true
  | [], _, h => by cases h
  | a :: as, b, h => by
    unfold coveredBy
    rw [Bool.or_eq_true]
    by_cases hba : b = a
    · left; rw [hba]; exact eq_refl a
    · right
      exact coveredBy_of_mem as b (by simpa [hba] using h)
end

theorem eq_any {t : PyTy} (h : t.eq .any = true) : t = .any := by
  cases t <;> simp [eq] at h ⊢

theorem eq_cls {t : PyTy} {c : Name} (h : t.eq (.cls c) = true) : t = .cls c := by
  cases t <;> simp [eq] at h ⊢; exact h

theorem cls_eq {t : PyTy} {c : Name} (h : (PyTy.cls c).eq t = true) : t = .cls c := by
  cases t <;> simp [eq] at h ⊢; exact h.symm

theorem eqs_nil {as bs : List PyTy} (h : eqs as bs = true) : as = [] ↔ bs = [] := by
  cases as <;> cases bs <;> simp [eqs] at h ⊢

theorem eqs_base {as : List PyTy} (h : eqs as baseArgs = true) : as = baseArgs := by
  unfold baseArgs at h ⊢
  match as, h with
  | [], h => simp [eqs] at h
  | [a], h =>
    unfold eqs at h
    cases a <;> simp [eq, eqs] at h ⊢; exact h
  | a :: b :: r, h => simp [eqs] at h

end PyTy

section
variable {H : Hier} {W : Type} (S : TySem H W)

theorem memAny_iff (as : List PyTy) (w : W) : S.memAny as w ↔ ∃ a ∈ as, S.mem a w := by
  induction as with
  | nil => simp [TySem.memAny]
  | cons a as ih => simp [TySem.memAny, ih]

mutual
theorem eq_mem (w : W) : ∀ a b : PyTy, a.eq b = true → (S.mem a w ↔ S.mem b w)
  | .any, b, h => by cases b <;> simp [PyTy.eq] at h; rfl
  | .cls _, b, h => by cases PyTy.cls_eq h; rfl
  | .alias t c as, b, h => by
    cases b <;> simp [PyTy.eq] at h
    obtain ⟨⟨rfl, rfl⟩, h⟩ := h
    unfold TySem.mem
    simp only [ne_eq, PyTy.eqs_nil h, S.args_eq h]
  | .union as, b, h => by
    cases b <;> simp [PyTy.eq] at h
    rename_i bs
    unfold TySem.mem
    rw [memAny_iff S bs]
    constructor
    · intro ha; exact (memAny_iff S bs w).1 (allIn_mem w as bs h.1 ha)
    · rintro ⟨b, hb, hw⟩; exact covered_mem w as b (h.2 b hb) hw
  | .var _, b, h => by cases b <;> simp [PyTy.eq] at h; rw [h]
  | .annotated t ms, b, h => by
    cases b <;> simp [PyTy.eq] at h
    unfold TySem.mem
    exact eq_mem w t _ h.1
  | .other _, b, h => by cases b <;> simp [PyTy.eq] at h; rw [h]
theorem allIn_mem (w : W) : ∀ as bs : List PyTy, PyTy.allIn as bs = true → S.memAny as w → S.memAny bs w
  | [], _, _, hm => by unfold TySem.memAny at hm; exact hm.elim
  | a :: as, bs, h, hm => by
    unfold PyTy.allIn at h
    rw [Bool.and_eq_true, List.any_eq_true] at h
    obtain ⟨⟨b, hb, hab⟩, h2⟩ := h
    unfold TySem.memAny at hm
    rcases hm with hm | hm
    · exact (memAny_iff S bs w).2 ⟨b, hb, (eq_mem w a b hab).1 hm⟩
    · exact allIn_mem w as bs h2 hm
theorem covered_mem (w : W) : ∀ (as : List PyTy) (b : PyTy), PyTy.coveredBy as b = true → S.mem b w → S.memAny as w
  | [], _, h, _ => by unfold PyTy.coveredBy at h; cases h
  | a :: as, b, h, hm => by
    unfold PyTy.coveredBy at h
    rw [Bool.or_eq_true] at h
    unfold TySem.memAny
    rcases h with h | h
    · exact .inl ((eq_mem w a b h).2 hm)
    · exact .inr (covered_mem w as b h hm)
end

theorem mem_strip (t : PyTy) (w : W) : S.mem t.strip w ↔ S.mem t w := by
  cases t <;> simp [PyTy.strip, TySem.mem]

theorem mentions_strip {c : Name} {t : PyTy} (h : t.strip.mentions c) : t.mentions c := by
  cases t <;> simp_all [PyTy.strip, PyTy.mentions]

theorem noArgs_strip {t : PyTy} (h : t.noArgs H) : t.strip.noArgs H := by
  cases t <;> simp_all [PyTy.strip, PyTy.noArgs]

theorem mentionsAny_iff (c : Name) (as : List PyTy) : PyTy.mentionsAny c as ↔ ∃ a ∈ as, a.mentions c := by
  induction as with
  | nil => simp [PyTy.mentionsAny]
  | cons a as ih => simp [PyTy.mentionsAny, ih]

theorem allNoArgs_iff (as : List PyTy) : PyTy.allNoArgs H as ↔ ∀ a ∈ as, a.noArgs H := by
  induction as with
  | nil => simp [PyTy.allNoArgs]
  | cons a as ih => simp [PyTy.allNoArgs, ih]

theorem origin_mem {t a : PyTy} {w : W} (h : t.origin H = some a) (hm : S.mem t w) : S.mem a w := by
  cases t with
  | cls c => change (if H.generic c = true then none else some (PyTy.cls c)) = _ at h; split at h <;> cases h; exact hm
  | alias t o as => cases h; exact hm.1
  | annotated t ms => cases h; exact hm
  | _ => cases h; exact hm

theorem mem_of_origin {t a : PyTy} {w : W} (h : t.origin H = some a) (hn : ∀ f o as, t = .alias f o as → as = [])
    (hm : S.mem a w) : S.mem t w := by
  cases t with
  | cls c => change (if H.generic c = true then none else some (PyTy.cls c)) = _ at h; split at h <;> cases h; exact hm
  | alias t o as => cases h; exact ⟨hm, fun h => absurd (hn _ _ _ rfl) h⟩
  | annotated t ms => cases h; exact hm
  | _ => cases h; exact hm

theorem origin_none {t : PyTy} (h : t.origin H = none) : ∃ c, t = .cls c ∧ H.generic c = true := by
  cases t with
  | cls c => change (if H.generic c = true then none else some (PyTy.cls c)) = _ at h; split at h <;> first | exact ⟨c, rfl, by assumption⟩ | cases h
  | _ => cases h

theorem origin_mentions {t : PyTy} {c : Name} (h : optEq (t.origin H) (some (.cls c)) = true) : t.mentions c := by
  cases ho : t.origin H with
  | none => rw [ho] at h; cases h
  | some a =>
    rw [ho] at h
    have := PyTy.eq_cls (show a.eq (.cls c) = true from h)
    subst this
    cases t with
    | cls d => change (if H.generic d = true then none else some (PyTy.cls d)) = _ at ho; split at ho <;> cases ho; simp [PyTy.mentions]
    | alias t o as => cases ho; simp [PyTy.mentions]
    | annotated t ms => cases ho; simp [PyTy.mentions]
    | _ => cases ho

theorem step_mem {a b : PyTy} {w : W} (h : a.eq b = true ∨ safeSubclass H a b = true) (hm : S.mem a w) : S.mem b w := by
  rcases h with h | h
  · exact (eq_mem S w a b h).1 hm
  · cases a <;> cases b <;> simp [safeSubclass] at h
    exact S.inst_sub h hm

/-- If `custom_subclass_check` accepts, every value of the requested type is a value of the parameter's type. -/
theorem customCheck_sound : ∀ (f : Nat) (r p : PyTy), customCheck H f r p = true → ¬ r.mentions "Parallelizable" →
    ¬ p.mentions "Collect" → ¬ r.mentions "typing.T" → ¬ p.mentions "typing.T" → (r.hasArgs ∨ p.noArgs H) →
    ∀ w, S.mem r w → S.mem p w
  | 0, _, _, h, _, _, _, _, _, _, _ => by cases h
  | f + 1, r, p0, h, hr, hp, hrT, hpT, hargs, w, hw => by
    rw [← mem_strip]
    replace hp : ¬ p0.strip.mentions "Collect" := fun h => hp (mentions_strip h)
    replace hpT : ¬ p0.strip.mentions "typing.T" := fun h => hpT (mentions_strip h)
    replace hargs : r.hasArgs ∨ p0.strip.noArgs H := hargs.imp id noArgs_strip
    unfold customCheck at h
    dsimp only at h
    generalize p0.strip = p at h hp hpT hargs
    by_cases h1 : p.eq .any = true
    · rw [PyTy.eq_any h1]; trivial
    rw [if_neg h1] at h
    by_cases h2 : safeSubclass H r p = true
    · exact step_mem S (.inr h2) hw
    rw [if_neg h2] at h
    by_cases h3 : (p.isUnion && p.args.any (customCheck H f r)) = true
    · cases p <;> simp [PyTy.isUnion, PyTy.args] at h3
      rename_i as
      obtain ⟨a, ha, hc⟩ := h3
      refine (memAny_iff S as w).2 ⟨a, ha, customCheck_sound f r a hc hr ?_ hrT ?_ ?_ w hw⟩
      · exact fun h => hp ((mentionsAny_iff _ _).2 ⟨a, ha, h⟩)
      · exact fun h => hpT ((mentionsAny_iff _ _).2 ⟨a, ha, h⟩)
      · exact hargs.imp id (fun h => (allNoArgs_iff as).1 h a ha)
    · rw [if_neg h3] at h
      by_cases h4 : ((r.isGeneric H || p.isGeneric H) && optEq (r.origin H) (some (.cls "Parallelizable"))) = true
      · rw [Bool.and_eq_true] at h4
        exact absurd (origin_mentions h4.2) hr
      rw [if_neg h4] at h
      by_cases h5 : ((r.isGeneric H || p.isGeneric H) && optEq (p.origin H) (some (.cls "Collect"))) = true
      · rw [Bool.and_eq_true] at h5
        exact absurd (origin_mentions h5.2) hp
      rw [if_neg h5] at h
      by_cases h6 : (optEq (r.origin H) (p.origin H) || optSub H (r.origin H) (p.origin H)) = true
      · rw [if_pos h6, ] at h
        cases ho : r.origin H with
        | none =>
          obtain ⟨c, rfl, _⟩ := origin_none ho
          cases hq : p.origin H with
          | some b => rw [ho, hq] at h6; cases h6
          | none =>
            obtain ⟨d, rfl, hd⟩ := origin_none hq
            rcases hargs with h | h
            · cases h
            · unfold PyTy.noArgs at h; rw [h] at hd; cases hd
        | some a =>
          cases hq : p.origin H with
          | none => rw [ho, hq] at h6; cases h6
          | some b =>
            rw [ho, hq] at h6
            have hb : S.mem b w := step_mem S (by rw [Bool.or_eq_true] at h6; exact h6) (origin_mem S ho hw)
            by_cases hal : ∀ f o as, p = .alias f o as → as = []
            · exact mem_of_origin S hq hal hb
            · have : ∃ g c bs, p = .alias g c bs ∧ bs ≠ [] := by
                cases p with
                | alias g c bs => exact ⟨g, c, bs, rfl, fun hb => hal (by intro f o as h; cases h; exact hb)⟩
                | _ => exact absurd (by intro f o as h; cases h) hal
              obtain ⟨g, c, bs, rfl, hbs⟩ := this
              cases hq
              refine ⟨hb, fun _ => ?_⟩
              rcases hargs with h' | h'
              · cases r with
                | alias g' c' as =>
                  cases ho
                  have hne : as ≠ [] := h'
                  have hg : ((PyTy.alias g' c' as).isGeneric H || (PyTy.alias g c bs).isGeneric H) = true := rfl
                  rw [if_pos hg] at h
                  have hT : ∀ l : List PyTy, ¬ PyTy.mentionsAny "typing.T" l → PyTy.eqs l baseArgs = false := by
                    intro l hl
                    cases he : PyTy.eqs l baseArgs with
                    | false => rfl
                    | true =>
                      refine absurd ?_ hl
                      rw [PyTy.eqs_base he]
                      simp [baseArgs, PyTy.mentionsAny, PyTy.mentions]
                  have e : PyTy.eqs as bs = true := by
                    have hm : argsMatch as bs = true := h
                    unfold argsMatch at hm
                    rw [if_pos] at hm
                    · exact hm
                    · rw [hT as (fun h => hrT (.inr h)), hT bs (fun h => hpT (.inr h))]
                      cases as <;> cases bs <;> simp_all
                  have ha := S.args_eq (c := c') (w := w) e
                  have h7 := ha.1 (hw.2 hne)
                  rw [Bool.or_eq_true] at h6
                  rcases h6 with h6 | h6
                  · have hcc : (PyTy.cls c').eq (.cls c) = true := h6
                    have : c = c' := by simpa using PyTy.cls_eq hcc
                    rw [this]; exact h7
                  · exact S.aligned h6 h7
                | _ => cases h'
              · exact absurd h' hbs
      · rw [if_neg h6] at h; cases h

/-- More depth does not turn acceptance into rejection. -/
theorem customCheck_mono : ∀ (f : Nat) (r p : PyTy), customCheck H f r p = true → customCheck H (f + 1) r p = true
  | 0, _, _, h => by cases h
  | f + 1, r, p0, h => by
    rw [customCheck]
    rw [customCheck] at h
    dsimp only at h ⊢
    generalize p0.strip = p at h
    by_cases h1 : p.eq .any = true
    · rw [if_pos h1]
    rw [if_neg h1] at h ⊢
    by_cases h2 : safeSubclass H r p = true
    · rw [if_pos h2]
    rw [if_neg h2] at h ⊢
    by_cases h3 : (p.isUnion && p.args.any (customCheck H f r)) = true
    · rw [if_pos]
      rw [Bool.and_eq_true, List.any_eq_true] at h3 ⊢
      obtain ⟨hu, a, ha, hc⟩ := h3
      exact ⟨hu, a, ha, customCheck_mono f r a hc⟩
    · rw [if_neg h3] at h
      split
      · rfl
      · by_cases h4 : ((r.isGeneric H || p.isGeneric H) && optEq (r.origin H) (some (.cls "Parallelizable"))) = true
        · rw [if_pos h4] at h ⊢
          split at h
          · exact customCheck_mono f _ _ h
          · cases h
        rw [if_neg h4] at h ⊢
        by_cases h5 : ((r.isGeneric H || p.isGeneric H) && optEq (p.origin H) (some (.cls "Collect"))) = true
        · rw [if_pos h5] at h ⊢
          split at h
          · exact customCheck_mono f _ _ h
          · cases h
        rw [if_neg h5] at h ⊢
        exact h

theorem customCheck_le {f f' : Nat} {r p : PyTy} (hle : f ≤ f') (h : customCheck H f r p = true) : customCheck H f' r p = true := by
  induction hle with
  | refl => exact h
  | step _ ih => exact customCheck_mono _ _ _ ih

end
end Verif
