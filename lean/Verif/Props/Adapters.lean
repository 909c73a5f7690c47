import Verif.Spec.Adapters
import Verif.Props.Types

/-!
Property C61: which data adapter is used.
-/
namespace Verif

theorem latest_iff {α : Type} {p : α → Bool} {l : List α} {a : α} :
    Latest (fun a => p a = true) l a ↔ l.reverse.find? p = some a := by
  rw [List.find?_eq_some_iff_append]
  constructor
  · rintro ⟨pre, post, rfl, ha, hpost⟩
    exact ⟨ha, post.reverse, pre.reverse, by simp, by simpa using hpost⟩
  · rintro ⟨ha, as, bs, h, has⟩
    refine ⟨bs.reverse, as.reverse, ?_, ha, by simpa using has⟩
    have := congrArg List.reverse h
    simpa using this

theorem earliest_iff {α : Type} {p : α → Bool} {l : List α} {a : α} :
    Earliest (fun a => p a = true) l a ↔ l.find? p = some a := by
  rw [List.find?_eq_some_iff_append]
  constructor
  · rintro ⟨pre, post, rfl, ha, hpre⟩
    exact ⟨ha, pre, post, rfl, by simpa using hpre⟩
  · rintro ⟨ha, as, bs, h, has⟩
    exact ⟨as, bs, h, ha, by simpa using has⟩

theorem Latest.congr {α : Type} {P Q : α → Prop} {l : List α} {a : α} (h : ∀ b ∈ l, (P b ↔ Q b)) :
    Latest P l a ↔ Latest Q l a := by
  constructor
  · rintro ⟨pre, post, rfl, ha, hp⟩
    exact ⟨pre, post, rfl, (h a (by simp)).1 ha, fun b hb hq => hp b hb ((h b (by simp [hb])).2 hq)⟩
  · rintro ⟨pre, post, rfl, ha, hp⟩
    exact ⟨pre, post, rfl, (h a (by simp)).2 ha, fun b hb hq => hp b hb ((h b (by simp [hb])).1 hq)⟩

theorem Earliest.congr {α : Type} {P Q : α → Prop} {l : List α} {a : α} (h : ∀ b ∈ l, (P b ↔ Q b)) :
    Earliest P l a ↔ Earliest Q l a := by
  constructor
  · rintro ⟨pre, post, rfl, ha, hp⟩
    exact ⟨pre, post, rfl, (h a (by simp)).1 ha, fun b hb hq => hp b hb ((h b (by simp [hb])).2 hq)⟩
  · rintro ⟨pre, post, rfl, ha, hp⟩
    exact ⟨pre, post, rfl, (h a (by simp)).2 ha, fun b hb hq => hp b hb ((h b (by simp [hb])).1 hq)⟩

theorem Latest.mem {α : Type} {P : α → Prop} {l : List α} {a : α} (h : Latest P l a) : a ∈ l := by
  obtain ⟨_, _, rfl, _⟩ := h
  simp

theorem Latest.holds {α : Type} {P : α → Prop} {l : List α} {a : α} (h : Latest P l a) : P a := by
  obtain ⟨_, _, _, h, _⟩ := h
  exact h

theorem latest_filter {α : Type} {q p : α → Bool} {l : List α} {a : α} :
    Latest (fun a => p a = true) (l.filter q) a ↔ Latest (fun a => (q a && p a) = true) l a := by
  rw [latest_iff, latest_iff (p := fun a => q a && p a), ← List.filter_reverse, List.find?_filter]
  simp only [Bool.decide_and, Bool.decide_eq_true]

/-! ### The registry -/

theorem registerAll_loaders (key : Name) : ∀ (l : List AdapterCls) (r : AdapterRegistry),
    (l.foldl registerAdapter r).loaders.get? key =
      match l.filter (fun a => a.key == key && a.canLoad) with
      | [] => r.loaders.get? key
      | as => some ((r.loaders.get? key).getD [] ++ as) := by
  intro l
  induction l with
  | nil => intro r; rfl
  | cons a l ih =>
    intro r
    rw [List.foldl_cons, ih, List.filter_cons]
    have hl : (registerAdapter r a).loaders = if a.canLoad then appendTo r.loaders a else r.loaders := by
      unfold registerAdapter
      cases a.canLoad <;> cases a.canSave <;> rfl
    rw [hl]
    cases hc : a.canLoad with
    | false => simp
    | true =>
      simp only [if_true, Bool.and_true, appendTo]
      by_cases hk : a.key = key
      · subst hk
        rw [Dict.get?_set_self]
        simp only [beq_self_eq_true, if_true]
        cases l.filter (fun b => b.key == a.key && b.canLoad) <;> simp
      · rw [Dict.get?_set_ne _ _ hk]
        rw [if_neg (by simpa using hk)]

theorem registerAll_savers (key : Name) : ∀ (l : List AdapterCls) (r : AdapterRegistry),
    (l.foldl registerAdapter r).savers.get? key =
      match l.filter (fun a => a.key == key && a.canSave) with
      | [] => r.savers.get? key
      | as => some ((r.savers.get? key).getD [] ++ as) := by
  intro l
  induction l with
  | nil => intro r; rfl
  | cons a l ih =>
    intro r
    rw [List.foldl_cons, ih, List.filter_cons]
    have hl : (registerAdapter r a).savers = if a.canSave then appendTo r.savers a else r.savers := by
      unfold registerAdapter
      cases a.canLoad <;> cases a.canSave <;> rfl
    rw [hl]
    cases hc : a.canSave with
    | false => simp
    | true =>
      simp only [if_true, Bool.and_true, appendTo]
      by_cases hk : a.key = key
      · subst hk
        rw [Dict.get?_set_self]
        simp only [beq_self_eq_true, if_true]
        cases l.filter (fun b => b.key == a.key && b.canSave) <;> simp
      · rw [Dict.get?_set_ne _ _ hk]
        rw [if_neg (by simpa using hk)]

theorem loaders_of (regs : List AdapterCls) (key : Name) : (registerAll regs).loaders.get? key =
    match regs.filter (fun a => a.key == key && a.canLoad) with
    | [] => none
    | as => some as := by
  unfold registerAll
  rw [registerAll_loaders]
  cases regs.filter (fun a => a.key == key && a.canLoad) <;> rfl

theorem savers_of (regs : List AdapterCls) (key : Name) : (registerAll regs).savers.get? key =
    match regs.filter (fun a => a.key == key && a.canSave) with
    | [] => none
    | as => some as := by
  unfold registerAll
  rw [registerAll_savers]
  cases regs.filter (fun a => a.key == key && a.canSave) <;> rfl

/-! ### Choosing -/

theorem adapterLoop_eq (applies : AdapterCls → Bool) : ∀ (l : List AdapterCls) (p q : List AdapterCls),
    adapterLoop applies l (p, q) = (p ++ l.filter applies, q ++ l.filter hasAny?) := by
  intro l
  induction l with
  | nil => intro p q; simp [adapterLoop]
  | cons a l ih =>
    intro p q
    rw [adapterLoop, ih, List.filter_cons, List.filter_cons]
    cases applies a <;> cases hasAny? a <;> simp

theorem resolveAdapter_eq (applies : AdapterCls → Bool) (l : List AdapterCls) :
    resolveAdapter applies l = (l.reverse.find? applies).or (l.reverse.find? hasAny?) := by
  unfold resolveAdapter
  rw [adapterLoop_eq, List.nil_append, List.nil_append, ← List.head?_filter, ← List.head?_filter]
  cases l.reverse.filter applies with
  | cons a as => rfl
  | nil => cases l.reverse.filter hasAny? <;> rfl

theorem resolveAdapter_iff (applies : AdapterCls → Bool) (l : List AdapterCls) (a : AdapterCls) :
    resolveAdapter applies l = some a ↔ Latest (fun a => applies a = true) l a ∨
      (∀ b ∈ l, ¬ applies b = true) ∧ Latest (fun a => hasAny? a = true) l a := by
  rw [resolveAdapter_eq, latest_iff, latest_iff]
  cases h : l.reverse.find? applies with
  | some b =>
    simp only [Option.some_or]
    constructor
    · intro h; exact .inl h
    · rintro (h' | ⟨h', _⟩)
      · exact h'
      · have := List.find?_some h
        exact absurd this (h' b (by simpa using List.mem_of_find?_eq_some h))
  | none =>
    simp only [Option.none_or, reduceCtorEq, false_or]
    constructor
    · intro h'
      refine ⟨?_, h'⟩
      intro b hb
      exact (List.find?_eq_none.1 h) b (by simpa using hb)
    · exact fun h' => h'.2

theorem factoryValid_iff (a : AdapterCls) (kwargs : List Name) : factoryValid a kwargs = true ↔ ArgsFit a kwargs := by
  simp [factoryValid, ArgsFit, List.all_eq_true]

theorem chooseAdapter_iff (applies : AdapterCls → Bool) (l : List AdapterCls) (kwargs : List Name) (a : AdapterCls) :
    chooseAdapter applies l kwargs = .ok a ↔ resolveAdapter applies l = some a ∧ ArgsFit a kwargs := by
  unfold chooseAdapter
  cases resolveAdapter applies l with
  | none => simp
  | some b =>
    simp only [Option.some.injEq]
    rw [← factoryValid_iff]
    by_cases hv : factoryValid b kwargs = true
    · rw [if_pos hv]
      constructor
      · intro h; cases h; exact ⟨rfl, hv⟩
      · rintro ⟨rfl, _⟩; rfl
    · rw [if_neg hv]
      constructor
      · intro h; cases h
      · rintro ⟨rfl, h⟩; exact absurd h hv

/-- The loader chosen after a sequence of registrations. -/
theorem loadFrom_iff (H : Hier) (regs : List AdapterCls) (key : Name) (t : PyTy) (kwargs : List Name) (a : AdapterCls) :
    loadFrom H (registerAll regs) key t kwargs = .ok a ↔
      (Latest (fun a => (a.key == key && a.canLoad && loaderApplies H t a) = true) regs a ∨
        (∀ b ∈ regs, ¬ (b.key == key && b.canLoad && loaderApplies H t b) = true) ∧
          Latest (fun a => (a.key == key && a.canLoad && hasAny? a) = true) regs a) ∧ ArgsFit a kwargs := by
  have h : loadFrom H (registerAll regs) key t kwargs = .ok a ↔
      chooseAdapter (loaderApplies H t) (regs.filter (fun a => a.key == key && a.canLoad)) kwargs = .ok a := by
    unfold loadFrom
    rw [loaders_of]
    cases regs.filter (fun a => a.key == key && a.canLoad) with
    | nil => simp [chooseAdapter, resolveAdapter, adapterLoop]
    | cons b bs => rfl
  rw [h, chooseAdapter_iff, resolveAdapter_iff, latest_filter, latest_filter]
  simp only [List.mem_filter, and_imp, Bool.and_eq_true, not_and]

/-- The saver chosen after a sequence of registrations. -/
theorem saveTo_iff (H : Hier) (regs : List AdapterCls) (key : Name) (t : PyTy) (kwargs : List Name) (a : AdapterCls) :
    saveTo H (registerAll regs) key t kwargs = .ok a ↔
      (Latest (fun a => (a.key == key && a.canSave && saverApplies H t a) = true) regs a ∨
        (∀ b ∈ regs, ¬ (b.key == key && b.canSave && saverApplies H t b) = true) ∧
          Latest (fun a => (a.key == key && a.canSave && hasAny? a) = true) regs a) ∧ ArgsFit a kwargs := by
  have h : saveTo H (registerAll regs) key t kwargs = .ok a ↔
      chooseAdapter (saverApplies H t) (regs.filter (fun a => a.key == key && a.canSave)) kwargs = .ok a := by
    unfold saveTo
    rw [savers_of]
    cases regs.filter (fun a => a.key == key && a.canSave) with
    | nil => simp [chooseAdapter, resolveAdapter, adapterLoop]
    | cons b bs => rfl
  rw [h, chooseAdapter_iff, resolveAdapter_iff, latest_filter, latest_filter]
  simp only [List.mem_filter, and_imp, Bool.and_eq_true, not_and]

/-! ### Classes -/

theorem hasAny?_iff (a : AdapterCls) : hasAny? a = true ↔ .any ∈ a.types := by
  unfold hasAny?
  rw [List.any_eq_true]
  constructor
  · rintro ⟨t, ht, h⟩
    rw [PyTy.eq_any h] at ht; exact ht
  · intro h; exact ⟨.any, h, PyTy.eq_refl _⟩

theorem subclassCheck_cls {H : Hier} (hrefl : ∀ c, H.sub c c = true) {r p : Name} (hr : H.generic r = false)
    (hp : H.generic p = false) : subclassCheck H (.cls r) (.cls p) = H.sub r p :=
  customCheck_cls hrefl hr 1 hp

theorem subclassCheck_to_any (H : Hier) (r : PyTy) : subclassCheck H r .any = true := by
  unfold subclassCheck
  rw [show r.size + PyTy.any.size = r.size + 1 from rfl, customCheck]
  simp [PyTy.strip, PyTy.eq_refl]

theorem subclassCheck_of_any (H : Hier) {c : Name} (hc : H.generic c = false) : subclassCheck H .any (.cls c) = false := by
  change customCheck H 2 .any (.cls c) = false
  rw [customCheck]
  simp [PyTy.strip, PyTy.eq, safeSubclass, PyTy.isUnion, PyTy.isGeneric, hc, PyTy.origin, optEq, optSub]

theorem loaderApplies_cls {H : Hier} (hrefl : ∀ c, H.sub c c = true) {c : Name} (hc : H.generic c = false) {a : AdapterCls}
    (ht : ∀ t ∈ a.types, ClassOrAny H t) :
    loaderApplies H (.cls c) a = true ↔ ∃ d, .cls d ∈ a.types ∧ H.sub d c = true := by
  unfold loaderApplies
  rw [List.any_eq_true]
  constructor
  · rintro ⟨t, hmem, h⟩
    rcases ht t hmem with rfl | ⟨d, rfl, hd⟩
    · rw [subclassCheck_of_any H hc] at h; cases h
    · rw [subclassCheck_cls hrefl hd hc] at h
      exact ⟨d, hmem, h⟩
  · rintro ⟨d, hmem, h⟩
    refine ⟨_, hmem, ?_⟩
    rcases ht _ hmem with h' | ⟨e, h', he⟩
    · cases h'
    · cases h'
      rw [subclassCheck_cls hrefl he hc]; exact h

theorem dedup_subset : ∀ (l acc : List PyTy), ∀ t ∈ dedupTypes l acc, t ∈ acc ∨ t ∈ l := by
  intro l
  induction l with
  | nil => intro acc t h; exact .inl h
  | cons a l ih =>
    intro acc t h
    rcases ih _ t h with h | h
    · split at h
      · exact .inl h
      · rcases List.mem_append.1 h with h | h
        · exact .inl h
        · rw [List.mem_singleton] at h
          exact .inr (by rw [h]; exact .head _)
    · exact .inr (.tail _ h)

theorem mkUnion_cls {types : List PyTy} (hu : ∀ t ∈ types, ∀ as, t ≠ .union as) {c : Name} (h : (mkUnion types).eq (.cls c) = true) :
    .cls c ∈ types := by
  have h := PyTy.eq_cls h
  unfold mkUnion at h
  have hs := dedup_subset (types.flatMap PyTy.members) []
  have hf : ∀ t ∈ types.flatMap PyTy.members, t ∈ types := by
    intro t ht
    obtain ⟨u, hu', ht⟩ := List.mem_flatMap.1 ht
    cases u with
    | union as => exact absurd rfl (hu _ hu' as)
    | _ => simp only [PyTy.members, List.mem_singleton] at ht; rw [ht]; exact hu'
  match hd : dedupTypes (types.flatMap PyTy.members) [] with
  | [t] =>
    rw [hd] at h hs
    rcases hs t (.head _) with h' | h'
    · cases h'
    · rw [show t = .cls c from h] at h'
      exact hf _ h'
  | [] => rw [hd] at h; cases h
  | _ :: _ :: _ => rw [hd] at h; cases h

theorem saverApplies_cls {H : Hier} (hrefl : ∀ c, H.sub c c = true) {c : Name} (hc : H.generic c = false) {a : AdapterCls}
    (ht : ∀ t ∈ a.types, ∃ d, t = .cls d ∧ H.generic d = false) :
    saverApplies H (.cls c) a = true ↔ ∃ d, .cls d ∈ a.types ∧ H.sub c d = true := by
  unfold saverApplies
  rw [Bool.or_eq_true, Bool.and_eq_true, List.any_eq_true]
  constructor
  · rintro (⟨_, h⟩ | ⟨t, hmem, h⟩)
    · refine ⟨c, mkUnion_cls ?_ h, hrefl c⟩
      intro t ht' as he
      obtain ⟨d, rfl, _⟩ := ht t ht'
      cases he
    · obtain ⟨d, rfl, hd⟩ := ht t hmem
      rw [subclassCheck_cls hrefl hc hd] at h
      exact ⟨d, hmem, h⟩
  · rintro ⟨d, hmem, h⟩
    refine .inr ⟨_, hmem, ?_⟩
    obtain ⟨e, he, hg⟩ := ht _ hmem
    cases he
    rw [subclassCheck_cls hrefl hc hg]; exact h

/-- **C61, loaders.**  For a parameter whose type is a class, `load_from.<key>` and `from_.<key>` use the loader registered last
under this name among those that make a subclass of it; only if there is none, the one registered last that makes anything; and
the arguments must fit that loader.  Otherwise there is an error. -/
theorem C61_loader {H : Hier} (hrefl : ∀ c, H.sub c c = true) {regs : List AdapterCls} {key c : Name} (hc : H.generic c = false)
    (ht : ∀ a ∈ regs, a.key = key → ∀ t ∈ a.types, ClassOrAny H t) (kwargs : List Name) (a : AdapterCls) :
    loadFrom H (registerAll regs) key (.cls c) kwargs = .ok a ↔
      (Latest (LoadsClass H key c) regs a ∨ (∀ b ∈ regs, ¬ LoadsClass H key c b) ∧ Latest (LoadsAny key) regs a) ∧
        ArgsFit a kwargs := by
  have h1 : ∀ b ∈ regs, ((b.key == key && b.canLoad && loaderApplies H (.cls c) b) = true ↔ LoadsClass H key c b) := by
    intro b hb
    rw [Bool.and_eq_true, Bool.and_eq_true, beq_iff_eq]
    unfold LoadsClass
    constructor
    · rintro ⟨⟨hk, hl⟩, h⟩
      exact ⟨hk, hl, (loaderApplies_cls hrefl hc (ht b hb hk)).1 h⟩
    · rintro ⟨hk, hl, h⟩
      exact ⟨⟨hk, hl⟩, (loaderApplies_cls hrefl hc (ht b hb hk)).2 h⟩
  have h2 : ∀ b ∈ regs, ((b.key == key && b.canLoad && hasAny? b) = true ↔ LoadsAny key b) := by
    intro b _
    rw [Bool.and_eq_true, Bool.and_eq_true, beq_iff_eq, hasAny?_iff, and_assoc]
    rfl
  rw [loadFrom_iff, Latest.congr h1, Latest.congr h2]
  have h3 : (∀ b ∈ regs, ¬ (b.key == key && b.canLoad && loaderApplies H (.cls c) b) = true) ↔ ∀ b ∈ regs, ¬ LoadsClass H key c b :=
    forall_congr' fun b => imp_congr_right fun hb => not_congr (h1 b hb)
  rw [h3]

/-- **C61, savers (partial).**  For a value whose type is a class, `save_to.<key>` and `to.<key>` use the saver registered last under
this name among those that take a superclass of it, with arguments that fit it.  Missing: savers that take anything, which are
not last in line (`C61_violated_any_saver`). -/
theorem C61_saver_partial {H : Hier} (hrefl : ∀ c, H.sub c c = true) {regs : List AdapterCls} {key c : Name}
    (hc : H.generic c = false) (ht : ∀ a ∈ regs, a.key = key → ∀ t ∈ a.types, ∃ d, t = .cls d ∧ H.generic d = false)
    (kwargs : List Name) (a : AdapterCls) :
    saveTo H (registerAll regs) key (.cls c) kwargs = .ok a ↔ Latest (SavesClass H key c) regs a ∧ ArgsFit a kwargs := by
  have h1 : ∀ b ∈ regs, ((b.key == key && b.canSave && saverApplies H (.cls c) b) = true ↔ SavesClass H key c b) := by
    intro b hb
    rw [Bool.and_eq_true, Bool.and_eq_true, beq_iff_eq]
    unfold SavesClass
    constructor
    · rintro ⟨⟨hk, hl⟩, h⟩
      exact ⟨hk, hl, (saverApplies_cls hrefl hc (ht b hb hk)).1 h⟩
    · rintro ⟨hk, hl, h⟩
      exact ⟨⟨hk, hl⟩, (saverApplies_cls hrefl hc (ht b hb hk)).2 h⟩
  rw [saveTo_iff, Latest.congr h1]
  constructor
  · rintro ⟨h | ⟨_, h⟩, hf⟩
    · exact ⟨h, hf⟩
    · have := h.holds
      simp only [Bool.and_eq_true, beq_iff_eq, hasAny?_iff] at this
      obtain ⟨d, hd, _⟩ := ht a h.mem this.1.1 _ this.2
      cases hd
  · rintro ⟨h, hf⟩
    exact ⟨.inl h, hf⟩

/-- **C61, new registrations.**  Whatever the types: an adapter that is registered under another name, that cannot load, or that does
not make values of the type changes nothing; one that does is used from then on (with arguments that fit). -/
theorem C61_register (H : Hier) (regs : List AdapterCls) (b : AdapterCls) (key : Name) (t : PyTy) (kwargs : List Name) :
    (b.key ≠ key ∨ b.canLoad = false ∨ loaderApplies H t b = false ∧ .any ∉ b.types → ∀ a,
      loadFrom H (registerAll (regs ++ [b])) key t kwargs = .ok a ↔ loadFrom H (registerAll regs) key t kwargs = .ok a) ∧
    (b.key = key → b.canLoad = true → loaderApplies H t b = true → ArgsFit b kwargs →
      loadFrom H (registerAll (regs ++ [b])) key t kwargs = .ok b) := by
  constructor
  · intro h a
    have hl : ∀ p : AdapterCls → Bool, (b.key == key && b.canLoad && p b) = false →
        (Latest (fun a => (a.key == key && a.canLoad && p a) = true) (regs ++ [b]) a ↔
          Latest (fun a => (a.key == key && a.canLoad && p a) = true) regs a) := by
      intro p hp
      rw [latest_iff (p := fun a => a.key == key && a.canLoad && p a), latest_iff (p := fun a => a.key == key && a.canLoad && p a)]
      simp [List.find?_cons, hp]
    have h1 : (b.key == key && b.canLoad && loaderApplies H t b) = false := by
      rcases h with h | h | h
      · simp [h]
      · simp [h]
      · simp [h.1]
    have h2 : (b.key == key && b.canLoad && hasAny? b) = false := by
      rcases h with h | h | h
      · simp [h]
      · simp [h]
      · have : hasAny? b = false := by
          rw [Bool.eq_false_iff]
          exact fun he => h.2 ((hasAny?_iff b).1 he)
        simp [this]
    rw [loadFrom_iff, loadFrom_iff, hl _ h1, hl _ h2]
    simp only [List.mem_append, List.mem_singleton]
    have h3 : (∀ c, c ∈ regs ∨ c = b → ¬ (c.key == key && c.canLoad && loaderApplies H t c) = true) ↔
        ∀ c ∈ regs, ¬ (c.key == key && c.canLoad && loaderApplies H t c) = true := by
      constructor
      · intro h c hc; exact h c (.inl hc)
      · rintro h c (hc | rfl)
        · exact h c hc
        · rw [h1]; simp
    rw [h3]
  · intro hk hl ha hf
    rw [loadFrom_iff]
    exact ⟨.inl ⟨regs, [], rfl, by simp [hk, hl, ha], by simp⟩, hf⟩

/-- **C61, loaded values have the type (partial).**  Also for annotations that are not classes: unless the chosen loader makes
anything, it declares a type all values of which are values of the parameter's type.  Missing: as for `C49_sound_partial`. -/
theorem C61_loader_sound_partial {H : Hier} {regs : List AdapterCls} {key : Name} {t : PyTy} {kwargs : List Name} {a : AdapterCls}
    (h : loadFrom H (registerAll regs) key t kwargs = .ok a) (ht : t.Ordinary) (hord : ∀ u ∈ a.types, u.Ordinary)
    (hargs : t.noArgs H ∨ ∀ u ∈ a.types, u.hasArgs) {W : Type} (S : TySem H W) :
    a.key = key ∧ (.any ∈ a.types ∨ ∃ u ∈ a.types, ∀ w, S.mem u w → S.mem t w) := by
  obtain ⟨h | ⟨_, h⟩, _⟩ := (loadFrom_iff H regs key t kwargs a).1 h
  · have h := h.holds
    simp only [Bool.and_eq_true, beq_iff_eq, loaderApplies, List.any_eq_true] at h
    obtain ⟨⟨hk, _⟩, u, hu, hc⟩ := h
    refine ⟨hk, .inr ⟨u, hu, fun w hw => ?_⟩⟩
    obtain ⟨o1, o2, o3⟩ := ht
    obtain ⟨p1, p2, p3⟩ := hord u hu
    exact customCheck_sound S _ u t hc p1 o2 p3 o3 (hargs.elim .inr (fun h => .inl (h u hu))) w hw
  · have h := h.holds
    simp only [Bool.and_eq_true, beq_iff_eq, hasAny?_iff] at h
    exact ⟨h.1.1, .inl h.2⟩

theorem dedup_cover {W : Type} {H : Hier} (S : TySem H W) (w : W) : ∀ (l acc : List PyTy),
    S.memAny (dedupTypes l acc) w →
      S.memAny acc w ∨ S.memAny l w := by
  intro l acc h
  rw [memAny_iff] at h
  obtain ⟨t, ht, hm⟩ := h
  rw [memAny_iff, memAny_iff]
  rcases dedup_subset l acc t ht with h | h
  · exact .inl ⟨t, h, hm⟩
  · exact .inr ⟨t, h, hm⟩

/-- The values of a union made from types. -/
theorem mem_mkUnion {W : Type} {H : Hier} (S : TySem H W) (w : W) {types : List PyTy} (h : S.mem (mkUnion types) w) :
    ∃ t ∈ types, S.mem t w := by
  have hflat : S.memAny (types.flatMap PyTy.members) w → ∃ t ∈ types, S.mem t w := by
    rw [memAny_iff]
    rintro ⟨t, ht, hm⟩
    obtain ⟨u, hu, ht⟩ := List.mem_flatMap.1 ht
    refine ⟨u, hu, ?_⟩
    cases u with
    | union as => exact (memAny_iff S as w).2 ⟨t, ht, hm⟩
    | _ => simp only [PyTy.members, List.mem_singleton] at ht; rw [← ht]; exact hm
  apply hflat
  have hc := dedup_cover S w (types.flatMap PyTy.members) []
  unfold mkUnion at h
  have hm : S.memAny (dedupTypes (types.flatMap PyTy.members) []) w := by
    match hd : dedupTypes (types.flatMap PyTy.members) [] with
    | [t] => rw [hd] at h; exact .inl h
    | [] => rw [hd] at h; exact h
    | _ :: _ :: _ => rw [hd] at h; exact h
  rcases hc hm with h | h
  · exact absurd h (by simp [TySem.memAny])
  · exact h

/-- **C61, saved values are accepted (partial).**  For all annotations: every value of the node's type is a value of a type that
the chosen saver declares.  Missing: as for `C49_sound_partial`. -/
theorem C61_saver_sound_partial {H : Hier} {regs : List AdapterCls} {key : Name} {t : PyTy} {kwargs : List Name} {a : AdapterCls}
    (h : saveTo H (registerAll regs) key t kwargs = .ok a) (ht : t.Ordinary) (hord : ∀ u ∈ a.types, u.Ordinary)
    (hargs : t.hasArgs ∨ ∀ u ∈ a.types, u.noArgs H) {W : Type} (S : TySem H W) (w : W) (hw : S.mem t w) :
    a.key = key ∧ ∃ u ∈ a.types, S.mem u w := by
  obtain ⟨h | ⟨_, h⟩, _⟩ := (saveTo_iff H regs key t kwargs a).1 h
  · have h := h.holds
    simp only [Bool.and_eq_true, beq_iff_eq, saverApplies, Bool.or_eq_true, List.any_eq_true] at h
    obtain ⟨⟨hk, _⟩, ⟨_, he⟩ | ⟨u, hu, hc⟩⟩ := h
    · exact ⟨hk, mem_mkUnion S w ((eq_mem S w _ _ he).2 hw)⟩
    · obtain ⟨o1, o2, o3⟩ := ht
      obtain ⟨p1, p2, p3⟩ := hord u hu
      exact ⟨hk, u, hu, customCheck_sound S _ t u hc o1 p2 o3 p3 (hargs.imp id (fun h => h u hu)) w hw⟩
  · have h := h.holds
    simp only [Bool.and_eq_true, beq_iff_eq, hasAny?_iff] at h
    exact ⟨h.1.1, .any, h.2, by simp [TySem.mem]⟩

theorem earliest_filter {α : Type} {q p : α → Bool} {l : List α} {a : α} :
    Earliest (fun a => p a = true) (l.filter q) a ↔ Earliest (fun a => (q a && p a) = true) l a := by
  rw [earliest_iff, earliest_iff (p := fun a => q a && p a), List.find?_filter]
  simp only [Bool.decide_and, Bool.decide_eq_true]

/-- **C61, the cache (partial).**  The saver and the loader that the cache uses for a format and a value of a class are those
registered *first* under this name that declare a superclass of the class.  Missing: they are not those that `to` and `from_`
use, which are registered last (`C61_violated_cache`). -/
theorem C61_cache_partial {H : Hier} (hrefl : ∀ c, H.sub c c = true) {regs : List AdapterCls} {key c : Name}
    (hc : H.generic c = false) (ht : ∀ a ∈ regs, a.key = key → ∀ t ∈ a.types, ∃ d, t = .cls d ∧ H.generic d = false)
    (s l : AdapterCls) : searchRegistry H (registerAll regs) key (.cls c) = .ok (s, l) ↔
      Earliest (SavesClass H key c) regs s ∧ Earliest (LoadsSuper H key c) regs l := by
  have hsub : ∀ b ∈ regs, b.key = key → ((b.types.any (fun u => subclassCheck H (.cls c) u)) = true ↔
      ∃ d, .cls d ∈ b.types ∧ H.sub c d = true) := by
    intro b hb hk
    rw [List.any_eq_true]
    constructor
    · rintro ⟨t, hmem, h⟩
      obtain ⟨d, rfl, hd⟩ := ht b hb hk t hmem
      rw [subclassCheck_cls hrefl hc hd] at h
      exact ⟨d, hmem, h⟩
    · rintro ⟨d, hmem, h⟩
      obtain ⟨e, he, hg⟩ := ht b hb hk _ hmem
      cases he
      exact ⟨_, hmem, by rw [subclassCheck_cls hrefl hc hg]; exact h⟩
  have h1 : Earliest (SavesClass H key c) regs s ↔ (regs.filter (fun a => a.key == key && a.canSave)).find?
      (fun a => a.types.any (fun u => subclassCheck H (.cls c) u)) = some s := by
    rw [← earliest_iff, earliest_filter]
    apply Earliest.congr
    intro b hb
    rw [Bool.and_eq_true, Bool.and_eq_true, beq_iff_eq]
    unfold SavesClass
    constructor
    · rintro ⟨hk, hl, h⟩
      exact ⟨⟨hk, hl⟩, (hsub b hb hk).2 h⟩
    · rintro ⟨⟨hk, hl⟩, h⟩
      exact ⟨hk, hl, (hsub b hb hk).1 h⟩
  have h2 : Earliest (LoadsSuper H key c) regs l ↔ (regs.filter (fun a => a.key == key && a.canLoad)).find?
      (fun a => a.types.any (fun u => subclassCheck H (.cls c) u)) = some l := by
    rw [← earliest_iff, earliest_filter]
    apply Earliest.congr
    intro b hb
    rw [Bool.and_eq_true, Bool.and_eq_true, beq_iff_eq]
    unfold LoadsSuper
    constructor
    · rintro ⟨hk, hl, h⟩
      exact ⟨⟨hk, hl⟩, (hsub b hb hk).2 h⟩
    · rintro ⟨⟨hk, hl⟩, h⟩
      exact ⟨hk, hl, (hsub b hb hk).1 h⟩
  rw [h1, h2]
  unfold searchRegistry
  rw [savers_of, loaders_of]
  cases regs.filter (fun a => a.key == key && a.canSave) with
  | nil => simp
  | cons x xs =>
    cases regs.filter (fun a => a.key == key && a.canLoad) with
    | nil => simp
    | cons y ys =>
      simp only
      cases List.find? (fun a => a.types.any (fun u => subclassCheck H (.cls c) u)) (x :: xs) with
      | none => simp
      | some s' =>
        cases List.find? (fun a => a.types.any (fun u => subclassCheck H (.cls c) u)) (y :: ys) with
        | none => simp
        | some l' => simp

/-! ### Examples and violations -/
namespace AdapterSample

/-- `MyDict` derives from `dict`; everything derives from `object`. -/
def H : Hier := ⟨fun a b => a == b || b == "object" || (a == "MyDict" && b == "dict"), fun _ => false⟩

theorem H_refl : ∀ c, H.sub c c = true := by intro c; simp [H]

def json1 : AdapterCls := ⟨"JSON", "json", true, true, [.cls "dict", .cls "list"], ["path"], ["indent"]⟩
/-- Registered by the user under the same name, with other arguments. -/
def json2 : AdapterCls := ⟨"MyJSON", "json", true, true, [.cls "dict"], ["url"], []⟩
def myjson : AdapterCls := ⟨"MyDictJSON", "json", true, true, [.cls "MyDict"], ["path"], []⟩
def anyjson : AdapterCls := ⟨"AnyJSON", "json", true, true, [.any], ["path"], []⟩
def pickle : AdapterCls := ⟨"Pickle", "pickle", true, true, [.cls "object"], ["path"], []⟩

/-- The name of the class that is chosen. -/
def chosen : Except UserErr AdapterCls → String
  | .ok a => a.qualname
  | .error e => e

/-- The names of the two classes for the cache. -/
def pairOf : Except UserErr (AdapterCls × AdapterCls) → String × String
  | .ok (a, b) => (a.qualname, b.qualname)
  | .error e => (e, e)

def regs : List AdapterCls := [json1, anyjson, pickle, myjson]

/-- A value of `MyDict` is a `dict`: the newest loader that makes one is used for a parameter of type `dict`; for a parameter of
type `list` it is the only one that makes lists; for an `int` the one that makes anything; and for `object` all make one. -/
example : chosen (loadFrom H (registerAll regs) "json" (.cls "dict") ["path"]) = "MyDictJSON" ∧
    chosen (loadFrom H (registerAll regs) "json" (.cls "list") ["path"]) = "JSON" ∧
    chosen (loadFrom H (registerAll regs) "json" (.cls "int") ["path"]) = "AnyJSON" ∧
    chosen (loadFrom H (registerAll regs) "csv" (.cls "int") ["path"]) = "AttributeError" ∧
    chosen (loadFrom H (registerAll regs) "pickle" (.cls "int") ["path"]) = "InvalidDecoratorException" ∧
    chosen (loadFrom H (registerAll regs) "json" (.cls "list") ["path", "indent"]) = "JSON" := by decide +kernel

/-- The hypotheses of `C61_loader` hold here. -/
example : ∀ a ∈ regs, a.key = "json" → ∀ t ∈ a.types, ClassOrAny H t := by
  intro a ha _ t ht
  simp only [regs, List.mem_cons, List.not_mem_nil, or_false] at ha
  rcases ha with rfl | rfl | rfl | rfl <;>
    simp only [json1, anyjson, pickle, myjson, List.mem_cons, List.not_mem_nil, or_false] at ht <;>
    first
      | (rcases ht with rfl | rfl <;> exact .inr ⟨_, rfl, rfl⟩)
      | (subst ht; first | exact .inl rfl | exact .inr ⟨_, rfl, rfl⟩)

/-- `C61_saver_partial` and `C61_cache_partial`: a value of `MyDict` is taken by the savers of `dict`. -/
example : chosen (saveTo H (registerAll [json1, pickle, json2]) "json" (.cls "MyDict") ["url"]) = "MyJSON" ∧
    ∀ a ∈ [json1, pickle, json2], a.key = "json" → ∀ t ∈ a.types, ∃ d, t = .cls d ∧ H.generic d = false := by
  refine ⟨by decide +kernel, ?_⟩
  intro a ha _ t ht
  simp only [List.mem_cons, List.not_mem_nil, or_false] at ha
  rcases ha with rfl | rfl | rfl <;>
    simp only [json1, pickle, json2, List.mem_cons, List.not_mem_nil, or_false] at ht <;>
    first
      | (rcases ht with rfl | rfl <;> exact ⟨_, rfl, rfl⟩)
      | (subst ht; exact ⟨_, rfl, rfl⟩)

/-- Savers that take several types also take their union. -/
example : chosen (saveTo H (registerAll [json1]) "json" (.union [.cls "list", .cls "dict"]) ["path"]) = "JSON" := by
  decide +kernel

/-- `C61_register`. -/
example : loaderApplies H (.cls "dict") json2 = true ∧ ArgsFit json2 ["url"] := by
  exact ⟨by decide +kernel, (factoryValid_iff _ _).1 (by decide +kernel)⟩

/-- **Violation.**  Adapters for `Any` are last in line for loading, but not for saving. -/
theorem C61_violated_any_saver :
    chosen (loadFrom H (registerAll [json1, anyjson]) "json" (.cls "dict") ["path"]) = "JSON" ∧
    chosen (saveTo H (registerAll [json1, anyjson]) "json" (.cls "dict") ["path"]) = "AnyJSON" := by decide +kernel

/-- **Violation.**  The arguments do not take part in the choice: after registering another loader for the type under the same
name, a use of the first one, with its arguments, is refused. -/
theorem C61_violated_arguments :
    chosen (loadFrom H (registerAll [json1]) "json" (.cls "dict") ["path"]) = "JSON" ∧
    chosen (loadFrom H (registerAll [json1, json2]) "json" (.cls "dict") ["path"]) = "InvalidDecoratorException" := by
  decide +kernel

/-- **Violation.**  A user's adapter replaces the one that comes with the library everywhere except in the cache. -/
theorem C61_violated_cache :
    chosen (saveTo H (registerAll [json1, json2]) "json" (.cls "dict") ["url"]) = "MyJSON" ∧
    chosen (loadFrom H (registerAll [json1, json2]) "json" (.cls "dict") ["url"]) = "MyJSON" ∧
    pairOf (searchRegistry H (registerAll [json1, json2]) "json" (.cls "dict")) =
      ("JSON", "JSON") := by decide +kernel

/-- **Violation.**  The cache takes a loader that declares a superclass: a cached `MyDict` comes back as a `dict`, although no
loader makes a `MyDict` (and `from_` refuses). -/
theorem C61_violated_cache_loader :
    pairOf (searchRegistry H (registerAll [json1]) "json" (.cls "MyDict")) =
      ("JSON", "JSON") ∧
    chosen (loadFrom H (registerAll [json1]) "json" (.cls "MyDict") ["path"]) = "InvalidDecoratorException" := by
  decide +kernel

/-- A loader of `List[int]`. -/
def ints : AdapterCls := ⟨"Ints", "ints", true, false, [.alias true "list" [.cls "int"]], [], []⟩

/-- **Violation.**  The decorator accepts a parameter `List[Annotated[int, …]]`, but building the graph then fails. -/
theorem C61_violated_annotated :
    let t : PyTy := .alias true "list" [.annotated (.cls "int") [.other "meta"]]
    chosen (validateLoadFrom H (registerAll [ints]) "ints" t []) = "Ints" ∧
    chosen (loadFrom H (registerAll [ints]) "ints" t []) = "InvalidDecoratorException" := by decide +kernel

/-- `C61_loader_sound_partial` and `C61_saver_sound_partial` apply to generic types. -/
example : chosen (loadFrom H (registerAll [ints]) "ints" (.alias true "list" [.cls "int"]) []) = "Ints" ∧
    (PyTy.alias true "list" [.cls "int"]).Ordinary ∧ ∀ u ∈ ints.types, u.Ordinary ∧ u.hasArgs := by
  refine ⟨by decide +kernel, by simp [PyTy.Ordinary, PyTy.mentions, PyTy.mentionsAny], ?_⟩
  intro u hu
  simp only [ints, List.mem_singleton] at hu
  subst hu
  simp [PyTy.Ordinary, PyTy.mentions, PyTy.mentionsAny, PyTy.hasArgs]

end AdapterSample
end Verif
