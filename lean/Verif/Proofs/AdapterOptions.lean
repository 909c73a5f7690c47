import Verif.Model.AdapterOptions

/-! Lemmas about the interpreter of `Model/AdapterOptions.lean`: which keyword argument ends up with
which value, read off the statements that mention it. -/

namespace Verif.Options

/-- Statements whose effect on one keyword does not depend on other keywords. -/
def Stmt.simple : Stmt → Bool
  | .update _ => false
  | .popUpdate _ => false
  | .rename _ _ => false
  | _ => true

/-- Whether a statement can affect the keyword `k`. -/
def Stmt.touches (fields : List (Name × Option Val)) (k : Name) : Stmt → Bool
  | .set _ key _ => key == k
  | .del key => key == k
  | .delIfNone key => key == k
  | .changed skip => fields.any (fun f => f.1 == k) && !skip.contains k
  | _ => true

/-- The effect of a simple statement on the keyword `k`. -/
def Stmt.effect (fields : List (Name × Option Val)) (version : String) (s : Dict Name Val) (k : Name) :
    Stmt → Option Val → Option Val
  | .set cs key f, o => if key = k ∧ cs.all (Cond.holds version s) = true then some (field s f) else o
  | .asdict, _ => s.get? k
  | .del key, o => if key = k then none else o
  | .delIfNone key, o => if key = k ∧ o.any Val.isNone = true then none else o
  | .changed skip, o =>
    if fields.any (fun f => f.1 == k) && !skip.contains k &&
        !(fields.any fun f => f.1 == k && f.2.any (fun d => (field s k).same d)) then some (field s k) else o
  | _, o => o

theorem Stmt.effect_of_not_touches {fields : List (Name × Option Val)} {version : String}
    {s : Dict Name Val} {k : Name} {t : Stmt} (h : t.touches fields k = false) (o : Option Val) :
    t.effect fields version s k o = o := by
  cases t with
  | set cs key f =>
    have hk : key ≠ k := by simpa [Stmt.touches] using h
    simp [Stmt.effect, hk]
  | asdict => simp [Stmt.touches] at h
  | del key =>
    have hk : key ≠ k := by simpa [Stmt.touches] using h
    simp [Stmt.effect, hk]
  | delIfNone key =>
    have hk : key ≠ k := by simpa [Stmt.touches] using h
    simp [Stmt.effect, hk]
  | update f => rfl
  | popUpdate key => rfl
  | rename new old => rfl
  | changed skip =>
    have h' : (fields.any (fun f => f.1 == k) && !skip.contains k) = false := h
    simp only [Stmt.effect, h', Bool.false_and, Bool.false_eq_true, if_false]

/-- The loop of `changed`, on one keyword. -/
theorem changed_get? (s : Dict Name Val) (skip : List Name) (k : Name) :
    ∀ (fields : List (Name × Option Val)), (fields.map (·.1)).Nodup → ∀ kw : Dict Name Val,
    (fields.foldl (fun kw f =>
      if skip.contains f.1 then kw
      else if f.2.any (fun d => (field s f.1).same d) then kw
      else kw.set f.1 (field s f.1)) kw).get? k =
    if fields.any (fun f => f.1 == k) && !skip.contains k &&
        !(fields.any fun f => f.1 == k && f.2.any (fun d => (field s k).same d)) then some (field s k)
    else kw.get? k := by
  intro fields
  induction fields with
  | nil => intro _ kw; rfl
  | cons f rest ih =>
    intro hn kw
    have hn' : f.1 ∉ rest.map (·.1) ∧ (rest.map (·.1)).Nodup := List.nodup_cons.mp hn
    rw [List.foldl_cons, ih hn'.2]
    by_cases hk : f.1 = k
    · have hr1 : rest.any (fun f => f.1 == k) = false := by
        rw [Bool.eq_false_iff]
        intro hc
        obtain ⟨x, hx, hxk⟩ := List.any_eq_true.mp hc
        have hxk' : x.1 = k := by simpa using hxk
        exact hn'.1 (hk ▸ hxk' ▸ List.mem_map.mpr ⟨x, hx, rfl⟩)
      have hr2 : (rest.any fun f => f.1 == k && f.2.any (fun d => (field s k).same d)) = false := by
        rw [Bool.eq_false_iff]
        intro hc
        obtain ⟨x, hx, hxk⟩ := List.any_eq_true.mp hc
        have hxk' : x.1 = k := by
          have := (Bool.and_eq_true _ _ ▸ hxk : _ ∧ _).1
          simpa using this
        exact hn'.1 (hk ▸ hxk' ▸ List.mem_map.mpr ⟨x, hx, rfl⟩)
      subst hk
      simp only [hr1, hr2, Bool.false_and, Bool.false_eq_true, if_false, List.any_cons, beq_self_eq_true,
        Bool.true_or, Bool.true_and, Bool.or_false]
      cases hs : skip.contains f.1 with
      | true => simp
      | false =>
        cases hd : f.2.any (fun d => (field s f.1).same d) with
        | true => simp
        | false => simp [Dict.get?_set]
    · have hb : (f.1 == k) = false := by simpa using hk
      have hacc : Dict.get? (if skip.contains f.1 then kw
          else if f.2.any (fun d => (field s f.1).same d) then kw
          else kw.set f.1 (field s f.1)) k = kw.get? k := by
        cases skip.contains f.1 with
        | true => rfl
        | false =>
          cases f.2.any (fun d => (field s f.1).same d) with
          | true => rfl
          | false => exact Dict.get?_set_ne _ _ hk
      simp only [List.any_cons, hb, Bool.false_or, Bool.false_and, hacc]

theorem Stmt.exec_get? {fields : List (Name × Option Val)} (hf : (fields.map (·.1)).Nodup)
    {version : String} {s : Dict Name Val} (k : Name) {t : Stmt}
    (hs : t = .asdict → copyItems s = .ok s) (ht : t.simple = true) {kw kw' : Dict Name Val} (h : t.exec fields version s kw = .ok kw') :
    kw'.get? k = t.effect fields version s k (kw.get? k) := by
  cases t with
  | set cs key f =>
    have hd : Stmt.exec fields version s (.set cs key f) kw =
      if cs.all (Cond.holds version s) then .ok (kw.set key (field s f)) else .ok kw := rfl
    rw [hd] at h
    cases hc : cs.all (Cond.holds version s) with
    | true =>
      rw [hc, if_pos rfl] at h
      cases h
      simp only [Stmt.effect, hc, Dict.get?_set, and_true]
    | false =>
      rw [hc, if_neg (by simp)] at h
      cases h
      simp [Stmt.effect, hc]
  | asdict =>
    have hd : Stmt.exec fields version s .asdict kw = copyItems s := rfl
    rw [hd, hs rfl] at h
    cases h
    rfl
  | del key =>
    have hd : Stmt.exec fields version s (.del key) kw =
      if kw.has key then .ok (kw.del key) else .error .key := rfl
    rw [hd] at h
    cases hh : kw.has key with
    | true =>
      rw [hh, if_pos rfl] at h
      cases h
      simp only [Stmt.effect, Dict.get?_del]
    | false =>
      rw [hh, if_neg (by simp)] at h
      cases h
  | delIfNone key =>
    have hd : Stmt.exec fields version s (.delIfNone key) kw =
      match kw.get? key with
      | none => .error .key
      | some v => if v.isNone then .ok (kw.del key) else .ok kw := rfl
    rw [hd] at h
    cases hg : kw.get? key with
    | none => simp only [hg] at h; cases h
    | some v =>
      simp only [hg] at h
      cases hv : v.isNone with
      | true =>
        rw [hv, if_pos rfl] at h
        cases h
        by_cases hk : key = k
        · subst hk; simp [Stmt.effect, Dict.get?_del, hg, hv]
        · simp [Stmt.effect, Dict.get?_del, hk]
      | false =>
        rw [hv, if_neg (by simp)] at h
        cases h
        by_cases hk : key = k
        · subst hk; simp [Stmt.effect, hg, hv]
        · simp [Stmt.effect, hk]
  | update f => simp [Stmt.simple] at ht
  | popUpdate key => simp [Stmt.simple] at ht
  | rename new old => simp [Stmt.simple] at ht
  | changed skip =>
    cases h
    exact changed_get? s skip k fields hf kw

theorem kwargsOf_get? {fields : List (Name × Option Val)} (hf : (fields.map (·.1)).Nodup)
    {version : String} {s : Dict Name Val} (k : Name) :
    ∀ (body : List Stmt), (Stmt.asdict ∈ body → copyItems s = .ok s) → body.all Stmt.simple = true →
    ∀ {kw kw' : Dict Name Val},
    kwargsOf fields version s body kw = .ok kw' →
    kw'.get? k = (body.filter (Stmt.touches fields k)).foldl
      (fun o t => t.effect fields version s k o) (kw.get? k) := by
  intro body
  induction body with
  | nil => intro _ _ kw kw' h; cases h; rfl
  | cons t rest ih =>
    intro hs hb kw kw' h
    have hb' : t.simple = true ∧ rest.all Stmt.simple = true := by
      simpa only [List.all_cons, Bool.and_eq_true] using hb
    have hd : kwargsOf fields version s (t :: rest) kw =
      match t.exec fields version s kw with
      | .error e => .error e
      | .ok kw => kwargsOf fields version s rest kw := rfl
    rw [hd] at h
    cases he : t.exec fields version s kw with
    | error e => simp only [he] at h; cases h
    | ok kw1 =>
      simp only [he] at h
      rw [ih (fun h => hs (List.mem_cons_of_mem _ h)) hb'.2 h,
        Stmt.exec_get? hf k (fun h => hs (h ▸ List.mem_cons_self ..)) hb'.1 he]
      cases ht : t.touches fields k with
      | true => rw [List.filter_cons_of_pos (by simpa using ht), List.foldl_cons]
      | false =>
        rw [List.filter_cons_of_neg (by simp [ht]), Stmt.effect_of_not_touches ht]

/-! Success. -/

/-- Statements that never raise. -/
def Stmt.safe : Stmt → Bool
  | .set _ _ _ => true
  | .changed _ => true
  | _ => false

theorem kwargsOf_safe (fields : List (Name × Option Val)) (version : String) (s : Dict Name Val) :
    ∀ (body : List Stmt), body.all Stmt.safe = true → ∀ kw : Dict Name Val,
    ∃ kw', kwargsOf fields version s body kw = .ok kw' := by
  intro body
  induction body with
  | nil => intro _ kw; exact ⟨kw, rfl⟩
  | cons t rest ih =>
    intro hb kw
    have hb' : t.safe = true ∧ rest.all Stmt.safe = true := by
      simpa only [List.all_cons, Bool.and_eq_true] using hb
    have hd : kwargsOf fields version s (t :: rest) kw =
      match t.exec fields version s kw with
      | .error e => .error e
      | .ok kw => kwargsOf fields version s rest kw := rfl
    have he : ∃ kw1, t.exec fields version s kw = .ok kw1 := by
      cases t with
      | set cs key f =>
        have hd : Stmt.exec fields version s (.set cs key f) kw =
          if cs.all (Cond.holds version s) then .ok (kw.set key (field s f)) else .ok kw := rfl
        rw [hd]
        cases cs.all (Cond.holds version s) with
        | true => exact ⟨_, rfl⟩
        | false => exact ⟨_, rfl⟩
      | changed skip => exact ⟨_, rfl⟩
      | _ => simp [Stmt.safe] at hb'
    obtain ⟨kw1, he⟩ := he
    obtain ⟨kw', h'⟩ := ih hb'.2 kw1
    refine ⟨kw', ?_⟩
    rw [hd, he]
    exact h'

/-- The keyword a deleting statement needs. -/
def Stmt.removes : Stmt → Option Name
  | .del key => some key
  | .delIfNone key => some key
  | _ => none

theorem kwargsOf_removes (fields : List (Name × Option Val)) (version : String) (s : Dict Name Val) :
    ∀ (body : List Stmt) (keys : List Name), body.map Stmt.removes = keys.map some → keys.Nodup →
    ∀ kw : Dict Name Val, (∀ k ∈ keys, kw.has k = true) →
    ∃ kw', kwargsOf fields version s body kw = .ok kw' := by
  intro body
  induction body with
  | nil => intro _ _ _ kw _; exact ⟨kw, rfl⟩
  | cons t rest ih =>
    intro keys hm hn kw hk
    cases keys with
    | nil => simp at hm
    | cons k keys =>
      have hm' : t.removes = some k ∧ rest.map Stmt.removes = keys.map some := by simpa using hm
      have hn' := List.nodup_cons.mp hn
      have hkk : kw.has k = true := hk k (List.mem_cons_self ..)
      obtain ⟨v, hv⟩ := (Dict.has_eq_true_iff _ _).mp hkk
      have hdel : ∀ k' ∈ keys, (kw.del k).has k' = true := by
        intro k' hk'
        have hne : k ≠ k' := fun e => hn'.1 (e ▸ hk')
        obtain ⟨w, hw⟩ := (Dict.has_eq_true_iff _ _).mp (hk k' (List.mem_cons_of_mem _ hk'))
        exact (Dict.has_eq_true_iff _ _).mpr ⟨w, by rw [Dict.get?_del, if_neg hne, hw]⟩
      have hkeep : ∀ k' ∈ keys, kw.has k' = true := fun k' hk' => hk k' (List.mem_cons_of_mem _ hk')
      have hd : kwargsOf fields version s (t :: rest) kw =
        match t.exec fields version s kw with
        | .error e => .error e
        | .ok kw => kwargsOf fields version s rest kw := rfl
      rw [hd]
      cases t with
      | del key =>
        have hkey : key = k := by simpa [Stmt.removes] using hm'.1
        subst hkey
        have he : Stmt.exec fields version s (.del key) kw = .ok (kw.del key) := by
          have : Stmt.exec fields version s (.del key) kw =
            if kw.has key then .ok (kw.del key) else .error .key := rfl
          rw [this, if_pos hkk]
        rw [he]
        exact ih keys hm'.2 hn'.2 _ hdel
      | delIfNone key =>
        have hkey : key = k := by simpa [Stmt.removes] using hm'.1
        subst hkey
        have he : Stmt.exec fields version s (.delIfNone key) kw =
            if v.isNone then .ok (kw.del key) else .ok kw := by
          have : Stmt.exec fields version s (.delIfNone key) kw =
            match kw.get? key with
            | none => .error .key
            | some v => if v.isNone then .ok (kw.del key) else .ok kw := rfl
          rw [this, hv]
        rw [he]
        cases v.isNone with
        | true => exact ih keys hm'.2 hn'.2 _ hdel
        | false => exact ih keys hm'.2 hn'.2 _ hkeep
      | _ => simp [Stmt.removes] at hm'

/-! The calls. -/

/-- What a call text makes of the keyword arguments. -/
def CallText.callOf (s kw : Dict Name Val) (c : CallText) : Call :=
  { function := c.function
    positional := c.positional.map (field s)
    keywords := c.named.map (fun p => (p.1, field s p.2)) ++ c.pick.of kw }

theorem makeCalls_ok {s kw : Dict Name Val} :
    ∀ (texts : List CallText) {calls : List Call}, makeCalls s kw texts = .ok calls →
    calls = texts.map (CallText.callOf s kw) := by
  intro texts
  induction texts with
  | nil => intro calls h; cases h; rfl
  | cons c rest ih =>
    intro calls h
    have hd : makeCalls s kw (c :: rest) =
      match c.make s kw with
      | .error e => .error e
      | .ok call =>
        match makeCalls s kw rest with
        | .error e => .error e
        | .ok calls => .ok (call :: calls) := rfl
    rw [hd] at h
    cases hc : c.make s kw with
    | error e => simp only [hc] at h; cases h
    | ok call =>
      simp only [hc] at h
      cases hr : makeCalls s kw rest with
      | error e => simp only [hr] at h; cases h
      | ok cs =>
        simp only [hr] at h
        cases h
        rw [ih hr]
        have hm : c.make s kw = if (c.pick.of kw).keys.any fun k => c.named.any fun p => p.1 == k
            then .error .type else .ok (c.callOf s kw) := rfl
        rw [hm] at hc
        cases hb : (c.pick.of kw).keys.any fun k => c.named.any fun p => p.1 == k with
        | true => rw [hb, if_pos rfl] at hc; cases hc
        | false =>
          rw [hb, if_neg (by simp)] at hc
          cases hc
          rfl

theorem get?_filter (kw : Dict Name Val) (p : Name → Bool) (k : Name) :
    Dict.get? (kw.filter fun e => p e.1) k = if p k then kw.get? k else none := by
  induction kw with
  | nil => cases p k <;> rfl
  | cons e rest ih =>
    obtain ⟨k', v⟩ := e
    cases hp : p k' with
    | true =>
      rw [List.filter_cons_of_pos (by simpa using hp), Dict.get?_cons, Dict.get?_cons, ih]
      by_cases hk : k' = k
      · subst hk; simp [hp]
      · simp [hk]
    | false =>
      rw [List.filter_cons_of_neg (by simp [hp]), ih, Dict.get?_cons]
      by_cases hk : k' = k
      · subst hk; simp [hp]
      · simp [hk]

/-- Whether a call lets the keyword `k` through. -/
def Pick.lets (k : Name) : Pick → Bool
  | .all => true
  | .only keys => keys.contains k
  | .others keys => !keys.contains k

theorem Pick.of_get? (kw : Dict Name Val) (p : Pick) (k : Name) :
    (p.of kw).get? k = if p.lets k then kw.get? k else none := by
  cases p with
  | all => rfl
  | only keys => exact get?_filter kw (fun e => keys.contains e) k
  | others keys => exact get?_filter kw (fun e => !keys.contains e) k

/-- The field that a call text passes by name under the keyword `k`. -/
def CallText.named? (c : CallText) (k : Name) : Option Name := Dict.get? c.named k

theorem named_get? (s : Dict Name Val) (named : List (Name × Name)) (k : Name) :
    Dict.get? (named.map fun p => (p.1, field s p.2)) k = (Dict.get? named k).map (field s) := by
  induction named with
  | nil => rfl
  | cons p rest ih =>
    obtain ⟨a, b⟩ := p
    rw [List.map_cons, Dict.get?_cons, Dict.get?_cons, ih]
    by_cases hk : a = k
    · simp [hk]
    · simp [hk]

theorem CallText.callOf_get? (s kw : Dict Name Val) (c : CallText) (k : Name) :
    (c.callOf s kw).keywords.get? k =
      ((c.named? k).map (field s)).or (if c.pick.lets k then kw.get? k else none) := by
  have hd : (c.callOf s kw).keywords =
    c.named.map (fun p => (p.1, field s p.2)) ++ c.pick.of kw := rfl
  rw [hd, Dict.get?_append, named_get?, Pick.of_get?]
  cases h : (Dict.get? c.named k) with
  | none => simp [CallText.named?, h]
  | some f => simp [CallText.named?, h]

theorem makeCalls_succeeds {s kw : Dict Name Val} :
    ∀ (texts : List CallText),
    (∀ c ∈ texts, ∀ p ∈ c.named, kw.get? p.1 = none ∨ c.pick.lets p.1 = false) →
    makeCalls s kw texts = .ok (texts.map (CallText.callOf s kw)) := by
  intro texts
  induction texts with
  | nil => intro _; rfl
  | cons c rest ih =>
    intro h
    have hd : makeCalls s kw (c :: rest) =
      match c.make s kw with
      | .error e => .error e
      | .ok call =>
        match makeCalls s kw rest with
        | .error e => .error e
        | .ok calls => .ok (call :: calls) := rfl
    have hm : c.make s kw = if (c.pick.of kw).keys.any fun k => c.named.any fun p => p.1 == k
        then .error .type else .ok (c.callOf s kw) := rfl
    have hb : ((c.pick.of kw).keys.any fun k => c.named.any fun p => p.1 == k) = false := by
      rw [Bool.eq_false_iff]
      intro hc
      obtain ⟨k, hk, hk2⟩ := List.any_eq_true.mp hc
      obtain ⟨p, hp, hpk⟩ := List.any_eq_true.mp hk2
      have hpk' : p.1 = k := by simpa using hpk
      subst hpk'
      obtain ⟨v, hv⟩ := Dict.mem_keys_iff.mp hk
      rw [Pick.of_get?] at hv
      cases h c (List.mem_cons_self ..) p hp with
      | inl h1 => rw [h1] at hv; cases hl : c.pick.lets p.1 <;> simp [hl] at hv
      | inr h2 => simp [h2] at hv
    have hc : c.make s kw = .ok (c.callOf s kw) := by
      rw [hm, hb]; rfl
    rw [hd, hc]
    simp only [ih (fun c' hc' => h c' (List.mem_cons_of_mem _ hc')), List.map_cons]

/-! Settings. -/

theorem settings_get? (fields : List (Name × Option Val)) (hf : (fields.map (·.1)).Nodup)
    (args : Dict Name Val) {f : Name × Option Val} (h : f ∈ fields) :
    (settings fields args).get? f.1 = some ((args.get? f.1).getD (f.2.getD .none)) := by
  have hk : (settings fields args).keys = fields.map (·.1) := by
    simp [settings, Dict.keys, List.map_map, Function.comp_def]
  exact Dict.get?_of_mem (hk ▸ hf) (List.mem_map.mpr ⟨f, h, rfl⟩)

theorem settings_get?_none (fields : List (Name × Option Val)) (args : Dict Name Val) {k : Name}
    (h : k ∉ fields.map (·.1)) : (settings fields args).get? k = none := by
  have hk : (settings fields args).keys = fields.map (·.1) := by
    simp [settings, Dict.keys, List.map_map, Function.comp_def]
  exact (Dict.get?_eq_none_iff _ _).mpr (hk ▸ h)

end Verif.Options
