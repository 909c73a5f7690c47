import Verif.Proofs.AdapterTables

/-! C87: the options of a data loader or saver reach the library. -/

namespace Verif.Options

/-! ### Lemmas -/

mutual
theorem copyVal_plain : ∀ v : Val, v.plain = true → copyVal v = .ok v
  | .none, _ => rfl
  | .bool _, _ => rfl
  | .int _, _ => rfl
  | .str _, _ => rfl
  | .path _, _ => rfl
  | .buffer c i, h => by
    have hc : c = true := by simpa [Val.plain] using h
    subst hc; rfl
  | .obj c i, h => by
    have hc : c = true := by simpa [Val.plain] using h
    subst hc; rfl
  | .dict items, h => by
    have hi : plainItems items = true := by simpa [Val.plain] using h
    simp only [copyVal, copyItems_plain items hi]
  | .record _, h => by simp [Val.plain] at h

theorem copyItems_plain : ∀ items : List (Name × Val), plainItems items = true →
    copyItems items = .ok items
  | [], _ => rfl
  | (k, v) :: rest, h => by
    have h' : v.plain = true ∧ plainItems rest = true := by simpa [plainItems] using h
    simp only [copyItems, copyVal_plain v h'.1, copyItems_plain rest h'.2]
end

theorem plainItems_of_forall : ∀ items : List (Name × Val), (∀ p ∈ items, p.2.plain = true) →
    plainItems items = true
  | [], _ => rfl
  | (k, v) :: rest, h => by
    simp only [plainItems, Bool.and_eq_true]
    exact ⟨h (k, v) (List.mem_cons_self ..),
      plainItems_of_forall rest fun p hp => h p (List.mem_cons_of_mem _ hp)⟩

theorem plain_of_mem : ∀ items : List (Name × Val), plainItems items = true → ∀ p ∈ items, p.2.plain = true
  | [], _, p, hp => by cases hp
  | (k, v) :: rest, h, p, hp => by
    have h' : v.plain = true ∧ plainItems rest = true := by simpa [plainItems] using h
    cases hp with
    | head => exact h'.1
    | tail _ hp => exact plain_of_mem rest h'.2 p hp

theorem settings_plain (fields : List (Name × Option Val)) (args : Dict Name Val)
    (hf : fields.all (fun f => (f.2.getD .none).plain) = true) (ha : ∀ p ∈ args, p.2.plain = true) :
    copyItems (settings fields args) = .ok (settings fields args) := by
  apply copyItems_plain
  apply plainItems_of_forall
  intro p hp
  obtain ⟨f, hf', rfl⟩ := List.mem_map.mp hp
  cases hg : args.get? f.1 with
  | none => exact List.all_eq_true.mp hf f hf'
  | some v => exact ha _ (Dict.get?_mem hg)

theorem construct_ok {fields : List (Name × Option Val)} {args s : Dict Name Val}
    (h : construct fields args = .ok s) : s = settings fields args ∧
    (∀ k ∈ args.keys, k ∈ fields.map (·.1)) ∧ ∀ f ∈ fields, f.2 = none → f.1 ∈ args.keys := by
  unfold construct at h
  cases h1 : args.keys.all fun k => fields.any fun f => f.1 == k with
  | false => rw [h1, if_neg (by simp)] at h; cases h
  | true =>
    cases h2 : fields.all fun f => f.2.isSome || args.has f.1 with
    | false => rw [h1, if_pos rfl, h2, if_neg (by simp)] at h; cases h
    | true =>
      rw [h1, if_pos rfl, h2, if_pos rfl] at h
      cases h
      refine ⟨rfl, ?_, ?_⟩
      · intro k hk
        obtain ⟨f, hf, e⟩ := List.any_eq_true.mp (List.all_eq_true.mp h1 k hk)
        have e' : f.1 = k := by simpa using e
        exact List.mem_map.mpr ⟨f, hf, e'⟩
      · intro f hf hn
        have := List.all_eq_true.mp h2 f hf
        rw [hn] at this
        exact (Dict.has_iff _ _).mp (by simpa using this)

theorem construct_proper {a : Adapter} {args : Dict Name Val} (h : Proper a args) :
    construct a.fields args = .ok (settings a.fields args) := by
  have h1 : (args.keys.all fun k => a.fields.any fun f => f.1 == k) = true := by
    rw [List.all_eq_true]
    intro k hk
    obtain ⟨f, hf, e⟩ := List.mem_map.mp (h.1 k hk)
    exact List.any_eq_true.mpr ⟨f, hf, by simpa using e⟩
  have h2 : (a.fields.all fun f => f.2.isSome || args.has f.1) = true := by
    rw [List.all_eq_true]
    intro f hf
    cases hd : f.2 with
    | some v => rfl
    | none =>
      have := (Dict.has_iff _ _).mpr (h.2 f hf hd)
      simp [this]
  unfold construct
  rw [h1, if_pos rfl, h2, if_pos rfl]

theorem field_settings (a : Adapter) (hf : (a.fields.map (·.1)).Nodup) {args : Dict Name Val}
    (hp : ∀ k ∈ args.keys, k ∈ a.fields.map (·.1)) (k : Name) :
    field (settings a.fields args) k = valueOf a args k := by
  unfold field valueOf
  cases hfind : a.fields.find? (fun f => f.1 == k) with
  | some f =>
    have hm := List.mem_of_find?_eq_some hfind
    have hk : f.1 = k := by simpa using List.find?_some hfind
    subst hk
    rw [settings_get? a.fields hf args hm]
    rfl
  | none =>
    have hk : k ∉ a.fields.map (·.1) := by
      intro hm
      obtain ⟨f, hf', e⟩ := List.mem_map.mp hm
      have := List.find?_eq_none.mp hfind f hf'
      simp [e] at this
    have ha : args.get? k = none := (Dict.get?_eq_none_iff _ _).mpr fun h => hk (hp k h)
    rw [settings_get?_none a.fields args hk, ha]
    rfl

theorem postInit_field {p : PostInit} {s s' : Dict Name Val} (h : postInit p s = .ok s') {k : Name}
    (hk : ∀ x y, p = .oneOf x y → x ≠ k) : s'.get? k = s.get? k := by
  cases p with
  | nothing => cases h; rfl
  | oneOf x y =>
    have hd : postInit (.oneOf x y) s =
      if (field s x).isNone && (field s y).isNone then .error .value
      else if !(field s x).isNone && !(field s y).isNone then .error .value
      else if (field s x).isNone then .ok (s.set x (field s y))
      else .ok s := rfl
    rw [hd] at h
    cases hx : (field s x).isNone with
    | true =>
      cases hy : (field s y).isNone with
      | true => simp [hx, hy] at h
      | false =>
        simp [hx, hy] at h
        subst h
        exact Dict.get?_set_ne _ _ (hk x y rfl)
    | false =>
      cases hy : (field s y).isNone with
      | true => simp [hx, hy] at h; subst h; rfl
      | false => simp [hx, hy] at h

theorem isNone_present (v : Val) : (if (!v.isNone) = true then some v else none) = present v := by
  cases v <;> rfl

theorem same_none (v : Val) : v.same .none = v.isNone := by
  cases v <;> rfl

theorem isFalse_notFalse (v : Val) : (if (!v.isFalse) = true then some v else none) = notFalse v := by
  cases v with
  | bool b => cases b <;> rfl
  | _ => rfl

theorem equals_is117 (v : Val) : v.equalsInt 117 = true ↔ is117 v := by
  cases v with
  | bool b => cases b <;> simp [Val.equalsInt, is117]
  | int n => simp [Val.equalsInt, is117]
  | _ => simp [Val.equalsInt, is117]

theorem holds_notNone (version : String) (s : Dict Name Val) (f : Name) :
    Cond.holds version s (.notNone f) = !(field s f).isNone := rfl

theorem present_map {α : Type} (v : Val) (x : α) :
    (if (!v.isNone) = true then some x else none) = (present v).map fun _ => x := by
  cases v <;> rfl

theorem readRule_sound {fields : List (Name × Option Val)} (hf : (fields.map (·.1)).Nodup)
    {version : String} {s : Dict Name Val} {k : Name} (hk : s.get? k = some (field s k))
    {stmts : List Stmt} (ht : ∀ t ∈ stmts, t.touches fields k = true) {r : Rule}
    (h : readRule ((fields.find? fun f => f.1 == k).map (·.2)) k stmts = some r) :
    stmts.foldl (fun o t => t.effect fields version s k o) none =
      r.passes (version < "2.0") (field s) k := by
  have key : ∀ cs key g, Stmt.set cs key g ∈ stmts → key = k := by
    intro cs key g hm
    simpa [Stmt.touches] using ht _ hm
  unfold readRule at h
  split at h
  · cases h; rfl
  · rename_i f key' g
    have hkey := key _ _ _ (List.mem_cons_self ..)
    by_cases hg : g = k
    · rw [if_pos hg] at h
      by_cases hfk : f = k
      · rw [if_pos hfk] at h
        cases h
        subst hkey hg hfk
        simp only [List.foldl_cons, List.foldl_nil, Stmt.effect, List.all_cons, List.all_nil,
          Bool.and_true, true_and, holds_notNone, Rule.passes]
        exact isNone_present _
      · rw [if_neg hfk] at h
        by_cases hc : f = "compression"
        · rw [if_pos hc] at h
          cases h
          subst hkey hg hc
          simp only [List.foldl_cons, List.foldl_nil, Stmt.effect, List.all_cons, List.all_nil,
            Bool.and_true, true_and, holds_notNone, Rule.passes]
          exact present_map _ _
        · rw [if_neg hc] at h; cases h
    · rw [if_neg hg] at h; cases h
  · rename_i f key1 g f' key2 g'
    have hkey1 := key _ _ _ (List.mem_cons_self ..)
    have hkey2 := key _ _ _ (List.mem_cons_of_mem _ (List.mem_cons_self ..))
    by_cases hc : g = k ∧ f = k ∧ g' = k ∧ f' = k
    · rw [if_pos hc] at h
      cases h
      obtain ⟨rfl, rfl, rfl, rfl⟩ := hc
      subst hkey1 
      subst hkey2
      simp only [List.foldl_cons, List.foldl_nil, Stmt.effect, List.all_cons, List.all_nil,
        Bool.and_true, true_and, holds_notNone, Rule.passes]
      cases hn : field s key2 <;> rfl
    · rw [if_neg hc] at h; cases h
  · rename_i f key' g
    have hkey := key _ _ _ (List.mem_cons_self ..)
    by_cases hc : g = k ∧ f = k
    · rw [if_pos hc] at h
      cases h
      obtain ⟨rfl, rfl⟩ := hc
      subst hkey
      simp only [List.foldl_cons, List.foldl_nil, Stmt.effect, List.all_cons, List.all_nil,
        Bool.and_true, true_and, Cond.holds, Rule.passes]
      exact isFalse_notFalse _
    · rw [if_neg hc] at h; cases h
  · rename_i f key' g
    have hkey := key _ _ _ (List.mem_cons_self ..)
    by_cases hc : g = k ∧ f = k
    · rw [if_pos hc] at h
      cases h
      obtain ⟨rfl, rfl⟩ := hc
      subst hkey
      simp only [List.foldl_cons, List.foldl_nil, Stmt.effect, List.all_cons, List.all_nil,
        Bool.and_true, true_and, Cond.holds, Rule.passes]
      by_cases hv : version < "2.0"
      · simp [hv]
      · simp only [hv, decide_false, Bool.not_false, Bool.true_and, if_false]
        exact isNone_present _
    · rw [if_neg hc] at h; cases h
  · rename_i f key' g
    have hkey := key _ _ _ (List.mem_cons_self ..)
    by_cases hc : g = k ∧ f = k
    · rw [if_pos hc] at h
      cases h
      obtain ⟨rfl, rfl⟩ := hc
      subst hkey
      simp only [List.foldl_cons, List.foldl_nil, Stmt.effect, List.all_cons, List.all_nil,
        Bool.and_true, true_and, Cond.holds, Rule.passes]
      by_cases hv : version < "2.0"
      · simp only [hv, decide_true, Bool.true_and, if_true]
        exact isNone_present _
      · simp [hv]
    · rw [if_neg hc] at h; cases h
  · rename_i f v key' g
    have hkey := key _ _ _ (List.mem_cons_self ..)
    by_cases hc : g = k ∧ f = k ∧ v = "version"
    · rw [if_pos hc] at h
      cases h
      obtain ⟨rfl, rfl, rfl⟩ := hc
      subst hkey
      simp only [List.foldl_cons, List.foldl_nil, Stmt.effect, List.all_cons, List.all_nil,
        Bool.and_true, true_and, Cond.holds, Rule.passes]
      by_cases hv : is117 (field s "version")
      · rw [(equals_is117 _).mpr hv, if_pos hv]
        simp only [Bool.and_true]
        exact isNone_present _
      · have : (field s "version").equalsInt 117 = false := by
          rw [Bool.eq_false_iff]; exact fun h => hv ((equals_is117 _).mp h)
        rw [this, if_neg hv]
        simp
    · rw [if_neg hc] at h; cases h
  · cases h
    exact hk
  · rename_i key'
    cases h
    have hkey : key' = k := by
      have := ht (.delIfNone key') (List.mem_cons_of_mem _ (List.mem_cons_self ..))
      simpa [Stmt.touches] using this
    subst hkey
    simp only [List.foldl_cons, List.foldl_nil, Stmt.effect, hk, Option.any_some, true_and,
      Rule.passes]
    cases field s key' <;> rfl
  · rename_i skip
    have htouch : (fields.any (fun f => f.1 == k) && !skip.contains k) = true :=
      ht (.changed skip) (List.mem_cons_self ..)
    cases hfind : fields.find? (fun f => f.1 == k) with
    | none => rw [hfind] at h; simp at h
    | some f =>
      rw [hfind] at h
      have hm := List.mem_of_find?_eq_some hfind
      have hkf : f.1 = k := by simpa using List.find?_some hfind
      have hany : (fields.any fun f => f.1 == k && f.2.any (fun d => (field s k).same d)) =
          f.2.any (fun d => (field s k).same d) := by
        cases hv : f.2.any (fun d => (field s k).same d) with
        | true =>
          exact List.any_eq_true.mpr ⟨f, hm, by simp [hkf, hv]⟩
        | false =>
          rw [Bool.eq_false_iff]
          intro hc
          obtain ⟨x, hx, hxk⟩ := List.any_eq_true.mp hc
          have hx' : x.1 = k ∧ x.2.any (fun d => (field s k).same d) = true := by simpa using hxk
          have hxf : (some x.2 : Option (Option Val)) = some f.2 := by
            have e1 := Dict.get?_of_mem (d := fields) (k := x.1) (v := x.2) hf hx
            have e2 := Dict.get?_of_mem (d := fields) (k := f.1) (v := f.2) hf hm
            rw [hx'.1] at e1
            rw [hkf] at e2
            rw [← e1, ← e2]
          have hxf' : x.2 = f.2 := by simpa using hxf
          rw [hxf', hv] at hx'
          exact absurd hx'.2 (by simp)
      simp only [List.foldl_cons, List.foldl_nil, Stmt.effect, htouch, hany, Bool.true_and]
      cases hd : f.2 with
      | none =>
        rw [Option.map_some, hd] at h
        cases h
        rfl
      | some d =>
        rw [Option.map_some, hd] at h
        cases d with
        | none =>
          cases h
          simp only [Option.any_some, same_none, Rule.passes]
          exact isNone_present _
        | _ => cases h
  · cases h

theorem passes_congr {old : Prop} [Decidable old] {v w : Name → Val} {k : Name} (h1 : v k = w k)
    (h2 : v "version" = w "version") (h3 : v "compression" = w "compression") (r : Rule) :
    r.passes old v k = r.passes old w k := by
  cases r <;> simp only [Rule.passes, h1, h2, h3]

/-- What a use of an adapter that made a call looks like. -/
theorem use_shape {a : Adapter} {version : String} {args : Dict Name Val}
    (h : (a.use version args).calls ≠ []) : ∃ s kw,
    Proper a args ∧ postInit a.post (settings a.fields args) = .ok s ∧
    kwargsOf a.fields version s a.body [] = .ok kw ∧
    (a.use version args).calls = a.calls.map (CallText.callOf s kw) ∧
    (a.use version args).error = a.metadata.gather s := by
  cases hc : construct a.fields args with
  | error e => unfold Adapter.use at h; simp only [hc] at h; exact absurd rfl h
  | ok s0 =>
    obtain ⟨rfl, hp⟩ := construct_ok hc
    cases hp1 : postInit a.post (settings a.fields args) with
    | error e => unfold Adapter.use at h; simp only [hc, hp1] at h; exact absurd rfl h
    | ok s =>
      cases hk : kwargsOf a.fields version s a.body [] with
      | error e => unfold Adapter.use at h; simp only [hc, hp1, hk] at h; exact absurd rfl h
      | ok kw =>
        cases hm : makeCalls s kw a.calls with
        | error e => unfold Adapter.use at h; simp only [hc, hp1, hk, hm] at h; exact absurd rfl h
        | ok calls =>
          refine ⟨s, kw, hp, rfl, hk, ?_, ?_⟩
          · unfold Adapter.use
            simp only [hc, hp1, hk, hm]
            exact makeCalls_ok a.calls hm
          · unfold Adapter.use
            simp only [hc, hp1, hk, hm]

theorem filterMap_once (o : Option Val) : ∀ ls : List Bool,
    (ls.filter id).length = 1 →
    ls.filterMap (fun b => if b then o else none) = o.toList := by
  intro ls
  induction ls with
  | nil => intro h; cases h
  | cons b rest ih =>
    intro h
    cases b with
    | false =>
      rw [List.filterMap_cons_none (by simp)]
      exact ih (by simpa using h)
    | true =>
      have hr : rest.filter id = [] := by
        apply List.eq_nil_of_length_eq_zero
        have : (rest.filter id).length + 1 = 1 := by simpa using h
        omega
      have hrest : rest.filterMap (fun b => if b then o else none) = [] := by
        rw [List.filterMap_eq_nil_iff]
        intro b hb
        cases b with
        | false => rfl
        | true =>
          have : true ∈ rest.filter id := List.mem_filter.mpr ⟨hb, rfl⟩
          rw [hr] at this
          cases this
      cases o with
      | none => rw [List.filterMap_cons_none (by simp)]; exact hrest
      | some v => rw [List.filterMap_cons_some (b := v) (by simp), hrest]; rfl

/-- Facts about an adapter of the tables. -/
theorem facts {a : Adapter} (ha : a ∈ allAdapters) : (a.fields.map (·.1)).Nodup ∧ defaultsOk a = true := by
  have := List.all_eq_true.mp table_fields a ha
  simpa using this

theorem post_facts {a : Adapter} (ha : a ∈ allAdapters) {k : Name}
    (hk : k = "version" ∨ k = "compression" ∨ k ∈ optionsOf a) : ∀ x y, a.post = .oneOf x y → x ≠ k := by
  have h := List.all_eq_true.mp table_post a ha
  simp only [Bool.and_eq_true] at h
  have hpk : postOk a k = true := by
    rcases hk with rfl | rfl | hk
    · exact h.1.1
    · exact h.1.2
    · exact List.all_eq_true.mp h.2 k hk
  intro x y e
  unfold postOk at hpk
  rw [e] at hpk
  simpa using hpk

theorem body_facts {a : Adapter} (ha : a ∈ adapters) : a.body.all Stmt.simple = true ∧
    (a.body.all Stmt.safe = true ∨ ∃ (rest : List Stmt) (keys : List Name), a.body = .asdict :: rest ∧ a.name ∈ copying ∧
      rest.map Stmt.removes = keys.map some ∧ keys.Nodup ∧ ∀ k ∈ keys, k ∈ a.fields.map (·.1)) ∧
    ∀ c ∈ a.calls, ∀ p ∈ c.named, a.body.filter (Stmt.touches a.fields p.1) = [] := by
  have h := List.all_eq_true.mp table_bodies a ha
  unfold bodyOk at h
  simp only [Bool.and_eq_true, Bool.or_eq_true] at h
  refine ⟨h.1.1, ?_, ?_⟩
  · rcases h.1.2 with h1 | h1
    · exact .inl h1
    · cases hb : a.body with
      | nil => rw [hb] at h1; cases h1
      | cons t rest =>
        cases t with
        | asdict =>
          rw [hb] at h1
          simp only [Bool.and_eq_true] at h1
          refine .inr ⟨rest, rest.filterMap Stmt.removes, rfl, ?_, ?_, ?_, ?_⟩
          · exact List.contains_iff_mem.mp h1.1.1.1
          · simpa using h1.1.1.2
          · simpa using h1.1.2
          · intro k hk
            exact List.contains_iff_mem.mp (List.all_eq_true.mp h1.2 k hk)
        | _ => rw [hb] at h1; cases h1
  · intro c hc p hp
    have := List.all_eq_true.mp (List.all_eq_true.mp h.2 c hc) p hp
    exact List.isEmpty_iff.mp this

theorem copy_facts {a : Adapter} (ha : a ∈ adapters) {args s : Dict Name Val} (hc : Copyable a args)
    (hs : postInit a.post (settings a.fields args) = .ok s) :
    Stmt.asdict ∈ a.body → copyItems s = .ok s := by
  intro hm
  have hname : a.name ∈ copying := by
    rcases (body_facts ha).2.1 with h | ⟨rest, keys, _, h, _⟩
    · have := List.all_eq_true.mp h _ hm
      simp [Stmt.safe] at this
    · exact h
  have hpost : a.post = .nothing := by
    have h := List.all_eq_true.mp table_copying a (mem_all ha)
    unfold copyPostOk at h
    cases hp : a.post with
    | nothing => rfl
    | oneOf x y =>
      rw [hp] at h
      have : copying.contains a.name = true := List.contains_iff_mem.mpr hname
      simp [this] at h
      exact absurd hname h
  rw [hpost] at hs
  cases hs
  exact settings_plain a.fields args (facts (mem_all ha)).2 (hc hname)

theorem options_mem {a : Adapter} {k : Name} (h : k ∈ optionsOf a) : k ∈ a.fields.map (·.1) :=
  List.mem_of_mem_drop h

theorem field_after {a : Adapter} (ha : a ∈ allAdapters) {args s : Dict Name Val} (hp : Proper a args)
    (hs : postInit a.post (settings a.fields args) = .ok s) {k : Name}
    (hk : k = "version" ∨ k = "compression" ∨ k ∈ optionsOf a) : field s k = valueOf a args k := by
  have h := postInit_field hs (post_facts ha hk)
  rw [← field_settings a (facts ha).1 hp.1 k]
  unfold field
  rw [h]

/-- The keyword arguments of an adapter, option by option. -/
theorem kwargs_undeclared {a : Adapter} (ha : a ∈ adapters) {version : String} {args s kw : Dict Name Val}
    (hc : Copyable a args) (hs : postInit a.post (settings a.fields args) = .ok s)
    (hkw : kwargsOf a.fields version s a.body [] = .ok kw) {k : Name} (hk : k ∉ a.fields.map (·.1))
    (hk' : s.get? k = none) : kw.get? k = none := by
  rw [kwargsOf_get? (facts (mem_all ha)).1 k a.body (copy_facts ha hc hs) (body_facts ha).1 hkw]
  have hb := List.all_eq_true.mp table_keywords a ha
  unfold keywordsOk at hb
  have key : ∀ l : List Stmt, (∀ t ∈ l, t ∈ a.body) →
      l.foldl (fun o t => t.effect a.fields version s k o) none = none := by
    intro l
    induction l with
    | nil => intro _; rfl
    | cons t rest ih =>
      intro hl
      have ht : t.effect a.fields version s k none = none := by
        have hb' := List.all_eq_true.mp hb t (hl t (List.mem_cons_self ..))
        cases t with
        | set cs key f =>
          have hkey : key ∈ a.fields.map (·.1) := List.contains_iff_mem.mp hb'
          have hne : key ≠ k := fun e => hk (e ▸ hkey)
          simp [Stmt.effect, hne]
        | asdict => exact hk'
        | del key => simp [Stmt.effect]
        | delIfNone key => simp [Stmt.effect]
        | changed skip =>
          have hany : a.fields.any (fun f => f.1 == k) = false := by
            rw [Bool.eq_false_iff]
            intro hc
            obtain ⟨x, hx, hxk⟩ := List.any_eq_true.mp hc
            exact hk (List.mem_map.mpr ⟨x, hx, by simpa using hxk⟩)
          simp [Stmt.effect, hany]
        | _ => rfl
      rw [List.foldl_cons, ht]
      exact ih fun t' ht' => hl t' (List.mem_cons_of_mem _ ht')
  exact key _ fun t ht => (List.mem_filter.mp ht).1

/-! ### The property -/

/-- Every option is passed on by its rule: for every adapter (except the three with a dict of further
keyword arguments), every version of pandas, all arguments and each option, if the library is called
at all, then the option reaches exactly one of the calls under its own name with the value given (or
the default), or none of them, as its rule says. -/
theorem C87_exact {a : Adapter} (ha : a ∈ adapters) {version : String} {args : Dict Name Val}
    (hc : Copyable a args) (hcalls : (a.use version args).calls ≠ []) {k : Name} (hk : k ∈ optionsOf a) :
    (a.use version args).calls.filterMap (fun c => c.keywords.get? k) =
      ((ruleOf a.name k).passes (version < "2.0") (valueOf a args) k).toList := by
  obtain ⟨s, kw, hp, hs, hkw, hshape, _⟩ := use_shape hcalls
  have hall := mem_all ha
  have hfk := field_after hall hp hs (.inr (.inr hk))
  have hpass : ∀ r : Rule, r.passes (version < "2.0") (field s) k =
      r.passes (version < "2.0") (valueOf a args) k := fun r =>
    passes_congr hfk (field_after hall hp hs (.inl rfl)) (field_after hall hp hs (.inr (.inl rfl))) r
  have hsk : s.get? k = some (field s k) := by
    have h := postInit_field hs (post_facts hall (.inr (.inr hk)))
    obtain ⟨f, hf, e⟩ := List.mem_map.mp (options_mem hk)
    have h2 := settings_get? a.fields (facts hall).1 args hf
    rw [e, ← h] at h2
    unfold field
    rw [h2]
    rfl
  have hok := List.all_eq_true.mp (List.all_eq_true.mp table_options a ha) k hk
  unfold optionOk at hok
  dsimp only at hok
  rw [hshape, List.filterMap_map]
  cases hn : (a.calls.map fun c => c.named? k).all Option.isNone with
  | true =>
    rw [hn, if_pos rfl] at hok
    simp only [Bool.and_eq_true, beq_iff_eq] at hok
    have hkwk : kw.get? k = (ruleOf a.name k).passes (version < "2.0") (valueOf a args) k := by
      rw [kwargsOf_get? (facts hall).1 k a.body (copy_facts ha hc hs) (body_facts ha).1 hkw]
      rw [← hpass]
      exact readRule_sound (facts hall).1 hsk (fun t ht => (List.mem_filter.mp ht).2) hok.2
    rw [← hkwk, ← filterMap_once (kw.get? k) _ hok.1, List.filterMap_map]
    have hnone : ∀ c ∈ a.calls, c.named? k = none := by
      intro c hc
      have := List.all_eq_true.mp hn (c.named? k) (List.mem_map.mpr ⟨c, hc, rfl⟩)
      exact Option.isNone_iff_eq_none.mp this
    have congr : ∀ l : List CallText, (∀ c ∈ l, c ∈ a.calls) →
        l.filterMap ((fun c : Call => c.keywords.get? k) ∘ CallText.callOf s kw) =
        l.filterMap ((fun b : Bool => if b = true then kw.get? k else none) ∘ fun c : CallText => c.pick.lets k) := by
      intro l
      induction l with
      | nil => intro _; rfl
      | cons c rest ih =>
        intro hl
        have e : ((fun c : Call => c.keywords.get? k) ∘ CallText.callOf s kw) c =
            ((fun b : Bool => if b = true then kw.get? k else none) ∘ fun c : CallText => c.pick.lets k) c := by
          simp only [Function.comp, CallText.callOf_get?, hnone c (hl c (List.mem_cons_self ..)),
            Option.map_none, Option.none_or]
        rw [List.filterMap_cons, List.filterMap_cons, e, ih fun c' hc' => hl c' (List.mem_cons_of_mem _ hc')]
    exact congr a.calls fun c hc => hc
  | false =>
    rw [hn, if_neg (by simp)] at hok
    simp only [Bool.and_eq_true, beq_iff_eq] at hok
    obtain ⟨⟨h1, _⟩, h3⟩ := hok
    rw [h3]
    cases hcs : a.calls with
    | nil => rw [hcs] at h1; cases h1
    | cons c rest =>
      rw [hcs] at h1
      simp only [List.map_cons, List.cons.injEq, List.map_eq_nil_iff] at h1
      rw [h1.2]
      have e : ((fun c : Call => c.keywords.get? k) ∘ CallText.callOf s kw) c = some (valueOf a args k) := by
        simp only [Function.comp, CallText.callOf_get?, h1.1, Option.map_some, Option.some_or, hfk]
      rw [List.filterMap_cons_some e]
      rfl

theorem kwargs_location {a : Adapter} (ha : a ∈ adapters) {version : String} {args s kw : Dict Name Val}
    (hc : Copyable a args) (hs : postInit a.post (settings a.fields args) = .ok s)
    (hkw : kwargsOf a.fields version s a.body [] = .ok kw) {k : Name} (hk : k ∈ locationsOf a)
    (hl : k ∉ locationKeywords a.name) : kw.get? k = none ∧ ∀ t ∈ a.calls, t.named? k = none := by
  have h := List.all_eq_true.mp (List.all_eq_true.mp table_once a ha) k hk
  unfold onceOk at h
  rw [Bool.or_eq_true, Bool.and_eq_true] at h
  rcases h with h | ⟨h1, h2⟩
  · exact absurd (List.contains_iff_mem.mp h) hl
  · refine ⟨?_, fun t ht => Option.isNone_iff_eq_none.mp (List.all_eq_true.mp h1 t ht)⟩
    rw [kwargsOf_get? (facts (mem_all ha)).1 k a.body (copy_facts ha hc hs) (body_facts ha).1 hkw]
    split at h2
    · next e => rw [e]; rfl
    · next key e =>
      have : key = k := beq_iff_eq.mp h2
      rw [e, this]
      simp [Stmt.effect]
    · cases h2

/-- Nothing else is passed: no call gets a keyword that is neither an option of the adapter nor the
keyword of the location. -/
theorem C87_nothing_else {a : Adapter} (ha : a ∈ adapters) {version : String} {args : Dict Name Val}
    (hc : Copyable a args) {k : Name} (hk : k ∉ optionsOf a) (hl : k ∉ locationKeywords a.name) :
    ∀ c ∈ (a.use version args).calls, k ∉ c.keywords.keys := by
  intro c hcm
  have hne : (a.use version args).calls ≠ [] := List.ne_nil_of_mem hcm
  obtain ⟨s, kw, hp, hs, hkw, hshape, _⟩ := use_shape hne
  have hall := mem_all ha
  rw [hshape] at hcm
  obtain ⟨t, ht, rfl⟩ := List.mem_map.mp hcm
  by_cases hloc : k ∈ locationsOf a
  · obtain ⟨h1, h2⟩ := kwargs_location ha hc hs hkw hloc hl
    rw [← Dict.get?_eq_none_iff, CallText.callOf_get?, h2 t ht, h1]
    simp
  have hk : k ∉ a.fields.map (·.1) := by
    intro h
    rw [← List.take_append_drop (locationCount a.name) (a.fields.map (·.1)), List.mem_append] at h
    exact h.elim hloc hk
  have hsk : s.get? k = none := by
    have hpost : ∀ x y, a.post = .oneOf x y → x ≠ k := by
      intro x y e ex
      have h := List.all_eq_true.mp table_plainPost a hall
      have hx : x ∈ a.fields.map (·.1) := by
        have hloc := List.all_eq_true.mp table_oneOf a hall
        unfold oneOfOk at hloc
        rw [e] at hloc
        exact List.contains_iff_mem.mp hloc
      exact hk (ex ▸ hx)
    rw [postInit_field hs hpost]
    exact settings_get?_none a.fields args hk
  have hkwk := kwargs_undeclared ha hc hs hkw hk hsk
  have hnamed : t.named? k = none := by
    have h := List.all_eq_true.mp (List.all_eq_true.mp table_named a hall) t ht
    cases hx : t.named? k with
    | none => rfl
    | some f =>
      have hm : (k, f) ∈ t.named := Dict.get?_mem hx
      have h2 := List.all_eq_true.mp h _ hm
      simp only [Bool.or_eq_true] at h2
      rcases h2 with h2 | h2
      · exact absurd (List.contains_iff_mem.mp h2) hl
      · exact absurd (List.contains_iff_mem.mp h2) hk
  rw [← Dict.get?_eq_none_iff, CallText.callOf_get?, hnamed, hkwk]
  simp

/-- The Excel writer makes two calls: `ExcelWriter` gets the options that are parameters of it, and
`to_excel` the others. -/
theorem C87_excel {version : String} {args : Dict Name Val} {c d : Call}
    (hcalls : (pandasExcelWriter.use version args).calls = [c, d]) :
    (∀ k ∈ c.keywords.keys, k ∈ ["engine", "date_format", "datetime_format", "mode", "storage_options",
      "if_sheet_exists", "engine_kwargs"]) ∧
    ∀ k ∈ ["engine", "date_format", "datetime_format", "mode", "storage_options", "if_sheet_exists",
      "engine_kwargs"], k ∉ d.keywords.keys := by
  obtain ⟨s, kw, _, _, _, hshape, _⟩ :=
    use_shape (a := pandasExcelWriter) (version := version) (args := args) (by rw [hcalls]; simp)
  rw [hcalls] at hshape
  have h1 : c.keywords = kw.filter fun p => excelWriterKeywords.contains p.1 := by
    simp only [pandasExcelWriter, List.map_cons, List.map_nil, List.cons.injEq, and_true] at hshape
    rw [hshape.1]; rfl
  have h2 : d.keywords = kw.filter fun p => !excelWriterKeywords.contains p.1 := by
    simp only [pandasExcelWriter, List.map_cons, List.map_nil, List.cons.injEq, and_true] at hshape
    rw [hshape.2]; rfl
  have hsame : ∀ k, k ∈ excelWriterKeywords ↔ k ∈ ["engine", "date_format", "datetime_format", "mode",
      "storage_options", "if_sheet_exists", "engine_kwargs"] := by
    intro k
    simp only [excelWriterKeywords, List.mem_cons, List.not_mem_nil, or_false]
    constructor <;> intro h <;> grind
  constructor
  · intro k hk
    rw [h1] at hk
    obtain ⟨p, hp, rfl⟩ := List.mem_map.mp hk
    exact (hsame _).mp (List.contains_iff_mem.mp (List.mem_filter.mp hp).2)
  · intro k hk hin
    rw [h2] at hin
    obtain ⟨p, hp, rfl⟩ := List.mem_map.mp hin
    have := (List.mem_filter.mp hp).2
    rw [List.contains_iff_mem.mpr ((hsame _).mpr hk)] at this
    cases this

/-- An option that is given and not `None` reaches the library, under its name and with its value, in
exactly one call.  Missing: the options that are dropped, always or in some circumstances
(`C87_violated_dropped`, `C87_violated_version`, `C87_violated_compression`), and `None`
(`C87_violated_none`). -/
theorem C87_reaches_partial {a : Adapter} (ha : a ∈ adapters) {version : String} {args : Dict Name Val}
    (hc : Copyable a args) (hcalls : (a.use version args).calls ≠ []) {k : Name} (hk : k ∈ optionsOf a)
    (hr : ruleOf a.name k = .always ∨ ruleOf a.name k = .unlessNone ∨
      ruleOf a.name k = .newPandas ∧ ¬ version < "2.0") {x : Val} (hx : args.get? k = some x)
    (hn : x ≠ .none) :
    (a.use version args).calls.filterMap (fun c => c.keywords.get? k) = [x] := by
  rw [C87_exact ha hc hcalls hk]
  have hv : valueOf a args k = x := by unfold valueOf; rw [hx]; rfl
  have hpx : present x = some x := by
    cases x with
    | none => exact absurd rfl hn
    | _ => rfl
  rcases hr with h | h | ⟨h, hver⟩
  · rw [h]; simp only [Rule.passes, hv]; rfl
  · rw [h]; simp only [Rule.passes, hv, hpx]; rfl
  · rw [h]; simp only [Rule.passes, hv, hpx, if_neg hver]; rfl

/-- A use with proper arguments of an adapter makes the documented calls, in order. -/
theorem C87_function {a : Adapter} (ha : a ∈ allAdapters) {version : String} {args : Dict Name Val}
    (hcalls : (a.use version args).calls ≠ []) :
    Dict.get? functionsOf a.name = some ((a.use version args).calls.map (·.function)) := by
  obtain ⟨s, kw, _, _, _, hshape, _⟩ := use_shape hcalls
  have h := List.all_eq_true.mp table_functions a ha
  rw [beq_iff_eq.mp h, hshape, List.map_map]
  rfl

theorem post_nothing {a : Adapter} (ha : a ∈ allAdapters)
    (hn : a.name ≠ "pandas_extensions.PandasPickleReader") : a.post = .nothing := by
  have h := List.all_eq_true.mp table_plainPost a ha
  unfold plainPost at h
  cases hp : a.post with
  | nothing => rfl
  | oneOf x y => rw [hp] at h; exact absurd (beq_iff_eq.mp h) hn

/-- The location goes to the first call, by position or under the keyword that the library has for
it.  (The location of `DltDestinationSaver` is the object whose method is called; for
`PandasPickleReader` see `C87_pickle`.) -/
theorem C87_location {a : Adapter} (ha : a ∈ allAdapters) {version : String} {args : Dict Name Val}
    (hn : a.name ≠ "pandas_extensions.PandasPickleReader") (hd : a.name ≠ "dlt_extensions.DltDestinationSaver")
    (hcalls : (a.use version args).calls ≠ []) :
    ∃ c rest, (a.use version args).calls = c :: rest ∧
      (locationKeywords a.name = [] → c.positional = (locationsOf a).map (valueOf a args)) ∧
      (locationKeywords a.name ≠ [] → c.positional = [] ∧
        (locationKeywords a.name).map c.keywords.get? =
          (locationsOf a).map fun f => some (valueOf a args f)) := by
  obtain ⟨s, kw, hp, hs, _, hshape, _⟩ := use_shape hcalls
  rw [post_nothing ha hn] at hs
  cases hs
  have hfield := field_settings a (facts ha).1 hp.1
  have hl := List.all_eq_true.mp table_locations a ha
  unfold locationOk at hl
  cases hcs : a.calls with
  | nil => rw [hcs] at hl; cases hl
  | cons c rest =>
    rw [hcs] at hl
    dsimp only at hl
    rw [if_neg hd] at hl
    rw [hshape, hcs]
    refine ⟨_, _, rfl, ?_, ?_⟩
    · intro hk
      rw [if_pos hk, if_neg hn] at hl
      simp only [Bool.and_eq_true, beq_iff_eq] at hl
      have hd : (c.callOf (settings a.fields args) kw).positional =
        c.positional.map (field (settings a.fields args)) := rfl
      rw [hd, hl.1]
      exact List.map_congr_left fun f _ => hfield f
    · intro hk
      rw [if_neg hk] at hl
      simp only [Bool.and_eq_true, beq_iff_eq] at hl
      refine ⟨?_, ?_⟩
      · have hd : (c.callOf (settings a.fields args) kw).positional =
          c.positional.map (field (settings a.fields args)) := rfl
        rw [hd, List.isEmpty_iff.mp hl.1]
        rfl
      · have hmap : ∀ (ks fs : List Name), ks.map (fun kw => c.named? kw) = fs.map some →
            ks.map (c.callOf (settings a.fields args) kw).keywords.get? =
              fs.map fun f => some (valueOf a args f) := by
          intro ks
          induction ks with
          | nil => intro fs h; cases fs with | nil => rfl | cons f fs => cases h
          | cons k ks ih =>
            intro fs h
            cases fs with
            | nil => cases h
            | cons f fs =>
              simp only [List.map_cons, List.cons.injEq] at h
              rw [List.map_cons, List.map_cons, ih fs h.2, CallText.callOf_get?, h.1, Option.map_some,
                Option.some_or, hfield f]
        exact hmap _ _ hl.2

/-- An option that the adapter does not know is refused before anything is done, never ignored; so is
a missing location. -/
theorem C87_unknown (a : Adapter) (version : String) (args : Dict Name Val)
    (h : (∃ k ∈ args.keys, k ∉ a.fields.map (·.1)) ∨ ∃ f ∈ a.fields, f.2 = none ∧ f.1 ∉ args.keys) :
    (a.use version args).calls = [] ∧ (a.use version args).error = some .type := by
  cases hc : construct a.fields args with
  | ok s =>
    obtain ⟨_, h1, h2⟩ := construct_ok hc
    rcases h with ⟨k, hk, hn⟩ | ⟨f, hf, he, hn⟩
    · exact absurd (h1 k hk) hn
    · exact absurd (h2 f hf he) hn
  | error e =>
    have he : e = .type := by
      unfold construct at hc
      cases h1 : args.keys.all fun k => a.fields.any fun f => f.1 == k with
      | false => rw [h1, if_neg (by simp)] at hc; cases hc; rfl
      | true =>
        cases h2 : a.fields.all fun f => f.2.isSome || args.has f.1 with
        | false => rw [h1, if_pos rfl, h2, if_neg (by simp)] at hc; cases hc; rfl
        | true => rw [h1, if_pos rfl, h2, if_pos rfl] at hc; cases hc
    unfold Adapter.use
    simp only [hc, he, and_self]

theorem use_calls {a : Adapter} (ha : a ∈ adapters) (version : String) {args : Dict Name Val}
    (hn : a.name ≠ "pandas_extensions.PandasPickleReader") (hp : Proper a args) (hc : Copyable a args) :
    (a.use version args).calls ≠ [] ∧
      (a.use version args).error = a.metadata.gather (settings a.fields args) := by
  have hall := mem_all ha
  have hpost : postInit a.post (settings a.fields args) = .ok (settings a.fields args) := by
    rw [post_nothing hall hn]; rfl
  obtain ⟨hsimple, hbody, hnamed⟩ := body_facts ha
  have hkw : ∃ kw, kwargsOf a.fields version (settings a.fields args) a.body [] = .ok kw := by
    rcases hbody with h | ⟨rest, keys, hb, _, hrem, hnd, hmem⟩
    · exact kwargsOf_safe _ _ _ a.body h []
    · have hcopy := copy_facts ha hc hpost (hb ▸ List.mem_cons_self ..)
      have hd : kwargsOf a.fields version (settings a.fields args) (.asdict :: rest) [] =
        match copyItems (settings a.fields args) with
        | .error e => .error e
        | .ok kw => kwargsOf a.fields version (settings a.fields args) rest kw := rfl
      rw [hb, hd, hcopy]
      refine kwargsOf_removes _ _ _ rest keys hrem hnd _ ?_
      intro k hk
      obtain ⟨f, hf, e⟩ := List.mem_map.mp (hmem k hk)
      exact (Dict.has_eq_true_iff _ _).mpr ⟨_, e ▸ settings_get? a.fields (facts hall).1 args hf⟩
  obtain ⟨kw, hkw⟩ := hkw
  have hcalls : makeCalls (settings a.fields args) kw a.calls =
      .ok (a.calls.map (CallText.callOf (settings a.fields args) kw)) := by
    apply makeCalls_succeeds
    intro c hcm p hpm
    refine .inl ?_
    rw [kwargsOf_get? (facts hall).1 p.1 a.body (copy_facts ha hc hpost) hsimple hkw, hnamed c hcm p hpm]
    rfl
  have hne : a.calls ≠ [] := by
    have hl := List.all_eq_true.mp table_locations a hall
    intro e
    unfold locationOk at hl
    rw [e] at hl
    cases hl
  unfold Adapter.use
  simp only [construct_proper hp, hpost, hkw, hcalls]
  exact ⟨fun e => hne (List.map_eq_nil_iff.mp e), trivial⟩

theorem gather_first {a : Adapter} (ha : a ∈ allAdapters) {args : Dict Name Val} (hp : Proper a args)
    {loc : Name} (hl : (locationsOf a).head? = some loc) :
    a.metadata.gather (settings a.fields args) =
      if a.name ∈ otherNames then none
      else if a.name ∈ sqlNames then sqlMetadata (valueOf a args loc)
      else fileMetadata (valueOf a args loc) := by
  have hm := List.all_eq_true.mp table_metadata a ha
  have hfield := field_settings a (facts ha).1 hp.1
  have hhead : (a.fields.map (·.1)).head? = some loc := by
    unfold locationsOf at hl
    cases hf : a.fields.map (·.1) with
    | nil => rw [hf] at hl; cases hn : locationCount a.name <;> rw [hn] at hl <;> cases hl
    | cons x rest =>
      rw [hf] at hl
      cases hn : locationCount a.name with
      | zero => rw [hn] at hl; cases hl
      | succ n => rw [hn] at hl; exact hl
  unfold metadataOk at hm
  cases hmd : a.metadata with
  | file f =>
    rw [hmd] at hm
    simp only [Bool.and_eq_true, beq_iff_eq, Bool.not_eq_true'] at hm
    obtain ⟨⟨h1, h2⟩, h3⟩ := hm
    have hfl : f = loc := by rw [hhead] at h1; simpa using h1.symm
    have n2 : a.name ∉ sqlNames := fun h => by rw [List.contains_iff_mem.mpr h] at h2; cases h2
    have n3 : a.name ∉ otherNames := fun h => by rw [List.contains_iff_mem.mpr h] at h3; cases h3
    rw [if_neg n3, if_neg n2, ← hfl, ← hfield]
    rfl
  | sql f =>
    rw [hmd] at hm
    simp only [Bool.and_eq_true, beq_iff_eq, Bool.not_eq_true'] at hm
    obtain ⟨⟨h1, h2⟩, h3⟩ := hm
    have hfl : f = loc := by rw [hhead] at h1; simpa using h1.symm
    have n2 : a.name ∈ sqlNames := List.contains_iff_mem.mp h2
    have n3 : a.name ∉ otherNames := fun h => by rw [List.contains_iff_mem.mpr h] at h3; cases h3
    rw [if_neg n3, if_pos n2, ← hfl, ← hfield]
    rfl
  | other =>
    rw [hmd] at hm
    rw [if_pos (List.contains_iff_mem.mp hm)]
    rfl

/-- With proper arguments and a location that is a string or (unless it is a query or table) a path,
the library is called and the adapter returns, whatever the options.  Missing: buffers as locations
(`C87_violated_buffers`), options that cannot be copied (`C87_violated_copies`). -/
theorem C87_completes_partial {a : Adapter} (ha : a ∈ adapters) (version : String) {args : Dict Name Val}
    (hn : a.name ≠ "pandas_extensions.PandasPickleReader") (hp : Proper a args) (hc : Copyable a args)
    {loc : Name} (hl : (locationsOf a).head? = some loc)
    (hv : (∃ x, valueOf a args loc = .str x) ∨ a.name ∉ sqlNames ∧ ∃ x, valueOf a args loc = .path x) :
    (a.use version args).calls ≠ [] ∧ (a.use version args).error = none := by
  obtain ⟨h1, h2⟩ := use_calls ha version hn hp hc
  refine ⟨h1, ?_⟩
  rw [h2, gather_first (mem_all ha) hp hl]
  by_cases ho : a.name ∈ otherNames
  · rw [if_pos ho]
  · rw [if_neg ho]
    rcases hv with ⟨x, hx⟩ | ⟨hs, x, hx⟩
    · by_cases hs : a.name ∈ sqlNames
      · rw [if_pos hs, hx]; rfl
      · rw [if_neg hs, hx]; rfl
    · rw [if_neg hs, hx]; rfl

/-- Violated: a buffer as a location, which most adapters declare in their types, is handed to the
library, the data is read or written, and then the adapter raises, for every adapter that describes the
file it used. -/
theorem C87_violated_buffers {a : Adapter} (ha : a ∈ adapters) (version : String) {args : Dict Name Val}
    (hn : a.name ≠ "pandas_extensions.PandasPickleReader") (hs : a.name ∉ sqlNames) (ho : a.name ∉ otherNames)
    (hp : Proper a args) (hc : Copyable a args)
    {loc : Name} (hl : (locationsOf a).head? = some loc) {copies : Bool} {id : Nat}
    (hv : valueOf a args loc = .buffer copies id) :
    (a.use version args).calls ≠ [] ∧ (a.use version args).error = some .attribute := by
  obtain ⟨h1, h2⟩ := use_calls ha version hn hp hc
  refine ⟨h1, ?_⟩
  rw [h2, gather_first (mem_all ha) hp hl, if_neg ho, if_neg hs, hv]
  rfl

/-! ### The pickle reader, and further keyword arguments -/

/-- `PandasPickleReader` has two options for the location: giving both or neither is refused, and with
one of them the data is read from there. -/
theorem C87_pickle (version : String) {args : Dict Name Val} (hp : Proper pandasPickleReader args) :
    (((present (valueOf pandasPickleReader args "filepath_or_buffer")).isSome =
        (present (valueOf pandasPickleReader args "path")).isSome) →
      (pandasPickleReader.use version args).calls = [] ∧
        (pandasPickleReader.use version args).error = some .value) ∧
    (∀ v, (present (valueOf pandasPickleReader args "filepath_or_buffer") = some v ∧
          present (valueOf pandasPickleReader args "path") = none ∨
        present (valueOf pandasPickleReader args "filepath_or_buffer") = none ∧
          present (valueOf pandasPickleReader args "path") = some v) →
      ∃ c, (pandasPickleReader.use version args).calls = [c] ∧ c.function = "pd.read_pickle" ∧
        c.positional = [v]) := by
  have hm : pandasPickleReader ∈ allAdapters := by simp [allAdapters, pandasAdapters]
  have hfield := field_settings pandasPickleReader (facts hm).1 hp.1
  have hpost : pandasPickleReader.post = .oneOf "filepath_or_buffer" "path" := rfl
  have hd : ∀ s : Dict Name Val, postInit (.oneOf "filepath_or_buffer" "path") s =
      if (field s "filepath_or_buffer").isNone && (field s "path").isNone then .error .value
      else if !(field s "filepath_or_buffer").isNone && !(field s "path").isNone then .error .value
      else if (field s "filepath_or_buffer").isNone then .ok (s.set "filepath_or_buffer" (field s "path"))
      else .ok s := fun _ => rfl
  have hpres : ∀ v : Val, (present v).isSome = !v.isNone := fun v => by cases v <;> rfl
  have hpn : ∀ v w : Val, present v = some w → v = w ∧ v.isNone = false := fun v w h => by
    cases v <;> first | (cases h; done) | (cases h; exact ⟨rfl, rfl⟩)
  have hpz : ∀ v : Val, present v = none → v.isNone = true := fun v h => by
    cases v <;> first | rfl | cases h
  have hgo : ∀ s : Dict Name Val, postInit pandasPickleReader.post (settings pandasPickleReader.fields args) = .ok s →
      ∃ c, (pandasPickleReader.use version args).calls = [c] ∧ c.function = "pd.read_pickle" ∧
        c.positional = [field s "filepath_or_buffer"] := by
    intro s hs
    obtain ⟨kw, hkw⟩ := kwargsOf_safe pandasPickleReader.fields version s pandasPickleReader.body
      (by decide) []
    have hcalls : makeCalls s kw pandasPickleReader.calls =
        .ok (pandasPickleReader.calls.map (CallText.callOf s kw)) := by
      apply makeCalls_succeeds
      intro c hc p hpm
      have : c = { function := "pd.read_pickle", positional := ["filepath_or_buffer"],
                   named := [], pick := .all } := by simpa [pandasPickleReader] using hc
      subst this
      cases hpm
    refine ⟨CallText.callOf s kw
      { function := "pd.read_pickle", positional := ["filepath_or_buffer"], named := [], pick := .all },
      ?_, rfl, rfl⟩
    unfold Adapter.use
    simp only [construct_proper hp, hs, hkw, hcalls]
    rfl
  constructor
  · intro h
    rw [hpres, hpres] at h
    have herr : postInit pandasPickleReader.post (settings pandasPickleReader.fields args) = .error .value := by
      rw [hpost, hd, hfield, hfield]
      cases h1 : (valueOf pandasPickleReader args "filepath_or_buffer").isNone with
      | true =>
        rw [h1] at h
        have h2 : (valueOf pandasPickleReader args "path").isNone = true := by simpa using h.symm
        rw [h2]; rfl
      | false =>
        rw [h1] at h
        have h2 : (valueOf pandasPickleReader args "path").isNone = false := by simpa using h.symm
        rw [h2]; rfl
    unfold Adapter.use
    simp only [construct_proper hp, herr, and_self]
  · rintro v (⟨h1, h2⟩ | ⟨h1, h2⟩)
    · obtain ⟨e, h1⟩ := hpn _ _ h1
      have h2 := hpz _ h2
      obtain ⟨c, hc, hf, hpos⟩ := hgo (settings pandasPickleReader.fields args) (by
        rw [hpost, hd, hfield, hfield, h1, h2]; rfl)
      exact ⟨c, hc, hf, by rw [hpos, hfield, e]⟩
    · have h1 := hpz _ h1
      obtain ⟨e, h2⟩ := hpn _ _ h2
      obtain ⟨c, hc, hf, hpos⟩ := hgo ((settings pandasPickleReader.fields args).set "filepath_or_buffer" v) (by
        rw [hpost, hd, hfield, hfield, h1, h2, e]; rfl)
      refine ⟨c, hc, hf, ?_⟩
      rw [hpos]
      unfold field
      rw [Dict.get?_set_self]
      rfl

theorem updateWith_get? (kw : Dict Name Val) (items : List (Name × Val)) (h : (items.map (·.1)).Nodup)
    (k : Name) : (updateWith kw items).get? k = (Dict.get? items k).or (kw.get? k) :=
  Dict.get?_merge kw items h k

theorem kwargsOf_append (fields : List (Name × Option Val)) (version : String) (s : Dict Name Val)
    (l2 : List Stmt) : ∀ (l1 : List Stmt) {kw kw1 : Dict Name Val},
    kwargsOf fields version s l1 kw = .ok kw1 →
    kwargsOf fields version s (l1 ++ l2) kw = kwargsOf fields version s l2 kw1
  | [], kw, kw1, h => by cases h; rfl
  | t :: rest, kw, kw1, h => by
    have hd : ∀ l, kwargsOf fields version s (t :: l) kw =
      match t.exec fields version s kw with
      | .error e => .error e
      | .ok kw => kwargsOf fields version s l kw := fun _ => rfl
    rw [hd] at h
    rw [List.cons_append, hd]
    cases he : t.exec fields version s kw with
    | error e => rw [he] at h; cases h
    | ok kw' =>
      rw [he] at h
      exact kwargsOf_append fields version s l2 rest h

theorem kwargsOf_own (fields : List (Name × Option Val)) (version : String) (s : Dict Name Val) :
    ∀ (ks : List Name) (kw : Dict Name Val), ∃ kw1, kwargsOf fields version s (ks.map own) kw = .ok kw1 ∧
      ∀ k, kw1.get? k = (if k ∈ ks then present (field s k) else none).or (kw.get? k)
  | [], kw => ⟨kw, rfl, fun k => by simp⟩
  | x :: ks, kw => by
    have hd : kwargsOf fields version s ((x :: ks).map own) kw =
      match (own x).exec fields version s kw with
      | .error e => .error e
      | .ok kw => kwargsOf fields version s (ks.map own) kw := rfl
    have he : (own x).exec fields version s kw =
        .ok (if (!(field s x).isNone) = true then kw.set x (field s x) else kw) := by
      have h0 : (own x).exec fields version s kw =
        if (!(field s x).isNone && true) = true then .ok (kw.set x (field s x)) else .ok kw := rfl
      rw [h0, Bool.and_true]
      split <;> rfl
    obtain ⟨kw1, h1, h2⟩ := kwargsOf_own fields version s ks
      (if (!(field s x).isNone) = true then kw.set x (field s x) else kw)
    refine ⟨kw1, by rw [hd, he]; exact h1, ?_⟩
    intro k
    rw [h2 k]
    by_cases hx : x = k
    · subst hx
      by_cases hk : x ∈ ks <;> cases hv : field s x <;> simp [Val.isNone, present, Dict.get?_set, hk]
    · have hxk : ¬ k = x := fun e => hx e.symm
      cases hv : field s x <;> simp [Val.isNone, present, Dict.get?_set, hx, hxk]

/-- The dict of further keyword arguments that a value stands for: a dict, or none for `None`. -/
def Further (v : Val) (extra : List (Name × Val)) : Prop :=
  (extra.map (·.1)).Nodup ∧ (v = .dict extra ∨ v = .none ∧ extra = [])

/-- `PandasParquetWriter`: the options that are not `None` are passed on, and so is everything in
`extra_kwargs`, which wins. -/
theorem C87_extra_parquet (version : String) {args : Dict Name Val} (hp : Proper pandasParquetWriter args)
    {extra : List (Name × Val)} (hx : Further (valueOf pandasParquetWriter args "extra_kwargs") extra) :
    ∃ c, (pandasParquetWriter.use version args).calls = [c] ∧
      c.positional = [valueOf pandasParquetWriter args "path"] ∧
      ∀ k, c.keywords.get? k = (Dict.get? extra k).or
        (if k ∈ ["engine", "compression", "index", "partition_cols", "storage_options"] then
          present (valueOf pandasParquetWriter args k) else none) := by
  have hm : pandasParquetWriter ∈ allAdapters := by simp [allAdapters, pandasAdapters]
  have hfield := field_settings pandasParquetWriter (facts hm).1 hp.1
  obtain ⟨kw1, hk1, hg1⟩ := kwargsOf_own pandasParquetWriter.fields version
    (settings pandasParquetWriter.fields args)
    ["engine", "compression", "index", "partition_cols", "storage_options"] []
  have hbody : pandasParquetWriter.body =
    (["engine", "compression", "index", "partition_cols", "storage_options"].map own) ++
      [.update "extra_kwargs"] := rfl
  have hup : Stmt.exec pandasParquetWriter.fields version (settings pandasParquetWriter.fields args)
      (.update "extra_kwargs") kw1 = .ok (updateWith kw1 extra) := by
    have hd : Stmt.exec pandasParquetWriter.fields version (settings pandasParquetWriter.fields args)
      (.update "extra_kwargs") kw1 =
      if (field (settings pandasParquetWriter.fields args) "extra_kwargs").isNone then .ok kw1
      else updateVal kw1 (field (settings pandasParquetWriter.fields args) "extra_kwargs") := rfl
    rw [hd, hfield]
    rcases hx.2 with e | ⟨e, rfl⟩
    · rw [e]; rfl
    · rw [e]; rfl
  have hkw : kwargsOf pandasParquetWriter.fields version (settings pandasParquetWriter.fields args)
      pandasParquetWriter.body [] = .ok (updateWith kw1 extra) := by
    rw [hbody, kwargsOf_append _ _ _ _ _ hk1]
    unfold kwargsOf
    rw [hup]
    rfl
  have hpost : postInit pandasParquetWriter.post (settings pandasParquetWriter.fields args) =
    .ok (settings pandasParquetWriter.fields args) := rfl
  have hcalls : makeCalls (settings pandasParquetWriter.fields args) (updateWith kw1 extra)
      pandasParquetWriter.calls = .ok (pandasParquetWriter.calls.map
        (CallText.callOf (settings pandasParquetWriter.fields args) (updateWith kw1 extra))) := by
    apply makeCalls_succeeds
    intro c hc p hpm
    have : c = { function := "data.to_parquet", positional := ["path"], named := [], pick := .all } := by
      simpa [pandasParquetWriter] using hc
    subst this
    cases hpm
  refine ⟨CallText.callOf (settings pandasParquetWriter.fields args) (updateWith kw1 extra)
    { function := "data.to_parquet", positional := ["path"], named := [], pick := .all }, ?_, ?_, ?_⟩
  · unfold Adapter.use
    simp only [construct_proper hp, hpost, hkw, hcalls]
    rfl
  · rw [← hfield]; rfl
  · intro k
    have hd : (CallText.callOf (settings pandasParquetWriter.fields args) (updateWith kw1 extra)
      { function := "data.to_parquet", positional := ["path"], named := [], pick := .all }).keywords =
      updateWith kw1 extra := rfl
    rw [hd, updateWith_get? _ _ hx.1, hg1, hfield]
    congr 1
    exact Option.or_none

theorem popUpdate_exec (fields : List (Name × Option Val)) (version : String) (s kw : Dict Name Val)
    {key : Name} {extra : List (Name × Val)} (h : Further (field kw key) extra) :
    Stmt.exec fields version s (.popUpdate key) kw = .ok (updateWith (kw.del key) extra) := by
  have hd : Stmt.exec fields version s (.popUpdate key) kw =
    if (field kw key).truthy then updateVal (kw.del key) (field kw key) else .ok (kw.del key) := rfl
  rw [hd]
  rcases h.2 with e | ⟨e, rfl⟩
  · rw [e]
    cases extra with
    | nil => rfl
    | cons p rest => rfl
  · rw [e]; rfl

theorem settings_has (a : Adapter) (hf : (a.fields.map (·.1)).Nodup) {args : Dict Name Val}
    (hp : ∀ k ∈ args.keys, k ∈ a.fields.map (·.1)) (k : Name) :
    (settings a.fields args).get? k =
      if k ∈ a.fields.map (·.1) then some (valueOf a args k) else none := by
  by_cases hk : k ∈ a.fields.map (·.1)
  · rw [if_pos hk, ← field_settings a hf hp]
    obtain ⟨f, hm, rfl⟩ := List.mem_map.mp hk
    unfold field
    rw [settings_get? a.fields hf args hm]
    rfl
  · rw [if_neg hk, settings_get?_none _ _ hk]

/-- `HuggingFaceDSParquetSaver`: `batch_size` is passed on, and so is everything in
`parquet_writer_kwargs`, which wins. -/
theorem C87_extra_dataset (version : String) {args : Dict Name Val}
    (hp : Proper huggingFaceDSParquetSaver args) (hc : ∀ p ∈ args, p.2.plain = true)
    {extra : List (Name × Val)}
    (hx : Further (valueOf huggingFaceDSParquetSaver args "parquet_writer_kwargs") extra) :
    ∃ c, (huggingFaceDSParquetSaver.use version args).calls = [c] ∧
      c.positional = [valueOf huggingFaceDSParquetSaver args "path_or_buf"] ∧
      ∀ k, c.keywords.get? k = (Dict.get? extra k).or
        (if k = "batch_size" then some (valueOf huggingFaceDSParquetSaver args k) else none) := by
  have hm : huggingFaceDSParquetSaver ∈ allAdapters := by simp [allAdapters, otherAdapters]
  have hfield := field_settings huggingFaceDSParquetSaver (facts hm).1 hp.1
  have hget := settings_has huggingFaceDSParquetSaver (facts hm).1 hp.1
  have hcopy := settings_plain huggingFaceDSParquetSaver.fields args (by decide) hc
  have hnames : huggingFaceDSParquetSaver.fields.map (·.1) =
    ["path_or_buf", "batch_size", "parquet_writer_kwargs"] := rfl
  rw [hnames] at hget
  revert hget hcopy hfield
  generalize hs : settings huggingFaceDSParquetSaver.fields args = s
  intro hfield hget hcopy
  have hdel : Stmt.exec huggingFaceDSParquetSaver.fields version s (.del "path_or_buf") s =
      .ok (s.del "path_or_buf") := by
    have hd : Stmt.exec huggingFaceDSParquetSaver.fields version s (.del "path_or_buf") s =
      if s.has "path_or_buf" then .ok (s.del "path_or_buf") else .error .key := rfl
    have hh : s.has "path_or_buf" = true :=
      (Dict.has_eq_true_iff _ _).mpr ⟨_, by rw [hget]; rfl⟩
    rw [hd, hh, if_pos rfl]
  have hpop := popUpdate_exec huggingFaceDSParquetSaver.fields version s (s.del "path_or_buf")
    (key := "parquet_writer_kwargs") (extra := extra) (by
      have he : field (s.del "path_or_buf") "parquet_writer_kwargs" =
          valueOf huggingFaceDSParquetSaver args "parquet_writer_kwargs" := by
        rw [← hfield]
        unfold field
        rw [Dict.get?_del, if_neg (by decide)]
      rw [he]; exact hx)
  have hkw : kwargsOf huggingFaceDSParquetSaver.fields version s huggingFaceDSParquetSaver.body [] =
      .ok (updateWith ((s.del "path_or_buf").del "parquet_writer_kwargs") extra) := by
    have hb : huggingFaceDSParquetSaver.body =
      [.asdict, .del "path_or_buf", .popUpdate "parquet_writer_kwargs"] := rfl
    have h0 : Stmt.exec huggingFaceDSParquetSaver.fields version s .asdict [] = copyItems s := rfl
    rw [hb]
    simp only [kwargsOf, h0, hcopy, hdel, hpop]
  have hpost : postInit huggingFaceDSParquetSaver.post s = .ok s := rfl
  have hcalls : makeCalls s (updateWith ((s.del "path_or_buf").del "parquet_writer_kwargs") extra)
      huggingFaceDSParquetSaver.calls = .ok (huggingFaceDSParquetSaver.calls.map
        (CallText.callOf s (updateWith ((s.del "path_or_buf").del "parquet_writer_kwargs") extra))) := by
    apply makeCalls_succeeds
    intro c hc p hpm
    have : c = { function := "ds.to_parquet", positional := ["path_or_buf"], named := [], pick := .all } := by
      simpa [huggingFaceDSParquetSaver] using hc
    subst this
    cases hpm
  refine ⟨CallText.callOf s (updateWith ((s.del "path_or_buf").del "parquet_writer_kwargs") extra)
    { function := "ds.to_parquet", positional := ["path_or_buf"], named := [], pick := .all }, ?_, ?_, ?_⟩
  · unfold Adapter.use
    simp only [construct_proper hp, hs, hpost, hkw, hcalls]
    rfl
  · rw [← hfield]; rfl
  · intro k
    have hd : (CallText.callOf s (updateWith ((s.del "path_or_buf").del "parquet_writer_kwargs") extra)
      { function := "ds.to_parquet", positional := ["path_or_buf"], named := [], pick := .all }).keywords =
      updateWith ((s.del "path_or_buf").del "parquet_writer_kwargs") extra := rfl
    rw [hd, updateWith_get? _ _ hx.1, Dict.get?_del, Dict.get?_del, hget]
    congr 1
    by_cases h1 : "parquet_writer_kwargs" = k
    · subst h1; rfl
    · by_cases h2 : "path_or_buf" = k
      · subst h2; rfl
      · rw [if_neg h1, if_neg h2]
        by_cases h3 : k = "batch_size"
        · subst h3; rfl
        · rw [if_neg h3, if_neg]
          simp only [List.mem_cons, List.not_mem_nil, or_false, not_or]
          exact ⟨fun e => h2 e.symm, h3, fun e => h1 e.symm⟩

/-- `HuggingFaceDSLoader`: every option is passed on, and so is everything in `config_kwargs`, which
wins; `dataset_name` is passed as `name`. -/
theorem C87_extra_load (version : String) {args : Dict Name Val}
    (hp : Proper huggingFaceDSLoader args) (hc : ∀ p ∈ args, p.2.plain = true)
    {extra : List (Name × Val)}
    (hx : Further (valueOf huggingFaceDSLoader args "config_kwargs") extra) :
    ∃ c, (huggingFaceDSLoader.use version args).calls = [c] ∧
      c.positional = [valueOf huggingFaceDSLoader args "path"] ∧
      c.keywords.get? "name" = some ((Dict.get? extra "dataset_name").getD
        (valueOf huggingFaceDSLoader args "dataset_name")) ∧
      c.keywords.get? "dataset_name" = none ∧
      ∀ k, k ≠ "name" → k ≠ "dataset_name" → c.keywords.get? k = (Dict.get? extra k).or
        (if k ∈ optionsOf huggingFaceDSLoader ∧ k ≠ "config_kwargs" then
          some (valueOf huggingFaceDSLoader args k) else none) := by
  have hm : huggingFaceDSLoader ∈ allAdapters := by simp [allAdapters, otherAdapters]
  have hfield := field_settings huggingFaceDSLoader (facts hm).1 hp.1
  have hget := settings_has huggingFaceDSLoader (facts hm).1 hp.1
  have hcopy := settings_plain huggingFaceDSLoader.fields args (by decide) hc
  have hnames : huggingFaceDSLoader.fields.map (·.1) = "path" :: optionsOf huggingFaceDSLoader := by
    decide
  rw [hnames] at hget
  revert hget hcopy hfield
  generalize hs : settings huggingFaceDSLoader.fields args = s
  intro hfield hget hcopy
  have hdel : Stmt.exec huggingFaceDSLoader.fields version s (.del "path") s = .ok (s.del "path") := by
    have hd : Stmt.exec huggingFaceDSLoader.fields version s (.del "path") s =
      if s.has "path" then .ok (s.del "path") else .error .key := rfl
    have hh : s.has "path" = true :=
      (Dict.has_eq_true_iff _ _).mpr ⟨_, by rw [hget, if_pos (List.mem_cons_self ..)]⟩
    rw [hd, hh, if_pos rfl]
  have hpop := popUpdate_exec huggingFaceDSLoader.fields version s (s.del "path")
    (key := "config_kwargs") (extra := extra) (by
      have he : field (s.del "path") "config_kwargs" =
          valueOf huggingFaceDSLoader args "config_kwargs" := by
        rw [← hfield]
        unfold field
        rw [Dict.get?_del, if_neg (by decide)]
      rw [he]; exact hx)
  generalize hk3 : updateWith ((s.del "path").del "config_kwargs") extra = kw3 at hpop
  have hren : Stmt.exec huggingFaceDSLoader.fields version s (.rename "name" "dataset_name") kw3 =
    .ok ((kw3.del "dataset_name").set "name" (field kw3 "dataset_name")) := rfl
  have hkw : kwargsOf huggingFaceDSLoader.fields version s huggingFaceDSLoader.body [] =
      .ok ((kw3.del "dataset_name").set "name" (field kw3 "dataset_name")) := by
    have hb : huggingFaceDSLoader.body =
      [.asdict, .del "path", .popUpdate "config_kwargs", .rename "name" "dataset_name"] := rfl
    have h0 : Stmt.exec huggingFaceDSLoader.fields version s .asdict [] = copyItems s := rfl
    rw [hb]
    simp only [kwargsOf, h0, hcopy, hdel, hpop, hren]
  generalize hk4 : (kw3.del "dataset_name").set "name" (field kw3 "dataset_name") = kw4 at hkw
  have hpost : postInit huggingFaceDSLoader.post s = .ok s := rfl
  have hcalls : makeCalls s kw4 huggingFaceDSLoader.calls =
      .ok (huggingFaceDSLoader.calls.map (CallText.callOf s kw4)) := by
    apply makeCalls_succeeds
    intro c hc p hpm
    have : c = { function := "load_dataset", positional := ["path"], named := [], pick := .all } := by
      simpa [huggingFaceDSLoader] using hc
    subst this
    cases hpm
  have hg3 : ∀ k, kw3.get? k = (Dict.get? extra k).or
      (if k ∈ optionsOf huggingFaceDSLoader ∧ k ≠ "config_kwargs" then
          some (valueOf huggingFaceDSLoader args k) else none) := by
    intro k
    rw [← hk3, updateWith_get? _ _ hx.1, Dict.get?_del, Dict.get?_del, hget]
    congr 1
    by_cases h1 : "config_kwargs" = k
    · subst h1; rw [if_pos rfl, if_neg (fun h => h.2 rfl)]
    · rw [if_neg h1]
      by_cases h2 : "path" = k
      · subst h2
        rw [if_pos rfl, if_neg]
        intro h
        exact absurd h.1 (by decide)
      · rw [if_neg h2]
        by_cases h3 : k ∈ optionsOf huggingFaceDSLoader
        · rw [if_pos (List.mem_cons_of_mem _ h3), if_pos ⟨h3, fun e => h1 e.symm⟩]
        · rw [if_neg, if_neg fun h => h3 h.1]
          intro h
          cases List.mem_cons.mp h with
          | inl e => exact h2 e.symm
          | inr h => exact h3 h
  refine ⟨CallText.callOf s kw4
    { function := "load_dataset", positional := ["path"], named := [], pick := .all }, ?_, ?_, ?_, ?_, ?_⟩
  · unfold Adapter.use
    simp only [construct_proper hp, hs, hpost, hkw, hcalls]
    rfl
  · rw [← hfield]; rfl
  all_goals
    have hd : (CallText.callOf s kw4
      { function := "load_dataset", positional := ["path"], named := [], pick := .all }).keywords = kw4 := rfl
    rw [hd, ← hk4]
  · rw [Dict.get?_set_self]
    unfold field
    rw [hg3, if_pos (by decide)]
    cases Dict.get? extra "dataset_name" <;> rfl
  · rw [Dict.get?_set_ne _ _ (by decide), Dict.get?_del, if_pos rfl]
  · intro k h1 h2
    rw [Dict.get?_set_ne _ _ (fun e => h1 e.symm), Dict.get?_del, if_neg (fun e => h2 e.symm), hg3]

/-! ### Where the property fails -/

/-- Violated: an option that is never passed on has no effect at all, whatever is given for it: the
calls are the same as without it. -/
theorem C87_violated_dropped {a : Adapter} (ha : a ∈ adapters) {version : String} {args : Dict Name Val}
    (hc : Copyable a args) {k : Name} (hk : k ∈ optionsOf a) (hr : ruleOf a.name k = .never) :
    ∀ c ∈ (a.use version args).calls, k ∉ c.keywords.keys := by
  intro c hcm hin
  have h := C87_exact ha hc (List.ne_nil_of_mem hcm) hk (version := version)
  rw [hr] at h
  have hnone := List.filterMap_eq_nil_iff.mp h c hcm
  exact (Dict.get?_eq_none_iff _ _).mp hnone hin

namespace Sample

/-- Reading a CSV file with a semicolon as separator, without a header. -/
def csvArgs : Dict Name Val :=
  [("path", .str "a.csv"), ("sep", .str ";"), ("nrows", .int 5), ("skipfooter", .int 1), ("header", .none)]

/-- A writer with options of several kinds. -/
def excelArgs : Dict Name Val :=
  [("path", .path "a.xlsx"), ("sheet_name", .str "s"), ("mode", .str "a"), ("na_rep", .none)]

/-- A Parquet writer with further keyword arguments. -/
def parquetArgs : Dict Name Val :=
  [("path", .str "a.parquet"), ("compression", .str "gzip"),
    ("extra_kwargs", .dict [("compression", .str "zstd"), ("row_group_size", .int 9)])]

/-- A Hugging Face loader with further keyword arguments. -/
def loadArgs : Dict Name Val :=
  [("path", .str "imdb"), ("dataset_name", .str "plain_text"), ("config_kwargs", .dict [("revision", .str "v2")])]

theorem csv_mem : pandasCSVReader ∈ adapters := by
  unfold adapters
  rw [List.mem_filter]
  exact ⟨by simp [allAdapters, pandasAdapters], by decide⟩

theorem excel_mem : pandasExcelWriter ∈ adapters := by
  unfold adapters
  rw [List.mem_filter]
  exact ⟨by simp [allAdapters, pandasAdapters], by decide⟩

/-- What was called, with the keywords. -/
def summary (o : Outcome) : List (Name × List Name) := o.calls.map fun c => (c.function, c.keywords.keys)

/-- The hypotheses of `C87_exact`, `C87_nothing_else`, `C87_reaches_partial`, `C87_location`,
`C87_function`, `C87_completes_partial`, `C87_violated_dropped` hold for these arguments, and
`C87_violated_dropped` and `C87_reaches_partial` are about options that are there. -/
example : Copyable pandasCSVReader csvArgs ∧ (pandasCSVReader.use "2.1.0" csvArgs).calls ≠ [] ∧
    "skipfooter" ∈ optionsOf pandasCSVReader ∧ ruleOf pandasCSVReader.name "skipfooter" = .never ∧
    "sep" ∈ optionsOf pandasCSVReader ∧ ruleOf pandasCSVReader.name "sep" = .unlessNone ∧
    (locationsOf pandasCSVReader).head? = some "path" ∧
    (∃ x, valueOf pandasCSVReader csvArgs "path" = .str x) := by
  refine ⟨fun h => absurd h (by decide), ?_, by decide, by decide, by decide, by decide, by decide,
    "a.csv", rfl⟩
  intro e
  have h : ((pandasCSVReader.use "2.1.0" csvArgs).calls.map fun _ => true) = [true] := by decide +kernel
  rw [e] at h
  cases h

/-- The same for the Excel writer, which copies its options and shares them out among two calls. -/
example : Copyable pandasExcelWriter excelArgs ∧ "mode" ∈ optionsOf pandasExcelWriter ∧
    ruleOf pandasExcelWriter.name "mode" = .always ∧
    summary (pandasExcelWriter.use "2.1.0" excelArgs) =
      [("pd.ExcelWriter", ["engine", "storage_options", "mode", "if_sheet_exists", "datetime_format",
          "date_format"]),
        ("data.to_excel", ["sheet_name", "na_rep", "float_format", "columns", "header", "index",
          "index_label", "startrow", "startcol", "merge_cells", "inf_rep", "freeze_panes"])] := by
  refine ⟨fun _ p hp => ?_, by decide, by decide, by decide +kernel⟩
  have h : (excelArgs.all fun p => p.2.plain) = true := by decide
  exact List.all_eq_true.mp h p hp

/-- The hypothesis of `C87_excel` holds. -/
example : ∃ c d, (pandasExcelWriter.use "2.1.0" excelArgs).calls = [c, d] := by
  have h : (pandasExcelWriter.use "2.1.0" excelArgs).calls.length = 2 := by decide +kernel
  match hx : (pandasExcelWriter.use "2.1.0" excelArgs).calls, h with
  | [c, d], _ => exact ⟨c, d, rfl⟩

/-- The hypotheses of `C87_pickle` hold, in each of its two cases. -/
example : Proper pandasPickleReader [("path", .str "a.pkl")] ∧ Proper pandasPickleReader [] ∧
    present (valueOf pandasPickleReader [("path", .str "a.pkl")] "path") = some (.str "a.pkl") ∧
    present (valueOf pandasPickleReader [("path", .str "a.pkl")] "filepath_or_buffer") = none ∧
    present (valueOf pandasPickleReader [] "path") = none :=
  ⟨⟨by decide, by decide⟩, ⟨by decide, by decide⟩, rfl, rfl, rfl⟩

/-- The hypotheses of `C87_extra_parquet` hold, and the further keyword arguments win. -/
example : Proper pandasParquetWriter parquetArgs ∧
    Further (valueOf pandasParquetWriter parquetArgs "extra_kwargs")
      [("compression", .str "zstd"), ("row_group_size", .int 9)] ∧
    summary (pandasParquetWriter.use "2.1.0" parquetArgs) =
      [("data.to_parquet", ["engine", "compression", "row_group_size"])] :=
  ⟨⟨by decide, by decide⟩, ⟨by decide, .inl rfl⟩, by decide +kernel⟩

/-- The hypotheses of `C87_extra_dataset` hold. -/
example : Proper huggingFaceDSParquetSaver [("path_or_buf", .str "a"), ("batch_size", .int 3)] ∧
    Further (valueOf huggingFaceDSParquetSaver [("path_or_buf", .str "a"), ("batch_size", .int 3)]
      "parquet_writer_kwargs") [] ∧
    summary (huggingFaceDSParquetSaver.use "" [("path_or_buf", .str "a"), ("batch_size", .int 3)]) =
      [("ds.to_parquet", ["batch_size"])] :=
  ⟨⟨by decide, by decide⟩, ⟨List.nodup_nil, .inr ⟨rfl, rfl⟩⟩, by decide +kernel⟩

/-- The hypotheses of `C87_extra_load` hold. -/
example : Proper huggingFaceDSLoader loadArgs ∧ (∀ p ∈ loadArgs, p.2.plain = true) ∧
    Further (valueOf huggingFaceDSLoader loadArgs "config_kwargs") [("revision", .str "v2")] ∧
    summary (huggingFaceDSLoader.use "" loadArgs) =
      [("load_dataset", ["data_dir", "data_files", "split", "cache_dir", "features", "download_config",
        "download_mode", "verification_mode", "keep_in_memory", "save_infos", "revision", "token",
        "streaming", "num_proc", "storage_options", "name"])] := by
  refine ⟨⟨by decide, by decide⟩, fun p hp => ?_, ⟨by decide, .inl rfl⟩, by decide +kernel⟩
  have h : (loadArgs.all fun p => p.2.plain) = true := by decide
  exact List.all_eq_true.mp h p hp

/-- The hypotheses of `C87_unknown` hold: `na_values` of the Excel reader is no option. -/
example : ∃ k ∈ Dict.keys [("na_values", Val.str "-")], k ∉ pandasExcelReader.fields.map (·.1) :=
  ⟨"na_values", by decide, by decide⟩

/-- The hypotheses of `C87_violated_buffers` hold: a CSV reader and a buffer. -/
example : pandasCSVReader.name ∉ sqlNames ∧ pandasCSVReader.name ∉ otherNames ∧
    Proper pandasCSVReader [("path", .buffer true 0)] ∧ Copyable pandasCSVReader [("path", .buffer true 0)] ∧
    (locationsOf pandasCSVReader).head? = some "path" ∧
    valueOf pandasCSVReader [("path", .buffer true 0)] "path" = .buffer true 0 :=
  ⟨by decide, by decide, ⟨by decide, by decide⟩, fun h => absurd h (by decide), by decide, rfl⟩

/-- Violated: `header=None` and `skipfooter=1`, both given, do not reach `read_csv`, which then takes the
first line for the header and the last one for data. -/
theorem C87_violated_none :
    Dict.get? csvArgs "header" = some .none ∧ Dict.get? csvArgs "skipfooter" = some (.int 1) ∧
    (pandasCSVReader.use "2.1.0" csvArgs).error = none ∧
    ((pandasCSVReader.use "2.1.0" csvArgs).calls.map fun c =>
      (c.function, c.keywords.has "header", c.keywords.has "skipfooter", c.keywords.has "nrows")) =
      [("pd.read_csv", false, false, true)] :=
  ⟨rfl, rfl, by decide +kernel, by decide +kernel⟩

/-- Violated: versions of pandas are compared as strings, so that 10.0.0 counts as older than 2.0 and
`dtype_backend` is dropped. -/
theorem C87_violated_version :
    ((pandasCSVReader.use "2.1.0" [("path", .str "a.csv"), ("dtype_backend", .str "pyarrow")]).calls.map fun c =>
      c.keywords.has "dtype_backend") = [true] ∧
    ((pandasCSVReader.use "10.0.0" [("path", .str "a.csv"), ("dtype_backend", .str "pyarrow")]).calls.map fun c =>
      c.keywords.has "dtype_backend") = [false] := by
  decide +kernel

/-- Violated: with `compression=None` the Parquet writer of polars drops all other options as well. -/
theorem C87_violated_compression :
    summary (polarsParquetWriter.use "" [("file", .str "a"), ("compression", .none),
      ("statistics", .bool true), ("row_group_size", .int 10)]) = [("data.write_parquet", [])] ∧
    summary (polarsParquetWriter.use "" [("file", .str "a"), ("compression", .str "zstd"),
      ("statistics", .bool true), ("row_group_size", .int 10)]) =
      [("data.write_parquet", ["compression", "compression_level", "statistics", "row_group_size",
        "use_pyarrow", "pyarrow_options"])] := by
  decide +kernel

/-- Violated: an open file, which cannot be copied, is refused by the adapters that copy their options
before the library is called, and a dataclass instance reaches the library as a dict. -/
theorem C87_violated_copies :
    (pandasTableReader.use "2.1.0" [("filepath_or_buffer", .buffer false 0)]).error = some .type ∧
    summary (pandasTableReader.use "2.1.0" [("filepath_or_buffer", .buffer false 0)]) = [] ∧
    ((huggingFaceDSLoader.use "" [("path", .str "imdb"),
        ("download_config", .record [("force", .bool true)])]).calls.map fun c =>
      match c.keywords.get? "download_config" with
      | some (.dict items) => Dict.keys items
      | _ => []) = [["force"]] := by
  decide +kernel

/-- Violated: `na_values`, which the Excel reader names among its options, is refused. -/
theorem C87_violated_na_values :
    (pandasExcelReader.use "2.1.0" [("path", .str "a.xlsx"), ("na_values", .str "-")]).error = some .type ∧
    summary (pandasExcelReader.use "2.1.0" [("path", .str "a.xlsx"), ("na_values", .str "-")]) = [] ∧
    (pandasExcelReader.use "2.1.0" [("path", .str "a.xlsx")]).error = none := by
  decide +kernel

end Sample

end Verif.Options
