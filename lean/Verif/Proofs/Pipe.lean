import Verif.Spec.Pipe
import Verif.Proofs.Adapters
import Verif.Proofs.Plan

/-!
Lemmas about renaming the parameters of a node and binding the arguments of a step.
-/
namespace Verif
variable {T V : Type}

/-- The node a parameter is fed from. -/
def tgt (names : Dict Name Name) (k : Name) : Name := (names.get? k).getD k

theorem reassignTypes_eq (names : Dict Name Name) (values : Dict Name V) : ∀ (params acc : Dict Name (T × DepType)),
    (acc.keys ++ ((params.filter (fun p => !values.has p.1)).map (fun p => tgt names p.1))).Nodup →
    params.foldl (fun d p => if values.has p.1 then d else d.set ((names.get? p.1).getD p.1) p.2) acc =
      acc ++ (params.filter (fun p => !values.has p.1)).map (fun p => (tgt names p.1, p.2)) := by
  intro params
  induction params with
  | nil => intro acc _; simp
  | cons p ps ih =>
    intro acc h
    rw [List.foldl_cons]
    by_cases hv : values.has p.1 = true
    · rw [if_pos hv]
      have hf : List.filter (fun p => !values.has p.1) (p :: ps) = List.filter (fun p => !values.has p.1) ps := by
        rw [List.filter_cons_of_neg]; simp [hv]
      rw [hf] at h ⊢
      exact ih acc h
    · have hv' : values.has p.1 = false := by simpa using hv
      have hf : List.filter (fun p => !values.has p.1) (p :: ps) = p :: List.filter (fun p => !values.has p.1) ps := by
        rw [List.filter_cons_of_pos]; simp [hv']
      rw [hf] at h
      rw [if_neg hv, hf]
      simp only [List.map_cons] at h ⊢
      have hset := foldl_set_append [(tgt names p.1, p.2)] acc (by
        rw [Dict.keys_cons]
        refine (List.Sublist.nodup ?_ h)
        exact List.Sublist.append (List.Sublist.refl _) (by simp [Dict.keys]))
      simp only [List.foldl_cons, List.foldl_nil] at hset
      rw [show (names.get? p.1).getD p.1 = tgt names p.1 from rfl, hset, ih]
      · simp
      · have : Dict.keys (acc ++ [(tgt names p.1, p.2)]) = acc.keys ++ [tgt names p.1] := by simp [Dict.keys]
        rw [this]; simpa using h

theorem renameKwargs_eq (rev : Dict Name Name) : ∀ (kw acc : Dict Name V),
    (acc.keys ++ kw.keys.map (fun k => (rev.get? k).getD k)).Nodup →
    kw.foldl (fun d p => d.set ((rev.get? p.1).getD p.1) p.2) acc = acc ++ kw.map (fun p => ((rev.get? p.1).getD p.1, p.2)) := by
  intro kw acc h
  have := foldl_set_append (kw.map (fun p => ((rev.get? p.1).getD p.1, p.2))) acc (by
    have : Dict.keys (kw.map (fun p => ((rev.get? p.1).getD p.1, p.2))) = kw.keys.map (fun k => (rev.get? k).getD k) := by
      simp [Dict.keys, List.map_map, Function.comp_def]
    rw [this]; exact h)
  rw [List.foldl_map] at this
  exact this

theorem merge_disjoint {W : Type} (a b : Dict Name W) (h : (a.keys ++ b.keys).Nodup) : a.merge b = a ++ b := foldl_set_append b a h

theorem argsFor_keys_sublist (params : Dict Name (T × DepType)) (val : Name → Option V) :
    (argsFor params val).keys.Sublist params.keys := by
  unfold argsFor
  induction params with
  | nil => exact List.Sublist.refl _
  | cons p ps ih =>
    rw [List.filterMap_cons]
    cases h : (val p.1).map (fun v => (p.1, v)) with
    | none => exact List.Sublist.cons _ ih
    | some q =>
      have : q.1 = p.1 := by
        cases hv : val p.1 with
        | none => rw [hv] at h; cases h
        | some v => rw [hv] at h; cases h; rfl
      simp only [Dict.keys, List.map_cons, this]
      exact ih.cons_cons _

theorem argsFor_mapKeys (f : Name → Name) (params : Dict Name (T × DepType)) (val : Name → Option V) :
    argsFor (params.map (fun p => (f p.1, p.2))) val = (argsFor params (fun k => val (f k))).map (fun p => (f p.1, p.2)) := by
  unfold argsFor
  rw [List.filterMap_map, List.map_filterMap]
  congr 1
  funext p
  simp only [Function.comp]
  cases val (f p.1) <;> rfl

/-- Calling a node whose parameters were renamed: the function gets the arguments under their old names, and the literals. -/
theorem reassign_args {names : Dict Name Name} {values : Dict Name V} {params : Dict Name (T × DepType)}
    (hp : params.keys.Nodup) (hvn : values.keys.Nodup)
    (hback : ∀ k ∈ params.keys, k ∉ values.keys →
      ((reverseNames names).get? (tgt names k)).getD (tgt names k) = k ∧ tgt names k ∉ values.keys)
    (hlit : ∀ l ∈ values.keys, (reverseNames names).get? l = none) (val : Name → Option V) :
    reassignTypes names values params = (params.filter (fun p => !values.has p.1)).map (fun p => (tgt names p.1, p.2)) ∧
    (reassignTypes names values params).keys.Nodup ∧
    renameKwargs (reverseNames names) ((argsFor (reassignTypes names values params) val).merge values) =
      argsFor (params.filter (fun p => !values.has p.1)) (fun k => val (tgt names k)) ++ values := by
  have hkf : ∀ k ∈ Dict.keys (params.filter (fun p => !values.has p.1)), k ∈ params.keys ∧ k ∉ values.keys := by
    intro k hk
    obtain ⟨q, hq, rfl⟩ := List.mem_map.1 hk
    obtain ⟨h1, h2⟩ := List.mem_filter.1 hq
    refine ⟨List.mem_map.2 ⟨q, h1, rfl⟩, fun h => ?_⟩
    rw [(Dict.has_iff _ _).2 h] at h2; cases h2
  have hfn : (Dict.keys (params.filter (fun p => !values.has p.1))).Nodup :=
    List.Sublist.nodup (List.Sublist.map _ List.filter_sublist) hp
  have hkm : (params.filter (fun p => !values.has p.1)).map (fun p => tgt names p.1) =
      (Dict.keys (params.filter (fun p => !values.has p.1))).map (tgt names) := by
    simp [Dict.keys, List.map_map, Function.comp_def]
  have hnd : ((params.filter (fun p => !values.has p.1)).map (fun p => tgt names p.1)).Nodup := by
    rw [hkm]
    refine List.Pairwise.map _ ?_ (List.Pairwise.and_mem.1 hfn)
    rintro a b ⟨ha, hb, hab⟩ he
    have h1 := (hback a (hkf a ha).1 (hkf a ha).2).1
    have h2 := (hback b (hkf b hb).1 (hkf b hb).2).1
    rw [he, h2] at h1
    exact hab h1.symm
  have e1 : reassignTypes names values params =
      (params.filter (fun p => !values.has p.1)).map (fun p => (tgt names p.1, p.2)) := by
    have := reassignTypes_eq names values params [] (by simpa [Dict.keys] using hnd)
    simpa [reassignTypes] using this
  have e2 : (reassignTypes names values params).keys =
      (params.filter (fun p => !values.has p.1)).map (fun p => tgt names p.1) := by
    rw [e1]; simp [Dict.keys, List.map_map, Function.comp_def]
  refine ⟨e1, by rw [e2]; exact hnd, ?_⟩
  have hsub := argsFor_keys_sublist (reassignTypes names values params) val
  have hkd : ∀ k ∈ (argsFor (reassignTypes names values params) val).keys, k ∉ values.keys := by
    intro k hk
    have := hsub.subset hk
    rw [e2, hkm] at this
    obtain ⟨q, hq, rfl⟩ := List.mem_map.1 this
    exact (hback q (hkf q hq).1 (hkf q hq).2).2
  have hnd2 : ((argsFor (reassignTypes names values params) val).keys ++ values.keys).Nodup :=
    List.nodup_append.2 ⟨hsub.nodup (by rw [e2]; exact hnd), hvn, fun a ha b hb he => hkd a ha (he ▸ hb)⟩
  rw [merge_disjoint _ _ hnd2, e1, argsFor_mapKeys]
  have hmapk : Dict.keys ((argsFor (params.filter (fun p => !values.has p.1)) (fun k => val (tgt names k))).map
        (fun p => (tgt names p.1, p.2)) ++ values) =
      (Dict.keys (argsFor (params.filter (fun p => !values.has p.1)) (fun k => val (tgt names k)))).map (tgt names) ++
        values.keys := by
    simp [Dict.keys, List.map_map, Function.comp_def]
  have hsub2 := argsFor_keys_sublist (params.filter (fun p => !values.has p.1)) (fun k => val (tgt names k))
  have hid : (Dict.keys (argsFor (params.filter (fun p => !values.has p.1)) (fun k => val (tgt names k)))).map
      (fun k => ((reverseNames names).get? (tgt names k)).getD (tgt names k)) =
      Dict.keys (argsFor (params.filter (fun p => !values.has p.1)) (fun k => val (tgt names k))) := by
    refine (List.map_congr_left (g := id) ?_).trans (List.map_id _)
    intro k hk
    have := hkf k (hsub2.subset hk)
    exact (hback k this.1 this.2).1
  have hidv : values.keys.map (fun k => ((reverseNames names).get? k).getD k) = values.keys := by
    refine (List.map_congr_left (g := id) ?_).trans (List.map_id _)
    intro k hk
    rw [hlit k hk]; rfl
  have := renameKwargs_eq (reverseNames names)
    ((argsFor (params.filter (fun p => !values.has p.1)) (fun k => val (tgt names k))).map
        (fun p => (tgt names p.1, p.2)) ++ values) [] (by
      rw [hmapk, List.map_append, hidv, List.map_map]
      simp only [Function.comp_def]
      rw [hid]
      simp only [Dict.keys, List.map_nil, List.nil_append]
      refine List.nodup_append.2 ⟨hsub2.nodup hfn, hvn, fun a ha b hb he => ?_⟩
      exact (hkf a (hsub2.subset ha)).2 (he ▸ hb))
  rw [renameKwargs, this, List.nil_append, List.map_append, List.map_map]
  congr 1
  · refine (List.map_congr_left (g := id) ?_).trans (List.map_id _)
    intro q hq
    have hk := hkf q.1 (hsub2.subset (List.mem_map.2 ⟨q, hq, rfl⟩))
    simp only [Function.comp, id]
    rw [(hback q.1 hk.1 hk.2).1]
  · refine (List.map_congr_left (g := id) ?_).trans (List.map_id _)
    intro q hq
    rw [hlit q.1 (List.mem_map.2 ⟨q, hq, rfl⟩)]; rfl

/-! ### Binding -/

theorem upstream_get {bound : Dict Name (SingleDep V)} (h : bound.keys.Nodup) (k s : Name) :
    (upstreamInputs bound).get? k = some s ↔ bound.get? k = some (.source s) := by
  have e := get?_filterMapVals (fun d : SingleDep V => match d with | .source s => some s | .value _ => none) bound h k
  have e' : upstreamInputs bound = bound.filterMap (fun p =>
      ((match p.2 with | .source s => some s | .value _ => none : Option Name)).map (fun b => (p.1, b))) := by
    unfold upstreamInputs
    congr 1
    funext p
    obtain ⟨a, b⟩ := p
    cases b <;> rfl
  rw [e', e]
  cases hb : bound.get? k with
  | none => simp
  | some d => cases d <;> simp

theorem literal_get {bound : Dict Name (SingleDep V)} (h : bound.keys.Nodup) (k : Name) (v : V) :
    (literalInputs bound).get? k = some v ↔ bound.get? k = some (.value v) := by
  have e := get?_filterMapVals (fun d : SingleDep V => match d with | .source _ => none | .value v => some v) bound h k
  have e' : literalInputs bound = bound.filterMap (fun p =>
      ((match p.2 with | .source _ => none | .value v => some v : Option V)).map (fun b => (p.1, b))) := by
    unfold literalInputs
    congr 1
    funext p
    obtain ⟨a, b⟩ := p
    cases b <;> rfl
  rw [e', e]
  cases hb : bound.get? k with
  | none => simp
  | some d => cases d <;> simp

theorem literal_nodup {bound : Dict Name (SingleDep V)} (h : bound.keys.Nodup) : (literalInputs bound).keys.Nodup := by
  have : (literalInputs bound).keys.Sublist bound.keys := by
    unfold literalInputs
    induction bound with
    | nil => exact List.Sublist.refl _
    | cons p ps ih =>
      obtain ⟨a, b⟩ := p
      rw [Dict.keys_cons, List.nodup_cons] at h
      rw [List.filterMap_cons]
      cases b with
      | value v => exact (ih h.2).cons_cons _
      | source s => exact (ih h.2).cons _
  exact this.nodup h

theorem reverse_get {names : Dict Name Name} (hk : names.keys.Nodup)
    (hinj : ∀ a b s, names.get? a = some s → names.get? b = some s → a = b) (s k : Name) :
    (reverseNames names).get? s = some k ↔ names.get? k = some s := by
  have key : ∀ (l acc : Dict Name Name), (∀ p ∈ l, p ∈ names) → l.keys.Nodup →
      ∀ s k, (l.foldl (fun d p => d.set p.2 p.1) acc).get? s = some k ↔
        ((k, s) ∈ l ∨ (acc.get? s = some k ∧ ∀ p ∈ l, p.2 ≠ s)) := by
    intro l
    induction l with
    | nil => intro acc _ _ s k; simp
    | cons p ps ih =>
      intro acc hmem hn s k
      have hn' : (Dict.keys ps).Nodup := (List.nodup_cons.1 hn).2
      rw [List.foldl_cons, ih _ (fun q hq => hmem q (by simp [hq])) hn']
      obtain ⟨a, b⟩ := p
      rw [Dict.get?_set]
      have huniq : ∀ q ∈ ps, q.2 ≠ b := by
        intro q hq he
        have h1 := Dict.get?_of_mem hk (hmem (a, b) (by simp))
        have h2 := Dict.get?_of_mem hk (hmem q (by simp [hq]))
        rw [he] at h2
        have := hinj _ _ _ h1 h2
        exact (List.nodup_cons.1 hn).1 (List.mem_map.2 ⟨q, hq, this.symm⟩)
      by_cases hb : b = s
      · subst hb
        simp only [if_true, Option.some.injEq, List.mem_cons, Prod.mk.injEq, ne_eq, forall_eq_or_imp, not_true, false_and,
          and_false, or_false, and_true]
        constructor
        · rintro (h | ⟨h, _⟩)
          · exact .inr h
          · exact .inl h.symm
        · rintro (h | h)
          · exact .inr ⟨h.symm, huniq⟩
          · exact .inl h
      · simp only [if_neg hb, List.mem_cons, Prod.mk.injEq, ne_eq, forall_eq_or_imp]
        constructor
        · rintro (h | ⟨h1, h2⟩)
          · exact .inl (.inr h)
          · exact .inr ⟨h1, hb, h2⟩
        · rintro ((⟨_, h⟩ | h) | ⟨h1, _, h2⟩)
          · exact absurd h.symm hb
          · exact .inl h
          · exact .inr ⟨h1, h2⟩
  rw [reverseNames, key names [] (fun _ h => h) hk s k]
  simp only [Dict.get?_nil, reduceCtorEq, false_and, or_false]
  exact ⟨Dict.get?_of_mem hk, Dict.get?_mem⟩

theorem get?_zip_none {W : Type} : ∀ (ks : List Name) (ws : List W) (p : Name), p ∉ ks.take ws.length →
    Dict.get? (ks.zip ws) p = none := by
  intro ks
  induction ks with
  | nil => intro ws p _; rfl
  | cons k ks ih =>
    intro ws p h
    cases ws with
    | nil => rfl
    | cons w ws =>
      simp only [List.length_cons, List.take_succ_cons, List.mem_cons, not_or] at h
      rw [List.zip_cons_cons, Dict.get?_cons, if_neg (Ne.symm h.1)]
      exact ih ws p h.2

theorem get?_zip_some {W : Type} : ∀ (ks : List Name) (ws : List W) (p : Name), ws.length ≤ ks.length → p ∈ ks.take ws.length →
    ∃ w, Dict.get? (ks.zip ws) p = some w := by
  intro ks
  induction ks with
  | nil => intro ws p _ h; simp at h
  | cons k ks ih =>
    intro ws p hl h
    cases ws with
    | nil => simp at h
    | cons w ws =>
      rw [List.zip_cons_cons, Dict.get?_cons]
      by_cases hk : k = p
      · exact ⟨w, if_pos hk⟩
      · rw [if_neg hk]
        simp only [List.length_cons, List.take_succ_cons, List.mem_cons] at h hl
        exact ih ws p (by omega) (h.resolve_left (Ne.symm hk))

theorem get?_select (kwargs : Dict Name (SingleDep V)) : ∀ (ks : List Name) (p : Name),
    Dict.get? (ks.filterMap (fun k => (kwargs.get? k).map (fun d => (k, d)))) p = if p ∈ ks then kwargs.get? p else none := by
  intro ks
  induction ks with
  | nil => intro p; rfl
  | cons k ks ih =>
    intro p
    rw [List.filterMap_cons]
    cases h : kwargs.get? k with
    | none =>
      refine (ih p).trans ?_
      by_cases hk : p = k
      · subst hk
        rw [if_pos (List.mem_cons_self), h]; split <;> rfl
      · simp [hk]
    | some d =>
      refine (Dict.get?_cons k d _ p).trans ?_
      rw [ih]
      by_cases hk : k = p
      · subst hk; rw [if_pos rfl, if_pos (by simp), h]
      · rw [if_neg hk]; simp [Ne.symm hk]

theorem keys_zip {W : Type} : ∀ (ks : List Name) (ws : List W), ws.length ≤ ks.length →
    Dict.keys (ks.zip ws) = ks.take ws.length := by
  intro ks
  induction ks with
  | nil => intro ws h; cases ws with
    | nil => rfl
    | cons w ws => simp at h
  | cons k ks ih =>
    intro ws h
    cases ws with
    | nil => rfl
    | cons w ws =>
      simp only [List.length_cons] at h
      rw [List.zip_cons_cons, Dict.keys_cons, List.length_cons, List.take_succ_cons, ih ws (by omega)]

theorem keys_select_nodup (kwargs : Dict Name (SingleDep V)) : ∀ {ks : List Name}, ks.Nodup →
    (Dict.keys (ks.filterMap (fun k => (kwargs.get? k).map (fun d => (k, d))))).Nodup := by
  intro ks h
  have : (Dict.keys (ks.filterMap (fun k => (kwargs.get? k).map (fun d => (k, d))))).Sublist ks := by
    clear h
    induction ks with
    | nil => exact List.Sublist.refl _
    | cons k ks ih =>
      rw [List.filterMap_cons]
      cases hk : kwargs.get? k with
      | none => exact ih.cons _
      | some d => exact ih.cons_cons _
  exact this.nodup h

theorem upstream_nodup {bound : Dict Name (SingleDep V)} (h : bound.keys.Nodup) : (upstreamInputs bound).keys.Nodup := by
  have : (upstreamInputs bound).keys.Sublist bound.keys := by
    unfold upstreamInputs
    induction bound with
    | nil => exact List.Sublist.refl _
    | cons p ps ih =>
      obtain ⟨a, b⟩ := p
      rw [Dict.keys_cons, List.nodup_cons] at h
      rw [List.filterMap_cons]
      cases b with
      | value v => exact (ih h.2).cons _
      | source s => exact (ih h.2).cons_cons _
  exact this.nodup h

theorem filterMap_nodup_inj {A B : Type} (f : A → Option B) : ∀ {l : List A}, (l.filterMap f).Nodup →
    ∀ {a b : A} {s : B}, a ∈ l → b ∈ l → f a = some s → f b = some s → a = b := by
  intro l
  induction l with
  | nil => intro _ a b s ha; cases ha
  | cons x xs ih =>
    intro h a b s ha hb hfa hfb
    rw [List.filterMap_cons] at h
    cases hx : f x with
    | none =>
      simp only [hx] at h
      rcases List.mem_cons.1 ha with rfl | ha
      · rw [hfa] at hx; cases hx
      · rcases List.mem_cons.1 hb with rfl | hb
        · rw [hfb] at hx; cases hx
        · exact ih h ha hb hfa hfb
    | some t =>
      simp only [hx, List.nodup_cons] at h
      rcases List.mem_cons.1 ha with rfl | ha
      · rcases List.mem_cons.1 hb with rfl | hb
        · rfl
        · rw [hfa] at hx; cases hx
          exact absurd (List.mem_filterMap.2 ⟨b, hb, hfb⟩) h.1
      · rename_i ha'
        rcases List.mem_cons.1 hb with rfl | hb
        · rw [hfb] at hx; cases hx
          exact absurd (List.mem_filterMap.2 ⟨a, ‹a ∈ xs›, hfa⟩) h.1
        · exact ih h.2 ‹a ∈ xs› hb hfa hfb

/-- What `Signature.bind` yields for a chained step. -/
theorem bind_spec {params : Dict Name (T × DepType)} {args : List (SingleDep V)} {kwargs bound : Dict Name (SingleDep V)}
    {cur : Name} (hp : params.keys.Nodup) (h : bindSignature params (.source cur :: args) kwargs = .ok bound) :
    ∃ first, params.keys.head? = some first ∧ bound.keys.Nodup ∧ bound.get? first = some (.source cur) ∧
      (∀ p, p ≠ first → bound.get? p = Dict.get? (params.keys.tail.zip args ++ kwargs) p) ∧
      (∀ p d, bound.get? p = some d → p ∈ params.keys) ∧
      (∀ p d, (p, d) ∈ params.keys.tail.zip args ++ kwargs → p ≠ first) ∧
      (∀ p t, (p, t) ∈ params → t.2 = .required → p ≠ first → ∃ d, bound.get? p = some d) := by
  unfold bindSignature at h
  cases params with
  | nil => simp at h
  | cons f rest =>
    obtain ⟨f0, t0⟩ := f
    rw [Dict.keys_cons] at hp
    obtain ⟨hp0, hpr⟩ := List.nodup_cons.1 hp
    split at h
    · cases h
    rename_i c1
    split at h
    · cases h
    rename_i c2
    split at h
    · cases h
    rename_i c3
    split at h
    · cases h
    rename_i c4
    cases h
    have hlen : args.length ≤ (Dict.keys rest).length := by
      simp only [List.length_cons] at c1
      simp only [Dict.keys, List.length_map]; omega
    have hkw : ∀ k ∈ kwargs.keys, k = f0 ∨ k ∈ (Dict.keys rest) := by
      intro k hk
      by_cases hh : Dict.has ((f0, t0) :: rest) k = true
      · have := (Dict.has_iff _ _).1 hh
        rw [Dict.keys_cons] at this
        simpa using this
      · exact absurd (List.any_eq_true.2 ⟨k, hk, by simpa using hh⟩) c2
    have htake : ∀ k, k = f0 ∨ k ∈ (Dict.keys rest).take args.length → k ∉ kwargs.keys := by
      intro k hk hkw
      refine c3 (List.any_eq_true.2 ⟨k, ?_, (Dict.has_iff _ _).2 hkw⟩)
      rw [Dict.keys_cons, List.length_cons, List.take_succ_cons]
      simpa using hk
    have hzk := keys_zip (W := SingleDep V)
    have hzn : (Dict.keys ((Dict.keys rest).zip args)).Nodup := by
      rw [hzk _ _ hlen]; exact (List.take_sublist _ _).nodup hpr
    have hbk : ∀ p, p ≠ f0 → Dict.get? ((Dict.keys rest).zip args ++
        ((Dict.keys rest).drop args.length).filterMap (fun k => (kwargs.get? k).map (fun d => (k, d)))) p =
        Dict.get? ((Dict.keys rest).zip args ++ kwargs) p := by
      intro p hpf
      rw [Dict.get?_append, Dict.get?_append, get?_select]
      cases hz : Dict.get? ((Dict.keys rest).zip args) p with
      | some d => rfl
      | none =>
        by_cases hd : p ∈ (Dict.keys rest).drop args.length
        · rw [if_pos hd]
        · rw [if_neg hd]
          have hn : p ∉ Dict.keys rest := by
            intro hm
            rw [← List.take_append_drop args.length (Dict.keys rest), List.mem_append] at hm
            rcases hm with hm | hm
            · obtain ⟨w, hw⟩ := get?_zip_some _ args p hlen hm
              rw [hz] at hw; cases hw
            · exact hd hm
          have : kwargs.get? p = none := by
            rw [Dict.get?_eq_none_iff]
            intro hm
            rcases hkw p hm with h | h
            · exact hpf h
            · exact hn h
          rw [this]
    have hb0 : Dict.keys ((f0, t0) :: rest) = f0 :: Dict.keys rest := rfl
    have hform : (Dict.keys ((f0, t0) :: rest)).zip (SingleDep.source cur :: args) ++
        ((Dict.keys ((f0, t0) :: rest)).drop (SingleDep.source cur :: args).length).filterMap
          (fun k => (kwargs.get? k).map (fun d => (k, d))) =
        (f0, SingleDep.source cur) :: ((Dict.keys rest).zip args ++
          ((Dict.keys rest).drop args.length).filterMap (fun k => (kwargs.get? k).map (fun d => (k, d)))) := rfl
    rw [hform]
    have hsel : ∀ p, p ∈ Dict.keys (((Dict.keys rest).drop args.length).filterMap
        (fun k => (kwargs.get? k).map (fun d => (k, d)))) → p ∈ (Dict.keys rest).drop args.length := by
      intro p hm
      obtain ⟨w, hw⟩ := Dict.mem_keys_iff.1 hm
      rw [get?_select] at hw
      by_cases hd : p ∈ (Dict.keys rest).drop args.length
      · exact hd
      · rw [if_neg hd] at hw; cases hw
    have hrest : ∀ p, p ∈ Dict.keys ((Dict.keys rest).zip args ++
        ((Dict.keys rest).drop args.length).filterMap (fun k => (kwargs.get? k).map (fun d => (k, d)))) → p ∈ Dict.keys rest := by
      intro p hm
      simp only [Dict.keys, List.map_append, List.mem_append] at hm
      rcases hm with hm | hm
      · have := hzk _ _ hlen ▸ (show p ∈ Dict.keys ((Dict.keys rest).zip args) from hm)
        exact (List.take_sublist _ _).subset this
      · exact (List.drop_sublist _ _).subset (hsel p hm)
    refine ⟨f0, rfl, ?_, ?_, ?_, ?_, ?_, ?_⟩
    · rw [Dict.keys_cons]
      refine List.nodup_cons.2 ⟨fun h => hp0 (hrest _ h), ?_⟩
      simp only [Dict.keys, List.map_append]
      refine List.nodup_append.2 ⟨hzn, ?_, ?_⟩
      · exact keys_select_nodup kwargs ((List.drop_sublist _ _).nodup hpr)
      · intro a ha b hb he
        subst he
        have h1 : a ∈ (Dict.keys rest).take args.length := hzk _ _ hlen ▸ ha
        have h2 := hsel a hb
        rw [← List.take_append_drop args.length (Dict.keys rest)] at hpr
        exact (List.nodup_append.1 hpr).2.2 a h1 a h2 rfl
    · rw [Dict.get?_cons, if_pos rfl]
    · intro p hpf
      rw [Dict.get?_cons, if_neg (Ne.symm hpf), hbk p hpf]
      rfl
    · intro p d hd
      rw [Dict.get?_cons] at hd
      rw [hb0]
      by_cases hpf : f0 = p
      · simp [hpf]
      · rw [if_neg hpf] at hd
        exact List.mem_cons_of_mem _ (hrest p (Dict.mem_keys_iff.2 ⟨d, hd⟩))
    · intro p d hm he
      subst he
      rw [hb0, List.tail_cons, List.mem_append] at hm
      rcases hm with hm | hm
      · exact hp0 (List.of_mem_zip hm).1
      · exact htake p (.inl rfl) (List.mem_map.2 ⟨_, hm, rfl⟩)
    · intro p t hm hreq hpf
      rw [Dict.get?_cons, if_neg (Ne.symm hpf)]
      have hmr : (p, t) ∈ rest := by
        rcases List.mem_cons.1 hm with h | h
        · cases h; exact absurd rfl hpf
        · exact h
      rw [Dict.get?_append, get?_select]
      cases hz : Dict.get? ((Dict.keys rest).zip args) p with
      | some d => exact ⟨d, rfl⟩
      | none =>
        rw [← List.take_append_drop args.length rest, List.mem_append] at hmr
        rcases hmr with hmr | hmr
        · have : p ∈ (Dict.keys rest).take args.length := by
            rw [Dict.keys, ← List.map_take]; exact List.mem_map.2 ⟨_, hmr, rfl⟩
          obtain ⟨w, hw⟩ := get?_zip_some _ args p hlen this
          rw [hz] at hw; cases hw
        · have h1 : p ∈ (Dict.keys rest).drop args.length := by
            rw [Dict.keys, ← List.map_drop]; exact List.mem_map.2 ⟨_, hmr, rfl⟩
          rw [if_pos h1]
          by_cases hh : kwargs.has p = true
          · obtain ⟨w, hw⟩ := (Dict.has_eq_true_iff _ _).1 hh
            exact ⟨w, by simp [hw]⟩
          · exact absurd (List.any_eq_true.2 ⟨(p, t), hmr, by simp [hreq, hh]⟩) c4

/-! ### One step -/
section
variable {g : Graph T V} {inputs overrides : Dict Name V}

theorem StepArgs.det {a : Applicable T V} {x : V} {kw kw' : Dict Name V} (h : StepArgs g inputs overrides a x kw)
    (h' : StepArgs g inputs overrides a x kw') (k : Name) : kw.get? k = kw'.get? k := by
  by_cases hf : a.fn.inputTypes.keys.head? = some k
  · rw [h.first k hf, h'.first k hf]
  · cases hw : a.written.get? k with
    | none => rw [h.other k hf hw, h'.other k hf hw]
    | some d =>
      cases d with
      | value v => rw [h.literal k v hf hw, h'.literal k v hf hw]
      | source s =>
        obtain ⟨w, h1, h2⟩ := h.source k s hf hw
        obtain ⟨w', h1', h2'⟩ := h'.source k s hf hw
        rw [h2, h2', h1.det h1']

theorem mem_sources {a : Applicable T V} {p s : Name} (h : a.written.get? p = some (.source s)) : s ∈ a.sources :=
  List.mem_filterMap.2 ⟨(p, .source s), Dict.get?_mem h, rfl⟩

/-- The node of a step has the value of the call written in the step. -/
theorem step_value {a : Applicable T V} {cur fnName : Name} {ns : NsArg} {count : Nat} {n : Node T V}
    (hstep : stepNode ns fnName count cur a = .ok n) (hd : Defines g n) (hov : overrides.get? n.name = none)
    (hc : StepClear g inputs overrides cur a) (hcur : ¬ Absent g inputs overrides cur) (y : V) :
    Den g inputs overrides n.name y ↔ ∃ x, Den g inputs overrides cur x ∧
      ∃ kw, StepArgs g inputs overrides a x kw ∧ a.fn.fn kw = .ok y := by
  unfold stepNode Applicable.bindFunctionArgs at hstep
  cases hbind : bindSignature a.fn.inputTypes (.source cur :: a.args) a.kwargs with
  | error e => simp only [hbind] at hstep; cases hstep
  | ok bound =>
  simp only [hbind, Except.ok.injEq] at hstep
  obtain ⟨first, hfirst, hbn, hb0, hbw, hbp, hwf, hreq⟩ := bind_spec hc.params_nodup hbind
  change ∀ p, p ≠ first → bound.get? p = a.written.get? p at hbw
  change ∀ p d, (p, d) ∈ a.written → p ≠ first at hwf
  have hne : ∀ p, a.fn.inputTypes.keys.head? ≠ some p ↔ p ≠ first := by
    intro p; rw [hfirst]; simp [eq_comm]
  have hfp : first ∈ a.fn.inputTypes.keys := List.mem_of_head? hfirst
  -- the sources of the node
  have hsrc : ∀ k s, (upstreamInputs bound).get? k = some s → s ∈ cur :: a.sources := by
    intro k s h
    rw [upstream_get hbn] at h
    by_cases hk : k = first
    · subst hk; rw [hb0] at h; cases h; simp
    · rw [hbw k hk] at h
      exact List.mem_cons_of_mem _ (mem_sources h)
  have hinj : ∀ p q s, (upstreamInputs bound).get? p = some s → (upstreamInputs bound).get? q = some s → p = q := by
    intro p q s h1 h2
    rw [upstream_get hbn] at h1 h2
    have hns := List.nodup_cons.1 hc.sources_nodup
    by_cases hp : p = first
    · by_cases hq : q = first
      · rw [hp, hq]
      · subst hp; rw [hb0] at h1; cases h1
        rw [hbw q hq] at h2
        exact absurd (mem_sources h2) hns.1
    · rw [hbw p hp] at h1
      by_cases hq : q = first
      · subst hq; rw [hb0] at h2; cases h2
        exact absurd (mem_sources h1) hns.1
      · rw [hbw q hq] at h2
        have := filterMap_nodup_inj _ hns.2 (Dict.get?_mem h1) (Dict.get?_mem h2) rfl rfl
        exact congrArg Prod.fst this
  have hrev := fun s k => reverse_get (upstream_nodup hbn) hinj s k
  have hnotabs : ∀ s ∈ cur :: a.sources, ¬ Absent g inputs overrides s := by
    intro s hs
    rcases List.mem_cons.1 hs with rfl | hs
    · exact hcur
    · exact hc.valued s hs
  have hlitw : ∀ l ∈ (literalInputs bound).keys, ∃ v, bound.get? l = some (.value v) ∧ a.written.get? l = some (.value v) ∧
      l ≠ first := by
    intro l hl
    obtain ⟨v, hv⟩ := Dict.mem_keys_iff.1 hl
    rw [literal_get hbn] at hv
    have hlf : l ≠ first := by rintro rfl; rw [hb0] at hv; cases hv
    exact ⟨v, hv, by rw [← hbw l hlf]; exact hv, hlf⟩
  have hback : ∀ k ∈ a.fn.inputTypes.keys, k ∉ (literalInputs bound).keys →
      ((reverseNames (upstreamInputs bound)).get? (tgt (upstreamInputs bound) k)).getD (tgt (upstreamInputs bound) k) = k ∧
        tgt (upstreamInputs bound) k ∉ (literalInputs bound).keys := by
    intro k hk hkl
    cases hu : (upstreamInputs bound).get? k with
    | some s =>
      have ht : tgt (upstreamInputs bound) k = s := by simp [tgt, hu]
      rw [ht, (hrev s k).2 hu]
      refine ⟨rfl, fun hl => ?_⟩
      obtain ⟨v, _, hv, _⟩ := hlitw s hl
      exact hc.literal_apart s (hsrc k s hu) v hv
    | none =>
      have ht : tgt (upstreamInputs bound) k = k := by simp [tgt, hu]
      rw [ht]
      refine ⟨?_, hkl⟩
      cases hr : (reverseNames (upstreamInputs bound)).get? k with
      | none => rfl
      | some j =>
        have hj := (hrev k j).1 hr
        have hbk : bound.get? k = none := by
          cases hb : bound.get? k with
          | none => rfl
          | some d =>
            cases d with
            | value v => exact absurd (Dict.mem_keys_iff.2 ⟨v, (literal_get hbn k v).2 hb⟩) hkl
            | source s => rw [(upstream_get hbn k s).2 hb] at hu; cases hu
        have hkf : k ≠ first := by rintro rfl; rw [hb0] at hbk; cases hbk
        rw [hbw k hkf] at hbk
        exact absurd (hc.unwritten k hk ((hne k).2 hkf) hbk) (hnotabs k (hsrc j k hj))
  have hlit : ∀ l ∈ (literalInputs bound).keys, (reverseNames (upstreamInputs bound)).get? l = none := by
    intro l hl
    cases hr : (reverseNames (upstreamInputs bound)).get? l with
    | none => rfl
    | some j =>
      obtain ⟨v, _, hv, _⟩ := hlitw l hl
      exact absurd hv (hc.literal_apart l (hsrc j l ((hrev l j).1 hr)) v)
  have hargs := fun val => reassign_args hc.params_nodup (literal_nodup hbn) hback hlit val
  have hkind : n.kind ≠ .external := by rw [← hstep]; exact hc.kind
  have hit : n.inputTypes = reassignTypes (upstreamInputs bound) (literalInputs bound) a.fn.inputTypes := by
    rw [← hstep]; rfl
  have hfn : ∀ kw, n.fn kw = a.fn.fn (renameKwargs (reverseNames (upstreamInputs bound)) (kw.merge (literalInputs bound))) := by
    intro kw; rw [← hstep]; rfl
  have htypes : ∀ d t, (d, t) ∈ n.inputTypes ↔ ∃ k, (k, t) ∈ a.fn.inputTypes ∧ k ∉ (literalInputs bound).keys ∧
      d = tgt (upstreamInputs bound) k := by
    intro d t
    rw [hit, (hargs (fun _ => none)).1]
    constructor
    · intro h
      obtain ⟨q, hq, he⟩ := List.mem_map.1 h
      obtain ⟨h1, h2⟩ := List.mem_filter.1 hq
      cases he
      refine ⟨q.1, h1, fun hh => ?_, rfl⟩
      rw [(Dict.has_iff _ _).2 hh] at h2; cases h2
    · rintro ⟨k, h1, h2, rfl⟩
      refine List.mem_map.2 ⟨(k, t), List.mem_filter.2 ⟨h1, ?_⟩, rfl⟩
      cases hh : (literalInputs bound).has k with
      | false => rfl
      | true => exact absurd ((Dict.has_iff _ _).1 hh) h2
  have hfl : first ∉ (literalInputs bound).keys := by
    intro h
    obtain ⟨_, _, _, h⟩ := hlitw first h
    exact h rfl
  have htf : tgt (upstreamInputs bound) first = cur := by simp [tgt, (upstream_get hbn first cur).2 hb0]
  have hfilt : ∀ k, k ∈ Dict.keys (a.fn.inputTypes.filter (fun p => !(literalInputs bound).has p.1)) ↔
      k ∈ a.fn.inputTypes.keys ∧ k ∉ (literalInputs bound).keys := by
    intro k
    constructor
    · intro h
      obtain ⟨q, hq, rfl⟩ := List.mem_map.1 h
      obtain ⟨h1, h2⟩ := List.mem_filter.1 hq
      refine ⟨List.mem_map.2 ⟨q, h1, rfl⟩, fun hh => ?_⟩
      rw [(Dict.has_iff _ _).2 hh] at h2; cases h2
    · rintro ⟨h1, h2⟩
      obtain ⟨q, hq, rfl⟩ := List.mem_map.1 h1
      refine List.mem_map.2 ⟨q, List.mem_filter.2 ⟨hq, ?_⟩, rfl⟩
      cases hh : (literalInputs bound).has q.1 with
      | false => rfl
      | true => exact absurd ((Dict.has_iff _ _).1 hh) h2
  -- what the function of the step is called with
  have hforward : ∀ kw0, RightArgs g inputs overrides n kw0 →
      ∃ x kw, Den g inputs overrides cur x ∧ StepArgs g inputs overrides a x kw ∧ n.fn kw0 = a.fn.fn kw := by
    rintro kw0 ⟨val, h1, h2, rfl⟩
    have hval : ∀ k ∈ a.fn.inputTypes.keys, k ∉ (literalInputs bound).keys →
        (∀ w, val (tgt (upstreamInputs bound) k) = some w → Den g inputs overrides (tgt (upstreamInputs bound) k) w) ∧
        (val (tgt (upstreamInputs bound) k) = none → Absent g inputs overrides (tgt (upstreamInputs bound) k)) := by
      intro k hk hkl
      obtain ⟨q, hq, rfl⟩ := List.mem_map.1 hk
      have hm := (htypes (tgt (upstreamInputs bound) q.1) q.2).2 ⟨q.1, hq, hkl, rfl⟩
      exact ⟨fun w hw => h1 _ w (List.mem_map.2 ⟨_, hm, rfl⟩) hw, fun hn => (h2 _ _ hm hn).2⟩
    obtain ⟨hv1, hv2⟩ := hval first hfp hfl
    rw [htf] at hv1 hv2
    cases hx : val cur with
    | none => exact absurd (hv2 hx) hcur
    | some x =>
    refine ⟨x, _, hv1 x hx, ?_, by rw [hfn, hit, (hargs val).2.2]⟩
    have hg : ∀ k, Dict.get? (argsFor (a.fn.inputTypes.filter (fun p => !(literalInputs bound).has p.1))
        (fun k => val (tgt (upstreamInputs bound) k)) ++ literalInputs bound) k =
        if k ∈ a.fn.inputTypes.keys ∧ k ∉ (literalInputs bound).keys then val (tgt (upstreamInputs bound) k)
        else (literalInputs bound).get? k := by
      intro k
      rw [Dict.get?_append, mem_argsFor_get]
      by_cases hk : k ∈ a.fn.inputTypes.keys ∧ k ∉ (literalInputs bound).keys
      · rw [if_pos ((hfilt k).2 hk), if_pos hk, (Dict.get?_eq_none_iff _ _).2 hk.2]; simp
      · rw [if_neg (fun h => hk ((hfilt k).1 h)), if_neg hk]; simp
    constructor
    · simp only [Dict.keys, List.map_append]
      refine List.nodup_append.2 ⟨?_, literal_nodup hbn, ?_⟩
      · exact (argsFor_keys_sublist _ _).nodup
          (List.Sublist.nodup (List.Sublist.map _ List.filter_sublist) hc.params_nodup)
      · intro p hp q hq he
        exact ((hfilt p).1 ((argsFor_keys_sublist _ _).subset hp)).2 (he ▸ hq)
    · intro p hp
      rw [hfirst] at hp; cases hp
      rw [hg, if_pos ⟨hfp, hfl⟩, htf, hx]
    · intro p v hp hw
      have hpf := (hne p).1 hp
      rw [← hbw p hpf] at hw
      have hl := (literal_get hbn p v).2 hw
      rw [hg, if_neg (fun h => h.2 (Dict.mem_keys_iff.2 ⟨v, hl⟩)), hl]
    · intro p s hp hw
      have hpf := (hne p).1 hp
      have hb := hw
      rw [← hbw p hpf] at hb
      have hpl : p ∉ (literalInputs bound).keys := by
        intro h
        obtain ⟨v, hv, _⟩ := hlitw p h
        rw [hb] at hv; cases hv
      have ht : tgt (upstreamInputs bound) p = s := by simp [tgt, (upstream_get hbn p s).2 hb]
      obtain ⟨w1, w2⟩ := hval p (hbp p _ hb) hpl
      rw [ht] at w1 w2
      rw [hg, if_pos ⟨hbp p _ hb, hpl⟩, ht]
      cases hvs : val s with
      | none => exact absurd (w2 hvs) (hc.valued s (mem_sources hw))
      | some w => exact ⟨w, w1 w hvs, rfl⟩
    · intro p hp hw
      have hpf := (hne p).1 hp
      have hb := hw
      rw [← hbw p hpf] at hb
      have hpl : p ∉ (literalInputs bound).keys := by
        intro h
        obtain ⟨v, hv, _⟩ := hlitw p h
        rw [hb] at hv; cases hv
      have ht : tgt (upstreamInputs bound) p = p := by
        cases hu : (upstreamInputs bound).get? p with
        | none => simp [tgt, hu]
        | some s => rw [upstream_get hbn, hb] at hu; cases hu
      rw [hg]
      by_cases hpp : p ∈ a.fn.inputTypes.keys
      · rw [if_pos ⟨hpp, hpl⟩]
        obtain ⟨w1, _⟩ := hval p hpp hpl
        rw [ht] at w1 ⊢
        cases hvp : val p with
        | none => rfl
        | some w => exact absurd (w1 w hvp) (hc.unwritten p hpp hp hw).not_den
      · rw [if_neg (fun h => hpp h.1), (Dict.get?_eq_none_iff _ _).2 hpl]
  rw [den_iff_fnValue hd hkind hov]
  constructor
  · rintro ⟨kw0, hr, hv⟩
    obtain ⟨x, kw, h1, h2, h3⟩ := hforward kw0 hr
    exact ⟨x, h1, kw, h2, by rw [← h3]; exact hv⟩
  · rintro ⟨x, hx, kw, hs, hv⟩
    have hex : ∃ kw0, RightArgs g inputs overrides n kw0 := by
      classical
      refine ⟨_, fun d => if h : ∃ w, Den g inputs overrides d w then some h.choose else none, ?_, ?_, rfl⟩
      · intro d w _ hw
        simp only at hw
        split at hw
        · rename_i h; cases hw; exact h.choose_spec
        · cases hw
      · intro d t hm hn
        simp only at hn
        split at hn
        · cases hn
        · rename_i hno
          obtain ⟨k, hk, hkl, rfl⟩ := (htypes d t).1 hm
          have hkk : k ∈ a.fn.inputTypes.keys := List.mem_map.2 ⟨_, hk, rfl⟩
          by_cases hkf : k = first
          · subst hkf; rw [htf] at hno; exact absurd ⟨x, hx⟩ hno
          · cases hw : a.written.get? k with
            | some dd =>
              have hb := hw
              rw [← hbw k hkf] at hb
              cases dd with
              | value v => exact absurd (Dict.mem_keys_iff.2 ⟨v, (literal_get hbn k v).2 hb⟩) hkl
              | source s =>
                have ht : tgt (upstreamInputs bound) k = s := by simp [tgt, (upstream_get hbn k s).2 hb]
                obtain ⟨w, h1, _⟩ := hs.source k s ((hne k).2 hkf) hw
                rw [ht] at hno
                exact absurd ⟨w, h1⟩ hno
            | none =>
              have hb := hw
              rw [← hbw k hkf] at hb
              have ht : tgt (upstreamInputs bound) k = k := by
                cases hu : (upstreamInputs bound).get? k with
                | none => simp [tgt, hu]
                | some s => rw [upstream_get hbn, hb] at hu; cases hu
              rw [ht]
              refine ⟨?_, hc.unwritten k hkk ((hne k).2 hkf) hw⟩
              cases ho : t.2 with
              | optional => rfl
              | required =>
                obtain ⟨d, hd⟩ := hreq k t hk ho hkf
                rw [hb] at hd; cases hd
    obtain ⟨kw0, hr⟩ := hex
    obtain ⟨x', kw', h1, h2, h3⟩ := hforward kw0 hr
    have hxx := h1.det hx
    subst hxx
    refine ⟨kw0, hr, ?_⟩
    rw [h3, hc.by_keyword kw' kw h2.nodup hs.nodup (fun k => h2.det hs k)]
    exact hv

theorem Defines.not_absent {n : Node T V} (hd : Defines g n) (hk : n.kind ≠ .external) :
    ¬ Absent g inputs overrides n.name := by
  rintro ⟨m, h1, h2, _⟩
  obtain ⟨m', h1', hs⟩ := hd
  rw [h1] at h1'; cases h1'
  exact hk (hs.kind ▸ h2)

theorem stepNode_kind {ns : NsArg} {fnName cur : Name} {count : Nat} {a : Applicable T V} {n : Node T V}
    (h : stepNode ns fnName count cur a = .ok n) : n.kind = a.fn.kind := by
  unfold stepNode at h
  cases hb : a.bindFunctionArgs cur with
  | error e => simp only [hb] at h; cases h
  | ok b => simp only [hb, Except.ok.injEq] at h; rw [← h]; rfl

theorem stepNode_name {ns : NsArg} {fnName cur : Name} {count : Nat} {a : Applicable T V} {n : Node T V}
    (h : stepNode ns fnName count cur a = .ok n) : n.name = stepPrefix ns a.ns fnName ++ stepBaseName a count := by
  unfold stepNode at h
  cases hb : a.bindFunctionArgs cur with
  | error e => simp only [hb] at h; cases h
  | ok b =>
    simp only [hb, Except.ok.injEq] at h
    rw [← h]
    change inNs (stepNs ns a) fnName (a.name.getD (autoName a.fn.name count)) = _
    have hbase : a.name.getD (autoName a.fn.name count) = stepBaseName a count := by
      unfold stepBaseName autoName
      cases a.name with
      | some m => rfl
      | none =>
        simp only [Option.getD_none]
        by_cases h1 : a.fn.name.startsWith "_" = true <;> by_cases h2 : count = 0 <;>
          simp [h1, h2, String.append_assoc]
        all_goals rfl
    rw [hbase]
    cases ns <;> cases hns : a.ns <;> simp [inNs, stepNs, stepPrefix, hns, Applicable.namespaced]

/-- The nodes of a chain: one per active step, called by the documented names. -/
theorem chain_names {ns : NsArg} {config : Dict Name V} {fnName : Name} : ∀ {steps : List (Applicable T V)} {cur : Name}
    {counts : Dict Name Nat} {before : List Name} {r : List (Node T V) × Name},
    (∀ f, (counts.get? f).getD 0 = before.count f) → chainTransforms ns config fnName steps cur counts = .ok r →
    r.1.map (·.name) = chainNames ns fnName before (activeSteps config steps) ∧
      r.2 = (r.1.map (·.name)).getLast?.getD cur := by
  intro steps
  induction steps with
  | nil => intro cur counts before r _ h; cases h; exact ⟨rfl, rfl⟩
  | cons a as ih =>
    intro cur counts before r hc h
    simp only [chainTransforms] at h
    by_cases ha : a.resolves config = true
    · have hact : activeSteps config (a :: as) = a :: activeSteps config as := by
        unfold Applicable.resolves at ha
        simp only [activeSteps]; rw [List.filter_cons, if_pos ha]
      rw [if_pos ha] at h
      cases hs : stepNode ns fnName ((counts.get? a.fn.name).getD 0) cur a with
      | error e => simp only [hs] at h; cases h
      | ok n =>
        simp only [hs] at h
        cases hr : chainTransforms ns config fnName as n.name
            (counts.set a.fn.name ((counts.get? a.fn.name).getD 0 + 1)) with
        | error e => simp only [hr] at h; cases h
        | ok r' =>
          simp only [hr, Except.ok.injEq] at h
          subst h
          have := ih (before := before ++ [a.fn.name]) (by
            intro f
            rw [Dict.get?_set, List.count_append]
            by_cases hf : a.fn.name = f
            · subst hf; simp [hc]
            · rw [if_neg hf, hc]; simp [hf]) hr
          obtain ⟨h1, h2⟩ := this
          rw [hact]
          refine ⟨?_, ?_⟩
          · simp only [chainNames, List.map_cons, h1, stepNode_name hs, hc]
          · rw [h2]
            simp only [List.map_cons]
            cases hl : r'.1.map (·.name) with
            | nil => simp
            | cons x xs => simp [List.getLast?_cons]
    · have hact : activeSteps config (a :: as) = activeSteps config as := by
        unfold Applicable.resolves at ha
        simp only [activeSteps]; rw [List.filter_cons, if_neg ha]
      rw [if_neg ha] at h
      rw [hact]
      exact ih hc h

/-- The values of the nodes of a chain. -/
theorem chain_value {ns : NsArg} {config : Dict Name V} {fnName : Name} : ∀ {steps : List (Applicable T V)} {cur : Name}
    {counts : Dict Name Nat} {r : List (Node T V) × Name},
    chainTransforms ns config fnName steps cur counts = .ok r → (∀ m ∈ r.1, Defines g m) →
    (∀ m ∈ r.1, overrides.get? m.name = none) →
    ChainClear g inputs overrides cur (activeSteps config steps) (r.1.map (·.name)) → ¬ Absent g inputs overrides cur →
    (∀ v, Den g inputs overrides r.2 v ↔
      ∃ x, Den g inputs overrides cur x ∧ ChainValue g inputs overrides (activeSteps config steps) x v) ∧
    ¬ Absent g inputs overrides r.2 ∧ r.1.length = (activeSteps config steps).length ∧
    ∀ i m, r.1[i]? = some m → ∀ v, Den g inputs overrides m.name v ↔
      ∃ x, Den g inputs overrides cur x ∧ ChainValue g inputs overrides ((activeSteps config steps).take (i + 1)) x v := by
  intro steps
  induction steps with
  | nil =>
    intro cur counts r h _ _ _ hcur
    cases h
    refine ⟨?_, hcur, rfl, ?_⟩
    · intro v
      constructor
      · intro h; exact ⟨v, h, rfl⟩
      · rintro ⟨x, h1, rfl⟩; exact h1
    · intro i m hm; simp at hm
  | cons a as ih =>
    intro cur counts r h hd hov hcl hcur
    simp only [chainTransforms] at h
    by_cases ha : a.resolves config = true
    · have hact : activeSteps config (a :: as) = a :: activeSteps config as := by
        unfold Applicable.resolves at ha
        simp only [activeSteps]; rw [List.filter_cons, if_pos ha]
      rw [if_pos ha] at h
      cases hs : stepNode ns fnName ((counts.get? a.fn.name).getD 0) cur a with
      | error e => simp only [hs] at h; cases h
      | ok n =>
        simp only [hs] at h
        cases hr : chainTransforms ns config fnName as n.name
            (counts.set a.fn.name ((counts.get? a.fn.name).getD 0 + 1)) with
        | error e => simp only [hr] at h; cases h
        | ok r' =>
          simp only [hr, Except.ok.injEq] at h
          subst h
          rw [hact] at hcl ⊢
          obtain ⟨hcl1, hcl2⟩ := hcl
          have hdn := hd n (by simp)
          have hkn : n.kind ≠ .external := by rw [stepNode_kind hs]; exact hcl1.kind
          obtain ⟨i1, i2, i3, i4⟩ := ih hr (fun m hm => hd m (by simp [hm])) (fun m hm => hov m (by simp [hm])) hcl2
            (hdn.not_absent hkn)
          have hsv := fun y => step_value hs hdn (hov n (by simp)) hcl1 hcur y
          have hcons : ∀ (l : List (Applicable T V)) v, (∃ x, Den g inputs overrides n.name x ∧ ChainValue g inputs overrides l x v) ↔
              ∃ x, Den g inputs overrides cur x ∧ ChainValue g inputs overrides (a :: l) x v := by
            intro l v
            constructor
            · rintro ⟨y, h1, h2⟩
              obtain ⟨x, hx, hk⟩ := (hsv y).1 h1
              exact ⟨x, hx, y, hk, h2⟩
            · rintro ⟨x, hx, y, hk, h2⟩
              exact ⟨y, (hsv y).2 ⟨x, hx, hk⟩, h2⟩
          refine ⟨?_, i2, by simp [i3], ?_⟩
          · intro v; rw [i1 v, hcons]
          · intro i m hm v
            cases i with
            | zero =>
              simp only [List.getElem?_cons_zero, Option.some.injEq] at hm
              subst hm
              simp only [Nat.zero_add, List.take_succ_cons, List.take_zero]
              rw [← hcons [] v]
              constructor
              · intro h; exact ⟨v, h, rfl⟩
              · rintro ⟨x, h1, rfl⟩; exact h1
            | succ i =>
              simp only [List.getElem?_cons_succ] at hm
              rw [i4 i m hm v, hcons]
              rfl
    · have hact : activeSteps config (a :: as) = activeSteps config as := by
        unfold Applicable.resolves at ha
        simp only [activeSteps]; rw [List.filter_cons, if_neg ha]
      rw [if_neg ha] at h
      rw [hact] at hcl ⊢
      exact ih h hd hov hcl hcur

theorem filterMap_congr_mem {A B : Type} {f f' : A → Option B} : ∀ {l : List A}, (∀ x ∈ l, f x = f' x) →
    l.filterMap f = l.filterMap f' := by
  intro l
  induction l with
  | nil => intro _; rfl
  | cons x xs ih =>
    intro h
    rw [List.filterMap_cons, List.filterMap_cons, h x (by simp), ih (fun y hy => h y (by simp [hy]))]

/-- A node one of whose inputs is renamed to another node. -/
theorem injected_value {n : Node T V} {p last : Name} {R : V → Prop} (hn : n.inputTypes.keys.Nodup)
    (hp : p ∈ n.inputTypes.keys) (hlast : last ≠ p → last ∉ n.inputTypes.keys) (habs : ¬ Absent g inputs overrides last)
    (hval : ∀ v, Den g inputs overrides last v ↔ R v) (v : V) :
    FnValue g inputs overrides (reassignInputs [(p, last)] [] n) v ↔ InjectedValue g inputs overrides n p R v := by
  have ht : ∀ k, tgt [(p, last)] k = if p = k then last else k := by
    intro k
    unfold tgt
    rw [Dict.get?_cons]
    by_cases h : p = k <;> simp [h]
  have hrev : ∀ k, (reverseNames [(p, last)]).get? k = if last = k then some p else none := by
    intro k
    simp only [reverseNames, List.foldl_cons, List.foldl_nil]
    rw [Dict.get?_set]; rfl
  have hback : ∀ k ∈ n.inputTypes.keys, k ∉ Dict.keys ([] : Dict Name V) →
      ((reverseNames [(p, last)]).get? (tgt [(p, last)] k)).getD (tgt [(p, last)] k) = k ∧
        tgt [(p, last)] k ∉ Dict.keys ([] : Dict Name V) := by
    intro k hk _
    refine ⟨?_, by simp [Dict.keys]⟩
    rw [ht, hrev]
    by_cases h : p = k
    · simp [h]
    · rw [if_neg h]
      by_cases h2 : last = k
      · subst h2
        exact absurd hk (hlast (fun e => h e.symm))
      · simp [h2]
  have hargs := fun val => reassign_args (values := ([] : Dict Name V)) hn (by simp [Dict.keys]) hback
    (by simp [Dict.keys]) val
  have hfil : n.inputTypes.filter (fun p => !Dict.has ([] : Dict Name V) p.1) = n.inputTypes := by
    rw [List.filter_eq_self]; intro _ _; rfl
  rw [hfil] at hargs
  have hit : (reassignInputs [(p, last)] ([] : Dict Name V) n).inputTypes =
      n.inputTypes.map (fun q => (tgt [(p, last)] q.1, q.2)) := (hargs (fun _ => none)).1
  have hfn : ∀ val, (reassignInputs [(p, last)] ([] : Dict Name V) n).fn
      (argsFor (reassignInputs [(p, last)] ([] : Dict Name V) n).inputTypes val) =
      n.fn (argsFor n.inputTypes (fun k => val (tgt [(p, last)] k))) := by
    intro val
    change n.fn (renameKwargs _ ((argsFor (reassignTypes [(p, last)] [] n.inputTypes) val).merge [])) = _
    rw [(hargs val).2.2]; simp
  have hmem : ∀ d t, (d, t) ∈ (reassignInputs [(p, last)] ([] : Dict Name V) n).inputTypes ↔
      ∃ k, (k, t) ∈ n.inputTypes ∧ d = tgt [(p, last)] k := by
    intro d t
    rw [hit]
    constructor
    · intro h
      obtain ⟨q, hq, he⟩ := List.mem_map.1 h
      cases he
      exact ⟨q.1, hq, rfl⟩
    · rintro ⟨k, hk, rfl⟩
      exact List.mem_map.2 ⟨_, hk, rfl⟩
  constructor
  · rintro ⟨kw, ⟨val, h1, h2, rfl⟩, hv⟩
    rw [hfn] at hv
    obtain ⟨q, hq, hqp⟩ := List.mem_map.1 hp
    have hql : (last, q.2) ∈ (reassignInputs [(p, last)] ([] : Dict Name V) n).inputTypes :=
      (hmem _ _).2 ⟨q.1, hq, by rw [ht, hqp]; simp⟩
    refine ⟨fun k => val (tgt [(p, last)] k), ?_, ?_, ?_, hv⟩
    · cases hl : val last with
      | none => exact absurd (h2 _ _ hql hl).2 habs
      | some y =>
        refine ⟨y, (hval y).1 (h1 last y (List.mem_map.2 ⟨_, hql, rfl⟩) hl), ?_⟩
        show val (tgt [(p, last)] p) = _
        rw [ht]; simp [hl]
    · intro d w hd hne hw
      have hd' : tgt [(p, last)] d = d := by rw [ht, if_neg (Ne.symm hne)]
      simp only [hd'] at hw
      obtain ⟨q', hq', rfl⟩ := List.mem_map.1 hd
      exact h1 _ w (List.mem_map.2 ⟨_, (hmem _ q'.2).2 ⟨_, hq', hd'.symm⟩, rfl⟩) hw
    · intro d t hd hne hw
      have hd' : tgt [(p, last)] d = d := by rw [ht, if_neg (Ne.symm hne)]
      simp only [hd'] at hw
      exact h2 d t ((hmem _ _).2 ⟨d, hd, hd'.symm⟩) hw
  · rintro ⟨val, ⟨y, hy0, hy⟩, h1, h2, hv⟩
    have hlk : ∀ k ∈ n.inputTypes.keys, k ≠ p → k ≠ last := by
      rintro k hk hne rfl
      exact hlast hne hk
    have hval' : ∀ k ∈ n.inputTypes.keys,
        (fun d => if d = last then some y else val d) (tgt [(p, last)] k) = val k := by
      intro k hk
      simp only [ht]
      by_cases h : p = k
      · subst h; simp [hy]
      · rw [if_neg h, if_neg (hlk k hk (Ne.symm h))]
    refine ⟨_, ⟨fun d => if d = last then some y else val d, ?_, ?_, rfl⟩, ?_⟩
    · intro d w hd hw
      obtain ⟨q, hq, rfl⟩ := List.mem_map.1 hd
      obtain ⟨k, hk, he⟩ := (hmem _ _).1 hq
      rw [ht] at he
      simp only at hw
      by_cases h : p = k
      · rw [if_pos h] at he
        rw [he, if_pos rfl] at hw; cases hw
        rw [he]
        exact (hval y).2 hy0
      · rw [if_neg h] at he
        have hkk : k ∈ n.inputTypes.keys := List.mem_map.2 ⟨_, hk, rfl⟩
        rw [he, if_neg (hlk k hkk (Ne.symm h))] at hw
        rw [he]
        exact h1 k w hkk (Ne.symm h) hw
    · intro d t hd hw
      obtain ⟨k, hk, he⟩ := (hmem _ _).1 hd
      rw [ht] at he
      simp only at hw
      by_cases h : p = k
      · rw [if_pos h] at he
        rw [he, if_pos rfl] at hw; cases hw
      · rw [if_neg h] at he
        have hkk : k ∈ n.inputTypes.keys := List.mem_map.2 ⟨_, hk, rfl⟩
        rw [he, if_neg (hlk k hkk (Ne.symm h))] at hw
        rw [he]
        exact h2 k t hk (Ne.symm h) hw
    · rw [hfn]
      have : argsFor n.inputTypes (fun k => (fun d => if d = last then some y else val d) (tgt [(p, last)] k)) =
          argsFor n.inputTypes val := by
        unfold argsFor
        refine filterMap_congr_mem ?_
        intro q hq
        rw [hval' q.1 (List.mem_map.2 ⟨_, hq, rfl⟩)]
      rw [this]; exact hv

/-- A node one of whose inputs is renamed to a node that carries the piped value. -/
theorem piped_value {n : Node T V} {p last : Name} {steps : List (Applicable T V)} (hn : n.inputTypes.keys.Nodup)
    (hp : p ∈ n.inputTypes.keys) (hlast : last ≠ p → last ∉ n.inputTypes.keys) (habs : ¬ Absent g inputs overrides last)
    (hval : ∀ v, Den g inputs overrides last v ↔
      ∃ x, Den g inputs overrides p x ∧ ChainValue g inputs overrides steps x v) (v : V) :
    FnValue g inputs overrides (reassignInputs [(p, last)] [] n) v ↔ PipedValue g inputs overrides n p steps v := by
  rw [injected_value hn hp hlast habs hval]
  constructor
  · rintro ⟨val, ⟨y, ⟨x, hx1, hx2⟩, hy⟩, h⟩
    exact ⟨val, ⟨x, y, hx1, hx2, hy⟩, h⟩
  · rintro ⟨val, ⟨x, y, hx1, hx2, hy⟩, h⟩
    exact ⟨val, ⟨y, ⟨x, hx1, hx2⟩, hy⟩, h⟩

theorem chain_append {ns : NsArg} {config : Dict Name V} {fnName : Name} {z : Applicable T V} :
    ∀ {steps : List (Applicable T V)} {cur : Name} {counts : Dict Name Nat} {r : List (Node T V) × Name},
    chainTransforms ns config fnName (steps ++ [z]) cur counts = .ok r → z.resolvers = [] →
    ∃ r' counts' m, chainTransforms ns config fnName steps cur counts = .ok r' ∧
      stepNode ns fnName counts' r'.2 z = .ok m ∧ r = (r'.1 ++ [m], m.name) := by
  intro steps
  induction steps with
  | nil =>
    intro cur counts r h hz
    simp only [List.nil_append, chainTransforms, Applicable.resolves, hz, List.all_nil, if_true] at h
    cases hs : stepNode ns fnName ((counts.get? z.fn.name).getD 0) cur z with
    | error e => simp only [hs] at h; cases h
    | ok n =>
      simp only [hs, Except.ok.injEq] at h
      exact ⟨([], cur), _, n, rfl, hs, h.symm⟩
  | cons a as ih =>
    intro cur counts r h hz
    simp only [List.cons_append, chainTransforms] at h ⊢
    by_cases ha : a.resolves config = true
    · simp only [if_pos ha] at h ⊢
      cases hs : stepNode ns fnName ((counts.get? a.fn.name).getD 0) cur a with
      | error e => simp only [hs] at h; cases h
      | ok n =>
        simp only [hs] at h ⊢
        cases hr : chainTransforms ns config fnName (as ++ [z]) n.name
            (counts.set a.fn.name ((counts.get? a.fn.name).getD 0 + 1)) with
        | error e => simp only [hr] at h; cases h
        | ok r1 =>
          simp only [hr, Except.ok.injEq] at h
          obtain ⟨r', c', m, h1, h2, h3⟩ := ih hr hz
          refine ⟨(n :: r'.1, r'.2), c', m, ?_, h2, ?_⟩
          · simp only [h1]
          · rw [← h, h3]; rfl
    · simp only [if_neg ha] at h ⊢
      exact ih h hz

/-- The closing step of a `@pipe_output`. -/
theorem identity_value {any : T} {ns : NsArg} {fnName nm cur : Name} {count : Nat} {m : Node T V}
    (h : stepNode ns fnName count cur ((pipeStep (identityFn any : Node T V) [] []).named nm .ellipsis) = .ok m) (v : V) :
    FnValue g inputs overrides m v ↔ Den g inputs overrides cur v := by
  have hm : m = reassignInputs [("foo", cur)] []
      { (identityFn any : Node T V) with name := inNs (stepNs ns ((pipeStep (identityFn any : Node T V) [] []).named nm .ellipsis)) fnName nm } := by
    have : stepNode ns fnName count cur ((pipeStep (identityFn any : Node T V) [] []).named nm .ellipsis) =
        .ok (reassignInputs [("foo", cur)] [] { (identityFn any : Node T V) with
          name := inNs (stepNs ns ((pipeStep (identityFn any : Node T V) [] []).named nm .ellipsis)) fnName nm }) := rfl
    rw [h] at this
    exact Except.ok.inj this
  have hi : m.inputTypes = [(cur, (any, .required))] := by rw [hm]; rfl
  have hf : ∀ w, m.fn [(cur, w)] = .ok w := by
    intro w
    rw [hm]
    change (identityFn any : Node T V).fn (renameKwargs (reverseNames [("foo", cur)]) [(cur, w)]) = _
    simp [identityFn, renameKwargs, reverseNames, Dict.set, Dict.get?]
  constructor
  · rintro ⟨kw, hr, hv⟩
    obtain ⟨w, hw, rfl⟩ := (rightArgs_single hi kw).1 hr
    rw [hf] at hv; cases hv
    exact hw
  · intro hd
    exact ⟨_, (rightArgs_single hi _).2 ⟨v, hd, rfl⟩, hf v⟩

theorem identity_kind {any : T} {ns : NsArg} {fnName nm cur : Name} {count : Nat} {m : Node T V}
    (h : stepNode ns fnName count cur ((pipeStep (identityFn any : Node T V) [] []).named nm .ellipsis) = .ok m) :
    m.kind = .standard := stepNode_kind h

theorem chainValue_append : ∀ (l l' : List (Applicable T V)) (x v : V),
    ChainValue g inputs overrides (l ++ l') x v ↔
      ∃ y, ChainValue g inputs overrides l x y ∧ ChainValue g inputs overrides l' y v := by
  intro l
  induction l with
  | nil =>
    intro l' x v
    constructor
    · intro h; exact ⟨x, rfl, h⟩
    · rintro ⟨y, rfl, h⟩; exact h
  | cons a l ih =>
    intro l' x v
    constructor
    · rintro ⟨y, hk, h⟩
      obtain ⟨z, h1, h2⟩ := (ih l' y v).1 h
      exact ⟨z, ⟨y, hk, h1⟩, h2⟩
    · rintro ⟨z, ⟨y, hk, h1⟩, h2⟩
      exact ⟨y, hk, (ih l' y v).2 ⟨z, h1, h2⟩⟩
end

end Verif
