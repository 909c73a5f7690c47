import Verif.Spec.Tracing

/-! Lemmas for C84: the invariant of distributed traces. -/
namespace Verif.Tracing

theorem begun_snoc (es : List Ev) (e : Ev) : begun (es ++ [e]) = begun es ++ (began e).toList := by
  unfold begun
  rw [List.filterMap_append]
  cases h : began e <;> simp [h]

theorem done_of_began {e : Ev} {k : Key} (h : began e = some k) : done e = none := by cases e <;> first | rfl | cases h

theorem began_of_done {e : Ev} {k : Key × Option UserErr} (h : done e = some k) : began e = none := by
  cases e <;> first | rfl | cases h

theorem idxOf?_append {α : Type} [DecidableEq α] (l l' : List α) (x : α) :
    (l ++ l').idxOf? x = (l.idxOf? x).or ((l'.idxOf? x).map (· + l.length)) := by
  induction l with
  | nil => simp
  | cons a l ih =>
    rw [List.cons_append, List.idxOf?_cons, List.idxOf?_cons, ih]
    by_cases h : (a == x) = true
    · rw [if_pos h, if_pos h]; rfl
    · rw [if_neg h, if_neg h]
      cases l.idxOf? x with
      | some i => rfl
      | none => cases l'.idxOf? x <;> simp <;> omega

theorem place_snoc (es : List Ev) (e : Ev) (k : Key) :
    place (es ++ [e]) k = (place es k).or (if began e = some k then some (begun es).length else none) := by
  unfold place
  rw [begun_snoc, idxOf?_append]
  cases h : began e with
  | none => simp
  | some k' =>
    by_cases hk : k' = k
    · subst hk; simp [List.idxOf?_cons]
    · simp [List.idxOf?_cons, hk]

theorem place_none {es : List Ev} {k : Key} : place es k = none ↔ k ∉ begun es := List.idxOf?_eq_none_iff

theorem place_mem {es : List Ev} {k : Key} (h : k ∈ begun es) : ∃ i, place es k = some i := by
  cases hp : place es k with
  | some i => exact ⟨i, rfl⟩
  | none => exact absurd h (place_none.1 hp)

theorem place_same {es : List Ev} {e : Ev} {k : Key} (h : began e ≠ some k) : place (es ++ [e]) k = place es k := by
  rw [place_snoc, if_neg h, Option.or_none]

theorem place_mono {es : List Ev} {e : Ev} {k : Key} {i : Nat} (h : place es k = some i) : place (es ++ [e]) k = some i := by
  rw [place_snoc, h]; rfl

theorem place_new {es : List Ev} {e : Ev} {k : Key} (hk : k ∉ begun es) (h : began e = some k) :
    place (es ++ [e]) k = some (begun es).length := by
  rw [place_snoc, place_none.2 hk, if_pos h]; rfl

theorem open_snoc (es : List Ev) (e : Ev) (k : Key) :
    Open k (es ++ [e]) ↔ (k ∈ begun es ∨ began e = some k) ∧ (∀ err, (k, err) ∉ es.filterMap done) ∧ ∀ err, done e ≠ some (k, err) := by
  unfold Open
  rw [begun_snoc, List.filterMap_append]
  cases h : done e with
  | none =>
    simp only [List.mem_append, Option.mem_toList, List.filterMap_cons, h, List.filterMap_nil]
    simp
  | some q =>
    simp only [List.mem_append, Option.mem_toList, List.filterMap_cons, h, List.filterMap_nil]
    simp only [List.mem_singleton, not_or, ne_eq, Option.some.injEq]
    constructor
    · rintro ⟨h1, h2⟩
      exact ⟨h1, fun err => (h2 err).1, fun err he => (h2 err).2 he.symm⟩
    · rintro ⟨h1, h2, h3⟩
      exact ⟨h1, fun err => ⟨h2 err, fun he => h3 err he.symm⟩⟩

theorem ending_snoc (post : List Ev) (e : Ev) (k : Key) :
    ending (post ++ [e]) k = (ending post k).or ((done e).bind (fun p => if p.1 = k then some p.2 else none)) := by
  unfold ending
  rw [List.filterMap_append, List.find?_append]
  cases h : done e with
  | none => simp [h]
  | some q =>
    by_cases hk : q.1 = k
    · simp only [List.filterMap_cons, h, List.filterMap_nil, List.find?_cons, hk, decide_true, Option.bind_some, if_true]
      cases List.find? (fun p => decide (p.1 = k)) (List.filterMap done post) <;> rfl
    · simp only [List.filterMap_cons, h, List.filterMap_nil, List.find?_cons, hk, decide_false, Option.bind_some, if_false,
        List.find?_nil, Option.or_none]

theorem snoc_split {α : Type} {es pre post : List α} {e e' : α} (h : es ++ [e] = pre ++ e' :: post) :
    (es = pre ∧ e = e' ∧ post = []) ∨ ∃ post', post = post' ++ [e] ∧ es = pre ++ e' :: post' := by
  rcases List.eq_nil_or_concat post with hp | ⟨post', x, hp⟩
  · subst hp
    have := List.append_inj' h rfl
    exact .inl ⟨this.1, by simpa using this.2, rfl⟩
  · rw [List.concat_eq_append] at hp
    subst hp
    have h' : es ++ [e] = (pre ++ e' :: post') ++ [x] := by simpa using h
    have := List.append_inj' h' rfl
    have hx : e = x := by simpa using this.2
    subst hx
    exact .inr ⟨post', rfl, this.1⟩

theorem Valid.of_snoc {es : List Ev} {e : Ev} (h : Valid (es ++ [e])) : Valid es ∧ Allowed es e := by
  refine ⟨fun pre x post he => ?_, h es e [] rfl⟩
  exact h pre x (post ++ [e]) (by rw [he]; simp)

/-! ### Spans -/

theorem mirrors_begin {root : String} {causal : Bool} {es : List Ev} {w : List Span} (hm : Mirrors root causal es w) {e : Ev} {k : Key}
    {s : Span} (hb : began e = some k) (hs : expected root causal es e = some s) (hf : s.finished = none) :
    Mirrors root causal (es ++ [e]) (w ++ [s]) := by
  obtain ⟨hl, ha⟩ := hm
  refine ⟨by rw [begun_snoc, hb]; simp [hl], ?_⟩
  intro pre e' post k' he hk'
  rcases snoc_split he with ⟨h1, h2, h3⟩ | ⟨post', h1, h2⟩
  · subst h1; subst h2; subst h3
    refine ⟨s, hs, ?_⟩
    rw [← hl, List.getElem?_concat_length]
    cases s
    simp only at hf
    subst hf
    rfl
  · obtain ⟨s', hs', hw'⟩ := ha pre e' post' k' h2 hk'
    refine ⟨s', hs', ?_⟩
    subst h1
    rw [ending_snoc, done_of_began hb]
    rw [List.getElem?_append_left ((List.getElem?_eq_some_iff.1 hw').1), hw']
    simp

theorem place_pre {es pre post : List Ev} {e : Ev} {k : Key} {i : Nat} (hn : (begun es).Nodup) (he : es = pre ++ e :: post)
    (hk : began e = some k) (hi : place es k = some i) : i = (begun pre).length := by
  have hb : begun es = begun pre ++ k :: begun post := by
    rw [he]; unfold begun; rw [List.filterMap_append, List.filterMap_cons_some hk]
  have hk0 : k ∉ begun pre := by
    intro hmem
    rw [hb, List.nodup_append] at hn
    exact hn.2.2 k hmem k (List.mem_cons_self ..) rfl
  have hi' : (begun es).idxOf? k = some i := hi
  rw [hb, idxOf?_append, List.idxOf?_eq_none_iff.2 hk0, List.idxOf?_cons] at hi'
  simpa [eq_comm] using hi'

theorem begun_at {es : List Ev} {k : Key} (h : k ∈ begun es) : ∃ pre e post, es = pre ++ e :: post ∧ began e = some k := by
  unfold begun at h
  obtain ⟨e, he, hk⟩ := List.mem_filterMap.1 h
  obtain ⟨pre, post, hp⟩ := List.append_of_mem he
  exact ⟨pre, e, post, hp, hk⟩

theorem ending_none {post : List Ev} {k : Key} (h : ∀ err, (k, err) ∉ post.filterMap done) : ending post k = none := by
  unfold ending
  rw [Option.map_eq_none_iff, List.find?_eq_none]
  rintro ⟨k', err⟩ hmem
  simp only [decide_eq_true_eq]
  intro hk
  subst hk
  exact h err hmem

theorem mirrors_end {root : String} {causal : Bool} {es : List Ev} {w : List Span} (hm : Mirrors root causal es w)
    (hn : (begun es).Nodup) {e : Ev} {k : Key} {err : Option UserErr} {i : Nat} (hd : done e = some (k, err)) (hi : place es k = some i)
    (ho : Open k es) : Mirrors root causal (es ++ [e]) (finishSpan w i err) := by
  obtain ⟨hl, ha⟩ := hm
  unfold finishSpan
  refine ⟨by rw [begun_snoc, began_of_done hd]; simp [hl], ?_⟩
  intro pre e' post k' he hk'
  rcases snoc_split he with ⟨h1, h2, h3⟩ | ⟨post', h1, h2⟩
  · subst h2
    rw [began_of_done hd] at hk'
    cases hk'
  · obtain ⟨s', hs', hw'⟩ := ha pre e' post' k' h2 hk'
    refine ⟨s', hs', ?_⟩
    subst h1
    rw [ending_snoc, hd]
    by_cases hkk : k = k'
    · subst hkk
      have hip := place_pre hn h2 hk' hi
      subst hip
      rw [List.getElem?_modify_eq, hw']
      have : ending post' k = none := by
        refine ending_none (fun err' hmem => ho.2 err' ?_)
        rw [h2, List.filterMap_append]
        refine List.mem_append_right _ ?_
        rw [List.filterMap_cons_none (done_of_began hk')]
        exact hmem
      simp [this]
    · have hne : (begun pre).length ≠ i := by
        intro h
        subst h
        obtain ⟨pre2, e2, post2, hes2, hk2⟩ := begun_at ho.1
        have hip := place_pre hn hes2 hk2 hi
        have hg : (begun es)[(begun pre).length]? = some k' := by
          rw [h2]; unfold begun; rw [List.filterMap_append, List.filterMap_cons_some hk']; simp
        have hg2 : (begun es)[(begun pre2).length]? = some k := by
          rw [hes2]; unfold begun; rw [List.filterMap_append, List.filterMap_cons_some hk2]; simp
        rw [hip, hg2] at hg
        exact hkk (Option.some.inj hg)
      have hne' : ¬ i = (begun pre).length := fun h => hne h.symm
      rw [List.getElem?_modify, hw']
      simp [hkk, hne']

/-! ### The invariant -/

/-- What the caches know about a run and its nodes in (or outside) a task. -/
structure Knows (d : Dd) (es : List Ev) (r : Name) (t : Option Name) : Prop where
  run : ∃ i, place es (.run r) = some i ∧ d.runs.get? r = some i
  task : ∃ ts, d.tasks.get? r = some ts ∧ ∀ t', t = some t' → ts.get? t' = place es (.task r t')
  node : ∃ ns, d.nodes.get? r = some ns ∧ ∀ n, ns.get? (t, n) = place es (.node r t n)

theorem Knows.mono {d d' : Dd} {es : List Ev} {e : Ev} {r : Name} {t : Option Name} (h : Knows d es r t)
    (h1 : d'.runs.get? r = d.runs.get? r) (h2 : d'.tasks.get? r = d.tasks.get? r) (h3 : d'.nodes.get? r = d.nodes.get? r)
    (hr : ∀ t', t = some t' → began e ≠ some (.task r t')) (hn : ∀ n, began e ≠ some (.node r t n)) :
    Knows d' (es ++ [e]) r t := by
  obtain ⟨⟨i, hi, hi'⟩, ⟨ts, hts, hts'⟩, ns, hns, hns'⟩ := h
  exact ⟨⟨i, place_mono hi, by rw [h1]; exact hi'⟩, ⟨ts, by rw [h2]; exact hts, fun t' ht' => by rw [hts' t' ht', place_same (hr t' ht')]⟩,
    ns, by rw [h3]; exact hns, fun n => by rw [hns' n, place_same (hn n)]⟩

structure Inv (root : String) (causal : Bool) (home : Name → Option Name → Nat) (as : List Act) (W : Nat → Dd) (w : List Span) :
    Prop where
  mirrors : Mirrors root causal (events as) w
  nodup : (begun (events as)).Nodup
  under : (∀ r t, .task r t ∈ begun (events as) → .run r ∈ begun (events as)) ∧
    ∀ r t n, .node r t n ∈ begun (events as) → .run r ∈ begun (events as)
  const : ∀ p, (W p).rootName = root ∧ (W p).causal = causal
  mainOpen : ∀ r, Open (.run r) (events as) → (∃ i, place (events as) (.run r) = some i ∧ (W 0).runs.get? r = some i) ∧
    (∃ ts, (W 0).tasks.get? r = some ts) ∧ ∃ ns, (W 0).nodes.get? r = some ns
  mainClosed : ∀ r, ¬ Open (.run r) (events as) →
    (W 0).runs.get? r = none ∧ (W 0).tasks.get? r = none ∧ (W 0).nodes.get? r = none
  sound : ∀ r ts t i, (W 0).tasks.get? r = some ts → ts.get? t = some i → place (events as) (.task r t) = some i
  knows : ∀ r t, (home r t = 0 ∨ Sent as (home r t) r) → Open (.run r) (events as) → Knows (W (home r t)) (events as) r t

theorem events_hook (as : List Act) (p : Nat) (e : Ev) : events (as ++ [.hook p e]) = events as ++ [e] := by
  unfold events; rw [List.filterMap_append]; rfl

theorem events_fork (as : List Act) (p : Nat) : events (as ++ [.fork p]) = events as := by
  unfold events; rw [List.filterMap_append]; exact List.append_nil _

theorem sent_hook {as : List Act} {p q : Nat} {e : Ev} {r : Name} (h : Sent (as ++ [.hook p e]) q r) : Sent as q r := by
  obtain ⟨a, b, hab, ho⟩ := h
  rcases snoc_split hab with ⟨_, h2, _⟩ | ⟨post', _, h2⟩
  · cases h2
  · exact ⟨a, post', h2, ho⟩

theorem sent_run {as : List Act} {q : Nat} {r : Name} (h : Sent as q r) : .run r ∈ begun (events as) := by
  obtain ⟨a, b, hab, ho⟩ := h
  rw [hab]
  unfold events begun
  rw [List.filterMap_append, List.filterMap_append]
  exact List.mem_append_left _ ho.1

theorem dict_nil {α β : Type} [DecidableEq α] {d : Dict α β} (h : ∀ k, d.get? k = none) : d = [] := by
  cases d with
  | nil => rfl
  | cons p t =>
    have := h p.1
    obtain ⟨k, v⟩ := p
    rw [Dict.get?_cons] at this
    simp at this

theorem open_same {es : List Ev} {e : Ev} {k : Key} (hb : began e ≠ some k) (hd : ∀ err, done e ≠ some (k, err)) :
    Open k (es ++ [e]) ↔ Open k es := by
  rw [open_snoc]
  constructor
  · rintro ⟨h1 | h1, h2, _⟩
    · exact ⟨h1, h2⟩
    · exact absurd h1 hb
  · rintro ⟨h1, h2⟩
    exact ⟨.inl h1, h2, hd⟩

variable {root : String} {causal : Bool} {home : Name → Option Name → Nat} {as : List Act} {W : Nat → Dd} {w : List Span}

/-- After the end of a task or a node the caches are as before. -/
theorem Inv.stay (h : Inv root causal home as W w) {p : Nat} {e : Ev} {k : Key} {err : Option UserErr} {w' : List Span}
    (hd : done e = some (k, err)) (hk : ∀ r, k ≠ .run r) (hm : Mirrors root causal (events as ++ [e]) w') :
    Inv root causal home (as ++ [.hook p e]) (fun q => if q = p then W p else W q) w' := by
  have hW : (fun q => if q = p then W p else W q) = W := by
    funext q
    by_cases hq : q = p
    · rw [if_pos hq, hq]
    · rw [if_neg hq]
  rw [hW]
  have hb := began_of_done hd
  have hbn : ∀ x, began e ≠ some x := fun x hx => by rw [hb] at hx; cases hx
  have hbeg : begun (events as ++ [e]) = begun (events as) := by rw [begun_snoc, hb]; exact List.append_nil _
  have ho : ∀ r, Open (.run r) (events as ++ [e]) ↔ Open (.run r) (events as) := by
    intro r
    refine open_same (hbn _) (fun err' he => ?_)
    rw [hd] at he
    exact hk r (by cases he; rfl)
  have hpl : ∀ x, place (events as ++ [e]) x = place (events as) x := fun x => place_same (hbn x)
  refine ⟨by rw [events_hook]; exact hm, ?_, ?_, h.const, ?_, ?_, ?_, ?_⟩
  · rw [events_hook, hbeg]; exact h.nodup
  · rw [events_hook, hbeg]; exact h.under
  · intro r
    rw [events_hook, ho, hpl]
    exact h.mainOpen r
  · intro r
    rw [events_hook, ho]
    exact h.mainClosed r
  · intro r ts t i
    rw [events_hook, hpl]
    exact h.sound r ts t i
  · intro r t hs
    rw [events_hook, ho]
    intro hop
    have hs' : home r t = 0 ∨ Sent as (home r t) r := hs.imp id sent_hook
    exact (h.knows r t hs' hop).mono rfl rfl rfl (fun _ _ => hbn _) (fun _ => hbn _)

theorem Inv.taskEnd (h : Inv root causal home as W w) {r t : Name} {err : Option UserErr} {p : Nat} (hp : p = home r (some t))
    (hs : p = 0 ∨ Sent as p r) (ha : Allowed (events as) (.taskEnd r t err)) :
    ∃ d w', (W p).step w (.taskEnd r t err) = .ok (d, w') ∧
      Inv root causal home (as ++ [.hook p (.taskEnd r t err)]) (fun q => if q = p then d else W q) w' := by
  subst hp
  obtain ⟨hr, ht⟩ := ha
  obtain ⟨_, ⟨ts, hts, hts'⟩, _⟩ := h.knows r (some t) hs hr
  obtain ⟨i, hi⟩ := place_mem ht.1
  refine ⟨W (home r (some t)), finishSpan w i err, ?_, ?_⟩
  · have hd : (W (home r (some t))).step w (.taskEnd r t err) = (W (home r (some t))).taskEnd w r t err := rfl
    rw [hd]
    unfold Dd.taskEnd
    rw [hts]
    dsimp only
    rw [hts' t rfl, hi]
  · exact h.stay rfl (fun _ hk => (by cases hk)) (mirrors_end h.mirrors h.nodup rfl hi ht)

theorem Inv.nodeEnd (h : Inv root causal home as W w) {r : Name} {t : Option Name} {n : Name} {err : Option UserErr} {p : Nat}
    (hp : p = home r t) (hs : p = 0 ∨ Sent as p r) (ha : Allowed (events as) (.nodeEnd r t n err)) :
    ∃ d w', (W p).step w (.nodeEnd r t n err) = .ok (d, w') ∧
      Inv root causal home (as ++ [.hook p (.nodeEnd r t n err)]) (fun q => if q = p then d else W q) w' := by
  subst hp
  obtain ⟨hr, ht⟩ := ha
  obtain ⟨_, _, ns, hns, hns'⟩ := h.knows r t hs hr
  obtain ⟨i, hi⟩ := place_mem ht.1
  refine ⟨W (home r t), finishSpan w i err, ?_, ?_⟩
  · have hd : (W (home r t)).step w (.nodeEnd r t n err) = (W (home r t)).nodeEnd w r t n err := rfl
    rw [hd]
    unfold Dd.nodeEnd
    rw [hns]
    dsimp only
    rw [hns' n, hi]
  · exact h.stay rfl (fun _ hk => (by cases hk)) (mirrors_end h.mirrors h.nodup rfl hi ht)

theorem nodup_snoc {es : List Ev} {e : Ev} {k : Key} (hn : (begun es).Nodup) (hb : began e = some k) (hk : k ∉ begun es) :
    (begun (es ++ [e])).Nodup := by
  rw [begun_snoc, hb, List.nodup_append]
  refine ⟨hn, by simp, ?_⟩
  intro a ha b hb' hab
  have : b = k := by simpa using hb'
  subst hab
  rw [this] at ha
  exact hk ha

/-- The general step for the beginning of a task or a node: only the caches of its run change, and they know what began. -/
theorem Inv.grow (h : Inv root causal home as W w) {p : Nat} {e : Ev} {k : Key} {d : Dd} {s : Span} {r : Name} {t : Option Name}
    (hb : began e = some k) (hk : ∀ r', k ≠ .run r') (hkr : (∃ t', t = some t' ∧ k = .task r t') ∨ ∃ n, k = .node r t n)
    (hr : Open (.run r) (events as)) (hnew : k ∉ begun (events as)) (hp : p = home r t)
    (hs : expected root causal (events as) e = some s) (hf : s.finished = none)
    (hconst : d.rootName = (W p).rootName ∧ d.causal = (W p).causal) (hruns : d.runs = (W p).runs)
    (hother : ∀ r', r' ≠ r → d.tasks.get? r' = (W p).tasks.get? r' ∧ d.nodes.get? r' = (W p).nodes.get? r')
    (hts : ∃ ts, d.tasks.get? r = some ts) (hns : ∃ ns, d.nodes.get? r = some ns)
    (hsound : p = 0 → ∀ ts t' i, d.tasks.get? r = some ts → ts.get? t' = some i → place (events as ++ [e]) (.task r t') = some i)
    (hknow : ∀ t', home r t' = p → Knows (W p) (events as) r t' → Knows d (events as ++ [e]) r t') :
    Inv root causal home (as ++ [.hook p e]) (fun q => if q = p then d else W q) (w ++ [s]) := by
  have hd := done_of_began hb
  have ho : ∀ r, Open (.run r) (events as ++ [e]) ↔ Open (.run r) (events as) := by
    intro r'
    refine open_same (fun he => ?_) (fun err he => ?_)
    · rw [hb] at he; exact hk r' (Option.some.inj he)
    · rw [hd] at he; cases he
  have hrun : ∀ r', place (events as ++ [e]) (.run r') = place (events as) (.run r') := by
    intro r'
    refine place_same (fun he => ?_)
    rw [hb] at he
    exact hk r' (Option.some.inj he)
  have hmem : ∀ x, x ∈ begun (events as ++ [e]) ↔ x ∈ begun (events as) ∨ x = k := by
    intro x
    rw [begun_snoc, hb]
    simp
  refine ⟨by rw [events_hook]; exact mirrors_begin h.mirrors hb hs hf, ?_, ?_, ?_, ?_, ?_, ?_, ?_⟩
  · rw [events_hook]; exact nodup_snoc h.nodup hb hnew
  · rw [events_hook]
    refine ⟨fun r' t' => ?_, fun r' t' n' => ?_⟩
    · rw [hmem, hmem]
      rintro (h1 | h1)
      · exact .inl (h.under.1 r' t' h1)
      · refine .inl ?_
        rcases hkr with ⟨_, _, h2⟩ | ⟨_, h2⟩
        · rw [h2] at h1; cases h1; exact hr.1
        · rw [h2] at h1; cases h1
    · rw [hmem, hmem]
      rintro (h1 | h1)
      · exact .inl (h.under.2 r' t' n' h1)
      · refine .inl ?_
        rcases hkr with ⟨_, _, h2⟩ | ⟨_, h2⟩
        · rw [h2] at h1; cases h1
        · rw [h2] at h1; cases h1; exact hr.1
  · intro q
    by_cases hq : q = p
    · rw [if_pos hq, hconst.1, hconst.2]; exact h.const p
    · rw [if_neg hq]; exact h.const q
  · intro r'
    rw [events_hook, ho, hrun]
    intro hop
    obtain ⟨h1, h2, h3⟩ := h.mainOpen r' hop
    by_cases hq : 0 = p
    · rw [if_pos hq]
      rw [hq] at h1 h2 h3
      refine ⟨by rw [hruns]; exact h1, ?_⟩
      by_cases hrr : r' = r
      · rw [hrr]; exact ⟨hts, hns⟩
      · rw [(hother r' hrr).1, (hother r' hrr).2]; exact ⟨h2, h3⟩
    · rw [if_neg hq]; exact ⟨h1, h2, h3⟩
  · intro r'
    rw [events_hook, ho]
    intro hop
    obtain ⟨h1, h2, h3⟩ := h.mainClosed r' hop
    by_cases hq : 0 = p
    · rw [if_pos hq]
      rw [hq] at h1 h2 h3
      have hrr : r' ≠ r := fun he => hop (by rw [he]; exact hr)
      rw [hruns, (hother r' hrr).1, (hother r' hrr).2]
      exact ⟨h1, h2, h3⟩
    · rw [if_neg hq]; exact ⟨h1, h2, h3⟩
  · intro r' ts t' i
    rw [events_hook]
    by_cases hq : 0 = p
    · rw [if_pos hq]
      by_cases hrr : r' = r
      · rw [hrr]; exact hsound hq.symm ts t' i
      · rw [(hother r' hrr).1]
        intro h1 h2
        rw [← hq] at h1
        exact place_mono (h.sound r' ts t' i h1 h2)
    · rw [if_neg hq]
      intro h1 h2
      exact place_mono (h.sound r' ts t' i h1 h2)
  · intro r' t' hs'
    rw [events_hook, ho]
    intro hop
    have hk0 := h.knows r' t' (hs'.imp id sent_hook) hop
    have hframe : home r' t' ≠ p ∨ r' ≠ r →
        (∀ t'', t' = some t'' → began e ≠ some (.task r' t'')) ∧ ∀ n, began e ≠ some (.node r' t' n) := by
      intro hor
      refine ⟨fun t'' ht'' he => ?_, fun n he => ?_⟩
      · rw [hb] at he
        have he := Option.some.inj he
        rcases hkr with ⟨t0, ht0, h2⟩ | ⟨_, h2⟩
        · rw [h2] at he; cases he
          rcases hor with hor | hor
          · exact hor (by rw [hp, ht'', ht0])
          · exact hor rfl
        · rw [h2] at he; cases he
      · rw [hb] at he
        have he := Option.some.inj he
        rcases hkr with ⟨t0, ht0, h2⟩ | ⟨_, h2⟩
        · rw [h2] at he; cases he
        · rw [h2] at he; cases he
          rcases hor with hor | hor
          · exact hor hp.symm
          · exact hor rfl
    by_cases hq : home r' t' = p
    · rw [if_pos hq]
      rw [hq] at hk0
      by_cases hrr : r' = r
      · subst hrr; exact hknow t' hq hk0
      · obtain ⟨hf1, hf2⟩ := hframe (.inr hrr)
        exact hk0.mono (by rw [hruns]) (hother r' hrr).1 (hother r' hrr).2 hf1 hf2
    · rw [if_neg hq]
      obtain ⟨hf1, hf2⟩ := hframe (.inl hq)
      exact hk0.mono rfl rfl rfl hf1 hf2

theorem Inv.taskStart (h : Inv root causal home as W w) {r t : Name} {p : Nat} (hp : p = home r (some t))
    (hs : p = 0 ∨ Sent as p r) (ha : Allowed (events as) (.taskStart r t)) :
    ∃ d w', (W p).step w (.taskStart r t) = .ok (d, w') ∧
      Inv root causal home (as ++ [.hook p (.taskStart r t)]) (fun q => if q = p then d else W q) w' := by
  obtain ⟨hr, hnew⟩ := ha
  obtain ⟨⟨i, hi, hi'⟩, ⟨ts, hts, hts'⟩, ns, hns, hns'⟩ := h.knows r (some t) (by rw [← hp]; exact hs) hr
  rw [← hp] at hi' hts hns
  have hlen : w.length = (begun (events as)).length := h.mirrors.1
  have hnewp : place (events as ++ [.taskStart r t]) (.task r t) = some w.length := by rw [hlen]; exact place_new hnew rfl
  refine ⟨{ W p with tasks := (W p).tasks.set r (ts.set t w.length) }, w ++ [⟨t, .inside i, [], none⟩], ?_, ?_⟩
  · have hd : (W p).step w (.taskStart r t) = (W p).taskStart w r t := rfl
    rw [hd]
    unfold Dd.taskStart
    rw [hi']
    dsimp only
    rw [hts]
  · refine h.grow (k := .task r t) (r := r) (t := some t) rfl (fun _ hk => (by cases hk)) (.inl ⟨t, rfl, rfl⟩) hr hnew hp ?_ rfl
      ⟨rfl, rfl⟩ rfl (fun r' hr' => ⟨Dict.get?_set_ne _ _ (Ne.symm hr'), rfl⟩) ⟨_, Dict.get?_set_self ..⟩ ⟨ns, hns⟩ ?_ ?_
    · show (place (events as) (.run r)).map _ = _
      rw [hi]; rfl
    · intro hp0 ts' t' j hts1 hj
      dsimp only at hts1
      rw [Dict.get?_set_self] at hts1
      cases hts1
      rw [Dict.get?_set] at hj
      by_cases htt : t = t'
      · rw [if_pos htt] at hj; cases hj; rw [← htt]; exact hnewp
      · rw [if_neg htt] at hj
        rw [hp0] at hts
        exact place_mono (h.sound r ts t' j hts hj)
    · intro t' _ hk
      obtain ⟨⟨i2, hi2, hi2'⟩, ⟨ts2, hts2, hts2'⟩, ns2, hns2, hns2'⟩ := hk
      rw [hts] at hts2
      cases hts2
      refine ⟨⟨i2, place_mono hi2, hi2'⟩, ⟨_, Dict.get?_set_self .., ?_⟩, ns2, hns2, ?_⟩
      · intro t'' ht''
        rw [Dict.get?_set]
        by_cases htt : t = t''
        · rw [if_pos htt, ← htt, hnewp]
        · rw [if_neg htt, hts2' t'' ht'']
          exact (place_same (fun he => htt (by cases he; rfl))).symm
      · intro n
        rw [hns2' n]
        exact (place_same (fun he => (by cases he))).symm

theorem Inv.nodeStart (h : Inv root causal home as W w) {r : Name} {t : Option Name} {n : Name} {us : List Name} {p : Nat}
    (hp : p = home r t) (hs : p = 0 ∨ Sent as p r) (ha : Allowed (events as) (.nodeStart r t n us)) :
    ∃ d w', (W p).step w (.nodeStart r t n us) = .ok (d, w') ∧
      Inv root causal home (as ++ [.hook p (.nodeStart r t n us)]) (fun q => if q = p then d else W q) w' := by
  obtain ⟨hr, hnew⟩ := ha
  obtain ⟨⟨i, hi, hi'⟩, ⟨ts, hts, hts'⟩, ns, hns, hns'⟩ := h.knows r t (by rw [← hp]; exact hs) hr
  rw [← hp] at hi' hts hns
  have hlen : w.length = (begun (events as)).length := h.mirrors.1
  have hnewp : place (events as ++ [.nodeStart r t n us]) (.node r t n) = some w.length := by rw [hlen]; exact place_new hnew rfl
  have hpar : ∃ a, (W p).nodeParent r t = .ok a ∧ above (events as) r t = some a := by
    unfold Dd.nodeParent above
    rw [hts]
    dsimp only
    have hbind : t.bind ts.get? = t.bind (fun t' => place (events as) (.task r t')) := by
      cases t with
      | none => rfl
      | some t' => exact hts' t' rfl
    rw [hbind]
    cases t.bind (fun t' => place (events as) (.task r t')) with
    | some a => exact ⟨a, rfl, rfl⟩
    | none =>
      dsimp only
      rw [hi', hi]
      exact ⟨i, rfl, rfl⟩
  obtain ⟨a, ha1, ha2⟩ := hpar
  have hlinks : causalLinks ns t n us =
      us.filterMap (fun u => (place (events as) (.node r t u)).map (fun j => (j, u ++ "_to_" ++ n))) := by
    unfold causalLinks
    congr 1
    funext u
    rw [hns' u]
  have hname : nodeSpanName t n = (t.map (· ++ ":")).getD "" ++ n := by
    cases t with
    | none => exact (String.empty_append).symm
    | some t' => rfl
  refine ⟨{ W p with nodes := (W p).nodes.set r (ns.set (t, n) w.length) },
    w ++ [⟨nodeSpanName t n, .inside a, if (W p).causal then causalLinks ns t n us else [], none⟩], ?_, ?_⟩
  · have hd : (W p).step w (.nodeStart r t n us) = (W p).nodeStart w r t n us := rfl
    rw [hd]
    unfold Dd.nodeStart
    rw [ha1]
    dsimp only
    rw [hns]
  · refine h.grow (k := .node r t n) (r := r) (t := t) rfl (fun _ hk => (by cases hk)) (.inr ⟨n, rfl⟩) hr hnew hp ?_ rfl
      ⟨rfl, rfl⟩ rfl (fun r' hr' => ⟨rfl, Dict.get?_set_ne _ _ (Ne.symm hr')⟩) ⟨ts, hts⟩ ⟨_, Dict.get?_set_self ..⟩ ?_ ?_
    · show (above (events as) r t).map _ = _
      rw [ha2, hlinks, hname, (h.const p).2]
      rfl
    · intro hp0 ts' t' j hts1 hj
      dsimp only at hts1
      rw [hp0] at hts1
      exact place_mono (h.sound r ts' t' j hts1 hj)
    · intro t' _ hk
      obtain ⟨⟨i2, hi2, hi2'⟩, ⟨ts2, hts2, hts2'⟩, ns2, hns2, hns2'⟩ := hk
      rw [hns] at hns2
      cases hns2
      refine ⟨⟨i2, place_mono hi2, hi2'⟩, ⟨ts2, hts2, ?_⟩, _, Dict.get?_set_self .., ?_⟩
      · intro t'' ht''
        rw [hts2' t'' ht'']
        exact (place_same (fun he => (by cases he))).symm
      · intro n'
        rw [Dict.get?_set]
        by_cases htt : (t, n) = (t', n')
        · rw [if_pos htt]
          cases htt
          exact hnewp.symm
        · rw [if_neg htt, hns2' n']
          exact (place_same (fun he => htt (by cases he; rfl))).symm

/-- What has ended has begun. -/
theorem ended_begun {es : List Ev} (hv : Valid es) {k : Key} {err : Option UserErr} (h : (k, err) ∈ es.filterMap done) :
    k ∈ begun es := by
  obtain ⟨e, he, hd⟩ := List.mem_filterMap.1 h
  obtain ⟨pre, post, hp⟩ := List.append_of_mem he
  have ha := hv pre e post hp
  have hk : k ∈ begun pre := by
    cases e with
    | runEnd r e => cases hd; exact ha.1
    | taskEnd r t e => cases hd; exact ha.2.1
    | nodeEnd r t n e => cases hd; exact ha.2.1
    | _ => cases hd
  rw [hp]
  unfold begun
  rw [List.filterMap_append]
  exact List.mem_append_left _ hk

theorem Inv.runStart (h : Inv root causal home as W w) (hv : Valid (events as)) {r : Name} {a : Option Nat} (ha : Allowed (events as) (.runStart r a)) :
    ∃ d w', (W 0).step w (.runStart r a) = .ok (d, w') ∧
      Inv root causal home (as ++ [.hook 0 (.runStart r a)]) (fun q => if q = 0 then d else W q) w' := by
  have hnew : .run r ∉ begun (events as) := ha
  have hlen : w.length = (begun (events as)).length := h.mirrors.1
  have hnewp : place (events as ++ [.runStart r a]) (.run r) = some w.length := by rw [hlen]; exact place_new hnew rfl
  have ho : ∀ r', r' ≠ r → (Open (.run r') (events as ++ [.runStart r a]) ↔ Open (.run r') (events as)) := by
    intro r' hr'
    exact open_same (fun he => hr' (by cases he; rfl)) (fun err he => (by cases he))
  have hpl : ∀ r', r' ≠ r → place (events as ++ [.runStart r a]) (.run r') = place (events as) (.run r') :=
    fun r' hr' => place_same (fun he => hr' (by cases he; rfl))
  have hmem : ∀ x, x ∈ begun (events as ++ [.runStart r a]) ↔ x ∈ begun (events as) ∨ x = .run r := by
    intro x
    rw [begun_snoc]
    simp [began]
  refine ⟨_, _, rfl, ?_⟩
  refine ⟨?_, ?_, ?_, ?_, ?_, ?_, ?_, ?_⟩
  · rw [events_hook, (h.const 0).1]
    exact mirrors_begin h.mirrors rfl rfl rfl
  · rw [events_hook]; exact nodup_snoc h.nodup rfl hnew
  · rw [events_hook]
    refine ⟨fun r' t' => ?_, fun r' t' n' => ?_⟩
    · rw [hmem, hmem]
      rintro (h1 | h1)
      · exact .inl (h.under.1 r' t' h1)
      · cases h1
    · rw [hmem, hmem]
      rintro (h1 | h1)
      · exact .inl (h.under.2 r' t' n' h1)
      · cases h1
  · intro q
    by_cases hq : q = 0
    · rw [if_pos hq]; exact h.const 0
    · rw [if_neg hq]; exact h.const q
  · intro r'
    rw [events_hook, if_pos rfl]
    intro hop
    dsimp only
    by_cases hrr : r' = r
    · subst hrr
      exact ⟨⟨_, hnewp, Dict.get?_set_self ..⟩, ⟨_, Dict.get?_set_self ..⟩, _, Dict.get?_set_self ..⟩
    · rw [Dict.get?_set_ne _ _ (Ne.symm hrr), Dict.get?_set_ne _ _ (Ne.symm hrr), Dict.get?_set_ne _ _ (Ne.symm hrr), hpl r' hrr]
      exact h.mainOpen r' ((ho r' hrr).1 hop)
  · intro r'
    rw [events_hook, if_pos rfl]
    intro hop
    dsimp only
    by_cases hrr : r' = r
    · subst hrr
      refine absurd ?_ hop
      rw [open_snoc]
      exact ⟨.inr rfl, fun err he => hnew (ended_begun hv he), fun err he => (by cases he)⟩
    · rw [Dict.get?_set_ne _ _ (Ne.symm hrr), Dict.get?_set_ne _ _ (Ne.symm hrr), Dict.get?_set_ne _ _ (Ne.symm hrr)]
      exact h.mainClosed r' (fun hx => hop ((ho r' hrr).2 hx))
  · intro r' ts t i
    rw [events_hook, if_pos rfl]
    dsimp only
    by_cases hrr : r' = r
    · subst hrr
      rw [Dict.get?_set_self]
      intro h1 h2
      cases h1
      cases h2
    · rw [Dict.get?_set_ne _ _ (Ne.symm hrr)]
      intro h1 h2
      exact place_mono (h.sound r' ts t i h1 h2)
  · intro r' t' hs'
    rw [events_hook]
    intro hop
    by_cases hrr : r' = r
    · subst hrr
      have h0 : home r' t' = 0 := by
        rcases hs' with hs' | hs'
        · exact hs'
        · exact absurd (sent_run (sent_hook hs')) hnew
      rw [if_pos h0]
      refine ⟨⟨_, hnewp, Dict.get?_set_self ..⟩, ⟨_, Dict.get?_set_self .., ?_⟩, _, Dict.get?_set_self .., ?_⟩
      · intro t'' _
        refine (place_none.2 ?_).symm
        rw [hmem]
        rintro (h1 | h1)
        · exact hnew (h.under.1 r' t'' h1)
        · cases h1
      · intro n
        refine (place_none.2 ?_).symm
        rw [hmem]
        rintro (h1 | h1)
        · exact hnew (h.under.2 r' t' n h1)
        · cases h1
    · have hk0 := h.knows r' t' (hs'.imp id sent_hook) ((ho r' hrr).1 hop)
      by_cases hq : home r' t' = 0
      · rw [if_pos hq]
        rw [hq] at hk0
        exact hk0.mono (Dict.get?_set_ne _ _ (Ne.symm hrr)) (Dict.get?_set_ne _ _ (Ne.symm hrr)) (Dict.get?_set_ne _ _ (Ne.symm hrr))
          (fun _ _ he => (by cases he)) (fun _ he => (by cases he))
      · rw [if_neg hq]
        exact hk0.mono rfl rfl rfl (fun _ _ he => (by cases he)) (fun _ he => (by cases he))

theorem Inv.runEnd (h : Inv root causal home as W w) {r : Name} {err : Option UserErr} (ha : Allowed (events as) (.runEnd r err)) :
    ∃ d w', (W 0).step w (.runEnd r err) = .ok (d, w') ∧
      Inv root causal home (as ++ [.hook 0 (.runEnd r err)]) (fun q => if q = 0 then d else W q) w' := by
  have hr : Open (.run r) (events as) := ha
  obtain ⟨⟨i, hi, hi'⟩, ⟨ts, hts⟩, ns, hns⟩ := h.mainOpen r hr
  have hbn : ∀ x, began (.runEnd r err) ≠ some x := fun x hx => (by cases hx)
  have hbeg : begun (events as ++ [.runEnd r err]) = begun (events as) := by rw [begun_snoc]; exact List.append_nil _
  have hpl : ∀ x, place (events as ++ [.runEnd r err]) x = place (events as) x := fun x => place_same (hbn x)
  have ho : ∀ r', r' ≠ r → (Open (.run r') (events as ++ [.runEnd r err]) ↔ Open (.run r') (events as)) := by
    intro r' hr'
    exact open_same (hbn _) (fun err' he => hr' (by cases he; rfl))
  have hcl : ¬ Open (.run r) (events as ++ [.runEnd r err]) := by
    rw [open_snoc]
    rintro ⟨_, _, h3⟩
    exact h3 err rfl
  refine ⟨{ W 0 with runs := (W 0).runs.del r, nodes := (W 0).nodes.del r, tasks := (W 0).tasks.del r }, finishSpan w i err, ?_, ?_⟩
  · have hd : (W 0).step w (.runEnd r err) = (W 0).runEnd w r err := rfl
    rw [hd]
    unfold Dd.runEnd
    rw [hi']
    dsimp only
    rw [if_pos]
    rw [Bool.and_eq_true]
    exact ⟨(Dict.has_eq_true_iff _ _).2 ⟨ns, hns⟩, (Dict.has_eq_true_iff _ _).2 ⟨ts, hts⟩⟩
  · have hdel : ∀ {α : Type} (d : Dict Name α) r', r' ≠ r → (d.del r).get? r' = d.get? r' := by
      intro α d r' hr'
      rw [Dict.get?_del, if_neg (fun he => hr' (by first | exact he.symm | exact he))]
    have hself : ∀ {α : Type} (d : Dict Name α), (d.del r).get? r = none := by
      intro α d
      rw [Dict.get?_del, if_pos rfl]
    refine ⟨?_, ?_, ?_, ?_, ?_, ?_, ?_, ?_⟩
    · rw [events_hook]
      exact mirrors_end h.mirrors h.nodup rfl hi hr
    · rw [events_hook, hbeg]; exact h.nodup
    · rw [events_hook, hbeg]; exact h.under
    · intro q
      by_cases hq : q = 0
      · rw [if_pos hq]; exact h.const 0
      · rw [if_neg hq]; exact h.const q
    · intro r'
      rw [events_hook, if_pos rfl]
      intro hop
      dsimp only
      by_cases hrr : r' = r
      · subst hrr; exact absurd hop hcl
      · rw [hdel _ r' hrr, hdel _ r' hrr, hdel _ r' hrr, hpl]
        exact h.mainOpen r' ((ho r' hrr).1 hop)
    · intro r'
      rw [events_hook, if_pos rfl]
      intro hop
      dsimp only
      by_cases hrr : r' = r
      · subst hrr; exact ⟨hself _, hself _, hself _⟩
      · rw [hdel _ r' hrr, hdel _ r' hrr, hdel _ r' hrr]
        exact h.mainClosed r' (fun hx => hop ((ho r' hrr).2 hx))
    · intro r' ts t i
      rw [events_hook, if_pos rfl, hpl]
      dsimp only
      by_cases hrr : r' = r
      · subst hrr
        rw [hself]
        intro h1
        cases h1
      · rw [hdel _ r' hrr]
        exact h.sound r' ts t i
    · intro r' t' hs'
      rw [events_hook]
      intro hop
      by_cases hrr : r' = r
      · subst hrr; exact absurd hop hcl
      · have hk0 := h.knows r' t' (hs'.imp id sent_hook) ((ho r' hrr).1 hop)
        by_cases hq : home r' t' = 0
        · rw [if_pos hq]
          rw [hq] at hk0
          exact hk0.mono (hdel _ r' hrr) (hdel _ r' hrr) (hdel _ r' hrr) (fun _ _ => hbn _) (fun _ => hbn _)
        · rw [if_neg hq]
          exact hk0.mono rfl rfl rfl (fun _ _ => hbn _) (fun _ => hbn _)

theorem pickled_nodes (d : Dd) (r : Name) : d.pickled.nodes.get? r = (d.tasks.get? r).map (fun _ => []) := by
  have hd : d.pickled.nodes = d.tasks.map (fun p => (p.1, [])) := rfl
  rw [hd]
  generalize d.tasks = ts
  induction ts with
  | nil => rfl
  | cons p t ih =>
    obtain ⟨k, v⟩ := p
    rw [List.map_cons, Dict.get?_cons, Dict.get?_cons]
    by_cases hk : k = r
    · rw [if_pos hk, if_pos hk]; rfl
    · rw [if_neg hk, if_neg hk]; exact ih

theorem Inv.fork (h : Inv root causal home as W w) {p : Nat} (hp : p ≠ 0) (hp' : Act.fork p ∉ as)
    (hnone : ∀ r t, home r t = p → (∀ t', t = some t' → .task r t' ∉ begun (events as)) ∧ ∀ n, .node r t n ∉ begun (events as)) :
    Inv root causal home (as ++ [.fork p]) (fun q => if q = p then (W 0).pickled else W q) w := by
  have h0 : ¬ (0 = p) := fun he => hp he.symm
  refine ⟨?_, ?_, ?_, ?_, ?_, ?_, ?_, ?_⟩
  · rw [events_fork]; exact h.mirrors
  · rw [events_fork]; exact h.nodup
  · rw [events_fork]; exact h.under
  · intro q
    by_cases hq : q = p
    · rw [if_pos hq]; exact h.const 0
    · rw [if_neg hq]; exact h.const q
  · rw [events_fork, if_neg h0]; exact h.mainOpen
  · rw [events_fork, if_neg h0]; exact h.mainClosed
  · rw [events_fork, if_neg h0]; exact h.sound
  · intro r t hs
    rw [events_fork]
    intro hop
    by_cases hq : home r t = p
    · rw [if_pos hq]
      obtain ⟨hn1, hn2⟩ := hnone r t hq
      obtain ⟨h1, ⟨ts, hts⟩, ns, hns⟩ := h.mainOpen r hop
      refine ⟨h1, ⟨ts, hts, ?_⟩, [], ?_, ?_⟩
      · intro t' ht'
        rw [place_none.2 (hn1 t' ht')]
        cases hg : ts.get? t' with
        | none => rfl
        | some i =>
          have := h.sound r ts t' i hts hg
          rw [place_none.2 (hn1 t' ht')] at this
          cases this
      · rw [pickled_nodes, hts]; rfl
      · intro n
        rw [place_none.2 (hn2 n)]; rfl
    · rw [if_neg hq]
      refine h.knows r t ?_ hop
      rcases hs with hs | ⟨a, b, hab, hopa⟩
      · exact .inl hs
      · rcases snoc_split hab with ⟨_, h2, _⟩ | ⟨post', _, h2⟩
        · cases h2; exact absurd rfl hq
        · exact .inr ⟨a, post', h2, hopa⟩

theorem runWorld_snoc (W : Nat → Dd) (w : List Span) (as : List Act) (a : Act) {W' : Nat → Dd} {w' : List Span}
    (h : runWorld W w as = .ok (W', w')) : runWorld W w (as ++ [a]) = runWorld W' w' [a] := by
  induction as generalizing W w with
  | nil => cases h; rfl
  | cons b as ih =>
    rw [List.cons_append]
    cases b with
    | hook p e =>
      have h1 : ∀ l, runWorld W w (.hook p e :: l) = match (W p).step w e with
        | .error x => .error x
        | .ok (d, w') => runWorld (fun q => if q = p then d else W q) w' l := fun _ => rfl
      rw [h1] at h ⊢
      cases hst : (W p).step w e with
      | error x => rw [hst] at h; cases h
      | ok q =>
        obtain ⟨d, w1⟩ := q
        rw [hst] at h
        exact ih _ _ h
    | fork p => exact ih _ _ h

theorem Distributed.of_snoc {a : Act} (h : Distributed home (as ++ [a])) : Distributed home as := by
  refine ⟨?_, ?_, ?_⟩
  · have := h.valid
    cases a with
    | hook p e => rw [events_hook] at this; exact this.of_snoc.1
    | fork p => rw [events_fork] at this; exact this
  · intro b p c hb
    exact h.fork_once b p (c ++ [a]) (by rw [hb]; simp)
  · intro b p e c hb
    exact h.at_home b p e (c ++ [a]) (by rw [hb]; simp)

/-- Nothing happens in a process before the adapter was sent there. -/
theorem none_before {p : Nat} (h : Distributed home as) (hp : p ≠ 0) (hf : Act.fork p ∉ as) (r : Name) (t : Option Name)
    (hh : home r t = p) : (∀ t', t = some t' → .task r t' ∉ begun (events as)) ∧ ∀ n, .node r t n ∉ begun (events as) := by
  have key : ∀ e ∈ events as, homeOf home e ≠ p := by
    intro e he hep
    unfold events at he
    obtain ⟨a, ha, hae⟩ := List.mem_filterMap.1 he
    cases a with
    | fork q => cases hae
    | hook q e' =>
      cases hae
      obtain ⟨pre, post, hab⟩ := List.append_of_mem ha
      obtain ⟨h1, h2⟩ := h.at_home pre q e post hab
      rw [hep] at h1
      subst h1
      obtain ⟨x, y, hxy, _⟩ := h2 hp
      refine hf ?_
      rw [hab, hxy]
      simp
  refine ⟨fun t' ht' hmem => ?_, fun n hmem => ?_⟩
  · unfold begun at hmem
    obtain ⟨e, he, hb⟩ := List.mem_filterMap.1 hmem
    cases e with
    | taskStart r' t'' => cases hb; exact key _ he (by subst ht'; exact hh)
    | _ => cases hb
  · unfold begun at hmem
    obtain ⟨e, he, hb⟩ := List.mem_filterMap.1 hmem
    cases e with
    | nodeStart r' t'' n' us => cases hb; exact key _ he hh
    | _ => cases hb

theorem inv_init : Inv root causal home [] (fun _ => Dd.init root causal) [] := by
  have hno : ∀ k, ¬ Open k [] := fun k h => (by cases h.1)
  refine ⟨⟨rfl, ?_⟩, List.nodup_nil, ⟨fun _ _ h => (by cases h), fun _ _ _ h => (by cases h)⟩, fun _ => ⟨rfl, rfl⟩,
    fun r h => absurd h (hno _), fun r _ => ⟨rfl, rfl, rfl⟩, fun r ts t i h => (by cases h), fun r t _ h => absurd h (hno _)⟩
  intro pre e post k he
  have : ([] : List Ev) = pre ++ e :: post := he
  simp at this

theorem inv_all (h : Distributed home as) :
    ∃ W w, runWorld (fun _ => Dd.init root causal) [] as = .ok (W, w) ∧ Inv root causal home as W w := by
  induction hn : as.length generalizing as with
  | zero =>
    rw [List.length_eq_zero_iff] at hn
    subst hn
    exact ⟨_, _, rfl, inv_init⟩
  | succ n ih =>
    rcases List.eq_nil_or_concat as with h0 | ⟨as', a, ha⟩
    · subst h0; cases hn
    · rw [List.concat_eq_append] at ha
      subst ha
      obtain ⟨W, w, hrun, hinv⟩ := ih h.of_snoc (by simpa using hn)
      rw [runWorld_snoc _ _ _ a hrun]
      cases a with
      | fork p =>
        obtain ⟨h1, h2⟩ := h.fork_once as' p [] rfl
        exact ⟨_, _, rfl, hinv.fork h1 h2 (fun r t hh => none_before h.of_snoc h1 h2 r t hh)⟩
      | hook p e =>
        obtain ⟨h1, h2⟩ := h.at_home as' p e [] rfl
        have hv := h.valid
        rw [events_hook] at hv
        have ha := hv.of_snoc.2
        have hsent : p = 0 ∨ Sent as' p (runOf e) := by
          by_cases hp : p = 0
          · exact .inl hp
          · exact .inr (h2 hp)
        have hstep : ∃ d w', (W p).step w e = .ok (d, w') ∧
            Inv root causal home (as' ++ [.hook p e]) (fun q => if q = p then d else W q) w' := by
          cases e with
          | runStart r a => have h1 : p = 0 := h1; subst h1; exact hinv.runStart hv.of_snoc.1 ha
          | runEnd r err => have h1 : p = 0 := h1; subst h1; exact hinv.runEnd ha
          | taskStart r t => exact hinv.taskStart h1 hsent ha
          | taskEnd r t err => exact hinv.taskEnd h1 hsent ha
          | nodeStart r t n us => exact hinv.nodeStart h1 hsent ha
          | nodeEnd r t n err => exact hinv.nodeEnd h1 hsent ha
        obtain ⟨d, w', hst, hi⟩ := hstep
        refine ⟨_, _, ?_, hi⟩
        unfold runWorld
        rw [hst]
        rfl

end Verif.Tracing
