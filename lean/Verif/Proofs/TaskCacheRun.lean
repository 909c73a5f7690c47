import Verif.Proofs.TaskCache

/-! Runs in task-based execution with the caching adapter. -/
namespace Verif.TaskCache
variable {V : Type} {env : TaskEnv V} {col : String → String → Option Name}
  {impl : String → String → Dict Name V → Except UserErr V}

/-- What the adapter remembers in memory fits the results of the run so far. -/
structure Mem (env : TaskEnv V) (r : Run V) (vals : Vals V) (s : State V) : Prop where
  given : ∀ d v, r.given.get? d = some v → ∃ x, s.versions.get? d = some (.one x) ∧ Denotes env.toCacheEnv s.issued x v
  single : ∀ n t v, vals.get? (n, t) = some v → r.flow.behaviorOf n ≠ .disable →
    roleOf (r.flow.kinds n) n t ≠ .inside → roleOf (r.flow.kinds n) n t ≠ .expand →
    ∃ x, s.versions.get? n = some (.one x) ∧ Denotes env.toCacheEnv s.issued x v
  inside : ∀ n t v, vals.get? (n, t) = some v → r.flow.behaviorOf n ≠ .disable → roleOf (r.flow.kinds n) n t = .inside →
    ∃ m x, s.versions.get? n = some (.perTask m) ∧ m.get? t = some x ∧ Denotes env.toCacheEnv s.issued x v
  fromOne : ∀ n x, s.versions.get? n = some (.one x) → r.given.get? n ≠ none ∨
    ∃ t v, vals.get? (n, t) = some v ∧ roleOf (r.flow.kinds n) n t ≠ .inside
  fromTasks : ∀ n m, s.versions.get? n = some (.perTask m) → r.flow.kinds n = .expand ∨
    ((∃ t v, vals.get? (n, t) = some v) ∧ ∀ t x, m.get? t = some x → ∃ v, vals.get? (n, t) = some v)
  keys : ∀ n x, s.keys.get? n = some (.one x) → ∃ t v, vals.get? (n, t) = some v ∧ roleOf (r.flow.kinds n) n t ≠ .inside

/-- The results so far are those of steps of the run, and the steps to come are other ones. -/
structure Pending (r : Run V) (vals : Vals V) (rest : List (Step V)) : Prop where
  sub : ∀ st ∈ rest, st ∈ r.steps
  src : ∀ n t v, vals.get? (n, t) = some v → ∃ st ∈ r.steps, st.name = n
  apart : ∀ n t v, vals.get? (n, t) = some v → ∀ st ∈ rest, n = st.name →
    t ≠ st.task ∧ r.flow.kinds n = .plain ∧ t ≠ n ∧ st.task ≠ n
  pair : rest.Pairwise (fun a b => a.name = b.name →
    a.task ≠ b.task ∧ r.flow.kinds a.name = .plain ∧ a.task ≠ a.name ∧ b.task ≠ b.name)

theorem role_inside {k : Kind} {n : Name} {t : String} (h : k = .plain) (ht : t ≠ n) : roleOf k n t = .inside := by
  subst h
  unfold roleOf
  simp only
  rw [if_neg (fun h => ht h.symm)]

theorem inside_role {k : Kind} {n : Name} {t : String} (h : roleOf k n t = .inside) : k = .plain ∧ t ≠ n := by
  unfold roleOf at h
  cases k with
  | expand => cases h
  | collect d => cases h
  | plain =>
    simp only at h
    split at h
    · cases h
    · rename_i hne
      exact ⟨rfl, fun h => hne h.symm⟩

theorem Mem.ready {r : Run V} {vals : Vals V} {s : State V} {st : Step V} {rest : List (Step V)}
    (hv : Run.Valid env col impl r) (hm : Mem env r vals s) (hp : Pending r vals (st :: rest)) :
    Ready (roleOf (r.flow.kinds st.name) st.name st.task) st.name st.task s := by
  have hst : st ∈ r.steps := hp.sub st List.mem_cons_self
  have hng := hv.notGiven st hst
  have hone : ∀ y, s.versions.get? st.name ≠ some (.one y) := by
    intro y hy
    rcases hm.fromOne _ _ hy with h | ⟨t, v, h1, h2⟩
    · exact h hng
    · obtain ⟨_, h3, h4, _⟩ := hp.apart _ _ _ h1 st List.mem_cons_self rfl
      exact h2 (role_inside h3 h4)
  have hkeys : ∀ y, s.keys.get? st.name ≠ some (.one y) := by
    intro y hy
    obtain ⟨t, v, h1, h2⟩ := hm.keys _ _ hy
    obtain ⟨_, h3, h4, _⟩ := hp.apart _ _ _ h1 st List.mem_cons_self rfl
    exact h2 (role_inside h3 h4)
  refine ⟨?_, fun _ => hone, fun _ => hkeys⟩
  have key : ∀ m, s.versions.get? st.name = some (.perTask m) → r.flow.kinds st.name = .expand ∨
      (roleOf (r.flow.kinds st.name) st.name st.task = .inside ∧ m.get? st.task = none) := by
    intro m h
    rcases hm.fromTasks _ _ h with h1 | ⟨⟨t, v, h1⟩, h2⟩
    · exact .inl h1
    · obtain ⟨_, h3, _, h5⟩ := hp.apart _ _ _ h1 st List.mem_cons_self rfl
      refine .inr ⟨role_inside h3 h5, ?_⟩
      cases hx : m.get? st.task with
      | none => rfl
      | some x =>
        obtain ⟨w, hw⟩ := h2 _ _ hx
        exact absurd rfl (hp.apart _ _ _ hw st List.mem_cons_self rfl).1
  cases hr : roleOf (r.flow.kinds st.name) st.name st.task with
  | expand => rfl
  | inside =>
    cases he : s.versions.get? st.name with
    | none => simp only [memVersion, he]
    | some e =>
      cases e with
      | one y => simp only [memVersion, he]
      | perTask m =>
        rcases key m he with h | ⟨_, h⟩
        · rw [h] at hr; cases hr
        · simp only [memVersion, he, h]
  | outside =>
    cases he : s.versions.get? st.name with
    | none => simp only [memVersion, he]
    | some e =>
      cases e with
      | one y => exact absurd he (hone y)
      | perTask m =>
        rcases key m he with h | ⟨h, _⟩
        · rw [h] at hr; cases hr
        · rw [h] at hr; cases hr
  | collect =>
    cases he : s.versions.get? st.name with
    | none => simp only [memVersion, he]
    | some e =>
      cases e with
      | one y => exact absurd he (hone y)
      | perTask m =>
        rcases key m he with h | ⟨h, _⟩
        · rw [h] at hr; cases hr
        · rw [h] at hr; cases hr

theorem behaviorOf_ne_ignore {r : Run V} (hv : Run.Valid env col impl r) (n : Name) : r.flow.behaviorOf n ≠ .ignore := by
  unfold Flow.behaviorOf
  cases r.flow.kinds n with
  | expand => exact Behavior.noConfusion
  | plain => exact hv.behaviors n
  | collect d => exact hv.behaviors n

theorem collected_eq {r : Run V} (hv : Run.Valid env col impl r) (n : Name) :
    collected (r.flow.kinds n) = col (safeName env.alnum n) (r.flow.codes n) := by
  cases hk : r.flow.kinds n with
  | collect d => exact ((hv.kinds n d).1 hk).symm
  | plain =>
    cases hc : col (safeName env.alnum n) (r.flow.codes n) with
    | none => rfl
    | some d => rw [(hv.kinds n d).2 hc] at hk; cases hk
  | expand =>
    cases hc : col (safeName env.alnum n) (r.flow.codes n) with
    | none => rfl
    | some d => rw [(hv.kinds n d).2 hc] at hk; cases hk

theorem Mem.fits {r : Run V} {vals : Vals V} {s : State V} {st : Step V} {rest : List (Step V)}
    (hv : Run.Valid env col impl r) (hm : Mem env r vals s) (hp : Pending r vals (st :: rest)) {d : Name} {src : Src V} {v : V}
    (hmem : (d, src) ∈ st.args) (he : src.eval env vals d = some v) :
    Fits env r.flow (collected (r.flow.kinds st.name)) st.task s d v := by
  have hst : st ∈ r.steps := hp.sub st List.mem_cons_self
  refine ⟨behaviorOf_ne_ignore hv d, ?_⟩
  intro hnd hnc hne
  have hsingle : ∀ t, vals.get? (d, t) = some v → roleOf (r.flow.kinds d) d t ≠ .inside →
      ∃ x, s.versions.get? d = some (.one x) ∧ Denotes env.toCacheEnv s.issued x v :=
    fun t h1 h2 => hm.single d t v h1 hnd h2 (fun h => hne (roleOf_expand h))
  rcases hv.sources st hst _ hmem with h | h | h
  · exact absurd h hne
  · exact absurd (by simp only at h; rw [h]; rfl) hnc
  · simp only at h
    cases h with
    | given hg =>
      have he : some _ = some v := he
      injection he with he
      subst he
      exact .inr (.inl (hm.given d _ hg))
    | config hg hs =>
      left
      cases hx : s.versions.get? d with
      | none => rfl
      | some e =>
        cases e with
        | one y =>
          rcases hm.fromOne _ _ hx with h | ⟨t, w, h, _⟩
          · exact absurd hg h
          · obtain ⟨st', h1, h2⟩ := hp.src _ _ _ h
            exact absurd h2 (hs st' h1)
        | perTask m =>
          rcases hm.fromTasks _ _ hx with h | ⟨⟨t, w, h⟩, _⟩
          · exact absurd h hne
          · obtain ⟨st', h1, h2⟩ := hp.src _ _ _ h
            exact absurd h2 (hs st' h1)
    | own =>
      refine .inr (.inl (hsingle d he ?_))
      intro h
      exact (inside_role h).2 rfl
    | collecting hk =>
      refine .inr (.inl (hsingle _ he ?_))
      intro h
      have := (inside_role h).1
      rw [hk] at this
      cases this
    | same =>
      by_cases hr : roleOf (r.flow.kinds d) d st.task = .inside
      · exact .inr (.inr (hm.inside d st.task v he hnd hr))
      · exact .inr (.inl (hsingle st.task he hr))

theorem evalArgs_spec {vals : Vals V} : ∀ {args : List (Name × Src V)} {kw : Dict Name V}, evalArgs env vals args = some kw →
    kw.keys = args.map (·.1) ∧ ∀ p ∈ kw, ∃ src, (p.1, src) ∈ args ∧ src.eval env vals p.1 = some p.2
  | [], kw, h => by
    injection h with h
    subst h
    exact ⟨rfl, fun p hp => by cases hp⟩
  | (d, src) :: rest, kw, h => by
    unfold evalArgs at h
    cases h1 : src.eval env vals d with
    | none => simp only [h1] at h; cases h
    | some v =>
      cases h2 : evalArgs env vals rest with
      | none => simp only [h1, h2] at h; cases h
      | some kw' =>
        simp only [h1, h2] at h
        injection h with h
        subst h
        obtain ⟨h3, h4⟩ := evalArgs_spec h2
        refine ⟨by rw [Dict.keys_cons, h3]; rfl, ?_⟩
        intro p hp
        rcases List.mem_cons.1 hp with rfl | hp
        · exact ⟨src, List.mem_cons_self, h1⟩
        · obtain ⟨s, h5, h6⟩ := h4 p hp
          exact ⟨s, List.mem_cons_of_mem _ h5, h6⟩

theorem get?_setPair (vals : Vals V) (n : Name) (t : String) (v : V) (n' : Name) (t' : String) :
    (vals.set (n, t) v).get? (n', t') = if n = n' ∧ t = t' then some v else vals.get? (n', t') := by
  rw [Dict.get?_set]
  by_cases h : n = n' ∧ t = t'
  · rw [if_pos h, if_pos (by rw [h.1, h.2])]
  · rw [if_neg h, if_neg (fun hh => h (by injection hh with a b; exact ⟨a, b⟩))]

theorem Pending.next {r : Run V} {vals : Vals V} {st : Step V} {rest : List (Step V)} (hp : Pending r vals (st :: rest))
    (v : V) : Pending r (vals.set (st.name, st.task) v) rest where
  sub := fun s h => hp.sub s (List.mem_cons_of_mem _ h)
  src := by
    intro n t w h
    rw [get?_setPair] at h
    by_cases hh : st.name = n ∧ st.task = t
    · exact ⟨st, hp.sub st List.mem_cons_self, hh.1⟩
    · rw [if_neg hh] at h
      exact hp.src n t w h
  apart := by
    intro n t w h s hs hn
    rw [get?_setPair] at h
    by_cases hh : st.name = n ∧ st.task = t
    · obtain ⟨rfl, rfl⟩ := hh
      obtain ⟨h1, h2, h3, h4⟩ := (List.pairwise_cons.1 hp.pair).1 s hs hn
      exact ⟨h1, h2, h3, hn ▸ h4⟩
    · rw [if_neg hh] at h
      exact hp.apart n t w h s (List.mem_cons_of_mem _ hs) hn
  pair := (List.pairwise_cons.1 hp.pair).2

theorem Mem.next {r : Run V} {vals : Vals V} {s s' : State V} {st : Step V} {rest : List (Step V)} {v : V}
    (hv : Run.Valid env col impl r) (hm : Mem env r vals s) (hp : Pending r vals (st :: rest))
    (hd : Done env r.flow st.name st.task s s' v) : Mem env r (vals.set (st.name, st.task) v) s' := by
  have hst : st ∈ r.steps := hp.sub st List.mem_cons_self
  have hng := hv.notGiven st hst
  have hothers : ∀ n, n ≠ st.name → s'.versions.get? n = s.versions.get? n := by
    intro n hn
    by_cases hb : r.flow.behaviorOf st.name = .disable
    · rw [hd.disabled hb]
    · obtain ⟨x, _, h⟩ := hd.recorded hb
      exact h.others n hn
  have hnew : ∀ n t w, vals.get? (n, t) = some w → ∃ w', (vals.set (st.name, st.task) v).get? (n, t) = some w' := by
    intro n t w h
    rw [get?_setPair]
    split
    · exact ⟨v, rfl⟩
    · exact ⟨w, h⟩
  -- a result of the same node in another task: both are parts of blocks
  have hsame : ∀ t w, vals.get? (st.name, t) = some w →
      t ≠ st.task ∧ roleOf (r.flow.kinds st.name) st.name t = .inside ∧
        roleOf (r.flow.kinds st.name) st.name st.task = .inside := by
    intro t w h
    obtain ⟨h1, h2, h3, h4⟩ := hp.apart _ _ _ h st List.mem_cons_self rfl
    exact ⟨h1, role_inside h2 h3, role_inside h2 h4⟩
  refine ⟨?_, ?_, ?_, ?_, ?_, ?_⟩
  · intro d w h
    have hne : d ≠ st.name := by
      rintro rfl
      rw [hng] at h
      cases h
    obtain ⟨x, h1, h2⟩ := hm.given d w h
    exact ⟨x, by rw [hothers d hne]; exact h1, h2.mono hd.issued⟩
  · intro n t w h hb hr1 hr2
    rw [get?_setPair] at h
    by_cases hh : st.name = n ∧ st.task = t
    · rw [if_pos hh] at h
      obtain ⟨rfl, rfl⟩ := hh
      injection h with h
      subst h
      obtain ⟨x, h1, h2⟩ := hd.recorded hb
      exact ⟨x, (h2.entry hr2).single hr1, h1⟩
    · rw [if_neg hh] at h
      have hne : n ≠ st.name := by
        rintro rfl
        exact hr1 (hsame t w h).2.1
      obtain ⟨x, h1, h2⟩ := hm.single n t w h hb hr1 hr2
      exact ⟨x, by rw [hothers n hne]; exact h1, h2.mono hd.issued⟩
  · intro n t w h hb hr
    rw [get?_setPair] at h
    by_cases hh : st.name = n ∧ st.task = t
    · rw [if_pos hh] at h
      obtain ⟨rfl, rfl⟩ := hh
      injection h with h
      subst h
      obtain ⟨x, h1, h2⟩ := hd.recorded hb
      obtain ⟨m, h3, _⟩ := (h2.entry (by rw [hr]; decide)).inside hr
      exact ⟨_, x, h3, Dict.get?_set_self _ _ _, h1⟩
    · rw [if_neg hh] at h
      obtain ⟨m, x, h1, h2, h3⟩ := hm.inside n t w h hb hr
      by_cases hne : n = st.name
      · subst hne
        obtain ⟨ht, _, hr'⟩ := hsame t w h
        obtain ⟨y, _, h5⟩ := hd.recorded hb
        obtain ⟨m', h6, h7⟩ := (h5.entry (by rw [hr']; decide)).inside hr'
        rcases h7 with h7 | ⟨h7, _⟩
        · rw [h1] at h7
          injection h7 with h7
          injection h7 with h7
          subst h7
          refine ⟨_, x, h6, ?_, h3.mono hd.issued⟩
          rw [Dict.get?_set_ne _ _ (fun h => ht h.symm)]
          exact h2
        · rw [h1] at h7
          cases h7
      · exact ⟨m, x, by rw [hothers n hne]; exact h1, h2, h3.mono hd.issued⟩
  · intro n x h
    by_cases hne : n = st.name
    · subst hne
      by_cases hb : r.flow.behaviorOf st.name = .disable
      · rw [hd.disabled hb] at h
        rcases hm.fromOne _ _ h with h1 | ⟨t, w, h1, h2⟩
        · exact .inl h1
        · exact absurd (hsame t w h1).2.1 h2
      · obtain ⟨y, _, h2⟩ := hd.recorded hb
        refine .inr ⟨st.task, v, by rw [get?_setPair, if_pos ⟨rfl, rfl⟩], ?_⟩
        intro hr
        exact (h2.entry (by rw [hr]; decide)).not_one hr x h
    · rw [hothers n hne] at h
      rcases hm.fromOne _ _ h with h1 | ⟨t, w, h1, h2⟩
      · exact .inl h1
      · obtain ⟨w', h3⟩ := hnew n t w h1
        exact .inr ⟨t, w', h3, h2⟩
  · intro n m h
    by_cases hne : n = st.name
    · subst hne
      by_cases hb : r.flow.behaviorOf st.name = .disable
      · rw [hd.disabled hb] at h
        rcases hm.fromTasks _ _ h with h1 | ⟨⟨t, w, h1⟩, h2⟩
        · exact .inl h1
        · obtain ⟨w', h3⟩ := hnew _ t w h1
          refine .inr ⟨⟨t, w', h3⟩, ?_⟩
          intro t' x hx
          obtain ⟨w2, h4⟩ := h2 t' x hx
          exact hnew _ _ _ h4
      · obtain ⟨y, _, h2⟩ := hd.recorded hb
        by_cases hre : roleOf (r.flow.kinds st.name) st.name st.task = .expand
        · exact .inl (roleOf_expand hre)
        · by_cases hr : roleOf (r.flow.kinds st.name) st.name st.task = .inside
          · right
            refine ⟨⟨st.task, v, by rw [get?_setPair, if_pos ⟨rfl, rfl⟩]⟩, ?_⟩
            intro t x hx
            rw [get?_setPair]
            by_cases ht : st.task = t
            · exact ⟨v, by rw [if_pos ⟨rfl, ht⟩]⟩
            · rw [if_neg (fun h => ht h.2)]
              obtain ⟨m', h6, h7⟩ := (h2.entry hre).inside hr
              rw [h] at h6
              injection h6 with h6
              injection h6 with h6
              subst h6
              rw [Dict.get?_set_ne _ _ ht] at hx
              rcases h7 with h7 | ⟨_, h7⟩
              · rcases hm.fromTasks _ _ h7 with h8 | ⟨_, h8⟩
                · rw [(inside_role hr).1] at h8
                  cases h8
                · exact h8 t x hx
              · subst h7
                cases hx
          · rw [(h2.entry hre).single hr] at h
            cases h
    · rw [hothers n hne] at h
      rcases hm.fromTasks _ _ h with h1 | ⟨⟨t, w, h1⟩, h2⟩
      · exact .inl h1
      · obtain ⟨w', h3⟩ := hnew _ t w h1
        refine .inr ⟨⟨t, w', h3⟩, ?_⟩
        intro t' x hx
        obtain ⟨w2, h4⟩ := h2 t' x hx
        exact hnew _ _ _ h4
  · intro n x h
    by_cases hne : n = st.name
    · subst hne
      refine ⟨st.task, v, by rw [get?_setPair, if_pos ⟨rfl, rfl⟩], ?_⟩
      intro hr
      exact hd.keysName hr x h
    · rw [hd.keys n hne] at h
      obtain ⟨t, w, h1, h2⟩ := hm.keys n x h
      obtain ⟨w', h3⟩ := hnew n t w h1
      exact ⟨t, w', h3, h2⟩

/-- The steps with and without cache. -/
theorem runSteps_same (he : env.Lawful) (hu : OrderFree env col impl) {r : Run V} (hv : Run.Valid env col impl r) :
    ∀ (rest : List (Step V)) (vals : Vals V) (s : State V), Good env col impl s → Mem env r vals s → Pending r vals rest →
      (runSteps env (cachedNode env r.flow) rest vals s).1 =
        (runSteps env (fun name _ kw (u : Unit) => (r.flow.fns name kw, u)) rest vals ()).1 ∧
      Good env col impl (runSteps env (cachedNode env r.flow) rest vals s).2 := by
  intro rest
  induction rest with
  | nil => intro vals s hg _ _; exact ⟨rfl, hg⟩
  | cons st rest ih =>
    intro vals s hg hm hp
    have hst : st ∈ r.steps := hp.sub st List.mem_cons_self
    cases hk : evalArgs env vals st.args with
    | none =>
      simp only [runSteps, hk]
      exact ⟨trivial, hg⟩
    | some kw =>
      obtain ⟨h1, h2⟩ := evalArgs_spec hk
      have hnode := cachedNode_spec he hu (hv.fns st.name kw) (collected_eq hv st.name) hg (behaviorOf_ne_ignore hv _)
        (by rw [h1]; exact hv.args_nodup st hst)
        (by
          intro x hx
          rw [h1] at hx
          obtain ⟨p, hp1, rfl⟩ := List.mem_map.1 hx
          exact hv.names st hst p hp1)
        (by
          intro p hpk
          obtain ⟨src, h3, h4⟩ := h2 p hpk
          exact hm.fits hv hp h3 h4)
        (hm.ready hv hp)
      cases hf : r.flow.fns st.name kw with
      | error e =>
        obtain ⟨s', h3, h4⟩ := hnode.1 e hf
        simp only [runSteps, hk, h3, hf]
        exact ⟨trivial, h4⟩
      | ok v =>
        obtain ⟨s', h3, h4, h5⟩ := hnode.2 v hf
        simp only [runSteps, hk, h3, hf]
        exact ih _ s' h4 (hm.next hv hp h5) (hp.next v)

/-! ### Starting a run -/

theorem versionGiven_spec (he : env.Lawful) : ∀ (given : Dict Name V) (s : State V), given.keys.Nodup →
    Good env col impl s → Good env col impl (versionGiven env given s) ∧ s.issued ⊆ (versionGiven env given s).issued ∧
      (versionGiven env given s).keys = s.keys ∧
      (∀ d, given.get? d = none → (versionGiven env given s).versions.get? d = s.versions.get? d) ∧
      (∀ d v, given.get? d = some v → ∃ x, (versionGiven env given s).versions.get? d = some (.one x) ∧
        Denotes env.toCacheEnv (versionGiven env given s).issued x v) := by
  intro given
  induction given with
  | nil => intro s _ hg; exact ⟨hg, fun _ h => h, rfl, fun _ _ => rfl, fun _ _ h => by cases h⟩
  | cons p rest ih =>
    obtain ⟨d, v⟩ := p
    intro s hn hg
    rw [Dict.keys_cons, List.nodup_cons] at hn
    have hvd := versionData_spec he v s
    obtain ⟨x, s2, hp⟩ : ∃ x s2, State.versionData env v s = (x, s2) := ⟨_, _, rfl⟩
    rw [hp] at hvd
    obtain ⟨hd, hden⟩ := hvd
    simp only at hd hden
    have hg2 := hg.of_drawn hd
    have hg3 : Good env col impl { s2 with versions := s2.versions.set d (.one x) } :=
      hg2.of_issued rfl rfl (fun _ h => h) hg2.issued
    obtain ⟨h1, h2, h3, h4, h5⟩ := ih { s2 with versions := s2.versions.set d (.one x) } hn.2 hg3
    have heq : versionGiven env ((d, v) :: rest) s = versionGiven env rest { s2 with versions := s2.versions.set d (.one x) } := by
      simp only [versionGiven, hp]
    rw [heq]
    refine ⟨h1, fun _ h => h2 (hd.issued h), h3.trans hd.keys, ?_, ?_⟩
    · intro d' h
      rw [Dict.get?_cons] at h
      by_cases hdd : d = d'
      · rw [if_pos hdd] at h; cases h
      · rw [if_neg hdd] at h
        rw [h4 d' h]
        show (s2.versions.set d (.one x)).get? d' = _
        rw [Dict.get?_set_ne _ _ hdd, hd.versions]
    · intro d' w h
      rw [Dict.get?_cons] at h
      by_cases hdd : d = d'
      · rw [if_pos hdd] at h
        injection h with h
        subst hdd h
        refine ⟨x, ?_, hden.mono h2⟩
        rw [h4 d ((Dict.get?_eq_none_iff _ _).2 hn.1)]
        exact Dict.get?_set_self _ _ _
      · rw [if_neg hdd] at h
        exact h5 d' w h

theorem startRun_spec (he : env.Lawful) {r : Run V} (hv : Run.Valid env col impl r) {s : State V} (hg : Good env col impl s) :
    Good env col impl (startRun env r s) ∧ Mem env r [] (startRun env r s) ∧ Pending r [] r.steps := by
  have hg1 : Good env col impl { s with versions := [], keys := [], executed := [] } :=
    hg.of_issued rfl rfl (fun _ h => h) hg.issued
  obtain ⟨h1, _, h3, h4, h5⟩ := versionGiven_spec he r.given _ hv.given_nodup hg1
  have hnone : ∀ n e, (startRun env r s).versions.get? n = some e → ∃ v, r.given.get? n = some v := by
    intro n e h
    cases hx : r.given.get? n with
    | some v => exact ⟨v, rfl⟩
    | none =>
      have := (h4 n hx).symm.trans h
      cases this
  refine ⟨h1, ⟨h5, (fun _ _ _ h => by cases h), (fun _ _ _ h => by cases h), ?_, ?_, ?_⟩,
    ⟨fun _ h => h, (fun _ _ _ h => by cases h), (fun _ _ _ h => by cases h), hv.apart⟩⟩
  · intro n x h
    obtain ⟨v, hx⟩ := hnone n _ h
    exact .inl (by rw [hx]; exact fun h => by cases h)
  · intro n m h
    obtain ⟨v, hx⟩ := hnone n _ h
    obtain ⟨y, hy, _⟩ := h5 n v hx
    have := hy.symm.trans h
    cases this
  · intro n x h
    have : (startRun env r s).keys = [] := h3
    rw [this] at h
    cases h

theorem cachedRun_spec (he : env.Lawful) (hu : OrderFree env col impl) {r : Run V} (hv : Run.Valid env col impl r) {s : State V}
    (hg : Good env col impl s) : (cachedRun env r s).1 = plainRun env r ∧ Good env col impl (cachedRun env r s).2 := by
  obtain ⟨h1, h2, h3⟩ := startRun_spec he hv hg
  exact runSteps_same he hu hv r.steps [] _ h1 h2 h3

theorem Reached.good (he : env.Lawful) (hu : OrderFree env col impl) {s : State V} (h : Reached env col impl s) :
    Good env col impl s := by
  induction h with
  | empty h1 h2 h3 =>
    refine ⟨?_, ?_, ?_⟩
    · rw [h3]
      exact ⟨List.nodup_nil, fun _ _ h => by cases h⟩
    · intro k x h
      rw [h1] at h
      cases h
    · intro d v h
      rw [h2] at h
      cases h
  | run _ hv ih => exact (cachedRun_spec he hu hv ih).2
  | delete _ h1 h2 h3 h4 ih =>
    refine ⟨by rw [h3, h4]; exact ih.issued, ?_, ?_⟩
    · intro k x h
      rw [h4]
      exact ih.store k x (h1 _ _ h)
    · intro d v h
      rw [h4]
      exact ih.results d v (h2 d v h)

end Verif.TaskCache
