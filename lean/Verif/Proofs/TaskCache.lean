import Verif.Spec.TaskCache
import Verif.Proofs.Caching
import Verif.Proofs.Fingerprint

/-! Invariant of the caching adapter in task-based execution. -/
namespace Verif.TaskCache
variable {V : Type}

/-! ### What versions stand for -/

/-- The versions stand for the values, one by one. -/
def AllDenote (env : TaskEnv V) (issued : List (String × V)) : List String → List V → Prop
  | [], [] => True
  | d :: ds, v :: vs => Denotes env.toCacheEnv issued d v ∧ AllDenote env issued ds vs
  | _, _ => False

/-- The version `d` recorded for the parameter `x` stands for the argument `v`. -/
def DepDenotes (env : TaskEnv V) (issued : List (String × V)) (col : Option Name) (x : Name) (d : String) (v : V) : Prop :=
  (d, v) ∈ issued ∨ (col ≠ some x ∧ env.hash v = some d) ∨
    (col = some x ∧ ∃ ds, d = env.hashList (sortBy strLe ds) ∧ AllDenote env issued ds (env.items v))

/-- The versions `deps` stand for the arguments `kw`. -/
def DepsOf (env : TaskEnv V) (issued : List (String × V)) (col : Option Name) (kw : Dict Name V) (deps : Dict String String) :
    Prop :=
  deps.keys = kw.keys ∧ ∀ x d v, deps.get? x = some d → kw.get? x = some v → DepDenotes env issued col x d v

section
variable {env : TaskEnv V}

theorem AllDenote.mono {l l' : List (String × V)} (h : l ⊆ l') : ∀ {ds : List String} {vs : List V},
    AllDenote env l ds vs → AllDenote env l' ds vs
  | [], [], _ => trivial
  | _ :: _, _ :: _, hd => ⟨hd.1.mono h, AllDenote.mono h hd.2⟩
  | [], _ :: _, hd => hd.elim
  | _ :: _, [], hd => hd.elim

theorem DepDenotes.mono {l l' : List (String × V)} (h : l ⊆ l') {col : Option Name} {x : Name} {d : String} {v : V}
    (hd : DepDenotes env l col x d v) : DepDenotes env l' col x d v := by
  rcases hd with h1 | h1 | ⟨h1, ds, h2, h3⟩
  · exact .inl (h h1)
  · exact .inr (.inl h1)
  · exact .inr (.inr ⟨h1, ds, h2, h3.mono h⟩)

theorem DepsOf.mono {l l' : List (String × V)} (h : l ⊆ l') {col : Option Name} {kw : Dict Name V}
    {deps : Dict String String} (hp : DepsOf env l col kw deps) : DepsOf env l' col kw deps :=
  ⟨hp.1, fun x d v h1 h2 => (hp.2 x d v h1 h2).mono h⟩

theorem AllDenote.unique (he : env.Lawful) {c : Nat} {l : List (String × V)} (h : IssuedOk env.toCacheEnv c l) :
    ∀ {ds : List String} {vs ws : List V}, AllDenote env l ds vs → AllDenote env l ds ws → vs = ws
  | [], [], [], _, _ => rfl
  | _ :: _, _ :: _, _ :: _, h1, h2 => by
    rw [h1.1.unique he.base h h2.1, AllDenote.unique he h h1.2 h2.2]
  | [], _ :: _, _, h1, _ => h1.elim
  | [], [], _ :: _, _, h2 => h2.elim
  | _ :: _, [], _, h1, _ => h1.elim
  | _ :: _, _ :: _, [], _, h2 => h2.elim

theorem AllDenote.perm {l : List (String × V)} {ds es : List String} (hp : ds.Perm es) :
    ∀ {vs : List V}, AllDenote env l ds vs → ∃ ws, AllDenote env l es ws ∧ vs.Perm ws := by
  induction hp with
  | nil =>
    intro vs h
    exact ⟨vs, h, .refl _⟩
  | cons a _ ih =>
    intro vs h
    cases vs with
    | nil => exact h.elim
    | cons v vs =>
      obtain ⟨ws, h1, h2⟩ := ih h.2
      exact ⟨v :: ws, ⟨h.1, h1⟩, h2.cons v⟩
  | swap a b l =>
    intro vs h
    cases vs with
    | nil => exact h.elim
    | cons v vs =>
      cases vs with
      | nil => exact h.2.elim
      | cons w vs => exact ⟨w :: v :: vs, ⟨h.2.1, h.1, h.2.2⟩, .swap _ _ _⟩
  | trans _ _ ih1 ih2 =>
    intro vs h
    obtain ⟨ws, h1, h2⟩ := ih1 h
    obtain ⟨us, h3, h4⟩ := ih2 h1
    exact ⟨us, h3, h2.trans h4⟩

theorem DepDenotes.agree (he : env.Lawful) {c : Nat} {l : List (String × V)} (h : IssuedOk env.toCacheEnv c l)
    {col : Option Name} {x : Name} {d : String} {v v' : V} (hd : DepDenotes env l col x d v)
    (hd' : DepDenotes env l col x d v') : v = v' ∨ (col = some x ∧ (env.items v).Perm (env.items v')) := by
  rcases hd with h1 | ⟨h1, h2⟩ | ⟨h1, ds, h2, h3⟩ <;> rcases hd' with h1' | ⟨h1', h2'⟩ | ⟨h1', ds', h2', h3'⟩
  · exact .inl (mem_fst_unique h.nodup h1 h1')
  · exact absurd (issued_lt h h1) (he.base.hash_plain h2')
  · exact absurd (issued_lt h h1) (h2' ▸ he.list_plain _)
  · exact absurd (issued_lt h h1') (he.base.hash_plain h2)
  · exact .inl (he.base.separates h2 h2')
  · exact absurd h1' h1
  · exact absurd (issued_lt h h1') (h2 ▸ he.list_plain _)
  · exact absurd h1 h1'
  · refine .inr ⟨h1, ?_⟩
    have hs := he.list_inj (h2.symm.trans h2')
    have hp : ds.Perm ds' := by
      refine ((sortBy_perm (le := strLe) ds).symm.trans ?_).trans (sortBy_perm (le := strLe) ds')
      rw [hs]
    obtain ⟨ws, h4, h5⟩ := h3.perm hp
    rw [h3'.unique he h h4]
    exact h5

theorem DepDenotes.comma (he : env.Lawful) {c : Nat} {l : List (String × V)} (h : IssuedOk env.toCacheEnv c l)
    {col : Option Name} {x : Name} {d : String} {v : V} (hd : DepDenotes env l col x d v) : ',' ∉ d.toList := by
  rcases hd with h1 | ⟨_, h2⟩ | ⟨_, ds, h2, _⟩
  · exact issued_comma he.base h h1
  · exact he.base.hash_comma h2
  · exact h2 ▸ he.list_comma _

theorem DepsOf.same (he : env.Lawful) {c : Nat} {l : List (String × V)} (h : IssuedOk env.toCacheEnv c l)
    {col : Option Name} {kw kw' : Dict Name V} {deps deps' : Dict String String} (hp : DepsOf env l col kw deps)
    (hp' : DepsOf env l col kw' deps') (hs : SameDict deps deps') : SameUpToOrder env col kw kw' := by
  intro x
  cases hx : kw.get? x with
  | none =>
    have h1 : x ∉ deps.keys := by rw [hp.1]; exact (Dict.get?_eq_none_iff _ _).1 hx
    have h2 := (Dict.get?_eq_none_iff _ _).2 h1
    rw [hs x] at h2
    have h3 := (Dict.get?_eq_none_iff _ _).1 h2
    rw [hp'.1] at h3
    exact .inl ((Dict.get?_eq_none_iff _ _).2 h3).symm
  | some v =>
    have h1 : x ∈ deps.keys := by rw [hp.1]; exact Dict.mem_keys_iff.2 ⟨v, hx⟩
    obtain ⟨d, hd⟩ := Dict.mem_keys_iff.1 h1
    have hd' : deps'.get? x = some d := by rw [← hs x]; exact hd
    have h2 : x ∈ kw'.keys := by rw [← hp'.1]; exact Dict.mem_keys_iff.2 ⟨d, hd'⟩
    obtain ⟨v', hv'⟩ := Dict.mem_keys_iff.1 h2
    rcases (hp.2 x d v hd hx).agree he h (hp'.2 x d v' hd' hv') with h3 | ⟨h3, h4⟩
    · exact .inl (by rw [hv', h3])
    · exact .inr ⟨h3, v, v', rfl, hv', h4⟩

end

/-! ### What the stores contain -/

/-- What the stores contain is right. -/
structure Good (env : TaskEnv V) (col : String → String → Option Name)
    (impl : String → String → Dict Name V → Except UserErr V) (s : State V) : Prop where
  issued : IssuedOk env.toCacheEnv s.counter s.issued
  store : ∀ k x, s.store.get? (some k) = some x → ∃ name code deps kw v,
    k = createCacheKey env.codec env.alnum name code deps ∧ deps.keys.Nodup ∧ CommaFree deps ∧
    DepsOf env s.issued (col (safeName env.alnum name) code) kw deps ∧ impl (safeName env.alnum name) code kw = .ok v ∧
    Denotes env.toCacheEnv s.issued x v
  results : ∀ d v, s.results.get? d = some v → Denotes env.toCacheEnv s.issued d v

/-- `s'` is `s` with more random versions drawn. -/
structure Drawn (env : TaskEnv V) (s s' : State V) : Prop where
  store : s'.store = s.store
  results : s'.results = s.results
  versions : s'.versions = s.versions
  keys : s'.keys = s.keys
  executed : s'.executed = s.executed
  issued : s.issued ⊆ s'.issued
  ok : IssuedOk env.toCacheEnv s.counter s.issued → IssuedOk env.toCacheEnv s'.counter s'.issued

section
variable {env : TaskEnv V} {col : String → String → Option Name}
  {impl : String → String → Dict Name V → Except UserErr V}

theorem Drawn.refl (s : State V) : Drawn env s s := ⟨rfl, rfl, rfl, rfl, rfl, fun _ h => h, id⟩

theorem Drawn.trans {s s' s'' : State V} (h : Drawn env s s') (h' : Drawn env s' s'') : Drawn env s s'' :=
  ⟨h'.1.trans h.1, h'.2.trans h.2, h'.3.trans h.3, h'.4.trans h.4, h'.5.trans h.5, fun _ hx => h'.6 (h.6 hx),
    fun hx => h'.7 (h.7 hx)⟩

theorem Good.hit (he : env.Lawful) (hu : OrderFree env col impl) {s : State V} (hg : Good env col impl s)
    {name code : String} {deps : Dict String String} {kw : Dict Name V} {x : String} (hn : deps.keys.Nodup)
    (hc : CommaFree deps) (hp : DepsOf env s.issued (col (safeName env.alnum name) code) kw deps)
    (hget : s.store.get? (some (createCacheKey env.codec env.alnum name code deps)) = some x) :
    ∃ v, impl (safeName env.alnum name) code kw = .ok v ∧ Denotes env.toCacheEnv s.issued x v := by
  obtain ⟨name', code', deps', kw', v, hk, hn', hc', hp', hi, hd⟩ := hg.store _ _ hget
  obtain ⟨h1, h2, h3⟩ := C29_injective_partial he.base.codec he.base.dash hn hn' hc hc' hk
  have hsn : safeName env.alnum name = safeName env.alnum name' := by unfold safeName; rw [h1]
  refine ⟨v, ?_, hd⟩
  rw [hsn, h2] at hp ⊢
  rw [hu _ _ _ _ (hp.same he hg.issued hp' h3)]
  exact hi

theorem Good.of_issued {s s' : State V} (hg : Good env col impl s) (h1 : s'.store = s.store) (h2 : s'.results = s.results)
    (h3 : s.issued ⊆ s'.issued) (h4 : IssuedOk env.toCacheEnv s'.counter s'.issued) : Good env col impl s' where
  issued := h4
  store := by
    intro k x h
    rw [h1] at h
    obtain ⟨name, code, deps, kw, v, a, b, c, d, e, f⟩ := hg.store k x h
    exact ⟨name, code, deps, kw, v, a, b, c, d.mono h3, e, f.mono h3⟩
  results := by
    intro d v h
    rw [h2] at h
    exact (hg.results d v h).mono h3

theorem Good.of_drawn {s s' : State V} (hg : Good env col impl s) (hd : Drawn env s s') : Good env col impl s' :=
  hg.of_issued hd.store hd.results hd.issued (hd.ok hg.issued)

/-! ### Drawing versions -/

theorem fresh_spec (he : env.Lawful) {pre : String} (hp : pre = "<unhashable>" ∨ pre = "<disable>") (v : V) (s : State V) :
    Drawn env s (s.fresh env pre v).2 ∧ ((s.fresh env pre v).1, v) ∈ (s.fresh env pre v).2.issued :=
  ⟨⟨rfl, rfl, rfl, rfl, rfl, fun _ h => List.mem_cons_of_mem _ h, fun h => issued_fresh he.base h hp v⟩, List.mem_cons_self⟩

theorem versionData_spec (he : env.Lawful) (v : V) (s : State V) :
    Drawn env s (s.versionData env v).2 ∧
      Denotes env.toCacheEnv (s.versionData env v).2.issued (s.versionData env v).1 v := by
  unfold State.versionData
  cases h : env.hash v with
  | some d => exact ⟨.refl s, .inl h⟩
  | none =>
    have := fresh_spec he (.inl rfl) v s (pre := "<unhashable>")
    exact ⟨this.1, .inr this.2⟩

theorem versionItems_spec (he : env.Lawful) : ∀ (vs : List V) (s : State V),
    Drawn env s (s.versionItems env vs).2 ∧ AllDenote env (s.versionItems env vs).2.issued (s.versionItems env vs).1 vs
  | [], s => ⟨.refl s, trivial⟩
  | v :: rest, s => by
    have h1 := versionData_spec he v s
    have h2 := versionItems_spec he rest (s.versionData env v).2
    exact ⟨h1.1.trans h2.1, h1.2.mono h2.1.issued, h2.2⟩

theorem Denotes.dep {l : List (String × V)} {c : Option Name} {x : Name} {d : String} {v : V} (h : c ≠ some x)
    (hd : Denotes env.toCacheEnv l d v) : DepDenotes env l c x d v :=
  hd.elim (fun h' => .inr (.inl ⟨h, h'⟩)) .inl

/-- What the adapter remembers about the dependency `d` fits the value `v` passed. -/
structure Fits (env : TaskEnv V) (f : Flow V) (c : Option Name) (task : String) (s : State V) (d : Name) (v : V) : Prop where
  noIgnore : f.behaviorOf d ≠ .ignore
  entry : f.behaviorOf d ≠ .disable → c ≠ some d → f.kinds d ≠ .expand →
    s.versions.get? d = none ∨ (∃ x, s.versions.get? d = some (.one x) ∧ Denotes env.toCacheEnv s.issued x v) ∨
      ∃ m x, s.versions.get? d = some (.perTask m) ∧ m.get? task = some x ∧ Denotes env.toCacheEnv s.issued x v

theorem Fits.of_drawn {f : Flow V} {c : Option Name} {task : String} {s s' : State V} {d : Name} {v : V}
    (h : Fits env f c task s d v) (hd : Drawn env s s') : Fits env f c task s' d v where
  noIgnore := h.noIgnore
  entry := by
    intro h1 h2 h3
    rw [hd.versions]
    rcases h.entry h1 h2 h3 with h4 | ⟨x, h4, h5⟩ | ⟨m, x, h4, h5, h6⟩
    · exact .inl h4
    · exact .inr (.inl ⟨x, h4, h5.mono hd.issued⟩)
    · exact .inr (.inr ⟨m, x, h4, h5, h6.mono hd.issued⟩)

theorem lookupDep_spec (he : env.Lawful) {f : Flow V} {c : Option Name} {task : String} {s : State V} {d : Name} {v : V}
    (h : Fits env f c task s d v) (h1 : f.behaviorOf d ≠ .disable) (h2 : c ≠ some d) (h3 : f.kinds d ≠ .expand) :
    ∃ x s', lookupDep env task d v s = (.ok x, s') ∧ Drawn env s s' ∧ DepDenotes env s'.issued c d x v := by
  unfold lookupDep
  rcases h.entry h1 h2 h3 with h4 | ⟨x, h4, h5⟩ | ⟨m, x, h4, h5, h6⟩
  · rw [h4]
    have hv := versionData_spec he v s
    exact ⟨_, _, rfl, hv.1, Denotes.dep h2 hv.2⟩
  · rw [h4]
    exact ⟨x, s, rfl, .refl s, Denotes.dep h2 h5⟩
  · rw [h4]
    simp only [h5]
    exact ⟨x, s, rfl, .refl s, Denotes.dep h2 h6⟩

theorem depVersion_spec (he : env.Lawful) {f : Flow V} {c : Option Name} {task : String} {s : State V} {d : Name} {v : V}
    (h : Fits env f c task s d v) :
    ∃ x s', depVersion env f c task d v s = (.ok x, s') ∧ Drawn env s s' ∧ DepDenotes env s'.issued c d x v := by
  have hfr := fresh_spec he (.inr rfl) v s (pre := "<disable>")
  have main : f.behaviorOf d ≠ .disable → ∃ x s',
      (if c = some d then
        ((.ok (env.hashList (sortBy strLe (s.versionItems env (env.items v)).1)), (s.versionItems env (env.items v)).2) :
          Except UserErr String × State V)
      else match f.kinds d with
        | .expand => (.ok (s.versionData env v).1, (s.versionData env v).2)
        | _ => lookupDep env task d v s) = (.ok x, s') ∧ Drawn env s s' ∧ DepDenotes env s'.issued c d x v := by
    intro hnd
    by_cases hcd : c = some d
    · rw [if_pos hcd]
      have hv := versionItems_spec he (env.items v) s
      exact ⟨_, _, rfl, hv.1, .inr (.inr ⟨hcd, _, rfl, hv.2⟩)⟩
    · rw [if_neg hcd]
      cases hk : f.kinds d with
      | expand =>
        have hv := versionData_spec he v s
        exact ⟨_, _, rfl, hv.1, Denotes.dep hcd hv.2⟩
      | plain => exact lookupDep_spec he h hnd hcd (by rw [hk]; exact Kind.noConfusion)
      | collect e => exact lookupDep_spec he h hnd hcd (by rw [hk]; exact Kind.noConfusion)
  unfold depVersion
  cases hb : f.behaviorOf d with
  | ignore => exact absurd hb h.noIgnore
  | disable => exact ⟨_, _, rfl, hfr.1, .inl hfr.2⟩
  | default => exact main (by rw [hb]; exact Behavior.noConfusion)
  | recompute => exact main (by rw [hb]; exact Behavior.noConfusion)

theorem depVersions_spec (he : env.Lawful) {f : Flow V} {c : Option Name} {task : String} :
    ∀ (kw : Dict Name V) (acc : Dict Name String) (before : Dict Name V) (s : State V), kw.keys.Nodup →
      (∀ x ∈ kw.keys, x ∉ acc.keys) → DepsOf env s.issued c before acc → (∀ p ∈ kw, Fits env f c task s p.1 p.2) →
      ∃ deps s', depVersions env f c task kw acc s = (.ok deps, s') ∧ Drawn env s s' ∧
        DepsOf env s'.issued c (before ++ kw) deps ∧ (acc.keys.Nodup → deps.keys.Nodup) := by
  intro kw
  induction kw with
  | nil =>
    intro acc before s _ _ h _
    exact ⟨acc, s, rfl, .refl s, by rw [List.append_nil]; exact h, id⟩
  | cons p rest ih =>
    obtain ⟨d, v⟩ := p
    intro acc before s hn hd h hf
    rw [Dict.keys_cons, List.nodup_cons] at hn
    obtain ⟨x, s1, h1, h2, h3⟩ := depVersion_spec he (hf (d, v) List.mem_cons_self)
    have hda : d ∉ acc.keys := hd d (by rw [Dict.keys_cons]; exact List.mem_cons_self)
    have hda' : d ∉ before.keys := by rw [← h.1]; exact hda
    have hkeys : (acc.set d x).keys = acc.keys ++ [d] := by
      rw [Dict.keys_set_of_not_mem hda x]; simp [Dict.keys]
    have hacc : DepsOf env s1.issued c (before ++ [(d, v)]) (acc.set d x) := by
      constructor
      · rw [hkeys, h.1]; simp [Dict.keys]
      · intro y e w hy hw
        rw [Dict.get?_set] at hy
        rw [Dict.get?_append] at hw
        by_cases hyd : d = y
        · subst hyd
          rw [if_pos rfl] at hy
          rw [(Dict.get?_eq_none_iff _ _).2 hda'] at hw
          simp [Dict.get?] at hw
          injection hy with hy
          subst hy hw
          exact h3
        · rw [if_neg hyd] at hy
          have : (Dict.get? [(d, v)] y : Option V) = none := by simp [Dict.get?, hyd]
          rw [this, Option.or_none] at hw
          exact (h.2 y e w hy hw).mono h2.issued
    have hdis : ∀ y ∈ Dict.keys rest, y ∉ (acc.set d x).keys := by
      intro y hy
      rw [hkeys, List.mem_append, List.mem_singleton]
      rintro (h' | rfl)
      · exact hd y (by rw [Dict.keys_cons]; exact List.mem_cons_of_mem _ hy) h'
      · exact hn.1 hy
    obtain ⟨deps, s', h4, h5, h6, h7⟩ := ih (acc.set d x) (before ++ [(d, v)]) s1 hn.2 hdis hacc
      (fun p hp => (hf p (List.mem_cons_of_mem _ hp)).of_drawn h2)
    refine ⟨deps, s', ?_, h2.trans h5, ?_, fun hq => h7 (Dict.keys_set_nodup hq _ _)⟩
    · simp only [depVersions, h1, h4]
    · rw [List.append_assoc] at h6
      exact h6

theorem commaFree_of (he : env.Lawful) {n : Nat} {l : List (String × V)} (hi : IssuedOk env.toCacheEnv n l)
    {c : Option Name} {kw : Dict Name V} {deps : Dict String String} (hd : DepsOf env l c kw deps)
    (hk : deps.keys.Nodup) (hn : ∀ x ∈ kw.keys, ',' ∉ x.toList) : CommaFree deps := by
  intro p hp
  have hx : p.1 ∈ deps.keys := List.mem_map_of_mem (f := (·.1)) hp
  have hx' : p.1 ∈ kw.keys := hd.1 ▸ hx
  obtain ⟨v, hv⟩ := Dict.mem_keys_iff.1 hx'
  exact ⟨hn _ hx', (hd.2 p.1 p.2 v (Dict.get?_of_mem hk hp) hv).comma he hi⟩

/-! ### Entries -/

/-- The entry of a node after a string was stored for the task. -/
structure Stored (role : Role) (task x : String) (old new : Option Entry) : Prop where
  inside : role = .inside → ∃ m, new = some (.perTask (m.set task x)) ∧
    (old = some (.perTask m) ∨ (old = none ∧ m = []))
  single : role ≠ .inside → new = some (.one x)

theorem setEntry_spec {role : Role} {name : Name} {task x : String} {d : Dict Name Entry}
    (h : role = .inside → ∀ y, d.get? name ≠ some (.one y)) :
    ∃ d', setEntry role name task x d = .ok d' ∧ (∀ n, n ≠ name → d'.get? n = d.get? n) ∧
      Stored role task x (d.get? name) (d'.get? name) := by
  have hne : ∀ (e : Entry) (n : Name), n ≠ name → (d.set name e).get? n = d.get? n := by
    intro e n hn
    rw [Dict.get?_set_ne _ _ (fun h => hn h.symm)]
  cases role with
  | inside =>
    cases hd : d.get? name with
    | none =>
      refine ⟨d.set name (.perTask [(task, x)]), by simp only [setEntry, hd], hne _, ⟨fun _ => ⟨[], ?_, .inr ⟨rfl, rfl⟩⟩, ?_⟩⟩
      · rw [Dict.get?_set_self]; rfl
      · intro h; exact absurd rfl h
    | some e =>
      cases e with
      | one y => exact absurd hd (h rfl y)
      | perTask m =>
        refine ⟨d.set name (.perTask (m.set task x)), by simp only [setEntry, hd], hne _, ⟨fun _ => ⟨m, ?_, .inl rfl⟩, ?_⟩⟩
        · rw [Dict.get?_set_self]
        · intro h; exact absurd rfl h
  | outside => exact ⟨_, rfl, hne _, ⟨(fun h => by cases h), fun _ => Dict.get?_set_self _ _ _⟩⟩
  | expand => exact ⟨_, rfl, hne _, ⟨(fun h => by cases h), fun _ => Dict.get?_set_self _ _ _⟩⟩
  | collect => exact ⟨_, rfl, hne _, ⟨(fun h => by cases h), fun _ => Dict.get?_set_self _ _ _⟩⟩

theorem Stored.getKey {role : Role} {name : Name} {task x : String} {old : Option Entry} {s : State V}
    (h : Stored role task x old (s.keys.get? name)) : getKey role name task s = .ok (some x) := by
  cases role with
  | inside =>
    obtain ⟨m, h1, _⟩ := h.inside rfl
    simp only [TaskCache.getKey, h1, Dict.get?_set_self]
  | outside => simp only [TaskCache.getKey, h.single (by decide)]
  | expand => simp only [TaskCache.getKey, h.single (by decide)]
  | collect => simp only [TaskCache.getKey, h.single (by decide)]

theorem Stored.memVersion {role : Role} {name : Name} {task x : String} {old : Option Entry} {s : State V}
    (h : Stored role task x old (s.versions.get? name)) (hr : role ≠ .expand) : memVersion role name task s = .ok (some x) := by
  cases role with
  | inside =>
    obtain ⟨m, h1, _⟩ := h.inside rfl
    simp only [TaskCache.memVersion, h1, Dict.get?_set_self]
  | outside => simp only [TaskCache.memVersion, h.single (by decide)]
  | expand => exact absurd rfl hr
  | collect => simp only [TaskCache.memVersion, h.single (by decide)]

theorem Stored.not_one {role : Role} {task x : String} {old new : Option Entry} (h : Stored role task x old new)
    (hr : role = .inside) (y : String) : new ≠ some (.one y) := by
  obtain ⟨m, h1, _⟩ := h.inside hr
  rw [h1]
  simp

/-- The versions of a node after the version `x` of its result was recorded. -/
structure Recorded (role : Role) (name : Name) (task x : String) (s s' : State V) : Prop where
  others : ∀ n, n ≠ name → s'.versions.get? n = s.versions.get? n
  expand : role = .expand → s'.versions.get? name = some (.perTask [])
  entry : role ≠ .expand → Stored role task x (s.versions.get? name) (s'.versions.get? name)

theorem setVersion_spec {role : Role} {name : Name} {task x : String} {s : State V}
    (h : role = .inside → ∀ y, s.versions.get? name ≠ some (.one y)) :
    ∃ d, setVersion role name task x s = (.ok (), { s with versions := d }) ∧
      Recorded role name task x s { s with versions := d } := by
  obtain ⟨d', h1, h2, h3⟩ := setEntry_spec (role := role) (task := task) (x := x) h
  by_cases hr : role = .expand
  · subst hr
    refine ⟨s.versions.set name (.perTask []), rfl, ⟨?_, ?_, ?_⟩⟩
    · intro n hn
      exact Dict.get?_set_ne _ _ (fun h => hn h.symm)
    · intro _
      exact Dict.get?_set_self _ _ _
    · intro h
      exact absurd rfl h
  · refine ⟨d', ?_, ⟨h2, fun h => absurd h hr, fun _ => h3⟩⟩
    unfold setVersion
    cases role with
    | expand => exact absurd rfl hr
    | inside => simp only [h1]
    | outside => simp only [h1]
    | collect => simp only [h1]

/-! ### One node -/

/-- The adapter has no version for the node in this task yet. -/
structure Ready (role : Role) (name : Name) (task : String) (s : State V) : Prop where
  free : memVersion role name task s = .ok none
  versions : role = .inside → ∀ y, s.versions.get? name ≠ some (.one y)
  keys : role = .inside → ∀ y, s.keys.get? name ≠ some (.one y)

/-- The key the adapter remembers for the node and the task is the one for the arguments `kw`. -/
structure Keyed (env : TaskEnv V) (col : String → String → Option Name) (f : Flow V) (name : Name) (task : String)
    (kw : Dict Name V) (s : State V) (key : String) : Prop where
  get : getKey (roleOf (f.kinds name) name task) name task s = .ok (some key)
  form : ∃ deps, key = createCacheKey env.codec env.alnum name (f.codes name) deps ∧ deps.keys.Nodup ∧ CommaFree deps ∧
    DepsOf env s.issued (col (safeName env.alnum name) (f.codes name)) kw deps

/-- The node was executed, or its result retrieved, with result `v`. -/
structure Done (env : TaskEnv V) (f : Flow V) (name : Name) (task : String) (s s' : State V) (v : V) : Prop where
  disabled : f.behaviorOf name = .disable → s'.versions = s.versions
  recorded : f.behaviorOf name ≠ .disable → ∃ x, Denotes env.toCacheEnv s'.issued x v ∧
    Recorded (roleOf (f.kinds name) name task) name task x s s'
  keys : ∀ n, n ≠ name → s'.keys.get? n = s.keys.get? n
  keysName : roleOf (f.kinds name) name task = .inside → ∀ y, s'.keys.get? name ≠ some (.one y)
  issued : s.issued ⊆ s'.issued

theorem preNode_spec (he : env.Lawful) {f : Flow V} {name : Name} {task : String} {kw : Dict Name V} {s : State V}
    (hcol : collected (f.kinds name) = col (safeName env.alnum name) (f.codes name))
    (hg : Good env col impl s) (hb : f.behaviorOf name ≠ .ignore) (hn : kw.keys.Nodup)
    (hnames : ∀ x ∈ kw.keys, ',' ∉ x.toList)
    (hf : ∀ p ∈ kw, Fits env f (collected (f.kinds name)) task s p.1 p.2)
    (hr : Ready (roleOf (f.kinds name) name task) name task s) :
    ∃ s', preNode env f name task kw s = (.ok (), s') ∧ Good env col impl s' ∧ s'.versions = s.versions ∧
      s'.store = s.store ∧ s'.results = s.results ∧ s'.executed = s.executed ∧ s.issued ⊆ s'.issued ∧
      (∀ n, n ≠ name → s'.keys.get? n = s.keys.get? n) ∧
      (roleOf (f.kinds name) name task = .inside → ∀ y, s'.keys.get? name ≠ some (.one y)) ∧
      (f.behaviorOf name ≠ .disable → ∃ key, Keyed env col f name task kw s' key) := by
  obtain ⟨deps, s1, h1, h2, h3, h4⟩ := depVersions_spec he kw [] [] s hn (fun _ _ h => by cases h)
    ⟨rfl, fun _ _ _ h => by cases h⟩ hf
  rw [List.nil_append] at h3
  have h4 := h4 List.nodup_nil
  have hg1 := hg.of_drawn h2
  obtain ⟨ks, h5, h6, h7⟩ := setEntry_spec (role := roleOf (f.kinds name) name task) (name := name) (task := task)
    (x := createCacheKey env.codec env.alnum name (f.codes name) deps) (d := s1.keys)
    (by rw [h2.keys]; exact hr.keys)
  have hcf := commaFree_of he hg1.issued h3 h4 hnames
  have main : ∃ s', (match depVersions env f (collected (f.kinds name)) task kw [] s with
      | (.error e, s) => ((.error e, s) : Except UserErr Unit × State V)
      | (.ok deps, s) => setKey (roleOf (f.kinds name) name task) name task
          (createCacheKey env.codec env.alnum name (f.codes name) deps) s) = (.ok (), s') ∧ Good env col impl s' ∧
      s'.versions = s.versions ∧ s'.store = s.store ∧ s'.results = s.results ∧ s'.executed = s.executed ∧
      s.issued ⊆ s'.issued ∧ (∀ n, n ≠ name → s'.keys.get? n = s.keys.get? n) ∧
      (roleOf (f.kinds name) name task = .inside → ∀ y, s'.keys.get? name ≠ some (.one y)) ∧
      (f.behaviorOf name ≠ .disable → ∃ key, Keyed env col f name task kw s' key) := by
    refine ⟨{ s1 with keys := ks }, ?_, ?_, h2.versions, h2.store, h2.results, h2.executed, h2.issued, ?_, ?_, ?_⟩
    · simp only [h1, setKey, h5]
    · exact hg1.of_issued rfl rfl (fun _ h => h) hg1.issued
    · intro n hne
      exact (h6 n hne).trans (by rw [h2.keys])
    · exact fun h => h7.not_one h
    · intro _
      exact ⟨_, Stored.getKey (old := s1.keys.get? name) h7, deps, rfl, h4, hcf, hcol ▸ h3⟩
  unfold preNode
  cases hbn : f.behaviorOf name with
  | ignore => exact absurd hbn hb
  | disable =>
    exact ⟨s, rfl, hg, rfl, rfl, rfl, rfl, fun _ h => h, fun _ _ => rfl, hr.keys, fun h => absurd rfl h⟩
  | default => rw [hbn] at main; exact main
  | recompute => rw [hbn] at main; exact main

theorem Good.stored (hg : Good env col impl s) {f : Flow V} {name : Name} {task : String} {kw : Dict Name V} {key x : String}
    {v : V} (hk : Keyed env col f name task kw s key) (hv : impl (safeName env.alnum name) (f.codes name) kw = .ok v)
    (hx : Denotes env.toCacheEnv s.issued x v) : Good env col impl { s with store := s.store.set (some key) x } where
  issued := hg.issued
  store := by
    intro k y h
    have h : (s.store.set (some key) x).get? (some k) = some y := h
    rw [Dict.get?_set] at h
    by_cases hkk : some key = some k
    · rw [if_pos hkk] at h
      injection h with h
      injection hkk with hkk
      obtain ⟨deps, h1, h2, h3, h4⟩ := hk.form
      exact ⟨name, f.codes name, deps, kw, v, hkk ▸ h1, h2, h3, h4, hv, h ▸ hx⟩
    · rw [if_neg hkk] at h
      exact hg.store k y h
  results := hg.results

theorem getKey_congr {role : Role} {name : Name} {task : String} {s s' : State V} (h : s'.keys = s.keys) :
    getKey role name task s' = getKey role name task s := by
  unfold getKey
  rw [h]

theorem Keyed.mono {f : Flow V} {name : Name} {task : String} {kw : Dict Name V} {s s' : State V} {key : String}
    (hk : Keyed env col f name task kw s key) (h : s'.keys = s.keys) (hi : s.issued ⊆ s'.issued) :
    Keyed env col f name task kw s' key where
  get := (getKey_congr h).trans hk.get
  form := by
    obtain ⟨deps, h1, h2, h3, h4⟩ := hk.form
    exact ⟨deps, h1, h2, h3, h4.mono hi⟩

/-- What `do_node_execute` leaves when the node is not disabled. -/
structure DoneDo (env : TaskEnv V) (col : String → String → Option Name)
    (impl : String → String → Dict Name V → Except UserErr V) (f : Flow V) (name : Name) (task key : String) (s s' : State V)
    (v : V) : Prop where
  good : Good env col impl s'
  keys : s'.keys = s.keys
  issued : s.issued ⊆ s'.issued
  version : ∃ x, Denotes env.toCacheEnv s'.issued x v ∧ Recorded (roleOf (f.kinds name) name task) name task x s s' ∧
    (roleOf (f.kinds name) name task = .expand → s'.store.get? (some key) = some x)

theorem executeAndRecord_spec (he : env.Lawful) {f : Flow V} {name : Name} {task key : String} {kw : Dict Name V} {s : State V}
    (hfn : f.fns name kw = impl (safeName env.alnum name) (f.codes name) kw)
    (hg : Good env col impl s) (hk : Keyed env col f name task kw s key)
    (hr : roleOf (f.kinds name) name task = .inside → ∀ y, s.versions.get? name ≠ some (.one y)) :
    (∀ e, f.fns name kw = .error e → ∃ s', executeAndRecord env f name task kw s = (.error e, s') ∧ Good env col impl s') ∧
    (∀ v, f.fns name kw = .ok v → ∃ s', executeAndRecord env f name task kw s = (.ok v, s') ∧
      DoneDo env col impl f name task key s s' v) := by
  have hg1 : Good env col impl { s with executed := s.executed ++ [(name, task)] } :=
    hg.of_issued rfl rfl (fun _ h => h) hg.issued
  constructor
  · intro e hv
    exact ⟨{ s with executed := s.executed ++ [(name, task)] }, by simp only [executeAndRecord, callNode, hv], hg1⟩
  · intro v hv
    have hkey : getKey (roleOf (f.kinds name) name task) name task { s with executed := s.executed ++ [(name, task)] } =
        .ok (some key) := (getKey_congr rfl).trans hk.get
    have hvd := versionData_spec he v { s with executed := s.executed ++ [(name, task)] }
    obtain ⟨x, s2, hp⟩ : ∃ x s2, State.versionData env v { s with executed := s.executed ++ [(name, task)] } = (x, s2) :=
      ⟨_, _, rfl⟩
    rw [hp] at hvd
    obtain ⟨hd, hden⟩ := hvd
    simp only at hd hden
    have hver : s2.versions = s.versions := hd.versions
    obtain ⟨vs, h1, h2⟩ := setVersion_spec (role := roleOf (f.kinds name) name task) (name := name) (task := task)
      (x := x) (s := s2) (by rw [hver]; exact hr)
    have hg2 := hg1.of_drawn hd
    refine ⟨{ s2 with versions := vs, store := s2.store.set (some key) x }, ?_, ?_, hd.keys, hd.issued, ?_⟩
    · simp only [executeAndRecord, callNode, hv, hkey, recordResult, hp, h1]
    · have hg3 : Good env col impl { s2 with versions := vs } := hg2.of_issued rfl rfl (fun _ h => h) hg2.issued
      have hk3 : Keyed env col f name task kw { s2 with versions := vs } key := hk.mono hd.keys hd.issued
      exact hg3.stored hk3 (hfn ▸ hv) hden
    · refine ⟨x, hden, ⟨?_, h2.expand, ?_⟩, fun _ => Dict.get?_set_self _ _ _⟩
      · intro n hn
        exact (h2.others n hn).trans (by rw [hver])
      · intro hne
        have := h2.entry hne
        rw [hver] at this
        exact this

theorem retrieve_spec (he : env.Lawful) {f : Flow V} {name : Name} {task key : String} {kw : Dict Name V} {s : State V}
    (hfn : f.fns name kw = impl (safeName env.alnum name) (f.codes name) kw)
    (hg : Good env col impl s) (hk : Keyed env col f name task kw s key)
    (hr : roleOf (f.kinds name) name task = .inside → ∀ y, s.versions.get? name ≠ some (.one y))
    (hne : roleOf (f.kinds name) name task ≠ .expand) {ver : Option String}
    (hver : ∀ x, ver = some x → ∃ v, f.fns name kw = .ok v ∧ Denotes env.toCacheEnv s.issued x v) :
    (∀ e, f.fns name kw = .error e → ∃ s', retrieve env f name task kw ver s = (.error e, s') ∧ Good env col impl s') ∧
    (∀ v, f.fns name kw = .ok v → ∃ s', retrieve env f name task kw ver s = (.ok v, s') ∧
      DoneDo env col impl f name task key s s' v) := by
  have hx := executeAndRecord_spec he hfn hg hk hr
  unfold retrieve
  cases ver with
  | none => exact hx
  | some x =>
    simp only
    by_cases hu : x = "<unhashable>"
    · rw [if_pos hu]
      exact hx
    · rw [if_neg hu]
      cases hres : s.results.get? x with
      | none => exact hx
      | some w =>
        obtain ⟨v, h1, h2⟩ := hver x rfl
        have hw : w = v := (hg.results x w hres).unique he.base hg.issued h2
        subst hw
        obtain ⟨vs, h3, h4⟩ := setVersion_spec (role := roleOf (f.kinds name) name task) (name := name) (task := task)
          (x := x) (s := s) hr
        constructor
        · intro e he'
          rw [h1] at he'
          cases he'
        · intro v' hv'
          rw [h1] at hv'
          injection hv' with hv'
          subst hv'
          exact ⟨{ s with versions := vs }, by simp only [h3],
            hg.of_issued rfl rfl (fun _ h => h) hg.issued, rfl, fun _ h => h, x, h2, h4, fun h => absurd h hne⟩

theorem getDataVersion_spec {role : Role} {name : Name} {task key x : String} {s s' : State V}
    (h : Recorded role name task x s s') (he : role = .expand → s'.store.get? (some key) = some x) :
    getDataVersion role name task (some key) s' = .ok (some x) := by
  unfold getDataVersion
  by_cases hr : role = .expand
  · have := he hr
    subst hr
    simp only [memVersion, this]
  · rw [(h.entry hr).memVersion hr]

theorem roleOf_expand {k : Kind} {name : Name} {task : String} (h : roleOf k name task = .expand) : k = .expand := by
  unfold roleOf at h
  cases k with
  | expand => rfl
  | collect d => cases h
  | plain =>
    simp only at h
    split at h <;> cases h

theorem postNode_spec {f : Flow V} {name : Name} {task key : String} {kw : Dict Name V} {s s' : State V} {v : V}
    (hb : f.behaviorOf name ≠ .disable) (hk : Keyed env col f name task kw s key)
    (hd : DoneDo env col impl f name task key s s' v) :
    ∃ rs, postNode f name task v s' = (.ok (), { s' with results := rs }) ∧
      Good env col impl { s' with results := rs } := by
  obtain ⟨x, h1, h2, h3⟩ := hd.version
  have hkey : getKey (roleOf (f.kinds name) name task) name task s' = .ok (some key) := (getKey_congr hd.keys).trans hk.get
  have hver := getDataVersion_spec h2 h3
  have main : ∃ rs, (match getKey (roleOf (f.kinds name) name task) name task s' with
      | .error e => ((.error e, s') : Except UserErr Unit × State V)
      | .ok key =>
        match getDataVersion (roleOf (f.kinds name) name task) name task key s' with
        | .error e => (.error e, s')
        | .ok none => (.error "AssertionError", s')
        | .ok (some x) =>
          if s'.results.has x then (.ok (), s') else (.ok (), { s' with results := s'.results.set x v })) =
        (.ok (), { s' with results := rs }) ∧ Good env col impl { s' with results := rs } := by
    simp only [hkey, hver]
    by_cases hh : s'.results.has x = true
    · exact ⟨s'.results, by rw [if_pos hh], hd.good⟩
    · refine ⟨s'.results.set x v, by rw [if_neg hh], ⟨hd.good.issued, hd.good.store, ?_⟩⟩
      intro d w hw
      have hw : (s'.results.set x v).get? d = some w := hw
      rw [Dict.get?_set] at hw
      by_cases hxd : x = d
      · rw [if_pos hxd] at hw
        injection hw with hw
        subst hw hxd
        exact h1
      · rw [if_neg hxd] at hw
        exact hd.good.results d w hw
  unfold postNode
  cases hbn : f.behaviorOf name with
  | disable => exact absurd hbn hb
  | ignore => exact main
  | default => exact main
  | recompute => exact main

theorem doNode_spec (he : env.Lawful) (hu : OrderFree env col impl) {f : Flow V} {name : Name} {task key : String}
    {kw : Dict Name V} {s : State V} (hfn : f.fns name kw = impl (safeName env.alnum name) (f.codes name) kw)
    (hg : Good env col impl s) (hb : f.behaviorOf name ≠ .disable) (hk : Keyed env col f name task kw s key)
    (hr : roleOf (f.kinds name) name task = .inside → ∀ y, s.versions.get? name ≠ some (.one y))
    (hfree : memVersion (roleOf (f.kinds name) name task) name task s = .ok none) :
    (∀ e, f.fns name kw = .error e → ∃ s', doNode env f name task kw s = (.error e, s') ∧ Good env col impl s') ∧
    (∀ v, f.fns name kw = .ok v → ∃ s', doNode env f name task kw s = (.ok v, s') ∧
      DoneDo env col impl f name task key s s' v) := by
  have hx := executeAndRecord_spec he hfn hg hk hr
  unfold doNode
  cases hbn : f.behaviorOf name with
  | disable => exact absurd hbn hb
  | recompute => exact hx
  | ignore => exact hx
  | default =>
    have hne : roleOf (f.kinds name) name task ≠ .expand := by
      intro h
      have := roleOf_expand h
      unfold Flow.behaviorOf at hbn
      rw [this] at hbn
      cases hbn
    simp only [hk.get]
    have hgd : getDataVersion (roleOf (f.kinds name) name task) name task (some key) s = .ok (s.store.get? (some key)) := by
      unfold getDataVersion
      rw [hfree]
    simp only [hgd]
    refine retrieve_spec he hfn hg hk hr hne ?_
    intro x hx
    obtain ⟨deps, h1, h2, h3, h4⟩ := hk.form
    subst h1
    obtain ⟨v, h5, h6⟩ := hg.hit he hu h2 h3 h4 hx
    exact ⟨v, hfn.trans h5, h6⟩

theorem cachedNode_spec (he : env.Lawful) (hu : OrderFree env col impl) {f : Flow V} {name : Name} {task : String}
    {kw : Dict Name V} {s : State V} (hfn : f.fns name kw = impl (safeName env.alnum name) (f.codes name) kw)
    (hcol : collected (f.kinds name) = col (safeName env.alnum name) (f.codes name))
    (hg : Good env col impl s) (hb : f.behaviorOf name ≠ .ignore) (hn : kw.keys.Nodup)
    (hnames : ∀ x ∈ kw.keys, ',' ∉ x.toList)
    (hf : ∀ p ∈ kw, Fits env f (collected (f.kinds name)) task s p.1 p.2)
    (hr : Ready (roleOf (f.kinds name) name task) name task s) :
    (∀ e, f.fns name kw = .error e → ∃ s', cachedNode env f name task kw s = (.error e, s') ∧ Good env col impl s') ∧
    (∀ v, f.fns name kw = .ok v → ∃ s', cachedNode env f name task kw s = (.ok v, s') ∧ Good env col impl s' ∧
      Done env f name task s s' v) := by
  obtain ⟨s1, h1, hg1, hv1, hst1, hrs1, hex1, hi1, hk1, hk1', hkey⟩ := preNode_spec he hcol hg hb hn hnames hf hr
  by_cases hd : f.behaviorOf name = .disable
  · have hg2 : Good env col impl { s1 with executed := s1.executed ++ [(name, task)] } :=
      hg1.of_issued rfl rfl (fun _ h => h) hg1.issued
    constructor
    · intro e hv
      exact ⟨_, by simp only [cachedNode, h1, doNode, hd, callNode, hv], hg2⟩
    · intro v hv
      refine ⟨_, by simp only [cachedNode, h1, doNode, hd, callNode, hv, postNode], hg2, ?_⟩
      exact ⟨fun _ => hv1, fun h => absurd hd h, hk1, hk1', hi1⟩
  · obtain ⟨key, hk⟩ := hkey hd
    have hdo := doNode_spec he hu hfn hg1 hd hk (by rw [hv1]; exact hr.versions)
      (by
        have := hr.free
        unfold memVersion at this ⊢
        rw [hv1]
        exact this)
    constructor
    · intro e hv
      obtain ⟨s2, h2, hg2⟩ := hdo.1 e hv
      exact ⟨s2, by simp only [cachedNode, h1, h2], hg2⟩
    · intro v hv
      obtain ⟨s2, h2, hd2⟩ := hdo.2 v hv
      obtain ⟨rs, h3, hg3⟩ := postNode_spec hd hk hd2
      refine ⟨{ s2 with results := rs }, by simp only [cachedNode, h1, h2, h3], hg3, ?_⟩
      obtain ⟨x, h4, h5, h6⟩ := hd2.version
      refine ⟨fun h => absurd h hd, fun _ => ⟨x, h4, ⟨?_, h5.expand, ?_⟩⟩, ?_, ?_, ?_⟩
      · intro n hne
        exact (h5.others n hne).trans (by rw [hv1])
      · intro hne
        have := h5.entry hne
        rw [hv1] at this
        exact this
      · intro n hne
        have : s2.keys = s1.keys := hd2.keys
        exact (congrArg (fun d => Dict.get? d n) this).trans (hk1 n hne)
      · intro h y
        have : s2.keys = s1.keys := hd2.keys
        show s2.keys.get? name ≠ _
        rw [this]
        exact hk1' h y
      · exact fun _ h => hd2.issued (hi1 h)

end

end Verif.TaskCache
