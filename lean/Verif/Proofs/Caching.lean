import Verif.Spec.Caching
import Verif.Props.CacheKey
import Verif.Proofs.Lifecycle
import Verif.Proofs.Subdag

/-! Invariant of the caching adapter and its stores. -/
namespace Verif
variable {T V M : Type}

/-- The version `d` stands for the value `v`. -/
def Denotes (env : CacheEnv V) (issued : List (String × V)) (d : String) (v : V) : Prop :=
  env.hash v = some d ∨ (d, v) ∈ issued

/-- The versions `deps` of the dependencies stand for the arguments `kw`. -/
def VersionsOf (env : CacheEnv V) (issued : List (String × V)) (kw : Dict Name V) (deps : Dict String String) : Prop :=
  deps.keys = kw.keys ∧ ∀ x d v, deps.get? x = some d → kw.get? x = some v → Denotes env issued d v

/-- The random versions drawn are distinct and of the known form. -/
structure IssuedOk (env : CacheEnv V) (counter : Nat) (issued : List (String × V)) : Prop where
  nodup : (issued.map (·.1)).Nodup
  form : ∀ d v, (d, v) ∈ issued → ∃ i, i < counter ∧
    (d = "<unhashable>" ++ "_" ++ env.uuid i ∨ d = "<disable>" ++ "_" ++ env.uuid i)

/-- What the stores contain is right. -/
structure Good (env : CacheEnv V) (S : MetaStore M) (impl : String → String → Dict Name V → Except UserErr V)
    (s : CacheState M V) : Prop where
  issued : IssuedOk env s.counter s.issued
  store : ∀ k ver, S.get s.store (some k) = .ok (some ver) → ∃ name code deps kw v,
    k = createCacheKey env.codec env.alnum name code deps ∧ deps.keys.Nodup ∧ CommaFree deps ∧
    VersionsOf env s.issued kw deps ∧ impl (safeName env.alnum name) code kw = .ok v ∧ Denotes env s.issued ver v
  results : ∀ d r, s.results.get? d = some r → ∃ v, r = some v ∧ Denotes env s.issued d v

section
variable {env : CacheEnv V} {S : MetaStore M} {impl : String → String → Dict Name V → Except UserErr V}

theorem Denotes.mono {l l' : List (String × V)} (h : l ⊆ l') {d : String} {v : V} (hd : Denotes env l d v) : Denotes env l' d v :=
  hd.elim .inl (fun h' => .inr (h h'))

theorem VersionsOf.mono {l l' : List (String × V)} (h : l ⊆ l') {kw : Dict Name V} {deps : Dict String String}
    (hp : VersionsOf env l kw deps) : VersionsOf env l' kw deps :=
  ⟨hp.1, fun x d v h1 h2 => (hp.2 x d v h1 h2).mono h⟩

theorem mem_fst_unique {α β : Type} {l : List (α × β)} (hn : (l.map (·.1)).Nodup) {a : α} {b b' : β} (h : (a, b) ∈ l)
    (h' : (a, b') ∈ l) : b = b' := by
  induction l with
  | nil => cases h
  | cons p t ih =>
    simp only [List.map_cons, List.nodup_cons] at hn
    rcases List.mem_cons.1 h with rfl | h1 <;> rcases List.mem_cons.1 h' with h2 | h2
    · simp at h2; exact h2.symm
    · exact absurd (List.mem_map_of_mem (f := (·.1)) h2) hn.1
    · subst h2; exact absurd (List.mem_map_of_mem (f := (·.1)) h1) hn.1
    · exact ih hn.2 h1 h2

theorem issued_lt {c : Nat} {l : List (String × V)} (h : IssuedOk env c l) {d : String} {v : V} (hm : (d, v) ∈ l) :
    '<' ∈ d.toList := by
  obtain ⟨i, _, h | h⟩ := h.form d v hm <;> subst h <;> simp [String.toList_append]

theorem issued_comma (he : env.Lawful) {c : Nat} {l : List (String × V)} (h : IssuedOk env c l) {d : String} {v : V}
    (hm : (d, v) ∈ l) : ',' ∉ d.toList := by
  obtain ⟨i, _, h | h⟩ := h.form d v hm <;> subst h <;> simp [String.toList_append, he.uuid_comma i]

theorem Denotes.unique (he : env.Lawful) {c : Nat} {l : List (String × V)} (h : IssuedOk env c l) {d : String} {v v' : V}
    (hd : Denotes env l d v) (hd' : Denotes env l d v') : v = v' := by
  rcases hd with h1 | h1 <;> rcases hd' with h2 | h2
  · exact he.separates h1 h2
  · exact absurd (issued_lt h h2) (he.hash_plain h1)
  · exact absurd (issued_lt h h1) (he.hash_plain h2)
  · exact mem_fst_unique h.nodup h1 h2

theorem Denotes.comma (he : env.Lawful) {c : Nat} {l : List (String × V)} (h : IssuedOk env c l) {d : String} {v : V}
    (hd : Denotes env l d v) : ',' ∉ d.toList :=
  hd.elim he.hash_comma (issued_comma he h)

theorem Denotes.ne_unhashable (he : env.Lawful) {c : Nat} {l : List (String × V)} (h : IssuedOk env c l) {d : String} {v : V}
    (hd : Denotes env l d v) : d ≠ "<unhashable>" := by
  rintro rfl
  rcases hd with h1 | h1
  · exact he.hash_plain h1 (by decide)
  · obtain ⟨i, _, h | h⟩ := h.form _ v h1
    · have := congrArg String.toList h
      simp [String.toList_append] at this
    · have := congrArg String.toList h
      simp [String.toList_append] at this

theorem VersionsOf.sameArgs (he : env.Lawful) {c : Nat} {l : List (String × V)} (h : IssuedOk env c l)
    {kw kw' : Dict Name V} {deps deps' : Dict String String} (hp : VersionsOf env l kw deps) (hp' : VersionsOf env l kw' deps')
    (hs : SameDict deps deps') : SameArgs kw kw' := by
  have aux : ∀ {kw kw' : Dict Name V} {deps deps' : Dict String String}, VersionsOf env l kw deps →
      VersionsOf env l kw' deps' → SameDict deps deps' → ∀ x v, kw.get? x = some v → kw'.get? x = some v := by
    intro kw kw' deps deps' hp hp' hs x v hx
    have h1 : x ∈ deps.keys := by rw [hp.1]; exact Dict.mem_keys_iff.2 ⟨v, hx⟩
    obtain ⟨d, hd⟩ := Dict.mem_keys_iff.1 h1
    have hd' : deps'.get? x = some d := by rw [← hs x]; exact hd
    have h2 : x ∈ kw'.keys := by rw [← hp'.1]; exact Dict.mem_keys_iff.2 ⟨d, hd'⟩
    obtain ⟨v', hv'⟩ := Dict.mem_keys_iff.1 h2
    rw [hv', (hp.2 x d v hd hx).unique he h (hp'.2 x d v' hd' hv')]
  intro x
  cases hx : kw.get? x with
  | some v => exact (aux hp hp' hs x v hx).symm
  | none =>
    cases hx' : kw'.get? x with
    | none => rfl
    | some v => rw [aux hp' hp (fun y => (hs y).symm) x v hx'] at hx; cases hx

/-- A cached version found for a key stands for the result of the function. -/
theorem Good.hit (he : env.Lawful) (hu : Unordered impl) {s : CacheState M V} (hg : Good env S impl s) {name code : String}
    {deps : Dict String String} {kw : Dict Name V} {ver : String} (hn : deps.keys.Nodup) (hc : CommaFree deps)
    (hp : VersionsOf env s.issued kw deps)
    (hget : S.get s.store (some (createCacheKey env.codec env.alnum name code deps)) = .ok (some ver)) :
    ∃ v, impl (safeName env.alnum name) code kw = .ok v ∧ Denotes env s.issued ver v := by
  obtain ⟨name', code', deps', kw', v, hk, hn', hc', hp', hi, hd⟩ := hg.store _ _ hget
  obtain ⟨h1, h2, h3⟩ := C29_injective_partial he.codec he.dash hn hn' hc hc' hk
  refine ⟨v, ?_, hd⟩
  rw [hu _ _ _ _ (hp.sameArgs he hg.issued hp' h3), h2]
  unfold safeName
  rw [h1]
  exact hi

/-! ### Drawing versions -/

/-- `s'` is `s` with more random versions drawn. -/
structure Drawn (s s' : CacheState M V) : Prop where
  store : s'.store = s.store
  results : s'.results = s.results
  versions : s'.versions = s.versions
  keys : s'.keys = s.keys
  executed : s'.executed = s.executed
  killAfter : s'.killAfter = s.killAfter
  killed : s'.killed = s.killed
  issued : s.issued ⊆ s'.issued

theorem Drawn.refl (s : CacheState M V) : Drawn s s := ⟨rfl, rfl, rfl, rfl, rfl, rfl, rfl, fun _ h => h⟩

theorem Drawn.trans {s s' s'' : CacheState M V} (h : Drawn s s') (h' : Drawn s' s'') : Drawn s s'' :=
  ⟨h'.1.trans h.1, h'.2.trans h.2, h'.3.trans h.3, h'.4.trans h.4, h'.5.trans h.5, h'.6.trans h.6, h'.7.trans h.7,
    fun _ hx => h'.8 (h.8 hx)⟩

theorem Good.of_drawn {s s' : CacheState M V} (hg : Good env S impl s) (hd : Drawn s s')
    (hi : IssuedOk env s'.counter s'.issued) : Good env S impl s' where
  issued := hi
  store := by
    intro k ver h
    rw [hd.store] at h
    obtain ⟨name, code, deps, kw, v, h1, h2, h3, h4, h5, h6⟩ := hg.store k ver h
    exact ⟨name, code, deps, kw, v, h1, h2, h3, h4.mono hd.issued, h5, h6.mono hd.issued⟩
  results := by
    intro d r h
    rw [hd.results] at h
    obtain ⟨v, h1, h2⟩ := hg.results d r h
    exact ⟨v, h1, h2.mono hd.issued⟩

theorem issued_fresh (he : env.Lawful) {c : Nat} {l : List (String × V)} (h : IssuedOk env c l) {pre : String}
    (hp : pre = "<unhashable>" ∨ pre = "<disable>") (v : V) : IssuedOk env (c + 1) ((pre ++ "_" ++ env.uuid c, v) :: l) where
  nodup := by
    rw [List.map_cons, List.nodup_cons]
    refine ⟨?_, h.nodup⟩
    intro hm
    obtain ⟨⟨d, w⟩, hmem, heq⟩ := List.mem_map.1 hm
    simp only at heq
    obtain ⟨i, hi, hform⟩ := h.form d w hmem
    rcases hp with rfl | rfl <;> rcases hform with h' | h' <;> rw [h'] at heq <;>
      have heq := congrArg String.toList heq <;> simp [String.toList_append] at heq
    · have := he.uuid_inj (String.toList_inj.1 heq); omega
    · have := he.uuid_inj (String.toList_inj.1 heq); omega
  form := by
    intro d w hm
    rcases List.mem_cons.1 hm with h' | h'
    · simp only [Prod.mk.injEq] at h'
      refine ⟨c, by omega, ?_⟩
      rcases hp with rfl | rfl
      · exact .inl h'.1
      · exact .inr h'.1
    · obtain ⟨i, hi, hf⟩ := h.form d w h'
      exact ⟨i, by omega, hf⟩

theorem fresh_spec (he : env.Lawful) {s : CacheState M V} (hg : Good env S impl s) {pre : String}
    (hp : pre = "<unhashable>" ∨ pre = "<disable>") (v : V) :
    Good env S impl (s.fresh env pre v).2 ∧ Drawn s (s.fresh env pre v).2 ∧
      Denotes env (s.fresh env pre v).2.issued (s.fresh env pre v).1 v := by
  have hd : Drawn s (s.fresh env pre v).2 := ⟨rfl, rfl, rfl, rfl, rfl, rfl, rfl, fun _ h => List.mem_cons_of_mem _ h⟩
  exact ⟨hg.of_drawn hd (issued_fresh he hg.issued hp v), hd, .inr (by simp [CacheState.fresh])⟩

theorem versionData_spec (he : env.Lawful) {s : CacheState M V} (hg : Good env S impl s) (v : V) :
    Good env S impl (s.versionData env v).2 ∧ Drawn s (s.versionData env v).2 ∧
      Denotes env (s.versionData env v).2.issued (s.versionData env v).1 v := by
  unfold CacheState.versionData
  cases h : env.hash v with
  | some d => exact ⟨hg, .refl s, .inl h⟩
  | none => exact fresh_spec he hg (.inl rfl) v

theorem depVersion_spec (he : env.Lawful) {sess : Session T V} {s : CacheState M V} (hg : Good env S impl s) {d : Name} {v : V}
    {b : Behavior} (hb : sess.behaviors.get? d = some b) (hi : b ≠ .ignore)
    (hm : ∀ ver, s.versions.get? d = some ver → Denotes env s.issued ver v) :
    ∃ ver s', depVersion env sess d v s = (.ok ver, s') ∧ Good env S impl s' ∧ Drawn s s' ∧ Denotes env s'.issued ver v := by
  have hother : ∃ ver s', (match s.versions.get? d with
      | some ver => (Except.ok ver, s)
      | none => let p := s.versionData env v; (.ok p.1, p.2)) = ((.ok ver, s') : Except UserErr String × CacheState M V) ∧
      Good env S impl s' ∧ Drawn s s' ∧ Denotes env s'.issued ver v := by
    cases h : s.versions.get? d with
    | some ver => exact ⟨ver, s, rfl, hg, .refl s, hm ver h⟩
    | none => exact ⟨_, _, rfl, versionData_spec he hg v⟩
  unfold depVersion
  rw [hb]
  cases b with
  | ignore => exact absurd rfl hi
  | disable => exact ⟨_, _, rfl, fresh_spec he hg (.inr rfl) v⟩
  | default => exact hother
  | recompute => exact hother

theorem depVersions_spec (he : env.Lawful) {sess : Session T V} (kw : Dict Name V) :
    ∀ (done : Dict Name V) (acc : Dict String String) (s : CacheState M V), Good env S impl s →
      (Dict.keys (done ++ kw)).Nodup → VersionsOf env s.issued done acc →
      (∀ p ∈ kw, ∃ b, sess.behaviors.get? p.1 = some b ∧ b ≠ .ignore) →
      (∀ p ∈ kw, ∀ ver, s.versions.get? p.1 = some ver → Denotes env s.issued ver p.2) →
      ∃ deps s', depVersions env sess kw acc s = (.ok deps, s') ∧ Good env S impl s' ∧ Drawn s s' ∧
        VersionsOf env s'.issued (done ++ kw) deps := by
  induction kw with
  | nil =>
    intro done acc s hg _ hp _ _
    exact ⟨acc, s, rfl, hg, .refl s, by simpa using hp⟩
  | cons p rest ih =>
    obtain ⟨x, v⟩ := p
    intro done acc s hg hn hp hb hm
    obtain ⟨b, hb1, hb2⟩ := hb (x, v) (by simp)
    obtain ⟨ver, s1, he1, hg1, hd1, hv1⟩ := depVersion_spec he hg hb1 hb2 (hm (x, v) (by simp))
    have hx : x ∉ Dict.keys done := by
      intro hmem
      rw [Dict.keys, List.map_append, List.nodup_append] at hn
      exact hn.2.2 x hmem x (by simp) rfl
    have hxa : x ∉ acc.keys := by rw [hp.1]; exact hx
    have hpt : VersionsOf env s1.issued (done ++ [(x, v)]) (acc.set x ver) := by
      refine ⟨?_, ?_⟩
      · rw [Dict.keys_set_of_not_mem hxa, Dict.keys, Dict.keys, List.map_append, List.map_append]
        have := hp.1
        unfold Dict.keys at this
        rw [this]; rfl
      · intro y d w h1 h2
        rw [Dict.get?_set] at h1
        rw [Dict.get?_append] at h2
        by_cases hxy : x = y
        · subst hxy
          rw [if_pos rfl] at h1
          rw [(Dict.get?_eq_none_iff _ _).2 hx] at h2
          simp [Dict.get?] at h2
          cases h1; subst h2; exact hv1
        · rw [if_neg hxy] at h1
          have h2' : done.get? y = some w := by
            cases hdy : done.get? y with
            | some z => rw [hdy] at h2; simpa using h2
            | none => rw [hdy] at h2; simp [Dict.get?, hxy] at h2
          exact (hp.2 y d w h1 h2').mono hd1.issued
    obtain ⟨deps, s2, he2, hg2, hd2, hp2⟩ := ih (done ++ [(x, v)]) (acc.set x ver) s1 hg1
      (by simpa using hn) hpt (fun p hp => hb p (by simp [hp]))
      (fun p hp ver h => by
        rw [hd1.versions] at h
        exact (hm p (by simp [hp]) ver h).mono hd1.issued)
    refine ⟨deps, s2, ?_, hg2, hd1.trans hd2, by simpa using hp2⟩
    unfold depVersions
    rw [he1]
    exact he2

/-! ### Default parameter values -/

theorem resolveDefaults_spec (defaults kw : Dict Name V) (hk : kw.keys.Nodup) :
    (resolveDefaults defaults kw).keys.Nodup ∧
    (∀ x, kw.has x = true → (resolveDefaults defaults kw).get? x = kw.get? x) ∧
    (∀ x, x ∈ (resolveDefaults defaults kw).keys → x ∈ kw.keys ∨ ∃ p ∈ defaults, p.1 = x) := by
  unfold resolveDefaults
  have aux : ∀ (ds acc : Dict Name V), acc.keys.Nodup → (∀ x, kw.has x = true → acc.get? x = kw.get? x) →
      (ds.foldl (fun acc p => if kw.has p.1 then acc else acc.set p.1 p.2) acc).keys.Nodup ∧
      (∀ x, kw.has x = true → (ds.foldl (fun acc p => if kw.has p.1 then acc else acc.set p.1 p.2) acc).get? x = kw.get? x) ∧
      (∀ x, x ∈ (ds.foldl (fun acc p => if kw.has p.1 then acc else acc.set p.1 p.2) acc).keys →
        x ∈ acc.keys ∨ ∃ p ∈ ds, p.1 = x) := by
    intro ds
    induction ds with
    | nil => intro acc h1 h2; exact ⟨h1, h2, fun x h => .inl h⟩
    | cons p ds ih =>
      intro acc h1 h2
      rw [List.foldl_cons]
      by_cases hp : kw.has p.1 = true
      · rw [if_pos hp]
        obtain ⟨a, b, c⟩ := ih acc h1 h2
        refine ⟨a, b, fun x hx => ?_⟩
        rcases c x hx with h | ⟨q, hq, hqx⟩
        · exact .inl h
        · exact .inr ⟨q, by simp [hq], hqx⟩
      · rw [if_neg hp]
        obtain ⟨a, b, c⟩ := ih (acc.set p.1 p.2) (Dict.keys_set_nodup h1 _ _) (by
          intro x hx
          rw [Dict.get?_set_ne]
          · exact h2 x hx
          · rintro rfl; exact hp hx)
        refine ⟨a, b, fun x hx => ?_⟩
        rcases c x hx with h | ⟨q, hq, hqx⟩
        · rcases (Dict.mem_keys_set _ _ _ _).1 h with h | h
          · exact .inr ⟨p, by simp, h.symm⟩
          · exact .inl h
        · exact .inr ⟨q, by simp [hq], hqx⟩
  exact aux defaults kw hk (fun _ _ => rfl)

theorem allCodes_get {sess : Session T V} {k : Name} (h : sess.rawInputs.get? k = none) :
    sess.allCodes.get? k = sess.codes.get? k := by
  unfold Session.allCodes
  have aux : ∀ (l : Dict Name V) (c : Dict Name String), k ∉ l.keys →
      (l.foldl (fun c p => c.set p.1 ("input__" ++ p.1)) c).get? k = c.get? k := by
    intro l
    induction l with
    | nil => intro c _; rfl
    | cons p l ih =>
      intro c hk
      simp only [Dict.keys, List.map_cons, List.mem_cons, not_or] at hk
      rw [List.foldl_cons, ih _ hk.2, Dict.get?_set_ne]
      exact fun e => hk.1 e.symm
  exact aux _ _ ((Dict.get?_eq_none_iff _ _).1 h)

end
end Verif
