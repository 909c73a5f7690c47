import Verif.Spec.FileCache
import Verif.Spec.LegacyCache
import Verif.Proofs.LifecycleOrder
import Verif.Proofs.Async
import Verif.Props.Sample

/-! C66: `CachingGraphAdapter` loads a file instead of calling a function exactly when nothing above was recomputed. -/
namespace Verif
variable {T V W : Type}

/-! ### Replaced functions that agree on the calls made -/

theorem replaced_congr {g : Graph T V} (hw : WellFormed g) {nodes : List (Node T V)}
    (hnodes : ∀ n ∈ nodes, g.get? n.name = some n) {inputs overrides : Dict Name V}
    (R R' : Node T V → Dict Name V → Except UserErr V)
    (h : ∀ c ∈ (executeSubdag (Graph.withFn R g) (nodes.map (Node.withFn R)) inputs overrides).state.calls,
      ∀ n, g.get? c.1 = some n → R' n c.2 = R n c.2) :
    executeSubdag (Graph.withFn R' g) (nodes.map (Node.withFn R')) inputs overrides =
      executeSubdag (Graph.withFn R g) (nodes.map (Node.withFn R)) inputs overrides := by
  have hs := executeWith_replaced (inputs := inputs) (overrides := overrides) (run := stateless R')
    (P := fun l => ∀ c ∈ l, ∀ n, g.get? c.1 = some n → R' n c.2 = R n c.2)
    (J := fun _ _ => True) (K := fun _ => True) (killed := fun _ => False) R hw hnodes
    (fun l l' hp h c hc => h c (hp.subset hc))
    { keep := fun _ => trivial
      input := fun _ _ _ _ => trivial
      override := fun _ _ _ => trivial
      call := by
        intro s t k n _ hk _ _ kw _ hP
        obtain ⟨m, hm, rfl⟩ := withFn_some R g hk
        have h1 := hP (k, kw) (by simp) m hm
        simp only at h1
        have h2 : original g (stateless R') (m.withFn R) kw t = (R m kw, t) := by
          unfold original
          change (match g.get? m.name with | some n => _ | none => _) = _
          rw [hw.name_eq hm, hm]
          change (R' m kw, t) = _
          rw [h1]
        rw [h2]
        cases hr : R m kw with
        | ok v => exact ⟨hr, trivial⟩
        | error e => exact ⟨trivial, .inr hr⟩ } (t := ()) trivial h
  rw [executeWith_stateless] at hs
  revert hs
  generalize executeSubdag (Graph.withFn R' g) (nodes.map (Node.withFn R')) inputs overrides = o'
  generalize executeSubdag (Graph.withFn R g) (nodes.map (Node.withFn R)) inputs overrides = o
  intro hs
  cases o' with
  | ok s => exact hs.1.symm
  | err e s => rcases hs.2 with h | h
               · exact h.elim
               · exact h.symm

theorem withFn_own {g : Graph T V} : Graph.withFn (fun n => n.fn) g = g := by
  unfold Graph.withFn
  induction g with
  | nil => rfl
  | cons p g ih => rw [List.map_cons, ih]; rfl

theorem map_withFn_own {nodes : List (Node T V)} : nodes.map (Node.withFn fun n => n.fn) = nodes := by
  induction nodes with
  | nil => rfl
  | cons n l ih => rw [List.map_cons, ih]; rfl

/-- Replacing functions changes nothing if the replacements agree on the calls of the ordinary run. -/
theorem replaced_same {g : Graph T V} (hw : WellFormed g) {nodes : List (Node T V)}
    (hnodes : ∀ n ∈ nodes, g.get? n.name = some n) {inputs overrides : Dict Name V}
    (R : Node T V → Dict Name V → Except UserErr V)
    (h : ∀ c ∈ (executeSubdag g nodes inputs overrides).state.calls, ∀ n, g.get? c.1 = some n → R n c.2 = n.fn c.2) :
    executeSubdag (Graph.withFn R g) (nodes.map (Node.withFn R)) inputs overrides = executeSubdag g nodes inputs overrides := by
  have := replaced_congr (inputs := inputs) (overrides := overrides) hw hnodes (fun n => n.fn) R
    (by rw [withFn_own, map_withFn_own]; exact h)
  rw [withFn_own, map_withFn_own] at this
  exact this

theorem plain_calls_ok {g : Graph T V} (hw : WellFormed g) {nodes : List (Node T V)}
    (hnodes : ∀ n ∈ nodes, g.get? n.name = some n) (inputs overrides : Dict Name V) :
    TraceInv g inputs overrides (nodes.map (·.name)) (executeSubdag g nodes inputs overrides).state := by
  have h := executeSubdag_spec hw nodes hnodes inputs overrides
  revert h
  generalize executeSubdag g nodes inputs overrides = o
  intro h
  cases o with
  | ok s => exact h.1.toTraceInv
  | err e s => exact h.1

theorem mem_map_withFn {g : Graph T V} (R : Node T V → Dict Name V → Except UserErr V) {nodes : List (Node T V)}
    (hnodes : ∀ n ∈ nodes, g.get? n.name = some n) :
    ∀ n ∈ nodes.map (Node.withFn R), (Graph.withFn R g).get? n.name = some n := by
  intro n' hn'
  obtain ⟨n, h1, rfl⟩ := List.mem_map.1 hn'
  rw [withFn_get?]
  change (g.get? n.name).map _ = _
  rw [hnodes n h1]
  rfl

/-! ### One node -/

section
variable {a : FileAdapter T V W} {g : Graph T V} {inputs overrides : Dict Name V} {files : Dict String W}

theorem Recomputed.live {k : Name} (h : Recomputed a g overrides files k) :
    ∃ n, g.get? k = some n ∧ n.kind ≠ .external ∧ overrides.get? k = none := by
  cases h with
  | here h1 h2 h3 => exact ⟨_, h1, h2, h3⟩
  | dependent h1 h2 h3 => exact ⟨_, h1, h2, h3⟩

/-- What is known of the calls: none is repeated, and each comes after those it depends on. -/
def CallsKnown (g : Graph T V) (overrides : Dict Name V) (l : List (Name × Dict Name V)) : Prop :=
  (l.map (·.1)).Nodup ∧ OrderedCalls g overrides l

theorem callsKnown_prefix : PrefixClosed (CallsKnown g overrides) := by
  intro l l' hp ⟨h1, h2⟩
  exact ⟨(hp.sublist.map _).nodup h1, orderedCalls_prefix _ _ hp h2⟩

/-- What is known of the state of the adapter, also after a failure. -/
structure FileKept (a : FileAdapter T V W) (g : Graph T V) (overrides : Dict Name V) (t0 t : FileCache V W) : Prop where
  same : ∀ p, (∀ k f, Recomputed a g overrides t0.files k → a.fmt k = some f → k ++ "." ++ f ≠ p) →
    t.files.get? p = t0.files.get? p
  spared : ∃ extra, t.invoked = t0.invoked ++ extra ∧
    ∀ c ∈ extra, a.fmt c.1 = none ∨ Recomputed a g overrides t0.files c.1

/-- What is known of the state of the adapter between the calls. -/
structure FileProgress (a : FileAdapter T V W) (g : Graph T V) (overrides : Dict Name V) (t0 : FileCache V W)
    (calls : List (Name × Dict Name V)) (t : FileCache V W) : Prop where
  marked : ∀ k, k ∈ t.computed ↔ k ∈ calls.map (·.1) ∧ Recomputed a g overrides t0.files k
  same : ∀ p, (∀ c ∈ calls, Recomputed a g overrides t0.files c.1 → ∀ f, a.fmt c.1 = some f → c.1 ++ "." ++ f ≠ p) →
    t.files.get? p = t0.files.get? p
  wrote : ∀ c ∈ calls, Recomputed a g overrides t0.files c.1 → ∀ n f, g.get? c.1 = some n → a.fmt c.1 = some f →
    ∃ w v, n.fn c.2 = .ok v ∧ a.writers.get? f = some w ∧ (w v c.1).2 = none ∧
      ∀ x, (w v c.1).1 = some x → t.files.get? (c.1 ++ "." ++ f) = some x
  spared : ∃ extra, t.invoked = t0.invoked ++ extra ∧ extra.Sublist calls ∧
    ∀ c ∈ calls, c ∈ extra ↔ (a.fmt c.1 = none ∨ Recomputed a g overrides t0.files c.1)

theorem FileProgress.kept {t0 t : FileCache V W} {calls : List (Name × Dict Name V)}
    (h : FileProgress a g overrides t0 calls t) : FileKept a g overrides t0 t where
  same p hp := h.same p fun c _ hm f hf => hp c.1 f hm hf
  spared := by
    obtain ⟨extra, h1, h2, h3⟩ := h.spared
    exact ⟨extra, h1, fun c hc => (h3 c (h2.subset hc)).1 hc⟩

theorem implicit_iff (hw : WellFormed g) {t0 t : FileCache V W} {calls : List (Name × Dict Name V)}
    (h : FileProgress a g overrides t0 calls t) {k : Name} {n : Node T V} (hk : g.get? k = some n) {kw : Dict Name V}
    (hP : CallsKnown g overrides (calls ++ [(k, kw)])) :
    implicitlyForced n t.computed = true ↔ ∃ d ∈ n.inputTypes.keys, Recomputed a g overrides t0.files d := by
  unfold implicitlyForced
  rw [List.any_eq_true, hw.deps_eq hk]
  constructor
  · rintro ⟨d, hd, hc⟩
    exact ⟨d, hd, ((h.marked d).1 (by simpa using hc)).2⟩
  · rintro ⟨d, hd, hm⟩
    obtain ⟨dn, h1, h2, h3⟩ := hm.live
    exact ⟨d, hd, by simpa using (h.marked d).2 ⟨hP.2 calls (k, kw) [] rfl n hk d hd h3 dn h1 h2, hm⟩⟩

theorem not_called {calls : List (Name × Dict Name V)} {k : Name} {kw : Dict Name V}
    (hP : CallsKnown g overrides (calls ++ [(k, kw)])) : k ∉ calls.map (·.1) := by
  have h := hP.1
  rw [List.map_append, List.nodup_append] at h
  intro hm
  exact h.2.2 k hm k (by simp) rfl

/-- The file of a node that was not called yet is still the one there was at the beginning. -/
theorem file_same (hd : FilesDistinct a) {t0 t : FileCache V W} {calls : List (Name × Dict Name V)}
    (h : FileProgress a g overrides t0 calls t) {k : Name} {f : String} (hf : a.fmt k = some f)
    (hk : k ∉ calls.map (·.1)) : t.files.get? (k ++ "." ++ f) = t0.files.get? (k ++ "." ++ f) := by
  apply h.same
  intro c hc _ f' hf' he
  have := hd _ _ _ _ hf' hf he
  subst this
  exact hk (List.mem_map.2 ⟨c, hc, rfl⟩)

theorem spared_snoc {t0 t : FileCache V W} {calls : List (Name × Dict Name V)} {M : Name → Prop} {k : Name} {kw : Dict Name V}
    (hk : k ∉ calls.map (·.1)) {inv' : List (Name × Dict Name V)}
    (h : ∃ extra, t.invoked = t0.invoked ++ extra ∧ extra.Sublist calls ∧ ∀ c ∈ calls, c ∈ extra ↔ M c.1)
    (h' : (M k ∧ inv' = t.invoked ++ [(k, kw)]) ∨ (¬ M k ∧ inv' = t.invoked)) :
    ∃ extra, inv' = t0.invoked ++ extra ∧ extra.Sublist (calls ++ [(k, kw)]) ∧
      ∀ c ∈ calls ++ [(k, kw)], c ∈ extra ↔ M c.1 := by
  obtain ⟨extra, h1, h2, h3⟩ := h
  have hne : (k, kw) ∉ extra := fun hm => hk (List.mem_map.2 ⟨_, h2.subset hm, rfl⟩)
  rcases h' with ⟨hm, h'⟩ | ⟨hm, h'⟩
  · refine ⟨extra ++ [(k, kw)], by rw [h', h1]; simp, h2.append (List.Sublist.refl _), ?_⟩
    intro c hc
    rcases List.mem_append.1 hc with hc | hc
    · rw [List.mem_append, h3 c hc]
      constructor
      · rintro (h | h)
        · exact h
        · rw [List.mem_singleton] at h; subst h; exact hm
      · exact .inl
    · rw [List.mem_singleton] at hc
      subst hc
      exact ⟨fun _ => hm, fun _ => by simp⟩
  · refine ⟨extra, by rw [h', h1], h2.trans (List.sublist_append_left _ _), ?_⟩
    intro c hc
    rcases List.mem_append.1 hc with hc | hc
    · exact h3 c hc
    · rw [List.mem_singleton] at hc
      subst hc
      exact ⟨fun h => absurd h hne, fun h => absurd h hm⟩

theorem kept_invoke {t0 t : FileCache V W} (h : FileKept a g overrides t0 t) {k : Name} {kw : Dict Name V}
    (hm : a.fmt k = none ∨ Recomputed a g overrides t0.files k) (c : List Name) :
    FileKept a g overrides t0 { files := t.files, computed := c, invoked := t.invoked ++ [(k, kw)] } where
  same := h.same
  spared := by
    obtain ⟨extra, h1, h2⟩ := h.spared
    refine ⟨extra ++ [(k, kw)], by simp only [h1, List.append_assoc], ?_⟩
    intro c hc
    rcases List.mem_append.1 hc with hc | hc
    · exact h2 c hc
    · rw [List.mem_singleton] at hc
      subst hc
      exact hm

theorem write_get? (f : String) (v : V) (k : Name) (fs : Dict String W) {p : String} (hp : k ++ "." ++ f ≠ p) :
    (a.write f v k fs).2.get? p = fs.get? p := by
  unfold FileAdapter.write
  cases a.writers.get? f with
  | none => rfl
  | some w =>
    simp only
    cases w v k with
    | mk x e =>
      cases x with
      | none => rfl
      | some x => exact Dict.get?_set_ne _ _ (fun h => hp h)

theorem write_err (f : String) (v : V) (k : Name) (fs fs' : Dict String W) : (a.write f v k fs).1 = (a.write f v k fs').1 := by
  unfold FileAdapter.write
  cases a.writers.get? f with
  | none => rfl
  | some w =>
    simp only
    cases w v k with
    | mk x e => cases x <;> rfl

theorem write_ok {f : String} {v : V} {k : Name} {fs fs' : Dict String W} (h : a.write f v k fs = (none, fs')) :
    ∃ w, a.writers.get? f = some w ∧ (w v k).2 = none ∧ ∀ x, (w v k).1 = some x → fs'.get? (k ++ "." ++ f) = some x := by
  unfold FileAdapter.write at h
  cases hg : a.writers.get? f with
  | none => rw [hg] at h; cases h
  | some w =>
    rw [hg] at h
    simp only at h
    refine ⟨w, rfl, ?_⟩
    cases hwv : w v k with
    | mk x e =>
      rw [hwv] at h
      cases x with
      | none => cases h; exact ⟨rfl, nofun⟩
      | some x =>
        cases h
        refine ⟨rfl, fun y hy => ?_⟩
        cases hy
        exact Dict.get?_set_self _ _ _

/-- What a call has to satisfy. -/
def FileStep (a : FileAdapter T V W) (g : Graph T V) (overrides : Dict Name V) (t0 : FileCache V W) (req : List Name)
    (s : ExecState V) (n : Node T V) (kw : Dict Name V) : Except UserErr V × FileCache V W → Prop
  | (.ok v, t') => served a g overrides t0.files n kw = .ok v ∧ FileProgress a g overrides t0
      (prune (Graph.withFn (served a g overrides t0.files) g) req n.dependencies
        (({ s with calls := s.calls ++ [(n.name, kw)] } : ExecState V).store n.name v)).calls t'
  | (.error e, t') => FileKept a g overrides t0 t' ∧ (False ∨ served a g overrides t0.files n kw = .error e)

theorem file_faithful (hw : WellFormed g) (hd : FilesDistinct a) (req : List Name) (t0 : FileCache V W) :
    Faithful (Graph.withFn (served a g overrides t0.files) g) inputs overrides req (original g a.exec)
      (CallsKnown g overrides) (fun s t => FileProgress a g overrides t0 s.calls t) (FileKept a g overrides t0)
      (fun _ => False) where
  keep h := h.kept
  input h _ _ _ := by rw [prune_calls]; exact h
  override h _ _ := h
  call {s t k n'} h hk hf ho kw _ hP := by
    obtain ⟨n, hn, rfl⟩ := withFn_some _ g hk
    have hname := hw.name_eq hn
    subst hname
    have hf : n.kind ≠ .external := hf
    have hrun : original g a.exec (n.withFn (served a g overrides t0.files)) kw t = a.exec n kw t := by
      unfold original
      change (match g.get? n.name with | some n => _ | none => _) = _
      rw [hn]
    rw [hrun]
    suffices key : FileStep a g overrides t0 req s n kw (a.exec n kw t) by
      revert key
      cases a.exec n kw t with
      | mk o t' => cases o <;> exact id
    have hnew := not_called hP
    have himp := implicit_iff hw h hn hP
    have hcalls : ∀ v, (prune (Graph.withFn (served a g overrides t0.files) g) req n.dependencies
        (({ s with calls := s.calls ++ [(n.name, kw)] } : ExecState V).store n.name v)).calls = s.calls ++ [(n.name, kw)] :=
      fun v => by rw [prune_calls]; rfl
    have hsnoc : ∀ j, j ∈ (s.calls ++ [(n.name, kw)]).map (·.1) ↔ j ∈ s.calls.map (·.1) ∨ j = n.name := fun j => by simp
    cases hfmt : a.fmt n.name with
    | none =>
      have hm : Recomputed a g overrides t0.files n.name ↔ implicitlyForced n t.computed = true := by
        rw [himp]
        constructor
        · intro hm
          cases hm with
          | here _ _ _ h4 => rw [hfmt] at h4; cases h4
          | dependent h1 _ _ h4 h5 => rw [hn] at h1; cases h1; exact ⟨_, h4, h5⟩
        · rintro ⟨d, h1, h2⟩
          exact .dependent hn hf ho h1 h2
      have hserved : served a g overrides t0.files n kw = n.fn kw := by unfold served; rw [hfmt]
      have hexec : a.exec n kw t = (n.fn kw, { t with
          computed := if implicitlyForced n t.computed then n.name :: t.computed else t.computed
          invoked := t.invoked ++ [(n.name, kw)] }) := by unfold FileAdapter.exec; rw [hfmt]
      rw [hexec]
      cases hr : n.fn kw with
      | error e => exact ⟨kept_invoke h.kept (.inl hfmt) _, .inr (hserved.trans hr)⟩
      | ok v =>
        refine ⟨hserved.trans hr, ?_⟩
        rw [hcalls]
        refine ⟨?_, ?_, ?_, ?_⟩
        · intro j
          rw [hsnoc]
          simp only
          split
          · rename_i hi
            rw [List.mem_cons, h.marked]
            constructor
            · rintro (rfl | ⟨h1, h2⟩)
              · exact ⟨.inr rfl, hm.2 hi⟩
              · exact ⟨.inl h1, h2⟩
            · rintro ⟨h1 | h1, h2⟩
              · exact .inr ⟨h1, h2⟩
              · exact .inl h1
          · rename_i hi
            rw [h.marked]
            constructor
            · rintro ⟨h1, h2⟩; exact ⟨.inl h1, h2⟩
            · rintro ⟨h1 | h1, h2⟩
              · exact ⟨h1, h2⟩
              · subst h1; exact absurd (hm.1 h2) hi
        · intro p hp
          exact h.same p fun c hc => hp c (List.mem_append_left _ hc)
        · intro c hc
          rcases List.mem_append.1 hc with hc | hc
          · exact h.wrote c hc
          · rw [List.mem_singleton] at hc
            subst hc
            intro _ _ f _ h4
            simp only at h4
            rw [hfmt] at h4
            cases h4
        · exact spared_snoc (M := fun k => a.fmt k = none ∨ Recomputed a g overrides t0.files k) (t := t) (t0 := t0) hnew h.spared (.inl ⟨.inl hfmt, rfl⟩)
    | some f =>
      have hfile := file_same hd h hfmt hnew
      by_cases hm : Recomputed a g overrides t0.files n.name
      · have hexec : a.exec n kw t = a.recompute f n kw t := by
          unfold FileAdapter.exec
          rw [hfmt]
          simp only
          change (match t.files.get? (n.name ++ "." ++ f) with | none => _ | some x => _) = _
          cases hx : t.files.get? (n.name ++ "." ++ f) with
          | none => rfl
          | some x =>
            simp only
            rw [if_pos]
            rw [Bool.or_eq_true, himp]
            cases hm with
            | here h1 _ _ h4 h5 =>
              rw [hfmt] at h4
              cases h4
              rcases h5 with h5 | h5
              · exact .inl (by simpa using h5)
              · rw [← hfile, hx] at h5; cases h5
            | dependent h1 _ _ h4 h5 => rw [hn] at h1; cases h1; exact .inr ⟨_, h4, h5⟩
        rw [hexec]
        have hserved : served a g overrides t0.files n kw = match n.fn kw with
            | .error e => .error e
            | .ok v =>
              match (a.write f v n.name t0.files).1 with
              | some e => .error e
              | none => .ok v := by
          unfold served
          rw [hfmt]
          simp only
          rw [if_pos hm]
          rfl
        unfold FileAdapter.recompute
        cases hr : n.fn kw with
        | error e => exact ⟨kept_invoke h.kept (.inr hm) _, .inr (by rw [hserved, hr])⟩
        | ok v =>
          simp only
          rw [hr] at hserved
          have hserved : served a g overrides t0.files n kw = match (a.write f v n.name t0.files).1 with
              | some e => .error e
              | none => .ok v := hserved
          have hwe := write_err (a := a) f v n.name t0.files t.files
          have hother : ∀ p, n.name ++ "." ++ f ≠ p → (a.write f v n.name t.files).2.get? p = t.files.get? p :=
            fun p hp => write_get? f v n.name t.files hp
          rw [hwe] at hserved
          cases hres : a.write f v n.name t.files with
          | mk e fs =>
            rw [hres] at hother hserved
            simp only at hother
            cases e with
            | some e =>
              refine ⟨⟨?_, (kept_invoke h.kept (.inr hm) []).spared⟩, .inr hserved⟩
              intro p hp
              simp only
              rw [hother p (hp n.name f hm hfmt)]
              exact h.kept.same p hp
            | none =>
              refine ⟨hserved, ?_⟩
              rw [hcalls]
              obtain ⟨w, hw1, hw2, hw3⟩ := write_ok hres
              refine ⟨?_, ?_, ?_, ?_⟩
              · intro j
                rw [hsnoc, List.mem_cons, h.marked]
                constructor
                · rintro (rfl | ⟨h1, h2⟩)
                  · exact ⟨.inr rfl, hm⟩
                  · exact ⟨.inl h1, h2⟩
                · rintro ⟨h1 | h1, h2⟩
                  · exact .inr ⟨h1, h2⟩
                  · exact .inl h1
              · intro p hp
                simp only
                rw [hother p (hp (n.name, kw) (by simp) hm f hfmt)]
                exact h.same p fun c hc => hp c (List.mem_append_left _ hc)
              · intro c hc hmc nc fc hnc hfc
                rcases List.mem_append.1 hc with hc | hc
                · obtain ⟨w', v', h1, h2, h3, h4⟩ := h.wrote c hc hmc nc fc hnc hfc
                  refine ⟨w', v', h1, h2, h3, fun x hx => ?_⟩
                  simp only
                  rw [hother, h4 x hx]
                  intro he
                  have := hd _ _ _ _ hfmt hfc he
                  exact hnew (List.mem_map.2 ⟨c, hc, this.symm⟩)
                · rw [List.mem_singleton] at hc
                  subst hc
                  simp only at hnc hfc ⊢
                  rw [hn] at hnc
                  rw [hfmt] at hfc
                  cases hnc
                  cases hfc
                  exact ⟨w, v, hr, hw1, hw2, hw3⟩
              · exact spared_snoc (M := fun k => a.fmt k = none ∨ Recomputed a g overrides t0.files k) (t := t) (t0 := t0) hnew h.spared (.inl ⟨.inr hm, rfl⟩)
      · have hfile0 : ∃ x, t0.files.get? (n.name ++ "." ++ f) = some x := by
          cases hx : t0.files.get? (n.name ++ "." ++ f) with
          | some x => exact ⟨x, rfl⟩
          | none => exact absurd (.here hn hf ho hfmt (.inr hx)) hm
        obtain ⟨x, hx⟩ := hfile0
        have hexec : a.exec n kw t = (a.read f n.typ x, t) := by
          unfold FileAdapter.exec
          rw [hfmt]
          simp only
          change (match t.files.get? (n.name ++ "." ++ f) with | none => _ | some x => _) = _
          rw [hfile, hx]
          simp only
          rw [if_neg]
          rw [Bool.or_eq_true, himp]
          rintro (h1 | ⟨d, h1, h2⟩)
          · exact hm (.here hn hf ho hfmt (.inl (by simpa using h1)))
          · exact hm (.dependent hn hf ho h1 h2)
        have hserved : served a g overrides t0.files n kw = a.read f n.typ x := by
          unfold served
          rw [hfmt]
          simp only
          rw [if_neg hm, hx]
        rw [hexec]
        cases hr : a.read f n.typ x with
        | error e => exact ⟨h.kept, .inr (hserved.trans hr)⟩
        | ok v =>
          refine ⟨hserved.trans hr, ?_⟩
          rw [hcalls]
          refine ⟨?_, ?_, ?_, ?_⟩
          · intro j
            rw [hsnoc, h.marked]
            constructor
            · rintro ⟨h1, h2⟩; exact ⟨.inl h1, h2⟩
            · rintro ⟨h1 | h1, h2⟩
              · exact ⟨h1, h2⟩
              · subst h1; exact absurd h2 hm
          · intro p hp
            exact h.same p fun c hc => hp c (List.mem_append_left _ hc)
          · intro c hc hmc
            rcases List.mem_append.1 hc with hc | hc
            · exact h.wrote c hc hmc
            · rw [List.mem_singleton] at hc
              subst hc
              exact absurd hmc hm
          · refine spared_snoc (M := fun k => a.fmt k = none ∨ Recomputed a g overrides t0.files k) (t := t) (t0 := t0) hnew h.spared (.inr ⟨?_, rfl⟩)
            rintro (h1 | h1)
            · rw [hfmt] at h1; cases h1
            · exact hm h1

theorem file_matches (hw : WellFormed g) (hd : FilesDistinct a) {nodes : List (Node T V)}
    (hnodes : ∀ n ∈ nodes, g.get? n.name = some n) {t : FileCache V W} (ht : t.computed = []) :
    SimOut (fun s u => FileProgress a g overrides t s.calls u) (FileKept a g overrides t) (fun _ => False)
      (executeSubdag (Graph.withFn (served a g overrides t.files) g) (nodes.map (Node.withFn (served a g overrides t.files)))
        inputs overrides) (fileRun a g nodes inputs overrides t) := by
  refine executeWith_replaced _ hw hnodes callsKnown_prefix (file_faithful hw hd _ t) ?_
    ⟨(plain_calls_ok (withFn_wf _ hw) (mem_map_withFn _ hnodes) inputs overrides).calls_nodup, replaced_ordered _ hw hnodes⟩
  refine ⟨?_, fun _ _ => rfl, ?_, [], ?_, List.Sublist.refl _, ?_⟩
  · intro k; simp [ht, ExecState.init]
  · intro c hc; simp [ExecState.init] at hc
  · simp
  · intro c hc; simp [ExecState.init] at hc

/-! ### The rule -/

/-- **C66 (the rule)**: with nothing left over from an earlier run, the run is the ordinary run of the graph in which the cached
functions that are neither forced nor without a file nor below such a one are replaced by loading their files. Exactly the
other functions are invoked. The files of recomputed functions hold what was written, all others are as before. -/
theorem C66_rule_partial (hw : WellFormed g) (hd : FilesDistinct a) {nodes : List (Node T V)}
    (hnodes : ∀ n ∈ nodes, g.get? n.name = some n) (inputs overrides : Dict Name V) {t : FileCache V W} (ht : t.computed = []) :
    withoutAdapter (fileExecute a g nodes inputs overrides t) =
      executeSubdag (Graph.withFn (served a g overrides t.files) g) (nodes.map (Node.withFn (served a g overrides t.files)))
        inputs overrides ∧
    (∀ s u, fileExecute a g nodes inputs overrides t = .ok (s, u) →
      u.computed = [] ∧
      (∃ extra, u.invoked = t.invoked ++ extra ∧ extra.Sublist s.calls ∧
        ∀ c ∈ s.calls, c ∈ extra ↔ (a.fmt c.1 = none ∨ Recomputed a g overrides t.files c.1)) ∧
      (∀ c ∈ s.calls, Recomputed a g overrides t.files c.1 → ∀ n f, g.get? c.1 = some n → a.fmt c.1 = some f →
        ∃ w v, n.fn c.2 = .ok v ∧ a.writers.get? f = some w ∧ (w v c.1).2 = none ∧
          ∀ x, (w v c.1).1 = some x → u.files.get? (c.1 ++ "." ++ f) = some x) ∧
      ∀ p, (∀ c ∈ s.calls, Recomputed a g overrides t.files c.1 → ∀ f, a.fmt c.1 = some f → c.1 ++ "." ++ f ≠ p) →
        u.files.get? p = t.files.get? p) ∧
    ∀ e s u, fileExecute a g nodes inputs overrides t = .err e (s, u) →
      (∃ extra, u.invoked = t.invoked ++ extra ∧
        ∀ c ∈ extra, a.fmt c.1 = none ∨ Recomputed a g overrides t.files c.1) ∧
      ∀ p, (∀ k f, Recomputed a g overrides t.files k → a.fmt k = some f → k ++ "." ++ f ≠ p) →
        u.files.get? p = t.files.get? p := by
  have hm := file_matches (inputs := inputs) (overrides := overrides) hw hd hnodes ht
  unfold fileExecute
  revert hm
  generalize executeSubdag (Graph.withFn (served a g overrides t.files) g)
    (nodes.map (Node.withFn (served a g overrides t.files))) inputs overrides = o
  cases fileRun a g nodes inputs overrides t with
  | ok st =>
    obtain ⟨s, u⟩ := st
    intro ⟨h1, h2⟩
    refine ⟨h1.symm, ?_, nofun⟩
    intro s' u' he
    cases he
    exact ⟨rfl, h2.spared, h2.wrote, h2.same⟩
  | err e st =>
    obtain ⟨s, u⟩ := st
    intro ⟨h1, h2⟩
    rcases h2 with h2 | h2
    · exact h2.elim
    · refine ⟨h2.symm, nofun, ?_⟩
      intro e' s' u' he
      cases he
      exact ⟨h1.spared, h1.same⟩

/-! ### Files that hold the right values -/

theorem loads_read {f : String} {typ : T} {x : W} {v : V} (h : Loads a f typ x v) : a.read f typ x = .ok v := by
  obtain ⟨h1, ⟨w, h2⟩, r, h3, h4⟩ := h
  unfold FileAdapter.read
  rw [h1]
  simp only
  rw [if_pos (by rw [Dict.has, h2]; rfl), h3]
  exact h4

theorem fn_of_den {k : Name} {n : Node T V} (hn : g.get? k = some n) (hf : n.kind ≠ .external)
    (ho : overrides.get? k = none) {kw : Dict Name V} (hkw : RightArgs g inputs overrides n kw) {v : V}
    (h : Den g inputs overrides k v) : n.fn kw = .ok v := by
  cases h with
  | override h1 h2 => rw [ho] at h2; cases h2
  | input h1 h2 h3 => rw [hn] at h1; cases h1; exact absurd h3 hf
  | call val h1 h2 h3 h4 h5 h6 =>
    rw [hn] at h1
    cases h1
    rw [hkw.det ⟨val, h4, h5, rfl⟩]
    exact h6

theorem den_of_fn {k : Name} {n : Node T V} (hn : g.get? k = some n) (hf : n.kind ≠ .external)
    (ho : overrides.get? k = none) {kw : Dict Name V} (hkw : RightArgs g inputs overrides n kw) {v : V}
    (h : n.fn kw = .ok v) : Den g inputs overrides k v := by
  obtain ⟨val, h4, h5, rfl⟩ := hkw
  exact .call val hn ho hf h4 h5 h

theorem stores_write {f : String} {typ : T} {k : Name} {v : V} (h : Stores a f typ k v) (fs : Dict String W) :
    ∃ x, a.write f v k fs = (none, fs.set (k ++ "." ++ f) x) ∧ Loads a f typ x v := by
  obtain ⟨w, x, h1, h2, h3⟩ := h
  refine ⟨x, ?_, h3⟩
  unfold FileAdapter.write
  rw [h1]
  simp only
  rw [h2]
  rfl

theorem true_recompute (hd : FilesDistinct a) (hst : Storable a g inputs overrides) {k : Name} {n : Node T V} {f : String}
    (hn : g.get? k = some n) (hname : n.name = k) (hf : n.kind ≠ .external) (ho : overrides.get? k = none)
    (hfmt : a.fmt k = some f) {kw : Dict Name V} (hkw : RightArgs g inputs overrides n kw) {t : FileCache V W}
    (ht : FilesTrue a g inputs overrides t.files) :
    (a.recompute f n kw t).1 = n.fn kw ∧ FilesTrue a g inputs overrides (a.recompute f n kw t).2.files := by
  subst hname
  unfold FileAdapter.recompute
  cases hr : n.fn kw with
  | error e => exact ⟨rfl, ht⟩
  | ok v =>
    have hden := den_of_fn hn hf ho hkw hr
    obtain ⟨x, h1, h2⟩ := stores_write (hst _ _ _ _ hn hf ho hfmt hden) t.files
    simp only
    rw [h1]
    refine ⟨rfl, ?_⟩
    intro k' n' f' x' hn' hf' ho' hfmt' hx'
    simp only at hx'
    rw [Dict.get?_set] at hx'
    split at hx'
    · rename_i he
      cases hx'
      have := hd _ _ _ _ hfmt' hfmt (by first | exact he | exact he.symm)
      subst this
      rw [hn] at hn'
      rw [hfmt] at hfmt'
      cases hn'
      cases hfmt'
      exact ⟨v, h2, hden⟩
    · exact ht _ _ _ _ hn' hf' ho' hfmt' hx'

theorem true_matches (hw : WellFormed g) (hd : FilesDistinct a) (hst : Storable a g inputs overrides) {nodes : List (Node T V)}
    (hnodes : ∀ n ∈ nodes, g.get? n.name = some n) {t : FileCache V W} (ht : FilesTrue a g inputs overrides t.files) :
    SimOut (fun _ u => FilesTrue a g inputs overrides u.files) (fun u => FilesTrue a g inputs overrides u.files) (fun _ => False)
      (executeSubdag g nodes inputs overrides) (fileRun a g nodes inputs overrides t) := by
  refine executeWith_matches (J := fun _ (u : FileCache V W) => FilesTrue a g inputs overrides u.files)
    (K := fun u => FilesTrue a g inputs overrides u.files) (P := fun l => ∀ c ∈ l, CallOk g inputs overrides (nodes.map (fun n : Node T V => n.name)) c) hw hnodes
    (fun l l' hp h c hc => h c (hp.subset hc))
    { keep := fun h => h
      input := fun h _ _ _ => h
      override := fun h _ _ => h
      call := ?_ } ht (plain_calls_ok hw hnodes inputs overrides).calls_ok
  intro s u k n h hn hf ho kw _ hP
  obtain ⟨_, _, n', hn', _, hkw⟩ := hP (k, kw) (by simp)
  simp only at hn'
  rw [hn] at hn'
  cases hn'
  have hname := hw.name_eq hn
  have key : (a.exec n kw u).1 = n.fn kw ∧ FilesTrue a g inputs overrides (a.exec n kw u).2.files := by
    unfold FileAdapter.exec
    subst hname
    cases hfmt : a.fmt n.name with
    | none => exact ⟨rfl, h⟩
    | some f =>
      simp only
      have hre := true_recompute hd hst hn rfl hf ho hfmt hkw h
      cases hx : u.files.get? (cacheFile n.name f) with
      | none => exact hre
      | some x =>
        simp only
        split
        · exact hre
        · obtain ⟨v, h1, h2⟩ := h _ _ _ _ hn hf ho hfmt hx
          refine ⟨?_, h⟩
          simp only
          rw [loads_read h1, fn_of_den hn hf ho hkw h2]
  revert key
  cases a.exec n kw u with
  | mk o u' =>
    intro ⟨h1, h2⟩
    cases o with
    | ok v => exact ⟨h1.symm, h2⟩
    | error e => exact ⟨h2, .inr h1.symm⟩

/-- **C66 (same inputs)**: as long as the inputs, overrides and code stay the same and values can be stored, runs give what they
give without the adapter, whatever was forced or left over from earlier runs; also failing runs leave only files that hold
the values of their nodes. -/
theorem C66_same_partial (hw : WellFormed g) (hd : FilesDistinct a) (hst : Storable a g inputs overrides)
    {nodes : List (Node T V)} (hnodes : ∀ n ∈ nodes, g.get? n.name = some n) {t : FileCache V W}
    (ht : FilesTrue a g inputs overrides t.files) :
    withoutAdapter (fileExecute a g nodes inputs overrides t) = executeSubdag g nodes inputs overrides ∧
    FilesTrue a g inputs overrides (fileExecute a g nodes inputs overrides t).state.2.files := by
  have hm := true_matches hw hd hst hnodes ht
  unfold fileExecute
  revert hm
  generalize executeSubdag g nodes inputs overrides = o
  cases fileRun a g nodes inputs overrides t with
  | ok st =>
    intro ⟨h1, h2⟩
    exact ⟨h1.symm, h2⟩
  | err e st =>
    intro ⟨h1, h2⟩
    rcases h2 with h2 | h2
    · exact h2.elim
    · exact ⟨h2.symm, h1⟩

/-! ### The same run again -/

theorem served_none {n : Node T V} {kw : Dict Name V} (h : a.fmt n.name = none) :
    served a g overrides files n kw = n.fn kw := by
  unfold served
  rw [h]

theorem served_loaded {n : Node T V} {kw : Dict Name V} {f : String} (h : a.fmt n.name = some f)
    (hm : ¬ Recomputed a g overrides files n.name) {x : W} (hx : files.get? (n.name ++ "." ++ f) = some x) :
    served a g overrides files n kw = a.read f n.typ x := by
  unfold served
  rw [h]
  simp only
  rw [if_neg hm, hx]

theorem served_stored {n : Node T V} {kw : Dict Name V} {f : String} (h : a.fmt n.name = some f)
    (hm : Recomputed a g overrides files n.name) {v : V} (hv : n.fn kw = .ok v) (hs : Stores a f n.typ n.name v) :
    served a g overrides files n kw = .ok v := by
  unfold served
  rw [h]
  simp only
  rw [if_pos hm, hv]
  obtain ⟨x, h1, _⟩ := stores_write hs files
  simp only
  rw [h1]

/-- **C66 (again)**: the same run again, with nothing forced, has the same outcome and invokes no cached function; the files
stay as they are. -/
theorem C66_again_partial (hw : WellFormed g) (hd : FilesDistinct a) {nodes : List (Node T V)}
    (hnodes : ∀ n ∈ nodes, g.get? n.name = some n) (inputs overrides : Dict Name V) {t : FileCache V W} (ht : t.computed = [])
    {s : ExecState V} {u : FileCache V W} (h1 : fileExecute a g nodes inputs overrides t = .ok (s, u))
    (hst : ∀ c ∈ s.calls, ∀ n f v, g.get? c.1 = some n → a.fmt c.1 = some f → n.fn c.2 = .ok v → Stores a f n.typ c.1 v) :
    ∃ u', fileExecute { a with force := [] } g nodes inputs overrides u = .ok (s, u') ∧
      (∀ p, u'.files.get? p = u.files.get? p) ∧
      ∃ extra, u'.invoked = u.invoked ++ extra ∧ ∀ c ∈ extra, a.fmt c.1 = none := by
  obtain ⟨hr1, hr2, _⟩ := C66_rule_partial hw hd hnodes inputs overrides ht
  obtain ⟨hu, _, hwrote, hsame⟩ := hr2 s u h1
  rw [h1] at hr1
  have hplain : executeSubdag (Graph.withFn (served a g overrides t.files) g)
      (nodes.map (Node.withFn (served a g overrides t.files))) inputs overrides = .ok s := hr1.symm
  have hord := replaced_ordered (inputs := inputs) (overrides := overrides) (served a g overrides t.files) hw hnodes
  have htrace := plain_calls_ok (withFn_wf (served a g overrides t.files) hw) (mem_map_withFn _ hnodes) inputs overrides
  rw [hplain] at hord htrace
  have hlive : ∀ c ∈ s.calls, ∃ n, g.get? c.1 = some n ∧ n.name = c.1 ∧ n.kind ≠ .external ∧ overrides.get? c.1 = none := by
    intro c hc
    obtain ⟨_, ho, n', hn', hf, _⟩ := htrace.calls_ok c hc
    obtain ⟨n, hn, rfl⟩ := withFn_some _ g hn'
    exact ⟨n, hn, hw.name_eq hn, hf, ho⟩
  -- after the run every cached function that was called has its file
  have hfile : ∀ c ∈ s.calls, ∀ n f, g.get? c.1 = some n → a.fmt c.1 = some f →
      ∃ x, u.files.get? (c.1 ++ "." ++ f) = some x ∧
        ∀ v, served a g overrides t.files n c.2 = .ok v → a.read f n.typ x = .ok v := by
    intro c hc n f hn hfmt
    obtain ⟨n', hn', hname, hf, ho⟩ := hlive c hc
    rw [hn] at hn'
    cases hn'
    by_cases hm : Recomputed a g overrides t.files c.1
    · obtain ⟨w, v, e1, e2, e3, e4⟩ := hwrote c hc hm n f hn hfmt
      have hs := hst c hc n f v hn hfmt e1
      obtain ⟨w', x, e5, e6, e7⟩ := id hs
      rw [e2] at e5
      cases e5
      refine ⟨x, e4 x (by rw [e6]), ?_⟩
      intro v' hv'
      rw [served_stored (by rw [hname]; exact hfmt) (by rw [hname]; exact hm) e1 (by rw [hname]; exact hs)] at hv'
      cases hv'
      exact loads_read e7
    · cases hx : t.files.get? (c.1 ++ "." ++ f) with
      | none => exact absurd (.here hn hf ho hfmt (.inr hx)) hm
      | some x =>
        refine ⟨x, ?_, ?_⟩
        · rw [hsame, hx]
          intro c' hc' hm' f' hf' he
          have := hd _ _ _ _ hf' hfmt he
          rw [this] at hm'
          exact hm hm'
        · intro v hv
          rw [served_loaded (f := f) (x := x) (by rw [hname]; exact hfmt) (by rw [hname]; exact hm) (by rw [hname]; exact hx)] at hv
          exact hv
  have hd' : FilesDistinct ({ a with force := [] } : FileAdapter T V W) := hd
  have hnot : ∀ k, Recomputed { a with force := [] } g overrides u.files k → k ∉ s.calls.map (·.1) := by
    intro k hk
    induction hk with
    | here hn hf ho hfmt hor =>
      intro hmem
      obtain ⟨c, hc, rfl⟩ := List.mem_map.1 hmem
      obtain ⟨x, hx, _⟩ := hfile c hc _ _ hn hfmt
      rcases hor with h | h
      · cases h
      · rw [hx] at h; cases h
    | dependent hn hf ho hdk hmd ih =>
      intro hmem
      obtain ⟨c, hc, rfl⟩ := List.mem_map.1 hmem
      obtain ⟨l1, l2, hl⟩ := List.append_of_mem hc
      obtain ⟨dn, e1, e2, e3⟩ := hmd.live
      have := hord l1 c l2 hl _ hn _ hdk e3 dn e1 e2
      apply ih
      rw [hl, List.map_append]
      exact List.mem_append_left _ this
  have hagree : ∀ c ∈ s.calls, ∀ n, g.get? c.1 = some n →
      served { a with force := [] } g overrides u.files n c.2 = served a g overrides t.files n c.2 := by
    intro c hc n hn
    obtain ⟨n', hn', hname, hf, ho⟩ := hlive c hc
    rw [hn] at hn'
    cases hn'
    cases hfmt : a.fmt c.1 with
    | none => rw [served_none (by rw [hname]; exact hfmt), served_none (by rw [hname]; exact hfmt)]
    | some f =>
      obtain ⟨x, hx, hread⟩ := hfile c hc n f hn hfmt
      rw [served_loaded (a := { a with force := [] }) (f := f) (x := x) (by rw [hname]; exact hfmt)
        (by rw [hname]; exact fun hm => hnot _ hm (List.mem_map.2 ⟨c, hc, rfl⟩)) (by rw [hname]; exact hx)]
      change a.read f n.typ x = _
      by_cases hm : Recomputed a g overrides t.files c.1
      · obtain ⟨w, v, e1, _⟩ := hwrote c hc hm n f hn hfmt
        have hv := served_stored (kw := c.2) (by rw [hname]; exact hfmt) (by rw [hname]; exact hm) e1
          (by rw [hname]; exact hst c hc n f v hn hfmt e1)
        rw [hv]
        exact hread v hv
      · cases hx0 : t.files.get? (c.1 ++ "." ++ f) with
        | none => exact absurd (.here hn hf ho hfmt (.inr hx0)) hm
        | some x0 =>
          have : u.files.get? (c.1 ++ "." ++ f) = some x0 := by
            rw [hsame, hx0]
            intro c' hc' hm' f' hf' he
            have := hd _ _ _ _ hf' hfmt he
            rw [this] at hm'
            exact hm hm'
          rw [hx] at this
          cases this
          rw [served_loaded (f := f) (x := x) (by rw [hname]; exact hfmt) (by rw [hname]; exact hm) (by rw [hname]; exact hx0)]
  have hcongr := replaced_congr (inputs := inputs) (overrides := overrides) hw hnodes (served a g overrides t.files)
    (served { a with force := [] } g overrides u.files) (by rw [hplain]; exact hagree)
  rw [hplain] at hcongr
  obtain ⟨hq1, hq2, _⟩ := C66_rule_partial (t := u) hw hd' hnodes inputs overrides hu
  rw [hcongr] at hq1
  revert hq1 hq2
  cases fileExecute { a with force := [] } g nodes inputs overrides u with
  | err e st => intro hq1; cases hq1
  | ok st =>
    obtain ⟨s', u'⟩ := st
    intro hq1 hq2
    have hs : s' = s := by injection hq1
    subst hs
    obtain ⟨_, ⟨extra, e1, e2, e3⟩, _, e5⟩ := hq2 s' u' rfl
    refine ⟨u', rfl, ?_, extra, e1, ?_⟩
    · intro p
      apply e5
      intro c hc hm
      exact absurd (List.mem_map.2 ⟨c, hc, rfl⟩) (hnot _ hm)
    · intro c hc
      rcases (e3 c (e2.subset hc)).1 hc with h | h
      · exact h
      · exact absurd (List.mem_map.2 ⟨c, e2.subset hc, rfl⟩) (hnot _ h)

/-! ### After an edit -/

theorem den_edited {g' : Graph T V} {changed : List Name} (he : Edited g g' changed)
    (hc : ∀ k ∈ changed, k ∈ a.force ∧ a.fmt k ≠ none) {k : Name} {v : V} (h : Den g inputs overrides k v) :
    ¬ Recomputed a g' overrides files k → Den g' inputs overrides k v := by
  have hget : ∀ {k n}, g.get? k = some n → ∃ n', g'.get? k = some n' := by
    intro k n hn
    cases hn' : g'.get? k with
    | some n' => exact ⟨n', rfl⟩
    | none => rw [(he.1 k).2 hn'] at hn; cases hn
  induction h with
  | override h1 h2 =>
    intro _
    obtain ⟨n', hn'⟩ := hget h1
    exact .override hn' h2
  | input h1 h2 h3 h4 =>
    intro _
    obtain ⟨n', hn'⟩ := hget h1
    exact .input hn' h2 ((he.2 _ _ _ h1 hn').1 ▸ h3) h4
  | @call k n v val h1 h2 h3 h4 h5 h6 ih =>
    intro hm
    obtain ⟨n', hn'⟩ := hget h1
    obtain ⟨e1, e2, e3, e4⟩ := he.2 _ _ _ h1 hn'
    have hf' : n'.kind ≠ .external := e1 ▸ h3
    have hk : k ∉ changed := by
      intro hk
      obtain ⟨h7, h8⟩ := hc k hk
      cases hfmt : a.fmt k with
      | none => exact h8 hfmt
      | some f => exact hm (.here hn' hf' h2 hfmt (.inl h7))
    refine .call (n := n') val hn' h2 hf' ?_ ?_ ?_
    · intro d w hd hw'
      rw [← e3] at hd
      exact ih d w hd hw' fun hmd => hm (.dependent hn' hf' h2 (e3 ▸ hd) hmd)
    · intro d t hd hv
      rw [← e3] at hd
      obtain ⟨h7, dn, h8, h9, h10⟩ := h5 d t hd hv
      obtain ⟨dn', hdn'⟩ := hget h8
      exact ⟨h7, dn', hdn', (he.2 _ _ _ h8 hdn').1 ▸ h9, h10⟩
    · rw [← e3, ← e4 hk]
      exact h6

/-- **C66 (after an edit)**: if the files hold values of the graph before its code was edited, the edited functions are cached
and are forced, and nothing is left over from an earlier run, the run gives what the edited graph gives without the adapter,
and the files of the functions it called hold their new values. -/
theorem C66_edit_partial {g' : Graph T V} {changed : List Name} (hw' : WellFormed g') (hd : FilesDistinct a)
    (he : Edited g g' changed) (hc : ∀ k ∈ changed, k ∈ a.force ∧ a.fmt k ≠ none) {nodes : List (Node T V)}
    (hnodes : ∀ n ∈ nodes, g'.get? n.name = some n) (hst : Storable a g' inputs overrides) {t : FileCache V W}
    (ht : t.computed = []) (hft : FilesTrue a g inputs overrides t.files) :
    withoutAdapter (fileExecute a g' nodes inputs overrides t) = executeSubdag g' nodes inputs overrides ∧
    ∀ s u, fileExecute a g' nodes inputs overrides t = .ok (s, u) → ∀ c ∈ s.calls, ∀ n f, g'.get? c.1 = some n →
      a.fmt c.1 = some f → ∃ x v, u.files.get? (c.1 ++ "." ++ f) = some x ∧ Loads a f n.typ x v ∧
        Den g' inputs overrides c.1 v := by
  obtain ⟨hr1, hr2, _⟩ := C66_rule_partial (a := a) hw' hd hnodes inputs overrides ht
  have hold : ∀ k n f, g'.get? k = some n → n.kind ≠ .external → overrides.get? k = none → a.fmt k = some f →
      ¬ Recomputed a g' overrides t.files k → ∃ x v, t.files.get? (k ++ "." ++ f) = some x ∧ Loads a f n.typ x v ∧
        Den g' inputs overrides k v := by
    intro k n' f hn' hf' ho hfmt hm
    cases hx : t.files.get? (k ++ "." ++ f) with
    | none => exact absurd (.here hn' hf' ho hfmt (.inr hx)) hm
    | some x =>
      cases hn : g.get? k with
      | none => rw [(he.1 k).1 hn] at hn'; cases hn'
      | some n =>
        obtain ⟨e1, e2, e3, e4⟩ := he.2 _ _ _ hn hn'
        obtain ⟨v, h1, h2⟩ := hft k n f x hn (e1 ▸ hf') ho hfmt hx
        exact ⟨x, v, rfl, e2 ▸ h1, den_edited he hc h2 hm⟩
  have hsame : executeSubdag (Graph.withFn (served a g' overrides t.files) g')
      (nodes.map (Node.withFn (served a g' overrides t.files))) inputs overrides = executeSubdag g' nodes inputs overrides := by
    apply replaced_same hw' hnodes
    intro c hcall n hn
    obtain ⟨_, ho, n', hn', hf, hkw⟩ := (plain_calls_ok hw' hnodes inputs overrides).calls_ok c hcall
    rw [hn] at hn'
    cases hn'
    have hname := hw'.name_eq hn
    cases hfmt : a.fmt c.1 with
    | none => exact served_none (by rw [hname]; exact hfmt)
    | some f =>
      by_cases hm : Recomputed a g' overrides t.files c.1
      · cases hr : n.fn c.2 with
        | error e =>
          unfold served
          rw [hname, hfmt]
          simp only
          rw [if_pos hm, hr]
        | ok v =>
          exact served_stored (by rw [hname]; exact hfmt) (by rw [hname]; exact hm) hr
            (by rw [hname]; exact hst _ _ _ _ hn hf ho hfmt (den_of_fn hn hf ho hkw hr))
      · obtain ⟨x, v, h1, h2, h3⟩ := hold _ _ _ hn hf ho hfmt hm
        rw [served_loaded (f := f) (x := x) (by rw [hname]; exact hfmt) (by rw [hname]; exact hm) (by rw [hname]; exact h1),
          loads_read h2, fn_of_den hn hf ho hkw h3]
  rw [hsame] at hr1
  refine ⟨hr1, ?_⟩
  intro s u h1 c hcall n f hn hfmt
  obtain ⟨_, _, hwrote, hsame'⟩ := hr2 s u h1
  rw [h1] at hr1
  have htrace := plain_calls_ok hw' hnodes inputs overrides
  rw [← hr1] at htrace
  obtain ⟨_, ho, n', hn', hf, hkw⟩ := htrace.calls_ok c hcall
  rw [hn] at hn'
  cases hn'
  by_cases hm : Recomputed a g' overrides t.files c.1
  · obtain ⟨w, v, e1, e2, e3, e4⟩ := hwrote c hcall hm n f hn hfmt
    have hden := den_of_fn hn hf ho hkw e1
    obtain ⟨w', x, e5, e6, e7⟩ := hst _ _ _ _ hn hf ho hfmt hden
    rw [e2] at e5
    cases e5
    exact ⟨x, v, e4 x (by rw [e6]), e7, hden⟩
  · obtain ⟨x, v, h2, h3, h4⟩ := hold _ _ _ hn hf ho hfmt hm
    refine ⟨x, v, ?_, h3, h4⟩
    rw [hsame', h2]
    intro c' hc' hm' f' hf' heq
    have := hd _ _ _ _ hf' hfmt heq
    rw [this] at hm'
    exact hm hm'

end

/-! ### Examples -/

namespace FileSample
open Sample (fnNode arg tm)

/-- The sample with another function `left`. -/
def fns2 : List (Node Unit Int) :=
  [ fnNode "base" [("x", .required)] (fun kw => .ok (arg kw "x" 0 + 1)),
    fnNode "left" [("base", .required)] (fun kw => .ok (arg kw "base" 0 * 3)),
    fnNode "right" [("base", .required), ("y", .optional)] (fun kw => .ok (arg kw "base" 0 + arg kw "y" 10)),
    fnNode "top" [("left", .required), ("right", .required)]
      (fun kw => .ok (arg kw "left" 0 + arg kw "right" 0)) ]

/-- The sample with another function `base`. -/
def fns3 : List (Node Unit Int) :=
  [ fnNode "base" [("x", .required)] (fun kw => .ok (arg kw "x" 0 + 2)),
    fnNode "left" [("base", .required)] (fun kw => .ok (arg kw "base" 0 * 2)),
    fnNode "right" [("base", .required), ("y", .optional)] (fun kw => .ok (arg kw "base" 0 + arg kw "y" 10)),
    fnNode "top" [("left", .required), ("right", .required)]
      (fun kw => .ok (arg kw "left" 0 + arg kw "right" 0)) ]

/-- The graph of some functions. -/
def graphOf (fs : List (Node Unit Int)) : Graph Unit Int :=
  match createFunctionGraph tm () Sample.config false fs with
  | .ok g => g
  | .error _ => []

theorem graphOf_wf {fs : List (Node Unit Int)} (hf : ∀ n ∈ fs, Fresh n)
    (h : (createFunctionGraph tm () Sample.config false fs).isOk = true) : WellFormed (graphOf fs) := by
  unfold graphOf
  cases hr : createFunctionGraph tm () Sample.config false fs with
  | error e => rw [hr] at h; cases h
  | ok g => exact (createFunctionGraph_spec hf hr).1

theorem wf2 : WellFormed (graphOf fns2) := by
  apply graphOf_wf
  · intro n hn
    simp only [fns2, List.mem_cons, List.not_mem_nil, or_false] at hn
    rcases hn with rfl | rfl | rfl | rfl <;> exact ⟨by decide, rfl, rfl, by decide⟩
  · decide

/-- `left` and `top` are tagged `cache="json"`. -/
def fmt (k : Name) : Option String := if k = "left" ∨ k = "top" then some "json" else none

/-- JSON files hold the number; what is left of a file after a failure cannot be read. -/
def adapter (bad : Int → Bool) (force : List Name) : FileAdapter Unit Int (Option Int) :=
  { fmt, force, writers := [("json", fun v _ => if bad v then (some none, some "TypeError") else (some (some v), none))],
    readers := [("json", fun _ x => match x with | some v => .ok v | none => .error "JSONDecodeError")],
    empty := fun _ => none }

/-- All writers work. -/
def good (force : List Name) : FileAdapter Unit Int (Option Int) := adapter (fun _ => false) force

theorem distinct (force : List Name) : FilesDistinct (good force) := by
  intro k k' f f' hk hk' he
  have h : ∀ {k f}, fmt k = some f → f = "json" ∧ (k = "left" ∨ k = "top") := by
    intro k f h
    unfold fmt at h
    split at h
    · rename_i hc; cases h; exact ⟨rfl, hc⟩
    · cases h
  obtain ⟨rfl, h1⟩ := h hk
  obtain ⟨rfl, h2⟩ := h hk'
  rcases h1 with rfl | rfl <;> rcases h2 with rfl | rfl
  · rfl
  · exact absurd he (by decide)
  · exact absurd he (by decide)
  · rfl

theorem good_stores (force : List Name) {f : String} {k : Name} (hf : fmt k = some f) (v : Int) : Stores (good force) f () k v := by
  have h : f = "json" := by
    unfold fmt at hf
    split at hf
    · cases hf; rfl
    · cases hf
  subst h
  exact ⟨_, some v, rfl, rfl, rfl, ⟨_, rfl⟩, _, rfl, rfl⟩

theorem storable (force : List Name) (g : Graph Unit Int) (inputs overrides : Dict Name Int) :
    Storable (good force) g inputs overrides := fun _ _ _ v _ _ _ hf _ => good_stores force hf v

theorem no_files (force : List Name) (g : Graph Unit Int) (inputs overrides : Dict Name Int) :
    FilesTrue (good force) g inputs overrides [] := fun _ _ _ _ _ _ _ _ h => by cases h

/-- The nodes of a name. -/
def request (g : Graph Unit Int) (ks : List Name) : List (Node Unit Int) := ks.filterMap g.get?

theorem request_ok {g : Graph Unit Int} (hw : WellFormed g) (ks : List Name) :
    ∀ n ∈ request g ks, g.get? n.name = some n := by
  intro n hn
  obtain ⟨k, _, h⟩ := List.mem_filterMap.1 hn
  rw [hw.name_eq h]
  exact h

/-- A run asking for some nodes. -/
def exec (a : FileAdapter Unit Int (Option Int)) (g : Graph Unit Int) (ks : List Name) (x : Int)
    (t : FileCache Int (Option Int)) : Out (ExecState Int × FileCache Int (Option Int)) ExecErr :=
  fileExecute a g (request g ks) [("x", x)] [] t

/-- The values of a run, the functions invoked so far, and the files. -/
def seen (o : Out (ExecState Int × FileCache Int (Option Int)) ExecErr) : List (Option Int) × List Name × Dict String (Option Int) :=
  (["left", "top"].map o.state.1.computed.get?, o.state.2.invoked.map (·.1), o.state.2.files)

/-- The files after the first run. -/
def first : FileCache Int (Option Int) := (exec (good []) Sample.graph ["left", "top"] 4 {}).state.2

theorem first_true : FilesTrue (good ["left"]) Sample.graph [("x", 4)] [] first.files :=
  (C66_same_partial Sample.graph_wf (distinct []) (storable [] _ _ _) (request_ok Sample.graph_wf ["left", "top"])
    (no_files [] _ _ _)).2

theorem edited : Edited Sample.graph (graphOf fns2) ["left"] := by
  have k1 : Sample.graph.keys = ["base", "left", "right", "top", "x", "y", "c"] := by decide +kernel
  have k2 : (graphOf fns2).keys = ["base", "left", "right", "top", "x", "y", "c"] := by decide +kernel
  constructor
  · intro k
    rw [Dict.get?_eq_none_iff, Dict.get?_eq_none_iff, k1, k2]
  · intro k n n' hn hn'
    have hm : k ∈ Sample.graph.keys := Dict.mem_keys_iff.2 ⟨n, hn⟩
    rw [k1] at hm
    have key : ∀ {k : Name} {n n' : Node Unit Int}, Sample.graph.get? k = some n → (graphOf fns2).get? k = some n' →
        (Sample.graph.get? k).map (fun n => (n.kind, n.typ, n.inputTypes)) =
          ((graphOf fns2).get? k).map (fun n => (n.kind, n.typ, n.inputTypes)) →
        (k ∉ ["left"] → (Sample.graph.get? k).map (·.fn) = ((graphOf fns2).get? k).map (·.fn)) →
        n.kind = n'.kind ∧ n.typ = n'.typ ∧ n.inputTypes = n'.inputTypes ∧ (k ∉ ["left"] → n.fn = n'.fn) := by
      intro k n n' h h' h1 h2
      rw [h, h'] at h1 h2
      simp only [Option.map_some, Option.some.injEq, Prod.mk.injEq] at h1 h2
      exact ⟨h1.1, rfl, h1.2.2, h2⟩
    apply key hn hn'
    · simp only [List.mem_cons, List.not_mem_nil, or_false] at hm
      rcases hm with rfl | rfl | rfl | rfl | rfl | rfl | rfl <;> rfl
    · intro hk
      simp only [List.mem_cons, List.not_mem_nil, or_false] at hm hk
      rcases hm with rfl | rfl | rfl | rfl | rfl | rfl | rfl
      · rfl
      · exact absurd rfl hk
      all_goals rfl

/-- Both cached nodes are asked for. -/
def both : List Name := ["left", "top"]

-- the first run computes and writes, the second one loads; a forced node is computed again, and what depends on it
example : seen (exec (good []) Sample.graph both 4 {}) =
      ([some 10, some 25], ["base", "left", "right", "top"], [("left.json", some 10), ("top.json", some 25)]) ∧
    seen (exec (good []) Sample.graph both 4 first) =
      ([some 10, some 25], ["base", "left", "right", "top", "base", "right"], [("left.json", some 10), ("top.json", some 25)]) ∧
    seen (exec (good ["left"]) Sample.graph both 4 first) =
      ([some 10, some 25], ["base", "left", "right", "top", "base", "left", "right", "top"],
        [("left.json", some 10), ("top.json", some 25)]) := by
  decide +kernel

example := C66_rule_partial Sample.graph_wf (distinct ["left"]) (request_ok Sample.graph_wf both) [("x", 4)] [] (t := first)
  (by decide +kernel)

example := C66_same_partial Sample.graph_wf (distinct ["left"]) (storable ["left"] _ [("x", 4)] [])
  (request_ok Sample.graph_wf both) (t := first) first_true

/-- A successful run comes with its state. -/
theorem ran {σ ε : Type} {o : Out σ ε} (h : (match o with | .ok _ => true | .err _ _ => false) = true) : o = .ok o.state := by
  cases o with
  | ok s => rfl
  | err e s => cases h

example := C66_again_partial (a := good ["left"]) (t := first) (s := (exec (good ["left"]) Sample.graph both 4 first).state.1)
  (u := (exec (good ["left"]) Sample.graph both 4 first).state.2)
  Sample.graph_wf (distinct ["left"]) (request_ok Sample.graph_wf both) [("x", 4)] []
  (by decide +kernel) (ran (o := exec (good ["left"]) Sample.graph both 4 first) (by decide +kernel))
  (fun _ _ _ _ v _ hf _ => good_stores _ hf v)

example := C66_edit_partial wf2 (distinct ["left"]) edited (by
    intro k hk
    rw [List.mem_singleton] at hk
    subst hk
    exact ⟨by decide, by decide⟩) (request_ok wf2 both) (storable _ _ [("x", 4)] []) (t := first) (by decide +kernel) first_true

-- after the edit of `left`, forced
example : seen (exec (good ["left"]) (graphOf fns2) both 4 first) =
      ([some 15, some 30], ["base", "left", "right", "top", "base", "left", "right", "top"],
        [("left.json", some 15), ("top.json", some 30)]) := by
  decide +kernel

/-- **C66 violated (other inputs)**: a run with other inputs gets the values of the first run. -/
theorem C66_violated_inputs :
    (seen (exec (good []) Sample.graph both 5 first)).1 = [some 10, some 25] ∧
    (seen (exec (good []) Sample.graph both 5 {})).1 = [some 12, some 28] := by
  decide +kernel

/-- **C66 violated (part of the graph)**: after a run with a forced node that did not ask for what depends on it, a later run
loads the old value of the dependent node, beside the new value it was not computed from. -/
theorem C66_violated_part :
    (seen (exec (good []) (graphOf fns2) both 4 (exec (good ["left"]) (graphOf fns2) ["left"] 4 first).state.2)).1
      = [some 15, some 25] ∧
    (seen (exec (good []) (graphOf fns2) both 4 {})).1 = [some 15, some 30] := by
  decide +kernel

/-- **C66 violated (forcing what is not cached)**: forcing a function that is not cached does not recompute what depends
on it. -/
theorem C66_violated_uncached :
    (seen (exec (good ["base"]) (graphOf fns3) both 4 first)).1 = [some 10, some 25] ∧
    (seen (exec (good ["base"]) (graphOf fns3) both 4 {})).1 = [some 12, some 28] := by
  decide +kernel

/-- **C66 violated (left over)**: after an execution whose results were not built (`raw_execute`), a cached function is invoked
again although it has its file and nothing is forced or was recomputed. -/
theorem C66_violated_leftover :
    ((fileRun (good []) Sample.graph (request Sample.graph both) [("x", 4)] [] {}).state.2.invoked.map (·.1)).count "top" = 1 ∧
    (seen (exec (good []) Sample.graph both 4
      (fileRun (good []) Sample.graph (request Sample.graph both) [("x", 4)] [] {}).state.2)).2.1.count "top" = 2 := by
  decide +kernel

/-- **C66 violated (broken file)**: what a writer that failed left in the file counts as the cached value: a new adapter fails
to load it, where it would have computed the value without the file. -/
theorem C66_violated_broken :
    (seen (exec (adapter (· == 25) []) Sample.graph both 4 {})) =
      ([some 10, none], ["base", "left", "right", "top"], [("left.json", some 10), ("top.json", none)]) ∧
    (seen (exec (good []) Sample.graph both 4 { files := [("left.json", some 10), ("top.json", none)] })).1 = [some 10, none] ∧
    (seen (exec (good []) Sample.graph both 4 { files := [("left.json", some 10)] })).1 = [some 10, some 25] := by
  decide +kernel

end FileSample

end Verif
