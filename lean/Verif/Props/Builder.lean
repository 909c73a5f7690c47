import Verif.Model.Builder

/-!
Property C43: builders, their copies and the drivers they build.
-/
namespace Verif
variable {V M Z A X : Type} {isCache : A → Bool}

/-! ### Specification: what a driver is configured with -/

/-- The settings of a driver, as they can be observed now: in particular the contents of its configuration. -/
structure Settings (V M Z A X : Type) where
  config : Dict Name V
  modules : List M
  adapters : List A
  materializers : List Z
  execution : Execution X
  allowOverrides : Bool

/-- The settings of a driver in a state of the program. -/
def settings (w : World V M Z A X) (d : DriverState M Z A X) : Settings V M Z A X :=
  { config := w.heap[d.config]?.getD [], modules := d.modules, adapters := d.adapters, materializers := d.materializers,
    execution := d.execution, allowOverrides := d.allowOverrides }

/-- The settings of the driver that building builder `i` now returns. -/
def buildNow (isCache : A → Bool) (w : World V M Z A X) (i : Nat) : Option (Settings V M Z A X) :=
  if i < w.builders.length then
    ((w.step isCache (.build i)).drivers.getLast?).map (settings (w.step isCache (.build i)))
  else none

/-- States that programs reach. -/
def ReachableW (isCache : A → Bool) (w : World V M Z A X) : Prop := ∃ ops, w = World.run isCache World.empty ops

/-- The operation works on builder `i` (copying it only reads it). -/
def BOp.addresses : BOp V M Z A X → Nat → Prop
  | .new, _ => False
  | .call j _, i => j = i
  | .copy _, _ => False
  | .build j, i => j = i

/-- The operation configures builder `i`. -/
def BOp.configures : BOp V M Z A X → Nat → Prop
  | .call j (.config _), i => j = i
  | _, _ => False

/-! ### Invariant: every builder has its own dictionary -/

/-- Invariant of programs. -/
structure WInv (w : World V M Z A X) : Prop where
  ref : ∀ (i : Nat) (b : BuilderState M Z A X), w.builders[i]? = some b → b.config < w.heap.length
  own : ∀ (i j : Nat) (b c : BuilderState M Z A X), w.builders[i]? = some b → w.builders[j]? = some c → b.config = c.config → i = j
  dref : ∀ d ∈ w.drivers, d.config < w.heap.length

theorem applyCall_config {b b' : BuilderState M Z A X} {c : BCall V M Z A X} (h : applyCall isCache b c = some b') :
    b'.config = b.config := by
  cases c <;> simp only [applyCall] at h <;> (try split at h) <;> cases h <;> rfl

/-- Replacing the state of a builder without changing its reference. -/
theorem getElem?_set_config {l : List (BuilderState M Z A X)} {i : Nat} {b b' : BuilderState M Z A X} (hb : l[i]? = some b)
    (hc : b'.config = b.config) {j : Nat} {c : BuilderState M Z A X} (h : (l.set i b')[j]? = some c) :
    ∃ c', l[j]? = some c' ∧ c'.config = c.config := by
  rw [List.getElem?_set] at h
  by_cases hij : i = j
  · subst hij
    rw [if_pos rfl] at h
    split at h
    · cases h; exact ⟨b, hb, hc.symm⟩
    · cases h
  · rw [if_neg hij] at h
    exact ⟨c, h, rfl⟩

theorem WInv.step {w : World V M Z A X} (h : WInv w) (op : BOp V M Z A X) : WInv (w.step isCache op) := by
  have add : ∀ (b : BuilderState M Z A X) (d : Dict Name V), b.config = w.heap.length →
      WInv { w with heap := w.heap ++ [d], builders := w.builders ++ [b] } := by
    intro b d hb
    have look : ∀ j c, (w.builders ++ [b])[j]? = some c → (w.builders[j]? = some c) ∨ (j = w.builders.length ∧ c = b) := by
      intro j c hj
      rw [List.getElem?_append] at hj
      split at hj
      · exact .inl hj
      · rename_i hge
        rw [List.getElem?_singleton] at hj
        split at hj
        · cases hj; exact .inr ⟨by omega, rfl⟩
        · cases hj
    refine ⟨?_, ?_, ?_⟩
    · intro j c hj
      simp only [List.length_append, List.length_cons, List.length_nil]
      rcases look j c hj with h1 | ⟨_, rfl⟩
      · have := h.ref j c h1; omega
      · omega
    · intro j k c d hj hk he
      rcases look j c hj with h1 | ⟨h1, h1'⟩ <;> rcases look k d hk with h2 | ⟨h2, h2'⟩
      · exact h.own j k c d h1 h2 he
      · have := h.ref j c h1; subst h2'; omega
      · have := h.ref k d h2; subst h1'; omega
      · omega
    · intro d hd
      have := h.dref d hd
      simp only [List.length_append, List.length_cons, List.length_nil]; omega
  cases op with
  | new => exact add _ _ rfl
  | copy i =>
    simp only [World.step]
    cases hb : w.builders[i]? with
    | none => exact h
    | some b => exact add _ _ rfl
  | call i c =>
    simp only [World.step]
    cases hb : w.builders[i]? with
    | none => exact h
    | some b =>
      dsimp only
      cases hc : applyCall isCache b c with
      | none => exact h
      | some b' =>
        have e := applyCall_config hc
        refine ⟨?_, ?_, ?_⟩
        · intro j d hj
          obtain ⟨d', h1, h2⟩ := getElem?_set_config hb e hj
          simp only [List.length_set]
          rw [← h2]; exact h.ref j d' h1
        · intro j k d d2 hj hk he
          obtain ⟨x, h1, h2⟩ := getElem?_set_config hb e hj
          obtain ⟨y, h3, h4⟩ := getElem?_set_config hb e hk
          exact h.own j k x y h1 h3 (by rw [h2, h4, he])
        · intro d hd
          simp only [List.length_set]
          exact h.dref d hd
  | build i =>
    simp only [World.step]
    cases hb : w.builders[i]? with
    | none => exact h
    | some b =>
      have e : b.built.config = b.config := rfl
      refine ⟨?_, ?_, ?_⟩
      · intro j d hj
        obtain ⟨d', h1, h2⟩ := getElem?_set_config hb e hj
        rw [← h2]; exact h.ref j d' h1
      · intro j k d d2 hj hk he
        obtain ⟨x, h1, h2⟩ := getElem?_set_config hb e hj
        obtain ⟨y, h3, h4⟩ := getElem?_set_config hb e hk
        exact h.own j k x y h1 h3 (by rw [h2, h4, he])
      · intro d hd
        rcases List.mem_append.1 hd with hd | hd
        · exact h.dref d hd
        · simp only [List.mem_singleton] at hd
          subst hd
          exact h.ref i b hb

theorem WInv.run {w : World V M Z A X} (h : WInv w) (ops : List (BOp V M Z A X)) : WInv (w.run isCache ops) := by
  unfold World.run
  induction ops generalizing w with
  | nil => exact h
  | cons op ops ih => exact ih (h.step op)

theorem ReachableW.inv {w : World V M Z A X} (h : ReachableW isCache w) : WInv w := by
  obtain ⟨ops, rfl⟩ := h
  refine WInv.run ⟨?_, ?_, ?_⟩ ops <;> simp [World.empty]

theorem buildNow_some {w : World V M Z A X} {i : Nat} {b : BuilderState M Z A X} (hb : w.builders[i]? = some b) :
    buildNow isCache w i = some (settings w b.driver) := by
  have hlt : i < w.builders.length := by
    rcases Nat.lt_or_ge i w.builders.length with h | h
    · exact h
    · rw [List.getElem?_eq_none h] at hb; cases hb
  unfold buildNow
  rw [if_pos hlt]
  simp [World.step, hb, settings]

theorem buildNow_none {w : World V M Z A X} {i : Nat} (hb : w.builders[i]? = none) : buildNow isCache w i = none := by
  unfold buildNow
  rw [if_neg]
  intro h
  rw [List.getElem?_eq_some_iff.2 ⟨h, rfl⟩] at hb
  cases hb

/-- A configuration dictionary is only changed by `with_config` on the builder that owns it, a builder's state only by
operations on it. -/
theorem step_other {w : World V M Z A X} (h : WInv w) {i : Nat} {b : BuilderState M Z A X} (hb : w.builders[i]? = some b)
    {op : BOp V M Z A X} :
    (¬ op.configures i → (w.step isCache op).heap[b.config]?.getD [] = w.heap[b.config]?.getD []) ∧
    (¬ op.addresses i → (w.step isCache op).builders[i]? = some b) ∧
    (∃ b', (w.step isCache op).builders[i]? = some b' ∧ b'.config = b.config) := by
  have hlt := h.ref i b hb
  have hil : i < w.builders.length := by
    rcases Nat.lt_or_ge i w.builders.length with h | h
    · exact h
    · rw [List.getElem?_eq_none h] at hb; cases hb
  cases op with
  | new =>
    simp only [World.step]
    rw [List.getElem?_append_left hlt, List.getElem?_append_left hil]
    exact ⟨fun _ => rfl, fun _ => hb, b, hb, rfl⟩
  | copy j =>
    simp only [World.step]
    cases hj : w.builders[j]? with
    | none => exact ⟨fun _ => rfl, fun _ => hb, b, hb, rfl⟩
    | some c =>
      dsimp only
      rw [List.getElem?_append_left hlt, List.getElem?_append_left hil]
      exact ⟨fun _ => rfl, fun _ => hb, b, hb, rfl⟩
  | build j =>
    simp only [World.step]
    cases hj : w.builders[j]? with
    | none => exact ⟨fun _ => rfl, fun _ => hb, b, hb, rfl⟩
    | some c =>
      dsimp only
      refine ⟨fun _ => rfl, ?_, ?_⟩
      · intro ha
        rw [List.getElem?_set_ne (fun e => ha e)]
        exact hb
      · by_cases e : j = i
        · subst e
          rw [hb] at hj; cases hj
          rw [List.getElem?_set_self hil]
          exact ⟨_, rfl, rfl⟩
        · rw [List.getElem?_set_ne e]
          exact ⟨b, hb, rfl⟩
  | call j c =>
    simp only [World.step]
    cases hj : w.builders[j]? with
    | none => exact ⟨fun _ => rfl, fun _ => hb, b, hb, rfl⟩
    | some d =>
      dsimp only
      cases hc : applyCall isCache d c with
      | none => exact ⟨fun _ => rfl, fun _ => hb, b, hb, rfl⟩
      | some d' =>
        dsimp only
        refine ⟨?_, ?_, ?_⟩
        · intro hcfg
          by_cases e : j = i
          · subst e
            rw [hb] at hj; cases hj
            rw [List.getElem?_set_self hlt]
            cases c with
            | config x => exact absurd rfl hcfg
            | _ => simp [BCall.updates, Dict.merge]
          · have : d.config ≠ b.config := fun e' => e (h.own j i d b hj hb e')
            rw [List.getElem?_set_ne this]
        · intro ha
          rw [List.getElem?_set_ne (fun e => ha e)]
          exact hb
        · by_cases e : j = i
          · subst e
            rw [hb] at hj; cases hj
            rw [List.getElem?_set_self hil]
            exact ⟨_, rfl, applyCall_config hc⟩
          · rw [List.getElem?_set_ne e]
            exact ⟨b, hb, rfl⟩

/-! ### Properties -/

/-- **C43, independence.**  Whatever a program does with other builders, including copies of builder `i`, building `i` gives
a driver with the same settings. -/
theorem C43_independent {w : World V M Z A X} (hw : ReachableW isCache w) {i : Nat} (ops : List (BOp V M Z A X))
    (hops : ∀ op ∈ ops, ¬ op.addresses i) (hi : i < w.builders.length) :
    buildNow isCache (w.run isCache ops) i = buildNow isCache w i := by
  have hinv := hw.inv
  clear hw
  have key : ∀ (ops : List (BOp V M Z A X)) (w : World V M Z A X), WInv w → (∀ op ∈ ops, ¬ op.addresses i) →
      i < w.builders.length → buildNow isCache (w.run isCache ops) i = buildNow isCache w i := by
    intro ops
    induction ops with
    | nil => intro w _ _ _; rfl
    | cons op ops ih =>
      intro w h ho hi
      obtain ⟨b, hb⟩ : ∃ b, w.builders[i]? = some b := ⟨w.builders[i], List.getElem?_eq_getElem hi⟩
      obtain ⟨h1, h2, _⟩ := step_other (isCache := isCache) h hb (op := op)
      have hna : ¬ op.addresses i := ho op (by simp)
      have hnc : ¬ op.configures i := by
        intro hc
        apply hna
        cases op with
        | call j c => cases c <;> first | exact hc | exact absurd hc id
        | _ => exact absurd hc id
      have hb' := h2 hna
      have hi' : i < (w.step isCache op).builders.length := by
        rcases Nat.lt_or_ge i (w.step isCache op).builders.length with h | h
        · exact h
        · rw [List.getElem?_eq_none h] at hb'; cases hb'
      have := ih (w.step isCache op) (h.step op) (fun o hm => ho o (by simp [hm])) hi'
      rw [show World.run isCache w (op :: ops) = World.run isCache (w.step isCache op) ops from rfl, this,
        buildNow_some hb', buildNow_some hb]
      simp only [settings, BuilderState.driver, h1 hnc]
  exact key ops w hinv hops hi

/-- **C43, copies (partial).**  Copying a builder and building the copy gives a driver with the same settings as building the
original.  Missing: `allow_module_overrides`, which is not copied (`C43_violated_copy`). -/
theorem C43_copy_partial {w : World V M Z A X} {i : Nat} {b : BuilderState M Z A X} (hb : w.builders[i]? = some b)
    (ho : b.allowOverrides = false) :
    buildNow isCache (w.step isCache (.copy i)) w.builders.length = buildNow isCache w i := by
  have hs : (w.step isCache (.copy i)).builders[w.builders.length]? = some (b.copied w.heap.length) := by
    simp [World.step, hb]
  rw [buildNow_some hs, buildNow_some hb]
  simp [settings, BuilderState.driver, BuilderState.copied, World.step, hb, ho, BuilderState.execution]
  rfl

/-- **C43, building again (partial).**  Building leaves the settings of the next build unchanged.  Missing: builders with
`with_adapter`, whose adapter is added once more by every build (`C43_violated_rebuild`). -/
theorem C43_rebuild_partial {w : World V M Z A X} {i : Nat} {b : BuilderState M Z A X} (hb : w.builders[i]? = some b)
    (hl : b.legacyAdapter = none) :
    buildNow isCache (w.step isCache (.build i)) i = buildNow isCache w i := by
  have hil : i < w.builders.length := by
    rcases Nat.lt_or_ge i w.builders.length with h | h
    · exact h
    · rw [List.getElem?_eq_none h] at hb; cases hb
  have hs : (w.step isCache (.build i)).builders[i]? = some b.built := by
    simp [World.step, hb, List.getElem?_set_self hil]
  rw [buildNow_some hs, buildNow_some hb]
  simp [settings, BuilderState.driver, BuilderState.built, World.step, hb, hl, BuilderState.execution]

/-- **C43, drivers (partial).**  The settings of a driver that has been built do not change, whatever the program does next,
as long as it does not call `with_config` on the builder that built it.  Missing: such calls, which change the driver's
configuration (`C43_violated_driver`). -/
theorem C43_driver_partial {w : World V M Z A X} (hw : ReachableW isCache w) {i : Nat} {b : BuilderState M Z A X}
    (hb : w.builders[i]? = some b) (ops : List (BOp V M Z A X)) (hops : ∀ op ∈ ops, ¬ op.configures i) :
    ((w.step isCache (.build i)).run isCache ops).drivers[w.drivers.length]? = some b.driver ∧
    settings ((w.step isCache (.build i)).run isCache ops) b.driver = settings w b.driver := by
  have hinv := hw.inv
  have key : ∀ (ops : List (BOp V M Z A X)) (w' : World V M Z A X), WInv w' → (∀ op ∈ ops, ¬ op.configures i) →
      (∃ b', w'.builders[i]? = some b' ∧ b'.config = b.config) → w'.drivers[w.drivers.length]? = some b.driver →
      settings w' b.driver = settings w b.driver →
      (w'.run isCache ops).drivers[w.drivers.length]? = some b.driver ∧
      settings (w'.run isCache ops) b.driver = settings w b.driver := by
    intro ops
    induction ops with
    | nil => intro w' _ _ _ h1 h2; exact ⟨h1, h2⟩
    | cons op ops ih =>
      intro w' h ho ⟨b', hb', hc'⟩ h1 h2
      obtain ⟨s1, _, b'', hb'', hc''⟩ := step_other (isCache := isCache) h hb' (op := op)
      rw [show World.run isCache w' (op :: ops) = World.run isCache (w'.step isCache op) ops from rfl]
      refine ih (w'.step isCache op) (h.step op) (fun o hm => ho o (by simp [hm])) ⟨b'', hb'', hc''.trans hc'⟩ ?_ ?_
      · have hlt : w.drivers.length < w'.drivers.length := by
          rcases Nat.lt_or_ge w.drivers.length w'.drivers.length with h | h
          · exact h
          · rw [List.getElem?_eq_none h] at h1; cases h1
        cases op with
        | new => exact h1
        | copy j => simp only [World.step]; cases w'.builders[j]? <;> exact h1
        | call j c =>
          simp only [World.step]
          cases hj : w'.builders[j]? with
          | none => exact h1
          | some d =>
            dsimp only
            cases applyCall isCache d c <;> exact h1
        | build j =>
          simp only [World.step]
          cases w'.builders[j]? with
          | none => exact h1
          | some d => dsimp only; rw [List.getElem?_append_left hlt]; exact h1
      · rw [← h2]
        have := s1 (ho op (by simp))
        rw [hc'] at this
        simp only [settings, BuilderState.driver, this]
  have hinv' := hinv.step (isCache := isCache) (.build i)
  obtain ⟨_, _, b', hb', hc'⟩ := step_other (isCache := isCache) hinv hb (op := .build i)
  refine key ops _ hinv' hops ⟨b', hb', hc'⟩ ?_ ?_
  · simp [World.step, hb]
  · simp [settings, World.step, hb]

/-- A sequence of method calls on one builder; `none` if one of them raises. -/
def callAll (isCache : A → Bool) : List (BCall V M Z A X) → BuilderState M Z A X × Dict Name V →
    Option (BuilderState M Z A X × Dict Name V)
  | [], s => some s
  | c :: cs, (b, d) =>
    match applyCall isCache b c with
    | none => none
    | some b' => callAll isCache cs (b', d.merge c.updates)

/-- The method calls do what they say: run as operations on a builder. -/
theorem callAll_run {i : Nat} : ∀ (cs : List (BCall V M Z A X)) {w : World V M Z A X}
    {b : BuilderState M Z A X} {b' : BuilderState M Z A X} {d' : Dict Name V}, w.builders[i]? = some b →
    b.config < w.heap.length → callAll isCache cs (b, w.heap[b.config]?.getD []) = some (b', d') →
    (w.run isCache (cs.map (.call i))).builders[i]? = some b' ∧
    (w.run isCache (cs.map (.call i))).heap[b.config]?.getD [] = d' ∧ b'.config = b.config := by
  intro cs
  induction cs with
  | nil =>
    intro w b b' d' hb _ h
    simp only [callAll, Option.some.injEq, Prod.mk.injEq] at h
    obtain ⟨rfl, rfl⟩ := h
    exact ⟨hb, rfl, rfl⟩
  | cons c cs ih =>
    intro w b b' d' hb hlt h
    simp only [callAll] at h
    cases hc : applyCall isCache b c with
    | none => rw [hc] at h; cases h
    | some b1 =>
      rw [hc] at h
      have e := applyCall_config hc
      have hil : i < w.builders.length := by
        rcases Nat.lt_or_ge i w.builders.length with h | h
        · exact h
        · rw [List.getElem?_eq_none h] at hb; cases hb
      have hst : w.step isCache (.call i c) =
          { w with heap := w.heap.set b.config ((w.heap[b.config]?.getD []).merge c.updates),
                   builders := w.builders.set i b1 } := by
        simp only [World.step, hb, hc]
      have h1 : (w.step isCache (.call i c)).builders[i]? = some b1 := by rw [hst]; exact List.getElem?_set_self hil
      have h2 : (w.step isCache (.call i c)).heap[b1.config]?.getD [] = (w.heap[b.config]?.getD []).merge c.updates := by
        rw [hst, e]; simp only [List.getElem?_set_self hlt, Option.getD_some]
      have h3 : b1.config < (w.step isCache (.call i c)).heap.length := by
        rw [hst, e]; simp only [List.length_set]; exact hlt
      have := ih (w := w.step isCache (.call i c)) (b := b1) h1 h3 (by rw [h2]; exact h)
      rw [List.map_cons, show World.run isCache w (BOp.call i c :: cs.map (.call i)) =
        World.run isCache (w.step isCache (.call i c)) (cs.map (.call i)) from rfl]
      rw [e] at this
      exact this

/-- The last value given to a key by `with_config` calls. -/
def lastConfig : List (BCall V M Z A X) → Name → Option V
  | [], _ => none
  | c :: cs, k =>
    match lastConfig cs k, c with
    | some v, _ => some v
    | none, .config d => d.get? k
    | none, _ => none

/-- **C43, settings.**  After any sequence of successful method calls on a new builder, the driver built has: for every
configuration key the value of the last `with_config` call giving one; the modules and materializers of all calls in order;
the adapters of all `with_adapters` and `with_cache` calls in order, then that of `with_adapter`; module overrides iff
`allow_module_overrides` was called; and task-based execution iff dynamic execution was enabled. -/
theorem C43_settings {w : World V M Z A X} {cs : List (BCall V M Z A X)} {b : BuilderState M Z A X} {d : Dict Name V}
    (hcfg : ∀ c ∈ cs, c.updates.keys.Nodup)
    (hcalls : callAll isCache cs (.init w.heap.length, []) = some (b, d)) :
    ∃ s, buildNow isCache ((w.step isCache .new).run isCache (cs.map (.call w.builders.length))) w.builders.length = some s ∧
      (∀ k, s.config.get? k = lastConfig cs k) ∧
      s.modules = cs.flatMap (fun c => match c with | .modules ms => ms | _ => []) ∧
      s.materializers = cs.flatMap (fun c => match c with | .materializers zs => zs | _ => []) ∧
      s.adapters = cs.flatMap (fun c => match c with | .adapters as => as | .cache a => [a] | _ => []) ++
        cs.flatMap (fun c => match c with | .adapter a => [a] | _ => []) ∧
      (s.allowOverrides = true ↔ ∃ c ∈ cs, c = .allowOverrides) ∧
      (s.execution = .direct ↔ ¬ ∃ c ∈ cs, c = .enableDynamic true) := by
  have hnew : (w.step isCache .new).builders[w.builders.length]? = some (.init w.heap.length) := by simp [World.step]
  have hlt : (BuilderState.init w.heap.length : BuilderState M Z A X).config < (w.step isCache .new).heap.length := by
    simp [World.step, BuilderState.init]
  have hheap : (w.step isCache .new).heap[(BuilderState.init w.heap.length : BuilderState M Z A X).config]?.getD [] = [] := by
    simp [World.step, BuilderState.init]
  obtain ⟨h1, h2, h3⟩ := callAll_run (isCache := isCache) cs hnew hlt (by rw [hheap]; exact hcalls)
  refine ⟨_, buildNow_some h1, ?_⟩
  simp only [settings, BuilderState.driver]
  rw [h3, h2]
  clear h1 h2 h3 hnew hlt hheap
  -- the effect of the calls on an arbitrary builder
  have key : ∀ (cs : List (BCall V M Z A X)), (∀ c ∈ cs, c.updates.keys.Nodup) →
      ∀ (b0 b : BuilderState M Z A X) (d0 d : Dict Name V), callAll isCache cs (b0, d0) = some (b, d) →
      (∀ k, d.get? k = (lastConfig cs k).or (d0.get? k)) ∧
      b.modules = b0.modules ++ cs.flatMap (fun c => match c with | .modules ms => ms | _ => []) ∧
      b.materializers = b0.materializers ++ cs.flatMap (fun c => match c with | .materializers zs => zs | _ => []) ∧
      b.adapters = b0.adapters ++ cs.flatMap (fun c => match c with | .adapters as => as | .cache a => [a] | _ => []) ∧
      b.legacyAdapter.toList = b0.legacyAdapter.toList ++ cs.flatMap (fun c => match c with | .adapter a => [a] | _ => []) ∧
      (b.allowOverrides = true ↔ b0.allowOverrides = true ∨ ∃ c ∈ cs, c = .allowOverrides) ∧
      (b.v2 = true ↔ b0.v2 = true ∨ ∃ c ∈ cs, c = .enableDynamic true) := by
    intro cs
    induction cs with
    | nil =>
      intro _ b0 b d0 d h
      simp only [callAll, Option.some.injEq, Prod.mk.injEq] at h
      obtain ⟨rfl, rfl⟩ := h
      simp [lastConfig]
    | cons c cs ih =>
      intro hn b0 b d0 d h
      simp only [callAll] at h
      cases hc : applyCall isCache b0 c with
      | none => rw [hc] at h; cases h
      | some b1 =>
        rw [hc] at h
        obtain ⟨i1, i2, i3, i4, i5, i6, i7⟩ := ih (fun x hx => hn x (by simp [hx])) b1 b _ d h
        refine ⟨?_, ?_, ?_, ?_, ?_, ?_, ?_⟩
        · intro k
          rw [i1, Dict.get?_merge _ _ (hn c (by simp))]
          simp only [lastConfig]
          cases lastConfig cs k with
          | some v => rfl
          | none => cases c <;> simp [BCall.updates]
        all_goals
          first | rw [i2] | rw [i3] | rw [i4] | rw [i5] | rw [i6] | rw [i7]
          clear ih i1 i2 i3 i4 i5 i6 i7 h hn
          cases c <;> simp only [applyCall] at hc <;> (try split at hc) <;> cases hc <;>
            simp_all
  obtain ⟨i1, i2, i3, i4, i5, i6, i7⟩ := key cs hcfg _ b [] d hcalls
  refine ⟨?_, ?_, ?_, ?_, ?_, ?_⟩
  · intro k; rw [i1]; simp
  · simpa [BuilderState.init] using i2
  · simpa [BuilderState.init] using i3
  · rw [i4, i5]; simp [BuilderState.init]
  · rw [i6]; simp [BuilderState.init]
  · rw [← show (b.v2 = true ↔ ∃ c ∈ cs, c = .enableDynamic true) from by rw [i7]; simp [BuilderState.init]]
    unfold BuilderState.execution
    cases b.v2 with
    | false => simp
    | true => cases b.manager <;> simp

/-! ### Examples and counterexamples -/
namespace BuilderSample

/-- Configuration values, modules, materializers, adapters and executors are numbers; 9 is a cache. -/
abbrev W := World Nat Nat Nat Nat Nat

/-- Run a program. -/
def prog (ops : List (BOp Nat Nat Nat Nat Nat)) : W := World.run (· == 9) World.empty ops

/-- A builder with two modules, configuration and adapters. -/
def base : List (BOp Nat Nat Nat Nat Nat) :=
  [.new, .call 0 (.modules [1, 2]), .call 0 (.config [("a", 1), ("b", 2)]), .call 0 (.config [("a", 5)]), .call 0 (.adapters [9])]

deriving instance DecidableEq for Settings

/-- Non-vacuity: the settings of the sample, and of a copy that is configured further. -/
example : buildNow (· == 9) (prog base) 0 =
      some { config := [("a", 5), ("b", 2)], modules := [1, 2], adapters := [9], materializers := [], execution := .direct,
             allowOverrides := false } ∧
    buildNow (· == 9) (prog (base ++ [.copy 0])) 1 = buildNow (· == 9) (prog base) 0 ∧
    buildNow (· == 9) (prog (base ++ [.copy 0, .call 1 (.config [("a", 7)]), .call 1 (.modules [3])])) 0 =
      buildNow (· == 9) (prog base) 0 := by decide +kernel

/-- Non-vacuity of `C43_settings`: a successful sequence of calls that enables dynamic execution. -/
example : (callAll (· == 9) [.modules [1], .enableDynamic true, .cache 9, .adapter 4, .config [("a", 1)], .remoteExecutor 3]
    ((.init 0 : BuilderState Nat Nat Nat Nat), ([] : Dict Name Nat))).isSome = true := by decide +kernel

/-- Non-vacuity of `C43_copy_partial`, `C43_rebuild_partial` and `C43_driver_partial`. -/
example : ∃ b, (prog base).builders[0]? = some b ∧ b.allowOverrides = false ∧ b.legacyAdapter = none :=
  ⟨_, rfl, rfl, rfl⟩

/-- **C43 violated.**  The copy of a builder that allows module overrides does not allow them. -/
theorem C43_violated_copy :
    (buildNow (· == 9) (prog (base ++ [.call 0 .allowOverrides])) 0).map (·.allowOverrides) = some true ∧
    (buildNow (· == 9) (prog (base ++ [.call 0 .allowOverrides, .copy 0])) 1).map (·.allowOverrides) = some false := by
  decide +kernel

/-- **C43 violated.**  With `with_adapter`, the second driver has the adapter twice. -/
theorem C43_violated_rebuild :
    (buildNow (· == 9) (prog (base ++ [.call 0 (.adapter 4)])) 0).map (·.adapters) = some [9, 4] ∧
    (buildNow (· == 9) (prog (base ++ [.call 0 (.adapter 4), .build 0])) 0).map (·.adapters) = some [9, 4, 4] := by
  decide +kernel

/-- **C43 violated.**  Configuring the builder further after a driver was built changes the configuration of that driver. -/
theorem C43_violated_driver :
    ((prog (base ++ [.build 0])).drivers[0]?.map (fun d => (settings (prog (base ++ [.build 0])) d).config)) =
      some [("a", 5), ("b", 2)] ∧
    ((prog (base ++ [.build 0, .call 0 (.config [("a", 8)])])).drivers[0]?.map
      (fun d => (settings (prog (base ++ [.build 0, .call 0 (.config [("a", 8)])])) d).config)) = some [("a", 8), ("b", 2)] := by
  decide +kernel

end BuilderSample
end Verif
