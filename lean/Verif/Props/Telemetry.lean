import Verif.Model.Telemetry

/-!
C76: usage telemetry. Opting out is final, what is sent says nothing about the user's values and names, and telemetry does not change
what the calls of the library do.
-/
namespace Verif.Telemetry
open Verif

/-! ### Specification -/

/-- The words that switch telemetry on and off. -/
inductive Says : String → Bool → Prop
  | on (s : String) (h : s.toLower = "1" ∨ s.toLower = "yes" ∨ s.toLower = "true" ∨ s.toLower = "on") : Says s true
  | off (s : String) (h : s.toLower = "0" ∨ s.toLower = "no" ∨ s.toLower = "false" ∨ s.toLower = "off") : Says s false

/-- The frame is in the user's own code, in the sense that no directory or file on its path is called `hamilton`. -/
def UserFrame (f : Frame) : Prop := "hamilton" ∉ f.path

/-- Two tracebacks that differ in frames of the user's code only. -/
inductive FramesAlike : List Frame → List Frame → Prop
  | nil : FramesAlike [] []
  | same (f : Frame) {l l' : List Frame} (h : FramesAlike l l') : FramesAlike (f :: l) (f :: l')
  | user {f f' : Frame} {l l' : List Frame} (hf : UserFrame f) (hf' : UserFrame f') (h : FramesAlike l l') :
      FramesAlike (f :: l) (f' :: l')
  | moved {a b r : List String} {line : Nat} {fn : String} {l l' : List Frame} (ha : "hamilton" ∉ a) (hb : "hamilton" ∉ b)
      (h : FramesAlike l l') : FramesAlike (⟨a ++ "hamilton" :: r, line, fn⟩ :: l) (⟨b ++ "hamilton" :: r, line, fn⟩ :: l')

/-- Two failures (or successes) that differ in the user's code only. -/
inductive OutcomeAlike : Option (List Frame) → Option (List Frame) → Prop
  | success : OutcomeAlike none none
  | failure {l l' : List Frame} (h : FramesAlike l l') : OutcomeAlike (some l) (some l')

/-- A class defined outside of a package of the library. -/
def Foreign (pkg : String) (c : Cls) : Prop := ¬ pkg.toList <+: c.module.toList

/-- Two lists of classes that differ in foreign classes only. -/
inductive ClassesAlike (pkg : String) : List Cls → List Cls → Prop
  | nil : ClassesAlike pkg [] []
  | same (c : Cls) {l l' : List Cls} (h : ClassesAlike pkg l l') : ClassesAlike pkg (c :: l) (c :: l')
  | foreign {c c' : Cls} {l l' : List Cls} (hc : Foreign pkg c) (hc' : Foreign pkg c') (h : ClassesAlike pkg l l') :
      ClassesAlike pkg (c :: l) (c' :: l')

/-- Two dicts (or their absence) of the same size. -/
inductive SizeAlike {V V' : Type} : Option (Dict Name V) → Option (Dict Name V') → Prop
  | absent : SizeAlike none none
  | present {d : Dict Name V} {d' : Dict Name V'} (h : d.length = d'.length) : SizeAlike (some d) (some d')

/-- Two executions that differ only in names, values and the user's code. -/
structure ExecutionAlike {V V' : Type} (c : Execution V) (c' : Execution V') : Prop where
  finalVars : c.finalVars.length = c'.finalVars.length
  inputs : SizeAlike c.inputs c'.inputs
  overrides : SizeAlike c.overrides c'.overrides
  traceback : OutcomeAlike c.traceback c'.traceback

/-- Two result builders of the user's own, or the same. -/
inductive BuilderAlike : BuilderKind → BuilderKind → Prop
  | same (b : BuilderKind) : BuilderAlike b b
  | custom (c c' : Cls) : BuilderAlike (.custom c) (.custom c')

/-- The same executor and the same number of nodes. -/
inductive GraphAlike : Option (List Name × String) → Option (List Name × String) → Prop
  | failed : GraphAlike none none
  | built {l l' : List Name} (ex : String) (h : l.length = l'.length) : GraphAlike (some (l, ex)) (some (l', ex))

/-- Two constructions that differ only in names, values and the user's code. -/
structure ConstructionAlike {V V' : Type} (c : Construction V) (c' : Construction V') : Prop where
  modules : c.modules.length = c'.modules.length
  config : c.config.length = c'.config.length
  adapters : ClassesAlike "hamilton." c.adapters c'.adapters
  builder : BuilderAlike c.builder c'.builder
  decorators : ClassesAlike "hamilton.function_modifiers" c.decorators c'.decorators
  graph : GraphAlike c.graph c'.graph
  traceback : OutcomeAlike c.traceback c'.traceback

/-- Two operations that differ only in names, values and the user's code. -/
inductive OpAlike {V V' : Type} : Op V → Op V' → Prop
  | disable : OpAlike .disable .disable
  | construct {c : Construction V} {c' : Construction V'} (h : ConstructionAlike c c') : OpAlike (.construct c) (.construct c')
  | execute {c : Execution V} {c' : Execution V'} (h : ExecutionAlike c c') : OpAlike (.execute c) (.execute c')
  | method (fn : String) : OpAlike (.method fn) (.method fn)
  | asyncConstruct {c : Construction V} {c' : Construction V'} (h : ConstructionAlike c c') :
      OpAlike (.asyncConstruct c) (.asyncConstruct c')
  | asyncExecute {c : Execution V} {c' : Execution V'} (h : ExecutionAlike c c') : OpAlike (.asyncExecute c) (.asyncExecute c')
  | dataflow (fn : String) : OpAlike (.dataflow fn) (.dataflow fn)
  | contrib (o : Bool) (u : Option String) (d v : String) : OpAlike (.contrib o u d v) (.contrib o u d v)
  | command (n : String) : OpAlike (.command n) (.command n)

/-- Two histories of a process that differ only in names, values, results and the user's code. -/
inductive HistoryAlike {V V' R R' : Type} : List (Op V × Except UserErr R) → List (Op V' × Except UserErr R') → Prop
  | nil : HistoryAlike [] []
  | cons {op : Op V} {op' : Op V'} {b : Except UserErr R} {b' : Except UserErr R'} {l l'} (ho : OpAlike op op')
      (hb : b.isOk = b'.isOk) (h : HistoryAlike l l') : HistoryAlike ((op, b) :: l) ((op', b') :: l')

/-- Calls of the driver and commands; not functions of `hamilton.dataflows` and imports of contributed dataflows. -/
inductive DriverOp {V : Type} : Op V → Prop
  | disable : DriverOp .disable
  | construct (c) : DriverOp (.construct c)
  | execute (c) : DriverOp (.execute c)
  | method (fn) : DriverOp (.method fn)
  | asyncConstruct (c) : DriverOp (.asyncConstruct c)
  | asyncExecute (c) : DriverOp (.asyncExecute c)
  | command (n) : DriverOp (.command n)

/-! ### Lemmas -/

theorem parseFlag_iff (s : String) (b : Bool) : parseFlag s = some b ↔ Says s b := by
  unfold parseFlag
  constructor
  · intro h
    split at h
    · rename_i h1
      simp only [List.mem_cons, List.not_mem_nil, or_false] at h1
      cases h; exact .on s h1
    · split at h
      · rename_i h1
        simp only [List.mem_cons, List.not_mem_nil, or_false] at h1
        cases h; exact .off s h1
      · cases h
  · intro h
    cases h with
    | on h => rcases h with h | h | h | h <;> rw [h] <;> decide
    | off h => rcases h with h | h | h | h <;> rw [h] <;> decide

theorem parseFlag_none_iff (s : String) : parseFlag s = none ↔ ∀ b, ¬ Says s b := by
  constructor
  · intro h b hb
    rw [(parseFlag_iff s b).2 hb] at h; cases h
  · intro h
    cases hp : parseFlag s with
    | none => rfl
    | some b => exact absurd ((parseFlag_iff s b).1 hp) (h b)

theorem lookAt_false (before : Bool) (o : Option String) :
    lookAt before o = false ↔ (∃ v, o = some v ∧ Says v false) ∨ ((∀ v b, o = some v → ¬ Says v b) ∧ before = false) := by
  unfold lookAt
  cases o with
  | none => simp
  | some s =>
    dsimp only
    cases hp : parseFlag s with
    | none =>
      have hn := (parseFlag_none_iff s).1 hp
      constructor
      · intro h; exact .inr ⟨fun v b hv => by cases hv; exact hn b, h⟩
      · rintro (⟨v, hv, hs⟩ | ⟨_, h⟩)
        · cases hv; exact absurd hs (hn false)
        · exact h
    | some b =>
      have hs := (parseFlag_iff s b).1 hp
      constructor
      · intro h; dsimp only at h; subst h; exact .inl ⟨s, rfl, hs⟩
      · rintro (⟨v, hv, hs'⟩ | ⟨h, _⟩)
        · cases hv; rw [(parseFlag_iff s false).2 hs'] at hp; cases hp; rfl
        · exact absurd hs (h s b rfl)

theorem isEnabled_sent (s : TState) : (isEnabled s).2.sent = s.sent := by
  unfold isEnabled; split <;> rfl

theorem isEnabled_enabled (s : TState) : (isEnabled s).2.enabled = s.enabled := by
  unfold isEnabled; split <;> rfl

theorem isEnabled_off (s : TState) (h : s.enabled = false) : isEnabled s = (false, s) := by
  unfold isEnabled; rw [if_neg (by rw [h]; decide)]

theorem trySend_off (e : Option Event) (s : TState) (h : s.enabled = false) : trySend e s = s := by
  unfold trySend; rw [isEnabled_off s h]

theorem trySendTwice_off (e : Option Event) (s : TState) (h : s.enabled = false) : trySendTwice e s = s := by
  unfold trySendTwice; rw [isEnabled_off s h]

/-- Switched off, no operation changes the state. -/
theorem perform_off {V R : Type} (op : Op V) (b : Except UserErr R) (s : TState) (h : s.enabled = false) :
    (perform op b s).2 = s := by
  cases op with
  | disable => cases s; simp only [perform]; dsimp only at h; rw [h]
  | construct c => exact trySend_off _ _ h
  | execute c => exact trySend_off _ _ h
  | method fn => simp only [perform]; exact trySend_off _ _ h
  | asyncConstruct c => exact trySendTwice_off _ _ h
  | asyncExecute c => exact trySendTwice_off _ _ h
  | dataflow fn => simp only [perform, sendEvent, h]; rfl
  | contrib o u d v => cases b <;> simp only [perform, sendEvent, h] <;> rfl
  | command n => simp only [perform, isEnabled_off s h]

theorem performAll_cons {V R : Type} (p : Op V × Except UserErr R) (l) (s : TState) :
    performAll (p :: l) s = performAll l (perform p.1 p.2 s).2 := rfl

theorem performAll_append {V R : Type} (l l' : List (Op V × Except UserErr R)) (s : TState) :
    performAll (l ++ l') s = performAll l' (performAll l s) := List.foldl_append

theorem performAll_off {V R : Type} (l : List (Op V × Except UserErr R)) :
    ∀ (s : TState), s.enabled = false → performAll l s = s := by
  induction l with
  | nil => intro s _; rfl
  | cons p l ih =>
    intro s h
    rw [performAll_cons, perform_off p.1 p.2 s h]; exact ih s h

/-! ### Theorems -/

/-- C76 (1): telemetry is on when the process starts unless the environment variable says no, or it says nothing and the section
`DEFAULT` of the configuration file says no. -/
theorem C76_switch (file : ConfFile) (fresh : String) (writable : Bool) (env : Option String) :
    (TState.start file fresh writable env).enabled = false ↔
      (∃ v, env = some v ∧ Says v false) ∨
      ((∀ v b, env = some v → ¬ Says v b) ∧
        ∃ d v, file = .readable d ∧ Dict.get? d "telemetry_enabled" = some v ∧ Says v false) := by
  have hconf : ∀ v, Dict.get? (loadConfig file fresh writable).1 "telemetry_enabled" = some v ↔
      ∃ d, file = .readable d ∧ Dict.get? d "telemetry_enabled" = some v := by
    intro v
    unfold loadConfig
    cases file with
    | absent =>
      constructor
      · intro h; exact absurd h (by simp [Dict.has, Dict.get?, Dict.set])
      · rintro ⟨d, h, _⟩; cases h
    | malformed t =>
      constructor
      · intro h; exact absurd h (by simp [Dict.has, Dict.get?, Dict.set])
      · rintro ⟨d, h, _⟩; cases h
    | readable d =>
      have : ∀ (d' : Dict String String), Dict.get? d' "telemetry_enabled" = Dict.get? d "telemetry_enabled" →
          (Dict.get? d' "telemetry_enabled" = some v ↔ ∃ e, ConfFile.readable d = .readable e ∧ Dict.get? e "telemetry_enabled" = some v) := by
        intro d' hd
        rw [hd]
        constructor
        · intro h; exact ⟨d, rfl, h⟩
        · rintro ⟨e, he, h⟩; cases he; exact h
      dsimp only
      split
      · exact this d rfl
      · exact this _ (Dict.get?_set_ne _ _ (by decide))
  show flagOf true _ env = false ↔ _
  unfold flagOf
  rw [lookAt_false]
  rw [lookAt_false]
  constructor
  · rintro (h | ⟨h1, ⟨v, hv, hs⟩ | ⟨_, h⟩⟩)
    · exact .inl h
    · obtain ⟨d, hd, hg⟩ := (hconf v).1 hv
      exact .inr ⟨h1, d, v, hd, hg, hs⟩
    · cases h
  · rintro (h | ⟨h1, d, v, hd, hg, hs⟩)
    · exact .inl h
    · exact .inr ⟨h1, .inl ⟨v, (hconf v).2 ⟨d, hd, hg⟩, hs⟩⟩

/-- C76 (2): once telemetry is off, at start or by `disable_telemetry()`, no event is sent any more, whatever is done. -/
theorem C76_opt_out {V R : Type} (s : TState) (pre post : List (Op V × Except UserErr R)) (b : Except UserErr R)
    (h : s.enabled = false ∨ (Op.disable, b) ∈ pre) :
    (performAll (pre ++ post) s).sent = (performAll pre s).sent := by
  rw [performAll_append]
  have hoff : (performAll pre s).enabled = false := by
    rcases h with h | h
    · rw [performAll_off pre s h]; exact h
    · obtain ⟨l, l', rfl⟩ := List.append_of_mem h
      rw [performAll_append, performAll_cons, performAll_off l' _ rfl]; rfl
  rw [performAll_off post _ hoff]

/-- C76 (2), with the switch: a process started with an environment variable that says no sends nothing. -/
theorem C76_opt_out_env {V R : Type} (file : ConfFile) (fresh : String) (writable : Bool) (v : String) (hv : Says v false)
    (l : List (Op V × Except UserErr R)) : (performAll l (TState.start file fresh writable (some v))).sent = [] := by
  have := (C76_switch file fresh writable (some v)).2 (.inl ⟨v, rfl, hv⟩)
  rw [performAll_off l _ this]; rfl

/-- C76 (3): the configuration file keeps everything it said if it could be read. -/
theorem C76_config_kept (d : Dict String String) (fresh : String) (writable : Bool) :
    ∃ d', (loadConfig (.readable d) fresh writable).2 = .readable d' ∧
      ∀ k v, Dict.get? d k = some v → Dict.get? d' k = some v := by
  unfold loadConfig
  dsimp only
  split
  · exact ⟨d, rfl, fun _ _ h => h⟩
  · rename_i hn
    cases writable with
    | false => exact ⟨d, rfl, fun _ _ h => h⟩
    | true =>
      refine ⟨_, rfl, fun k v h => ?_⟩
      have hk : k ≠ "anonymous_id" := by
        rintro rfl
        exact hn ((Dict.has_eq_true_iff d "anonymous_id").2 ⟨v, h⟩)
      rw [Dict.get?_set_ne _ _ (Ne.symm hk)]; exact h

theorem isEnabled_bound (s : TState) (hc : s.sent.length ≤ min s.counter 10) :
    (isEnabled s).2.sent.length ≤ min (isEnabled s).2.counter 10 ∧
    ((isEnabled s).1 = true → (isEnabled s).2.sent.length + 1 ≤ min (isEnabled s).2.counter 10) := by
  unfold isEnabled
  split
  · dsimp only
    refine ⟨by omega, fun h => ?_⟩
    have := of_decide_eq_true h
    omega
  · exact ⟨hc, fun h => by cases h⟩

theorem trySend_bound (e : Option Event) (s : TState) (hc : s.sent.length ≤ min s.counter 10) :
    (trySend e s).sent.length ≤ min (trySend e s).counter 10 := by
  have hb := isEnabled_bound s hc
  unfold trySend
  cases hi : isEnabled s with
  | mk a s' =>
    rw [hi] at hb
    cases a with
    | false => exact hb.1
    | true =>
      have h2 := hb.2 rfl
      cases e with
      | none => exact hb.1
      | some e =>
        dsimp only
        unfold sendEvent
        cases he : s'.enabled with
        | false => exact hb.1
        | true =>
          rw [if_pos rfl]
          show (s'.sent ++ [e]).length ≤ min s'.counter 10
          rw [List.length_append]; exact h2

theorem trySendTwice_bound (e : Option Event) (s : TState) (hc : s.sent.length ≤ min s.counter 10) :
    (trySendTwice e s).sent.length ≤ min (trySendTwice e s).counter 10 := by
  have hb := isEnabled_bound s hc
  unfold trySendTwice
  cases hi : isEnabled s with
  | mk a s' =>
    rw [hi] at hb
    cases a with
    | false => exact hb.1
    | true => exact trySend_bound e s' hb.1

theorem perform_bound {V R : Type} (op : Op V) (hop : DriverOp op) (b : Except UserErr R) (s : TState)
    (hc : s.sent.length ≤ min s.counter 10) :
    (perform op b s).2.sent.length ≤ min (perform op b s).2.counter 10 := by
  cases hop with
  | disable => exact hc
  | construct c => exact trySend_bound _ s hc
  | execute c => exact trySend_bound _ s hc
  | method c => exact trySend_bound _ s hc
  | asyncConstruct c => exact trySendTwice_bound _ s hc
  | asyncExecute c => exact trySendTwice_bound _ s hc
  | command n =>
    have hb := isEnabled_bound s hc
    simp only [perform]
    cases hi : isEnabled s with
    | mk a s' =>
      rw [hi] at hb
      cases a with
      | false => exact hb.1
      | true =>
        have h2 := hb.2 rfl
        dsimp only
        unfold sendEvent
        cases he : s'.enabled with
        | false => exact hb.1
        | true =>
          rw [if_pos rfl]
          show (s'.sent ++ [_]).length ≤ min s'.counter 10
          rw [List.length_append]; exact h2

/-- C76 (4), in part: calls of drivers and commands send at most ten events per process. For functions of `hamilton.dataflows` and
contributed dataflows this is false (`C76_violated_limit`). -/
theorem C76_limit_partial {V R : Type} (file : ConfFile) (fresh : String) (writable : Bool) (env : Option String)
    (l : List (Op V × Except UserErr R)) (hl : ∀ p ∈ l, DriverOp p.1) :
    (performAll l (TState.start file fresh writable env)).sent.length ≤ 10 := by
  have : ∀ (l : List (Op V × Except UserErr R)) (s : TState), (∀ p ∈ l, DriverOp p.1) → s.sent.length ≤ min s.counter 10 →
      (performAll l s).sent.length ≤ min (performAll l s).counter 10 := by
    intro l
    induction l with
    | nil => intro s _ h; exact h
    | cons p l ih =>
      intro s hl h
      rw [performAll_cons]
      exact ih _ (fun q hq => hl q (List.mem_cons_of_mem _ hq)) (perform_bound p.1 (hl p List.mem_cons_self) p.2 s h)
  have h := this l (TState.start file fresh writable env) hl (by simp [TState.start])
  omega

/-- C76 (5), in part: telemetry does not change what a call returns or raises: calls of drivers and commands in every state, the others
while telemetry is on. Switched off, the others raise (`C76_violated_dataflow`, `C76_violated_contrib`). -/
theorem C76_transparent_partial {V R : Type} (op : Op V) (b : Except UserErr R) (s : TState)
    (h : DriverOp op ∨ s.enabled = true) : (perform op b s).1 = b := by
  have hcmd : ∀ n, (perform (V := V) (.command n) b s).1 = b := by
    intro n
    have he := isEnabled_enabled s
    simp only [perform]
    cases hi : isEnabled s with
    | mk a s' =>
      rw [hi] at he
      cases a with
      | false => rfl
      | true =>
        have ht : s.enabled = true := by
          cases hs : s.enabled with
          | true => rfl
          | false => rw [isEnabled_off s hs] at hi; cases hi
        dsimp only at he ⊢
        unfold sendEvent
        rw [he, ht, if_pos rfl]
  cases op with
  | disable => rfl
  | construct c => rfl
  | execute c => rfl
  | method c => rfl
  | asyncConstruct c => rfl
  | asyncExecute c => rfl
  | command n => exact hcmd n
  | dataflow fn =>
    rcases h with h | h
    · cases h
    · simp only [perform, sendEvent, if_pos h]
  | contrib o u d v =>
    rcases h with h | h
    · cases h
    · cases b <;> simp only [perform, sendEvent, if_pos h]

/-! ### What is sent -/

theorem FramesAlike.length {l l' : List Frame} (h : FramesAlike l l') : l.length = l'.length := by
  induction h with
  | nil => rfl
  | same f h ih => simp [ih]
  | user _ _ h ih => simp [ih]
  | moved _ _ h ih => simp [ih]

theorem FramesAlike.drop {l l' : List Frame} (h : FramesAlike l l') : ∀ n, FramesAlike (l.drop n) (l'.drop n) := by
  induction h with
  | nil => intro n; simp; exact .nil
  | same f h ih =>
    intro n
    cases n with
    | zero => exact .same f h
    | succ n => exact ih n
  | user hf hf' h ih =>
    intro n
    cases n with
    | zero => exact .user hf hf' h
    | succ n => exact ih n
  | moved ha hb h ih =>
    intro n
    cases n with
    | zero => exact .moved ha hb h
    | succ n => exact ih n

theorem frameLine_user (f : Frame) (h : UserFrame f) : frameLine f = "...<USER_CODE>...\n" := by
  unfold frameLine
  dsimp only
  rw [if_neg]
  intro hm
  exact h (List.mem_of_mem_drop hm)

theorem dropWhile_found {a r : List String} (h : "hamilton" ∉ a) :
    (a ++ "hamilton" :: r).dropWhile (fun c => c != "hamilton") = "hamilton" :: r := by
  induction a with
  | nil => simp
  | cons x a ih =>
    rw [List.mem_cons, not_or] at h
    rw [List.cons_append, List.dropWhile_cons_of_pos (by simpa using fun e => h.1 e.symm)]
    exact ih h.2

/-- What is sent of a frame of the library does not depend on where the library is. -/
theorem frameLine_moved {a b r : List String} {line : Nat} {fn : String} (ha : "hamilton" ∉ a) (hb : "hamilton" ∉ b) :
    frameLine ⟨a ++ "hamilton" :: r, line, fn⟩ = frameLine ⟨b ++ "hamilton" :: r, line, fn⟩ := by
  have key : ∀ c : List String, "hamilton" ∉ c →
      frameLine ⟨c ++ "hamilton" :: r, line, fn⟩ = frameLine ⟨"hamilton" :: r, line, fn⟩ := by
    intro c hc
    unfold frameLine lastN
    dsimp only
    by_cases hr : r.length ≤ 3
    · have e1 : (c ++ "hamilton" :: r).length - 4 ≤ c.length := by simp; omega
      have e2 : ("hamilton" :: r).length - 4 = 0 := by simp; omega
      rw [List.drop_append_of_le_length e1, e2, List.drop_zero, if_pos (by simp), if_pos (by simp),
        dropWhile_found (fun h => hc (List.mem_of_mem_drop h))]
      simp
    · have e1 : (c ++ "hamilton" :: r).length - 4 = c.length + (("hamilton" :: r).length - 4) := by simp; omega
      rw [e1, ← List.drop_drop, List.drop_left]
  rw [key a ha, key b hb]

theorem FramesAlike.lines {l l' : List Frame} (h : FramesAlike l l') : l.map frameLine = l'.map frameLine := by
  induction h with
  | nil => rfl
  | same f h ih => simp [ih]
  | user hf hf' h ih => simp only [List.map_cons, ih, frameLine_user _ hf, frameLine_user _ hf']
  | moved ha hb h ih => rw [List.map_cons, List.map_cons, ih, frameLine_moved ha hb]

theorem sanitizeError_alike {l l' : List Frame} (h : FramesAlike l l') : sanitizeError l = sanitizeError l' := by
  unfold sanitizeError lastN
  rw [h.length, (h.drop _).lines]

theorem OutcomeAlike.sanitized {o o' : Option (List Frame)} (h : OutcomeAlike o o') :
    o.map sanitizeError = o'.map sanitizeError ∧ o.isNone = o'.isNone := by
  cases h with
  | success => exact ⟨rfl, rfl⟩
  | failure h => exact ⟨congrArg some (sanitizeError_alike h), rfl⟩

theorem executeEvent_alike {V V' : Type} {c : Execution V} {c' : Execution V'} (h : ExecutionAlike c c') :
    executeEvent c = executeEvent c' := by
  obtain ⟨fv, i, o, t⟩ := c
  obtain ⟨fv', i', o', t'⟩ := c'
  obtain ⟨h1, h2, h3, h4⟩ := h
  dsimp only at h1 h2 h3 h4
  have h5 := h4.sanitized
  unfold executeEvent
  dsimp only
  cases h3 with
  | absent => dsimp only; rw [h1, h5.1, h5.2]
  | present ho =>
    cases h2 with
    | absent => rfl
    | present hi => dsimp only; rw [h1, h5.1, h5.2, ho, hi]

theorem ClassesAlike.adapterNames {l l' : List Cls} (h : ClassesAlike "hamilton." l l') : l.map adapterName = l'.map adapterName := by
  have hf : ∀ c, Foreign "hamilton." c → adapterName c = "custom_adapter" := by
    intro c hc
    unfold adapterName
    rw [if_neg]
    intro hp; exact hc (List.isPrefixOf_iff_prefix.1 hp)
  induction h with
  | nil => rfl
  | same c h ih => simp [ih]
  | foreign hc hc' h ih => simp only [List.map_cons, ih, hf _ hc, hf _ hc']

theorem ClassesAlike.counts {l l' : List Cls} (h : ClassesAlike "hamilton.function_modifiers" l l') :
    ∀ d, l.foldl countDecorator d = l'.foldl countDecorator d := by
  have hf : ∀ c d, Foreign "hamilton.function_modifiers" c →
      countDecorator d c = Dict.set d "custom_decorator" ((Dict.get? d "custom_decorator").getD 0 + 1) := by
    intro c d hc
    have hn : ¬ (("hamilton.function_modifiers".toList.isPrefixOf c.module.toList) = true) :=
      fun hp => hc (List.isPrefixOf_iff_prefix.1 hp)
    unfold countDecorator
    dsimp only
    rw [if_neg hn]
  induction h with
  | nil => intro d; rfl
  | same c h ih => intro d; exact ih _
  | foreign hc hc' h ih => intro d; rw [List.foldl_cons, List.foldl_cons, hf _ d hc, hf _ d hc']; exact ih _

theorem constructEvent_alike {V V' : Type} {c : Construction V} {c' : Construction V'} (h : ConstructionAlike c c') :
    constructEvent c = constructEvent c' := by
  obtain ⟨m, cf, a, b, d, g, t⟩ := c
  obtain ⟨m', cf', a', b', d', g', t'⟩ := c'
  obtain ⟨h1, h2, h3, h4, h5, h6, h7⟩ := h
  dsimp only at h1 h2 h3 h4 h5 h6 h7
  have hb : builderName b = builderName b' := by cases h4 <;> rfl
  unfold constructEvent
  dsimp only
  cases h6 with
  | failed => rfl
  | built ex hl =>
    dsimp only
    rw [hl, h1, h2, h3.adapterNames, hb, h7.sanitized.1]
    unfold countDecorators
    rw [h5.counts]

theorem perform_alike {V V' R R' : Type} {op : Op V} {op' : Op V'} {b : Except UserErr R} {b' : Except UserErr R'}
    (h : OpAlike op op') (hb : b.isOk = b'.isOk) (s : TState) : (perform op b s).2 = (perform op' b' s).2 := by
  cases h with
  | disable => rfl
  | construct h => simp only [perform, constructEvent_alike h]
  | execute h => simp only [perform, executeEvent_alike h]
  | method fn => rfl
  | asyncConstruct h => simp only [perform, constructEvent_alike h]
  | asyncExecute h => simp only [perform, executeEvent_alike h]
  | dataflow fn =>
    simp only [perform, sendEvent]
    cases s.enabled <;> rfl
  | contrib o u d v =>
    cases b with
    | error e => cases b' with
      | error e' => rfl
      | ok r => cases hb
    | ok r => cases b' with
      | error e' => cases hb
      | ok r' =>
        simp only [perform, sendEvent]
        cases s.enabled <;> rfl
  | command n =>
    simp only [perform, isEnabled, sendEvent]
    cases he : s.enabled with
    | false => rfl
    | true =>
      simp only [if_true]
      by_cases hc : s.counter + 1 ≤ 10
      · simp only [hc, decide_true]; rfl
      · simp only [hc, decide_false]

/-- C76 (6): what is sent says nothing about the user's names, values and code: two histories of a process that differ only in names
and values (of nodes, modules, configuration, inputs, overrides), in results and messages of exceptions, in classes outside of the library,
in frames of files that are not below a directory called `hamilton`, and in the place where the library is installed, send
the same events in the same order.
The directory is needed: `C76_violated_folder`. -/
theorem C76_anonymous_partial {V V' R R' : Type} {l : List (Op V × Except UserErr R)} {l' : List (Op V' × Except UserErr R')}
    (h : HistoryAlike l l') : ∀ s, (performAll l s).sent = (performAll l' s).sent := by
  induction h with
  | nil => intro s; rfl
  | cons ho hb h ih =>
    intro s
    rw [performAll_cons, performAll_cons]
    rw [perform_alike ho hb s]
    exact ih _

/-! ### Cases -/
namespace TelemetrySample

/-- `HAMILTON_TELEMETRY_ENABLED=False`, with a configuration file that says yes. -/
example : (TState.start (.readable [("telemetry_enabled", "true")]) "id" true (some "False")).enabled = false := by decide +kernel

example : Says "False" false := .off _ (by decide +kernel)

/-- Without the variable the file counts; a value that is neither yes nor no counts as nothing. -/
example : (TState.start (.readable [("telemetry_enabled", "off")]) "id" true none).enabled = false ∧
    (TState.start (.readable [("telemetry_enabled", "off")]) "id" true (some "false ")).enabled = false ∧
    (TState.start (.readable [("telemetry_enabled", "never")]) "id" true none).enabled = true := by decide +kernel

/-- A run that fails in the user's code. -/
def failing : Execution Nat :=
  ⟨["secret_revenue"], some [("salary", 3)], some [("bonus", 4)],
    some [⟨["site-packages", "hamilton", "driver.py"], 700, "execute"⟩, ⟨["home", "me", "secret_project", "model.py"], 12, "secret_revenue"⟩]⟩

/-- The same with other names, values and code. -/
def failing' : Execution String :=
  ⟨["x"], some [("y", "z")], some [("w", "v")],
    some [⟨["opt", "py", "hamilton", "driver.py"], 700, "execute"⟩, ⟨["a.py"], 1, "x"⟩]⟩

def started : TState := ⟨true, 0, []⟩

/-- One event is sent before `disable_telemetry()`, none after it. -/
example : (performAll (R := Nat) ([(.execute failing, .error "ValueError"), (.disable, .ok 0)] ++ [(.execute failing, .ok 1), (.method "list_available_variables", .ok 2)]) started).sent
    = [.finish false 1 1 1 (some "...hamilton/driver.py, line 700, in execute\n...<USER_CODE>...\n")] := by decide +kernel

theorem alike : ExecutionAlike failing failing' where
  finalVars := rfl
  inputs := .present rfl
  overrides := .present rfl
  traceback := .failure (.moved (a := ["site-packages"]) (b := ["opt", "py"]) (by decide) (by decide) (.user (by unfold UserFrame; decide) (by unfold UserFrame; decide) .nil))

/-- C76 (6) applies to two different runs, and something is sent. -/
example : (performAll (R := Nat) [(.execute failing, .error "bad salary 3")] started).sent
      = (performAll (R := Nat) [(.execute failing', .error "other")] started).sent ∧
    (performAll (R := Nat) [(.execute failing, .error "bad salary 3")] started).sent.length = 1 :=
  ⟨C76_anonymous_partial (.cons (.execute alike) rfl .nil) _, by decide +kernel⟩

/-- Custom adapters and decorators are counted, not named. -/
def construction : Construction Nat :=
  ⟨["my_module"], [("region", 1)], [⟨"hamilton.base", "SimplePythonGraphAdapter"⟩, ⟨"acme.internal", "SecretAdapter"⟩], .custom ⟨"acme", "B"⟩,
    [⟨"hamilton.function_modifiers.configuration", "config"⟩, ⟨"acme", "d"⟩, ⟨"hamilton.function_modifiers.configuration", "config"⟩, ⟨"acme", "e"⟩],
    some (["a", "b"], "DefaultGraphExecutor"), none⟩

example : constructEvent construction = some (.start 2 1 1 [("config", 2), ("custom_decorator", 2)]
    ["hamilton.base.SimplePythonGraphAdapter", "custom_adapter"] "custom_builder" none "DefaultGraphExecutor") := by decide +kernel

/-- Twelve calls of a driver: ten events; twelve runs of an asynchronous driver: five. -/
example : (performAll (V := Nat) (R := Nat) (List.replicate 12 (.method "f", .ok 0)) started).sent.length = 10 ∧
    (performAll (V := Nat) (R := Nat) (List.replicate 12 (.asyncExecute ⟨[], none, none, none⟩, .ok 0)) started).sent.length = 5 := by
  decide +kernel

example : (perform (R := Nat) (.execute failing) (.error "ValueError") started).1.isOk = false ∧
    (perform (V := Nat) (R := Nat) (.dataflow "list") (.ok 3) started).1.toOption = some 3 := by decide +kernel

/-- C76 (5) is false for functions of `hamilton.dataflows`: switched off, every one of them raises. -/
theorem C76_violated_dataflow : ∃ s, (TState.start .absent "id" true (some "false")) = s ∧
    ∀ (fn : String) (r : Nat), (perform (V := Nat) (.dataflow fn) (.ok r) s).1 = .error "RuntimeError: Won't send; tracking is disabled!" :=
  ⟨_, rfl, fun _ _ => by
    have h : (TState.start .absent "id" true (some "false")).enabled = false := by decide +kernel
    simp only [perform, sendEvent, h]; rfl⟩

/-- C76 (5) is false for contributed dataflows: switched off, they cannot be imported. -/
theorem C76_violated_contrib : ∀ (o : Bool) (u : Option String) (d v : String) (r : Nat),
    (perform (V := Nat) (.contrib o u d v) (.ok r) (TState.start .absent "id" true (some "false"))).1
      = .error "RuntimeError: Won't send; tracking is disabled!" :=
  fun _ _ _ _ _ => by
    have h : (TState.start .absent "id" true (some "false")).enabled = false := by decide +kernel
    simp only [perform, sendEvent, h]; rfl

/-- C76 (4) is false for functions of `hamilton.dataflows`: eleven calls send eleven events. -/
theorem C76_violated_limit :
    (performAll (V := Nat) (R := Nat) (List.replicate 11 (.dataflow "list", .ok 0)) (TState.start .absent "id" true none)).sent.length = 11 := by
  decide +kernel

/-- C76 (3) is false for a file that cannot be read: an opt-out written without the header of the section does not count, and is
overwritten. -/
theorem C76_violated_config_lost : (TState.start (.malformed "telemetry_enabled = false") "id" true none).enabled = true ∧
    (loadConfig (.malformed "telemetry_enabled = false") "id" true).2 = .readable [("anonymous_id", "id")] := by
  decide +kernel

/-- C76 (6) is false for the user's code below a directory called `hamilton`: file name, line and function are sent. -/
theorem C76_violated_folder : ∃ e, executeEvent (V := Nat) ⟨["x"], none, none, some [⟨["home", "me", "hamilton", "secret.py"], 7, "salary_of_bob"⟩]⟩ = some e ∧
    e = .finish false 1 0 0 (some "...hamilton/secret.py, line 7, in salary_of_bob\n") :=
  ⟨_, by decide +kernel, rfl⟩

end TelemetrySample
end Verif.Telemetry
