import Verif.Model.Autoload

/-! C93: loading of extensions follows the switches, and registered types are found. -/
namespace Verif.Autoload

/-! ### Lemmas -/

theorem loadExtension_env {world : Name → Import} {n : Name} {p q : Proc} (h : loadExtension world n p = .ok q) :
    q.env = p.env ∧ q.initialized = p.initialized ∧ (∀ m ∈ p.loaded, m ∈ q.loaded) ∧ n ∈ q.loaded ∧
      (∀ m ∈ q.loaded, m ∈ p.loaded ∨ m = n) ∧ (n ∈ p.loaded ∨ ∃ t, world n = .works t) := by
  unfold loadExtension at h
  split at h
  · rename_i hn
    cases h
    exact ⟨rfl, rfl, fun _ h => h, hn, fun _ h => .inl h, .inl hn⟩
  · split at h
    · rename_i hw
      cases h
      refine ⟨rfl, rfl, fun m hm => List.mem_append_left _ hm, by simp, ?_, .inr ⟨_, hw⟩⟩
      intro m hm
      simpa using hm
    · rename_i hw
      cases h
      refine ⟨rfl, rfl, fun m hm => List.mem_append_left _ hm, by simp, ?_, .inr ⟨_, hw⟩⟩
      intro m hm
      simpa using hm
    · cases h
    · cases h

theorem initLoop_off {world : Name → Import} {p : Proc} (h : p.env = some "0") : ∀ exts, initLoop world exts p = (none, p)
  | [] => rfl
  | n :: rest => by rw [initLoop, if_pos h, initLoop_off h rest]

theorem initLoop_frame (world : Name → Import) : ∀ (exts : List Name) (p : Proc),
    (initLoop world exts p).2.env = p.env ∧ (∀ m ∈ p.loaded, m ∈ (initLoop world exts p).2.loaded)
  | [], p => ⟨rfl, fun _ h => h⟩
  | n :: rest, p => by
    rw [initLoop]
    split
    · exact initLoop_frame world rest p
    · cases hl : loadExtension world n p with
      | ok q =>
        simp only
        obtain ⟨h1, _, h3, _⟩ := loadExtension_env hl
        obtain ⟨h5, h6⟩ := initLoop_frame world rest q
        exact ⟨h5.trans h1, fun m hm => h6 m (h3 m hm)⟩
      | error e =>
        simp only
        split
        · exact initLoop_frame world rest p
        · exact ⟨rfl, fun _ h => h⟩

theorem initLoop_on {world : Name → Import} : ∀ (exts : List Name) (p : Proc), p.env ≠ some "0" →
    (∀ n ∈ exts, ∀ e, world n ≠ .broken e) →
    (initLoop world exts p).1 = none ∧
    ∀ m, m ∈ (initLoop world exts p).2.loaded ↔ m ∈ p.loaded ∨ m ∈ exts ∧ ∃ t, world m = .works t
  | [], p, _, _ => ⟨rfl, by simp [initLoop]⟩
  | n :: rest, p, he, hb => by
    have hb' : ∀ m ∈ rest, ∀ e, world m ≠ .broken e := fun m hm => hb m (List.mem_cons_of_mem _ hm)
    rw [initLoop, if_neg he]
    cases hl : loadExtension world n p with
    | ok q =>
      simp only
      obtain ⟨h1, _, h3, h4, h5, h6⟩ := loadExtension_env hl
      obtain ⟨g1, g2⟩ := initLoop_on rest q (by rw [h1]; exact he) hb'
      refine ⟨g1, fun m => (g2 m).trans ⟨?_, ?_⟩⟩
      · rintro (h | ⟨h, ht⟩)
        · rcases h5 m h with h | rfl
          · exact .inl h
          · rcases h6 with h6 | h6
            · exact .inl h6
            · exact .inr ⟨List.mem_cons_self, h6⟩
        · exact .inr ⟨List.mem_cons_of_mem _ h, ht⟩
      · rintro (h | ⟨h, ht⟩)
        · exact .inl (h3 m h)
        · rcases List.mem_cons.1 h with rfl | h
          · exact .inl h4
          · exact .inr ⟨h, ht⟩
    | error e =>
      simp only
      unfold loadExtension at hl
      split at hl
      · cases hl
      · split at hl
        · cases hl
        · cases hl
        · rename_i hw
          cases hl
          rw [if_pos rfl]
          obtain ⟨g1, g2⟩ := initLoop_on rest p he hb'
          refine ⟨g1, fun m => (g2 m).trans (or_congr Iff.rfl ⟨fun h => ⟨List.mem_cons_of_mem _ h.1, h.2⟩, ?_⟩)⟩
          rintro ⟨h, t, ht⟩
          rcases List.mem_cons.1 h with rfl | h
          · rw [hw] at ht; cases ht
          · exact ⟨h, t, ht⟩
        · rename_i e' hw
          exact absurd hw (hb n List.mem_cons_self e')

theorem run_append (world : Name → Import) (a b : List Op) (m : Machine) : run world (a ++ b) m = run world b (run world a m) := by
  unfold run
  rw [List.foldl_append]

theorem run_cons (world : Name → Import) (op : Op) (b : List Op) (m : Machine) :
    run world (op :: b) m = run world b (step world m op).2 := rfl

theorem step_file {world : Name → Import} {m : Machine} {op : Op} :
    (step world m op).2.file = (if op = .configEnable then m.file.del key else if op = .configDisable then m.file.set key "0"
      else m.file) := by
  cases op with
  | disable => rfl
  | enable =>
    simp only [step]
    split <;> rfl
  | configEnable => rfl
  | configDisable => rfl
  | load n =>
    simp only [step]
    split <;> rfl
  | importDriver =>
    simp only [step]
    split <;> rfl
  | restart env => rfl

/-! ### Switches -/

/-- C93: none of the switches touches other options of the configuration file. -/
theorem C93_other_options (world : Name → Import) {k : String} (hk : k ≠ key) : ∀ (ops : List Op) (m : Machine),
    (run world ops m).file.get? k = m.file.get? k := by
  intro ops
  induction ops with
  | nil => intro m; rfl
  | cons op ops ih =>
    intro m
    rw [run_cons, ih, step_file]
    split
    · rw [Dict.get?_del, if_neg (fun h => hk h.symm)]
    · split
      · rw [Dict.get?_set_ne _ _ (fun h => hk h.symm)]
      · rfl

theorem run_key_off {world : Name → Import} : ∀ (ops : List Op) (m : Machine), .configEnable ∉ ops →
    m.file.get? key = some "0" → (run world ops m).file.get? key = some "0" := by
  intro ops
  induction ops with
  | nil => intro m _ h; exact h
  | cons op ops ih =>
    intro m hn h
    rw [run_cons]
    refine ih _ (fun h => hn (List.mem_cons_of_mem _ h)) ?_
    rw [step_file, if_neg (fun h => hn (by rw [h]; exact List.mem_cons_self))]
    split
    · exact Dict.get?_set_self _ _ _
    · exact h

theorem run_key_on {world : Name → Import} : ∀ (ops : List Op) (m : Machine), .configDisable ∉ ops →
    m.file.get? key = none → (run world ops m).file.get? key = none := by
  intro ops
  induction ops with
  | nil => intro m _ h; exact h
  | cons op ops ih =>
    intro m hn h
    rw [run_cons]
    refine ih _ (fun h => hn (List.mem_cons_of_mem _ h)) ?_
    rw [step_file]
    split
    · rw [Dict.get?_del, if_pos rfl]
    · rw [if_neg (fun h => hn (by rw [h]; exact List.mem_cons_self))]
      exact h

theorem init_off {world : Name → Import} {p : Proc} (h : p.env = some "0") :
    initialize' world extensions p = (none, { p with initialized := true }) := by
  unfold initialize'
  rw [initLoop_off h]

/-- In a process that is switched off and not switched on again. -/
theorem run_off {world : Name → Import} : ∀ (ops : List Op) (m : Machine), .enable ∉ ops → (∀ e, .restart e ∉ ops) →
    m.proc.env = some "0" → (m.file.get? key = some "0" ∨ m.file.get? key = none) →
    ∀ n ∈ (run world ops m).proc.loaded, n ∈ m.proc.loaded ∨ .load n ∈ ops := by
  intro ops
  induction ops with
  | nil => intro m _ _ _ _ n hn; exact .inl hn
  | cons op ops ih =>
    intro m he hr hoff hf n hn
    rw [run_cons] at hn
    have henv : readEnv m.file m.proc.env = some "0" := by
      unfold readEnv
      rcases hf with hf | hf <;> rw [hf]
      exact hoff
    have key : (step world m op).2.proc.env = some "0" ∧
        (∀ k ∈ (step world m op).2.proc.loaded, k ∈ m.proc.loaded ∨ op = .load k) := by
      cases op with
      | disable => exact ⟨rfl, fun _ h => .inl h⟩
      | enable => exact absurd List.mem_cons_self he
      | configEnable => exact ⟨henv, fun _ h => .inl h⟩
      | configDisable => exact ⟨henv, fun _ h => .inl h⟩
      | load l =>
        simp only [step]
        cases hl : loadExtension world l m.proc with
        | ok q =>
          obtain ⟨h1, _, _, _, h5, _⟩ := loadExtension_env hl
          refine ⟨h1.trans hoff, fun k hk => ?_⟩
          rcases h5 k hk with h | rfl
          · exact .inl h
          · exact .inr rfl
        | error e => exact ⟨hoff, fun _ h => .inl h⟩
      | importDriver =>
        simp only [step]
        split
        · exact ⟨hoff, fun _ h => .inl h⟩
        · simp only [init_off hoff]
          exact ⟨hoff, fun _ h => .inl h⟩
      | restart e => exact absurd List.mem_cons_self (hr e)
    have hfile : (step world m op).2.file.get? Autoload.key = some "0" ∨ (step world m op).2.file.get? Autoload.key = none := by
      rw [step_file]
      split
      · exact .inr (by rw [Dict.get?_del, if_pos rfl])
      · split
        · exact .inl (Dict.get?_set_self _ _ _)
        · exact hf
    rcases ih _ (fun h => he (List.mem_cons_of_mem _ h)) (fun e h => hr e (List.mem_cons_of_mem _ h)) key.1 hfile n hn with h | h
    · rcases key.2 n h with h | h
      · exact .inl h
      · exact .inr (by rw [h]; exact List.mem_cons_self)
    · exact .inr (List.mem_cons_of_mem _ h)

/-- C93: after `config_disable_autoload`, unless `config_enable_autoload` was called later, a new process, whatever its environment
and whatever is done in it except for `enable_autoload`, has only the extensions that the user loads. -/
theorem C93_config_off (world : Name → Import) (m : Machine) (before later inside : List Op) (env : Option String)
    (h1 : .configEnable ∉ later) (h2 : .enable ∉ inside) (h3 : ∀ e, .restart e ∉ inside) {n : Name}
    (hn : n ∈ (run world (before ++ .configDisable :: later ++ .restart env :: inside) m).proc.loaded) : .load n ∈ inside := by
  rw [run_append, run_cons] at hn
  have hk : (run world (before ++ .configDisable :: later) m).file.get? key = some "0" := by
    rw [run_append, run_cons]
    refine run_key_off later _ h1 ?_
    exact Dict.get?_set_self _ _ _
  obtain ⟨m', hm'⟩ : ∃ m', run world (before ++ .configDisable :: later) m = m' := ⟨_, rfl⟩
  rw [hm'] at hn hk
  have hs : (step world m' (.restart env)).2 = ⟨m'.file, start m'.file env⟩ := rfl
  rw [hs] at hn
  rcases run_off inside ⟨m'.file, start m'.file env⟩ h2 h3 (by
    show readEnv m'.file env = some "0"
    unfold readEnv
    rw [hk]) (.inl hk) n hn with h | h
  · cases h
  · exact h

/-- C93: the same after `disable_autoload` in the process itself. -/
theorem C93_off (world : Name → Import) {m : Machine} (hm : m.file.get? key = some "0" ∨ m.file.get? key = none)
    (inside : List Op) (h2 : .enable ∉ inside) (h3 : ∀ e, .restart e ∉ inside) {n : Name}
    (hn : n ∈ (run world (.disable :: inside) m).proc.loaded) : n ∈ m.proc.loaded ∨ .load n ∈ inside := by
  rw [run_cons] at hn
  exact run_off inside (step world m .disable).2 h2 h3 rfl hm n hn

/-- In a process that is not switched off. -/
theorem run_on {world : Name → Import} : ∀ (ops : List Op) (m : Machine), .disable ∉ ops → .configDisable ∉ ops →
    .importDriver ∉ ops → (∀ e, .restart e ∉ ops) → m.file.get? key = none → m.proc.env = none → m.proc.initialized = false →
    (run world ops m).proc.env = none ∧ (run world ops m).proc.initialized = false := by
  intro ops
  induction ops with
  | nil => intro m _ _ _ _ _ h h'; exact ⟨h, h'⟩
  | cons op ops ih =>
    intro m hd hc hi hr hf he hini
    rw [run_cons]
    have hfile : (step world m op).2.file.get? key = none := by
      rw [step_file]
      split
      · rw [Dict.get?_del, if_pos rfl]
      · rw [if_neg (fun h => hc (by rw [h]; exact List.mem_cons_self))]
        exact hf
    have hp : (step world m op).2.proc.env = none ∧ (step world m op).2.proc.initialized = false := by
      cases op with
      | disable => exact absurd List.mem_cons_self hd
      | enable =>
        simp only [step, he]
        exact ⟨trivial, hini⟩
      | configEnable =>
        refine ⟨?_, hini⟩
        show readEnv m.file m.proc.env = none
        unfold readEnv
        rw [hf]
        exact he
      | configDisable => exact absurd List.mem_cons_self hc
      | load l =>
        simp only [step]
        cases hl : loadExtension world l m.proc with
        | ok q =>
          obtain ⟨h1, h2, _⟩ := loadExtension_env hl
          exact ⟨h1.trans he, h2.trans hini⟩
        | error e => exact ⟨he, hini⟩
      | importDriver => exact absurd List.mem_cons_self hi
      | restart e => exact absurd List.mem_cons_self (hr e)
    exact ih _ (fun h => hd (List.mem_cons_of_mem _ h)) (fun h => hc (List.mem_cons_of_mem _ h))
      (fun h => hi (List.mem_cons_of_mem _ h)) (fun e h => hr e (List.mem_cons_of_mem _ h)) hfile hp.1 hp.2

/-- C93: after `config_enable_autoload`, unless `config_disable_autoload` was called later, importing the driver in a new process,
with nothing in its environment and not switched off in it, raises nothing and loads all extensions that can be imported, if none is
broken. -/
theorem C93_config_on (world : Name → Import) (hw : ∀ n ∈ extensions, ∀ e, world n ≠ .broken e) (m : Machine)
    (before later inside : List Op) (h1 : .configDisable ∉ later) (h2 : .disable ∉ inside) (h3 : .configDisable ∉ inside)
    (h4 : .importDriver ∉ inside) (h5 : ∀ e, .restart e ∉ inside) :
    let now := run world (before ++ .configEnable :: later ++ .restart none :: inside) m
    (step world now .importDriver).1 = none ∧
    ∀ n, n ∈ (step world now .importDriver).2.proc.loaded ↔
      n ∈ now.proc.loaded ∨ n ∈ extensions ∧ ∃ t, world n = .works t := by
  intro now
  have hk : (run world (before ++ .configEnable :: later) m).file.get? key = none := by
    rw [run_append, run_cons]
    refine run_key_on later _ h1 ?_
    show (Dict.del _ key).get? key = none
    rw [Dict.get?_del, if_pos rfl]
  obtain ⟨m', hm'⟩ : ∃ m', run world (before ++ .configEnable :: later) m = m' := ⟨_, rfl⟩
  rw [hm'] at hk
  have hs : (step world m' (.restart none)).2 = ⟨m'.file, start m'.file none⟩ := rfl
  have hnow : now = run world inside ⟨m'.file, start m'.file none⟩ := by
    show run world (before ++ .configEnable :: later ++ .restart none :: inside) m = _
    rw [run_append, run_cons, hm', hs]
  have hon := run_on (world := world) inside ⟨m'.file, start m'.file none⟩ h2 h3 h4 h5 hk
    (by
      show readEnv m'.file none = none
      unfold readEnv
      rw [hk]) rfl
  rw [← hnow] at hon
  obtain ⟨g1, g2⟩ := initLoop_on extensions now.proc (by rw [hon.1]; exact fun h => by cases h) hw
  have hstep : step world now .importDriver = ((initialize' world extensions now.proc).1,
      { now with proc := (initialize' world extensions now.proc).2 }) := by
    simp only [step, hon.2, Bool.false_eq_true, if_false]
  rw [hstep]
  obtain ⟨r, q, hq⟩ : ∃ r q, initLoop world extensions now.proc = (r, q) := ⟨_, _, rfl⟩
  rw [hq] at g1 g2
  cases g1
  simp only [initialize', hq]
  exact ⟨trivial, g2⟩

/-! ### Types -/

/-- The last registration of an extension. -/
def lastOf (n : Name) (regs : List (Name × TypeMap)) : Option TypeMap :=
  (regs.reverse.find? (fun p => p.1 = n)).map (·.2)

/-- The registry after some registrations. -/
def registered (regs : List (Name × TypeMap)) : Dict Name TypeMap := regs.foldl (fun d p => register p.1 p.2 d) []

theorem registered_get (n : Name) : ∀ (regs : List (Name × TypeMap)) (d : Dict Name TypeMap),
    (regs.foldl (fun d p => register p.1 p.2 d) d).get? n = (lastOf n regs).or (d.get? n) := by
  intro regs
  induction regs with
  | nil => intro d; rfl
  | cons p rest ih =>
    intro d
    rw [List.foldl_cons, ih]
    unfold lastOf
    rw [List.reverse_cons, List.find?_append]
    unfold register
    rw [Dict.get?_set]
    cases hf : List.find? (fun p => decide (p.1 = n)) rest.reverse with
    | some q => simp
    | none =>
      by_cases h : p.1 = n
      · simp [h]
      · simp [h]

theorem registered_nodup : ∀ (regs : List (Name × TypeMap)) (d : Dict Name TypeMap), d.keys.Nodup →
    (regs.foldl (fun d p => register p.1 p.2 d) d).keys.Nodup := by
  intro regs
  induction regs with
  | nil => intro d h; exact h
  | cons p rest ih => intro d h; exact ih _ (Dict.keys_set_nodup h _ _)

theorem columnType_found {df : String} : ∀ (d : Dict Name TypeMap),
    (∀ c, columnType df d = .ok c → ∃ n t, (n, t) ∈ d ∧ t.df = df ∧ t.col = some c) ∧
    (columnType df d = .error "NotImplementedError" ↔ ∀ p ∈ d, p.2.df ≠ df) ∧
    ((∃ p ∈ d, p.2.df = df ∧ p.2.col ≠ none) → (∀ p ∈ d, ∀ q ∈ d, p.2.df = df → q.2.df = df → p = q) →
      ∃ c, columnType df d = .ok c)
  | [] => ⟨(fun c h => by cases h), ⟨(fun _ p hp => by cases hp), fun _ => rfl⟩, fun ⟨p, hp, _⟩ => by cases hp⟩
  | (n, t) :: rest => by
    obtain ⟨h1, h2, h3⟩ := columnType_found (df := df) rest
    unfold columnType
    by_cases h : df = t.df
    · rw [if_pos h]
      refine ⟨?_, ?_, ?_⟩
      · intro c hc
        cases hcol : t.col with
        | none => rw [hcol] at hc; cases hc
        | some c' => rw [hcol] at hc; cases hc; exact ⟨n, t, List.mem_cons_self, h.symm, hcol⟩
      · constructor
        · intro hc
          cases hcol : t.col with
          | none => rw [hcol] at hc; simp at hc
          | some c' => rw [hcol] at hc; cases hc
        · intro hc
          exact absurd h.symm (hc (n, t) List.mem_cons_self)
      · rintro ⟨p, hp, hpd, hpc⟩ hu
        have := hu p hp (n, t) List.mem_cons_self hpd h.symm
        subst this
        cases hcol : t.col with
        | none => exact absurd hcol hpc
        | some c => exact ⟨c, rfl⟩
    · rw [if_neg h]
      refine ⟨?_, ?_, ?_⟩
      · intro c hc
        obtain ⟨n', t', g1, g2⟩ := h1 c hc
        exact ⟨n', t', List.mem_cons_of_mem _ g1, g2⟩
      · rw [h2]
        constructor
        · intro g p hp
          rcases List.mem_cons.1 hp with rfl | hp
          · exact fun e => h e.symm
          · exact g p hp
        · intro g p hp
          exact g p (List.mem_cons_of_mem _ hp)
      · rintro ⟨p, hp, hpd, hpc⟩ hu
        rcases List.mem_cons.1 hp with rfl | hp
        · exact absurd hpd.symm h
        · exact h3 ⟨p, hp, hpd, hpc⟩ (fun p hp q hq => hu p (List.mem_cons_of_mem _ hp) q (List.mem_cons_of_mem _ hq))

theorem mem_registered {regs : List (Name × TypeMap)} {n : Name} {t : TypeMap} :
    (n, t) ∈ registered regs ↔ lastOf n regs = some t := by
  have hn : (registered regs).keys.Nodup := registered_nodup regs [] List.nodup_nil
  have hg : (registered regs).get? n = lastOf n regs := by
    unfold registered
    rw [registered_get]
    cases lastOf n regs <;> rfl
  rw [← hg]
  exact ⟨fun h => Dict.get?_of_mem hn h, fun h => Dict.get?_mem h⟩

/-- C93: after any registrations, the column type found for a data frame type is one that some extension registered with it last;
the search fails with `NotImplementedError` exactly if no extension has that data frame type; and if one extension has it, with a
column type, that one is found. Missing: extensions without column type, see `C93_violated_spark`. -/
theorem C93_column_type_partial (regs : List (Name × TypeMap)) (df : String) :
    (∀ c, columnType df (registered regs) = .ok c → ∃ n, lastOf n regs = some ⟨df, some c⟩) ∧
    (columnType df (registered regs) = .error "NotImplementedError" ↔ ∀ n t, lastOf n regs = some t → t.df ≠ df) ∧
    (∀ n c, lastOf n regs = some ⟨df, some c⟩ → (∀ n' t, lastOf n' regs = some t → t.df = df → n' = n) →
      columnType df (registered regs) = .ok c) := by
  obtain ⟨h1, h2, h3⟩ := columnType_found (df := df) (registered regs)
  have hfirst : ∀ c, columnType df (registered regs) = .ok c → ∃ n, lastOf n regs = some ⟨df, some c⟩ := by
    intro c hc
    obtain ⟨n, ⟨df', col⟩, g1, g2, g3⟩ := h1 c hc
    simp only at g2 g3
    subst g2 g3
    exact ⟨n, mem_registered.1 g1⟩
  refine ⟨hfirst, ?_, ?_⟩
  · rw [h2]
    exact ⟨fun h n t ht => h (n, t) (mem_registered.2 ht), fun h p hp => h p.1 p.2 (mem_registered.1 hp)⟩
  · intro n c hc hu
    obtain ⟨c', hc'⟩ := h3 ⟨(n, ⟨df, some c⟩), mem_registered.2 hc, rfl, fun h => by cases h⟩ (by
      rintro ⟨a, ta⟩ hp ⟨b, tb⟩ hq hpd hqd
      have ha := mem_registered.1 hp
      have hb := mem_registered.1 hq
      have e1 := hu a ta ha hpd
      have e2 := hu b tb hb hqd
      subst e1 e2
      rw [ha] at hb
      cases hb
      rfl)
    obtain ⟨n', hn'⟩ := hfirst c' hc'
    have := hu n' _ hn' rfl
    subst this
    rw [hc] at hn'
    cases hn'
    exact hc'

/-- C93: the data frame types listed are those registered last. -/
theorem C93_dataframe_types (regs : List (Name × TypeMap)) (n : Name) (df : String) :
    (n, df) ∈ dataframeTypes (registered regs) ↔ ∃ col, lastOf n regs = some ⟨df, col⟩ := by
  unfold dataframeTypes
  rw [List.mem_map]
  constructor
  · rintro ⟨⟨n', ⟨df', col⟩⟩, h1, h2⟩
    cases h2
    exact ⟨col, mem_registered.1 h1⟩
  · rintro ⟨col, h⟩
    exact ⟨(n, ⟨df, col⟩), mem_registered.2 h, rfl⟩

/-! ### Samples -/

namespace Sample

/-- pandas and spark are installed. -/
def world : Name → Import := fun n =>
  if n = "pandas" then .works (some ⟨"pd.DataFrame", some "pd.Series"⟩)
  else if n = "spark" then .works (some ⟨"sp.DataFrame", none⟩)
  else if n = "yaml" then .works none
  else .missing

/-- A machine on which nothing was switched, with another option in the file. -/
def machine : Machine := ⟨[("telemetry", "no")], start [("telemetry", "no")] none⟩

example : (step world machine .importDriver).2.proc.loaded = ["yaml", "pandas", "spark"] := by decide

/-- Non-vacuity: switched off in the file; the user loads pandas. -/
example {n : Name} (hn : n ∈ (run world [.configDisable, .restart none, .load "pandas", .importDriver] machine).proc.loaded) :
    .load n ∈ [Op.load "pandas", .importDriver] :=
  C93_config_off world machine [] [] [.load "pandas", .importDriver] none (by decide) (by decide) (fun e h => by
    rcases List.mem_cons.1 h with h | h
    · cases h
    · rcases List.mem_cons.1 h with h | h
      · cases h
      · cases h) hn
example : (run world [.configDisable, .restart none, .load "pandas", .importDriver] machine).proc.loaded = ["pandas"] := by decide
/-- Switched off in the process. -/
example : (run world [.disable, .importDriver] machine).proc.loaded = [] := by decide
/-- Non-vacuity: switched off in the file, and on again. -/
example : ∀ n, n ∈ (step world (run world [.configDisable, .configEnable, .restart none] machine) .importDriver).2.proc.loaded ↔
      n ∈ (run world [.configDisable, .configEnable, .restart none] machine).proc.loaded ∨
        n ∈ extensions ∧ ∃ t, world n = .works t :=
  (C93_config_on world (by
    intro n _ e
    unfold world
    split
    · exact fun h => by cases h
    · split
      · exact fun h => by cases h
      · split <;> exact fun h => by cases h) machine [.configDisable] [] [] (by decide) (by decide) (by decide) (by decide)
    (fun e h => by cases h)).2
example : (run world [.configDisable, .configEnable, .restart none, .importDriver] machine).proc.loaded =
    ["yaml", "pandas", "spark"] := by decide
example : (run world [.configDisable, .configEnable] machine).file.get? "telemetry" = some "no" :=
  C93_other_options world (by decide) _ machine

/-- Registrations: pandas twice. -/
def regs : List (Name × TypeMap) :=
  [("pandas", ⟨"old.DataFrame", some "old.Series"⟩), ("spark", ⟨"sp.DataFrame", none⟩),
   ("pandas", ⟨"pd.DataFrame", some "pd.Series"⟩)]

example : columnType "pd.DataFrame" (registered regs) = .ok "pd.Series" := rfl
example : columnType "old.DataFrame" (registered regs) = .error "NotImplementedError" := rfl
example : ("pandas", "pd.DataFrame") ∈ dataframeTypes (registered regs) :=
  (C93_dataframe_types regs _ _).2 ⟨some "pd.Series", rfl⟩

/-- C93 as stated does not hold: `enable_autoload` raises `KeyError` where nothing was switched off. -/
theorem C93_violated_enable : (step world machine .enable).1 = some "KeyError" := rfl

/-- C93 as stated does not hold: `config_enable_autoload` does not switch on in the process that calls it; worse, what was switched
on there before is switched off by it. -/
theorem C93_violated_running :
    (run world [.configDisable, .restart none, .configEnable, .importDriver] machine).proc.loaded = [] ∧
    (run world [.configDisable, .restart none, .enable, .importDriver] machine).proc.loaded = ["yaml", "pandas", "spark"] ∧
    (run world [.configDisable, .restart none, .enable, .configEnable, .importDriver] machine).proc.loaded = [] := by
  refine ⟨?_, ?_, ?_⟩ <;> decide

/-- C93 as stated does not hold: an extension whose import raises something else than an import error, as with a library in an
unexpected version, makes the import of the driver fail, also if the user does not use that library. -/
theorem C93_violated_broken :
    (step (fun n => if n = "numpy" then .broken "AttributeError" else world n) machine .importDriver).1 = some "AttributeError" ∧
    (step (fun n => if n = "numpy" then .broken "AttributeError" else world n) machine .importDriver).2.proc.loaded = ["yaml"] := by
  constructor <;> decide

/-- C93 as stated does not hold: for an extension without column type the search ends in a `KeyError`, which `@extract_columns` does
not turn into the exception for unsupported types, and the column types of all other extensions cannot be listed. -/
theorem C93_violated_spark :
    columnType "sp.DataFrame" (registered regs) = .error "KeyError" ∧
    checkFrame "sp.DataFrame" (registered regs) = .error "KeyError" ∧
    checkFrame "unknown" (registered regs) = .error "InvalidDecoratorException" ∧
    columnTypes (registered regs) = .error "KeyError" := by
  refine ⟨rfl, rfl, rfl, rfl⟩

end Sample
end Verif.Autoload
