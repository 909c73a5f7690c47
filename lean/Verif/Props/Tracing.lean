import Verif.Proofs.Tracing
import Verif.Props.ExecutionPath

/-! C84: traces and progress bars mirror the run. -/
namespace Verif.Tracing

/-! ### Datadog -/

/-- C84, Datadog, several processes (partial: see `C84_violated_links`).  However the runs, tasks and nodes of a tracer are interleaved
and wherever the tasks are executed, no hook raises, the trace mirrors what happened, and once all runs are over the main process
keeps nothing. -/
theorem C84_distributed_partial (root : String) (causal : Bool) {home : Name → Option Name → Nat} {as : List Act}
    (h : Distributed home as) :
    ∃ W w, runWorld (fun _ => Dd.init root causal) [] as = .ok (W, w) ∧ Mirrors root causal (events as) w ∧
      ((∀ r, ¬ Open (.run r) (events as)) → (W 0).runs = [] ∧ (W 0).tasks = [] ∧ (W 0).nodes = []) := by
  obtain ⟨W, w, hr, hi⟩ := inv_all (root := root) (causal := causal) h
  refine ⟨W, w, hr, hi.mirrors, fun hc => ?_⟩
  exact ⟨dict_nil (fun r => (hi.mainClosed r (hc r)).1), dict_nil (fun r => (hi.mainClosed r (hc r)).2.1),
    dict_nil (fun r => (hi.mainClosed r (hc r)).2.2)⟩

theorem runWorld_main (W : Nat → Dd) (w : List Span) (es : List Ev) {W' : Nat → Dd} {w' : List Span}
    (h : runWorld W w (es.map (Act.hook 0)) = .ok (W', w')) : (W 0).runAll w es = .ok (W' 0, w') := by
  induction es generalizing W w with
  | nil => cases h; rfl
  | cons e es ih =>
    rw [List.map_cons] at h
    unfold runWorld at h
    unfold Dd.runAll
    cases hst : (W 0).step w e with
    | error x => rw [hst] at h; cases h
    | ok q =>
      obtain ⟨d, w1⟩ := q
      rw [hst] at h
      dsimp only at h ⊢
      have := ih _ _ h
      rw [if_pos rfl] at this
      exact this

theorem events_main (es : List Ev) : events (es.map (Act.hook 0)) = es := by
  induction es with
  | nil => rfl
  | cons e es ih =>
    have : events ((e :: es).map (Act.hook 0)) = e :: events (es.map (Act.hook 0)) := rfl
    rw [this, ih]

/-- C84, Datadog, one process (partial: see `C84_violated_links`): the same for any interleaving of the hooks of a tracer. -/
theorem C84_datadog_partial (root : String) (causal : Bool) {es : List Ev} (h : Valid es) :
    ∃ d w, (Dd.init root causal).runAll [] es = .ok (d, w) ∧ Mirrors root causal es w ∧
      ((∀ r, ¬ Open (.run r) es) → d.runs = [] ∧ d.tasks = [] ∧ d.nodes = []) := by
  have hd : Distributed (fun _ _ => 0) (es.map (Act.hook 0)) := by
    refine ⟨by rw [events_main]; exact h, ?_, ?_⟩
    · intro a p b he
      have : Act.fork p ∈ es.map (Act.hook 0) := by rw [he]; simp
      obtain ⟨_, _, hx⟩ := List.mem_map.1 this
      cases hx
    · intro a p e b he
      have : Act.hook p e ∈ es.map (Act.hook 0) := by rw [he]; simp
      obtain ⟨_, _, hx⟩ := List.mem_map.1 this
      cases hx
      exact ⟨by cases e <;> rfl, fun hp => absurd rfl hp⟩
  obtain ⟨W, w, hr, hm, hc⟩ := C84_distributed_partial root causal hd
  rw [events_main] at hm hc
  exact ⟨W 0, w, runWorld_main _ _ _ hr, hm, hc⟩

/-! ### OpenTelemetry -/

/-- A history of nested spans: one that begins, what happens before it ends, and what happens afterwards. -/
inductive Forest where
  | nil
  | cons (name : String) (error : Option UserErr) (children rest : Forest)

/-- The hooks of such a history. -/
def Forest.ops : Forest → List Op
  | .nil => []
  | .cons n e ch rest => .enter n :: ch.ops ++ .exit e :: rest.ops

/-- The number of its spans. -/
def Forest.size : Forest → Nat
  | .nil => 0
  | .cons _ _ ch rest => 1 + ch.size + rest.size

/-- The trace it should leave: every span under the one it is nested in, and outermost ones under what was there before. -/
def Forest.trace (c : Nat) (parent : Option SpanId) (k : Nat) : Forest → List OEv
  | .nil => []
  | .cons n e ch rest =>
    .started (c, k) n parent :: ch.trace c (some (c, k)) (k + 1) ++ .ended (c, k) e :: rest.trace c parent (k + 1 + ch.size)

theorem runAll_append (c : Nat) (x : Ctx) (a b : List Op) {y : Ctx} (h : x.runAll c a = .ok y) :
    x.runAll c (a ++ b) = y.runAll c b := by
  induction a generalizing x with
  | nil => cases h; rfl
  | cons o a ih =>
    rw [List.cons_append]
    have h1 : ∀ l, x.runAll c (o :: l) = match x.step c o with
      | .error e => .error e
      | .ok y => y.runAll c l := fun _ => rfl
    rw [h1] at h ⊢
    cases hs : x.step c o with
    | error e => rw [hs] at h; cases h
    | ok z => rw [hs] at h; exact ih z h

/-- C84, OpenTelemetry, one thread: a nested history leaves its trace below the current span, and everything else as it was. -/
theorem C84_nested (c : Nat) (f : Forest) (x : Ctx) : ∃ y, x.runAll c f.ops = .ok y ∧ y.current = x.current ∧
    y.stack.getD [] = x.stack.getD [] ∧ y.count = x.count + f.size ∧ y.log = x.log ++ f.trace c x.current x.count := by
  induction f generalizing x with
  | nil => exact ⟨x, rfl, rfl, rfl, rfl, (List.append_nil _).symm⟩
  | cons n e ch rest ih1 ih2 =>
    obtain ⟨y, hy, hc, hst, hcnt, hl⟩ := ih1 (x.enter c n)
    have hstk : y.stack = some ((x.current, (c, x.count)) :: x.stack.getD []) := by
      have h1 : (x.enter c n).stack.getD [] = (x.current, (c, x.count)) :: x.stack.getD [] := rfl
      rw [h1] at hst
      cases hs : y.stack with
      | none => rw [hs] at hst; cases hst
      | some l => rw [hs] at hst; exact congrArg some hst
    obtain ⟨z, hz, hc2, hst2, hcnt2, hl2⟩ :=
      ih2 ⟨x.current, some (x.stack.getD []), y.count, y.log ++ [.ended (c, x.count) e]⟩
    have hcnt' : y.count = x.count + 1 + ch.size := hcnt
    refine ⟨z, ?_, hc2, hst2, ?_, ?_⟩
    · have h1 : (Forest.cons n e ch rest).ops = .enter n :: (ch.ops ++ .exit e :: rest.ops) := rfl
      rw [h1]
      have h2 : x.runAll c (.enter n :: (ch.ops ++ .exit e :: rest.ops)) = (x.enter c n).runAll c (ch.ops ++ .exit e :: rest.ops) := rfl
      rw [h2, runAll_append _ _ _ _ hy]
      unfold Ctx.runAll
      have h3 : y.step c (.exit e) = y.exit e := rfl
      rw [h3]
      unfold Ctx.exit
      rw [hstk]
      exact hz
    · rw [hcnt2]
      show y.count + rest.size = x.count + (1 + ch.size + rest.size)
      omega
    · rw [hl2, hl]
      show ((x.log ++ [OEv.started (c, x.count) n x.current]) ++ ch.trace c (some (c, x.count)) (x.count + 1) ++ [OEv.ended (c, x.count) e]) ++
        rest.trace c x.current y.count = x.log ++ (OEv.started (c, x.count) n x.current ::
          ch.trace c (some (c, x.count)) (x.count + 1) ++ OEv.ended (c, x.count) e :: rest.trace c x.current (x.count + 1 + ch.size))
      rw [hcnt']
      simp

/-- The hooks called in a context. -/
def opsIn (c : Nat) (es : List (Nat × Op)) : List Op := (es.filter (fun p => p.1 == c)).map (·.2)

/-- C84, OpenTelemetry, several threads or asyncio tasks (partial: see `C84_violated_threads`): when each has a nested history, then in
every interleaving no hook raises and each leaves its trace below the span that was current where it began. -/
theorem C84_contexts_partial (es : List (Nat × Op)) (w : Nat → Ctx) (f : Nat → Forest) (h : ∀ c, opsIn c es = (f c).ops) :
    ∃ w', runContexts w es = .ok w' ∧ ∀ c, (w' c).current = (w c).current ∧ (w' c).stack.getD [] = (w c).stack.getD [] ∧
      (w' c).log = (w c).log ++ (f c).trace c (w c).current (w c).count := by
  suffices hs : ∀ (es : List (Nat × Op)) (w : Nat → Ctx) (y : Nat → Ctx), (∀ c, (w c).runAll c (opsIn c es) = .ok (y c)) →
      runContexts w es = .ok y by
    have hy : ∀ c, ∃ y, (w c).runAll c (opsIn c es) = .ok y ∧ y.current = (w c).current ∧ y.stack.getD [] = (w c).stack.getD [] ∧
        y.log = (w c).log ++ (f c).trace c (w c).current (w c).count := by
      intro c
      obtain ⟨y, h1, h2, h3, _, h5⟩ := C84_nested c (f c) (w c)
      rw [h c]
      exact ⟨y, h1, h2, h3, h5⟩
    refine ⟨fun c => (hy c).choose, hs es w _ (fun c => (hy c).choose_spec.1), fun c => (hy c).choose_spec.2⟩
  intro es
  induction es with
  | nil =>
    intro w y hy
    have : w = y := by
      funext c
      have := hy c
      exact Except.ok.inj this
    rw [this]; rfl
  | cons p es ih =>
    intro w y hy
    obtain ⟨c, o⟩ := p
    have hc : opsIn c ((c, o) :: es) = o :: opsIn c es := by
      unfold opsIn
      rw [List.filter_cons_of_pos (by simp)]; rfl
    have hy0 := hy c
    rw [hc] at hy0
    unfold runContexts
    unfold Ctx.runAll at hy0
    cases hst : (w c).step c o with
    | error e => rw [hst] at hy0; cases hy0
    | ok z =>
      rw [hst] at hy0
      dsimp only at hy0 ⊢
      refine ih _ y (fun k => ?_)
      by_cases hk : k = c
      · subst hk; rw [if_pos rfl]; exact hy0
      · rw [if_neg hk]
        have hk' : opsIn k ((c, o) :: es) = opsIn k es := by
          unfold opsIn
          rw [List.filter_cons_of_neg (by simpa using fun he => hk he.symm)]
        have := hy k
        rw [hk'] at this
        exact this

/-! ### The progress bar -/

theorem fold_progress (called : List Name) (p : Progress) (b : Bar) (hb : p.bar = some b) :
    ∃ b', (called.foldl (fun q n => (q.nodeStart n).nodeEnd) p).bar = some b' ∧ b'.total = b.total ∧
      b'.count = b.count + called.length ∧ b'.closed = b.closed ∧
      (called.foldl (fun q n => (q.nodeStart n).nodeEnd) p).desc = p.desc ∧
      (called.foldl (fun q n => (q.nodeStart n).nodeEnd) p).maxWidth = p.maxWidth ∧
      (called.foldl (fun q n => (q.nodeStart n).nodeEnd) p).width = p.width := by
  induction called generalizing p b with
  | nil => exact ⟨b, hb, rfl, rfl, rfl, rfl, rfl, rfl⟩
  | cons n called ih =>
    have h1 : ((p.nodeStart n).nodeEnd).bar = some { b with description := p.desc ++ " -> " ++ display (p.width.getD 0) n, count := b.count + 1 } := by
      show (p.bar.map _).map _ = _
      rw [hb]; rfl
    obtain ⟨b', hb', h2, h3, h4, h5, h6, h7⟩ := ih _ _ h1
    exact ⟨b', hb', h2, by rw [h3]; show b.count + 1 + called.length = b.count + (called.length + 1); omega, h4, h5, h6, h7⟩

theorem runEnd_bar {p : Progress} {b : Bar} (h : p.bar = some b) :
    ∃ b', p.runEnd.bar = some b' ∧ b'.closed = true ∧ b'.total = b.total ∧ b'.count = b.count := by
  unfold Progress.runEnd
  rw [h]
  exact ⟨_, rfl, rfl, rfl, rfl⟩

/-- C84, progress bar (partial: see `C84_violated_overrides` and `C84_violated_nothing`).  In a successful run without overrides that
has anything to compute, the bar counts every function and is full and closed in the end. -/
theorem C84_progress_partial {T V : Type} {fg : FnGraph T V} (hg : DriverGraph fg) {finalVars : List Name} {ins : Dict Name V}
    (hin : ins.keys.Nodup) {path : List Name} (hp : executionPath fg finalVars (some ins) none = .ok path) (hne : path ≠ [])
    {s' : ExecState V} (hr : executeSubdag fg.nodes (requestedNodes fg.nodes finalVars) (fg.config.merge ins) [] = .ok s')
    (bar : Progress) : ∃ q b, bar.run path (s'.calls.map (·.1)) = .ok q ∧ q.bar = some b ∧ b.closed = true ∧ b.total = path.length ∧
      b.count = b.total := by
  obtain ⟨h1, h2, _⟩ := C64_execution_path_partial hg (overrides := none) hin hp
  have h1' : ∀ c ∈ s'.calls, c.1 ∈ path := by
    intro c hc
    refine h1 c ?_
    have : executeSubdag fg.nodes (requestedNodes fg.nodes finalVars) (fg.config.merge ins) ((none : Option (Dict Name V)).getD []) =
        .ok s' := hr
    rw [this]; exact hc
  have h2' := h2 s' hr
  have hnp : path.Nodup := by
    unfold executionPath at hp
    cases hs : getUpstreamNodes fg finalVars (some ins) none with
    | err e s => rw [hs] at hp; cases hp
    | ok s =>
      rw [hs] at hp
      cases hp
      obtain ⟨s2, hs2, _, _, hn⟩ := directionalDfs_spec (fg := fg) (next := upstreamNext fg (some ins) none)
        (upstream_closed (config := fg.config) hg.wf (some ins) none)
        (fun k hk => (hg.config_in k ((Dict.has_iff _ _).1 hk)).imp (fun _ h => h.1)) finalVars (some ins)
      unfold getUpstreamNodes at hs
      rw [hs2] at hs
      split at hs
      · cases hs; exact hn.filter _
      · cases hs
  have hnc : (s'.calls.map (·.1)).Nodup := by
    have := C02_at_most_once hg.wf (requestedNodes fg.nodes finalVars) (requestedNodes_ok hg.wf finalVars) (fg.config.merge ins) []
    rw [hr] at this
    exact this
  have hlen : (s'.calls.map (·.1)).length = path.length := by
    refine Nat.le_antisymm (List.Nodup.length_le_of_subset hnc ?_) (List.Nodup.length_le_of_subset hnp ?_)
    · intro x hx
      obtain ⟨c, hc, hcx⟩ := List.mem_map.1 hx
      rw [← hcx]; exact h1' c hc
    · intro x hx
      rcases h2' x hx with ⟨kw, hk⟩ | ⟨v, hv⟩
      · exact List.mem_map.2 ⟨_, hk, rfl⟩
      · cases hv
  have hst : bar.runStart path = .ok { bar with
      width := some (bar.width.getD (min (path.foldl (fun m n => max m n.length) 0) bar.maxWidth))
      bar := some ⟨path.length, 0, bar.desc, false⟩ } := by
    unfold Progress.runStart
    rw [if_neg (by simpa using hne)]
  unfold Progress.run
  rw [hst]
  dsimp only
  obtain ⟨b', hb', ht, hc, _⟩ := fold_progress (s'.calls.map (·.1)) { bar with
      width := some (bar.width.getD (min (path.foldl (fun m n => max m n.length) 0) bar.maxWidth))
      bar := some ⟨path.length, 0, bar.desc, false⟩ } _ rfl
  obtain ⟨b2, hb2, hcl, ht2, hc2⟩ := runEnd_bar hb'
  refine ⟨_, b2, rfl, hb2, hcl, ht2.trans ht, ?_⟩
  rw [hc2, ht2, hc, ht, hlen]
  exact Nat.zero_add _

/-- C84, progress bar: names are shown in exactly the width of the bar, when that is at least three; short ones whole and padded with
blanks, long ones cut, with an ellipsis. -/
theorem C84_display (width : Nat) (hw : 3 ≤ width) (name : String) : (display width name).length = width ∧
    (name.length ≤ width → (display width name).toList = name.toList ++ List.replicate (width - name.length) ' ') ∧
    (width < name.length → (display width name).toList = name.toList.take (width - 3) ++ ['.', '.', '.']) := by
  have hcut : width < name.length → sliceTo name.toList ((width : Int) - 3) = name.toList.take (width - 3) := by
    intro _
    unfold sliceTo
    rw [if_pos (by omega)]
    congr 1
    omega
  by_cases hn : name.length ≤ width
  · have hd : (display width name).toList = name.toList ++ List.replicate (width - name.length) ' ' := by
      unfold display
      dsimp only
      rw [if_pos hn, String.toList_ofList, String.length_toList]
      by_cases hlt : name.length < width
      · rw [if_pos hlt]
      · rw [if_neg hlt]
        have : width - name.length = 0 := by omega
        rw [this]; simp
    refine ⟨?_, fun _ => hd, fun h => absurd hn (by omega)⟩
    rw [← String.length_toList, hd]
    simp only [List.length_append, List.length_take, List.length_replicate, String.length_toList, List.length_cons, List.length_nil]
    omega
  · have hd : (display width name).toList = name.toList.take (width - 3) ++ ['.', '.', '.'] := by
      unfold display
      dsimp only
      rw [if_neg hn, String.toList_ofList, hcut (by omega)]
      rw [if_neg]
      simp only [List.length_append, List.length_take, String.length_toList, List.length_cons, List.length_nil]
      omega
    refine ⟨?_, fun h => absurd h hn, fun _ => hd⟩
    rw [← String.length_toList, hd]
    simp only [List.length_append, List.length_take, List.length_replicate, String.length_toList, List.length_cons, List.length_nil]
    omega

/-! ### Samples -/
namespace Sample

/-- A run with two tasks, `t2` using what `t1` computed; `d` fails. -/
def history : List Ev :=
  [.runStart "r" (some 7), .taskStart "r" "t1", .nodeStart "r" (some "t1") "a" ["x"], .nodeEnd "r" (some "t1") "a" none,
    .nodeStart "r" (some "t1") "b" ["a"], .nodeEnd "r" (some "t1") "b" none, .taskEnd "r" "t1" none,
    .taskStart "r" "t2", .nodeStart "r" (some "t2") "d" ["b"], .nodeEnd "r" (some "t2") "d" (some "boom"),
    .taskEnd "r" "t2" (some "boom"), .runEnd "r" (some "boom")]

/-- The prefixes of a list with what comes next. -/
def splits : List Ev → List Ev → List (List Ev × Ev)
  | _, [] => []
  | pre, e :: es => (pre, e) :: splits (pre ++ [e]) es

theorem mem_splits (pre es a : List Ev) (e : Ev) (b : List Ev) (h : es = a ++ e :: b) : (pre ++ a, e) ∈ splits pre es := by
  induction es generalizing pre a with
  | nil => simp at h
  | cons x es ih =>
    cases a with
    | nil => cases h; simp [splits]
    | cons y a =>
      cases h
      refine List.mem_cons_of_mem _ ?_
      have := ih (pre ++ [x]) a rfl
      simpa using this

def openB (k : Key) (es : List Ev) : Bool := (begun es).contains k && (es.filterMap done).all (fun p => p.1 != k)

theorem openB_iff (k : Key) (es : List Ev) : openB k es = true ↔ Open k es := by
  unfold openB Open
  simp only [Bool.and_eq_true, List.contains_iff_mem, List.all_eq_true, bne_iff_ne, ne_eq]
  constructor
  · rintro ⟨h1, h2⟩; exact ⟨h1, fun err he => h2 _ he rfl⟩
  · rintro ⟨h1, h2⟩
    refine ⟨h1, fun p hp hk => ?_⟩
    obtain ⟨k', err⟩ := p
    cases hk
    exact h2 err hp

def allowedB (pre : List Ev) : Ev → Bool
  | .runStart r _ => !(begun pre).contains (.run r)
  | .taskStart r t => openB (.run r) pre && !(begun pre).contains (.task r t)
  | .nodeStart r t n _ => openB (.run r) pre && !(begun pre).contains (.node r t n)
  | .runEnd r _ => openB (.run r) pre
  | .taskEnd r t _ => openB (.run r) pre && openB (.task r t) pre
  | .nodeEnd r t n _ => openB (.run r) pre && openB (.node r t n) pre

theorem allowedB_iff (pre : List Ev) (e : Ev) (h : allowedB pre e = true) : Allowed pre e := by
  cases e <;> simp [allowedB, Allowed, openB_iff] at h ⊢ <;> exact h

theorem valid_of (es : List Ev) (h : (splits [] es).all (fun p => allowedB p.1 p.2) = true) : Valid es := by
  intro pre e post he
  rw [List.all_eq_true] at h
  have := h _ (mem_splits [] es pre e post he)
  exact allowedB_iff _ _ this

theorem history_valid : Valid history := valid_of _ (by decide +kernel)

/-- Two interleaved runs, one with nodes only. -/
example : Valid [.runStart "r" none, .runStart "q" none, .nodeStart "q" none "a" [], .nodeStart "r" none "a" [], .nodeEnd "q" none "a" none,
    .nodeStart "q" none "b" ["a"], .runEnd "r" none, .nodeEnd "q" none "b" none, .runEnd "q" none] := valid_of _ (by decide +kernel)

/-- Its trace. -/
example : ((Dd.init "root" true).runAll [] history).map (·.2) = .ok
    [⟨"root", .outside (some 7), [], some (some "boom")⟩,
      ⟨"t1", .inside 0, [], some none⟩,
      ⟨"t1:a", .inside 1, [], some none⟩,
      ⟨"t1:b", .inside 1, [(2, "a_to_b")], some none⟩,
      ⟨"t2", .inside 0, [], some (some "boom")⟩,
      ⟨"t2:d", .inside 4, [], some (some "boom")⟩] := by rfl

/-- C84 is violated for causal links across tasks: `d` uses `b`, which was computed in another task of the run, and is not linked to
it. -/
theorem C84_violated_links : ∃ (pre post : List Ev) (r : Name) (t : Option Name) (n u : Name) (us : List Name) (d : Dd) (w : List Span)
    (s : Span), Valid (pre ++ .nodeStart r t n us :: post) ∧ u ∈ us ∧ (∃ t', .node r t' u ∈ begun pre) ∧
    (Dd.init "root" true).runAll [] (pre ++ .nodeStart r t n us :: post) = .ok (d, w) ∧ w[(begun pre).length]? = some s ∧
    s.links = [] :=
  ⟨history.take 8, history.drop 9, "r", some "t2", "d", "b", ["b"], _, _, _, history_valid, by decide +kernel,
    ⟨some "t1", by decide +kernel⟩, rfl, rfl, rfl⟩

/-- The same with `t1` in process 1 and `t2` in process 2, both running at the same time. -/
def spread : List Act :=
  [.hook 0 (.runStart "r" none), .fork 1, .fork 2, .hook 1 (.taskStart "r" "t1"), .hook 2 (.taskStart "r" "t2"),
    .hook 2 (.nodeStart "r" (some "t2") "a" []), .hook 1 (.nodeStart "r" (some "t1") "a" []), .hook 2 (.nodeEnd "r" (some "t2") "a" none),
    .hook 1 (.nodeEnd "r" (some "t1") "a" (some "boom")), .hook 1 (.taskEnd "r" "t1" (some "boom")), .hook 2 (.taskEnd "r" "t2" none),
    .hook 0 (.runEnd "r" (some "boom"))]

def home : Name → Option Name → Nat := fun _ t => if t = some "t1" then 1 else if t = some "t2" then 2 else 0

def actSplits : List Act → List Act → List (List Act × Act)
  | _, [] => []
  | pre, e :: es => (pre, e) :: actSplits (pre ++ [e]) es

theorem mem_actSplits (pre es a : List Act) (e : Act) (b : List Act) (h : es = a ++ e :: b) : (pre ++ a, e) ∈ actSplits pre es := by
  induction es generalizing pre a with
  | nil => simp at h
  | cons x es ih =>
    cases a with
    | nil => cases h; simp [actSplits]
    | cons y a =>
      cases h
      refine List.mem_cons_of_mem _ ?_
      have := ih (pre ++ [x]) a rfl
      simpa using this

theorem spread_distributed : Distributed home spread := by
  refine ⟨valid_of _ (by decide +kernel), ?_, ?_⟩
  · intro a p b h
    have hm := mem_actSplits [] spread a _ b h
    have hall : (actSplits [] spread).all (fun q => match q.2 with | .fork p => p != 0 && !q.1.contains (.fork p) | _ => true) = true := by
      decide +kernel
    have := List.all_eq_true.1 hall _ hm
    simpa using this
  · intro a p e b h
    have hm := mem_actSplits [] spread a _ b h
    have hall : (actSplits [] spread).all (fun q => match q.2 with
        | .hook p e => p == homeOf home e && (p == 0 || (q.1.take 1 == [.hook 0 (.runStart "r" none)] && q.1.contains (.fork p) &&
            runOf e == "r" && (q.1.drop 1).head? == some (.fork 1) && (q.1.drop 2).head? == some (.fork 2) && (p == 1 || p == 2)))
        | _ => true) = true := by decide +kernel
    have hq := List.all_eq_true.1 hall _ hm
    simp only [List.nil_append, Bool.and_eq_true, beq_iff_eq, Bool.or_eq_true] at hq
    refine ⟨hq.1, fun hp => ?_⟩
    rcases hq.2 with h0 | ⟨⟨⟨⟨⟨h1, _⟩, hr⟩, h2⟩, h3⟩, hpp⟩
    · exact absurd h0 hp
    · have ha : a = .hook 0 (.runStart "r" none) :: .fork 1 :: .fork 2 :: a.drop 3 := by
        match a, h1, h2, h3 with
        | x :: y :: z :: l, h1, h2, h3 =>
          simp at h1 h2 h3
          simp [h1, h2, h3]
      rw [hr, ha]
      rcases hpp with hpp | hpp
      · subst hpp
        exact ⟨[.hook 0 (.runStart "r" none)], .fork 2 :: a.drop 3, rfl, (openB_iff _ _).1 (by decide +kernel)⟩
      · subst hpp
        exact ⟨[.hook 0 (.runStart "r" none), .fork 1], a.drop 3, rfl, (openB_iff _ _).1 (by decide +kernel)⟩

/-- Its trace is the same as if everything had happened in one process. -/
example : (runWorld (fun _ => Dd.init "root" true) [] spread).map (·.2) =
    ((Dd.init "root" true).runAll [] (events spread)).map (·.2) := by rfl

/-- A run with a failing node in a task. -/
def forest : Forest := .cons "run" (some "boom") (.cons "task" (some "boom") (.cons "a" none .nil (.cons "b" (some "boom") .nil .nil)) .nil) .nil

example : (Ctx.fresh.runAll 0 forest.ops).map (·.log) = .ok
    [.started (0, 0) "run" none, .started (0, 1) "task" (some (0, 0)), .started (0, 2) "a" (some (0, 1)), .ended (0, 2) none,
      .started (0, 3) "b" (some (0, 1)), .ended (0, 3) (some "boom"), .ended (0, 1) (some "boom"), .ended (0, 0) (some "boom")] := by rfl

/-- A run in one thread whose tasks are executed in another. -/
def threads : List (Nat × Op) :=
  [(0, .enter "run"), (1, .enter "task"), (1, .enter "a"), (1, .exit none), (1, .exit none), (0, .exit none)]

/-- It meets the hypothesis of `C84_contexts_partial`. -/
example : ∀ c, opsIn c threads = (if c = 0 then Forest.cons "run" none .nil .nil
    else if c = 1 then .cons "task" none (.cons "a" none .nil .nil) .nil else .nil : Forest).ops := by
  intro c
  by_cases h0 : c = 0
  · subst h0; rfl
  · by_cases h1 : c = 1
    · subst h1; rfl
    · have h0' : ¬ (0 = c) := fun h => h0 h.symm
      have h1' : ¬ (1 = c) := fun h => h1 h.symm
      simp [opsIn, threads, h0, h1, h0', h1', Forest.ops]

/-- C84 is violated for tasks in other threads: the span of the task begins while that of the run is open, and is not below it but a
trace of its own. -/
theorem C84_violated_threads : ∃ w', runContexts (fun _ => Ctx.fresh) threads = .ok w' ∧
    (w' 0).log = [.started (0, 0) "run" none, .ended (0, 0) none] ∧
    (w' 1).log.head? = some (.started (1, 0) "task" none) := ⟨_, rfl, rfl, rfl⟩

/-- A bar for the sample graph. -/
example : ∃ path s', executionPath Verif.Sample.fg ["top"] (some [("x", 3)]) none = .ok path ∧ path ≠ [] ∧
    executeSubdag Verif.Sample.fg.nodes (requestedNodes Verif.Sample.fg.nodes ["top"]) (Verif.Sample.fg.config.merge [("x", 3)]) [] = .ok s' :=
  ⟨_, _, rfl, (by decide +kernel), rfl⟩

/-- C84 is violated with overrides: overridden nodes are in the total but are never run, so a successful run ends below the total. -/
theorem C84_violated_overrides : ∃ (fg : FnGraph Unit Int) (finalVars path : List Name) (ins ovr : Dict Name Int) (s' : ExecState Int)
    (q : Progress) (b : Bar), DriverGraph fg ∧ executionPath fg finalVars (some ins) (some ovr) = .ok path ∧
    executeSubdag fg.nodes (requestedNodes fg.nodes finalVars) (fg.config.merge ins) ovr = .ok s' ∧
    (Progress.mk "bar" 50 none none).run path (s'.calls.map (·.1)) = .ok q ∧ q.bar = some b ∧ b.closed = true ∧ b.count < b.total :=
  ⟨Verif.Sample.fg, ["top"], _, [("x", 3)], [("left", 1)], _, _, _, Verif.Sample.driverGraph, rfl, rfl, rfl, rfl, rfl,
    (by decide +kernel)⟩

/-- C84 is violated when there is nothing to compute: a run for an input would succeed, but the bar refuses to begin. -/
theorem C84_violated_nothing : ∃ (fg : FnGraph Unit Int) (finalVars path : List Name) (ins : Dict Name Int) (s' : ExecState Int)
    (e : UserErr), DriverGraph fg ∧ executionPath fg finalVars (some ins) none = .ok path ∧
    executeSubdag fg.nodes (requestedNodes fg.nodes finalVars) (fg.config.merge ins) [] = .ok s' ∧
    (Progress.mk "bar" 50 none none).run path (s'.calls.map (·.1)) = .error e :=
  ⟨Verif.Sample.fg, ["x"], _, [("x", 3)], _, _, Verif.Sample.driverGraph, rfl, rfl, rfl⟩

/-- Names of various lengths in a bar of width six. -/
example : display 6 "ab" = "ab    " ∧ display 6 "abcdef" = "abcdef" ∧ display 6 "abcdefgh" = "abc..." := by decide +kernel

/-- C84 is violated for narrower bars: the width stays that of the first run, and if that was one, longer names of later runs are shown
wider. -/
theorem C84_violated_narrow : ∃ (p : Progress) (q : Progress), p.runStart ["a"] = .ok q ∧ q.width = some 1 ∧
    (display 1 "result").length ≠ 1 := ⟨⟨"bar", 50, none, none⟩, _, rfl, rfl, by decide +kernel⟩

end Sample

end Verif.Tracing
