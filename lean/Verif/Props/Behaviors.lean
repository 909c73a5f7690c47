import Verif.Model.Behaviors

/-!
C34: which caching behaviour a node gets.
-/
namespace Verif

/-- The argument of the driver that asks for a behaviour. -/
def CacheArgs.arg (a : CacheArgs) : Behavior → SetArg
  | .default => a.default
  | .recompute => a.recompute
  | .disable => a.disable
  | .ignore => a.ignore

/-- `name` is covered by an argument: listed in it, or the argument is `True` and `name` is a node of the graph. -/
inductive Covers (all : List String) : SetArg → String → Prop
  | everything (name : String) : name ∈ all → Covers all .everything name
  | names (l : List String) (name : String) : name ∈ l → Covers all (.names l) name

/-- The word for a behaviour. -/
def Behavior.word : Behavior → String
  | .default => "DEFAULT"
  | .recompute => "RECOMPUTE"
  | .disable => "DISABLE"
  | .ignore => "IGNORE"

/-- A string denotes a behaviour, in any mix of upper and lower case. -/
def WordFor (s : String) (b : Behavior) : Prop := s.toUpper = b.word

/-- A tag with a value that counts as true. -/
def TagOn (n : CNode) (key : String) : Prop :=
  ∃ v, n.tags.get? key = some v ∧ v ≠ .str "" ∧ v ≠ .list [] ∧ v ≠ .bool false

/-- The order of precedence, as documented. -/
inductive Chosen (a : CacheArgs) (all : List String) (n : CNode) : Behavior → Prop
  | parallelizable : n.expand = true → Chosen a all n .recompute
  | driver (b : Behavior) : n.expand = false → Covers all (a.arg b) n.name → Chosen a all n b
  | tag (s : String) (b : Behavior) : n.expand = false → (∀ b', ¬ Covers all (a.arg b') n.name) →
      n.tags.get? "cache.behavior" = some (.str s) → WordFor s b → Chosen a all n b
  | loader (b : Behavior) : n.expand = false → (∀ b', ¬ Covers all (a.arg b') n.name) →
      n.tags.get? "cache.behavior" = none → TagOn n "hamilton.data_loader" →
      WordFor (a.defaultLoader.getD (a.defaultBehavior.getD "default")) b → Chosen a all n b
  | saver (b : Behavior) : n.expand = false → (∀ b', ¬ Covers all (a.arg b') n.name) →
      n.tags.get? "cache.behavior" = none → ¬ TagOn n "hamilton.data_loader" → TagOn n "hamilton.data_saver" →
      WordFor (a.defaultSaver.getD (a.defaultBehavior.getD "default")) b → Chosen a all n b
  | other (b : Behavior) : n.expand = false → (∀ b', ¬ Covers all (a.arg b') n.name) →
      n.tags.get? "cache.behavior" = none → ¬ TagOn n "hamilton.data_loader" → ¬ TagOn n "hamilton.data_saver" →
      WordFor (a.defaultBehavior.getD "default") b → Chosen a all n b

/-- A node generated by a loader for another node, whose behaviour is meant to follow it. -/
def Follows (n : CNode) (main : String) : Prop :=
  n.tags.get? "hamilton.data_loader" = some (.bool true) ∧
  n.tags.get? "hamilton.data_loader.node" = some (.str main) ∧ main ≠ n.name

/-- Nodes that follow none. -/
def Own (n : CNode) : Prop := ∀ main, ¬ Follows n main

theorem ofString_ok {s : String} {b : Behavior} : Behavior.ofString s = .ok b ↔ WordFor s b := by
  unfold Behavior.ofString WordFor
  constructor
  · intro h
    split at h
    · cases h; assumption
    split at h
    · cases h; assumption
    split at h
    · cases h; assumption
    split at h
    · cases h; assumption
    · cases h
  · intro h
    rw [h]
    cases b <;> simp [Behavior.word]

theorem denotes_inj {s : String} {b b' : Behavior} (h : WordFor s b) (h' : WordFor s b') : b = b' := by
  have := ofString_ok.mpr h
  rw [ofString_ok.mpr h'] at this
  cases this; rfl

theorem ofString_err {s : String} {e : BehErr} : Behavior.ofString s = .error e → e = .invalid s ∧ ∀ b, ¬ WordFor s b := by
  intro h
  refine ⟨?_, fun b hb => by rw [ofString_ok.mpr hb] at h; cases h⟩
  unfold Behavior.ofString at h
  split at h; · cases h
  split at h; · cases h
  split at h; · cases h
  split at h; · cases h
  cases h; rfl

theorem truthy_iff (n : CNode) (key : String) : tagTruthy n.tags key = true ↔ TagOn n key := by
  unfold tagTruthy TagOn
  cases h : n.tags.get? key with
  | none => simp
  | some v => cases v <;> simp

/-- The set for a behaviour. -/
def Sets.get (s : Sets) : Behavior → Option (List String)
  | .default => s.default
  | .disable => s.disable
  | .recompute => s.recompute
  | .ignore => s.ignore

/-- Membership in the set for a behaviour. -/
def Sets.has (s : Sets) (b : Behavior) (name : String) : Prop := ∃ l, s.get b = some l ∧ name ∈ l

theorem covers_iff {a : CacheArgs} (ha : a.check = .ok a) (all : List String) (b : Behavior) (name : String) :
    (a.sets all).has b name ↔ Covers all (a.arg b) name := by
  have hcov : ∀ s : SetArg, Covers all s name ↔ (s = .everything ∧ name ∈ all) ∨ ∃ l, s = .names l ∧ name ∈ l := by
    intro s
    constructor
    · intro h
      cases h with
      | everything _ h => exact Or.inl ⟨rfl, h⟩
      | names l _ h => exact Or.inr ⟨l, rfl, h⟩
    · rintro (⟨rfl, h⟩ | ⟨l, rfl, h⟩)
      · exact .everything _ h
      · exact .names l _ h
  rw [hcov]
  obtain ⟨d, r, i, di, x, y, z⟩ := a
  simp only [CacheArgs.check] at ha
  split at ha
  · cases ha
  rename_i hc
  cases d <;> cases r <;> cases i <;> cases di <;>
    simp_all [CacheArgs.sets, CacheArgs.arg, SetArg.asNames, Sets.has] <;>
    cases b <;> simp [Sets.get]

/-- What the loop over the four sets computes. -/
theorem fromDriver_spec (name : String) (s : Sets) :
    let r := fromDriver name [(.default, s.default), (.disable, s.disable), (.recompute, s.recompute), (.ignore, s.ignore)] none
    (∀ b, r = .ok (some b) → s.has b name ∧ ∀ b', s.has b' name → b' = b) ∧
    (r = .ok none → ∀ b, ¬ s.has b name) ∧
    (∀ e, r = .error e → e = .multiple name ∧ ∃ b b', b ≠ b' ∧ s.has b name ∧ s.has b' name) := by
  obtain ⟨d, di, r, i⟩ := s
  have key : ∀ (b : Behavior) (o : Option (List String)), ((⟨d, di, r, i⟩ : Sets).get b = o) →
      ((⟨d, di, r, i⟩ : Sets).has b name ↔ ∃ l, o = some l ∧ name ∈ l) := by
    intro b o h; unfold Sets.has; rw [h]
  have k1 := key .default d rfl
  have k2 := key .disable di rfl
  have k3 := key .recompute r rfl
  have k4 := key .ignore i rfl
  have step : ∀ (b : Behavior) (o : Option (List String)) rest found,
      fromDriver name ((b, o) :: rest) found =
        if (∃ l, o = some l ∧ name ∈ l) then
          (match found with | some _ => .error (.multiple name) | none => fromDriver name rest (some b))
        else fromDriver name rest found := by
    intro b o rest found
    cases o with
    | none => simp [fromDriver]
    | some l => cases found <;> simp [fromDriver]
  simp only [step, fromDriver]
  generalize (⟨d, di, r, i⟩ : Sets) = s at k1 k2 k3 k4 ⊢
  by_cases h1 : ∃ l, d = some l ∧ name ∈ l <;> by_cases h2 : ∃ l, di = some l ∧ name ∈ l <;>
    by_cases h3 : ∃ l, r = some l ∧ name ∈ l <;> by_cases h4 : ∃ l, i = some l ∧ name ∈ l <;>
    simp only [h1, h2, h3, h4, if_true, if_false] <;>
    simp only [h1, h2, h3, h4, iff_true, iff_false] at k1 k2 k3 k4 <;> clear h1 h2 h3 h4 step key
  all_goals
    refine ⟨?_, ?_, ?_⟩
    · intro b hb
      first
        | cases hb
          refine ⟨by assumption, fun b' hb' => ?_⟩
          cases b' <;> first | rfl | contradiction
        | cases hb
    · intro hn
      first
        | cases hn
          done
        | intro b; cases b <;> assumption
        | cases hn
    · intro e he
      first
        | (cases he; exact ⟨rfl, .default, .disable, by decide, by assumption, by assumption⟩)
        | (cases he; exact ⟨rfl, .default, .recompute, by decide, by assumption, by assumption⟩)
        | (cases he; exact ⟨rfl, .default, .ignore, by decide, by assumption, by assumption⟩)
        | (cases he; exact ⟨rfl, .disable, .recompute, by decide, by assumption, by assumption⟩)
        | (cases he; exact ⟨rfl, .disable, .ignore, by decide, by assumption, by assumption⟩)
        | (cases he; exact ⟨rfl, .recompute, .ignore, by decide, by assumption, by assumption⟩)
        | cases he

/-- The tag part of `resolveNode`. -/
def tagChoice (n : CNode) : Except BehErr (Option Behavior) :=
  match n.tags.get? "cache.behavior" with
  | none => .ok none
  | some v => (Behavior.ofTag v).map some

/-- The part of `resolveNode` below driver and tag. -/
def fallback (n : CNode) (default loader saver : String) : Except BehErr Behavior :=
  if tagTruthy n.tags "hamilton.data_loader" then Behavior.ofString loader
  else if tagTruthy n.tags "hamilton.data_saver" then Behavior.ofString saver
  else Behavior.ofString default

/-- The loop of `resolveNode`. -/
def driverChoice (n : CNode) (s : Sets) : Except BehErr (Option Behavior) :=
  fromDriver n.name [(.default, s.default), (.disable, s.disable), (.recompute, s.recompute), (.ignore, s.ignore)] none

theorem resolveNode_eq (n : CNode) (s : Sets) (d l v : String) (hx : n.expand = false) :
    resolveNode n s d l v =
      match tagChoice n with
      | .error e => .error e
      | .ok t =>
        match driverChoice n s with
        | .error e => .error e
        | .ok (some b) => .ok b
        | .ok none => match t with | some b => .ok b | none => fallback n d l v := by
  unfold resolveNode tagChoice driverChoice fallback
  simp only [hx, Bool.false_eq_true, if_false]
  cases n.tags.get? "cache.behavior" with
  | none =>
    cases fromDriver n.name [(.default, s.default), (.disable, s.disable), (.recompute, s.recompute), (.ignore, s.ignore)] none with
    | error e => rfl
    | ok o => cases o <;> rfl
  | some w =>
    dsimp only
    cases Behavior.ofTag w with
    | error e => rfl
    | ok o =>
      cases fromDriver n.name [(.default, s.default), (.disable, s.disable), (.recompute, s.recompute), (.ignore, s.ignore)] none with
      | error e => rfl
      | ok o => cases o <;> rfl

theorem tagChoice_some {n : CNode} {b : Behavior} (h : tagChoice n = .ok (some b)) :
    ∃ s, n.tags.get? "cache.behavior" = some (.str s) ∧ WordFor s b := by
  unfold tagChoice at h
  split at h
  · cases h
  · rename_i v hv
    cases v with
    | str s =>
      simp only [Behavior.ofTag] at h
      cases hs : Behavior.ofString s with
      | error e => rw [hs] at h; cases h
      | ok b' =>
        rw [hs] at h
        cases h
        exact ⟨s, hv, ofString_ok.mp hs⟩
    | list l => cases h
    | bool b => cases h

theorem tagChoice_none {n : CNode} (h : tagChoice n = .ok none) : n.tags.get? "cache.behavior" = none := by
  unfold tagChoice at h
  split at h
  · assumption
  · rename_i v hv
    cases hs : Behavior.ofTag v with
    | error e => rw [hs] at h; cases h
    | ok b' => rw [hs] at h; cases h

/-- The choice for one node of the graph follows the documented order. -/
theorem resolveNode_chosen {a : CacheArgs} (ha : a.check = .ok a) (all : List String) (n : CNode) {b : Behavior}
    (h : resolveNode n (a.sets all) a.baseDefault a.loaderDefault a.saverDefault = .ok b) (b' : Behavior) :
    b = b' ↔ Chosen a all n b' := by
  cases hx : n.expand with
  | true =>
    have : b = .recompute := by
      unfold resolveNode at h; rw [if_pos hx] at h; cases h; rfl
    subst this
    constructor
    · rintro rfl; exact .parallelizable hx
    · intro hc
      cases hc with
      | parallelizable _ => rfl
      | driver b h' => rw [hx] at h'; cases h'
      | tag s b h' => rw [hx] at h'; cases h'
      | loader b h' => rw [hx] at h'; cases h'
      | saver b h' => rw [hx] at h'; cases h'
      | other b h' => rw [hx] at h'; cases h'
  | false =>
    rw [resolveNode_eq n _ _ _ _ hx] at h
    obtain ⟨f1, f2, f3⟩ := fromDriver_spec n.name (a.sets all)
    cases ht : tagChoice n with
    | error e => rw [ht] at h; cases h
    | ok t =>
      rw [ht] at h
      dsimp only at h
      cases hd : driverChoice n (a.sets all) with
      | error e => rw [hd] at h; cases h
      | ok o =>
        rw [hd] at h
        cases o with
        | some c =>
          cases h
          obtain ⟨g1, g2⟩ := f1 _ hd
          have g1' := (covers_iff ha all b n.name).mp g1
          constructor
          · rintro rfl; exact .driver b hx g1'
          · intro hc
            cases hc with
            | parallelizable h' => rw [hx] at h'; cases h'
            | driver b' _ h' => exact (g2 _ ((covers_iff ha all _ _).mpr h')).symm
            | tag s b' _ h' => exact absurd g1' (h' b)
            | loader b' _ h' => exact absurd g1' (h' b)
            | saver b' _ h' => exact absurd g1' (h' b)
            | other b' _ h' => exact absurd g1' (h' b)
        | none =>
          have hno : ∀ c, ¬ Covers all (a.arg c) n.name := fun c hc => f2 hd c ((covers_iff ha all _ _).mpr hc)
          cases t with
          | some c =>
            cases h
            obtain ⟨s, hs, hden⟩ := tagChoice_some ht
            constructor
            · rintro rfl; exact .tag s b hx hno hs hden
            · intro hc
              cases hc with
              | parallelizable h' => rw [hx] at h'; cases h'
              | driver b' _ h' => exact absurd h' (hno _)
              | tag s' b' _ _ hs' h' =>
                rw [hs] at hs'; cases hs'
                exact denotes_inj hden h'
              | loader b' _ _ hs' => rw [hs] at hs'; cases hs'
              | saver b' _ _ hs' => rw [hs] at hs'; cases hs'
              | other b' _ _ hs' => rw [hs] at hs'; cases hs'
          | none =>
            have hs := tagChoice_none ht
            change fallback n _ _ _ = .ok b at h
            unfold fallback at h
            cases hl : tagTruthy n.tags "hamilton.data_loader" with
            | true =>
              rw [hl] at h
              have hl' := (truthy_iff n _).mp hl
              have hden := ofString_ok.mp h
              constructor
              · rintro rfl; exact .loader b hx hno hs hl' hden
              · intro hc
                cases hc with
                | parallelizable h' => rw [hx] at h'; cases h'
                | driver b' _ h' => exact absurd h' (hno _)
                | tag s' b' _ _ hs' h' => rw [hs] at hs'; cases hs'
                | loader b' _ _ _ _ h' => exact denotes_inj hden h'
                | saver b' _ _ _ h' => exact absurd hl' h'
                | other b' _ _ _ h' => exact absurd hl' h'
            | false =>
              rw [hl] at h
              have hl' : ¬ TagOn n "hamilton.data_loader" := fun hh => by
                rw [(truthy_iff n _).mpr hh] at hl; cases hl
              simp only [Bool.false_eq_true, if_false] at h
              cases hv : tagTruthy n.tags "hamilton.data_saver" with
              | true =>
                rw [hv] at h
                have hv' := (truthy_iff n _).mp hv
                have hden := ofString_ok.mp h
                constructor
                · rintro rfl; exact .saver b hx hno hs hl' hv' hden
                · intro hc
                  cases hc with
                  | parallelizable h' => rw [hx] at h'; cases h'
                  | driver b' _ h' => exact absurd h' (hno _)
                  | tag s' b' _ _ hs' h' => rw [hs] at hs'; cases hs'
                  | loader b' _ _ _ h' => exact absurd h' hl'
                  | saver b' _ _ _ _ _ h' => exact denotes_inj hden h'
                  | other b' _ _ _ _ h' => exact absurd hv' h'
              | false =>
                rw [hv] at h
                simp only [Bool.false_eq_true, if_false] at h
                have hv' : ¬ TagOn n "hamilton.data_saver" := fun hh => by
                  rw [(truthy_iff n _).mpr hh] at hv; cases hv
                have hden := ofString_ok.mp h
                constructor
                · rintro rfl; exact .other b hx hno hs hl' hv' hden
                · intro hc
                  cases hc with
                  | parallelizable h' => rw [hx] at h'; cases h'
                  | driver b' _ h' => exact absurd h' (hno _)
                  | tag s' b' _ _ hs' h' => rw [hs] at hs'; cases hs'
                  | loader b' _ _ _ h' => exact absurd h' hl'
                  | saver b' _ _ _ _ h' => exact absurd h' hv'
                  | other b' _ _ _ _ _ h' => exact denotes_inj hden h'

theorem firstPass_spec (a : CacheArgs) (s : Sets) : ∀ (nodes : List CNode) (acc d : Dict String Behavior),
    (nodes.map CNode.name).Nodup → firstPass a s nodes acc = .ok d →
    (∀ name, name ∉ nodes.map CNode.name → d.get? name = acc.get? name) ∧
    (∀ n ∈ nodes, ∃ b, d.get? n.name = some b ∧ resolveNode n s a.baseDefault a.loaderDefault a.saverDefault = .ok b) := by
  intro nodes
  induction nodes with
  | nil => intro acc d _ h; cases h; exact ⟨fun _ _ => rfl, fun _ h => by cases h⟩
  | cons n rest ih =>
    intro acc d hnd h
    rw [List.map_cons, List.nodup_cons] at hnd
    simp only [firstPass] at h
    split at h
    · cases h
    · rename_i b hb
      obtain ⟨i1, i2⟩ := ih _ _ hnd.2 h
      refine ⟨?_, ?_⟩
      · intro name hname
        rw [List.map_cons, List.mem_cons, not_or] at hname
        rw [i1 name hname.2, Dict.get?_set_ne _ _ (Ne.symm hname.1)]
      · intro m hm
        rcases List.mem_cons.mp hm with rfl | hm
        · exact ⟨b, by rw [i1 _ hnd.1, Dict.get?_set_self], hb⟩
        · exact i2 m hm

theorem secondStep_other (a : CacheArgs) (s : Sets) (n : CNode) (acc d : Dict String Behavior)
    (h : secondStep a s n acc = .ok d) (name : String) (hn : name ≠ n.name ∨ Own n) : d.get? name = acc.get? name := by
  have hne : ∀ main b, Follows n main → (acc.set n.name b).get? name = acc.get? name := by
    intro main b hf
    rcases hn with hn | hn
    · exact Dict.get?_set_ne _ _ (Ne.symm hn)
    · exact absurd hf (hn main)
  unfold secondStep at h
  split at h
  · rename_i h1
    split at h
    · cases h
    · rename_i main h2
      split at h
      · cases h; rfl
      · rename_i h3
        split at h
        · cases h; exact hne main _ ⟨h1, h2, h3⟩
        · split at h
          · cases h
          · cases h; exact hne main _ ⟨h1, h2, h3⟩
    · cases h
  · cases h; rfl

theorem secondPass_other (a : CacheArgs) (s : Sets) : ∀ (nodes : List CNode) (acc d : Dict String Behavior),
    secondPass a s nodes acc = .ok d → ∀ name, (∀ n ∈ nodes, n.name = name → Own n) → d.get? name = acc.get? name := by
  intro nodes
  induction nodes with
  | nil => intro acc d h _ _; cases h; rfl
  | cons n rest ih =>
    intro acc d h name hn
    simp only [secondPass] at h
    split at h
    · cases h
    · rename_i acc' h'
      rw [ih _ _ h name (fun m hm => hn m (List.mem_cons_of_mem _ hm)), secondStep_other a s n acc acc' h' name]
      by_cases he : name = n.name
      · exact Or.inr (hn n (List.mem_cons_self ..) he.symm)
      · exact Or.inl he

theorem cnode_inj {nodes : List CNode} (hnd : (nodes.map CNode.name).Nodup) {n m : CNode} (hn : n ∈ nodes) (hm : m ∈ nodes)
    (h : n.name = m.name) : n = m := by
  induction nodes with
  | nil => cases hn
  | cons x rest ih =>
    rw [List.map_cons, List.nodup_cons] at hnd
    rcases List.mem_cons.mp hn with rfl | hn' <;> rcases List.mem_cons.mp hm with rfl | hm'
    · rfl
    · exact absurd (List.mem_map.mpr ⟨m, hm', h.symm⟩) hnd.1
    · exact absurd (List.mem_map.mpr ⟨n, hn', h⟩) hnd.1
    · exact ih hnd.2 hn' hm'

/-- **C34** (nodes that do not follow another node): whenever behaviours can be resolved, the behaviour of a node is the
one, and the only one, that the documented order of precedence gives. What is missing for the full claim are the nodes
generated by loaders for another node: see `C34_follow` and the violations below. -/
theorem C34_precedence_partial {a : CacheArgs} (ha : a.check = .ok a) {nodes : List CNode} (hnd : (nodes.map CNode.name).Nodup)
    {d : Dict String Behavior} (h : resolveBehaviors a nodes = .ok d) {n : CNode} (hn : n ∈ nodes) (hown : Own n) (b : Behavior) :
    d.get? n.name = some b ↔ Chosen a (nodes.map CNode.name) n b := by
  unfold resolveBehaviors at h
  split at h
  · cases h
  · rename_i acc hacc
    obtain ⟨_, h2⟩ := firstPass_spec a _ nodes [] acc hnd hacc
    obtain ⟨c, hc, hr⟩ := h2 n hn
    rw [secondPass_other a _ nodes acc d h n.name (fun m hm he => by rw [cnode_inj hnd hm hn he]; exact hown), hc,
      Option.some.injEq]
    exact resolveNode_chosen ha _ n hr b

theorem secondPass_keep (a : CacheArgs) (s : Sets) : ∀ (nodes : List CNode) (acc d : Dict String Behavior),
    (nodes.map CNode.name).Nodup → secondPass a s nodes acc = .ok d →
    ∀ n ∈ nodes, ∀ main, Follows n main → (∀ m ∈ nodes, m.name = main → Own m) → ∀ b, acc.get? main = some b →
      d.get? n.name = some b := by
  intro nodes
  induction nodes with
  | nil => intro acc d _ _ n hn; cases hn
  | cons x rest ih =>
    intro acc d hnd h n hn main hf hm b hb
    rw [List.map_cons, List.nodup_cons] at hnd
    simp only [secondPass] at h
    split at h
    · cases h
    · rename_i acc' h'
      rcases List.mem_cons.mp hn with rfl | hn
      · have : acc' = acc.set n.name b := by
          unfold secondStep at h'
          rw [if_pos hf.1, hf.2.1] at h'
          dsimp only at h'
          rw [if_neg hf.2.2, hb] at h'
          cases h'; rfl
        subst this
        rw [secondPass_other a s rest _ d h n.name (fun m hm' he => absurd (List.mem_map.mpr ⟨m, hm', he⟩) hnd.1),
          Dict.get?_set_self]
      · refine ih acc' d hnd.2 h n hn main hf (fun m hm' => hm m (List.mem_cons_of_mem _ hm')) b ?_
        rw [secondStep_other a s x acc acc' h' main ?_, hb]
        by_cases he : main = x.name
        · exact Or.inr (hm x (List.mem_cons_self ..) he.symm)
        · exact Or.inl he

/-- A node generated by a loader for a node of the graph gets the behaviour of that node, whatever was asked for its own
name. -/
theorem C34_follow {a : CacheArgs} (ha : a.check = .ok a) {nodes : List CNode} (hnd : (nodes.map CNode.name).Nodup)
    {d : Dict String Behavior} (h : resolveBehaviors a nodes = .ok d) {n m : CNode} (hn : n ∈ nodes) (hm : m ∈ nodes)
    (hf : Follows n m.name) (hown : Own m) :
    ∃ b, d.get? n.name = some b ∧ Chosen a (nodes.map CNode.name) m b := by
  unfold resolveBehaviors at h
  split at h
  · cases h
  · rename_i acc hacc
    obtain ⟨_, h2⟩ := firstPass_spec a _ nodes [] acc hnd hacc
    obtain ⟨c, hc, hr⟩ := h2 m hm
    exact ⟨c, secondPass_keep a _ nodes acc d hnd h n hn m.name hf
      (fun m' hm' he => by rw [cnode_inj hnd hm' hm he]; exact hown) c hc, (resolveNode_chosen ha _ m hr c).mp rfl⟩

theorem resolveNode_multiple {n : CNode} {s : Sets} {d l v : String} {name : String}
    (h : resolveNode n s d l v = .error (.multiple name)) :
    n.expand = false ∧ name = n.name ∧ ∃ b b', b ≠ b' ∧ s.has b name ∧ s.has b' name := by
  cases hx : n.expand with
  | true => unfold resolveNode at h; rw [if_pos hx] at h; cases h
  | false =>
    rw [resolveNode_eq n _ _ _ _ hx] at h
    have hno : ∀ s e, Behavior.ofString s = .error e → e ≠ .multiple name := by
      intro s e he heq
      rw [(ofString_err he).1] at heq; cases heq
    cases ht : tagChoice n with
    | error e =>
      rw [ht] at h
      cases h
      unfold tagChoice at ht
      split at ht
      · cases ht
      · rename_i w _
        cases w with
        | str s =>
          simp only [Behavior.ofTag] at ht
          cases hs : Behavior.ofString s with
          | error e => rw [hs] at ht; cases ht; exact absurd rfl (hno _ _ hs)
          | ok c => rw [hs] at ht; cases ht
        | list l => cases ht
        | bool b => cases ht
    | ok t =>
      rw [ht] at h
      dsimp only at h
      cases hd : driverChoice n s with
      | error e =>
        rw [hd] at h; cases h
        obtain ⟨h1, h2⟩ := (fromDriver_spec n.name s).2.2 _ hd
        cases h1
        exact ⟨rfl, rfl, h2⟩
      | ok o =>
        rw [hd] at h
        cases o with
        | some c => cases h
        | none =>
          cases t with
          | some c => cases h
          | none =>
            change fallback n _ _ _ = _ at h
            unfold fallback at h
            split at h
            · exact absurd rfl (hno _ _ h)
            · split at h <;> exact absurd rfl (hno _ _ h)

theorem resolveNode_conflict {n : CNode} {s : Sets} {d l v : String} (hx : n.expand = false) {b b' : Behavior}
    (hne : b ≠ b') (h1 : s.has b n.name) (h2 : s.has b' n.name) : ∀ c, resolveNode n s d l v ≠ .ok c := by
  intro c h
  rw [resolveNode_eq n _ _ _ _ hx] at h
  obtain ⟨f1, f2, _⟩ := fromDriver_spec n.name s
  cases ht : tagChoice n with
  | error e => rw [ht] at h; cases h
  | ok t =>
    rw [ht] at h
    dsimp only at h
    cases hd : driverChoice n s with
    | error e => rw [hd] at h; cases h
    | ok o =>
      cases o with
      | some c' =>
        obtain ⟨_, g⟩ := f1 _ hd
        exact hne ((g b h1).trans (g b' h2).symm)
      | none => exact f2 hd b h1

theorem firstPass_multiple (a : CacheArgs) (s : Sets) (name : String) : ∀ (nodes : List CNode) (acc : Dict String Behavior),
    firstPass a s nodes acc = .error (.multiple name) →
    ∃ b b', b ≠ b' ∧ s.has b name ∧ s.has b' name := by
  intro nodes
  induction nodes with
  | nil => intro acc h; cases h
  | cons n rest ih =>
    intro acc h
    simp only [firstPass] at h
    split at h
    · rename_i e he
      cases h
      exact (resolveNode_multiple he).2.2
    · exact ih _ h

theorem secondPass_multiple (a : CacheArgs) (s : Sets) (name : String) : ∀ (nodes : List CNode) (acc : Dict String Behavior),
    secondPass a s nodes acc = .error (.multiple name) →
    ∃ b b', b ≠ b' ∧ s.has b name ∧ s.has b' name := by
  intro nodes
  induction nodes with
  | nil => intro acc h; cases h
  | cons n rest ih =>
    intro acc h
    simp only [secondPass] at h
    split at h
    · rename_i e he
      cases h
      unfold secondStep at he
      split at he
      · split at he
        · cases he
        · split at he
          · cases he
          · split at he
            · cases he
            · split at he
              · rename_i e hr
                cases he
                exact (resolveNode_multiple hr).2.2
              · cases he
        · cases he
      · cases he
    · exact ih _ h

/-- Naming a node (that is not Parallelizable) in two sets is an error, whatever else is configured; and the error about
several behaviours names a node that really is in two sets. -/
theorem C34_conflict {a : CacheArgs} (ha : a.check = .ok a) {nodes : List CNode} (hnd : (nodes.map CNode.name).Nodup) :
    (∀ n ∈ nodes, n.expand = false → ∀ b b', b ≠ b' → Covers (nodes.map CNode.name) (a.arg b) n.name →
      Covers (nodes.map CNode.name) (a.arg b') n.name → ∃ e, resolveBehaviors a nodes = .error e) ∧
    (∀ name, resolveBehaviors a nodes = .error (.multiple name) →
      ∃ b b', b ≠ b' ∧ Covers (nodes.map CNode.name) (a.arg b) name ∧ Covers (nodes.map CNode.name) (a.arg b') name) := by
  refine ⟨?_, ?_⟩
  · intro n hn hx b b' hne h1 h2
    unfold resolveBehaviors
    split
    · exact ⟨_, rfl⟩
    · rename_i acc hacc
      obtain ⟨_, g⟩ := firstPass_spec a _ nodes [] acc hnd hacc
      obtain ⟨c, _, hr⟩ := g n hn
      exact absurd hr (resolveNode_conflict hx hne ((covers_iff ha _ _ _).mpr h1) ((covers_iff ha _ _ _).mpr h2) c)
  · intro name h
    have key : ∃ b b', b ≠ b' ∧ (a.sets (nodes.map CNode.name)).has b name ∧ (a.sets (nodes.map CNode.name)).has b' name := by
      unfold resolveBehaviors at h
      split at h
      · rename_i e he
        cases h
        exact firstPass_multiple a _ name nodes _ he
      · exact secondPass_multiple a _ name nodes _ h
    obtain ⟨b, b', hne, h1, h2⟩ := key
    exact ⟨b, b', hne, (covers_iff ha _ _ _).mp h1, (covers_iff ha _ _ _).mp h2⟩

theorem resolveNode_ok {n : CNode} {s : Sets} {d l v : String} (hsets : ∀ b b', s.has b n.name → s.has b' n.name → b = b')
    (htag : n.tags.get? "cache.behavior" = none ∨ ∃ t b, n.tags.get? "cache.behavior" = some (.str t) ∧ WordFor t b)
    (hd : ∃ b, WordFor d b) (hl : ∃ b, WordFor l b) (hv : ∃ b, WordFor v b) : ∃ b, resolveNode n s d l v = .ok b := by
  cases hx : n.expand with
  | true => exact ⟨.recompute, by unfold resolveNode; rw [if_pos hx]⟩
  | false =>
    rw [resolveNode_eq n _ _ _ _ hx]
    have ht : ∃ t, tagChoice n = .ok t := by
      unfold tagChoice
      rcases htag with h | ⟨t, b, h, hb⟩
      · rw [h]; exact ⟨none, rfl⟩
      · rw [h]; exact ⟨some b, by simp only [Behavior.ofTag, ofString_ok.mpr hb]; rfl⟩
    obtain ⟨t, ht⟩ := ht
    rw [ht]
    dsimp only
    cases hdr : driverChoice n s with
    | error e =>
      obtain ⟨_, b, b', hne, h1, h2⟩ := (fromDriver_spec n.name s).2.2 _ hdr
      exact absurd (hsets b b' h1 h2) hne
    | ok o =>
      cases o with
      | some b => exact ⟨b, rfl⟩
      | none =>
        cases t with
        | some b => exact ⟨b, rfl⟩
        | none =>
          obtain ⟨bd, hd⟩ := hd
          obtain ⟨bl, hl⟩ := hl
          obtain ⟨bv, hv⟩ := hv
          dsimp only
          unfold fallback
          split
          · exact ⟨_, ofString_ok.mpr hl⟩
          · split
            · exact ⟨_, ofString_ok.mpr hv⟩
            · exact ⟨_, ofString_ok.mpr hd⟩

/-- Behaviours can be resolved as soon as no name is in two sets, every word for a behaviour is one, and the nodes tagged
as loaders say for which node. -/
theorem C34_total {a : CacheArgs} (ha : a.check = .ok a) (nodes : List CNode)
    (hone : ∀ name b b', Covers (nodes.map CNode.name) (a.arg b) name → Covers (nodes.map CNode.name) (a.arg b') name → b = b')
    (htag : ∀ n ∈ nodes, n.tags.get? "cache.behavior" = none ∨
      ∃ t b, n.tags.get? "cache.behavior" = some (.str t) ∧ WordFor t b)
    (hwords : ∀ w, a.defaultBehavior = some w ∨ a.defaultLoader = some w ∨ a.defaultSaver = some w → ∃ b, WordFor w b)
    (hload : ∀ n ∈ nodes, n.tags.get? "hamilton.data_loader" = some (.bool true) →
      ∃ main, n.tags.get? "hamilton.data_loader.node" = some (.str main)) :
    ∃ d, resolveBehaviors a nodes = .ok d := by
  have hsets : ∀ name b b', (a.sets (nodes.map CNode.name)).has b name → (a.sets (nodes.map CNode.name)).has b' name → b = b' :=
    fun name b b' h1 h2 => hone name b b' ((covers_iff ha _ _ _).mp h1) ((covers_iff ha _ _ _).mp h2)
  have hdef : ∃ b, WordFor "default" b := ⟨.default, by unfold WordFor; decide +kernel⟩
  have hb : ∃ b, WordFor a.baseDefault b := by
    unfold CacheArgs.baseDefault
    cases h : a.defaultBehavior with
    | none => exact hdef
    | some w => exact hwords w (Or.inl h)
  have hl : ∃ b, WordFor a.loaderDefault b := by
    unfold CacheArgs.loaderDefault
    cases h : a.defaultLoader with
    | none => exact hb
    | some w => exact hwords w (Or.inr (Or.inl h))
  have hv : ∃ b, WordFor a.saverDefault b := by
    unfold CacheArgs.saverDefault
    cases h : a.defaultSaver with
    | none => exact hb
    | some w => exact hwords w (Or.inr (Or.inr h))
  have h1 : ∀ (l : List CNode) acc, (∀ n ∈ l, n ∈ nodes) → ∃ d, firstPass a (a.sets (nodes.map CNode.name)) l acc = .ok d := by
    intro l
    induction l with
    | nil => intro acc _; exact ⟨acc, rfl⟩
    | cons n rest ih =>
      intro acc hsub
      obtain ⟨b, hr⟩ := resolveNode_ok (n := n) (hsets n.name) (htag n (hsub n (List.mem_cons_self ..))) hb hl hv
      simp only [firstPass, hr]
      exact ih _ (fun m hm => hsub m (List.mem_cons_of_mem _ hm))
  have h2 : ∀ (l : List CNode) acc, (∀ n ∈ l, n ∈ nodes) → ∃ d, secondPass a (a.sets (nodes.map CNode.name)) l acc = .ok d := by
    intro l
    induction l with
    | nil => intro acc _; exact ⟨acc, rfl⟩
    | cons n rest ih =>
      intro acc hsub
      have hn := hsub n (List.mem_cons_self ..)
      have : ∃ acc', secondStep a (a.sets (nodes.map CNode.name)) n acc = .ok acc' := by
        unfold secondStep
        split
        · rename_i ht
          obtain ⟨main, hm⟩ := hload n hn ht
          rw [hm]
          dsimp only
          split
          · exact ⟨_, rfl⟩
          · split
            · exact ⟨_, rfl⟩
            · obtain ⟨b, hr⟩ := resolveNode_ok (n := ⟨main, false, n.tags⟩) (hsets main) (htag n hn) hl hdef hdef
              rw [hr]
              exact ⟨_, rfl⟩
        · exact ⟨_, rfl⟩
      obtain ⟨acc', h'⟩ := this
      simp only [secondPass, h']
      exact ih _ (fun m hm => hsub m (List.mem_cons_of_mem _ hm))
  obtain ⟨acc, hacc⟩ := h1 nodes [] (fun _ h => h)
  obtain ⟨d, hd⟩ := h2 nodes acc (fun _ h => h)
  exact ⟨d, by unfold resolveBehaviors; rw [hacc]; exact hd⟩

namespace BehSample

/-- The two nodes that `@load_from` on the parameter `df` of a function `report` adds (function_modifiers/adapters.py:223-266). -/
def loadTags : Dict String TagVal :=
  [("hamilton.data_loader", .bool true), ("hamilton.data_loader.has_metadata", .bool true),
   ("hamilton.data_loader.source", .str "csv"), ("hamilton.data_loader.node", .str "df")]

/-- A graph with a Parallelizable node, a tagged node, a saver, a plain node, a `@dataloader` pair and a `@load_from`. -/
def nodes : List CNode :=
  [⟨"items", true, []⟩, ⟨"tagged", false, [("cache.behavior", .str "Disable")]⟩,
   ⟨"saved", false, [("hamilton.data_saver", .bool true)]⟩, ⟨"plain", false, []⟩,
   ⟨"raw.loader", false, [("hamilton.data_loader", .bool true), ("hamilton.data_loader.node", .str "raw")]⟩,
   ⟨"raw", false, [("hamilton.data_loader", .bool true), ("hamilton.data_loader.node", .str "raw")]⟩,
   ⟨"report", false, []⟩, ⟨"report.load_data.df", false, loadTags⟩]

/-- Comparison of outcomes in the examples. -/
instance instDecEqExcept {E A : Type} [DecidableEq E] [DecidableEq A] : DecidableEq (Except E A)
  | .ok x, .ok y => if h : x = y then .isTrue (by rw [h]) else .isFalse (fun h' => h (by cases h'; rfl))
  | .error x, .error y => if h : x = y then .isTrue (by rw [h]) else .isFalse (fun h' => h (by cases h'; rfl))
  | .ok _, .error _ => .isFalse (fun h => by cases h)
  | .error _, .ok _ => .isFalse (fun h => by cases h)

/-- Some nodes are named, loaders default to recompute and savers to disable. -/
def args : CacheArgs :=
  ⟨.unset, .names ["tagged"], .names ["plain", "elsewhere"], .unset, some "default", some "recompute", some "disable"⟩

example : args.check = .ok args ∧ (nodes.map CNode.name).Nodup := by decide +kernel

theorem sample_resolved : resolveBehaviors args nodes = .ok [("items", .recompute), ("tagged", .recompute), ("saved", .disable), ("plain", .ignore),
    ("raw.loader", .recompute), ("raw", .recompute), ("report", .default), ("report.load_data.df", .default)] := by decide +kernel

example : Own nodes[1] ∧ Own nodes[5] ∧ Follows nodes[4] "raw" := by
  refine ⟨?_, ?_, ?_⟩
  · rintro main ⟨h, _⟩; exact absurd h (by decide)
  · rintro main ⟨_, h, h'⟩
    have : main = "raw" := by
      have h2 : (nodes[5]).tags.get? "hamilton.data_loader.node" = some (.str "raw") := by decide
      rw [h2] at h; cases h; rfl
    exact h' this
  · exact ⟨by decide, by decide, by decide⟩

/-- Naming `tagged` in two sets is refused. -/
example : resolveBehaviors { args with default := .names ["tagged"] } nodes = .error (.multiple "tagged") := by decide +kernel

example : ∀ name b b', Covers (nodes.map CNode.name) (args.arg b) name → Covers (nodes.map CNode.name) (args.arg b') name → b = b' := by
  intro name b b' h h'
  cases b <;> cases b' <;> first | rfl | (cases h; done) | (cases h'; done) | skip
  all_goals
    cases h with
    | names l _ hm =>
      cases h' with
      | names l' _ hm' =>
        simp only [List.mem_cons, List.not_mem_nil, or_false] at hm hm'
        rcases hm with rfl | rfl <;> simp at hm'

/-- **C34 is violated**: the loader added by `@load_from` is tagged as loader and `default_loader_behavior` is "recompute",
but it gets DEFAULT. The node is named by no set and has no `@cache` tag. (adapter.py:973-985 passes the loader default
as plain default, but the tags of the stand-in node make `_resolve_node_behavior` use its own loader default.) -/
theorem C34_violated_loader_default :
    ∃ (n : CNode), n ∈ nodes ∧ Chosen args (nodes.map CNode.name) n .recompute ∧
      ∃ d, resolveBehaviors args nodes = .ok d ∧ d.get? n.name = some .default := by
  refine ⟨⟨"report.load_data.df", false, loadTags⟩, by decide, ?_, _, sample_resolved, by decide⟩
  refine .loader _ rfl ?_ (by decide) ⟨.bool true, by decide, by decide, by decide, by decide⟩ (by unfold WordFor; decide +kernel)
  intro b h
  cases b <;> cases h
  · rename_i h; revert h; decide
  · rename_i h; revert h; decide

/-- **C34 is violated**: `with_cache(recompute=True)` asks for RECOMPUTE on every node, but the loader added by
`@load_from` gets DEFAULT (the name looked up is that of the parameter, which is not a node). -/
theorem C34_violated_everything :
    ∃ a, withCache .unset .everything .unset .unset = .ok a ∧
      ∃ n ∈ nodes, Chosen a (nodes.map CNode.name) n .recompute ∧
        ∃ d, resolveBehaviors a nodes = .ok d ∧ d.get? n.name = some .default := by
  refine ⟨⟨.unset, .everything, .unset, .unset, some "default", some "default", some "default"⟩, by decide,
    ⟨"report.load_data.df", false, loadTags⟩, by decide, ?_,
    [("items", .recompute), ("tagged", .recompute), ("saved", .recompute), ("plain", .recompute), ("raw.loader", .recompute),
     ("raw", .recompute), ("report", .recompute), ("report.load_data.df", .default)], by decide +kernel, by decide⟩
  exact .driver .recompute rfl (.everything _ (by decide))

end BehSample
end Verif
