import Verif.Model.FromFn
import Verif.Props.Construction
import Verif.Props.Config

/-!
C77: a driver made from modules of plain functions computes what the functions say.  The specification speaks about the functions
only (their names, parameters, defaults and bodies); it knows neither nodes nor graphs.
-/
namespace Verif
variable {T V : Type}

/-! ### Specification -/

/-- The public functions that the modules define themselves, in order. -/
def ownFns (mods : List (FnModule T V)) : List (PyFunc T V) :=
  mods.flatMap (fun m => (m.members.map (·.2)).filter (fun f => decide (f.module = m.name ∧ f.name.toList.head? ≠ some '_')))

/-- Functions imported from elsewhere come from modules whose names do not contain the name of the importing module (see C45). -/
def CleanImports (mods : List (FnModule T V)) : Prop :=
  ∀ m ∈ mods, ∀ p ∈ m.members, p.2.module = m.name ∨ ¬ ∃ a b, p.2.module.toList = a ++ (m.name.toList ++ b)

/-- `f` is the definition of its name that counts: the last one. -/
def LastFn (defs : List (PyFunc T V)) (f : PyFunc T V) : Prop :=
  ∃ pre post, defs = pre ++ f :: post ∧ ∀ g ∈ post, g.name ≠ f.name

/-- Nothing gives a value to the name. -/
def NoValue (defs : List (PyFunc T V)) (config inputs overrides : Dict Name V) (k : Name) : Prop :=
  overrides.get? k = none ∧ k ∉ config.keys ∧ inputs.get? k = none ∧ ∀ f ∈ defs, f.name ≠ k

/-- The value of a name, by the text of the program: what is overridden, configured or given as input; otherwise the result of the function
of that name, called with the values of its parameters, and with the default for a parameter to which nothing gives a value. -/
inductive Computes (defs : List (PyFunc T V)) (config inputs overrides : Dict Name V) : Name → V → Prop
  | override {k v} : overrides.get? k = some v → Computes defs config inputs overrides k v
  | config {k v} : overrides.get? k = none → config.get? k = some v → Computes defs config inputs overrides k v
  | input {k v} : overrides.get? k = none → k ∉ config.keys → (∀ f ∈ defs, f.name ≠ k) → inputs.get? k = some v →
      Computes defs config inputs overrides k v
  | call {f : PyFunc T V} {v} (val loc : Name → Option V) : overrides.get? f.name = none → f.name ∉ config.keys → LastFn defs f →
      (∀ p ∈ f.params, ∀ w, val p.name = some w → Computes defs config inputs overrides p.name w) →
      (∀ p ∈ f.params, val p.name = none → p.dflt.isSome ∧ NoValue defs config inputs overrides p.name) →
      (∀ p ∈ f.params, loc p.name = (val p.name).or p.dflt) → (∀ x, (∀ p ∈ f.params, p.name ≠ x) → loc x = none) →
      f.body (fun x => (loc x).map .val) = .ok v → Computes defs config inputs overrides f.name v

/-- The parameters can be given by name, and have different names (as Python demands). -/
def NamedParams (f : PyFunc T V) : Prop := (∀ p ∈ f.params, p.kind = .named) ∧ (f.params.map (·.name)).Nodup

/-! ### Lemmas -/

theorem functions_eq {m : FnModule T V}
    (h : ∀ p ∈ m.members, p.2.module = m.name ∨ ¬ ∃ a b, p.2.module.toList = a ++ (m.name.toList ++ b)) :
    m.functions = (m.members.map (·.2)).filter (fun f => decide (f.module = m.name ∧ f.name.toList.head? ≠ some '_')) := by
  unfold FnModule.functions
  rw [List.filter_map]
  congr 1
  apply List.filter_congr
  intro p hp
  have h1 : (!("_".toList.isPrefixOf p.2.name.toList)) = decide (p.2.name.toList.head? ≠ some '_') := by
    rw [show "_".toList = ['_'] from rfl]
    cases hn : p.2.name.toList with
    | nil => rfl
    | cons c cs =>
      by_cases hc : c = '_'
      · subst hc; rfl
      · have : ('_' == c) = false := by simpa using fun h => hc h.symm
        simp [List.isPrefixOf, this, hc]
  have h2 : isSubmodule p.2.module m.name = decide (p.2.module = m.name) := by
    rcases h p hp with hm | hm
    · have : isSubmodule p.2.module m.name = true := by
        unfold isSubmodule
        rw [isSubstring_iff]; exact ⟨[], [], by simp [hm]⟩
      rw [this, hm]; simp
    · have hf : isSubmodule p.2.module m.name = false := by
        cases hs : isSubmodule p.2.module m.name with
        | false => rfl
        | true => unfold isSubmodule at hs; exact absurd ((isSubstring_iff _ _).1 hs) hm
      have hne : p.2.module ≠ m.name := fun he => hm ⟨[], [], by simp [he]⟩
      rw [hf]; simp [hne]
  show _ = decide _
  rw [h1, h2]
  by_cases ha : p.2.module = m.name <;> by_cases hb : p.2.name.toList.head? = some '_' <;> simp [ha, hb]

theorem flatMap_functions {mods : List (FnModule T V)} (h : CleanImports mods) : mods.flatMap FnModule.functions = ownFns mods := by
  unfold ownFns
  induction mods with
  | nil => rfl
  | cons m ms ih =>
    rw [List.flatMap_cons, List.flatMap_cons, functions_eq (h m List.mem_cons_self), ih (fun m' hm => h m' (List.mem_cons_of_mem _ hm))]

theorem fnInputTypes_ok {ps : List (FnParam T V)} : ∀ {d}, fnInputTypes ps = .ok d →
    d.keys = ps.map (·.name) ∧ (∀ p ∈ ps, ∃ t, p.hint = some t ∧ (p.name, (t, p.dep)) ∈ d) ∧
    (∀ e ∈ d, ∃ p ∈ ps, p.name = e.1 ∧ p.dep = e.2.2) := by
  induction ps with
  | nil => intro d h; cases h; exact ⟨rfl, by simp, by simp⟩
  | cons p ps ih =>
    intro d h
    unfold fnInputTypes at h
    cases hh : p.hint with
    | none => rw [hh] at h; cases h
    | some t =>
      rw [hh] at h
      dsimp only at h
      cases hr : fnInputTypes ps with
      | error e => rw [hr] at h; cases h
      | ok d' =>
        rw [hr] at h
        cases h
        obtain ⟨h1, h2, h3⟩ := ih hr
        refine ⟨?_, ?_, ?_⟩
        · rw [Dict.keys_cons, h1]; rfl
        · intro q hq
          rcases List.mem_cons.1 hq with rfl | hq
          · exact ⟨t, hh, List.mem_cons_self⟩
          · obtain ⟨t', ht, hm⟩ := h2 q hq
            exact ⟨t', ht, List.mem_cons_of_mem _ hm⟩
        · intro e he
          rcases List.mem_cons.1 he with rfl | he
          · exact ⟨p, List.mem_cons_self, rfl, rfl⟩
          · obtain ⟨q, hq, h⟩ := h3 e he
            exact ⟨q, List.mem_cons_of_mem _ hq, h⟩

theorem fromFn_ok {ops : HintOps T} {f : PyFunc T V} {n : Node T V} (h : fromFn ops f = .ok n) :
    n.name = f.name ∧ n.kind ≠ .external ∧ n.dependencies = [] ∧ n.dependedOnBy = [] ∧ fnInputTypes f.params = .ok n.inputTypes ∧
      n.fn = f.call ∧ f.ret = some n.typ := by
  unfold fromFn at h
  cases hr : f.ret with
  | none => rw [hr] at h; cases h
  | some t =>
    rw [hr] at h
    dsimp only at h
    cases hi : fnInputTypes f.params with
    | error e => rw [hi] at h; cases h
    | ok d =>
      rw [hi] at h
      cases h
      refine ⟨rfl, ?_, rfl, rfl, rfl, rfl, rfl⟩
      show fnKind ops f t ≠ .external
      unfold fnKind
      split
      · decide
      · split <;> decide

theorem fromFn_kind {ops : HintOps T} {f : PyFunc T V} {n : Node T V} (h : fromFn ops f = .ok n) :
    (n.kind = .collect ↔ ∃ t, ops.collect t = true ∧ (f.ret = some t ∨ ∃ p ∈ f.params, p.hint = some t)) ∧
    (n.kind = .expand ↔ (∃ t, f.ret = some t ∧ ops.parallelizable t = true) ∧
      ∀ t, (f.ret = some t ∨ ∃ p ∈ f.params, p.hint = some t) → ops.collect t = false) := by
  obtain ⟨_, _, _, _, _, _, hr⟩ := fromFn_ok h
  have hk : n.kind = fnKind ops f n.typ := by
    unfold fromFn at h
    rw [hr] at h
    dsimp only at h
    cases hi : fnInputTypes f.params with
    | error e => rw [hi] at h; cases h
    | ok d => rw [hi] at h; exact ((Except.ok.inj h).symm ▸ rfl)
  have hc : (ops.collect n.typ || f.params.any (fun p => p.hint.any ops.collect)) = true ↔
      ∃ t, ops.collect t = true ∧ (f.ret = some t ∨ ∃ p ∈ f.params, p.hint = some t) := by
    rw [Bool.or_eq_true, List.any_eq_true]
    constructor
    · rintro (h | ⟨p, hp, h⟩)
      · exact ⟨_, h, .inl hr⟩
      · cases hh : p.hint with
        | none => rw [hh] at h; cases h
        | some t => rw [hh] at h; exact ⟨t, h, .inr ⟨p, hp, hh⟩⟩
    · rintro ⟨t, ht, h | ⟨p, hp, h⟩⟩
      · rw [hr] at h; cases h; exact .inl ht
      · exact .inr ⟨p, hp, by rw [h]; exact ht⟩
  rw [hk]
  unfold fnKind
  by_cases hcol : (ops.collect n.typ || f.params.any (fun p => p.hint.any ops.collect)) = true
  · rw [if_pos hcol]
    have := hc.1 hcol
    refine ⟨⟨fun _ => this, fun _ => rfl⟩, ⟨fun h => (by cases h), fun ⟨_, h⟩ => ?_⟩⟩
    obtain ⟨t, ht, h'⟩ := this
    rw [h t h'] at ht; cases ht
  · rw [if_neg hcol]
    have hno : ¬ ∃ t, ops.collect t = true ∧ (f.ret = some t ∨ ∃ p ∈ f.params, p.hint = some t) := fun h => hcol (hc.2 h)
    have hfalse : ∀ t, (f.ret = some t ∨ ∃ p ∈ f.params, p.hint = some t) → ops.collect t = false := by
      intro t ht
      cases hx : ops.collect t with
      | false => rfl
      | true => exact absurd ⟨t, hx, ht⟩ hno
    cases hp : ops.parallelizable n.typ with
    | true =>
      refine ⟨⟨fun h => (by cases h), fun h => absurd h hno⟩, ⟨fun _ => ⟨⟨_, hr, hp⟩, hfalse⟩, fun _ => rfl⟩⟩
    | false =>
      refine ⟨⟨fun h => (by cases h), fun h => absurd h hno⟩, ⟨fun h => (by cases h), fun ⟨⟨t, ht, hpt⟩, _⟩ => ?_⟩⟩
      rw [hr] at ht; cases ht; rw [hp] at hpt; cases hpt

theorem lastDef_cons (n : Node T V) (ns : List (Node T V)) (k : Name) :
    lastDef (n :: ns) k = (lastDef ns k).or (if n.name = k then some n else none) := by
  unfold lastDef
  rw [List.reverse_cons, List.find?_append]
  congr 1
  by_cases h : n.name = k <;> simp [h]

theorem nodesOfFns_cons {ops : HintOps T} {f : PyFunc T V} {fs : List (PyFunc T V)} {ns : List (Node T V)}
    (h : nodesOfFns ops (f :: fs) = .ok ns) : ∃ n ns', fromFn ops f = .ok n ∧ nodesOfFns ops fs = .ok ns' ∧ ns = n :: ns' := by
  unfold nodesOfFns at h
  cases h1 : fromFn ops f with
  | error e => rw [h1] at h; cases h
  | ok n =>
    rw [h1] at h
    dsimp only at h
    cases h2 : nodesOfFns ops fs with
    | error e => rw [h2] at h; cases h
    | ok ns' => rw [h2] at h; cases h; exact ⟨n, ns', rfl, rfl, rfl⟩

/-- The nodes made are those of the functions. -/
theorem nodesOfFns_ok {ops : HintOps T} {fs : List (PyFunc T V)} : ∀ {ns}, nodesOfFns ops fs = .ok ns →
    (∀ n ∈ ns, ∃ f ∈ fs, fromFn ops f = .ok n) ∧
    (∀ k n, lastDef ns k = some n → ∃ f, LastFn fs f ∧ f.name = k ∧ fromFn ops f = .ok n) ∧
    (∀ f, LastFn fs f → ∃ n, fromFn ops f = .ok n ∧ lastDef ns f.name = some n) := by
  induction fs with
  | nil =>
    intro ns h; cases h
    refine ⟨by simp, fun k n h => by simp [lastDef] at h, ?_⟩
    rintro f ⟨pre, post, h, _⟩
    simp at h
  | cons f fs ih =>
    intro ns h
    obtain ⟨n, ns', h1, h2, rfl⟩ := nodesOfFns_cons h
    obtain ⟨i1, i2, i3⟩ := ih h2
    have hname := (fromFn_ok h1).1
    have hnone : lastDef ns' f.name = none → ∀ g ∈ fs, g.name ≠ f.name := by
      intro hl g hg hgn
      -- the last definition of the name among `fs`
      have : ∀ (l : List (PyFunc T V)), (∃ g ∈ l, g.name = f.name) → ∃ g, LastFn l g ∧ g.name = f.name := by
        intro l
        induction l with
        | nil => rintro ⟨g, hg, _⟩; cases hg
        | cons a l ihl =>
          rintro ⟨g, hg, hn⟩
          by_cases hex : ∃ g ∈ l, g.name = f.name
          · obtain ⟨g', ⟨pre, post, rfl, hp⟩, hn'⟩ := ihl hex
            exact ⟨g', ⟨a :: pre, post, rfl, hp⟩, hn'⟩
          · rcases List.mem_cons.1 hg with rfl | hg
            · exact ⟨g, ⟨[], l, rfl, fun x hx hxn => hex ⟨x, hx, hxn.trans hn⟩⟩, hn⟩
            · exact absurd ⟨g, hg, hn⟩ hex
      obtain ⟨g', hd, hn'⟩ := this fs ⟨g, hg, hgn⟩
      obtain ⟨m, _, hm⟩ := i3 g' hd
      rw [hn'] at hm; rw [hm] at hl; cases hl
    refine ⟨?_, ?_, ?_⟩
    · intro m hm
      rcases List.mem_cons.1 hm with rfl | hm
      · exact ⟨f, List.mem_cons_self, h1⟩
      · obtain ⟨g, hg, h⟩ := i1 m hm; exact ⟨g, List.mem_cons_of_mem _ hg, h⟩
    · intro k m hm
      rw [lastDef_cons] at hm
      cases hl : lastDef ns' k with
      | some m' =>
        rw [hl] at hm; cases hm
        obtain ⟨g, ⟨pre, post, rfl, hp⟩, hk, hg⟩ := i2 k m hl
        exact ⟨g, ⟨f :: pre, post, rfl, hp⟩, hk, hg⟩
      | none =>
        rw [hl] at hm
        by_cases hk : n.name = k
        · rw [if_pos hk] at hm
          cases hm
          refine ⟨f, ⟨[], fs, rfl, ?_⟩, hname ▸ hk, h1⟩
          apply hnone
          rw [← hname, hk]; exact hl
        · rw [if_neg hk] at hm; cases hm
    · rintro g ⟨pre, post, he, hp⟩
      cases pre with
      | nil =>
        cases he
        refine ⟨n, h1, ?_⟩
        rw [lastDef_cons, if_pos hname]
        have : lastDef ns' f.name = none := by
          rw [lastDef_none]
          intro m hm hmn
          obtain ⟨g, hg, hgm⟩ := i1 m hm
          exact hp g hg (by rw [← (fromFn_ok hgm).1, hmn])
        rw [this]; rfl
      | cons a pre =>
        cases he
        obtain ⟨m, hm1, hm2⟩ := i3 g ⟨pre, post, rfl, hp⟩
        exact ⟨m, hm1, by rw [lastDef_cons, hm2]; rfl⟩

theorem argsFor_fst (val : Name → Option V) (ps : Dict Name (T × DepType)) : ∀ e ∈ argsFor ps val, e.1 ∈ ps.keys := by
  intro e he
  unfold argsFor at he
  obtain ⟨p, hp, h⟩ := List.mem_filterMap.1 he
  cases hv : val p.1 with
  | none => rw [hv] at h; cases h
  | some v => rw [hv] at h; cases h; exact List.mem_map_of_mem hp

theorem find?_param {ps : List (FnParam T V)} (hn : (ps.map (·.name)).Nodup) {p : FnParam T V} (hp : p ∈ ps) :
    ps.find? (fun q => q.name == p.name) = some p := by
  induction ps with
  | nil => cases hp
  | cons a ps ih =>
    rw [List.map_cons] at hn
    obtain ⟨hnot, hn'⟩ := List.nodup_cons.1 hn
    rw [List.find?_cons]
    rcases List.mem_cons.1 hp with rfl | hp
    · simp
    · have : a.name ≠ p.name := fun h => hnot (h ▸ List.mem_map_of_mem hp)
      have hb : (a.name == p.name) = false := by simpa using this
      rw [hb]; exact ih hn' hp

/-- A call of a function all of whose parameters can be given by name, with arguments for some of its parameters. -/
theorem call_named {f : PyFunc T V} (hf : NamedParams f) {its : Dict Name (T × DepType)} (hi : fnInputTypes f.params = .ok its)
    (val : Name → Option V) (hreq : ∀ p ∈ f.params, val p.name = none → p.dflt.isSome = true) :
    ∃ loc : Name → Option V, (∀ p ∈ f.params, loc p.name = (val p.name).or p.dflt) ∧
      (∀ x, (∀ p ∈ f.params, p.name ≠ x) → loc x = none) ∧
      f.call (argsFor its val) = f.body (fun x => (loc x).map .val) := by
  obtain ⟨hk, _, _⟩ := fnInputTypes_ok hi
  have hget : ∀ p ∈ f.params, Dict.get? (argsFor its val) p.name = val p.name := by
    intro p hp
    rw [mem_argsFor_get val, if_pos (by rw [hk]; exact List.mem_map_of_mem hp)]
  have hbind : ∀ p ∈ f.params, bindArg f.params (argsFor its val) p = ((val p.name).or p.dflt).map .val := by
    intro p hp
    unfold bindArg
    rw [hf.1 p hp]
    dsimp only
    rw [hget p hp]
  refine ⟨fun x => (f.params.find? (fun p => p.name == x)).bind (fun p => (val p.name).or p.dflt), ?_, ?_, ?_⟩
  · intro p hp
    show (f.params.find? (fun q => q.name == p.name)).bind _ = _
    rw [find?_param hf.2 hp]; rfl
  · intro x hx
    show (f.params.find? (fun p => p.name == x)).bind _ = none
    rw [List.find?_eq_none.2 (fun p hp => by simpa using hx p hp)]; rfl
  · unfold PyFunc.call
    rw [if_neg, if_neg]
    · congr 1
      funext x
      cases hx : f.params.find? (fun p => p.name == x) with
      | none => dsimp only; rw [hx]; rfl
      | some p =>
        have hp := List.mem_of_find?_eq_some hx
        dsimp only
        rw [hx]
        exact hbind p hp
    · intro h
      rw [Bool.and_eq_true] at h
      obtain ⟨e, he, hn⟩ := List.any_eq_true.1 h.2
      have hm := argsFor_fst val its e he
      rw [hk] at hm
      obtain ⟨p, hp, hpe⟩ := List.mem_map.1 hm
      have : f.params.any (fun q => q.kind == .named && q.name == e.1) = true :=
        List.any_eq_true.2 ⟨p, hp, by rw [hf.1 p hp, hpe]; simp⟩
      rw [this] at hn; cases hn
    · intro h
      obtain ⟨p, hp, hn⟩ := List.any_eq_true.1 h
      rw [hbind p hp] at hn
      cases hv : val p.name with
      | some v => rw [hv] at hn; cases hn
      | none =>
        rw [hv] at hn
        have := hreq p hp hv
        cases hd : p.dflt with
        | none => rw [hd] at this; cases this
        | some d => rw [hd] at hn; cases hn

/-- What is known about a graph made from modules. -/
structure FromModules (ops : HintOps T) (defs : List (PyFunc T V)) (config : Dict Name V) (g : Graph T V) : Prop where
  wf : WellFormed g
  config_in : ∀ k ∈ config.keys, ∃ n, g.get? k = some n ∧ n.kind = .external
  defined : ∀ f, LastFn defs f → f.name ∉ config.keys →
    ∃ n n0, g.get? f.name = some n ∧ n.kind ≠ .external ∧ fromFn ops f = .ok n0 ∧ n.inputTypes = n0.inputTypes ∧ n.fn = f.call ∧
        n.kind = n0.kind
  function : ∀ k n, g.get? k = some n → n.kind ≠ .external → ∃ f, LastFn defs f ∧ f.name = k ∧ k ∉ config.keys
  external : ∀ k n, g.get? k = some n → n.kind = .external → k ∉ config.keys → ∀ f ∈ defs, f.name ≠ k

theorem LastFn.exists {defs : List (PyFunc T V)} {f : PyFunc T V} (hf : f ∈ defs) : ∃ g, LastFn defs g ∧ g.name = f.name := by
  induction defs with
  | nil => cases hf
  | cons a l ih =>
    by_cases hex : ∃ g ∈ l, g.name = f.name
    · have : ∀ (l : List (PyFunc T V)), (∃ g ∈ l, g.name = f.name) → ∃ g, LastFn l g ∧ g.name = f.name := by
        intro l
        induction l with
        | nil => rintro ⟨g, hg, _⟩; cases hg
        | cons a l ihl =>
          rintro ⟨g, hg, hn⟩
          by_cases hex : ∃ g ∈ l, g.name = f.name
          · obtain ⟨g', ⟨pre, post, rfl, hp⟩, hn'⟩ := ihl hex
            exact ⟨g', ⟨a :: pre, post, rfl, hp⟩, hn'⟩
          · rcases List.mem_cons.1 hg with rfl | hg
            · exact ⟨g, ⟨[], l, rfl, fun x hx hxn => hex ⟨x, hx, hxn.trans hn⟩⟩, hn⟩
            · exact absurd ⟨g, hg, hn⟩ hex
      obtain ⟨g, ⟨pre, post, rfl, hp⟩, hn⟩ := this l hex
      exact ⟨g, ⟨a :: pre, post, rfl, hp⟩, hn⟩
    · rcases List.mem_cons.1 hf with rfl | hf
      · exact ⟨f, ⟨[], l, rfl, fun g hg hn => hex ⟨g, hg, hn⟩⟩, rfl⟩
      · exact absurd ⟨f, hf, rfl⟩ hex

theorem LastFn.mem {defs : List (PyFunc T V)} {f : PyFunc T V} (h : LastFn defs f) : f ∈ defs := by
  obtain ⟨pre, post, rfl, _⟩ := h; simp

theorem fromModules_of {ops : HintOps T} {tm : T → T → Bool} {any : T} {config : Dict Name V} {allow : Bool}
    {defs : List (PyFunc T V)} (hnamed : ∀ f ∈ defs, (f.params.map (·.name)).Nodup) {ns : List (Node T V)} (hns : nodesOfFns ops defs = .ok ns) {g : Graph T V}
    (hg : createFunctionGraph tm any config allow ns = .ok g) : FromModules ops defs config g := by
  obtain ⟨h1, h2, h3⟩ := nodesOfFns_ok hns
  have hfresh : ∀ n ∈ ns, Fresh n := by
    intro n hn
    obtain ⟨f, hf, hfn⟩ := h1 n hn
    obtain ⟨_, hk, hd, hc, hi, _, _⟩ := fromFn_ok hfn
    exact ⟨by rw [(fnInputTypes_ok hi).1]; exact hnamed f hf, hd, hc, hk⟩
  obtain ⟨hw, hc, hd, hx, hu, _⟩ := createFunctionGraph_spec hfresh hg
  have hdef : ∀ f, LastFn defs f → f.name ∉ config.keys →
      ∃ n n0, g.get? f.name = some n ∧ n.kind ≠ .external ∧ fromFn ops f = .ok n0 ∧ n.inputTypes = n0.inputTypes ∧ n.fn = f.call ∧
        n.kind = n0.kind := by
    intro f hf hnc
    obtain ⟨n0, hn0, hl⟩ := h3 f hf
    obtain ⟨n, hn, hs⟩ := hd f.name n0 hnc hl
    obtain ⟨_, hk, _, _, _, hfn, _⟩ := fromFn_ok hn0
    exact ⟨n, n0, hn, by rw [hs.kind]; exact hk, hn0, hs.inputTypes, by rw [hs.fn]; exact hfn, hs.kind⟩
  refine ⟨hw, hc, hdef, ?_, ?_⟩
  · intro k n hn hk
    have hkc : k ∉ config.keys := by
      intro hkc
      obtain ⟨n', hn', he⟩ := hc k hkc
      rw [hn] at hn'; cases hn'; exact hk he
    cases hl : lastDef ns k with
    | none => exact absurd (hu k n hn hkc hl) hk
    | some n0 =>
      obtain ⟨f, hf, hfk, _⟩ := h2 k n0 hl
      exact ⟨f, hf, hfk, hkc⟩
  · intro k n hn he hkc f hf hfk
    obtain ⟨f', hf', hn'⟩ := LastFn.exists hf
    obtain ⟨m, _, hm, hme, _⟩ := hdef f' hf' (by rw [hn', hfk]; exact hkc)
    rw [hn', hfk, hn] at hm; cases hm; exact hme he

theorem FromModules.absent_iff {ops : HintOps T} {defs : List (PyFunc T V)} {config : Dict Name V} {g : Graph T V}
    (h : FromModules ops defs config g) {inputs overrides : Dict Name V} (hin : inputs.keys.Nodup)
    {k : Name} {n : Node T V} (hn : g.get? k = some n) :
    Absent g (config.merge inputs) overrides k ↔ NoValue defs config inputs overrides k := by
  constructor
  · rintro ⟨m, hm, he, hi, ho⟩
    rw [Dict.get?_merge _ _ hin] at hi
    have hi' : inputs.get? k = none ∧ config.get? k = none := by
      cases h1 : inputs.get? k with
      | some v => rw [h1] at hi; cases hi
      | none => rw [h1] at hi; exact ⟨rfl, hi⟩
    have hkc : k ∉ config.keys := (Dict.get?_eq_none_iff _ _).1 hi'.2
    exact ⟨ho, hkc, hi'.1, h.external k m hm he hkc⟩
  · rintro ⟨ho, hkc, hi, hd⟩
    have he : n.kind = .external := by
      by_cases he : n.kind = .external
      · exact he
      · obtain ⟨f, hf, hfk, _⟩ := h.function k n hn he
        exact absurd hfk (hd f hf.mem)
    refine ⟨n, hn, he, ?_, ho⟩
    rw [Dict.get?_merge _ _ hin, hi, (Dict.get?_eq_none_iff _ _).2 hkc]; rfl

/-- In a graph made from modules, functional composition along the graph is the value by the text of the program. -/
theorem FromModules.den_iff {ops : HintOps T} {defs : List (PyFunc T V)} {config : Dict Name V} {g : Graph T V}
    (h : FromModules ops defs config g) (hnamed : ∀ f ∈ defs, NamedParams f) {inputs overrides : Dict Name V} (hin : inputs.keys.Nodup)
    (hdisj : ∀ k ∈ inputs.keys, k ∉ config.keys) {k : Name} {n : Node T V} (hn : g.get? k = some n) (v : V) :
    Den g (config.merge inputs) overrides k v ↔ Computes defs config inputs overrides k v := by
  constructor
  · intro hd
    clear hn
    induction hd with
    | override h1 h2 => exact .override h2
    | @input k n v h1 h2 h3 h4 =>
      rw [Dict.get?_merge _ _ hin] at h4
      cases hi : inputs.get? k with
      | none => rw [hi] at h4; exact .config h2 h4
      | some w =>
        rw [hi] at h4; cases h4
        have hkc := hdisj k (Dict.mem_keys_iff.2 ⟨_, hi⟩)
        exact .input h2 hkc (h.external k n h1 h3 hkc) hi
    | @call k n v val h1 h2 h3 h4 h5 h6 ih =>
      obtain ⟨f, hf, rfl, hkc⟩ := h.function k n h1 h3
      obtain ⟨m, n0, hm, _, hn0, hit, hfn, _⟩ := h.defined f hf hkc
      rw [h1] at hm; cases hm
      obtain ⟨_, _, _, _, hi, _, _⟩ := fromFn_ok hn0
      rw [← hit] at hi
      obtain ⟨hkeys, hmem, _⟩ := fnInputTypes_ok hi
      have hnone : ∀ p ∈ f.params, val p.name = none → p.dflt.isSome = true ∧ NoValue defs config inputs overrides p.name := by
        intro p hp hv
        obtain ⟨t, _, ht⟩ := hmem p hp
        obtain ⟨ho, habs⟩ := h5 p.name _ ht hv
        refine ⟨?_, ?_⟩
        · unfold FnParam.dep at ho
          dsimp only at ho
          cases hd : p.dflt with
          | none => rw [hd] at ho; cases ho
          | some d => rfl
        · obtain ⟨dn, hdn⟩ := h.wf.deps_in h1 (show p.name ∈ n.inputTypes.keys by rw [hkeys]; exact List.mem_map_of_mem hp)
          exact (h.absent_iff hin hdn).1 habs
      obtain ⟨loc, hl1, hl2, hl3⟩ := call_named (hnamed f hf.mem) hi val (fun p hp hv => (hnone p hp hv).1)
      rw [hfn, hl3] at h6
      exact .call val loc h2 hkc hf
        (fun p hp w hw => ih p.name w (by rw [hkeys]; exact List.mem_map_of_mem hp) hw) hnone hl1 hl2 h6
  · intro hc
    induction hc generalizing n with
    | override h2 => exact .override hn h2
    | @config k v h2 h4 =>
      have hkc : k ∈ config.keys := Dict.mem_keys_iff.2 ⟨_, h4⟩
      obtain ⟨m, hm, he⟩ := h.config_in k hkc
      refine .input hm h2 he ?_
      have : inputs.get? k = none := by
        rw [Dict.get?_eq_none_iff]; exact fun hk => hdisj k hk hkc
      rw [Dict.get?_merge _ _ hin, this, h4]; rfl
    | @input k v h2 hkc hd h4 =>
      have he : n.kind = .external := by
        by_cases he : n.kind = .external
        · exact he
        · obtain ⟨f, hf, hfk, _⟩ := h.function k n hn he
          exact absurd hfk (hd f hf.mem)
      refine .input hn h2 he ?_
      rw [Dict.get?_merge _ _ hin, h4]; rfl
    | @call f v val loc h2 hkc hf h4 h5 h6 h7 h8 ih =>
      obtain ⟨m, n0, hm, hme, hn0, hit, hfn, _⟩ := h.defined f hf hkc
      obtain ⟨_, _, _, _, hi, _, _⟩ := fromFn_ok hn0
      rw [← hit] at hi
      obtain ⟨hkeys, hmem, hback⟩ := fnInputTypes_ok hi
      have hnode : ∀ d ∈ m.inputTypes.keys, ∃ dn, g.get? d = some dn := fun d hd => h.wf.deps_in hm hd
      refine .call val hm h2 hme ?_ ?_ ?_
      · intro d w hd hw
        obtain ⟨dn, hdn⟩ := hnode d hd
        rw [hkeys] at hd
        obtain ⟨p, hp, rfl⟩ := List.mem_map.1 hd
        exact ih p hp w hw hdn
      · intro d t hdt hv
        obtain ⟨p, hp, hpd, hdep⟩ := hback (d, t) hdt
        dsimp only at hpd hdep
        subst hpd
        obtain ⟨hs, hno⟩ := h5 p hp hv
        refine ⟨?_, ?_⟩
        · rw [← hdep]; unfold FnParam.dep
          cases hd : p.dflt with
          | none => rw [hd] at hs; cases hs
          | some d => rfl
        · obtain ⟨dn, hdn⟩ := hnode p.name (List.mem_map_of_mem (f := Prod.fst) hdt)
          exact (h.absent_iff hin hdn).2 hno
      · obtain ⟨loc', hl1, hl2, hl3⟩ := call_named (hnamed f hf.mem) hi val (fun p hp hv => (h5 p hp hv).1)
        have : loc' = loc := by
          funext x
          by_cases hx : ∃ p ∈ f.params, p.name = x
          · obtain ⟨p, hp, rfl⟩ := hx
            rw [hl1 p hp, h6 p hp]
          · have hx' : ∀ p ∈ f.params, p.name ≠ x := fun p hp he => hx ⟨p, hp, he⟩
            rw [hl2 x hx', h7 x hx']
        rw [hfn, hl3, this]; exact h8

theorem graphFromModules_ok {ops : HintOps T} {tm : T → T → Bool} {any : T} {config : Dict Name V} {allow : Bool}
    {mods : List (FnModule T V)} {fg : FnGraph T V} (h : graphFromModules ops tm any config allow mods = .ok fg) :
    ∃ ns, nodesOfFns ops (mods.flatMap FnModule.functions) = .ok ns ∧ createFunctionGraph tm any config allow ns = .ok fg.nodes ∧
      fg.config = config := by
  unfold graphFromModules at h
  cases h1 : nodesOfFns ops (mods.flatMap FnModule.functions) with
  | error e => rw [h1] at h; cases h
  | ok ns =>
    rw [h1] at h
    dsimp only at h
    cases h2 : createFunctionGraph tm any config allow ns with
    | error e => rw [h2] at h; cases h
    | ok g => rw [h2] at h; cases h; exact ⟨ns, rfl, h2, rfl⟩

theorem fnInputTypes_total {ps : List (FnParam T V)} :
    (∃ d, fnInputTypes ps = .ok d) ↔ ∀ p ∈ ps, p.hint.isSome = true := by
  induction ps with
  | nil => exact ⟨fun _ p hp => (by cases hp), fun _ => ⟨[], rfl⟩⟩
  | cons p ps ih =>
    constructor
    · rintro ⟨d, hd⟩ q hq
      obtain ⟨_, h, _⟩ := fnInputTypes_ok hd
      obtain ⟨t, ht, _⟩ := h q hq
      rw [ht]; rfl
    · intro h
      obtain ⟨d, hd⟩ := ih.2 (fun q hq => h q (List.mem_cons_of_mem _ hq))
      cases hh : p.hint with
      | none => have := h p List.mem_cons_self; rw [hh] at this; cases this
      | some t => exact ⟨_, by unfold fnInputTypes; rw [hh, hd]⟩

theorem fromFn_total {ops : HintOps T} {f : PyFunc T V} :
    (∃ n, fromFn ops f = .ok n) ↔ f.ret.isSome = true ∧ ∀ p ∈ f.params, p.hint.isSome = true := by
  rw [← fnInputTypes_total]
  constructor
  · rintro ⟨n, hn⟩
    obtain ⟨_, _, _, _, hi, _, hr⟩ := fromFn_ok hn
    exact ⟨by rw [hr]; rfl, _, hi⟩
  · rintro ⟨hr, d, hd⟩
    cases ht : f.ret with
    | none => rw [ht] at hr; cases hr
    | some t => exact ⟨_, by unfold fromFn; rw [ht, hd]⟩

theorem nodesOfFns_total {ops : HintOps T} {fs : List (PyFunc T V)} :
    (∃ ns, nodesOfFns ops fs = .ok ns) ↔ ∀ f ∈ fs, ∃ n, fromFn ops f = .ok n := by
  induction fs with
  | nil => exact ⟨fun _ f hf => (by cases hf), fun _ => ⟨[], rfl⟩⟩
  | cons f fs ih =>
    constructor
    · rintro ⟨ns, h⟩
      obtain ⟨n, ns', h1, h2, _⟩ := nodesOfFns_cons h
      intro g hg
      rcases List.mem_cons.1 hg with rfl | hg
      · exact ⟨n, h1⟩
      · exact ih.1 ⟨ns', h2⟩ g hg
    · intro h
      obtain ⟨n, hn⟩ := h f List.mem_cons_self
      obtain ⟨ns, hns⟩ := ih.2 (fun g hg => h g (List.mem_cons_of_mem _ hg))
      exact ⟨n :: ns, by unfold nodesOfFns; rw [hn, hns]⟩

/-! ### Theorems -/

/-- C77 (1): making the nodes fails if and only if a public function of the modules has a parameter without annotation, or no annotation
of its result. -/
theorem C77_annotations {ops : HintOps T} {tm : T → T → Bool} {any : T} {config : Dict Name V} {allow : Bool}
    {mods : List (FnModule T V)} (hcl : CleanImports mods) :
    (∃ e, graphFromModules ops tm any config allow mods = .error (.function e)) ↔
      ∃ f ∈ ownFns mods, f.ret = none ∨ ∃ p ∈ f.params, p.hint = none := by
  have hiff : (∃ e, graphFromModules ops tm any config allow mods = .error (.function e)) ↔
      ¬ ∃ ns, nodesOfFns ops (ownFns mods) = .ok ns := by
    unfold graphFromModules
    rw [flatMap_functions hcl]
    cases h1 : nodesOfFns ops (ownFns mods) with
    | error e => exact ⟨fun _ ⟨ns, h⟩ => (by cases h), fun _ => ⟨e, rfl⟩⟩
    | ok ns =>
      refine ⟨?_, fun h => absurd ⟨ns, rfl⟩ h⟩
      rintro ⟨e, h⟩
      dsimp only at h
      cases h2 : createFunctionGraph tm any config allow ns with
      | error e => rw [h2] at h; cases h
      | ok g => rw [h2] at h; cases h
  rw [hiff, nodesOfFns_total]
  constructor
  · intro h
    apply Classical.byContradiction
    intro hno
    apply h
    intro f hf
    rw [fromFn_total]
    constructor
    · cases hr : f.ret with
      | none => exact absurd ⟨f, hf, .inl hr⟩ hno
      | some t => rfl
    · intro p hp
      cases hh : p.hint with
      | none => exact absurd ⟨f, hf, .inr ⟨p, hp, hh⟩⟩ hno
      | some t => rfl
  · rintro ⟨f, hf, hbad⟩ h
    have := fromFn_total.1 (h f hf)
    rcases hbad with hr | ⟨p, hp, hh⟩
    · rw [hr] at this; cases this.1
    · have := this.2 p hp; rw [hh] at this; cases this

/-- C77 (2): the graph has a node for every public function of the modules that config does not shadow - for the last definition of a name -
with one dependency per parameter, in the order of the signature, required unless the parameter has a default; it collects if an annotation is
`Collect`, else it expands if the result is `Parallelizable`; all other nodes are inputs; an imported or private function is no node. -/
theorem C77_structure {ops : HintOps T} {tm : T → T → Bool} {any : T} {config : Dict Name V} {allow : Bool}
    {mods : List (FnModule T V)} (hcl : CleanImports mods) (hnamed : ∀ f ∈ ownFns mods, (f.params.map (·.name)).Nodup) {fg : FnGraph T V}
    (h : graphFromModules ops tm any config allow mods = .ok fg) :
    (∀ f, LastFn (ownFns mods) f → f.name ∉ config.keys → ∃ n, fg.nodes.get? f.name = some n ∧ n.kind ≠ .external ∧
      n.dependencies = f.params.map (·.name) ∧
      (n.kind = .collect ↔ ∃ t, ops.collect t = true ∧ (f.ret = some t ∨ ∃ p ∈ f.params, p.hint = some t)) ∧
      (n.kind = .expand ↔ (∃ t, f.ret = some t ∧ ops.parallelizable t = true) ∧
        ∀ t, (f.ret = some t ∨ ∃ p ∈ f.params, p.hint = some t) → ops.collect t = false) ∧
      ∀ p ∈ f.params, ∃ t, p.hint = some t ∧
        Dict.get? n.inputTypes p.name = some (t, if p.dflt = none then .required else .optional)) ∧
    (∀ k n, fg.nodes.get? k = some n → n.kind ≠ .external → k ∉ config.keys ∧ ∃ f, LastFn (ownFns mods) f ∧ f.name = k) := by
  obtain ⟨ns, h1, h2, h3⟩ := graphFromModules_ok h
  rw [flatMap_functions hcl] at h1
  have hfm := fromModules_of hnamed h1 h2
  refine ⟨fun f hf hkc => ?_, fun k n hn hk => ?_⟩
  · obtain ⟨n, n0, hn, hk, hn0, hit, _, hkind⟩ := hfm.defined f hf hkc
    obtain ⟨_, _, _, _, hi, _, _⟩ := fromFn_ok hn0
    rw [← hit] at hi
    obtain ⟨hkeys, hmem, _⟩ := fnInputTypes_ok hi
    obtain ⟨k1, k2⟩ := fromFn_kind hn0
    refine ⟨n, hn, hk, by rw [hfm.wf.deps_eq hn, hkeys], by rw [hkind]; exact k1, by rw [hkind]; exact k2, fun p hp => ?_⟩
    obtain ⟨t, ht, hm⟩ := hmem p hp
    refine ⟨t, ht, ?_⟩
    rw [Dict.get?_of_mem (hfm.wf.params_nodup hn) hm]
    unfold FnParam.dep
    cases hd : p.dflt with
    | none => rfl
    | some d => rfl
  · obtain ⟨f, hf, hfk, hkc⟩ := hfm.function k n hn hk
    exact ⟨hkc, f, hf, hfk⟩

/-- C77 (3), in part: if `execute` returns, every requested name of a function has the value it has by the text of the program.
Missing: functions with positional-only or variable parameters (`C77_violated_positional`, `C77_violated_kwargs`) and imports from modules
whose name contains the name of the importing module (C45). -/
theorem C77_program_partial {o : TypeOracle T V} {ops : HintOps T} {tm : T → T → Bool} {any : T} {config : Dict Name V} {allow : Bool}
    {mods : List (FnModule T V)} (hcl : CleanImports mods) (hnamed : ∀ f ∈ ownFns mods, NamedParams f) {fg : FnGraph T V}
    (h : graphFromModules ops tm any config allow mods = .ok fg)
    {finalVars : List Name} {inputs overrides : Option (Dict Name V)} (hin : (inputs.getD []).keys.Nodup)
    {out : Dict Name (Option V)} (hex : driverExecute o fg finalVars inputs overrides = .ok out)
    {f : PyFunc T V} (hf : f ∈ ownFns mods) (hreq : f.name ∈ finalVars) :
    (∃ v, out.get? f.name = some (some v) ∧ Computes (ownFns mods) config (inputs.getD []) (overrides.getD []) f.name v) := by
  obtain ⟨ns, h1, h2, h3⟩ := graphFromModules_ok h
  rw [flatMap_functions hcl] at h1
  have hfm := fromModules_of (fun f hf => (hnamed f hf).2) h1 h2
  have hdg : DriverGraph fg := ⟨hfm.wf, by rw [h3]; exact hfm.config_in⟩
  have hdisj : ∀ k ∈ (inputs.getD []).keys, k ∉ config.keys := by
    have := (C15_config_input_clash (o := o) (fg := fg) (finalVars := finalVars) (inputs := inputs) (overrides := overrides)).2.2 out hex
    intro k hk; rw [h3] at this; exact this k hk
  have hnode : ∃ n, fg.nodes.get? f.name = some n := by
    by_cases hkc : f.name ∈ config.keys
    · exact (hfm.config_in _ hkc).imp (fun _ h => h.1)
    · obtain ⟨g, hg, hgn⟩ := LastFn.exists hf
      obtain ⟨n, _, hn, _⟩ := hfm.defined g hg (by rw [hgn]; exact hkc)
      exact ⟨n, by rw [← hgn]; exact hn⟩
  obtain ⟨n, hn⟩ := hnode
  rcases (C01_execute_sound hdg hin hex).2.1 f.name hreq n hn with ⟨v, hv, hd⟩ | ⟨_, ha⟩
  · refine ⟨v, hv, ?_⟩
    unfold FnGraph.given at hd
    rw [h3] at hd
    exact (hfm.den_iff hnamed hin hdisj hn v).1 hd
  · unfold FnGraph.given at ha
    rw [h3] at ha
    exact absurd rfl (((hfm.absent_iff hin hn).1 ha).2.2.2 f hf)

/-- C77 (4), in part: if all requested functions have a value by the text of the program, the execution returns them (limits as in (3); the
checks of the types of inputs come before and are not part of this). -/
theorem C77_complete_partial {ops : HintOps T} {tm : T → T → Bool} {any : T} {config : Dict Name V} {allow : Bool}
    {mods : List (FnModule T V)} (hcl : CleanImports mods) (hnamed : ∀ f ∈ ownFns mods, NamedParams f) {fg : FnGraph T V}
    (h : graphFromModules ops tm any config allow mods = .ok fg)
    {finalVars : List Name} {inputs overrides : Dict Name V} (hin : inputs.keys.Nodup) (hdisj : ∀ k ∈ inputs.keys, k ∉ config.keys)
    (hall : ∀ k ∈ finalVars, ∃ v, Computes (ownFns mods) config inputs overrides k v) :
    ∃ out, defaultExecutorExecute fg finalVars overrides inputs = .ok out ∧
      ∀ k ∈ finalVars, ∀ n, fg.nodes.get? k = some n → ∀ v, Computes (ownFns mods) config inputs overrides k v →
        out.get? k = some (some v) := by
  obtain ⟨ns, h1, h2, h3⟩ := graphFromModules_ok h
  rw [flatMap_functions hcl] at h1
  have hfm := fromModules_of (fun f hf => (hnamed f hf).2) h1 h2
  have hdg : DriverGraph fg := ⟨hfm.wf, by rw [h3]; exact hfm.config_in⟩
  obtain ⟨out, ho, hv⟩ := C04_execute_complete hdg (finalVars := finalVars) (inputs := inputs) (overrides := overrides)
    (by rw [h3]; exact hdisj) (fun k hk n hn => .inl (by
      obtain ⟨v, hv⟩ := hall k hk
      refine ⟨v, ?_⟩
      rw [h3]
      exact (hfm.den_iff hnamed hin hdisj hn v).2 hv))
  refine ⟨out, ho, fun k hk n hn v hc => hv k hk v ?_⟩
  rw [h3]
  exact (hfm.den_iff hnamed hin hdisj hn v).2 hc

/-! ### Cases -/
namespace FromFnSample

/-- Annotations: 0 is a plain type, 1 `Parallelizable[...]`, 2 `Collect[...]`. -/
def ops : HintOps Nat := ⟨fun t => t == 1, fun t => t == 2⟩

def param (n : Name) (k : ParamKind) (d : Option Int) : FnParam Nat Int := ⟨⟨n, k, d⟩, some 0⟩

/-- The value of a local variable that is a number. -/
def num (loc : Name → Option (Local Int)) (x : Name) : Int :=
  match loc x with
  | some (.val v) => v
  | _ => 0

/-- `def spend(base: int, *, tax: int = 19) -> int: return base + tax` -/
def spend : PyFunc Nat Int :=
  ⟨"spend", "marketing", [param "base" .named none, param "tax" .named (some 19)], some 0, fun l => .ok (num l "base" + num l "tax")⟩

/-- `def twice(spend: int) -> int: return 2 * spend` -/
def twice : PyFunc Nat Int := ⟨"twice", "marketing", [param "spend" .named none], some 0, fun l => .ok (2 * num l "spend")⟩

/-- An imported function. -/
def imported : PyFunc Nat Int := ⟨"mean", "numpy", [], none, fun _ => .ok 0⟩

/-- A private helper. -/
def helper : PyFunc Nat Int := ⟨"_round", "marketing", [⟨⟨"x", .named, none⟩, none⟩], none, fun _ => .ok 0⟩

def mods : List (FnModule Nat Int) := [⟨"marketing", [("_round", helper), ("mean", imported), ("spend", spend), ("twice", twice)]⟩]

def tm : Nat → Nat → Bool := fun a b => a == b
def oracle : TypeOracle Nat Int := ⟨fun _ => false, fun _ _ => true⟩

def run (ms : List (FnModule Nat Int)) (final : List Name) (inputs : Dict Name Int) : Option (Dict Name (Option Int)) :=
  match graphFromModules ops tm 0 [] false ms with
  | .error _ => none
  | .ok fg => (driverExecute oracle fg final (some inputs) none).toOption

theorem clean : CleanImports mods := by
  intro m hm p hp
  simp only [mods, List.mem_cons, List.not_mem_nil, or_false] at hm
  subst hm
  simp only [List.mem_cons, List.not_mem_nil, or_false] at hp
  rcases hp with rfl | rfl | rfl | rfl
  · exact .inl rfl
  · refine .inr ?_
    rintro ⟨a, b, h⟩
    have := congrArg List.length h
    simp [imported] at this
    omega
  · exact .inl rfl
  · exact .inl rfl

theorem own : ownFns mods = [spend, twice] := rfl

theorem named : ∀ f ∈ ownFns mods, NamedParams f := by
  rw [own]
  intro f hf
  simp only [List.mem_cons, List.not_mem_nil, or_false] at hf
  rcases hf with rfl | rfl
  · exact ⟨by simp [spend, param], by decide⟩
  · exact ⟨by simp [twice, param], by decide⟩

/-- The graph is built, and the run uses the default of `tax` or the value given for it. -/
example : (graphFromModules ops tm 0 [] false mods).isOk = true ∧ run mods ["twice"] [("base", 1)] = some [("twice", some 40)] ∧
    run mods ["twice"] [("base", 1), ("tax", 2)] = some [("twice", some 6)] := by decide +kernel

/-- The value of `twice` by the text of the program. -/
example : Computes (ownFns mods) [] [("base", 1)] [] "twice" 40 := by
  refine .call (f := twice) (fun x => if x = "spend" then some 20 else none) (fun x => if x = "spend" then some 20 else none)
    rfl (by decide) ⟨[spend], [], rfl, by simp⟩ ?_ ?_ ?_ ?_ rfl
  · intro p hp w hw
    simp only [twice, List.mem_cons, List.not_mem_nil, or_false] at hp
    subst hp
    have : w = 20 := by simpa [param] using hw.symm
    subst this
    refine .call (f := spend) (fun x => if x = "base" then some 1 else none)
      (fun x => if x = "base" then some 1 else if x = "tax" then some 19 else none)
      rfl (by decide) ⟨[], [twice], rfl, by simp [twice, spend]⟩ ?_ ?_ ?_ ?_ rfl
    · intro q hq w hw
      simp only [spend, List.mem_cons, List.not_mem_nil, or_false] at hq
      rcases hq with rfl | rfl
      · have : w = 1 := by simpa [param] using hw.symm
        subst this
        exact .input rfl (by decide) (by rw [own]; simp [twice, spend, param]) rfl
      · simp [param] at hw
    · intro q hq hv
      simp only [spend, List.mem_cons, List.not_mem_nil, or_false] at hq
      rcases hq with rfl | rfl
      · simp [param] at hv
      · exact ⟨rfl, rfl, by decide, rfl, by rw [own]; simp [twice, spend, param]⟩
    · intro q hq
      simp only [spend, List.mem_cons, List.not_mem_nil, or_false] at hq
      rcases hq with rfl | rfl <;> rfl
    · intro x hx
      have h1 : x ≠ "base" := fun h => hx (param "base" .named none) (by simp [spend]) h.symm
      have h2 : x ≠ "tax" := fun h => hx (param "tax" .named (some 19)) (by simp [spend]) h.symm
      simp [h1, h2]
  · intro p hp hv
    simp only [twice, List.mem_cons, List.not_mem_nil, or_false] at hp
    subst hp
    simp [param] at hv
  · intro p hp
    simp only [twice, List.mem_cons, List.not_mem_nil, or_false] at hp
    subst hp; rfl
  · intro x hx
    have h1 : x ≠ "spend" := fun h => hx (param "spend" .named none) (by simp [twice]) h.symm
    simp [h1]

/-- A parameter without annotation: no driver. -/
example : ∃ e, graphFromModules ops tm 0 [] false [⟨"m", [("f", (⟨"f", "m", [⟨⟨"x", .named, none⟩, none⟩], some 0, fun _ => .ok (0 : Int)⟩ : PyFunc Nat Int))]⟩] = .error (.function e) :=
  ⟨_, rfl⟩

/-- `def spend(base: int, /) -> int: return base + 1` -/
def positional : PyFunc Nat Int := ⟨"spend", "marketing", [param "base" .posOnly none], some 0, fun l => .ok (num l "base" + 1)⟩

/-- C77 (3) is false for positional-only parameters: the driver is built, the input is given, and the call raises a `TypeError`. -/
theorem C77_violated_positional :
    (graphFromModules ops tm 0 [] false [⟨"marketing", [("spend", positional)]⟩]).isOk = true ∧
    run [⟨"marketing", [("spend", positional)]⟩] ["spend"] [("base", 5)] = none ∧
    positional.call [("base", 5)] = .error "TypeError: missing required argument" := ⟨by decide +kernel, by decide +kernel, rfl⟩

/-- `def total(**amounts: int) -> int: return amounts.get("amounts", 0) + 100 * len(amounts)` -/
def keywords : PyFunc Nat Int := ⟨"total", "marketing", [param "amounts" .varKw none], some 0, fun l => match l "amounts" with
  | some (.kwargs kw) => .ok ((Dict.get? kw "amounts").getD 0 + 100 * kw.length)
  | _ => .error "no dict"⟩

/-- C77 (3) is false for `**kwargs`: the function depends on one node with the name of the parameter, whose value arrives under that name
inside of the dictionary. -/
theorem C77_violated_kwargs :
    run [⟨"marketing", [("total", keywords)]⟩] ["total"] [("amounts", 7)] = some [("total", some 107)] := by decide +kernel

/-- C77 (2) needs functions to be members once: a second name for a function of the module (`cost = spend`) prevents the driver from being
built, because the function is found twice. -/
theorem C77_violated_alias :
    graphFromModules ops tm 0 [] false [⟨"marketing", [("cost", spend), ("spend", spend)]⟩] = .error (.build (.duplicate "spend")) := rfl

end FromFnSample
end Verif
