import Verif.Model.Subdag
import Verif.Props.Decorators

/-!
Property C40: a `@subdag` is a faithful and isolated copy of a separate driver.
-/
namespace Verif
variable {T V : Type}

/-! ### Renamed nodes -/

theorem kwargMapping_eq {f : Name → Name} : ∀ (keys : List Name) (acc : Dict Name Name),
    (acc.keys ++ keys.map f).Nodup →
    keys.foldl (fun d key => Dict.set d (f key) key) acc = acc ++ keys.map (fun k => (f k, k)) := by
  have hset : ∀ (d : Dict Name Name) (k : Name) (w : Name), k ∉ d.keys → Dict.set d k w = d ++ [(k, w)] := by
    intro d k w hk
    induction d with
    | nil => rfl
    | cons p t ih =>
      obtain ⟨a, b⟩ := p
      simp only [Dict.keys, List.map_cons, List.mem_cons, not_or] at hk
      simp only [Dict.set, if_neg (Ne.symm hk.1), List.cons_append]
      rw [ih hk.2]
  intro keys
  induction keys with
  | nil => intro acc _; simp
  | cons m ms ih =>
    intro acc h
    rw [List.foldl_cons, hset acc (f m) m ?_, ih]
    · simp
    · have : Dict.keys (acc ++ [(f m, m)]) = acc.keys ++ [f m] := by simp [Dict.keys]
      rw [this]; simpa using h
    · intro hm
      rw [List.nodup_append] at h
      exact h.2.2 (f m) hm (f m) (by simp) rfl

theorem nodup_map_on {A B : Type} {f : A → B} : ∀ {l : List A}, l.Nodup → (∀ a ∈ l, ∀ b ∈ l, f a = f b → a = b) →
    (l.map f).Nodup := by
  intro l
  induction l with
  | nil => intro _ _; simp
  | cons a l ih =>
    intro hn hinj
    rw [List.nodup_cons] at hn
    rw [List.map_cons, List.nodup_cons]
    refine ⟨?_, ih hn.2 (fun x hx y hy => hinj x (by simp [hx]) y (by simp [hy]))⟩
    intro hm
    obtain ⟨b, hb, he⟩ := List.mem_map.1 hm
    have := hinj a (by simp) b (by simp [hb]) he.symm
    subst this
    exact hn.1 hb

/-- Renaming by a map that keeps the parameters apart. -/
structure KeepsApart (f : Name → Name) (n : Node T V) : Prop where
  params : n.inputTypes.keys.Nodup
  images : (n.inputTypes.keys.map f).Nodup

theorem KeepsApart.mapping {f : Name → Name} {n : Node T V} (h : KeepsApart f n) :
    kwargMapping f n.inputTypes.keys = n.inputTypes.keys.map (fun k => (f k, k)) := by
  unfold kwargMapping
  rw [kwargMapping_eq _ _ (by simpa [Dict.keys] using h.images)]
  rfl

theorem KeepsApart.inputTypes {f : Name → Name} {n : Node T V} (h : KeepsApart f n) (name : Name) :
    (renameNode f name n).inputTypes = n.inputTypes.map (fun p => (f p.1, p.2)) := by
  simp only [renameNode]
  rw [h.mapping]
  have : ∀ (l : Dict Name (T × DepType)), (∀ p ∈ l, n.inputTypes.get? p.1 = some p.2) →
      (l.keys.map (fun k => (f k, k))).filterMap (fun p => (n.inputTypes.get? p.2).map (fun t => (p.1, t))) =
        l.map (fun p => (f p.1, p.2)) := by
    intro l
    induction l with
    | nil => intro _; rfl
    | cons p l ih =>
      intro hl
      have h1 := ih (fun q hq => hl q (by simp [hq]))
      have h2 := hl p (by simp)
      rw [Dict.keys_cons, List.map_cons, List.filterMap_cons]
      simp only [h2, Option.map_some, List.map_cons]
      rw [h1]
  exact this _ (fun p hp => Dict.get?_of_mem h.params hp)

theorem translate_argsFor {f : Name → Name} {mapping : Dict Name Name} (val : Name → Option V) :
    ∀ (l : Dict Name (T × DepType)), (∀ p ∈ l, mapping.get? (f p.1) = some p.1) →
      translateKwargs mapping (argsFor (l.map (fun p => (f p.1, p.2))) val) = .ok (argsFor l (fun d => val (f d))) := by
  intro l
  induction l with
  | nil => intro _; rfl
  | cons p l ih =>
    intro hl
    have h1 := ih (fun q hq => hl q (by simp [hq]))
    have h2 := hl p (by simp)
    unfold argsFor at h1 ⊢
    rw [List.map_cons, List.filterMap_cons, List.filterMap_cons]
    dsimp only
    cases hv : val (f p.1) with
    | none => simpa [hv] using h1
    | some v =>
      simp only [Option.map_some, translateKwargs, h2, h1]

theorem KeepsApart.get {f : Name → Name} {n : Node T V} (h : KeepsApart f n) :
    ∀ p ∈ n.inputTypes, (kwargMapping f n.inputTypes.keys).get? (f p.1) = some p.1 := by
  intro p hp
  rw [h.mapping]
  refine Dict.get?_of_mem ?_ (List.mem_map.2 ⟨p.1, List.mem_map.2 ⟨p, hp, rfl⟩, rfl⟩)
  have : Dict.keys (n.inputTypes.keys.map (fun k => (f k, k))) = n.inputTypes.keys.map f := by
    simp [Dict.keys]
  rw [this]; exact h.images

/-- What a renamed node computes: the original function on the values of the renamed parameters. -/
theorem renamed_value {g : Graph T V} {inputs overrides : Dict Name V} {f : Name → Name} {n : Node T V} (h : KeepsApart f n)
    (name : Name) (v : V) :
    FnValue g inputs overrides (renameNode f name n) v ↔
      ∃ val : Name → Option V,
        (∀ d w, d ∈ n.inputTypes.keys → val d = some w → Den g inputs overrides (f d) w) ∧
        (∀ d t, (d, t) ∈ n.inputTypes → val d = none → t.2 = .optional ∧ Absent g inputs overrides (f d)) ∧
        n.fn (argsFor n.inputTypes val) = .ok v := by
  have hmap := h.get
  have hfn : ∀ val : Name → Option V, (renameNode f name n).fn (argsFor (renameNode f name n).inputTypes val) =
      n.fn (argsFor n.inputTypes (fun d => val (f d))) := by
    intro val
    rw [h.inputTypes]
    simp only [renameNode]
    rw [translate_argsFor val _ hmap]
  constructor
  · rintro ⟨kw, ⟨val, h1, h2, rfl⟩, h3⟩
    rw [hfn] at h3
    rw [h.inputTypes] at h1 h2
    refine ⟨fun d => val (f d), ?_, ?_, h3⟩
    · intro d w hd hv
      refine h1 (f d) w ?_ hv
      obtain ⟨p, hp, rfl⟩ := List.mem_map.1 hd
      exact List.mem_map.2 ⟨(f p.1, p.2), List.mem_map.2 ⟨p, hp, rfl⟩, rfl⟩
    · intro d t hd hv
      exact h2 (f d) t (List.mem_map.2 ⟨(d, t), hd, rfl⟩) hv
  · rintro ⟨val, h1, h2, h3⟩
    let val' : Name → Option V := fun x => ((kwargMapping f n.inputTypes.keys).get? x).bind val
    have hval : ∀ p ∈ n.inputTypes, val' (f p.1) = val p.1 := by
      intro p hp
      simp only [val', hmap p hp, Option.bind_some]
    refine ⟨_, ⟨val', ?_, ?_, rfl⟩, ?_⟩
    · rw [h.inputTypes]
      intro d w hd hv
      obtain ⟨q, hq, rfl⟩ := List.mem_map.1 hd
      obtain ⟨p, hp, rfl⟩ := List.mem_map.1 hq
      rw [show ((f p.1, p.2) : Name × (T × DepType)).1 = f p.1 from rfl, hval p hp] at hv
      exact h1 p.1 w (List.mem_map.2 ⟨p, hp, rfl⟩) hv
    · rw [h.inputTypes]
      intro d t hd hv
      obtain ⟨p, hp, he⟩ := List.mem_map.1 hd
      cases he
      rw [hval p hp] at hv
      exact h2 p.1 p.2 hp hv
    · rw [hfn]
      have : argsFor n.inputTypes (fun d => val' (f d)) = argsFor n.inputTypes val := by
        apply argsFor_congr
        intro d hd
        obtain ⟨p, hp, rfl⟩ := List.mem_map.1 hd
        exact hval p hp
      rw [this]; exact h3

theorem assignNamespace_inj {a b ns : Name} (h : assignNamespace a ns = assignNamespace b ns) : a = b := by
  unfold assignNamespace at h
  exact (String.append_right_inj _).1 h

theorem newNameMap_get (nodes : List (Node T V)) (s : SubdagSpec V) (k : Name) :
    (newNameMap nodes s).get? k =
      if k ∈ nodes.map (·.name) ∨ k ∈ s.inputs.keys ∨ k ∈ s.config.keys then some (assignNamespace k s.namespaceName) else none := by
  have : ∀ (l : List Name) (acc : Dict Name Name),
      (l.foldl (fun d k => Dict.set d k (assignNamespace k s.namespaceName)) acc).get? k =
        if k ∈ l then some (assignNamespace k s.namespaceName) else acc.get? k := by
    intro l
    induction l with
    | nil => intro acc; simp
    | cons a l ih =>
      intro acc
      rw [List.foldl_cons, ih, Dict.get?_set]
      by_cases h1 : k ∈ l
      · simp [h1]
      · by_cases h2 : a = k
        · simp [h2]
        · simp [h1, h2, Ne.symm h2]
  unfold newNameMap
  rw [this]
  simp only [List.mem_append, or_assoc, Dict.get?_nil]

/-! ### Specification -/

/-- The names that live in the namespace: the functions of the subdag, its inputs and its configuration. -/
def Inside (nodes : List (Node T V)) (s : SubdagSpec V) (k : Name) : Prop :=
  k ∈ nodes.map (·.name) ∨ k ∈ s.inputs.keys ∨ k ∈ s.config.keys

/-- What the surrounding graph supplies for an input of the functions: the literal or the value of the source it is mapped
to, the configured value, or the value of the node of the same name. -/
inductive Supplied (g : Graph T V) (inputs overrides : Dict Name V) (s : SubdagSpec V) (p : Name) : V → Prop
  | literal {v} : s.inputs.get? p = some (.value v) → Supplied g inputs overrides s p v
  | source {src v} : s.inputs.get? p = some (.source src) → Den g inputs overrides src v → Supplied g inputs overrides s p v
  | config {v} : s.config.get? p = some v → Supplied g inputs overrides s p v
  | outer {v} : p ∉ s.inputs.keys → p ∉ s.config.keys → Den g inputs overrides p v → Supplied g inputs overrides s p v

/-- `given` are the inputs for a separate driver with graph `h`: each of its inputs gets what the surrounding graph supplies,
or is an input that is not supplied there either. -/
def MappedInputs (g h : Graph T V) (inputs overrides : Dict Name V) (s : SubdagSpec V) (given : Dict Name V) : Prop :=
  ∀ p n, h.get? p = some n → n.kind = .external →
    (∃ v, given.get? p = some v ∧ Supplied g inputs overrides s p v) ∨
    (given.get? p = none ∧ p ∉ s.inputs.keys ∧ p ∉ s.config.keys ∧ Absent g inputs overrides p)

section
variable {tm : T → T → Bool} {any : T} {typeOf : V → T} {g h : Graph T V} {inputs overrides given : Dict Name V}
  {nodes : List (Node T V)} {s : SubdagSpec V} {fn : Node T V}

theorem not_inside {k : Name} (h1 : k ∉ nodes.map (·.name)) (h2 : k ∉ s.inputs.keys) (h3 : k ∉ s.config.keys) :
    ¬ Inside nodes s k := by
  rintro (h | h | h)
  · exact h1 h
  · exact h2 h
  · exact h3 h

/-- The renaming of the subdag. -/
def inNamespace (nodes : List (Node T V)) (s : SubdagSpec V) (key : Name) : Name :=
  ((newNameMap nodes s).get? key).getD key

theorem inNamespace_inside {k : Name} (hk : Inside nodes s k) : inNamespace nodes s k = assignNamespace k s.namespaceName := by
  unfold inNamespace
  unfold Inside at hk
  rw [newNameMap_get, if_pos hk]
  rfl

theorem inNamespace_outside {k : Name} (hk : ¬ Inside nodes s k) : inNamespace nodes s k = k := by
  unfold inNamespace
  unfold Inside at hk
  rw [newNameMap_get, if_neg hk]
  rfl

/-- No function of the subdag refers to a name of the namespace from outside. -/
def NoEscape (nodes : List (Node T V)) (s : SubdagSpec V) : Prop :=
  ∀ n ∈ nodes, ∀ p ∈ n.inputTypes.keys, ¬ Inside nodes s p → ∀ q, p ≠ assignNamespace q s.namespaceName

theorem keepsApart (hf : ∀ n ∈ nodes, Fresh n) (hesc : NoEscape nodes s) {n : Node T V} (hn : n ∈ nodes) :
    KeepsApart (inNamespace nodes s) n := by
  refine ⟨(hf n hn).params_nodup, ?_⟩
  have hinj : ∀ a ∈ n.inputTypes.keys, ∀ b ∈ n.inputTypes.keys, inNamespace nodes s a = inNamespace nodes s b → a = b := by
    intro a ha b hb he
    by_cases h1 : Inside nodes s a <;> by_cases h2 : Inside nodes s b
    · rw [inNamespace_inside h1, inNamespace_inside h2] at he
      exact assignNamespace_inj he
    · rw [inNamespace_inside h1, inNamespace_outside h2] at he
      exact absurd he.symm (hesc n hn b hb h2 a)
    · rw [inNamespace_outside h1, inNamespace_inside h2] at he
      exact absurd he (hesc n hn a ha h1 b)
    · rw [inNamespace_outside h1, inNamespace_outside h2] at he
      exact he
  exact nodup_map_on (hf n hn).params_nodup hinj

theorem addNamespace_eq : addNamespace nodes s =
    nodes.map (fun n => renameNode (inNamespace nodes s) (assignNamespace n.name s.namespaceName) n) := rfl

theorem knownTypes_has : ∀ (l : List (Node T V)) {n : Node T V} {p : Name}, n ∈ l → p ∈ n.inputTypes.keys →
    ∃ t, (knownTypes l).get? p = some t := by
  intro l n p hn hp
  have h1 : ∀ (q : Dict Name (T × DepType)) (acc : Dict Name T) (k : Name), k ∈ acc.keys ∨ k ∈ q.keys →
      k ∈ (q.foldl (fun d p => Dict.set d p.1 p.2.1) acc).keys := by
    intro q
    induction q with
    | nil => intro acc k hk; simpa [Dict.keys] using hk
    | cons a q ih =>
      intro acc k hk
      rw [List.foldl_cons]
      apply ih
      rw [Dict.mem_keys_set]
      rw [Dict.keys_cons, List.mem_cons] at hk
      grind
  have h2 : ∀ (l : List (Node T V)) (acc : Dict Name T), (p ∈ acc.keys ∨ ∃ n ∈ l, p ∈ n.inputTypes.keys) →
      p ∈ (l.foldl (fun d n => n.inputTypes.foldl (fun d p => Dict.set d p.1 p.2.1) d) acc).keys := by
    intro l
    induction l with
    | nil => intro acc hk; simpa using hk
    | cons a l ih =>
      intro acc hk
      rw [List.foldl_cons]
      apply ih
      rcases hk with hk | ⟨m, hm, hk⟩
      · exact .inl (h1 _ _ _ (.inl hk))
      · rcases List.mem_cons.1 hm with rfl | hm
        · exact .inl (h1 _ _ _ (.inr hk))
        · exact .inr ⟨m, hm, hk⟩
  exact Dict.mem_keys_iff.1 (h2 l [] (.inr ⟨n, hn, hp⟩))

/-- A node without parameters. -/
theorem staticNode_den {typ : T} {name : Name} {x : V} (hd : Defines g (staticNode typ name x)) (ho : overrides.get? name = none)
    (v : V) : Den g inputs overrides name v ↔ v = x := by
  rw [show name = (staticNode typ name x).name from rfl, den_iff_fnValue hd (by simp [staticNode]) ho]
  constructor
  · rintro ⟨kw, _, hv⟩; cases hv; rfl
  · rintro rfl
    exact ⟨[], ⟨fun _ => none, by simp [staticNode, Dict.keys], by simp [staticNode], rfl⟩, rfl⟩

theorem identityNode_den {typ : T} {name src : Name} (hd : Defines g (identityNode src typ name))
    (ho : overrides.get? name = none) (v : V) : Den g inputs overrides name v ↔ Den g inputs overrides src v := by
  rw [show name = (identityNode (V := V) src typ name).name from rfl, den_iff_fnValue hd (by simp [identityNode]) ho]
  constructor
  · rintro ⟨kw, ha, hv⟩
    obtain ⟨w, hw, rfl⟩ := (rightArgs_single (n := identityNode src typ name) rfl kw).1 ha
    cases hv; exact hw
  · intro hv
    exact ⟨[(src, v)], (rightArgs_single (n := identityNode src typ name) rfl _).2 ⟨v, hv, rfl⟩, rfl⟩

/-- What the separate driver's graph looks like. -/
theorem sep_facts (hf : ∀ n ∈ nodes, Fresh n) (hb : createFunctionGraph tm any s.config false nodes = .ok h)
    (hdisj : ∀ n ∈ nodes, n.name ∉ s.config.keys) :
    (∀ n ∈ nodes, Defines h n) ∧
    (∀ k m, h.get? k = some m → m.kind ≠ .external → ∃ n ∈ nodes, n.name = k ∧ SameFn n m) ∧
    (∀ k m, h.get? k = some m → m.kind = .external →
      k ∉ nodes.map (·.name) ∧ (k ∈ s.config.keys ∨ ∃ n ∈ nodes, k ∈ n.inputTypes.keys)) ∧
    (∀ n ∈ nodes, ∀ p ∈ n.inputTypes.keys, ∃ m, h.get? p = some m) := by
  obtain ⟨hw, _, h3, h4, h5, _⟩ := createFunctionGraph_spec hf hb
  have hdef : ∀ n ∈ nodes, Defines h n := fun n hn => build_defines hf hb hn (hdisj n hn)
  have hfun : ∀ k m, h.get? k = some m → m.kind ≠ .external → ∃ n ∈ nodes, n.name = k ∧ SameFn n m := by
    intro k m hk hm
    by_cases hc : k ∈ s.config.keys
    · obtain ⟨n, hn, hn'⟩ := (createFunctionGraph_spec hf hb).2.1 k hc
      rw [hk] at hn; cases hn
      exact absurd hn' hm
    · cases hl : lastDef nodes k with
      | none => exact absurd (h5 k m hk hc hl) hm
      | some n0 =>
        obtain ⟨m', hm', hs⟩ := h3 k n0 hc hl
        rw [hk] at hm'; cases hm'
        obtain ⟨e1, e2⟩ := lastDef_name hl
        exact ⟨n0, e2, e1, hs⟩
  refine ⟨hdef, hfun, ?_, ?_⟩
  · intro k m hk he
    refine ⟨?_, ?_⟩
    · intro hm
      obtain ⟨n, hn, rfl⟩ := List.mem_map.1 hm
      obtain ⟨m', hm', hs⟩ := hdef n hn
      rw [hk] at hm'; cases hm'
      rw [hs.kind] at he
      exact (hf n hn).kind he
    · rcases h4 k m hk he with hc | ⟨f, fm, hfm, hp⟩
      · exact .inl hc
      · have hke : fm.kind ≠ .external := by
          intro hx
          rw [hw.external_no_params hfm hx] at hp
          simp [Dict.keys] at hp
        obtain ⟨n, hn, _, hs⟩ := hfun f fm hfm hke
        rw [hs.inputTypes] at hp
        exact .inr ⟨n, hn, hp⟩
  · intro n hn p hp
    obtain ⟨m, hm, hs⟩ := hdef n hn
    rw [← hs.inputTypes] at hp
    exact hw.deps_in hm hp

/-- An input of the separate driver, seen from the surrounding graph. -/
theorem supplied_iff (hf : ∀ n ∈ nodes, Fresh n) (hesc : NoEscape nodes s)
    (hdef : ∀ m ∈ subdagNodes typeOf nodes s fn, Defines g m)
    (hov : ∀ m ∈ subdagNodes typeOf nodes s fn, overrides.get? m.name = none)
    (hik : s.inputs.keys.Nodup) (hck : s.config.keys.Nodup) (hvalid : ∀ k ∈ s.config.keys, k ∉ s.inputs.keys)
    {p : Name} (hout : p ∉ nodes.map (·.name))
    (hused : p ∈ s.config.keys ∨ ∃ n ∈ nodes, p ∈ n.inputTypes.keys) (v : V) :
    Den g inputs overrides (inNamespace nodes s p) v ↔ Supplied g inputs overrides s p v := by
  have hmem : ∀ m, m ∈ additionalNodes typeOf (addNamespace nodes s) s → m ∈ subdagNodes typeOf nodes s fn := by
    intro m hm
    simp only [subdagNodes, List.mem_append]
    exact .inl (.inr hm)
  by_cases hi : p ∈ s.inputs.keys
  · rw [inNamespace_inside (.inr (.inl hi))]
    obtain ⟨d, hd⟩ := Dict.mem_keys_iff.1 hi
    have hpc : p ∉ s.config.keys := fun hc => hvalid p hc hi
    cases d with
    | value x =>
      have hm : staticNode (typeOf x) (assignNamespace p s.namespaceName) x ∈ subdagNodes typeOf nodes s fn := by
        refine hmem _ (List.mem_append_left _ (List.mem_flatMap.2 ⟨_, Dict.get?_mem hd, ?_⟩))
        simp [inputNode]
      rw [staticNode_den (hdef _ hm) (hov _ hm)]
      constructor
      · rintro rfl; exact .literal hd
      · intro h
        cases h with
        | literal h => rw [hd] at h; cases h; rfl
        | source h => rw [hd] at h; cases h
        | config h => exact absurd (Dict.mem_keys_iff.2 ⟨_, h⟩) hpc
        | outer h => exact absurd hi h
    | source src =>
      obtain ⟨n, hn, hpn⟩ : ∃ n ∈ nodes, p ∈ n.inputTypes.keys := by
        rcases hused with h | h
        · exact absurd h hpc
        · exact h
      obtain ⟨t, ht⟩ : ∃ t, (knownTypes (addNamespace nodes s)).get? (assignNamespace p s.namespaceName) = some t := by
        refine knownTypes_has (addNamespace nodes s) (n := renameNode (inNamespace nodes s) (assignNamespace n.name s.namespaceName) n)
          (by rw [addNamespace_eq]; exact List.mem_map.2 ⟨n, hn, rfl⟩) ?_
        rw [(keepsApart hf hesc hn).inputTypes]
        obtain ⟨q, hq, rfl⟩ := List.mem_map.1 hpn
        refine List.mem_map.2 ⟨(inNamespace nodes s q.1, q.2), List.mem_map.2 ⟨q, hq, rfl⟩, ?_⟩
        exact inNamespace_inside (.inr (.inl hi))
      have hm : identityNode src t (assignNamespace p s.namespaceName) ∈ subdagNodes typeOf nodes s fn := by
        refine hmem _ (List.mem_append_left _ (List.mem_flatMap.2 ⟨_, Dict.get?_mem hd, ?_⟩))
        simp [inputNode, ht]
      rw [identityNode_den (hdef _ hm) (hov _ hm)]
      constructor
      · intro h; exact .source hd h
      · intro h
        cases h with
        | literal h => rw [hd] at h; cases h
        | source h h' => rw [hd] at h; cases h; exact h'
        | config h => exact absurd (Dict.mem_keys_iff.2 ⟨_, h⟩) hpc
        | outer h => exact absurd hi h
  · by_cases hc : p ∈ s.config.keys
    · rw [inNamespace_inside (.inr (.inr hc))]
      obtain ⟨x, hx⟩ := Dict.mem_keys_iff.1 hc
      have hm : staticNode (typeOf x) (assignNamespace p s.namespaceName) x ∈ subdagNodes typeOf nodes s fn :=
        hmem _ (List.mem_append_right _ (List.mem_map.2 ⟨_, Dict.get?_mem hx, rfl⟩))
      rw [staticNode_den (hdef _ hm) (hov _ hm)]
      constructor
      · rintro rfl; exact .config hx
      · intro h
        cases h with
        | literal h => exact absurd (Dict.mem_keys_iff.2 ⟨_, h⟩) hi
        | source h => exact absurd (Dict.mem_keys_iff.2 ⟨_, h⟩) hi
        | config h => rw [hx] at h; cases h; rfl
        | outer _ h => exact absurd hc h
    · rw [inNamespace_outside (not_inside (hout) hi hc)]
      constructor
      · intro h; exact .outer hi hc h
      · intro h
        cases h with
        | literal h => exact absurd (Dict.mem_keys_iff.2 ⟨_, h⟩) hi
        | source h => exact absurd (Dict.mem_keys_iff.2 ⟨_, h⟩) hi
        | config h => exact absurd (Dict.mem_keys_iff.2 ⟨_, h⟩) hc
        | outer _ _ h => exact h

/-- Both directions of the refinement, for every name of the separate driver's graph. -/
theorem subdag_refines (hf : ∀ n ∈ nodes, Fresh n) (hesc : NoEscape nodes s)
    (hb : createFunctionGraph tm any s.config false nodes = .ok h)
    (hdef : ∀ m ∈ subdagNodes typeOf nodes s fn, Defines g m)
    (hov : ∀ m ∈ subdagNodes typeOf nodes s fn, overrides.get? m.name = none)
    (hik : s.inputs.keys.Nodup) (hck : s.config.keys.Nodup) (hvalid : ∀ k ∈ s.config.keys, k ∉ s.inputs.keys)
    (hdisj : ∀ n ∈ nodes, n.name ∉ s.config.keys)
    (hgiven : MappedInputs g h inputs overrides s given) {k : Name} (hk : ∃ m, h.get? k = some m) (v : V) :
    Den h given [] k v ↔ Den g inputs overrides (inNamespace nodes s k) v := by
  obtain ⟨f1, f2, f3, f4⟩ := sep_facts hf hb hdisj
  have hsup : ∀ p m, h.get? p = some m → m.kind = .external → ∀ v,
      (Den g inputs overrides (inNamespace nodes s p) v ↔ Supplied g inputs overrides s p v) := by
    intro p m hp he v
    obtain ⟨a, b⟩ := f3 p m hp he
    exact supplied_iff hf hesc hdef hov hik hck hvalid a b v
  have hren : ∀ n ∈ nodes, ∀ v, Den g inputs overrides (inNamespace nodes s n.name) v ↔
      FnValue g inputs overrides (renameNode (inNamespace nodes s) (assignNamespace n.name s.namespaceName) n) v := by
    intro n hn v
    rw [inNamespace_inside (.inl (List.mem_map.2 ⟨n, hn, rfl⟩))]
    have hm : renameNode (inNamespace nodes s) (assignNamespace n.name s.namespaceName) n ∈ subdagNodes typeOf nodes s fn := by
      simp only [subdagNodes, List.mem_append, addNamespace_eq]
      exact .inl (.inl (List.mem_map.2 ⟨n, hn, rfl⟩))
    exact den_iff_fnValue (hdef _ hm) (hf n hn).kind (hov _ hm) v
  -- absence of an optional input is the same on both sides
  have habs1 : ∀ p, Absent h given [] p → Absent g inputs overrides (inNamespace nodes s p) := by
    rintro p ⟨m, hm, he, hg, _⟩
    rcases hgiven p m hm he with ⟨x, hx, _⟩ | ⟨_, h1, h2, h3⟩
    · rw [hg] at hx; cases hx
    · rw [inNamespace_outside (not_inside ((f3 p m hm he).1) h1 h2)]
      exact h3
  have habs2 : ∀ p, (∃ m, h.get? p = some m) → Absent g inputs overrides (inNamespace nodes s p) → Absent h given [] p := by
    rintro p ⟨m, hm⟩ ha
    by_cases he : m.kind = .external
    · refine ⟨m, hm, he, ?_, rfl⟩
      rcases hgiven p m hm he with ⟨x, _, hx⟩ | ⟨h0, _⟩
      · exact absurd ((hsup p m hm he x).2 hx) ha.not_den
      · exact h0
    · obtain ⟨n, hn, rfl, hs⟩ := f2 p m hm he
      rw [inNamespace_inside (.inl (List.mem_map.2 ⟨n, hn, rfl⟩))] at ha
      obtain ⟨m', hm', he', _⟩ := ha
      have hmem : renameNode (inNamespace nodes s) (assignNamespace n.name s.namespaceName) n ∈ subdagNodes typeOf nodes s fn := by
        simp only [subdagNodes, List.mem_append, addNamespace_eq]
        exact .inl (.inl (List.mem_map.2 ⟨n, hn, rfl⟩))
      obtain ⟨m'', hm'', hs''⟩ := hdef _ hmem
      rw [show (renameNode (inNamespace nodes s) (assignNamespace n.name s.namespaceName) n).name =
        assignNamespace n.name s.namespaceName from rfl, hm'] at hm''
      cases hm''
      rw [hs''.kind] at he'
      exact absurd he' (hf n hn).kind
  constructor
  · intro hd
    clear hk
    induction hd with
    | override h1 h2 => cases h2
    | @input p m v h1 _ he hg =>
      refine (hsup p m h1 he v).2 ?_
      rcases hgiven p m h1 he with ⟨x, hx, hx'⟩ | ⟨h0, _⟩
      · rw [hg] at hx; cases hx; exact hx'
      · rw [hg] at h0; cases h0
    | @call p m v val h1 _ he h4 h5 h6 ih =>
      obtain ⟨n, hn, rfl, hs⟩ := f2 p m h1 he
      rw [hs.inputTypes] at h4 h5 h6 ih
      rw [hs.fn] at h6
      refine (hren n hn v).2 ((renamed_value (keepsApart hf hesc hn) _ v).2 ⟨val, ih, ?_, h6⟩)
      intro d t hdt hv
      obtain ⟨a, b⟩ := h5 d t hdt hv
      exact ⟨a, habs1 d b⟩
  · intro hd
    generalize hq : inNamespace nodes s k = q at hd
    induction hd generalizing k with
    | @override q m v h1 h2 =>
      subst hq
      obtain ⟨m, hm⟩ := hk
      by_cases he : m.kind = .external
      · obtain hx := (hsup k m hm he v).1 (.override h1 h2)
        rcases hgiven k m hm he with ⟨y, hy, hy'⟩ | ⟨_, a1, a2, a3⟩
        · have : y = v := Den.det ((hsup k m hm he y).2 hy') (.override h1 h2)
          subst this
          exact .input hm rfl he hy
        · have : inNamespace nodes s k = k :=
            inNamespace_outside (not_inside ((f3 k m hm he).1) a1 a2)
          rw [this] at h1 h2
          exact absurd (Den.override h1 h2) a3.not_den
      · obtain ⟨n, hn, rfl, hs⟩ := f2 k m hm he
        have hmem : renameNode (inNamespace nodes s) (assignNamespace n.name s.namespaceName) n ∈ subdagNodes typeOf nodes s fn := by
          simp only [subdagNodes, List.mem_append, addNamespace_eq]
          exact .inl (.inl (List.mem_map.2 ⟨n, hn, rfl⟩))
        rw [inNamespace_inside (.inl (List.mem_map.2 ⟨n, hn, rfl⟩))] at h2
        rw [show overrides.get? (assignNamespace n.name s.namespaceName) = none from hov _ hmem] at h2
        cases h2
    | @input q m v h1 h2 h3 h4 =>
      subst hq
      obtain ⟨m0, hm⟩ := hk
      by_cases he : m0.kind = .external
      · rcases hgiven k m0 hm he with ⟨y, hy, hy'⟩ | ⟨_, a1, a2, a3⟩
        · have : y = v := Den.det ((hsup k m0 hm he y).2 hy') (.input h1 h2 h3 h4)
          subst this
          exact .input hm rfl he hy
        · have : inNamespace nodes s k = k :=
            inNamespace_outside (not_inside ((f3 k m0 hm he).1) a1 a2)
          rw [this] at h1 h2 h4
          exact absurd (Den.input h1 h2 h3 h4) a3.not_den
      · obtain ⟨n, hn, rfl, hs⟩ := f2 k m0 hm he
        have hmem : renameNode (inNamespace nodes s) (assignNamespace n.name s.namespaceName) n ∈ subdagNodes typeOf nodes s fn := by
          simp only [subdagNodes, List.mem_append, addNamespace_eq]
          exact .inl (.inl (List.mem_map.2 ⟨n, hn, rfl⟩))
        obtain ⟨m', hm', hs'⟩ := hdef _ hmem
        rw [inNamespace_inside (.inl (List.mem_map.2 ⟨n, hn, rfl⟩))] at h1
        rw [show (renameNode (inNamespace nodes s) (assignNamespace n.name s.namespaceName) n).name =
          assignNamespace n.name s.namespaceName from rfl, h1] at hm'
        cases hm'
        rw [hs'.kind] at h3
        exact absurd h3 (hf n hn).kind
    | @call q m v val h1 h2 h3 h4 h5 h6 ih =>
      subst hq
      obtain ⟨m0, hm⟩ := hk
      by_cases he : m0.kind = .external
      · have hden : Den g inputs overrides (inNamespace nodes s k) v := .call val h1 h2 h3 h4 h5 h6
        rcases hgiven k m0 hm he with ⟨y, hy, hy'⟩ | ⟨_, a1, a2, a3⟩
        · have : y = v := Den.det ((hsup k m0 hm he y).2 hy') hden
          subst this
          exact .input hm rfl he hy
        · have : inNamespace nodes s k = k :=
            inNamespace_outside (not_inside ((f3 k m0 hm he).1) a1 a2)
          rw [this] at hden
          exact absurd hden a3.not_den
      · obtain ⟨n, hn, rfl, hs⟩ := f2 k m0 hm he
        have hka := keepsApart hf hesc hn
        have hmem : renameNode (inNamespace nodes s) (assignNamespace n.name s.namespaceName) n ∈ subdagNodes typeOf nodes s fn := by
          simp only [subdagNodes, List.mem_append, addNamespace_eq]
          exact .inl (.inl (List.mem_map.2 ⟨n, hn, rfl⟩))
        obtain ⟨m', hm', hs'⟩ := hdef _ hmem
        rw [inNamespace_inside (.inl (List.mem_map.2 ⟨n, hn, rfl⟩))] at h1
        rw [show (renameNode (inNamespace nodes s) (assignNamespace n.name s.namespaceName) n).name =
          assignNamespace n.name s.namespaceName from rfl, h1] at hm'
        cases hm'
        rw [hs'.inputTypes] at h4 h5 h6 ih
        rw [hs'.fn] at h6
        rw [hka.inputTypes] at h4 h5 ih
        have hmap : ∀ p ∈ n.inputTypes, (kwargMapping (inNamespace nodes s) n.inputTypes.keys).get? (inNamespace nodes s p.1) = some p.1 :=
          hka.get
        have h6' : n.fn (argsFor n.inputTypes (fun d => val (inNamespace nodes s d))) = .ok v := by
          rw [hka.inputTypes] at h6
          simp only [renameNode] at h6
          rw [translate_argsFor val _ hmap] at h6
          exact h6
        refine .call (fun d => val (inNamespace nodes s d)) hm rfl he ?_ ?_ (by rw [hs.inputTypes, hs.fn]; exact h6')
        · rw [hs.inputTypes]
          intro d w hd hv
          refine ih (inNamespace nodes s d) w ?_ hv (f4 n hn d hd) rfl
          obtain ⟨p, hp, rfl⟩ := List.mem_map.1 hd
          exact List.mem_map.2 ⟨(inNamespace nodes s p.1, p.2), List.mem_map.2 ⟨p, hp, rfl⟩, rfl⟩
        · rw [hs.inputTypes]
          intro d t hdt hv
          obtain ⟨a, b⟩ := h5 (inNamespace nodes s d) t (List.mem_map.2 ⟨(d, t), hdt, rfl⟩) hv
          exact ⟨a, habs2 d (f4 n hn d (List.mem_map.2 ⟨(d, t), hdt, rfl⟩)) b⟩

/-- Distinct generated names: no function of the subdag is named like a configuration key. -/
theorem nodup_disjoint (hdis : ((subdagNodes typeOf nodes s fn).map (·.name)).Nodup) : ∀ n ∈ nodes, n.name ∉ s.config.keys := by
  intro n hn hc
  simp only [subdagNodes, additionalNodes, List.map_append, List.append_assoc] at hdis
  rw [List.nodup_append] at hdis
  refine hdis.2.2 (assignNamespace n.name s.namespaceName) ?_ (assignNamespace n.name s.namespaceName) ?_ rfl
  · rw [addNamespace_eq, List.map_map]
    exact List.mem_map.2 ⟨n, hn, rfl⟩
  · obtain ⟨p, hp, he⟩ := List.mem_map.1 hc
    simp only [List.mem_append]
    refine .inr (.inl (List.mem_map.2 ⟨_, List.mem_map.2 ⟨p, hp, rfl⟩, ?_⟩))
    simp [staticNode, he]

theorem valid_disjoint (hv : subdagValid s = true) : ∀ k ∈ s.config.keys, k ∉ s.inputs.keys := by
  intro k hk hi
  unfold subdagValid at hv
  rw [List.all_eq_true] at hv
  have := hv k hk
  rw [(Dict.has_iff _ _).2 hi] at this
  cases this

/-- The situation of C40: `g` contains the nodes of the subdag, `h` is the graph of a separate driver for the same functions
and configuration. -/
structure SubdagSetting (tm : T → T → Bool) (any : T) (typeOf : V → T) (g h : Graph T V) (overrides : Dict Name V)
    (nodes : List (Node T V)) (s : SubdagSpec V) (fn : Node T V) : Prop where
  /-- the functions are plain definitions -/
  fresh : ∀ n ∈ nodes, Fresh n
  /-- inputs and configuration are dictionaries -/
  inputs_nodup : s.inputs.keys.Nodup
  config_nodup : s.config.keys.Nodup
  /-- the decorator's own validation -/
  valid : subdagValid s = true
  /-- the separate driver can be built -/
  separate : createFunctionGraph tm any s.config false nodes = .ok h
  /-- the surrounding graph contains the generated nodes, under distinct names, none of them overridden -/
  defines : ∀ m ∈ subdagNodes typeOf nodes s fn, Defines g m
  distinct : ((subdagNodes typeOf nodes s fn).map (·.name)).Nodup
  not_overridden : ∀ m ∈ subdagNodes typeOf nodes s fn, overrides.get? m.name = none

/-- **C40, faithful copy (partial).**  Every function `k` of a subdag has, under the namespace, exactly the value it has in
a separate driver given the mapped inputs and the configuration.  Missing: functions that refer to a name of the namespace
from outside; and configurations that replace a function of the subdag, which a separate driver accepts
(`C40_violated_config`). -/
theorem C40_faithful_partial (hs : SubdagSetting tm any typeOf g h overrides nodes s fn) (hesc : NoEscape nodes s)
    (hgiven : MappedInputs g h inputs overrides s given) {k : Name} (hk : k ∈ nodes.map (·.name)) (v : V) :
    Den h given [] k v ↔ Den g inputs overrides (s.namespaceName ++ "." ++ k) v := by
  have hdisj := nodup_disjoint hs.distinct
  have hex : ∃ m, h.get? k = some m := by
    obtain ⟨n, hn, rfl⟩ := List.mem_map.1 hk
    obtain ⟨m, hm, _⟩ := (sep_facts hs.fresh hs.separate hdisj).1 n hn
    exact ⟨m, hm⟩
  have := subdag_refines hs.fresh hesc hs.separate hs.defines hs.not_overridden hs.inputs_nodup hs.config_nodup
    (valid_disjoint hs.valid) hdisj hgiven hex v
  rw [inNamespace_inside (.inl hk)] at this
  exact this

/-- **C40, the decorated function (partial).**  The node of the decorated function has the value the function returns when
its parameters are given the values that the functions of the subdag have in the separate driver, and its external inputs the
values they have in the surrounding graph.  Missing: a parameter that is an input mapped to a node and that no function of the
subdag uses (`C40_violated_unused`). -/
theorem C40_final_partial (hs : SubdagSetting tm any typeOf g h overrides nodes s fn) (hesc : NoEscape nodes s)
    (hgiven : MappedInputs g h inputs overrides s given) (hfn : Fresh fn)
    (hparams : ∀ p ∈ fn.inputTypes.keys, p ∈ s.externalInputs ∨ p ∈ nodes.map (·.name) ∨ p ∈ s.config.keys)
    (hext : ∀ p ∈ s.externalInputs, ∀ q, p ≠ s.namespaceName ++ "." ++ q) (v : V) :
    Den g inputs overrides s.finalName v ↔
      ∃ val : Name → Option V,
        (∀ p w, p ∈ fn.inputTypes.keys → val p = some w →
          (p ∈ s.externalInputs → Den g inputs overrides p w) ∧ (p ∉ s.externalInputs → Den h given [] p w)) ∧
        (∀ p t, (p, t) ∈ fn.inputTypes → val p = none →
          p ∈ s.externalInputs ∧ t.2 = .optional ∧ Absent g inputs overrides p) ∧
        fn.fn (argsFor fn.inputTypes val) = .ok v := by
  have hdisj := nodup_disjoint hs.distinct
  let f : Name → Name := fun key => if s.externalInputs.contains key then key else assignNamespace key s.namespaceName
  have hfe : ∀ p, p ∈ s.externalInputs → f p = p := by intro p hp; simp [f, hp]
  have hfi : ∀ p, p ∉ s.externalInputs → f p = assignNamespace p s.namespaceName := by intro p hp; simp [f, hp]
  have hka : KeepsApart f fn := by
    refine ⟨hfn.params_nodup, ?_⟩
    have hinj : ∀ a b, f a = f b → a = b := by
      intro a b he
      by_cases h1 : a ∈ s.externalInputs <;> by_cases h2 : b ∈ s.externalInputs
      · rw [hfe a h1, hfe b h2] at he; exact he
      · rw [hfe a h1, hfi b h2] at he; exact absurd he (hext a h1 b)
      · rw [hfi a h1, hfe b h2] at he; exact absurd he.symm (hext b h2 a)
      · rw [hfi a h1, hfi b h2] at he; exact assignNamespace_inj he
    exact nodup_map_on hfn.params_nodup (fun a _ b _ => hinj a b)
  have hm : subdagFinal fn s ∈ subdagNodes typeOf nodes s fn := by simp [subdagNodes]
  have hin : ∀ p ∈ fn.inputTypes.keys, p ∉ s.externalInputs →
      (∃ m, h.get? p = some m) ∧ inNamespace nodes s p = f p := by
    intro p hp hpe
    rw [hfi p hpe]
    rcases hparams p hp with h1 | h1 | h1
    · exact absurd h1 hpe
    · obtain ⟨n, hn, rfl⟩ := List.mem_map.1 h1
      obtain ⟨m, hm, _⟩ := (sep_facts hs.fresh hs.separate hdisj).1 n hn
      exact ⟨⟨m, hm⟩, inNamespace_inside (.inl h1)⟩
    · obtain ⟨m, hm, _⟩ := (createFunctionGraph_spec hs.fresh hs.separate).2.1 p h1
      exact ⟨⟨m, hm⟩, inNamespace_inside (.inr (.inr h1))⟩
  have hden : ∀ p ∈ fn.inputTypes.keys, p ∉ s.externalInputs → ∀ w,
      (Den h given [] p w ↔ Den g inputs overrides (f p) w) := by
    intro p hp hpe w
    obtain ⟨h1, h2⟩ := hin p hp hpe
    rw [← h2]
    exact subdag_refines hs.fresh hesc hs.separate hs.defines hs.not_overridden hs.inputs_nodup hs.config_nodup
      (valid_disjoint hs.valid) hdisj hgiven h1 w
  -- a name of the namespace is a function node, never an input
  have hnabs : ∀ p ∈ fn.inputTypes.keys, p ∉ s.externalInputs → ¬ Absent g inputs overrides (f p) := by
    rintro p hp hpe ⟨m, hm', he, _⟩
    rw [hfi p hpe] at hm'
    have key : ∀ x ∈ subdagNodes typeOf nodes s fn, x.name = assignNamespace p s.namespaceName → x.kind ≠ .external → False := by
      intro x hx hxn hxk
      obtain ⟨m', hm'', hsf⟩ := hs.defines x hx
      rw [hxn, hm'] at hm''
      cases hm''
      rw [hsf.kind] at he
      exact hxk he
    rcases hparams p hp with h1 | h1 | h1
    · exact hpe h1
    · obtain ⟨n, hn, rfl⟩ := List.mem_map.1 h1
      refine key (renameNode (inNamespace nodes s) (assignNamespace n.name s.namespaceName) n) ?_ rfl (hs.fresh n hn).kind
      simp only [subdagNodes, List.mem_append, addNamespace_eq]
      exact .inl (.inl (List.mem_map.2 ⟨n, hn, rfl⟩))
    · obtain ⟨x, hx⟩ := Dict.mem_keys_iff.1 h1
      refine key (staticNode (typeOf x) (assignNamespace p s.namespaceName) x) ?_ rfl (by simp [staticNode])
      simp only [subdagNodes, additionalNodes, List.mem_append]
      exact .inl (.inr (.inr (List.mem_map.2 ⟨_, Dict.get?_mem hx, rfl⟩)))
  rw [show s.finalName = (subdagFinal fn s).name from rfl,
    den_iff_fnValue (hs.defines _ hm) hfn.kind (hs.not_overridden _ hm) v]
  rw [show subdagFinal fn s = renameNode f s.finalName fn from rfl, renamed_value hka]
  constructor
  · rintro ⟨val, h1, h2, h3⟩
    refine ⟨val, ?_, ?_, h3⟩
    · intro p w hp hv
      have hd := h1 p w hp hv
      refine ⟨fun he => ?_, fun he => (hden p hp he w).2 hd⟩
      rw [hfe p he] at hd; exact hd
    · intro p t hpt hv
      have hp : p ∈ fn.inputTypes.keys := List.mem_map.2 ⟨_, hpt, rfl⟩
      obtain ⟨a, b⟩ := h2 p t hpt hv
      by_cases he : p ∈ s.externalInputs
      · rw [hfe p he] at b; exact ⟨he, a, b⟩
      · exact absurd b (hnabs p hp he)
  · rintro ⟨val, h1, h2, h3⟩
    refine ⟨val, ?_, ?_, h3⟩
    · intro p w hp hv
      obtain ⟨a, b⟩ := h1 p w hp hv
      by_cases he : p ∈ s.externalInputs
      · rw [hfe p he]; exact a he
      · exact (hden p hp he w).1 (b he)
    · intro p t hpt hv
      obtain ⟨a, b, c⟩ := h2 p t hpt hv
      rw [hfe p a]
      exact ⟨b, c⟩

/-- **C40, `@parameterized_subdag`.**  Every entry of the parameterization generates (among the nodes of the decorator) the
nodes of a subdag whose namespace and final node are named after it, whose inputs and configuration are the entry's own, with
the decorator's as a fallback, and whose functions are those selected by this configuration. -/
theorem C40_parameterized {collect : Dict Name V → List (Node T V)} {inp : Dict Name (SingleDep V)} {cfg : Dict Name V}
    {ext : List Name} {params : Dict Name (SubdagParams V)} {key : Name} {pr : SubdagParams V} (hp : (key, pr) ∈ params)
    (hi : pr.inputs.keys.Nodup) (hc : pr.config.keys.Nodup) :
    ∃ s : SubdagSpec V, s.namespaceName = key ∧ s.finalName = key ∧
      (∀ k, s.inputs.get? k = (pr.inputs.get? k).or (inp.get? k)) ∧
      (∀ k, s.config.get? k = (pr.config.get? k).or (cfg.get? k)) ∧
      s.externalInputs = pr.externalInputs.getD ext ∧
      ∀ m ∈ subdagNodes typeOf (collect s.config) s fn, m ∈ parameterizedSubdag typeOf collect inp cfg ext params fn := by
  refine ⟨{ namespaceName := key, finalName := key, inputs := inp.merge pr.inputs, config := cfg.merge pr.config,
            externalInputs := pr.externalInputs.getD ext }, rfl, rfl, fun k => Dict.get?_merge inp pr.inputs hi k, fun k => Dict.get?_merge cfg pr.config hc k, rfl, ?_⟩
  intro m hm
  exact List.mem_flatMap.2 ⟨_, List.mem_map.2 ⟨(key, pr), hp, rfl⟩, hm⟩

/-! ### Isolation -/

/-- Values only depend on the part of the graph a node needs. -/
theorem Den.transport {g g' : Graph T V} {inputs overrides : Dict Name V} {S : Name → Prop}
    (hS : ∀ k n, S k → g.get? k = some n → ∃ n', g'.get? k = some n' ∧ n'.kind = n.kind ∧
      (n.kind ≠ .external → n'.fn = n.fn ∧ n'.inputTypes = n.inputTypes ∧ ∀ d ∈ n.inputTypes.keys, S d))
    {k : Name} {v : V} (hd : Den g inputs overrides k v) : S k → Den g' inputs overrides k v := by
  induction hd with
  | @override k n v h1 h2 =>
    intro hk
    obtain ⟨n', h', _⟩ := hS k n hk h1
    exact .override h' h2
  | @input k n v h1 h2 h3 h4 =>
    intro hk
    obtain ⟨n', h', e, _⟩ := hS k n hk h1
    exact .input h' h2 (e.trans h3) h4
  | @call k n v val h1 h2 h3 h4 h5 h6 ih =>
    intro hk
    obtain ⟨n', h', e, e'⟩ := hS k n hk h1
    obtain ⟨e1, e2, e3⟩ := e' h3
    refine .call val h' h2 (by rw [e]; exact h3) ?_ ?_ (by rw [e1, e2]; exact h6)
    · rw [e2]; intro d w hd hv; exact ih d w hd hv (e3 d hd)
    · rw [e2]
      intro d t hd hv
      obtain ⟨a, m, b1, b2, b3⟩ := h5 d t hd hv
      obtain ⟨m', c1, c2, _⟩ := hS d m (e3 d (List.mem_map.2 ⟨_, hd, rfl⟩)) b1
      exact ⟨a, m', c1, c2.trans b2, b3⟩

/-- `d` is `k` or something `k` is computed from. -/
inductive UpstreamOf (g : Graph T V) (k : Name) : Name → Prop
  | self : UpstreamOf g k k
  | param {m n d} : UpstreamOf g k m → g.get? m = some n → d ∈ n.inputTypes.keys → UpstreamOf g k d

/-- **C40, isolation.**  Adding functions to a graph (in particular the nodes generated by a subdag) does not change the value
of any node that is not computed from one of them. -/
theorem C40_isolated {config : Dict Name V} {fns extra : List (Node T V)} {g g' : Graph T V}
    (hf : ∀ n ∈ fns, Fresh n) (he : ∀ n ∈ extra, Fresh n)
    (hb : createFunctionGraph tm any config false fns = .ok g)
    (hb' : createFunctionGraph tm any config false (fns ++ extra) = .ok g')
    {k : Name} (hk : ∃ n, g.get? k = some n) (hup : ∀ d, UpstreamOf g k d → d ∉ extra.map (·.name)) (v : V) :
    Den g inputs overrides k v ↔ Den g' inputs overrides k v := by
  have hf' : ∀ n ∈ fns ++ extra, Fresh n := by
    intro n hn
    rcases List.mem_append.1 hn with h | h
    · exact hf n h
    · exact he n h
  obtain ⟨hw, c1, l1, _, x1, _⟩ := createFunctionGraph_spec hf hb
  obtain ⟨hw', c2, l2, _, x2, _⟩ := createFunctionGraph_spec hf' hb'
  have hlast : ∀ d, d ∉ extra.map (·.name) → lastDef (fns ++ extra) d = lastDef fns d := by
    intro d hd
    unfold lastDef
    rw [List.reverse_append, List.find?_append]
    have : extra.reverse.find? (fun n => n.name = d) = none := by
      rw [List.find?_eq_none]
      intro n hn
      simp only [decide_eq_true_eq]
      rintro rfl
      exact hd (List.mem_map.2 ⟨n, List.mem_reverse.1 hn, rfl⟩)
    rw [this]; rfl
  -- the two graphs agree on names that are not new
  have agree : ∀ d n, d ∉ extra.map (·.name) → g.get? d = some n → (∃ n', g'.get? d = some n') →
      ∃ n', g'.get? d = some n' ∧ n'.kind = n.kind ∧
        (n.kind ≠ .external → n'.fn = n.fn ∧ n'.inputTypes = n.inputTypes) := by
    intro d n hd hn hn'
    by_cases hc : d ∈ config.keys
    · obtain ⟨a, ha, ha'⟩ := c1 d hc
      obtain ⟨b, hb, hb'⟩ := c2 d hc
      rw [hn] at ha; cases ha
      exact ⟨b, hb, by rw [ha', hb'], fun h => absurd ha' h⟩
    · cases hl : lastDef fns d with
      | some n0 =>
        obtain ⟨a, ha, sa⟩ := l1 d n0 hc hl
        obtain ⟨b, hb, sb⟩ := l2 d n0 hc (by rw [hlast d hd]; exact hl)
        rw [hn] at ha; cases ha
        exact ⟨b, hb, by rw [sa.kind, sb.kind], fun _ => ⟨by rw [sa.fn, sb.fn], by rw [sa.inputTypes, sb.inputTypes]⟩⟩
      | none =>
        have ha := x1 d n hn hc hl
        obtain ⟨b, hb⟩ := hn'
        have hb2 := x2 d b hb hc (by rw [hlast d hd]; exact hl)
        exact ⟨b, hb, by rw [ha, hb2], fun h => absurd ha h⟩
  -- every old node is a node of the new graph
  have old : ∀ d n, UpstreamOf g k d → g.get? d = some n → ∃ n', g'.get? d = some n' := by
    intro d n hd hn
    by_cases hc : d ∈ config.keys
    · obtain ⟨b, hb, _⟩ := c2 d hc; exact ⟨b, hb⟩
    · cases hl : lastDef fns d with
      | some n0 =>
        obtain ⟨b, hb, _⟩ := l2 d n0 hc (by rw [hlast d (hup d hd)]; exact hl)
        exact ⟨b, hb⟩
      | none =>
        have hx := x1 d n hn hc hl
        obtain ⟨_, _, _, p1, _⟩ := createFunctionGraph_spec hf hb
        rcases p1 d n hn hx with h | ⟨f, fm, hfm, hp⟩
        · exact absurd h hc
        · -- some old function has it as a parameter
          have hke : fm.kind ≠ .external := by
            intro hx
            rw [hw.external_no_params hfm hx] at hp
            simp [Dict.keys] at hp
          by_cases hcf : f ∈ config.keys
          · obtain ⟨a, ha, ha'⟩ := c1 f hcf
            rw [hfm] at ha; cases ha
            exact absurd ha' hke
          · cases hlf : lastDef fns f with
            | none => exact absurd (x1 f fm hfm hcf hlf) hke
            | some n0 =>
              obtain ⟨a, ha, sa⟩ := l1 f n0 hcf hlf
              rw [hfm] at ha; cases ha
              obtain ⟨e1, e2⟩ := lastDef_name hlf
              obtain ⟨b, hb, sb⟩ := build_defines hf' hb' (List.mem_append_left _ e2) (by rw [e1]; exact hcf)
              rw [sa.inputTypes, ← sb.inputTypes] at hp
              exact hw'.deps_in hb hp
  constructor
  · intro hd
    refine hd.transport (S := UpstreamOf g k) ?_ .self
    intro d n hu hn
    obtain ⟨n', a, b, c⟩ := agree d n (hup d hu) hn (old d n hu hn)
    exact ⟨n', a, b, fun h => ⟨(c h).1, (c h).2, fun e he => .param hu hn he⟩⟩
  · intro hd
    refine hd.transport (S := fun d => UpstreamOf g k d ∧ ∃ n, g.get? d = some n) ?_ ⟨.self, hk⟩
    rintro d n' ⟨hu, n, hn⟩ hn'
    obtain ⟨m, a, b, c⟩ := agree d n (hup d hu) hn ⟨n', hn'⟩
    rw [hn'] at a; cases a
    refine ⟨n, hn, b.symm, fun h => ?_⟩
    obtain ⟨c1, c2⟩ := c (by rw [← b]; exact h)
    refine ⟨c1.symm, c2.symm, fun e he => ?_⟩
    rw [c2] at he
    exact ⟨.param hu hn he, hw.deps_in hn he⟩

end

/-! ### Examples and counterexamples -/
namespace SubdagSample
open DecorSample

/-- `def a(x): return x + 1` and `def b(a, c, z=5): return 10 * a + c + z`. -/
def subFns : List (Node Unit DV) :=
  [ fnode "a" [("x", .required)] (fun kw => .ok (.int (argI kw "x" 0 + 1))),
    fnode "b" [("a", .required), ("c", .required), ("z", .optional)]
      (fun kw => .ok (.int (10 * argI kw "a" 0 + argI kw "c" 0 + argI kw "z" 5))) ]

/-- `@subdag(a, b, inputs={"x": source("w")}, config={"c": 7}, external_inputs=["e"], namespace="sub")`. -/
def spec : SubdagSpec DV :=
  { namespaceName := "sub", finalName := "f", inputs := [("x", .source "w")], config := [("c", .int 7)], externalInputs := ["e"] }

/-- `def f(b, e): return b + e`. -/
def finalFn : Node Unit DV := fnode "f" [("b", .required), ("e", .required)] (fun kw => .ok (.int (argI kw "b" 0 + argI kw "e" 0)))

/-- The surrounding functions: `def w(q): return 2 * q`. -/
def outer : List (Node Unit DV) := [fnode "w" [("q", .required)] (fun kw => .ok (.int (2 * argI kw "q" 0)))]

/-- All the functions. -/
def all : List (Node Unit DV) := outer ++ subdagNodes (fun _ => ()) subFns spec finalFn

/-- The separate driver's graph. -/
def sep : Graph Unit DV :=
  match createFunctionGraph (fun _ _ => true) () spec.config false subFns with
  | .ok g => g
  | .error _ => []

example : all.map (·.name) = ["w", "sub.a", "sub.b", "sub.x", "sub.c", "f"] := by decide +kernel

example : run all [("q", .int 3), ("e", .int 100)] "sub.b" = .inl (some 82) ∧
    run all [("q", .int 3), ("e", .int 100)] "f" = .inl (some 182) := by decide +kernel

theorem sep_ok : createFunctionGraph (fun _ _ => true) () spec.config false subFns = .ok sep := by
  have h : (createFunctionGraph (fun _ _ => true) () spec.config false subFns).isOk = true := by decide +kernel
  unfold sep
  revert h
  generalize createFunctionGraph (fun _ _ => true) () spec.config false subFns = r
  intro h
  cases r with
  | ok g => rfl
  | error e => simp [Except.isOk, Except.toBool] at h

theorem all_fresh : ∀ n ∈ all, Fresh n := by
  intro n hn
  have : all = [all[0], all[1], all[2], all[3], all[4], all[5]] := rfl
  rw [this] at hn
  simp only [List.mem_cons, List.not_mem_nil, or_false] at hn
  rcases hn with rfl | rfl | rfl | rfl | rfl | rfl <;> exact ⟨by decide +kernel, rfl, rfl, by decide +kernel⟩

theorem subFns_fresh : ∀ n ∈ subFns, Fresh n := by
  intro n hn
  simp only [subFns, List.mem_cons, List.not_mem_nil, or_false] at hn
  rcases hn with rfl | rfl <;> exact ⟨by decide +kernel, rfl, rfl, by decide +kernel⟩

theorem setting : SubdagSetting (fun _ _ => true) () (fun _ => ()) (build all) sep [] subFns spec finalFn where
  fresh := subFns_fresh
  inputs_nodup := by decide +kernel
  config_nodup := by decide +kernel
  valid := by decide +kernel
  separate := sep_ok
  defines := fun _ hm => build_defines all_fresh (build_eq (by decide +kernel)) (List.mem_append_right _ hm) (by simp [Dict.keys])
  distinct := by decide +kernel
  not_overridden := fun _ _ => rfl

/-- The values a separate driver would be given. -/
def given : Dict Name DV := [("x", .int 6), ("c", .int 7)]

theorem q_den : Den (build all) [("q", .int 3)] [] "w" (.int 6) := by
  refine (den_iff_fnValue (n := outer[0]) (build_defines all_fresh (build_eq (by decide +kernel))
    (List.mem_append_left _ (by simp [outer])) (by simp [Dict.keys])) (by decide +kernel) rfl _).2 ⟨[("q", .int 3)], ?_, rfl⟩
  refine (rightArgs_single (n := outer[0]) (t := ()) rfl _).2 ⟨.int 3, ?_, rfl⟩
  have h : ((build all).get? "q").map (·.kind) = some .external := by decide +kernel
  cases hx : (build all).get? "q" with
  | none => rw [hx] at h; cases h
  | some n => rw [hx] at h; exact .input hx rfl (Option.some.inj h) rfl

theorem noEscape : NoEscape subFns spec := by
  have key : ∀ n ∈ subFns, ∀ p ∈ n.inputTypes.keys, p.toList.head? ≠ some 's' := by decide +kernel
  intro n hn p hp _ q he
  have := key n hn p hp
  rw [he] at this
  apply this
  simp [assignNamespace, spec]

theorem mapped : MappedInputs (build all) sep [("q", .int 3)] [] spec given := by
  intro p n hp he
  have hkeys : sep.keys = ["a", "b", "x", "c", "z"] ∨ sep.keys.Perm ["a", "b", "x", "c", "z"] := by
    right
    decide +kernel
  have hk : p ∈ ["a", "b", "x", "c", "z"] := by
    have := Dict.mem_keys_iff.2 ⟨n, hp⟩
    rcases hkeys with h | h
    · rw [h] at this; exact this
    · exact h.mem_iff.1 this
  simp only [List.mem_cons, List.not_mem_nil, or_false] at hk
  rcases hk with rfl | rfl | rfl | rfl | rfl
  · have : (sep.get? "a").map (·.kind) = some .standard := by decide +kernel
    rw [hp] at this; simp only [Option.map_some, Option.some.injEq] at this; rw [he] at this; cases this
  · have : (sep.get? "b").map (·.kind) = some .standard := by decide +kernel
    rw [hp] at this; simp only [Option.map_some, Option.some.injEq] at this; rw [he] at this; cases this
  · exact .inl ⟨.int 6, rfl, .source rfl q_den⟩
  · exact .inl ⟨.int 7, rfl, .config rfl⟩
  · refine .inr ⟨rfl, by decide +kernel, by decide +kernel, ?_⟩
    have h : ((build all).get? "z").map (·.kind) = some .external := by decide +kernel
    cases hx : (build all).get? "z" with
    | none => rw [hx] at h; cases h
    | some m => rw [hx] at h; exact ⟨m, hx, Option.some.inj h, rfl, rfl⟩

/-- Non-vacuity of `C40_faithful_partial`. -/
example (v : DV) : Den sep given [] "b" v ↔ Den (build all) [("q", .int 3)] [] "sub.b" v :=
  C40_faithful_partial setting noEscape mapped (k := "b") (by decide +kernel) v

/-- Non-vacuity of `C40_final_partial`. -/
example (v : DV) := C40_final_partial setting noEscape mapped (all_fresh_final) (by decide +kernel)
  (by
    intro p hp q he
    simp only [spec, List.mem_cons, List.not_mem_nil, or_false] at hp
    subst hp
    have := congrArg (fun s : String => s.toList.head?) he
    simp [spec] at this) v
where
  /-- The decorated function is a plain definition. -/
  all_fresh_final : Fresh finalFn := ⟨by decide +kernel, rfl, rfl, by decide +kernel⟩

/-- Non-vacuity of `C40_isolated`: `w` is not computed from the subdag. -/
example : ∀ d, UpstreamOf (build outer) "w" d → d ∉ (subdagNodes (fun _ => ()) subFns spec finalFn).map (·.name) := by
  have hk : (subdagNodes (fun _ => ()) subFns spec finalFn).map (·.name) = ["sub.a", "sub.b", "sub.x", "sub.c", "f"] := by
    decide +kernel
  rw [hk]
  have hall : (build outer).all (fun p => p.2.inputTypes.keys.all (fun d => d == "q")) = true := by decide +kernel
  intro d hd
  have : d = "w" ∨ d = "q" := by
    cases hd with
    | self => exact .inl rfl
    | param _ hn hp =>
      rw [List.all_eq_true] at hall
      have h1 := hall _ (Dict.get?_mem hn)
      rw [List.all_eq_true] at h1
      exact .inr (by simpa using h1 d hp)
  rcases this with rfl | rfl <;> decide

/-- **C40 violated.**  A configuration may replace a function in a driver, but not in a subdag: with `config={"a": 1}` the
separate driver is built, the graph with the subdag is refused because `sub.a` is defined twice. -/
theorem C40_violated_config :
    (createFunctionGraph (fun _ _ => true) () [("a", DV.int 1)] false subFns).isOk = true ∧
    subdagValid { spec with config := [("a", DV.int 1)] } = true ∧
    (match createFunctionGraph (fun _ _ => true) () [] false
        (outer ++ subdagNodes (fun _ => ()) subFns { spec with config := [("a", DV.int 1)] } finalFn) with
      | .error (.duplicate k) => some k
      | _ => none) = some "sub.a" := by decide +kernel

/-- `def f(b, y): return b + y`, where `y` is an input mapped to the node `w` that no function of the subdag uses. -/
def finalY : Node Unit DV := fnode "f" [("b", .required), ("y", .required)] (fun kw => .ok (.int (argI kw "b" 0 + argI kw "y" 0)))

/-- **C40 violated.**  An input that is mapped to a node and used by the decorated function only is not created: the graph
asks the user for an input `sub.y`. The same input mapped to a literal works. -/
theorem C40_violated_unused :
    run (outer ++ subdagNodes (fun _ => ()) subFns { spec with inputs := [("x", .source "w"), ("y", .source "w")] } finalY)
      [("q", .int 3)] "f" = .inr (some (.missing "sub.y")) ∧
    run (outer ++ subdagNodes (fun _ => ()) subFns { spec with inputs := [("x", .source "w"), ("y", .value (.int 6))] } finalY)
      [("q", .int 3)] "f" = .inl (some 88) := by decide +kernel

end SubdagSample
end Verif
