import Verif.Model.Materialize
import Verif.Props.Subdag

/-!
Lemmas about graphs modified by materializers and extractors.
-/
namespace Verif
variable {T V : Type}

/-- What rewiring needs. -/
structure PlainGraph (g : Graph T V) : Prop where
  nodup : g.keys.Nodup
  name_eq : ∀ k n, g.get? k = some n → n.name = k
  params_nodup : ∀ k n, g.get? k = some n → n.inputTypes.keys.Nodup
  external_no_params : ∀ k n, g.get? k = some n → n.kind = .external → n.inputTypes = []

theorem WellFormed.plain {g : Graph T V} (h : WellFormed g) : PlainGraph g :=
  ⟨h.keys_nodup, fun _ _ => h.name_eq, fun _ _ => h.params_nodup, fun _ _ => h.external_no_params⟩

/-- A node without recorded edges. -/
def unwire (n : Node T V) : Node T V := { n with dependencies := [], dependedOnBy := [] }

theorem get?_mapVals {A B : Type} (f : A → B) : ∀ (d : Dict Name A) (k : Name),
    Dict.get? (d.map (fun p => (p.1, f p.2))) k = (d.get? k).map f := by
  intro d
  induction d with
  | nil => intro k; rfl
  | cons p t ih =>
    intro k
    obtain ⟨a, b⟩ := p
    rw [List.map_cons, Dict.get?_cons, Dict.get?_cons, ih]
    split <;> rfl

theorem unwire_sameFn {n m : Node T V} (h : SameFn (unwire n) m) : SameFn n m :=
  ⟨h.name, h.kind, h.inputTypes, h.fn, h.typ⟩

/-- Rewiring keeps the functions and adds input nodes. -/
theorem rewire_spec {tm : T → T → Bool} {g g' : Graph T V} (hp : PlainGraph g) (h : updateDependencies tm true g = .ok g') :
    WellFormed g' ∧
    (∀ k n, g.get? k = some n → ∃ n', g'.get? k = some n' ∧ SameFn n n') ∧
    (∀ k n', g'.get? k = some n' → g.get? k = none → n'.kind = .external) := by
  have hreset : updateDependencies tm true g = updateDependencies tm false (g.map (fun p => (p.1, unwire p.2))) := rfl
  rw [hreset] at h
  have hget := get?_mapVals (unwire : Node T V → Node T V) g
  have hun : Unwired (g.map (fun p => (p.1, unwire p.2))) := by
    refine ⟨?_, ?_, ?_, ?_, ?_⟩
    · have : Dict.keys (g.map (fun p => (p.1, unwire p.2))) = g.keys := by simp [Dict.keys]
      rw [this]; exact hp.nodup
    all_goals
      intro k n hk
      rw [hget] at hk
      cases hg : g.get? k with
      | none => rw [hg] at hk; cases hk
      | some m =>
        rw [hg] at hk
        cases hk
        first
        | exact hp.name_eq k m hg
        | exact hp.params_nodup k m hg
        | exact ⟨rfl, rfl⟩
        | exact hp.external_no_params k m hg
  obtain ⟨h1, h2, h3⟩ := updateDependencies_spec hun h
  refine ⟨h1, ?_, ?_⟩
  · intro k n hk
    obtain ⟨n', h', hs⟩ := h2 k (unwire n) (by rw [hget, hk]; rfl)
    exact ⟨n', h', unwire_sameFn hs⟩
  · intro k n' h' hn
    exact (h3 k n' h' (by rw [hget, hn]; rfl)).1

theorem insertNodes_get (ns : List (Node T V)) : ∀ (g : Graph T V) (k : Name),
    (insertNodes g ns).get? k = (lastDef ns k).or (g.get? k) := by
  have key : ∀ (ns : List (Node T V)) (g : Graph T V) (k : Name),
      (insertNodes g ns.reverse).get? k = (lastDef ns.reverse k).or (g.get? k) := by
    intro ns
    induction ns with
    | nil => intro g k; simp [insertNodes, lastDef]
    | cons n ns ih =>
      intro g k
      rw [List.reverse_cons]
      have : insertNodes g (ns.reverse ++ [n]) = (insertNodes g ns.reverse).set n.name n := by
        simp [insertNodes, List.foldl_append]
      rw [this, Dict.get?_set, lastDef_append_singleton, ih]
      by_cases h : n.name = k
      · simp [h]
      · simp [h]
  intro g k
  have := key ns.reverse g k
  rwa [List.reverse_reverse] at this

theorem insertNodes_nodup (ns : List (Node T V)) : ∀ {g : Graph T V}, g.keys.Nodup → (insertNodes g ns).keys.Nodup := by
  induction ns with
  | nil => intro g h; exact h
  | cons n ns ih => intro g h; exact ih (Dict.keys_set_nodup h _ _)

theorem insertNodes_plain {ns : List (Node T V)} (hf : ∀ n ∈ ns, Fresh n) {g : Graph T V} (hg : PlainGraph g) :
    PlainGraph (insertNodes g ns) := by
  refine ⟨insertNodes_nodup ns hg.nodup, ?_, ?_, ?_⟩
  all_goals
    intro k n hk
    rw [insertNodes_get] at hk
    cases hl : lastDef ns k with
    | none =>
      rw [hl] at hk
      simp only [Option.none_or] at hk
      first
      | exact hg.name_eq k n hk
      | exact hg.params_nodup k n hk
      | exact hg.external_no_params k n hk
    | some m =>
      rw [hl] at hk
      simp only [Option.some_or, Option.some.injEq] at hk
      subst hk
      obtain ⟨h1, h2⟩ := lastDef_name hl
      first
      | exact h1
      | exact (hf _ h2).params_nodup
      | exact fun he => absurd he (hf _ h2).kind

theorem adapterInputTypes_nodup (required optional : Dict Name T) (kwargs : Dict Name (SingleDep V)) :
    (adapterInputTypes required optional kwargs).keys.Nodup := by
  unfold adapterInputTypes
  have h1 : ∀ (l : Dict Name T) (f : Name → Name) (acc : Dict Name (T × DepType)), acc.keys.Nodup →
      (l.foldl (fun (d : Dict Name (T × DepType)) p => d.set (f p.1) (p.2, .required)) acc).keys.Nodup := by
    intro l f
    induction l with
    | nil => intro acc h; exact h
    | cons p t ih => intro acc h; exact ih _ (Dict.keys_set_nodup h _ _)
  have h2 : ∀ (l : Dict Name T) (s : Dict Name Name) (acc : Dict Name (T × DepType)), acc.keys.Nodup →
      (l.foldl (addOptional s) acc).keys.Nodup := by
    intro l s
    induction l with
    | nil => intro acc h; exact h
    | cons p t ih =>
      intro acc h
      rw [List.foldl_cons]
      apply ih
      unfold addOptional
      cases s.get? p.1 with
      | none => exact h
      | some x => exact Dict.keys_set_nodup h _ _
  have h3 : ∀ (d : Dict Name (T × DepType)) (q : Name × (T × DepType) → Bool), d.keys.Nodup → (Dict.keys (d.filter q)).Nodup := by
    intro d q h
    exact h.sublist (List.filter_sublist.map _)
  have h0 : (Dict.keys ([] : Dict Name (T × DepType))).Nodup := List.nodup_nil
  exact h3 _ _ (h2 optional (kwargSources kwargs) _ (h1 required (fun k => ((kwargSources kwargs).get? k).getD k) [] h0))

theorem saverNode_fresh (ops : AdapterOps T V) (id : Name) (cls : SaverCls T V) (kwargs : Dict Name (SingleDep V)) (saved : Node T V) :
    Fresh (saverNode ops id cls kwargs saved) :=
  ⟨Dict.keys_set_nodup (adapterInputTypes_nodup _ _ _) _ _, rfl, rfl, by simp [saverNode]⟩

theorem joinNode_fresh (id : Name) (rb : ResultBuilder T V) (deps : List (Node T V)) : Fresh (joinNode id rb deps) := by
  refine ⟨?_, rfl, rfl, by simp [joinNode]⟩
  have : ∀ (l : List (Node T V)) (acc : Dict Name (T × DepType)), acc.keys.Nodup →
      (l.foldl (fun (d : Dict Name (T × DepType)) n => d.set n.name (n.typ, .required)) acc).keys.Nodup := by
    intro l
    induction l with
    | nil => intro acc h; exact h
    | cons p t ih => intro acc h; exact ih _ (Dict.keys_set_nodup h _ _)
  exact this _ _ (by simp [Dict.keys])

theorem loaderNode_fresh (ops : AdapterOps T V) (target : Name) (typ : T) (cls : LoaderCls T V) (kwargs : Dict Name (SingleDep V)) :
    Fresh (loaderNode ops target typ cls kwargs) := ⟨adapterInputTypes_nodup _ _ _, rfl, rfl, by simp [loaderNode]⟩

theorem filterNode_fresh (ops : AdapterOps T V) (target : Name) (typ : T) : Fresh (filterNode ops target typ) :=
  ⟨by simp [filterNode, Dict.keys], rfl, rfl, by simp [filterNode]⟩

theorem generateAll_mem {A : Type} {f : A → Except MatErr (List (Node T V))} : ∀ {l : List A} {ns : List (Node T V)},
    generateAll f l = .ok ns → ∀ n, n ∈ ns ↔ ∃ a ∈ l, ∃ m, f a = .ok m ∧ n ∈ m := by
  intro l
  induction l with
  | nil => intro ns h n; cases h; simp
  | cons a as ih =>
    intro ns h n
    simp only [generateAll] at h
    cases ha : f a with
    | error e => rw [ha] at h; cases h
    | ok m =>
      rw [ha] at h
      dsimp only at h
      cases hr : generateAll f as with
      | error e => rw [hr] at h; cases h
      | ok rest =>
        rw [hr] at h
        cases h
        rw [List.mem_append, ih hr n]
        constructor
        · rintro (h | ⟨b, hb, m', h1, h2⟩)
          · exact ⟨a, by simp, m, ha, h⟩
          · exact ⟨b, by simp [hb], m', h1, h2⟩
        · rintro ⟨b, hb, m', h1, h2⟩
          rcases List.mem_cons.1 hb with rfl | hb
          · rw [ha] at h1; cases h1; exact .inl h2
          · exact .inr ⟨b, hb, m', h1, h2⟩

theorem generateAll_each {A : Type} {f : A → Except MatErr (List (Node T V))} : ∀ {l : List A} {ns : List (Node T V)},
    generateAll f l = .ok ns → ∀ a ∈ l, ∃ m, f a = .ok m ∧ ∀ n ∈ m, n ∈ ns := by
  intro l
  induction l with
  | nil => intro ns _ a ha; cases ha
  | cons a as ih =>
    intro ns h b hb
    simp only [generateAll] at h
    cases ha : f a with
    | error e => rw [ha] at h; cases h
    | ok m =>
      rw [ha] at h
      dsimp only at h
      cases hr : generateAll f as with
      | error e => rw [hr] at h; cases h
      | ok rest =>
        rw [hr] at h
        cases h
        rcases List.mem_cons.1 hb with rfl | hb
        · exact ⟨m, ha, fun n hn => List.mem_append.2 (.inl hn)⟩
        · obtain ⟨m', h1, h2⟩ := ih hr b hb
          exact ⟨m', h1, fun n hn => List.mem_append.2 (.inr (h2 n hn))⟩

/-- The nodes of a materializer. -/
theorem materializerNodes_cases {ops : AdapterOps T V} {g : Graph T V} {m : Materializer T V} {ns : List (Node T V)}
    (h : materializerNodes ops g m = .ok ns) :
    (∀ d ∈ m.dependencies, ∃ n, g.get? d = some n) ∧
    ∃ saved cls, m.saver saved.typ = some cls ∧ adapterValid cls.required cls.optional m.kwargs = true ∧
      ((m.combine = none ∧ m.dependencies.filterMap g.get? = [saved] ∧ ns = [saverNode ops m.id cls m.kwargs saved]) ∨
      (∃ rb, m.combine = some rb ∧ saved = joinNode m.id rb (m.dependencies.filterMap g.get?) ∧
        ns = [saved, saverNode ops m.id cls m.kwargs saved])) := by
  unfold materializerNodes at h
  dsimp only at h
  by_cases hmiss : m.dependencies.filter (fun d => !g.has d) = []
  · rw [if_neg (by simp [hmiss])] at h
    refine ⟨?_, ?_⟩
    · intro d hd
      rw [List.filter_eq_nil_iff] at hmiss
      have := hmiss d hd
      simp only [Bool.not_eq_true', Bool.not_eq_false] at this
      exact (Dict.has_eq_true_iff _ _).1 this
    · have hsaver : ∀ (x : Node T V) (s : Node T V), createSaver ops m x = .ok s →
          ∃ cls, m.saver x.typ = some cls ∧ adapterValid cls.required cls.optional m.kwargs = true ∧
            s = saverNode ops m.id cls m.kwargs x := by
        intro x s hs
        unfold createSaver at hs
        cases hc : m.saver x.typ with
        | none => rw [hc] at hs; cases hs
        | some cls =>
          rw [hc] at hs
          dsimp only at hs
          cases hv : adapterValid cls.required cls.optional m.kwargs with
          | false => rw [hv] at hs; cases hs
          | true => rw [hv] at hs; cases hs; exact ⟨cls, rfl, hv, rfl⟩
      cases hc : m.combine with
      | none =>
        rw [hc] at h
        dsimp only at h
        cases hd : m.dependencies.filterMap g.get? with
        | nil => rw [hd] at h; cases h
        | cons d ds =>
          cases ds with
          | cons _ _ => rw [hd] at h; cases h
          | nil =>
            rw [hd] at h
            dsimp only at h
            cases hs : createSaver ops m d with
            | error e => rw [hs] at h; cases h
            | ok s =>
              rw [hs] at h
              cases h
              obtain ⟨cls, h1, h2, rfl⟩ := hsaver d s hs
              exact ⟨d, cls, h1, h2, .inl ⟨rfl, rfl, rfl⟩⟩
      | some rb =>
        rw [hc] at h
        dsimp only at h
        cases hs : createSaver ops m (joinNode m.id rb (m.dependencies.filterMap g.get?)) with
        | error e => rw [hs] at h; cases h
        | ok s =>
          rw [hs] at h
          cases h
          obtain ⟨cls, h1, h2, rfl⟩ := hsaver _ s hs
          exact ⟨_, cls, h1, h2, .inr ⟨rb, rfl, rfl, rfl⟩⟩
  · rw [if_pos hmiss] at h; cases h

theorem materializerNodes_fresh {ops : AdapterOps T V} {g : Graph T V} {m : Materializer T V} {ns : List (Node T V)}
    (h : materializerNodes ops g m = .ok ns) : ∀ n ∈ ns, Fresh n := by
  obtain ⟨_, saved, cls, _, _, h3⟩ := materializerNodes_cases h
  rcases h3 with ⟨_, _, rfl⟩ | ⟨rb, _, rfl, rfl⟩
  · intro n hn
    simp only [List.mem_singleton] at hn
    subst hn
    exact saverNode_fresh _ _ _ _ _
  · intro n hn
    simp only [List.mem_cons, List.not_mem_nil, or_false] at hn
    rcases hn with rfl | rfl
    · exact joinNode_fresh _ _ _
    · exact saverNode_fresh _ _ _ _ _

theorem extractorNodes_cases {ops : AdapterOps T V} {g : Graph T V} {x : Extractor T V} {ns : List (Node T V)}
    (h : extractorNodes ops g x = .ok ns) :
    ∃ n cls, g.get? x.target = some n ∧ x.loader n.typ = some cls ∧ adapterValid cls.required cls.optional x.kwargs = true ∧
      ns = [loaderNode ops x.target n.typ cls x.kwargs, filterNode ops x.target n.typ] := by
  unfold extractorNodes at h
  cases hn : g.get? x.target with
  | none => rw [hn] at h; cases h
  | some n =>
    rw [hn] at h
    dsimp only at h
    cases hc : x.loader n.typ with
    | none => rw [hc] at h; cases h
    | some cls =>
      rw [hc] at h
      dsimp only at h
      cases hv : adapterValid cls.required cls.optional x.kwargs with
      | false => rw [hv] at h; cases h
      | true => rw [hv] at h; cases h; exact ⟨n, cls, rfl, hc, hv, rfl⟩

/-- What `modify_graph` returns: the nodes of the extractors, then those of the materializers, then those of the graph. -/
theorem modifyGraph_spec {ops : AdapterOps T V} {tm : T → T → Bool} {g g' : Graph T V} {ms : List (Materializer T V)}
    {xs : List (Extractor T V)} (hg : WellFormed g) (h : modifyGraph ops tm g ms xs = .ok g') :
    ∃ savers g1 loaders, generateAll (materializerNodes ops g) ms = .ok savers ∧ generateAll (extractorNodes ops g1) xs = .ok loaders ∧
      WellFormed g1 ∧ WellFormed g' ∧
      (∀ n ∈ savers, g.get? n.name = none) ∧
      (∀ k n, lastDef loaders k = some n → ∃ n', g'.get? k = some n' ∧ SameFn n n') ∧
      (∀ k n, lastDef loaders k = none → lastDef savers k = some n → ∃ n', g'.get? k = some n' ∧ SameFn n n') ∧
      (∀ k n, lastDef loaders k = none → g.get? k = some n → ∃ n', g'.get? k = some n' ∧ SameFn n n') ∧
      (∀ k n, g.get? k = some n → ∃ n', g1.get? k = some n' ∧ SameFn n n') ∧
      (∀ k n', g'.get? k = some n' → g.get? k = none → lastDef savers k = none → lastDef loaders k = none →
        n'.kind = .external) := by
  unfold modifyGraph at h
  cases hs : generateAll (materializerNodes ops g) ms with
  | error e => rw [hs] at h; cases h
  | ok savers =>
    rw [hs] at h
    dsimp only at h
    cases hw : withNodes tm g (insertNodes [] savers) with
    | error e => rw [hw] at h; cases h
    | ok g1 =>
      rw [hw] at h
      dsimp only at h
      cases hl : generateAll (extractorNodes ops g1) xs with
      | error e => rw [hl] at h; cases h
      | ok loaders =>
        rw [hl] at h
        dsimp only at h
        cases hu : updateDependencies tm true (insertNodes g1 loaders) with
        | error e => rw [hu] at h; cases h
        | ok g2 =>
          rw [hu] at h
          cases h
          have hsf : ∀ n ∈ savers, Fresh n := by
            intro n hn
            obtain ⟨a, _, m, h1, h2⟩ := (generateAll_mem hs n).1 hn
            exact materializerNodes_fresh h1 n h2
          have hlf : ∀ n ∈ loaders, Fresh n := by
            intro n hn
            obtain ⟨a, _, m, h1, h2⟩ := (generateAll_mem hl n).1 hn
            obtain ⟨t, cls, _, _, _, rfl⟩ := extractorNodes_cases h1
            simp only [List.mem_cons, List.not_mem_nil, or_false] at h2
            rcases h2 with rfl | rfl
            · exact loaderNode_fresh _ _ _ _ _
            · exact filterNode_fresh _ _ _
          have hempty : PlainGraph ([] : Graph T V) :=
            ⟨by simp [Dict.keys], by simp, by simp, by simp⟩
          have hext := insertNodes_plain hsf hempty
          unfold withNodes at hw
          dsimp only at hw
          by_cases hd : g.keys.filter (fun k => (insertNodes [] savers).has k) = []
          · rw [if_neg (by simp [hd])] at hw
            have hno : ∀ k, lastDef savers k ≠ none → g.get? k = none := by
              intro k hk
              rw [List.filter_eq_nil_iff] at hd
              cases hgk : g.get? k with
              | none => rfl
              | some n =>
                have := hd k (Dict.mem_keys_iff.2 ⟨n, hgk⟩)
                exfalso; apply this
                rw [Dict.has_eq_true_iff, insertNodes_get]
                cases hls : lastDef savers k with
                | none => exact absurd hls hk
                | some m => exact ⟨m, by simp⟩
            have hget : ∀ k, (g.merge (insertNodes [] savers)).get? k = (lastDef savers k).or (g.get? k) := by
              intro k
              rw [Dict.get?_merge _ _ hext.nodup, insertNodes_get]
              simp
            have hpm : PlainGraph (g.merge (insertNodes [] savers)) := by
              refine ⟨Dict.merge_keys_nodup hg.keys_nodup _, ?_, ?_, ?_⟩
              all_goals
                intro k n hk
                rw [Dict.get?_merge _ _ hext.nodup] at hk
                cases hx : (insertNodes [] savers).get? k with
                | none =>
                  rw [hx] at hk
                  simp only [Option.none_or] at hk
                  first
                  | exact hg.plain.name_eq k n hk
                  | exact hg.plain.params_nodup k n hk
                  | exact hg.plain.external_no_params k n hk
                | some m =>
                  rw [hx] at hk
                  simp only [Option.some_or, Option.some.injEq] at hk
                  subst hk
                  first
                  | exact hext.name_eq k _ hx
                  | exact hext.params_nodup k _ hx
                  | exact hext.external_no_params k _ hx
            obtain ⟨w1, o1, n1⟩ := rewire_spec hpm hw
            obtain ⟨w2, o2, n2⟩ := rewire_spec (insertNodes_plain hlf w1.plain) hu
            have keep : ∀ k n, g.get? k = some n → ∃ n', g1.get? k = some n' ∧ SameFn n n' := by
              intro k n hk
              apply o1
              rw [hget]
              cases hls : lastDef savers k with
              | none => simpa using hk
              | some m => rw [hno k (by simp [hls])] at hk; cases hk
            refine ⟨savers, g1, loaders, rfl, hl, w1, w2, ?_, ?_, ?_, ?_, keep, ?_⟩
            · intro n hn
              apply hno
              intro he
              rw [lastDef_none] at he
              exact he n hn rfl
            · intro k n hk
              exact o2 k n (by rw [insertNodes_get, hk]; rfl)
            · intro k n hk1 hk2
              obtain ⟨n', h1, h2⟩ := o1 k n (by rw [hget, hk2]; rfl)
              obtain ⟨n'', h3, h4⟩ := o2 k n' (by rw [insertNodes_get, hk1]; simpa using h1)
              exact ⟨n'', h3, h2.trans h4⟩
            · intro k n hk1 hk2
              obtain ⟨n', h1, h2⟩ := keep k n hk2
              obtain ⟨n'', h3, h4⟩ := o2 k n' (by rw [insertNodes_get, hk1]; simpa using h1)
              exact ⟨n'', h3, h2.trans h4⟩
            · intro k n' hk' hk1 hk2 hk3
              cases hg1 : g1.get? k with
              | none => exact n2 k n' hk' (by rw [insertNodes_get, hk3, hg1]; rfl)
              | some m =>
                have hm := n1 k m hg1 (by rw [hget, hk1, hk2]; rfl)
                obtain ⟨n'', h3, h4⟩ := o2 k m (by rw [insertNodes_get, hk3]; simpa using hg1)
                rw [hk'] at h3; cases h3
                rw [h4.kind]; exact hm
          · rw [if_pos hd] at hw; cases hw

end Verif
