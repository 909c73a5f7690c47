import Verif.Proofs.Build

namespace Verif
variable {T V : Type}

/-- A node as `resolve_nodes` returns it: a function node with distinct parameters and no recorded edges. -/
structure Fresh (n : Node T V) : Prop where
  params_nodup : n.inputTypes.keys.Nodup
  no_deps : n.dependencies = []
  no_cons : n.dependedOnBy = []
  kind : n.kind ≠ .external

/-- The last definition of a name in a list of nodes. -/
def lastDef (fns : List (Node T V)) (k : Name) : Option (Node T V) :=
  fns.reverse.find? (fun n => n.name = k)

theorem lastDef_append_singleton (fns : List (Node T V)) (n : Node T V) (k : Name) :
    lastDef (fns ++ [n]) k = if n.name = k then some n else lastDef fns k := by
  unfold lastDef
  rw [List.reverse_append]
  simp only [List.reverse_cons, List.reverse_nil, List.nil_append, List.cons_append, List.find?_cons]
  by_cases h : n.name = k <;> simp [h]

theorem lastDef_name {fns : List (Node T V)} {k : Name} {n : Node T V} (h : lastDef fns k = some n) :
    n.name = k ∧ n ∈ fns := by
  unfold lastDef at h
  have h1 := List.find?_some h
  have h2 := List.mem_of_find?_eq_some h
  exact ⟨by simpa using h1, by simpa using h2⟩

theorem lastDef_none {fns : List (Node T V)} {k : Name} : lastDef fns k = none ↔ ∀ n ∈ fns, n.name ≠ k := by
  unfold lastDef
  rw [List.find?_eq_none]
  simp

/-- Body of the collection loop. -/
def collectStep (config : Dict Name V) (allow : Bool) (nodes : Graph T V) (n : Node T V) :
    Except BuildErr (Graph T V) :=
  if config.has n.name then .ok nodes
  else if nodes.has n.name && !allow then .error (.duplicate n.name)
  else .ok (nodes.set n.name n)

theorem collectNodes_eq (config : Dict Name V) (allow : Bool) (fns : List (Node T V)) :
    collectNodes config allow fns = fns.foldlM (collectStep config allow) [] := rfl

/-- Names that the collection loop does not skip. -/
def unshadowed (config : Dict Name V) (fns : List (Node T V)) : List Name :=
  (fns.map (·.name)).filter (fun k => !config.has k)

theorem collect_spec (config : Dict Name V) (allow : Bool) (fns : List (Node T V)) :
    ∀ (g0 : Graph T V) (pre : List (Node T V)),
      g0.keys.Nodup →
      (∀ k, g0.get? k = if config.has k then none else lastDef pre k) →
      match fns.foldlM (collectStep config allow) g0 with
      | .ok g => g.keys.Nodup ∧ (∀ k, g.get? k = if config.has k then none else lastDef (pre ++ fns) k) ∧
          (allow = true ∨ ((unshadowed config fns).Nodup ∧ ∀ k ∈ unshadowed config fns, g0.get? k = none))
      | .error e => (∃ k, e = .duplicate k ∧ k ∈ unshadowed config fns) ∧ allow = false ∧
          ¬ ((unshadowed config fns).Nodup ∧ ∀ k ∈ unshadowed config fns, g0.get? k = none) := by
  induction fns with
  | nil =>
    intro g0 pre hn hl
    simp only [List.foldlM_nil]
    exact ⟨hn, by simpa using hl, .inr (by simp [unshadowed])⟩
  | cons n ns ih =>
    intro g0 pre hn hl
    simp only [List.foldlM_cons]
    have hpre : pre ++ n :: ns = (pre ++ [n]) ++ ns := by simp
    cases hst : collectStep config allow g0 n with
    | error e =>
      unfold collectStep at hst
      split at hst
      · cases hst
      · rename_i hcfg
        split at hst
        · rename_i hdup
          cases hst
          simp only [Bool.and_eq_true, Bool.not_eq_true'] at hdup
          refine ⟨⟨n.name, rfl, ?_⟩, hdup.2, ?_⟩
          · simp [unshadowed, hcfg]
          · rintro ⟨_, h⟩
            have := h n.name (by simp [unshadowed, hcfg])
            rw [← Dict.has_eq_false_iff, hdup.1] at this
            cases this
        · cases hst
    | ok g1 =>
      simp only [bind, Except.bind]
      unfold collectStep at hst
      split at hst
      · rename_i hcfg
        cases hst
        have hun : unshadowed config (n :: ns) = unshadowed config ns := by
          simp [unshadowed, hcfg]
        have := ih g0 (pre ++ [n]) hn (by
          intro k
          rw [hl k, lastDef_append_singleton]
          by_cases hk : n.name = k
          · subst hk; simp [hcfg]
          · simp [hk])
        rw [hun, hpre]
        exact this
      · rename_i hcfg
        split at hst
        · cases hst
        · rename_i hdup
          cases hst
          have hun : unshadowed config (n :: ns) = n.name :: unshadowed config ns := by
            simp [unshadowed, hcfg]
          have h2 := ih (g0.set n.name n) (pre ++ [n]) (Dict.keys_set_nodup hn _ _) (by
            intro k
            rw [Dict.get?_set, lastDef_append_singleton, hl k]
            by_cases hk : n.name = k
            · subst hk; simp [hcfg]
            · simp [hk])
          rw [hun, hpre]
          revert h2
          generalize List.foldlM (collectStep config allow) (g0.set n.name n) ns = o
          intro h2
          cases o with
          | ok g =>
            refine ⟨h2.1, h2.2.1, ?_⟩
            rcases h2.2.2 with h | ⟨h, h'⟩
            · exact .inl h
            · by_cases ha : allow = true
              · exact .inl ha
              · right
                have hnone : g0.get? n.name = none := by
                  rw [← Dict.has_eq_false_iff]
                  simp only [Bool.and_eq_true, Bool.not_eq_true', not_and] at hdup
                  cases hh : g0.has n.name with
                  | false => rfl
                  | true => exact absurd (by simpa using ha) (hdup hh)
                refine ⟨?_, ?_⟩
                · rw [List.nodup_cons]
                  refine ⟨fun hm => ?_, h⟩
                  have := h' _ hm
                  simp at this
                · intro k hk
                  rcases List.mem_cons.1 hk with rfl | hk
                  · exact hnone
                  · have := h' k hk
                    rw [Dict.get?_set] at this
                    split at this
                    · cases this
                    · exact this
          | error e =>
            obtain ⟨⟨k, he, hk⟩, ha, hno⟩ := h2
            refine ⟨⟨k, he, by simp [hk]⟩, ha, ?_⟩
            rintro ⟨hnd, hall⟩
            rw [List.nodup_cons] at hnd
            apply hno
            refine ⟨hnd.2, ?_⟩
            intro j hj
            rw [Dict.get?_set]
            have hne : n.name ≠ j := by rintro rfl; exact hnd.1 hj
            simp only [hne, if_false]
            exact hall j (by simp [hj])

/-- The final loop adding config-only inputs keeps a graph well-formed. -/
theorem addConfig_spec (any : T) (ks : List Name) : ∀ g : Graph T V, WellFormed g →
    let g' := ks.foldl (fun (nodes : Graph T V) k =>
      if nodes.has k then nodes else nodes.set k (externalNode k any)) g
    WellFormed g' ∧ (∀ k n, g.get? k = some n → g'.get? k = some n) ∧
    (∀ k ∈ ks, ∃ n, g'.get? k = some n) ∧
    (∀ k n, g'.get? k = some n → g.get? k = some n ∨ (k ∈ ks ∧ n.kind = .external)) := by
  induction ks with
  | nil => intro g hw; exact ⟨hw, fun _ _ h => h, by simp, fun _ _ h => .inl h⟩
  | cons a ks ih =>
    intro g hw
    simp only [List.foldl_cons]
    by_cases ha : g.has a = true
    · rw [if_pos ha]
      obtain ⟨h1, h2, h3, h4⟩ := ih g hw
      refine ⟨h1, h2, ?_, ?_⟩
      · intro k hk
        rcases List.mem_cons.1 hk with rfl | hk
        · obtain ⟨n, hn⟩ := (Dict.has_eq_true_iff _ _).1 ha
          exact ⟨n, h2 _ _ hn⟩
        · exact h3 k hk
      · intro k n hk
        rcases h4 k n hk with h | ⟨h, h'⟩
        · exact .inl h
        · exact .inr ⟨by simp [h], h'⟩
    · rw [if_neg ha]
      have hnone : g.get? a = none := by
        rw [← Dict.has_eq_false_iff]; simpa using ha
      have hget : ∀ k, (g.set a (externalNode a any)).get? k =
          if a = k then some (externalNode a any) else g.get? k := fun k => Dict.get?_set _ _ _ _
      have hw' : WellFormed (g.set a (externalNode a any)) := by
        refine ⟨Dict.keys_set_nodup hw.keys_nodup _ _, ?_, ?_, ?_, ?_, ?_, ?_⟩
        · intro k n hk
          rw [hget] at hk
          split at hk
          · cases hk; simp_all [externalNode]
          · exact hw.name_eq hk
        · intro k n hk
          rw [hget] at hk
          split at hk
          · cases hk; rfl
          · exact hw.deps_eq hk
        · intro k n hk
          rw [hget] at hk
          split at hk
          · cases hk; simp [externalNode, Dict.keys]
          · exact hw.params_nodup hk
        · intro k n d hk hd
          rw [hget] at hk
          split at hk
          · cases hk; simp [externalNode, Dict.keys] at hd
          · obtain ⟨dn, hdn⟩ := hw.deps_in hk hd
            refine ⟨dn, ?_⟩
            rw [hget]
            have : a ≠ d := by rintro rfl; rw [hnone] at hdn; cases hdn
            simp [this, hdn]
        · intro d dn hd m
          have hcons : (∃ mn, (g.set a (externalNode a any)).get? m = some mn ∧ d ∈ mn.inputTypes.keys) ↔
              ∃ mn, g.get? m = some mn ∧ d ∈ mn.inputTypes.keys := by
            constructor
            · rintro ⟨mn, h1, h2⟩
              rw [hget] at h1
              split at h1
              · cases h1; simp [externalNode, Dict.keys] at h2
              · exact ⟨mn, h1, h2⟩
            · rintro ⟨mn, h1, h2⟩
              refine ⟨mn, ?_, h2⟩
              rw [hget]
              have : a ≠ m := by rintro rfl; rw [hnone] at h1; cases h1
              simp [this, h1]
          rw [hcons]
          rw [hget] at hd
          split at hd
          · rename_i had
            cases hd
            subst had
            constructor
            · intro hm; simp [externalNode] at hm
            · rintro ⟨mn, h1, h2⟩
              obtain ⟨dn, hdn⟩ := hw.deps_in h1 h2
              rw [hnone] at hdn; cases hdn
          · exact hw.consumers hd m
        · intro k n hk hext
          rw [hget] at hk
          split at hk
          · cases hk; rfl
          · exact hw.external_no_params hk hext
      obtain ⟨h1, h2, h3, h4⟩ := ih _ hw'
      refine ⟨h1, ?_, ?_, ?_⟩
      · intro k n hk
        apply h2
        rw [hget]
        have : a ≠ k := by rintro rfl; rw [hnone] at hk; cases hk
        simp [this, hk]
      · intro k hk
        rcases List.mem_cons.1 hk with rfl | hk
        · exact ⟨externalNode k any, h2 _ _ (by rw [hget]; simp)⟩
        · exact h3 k hk
      · intro k n hk
        rcases h4 k n hk with h | ⟨h, h'⟩
        · rw [hget] at h
          split at h
          · rename_i hak
            cases h; subst hak
            exact .inr ⟨by simp, rfl⟩
          · exact .inl h
        · exact .inr ⟨by simp [h], h'⟩

/-- What `create_function_graph` returns. -/
theorem createFunctionGraph_spec {tm : T → T → Bool} {any : T} {config : Dict Name V} {allow : Bool}
    {fns : List (Node T V)} (hf : ∀ n ∈ fns, Fresh n) {g : Graph T V}
    (h : createFunctionGraph tm any config allow fns = .ok g) :
    WellFormed g ∧
    (∀ k ∈ config.keys, ∃ n, g.get? k = some n ∧ n.kind = .external) ∧
    (∀ k n0, k ∉ config.keys → lastDef fns k = some n0 → ∃ n, g.get? k = some n ∧ SameFn n0 n) ∧
    (∀ k n, g.get? k = some n → n.kind = .external → k ∈ config.keys ∨
      ∃ f fn, g.get? f = some fn ∧ k ∈ fn.inputTypes.keys) ∧
    (∀ k n, g.get? k = some n → k ∉ config.keys → lastDef fns k = none → n.kind = .external) ∧
    (allow = true ∨ (unshadowed config fns).Nodup) := by
  unfold createFunctionGraph at h
  have hc := collect_spec config allow fns [] [] (by simp [Dict.keys]) (by intro k; simp [lastDef])
  rw [collectNodes_eq] at h
  cases hcol : List.foldlM (collectStep config allow) [] fns with
  | error e => rw [hcol] at h; cases h
  | ok g0 =>
    rw [hcol] at h hc
    simp only [List.nil_append] at hc
    obtain ⟨hn0, hl0, hdup⟩ := hc
    have hun : Unwired g0 := by
      have hfr : ∀ k n, g0.get? k = some n → n.name = k ∧ Fresh n := by
        intro k n hk
        rw [hl0 k] at hk
        split at hk
        · cases hk
        · exact ⟨(lastDef_name hk).1, hf _ (lastDef_name hk).2⟩
      exact ⟨hn0, fun k n hk => (hfr k n hk).1, fun k n hk => (hfr k n hk).2.params_nodup,
        fun k n hk => ⟨(hfr k n hk).2.no_deps, (hfr k n hk).2.no_cons⟩,
        fun k n hk he => absurd he (hfr k n hk).2.kind⟩
    cases hup : updateDependencies tm false g0 with
    | error e => simp only [hup, bind, Except.bind] at h; cases h
    | ok g1 =>
      simp only [hup, bind, Except.bind, pure, Except.pure, Except.ok.injEq] at h
      obtain ⟨hw1, hold, hnew⟩ := updateDependencies_spec hun hup
      have hcfg := addConfig_spec any config.keys g1 hw1
      rw [h] at hcfg
      obtain ⟨hw, hk1, hk2, hk3⟩ := hcfg
      have hg0cfg : ∀ k ∈ config.keys, g0.get? k = none := by
        intro k hk
        rw [hl0 k, if_pos ((Dict.has_iff _ _).2 hk)]
      have hg0not : ∀ k, k ∉ config.keys → g0.get? k = lastDef fns k := by
        intro k hk
        rw [hl0 k, if_neg (by rw [Dict.has_iff]; exact hk)]
      refine ⟨hw, ?_, ?_, ?_, ?_, ?_⟩
      · intro k hk
        obtain ⟨n, hn⟩ := hk2 k hk
        refine ⟨n, hn, ?_⟩
        rcases hk3 k n hn with h1 | h1
        · exact (hnew k n h1 (hg0cfg k hk)).1
        · exact h1.2
      · intro k n0 hk hd
        rw [← hg0not k hk] at hd
        obtain ⟨n, hn, hs⟩ := hold k n0 hd
        exact ⟨n, hk1 k n hn, hs⟩
      · intro k n hn hext
        by_cases hkc : k ∈ config.keys
        · exact .inl hkc
        · right
          rcases hk3 k n hn with h1 | h1
          · cases h0 : g0.get? k with
            | none =>
              obtain ⟨_, f, fn, hf0, hp⟩ := hnew k n h1 h0
              obtain ⟨fn', hfn', hs⟩ := hold f fn hf0
              exact ⟨f, fn', hk1 _ _ hfn', by rw [hs.inputTypes]; exact hp⟩
            | some n0 =>
              obtain ⟨n', hn', hs⟩ := hold k n0 h0
              rw [h1] at hn'; cases hn'
              rw [hs.kind] at hext
              rw [hg0not k hkc] at h0
              exact absurd hext (hf _ (lastDef_name h0).2).kind
          · exact absurd h1.1 hkc
      · intro k n hn hkc hl
        rcases hk3 k n hn with h1 | h1
        · exact (hnew k n h1 (by rw [hg0not k hkc]; exact hl)).1
        · exact h1.2
      · rcases hdup with h1 | h1
        · exact .inl h1
        · exact .inr h1.1

/-- Duplicate definitions are reported exactly when they exist and are not allowed. -/
theorem createFunctionGraph_duplicate {tm : T → T → Bool} {any : T} {config : Dict Name V} {allow : Bool}
    {fns : List (Node T V)} :
    (∃ k, createFunctionGraph tm any config allow fns = .error (.duplicate k)) ↔
      allow = false ∧ ¬ (unshadowed config fns).Nodup := by
  have hc := collect_spec config allow fns [] [] (by simp [Dict.keys]) (by intro k; simp [lastDef])
  unfold createFunctionGraph
  rw [collectNodes_eq]
  cases hcol : List.foldlM (collectStep config allow) [] fns with
  | error e =>
    rw [hcol] at hc
    obtain ⟨⟨k, rfl, _⟩, ha, hno⟩ := hc
    constructor
    · intro _
      refine ⟨ha, fun hn => hno ⟨hn, by simp⟩⟩
    · intro _
      exact ⟨k, rfl⟩
  | ok g0 =>
    rw [hcol] at hc
    obtain ⟨_, _, hd⟩ := hc
    constructor
    · rintro ⟨k, hk⟩
      exfalso
      simp only [bind, Except.bind] at hk
      have hno : ∀ (l : Graph T V) (g1 : Graph T V), ∀ e,
          l.foldlM (fun acc p => addDependencies tm p.1 p.2.inputTypes acc) g1 = .error e →
          ∀ k, e ≠ .duplicate k := by
        have hedge : ∀ (g1 : Graph T V) f p e, addEdge g1 f p = .error e → ∀ k, e ≠ .duplicate k := by
          intro g1 f p e he k
          unfold addEdge at he
          split at he
          · cases he; simp
          · simp only at he
            split at he
            · cases he; simp
            · cases he
        have hadd : ∀ (g1 : Graph T V) f p ty e, addDependency tm g1 f p ty = .error e → ∀ k, e ≠ .duplicate k := by
          intro g1 f p ty e he k
          unfold addDependency at he
          split at he
          · split at he
            · exact hedge _ _ _ _ he k
            · split at he
              · split at he
                · exact hedge _ _ _ _ he k
                · cases he; simp
              · cases he; simp
          · exact hedge _ _ _ _ he k
        have hadds : ∀ (ps : Dict Name (T × DepType)) (g1 : Graph T V) f e,
            addDependencies tm f ps g1 = .error e → ∀ k, e ≠ .duplicate k := by
          intro ps
          induction ps with
          | nil => intro g1 f e he; simp [addDependencies, pure, Except.pure] at he
          | cons q qs ih =>
            intro g1 f e he k
            simp only [addDependencies, List.foldlM_cons] at he
            cases h1 : addDependency tm g1 f q.1 q.2.1 with
            | error e' => rw [h1] at he; cases he; exact hadd _ _ _ _ _ h1 k
            | ok g2 => rw [h1] at he; exact ih g2 f e he k
        intro l
        induction l with
        | nil => intro g1 e he; simp [pure, Except.pure] at he
        | cons q qs ih =>
          intro g1 e he k
          simp only [List.foldlM_cons] at he
          cases h1 : addDependencies tm q.1 q.2.inputTypes g1 with
          | error e' => rw [h1] at he; cases he; exact hadds _ _ _ _ h1 k
          | ok g2 => rw [h1] at he; exact ih g2 e he k
      cases hup : updateDependencies tm false g0 with
      | error e =>
        rw [hup] at hk
        simp only [updateDependencies] at hup
        have : e = .duplicate k := by simpa using hk
        exact hno _ _ e (by simpa using hup) k this
      | ok g1 => rw [hup] at hk; cases hk
    · rintro ⟨ha, hno⟩
      rcases hd with h | h
      · rw [ha] at h; cases h
      · exact absurd h.1 hno

end Verif
