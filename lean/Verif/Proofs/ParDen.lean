import Verif.Spec.Parallel
import Verif.Proofs.Exec

/-! Facts about the sequential reading `ParDen`. -/
namespace Verif
variable {T V : Type} {ops : TaskOps T V} {g : Graph T V} {inputs : Dict Name V}

theorem Absent.not_par {ov : Dict Name V} {k : Name} {v : V} (ha : Absent g inputs ov k) : ¬ ParDen ops g inputs ov k v := by
  obtain ⟨n, hn, hk, hi, ho⟩ := ha
  intro hd
  cases hd with
  | override _ h => rw [ho] at h; cases h
  | input _ _ _ h => rw [hi] at h; cases h
  | call val h1 h2 h3 => rw [hn] at h1; cases h1; exact h3 hk
  | collect val h1 h2 h3 => rw [hn] at h1; cases h1; rw [hk] at h3; cases h3

/-- Names that a computation does not leave. -/
structure ParClosed (g : Graph T V) (ov : Dict Name V) (S : Name → Prop) : Prop where
  params : ∀ k n, S k → g.get? k = some n → ov.get? k = none → ∀ d ∈ n.inputTypes.keys, S d
  feed : ∀ k n e, S k → g.get? k = some n → ov.get? k = none → n.kind = .collect → Feeds g e k → S e

theorem get?_set_none {ov : Dict Name V} {e j : Name} {x : V} (h : (ov.set e x).get? j = none) : ov.get? j = none := by
  rw [Dict.get?_set] at h
  split at h
  · cases h
  · exact h

/-- Only the overrides of names in a closed set matter. -/
theorem ParDen.local {S : Name → Prop} {ov0 ov : Dict Name V} (hS : ParClosed g ov0 S) {k : Name} {v : V}
    (h : ParDen ops g inputs ov k v) (hle : ∀ j, ov.get? j = none → ov0.get? j = none) (ov' : Dict Name V)
    (hag : ∀ j, S j → ov'.get? j = ov.get? j) (hk : S k) : ParDen ops g inputs ov' k v := by
  induction h generalizing ov' with
  | override h1 h2 => exact .override h1 (by rw [hag _ hk]; exact h2)
  | input h1 h2 h3 h4 => exact .input h1 (by rw [hag _ hk]; exact h2) h3 h4
  | @call ov k n v w val h1 h2 h3 h4 h5 h6 h7 h8 ih =>
    have hp := hS.params k n hk h1 (hle _ h2)
    refine .call val h1 (by rw [hag _ hk]; exact h2) h3 h4 (fun d w hd hv => ih d w hd hv hle ov' hag (hp d hd)) ?_ h7 h8
    intro d t hd hv
    obtain ⟨a, dn, b, c, e, f⟩ := h6 d t hd hv
    exact ⟨a, dn, b, c, e, by rw [hag _ (hp d (mem_keys_of_mem hd))]; exact f⟩
  | @collect ov k n v arg e l items vs val h1 h2 h3 h4 h5 h6 h7 h8 h9 h10 h11 h12 h13 ih6 ih9 ih11 =>
    have hp := hS.params k n hk h1 (hle _ h2)
    have hargS : S arg := by
      obtain ⟨⟨t, ht, _⟩, _⟩ := h4
      exact hp arg (mem_keys_of_mem ht)
    refine .collect val h1 (by rw [hag _ hk]; exact h2) h3 h4 h5
      (ih6 hle ov' hag (hS.feed k n e hk h1 (hle _ h2) h3 h5)) h7 h8 ?_ h10
      (fun d w hd hne hv => ih11 d w hd hne hv hle ov' hag (hp d hd)) ?_ h13
    · intro i item w hi hw
      refine ih9 i item w hi hw (fun j hj => hle j (get?_set_none hj)) _ ?_ hargS
      intro j hj
      rw [Dict.get?_set, Dict.get?_set, hag j hj]
    · intro d t hd hv
      obtain ⟨a, dn, b, c, e, f⟩ := h12 d t hd hv
      exact ⟨a, dn, b, c, e, by rw [hag _ (hp d (mem_keys_of_mem hd))]; exact f⟩

/-- Values are unique if collectors belong to one `Parallelizable`. -/
theorem ParDen.det {S : Name → Prop} {ov0 ov : Dict Name V} (hS : ParClosed g ov0 S)
    (hone : ∀ k n e e', S k → g.get? k = some n → n.kind = .collect → Feeds g e k → Feeds g e' k → e = e')
    {k : Name} {v v' : V} (h : ParDen ops g inputs ov k v) (h' : ParDen ops g inputs ov k v')
    (hle : ∀ j, ov.get? j = none → ov0.get? j = none) (hk : S k) : v = v' := by
  induction h generalizing v' with
  | override h1 h2 => cases h' <;> simp_all
  | input h1 h2 h3 h4 => cases h' <;> simp_all
  | @call ov k n v w val h1 h2 h3 h4 h5 h6 h7 h8 ih =>
    have hp := hS.params k n hk h1 (hle _ h2)
    cases h' with
    | override => simp_all
    | input => simp_all
    | call val' g1 g2 g3 g4 g5 g6 g7 g8 =>
      rw [h1] at g1; cases g1
      have hargs : argsFor n.inputTypes val = argsFor n.inputTypes val' := by
        apply argsFor_congr
        intro d hd
        obtain ⟨p, hpm, rfl⟩ := List.mem_map.1 hd
        cases hv : val p.1 with
        | none =>
          cases hv' : val' p.1 with
          | none => rfl
          | some w => exact absurd (g5 _ _ hd hv') (h6 _ _ hpm hv).2.not_par
        | some w =>
          cases hv' : val' p.1 with
          | none => exact absurd (h5 _ _ hd hv) (g6 _ _ hpm hv').2.not_par
          | some w' => rw [ih _ _ hd hv (g5 _ _ hd hv') hle (hp _ hd)]
      rw [hargs, g7] at h7
      cases h7
      unfold Listed at h8 g8
      split at h8
      · rename_i hx
        rw [if_pos hx] at g8
        obtain ⟨l, a, rfl⟩ := h8
        obtain ⟨l', a', rfl⟩ := g8
        rw [a] at a'
        cases a'; rfl
      · rename_i hx
        rw [if_neg hx] at g8
        rw [h8, g8]
    | collect val' g1 g2 g3 => rw [h1] at g1; cases g1; exact absurd g3 h4
  | @collect ov k n v arg e l items vs val h1 h2 h3 h4 h5 h6 h7 h8 h9 h10 h11 h12 h13 ih6 ih9 ih11 =>
    have hp := hS.params k n hk h1 (hle _ h2)
    cases h' with
    | override => simp_all
    | input => simp_all
    | call val' g1 g2 g3 g4 => rw [h1] at g1; cases g1; exact absurd h3 g4
    | @collect _ _ _ _ arg' e' l' items' vs' val' g1 g2 g3 g4 g5 g6 g7 g8 g9 g10 g11 g12 g13 =>
      rw [h1] at g1; cases g1
      have harg : arg = arg' := by
        obtain ⟨⟨t, ht, hc⟩, _⟩ := h4
        exact g4.2 _ ht hc
      subst harg
      have hee : e = e' := hone k n e e' hk h1 h3 h5 g5
      subst hee
      have hl := ih6 g6 hle (hS.feed k n e hk h1 (hle _ h2) h3 h5)
      subst hl
      rw [h7] at g7
      cases g7
      have hargS : S arg := by
        obtain ⟨⟨t, ht, _⟩, _⟩ := h4
        exact hp arg (mem_keys_of_mem ht)
      have hvs : vs = vs' := by
        apply List.ext_getElem (by rw [h8, g8])
        intro i hi hi'
        have hii : i < items.length := by rw [← h8]; exact hi
        exact ih9 i items[i] vs[i] (List.getElem?_eq_getElem hii) (List.getElem?_eq_getElem hi)
          (g9 i items[i] vs'[i] (List.getElem?_eq_getElem hii) (List.getElem?_eq_getElem hi'))
          (fun j hj => hle j (get?_set_none hj)) hargS
      subst hvs
      have hargs : argsFor n.inputTypes val = argsFor n.inputTypes val' := by
        apply argsFor_congr
        intro d hd
        obtain ⟨p, hpm, rfl⟩ := List.mem_map.1 hd
        by_cases hda : p.1 = arg
        · rw [hda, h10, g10]
        · cases hv : val p.1 with
          | none =>
            cases hv' : val' p.1 with
            | none => rfl
            | some w => exact absurd (g11 _ _ hd hda hv') (h12 _ _ hpm hv).2.not_par
          | some w =>
            cases hv' : val' p.1 with
            | none => exact absurd (h11 _ _ hd hda hv) (g12 _ _ hpm hv').2.not_par
            | some w' => rw [ih11 _ _ hd hda hv (g11 _ _ hd hda hv') hle (hp _ hd)]
      rw [hargs, g13] at h13
      cases h13; rfl

end Verif
