import Verif.Proofs.Query
import Verif.Proofs.Subdag

namespace Verif
variable {T V : Type}

/-- The node named `x` satisfies the search condition. -/
def Matches (g : Graph T V) (cond : Node T V → Bool) (x : Name) : Prop :=
  ∃ n, g.get? x = some n ∧ cond n = true

/-- A dependency step from a node at which the search does not stop. -/
def SearchEdge (g : Graph T V) (cond : Node T V → Bool) (a b : Name) : Prop :=
  ¬ Matches g cond a ∧ DependsOn g a b

/-- `x` is, or depends transitively on, a matching node. -/
def LeadsTo (g : Graph T V) (cond : Node T V → Bool) (x : Name) : Prop :=
  ∃ c, Reaches (DependsOn g) x c ∧ Matches g cond c

/-- The search of `x` is finished. -/
structure Fin' (g : Graph T V) (cond : Node T V → Bool) (s : Between) (x : Name) : Prop where
  out_iff : x ∈ s.out ↔ LeadsTo g cond x
  closed : ∀ d, DependsOn g x d → (Matches g cond d ∧ s.found ≠ none) ∨ d ∈ s.visited

/-- How a (sub)search from the names in `from_` changes the state. -/
structure Grow (g : Graph T V) (cond : Node T V → Bool) (rank : Name → Nat) (bound : Nat) (src : Name → Prop)
    (s s' : Between) : Prop where
  vis : ∀ x ∈ s.visited, x ∈ s'.visited
  found : s.found ≠ none → s'.found ≠ none
  out : ∀ x ∈ s.visited, (x ∈ s'.out ↔ x ∈ s.out)
  new : ∀ x ∈ s'.visited, x ∈ s.visited ∨
    (Fin' g cond s' x ∧ rank x ≤ bound ∧ ¬ Matches g cond x ∧ ∃ r, src r ∧ Reaches (SearchEdge g cond) r x)
  out_vis : (∀ x ∈ s.out, x ∈ s.visited) → ∀ x ∈ s'.out, x ∈ s'.visited
  found_ok : ∀ c, s'.found = some c → s.found = some c ∨
    (Matches g cond c ∧ ∃ r, src r ∧ Reaches (SearchEdge g cond) r c)

variable {g : Graph T V} {cond : Node T V → Bool} {rank : Name → Nat}

theorem Fin'.grow {b : Nat} {src : Name → Prop} {s s' : Between} (h : Grow g cond rank b src s s') {x : Name}
    (hx : x ∈ s.visited) (hf : Fin' g cond s x) : Fin' g cond s' x :=
  ⟨by rw [h.out x hx]; exact hf.out_iff, fun d hd => by
    rcases hf.closed d hd with ⟨h1, h2⟩ | h1
    · exact .inl ⟨h1, h.found h2⟩
    · exact .inr (h.vis d h1)⟩

theorem Grow.refl (b : Nat) (src : Name → Prop) (s : Between) : Grow g cond rank b src s s :=
  ⟨fun _ h => h, fun h => h, fun _ _ => Iff.rfl, fun _ h => .inl h, fun h => h, fun _ h => .inl h⟩

theorem Grow.trans {b1 b2 b : Nat} {src1 src2 src : Name → Prop} {s s' s'' : Between}
    (h1 : Grow g cond rank b1 src1 s s') (h2 : Grow g cond rank b2 src2 s' s'')
    (hb1 : b1 ≤ b) (hb2 : b2 ≤ b) (hs1 : ∀ r, src1 r → src r) (hs2 : ∀ r, src2 r → src r) :
    Grow g cond rank b src s s'' where
  vis x hx := h2.vis x (h1.vis x hx)
  found h := h2.found (h1.found h)
  out x hx := by rw [h2.out x (h1.vis x hx), h1.out x hx]
  new x hx := by
    rcases h2.new x hx with h | ⟨h3, h4, h5, r, h6, h7⟩
    · rcases h1.new x h with h | ⟨h3, h4, h5, r, h6, h7⟩
      · exact .inl h
      · exact .inr ⟨h3.grow h2 h, Nat.le_trans h4 hb1, h5, r, hs1 r h6, h7⟩
    · exact .inr ⟨h3, Nat.le_trans h4 hb2, h5, r, hs2 r h6, h7⟩
  out_vis h := h2.out_vis (h1.out_vis h)
  found_ok c hc := by
    rcases h2.found_ok c hc with h | ⟨h3, r, h6, h7⟩
    · rcases h1.found_ok c h with h | ⟨h3, r, h6, h7⟩
      · exact .inl h
      · exact .inr ⟨h3, r, hs1 r h6, h7⟩
    · exact .inr ⟨h3, r, hs2 r h6, h7⟩

/-- Result of a search at `x`. -/
def Settled (g : Graph T V) (cond : Node T V → Bool) (s : Between) (x : Name) : Prop :=
  (Matches g cond x ∧ s.found ≠ none) ∨ (¬ Matches g cond x ∧ x ∈ s.visited)

/-- Specification of one visit. -/
def VisitSpec (g : Graph T V) (cond : Node T V → Bool) (rank : Name → Nat)
    (rec : Node T V → Between → Out (Between × Bool) QueryErr) (bound : Nat) : Prop :=
  ∀ k n s, g.get? k = some n → rank k < bound →
    (∀ x ∈ s.visited, rank x ≤ rank k → Fin' g cond s x) →
    (∀ x ∈ s.out, x ∈ s.visited) →
    ∃ s' b, rec n s = .ok (s', b) ∧ (b = true ↔ LeadsTo g cond k) ∧
      Grow g cond rank (rank k) (· = k) s s' ∧ Settled g cond s' k

theorem betweenLoop_spec {rec : Node T V → Between → Out (Between × Bool) QueryErr} {bound : Nat}
    (hrec : VisitSpec g cond rank rec bound) (ds : List Name) :
    ∀ (s : Between) (b : Bool), (∀ d ∈ ds, ∃ dn, g.get? d = some dn) → (∀ d ∈ ds, rank d < bound) →
      (∀ x ∈ s.visited, rank x < bound → Fin' g cond s x) →
      (∀ x ∈ s.out, x ∈ s.visited) →
      ∃ s' b', forEach (betweenDep g rec) ds (s, b) = .ok (s', b') ∧
        (b' = true ↔ b = true ∨ ∃ d ∈ ds, LeadsTo g cond d) ∧
        Grow g cond rank (bound - 1) (· ∈ ds) s s' ∧ (∀ d ∈ ds, Settled g cond s' d) := by
  induction ds with
  | nil => intro s b _ _ _ _; exact ⟨s, b, rfl, by simp, Grow.refl _ _ _, by simp⟩
  | cons d ds ih =>
    intro s b hin hrank hfin hout
    obtain ⟨dn, hdn⟩ := hin d (by simp)
    have hrd := hrank d (by simp)
    obtain ⟨s1, b1, h1, hb1, hg1, hset1⟩ := hrec d dn s hdn hrd
      (fun x hx hr => hfin x hx (by omega)) hout
    have hfin1 : ∀ x ∈ s1.visited, rank x < bound → Fin' g cond s1 x := by
      intro x hx hr
      rcases hg1.new x hx with h | ⟨h, _⟩
      · exact (hfin x h hr).grow hg1 h
      · exact h
    obtain ⟨s2, b2, h2, hb2, hg2, hset2⟩ := ih s1 (b || b1)
      (fun d hd => hin d (by simp [hd])) (fun d hd => hrank d (by simp [hd])) hfin1 (hg1.out_vis hout)
    refine ⟨s2, b2, ?_, ?_, ?_, ?_⟩
    · simp only [forEach]
      have : betweenDep g rec d (s, b) = .ok (s1, b || b1) := by
        unfold betweenDep
        rw [hdn]
        simp only [h1, Out.bind]
      rw [this]
      exact h2
    · rw [hb2, Bool.or_eq_true, hb1]
      simp only [List.mem_cons, exists_eq_or_imp, or_assoc]
    · exact hg1.trans hg2 (by omega) (Nat.le_refl _) (by rintro r rfl; simp) (by intro r hr; simp [hr])
    · intro x hx
      rcases List.mem_cons.1 hx with rfl | hx
      · rcases hset1 with ⟨h3, h4⟩ | ⟨h3, h4⟩
        · exact .inl ⟨h3, hg2.found h4⟩
        · exact .inr ⟨h3, hg2.vis _ h4⟩
      · exact hset2 x hx

theorem betweenVisit_spec (hw : WellFormed g) (hr : Ranked g rank) (fuel : Nat) :
    VisitSpec g cond rank (betweenVisit g cond fuel) fuel := by
  induction fuel with
  | zero => intro k n s _ h; omega
  | succ fuel ih =>
    intro k n s hk hrk hfin hout
    have hname := hw.name_eq hk
    unfold betweenVisit
    by_cases hc : cond n = true
    · rw [if_pos hc]
      have hm : Matches g cond k := ⟨n, hk, hc⟩
      refine ⟨_, _, rfl, ?_, ?_, .inl ⟨hm, by simp⟩⟩
      · simp only [true_iff]; exact ⟨k, .refl _, hm⟩
      · refine ⟨fun _ h => h, by simp, fun _ _ => Iff.rfl, fun _ h => .inl h, fun h => h, ?_⟩
        intro c hc'
        simp only [Option.some.injEq] at hc'
        subst hc'
        right
        rw [hname]
        exact ⟨hm, k, rfl, .refl _⟩
    · rw [if_neg hc]
      have hnm : ¬ Matches g cond k := by
        rintro ⟨n', hn', hc'⟩
        rw [hk] at hn'; cases hn'; exact hc hc'
      rw [hname]
      by_cases hv : k ∈ s.visited
      · rw [if_pos (by simpa using hv)]
        refine ⟨_, _, rfl, ?_, Grow.refl _ _ _, .inr ⟨hnm, hv⟩⟩
        rw [List.contains_iff_mem]
        exact (hfin k hv (Nat.le_refl _)).out_iff
      · rw [if_neg (by simpa using hv)]
        have hdeps : ∀ d, d ∈ n.dependencies ↔ DependsOn g k d := by
          intro d
          rw [hw.deps_eq hk]
          constructor
          · intro h; exact ⟨n, hk, h⟩
          · rintro ⟨n', hn', h⟩; rw [hk] at hn'; cases hn'; exact h
        have hlt : ∀ d ∈ n.dependencies, rank d < rank k := by
          intro d hd
          exact hr k n hk d (by rw [← hw.deps_eq hk]; exact hd)
        let s0 : Between := { s with visited := setAdd s.visited k }
        have hrec' : VisitSpec g cond rank (betweenVisit g cond fuel) (rank k) := by
          intro k' n' s' h1 h2 h3
          exact ih k' n' s' h1 (by omega) h3
        obtain ⟨s1, b1, h1, hb1, hg1, hset1⟩ := betweenLoop_spec hrec' n.dependencies s0 false
          (fun d hd => hw.deps_in hk (by rw [← hw.deps_eq hk]; exact hd)) hlt
          (by
            intro x hx hrx
            have hx' : x ∈ s.visited := by
              rcases mem_setAdd.1 hx with h | h
              · exact h
              · subst h; omega
            obtain ⟨h1, h2⟩ := hfin x hx' (by omega)
            exact ⟨h1, fun d hd => (h2 d hd).imp id (fun h => mem_setAdd.2 (.inl h))⟩)
          (by intro x hx; exact mem_setAdd.2 (.inl (hout x hx)))
        have hlead : b1 = true ↔ LeadsTo g cond k := by
          rw [hb1]
          constructor
          · rintro (h | ⟨d, hd, c, hc1, hc2⟩)
            · cases h
            · exact ⟨c, Reaches.head ((hdeps d).1 hd) hc1, hc2⟩
          · rintro ⟨c, hc1, hc2⟩
            right
            -- first step of the path
            have key : ∀ {a c : Name}, Reaches (DependsOn g) a c → a = c ∨ ∃ d, DependsOn g a d ∧ Reaches (DependsOn g) d c := by
              intro a c h
              induction h with
              | refl => exact .inl rfl
              | step _ e ih =>
                rcases ih with rfl | ⟨d, h1, h2⟩
                · exact .inr ⟨_, e, .refl _⟩
                · exact .inr ⟨d, h1, .step h2 e⟩
            rcases key hc1 with rfl | ⟨d, h1, h2⟩
            · exact absurd hc2 hnm
            · exact ⟨d, (hdeps d).2 h1, c, h2, hc2⟩
        have hkv : k ∈ s1.visited := hg1.vis k (mem_setAdd.2 (.inr rfl))
        have hkout : k ∉ s.out := fun h => hv (hout k h)
        have hk1 : k ∉ s1.out := by
          rw [hg1.out k (mem_setAdd.2 (.inr rfl))]; exact hkout
        rw [h1]
        simp only [Out.bind]
        refine ⟨_, _, rfl, hlead, ?_, .inr ⟨hnm, ?_⟩⟩
        rotate_left
        · split <;> exact hkv
        -- membership in the final `out`
        have hfout : ∀ x, x ∈ (if b1 = true then { s1 with out := setAdd s1.out k } else s1).out ↔
            x ∈ s1.out ∨ (x = k ∧ b1 = true) := by
          intro x
          split
          · rename_i hb; simp [mem_setAdd, hb]
          · rename_i hb; simp [hb]
        have hfvis : (if b1 = true then { s1 with out := setAdd s1.out k } else s1).visited = s1.visited := by
          split <;> rfl
        have hffound : (if b1 = true then { s1 with out := setAdd s1.out k } else s1).found = s1.found := by
          split <;> rfl
        generalize (if b1 = true then { s1 with out := setAdd s1.out k } else s1) = s2 at hfout hfvis hffound
        refine ⟨?_, ?_, ?_, ?_, ?_, ?_⟩
        · intro x hx; rw [hfvis]; exact hg1.vis x (mem_setAdd.2 (.inl hx))
        · intro h; rw [hffound]; exact hg1.found h
        · intro x hx
          rw [hfout]
          have hxk : x ≠ k := by rintro rfl; exact hv hx
          have := hg1.out x (mem_setAdd.2 (.inl hx))
          simp [hxk, this, s0]
        · intro x hx
          rw [hfvis] at hx
          rcases hg1.new x hx with h | ⟨h3, h4, h5, r, h6, h7⟩
          · rcases mem_setAdd.1 h with h | rfl
            · exact .inl h
            · right
              refine ⟨⟨?_, ?_⟩, Nat.le_refl _, hnm, x, rfl, .refl _⟩
              · rw [hfout]
                simp [hk1, hlead]
              · intro d hd
                rw [hfvis, hffound]
                rcases hset1 d ((hdeps d).2 hd) with ⟨h8, h9⟩ | ⟨_, h9⟩
                · exact .inl ⟨h8, h9⟩
                · exact .inr h9
          · right
            have hxk : x ≠ k := by rintro rfl; have := hlt r h6; omega
            refine ⟨⟨?_, ?_⟩, by omega, h5, k, rfl, ?_⟩
            · rw [hfout, ← h3.out_iff]; simp [hxk]
            · intro d hd; rw [hfvis, hffound]; exact h3.closed d hd
            · exact Reaches.head ⟨hnm, (hdeps r).1 h6⟩ h7
        · intro _ x hx
          rw [hfout] at hx
          rw [hfvis]
          rcases hx with h | ⟨rfl, _⟩
          · exact hg1.out_vis (fun x hx => mem_setAdd.2 (.inl (hout x hx))) x h
          · exact hkv
        · intro c hc'
          rw [hffound] at hc'
          rcases hg1.found_ok c hc' with h | ⟨h3, r, h6, h7⟩
          · exact .inl h
          · exact .inr ⟨h3, k, rfl, Reaches.head ⟨hnm, (hdeps r).1 h6⟩ h7⟩

/-- What `nodes_between` returns. -/
theorem nodesBetween_spec (hw : WellFormed g) (hac : Acyclic g) {e : Name} {en : Node T V} (he : g.get? e = some en)
    (cond : Node T V → Bool) :
    ∃ s b, nodesBetween g en cond = .ok (s, b) ∧
      (∀ x, x ∈ s.out ↔ ¬ Matches g cond x ∧ LeadsTo g cond x ∧
        ∃ d, DependsOn g e d ∧ Reaches (SearchEdge g cond) d x) ∧
      (∀ c, s.found = some c → Matches g cond c ∧ ∃ d, DependsOn g e d ∧ Reaches (SearchEdge g cond) d c) ∧
      (s.found = none → ∀ c, Matches g cond c → ¬ ∃ d, DependsOn g e d ∧ Reaches (SearchEdge g cond) d c) := by
  obtain ⟨rank0, hr0⟩ := hac
  have hr := normRank_ranked hw hr0
  have hle : ∀ k, normRank g rank0 k < g.length + 1 := by
    intro k; have := normRank_le g rank0 k; omega
  generalize normRank g rank0 = rank at hr hle
  have hdeps : ∀ d, d ∈ en.dependencies ↔ DependsOn g e d := by
    intro d
    rw [hw.deps_eq he]
    constructor
    · intro h; exact ⟨en, he, h⟩
    · rintro ⟨n', hn', h⟩; rw [he] at hn'; cases hn'; exact h
  obtain ⟨s, b, h1, _, hg1, hset⟩ := betweenLoop_spec (betweenVisit_spec (cond := cond) hw hr (g.length + 1))
    en.dependencies ⟨[], [], none⟩ false
    (fun d hd => hw.deps_in he (by rw [← hw.deps_eq he]; exact hd)) (fun d _ => hle d) (by simp) (by simp)
  have hfin : ∀ x ∈ s.visited, Fin' g cond s x ∧ ¬ Matches g cond x ∧
      ∃ r, r ∈ en.dependencies ∧ Reaches (SearchEdge g cond) r x := by
    intro x hx
    rcases hg1.new x hx with h | ⟨h3, _, h5, h6⟩
    · simp at h
    · exact ⟨h3, h5, h6⟩
  have hreach : ∀ d x, d ∈ en.dependencies → Reaches (SearchEdge g cond) d x → Settled g cond s x := by
    intro d x hd h
    induction h with
    | refl => exact hset d hd
    | step _ ed ih =>
      rename_i y z _
      rcases ih with ⟨h, _⟩ | ⟨_, hy⟩
      · exact absurd h ed.1
      · rcases (hfin y hy).1.closed z ed.2 with h | h
        · exact .inl h
        · exact .inr ⟨(hfin z h).2.1, h⟩
  refine ⟨s, b, h1, ?_, ?_, ?_⟩
  · intro x
    constructor
    · intro hx
      have hxv := hg1.out_vis (by simp) x hx
      obtain ⟨h3, h4, d, h5, h6⟩ := hfin x hxv
      exact ⟨h4, h3.out_iff.1 hx, d, (hdeps d).1 h5, h6⟩
    · rintro ⟨h4, h5, d, h6, h7⟩
      rcases hreach d x ((hdeps d).2 h6) h7 with ⟨h, _⟩ | ⟨_, h⟩
      · exact absurd h h4
      · exact (hfin x h).1.out_iff.2 h5
  · intro c hc
    rcases hg1.found_ok c hc with h | ⟨h3, d, h6, h7⟩
    · simp at h
    · exact ⟨h3, d, (hdeps d).1 h6, h7⟩
  · rintro hnone c hc ⟨d, h6, h7⟩
    rcases hreach d c ((hdeps d).2 h6) h7 with ⟨_, h⟩ | ⟨h, _⟩
    · exact h hnone
    · exact h hc

end Verif
