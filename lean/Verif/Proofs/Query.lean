import Verif.Spec.Reach
import Verif.Spec.Denotation

namespace Verif
variable {T V : Type}

theorem mem_setAdd {l : List Name} {x y : Name} : y ∈ setAdd l x ↔ y ∈ l ∨ y = x := by
  unfold setAdd
  split
  · rename_i h
    constructor
    · exact .inl
    · rintro (h' | rfl)
      · exact h'
      · simpa using h
  · simp

theorem setAdd_nodup {l : List Name} (h : l.Nodup) (x : Name) : (setAdd l x).Nodup := by
  unfold setAdd
  split
  · exact h
  · rename_i hx
    rw [List.nodup_append]
    refine ⟨h, by simp, ?_⟩
    intro a ha b hb e
    simp at hb; subst hb; subst e
    exact hx (by simpa using ha)

/-- Number of graph names not yet in a set. -/
def unvisited (g : Graph T V) (l : List Name) : Nat := (g.keys.filter (fun k => decide (k ∉ l))).length

theorem filter_length_mono {α : Type} {p q : α → Bool} (h : ∀ x, p x = true → q x = true) (l : List α) :
    (l.filter p).length ≤ (l.filter q).length := by
  induction l with
  | nil => simp
  | cons a t ih =>
    simp only [List.filter_cons]
    by_cases h1 : p a = true
    · simp only [h1, h a h1, if_true, List.length_cons]; omega
    · simp only [h1]
      cases q a <;> simp <;> omega

theorem filter_length_lt {α : Type} {p q : α → Bool} (h : ∀ x, p x = true → q x = true) {l : List α} {a : α}
    (ha : a ∈ l) (hp : p a = false) (hq : q a = true) : (l.filter p).length < (l.filter q).length := by
  induction l with
  | nil => simp at ha
  | cons b t ih =>
    simp only [List.filter_cons]
    rcases List.mem_cons.1 ha with rfl | ha
    · have := filter_length_mono h t
      simp only [hp, hq, if_true, List.length_cons]
      simp; omega
    · have := ih ha
      by_cases h1 : p b = true
      · simp only [h1, h b h1, if_true, List.length_cons]; omega
      · simp only [h1]
        cases q b <;> simp <;> omega

theorem unvisited_mono {g : Graph T V} {l l' : List Name} (h : ∀ x ∈ l, x ∈ l') :
    unvisited g l' ≤ unvisited g l := by
  unfold unvisited
  apply filter_length_mono
  intro x hx
  simp only [decide_eq_true_eq] at hx ⊢
  exact fun h' => hx (h x h')

theorem unvisited_lt {g : Graph T V} {l l' : List Name} (h : ∀ x ∈ l, x ∈ l') {k : Name}
    (hk : k ∈ g.keys) (hl : k ∉ l) (hl' : k ∈ l') : unvisited g l' < unvisited g l := by
  unfold unvisited
  apply filter_length_lt _ hk
  · simpa using hl'
  · simpa using hl
  · intro x hx
    simp only [decide_eq_true_eq] at hx ⊢
    exact fun h' => hx (h x h')

theorem unvisited_le_length (g : Graph T V) (l : List Name) : unvisited g l ≤ g.length := by
  unfold unvisited
  refine Nat.le_trans (List.length_filter_le _ _) ?_
  simp [Dict.keys]

/-- Successors by name. -/
def nextOf (g : Graph T V) (next : Node T V → List Name) (k d : Name) : Prop :=
  ∃ n, g.get? k = some n ∧ d ∈ next n

/-- Is an input node. -/
def IsExternal (g : Graph T V) (k : Name) : Prop := ∃ n, g.get? k = some n ∧ n.kind = .external

section
variable (g : Graph T V) (next : Node T V → List Name)

/-- The successor function stays inside the graph. -/
def NextClosed : Prop := ∀ k n, g.get? k = some n → n.name = k ∧ ∀ d ∈ next n, ∃ dn, g.get? d = some dn

/-- Relation between the sets before (`s`) and after (`s'`) a piece of the traversal, all new nodes being reachable
from `roots`, and completely expanded. -/
structure Explored (roots : List Name) (s s' : Visited) : Prop where
  mono : ∀ x ∈ s.nodes, x ∈ s'.nodes
  reach : ∀ x ∈ s'.nodes, x ∈ s.nodes ∨ ∃ r ∈ roots, Reaches (nextOf g next) r x
  closed : ∀ x ∈ s'.nodes, x ∉ s.nodes → ∀ d, nextOf g next x d → d ∈ s'.nodes
  user : ∀ x, x ∈ s'.userNodes ↔ x ∈ s.userNodes ∨ (x ∈ s'.nodes ∧ x ∉ s.nodes ∧ IsExternal g x)
  nodup : s.nodes.Nodup → s'.nodes.Nodup

variable {g next}

theorem visit_spec (hc : NextClosed g next) :
    ∀ (fuel : Nat) (n : Node T V) (s : Visited), g.get? n.name = some n →
      unvisited g (setAdd s.nodes n.name) < fuel →
      ∃ s', visit g next fuel n s = .ok s' ∧
        (∀ x ∈ s.nodes, x ∈ s'.nodes) ∧ n.name ∈ s'.nodes ∧
        (∀ x ∈ s'.nodes, x ∈ s.nodes ∨ Reaches (nextOf g next) n.name x) ∧
        (∀ x ∈ s'.nodes, x ∉ s.nodes ∨ x = n.name → ∀ d, nextOf g next x d → d ∈ s'.nodes) ∧
        (∀ x, x ∈ s'.userNodes ↔ x ∈ s.userNodes ∨
          (x ∈ s'.nodes ∧ (x ∉ s.nodes ∨ x = n.name) ∧ IsExternal g x)) ∧
        (s.nodes.Nodup → s'.nodes.Nodup) := by
  intro fuel
  induction fuel with
  | zero => intro n s _ h; omega
  | succ fuel ih =>
    intro n s hgn hfuel
    have hcn := hc _ _ hgn
    -- the loop
    have loop : ∀ (ds : List Name), (∀ d ∈ ds, nextOf g next n.name d) → ∀ s0 : Visited,
        (∀ x ∈ setAdd s.nodes n.name, x ∈ s0.nodes) →
        ∃ s', forEach (visitDep g (visit g next fuel)) ds s0 = .ok s' ∧
          Explored g next [n.name] s0 s' ∧ ∀ d ∈ ds, d ∈ s'.nodes := by
      intro ds
      induction ds with
      | nil =>
        intro _ s0 _
        exact ⟨s0, rfl, ⟨fun _ h => h, fun _ h => .inl h, fun x h h' => absurd h h', by
          intro x; constructor
          · exact .inl
          · rintro (h | ⟨h, h', _⟩)
            · exact h
            · exact absurd h h', fun h => h⟩, by simp⟩
      | cons d ds ihds =>
        intro hds s0 hs0
        have hd := hds d (by simp)
        simp only [forEach]
        -- one step
        have step : ∃ s1, visitDep g (visit g next fuel) d s0 = .ok s1 ∧
            Explored g next [n.name] s0 s1 ∧ d ∈ s1.nodes := by
          unfold visitDep
          split
          · rename_i hin
            exact ⟨s0, rfl, ⟨fun _ h => h, fun _ h => .inl h, fun x h h' => absurd h h', by
              intro x; constructor
              · exact .inl
              · rintro (h | ⟨h, h', _⟩)
                · exact h
                · exact absurd h h', fun h => h⟩, by simpa using hin⟩
          · rename_i hin
            have hin' : d ∉ s0.nodes := by simpa using hin
            obtain ⟨n', hn', hdn'⟩ := hd
            rw [hgn] at hn'; cases hn'
            obtain ⟨dn, hdn⟩ := hcn.2 d hdn'
            have hname : dn.name = d := (hc _ _ hdn).1
            have hlt : unvisited g (setAdd s0.nodes dn.name) < fuel := by
              have h1 : unvisited g (setAdd s0.nodes dn.name) < unvisited g s0.nodes := by
                apply unvisited_lt (k := d)
                · intro x hx; exact mem_setAdd.2 (.inl hx)
                · exact Dict.mem_keys_iff.2 ⟨dn, hdn⟩
                · exact hin'
                · rw [hname]; exact mem_setAdd.2 (.inr rfl)
              have h2 : unvisited g s0.nodes ≤ unvisited g (setAdd s.nodes n.name) := unvisited_mono hs0
              omega
            obtain ⟨s1, h1, h2, h3, h4, h5, h6, h7⟩ := ih dn s0 (by rw [hname]; exact hdn) hlt
            rw [hname] at h3 h4 h5 h6
            simp only [hdn]
            refine ⟨s1, h1, ⟨h2, ?_, ?_, ?_, h7⟩, h3⟩
            · intro x hx
              rcases h4 x hx with h | h
              · exact .inl h
              · exact .inr ⟨n.name, by simp, Reaches.head ⟨n, hgn, hdn'⟩ h⟩
            · intro x hx hx'; exact h5 x hx (.inl hx')
            · intro x
              rw [h6]
              constructor
              · rintro (h | ⟨h, h' | rfl, h''⟩)
                · exact .inl h
                · exact .inr ⟨h, h', h''⟩
                · exact .inr ⟨h, hin', h''⟩
              · rintro (h | ⟨h, h', h''⟩)
                · exact .inl h
                · exact .inr ⟨h, .inl h', h''⟩
        obtain ⟨s1, e1, x1, m1⟩ := step
        rw [e1]
        simp only [Out.bind]
        obtain ⟨s2, e2, x2, m2⟩ := ihds (fun d' h' => hds d' (by simp [h'])) s1
          (fun x hx => x1.mono x (hs0 x hx))
        refine ⟨s2, e2, ⟨fun x hx => x2.mono x (x1.mono x hx), ?_, ?_, ?_, fun h => x2.nodup (x1.nodup h)⟩, ?_⟩
        · intro x hx
          rcases x2.reach x hx with h | h
          · exact x1.reach x h
          · exact .inr h
        · intro x hx hx' d' hd'
          by_cases hx1 : x ∈ s1.nodes
          · exact x2.mono _ (x1.closed x hx1 hx' d' hd')
          · exact x2.closed x hx hx1 d' hd'
        · intro x
          rw [x2.user, x1.user]
          constructor
          · rintro ((h | ⟨h, h', h''⟩) | ⟨h, h', h''⟩)
            · exact .inl h
            · exact .inr ⟨x2.mono x h, h', h''⟩
            · exact .inr ⟨h, fun h0 => h' (x1.mono x h0), h''⟩
          · rintro (h | ⟨h, h', h''⟩)
            · exact .inl (.inl h)
            · by_cases hx1 : x ∈ s1.nodes
              · exact .inl (.inr ⟨hx1, h', h''⟩)
              · exact .inr ⟨h, hx1, h''⟩
        · intro d' hd'
          rcases List.mem_cons.1 hd' with rfl | hd'
          · exact x2.mono _ m1
          · exact m2 d' hd'
    obtain ⟨s1, e1, x1, m1⟩ := loop (next n) (fun d hd => ⟨n, hgn, hd⟩)
      { s with nodes := setAdd s.nodes n.name } (fun x h => h)
    unfold visit
    rw [e1]
    simp only [Out.bind]
    have hn1 : n.name ∈ s1.nodes := x1.mono _ (mem_setAdd.2 (.inr rfl))
    have hnodes : (if n.userDefined then { s1 with userNodes := setAdd s1.userNodes n.name } else s1).nodes
        = s1.nodes := by split <;> rfl
    refine ⟨_, rfl, ?_, ?_, ?_, ?_, ?_, ?_⟩
    · intro x hx; rw [hnodes]; exact x1.mono x (mem_setAdd.2 (.inl hx))
    · rw [hnodes]; exact hn1
    · intro x hx; rw [hnodes] at hx
      rcases x1.reach x hx with h | ⟨r, hr, h⟩
      · rcases mem_setAdd.1 h with h | rfl
        · exact .inl h
        · exact .inr (.refl _)
      · simp at hr; subst hr; exact .inr h
    · intro x hx hx' d hd; rw [hnodes] at hx ⊢
      by_cases hxn : x = n.name
      · subst hxn
        obtain ⟨n', hn', hd'⟩ := hd
        rw [hgn] at hn'; cases hn'
        exact m1 d hd'
      · refine x1.closed x hx ?_ d hd
        intro h
        rcases mem_setAdd.1 h with h | h
        · rcases hx' with hx' | hx'
          · exact hx' h
          · exact hxn hx'
        · exact hxn h
    · intro x
      rw [hnodes]
      have hu := x1.user x
      simp only at hu
      have hext : n.userDefined = true ↔ IsExternal g n.name := by
        constructor
        · intro h; exact ⟨n, hgn, by simpa [Node.userDefined] using h⟩
        · rintro ⟨n', hn', h⟩
          rw [hgn] at hn'; cases hn'
          simpa [Node.userDefined] using h
      split
      · rename_i hud
        rw [mem_setAdd, hu]
        constructor
        · rintro ((h | ⟨h, h', h''⟩) | rfl)
          · exact .inl h
          · exact .inr ⟨h, .inl (fun h0 => h' (mem_setAdd.2 (.inl h0))), h''⟩
          · exact .inr ⟨hn1, .inr rfl, hext.1 hud⟩
        · rintro (h | ⟨h, h', h''⟩)
          · exact .inl (.inl h)
          · by_cases hxn : x = n.name
            · exact .inr hxn
            · left; right
              refine ⟨h, ?_, h''⟩
              intro h0
              rcases mem_setAdd.1 h0 with h0 | h0
              · rcases h' with h' | h'
                · exact h' h0
                · exact hxn h'
              · exact hxn h0
      · rename_i hud
        rw [hu]
        constructor
        · rintro (h | ⟨h, h', h''⟩)
          · exact .inl h
          · exact .inr ⟨h, .inl (fun h0 => h' (mem_setAdd.2 (.inl h0))), h''⟩
        · rintro (h | ⟨h, h', h''⟩)
          · exact .inl h
          · by_cases hxn : x = n.name
            · subst hxn; exact absurd (hext.2 h'') hud
            · right
              refine ⟨h, ?_, h''⟩
              intro h0
              rcases mem_setAdd.1 h0 with h0 | h0
              · rcases h' with h' | h'
                · exact h' h0
                · exact hxn h'
              · exact hxn h0
    · intro h; rw [hnodes]; exact x1.nodup (setAdd_nodup h _)

/-- The whole traversal from a list of starting nodes, all known. -/
theorem forEach_visit_spec {fg : FnGraph T V} (hc : NextClosed fg.nodes next)
    (hcfg : ∀ k, fg.config.has k = true → ∃ n, fg.nodes.get? k = some n) :
    ∀ (starting : List Name) (s0 : Visited),
      (∀ x ∈ s0.nodes, ∀ d, nextOf fg.nodes next x d → d ∈ s0.nodes) →
      (∀ x, x ∈ s0.userNodes ↔ x ∈ s0.nodes ∧ IsExternal fg.nodes x) → s0.nodes.Nodup →
      ∃ s', forEach (visitStart fg next) starting s0 = .ok s' ∧
        (∀ x, x ∈ s'.nodes ↔ x ∈ s0.nodes ∨
          ∃ r ∈ starting, (∃ n, fg.nodes.get? r = some n) ∧ Reaches (nextOf fg.nodes next) r x) ∧
        (∀ x, x ∈ s'.userNodes ↔ x ∈ s'.nodes ∧ IsExternal fg.nodes x) ∧ s'.nodes.Nodup := by
  intro starting
  induction starting with
  | nil =>
    intro s0 _ hu hnd
    exact ⟨s0, rfl, by simp, hu, hnd⟩
  | cons v vs ih =>
    intro s0 hcl hu hnd
    simp only [forEach, visitStart]
    by_cases hk : fg.nodes.has v || fg.config.has v
    · rw [if_pos hk]
      have hex : ∃ n, fg.nodes.get? v = some n := by
        rcases Bool.or_eq_true _ _ ▸ hk with h | h
        · exact (Dict.has_eq_true_iff _ _).1 h
        · exact hcfg v h
      obtain ⟨n, hn⟩ := hex
      have hname : n.name = v := (hc _ _ hn).1
      simp only [hn]
      have hlt : unvisited fg.nodes (setAdd s0.nodes n.name) < fg.nodes.length + 1 := by
        have := unvisited_le_length fg.nodes (setAdd s0.nodes n.name)
        omega
      obtain ⟨s1, e1, h2, h3, h4, h5, h6, h7⟩ := visit_spec hc _ n s0 (by rw [hname]; exact hn) hlt
      rw [hname] at h3 h4 h5 h6
      rw [e1]
      simp only [Out.bind]
      have hcl1 : ∀ x ∈ s1.nodes, ∀ d, nextOf fg.nodes next x d → d ∈ s1.nodes := by
        intro x hx d hd
        by_cases hx0 : x ∈ s0.nodes
        · exact h2 _ (hcl x hx0 d hd)
        · exact h5 x hx (.inl hx0) d hd
      have hu1 : ∀ x, x ∈ s1.userNodes ↔ x ∈ s1.nodes ∧ IsExternal fg.nodes x := by
        intro x
        rw [h6, hu]
        constructor
        · rintro (⟨h, h'⟩ | ⟨h, _, h'⟩)
          · exact ⟨h2 x h, h'⟩
          · exact ⟨h, h'⟩
        · rintro ⟨h, h'⟩
          by_cases hx0 : x ∈ s0.nodes
          · exact .inl ⟨hx0, h'⟩
          · exact .inr ⟨h, .inl hx0, h'⟩
      obtain ⟨s2, e2, m2, u2, nd2⟩ := ih s1 hcl1 hu1 (h7 hnd)
      refine ⟨s2, e2, ?_, u2, nd2⟩
      intro x
      rw [m2]
      constructor
      · rintro (h | ⟨r, hr, h⟩)
        · rcases h4 x h with h | h
          · exact .inl h
          · exact .inr ⟨v, by simp, ⟨n, hn⟩, h⟩
        · exact .inr ⟨r, by simp [hr], h⟩
      · rintro (h | ⟨r, hr, hrn, h⟩)
        · exact .inl (h2 x h)
        · rcases List.mem_cons.1 hr with rfl | hr
          · left
            exact h.closed (P := fun y => y ∈ s1.nodes) (fun y z hy hz => hcl1 y hy z hz) h3
          · exact .inr ⟨r, hr, hrn, h⟩
    · rw [if_neg hk]
      simp only [Out.bind]
      obtain ⟨s2, e2, m2, u2, nd2⟩ := ih s0 hcl hu hnd
      refine ⟨s2, e2, ?_, u2, nd2⟩
      intro x
      rw [m2]
      constructor
      · rintro (h | ⟨r, hr, h⟩)
        · exact .inl h
        · exact .inr ⟨r, by simp [hr], h⟩
      · rintro (h | ⟨r, hr, ⟨n, hn⟩, h⟩)
        · exact .inl h
        · rcases List.mem_cons.1 hr with rfl | hr
          · exfalso; apply hk
            simp [(Dict.has_eq_true_iff fg.nodes r).2 ⟨n, hn⟩]
          · exact .inr ⟨r, hr, ⟨n, hn⟩, h⟩

end

/-- `directional_dfs_traverse` returns the nodes reachable from the starting nodes; or the list of unknown names. -/
theorem directionalDfs_spec {fg : FnGraph T V} {next : Node T V → List Name} (hc : NextClosed fg.nodes next)
    (hcfg : ∀ k, fg.config.has k = true → ∃ n, fg.nodes.get? k = some n)
    (starting : List Name) (ri : Option (Dict Name V)) :
    ∃ s : Visited, directionalDfs fg next starting ri =
        (if starting.filter (fun v => !(fg.nodes.has v || fg.config.has v) && !((ri.getD []).has v)) = []
          then .ok s
          else .err (.unknown (starting.filter
            (fun v => !(fg.nodes.has v || fg.config.has v) && !((ri.getD []).has v)))) s) ∧
      (∀ x, x ∈ s.nodes ↔
        ∃ r ∈ starting, (∃ n, fg.nodes.get? r = some n) ∧ Reaches (nextOf fg.nodes next) r x) ∧
      (∀ x, x ∈ s.userNodes ↔ x ∈ s.nodes ∧ IsExternal fg.nodes x) ∧ s.nodes.Nodup := by
  obtain ⟨s, e, h1, h2, h3⟩ := forEach_visit_spec hc hcfg starting ⟨[], []⟩ (by simp) (by simp) (by simp)
  refine ⟨s, ?_, ?_, h2, h3⟩
  · unfold directionalDfs
    simp only
    rw [e]
    rfl
  · intro x; rw [h1]; simp

end Verif
