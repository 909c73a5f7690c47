import Verif.Model.Remote
import Verif.Proofs.DriverExec
import Verif.Proofs.Subdag

/-! Facts about execution on a cluster. -/
namespace Verif
variable {T V B : Type}

/-! ### The graph of the walk -/

theorem remoteGraph_get? (reserved : List Name) (g : Graph T V) (k : Name) :
    (remoteGraph reserved g).get? k = (g.get? k).map (remoteNode reserved) := by
  induction g with
  | nil => rfl
  | cons p g ih =>
    obtain ⟨a, n⟩ := p
    change Dict.get? ((a, remoteNode reserved n) :: remoteGraph reserved g) k = _
    rw [Dict.get?_cons, Dict.get?_cons]
    split
    · rfl
    · exact ih

theorem remoteGraph_some {reserved : List Name} {g : Graph T V} {k : Name} {n' : Node T (Obj V)}
    (h : (remoteGraph reserved g).get? k = some n') : ∃ n, g.get? k = some n ∧ n' = remoteNode reserved n := by
  rw [remoteGraph_get?] at h
  cases hg : g.get? k with
  | none => rw [hg] at h; cases h
  | some n => rw [hg] at h; cases h; exact ⟨n, rfl, rfl⟩

theorem remoteGraph_of {reserved : List Name} {g : Graph T V} {k : Name} {n : Node T V} (h : g.get? k = some n) :
    (remoteGraph reserved g).get? k = some (remoteNode reserved n) := by rw [remoteGraph_get?, h]; rfl

theorem remoteGraph_keys (reserved : List Name) (g : Graph T V) : (remoteGraph reserved g).keys = g.keys := by
  unfold remoteGraph Dict.keys
  rw [List.map_map]; rfl

theorem valDict_get? (d : Dict Name V) (k : Name) : (valDict d).get? k = (d.get? k).map .val := by
  induction d with
  | nil => rfl
  | cons p d ih =>
    obtain ⟨a, v⟩ := p
    change Dict.get? ((a, Obj.val v) :: valDict d) k = _
    rw [Dict.get?_cons, Dict.get?_cons]
    split
    · rfl
    · exact ih

theorem valDict_none {d : Dict Name V} {k : Name} : (valDict d).get? k = none ↔ d.get? k = none := by
  rw [valDict_get?]; cases d.get? k <;> simp

theorem valDict_some {d : Dict Name V} {k : Name} {o : Obj V} (h : (valDict d).get? k = some o) :
    ∃ v, o = .val v ∧ d.get? k = some v := by
  rw [valDict_get?] at h
  cases hd : d.get? k with
  | none => rw [hd] at h; cases h
  | some v => rw [hd] at h; cases h; exact ⟨v, rfl, rfl⟩

theorem valDict_keys (d : Dict Name V) : (valDict d).keys = d.keys := by
  unfold valDict Dict.keys
  rw [List.map_map]; rfl

theorem valDict_set (d : Dict Name V) (k : Name) (v : V) : valDict (d.set k v) = (valDict d).set k (.val v) := by
  induction d with
  | nil => rfl
  | cons p d ih =>
    obtain ⟨a, w⟩ := p
    change valDict (if a = k then (k, v) :: d else (a, w) :: Dict.set d k v) =
      (if a = k then (k, Obj.val v) :: valDict d else (a, Obj.val w) :: Dict.set (valDict d) k (.val v))
    split
    · rfl
    · rw [← ih]; rfl

theorem valDict_merge (a b : Dict Name V) : valDict (a.merge b) = (valDict a).merge (valDict b) := by
  unfold Dict.merge
  induction b generalizing a with
  | nil => rfl
  | cons p b ih =>
    obtain ⟨k, v⟩ := p
    rw [List.foldl_cons, ih, valDict_set]
    rfl

theorem remote_wf {reserved : List Name} {g : Graph T V} (hw : WellFormed g) : WellFormed (remoteGraph reserved g) where
  keys_nodup := by rw [remoteGraph_keys]; exact hw.keys_nodup
  name_eq := by
    intro k n h
    obtain ⟨m, hm, rfl⟩ := remoteGraph_some h
    have := hw.name_eq hm
    exact this
  deps_eq := by
    intro k n h
    obtain ⟨m, hm, rfl⟩ := remoteGraph_some h
    have := hw.deps_eq hm
    exact this
  params_nodup := by
    intro k n h
    obtain ⟨m, hm, rfl⟩ := remoteGraph_some h
    have := hw.params_nodup hm
    exact this
  deps_in := by
    intro k n d h hd
    obtain ⟨m, hm, rfl⟩ := remoteGraph_some h
    obtain ⟨dn, hdn⟩ := hw.deps_in hm hd
    exact ⟨remoteNode reserved dn, remoteGraph_of hdn⟩
  consumers := by
    intro d dn h m
    obtain ⟨dn0, hd0, rfl⟩ := remoteGraph_some h
    refine (hw.consumers hd0 m).trans ⟨?_, ?_⟩
    · rintro ⟨mn, h1, h2⟩
      exact ⟨remoteNode reserved mn, remoteGraph_of h1, h2⟩
    · rintro ⟨mn, h1, h2⟩
      obtain ⟨m0, hm0, rfl⟩ := remoteGraph_some h1
      exact ⟨m0, hm0, h2⟩
  external_no_params := by
    intro k n h hk
    obtain ⟨m, hm, rfl⟩ := remoteGraph_some h
    have := hw.external_no_params hm hk
    exact this

section
variable {reserved : List Name} {g : Graph T V} {inputs overrides : Dict Name V}

theorem remote_absent {k : Name} :
    Absent (remoteGraph reserved g) (valDict inputs) (valDict overrides) k ↔ Absent g inputs overrides k := by
  constructor
  · rintro ⟨n, h1, h2, h3, h4⟩
    obtain ⟨m, hm, rfl⟩ := remoteGraph_some h1
    exact ⟨m, hm, h2, valDict_none.1 h3, valDict_none.1 h4⟩
  · rintro ⟨n, h1, h2, h3, h4⟩
    exact ⟨remoteNode reserved n, remoteGraph_of h1, h2, valDict_none.2 h3, valDict_none.2 h4⟩

theorem remote_needed {req : List Name} {k : Name} :
    Needed (remoteGraph reserved g) (valDict overrides) req k → Needed g overrides req k := by
  intro h
  induction h with
  | req h => exact .req h
  | param _ ho hg hd ih =>
    obtain ⟨m, hm, rfl⟩ := remoteGraph_some hg
    exact .param ih (valDict_none.1 ho) hm hd

theorem needed_remote {req : List Name} {k : Name} :
    Needed g overrides req k → Needed (remoteGraph reserved g) (valDict overrides) req k := by
  intro h
  induction h with
  | req h => exact .req h
  | @param m mn d _ ho hg hd ih =>
    exact .param (mn := remoteNode reserved mn) ih (valDict_none.2 ho) (remoteGraph_of hg) hd

/-- The value that the walk stores for a node: a given value, or the reference of the call of that node. -/
theorem remote_den_cases (hw : WellFormed g) {k : Name} {o : Obj V}
    (h : Den (remoteGraph reserved g) (valDict inputs) (valDict overrides) k o) :
    (∃ v, o = .val v ∧ Den g inputs overrides k v) ∨
    (o = .ref k ∧ overrides.get? k = none ∧ ∃ n, g.get? k = some n ∧ n.kind ≠ .external) := by
  cases h with
  | override h1 h2 =>
    obtain ⟨n, hn, _⟩ := remoteGraph_some h1
    obtain ⟨v, rfl, hv⟩ := valDict_some h2
    exact .inl ⟨v, rfl, .override hn hv⟩
  | input h1 h2 h3 h4 =>
    obtain ⟨n, hn, rfl⟩ := remoteGraph_some h1
    obtain ⟨v, rfl, hv⟩ := valDict_some h4
    exact .inl ⟨v, rfl, .input hn (valDict_none.1 h2) h3 hv⟩
  | call val h1 h2 h3 h4 h5 h6 =>
    obtain ⟨n, hn, rfl⟩ := remoteGraph_some h1
    refine .inr ⟨?_, valDict_none.1 h2, n, hn, h3⟩
    have hname := hw.name_eq hn
    change (if _ then Except.error "TypeError" else Except.ok (Obj.ref n.name)) = _ at h6
    split at h6
    · cases h6
    · cases h6; rw [hname]

end

/-! ### Gathering -/

theorem gather_some {α β : Type} {f : α → Option β} : ∀ {d : Dict Name α} {d' : Dict Name β}, gather f d = some d' →
    (∀ p ∈ d, ∃ b, f p.2 = some b) ∧ d' = d.filterMap (fun p => (f p.2).map (fun b => (p.1, b))) := by
  intro d
  induction d with
  | nil => intro d' h; cases h; exact ⟨by simp, rfl⟩
  | cons p d ih =>
    intro d' h
    obtain ⟨k, a⟩ := p
    unfold gather at h
    cases ha : f a with
    | none => rw [ha] at h; cases h
    | some b =>
      rw [ha] at h
      cases hr : gather f d with
      | none => rw [hr] at h; cases h
      | some r =>
        rw [hr] at h
        obtain ⟨h1, h2⟩ := ih hr
        cases h
        refine ⟨?_, ?_⟩
        · intro q hq
          rcases List.mem_cons.1 hq with rfl | hq
          · exact ⟨b, ha⟩
          · exact h1 q hq
        · rw [List.filterMap_cons]
          simp only [ha, Option.map_some]
          rw [h2]

theorem gather_none {α β : Type} {f : α → Option β} : ∀ {d : Dict Name α}, gather f d = none → ∃ p ∈ d, f p.2 = none := by
  intro d
  induction d with
  | nil => intro h; cases h
  | cons p d ih =>
    intro h
    obtain ⟨k, a⟩ := p
    unfold gather at h
    cases ha : f a with
    | none => exact ⟨(k, a), by simp, ha⟩
    | some b =>
      rw [ha] at h
      cases hr : gather f d with
      | none =>
        obtain ⟨q, hq, h1⟩ := ih hr
        exact ⟨q, by simp [hq], h1⟩
      | some r => rw [hr] at h; cases h

theorem gather_set {α β : Type} {f : α → Option β} {k : Name} {a : α} {b : β} (hab : f a = some b) :
    ∀ {d : Dict Name α} {d' : Dict Name β}, gather f d = some d' → gather f (d.set k a) = some (d'.set k b) := by
  intro d
  induction d with
  | nil =>
    intro d' h; cases h
    change gather f [(k, a)] = some [(k, b)]
    unfold gather gather
    rw [hab]
  | cons p d ih =>
    intro d' h
    obtain ⟨j, c⟩ := p
    unfold gather at h
    cases hc : f c with
    | none => rw [hc] at h; cases h
    | some e =>
      rw [hc] at h
      cases hr : gather f d with
      | none => rw [hr] at h; cases h
      | some r =>
        rw [hr] at h
        cases h
        change gather f (if j = k then (k, a) :: d else (j, c) :: Dict.set d k a) =
          some (if j = k then (k, b) :: r else (j, e) :: Dict.set r k b)
        by_cases hjk : j = k
        · rw [if_pos hjk, if_pos hjk]
          unfold gather
          rw [hab, hr]
        · rw [if_neg hjk, if_neg hjk]
          unfold gather
          rw [hc, ih hr]

theorem gather_outputs {α β : Type} {f : α → Option β} (F : Name → α) (G : Name → β) (l : List Name)
    (h : ∀ k ∈ l, f (F k) = some (G k)) : ∀ {acc : Dict Name α} {acc' : Dict Name β}, gather f acc = some acc' →
    gather f (l.foldl (fun out k => out.set k (F k)) acc) = some (l.foldl (fun out k => out.set k (G k)) acc') := by
  induction l with
  | nil => intro acc acc' ha; exact ha
  | cons x l ih =>
    intro acc acc' ha
    rw [List.foldl_cons, List.foldl_cons]
    exact ih (fun k hk => h k (by simp [hk])) (gather_set (h x (by simp)) ha)

end Verif
