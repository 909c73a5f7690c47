import Verif.Proofs.Exec
import Verif.Proofs.Query

namespace Verif
variable {T V : Type}

/-- Number of graph nodes of smaller rank: a rank bounded by the size of the graph. -/
def normRank (g : Graph T V) (rank : Name → Nat) (k : Name) : Nat :=
  (g.keys.filter (fun j => decide (rank j < rank k))).length

theorem normRank_le (g : Graph T V) (rank : Name → Nat) (k : Name) : normRank g rank k ≤ g.length := by
  unfold normRank
  refine Nat.le_trans (List.length_filter_le _ _) ?_
  simp [Dict.keys]

theorem normRank_ranked {g : Graph T V} (hw : WellFormed g) {rank : Name → Nat} (hr : Ranked g rank) :
    Ranked g (normRank g rank) := by
  intro k n hk d hd
  have hlt := hr k n hk d hd
  obtain ⟨dn, hdn⟩ := hw.deps_in hk hd
  unfold normRank
  refine filter_length_lt (a := d) (fun x hx => ?_) (Dict.mem_keys_iff.2 ⟨dn, hdn⟩) (by simp) (by simpa using hlt)
  simp only [decide_eq_true_eq] at hx ⊢
  omega

/-- How a top-level node is requested: input nodes may be absent (graph_functions.py:246-249). -/
def topDep (n : Node T V) : DepType := if n.userDefined then .optional else .required

theorem executeSubdag_spec {g : Graph T V} (hw : WellFormed g)
    (nodes : List (Node T V)) (hnodes : ∀ n ∈ nodes, g.get? n.name = some n)
    (inputs overrides : Dict Name V) :
    match executeSubdag g nodes inputs overrides with
    | .ok s => Inv g inputs overrides (nodes.map (·.name)) s ∧
        ∀ n ∈ nodes, (∃ v, s.computed.get? n.name = some v) ∨
          (n.kind = .external ∧ Absent g inputs overrides n.name)
    | .err e s => TraceInv g inputs overrides (nodes.map (·.name)) s ∧
        ErrOk g inputs overrides (nodes.map (·.name)) e ∧
        ∃ n ∈ nodes, ¬ Resolvable g inputs overrides n.name (topDep n) := by
  unfold executeSubdag
  generalize hreq : nodes.map (·.name) = req
  have key : ∀ (ns : List (Node T V)), (∀ n ∈ ns, g.get? n.name = some n ∧ n.name ∈ req) →
      ∀ s0, Inv g inputs overrides req s0 →
      match forEach (fun n s =>
        dfs g inputs overrides req (g.length + 1) n
          (if n.userDefined then .optional else .required) s) ns s0 with
      | .ok s => Inv g inputs overrides req s ∧ (∀ j ∈ s0.stored, j ∈ s.stored) ∧
          ∀ n ∈ ns, (∃ v, s.computed.get? n.name = some v) ∨
            (n.kind = .external ∧ Absent g inputs overrides n.name)
      | .err e s => TraceInv g inputs overrides req s ∧ ErrOk g inputs overrides req e ∧
          ∃ n ∈ ns, ¬ Resolvable g inputs overrides n.name (topDep n) := by
    intro ns
    induction ns with
    | nil => intro _ s0 h0; exact ⟨h0, fun _ h => h, by simp⟩
    | cons n ns ih =>
      intro hns s0 h0
      obtain ⟨hgn, hnr⟩ := hns n (by simp)
      have hd := dfs_spec hw (g.length + 1) n (if n.userDefined then .optional else .required) s0 hgn h0
        (by
          intro hs
          cases hc : s0.computed.get? n.name with
          | some v => exact ⟨v, rfl⟩
          | none => exact absurd hnr (h0.pruned _ hs hc).1)
        (.req hnr)
        (by
          intro h1 h2
          simp [Node.userDefined, h2] at h1)
      simp only [forEach]
      revert hd
      generalize dfs g inputs overrides req (g.length + 1) n
        (if n.userDefined then .optional else .required) s0 = o
      intro hd
      cases o with
      | err e s =>
        obtain ⟨p1, ⟨rfl, p2⟩ | ⟨p2, p3⟩⟩ := hd
        · obtain ⟨x, hx, hc⟩ := p2.cycle (Nat.lt_succ_self _)
          have hnx : ¬ ∃ v, Den g inputs overrides n.name v := by
            rintro ⟨v, hv⟩
            rcases hx with rfl | hx
            · exact hv.no_cycle hw hc
            · exact acc_no_cycle (acc_path (hv.acc hw) hx) hc
          have hne : Needed g overrides req x := by
            rcases hx with rfl | hx
            · exact .req hnr
            · exact (Needed.req hnr).path hx
          refine ⟨p1, ⟨x, hne, hc⟩, n, by simp, ?_⟩
          rintro (h | ⟨_, m, hm, hk, _⟩)
          · exact hnx h
          · rw [hgn] at hm; cases hm
            cases p2 with
            | cons he _ =>
              obtain ⟨_, m, hm, hb⟩ := he
              rw [hgn] at hm; cases hm
              rw [hw.external_no_params hgn hk] at hb; cases hb
        · exact ⟨p1, p2, n, by simp, p3⟩
      | ok s1 =>
        obtain ⟨p1, p2, p3, p4⟩ := hd
        simp only [Out.bind]
        have := ih (fun m hm => hns m (by simp [hm])) s1 p1
        revert this
        generalize (forEach (fun n s =>
          dfs g inputs overrides req (g.length + 1) n
            (if n.userDefined then .optional else .required) s) ns s1) = o'
        intro this
        cases o' with
        | err e s =>
          obtain ⟨q1, q2, m, hm, q3⟩ := this
          exact ⟨q1, q2, m, by simp [hm], q3⟩
        | ok s2 =>
          obtain ⟨q1, q2, q3⟩ := this
          refine ⟨q1, fun j hj => q2 j (p2 j hj), ?_⟩
          intro m hm
          rcases List.mem_cons.1 hm with rfl | hm
          · rcases p4 with ⟨v, hv⟩ | ⟨hopt, habs⟩
            · left
              cases hc : s2.computed.get? m.name with
              | some w => exact ⟨w, rfl⟩
              | none => exact absurd hnr (q1.pruned _ (q2 _ (p1.sub _ _ hv)) hc).1
            · right
              refine ⟨?_, habs⟩
              obtain ⟨m', hm', hk, _⟩ := habs
              rw [hgn] at hm'; cases hm'; exact hk
          · exact q3 m hm
  have := key nodes (fun n hn => ⟨hnodes n hn, by rw [← hreq]; exact List.mem_map_of_mem hn⟩)
    ExecState.init Inv.init
  revert this
  generalize (forEach (fun n s =>
          dfs g inputs overrides req (g.length + 1) n
            (if n.userDefined then .optional else .required) s) nodes ExecState.init) = o
  intro this
  cases o with
  | err e s => exact this
  | ok s => exact ⟨this.1, this.2.2⟩

end Verif
