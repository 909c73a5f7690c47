import Verif.Spec.Fingerprint
import Verif.Proofs.Names
import Verif.Proofs.Groupings

namespace Verif

/-! ### Sorting -/

/-- A linear order as a boolean test. -/
structure LinLe {α : Type} (le : α → α → Bool) : Prop where
  total : ∀ a b, le a b = true ∨ le b a = true
  antisymm : ∀ a b, le a b = true → le b a = true → a = b
  trans : ∀ a b c, le a b = true → le b c = true → le a c = true

section sorting
variable {α : Type} {le : α → α → Bool}

theorem insertBy_comm (h : LinLe le) (a b : α) (l : List α) :
    insertBy le a (insertBy le b l) = insertBy le b (insertBy le a l) := by
  induction l with
  | nil =>
    simp only [insertBy]
    by_cases h1 : le a b = true <;> by_cases h2 : le b a = true
    · rw [h.antisymm a b h1 h2]
    · simp [h1, h2]
    · simp [h1, h2]
    · rcases h.total a b with h3 | h3 <;> contradiction
  | cons c l ih =>
    simp only [insertBy]
    by_cases h1 : le a c = true <;> by_cases h2 : le b c = true
    · simp only [h1, h2, if_true, insertBy]
      by_cases h3 : le a b = true <;> by_cases h4 : le b a = true
      · rw [h.antisymm a b h3 h4]
      · simp [h3, h4, h1, h2]
      · simp [h3, h4, h1, h2]
      · rcases h.total a b with h5 | h5 <;> contradiction
    · simp only [h1, h2, if_true, insertBy]
      have h3 : le b a ≠ true := fun h3 => h2 (h.trans b a c h3 h1)
      simp [h1, h2, h3, insertBy]
    · simp only [h1, h2, if_true, insertBy]
      have h3 : le a b ≠ true := fun h3 => h1 (h.trans a b c h3 h2)
      simp [h1, h2, h3, insertBy]
    · simp [h1, h2, insertBy, ih]

theorem sortBy_perm_eq (h : LinLe le) {l l' : List α} (hp : l.Perm l') : sortBy le l = sortBy le l' := by
  unfold sortBy
  induction hp with
  | nil => rfl
  | cons x _ ih => simp only [List.foldr_cons, ih]
  | swap x y l => simp only [List.foldr_cons]; exact insertBy_comm h _ _ _
  | trans _ _ h1 h2 => rw [h1, h2]

theorem insertBy_perm (a : α) (l : List α) : (insertBy le a l).Perm (a :: l) := by
  induction l with
  | nil => exact .refl _
  | cons b l ih =>
    unfold insertBy
    split
    · exact .refl _
    · exact (List.Perm.cons b ih).trans (.swap _ _ _)

theorem sortBy_perm (l : List α) : (sortBy le l).Perm l := by
  unfold sortBy
  induction l with
  | nil => exact .refl _
  | cons a l ih => exact (insertBy_perm a _).trans (.cons a ih)

end sorting

theorem strLe_lin : LinLe strLe where
  total a b := by simpa [strLe] using String.le_total a b
  antisymm a b h1 h2 := String.le_antisymm (by simpa [strLe] using h1) (by simpa [strLe] using h2)
  trans a b c h1 h2 := by
    have := String.le_trans (a := a) (b := b) (c := c) (by simpa [strLe] using h1) (by simpa [strLe] using h2)
    simpa [strLe] using this

theorem str_lt_or (a b : String) : a < b ∨ a = b ∨ b < a := by
  by_cases h1 : a ≤ b
  · by_cases h2 : b ≤ a
    · exact .inr (.inl (String.le_antisymm h1 h2))
    · exact .inl (String.not_le.1 h2)
  · exact .inr (.inr (String.not_le.1 h1))

theorem pairLe_iff {a b : String × String} : pairLe a b = true ↔ a.1 < b.1 ∨ (a.1 = b.1 ∧ a.2 ≤ b.2) := by
  unfold pairLe strLe
  simp

theorem str_lt_trans {a b c : String} (h1 : a < b) (h2 : b < c) : a < c := by
  have hle : ∀ {x y : String}, x < y → x ≤ y := by
    intro x y hxy
    rcases String.le_total x y with h | h
    · exact h
    · exact absurd hxy (by rw [← String.not_le]; exact fun hn => hn h)
  have h3 : a ≤ b := hle h1
  have h4 : b ≤ c := hle h2
  rw [← String.not_le]
  intro h
  have := String.le_antisymm (String.le_trans h4 h) h3
  subst this
  exact String.not_le.2 h1 (String.le_refl _)

theorem pairLe_lin : LinLe pairLe where
  total a b := by
    rw [pairLe_iff, pairLe_iff]
    rcases str_lt_or a.1 b.1 with h | h | h
    · exact .inl (.inl h)
    · rcases String.le_total a.2 b.2 with h' | h'
      · exact .inl (.inr ⟨h, h'⟩)
      · exact .inr (.inr ⟨h.symm, h'⟩)
    · exact .inr (.inl h)
  antisymm a b h1 h2 := by
    rw [pairLe_iff] at h1 h2
    rcases h1 with h1 | ⟨h1, h1'⟩ <;> rcases h2 with h2 | ⟨h2, h2'⟩
    · exact absurd (str_lt_trans h1 h2) (String.lt_irrefl _)
    · rw [h2] at h1; exact absurd h1 (String.lt_irrefl _)
    · rw [h1] at h2; exact absurd h2 (String.lt_irrefl _)
    · exact Prod.ext h1 (String.le_antisymm h1' h2')
  trans a b c h1 h2 := by
    rw [pairLe_iff] at *
    rcases h1 with h1 | ⟨h1, h1'⟩ <;> rcases h2 with h2 | ⟨h2, h2'⟩
    · exact .inl (str_lt_trans h1 h2)
    · exact .inl (h2 ▸ h1)
    · exact .inl (h1 ▸ h2)
    · exact .inr ⟨h1.trans h2, String.le_trans h1' h2'⟩

/-! ### Concatenations of fingerprints can be taken apart -/

/-- Strings that `hash_value` returns. -/
def Word (w : String) : Prop :=
  w = noneHash ∨ w = unhashable ∨ ∃ body : List Char, w.toList = body ++ ['=', '='] ∧ '=' ∉ body ∧ '<' ∉ body

theorem body_prefix {b b' r r' : List Char} (hb : '=' ∉ b) (hb' : '=' ∉ b') (h : b ++ '=' :: r = b' ++ '=' :: r') :
    b = b' ∧ r = r' := by
  induction b generalizing b' with
  | nil =>
    cases b' with
    | nil => simpa using h
    | cons c t =>
      simp only [List.nil_append, List.cons_append, List.cons.injEq] at h
      exact absurd (by rw [h.1]; exact List.mem_cons_self) hb'
  | cons a t ih =>
    cases b' with
    | nil =>
      simp only [List.nil_append, List.cons_append, List.cons.injEq] at h
      exact absurd (by simp [h.1]) hb
    | cons c t' =>
      simp only [List.cons_append, List.cons.injEq] at h
      obtain ⟨h1, h2⟩ := ih (fun h' => hb (by simp [h'])) (fun h' => hb' (by simp [h'])) h.2
      exact ⟨by rw [h.1, h1], h2⟩

theorem word_prefix {w w' : String} (hw : Word w) (hw' : Word w') {r r' : List Char}
    (h : w.toList ++ r = w'.toList ++ r') : w = w' ∧ r = r' := by
  have hlt : ∀ (b s r : List Char), '<' ∉ b → b ++ '=' :: s ≠ '<' :: r := by
    intro b s r hb h
    cases b with
    | nil => simp at h
    | cons c t =>
      simp only [List.cons_append, List.cons.injEq] at h
      exact hb (by simp [h.1])
  have hn : noneHash.toList = '<' :: ['n', 'o', 'n', 'e', '>'] := rfl
  have hu : unhashable.toList = '<' :: ['u', 'n', 'h', 'a', 's', 'h', 'a', 'b', 'l', 'e', '>'] := rfl
  rcases hw with rfl | rfl | ⟨b, h1, h2, h3⟩ <;> rcases hw' with rfl | rfl | ⟨b', h1', h2', h3'⟩
  · exact ⟨rfl, List.append_cancel_left h⟩
  · rw [hn, hu] at h; simp at h
  · rw [hn, h1', List.append_assoc] at h
    exact absurd h.symm (hlt _ _ _ h3')
  · rw [hn, hu] at h; simp at h
  · exact ⟨rfl, List.append_cancel_left h⟩
  · rw [hu, h1', List.append_assoc] at h
    exact absurd h.symm (hlt _ _ _ h3')
  · rw [hn, h1, List.append_assoc] at h
    exact absurd h (hlt _ _ _ h3)
  · rw [hu, h1, List.append_assoc] at h
    exact absurd h (hlt _ _ _ h3)
  · rw [h1, h1', List.append_assoc, List.append_assoc] at h
    obtain ⟨rfl, h5⟩ := body_prefix h2 h2' h
    refine ⟨String.toList_inj.1 (by rw [h1, h1']), ?_⟩
    simpa using h5

theorem word_ne_nil {w : String} (hw : Word w) : w.toList ≠ [] := by
  rcases hw with rfl | rfl | ⟨b, h1, _⟩
  · decide
  · decide
  · rw [h1]; simp

theorem join_toList (l : List String) : (String.join l).toList = l.flatMap String.toList := by
  induction l with
  | nil => rfl
  | cons a t ih =>
    rw [String.join_cons, String.toList_append, ih, List.flatMap_cons]

theorem flat_words {l l' : List String} (h : ∀ w ∈ l, Word w) (h' : ∀ w ∈ l', Word w)
    (he : l.flatMap String.toList = l'.flatMap String.toList) : l = l' := by
  induction l generalizing l' with
  | nil =>
    cases l' with
    | nil => rfl
    | cons a t =>
      rw [List.flatMap_cons] at he
      have := List.append_eq_nil_iff.1 he.symm
      exact absurd this.1 (word_ne_nil (h' a (by simp)))
  | cons a t ih =>
    cases l' with
    | nil =>
      rw [List.flatMap_cons] at he
      have := List.append_eq_nil_iff.1 he
      exact absurd this.1 (word_ne_nil (h a (by simp)))
    | cons a' t' =>
      rw [List.flatMap_cons, List.flatMap_cons] at he
      obtain ⟨h1, h2⟩ := word_prefix (h a (by simp)) (h' a' (by simp)) he
      rw [h1, ih (fun w hw => h w (by simp [hw])) (fun w hw => h' w (by simp [hw])) h2]

theorem join_words {l l' : List String} (h : ∀ w ∈ l, Word w) (h' : ∀ w ∈ l', Word w)
    (he : String.join l = String.join l') : l = l' :=
  flat_words h h' (by rw [← join_toList, ← join_toList, he])

theorem join_pairs {l l' : List (String × String)} (h : ∀ p ∈ l, Word p.1 ∧ Word p.2)
    (h' : ∀ p ∈ l', Word p.1 ∧ Word p.2)
    (he : String.join (l.map (fun p => p.1 ++ p.2)) = String.join (l'.map (fun p => p.1 ++ p.2))) : l = l' := by
  have hflat : ∀ l : List (String × String),
      (String.join (l.map (fun p => p.1 ++ p.2))).toList = (l.flatMap (fun p => [p.1, p.2])).flatMap String.toList := by
    intro l
    rw [join_toList]
    induction l with
    | nil => rfl
    | cons a t ih =>
      rw [List.map_cons, List.flatMap_cons, ih, List.flatMap_cons, List.flatMap_append]
      simp [String.toList_append]
  have hw : ∀ {l : List (String × String)}, (∀ p ∈ l, Word p.1 ∧ Word p.2) →
      ∀ w ∈ l.flatMap (fun p => [p.1, p.2]), Word w := by
    intro l h w hw
    obtain ⟨p, hp, hw⟩ := List.mem_flatMap.1 hw
    simp only [List.mem_cons, List.not_mem_nil, or_false] at hw
    rcases hw with rfl | rfl
    · exact (h p hp).1
    · exact (h p hp).2
  have heq := flat_words (hw h) (hw h') (by rw [← hflat, ← hflat, he])
  clear he hw h h' hflat
  induction l generalizing l' with
  | nil =>
    cases l' with
    | nil => rfl
    | cons a t => simp [List.flatMap_cons] at heq
  | cons a t ih =>
    cases l' with
    | nil => simp [List.flatMap_cons] at heq
    | cons a' t' =>
      simp only [List.flatMap_cons, List.cons_append, List.nil_append, List.cons.injEq] at heq
      rw [Prod.ext heq.1 heq.2.1, ih heq.2.2]

/-! ### Primitives -/

theorem encode_inj {a b : String} (h : encode a = encode b) : a = b := by
  unfold encode String.toUTF8 at h
  have h1 : a.toByteArray.data = b.toByteArray.data := Array.toList_inj.1 h
  have h2 : a.toByteArray = b.toByteArray := by
    cases ha : a.toByteArray; cases hb : b.toByteArray
    rw [ha, hb] at h1
    simp only at h1
    rw [h1]
  exact String.toByteArray_inj.1 h2

theorem toString_int_inj {i j : Int} (h : toString i = toString j) : i = j := by
  have hnat : ∀ n : Nat, '-' ∉ (toString n).toList := fun n => dashFree_nat n
  have h1 : ∀ n : Nat, toString (Int.ofNat n) = toString n := fun n => rfl
  have h2 : ∀ n : Nat, toString (Int.negSucc n) = "-" ++ toString (n + 1) := fun n => rfl
  cases i with
  | ofNat n =>
    cases j with
    | ofNat m => rw [h1, h1] at h; rw [toString_nat_inj h]
    | negSucc m =>
      exfalso
      rw [h1, h2] at h
      apply hnat n
      rw [h, String.toList_append]
      simp
  | negSucc n =>
    cases j with
    | ofNat m =>
      exfalso
      rw [h1, h2] at h
      apply hnat m
      rw [← h, String.toList_append]
      simp
    | negSucc m =>
      rw [h2, h2] at h
      have h' : "-".toList ++ (toString (n + 1)).toList = "-".toList ++ (toString (m + 1)).toList := by
        rw [← String.toList_append, ← String.toList_append, h]
      have := toString_nat_inj (String.toList_inj.1 (List.append_cancel_left h'))
      have : n = m := by omega
      rw [this]

/-! ### Values -/

theorem hashValues_eq (D : Digest) (xs : List PyVal) (d : Nat) : hashValues D xs d = xs.map (fun x => hashValue D x d) := by
  induction xs with
  | nil => rfl
  | cons x xs ih => rw [hashValues, ih]; rfl

theorem hashPairs_eq (D : Digest) (xs : List (PyVal × PyVal)) (d : Nat) :
    hashPairs D xs d = xs.map (fun p => (hashValue D p.1 d, hashValue D p.2 d)) := by
  induction xs with
  | nil => rfl
  | cons x xs ih => rw [hashPairs, ih]; rfl

theorem messagesAll_mem {D : Digest} {xs : List PyVal} {d : Nat} {x : PyVal} (hx : x ∈ xs) :
    ∀ m ∈ messages D x d, m ∈ messagesAll D xs d := by
  induction xs with
  | nil => cases hx
  | cons y ys ih =>
    intro m hm
    rw [messagesAll, List.mem_append]
    rcases List.mem_cons.1 hx with rfl | hx
    · exact .inl hm
    · exact .inr (ih hx m hm)

theorem messagesPairs_mem {D : Digest} {xs : List (PyVal × PyVal)} {d : Nat} {p : PyVal × PyVal} (hx : p ∈ xs) :
    ∀ m, m ∈ messages D p.1 d ∨ m ∈ messages D p.2 d → m ∈ messagesPairs D xs d := by
  induction xs with
  | nil => cases hx
  | cons y ys ih =>
    intro m hm
    rw [messagesPairs, List.mem_append, List.mem_append]
    rcases List.mem_cons.1 hx with rfl | hx
    · exact .inl hm
    · exact .inr (ih hx m hm)

theorem hashValue_word {D : Digest} (hD : Base64Format D) (v : PyVal) (d : Nat) : Word (hashValue D v d) := by
  have h : ∀ m, Word (D m) := fun m => .inr (.inr (hD m))
  cases v with
  | none => rw [hashValue]; exact .inl rfl
  | obj c a =>
    rw [hashValue]
    split
    · exact .inr (.inl rfl)
    · split
      · exact .inr (.inl rfl)
      · exact h _
  | text r =>
    rw [hashValue]
    split
    · exact .inr (.inl rfl)
    · exact h _
  | map kvs => rw [hashValue]; exact h _
  | _ => rw [hashValue]; exact h _

theorem digest_ne_none {D : Digest} (hD : Base64Format D) (m : Message) : D m ≠ noneHash := by
  intro h
  obtain ⟨b, h1, h2, h3⟩ := hD m
  rw [h] at h1
  have : '<' ∈ b ++ ['=', '='] := by rw [← h1]; decide
  simp at this
  exact h3 this

/-- A value with a type that is not optional is not fingerprinted as `None`. -/
theorem shape_none {D : Digest} (hD : Base64Format D) {τ : Shape} {v : PyVal} (h : HasShape τ v) {d : Nat}
    (hh : hashValue D v d = noneHash) : v = .none := by
  induction τ with
  | opt τ ih =>
    rcases h with h | h
    · exact h
    · exact ih h
  | bool => obtain ⟨b, rfl⟩ := h; rw [hashValue] at hh; exact absurd hh (digest_ne_none hD _)
  | int => obtain ⟨b, rfl⟩ := h; rw [hashValue] at hh; exact absurd hh (digest_ne_none hD _)
  | float => obtain ⟨b, rfl⟩ := h; rw [hashValue] at hh; exact absurd hh (digest_ne_none hD _)
  | str => obtain ⟨b, rfl⟩ := h; rw [hashValue] at hh; exact absurd hh (digest_ne_none hD _)
  | bytes => obtain ⟨b, rfl⟩ := h; rw [hashValue] at hh; exact absurd hh (digest_ne_none hD _)
  | seq t τ => obtain ⟨b, rfl, _⟩ := h; rw [hashValue] at hh; exact absurd hh (digest_ne_none hD _)
  | map κ τ => obtain ⟨b, rfl, _⟩ := h; rw [hashValue] at hh; exact absurd hh (digest_ne_none hD _)
  | set τ => obtain ⟨b, rfl, _⟩ := h; rw [hashValue] at hh; exact absurd hh (digest_ne_none hD _)

theorem perm_map_exists {α β : Type} {f : α → β} {l : List β} {ys : List α} (h : l.Perm (ys.map f)) :
    ∃ ys' : List α, ys'.Perm ys ∧ ys'.map f = l := by
  generalize hm : ys.map f = m at h
  induction h generalizing ys with
  | nil =>
    cases ys with
    | nil => exact ⟨[], .refl _, rfl⟩
    | cons => cases hm
  | cons x _ ih =>
    cases ys with
    | nil => cases hm
    | cons y ys =>
      simp only [List.map_cons, List.cons.injEq] at hm
      obtain ⟨ys', h1, h2⟩ := ih hm.2
      exact ⟨y :: ys', .cons y h1, by rw [List.map_cons, h2, hm.1]⟩
  | swap x y l =>
    cases ys with
    | nil => cases hm
    | cons a ys =>
      cases ys with
      | nil => cases hm
      | cons b ys =>
        simp only [List.map_cons, List.cons.injEq] at hm
        exact ⟨b :: a :: ys, .swap _ _ _, by simp [hm.1, hm.2.1, hm.2.2]⟩
  | trans _ _ h1 h2 =>
    obtain ⟨ys', h3, h4⟩ := h2 hm
    obtain ⟨ys'', h5, h6⟩ := h1 h4
    exact ⟨ys'', h5.trans h3, h6⟩

theorem pointwise_of_map {α β : Type} {f f' : α → β} {R : α → α → Prop} {xs ys : List α}
    (h : xs.map f = ys.map f') (hR : ∀ x ∈ xs, ∀ y ∈ ys, f x = f' y → R x y) : Pointwise R xs ys := by
  induction xs generalizing ys with
  | nil =>
    cases ys with
    | nil => exact .nil
    | cons => cases h
  | cons x xs ih =>
    cases ys with
    | nil => cases h
    | cons y ys =>
      simp only [List.map_cons, List.cons.injEq] at h
      exact .cons (hR x (by simp) y (by simp) h.1)
        (ih h.2 (fun a ha b hb => hR a (by simp [ha]) b (by simp [hb])))

/-- Without equal keys, building the dict of hashes changes nothing. -/
theorem fold_set_nodup (l : List (String × String)) (m : Dict String String) (hn : (m.map (·.1) ++ l.map (·.1)).Nodup) :
    l.foldl (fun (m : Dict String String) p => m.set p.1 p.2) m = m ++ l := by
  induction l generalizing m with
  | nil => simp
  | cons p l ih =>
    have hset : m.set p.1 p.2 = m ++ [(p.1, p.2)] := by
      have hp : p.1 ∉ m.map (·.1) := by
        intro hc
        rw [List.map_cons, List.nodup_append] at hn
        exact hn.2.2 _ hc _ (by simp) rfl
      clear ih hn
      induction m with
      | nil => rfl
      | cons q m ih =>
        simp only [List.map_cons, List.mem_cons, not_or] at hp
        unfold Dict.set
        rw [if_neg (fun h => hp.1 h.symm)]
        rw [ih hp.2]; rfl
    rw [List.foldl_cons, hset, ih]
    · simp
    · simpa using hn

theorem digestItems_nodup {D : Digest} {l : List (String × String)} (hn : (l.map (·.1)).Nodup) :
    digestItems D l = D (.sha (String.join ((sortBy pairLe l).map (fun p => p.1 ++ p.2)))) := by
  unfold digestItems
  rw [fold_set_nodup l [] (by simpa using hn)]
  rfl

theorem NoCollision.sub {D : Digest} {ms ms' : List Message} (h : NoCollision D ms) (hs : ∀ m ∈ ms', m ∈ ms) :
    NoCollision D ms' := fun m hm m' hm' he => h m (hs m hm) m' (hs m' hm') he

/-- Keys that are different have different fingerprints. -/
theorem key_hashes_nodup {D : Digest} {κ : Shape} {xs : List (PyVal × PyVal)} {d : Nat}
    (hs : ∀ p ∈ xs, HasShape κ p.1) (hne : xs.Pairwise (fun p q => ¬ SameValue κ p.1 q.1))
    (ih : ∀ p ∈ xs, ∀ q ∈ xs, hashValue D p.1 d = hashValue D q.1 d → SameValue κ p.1 q.1) :
    ((hashPairs D xs d).map (·.1)).Nodup := by
  rw [hashPairs_eq, List.map_map]
  unfold List.Nodup
  rw [List.pairwise_map]
  exact hne.imp_of_mem (fun ha hb h he => h (ih _ ha _ hb he))

/-- Equal fingerprints of two values of one static type come from equal values. -/
theorem hash_inj {D : Digest} (hD : Base64Format D) (τ : Shape) : ∀ (v w : PyVal) (d d' : Nat), HasShape τ v → HasShape τ w →
    NoCollision D (messages D v d ++ messages D w d') → hashValue D v d = hashValue D w d' → SameValue τ v w := by
  have hprim : ∀ {v w : PyVal} {d d' : Nat} {m m' : Message}, messages D v d = [m] → messages D w d' = [m'] →
      NoCollision D (messages D v d ++ messages D w d') → D m = D m' → m = m' := by
    intro v w d d' m m' h1 h2 hnc he
    exact hnc m (by simp [h1]) m' (by simp [h2]) he
  induction τ with
  | bool =>
    rintro v w d d' ⟨b, rfl⟩ ⟨b', rfl⟩ hnc he
    rw [hashValue, hashValue] at he
    have := hprim (by rw [messages]) (by rw [messages]) hnc he
    injection this with h
    have h := encode_inj h
    show PyVal.bool b = .bool b'
    cases b <;> cases b' <;> first | rfl | (exfalso; revert h; decide)
  | int =>
    rintro v w d d' ⟨b, rfl⟩ ⟨b', rfl⟩ hnc he
    rw [hashValue, hashValue] at he
    have := hprim (by rw [messages]) (by rw [messages]) hnc he
    injection this with h
    show PyVal.int b = .int b'
    rw [toString_int_inj (encode_inj h)]
  | float =>
    rintro v w d d' ⟨b, rfl⟩ ⟨b', rfl⟩ hnc he
    rw [hashValue, hashValue] at he
    have := hprim (by rw [messages]) (by rw [messages]) hnc he
    injection this with h
    show PyVal.float b = .float b'
    rw [encode_inj h]
  | str =>
    rintro v w d d' ⟨b, rfl⟩ ⟨b', rfl⟩ hnc he
    rw [hashValue, hashValue] at he
    have := hprim (by rw [messages]) (by rw [messages]) hnc he
    injection this with h
    show PyVal.str b = .str b'
    rw [encode_inj h]
  | bytes =>
    rintro v w d d' ⟨b, rfl⟩ ⟨b', rfl⟩ hnc he
    rw [hashValue, hashValue] at he
    have := hprim (by rw [messages]) (by rw [messages]) hnc he
    injection this with h
    show PyVal.bytes b = .bytes b'
    rw [h]
  | opt τ ih =>
    rintro v w d d' hv hw hnc he
    rcases hv with rfl | hv
    · left
      rcases hw with rfl | hw
      · exact ⟨rfl, rfl⟩
      · rw [hashValue] at he
        exact ⟨rfl, shape_none hD hw he.symm⟩
    · rcases hw with rfl | hw
      · left
        have he' := he
        rw [hashValue] at he'
        exact ⟨shape_none hD hv he', rfl⟩
      · exact .inr (ih v w d d' hv hw hnc he)
  | seq t τ ih =>
    rintro v w d d' ⟨xs, rfl, hxs⟩ ⟨ys, rfl, hys⟩ hnc he
    rw [hashValue, hashValue] at he
    rw [messages, messages] at hnc
    have h := hnc _ (by simp) _ (by simp) he
    injection h with h
    rw [hashValues_eq, hashValues_eq] at h
    have h := join_words (by simp only [List.mem_map]; rintro _ ⟨x, _, rfl⟩; exact hashValue_word hD _ _)
      (by simp only [List.mem_map]; rintro _ ⟨x, _, rfl⟩; exact hashValue_word hD _ _) h
    refine ⟨xs, ys, rfl, rfl, pointwise_of_map h ?_⟩
    intro x hx y hy hxy
    refine ih x y _ _ (hxs x hx) (hys y hy) (hnc.sub ?_) hxy
    intro m hm
    rcases List.mem_append.1 hm with hm | hm
    · simp [messagesAll_mem hx m hm]
    · simp [messagesAll_mem hy m hm]
  | set τ ih =>
    rintro v w d d' ⟨xs, rfl, hxs⟩ ⟨ys, rfl, hys⟩ hnc he
    rw [hashValue, hashValue] at he
    rw [messages, messages] at hnc
    have h := hnc _ (by simp) _ (by simp) he
    injection h with h
    rw [hashValues_eq, hashValues_eq] at h
    have hword : ∀ (zs : List PyVal) (d : Nat), ∀ w ∈ sortBy strLe (zs.map (fun x => hashValue D x d)), Word w := by
      intro zs d w hw
      obtain ⟨x, _, rfl⟩ := List.mem_map.1 ((sortBy_perm _).mem_iff.1 hw)
      exact hashValue_word hD _ _
    have h := join_words (hword _ _) (hword _ _) h
    have hp : (xs.map (fun x => hashValue D x (d + 1))).Perm (ys.map (fun x => hashValue D x (d' + 1))) :=
      (sortBy_perm _).symm.trans ((List.Perm.of_eq h).trans (sortBy_perm _))
    obtain ⟨ys', hp1, hp2⟩ := perm_map_exists hp
    refine ⟨xs, ys, ys', rfl, rfl, hp1, pointwise_of_map hp2.symm ?_⟩
    intro x hx y hy hxy
    have hy := hp1.mem_iff.1 hy
    refine ih x y _ _ (hxs x hx) (hys y hy) (hnc.sub ?_) hxy
    intro m hm
    rcases List.mem_append.1 hm with hm | hm
    · simp [messagesAll_mem hx m hm]
    · simp [messagesAll_mem hy m hm]
  | map κ τ ihκ ihτ =>
    rintro v w d d' ⟨xs, rfl, hxs, hdx⟩ ⟨ys, rfl, hys, hdy⟩ hnc he
    rw [hashValue, hashValue] at he
    rw [messages, messages] at hnc
    have hnx : NoCollision D (messagesPairs D xs (d + 1)) := hnc.sub (fun m hm => by simp [hm])
    have hny : NoCollision D (messagesPairs D ys (d' + 1)) := hnc.sub (fun m hm => by simp [hm])
    have hkeys : ∀ {zs : List (PyVal × PyVal)} {e : Nat}, (∀ p ∈ zs, HasShape κ p.1 ∧ HasShape τ p.2) →
        zs.Pairwise (fun p q => ¬ SameValue κ p.1 q.1) → NoCollision D (messagesPairs D zs e) →
        ((hashPairs D zs e).map (·.1)).Nodup := by
      intro zs e hzs hdz hnz
      refine key_hashes_nodup (fun p hp => (hzs p hp).1) hdz ?_
      intro p hp q hq hpq
      refine ihκ _ _ _ _ (hzs p hp).1 (hzs q hq).1 (hnz.sub ?_) hpq
      intro m hm
      rcases List.mem_append.1 hm with hm | hm
      · exact messagesPairs_mem hp m (.inl hm)
      · exact messagesPairs_mem hq m (.inl hm)
    have hkx := hkeys hxs hdx hnx
    have hky := hkeys hys hdy hny
    rw [digestItems_nodup hkx, digestItems_nodup hky] at he
    rw [fold_set_nodup _ [] (by simpa using hkx), fold_set_nodup _ [] (by simpa using hky)] at hnc
    have h := hnc _ (by simp) _ (by simp) he
    injection h with h
    rw [hashPairs_eq, hashPairs_eq] at h
    have hword : ∀ (zs : List (PyVal × PyVal)) (d : Nat),
        ∀ w ∈ sortBy pairLe (zs.map (fun p => (hashValue D p.1 d, hashValue D p.2 d))), Word w.1 ∧ Word w.2 := by
      intro zs d w hw
      obtain ⟨x, _, rfl⟩ := List.mem_map.1 ((sortBy_perm _).mem_iff.1 hw)
      exact ⟨hashValue_word hD _ _, hashValue_word hD _ _⟩
    have h := join_pairs (hword _ _) (hword _ _) h
    have hp : (xs.map (fun p => (hashValue D p.1 (d + 1), hashValue D p.2 (d + 1)))).Perm
        (ys.map (fun p => (hashValue D p.1 (d' + 1), hashValue D p.2 (d' + 1)))) :=
      (sortBy_perm _).symm.trans ((List.Perm.of_eq h).trans (sortBy_perm _))
    obtain ⟨ys', hp1, hp2⟩ := perm_map_exists hp
    refine ⟨xs, ys, ys', rfl, rfl, hp1, pointwise_of_map hp2.symm ?_⟩
    intro x hx y hy hxy
    have hy := hp1.mem_iff.1 hy
    injection hxy with hxy1 hxy2
    constructor
    · refine ihκ _ _ _ _ (hxs x hx).1 (hys y hy).1 (hnc.sub ?_) hxy1
      intro m hm
      rcases List.mem_append.1 hm with hm | hm
      · simp [messagesPairs_mem hx m (.inl hm)]
      · simp [messagesPairs_mem hy m (.inl hm)]
    · refine ihτ _ _ _ _ (hxs x hx).2 (hys y hy).2 (hnc.sub ?_) hxy2
      intro m hm
      rcases List.mem_append.1 hm with hm | hm
      · simp [messagesPairs_mem hx m (.inr hm)]
      · simp [messagesPairs_mem hy m (.inr hm)]

theorem pointwise_map_eq {α β : Type} {f f' : α → β} {R : α → α → Prop} {xs ys : List α} (h : Pointwise R xs ys)
    (hR : ∀ x ∈ xs, ∀ y ∈ ys, R x y → f x = f' y) : xs.map f = ys.map f' := by
  induction h with
  | nil => rfl
  | @cons a b l l' h1 _ ih =>
    rw [List.map_cons, List.map_cons, hR a (by simp) b (by simp) h1,
      ih (fun x hx y hy => hR x (by simp [hx]) y (by simp [hy]))]

/-- Equal values of one static type have equal fingerprints. -/
theorem hash_same {D : Digest} (hD : Base64Format D) (τ : Shape) : ∀ (v w : PyVal) (d d' : Nat), HasShape τ v → HasShape τ w →
    NoCollision D (messages D v d ++ messages D w d') → SameValue τ v w → hashValue D v d = hashValue D w d' := by
  induction τ with
  | bool => rintro v w d d' ⟨b, rfl⟩ ⟨b', rfl⟩ _ h; cases h; rw [hashValue, hashValue]
  | int => rintro v w d d' ⟨b, rfl⟩ ⟨b', rfl⟩ _ h; cases h; rw [hashValue, hashValue]
  | float => rintro v w d d' ⟨b, rfl⟩ ⟨b', rfl⟩ _ h; cases h; rw [hashValue, hashValue]
  | str => rintro v w d d' ⟨b, rfl⟩ ⟨b', rfl⟩ _ h; cases h; rw [hashValue, hashValue]
  | bytes => rintro v w d d' ⟨b, rfl⟩ ⟨b', rfl⟩ _ h; cases h; rw [hashValue, hashValue]
  | opt τ ih =>
    rintro v w d d' hv hw hnc h
    have hs : ∀ v w : PyVal, SameValue τ v w → (v = .none ↔ w = .none) := by
      clear ih hv hw hnc h
      intro v w
      induction τ with
      | opt τ ih =>
        rintro (⟨rfl, rfl⟩ | h)
        · exact Iff.rfl
        · exact ih h
      | seq => rintro ⟨_, _, rfl, rfl, _⟩; simp
      | map => rintro ⟨_, _, _, rfl, rfl, _⟩; simp
      | set => rintro ⟨_, _, _, rfl, rfl, _⟩; simp
      | _ => intro h; cases h; exact Iff.rfl
    rcases h with ⟨rfl, rfl⟩ | h
    · rw [hashValue, hashValue]
    · rcases hv with rfl | hv
      · rw [(hs _ _ h).1 rfl, hashValue, hashValue]
      · rcases hw with rfl | hw
        · rw [(hs _ _ h).2 rfl, hashValue, hashValue]
        · exact ih v w d d' hv hw hnc h
  | seq t τ ih =>
    rintro v w d d' ⟨xs, rfl, hxs⟩ ⟨ys, rfl, hys⟩ hnc ⟨_, _, h1, h2, h⟩
    cases h1; cases h2
    rw [messages, messages] at hnc
    rw [hashValue, hashValue, hashValues_eq, hashValues_eq,
      pointwise_map_eq (f' := fun x => hashValue D x (d' + 1)) h]
    intro x hx y hy hxy
    refine ih x y _ _ (hxs x hx) (hys y hy) (hnc.sub ?_) hxy
    intro m hm
    rcases List.mem_append.1 hm with hm | hm
    · simp [messagesAll_mem hx m hm]
    · simp [messagesAll_mem hy m hm]
  | set τ ih =>
    rintro v w d d' ⟨xs, rfl, hxs⟩ ⟨ys, rfl, hys⟩ hnc ⟨_, _, ys', h1, h2, hp, h⟩
    cases h1; cases h2
    rw [messages, messages] at hnc
    rw [hashValue, hashValue, hashValues_eq, hashValues_eq,
      pointwise_map_eq (f' := fun x => hashValue D x (d' + 1)) h, sortBy_perm_eq strLe_lin (hp.map _)]
    intro x hx y hy hxy
    have hy := hp.mem_iff.1 hy
    refine ih x y _ _ (hxs x hx) (hys y hy) (hnc.sub ?_) hxy
    intro m hm
    rcases List.mem_append.1 hm with hm | hm
    · simp [messagesAll_mem hx m hm]
    · simp [messagesAll_mem hy m hm]
  | map κ τ ihκ ihτ =>
    rintro v w d d' ⟨xs, rfl, hxs, hdx⟩ ⟨ys, rfl, hys, hdy⟩ hnc ⟨_, _, ys', h1, h2, hp, h⟩
    cases h1; cases h2
    rw [messages, messages] at hnc
    have hnx : NoCollision D (messagesPairs D xs (d + 1)) := hnc.sub (fun m hm => by simp [hm])
    have hny : NoCollision D (messagesPairs D ys (d' + 1)) := hnc.sub (fun m hm => by simp [hm])
    have hkeys : ∀ {zs : List (PyVal × PyVal)} {e : Nat}, (∀ p ∈ zs, HasShape κ p.1 ∧ HasShape τ p.2) →
        zs.Pairwise (fun p q => ¬ SameValue κ p.1 q.1) → NoCollision D (messagesPairs D zs e) →
        ((hashPairs D zs e).map (·.1)).Nodup := by
      intro zs e hzs hdz hnz
      refine key_hashes_nodup (fun p hp => (hzs p hp).1) hdz ?_
      intro p hp q hq hpq
      refine hash_inj hD κ _ _ _ _ (hzs p hp).1 (hzs q hq).1 (hnz.sub ?_) hpq
      intro m hm
      rcases List.mem_append.1 hm with hm | hm
      · exact messagesPairs_mem hp m (.inl hm)
      · exact messagesPairs_mem hq m (.inl hm)
    rw [hashValue, hashValue, digestItems_nodup (hkeys hxs hdx hnx), digestItems_nodup (hkeys hys hdy hny),
      hashPairs_eq, hashPairs_eq,
      pointwise_map_eq (f' := fun p => (hashValue D p.1 (d' + 1), hashValue D p.2 (d' + 1))) h,
      sortBy_perm_eq pairLe_lin (hp.map _)]
    intro x hx y hy hxy
    have hy := hp.mem_iff.1 hy
    refine Prod.ext (ihκ _ _ _ _ (hxs x hx).1 (hys y hy).1 (hnc.sub ?_) hxy.1)
      (ihτ _ _ _ _ (hxs x hx).2 (hys y hy).2 (hnc.sub ?_) hxy.2)
    · intro m hm
      rcases List.mem_append.1 hm with hm | hm
      · simp [messagesPairs_mem hx m (.inl hm)]
      · simp [messagesPairs_mem hy m (.inl hm)]
    · intro m hm
      rcases List.mem_append.1 hm with hm | hm
      · simp [messagesPairs_mem hx m (.inr hm)]
      · simp [messagesPairs_mem hy m (.inr hm)]

end Verif
