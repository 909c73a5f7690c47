import Verif.Proofs.Fingerprint

/-! C27, C28: data versions. -/
namespace Verif

/-! ### A digest for the examples -/

/-- Escape `=` and `<`. -/
def escChar : Char → List Char
  | '=' => ['e']
  | '<' => ['l']
  | 'e' => ['p', 'e']
  | 'l' => ['p', 'l']
  | 'p' => ['p', 'p']
  | c => [c]

/-- A digest in the format of `_compact_hash` whose output is as long as its input. -/
def toyDigest : Digest
  | .md5 b => String.ofList ('m' :: (b.flatMap (fun x => escChar (Char.ofNat x.toNat))) ++ ['=', '='])
  | .sha s => String.ofList ('s' :: (s.toList.flatMap escChar) ++ ['=', '='])

theorem escChar_ok (c : Char) : '=' ∉ escChar c ∧ '<' ∉ escChar c := by
  unfold escChar
  split
  · decide
  · decide
  · decide
  · decide
  · decide
  · rename_i h1 h2 _ _ _
    simp only [List.mem_singleton]
    exact ⟨fun h => h1 h.symm, fun h => h2 h.symm⟩

theorem toyDigest_format : Base64Format toyDigest := by
  intro m
  cases m with
  | md5 b =>
    refine ⟨'m' :: b.flatMap (fun x => escChar (Char.ofNat x.toNat)), by simp [toyDigest], ?_, ?_⟩ <;>
    · simp only [List.mem_cons, List.mem_flatMap, not_or, not_exists, not_and]
      exact ⟨by decide, fun x _ => by first | exact (escChar_ok _).1 | exact (escChar_ok _).2⟩
  | sha s =>
    refine ⟨'s' :: s.toList.flatMap escChar, by simp [toyDigest], ?_, ?_⟩ <;>
    · simp only [List.mem_cons, List.mem_flatMap, not_or, not_exists, not_and]
      exact ⟨by decide, fun x _ => by first | exact (escChar_ok _).1 | exact (escChar_ok _).2⟩

instance (D : Digest) (ms : List Message) : Decidable (NoCollision D ms) := by unfold NoCollision; infer_instance

/-! ### C27 -/

/-- C27 for two values of one static type (nested optionals, sequences, dicts with pairwise different keys and sets of
primitives): if the digest has no collision among the messages digested for the two values, equal data versions come from
values that are equal in the sense of Python. Missing: values of different types, objects, values nested deeper than
`MAX_DEPTH`; see `C27_violated`. -/
theorem C27_same_type_partial {D : Digest} (hD : Base64Format D) {τ : Shape} {v w : PyVal} (hv : HasShape τ v)
    (hw : HasShape τ w) (hnc : NoCollision D (messages D v 0 ++ messages D w 0))
    (h : hashValue D v 0 = hashValue D w 0) : SameValue τ v w :=
  hash_inj hD τ v w 0 0 hv hw hnc h

section
/-- `{"a": [1, None], "b": []}`. -/
private def d1 : PyVal := .map [(.str "a", .seq "list" [.int 1, .none]), (.str "b", .seq "list" [])]
/-- The same with the entries in the other order. -/
private def d2 : PyVal := .map [(.str "b", .seq "list" []), (.str "a", .seq "list" [.int 1, .none])]
/-- `{"a": [1], "b": [None]}`. -/
private def d3 : PyVal := .map [(.str "a", .seq "list" [.int 1]), (.str "b", .seq "list" [.none])]
/-- `Dict[str, List[Optional[int]]]`. -/
private def dT : Shape := .map .str (.seq "list" (.opt .int))

private theorem d1_ok : HasShape dT d1 := by
  refine ⟨_, rfl, ?_, ?_⟩
  · intro p hp
    simp only [List.mem_cons, List.not_mem_nil, or_false] at hp
    rcases hp with rfl | rfl
    · exact ⟨⟨_, rfl⟩, _, rfl, by simp [HasShape]⟩
    · exact ⟨⟨_, rfl⟩, _, rfl, by simp⟩
  · simp [SameValue]

private theorem d2_ok : HasShape dT d2 := by
  refine ⟨_, rfl, ?_, ?_⟩
  · intro p hp
    simp only [List.mem_cons, List.not_mem_nil, or_false] at hp
    rcases hp with rfl | rfl
    · exact ⟨⟨_, rfl⟩, _, rfl, by simp⟩
    · exact ⟨⟨_, rfl⟩, _, rfl, by simp [HasShape]⟩
  · simp [SameValue]

private theorem d3_ok : HasShape dT d3 := by
  refine ⟨_, rfl, ?_, ?_⟩
  · intro p hp
    simp only [List.mem_cons, List.not_mem_nil, or_false] at hp
    rcases hp with rfl | rfl
    · exact ⟨⟨_, rfl⟩, _, rfl, by simp [HasShape]⟩
    · exact ⟨⟨_, rfl⟩, _, rfl, by simp [HasShape]⟩
  · simp [SameValue]

/-- The hypotheses hold for the two orders of one dict, and the equal data versions are those of equal values. -/
example : SameValue dT d1 d2 :=
  C27_same_type_partial toyDigest_format d1_ok d2_ok (by decide) (by decide)

/-- Different values, different data versions. -/
example : hashValue toyDigest d1 0 ≠ hashValue toyDigest d3 0 := by decide
example : NoCollision toyDigest (messages toyDigest d1 0 ++ messages toyDigest d3 0) := by decide
example : HasShape dT d3 := d3_ok
end

/-- C27 as stated does not hold, whatever the digest: the integer 1 and the string "1", a list and a tuple of the same
elements, a dict with one entry and the list of its key and its value, a string and its UTF-8 bytes, instances of different
classes with equal attributes, any two instances without attributes, have equal data versions. -/
theorem C27_violated (D : Digest) :
    (∀ i : Int, hashValue D (.int i) 0 = hashValue D (.str (toString i)) 0) ∧
    (∀ xs, hashValue D (.seq "list" xs) 0 = hashValue D (.seq "tuple" xs) 0) ∧
    (∀ k v, hashValue D (.map [(k, v)]) 0 = hashValue D (.seq "list" [k, v]) 0) ∧
    (∀ s, hashValue D (.str s) 0 = hashValue D (.bytes (encode s)) 0) ∧
    (∀ c c' attrs, hashValue D (.obj c attrs) 0 = hashValue D (.obj c' attrs) 0) ∧
    (∀ c c', hashValue D (.obj c []) 0 = hashValue D (.obj c' []) 0) ∧
    (∀ b, hashValue D (.bool b) 0 = hashValue D (.str (if b then "True" else "False")) 0) := by
  refine ⟨fun i => ?_, fun xs => ?_, fun k v => ?_, fun s => ?_, fun c c' a => ?_, fun c c' => ?_, fun b => ?_⟩
  · rw [hashValue, hashValue]
  · rw [hashValue, hashValue]
  · rw [hashValue, hashValue, hashPairs_eq, hashValues_eq, digestItems_nodup (by simp)]
    simp [sortBy, insertBy, String.join_cons, String.append_assoc]
  · rw [hashValue, hashValue]
  · rw [hashValue, hashValue]
  · rw [hashValue, hashValue]
  · rw [hashValue, hashValue]

/-- The pairs of values are different values. -/
example : PyVal.int 1 ≠ .str (toString (1 : Int)) ∧ PyVal.seq "list" [.int 1] ≠ .seq "tuple" [.int 1]
    ∧ PyVal.map [(.str "a", .int 1)] ≠ .seq "list" [.str "a", .int 1] ∧ PyVal.obj "A" [] ≠ .obj "B" [] := by
  simp

/-- Objects and texts nested below `MAX_DEPTH` are all fingerprinted alike: two lists nested seven deep around different
instances have equal data versions (fingerprinting.py:73-79). -/
theorem C27_violated_depth (D : Digest) (c c' : String) (a a' : List (String × PyVal)) :
    hashValue D (.seq "list" [.seq "list" [.seq "list" [.seq "list" [.seq "list" [.seq "list" [.seq "list"
      [.obj c a]]]]]]]) 0 =
    hashValue D (.seq "list" [.seq "list" [.seq "list" [.seq "list" [.seq "list" [.seq "list" [.seq "list"
      [.obj c' a']]]]]]]) 0 := by
  simp [hashValue, hashValues, maxDepth]

/-! ### C28 -/

/-- C28 for sets: the iteration order does not matter. -/
theorem C28_set (D : Digest) {xs ys : List PyVal} (h : xs.Perm ys) (d : Nat) :
    hashValue D (.set xs) d = hashValue D (.set ys) d := by
  rw [hashValue, hashValue, hashValues_eq, hashValues_eq, sortBy_perm_eq strLe_lin (h.map _)]

example : [PyVal.int 1, .str "a", .none].Perm [.none, .int 1, .str "a"] := by
  exact ((List.Perm.swap _ _ _).cons _).trans (.swap _ _ _)
example : hashValue toyDigest (.set [.int 1, .str "a", .none]) 0 = hashValue toyDigest (.set [.none, .int 1, .str "a"]) 0 := by
  decide

/-- C28 for dicts: the insertion order does not matter as long as the keys have different data versions. Missing: keys with
equal data versions, see `C28_violated`. -/
theorem C28_dict_partial (D : Digest) {xs ys : List (PyVal × PyVal)} (h : xs.Perm ys) (d : Nat)
    (hk : (xs.map (fun p => hashValue D p.1 (d + 1))).Nodup) :
    hashValue D (.map xs) d = hashValue D (.map ys) d := by
  have hk' : (ys.map (fun p => hashValue D p.1 (d + 1))).Nodup := (h.map _).nodup_iff.1 hk
  rw [hashValue, hashValue, digestItems_nodup, digestItems_nodup, hashPairs_eq, hashPairs_eq,
    sortBy_perm_eq pairLe_lin (h.map _)]
  · rw [hashPairs_eq, List.map_map]; exact hk'
  · rw [hashPairs_eq, List.map_map]; exact hk

example : ([(PyVal.int 1, PyVal.str "a"), (.str "x", .none)].map (fun p => hashValue toyDigest p.1 1)).Nodup := by decide

/-- C28 for dicts whose keys have one static type and are pairwise different, when the digest has no collision among the
messages of the keys: the insertion order does not matter. -/
theorem C28_dict_typed_keys {D : Digest} (hD : Base64Format D) {κ : Shape} {xs ys : List (PyVal × PyVal)} (h : xs.Perm ys)
    (d : Nat) (hk : ∀ p ∈ xs, HasShape κ p.1) (hne : xs.Pairwise (fun p q => ¬ SameValue κ p.1 q.1))
    (hnc : NoCollision D (xs.flatMap (fun p => messages D p.1 (d + 1)))) :
    hashValue D (.map xs) d = hashValue D (.map ys) d := by
  refine C28_dict_partial D h d ?_
  have := key_hashes_nodup (D := D) (d := d + 1) hk hne ?_
  · rw [hashPairs_eq, List.map_map] at this; exact this
  · intro p hp q hq he
    refine hash_inj hD κ _ _ _ _ (hk p hp) (hk q hq) (hnc.sub ?_) he
    intro m hm
    rcases List.mem_append.1 hm with hm | hm
    · exact List.mem_flatMap.2 ⟨p, hp, hm⟩
    · exact List.mem_flatMap.2 ⟨q, hq, hm⟩

example : hashValue toyDigest (.map [(.str "a", .int 1), (.str "b", .obj "C" [])]) 0 =
    hashValue toyDigest (.map [(.str "b", .obj "C" []), (.str "a", .int 1)]) 0 :=
  C28_dict_typed_keys (κ := .str) toyDigest_format (.swap _ _ _) 0 (by simp [HasShape]) (by simp [SameValue]) (by decide)

/-- C28 for all nested values of one static type: values equal in the sense of Python have equal data versions, whatever the
order of dict entries and set elements at any level. -/
theorem C28_equal_values {D : Digest} (hD : Base64Format D) {τ : Shape} {v w : PyVal} (hv : HasShape τ v)
    (hw : HasShape τ w) (hnc : NoCollision D (messages D v 0 ++ messages D w 0)) (h : SameValue τ v w) :
    hashValue D v 0 = hashValue D w 0 :=
  hash_same hD τ v w 0 0 hv hw hnc h

example : SameValue dT d1 d2 := by
  refine ⟨_, _, [_, _], rfl, rfl, .swap _ _ _, .cons ⟨rfl, _, _, rfl, rfl, ?_⟩ (.cons ⟨rfl, _, _, rfl, rfl, .nil⟩ .nil)⟩
  exact .cons (.inr rfl) (.cons (.inl ⟨rfl, rfl⟩) .nil)
example : HasShape dT d1 ∧ HasShape dT d2 ∧ NoCollision toyDigest (messages toyDigest d1 0 ++ messages toyDigest d2 0) :=
  ⟨d1_ok, d2_ok, by decide⟩

/-- C28 for sequences: two sequences have the same data version only if the data versions of their elements agree position
by position. -/
theorem C28_sequence {D : Digest} (hD : Base64Format D) {t t' : String} {xs ys : List PyVal} {d : Nat}
    (hnc : NoCollision D (messages D (.seq t xs) d ++ messages D (.seq t' ys) d))
    (h : hashValue D (.seq t xs) d = hashValue D (.seq t' ys) d) :
    xs.map (fun x => hashValue D x (d + 1)) = ys.map (fun x => hashValue D x (d + 1)) := by
  rw [hashValue, hashValue] at h
  rw [messages, messages] at hnc
  have h := hnc _ (by simp) _ (by simp) h
  injection h with h
  rw [hashValues_eq, hashValues_eq] at h
  exact join_words (by simp only [List.mem_map]; rintro _ ⟨x, _, rfl⟩; exact hashValue_word hD _ _)
    (by simp only [List.mem_map]; rintro _ ⟨x, _, rfl⟩; exact hashValue_word hD _ _) h

/-- Swapping two elements changes the data version. -/
example : hashValue toyDigest (.seq "list" [.int 1, .int 2]) 0 ≠ hashValue toyDigest (.seq "list" [.int 2, .int 1]) 0 := by
  intro h
  have := C28_sequence toyDigest_format (by decide) h
  exact absurd this (by decide)

/-- C28 as stated does not hold for dicts: for any digest without collision among the messages involved,
`{1: "a", "1": "b"}` and `{"1": "b", 1: "a"}` are equal dicts with different data versions, because the keys have equal
data versions and the last one wins. -/
theorem C28_violated {D : Digest} (hD : Base64Format D)
    (hnc : NoCollision D (messages D (.map [(.int 1, .str "a"), (.str "1", .str "b")]) 0 ++
      messages D (.map [(.str "1", .str "b"), (.int 1, .str "a")]) 0)) :
    hashValue D (.map [(.int 1, .str "a"), (.str "1", .str "b")]) 0 ≠
    hashValue D (.map [(.str "1", .str "b"), (.int 1, .str "a")]) 0 := by
  have h1 : toString (1 : Int) = "1" := rfl
  simp only [hashValue, hashPairs, digestItems, messages, messagesPairs, List.foldl_cons, List.foldl_nil, h1] at hnc ⊢
  have hset : ∀ a b k : String, (Dict.set (Dict.set ([] : Dict String String) k a) k b) = [(k, b)] := by
    intro a b k; simp [Dict.set]
  rw [hset, hset] at hnc ⊢
  intro h
  have h := hnc _ (by simp) _ (by simp) h
  injection h with h
  have h := join_pairs (by
    intro p hp
    simp only [sortBy, List.foldr_cons, List.foldr_nil, insertBy, List.mem_cons, List.not_mem_nil, or_false] at hp
    subst hp; exact ⟨.inr (.inr (hD _)), .inr (.inr (hD _))⟩) (by
    intro p hp
    simp only [sortBy, List.foldr_cons, List.foldr_nil, insertBy, List.mem_cons, List.not_mem_nil, or_false] at hp
    subst hp; exact ⟨.inr (.inr (hD _)), .inr (.inr (hD _))⟩) h
  simp only [sortBy, List.foldr_cons, List.foldr_nil, insertBy, List.cons.injEq, Prod.mk.injEq, and_true, true_and] at h
  have h := hnc _ (by simp) _ (by simp) h
  injection h with h
  exact absurd (encode_inj h) (by decide)

example : NoCollision toyDigest (messages toyDigest (.map [(.int 1, .str "a"), (.str "1", .str "b")]) 0 ++
      messages toyDigest (.map [(.str "1", .str "b"), (.int 1, .str "a")]) 0) := by decide

end Verif
