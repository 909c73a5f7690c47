import Verif.Spec.CacheKey
import Verif.Proofs.Fingerprint

/-! C29: cache keys. -/
namespace Verif

theorem splitOnChar_ne_nil (c : Char) (l : List Char) : splitOnChar c l ≠ [] := by
  cases l with
  | nil => simp [splitOnChar]
  | cons x xs =>
    unfold splitOnChar
    split
    · simp
    · split <;> simp

theorem splitOnChar_free {c : Char} {l : List Char} (h : c ∉ l) : splitOnChar c l = [l] := by
  induction l with
  | nil => rfl
  | cons x xs ih =>
    simp only [List.mem_cons, not_or] at h
    unfold splitOnChar
    rw [if_neg (fun e => h.1 e.symm), ih h.2]

theorem splitOnChar_append {c : Char} {l r : List Char} (h : c ∉ l) :
    splitOnChar c (l ++ c :: r) = l :: splitOnChar c r := by
  induction l with
  | nil => rw [List.nil_append]; conv => lhs; unfold splitOnChar
           rw [if_pos rfl]
  | cons x xs ih =>
    simp only [List.mem_cons, not_or] at h
    rw [List.cons_append]
    conv => lhs; unfold splitOnChar
    rw [if_neg (fun e => h.1 e.symm), ih h.2]

theorem split_join {l : List String} (hne : l ≠ []) (h : ∀ w ∈ l, ',' ∉ w.toList) :
    (splitOnChar ',' (joinComma l).toList).map String.ofList = l := by
  induction l with
  | nil => exact absurd rfl hne
  | cons a t ih =>
    cases t with
    | nil =>
      rw [joinComma, splitOnChar_free (h a (by simp))]
      simp
    | cons b t =>
      rw [joinComma, String.toList_append, String.toList_append]
      have : (",".toList : List Char) = [','] := rfl
      rw [this, List.append_assoc, List.cons_append, List.nil_append, splitOnChar_append (h a (by simp)), List.map_cons,
        ih (by simp) (fun w hw => h w (by simp [hw]))]
      simp

theorem pairUp_flat (l : List (String × String)) (d : Dict String String) :
    pairUp (l.flatMap (fun p => [p.1, p.2])) d = some (l.foldl (fun d p => d.set p.1 p.2) d) := by
  induction l generalizing d with
  | nil => rfl
  | cons p t ih =>
    simp only [List.flatMap_cons, List.cons_append, List.nil_append, pairUp, List.foldl_cons]
    exact ih _

theorem decode_encode {deps : Dict String String} (hne : deps ≠ []) (hk : deps.keys.Nodup) (hc : CommaFree deps) :
    decodeStrDict (encodeStrDict deps) = some (sortBy pairLe deps) := by
  have hp : (sortBy pairLe deps).Perm deps := sortBy_perm deps
  unfold decodeStrDict encodeStrDict
  rw [split_join, pairUp_flat, fold_set_nodup]
  · rfl
  · simpa using ((hp.map (Prod.fst)).nodup_iff.2 hk)
  · cases h : sortBy pairLe deps with
    | nil => rw [h] at hp; exact absurd hp.symm.eq_nil hne
    | cons a t => simp [List.flatMap_cons]
  · intro w hw
    obtain ⟨p, hp', hw⟩ := List.mem_flatMap.1 hw
    have := hc p (hp.mem_iff.1 hp')
    simp only [List.mem_cons, List.not_mem_nil, or_false] at hw
    rcases hw with rfl | rfl
    · exact this.1
    · exact this.2

theorem comma_in_join {a b : String} {t : List String} : ',' ∈ (joinComma (a :: b :: t)).toList := by
  rw [joinComma, String.toList_append, String.toList_append]
  simp

theorem encode_ne_none {deps : Dict String String} (hne : deps ≠ []) : encodeStrDict deps ≠ "<none>" := by
  have hp : (sortBy pairLe deps).Perm deps := sortBy_perm deps
  intro h
  have hc : ',' ∈ (encodeStrDict deps).toList := by
    unfold encodeStrDict
    cases h' : sortBy pairLe deps with
    | nil => rw [h'] at hp; exact absurd hp.symm.eq_nil hne
    | cons a t => rw [List.flatMap_cons]; exact comma_in_join
  rw [h] at hc
  exact absurd hc (by decide)

theorem partitionDash_append {l r : List Char} (h : '-' ∉ l) : partitionDash (l ++ '-' :: r) = (l, r) := by
  induction l with
  | nil => rfl
  | cons x xs ih =>
    simp only [List.mem_cons, not_or] at h
    rw [List.cons_append, partitionDash, if_neg (fun e => h.1 e.symm), ih h.2]

theorem safeName_dash {alnum : Char → Bool} (ha : alnum '-' = false) (name : String) : '-' ∉ (safeName alnum name).toList := by
  unfold safeName
  rw [String.toList_ofList, List.mem_filter]
  rintro ⟨_, h⟩
  simp [ha] at h

theorem safeName_plain {alnum : Char → Bool} {name : String} (h : PlainName alnum name) : safeName alnum name = name := by
  unfold safeName
  rw [List.filter_eq_self.2 (fun c hc => by simpa using h c hc), String.ofList_toList]

theorem get?_perm {d d' : Dict String String} (h : d.Perm d') (hk : d.keys.Nodup) (k : String) : d.get? k = d'.get? k := by
  have hk' : d'.keys.Nodup := (h.map (Prod.fst)).nodup_iff.1 hk
  cases hg : d.get? k with
  | none =>
    cases hg' : d'.get? k with
    | none => rfl
    | some v =>
      have := Dict.get?_of_mem hk (h.mem_iff.2 (Dict.get?_mem hg'))
      rw [this] at hg; cases hg
  | some v => exact (Dict.get?_of_mem hk' (h.mem_iff.1 (Dict.get?_mem hg))).symm

theorem key_toList (Z : Codec) (alnum : Char → Bool) (name code : String) (deps : Dict String String) :
    (createCacheKey Z alnum name code deps).toList = (safeName alnum name).toList ++ '-' :: (code.toList ++ '-' ::
      (Z.compress (if deps.length > 0 then encodeStrDict deps else "<none>")).toList) := by
  unfold createCacheKey
  simp [String.toList_append]

/-- C29, decoding: for a node name of letters, digits and underscores, a code version without dash, and dependency names
and versions without comma, decoding the cache key gives back the name, the code version and a dict equal to the
dependency versions. Missing: other names, see `C29_violated`. -/
theorem C29_decode_partial {Z : Codec} (hZ : Z.Lawful) {alnum : Char → Bool} (ha : alnum '-' = false) {name code : String}
    {deps : Dict String String} (hname : PlainName alnum name) (hcode : '-' ∉ code.toList) (hk : deps.keys.Nodup)
    (hc : CommaFree deps) :
    ∃ d, decodeKey Z (createCacheKey Z alnum name code deps) = some (name, code, d) ∧ SameDict d deps := by
  have hkey := key_toList Z alnum name code deps
  unfold decodeKey
  rw [hkey, partitionDash_append (safeName_dash ha name)]
  simp only
  rw [partitionDash_append hcode]
  simp only [String.ofList_toList, hZ.roundtrip, safeName_plain hname]
  by_cases hne : deps = []
  · subst hne
    exact ⟨[], rfl, fun _ => rfl⟩
  · have hlen : deps.length > 0 := List.length_pos_iff.2 hne
    rw [if_pos hlen, if_neg (encode_ne_none hne), decode_encode hne hk hc]
    have hp : (sortBy pairLe deps).Perm deps := sortBy_perm deps
    exact ⟨_, rfl, get?_perm hp ((hp.map (Prod.fst)).nodup_iff.2 hk)⟩

theorem lastDash {a b r r' : List Char} (h : a ++ '-' :: r = b ++ '-' :: r') (hr : '-' ∉ r) (hr' : '-' ∉ r') :
    a = b ∧ r = r' := by
  induction a generalizing b with
  | nil =>
    cases b with
    | nil => simpa using h
    | cons x t =>
      simp only [List.nil_append, List.cons_append, List.cons.injEq] at h
      exact absurd (by rw [h.2]; simp) hr
  | cons y s ih =>
    cases b with
    | nil =>
      simp only [List.nil_append, List.cons_append, List.cons.injEq] at h
      exact absurd (by rw [← h.2]; simp) hr'
    | cons x t =>
      simp only [List.cons_append, List.cons.injEq] at h
      obtain ⟨h1, h2⟩ := ih h.2
      exact ⟨by rw [h.1, h1], h2⟩

theorem firstDash {a b r r' : List Char} (h : a ++ '-' :: r = b ++ '-' :: r') (ha : '-' ∉ a) (hb : '-' ∉ b) :
    a = b ∧ r = r' := by
  have h1 := partitionDash_append (r := r) ha
  rw [h, partitionDash_append hb] at h1
  exact ⟨(congrArg Prod.fst h1).symm, (congrArg Prod.snd h1).symm⟩

/-- C29, injectivity: equal cache keys come from the same code version, equal dependency versions, and names that differ at
most in characters other than letters, digits and underscores; whatever the code version. Missing: names that only differ
in such characters, see `C29_violated`. -/
theorem C29_injective_partial {Z : Codec} (hZ : Z.Lawful) {alnum : Char → Bool} (ha : alnum '-' = false)
    {name name' code code' : String} {deps deps' : Dict String String} (hk : deps.keys.Nodup) (hk' : deps'.keys.Nodup)
    (hc : CommaFree deps) (hc' : CommaFree deps')
    (h : createCacheKey Z alnum name code deps = createCacheKey Z alnum name' code' deps') :
    name.toList.filter (fun c => alnum c || c = '_') = name'.toList.filter (fun c => alnum c || c = '_') ∧
    code = code' ∧ SameDict deps deps' := by
  have h := congrArg String.toList h
  rw [key_toList, key_toList] at h
  obtain ⟨h1, h⟩ := firstDash h (safeName_dash ha _) (safeName_dash ha _)
  obtain ⟨h2, h⟩ := lastDash h (hZ.noDash _) (hZ.noDash _)
  have h := String.toList_inj.1 h
  have h := Option.some.inj ((hZ.roundtrip _).symm.trans ((congrArg Z.decompress h).trans (hZ.roundtrip _)))
  refine ⟨?_, String.toList_inj.1 h2, ?_⟩
  · unfold safeName at h1
    simpa only [String.toList_ofList] using h1
  · by_cases hne : deps = [] <;> by_cases hne' : deps' = []
    · subst hne; subst hne'; exact fun _ => rfl
    · subst hne
      rw [if_neg (by simp), if_pos (List.length_pos_iff.2 hne')] at h
      exact absurd h.symm (encode_ne_none hne')
    · subst hne'
      rw [if_pos (List.length_pos_iff.2 hne), if_neg (by simp)] at h
      exact absurd h (encode_ne_none hne)
    · rw [if_pos (List.length_pos_iff.2 hne), if_pos (List.length_pos_iff.2 hne')] at h
      have h3 := decode_encode hne hk hc
      rw [h, decode_encode hne' hk' hc'] at h3
      have h3 := Option.some.inj h3
      have hp : (sortBy pairLe deps).Perm deps := sortBy_perm deps
      have hp' : (sortBy pairLe deps').Perm deps' := sortBy_perm deps'
      exact get?_perm (hp.symm.trans ((List.Perm.of_eq h3.symm).trans hp')) hk

/-- The order in which the dependencies were recorded does not matter for the cache key. -/
theorem C29_order {Z : Codec} {alnum : Char → Bool} {name code : String} {deps deps' : Dict String String}
    (h : deps.Perm deps') : createCacheKey Z alnum name code deps = createCacheKey Z alnum name code deps' := by
  unfold createCacheKey encodeStrDict
  rw [sortBy_perm_eq pairLe_lin h, h.length_eq]

/-- C29 as stated does not hold: names that differ only in characters that are dropped, such as the dot that separates the
namespace of a subdag, share their cache keys, and the name cannot be recovered. -/
theorem C29_violated {Z : Codec} {alnum : Char → Bool} (h : alnum '.' = false) (code : String)
    (deps : Dict String String) :
    createCacheKey Z alnum "a.bc" code deps = createCacheKey Z alnum "ab.c" code deps := by
  unfold createCacheKey
  have : safeName alnum "a.bc" = safeName alnum "ab.c" := by
    unfold safeName
    have h1 : "a.bc".toList = ['a', '.', 'b', 'c'] := rfl
    have h2 : "ab.c".toList = ['a', 'b', '.', 'c'] := rfl
    rw [h1, h2]
    simp [List.filter_cons, h]
  rw [this]

section
/-- A codec for the examples: dashes are escaped. -/
def toyCodec : Codec where
  compress s := String.ofList (s.toList.flatMap (fun c => if c = '-' then ['!', 'd'] else if c = '!' then ['!', '!'] else [c]))
  decompress s := some (String.ofList (go s.toList))
where
  go : List Char → List Char
  | [] => []
  | [c] => [c]
  | '!' :: 'd' :: t => '-' :: go t
  | '!' :: '!' :: t => '!' :: go t
  | c :: t => c :: go t

theorem toyCodec_lawful : toyCodec.Lawful where
  roundtrip s := by
    have : ∀ l : List Char, toyCodec.go (l.flatMap (fun c => if c = '-' then ['!', 'd'] else if c = '!' then ['!', '!'] else [c])) = l := by
      intro l
      induction l with
      | nil => rfl
      | cons c t ih =>
        rw [List.flatMap_cons]
        by_cases h1 : c = '-'
        · subst h1; simp [toyCodec.go, ih]
        · by_cases h2 : c = '!'
          · subst h2; simp [toyCodec.go, ih]
          · rw [if_neg h1, if_neg h2]
            cases ht : (t.flatMap (fun c => if c = '-' then ['!', 'd'] else if c = '!' then ['!', '!'] else [c])) with
            | nil =>
              rw [ht] at ih
              have : t = [] := by simpa [toyCodec.go] using ih.symm
              simp [toyCodec.go, this]
            | cons a b =>
              rw [ht] at ih
              show toyCodec.go (c :: a :: b) = c :: t
              rw [toyCodec.go, ih]
              · intro h; cases h
              · intro _ h; exact absurd h h2
              · intro _ h; exact absurd h h2
    simp only [toyCodec, String.toList_ofList, this, String.ofList_toList]
  noDash s := by
    simp only [toyCodec, String.toList_ofList, List.mem_flatMap, not_exists, not_and]
    intro c _
    split
    · decide
    · split
      · decide
      · rename_i h _; simp only [List.mem_singleton]; exact fun e => h e.symm

/-- The key of node `spend_mean` with one dependency decodes. -/
example : ∃ d, decodeKey toyCodec (createCacheKey toyCodec Char.isAlphanum "spend_mean" "3fa9"
    [("spend", "qm8x=="), ("alpha", "<unhashable>_12-34")]) = some ("spend_mean", "3fa9", d) ∧
    SameDict d [("spend", "qm8x=="), ("alpha", "<unhashable>_12-34")] :=
  C29_decode_partial toyCodec_lawful (by decide) (by unfold PlainName; decide) (by decide) (by decide)
    (by unfold CommaFree; decide)

/-- Equal keys exist for different dicts (here the same items in another order). -/
example : createCacheKey toyCodec Char.isAlphanum "b" "c" [("x", "1"), ("a", "2")] =
    createCacheKey toyCodec Char.isAlphanum "b" "c" [("a", "2"), ("x", "1")] := C29_order (.swap _ _ _)
example : (Dict.keys [("x", "1"), ("a", "2")]).Nodup ∧ CommaFree [("x", "1"), ("a", "2")] := by
  unfold CommaFree; decide

/-- The two names are different, and decoding gives neither. -/
example : ("a.bc" : String) ≠ "ab.c" := by decide
example : Char.isAlphanum '.' = false := by decide
end

end Verif
