import Verif.Spec.Caching
import Verif.Props.CacheKey
import Verif.Props.Sample
import Verif.Proofs.Fingerprint
import Verif.Proofs.Sched9

/-!
Cached sessions over the sample module, used in the examples beside the theorems about caching:

    def base(x): return x + 1
    def left(base): return base * 2          # edited to base * 3 when b
    def right(base, y=10): return base + y
    def top(left, right): return left + right
-/
namespace Verif.CacheSample
open Sample

/-- The functions; the code of `left` depends on the edit `b`. -/
def fnBase : Dict Name Int → Except UserErr Int := fun kw => .ok (arg kw "x" 0 + 1)
/-- The function `left`. -/
def fnLeft (b : Bool) : Dict Name Int → Except UserErr Int := fun kw => .ok (arg kw "base" 0 * (if b then 3 else 2))
/-- The function `right`. -/
def fnRight : Dict Name Int → Except UserErr Int := fun kw => .ok (arg kw "base" 0 + arg kw "y" 10)
/-- The function `top`. -/
def fnTop : Dict Name Int → Except UserErr Int := fun kw => .ok (arg kw "left" 0 + arg kw "right" 0)

/-- The module. -/
def fnsOf (b : Bool) : List (Node Unit Int) :=
  [ fnNode "base" [("x", .required)] fnBase, fnNode "left" [("base", .required)] (fnLeft b),
    fnNode "right" [("base", .required), ("y", .optional)] fnRight,
    fnNode "top" [("left", .required), ("right", .required)] fnTop ]

/-- An input node. -/
def inNode (name : Name) (users : List Name) : Node Unit Int :=
  { externalNode name () with dependedOnBy := users }

/-- The graph built from the module. -/
def graphOf (b : Bool) : Graph Unit Int :=
  [ ("base", { fnNode "base" [("x", .required)] fnBase with dependencies := ["x"], dependedOnBy := ["left", "right"] }),
    ("left", { fnNode "left" [("base", .required)] (fnLeft b) with dependencies := ["base"], dependedOnBy := ["top"] }),
    ("right", { fnNode "right" [("base", .required), ("y", .optional)] fnRight with
      dependencies := ["base", "y"], dependedOnBy := ["top"] }),
    ("top", { fnNode "top" [("left", .required), ("right", .required)] fnTop with dependencies := ["left", "right"] }),
    ("x", inNode "x" ["base"]), ("y", inNode "y" ["right"]), ("c", inNode "c" []) ]

theorem build_ok (b : Bool) : createFunctionGraph tm () config false (fnsOf b) = .ok (graphOf b) := by
  cases b <;> rfl

theorem fnsOf_fresh (b : Bool) : ∀ n ∈ fnsOf b, Fresh n := by
  intro n hn
  simp only [fnsOf, List.mem_cons, List.not_mem_nil, or_false] at hn
  rcases hn with rfl | rfl | rfl | rfl <;> exact ⟨by simp [fnNode, Dict.keys], rfl, rfl, by simp [fnNode]⟩

theorem graph_wf (b : Bool) : WellFormed (graphOf b) := (createFunctionGraph_spec (fnsOf_fresh b) (build_ok b)).1

/-- Fingerprints, uuids and cache keys of the sample. -/
def env : CacheEnv Int where
  hash v := some (toString v)
  tupleHead _ := none
  uuid i := toString i
  codec := toyCodec
  alnum := Char.isAlphanum

theorem nat_chars {c : Char} (hc : c.isDigit = false) (n : Nat) : c ∉ (toString n).toList := by
  intro h
  have h' : c ∈ Nat.toDigits 10 n := by simpa [Nat.repr] using h
  have := Nat.isDigit_of_mem_toDigits (b := 10) (by omega) (by omega) h'
  rw [hc] at this; cases this

theorem int_chars {c : Char} (hc : c.isDigit = false) (hm : c ≠ '-') (i : Int) : c ∉ (toString i).toList := by
  have h1 : ∀ n : Nat, toString (Int.ofNat n) = toString n := fun n => rfl
  have h2 : ∀ n : Nat, toString (Int.negSucc n) = "-" ++ toString (n + 1) := fun n => rfl
  cases i with
  | ofNat n => rw [h1]; exact nat_chars hc n
  | negSucc n =>
    rw [h2, String.toList_append]
    intro h
    rcases List.mem_append.1 h with h | h
    · simp at h; exact hm h
    · exact nat_chars hc _ h

theorem env_lawful : env.Lawful where
  separates h h' := by
    simp only [env, Option.some.injEq] at h h'
    exact toString_int_inj (h.trans h'.symm)
  hash_comma h := by
    simp only [env, Option.some.injEq] at h; subst h; exact int_chars (by decide) (by decide) _
  hash_plain h := by
    simp only [env, Option.some.injEq] at h; subst h; exact int_chars (by decide) (by decide) _
  uuid_inj h := toString_nat_inj h
  uuid_comma i := nat_chars (by decide) i
  codec := toyCodec_lawful
  dash := by decide

/-- The functions by name and code version. -/
def impl (name code : String) : Dict Name Int → Except UserErr Int :=
  if name = "base" then fnBase else if name = "left" then fnLeft (code == "L3") else if name = "right" then fnRight else fnTop

theorem impl_unordered : Unordered impl := by
  intro name code kw kw' h
  have ha : ∀ k d, arg kw k d = arg kw' k d := fun k d => by unfold arg; rw [h k]
  unfold impl
  split
  · simp only [fnBase, ha]
  · split
    · simp only [fnLeft, ha]
    · split
      · simp only [fnRight, ha]
      · simp only [fnTop, ha]

/-- A run of the module with edit `b` for `top`, with input `x` and the given behaviour for each node. -/
def session (run : String) (b : Bool) (x : Int) (beh : Name → Behavior) : Session Unit Int where
  runId := run
  graph := graphOf b
  nodes := (graphOf b).filterMap (fun p => if p.1 = "top" then some p.2 else none)
  rawInputs := [("x", x)]
  inputs := [("x", x), ("c", 7)]
  overrides := []
  behaviors := (graphOf b).map (fun p => (p.1, beh p.1))
  codes := [("base", "B"), ("left", if b then "L3" else "L2"), ("right", "R"), ("top", "T")]
  defaults k := if k = "right" then [("y", 10)] else []
  loaders := []
  savers := []
  killAfter := none
  torn := false

theorem session_valid (run : String) (b : Bool) (x : Int) {beh : Name → Behavior} (hb : ∀ k, beh k ≠ .ignore) (kill : Option Nat) :
    ({ session run b x beh with killAfter := kill } : Session Unit Int).Valid env impl where
  wf := graph_wf b
  nodes := by
    intro n hn
    have hn : n ∈ (session run b x beh).nodes := hn
    have : (session run b x beh).nodes = [{ fnNode "top" [("left", .required), ("right", .required)] fnTop with
      dependencies := ["left", "right"] }] := rfl
    rw [this] at hn
    simp only [List.mem_singleton] at hn
    subst hn
    rfl
  raw := by
    intro k v h
    simp only [session, Dict.get?] at h ⊢
    split at h
    · rename_i h1; rw [if_pos h1]; exact h
    · cases h
  raw_nodup := by show ["x"].Nodup; decide
  override_nodup := by show ([] : List Name).Nodup; decide
  raw_inputs := by
    intro k n hk hf
    have hm := Dict.get?_mem hk
    simp only [session, graphOf, List.mem_cons, List.not_mem_nil, or_false, Prod.mk.injEq] at hm
    rcases hm with ⟨rfl, rfl⟩ | ⟨rfl, rfl⟩ | ⟨rfl, rfl⟩ | ⟨rfl, rfl⟩ | ⟨rfl, rfl⟩ | ⟨rfl, rfl⟩ | ⟨rfl, rfl⟩
    iterate 4 rfl
    all_goals exact absurd rfl hf
  names := by
    intro k n hk
    have hm := Dict.mem_keys_iff.2 ⟨n, hk⟩
    have : (graphOf b).keys = ["base", "left", "right", "top", "x", "y", "c"] := rfl
    simp only [session, this, List.mem_cons, List.not_mem_nil, or_false] at hm
    rcases hm with rfl | rfl | rfl | rfl | rfl | rfl | rfl <;> decide
  behaviors := by
    intro k n hk
    refine ⟨beh k, ?_, hb k⟩
    have hm := Dict.mem_keys_iff.2 ⟨n, hk⟩
    have : (graphOf b).keys = ["base", "left", "right", "top", "x", "y", "c"] := rfl
    simp only [session, this, List.mem_cons, List.not_mem_nil, or_false] at hm
    rcases hm with rfl | rfl | rfl | rfl | rfl | rfl | rfl <;> rfl
  codes := by
    intro k n hk hf
    have hm := Dict.get?_mem hk
    simp only [session, graphOf, List.mem_cons, List.not_mem_nil, or_false, Prod.mk.injEq] at hm
    rcases hm with ⟨rfl, rfl⟩ | ⟨rfl, rfl⟩ | ⟨rfl, rfl⟩ | ⟨rfl, rfl⟩ | ⟨rfl, rfl⟩ | ⟨rfl, rfl⟩ | ⟨rfl, rfl⟩
    · exact ⟨"B", rfl, fun kw => rfl⟩
    · cases b
      · exact ⟨"L2", rfl, fun kw => rfl⟩
      · exact ⟨"L3", rfl, fun kw => rfl⟩
    · exact ⟨"R", rfl, fun kw => rfl⟩
    · exact ⟨"T", rfl, fun kw => rfl⟩
    all_goals exact absurd rfl hf
  defaults := by
    intro k n hk p hp
    simp only [session] at hp
    split at hp
    · rename_i hr
      subst hr
      simp only [List.mem_singleton] at hp
      subst hp
      have : (graphOf b).get? "right" = some { fnNode "right" [("base", .required), ("y", .optional)] fnRight with
        dependencies := ["base", "y"], dependedOnBy := ["top"] } := rfl
      have h2 := this.symm.trans hk
      cases h2
      decide
    · cases hp
  defaults_fn := by
    intro k n hk kw _
    show n.fn (resolveDefaults (if k = "right" then [("y", 10)] else []) kw) = n.fn kw
    split
    · rename_i hr
      subst hr
      have : (graphOf b).get? "right" = some { fnNode "right" [("base", .required), ("y", .optional)] fnRight with
        dependencies := ["base", "y"], dependedOnBy := ["top"] } := rfl
      have h2 := this.symm.trans hk
      cases h2
      show fnRight _ = fnRight kw
      simp only [resolveDefaults, List.foldl_cons, List.foldl_nil]
      by_cases hy : kw.has "y" = true
      · rw [if_pos hy]
      · rw [if_neg hy]
        have hn : kw.get? "y" = none := by
          rw [Bool.not_eq_true, Dict.has_eq_false_iff] at hy; exact hy
        unfold fnRight arg
        have h1 : (kw.set "y" 10).get? "base" = kw.get? "base" := Dict.get?_set_ne _ _ (by decide)
        rw [h1, Dict.get?_set_self, hn]
        rfl
    · rfl
  loaders := by intro k n kw v hk; cases hk
  savers := rfl

/-- An empty cache with the in-memory store. -/
def emptyMem : CacheState MemMeta Int := ⟨.empty, [], [], [], 0, [], [], none, false⟩
/-- An empty cache with the SQLite store. -/
def emptySql : CacheState SqlMeta Int := ⟨.empty, [], [], [], 0, [], [], none, false⟩

end Verif.CacheSample
