import Verif.Model.TempModule
import Verif.Proofs.Fingerprint

/-!
C94: modules made on the fly hold the functions given.
-/
namespace Verif.TempModule
variable {V : Type}

/-! ### Specification -/

/-- The arguments are the functions `fs`. -/
def Given (w : World V) (args : List Arg) (fs : List (Fn V)) : Prop :=
  ∃ ids : List Nat, args = ids.map .fn ∧ ids.map (fun i => w.fns[i]?) = fs.map some

/-- The name starts with an underscore. -/
def Hidden (n : Name) : Prop := n.toList.head? = some '_'

/-- The name of the module occurs in the name of the other. -/
def Within (child parent : Name) : Prop := ∃ a b, child.toList = a ++ parent.toList ++ b

/-- The name a statement binds. -/
def Binds (n : Name) : Stmt V → Prop
  | .define f => f.name = n
  | .bind m _ => m = n

/-! ### Lemmas -/

theorem underscored_iff (n : Name) : underscored n = true ↔ Hidden n := by
  unfold underscored Hidden
  cases h : n.toList with
  | nil => simp
  | cons c t =>
    have : "_".toList = ['_'] := by decide
    rw [this]
    simp only [List.isPrefixOf, List.head?, Bool.and_true, beq_iff_eq, Option.some.injEq]
    exact eq_comm

theorem reserved_underscored : ∀ n ∈ reserved, underscored n = true := by decide +kernel

theorem isSubstring_iff (needle : List Char) : ∀ text : List Char,
    isSubstring needle text = true ↔ ∃ a b, text = a ++ needle ++ b
  | [] => by
    unfold isSubstring
    rw [List.isPrefixOf_iff_prefix]
    constructor
    · rintro ⟨t, ht⟩; exact ⟨[], t, by simpa using ht.symm⟩
    · rintro ⟨a, b, h⟩
      have := h.symm
      simp only [List.append_eq_nil_iff] at this
      rw [this.1.2]; exact List.nil_prefix
  | c :: t => by
    unfold isSubstring
    rw [Bool.or_eq_true, List.isPrefixOf_iff_prefix, isSubstring_iff needle t]
    constructor
    · rintro (⟨r, hr⟩ | ⟨a, b, h⟩)
      · exact ⟨[], r, by simpa using hr.symm⟩
      · exact ⟨c :: a, b, by simp [h]⟩
    · rintro ⟨a, b, h⟩
      cases a with
      | nil => exact .inl ⟨b, by simpa using h.symm⟩
      | cons x a =>
        simp only [List.cons_append, List.cons.injEq] at h
        exact .inr ⟨a, b, h.2⟩

theorem isSubmodule_iff (c p : Name) : isSubmodule c p = true ↔ Within c p := by
  unfold isSubmodule Within
  exact isSubstring_iff _ _

theorem within_self (n : Name) : isSubmodule n n = true := (isSubmodule_iff n n).2 ⟨[], [], by simp⟩

theorem set_new {d : Dict Name Nat} {k : Name} (v : Nat) (h : k ∉ d.keys) : d.set k v = d ++ [(k, v)] := by
  induction d with
  | nil => rfl
  | cons p t ih =>
    obtain ⟨k', v'⟩ := p
    rw [Dict.keys_cons, List.mem_cons] at h
    have h1 : k ≠ k' := fun e => h (.inl e)
    have h2 : k ∉ Dict.keys t := fun e => h (.inr e)
    have := ih h2
    simp only [Dict.set]
    split
    · grind
    · rw [this]; rfl

/-- What the loop does if it does not raise. -/
theorem fill_total (module : Name) (h0 : List (Fn V)) : ∀ (ids : List Nat) (fs : List (Fn V)) (members : Dict Name Nat)
    (ex : List (Fn V)), ids.map (fun i => h0[i]?) = fs.map some → (members.keys ++ fs.map (·.name)).Nodup →
    (∀ f ∈ fs, underscored f.name = false) →
    fill module (ids.map .fn) members (h0 ++ ex) =
      (.ok (members ++ (fs.map (·.name)).zip (List.range' (h0 ++ ex).length fs.length)),
        h0 ++ ex ++ fs.map (fun f => { copyFunc f with module := module }))
  | [], [], members, ex, _, _, _ => by simp [fill]
  | [], _ :: _, _, _, h, _, _ => by simp at h
  | _ :: _, [], _, _, h, _, _ => by simp at h
  | i :: ids, f :: fs, members, ex, h, hn, hu => by
    simp only [List.map_cons, List.cons.injEq] at h
    have hi : i < h0.length := (List.getElem?_eq_some_iff.1 h.1).1
    have hl : (h0 ++ ex)[i]? = some f := by rw [List.getElem?_append_left hi]; exact h.1
    have hf := hu f List.mem_cons_self
    have hm : f.name ∉ members.keys := by
      intro hm
      rw [List.nodup_append] at hn
      exact hn.2.2 _ hm f.name (by simp) rfl
    have hm' : members.has f.name = false := by
      cases hh : members.has f.name with
      | false => rfl
      | true => exact absurd ((Dict.has_iff _ _).1 hh) hm
    have hr : reserved.contains f.name = false := by
      cases hh : reserved.contains f.name with
      | false => rfl
      | true =>
        rw [List.contains_iff_mem] at hh
        rw [reserved_underscored _ hh] at hf
        exact absurd hf (by decide)
    simp only [List.map_cons, fill, hl, hm', hr, hf, Bool.or_self, Bool.false_eq_true, if_false]
    rw [set_new _ hm, List.append_assoc h0 ex]
    rw [fill_total module h0 ids fs _ _ h.2 ?_ (fun g hg => hu g (List.mem_cons_of_mem _ hg))]
    · simp [List.range'_succ, copyFunc, Nat.add_assoc]
    · simpa [Dict.keys] using hn

/-- When the loop does not raise. -/
theorem fill_only (module : Name) (h0 : List (Fn V)) : ∀ (args : List Arg) (members ms : Dict Name Nat) (ex heap' : List (Fn V)),
    (∀ i, Arg.fn i ∈ args → i < h0.length) → members.keys.Nodup → fill module args members (h0 ++ ex) = (.ok ms, heap') →
    ∃ (ids : List Nat) (fs : List (Fn V)), args = ids.map .fn ∧ ids.map (fun i => h0[i]?) = fs.map some ∧
      (members.keys ++ fs.map (·.name)).Nodup ∧ ∀ f ∈ fs, underscored f.name = false
  | [], members, _, _, _, _, hn, _ => ⟨[], [], rfl, rfl, by simpa using hn, by simp⟩
  | .other :: _, _, _, _, _, _, _, h => by simp [fill] at h
  | .fn i :: rest, members, ms, ex, heap', hids, hn, h => by
    have hi := hids i List.mem_cons_self
    have hl : (h0 ++ ex)[i]? = some h0[i] := by rw [List.getElem?_append_left hi]; exact List.getElem?_eq_getElem hi
    simp only [fill, hl] at h
    split at h
    · cases h
    · next h1 =>
      split at h
      · cases h
      · next h2 =>
        simp only [Bool.or_eq_true, not_or] at h1
        have hm : h0[i].name ∉ members.keys := fun hh => h1.1 ((Dict.has_iff _ _).2 hh)
        rw [List.append_assoc] at h
        obtain ⟨ids, fs, e1, e2, e3, e4⟩ := fill_only module h0 rest _ ms _ heap'
          (fun j hj => hids j (List.mem_cons_of_mem _ hj)) (Dict.keys_set_nodup hn _ _) h
        refine ⟨i :: ids, h0[i] :: fs, by simp [e1], by simp [e2, List.getElem?_eq_getElem hi], ?_, ?_⟩
        · rw [set_new _ hm] at e3
          simpa [Dict.keys] using e3
        · intro f hf
          rcases List.mem_cons.1 hf with rfl | hf
          · simpa using h2
          · exact e4 f hf

theorem fill_heap (module : Name) : ∀ (args : List Arg) (members : Dict Name Nat) (heap : List (Fn V)),
    ∃ ex, (fill module args members heap).2 = heap ++ ex
  | [], _, heap => ⟨[], by simp [fill]⟩
  | .other :: _, _, heap => ⟨[], by simp [fill]⟩
  | .fn i :: rest, members, heap => by
    unfold fill
    split
    · exact ⟨[], by simp⟩
    · next f _ =>
      split
      · exact ⟨[], by simp⟩
      · split
        · exact ⟨[], by simp⟩
        · obtain ⟨ex, h⟩ := fill_heap module rest (members.set f.name heap.length)
            (heap ++ [{ copyFunc f with module := module }])
          exact ⟨[{ copyFunc f with module := module }] ++ ex, by rw [h, List.append_assoc]⟩

theorem mem_found {w : World V} {module : Name} {p : Name × Nat} {ms : Dict Name Nat} (hm : w.mods.get? module = some ms) :
    p ∈ found w module ↔ p ∈ ms ∧ valid w module p = true := by
  unfold found
  rw [List.mem_filter, (sortBy_perm _).mem_iff, hm]
  rfl

/-- A member of the new module. -/
theorem member_new {module : Name} {h0 : List (Fn V)} {fs : List (Fn V)} {n : Name} {i : Nat}
    (h : (n, i) ∈ (fs.map (·.name)).zip (List.range' h0.length fs.length)) :
    h0.length ≤ i ∧ ∃ f ∈ fs, f.name = n ∧
      (h0 ++ fs.map (fun f => { copyFunc f with module := module }))[i]? = some { copyFunc f with module := module } := by
  obtain ⟨k, hk, he⟩ := List.mem_iff_getElem.1 h
  simp only [List.length_zip, List.length_map, List.length_range', Nat.min_self] at hk
  simp only [List.getElem_zip, List.getElem_map, List.getElem_range', Nat.one_mul, Prod.mk.injEq] at he
  obtain ⟨h1, h2⟩ := he
  refine ⟨by omega, fs[k], List.getElem_mem hk, h1, ?_⟩
  rw [← h2, List.getElem?_append_right (by omega)]
  simp [hk]

theorem signature_copy (f : Fn V) (m : Name) (h : f.kwdefaults = []) :
    signature { copyFunc f with module := m } = signature f := by
  simp [signature, copyFunc, h]

theorem bindArgs_congr (kw : Dict Name V) (d d' : Name → Option V) : ∀ (ps : List Name) (pre : List (Name × Option V)),
    (∀ p ∈ ps, (kw.get? p).or (d p) = (kw.get? p).or (d' p)) →
    bindArgs kw (pre ++ ps.map (fun p => (p, d p))) = bindArgs kw (pre ++ ps.map (fun p => (p, d' p)))
  | ps, q :: pre, h => by
    obtain ⟨k, v⟩ := q
    simp only [List.cons_append, bindArgs]
    rw [bindArgs_congr kw d d' ps pre h]
  | [], [], _ => rfl
  | p :: ps, [], h => by
    simp only [List.nil_append, List.map_cons, bindArgs]
    rw [h p List.mem_cons_self]
    have := bindArgs_congr kw d d' ps [] (fun q hq => h q (List.mem_cons_of_mem _ hq))
    simp only [List.nil_append] at this
    rw [this]

theorem call_copy (f : Fn V) (m : Name) (kw : Dict Name V) (h : ∀ p ∈ f.kwdefaults.keys, p ∈ kw.keys) :
    call { copyFunc f with module := m } kw = call f kw := by
  have hb : bindArgs kw (signature { copyFunc f with module := m }) = bindArgs kw (signature f) := by
    refine bindArgs_congr kw (fun _ => none) (fun p => f.kwdefaults.get? p) f.code.kwonly _ (fun p _ => ?_)
    cases hk : kw.get? p with
    | some v => rfl
    | none =>
      have : p ∉ f.kwdefaults.keys := fun hp => (Dict.get?_eq_none_iff _ _).1 hk (h p hp)
      simp only [(Dict.get?_eq_none_iff _ _).2 this]
  have hs : (signature { copyFunc f with module := m }).map (·.1) = (signature f).map (·.1) := by
    simp [signature, copyFunc, Function.comp_def]
  unfold call
  rw [hb, hs]
  rfl

/-! ### C94 -/

/-- A temporary module is made exactly if the name is free, all arguments are functions, and their names differ and do not start
with an underscore. -/
theorem C94_accepted (module : Name) (args : List Arg) (w : World V) (hids : ∀ i, Arg.fn i ∈ args → i < w.fns.length) :
    (∃ members w', create module args w = (.ok members, w')) ↔
      w.mods.get? module = none ∧
        ∃ fs, Given w args fs ∧ (fs.map (·.name)).Nodup ∧ ∀ f ∈ fs, ¬ Hidden f.name := by
  constructor
  · rintro ⟨members, w', h⟩
    unfold create at h
    split at h
    · cases h
    · next hh =>
      refine ⟨(Dict.has_eq_false_iff _ _).1 (by simpa using hh), ?_⟩
      split at h
      · cases h
      · next ms heap hf =>
        obtain ⟨ids, fs, e1, e2, e3, e4⟩ := fill_only module w.fns args [] ms [] heap hids (by simp [Dict.keys])
          (by simpa using hf)
        exact ⟨fs, ⟨ids, e1, e2⟩, by simpa [Dict.keys] using e3,
          fun f hf => by rw [← underscored_iff, e4 f hf]; decide⟩
  · rintro ⟨hn, fs, ⟨ids, e1, e2⟩, e3, e4⟩
    have := fill_total module w.fns ids fs [] [] e2 (by simpa [Dict.keys] using e3)
      (fun f hf => by have := e4 f hf; rw [← underscored_iff] at this; simpa using this)
    rw [← e1, List.append_nil] at this
    unfold create
    rw [if_neg (by rw [(Dict.has_eq_false_iff _ _).2 hn]; decide), this]
    exact ⟨_, _, rfl⟩

/-- The driver finds in the temporary module one function for each one given, a new object under the same name that has the same
annotations and decorators, the docstring written in the function, if there are no defaults of keyword-only parameters, the same
signature, and the same result in every call that does not rely on such defaults. -/
theorem C94_functions_partial (module : Name) (args : List Arg) (w w' : World V) (members : Dict Name Nat)
    (hids : ∀ i, Arg.fn i ∈ args → i < w.fns.length) (h : create module args w = (.ok members, w')) :
    ∃ fs, Given w args fs ∧ ((found w' module).map (·.1)).Perm (fs.map (·.name)) ∧
      ∀ n i, (n, i) ∈ found w' module → w.fns.length ≤ i ∧ ∃ f ∈ fs, ∃ g, w'.fns[i]? = some g ∧ f.name = n ∧ g.name = n ∧
        g.module = module ∧ g.ann = f.ann ∧ g.attrs = f.attrs ∧ (f.doc = f.code.doc → g.doc = f.doc) ∧
        (f.kwdefaults = [] → signature g = signature f) ∧
        ∀ kw : Dict Name V, (∀ p ∈ f.kwdefaults.keys, p ∈ kw.keys) → call g kw = call f kw := by
  unfold create at h
  split at h
  · cases h
  · split at h
    · cases h
    · next ms heap hf =>
      obtain ⟨ids, fs, e1, e2, e3, e4⟩ := fill_only module w.fns args [] ms [] heap hids (by simp [Dict.keys]) (by simpa using hf)
      have ht := fill_total module w.fns ids fs [] [] e2 e3 e4
      rw [← e1] at ht
      simp only [List.append_nil, List.nil_append] at ht
      rw [hf] at ht
      cases ht
      cases h
      have hmem : ∀ p ∈ (fs.map (·.name)).zip (List.range' w.fns.length fs.length),
          valid (V := V) ⟨w.fns ++ fs.map (fun f => { copyFunc f with module := module }),
            w.mods.set module ((fs.map (·.name)).zip (List.range' w.fns.length fs.length))⟩ module p = true := by
        rintro ⟨n, i⟩ hp
        obtain ⟨_, f, hf, _, he⟩ := member_new (module := module) hp
        unfold valid
        simp only [he]
        show (!underscored f.name && isSubmodule module module) = true
        rw [e4 f hf, within_self]; rfl
      refine ⟨fs, ⟨ids, e1, e2⟩, ?_, ?_⟩
      · unfold found
        simp only [Dict.get?_set_self, Option.getD_some]
        rw [List.filter_eq_self.2 (fun p hp => hmem p ((sortBy_perm _).mem_iff.1 hp))]
        refine ((sortBy_perm _).map _).trans ?_
        rw [List.map_fst_zip (by simp)]
      · intro n i hp
        rw [mem_found (Dict.get?_set_self _ _ _)] at hp
        obtain ⟨hlt, f, hf, hn, he⟩ := member_new (module := module) hp.1
        refine ⟨hlt, f, hf, _, he, hn, hn, rfl, rfl, rfl, fun hd => hd.symm, fun hk => signature_copy f module hk,
          fun kw hk => call_copy f module kw hk⟩

/-- Whatever happens, the functions given and the other modules stay as they are; an error leaves `sys.modules` as it is. -/
theorem C94_untouched (module : Name) (args : List Arg) (w : World V) :
    (∀ i, i < w.fns.length → (create module args w).2.fns[i]? = w.fns[i]?) ∧
      (∀ m, m ≠ module → (create module args w).2.mods.get? m = w.mods.get? m) ∧
      (∀ e, (create module args w).1 = .error e → (create module args w).2.mods = w.mods) ∧
      (∀ members, (create module args w).1 = .ok members → w.mods.get? module = none ∧
        (create module args w).2.mods.get? module = some members) := by
  unfold create
  split
  · exact ⟨fun _ _ => rfl, fun _ _ => rfl, fun _ _ => rfl, (fun _ h => by cases h)⟩
  · next hh =>
    obtain ⟨ex, hx⟩ := fill_heap module args [] w.fns
    split
    · next e heap hf =>
      rw [hf] at hx
      simp only at hx
      exact ⟨fun i hi => by simp only [hx]; exact List.getElem?_append_left hi, fun _ _ => rfl, fun _ _ => rfl,
        (fun _ h => by cases h)⟩
    · next ms heap hf =>
      rw [hf] at hx
      simp only at hx
      refine ⟨fun i hi => by simp only [hx]; exact List.getElem?_append_left hi, fun m hm => ?_, (fun _ h => by cases h), ?_⟩
      · exact Dict.get?_set_ne _ _ (Ne.symm hm)
      · intro members h
        cases h
        exact ⟨(Dict.has_eq_false_iff _ _).1 (by simpa using hh), Dict.get?_set_self _ _ _⟩

/-- Decorating or renaming the given functions afterwards does not change what is found in the module, and the other way round. -/
theorem C94_independent (module : Name) (args : List Arg) (w w' : World V) (members : Dict Name Nat)
    (hids : ∀ i, Arg.fn i ∈ args → i < w.fns.length) (h : create module args w = (.ok members, w')) (u : Fn V → Fn V) :
    (∀ k, k < w.fns.length → found (write w' k u) module = found w' module ∧
      ∀ n i, (n, i) ∈ found w' module → (write w' k u).fns[i]? = w'.fns[i]?) ∧
    (∀ n k, (n, k) ∈ found w' module → ∀ i, i < w.fns.length → (write w' k u).fns[i]? = w.fns[i]?) := by
  obtain ⟨fs, ⟨ids, e1, e2⟩, hperm, hall⟩ := C94_functions_partial module args w w' members hids h
  have hun := C94_untouched module args w
  rw [h] at hun
  have hget : w'.mods.get? module = some members := (hun.2.2.2 members rfl).2
  have hmod : ∀ k i, i ≠ k → (write w' k u).fns[i]? = w'.fns[i]? := by
    intro k i hik
    unfold write
    simp only [List.getElem?_modify]
    have : ¬ k = i := fun e => hik e.symm
    simp [this]
  have hnew : ∀ p ∈ members, w.fns.length ≤ p.2 := by
    unfold create at h
    split at h
    · cases h
    · split at h
      · cases h
      · next ms heap hf =>
        obtain ⟨ids, fs, e1, e2, e3, e4⟩ := fill_only module w.fns args [] ms [] heap hids (by simp [Dict.keys])
          (by simpa using hf)
        have ht := fill_total module w.fns ids fs [] [] e2 e3 e4
        rw [← e1] at ht
        simp only [List.append_nil, List.nil_append] at ht
        rw [hf] at ht
        cases ht
        cases h
        rintro ⟨n, i⟩ hp
        exact (member_new (module := module) hp).1
  refine ⟨fun k hk => ⟨?_, fun n i hi => hmod k i (by have := (hall n i hi).1; omega)⟩, ?_⟩
  · unfold found
    have : (write w' k u).mods = w'.mods := rfl
    rw [this, hget]
    apply List.filter_congr
    intro p hp
    have hp' : p ∈ members := (sortBy_perm _).mem_iff.1 hp
    unfold valid
    rw [hmod k p.2 (by have := hnew p hp'; omega)]
  · intro n k hk i hi
    rw [hmod k i (by have := (hall n k hk).1; omega)]
    exact hun.1 i hi

/-! ### Modules from source -/

theorem exec_append (module : Name) : ∀ (a b : List (Stmt V)) (d : Dict Name Nat) (heap : List (Fn V)),
    exec module (a ++ b) d heap = exec module b (exec module a d heap).1 (exec module a d heap).2
  | [], _, _, _ => rfl
  | .define f :: a, b, d, heap => by
    simp only [List.cons_append, exec]
    exact exec_append module a b _ _
  | .bind n i :: a, b, d, heap => by
    simp only [List.cons_append, exec]
    exact exec_append module a b _ _

theorem exec_heap (module : Name) : ∀ (a : List (Stmt V)) (d : Dict Name Nat) (heap : List (Fn V)),
    ∃ ex, (exec module a d heap).2 = heap ++ ex
  | [], _, heap => ⟨[], by simp [exec]⟩
  | .define f :: a, d, heap => by
    obtain ⟨ex, h⟩ := exec_heap module a (d.set f.name heap.length) (heap ++ [{ f with module := module }])
    exact ⟨[{ f with module := module }] ++ ex, by simp only [exec]; rw [h, List.append_assoc]⟩
  | .bind n i :: a, d, heap => exec_heap module a (d.set n i) heap

theorem exec_keep (module : Name) (n : Name) : ∀ (a : List (Stmt V)) (d : Dict Name Nat) (heap : List (Fn V)),
    (∀ s ∈ a, ¬ Binds n s) → (exec module a d heap).1.get? n = d.get? n
  | [], _, _, _ => rfl
  | .define f :: a, d, heap, h => by
    simp only [exec]
    rw [exec_keep module n a _ _ (fun s hs => h s (List.mem_cons_of_mem _ hs)),
      Dict.get?_set_ne _ _ (h (.define f) List.mem_cons_self)]
  | .bind m i :: a, d, heap, h => by
    simp only [exec]
    rw [exec_keep module n a _ _ (fun s hs => h s (List.mem_cons_of_mem _ hs)),
      Dict.get?_set_ne _ _ (h (.bind m i) List.mem_cons_self)]

theorem exec_nodup (module : Name) : ∀ (a : List (Stmt V)) (d : Dict Name Nat) (heap : List (Fn V)), d.keys.Nodup →
    (exec module a d heap).1.keys.Nodup
  | [], _, _, h => h
  | .define f :: a, d, heap, h => by
    simp only [exec]; exact exec_nodup module a _ _ (Dict.keys_set_nodup h _ _)
  | .bind n i :: a, d, heap, h => by
    simp only [exec]; exact exec_nodup module a _ _ (Dict.keys_set_nodup h _ _)

/-- Where a member comes from. -/
theorem exec_origin (module : Name) (n : Name) (i : Nat) : ∀ (a : List (Stmt V)) (d : Dict Name Nat) (heap : List (Fn V)),
    (exec module a d heap).1.get? n = some i → d.get? n = some i ∨ Stmt.bind n i ∈ a ∨
      ∃ f, Stmt.define f ∈ a ∧ f.name = n ∧ (exec module a d heap).2[i]? = some { f with module := module }
  | [], _, _, h => .inl h
  | .define f :: a, d, heap, h => by
    simp only [exec] at h ⊢
    rcases exec_origin module n i a _ _ h with h1 | h1 | ⟨g, h1, h2, h3⟩
    · rw [Dict.get?_set] at h1
      split at h1
      · next he =>
        cases h1
        obtain ⟨ex, hx⟩ := exec_heap module a (d.set f.name heap.length) (heap ++ [{ f with module := module }])
        refine .inr (.inr ⟨f, List.mem_cons_self, by grind, ?_⟩)
        rw [hx]
        simp
      · exact .inl h1
    · exact .inr (.inl (List.mem_cons_of_mem _ h1))
    · exact .inr (.inr ⟨g, List.mem_cons_of_mem _ h1, h2, h3⟩)
  | .bind m j :: a, d, heap, h => by
    simp only [exec] at h ⊢
    rcases exec_origin module n i a _ _ h with h1 | h1 | ⟨g, h1, h2, h3⟩
    · rw [Dict.get?_set] at h1
      split at h1
      · next he =>
        cases h1
        have : m = n := by grind
        subst this
        exact .inr (.inl List.mem_cons_self)
      · exact .inl h1
    · exact .inr (.inl (List.mem_cons_of_mem _ h1))
    · exact .inr (.inr ⟨g, List.mem_cons_of_mem _ h1, h2, h3⟩)

/-- A module from a source holds what the source defines: the driver finds the last definition of every name that does not start
with an underscore, with all its defaults, and nothing but definitions of the source and imported functions whose module has
a name the name of the new module occurs in; the other modules and all functions stay as they are. -/
theorem C94_source_partial (module : Name) (src : Source V) (w w' : World V) (members : Dict Name Nat)
    (h : fromSource module src w = (.ok members, w')) :
    (∀ pre f post, src.body = pre ++ .define f :: post → (∀ s ∈ post, ¬ Binds f.name s) → ¬ Hidden f.name →
      ∃ i, (f.name, i) ∈ found w' module ∧ w'.fns[i]? = some { f with module := module }) ∧
    (∀ n i, (n, i) ∈ found w' module → (∃ f, Stmt.define f ∈ src.body ∧ f.name = n ∧
        w'.fns[i]? = some { f with module := module }) ∨
      Stmt.bind n i ∈ src.body ∧ ∃ g, w'.fns[i]? = some g ∧ Within g.module module) ∧
    (∀ m, m ≠ module → w'.mods.get? m = w.mods.get? m) ∧
    (∀ i, i < w.fns.length → w'.fns[i]? = w.fns[i]?) := by
  unfold fromSource at h
  split at h
  · simp only at h
    split at h
    · cases h
    · cases h
      refine ⟨?_, ?_, fun m hm => Dict.get?_set_ne _ _ (Ne.symm hm), ?_⟩
      · intro pre f post hb hp hu
        have hu' : underscored f.name = false := by rw [← underscored_iff] at hu; simpa using hu
        have hget : (exec module src.body [] w.fns).1.get? f.name = some (exec module pre [] w.fns).2.length := by
          rw [hb, exec_append]
          simp only [exec]
          rw [exec_keep module f.name post _ _ hp, Dict.get?_set_self]
        have hheap : (exec module src.body [] w.fns).2[(exec module pre [] w.fns).2.length]? = some { f with module := module } := by
          rw [hb, exec_append]
          simp only [exec]
          obtain ⟨ex, hx⟩ := exec_heap module post ((exec module pre [] w.fns).1.set f.name (exec module pre [] w.fns).2.length)
            ((exec module pre [] w.fns).2 ++ [{ f with module := module }])
          rw [hx]
          simp
        refine ⟨_, (mem_found (Dict.get?_set_self _ _ _)).2 ⟨Dict.get?_mem hget, ?_⟩, hheap⟩
        unfold valid
        simp only [hheap]
        rw [hu', within_self]; rfl
      · intro n i hi
        rw [mem_found (Dict.get?_set_self _ _ _)] at hi
        have hget := Dict.get?_of_mem (exec_nodup module src.body [] w.fns (by simp [Dict.keys])) hi.1
        rcases exec_origin module n i src.body [] w.fns hget with h1 | h1 | ⟨f, h1, h2, h3⟩
        · cases h1
        · refine .inr ⟨h1, ?_⟩
          have hv := hi.2
          unfold valid at hv
          simp only at hv
          split at hv
          · cases hv
          · next g hg =>
            rw [Bool.and_eq_true] at hv
            exact ⟨g, hg, (isSubmodule_iff _ _).1 hv.2⟩
        · exact .inl ⟨f, h1, h2, h3⟩
      · intro i hi
        obtain ⟨ex, hx⟩ := exec_heap module src.body [] w.fns
        simp only [hx]
        exact List.getElem?_append_left hi
  · cases h

/-! ### Examples and violations -/

namespace Sample

/-- `def f(x, y=1): "adds"; return x + y`. -/
def f : Fn Nat :=
  ⟨"f", "nb", ⟨["x", "y"], [], some "adds", fun kw => .ok ((kw.get? "x").getD 0 + (kw.get? "y").getD 0)⟩, [1], [], some "adds",
    [("transform", "tag")], 0⟩

/-- `def g(f, *, z=5)`, with a docstring set afterwards. -/
def g : Fn Nat :=
  ⟨"g", "nb", ⟨["f"], ["z"], none, fun kw => .ok ((kw.get? "f").getD 0 * (kw.get? "z").getD 0)⟩, [], [("z", 5)], some "doc", [], 1⟩

/-- A function imported from elsewhere. -/
def mean : Fn Nat := ⟨"mean", "pandas", ⟨["f"], [], none, fun _ => .ok 0⟩, [], [], none, [], 2⟩

/-- The functions above, in a notebook. -/
def w0 : World Nat := ⟨[f, g, mean], [("nb", [("f", 0), ("g", 1), ("mean", 2)])]⟩

/-- Hypotheses and conclusion of the theorems on temporary modules. -/
example : (create "tmp" [.fn 1, .fn 0] w0).1 = .ok [("g", 3), ("f", 4)] ∧
    found (create "tmp" [.fn 1, .fn 0] w0).2 "tmp" = [("f", 4), ("g", 3)] := by
  refine ⟨rfl, by decide +kernel⟩

example : Given w0 [.fn 1, .fn 0] [g, f] ∧ ¬ Hidden f.name := ⟨⟨[1, 0], rfl, rfl⟩, by unfold Hidden; decide +kernel⟩

/-- Names that are refused. -/
example : (create "nb" [.fn 0] w0).1 = .error .exists_ ∧ (create "tmp" [.fn 0, .fn 0] w0).1 = .error .duplicate ∧
    (create "tmp" [.fn 0, .other] w0).1 = .error .attribute := ⟨rfl, rfl, rfl⟩

/-- A source with two definitions and an import. -/
def src : Source Nat := ⟨true, [.bind "mean" 2, .define f, .define g], false⟩

example : found (fromSource "tmp" src w0).2 "tmp" = [("f", 3), ("g", 4)] := by decide +kernel

/-- The copy of a function has lost the defaults of its keyword-only parameters: a call that works with the function given
is a `TypeError` in the temporary module. -/
theorem C94_violated_keyword_only :
    (create "tmp" [.fn 1] w0).1 = .ok [("g", 3)] ∧ call g [("f", 2)] = .ok 10 ∧ signature g = [("f", none), ("z", some 5)] ∧
      ∃ c, (create "tmp" [.fn 1] w0).2.fns[3]? = some c ∧ call c [("f", 2)] = .error "TypeError" ∧
        signature c = [("f", none), ("z", none)] :=
  ⟨rfl, rfl, rfl, _, rfl, rfl, rfl⟩

/-- A docstring that was set (as `functools.wraps` does) is lost. -/
theorem C94_violated_doc : g.doc = some "doc" ∧ ∃ c, (create "tmp" [.fn 1] w0).2.fns[3]? = some c ∧ c.doc = none :=
  ⟨rfl, _, rfl, rfl⟩

/-- `module_from_source` replaces a module of the name, also if the source then raises; what the source had defined until then
stays registered, and the name is taken for `create_temporary_module`. -/
theorem C94_violated_source :
    (fromSource "nb" src w0).1 = .ok [("mean", 2), ("f", 3), ("g", 4)] ∧
      w0.mods.get? "nb" ≠ (fromSource "nb" src w0).2.mods.get? "nb" ∧
      (fromSource "tmp" ⟨true, [.define f], true⟩ w0).1 = .error .raised ∧
      (fromSource "tmp" ⟨true, [.define f], true⟩ w0).2.mods.get? "tmp" = some [("f", 3)] ∧
      (create "tmp" [.fn 1] (fromSource "tmp" ⟨true, [.define f], true⟩ w0).2).1 = .error .exists_ := by
  refine ⟨rfl, by decide +kernel, rfl, rfl, rfl⟩

/-- In a module called `a`, functions imported from `pandas` are taken for functions of the module. -/
theorem C94_violated_imported : ("mean", 2) ∈ found (fromSource "a" src w0).2 "a" ∧ mean.module = "pandas" := by
  refine ⟨by decide +kernel, rfl⟩

end Sample
end Verif.TempModule
