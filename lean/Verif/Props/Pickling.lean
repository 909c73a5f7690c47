import Verif.Model.Pickling

/-!
C95: drivers and caches that are pickled and loaded behave as before.
-/
namespace Verif.Pickling
open Verif.DryRun (createFinalVars convertLoop convertOne Request)
variable {A : Type}

/-! ### Specification -/

/-- The attributes that hold the stores, and those pickling uses on the way. -/
def Internal (n : Name) : Prop :=
  n = "metadata_store" ∨ n = "result_store" ∨ n = "metadata_store_cls" ∨ n = "metadata_store_init" ∨ n = "result_store_cls" ∨
    n = "result_store_init"

/-- The adapter keeps its metadata in a directory and its results in another, seen from a process with a working directory. -/
def KeptIn (cwd : List Name) (d : Dict Name (Val A)) (mdir rdir : List Name) (conn : Dict Name String) : Prop :=
  d.get? "metadata_store" = some (.metaStore (.sqlite (.abs mdir) conn)) ∧
    ((∃ c, d.get? "result_store" = some (.resStore (.file (.abs rdir) c))) ∨
      ∃ c p, d.get? "result_store" = some (.resStore (.file (.rel p) c)) ∧ rdir = cwd ++ p)

/-! ### Lemmas -/

/-- One trip. -/
theorem trip (cwd : List Name) (d : Dict Name (Val A)) (hn : d.keys.Nodup) (mdir : List Name) (conn : Dict Name String)
    (path : Path) (c : Bool) (hm : d.get? "metadata_store" = some (.metaStore (.sqlite (.abs mdir) conn)))
    (hr : d.get? "result_store" = some (.resStore (.file path c))) :
    ∃ s d', cacheState d = .ok s ∧ cacheLoad cwd s = .ok d' ∧ d'.keys.Nodup ∧
      d'.get? "metadata_store" = some (.metaStore (.sqlite (.abs mdir) conn)) ∧
      d'.get? "result_store" = some (.resStore (.file path true)) ∧
      ∀ n, ¬ Internal n → d'.get? n = d.get? n := by
  obtain ⟨s, hs, hsn, hget⟩ : ∃ s, cacheState d = .ok s ∧ s.keys.Nodup ∧ s =
      ((((((d.set "metadata_store_cls" (.cls false)).set "metadata_store_init" (.metaInit (.abs mdir) conn)).set
      "result_store_cls" (.cls false)).set "result_store_init" (.resInit path)).del "metadata_store").del "result_store") := by
    refine ⟨_, by simp only [cacheState, hm, hr], ?_, rfl⟩
    exact Dict.keys_del_nodup (Dict.keys_del_nodup (Dict.keys_set_nodup (Dict.keys_set_nodup (Dict.keys_set_nodup
      (Dict.keys_set_nodup hn _ _) _ _) _ _) _ _) _) _
  have h1 : s.get? "metadata_store_init" = some (.metaInit (.abs mdir) conn) := by
    rw [hget]; simp [Dict.get?_set, Dict.get?_del]
  have h2 : s.get? "result_store_init" = some (.resInit path) := by
    rw [hget]; simp [Dict.get?_set, Dict.get?_del]
  have hsn' : ((s.del "metadata_store_cls").del "result_store_cls").keys.Nodup :=
    Dict.keys_del_nodup (Dict.keys_del_nodup hsn _) _
  refine ⟨s, _, hs, by simp only [cacheLoad, h1, h2]; rfl, ?_, ?_, ?_, ?_⟩
  · exact Dict.merge_keys_nodup (by simp [Dict.keys]) _
  · rw [Dict.get?_merge _ _ hsn', hget]
    simp [Dict.get?_set, Dict.get?_del, Dict.get?, openMeta, Path.resolve]
  · rw [Dict.get?_merge _ _ hsn', hget]
    simp [Dict.get?_set, Dict.get?_del, Dict.get?, openRes]
  · intro n hint
    unfold Internal at hint
    simp only [not_or] at hint
    obtain ⟨i1, i2, i3, i4, i5, i6⟩ := hint
    rw [Dict.get?_merge _ _ hsn', hget]
    simp only [Dict.get?_del, Dict.get?_set, Dict.get?, Ne.symm i1, Ne.symm i2, Ne.symm i3, Ne.symm i4, Ne.symm i5,
      Ne.symm i6, i1, i2, i3, i4, i5, i6, if_false]
    cases Dict.get? d n <;> simp

/-- Any number of trips. -/
theorem trips : ∀ (cwds : List (List Name)) (d : Dict Name (Val A)), d.keys.Nodup → ∀ (mdir : List Name) (conn : Dict Name String)
    (path : Path) (c : Bool), d.get? "metadata_store" = some (.metaStore (.sqlite (.abs mdir) conn)) →
    d.get? "result_store" = some (.resStore (.file path c)) →
    ∃ d', sendCache cwds d = .ok d' ∧ d'.get? "metadata_store" = some (.metaStore (.sqlite (.abs mdir) conn)) ∧
      (∃ c', d'.get? "result_store" = some (.resStore (.file path c'))) ∧ ∀ n, ¬ Internal n → d'.get? n = d.get? n
  | [], d, _, _, _, _, c, hm, hr => ⟨d, rfl, hm, ⟨c, hr⟩, fun _ _ => rfl⟩
  | cwd :: rest, d, hn, mdir, conn, path, c, hm, hr => by
    obtain ⟨s, d1, h1, h2, h3, h4, h5, h6⟩ := trip cwd d hn mdir conn path c hm hr
    obtain ⟨d', g1, g2, g3, g4⟩ := trips rest d1 h3 mdir conn path true h4 h5
    exact ⟨d', by simp only [sendCache, h1, h2]; exact g1, g2, g3, fun n hi => (g4 n hi).trans (h6 n hi)⟩

/-! ### C95 -/

/-- A cache with SQLite metadata and results in files can be sent through any number of processes. The last copy uses the same
directories and connection, provided the path of the results is absolute or all processes work in the same directory, and all other
attributes (settings, runs, versions, keys, logs) are the same. -/
theorem C95_cache_partial (cwd : List Name) (cwds : List (List Name)) (d : Dict Name (Val A)) (hn : d.keys.Nodup)
    (mdir rdir : List Name) (conn : Dict Name String) (hk : KeptIn cwd d mdir rdir conn)
    (hd : (∃ p c, d.get? "result_store" = some (.resStore (.file (.abs p) c))) ∨ ∀ x ∈ cwds, x = cwd) :
    ∃ d', sendCache cwds d = .ok d' ∧ (∀ n, ¬ Internal n → d'.get? n = d.get? n) ∧
      KeptIn ((cwds.getLast?).getD cwd) d' mdir rdir conn := by
  obtain ⟨hm, hr⟩ := hk
  have hlast : (∀ x ∈ cwds, x = cwd) → (cwds.getLast?).getD cwd = cwd := by
    intro h
    cases hl : cwds.getLast? with
    | none => rfl
    | some x => exact h x (List.mem_of_getLast? hl)
  rcases hr with ⟨c, hr⟩ | ⟨c, p, hr, rfl⟩
  · obtain ⟨d', g1, g2, ⟨c', g3⟩, g4⟩ := trips cwds d hn mdir conn _ c hm hr
    exact ⟨d', g1, g4, g2, .inl ⟨c', g3⟩⟩
  · obtain ⟨d', g1, g2, ⟨c', g3⟩, g4⟩ := trips cwds d hn mdir conn _ c hm hr
    refine ⟨d', g1, g4, g2, .inr ⟨c', p, g3, ?_⟩⟩
    rcases hd with ⟨q, c2, hq⟩ | hd
    · rw [hr] at hq; cases hq
    · rw [hlast hd]

theorem specNames_own (p : Process) : ∀ ms : List Name, (∀ m ∈ ms, p.spec m = .found m) → specNames p ms = .ok ms
  | [], _ => rfl
  | m :: rest, h => by
    simp only [specNames, h m List.mem_cons_self, specNames_own p rest (fun x hx => h x (List.mem_cons_of_mem _ hx))]

theorem specNames_only (p : Process) : ∀ (ms ns : List Name), specNames p ms = .ok ns → ms.map p.spec = ns.map .found
  | [], ns, h => by cases h; rfl
  | m :: rest, ns, h => by
    unfold specNames at h
    split at h
    · cases h
    · cases h
    · next n hs =>
      split at h
      · cases h
      · next ns' he =>
        cases h
        simp [hs, specNames_only p rest ns' he]

theorem importAll_total (p : Process) : ∀ ns : List Name, (∀ n ∈ ns, ∀ e, p.imp n ≠ .raises e) →
    importAll p ns = .ok (ns.filter (fun n => decide (p.imp n = .ok)))
  | [], _ => rfl
  | n :: rest, h => by
    have ih := importAll_total p rest (fun x hx => h x (List.mem_cons_of_mem _ hx))
    unfold importAll
    split
    · next e he => exact absurd he (h n List.mem_cons_self e)
    · next he => rw [ih, List.filter_cons, he]; rfl
    · next he => simp only [ih]; rw [List.filter_cons, he]; rfl

/-- A driver whose modules were imported under their own names can be pickled; loaded where no module raises anything but an import
error, it has the modules that can be imported there, in their order, and the other attributes. -/
theorem C95_driver_partial (encode : List Name → A) (src dst : Process) (d : Drv A)
    (hs : ∀ m ∈ d.modules, src.spec m = .found m) (hi : ∀ m ∈ d.modules, ∀ e, dst.imp m ≠ .raises e) :
    ∃ d', sendDriver encode src dst d = .ok d' ∧ d'.modules.Sublist d.modules ∧
      (∀ m, m ∈ d'.modules ↔ m ∈ d.modules ∧ dst.imp m = .ok) ∧
      ∀ n, n ≠ "__graph_module_names" → d'.attrs.get? n = d.attrs.get? n := by
  refine ⟨⟨d.modules.filter (fun n => decide (dst.imp n = .ok)), d.attrs.set "__graph_module_names" (encode d.modules)⟩, ?_, ?_, ?_, ?_⟩
  · simp only [sendDriver, specNames_own src _ hs, importAll_total dst _ hi]
  · exact List.filter_sublist
  · intro m; simp [List.mem_filter]
  · intro n hne; exact Dict.get?_set_ne _ _ (Ne.symm hne)

theorem convertLoop_congr (ms ms' : List Name) : ∀ rs : List Request, (∀ r ∈ rs, convertOne ms r = convertOne ms' r) →
    convertLoop ms rs = convertLoop ms' rs
  | [], _ => rfl
  | r :: rest, h => by
    unfold convertLoop
    rw [h r List.mem_cons_self, convertLoop_congr ms ms' rest (fun x hx => h x (List.mem_cons_of_mem _ hx))]

/-- The loaded driver accepts the same requests, as names, variables or functions, and asks for the same nodes, unless a function is
requested whose module cannot be imported; if all modules can be imported, they are all there. -/
theorem C95_requests (encode : List Name → A) (src dst : Process) (d : Drv A)
    (hs : ∀ m ∈ d.modules, src.spec m = .found m) (hi : ∀ m ∈ d.modules, ∀ e, dst.imp m ≠ .raises e) :
    ∃ d', sendDriver encode src dst d = .ok d' ∧ ((∀ m ∈ d.modules, dst.imp m = .ok) → d'.modules = d.modules) ∧
      ∀ rs, (∀ m n, Request.function m n ∈ rs → m ∈ d.modules → dst.imp m = .ok) →
        createFinalVars d'.modules rs = createFinalVars d.modules rs := by
  obtain ⟨d', h1, h2, h3, _⟩ := C95_driver_partial encode src dst d hs hi
  have he : d'.modules = d.modules.filter (fun n => decide (dst.imp n = .ok)) := by
    simp only [sendDriver, specNames_own src _ hs, importAll_total dst _ hi] at h1
    cases h1; rfl
  refine ⟨d', h1, ?_, ?_⟩
  · intro hall
    rw [he, List.filter_eq_self]
    intro m hm; simpa using hall m hm
  · intro rs hrs
    unfold createFinalVars
    rw [convertLoop_congr d'.modules d.modules rs]
    intro r hr
    cases r with
    | function m n =>
      have : d'.modules.contains m = d.modules.contains m := by
        rw [Bool.eq_iff_iff, List.contains_iff_mem, List.contains_iff_mem, h3 m]
        exact ⟨fun h => h.1, fun h => ⟨h, hrs m n hr h⟩⟩
      simp only [convertOne, this]
    | _ => rfl

/-- Pickling raises exactly if the specification of some module is not found. -/
theorem C95_refused (encode : List Name → A) (src dst : Process) (d : Drv A) (hi : ∀ n e, dst.imp n ≠ .raises e) :
    (∃ d', sendDriver encode src dst d = .ok d') ↔ ∀ m ∈ d.modules, ∃ n, src.spec m = .found n := by
  constructor
  · rintro ⟨d', h⟩ m hm
    unfold sendDriver at h
    split at h
    · cases h
    · next ns hns =>
      have := specNames_only src _ _ hns
      have hmem : src.spec m ∈ ns.map Spec.found := by rw [← this]; exact List.mem_map.2 ⟨m, hm, rfl⟩
      obtain ⟨n, _, hn⟩ := List.mem_map.1 hmem
      exact ⟨n, hn.symm⟩
  · intro h
    have : ∃ ns, specNames src d.modules = .ok ns := by
      generalize d.modules = ms at h
      induction ms with
      | nil => exact ⟨[], rfl⟩
      | cons m rest ih =>
        obtain ⟨n, hn⟩ := h m List.mem_cons_self
        obtain ⟨ns, hns⟩ := ih (fun x hx => h x (List.mem_cons_of_mem _ hx))
        exact ⟨n :: ns, by simp only [specNames, hn, hns]⟩
    obtain ⟨ns, hns⟩ := this
    simp only [sendDriver, hns, importAll_total dst ns (fun n _ e => hi n e)]
    exact ⟨_, rfl⟩

/-! ### Examples and violations -/

namespace Sample

/-- A cache as `with_cache(path)` makes it, with two settings. -/
def cache (path : Path) : Dict Name (Val Nat) :=
  [("_path", .plain 0), ("metadata_store", .metaStore (openMeta ["home"] path [])), ("result_store", .resStore (openRes path)),
    ("run_ids", .plain 7)]

/-- The default path. -/
def rel : Path := .rel [".hamilton_cache"]

/-- Hypotheses of the theorem on caches. -/
example : KeptIn ["home"] (cache rel) ["home", ".hamilton_cache"] ["home", ".hamilton_cache"] [] :=
  ⟨rfl, .inr ⟨true, _, rfl, rfl⟩⟩

example : (cache rel).keys.Nodup := by decide

example : ∃ d', sendCache [["home"], ["home"]] (cache rel) = .ok d' ∧ (∃ v, d'.get? "run_ids" = some (.plain v) ∧ v = 7) :=
  ⟨_, rfl, _, rfl, rfl⟩

/-- With the default path, a process in another directory uses the same metadata but looks for the results elsewhere. -/
theorem C95_violated_relative : ∃ d', sendCache [["tmp"]] (cache rel) = .ok d' ∧
    d'.get? "metadata_store" = some (.metaStore (.sqlite (.abs ["home", ".hamilton_cache"]) [])) ∧
    d'.get? "result_store" = some (.resStore (.file rel true)) ∧
    rel.resolve ["tmp"] = ["tmp", ".hamilton_cache"] ∧ rel.resolve ["home"] = ["home", ".hamilton_cache"] :=
  ⟨_, rfl, rfl, rfl, rfl, rfl⟩

/-- A cache in memory cannot be pickled. -/
theorem C95_violated_memory : sendCache (A := Nat) [["home"]]
    [("metadata_store", .metaStore (.memory [])), ("result_store", .resStore (.memory []))] = .error "AttributeError" := rfl

/-- A process in which all modules but `nb` can be found, and `b` cannot be imported. -/
def proc : Process := ⟨fun m => if m = "nb" then .noSpec else .found m, fun m => if m = "b" then .importError else .ok⟩

example : ∃ d', sendDriver (fun _ => 0) proc proc ⟨["a", "c"], [("graph", 1)]⟩ = .ok d' ∧ d'.modules = ["a", "c"] ∧
    d'.attrs.get? "graph" = some 1 := ⟨_, rfl, rfl, rfl⟩

/-- A driver with a module that is not importable in the other process is loaded without it; a function of the module, which could be
requested before, is refused. -/
theorem C95_violated_dropped : ∃ d', sendDriver (fun _ => 0) proc proc ⟨["a", "b"], []⟩ = .ok d' ∧ d'.modules = ["a"] ∧
    createFinalVars ["a", "b"] [.function "b" "f"] = .ok ["f"] ∧
    createFinalVars d'.modules [.function "b" "f"] = .error (.convert 1) := ⟨_, rfl, rfl, rfl, rfl⟩

/-- A driver made from a temporary module, or from `__main__`, cannot be pickled. -/
theorem C95_violated_temporary : sendDriver (fun _ => 0) proc proc ⟨["a", "nb"], []⟩ = .error "ValueError" := rfl

end Sample
end Verif.Pickling
