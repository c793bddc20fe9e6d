import Verif.Model.AreaCache

/-
C107: the testbed's cache of area files does not change which area is audited.
-/
namespace Dp

/-! ### What JSON keeps -/

mutual
/-- a value that JSON has: no dates and the like, and all keys of dictionaries are texts, each there once -/
def PyVal.Plain : PyVal → Prop
  | .other _ => False
  | .list l => PlainList l
  | .map d => PlainDict d
  | _ => True
/-- of all items -/
def PlainList : List PyVal → Prop
  | [] => True
  | v :: l => v.Plain ∧ PlainList l
/-- of all entries -/
def PlainDict : List (PyVal × PyVal) → Prop
  | [] => True
  | (k, v) :: d => (∃ s, k = .str s ∧ ∀ e ∈ d, e.1 ≠ .str s) ∧ v.Plain ∧ PlainDict d
end

theorem jsonSet_new {k : String} {v : PyVal} {d : List (PyVal × PyVal)} (h : ∀ e ∈ d, e.1 ≠ .str k) : jsonSet k v d = d ++ [(.str k, v)] := by
  induction d with
  | nil => rfl
  | cons e d ih =>
    obtain ⟨k', v'⟩ := e
    have h1 := h _ List.mem_cons_self
    have h2 := ih (fun e he => h e (List.mem_cons_of_mem _ he))
    unfold jsonSet
    cases k' with
    | str s =>
      dsimp only at h1 ⊢
      rw [if_neg (by rintro rfl; exact h1 rfl), h2]; rfl
    | _ => dsimp only; rw [h2]; rfl

theorem jsonSet_all : ∀ (e : List (String × PyVal)) (acc : List (PyVal × PyVal)),
    (∀ x ∈ e, ∀ y ∈ acc, y.1 ≠ .str x.1) → (e.map (·.1)).Nodup →
    e.foldl (fun d kv => jsonSet kv.1 kv.2 d) acc = acc ++ e.map (fun x => (.str x.1, x.2))
  | [], acc, _, _ => by simp
  | x :: e, acc, h, hn => by
    rw [List.map_cons, List.nodup_cons] at hn
    rw [List.foldl_cons, jsonSet_new (h x List.mem_cons_self), jsonSet_all e _ _ hn.2]
    · simp
    · intro z hz y hy
      rcases List.mem_append.1 hy with hy | hy
      · exact h z (List.mem_cons_of_mem _ hz) y hy
      · rw [List.mem_singleton] at hy
        subst hy
        intro he
        simp only [PyVal.str.injEq] at he
        exact hn.1 (he ▸ List.mem_map_of_mem hz)

mutual
theorem viaJson_plain : ∀ v : PyVal, v.Plain → v.viaJson = .ok v
  | .null, _ => rfl
  | .bool _, _ => rfl
  | .int _, _ => rfl
  | .float _, _ => rfl
  | .str _, _ => rfl
  | .other _, h => by simp [PyVal.Plain] at h
  | .list l, h => by
    unfold PyVal.Plain at h
    unfold PyVal.viaJson
    rw [viaJsonList_plain l h]; rfl
  | .map d, h => by
    unfold PyVal.Plain at h
    obtain ⟨e, h1, h2, h3⟩ := viaJsonDict_plain d h
    unfold PyVal.viaJson
    rw [h1]
    have := jsonSet_all e [] (by simp) h3
    rw [List.nil_append, h2] at this
    show Except.ok _ = _
    rw [this]
theorem viaJsonList_plain : ∀ l : List PyVal, PlainList l → viaJsonList l = .ok l
  | [], _ => rfl
  | v :: l, h => by
    unfold PlainList at h
    unfold viaJsonList
    rw [viaJson_plain v h.1, viaJsonList_plain l h.2]; rfl
theorem viaJsonDict_plain : ∀ d : List (PyVal × PyVal), PlainDict d →
    ∃ e, viaJsonDict d = .ok e ∧ e.map (fun x => (PyVal.str x.1, x.2)) = d ∧ (e.map (·.1)).Nodup
  | [], _ => ⟨[], rfl, rfl, by simp⟩
  | (k, v) :: d, h => by
    unfold PlainDict at h
    obtain ⟨⟨s, rfl, hs⟩, hv, hd⟩ := h
    obtain ⟨e, h1, h2, h3⟩ := viaJsonDict_plain d hd
    refine ⟨(s, v) :: e, ?_, by rw [List.map_cons, h2], ?_⟩
    · unfold viaJsonDict
      rw [viaJson_plain v hv, h1]; rfl
    · rw [List.map_cons, List.nodup_cons]
      refine ⟨fun hm => ?_, h3⟩
      obtain ⟨x, hx, rfl⟩ := List.mem_map.1 hm
      exact hs (.str x.1, x.2) (h2 ▸ List.mem_map_of_mem (f := fun x : String × PyVal => (PyVal.str x.1, x.2)) hx) rfl
end

/-! ### The cache over its history -/

/-- the caches there can be: runs one after the other, each with whatever files there are then and whatever areas it is asked for; a run that
raises, or is killed, leaves the cache as it was -/
inductive CacheHistory (parse : String → Except Err PyVal) : List CacheRow → Prop
  | new : CacheHistory parse []
  | run {cache : List CacheRow} (root : AreaRoot) (records : List (String × String)) :
      CacheHistory parse cache → CacheHistory parse (cacheAfter parse root cache records)
  | killed {cache : List CacheRow} : CacheHistory parse cache → CacheHistory parse cache

/-- every row tells what its text is as JSON, has the key of its catalog and code, and there is one per path -/
structure CacheGood (parse : String → Except Err PyVal) (cache : List CacheRow) : Prop where
  json : ∀ r ∈ cache, ∃ v, parse r.content = .ok v ∧ v.viaJson = .ok r.asJson
  key : ∀ r ∈ cache, r.key = r.catalog ++ "/" ++ r.code
  paths : (cache.map (·.path)).Nodup

theorem cacheUpsert_mem {row r : CacheRow} : ∀ {cache : List CacheRow}, r ∈ cacheUpsert row cache →
    r ∈ cache ∨ r = row ∨ ∃ r' ∈ cache, r'.path = row.path ∧ r = { r' with content := row.content, asJson := row.asJson }
  | [], h => by
    simp only [cacheUpsert, List.mem_singleton] at h
    exact .inr (.inl h)
  | r0 :: cache, h => by
    unfold cacheUpsert at h
    split at h
    · rename_i hp
      rcases List.mem_cons.1 h with rfl | h
      · exact .inr (.inr ⟨r0, List.mem_cons_self, hp, rfl⟩)
      · exact .inl (List.mem_cons_of_mem _ h)
    · rcases List.mem_cons.1 h with rfl | h
      · exact .inl List.mem_cons_self
      · rcases cacheUpsert_mem h with h | h | ⟨r', h1, h2⟩
        · exact .inl (List.mem_cons_of_mem _ h)
        · exact .inr (.inl h)
        · exact .inr (.inr ⟨r', List.mem_cons_of_mem _ h1, h2⟩)

theorem cacheUpsert_paths {row : CacheRow} : ∀ cache : List CacheRow, (cacheUpsert row cache).map (·.path) =
    if row.path ∈ cache.map (·.path) then cache.map (·.path) else cache.map (·.path) ++ [row.path]
  | [] => by simp [cacheUpsert]
  | r :: cache => by
    unfold cacheUpsert
    have ih := cacheUpsert_paths (row := row) cache
    by_cases hp : r.path = row.path
    · simp [hp]
    · rw [if_neg hp, List.map_cons, ih]
      have hp' : ¬ row.path = r.path := fun h => hp h.symm
      by_cases hm : row.path ∈ cache.map (·.path)
      · rw [if_pos hm, if_pos (by rw [List.map_cons]; exact List.mem_cons_of_mem _ hm)]; rfl
      · rw [if_neg hm, if_neg (by rw [List.map_cons, List.mem_cons]; rintro (h | h); exacts [hp' h, hm h])]; rfl

/-- the area in a file as it is now, itself or as JSON keeps it -/
def SpecNow (parse : String → Except Err PyVal) (root : AreaRoot) (record : String × String) (v : PyVal) : Prop :=
  ∃ file now, root record.1 record.2 = some file ∧ parse file.content = .ok now ∧ (v = now ∨ now.viaJson = .ok v)

theorem loadCached_good {parse : String → Except Err PyVal} {root : AreaRoot} {cache cache' : List CacheRow} {catalog code : String}
    {area : Option (String × PyVal)} (hc : CacheGood parse cache) (h : loadCached parse root cache catalog code = .ok (area, cache')) :
    CacheGood parse cache' ∧
      ((root catalog code = none ∧ area = none) ∨ ∃ v, area = some (catalog ++ "/" ++ code, v) ∧ SpecNow parse root (catalog, code) v) := by
  unfold loadCached at h
  cases hr : root catalog code with
  | none => rw [hr] at h; cases h; exact ⟨hc, .inl ⟨rfl, rfl⟩⟩
  | some file =>
    rw [hr] at h
    dsimp only at h
    split at h
    · rename_i r hf
      cases h
      have hm := List.mem_of_find?_eq_some hf
      have hp := List.find?_some hf
      simp only [Bool.and_eq_true, beq_iff_eq] at hp
      obtain ⟨now, h1, h2⟩ := hc.json r hm
      refine ⟨hc, .inr ⟨r.asJson, by rw [hc.key r hm, hp.1.1, hp.1.2], file, now, hr, by rw [← hp.2]; exact h1, .inr h2⟩⟩
    · cases hs : parse file.content with
      | error e => rw [hs] at h; cases h
      | ok spec =>
        cases hpath : file.path with
        | error e => rw [hs, hpath] at h; cases h
        | ok path =>
          cases hj : spec.viaJson with
          | error e => rw [hs, hpath] at h; dsimp only [bind, Except.bind] at h; rw [hj] at h; cases h
          | ok json =>
            rw [hs, hpath] at h
            dsimp only [bind, Except.bind] at h
            rw [hj] at h
            cases h
            refine ⟨⟨?_, ?_, ?_⟩, .inr ⟨spec, rfl, file, spec, hr, hs, .inl rfl⟩⟩
            · intro r hm
              rcases cacheUpsert_mem hm with hm | rfl | ⟨r', -, -, rfl⟩
              · exact hc.json r hm
              · exact ⟨spec, hs, hj⟩
              · exact ⟨spec, hs, hj⟩
            · intro r hm
              rcases cacheUpsert_mem hm with hm | rfl | ⟨r', hm', -, rfl⟩
              · exact hc.key r hm
              · rfl
              · exact hc.key r' hm'
            · rw [cacheUpsert_paths]
              split
              · exact hc.paths
              · rename_i hn
                rw [List.nodup_append]
                refine ⟨hc.paths, by simp, ?_⟩
                intro a ha b hb
                rw [List.mem_singleton] at hb
                rintro rfl
                exact hn (hb ▸ ha)

theorem loadAreas_good {parse : String → Except Err PyVal} {root : AreaRoot} {records : List (String × String)} :
    ∀ {cache cache' areas}, CacheGood parse cache → loadAreas parse root cache records = .ok (areas, cache') →
      CacheGood parse cache' ∧ (∀ a ∈ areas, ∃ r ∈ records, a.1 = r.1 ++ "/" ++ r.2 ∧ SpecNow parse root r a.2) ∧
      ∀ r ∈ records, root r.1 r.2 ≠ none → ∃ a ∈ areas, a.1 = r.1 ++ "/" ++ r.2 ∧ SpecNow parse root r a.2 := by
  induction records with
  | nil => intro cache cache' areas hc h; cases h; exact ⟨hc, by simp, by simp⟩
  | cons rec records ih =>
    obtain ⟨catalog, code⟩ := rec
    intro cache cache' areas hc h
    unfold loadAreas at h
    cases h1 : loadCached parse root cache catalog code with
    | error e => rw [h1] at h; cases h
    | ok p =>
      obtain ⟨area, c1⟩ := p
      rw [h1] at h
      dsimp only [bind, Except.bind] at h
      cases h2 : loadAreas parse root c1 records with
      | error e => rw [h2] at h; cases h
      | ok p =>
        obtain ⟨rest, c2⟩ := p
        rw [h2] at h
        cases h
        obtain ⟨hg, ha⟩ := loadCached_good hc h1
        obtain ⟨hg', hr1, hr2⟩ := ih hg h2
        refine ⟨hg', fun a hm => ?_, fun r hm hne => ?_⟩
        · rcases List.mem_append.1 hm with hm | hm
          · rcases ha with ⟨-, rfl⟩ | ⟨v, rfl, hv⟩
            · simp at hm
            · simp only [Option.toList_some, List.mem_singleton] at hm
              subst hm
              exact ⟨_, List.mem_cons_self, rfl, hv⟩
          · obtain ⟨r, hr, hx⟩ := hr1 a hm
            exact ⟨r, List.mem_cons_of_mem _ hr, hx⟩
        · rcases List.mem_cons.1 hm with rfl | hm
          · rcases ha with ⟨hn, -⟩ | ⟨v, rfl, hv⟩
            · exact absurd hn hne
            · exact ⟨(catalog ++ "/" ++ code, v), List.mem_append_left _ (by simp), rfl, hv⟩
          · obtain ⟨a, hm', hx⟩ := hr2 r hm hne
            exact ⟨a, List.mem_append_right _ hm', hx⟩

theorem cacheHistory_good {parse : String → Except Err PyVal} {cache : List CacheRow} (h : CacheHistory parse cache) : CacheGood parse cache := by
  induction h with
  | new => exact ⟨by simp, by simp, by simp⟩
  | run root records _ ih =>
    unfold cacheAfter
    split
    · rename_i h; exact (loadAreas_good ih h).1
    · exact ih
  | killed _ ih => exact ih

/-- **C107**, whatever the files hold: an area that is given is never stale.  It is the area in the file as it is now, or what JSON keeps of
it, and every area with a file is given. -/
theorem C107_never_stale (parse : String → Except Err PyVal) (cache cache' : List CacheRow) (hc : CacheHistory parse cache) (root : AreaRoot)
    (records : List (String × String)) (areas : List (String × PyVal)) (h : loadAreas parse root cache records = .ok (areas, cache')) :
    (∀ a ∈ areas, ∃ r ∈ records, a.1 = r.1 ++ "/" ++ r.2 ∧ SpecNow parse root r a.2) ∧
      ∀ r ∈ records, root r.1 r.2 ≠ none → ∃ a ∈ areas, a.1 = r.1 ++ "/" ++ r.2 ∧ SpecNow parse root r a.2 :=
  (loadAreas_good (cacheHistory_good hc) h).2

/-- **C107**, the table does not grow with the runs: one row per file. -/
theorem C107_one_row_per_file (parse : String → Except Err PyVal) (cache : List CacheRow) (hc : CacheHistory parse cache) :
    (cache.map (·.path)).Nodup :=
  (cacheHistory_good hc).paths

theorem loadCached_ok {parse : String → Except Err PyVal} {root : AreaRoot} {catalog code : String}
    (h : ∀ file, root catalog code = some file → (∃ p, file.path = .ok p) ∧ ∃ v, parse file.content = .ok v ∧ v.Plain) (cache : List CacheRow) :
    ∃ x, loadCached parse root cache catalog code = .ok x := by
  unfold loadCached
  cases hr : root catalog code with
  | none => exact ⟨_, rfl⟩
  | some file =>
    obtain ⟨⟨p, hp⟩, v, hv, hpl⟩ := h file hr
    dsimp only
    split
    · exact ⟨_, rfl⟩
    · rw [hv, hp]
      dsimp only [bind, Except.bind]
      rw [viaJson_plain v hpl]
      exact ⟨_, rfl⟩

/-- **C107** For area files that JSON has words for, below the root: whatever runs and edits came before, loading does not raise, and the areas
given are exactly those in the files as they are now. -/
theorem C107_cache_is_not_seen_partial (parse : String → Except Err PyVal) (cache : List CacheRow) (hc : CacheHistory parse cache)
    (root : AreaRoot) (records : List (String × String))
    (hf : ∀ r ∈ records, ∀ file, root r.1 r.2 = some file → (∃ p, file.path = .ok p) ∧ ∃ v, parse file.content = .ok v ∧ v.Plain) :
    ∃ areas cache', loadAreas parse root cache records = .ok (areas, cache') ∧
      ∀ key v, (key, v) ∈ areas ↔ ∃ r ∈ records, ∃ file, root r.1 r.2 = some file ∧ key = r.1 ++ "/" ++ r.2 ∧ parse file.content = .ok v := by
  have hok : ∀ (records : List (String × String)) (cache : List CacheRow), (∀ r ∈ records, ∀ file, root r.1 r.2 = some file → (∃ p, file.path = .ok p) ∧
      ∃ v, parse file.content = .ok v ∧ v.Plain) → ∃ x, loadAreas parse root cache records = .ok x := by
    intro records
    induction records with
    | nil => intro cache _; exact ⟨_, rfl⟩
    | cons r records ih =>
      intro cache h
      obtain ⟨x, hx⟩ := loadCached_ok (h r List.mem_cons_self) cache
      obtain ⟨y, hy⟩ := ih x.2 (fun r' h' => h r' (List.mem_cons_of_mem _ h'))
      unfold loadAreas
      rw [hx]
      dsimp only [bind, Except.bind]
      rw [hy]
      exact ⟨_, rfl⟩
  obtain ⟨⟨areas, cache'⟩, hx⟩ := hok records cache hf
  refine ⟨areas, cache', hx, fun key v => ?_⟩
  obtain ⟨h1, h2⟩ := C107_never_stale parse cache cache' hc root records areas hx
  have hnow : ∀ r ∈ records, ∀ v, SpecNow parse root r v → ∃ file, root r.1 r.2 = some file ∧ parse file.content = .ok v := by
    rintro r hr v ⟨file, now, hfile, hp, hv⟩
    obtain ⟨-, v', hv', hpl⟩ := hf r hr file hfile
    rw [hp] at hv'
    cases hv'
    refine ⟨file, hfile, ?_⟩
    rcases hv with rfl | hv
    · exact hp
    · rw [viaJson_plain now hpl] at hv
      cases hv
      exact hp
  constructor
  · intro hm
    obtain ⟨r, hr, hk, hs⟩ := h1 _ hm
    obtain ⟨file, hfile, hp⟩ := hnow r hr v hs
    exact ⟨r, hr, file, hfile, hk, hp⟩
  · rintro ⟨r, hr, file, hfile, rfl, hp⟩
    obtain ⟨⟨k, v'⟩, hm, rfl, hs⟩ := h2 r hr (by rw [hfile]; simp)
    obtain ⟨file', hfile', hp'⟩ := hnow r hr v' hs
    rw [hfile] at hfile'
    cases hfile'
    rw [hp] at hp'
    cases hp'
    exact hm

/-! ### Cases -/

namespace CacheText
/-- three texts: one with a name, one with a number as the key, one with a date -/
def parse : String → Except Err PyVal := fun t =>
  if t = "name: Data" then .ok (.map [(.str "name", .str "Data"), (.str "result", .map [(.str "course", .str "CSCI 121")])])
  else if t = "name: Science" then .ok (.map [(.str "name", .str "Science")])
  else if t = "1: Data" then .ok (.map [(.int 1, .str "Data")])
  else if t = "revised: 2019-02-01" then .ok (.map [(.str "revised", .other "2019-02-01")])
  else .error .other
/-- a root with one file -/
def root (text : String) : AreaRoot := fun catalog code =>
  if catalog = "2018-19" ∧ code = "741" then some ⟨.ok "2018-19/741.yaml", text⟩ else none
def records : List (String × String) := [("2018-19", "741"), ("2018-19", "742")]
end CacheText

open CacheText in
/-- a file that is loaded, edited and loaded twice: the third run finds it in the cache -/
example : (∀ r ∈ records, ∀ file, root "name: Science" r.1 r.2 = some file → (∃ p, file.path = .ok p) ∧
      ∃ v, parse file.content = .ok v ∧ v.Plain) ∧
    ∃ c1 c2, CacheHistory parse c1 ∧ CacheHistory parse c2 ∧ c1.map (·.content) = ["name: Data"] ∧ c2.map (·.content) = ["name: Science"] ∧
      loadAreas parse (root "name: Science") c1 records = .ok ([("2018-19/741", .map [(.str "name", .str "Science")])], c2) ∧
      loadAreas parse (root "name: Science") c2 records = .ok ([("2018-19/741", .map [(.str "name", .str "Science")])], c2) := by
  refine ⟨?_, cacheAfter parse (root "name: Data") [] records, cacheAfter parse (root "name: Science") (cacheAfter parse (root "name: Data") [] records) records,
    .run _ _ .new, .run _ _ (.run _ _ .new), rfl, rfl, rfl, rfl⟩
  intro r hr file hfile
  unfold root at hfile
  split at hfile
  · cases hfile
    exact ⟨⟨_, rfl⟩, _, rfl, by simp [PyVal.Plain, PlainDict]⟩
  · cases hfile

open CacheText in
/-- **C107**, refuted for keys that are no texts: the first run has the number that the file has as a key, the second run has a text. -/
theorem C107_number_keys_refuted : ∃ cache, loadAreas parse (root "1: Data") [] records = .ok ([("2018-19/741", .map [(.int 1, .str "Data")])], cache) ∧
    loadAreas parse (root "1: Data") cache records = .ok ([("2018-19/741", .map [(.str "1", .str "Data")])], cache) :=
  ⟨_, rfl, rfl⟩

open CacheText in
/-- **C107**, refuted for dates: a file with a date can be parsed, and is not loaded; nor is any other area of the run. -/
theorem C107_date_refuted : (∃ v, parse "revised: 2019-02-01" = .ok v) ∧
    loadAreas parse (root "revised: 2019-02-01") [] records = .error .typeError :=
  ⟨⟨_, rfl⟩, rfl⟩

end Dp
