import Verif.Model.Exceptions
import Mathlib.Data.List.Induction

/-
Properties C06-C08: exception lookup and migrations.
-/
namespace Dp

/-! ### Helper lemmas -/

theorem find?_filter_and {α} (l : List α) (f g : α → Bool) :
    (l.filter f).find? g = l.find? (fun a => f a && g a) := by
  induction l with
  | nil => rfl
  | cons a l ih =>
    cases hf : f a <;> cases hg : g a <;> simp [List.filter_cons, List.find?_cons, hf, hg, ih]

theorem ExcDict.has_add (d : ExcDict) (e : Exc) (p : Path) :
    (d.add e).has p = (d.has p || e.path == p) := by
  induction d with
  | nil => simp [ExcDict.add, ExcDict.has]
  | cons x d ih =>
    obtain ⟨q, g⟩ := x
    unfold ExcDict.add
    by_cases h : q = e.path
    · subst h
      simp only [beq_self_eq_true, if_true, ExcDict.has, List.any_cons]
      cases (e.path == p) <;> simp
    · have hb : (q == e.path) = false := by simpa using h
      simp only [hb, ExcDict.has, List.any_cons] at ih ⊢
      simp [ih, Bool.or_assoc]

theorem ExcDict.get_add (d : ExcDict) (e : Exc) (p : Path) :
    (d.add e).get p = d.get p ++ (if e.path = p then [e] else []) := by
  induction d with
  | nil => by_cases h : e.path = p <;> simp [ExcDict.add, ExcDict.get, h]
  | cons x d ih =>
    obtain ⟨q, g⟩ := x
    unfold ExcDict.add
    by_cases h : q = e.path
    · subst h
      by_cases h2 : e.path = p <;> simp [ExcDict.get, h2]
    · have hb : (q == e.path) = false := by simpa using h
      simp only [hb]
      by_cases h2 : q = p
      · subst h2
        have : ¬ e.path = q := fun h' => h h'.symm
        simp [ExcDict.get, this]
      · simp [ExcDict.get, h2, ih]

theorem groupExceptions_append (es : List Exc) (e : Exc) :
    groupExceptions (es ++ [e]) = (groupExceptions es).add e := by
  simp [groupExceptions]

theorem groupExceptions_get (es : List Exc) (p : Path) :
    (groupExceptions es).get p = es.filter (fun e => e.path == p) := by
  induction es using List.reverseRecOn with
  | nil => rfl
  | append_singleton es e ih =>
    rw [groupExceptions_append, ExcDict.get_add, ih, List.filter_append]
    by_cases h : e.path = p <;> simp [h]

theorem groupExceptions_has (es : List Exc) (p : Path) :
    (groupExceptions es).has p = es.any (fun e => e.path == p) := by
  induction es using List.reverseRecOn with
  | nil => rfl
  | append_singleton es e ih =>
    rw [groupExceptions_append, ExcDict.has_add, ih]
    simp

theorem ExcDict.any_add (d : ExcDict) (e : Exc) (f : Exc → Bool) :
    (d.add e).any (fun (_, g) => g.any f) = (d.any (fun (_, g) => g.any f) || f e) := by
  induction d with
  | nil => simp [ExcDict.add]
  | cons x d ih =>
    obtain ⟨q, g⟩ := x
    unfold ExcDict.add
    split
    · simp only [List.any_cons, List.any_append, List.any_nil, Bool.or_false]
      cases (g.any f) <;> cases (f e) <;> simp
    · simp only [List.any_cons, ih, Bool.or_assoc]

theorem groupExceptions_any (es : List Exc) (f : Exc → Bool) :
    (groupExceptions es).any (fun (_, g) => g.any f) = es.any f := by
  induction es using List.reverseRecOn with
  | nil => rfl
  | append_singleton es e ih =>
    rw [groupExceptions_append, ExcDict.any_add, ih]; simp

theorem startsWithPath_iff (q p : Path) : startsWithPath q p = true ↔ p <+: q := by
  simp only [startsWithPath, beq_iff_eq]
  exact ⟨fun h => h ▸ List.take_prefix _ _, fun h => (List.prefix_iff_eq_take.1 h).symm⟩

theorem existsBeneath_group (es : List Exc) (p : Path) :
    existsBeneath (groupExceptions es) p = true ↔ ∃ e ∈ es, p <+: e.path := by
  simp only [existsBeneath, groupExceptions_has, groupExceptions_any, Bool.or_eq_true,
    List.any_eq_true, beq_iff_eq, startsWithPath_iff]
  constructor
  · rintro (⟨e, he, rfl⟩ | h)
    · exact ⟨e, he, List.prefix_refl _⟩
    · exact h
  · exact Or.inr

/-! ### C06 -/

/-- C06. However many lookups were made before on the same context, each lookup
answers exactly whether some loaded exception's path begins with the asked path. -/
theorem C06_beneath_exact_and_cache_independent (es : List Exc) (ps : List Path) :
    (runLookups (groupExceptions es) [] ps).length = ps.length ∧
    ∀ p b, (p, b) ∈ ps.zip (runLookups (groupExceptions es) [] ps) →
      (b = true ↔ ∃ e ∈ es, p <+: e.path) := by
  suffices H : ∀ (ps : List Path) (c : PathCache),
      (∀ p b, c.get? p = some b → (b = true ↔ ∃ e ∈ es, p <+: e.path)) →
      (runLookups (groupExceptions es) c ps).length = ps.length ∧
      ∀ p b, (p, b) ∈ ps.zip (runLookups (groupExceptions es) c ps) →
        (b = true ↔ ∃ e ∈ es, p <+: e.path) from
    H ps [] (by intro p b h; simp [PathCache.get?] at h)
  intro ps
  induction ps with
  | nil => intro c _; simp [runLookups]
  | cons p ps ih =>
    intro c hc
    simp only [runLookups, hasExceptionBeneath]
    cases hg : c.get? p with
    | some b =>
      obtain ⟨h1, h2⟩ := ih c hc
      refine ⟨by simp [h1], ?_⟩
      intro p' b' hmem
      rcases List.mem_cons.1 hmem with h | h
      · cases h; exact hc p b hg
      · exact h2 p' b' h
    | none =>
      have hc' : ∀ p' b', PathCache.get? ((p, existsBeneath (groupExceptions es) p) :: c) p' = some b' →
          (b' = true ↔ ∃ e ∈ es, p' <+: e.path) := by
        intro p' b' h
        simp only [PathCache.get?] at h
        split at h
        · rename_i hpp
          cases h
          rw [← beq_iff_eq.1 hpp]
          exact existsBeneath_group es p
        · exact hc p' b' h
      obtain ⟨h1, h2⟩ := ih _ hc'
      refine ⟨by simp [h1], ?_⟩
      intro p' b' hmem
      rcases List.mem_cons.1 hmem with h | h
      · cases h; exact existsBeneath_group es p
      · exact h2 p' b' h

/-- Non-trivial case for C06: three lookups, one repeated, with both answers. -/
example : runLookups (groupExceptions [⟨["$", "%A", ".count"], .override⟩]) []
    [["$", "%A"], ["$", "%B"], ["$", "%A"]] = [true, false, true] := by decide

/-! ### C07 -/

/-- C07. Lookups at a path see exactly the exceptions whose path is that path,
in load order; waivers and value overrides take the first. -/
theorem C07_exact_path_first_wins (es : List Exc) (p : Path) :
    getInsertExceptions (groupExceptions es) p =
      es.filter (fun e => e.isInsertion && e.path == p) ∧
    getBlockExceptions (groupExceptions es) p =
      es.filter (fun e => e.isBlock && e.path == p) ∧
    getWaiveException (groupExceptions es) p =
      es.find? (fun e => e.path == p && e.isOverride) ∧
    getValueException (groupExceptions es) p =
      es.find? (fun e => e.path == p && e.isValue) := by
  have hno : (groupExceptions es).has p = false → es.filter (fun e => e.path == p) = [] := by
    rw [groupExceptions_has]
    intro h
    simpa [List.filter_eq_nil_iff] using h
  refine ⟨?_, ?_, ?_, ?_⟩
  · unfold getInsertExceptions
    rw [groupExceptions_get]
    cases h : (groupExceptions es).has p with
    | true => simp [List.filter_filter]
    | false => simp [← List.filter_filter, hno h]
  · unfold getBlockExceptions
    rw [groupExceptions_get]
    cases h : (groupExceptions es).has p with
    | true => simp [List.filter_filter]
    | false => simp [← List.filter_filter, hno h]
  · unfold getWaiveException
    rw [groupExceptions_get]
    cases h : (groupExceptions es).has p with
    | true => rw [← find?_filter_and]; rfl
    | false => rw [← find?_filter_and, hno h]; rfl
  · unfold getValueException
    rw [groupExceptions_get]
    cases h : (groupExceptions es).has p with
    | true => rw [← find?_filter_and]; rfl
    | false => rw [← find?_filter_and, hno h]; rfl

/-- C07, independence: adding or removing exceptions at other paths never
changes what is found at a path. -/
theorem C07_other_paths_never_matter (es es' : List Exc) (p : Path)
    (h : es.filter (fun e => e.path == p) = es'.filter (fun e => e.path == p)) :
    getInsertExceptions (groupExceptions es) p = getInsertExceptions (groupExceptions es') p ∧
    getBlockExceptions (groupExceptions es) p = getBlockExceptions (groupExceptions es') p ∧
    getWaiveException (groupExceptions es) p = getWaiveException (groupExceptions es') p ∧
    getValueException (groupExceptions es) p = getValueException (groupExceptions es') p := by
  have a := C07_exact_path_first_wins es p
  have b := C07_exact_path_first_wins es' p
  simp only [← List.filter_filter, ← find?_filter_and, h] at a b
  exact ⟨a.1.trans b.1.symm, a.2.1.trans b.2.1.symm, a.2.2.1.trans b.2.2.1.symm,
    a.2.2.2.trans b.2.2.2.symm⟩

/-- Non-trivial case for C07: two value overrides at one path, one at another. -/
example : getValueException (groupExceptions
    [⟨["$", "%B"], .value 1⟩, ⟨["$", "%A"], .value 2⟩, ⟨["$", "%A"], .value 3⟩]) ["$", "%A"]
    = some ⟨["$", "%A"], .value 2⟩ := by decide +kernel

/-- The insertions found beneath a path are exactly the loaded insertions whose
path begins with it (as sets). -/
theorem C07_insertions_beneath (es : List Exc) (p : Path) (e : Exc) :
    e ∈ getInsertExceptionsBeneath (groupExceptions es) p ↔
      e ∈ es ∧ e.isInsertion = true ∧ p <+: e.path := by
  -- keys of the groups agree with the paths of their members
  have hkeys : ∀ es : List Exc, ∀ x ∈ groupExceptions es, ∀ e ∈ x.2, e.path = x.1 := by
    intro es
    induction es using List.reverseRecOn with
    | nil => intro x hx; simp [groupExceptions] at hx
    | append_singleton es e ih =>
      rw [groupExceptions_append]
      generalize groupExceptions es = d at ih
      induction d with
      | nil =>
        intro x hx e' he'
        simp only [ExcDict.add, List.mem_singleton] at hx
        subst hx; simp at he'; simp [he']
      | cons y d ihd =>
        obtain ⟨q, g⟩ := y
        intro x hx e' he'
        unfold ExcDict.add at hx
        split at hx
        · rename_i hq
          rcases List.mem_cons.1 hx with h | h
          · subst h
            rcases List.mem_append.1 he' with h | h
            · exact ih _ List.mem_cons_self e' h
            · simp at h; subst h; exact (beq_iff_eq.1 hq).symm
          · exact ih x (List.mem_cons_of_mem _ h) e' he'
        · rcases List.mem_cons.1 hx with h | h
          · subst h; exact ih _ List.mem_cons_self e' he'
          · exact ihd (fun x hx => ih x (List.mem_cons_of_mem _ hx)) x h e' he'
  have hmem : ∀ e, (∃ x ∈ groupExceptions es, e ∈ x.2) ↔ e ∈ es := by
    intro e
    have := groupExceptions_any es (fun e' => e' == e)
    have h2 : (groupExceptions es).any (fun x => x.2.any (fun e' => e' == e)) = true ↔
        es.any (fun e' => e' == e) = true := by
      rw [← this]
    simpa [List.any_eq_true] using h2
  unfold getInsertExceptionsBeneath
  cases hb : existsBeneath (groupExceptions es) p with
  | false =>
    simp only [Bool.not_false, if_true, List.not_mem_nil, false_iff]
    rintro ⟨h1, _, h3⟩
    have := (existsBeneath_group es p).2 ⟨e, h1, h3⟩
    rw [hb] at this; cases this
  | true =>
    simp only [Bool.not_true, Bool.false_eq_true, if_false, List.mem_flatMap]
    constructor
    · rintro ⟨x, hx, he⟩
      obtain ⟨q, g⟩ := x
      simp only at he
      split at he
      · rename_i hq
        have hg := (List.mem_filter.1 he)
        refine ⟨(hmem e).1 ⟨_, hx, hg.1⟩, hg.2, ?_⟩
        rw [hkeys es _ hx e hg.1]
        exact (startsWithPath_iff q p).1 hq
      · simp at he
    · rintro ⟨h1, h2, h3⟩
      obtain ⟨x, hx, he⟩ := (hmem e).2 h1
      refine ⟨x, hx, ?_⟩
      obtain ⟨q, g⟩ := x
      have hq := hkeys es _ hx e he
      have : startsWithPath q p = true := (startsWithPath_iff q p).2 (by rw [← show e.path = q from hq]; exact h3)
      simp only [this, if_true]
      exact List.mem_filter.2 ⟨he, h2⟩

/-! ### C08 -/

/-- C08. One migration: a path under the old prefix keeps its remainder under
the new prefix; any other path is unchanged. -/
theorem C08_migration_rewrites_prefix (mig : Migration) (path : Path) :
    (∀ rest, path = mig.fromPath ++ rest → applyMigration path mig = mig.toPath ++ rest) ∧
    (¬ mig.fromPath <+: path → applyMigration path mig = path) := by
  constructor
  · rintro rest rfl
    simp [applyMigration]
  · intro h
    unfold applyMigration
    rw [if_neg]
    intro h2
    exact h ((startsWithPath_iff path mig.fromPath).1 h2)

/-- C08. Loading with a table of migrations: migrations are applied one after
the other, and nothing but the path changes: the result is what loading the
already rewritten record without migrations gives. -/
theorem C08_only_the_path_changes (data : RawExc) (migs : List Migration) :
    loadException data migs = loadException { data with path := applyMigrations data.path migs } [] ∧
    (∀ e, loadException data migs = .ok e → e.path = applyMigrations data.path migs) ∧
    (∀ e e', loadException data migs = .ok e → loadException data [] = .ok e' → e.kind = e'.kind) ∧
    (∀ err, loadException data migs = .error err ↔ loadException data [] = .error err) := by
  refine ⟨by simp [loadException, applyMigrations], ?_, ?_, ?_⟩
  · intro e h
    unfold loadException at h
    repeat' split at h
    all_goals first | (cases h; rfl) | cases h
  · intro e e' h h'
    unfold loadException at h h'
    repeat' split at h
    all_goals (try cases h)
    all_goals simp_all
    all_goals (subst h'; rfl)
  · intro err
    unfold loadException
    repeat' split
    all_goals simp

/-- C08. If no migration's old path is a prefix of the exception's path, the
path is untouched by the whole table. -/
theorem C08_untouched_when_nothing_matches (data : RawExc) (migs : List Migration)
    (h : ∀ m ∈ migs, ¬ m.fromPath <+: data.path) :
    loadException data migs = loadException data [] := by
  have : applyMigrations data.path migs = data.path := by
    unfold applyMigrations
    induction migs with
    | nil => rfl
    | cons m ms ih =>
      rw [List.foldl_cons, (C08_migration_rewrites_prefix m data.path).2 (h m List.mem_cons_self)]
      exact ih (fun m' hm' => h m' (List.mem_cons_of_mem _ hm'))
  rw [(C08_only_the_path_changes data migs).1, this]

/-- What an exception record asks for: its type says which kind of exception it is, and that kind's fields are there. -/
inductive Records (data : RawExc) : ExcKind → Prop where
  | insert (c : String) : data.type = "insert" → data.clbid = some c → Records data (.insertion c false)
  | forceInsert (c : String) : data.type = "force-insert" → data.clbid = some c → Records data (.insertion c true)
  | override : data.type = "override" → Records data .override
  | block (c : String) : data.type = "block" → data.clbid = some c → Records data (.block c)
  | value (v : Rat) : data.type = "value" → data.value = some v → Records data (.value v)
  | courseCredits (c : String) (v : Rat) : data.type = "course-credits" → data.clbid = some c → data.credits = some v →
      Records data (.courseCredits c v)
  | courseSubject (c s : String) : data.type = "course-subject" → data.clbid = some c → data.subject = some s →
      Records data (.courseSubject c s)

/-- C08. An exception record loads as the exception it asks for, at its migrated path, and a record that asks for
nothing known is rejected. -/
theorem C08_loaded_as_recorded (data : RawExc) (migs : List Migration) :
    (∀ e, loadException data migs = .ok e ↔ e.path = applyMigrations data.path migs ∧ Records data e.kind) ∧
    ((∃ err, loadException data migs = .error err) ↔ ∀ k, ¬ Records data k) := by
  have key : ∀ e, loadException data migs = .ok e ↔ e.path = applyMigrations data.path migs ∧ Records data e.kind := by
    intro e
    obtain ⟨p, k⟩ := e
    constructor
    · intro h
      refine ⟨(C08_only_the_path_changes data migs).2.1 _ h, ?_⟩
      unfold loadException at h
      repeat' split at h
      all_goals first | cases h
      all_goals constructor <;> simp_all
    · rintro ⟨rfl, h⟩
      cases h <;> simp_all [loadException]
  refine ⟨key, ?_, ?_⟩
  · rintro ⟨err, h⟩ k hk
    rw [(key ⟨applyMigrations data.path migs, k⟩).2 ⟨rfl, hk⟩] at h
    cases h
  · intro h
    cases he : loadException data migs with
    | error err => exact ⟨err, rfl⟩
    | ok e => exact absurd ((key e).1 he).2 (h _)

/-- Non-trivial case: a forced insertion. -/
example : loadException { type := "force-insert", path := ["$", "%Old"], clbid := some "1" } [⟨["$", "%Old"], ["$", "%New"]⟩] =
    .ok ⟨["$", "%New"], .insertion "1" true⟩ := by decide

/-- Non-trivial case for C08: two chained migrations and an untouched one. -/
example : applyMigrations ["$", "%Core", "%A", ".count"]
    [⟨["$", "%Core"], ["$", "%Foundation", "%Core"]⟩, ⟨["$", "%X"], ["$"]⟩,
     ⟨["$", "%Foundation"], ["$", "%Base"]⟩] = ["$", "%Base", "%Core", "%A", ".count"] := by decide

end Dp
