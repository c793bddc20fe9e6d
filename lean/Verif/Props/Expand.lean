import Verif.Model.Expand
import Verif.Props.Batch

/-
C119: the list of the audits of some students.
-/
namespace Dp

/-- the areas that are wanted of a student: the one that is named, or all that are no emphasis -/
def WantedArea (code : Option String) (st : Fetched) (c : String) : Prop :=
  (∃ c0, code = some c0 ∧ c0 ≠ "" ∧ c = c0) ∨
  ((code = none ∨ code = some "") ∧ ∃ a ∈ st.areas, a.kind ≠ "emphasis" ∧ a.code = c)

/-- the year of an area of a student: that of the last entry for the area, or else that of the student -/
def IsYearOf (st : Fetched) (c : String) (y : Int) : Prop :=
  ∃ y0, st.catalog = .year y0 ∧ (((∀ a ∈ st.areas, a.code ≠ c) ∧ y = y0) ∨
    ∃ pre a post, st.areas = pre ++ a :: post ∧ a.code = c ∧ (∀ b ∈ post, b.code ≠ c) ∧
      ((a.catalog = none ∧ y = y0) ∨ a.catalog = some (.year y)))

/-- the lines of one file -/
def LinesOf (root : String) (code : Option String) (file : String) (st : Fetched) (block : List ExpandLine) : Prop :=
  (st.catalog = .text ∧ block = []) ∨
  ((block.map (·.code)).Nodup ∧ (∀ c, c ∈ block.map (·.code) ↔ WantedArea code st c) ∧
    ∀ l ∈ block, l.file = file ∧ l.root = root ∧ ∃ y, IsYearOf st l.code y ∧ l.catalog = catalogYears y)

theorem yearOf_is {st : Fetched} {y0 y : Int} {c : String} (h0 : st.catalog = .year y0) (h : st.yearOf y0 c = some y) : IsYearOf st c y := by
  refine ⟨y0, h0, ?_⟩
  unfold Fetched.yearOf Fetched.area? at h
  cases hf : st.areas.reverse.find? (fun a => a.code == c) with
  | none =>
    left
    rw [hf] at h
    refine ⟨fun a ha e => ?_, (Option.some.inj h).symm⟩
    have := List.find?_eq_none.1 hf a (List.mem_reverse.2 ha)
    simp [e] at this
  | some a =>
    right
    rw [hf] at h
    obtain ⟨hp, as, bs, e, hno⟩ := List.find?_eq_some_iff_append.1 hf
    have e' : st.areas = bs.reverse ++ a :: as.reverse := by
      rw [← List.reverse_reverse st.areas, e]
      simp
    refine ⟨bs.reverse, a, as.reverse, e', by simpa using hp, fun b hb => by simpa using hno b (List.mem_reverse.1 hb), ?_⟩
    rw [Option.bind_some] at h
    split at h
    · rename_i hc
      exact Or.inl ⟨hc, (Option.some.inj h).symm⟩
    · rename_i y' hc
      cases h
      exact Or.inr hc
    · cases h

theorem expandLoop_years {st : Fetched} {y0 : Int} (h0 : st.catalog = .year y0) : ∀ (codes : List String),
    ∀ item ∈ (expandLoop st y0 codes).1, ∃ y, IsYearOf st item.2.2 y ∧ item.2.1 = catalogYears y
  | [] => by simp [expandLoop]
  | c :: cs => by
    unfold expandLoop
    split
    · simp
    · rename_i y hy
      intro item hi
      rcases List.mem_cons.1 hi with rfl | hi
      · exact ⟨y, yearOf_is h0 hy, rfl⟩
      · exact expandLoop_years h0 cs item hi

theorem expandWanted_lines {order : List String → List String} (horder : ∀ l, (order l).Perm l) (root : String) (code : Option String)
    (file : String) (st : Fetched) (h : (expandWanted order code st).2 = true) :
    LinesOf root code file st
      ((expandWanted order code st).1.map (fun item => ({ file, root, catalog := item.2.1, code := item.2.2 } : ExpandLine))) := by
  cases hc : st.catalog with
  | text => exact Or.inl ⟨hc, by simp [expandWanted, hc]⟩
  | other => simp [expandWanted, hc] at h
  | year y0 =>
    right
    obtain ⟨codes, hcodes, hnd, hmem⟩ : ∃ codes : List String, expandWanted order code st = expandLoop st y0 codes ∧ codes.Nodup ∧
        ∀ c, c ∈ codes ↔ WantedArea code st c := by
      have hall : (order st.codes).Nodup ∧ ∀ c, c ∈ order st.codes ↔ ∃ a ∈ st.areas, a.kind ≠ "emphasis" ∧ a.code = c :=
        ⟨(horder _).nodup_iff.mpr (List.nodup_dedup _), fun c => by rw [(horder _).mem_iff, Fetched.codes_mem]⟩
      cases code with
      | none =>
        exact ⟨order st.codes, by simp [expandWanted, hc], hall.1, fun c => by rw [hall.2]; simp [WantedArea]⟩
      | some c0 =>
        by_cases he : c0 = ""
        · subst he
          exact ⟨order st.codes, by simp [expandWanted, hc], hall.1, fun c => by rw [hall.2]; simp [WantedArea]⟩
        · refine ⟨[c0], by simp [expandWanted, hc, he], by simp, fun c => ?_⟩
          simp only [List.mem_singleton, WantedArea, Option.some.injEq, reduceCtorEq, false_or, he, false_and, or_false]
          constructor
          · rintro rfl; exact ⟨c, rfl, he, rfl⟩
          · rintro ⟨c1, rfl, _, rfl⟩; rfl
    rw [hcodes] at h ⊢
    have hm : ((expandLoop st y0 codes).1.map (fun item => ({ file, root, catalog := item.2.1, code := item.2.2 } : ExpandLine))).map (·.code) =
        codes := by
      rw [List.map_map]
      exact (expandLoop_items st y0 codes).2.2 h
    refine ⟨by rw [hm]; exact hnd, fun c => by rw [hm]; exact hmem c, ?_⟩
    intro l hl
    obtain ⟨item, hi, rfl⟩ := List.mem_map.1 hl
    exact ⟨rfl, rfl, expandLoop_years hc codes item hi⟩

theorem expandLines_blocks {read : String → Option Fetched} {order : List String → List String} (horder : ∀ l, (order l).Perm l)
    (root : String) (code : Option String) : ∀ (files : List String), (expandLines read order root code files).2 = none →
    ∃ blocks : List (List ExpandLine), (expandLines read order root code files).1 = blocks.flatten ∧
      List.Forall₂ (fun file block => ∃ st, read file = some st ∧ LinesOf root code file st block) files blocks
  | [], _ => ⟨[], by simp [expandLines], .nil⟩
  | file :: files, h => by
    unfold expandLines at h ⊢
    split at h
    · cases h
    · rename_i st hst
      split at h
      · rename_i hok
        obtain ⟨blocks, e, hb⟩ := expandLines_blocks horder root code files h
        refine ⟨_ :: blocks, ?_, .cons ⟨st, hst, expandWanted_lines horder root code file st hok⟩ hb⟩
        simp only [hok, if_true, e, List.flatten_cons]
      · cases h

theorem expandWanted_ok {order : List String → List String} (code : Option String) (st : Fetched) (h : st.YearsOk ∨ st.catalog = .text) :
    (expandWanted order code st).2 = true := by
  rcases h with h | h
  · obtain ⟨y0, hy⟩ := h.1
    have hok : ∀ codes : List String, (expandLoop st y0 codes).2 = true := by
      intro codes
      induction codes with
      | nil => rfl
      | cons c cs ih =>
        obtain ⟨y, e⟩ := yearOf_some h y0 c
        simp only [expandLoop, e]
        exact ih
    unfold expandWanted
    rw [hy]
    exact hok _
  · simp [expandWanted, h]

theorem expandLines_ok {read : String → Option Fetched} {order : List String → List String} (root : String) (code : Option String) :
    ∀ (files : List String), (∀ file ∈ files, ∃ st, read file = some st ∧ (st.YearsOk ∨ st.catalog = .text)) →
      (expandLines read order root code files).2 = none
  | [], _ => by simp [expandLines]
  | file :: files, h => by
    obtain ⟨st, hst, hy⟩ := h file List.mem_cons_self
    unfold expandLines
    simp only [hst, expandWanted_ok code st hy, if_true]
    exact expandLines_ok root code files (fun f hf => h f (List.mem_cons_of_mem _ hf))

/-- **C119, partial.** With `-` as the student, a root, and files that can be read and whose years are years (or whose student has none, who
is skipped): the program ends; for each pattern in the lines of its input that are not blank, in order, and each file that matches, in order,
it prints the wanted areas of the student, each once, with the year of the area.
Missing: a student as the argument (`C119_argument_refuted`). -/
theorem C119_all_areas_partial (strip : String → String) (glob : String → List String) (read : String → Option Fetched)
    (order : List String → List String) (horder : ∀ l, (order l).Perm l) (root : String) (hroot : root ≠ "") (code : Option String)
    (stdin : List String)
    (hfiles : ∀ line ∈ stdin, strip line ≠ "" → ∀ file ∈ glob (strip line), ∃ st, read file = some st ∧ (st.YearsOk ∨ st.catalog = .text)) :
    (expandCli strip glob read order (some root) "-" code stdin).2 = none ∧
    ∃ blocks : List (List ExpandLine), (expandCli strip glob read order (some root) "-" code stdin).1 = blocks.flatten ∧
      List.Forall₂ (fun file block => ∃ st, read file = some st ∧ LinesOf root code file st block)
        ((stdin.filter (fun line => strip line ≠ "")).flatMap (fun line => glob (strip line))) blocks := by
  have e : (((stdin.map strip).filter (fun line => line ≠ "")).flatMap glob) =
      (stdin.filter (fun line => strip line ≠ "")).flatMap (fun line => glob (strip line)) := by
    rw [List.filter_map, List.flatMap_map]
    rfl
  unfold expandCli
  rw [if_pos rfl]
  dsimp only
  rw [if_neg hroot, e]
  have hend := expandLines_ok (order := order) root code ((stdin.filter (fun line => strip line ≠ "")).flatMap (fun line => glob (strip line)))
    (read := read) (by
      intro file hf
      obtain ⟨line, hl, hf⟩ := List.mem_flatMap.1 hf
      obtain ⟨h1, h2⟩ := List.mem_filter.1 hl
      exact hfiles line h1 (by simpa using h2) file hf)
  exact ⟨hend, expandLines_blocks horder root code _ hend⟩

/-- **C119 is refuted for a student as the argument**: whatever file is given, and whatever is in it, nothing is printed and it raises. -/
theorem C119_argument_refuted (strip : String → String) (glob : String → List String) (read : String → Option Fetched)
    (order : List String → List String) (root : Option String) (student : String) (h : student ≠ "-") (code : Option String)
    (stdin : List String) : expandCli strip glob read order root student code stdin = ([], some .other) := by
  unfold expandCli
  rw [if_neg h]

/-- a student with two areas, of which one has its own year, and an emphasis -/
def expandAnn : Fetched :=
  { stnum := "1", catalog := .year 2018, areas := [⟨"140", "major", none⟩, ⟨"150", "major", some (.year 2019)⟩, ⟨"160", "emphasis", none⟩] }

/-- a case that meets the hypotheses of `C119_all_areas_partial`, and one of `C119_argument_refuted` -/
example : expandAnn.YearsOk ∧
    expandCli id (fun p => [p ++ ".json"]) (fun _ => some expandAnn) id (some "/areas") "-" none ["a", "", "b"] =
      ([⟨"a.json", "/areas", "2018-19", "140"⟩, ⟨"a.json", "/areas", "2019-20", "150"⟩,
        ⟨"b.json", "/areas", "2018-19", "140"⟩, ⟨"b.json", "/areas", "2019-20", "150"⟩], none) ∧
    expandCli id (fun p => [p]) (fun _ => some expandAnn) id (some "/areas") "a.json" none [] = ([], some .other) := by
  refine ⟨⟨⟨2018, rfl⟩, ?_⟩, by decide +kernel, by decide +kernel⟩
  intro a ha
  simp only [expandAnn, List.mem_cons, List.not_mem_nil, or_false] at ha
  rcases ha with rfl | rfl | rfl
  · exact Or.inl rfl
  · exact Or.inr ⟨2019, rfl⟩
  · exact Or.inl rfl

end Dp
