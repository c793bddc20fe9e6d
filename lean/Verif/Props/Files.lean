import Verif.Model.Files

/-
Finding the specification of an area (C43).
-/
namespace Dp

/-! ### Years as names of folders -/

theorem folder_digitChar_lt {i j : Nat} (hi : i < 10) (hj : j < 10) : Nat.digitChar i < Nat.digitChar j ↔ i < j := by
  have : ∀ i, i < 10 → ∀ j, j < 10 → (Nat.digitChar i < Nat.digitChar j ↔ i < j) := by decide
  exact this i hi j hj

theorem digitChar_eq {i j : Nat} (hi : i < 10) (hj : j < 10) : Nat.digitChar i = Nat.digitChar j ↔ i = j := by
  have : ∀ i, i < 10 → ∀ j, j < 10 → (Nat.digitChar i = Nat.digitChar j ↔ i = j) := by decide
  exact this i hi j hj

/-- the digits of a year -/
theorem folder_year_digits {n : Nat} (h1 : 1000 ≤ n) (h2 : n ≤ 9999) :
    Nat.toDigits 10 n = [(n / 1000).digitChar, (n / 100 % 10).digitChar, (n / 10 % 10).digitChar, (n % 10).digitChar] := by
  rw [Nat.toDigits_of_base_le (by decide) (by omega), Nat.toDigits_of_base_le (by decide) (by omega),
    Nat.toDigits_of_base_le (by decide) (by omega), Nat.toDigits_of_lt_base (by omega)]
  simp only [Nat.div_div_eq_div_mul, List.cons_append, List.nil_append]

theorem toString_year (n : Nat) : (toString (n : Int)).toList = Nat.toDigits 10 n := by
  show (Nat.repr n).toList = _
  exact Nat.toList_repr

theorem catalogYears_toList {n : Nat} (h1 : 1000 ≤ n) (h2 : n ≤ 9998) :
    (catalogYears n).toList = [(n / 1000).digitChar, (n / 100 % 10).digitChar, (n / 10 % 10).digitChar,
      (n % 10).digitChar, '-', ((n + 1) / 10 % 10).digitChar, ((n + 1) % 10).digitChar] := by
  unfold catalogYears
  have e : ((n : Int) + 1) = ((n + 1 : Nat) : Int) := by push_cast; rfl
  rw [e]
  simp only [String.toList_append, toString_year, String.toList_ofList]
  rw [folder_year_digits h1 (by omega), folder_year_digits (by omega) (by omega)]
  rfl

/-- the names of the folders of two years are ordered as the years -/
theorem catalogYears_lt {n m : Nat} (h1 : 1000 ≤ n) (h2 : n ≤ 9998) (h3 : 1000 ≤ m) (h4 : m ≤ 9998) :
    catalogYears n < catalogYears m ↔ n < m := by
  rw [String.lt_iff, catalogYears_toList h1 h2, catalogYears_toList h3 h4]
  simp only [List.cons_lt_cons_iff]
  have a1 : n / 1000 < 10 := by omega
  have a2 : m / 1000 < 10 := by omega
  have b1 : n / 100 % 10 < 10 := by omega
  have b2 : m / 100 % 10 < 10 := by omega
  have c1 : n / 10 % 10 < 10 := by omega
  have c2 : m / 10 % 10 < 10 := by omega
  have d1 : n % 10 < 10 := by omega
  have d2 : m % 10 < 10 := by omega
  have e1 : (n + 1) / 10 % 10 < 10 := by omega
  have e2 : (m + 1) / 10 % 10 < 10 := by omega
  have f1 : (n + 1) % 10 < 10 := by omega
  have f2 : (m + 1) % 10 < 10 := by omega
  rw [folder_digitChar_lt a1 a2, digitChar_eq a1 a2, folder_digitChar_lt b1 b2, digitChar_eq b1 b2, folder_digitChar_lt c1 c2,
    digitChar_eq c1 c2, folder_digitChar_lt d1 d2, digitChar_eq d1 d2, folder_digitChar_lt e1 e2, digitChar_eq e1 e2,
    folder_digitChar_lt f1 f2]
  simp only [Char.lt_irrefl, false_or, true_and, List.not_lt_nil, and_false, or_false]
  omega

/-! ### Specification -/

/-- the folder of a year: `2018-19` for 2018 -/
def IsFolderOf (folder : String) (year : Nat) : Prop := 1000 ≤ year ∧ year ≤ 9998 ∧ folder = catalogYears year

/-- every folder is the folder of some year -/
def YearFolders (files : List (String × String)) : Prop := ∀ f ∈ files, ∃ y, IsFolderOf f.1 y

theorem IsFolderOf.unique {folder : String} {y y' : Nat} (h : IsFolderOf folder y) (h' : IsFolderOf folder y') : y = y' := by
  obtain ⟨h1, h2, h3⟩ := h
  obtain ⟨g1, g2, g3⟩ := h'
  have a := catalogYears_lt h1 h2 g1 g2
  have b := catalogYears_lt g1 g2 h1 h2
  rw [← h3, ← g3] at a b
  have irr : ¬ folder < folder := by
    rw [String.lt_iff]; exact List.lt_irrefl _
  have := mt a.mpr irr
  have := mt b.mpr irr
  omega

theorem IsFolderOf.dash {folder : String} {y : Nat} (h : IsFolderOf folder y) : folder.toList.contains '-' = true := by
  obtain ⟨h1, h2, h3⟩ := h
  rw [h3, catalogYears_toList h1 h2]
  simp

/-- the greatest of some folders of years -/
theorem greatestName_years (fs : List String) (h : ∀ f ∈ fs, ∃ y, IsFolderOf f y) :
    (greatestName fs = none ↔ fs = []) ∧
    ∀ g, greatestName fs = some g → g ∈ fs ∧ ∀ y, IsFolderOf g y → ∀ f ∈ fs, ∀ y', IsFolderOf f y' → y' ≤ y := by
  induction fs with
  | nil => simp [greatestName]
  | cons f fs ih =>
    obtain ⟨ih1, ih2⟩ := ih (fun g hg => h g (List.mem_cons_of_mem _ hg))
    obtain ⟨yf, hyf⟩ := h f List.mem_cons_self
    unfold greatestName
    cases hg : greatestName fs with
    | none =>
      have := ih1.mp hg
      subst this
      simp only [reduceCtorEq, Option.some.injEq, true_and, List.cons_ne_nil]
      rintro g rfl
      refine ⟨by simp, ?_⟩
      intro y hy f' hf' y' hy'
      simp at hf'; subst hf'
      exact Nat.le_of_eq (hy'.unique hy)
    | some g =>
      obtain ⟨hm, hmax⟩ := ih2 g hg
      obtain ⟨yg, hyg⟩ := h g (List.mem_cons_of_mem _ hm)
      have hlt := catalogYears_lt hyg.1 hyg.2.1 hyf.1 hyf.2.1
      rw [← hyg.2.2, ← hyf.2.2] at hlt
      constructor
      · simp only; split <;> simp
      · intro r hr
        simp only at hr
        split at hr
        · rename_i hc
          cases hr
          have hlt' := hlt.mp hc
          refine ⟨by simp, ?_⟩
          intro y hy f' hf' y' hy'
          have := hy.unique hyf
          rcases List.mem_cons.mp hf' with rfl | hf'
          · exact Nat.le_of_eq (hy'.unique hy)
          · have := hmax yg hyg f' hf' y' hy'; omega
        · rename_i hc
          cases hr
          have hlt' := mt hlt.mpr hc
          refine ⟨by simp [hm], ?_⟩
          intro y hy f' hf' y' hy'
          rcases List.mem_cons.mp hf' with rfl | hf'
          · have := hy.unique hyg; have := hy'.unique hyf; omega
          · exact hmax y hy f' hf' y' hy'

/-- a file of the code is considered exactly when its year is not after the requested one -/
theorem considered_iff {files : List (String × String)} (hf : YearFolders files) {catalog : Nat}
    (hc1 : 1000 ≤ catalog) (hc2 : catalog ≤ 9998) (code folder : String) :
    folder ∈ (files.filter (fun f => f.1.toList.contains '-' && f.2 == code && !decide (catalogYears catalog < f.1))).map (·.1) ↔
      (folder, code) ∈ files ∧ ∀ y, IsFolderOf folder y → y ≤ catalog := by
  constructor
  · intro h
    obtain ⟨f, hm, rfl⟩ := List.mem_map.mp h
    obtain ⟨hm, hp⟩ := List.mem_filter.mp hm
    simp only [Bool.and_eq_true, beq_iff_eq, Bool.not_eq_true', decide_eq_false_iff_not] at hp
    refine ⟨by rw [← hp.1.2]; exact hm, ?_⟩
    intro y hy
    have := mt (catalogYears_lt hc1 hc2 hy.1 hy.2.1).mpr (by rw [← hy.2.2]; exact hp.2)
    omega
  · rintro ⟨hm, hy⟩
    obtain ⟨y, hy'⟩ := hf _ hm
    refine List.mem_map.mpr ⟨(folder, code), List.mem_filter.mpr ⟨hm, ?_⟩, rfl⟩
    simp only [hy'.dash, beq_self_eq_true, Bool.true_and, Bool.not_eq_true', decide_eq_false_iff_not]
    intro hlt
    have h1 := hy'.2.2
    simp only at h1
    rw [h1, catalogYears_lt hc1 hc2 hy'.1 hy'.2.1] at hlt
    have := hy y hy'; omega

/-- **C43** (found).  The file found is one of the wanted area, of a year not after the
requested one, and no file of that area is of a later year that is not after the requested
one. -/
theorem C43_greatest_year {files : List (String × String)} (hf : YearFolders files) {catalog : Nat}
    (hc1 : 1000 ≤ catalog) (hc2 : catalog ≤ 9998) {code folder : String}
    (h : findArea files catalog code = some folder) :
    (folder, code) ∈ files ∧ ∃ y, IsFolderOf folder y ∧ y ≤ catalog ∧
      ∀ f y', (f, code) ∈ files → IsFolderOf f y' → y' ≤ catalog → y' ≤ y := by
  have hall := fun g => considered_iff hf hc1 hc2 code g
  unfold findArea at h
  obtain ⟨-, h2⟩ := greatestName_years _ (fun g hg => hf _ ((hall g).mp hg).1)
  obtain ⟨hm, hmax⟩ := h2 folder h
  obtain ⟨h3, h4⟩ := (hall folder).mp hm
  obtain ⟨y, hy⟩ := hf _ h3
  refine ⟨h3, y, hy, h4 y hy, ?_⟩
  intro f y' hfm hy' hle
  refine hmax y hy f ((hall f).mpr ⟨hfm, ?_⟩) y' hy'
  intro y2 hy2
  rw [hy2.unique hy']; exact hle

/-- **C43** (nothing).  Nothing is found exactly when every file of the area is of a later
year than the requested one. -/
theorem C43_nothing_found {files : List (String × String)} (hf : YearFolders files) {catalog : Nat}
    (hc1 : 1000 ≤ catalog) (hc2 : catalog ≤ 9998) (code : String) :
    findArea files catalog code = none ↔ ∀ f y, (f, code) ∈ files → IsFolderOf f y → catalog < y := by
  have hall := fun g => considered_iff hf hc1 hc2 code g
  unfold findArea
  rw [(greatestName_years _ (fun g hg => hf _ ((hall g).mp hg).1)).1]
  constructor
  · intro he f y hm hy
    by_contra hc
    have : f ∈ ([] : List String) := by
      rw [← he]
      refine (hall f).mpr ⟨hm, ?_⟩
      intro y2 hy2
      rw [hy2.unique hy]; omega
    simp at this
  · intro h
    rw [List.eq_nil_iff_forall_not_mem]
    intro f hm
    obtain ⟨h1, h2⟩ := (hall f).mp hm
    obtain ⟨y, hy⟩ := hf _ h1
    have := h f y h1 hy
    have := h2 y hy
    omega

/-- three years of one area; 2020 finds the file of 2019 -/
example : findArea [("2018-19", "math"), ("2021-22", "math"), ("2019-20", "math"), ("2020-21", "art")] 2020 "math" =
    some "2019-20" ∧ findArea [("2018-19", "math")] 2017 "math" = none := by decide +kernel

/-- **C43** (beside years): folders are compared as names, so a folder of another name can
be preferred to the one of its year. -/
theorem C43_other_folder_preferred :
    findArea [("2018-19", "math"), ("2018-19-draft", "math")] 2019 "math" = some "2018-19-draft" := by decide +kernel

end Dp
