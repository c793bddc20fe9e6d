import Verif.Props.MeansFound
import Verif.Props.Entry

/-
C89: which courses can be counted more than once is what the area file says.
-/
namespace Dp

/-- the text of `multicountable` lists, for courses of the name, the requirements with these names, outermost first -/
def SharedByText (spec : Dict) (course : String) (names : List String) : Prop :=
  ∃ (m : Dict) (paths : List Y), spec.get? "multicountable" = some (.map m) ∧ m.get? course = some (.list paths) ∧ Y.list (names.map .str) ∈ paths

/-- the path leads to a rule inside the requirements with these names, outermost first, and inside no other: requirements are
the segments that begin with `%` -/
def InsideExactly (p : Path) (names : List String) : Prop :=
  p.filter (fun s => s.toList.head? == some '%') = names.map (fun n => "%" ++ n)

theorem texts_of {ys : List Y} {ss : List String} (h : mapE Y.asText ys = .ok ss) : ys = ss.map .str := by
  have h' := ld_mapE h
  clear h
  induction h' with
  | nil => rfl
  | cons hab _ ih => simp only [ld_asText] at hab; simp [hab, ih]

theorem texts_to (ss : List String) : mapE Y.asText (ss.map .str) = .ok ss := by
  induction ss with
  | nil => rfl
  | cons s ss ih => simp only [List.map_cons, mapE, Y.asText, ih]; rfl

/-- how one path is written -/
def pathWritten (y : Y) (p : Path) : Prop := ∃ names : List String, y = .list (names.map .str) ∧ p = names.map (fun n => "%" ++ n)

theorem loadMulticountable_get {d : Dict} {m : Multicountable} (h : loadMulticountable d = .ok m) (k : String) :
    (d.get? k = none ∧ m.get? k = none) ∨
    ∃ ys ps, d.get? k = some (.list ys) ∧ m.get? k = some ps ∧ List.Forall₂ pathWritten ys ps := by
  have := ld_mapE h
  clear h
  induction this with
  | nil => exact .inl ⟨rfl, rfl⟩
  | @cons e r l rs hab _ ih =>
    obtain ⟨k', v⟩ := e
    simp only [ld_bind_ok, ld_asList] at hab
    obtain ⟨ys, rfl, ps, hps, hab⟩ := hab
    cases hab
    simp only [Dict.get?, Multicountable.get?]
    by_cases hk : k' = k
    · subst hk
      refine .inr ⟨ys, ps, by simp, by simp, (ld_mapE hps).imp ?_⟩
      intro y p hyp
      simp only [ld_bind_ok, ld_asList] at hyp
      obtain ⟨zs, rfl, segs, hz, hyp⟩ := hyp
      cases hyp
      exact ⟨segs, by rw [texts_of hz], rfl⟩
    · simpa [hk] using ih

theorem loadArea_multicountable {c : Constants} {templates : List (String × TemplateCourse)} {st : Student} {es : List Exc} {all : Bool}
    {spec : Dict} {a : Area} (hload : loadArea c templates st es all spec = .ok a) :
    ∃ m, spec.dict "multicountable" = .ok m ∧ loadMulticountable m = .ok a.multicountable := by
  unfold loadArea at hload
  simp only [ld_bind_ok] at hload
  obtain ⟨_, _, _, _, hload⟩ := hload
  unfold loadAreaRules at hload
  simp only [ld_bind_ok, ld_need] at hload
  obtain ⟨_, _, _, _, _, _, _, _, loaded, _, hload⟩ := hload
  cases loaded with
  | none => cases hload
  | some rule =>
    simp only [ld_bind_ok, ld_check_ok] at hload
    obtain ⟨_, _, md, h8, multi, h9, _, _, kind, h11, _, _, _, _, hload⟩ := hload
    cases hload
    exact ⟨md, h8, h9⟩

theorem marked_injective : Function.Injective (fun n : String => "%" ++ n) := by
  intro a b h
  have := congrArg String.toList h
  simp only [String.toList_append] at this
  exact String.toList_inj.1 (List.append_cancel_left this)

/-- what the loaded table says of a name is what the text says -/
theorem multicountable_written {c : Constants} {templates : List (String × TemplateCourse)} {st : Student} {es : List Exc} {all : Bool}
    {spec : Dict} {a : Area} (hload : loadArea c templates st es all spec = .ok a) (course : String) (p : Path) :
    (∃ ps, a.multicountable.get? course = some ps ∧ p ∈ ps) ↔
    ∃ names, SharedByText spec course names ∧ p = names.map (fun n => "%" ++ n) := by
  obtain ⟨m, hm, hl⟩ := loadArea_multicountable hload
  have hspec : spec.get? "multicountable" = some (.map m) ∨ m = [] := by
    unfold Dict.dict at hm
    split at hm
    · exact .inr (Except.ok.inj hm).symm
    · rename_i heq; cases hm; exact .inl heq
    · cases hm
  constructor
  · rintro ⟨ps, hps, hp⟩
    rcases loadMulticountable_get hl course with ⟨_, h⟩ | ⟨ys, ps', h1, h2, h3⟩
    · rw [h] at hps; cases hps
    · rw [h2] at hps
      cases hps
      obtain ⟨y, hy, names, rfl, rfl⟩ : ∃ y ∈ ys, pathWritten y p := by
        clear h1 h2
        induction h3 with
        | nil => cases hp
        | cons hab _ ih =>
          rcases List.mem_cons.1 hp with rfl | hp
          · exact ⟨_, List.mem_cons_self, hab⟩
          · obtain ⟨y, h1, h2⟩ := ih hp
            exact ⟨y, List.mem_cons_of_mem _ h1, h2⟩
      refine ⟨names, ⟨m, ys, ?_, h1, hy⟩, rfl⟩
      rcases hspec with h | rfl
      · exact h
      · cases h1
  · rintro ⟨names, ⟨m', paths, h1, h2, h3⟩, rfl⟩
    have hmm : m = m' := by
      rcases hspec with h | rfl
      · rw [h] at h1; cases h1; rfl
      · unfold Dict.dict at hm
        rw [h1] at hm
        exact (Except.ok.inj hm).symm
    subst hmm
    rcases loadMulticountable_get hl course with ⟨h, _⟩ | ⟨ys, ps', g1, g2, g3⟩
    · rw [h] at h2; cases h2
    · rw [g1] at h2
      cases h2
      refine ⟨ps', g2, ?_⟩
      clear g1 g2
      induction g3 with
      | nil => cases h3
      | cons hab _ ih =>
        rcases List.mem_cons.1 h3 with rfl | h3
        · obtain ⟨n', e, rfl⟩ := hab
          have : names = n' := by
            have := Y.list.inj e
            exact List.map_injective_iff.2 (fun a b h => Y.str.inj h) this
          subst this
          exact List.mem_cons_self
        · exact List.mem_cons_of_mem _ (ih h3)

/-- **C89** Whatever the rules of an area file that loads ask for, in whatever order: a request for a course by a rule that counts
for itself is refused exactly if the class was claimed before and the file does not list the names of the requirements around the
rule, outermost first, for the name of the course under `multicountable`.  (A path of no names is not listed by listing it.) -/
theorem C89_shared_as_written (c : Constants) (templates : List (String × TemplateCourse)) (st : Student) (es : List Exc) (all : Bool)
    (spec : Dict) (a : Area) (hload : loadArea c templates st es all spec = .ok a)
    (pre post : List ClaimRequest) (r : ClaimRequest) (hmode : r.allowClaimed = false) :
    ∃ cl, (runClaims a.multicountable [] (pre ++ r :: post)).1[pre.length]? = some cl ∧
      (cl.failed = true ↔ ConsumedBefore pre r.course.clbid ∧
        ¬ ∃ names, names ≠ [] ∧ SharedByText spec r.course.identity names ∧ InsideExactly r.path names) := by
  have key := multicountable_written hload r.course.identity (reqsOnly r.path)
  have hreq : ∀ names, InsideExactly r.path names ↔ reqsOnly r.path = names.map (fun n => "%" ++ n) := fun _ => Iff.rfl
  cases hg : a.multicountable.get? r.course.identity with
  | none =>
    obtain ⟨cl, h1, _, _, h2⟩ := C01_first_come_first_served a.multicountable pre post r hmode (by
      rintro ⟨ps, h⟩; rw [hg] at h; cases h)
    refine ⟨cl, h1, h2.trans ⟨fun h => ⟨h, ?_⟩, fun h => h.1⟩⟩
    rintro ⟨names, _, hs, hi⟩
    obtain ⟨ps, h, _⟩ := key.2 ⟨names, hs, (hreq _).1 hi⟩
    rw [hg] at h; cases h
  | some ps =>
    obtain ⟨cl, h1, h2⟩ := C04_multicountable_decision_partial a.multicountable pre post r ps hmode hg
    refine ⟨cl, h1, h2.trans (and_congr_right fun _ => not_congr ?_)⟩
    constructor
    · rintro ⟨h, hne⟩
      obtain ⟨names, hs, he⟩ := key.1 ⟨ps, hg, h⟩
      refine ⟨names, ?_, hs, he⟩
      rintro rfl
      exact hne he
    · rintro ⟨names, hne, hs, hi⟩
      obtain ⟨ps', h, hm⟩ := key.2 ⟨names, hs, (hreq _).1 hi⟩
      rw [hg] at h
      cases h
      refine ⟨hm, ?_⟩
      rw [(hreq _).1 hi]
      simpa using hne

open EntryText in
/-- Non-trivial case: a file that lets a course count for requirement A and for requirement B inside A, but not elsewhere. -/
example :
    let spec := area [("multicountable", .map [("CSCI 121", .list [.list [.str "A"], .list [.str "A", .str "B"]])])]
      (.map [("course", .str "CSCI 121")])
    let k : Course := { clbid := "1", identity := "CSCI 121" }
    let asked : List ClaimRequest := [⟨k, ["$", "%A", "*CSCI 121"], false⟩, ⟨k, ["$", "%A", ".count", "[0]", "%B"], false⟩,
      ⟨k, ["$", "%B"], false⟩, ⟨{ k with identity := "CSCI 125" }, ["$", "%A"], false⟩]
    (loadArea {} [] {} [] false spec).toOption.map (fun a => (runClaims a.multicountable [] asked).1.map (·.failed))
      = some [false, false, true, true] := by decide +kernel

end Dp
