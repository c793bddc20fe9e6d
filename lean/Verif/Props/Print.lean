import Verif.Model.Print
import Verif.Props.FoundArea
import Verif.Props.MeansArea
import Mathlib.Data.List.Forall2

/-
The printed report: what it shows of a result, and the table of claimed courses.
-/
namespace Dp

/-! ### The table of claimed courses -/

theorem addKeyed_keys {t : List (String × List Path)} {c : Claim} :
    (addKeyed t c).map (·.1) = t.map (·.1) ∨ (addKeyed t c).map (·.1) = t.map (·.1) ++ [c.course.clbid] ∧
      c.course.clbid ∉ t.map (·.1) := by
  induction t with
  | nil => right; simp [addKeyed]
  | cons e t ih =>
    obtain ⟨k, ps⟩ := e
    by_cases h : k = c.course.clbid
    · left; simp [addKeyed, h]
    · simp only [addKeyed, beq_iff_eq, h, if_false, List.map_cons, List.cons_append, List.cons.injEq, true_and, List.mem_cons,
        not_or]
      rcases ih with ih | ⟨ih, hn⟩
      · exact .inl ih
      · exact .inr ⟨ih, fun h' => h h'.symm, hn⟩

/-- what the table holds once the claims `cs` have been put in -/
def KeyedFor (cs : List Claim) (t : List (String × List Path)) : Prop :=
  (t.map (·.1)).Nodup ∧ (∀ c ∈ cs, c.course.clbid ∈ t.map (·.1)) ∧
    ∀ k ps, (k, ps) ∈ t → ps ≠ [] ∧ ps = (cs.filter (fun c => c.course.clbid == k)).map (·.claimedBy)

theorem addKeyed_mem {t : List (String × List Path)} (hn : (t.map (·.1)).Nodup) {c : Claim} {k : String} {ps : List Path}
    (h : (k, ps) ∈ addKeyed t c) :
    (k ≠ c.course.clbid ∧ (k, ps) ∈ t) ∨
    (k = c.course.clbid ∧ ∃ qs, ps = qs ++ [c.claimedBy] ∧ ((k, qs) ∈ t ∨ (qs = [] ∧ k ∉ t.map (·.1)))) := by
  induction t with
  | nil =>
    simp only [addKeyed, List.mem_singleton, Prod.mk.injEq] at h
    exact .inr ⟨h.1, [], by simp [h.2], .inr ⟨rfl, by simp⟩⟩
  | cons e t ih =>
    obtain ⟨k', qs⟩ := e
    simp only [List.map_cons, List.nodup_cons] at hn
    by_cases hk : k' = c.course.clbid
    · simp only [addKeyed, hk, beq_self_eq_true, if_true, List.mem_cons, Prod.mk.injEq] at h
      rcases h with ⟨rfl, rfl⟩ | h
      · exact .inr ⟨rfl, qs, rfl, .inl (by simp [hk])⟩
      · left
        refine ⟨?_, by simp [h]⟩
        rintro rfl
        exact hn.1 (hk ▸ List.mem_map_of_mem h)
    · simp only [addKeyed, beq_iff_eq, hk, if_false, List.mem_cons] at h
      rcases h with h | h
      · cases h
        exact .inl ⟨hk, by simp⟩
      · rcases ih hn.2 h with ⟨h1, h2⟩ | ⟨h1, rs, h2, h3⟩
        · exact .inl ⟨h1, by simp [h2]⟩
        · refine .inr ⟨h1, rs, h2, ?_⟩
          rcases h3 with h3 | ⟨h3, h4⟩
          · exact .inl (by simp [h3])
          · refine .inr ⟨h3, ?_⟩
            simp only [List.map_cons, List.mem_cons, not_or]
            exact ⟨fun h' => hk (h' ▸ h1), h4⟩

theorem foldl_addKeyed {cs0 cs : List Claim} {t : List (String × List Path)} (h : KeyedFor cs0 t) :
    KeyedFor (cs0 ++ cs) (cs.foldl addKeyed t) := by
  induction cs generalizing cs0 t with
  | nil => simpa using h
  | cons c cs ih =>
    have : KeyedFor (cs0 ++ [c]) (addKeyed t c) := by
      obtain ⟨h1, h2, h3⟩ := h
      have hk := @addKeyed_keys t c
      refine ⟨?_, ?_, ?_⟩
      · rcases hk with hk | ⟨hk, hn⟩
        · rw [hk]; exact h1
        · rw [hk]
          exact List.nodup_append.2 ⟨h1, List.nodup_singleton _, fun a ha b hb h => hn (List.mem_singleton.1 hb ▸ h ▸ ha)⟩
      · have own : c.course.clbid ∈ (addKeyed t c).map (·.1) := by
          clear hk h1 h2 h3
          induction t with
          | nil => simp [addKeyed]
          | cons e t ih =>
            obtain ⟨k, ps⟩ := e
            by_cases h : k = c.course.clbid
            · simp [addKeyed, h]
            · simp only [addKeyed, beq_iff_eq, h, if_false, List.map_cons, List.mem_cons]; exact .inr ih
        intro c' hc'
        rcases List.mem_append.1 hc' with hc' | hc'
        · rcases hk with hk | ⟨hk, _⟩
          · rw [hk]; exact h2 c' hc'
          · rw [hk]; exact List.mem_append_left _ (h2 c' hc')
        · rw [List.mem_singleton.1 hc']; exact own
      · intro k ps hps
        rw [List.filter_append, List.map_append]
        rcases addKeyed_mem h1 hps with ⟨hne, hm⟩ | ⟨rfl, qs, rfl, hm⟩
        · obtain ⟨h4, h5⟩ := h3 k ps hm
          have : List.filter (fun c => c.course.clbid == k) [c] = [] := by simp [Ne.symm hne]
          exact ⟨h4, by rw [this]; simpa using h5⟩
        · have hf : List.filter (fun c' : Claim => c'.course.clbid == c.course.clbid) [c] = [c] := by simp
          refine ⟨by simp, ?_⟩
          rw [hf]
          rcases hm with hm | ⟨rfl, hm⟩
          · rw [← (h3 _ _ hm).2]; rfl
          · have : cs0.filter (fun c' => c'.course.clbid == c.course.clbid) = [] := by
              rw [List.filter_eq_nil_iff]
              intro c' hc' he
              exact hm ((beq_iff_eq.1 he) ▸ h2 c' hc')
            simp [this]
    simpa using ih this

/-- **C71.** The table of claimed courses of a result lists every class that some rule of the result was granted, and no
other, once; under it stand the paths of the rules that it was granted to, as often as it was. -/
theorem C71_claimed_courses (r : AreaResult) :
    (r.keyedClaims.map (·.1)).Nodup ∧
    (∀ c ∈ r.claims, c.failed = false → ∃ ps, (c.course.clbid, ps) ∈ r.keyedClaims ∧ c.claimedBy ∈ ps) ∧
    ∀ k ps, (k, ps) ∈ r.keyedClaims → ps ≠ [] ∧ ∀ path, ps.count path =
      (r.claims.filter (fun c => !c.failed && c.course.clbid == k && c.claimedBy == path)).length := by
  have h : KeyedFor ([] ++ (r.claims.filter (fun c => !c.failed)).insertionSort (fun a b => claimLe a b = true)) r.keyedClaims :=
    foldl_addKeyed ⟨by simp, by simp, by simp⟩
  rw [List.nil_append] at h
  obtain ⟨h1, h2, h3⟩ := h
  have hperm := List.perm_insertionSort (fun a b => claimLe a b = true) (r.claims.filter (fun c => !c.failed))
  refine ⟨h1, ?_, ?_⟩
  · intro c hc hf
    have hc' : c ∈ (r.claims.filter (fun c => !c.failed)).insertionSort (fun a b => claimLe a b = true) :=
      hperm.mem_iff.2 (List.mem_filter.2 ⟨hc, by simp [hf]⟩)
    obtain ⟨⟨k, ps⟩, he, hk⟩ := List.mem_map.1 (h2 c hc')
    cases hk
    refine ⟨ps, he, ?_⟩
    rw [(h3 _ _ he).2]
    exact List.mem_map_of_mem (List.mem_filter.2 ⟨hc', by simp⟩)
  · intro k ps he
    refine ⟨(h3 k ps he).1, fun path => ?_⟩
    rw [(h3 k ps he).2, List.count, List.countP_map, List.countP_filter, hperm.countP_eq, List.countP_filter,
      List.countP_eq_length_filter]
    congr 2
    funext c
    simp only [Function.comp]
    cases c.failed <;> cases c.course.clbid == k <;> cases c.claimedBy == path <;> rfl

theorem printClaimed_mem {S : Shows} {name : String} {tr : List Course} {t : List (String × List Path)} {ls : List String}
    (h : printClaimed S name tr t = .ok ls) {k : String} {ps : List Path} (he : (k, ps) ∈ t) {path : Path} (hp : path ∈ ps) :
    ∃ c, courseFor tr k = some c ∧ "  - " ++ S.label c ++ " at " ++ claimedPath (("%" ++ name) :: path) ∈ ls := by
  induction t generalizing ls with
  | nil => simp at he
  | cons e t ih =>
    obtain ⟨k', qs⟩ := e
    simp only [printClaimed] at h
    split at h
    · cases h
    rename_i l hl
    split at h
    · cases h
    rename_i ls' hls
    cases h
    rcases List.mem_cons.1 he with he | he
    · cases he
      split at hl
      · split at hl
        · rename_i hemp
          rw [List.isEmpty_iff.1 hemp] at hp
          simp at hp
        · cases hl
      · rename_i c hc
        cases hl
        exact ⟨c, hc, List.mem_append_left _ (List.mem_map.2 ⟨path, hp, rfl⟩)⟩
    · obtain ⟨c, h1, h2⟩ := ih hls he
      exact ⟨c, h1, List.mem_append_right _ h2⟩

theorem courseFor_some {tr : List Course} {k : String} {c : Course} (h : courseFor tr k = some c) : c ∈ tr ∧ c.clbid = k := by
  unfold courseFor at h
  exact ⟨List.mem_reverse.1 (List.mem_of_find?_eq_some h), by simpa using List.find?_some h⟩

theorem printClaimed_from {S : Shows} {name : String} {tr : List Course} {t : List (String × List Path)} {ls : List String}
    (h : printClaimed S name tr t = .ok ls) {line : String} (hl : line ∈ ls) : ∃ k ps path c, (k, ps) ∈ t ∧ path ∈ ps ∧
      courseFor tr k = some c ∧ line = "  - " ++ S.label c ++ " at " ++ claimedPath (("%" ++ name) :: path) := by
  induction t generalizing ls with
  | nil => cases h; simp at hl
  | cons e t ih =>
    obtain ⟨k, ps⟩ := e
    simp only [printClaimed] at h
    split at h
    · cases h
    rename_i l hl'
    split at h
    · cases h
    rename_i ls' hls
    cases h
    rcases List.mem_append.1 hl with hl | hl
    · split at hl'
      · split at hl'
        · cases hl'; simp at hl
        · cases hl'
      · rename_i c hc
        cases hl'
        obtain ⟨path, hp, rfl⟩ := List.mem_map.1 hl
        exact ⟨k, ps, path, c, by simp, hp, hc, rfl⟩
    · obtain ⟨k', ps', path, c, h1, h2⟩ := ih hls hl
      exact ⟨k', ps', path, c, List.mem_cons_of_mem _ h1, h2⟩

/-- the names of the requirements that a path goes through: `%name` stands for one -/
def PathNames (path : Path) (names : List String) : Prop :=
  path.filter (fun s => s.toList.head? = some '%') = names.map ("%" ++ ·)

theorem claimedPath_names (name : String) (path : Path) : ∃ names, PathNames path names ∧
    claimedPath (("%" ++ name) :: path) = String.intercalate " > " (name :: names) := by
  have hseg : ∀ s, isReqSegment s = decide (s.toList.head? = some '%') := fun s => beq_eq_decide _ _
  have hdrop : ∀ s : String, s.toList.head? = some '%' → "%" ++ String.ofList (s.toList.drop 1) = s := by
    intro s hs
    apply String.toList_injective
    rw [String.toList_append, String.toList_ofList]
    cases hl : s.toList with
    | nil => rw [hl] at hs; cases hs
    | cons c cs => rw [hl] at hs; cases hs; simp
  have hname : isReqSegment ("%" ++ name) = true := by rw [hseg, String.toList_append]; simp
  refine ⟨(path.filter isReqSegment).map (fun s => String.ofList (s.toList.drop 1)), ?_, ?_⟩
  · unfold PathNames
    rw [List.map_map]
    simp only [← hseg]
    refine (List.map_id _).symm.trans (List.map_congr_left fun s hs => ?_)
    exact (hdrop s (by simpa [hseg] using (List.mem_filter.1 hs).2)).symm
  · unfold claimedPath
    rw [List.filter_cons_of_pos hname, List.map_cons]
    congr 2
    rw [String.toList_append]
    exact String.ofList_toList

/-- a line of the list of claimed courses: the class that the claim is of, as a course of the transcript with its class id,
at the requirements down to the rule that claimed it -/
def ClaimLine (S : Shows) (name : String) (tr : List Course) (c : Claim) (line : String) : Prop :=
  ∃ course ∈ tr, course.clbid = c.course.clbid ∧ ∃ names, PathNames c.claimedBy names ∧
    line = "  - " ++ S.label course ++ " at " ++ String.intercalate " > " (name :: names)

/-- **C71**, printed: a report of a whole result ends with a list that has a line for every class and every rule of the
result that it was granted to, and no other lines. -/
theorem C71_printed (S : Shows) (p : PrintOpts) (name : String) (a : Area) (tr : List Course) (r : AreaResult)
    (lines : List String) (h : r.report S p name a tr = .ok lines) (hp : p.onlyPath = []) :
    ∃ body claimed, lines = body ++ ["", "Claimed courses:"] ++ claimed ∧
      (∀ c ∈ r.claims, c.failed = false → ∃ line ∈ claimed, ClaimLine S name tr c line) ∧
      (∀ line ∈ claimed, ∃ c ∈ r.claims, c.failed = false ∧ ClaimLine S name tr c line) := by
  unfold AreaResult.report at h
  split at h
  · cases h
  split at h
  · cases h
  rename_i ls _
  simp only [hp, ne_eq, not_true_eq_false, if_false] at h
  split at h
  · cases h
  rename_i claimed hcl
  cases h
  obtain ⟨_, hall, hcount⟩ := C71_claimed_courses r
  refine ⟨ls, claimed, rfl, ?_, ?_⟩
  · intro c hc hf
    obtain ⟨ps, h1, h2⟩ := hall c hc hf
    obtain ⟨course, h3, h4⟩ := printClaimed_mem hcl h1 h2
    obtain ⟨names, h5, h6⟩ := claimedPath_names name c.claimedBy
    exact ⟨_, h4, course, (courseFor_some h3).1, (courseFor_some h3).2, names, h5, by rw [h6]⟩
  · intro line hl
    obtain ⟨k, ps, path, course, h1, h2, h3, rfl⟩ := printClaimed_from hcl hl
    have hpos := List.count_pos_iff.2 h2
    rw [(hcount k ps h1).2 path] at hpos
    obtain ⟨c, hc⟩ := List.exists_mem_of_length_pos hpos
    simp only [List.mem_filter, Bool.and_eq_true, Bool.not_eq_true', beq_iff_eq] at hc
    obtain ⟨hc, ⟨hf, rfl⟩, rfl⟩ := hc
    obtain ⟨names, h5, h6⟩ := claimedPath_names name c.claimedBy
    exact ⟨c, hc, hf, course, (courseFor_some h3).1, (courseFor_some h3).2, names, h5, by rw [h6]⟩

/-! ### Requirements -/

/-- a requirement of a result: its name, where it is and its status -/
structure Heading where
  name : String
  path : Path
  status : Status

mutual
/-- the requirements in a rule or result, in the order in which they are written; nothing below a requirement that is
audited by the department -/
def Node.outline : Node → List Heading
  | .course _ _ => []
  | .query _ _ => []
  | .prof _ _ _ => []
  | .count _ _ items => Node.outlineList items
  | .req s d r => ⟨d.name, d.path, (Node.req s d r).status⟩ :: if d.isAudited then [] else Node.outlineOpt r
  | .cond _ _ t f => t.outline ++ Node.outlineOpt f
/-- of the items of a count -/
def Node.outlineList : List Node → List Heading
  | [] => []
  | n :: ns => n.outline ++ Node.outlineList ns
/-- of an optional rule -/
def Node.outlineOpt : Option Node → List Heading
  | none => []
  | some n => n.outline
end

/-- the line is about this requirement: it ends with its name and its status -/
def Heading.Line (h : Heading) (line : String) : Prop :=
  ∃ pre, line = pre ++ h.status.emoji ++ " Requirement(" ++ h.name ++ ") [" ++ h.status.text ++ "]"

theorem sublistForall₂_append {α β : Type} {R : α → β → Prop} {a a' : List α} {b b' : List β} (h : List.SublistForall₂ R a b)
    (h' : List.SublistForall₂ R a' b') : List.SublistForall₂ R (a ++ a') (b ++ b') := by
  rw [List.sublistForall₂_iff] at h h' ⊢
  obtain ⟨l, h1, h2⟩ := h
  obtain ⟨l', h3, h4⟩ := h'
  exact ⟨l ++ l', List.rel_append h1 h3, h2.append h4⟩

theorem sublistForall₂_left {α β : Type} {R : α → β → Prop} {a : List α} {b : List β} (pre : List β)
    (h : List.SublistForall₂ R a b) : List.SublistForall₂ R a (pre ++ b) :=
  sublistForall₂_append (a := []) .nil h

theorem sublistForall₂_right {α β : Type} {R : α → β → Prop} {a : List α} {b : List β} (post : List β)
    (h : List.SublistForall₂ R a b) : List.SublistForall₂ R a (b ++ post) := by
  simpa using sublistForall₂_append (a' := []) (b' := post) h .nil

mutual
theorem Node.print_outline (S : Shows) (tr : List Course) : ∀ (n : Node) (p : PrintOpts) (i : Nat) (ls : List String),
    p.onlyPath = [] → n.print S p tr i = .ok ls → List.SublistForall₂ Heading.Line n.outline ls
  | .course s d, p, i, ls, _, _ => by simp only [Node.outline]; exact .nil
  | .query s d, p, i, ls, _, _ => by simp only [Node.outline]; exact .nil
  | .prof s d c, p, i, ls, _, _ => by simp only [Node.outline]; exact .nil
  | .count s d items, p, i, ls, hp, h => by
    simp only [Node.print] at h
    split at h
    · cases h
    split at h
    · cases h
    split at h
    · cases h
    rename_i ls' hls
    cases h
    exact sublistForall₂_left _ (Node.print_outlineList S tr items p _ _ _ hp hls)
  | .req s d r, p, i, ls, hp, h => by
    simp only [Node.print, hp, ne_eq, not_true_eq_false, false_and, if_false] at h
    split at h
    · cases h
    rename_i rank _
    simp only [Node.outline]
    have own : (⟨d.name, d.path, (Node.req s d r).status⟩ : Heading).Line
        (blanks i ++ rankText S p rank (reqStatus d (Node.statusOpt r)) ++ (reqStatus d (Node.statusOpt r)).emoji ++
          " Requirement(" ++ d.name ++ ") [" ++ (reqStatus d (Node.statusOpt r)).text ++ "]") := ⟨_, rfl⟩
    split at h
    · rename_i ha
      cases h
      rw [if_pos ha]
      exact sublistForall₂_append (a' := []) (sublistForall₂_left _ (.cons own .nil)) .nil
    · rename_i ha
      rw [if_neg ha]
      split at h
      · cases h
      rename_i ls' hls
      cases h
      exact sublistForall₂_append (a := [_]) (sublistForall₂_left _ (.cons own .nil))
        (Node.print_outlineOpt S tr r p _ _ hp hls)
  | .cond s d t f, p, i, ls, hp, h => by
    simp only [Node.print] at h
    split at h
    · cases h
    split at h
    · cases h
    rename_i ts ht
    split at h
    · cases h
    rename_i fs hf
    cases h
    simp only [Node.outline]
    refine sublistForall₂_append ?_ (Node.print_outlineOpt S tr f _ _ _ rfl hf)
    exact sublistForall₂_right _ (sublistForall₂_left _ (Node.print_outline S tr t _ _ _ rfl ht))
theorem Node.print_outlineList (S : Shows) (tr : List Course) : ∀ (ns : List Node) (p : PrintOpts) (i : Nat) (gap : Bool)
    (ls : List String), p.onlyPath = [] → Node.printList S p tr i gap ns = .ok ls →
    List.SublistForall₂ Heading.Line (Node.outlineList ns) ls
  | [], p, i, gap, ls, _, _ => by simp only [Node.outlineList]; exact .nil
  | n :: ns, p, i, gap, ls, hp, h => by
    simp only [Node.printList] at h
    split at h
    · cases h
    rename_i l hl
    split at h
    · cases h
    rename_i ls' hls
    cases h
    simp only [Node.outlineList]
    refine sublistForall₂_append ?_ (Node.print_outlineList S tr ns p _ _ _ hp hls)
    exact sublistForall₂_right _ (Node.print_outline S tr n p _ _ hp hl)
theorem Node.print_outlineOpt (S : Shows) (tr : List Course) : ∀ (n : Option Node) (p : PrintOpts) (i : Nat) (ls : List String),
    p.onlyPath = [] → Node.printOpt S p tr i n = .ok ls → List.SublistForall₂ Heading.Line (Node.outlineOpt n) ls
  | none, p, i, ls, _, _ => by simp only [Node.outlineOpt]; exact .nil
  | some n, p, i, ls, hp, h => Node.print_outline S tr n p i ls hp h
end

theorem report_outline {S : Shows} {p : PrintOpts} {name : String} {a : Area} {tr : List Course} {r : AreaResult}
    {lines : List String} (h : r.report S p name a tr = .ok lines) (hp : p.onlyPath = []) :
    List.SublistForall₂ Heading.Line r.result.outline lines := by
  unfold AreaResult.report at h
  split at h
  · cases h
  split at h
  · cases h
  rename_i ls hls
  simp only [hp, ne_eq, not_true_eq_false, if_false] at h
  split at h
  · cases h
  cases h
  unfold AreaResult.print at hls
  split at hls
  · cases hls
  split at hls
  · cases hls
  split at hls
  · cases hls
  rename_i ls' h1
  cases hls
  rw [List.append_assoc]
  exact sublistForall₂_right _ (sublistForall₂_left _ (Node.print_outline S tr r.result p 0 ls' hp h1))

/-- what a heading is about -/
def Heading.place (h : Heading) : String × Path := (h.name, h.path)

theorem Node.outlineList_eq (ns : List Node) : Node.outlineList ns = ns.flatMap Node.outline := by
  induction ns with
  | nil => rfl
  | cons n ns ih => simp [Node.outlineList, ih]

mutual
/-- the result of a rule has the requirements of the rule -/
theorem Node.becomes_outline {x : Ctx} {o : Orders} (ho : o.Lawful) : ∀ n : Node, (∀ m ∈ n.within, ItemsApart m) → ∀ r,
    Becomes x o n r → (r.outline.map Heading.place).Perm (n.outline.map Heading.place)
  | .course st d, ha, r, h => by
    cases h with
    | rule => exact .refl _
    | course => exact .refl _
  | .query st d, ha, r, h => by
    cases h with
    | rule => exact .refl _
    | query => exact .refl _
  | .prof st d c, ha, r, h => by
    cases h <;> exact .refl _
  | .count st d items, ha, r, h => by
    have ih := Node.becomes_outlineList (x := x) ho items (fun m hm => ha m (by simp [Node.within, hm]))
    cases h with
    | rule => exact .refl _
    | countWaived => exact .refl _
    | @count _ _ _ rs as f h1 h2 hperm has =>
      obtain ⟨hcan, hnd⟩ := ha _ (Node.self_within _)
      have hp := hperm hcan hnd
      have hpaths : rs.map Node.path = (rs.map f).map Node.path := by
        rw [List.map_map]
        exact List.map_congr_left (fun r hr => (h2 r hr).path_eq ho)
      have hfi : (rs.map f).Perm items := by
        rw [hpaths] at hp
        have hsub : ∀ i ∈ rs.map f, i ∈ items := by
          intro i hi
          obtain ⟨r, hr, rfl⟩ := List.mem_map.1 hi
          exact h1 r hr
        have hnd' : (rs.map f).Nodup := (hp.nodup_iff.2 hnd).of_map
        refine (List.perm_ext_iff_of_nodup hnd' hnd.of_map).2 (fun i => ⟨hsub i, fun hi => ?_⟩)
        obtain ⟨j, hj, hji⟩ := List.mem_map.1 (hp.mem_iff.2 (List.mem_map_of_mem hi))
        have : j = i := List.inj_on_of_nodup_map hnd (hsub j hj) hi hji
        exact this ▸ hj
      simp only [Node.outline, Node.outlineList_eq, List.map_flatMap]
      refine List.Perm.trans ?_ (hfi.flatMap_right _)
      rw [List.flatMap_map]
      exact List.Perm.flatMap_left rs (fun r hr => ih _ (h1 r hr) r (h2 r hr))
  | .req st d c, ha, r, h => by
    have ih := Node.becomes_outlineOpt (x := x) ho c (fun m hm => ha m (by simp [Node.within, hm]))
    cases h with
    | rule => exact .refl _
    | reqWaived => simp only [Node.outline, List.map_cons]; exact .refl _
    | reqNone => simp only [Node.outline, List.map_cons]; exact .refl _
    | req h =>
      simp only [Node.outline, List.map_cons]
      refine .cons _ ?_
      split
      · exact .refl _
      · exact ih _ rfl _ h
  | .cond st d t f, ha, r, h => by
    have iht := Node.becomes_outline (x := x) ho t (fun m hm => ha m (by simp [Node.within, hm]))
    have ihf := Node.becomes_outlineOpt (x := x) ho f (fun m hm => ha m (by simp [Node.within, hm]))
    cases h with
    | rule => exact .refl _
    | condTrue _ hb =>
      simp only [Node.outline, List.map_append]
      exact (iht _ hb).append_right _
    | condFalse _ hb =>
      simp only [Node.outline, List.map_append]
      exact (ihf _ rfl _ hb).append_left _
theorem Node.becomes_outlineList {x : Ctx} {o : Orders} (ho : o.Lawful) : ∀ ns : List Node,
    (∀ m ∈ Node.withinList ns, ItemsApart m) → ∀ n ∈ ns, ∀ r, Becomes x o n r →
    (r.outline.map Heading.place).Perm (n.outline.map Heading.place)
  | [], _ => by simp
  | n :: ns, ha => by
    have h1 := Node.becomes_outline (x := x) ho n (fun m hm => ha m (by simp [Node.withinList, hm]))
    have h2 := Node.becomes_outlineList (x := x) ho ns (fun m hm => ha m (by simp [Node.withinList, hm]))
    intro i hi
    rcases List.mem_cons.1 hi with rfl | hi
    · exact h1
    · exact h2 i hi
theorem Node.becomes_outlineOpt {x : Ctx} {o : Orders} (ho : o.Lawful) : ∀ c : Option Node,
    (∀ m ∈ Node.withinOpt c, ItemsApart m) → ∀ n, c = some n → ∀ r, Becomes x o n r →
    (r.outline.map Heading.place).Perm (n.outline.map Heading.place)
  | none, _ => by simp
  | some n, ha => by
    have h1 := Node.becomes_outline (x := x) ho n ha
    rintro _ h
    cases h
    exact h1
end

mutual
/-- a heading is about a requirement in the result -/
theorem Node.outline_within : ∀ n : Node, ∀ h ∈ n.outline, ∃ st d c, Node.req st d c ∈ n.within ∧
    h = ⟨d.name, d.path, (Node.req st d c).status⟩
  | .course s d, h, hh => by simp [Node.outline] at hh
  | .query s d, h, hh => by simp [Node.outline] at hh
  | .prof s d c, h, hh => by simp [Node.outline] at hh
  | .count s d items, h, hh => by
    obtain ⟨st, d, c, h1, h2⟩ := Node.outline_withinList items h hh
    exact ⟨st, d, c, by simp [Node.within, h1], h2⟩
  | .req s d r, h, hh => by
    simp only [Node.outline, List.mem_cons] at hh
    rcases hh with rfl | hh
    · exact ⟨s, d, r, Node.self_within _, rfl⟩
    · split at hh
      · simp at hh
      · obtain ⟨st, d, c, h1, h2⟩ := Node.outline_withinOpt r h hh
        exact ⟨st, d, c, by simp [Node.within, h1], h2⟩
  | .cond s d t f, h, hh => by
    simp only [Node.outline, List.mem_append] at hh
    rcases hh with hh | hh
    · obtain ⟨st, d, c, h1, h2⟩ := Node.outline_within t h hh
      exact ⟨st, d, c, by simp [Node.within, h1], h2⟩
    · obtain ⟨st, d, c, h1, h2⟩ := Node.outline_withinOpt f h hh
      exact ⟨st, d, c, by simp [Node.within, h1], h2⟩
theorem Node.outline_withinList : ∀ ns : List Node, ∀ h ∈ Node.outlineList ns, ∃ st d c, Node.req st d c ∈ Node.withinList ns ∧
    h = ⟨d.name, d.path, (Node.req st d c).status⟩
  | [], h, hh => by simp [Node.outlineList] at hh
  | n :: ns, h, hh => by
    simp only [Node.outlineList, List.mem_append] at hh
    rcases hh with hh | hh
    · obtain ⟨st, d, c, h1, h2⟩ := Node.outline_within n h hh
      exact ⟨st, d, c, by simp [Node.withinList, h1], h2⟩
    · obtain ⟨st, d, c, h1, h2⟩ := Node.outline_withinList ns h hh
      exact ⟨st, d, c, by simp [Node.withinList, h1], h2⟩
theorem Node.outline_withinOpt : ∀ n : Option Node, ∀ h ∈ Node.outlineOpt n, ∃ st d c, Node.req st d c ∈ Node.withinOpt n ∧
    h = ⟨d.name, d.path, (Node.req st d c).status⟩
  | none, h, hh => by simp [Node.outlineOpt] at hh
  | some n, h, hh => Node.outline_within n h hh
end

theorem loadArea_apart {c : Constants} {templates : List (String × TemplateCourse)} {st : Student} {es : List Exc}
    {all : Bool} {spec : Dict} {a : Area} (hload : loadArea c templates st es all spec = .ok a) (htidy : TidyText st all spec) :
    ∀ m ∈ a.result.within, ItemsApart m := by
  intro m hm
  cases m with
  | count stage d items =>
    have hitems : (items.map Node.path).Sublist (Node.count stage d items).allPaths := by
      simp only [Node.allPaths]
      exact ((Node.paths_sublist items).trans (List.sublist_append_right _ _)).cons _
    have hsub := hitems.trans (Node.within_paths _ _ hm)
    refine ⟨?_, (loadArea_nodup hload htidy).sublist hsub⟩
    intro i hi
    exact (loadArea_canonical hload _ (hsub.subset (List.mem_map_of_mem hi))).2
  | _ => trivial

/-- **C72.** A report of a whole audited solution of an area, as loaded from any text, has a line with name and status for
every requirement of the area that is not below one audited by the department, in the order of the result, and each its own;
the status is the one that the requirement has in the result.  For a major the common requirements are printed too. -/
theorem C72_every_requirement_is_printed (c : Constants) (templates : List (String × TemplateCourse)) (st : Student)
    (es : List Exc) (all : Bool) (spec : Dict) (a : Area) (hload : loadArea c templates st es all spec = .ok a)
    (htidy : TidyText st all spec) (o : Orders) (ho : o.Lawful) (s : AreaSolution) (hs : s ∈ (a.solutions o st es).items)
    (r : AreaResult) (ha : s.audit o a = .ok r) (S : Shows) (p : PrintOpts) (hp : p.onlyPath = []) (name : String)
    (tr : List Course) (lines : List String) (h : r.report S p name a tr = .ok lines) :
    List.SublistForall₂ Heading.Line r.result.outline lines ∧
    (∀ h ∈ r.result.outline, ∃ st d c, Node.req st d c ∈ r.result.within ∧ h = ⟨d.name, d.path, (Node.req st d c).status⟩) ∧
    ∃ own common : List Heading, r.result.outline = own ++ common ∧
      (own.map Heading.place).Perm (a.result.outline.map Heading.place) ∧ (a.kind ≠ "major" → common = []) ∧
      (a.kind = "major" → common.head?.map (·.path) = some ["$", "%Common Requirements"]) := by
  refine ⟨report_outline h hp, fun h hh => Node.outline_within _ h hh, ?_⟩
  obtain ⟨t, _, _, _, _, r0, hb, hr⟩ := area_outcome ho (loadArea_loaded hload).1 (loadArea_common hload).1 hs ha
  have hown := Node.becomes_outline ho a.result (loadArea_apart hload htidy) r0 hb
  rcases hr with ⟨hk, hr⟩ | ⟨hk, d, items, nm, citems, rfl, hr, _⟩
  · rw [hr]
    exact ⟨r0.outline, [], by simp, hown, fun _ => rfl, fun h => absurd h hk⟩
  · rw [hr]
    refine ⟨Node.outlineList items, Node.outlineList [
      .req .result { path := ["$", "%Common Requirements"], name := nm, inGpa := false }
        (some (.count .result { path := ["$", "%Common Requirements", ".count"], count := citems.length } citems))], ?_, hown, fun h => absurd hk h, fun _ => ?_⟩
    · simp [Node.outline, Node.outlineList_eq]
    · simp [Node.outlineList, Node.outline]

/-- **C72**, the status can be read from the line: requirements that a line is about have one status. -/
theorem C72_status_can_be_read (h h' : Heading) (line : String) (hl : h.Line line) (hl' : h'.Line line) :
    h.status = h'.status := by
  obtain ⟨pre, rfl⟩ := hl
  obtain ⟨pre', he⟩ := hl'
  have key : ∀ (x : String) (s : Status),
      ((x ++ ") [" ++ s.text ++ "]").toList.reverse.drop 1).takeWhile (· ≠ '[') = s.text.toList.reverse := by
    intro x s
    have hno : ∀ c ∈ s.text.toList.reverse, decide (c ≠ '[') = true := by cases s <;> decide
    rw [String.toList_append, String.toList_append, String.toList_append]
    show (List.drop 1 ((x.toList ++ [')', ' ', '['] ++ s.text.toList ++ [']']).reverse)).takeWhile _ = _
    rw [List.reverse_append, List.reverse_append, List.reverse_append]
    show List.takeWhile _ (s.text.toList.reverse ++ ('[' :: ([' ', ')'] ++ x.toList.reverse))) = _
    rw [List.takeWhile_append_of_pos hno]
    simp
  have h1 := (key _ h.status).symm.trans ((congrArg (fun l : String =>
    (l.toList.reverse.drop 1).takeWhile (· ≠ '[')) he).trans (key _ h'.status))
  have h2 : ∀ s s' : Status, s.text.toList.reverse = s'.text.toList.reverse → s = s' := by
    intro s s'
    cases s <;> cases s' <;> decide
  exact h2 _ _ h1

/-! ### A single requirement -/

/-- the part is the rule itself, or reached from it through counts only -/
inductive ThroughCounts : Node → Node → Prop where
  | here {n : Node} : ThroughCounts n n
  | item {s : Stage} {d : CountData} {items : List Node} {i m : Node} : i ∈ items → ThroughCounts i m →
      ThroughCounts (.count s d items) m

theorem ThroughCounts.within {n m : Node} (h : ThroughCounts n m) : ∀ k ∈ m.within, k ∈ n.within := by
  induction h with
  | here => exact fun k hk => hk
  | item hi _ ih =>
    intro k hk
    simp only [Node.within, List.mem_cons, Node.mem_withinList]
    exact .inr ⟨_, hi, ih k hk⟩

theorem ThroughCounts.becomes {x : Ctx} {o : Orders} (ho : o.Lawful) {n m : Node} (h : ThroughCounts n m) :
    (∀ k ∈ n.within, ItemsApart k) → ∀ r, Becomes x o n r → ∃ r', ThroughCounts r r' ∧ Becomes x o m r' := by
  induction h with
  | here => exact fun _ r hb => ⟨r, .here, hb⟩
  | @item s d items i m hi hm ih =>
    intro ha r hb
    have hai : ∀ k ∈ i.within, ItemsApart k := fun k hk =>
      ha k (by simp only [Node.within, List.mem_cons, Node.mem_withinList]; exact .inr ⟨_, hi, hk⟩)
    cases hb with
    | rule => exact ⟨_, .item hi hm, .rule⟩
    | countWaived => exact ⟨_, .item hi hm, .rule⟩
    | @count _ _ _ rs as f h1 h2 hperm has =>
      obtain ⟨hcan, hnd⟩ := ha _ (Node.self_within _)
      obtain ⟨r, hr, hpath⟩ := List.mem_map.1 ((hperm hcan hnd).mem_iff.2 (List.mem_map_of_mem hi))
      have : f r = i := List.inj_on_of_nodup_map hnd (h1 r hr) hi (by rw [← (h2 r hr).path_eq ho, hpath])
      obtain ⟨r', h3, h4⟩ := ih hai r (this ▸ h2 r hr)
      exact ⟨r', .item hr h3, h4⟩

/-- the paths of what is inside a requirement begin with the path of the requirement -/
def NestedPaths : Node → Prop
  | .req _ d c => ∀ q ∈ Node.allPathsOpt c, d.path <+: q
  | _ => True

theorem prep_allPaths (K : List String) (es : List Exc) (n : Node) : (prep K es n).allPaths = n.allPaths := by
  unfold prep
  rw [applyBlocks_allPaths, Node.exclude_allPaths]

theorem Built.nested {env : Env} {kids : Dict} {ems : List Dict} {p : Path} {y : Y} {o : Option Node} (h : Built env kids ems p y o)
    (K : List String) (es : List Exc) : ∀ n, o = some n → ∀ m ∈ (prep K es n).within, NestedPaths m := by
  induction h with
  | prof hk h =>
    intro n hn
    cases hn
    obtain ⟨name, c, _, _, rfl, _⟩ := loadProficiency_inv h
    rw [prep_prof]
    intro m hm
    simp only [Node.within, List.mem_cons, List.mem_map] at hm
    rcases hm with rfl | ⟨_, _, rfl⟩ <;> trivial
  | @course _ _ _ _ c hk h =>
    intro n hn
    cases hn
    obtain ⟨ks, he, _⟩ := applyBlocks_course es .rule c
    unfold prep
    rw [Node.exclude, he]
    intro m hm
    simp only [Node.within, List.mem_singleton] at hm
    subst hm
    trivial
  | @query _ _ _ d qd hk h =>
    intro n hn
    cases hn
    obtain ⟨ks, he, _⟩ := applyBlocks_query es .rule { qd with excluded := qd.excluded ++ K }
    unfold prep
    rw [Node.exclude, he]
    intro m hm
    simp only [Node.within, List.mem_singleton] at hm
    subst hm
    trivial
  | @cond kids ems p d yif b yt t f hide hk hkeys hif hb hyt hbt hbf hno hh iht ihf =>
    intro n hn
    split at hn
    · cases hn
    cases hn
    rw [prep_cond]
    intro m hm
    simp only [Node.within, List.mem_cons, List.mem_append] at hm
    rcases hm with rfl | hm | hm
    · trivial
    · exact iht t rfl m hm
    · cases f with
      | none => simp [Node.withinOpt] at hm
      | some f' =>
        cases ho : Dict.opt d "$else" with
        | none => have := hno ho; cases this
        | some yf => exact ihf yf ho f' rfl m hm
  | @count kids ems p d kids' listed expanded emItems inserts audits atMost cnt parts hk hkeys hlist hexp hem hins haud hat hparts
      hall hcnt h0 hle ih =>
    intro n hn
    cases hn
    rw [prep_count]
    intro m hm
    simp only [Node.within, List.mem_cons] at hm
    rcases hm with rfl | hm
    · trivial
    · obtain ⟨n, hn, hm⟩ := Node.mem_withinList.1 hm
      obtain ⟨n0, hn0, rfl⟩ := List.mem_map.1 hn
      obtain ⟨⟨y, o⟩, ht, ho⟩ := List.mem_filterMap.1 hn0
      dsimp only at ho
      subst ho
      obtain ⟨i, hi⟩ := List.mem_iff_getElem?.1 ht
      exact ih i y _ hi n0 rfl m hm
  | @req kids ems p d name body rd r' hr hkeys hnone hsome hbr hex hpath hname hov hor hws haud hcon hig hdj ih =>
    intro n hn
    cases hn
    rw [prep_req]
    intro m hm
    have hch : ∀ n, r' = some n → ∃ yr own, Dict.opt body "result" = some yr ∧ body.dict "requirements" = .ok own := by
      rintro n rfl
      cases hres : Dict.opt body "result" with
      | none => have := hnone hres; cases this
      | some yr =>
        obtain ⟨own, hown, _⟩ := hex yr hres
        exact ⟨yr, own, rfl, hown⟩
    simp only [Node.within, List.mem_cons] at hm
    rcases hm with rfl | hm
    · intro q hq
      cases r' with
      | none => simp [Node.allPathsOpt] at hq
      | some n =>
        obtain ⟨yr, own, h1, h2⟩ := hch n rfl
        simp only [Option.map_some, Node.allPathsOpt, prep_allPaths] at hq
        obtain ⟨s, t, rfl, _⟩ := (hbr yr own h1 h2).beneath n rfl q hq
        rw [hpath]
        exact ⟨_, rfl⟩
    · cases r' with
      | none => simp [Node.withinOpt] at hm
      | some n =>
        obtain ⟨yr, own, h1, h2⟩ := hch n rfl
        exact ih yr own h1 h2 n rfl m hm

theorem loadArea_nested {c : Constants} {templates : List (String × TemplateCourse)} {st : Student} {es : List Exc}
    {all : Bool} {spec : Dict} {a : Area} (hload : loadArea c templates st es all spec = .ok a) :
    ∀ m ∈ a.result.within, NestedPaths m := by
  obtain ⟨emphases, declared, children, data, rule, code, dept, h1, h2, h3, h4, hb, hres, _⟩ := loadArea_inv hload
  have hprep : a.result = prep ((rule.requiredCourses (loadCtx st es)).map (·.clbid)) es rule := hres
  rw [hprep]
  exact hb.nested _ es rule rfl

mutual
theorem Node.outline_paths : ∀ n : Node, ∀ h ∈ n.outline, h.path ∈ n.allPaths
  | .course s d, h, hh => by simp [Node.outline] at hh
  | .query s d, h, hh => by simp [Node.outline] at hh
  | .prof s d c, h, hh => by simp [Node.outline] at hh
  | .count s d items, h, hh => by
    simp only [Node.outline] at hh
    simp [Node.allPaths, Node.outline_pathsList items h hh]
  | .req s d r, h, hh => by
    simp only [Node.outline, List.mem_cons] at hh
    rcases hh with rfl | hh
    · simp [Node.allPaths]
    · split at hh
      · simp at hh
      · simp [Node.allPaths, Node.outline_pathsOpt r h hh]
  | .cond s d t f, h, hh => by
    simp only [Node.outline, List.mem_append] at hh
    rcases hh with hh | hh
    · simp [Node.allPaths, Node.outline_paths t h hh]
    · simp [Node.allPaths, Node.outline_pathsOpt f h hh]
theorem Node.outline_pathsList : ∀ ns : List Node, ∀ h ∈ Node.outlineList ns, h.path ∈ Node.allPathsList ns
  | [], h, hh => by simp [Node.outlineList] at hh
  | n :: ns, h, hh => by
    simp only [Node.outlineList, List.mem_append] at hh
    rcases hh with hh | hh
    · simp [Node.allPathsList, Node.outline_paths n h hh]
    · simp [Node.allPathsList, Node.outline_pathsList ns h hh]
theorem Node.outline_pathsOpt : ∀ n : Option Node, ∀ h ∈ Node.outlineOpt n, h.path ∈ Node.allPathsOpt n
  | none, h, hh => by simp [Node.outlineOpt] at hh
  | some n, h, hh => Node.outline_paths n h hh
end

theorem take_of_prefix {q p : Path} (h : q <+: p) : p.take q.length = q := by
  obtain ⟨t, rfl⟩ := h
  simp

theorem printAssertions_only (S : Shows) (tr : List Course) (p : PrintOpts) (i : Nat) (ins : List String) (as : List AnyAssertion) :
    printAssertions S { p with onlyPath := [] } tr i ins as = printAssertions S p tr i ins as := by
  induction as with
  | nil => rfl
  | cons a as ih =>
    simp only [printAssertions, ih]
    cases a <;> rfl

mutual
/-- printing with a path is printing everything, where all requirements are at or below the path -/
theorem Node.print_below (S : Shows) (tr : List Course) (p : PrintOpts) : ∀ (n : Node) (i : Nat),
    (∀ h ∈ n.outline, p.onlyPath <+: h.path) → n.print S p tr i = n.print S { p with onlyPath := [] } tr i
  | .course s d, i, _ => rfl
  | .query s d, i, _ => by
    simp only [Node.print, printQuery, printAssertions_only S tr p]
    rfl
  | .prof s d c, i, _ => rfl
  | .count s d items, i, h => by
    simp only [Node.outline] at h
    simp only [Node.print, Node.print_belowList S tr p items _ _ h, printCountHead, printAssertions_only S tr p]
    rfl
  | .req s d r, i, h => by
    simp only [Node.outline, List.mem_cons, forall_eq_or_imp] at h
    have h1 : ¬ (p.onlyPath ≠ [] ∧ d.path.take p.onlyPath.length ≠ p.onlyPath) := fun h' => h'.2 (take_of_prefix h.1)
    simp only [Node.print, if_neg h1]
    by_cases ha : d.isAudited = true
    · simp [ha]; rfl
    · have h2 := h.2
      rw [if_neg ha] at h2
      simp [ha, Node.print_belowOpt S tr p r _ h2]; rfl
  | .cond s d t f, i, _ => rfl
theorem Node.print_belowList (S : Shows) (tr : List Course) (p : PrintOpts) : ∀ (ns : List Node) (i : Nat) (gap : Bool),
    (∀ h ∈ Node.outlineList ns, p.onlyPath <+: h.path) →
    Node.printList S p tr i gap ns = Node.printList S { p with onlyPath := [] } tr i gap ns
  | [], i, gap, _ => rfl
  | n :: ns, i, gap, h => by
    simp only [Node.outlineList, List.mem_append] at h
    simp only [Node.printList, Node.print_below S tr p n i (fun x hx => h x (.inl hx)),
      Node.print_belowList S tr p ns i gap (fun x hx => h x (.inr hx))]
theorem Node.print_belowOpt (S : Shows) (tr : List Course) (p : PrintOpts) : ∀ (n : Option Node) (i : Nat),
    (∀ h ∈ Node.outlineOpt n, p.onlyPath <+: h.path) →
    Node.printOpt S p tr i n = Node.printOpt S { p with onlyPath := [] } tr i n
  | none, _, _ => rfl
  | some n, i, h => Node.print_below S tr p n i h
end

theorem printList_mem {S : Shows} {tr : List Course} {p : PrintOpts} {i : Nat} {gap : Bool} {ns : List Node} {ls : List String}
    (h : Node.printList S p tr i gap ns = .ok ls) {n : Node} (hn : n ∈ ns) : ∃ l, n.print S p tr i = .ok l ∧ l <:+: ls := by
  induction ns generalizing ls with
  | nil => simp at hn
  | cons m ns ih =>
    simp only [Node.printList] at h
    split at h
    · cases h
    rename_i l hl
    split at h
    · cases h
    rename_i ls' hls
    cases h
    rcases List.mem_cons.1 hn with rfl | hn
    · exact ⟨l, hl, [], (if gap && !ns.isEmpty then [""] else []) ++ ls', by simp⟩
    · obtain ⟨k, h1, h2⟩ := ih hls hn
      exact ⟨k, h1, h2.trans (List.suffix_append _ _).isInfix⟩

theorem ThroughCounts.print {S : Shows} {tr : List Course} {p : PrintOpts} {n m : Node} (h : ThroughCounts n m) :
    ∀ {i : Nat} {ls : List String}, n.print S p tr i = .ok ls → ∃ j l, m.print S p tr j = .ok l ∧ l <:+: ls := by
  induction h with
  | here => exact fun {i ls} h => ⟨i, ls, h, List.infix_refl _⟩
  | item hi _ ih =>
    intro i ls h
    simp only [Node.print] at h
    split at h
    · cases h
    split at h
    · cases h
    split at h
    · cases h
    rename_i ls' hls
    cases h
    obtain ⟨l, h1, h2⟩ := printList_mem hls hi
    obtain ⟨j, k, h3, h4⟩ := ih h1
    exact ⟨j, k, h3, (h4.trans h2).trans (List.suffix_append _ _).isInfix⟩

theorem report_infix {S : Shows} {p : PrintOpts} {name : String} {a : Area} {tr : List Course} {r : AreaResult}
    {lines : List String} (h : r.report S p name a tr = .ok lines) : ∃ ls, r.result.print S p tr 0 = .ok ls ∧ ls <:+: lines := by
  have key : ∀ l, r.print S p name a tr = .ok l → ∃ ls, r.result.print S p tr 0 = .ok ls ∧ ls <:+: l := by
    intro l hls
    unfold AreaResult.print at hls
    split at hls
    · cases hls
    split at hls
    · cases hls
    split at hls
    · cases hls
    rename_i ls' h1
    cases hls
    exact ⟨ls', h1, (List.suffix_append _ _).isInfix⟩
  unfold AreaResult.report at h
  split at h
  · cases h
  split at h
  · cases h
  rename_i ls hls
  obtain ⟨l, h1, h2⟩ := key ls hls
  refine ⟨l, h1, ?_⟩
  split at h
  · cases h; exact h2
  split at h
  · cases h
  cases h
  rw [List.append_assoc]
  exact h2.trans (List.prefix_append _ _).isInfix

/-- **C73**, partial.  A report of an audited solution that is asked to show only the requirement with a given path shows
that requirement, just as a report of everything shows it, with a line for each requirement inside it - if the requirement
is reached through counts only, that is, it does not stand inside another requirement or a conditional.
(`C73_nested_requirement_refuted` shows that a requirement inside another one is not printed.) -/
theorem C73_requirement_by_path_partial (c : Constants) (templates : List (String × TemplateCourse)) (st : Student)
    (es : List Exc) (all : Bool) (spec : Dict) (a : Area) (hload : loadArea c templates st es all spec = .ok a)
    (htidy : TidyText st all spec) (o : Orders) (ho : o.Lawful) (s : AreaSolution) (hs : s ∈ (a.solutions o st es).items)
    (r : AreaResult) (ha : s.audit o a = .ok r) (stage : Stage) (d : ReqData) (child : Option Node)
    (hreq : ThroughCounts a.result (.req stage d child)) (S : Shows) (p : PrintOpts) (hp : p.onlyPath = d.path) (name : String)
    (tr : List Course) (lines : List String) (h : r.report S p name a tr = .ok lines) :
    ∃ (m : Node) (indent : Nat) (ls : List String), ThroughCounts r.result m ∧ m.path = d.path ∧
      m.print S { p with onlyPath := [] } tr indent = .ok ls ∧ ls <:+: lines ∧
      List.SublistForall₂ Heading.Line m.outline ls ∧
      (m.outline.map Heading.place).Perm ((Node.req stage d child).outline.map Heading.place) := by
  obtain ⟨t, _, _, _, _, r0, hb, hr⟩ := area_outcome ho (loadArea_loaded hload).1 (loadArea_common hload).1 hs ha
  have hapart := loadArea_apart hload htidy
  obtain ⟨m, h1, h2⟩ := hreq.becomes ho hapart r0 hb
  have hperm := Node.becomes_outline ho _ (fun k hk => hapart k (hreq.within k hk)) m h2
  have hm : ThroughCounts r.result m := by
    rcases hr with ⟨_, hr⟩ | ⟨_, d', items, nm, citems, rfl, hr, _⟩
    · rw [hr]; exact h1
    · rw [hr]
      cases h1 with
      | here => cases h2
      | item hi h3 => exact .item (List.mem_append_left _ hi) h3
  obtain ⟨l, h3, h4⟩ := report_infix h
  obtain ⟨j, k, h5, h6⟩ := hm.print h3
  have hbelow : ∀ x ∈ m.outline, p.onlyPath <+: x.path := by
    intro x hx
    obtain ⟨y, hy, hxy⟩ := List.mem_map.1 (hperm.mem_iff.1 (List.mem_map_of_mem hx))
    have hxp : y.path = x.path := congrArg Prod.snd hxy
    rw [hp, ← hxp]
    simp only [Node.outline, List.mem_cons] at hy
    rcases hy with rfl | hy
    · exact List.prefix_refl _
    · split at hy
      · simp at hy
      · exact loadArea_nested hload _ (hreq.within _ (Node.self_within _)) _ (Node.outline_pathsOpt _ _ hy)
  rw [Node.print_below S tr p m j hbelow] at h5
  exact ⟨m, j, k, hm, h2.path_eq ho, h5, h6.trans h4, Node.print_outline S tr m _ j k rfl h5, hperm⟩

/-! ### Cases -/

/-- a plain way to write things -/
def plainShows : Shows where
  rank _ := "_"
  number _ := "_"
  path p := String.intercalate "/" p
  quoted s := s
  comparison l := l.key
  filterCondition _ := "_"
  ruleCondition _ := "_"
  assertionCondition _ := "_"
  assertion a := a.key
  resolvedItems _ := "_"
  course c := c.identity
  verbose c := c.identity
  failure c := c.identity
  label c := c.identity
  classNumber k := some k

/-- the reports of the audited solutions of an area -/
def reportsOf (st : Student) (es : List Exc) (spec : Dict) (p : PrintOpts) : List (Option (List String)) :=
  match loadArea {} [] st es false spec with
  | .error _ => []
  | .ok a => (a.solutions .insertion st es).items.map (fun s => match s.audit .insertion a with
    | .error _ => none
    | .ok r => (r.report plainShows p "Area" a st.courses).toOption)

/-- a report of everything, without paths and ranks -/
def bareOpts : PrintOpts := { showPaths := false, showRanks := false }

/-- Case for C71 and C72: the third solution of `satisfiedText` for the classes of `sampleTaken`, printed. -/
example : (reportsOf sampleTaken [] satisfiedText bareOpts)[2]? = some (some
    ["Area audit status: done. (rank _ of _; gpa: _)", "", "💚 both of (these 2) (ok: 2; need: 2)",
      "    💚 Requirement(Core) [done]", "        💚 both of (these 2) (ok: 2; need: 2)", "            💚 [ ok] CSCI 121",
      "            💚 either of (these 2) (ok: 1; need: 1)", "                🌀       CSCI 221",
      "                💚 [ ok] CSCI 251", "    💚 Requirement(Electives) [done]",
      "        💚 [done] Given courses matching subject", "         Matching courses:", "            💚 [ ok] CSCI 300",
      "            💚 [ ok] CSCI 301", "         There must be:", "             - 💚 count(courses) [done]",
      "                               resolved items: _", "                               resolved courses:",
      "                                 - 💚 [ ok] CSCI 300", "                                 - 💚 [ ok] CSCI 301", "",
      "Claimed courses:", "  - CSCI 121 at Area > Core", "  - CSCI 251 at Area > Core",
      "  - CSCI 300 at Area > Electives", "  - CSCI 301 at Area > Electives"]) := by
  decide +kernel

/-- Case for C73: the electives only. -/
example : (reportsOf sampleTaken [] satisfiedText { bareOpts with onlyPath := ["$", ".count", "[1]", "%Electives"] })[0]? = some (some
    ["Area audit status: needs-more-items. (rank _ of _; gpa: _)", "", "💙 both of (these 2) (ok: 1; need: 2)",
      "    💙 Requirement(Electives) [needs-more-items]", "        💙 [needs-more-items] Given courses matching subject",
      "         Matching courses:", "            💚 [ ok] CSCI 300",
      "         Pre-claimed courses which cannot be re-claimed:", "            CSCI 251", "         There must be:",
      "             - 💙 count(courses) [needs-more-items]", "                               resolved items: _",
      "                               resolved courses:", "                                 - 💚 [ ok] CSCI 300"]) := by
  decide +kernel

/-- an area whose only requirement has a requirement of its own -/
def nestedText : Dict :=
  [("name", .str "Statistics"), ("type", .str "concentration"), ("code", .str "900"),
   ("result", .map [("requirement", .str "Core")]),
   ("requirements", .map [("Core", .map [("result", .map [("requirement", .str "Basics")]),
     ("requirements", .map [("Basics", .map [("result", .map [("course", .str "CSCI 121")])])])])])]

/-- a requirement's line ends with a bracket -/
theorem Heading.Line.last {h : Heading} {line : String} (hl : h.Line line) : line.toList.getLast? = some ']' := by
  obtain ⟨pre, rfl⟩ := hl
  have : "]".toList = [']'] := rfl
  rw [String.toList_append, this]
  exact List.getLast?_concat

/-- the reports of an area of which the part at the path is a requirement with this name -/
def reportsOfPart (st : Student) (spec : Dict) (name : String) (p : PrintOpts) : List (Option (List String)) :=
  match loadArea {} [] st [] false spec with
  | .error _ => []
  | .ok a => if a.result.outline.any (fun h => h.name == name && h.path == p.onlyPath) then
      (a.solutions .insertion st []).items.map (fun s => match s.audit .insertion a with
        | .error _ => none
        | .ok r => (r.report plainShows p "Area" a st.courses).toOption)
    else []

/-- **C73**, refuted in general: the requirement "Basics" of the requirement "Core" is asked for by its path, and the report
has no line for it. -/
theorem C73_nested_requirement_refuted : ∃ (st : Student) (spec : Dict) (a : Area) (s : AreaSolution) (r : AreaResult)
    (h : Heading) (p : PrintOpts) (lines : List String), loadArea {} [] st [] false spec = .ok a ∧ TidyText st false spec ∧
    h ∈ a.result.outline ∧ p.onlyPath = h.path ∧ s ∈ (a.solutions .insertion st []).items ∧ s.audit .insertion a = .ok r ∧
    r.report plainShows p "Area" a st.courses = .ok lines ∧
    ∀ line ∈ lines, ∀ h' : Heading, h'.name = h.name → ¬ h'.Line line := by
  have hr : reportsOfPart sampleTaken nestedText "Basics" { bareOpts with onlyPath := ["$", "%Core", "%Basics"] } =
      [some ["Area audit status: done. (rank _ of _; gpa: _)", ""]] := by decide +kernel
  unfold reportsOfPart at hr
  split at hr
  · cases hr
  rename_i a ha
  split at hr
  · rename_i hany
    obtain ⟨h, hh, hname⟩ := List.any_eq_true.1 hany
    simp only [Bool.and_eq_true, beq_iff_eq] at hname
    have hmem : some ["Area audit status: done. (rank _ of _; gpa: _)", ""] ∈
        (a.solutions .insertion sampleTaken []).items.map (fun s => match s.audit .insertion a with
        | .error _ => none
        | .ok r => (r.report plainShows { bareOpts with onlyPath := ["$", "%Core", "%Basics"] } "Area" a
            sampleTaken.courses).toOption) := by rw [hr]; simp
    obtain ⟨s, hs, hrep⟩ := List.mem_map.1 hmem
    split at hrep
    · cases hrep
    rename_i r haud
    cases hlines : r.report plainShows { bareOpts with onlyPath := ["$", "%Core", "%Basics"] } "Area" a
        sampleTaken.courses with
    | error e => rw [hlines] at hrep; cases hrep
    | ok lines =>
      rw [hlines] at hrep
      have hl : lines = ["Area audit status: done. (rank _ of _; gpa: _)", ""] := Option.some.inj hrep
      refine ⟨sampleTaken, nestedText, a, s, r, h, _, lines, ha, ⟨?_, ?_⟩, hh, hname.2.symm, hs, haud, hlines, ?_⟩
      · simp [nestedText, Y.CleanDict, Y.Clean]
      · intro emphases declared h1 h2
        have h1' : Dict.dict nestedText "emphases" = .ok [] := rfl
        rw [h1'] at h1
        cases h1
        have h2' : declaredEmphases sampleTaken [] false = .ok [] := rfl
        rw [h2'] at h2
        cases h2
        exact List.nodup_nil
      · intro line hline h' _ hl'
        have := hl'.last
        rw [hl] at hline
        simp only [List.mem_cons, List.not_mem_nil, or_false] at hline
        rcases hline with rfl | rfl
        · revert this; decide
        · revert this; decide
  · cases hr

end Dp
