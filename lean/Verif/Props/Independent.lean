import Verif.Props.CountRule

/-
C24: children solved on their own do not share courses.
-/
namespace Dp

/-- A course or query rule can use the course `c`: it is not excluded there, and either it
is one the rule asks for (among the courses of the transcript; a rule over claimed courses
takes nothing for itself), or an exception inserts it. -/
def CanUse (x : Ctx) (es : List Exc) (leaf : Node) (c : Course) : Prop :=
  match leaf with
  | .course _ d => c.clbid ∉ d.excluded ∧
      ((d.fromClaimed = false ∧ CourseEntitled x d c) ∨ InsertedBy es d.path c.clbid)
  | .query _ d => c.clbid ∉ d.excluded ∧ d.source = .courses ∧
      ((c ∈ (if d.includeFailed then x.withFailed else x.transcript) ∧
        ∀ p, d.where' = some p → p.apply (Item.course c).applyLeaf = .ok true) ∨
       InsertedBy es d.path c.clbid)
  | _ => False

theorem insertedBy_get {x : Ctx} {es : List Exc} (hes : x.exceptions = groupExceptions es) {p : Path} {k : String}
    (h : InsertedBy es p k) : ∃ e ∈ getInsertExceptions x.exceptions p, ∃ f, e.kind = .insertion k f := by
  obtain ⟨e, he, hp, f, hk⟩ := h
  refine ⟨e, ?_, f, hk⟩
  rw [hes, (C07_exact_path_first_wins es p).1]
  simp only [List.mem_filter, Bool.and_eq_true, beq_iff_eq]
  exact ⟨he, by simp [Exc.isInsertion, hk], hp⟩

theorem courseMatches_of {x : Ctx} (hx : (x.transcript.map (·.clbid)).Nodup) {es : List Exc}
    (hes : x.exceptions = groupExceptions es) {st : Stage} {d : CourseData} {c : Course} (hc : c ∈ x.transcript)
    (h : CanUse x es (.course st d) c) : c ∈ courseMatches x d := by
  obtain ⟨h1, h2⟩ := h
  unfold courseMatches
  rcases h2 with ⟨h2, h3⟩ | h2
  · refine List.mem_append_right _ ?_
    simp only [h2, Bool.false_eq_true, if_false, List.mem_filter]
    refine ⟨?_, by simpa using h1⟩
    unfold Ctx.findCourses
    split
    · rename_i k hk
      have := h3.byClbid k hk
      rw [← this, findCourseByClbid_of_nodup hx hc]
      simp
    · rename_i hk
      simp only [List.mem_filter]
      exact ⟨hc, filter_matches_of (h3.byFilters hk)⟩
  · refine List.mem_append_left _ ?_
    obtain ⟨e, he, f, hk⟩ := insertedBy_get hes h2
    refine List.mem_filterMap.2 ⟨c.clbid, ?_, findCourseByClbid_of_nodup hx hc⟩
    simp only [List.mem_filter]
    exact ⟨List.mem_filterMap.2 ⟨e, he, by simp [Exc.insertClbid, hk]⟩, by simpa using h1⟩

theorem queryInsert_grows {x : Ctx} {d : QueryData} {es : List Exc} {acc f : Filtered}
    (h : queryInsert x d es acc = .ok f) : ∀ i ∈ acc.data, i ∈ f.data := by
  induction es generalizing acc with
  | nil => cases h; exact fun _ h => h
  | cons e es ih =>
    unfold queryInsert at h
    repeat' split at h
    all_goals first
      | (cases h)
      | (exact ih h)
      | (intro i hi; exact ih h i (by simp [hi]))

theorem queryInsert_has {x : Ctx} (hx : (x.transcript.map (·.clbid)).Nodup) {d : QueryData} {es : List Exc}
    {acc f : Filtered} (h : queryInsert x d es acc = .ok f) {c : Course} (hc : c ∈ x.transcript)
    (hex : c.clbid ∉ d.excluded) {e : Exc} (he : e ∈ es) {b : Bool} (hk : e.kind = .insertion c.clbid b) :
    Item.course c ∈ f.data := by
  have hfind := findCourseByClbid_of_nodup hx hc
  induction es generalizing acc with
  | nil => simp at he
  | cons e' es ih =>
    rcases List.mem_cons.1 he with rfl | he
    · unfold queryInsert at h
      rw [hk] at h
      simp only at h
      rw [if_neg (by simpa using hex)] at h
      split at h
      · unfold Ctx.forcedCourseByClbid at h
        rw [hfind] at h
        exact queryInsert_grows h _ (by simp)
      · rw [hfind] at h
        exact queryInsert_grows h _ (by simp)
    · unfold queryInsert at h
      repeat' split at h
      all_goals first
        | (cases h)
        | (exact ih h he)

theorem queryMatches_of {x : Ctx} (hx : (x.transcript.map (·.clbid)).Nodup) {es : List Exc}
    (hes : x.exceptions = groupExceptions es) {st : Stage} {d : QueryData} {c : Course} (hc : c ∈ x.transcript)
    (h : CanUse x es (.query st d) c) {m : List Item} (hm : queryMatches x d = .ok m) : Item.course c ∈ m := by
  obtain ⟨h1, h2, h3⟩ := h
  unfold queryMatches at hm
  split at hm
  · cases hm
  · rename_i f hf
    cases hm
    have hgo : ∀ data, queryInsert x d (getInsertExceptions x.exceptions d.path) ⟨data, [], []⟩ = .ok f →
        ((c ∈ (if d.includeFailed then x.withFailed else x.transcript) ∧
          ∀ p, d.where' = some p → p.apply (Item.course c).applyLeaf = .ok true) → Item.course c ∈ data) →
        Item.course c ∈ f.data := by
      intro data hq hdata
      rcases h3 with h3 | h3
      · exact queryInsert_grows hq _ (hdata h3)
      · obtain ⟨e, he, b, hk⟩ := insertedBy_get hes h3
        exact queryInsert_has hx hq hc h1 he hk
    have hin : c ∈ (if d.includeFailed then x.withFailed else x.transcript) → Item.course c ∈ queryData x d := by
      intro h3
      unfold queryData
      simp only [h2]
      exact List.mem_map.2 ⟨c, List.mem_filter.2 ⟨h3, by simpa using h1⟩, rfl⟩
    unfold queryFiltered at hf
    cases hw : d.where' with
    | none =>
      simp only [hw, h2, true_or, if_true] at hf
      exact hgo _ hf (fun h => hin h.1)
    | some p =>
      simp only [hw, h2, true_or, if_true] at hf
      split at hf
      · cases hf
      · rename_i data hdata
        exact hgo _ hf (fun h => (mem_filterItems hdata _).2 ⟨hin h.1, h.2 p hw⟩)

mutual
/-- every course that a leaf in use can use is among the matches of the rule -/
theorem Node.matches_of {x : Ctx} (hx : (x.transcript.map (·.clbid)).Nodup) {es : List Exc}
    (hes : x.exceptions = groupExceptions es) {c : Course} (hc : c ∈ x.transcript) : ∀ n : Node, ∀ m,
    n.allMatches x = .ok m → ∀ leaf ∈ n.liveLeaves, CanUse x es leaf c → Item.course c ∈ m
  | .course s d, m, hm, leaf, hl, hu => by
    simp only [Node.liveLeaves, List.mem_singleton] at hl
    rw [hl] at hu
    simp only [Node.allMatches] at hm
    cases hm
    exact List.mem_map_of_mem (courseMatches_of hx hes hc hu)
  | .query s d, m, hm, leaf, hl, hu => by
    simp only [Node.liveLeaves, List.mem_singleton] at hl
    rw [hl] at hu
    simp only [Node.allMatches] at hm
    exact queryMatches_of hx hes hc hu hm
  | .count _ _ items, m, hm, leaf, hl, hu => by
    simp only [Node.liveLeaves] at hl
    simp only [Node.allMatches] at hm
    exact Node.matches_ofList hx hes hc items m hm leaf hl hu
  | .req _ _ r, m, hm, leaf, hl, hu => by
    simp only [Node.liveLeaves] at hl
    simp only [Node.allMatches] at hm
    exact Node.matches_ofOpt hx hes hc r m hm leaf hl hu
  | .cond _ d t f, m, hm, leaf, hl, hu => by
    simp only [Node.liveLeaves] at hl
    simp only [Node.allMatches] at hm
    split at hm
    · rename_i hcd
      rw [hcd] at hl
      exact Node.matches_of hx hes hc t m hm leaf hl hu
    · rename_i hcd
      rw [hcd] at hl
      exact Node.matches_ofOpt hx hes hc f m hm leaf hl hu
    · rename_i hcd
      rw [hcd] at hl
      simp at hl
  | .prof _ _ none, m, hm, leaf, hl, hu => by
    simp [Node.liveLeaves] at hl
  | .prof _ _ (some (s, d)), m, hm, leaf, hl, hu => by
    simp only [Node.liveLeaves, List.mem_singleton] at hl
    rw [hl] at hu
    simp only [Node.allMatches] at hm
    cases hm
    exact List.mem_map_of_mem (courseMatches_of hx hes hc hu)
theorem Node.matches_ofList {x : Ctx} (hx : (x.transcript.map (·.clbid)).Nodup) {es : List Exc}
    (hes : x.exceptions = groupExceptions es) {c : Course} (hc : c ∈ x.transcript) : ∀ ns : List Node, ∀ m,
    Node.listMatches x ns = .ok m → ∀ leaf ∈ Node.liveLeavesList ns, CanUse x es leaf c → Item.course c ∈ m
  | [], m, hm, leaf, hl, hu => by simp [Node.liveLeavesList] at hl
  | n :: ns, m, hm, leaf, hl, hu => by
    simp only [Node.listMatches] at hm
    split at hm
    · cases hm
    · rename_i a ha
      split at hm
      · cases hm
      · rename_i b hb
        cases hm
        simp only [Node.liveLeavesList, List.mem_append] at hl
        rcases hl with hl | hl
        · exact List.mem_append_left _ (Node.matches_of hx hes hc n a ha leaf hl hu)
        · exact List.mem_append_right _ (Node.matches_ofList hx hes hc ns b hb leaf hl hu)
theorem Node.matches_ofOpt {x : Ctx} (hx : (x.transcript.map (·.clbid)).Nodup) {es : List Exc}
    (hes : x.exceptions = groupExceptions es) {c : Course} (hc : c ∈ x.transcript) : ∀ n : Option Node, ∀ m,
    Node.optMatches x n = .ok m → ∀ leaf ∈ Node.liveLeavesOpt n, CanUse x es leaf c → Item.course c ∈ m
  | none, m, hm, leaf, hl, hu => by simp [Node.liveLeavesOpt] at hl
  | some n, m, hm, leaf, hl, hu => by
    simp only [Node.liveLeavesOpt] at hl
    simp only [Node.optMatches] at hm
    exact Node.matches_of hx hes hc n m hm leaf hl hu
end

theorem matchTable_spec {x : Ctx} {ns : List Node} {table : List (Node × List Item)}
    (h : matchTable x ns = .ok table) :
    table.map (·.1) = ns ∧ ∀ p ∈ table, p.1.allMatches x = .ok p.2 := by
  induction ns generalizing table with
  | nil => cases h; simp
  | cons n ns ih =>
    unfold matchTable at h
    split at h
    · cases h
    · rename_i m hm
      split at h
      · cases h
      · rename_i rest hrest
        cases h
        obtain ⟨h1, h2⟩ := ih hrest
        refine ⟨by simp [h1], ?_⟩
        intro p hp
        rcases List.mem_cons.1 hp with rfl | hp
        · exact hm
        · exact h2 p hp

theorem mem_pairsOf {α : Type} {l : List α} {a b : α} (ha : a ∈ l) (hb : b ∈ l) (hab : a ≠ b) :
    (a, b) ∈ pairsOf l ∨ (b, a) ∈ pairsOf l := by
  induction l with
  | nil => simp at ha
  | cons c l ih =>
    simp only [pairsOf, List.mem_append, List.mem_map, Prod.mk.injEq]
    rcases List.mem_cons.1 ha with rfl | ha'
    · rcases List.mem_cons.1 hb with rfl | hb
      · exact absurd rfl hab
      · exact Or.inl (Or.inl ⟨b, hb, rfl, rfl⟩)
    · rcases List.mem_cons.1 hb with rfl | hb
      · exact Or.inr (Or.inl ⟨a, ha', rfl, rfl⟩)
      · rcases ih ha' hb with h | h
        · exact Or.inl (Or.inr h)
        · exact Or.inr (Or.inr h)

/-- **C24, partial.** Of two different children, one of them found independent, which are
not both flagged as always disjoint, no leaves in use can use the same course of the
transcript.
Missing: children flagged `disjoint: true` are taken at their word
(`C24_disjoint_flag_refuted`). -/
theorem C24_no_shared_course_partial (x : Ctx) (hx : (x.transcript.map (·.clbid)).Nodup) (es : List Exc)
    (hes : x.exceptions = groupExceptions es) (items indep codep : List Node)
    (h : findIndependent x items = .ok (indep, codep))
    (a b : Node) (ha : a ∈ indep) (hb : b ∈ items) (hab : a.path ≠ b.path)
    (hflag : a.alwaysDisjoint = false ∨ b.alwaysDisjoint = false)
    (c : Course) (hc : c ∈ x.transcript) :
    ¬ ((∃ l ∈ a.liveLeaves, CanUse x es l c) ∧ ∃ l ∈ b.liveLeaves, CanUse x es l c) := by
  rintro ⟨⟨la, hla, hua⟩, lb, hlb, hub⟩
  obtain ⟨hsa, _⟩ := findIndependent_subset h
  have hia := hsa.subset ha
  have hib := hb
  unfold findIndependent at h
  split at h
  · cases h
  · rename_i table htable
    obtain ⟨h1, h2⟩ := matchTable_spec htable
    split at h
    · rename_i hlen
      have : items.length = 1 := by rw [← h1, List.length_map, hlen]
      match items, this with
      | [i], _ =>
        simp only [List.mem_singleton] at hia hib
        rw [hia, hib] at hab
        exact hab rfl
    · obtain ⟨rfl, rfl⟩ := Prod.mk.inj (Except.ok.inj h)
      rw [← h1] at hia hib
      obtain ⟨pa, hpa, rfl⟩ := List.mem_map.1 hia
      obtain ⟨pb, hpb, rfl⟩ := List.mem_map.1 hib
      have hma := Node.matches_of hx hes hc pa.1 pa.2 (h2 pa hpa) la hla hua
      have hmb := Node.matches_of hx hes hc pb.1 pb.2 (h2 pb hpb) lb hlb hub
      have hne : pa ≠ pb := fun e => hab (by rw [e])
      have hclash : ∀ p q : Node × List Item, (p.1.alwaysDisjoint = false ∨ q.1.alwaysDisjoint = false) →
          Item.course c ∈ p.2 → Item.course c ∈ q.2 → pairDisjoint (p, q) = false := by
        intro p q hf hp hq
        unfold pairDisjoint
        simp only [Bool.or_eq_false_iff, Bool.and_eq_false_iff]
        refine ⟨hf, ?_⟩
        rw [List.all_eq_false]
        exact ⟨_, hp, by simp [hq]⟩
      have hbad : ∀ p q : Node × List Item, (p, q) ∈ pairsOf table → pairDisjoint (p, q) = false →
          ∀ n, n = p.1 ∨ n = q.1 → (((table.map (·.1)).filter (·.neverDisjoint) ++
            ((pairsOf table).filter (fun p => !pairDisjoint p)).flatMap (fun p => [p.1.1, p.2.1])).map
              Node.path).contains n.path = true := by
        intro p q hpq hd n hn
        rw [List.contains_iff_mem]
        refine List.mem_map_of_mem (List.mem_append_right _ ?_)
        refine List.mem_flatMap.2 ⟨(p, q), List.mem_filter.2 ⟨hpq, by simp [hd]⟩, ?_⟩
        simpa using hn
      have hga := (List.mem_filter.1 ha).2
      dsimp only at hga
      rcases mem_pairsOf hpa hpb hne with hp | hp
      · rw [hbad _ _ hp (hclash _ _ hflag hma hmb) pa.1 (Or.inl rfl)] at hga
        simp at hga
      · rw [hbad _ _ hp (hclash _ _ hflag.symm hmb hma) pa.1 (Or.inr rfl)] at hga
        simp at hga

/-- The leaf takes courses from the transcript, not from those other rules have claimed. -/
def Node.OwnSource : Node → Prop
  | .course _ d => d.fromClaimed = false
  | .query _ d => d.source ≠ .claimed
  | _ => True

/-- queries over something else than courses claim nothing -/
theorem query_other_claims {x : Ctx} {o : Orders} (ho : o.Lawful) {st : Stage} {d : QueryData}
    (h1 : d.source ≠ .claimed) (h2 : ¬ d.source = .courses) {s r : Node} {t t' : ClaimTable}
    (hs : s ∈ ((Node.query st d).solutions x o).items) (ha : s.audit x o t = .ok (r, t')) (cl : Claim) :
    cl ∉ r.claims := by
  simp only [Node.solutions] at hs
  obtain ⟨sd, hsd, rfl⟩ := Gen.mem_map.1 hs
  have hsrc : sd.source = d.source := by
    rcases querySolutions_cases ho hsd with ⟨_, rfl⟩ | ⟨_, f, _, out, rfl, _⟩ <;> rfl
  simp only [Node.audit] at ha
  split at ha
  · cases ha
  · rename_i rd t2 hqa
    obtain ⟨rfl, rfl⟩ := Prod.mk.inj (Except.ok.inj ha)
    intro hcl
    simp only [Node.claims, queryClaims, if_true] at hcl
    unfold queryAudit at hqa
    split at hqa
    · obtain ⟨rfl, rfl⟩ := Prod.mk.inj (Except.ok.inj hqa)
      simp at hcl
    · split at hqa
      · cases hqa
      · rename_i col t3 hcol
        have hcs : col.successful = [] := by
          unfold collect at hcol
          rw [hsrc] at hcol
          split at hcol
          · rename_i h; exact absurd h h2
          · rename_i h; exact absurd h h1
          · cases hcol; rfl
        dsimp only at hqa
        split at hqa
        · cases hqa
        · obtain ⟨rfl, rfl⟩ := Prod.mk.inj (Except.ok.inj hqa)
          rw [hcs] at hcl
          simp at hcl

theorem claim_canUse {x : Ctx} (hf : x.ForcedOk) {es : List Exc} (hes : x.exceptions = groupExceptions es)
    {o : Orders} (ho : o.Lawful) {n : Node} (hn : n.Loaded x) (hown : ∀ l ∈ n.liveLeaves, l.OwnSource)
    {s r : Node} {t t' : ClaimTable} (hs : s ∈ (n.solutions x o).items) (ha : s.audit x o t = .ok (r, t'))
    {cl : Claim} (hcl : cl ∈ r.claims) : ∃ leaf ∈ n.liveLeaves, CanUse x es leaf cl.course := by
  refine Node.claims_of_live x o (fun cl => ∃ leaf ∈ n.liveLeaves, CanUse x es leaf cl.course) n hn ?_ s hs t t' r ha cl hcl
  intro leaf hl s hs t t' r ha cl hcl
  refine ⟨leaf, hl, ?_⟩
  have hl' := Node.liveLeaves_subset n hl
  obtain ⟨_, _, h3, h4⟩ := leaf_claims hf hes ho hl' (Node.leaves_loaded n hn leaf hl') ⟨s, hs, t, t', r, ha, hcl⟩
  have ho' := hown leaf hl
  rcases Node.leaves_kind n leaf hl' with ⟨st, d, rfl⟩ | ⟨st, d, rfl⟩
  · refine ⟨h3, ?_⟩
    rcases h4 with h4 | h4
    · exact Or.inl ⟨ho', h4⟩
    · exact Or.inr h4
  · have hsrc : d.source = .courses := by
      by_contra hsrc
      exact absurd hcl (query_other_claims ho ho' hsrc hs ha cl)
    refine ⟨h3, hsrc, ?_⟩
    rcases h4 with ⟨⟨t0, h4⟩, h5⟩ | h4
    · left
      simp only [InSource, hsrc] at h4
      exact ⟨h4, h5⟩
    · exact Or.inr h4

/-- **C24, partial**, in terms of claims: of two different children, one of them found independent, not
both flagged as always disjoint, whose leaves take courses from the transcript, no results
ever claim the same course of the transcript - whatever solutions are tried and whatever has
been claimed before. -/
theorem C24_no_shared_claim_partial (x : Ctx) (hf : x.ForcedOk) (hx : (x.transcript.map (·.clbid)).Nodup)
    (es : List Exc) (hes : x.exceptions = groupExceptions es) (o : Orders) (ho : o.Lawful)
    (items indep codep : List Node) (h : findIndependent x items = .ok (indep, codep))
    (a b : Node) (ha : a ∈ indep) (hb : b ∈ items) (hab : a.path ≠ b.path)
    (hla : a.Loaded x) (hlb : b.Loaded x) (hoa : ∀ l ∈ a.liveLeaves, l.OwnSource) (hob : ∀ l ∈ b.liveLeaves, l.OwnSource)
    (hflag : a.alwaysDisjoint = false ∨ b.alwaysDisjoint = false)
    (sa ra sb rb : Node) (ta ta' tb tb' : ClaimTable)
    (hsa : sa ∈ (a.solutions x o).items) (hra : sa.audit x o ta = .ok (ra, ta'))
    (hsb : sb ∈ (b.solutions x o).items) (hrb : sb.audit x o tb = .ok (rb, tb'))
    (ca cb : Claim) (hca : ca ∈ ra.claims) (hcb : cb ∈ rb.claims) (hct : ca.course ∈ x.transcript) :
    ca.course ≠ cb.course := by
  intro e
  refine C24_no_shared_course_partial x hx es hes items indep codep h a b ha hb hab hflag ca.course hct
    ⟨claim_canUse hf hes ho hla hoa hsa hra hca, ?_⟩
  rw [e]
  exact claim_canUse hf hes ho hlb hob hsb hrb hcb

/-- a requirement with one course rule, for the witnesses below -/
def courseReq (i name course : String) (flag : Option Bool) : Node :=
  .req .rule { path := ["$", ".count", i, "%" ++ name], name := name, disjoint := flag }
    (some (.course .rule { path := ["$", ".count", i, "%" ++ name, "*" ++ course], course := some course }))

/-- Two requirements flagged `disjoint: true` are solved on their own although both ask for
the same course, and both claim it. -/
theorem C24_disjoint_flag_refuted : ∃ (x : Ctx) (a b : Node) (c : Course),
    x.ForcedOk ∧ (x.transcript.map (·.clbid)).Nodup ∧ x.exceptions = groupExceptions [] ∧
    a.Loaded x ∧ b.Loaded x ∧ a.path ≠ b.path ∧ c ∈ x.transcript ∧
    (∃ l ∈ a.liveLeaves, CanUse x [] l c) ∧ (∃ l ∈ b.liveLeaves, CanUse x [] l c) ∧
    findIndependent x [a, b] = .ok ([a, b], []) ∧
    (findBest x .insertion a [] true).toOption.map (fun p => p.1.map (fun r => r.claims.map (·.course))) = some (some [c]) ∧
    (findBest x .insertion b [] true).toOption.map (fun p => p.1.map (fun r => r.claims.map (·.course))) = some (some [c]) := by
  let c : Course := { clbid := "7", identity := "CSCI 251" }
  have hu : ∀ i name, CanUse { transcript := [c] } []
      (.course .rule { path := ["$", ".count", i, "%" ++ name, "*" ++ "CSCI 251"], course := some "CSCI 251" }) c := by
    intro i name
    refine ⟨by simp, Or.inl ⟨rfl, ⟨by simp, by simp, fun _ => ?_, by simp, by simp, by simp⟩⟩⟩
    refine ⟨fun _ _ => rfl, by simp, ?_, by simp, by simp, by simp⟩
    intro v hv
    cases hv
    exact ⟨rfl, by simp, by simp, by simp, by simp, by simp, by simp⟩
  refine ⟨{ transcript := [c] }, courseReq "[0]" "Core" "CSCI 251" (some true),
    courseReq "[1]" "Elective" "CSCI 251" (some true), c, by intro e he; simp at he, by simp, rfl,
    ⟨rfl, rfl, ⟨rfl, rfl, rfl, rfl, rfl⟩⟩, ⟨rfl, rfl, ⟨rfl, rfl, rfl, rfl, rfl⟩⟩, by decide, by simp,
    ⟨_, List.mem_singleton.2 rfl, hu _ _⟩, ⟨_, List.mem_singleton.2 rfl, hu _ _⟩, rfl,
    by decide +kernel, by decide +kernel⟩

/-- Non-trivial case for C24: three requirements, of which the first two ask for the same
course and the third and the fourth for others; the last two are independent. -/
example :
    let x : Ctx := { transcript := [{ clbid := "7", identity := "CSCI 251" }, { clbid := "8", identity := "CSCI 253" },
                                    { clbid := "9", identity := "MATH 220" }] }
    (findIndependent x [courseReq "[0]" "A" "CSCI 251" none, courseReq "[1]" "B" "CSCI 251" none,
      courseReq "[2]" "C" "CSCI 253" none, courseReq "[3]" "D" "MATH 220" none]).toOption.map
        (fun p => (p.1.map Node.path, p.2.map Node.path)) =
      some ([["$", ".count", "[2]", "%C"], ["$", ".count", "[3]", "%D"]],
            [["$", ".count", "[0]", "%A"], ["$", ".count", "[1]", "%B"]]) := by
  decide +kernel

end Dp
