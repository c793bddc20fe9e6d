import Verif.Props.Leaf

/-
What queries claim (C27).
-/
namespace Dp

theorem mem_filterItems {p : Pred} {is out : List Item} (h : filterItems p is = .ok out) (i : Item) :
    i ∈ out ↔ i ∈ is ∧ p.apply i.applyLeaf = .ok true := by
  induction is generalizing out with
  | nil => cases h; simp
  | cons a is ih =>
    unfold filterItems at h
    split at h
    · cases h
    · rename_i b hb
      split at h
      · cases h
      · rename_i rest hrest
        have ih := ih hrest
        cases h
        cases b
        · simp only [Bool.false_eq_true, if_false, ih, List.mem_cons]
          constructor
          · rintro ⟨h1, h2⟩; exact ⟨Or.inr h1, h2⟩
          · rintro ⟨rfl | h1, h2⟩
            · rw [hb] at h2; cases h2
            · exact ⟨h1, h2⟩
        · simp only [if_true, List.mem_cons, ih]
          constructor
          · rintro (rfl | ⟨h1, h2⟩)
            · exact ⟨Or.inl rfl, hb⟩
            · exact ⟨Or.inr h1, h2⟩
          · rintro ⟨rfl | h1, h2⟩
            · exact Or.inl rfl
            · exact Or.inr ⟨h1, h2⟩

theorem filterItems_sublist {p : Pred} {is out : List Item} (h : filterItems p is = .ok out) :
    out.Sublist is := by
  induction is generalizing out with
  | nil => cases h; exact .slnil
  | cons a is ih =>
    unfold filterItems at h
    split at h
    · cases h
    · split at h
      · cases h
      · rename_i b _ _ rest hrest
        cases h
        cases b
        · exact (ih hrest).cons _
        · exact (ih hrest).cons_cons _

theorem itemCourses_eq {is : List Item} {cs : List Course} (h : itemCourses is = .ok cs) :
    is = cs.map Item.course := by
  induction is generalizing cs with
  | nil => cases h; rfl
  | cons i is ih =>
    unfold itemCourses at h
    split at h
    · rename_i he; cases he
    · rename_i c rest he
      cases he
      split at h
      · cases h
      · rename_i cs' hcs
        cases h
        rw [ih hcs]; rfl
    · cases h

/-- the insertions at the rule's path, of classes that are not excluded -/
def InsertedAt (x : Ctx) (d : QueryData) (forced : Bool) (k : String) : Prop :=
  ∃ e ∈ getInsertExceptions x.exceptions d.path, e.kind = .insertion k forced ∧ k ∉ d.excluded

theorem queryInsert_spec {x : Ctx} (hx : x.ForcedOk) {d : QueryData} {es : List Exc} {acc f : Filtered}
    (h : queryInsert x d es acc = .ok f)
    (hes : ∀ e ∈ es, e ∈ getInsertExceptions x.exceptions d.path)
    (P : Item → Prop)
    (h1 : ∀ i ∈ acc.data, P i ∨ ∃ c b, i = .course c ∧ InsertedAt x d b c.clbid)
    (h2 : ∀ k ∈ acc.inserted, ∃ b, InsertedAt x d b k)
    (h3 : ∀ k ∈ acc.forceInserted, InsertedAt x d true k) :
    (∀ i ∈ f.data, P i ∨ ∃ c b, i = .course c ∧ InsertedAt x d b c.clbid) ∧
    (∀ k ∈ f.inserted, ∃ b, InsertedAt x d b k) ∧
    (∀ k ∈ f.forceInserted, InsertedAt x d true k) := by
  induction es generalizing acc with
  | nil => cases h; exact ⟨h1, h2, h3⟩
  | cons e es ih =>
    have hes' : ∀ e ∈ es, e ∈ getInsertExceptions x.exceptions d.path :=
      fun e' he' => hes e' (List.mem_cons_of_mem _ he')
    have he := hes e List.mem_cons_self
    unfold queryInsert at h
    split at h
    · rename_i k fo hk
      split at h
      · exact ih h hes' h1 h2 h3
      · rename_i hex
        have hex : k ∉ d.excluded := by simpa using hex
        have hat : InsertedAt x d fo k := ⟨e, he, hk, hex⟩
        have hins : ∀ k' ∈ acc.inserted ++ [k], ∃ b, InsertedAt x d b k' := by
          intro k' hk'
          rcases List.mem_append.1 hk' with h | h
          · exact h2 _ h
          · rw [List.mem_singleton] at h; subst h; exact ⟨_, hat⟩
        split at h
        · rename_i hfo
          subst hfo
          split at h
          · cases h
          · rename_i c hc
            obtain ⟨hck, _⟩ := forcedCourseByClbid_ok hx hc
            refine ih h hes' ?_ hins ?_
            · intro i hi
              rcases List.mem_append.1 hi with h | h
              · exact h1 _ h
              · rw [List.mem_singleton] at h; subst h
                exact Or.inr ⟨c, true, rfl, hck ▸ hat⟩
            · intro k' hk'
              rcases List.mem_append.1 hk' with h | h
              · exact h3 _ h
              · rw [List.mem_singleton] at h; subst h; exact hat
        · refine ih h hes' ?_ hins h3
          intro i hi
          rcases List.mem_append.1 hi with h | h
          · exact h1 _ h
          · simp only [List.mem_map, Option.mem_toList] at h
            obtain ⟨c, hc, rfl⟩ := h
            obtain ⟨_, hck⟩ := findCourseByClbid_some hc
            exact Or.inr ⟨c, fo, rfl, hck ▸ hat⟩
    · exact ih h hes' h1 h2 h3

/-- what the filtered data of a query are -/
theorem queryFiltered_spec {x : Ctx} (hx : x.ForcedOk) {d : QueryData} {f : Filtered}
    (h : queryFiltered x d = .ok f) :
    (∀ i ∈ f.data, (i ∈ queryData x d ∧ ∀ p, d.where' = some p → p.apply i.applyLeaf = .ok true) ∨
      ∃ c b, i = .course c ∧ InsertedAt x d b c.clbid) ∧
    (∀ k ∈ f.inserted, ∃ b, InsertedAt x d b k) ∧
    (∀ k ∈ f.forceInserted, InsertedAt x d true k) := by
  unfold queryFiltered at h
  dsimp only at h
  split at h
  · cases h
  · rename_i data hdata
    have hd : ∀ i ∈ data, i ∈ queryData x d ∧ ∀ p, d.where' = some p → p.apply i.applyLeaf = .ok true := by
      intro i hi
      split at hdata
      · rename_i p hp
        obtain ⟨h1, h2⟩ := (mem_filterItems hdata i).1 hi
        refine ⟨h1, fun p' hp' => ?_⟩
        rw [hp] at hp'; cases hp'; exact h2
      · rename_i hp
        cases hdata
        refine ⟨hi, fun p' hp' => ?_⟩
        rw [hp] at hp'; cases hp'
    split at h
    · exact queryInsert_spec hx h (fun _ h => h) _ (fun i hi => Or.inl (hd i hi)) (by simp) (by simp)
    · cases h
      exact ⟨fun i hi => Or.inl (hd i hi), by simp, by simp⟩

theorem allCombos_sublist {α : Type} {l c : List α} (h : c ∈ allCombos l) : c.Sublist l := by
  simp only [allCombos, List.mem_flatMap] at h
  obtain ⟨n, _, h⟩ := h
  exact (mem_combos.1 h).1

theorem iterateCourseSet_sublist {as : List AnyAssertion} {items c : List Course}
    (h : c ∈ (iterateCourseSet as items).items) : c.Sublist items := by
  unfold iterateCourseSet at h
  dsimp only at h
  split at h
  · obtain ⟨n, _, h⟩ := Gen.mem_bind h
    unfold combosInt at h
    split at h
    · simp [Gen.raise] at h
    · exact (mem_combos.1 h).1
  · split at h
    · unfold sumShortcut at h
      split at h
      · simp only [Gen.one, List.mem_singleton] at h
        subst h
        exact List.Sublist.refl _
      · exact allCombos_sublist (List.mem_filter.1 h).1
    · exact allCombos_sublist h

/-- the solutions of a query only propose its filtered data -/
theorem querySolutions_cases {x : Ctx} {o : Orders} (ho : o.Lawful) {d s : QueryData}
    (hs : s ∈ (querySolutions x o d).items) :
    (d.overridden = true ∧ s = querySolution d []) ∨
    (d.overridden = false ∧ ∃ f, queryFiltered x d = .ok f ∧ ∃ out, s = querySolution d out f.inserted f.forceInserted ∧
      (∀ i ∈ out, i ∈ f.data) ∧ (f.data.Nodup → out.Nodup)) := by
  unfold querySolutions at hs
  split at hs
  · rename_i h
    exact Or.inl ⟨h, by simpa [Gen.one] using hs⟩
  · rename_i hov
    right
    refine ⟨by simpa using hov, ?_⟩
    split at hs
    · simp [Gen.raise] at hs
    · rename_i f hf
      refine ⟨f, hf, ?_⟩
      have hfb : s ∈ (Gen.one (querySolution d [] f.inserted f.forceInserted)).items →
          ∃ out, s = querySolution d out f.inserted f.forceInserted ∧ (∀ i ∈ out, i ∈ f.data) ∧
            (f.data.Nodup → out.Nodup) := by
        intro h
        exact ⟨[], by simpa [Gen.one] using h, by simp, by simp⟩
      dsimp only at hs
      split at hs
      · exact hfb hs
      · split at hs
        · simp [Gen.raise] at hs
        · rename_i courses hc
          have hdata := itemCourses_eq hc
          rcases Gen.mem_orElse hs with hs | hs
          · obtain ⟨tr, htr, hs⟩ := Gen.mem_bind hs
            obtain ⟨hmem, hnd⟩ := C10_only_input_courses _ (ho.1 d.path) _ _ _ _ htr
            have hnd' : f.data.Nodup → tr.Nodup := by
              intro h
              rw [hdata] at h
              exact hnd (Or.inr (List.Nodup.of_map _ h))
            have hinj : Function.Injective Item.course := fun a b h => by cases h; rfl
            split at hs
            · refine ⟨tr.map .course, by simpa [Gen.one] using hs, ?_, ?_⟩
              · intro i hi
                obtain ⟨c, hc, rfl⟩ := List.mem_map.1 hi
                rw [hdata]
                exact List.mem_map_of_mem (hmem c hc)
              · intro h
                exact (hnd' h).map hinj
            · obtain ⟨combo, hcombo, rfl⟩ := Gen.mem_map.1 hs
              have hsub := iterateCourseSet_sublist hcombo
              refine ⟨_, rfl, ?_, ?_⟩
              · intro i hi
                obtain ⟨c, hc, rfl⟩ := List.mem_map.1 hi
                rw [hdata]
                refine List.mem_map_of_mem (hmem c ?_)
                rcases List.mem_append.1 hc with h | h
                · exact hsub.subset h
                · exact (List.mem_filter.1 h).1
              · intro h
                have hn := hnd' h
                refine List.Nodup.map hinj ?_
                refine List.nodup_append.2 ⟨hn.sublist hsub, hn.filter _, ?_⟩
                intro a ha b hb hab
                subst hab
                have := (List.mem_filter.1 hb).2
                simp only [Bool.and_eq_true, Bool.not_eq_true', List.contains_eq_mem,
                  decide_eq_false_iff_not] at this
                exact this.2 (List.mem_map_of_mem ha)
          · exact hfb hs
      · refine ⟨f.data, by simpa [Gen.one] using hs, fun i hi => hi, fun h => h⟩

theorem claimLoop_spec (x : Ctx) (d : QueryData) (cs : List Course) :
    ∀ (t : ClaimTable) (acc : Collected),
    ∃ l : List Claim, (claimLoop x d cs t acc).1.successful = acc.successful ++ l ∧
      (l.map (·.course)).Sublist cs ∧ ∀ c ∈ l, c.claimedBy = d.path ∧ c.failed = false := by
  induction cs with
  | nil => intro t acc; exact ⟨[], by simp [claimLoop], .slnil, by simp⟩
  | cons c cs ih =>
    intro t acc
    obtain ⟨h1, h2⟩ := makeClaim_course x.multicountable t c d.path
      (d.allowClaimed || d.forceInserted.contains c.clbid)
    simp only [claimLoop]
    split
    · obtain ⟨l, hl, hs, hp⟩ := ih (makeClaim x.multicountable t c d.path
        (d.allowClaimed || d.forceInserted.contains c.clbid)).2 _
      exact ⟨l, hl, hs.cons _, hp⟩
    · rename_i hf
      obtain ⟨l, hl, hs, hp⟩ := ih (makeClaim x.multicountable t c d.path
        (d.allowClaimed || d.forceInserted.contains c.clbid)).2 _
      refine ⟨_ :: l, by rw [hl, List.append_assoc]; rfl, ?_, ?_⟩
      · rw [List.map_cons, h1]
        exact hs.cons_cons _
      · intro cl hcl
        rcases List.mem_cons.1 hcl with rfl | hcl
        · exact ⟨h2, by simpa using hf⟩
        · exact hp cl hcl

theorem mem_forcedCourses {x : Ctx} (hx : x.ForcedOk) {ks : List String} {cs : List Course}
    (h : forcedCourses x ks = .ok cs) : cs.map (·.clbid) = ks := by
  induction ks generalizing cs with
  | nil => cases h; rfl
  | cons k ks ih =>
    unfold forcedCourses at h
    split at h
    · cases h
    · rename_i c hc
      split at h
      · cases h
      · rename_i cs' hcs
        cases h
        simp [ih hcs, (forcedCourseByClbid_ok hx hc).1]

theorem mem_allClaimed {x : Ctx} {t : ClaimTable} {cs : List Course} (h : x.allClaimed t = .ok cs) :
    (∀ c ∈ cs, c ∈ x.transcript) ∧ cs.map (·.clbid) = t.map (·.1) := by
  induction t generalizing cs with
  | nil => cases h; simp
  | cons e t ih =>
    obtain ⟨k, v⟩ := e
    unfold Ctx.allClaimed at h
    split at h
    · cases h
    · rename_i c hc
      split at h
      · cases h
      · rename_i cs' hcs
        cases h
        obtain ⟨h1, h2⟩ := ih hcs
        obtain ⟨h3, h4⟩ := findCourseByClbid_some hc
        refine ⟨?_, by simp [h2, h4]⟩
        intro c' hc'
        rcases List.mem_cons.1 hc' with rfl | h
        · exact h3
        · exact h1 _ h

theorem ClaimTable.has_iff (t : ClaimTable) (k : String) : t.has k = true ↔ k ∈ t.map (·.1) := by
  simp [ClaimTable.has]

/-- The query's source offers the course: the transcript (with the failed courses if
they are asked for), or the courses claimed so far. -/
def InSource (x : Ctx) (t : ClaimTable) (d : QueryData) (c : Course) : Prop :=
  match d.source with
  | .courses => c ∈ (if d.includeFailed then x.withFailed else x.transcript)
  | .claimed => c ∈ x.transcript ∧ t.has c.clbid = true
  | _ => False

/-- the claims of a query's result, before the exceptions are looked up in the list -/
theorem query_claims {x : Ctx} (hx : x.ForcedOk) {o : Orders} (ho : o.Lawful) {d s r : QueryData}
    (hd : d.inserted = []) {t t' : ClaimTable}
    (hs : s ∈ (querySolutions x o d).items) (ha : queryAudit x s t = .ok (r, t'))
    {cl : Claim} (hc : cl ∈ r.successful) :
    cl.failed = false ∧ cl.claimedBy = d.path ∧ cl.course.clbid ∉ d.excluded ∧
    ((InSource x t d cl.course ∧ ∀ p, d.where' = some p → p.apply (Item.course cl.course).applyLeaf = .ok true) ∨
      ∃ b, InsertedAt x d b cl.course.clbid) := by
  rcases querySolutions_cases ho hs with ⟨hov, rfl⟩ | ⟨hov, f, hf, out, rfl, hout, _⟩
  · simp only [queryAudit, querySolution, hov, if_true] at ha
    obtain ⟨rfl, rfl⟩ := Prod.mk.inj (Except.ok.inj ha)
    simp at hc
  · obtain ⟨hdata, hins, hfor⟩ := queryFiltered_spec hx hf
    -- the claim's course is among the proposed ones
    have houtc : ∀ c, d.source = .courses → Item.course c ∈ out → c.clbid ∉ d.excluded ∧
        ((InSource x t d c ∧ ∀ p, d.where' = some p → p.apply (Item.course c).applyLeaf = .ok true) ∨
          ∃ b, InsertedAt x d b c.clbid) := by
      intro c hsrc hc
      rcases hdata _ (hout _ hc) with ⟨h1, h2⟩ | ⟨c', b, he, hat⟩
      · simp only [queryData, hsrc, List.mem_map, List.mem_filter] at h1
        obtain ⟨c', ⟨h3, h4⟩, he⟩ := h1
        cases he
        refine ⟨by simpa using h4, Or.inl ⟨?_, h2⟩⟩
        simpa only [InSource, hsrc] using h3
      · cases he
        refine ⟨?_, Or.inr ⟨b, hat⟩⟩
        obtain ⟨_, _, _, h⟩ := hat
        exact h
    unfold queryAudit at ha
    rw [if_neg (by simp [querySolution, hov])] at ha
    split at ha
    · cases ha
    · rename_i col t2 hcol
      dsimp only at ha
      split at ha
      · cases ha
      · obtain ⟨rfl, rfl⟩ := Prod.mk.inj (Except.ok.inj ha)
        change cl ∈ col.successful at hc
        unfold collect at hcol
        split at hcol
        · rename_i hsrc
          have hsrc' : d.source = .courses := hsrc
          unfold collectCourses at hcol
          split at hcol
          · cases hcol
          · rename_i cs hcs
            have hcs' : out = cs.map Item.course := itemCourses_eq hcs
            have fin : cl.course ∈ cs → cl.claimedBy = d.path → cl.failed = false → _ :=
              fun h1 h2 h3 => And.intro h3 (And.intro h2 (houtc cl.course hsrc'
                (by rw [hcs']; exact List.mem_map_of_mem h1)))
            split at hcol
            · obtain ⟨l, hl, hsub, hp⟩ := claimLoop_spec x
                (querySolution d out f.inserted f.forceInserted) cs t {}
              rw [show col = (claimLoop x (querySolution d out f.inserted f.forceInserted) cs t {}).1 by
                rw [Except.ok.inj hcol], hl, List.nil_append] at hc
              exact fin (hsub.subset (List.mem_map_of_mem hc)) (hp cl hc).1 (hp cl hc).2
            · split at hcol
              · cases hcol
                simp only [recordLoop, List.mem_map] at hc
                obtain ⟨c, hc, rfl⟩ := hc
                exact fin hc rfl rfl
              · cases hcol
                simp at hc
        · rename_i hsrc
          have hsrc' : d.source = .claimed := hsrc
          unfold collectClaimed at hcol
          split at hcol
          · cases hcol
          · rename_i all hall
            obtain ⟨hall1, hall2⟩ := mem_allClaimed hall
            dsimp only at hcol
            split at hcol
            · cases hcol
            · rename_i is his
              split at hcol
              · cases hcol
              · rename_i cs hcs
                have hcs' := itemCourses_eq hcs
                split at hcol
                · cases hcol
                · rename_i ins hins'
                  have hks := mem_forcedCourses hx hins'
                  cases hcol
                  dsimp only at hc
                  split at hc
                  · simp only [recordLoop, List.mem_map] at hc
                    obtain ⟨c, hc, rfl⟩ := hc
                    refine ⟨rfl, rfl, ?_⟩
                    change c.clbid ∉ d.excluded ∧ ((InSource x t d c ∧
                      ∀ p, d.where' = some p → p.apply (Item.course c).applyLeaf = .ok true) ∨
                      ∃ b, InsertedAt x d b c.clbid)
                    rcases List.mem_append.1 hc with hc | hc
                    · obtain ⟨hc, hex⟩ := List.mem_filter.1 hc
                      have hmem : Item.course c ∈ is := by rw [hcs']; exact List.mem_map_of_mem hc
                      have hboth : Item.course c ∈ all.map Item.course ∧
                          ∀ p, d.where' = some p → p.apply (Item.course c).applyLeaf = .ok true := by
                        split at his
                        · rename_i p hp
                          obtain ⟨h1, h2⟩ := (mem_filterItems his _).1 hmem
                          refine ⟨h1, fun p' hp' => ?_⟩
                          have hp : d.where' = some p := hp
                          rw [hp] at hp'; cases hp'; exact h2
                        · rename_i hp
                          cases his
                          refine ⟨hmem, fun p' hp' => ?_⟩
                          have hp : d.where' = none := hp
                          rw [hp] at hp'; cases hp'
                      obtain ⟨c', hc', he⟩ := List.mem_map.1 hboth.1
                      cases he
                      refine ⟨by simpa [querySolution] using hex, Or.inl ⟨?_, hboth.2⟩⟩
                      simp only [InSource, hsrc']
                      refine ⟨hall1 c hc', ?_⟩
                      rw [ClaimTable.has_iff, ← hall2]
                      exact List.mem_map_of_mem hc'
                    · have hk : c.clbid ∈ f.inserted := by
                        have : c.clbid ∈ ins.map (·.clbid) := List.mem_map_of_mem hc
                        rw [hks] at this
                        simpa [querySolution, hd] using this
                      obtain ⟨b, hat⟩ := hins _ hk
                      refine ⟨?_, Or.inr ⟨b, hat⟩⟩
                      obtain ⟨_, _, _, h⟩ := hat
                      exact h
                  · simp at hc
        · cases hcol
          simp at hc

theorem insertedAt_iff {x : Ctx} {es : List Exc} (hx : x.exceptions = groupExceptions es) {d : QueryData}
    {b : Bool} {k : String} :
    InsertedAt x d b k ↔ (∃ e ∈ es, e.path = d.path ∧ e.kind = .insertion k b) ∧ k ∉ d.excluded := by
  unfold InsertedAt
  rw [hx, (C07_exact_path_first_wins es d.path).1]
  constructor
  · rintro ⟨e, he, hk, hex⟩
    simp only [List.mem_filter, Bool.and_eq_true, beq_iff_eq] at he
    exact ⟨⟨e, he.1, he.2.2, hk⟩, hex⟩
  · rintro ⟨⟨e, he, hp, hk⟩, hex⟩
    refine ⟨e, ?_, hk, hex⟩
    simp [he, hp, Exc.isInsertion, hk]

/-- **C27.** Every course claimed by the result of a query was in the query's data source
and satisfied its filter, or was inserted by an exception at that path; and it is not
excluded from the query. -/
theorem C27_claims_come_from_source_or_insertion (x : Ctx) (hx : x.ForcedOk) (o : Orders) (ho : o.Lawful)
    (es : List Exc) (hes : x.exceptions = groupExceptions es)
    (d : QueryData) (hd : d.Loaded x) (s r : Node) (t t' : ClaimTable)
    (hs : s ∈ ((Node.query .rule d).solutions x o).items) (ha : s.audit x o t = .ok (r, t'))
    (cl : Claim) (hc : cl ∈ r.claims) :
    cl.failed = false ∧ cl.claimedBy = d.path ∧ cl.course.clbid ∉ d.excluded ∧
    ((InSource x t d cl.course ∧ ∀ p, d.where' = some p → p.apply (Item.course cl.course).applyLeaf = .ok true) ∨
      ∃ e ∈ es, e.path = d.path ∧ ∃ forced, e.kind = .insertion cl.course.clbid forced) := by
  simp only [Node.solutions] at hs
  obtain ⟨sd, hsd, rfl⟩ := Gen.mem_map.1 hs
  simp only [Node.audit] at ha
  split at ha
  · cases ha
  · rename_i rd t2 hqa
    obtain ⟨rfl, rfl⟩ := Prod.mk.inj (Except.ok.inj ha)
    simp only [Node.claims, queryClaims, if_true] at hc
    obtain ⟨h1, h2, h3, h4⟩ := query_claims hx ho hd.1 hsd hqa hc
    refine ⟨h1, h2, h3, ?_⟩
    rcases h4 with h4 | ⟨b, h4⟩
    · exact Or.inl h4
    · obtain ⟨⟨e, he, hp, hk⟩, _⟩ := (insertedAt_iff hes).1 h4
      exact Or.inr ⟨e, he, hp, b, hk⟩

/-- Non-trivial case for C27: of three courses the filter lets one through, an exception
inserts another; the query claims both and not the third. -/
example :
    let a : Course := { clbid := "1", subject := "CSCI" }
    let b : Course := { clbid := "2", subject := "MATH" }
    let c : Course := { clbid := "3", subject := "ART" }
    let d : QueryData := { path := ["$", ".query"], where' := some (eqPred "subject" "CSCI") }
    let x : Ctx := { transcript := [a, b, c]
                     exceptions := groupExceptions [⟨["$", ".query"], .insertion "2" false⟩] }
    ∃ s ∈ ((Node.query .rule d).solutions x .insertion).items, ∃ r t',
      s.audit x .insertion [] = .ok (r, t') ∧ r.claims.map (·.course) = [a, b] :=
  ⟨_, List.mem_cons_of_mem _ (List.mem_cons_of_mem _ List.mem_cons_self), _, _, rfl, by decide +kernel⟩

theorem queryInsert_none {x : Ctx} {d : QueryData} {es : List Exc} (acc : Filtered)
    (h : ∀ e ∈ es, e.isInsertion = false) : queryInsert x d es acc = .ok acc := by
  induction es with
  | nil => rfl
  | cons e es ih =>
    have he := h e List.mem_cons_self
    unfold queryInsert
    split
    · rename_i hk
      simp [Exc.isInsertion, hk] at he
    · exact ih (fun e' he' => h e' (List.mem_cons_of_mem _ he'))

theorem getInsertExceptions_insertion {dd : ExcDict} {p : Path} {e : Exc} (h : e ∈ getInsertExceptions dd p) :
    e.isInsertion = true := by
  unfold getInsertExceptions at h
  split at h
  · simp at h
  · exact (List.mem_filter.1 h).2

theorem itemCourse_injective : Function.Injective Item.course := fun a b h => by cases h; rfl

/-- **C27, at most once, as far as it holds.** If no exception inserts courses at its
path, a query claims no class twice (the transcripts list every class once, C30, and
the table of claims has one entry for each class).  Missing: queries with insertions, see
`C27_refuted` and, for classes not forced in, `C37_rule_at_most_once`. -/
theorem C27_at_most_once_partial (x : Ctx) (hx : x.ForcedOk) (o : Orders) (ho : o.Lawful)
    (d : QueryData) (hd : d.Loaded x) (s r : Node) (t t' : ClaimTable)
    (hnoins : getInsertExceptions x.exceptions d.path = [])
    (hids : (x.transcript.map (·.clbid)).Nodup) (hids' : (x.withFailed.map (·.clbid)).Nodup)
    (ht : (t.map (·.1)).Nodup)
    (hs : s ∈ ((Node.query .rule d).solutions x o).items) (ha : s.audit x o t = .ok (r, t')) :
    (r.claims.map (·.course.clbid)).Nodup := by
  simp only [Node.solutions] at hs
  obtain ⟨sd, hsd, rfl⟩ := Gen.mem_map.1 hs
  simp only [Node.audit] at ha
  split at ha
  · cases ha
  rename_i rd t2 hqa
  obtain ⟨rfl, rfl⟩ := Prod.mk.inj (Except.ok.inj ha)
  simp only [Node.claims, queryClaims, if_true]
  rcases querySolutions_cases ho hsd with ⟨hov, rfl⟩ | ⟨hov, f, hf, out, rfl, hout, hnd⟩
  · simp only [queryAudit, querySolution, hov, if_true] at hqa
    obtain ⟨rfl, rfl⟩ := Prod.mk.inj (Except.ok.inj hqa)
    simp
  · have hfd : f.inserted = [] ∧ f.forceInserted = [] ∧ f.data.Sublist (queryData x d) := by
      unfold queryFiltered at hf
      dsimp only at hf
      split at hf
      · cases hf
      · rename_i data hdata
        have hsub : data.Sublist (queryData x d) := by
          split at hdata
          · exact filterItems_sublist hdata
          · cases hdata; exact List.Sublist.refl _
        rw [hnoins] at hf
        simp only [queryInsert, ite_self] at hf
        cases hf
        exact ⟨rfl, rfl, hsub⟩
    obtain ⟨hfi, hff, hfs⟩ := hfd
    unfold queryAudit at hqa
    rw [if_neg (by simp [querySolution, hov])] at hqa
    split at hqa
    · cases hqa
    rename_i col t3 hcol
    dsimp only at hqa
    split at hqa
    · cases hqa
    obtain ⟨rfl, rfl⟩ := Prod.mk.inj (Except.ok.inj hqa)
    change (col.successful.map (·.course.clbid)).Nodup
    unfold collect at hcol
    split at hcol
    · rename_i hsrc
      have hsrc' : d.source = .courses := hsrc
      -- the source lists every class once
      obtain ⟨src, hsrcnd, hq⟩ : ∃ src : List Course, (src.map (·.clbid)).Nodup ∧
          queryData x d = src.map Item.course := by
        refine ⟨(if d.includeFailed then x.withFailed else x.transcript).filter
          (fun c => !d.excluded.contains c.clbid), ?_, by simp [queryData, hsrc']⟩
        refine List.Nodup.sublist (List.Sublist.map _ List.filter_sublist) ?_
        split
        · exact hids'
        · exact hids
      have hdn : f.data.Nodup := by
        refine List.Nodup.sublist hfs ?_
        rw [hq]
        exact (List.Nodup.of_map _ hsrcnd).map itemCourse_injective
      unfold collectCourses at hcol
      split at hcol
      · cases hcol
      rename_i cs hcs
      have hcs' : out = cs.map Item.course := itemCourses_eq hcs
      have hcsn : (cs.map (·.clbid)).Nodup := by
        have h1 : cs.Nodup := by
          have := hnd hdn
          rw [hcs'] at this
          exact List.Nodup.of_map _ this
        refine List.Nodup.map_on ?_ h1
        intro a ha b hb hab
        have hin : ∀ c ∈ cs, c ∈ src := by
          intro c hc
          have := hfs.subset (hout _ (by rw [hcs']; exact List.mem_map_of_mem hc))
          rw [hq] at this
          obtain ⟨c', hc', he⟩ := List.mem_map.1 this
          cases he
          exact hc'
        exact List.inj_on_of_nodup_map hsrcnd (hin a ha) (hin b hb) hab
      split at hcol
      · obtain ⟨l, hl, hsub, hp⟩ := claimLoop_spec x
          (querySolution d out f.inserted f.forceInserted) cs t {}
        rw [show col = (claimLoop x (querySolution d out f.inserted f.forceInserted) cs t {}).1 by
          rw [Except.ok.inj hcol], hl, List.nil_append]
        have := hsub.map (·.clbid)
        rw [List.map_map] at this
        exact hcsn.sublist this
      · split at hcol
        · cases hcol
          simpa [recordLoop, makeClaim_allowed, Function.comp_def] using hcsn
        · cases hcol
          simp
    · rename_i hsrc
      unfold collectClaimed at hcol
      split at hcol
      · cases hcol
      rename_i all hall
      obtain ⟨hall1, hall2⟩ := mem_allClaimed hall
      dsimp only at hcol
      split at hcol
      · cases hcol
      rename_i is his
      have hsub : is.Sublist (all.map Item.course) := by
        split at his
        · exact filterItems_sublist his
        · cases his; exact List.Sublist.refl _
      split at hcol
      · cases hcol
      rename_i cs hcs
      have hcs' := itemCourses_eq hcs
      split at hcol
      · cases hcol
      rename_i ins hins'
      have hks := mem_forcedCourses hx hins'
      have hins0 : ins = [] := by
        simp only [querySolution, hd.1, hfi, List.append_nil, List.map_eq_nil_iff] at hks
        exact hks
      cases hcol
      dsimp only
      split
      · rw [hins0, List.append_nil]
        simp only [recordLoop, makeClaim_allowed, List.map_map, Function.comp_def]
        refine List.Nodup.sublist (List.Sublist.map _ List.filter_sublist) ?_
        have hallnd : (all.map (·.clbid)).Nodup := by rw [hall2]; exact ht
        refine List.Nodup.map_on ?_ ?_
        · intro a ha b hb hab
          have hin : ∀ c ∈ cs, c ∈ all := by
            intro c hc
            have := hsub.subset (by rw [hcs']; exact List.mem_map_of_mem hc)
            obtain ⟨c', hc', he⟩ := List.mem_map.1 this
            cases he
            exact hc'
          exact List.inj_on_of_nodup_map hallnd (hin a ha) (hin b hb) hab
        · have : is.Nodup := List.Nodup.sublist hsub ((List.Nodup.of_map _ hallnd).map itemCourse_injective)
          rw [hcs'] at this
          exact List.Nodup.of_map _ this
      · simp
    · cases hcol
      simp

/-- **C27, the second half, is false in general:** a class inserted by an exception into
a query whose filter it satisfies anyway is listed twice, and a query that allows claimed
courses claims it twice. -/
theorem C27_refuted : ∃ (x : Ctx) (d : QueryData), x.ForcedOk ∧ d.Loaded x ∧
    (x.transcript.map (·.clbid)).Nodup ∧
    ∃ s ∈ ((Node.query .rule d).solutions x .insertion).items, ∃ r t',
      s.audit x .insertion [] = .ok (r, t') ∧ r.claims.map (·.course.clbid) = ["1", "1"] := by
  refine ⟨{ transcript := [{ clbid := "1" }],
            exceptions := groupExceptions [⟨["$", ".query"], .insertion "1" false⟩] },
    { path := ["$", ".query"], allowClaimed := true }, (by intro e he; cases he),
    ⟨rfl, rfl, rfl, rfl, rfl, by decide⟩, by decide, ?_⟩
  exact ⟨_, List.mem_cons_of_mem _ (List.mem_cons_of_mem _ List.mem_cons_self), _, _, rfl, by decide +kernel⟩

end Dp
