import Verif.Model.Claim

/-
Properties C01-C05 of the claim table.
-/
namespace Dp

/-! ### Helper lemmas about the table -/

theorem ClaimTable.has_append (t : ClaimTable) (k k' : String) (c : Claim) :
    (t.append k c).has k' = (t.has k' || k == k') := by
  induction t with
  | nil => simp [ClaimTable.append, ClaimTable.has]
  | cons e t ih =>
    obtain ⟨a, v⟩ := e
    unfold ClaimTable.append
    by_cases h : a = k
    · subst h
      simp only [ClaimTable.has, List.any_cons, beq_self_eq_true, if_true]
      cases (a == k') <;> simp
    · have : (a == k) = false := by simpa using h
      simp only [this]
      simp only [ClaimTable.has, List.any_cons] at ih ⊢
      simp [ih, Bool.or_assoc]

theorem ClaimTable.get_append (t : ClaimTable) (k k' : String) (c : Claim) :
    (t.append k c).get k' = if k = k' then t.get k' ++ [c] else t.get k' := by
  induction t with
  | nil =>
    by_cases h : k = k' <;> simp [ClaimTable.append, ClaimTable.get, h]
  | cons e t ih =>
    obtain ⟨a, v⟩ := e
    unfold ClaimTable.append
    by_cases h : a = k
    · subst h
      by_cases h2 : a = k' <;> simp [ClaimTable.get, h2]
    · have hb : (a == k) = false := by simpa using h
      simp only [hb]
      by_cases h2 : a = k'
      · subst h2
        have : ¬ k = a := fun e => h e.symm
        simp [ClaimTable.get, this]
      · simp [ClaimTable.get, h2, ih]

theorem ClaimTable.get_eq_nil_of_not_has (t : ClaimTable) (k : String) (h : t.has k = false) :
    t.get k = [] := by
  induction t with
  | nil => rfl
  | cons e t ih =>
    obtain ⟨a, v⟩ := e
    simp only [ClaimTable.has, List.any_cons, Bool.or_eq_false_iff] at h
    simp only [ClaimTable.get, h.1]
    exact ih h.2

/-- Tables in which every present key has at least one claim; the only ones
reachable from the empty table. -/
def ClaimTable.Ok (t : ClaimTable) : Prop := ∀ k, t.has k = true → t.get k ≠ []

theorem ClaimTable.ok_nil : ClaimTable.Ok [] := by
  intro k h; simp [ClaimTable.has] at h

theorem ClaimTable.ok_append {t : ClaimTable} (h : t.Ok) (k : String) (c : Claim) :
    (t.append k c).Ok := by
  intro k' hk'
  rw [ClaimTable.get_append]
  split
  · simp
  · rename_i hne
    rw [ClaimTable.has_append] at hk'
    have : (k == k') = false := by simpa using hne
    exact h k' (by simpa [this] using hk')

/-- What `make_claim` does, stated outright. -/
inductive ClaimOutcome (m : Multicountable) (t : ClaimTable) (course : Course) (path : Path)
    (allow : Bool) (o : Claim × ClaimTable) : Prop
  | allowed (ha : allow = true) (ho : o = (⟨course, path, false⟩, t))
  | granted (ha : allow = false) (why : t.has course.clbid = false ∨
      ∃ ps, m.get? course.identity = some ps ∧ reqsOnly path ∈ ps ∧ reqsOnly path ≠ [])
      (ho : o = (⟨course, path, false⟩, t.append course.clbid ⟨course, path, false⟩))
  | refused (ha : allow = false) (prior : t.has course.clbid = true)
      (why : ∀ ps, m.get? course.identity = some ps → reqsOnly path ∈ ps → reqsOnly path = [])
      (ho : o = (⟨course, path, true⟩, t))

theorem makeMulticountableClaim_outcome (m : Multicountable) (t : ClaimTable) (ht : t.Ok)
    (course : Course) (path : Path) (hp : t.has course.clbid = true) :
    ClaimOutcome m t course path false (makeMulticountableClaim m t course path) := by
  have hne : (t.get course.clbid).isEmpty = false := by
    simpa using ht _ hp
  unfold makeMulticountableClaim
  simp only [hne]
  cases hf : ((m.get? course.identity).getD []).find? (fun rp => rp == reqsOnly path) with
  | none =>
    refine .refused rfl hp ?_ rfl
    intro ps hps hmem
    rw [hps] at hf
    simp only [Option.getD_some, List.find?_eq_none] at hf
    exact (hf _ hmem (by simp)).elim
  | some rp =>
    have hrp : rp = reqsOnly path := by
      have := List.find?_some hf; simpa using this
    have hmem := List.mem_of_find?_eq_some hf
    subst hrp
    cases hps : m.get? course.identity with
    | none => rw [hps] at hmem; simp at hmem
    | some ps =>
      rw [hps] at hmem
      simp only [Option.getD_some] at hmem
      by_cases he : reqsOnly path = []
      · simp only [he, List.filter_nil, List.isEmpty_nil, if_true]
        exact .refused rfl hp (fun _ _ _ => he) rfl
      · have : ((reqsOnly path).filter (fun _ => !false)).isEmpty = false := by
          simpa using List.exists_mem_of_ne_nil _ he
        simp only [this]
        exact .granted rfl (.inr ⟨ps, hps, hmem, he⟩) rfl

theorem makeClaim_outcome (m : Multicountable) (t : ClaimTable) (ht : t.Ok)
    (course : Course) (path : Path) (allow : Bool) :
    ClaimOutcome m t course path allow (makeClaim m t course path allow) := by
  unfold makeClaim
  cases allow with
  | true => exact .allowed rfl rfl
  | false =>
    simp only [Bool.false_eq_true, if_false]
    cases hp : t.has course.clbid with
    | false => exact .granted rfl (.inl hp) (by simp)
    | true =>
      simp only [Bool.not_true, Bool.false_eq_true, if_false]
      cases hm : m.get? course.identity with
      | some ps =>
        simp only [Option.isSome_some, if_true]
        exact makeMulticountableClaim_outcome m t ht course path hp
      | none =>
        have hne : (t.get course.clbid).isEmpty = false := by simpa using ht _ hp
        simp only [Option.isSome_none, Bool.false_eq_true, if_false, hne, Bool.not_false, if_true]
        exact .refused rfl hp (by intro ps h; rw [hm] at h; cases h) rfl

theorem makeClaim_ok {m t} (ht : ClaimTable.Ok t) (course : Course) (path : Path) (allow : Bool) :
    (makeClaim m t course path allow).2.Ok := by
  have h := makeClaim_outcome m t ht course path allow
  cases h with
  | allowed ha ho => rw [ho]; exact ht
  | granted ha why ho => rw [ho]; exact ClaimTable.ok_append ht _ _
  | refused ha prior why ho => rw [ho]; exact ht

theorem runClaims_ok {m} (rs : List ClaimRequest) : ∀ {t}, ClaimTable.Ok t → (runClaims m t rs).2.Ok := by
  induction rs with
  | nil => intro t h; exact h
  | cons r rs ih => intro t h; exact ih (makeClaim_ok h _ _ _)

theorem runClaims_length (m) (rs : List ClaimRequest) : ∀ t, (runClaims m t rs).1.length = rs.length := by
  induction rs with
  | nil => intro t; rfl
  | cons r rs ih => intro t; simp [runClaims, ih]

theorem runClaims_append (m) (as bs : List ClaimRequest) : ∀ t,
    runClaims m t (as ++ bs) =
      ((runClaims m t as).1 ++ (runClaims m (runClaims m t as).2 bs).1,
       (runClaims m (runClaims m t as).2 bs).2) := by
  induction as with
  | nil => intro t; rfl
  | cons a as ih => intro t; simp [runClaims, ih]

/-- A clbid is in the table after a history exactly when it was there before or
a request without `allow_claimed` was made for it. -/
theorem runClaims_has (m) (rs : List ClaimRequest) (k : String) : ∀ t, ClaimTable.Ok t →
    ((runClaims m t rs).2.has k = true ↔
      t.has k = true ∨ ∃ r ∈ rs, r.allowClaimed = false ∧ r.course.clbid = k) := by
  induction rs with
  | nil => intro t _; simp [runClaims]
  | cons r rs ih =>
    intro t ht
    have hstep : (makeClaim m t r.course r.path r.allowClaimed).2.has k = true ↔
        t.has k = true ∨ (r.allowClaimed = false ∧ r.course.clbid = k) := by
      have h := makeClaim_outcome m t ht r.course r.path r.allowClaimed
      cases h with
      | allowed ha ho => rw [ho]; simp [ha]
      | granted ha why ho => rw [ho]; simp [ClaimTable.has_append, ha]
      | refused ha prior why ho =>
        rw [ho]
        constructor
        · exact Or.inl
        · rintro (h | ⟨_, rfl⟩)
          · exact h
          · exact prior
    have := ih _ (makeClaim_ok (m := m) ht r.course r.path r.allowClaimed)
    simp only [runClaims]
    rw [this, hstep]
    simp only [List.mem_cons, exists_eq_or_imp, or_assoc]

/-! ### C01: single counting, as the exact decision rule

Specification vocabulary: a *history* is a list of requests; the `i`-th
outcome is the `i`-th returned claim. -/

/-- An earlier request of the history asked to consume this clbid. -/
def ConsumedBefore (pre : List ClaimRequest) (clbid : String) : Prop :=
  ∃ r ∈ pre, r.allowClaimed = false ∧ r.course.clbid = clbid

/-- The course's name is listed under `multicountable`. -/
def Multicountable.Lists (m : Multicountable) (name : String) : Prop :=
  ∃ ps, m.get? name = some ps

/-- C01. In any history from the empty table, a request (without
`allow_claimed`) for a course that is not multicountable is refused exactly
when an earlier request of the history already consumed that class. -/
theorem C01_first_come_first_served (m : Multicountable)
    (pre post : List ClaimRequest) (r : ClaimRequest)
    (hmode : r.allowClaimed = false) (hnot : ¬ m.Lists r.course.identity) :
    ∃ c, (runClaims m [] (pre ++ r :: post)).1[pre.length]? = some c ∧
      c.course = r.course ∧ c.claimedBy = r.path ∧
      (c.failed = true ↔ ConsumedBefore pre r.course.clbid) := by
  have htok := runClaims_ok (m := m) pre ClaimTable.ok_nil
  have hhas := runClaims_has m pre r.course.clbid [] ClaimTable.ok_nil
  rw [runClaims_append]
  generalize ht : (runClaims m [] pre).2 = t at *
  have hlen : (runClaims m [] pre).1.length = pre.length := runClaims_length _ _ _
  refine ⟨(makeClaim m t r.course r.path r.allowClaimed).1, ?_, ?_⟩
  · rw [List.getElem?_append_right (by omega), hlen]
    simp [runClaims]
  · have h := makeClaim_outcome m t htok r.course r.path r.allowClaimed
    rw [hmode] at h ⊢
    have hcons : t.has r.course.clbid = true ↔ ConsumedBefore pre r.course.clbid := by
      rw [hhas]; simp [ClaimTable.has, ConsumedBefore]
    cases h with
    | allowed ha ho => cases ha
    | granted ha why ho =>
      rw [ho]
      refine ⟨rfl, rfl, ?_⟩
      rcases why with h | ⟨ps, h, _⟩
      · simp [← hcons, h]
      · exact absurd ⟨ps, h⟩ hnot
    | refused ha prior why ho => rw [ho]; exact ⟨rfl, rfl, by simp [← hcons, prior]⟩

/-- Number of granted, recorded claims on a class in a history. -/
def grantedCount (clbid : String) (rs : List ClaimRequest) (cs : List Claim) : Nat :=
  ((rs.zip cs).filter (fun (r, c) =>
    r.course.clbid == clbid && !r.allowClaimed && !c.failed)).length

theorem grantedCount_table (m : Multicountable) (clbid : String) (rs : List ClaimRequest) :
    ∀ t, ClaimTable.Ok t →
      ((runClaims m t rs).2.get clbid).length =
        (t.get clbid).length + grantedCount clbid rs (runClaims m t rs).1 := by
  induction rs with
  | nil => intro t _; simp [runClaims, grantedCount]
  | cons r rs ih =>
    intro t ht
    have h := makeClaim_outcome m t ht r.course r.path r.allowClaimed
    have ih := ih _ (makeClaim_ok (m := m) ht r.course r.path r.allowClaimed)
    simp only [runClaims, grantedCount, List.zip_cons_cons] at ih ⊢
    rw [ih]
    cases h with
    | allowed ha ho => rw [ho]; simp [ha]
    | granted ha why ho =>
      rw [ho]
      rw [ClaimTable.get_append]
      by_cases hk : r.course.clbid = clbid
      · simp [hk, ha]; omega
      · simp [hk]
    | refused ha prior why ho => rw [ho]; simp [ha]

/-- C01, counted: a class all of whose requesters name it with a
non-multicountable name is granted at most once in any history, and the table
holds exactly the granted claims. -/
theorem C01_granted_at_most_once (m : Multicountable) (rs : List ClaimRequest) (clbid : String)
    (hnot : ∀ r ∈ rs, r.course.clbid = clbid → ¬ m.Lists r.course.identity) :
    grantedCount clbid rs (runClaims m [] rs).1 ≤ 1 ∧
    ((runClaims m [] rs).2.get clbid).length = grantedCount clbid rs (runClaims m [] rs).1 := by
  have h2 := grantedCount_table m clbid rs [] ClaimTable.ok_nil
  simp only [ClaimTable.get, List.length_nil, Nat.zero_add] at h2
  refine ⟨?_, h2⟩
  rw [← h2]
  -- invariant: at most one claim is stored for the class
  suffices H : ∀ (rs : List ClaimRequest) (t : ClaimTable), ClaimTable.Ok t →
      (∀ r ∈ rs, r.course.clbid = clbid → ¬ m.Lists r.course.identity) →
      (t.get clbid).length ≤ 1 → ((runClaims m t rs).2.get clbid).length ≤ 1 by
    exact H rs [] ClaimTable.ok_nil hnot (by simp [ClaimTable.get])
  intro rs
  induction rs with
  | nil => intro t _ _ h; exact h
  | cons r rs ih =>
    intro t ht hn hle
    suffices hs : ((makeClaim m t r.course r.path r.allowClaimed).2.get clbid).length ≤ 1 from
      ih _ (makeClaim_ok ht _ _ _) (fun r' h' => hn r' (List.mem_cons_of_mem _ h')) hs
    have h := makeClaim_outcome m t ht r.course r.path r.allowClaimed
    cases h with
    | allowed ha ho => rw [ho]; exact hle
    | refused ha prior why ho => rw [ho]; exact hle
    | granted ha why ho =>
      rw [ho]
      rw [ClaimTable.get_append]
      split
      · rename_i hk
        rcases why with hh | ⟨ps, hps, _⟩
        · rw [ClaimTable.get_eq_nil_of_not_has _ _ (hk ▸ hh)]; simp
        · exact absurd ⟨ps, hps⟩ (hn r (List.mem_cons_self) hk)
      · exact hle

/-- Non-trivial case for C01: two rules ask for the same class, a third asks
with `allow_claimed`; the second is refused and the third granted. -/
example :
    let c : Course := { clbid := "1", identity := "CSCI 121" }
    let rs : List ClaimRequest := [⟨c, ["$", "%A"], false⟩, ⟨c, ["$", "%B"], false⟩, ⟨c, ["$", "%C"], true⟩]
    (runClaims [] [] rs).1.map (·.failed) = [false, true, false] ∧
    ConsumedBefore [⟨c, ["$", "%A"], false⟩] "1" ∧ grantedCount "1" rs (runClaims [] [] rs).1 = 1 := by
  refine ⟨by decide, ⟨_, List.mem_cons_self, rfl, rfl⟩, by decide⟩

/-! ### C02: `allow_claimed` requests are invisible to everyone else -/

/-- Outcomes of the consuming requests of a history. -/
def consumingOutcomes (rs : List ClaimRequest) (cs : List Claim) : List Claim :=
  ((rs.zip cs).filter (fun (r, _) => !r.allowClaimed)).map (·.2)

/-- C02. An `allow_claimed` request is always granted, and dropping all of them
from a history leaves the final table and every other outcome unchanged. -/
theorem C02_allow_claimed_is_invisible (m : Multicountable) (rs : List ClaimRequest) (t : ClaimTable) :
    (∀ r c, (r, c) ∈ rs.zip (runClaims m t rs).1 → r.allowClaimed = true →
      c = ⟨r.course, r.path, false⟩) ∧
    (runClaims m t (rs.filter (fun r => !r.allowClaimed))).2 = (runClaims m t rs).2 ∧
    (runClaims m t (rs.filter (fun r => !r.allowClaimed))).1 =
      consumingOutcomes rs (runClaims m t rs).1 := by
  induction rs generalizing t with
  | nil => simp [runClaims, consumingOutcomes]
  | cons r rs ih =>
    cases hal : r.allowClaimed with
    | true =>
      have hstep : makeClaim m t r.course r.path true = (⟨r.course, r.path, false⟩, t) := by
        simp [makeClaim]
      obtain ⟨h1, h2, h3⟩ := ih t
      simp only [runClaims, hal, hstep, List.filter_cons, Bool.not_true, Bool.false_eq_true,
        if_false, List.zip_cons_cons, consumingOutcomes]
      refine ⟨?_, h2, ?_⟩
      · intro r' c' hmem hal'
        rcases List.mem_cons.1 hmem with h | h
        · cases h; rfl
        · exact h1 r' c' h hal'
      · simpa [hal, consumingOutcomes] using h3
    | false =>
      obtain ⟨h1, h2, h3⟩ := ih (makeClaim m t r.course r.path r.allowClaimed).2
      simp only [runClaims, hal, List.filter_cons, Bool.not_false, if_true, List.zip_cons_cons,
        consumingOutcomes] at h1 h2 h3 ⊢
      refine ⟨?_, h2, ?_⟩
      · intro r' c' hmem hal'
        rcases List.mem_cons.1 hmem with h | h
        · cases h; simp [hal] at hal'
        · exact h1 r' c' h hal'
      · simpa [hal, consumingOutcomes] using h3

/-- Non-trivial case for C02: the middle request is `allow_claimed`. -/
example :
    let c : Course := { clbid := "1" }
    let rs : List ClaimRequest := [⟨c, ["$"], false⟩, ⟨c, ["$", "%B"], true⟩, ⟨c, ["$", "%C"], false⟩]
    consumingOutcomes rs (runClaims [] [] rs).1 = [⟨c, ["$"], false⟩, ⟨c, ["$", "%C"], true⟩] := by decide

/-! ### C03: frame condition -/

/-- C03. One request: refused means nothing changed; granted (and not
`allow_claimed`) means exactly one claim was added at the end of that class's
list and no other class was touched. -/
theorem C03_claim_frame (m : Multicountable) (pre : List ClaimRequest) (course : Course)
    (path : Path) (allow : Bool) :
    let t := (runClaims m [] pre).2
    let o := makeClaim m t course path allow
    (o.1.failed = true → o.2 = t) ∧
    (o.1.failed = false → allow = false →
      ∀ k, o.2.get k = t.get k ++ (if k = course.clbid then [⟨course, path, false⟩] else [])) ∧
    (allow = true → o.2 = t) := by
  intro t o
  have ht : ClaimTable.Ok t := runClaims_ok pre ClaimTable.ok_nil
  have h := makeClaim_outcome m t ht course path allow
  change ClaimOutcome m t course path allow o at h
  cases h with
  | allowed ha ho => rw [ho]; simp [ha]
  | granted ha why ho =>
    rw [ho]
    refine ⟨by simp, ?_, by simp [ha]⟩
    intro _ _ k
    rw [ClaimTable.get_append]
    by_cases hk : course.clbid = k
    · simp [hk]
    · have : ¬ k = course.clbid := fun e => hk e.symm
      simp [hk, this]
  | refused ha prior why ho => rw [ho]; simp

/-- C03, over histories: the claims on record for a class only ever grow at the end. -/
theorem C03_claims_never_withdrawn (m : Multicountable) (pre post : List ClaimRequest) (k : String) :
    (runClaims m [] pre).2.get k <+: (runClaims m [] (pre ++ post)).2.get k := by
  rw [runClaims_append]
  simp only
  have ht : ClaimTable.Ok (runClaims m [] pre).2 := runClaims_ok pre ClaimTable.ok_nil
  generalize (runClaims m [] pre).2 = t at *
  induction post generalizing t with
  | nil => exact List.prefix_refl _
  | cons r post ih =>
    suffices hs : t.get k <+: (makeClaim m t r.course r.path r.allowClaimed).2.get k from
      hs.trans (ih _ (makeClaim_ok ht r.course r.path r.allowClaimed))
    have h := makeClaim_outcome m t ht r.course r.path r.allowClaimed
    cases h with
    | allowed ha ho => rw [ho]; exact List.prefix_refl _
    | granted ha why ho =>
      rw [ho]
      rw [ClaimTable.get_append]
      split
      · exact List.prefix_append _ _
      · exact List.prefix_refl _
    | refused ha prior why ho => rw [ho]; exact List.prefix_refl _

/-- Non-trivial case for C03. -/
example :
    let c : Course := { clbid := "1" }
    let t := (runClaims [] [] [⟨c, ["$", "%A"], false⟩]).2
    (makeClaim [] t c ["$", "%B"] false).1.failed = true ∧
    (makeClaim [] t { c with clbid := "2" } ["$", "%B"] false).1.failed = false := by decide

/-! ### C04: multicountable courses -/

/-- C04 as stated is false of the code: one requirement path, listed once,
claims the same class three times. -/
theorem C04_refuted :
    ∃ (m : Multicountable) (rs : List ClaimRequest),
      (∃ p, ∀ r ∈ rs, r.path = p) ∧
      (∀ r ∈ rs, m.get? r.course.identity = some [["%A"]] ∧ r.allowClaimed = false) ∧
      grantedCount "1" rs (runClaims m [] rs).1 = 3 := by
  refine ⟨[("CSCI 121", [["%A"]])],
    List.replicate 3 ⟨{ clbid := "1", identity := "CSCI 121" }, ["$", "%A"], false⟩,
    ⟨["$", "%A"], ?_⟩, ?_, by decide⟩
  · intro r hr; simp only [List.mem_replicate] at hr; rw [hr.2]
  · intro r hr; simp only [List.mem_replicate] at hr; rw [hr.2]; exact ⟨by decide, rfl⟩

/-- C04, the part that holds: the exact decision rule for a multicountable
course.  A request is refused exactly when the class was consumed before and
the requirement names on the requester's path are not (non-trivially) listed
for the course.  Missing from the full claim: a listed path can claim the class
again and again (`C04_refuted`). -/
theorem C04_multicountable_decision_partial (m : Multicountable)
    (pre post : List ClaimRequest) (r : ClaimRequest) (ps : List Path)
    (hmode : r.allowClaimed = false) (hlist : m.get? r.course.identity = some ps) :
    ∃ c, (runClaims m [] (pre ++ r :: post)).1[pre.length]? = some c ∧
      (c.failed = true ↔
        ConsumedBefore pre r.course.clbid ∧ ¬ (reqsOnly r.path ∈ ps ∧ reqsOnly r.path ≠ [])) := by
  have htok := runClaims_ok (m := m) pre ClaimTable.ok_nil
  have hhas := runClaims_has m pre r.course.clbid [] ClaimTable.ok_nil
  rw [runClaims_append]
  generalize ht : (runClaims m [] pre).2 = t at *
  have hlen : (runClaims m [] pre).1.length = pre.length := runClaims_length _ _ _
  have hcons : t.has r.course.clbid = true ↔ ConsumedBefore pre r.course.clbid := by
    rw [hhas]; simp [ClaimTable.has, ConsumedBefore]
  refine ⟨(makeClaim m t r.course r.path r.allowClaimed).1, ?_, ?_⟩
  · rw [List.getElem?_append_right (by omega), hlen]
    simp [runClaims]
  · have h := makeClaim_outcome m t htok r.course r.path r.allowClaimed
    rw [hmode] at h ⊢
    cases h with
    | allowed ha ho => cases ha
    | granted ha why ho =>
      rw [ho]
      simp only [Bool.false_eq_true, false_iff]
      rintro ⟨hc, hn⟩
      rcases why with h | ⟨ps', h, hmem, hne⟩
      · rw [hcons.2 hc] at h; cases h
      · rw [hlist] at h; cases h; exact hn ⟨hmem, hne⟩
    | refused ha prior why ho =>
      rw [ho]
      simp only [true_iff]
      exact ⟨hcons.1 prior, fun hh => hh.2 (why ps hlist hh.1)⟩

/-- Every recorded claim after the first on a multicountable class comes from a listed path. -/
theorem C04_later_claimers_are_listed_partial (m : Multicountable) (rs : List ClaimRequest)
    (clbid : String) (c : Claim) (h : c ∈ ((runClaims m [] rs).2.get clbid).tail) :
    ∃ ps, m.get? c.course.identity = some ps ∧ reqsOnly c.claimedBy ∈ ps := by
  suffices H : ∀ (rs : List ClaimRequest) (t : ClaimTable), ClaimTable.Ok t →
      (∀ c ∈ (t.get clbid).tail, ∃ ps, m.get? c.course.identity = some ps ∧ reqsOnly c.claimedBy ∈ ps) →
      ∀ c ∈ ((runClaims m t rs).2.get clbid).tail,
        ∃ ps, m.get? c.course.identity = some ps ∧ reqsOnly c.claimedBy ∈ ps from
    H rs [] ClaimTable.ok_nil (by simp [ClaimTable.get]) c h
  intro rs
  induction rs with
  | nil => intro t _ hinv; exact hinv
  | cons r rs ih =>
    intro t ht hinv
    suffices hs : ∀ c ∈ ((makeClaim m t r.course r.path r.allowClaimed).2.get clbid).tail,
        ∃ ps, m.get? c.course.identity = some ps ∧ reqsOnly c.claimedBy ∈ ps from
      ih _ (makeClaim_ok ht _ _ _) hs
    have h := makeClaim_outcome m t ht r.course r.path r.allowClaimed
    cases h with
    | allowed ha ho => rw [ho]; exact hinv
    | refused ha prior why ho => rw [ho]; exact hinv
    | granted ha why ho =>
      rw [ho]
      simp only [ClaimTable.get_append]
      split
      · rename_i hk
        rcases why with hh | ⟨ps, hps, hmem, _⟩
        · rw [ClaimTable.get_eq_nil_of_not_has _ _ (hk ▸ hh)]; simp
        · intro c hc
          cases hg : t.get clbid with
          | nil => rw [hg] at hc; simp at hc
          | cons a l =>
            rw [hg] at hc hinv
            simp only [List.cons_append, List.tail_cons, List.mem_append, List.mem_singleton] at hc
            rcases hc with hc | rfl
            · exact hinv c (by simpa using hc)
            · exact ⟨ps, hps, hmem⟩
      · exact hinv

/-- Non-trivial case for C04: the second, listed path is granted; a third,
unlisted path is refused. -/
example :
    let c : Course := { clbid := "1", identity := "CSCI 121" }
    let m : Multicountable := [("CSCI 121", [["%A"], ["%B"]])]
    let rs : List ClaimRequest :=
      [⟨c, ["$", "%A"], false⟩, ⟨c, ["$", "%B", ".count"], false⟩, ⟨c, ["$", "%C"], false⟩]
    (runClaims m [] rs).1.map (·.failed) = [false, false, true] ∧
    ((runClaims m [] rs).2.get "1").tail.length = 1 := by decide

/-! ### C05: trial blocks are isolated -/

theorem CtxState.claims_lt {s : CtxState} {t : ClaimTable} (h : s.heap[s.cur]? = some t) :
    s.claims = t := by
  simp [CtxState.claims, List.getD, h]

mutual
/-- A command only writes to the dictionary the context points to, or to
dictionaries allocated later; the pointer stays valid. -/
theorem runCtx_frame (m : Multicountable) (s : CtxState) (hs : s.cur < s.heap.length) :
    ∀ c : CtxCmd, let s' := (runCtx m s c).1
      s'.cur < s'.heap.length ∧ s.heap.length ≤ s'.heap.length ∧
      (s'.cur = s.cur ∨ s.heap.length ≤ s'.cur) ∧
      ∀ i, i < s.heap.length → i ≠ s.cur → s'.heap[i]? = s.heap[i]?
  | .claim r => by
    simp only [runCtx]
    refine ⟨by simpa using hs, by simp, by simp, ?_⟩
    intro i hi hne
    simp [Ne.symm hne]
  | .fresh body => by
    have hb := runCtxs_frame m (s.alloc []) (by simp [CtxState.alloc]) body
    simp only [runCtx]
    simp only [CtxState.alloc, List.length_append, List.length_singleton] at hb ⊢
    obtain ⟨h1, h2, h3, h4⟩ := hb
    refine ⟨by omega, by omega, Or.inr (by omega), ?_⟩
    intro i hi hne
    rw [List.getElem?_append_left (by omega), h4 i (by omega) (by omega),
      List.getElem?_append_left (by omega)]
  | .inner body => by
    have hb := runCtxs_frame m (s.alloc []) (by simp [CtxState.alloc]) body
    simp only [runCtx]
    simp only [CtxState.alloc, List.length_append, List.length_singleton] at hb ⊢
    obtain ⟨h1, h2, h3, h4⟩ := hb
    refine ⟨by omega, by omega, by simp, ?_⟩
    intro i hi hne
    rw [h4 i (by omega) (by omega), List.getElem?_append_left (by omega)]
  | .raise => by simp [runCtx, hs]

theorem runCtxs_frame (m : Multicountable) (s : CtxState) (hs : s.cur < s.heap.length) :
    ∀ cs : List CtxCmd, let s' := (runCtxs m s cs).1
      s'.cur < s'.heap.length ∧ s.heap.length ≤ s'.heap.length ∧
      (s'.cur = s.cur ∨ s.heap.length ≤ s'.cur) ∧
      ∀ i, i < s.heap.length → i ≠ s.cur → s'.heap[i]? = s.heap[i]?
  | [] => by simp [runCtxs, hs]
  | c :: cs => by
    obtain ⟨h1, h2, h3, h4⟩ := runCtx_frame m s hs c
    simp only [runCtxs]
    split
    · exact ⟨h1, h2, h3, h4⟩
    · obtain ⟨g1, g2, g3, g4⟩ := runCtxs_frame m (runCtx m s c).1 h1 cs
      refine ⟨g1, by omega, by omega, ?_⟩
      intro i hi hne
      rw [g4 i (by omega) (by omega), h4 i hi hne]
end

/-- C05. Whatever runs inside a fresh-claims block or on a context with empty
claims, including nested blocks and exceptions, the outer context's claims are
the same before and after, and the body starts from an empty table. -/
theorem C05_trial_blocks_are_isolated (m : Multicountable) (s : CtxState)
    (hs : s.cur < s.heap.length) (body : List CtxCmd) :
    (runCtx m s (.fresh body)).1.claims = s.claims ∧
    (runCtx m s (.inner body)).1.claims = s.claims ∧
    (s.alloc []).claims = [] ∧
    (runCtx m s (.fresh body)).2 = (runCtxs m (s.alloc []) body).2 := by
  have hb := runCtxs_frame m (s.alloc []) (by simp [CtxState.alloc]) body
  simp only [CtxState.alloc, List.length_append, List.length_singleton] at hb
  obtain ⟨h1, h2, h3, h4⟩ := hb
  have hkeep : (runCtxs m (s.alloc []) body).1.heap[s.cur]? = s.heap[s.cur]? := by
    have := h4 s.cur (by omega) (by omega)
    simp only [CtxState.alloc]
    rw [this, List.getElem?_append_left hs]
  refine ⟨?_, ?_, ?_, ?_⟩
  · simp only [runCtx, CtxState.claims, CtxState.alloc, List.getD] at hkeep ⊢
    simp [hkeep]
  · simp only [runCtx, CtxState.claims, CtxState.alloc, List.getD] at hkeep ⊢
    simp [hkeep]
  · simp [CtxState.alloc, CtxState.claims, List.getD]
  · simp [runCtx]

/-- Non-trivial case for C05: the outer table holds a claim, the body claims the
same class (and succeeds), nests another block and raises. -/
example :
    let c : Course := { clbid := "1" }
    let r : ClaimRequest := ⟨c, ["$", "%A"], false⟩
    let s0 : CtxState := ⟨[[]], 0⟩
    let s := (runCtx [] s0 (.claim r)).1
    s.claims = [("1", [⟨c, ["$", "%A"], false⟩])] ∧
    (runCtx [] s (.fresh [.claim ⟨c, ["$", "%B"], false⟩, .fresh [.claim r], .raise])).2 = true ∧
    (runCtx [] s (.fresh [.claim ⟨c, ["$", "%B"], false⟩, .fresh [.claim r], .raise])).1.claims
      = s.claims := by
  refine ⟨by decide, by decide, by decide⟩

end Dp
