import Verif.Props.Alike

/-
Auditing solutions that are the same up to the order in which sets of courses are listed gives results that are the same
up to that order, whatever order the interpreter visits sets in.
-/
namespace Dp

/-- the same query up to the order in which its courses are listed -/
def QueryData.Alike (d e : QueryData) : Prop :=
  e = { d with assertions := e.assertions, output := e.output, successful := e.successful } ∧
  List.Forall₂ AnyAssertion.Alike d.assertions e.assertions ∧ d.output.Perm e.output ∧ d.successful.Perm e.successful

/-- the same count up to the order in which the courses of its audits are listed -/
def CountData.Alike (d e : CountData) : Prop :=
  e = { d with audits := e.audits } ∧ List.Forall₂ AnyAssertion.Alike d.audits e.audits

mutual
/-- the same tree, where queries may differ as `Q` and counts as `C` allows -/
def Node.AlikeWith (Q : QueryData → QueryData → Prop) (C : CountData → CountData → Prop) : Node → Node → Prop
  | .course s d, .course s' d' => s = s' ∧ d = d'
  | .query s d, .query s' d' => s = s' ∧ Q d d'
  | .count s d l, .count s' d' l' => s = s' ∧ C d d' ∧ Node.AlikeWithList Q C l l'
  | .req s d r, .req s' d' r' => s = s' ∧ d = d' ∧ Node.AlikeWithOpt Q C r r'
  | .cond s d t f, .cond s' d' t' f' => s = s' ∧ d = d' ∧ t.AlikeWith Q C t' ∧ Node.AlikeWithOpt Q C f f'
  | .prof s d c, .prof s' d' c' => s = s' ∧ d = d' ∧ c = c'
  | _, _ => False
def Node.AlikeWithList (Q : QueryData → QueryData → Prop) (C : CountData → CountData → Prop) : List Node → List Node → Prop
  | [], [] => True
  | n :: l, n' :: l' => n.AlikeWith Q C n' ∧ Node.AlikeWithList Q C l l'
  | _, _ => False
def Node.AlikeWithOpt (Q : QueryData → QueryData → Prop) (C : CountData → CountData → Prop) : Option Node → Option Node → Prop
  | none, none => True
  | some n, some n' => n.AlikeWith Q C n'
  | _, _ => False
end

/-- the same rule, solution or result, up to the order in which its courses are listed -/
def Node.Alike (n n' : Node) : Prop := n.AlikeWith QueryData.Alike CountData.Alike n'

/-- the courses of a query that claims them come in the same order; where they may not, the assertions do not see the order -/
def QueryData.Steady (d e : QueryData) : Prop :=
  d.Alike e ∧ (d.source = .courses → d.attemptClaims = true → d.output = e.output) ∧
  ((d.source ≠ .claimed ∧ d.output = e.output ∧ d.assertions = e.assertions) ∨ ∀ a ∈ d.assertions, a.All Assertion.OrderFree)

/-- the audits of a count do not see the order of the courses -/
def CountData.Steady (d e : CountData) : Prop := d.Alike e ∧ ∀ a ∈ d.audits, a.All Assertion.OrderFree

/-- alike, and so that auditing keeps it alike -/
def Node.Steady (n n' : Node) : Prop := n.AlikeWith QueryData.Steady CountData.Steady n'

mutual
theorem Node.AlikeWith.mono {Q Q' : QueryData → QueryData → Prop} {C C' : CountData → CountData → Prop} (hQ : ∀ d e, Q d e → Q' d e)
    (hC : ∀ d e, C d e → C' d e) : ∀ n n' : Node, n.AlikeWith Q C n' → n.AlikeWith Q' C' n'
  | .course s d, n', h => by cases n' <;> simp only [Node.AlikeWith] at h ⊢; exact h
  | .query s d, n', h => by cases n' <;> simp only [Node.AlikeWith] at h ⊢; exact ⟨h.1, hQ _ _ h.2⟩
  | .count s d l, n', h => by
    cases n' <;> simp only [Node.AlikeWith] at h ⊢
    exact ⟨h.1, hC _ _ h.2.1, Node.AlikeWithList.mono hQ hC _ _ h.2.2⟩
  | .req s d r, n', h => by
    cases n' <;> simp only [Node.AlikeWith] at h ⊢
    exact ⟨h.1, h.2.1, Node.AlikeWithOpt.mono hQ hC _ _ h.2.2⟩
  | .cond s d t f, n', h => by
    cases n' <;> simp only [Node.AlikeWith] at h ⊢
    exact ⟨h.1, h.2.1, Node.AlikeWith.mono hQ hC _ _ h.2.2.1, Node.AlikeWithOpt.mono hQ hC _ _ h.2.2.2⟩
  | .prof s d c, n', h => by cases n' <;> simp only [Node.AlikeWith] at h ⊢; exact h
theorem Node.AlikeWithList.mono {Q Q' : QueryData → QueryData → Prop} {C C' : CountData → CountData → Prop} (hQ : ∀ d e, Q d e → Q' d e)
    (hC : ∀ d e, C d e → C' d e) : ∀ l l' : List Node, Node.AlikeWithList Q C l l' → Node.AlikeWithList Q' C' l l'
  | [], l', h => by cases l' <;> simp only [Node.AlikeWithList] at h ⊢
  | n :: l, l', h => by
    cases l' <;> simp only [Node.AlikeWithList] at h ⊢
    exact ⟨Node.AlikeWith.mono hQ hC _ _ h.1, Node.AlikeWithList.mono hQ hC _ _ h.2⟩
theorem Node.AlikeWithOpt.mono {Q Q' : QueryData → QueryData → Prop} {C C' : CountData → CountData → Prop} (hQ : ∀ d e, Q d e → Q' d e)
    (hC : ∀ d e, C d e → C' d e) : ∀ l l' : Option Node, Node.AlikeWithOpt Q C l l' → Node.AlikeWithOpt Q' C' l l'
  | none, l', h => by cases l' <;> simp only [Node.AlikeWithOpt] at h ⊢
  | some n, l', h => by
    cases l' <;> simp only [Node.AlikeWithOpt] at h ⊢
    exact Node.AlikeWith.mono hQ hC _ _ h
end

theorem Node.Steady.alike {n n' : Node} (h : n.Steady n') : n.Alike n' :=
  Node.AlikeWith.mono (fun _ _ h => h.1) (fun _ _ h => h.1) _ _ h

theorem alikeList_iff {Q : QueryData → QueryData → Prop} {C : CountData → CountData → Prop} {l l' : List Node} :
    Node.AlikeWithList Q C l l' ↔ List.Forall₂ (Node.AlikeWith Q C) l l' := by
  induction l generalizing l' with
  | nil => cases l' <;> simp [Node.AlikeWithList]
  | cons n l ih => cases l' <;> simp [Node.AlikeWithList, ih]

theorem alikeOpt_iff {Q : QueryData → QueryData → Prop} {C : CountData → CountData → Prop} {l l' : Option Node} :
    Node.AlikeWithOpt Q C l l' ↔ Option.Rel (Node.AlikeWith Q C) l l' := by
  cases l <;> cases l' <;> simp [Node.AlikeWithOpt]

theorem QueryData.Alike.refl (d : QueryData) : d.Alike d :=
  ⟨rfl, List.forall₂_same.2 (fun a _ => .refl a), .refl _, .refl _⟩

theorem CountData.Alike.refl (d : CountData) : d.Alike d := ⟨rfl, List.forall₂_same.2 (fun a _ => .refl a)⟩

mutual
theorem Node.alike_refl : ∀ n : Node, n.Alike n
  | .course s d => ⟨rfl, rfl⟩
  | .query s d => ⟨rfl, .refl d⟩
  | .count s d l => ⟨rfl, .refl d, Node.alike_reflList l⟩
  | .req s d r => ⟨rfl, rfl, Node.alike_reflOpt r⟩
  | .cond s d t f => ⟨rfl, rfl, Node.alike_refl t, Node.alike_reflOpt f⟩
  | .prof s d c => ⟨rfl, rfl, rfl⟩
theorem Node.alike_reflList : ∀ l : List Node, Node.AlikeWithList QueryData.Alike CountData.Alike l l
  | [] => trivial
  | n :: l => ⟨Node.alike_refl n, Node.alike_reflList l⟩
theorem Node.alike_reflOpt : ∀ l : Option Node, Node.AlikeWithOpt QueryData.Alike CountData.Alike l l
  | none => trivial
  | some n => Node.alike_refl n
end

/-! ### What is reported of such trees -/

theorem Node.AlikeWith.path_eq {Q : QueryData → QueryData → Prop} {C : CountData → CountData → Prop}
    (hQ : ∀ d e, Q d e → e.path = d.path) (hC : ∀ d e, C d e → e.path = d.path) {n n' : Node} (h : n.AlikeWith Q C n') :
    n'.path = n.path ∧ n'.stage = n.stage := by
  cases n <;> cases n' <;> simp only [Node.AlikeWith] at h
  · exact ⟨by simp only [Node.path, h.2], h.1.symm⟩
  · exact ⟨hQ _ _ h.2, h.1.symm⟩
  · exact ⟨hC _ _ h.2.1, h.1.symm⟩
  all_goals exact ⟨by simp only [Node.path, h.2.1], h.1.symm⟩

theorem QueryData.Alike.path_eq {d e : QueryData} (h : d.Alike e) : e.path = d.path := by rw [h.1]
theorem CountData.Alike.path_eq {d e : CountData} (h : d.Alike e) : e.path = d.path := by rw [h.1]

theorem Node.Alike.path_eq {n n' : Node} (h : n.Alike n') : n'.path = n.path :=
  (Node.AlikeWith.path_eq (fun _ _ h => h.path_eq) (fun _ _ h => h.path_eq) h).1

theorem Node.Alike.stage_eq {n n' : Node} (h : n.Alike n') : n'.stage = n.stage :=
  (Node.AlikeWith.path_eq (fun _ _ h => h.path_eq) (fun _ _ h => h.path_eq) h).2

theorem statuses_alike {as bs : List AnyAssertion} (h : List.Forall₂ AnyAssertion.Alike as bs) :
    bs.map (·.status) = as.map (·.status) ∧ bs.map (·.rank) = as.map (·.rank) ∧
    nonPrimaryLt bs = nonPrimaryLt as := by
  have h1 : bs.map (·.status) = as.map (·.status) := by
    induction h with
    | nil => rfl
    | cons hd _ ih => simp [hd.fields.1, ih]
  have h2 : bs.map (·.rank) = as.map (·.rank) := by
    clear h1
    induction h with
    | nil => rfl
    | cons hd _ ih => simp [hd.fields.2, ih]
  have h3 : bs.any (·.anyBranch (·.isLt)) = as.any (·.anyBranch (·.isLt)) ∧
      bs.all (·.anyBranch (·.isLt)) = as.all (·.anyBranch (·.isLt)) := by
    induction h with
    | nil => exact ⟨rfl, rfl⟩
    | cons hd tl ih =>
      simp only [List.map_cons, List.cons.injEq] at h1 h2
      obtain ⟨i1, i2⟩ := ih h1.2 h2.2
      simp only [List.any_cons, List.all_cons, hd.anyBranch, i1, i2, and_self]
  exact ⟨h1, h2, by unfold nonPrimaryLt; rw [h3.1, h3.2]⟩

theorem queryStatus_alike {d e : QueryData} (h : d.Alike e) : queryStatus e = queryStatus d ∧ queryRank e = queryRank d := by
  have h1 := statuses_alike h.2.1
  have h2 : e.overridden = d.overridden := by rw [h.1]
  exact ⟨by simp only [queryStatus, h1.1, h2], by simp only [queryRank, h1.2.1, h2]⟩

theorem countStatus_alike {d e : CountData} (h : d.Alike e) : countStatus e = countStatus d ∧ countRank e = countRank d := by
  have h1 := statuses_alike h.2
  have h2 : e.overridden = d.overridden ∧ e.count = d.count ∧ e.atMost = d.atMost := by rw [h.1]; exact ⟨rfl, rfl, rfl⟩
  constructor <;> funext l
  · simp only [countStatus, h1.1, h2]
  · simp only [countRank, h1.2.1, h2]

mutual
theorem Node.status_alike : ∀ n n' : Node, n.Alike n' → n'.status = n.status
  | .course s d, n', h => by cases n' <;> simp only [Node.Alike, Node.AlikeWith] at h; simp only [h]
  | .query s d, n', h => by
    cases n' <;> simp only [Node.Alike, Node.AlikeWith] at h
    simp only [Node.status, (queryStatus_alike h.2).1]
  | .count s d l, n', h => by
    cases n' <;> simp only [Node.Alike, Node.AlikeWith] at h
    simp only [Node.status, (countStatus_alike h.2.1).1, Node.status_alikeList _ _ h.2.2]
  | .req s d r, n', h => by
    cases n' <;> simp only [Node.Alike, Node.AlikeWith] at h
    simp only [Node.status, h.2.1, Node.status_alikeOpt _ _ h.2.2]
  | .cond s d t f, n', h => by
    cases n' <;> simp only [Node.Alike, Node.AlikeWith] at h
    simp only [Node.status, h.2.1, Node.status_alike _ _ h.2.2.1, Node.status_alikeOpt _ _ h.2.2.2]
  | .prof s d c, n', h => by cases n' <;> simp only [Node.Alike, Node.AlikeWith] at h; simp only [h]
theorem Node.status_alikeList : ∀ l l' : List Node, Node.AlikeWithList QueryData.Alike CountData.Alike l l' →
    Node.statusList l' = Node.statusList l
  | [], l', h => by cases l' <;> simp only [Node.AlikeWithList] at h; rfl
  | n :: l, l', h => by
    cases l' <;> simp only [Node.AlikeWithList] at h
    simp only [Node.statusList, Node.status_alike _ _ h.1, Node.status_alikeList _ _ h.2]
theorem Node.status_alikeOpt : ∀ l l' : Option Node, Node.AlikeWithOpt QueryData.Alike CountData.Alike l l' →
    Node.statusOpt l' = Node.statusOpt l
  | none, l', h => by cases l' <;> simp only [Node.AlikeWithOpt] at h; rfl
  | some n, l', h => by
    cases l' <;> simp only [Node.AlikeWithOpt] at h
    simp only [Node.statusOpt, Node.status_alike _ _ h]
end

mutual
theorem Node.rank_alike : ∀ n n' : Node, n.Alike n' → n'.rank = n.rank
  | .course s d, n', h => by cases n' <;> simp only [Node.Alike, Node.AlikeWith] at h; simp only [h]
  | .query s d, n', h => by
    cases n' <;> simp only [Node.Alike, Node.AlikeWith] at h
    simp only [Node.rank, (queryStatus_alike h.2).2]
  | .count s d l, n', h => by
    cases n' <;> simp only [Node.Alike, Node.AlikeWith] at h
    rename_i s' d' l'
    have : d'.overridden = d.overridden := by rw [h.2.1.1]
    simp only [Node.rank, (countStatus_alike h.2.1).2, Node.rank_alikeList _ _ h.2.2, this]
  | .req s d r, n', h => by
    cases n' <;> simp only [Node.Alike, Node.AlikeWith] at h
    simp only [Node.rank, h.2.1, Node.rank_alikeReq _ _ h.2.2]
  | .cond s d t f, n', h => by
    cases n' <;> simp only [Node.Alike, Node.AlikeWith] at h
    simp only [Node.rank, h.2.1, Node.rank_alike _ _ h.2.2.1, Node.rank_alikeElse _ _ h.2.2.2]
  | .prof s d c, n', h => by cases n' <;> simp only [Node.Alike, Node.AlikeWith] at h; simp only [h]
theorem Node.rank_alikeList : ∀ l l' : List Node, Node.AlikeWithList QueryData.Alike CountData.Alike l l' →
    Node.rankList l' = Node.rankList l
  | [], l', h => by cases l' <;> simp only [Node.AlikeWithList] at h; rfl
  | n :: l, l', h => by
    cases l' <;> simp only [Node.AlikeWithList] at h
    simp only [Node.rankList, Node.rank_alike _ _ h.1, Node.rank_alikeList _ _ h.2]
theorem Node.rank_alikeReq : ∀ l l' : Option Node, Node.AlikeWithOpt QueryData.Alike CountData.Alike l l' →
    Node.rankReq l' = Node.rankReq l
  | none, l', h => by cases l' <;> simp only [Node.AlikeWithOpt] at h; rfl
  | some n, l', h => by
    cases l' <;> simp only [Node.AlikeWithOpt] at h
    simp only [Node.rankReq, Node.rank_alike _ _ h, Node.status_alike _ _ h]
theorem Node.rank_alikeElse : ∀ l l' : Option Node, Node.AlikeWithOpt QueryData.Alike CountData.Alike l l' →
    Node.rankElse l' = Node.rankElse l
  | none, l', h => by cases l' <;> simp only [Node.AlikeWithOpt] at h; rfl
  | some n, l', h => by
    cases l' <;> simp only [Node.AlikeWithOpt] at h
    simp only [Node.rankElse, Node.rank_alike _ _ h]
end

theorem queryClaims_alike {s : Stage} {d e : QueryData} (h : d.Alike e) : (queryClaims s d).Perm (queryClaims s e) := by
  unfold queryClaims
  split
  · exact h.2.2.2
  · exact .refl _

mutual
theorem Node.claims_alike : ∀ n n' : Node, n.Alike n' → n.claims.Perm n'.claims
  | .course s d, n', h => by cases n' <;> simp only [Node.Alike, Node.AlikeWith] at h; simp only [h]; exact .refl _
  | .query s d, n', h => by
    cases n' <;> simp only [Node.Alike, Node.AlikeWith] at h
    obtain ⟨rfl, h⟩ := h
    simpa only [Node.claims] using queryClaims_alike h
  | .count s d l, n', h => by
    cases n' <;> simp only [Node.Alike, Node.AlikeWith] at h
    simpa only [Node.claims] using Node.claims_alikeList _ _ h.2.2
  | .req s d r, n', h => by
    cases n' <;> simp only [Node.Alike, Node.AlikeWith] at h
    simp only [Node.claims, ← h.2.1]
    split
    · exact .refl _
    · exact Node.claims_alikeOpt _ _ h.2.2
  | .cond s d t f, n', h => by
    cases n' <;> simp only [Node.Alike, Node.AlikeWith] at h
    simp only [Node.claims, ← h.2.1]
    split
    · exact Node.claims_alike _ _ h.2.2.1
    · exact Node.claims_alikeOpt _ _ h.2.2.2
    · exact .refl _
  | .prof s d c, n', h => by cases n' <;> simp only [Node.Alike, Node.AlikeWith] at h; simp only [h]; exact .refl _
theorem Node.claims_alikeList : ∀ l l' : List Node, Node.AlikeWithList QueryData.Alike CountData.Alike l l' →
    (Node.claimsList l).Perm (Node.claimsList l')
  | [], l', h => by cases l' <;> simp only [Node.AlikeWithList] at h; exact .refl _
  | n :: l, l', h => by
    cases l' <;> simp only [Node.AlikeWithList] at h
    simpa only [Node.claimsList] using (Node.claims_alike _ _ h.1).append (Node.claims_alikeList _ _ h.2)
theorem Node.claims_alikeOpt : ∀ l l' : Option Node, Node.AlikeWithOpt QueryData.Alike CountData.Alike l l' →
    (Node.claimsOpt l).Perm (Node.claimsOpt l')
  | none, l', h => by cases l' <;> simp only [Node.AlikeWithOpt] at h; exact .refl _
  | some n, l', h => by
    cases l' <;> simp only [Node.AlikeWithOpt] at h
    simpa only [Node.claimsOpt] using Node.claims_alike _ _ h
end

mutual
theorem Node.gpaClaims_alike : ∀ n n' : Node, n.Alike n' → n.claimsForGpa.Perm n'.claimsForGpa
  | .course s d, n', h => by cases n' <;> simp only [Node.Alike, Node.AlikeWith] at h; simp only [h]; exact .refl _
  | .query s d, n', h => by
    cases n' <;> simp only [Node.Alike, Node.AlikeWith] at h
    obtain ⟨rfl, h⟩ := h
    simpa only [Node.claimsForGpa] using queryClaims_alike h
  | .count s d l, n', h => by
    cases n' <;> simp only [Node.Alike, Node.AlikeWith] at h
    simpa only [Node.claimsForGpa] using Node.gpaClaims_alikeList _ _ h.2.2
  | .req s d r, n', h => by
    cases n' <;> simp only [Node.Alike, Node.AlikeWith] at h
    simp only [Node.claimsForGpa, ← h.2.1]
    split
    · exact Node.gpaClaims_alikeOpt _ _ h.2.2
    · exact .refl _
  | .cond s d t f, n', h => by
    cases n' <;> simp only [Node.Alike, Node.AlikeWith] at h
    simp only [Node.claimsForGpa, ← h.2.1]
    split
    · exact Node.gpaClaims_alike _ _ h.2.2.1
    · exact Node.gpaClaims_alikeOpt _ _ h.2.2.2
    · exact .refl _
  | .prof s d c, n', h => by cases n' <;> simp only [Node.Alike, Node.AlikeWith] at h; simp only [h]; exact .refl _
theorem Node.gpaClaims_alikeList : ∀ l l' : List Node, Node.AlikeWithList QueryData.Alike CountData.Alike l l' →
    (Node.claimsForGpaList l).Perm (Node.claimsForGpaList l')
  | [], l', h => by cases l' <;> simp only [Node.AlikeWithList] at h; exact .refl _
  | n :: l, l', h => by
    cases l' <;> simp only [Node.AlikeWithList] at h
    simpa only [Node.claimsForGpaList] using (Node.gpaClaims_alike _ _ h.1).append (Node.gpaClaims_alikeList _ _ h.2)
theorem Node.gpaClaims_alikeOpt : ∀ l l' : Option Node, Node.AlikeWithOpt QueryData.Alike CountData.Alike l l' →
    (Node.claimsForGpaOpt l).Perm (Node.claimsForGpaOpt l')
  | none, l', h => by cases l' <;> simp only [Node.AlikeWithOpt] at h; exact .refl _
  | some n, l', h => by
    cases l' <;> simp only [Node.AlikeWithOpt] at h
    simpa only [Node.claimsForGpaOpt] using Node.gpaClaims_alike _ _ h
end

theorem matchedOf_perm {l m : List Claim} (h : l.Perm m) : (matchedOf l).Perm (matchedOf m) := ((h.filter _).map _).dedup

/-! ### Tables of claims in another order -/

/-- the same claims, recorded in another order of the classes; every class is listed once -/
def ClaimTable.Alike (t u : ClaimTable) : Prop := t.Perm u ∧ (t.map (·.1)).Nodup

theorem ClaimTable.Alike.has_eq {t u : ClaimTable} (h : t.Alike u) (k : String) : t.has k = u.has k := any_perm h.1 _

theorem ClaimTable.get_eq_of_mem {t : ClaimTable} (h : (t.map (·.1)).Nodup) {k : String} {v : List Claim} (hm : (k, v) ∈ t) :
    t.get k = v := by
  induction t with
  | nil => cases hm
  | cons e t ih =>
    obtain ⟨k', v'⟩ := e
    simp only [List.map_cons, List.nodup_cons] at h
    unfold ClaimTable.get
    rcases List.mem_cons.1 hm with e | hm
    · cases e; simp
    · have : k' ≠ k := fun e => h.1 (List.mem_map.2 ⟨(k, v), hm, e.symm⟩)
      rw [if_neg (by simpa using this)]
      exact ih h.2 hm

theorem ClaimTable.get_eq_nil {t : ClaimTable} {k : String} (h : t.has k = false) : t.get k = [] := by
  induction t with
  | nil => rfl
  | cons e t ih =>
    obtain ⟨k', v'⟩ := e
    simp only [ClaimTable.has, List.any_cons, Bool.or_eq_false_iff] at h
    unfold ClaimTable.get
    rw [if_neg (by simp [h.1])]
    exact ih h.2

theorem ClaimTable.Alike.get_eq {t u : ClaimTable} (h : t.Alike u) (k : String) : t.get k = u.get k := by
  have hu : (u.map (·.1)).Nodup := (h.1.map _).nodup_iff.1 h.2
  cases hk : t.has k
  · rw [ClaimTable.get_eq_nil hk, ClaimTable.get_eq_nil (by rw [← h.has_eq]; exact hk)]
  · obtain ⟨⟨k', v⟩, hm, rfl⟩ := List.mem_map.1 ((ClaimTable.has_iff _ _).1 hk)
    rw [ClaimTable.get_eq_of_mem h.2 hm, ClaimTable.get_eq_of_mem hu (h.1.mem_iff.1 hm)]

theorem ClaimTable.keys_append (t : ClaimTable) (k : String) (c : Claim) :
    (t.append k c).map (·.1) = if t.has k then t.map (·.1) else t.map (·.1) ++ [k] := by
  induction t with
  | nil => simp [ClaimTable.append, ClaimTable.has]
  | cons e t ih =>
    obtain ⟨k', v⟩ := e
    unfold ClaimTable.append
    by_cases h : k' = k
    · subst h; simp [ClaimTable.has]
    · rw [if_neg (by simpa using h)]
      simp only [List.map_cons, ih, ClaimTable.has, List.any_cons]
      have : (k' == k) = false := by simpa using h
      simp only [this, Bool.false_or]
      split <;> simp_all

theorem ClaimTable.append_perm {t u : ClaimTable} (h : t.Perm u) (hn : (t.map (·.1)).Nodup) (k : String) (c : Claim) :
    (t.append k c).Perm (u.append k c) := by
  induction h with
  | nil => exact .refl _
  | cons e _ ih =>
    obtain ⟨k', v⟩ := e
    simp only [List.map_cons, List.nodup_cons] at hn
    unfold ClaimTable.append
    split
    · exact .cons _ (by assumption)
    · exact .cons _ (ih hn.2)
  | swap a b l =>
    obtain ⟨k1, v1⟩ := a
    obtain ⟨k2, v2⟩ := b
    simp only [List.map_cons, List.nodup_cons, List.mem_cons, not_or] at hn
    unfold ClaimTable.append
    by_cases h1 : k1 = k <;> by_cases h2 : k2 = k
    · exact absurd (h2.trans h1.symm) hn.1.1
    · simp only [h1, h2, beq_self_eq_true, if_true, beq_iff_eq, if_false, ClaimTable.append]
      exact .swap _ _ _
    · simp only [h1, h2, beq_self_eq_true, if_true, beq_iff_eq, if_false, ClaimTable.append]
      exact .swap _ _ _
    · simp only [h1, h2, beq_iff_eq, if_false, ClaimTable.append]
      exact .swap _ _ _
  | trans h1 _ ih1 ih2 => exact (ih1 hn).trans (ih2 ((h1.map _).nodup_iff.1 hn))

theorem ClaimTable.Alike.append {t u : ClaimTable} (h : t.Alike u) (k : String) (c : Claim) : (t.append k c).Alike (u.append k c) := by
  refine ⟨ClaimTable.append_perm h.1 h.2 k c, ?_⟩
  rw [ClaimTable.keys_append]
  cases hk : t.has k
  · simp only [Bool.false_eq_true, if_false]
    rw [List.nodup_append]
    refine ⟨h.2, by simp, ?_⟩
    rintro a ha b hb rfl
    simp only [List.mem_singleton] at hb
    subst hb
    rw [(ClaimTable.has_iff _ _).2 ha] at hk
    cases hk
  · exact h.2

theorem makeClaim_alike {m : Multicountable} {t u : ClaimTable} (h : t.Alike u) (c : Course) (p : Path) (allow : Bool) :
    (makeClaim m t c p allow).1 = (makeClaim m u c p allow).1 ∧ ((makeClaim m t c p allow).2).Alike (makeClaim m u c p allow).2 := by
  have hm : (makeMulticountableClaim m t c p).1 = (makeMulticountableClaim m u c p).1 ∧
      ((makeMulticountableClaim m t c p).2).Alike (makeMulticountableClaim m u c p).2 := by
    unfold makeMulticountableClaim
    simp only [h.get_eq]
    split
    · split
      · exact ⟨rfl, h.append _ _⟩
      · exact ⟨rfl, h⟩
    · split
      · split
        · exact ⟨rfl, h.append _ _⟩
        · exact ⟨rfl, h⟩
      · exact ⟨rfl, h.append _ _⟩
  unfold makeClaim
  simp only [h.get_eq, h.has_eq]
  split
  · exact ⟨rfl, h⟩
  split
  · exact ⟨rfl, h.append _ _⟩
  split
  · exact hm
  split
  · exact ⟨rfl, h⟩
  · exact ⟨rfl, h.append _ _⟩

theorem hasClaim_alike {t u : ClaimTable} (h : t.Alike u) (k : String) : hasClaim t k = hasClaim u k := by
  unfold hasClaim
  rw [h.has_eq, h.get_eq]

theorem allClaimed_alike {x y : Ctx} (hx : x.Alike y) {t u : ClaimTable} (h : t.Perm u) :
    ExAlike List.Perm (x.allClaimed t) (y.allClaimed u) := by
  have hxy : ∀ t, x.allClaimed t = y.allClaimed t := by
    intro t
    induction t with
    | nil => rfl
    | cons e t ih => obtain ⟨k, v⟩ := e; unfold Ctx.allClaimed; rw [hx.find, ih]
  rw [hxy]
  have hal : ∀ {a b c : Except Err (List Course)}, ExAlike List.Perm a b → ExAlike List.Perm b c → ExAlike List.Perm a c := by
    intro a b c h1 h2
    cases a <;> cases b <;> cases c <;> simp_all only [ExAlike]
    exact h1.trans h2
  induction h with
  | nil => exact List.Perm.refl _
  | cons e _ ih =>
    obtain ⟨k, v⟩ := e
    unfold Ctx.allClaimed
    cases y.findCourseByClbid k with
    | none => trivial
    | some c =>
      dsimp only
      rcases ih.cases with ⟨e, e', h1, h2⟩ | ⟨a, b, h1, h2, h3⟩
      · rw [h1, h2]; trivial
      · rw [h1, h2]; exact h3.cons _
  | swap a b l =>
    obtain ⟨k1, v1⟩ := a
    obtain ⟨k2, v2⟩ := b
    simp only [Ctx.allClaimed]
    cases y.findCourseByClbid k1 <;> cases y.findCourseByClbid k2 <;> cases y.allClaimed l <;> simp only [ExAlike]
    exact List.Perm.swap _ _ _
  | trans _ _ ih1 ih2 => exact hal ih1 ih2

theorem Node.Alike.matched_perm {n n' : Node} (h : n.Alike n') : n.matched.Perm n'.matched :=
  matchedOf_perm (Node.claims_alike _ _ h)

/-! ### Auditing -/

theorem claimLoop_alike {x y : Ctx} (hx : x.Alike y) {d e : QueryData} (h1 : d.path = e.path) (h2 : d.allowClaimed = e.allowClaimed)
    (h3 : d.forceInserted = e.forceInserted) (cs : List Course) {t u : ClaimTable} (h : t.Alike u) (acc : Collected) :
    (claimLoop x d cs t acc).1 = (claimLoop y e cs u acc).1 ∧ ((claimLoop x d cs t acc).2).Alike (claimLoop y e cs u acc).2 := by
  induction cs generalizing t u acc with
  | nil => exact ⟨rfl, h⟩
  | cons c cs ih =>
    unfold claimLoop
    have hc := makeClaim_alike (m := x.multicountable) h c d.path (d.allowClaimed || d.forceInserted.contains c.clbid)
    rw [← hx.multicountable, ← h1, ← h2, ← h3]
    dsimp only
    rw [← hc.1]
    split
    · exact ih hc.2 _
    · exact ih hc.2 _

theorem recordLoop_eq {x y : Ctx} (p : Path) (t u : ClaimTable) (cs : List Course) : recordLoop x p t cs = recordLoop y p u cs := by
  unfold recordLoop
  simp [makeClaim]

theorem recordLoop_perm {x y : Ctx} (p : Path) (t u : ClaimTable) {cs ds : List Course} (h : cs.Perm ds) :
    (recordLoop x p t cs).Perm (recordLoop y p u ds) := by
  rw [recordLoop_eq (y := y) p t u cs]
  exact h.map _

theorem forcedCourses_alike {x y : Ctx} (hx : x.Alike y) (ks : List String) : forcedCourses x ks = forcedCourses y ks := by
  induction ks with
  | nil => rfl
  | cons k ks ih => unfold forcedCourses; rw [hx.forced, ih]

/-- what two queries collect -/
def Collected.Alike (c d : Collected) : Prop :=
  c.items.Perm d.items ∧ c.successful.Perm d.successful ∧ c.failed = d.failed

theorem collect_alike {x y : Ctx} (hx : x.Alike y) {d e : QueryData} (h : d.Steady e) {t u : ClaimTable} (ht : t.Alike u) :
    ExAlike (fun p q => p.1.Alike q.1 ∧ p.2.Alike q.2 ∧ (d.source ≠ .claimed → d.output = e.output → p.1.items = q.1.items))
      (collect x d t) (collect y e u) := by
  obtain ⟨⟨he, ha, hout, hsucc⟩, hsteady, -⟩ := h
  obtain ⟨as, out, succ, rfl⟩ : ∃ as out succ, e = { d with assertions := as, output := out, successful := succ } := ⟨_, _, _, he⟩
  dsimp only at hout hsteady
  unfold collect
  dsimp only
  cases hs : d.source with
  | courses =>
    dsimp only
    unfold collectCourses
    dsimp only
    rcases (itemCourses_perm hout).cases with ⟨e, e', h1, h2⟩ | ⟨cs, ds, h1, h2, h3⟩
    · rw [h1, h2]; trivial
    rw [h1, h2]
    dsimp only
    cases hc : d.attemptClaims
    · simp only [Bool.false_eq_true, if_false]
      split
      · refine ⟨⟨h3.map _, recordLoop_perm _ _ _ h3, rfl⟩, ht, fun _ h => ?_⟩
        dsimp only
        rw [h, h2] at h1; cases h1; rfl
      · refine ⟨⟨h3.map _, .refl _, rfl⟩, ht, fun _ h => ?_⟩
        dsimp only
        rw [h, h2] at h1; cases h1; rfl
    · simp only [if_true]
      have ho := hsteady hs hc
      rw [ho, h2] at h1
      cases h1
      obtain ⟨h4, h5⟩ := claimLoop_alike hx (d := d) (e := { d with source := .courses, attemptClaims := true, assertions := as, output := out, successful := succ }) rfl rfl rfl cs ht {}
      refine ⟨?_, h5, fun _ _ => by rw [h4]⟩
      rw [h4]
      exact ⟨.refl _, .refl _, rfl⟩
  | claimed =>
    dsimp only
    unfold collectClaimed
    dsimp only
    rcases (allClaimed_alike hx ht.1).cases with ⟨e, e', h1, h2⟩ | ⟨cs, ds, h1, h2, h3⟩
    · rw [h1, h2]; trivial
    rw [h1, h2]
    dsimp only
    have hrest : ∀ is js : List Item, is.Perm js → ExAlike (fun (p q : Collected × ClaimTable) => p.1.Alike q.1 ∧ p.2.Alike q.2 ∧
          (QuerySource.claimed ≠ .claimed → d.output = out → p.1.items = q.1.items))
        (match itemCourses is with
          | .error e => .error e
          | .ok cs => match forcedCourses x d.inserted with
            | .error e => .error e
            | .ok ins =>
              .ok ({ items := (cs.filter (fun c => !d.excluded.contains c.clbid) ++ ins).map .course,
                     successful := if d.recordClaims then
                        recordLoop x d.path t (cs.filter (fun c => !d.excluded.contains c.clbid) ++ ins) else [] }, t))
        (match itemCourses js with
          | .error e => .error e
          | .ok cs => match forcedCourses y d.inserted with
            | .error e => .error e
            | .ok ins =>
              .ok ({ items := (cs.filter (fun c => !d.excluded.contains c.clbid) ++ ins).map .course,
                     successful := if d.recordClaims then
                        recordLoop y d.path u (cs.filter (fun c => !d.excluded.contains c.clbid) ++ ins) else [] }, u)) := by
      intro is js h
      rcases (itemCourses_perm h).cases with ⟨e, e', h1, h2⟩ | ⟨cs, ds, h1, h2, h3⟩
      · rw [h1, h2]; trivial
      rw [h1, h2, forcedCourses_alike hx]
      dsimp only
      cases forcedCourses y d.inserted with
      | error e => trivial
      | ok ins =>
        have h4 : (cs.filter (fun c => !d.excluded.contains c.clbid) ++ ins).Perm (ds.filter (fun c => !d.excluded.contains c.clbid) ++ ins) :=
          (h3.filter _).append_right _
        refine ⟨⟨h4.map _, ?_, rfl⟩, ht, fun h => absurd rfl h⟩
        dsimp only
        split
        · exact recordLoop_perm _ _ _ h4
        · exact .refl _
    cases hw : d.where' with
    | none => exact hrest _ _ (h3.map _)
    | some p =>
      dsimp only
      rcases (filterItems_perm p (h3.map Item.course)).cases with ⟨e, e', h1, h2⟩ | ⟨cs, ds, h1, h2, h3⟩
      · rw [h1, h2]; trivial
      · rw [h1, h2]; exact hrest _ _ h3
  | _ => exact ⟨⟨hout, .refl _, rfl⟩, ht, fun _ h => h⟩

theorem audit_orderFree {x : Ctx} {a a' : Assertion} {l : List Item} (h : a.audit x l = .ok a') (ha : a.OrderFree) : a'.OrderFree := by
  unfold Assertion.audit at h
  split at h
  · cases h; exact ha
  · dsimp only at h
    split at h
    · cases h
    split at h
    · cases h
    split at h
    · cases h
    split at h
    · cases h
    · cases h; exact ha

theorem anyAudit_orderFree {x : Ctx} {a a' : AnyAssertion} {l : List Item} (h : a.audit x l = .ok a') (ha : a.All Assertion.OrderFree) :
    a'.All Assertion.OrderFree := by
  unfold AnyAssertion.audit at h
  split at h
  · split at h
    · cases h
    · rename_i h1; cases h; exact audit_orderFree h1 ha
  · split at h
    · cases h
    · rename_i h1; cases h; exact ⟨audit_orderFree h1 ha.1, ha.2⟩
  · split at h
    · cases h
    · rename_i h1
      cases h
      refine ⟨ha.1, fun e he => ?_⟩
      cases he
      exact audit_orderFree h1 (ha.2 _ rfl)
  · cases h; exact ha
  · cases h
  · split at h
    · cases h
    · split at h
      · split at h
        · cases h
        · rename_i h1; cases h; exact audit_orderFree h1 ha
      · cases h; exact ha

theorem auditAssertions_orderFree {x : Ctx} {as bs : List AnyAssertion} {l : List Item} (h : auditAssertions x l as = .ok bs)
    (ha : ∀ a ∈ as, a.All Assertion.OrderFree) : ∀ a ∈ bs, a.All Assertion.OrderFree := by
  induction as generalizing bs with
  | nil => cases h; exact ha
  | cons a as ih =>
    unfold auditAssertions at h
    split at h
    · cases h
    split at h
    · cases h
    · rename_i h1 _ _ h2
      cases h
      intro b hb
      rcases List.mem_cons.1 hb with rfl | hb
      · exact anyAudit_orderFree h1 (ha a (by simp))
      · exact ih h2 (fun a' h' => ha a' (List.mem_cons_of_mem _ h')) b hb

theorem assertionAudit_alike {x y : Ctx} (hx : x.Alike y) (a : Assertion) (l : List Item) : a.audit x l = a.audit y l := by
  have h1 : ∀ es l ins, insertInto x es l ins = insertInto y es l ins := by
    intro es
    induction es with
    | nil => intro l ins; rfl
    | cons e es ih => intro l ins; unfold insertInto; simp only [hx.forced, hx.find, ih]
  have h2 : ∀ es l, blockFrom x es l = blockFrom y es l := by
    intro es
    induction es with
    | nil => intro l; rfl
    | cons e es ih => intro l; unfold blockFrom; simp only [hx.forced, ih]
  unfold Assertion.audit
  simp only [hx.exceptions, h1, h2]

theorem auditAssertions_alike {x y : Ctx} (hx : x.Alike y) (l : List Item) (as : List AnyAssertion) :
    auditAssertions x l as = auditAssertions y l as := by
  induction as with
  | nil => rfl
  | cons a as ih =>
    have : a.audit x l = a.audit y l := by
      unfold AnyAssertion.audit
      simp only [assertionAudit_alike hx]
    unfold auditAssertions
    rw [this, ih]

theorem queryAudit_alike {x y : Ctx} (hx : x.Alike y) {d e : QueryData} (h : d.Steady e) {t u : ClaimTable} (ht : t.Alike u) :
    ExAlike (fun p q => p.1.Steady q.1 ∧ p.2.Alike q.2) (queryAudit x d t) (queryAudit y e u) := by
  have hcol := collect_alike hx h ht
  obtain ⟨⟨he, ha, hout, hsucc⟩, hsteady, hfree⟩ := h
  obtain ⟨as, out, succ, rfl⟩ : ∃ as out succ, e = { d with assertions := as, output := out, successful := succ } := ⟨_, _, _, he⟩
  dsimp only at ha hout hsteady hsucc hfree
  unfold queryAudit
  dsimp only
  by_cases hov : d.overridden = true
  swap
  · rw [if_neg hov, if_neg hov]
    rcases hcol.cases with ⟨e, e', h1, h2⟩ | ⟨⟨c, t'⟩, ⟨c', u'⟩, h1, h2, ⟨h3, h4, h5⟩, h6, h7⟩
    · rw [h1, h2]; trivial
    rw [h1, h2]
    dsimp only at h3 h4 h5 h6 h7 ⊢
    have hnil : c.items = [] ↔ c'.items = [] :=
      ⟨fun e => List.nil_perm.1 (e ▸ h3), fun e => List.perm_nil.1 (e ▸ h3)⟩
    rw [(statuses_alike ha).2.2]
    by_cases hcond : d.source = .courses ∧ c'.items = [] ∧ nonPrimaryLt d.assertions = true
    · rw [if_pos hcond, if_pos ⟨hcond.1, hnil.2 hcond.2.1, hcond.2.2⟩]
      refine ⟨⟨⟨?_, ha, hout, h4⟩, hsteady, hfree⟩, h6⟩
      simp only [h5]
    · rw [if_neg hcond, if_neg (fun h => hcond ⟨h.1, hnil.1 h.2.1, h.2.2⟩)]
      rcases hfree with ⟨g1, g2, g3⟩ | hfree
      · rw [h7 g1 g2, auditAssertions_alike hx, g3]
        cases auditAssertions y c'.items as with
        | error e => trivial
        | ok bs =>
          refine ⟨⟨⟨?_, List.forall₂_same.2 (fun a _ => .refl a), hout, h4⟩, hsteady, .inl ⟨g1, g2, rfl⟩⟩, h6⟩
          simp only [h5]
      · rcases (auditAssertions_perm hx ha hfree h3).cases with ⟨e, e', h1, h2⟩ | ⟨bs, bs', h1, h2, h8⟩
        · rw [h1, h2]; trivial
        · rw [h1, h2]
          refine ⟨⟨⟨?_, h8, hout, h4⟩, hsteady, .inr (auditAssertions_orderFree h1 hfree)⟩, h6⟩
          simp only [h5]
  · rw [if_pos hov, if_pos hov]
    exact ⟨⟨⟨rfl, ha, hout, .refl _⟩, hsteady, hfree⟩, ht⟩

theorem courseAudit_alike {x y : Ctx} (hx : x.Alike y) (d : CourseData) {t u : ClaimTable} (ht : t.Alike u) :
    ExAlike (fun p q => p.1 = q.1 ∧ p.2.Alike q.2) (courseAudit x d t) (courseAudit y d u) := by
  unfold courseAudit
  dsimp only
  cases d.overridden
  · simp only [Bool.false_eq_true, if_false]
    cases d.matched with
    | none => exact ⟨rfl, ht⟩
    | some c =>
      dsimp only
      rw [hasClaim_alike ht, ← hx.multicountable]
      obtain ⟨h1, h2⟩ := makeClaim_alike (m := x.multicountable) ht c d.path (d.forced || d.allowClaimed)
      rw [h1]
      split
      · exact ⟨rfl, ht⟩
      · split
        · trivial
        · exact ⟨rfl, h2⟩
  · exact ⟨rfl, ht⟩

theorem matchedItems_perm {o o' : Orders} (ho : o.Lawful) (ho' : o'.Lawful) {l l' : List Node} (h : List.Forall₂ Node.Alike l l') :
    (matchedItems o l).Perm (matchedItems o' l') := by
  induction h with
  | nil => exact .refl _
  | cons hd _ ih =>
    unfold matchedItems
    simp only [List.flatMap_cons]
    exact ((((ho.2.1 _ _).trans hd.matched_perm).trans (ho'.2.1 _ _).symm).map _).append ih

mutual
/-- **Auditing alike solutions gives alike results**, and records the same claims. -/
theorem Node.audit_steady {x y : Ctx} (hx : x.Alike y) {o o' : Orders} (ho : o.Lawful) (ho' : o'.Lawful) : ∀ (n n' : Node) (t u : ClaimTable),
    n.Steady n' → t.Alike u → ExAlike (fun p q => p.1.Steady q.1 ∧ p.2.Alike q.2) (n.audit x o t) (n'.audit y o' u)
  | .course s d, n', t, u, h, ht => by
    cases n' <;> simp only [Node.Steady, Node.AlikeWith] at h
    obtain ⟨rfl, rfl⟩ := h
    cases s <;> unfold Node.audit
    · exact ⟨⟨rfl, rfl⟩, ht⟩
    · skip
      rcases (courseAudit_alike hx d ht).cases with ⟨e, e', h1, h2⟩ | ⟨⟨c, t'⟩, ⟨c', u'⟩, h1, h2, h3, h4⟩
      · rw [h1, h2]; trivial
      · rw [h1, h2]; exact ⟨⟨rfl, h3⟩, h4⟩
    · exact ⟨⟨rfl, rfl⟩, ht⟩
  | .query s d, n', t, u, h, ht => by
    cases n' <;> simp only [Node.Steady, Node.AlikeWith] at h
    obtain ⟨rfl, h⟩ := h
    cases s <;> unfold Node.audit
    · exact ⟨⟨rfl, h⟩, ht⟩
    · skip
      rcases (queryAudit_alike hx h ht).cases with ⟨e, e', h1, h2⟩ | ⟨⟨c, t'⟩, ⟨c', u'⟩, h1, h2, h3, h4⟩
      · rw [h1, h2]; trivial
      · rw [h1, h2]; exact ⟨⟨rfl, h3⟩, h4⟩
    · exact ⟨⟨rfl, h⟩, ht⟩
  | .count s d l, n', t, u, h, ht => by
    cases n' <;> simp only [Node.Steady, Node.AlikeWith] at h
    rename_i s' d' l'
    obtain ⟨rfl, hd, hl⟩ := h
    cases s <;> unfold Node.audit
    · exact ⟨⟨rfl, hd, hl⟩, ht⟩
    · skip
      have hov : d'.overridden = d.overridden := by rw [hd.1.1]
      rw [hov]
      cases d.overridden
      · simp only [Bool.false_eq_true, if_false]
        rcases (Node.audit_steadyList hx ho ho' l l' t u hl ht).cases with ⟨e, e', h1, h2⟩ | ⟨⟨c, t'⟩, ⟨c', u'⟩, h1, h2, h3, h4⟩
        · rw [h1, h2]; trivial
        rw [h1, h2]
        dsimp only at h3 ⊢
        have hmi := matchedItems_perm ho ho' (List.Forall₂.imp (fun _ _ h => Node.Steady.alike h) (alikeList_iff.1 h3))
        rcases (auditAssertions_perm hx hd.1.2 hd.2 hmi).cases with ⟨e, e', h1, h2⟩ | ⟨bs, bs', h1, h2, h5⟩
        · rw [h1, h2]; trivial
        · rw [h1, h2]
          refine ⟨⟨rfl, ⟨⟨?_, h5⟩, auditAssertions_orderFree h1 hd.2⟩, h3⟩, h4⟩
          rw [hd.1.1]
      · exact ⟨⟨rfl, hd, hl⟩, ht⟩
    · exact ⟨⟨rfl, hd, hl⟩, ht⟩
  | .req s d r, n', t, u, h, ht => by
    cases n' <;> simp only [Node.Steady, Node.AlikeWith] at h
    obtain ⟨rfl, rfl, hr⟩ := h
    rename_i r'
    cases s <;> unfold Node.audit
    · exact ⟨⟨rfl, rfl, hr⟩, ht⟩
    · skip
      split
      · exact ⟨⟨rfl, rfl, hr⟩, ht⟩
      · rcases (Node.audit_steadyOpt hx ho ho' r r' t u hr ht).cases with ⟨e, e', h1, h2⟩ | ⟨⟨c, t'⟩, ⟨c', u'⟩, h1, h2, h3, h4⟩
        · rw [h1, h2]; trivial
        · rw [h1, h2]; exact ⟨⟨rfl, rfl, h3⟩, h4⟩
    · exact ⟨⟨rfl, rfl, hr⟩, ht⟩
  | .cond s d th f, n', t, u, h, ht => by
    cases n' <;> simp only [Node.Steady, Node.AlikeWith] at h
    obtain ⟨rfl, rfl, hth, hf⟩ := h
    rename_i th' f'
    cases s <;> unfold Node.audit
    · exact ⟨⟨rfl, rfl, hth, hf⟩, ht⟩
    · skip
      rcases d.condition with _ | _ | _
      · exact ⟨⟨rfl, rfl, hth, hf⟩, ht⟩
      · dsimp only
        rcases (Node.audit_steadyOpt hx ho ho' f f' t u hf ht).cases with ⟨e, e', h1, h2⟩ | ⟨⟨c, t'⟩, ⟨c', u'⟩, h1, h2, h3, h4⟩
        · rw [h1, h2]; trivial
        · rw [h1, h2]; exact ⟨⟨rfl, rfl, hth, h3⟩, h4⟩
      · dsimp only
        rcases (Node.audit_steady hx ho ho' th th' t u hth ht).cases with ⟨e, e', h1, h2⟩ | ⟨⟨c, t'⟩, ⟨c', u'⟩, h1, h2, h3, h4⟩
        · rw [h1, h2]; trivial
        · rw [h1, h2]; exact ⟨⟨rfl, rfl, h3, hf⟩, h4⟩
    · exact ⟨⟨rfl, rfl, hth, hf⟩, ht⟩
  | .prof s d c, n', t, u, h, ht => by
    cases n' <;> simp only [Node.Steady, Node.AlikeWith] at h
    obtain ⟨rfl, rfl, rfl⟩ := h
    cases s <;> unfold Node.audit
    · exact ⟨⟨rfl, rfl, rfl⟩, ht⟩
    · skip
      unfold profAudit
      rw [← hx.proficiencies]
      split
      · exact ⟨⟨rfl, rfl, rfl⟩, ht⟩
      · cases x.proficiencies.status d.proficiency false with
        | error e => trivial
        | ok st =>
          dsimp only
          rcases c with _ | ⟨_ | _ | _, cd⟩
          · exact ⟨⟨rfl, rfl, rfl⟩, ht⟩
          · exact ⟨⟨rfl, rfl, rfl⟩, ht⟩
          · dsimp only
            rcases (courseAudit_alike hx cd ht).cases with ⟨e, e', h1, h2⟩ | ⟨⟨c, t'⟩, ⟨c', u'⟩, h1, h2, h3, h4⟩
            · rw [h1, h2]; trivial
            · rw [h1, h2]
              dsimp only at h3
              subst h3
              exact ⟨⟨rfl, rfl, rfl⟩, h4⟩
          · exact ⟨⟨rfl, rfl, rfl⟩, ht⟩
    · exact ⟨⟨rfl, rfl, rfl⟩, ht⟩
theorem Node.audit_steadyList {x y : Ctx} (hx : x.Alike y) {o o' : Orders} (ho : o.Lawful) (ho' : o'.Lawful) : ∀ (l l' : List Node)
    (t u : ClaimTable), Node.AlikeWithList QueryData.Steady CountData.Steady l l' → t.Alike u →
    ExAlike (fun p q => Node.AlikeWithList QueryData.Steady CountData.Steady p.1 q.1 ∧ p.2.Alike q.2)
      (Node.auditList x o l t) (Node.auditList y o' l' u)
  | [], l', t, u, h, ht => by
    cases l' <;> simp only [Node.AlikeWithList] at h
    exact ⟨trivial, ht⟩
  | n :: l, l', t, u, h, ht => by
    cases l' <;> simp only [Node.AlikeWithList] at h
    rename_i n' l'
    simp only [Node.auditList]
    rcases (Node.audit_steady hx ho ho' n n' t u h.1 ht).cases with ⟨e, e', h1, h2⟩ | ⟨⟨c, t'⟩, ⟨c', u'⟩, h1, h2, h3, h4⟩
    · rw [h1, h2]; trivial
    rw [h1, h2]
    dsimp only
    rcases (Node.audit_steadyList hx ho ho' l l' t' u' h.2 h4).cases with ⟨e, e', h1, h2⟩ | ⟨⟨cs, t''⟩, ⟨cs', u''⟩, h1, h2, h5, h6⟩
    · rw [h1, h2]; trivial
    · rw [h1, h2]; exact ⟨⟨h3, h5⟩, h6⟩
theorem Node.audit_steadyOpt {x y : Ctx} (hx : x.Alike y) {o o' : Orders} (ho : o.Lawful) (ho' : o'.Lawful) : ∀ (l l' : Option Node)
    (t u : ClaimTable), Node.AlikeWithOpt QueryData.Steady CountData.Steady l l' → t.Alike u →
    ExAlike (fun p q => Node.AlikeWithOpt QueryData.Steady CountData.Steady p.1 q.1 ∧ p.2.Alike q.2)
      (Node.auditOpt x o l t) (Node.auditOpt y o' l' u)
  | none, l', t, u, h, ht => by
    cases l' <;> simp only [Node.AlikeWithOpt] at h
    exact ⟨trivial, ht⟩
  | some n, l', t, u, h, ht => by
    cases l' <;> simp only [Node.AlikeWithOpt] at h
    simp only [Node.auditOpt]
    rcases (Node.audit_steady hx ho ho' n _ t u h ht).cases with ⟨e, e', h1, h2⟩ | ⟨⟨c, t'⟩, ⟨c', u'⟩, h1, h2, h3, h4⟩
    · rw [h1, h2]; trivial
    · rw [h1, h2]; exact ⟨h3, h4⟩
end

end Dp
