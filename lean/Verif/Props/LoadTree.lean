import Verif.Props.LoadBasic

/-
The rules of an area file as a relation: which tree stands for which text.  All properties of
loaded trees are proved by induction on it.
-/
namespace Dp

/-- which kind of rule a dictionary describes -/
inductive RuleKind where
  | proficiency | course | query | conditional | count | inline | reference | unknown
deriving DecidableEq

/-- the first kind that fits -/
def ruleKind (d : Dict) : RuleKind :=
  if d.has "proficiency" then .proficiency
  else if d.has "course" || d.has "clbid" || d.has "crsid" || d.has "ap" then .course
  else if d.has "from" then .query
  else if d.has "$if" then .conditional
  else if isCount d then .count
  else if d.has "name" then .inline
  else if d.has "requirement" then .reference
  else .unknown

/-- the path segment of an item of a count rule -/
def itemSeg (i : Nat) (y : Y) : String :=
  match y with
  | .map d => match Dict.opt d "__emphasis" with
    | some (.str s) => if s ≠ "" then ".emphasis" else indexSeg i
    | _ => indexSeg i
  | _ => indexSeg i

/-- the requirement a rule names: the name and the text of the requirement -/
def RefersTo (kids d : Dict) (name : String) (body : Dict) : Prop :=
  (ruleKind d = .inline ∧ d.get? "name" = some (.str name) ∧ body = d) ∨
  (ruleKind d = .reference ∧ d.get? "requirement" = some (.str name) ∧ kids.get? name = some (.map body))

/-- `Built env kids ems p y n`: the text `y` at the place `p`, with requirements `kids` and emphases `ems`,
stands for the rule `n` (`none`: a hidden conditional). -/
inductive Built (env : Env) : Dict → List Dict → Path → Y → Option Node → Prop
  | prof {kids ems p d n} : ruleKind d = .proficiency → loadProficiency d p = .ok n →
      Built env kids ems p (.map d) (some n)
  | course {kids ems p d r} : ruleKind d = .course → loadCourseRule d p = .ok r →
      Built env kids ems p (.map d) (some (.course .rule r))
  | query {kids ems p d r} : ruleKind d = .query → loadQuery env d p = .ok r →
      Built env kids ems p (.map d) (some (.query .rule r))
  | cond {kids ems p d yif b yt t f hide} : ruleKind d = .conditional →
      onlyKeys ["$if", "$then", "$else", "$hide-when-false"] d = true →
      d.get? "$if" = some yif → loadCond env.ctx yif = .ok b →
      d.get? "$then" = some yt → Built env kids [] (p ++ [".cond", "/t"]) yt (some t) →
      (∀ yf, d.opt "$else" = some yf → Built env kids [] (p ++ [".cond", "/f"]) yf f) →
      (d.opt "$else" = none → f = none) → d.flag "$hide-when-false" false = .ok hide →
      Built env kids ems p (.map d)
        (if !(getWaiveException env.ctx.exceptions (p ++ [".cond"])).isSome && !b && hide then none
         else some (.cond .rule { path := p ++ [".cond"], condition := some b,
                                  overridden := (getWaiveException env.ctx.exceptions (p ++ [".cond"])).isSome } t f))
  | count {kids ems p d kids' listed expanded emItems inserts audits atMost cnt} {parts : List (Y × Option Node)} :
      ruleKind d = .count → onlyKeys countKeys d = true →
      countItems d = .ok listed → expandTemplates env.templates listed = .ok expanded →
      addEmphases kids ems = .ok (kids', emItems) →
      insertedItems env.ctx (getInsertExceptions env.ctx.exceptions (p ++ [".count"])) = .ok inserts →
      loadAudits env (p ++ [".count"]) d = .ok audits → d.flag "at_most" false = .ok atMost →
      parts.map (·.1) = expanded ++ emItems ++ inserts →
      (∀ i y n, parts[i]? = some (y, n) → Built env kids' [] (p ++ [".count", itemSeg i y]) y n) →
      neededCount d (!inserts.isEmpty) (parts.filterMap (·.2)).length = .ok cnt → 0 ≤ cnt →
      cnt < (if atMost then cnt + 1 else ((expanded ++ emItems ++ inserts).length : Int) + 1) →
      Built env kids ems p (.map d)
        (some (.count .rule { path := p ++ [".count"], count := cnt.toNat, audits := audits, atMost := atMost }
          (parts.filterMap (·.2))))
  | req {kids ems p d name body rd} {r : Option Node} : RefersTo kids d name body → onlyKeys requirementKeys body = true →
      (body.opt "result" = none → r = none) →
      (∀ yr, body.opt "result" = some yr → r.isSome = true) →
      (∀ yr own, body.opt "result" = some yr → body.dict "requirements" = .ok own →
        Built env own [] (p ++ ["%" ++ name]) yr r) →
      (∀ yr, body.opt "result" = some yr → ∃ own, body.dict "requirements" = .ok own ∧
        ∀ k ∈ own.keys, ∃ n, r = some n ∧ k ∈ n.requirementNames) →
      rd.path = p ++ ["%" ++ name] → rd.name = name → rd.overridden = false →
      (rd.isAudited = true ∨ r.isSome = true) → ¬ (∀ ch ∈ name.toList, ch.isWhitespace) →
      auditedFlag body = .ok rd.isAudited → body.flag "contract" false = .ok rd.isContract →
      body.flag "in_gpa" true = .ok rd.inGpa →
      body.opt "disjoint" = rd.disjoint.map Y.bool →
      Built env kids ems p (.map d) (some (.req .rule rd r))

/-! ### Helper lemmas: reading the loading functions backwards -/

theorem childPath_eq {p : Path} {i : Nat} {y : Y} {q : Path} (h : childPath p i y = .ok q) :
    q = p ++ [itemSeg i y] := by
  unfold childPath at h
  simp only [ld_bind_ok, ld_asDict] at h
  obtain ⟨d, rfl, m, hm, h⟩ := h
  cases h
  unfold Dict.text at hm
  unfold itemSeg
  simp only
  split at hm <;> rename_i heq <;> simp only [heq]
  · cases hm; simp [given]
  · cases hm
    rename_i s
    by_cases hs : s = "" <;> simp [given, hs]
  · cases hm

theorem loadItems_parts {load : Loader} {kids : Dict} {path : Path} : ∀ {ys : List Y} {i : Nat} {ns : List Node},
    loadItems load kids path i ys = .ok ns → ∃ parts : List (Y × Option Node), parts.map (·.1) = ys ∧
      ns = parts.filterMap (·.2) ∧
      ∀ j y n, parts[j]? = some (y, n) → load kids (path ++ [itemSeg (i + j) y]) y = .ok n := by
  intro ys
  induction ys with
  | nil => intro i ns h; simp [loadItems] at h; subst h; exact ⟨[], rfl, rfl, by simp⟩
  | cons y ys ih =>
    intro i ns h
    simp only [loadItems, ld_bind_ok] at h
    obtain ⟨q, hq, n, hn, rest, hrest, h⟩ := h
    cases h
    obtain ⟨parts, h1, h2, h3⟩ := ih hrest
    have hq := childPath_eq hq
    subst hq
    refine ⟨(y, n) :: parts, by simp [h1], ?_, ?_⟩
    · cases n <;> simp [h2]
    · intro j y' n' hj
      cases j with
      | zero => simp at hj; obtain ⟨rfl, rfl⟩ := hj; exact hn
      | succ j =>
        simp only [List.getElem?_cons_succ] at hj
        have := h3 j y' n' hj
        rw [show i + (j + 1) = i + 1 + j by omega]; exact this

theorem loadRule_kind (env : Env) (n : Nat) (kids : Dict) (ems : List Dict) (p : Path) (d : Dict) :
    loadRule env (n + 1) kids ems p (.map d) = (do
      let _ ← check (ems.isEmpty || isCount d)
      match ruleKind d with
      | .proficiency => do
        let r ← loadProficiency d p
        .ok (some r)
      | .course => do
        let r ← loadCourseRule d p
        .ok (some (.course .rule r))
      | .query => do
        let r ← loadQuery env d p
        .ok (some (.query .rule r))
      | .conditional => loadConditional env.ctx (fun kids p y => loadRule env n kids [] p y) kids d p
      | .count => do
        let r ← loadCount env (fun kids p y => loadRule env n kids [] p y) kids ems d p
        .ok (some r)
      | .inline => do
        let name ← (← d.need "name").asText
        let r ← loadRequirement (fun kids p y => loadRule env n kids [] p y) name d p
        .ok (some r)
      | .reference => do
        let name ← (← d.need "requirement").asText
        let body ← (← kids.need name).asDict
        let r ← loadRequirement (fun kids p y => loadRule env n kids [] p y) name body p
        .ok (some r)
      | .unknown => .error .valueError) := by
  rw [loadRule]
  simp only [Y.asDict, bind, Except.bind]
  unfold ruleKind
  split
  · rfl
  · repeat' split
    all_goals first | rfl | simp_all

theorem loadRequirement_built {env : Env} {load : Loader} {name : String} {body d kids : Dict} {ems : List Dict} {p : Path} {n : Node}
    (hl : ∀ kids p y o, load kids p y = .ok o → Built env kids [] p y o) (hn : RefersTo kids d name body)
    (h : loadRequirement load name body p = .ok n) : Built env kids ems p (.map d) (some n) := by
  unfold loadRequirement at h
  simp only [ld_bind_ok, ld_check_ok] at h
  obtain ⟨_, hk, r, hr, au, hau, _, h1, m, hm, _, h2, _, h3, co, hco, ig, hig, dj, hdj, h⟩ := h
  cases h
  have hdj' : body.opt "disjoint" = dj.map Y.bool := by
    split at hdj
    · rename_i heq; cases hdj; exact heq
    · rename_i heq; cases hdj; exact heq
    · cases hdj
  have hws : ¬ (∀ ch ∈ name.toList, ch.isWhitespace) := by
    intro hall
    simp only [Bool.not_eq_true'] at h2
    rw [List.all_eq_true.2 hall] at h2
    cases h2
  unfold loadReqResult at hr
  split at hr
  · rename_i hnone
    cases hr
    refine Built.req hn hk (fun _ => rfl) ?_ ?_ ?_ rfl rfl rfl ?_ hws hau hco hig hdj'
    · intro yr hyr; rw [hnone] at hyr; cases hyr
    · intro yr own hyr; rw [hnone] at hyr; cases hyr
    · intro yr hyr; rw [hnone] at hyr; cases hyr
    · simpa using h1
  · rename_i yr hyr
    simp only [ld_bind_ok] at hr
    obtain ⟨own, hown, o, ho, hr⟩ := hr
    cases o with
    | none => cases hr
    | some r' =>
      simp only [ld_bind_ok, ld_check_ok] at hr
      obtain ⟨_, hall, hr⟩ := hr
      cases hr
      have hb := hl _ _ _ _ ho
      refine Built.req hn hk ?_ (fun _ _ => rfl) ?_ ?_ rfl rfl rfl ?_ hws hau hco hig hdj'
      · intro h0; rw [h0] at hyr; cases hyr
      · intro yr' own' h0 h1'
        rw [hyr] at h0; cases h0
        rw [hown] at h1'; cases h1'
        exact hb
      · intro yr' _
        refine ⟨own, hown, ?_⟩
        intro k hk'
        refine ⟨r', rfl, ?_⟩
        have := List.all_eq_true.1 hall k hk'
        simpa using this
      · exact Or.inr rfl

/-- What `loadRule` makes of a text stands for the text. -/
theorem loadRule_built {env : Env} : ∀ (n : Nat) {kids : Dict} {ems : List Dict} {p : Path} {y : Y} {o : Option Node},
    loadRule env n kids ems p y = .ok o → Built env kids ems p y o := by
  intro n
  induction n with
  | zero => intro kids ems p y o h; simp [loadRule] at h
  | succ n ih =>
    intro kids ems p y o h
    have hy : ∃ d, y = .map d := by
      rw [loadRule] at h
      simp only [ld_bind_ok, ld_asDict] at h
      obtain ⟨d, hd, _⟩ := h
      exact ⟨d, hd⟩
    obtain ⟨d, rfl⟩ := hy
    have hl : ∀ kids p y o, (fun kids p y => loadRule env n kids [] p y) kids p y = .ok o → Built env kids [] p y o :=
      fun kids p y o h => ih h
    rw [loadRule_kind] at h
    simp only [ld_bind_ok, ld_check_ok] at h
    obtain ⟨_, _, h⟩ := h
    split at h
    · rename_i hk
      simp only [ld_bind_ok] at h
      obtain ⟨r, hr, h⟩ := h
      cases h
      exact .prof hk hr
    · rename_i hk
      simp only [ld_bind_ok] at h
      obtain ⟨r, hr, h⟩ := h
      cases h
      exact .course hk hr
    · rename_i hk
      simp only [ld_bind_ok] at h
      obtain ⟨r, hr, h⟩ := h
      cases h
      exact .query hk hr
    · rename_i hk
      unfold loadConditional at h
      simp only [ld_bind_ok, ld_check_ok, ld_need] at h
      obtain ⟨_, honly, yif, hif, b, hb, yt, hyt, t, ht, h⟩ := h
      cases t with
      | none => cases h
      | some t =>
        simp only [ld_bind_ok] at h
        obtain ⟨f, hf, hide, hhide, h⟩ := h
        cases h
        refine .cond hk honly hif hb hyt (by simpa using ih ht) ?_ ?_ hhide
        · intro yf hyf
          rw [hyf] at hf
          simpa using ih hf
        · intro hno
          rw [hno] at hf
          cases hf; rfl
    · rename_i hk
      simp only [ld_bind_ok] at h
      obtain ⟨r, hr, h⟩ := h
      cases h
      unfold loadCount at hr
      simp only [ld_bind_ok, ld_check_ok] at hr
      obtain ⟨listed, h1, expanded, h2, ⟨kids', emItems⟩, h3, inserts, h4, atMost, h5, audits, h6, loaded, h7, cnt, h8,
        _, h9, _, h10, _, h11, hr⟩ := hr
      cases hr
      obtain ⟨parts, hp1, rfl, hp3⟩ := loadItems_parts h7
      refine .count hk h9 h1 h2 h3 h4 h6 h5 hp1 ?_ h8 (by simpa using h10) (by simpa using h11)
      intro i y m hi
      have := ih (hp3 i y m hi)
      simpa using this
    · rename_i hk
      simp only [ld_bind_ok, ld_need, ld_asText] at h
      obtain ⟨y, hy, name, rfl, r, hr, h⟩ := h
      cases h
      exact loadRequirement_built hl (Or.inl ⟨hk, hy, rfl⟩) hr
    · rename_i hk
      simp only [ld_bind_ok, ld_need, ld_asText, ld_asDict] at h
      obtain ⟨y, hy, name, rfl, yb, hb, body, rfl, r, hr, h⟩ := h
      cases h
      exact loadRequirement_built hl (Or.inr ⟨hk, hy, hb⟩) hr
    · cases h

end Dp
