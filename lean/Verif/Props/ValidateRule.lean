import Verif.Props.ValidateClause
import Verif.Props.LoadTree
import Verif.Props.Details

/-
Loading the rules of one text in two settings.
-/
namespace Dp

/-! ### The parts of a text -/

/-- `PartOf z y`: the text `z` stands somewhere within the text `y`, or is it -/
inductive PartOf : Y → Y → Prop
  | self (y : Y) : PartOf y y
  | item {z y : Y} {l : List Y} : y ∈ l → PartOf z y → PartOf z (.list l)
  | field {z y : Y} {k : String} {d : Dict} : (k, y) ∈ d → PartOf z y → PartOf z (.map d)

/-- no requirement is named or written within the text -/
def NamesNothing (y : Y) : Prop := ∀ d, PartOf (.map d) y → ruleKind d ≠ .inline ∧ ruleKind d ≠ .reference

/-- A dictionary whose loading does not depend on who is audited: it lists no template, unless the student has none; a conditional
rule is not hidden, and either its condition has the same answer for nobody as for the student, or no requirement depends on it. -/
def SettledRule (x : Ctx) (es : List Exc) (ts : List (String × TemplateCourse)) (d : Dict) : Prop :=
  (ts = [] ∨ d.get? "template" = none) ∧
  (ruleKind d = .conditional → d.get? "$hide-when-false" = none ∧
    ((∀ y b, d.get? "$if" = some y → Decides {} [] y b → Decides x es y b) ∨
      ∀ k ∈ ["$then", "$else"], ∀ y, d.get? k = some y → NamesNothing y))

/-- every dictionary within the text is settled -/
def SettledText (x : Ctx) (es : List Exc) (ts : List (String × TemplateCourse)) (y : Y) : Prop :=
  ∀ d, PartOf (.map d) y → SettledRule x es ts d

theorem dict_get_entry : ∀ {d : Dict} {k : String} {y : Y}, d.get? k = some y → (k, y) ∈ d := by
  intro d
  induction d with
  | nil => intro k y h; simp [Dict.get?] at h
  | cons e rest ih =>
    intro k y h
    obtain ⟨k', v⟩ := e
    unfold Dict.get? at h
    split at h
    · rename_i hk
      cases h
      simp at hk
      subst hk
      exact List.mem_cons_self
    · exact List.mem_cons_of_mem _ (ih h)

theorem dict_opt_get {d : Dict} {k : String} {y : Y} (h : d.opt k = some y) : d.get? k = some y := by
  unfold Dict.opt at h
  split at h
  · cases h
  · exact h

theorem SettledText.get {x : Ctx} {es : List Exc} {ts : List (String × TemplateCourse)} {d : Dict} {k : String} {y : Y}
    (h : SettledText x es ts (.map d)) (hk : d.get? k = some y) : SettledText x es ts y :=
  fun e he => h e (.field (dict_get_entry hk) he)

theorem SettledText.mem {x : Ctx} {es : List Exc} {ts : List (String × TemplateCourse)} {l : List Y} {y : Y}
    (h : SettledText x es ts (.list l)) (hy : y ∈ l) : SettledText x es ts y :=
  fun e he => h e (.item hy he)

theorem NamesNothing.get {d : Dict} {k : String} {y : Y} (h : NamesNothing (.map d)) (hk : d.get? k = some y) : NamesNothing y :=
  fun e he => h e (.field (dict_get_entry hk) he)

theorem NamesNothing.mem {l : List Y} {y : Y} (h : NamesNothing (.list l)) (hy : y ∈ l) : NamesNothing y :=
  fun e he => h e (.item hy he)

theorem countItems_get {d : Dict} {l : List Y} (h : countItems d = .ok l) : ∃ k, d.get? k = some (.list l) := by
  unfold countItems at h
  repeat' split at h
  all_goals first
    | cases h
    | (rw [ld_asList] at h; subst h; exact ⟨_, by assumption⟩)

theorem names_mem {m : String} : ∀ {ns : List Node}, m ∈ Node.requirementNames.namesList ns → ∃ n ∈ ns, m ∈ n.requirementNames
  | [], h => by simp [Node.requirementNames.namesList] at h
  | n :: ns, h => by
    simp only [Node.requirementNames.namesList, List.mem_append] at h
    rcases h with h | h
    · exact ⟨n, List.mem_cons_self, h⟩
    · obtain ⟨n', h1, h2⟩ := names_mem h
      exact ⟨n', List.mem_cons_of_mem _ h1, h2⟩

/-- a rule that is read from a text without requirements has none -/
theorem built_namesNothing {env : Env} {kids : Dict} {ems : List Dict} {p : Path} {y : Y} {o : Option Node}
    (h : Built env kids ems p y o) (he : ems = []) (hn : NamesNothing y ∨ ∃ d, y = .map d ∧ (ruleKind d = .course ∨ ruleKind d = .unknown)) :
    ∀ n, o = some n → n.requirementNames = [] := by
  induction h with
  | prof hk hl =>
    intro n hn'
    cases hn'
    unfold loadProficiency at hl
    simp only [ld_bind_ok] at hl
    obtain ⟨_, _, _, _, _, _, _, _, hl⟩ := hl
    cases hl
    rfl
  | course => intro n hn'; cases hn'; rfl
  | query => intro n hn'; cases hn'; rfl
  | @cond kids ems p d yif b yt t f hide hk _ hif _ hyt _ hf hf' _ iht ihf =>
    intro n hn'
    have hnn : NamesNothing (.map d) := by
      rcases hn with h | ⟨d', e, h | h⟩
      · exact h
      · cases e; rw [hk] at h; cases h
      · cases e; rw [hk] at h; cases h
    have ht := iht rfl (.inl (hnn.get hyt)) t rfl
    have hfn : ∀ m, f = some m → m.requirementNames = [] := by
      intro m hm
      cases ho : d.opt "$else" with
      | none => rw [hf' ho] at hm; cases hm
      | some yf => exact ihf yf ho rfl (.inl (hnn.get (dict_opt_get ho))) m hm
    split at hn'
    · cases hn'
    · cases hn'
      unfold Node.requirementNames
      cases b with
      | true => exact ht
      | false =>
        cases f with
        | none => rfl
        | some m => exact hfn m rfl
  | @count kids ems p d kids' listed expanded emItems inserts audits atMost cnt parts hk _ hl hx hem hin _ _ hp _ _ _ _ ih =>
    intro n hn'
    cases hn'
    have hnn : NamesNothing (.map d) := by
      rcases hn with h | ⟨d', e, h | h⟩
      · exact h
      · cases e; rw [hk] at h; cases h
      · cases e; rw [hk] at h; cases h
    subst he
    simp only [addEmphases, Except.ok.injEq, Prod.mk.injEq] at hem
    obtain ⟨rfl, rfl⟩ := hem
    unfold Node.requirementNames
    rw [List.eq_nil_iff_forall_not_mem]
    intro m hm
    obtain ⟨nd, hnd, hmn⟩ := names_mem hm
    obtain ⟨q, hq, hqn⟩ := List.mem_filterMap.1 hnd
    obtain ⟨i, hi⟩ := List.mem_iff_getElem?.1 hq
    obtain ⟨yq, oq⟩ := q
    have hyq : yq ∈ expanded ++ [] ++ inserts := by
      rw [← hp]; exact List.mem_map.2 ⟨_, hq, rfl⟩
    have hside : NamesNothing yq ∨ ∃ d, yq = .map d ∧ (ruleKind d = .course ∨ ruleKind d = .unknown) := by
      simp only [List.append_nil, List.mem_append] at hyq
      rcases hyq with h | h
      · rcases expandTemplates_items hx yq h with h | ⟨t, ht⟩
        · obtain ⟨k, hk'⟩ := countItems_get hl
          exact .inl ((hnn.get hk').mem h)
        · exact .inr (template_kind ht)
      · obtain ⟨d', e, h⟩ := inserted_kind hin yq h
        exact .inr ⟨d', e, .inl h⟩
    have := ih i yq oq hi rfl hside nd hqn
    rw [this] at hmn
    cases hmn
  | @req kids ems p d name body rd r href =>
    intro n hn'
    exfalso
    rcases hn with h | ⟨d', e, h⟩
    · have := h d (.self _)
      rcases href with ⟨hk, _⟩ | ⟨hk, _⟩
      · exact this.1 hk
      · exact this.2 hk
    · cases e
      rcases href with ⟨hk, _⟩ | ⟨hk, _⟩ <;> rw [hk] at h <;> rcases h with h | h <;> cases h

/-! ### Two settings -/

/-- a setting of nobody and one of a student -/
structure TwoEnvs (e e' : Env) (es : List Exc) : Prop where
  blank : e.c.Blank
  real : e'.c.Real
  ctx : e.ctx = {}
  templates : e.templates = []
  grouped : e'.ctx.exceptions = groupExceptions es
  inserts : ∀ p, ∀ ex ∈ getInsertExceptions e'.ctx.exceptions (p ++ [".count"]), ∀ k f, ex.kind = .insertion k f →
    ∃ c, e'.ctx.forcedCourseByClbid k = .ok c ∧ c.clbid ≠ ""

/-- both runs give a rule, and the second names the requirements of the first -/
def SameRules (o o' : Option Node) : Prop :=
  ∃ n n', o = some n ∧ o' = some n' ∧ n.requirementNames ⊆ n'.requirementNames

/-- an optional rule -/
def SameOpt (o o' : Option Node) : Prop := (o = none ∧ o' = none) ∨ SameRules o o'

/-- two loaders, of which the first leads to the second -/
def LeadsOn (e' : Env) (es : List Exc) (load load' : Loader) : Prop :=
  ∀ kids p y, (∀ k v, kids.get? k = some v → SettledText e'.ctx es e'.templates v) → SettledText e'.ctx es e'.templates y →
    Leads (load kids p y) (load' kids p y) SameRules

theorem requirement_leads {e' : Env} {es : List Exc} {load load' : Loader} (h : LeadsOn e' es load load') (name : String) (d : Dict)
    (p : Path) (hd : SettledText e'.ctx es e'.templates (.map d)) :
    Leads (loadRequirement load name d p) (loadRequirement load' name d p) (fun n n' => SameRules (some n) (some n')) := by
  unfold loadRequirement
  refine leads_same fun _ _ => leads_bind (R := SameOpt) ?_ fun o o' _ _ ho => ?_
  · unfold loadReqResult
    split
    · exact leads_ok (.inl ⟨rfl, rfl⟩)
    · rename_i y hy
      refine leads_same fun kids hkids => ?_
      have hk : ∀ k v, kids.get? k = some v → SettledText e'.ctx es e'.templates v := by
        unfold Dict.dict at hkids
        split at hkids
        · cases hkids; intro k v hv; simp [Dict.get?] at hv
        · rename_i v hv
          cases hkids
          exact fun k w hw => (hd.get hv).get hw
        · cases hkids
      refine leads_bind (h kids _ y hk (hd.get (dict_opt_get hy))) fun o o' _ _ ho => ?_
      obtain ⟨n, n', rfl, rfl, hs⟩ := ho
      intro r hr
      simp only [ld_bind_ok, ld_check_ok] at hr
      obtain ⟨_, hc, hr⟩ := hr
      cases hr
      right
      refine ⟨some n', ?_, .inr ⟨n, n', rfl, rfl, hs⟩⟩
      have hc' : (kids.keys.all fun k => n'.requirementNames.contains k) = true := by
        rw [List.all_eq_true] at hc ⊢
        intro k hk
        have := hc k hk
        simp only [List.contains_iff_mem] at this ⊢
        exact hs this
      show (check (kids.keys.all fun k => n'.requirementNames.contains k) >>= fun _ => Except.ok (some n')) = .ok (some n')
      rw [hc']
      rfl
  · have hs : o'.isSome = o.isSome := by
      rcases ho with ⟨rfl, rfl⟩ | ⟨n, n', rfl, rfl, _⟩ <;> rfl
    rw [hs]
    exact leads_same fun _ _ => leads_same fun _ _ => leads_same fun _ _ => leads_same fun _ _ => leads_same fun _ _ =>
      leads_same fun _ _ => leads_same fun _ _ => leads_same fun _ _ =>
      leads_ok ⟨_, _, rfl, rfl, by simp [Node.requirementNames]⟩

theorem conditional_leads {e e' : Env} {es : List Exc} (he : TwoEnvs e e' es) {load load' : Loader} (h : LeadsOn e' es load load')
    (hnone : ∀ kids p y o, load kids p y = .ok o → NamesNothing y → ∀ n, o = some n → n.requirementNames = [])
    (kids d : Dict) (p : Path) (hk : ∀ k v, kids.get? k = some v → SettledText e'.ctx es e'.templates v) (hkind : ruleKind d = .conditional)
    (hd : SettledText e'.ctx es e'.templates (.map d)) :
    Leads (loadConditional e.ctx load kids d p) (loadConditional e'.ctx load' kids d p) SameRules := by
  obtain ⟨hhide, hor⟩ := (hd d (.self _)).2 hkind
  unfold loadConditional
  refine leads_same fun _ _ => leads_same fun yif hyif => leads_bind (cond_leads _ _ yif) fun b b' hb hb' _ => leads_same fun yt hyt =>
    leads_bind (h kids _ yt hk (hd.get (ld_need.1 hyt))) fun ot ot' hot _ hsame => ?_
  obtain ⟨t, t', rfl, rfl, hts⟩ := hsame
  refine leads_bind (R := fun f f' => SameOpt f f' ∧ (∀ n, (∀ y, d.opt "$else" = some y → NamesNothing y) → f = some n → n.requirementNames = []))
    ?_ fun f f' _ _ hf => ?_
  · split
    · exact leads_ok ⟨.inl ⟨rfl, rfl⟩, fun n _ h => nomatch h⟩
    · rename_i y hy
      intro o ho
      rcases h kids _ y hk (hd.get (dict_opt_get hy)) o ho with h1 | ⟨o', h1, h2⟩
      · exact .inl h1
      · exact .inr ⟨o', h1, .inr h2, fun n hn hs => hnone _ _ _ _ ho (hn y hy) n hs⟩
  · obtain ⟨hf, hfn⟩ := hf
    have hflag : d.flag "$hide-when-false" false = .ok false := by simp [Dict.flag, hhide]
    rw [hflag]
    refine leads_ok ?_
    simp only [Bool.and_false, Bool.false_eq_true, if_false]
    refine ⟨_, _, rfl, rfl, ?_⟩
    rcases hor with hsame | hn
    · have hbb : b = b' := by
        have h1 : Decides e.ctx [] yif b := cond_decides (es := []) (by rw [he.ctx]; rfl) yif b hb
        rw [he.ctx] at h1
        exact decides_unique (hsame yif b (ld_need.1 hyif) h1) (cond_decides he.grouped yif b' hb')
      subst hbb
      cases b with
      | true => exact hts
      | false =>
        rcases hf with ⟨rfl, rfl⟩ | ⟨n, n', rfl, rfl, hs⟩
        · simp [Node.requirementNames, Node.requirementNames.namesOpt]
        · exact hs
    · have h1 : t.requirementNames = [] := hnone _ _ _ _ hot (hn "$then" (by simp) yt (ld_need.1 hyt)) t rfl
      have h2 : Node.requirementNames.namesOpt f = [] := by
        cases f with
        | none => rfl
        | some n => exact hfn n (fun y hy => hn "$else" (by simp) y (dict_opt_get hy)) rfl
      cases b with
      | true => simp [Node.requirementNames, h1]
      | false => simp [Node.requirementNames, h2]

/-! ### Counts -/

theorem expandTemplates_none {ts : List (String × TemplateCourse)} : ∀ {l : List Y},
    (∀ d : Dict, Y.map d ∈ l → ts = [] ∨ d.get? "template" = none) → expandTemplates ts l = expandTemplates [] l
  | [], _ => rfl
  | y :: ys, h => by
    unfold expandTemplates
    rw [expandTemplates_none (fun d hd => h d (List.mem_cons_of_mem _ hd))]
    cases y with
    | map d =>
      simp only [Y.asDict, bind, Except.bind]
      rcases h d List.mem_cons_self with rfl | hn
      · rfl
      · rw [hn]
    | _ => rfl

/-- what an insertion makes of a course with a number -/
def InsertedItem (y : Y) : Prop :=
  ∃ a b c, y = .map [("course", .str a), ("clbid", .str b), ("allow_claimed", .bool c), ("inserted", .bool true)] ∧ b ≠ ""

theorem inserted_ok {x : Ctx} : ∀ {l : List Exc},
    (∀ ex ∈ l, ∀ k f, ex.kind = .insertion k f → ∃ c, x.forcedCourseByClbid k = .ok c ∧ c.clbid ≠ "") →
    ∃ ys, insertedItems x l = .ok ys ∧ ∀ y ∈ ys, InsertedItem y
  | [], _ => ⟨[], rfl, by simp⟩
  | e :: es, h => by
    obtain ⟨ys, h1, h2⟩ := inserted_ok (fun ex hex => h ex (List.mem_cons_of_mem _ hex))
    unfold insertedItems
    cases hk : e.kind with
    | insertion k f =>
      obtain ⟨c, hc, hne⟩ := h e List.mem_cons_self k f hk
      refine ⟨_, by simp only [hc, h1, bind, Except.bind]; rfl, ?_⟩
      intro y hy
      rcases List.mem_cons.1 hy with rfl | hy
      · exact ⟨_, _, _, rfl, hne⟩
      · exact h2 y hy
    | _ => exact ⟨ys, h1, h2⟩

theorem insertedItem_loads {y : Y} (h : InsertedItem y) (env : Env) (n : Nat) (kids : Dict) (p : Path) :
    loadRule env n kids [] p y = .error .outOfFuel ∨ ∃ m, loadRule env n kids [] p y = .ok (some m) := by
  obtain ⟨a, b, c, rfl, hb⟩ := h
  cases n with
  | zero => exact .inl rfl
  | succ n =>
    right
    rw [loadRule_kind]
    have hk : ruleKind [("course", .str a), ("clbid", .str b), ("allow_claimed", .bool c), ("inserted", .bool true)] = .course := rfl
    have hb' : given (some b) = true := by simp [given, hb]
    have hl : ∃ r, loadCourseRule [("course", .str a), ("clbid", .str b), ("allow_claimed", .bool c), ("inserted", .bool true)] p = .ok r := by
      have hlab : ∃ s, courseLabel (some a) none none (some b) none = .ok s := by
        unfold courseLabel
        by_cases ha : given (some a) = true
        · rw [if_pos ha]; exact ⟨_, rfl⟩
        · rw [if_neg ha, if_neg (by decide), if_neg (by decide), if_pos hb']; exact ⟨_, rfl⟩
      obtain ⟨s, hs⟩ := hlab
      have hg : (given (some a) || given none || (given none && given none) || given (some b) || given none) = true := by
        rw [hb']; simp
      obtain ⟨D, hD⟩ : ∃ D : Dict, [("course", .str a), ("clbid", .str b), ("allow_claimed", .bool c), ("inserted", .bool true)] = D :=
        ⟨_, rfl⟩
      rw [hD]
      have t1 : D.text "course" = .ok (some a) := by rw [← hD]; rfl
      have t2 : D.text "ap" = .ok none := by rw [← hD]; rfl
      have t3 : D.text "name" = .ok none := by rw [← hD]; rfl
      have t4 : D.text "institution" = .ok none := by rw [← hD]; rfl
      have t5 : D.text "grade" = .ok none := by rw [← hD]; rfl
      have t6 : D.text "grade_option" = .ok none := by rw [← hD]; rfl
      have t7 : D.text "clbid" = .ok (some b) := by rw [← hD]; rfl
      have t8 : D.text "crsid" = .ok none := by rw [← hD]; rfl
      have t9 : D.flag "inserted" false = .ok true := by rw [← hD]; rfl
      have t10 : D.flag "auto_waived" false = .ok false := by rw [← hD]; rfl
      have t11 : D.text "section" = .ok none := by rw [← hD]; rfl
      have t12 : D.text "sub_type" = .ok none := by rw [← hD]; rfl
      have t13 : D.number "year" = .ok none := by rw [← hD]; rfl
      have t14 : D.text "term" = .ok none := by rw [← hD]; rfl
      have t15 : D.flag "from_claimed" false = .ok false := by rw [← hD]; rfl
      have t16 : D.flag "allow_claimed" false = .ok c := by rw [← hD]; rfl
      have t17 : D.flag "optional" false = .ok false := by rw [← hD]; rfl
      have t18 : onlyKeys courseRuleKeys D = true := by rw [← hD]; rfl
      unfold loadCourseRule
      simp only [t1, t2, t3, t4, t5, t6, t7, t8, t9, t10, t11, t12, t13, t14, t15, t16, t17, t18, hs, hg, bind, Except.bind, yearAndTerm,
        loadMinGrade, check, if_true]
      exact ⟨_, rfl⟩
    obtain ⟨r, hr⟩ := hl
    rw [hk]
    exact ⟨.course .rule r, by simp only [hr, check, bind, Except.bind, List.isEmpty_nil, Bool.true_or, if_true]⟩

theorem insertedItem_path {y : Y} (h : InsertedItem y) (p : Path) (i : Nat) : ∃ q, childPath p i y = .ok q := by
  obtain ⟨a, b, c, rfl, _⟩ := h
  exact ⟨_, rfl⟩

theorem insertedItems_load {env : Env} {n : Nat} {kids : Dict} {p : Path} : ∀ {ys : List Y} {i : Nat}, (∀ y ∈ ys, InsertedItem y) →
    loadItems (fun kids p y => loadRule env n kids [] p y) kids p i ys = .error .outOfFuel ∨
      ∃ ns, loadItems (fun kids p y => loadRule env n kids [] p y) kids p i ys = .ok ns ∧ ns.length = ys.length
  | [], _, _ => .inr ⟨[], rfl, rfl⟩
  | y :: ys, i, h => by
    obtain ⟨q, hq⟩ := insertedItem_path (h y List.mem_cons_self) p i
    unfold loadItems
    rw [hq]
    rcases insertedItem_loads (h y List.mem_cons_self) env n kids q with h1 | ⟨m, h1⟩
    · left; simp [h1, bind, Except.bind]
    · rcases insertedItems_load (env := env) (n := n) (kids := kids) (p := p) (i := i + 1) (fun y' hy' => h y' (List.mem_cons_of_mem _ hy')) with h2 | ⟨ns, h2, h3⟩
      · left; simp [h1, h2, bind, Except.bind]
      · right
        exact ⟨m :: ns, by simp [h1, h2, bind, Except.bind], by simp [h3]⟩

theorem namesList_cons (n : Node) (ns : List Node) :
    Node.requirementNames.namesList (n :: ns) = n.requirementNames ++ Node.requirementNames.namesList ns := rfl

theorem items_leads {e' : Env} {es : List Exc} {load : Loader} {n : Nat}
    (h : LeadsOn e' es load (fun kids p y => loadRule e' n kids [] p y)) (kids : Dict)
    (hk : ∀ k v, kids.get? k = some v → SettledText e'.ctx es e'.templates v) (p : Path) {ins : List Y} (hi : ∀ y ∈ ins, InsertedItem y) :
    ∀ (l : List Y) (i : Nat), (∀ y ∈ l, SettledText e'.ctx es e'.templates y) →
      Leads (loadItems load kids p i l) (loadItems (fun kids p y => loadRule e' n kids [] p y) kids p i (l ++ ins))
        (fun ns ms => ns.length = l.length ∧ ms.length = l.length + ins.length ∧
          Node.requirementNames.namesList ns ⊆ Node.requirementNames.namesList ms)
  | [], i, _ => by
    intro ns hns
    simp only [loadItems, Except.ok.injEq] at hns
    subst hns
    rcases insertedItems_load (env := e') (n := n) (kids := kids) (p := p) (i := i) hi with h1 | ⟨ms, h1, h2⟩
    · exact .inl h1
    · exact .inr ⟨ms, h1, rfl, by simp [h2], by simp [Node.requirementNames.namesList]⟩
  | y :: ys, i, hy => by
    simp only [List.cons_append]
    unfold loadItems
    refine leads_same fun q _ => leads_bind (h kids q y hk (hy y List.mem_cons_self)) fun o o' _ _ ho =>
      leads_bind (items_leads h kids hk p hi ys (i + 1) (fun y' hy' => hy y' (List.mem_cons_of_mem _ hy'))) fun ns ms _ _ hr => ?_
    obtain ⟨m, m', rfl, rfl, hs⟩ := ho
    obtain ⟨h1, h2, h3⟩ := hr
    refine leads_ok ⟨by simp [h1], by simp [h2]; omega, ?_⟩
    simp only [Option.toList_some, List.cons_append, List.nil_append, namesList_cons]
    exact List.append_subset.2 ⟨List.subset_append_of_subset_left _ hs, List.subset_append_of_subset_right _ h3⟩

theorem needed_leads {d : Dict} {loaded added : Nat} {cnt : Int} {atMost : Bool} (h : neededCount d false loaded = .ok cnt)
    (h0 : 0 ≤ cnt) (h1 : cnt < (if atMost then cnt + 1 else (loaded : Int) + 1)) :
    ∃ c, neededCount d (decide (added ≠ 0)) (loaded + added) = .ok c ∧ 0 ≤ c ∧
      c < (if atMost then c + 1 else ((loaded + added : Nat) : Int) + 1) := by
  unfold neededCount at h ⊢
  split
  · refine ⟨_, rfl, by omega, ?_⟩
    split <;> push_cast <;> omega
  rename_i ha; rw [if_neg ha] at h
  split
  · rename_i hb; rw [if_pos hb] at h; cases h
    refine ⟨_, rfl, by omega, ?_⟩
    split at h1 <;> (push_cast; first | omega | (split <;> omega))
  rename_i hb; rw [if_neg hb] at h
  split
  · rename_i hc; rw [if_pos hc] at h
    simp only [Bool.false_eq_true, if_false] at h
    by_cases hadd : added = 0
    · subst hadd
      refine ⟨cnt, by simpa using h, h0, by simpa using h1⟩
    · refine ⟨((loaded + added : Nat) : Int), by simp [hadd], by omega, ?_⟩
      split <;> omega
  rename_i hc; rw [if_neg hc] at h
  split
  · rename_i hd; rw [if_pos hd] at h
    have hcase : decide (added ≠ 0) = true ∨ loaded + added = 2 := by
      by_cases hadd : added = 0
      · right
        split at h
        · rename_i h2; simp at h2; omega
        · cases h
      · left; simpa using hadd
    split at h
    · cases h
      refine ⟨1, by rw [if_pos (by simpa using hcase)], by omega, ?_⟩
      split at h1 <;> (push_cast; first | omega | (split <;> omega))
    · cases h
  rename_i hd; rw [if_neg hd] at h
  refine ⟨cnt, h, h0, ?_⟩
  split
  · omega
  · rename_i hat; rw [if_neg hat] at h1; push_cast; omega

theorem count_leads {e e' : Env} {es : List Exc} (he : TwoEnvs e e' es) {load : Loader} {n : Nat}
    (h : LeadsOn e' es load (fun kids p y => loadRule e' n kids [] p y)) (kids d : Dict) (p : Path)
    (hk : ∀ k v, kids.get? k = some v → SettledText e'.ctx es e'.templates v) (hd : SettledText e'.ctx es e'.templates (.map d)) :
    Leads (loadCount e load kids [] d p) (loadCount e' (fun kids p y => loadRule e' n kids [] p y) kids [] d p)
      (fun n n' => SameRules (some n) (some n')) := by
  obtain ⟨ins, hins, hinsOk⟩ := inserted_ok (he.inserts p)
  have hins0 : insertedItems e.ctx (getInsertExceptions e.ctx.exceptions (p ++ [".count"])) = .ok [] := by rw [he.ctx]; rfl
  unfold loadCount
  refine leads_same fun listed hl => ?_
  obtain ⟨k, hkl⟩ := countItems_get hl
  have hlist := hd.get hkl
  rw [he.templates, expandTemplates_none (ts := e'.templates) (fun d hd' => (hlist.mem hd' d (.self _)).1)]
  refine leads_same fun items hitems => ?_
  have hit : ∀ y ∈ items, SettledText e'.ctx es e'.templates y := by
    intro y hy
    rcases expandTemplates_items hitems y hy with h | ⟨t, ht⟩
    · exact hlist.mem h
    · have : ∀ {l r : List Y}, expandTemplates [] l = .ok r → ∀ y ∈ r, y ∈ l := by
        intro l
        induction l with
        | nil => intro r h; simp [expandTemplates] at h; simp [h]
        | cons a as ih =>
          intro r h y hy
          simp only [expandTemplates, ld_bind_ok, ld_asDict] at h
          obtain ⟨d, rfl, here, hh, rest, hr, h⟩ := h
          cases h
          rcases List.mem_append.1 hy with hy | hy
          · split at hh
            · simp only [ld_bind_ok, List.filter_nil, mapE] at hh
              obtain ⟨_, _, hh⟩ := hh
              cases hh
              cases hy
            · cases hh
              rw [List.mem_singleton.1 hy]; exact List.mem_cons_self
          · exact List.mem_cons_of_mem _ (ih hr y hy)
      exact hlist.mem (this hitems y hy)
  refine leads_same fun r hr => ?_
  simp only [addEmphases, Except.ok.injEq] at hr
  subst hr
  refine leads_bind (R := fun a b => a = [] ∧ b = ins)
    (fun a ha => .inr ⟨ins, hins, by rw [hins0] at ha; exact (Except.ok.inj ha).symm, rfl⟩) fun a b _ _ hab => ?_
  obtain ⟨rfl, rfl⟩ := hab
  simp only [List.append_nil]
  refine leads_same fun atMost _ => leads_bind (audits_leads he.blank he.real _ d) fun au au' _ _ _ =>
    leads_bind (items_leads h kids hk _ hinsOk items 0 hit) fun ns ms _ _ hr => ?_
  obtain ⟨h1, h2, h3⟩ := hr
  intro a ha
  simp only [ld_bind_ok, ld_check_ok, decide_eq_true_eq] at ha
  obtain ⟨cnt, hcnt, _, hkeys, _, h0, _, hlt, ha⟩ := ha
  cases ha
  right
  have hcnt' : neededCount d false ns.length = .ok cnt := by simpa using hcnt
  rw [← h1] at hlt
  obtain ⟨c, hc, hc0, hc1⟩ := needed_leads (added := b.length) hcnt' h0 hlt
  have hdec : (!b.isEmpty) = decide (b.length ≠ 0) := by cases b <;> simp
  rw [h1] at hc hc1
  refine ⟨.count .rule { path := p ++ [".count"], count := c.toNat, audits := au', atMost := atMost } ms, ?_, _, _, rfl, rfl, ?_⟩
  · simp only [h2, hdec, hc, hkeys, check, bind, Except.bind, if_true, List.length_append, decide_eq_true hc0, decide_eq_true hc1]
  · exact h3

/-- **Loading a rule in two settings.** -/
theorem rule_leads {e e' : Env} {es : List Exc} (he : TwoEnvs e e' es) : ∀ n : Nat,
    LeadsOn e' es (fun kids p y => loadRule e n kids [] p y) (fun kids p y => loadRule e' n kids [] p y) := by
  intro n
  induction n with
  | zero => intro kids p y _ _; exact leads_error
  | succ n ih =>
    intro kids p y hk hy
    cases y with
    | map d =>
      simp only [loadRule_kind]
      refine leads_same fun _ _ => ?_
      cases hkind : ruleKind d with
      | proficiency =>
        refine leads_same fun r hr => leads_ok ⟨r, r, rfl, rfl, fun _ h => h⟩
      | course => exact leads_same fun r _ => leads_ok ⟨_, _, rfl, rfl, fun _ h => h⟩
      | query => exact leads_bind (query_leads he.blank he.real d p) fun _ _ _ _ _ => leads_ok ⟨_, _, rfl, rfl, fun _ h => h⟩
      | conditional =>
        refine conditional_leads he ih ?_ kids d p hk hkind hy
        intro kids p y o ho hn m hm
        exact built_namesNothing (loadRule_built n ho) rfl (.inl hn) m hm
      | count => exact leads_bind (count_leads he ih kids d p hk hy) fun _ _ _ _ h => leads_ok h
      | inline =>
        exact leads_same fun v _ => leads_same fun name _ => leads_bind (requirement_leads ih name d p hy) fun _ _ _ _ h => leads_ok h
      | reference =>
        refine leads_same fun v _ => leads_same fun name _ => leads_same fun w hw => leads_same fun body hb =>
          leads_bind (requirement_leads ih name body p ?_) fun _ _ _ _ h => leads_ok h
        have := hk name w (ld_need.1 hw)
        rw [ld_asDict.1 hb] at this
        exact this
      | unknown => exact leads_error
    | _ => exact leads_error

end Dp
