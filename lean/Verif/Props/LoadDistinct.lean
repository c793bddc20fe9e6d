import Verif.Props.LoadPaths

/-
Property C48: every rule and every assertion of a loaded area has a path of its own.
-/
namespace Dp

/-! ### Helper lemmas: clean texts -/

theorem Y.clean_get : ∀ {d : Dict} {k : String} {y : Y}, Y.CleanDict d → d.get? k = some y → y.Clean := by
  intro d
  induction d with
  | nil => intro k y _ h; simp [Dict.get?] at h
  | cons e rest ih =>
    intro k y hc h
    obtain ⟨k', v⟩ := e
    simp only [Y.CleanDict] at hc
    unfold Dict.get? at h
    split at h
    · cases h; exact hc.2.1
    · exact ih hc.2.2 h

theorem Y.clean_no_mark : ∀ {d : Dict}, Y.CleanDict d → d.get? "__emphasis" = none := by
  intro d
  induction d with
  | nil => intro _; rfl
  | cons e rest ih =>
    intro hc
    obtain ⟨k', v⟩ := e
    simp only [Y.CleanDict] at hc
    unfold Dict.get?
    have : (k' == "__emphasis") = false := by simpa using hc.1
    rw [this]
    exact ih hc.2.2

theorem Y.clean_mem : ∀ {l : List Y} {y : Y}, Y.CleanList l → y ∈ l → y.Clean := by
  intro l
  induction l with
  | nil => intro y _ h; cases h
  | cons a as ih =>
    intro y hc h
    simp only [Y.CleanList] at hc
    rcases List.mem_cons.1 h with rfl | h
    · exact hc.1
    · exact ih hc.2 h

theorem Y.clean_set : ∀ {d : Dict} {k : String} {y : Y}, Y.CleanDict d → k ≠ "__emphasis" → y.Clean →
    Y.CleanDict (d.set k y) := by
  intro d
  induction d with
  | nil => intro k y _ hk hy; exact ⟨hk, hy, trivial⟩
  | cons e rest ih =>
    intro k y hc hk hy
    obtain ⟨k', v⟩ := e
    simp only [Y.CleanDict] at hc
    unfold Dict.set
    split
    · exact ⟨hk, hy, hc.2.2⟩
    · exact ⟨hc.1, hc.2.1, ih hc.2.2 hk hy⟩

theorem Y.cleanDict_append {d e : Dict} (hd : Y.CleanDict d) (he : Y.CleanDict e) : Y.CleanDict (d ++ e) := by
  induction d with
  | nil => exact he
  | cons a as ih =>
    obtain ⟨k, v⟩ := a
    simp only [Y.CleanDict] at hd
    exact ⟨hd.1, hd.2.1, ih hd.2.2⟩

theorem template_clean {t : TemplateCourse} {y : Y} (h : t.asRule = .ok y) : y.Clean := by
  have hg : ∀ key s value, key ≠ "__emphasis" → Y.CleanDict (givenEntry key s value) := by
    intro key s value hne
    unfold givenEntry
    split
    · trivial
    · exact ⟨hne, trivial, trivial⟩
  have hd := Y.cleanDict_append (Y.cleanDict_append (Y.cleanDict_append (Y.cleanDict_append (Y.cleanDict_append
    (hg "clbid" t.clbid t.clbid (by decide)) (hg "course" t.subject (t.subject ++ " " ++ t.num) (by decide)))
    (hg "section" t.section' t.section' (by decide))) (hg "sub_type" t.subType t.subType (by decide)))
    (hg "institution" t.institution t.institution (by decide))) (hg "ap" t.name t.name (by decide))
  unfold TemplateCourse.asRule at h
  dsimp only at h
  repeat' split at h
  · cases h; exact hd
  · cases h
  · cases h; exact Y.cleanDict_append hd ⟨by decide, trivial, by decide, trivial, trivial⟩
  · cases h

theorem inserted_clean {x : Ctx} : ∀ {es : List Exc} {r : List Y}, insertedItems x es = .ok r → ∀ y ∈ r, y.Clean := by
  intro es
  induction es with
  | nil => intro r h; simp [insertedItems] at h; simp [h]
  | cons e es ih =>
    intro r h
    rw [insertedItems] at h
    split at h
    · simp only [ld_bind_ok] at h
      obtain ⟨c, _, rest, hr, h⟩ := h
      cases h
      intro y hy
      rcases List.mem_cons.1 hy with rfl | hy
      · simp [Y.Clean, Y.CleanDict]
      · exact ih hr y hy
    · exact ih h

theorem countItems_clean {d : Dict} {l : List Y} (hd : Y.CleanDict d) (h : countItems d = .ok l) : Y.CleanList l := by
  have hk : ∀ k v, d.get? k = some v → v.asList = .ok l → Y.CleanList l := by
    intro k v hv hl
    rw [ld_asList] at hl
    subst hl
    exact Y.clean_get hd hv
  unfold countItems at h
  repeat' split at h
  all_goals first | (rename_i heq; exact hk _ _ heq h) | cases h

theorem dict_clean {d : Dict} {k : String} {v : Dict} (hd : Y.CleanDict d) (h : d.dict k = .ok v) : Y.CleanDict v := by
  unfold Dict.dict at h
  split at h
  · cases h; trivial
  · rename_i heq; cases h; exact Y.clean_get hd heq
  · cases h

theorem itemSeg_clean {y : Y} (hy : y.Clean) (i : Nat) : itemSeg i y = indexSeg i := by
  unfold itemSeg
  split
  · rename_i d
    have : Dict.opt d "__emphasis" = none := by unfold Dict.opt; rw [Y.clean_no_mark hy]
    rw [this]
  · rfl

/-- the requirement an item refers to -/
def partKey (y : Y) : String :=
  match y with
  | .map d => match Dict.get? d "requirement" with
    | some (.str s) => s
    | _ => ""
  | _ => ""

theorem emphasisParts_keys {e : Dict} {parts : List (String × Y)} {name : String}
    (h : emphasisParts e = .ok (parts, name)) : ∀ p ∈ parts, p.1 ≠ "__emphasis" := by
  have hne : ∀ s : String, "Emphasis: " ++ s ≠ "__emphasis" := by
    intro s h
    have := congrArg (fun t => t.toList.head?) h
    simp [String.toList_append] at this
  unfold emphasisParts at h
  simp only [ld_bind_ok, ld_need, ld_asDict, ld_asText] at h
  obtain ⟨y0, _, nm, _, y1, hres, result, hr1, flat, hflat, h⟩ := h
  split at h
  · simp only [ld_bind_ok] at h
    obtain ⟨reqs, hreqs, h⟩ := h
    cases h
    intro p hp
    obtain ⟨r, _, rfl⟩ := List.mem_map.1 hp
    simp only [String.append_assoc]
    exact hne _
  · cases h
    intro p hp
    rw [List.mem_singleton] at hp
    subst hp
    exact hne _

theorem namedRules_clean : ∀ {l : List Y} {r : Dict}, Y.CleanList l → namedRules l = .ok r → ∀ p ∈ r, p.2.Clean := by
  intro l
  induction l with
  | nil => intro r _ h; simp [namedRules] at h; simp [h]
  | cons y ys ih =>
    intro r hc h
    simp only [namedRules, ld_bind_ok] at h
    obtain ⟨_, _, _, _, _, _, rest, hr, h⟩ := h
    cases h
    simp only [Y.CleanList] at hc
    intro p hp
    rcases List.mem_cons.1 hp with rfl | hp
    · exact hc.1
    · exact ih hc.2 hr p hp

theorem cleanDict_mem : ∀ {d : Dict}, Y.CleanDict d → ∀ p ∈ d, p.2.Clean := by
  intro d
  induction d with
  | nil => intro _ p hp; cases hp
  | cons e rest ih =>
    intro hc p hp
    obtain ⟨k, v⟩ := e
    simp only [Y.CleanDict] at hc
    rcases List.mem_cons.1 hp with rfl | hp
    · exact hc.2.1
    · exact ih hc.2.2 p hp

theorem emphasisParts_clean {e : Dict} {parts : List (String × Y)} {name : String} (he : Y.CleanDict e)
    (h : emphasisParts e = .ok (parts, name)) : ∀ p ∈ parts, p.2.Clean := by
  unfold emphasisParts at h
  simp only [ld_bind_ok, ld_need, ld_asDict, ld_asText] at h
  obtain ⟨y0, _, nm, _, y1, hres, result, hr1, flat, hflat, h⟩ := h
  subst hr1
  split at h
  · simp only [ld_bind_ok] at h
    obtain ⟨reqs, hreqs, h⟩ := h
    cases h
    intro p hp
    obtain ⟨r, hr, rfl⟩ := List.mem_map.1 hp
    simp only
    split at hreqs
    · rename_i v hv
      rw [ld_asDict] at hreqs
      subst hreqs
      exact cleanDict_mem (Y.clean_get he hv) r hr
    · simp only [ld_bind_ok, ld_need, ld_asList] at hreqs
      obtain ⟨_, hall, l, rfl, hl⟩ := hreqs
      have h1 : Y.CleanDict result := Y.clean_get he hres
      exact namedRules_clean (Y.clean_get h1 hall) hl r hr
  · cases h
    intro p hp
    rw [List.mem_singleton] at hp
    subst hp
    exact he

theorem addEmphases_clean : ∀ {ems : List Dict} {kids kids' : Dict} {items : List Y}, Y.CleanDict kids →
    (∀ e ∈ ems, Y.CleanDict e) → addEmphases kids ems = .ok (kids', items) →
    Y.CleanDict kids' ∧ items.map partKey = ems.flatMap emphasisNames := by
  intro ems
  induction ems with
  | nil => intro kids kids' items hk _ h; simp [addEmphases] at h; obtain ⟨rfl, rfl⟩ := h; exact ⟨hk, rfl⟩
  | cons e es ih =>
    intro kids kids' items hk he h
    simp only [addEmphases, ld_bind_ok] at h
    obtain ⟨⟨parts, name⟩, hp, ⟨final, rest⟩, hr, h⟩ := h
    cases h
    have h3 : ∀ (ps : List (String × Y)) (c : Dict), Y.CleanDict c → (∀ p ∈ ps, p.1 ≠ "__emphasis") → (∀ p ∈ ps, p.2.Clean) →
        Y.CleanDict (ps.foldl (fun (c : Dict) p => c.set p.1 p.2) c) := by
      intro ps
      induction ps with
      | nil => intro c hc _ _; exact hc
      | cons a as ih' =>
        intro c hc h1 h2
        exact ih' _ (Y.clean_set hc (h1 a List.mem_cons_self) (h2 a List.mem_cons_self))
          (fun p hp => h1 p (List.mem_cons_of_mem _ hp)) (fun p hp => h2 p (List.mem_cons_of_mem _ hp))
    have hclean := h3 parts kids hk (emphasisParts_keys hp) (emphasisParts_clean (he e List.mem_cons_self) hp)
    obtain ⟨h4, h5⟩ := ih hclean (fun e' he' => he e' (List.mem_cons_of_mem _ he')) hr
    refine ⟨h4, ?_⟩
    simp only [List.map_append, List.flatMap_cons, h5]
    congr 1
    unfold emphasisNames
    rw [hp]
    simp only [List.map_map]
    apply List.map_congr_left
    intro p _
    rfl

/-! ### Every path once -/

theorem kind_emphasisItem (key name : String) : ruleKind [("requirement", .str key), ("__emphasis", .str name)] = .reference := rfl

/-- what is needed of the text of a rule: the reserved key does not occur, or it is an item of an emphasis -/
def CleanItem (y : Y) : Prop := y.Clean ∨ ∃ key name, y = emphasisItem key name

theorem CleanItem.dict {d : Dict} (h : CleanItem (.map d)) (hk : ruleKind d ≠ .reference) : Y.CleanDict d := by
  rcases h with h | ⟨key, name, h⟩
  · exact h
  · unfold emphasisItem at h
    cases h
    exact absurd (kind_emphasisItem key name) hk

/-- a rule referring to a requirement has paths beneath that requirement's place -/
theorem Built.beneath_reference {env : Env} {kids : Dict} {ems : List Dict} {p : Path} {key name : String} {n : Node}
    (h : Built env kids ems p (emphasisItem key name) (some n)) : ∀ q ∈ n.allPaths, ∃ r, q = p ++ ("%" ++ key) :: r := by
  unfold emphasisItem at h
  generalize hy : (Y.map [("requirement", .str key), ("__emphasis", .str name)]) = y at h
  generalize ho : some n = o at h
  cases h with
  | prof hk => cases hy; rw [kind_emphasisItem] at hk; cases hk
  | course hk => cases hy; rw [kind_emphasisItem] at hk; cases hk
  | query hk => cases hy; rw [kind_emphasisItem] at hk; cases hk
  | cond hk => cases hy; rw [kind_emphasisItem] at hk; cases hk
  | count hk => cases hy; rw [kind_emphasisItem] at hk; cases hk
  | @req _ _ _ _ nm body _ r hn _ hnone _ hb hex hpath =>
    cases hy
    cases ho
    have hname : nm = key := by
      rcases hn with ⟨hk, _⟩ | ⟨_, hk, _⟩
      · rw [kind_emphasisItem] at hk; cases hk
      · simp [Dict.get?] at hk; exact hk.symm
    subst hname
    intro q hq
    simp only [Node.allPaths, List.mem_cons] at hq
    rcases hq with rfl | hq
    · exact ⟨[], hpath⟩
    · cases hr : r with
      | none => rw [hr] at hq; simp [Node.allPathsOpt] at hq
      | some r' =>
        rw [hr] at hq
        cases ho : Dict.opt body "result" with
        | none => rw [hnone ho] at hr; cases hr
        | some yr =>
          obtain ⟨own, hown, _⟩ := hex yr ho
          exact ((hb yr own ho hown).beneath r' hr q hq).exists

theorem percent_inj {a b : String} (h : "%" ++ a = "%" ++ b) : a = b := by
  have := congrArg String.toList h
  rw [String.toList_append, String.toList_append] at this
  exact String.toList_inj.1 (List.append_cancel_left this)

theorem flatMap_filterMap (parts : List (Y × Option Node)) :
    (parts.filterMap (·.2)).flatMap Node.allPaths = parts.flatMap (fun t => Node.allPathsOpt t.2) := by
  induction parts with
  | nil => rfl
  | cons a as ih =>
    obtain ⟨y, o⟩ := a
    cases o <;> simp [Node.allPathsOpt, ih]

/-- No two rules or assertions of a loaded rule share a path. -/
theorem Built.nodup {env : Env} {kids : Dict} {ems : List Dict} {p : Path} {y : Y} {o : Option Node}
    (h : Built env kids ems p y o) : CleanItem y → Y.CleanDict kids → (∀ e ∈ ems, Y.CleanDict e) →
    (ems.flatMap emphasisNames).Nodup → ∀ n, o = some n → n.allPaths.Nodup := by
  induction h with
  | prof hk h =>
    intro _ _ _ _ n hn
    cases hn
    obtain ⟨name, c, _, _, rfl, hc⟩ := loadProficiency_inv h
    cases c with
    | none => simp [Node.allPaths]
    | some c =>
      obtain ⟨_, cd, _, hl⟩ := hc c rfl
      obtain ⟨s, hs⟩ := loadCourse_path hl
      simp [Node.allPaths, hs]
  | course hk h =>
    intro _ _ _ _ n hn
    cases hn
    simp [Node.allPaths]
  | query hk h =>
    intro _ _ _ _ n hn
    cases hn
    obtain ⟨src, w, lim, as, allow, failed, _, _, _, _, _, has, _, _, _, _, _, hr⟩ := loadQuery_inv h
    rw [hr]
    obtain ⟨h1, h2⟩ := assertions_paths (p := _ ++ [".query"] ++ [".assertions"]) (fun i a hi => by
        simpa using loadQueryAssertions_inv has i a hi)
    simp only [Node.allPaths, List.nodup_cons]
    refine ⟨?_, h2⟩
    intro hq
    have := (h1 _ hq).of_append (canonical_one (seg_dot _ (by decide)))
    exact this.ne rfl
  | @cond _ _ p d _ _ _ t f _ hk _ _ _ hyt hbt hbf hno _ iht ihf =>
    intro hy hkids _ _ n hn
    have hd := hy.dict (by rw [hk]; decide)
    split at hn
    · cases hn
    · cases hn
      have h1 : Node.allPathsOpt f = [] ∨ ((Node.allPathsOpt f).Nodup ∧ ∀ q ∈ Node.allPathsOpt f, Beneath (p ++ [".cond", "/f"]) q) := by
        cases hf : f with
        | none => exact Or.inl rfl
        | some f' =>
          cases ho : Dict.opt d "$else" with
          | none => rw [hno ho] at hf; cases hf
          | some yf =>
            refine Or.inr ⟨ihf yf ho (Or.inl (Y.clean_get hd (Dict.opt_get ho))) hkids (by simp) (by simp) f' hf, ?_⟩
            exact (hbf yf ho).beneath f' hf
      have h2 := iht (Or.inl (Y.clean_get hd hyt)) hkids (by simp) (by simp) t rfl
      have h3 := hbt.beneath t rfl
      simp only [Node.allPaths, List.nodup_cons, List.mem_append, not_or]
      have hct : CanonicalSeg "/t" := seg_dot _ (by decide)
      have hcf : CanonicalSeg "/f" := seg_dot _ (by decide)
      have hsplit : ∀ s : String, p ++ [".cond", s] = p ++ [".cond"] ++ [s] := by intro s; simp
      refine ⟨⟨?_, ?_⟩, ?_⟩
      · intro hq
        have := h3 _ hq
        rw [hsplit] at this
        exact (this.of_append (canonical_one hct)).ne rfl
      · intro hq
        rcases h1 with h1 | ⟨_, h1⟩
        · rw [h1] at hq; cases hq
        · have := h1 _ hq
          rw [hsplit] at this
          exact (this.of_append (canonical_one hcf)).ne rfl
      · rcases h1 with h1 | ⟨h1, h1'⟩
        · rw [h1]; simpa using h2
        · rw [List.nodup_append]
          refine ⟨h2, h1, ?_⟩
          intro a ha b hb
          have ha := h3 a ha
          have hb := h1' b hb
          rw [hsplit] at ha hb
          exact beneath_ne (by decide) ha.exists hb.exists
  | @count _ ems p d kids' listed expanded emItems inserts audits _ _ parts hk _ hlist hexp hem hins haud _ hparts hb _ _ _ ih =>
    intro hy hkids hems hkeys n hn
    cases hn
    have hd := hy.dict (by rw [hk]; decide)
    obtain ⟨hkids', hkeys'⟩ := addEmphases_clean hkids hems hem
    rw [← hkeys'] at hkeys
    have hlisted := countItems_clean hd hlist
    -- every item is clean with its index, or one of the emphases
    have hcases : ∀ (i : Nat) (y : Y) (n : Option Node), parts[i]? = some (y, n) → y.Clean ∨
        ∃ k, emItems[k]? = some y ∧ i = expanded.length + k := by
      intro i y n hi
      have hi' : (parts.map (·.1))[i]? = some y := by simp [hi]
      rw [hparts] at hi'
      by_cases h1 : i < (expanded ++ emItems).length
      · rw [List.getElem?_append_left h1] at hi'
        by_cases h2 : i < expanded.length
        · rw [List.getElem?_append_left h2] at hi'
          left
          rcases expandTemplates_items hexp y (List.mem_of_getElem? hi') with hm | ⟨t, ht⟩
          · exact Y.clean_mem hlisted hm
          · exact template_clean ht
        · right
          rw [List.getElem?_append_right (by omega)] at hi'
          exact ⟨i - expanded.length, hi', by omega⟩
      · left
        rw [List.getElem?_append_right (by omega)] at hi'
        exact inserted_clean hins y (List.mem_of_getElem? hi')
    have hitem : ∀ (i : Nat) (y : Y) (n : Option Node), parts[i]? = some (y, n) → CleanItem y := by
      intro i y n hi
      rcases hcases i y n hi with h | ⟨k, hk, _⟩
      · exact Or.inl h
      · exact Or.inr (addEmphases_items hem y (List.mem_of_getElem? hk))
    have hbeneath : ∀ (i : Nat) (y : Y) (n : Option Node), parts[i]? = some (y, n) → ∀ q ∈ Node.allPathsOpt n, Beneath (p ++ [".count"] ++ [itemSeg i y]) q := by
      intro i y n hi q hq
      cases n with
      | none => simp [Node.allPathsOpt] at hq
      | some n =>
        have := (hb i y _ hi).beneath n rfl q hq
        simpa using this
    have hnd : (parts.flatMap (fun t => Node.allPathsOpt t.2)).Nodup := by
      rw [List.nodup_flatMap]
      constructor
      · intro t ht
        obtain ⟨i, hi⟩ := List.mem_iff_getElem?.1 ht
        obtain ⟨y, n⟩ := t
        cases n with
        | none => simp [Node.allPathsOpt]
        | some n => exact ih i y _ hi (hitem i y _ hi) hkids' (by simp) (by simp) n rfl
      · rw [List.pairwise_iff_getElem]
        intro i j hi hj hij q h1 h2
        have hgi := List.getElem?_eq_getElem hi
        have hgj := List.getElem?_eq_getElem hj
        generalize parts[i] = ti at hgi h1
        generalize parts[j] = tj at hgj h2
        obtain ⟨y, n⟩ := ti
        obtain ⟨y', n'⟩ := tj
        have b1 := (hbeneath i y n hgi q h1).exists
        have b2 := (hbeneath j y' n' hgj q h2).exists
        rcases hcases i y n hgi with hy | ⟨k, hk, hik⟩ <;> rcases hcases j y' n' hgj with hy' | ⟨k', hk', hjk⟩
        · rw [itemSeg_clean hy] at b1
          rw [itemSeg_clean hy'] at b2
          exact beneath_ne (fun he => by have := indexSeg_inj he; omega) b1 b2 rfl
        · obtain ⟨key, name, rfl⟩ := addEmphases_items hem y' (List.mem_of_getElem? hk')
          have hs : itemSeg j (emphasisItem key name) = ".emphasis" ∨ itemSeg j (emphasisItem key name) = indexSeg j := by
            unfold itemSeg; repeat' split
            all_goals simp
          rw [itemSeg_clean hy] at b1
          rcases hs with hs | hs
          · rw [hs] at b2
            exact beneath_ne (indexSeg_ne (by decide)) b1 b2 rfl
          · rw [hs] at b2
            exact beneath_ne (fun he => by have := indexSeg_inj he; omega) b1 b2 rfl
        · obtain ⟨key, name, rfl⟩ := addEmphases_items hem y (List.mem_of_getElem? hk)
          have hs : itemSeg i (emphasisItem key name) = ".emphasis" ∨ itemSeg i (emphasisItem key name) = indexSeg i := by
            unfold itemSeg; repeat' split
            all_goals simp
          rw [itemSeg_clean hy'] at b2
          rcases hs with hs | hs
          · rw [hs] at b1
            exact beneath_ne (indexSeg_ne (by decide)).symm b1 b2 rfl
          · rw [hs] at b1
            exact beneath_ne (fun he => by have := indexSeg_inj he; omega) b1 b2 rfl
        · obtain ⟨key, name, rfl⟩ := addEmphases_items hem y (List.mem_of_getElem? hk)
          obtain ⟨key', name', rfl⟩ := addEmphases_items hem y' (List.mem_of_getElem? hk')
          have hkne : key ≠ key' := by
            intro he
            have e1 : (emItems.map partKey)[k]? = some key := by simp [hk, partKey, emphasisItem, Dict.get?]
            have e2 : (emItems.map partKey)[k']? = some key' := by simp [hk', partKey, emphasisItem, Dict.get?]
            rw [← he, ← e1] at e2
            have hlt : k < (emItems.map partKey).length := by
              rcases Nat.lt_or_ge k (emItems.map partKey).length with h | h
              · exact h
              · rw [List.getElem?_eq_none h] at e1; cases e1
            have := (List.getElem?_inj hlt hkeys).1 e2.symm
            omega
          have hseg : itemSeg i (emphasisItem key name) = itemSeg j (emphasisItem key' name') ∨
              itemSeg i (emphasisItem key name) ≠ itemSeg j (emphasisItem key' name') := Classical.em _
          rcases hseg with hseg | hseg
          · cases n with
            | none => simp [Node.allPathsOpt] at h1
            | some n =>
              cases n' with
              | none => simp [Node.allPathsOpt] at h2
              | some n' =>
                have c1 := (hb i _ _ hgi).beneath_reference q h1
                have c2 := (hb j _ _ hgj).beneath_reference q h2
                rw [← hseg] at c2
                exact beneath_ne (fun he => hkne (percent_inj he)) c1 c2 rfl
          · exact beneath_ne hseg b1 b2 rfl
    obtain ⟨ha1, ha2⟩ := assertions_paths (p := p ++ [".count"] ++ [".audit"]) (fun i a hi => by
        simpa using loadAudits_inv haud i a hi)
    simp only [Node.allPaths, List.nodup_cons, List.mem_append, not_or, Node.allPathsList_eq, flatMap_filterMap]
    have hitems : ∀ q ∈ parts.flatMap (fun t => Node.allPathsOpt t.2), ∃ i y, Beneath (p ++ [".count"] ++ [itemSeg i y]) q := by
      intro q hq
      obtain ⟨⟨y, n⟩, ht, hq⟩ := List.mem_flatMap.1 hq
      obtain ⟨i, hi⟩ := List.mem_iff_getElem?.1 ht
      exact ⟨i, y, hbeneath i y n hi q hq⟩
    refine ⟨⟨?_, ?_⟩, ?_⟩
    · intro hq
      exact ((ha1 _ hq).of_append (canonical_one (seg_dot _ (by decide)))).ne rfl
    · intro hq
      obtain ⟨i, y, h⟩ := hitems _ hq
      exact (h.of_append (canonical_one (itemSeg_canonical i y))).ne rfl
    · rw [List.nodup_append]
      refine ⟨ha2, hnd, ?_⟩
      intro a ha b hb
      obtain ⟨i, y, h⟩ := hitems b hb
      refine beneath_ne (a := ".audit") (b := itemSeg i y) ?_ (ha1 a ha).exists h.exists
      unfold itemSeg
      repeat' split
      all_goals first | exact (indexSeg_ne (by decide)).symm | decide
  | @req kids _ p d name body rd r hn _ hnone _ hb hex hpath _ _ _ _ _ _ _ _ ih =>
    intro hy hkids _ _ n hn'
    cases hn'
    have hbody : Y.CleanDict body := by
      rcases hn with ⟨hk, _, rfl⟩ | ⟨_, _, hget⟩
      · exact hy.dict (by rw [hk]; decide)
      · exact Y.clean_get hkids hget
    cases hr : r with
    | none => simp [Node.allPaths, Node.allPathsOpt]
    | some r' =>
      cases ho : Dict.opt body "result" with
      | none => rw [hnone ho] at hr; cases hr
      | some yr =>
        obtain ⟨own, hown, _⟩ := hex yr ho
        have h1 := ih yr own ho hown (Or.inl (Y.clean_get hbody (Dict.opt_get ho))) (dict_clean hbody hown) (by simp) (by simp) r' hr
        have h2 := (hb yr own ho hown).beneath r' hr
        simp only [Node.allPaths, Node.allPathsOpt, List.nodup_cons]
        refine ⟨?_, h1⟩
        intro hq
        rw [hpath] at hq
        exact (h2 _ hq).ne rfl

end Dp
