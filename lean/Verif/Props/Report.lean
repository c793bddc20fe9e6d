import Verif.Model.Report
import Mathlib.Tactic.Linarith

/-!
# C113: what is in the report of an area
-/

namespace Dp

/-! ### The order of codes -/

theorem rpLe_refl : ∀ a, rpLe a a = true
  | [] => rfl
  | a :: as => by simp [rpLe, rpLe_refl as]

theorem rpLe_total : ∀ a b, rpLe a b = true ∨ rpLe b a = true
  | [], _ => Or.inl rfl
  | _ :: _, [] => Or.inr rfl
  | a :: as, b :: bs => by
    simp only [rpLe]
    rcases Nat.lt_trichotomy a b with h | h | h
    · simp [h]
    · subst h; simpa using rpLe_total as bs
    · right; simp [h]

theorem rpLe_trans : ∀ a b c, rpLe a b = true → rpLe b c = true → rpLe a c = true
  | [], _, _, _, _ => rfl
  | _ :: _, [], _, h, _ => by simp [rpLe] at h
  | _ :: _, _ :: _, [], _, h => by simp [rpLe] at h
  | a :: as, b :: bs, c :: cs, h1, h2 => by
    simp only [rpLe] at *
    by_cases hab : a < b
    · by_cases hbc : b < c
      · rw [if_pos (by omega)]
      · rw [if_neg hbc] at h2
        by_cases hcb : c < b
        · simp [hcb] at h2
        · rw [if_pos (by omega)]
    · rw [if_neg hab] at h1
      by_cases hba : b < a
      · simp [hba] at h1
      · rw [if_neg hba] at h1
        have : a = b := by omega
        subst this
        by_cases hac : a < c
        · simp [hac]
        · rw [if_neg hac] at h2 ⊢
          by_cases hca : c < a
          · simp [hca] at h2
          · rw [if_neg hca] at h2 ⊢
            exact rpLe_trans as bs cs h1 h2

theorem rpLe_antisymm : ∀ a b, rpLe a b = true → rpLe b a = true → a = b
  | [], [], _, _ => rfl
  | [], _ :: _, _, h => by simp [rpLe] at h
  | _ :: _, [], h, _ => by simp [rpLe] at h
  | a :: as, b :: bs, h1, h2 => by
    simp only [rpLe] at *
    rcases Nat.lt_trichotomy a b with h | h | h
    · rw [if_neg (by omega), if_pos h] at h2; cases h2
    · subst h
      simp at h1 h2
      rw [rpLe_antisymm as bs h1 h2]
    · rw [if_neg (by omega), if_pos h] at h1; cases h1

theorem rpLe_append : ∀ p a b, rpLe (p ++ a) (p ++ b) = rpLe a b
  | [], _, _ => rfl
  | x :: p, a, b => by simp [rpLe, rpLe_append p a b]

theorem rpStr_inj (a b : String) (h : rpStr a = rpStr b) : a = b := by
  unfold rpStr at h
  have h1 := List.append_cancel_right h
  have h2 : a.toList = b.toList := by
    refine (List.map_inj_right ?_).mp h1
    intro x y hxy
    have : x.toNat = y.toNat := by omega
    exact Char.toNat_inj.mp this
  exact String.toList_inj.mp h2

instance : Std.Total rpRecordLe := ⟨fun _ _ => rpLe_total _ _⟩
instance : IsTrans _ rpRecordLe := ⟨fun _ _ _ h1 h2 => rpLe_trans _ _ _ h1 h2⟩
instance : Std.Total rpCaptionLe := ⟨fun _ _ => rpLe_total _ _⟩
instance : IsTrans _ rpCaptionLe := ⟨fun _ _ _ h1 h2 => rpLe_trans _ _ _ h1 h2⟩

/-! ### Groups -/

theorem rpUnique_mem {α : Type} [DecidableEq α] : ∀ (l : List α) (a : α), a ∈ rpUnique l ↔ a ∈ l
  | [], _ => by simp [rpUnique]
  | b :: l, a => by
    simp only [rpUnique, List.mem_cons, List.mem_filter, rpUnique_mem l a]
    by_cases h : a = b <;> simp [h]

theorem rpUnique_nodup {α : Type} [DecidableEq α] : ∀ (l : List α), (rpUnique l).Nodup
  | [] => by simp [rpUnique]
  | b :: l => by
    simp only [rpUnique, List.nodup_cons, List.mem_filter]
    exact ⟨by simp, (rpUnique_nodup l).filter _⟩

/-- Lists by key, one after the other, are the list. -/
theorem rp_partition {κ α : Type} [DecidableEq κ] (key : α → κ) :
    ∀ (ks : List κ) (l : List α), ks.Nodup → (∀ a ∈ l, key a ∈ ks) →
      ((ks.map (fun k => l.filter (fun a => decide (key a = k)))).flatten).Perm l
  | [], l, _, h => by
    cases l with
    | nil => simp
    | cons a l => exact absurd (h a (by simp)) (by simp)
  | k :: ks, l, hn, h => by
    rw [List.nodup_cons] at hn
    have hk : ks.map (fun k' => l.filter (fun a => decide (key a = k'))) =
        ks.map (fun k' => (l.filter (fun a => !decide (key a = k))).filter
          (fun a => decide (key a = k'))) := by
      refine List.map_congr_left (fun k' hk' => ?_)
      rw [List.filter_filter]
      refine List.filter_congr (fun a _ => ?_)
      by_cases ha : key a = k'
      · have : k' ≠ k := fun hh => hn.1 (hh ▸ hk')
        simp [ha, this]
      · simp [ha]
    rw [List.map_cons, List.flatten_cons, hk]
    have ih := rp_partition key ks (l.filter (fun a => !decide (key a = k))) hn.2 (by
      intro a ha
      rw [List.mem_filter] at ha
      have := h a ha.1
      rw [List.mem_cons] at this
      rcases this with e | e
      · simp [e] at ha
      · exact e)
    refine (List.Perm.append_left _ ih).trans ?_
    exact List.filter_append_perm (fun a => decide (key a = k)) l

theorem rpGroupMap_mem {κ α : Type} [DecidableEq κ] (key : α → κ) (l : List α)
    (g : κ × List α) (h : g ∈ rpGroupMap (l.map (fun a => (key a, a)))) :
    (∃ a ∈ l, key a = g.1) ∧ g.2 = l.filter (fun a => decide (key a = g.1)) := by
  unfold rpGroupMap at h
  simp only [List.mem_map, rpUnique_mem] at h
  obtain ⟨k, ⟨p, ⟨a, ha, rfl⟩, rfl⟩, rfl⟩ := h
  refine ⟨⟨a, ha, rfl⟩, ?_⟩
  simp [List.filter_map, Function.comp_def]

theorem rpGroupMap_flatten {κ α : Type} [DecidableEq κ] (key : α → κ) (l : List α) :
    (((rpGroupMap (l.map (fun a => (key a, a)))).map Prod.snd).flatten).Perm l := by
  have h := rp_partition key (rpUnique (l.map key)) l (rpUnique_nodup _)
    (fun a ha => (rpUnique_mem _ _).2 (List.mem_map_of_mem ha))
  refine List.Perm.trans (List.Perm.of_eq ?_) h
  unfold rpGroupMap
  simp [List.filter_map, Function.comp_def]

/-! ### The row of a student -/

theorem rp_mapM_some {α β : Type} (f : α → Option β) (g : α → β) :
    ∀ l : List α, (∀ a ∈ l, f a = some (g a)) → l.mapM f = some (l.map g)
  | [], _ => by simp
  | a :: l, h => by
    rw [List.mapM_cons, h a (by simp), rp_mapM_some f g l (fun b hb => h b (by simp [hb]))]
    rfl

theorem rp_mapM_map {α β γ : Type} (f : α → Option β) (F : β → γ) (G : α → γ)
    (h : ∀ a b, f a = some b → F b = G a) :
    ∀ (l : List α) (bs : List β), l.mapM f = some bs → bs.map F = l.map G
  | [], bs, hm => by simp at hm; simp [hm]
  | a :: l, bs, hm => by
    rw [List.mapM_cons] at hm
    cases hf : f a with
    | none => simp [hf] at hm
    | some b =>
      cases hl : l.mapM f with
      | none => simp [hf, hl] at hm
      | some cs =>
        simp [hf, hl] at hm
        subst hm
        simp [h a b hf, rp_mapM_map f F G h l cs hl]

theorem rp_mapM_mem {α β : Type} (f : α → Option β) :
    ∀ (l : List α) (bs : List β), l.mapM f = some bs → ∀ b ∈ bs, ∃ a ∈ l, f a = some b
  | [], bs, hm, b, hb => by simp at hm; simp [hm] at hb
  | a :: l, bs, hm, b, hb => by
    rw [List.mapM_cons] at hm
    cases hf : f a with
    | none => simp [hf] at hm
    | some b' =>
      cases hl : l.mapM f with
      | none => simp [hf, hl] at hm
      | some cs =>
        simp [hf, hl] at hm
        subst hm
        rcases List.mem_cons.mp hb with e | e
        · exact ⟨a, by simp, by rw [hf, e]⟩
        · obtain ⟨a', ha', h'⟩ := rp_mapM_mem f l cs hl b e
          exact ⟨a', by simp [ha'], h'⟩

theorem rpPush_lookup (k th : RpTitle) (c : RpRec) : ∀ row : List (RpTitle × List RpRec),
    (rpPush k c row).lookup th =
      if th = k then some ((row.lookup th).getD [] ++ [c]) else row.lookup th
  | [] => by
    by_cases h : th = k
    · subst h; simp [rpPush, List.lookup]
    · have : (th == k) = false := by simpa using h
      simp [rpPush, List.lookup, h, this]
  | (k', rs) :: rest => by
    by_cases hk : k' = k
    · subst hk
      by_cases h : th = k'
      · subst h; simp [rpPush, List.lookup]
      · have : (th == k') = false := by simpa using h
        simp [rpPush, List.lookup, h, this]
    · rw [rpPush, if_neg hk]
      by_cases h : th = k'
      · subst h; simp [List.lookup, hk]
      · have : (th == k') = false := by simpa using h
        simp only [List.lookup, this]
        exact rpPush_lookup k th c rest

theorem rpTableRow_lookup (r : RpRecord) (f : RpTitle → RpRec) (th : RpTitle) :
    ∀ (ts : List RpTitle) (row : List (RpTitle × List RpRec)),
    (∀ k ∈ ts, r.cellByKey k = some (f k)) →
    (ts.foldl (fun row column =>
      match r.cellByKey column with
      | some c => rpPush column c row
      | none => row) row).lookup th =
    if th ∈ ts then some ((row.lookup th).getD [] ++ List.replicate (ts.count th) (f th))
    else row.lookup th
  | [], row, _ => by simp
  | k :: ts, row, h => by
    rw [List.foldl_cons, h k (by simp)]
    dsimp only
    rw [rpTableRow_lookup r f th ts _ (fun k' hk' => h k' (by simp [hk'])), rpPush_lookup]
    by_cases hk : th = k
    · subst hk
      by_cases hm : th ∈ ts
      · simp [hm, List.replicate_succ]
      · simp [hm, List.count_eq_zero_of_not_mem hm]
    · have hk' : ¬ k = th := fun h => hk h.symm
      by_cases hm : th ∈ ts
      · simp [hk, hm, List.count_cons, hk']
      · simp [hk, hm]

/-- The `<td>`s of a row: for each title of the header the first cell with this title and subtitle,
as often as the title occurs in the header. -/
theorem rpRenderRow_eq (r : RpRecord) (f : RpTitle → RpRec) (ts : List RpTitle)
    (h : ∀ k ∈ ts, r.cellByKey k = some (f k)) :
    rpRenderRow ts (rpTableRow r ts) =
      some (ts.flatMap (fun th => List.replicate (ts.count th) (rpTd (f th)))) := by
  unfold rpRenderRow
  have hm : ts.mapM (fun th => (rpTableRow r ts).lookup th) =
      some (ts.map (fun th => List.replicate (ts.count th) (f th))) := by
    refine rp_mapM_some _ _ ts (fun th hth => ?_)
    have := rpTableRow_lookup r f th ts [] h
    rw [if_pos hth] at this
    simp only [List.lookup_nil, Option.getD_none, List.nil_append] at this
    exact this
  rw [hm]
  simp [List.flatMap, List.map_flatten, List.map_map, Function.comp_def, List.map_replicate]

/-! ### Specification -/

/-- The rows of the table of results that a report on the area is about. -/
def RpActive (code : String) (r : RpStored) : Bool :=
  decide (r.areaCode = code ∧ r.isActive = true ∧ r.version = 3)

/-- What the student's audit has to show, without the parts of emphases. -/
def rpShown (r : RpStored) : List RpRec :=
  ((rpAreaRow r.student r.area).getD []).filter (fun c => !rpStarts "Emphasis:" c.title)

/-- No two of them have the same title and subtitle. -/
def RpDistinct (r : RpStored) : Prop := ((rpShown r).map (fun c => (c.title, c.subtitle))).Nodup

/-- The names of the statuses, as in the audit. -/
def rpSpecStatus : RpStatus → String
  | .done => "done"
  | .waived => "waived"
  | .pendingCurrent => "pending-current"
  | .pendingRegistered => "pending-registered"
  | .pendingApproval => "pending-approval"
  | .needsMoreItems => "needs-more-items"
  | .empty => "empty"
  | .failedInvariant => "failed-invariant"

/-- A cell as it is to be written: as passing if it is done, waived or being taken. -/
def rpSpecTd (c : RpRec) : RpTd :=
  { passing := decide (c.status = .done ∨ c.status = .waived ∨ c.status = .pendingCurrent)
    statusClass := "status--" ++ rpSpecStatus c.status
    content := c.content }

/-- The row of a student as it is written whatever the titles are: in each column the first cell
with the title of the column, as often as there are columns with this title. -/
def rpSpecRow (r : RpStored) : List RpTd :=
  let columns := (rpShown r).map (fun c => (c.title, c.subtitle))
  columns.flatMap (fun k =>
    match (rpShown r).find? (fun c => decide ((c.title, c.subtitle) = k)) with
    | some c => List.replicate (columns.count k) (rpSpecTd c)
    | none => [])

/-- By name and, for the same name, by number. -/
def RpByName (a b : RpStored) : Prop :=
  rpLe (rpStr a.student.nameSort ++ rpStr a.student.stnum)
    (rpStr b.student.nameSort ++ rpStr b.student.stnum) = true

/-! ### Records -/

theorem rpRecord_eq (s : RpStudent) (a : RpArea) (r : RpRecord) (h : rpRecord s a = some r) :
    rpAreaRow s a = some r.cells ∧ r.student = s ∧ r.emphases = rpEmphasisNames a ∧
      r.titles = (r.cells.filter (fun c => !c.isEmphasis)).map RpRec.key := by
  unfold rpRecord at h
  cases hc : rpAreaRow s a with
  | none => simp [hc] at h
  | some cells =>
    simp [hc] at h
    subst h
    exact ⟨rfl, rfl, rfl, rfl⟩

/-- A record that was made from the audit of a student. -/
def RpMade (r : RpRecord) : Prop :=
  r.titles = (r.cells.filter (fun c => !c.isEmphasis)).map RpRec.key

def rpDefault : RpRec := ⟨"", none, .empty, []⟩

theorem RpMade.found (r : RpRecord) (h : RpMade r) (k : RpTitle) (hk : k ∈ r.titles) :
    r.cellByKey k = some ((r.cellByKey k).getD rpDefault) := by
  rw [h, List.mem_map] at hk
  obtain ⟨c, hc, rfl⟩ := hk
  rw [List.mem_filter] at hc
  cases hf : r.cellByKey c.key with
  | some c' => rfl
  | none =>
    unfold RpRecord.cellByKey at hf
    rw [List.find?_eq_none] at hf
    have := hf c hc.1
    simp [RpRec.key] at this

theorem RpMade.own (r : RpRecord) (h : RpMade r) (hn : r.titles.Nodup) :
    r.titles.map (fun k => (r.cellByKey k).getD rpDefault) =
      r.cells.filter (fun c => !c.isEmphasis) := by
  rw [h, List.map_map]
  conv_rhs => rw [← List.map_id (r.cells.filter (fun c => !c.isEmphasis))]
  refine List.map_congr_left (fun c hc => ?_)
  have hk : c.key ∈ r.titles := by rw [h]; exact List.mem_map_of_mem hc
  have hf := RpMade.found r h c.key hk
  generalize (r.cellByKey c.key).getD rpDefault = c' at hf ⊢
  simp only [Function.comp_apply, hf, Option.getD_some, id]
  unfold RpRecord.cellByKey at hf
  have h1 := List.find?_some hf
  have h2 := List.mem_of_find?_eq_some hf
  simp only [Bool.and_eq_true, RpRec.key] at h1
  have h1 := And.intro (of_decide_eq_true h1.1) (of_decide_eq_true h1.2)
  have hkey : c'.key = c.key := by unfold RpRec.key; rw [h1.1, h1.2]
  rw [List.mem_filter] at hc
  have h3 : c' ∈ r.cells.filter (fun c => !c.isEmphasis) := by
    rw [List.mem_filter]
    refine ⟨h2, ?_⟩
    have := hc.2
    unfold RpRec.isEmphasis at this ⊢
    rwa [h1.1]
  rw [h] at hn
  exact List.inj_on_of_nodup_map hn h3 (List.mem_filter.mpr hc) hkey

/-- The row as it is written. -/
def rpWritten (r : RpRecord) : List RpTd :=
  r.titles.flatMap (fun th =>
    List.replicate (r.titles.count th) (rpTd ((r.cellByKey th).getD rpDefault)))

theorem rpWritten_own (r : RpRecord) (h : RpMade r) (hn : r.titles.Nodup) :
    rpWritten r = (r.cells.filter (fun c => !c.isEmphasis)).map rpTd := by
  rw [← RpMade.own r h hn, List.map_map]
  unfold rpWritten
  rw [List.flatMap_def, List.map_congr_left (g := fun th =>
    [rpTd ((r.cellByKey th).getD rpDefault)])
    (fun th hth => by rw [List.count_eq_one_of_mem hn hth]; rfl)]
  rw [← List.flatMap_def, ← List.map_eq_flatMap]
  rfl

/-! ### Tables -/

/-- The table as it is written. -/
def rpWrittenTable (g : RpTableKey × List RpRecord) : RpHtml :=
  { caption := rpCaption (g.2.map (fun r => r.student.catalog)) g.1.2
    header := g.1.1.2
    rows := g.2.map rpWritten }

/-- The condition under which two records are in the same table. -/
def rpKeyOf (r : RpRecord) : RpTableKey := ((r.student.catalog, r.titles), r.emphases)

theorem rpToTable_render (records : List RpRecord) (hm : ∀ r ∈ records, RpMade r)
    (g : RpTableKey × List RpRecord) (hg : g ∈ rpGroups records) :
    ((rpToTable g).rows.mapM (rpRenderRow (rpToTable g).header)) =
      some (rpWrittenTable g).rows := by
  obtain ⟨-, h2⟩ := rpGroupMap_mem rpKeyOf records g hg
  unfold rpToTable rpWrittenTable
  dsimp only
  have : ∀ r ∈ g.2, rpRenderRow g.1.1.2 (rpTableRow r g.1.1.2) = some (rpWritten r) := by
    intro r hr
    rw [h2, List.mem_filter] at hr
    have hk : rpKeyOf r = g.1 := by simpa using hr.2
    have ht : r.titles = g.1.1.2 := by rw [← hk]; rfl
    rw [← ht, rpRenderRow_eq r _ r.titles (fun k hk => RpMade.found r (hm r hr.1) k hk)]
    rfl
  rw [List.mapM_map]
  exact rp_mapM_some _ _ _ this

/-- The order of the captions of groups. -/
def rpGroupLe (a b : RpTableKey × List RpRecord) : Prop :=
  rpCaptionLe (rpToTable a) (rpToTable b)

instance : DecidableRel rpGroupLe := fun _ _ => inferInstanceAs (Decidable (_ = true))
instance : Std.Total rpGroupLe := ⟨fun _ _ => rpLe_total _ _⟩
instance : IsTrans _ rpGroupLe := ⟨fun _ _ _ h1 h2 => rpLe_trans _ _ _ h1 h2⟩

theorem rpReport_eq (records : List RpRecord) (hm : ∀ r ∈ records, RpMade r)
    (order : List (RpTableKey × List RpRecord)) (hp : order.Perm (rpGroups records)) :
    ∃ sorted : List (RpTableKey × List RpRecord), sorted.Perm order ∧
      rpReport order = some (sorted.map rpWrittenTable) ∧
      sorted.Pairwise rpGroupLe := by
  refine ⟨order.insertionSort rpGroupLe, List.perm_insertionSort rpGroupLe order, ?_,
    List.pairwise_insertionSort rpGroupLe order⟩
  unfold rpReport rpRender
  rw [← List.map_insertionSort (r := rpGroupLe) (s := rpCaptionLe) rpToTable order
    (fun a _ b _ => Iff.rfl), List.mapM_map]
  refine rp_mapM_some _ _ _ (fun g hg => ?_)
  have hg' : g ∈ rpGroups records :=
    (hp.mem_iff).mp (((List.perm_insertionSort rpGroupLe order).mem_iff).mp hg)
  dsimp only [Function.comp_apply]
  rw [rpToTable_render records hm g hg']
  rfl

/-! ### The report -/

theorem rpFetch_eq (db : List RpStored) (code : String) (records : List RpRecord)
    (h : rpFetch db code = some records) :
    ∃ made : List RpRecord, made.Perm records ∧
      (db.filter (RpActive code)).mapM (fun r => rpRecord r.student r.area) = some made ∧
      records.Pairwise rpRecordLe := by
  unfold rpFetch at h
  have hf : (fun r : RpStored => decide (r.areaCode = code) && r.isActive &&
      decide (r.version = 3)) = RpActive code := by
    funext r
    unfold RpActive
    cases r.isActive <;> simp
  rw [hf] at h
  cases hm : (db.filter (RpActive code)).mapM (fun r => rpRecord r.student r.area) with
  | none => simp [hm] at h
  | some made =>
    simp [hm] at h
    subst h
    exact ⟨made, (List.perm_insertionSort _ _).symm, rfl, List.pairwise_insertionSort _ _⟩

theorem rpTd_spec (c : RpRec) : rpTd c = rpSpecTd c := by
  unfold rpTd rpSpecTd
  cases c.status <;> rfl

theorem rpWritten_spec (st : RpStored) (r : RpRecord) (h : rpRecord st.student st.area = some r) :
    rpWritten r = rpSpecRow st := by
  obtain ⟨h1, -, -, h4⟩ := rpRecord_eq _ _ _ h
  have hs : rpShown st = r.cells.filter (fun c => !c.isEmphasis) := by
    unfold rpShown; rw [h1]; rfl
  have hk : (rpShown st).map (fun c => (c.title, c.subtitle)) = r.titles := by
    rw [h4, hs]; rfl
  unfold rpWritten rpSpecRow
  simp only [hk]
  rw [List.flatMap_def, List.flatMap_def]
  congr 1
  refine List.map_congr_left (fun k hkm => ?_)
  have hfound := RpMade.found r h4 k hkm
  have : (rpShown st).find? (fun c => decide ((c.title, c.subtitle) = k)) = r.cellByKey k := by
    rw [hs, List.find?_filter]
    unfold RpRecord.cellByKey
    congr 1
    funext c
    by_cases hc : (c.title, c.subtitle) = k
    · subst hc
      have : c.isEmphasis = false := by
        rw [h4, List.mem_map] at hkm
        obtain ⟨c', hc', he⟩ := hkm
        rw [List.mem_filter] at hc'
        have h2 := hc'.2
        unfold RpRec.isEmphasis at h2 ⊢
        have : c'.title = c.title := congrArg Prod.fst he
        rw [this] at h2
        simpa using h2
      simp [this]
    · have : (decide (c.title = k.1) && decide (c.subtitle = k.2)) = false := by
        by_contra hh
        simp at hh
        exact hc (Prod.ext hh.1 hh.2)
      simp [hc, this]
  rw [this, hfound]
  simp [rpTd_spec]

theorem rpSpecRow_distinct (st : RpStored) (hd : RpDistinct st) :
    rpSpecRow st = (rpShown st).map rpSpecTd := by
  unfold RpDistinct at hd
  unfold rpSpecRow
  dsimp only
  conv_rhs => rw [List.map_eq_flatMap]
  rw [List.flatMap_map, List.flatMap_def, List.flatMap_def]
  congr 1
  refine List.map_congr_left (fun c hc => ?_)
  rw [List.count_eq_one_of_mem hd (List.mem_map_of_mem hc)]
  have : (rpShown st).find? (fun c' => decide ((c'.title, c'.subtitle) = (c.title, c.subtitle)))
      = some c := by
    cases hf : (rpShown st).find?
      (fun c' => decide ((c'.title, c'.subtitle) = (c.title, c.subtitle))) with
    | none =>
      rw [List.find?_eq_none] at hf
      exact absurd (hf c hc) (by simp)
    | some c' =>
      have h0 := List.find?_some hf
      have h1 := of_decide_eq_true h0
      rw [List.inj_on_of_nodup_map hd (List.mem_of_find?_eq_some hf) hc h1]
  rw [this]
  rfl

/-- **C113.** For every table of results, every area and every order in which the groups of students
come out of the hash map: if the audits can be read, the report is written, and its rows are one row
for each student with an active result, whatever the titles of the columns are. -/
theorem C113_every_student_has_one_row (db : List RpStored) (code : String)
    (records : List RpRecord) (hf : rpFetch db code = some records)
    (order : List (RpTableKey × List RpRecord)) (hp : order.Perm (rpGroups records)) :
    ∃ doc, rpReport order = some doc ∧
      (doc.flatMap RpHtml.rows).Perm ((db.filter (RpActive code)).map rpSpecRow) := by
  obtain ⟨made, hperm, hmade, -⟩ := rpFetch_eq db code records hf
  have hm : ∀ r ∈ records, RpMade r := by
    intro r hr
    obtain ⟨st, -, hst⟩ := rp_mapM_mem _ _ _ hmade r (hperm.mem_iff.mpr hr)
    exact (rpRecord_eq _ _ _ hst).2.2.2
  obtain ⟨sorted, hs, he, -⟩ := rpReport_eq records hm order hp
  refine ⟨_, he, ?_⟩
  have h1 : (sorted.map rpWrittenTable).flatMap RpHtml.rows =
      ((sorted.map Prod.snd).flatten).map rpWritten := by
    rw [List.flatMap_map, List.map_flatten, List.map_map, List.flatMap_def]
    rfl
  rw [h1]
  have h2 : (((sorted.map Prod.snd).flatten).map rpWritten).Perm (records.map rpWritten) :=
    (((hs.trans hp).map Prod.snd).flatten.trans (rpGroupMap_flatten rpKeyOf records)).map _
  refine h2.trans ((hperm.symm.map rpWritten).trans (List.Perm.of_eq ?_))
  exact rp_mapM_map _ rpWritten rpSpecRow (fun a b hab => rpWritten_spec a b hab) _ _ hmade

/-- **C113.** For every table of results and every order of the hash map: if of no student two parts
of the audit have the same title and subtitle, then the rows of the report are, for each student
with an active result once, all that the audit has to show except the parts of emphases, in the
order of the audit; each table has students with the same columns only, these columns are its
header, and its students are listed by name.

Missing: the cells of a student whose audit has two parts of the same title are not in the columns
they belong to, and all but the first are not shown (`C113_same_title_refuted`); the parts of
emphases are shown nowhere (`C113_emphasis_refuted`); which of two tables with the same caption is
the first is not determined (`C113_order_of_tables_refuted`). -/
theorem C113_report_shows_the_audits_partial (db : List RpStored) (code : String)
    (records : List RpRecord) (hf : rpFetch db code = some records)
    (order : List (RpTableKey × List RpRecord)) (hp : order.Perm (rpGroups records))
    (hd : ∀ r ∈ db, RpActive code r = true → RpDistinct r) :
    ∃ doc, rpReport order = some doc ∧
      (doc.flatMap RpHtml.rows).Perm
        ((db.filter (RpActive code)).map (fun r => (rpShown r).map rpSpecTd)) ∧
      ∀ t ∈ doc, ∃ students : List RpStored, students ≠ [] ∧
        (∀ r ∈ students, r ∈ db ∧ RpActive code r = true ∧
          t.header = (rpShown r).map (fun c => (c.title, c.subtitle))) ∧
        students.Pairwise RpByName ∧
        t.rows = students.map (fun r => (rpShown r).map rpSpecTd) := by
  obtain ⟨doc, h1, h2⟩ := C113_every_student_has_one_row db code records hf order hp
  have hrow : (db.filter (RpActive code)).map rpSpecRow =
      (db.filter (RpActive code)).map (fun r => (rpShown r).map rpSpecTd) := by
    refine List.map_congr_left (fun r hr => ?_)
    rw [List.mem_filter] at hr
    exact rpSpecRow_distinct r (hd r hr.1 hr.2)
  rw [hrow] at h2
  refine ⟨doc, h1, h2, ?_⟩
  obtain ⟨made, hperm, hmade, hsort⟩ := rpFetch_eq db code records hf
  have hst : ∀ r : RpRecord, ∃ st : RpStored, r ∈ records →
      (st ∈ db ∧ RpActive code st = true) ∧ rpRecord st.student st.area = some r := by
    intro r
    by_cases hr : r ∈ records
    · obtain ⟨st, h, hst⟩ := rp_mapM_mem _ _ _ hmade r (hperm.mem_iff.mpr hr)
      exact ⟨st, fun _ => ⟨List.mem_filter.mp h, hst⟩⟩
    · exact ⟨⟨"", false, 0, r.student, ⟨.empty, .query [] .empty⟩⟩, fun h => absurd h hr⟩
  choose f hf' using hst
  have hm : ∀ r ∈ records, RpMade r := fun r hr => (rpRecord_eq _ _ _ (hf' r hr).2).2.2.2
  obtain ⟨sorted, hs, he, -⟩ := rpReport_eq records hm order hp
  rw [h1] at he
  cases he
  intro t ht
  rw [List.mem_map] at ht
  obtain ⟨g, hg, rfl⟩ := ht
  obtain ⟨⟨a, ha, hak⟩, hg2⟩ := rpGroupMap_mem rpKeyOf records g
    ((hs.trans hp).mem_iff.mp hg)
  have hsub : ∀ r ∈ g.2, r ∈ records ∧ rpKeyOf r = g.1 := by
    intro r hr
    rw [hg2, List.mem_filter] at hr
    exact ⟨hr.1, by simpa using hr.2⟩
  have hkeys : ∀ r ∈ g.2, (rpShown (f r)).map (fun c => (c.title, c.subtitle)) = g.1.1.2 := by
    intro r hr
    obtain ⟨hr1, hr2⟩ := hsub r hr
    obtain ⟨e1, -, -, e4⟩ := rpRecord_eq _ _ _ (hf' r hr1).2
    have : r.titles = g.1.1.2 := by rw [← hr2]; rfl
    rw [← this, e4]
    unfold rpShown
    rw [e1]
    rfl
  refine ⟨g.2.map f, ?_, ?_, ?_, ?_⟩
  · intro hnil
    have : a ∈ g.2 := by rw [hg2, List.mem_filter]; exact ⟨ha, by simpa using hak⟩
    rw [List.map_eq_nil_iff] at hnil
    simp [hnil] at this
  · intro st hst
    rw [List.mem_map] at hst
    obtain ⟨r, hr, rfl⟩ := hst
    obtain ⟨hr1, -⟩ := hsub r hr
    exact ⟨(hf' r hr1).1.1, (hf' r hr1).1.2, (hkeys r hr).symm⟩
  · rw [List.pairwise_map]
    have : g.2.Pairwise rpRecordLe := by rw [hg2]; exact hsort.filter _
    refine List.Pairwise.imp_of_mem ?_ this
    intro x y hx hy hxy
    obtain ⟨hx1, hx2⟩ := hsub x hx
    obtain ⟨hy1, hy2⟩ := hsub y hy
    have hk : rpKeyOf x = rpKeyOf y := by rw [hx2, hy2]
    have hc : rpGroupCode x = rpGroupCode y := by
      unfold rpKeyOf at hk
      simp only [Prod.mk.injEq] at hk
      unfold rpGroupCode
      rw [hk.1.1, hk.1.2]
    unfold rpRecordLe at hxy
    rw [hc, rpLe_append] at hxy
    unfold RpByName
    rw [← (rpRecord_eq _ _ _ (hf' x hx1).2).2.1, ← (rpRecord_eq _ _ _ (hf' y hy1).2).2.1]
    exact hxy
  · show g.2.map rpWritten = _
    rw [List.map_map]
    refine List.map_congr_left (fun r hr => ?_)
    obtain ⟨hr1, -⟩ := hsub r hr
    obtain ⟨⟨q1, q2⟩, q3⟩ := hf' r hr1
    rw [rpWritten_spec (f r) r q3, rpSpecRow_distinct (f r) (hd _ q1 q2)]
    rfl

/-- **C113.** If no two tables of a report have the same caption, then every run of the program on
the same results gives this report, and its tables are in the order of their captions. -/
theorem C113_report_is_determined_partial (db : List RpStored) (code : String)
    (records : List RpRecord) (hf : rpFetch db code = some records)
    (order order' : List (RpTableKey × List RpRecord))
    (hp : order.Perm (rpGroups records)) (hp' : order'.Perm (rpGroups records))
    (doc : List RpHtml) (hdoc : rpReport order = some doc)
    (hcap : (doc.map RpHtml.caption).Nodup) :
    rpReport order' = some doc ∧
      doc.Pairwise (fun a b => rpLe (rpStr a.caption) (rpStr b.caption) = true) := by
  obtain ⟨made, hperm, hmade, -⟩ := rpFetch_eq db code records hf
  have hm : ∀ r ∈ records, RpMade r := by
    intro r hr
    obtain ⟨st, -, hst⟩ := rp_mapM_mem _ _ _ hmade r (hperm.mem_iff.mpr hr)
    exact (rpRecord_eq _ _ _ hst).2.2.2
  obtain ⟨sorted, hs, he, hpw⟩ := rpReport_eq records hm order hp
  obtain ⟨sorted', hs', he', hpw'⟩ := rpReport_eq records hm order' hp'
  rw [hdoc] at he
  cases he
  refine ⟨?_, ?_⟩
  · have hpp : sorted.Perm sorted' := hs.trans (hp.trans (hp'.symm.trans hs'.symm))
    rw [List.map_map] at hcap
    have : sorted = sorted' := by
      refine List.Perm.eq_of_pairwise ?_ hpw hpw' hpp
      intro a b ha hb h1 h2
      have hcode := rpLe_antisymm _ _ h1 h2
      have hcap' := rpStr_inj _ _ hcode
      exact List.inj_on_of_nodup_map hcap ha (hpp.mem_iff.mpr hb) hcap'
    rw [he', this]
  · rw [List.pairwise_map]
    exact hpw

/-! ### Examples and refutations -/

/-- A course. -/
def rpCourseOf (clbid subject number : String) (inProgress : Bool) : RpCourse :=
  { clbid := clbid, schedid := none, inProgress := inProgress, subject := subject,
    number := number, section_ := none, subType := "lecture", name := "", year := "2019",
    term := "1", institution := "STOLAF" }

def rpAnn : RpStudent :=
  { stnum := "1", nameSort := "Ann", classification := .sr, classYear := "2021",
    catalog := "2018-19",
    courses := [rpCourseOf "10" "CSCI" "121" false, rpCourseOf "11" "CSCI" "251" false] }

def rpBob : RpStudent :=
  { stnum := "2", nameSort := "Bob", classification := .jr, classYear := "2022",
    catalog := "2018-19", courses := [rpCourseOf "20" "CSCI" "121" false] }

/-- An item for a course. -/
def rpCourseItem (course : String) (claims : List String) (st : RpStatus) : RpRule :=
  .course { claims := claims, course := some course, ap := none, crsid := none, status := st }

/-- A query for a number of courses. -/
def rpQueryItem (n : Rat) (clbids : List String) (st : RpStatus) : RpRule :=
  .query [.rule { key := .courses, op := .greaterThanOrEqualTo, expected := n,
                  resolved := some clbids.length, inserted := [], resolvedClbids := clbids,
                  status := st }] st

/-- An audit of a major with one requirement, for both of two courses. -/
def rpCore (a b : List String) (st : RpStatus) : RpArea :=
  { status := st
    result := .count 2 [
      .requirement "Core" ["$", "%Core"]
        (some (.count 2 [
          rpCourseItem "CSCI 121" a (if a.isEmpty then .empty else .done),
          rpCourseItem "CSCI 251" b (if b.isEmpty then .empty else .done)] st)) st,
      .requirement "Common Requirements" ["$", "%Common Requirements"] none .done] st }

def rpCoreDb : List RpStored :=
  [⟨"140", true, 3, rpBob, rpCore ["20"] [] .needsMoreItems⟩,
   ⟨"140", true, 3, rpAnn, rpCore ["10"] ["11"] .done⟩,
   ⟨"140", false, 3, rpAnn, rpCore ["10"] [] .needsMoreItems⟩,
   ⟨"150", true, 3, rpBob, rpCore [] [] .empty⟩]

/-- The hypotheses of the theorems hold of a small table, and the report has one table with a row
for Ann and one for Bob. -/
example : ∃ records, rpFetch rpCoreDb "140" = some records ∧ records.length = 2 ∧
    (∃ doc, rpReport (rpGroups records) = some doc ∧ doc.length = 1 ∧
      (doc.map RpHtml.caption) = ["Catalog: 2018-19"] ∧ (doc.map RpHtml.caption).Nodup ∧
      (doc.map (fun t => t.rows.map (fun row => row.map RpTd.passing))) =
        [[[true, true, true, true, true, true],
          [false, false, false, false, false, false]]]) ∧
    (∀ r ∈ rpCoreDb, RpActive "140" r = true → RpDistinct r) := by
  refine ⟨_, rfl, by decide +kernel, ⟨_, rfl, ?_, ?_, ?_, ?_⟩, ?_⟩
  · decide +kernel
  · decide +kernel
  · decide +kernel
  · decide +kernel
  · unfold RpDistinct; decide +kernel

/-- An audit of a major with the requirement of one of: a course, or two courses of a query. -/
def rpOneOf (clbids : List String) (st : RpStatus) : RpArea :=
  { status := st
    result := .count 2 [
      .requirement "Electives" ["$", "%Electives"]
        (some (.count 1 [rpCourseItem "CSCI 390" [] .empty, rpQueryItem 2 clbids st] st)) st,
      .requirement "Common Requirements" ["$", "%Common Requirements"] none .done] st }

def rpOneOfDb : List RpStored :=
  [⟨"140", true, 3, rpAnn, rpOneOf ["10", "11"] .done⟩,
   ⟨"140", true, 3, rpBob, rpOneOf ["20"] .needsMoreItems⟩]

/-- Ann has done one of two things with two courses. The three parts of this query have the same
title, so the header of the table has 7 columns while Ann's row has 13 cells; the last nine of them
are all the number of courses, and the two courses are not shown. -/
theorem C113_same_title_refuted :
    ∃ records doc, rpFetch [⟨"140", true, 3, rpAnn, rpOneOf ["10", "11"] .done⟩] "140" =
        some records ∧
      rpReport (rpGroups records) = some doc ∧
      (doc.map (fun t => (t.header.length, t.rows.map List.length))) = [(7, [13])] ∧
      (∀ t ∈ doc, ∀ row ∈ t.rows, ∀ td ∈ row.drop 4, td.content = [.progress true 0 2 2]) ∧
      (∃ c ∈ rpShown ⟨"140", true, 3, rpAnn, rpOneOf ["10", "11"] .done⟩,
        c.content = [.completed rpAnn.courses]) := by
  refine ⟨_, _, rfl, rfl, ?_, ?_, ?_⟩ <;> decide +kernel

/-- Ann and Bob have the same catalog and the same major, and are in two tables with the same
caption; which comes first depends on the order of the hash map. -/
theorem C113_order_of_tables_refuted :
    ∃ records order order' doc doc', rpFetch rpOneOfDb "140" = some records ∧
      order.Perm (rpGroups records) ∧ order'.Perm (rpGroups records) ∧
      rpReport order = some doc ∧ rpReport order' = some doc' ∧
      doc.map RpHtml.caption = ["Catalog: 2018-19", "Catalog: 2018-19"] ∧ doc ≠ doc' := by
  refine ⟨_, _, (rpGroups _).reverse, _, _, rfl, List.Perm.refl _, List.reverse_perm _, rfl, rfl,
    ?_, ?_⟩
  · decide +kernel
  · decide +kernel

/-- An audit of a major with an emphasis. -/
def rpEmphasis : RpArea :=
  { status := .done
    result := .count 2 [
      .requirement "Core" ["$", "%Core"] (some (rpCourseItem "CSCI 121" ["10"] .done)) .done,
      .requirement "Emphasis: Systems" ["$", "%Emphasis: Systems"]
        (some (rpCourseItem "CSCI 251" ["11"] .done)) .done] .done }

/-- The course that Ann has taken for the emphasis is in the audit, but nowhere in the report; only
the caption names the emphasis. -/
theorem C113_emphasis_refuted :
    ∃ records doc, rpFetch [⟨"140", true, 3, rpAnn, rpEmphasis⟩] "140" = some records ∧
      rpReport (rpGroups records) = some doc ∧
      doc.map RpHtml.caption = ["Catalog: 2018-19; Emphases: Emphasis: Systems"] ∧
      (∃ r ∈ records, ∃ c ∈ r.cells, c.content = [.course (rpCourseOf "11" "CSCI" "251" false)]) ∧
      (∀ t ∈ doc, ∀ row ∈ t.rows, ∀ td ∈ row,
        td.content ≠ [.course (rpCourseOf "11" "CSCI" "251" false)]) := by
  refine ⟨_, _, rfl, rfl, ?_, ?_, ?_⟩ <;> decide +kernel

end Dp
