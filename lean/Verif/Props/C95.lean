import Verif.Props.C94

/-!
# C95 — Columns that do not belong together: answer or exception

What happens when the columns have different labels is decided output by output.  OBV, NVI and PSAR do not look at the labels of the other columns at
all, ADX only compares those of high and low; ATR, MFI and the Keltner indicators answer exactly if the other columns bring no row that is not there
already, and raise otherwise.
-/

namespace TA

set_option linter.unusedSectionVars false

section len
variable {L F : Type} [LinearOrder L] [Flt F]

/-- one value per label -/
def Lab.WF (s : Lab L F) : Prop := s.val.length = s.idx.length

theorem Lab.WF.bin {a b : Lab L F} (f : F → F → F) (ha : a.WF) : (Lab.bin f a b).WF := by
  unfold Lab.WF at ha ⊢
  unfold Lab.bin
  split_ifs
  · simpa using ha
  · simp

theorem Lab.WF.tri {a b c : Lab L F} (f : F → F → F → F) (ha : a.WF) : (Lab.tri f a b c).WF := by
  unfold Lab.WF at ha ⊢
  unfold Lab.tri
  split_ifs
  · simpa using ha
  · simp

theorem Lab.WF.map {a : Lab L F} {g : Series F → Series F} (hg : ∀ s, (g s).length = s.length) (ha : a.WF) : (a.map g).WF := (hg _).trans ha

theorem Lab.WF.trueRange {h : Lab L F} (l c : Lab L F) (hh : h.WF) : (Lab.trueRange h l c).WF := Lab.WF.tri _ (Lab.WF.bin _ hh)

theorem Lab.WF.typical {h : Lab L F} (l c : Lab L F) (hh : h.WF) : (Lab.typical h l c).WF := Lab.WF.map (by simp) (Lab.WF.bin _ (Lab.WF.bin _ hh))

/-- a join has as many rows as one of its members exactly if the other members bring no new label -/
theorem Joined.len {A : List (List L)} {u a : List L} (h : Joined A u) (ha : a ∈ A) (nd : a.Nodup) :
    u.length = a.length ↔ ∀ b ∈ A, ∀ x ∈ b, x ∈ a := by
  rcases h with h | ⟨-, s, m⟩
  · have e := h a ha
    refine iff_of_true (by rw [e]) fun b hb x hx => ?_
    rw [e, ← h b hb]; exact hx
  · have ndu : u.Nodup := s.imp fun h => ne_of_lt h
    have sub : a ⊆ u := fun x hx => (m x).2 ⟨a, ha, hx⟩
    constructor
    · intro e b hb x hx
      exact ((List.subperm_of_subset nd sub).perm_of_length_le e.le).mem_iff.2 ((m x).2 ⟨b, hb, hx⟩)
    · intro H
      refine List.Perm.length_eq ((List.perm_ext_iff_of_nodup ndu nd).2 fun x => ⟨fun hx => ?_, fun hx => sub hx⟩)
      obtain ⟨b, hb, hx⟩ := (m x).1 hx
      exact H b hb x hx

/-- a member is the join -/
theorem Joined.self_iff {A : List (List L)} {u a : List L} (h : Joined A u) (ha : a ∈ A) : u = a ↔ Joined A a :=
  ⟨fun e => e ▸ h, fun h' => h.unique (List.ne_nil_of_mem ha) h'⟩

end len

section main
variable {L F : Type} [LinearOrder L] [FltFn F]

/-- outputs that read high, low and volume by position -/
def Ind.blind {F : Type} : Ind F → Prop
  | .obv | .nvi | .psar .. | .psarUp .. | .psarDown .. | .psarUpInd .. | .psarDownInd .. => True
  | _ => False

/-- **Position only**: OBV, NVI and PSAR pair the rows by position, whatever the labels; the answer carries the labels of close. -/
theorem paired_by_position (b : List (Bar F)) (ih il ic iv : List L) (fillna : Bool) (ind : Ind F) (hb : ind.blind) :
    ind.evalL fillna ⟨ih, highs b⟩ ⟨il, lows b⟩ ⟨ic, closes b⟩ ⟨iv, volumes b⟩ = (ind.eval fillna b).map fun s => ⟨ic, s⟩ := by
  rw [← labels_pass_through ic b fillna ind]
  cases ind <;> first | exact hb.elim | rfl

/-- **ADX** answers if high and low are labelled alike, whatever the labels of close; otherwise it raises. -/
theorem adx_labels (b : List (Bar F)) (ih il ic iv : List L) (fillna : Bool) (w : Nat) (ind : Ind F) (hi : ind ∈ [.adx w, .adxPos w, .adxNeg w]) :
    (ih = il → ind.evalL fillna ⟨ih, highs b⟩ ⟨il, lows b⟩ ⟨ic, closes b⟩ ⟨iv, volumes b⟩ = (ind.eval fillna b).map fun s => ⟨ic, s⟩)
    ∧ (ih ≠ il → ∃ x, ind.evalL fillna ⟨ih, highs b⟩ ⟨il, lows b⟩ ⟨ic, closes b⟩ ⟨iv, volumes b⟩ = .error x) := by
  constructor
  · rintro rfl
    rw [← labels_pass_through ic b fillna ind]
    have e : Lab.adx ⟨ih, highs b⟩ ⟨ih, lows b⟩ ⟨ic, closes b⟩ w fillna = Lab.adx ⟨ic, highs b⟩ ⟨ic, lows b⟩ ⟨ic, closes b⟩ w fillna := by
      unfold Lab.adx; simp only [if_true]; rfl
    simp only [List.mem_cons, List.not_mem_nil, or_false] at hi
    rcases hi with rfl | rfl | rfl <;> · simp only [Ind.evalL]; rw [e]
  · intro ne
    have e : ∃ x, Lab.adx ⟨ih, highs b⟩ ⟨il, lows b⟩ ⟨ic, closes b⟩ w fillna = .error x := by
      unfold Lab.adx
      split_ifs
      · exact ⟨_, rfl⟩
      · exact ⟨_, rfl⟩
      · dsimp only
        generalize ADX.new (highs b) (lows b) (closes b) w fillna = q
        cases q <;> exact ⟨_, rfl⟩
    obtain ⟨x, e⟩ := e
    refine ⟨x, ?_⟩
    simp only [List.mem_cons, List.not_mem_nil, or_false] at hi
    rcases hi with rfl | rfl | rfl <;> · simp only [Ind.evalL]; rw [e]; rfl

/-- **ATR** answers exactly if high and low have no row that close does not have. -/
theorem atr_answers (h l c v : Lab L F) (wh : h.WF) (wc : c.WF) (nh : h.idx ≠ []) (nl : l.idx ≠ []) (nd : c.idx.Nodup) (fillna : Bool)
    (w : Nat) (w1 : 1 ≤ w) (wn : w ≤ c.idx.length) :
    (∃ s, (Ind.atr w).evalL fillna h l c v = .ok s) ↔ (∀ x ∈ h.idx, x ∈ c.idx) ∧ ∀ x ∈ l.idx, x ∈ c.idx := by
  have nc : c.idx ≠ [] := by intro e; rw [e] at wn; simp at wn; omega
  have hJ : Joined [h.idx, l.idx, c.idx] (Lab.trueRange h l (c.map (shift · 1))).idx :=
    (JoinedN.trueRange (joinedN_one nh) (joinedN_one nl) (JoinedN.map (a := c) _ (joinedN_one nc))).joined
  have key := hJ.len (a := c.idx) (by simp) nd
  have wt : (Lab.trueRange h l (c.map (shift · 1))).WF := Lab.WF.trueRange _ _ wh
  have step : (∃ s, (Ind.atr w).evalL fillna h l c v = .ok s) ↔ (Lab.trueRange h l (c.map (shift · 1))).idx.length = c.idx.length := by
    simp only [Ind.evalL]
    unfold Lab.atr
    dsimp only
    generalize Lab.trueRange h l (c.map (shift · 1)) = t at wt
    have hl : ¬ c.len < max w 1 := by unfold Lab.len; rw [wc]; omega
    rw [if_neg hl, if_neg (by omega : ¬ w = 0)]
    unfold Lab.withIdx Lab.len
    rw [length_tab, wc, wt]
    by_cases e : c.idx.length = t.idx.length
    · rw [if_pos e]; exact iff_of_true ⟨_, rfl⟩ e.symm
    · rw [if_neg e]; exact iff_of_false (fun ⟨s, hs⟩ => nomatch hs) (Ne.symm e)
  rw [step, key]
  simp

/-- **MFI** answers exactly if the volumes have no row that the prices do not have (`u`: the rows of the typical price, two at least). -/
theorem mfi_answers (h l c v : Lab L F) (wh : h.WF) (nh : h.idx ≠ []) (nl : l.idx ≠ []) (nc : c.idx ≠ []) (nv : v.idx ≠ [])
    (u : List L) (ju : Joined [h.idx, l.idx, c.idx] u) (nd : u.Nodup) (two : 2 ≤ u.length) (fillna : Bool) (w : Nat) :
    (∃ s, (Ind.mfi w).evalL fillna h l c v = .ok s) ↔ ∀ x ∈ v.idx, x ∈ u := by
  have jt : JoinedN [h.idx, l.idx, c.idx] (Lab.typical h l c).idx := JoinedN.typical (joinedN_one nh) (joinedN_one nl) (joinedN_one nc)
  have eu : (Lab.typical h l c).idx = u := jt.joined.unique (by simp) ju
  have wt : (Lab.typical h l c).WF := Lab.WF.typical _ _ wh
  simp only [Ind.evalL]
  unfold Lab.mfi
  dsimp only
  generalize Lab.typical h l c = t at eu wt jt
  have nt : t.idx ≠ [] := by rw [eu]; rintro rfl; simp at two
  have hJ : Joined [t.idx, v.idx] (t.mul v).idx := (JoinedN.bin _ (joinedN_one nt) (joinedN_one nv)).joined
  have key := hJ.len (a := t.idx) (by simp) (eu ▸ nd)
  have wm : (t.mul v).WF := Lab.WF.bin _ wt
  have lu : (MFI.upDown t.val).length = u.length := by unfold MFI.upDown; rw [length_zip2, wt, eu]
  have fin : (∃ s, (do return (← ((t.mul v).mulArr (MFI.upDown t.val)).map (Lab.map (MFI.ofFlow w fillna))).fill fillna (.const (lit 50))) = Except.ok s)
      ↔ (t.mul v).idx.length = u.length := by
    unfold Lab.mulArr Lab.len
    rw [lu, wm]
    by_cases e : (t.mul v).idx.length = u.length
    · rw [if_pos e]; exact iff_of_true ⟨_, rfl⟩ e
    · rw [if_neg e, if_neg (by omega)]; exact iff_of_false (fun ⟨s, hs⟩ => nomatch hs) e
  rw [fin, ← eu, key, eu]
  simp

/-- **Keltner indicators** of the original channel answer exactly if the labels of close are those of the lines: all columns labelled alike, or close
in increasing order and with every label of high and low. -/
theorem keltner_flag_answers (h l c v : Lab L F) (nh : h.idx ≠ []) (nl : l.idx ≠ []) (nc : c.idx ≠ []) (fillna : Bool) (w wa : Nat) (w1 : 1 ≤ w) (k : F)
    (ind : Ind F) (hi : ind = .kcHi w wa true k ∨ ind = .kcLi w wa true k) :
    (∃ s, ind.evalL fillna h l c v = .ok s) ↔ Joined [h.idx, l.idx, c.idx] c.idx := by
  have ck : chkRoll w (if fillna then 1 else w) = .ok () := by
    unfold chkRoll; rw [if_neg]; split_ifs <;> omega
  obtain ⟨o, ho⟩ : ∃ o, LKeltner.new h l c w wa fillna true k = .ok o := by
    unfold LKeltner.new
    simp only [if_true]
    rw [ck]
    exact ⟨_, rfl⟩
  obtain ⟨ec, -, j1, j2⟩ := LKeltner.rows (joinedN_one nh) (joinedN_one nl) (joinedN_one nc) ho
  rcases hi with rfl | rfl
  · rw [← j1.joined.self_iff (a := c.idx) (by simp)]
    simp only [Ind.evalL]
    rw [ho]
    show (∃ s, (do return (← o.hi).fill fillna (.const (lit 0))) = Except.ok s) ↔ _
    unfold LKeltner.hi Lab.cmp
    rw [ec]
    by_cases e : c.idx = o.tpHigh.idx
    · rw [if_pos e]; exact iff_of_true ⟨_, rfl⟩ e.symm
    · rw [if_neg e]; exact iff_of_false (fun ⟨s, hs⟩ => nomatch hs) (Ne.symm e)
  · rw [← j2.joined.self_iff (a := c.idx) (by simp)]
    simp only [Ind.evalL]
    rw [ho]
    show (∃ s, (do return (← o.li).fill fillna (.const (lit 0))) = Except.ok s) ↔ _
    unfold LKeltner.li Lab.cmp
    rw [ec]
    by_cases e : c.idx = o.tpLow.idx
    · rw [if_pos e]; exact iff_of_true ⟨_, rfl⟩ e.symm
    · rw [if_neg e]; exact iff_of_false (fun ⟨s, hs⟩ => nomatch hs) (Ne.symm e)

/-- The indicators of the ATR channel: the same, and the ATR must have enough rows. -/
theorem keltner_atr_flag_answers (h l c v : Lab L F) (wh : h.WF) (wc : c.WF) (nh : h.idx ≠ []) (nl : l.idx ≠ []) (nd : c.idx.Nodup) (fillna : Bool)
    (w wa : Nat) (w1 : 1 ≤ w) (wa1 : 1 ≤ wa) (wan : wa ≤ c.idx.length) (k : F) (ind : Ind F) (hi : ind = .kcHi w wa false k ∨ ind = .kcLi w wa false k) :
    (∃ s, ind.evalL fillna h l c v = .ok s) ↔ Joined [h.idx, l.idx, c.idx] c.idx := by
  have nc : c.idx ≠ [] := by intro e; rw [e] at wan; simp at wan; omega
  have ck : chkSpan w = .ok () := by unfold chkSpan; rw [if_neg (by omega)]
  have at_iff := atr_answers h l c v wh wc nh nl nd false wa wa1 wan
  cases ha : Lab.atr h l c wa with
  | error x =>
    have no : LKeltner.new h l c w wa fillna false k = .error x := by
      unfold LKeltner.new
      simp only [Bool.false_eq_true, if_false]
      rw [ck, ha]; rfl
    refine iff_of_false ?_ fun J => ?_
    · rintro ⟨s, hs⟩
      rcases hi with rfl | rfl <;> · simp only [Ind.evalL] at hs; rw [no] at hs; exact nomatch hs
    · have : ∃ s, (Ind.atr wa).evalL false h l c v = .ok s := at_iff.2 (by
        have q := (J.len (a := c.idx) (by simp) nd).1 rfl
        exact ⟨q _ (by simp), q _ (by simp)⟩)
      obtain ⟨s, hs⟩ := this
      simp only [Ind.evalL] at hs
      rw [ha] at hs
      exact nomatch hs
  | ok a =>
    obtain ⟨o, ho⟩ : ∃ o, LKeltner.new h l c w wa fillna false k = .ok o := by
      unfold LKeltner.new
      simp only [Bool.false_eq_true, if_false]
      rw [ck, ha]
      exact ⟨_, rfl⟩
    obtain ⟨ec, -, j1, j2⟩ := LKeltner.rows (joinedN_one nh) (joinedN_one nl) (joinedN_one nc) ho
    rcases hi with rfl | rfl
    · rw [← j1.joined.self_iff (a := c.idx) (by simp)]
      simp only [Ind.evalL]
      rw [ho]
      show (∃ s, (do return (← o.hi).fill fillna (.const (lit 0))) = Except.ok s) ↔ _
      unfold LKeltner.hi Lab.cmp
      rw [ec]
      by_cases e : c.idx = o.tpHigh.idx
      · rw [if_pos e]; exact iff_of_true ⟨_, rfl⟩ e.symm
      · rw [if_neg e]; exact iff_of_false (fun ⟨s, hs⟩ => nomatch hs) (Ne.symm e)
    · rw [← j2.joined.self_iff (a := c.idx) (by simp)]
      simp only [Ind.evalL]
      rw [ho]
      show (∃ s, (do return (← o.li).fill fillna (.const (lit 0))) = Except.ok s) ↔ _
      unfold LKeltner.li Lab.cmp
      rw [ec]
      by_cases e : c.idx = o.tpLow.idx
      · rw [if_pos e]; exact iff_of_true ⟨_, rfl⟩ e.symm
      · rw [if_neg e]; exact iff_of_false (fun ⟨s, hs⟩ => nomatch hs) (Ne.symm e)

end main

/-! ## Witnesses -/

section witness
attribute [local instance] toyFn

/-- one day of volume too many: MFI raises, ADI answers with a fourth row, OBV raises because of the length -/
example : (match (Ind.mfi 1 : Ind (Val ℚ)).evalL false ⟨[1, 2, 3], highs oddBars⟩ ⟨[1, 2, 3], lows oddBars⟩ ⟨[1, 2, 3], closes oddBars⟩
      ⟨[1, 2, 3, 4], qs [1, 2, 3, 4]⟩ with | .error x => some x | .ok _ => none) = some PyErr.valueError
    ∧ ((Ind.adi : Ind (Val ℚ)).evalL false ⟨[1, 2, 3], highs oddBars⟩ ⟨[1, 2, 3], lows oddBars⟩ ⟨[1, 2, 3], closes oddBars⟩
      ⟨[1, 2, 3, 4], qs [1, 2, 3, 4]⟩).map (·.idx) = .ok [1, 2, 3, 4]
    ∧ (match (Ind.obv : Ind (Val ℚ)).evalL false ⟨[1, 2, 3], highs oddBars⟩ ⟨[1, 2, 3], lows oddBars⟩ ⟨[1, 2, 3], closes oddBars⟩
      ⟨[1, 2, 3, 4], qs [1, 2, 3, 4]⟩ with | .error x => some x | .ok _ => none) = some PyErr.valueError := by decide +kernel

/-- high one day ahead: ATR raises although it has as many rows as close; OBV on volumes of other days answers -/
example : (match (Ind.atr 1 : Ind (Val ℚ)).evalL false ⟨[2, 3, 4], highs oddBars⟩ ⟨[1, 2, 3], lows oddBars⟩ ⟨[1, 2, 3], closes oddBars⟩
      ⟨[1, 2, 3], volumes oddBars⟩ with | .error x => some x | .ok _ => none) = some PyErr.valueError
    ∧ ((Ind.obv : Ind (Val ℚ)).evalL false ⟨[1, 2, 3], highs oddBars⟩ ⟨[1, 2, 3], lows oddBars⟩ ⟨[1, 2, 3], closes oddBars⟩
      ⟨[11, 12, 13], volumes oddBars⟩).map (fun s => (s.idx, s.val)) = .ok ([1, 2, 3], qs [1, 3, 6]) := by decide +kernel

end witness
end TA
