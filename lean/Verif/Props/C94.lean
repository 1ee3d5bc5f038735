import Verif.Props.C93
import Mathlib.Data.List.Perm.Basic
import Mathlib.Data.List.Nodup

/-!
# C94 — A column in another order

All columns have the same row labels, but in some of them the rows come in another order (a feed sorted the other way round, say).  `Ind.loose` lists
for each output the columns for which this does not matter: the output pairs their rows by label, or does not use them.  For the other columns it
does matter: OBV, NVI, PSAR and ADX pair by position, a rolling window or a lag taken before the pairing runs in the order of the column
(`order_matters`), and the Keltner indicators and ADX raise.
-/

namespace TA

set_option linter.unusedSectionVars false

section ord
variable {L F : Type} [LinearOrder L] [Flt F]

/-- the rows of `s` put in the order of `ls` -/
def Lab.ord (ls : List L) (s : Lab L F) : Lab L F := ⟨ls, ls.map s.at⟩

/-- `s` has the labels `ls`, in some order, and one value for each -/
structure Lab.Has (ls : List L) (s : Lab L F) : Prop where
  perm : s.idx.Perm ls
  len : s.val.length = s.idx.length

variable {ls : List L}

theorem Lab.at_mk (g : L → F) {x : L} (hx : x ∈ ls) : (⟨ls, ls.map g⟩ : Lab L F).at x = g x := by
  have h := List.idxOf_lt_length_iff.2 hx
  unfold Lab.at
  rw [ix_lt (by simpa using h)]
  simp

theorem Lab.ord_self {s : Lab L F} (hs : s.Has ls) (nd : ls.Nodup) (e : s.idx = ls) : s.ord ls = s := by
  obtain ⟨i, v⟩ := s
  obtain rfl : i = ls := e
  have hl : v.length = i.length := hs.len
  refine congrArg (Lab.mk i) (series_ext (by simp [hl]) fun k hk => ?_)
  have hk : k < i.length := by simpa using hk
  rw [ix_lt (by simpa using hk), List.getElem_map]
  unfold Lab.at
  simp only [nd.idxOf_getElem]

theorem joinIdx_perm {a b : List L} (si : ls.Pairwise (· < ·)) (ha : a.Perm ls) (hb : b.Perm ls) (n : a ≠ b) : joinIdx a b = ls := by
  have nb : b ≠ [] := by
    rintro rfl
    have := hb.symm.eq_nil; subst this
    exact n ha.eq_nil
  have na : a ≠ [] := by
    rintro rfl
    have := ha.symm.eq_nil; subst this
    exact n hb.eq_nil.symm
  rw [joinIdx, if_neg n, if_neg nb, if_neg na]
  refine incr_ext (incr_sortL _) si fun x => ?_
  rw [mem_sortL, List.mem_append, ha.mem_iff, hb.mem_iff, or_self]

theorem Lab.Has.at_lt {s : Lab L F} (hs : s.Has ls) {x : L} (hx : x ∈ ls) : s.idx.idxOf x < s.val.length := by
  rw [hs.len]; exact List.idxOf_lt_length_iff.2 (hs.perm.mem_iff.2 hx)

variable {a b c : Lab L F}

theorem Lab.Has.bin (si : ls.Pairwise (· < ·)) (f : F → F → F) (ha : a.Has ls) (hb : b.Has ls) : (Lab.bin f a b).Has ls := by
  unfold Lab.bin
  split_ifs with e
  · exact ⟨ha.perm, by simpa using ha.len⟩
  · rw [joinIdx_perm si ha.perm hb.perm e]; exact ⟨.rfl, by simp⟩

theorem Lab.at_bin (si : ls.Pairwise (· < ·)) (f : F → F → F) (ha : a.Has ls) (hb : b.Has ls) {x : L} (hx : x ∈ ls) :
    (Lab.bin f a b).at x = f (a.at x) (b.at x) := by
  unfold Lab.bin
  split_ifs with e
  · unfold Lab.at
    rw [ix_zip2 (ha.at_lt hx), e]
  · rw [joinIdx_perm si ha.perm hb.perm e, Lab.at_mk _ hx]

theorem Lab.ord_bin (si : ls.Pairwise (· < ·)) (f : F → F → F) (ha : a.Has ls) (hb : b.Has ls) :
    (Lab.bin f a b).ord ls = Lab.bin f (a.ord ls) (b.ord ls) := by
  refine Eq.trans ?_ (if_pos rfl : Lab.bin f (a.ord ls) (b.ord ls) = _).symm
  refine congrArg (Lab.mk ls) (series_ext (by simp [Lab.ord]) fun k hk => ?_)
  have hk : k < ls.length := by simpa using hk
  rw [ix_zip2 (by simpa [Lab.ord] using hk), ix_lt (by simpa using hk)]
  simp only [Lab.ord]
  rw [ix_lt (by simpa using hk), ix_lt (by simpa using hk)]
  simp only [List.getElem_map]
  exact Lab.at_bin si f ha hb (List.getElem_mem _)

theorem Lab.ord_ord (s : Lab L F) : (s.ord ls).ord ls = s.ord ls :=
  congrArg (Lab.mk ls) (List.map_congr_left fun _ hx => Lab.at_mk _ hx)

theorem Lab.Has.ord (s : Lab L F) : (s.ord ls).Has ls := ⟨.rfl, by simp [Lab.ord]⟩

theorem Lab.Has.map {g : Series F → Series F} (hg : ∀ s, (g s).length = s.length) (ha : a.Has ls) : (a.map g).Has ls :=
  ⟨ha.perm, (hg _).trans ha.len⟩

theorem Lab.bin_idx_left (si : ls.Pairwise (· < ·)) (f : F → F → F) (ha : a.Has ls) (hb : b.Has ls) (e : a.idx = ls ∨ b.idx = ls) : (Lab.bin f a b).idx = ls := by
  rw [Lab.bin_idx]
  by_cases h : a.idx = b.idx
  · rw [joinIdx, if_pos h]; exact e.elim id fun e => h.trans e
  · exact joinIdx_perm si ha.perm hb.perm h

/-- arithmetic with a column that is in order puts the other one in order -/
theorem Lab.bin_left (si : ls.Pairwise (· < ·)) (f : F → F → F) (ha : a.Has ls) (e : a.idx = ls) (hb : b.Has ls) :
    Lab.bin f a b = Lab.bin f a (b.ord ls) := by
  have nd := si.imp (fun h => ne_of_lt h)
  rw [← Lab.ord_self (ha.bin si f hb) nd (Lab.bin_idx_left si f ha hb (.inl e)), Lab.ord_bin si f ha hb, Lab.ord_self ha nd e]

theorem Lab.bin_right (si : ls.Pairwise (· < ·)) (f : F → F → F) (ha : a.Has ls) (hb : b.Has ls) (e : b.idx = ls) :
    Lab.bin f a b = Lab.bin f (a.ord ls) b := by
  have nd := si.imp (fun h => ne_of_lt h)
  rw [← Lab.ord_self (ha.bin si f hb) nd (Lab.bin_idx_left si f ha hb (.inr e)), Lab.ord_bin si f ha hb, Lab.ord_self hb nd e]

theorem Lab.ord_cmul (k : F) (ha : a.Has ls) : (a.map (cmul k)).ord ls = (a.ord ls).map (cmul k) := by
  refine congrArg (Lab.mk ls) (series_ext (by simp [Lab.ord]) fun i hi => ?_)
  have hi : i < ls.length := by simpa using hi
  rw [ix_cmul (by simpa [Lab.ord] using hi), ix_lt (by simpa using hi)]
  simp only [Lab.ord]
  rw [ix_lt (by simpa using hi)]
  simp only [List.getElem_map]
  unfold Lab.at
  exact ix_cmul (ha.at_lt (List.getElem_mem _))

theorem Lab.tr_low {h l c : Lab L F} (si : ls.Pairwise (· < ·)) (hh : h.Has ls) (eh : h.idx = ls) (hl : l.Has ls) (hc : c.Has ls) (ec : c.idx = ls) :
    Lab.trueRange h l c = Lab.trueRange h (l.ord ls) c := by
  unfold Lab.trueRange Lab.sub
  rw [Lab.bin_left si _ hh eh hl, Lab.bin_right si _ hl hc ec]

theorem Lab.typical_ord {h l c : Lab L F} (si : ls.Pairwise (· < ·)) (hh : h.Has ls) (eh : h.idx = ls) (hl : l.Has ls) (hc : c.Has ls) :
    Lab.typical h l c = Lab.typical h (l.ord ls) (c.ord ls) := by
  unfold Lab.typical Lab.add
  rw [Lab.bin_left si _ hh eh hl, Lab.bin_left si _ (hh.bin si _ (.ord l)) (Lab.bin_idx_left si _ hh (.ord l) (.inl eh)) hc]

theorem Lab.clv_ord {h l c : Lab L F} (si : ls.Pairwise (· < ·)) (hh : h.Has ls) (eh : h.idx = ls) (hl : l.Has ls) (hc : c.Has ls) :
    Lab.clv h l c = Lab.clv h (l.ord ls) (c.ord ls) := by
  unfold Lab.clv Lab.sub
  rw [Lab.bin_left si _ hh eh hl, Lab.bin_left si _ hh eh hc,
    Lab.bin_right si _ (hc.bin si _ hl) (hh.bin si _ (.ord c)) (Lab.bin_idx_left si _ hh (.ord c) (.inl eh)), Lab.ord_bin si _ hc hl]

theorem Lab.typical_idx {h l c : Lab L F} (si : ls.Pairwise (· < ·)) (hh : h.Has ls) (eh : h.idx = ls) (hl : l.Has ls) (hc : c.Has ls) :
    (Lab.typical h l c).idx = ls := Lab.bin_idx_left si _ (hh.bin si _ hl) hc (.inl (Lab.bin_idx_left si _ hh hl (.inl eh)))

theorem Lab.Has.typical {h l c : Lab L F} (si : ls.Pairwise (· < ·)) (hh : h.Has ls) (hl : l.Has ls) (hc : c.Has ls) :
    (Lab.typical h l c).Has ls := ((hh.bin si _ hl).bin si _ hc).map (by simp)

theorem Lab.Has.clv {h l c : Lab L F} (si : ls.Pairwise (· < ·)) (hh : h.Has ls) (hl : l.Has ls) (hc : c.Has ls) :
    (Lab.clv h l c).Has ls := ((((hc.bin si _ hl).bin si _ (hh.bin si _ hc)).bin si _ (hh.bin si _ hl)).map (by simp))

theorem Lab.clv_idx {h l c : Lab L F} (si : ls.Pairwise (· < ·)) (hh : h.Has ls) (eh : h.idx = ls) (hl : l.Has ls) (hc : c.Has ls) :
    (Lab.clv h l c).idx = ls :=
  Lab.bin_idx_left si _ ((hc.bin si _ hl).bin si _ (hh.bin si _ hc)) (hh.bin si _ hl) (.inr (Lab.bin_idx_left si _ hh hl (.inl eh)))

theorem Lab.atr_low {h l c : Lab L F} (si : ls.Pairwise (· < ·)) (hh : h.Has ls) (eh : h.idx = ls) (hl : l.Has ls) (hc : c.Has ls) (ec : c.idx = ls)
    (w : Nat) : Lab.atr h l c w = Lab.atr h (l.ord ls) c w := by
  unfold Lab.atr
  rw [Lab.tr_low si hh eh hl (hc.map (by simp)) ec]

theorem LKeltner.low {h l c : Lab L F} (si : ls.Pairwise (· < ·)) (hh : h.Has ls) (eh : h.idx = ls) (hl : l.Has ls) (hc : c.Has ls) (ec : c.idx = ls)
    (w wa : Nat) (b : Bool) (k : F) : LKeltner.new h l c w wa b false k = LKeltner.new h (l.ord ls) c w wa b false k := by
  unfold LKeltner.new
  rw [Lab.atr_low si hh eh hl hc ec]
  rfl

/-- the Keltner object is the same but for the close it keeps -/
theorem LKeltner.orig {h l c : Lab L F} (si : ls.Pairwise (· < ·)) (hh : h.Has ls) (eh : h.idx = ls) (hl : l.Has ls) (hc : c.Has ls)
    (w wa : Nat) (b : Bool) (k : F) :
    LKeltner.new h l c w wa b true k = (LKeltner.new h (l.ord ls) (c.ord ls) w wa b true k).map fun o => { o with close := c } := by
  have e1 : (h.map (cmul (lit 4))).sub (l.map (cmul (lit 2))) = (h.map (cmul (lit 4))).sub ((l.ord ls).map (cmul (lit 2))) := by
    unfold Lab.sub
    rw [Lab.bin_left si _ (hh.map (by simp)) eh (hl.map (by simp)), Lab.ord_cmul _ hl]
  have e2 : (h.map (cmul (lit (-2)))).add (l.map (cmul (lit 4))) = (h.map (cmul (lit (-2)))).add ((l.ord ls).map (cmul (lit 4))) := by
    unfold Lab.add
    rw [Lab.bin_left si _ (hh.map (by simp)) eh (hl.map (by simp)), Lab.ord_cmul _ hl]
  have e3 : ∀ k k', ((h.map (cmul k)).sub ((l.ord ls).map (cmul k'))).add c = ((h.map (cmul k)).sub ((l.ord ls).map (cmul k'))).add (c.ord ls) := by
    intro k k'
    have q : ((l.ord ls).map (cmul k')).Has ls := (Lab.Has.ord l).map (by simp)
    exact Lab.bin_left si _ ((hh.map (by simp)).bin si _ q) (Lab.bin_idx_left si _ (hh.map (by simp)) q (.inl eh)) hc
  have e4 : ∀ k k', ((h.map (cmul k)).add ((l.ord ls).map (cmul k'))).add c = ((h.map (cmul k)).add ((l.ord ls).map (cmul k'))).add (c.ord ls) := by
    intro k k'
    have q : ((l.ord ls).map (cmul k')).Has ls := (Lab.Has.ord l).map (by simp)
    exact Lab.bin_left si _ ((hh.map (by simp)).bin si _ q) (Lab.bin_idx_left si _ (hh.map (by simp)) q (.inl eh)) hc
  unfold LKeltner.new
  rw [e1, e2, e3, e4, Lab.typical_ord si hh eh hl hc]
  simp only [if_true]
  generalize chkRoll w (if b then 1 else w) = q
  cases q <;> rfl

theorem LKeltner.orig_has {h l c : Lab L F} (si : ls.Pairwise (· < ·)) (hh : h.Has ls) (eh : h.idx = ls) (hl : l.Has ls) (hc : c.Has ls)
    {w wa : Nat} {b : Bool} {k : F} {x : LKeltner L F} (e : LKeltner.new h l c w wa b true k = .ok x) :
    x.close = c ∧ x.tpLow.Has ls ∧ x.tpLow.idx = ls := by
  unfold LKeltner.new at e
  simp only [if_true] at e
  generalize chkRoll w (if b then 1 else w) = q at e
  rcases q with q | q
  · exact nomatch e
  · have e := Except.ok.inj e
    subst e
    have a1 : (h.map (cmul (lit (-2)))).Has ls := hh.map (by simp)
    have a2 : (l.map (cmul (lit 4))).Has ls := hl.map (by simp)
    exact ⟨rfl, ((a1.bin si _ a2).bin si _ hc).map (fun s => by rw [length_rollMean, length_divc]), Lab.bin_idx_left si _ (a1.bin si _ a2) hc (.inl (Lab.bin_idx_left si _ a1 a2 (.inl eh)))⟩

theorem Lab.eom_ord {h l v : Lab L F} (si : ls.Pairwise (· < ·)) (hh : h.Has ls) (eh : h.idx = ls) (hl : l.Has ls) (hv : v.Has ls) :
    Lab.eom h l v = Lab.eom h l (v.ord ls) := by
  unfold Lab.eom Lab.div
  have a1 : ((h.map sdiff).add (l.map sdiff)).Has ls := Lab.Has.bin si _ (hh.map (by simp)) (hl.map (by simp))
  have a2 : (h.sub l).Has ls := hh.bin si _ hl
  have a3 : (((h.map sdiff).add (l.map sdiff)).mul (h.sub l)).Has ls := a1.bin si _ a2
  rw [Lab.bin_left si _ a3 (Lab.bin_idx_left si _ a1 a2 (.inr (Lab.bin_idx_left si _ hh hl (.inl eh)))) (hv.map (by simp)), Lab.ord_cmul _ hv]

/-- C93. Chaikin's money flow when the volumes are labelled otherwise than the prices: `mfv *= volume` keeps the rows of the prices, so the
money flow is added up over windows of price rows (a row without a volume counts as missing), the volumes over windows of their own rows, and only
then are the two sums paired by label. -/
theorem cmf_rows (nd : ls.Nodup) (h l c : Series F) (ec : c.length = ls.length)
    (v : Lab L F) (hv : v.val.length = v.idx.length) (w : Nat) (fillna : Bool) :
    Lab.cmf ⟨ls, h⟩ ⟨ls, l⟩ ⟨ls, c⟩ v w fillna
      = Lab.div ⟨ls, rollSum w (minp fillna w) (smul (TA.clv h l c) (ls.map v.at))⟩ (v.map (rollSum w (minp fillna w))) := by
  have e : (Lab.mul ⟨ls, TA.clv h l c⟩ v).like ⟨ls, TA.clv h l c⟩ = ⟨ls, smul (TA.clv h l c) (ls.map v.at)⟩ := by
    have lc : (TA.clv h l c).length = ls.length := by simp [TA.clv, ec]
    have hs : ls.map (fun x => (⟨ls, TA.clv h l c⟩ : Lab L F).at x *. v.at x) = smul (TA.clv h l c) (ls.map v.at) := by
      refine series_ext (by simp [smul, lc]) fun k hk => ?_
      have hk : k < ls.length := by simpa using hk
      unfold smul
      rw [ix_zip2 (by omega), ix_lt (by simpa using hk), ix_lt (s := ls.map v.at) (by simpa using hk)]
      simp only [List.getElem_map]
      unfold Lab.at
      simp only [nd.idxOf_getElem]
    by_cases hi : ls = v.idx
    · obtain ⟨i, x⟩ := v
      obtain rfl : ls = i := hi
      have : (⟨ls, x⟩ : Lab L F).ord ls = ⟨ls, x⟩ := Lab.ord_self ⟨.rfl, hv⟩ nd rfl
      have this : ls.map (⟨ls, x⟩ : Lab L F).at = x := congrArg Lab.val this
      rw [this, Lab.mul_mk]
      exact if_pos rfl
    · have m : Lab.mul ⟨ls, TA.clv h l c⟩ v = ⟨joinIdx ls v.idx, (joinIdx ls v.idx).map fun x =>
          (⟨ls, TA.clv h l c⟩ : Lab L F).at x *. v.at x⟩ := if_neg hi
      rw [m]
      unfold Lab.like
      by_cases hj : joinIdx ls v.idx = ls
      · rw [if_pos hj, hj, hs]
      · rw [if_neg hj, ← hs]
        refine congrArg (Lab.mk ls) (List.map_congr_left fun x hx => Lab.at_mk _ ?_)
        unfold joinIdx
        split_ifs with h2 h3
        · exact hx
        · rw [show ls = [] from h3] at hx; cases hx
        · exact mem_sortL.2 (List.mem_append_left _ hx)
  unfold Lab.cmf
  simp only [Lab.clv_mk]
  rw [e]
  rfl

/-- prices on the rows 1, 3, 5, volumes on 1, 2, 3, 5: on row 3 the money flow of the price rows 1 and 3 over the volumes of the rows 2 and 3 -/
example : (fun s : Lab ℕ (Val ℚ) => (s.idx, s.val)) (Lab.cmf ⟨[1, 3, 5], qs [5, 7, 6]⟩ ⟨[1, 3, 5], qs [1, 2, 4]⟩ ⟨[1, 3, 5], qs [4, 3, 5]⟩
    ⟨[1, 2, 3, 5], qs [10, 30, 20, 15]⟩ 2 false) = ([1, 2, 3, 5], [.nan, .nan, .fin (-7/50), .fin (-12/35)]) := by decide +kernel

end ord

/-! ## the columns that may be in another order -/

/-- The columns whose rows may come in any order: the output goes by their labels, or does not use them. -/
def Ind.loose {F : Type} : Ind F → List PCol
  | .ao .. | .massIndex .. | .cci .. | .adi | .mfi _ | .dcHband .. => [.low, .close, .volume]
  | .cmf _ | .vwap _ => [.low, .close]
  | .uo .. | .atr _ | .vortexNeg _ => [.low, .volume]
  | .kcMband _ _ o _ | .kcHband _ _ o _ | .kcLband _ _ o _ | .kcWband _ _ o _ | .kcPband _ _ o _ => if o then [.low, .close, .volume] else [.low, .volume]
  | .kcHi .. | .kcLi .. => [.low, .volume]
  | .stoch _ | .stochSignal .. | .williamsR _ | .dcPband .. | .dcMband .. | .eom | .smaEom _ | .ichimokuConv _ | .ichimokuBase _ | .ichimokuA .. |
    .ichimokuB .. | .aroonUp _ | .aroonDown _ | .aroonInd _ => [.close, .volume]
  | .dcLband .. => [.high, .close, .volume]
  | .dcWband .. | .psar .. | .psarUp .. | .psarDown .. | .psarUpInd .. | .psarDownInd .. | .adx _ | .adxPos _ | .adxNeg _ | .vortexPos _ | .vortexDiff _ =>
    [.volume]
  | .obv | .nvi => [.high, .low]
  | .pvo .. | .pvoSignal .. | .pvoHist .. => [.high, .low, .close]
  | _ => [.high, .low, .volume]

section main
variable {L F : Type} [LinearOrder L] [FltFn F]

set_option maxHeartbeats 1000000 in
theorem order_by_label (ls : List L) (si : ls.Pairwise (· < ·)) (h l c v : Lab L F) (hh : h.Has ls) (hl : l.Has ls) (hc : c.Has ls) (hv : v.Has ls)
    (fillna : Bool) (ind : Ind F) (tight : ∀ k, k ∉ ind.loose → (k.get h l c v).idx = ls) :
    ind.evalL fillna h l c v = ind.evalL fillna (h.ord ls) (l.ord ls) (c.ord ls) (v.ord ls) := by
  have nd : ls.Nodup := si.imp (fun h => ne_of_lt h)
  have th := tight .high
  have tl := tight .low
  have tc := tight .close
  have tv := tight .volume
  clear tight
  cases ind <;> simp only [Ind.loose, List.mem_cons, List.not_mem_nil, reduceCtorEq, or_false, or_true, or_self, not_true, not_false_iff, true_imp_iff, false_imp_iff,
    PCol.get] at th tl tc tv
  case uo w1 w2 w3 t1 t2 t3 =>
    rw [Lab.ord_self hh nd th, Lab.ord_self hc nd tc]
    have hs : (c.map (shift · 1)).Has ls := hc.map (by simp)
    simp only [Ind.evalL, Lab.uo]
    rw [Lab.tr_low si hh th hl hs tc, Lab.bin_right si npMin2 hl hs tc]
  case stoch w =>
    rw [Lab.ord_self hh nd th, Lab.ord_self hl nd tl]
    simp only [Ind.evalL, Lab.stochK, Lab.sub]
    rw [Lab.bin_right si _ hc (hl.map (by simp)) tl]
  case stochSignal w s =>
    rw [Lab.ord_self hh nd th, Lab.ord_self hl nd tl]
    simp only [Ind.evalL, Lab.stochK, Lab.sub]
    rw [Lab.bin_right si _ hc (hl.map (by simp)) tl]
  case ao w1 w2 =>
    rw [Lab.ord_self hh nd th]
    simp only [Ind.evalL, Lab.ao, Lab.add]
    rw [Lab.bin_left si _ hh th hl]
  case williamsR w =>
    rw [Lab.ord_self hh nd th, Lab.ord_self hl nd tl]
    simp only [Ind.evalL, Lab.wr, Lab.sub]
    rw [Lab.bin_left si _ (hh.map (by simp)) th hc]
  case massIndex f s =>
    rw [Lab.ord_self hh nd th]
    simp only [Ind.evalL, Lab.mass, Lab.sub]
    rw [Lab.bin_left si _ hh th hl]
  case cci w k =>
    rw [Lab.ord_self hh nd th]
    simp only [Ind.evalL, Lab.cci]
    rw [Lab.typical_ord si hh th hl hc]
  case vortexNeg w =>
    rw [Lab.ord_self hh nd th, Lab.ord_self hc nd tc]
    have hs : (c.map fun s => shift s 1 (smean s)).Has ls := hc.map (by simp)
    simp only [Ind.evalL, Lab.vin, Lab.trn]
    rw [Lab.tr_low si hh th hl hs tc]
    unfold Lab.sub
    rw [Lab.bin_right si _ hl (hh.map (by simp)) th]
  case atr w =>
    rw [Lab.ord_self hh nd th, Lab.ord_self hc nd tc]
    simp only [Ind.evalL]
    rw [Lab.atr_low si hh th hl hc tc]
  case kcMband w wa o k =>
    replace th := th (by cases o <;> simp)
    rw [Lab.ord_self hh nd th]
    cases o
    · rw [Lab.ord_self hc nd (tc (by simp))]
      simp only [Ind.evalL]
      rw [LKeltner.low si hh th hl hc (tc (by simp))]
    · simp only [Ind.evalL]
      rw [LKeltner.orig si hh th hl hc]
      generalize LKeltner.new h (l.ord ls) (c.ord ls) w wa fillna true k = q
      cases q <;> rfl
  case kcHband w wa o k =>
    replace th := th (by cases o <;> simp)
    rw [Lab.ord_self hh nd th]
    cases o
    · rw [Lab.ord_self hc nd (tc (by simp))]
      simp only [Ind.evalL]
      rw [LKeltner.low si hh th hl hc (tc (by simp))]
    · simp only [Ind.evalL]
      rw [LKeltner.orig si hh th hl hc]
      generalize LKeltner.new h (l.ord ls) (c.ord ls) w wa fillna true k = q
      cases q <;> rfl
  case kcLband w wa o k =>
    replace th := th (by cases o <;> simp)
    rw [Lab.ord_self hh nd th]
    cases o
    · rw [Lab.ord_self hc nd (tc (by simp))]
      simp only [Ind.evalL]
      rw [LKeltner.low si hh th hl hc (tc (by simp))]
    · simp only [Ind.evalL]
      rw [LKeltner.orig si hh th hl hc]
      generalize LKeltner.new h (l.ord ls) (c.ord ls) w wa fillna true k = q
      cases q <;> rfl
  case kcWband w wa o k =>
    replace th := th (by cases o <;> simp)
    rw [Lab.ord_self hh nd th]
    cases o
    · rw [Lab.ord_self hc nd (tc (by simp))]
      simp only [Ind.evalL]
      rw [LKeltner.low si hh th hl hc (tc (by simp))]
    · simp only [Ind.evalL]
      rw [LKeltner.orig si hh th hl hc]
      generalize LKeltner.new h (l.ord ls) (c.ord ls) w wa fillna true k = q
      cases q <;> rfl
  case kcPband w wa o k =>
    replace th := th (by cases o <;> simp)
    rw [Lab.ord_self hh nd th]
    cases o
    · rw [Lab.ord_self hc nd (tc (by simp))]
      simp only [Ind.evalL]
      rw [LKeltner.low si hh th hl hc (tc (by simp))]
    · simp only [Ind.evalL]
      rw [LKeltner.orig si hh th hl hc]
      cases e : LKeltner.new h (l.ord ls) (c.ord ls) w wa fillna true k with
      | error x => rfl
      | ok x =>
        obtain ⟨q1, q2, q3⟩ := LKeltner.orig_has si hh th (.ord l) (.ord c) e
        show Except.ok (Lab.fill fillna _ ((c.sub x.tpLow).div _)) = Except.ok (Lab.fill fillna _ ((x.close.sub x.tpLow).div _))
        rw [show c.sub x.tpLow = (c.ord ls).sub x.tpLow from Lab.bin_right si _ hc q2 q3, q1]
  case kcHi w wa o k =>
    rw [Lab.ord_self hh nd th, Lab.ord_self hc nd tc]
    cases o
    · simp only [Ind.evalL]
      rw [LKeltner.low si hh th hl hc tc]
    · simp only [Ind.evalL]
      rw [LKeltner.orig si hh th hl hc, LKeltner.orig (c := c) si hh th (.ord l) hc, Lab.ord_ord]
  case kcLi w wa o k =>
    rw [Lab.ord_self hh nd th, Lab.ord_self hc nd tc]
    cases o
    · simp only [Ind.evalL]
      rw [LKeltner.low si hh th hl hc tc]
    · simp only [Ind.evalL]
      rw [LKeltner.orig si hh th hl hc, LKeltner.orig (c := c) si hh th (.ord l) hc, Lab.ord_ord]
  case dcHband w off =>
    rw [Lab.ord_self hh nd th]
    simp only [Ind.evalL, LDonchian.new]
    generalize chkRoll w (if fillna then 1 else w) = q
    cases q <;> rfl
  case dcLband w off =>
    rw [Lab.ord_self hl nd tl]
    simp only [Ind.evalL, LDonchian.new]
    generalize chkRoll w (if fillna then 1 else w) = q
    cases q <;> rfl
  case dcMband w off =>
    rw [Lab.ord_self hh nd th, Lab.ord_self hl nd tl]
    simp only [Ind.evalL, LDonchian.new]
    generalize chkRoll w (if fillna then 1 else w) = q
    cases q <;> rfl
  case dcPband w off =>
    rw [Lab.ord_self hh nd th, Lab.ord_self hl nd tl]
    simp only [Ind.evalL, LDonchian.new]
    generalize chkRoll w (if fillna then 1 else w) = q
    cases q with
    | error x => rfl
    | ok x =>
      refine congrArg (fun y : Lab L F => Except.ok (Lab.fillOff fillna _ off (y.div _))) ?_
      exact Lab.bin_right si _ hc (hl.map (by simp)) tl
  case adi =>
    rw [Lab.ord_self hh nd th]
    simp only [Ind.evalL, Lab.adi]
    rw [Lab.clv_ord si hh th hl hc]
    unfold Lab.mul
    rw [Lab.bin_left si _ (hh.clv si (.ord l) (.ord c)) (Lab.clv_idx si hh th (.ord l) (.ord c)) hv]
  case mfi w =>
    rw [Lab.ord_self hh nd th]
    simp only [Ind.evalL, Lab.mfi]
    rw [Lab.typical_ord si hh th hl hc]
    unfold Lab.mul
    rw [Lab.bin_left si _ (hh.typical si (.ord l) (.ord c)) (Lab.typical_idx si hh th (.ord l) (.ord c)) hv]
  case cmf w =>
    rw [Lab.ord_self hh nd th, Lab.ord_self hv nd tv]
    simp only [Ind.evalL, Lab.cmf]
    rw [Lab.clv_ord si hh th hl hc]
  case vwap w =>
    rw [Lab.ord_self hh nd th, Lab.ord_self hv nd tv]
    simp only [Ind.evalL, Lab.vwap]
    rw [Lab.typical_ord si hh th hl hc]
  case fi w =>
    rw [Lab.ord_self hc nd tc]
    simp only [Ind.evalL, Lab.fi, Lab.mul]
    have q : (c.map (shift · 1)).Has ls := hc.map (by simp)
    rw [Lab.bin_left si _ (show (c.sub (c.map (shift · 1))).Has ls from hc.bin si _ q) (Lab.bin_idx_left si _ hc q (.inl tc)) hv]
  case eom =>
    rw [Lab.ord_self hh nd th, Lab.ord_self hl nd tl]
    simp only [Ind.evalL]
    rw [Lab.eom_ord si hh th hl hv]
  case smaEom w =>
    rw [Lab.ord_self hh nd th, Lab.ord_self hl nd tl]
    simp only [Ind.evalL]
    rw [Lab.eom_ord si hh th hl hv]
  case vpt sm =>
    rw [Lab.ord_self hc nd tc]
    simp only [Ind.evalL, Lab.vpt, Lab.mul]
    rw [Lab.bin_left si _ (hc.map (by simp)) tc hv]
  case obv => rw [Lab.ord_self hc nd tc, Lab.ord_self hv nd tv]; rfl
  case nvi => rw [Lab.ord_self hc nd tc, Lab.ord_self hv nd tv]; rfl
  all_goals first
    | (rw [Lab.ord_self hv nd tv]; rfl)
    | (rw [Lab.ord_self hh nd th, Lab.ord_self hl nd tl, Lab.ord_self hc nd tc]; rfl)
    | (rw [Lab.ord_self hh nd th, Lab.ord_self hl nd tl]; rfl)
    | (rw [Lab.ord_self hc nd tc]; rfl)

/-- The same with the table the columns were cut from: whatever the order in which the rows of the loose columns come, the answer is the one for the table. -/
theorem order_by_label_bars (ls : List L) (si : ls.Pairwise (· < ·)) (b : List (Bar F)) (h l c v : Lab L F) (hh : h.Has ls) (hl : l.Has ls) (hc : c.Has ls)
    (hv : v.Has ls) (eh : ls.map h.at = highs b) (el : ls.map l.at = lows b) (ec : ls.map c.at = closes b) (ev : ls.map v.at = volumes b) (fillna : Bool)
    (ind : Ind F) (tight : ∀ k, k ∉ ind.loose → (k.get h l c v).idx = ls) :
    ind.evalL fillna h l c v = (ind.eval fillna b).map fun s => ⟨ls, s⟩ := by
  rw [order_by_label ls si h l c v hh hl hc hv fillna ind tight]
  unfold Lab.ord
  rw [eh, el, ec, ev]
  exact labels_pass_through ls b fillna ind

end main

/-! ## the other columns may not -/

section witness
attribute [local instance] toyFn

/-- five rows -/
def fiveRows : List (Bar (Val ℚ)) := [qbar 5 1 4 10, qbar 7 2 3 30, qbar 6 4 5 20, qbar 9 5 8 15, qbar 7 0 6 50]

/-- a column with the last row first, labels and all -/
def swapRows (s : Series (Val ℚ)) : Lab ℕ (Val ℚ) := ⟨[5, 1, 2, 3, 4], ix s 4 :: s.take 4⟩

/-- the columns of `fiveRows`, one of them with the last row first -/
def oneSwapped (k j : PCol) (s : Series (Val ℚ)) : Lab ℕ (Val ℚ) := if k = j then swapRows s else ⟨[1, 2, 3, 4, 5], s⟩

/-- the answer if the rows of column `k` come in another order -/
def Ind.evalSwapped (k : PCol) (ind : Ind (Val ℚ)) : Option (List ℕ × Series (Val ℚ)) :=
  match ind.evalL false (oneSwapped k .high (highs fiveRows)) (oneSwapped k .low (lows fiveRows)) (oneSwapped k .close (closes fiveRows))
    (oneSwapped k .volume (volumes fiveRows)) with
  | .ok s => some (s.idx, s.val)
  | .error _ => none

/-- the answer on columns in order -/
def Ind.evalStraight (ind : Ind (Val ℚ)) : Option (List ℕ × Series (Val ℚ)) :=
  match ind.evalL false ⟨[1, 2, 3, 4, 5], highs fiveRows⟩ ⟨[1, 2, 3, 4, 5], lows fiveRows⟩ ⟨[1, 2, 3, 4, 5], closes fiveRows⟩
    ⟨[1, 2, 3, 4, 5], volumes fiveRows⟩ with
  | .ok s => some (s.idx, s.val)
  | .error _ => none

/-- outputs that use the column, but not by its labels alone -/
def rigid : PCol → List (Ind (Val ℚ))
  | .volume => [.cmf 2, .vwap 2, .obv, .nvi]
  | .close => [.uo 1 2 3 (.fin 4) (.fin 2) (.fin 1), .atr 2, .kcMband 2 2 false (.fin 2), .kcHband 2 2 false (.fin 2), .kcLband 2 2 false (.fin 2),
      .kcWband 2 2 false (.fin 2), .kcPband 2 2 false (.fin 2), .kcHi 2 2 false (.fin 2), .kcLi 2 2 false (.fin 2), .kcHi 2 2 true (.fin 2),
      .kcLi 2 2 true (.fin 2), .dcWband 2 0, .psar (.fin (1/5)) (.fin (1/2)), .psarUp (.fin (1/5)) (.fin (1/2)), .psarDown (.fin (1/5)) (.fin (1/2)),
      .psarUpInd (.fin (1/5)) (.fin (1/2)), .psarDownInd (.fin (1/5)) (.fin (1/2)), .adx 1, .adxPos 2, .adxNeg 2, .vortexPos 2, .vortexNeg 2, .vortexDiff 2,
      .fi 2, .vpt none, .obv, .nvi]
  | .low => [.stoch 2, .stochSignal 2 2, .williamsR 2, .ichimokuConv 2, .ichimokuBase 2, .ichimokuA 1 2 false, .ichimokuB 2 3 false, .aroonDown 2, .aroonInd 2,
      .psar (.fin (1/5)) (.fin (1/2)), .psarUp (.fin (1/5)) (.fin (1/2)), .psarDown (.fin (1/5)) (.fin (1/2)),
      .psarUpInd (.fin (1/5)) (.fin (1/2)), .psarDownInd (.fin (1/5)) (.fin (1/2)), .adx 1, .adxPos 2, .adxNeg 2, .vortexPos 2, .vortexDiff 2,
      .dcLband 2 0, .dcMband 2 0, .dcWband 2 0, .dcPband 2 0, .eom, .smaEom 2]
  | .high => []

/-- the exchanged columns hold the same rows -/
theorem swapped_same (k : PCol) :
    (oneSwapped k .high (highs fiveRows)).ord [1, 2, 3, 4, 5] = ⟨[1, 2, 3, 4, 5], highs fiveRows⟩
    ∧ (oneSwapped k .low (lows fiveRows)).ord [1, 2, 3, 4, 5] = ⟨[1, 2, 3, 4, 5], lows fiveRows⟩
    ∧ (oneSwapped k .close (closes fiveRows)).ord [1, 2, 3, 4, 5] = ⟨[1, 2, 3, 4, 5], closes fiveRows⟩
    ∧ (oneSwapped k .volume (volumes fiveRows)).ord [1, 2, 3, 4, 5] = ⟨[1, 2, 3, 4, 5], volumes fiveRows⟩ := by
  cases k <;> exact ⟨congrArg (Lab.mk _) (by decide +kernel), congrArg (Lab.mk _) (by decide +kernel), congrArg (Lab.mk _) (by decide +kernel),
    congrArg (Lab.mk _) (by decide +kernel)⟩

/-- **The table is sharp**: for these outputs and columns the order of the rows matters (or the call raises). -/
theorem order_matters (k : PCol) : ∀ ind ∈ rigid k, k ∉ ind.loose ∧ ind.evalSwapped k ≠ ind.evalStraight := by
  cases k <;> decide +kernel

/-- OBV adds the volumes in the order of the column, not by label -/
example : Ind.obv.evalSwapped .volume = some ([1, 2, 3, 4, 5], qs [50, 40, 70, 90, 75])
    ∧ Ind.obv.evalStraight = some ([1, 2, 3, 4, 5], qs [10, -20, 0, 15, -35]) := by decide +kernel

/-- VWAP with window 1 is still the typical price; with window 2 numerator and denominator add up different volumes -/
example : (Ind.vwap 2).evalSwapped .volume ≠ (Ind.vwap 2).evalStraight ∧ Ind.adi.evalSwapped .volume = Ind.adi.evalStraight
    ∧ (Ind.mfi 2).evalSwapped .volume = (Ind.mfi 2).evalStraight := by decide +kernel

end witness
end TA
