import Verif.Model.Labels
import Verif.Lemmas.Look
import Verif.Lemmas.Toy

/-!
# C92 — The rows keep their labels

On four columns with one index — a table, whatever its row labels: dates, numbers, in any order, repeated or not — every output method
answers with exactly the index of the table, and with the values the positional model gives.
-/

set_option linter.unusedSectionVars false

namespace TA
section eqs
variable {L F : Type} [LinearOrder L] [Flt F] (ls : List L)

@[simp] theorem Lab.map_mk (f : Series F → Series F) (a : Series F) : Lab.map f (⟨ls, a⟩ : Lab L F) = ⟨ls, f a⟩ := rfl
@[simp] theorem Lab.bin_mk (f : F → F → F) (a b : Series F) : Lab.bin f (⟨ls, a⟩ : Lab L F) ⟨ls, b⟩ = ⟨ls, zip2 f a b⟩ := if_pos rfl
@[simp] theorem Lab.add_mk (a b : Series F) : Lab.add (⟨ls, a⟩ : Lab L F) ⟨ls, b⟩ = ⟨ls, sadd a b⟩ := if_pos rfl
@[simp] theorem Lab.sub_mk (a b : Series F) : Lab.sub (⟨ls, a⟩ : Lab L F) ⟨ls, b⟩ = ⟨ls, ssub a b⟩ := if_pos rfl
@[simp] theorem Lab.mul_mk (a b : Series F) : Lab.mul (⟨ls, a⟩ : Lab L F) ⟨ls, b⟩ = ⟨ls, smul a b⟩ := if_pos rfl
@[simp] theorem Lab.div_mk (a b : Series F) : Lab.div (⟨ls, a⟩ : Lab L F) ⟨ls, b⟩ = ⟨ls, sdiv a b⟩ := if_pos rfl
@[simp] theorem Lab.tri_mk (f : F → F → F → F) (a b c : Series F) :
    Lab.tri f (⟨ls, a⟩ : Lab L F) ⟨ls, b⟩ ⟨ls, c⟩ = ⟨ls, zip3 f a b c⟩ := if_pos ⟨rfl, rfl⟩
@[simp] theorem Lab.like_mk (a b : Series F) : Lab.like (⟨ls, a⟩ : Lab L F) ⟨ls, b⟩ = ⟨ls, a⟩ := if_pos rfl
@[simp] theorem Lab.cmp_mk (f : F → F → F) (a b : Series F) : Lab.cmp f (⟨ls, a⟩ : Lab L F) ⟨ls, b⟩ = .ok (zip2 f a b) := if_pos rfl
@[simp] theorem Lab.len_mk (a : Series F) : Lab.len (⟨ls, a⟩ : Lab L F) = a.length := rfl
@[simp] theorem Lab.fill_mk (b : Bool) (v : Fill F) (a : Series F) : Lab.fill b v (⟨ls, a⟩ : Lab L F) = ⟨ls, checkFillna b v a⟩ := rfl
@[simp] theorem Lab.lift_mk (f : Series F → Except PyErr (Series F)) (a : Series F) :
    Lab.lift f (⟨ls, a⟩ : Lab L F) = (f a).map fun x => ⟨ls, x⟩ := rfl
@[simp] theorem Lab.typical_mk (h l c : Series F) : Lab.typical (⟨ls, h⟩ : Lab L F) ⟨ls, l⟩ ⟨ls, c⟩ = ⟨ls, typicalPrice h l c⟩ := by
  simp [Lab.typical, typicalPrice]
@[simp] theorem Lab.clv_mk (h l c : Series F) : Lab.clv (⟨ls, h⟩ : Lab L F) ⟨ls, l⟩ ⟨ls, c⟩ = ⟨ls, TA.clv h l c⟩ := by
  simp [Lab.clv, TA.clv]

theorem Lab.trueRange_mk {h l p : Series F} (hl : l.length = h.length) :
    Lab.trueRange (⟨ls, h⟩ : Lab L F) ⟨ls, l⟩ ⟨ls, p⟩ = ⟨ls, TA.trueRange h l p⟩ := by
  simp only [Lab.trueRange, Lab.sub_mk, Lab.map_mk, Lab.tri_mk]
  congr 1
  refine series_ext (by simp [TA.trueRange]) fun i hi => ?_
  have hi' : i < h.length := by simpa using hi
  have e1 : ix (sabs (ssub h p)) i = Flt.abs (ix h i -. ix p i) := by
    rw [sabs, ix_lt (by simpa using hi'), List.getElem_map, ← ix_lt (by simpa using hi')]; rw [ssub, ix_zip2 hi']
  have e2 : ix (sabs (ssub l p)) i = Flt.abs (ix l i -. ix p i) := by
    rw [sabs, ix_lt (by simpa [hl] using hi'), List.getElem_map, ← ix_lt (by simpa [hl] using hi')]; rw [ssub, ix_zip2 (by rw [hl]; exact hi')]
  rw [ix_zip3 (by simpa using hi'), e1, e2, TA.trueRange, ix_zip3 hi', ssub, ix_zip2 hi']

theorem Lab.atr_mk {h l c : Series F} (hl : l.length = h.length) (hc : c.length = h.length) (w : Nat) :
    Lab.atr (⟨ls, h⟩ : Lab L F) ⟨ls, l⟩ ⟨ls, c⟩ w = if c.length < max w 1 then .error .indexError else .ok ⟨ls, ATR.run h l c w⟩ := by
  have hn : (ATR.run h l c w).length = h.length := by unfold ATR.run; split_ifs <;> simp [hc]
  have : ∀ x : Series F, x.length = h.length → Lab.withIdx (⟨ls, TA.trueRange h l (shift c 1)⟩ : Lab L F) x = .ok ⟨ls, x⟩ := fun x hx =>
    if_pos (by rw [hx]; simp [Lab.len, TA.trueRange])
  unfold Lab.atr
  rw [Lab.map_mk, Lab.trueRange_mk ls hl]
  exact congrArg (ite _ _) (this _ hn)

theorem Lab.adx_mk {h l c : Series F} (hl : l.length = h.length) (hc : c.length = h.length) (w : Nat) (b : Bool) :
    Lab.adx (⟨ls, h⟩ : Lab L F) ⟨ls, l⟩ ⟨ls, c⟩ w b = ADX.new h l c w b := by
  unfold Lab.adx
  by_cases hw : w = 0
  · rw [if_pos hw, ADX.new, if_pos hw]
  · rw [if_neg hw, if_neg (by simp [hl, hc])]
    cases ADX.new h l c w b <;> simp <;> rfl

theorem Lab.psar_mk {h l c : Series F} (hl : l.length = h.length) (hc : c.length = h.length) (st mx : F) (b : Bool) :
    Lab.psar (⟨ls, h⟩ : Lab L F) ⟨ls, l⟩ ⟨ls, c⟩ st mx b = PSAR.new h l c .positional st mx b := by
  unfold Lab.psar PSAR.new
  simp only [Lab.len_mk, hl, hc, or_self, lt_irrefl, and_false, if_false]

theorem LKeltner.new_mk {h l c : Series F} (hl : l.length = h.length) (hc : c.length = h.length) (w wa : Nat) (b o : Bool) (k : F) :
    LKeltner.new (⟨ls, h⟩ : Lab L F) ⟨ls, l⟩ ⟨ls, c⟩ w wa b o k =
      (Keltner.new h l c w wa b o k).map fun x => ⟨⟨ls, x.close⟩, ⟨ls, x.tp⟩, ⟨ls, x.tpHigh⟩, ⟨ls, x.tpLow⟩⟩ := by
  unfold LKeltner.new Keltner.new
  cases o
  · simp only [Bool.false_eq_true, if_false, Lab.atr_mk ls hl hc, averageTrueRange]
    cases chkSpan w
    · rfl
    · by_cases hh : c.length < max wa 1
      · rw [if_pos hh, if_pos hh]; rfl
      · rw [if_neg hh, if_neg hh]
        refine congrArg Except.ok ?_; simp only [Lab.map_mk, Lab.fill_mk, Lab.add_mk, Lab.sub_mk]; rfl
  · simp only [if_true]
    cases chkRoll w (if b then 1 else w)
    · rfl
    · refine congrArg Except.ok ?_; simp only [Lab.map_mk, Lab.typical_mk, Lab.add_mk, Lab.sub_mk]; rfl

theorem Lab.mfi_mk (h l c v : Series F) (w : Nat) (b : Bool) :
    Lab.mfi (⟨ls, h⟩ : Lab L F) ⟨ls, l⟩ ⟨ls, c⟩ ⟨ls, v⟩ w b = .ok ⟨ls, MFI.run h l c v w b⟩ := by
  unfold Lab.mfi
  simp only [Lab.typical_mk, Lab.mul_mk]
  rw [Lab.mulArr, if_pos (by simp [Lab.len, MFI.upDown])]
  rfl

theorem Lab.mfi_fill (h l c v : Series F) (w : Nat) (b : Bool) :
    (do return (← Lab.mfi (⟨ls, h⟩ : Lab L F) ⟨ls, l⟩ ⟨ls, c⟩ ⟨ls, v⟩ w b).fill b (.const (lit 50)) : Except PyErr (Lab L F)) =
      .ok ⟨ls, moneyFlowIndex h l c v w b⟩ := by
  have e := Lab.mfi_mk ls h l c v w b
  have e' : Lab.fill b (.const (lit 50)) (⟨ls, MFI.run h l c v w b⟩ : Lab L F) = ⟨ls, moneyFlowIndex h l c v w b⟩ := by
    rw [Lab.fill_mk, moneyFlowIndex]
  generalize Lab.mfi (⟨ls, h⟩ : Lab L F) ⟨ls, l⟩ ⟨ls, c⟩ ⟨ls, v⟩ w b = x at e
  generalize MFI.run h l c v w b = y at e e'
  subst e
  exact congrArg Except.ok e'

theorem Keltner.new_fillna {h l c : Series F} {w wa : Nat} {b o : Bool} {k : F} {x : Keltner F} (e : Keltner.new h l c w wa b o k = .ok x) :
    x.fillna = b := by
  unfold Keltner.new at e
  cases o
  · rw [if_neg (by simp)] at e
    generalize chkSpan w = q at e
    generalize averageTrueRange h l c wa b = a at e
    rcases q with q | q
    · exact nomatch e
    · rcases a with a | a
      · exact nomatch e
      · exact Except.ok.inj e ▸ rfl
  · rw [if_pos rfl] at e
    generalize chkRoll w (if b then 1 else w) = q at e
    rcases q with q | q
    · exact nomatch e
    · exact Except.ok.inj e ▸ rfl

theorem bind_pure_map (x : Except PyErr (Series F)) : (do return ⟨ls, ← x⟩ : Except PyErr (Lab L F)) = x.map fun s => ⟨ls, s⟩ := by
  cases x <;> rfl

end eqs

section main
variable {L F : Type} [LinearOrder L] [FltFn F]

set_option maxHeartbeats 400000 in
/-- **The rows keep their labels.** -/
theorem labels_pass_through (ls : List L) (b : List (Bar F)) (fillna : Bool) (ind : Ind F) :
    ind.evalL fillna ⟨ls, highs b⟩ ⟨ls, lows b⟩ ⟨ls, closes b⟩ ⟨ls, volumes b⟩ = (ind.eval fillna b).map fun s => (⟨ls, s⟩ : Lab L F) := by
  have e1 : (lows b).length = (highs b).length := by simp
  have e2 : (closes b).length = (highs b).length := by simp
  have e3 : (volumes b).length = (highs b).length := by simp
  simp only [Ind.eval]
  generalize highs b = h at *
  generalize lows b = l at *
  generalize closes b = c at *
  generalize volumes b = v at *
  cases ind
  case aroonUp w => simp only [Ind.evalL, Aroon.new]; split_ifs <;> rfl
  case aroonDown w => simp only [Ind.evalL, Aroon.new]; split_ifs <;> rfl
  case aroonInd w => simp only [Ind.evalL, Aroon.new, Lab.map_mk, Lab.sub_mk]; split_ifs <;> rfl
  case uo w1 w2 w3 t1 t2 t3 => simp [Ind.evalL, Lab.uo, Lab.trueRange_mk ls e1, ultimateOscillator, UO.run, UO.avg, UO.buyingPressure]; rfl
  case stoch w => simp [Ind.evalL, Lab.stochK, TA.stoch, Stoch.k]; rfl
  case stochSignal w s => simp [Ind.evalL, Lab.stochK, TA.stochSignal, Stoch.k]; rfl
  case ao w1 w2 => simp [Ind.evalL, Lab.ao, awesomeOscillator, AO.run]; rfl
  case williamsR w => simp [Ind.evalL, Lab.wr, TA.williamsR, WR.run]; rfl
  case massIndex f s =>
    simp only [Ind.evalL, Lab.mass, TA.massIndex, Mass.run, Lab.sub_mk, Lab.map_mk, Lab.div_mk, Lab.fill_mk]
    cases chkSpan f <;> rfl
  case ichimokuConv w => simp [Ind.evalL, Lab.mid, ichimokuConversionLine, Ichimoku.mid]; rfl
  case ichimokuBase w => simp [Ind.evalL, Lab.mid, ichimokuBaseLine, Ichimoku.mid]; rfl
  case ichimokuA w1 w2 v => simp [Ind.evalL, Lab.mid, TA.ichimokuA, Ichimoku.mid, Ichimoku.spanA]; rfl
  case ichimokuB w2 w3 v => simp [Ind.evalL, Lab.mid, TA.ichimokuB, Ichimoku.mid]; rfl
  case cci w k => simp [Ind.evalL, Lab.cci, TA.cci, CCI.run]; rfl
  case adx w => simp only [Ind.evalL, Lab.adx_mk ls e1 e2]; cases ADX.new h l c w fillna with
    | error => rfl
    | ok o => exact bind_pure_map ls _
  case adxPos w => simp only [Ind.evalL, Lab.adx_mk ls e1 e2]; cases ADX.new h l c w fillna <;> rfl
  case adxNeg w => simp only [Ind.evalL, Lab.adx_mk ls e1 e2]; cases ADX.new h l c w fillna <;> rfl
  case vortexPos w => simp [Ind.evalL, Lab.vip, Lab.trn, Lab.trueRange_mk ls e1, TA.vortexPos, Vortex.vip, Vortex.trn]; rfl
  case vortexNeg w => simp [Ind.evalL, Lab.vin, Lab.trn, Lab.trueRange_mk ls e1, TA.vortexNeg, Vortex.vin, Vortex.trn]; rfl
  case vortexDiff w => simp [Ind.evalL, Lab.vip, Lab.vin, Lab.trn, Lab.trueRange_mk ls e1, TA.vortexDiff, Vortex.vip, Vortex.vin, Vortex.trn]; rfl
  case psar st mx => simp only [Ind.evalL, Lab.psar_mk ls e1 e2]; cases PSAR.new h l c .positional st mx fillna <;> rfl
  case psarUp st mx => simp only [Ind.evalL, Lab.psar_mk ls e1 e2]; cases PSAR.new h l c .positional st mx fillna <;> rfl
  case psarDown st mx => simp only [Ind.evalL, Lab.psar_mk ls e1 e2]; cases PSAR.new h l c .positional st mx fillna <;> rfl
  case psarUpInd st mx => simp only [Ind.evalL, Lab.psar_mk ls e1 e2]; cases PSAR.new h l c .positional st mx fillna <;> rfl
  case psarDownInd st mx => simp only [Ind.evalL, Lab.psar_mk ls e1 e2]; cases PSAR.new h l c .positional st mx fillna <;> rfl
  case atr w => 
    simp only [Ind.evalL, Lab.atr_mk ls e1 e2, averageTrueRange]
    split_ifs <;> rfl
  case kcMband w wa o k =>
    simp only [Ind.evalL, LKeltner.new_mk ls e1 e2]
    cases hk : Keltner.new h l c w wa fillna o k with
    | error => rfl
    | ok o =>
      have hf := Keltner.new_fillna hk
      subst hf
      refine congrArg Except.ok ?_; rfl
  case kcHband w wa o k =>
    simp only [Ind.evalL, LKeltner.new_mk ls e1 e2]
    cases hk : Keltner.new h l c w wa fillna o k with
    | error => rfl
    | ok o =>
      have hf := Keltner.new_fillna hk
      subst hf
      refine congrArg Except.ok ?_; rfl
  case kcLband w wa o k =>
    simp only [Ind.evalL, LKeltner.new_mk ls e1 e2]
    cases hk : Keltner.new h l c w wa fillna o k with
    | error => rfl
    | ok o =>
      have hf := Keltner.new_fillna hk
      subst hf
      refine congrArg Except.ok ?_; rfl
  case kcWband w wa o k =>
    simp only [Ind.evalL, LKeltner.new_mk ls e1 e2]
    cases hk : Keltner.new h l c w wa fillna o k with
    | error => rfl
    | ok o =>
      have hf := Keltner.new_fillna hk
      subst hf
      refine congrArg Except.ok ?_; simp only [LKeltner.wband, Lab.sub_mk, Lab.div_mk, Lab.map_mk, Lab.fill_mk]; rfl
  case kcPband w wa o k =>
    simp only [Ind.evalL, LKeltner.new_mk ls e1 e2]
    cases hk : Keltner.new h l c w wa fillna o k with
    | error => rfl
    | ok o =>
      have hf := Keltner.new_fillna hk
      subst hf
      refine congrArg Except.ok ?_; simp only [LKeltner.pband, Lab.sub_mk, Lab.div_mk, Lab.fill_mk]; rfl
  case kcHi w wa o k =>
    simp only [Ind.evalL, LKeltner.new_mk ls e1 e2]
    cases hk : Keltner.new h l c w wa fillna o k with
    | error => rfl
    | ok o =>
      have hf := Keltner.new_fillna hk
      subst hf
      show (do return (← LKeltner.hi _).fill _ (.const (lit 0)) : Except PyErr (Lab L F)) = _
      simp only [LKeltner.hi, Lab.cmp_mk]; rfl
  case kcLi w wa o k =>
    simp only [Ind.evalL, LKeltner.new_mk ls e1 e2]
    cases hk : Keltner.new h l c w wa fillna o k with
    | error => rfl
    | ok o =>
      have hf := Keltner.new_fillna hk
      subst hf
      show (do return (← LKeltner.li _).fill _ (.const (lit 0)) : Except PyErr (Lab L F)) = _
      simp only [LKeltner.li, Lab.cmp_mk]; rfl
  case dcHband w off => simp only [Ind.evalL, LDonchian.new, Donchian.new]; cases chkRoll w (if fillna then 1 else w) <;> rfl
  case dcLband w off => simp only [Ind.evalL, LDonchian.new, Donchian.new]; cases chkRoll w (if fillna then 1 else w) <;> rfl
  case dcMband w off =>
    simp only [Ind.evalL, LDonchian.new, Donchian.new]
    cases chkRoll w (if fillna then 1 else w)
    · rfl
    · refine congrArg Except.ok ?_; simp only [LDonchian.mband, Lab.fillOff, Lab.map_mk, Lab.sub_mk, Lab.add_mk, Lab.fill_mk]; rfl
  case dcWband w off => 
    simp only [Ind.evalL, LDonchian.new, Donchian.new]
    cases chkRoll w (if fillna then 1 else w)
    · rfl
    · refine congrArg Except.ok ?_; simp only [LDonchian.wband, Lab.fillOff, Lab.map_mk, Lab.sub_mk, Lab.div_mk, Lab.fill_mk]; rfl
  case dcPband w off => 
    simp only [Ind.evalL, LDonchian.new, Donchian.new]
    cases chkRoll w (if fillna then 1 else w)
    · rfl
    · refine congrArg Except.ok ?_; simp only [LDonchian.pband, Lab.fillOff, Lab.map_mk, Lab.sub_mk, Lab.div_mk, Lab.fill_mk]; rfl
  case adi => simp [Ind.evalL, Lab.adi, accDistIndex, ADI.run]; rfl
  case obv => simp [Ind.evalL, Lab.obv, onBalanceVolume, OBV.run, e2, e3]; rfl
  case cmf w => simp [Ind.evalL, Lab.cmf, chaikinMoneyFlow, CMF.run]; rfl
  case fi w =>
    simp only [Ind.evalL, Lab.fi, forceIndex, FI.run, Lab.sub_mk, Lab.map_mk, Lab.mul_mk, Lab.fill_mk]
    cases chkSpan w <;> rfl
  case eom => simp [Ind.evalL, Lab.eom, easeOfMovement, EOM.run]; rfl
  case smaEom w => simp [Ind.evalL, Lab.eom, smaEaseOfMovement, EOM.run]; rfl
  case vpt s => 
    simp only [Ind.evalL, Lab.vpt, volumePriceTrend, VPT.run, Lab.map_mk, Lab.mul_mk]
    rcases s with - | - | s <;> rfl
  case nvi =>
    simp only [Ind.evalL, Lab.nvi, Lab.len_mk, e2, e3, lt_irrefl, and_false, if_false, negativeVolumeIndex]
    split_ifs <;> rfl
  case mfi w =>
    exact Lab.mfi_fill ls h l c v w fillna
  case vwap w => simp [Ind.evalL, Lab.vwap, volumeWeightedAveragePrice, VWAP.run]; rfl
  all_goals rfl

/-- the index of the answer, and its length -/
theorem answer_index (ls : List L) (b : List (Bar F)) (fillna : Bool) (ind : Ind F) {s : Lab L F}
    (h : ind.evalL fillna ⟨ls, highs b⟩ ⟨ls, lows b⟩ ⟨ls, closes b⟩ ⟨ls, volumes b⟩ = .ok s) :
    s.idx = ls ∧ ind.eval fillna b = .ok s.val := by
  rw [labels_pass_through] at h
  cases e : ind.eval fillna b with
  | error x => rw [e] at h; exact nomatch h
  | ok x => rw [e] at h; exact Except.ok.inj h ▸ ⟨rfl, rfl⟩

/-- other labels, same values -/
theorem labels_do_not_count {M : Type} [LinearOrder M] (ls : List L) (ms : List M) (b : List (Bar F)) (fillna : Bool) (ind : Ind F) :
    (ind.evalL fillna ⟨ls, highs b⟩ ⟨ls, lows b⟩ ⟨ls, closes b⟩ ⟨ls, volumes b⟩).map (·.val) =
      (ind.evalL fillna ⟨ms, highs b⟩ ⟨ms, lows b⟩ ⟨ms, closes b⟩ ⟨ms, volumes b⟩).map (·.val) := by
  rw [labels_pass_through, labels_pass_through]
  cases ind.eval fillna b <;> rfl

end main

/-! ## Witnesses: labels out of order, one of them twice -/

section witness
attribute [local instance] toyFn

def oddBars : List (Bar (Val ℚ)) := [qbar 3 1 2 1, qbar 4 2 3 2, qbar 5 3 4 3]

example : ((Ind.adi : Ind (Val ℚ)).evalL false ⟨[7, 2, 7], highs oddBars⟩ ⟨[7, 2, 7], lows oddBars⟩ ⟨[7, 2, 7], closes oddBars⟩
    ⟨[7, 2, 7], volumes oddBars⟩).map (fun s => (s.idx, s.val)) = .ok ([7, 2, 7], qs [0, 0, 0]) := by decide +kernel

example : ((Ind.obv : Ind (Val ℚ)).evalL false ⟨[7, 2, 7], highs oddBars⟩ ⟨[7, 2, 7], lows oddBars⟩ ⟨[7, 2, 7], closes oddBars⟩
    ⟨[7, 2, 7], volumes oddBars⟩).map (fun s => (s.idx, s.val)) = .ok ([7, 2, 7], qs [1, 3, 6]) := by decide +kernel

example : ((Ind.atr 2 : Ind (Val ℚ)).evalL false ⟨[7, 2, 7], highs oddBars⟩ ⟨[7, 2, 7], lows oddBars⟩ ⟨[7, 2, 7], closes oddBars⟩
    ⟨[7, 2, 7], volumes oddBars⟩).map (fun s => (s.idx, s.val)) = .ok ([7, 2, 7], qs [0, 2, 2]) := by decide +kernel

end witness
end TA
