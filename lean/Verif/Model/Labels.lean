import Verif.Model.Catalogue
import Mathlib.Order.Defs.LinearOrder

/-!
# Series with row labels

`Model/*` takes a Series as the list of its values.  Here a Series carries its index, and the operations do what pandas does with it:
arithmetic of two Series pairs the rows by label, a comparison of two differently labelled Series raises, numpy functions and `.iloc` ignore
the labels.  `Ind.evalL` runs every output method of the catalogue on four labelled columns, which need not have the same labels.

pandas 1.3.5: `Series.align` (outer join, `Index.join` and `Index.union`), `DataFrame(dict of Series)` (`union_indexes`), `ops.comparison_op`,
`NDFrame._inplace_method`, `Series.__init__(data=ndarray, index=…)`.  Labels of one Series are supposed to be distinct whenever the labels of
two Series differ (with repeated labels pandas joins every pair); labels are ordered (dates, strings).  Two places
where the library mistakes labels for positions are subjects of their own and not repeated here: `PSARIndicator` on integer labels (C47) and
`AverageTrueRange` on float labels (C79).  `pct_change` is taken to keep repeated labels (it removes them only when called with `freq`).
-/

namespace TA

/-- A Series: index and values, equally long. -/
structure Lab (L F : Type) where
  idx : List L
  val : Series F

section ops
variable {L F : Type} [LinearOrder L] [Flt F]

/-- insert a label into an increasing list of labels -/
def insL (x : L) : List L → List L
  | [] => [x]
  | y :: ys => if x < y then x :: y :: ys else if x = y then y :: ys else y :: insL x ys

/-- the distinct labels in increasing order -/
def sortL (l : List L) : List L := l.foldr insL []

/-- `a.join(b, how="outer")` / `a.union(b)`: nothing to do on equal indexes, else the labels of both, sorted (an empty index adds nothing and
sorts nothing) -/
def joinIdx (a b : List L) : List L :=
  if a = b then a else if b = [] then a else if a = [] then b else sortL (a ++ b)

/-- the value at a label, NaN where there is none -/
def Lab.at (s : Lab L F) (l : L) : F := ix s.val (s.idx.idxOf l)

/-- `len(series)` -/
def Lab.len (s : Lab L F) : Nat := s.val.length

/-- an operation on one Series that keeps its index -/
def Lab.map (f : Series F → Series F) (s : Lab L F) : Lab L F := ⟨s.idx, f s.val⟩

/-- arithmetic of two Series -/
def Lab.bin (f : F → F → F) (a b : Lab L F) : Lab L F :=
  if a.idx = b.idx then ⟨a.idx, zip2 f a.val b.val⟩
  else ⟨joinIdx a.idx b.idx, (joinIdx a.idx b.idx).map fun l => f (a.at l) (b.at l)⟩

def Lab.add (a b : Lab L F) : Lab L F := Lab.bin Flt.add a b
def Lab.sub (a b : Lab L F) : Lab L F := Lab.bin Flt.sub a b
def Lab.mul (a b : Lab L F) : Lab L F := Lab.bin Flt.mul a b
def Lab.div (a b : Lab L F) : Lab L F := Lab.bin Flt.div a b

/-- a function of the rows of `pd.DataFrame({…})` of three Series -/
def Lab.tri (f : F → F → F → F) (a b c : Lab L F) : Lab L F :=
  if a.idx = b.idx ∧ a.idx = c.idx then ⟨a.idx, zip3 f a.val b.val c.val⟩
  else
    let u := joinIdx (joinIdx a.idx b.idx) c.idx
    ⟨u, u.map fun l => f (a.at l) (b.at l) (c.at l)⟩

/-- `a < b`, `a > b`: ValueError ("Can only compare identically-labeled Series objects") unless the indexes are equal; `f` is what the caller
makes of the answer -/
def Lab.cmp (f : F → F → F) (a b : Lab L F) : Except PyErr (Series F) :=
  if a.idx = b.idx then .ok (zip2 f a.val b.val) else .error .valueError

/-- `s.reindex_like(t)` -/
def Lab.like (s t : Lab L F) : Lab L F := if s.idx = t.idx then s else ⟨t.idx, t.idx.map s.at⟩

/-- `pd.Series(array, index=s.index)`: ValueError unless the lengths agree -/
def Lab.withIdx (s : Lab L F) (x : Series F) : Except PyErr (Lab L F) :=
  if x.length = s.len then .ok ⟨s.idx, x⟩ else .error .valueError

/-- an output computed from one column only: it has the index of that column -/
def Lab.lift (f : Series F → Except PyErr (Series F)) (s : Lab L F) : Except PyErr (Lab L F) := (f s.val).map fun x => ⟨s.idx, x⟩

/-! ## ta/utils.py -/

/-- `_true_range` — ta/utils.py:38-46 -/
def Lab.trueRange (high low prevClose : Lab L F) : Lab L F :=
  let tr1 := high.sub low
  let tr2 := (high.sub prevClose).map sabs
  let tr3 := (low.sub prevClose).map sabs
  Lab.tri (fun x y z => maxL (valid [x, y, z])) tr1 tr2 tr3

/-- `_check_fillna` — ta/utils.py:19-36 -/
def Lab.fill (fillna : Bool) (value : Fill F) (s : Lab L F) : Lab L F := s.map (checkFillna fillna value)

/-- `(high + low + close) / 3.0` -/
def Lab.typical (high low close : Lab L F) : Lab L F := ((high.add low).add close).map (divc · (lit 3))

/-! ## ta/momentum.py -/

/-- `UltimateOscillator._run` — ta/momentum.py:176-205 -/
def Lab.uo (high low close : Lab L F) (w1 w2 w3 : Nat) (wt1 wt2 wt3 : F) (fillna : Bool) : Lab L F :=
  let closeShift := close.map (shift · 1)
  let tr := Lab.trueRange high low closeShift
  let bp := close.sub (Lab.bin npMin2 low closeShift)
  let avg := fun w => (bp.map (rollSum w (minp fillna w))).div (tr.map (rollSum w (minp fillna w)))
  ((((avg w1).map (cmul wt1)).add ((avg w2).map (cmul wt2))).add ((avg w3).map (cmul wt3))).map fun s => divc (cmul (lit 100) s) (wt1 +. wt2 +. wt3)

/-- `StochasticOscillator._run` — ta/momentum.py:252-257 -/
def Lab.stochK (high low close : Lab L F) (w : Nat) (fillna : Bool) : Lab L F :=
  let smin := low.map (rollMin w (minp fillna w))
  let smax := high.map (rollMax w (minp fillna w))
  ((close.sub smin).map (cmul (lit 100))).div (smax.sub smin)

/-- `AwesomeOscillatorIndicator._run` — ta/momentum.py:457-464 -/
def Lab.ao (high low : Lab L F) (w1 w2 : Nat) (fillna : Bool) : Lab L F :=
  let median := (high.add low).map (cmul (lit (1/2)))
  (median.map (rollMean w1 (minp fillna w1))).sub (median.map (rollMean w2 (minp fillna w2)))

/-- `WilliamsRIndicator._run` — ta/momentum.py:529-537 -/
def Lab.wr (high low close : Lab L F) (w : Nat) (fillna : Bool) : Lab L F :=
  let hh := high.map (rollMax w (minp fillna w))
  let ll := low.map (rollMin w (minp fillna w))
  ((hh.sub close).map (cmul (lit (-100)))).div (hh.sub ll)

/-! ## ta/trend.py -/

/-- `MassIndex._run` — ta/trend.py:320-326 -/
def Lab.mass (high low : Lab L F) (fast slow : Nat) (fillna : Bool) : Lab L F :=
  let ema1 := (high.sub low).map (TA.ema · fast fillna)
  let ema2 := ema1.map (TA.ema · fast fillna)
  (ema1.div ema2).map (rollSum slow (minp fillna slow))

/-- the midpoints of `IchimokuIndicator` — ta/trend.py:377-384, 427-430 -/
def Lab.mid (high low : Lab L F) (w mp : Nat) : Lab L F :=
  ((high.map (rollMax w mp)).add (low.map (rollMin w mp))).map (cmul (lit (1/2)))

/-- `CCIIndicator._run` — ta/trend.py:652-666 -/
def Lab.cci (high low close : Lab L F) (w : Nat) (constant : F) (fillna : Bool) : Lab L F :=
  let tp := Lab.typical high low close
  (tp.sub (tp.map (rollMean w (minp fillna w)))).div (tp.map fun s => cmul constant (rollApply CCI.mad w (minp fillna w) s))

/-- `ADXIndicator._run` — ta/trend.py:718-769: `_get_min_max` works on arrays, which have to be equally long; `diff_up > diff_down` compares two
Series with the indexes of high and low; close enters without its index. -/
def Lab.adx (high low close : Lab L F) (w : Nat) (fillna : Bool) : Except PyErr (ADX F) :=
  if w = 0 then .error .valueError
  else if high.len ≠ close.len ∨ low.len ≠ close.len then .error .valueError
  else do
    let o ← ADX.new high.val low.val close.val w fillna
    if high.idx = low.idx then .ok o else .error .valueError

/-- `VortexIndicator._run` — ta/trend.py:894-903 -/
def Lab.trn (high low close : Lab L F) (w : Nat) (fillna : Bool) : Lab L F :=
  (Lab.trueRange high low (close.map fun s => shift s 1 (smean s))).map (rollSum w (minp fillna w))
def Lab.vip (high low close : Lab L F) (w : Nat) (fillna : Bool) : Lab L F :=
  ((high.sub (low.map (shift · 1))).map fun s => rollSum w (minp fillna w) (sabs s)).div (Lab.trn high low close w fillna)
def Lab.vin (high low close : Lab L F) (w : Nat) (fillna : Bool) : Lab L F :=
  ((low.sub (high.map (shift · 1))).map fun s => rollSum w (minp fillna w) (sabs s)).div (Lab.trn high low close w fillna)

/-- `PSARIndicator._run` — ta/trend.py:971-1039: every read is `.iloc`; the rows are those of close. -/
def Lab.psar (high low close : Lab L F) (step maxStep : F) (fillna : Bool) : Except PyErr (PSAR F) :=
  if high.len = 0 ∨ low.len = 0 then .error .indexError
  else if 2 < close.len ∧ (high.len < close.len ∨ low.len < close.len) then .error .indexError
  else
    let st := PSAR.run high.val low.val close.val .positional step maxStep
    .ok { psarS := st.psar.vals, up := st.up, down := st.down, fillna := fillna }

/-! ## ta/volatility.py -/

/-- `AverageTrueRange._run` — ta/volatility.py:46-55: the array has the length of close, the index is that of the true range. -/
def Lab.atr (high low close : Lab L F) (w : Nat) : Except PyErr (Lab L F) :=
  let tr := Lab.trueRange high low (close.map (shift · 1))
  if close.len < max w 1 then .error .indexError
  else
    tr.withIdx (if w = 0 then List.replicate close.len nan else tab close.len fun i => iter (ATR.step tr.val w) (lit 0) (i + 1))

/-- The object after `KeltnerChannel._run`. -/
structure LKeltner (L F : Type) where
  close : Lab L F
  tp : Lab L F
  tpHigh : Lab L F
  tpLow : Lab L F

/-- `KeltnerChannel._run` — ta/volatility.py:226-256 -/
def LKeltner.new (high low close : Lab L F) (w wa : Nat) (fillna original : Bool) (mult : F) : Except PyErr (LKeltner L F) :=
  let mp := if fillna then 1 else w
  if original then do
    chkRoll w mp
    return { close := close
             tp := (Lab.typical high low close).map (rollMean w mp)
             tpHigh := (((high.map (cmul (lit 4))).sub (low.map (cmul (lit 2)))).add close).map fun s => rollMean w 0 (divc s (lit 3))
             tpLow := (((high.map (cmul (lit (-2)))).add (low.map (cmul (lit 4)))).add close).map fun s => rollMean w 0 (divc s (lit 3)) }
  else do
    chkSpan w
    let atr ← Lab.atr high low close wa
    let a := atr.fill fillna (.const (lit 0))
    let tp := close.map (ewm (alphaOfSpan w) mp)
    return { close := close, tp := tp, tpHigh := tp.add (a.map (cmul mult)), tpLow := tp.sub (a.map (cmul mult)) }

/-- `.keltner_channel_wband()` before the fill — ta/volatility.py:291 -/
def LKeltner.wband (o : LKeltner L F) : Lab L F := ((o.tpHigh.sub o.tpLow).div o.tp).map (mulc · (lit 100))
/-- `.keltner_channel_pband()` before the fill — ta/volatility.py:301 -/
def LKeltner.pband (o : LKeltner L F) : Lab L F := (o.close.sub o.tpLow).div (o.tpHigh.sub o.tpLow)
/-- `.keltner_channel_hband_indicator()` before the fill — ta/volatility.py:312-314 -/
def LKeltner.hi (o : LKeltner L F) : Except PyErr (Lab L F) := do
  let x ← Lab.cmp (fun x y => if x >. y then lit 1 else lit 0) o.close o.tpHigh
  return ⟨o.close.idx, x⟩
/-- `.keltner_channel_lband_indicator()` before the fill — ta/volatility.py:326-328 -/
def LKeltner.li (o : LKeltner L F) : Except PyErr (Lab L F) := do
  let x ← Lab.cmp (fun x y => if x <. y then lit 1 else lit 0) o.close o.tpLow
  return ⟨o.close.idx, x⟩

/-- The object after `DonchianChannel._run` — ta/volatility.py:364-371 -/
structure LDonchian (L F : Type) where
  close : Lab L F
  hb : Lab L F
  lb : Lab L F
  window : Nat
  minPeriods : Nat

def LDonchian.new (high low close : Lab L F) (w : Nat) (fillna : Bool) : Except PyErr (LDonchian L F) := do
  let mp := if fillna then 1 else w
  chkRoll w mp
  return { close := close, hb := high.map (rollMax w mp), lb := low.map (rollMin w mp), window := w, minPeriods := mp }

/-- `_check_fillna`, then `if self._offset != 0: x = x.shift(self._offset)` -/
def Lab.fillOff (fillna : Bool) (value : Fill F) (offset : Int) (s : Lab L F) : Lab L F :=
  (s.fill fillna value).map fun x => if offset ≠ 0 then shiftInt x offset else x

/-- `.donchian_channel_mband()` — ta/volatility.py:401 -/
def LDonchian.mband (o : LDonchian L F) : Lab L F := ((o.hb.sub o.lb).map (divc · (lit 2))).add o.lb
/-- `.donchian_channel_wband()` — ta/volatility.py:413-414 -/
def LDonchian.wband (o : LDonchian L F) : Lab L F :=
  ((o.hb.sub o.lb).div (o.close.map (rollMean o.window o.minPeriods))).map (mulc · (lit 100))
/-- `.donchian_channel_pband()` — ta/volatility.py:426 -/
def LDonchian.pband (o : LDonchian L F) : Lab L F := (o.close.sub o.lb).div (o.hb.sub o.lb)

/-! ## ta/volume.py -/

/-- close location value — ta/volume.py:48-51, 133-136 -/
def Lab.clv (high low close : Lab L F) : Lab L F :=
  (((close.sub low).sub (high.sub close)).div (high.sub low)).map (fillConst (lit 0))

/-- `AccDistIndexIndicator._run` — ta/volume.py:47-53 -/
def Lab.adi (high low close volume : Lab L F) : Lab L F := ((Lab.clv high low close).mul volume).map cumsum

/-- `OnBalanceVolumeIndicator._run` — ta/volume.py:85-87: `np.where` takes the volumes by position; one volume serves for all rows. -/
def Lab.obv (close volume : Lab L F) : Except PyErr (Lab L F) :=
  if volume.len = close.len then .ok ⟨close.idx, cumsum (OBV.signed close.val volume.val)⟩
  else if volume.len = 1 then .ok ⟨close.idx, cumsum (OBV.signed close.val (List.replicate close.len (ix volume.val 0)))⟩
  else .error .valueError

/-- `ChaikinMoneyFlowIndicator._run` — ta/volume.py:132-142: `mfv *= volume` keeps the index of `mfv`. -/
def Lab.cmf (high low close volume : Lab L F) (w : Nat) (fillna : Bool) : Lab L F :=
  let mfv := Lab.clv high low close
  let mfv := (mfv.mul volume).like mfv
  (mfv.map (rollSum w (minp fillna w))).div (volume.map (rollSum w (minp fillna w)))

/-- `ForceIndexIndicator._run` — ta/volume.py:183-185 -/
def Lab.fi (close volume : Lab L F) (w : Nat) (fillna : Bool) : Lab L F :=
  ((close.sub (close.map (shift · 1))).mul volume).map (TA.ema · w fillna)

/-- `EaseOfMovementIndicator._run` — ta/volume.py:228-234 -/
def Lab.eom (high low volume : Lab L F) : Lab L F :=
  ((((high.map sdiff).add (low.map sdiff)).mul (high.sub low)).div (volume.map (cmul (lit 2)))).map (mulc · (lit 100000000))

/-- `VolumePriceTrendIndicator._run` — ta/volume.py:289-298 -/
def Lab.vpt (close volume : Lab L F) (smoothing : Option Nat) (fillna : Bool) : Lab L F :=
  let vpt := ((close.map pctChange).mul volume).map cumsum
  match smoothing with
  | none => vpt
  | some 0 => vpt
  | some (k + 1) => vpt.map (rollMean (k + 1) (minp fillna (k + 1)))

/-- `NegativeVolumeIndexIndicator._run` — ta/volume.py:326-337: every read is `.iloc`; the rows are those of close. -/
def Lab.nvi (close volume : Lab L F) : Except PyErr (Lab L F) :=
  if close.len = 0 then .error .indexError
  else if 1 < close.len ∧ volume.len < close.len then .error .indexError
  else .ok ⟨close.idx, NVI.run close.val volume.val⟩

/-- a Series times an array: lengths have to agree, or the array to have length 1 -/
def Lab.mulArr (x : Lab L F) (a : Series F) : Except PyErr (Lab L F) :=
  if x.len = a.length then .ok ⟨x.idx, smul x.val a⟩
  else if a.length = 1 then .ok ⟨x.idx, mulc x.val (ix a 0)⟩
  else .error .valueError

/-- `up_down` — ta/volume.py:389-393 -/
def MFI.upDown (tp : Series F) : Series F :=
  zip2 (fun t p => if t >. p then lit 1 else if t <. p then lit (-1) else lit 0) tp (shift tp 1)

/-- `MFIIndicator._run` after the flows — ta/volume.py:397-412 -/
def MFI.ofFlow (w : Nat) (fillna : Bool) (mfr : Series F) : Series F :=
  let p := rollApply MFI.pos w (minp fillna w) mfr
  let n := sabs (rollApply MFI.neg w (minp fillna w) mfr)
  csub (lit 100) (cdiv (lit 100) (cadd (lit 1) (sdiv p n)))

/-- `MFIIndicator._run` — ta/volume.py:387-412: `up_down` is an array in the order of the typical prices; it multiplies a Series that may have
other rows. -/
def Lab.mfi (high low close volume : Lab L F) (w : Nat) (fillna : Bool) : Except PyErr (Lab L F) :=
  let tp := Lab.typical high low close
  ((tp.mul volume).mulArr (MFI.upDown tp.val)).map (Lab.map (MFI.ofFlow w fillna))

/-- `VolumeWeightedAveragePrice._run` — ta/volume.py:464-480 -/
def Lab.vwap (high low close volume : Lab L F) (w : Nat) (fillna : Bool) : Lab L F :=
  (((Lab.typical high low close).mul volume).map (rollSum w (minp fillna w))).div (volume.map (rollSum w (minp fillna w)))

end ops

variable {L F : Type} [LinearOrder L] [FltFn F]

/-- Run one output method on four labelled columns. -/
def Ind.evalL (fillna : Bool) (h l c v : Lab L F) : Ind F → Except PyErr (Lab L F)
  -- one column
  | .rsi w => c.lift (TA.rsi · w fillna)
  | .tsi slow fast => c.lift (TA.tsi · slow fast fillna)
  | .kama w p1 p2 => c.lift fun s => .ok (TA.kama s w p1 p2 fillna)
  | .roc w => c.lift fun s => .ok (TA.roc s w fillna)
  | .stochrsi w s1 s2 => c.lift fun s => (StochRSI.new s w s1 s2 fillna).map (·.stochrsi)
  | .stochrsiK w s1 s2 => c.lift fun s => (StochRSI.new s w s1 s2 fillna).map (·.stochrsiK)
  | .stochrsiD w s1 s2 => c.lift fun s => (StochRSI.new s w s1 s2 fillna).map (·.stochrsiD)
  | .ppo slow fast sign => c.lift fun s => (PPO.new s slow fast sign fillna).map (·.ppo)
  | .ppoSignal slow fast sign => c.lift fun s => (PPO.new s slow fast sign fillna).map (·.ppoSignal)
  | .ppoHist slow fast sign => c.lift fun s => (PPO.new s slow fast sign fillna).map (·.ppoHist)
  | .pvo slow fast sign => v.lift fun s => (PPO.new s slow fast sign fillna).map (·.ppo)
  | .pvoSignal slow fast sign => v.lift fun s => (PPO.new s slow fast sign fillna).map (·.ppoSignal)
  | .pvoHist slow fast sign => v.lift fun s => (PPO.new s slow fast sign fillna).map (·.ppoHist)
  | .macd slow fast sign => c.lift fun s => (MACD.new s slow fast sign fillna).map (·.macd)
  | .macdSignal slow fast sign => c.lift fun s => (MACD.new s slow fast sign fillna).map (·.macdSignal)
  | .macdDiff slow fast sign => c.lift fun s => (MACD.new s slow fast sign fillna).map (·.macdDiff)
  | .ema w => c.lift (emaIndicator · w fillna)
  | .sma w => c.lift fun s => .ok (smaIndicator s w fillna)
  | .wma w => c.lift fun s => .ok (TA.wma s w fillna)
  | .trix w => c.lift (TA.trix · w fillna)
  | .kst p => c.lift fun s => .ok (TA.kst s p.r1 p.r2 p.r3 p.r4 p.w1 p.w2 p.w3 p.w4 fillna)
  | .kstSig p nsig => c.lift fun s => .ok (TA.kstSig s p.r1 p.r2 p.r3 p.r4 p.w1 p.w2 p.w3 p.w4 nsig fillna)
  | .kstDiff p nsig => c.lift fun s => .ok (TA.kstDiff s p.r1 p.r2 p.r3 p.r4 p.w1 p.w2 p.w3 p.w4 nsig fillna)
  | .dpo w => c.lift fun s => .ok (TA.dpo s w fillna)
  | .stc slow fast cycle s1 s2 => c.lift (TA.stc · slow fast cycle s1 s2 fillna)
  | .bbMavg w dev => c.lift fun s => .ok (BB.new s w dev fillna).bollingerMavg
  | .bbHband w dev => c.lift fun s => .ok (BB.new s w dev fillna).bollingerHband
  | .bbLband w dev => c.lift fun s => .ok (BB.new s w dev fillna).bollingerLband
  | .bbWband w dev => c.lift fun s => .ok (BB.new s w dev fillna).bollingerWband
  | .bbPband w dev => c.lift fun s => .ok (BB.new s w dev fillna).bollingerPband
  | .bbHi w dev => c.lift fun s => .ok (BB.new s w dev fillna).bollingerHbandIndicator
  | .bbLi w dev => c.lift fun s => .ok (BB.new s w dev fillna).bollingerLbandIndicator
  | .ulcer w => c.lift (ulcerIndex · w fillna)
  | .dr => c.lift fun s => .ok (dailyReturn s fillna)
  | .dlr => c.lift fun s => .ok (dailyLogReturn s fillna)
  | .cr => c.lift (cumulativeReturn · fillna)
  | .aroonUp w => do
      if w = 0 ∧ 0 < (valid (replaceInf h.val)).length + (valid (replaceInf l.val)).length then .error .zeroDivision
      else .ok (h.map fun s => (Aroon.run s l.val w fillna).aroonUp)
  | .aroonDown w => do
      if w = 0 ∧ 0 < (valid (replaceInf h.val)).length + (valid (replaceInf l.val)).length then .error .zeroDivision
      else .ok (l.map fun s => (Aroon.run h.val s w fillna).aroonDown)
  -- several columns
  | .uo w1 w2 w3 wt1 wt2 wt3 => .ok ((Lab.uo h l c w1 w2 w3 wt1 wt2 wt3 fillna).fill fillna (.const (lit 50)))
  | .stoch w => .ok ((Lab.stochK h l c w fillna).fill fillna (.const (lit 50)))
  | .stochSignal w s => .ok (((Lab.stochK h l c w fillna).map (rollMean s (minp fillna s))).fill fillna (.const (lit 50)))
  | .ao w1 w2 => .ok ((Lab.ao h l w1 w2 fillna).fill fillna (.const (lit 0)))
  | .williamsR w => .ok ((Lab.wr h l c w fillna).fill fillna (.const (lit (-50))))
  | .aroonInd w => do
      if w = 0 ∧ 0 < (valid (replaceInf h.val)).length + (valid (replaceInf l.val)).length then .error .zeroDivision
      else .ok (((h.map fun s => (Aroon.run s l.val w fillna).up).sub (l.map fun s => (Aroon.run h.val s w fillna).down)).fill fillna (.const (lit 0)))
  | .massIndex fast slow => do chkSpan fast; return (Lab.mass h l fast slow fillna).fill fillna (.const (lit 0))
  | .ichimokuConv w1 => .ok ((Lab.mid h l w1 (minp fillna w1)).fill fillna .back)
  | .ichimokuBase w2 => .ok ((Lab.mid h l w2 (minp fillna w2)).fill fillna .back)
  | .ichimokuA w1 w2 vis => .ok (((((Lab.mid h l w1 (minp fillna w1)).add (Lab.mid h l w2 (minp fillna w2))).map (cmul (lit (1/2)))).map
      (Ichimoku.vis vis w2)).fill fillna .back)
  | .ichimokuB w2 w3 vis => .ok (((Lab.mid h l w3 0).map (Ichimoku.vis vis w2)).fill fillna .back)
  | .cci w k => .ok ((Lab.cci h l c w k fillna).fill fillna (.const (lit 0)))
  | .adx w => do return ⟨c.idx, ← (← Lab.adx h l c w fillna).adx⟩
  | .adxPos w => do return ⟨c.idx, (← Lab.adx h l c w fillna).adxPos⟩
  | .adxNeg w => do return ⟨c.idx, (← Lab.adx h l c w fillna).adxNeg⟩
  | .vortexPos w => .ok ((Lab.vip h l c w fillna).fill fillna (.const (lit 1)))
  | .vortexNeg w => .ok ((Lab.vin h l c w fillna).fill fillna (.const (lit 1)))
  | .vortexDiff w => .ok (((Lab.vip h l c w fillna).sub (Lab.vin h l c w fillna)).fill fillna (.const (lit 0)))
  | .psar st mx => do return ⟨c.idx, (← Lab.psar h l c st mx fillna).psar⟩
  | .psarUp st mx => do return ⟨c.idx, (← Lab.psar h l c st mx fillna).psarUp⟩
  | .psarDown st mx => do return ⟨c.idx, (← Lab.psar h l c st mx fillna).psarDown⟩
  | .psarUpInd st mx => do return ⟨c.idx, (← Lab.psar h l c st mx fillna).psarUpIndicator⟩
  | .psarDownInd st mx => do return ⟨c.idx, (← Lab.psar h l c st mx fillna).psarDownIndicator⟩
  | .atr w => do return (← Lab.atr h l c w).fill fillna (.const (lit 0))
  | .kcMband w wa o k => do return (← LKeltner.new h l c w wa fillna o k).tp.fill fillna .back
  | .kcHband w wa o k => do return (← LKeltner.new h l c w wa fillna o k).tpHigh.fill fillna .back
  | .kcLband w wa o k => do return (← LKeltner.new h l c w wa fillna o k).tpLow.fill fillna .back
  | .kcWband w wa o k => do return (← LKeltner.new h l c w wa fillna o k).wband.fill fillna (.const (lit 0))
  | .kcPband w wa o k => do return (← LKeltner.new h l c w wa fillna o k).pband.fill fillna (.const (lit 0))
  | .kcHi w wa o k => do return (← (← LKeltner.new h l c w wa fillna o k).hi).fill fillna (.const (lit 0))
  | .kcLi w wa o k => do return (← (← LKeltner.new h l c w wa fillna o k).li).fill fillna (.const (lit 0))
  | .dcHband w off => do return (← LDonchian.new h l c w fillna).hb.fillOff fillna .back off
  | .dcLband w off => do return (← LDonchian.new h l c w fillna).lb.fillOff fillna .back off
  | .dcMband w off => do return (← LDonchian.new h l c w fillna).mband.fillOff fillna .back off
  | .dcWband w off => do return (← LDonchian.new h l c w fillna).wband.fillOff fillna (.const (lit 0)) off
  | .dcPband w off => do return (← LDonchian.new h l c w fillna).pband.fillOff fillna (.const (lit 0)) off
  | .adi => .ok ((Lab.adi h l c v).fill fillna (.const (lit 0)))
  | .obv => do return (← Lab.obv c v).fill fillna (.const (lit 0))
  | .cmf w => .ok ((Lab.cmf h l c v w fillna).fill fillna (.const (lit 0)))
  | .fi w => do chkSpan w; return (Lab.fi c v w fillna).fill fillna (.const (lit 0))
  | .eom => .ok ((Lab.eom h l v).fill fillna (.const (lit 0)))
  | .smaEom w => .ok (((Lab.eom h l v).map (rollMean w (minp fillna w))).fill fillna (.const (lit 0)))
  | .vpt sm => .ok ((Lab.vpt c v sm fillna).fill fillna (.const (lit 0)))
  | .nvi => do return (← Lab.nvi c v).fill fillna (.const (lit 1000))
  | .mfi w => do return (← Lab.mfi h l c v w fillna).fill fillna (.const (lit 50))
  | .vwap w => .ok ((Lab.vwap h l c v w fillna).fill fillna (.const (lit 0)))

end TA
