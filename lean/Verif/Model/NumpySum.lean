import Verif.Model.Catalogue

/-!
# Sums in numpy's order

`np.sum`, `ndarray.sum`, `np.mean` and (through `nanops`) `Series.sum` and `Series.mean` add in the order of numpy 1.21.5's `pairwise_sum_DOUBLE`
(`numpy/core/src/umath/loops_utils.h.src`); the rest of the model adds from left to right (`sumL`).  This file writes numpy's order out and gives the
functions of `/repo/ta` that call it with the sum as a parameter `σ`; with `σ = sumL` they are the definitions of the model.
-/

namespace TA
variable {F : Type} [Flt F]

/-- eight running sums over blocks of eight, added pairwise at the end, then the rest one by one: the branch `8 ≤ n ≤ 128` after `r[j] = a[j]` -/
def eights (r0 r1 r2 r3 r4 r5 r6 r7 : F) : List F → F
  | x0 :: x1 :: x2 :: x3 :: x4 :: x5 :: x6 :: x7 :: l =>
    eights (r0 +. x0) (r1 +. x1) (r2 +. x2) (r3 +. x3) (r4 +. x4) (r5 +. x5) (r6 +. x6) (r7 +. x7) l
  | l => l.foldl Flt.add (((r0 +. r1) +. (r2 +. r3)) +. ((r4 +. r5) +. (r6 +. r7)))

/-- the branches `n < 8` and `8 ≤ n ≤ 128` -/
def pairwiseBlock : List F → F
  | x0 :: x1 :: x2 :: x3 :: x4 :: x5 :: x6 :: x7 :: l => eights x0 x1 x2 x3 x4 x5 x6 x7 l
  | l => sumL l

/-- where a longer array is cut: `n2 = n / 2; n2 -= n2 % 8` -/
def cutAt (n : Nat) : Nat := n / 2 - n / 2 % 8

/-- `pairwise_sum_DOUBLE`; the first argument bounds the depth of the recursion -/
def pairwiseTo : Nat → List F → F
  | 0, l => pairwiseBlock l
  | k + 1, l =>
    if l.length ≤ 128 then pairwiseBlock l
    else pairwiseTo k (l.take (cutAt l.length)) +. pairwiseTo k (l.drop (cutAt l.length))

/-- `np.sum` of a contiguous array of doubles: the identity 0, plus the pairwise sum -/
def npSum (l : List F) : F := lit 0 +. pairwiseTo l.length l

variable (σ : List F → F)

/-- `np.mean` -/
def npMeanBy (l : List F) : F := σ l /. natF l.length

/-- `nanops.nanmean`: NaN counts as 0 in the sum and is not counted in the number -/
def smeanBy (s : Series F) : F :=
  if (valid s).length = 0 then nan else σ (s.map fun x => if Flt.isNaN x then lit 0 else x) /. natF (valid s).length

/-! ## trend.py -/

/-- `(weight * x).sum()` — ta/trend.py:231 -/
def WMA.avgBy (w : Nat) (x : List F) : F :=
  σ (tab x.length (fun j => (natF ((j + 1) * 2) /. natF (w * (w + 1))) *. ix x j))

/-- `WMAIndicator(...).wma()` — ta/trend.py:215-246 -/
def wmaBy (close : Series F) (window : Nat) (fillna : Bool) : Series F :=
  checkFillna fillna (.const (lit 0)) (rollApply (WMA.avgBy σ window) window window close)

/-- `np.mean(np.abs(x - np.mean(x)))` — ta/trend.py:654 -/
def CCI.madBy (x : List F) : F := npMeanBy σ (x.map (fun v => Flt.abs (v -. npMeanBy σ x)))

/-- `CCIIndicator(...).cci()` — ta/trend.py:652-675 -/
def cciBy (high low close : Series F) (window : Nat) (constant : F) (fillna : Bool) : Series F :=
  let tp := typicalPrice high low close
  checkFillna fillna (.const (lit 0)) (sdiv (ssub tp (rollMean window (minp fillna window) tp))
    (cmul constant (rollApply (CCI.madBy σ) window (minp fillna window) tp)))

/-- the start of the three sums — ta/trend.py:731, 748, 760 -/
def ADX.wilderAtBy (x : Series F) (w : Nat) : Nat → F
  | 0 => σ ((sdropna x).take w)
  | i + 1 =>
    let prev := ADX.wilderAtBy x w i
    (prev -. (prev /. natF w)) +. ix x (w + (i + 1))

/-- ta/trend.py:730-769 -/
def ADX.wilderBy (x : Series F) (w : Nat) : Series F :=
  let len := x.length - (w - 1)
  tab len (fun i => if i = 0 then ADX.wilderAtBy σ x w 0 else if i < len - 1 then ADX.wilderAtBy σ x w i else lit 0)

/-- `_run` — ta/trend.py:718-769 -/
def ADX.runBy (high low close : Series F) (window : Nat) (fillna : Bool) : ADX F :=
  { n := close.length, window := window
    trs := ADX.wilderBy σ (ADX.range high low close) window
    dip := ADX.wilderBy σ (ADX.pos high low) window
    din := ADX.wilderBy σ (ADX.neg high low) window
    fillna := fillna }

/-- `directional_index[0 : w].mean()` — ta/trend.py:806-812 -/
def ADX.adxAtBy (dx : Series F) (w : Nat) : Nat → F
  | 0 => lit 0
  | i + 1 =>
    if i + 1 < w then lit 0
    else if i + 1 = w then npMeanBy σ (dx.take w)
    else ((ADX.adxAtBy dx w i *. natF (w - 1)) +. ix dx i) /. natF w

/-- `.adx()` — ta/trend.py:771-818 -/
def ADX.adxBy (o : ADX F) : Except PyErr (Series F) :=
  if o.trs.length ≤ o.window then .error .indexError
  else
    let dx := ADX.dx o
    .ok (checkFillna o.fillna (.const (lit 20))
      (List.replicate (o.window - 1) (lit 0) ++ tab o.trs.length (ADX.adxAtBy σ dx o.window)))

/-- `ema3.shift(1, fill_value=ema3.mean())` — ta/trend.py:269-276 -/
def TRIX.runBy (close : Series F) (window : Nat) (fillna : Bool) : Series F :=
  let ema3 := ema (ema (ema close window fillna) window fillna) window fillna
  let prev := shift ema3 1 (smeanBy σ ema3)
  mulc (sdiv (ssub ema3 prev) prev) (lit 100)

/-- the shift of the visual mode — ta/trend.py:413-417, 431-435 -/
def Ichimoku.visBy (visual : Bool) (w2 : Nat) (s : Series F) : Series F :=
  if visual then shift s w2 (smeanBy σ s) else s

/-- one `rocma*` — ta/trend.py:496-539 -/
def KST.rocmaBy (close : Series F) (r w : Nat) (fillna : Bool) : Series F :=
  let prev := shift close r (smeanBy σ close)
  rollMean w (minp fillna w) (sdiv (ssub close prev) prev)

/-- `_run` — ta/trend.py:596-603 -/
def DPO.runBy (close : Series F) (window : Nat) (fillna : Bool) : Series F :=
  ssub (shift close (window / 2 + 1) (smeanBy σ close)) (rollMean window (minp fillna window) close)

/-- `trn` — ta/trend.py:896-899 -/
def Vortex.trnBy (high low close : Series F) (window : Nat) (fillna : Bool) : Series F :=
  rollSum window (minp fillna window) (trueRange high low (shift close 1 (smeanBy σ close)))

/-! ## volatility.py -/

/-- `true_range[0 : w].mean()` — ta/volatility.py:49-54 -/
def ATR.stepBy (tr : Series F) (w : Nat) (i : Nat) (prev : F) : F :=
  if i + 1 < w then lit 0
  else if i + 1 = w then smeanBy σ (tr.take w)
  else ((prev *. natF (w - 1)) +. ix tr i) /. natF w

/-- `.average_true_range()` — ta/volatility.py:31-64 -/
def averageTrueRangeBy (high low close : Series F) (window : Nat) (fillna : Bool) : Except PyErr (Series F) :=
  if close.length < max window 1 then .error .indexError
  else .ok (checkFillna fillna (.const (lit 0))
    (if window = 0 then List.replicate close.length nan
    else tab close.length (fun i => iter (ATR.stepBy σ (trueRange high low (shift close 1)) window) (lit 0) (i + 1))))

/-- `np.sqrt((x**2 / window).sum())` — ta/volatility.py:456 -/
def Ulcer.fnBy {F : Type} [FltFn F] (σ : List F → F) (window : Nat) (x : List F) : F :=
  FltFn.sqrt (σ (x.map (fun v => (v *. v) /. natF window)))

/-- `.ulcer_index()` — ta/volatility.py:444-469 -/
def ulcerIndexBy {F : Type} [FltFn F] (σ : List F → F) (close : Series F) (window : Nat) (fillna : Bool) : Except PyErr (Series F) := do
  chkRoll window 1
  return checkFillna fillna (.const (lit 0))
    (rollApply (Ulcer.fnBy σ window) window window (Ulcer.drawdown close window))

/-! ## volume.py -/

/-- `np.sum(np.where(x >= 0.0, x, 0.0))` — ta/volume.py:399 -/
def MFI.posBy (x : List F) : F := σ (x.map (fun v => if v >=. lit 0 then v else lit 0))

/-- `np.sum(np.where(x < 0.0, x, 0.0))` — ta/volume.py:403 -/
def MFI.negBy (x : List F) : F := σ (x.map (fun v => if v <. lit 0 then v else lit 0))

/-- `.money_flow_index()` — ta/volume.py:387-421 -/
def moneyFlowIndexBy (high low close volume : Series F) (window : Nat) (fillna : Bool) : Series F :=
  let mfr := MFI.flow high low close volume
  let p := rollApply (MFI.posBy σ) window (minp fillna window) mfr
  let n := sabs (rollApply (MFI.negBy σ) window (minp fillna window) mfr)
  checkFillna fillna (.const (lit 50)) (csub (lit 100) (cdiv (lit 100) (cadd (lit 1) (sdiv p n))))

end TA
