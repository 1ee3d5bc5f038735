import Verif.Model.Volume

/-! # Model of `/repo/ta/trend.py` (ADX in `Model/Adx.lean`, PSAR in `Model/Psar.lean`) -/

namespace TA
variable {F : Type} [Flt F]

/-! ## AroonIndicator — ta/trend.py:14-81 -/

/-- The object after `_run`. -/
structure Aroon (F : Type) where
  up : Series F
  down : Series F
  fillna : Bool

/-- `_run` — ta/trend.py:41-53 -/
def Aroon.run (high low : Series F) (window : Nat) (fillna : Bool) : Aroon F :=
  let mp := if fillna then 1 else window + 1
  { up := rollApply (fun x => natF (argmax x) /. natF window *. lit 100) (window + 1) mp high
    down := rollApply (fun x => natF (argmin x) /. natF window *. lit 100) (window + 1) mp low
    fillna := fillna }

/-- constructor — ta/trend.py:32-53.  With `window = 0` the lambda divides a Python float by zero as soon as it
is called, i.e. as soon as one row has an observation. -/
def Aroon.new (high low : Series F) (window : Nat := 25) (fillna : Bool := false) :
    Except PyErr (Aroon F) :=
  if window = 0 ∧ 0 < (valid (replaceInf high)).length + (valid (replaceInf low)).length
  then .error .zeroDivision
  else .ok (Aroon.run high low window fillna)

/-- `.aroon_up()` — ta/trend.py:55-62 -/
def Aroon.aroonUp (o : Aroon F) : Series F := checkFillna o.fillna (.const (lit 0)) o.up
/-- `.aroon_down()` — ta/trend.py:64-71 -/
def Aroon.aroonDown (o : Aroon F) : Series F := checkFillna o.fillna (.const (lit 0)) o.down
/-- `.aroon_indicator()` — ta/trend.py:73-81 -/
def Aroon.aroonIndicator (o : Aroon F) : Series F :=
  checkFillna o.fillna (.const (lit 0)) (ssub o.up o.down)

/-! ## MACD — ta/trend.py:84-155 -/

/-- The object after `_run`. -/
structure MACD (F : Type) where
  line : Series F
  signal : Series F
  diff : Series F
  fillna : Bool

/-- `_run` — ta/trend.py:115-120 -/
def MACD.run (close : Series F) (slow fast sign : Nat) (fillna : Bool) : MACD F :=
  let emafast := ema close fast fillna
  let emaslow := ema close slow fillna
  let line := ssub emafast emaslow
  let signal := ema line sign fillna
  { line := line, signal := signal, diff := ssub line signal, fillna := fillna }

/-- constructor — ta/trend.py:100-120 -/
def MACD.new (close : Series F) (slow : Nat := 26) (fast : Nat := 12) (sign : Nat := 9)
    (fillna : Bool := false) : Except PyErr (MACD F) := do
  chkSpan fast; chkSpan slow; chkSpan sign
  return MACD.run close slow fast sign fillna

/-- `.macd()` — ta/trend.py:122-131 -/
def MACD.macd (o : MACD F) : Series F := checkFillna o.fillna (.const (lit 0)) o.line
/-- `.macd_signal()` — ta/trend.py:133-144 -/
def MACD.macdSignal (o : MACD F) : Series F := checkFillna o.fillna (.const (lit 0)) o.signal
/-- `.macd_diff()` — ta/trend.py:146-155 -/
def MACD.macdDiff (o : MACD F) : Series F := checkFillna o.fillna (.const (lit 0)) o.diff

/-! ## EMA, SMA, WMA — ta/trend.py:158-246 -/

/-- `EMAIndicator(...).ema_indicator()` — ta/trend.py:167-179 -/
def emaIndicator (close : Series F) (window : Nat := 14) (fillna : Bool := false) :
    Except PyErr (Series F) := do
  chkSpan window
  return ema close window fillna

/-- `SMAIndicator(...).sma_indicator()` — ta/trend.py:191-203 -/
def smaIndicator (close : Series F) (window : Nat) (fillna : Bool := false) : Series F :=
  sma close window fillna

/-- `(weight * x).sum()` with `weight[i] = (i+1)*2/(w*(w+1))` — ta/trend.py:222-231 -/
def WMA.avg (w : Nat) (x : List F) : F :=
  sumL (tab x.length (fun j => (natF ((j + 1) * 2) /. natF (w * (w + 1))) *. ix x j))

/-- `WMAIndicator(...).wma()` — ta/trend.py:215-246 -/
def wma (close : Series F) (window : Nat := 9) (fillna : Bool := false) : Series F :=
  checkFillna fillna (.const (lit 0)) (rollApply (WMA.avg window) window window close)

/-! ## TRIXIndicator — ta/trend.py:249-285 -/

/-- `_run` — ta/trend.py:269-276 -/
def TRIX.run (close : Series F) (window : Nat) (fillna : Bool) : Series F :=
  let ema3 := ema (ema (ema close window fillna) window fillna) window fillna
  let prev := shift ema3 1 (smean ema3)
  mulc (sdiv (ssub ema3 prev) prev) (lit 100)

/-- `.trix()` — ta/trend.py:263-285 -/
def trix (close : Series F) (window : Nat := 15) (fillna : Bool := false) : Except PyErr (Series F) := do
  chkSpan window
  return checkFillna fillna (.const (lit 0)) (TRIX.run close window fillna)

/-! ## MassIndex — ta/trend.py:288-337 -/

/-- `_run` — ta/trend.py:320-326 -/
def Mass.run (high low : Series F) (fast slow : Nat) (fillna : Bool) : Series F :=
  let ema1 := ema (ssub high low) fast fillna
  let ema2 := ema ema1 fast fillna
  rollSum slow (minp fillna slow) (sdiv ema1 ema2)

/-- `.mass_index()` — ta/trend.py:305-337 -/
def massIndex (high low : Series F) (fast : Nat := 9) (slow : Nat := 25) (fillna : Bool := false) :
    Except PyErr (Series F) := do
  chkSpan fast
  return checkFillna fillna (.const (lit 0)) (Mass.run high low fast slow fillna)

/-! ## IchimokuIndicator — ta/trend.py:340-437 -/

/-- `0.5 * (high.rolling(w).max() + low.rolling(w).min())` — ta/trend.py:377-384, 427-430 -/
def Ichimoku.mid (high low : Series F) (w mp : Nat) : Series F :=
  cmul (lit (1/2)) (sadd (rollMax w mp high) (rollMin w mp low))

/-- `.ichimoku_conversion_line()` — ta/trend.py:377-380, 386-395 -/
def ichimokuConversionLine (high low : Series F) (w1 : Nat := 9) (fillna : Bool := false) : Series F :=
  checkFillna fillna .back (Ichimoku.mid high low w1 (minp fillna w1))

/-- `.ichimoku_base_line()` — ta/trend.py:381-384, 397-404 -/
def ichimokuBaseLine (high low : Series F) (w2 : Nat := 26) (fillna : Bool := false) : Series F :=
  checkFillna fillna .back (Ichimoku.mid high low w2 (minp fillna w2))

/-- `spana` before the optional shift — ta/trend.py:412 -/
def Ichimoku.spanA (high low : Series F) (w1 w2 : Nat) (fillna : Bool) : Series F :=
  cmul (lit (1/2)) (sadd (Ichimoku.mid high low w1 (minp fillna w1)) (Ichimoku.mid high low w2 (minp fillna w2)))

/-- the shift of the visual mode — ta/trend.py:413-417, 431-435 -/
def Ichimoku.vis (visual : Bool) (w2 : Nat) (s : Series F) : Series F :=
  if visual then shift s w2 (smean s) else s

/-- `.ichimoku_a()` — ta/trend.py:406-419 -/
def ichimokuA (high low : Series F) (w1 : Nat := 9) (w2 : Nat := 26) (visual : Bool := false)
    (fillna : Bool := false) : Series F :=
  checkFillna fillna .back (Ichimoku.vis visual w2 (Ichimoku.spanA high low w1 w2 fillna))

/-- `.ichimoku_b()` — ta/trend.py:421-437 -/
def ichimokuB (high low : Series F) (w2 : Nat := 26) (w3 : Nat := 52) (visual : Bool := false)
    (fillna : Bool := false) : Series F :=
  checkFillna fillna .back (Ichimoku.vis visual w2 (Ichimoku.mid high low w3 0))

/-! ## KSTIndicator — ta/trend.py:440-573 -/

/-- one `rocma*` — ta/trend.py:496-539 -/
def KST.rocma (close : Series F) (r w : Nat) (fillna : Bool) : Series F :=
  let prev := shift close r (smean close)
  rollMean w (minp fillna w) (sdiv (ssub close prev) prev)

/-- `self._kst` — ta/trend.py:540 -/
def KST.run (close : Series F) (r1 r2 r3 r4 w1 w2 w3 w4 : Nat) (fillna : Bool) : Series F :=
  cmul (lit 100) (sadd (sadd (sadd (KST.rocma close r1 w1 fillna)
    (cmul (lit 2) (KST.rocma close r2 w2 fillna)))
    (cmul (lit 3) (KST.rocma close r3 w3 fillna)))
    (cmul (lit 4) (KST.rocma close r4 w4 fillna)))

/-- `self._kst_sig` — ta/trend.py:541 -/
def KST.sig (k : Series F) (nsig : Nat) : Series F := rollMean nsig 0 k

/-- `.kst()` — ta/trend.py:543-550 -/
def kst (close : Series F) (r1 : Nat := 10) (r2 : Nat := 15) (r3 : Nat := 20) (r4 : Nat := 30)
    (w1 : Nat := 10) (w2 : Nat := 10) (w3 : Nat := 10) (w4 : Nat := 15) (fillna : Bool := false) : Series F :=
  checkFillna fillna (.const (lit 0)) (KST.run close r1 r2 r3 r4 w1 w2 w3 w4 fillna)

/-- `.kst_sig()` — ta/trend.py:552-561 -/
def kstSig (close : Series F) (r1 : Nat := 10) (r2 : Nat := 15) (r3 : Nat := 20) (r4 : Nat := 30)
    (w1 : Nat := 10) (w2 : Nat := 10) (w3 : Nat := 10) (w4 : Nat := 15) (nsig : Nat := 9)
    (fillna : Bool := false) : Series F :=
  checkFillna fillna (.const (lit 0)) (KST.sig (KST.run close r1 r2 r3 r4 w1 w2 w3 w4 fillna) nsig)

/-- `.kst_diff()` — ta/trend.py:563-573 -/
def kstDiff (close : Series F) (r1 : Nat := 10) (r2 : Nat := 15) (r3 : Nat := 20) (r4 : Nat := 30)
    (w1 : Nat := 10) (w2 : Nat := 10) (w3 : Nat := 10) (w4 : Nat := 15) (nsig : Nat := 9)
    (fillna : Bool := false) : Series F :=
  let k := KST.run close r1 r2 r3 r4 w1 w2 w3 w4 fillna
  checkFillna fillna (.const (lit 0)) (ssub k (KST.sig k nsig))

/-! ## DPOIndicator — ta/trend.py:576-612 -/

/-- `_run` — ta/trend.py:596-603; `int((0.5 * w) + 1)` is `w / 2 + 1` -/
def DPO.run (close : Series F) (window : Nat) (fillna : Bool) : Series F :=
  ssub (shift close (window / 2 + 1) (smean close)) (rollMean window (minp fillna window) close)

/-- `.dpo()` — ta/trend.py:605-612 -/
def dpo (close : Series F) (window : Nat := 20) (fillna : Bool := false) : Series F :=
  checkFillna fillna (.const (lit 0)) (DPO.run close window fillna)

/-! ## CCIIndicator — ta/trend.py:615-675 -/

/-- `_mad` — ta/trend.py:653-654 -/
def CCI.mad (x : List F) : F := npMean (x.map (fun v => Flt.abs (v -. npMean x)))

/-- `_run` — ta/trend.py:652-666 -/
def CCI.run (high low close : Series F) (window : Nat) (constant : F) (fillna : Bool) : Series F :=
  let tp := typicalPrice high low close
  sdiv (ssub tp (rollMean window (minp fillna window) tp))
    (cmul constant (rollApply CCI.mad window (minp fillna window) tp))

/-- `.cci()` — ta/trend.py:668-675 -/
def cci (high low close : Series F) (window : Nat := 20) (constant : F := lit (3/200))
    (fillna : Bool := false) : Series F :=
  checkFillna fillna (.const (lit 0)) (CCI.run high low close window constant fillna)

/-! ## VortexIndicator — ta/trend.py:863-931 -/

/-- `trn` — ta/trend.py:896-899 -/
def Vortex.trn (high low close : Series F) (window : Nat) (fillna : Bool) : Series F :=
  rollSum window (minp fillna window) (trueRange high low (shift close 1 (smean close)))

/-- `self._vip` — ta/trend.py:900, 902 -/
def Vortex.vip (high low close : Series F) (window : Nat) (fillna : Bool) : Series F :=
  sdiv (rollSum window (minp fillna window) (sabs (ssub high (shift low 1))))
    (Vortex.trn high low close window fillna)

/-- `self._vin` — ta/trend.py:901, 903 -/
def Vortex.vin (high low close : Series F) (window : Nat) (fillna : Bool) : Series F :=
  sdiv (rollSum window (minp fillna window) (sabs (ssub low (shift high 1))))
    (Vortex.trn high low close window fillna)

/-- `.vortex_indicator_pos()` — ta/trend.py:905-912 -/
def vortexPos (high low close : Series F) (window : Nat := 14) (fillna : Bool := false) : Series F :=
  checkFillna fillna (.const (lit 1)) (Vortex.vip high low close window fillna)
/-- `.vortex_indicator_neg()` — ta/trend.py:914-921 -/
def vortexNeg (high low close : Series F) (window : Nat := 14) (fillna : Bool := false) : Series F :=
  checkFillna fillna (.const (lit 1)) (Vortex.vin high low close window fillna)
/-- `.vortex_indicator_diff()` — ta/trend.py:923-931 -/
def vortexDiff (high low close : Series F) (window : Nat := 14) (fillna : Bool := false) : Series F :=
  checkFillna fillna (.const (lit 0))
    (ssub (Vortex.vip high low close window fillna) (Vortex.vin high low close window fillna))

/-! ## STCIndicator — ta/trend.py:1093-1156 -/

/-- `100 * (x - min) / (max - min)` over `cycle` rows — ta/trend.py:1139-1141, 1144-1146 -/
def STC.stochOf (x : Series F) (cycle : Nat) : Series F :=
  let lo := rollMin cycle cycle x
  let hi := rollMax cycle cycle x
  sdiv (cmul (lit 100) (ssub x lo)) (ssub hi lo)

/-- `_run` — ta/trend.py:1134-1147 -/
def STC.run (close : Series F) (slow fast cycle smooth1 smooth2 : Nat) (fillna : Bool) : Series F :=
  let macd := ssub (ema close fast fillna) (ema close slow fillna)
  let stochD := ema (STC.stochOf macd cycle) smooth1 fillna
  ema (STC.stochOf stochD cycle) smooth2 fillna

/-- `.stc()` — ta/trend.py:1115-1156 -/
def stc (close : Series F) (slow : Nat := 50) (fast : Nat := 23) (cycle : Nat := 10) (smooth1 : Nat := 3)
    (smooth2 : Nat := 3) (fillna : Bool := false) : Except PyErr (Series F) := do
  chkSpan fast; chkSpan slow; chkSpan smooth1; chkSpan smooth2
  return checkFillna fillna (.const (lit 0)) (STC.run close slow fast cycle smooth1 smooth2 fillna)

end TA
