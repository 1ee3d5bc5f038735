import Verif.Model.Volume

/-! # Model of `/repo/ta/volatility.py` -/

namespace TA
variable {F : Type} [Flt F]

/-! ## AverageTrueRange — ta/volatility.py:14-64 -/

/-- the array `atr`, row by row (`w ≥ 1`) — ta/volatility.py:49-54 -/
def ATR.step (tr : Series F) (w : Nat) (i : Nat) (prev : F) : F :=
  if i + 1 < w then lit 0
  else if i + 1 = w then smean (tr.take w)
  else ((prev *. natF (w - 1)) +. ix tr i) /. natF w

/-- `_run` — ta/volatility.py:46-55.  For `window = 0` the seed `mean([])` goes to `atr[-1]`, from where the
recurrence makes every row NaN. -/
def ATR.run (high low close : Series F) (window : Nat) : Series F :=
  let tr := trueRange high low (shift close 1)
  if window = 0 then List.replicate close.length nan
  else tab close.length (fun i => iter (ATR.step tr window) (lit 0) (i + 1))

/-- `.average_true_range()` — ta/volatility.py:31-64; `atr[window - 1]` raises IndexError when there are fewer
than `window` rows (for `window = 0`: when there is no row). -/
def averageTrueRange (high low close : Series F) (window : Nat := 14) (fillna : Bool := false) :
    Except PyErr (Series F) :=
  if close.length < max window 1 then .error .indexError
  else .ok (checkFillna fillna (.const (lit 0)) (ATR.run high low close window))

/-! ## BollingerBands — ta/volatility.py:67-180 -/

/-- The object after `_run`. -/
structure BB (F : Type) where
  close : Series F
  mavg : Series F
  hband : Series F
  lband : Series F
  fillna : Bool

/-- constructor — ta/volatility.py:79-99 -/
def BB.new {F : Type} [FltFn F] (close : Series F) (window : Nat := 20) (dev : F := lit 2)
    (fillna : Bool := false) : BB F :=
  let mavg := rollMean window (minp fillna window) close
  let mstd := rollStd window (minp fillna window) close
  { close := close, mavg := mavg, hband := sadd mavg (cmul dev mstd), lband := ssub mavg (cmul dev mstd)
    fillna := fillna }

/-- `np.where(a > b, 1.0, 0.0)` — ta/volatility.py:163, 314 -/
def gtFlag (a b : Series F) : Series F := zip2 (fun x y => if x >. y then lit 1 else lit 0) a b
/-- `np.where(a < b, 1.0, 0.0)` — ta/volatility.py:177, 328 -/
def ltFlag (a b : Series F) : Series F := zip2 (fun x y => if x <. y then lit 1 else lit 0) a b

/-- `.bollinger_mavg()` — ta/volatility.py:101-108 -/
def BB.bollingerMavg (o : BB F) : Series F := checkFillna o.fillna .back o.mavg
/-- `.bollinger_hband()` — ta/volatility.py:110-117 -/
def BB.bollingerHband (o : BB F) : Series F := checkFillna o.fillna .back o.hband
/-- `.bollinger_lband()` — ta/volatility.py:119-126 -/
def BB.bollingerLband (o : BB F) : Series F := checkFillna o.fillna .back o.lband
/-- `.bollinger_wband()` — ta/volatility.py:128-138 -/
def BB.bollingerWband (o : BB F) : Series F :=
  checkFillna o.fillna (.const (lit 0)) (mulc (sdiv (ssub o.hband o.lband) o.mavg) (lit 100))
/-- `.bollinger_pband()` — ta/volatility.py:140-152 -/
def BB.bollingerPband (o : BB F) : Series F :=
  checkFillna o.fillna (.const (lit 0))
    (sdiv (ssub o.close o.lband)
      (zip2 (fun h l => if h !=. l then h -. l else nan) o.hband o.lband))
/-- `.bollinger_hband_indicator()` — ta/volatility.py:154-166 -/
def BB.bollingerHbandIndicator (o : BB F) : Series F :=
  checkFillna o.fillna (.const (lit 0)) (gtFlag o.close o.hband)
/-- `.bollinger_lband_indicator()` — ta/volatility.py:168-180 -/
def BB.bollingerLbandIndicator (o : BB F) : Series F :=
  checkFillna o.fillna (.const (lit 0)) (ltFlag o.close o.lband)

/-! ## KeltnerChannel — ta/volatility.py:183-331 -/

/-- The object after `_run`. -/
structure Keltner (F : Type) where
  close : Series F
  tp : Series F
  tpHigh : Series F
  tpLow : Series F
  fillna : Bool

/-- `_run`, original version — ta/volatility.py:227-243 -/
def Keltner.runOriginal (high low close : Series F) (window : Nat) (fillna : Bool) : Keltner F :=
  { close := close
    tp := rollMean window (if fillna then 1 else window) (typicalPrice high low close)
    tpHigh := rollMean window 0
      (divc (sadd (ssub (cmul (lit 4) high) (cmul (lit 2) low)) close) (lit 3))
    tpLow := rollMean window 0
      (divc (sadd (sadd (cmul (lit (-2)) high) (cmul (lit 4) low)) close) (lit 3))
    fillna := fillna }

/-- `_run`, EMA/ATR version, given the ATR series — ta/volatility.py:245-256 -/
def Keltner.runAtr (close atr : Series F) (window : Nat) (fillna : Bool) (multiplier : F) : Keltner F :=
  let tp := ewm (alphaOfSpan window) (if fillna then 1 else window) close
  { close := close, tp := tp
    tpHigh := sadd tp (cmul multiplier atr)
    tpLow := ssub tp (cmul multiplier atr)
    fillna := fillna }

/-- constructor — ta/volatility.py:205-256 -/
def Keltner.new (high low close : Series F) (window : Nat := 20) (windowAtr : Nat := 10)
    (fillna : Bool := false) (original : Bool := true) (multiplier : F := lit 2) : Except PyErr (Keltner F) :=
  if original then do
    chkRoll window (if fillna then 1 else window)
    return Keltner.runOriginal high low close window fillna
  else do
    chkSpan window
    let atr ← averageTrueRange high low close windowAtr fillna
    return Keltner.runAtr close atr window fillna multiplier

/-- `.keltner_channel_mband()` — ta/volatility.py:258-265 -/
def Keltner.mband (o : Keltner F) : Series F := checkFillna o.fillna .back o.tp
/-- `.keltner_channel_hband()` — ta/volatility.py:267-274 -/
def Keltner.hband (o : Keltner F) : Series F := checkFillna o.fillna .back o.tpHigh
/-- `.keltner_channel_lband()` — ta/volatility.py:276-283 -/
def Keltner.lband (o : Keltner F) : Series F := checkFillna o.fillna .back o.tpLow
/-- `.keltner_channel_wband()` — ta/volatility.py:285-293 -/
def Keltner.wband (o : Keltner F) : Series F :=
  checkFillna o.fillna (.const (lit 0)) (mulc (sdiv (ssub o.tpHigh o.tpLow) o.tp) (lit 100))
/-- `.keltner_channel_pband()` — ta/volatility.py:295-303 -/
def Keltner.pband (o : Keltner F) : Series F :=
  checkFillna o.fillna (.const (lit 0)) (sdiv (ssub o.close o.tpLow) (ssub o.tpHigh o.tpLow))
/-- `.keltner_channel_hband_indicator()` — ta/volatility.py:305-317 -/
def Keltner.hbandIndicator (o : Keltner F) : Series F :=
  checkFillna o.fillna (.const (lit 0)) (gtFlag o.close o.tpHigh)
/-- `.keltner_channel_lband_indicator()` — ta/volatility.py:319-331 -/
def Keltner.lbandIndicator (o : Keltner F) : Series F :=
  checkFillna o.fillna (.const (lit 0)) (ltFlag o.close o.tpLow)

/-! ## DonchianChannel — ta/volatility.py:334-430 -/

/-- The object after `_run`. -/
structure Donchian (F : Type) where
  close : Series F
  hb : Series F
  lb : Series F
  window : Nat
  minPeriods : Nat
  offset : Int
  fillna : Bool

/-- constructor — ta/volatility.py:347-371 -/
def Donchian.new (high low close : Series F) (window : Nat := 20) (offset : Int := 0)
    (fillna : Bool := false) : Except PyErr (Donchian F) := do
  let mp := if fillna then 1 else window
  chkRoll window mp
  return { close := close, hb := rollMax window mp high, lb := rollMin window mp low
           window := window, minPeriods := mp, offset := offset, fillna := fillna }

/-- `if self._offset != 0: x = x.shift(self._offset)` — ta/volatility.py:380-381 and alike -/
def Donchian.off (o : Donchian F) (s : Series F) : Series F :=
  if o.offset ≠ 0 then shiftInt s o.offset else s

/-- `.donchian_channel_hband()` — ta/volatility.py:373-382 -/
def Donchian.hband (o : Donchian F) : Series F := o.off (checkFillna o.fillna .back o.hb)
/-- `.donchian_channel_lband()` — ta/volatility.py:384-393 -/
def Donchian.lband (o : Donchian F) : Series F := o.off (checkFillna o.fillna .back o.lb)
/-- `.donchian_channel_mband()` — ta/volatility.py:395-405 -/
def Donchian.mband (o : Donchian F) : Series F :=
  o.off (checkFillna o.fillna .back (sadd (divc (ssub o.hb o.lb) (lit 2)) o.lb))
/-- `.donchian_channel_wband()` — ta/volatility.py:407-418 -/
def Donchian.wband (o : Donchian F) : Series F :=
  o.off (checkFillna o.fillna (.const (lit 0))
    (mulc (sdiv (ssub o.hb o.lb) (rollMean o.window o.minPeriods o.close)) (lit 100)))
/-- `.donchian_channel_pband()` — ta/volatility.py:420-430 -/
def Donchian.pband (o : Donchian F) : Series F :=
  o.off (checkFillna o.fillna (.const (lit 0)) (sdiv (ssub o.close o.lb) (ssub o.hb o.lb)))

/-! ## UlcerIndex — ta/volatility.py:433-469 -/

/-- `_r_i` — ta/volatility.py:451-452 -/
def Ulcer.drawdown (close : Series F) (window : Nat) : Series F :=
  let mx := rollMax window 1 close
  sdiv (cmul (lit 100) (ssub close mx)) mx

/-- `np.sqrt((x**2 / window).sum())` — ta/volatility.py:456 -/
def Ulcer.fn {F : Type} [FltFn F] (window : Nat) (x : List F) : F :=
  FltFn.sqrt (sumL (x.map (fun v => (v *. v) /. natF window)))

/-- `.ulcer_index()` — ta/volatility.py:444-469; `rolling(0, min_periods=1)` raises ValueError -/
def ulcerIndex {F : Type} [FltFn F] (close : Series F) (window : Nat := 14) (fillna : Bool := false) :
    Except PyErr (Series F) := do
  chkRoll window 1
  return checkFillna fillna (.const (lit 0))
    (rollApply (Ulcer.fn window) window window (Ulcer.drawdown close window))

end TA
