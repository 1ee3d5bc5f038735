import Verif.Model.Utils

/-! # Model of `/repo/ta/momentum.py` -/

namespace TA
variable {F : Type} [Flt F]

/-! ## RSIIndicator — ta/momentum.py:14-60 -/

/-- `diff.where(diff > 0, 0.0)` — ta/momentum.py:37-38 -/
def RSI.up (close : Series F) : Series F :=
  (sdiff close).map (fun d => if d >. lit 0 then d else lit 0)

/-- `-diff.where(diff < 0, 0.0)` — ta/momentum.py:39 -/
def RSI.down (close : Series F) : Series F :=
  (sdiff close).map (fun d => Flt.neg (if d <. lit 0 then d else lit 0))

/-- `alpha=1 / self._window` — ta/momentum.py:42,45 -/
def RSI.alpha (window : Nat) : F := alphaOfAlpha (lit 1 /. natF window)

/-- `_run` — ta/momentum.py:36-51 -/
def RSI.run (close : Series F) (window : Nat) (fillna : Bool) : Series F :=
  let emaup := ewm (RSI.alpha window) (minp fillna window) (RSI.up close)
  let emadn := ewm (RSI.alpha window) (minp fillna window) (RSI.down close)
  zip2 (fun u d => if d ==. lit 0 then lit 100 else lit 100 -. (lit 100 /. (lit 1 +. u /. d))) emaup emadn

/-- `RSIIndicator(...).rsi()` — ta/momentum.py:30-60; `1 / 0` raises ZeroDivisionError. -/
def rsi (close : Series F) (window : Nat := 14) (fillna : Bool := false) : Except PyErr (Series F) :=
  if window = 0 then .error .zeroDivision
  else .ok (checkFillna fillna (.const (lit 50)) (RSI.run close window fillna))

/-! ## TSIIndicator — ta/momentum.py:63-119 -/

/-- `_run` — ta/momentum.py:90-110 -/
def TSI.run (close : Series F) (slow fast : Nat) (fillna : Bool) : Series F :=
  let diff := ssub close (shift close 1)
  let smoothed := ema (ema diff slow fillna) fast fillna
  let smoothedAbs := ema (ema (sabs diff) slow fillna) fast fillna
  mulc (sdiv smoothed smoothedAbs) (lit 100)

/-- `TSIIndicator(...).tsi()` — ta/momentum.py:77-119 -/
def tsi (close : Series F) (slow : Nat := 25) (fast : Nat := 13) (fillna : Bool := false) :
    Except PyErr (Series F) := do
  chkSpan slow; chkSpan fast
  return checkFillna fillna (.const (lit 0)) (TSI.run close slow fast fillna)

/-! ## UltimateOscillator — ta/momentum.py:122-214 -/

/-- `close - DataFrame({low, close_shift}).min(axis=1, skipna=False)` — ta/momentum.py:177-181 -/
def UO.buyingPressure (low close : Series F) : Series F :=
  ssub close (zip2 npMin2 low (shift close 1))

/-- one `avg_*` — ta/momentum.py:185-196 -/
def UO.avg (bp tr : Series F) (w : Nat) (fillna : Bool) : Series F :=
  sdiv (rollSum w (minp fillna w) bp) (rollSum w (minp fillna w) tr)

/-- `_run` — ta/momentum.py:176-205 -/
def UO.run (high low close : Series F) (w1 w2 w3 : Nat) (wt1 wt2 wt3 : F) (fillna : Bool) : Series F :=
  let tr := trueRange high low (shift close 1)
  let bp := UO.buyingPressure low close
  let avgS := UO.avg bp tr w1 fillna
  let avgM := UO.avg bp tr w2 fillna
  let avgL := UO.avg bp tr w3 fillna
  divc (cmul (lit 100) (sadd (sadd (cmul wt1 avgS) (cmul wt2 avgM)) (cmul wt3 avgL)))
    (wt1 +. wt2 +. wt3)

/-- `UltimateOscillator(...).ultimate_oscillator()` — ta/momentum.py:151-214 -/
def ultimateOscillator (high low close : Series F) (w1 : Nat := 7) (w2 : Nat := 14) (w3 : Nat := 28)
    (wt1 : F := lit 4) (wt2 : F := lit 2) (wt3 : F := lit 1) (fillna : Bool := false) : Series F :=
  checkFillna fillna (.const (lit 50)) (UO.run high low close w1 w2 w3 wt1 wt2 wt3 fillna)

/-! ## StochasticOscillator — ta/momentum.py:217-279 -/

/-- `_run` — ta/momentum.py:253-257 -/
def Stoch.k (high low close : Series F) (window : Nat) (fillna : Bool) : Series F :=
  let smin := rollMin window (minp fillna window) low
  let smax := rollMax window (minp fillna window) high
  sdiv (cmul (lit 100) (ssub close smin)) (ssub smax smin)

/-- `.stoch()` — ta/momentum.py:259-266 -/
def stoch (high low close : Series F) (window : Nat := 14) (fillna : Bool := false) : Series F :=
  checkFillna fillna (.const (lit 50)) (Stoch.k high low close window fillna)

/-- `.stoch_signal()` — ta/momentum.py:268-279 -/
def stochSignal (high low close : Series F) (window : Nat := 14) (smooth : Nat := 3)
    (fillna : Bool := false) : Series F :=
  checkFillna fillna (.const (lit 50))
    (rollMean smooth (minp fillna smooth) (Stoch.k high low close window fillna))

/-! ## KAMAIndicator — ta/momentum.py:282-359 -/

/-- `vol` — ta/momentum.py:319 -/
def KAMA.vol (close : Series F) : Series F := sabs (ssub close (npRoll close 1))

/-- `efficiency_ratio` — ta/momentum.py:321-326; `np.divide(..., where=er_den != 0)` leaves 0. -/
def KAMA.er (close : Series F) (window : Nat) (fillna : Bool) : Series F :=
  let num := sabs (ssub close (npRoll close window))
  let den := rollSum window (minp fillna window) (KAMA.vol close)
  zip2 (fun a b => if b !=. lit 0 then a /. b else lit 0) num den

/-- `smoothing_constant` — ta/momentum.py:328-334 -/
def KAMA.sc (close : Series F) (window pow1 pow2 : Nat) (fillna : Bool) : Series F :=
  (KAMA.er close window fillna).map (fun e =>
    let x := e *. ((lit 2 /. (natF pow1 +. lit 1)) -. (lit 2 /. (natF pow2 +. lit 1)))
      +. (lit 2 /. (natF pow2 +. lit 1))
    x *. x)

/-- Loop state: the last value written to `self._kama`, and `first_value`. -/
abbrev KAMA.St (F : Type) := F × Bool

/-- loop body — ta/momentum.py:340-349 -/
def KAMA.step (sc close : Series F) (i : Nat) (st : KAMA.St F) : KAMA.St F :=
  if Flt.isNaN (ix sc i) then (nan, st.2)
  else if st.2 then (ix close i, false)
  else (st.1 +. (ix sc i *. (ix close i -. st.1)), false)

/-- `_run` — ta/momentum.py:317-349 -/
def KAMA.run (close : Series F) (window pow1 pow2 : Nat) (fillna : Bool) : Series F :=
  let sc := KAMA.sc close window pow1 pow2 fillna
  tab close.length (fun i => (iter (KAMA.step sc close) (nan, true) (i + 1)).1)

/-- `.kama()` — ta/momentum.py:351-359 -/
def kama (close : Series F) (window : Nat := 10) (pow1 : Nat := 2) (pow2 : Nat := 30)
    (fillna : Bool := false) : Series F :=
  checkFillna fillna (.ser close) (KAMA.run close window pow1 pow2 fillna)

/-! ## ROCIndicator — ta/momentum.py:362-405 -/

/-- `_run` — ta/momentum.py:392-396 -/
def ROC.run (close : Series F) (window : Nat) : Series F :=
  mulc (sdiv (ssub close (shift close window)) (shift close window)) (lit 100)

/-- `.roc()` — ta/momentum.py:398-405 -/
def roc (close : Series F) (window : Nat := 12) (fillna : Bool := false) : Series F :=
  checkFillna fillna (.const (lit 0)) (ROC.run close window)

/-! ## AwesomeOscillatorIndicator — ta/momentum.py:408-473 -/

/-- `_run` — ta/momentum.py:457-464 -/
def AO.run (high low : Series F) (w1 w2 : Nat) (fillna : Bool) : Series F :=
  let median := cmul (lit (1/2)) (sadd high low)
  ssub (rollMean w1 (minp fillna w1) median) (rollMean w2 (minp fillna w2) median)

/-- `.awesome_oscillator()` — ta/momentum.py:466-473 -/
def awesomeOscillator (high low : Series F) (w1 : Nat := 5) (w2 : Nat := 34) (fillna : Bool := false) :
    Series F :=
  checkFillna fillna (.const (lit 0)) (AO.run high low w1 w2 fillna)

/-! ## WilliamsRIndicator — ta/momentum.py:476-546 -/

/-- `_run` — ta/momentum.py:529-537 -/
def WR.run (high low close : Series F) (lbp : Nat) (fillna : Bool) : Series F :=
  let hh := rollMax lbp (minp fillna lbp) high
  let ll := rollMin lbp (minp fillna lbp) low
  sdiv (cmul (lit (-100)) (ssub hh close)) (ssub hh ll)

/-- `.williams_r()` — ta/momentum.py:539-546 -/
def williamsR (high low close : Series F) (lbp : Nat := 14) (fillna : Bool := false) : Series F :=
  checkFillna fillna (.const (lit (-50))) (WR.run high low close lbp fillna)

/-! ## StochRSIIndicator — ta/momentum.py:549-619 -/

/-- `_stochrsi` from the RSI series — ta/momentum.py:587-590 -/
def StochRSI.ofRsi (r : Series F) (window : Nat) : Series F :=
  let lo := rollMin window window r
  sdiv (ssub r lo) (ssub (rollMax window window r) lo)

/-- The object after `_run`: `_stochrsi`, `_stochrsi_k` and the smoothing of `%d` — ta/momentum.py:568-591 -/
structure StochRSI (F : Type) where
  raw : Series F
  k : Series F
  smooth2 : Nat
  fillna : Bool

/-- constructor — ta/momentum.py:568-591 -/
def StochRSI.new (close : Series F) (window : Nat := 14) (smooth1 : Nat := 3) (smooth2 : Nat := 3)
    (fillna : Bool := false) : Except PyErr (StochRSI F) := do
  let r ← rsi close window fillna
  let raw := StochRSI.ofRsi r window
  return { raw := raw, k := rollMean smooth1 smooth1 raw, smooth2 := smooth2, fillna := fillna }

/-- `.stochrsi()` — ta/momentum.py:593-600 -/
def StochRSI.stochrsi (o : StochRSI F) : Series F := checkFillna o.fillna (.const (lit 0)) o.raw
/-- `.stochrsi_k()` — ta/momentum.py:602-609 -/
def StochRSI.stochrsiK (o : StochRSI F) : Series F := checkFillna o.fillna (.const (lit 0)) o.k
/-- `.stochrsi_d()` — ta/momentum.py:611-619 -/
def StochRSI.stochrsiD (o : StochRSI F) : Series F :=
  checkFillna o.fillna (.const (lit 0)) (rollMean o.smooth2 o.smooth2 o.k)

/-! ## PercentagePriceOscillator / PercentageVolumeOscillator — ta/momentum.py:622-766

The two classes have the same body, applied to close and to volume respectively. -/

/-- The object after `_run`. -/
structure PPO (F : Type) where
  line : Series F
  signal : Series F
  hist : Series F
  fillna : Bool

/-- `_run` — ta/momentum.py:652-657 and 726-731 -/
def PPO.run (x : Series F) (slow fast sign : Nat) (fillna : Bool) : PPO F :=
  let emafast := ema x fast fillna
  let emaslow := ema x slow fillna
  let line := mulc (sdiv (ssub emafast emaslow) emaslow) (lit 100)
  let signal := ema line sign fillna
  { line := line, signal := signal, hist := ssub line signal, fillna := fillna }

/-- constructor — ta/momentum.py:637-657, 711-731 -/
def PPO.new (x : Series F) (slow : Nat := 26) (fast : Nat := 12) (sign : Nat := 9) (fillna : Bool := false) :
    Except PyErr (PPO F) := do
  chkSpan fast; chkSpan slow; chkSpan sign
  return PPO.run x slow fast sign fillna

/-- `.ppo()` / `.pvo()` — ta/momentum.py:659-668, 733-742 -/
def PPO.ppo (o : PPO F) : Series F := checkFillna o.fillna (.const (lit 0)) o.line
/-- `.ppo_signal()` / `.pvo_signal()` — ta/momentum.py:670-680, 744-754 -/
def PPO.ppoSignal (o : PPO F) : Series F := checkFillna o.fillna (.const (lit 0)) o.signal
/-- `.ppo_hist()` / `.pvo_hist()` — ta/momentum.py:682-692, 756-766 -/
def PPO.ppoHist (o : PPO F) : Series F := checkFillna o.fillna (.const (lit 0)) o.hist

end TA
