import Verif.Model.Utils

/-! # Model of `/repo/ta/volume.py` -/

namespace TA
variable {F : Type} [Flt F]

/-- close location value, `((close - low) - (high - close)) / (high - low)` with `.fillna(0.0)` —
ta/volume.py:48-51 and 133-136 -/
def clv (high low close : Series F) : Series F :=
  fillConst (lit 0) (sdiv (ssub (ssub close low) (ssub high close)) (ssub high low))

/-! ## AccDistIndexIndicator — ta/volume.py:17-62 -/

/-- `_run` — ta/volume.py:47-53 -/
def ADI.run (high low close volume : Series F) : Series F :=
  cumsum (smul (clv high low close) volume)

/-- `.acc_dist_index()` — ta/volume.py:55-62 -/
def accDistIndex (high low close volume : Series F) (fillna : Bool := false) : Series F :=
  checkFillna fillna (.const (lit 0)) (ADI.run high low close volume)

/-! ## OnBalanceVolumeIndicator — ta/volume.py:65-96 -/

/-- signed volume — ta/volume.py:86 -/
def OBV.signed (close volume : Series F) : Series F :=
  zip3 (fun c pc v => if c <. pc then Flt.neg v else v) close (shift close 1) volume

/-- `_run` — ta/volume.py:85-87 -/
def OBV.run (close volume : Series F) : Series F := cumsum (OBV.signed close volume)

/-- `.on_balance_volume()` — ta/volume.py:89-96 -/
def onBalanceVolume (close volume : Series F) (fillna : Bool := false) : Series F :=
  checkFillna fillna (.const (lit 0)) (OBV.run close volume)

/-! ## ChaikinMoneyFlowIndicator — ta/volume.py:99-151 -/

/-- `_run` — ta/volume.py:132-142 -/
def CMF.run (high low close volume : Series F) (window : Nat) (fillna : Bool) : Series F :=
  sdiv (rollSum window (minp fillna window) (smul (clv high low close) volume))
    (rollSum window (minp fillna window) volume)

/-- `.chaikin_money_flow()` — ta/volume.py:144-151 -/
def chaikinMoneyFlow (high low close volume : Series F) (window : Nat := 20) (fillna : Bool := false) :
    Series F :=
  checkFillna fillna (.const (lit 0)) (CMF.run high low close volume window fillna)

/-! ## ForceIndexIndicator — ta/volume.py:154-194 -/

/-- `_run` — ta/volume.py:183-185 -/
def FI.run (close volume : Series F) (window : Nat) (fillna : Bool) : Series F :=
  ema (smul (ssub close (shift close 1)) volume) window fillna

/-- `.force_index()` — ta/volume.py:170-194 -/
def forceIndex (close volume : Series F) (window : Nat := 13) (fillna : Bool := false) :
    Except PyErr (Series F) := do
  chkSpan window
  return checkFillna fillna (.const (lit 0)) (FI.run close volume window fillna)

/-! ## EaseOfMovementIndicator — ta/volume.py:197-254 -/

/-- `_run` — ta/volume.py:228-234 -/
def EOM.run (high low volume : Series F) : Series F :=
  mulc (sdiv (smul (sadd (sdiff high) (sdiff low)) (ssub high low)) (cmul (lit 2) volume)) (lit 100000000)

/-- `.ease_of_movement()` — ta/volume.py:236-243 -/
def easeOfMovement (high low volume : Series F) (fillna : Bool := false) : Series F :=
  checkFillna fillna (.const (lit 0)) (EOM.run high low volume)

/-- `.sma_ease_of_movement()` — ta/volume.py:245-254 -/
def smaEaseOfMovement (high low volume : Series F) (window : Nat := 14) (fillna : Bool := false) : Series F :=
  checkFillna fillna (.const (lit 0)) (rollMean window (minp fillna window) (EOM.run high low volume))

/-! ## VolumePriceTrendIndicator — ta/volume.py:257-306 -/

/-- `_run` without `dropnans` — ta/volume.py:290-295 (a smoothing factor of 0 is falsy, hence off) -/
def VPT.run (close volume : Series F) (smoothing : Option Nat) (fillna : Bool) : Series F :=
  let vpt := cumsum (smul (pctChange close) volume)
  match smoothing with
  | none => vpt
  | some 0 => vpt
  | some (k + 1) => rollMean (k + 1) (minp fillna (k + 1)) vpt

/-- `.volume_price_trend()` — ta/volume.py:289-306 -/
def volumePriceTrend (close volume : Series F) (fillna : Bool := false) (smoothing : Option Nat := none)
    (dropnans : Bool := false) : Series F :=
  let vpt := VPT.run close volume smoothing fillna
  checkFillna fillna (.const (lit 0)) (if dropnans then sdropna vpt else vpt)

/-! ## NegativeVolumeIndexIndicator — ta/volume.py:309-347 -/

/-- loop body — ta/volume.py:332-337 (row 0 is the assignment `self._nvi.iloc[0] = 1000`) -/
def NVI.step (close volume : Series F) (i : Nat) (prev : F) : F :=
  if i = 0 then lit 1000
  else if ix volume (i - 1) >. ix volume i then prev *. (lit 1 +. ix (pctChange close) i)
  else prev

/-- `_run` — ta/volume.py:326-337 -/
def NVI.run (close volume : Series F) : Series F :=
  tab close.length (fun i => iter (NVI.step close volume) nan (i + 1))

/-- `.negative_volume_index()` — ta/volume.py:320-347; `iloc[0]` raises IndexError on empty input. -/
def negativeVolumeIndex (close volume : Series F) (fillna : Bool := false) : Except PyErr (Series F) :=
  if close.length = 0 then .error .indexError
  else .ok (checkFillna fillna (.const (lit 1000)) (NVI.run close volume))

/-! ## MFIIndicator — ta/volume.py:350-421 -/

/-- `(high + low + close) / 3.0` — ta/volume.py:388, 466; ta/trend.py:657; ta/volatility.py:230 -/
def typicalPrice (high low close : Series F) : Series F := divc (sadd (sadd high low) close) (lit 3)

/-- `mfr` — ta/volume.py:388-394 -/
def MFI.flow (high low close volume : Series F) : Series F :=
  let tp := typicalPrice high low close
  let upDown := zip2 (fun t p => if t >. p then lit 1 else if t <. p then lit (-1) else lit 0) tp (shift tp 1)
  smul (smul tp volume) upDown

/-- `np.sum(np.where(x >= 0.0, x, 0.0))` — ta/volume.py:399 -/
def MFI.pos (x : List F) : F := sumL (x.map (fun v => if v >=. lit 0 then v else lit 0))

/-- `np.sum(np.where(x < 0.0, x, 0.0))` — ta/volume.py:403 -/
def MFI.neg (x : List F) : F := sumL (x.map (fun v => if v <. lit 0 then v else lit 0))

/-- `_run` — ta/volume.py:387-412 -/
def MFI.run (high low close volume : Series F) (window : Nat) (fillna : Bool) : Series F :=
  let mfr := MFI.flow high low close volume
  let p := rollApply MFI.pos window (minp fillna window) mfr
  let n := sabs (rollApply MFI.neg window (minp fillna window) mfr)
  csub (lit 100) (cdiv (lit 100) (cadd (lit 1) (sdiv p n)))

/-- `.money_flow_index()` — ta/volume.py:414-421 -/
def moneyFlowIndex (high low close volume : Series F) (window : Nat := 14) (fillna : Bool := false) :
    Series F :=
  checkFillna fillna (.const (lit 50)) (MFI.run high low close volume window fillna)

/-! ## VolumeWeightedAveragePrice — ta/volume.py:424-489 -/

/-- `_run` — ta/volume.py:464-480 -/
def VWAP.run (high low close volume : Series F) (window : Nat) (fillna : Bool) : Series F :=
  let tpv := smul (typicalPrice high low close) volume
  sdiv (rollSum window (minp fillna window) tpv) (rollSum window (minp fillna window) volume)

/-- `.volume_weighted_average_price()` — ta/volume.py:482-489 -/
def volumeWeightedAveragePrice (high low close volume : Series F) (window : Nat := 14)
    (fillna : Bool := false) : Series F :=
  checkFillna fillna (.const (lit 0)) (VWAP.run high low close volume window fillna)

end TA
