import Verif.Model.Volatility

/-! # `AverageTrueRange` on rows labelled by floats

`true_range[0 : self._window]` (ta/volatility.py:50) slices by position on every index but one: on a Float64Index pandas takes the bounds
of any slice as labels, both inclusive.  Labels increase; `window ≥ 1`. -/

namespace TA
variable {F : Type} [Flt F]

/-- `s[0 : w]` on a Float64Index: the rows whose label is between 0 and `w` -/
def floatSlice (labels : List ℚ) (w : Nat) (s : Series F) : Series F :=
  ((labels.zip s).filter (fun p => 0 ≤ p.1 ∧ p.1 ≤ (w : ℚ))).map Prod.snd

/-- the array `atr`, row by row, with the given first value — ta/volatility.py:49-54 -/
def ATR.stepFrom (seed : F) (tr : Series F) (w : Nat) (i : Nat) (prev : F) : F :=
  if i + 1 < w then lit 0
  else if i + 1 = w then seed
  else ((prev *. natF (w - 1)) +. ix tr i) /. natF w

/-- `_run` — ta/volatility.py:46-55 -/
def ATR.runF (labels : List ℚ) (high low close : Series F) (window : Nat) : Series F :=
  let tr := trueRange high low (shift close 1)
  tab close.length (fun i => iter (ATR.stepFrom (smean (floatSlice labels window tr)) tr window) (lit 0) (i + 1))

/-- `.average_true_range()` — ta/volatility.py:31-64 -/
def averageTrueRangeF (labels : List ℚ) (high low close : Series F) (window : Nat) (fillna : Bool) : Except PyErr (Series F) :=
  if close.length < max window 1 then .error .indexError
  else .ok (checkFillna fillna (.const (lit 0)) (ATR.runF labels high low close window))

/-- `KeltnerChannel(original_version=False)` — ta/volatility.py:205-256 -/
def Keltner.newF (labels : List ℚ) (high low close : Series F) (window windowAtr : Nat) (fillna : Bool) (multiplier : F) :
    Except PyErr (Keltner F) := do
  chkSpan window
  let atr ← averageTrueRangeF labels high low close windowAtr fillna
  return Keltner.runAtr close atr window fillna multiplier

end TA
