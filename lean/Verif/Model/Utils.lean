import Verif.Base.Series

/-! # Model of `/repo/ta/utils.py` -/

namespace TA
variable {F : Type} [Flt F]

/-- The `value` argument of `_check_fillna`: a constant, the int `-1` (meaning "backfill"), or a Series
(used by KAMA only). -/
inductive Fill (F : Type) where
  | const (v : F)
  | back
  | ser (s : Series F)

/-- `IndicatorMixin._check_fillna` — ta/utils.py:19-36.  `back` is the case `value == -1`. -/
def checkFillna (fillna : Bool) (value : Fill F) (series : Series F) : Series F :=
  if fillna then
    let out := replaceInf series
    match value with
    | .back => bfill (ffill out)
    | .const v => fillConst v (ffill out)
    | .ser t => fillSer t (ffill out)
  else series

/-- `IndicatorMixin._true_range` — ta/utils.py:38-46.  The row maximum skips NaN. -/
def trueRange (high low prevClose : Series F) : Series F :=
  zip3 (fun h l pc => maxL (valid [h -. l, Flt.abs (h -. pc), Flt.abs (l -. pc)])) high low prevClose

/-- `min_periods = 0 if fillna else n`, the idiom used throughout the library. -/
def minp (fillna : Bool) (n : Nat) : Nat := if fillna then 0 else n

/-- `_sma` — ta/utils.py:59-61 -/
def sma (s : Series F) (periods : Nat) (fillna : Bool) : Series F :=
  rollMean periods (minp fillna periods) s

/-- `_ema` — ta/utils.py:64-66 (the `ValueError` for `span < 1` is raised by the callers' guards) -/
def ema (s : Series F) (periods : Nat) (fillna : Bool) : Series F :=
  ewm (alphaOfSpan periods) (minp fillna periods) s

/-- `_get_min_max(…, "max")` — ta/utils.py:69-80 -/
def getMax (a b : Series F) : Series F := zip2 npMax2 a b

/-- `_get_min_max(…, "min")` — ta/utils.py:69-80 -/
def getMin (a b : Series F) : Series F := zip2 npMin2 a b

/-- pandas raises `ValueError` when `span < 1`. -/
def chkSpan (w : Nat) : Except PyErr Unit := if w < 1 then .error .valueError else .ok ()

/-- pandas raises `ValueError` when `min_periods > window`. -/
def chkRoll (w minp : Nat) : Except PyErr Unit := if w < minp then .error .valueError else .ok ()

end TA
