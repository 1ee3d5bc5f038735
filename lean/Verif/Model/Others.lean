import Verif.Model.Utils

/-! # Model of `/repo/ta/others.py` -/

namespace TA
variable {F : Type} [Flt F]

/-- `DailyReturnIndicator._run` — ta/others.py:27-29 -/
def DR.run (close : Series F) : Series F := mulc (subc (sdiv close (shift close 1)) (lit 1)) (lit 100)

/-- `.daily_return()` — ta/others.py:31-38 -/
def dailyReturn (close : Series F) (fillna : Bool := false) : Series F :=
  checkFillna fillna (.const (lit 0)) (DR.run close)

/-- `DailyLogReturnIndicator._run` — ta/others.py:56-58 -/
def DLR.run {F : Type} [FltFn F] (close : Series F) : Series F :=
  mulc (sdiff (close.map FltFn.log)) (lit 100)

/-- `.daily_log_return()` — ta/others.py:60-67 -/
def dailyLogReturn {F : Type} [FltFn F] (close : Series F) (fillna : Bool := false) : Series F :=
  checkFillna fillna (.const (lit 0)) (DLR.run close)

/-- `CumulativeReturnIndicator._run` — ta/others.py:83-85 -/
def CR.run (close : Series F) : Series F :=
  mulc (subc (divc close (ix close 0)) (lit 1)) (lit 100)

/-- `.cumulative_return()` — ta/others.py:78-94; `close.iloc[0]` raises IndexError on an empty series. -/
def cumulativeReturn (close : Series F) (fillna : Bool := false) : Except PyErr (Series F) :=
  if close.length = 0 then .error .indexError
  else .ok (checkFillna fillna .back (CR.run close))

end TA
