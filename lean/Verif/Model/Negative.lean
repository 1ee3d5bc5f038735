import Verif.Model.Momentum
import Verif.Model.Trend
import Verif.Model.Volatility

/-! # Negative windows

`rolling` and `ewm` raise ValueError on a negative window.  Three classes do not use them, or not for all their windows, and check nothing
themselves: `ROCIndicator`, the four lags of `KSTIndicator` and `AverageTrueRange`.  Here their windows are integers. -/

namespace TA
variable {F : Type} [Flt F]

/-- an integer as a float -/
def intF (z : Int) : F := lit (z : Rat)

/-- `Series.shift(k, fill_value=v)` for any integer `k` -/
def shiftZ (s : Series F) (k : Int) (v : F := nan) : Series F :=
  tab s.length fun i => if 0 ≤ (i : Int) - k ∧ (i : Int) - k < s.length then ix s ((i : Int) - k).toNat else v

/-- `ROCIndicator(...).roc()` — ta/momentum.py:392-405 -/
def rocZ (close : Series F) (window : Int) (fillna : Bool) : Series F :=
  checkFillna fillna (.const (lit 0))
    (mulc (sdiv (ssub close (shiftZ close window)) (shiftZ close window)) (lit 100))

/-- one `rocma*` — ta/trend.py:496-539 -/
def KST.rocmaZ (close : Series F) (r : Int) (w : Nat) (fillna : Bool) : Series F :=
  let prev := shiftZ close r (smean close)
  rollMean w (minp fillna w) (sdiv (ssub close prev) prev)

/-- `KSTIndicator(...).kst()` — ta/trend.py:491-550 -/
def kstZ (close : Series F) (r1 r2 r3 r4 : Int) (w1 w2 w3 w4 : Nat) (fillna : Bool) : Series F :=
  checkFillna fillna (.const (lit 0)) (cmul (lit 100) (sadd (sadd (sadd (KST.rocmaZ close r1 w1 fillna)
    (cmul (lit 2) (KST.rocmaZ close r2 w2 fillna)))
    (cmul (lit 3) (KST.rocmaZ close r3 w3 fillna)))
    (cmul (lit 4) (KST.rocmaZ close r4 w4 fillna))))

/-- position of the subscript `i` in a sequence of `n` items; negative subscripts count from the end -/
def pyAt (n : Nat) (i : Int) : Option Nat :=
  if 0 ≤ i then (if i < n then some i.toNat else none) else if 0 ≤ n + i then some (n + i).toNat else none

/-- `a[i]` -/
def getAt (a : List F) (i : Int) : Except PyErr F :=
  match pyAt a.length i with
  | none => .error .indexError
  | some k => .ok (ix a k)

/-- `a[i] = x` -/
def setAt (a : List F) (i : Int) (x : F) : Except PyErr (List F) :=
  match pyAt a.length i with
  | none => .error .indexError
  | some k => .ok (a.set k x)

/-- `a[0:stop]` -/
def sliceTo (a : List F) (stop : Int) : List F := if 0 ≤ stop then a.take stop.toNat else a.take (a.length + stop).toNat

/-- `range(a, b)` -/
def pyRange (a b : Int) : List Int := tab (b - a).toNat fun j => a + (j : Int)

/-- the body of the loop — ta/volatility.py:51-54 -/
def ATR.body (tr : List F) (window : Int) (atr : List F) (i : Int) : Except PyErr (List F) := do
  let x ← getAt atr (i - 1)
  let t ← getAt tr i
  setAt atr i (((x *. intF (window - 1)) +. t) /. intF window)

/-- `AverageTrueRange(...).average_true_range()`, statement by statement — ta/volatility.py:46-64 -/
def atrZ (high low close : Series F) (window : Int) (fillna : Bool) : Except PyErr (Series F) := do
  let tr := trueRange high low (shift close 1)
  let atr := List.replicate close.length (lit 0)
  let atr ← setAt atr (window - 1) (smean (sliceTo tr window))
  let atr ← (pyRange window atr.length).foldlM (ATR.body tr window) atr
  return checkFillna fillna (.const (lit 0)) atr

end TA
