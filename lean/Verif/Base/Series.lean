import Verif.Base.Num

/-!
# pandas / numpy primitives

Behaviour of the pandas 1.3.5 and numpy 1.21.5 operations called by `ta` (the versions pinned in
`/repo/requirements-core.txt`), on float64 Series.  A Series is the list of its values; all Series handed to one
indicator share one index, so binary operations are positional.
These definitions are part of the trusted base.
-/

namespace TA
variable {F : Type} [Flt F]

/-- A float64 Series, as the list of its values. -/
abbrev Series (F : Type) := List F

/-- Exceptions raised by the modelled code. -/
inductive PyErr where
  | indexError
  | valueError
  | zeroDivision
  | keyError
  deriving DecidableEq, Repr

/-- Positional read; an out-of-range read is NaN (this is what pandas alignment yields). -/
def ix (s : Series F) (i : Nat) : F := s.getD i nan

/-- The list `[f 0, …, f (n-1)]`. -/
def tab {α : Type} (n : Nat) (f : Nat → α) : List α := (List.range n).map f

/-- Row `i` is computed from rows `0..i`. -/
def pre (g : List F → F) (s : Series F) : Series F :=
  tab s.length (fun i => g (s.take (i + 1)))

/-- A `for i in range(n)` loop carrying a state: the state after the first `k` iterations. -/
def iter {S : Type} (step : Nat → S → S) (init : S) : Nat → S
  | 0 => init
  | k + 1 => step k (iter step init k)

/-- Element-wise binary operation of two Series with the same index. -/
def zip2 (f : F → F → F) (a b : Series F) : Series F :=
  tab a.length (fun i => f (ix a i) (ix b i))

/-- Element-wise ternary operation. -/
def zip3 (f : F → F → F → F) (a b c : Series F) : Series F :=
  tab a.length (fun i => f (ix a i) (ix b i) (ix c i))

/-- Series arithmetic. -/
def sadd (a b : Series F) : Series F := zip2 Flt.add a b
def ssub (a b : Series F) : Series F := zip2 Flt.sub a b
def smul (a b : Series F) : Series F := zip2 Flt.mul a b
def sdiv (a b : Series F) : Series F := zip2 Flt.div a b
/-- scalar on the left -/
def cmul (c : F) (a : Series F) : Series F := a.map (fun x => c *. x)
def csub (c : F) (a : Series F) : Series F := a.map (fun x => c -. x)
def cadd (c : F) (a : Series F) : Series F := a.map (fun x => c +. x)
def cdiv (c : F) (a : Series F) : Series F := a.map (fun x => c /. x)
/-- scalar on the right -/
def mulc (a : Series F) (c : F) : Series F := a.map (fun x => x *. c)
def subc (a : Series F) (c : F) : Series F := a.map (fun x => x -. c)
def divc (a : Series F) (c : F) : Series F := a.map (fun x => x /. c)
/-- `abs(series)` -/
def sabs (a : Series F) : Series F := a.map Flt.abs

/-- `Series.shift(k, fill_value=fill)` for `k ≥ 0`. -/
def shift (s : Series F) (k : Nat) (fill : F := nan) : Series F :=
  tab s.length (fun i => if i < k then fill else ix s (i - k))

/-- `Series.shift(k)` for any integer `k` (negative: towards the start), vacated rows NaN. -/
def shiftInt (s : Series F) (k : Int) : Series F :=
  tab s.length (fun i =>
    if (i : Int) - k < 0 then nan else ix s ((i : Int) - k).toNat)

/-- `Series.diff(1)` -/
def sdiff (s : Series F) : Series F := ssub s (shift s 1)

/-- Left-to-right sum, starting from 0. -/
def sumL (l : List F) : F := l.foldl Flt.add (lit 0)

/-- Largest element (first of equals); NaN on the empty list. -/
def maxL : List F → F
  | [] => nan
  | x :: xs => xs.foldl (fun a b => if a <. b then b else a) x

/-- Smallest element; NaN on the empty list. -/
def minL : List F → F
  | [] => nan
  | x :: xs => xs.foldl (fun a b => if b <. a then b else a) x

/-- The non-NaN entries. -/
def valid (l : List F) : List F := l.filter (fun x => !Flt.isNaN x)

/-- `Rolling._prep_values` / `ewm`: infinities become NaN before any window function is applied. -/
def clean (x : F) : F := if Flt.isInf x then nan else x

/-- The last `w` entries (fewer at the start of the series). -/
def lastN (w : Nat) (l : List F) : List F := l.drop (l.length - w)

/-- `Series.rolling(w, …)` with window function `agg` applied to the (cleaned) window that ends at each row. -/
def roll (w : Nat) (agg : List F → F) (s : Series F) : Series F :=
  pre (fun p => agg (lastN w p)) (s.map clean)

/-- `roll_sum`/`calc_sum`: NaNs are skipped; the sum of no observation is 0 if `min_periods = 0`. -/
def aggSum (minp : Nat) (win : List F) : F :=
  if (valid win).length = 0 ∧ minp = 0 then lit 0
  else if minp ≤ (valid win).length then sumL (valid win) else nan

/-- `roll_mean`/`calc_mean`: NaN when there is no observation. -/
def aggMean (minp : Nat) (win : List F) : F :=
  if minp ≤ (valid win).length ∧ 0 < (valid win).length
  then sumL (valid win) /. natF (valid win).length else nan

/-- `roll_max` -/
def aggMax (minp : Nat) (win : List F) : F :=
  if minp ≤ (valid win).length then maxL (valid win) else nan

/-- `roll_min` -/
def aggMin (minp : Nat) (win : List F) : F :=
  if minp ≤ (valid win).length then minL (valid win) else nan

/-- `roll_apply(raw=True)`: the raw window (NaNs included) is passed once enough observations are there. -/
def aggApply (f : List F → F) (minp : Nat) (win : List F) : F :=
  if minp ≤ (valid win).length then f win else nan

/-- `roll_var(ddof=0)` followed by a square root. -/
def aggStd {F : Type} [FltFn F] (minp : Nat) (win : List F) : F :=
  let v := valid win
  if minp ≤ v.length ∧ 0 < v.length then
    let m := sumL v /. natF v.length
    FltFn.sqrt (sumL (v.map (fun x => (x -. m) *. (x -. m))) /. natF v.length)
  else nan

def rollSum (w minp : Nat) (s : Series F) : Series F := roll w (aggSum minp) s
def rollMean (w minp : Nat) (s : Series F) : Series F := roll w (aggMean minp) s
def rollMax (w minp : Nat) (s : Series F) : Series F := roll w (aggMax minp) s
def rollMin (w minp : Nat) (s : Series F) : Series F := roll w (aggMin minp) s
def rollApply (f : List F → F) (w minp : Nat) (s : Series F) : Series F := roll w (aggApply f minp) s
def rollStd {F : Type} [FltFn F] (w minp : Nat) (s : Series F) : Series F := roll w (aggStd minp) s

/-- `np.mean` of a raw array (NaN propagates through the arithmetic). -/
def npMean (l : List F) : F := sumL l /. natF l.length

/-- Index of the first element for which `p` holds, counting from `k`. -/
def findFrom (p : F → Bool) (k : Nat) : List F → Option Nat
  | [] => none
  | x :: xs => if p x then some k else findFrom p (k + 1) xs

/-- `np.argmax`: the first NaN if there is one, else the first occurrence of the maximum. -/
def argmax (l : List F) : Nat :=
  match findFrom Flt.isNaN 0 l with
  | some k => k
  | none => (findFrom (fun x => maxL l ==. x) 0 l).getD 0

/-- `np.argmin` -/
def argmin (l : List F) : Nat :=
  match findFrom Flt.isNaN 0 l with
  | some k => k
  | none => (findFrom (fun x => minL l ==. x) 0 l).getD 0

/-- State of pandas' `ewma` kernel (adjust=False, ignore_na=False). -/
structure EwmSt (F : Type) where
  avg : F
  oldWt : F
  nobs : Nat

/-- Initial state (before the first row is read). -/
def ewmInit : EwmSt F := ⟨nan, lit 1, 0⟩

/-- One row of pandas' `ewma` kernel. -/
def ewmStep (alpha : F) (st : EwmSt F) (cur : F) : EwmSt F :=
  let isObs := !Flt.isNaN cur
  let nobs := if isObs then st.nobs + 1 else st.nobs
  if !Flt.isNaN st.avg then
    let oldWt := st.oldWt *. (lit 1 -. alpha)
    if isObs then
      let avg := if st.avg !=. cur
        then ((oldWt *. st.avg) +. (alpha *. cur)) /. (oldWt +. alpha)
        else st.avg
      ⟨avg, lit 1, nobs⟩
    else ⟨st.avg, oldWt, nobs⟩
  else if isObs then ⟨cur, st.oldWt, nobs⟩
  else ⟨st.avg, st.oldWt, nobs⟩

/-- Value shown for a row: NaN until `min_periods` (at least 1) observations have been seen. -/
def ewmOut (minp : Nat) (st : EwmSt F) : F := if max minp 1 ≤ st.nobs then st.avg else nan

/-- `Series.ewm(alpha=…, min_periods=minp, adjust=False).mean()` -/
def ewm (alpha : F) (minp : Nat) (s : Series F) : Series F :=
  pre (fun p => ewmOut minp (p.foldl (ewmStep alpha) ewmInit)) (s.map clean)

/-- Smoothing factor pandas derives from `span`: `com = (span-1)/2`, `alpha = 1/(1+com)`. -/
def alphaOfSpan (span : Nat) : F := lit 1 /. (lit 1 +. ((natF span -. lit 1) /. lit 2))

/-- Smoothing factor pandas derives from `alpha`: `com = (1-alpha)/alpha`, `alpha = 1/(1+com)`. -/
def alphaOfAlpha (a : F) : F := lit 1 /. (lit 1 +. ((lit 1 -. a) /. a))

/-- `Series.cumsum()`: NaN rows are skipped and stay NaN. -/
def cumsum (s : Series F) : Series F :=
  pre (fun p => if Flt.isNaN (ix p (p.length - 1)) then nan else sumL (valid p)) s

/-- `Series.ffill()` -/
def ffill (s : Series F) : Series F := pre (fun p => (valid p).getLast?.getD nan) s

/-- `Series.bfill()` -/
def bfill (s : Series F) : Series F := tab s.length (fun i => (valid (s.drop i)).head?.getD nan)

/-- `Series.fillna(constant)` -/
def fillConst (v : F) (s : Series F) : Series F := s.map (fun x => if Flt.isNaN x then v else x)

/-- `Series.fillna(other_series)` -/
def fillSer (t s : Series F) : Series F := zip2 (fun x v => if Flt.isNaN x then v else x) s t

/-- `Series.replace([inf, -inf], nan)` -/
def replaceInf (s : Series F) : Series F := s.map clean

/-- `Series.pct_change()` with its default `fill_method="pad"`. -/
def pctChange (s : Series F) : Series F :=
  subc (sdiv (ffill s) (shift (ffill s) 1)) (lit 1)

/-- `Series.mean()` (skipna) -/
def smean (s : Series F) : F :=
  if (valid s).length = 0 then nan else sumL (valid s) /. natF (valid s).length

/-- `Series.dropna()` -/
def sdropna (s : Series F) : Series F := valid s

/-- `np.roll(a, k)`: element `i` is `a[(i - k) mod n]`. -/
def npRoll (s : Series F) (k : Nat) : Series F :=
  tab s.length (fun i => ix s ((i + (s.length - k % s.length)) % s.length))

/-- `np.amax([a, b], axis=0)`: NaN if either is NaN. -/
def npMax2 (a b : F) : F :=
  if Flt.isNaN a then nan else if Flt.isNaN b then nan else if a <. b then b else a

/-- `np.amin([a, b], axis=0)`; also `DataFrame.min(axis=1, skipna=False)` on two columns. -/
def npMin2 (a b : F) : F :=
  if Flt.isNaN a then nan else if Flt.isNaN b then nan else if b <. a then b else a

end TA
