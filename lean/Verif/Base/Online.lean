import Verif.Base.Series

/-!
# pandas' window kernels, as they are implemented

`Base/Series.lean` says what `rolling(w, min_periods)` returns: a function of the values in each window.  pandas 1.3.5 gets
there differently: it walks along the series once, adding the row that enters the window to an accumulator and removing the
one that leaves it.  This file follows `pandas/_libs/window/aggregations.pyx` (`roll_sum`, `roll_mean`, `roll_var`,
`_roll_min_max`) and `FixedWindowIndexer`; C72 proves that in exact arithmetic both agree.
The source of pandas is not part of `/repo`: this is read from the pinned version's algorithm, like `Base/Series.lean`.

Simplified: `signbit` (in `add_mean`) is `< 0`, zero having no sign here.
-/

namespace TA
variable {F : Type} [Flt F]

/-- `FixedWindowIndexer`: row `i` looks at the rows from `winStart w i` to `winEnd i - 1`. -/
def winStart (w i : Nat) : Nat := i + 1 - w
def winEnd (i : Nat) : Nat := i + 1

/-- `values[a:b]` -/
def slice (s : List F) (a b : Nat) : List F := (s.take b).drop a

/-- `for j in range(a, b): st = f(st, values[j])` -/
def over {S : Type} (f : S → F → S) (s : List F) (a b : Nat) (st : S) : S := (slice s a b).foldl f st

/-- Order of the two inner loops: `roll_sum` and `roll_mean` remove first, `roll_var` adds first. -/
inductive Order where
  | removeFirst
  | addFirst

/-- The accumulator after row `i` (the windows move to the right only). -/
def online {S : Type} (o : Order) (add rem : S → F → S) (init : S) (w : Nat) (s : List F) : Nat → S
  | 0 => over add s (winStart w 0) (winEnd 0) init
  | i + 1 =>
    let st := online o add rem init w s i
    match o with
    | .removeFirst => over add s (winEnd i) (winEnd (i + 1)) (over rem s (winStart w i) (winStart w (i + 1)) st)
    | .addFirst => over rem s (winStart w i) (winStart w (i + 1)) (over add s (winEnd i) (winEnd (i + 1)) st)

/-! ## Sum and mean: Kahan summation, separate compensations for adding and removing -/

/-- `sum_x`, `compensation_add`, `compensation_remove`, `nobs`, `neg_ct` -/
structure SumSt (F : Type) where
  sum : F
  cAdd : F
  cRem : F
  nobs : Int
  neg : Int

def SumSt.init : SumSt F := ⟨lit 0, lit 0, lit 0, 0, 0⟩

/-- `add_sum`, `add_mean` -/
def SumSt.add (st : SumSt F) (x : F) : SumSt F :=
  if Flt.isNaN x then st
  else
    let y := x -. st.cAdd
    let t := st.sum +. y
    { st with sum := t, cAdd := (t -. st.sum) -. y, nobs := st.nobs + 1, neg := if x <. lit 0 then st.neg + 1 else st.neg }

/-- `remove_sum`, `remove_mean` -/
def SumSt.rem (st : SumSt F) (x : F) : SumSt F :=
  if Flt.isNaN x then st
  else
    let y := Flt.neg x -. st.cRem
    let t := st.sum +. y
    { st with sum := t, cRem := (t -. st.sum) -. y, nobs := st.nobs - 1, neg := if x <. lit 0 then st.neg - 1 else st.neg }

/-- `calc_sum` -/
def SumSt.calcSum (minp : Nat) (st : SumSt F) : F :=
  if st.nobs = 0 ∧ minp = 0 then lit 0 else if (minp : Int) ≤ st.nobs then st.sum else nan

/-- `calc_mean`: a mean of non-negative values is not allowed to come out negative, nor the other way round. -/
def SumSt.calcMean (minp : Nat) (st : SumSt F) : F :=
  if (minp : Int) ≤ st.nobs ∧ 0 < st.nobs then
    let r := st.sum /. lit (st.nobs : Rat)
    if st.neg = 0 ∧ (r <. lit 0) then lit 0
    else if st.neg = st.nobs ∧ (lit 0 <. r) then lit 0
    else r
  else nan

/-- `series.rolling(w, min_periods=minp).sum()` -/
def onlineSum (w minp : Nat) (s : Series F) : Series F :=
  tab s.length (fun i => (online .removeFirst SumSt.add SumSt.rem SumSt.init w (s.map clean) i).calcSum minp)

/-- `series.rolling(w, min_periods=minp).mean()` -/
def onlineMean (w minp : Nat) (s : Series F) : Series F :=
  tab s.length (fun i => (online .removeFirst SumSt.add SumSt.rem SumSt.init w (s.map clean) i).calcMean minp)

/-! ## Variance: Welford's method, with compensation -/

/-- `nobs`, `mean_x`, `ssqdm_x` (sum of squared deviations), `compensation_add`, `compensation_remove` -/
structure VarSt (F : Type) where
  nobs : Int
  mean : F
  ssq : F
  cAdd : F
  cRem : F

def VarSt.init : VarSt F := ⟨0, lit 0, lit 0, lit 0, lit 0⟩

/-- `add_var` -/
def VarSt.add (st : VarSt F) (x : F) : VarSt F :=
  if Flt.isNaN x then st
  else
    let n := st.nobs + 1
    let prev := st.mean -. st.cAdd
    let y := x -. st.cAdd
    let t := y -. st.mean
    let c := (t +. st.mean) -. y
    let m := if n ≠ 0 then st.mean +. (t /. lit (n : Rat)) else lit 0
    { st with nobs := n, mean := m, ssq := st.ssq +. ((x -. prev) *. (x -. m)), cAdd := c }

/-- `remove_var` -/
def VarSt.rem (st : VarSt F) (x : F) : VarSt F :=
  if Flt.isNaN x then st
  else
    let n := st.nobs - 1
    if n ≠ 0 then
      let prev := st.mean -. st.cRem
      let y := x -. st.cRem
      let t := y -. st.mean
      let c := (t +. st.mean) -. y
      let m := st.mean -. (t /. lit (n : Rat))
      { st with nobs := n, mean := m, ssq := st.ssq -. ((x -. prev) *. (x -. m)), cRem := c }
    else { st with nobs := n, mean := lit 0, ssq := lit 0 }

/-- `calc_var` with `ddof = 0`; `roll_var` sets `minp = max(minp, 1)`. -/
def VarSt.calcVar (minp : Nat) (st : VarSt F) : F :=
  if ((max minp 1 : Nat) : Int) ≤ st.nobs ∧ 0 < st.nobs then
    if st.nobs = 1 then lit 0
    else
      let r := st.ssq /. lit (st.nobs : Rat)
      if r <. lit 0 then lit 0 else r
  else nan

/-- `zsqrt`: negative numbers count as 0 -/
def zsqrt {F : Type} [FltFn F] (x : F) : F := if x <. lit 0 then lit 0 else FltFn.sqrt x

/-- `series.rolling(w, min_periods=minp).std(ddof=0)` -/
def onlineStd {F : Type} [FltFn F] (o : Order) (w minp : Nat) (s : Series F) : Series F :=
  tab s.length (fun i => zsqrt ((online o VarSt.add VarSt.rem VarSt.init w (s.map clean) i).calcVar minp))

/-! ## Maximum and minimum: a queue of candidates -/

/-- `Q` (row numbers of the candidates, best first), `W` (row numbers of the window), `nobs` -/
structure MaxSt where
  Q : List Nat
  W : List Nat
  nobs : Int

/-- `pop_back` while the condition holds -/
def popBack (p : Nat → Bool) (q : List Nat) : List Nat := (q.reverse.dropWhile p).reverse

/-- Arriving row `k`: `init_mm` and the first loop of `_roll_min_max`. `ge a b` is `a >= b` for the maximum, `a <= b` for the
minimum; `worst` (an infinity) stands in for NaN. -/
def MaxSt.push (ge : F → F → Bool) (worst : F) (s : List F) (st : MaxSt) (k : Nat) : MaxSt :=
  let v := ix s k
  let a := if v ==. v then v else worst
  let n := if v ==. v then st.nobs + 1 else st.nobs
  let drop := fun q => ge a (ix s q) || (ix s q !=. ix s q)
  ⟨popBack drop st.Q ++ [k], st.W ++ [k], n⟩

/-- `remove_mm` -/
def removeMM (s : List F) (n : Int) (k : Nat) : Int := if ix s k ==. ix s k then n - 1 else n

/-- Rows before `a` leave at the front of both queues. -/
def MaxSt.pop (s : List F) (a : Nat) (st : MaxSt) : MaxSt :=
  ⟨st.Q.dropWhile (fun q => decide (q < a)), st.W.dropWhile (fun q => decide (q < a)),
    (st.W.takeWhile (fun q => decide (q < a))).foldl (removeMM s) st.nobs⟩

/-- The queues after row `i`. -/
def onlineMM (ge : F → F → Bool) (worst : F) (w : Nat) (s : List F) : Nat → MaxSt
  | 0 => ((List.range' (winStart w 0) (winEnd 0 - winStart w 0)).foldl (MaxSt.push ge worst s) ⟨[], [], 0⟩).pop s (winStart w 0)
  | i + 1 =>
    ((List.range' (winEnd i) (winEnd (i + 1) - winEnd i)).foldl (MaxSt.push ge worst s) (onlineMM ge worst w s i)).pop s
      (winStart w (i + 1))

/-- `calc_mm`, and NaN for an empty window -/
def MaxSt.calc (s : List F) (minp w i : Nat) (st : MaxSt) : F :=
  match st.Q with
  | [] => nan
  | q :: _ => if 0 < winEnd i - winStart w i then (if (minp : Int) ≤ st.nobs then ix s q else nan) else nan

/-- `series.rolling(w, min_periods=minp).max()` -/
def onlineMax (w minp : Nat) (s : Series F) : Series F :=
  tab s.length (fun i => (onlineMM (fun a b => a >=. b) (lit (-1) /. lit 0) w (s.map clean) i).calc (s.map clean) minp w i)

/-- `series.rolling(w, min_periods=minp).min()` -/
def onlineMin (w minp : Nat) (s : Series F) : Series F :=
  tab s.length (fun i => (onlineMM (fun a b => a <=. b) (lit 1 /. lit 0) w (s.map clean) i).calc (s.map clean) minp w i)

end TA
