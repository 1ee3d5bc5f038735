import Verif.Model.Utils

/-! # Model of `PSARIndicator` — `/repo/ta/trend.py:934-1090`

The price columns are lists; the working series `self._psar` carries an index because one write
(`self._psar[i] = high2`, line 1030) is by *label* when the index is an integer index. -/

namespace TA
variable {F : Type} [Flt F]

/-- The index of the price Series, as far as `series[i] = v` depends on it.
`positional`: a non-integer index (e.g. DatetimeIndex), for which an int key falls back to the position.
`labels ls`: an integer index with these labels. -/
inductive Idx where
  | positional
  | labels (ls : List Int)

/-- The default index `0..n-1`. -/
def Idx.range (n : Nat) : Idx := .labels (tab n (fun i => (i : Int)))

/-- A Series with an index (only `self._psar`, ta/trend.py:977). -/
structure LSeries (F : Type) where
  idx : Idx
  vals : List F

/-- `s.iloc[i] = v` -/
def LSeries.ilocSet (s : LSeries F) (i : Nat) (v : F) : LSeries F := { s with vals := s.vals.set i v }

/-- `s[i] = v` for an int key: by position on a non-integer index; by label on an integer index, appending a
row when the label does not occur. -/
def LSeries.setItem (s : LSeries F) (i : Nat) (v : F) : LSeries F :=
  match s.idx with
  | .positional => s.ilocSet i v
  | .labels ls =>
    if (i : Int) ∈ ls then
      { s with vals := tab s.vals.length (fun k => if ls[k]? = some (i : Int) then v else ix s.vals k) }
    else { idx := .labels (ls ++ [(i : Int)]), vals := s.vals ++ [v] }

/-- Loop variables of `_run` — ta/trend.py:972-979 -/
structure PsarSt (F : Type) where
  upTrend : Bool
  af : F
  high : F
  low : F
  psar : LSeries F
  up : Series F
  down : Series F

/-- Python's `min(a, b)` on floats -/
def pyMin (a b : F) : F := if b <. a then b else a

/-- `self._psar.iloc[i]` -/
def PsarSt.cur (st : PsarSt F) (i : Nat) : F := ix st.psar.vals i

/-- one iteration of the loop, for bar `i` (≥ 2) — ta/trend.py:982-1039 -/
def PSAR.step (high low : Series F) (step maxStep : F) (i : Nat) (st : PsarSt F) : PsarSt F :=
  let maxHigh := ix high i
  let minLow := ix low i
  -- the two trend branches return the state and the `reversal` flag
  let r : PsarSt F × Bool :=
    if st.upTrend then
      -- 988-990
      let prev := st.cur (i - 1)
      let p := prev +. (st.af *. (st.high -. prev))
      let st1 := { st with psar := st.psar.ilocSet i p }
      if minLow <. st1.cur i then
        -- 993-996
        ({ st1 with psar := st1.psar.ilocSet i st1.high, low := minLow, af := step }, true)
      else
        -- 998-1002
        let st2 := if maxHigh >. st1.high
          then { st1 with high := maxHigh, af := pyMin (st1.af +. step) maxStep } else st1
        -- 1004-1009
        let low1 := ix low (i - 1)
        let low2 := ix low (i - 2)
        let st3 :=
          if low2 <. st2.cur i then { st2 with psar := st2.psar.ilocSet i low2 }
          else if low1 <. st2.cur i then { st2 with psar := st2.psar.ilocSet i low1 }
          else st2
        (st3, false)
    else
      -- 1011-1013
      let prev := st.cur (i - 1)
      let p := prev -. (st.af *. (prev -. st.low))
      let st1 := { st with psar := st.psar.ilocSet i p }
      if maxHigh >. st1.cur i then
        -- 1016-1019
        ({ st1 with psar := st1.psar.ilocSet i st1.low, high := maxHigh, af := step }, true)
      else
        -- 1021-1025
        let st2 := if minLow <. st1.low
          then { st1 with low := minLow, af := pyMin (st1.af +. step) maxStep } else st1
        -- 1027-1032 (note the label-based write of high2)
        let high1 := ix high (i - 1)
        let high2 := ix high (i - 2)
        let st3 :=
          if high2 >. st2.cur i then { st2 with psar := st2.psar.setItem i high2 }
          else if high1 >. st2.cur i then { st2 with psar := st2.psar.ilocSet i high1 }
          else st2
        (st3, false)
  -- 1034-1039
  let upTrend := xor st.upTrend r.2
  if upTrend then { r.1 with upTrend := upTrend, up := r.1.up.set i (r.1.cur i) }
  else { r.1 with upTrend := upTrend, down := r.1.down.set i (r.1.cur i) }

/-- variables before the loop — ta/trend.py:972-979 -/
def PSAR.init (high low close : Series F) (idx : Idx) (step : F) : PsarSt F :=
  { upTrend := true, af := step, high := ix high 0, low := ix low 0
    psar := ⟨idx, close⟩
    up := List.replicate close.length nan, down := List.replicate close.length nan }

/-- `_run` — ta/trend.py:971-1039; `for i in range(2, len(close))` -/
def PSAR.run (high low close : Series F) (idx : Idx) (step maxStep : F) : PsarSt F :=
  iter (fun k => PSAR.step high low step maxStep (k + 2)) (PSAR.init high low close idx step)
    (close.length - 2)

/-- The object after `_run`. -/
structure PSAR (F : Type) where
  psarS : Series F
  up : Series F
  down : Series F
  fillna : Bool

/-- constructor — ta/trend.py:954-1039; `high.iloc[0]` raises IndexError on empty input. -/
def PSAR.new (high low close : Series F) (idx : Idx := .positional) (step : F := lit (1/50))
    (maxStep : F := lit (1/5)) (fillna : Bool := false) : Except PyErr (PSAR F) :=
  if close.length = 0 then .error .indexError
  else
    let st := PSAR.run high low close idx step maxStep
    .ok { psarS := st.psar.vals, up := st.up, down := st.down, fillna := fillna }

/-- `.psar()` — ta/trend.py:1041-1048 -/
def PSAR.psar (o : PSAR F) : Series F := checkFillna o.fillna .back o.psarS
/-- `.psar_up()` — ta/trend.py:1050-1057 -/
def PSAR.psarUp (o : PSAR F) : Series F := checkFillna o.fillna .back o.up
/-- `.psar_down()` — ta/trend.py:1059-1066 -/
def PSAR.psarDown (o : PSAR F) : Series F := checkFillna o.fillna .back o.down

/-- `up.where(x.notnull() & x.shift(1).isnull(), 0)` then `.where(ind == 0, 1)` — ta/trend.py:1074-1077 and
1086-1089; both indicators read their values from `_psar_up`. -/
def PSAR.flag (up x : Series F) : Series F :=
  tab up.length (fun i =>
    let ind := if !Flt.isNaN (ix x i) && Flt.isNaN (ix (shift x 1) i) then ix up i else lit 0
    if ind ==. lit 0 then ind else lit 1)

/-- `.psar_up_indicator()` — ta/trend.py:1068-1078 -/
def PSAR.psarUpIndicator (o : PSAR F) : Series F := PSAR.flag o.up o.up
/-- `.psar_down_indicator()` — ta/trend.py:1080-1090 -/
def PSAR.psarDownIndicator (o : PSAR F) : Series F := PSAR.flag o.up o.down

end TA
