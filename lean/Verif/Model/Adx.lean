import Verif.Model.Utils

/-! # Model of `ADXIndicator` — `/repo/ta/trend.py:678-860` -/

namespace TA
variable {F : Type} [Flt F]

/-- `diff_directional_movement = pdm - pdn` — ta/trend.py:722-727 -/
def ADX.range (high low close : Series F) : Series F :=
  ssub (getMax high (shift close 1)) (getMin low (shift close 1))

/-- `abs(((a > b) & (a > 0)) * a)` — ta/trend.py:744-745 (a Boolean times a float: 1.0 or 0.0 times it) -/
def ADX.dm (a b : Series F) : Series F :=
  zip2 (fun x y => Flt.abs ((if (x >. y) && (x >. lit 0) then lit 1 else lit 0) *. x)) a b

/-- `pos` — ta/trend.py:741-744 -/
def ADX.pos (high low : Series F) : Series F :=
  ADX.dm (ssub high (shift high 1)) (ssub (shift low 1) low)

/-- `neg` — ta/trend.py:741-745 -/
def ADX.neg (high low : Series F) : Series F :=
  ADX.dm (ssub (shift low 1) low) (ssub high (shift high 1))

/-- Entry `i` of the array filled by the three identical loops: start with the sum of the first `w` non-NaN
entries, then `prev - prev / w + x[w + i]` — ta/trend.py:730-739, 747-757, 759-769 -/
def ADX.wilderAt (x : Series F) (w : Nat) : Nat → F
  | 0 => sumL ((sdropna x).take w)
  | i + 1 =>
    let prev := ADX.wilderAt x w i
    (prev -. (prev /. natF w)) +. ix x (w + (i + 1))

/-- The array itself, of length `n - (w-1)`; `range(1, len - 1)` leaves the last entry 0 unless it is the first
one — ta/trend.py:730-739 -/
def ADX.wilder (x : Series F) (w : Nat) : Series F :=
  let len := x.length - (w - 1)
  tab len (fun i => if i = 0 then ADX.wilderAt x w 0 else if i < len - 1 then ADX.wilderAt x w i else lit 0)

/-- The object after `_run`. -/
structure ADX (F : Type) where
  n : Nat
  window : Nat
  trs : Series F
  dip : Series F
  din : Series F
  fillna : Bool

/-- `_run` — ta/trend.py:718-769 -/
def ADX.run (high low close : Series F) (window : Nat) (fillna : Bool) : ADX F :=
  { n := close.length, window := window
    trs := ADX.wilder (ADX.range high low close) window
    dip := ADX.wilder (ADX.pos high low) window
    din := ADX.wilder (ADX.neg high low) window
    fillna := fillna }

/-- constructor — ta/trend.py:703-769.  `window = 0`: ValueError; `np.zeros` of a negative size: ValueError;
`self._trs[0]` of an empty array: IndexError. -/
def ADX.new (high low close : Series F) (window : Nat := 14) (fillna : Bool := false) :
    Except PyErr (ADX F) :=
  if window = 0 then .error .valueError
  else if close.length < window - 1 then .error .valueError
  else if close.length = window - 1 then .error .indexError
  else .ok (ADX.run high low close window fillna)

/-- `100 * (d / t) if t != 0 else 0` — ta/trend.py:779-793, 829-833, 850-854 -/
def ADX.di (t d : F) : F := if t !=. lit 0 then lit 100 *. (d /. t) else lit 0

/-- `directional_index` — ta/trend.py:777-804 -/
def ADX.dx (o : ADX F) : Series F :=
  tab o.trs.length (fun i =>
    let p := ADX.di (ix o.trs i) (ix o.dip i)
    let m := ADX.di (ix o.trs i) (ix o.din i)
    if (p +. m) !=. lit 0 then lit 100 *. Flt.abs ((p -. m) /. (p +. m)) else lit 0)

/-- Entry `i` of `adx_series` before the padding — ta/trend.py:806-812 -/
def ADX.adxAt (dx : Series F) (w : Nat) : Nat → F
  | 0 => lit 0
  | i + 1 =>
    if i + 1 < w then lit 0
    else if i + 1 = w then npMean (dx.take w)
    else ((ADX.adxAt dx w i *. natF (w - 1)) +. ix dx i) /. natF w

/-- `.adx()` — ta/trend.py:771-818; `adx_series[window]` raises IndexError when the array is too short. -/
def ADX.adx (o : ADX F) : Except PyErr (Series F) :=
  if o.trs.length ≤ o.window then .error .indexError
  else
    let dx := ADX.dx o
    .ok (checkFillna o.fillna (.const (lit 20))
      (List.replicate (o.window - 1) (lit 0) ++ tab o.trs.length (ADX.adxAt dx o.window)))

/-- `dip[i + window] = …` for `i in range(1, len(trs) - 1)` — ta/trend.py:826-833, 847-854 -/
def ADX.place (n w : Nat) (trs d : Series F) : Series F :=
  tab n (fun k =>
    if w + 1 ≤ k ∧ k - w < trs.length - 1 then ADX.di (ix trs (k - w)) (ix d (k - w)) else lit 0)

/-- `.adx_pos()` — ta/trend.py:820-839 -/
def ADX.adxPos (o : ADX F) : Series F :=
  checkFillna o.fillna (.const (lit 20)) (ADX.place o.n o.window o.trs o.dip)

/-- `.adx_neg()` — ta/trend.py:841-860 -/
def ADX.adxNeg (o : ADX F) : Series F :=
  checkFillna o.fillna (.const (lit 20)) (ADX.place o.n o.window o.trs o.din)

end TA
