import Verif.Model.Wrapper

/-! # Columns of integers

The rest of the model takes every column as float64.  pandas keeps the dtype of a column, and three places of the code do
arithmetic on it before anything turns it into floats:

* `KAMAIndicator._run` (ta/momentum.py:322-326) lets numpy write a quotient into `np.zeros_like(er_num)`, which has the dtype of the
  closes.  A quotient is float64, and numpy 1.21.5 refuses to cast float64 to an integer type in an `out=` array (rule `same_kind`).
* `OnBalanceVolumeIndicator._run` (ta/volume.py:86) negates the volumes.  On an unsigned type that is subtraction from `2^w`.
  `cumsum` of an unsigned column is carried out on uint64.
* `EaseOfMovementIndicator._run` (ta/volume.py:232) doubles the volumes.  On a 32-bit column that is arithmetic modulo `2^32`.

Generated columns count as float64, and no generated column has the name of the close column. -/

namespace TA

/-- dtypes of a price column -/
inductive DType where
  | int64 | float64
  deriving DecidableEq

/-- numpy's `same_kind` rule, from the first type to the second -/
def DType.castsTo : DType → DType → Bool
  | .float64, .int64 => false
  | _, _ => true

/-- the exceptions of the model, and `TypeError` -/
inductive TErr where
  | py (e : PyErr)
  | typeError
  deriving DecidableEq

section frames
variable {F : Type} [FltFn F]

/-- `KAMAIndicator(...).kama()` on closes of dtype `dt` — ta/momentum.py:317-359 -/
def KAMA.typed (dt : DType) (close : Series F) (window pow1 pow2 : Nat) (fillna : Bool) : Except TErr (Series F) :=
  -- `abs(close_values - np.roll(close_values, window))` — line 322
  let erNum := dt
  -- `np.zeros_like(er_num)` — line 325
  let out := erNum
  if DType.float64.castsTo out then .ok (kama close window pow1 pow2 fillna) else .error .typeError

/-- `add_momentum_ta` on a frame whose close column has dtype `dt` — ta/wrapper.py:398-505 -/
def addMomentumTyped (dt : DType) (df : Frame F) (high low close volume : String) (fillna : Bool) (pfx : String) (vec : Bool) :
    Frame F × Option TErr :=
  match addMomentumTa df high low close volume fillna pfx true with
  | (df', some e) => (df', some (.py e))
  | (df', none) =>
    if vec then (df', none)
    else match df'.get close with
      | .error e => (df', some (.py e))
      | .ok c => match KAMA.typed dt c 10 2 30 fillna with
        | .error e => (df', some e)
        | .ok s => (df'.set (pfx ++ "momentum_kama") s, none)

/-- an outcome without `TypeError` -/
def Outcome.typed (r : Outcome F) : Frame F × Option TErr := (r.1, r.2.map .py)

/-- sequencing -/
def andThenT (r : Frame F × Option TErr) (g : Frame F → Frame F × Option TErr) : Frame F × Option TErr :=
  match r with
  | (df, none) => g df
  | (df, some e) => (df, some e)

/-- `add_all_ta_features` — ta/wrapper.py:543-609 -/
def addAllTyped (dt : DType) (df : Frame F) (high low close volume : String) (fillna : Bool) (pfx : String) (vec : Bool) :
    Frame F × Option TErr :=
  andThenT (andThenT (((addVolumeTa df high low close volume fillna pfx vec).andThen
    fun df => addVolatilityTa df high low close fillna pfx vec).andThen
    fun df => addTrendTa df high low close fillna pfx vec).typed
    fun df => addMomentumTyped dt df high low close volume fillna pfx vec)
    fun df => (addOthersTa df close fillna pfx).typed

end frames

/-! ## volumes of integer type -/

section volumes
variable {F : Type} [Flt F]

/-- `-v` in unsigned arithmetic of `w` bits -/
def negU (w v : Nat) : Nat := (2 ^ w - v) % 2 ^ w

/-- `np.where(close < close.shift(1), -volume, volume)` with volumes of `w` unsigned bits — ta/volume.py:86 -/
def OBV.signedU (w : Nat) (close : Series F) (volume : List Nat) : List Nat :=
  tab volume.length fun i => if ix close i <. ix (shift close 1) i then negU w (volume.getD i 0) else volume.getD i 0

/-- `.cumsum()` on uint64 — ta/volume.py:87 -/
def OBV.runU (w : Nat) (close : Series F) (volume : List Nat) : List Nat :=
  tab volume.length fun i => ((OBV.signedU w close volume).take (i + 1)).sum % 2 ^ 64

/-- two's complement of `w` bits -/
def wrapS (w : Nat) (x : Int) : Int := x.bmod (2 ^ w)

/-- an integer column as floats -/
def floatCol (v : List Int) : Series F := v.map fun (x : Int) => lit ((x : Int) : Rat)

/-- `EaseOfMovementIndicator(...).ease_of_movement()` with volumes of `w` signed bits — ta/volume.py:228-243 -/
def EOM.runS (w : Nat) (high low : Series F) (volume : List Int) : Series F :=
  mulc (sdiv (smul (sadd (sdiff high) (sdiff low)) (ssub high low)) (floatCol (volume.map fun v => wrapS w (2 * v)))) (lit 100000000)

end volumes

end TA
