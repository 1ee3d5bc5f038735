import Mathlib.Algebra.Order.Field.Basic
import Mathlib.Data.Rat.Cast.Order
import Mathlib.Tactic.NormNum

/-!
# Numbers

The library computes with float64 values held in pandas Series.  The model is written once, over an
abstract arithmetic `Flt F` that carries *no laws at all*, so every structural theorem (causality,
shape, delegation, frame handling) holds for any arithmetic, IEEE-754 float64 included.

The numeric theorems (bounds, formulas, identities) are proved for `Val K`: IEEE special values
(`nan`, `+inf`, `-inf`) around exact arithmetic in an arbitrary linearly ordered field `K`.
Not modelled: rounding, overflow of finite operations, the sign of zero.
-/

namespace TA

/-- The arithmetic interface used by numpy / pandas on float64.  No laws are assumed. -/
class Flt (F : Type) where
  nan : F
  /-- Python numeric literal -/
  lit : Rat → F
  add : F → F → F
  sub : F → F → F
  mul : F → F → F
  div : F → F → F
  neg : F → F
  abs : F → F
  lt : F → F → Bool
  le : F → F → Bool
  /-- IEEE `==`: false whenever an operand is NaN -/
  eq : F → F → Bool
  isNaN : F → Bool
  isInf : F → Bool

/-- `np.sqrt` and `np.log`, needed by a few indicators only. -/
class FltFn (F : Type) extends Flt F where
  sqrt : F → F
  log : F → F

export Flt (nan lit)

infixl:65 " +. " => Flt.add
infixl:65 " -. " => Flt.sub
infixl:70 " *. " => Flt.mul
infixl:70 " /. " => Flt.div
infix:50 " <. " => Flt.lt
infix:50 " <=. " => Flt.le
infix:50 " ==. " => Flt.eq
notation:50 a:51 " >. " b:51 => Flt.lt b a
notation:50 a:51 " >=. " b:51 => Flt.le b a

/-- Python's `!=` on floats: the negation of `==`, so true when an operand is NaN. -/
def Flt.ne {F : Type} [Flt F] (a b : F) : Bool := !(Flt.eq a b)
infix:50 " !=. " => Flt.ne

/-- A Python int used as a float. -/
def natF {F : Type} [Flt F] (n : Nat) : F := lit (n : Rat)

/-- IEEE special values around exact arithmetic in `K`. -/
inductive Val (K : Type) where
  | nan
  | pinf
  | ninf
  | fin (x : K)
  deriving DecidableEq, Repr

namespace Val
variable {K : Type} [Field K] [LinearOrder K]

/-- IEEE addition (exact on finite values). -/
def add : Val K → Val K → Val K
  | nan, _ => nan
  | _, nan => nan
  | pinf, ninf => nan
  | ninf, pinf => nan
  | pinf, _ => pinf
  | _, pinf => pinf
  | ninf, _ => ninf
  | _, ninf => ninf
  | fin a, fin b => fin (a + b)

/-- IEEE negation. -/
def neg : Val K → Val K
  | nan => nan
  | pinf => ninf
  | ninf => pinf
  | fin a => fin (-a)

/-- IEEE subtraction. -/
def sub (a b : Val K) : Val K := add a (neg b)

/-- `+inf * x` -/
def infMul : Val K → Val K
  | nan => nan
  | pinf => pinf
  | ninf => ninf
  | fin a => if a = 0 then nan else if 0 < a then pinf else ninf

/-- IEEE multiplication; `inf * 0 = nan`. -/
def mul : Val K → Val K → Val K
  | nan, _ => nan
  | _, nan => nan
  | fin a, fin b => fin (a * b)
  | pinf, b => infMul b
  | ninf, b => neg (infMul b)
  | a, pinf => infMul a
  | a, ninf => neg (infMul a)

/-- IEEE division; `x / 0` is `±inf` by the sign of `x` (zero is unsigned here), `0 / 0 = nan`. -/
def div : Val K → Val K → Val K
  | nan, _ => nan
  | _, nan => nan
  | fin a, fin b =>
      if b = 0 then (if a = 0 then nan else if 0 < a then pinf else ninf) else fin (a / b)
  | fin _, _ => fin 0
  | pinf, fin b => if 0 ≤ b then pinf else ninf
  | ninf, fin b => if 0 ≤ b then ninf else pinf
  | _, _ => nan

/-- `abs` -/
def abs : Val K → Val K
  | nan => nan
  | pinf => pinf
  | ninf => pinf
  | fin a => fin |a|

/-- IEEE `<` -/
def lt : Val K → Val K → Bool
  | fin a, fin b => decide (a < b)
  | ninf, fin _ => true
  | ninf, pinf => true
  | fin _, pinf => true
  | _, _ => false

/-- IEEE `<=` -/
def le : Val K → Val K → Bool
  | nan, _ => false
  | _, nan => false
  | fin a, fin b => decide (a ≤ b)
  | ninf, _ => true
  | _, pinf => true
  | _, _ => false

/-- IEEE `==` -/
def eq : Val K → Val K → Bool
  | fin a, fin b => decide (a = b)
  | pinf, pinf => true
  | ninf, ninf => true
  | _, _ => false

def isNaN : Val K → Bool
  | nan => true
  | _ => false

def isInf : Val K → Bool
  | pinf => true
  | ninf => true
  | _ => false

instance : Flt (Val K) where
  nan := nan
  lit q := fin (q : K)
  add := add
  sub := sub
  mul := mul
  div := div
  neg := neg
  abs := abs
  lt := lt
  le := le
  eq := eq
  isNaN := isNaN
  isInf := isInf

end Val

example : (Val.fin (1/2:ℚ) +. lit (1/3) /. Val.fin 4) = Val.fin (7/12) := by decide +kernel

end TA
