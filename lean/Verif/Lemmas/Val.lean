import Verif.Base.Series
import Mathlib.Tactic.Ring
import Mathlib.Tactic.FieldSimp
import Mathlib.Tactic.Linarith
import Mathlib.Algebra.Order.Field.Basic

/-! # Computing with `Val K` -/

set_option linter.unusedSectionVars false

namespace TA
variable {K : Type} [Field K] [LinearOrder K]

@[simp] theorem flt_nan : (Flt.nan : Val K) = Val.nan := rfl
@[simp] theorem lit_fin (q : ℚ) : (lit q : Val K) = Val.fin (q : K) := rfl
theorem natF_fin' (n : ℕ) : (natF n : Val K) = Val.fin ((n : ℚ) : K) := rfl
@[simp] theorem natF_fin [IsStrictOrderedRing K] (n : ℕ) : (natF n : Val K) = Val.fin (n : K) := by
  simp [natF_fin']

@[simp] theorem fin_add (a b : K) : (Val.fin a +. Val.fin b) = Val.fin (a + b) := rfl
@[simp] theorem fin_sub (a b : K) : (Val.fin a -. Val.fin b) = Val.fin (a - b) := by
  show Val.fin (a + -b) = _; rw [sub_eq_add_neg]
@[simp] theorem fin_mul (a b : K) : (Val.fin a *. Val.fin b) = Val.fin (a * b) := rfl
theorem fin_div (a b : K) (h : b ≠ 0) : (Val.fin a /. Val.fin b) = Val.fin (a / b) := by
  show (if b = 0 then _ else _) = _; rw [if_neg h]
theorem fin_div_zero (a : K) : (Val.fin a /. Val.fin 0) =
    if a = 0 then Val.nan else if 0 < a then Val.pinf else Val.ninf := by
  show (if (0:K) = 0 then _ else _) = _; rw [if_pos rfl]
@[simp] theorem fin_neg (a : K) : Flt.neg (Val.fin a) = Val.fin (-a) := rfl
@[simp] theorem fin_abs (a : K) : Flt.abs (Val.fin a) = Val.fin |a| := rfl
@[simp] theorem fin_lt (a b : K) : (Val.fin a <. Val.fin b) = decide (a < b) := rfl
@[simp] theorem fin_le (a b : K) : (Val.fin a <=. Val.fin b) = decide (a ≤ b) := rfl
@[simp] theorem fin_eq (a b : K) : (Val.fin a ==. Val.fin b) = decide (a = b) := rfl
@[simp] theorem fin_ne (a b : K) : (Val.fin a !=. Val.fin b) = decide (a ≠ b) := by
  unfold Flt.ne; simp

@[simp] theorem nan_add (b : Val K) : (Val.nan +. b) = Val.nan := rfl
@[simp] theorem add_nan (a : Val K) : (a +. Val.nan) = Val.nan := by cases a <;> rfl
@[simp] theorem nan_sub (b : Val K) : (Val.nan -. b) = Val.nan := rfl
@[simp] theorem sub_nan (a : Val K) : (a -. Val.nan) = Val.nan := by cases a <;> rfl
@[simp] theorem nan_mul (b : Val K) : (Val.nan *. b) = Val.nan := rfl
@[simp] theorem mul_nan (a : Val K) : (a *. Val.nan) = Val.nan := by cases a <;> rfl
@[simp] theorem nan_div (b : Val K) : (Val.nan /. b) = Val.nan := rfl
@[simp] theorem div_nan (a : Val K) : (a /. Val.nan) = Val.nan := by cases a <;> rfl
@[simp] theorem nan_neg : Flt.neg (Val.nan : Val K) = Val.nan := rfl
@[simp] theorem nan_abs : Flt.abs (Val.nan : Val K) = Val.nan := rfl
@[simp] theorem nan_lt (b : Val K) : (Val.nan <. b) = false := rfl
@[simp] theorem lt_nan (a : Val K) : (a <. Val.nan) = false := by cases a <;> rfl
@[simp] theorem nan_le (b : Val K) : (Val.nan <=. b) = false := rfl
@[simp] theorem le_nan (a : Val K) : (a <=. Val.nan) = false := by cases a <;> rfl
@[simp] theorem nan_eq (b : Val K) : (Val.nan ==. b) = false := rfl
@[simp] theorem eq_nan (a : Val K) : (a ==. Val.nan) = false := by cases a <;> rfl
@[simp] theorem nan_ne (b : Val K) : (Val.nan !=. b) = true := rfl
@[simp] theorem ne_nan (a : Val K) : (a !=. Val.nan) = true := by cases a <;> rfl

@[simp] theorem isNaN_nan : Flt.isNaN (Val.nan : Val K) = true := rfl
@[simp] theorem isNaN_fin (a : K) : Flt.isNaN (Val.fin a) = false := rfl
@[simp] theorem isNaN_pinf : Flt.isNaN (Val.pinf : Val K) = false := rfl
@[simp] theorem isNaN_ninf : Flt.isNaN (Val.ninf : Val K) = false := rfl
@[simp] theorem isInf_nan : Flt.isInf (Val.nan : Val K) = false := rfl
@[simp] theorem isInf_fin (a : K) : Flt.isInf (Val.fin a) = false := rfl
@[simp] theorem isInf_pinf : Flt.isInf (Val.pinf : Val K) = true := rfl
@[simp] theorem isInf_ninf : Flt.isInf (Val.ninf : Val K) = true := rfl

@[simp] theorem clean_nan : clean (Val.nan : Val K) = Val.nan := rfl
@[simp] theorem clean_fin (a : K) : clean (Val.fin a) = Val.fin a := rfl
@[simp] theorem clean_pinf : clean (Val.pinf : Val K) = Val.nan := rfl
@[simp] theorem clean_ninf : clean (Val.ninf : Val K) = Val.nan := rfl

@[simp] theorem fin_inj {a b : K} : (Val.fin a = Val.fin b) ↔ a = b := by simp

/-- `clean` leaves a finite value or NaN. -/
theorem clean_cases (v : Val K) : clean v = Val.nan ∨ ∃ x, clean v = Val.fin x ∧ v = Val.fin x := by
  cases v <;> simp

theorem isNaN_iff {v : Val K} : Flt.isNaN v = true ↔ v = Val.nan := by cases v <;> simp

end TA
