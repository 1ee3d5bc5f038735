import Verif.Base.Num
import Mathlib.Analysis.Real.Sqrt
import Mathlib.Analysis.SpecialFunctions.Log.Basic

/-! # Exact real arithmetic with `np.sqrt` and `np.log` -/

namespace TA

/-- `np.sqrt`: NaN on negative numbers and on `-inf` -/
noncomputable def Val.sqrt : Val ℝ → Val ℝ
  | .nan => .nan
  | .pinf => .pinf
  | .ninf => .nan
  | .fin x => if x < 0 then .nan else .fin (Real.sqrt x)

/-- `np.log`: `-inf` at zero, NaN on negative numbers and on `-inf` -/
noncomputable def Val.log : Val ℝ → Val ℝ
  | .nan => .nan
  | .pinf => .pinf
  | .ninf => .nan
  | .fin x => if x = 0 then .ninf else if x < 0 then .nan else .fin (Real.log x)

noncomputable instance : FltFn (Val ℝ) where
  toFlt := inferInstance
  sqrt := Val.sqrt
  log := Val.log

example : FltFn.sqrt (.fin 4 : Val ℝ) = .fin 2 := by
  show Val.sqrt (.fin 4) = _
  rw [Val.sqrt, if_neg (by norm_num), show (4 : ℝ) = 2 * 2 by norm_num, Real.sqrt_mul_self (by norm_num)]

end TA
