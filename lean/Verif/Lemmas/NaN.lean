import Verif.Lemmas.Val

/-! # Arithmetic in which NaN is absorbing

What IEEE 754 guarantees about NaN (payloads aside), and that a Python literal of moderate size is a number: used for the causality theorems that rely on a
warm-up gap hiding a look-ahead and for the fill theorems.  `Val K` is an instance, and so are the IEEE formats (Props/C128.lean). -/

namespace TA

class NaNLaws (F : Type) [Flt F] : Prop where
  isNaN_nan : Flt.isNaN (Flt.nan : F) = true
  nan_add : ∀ b : F, (Flt.nan +. b) = Flt.nan
  add_nan : ∀ a : F, (a +. Flt.nan) = Flt.nan
  nan_sub : ∀ b : F, (Flt.nan -. b) = Flt.nan
  sub_nan : ∀ a : F, (a -. Flt.nan) = Flt.nan
  nan_mul : ∀ b : F, (Flt.nan *. b) = Flt.nan
  mul_nan : ∀ a : F, (a *. Flt.nan) = Flt.nan
  nan_div : ∀ b : F, (Flt.nan /. b) = Flt.nan
  div_nan : ∀ a : F, (a /. Flt.nan) = Flt.nan
  nan_abs : Flt.abs (Flt.nan : F) = Flt.nan
  nan_eq : ∀ b : F, (Flt.nan ==. b) = false
  eq_nan : ∀ a : F, (a ==. Flt.nan) = false
  isInf_nan : Flt.isInf (Flt.nan : F) = false
  lit_num : ∀ q : ℚ, |q| ≤ 1000 → Flt.isNaN (lit q : F) = false ∧ Flt.isInf (lit q : F) = false
  eq_lit_num : ∀ (a : F) (q : ℚ), |q| ≤ 1000 → (a ==. lit q) = true → Flt.isNaN a = false ∧ Flt.isInf a = false

instance {K : Type} [Field K] [LinearOrder K] : NaNLaws (Val K) where
  isNaN_nan := rfl
  nan_add := TA.nan_add
  add_nan := TA.add_nan
  nan_sub := TA.nan_sub
  sub_nan := TA.sub_nan
  nan_mul := TA.nan_mul
  mul_nan := TA.mul_nan
  nan_div := TA.nan_div
  div_nan := TA.div_nan
  nan_abs := rfl
  nan_eq := TA.nan_eq
  eq_nan := TA.eq_nan
  isInf_nan := rfl
  lit_num := fun _ _ => ⟨rfl, rfl⟩
  eq_lit_num := fun a _ _ h => by cases a <;> first | exact ⟨rfl, rfl⟩ | exact absurd h Bool.false_ne_true

end TA
