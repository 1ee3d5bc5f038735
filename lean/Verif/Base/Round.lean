import Verif.Base.Real
import Mathlib.Data.Int.Log
import Mathlib.Algebra.Order.Floor.Ring
import Mathlib.Data.Rat.Floor
import Mathlib.Tactic.Linarith
import Mathlib.Tactic.Positivity
import Mathlib.Tactic.FieldSimp
import Mathlib.Algebra.Order.Field.Power

/-!
# Rounded arithmetic

`Rval R` is the arithmetic in which every operation (and every literal) is computed exactly and then rounded by `R`.
A `Rounding` may be any monotone, odd, idempotent map that keeps 0, 1 and 100; finite results may overflow to infinity.
`binary64` is one: IEEE-754 double precision, round to nearest even, with gradual underflow and overflow.
Not modelled: the sign of zero.
-/

namespace TA

/-- A rounding of the exact results of arithmetic. -/
structure Rounding (K : Type) [Field K] [LinearOrder K] where
  /-- the rounded value; large numbers may become infinite -/
  rd : K → Val K
  mono : ∀ {x y}, x ≤ y → (rd x).le (rd y) = true
  odd : ∀ x, rd (-x) = (rd x).neg
  idem : ∀ {x y}, rd x = .fin y → rd y = .fin y
  zero : rd 0 = .fin 0
  one : rd 1 = .fin 1
  hundred : rd 100 = .fin 100

section
variable {K : Type} [Field K] [LinearOrder K]

/-- Values computed with rounding `R`. -/
def Rval (_R : Rounding K) : Type := Val K

/-- round a value; NaN and the infinities stay -/
def Rounding.rnd (R : Rounding K) : Val K → Val K
  | .fin x => R.rd x
  | v => v

instance (R : Rounding K) : Flt (Rval R) where
  nan := Val.nan
  lit q := R.rd (q : K)
  add a b := R.rnd (Val.add a b)
  sub a b := R.rnd (Val.sub a b)
  mul a b := R.rnd (Val.mul a b)
  div a b := R.rnd (Val.div a b)
  neg := Val.neg
  abs := Val.abs
  lt := Val.lt
  le := Val.le
  eq := Val.eq
  isNaN := Val.isNaN
  isInf := Val.isInf

/-- `np.sqrt` and `np.log`, rounded -/
noncomputable instance (R : Rounding ℝ) : FltFn (Rval R) where
  toFlt := inferInstance
  sqrt a := R.rnd (Val.sqrt a)
  log a := R.rnd (Val.log a)

end

/-! ## IEEE-754 binary64 -/

section
variable {K : Type} [Field K] [LinearOrder K] [IsStrictOrderedRing K] [FloorRing K]

/-- round to the nearest integer, halves to the even one -/
def rhe (y : K) : ℤ :=
  if y - ⌊y⌋ < 1 / 2 then ⌊y⌋ else if 1 / 2 < y - ⌊y⌋ then ⌊y⌋ + 1 else if Even ⌊y⌋ then ⌊y⌋ else ⌊y⌋ + 1

omit [IsStrictOrderedRing K] in
theorem rhe_bounds (y : K) : ⌊y⌋ ≤ rhe y ∧ rhe y ≤ ⌊y⌋ + 1 := by
  unfold rhe
  split_ifs <;> omega

theorem rhe_int (n : ℤ) : rhe (n : K) = n := by
  unfold rhe
  rw [Int.floor_intCast, if_pos (by norm_num)]

theorem rhe_mono {x y : K} (h : x ≤ y) : rhe x ≤ rhe y := by
  rcases (Int.floor_mono h).eq_or_lt with e | e
  · unfold rhe
    rw [e]
    have : x - (⌊y⌋ : K) ≤ y - (⌊y⌋ : K) := by linarith
    split_ifs with h1 h2 h3 h4 h5 h6 h7 h8 <;> first | omega | (exfalso; linarith)
  · have h1 := (rhe_bounds x).2
    have h2 := (rhe_bounds y).1
    omega

/-- within half a unit the nearest integer is unique -/
theorem rhe_eq {y : K} {n : ℤ} (h : |y - n| < 1 / 2) : rhe y = n := by
  rw [abs_lt] at h
  have h0 := Int.floor_le y
  have h1 := Int.lt_floor_add_one y
  have hn : ⌊y⌋ = n ∨ ⌊y⌋ = n - 1 := by
    have a : ⌊y⌋ < n + 1 := Int.floor_lt.mpr (by push_cast; linarith)
    have b : n - 1 ≤ ⌊y⌋ := Int.le_floor.mpr (by push_cast; linarith)
    omega
  unfold rhe
  rcases hn with e | e
  · rw [e, if_pos (by linarith)]
  · rw [e]
    push_cast
    rw [if_neg (by linarith), if_pos (by linarith)]
    omega

/-- exponent of the last bit of a number of size `x` (53 bits, not below `2^-1074`) -/
def lastBit (x : K) : ℤ := max (Int.log 2 x - 52) (-1074)

/-- nearest binary64 value of a non-negative number, without the overflow -/
def b64pos (x : K) : K := rhe (x / 2 ^ lastBit x) * 2 ^ lastBit x

theorem two_zpow_pos (e : ℤ) : (0 : K) < 2 ^ e := zpow_pos (by norm_num) e

theorem lt_lastBit {x : K} : x < 2 ^ (lastBit x + 53) := by
  have := Int.lt_zpow_succ_log_self (R := K) (b := 2) (by norm_num) x
  push_cast at this
  refine this.trans_le (zpow_le_zpow_right₀ (by norm_num) ?_)
  unfold lastBit; omega

theorem lastBit_mono {x y : K} (hx : 0 < x) (h : x ≤ y) : lastBit x ≤ lastBit y := by
  have := Int.log_mono_right (R := K) (b := 2) hx h
  unfold lastBit; omega

theorem ge_lastBit {x : K} (hx : 0 < x) (h : -1074 < lastBit x) : 2 ^ (lastBit x + 52) ≤ x := by
  have := Int.zpow_log_le_self (R := K) (b := 2) (by norm_num) hx
  push_cast at this
  have e : lastBit x + 52 = Int.log 2 x := by unfold lastBit at h ⊢; omega
  rwa [e]

omit [IsStrictOrderedRing K] in
theorem zpow_split (a b : ℤ) (h : b ≤ a) : ∃ N : ℤ, (2 : K) ^ a / 2 ^ b = N := by
  refine ⟨2 ^ (a - b).toNat, ?_⟩
  rw [← zpow_sub₀ (by norm_num)]
  push_cast
  rw [← zpow_natCast, Int.toNat_of_nonneg (by omega)]

theorem b64pos_le_zpow {x : K} {e : ℤ} (h : x ≤ 2 ^ e) (he : lastBit x ≤ e) : b64pos x ≤ 2 ^ e := by
  obtain ⟨N, hN⟩ := zpow_split (K := K) e (lastBit x) he
  have hp := two_zpow_pos (K := K) (lastBit x)
  have : rhe (x / 2 ^ lastBit x) ≤ N := by
    have := rhe_mono (div_le_div_of_nonneg_right h hp.le)
    rwa [hN, rhe_int] at this
  unfold b64pos
  rw [div_eq_iff hp.ne'] at hN
  rw [hN]
  exact mul_le_mul_of_nonneg_right (by exact_mod_cast this) hp.le

theorem zpow_le_b64pos {x : K} {e : ℤ} (h : 2 ^ e ≤ x) (he : lastBit x ≤ e) : 2 ^ e ≤ b64pos x := by
  obtain ⟨N, hN⟩ := zpow_split (K := K) e (lastBit x) he
  have hp := two_zpow_pos (K := K) (lastBit x)
  have : N ≤ rhe (x / 2 ^ lastBit x) := by
    have := rhe_mono (div_le_div_of_nonneg_right h hp.le)
    rwa [hN, rhe_int] at this
  unfold b64pos
  rw [div_eq_iff hp.ne'] at hN
  rw [hN]
  exact mul_le_mul_of_nonneg_right (by exact_mod_cast this) hp.le

theorem b64pos_zero : b64pos (0 : K) = 0 := by
  unfold b64pos
  rw [zero_div]
  have := rhe_int (K := K) 0
  rw [Int.cast_zero] at this
  rw [this]; simp

theorem b64pos_nonneg {x : K} (hx : 0 ≤ x) : 0 ≤ b64pos x := by
  have hp := two_zpow_pos (K := K) (lastBit x)
  refine mul_nonneg ?_ hp.le
  have := rhe_mono (div_nonneg hx hp.le)
  have e := rhe_int (K := K) 0
  rw [Int.cast_zero] at e
  rw [e] at this
  exact_mod_cast this

theorem b64pos_mono {x y : K} (hx : 0 ≤ x) (h : x ≤ y) : b64pos x ≤ b64pos y := by
  rcases hx.eq_or_lt with e | hx
  · rw [← e, b64pos_zero]; exact b64pos_nonneg (e ▸ h)
  rcases (lastBit_mono hx h).eq_or_lt with e | e
  · have hp := two_zpow_pos (K := K) (lastBit y)
    unfold b64pos
    rw [e]
    refine mul_le_mul_of_nonneg_right ?_ hp.le
    exact_mod_cast rhe_mono (div_le_div_of_nonneg_right h hp.le)
  · have hy : -1074 < lastBit y := lt_of_le_of_lt (le_max_right _ _) e
    have h1 := ge_lastBit (hx.trans_le h) hy
    have h2 := zpow_le_b64pos h1 (by omega)
    have h3 : x ≤ 2 ^ (lastBit y + 52) := by
      refine (lt_lastBit (x := x)).le.trans (zpow_le_zpow_right₀ (by norm_num) (by omega))
    exact (b64pos_le_zpow h3 (by omega)).trans h2

/-- a multiple of `2^e` with at most 53 bits is kept -/
theorem b64pos_exact {k e : ℤ} (hk : 0 ≤ k) (hk2 : k ≤ 2 ^ 53) (he : -1074 ≤ e) :
    b64pos ((k : K) * 2 ^ e) = k * 2 ^ e := by
  rcases hk.eq_or_lt with h0 | h0
  · rw [← h0]; simp [b64pos_zero]
  have hp := two_zpow_pos (K := K) e
  have hkK : (0 : K) < k := by exact_mod_cast h0
  have hx : (0 : K) < k * 2 ^ e := mul_pos hkK hp
  generalize hX : (k : K) * 2 ^ e = x at *
  have hq := two_zpow_pos (K := K) (lastBit x)
  suffices h : ∃ N : ℤ, x / 2 ^ lastBit x = N by
    obtain ⟨N, hN⟩ := h
    unfold b64pos
    rw [hN, rhe_int, ← hN, div_mul_cancel₀ _ hq.ne']
  by_cases hle : lastBit x ≤ e
  · obtain ⟨N, hN⟩ := zpow_split (K := K) e (lastBit x) hle
    refine ⟨k * N, ?_⟩
    rw [← hX] at hN ⊢
    rw [mul_div_assoc, hN]
    push_cast; ring
  · have h1 := ge_lastBit hx (by omega)
    have h2 : x ≤ 2 ^ (e + 53) := by
      rw [← hX, add_comm, zpow_add₀ (by norm_num)]
      refine mul_le_mul_of_nonneg_right ?_ hp.le
      exact_mod_cast hk2
    have h3 : lastBit x + 52 ≤ e + 53 := (zpow_le_zpow_iff_right₀ (by norm_num : (1 : K) < 2)).mp (h1.trans h2)
    have h4 : lastBit x = e + 1 := by omega
    have h5 : x = 2 ^ (e + 53) := by
      refine le_antisymm h2 ?_
      rw [h4] at h1
      rwa [show e + 1 + 52 = e + 53 by omega] at h1
    obtain ⟨N, hN⟩ := zpow_split (K := K) (e + 53) (lastBit x) (by omega)
    exact ⟨N, by rw [← hN, ← h5]⟩

theorem b64pos_form {x : K} (hx : 0 ≤ x) : ∃ k e : ℤ, 0 ≤ k ∧ k ≤ 2 ^ 53 ∧ -1074 ≤ e ∧ b64pos x = k * 2 ^ e := by
  have hp := two_zpow_pos (K := K) (lastBit x)
  refine ⟨rhe (x / 2 ^ lastBit x), lastBit x, ?_, ?_, le_max_right _ _, rfl⟩
  · have := rhe_mono (div_nonneg hx hp.le)
    have e := rhe_int (K := K) 0
    rw [Int.cast_zero] at e
    rwa [e] at this
  · have h1 : x / 2 ^ lastBit x ≤ ((2 ^ 53 : ℤ) : K) := by
      rw [div_le_iff₀ hp]
      have := (lt_lastBit (x := x)).le
      rw [zpow_add₀ (by norm_num), mul_comm] at this
      exact_mod_cast this
    have := rhe_mono h1
    rwa [rhe_int] at this

/-- nearest binary64 value: ties to even, gradual underflow, overflow to infinity -/
def b64rd (x : K) : Val K :=
  if x < 0 then (if 2 ^ (1024 : ℤ) ≤ b64pos (-x) then .ninf else .fin (-b64pos (-x)))
  else if 2 ^ (1024 : ℤ) ≤ b64pos x then .pinf else .fin (b64pos x)

omit [IsStrictOrderedRing K] in
theorem b64rd_nonneg {x : K} (hx : 0 ≤ x) :
    b64rd x = if 2 ^ (1024 : ℤ) ≤ b64pos x then .pinf else .fin (b64pos x) := by
  unfold b64rd
  rw [if_neg (not_lt.mpr hx)]

theorem b64rd_neg (x : K) : b64rd (-x) = (b64rd x).neg := by
  have h0 : ¬ (2 ^ (1024 : ℤ) : K) ≤ 0 := not_le.mpr (two_zpow_pos _)
  unfold b64rd
  rcases lt_trichotomy x 0 with h | h | h
  · rw [if_neg (not_lt.mpr (neg_nonneg.mpr h.le)), if_pos h]
    split_ifs <;> simp [Val.neg]
  · subst h
    rw [neg_zero, if_neg (lt_irrefl _), b64pos_zero, if_neg h0]
    simp [Val.neg]
  · rw [if_pos (neg_lt_zero.mpr h), if_neg (not_lt.mpr h.le), neg_neg]
    split_ifs <;> simp [Val.neg]

omit [FloorRing K] in
theorem Val.le_neg (a b : Val K) : (a.neg).le b.neg = b.le a := by
  cases a <;> cases b <;> simp [Val.neg, Val.le]

theorem b64rd_mono_pos {x y : K} (hx : 0 ≤ x) (h : x ≤ y) : (b64rd x).le (b64rd y) = true := by
  rw [b64rd_nonneg hx, b64rd_nonneg (hx.trans h)]
  have := b64pos_mono hx h
  split_ifs <;> simp [Val.le]
  · linarith
  · exact this

/-- IEEE-754 double precision, round to nearest even. -/
def binary64 : Rounding K where
  rd := b64rd
  odd := b64rd_neg
  mono := by
    intro x y h
    rcases le_total 0 x with hx | hx
    · exact b64rd_mono_pos hx h
    rcases le_total 0 y with hy | hy
    · have h1 : (b64rd x).le (b64rd 0) = true := by
        have := b64rd_mono_pos (le_refl 0) (neg_nonneg.mpr hx)
        rwa [b64rd_neg, show b64rd (0 : K) = (b64rd 0).neg by rw [← b64rd_neg, neg_zero], Val.le_neg] at this
      have h2 := b64rd_mono_pos (le_refl 0) hy
      revert h1 h2
      generalize b64rd x = a
      generalize b64rd y = c
      generalize b64rd (0 : K) = b
      cases a <;> cases b <;> cases c <;> simp [Val.le]
      exact fun h1 h2 => h1.trans h2
    · have := b64rd_mono_pos (neg_nonneg.mpr hy) (neg_le_neg h)
      rwa [b64rd_neg, b64rd_neg, Val.le_neg] at this
  idem := by
    have key : ∀ {x y : K}, 0 ≤ x → b64rd x = .fin y → b64rd y = .fin y := by
      intro x y hx h
      rw [b64rd_nonneg hx] at h
      split_ifs at h with h1
      obtain rfl := Val.fin.inj h
      rw [b64rd_nonneg (b64pos_nonneg hx)]
      obtain ⟨k, e, q1, q2, q3, q4⟩ := b64pos_form hx
      have : b64pos (b64pos x) = b64pos x := by rw [q4, b64pos_exact q1 q2 q3]
      rw [this, if_neg h1]
    intro x y h
    rcases le_total 0 x with hx | hx
    · exact key hx h
    · have := key (neg_nonneg.mpr hx) (y := -y) (by rw [b64rd_neg, h]; rfl)
      have h2 := congrArg Val.neg this
      rw [← b64rd_neg, neg_neg] at h2
      rw [h2]; simp [Val.neg]
  zero := by
    rw [b64rd_nonneg (le_refl _), b64pos_zero, if_neg (not_le.mpr (two_zpow_pos _))]
  one := by
    have := b64pos_exact (K := K) (k := 1) (e := 0) (by norm_num) (by norm_num) (by norm_num)
    simp only [Int.cast_one, zpow_zero, mul_one] at this
    rw [b64rd_nonneg (by norm_num), this, if_neg (not_le.mpr (one_lt_zpow₀ (by norm_num) (by norm_num)))]
  hundred := by
    have := b64pos_exact (K := K) (k := 100) (e := 0) (by norm_num) (by norm_num) (by norm_num)
    simp only [zpow_zero, mul_one] at this
    push_cast at this
    have h : (100 : K) < 2 ^ (1024 : ℤ) :=
      lt_of_lt_of_le (by norm_num : (100 : K) < 2 ^ (7 : ℤ)) (zpow_le_zpow_right₀ (by norm_num) (by norm_num))
    rw [b64rd_nonneg (by norm_num), this, if_neg (not_le.mpr h)]

end
end TA
