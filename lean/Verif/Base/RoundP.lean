import Verif.Base.Round

/-!
# Binary floating point of any precision

The construction of `binary64` (`Base/Round.lean`) with the number of bits as a parameter; `binary32` is numpy's `float32`.
-/

namespace TA

section
variable {K : Type} [Field K] [LinearOrder K] [IsStrictOrderedRing K] [FloorRing K]

/-- exponent of the last bit of a number of size `x` (`p + 1` bits, not below `2^e0`) -/
def lastBitP (p : ℕ) (e0 : ℤ) (x : K) : ℤ := max (Int.log 2 x - p) e0

/-- nearest binary value of a non-negative number, without the overflow -/
def binpos (p : ℕ) (e0 : ℤ) (x : K) : K := rhe (x / 2 ^ (lastBitP p e0 x)) * 2 ^ (lastBitP p e0 x)

variable {p : ℕ} {e0 E : ℤ}

theorem lt_lastBitP {x : K} : x < 2 ^ ((lastBitP p e0 x) + (p + 1)) := by
  have := Int.lt_zpow_succ_log_self (R := K) (b := 2) (by norm_num) x
  push_cast at this
  refine this.trans_le (zpow_le_zpow_right₀ (by norm_num) ?_)
  unfold lastBitP; omega

theorem lastBitP_mono {x y : K} (hx : 0 < x) (h : x ≤ y) : (lastBitP p e0 x) ≤ (lastBitP p e0 y) := by
  have := Int.log_mono_right (R := K) (b := 2) hx h
  unfold lastBitP; omega

theorem ge_lastBitP {x : K} (hx : 0 < x) (h : e0 < (lastBitP p e0 x)) : 2 ^ ((lastBitP p e0 x) + p) ≤ x := by
  have := Int.zpow_log_le_self (R := K) (b := 2) (by norm_num) hx
  push_cast at this
  have e : (lastBitP p e0 x) + p = Int.log 2 x := by unfold lastBitP at h ⊢; omega
  rwa [e]

theorem binpos_le_zpow {x : K} {e : ℤ} (h : x ≤ 2 ^ e) (he : (lastBitP p e0 x) ≤ e) : binpos p e0 x ≤ 2 ^ e := by
  obtain ⟨N, hN⟩ := zpow_split (K := K) e (lastBitP p e0 x) he
  have hp := two_zpow_pos (K := K) (lastBitP p e0 x)
  have : rhe (x / 2 ^ (lastBitP p e0 x)) ≤ N := by
    have := rhe_mono (div_le_div_of_nonneg_right h hp.le)
    rwa [hN, rhe_int] at this
  unfold binpos
  rw [div_eq_iff hp.ne'] at hN
  rw [hN]
  exact mul_le_mul_of_nonneg_right (by exact_mod_cast this) hp.le

theorem zpow_le_binpos {x : K} {e : ℤ} (h : 2 ^ e ≤ x) (he : (lastBitP p e0 x) ≤ e) : 2 ^ e ≤ binpos p e0 x := by
  obtain ⟨N, hN⟩ := zpow_split (K := K) e (lastBitP p e0 x) he
  have hp := two_zpow_pos (K := K) (lastBitP p e0 x)
  have : N ≤ rhe (x / 2 ^ (lastBitP p e0 x)) := by
    have := rhe_mono (div_le_div_of_nonneg_right h hp.le)
    rwa [hN, rhe_int] at this
  unfold binpos
  rw [div_eq_iff hp.ne'] at hN
  rw [hN]
  exact mul_le_mul_of_nonneg_right (by exact_mod_cast this) hp.le

theorem binpos_zero : binpos p e0 (0 : K) = 0 := by
  unfold binpos
  rw [zero_div]
  have := rhe_int (K := K) 0
  rw [Int.cast_zero] at this
  rw [this]; simp

theorem binpos_nonneg {x : K} (hx : 0 ≤ x) : 0 ≤ binpos p e0 x := by
  have hp := two_zpow_pos (K := K) (lastBitP p e0 x)
  refine mul_nonneg ?_ hp.le
  have := rhe_mono (div_nonneg hx hp.le)
  have e := rhe_int (K := K) 0
  rw [Int.cast_zero] at e
  rw [e] at this
  exact_mod_cast this

theorem binpos_mono {x y : K} (hx : 0 ≤ x) (h : x ≤ y) : binpos p e0 x ≤ binpos p e0 y := by
  rcases hx.eq_or_lt with e | hx
  · rw [← e, binpos_zero]; exact binpos_nonneg (e ▸ h)
  rcases (lastBitP_mono hx h).eq_or_lt with e | e
  · have hp := two_zpow_pos (K := K) (lastBitP p e0 y)
    unfold binpos
    rw [e]
    refine mul_le_mul_of_nonneg_right ?_ hp.le
    exact_mod_cast rhe_mono (div_le_div_of_nonneg_right h hp.le)
  · have hy : e0 < (lastBitP p e0 y) := lt_of_le_of_lt (le_max_right _ _) e
    have h1 := ge_lastBitP (hx.trans_le h) hy
    have h2 := zpow_le_binpos (p := p) (e0 := e0) h1 (by omega)
    have h3 : x ≤ 2 ^ ((lastBitP p e0 y) + p) := by
      refine (lt_lastBitP (p := p) (e0 := e0) (x := x)).le.trans (zpow_le_zpow_right₀ (by norm_num) (by omega))
    exact (binpos_le_zpow h3 (by omega)).trans h2

/-- a multiple of `2^e` with at most `p + 1` bits is kept -/
theorem binpos_exact {k e : ℤ} (hk : 0 ≤ k) (hk2 : k ≤ 2 ^ (p + 1)) (he : e0 ≤ e) :
    binpos p e0 ((k : K) * 2 ^ e) = k * 2 ^ e := by
  rcases hk.eq_or_lt with h0 | h0
  · rw [← h0]; simp [binpos_zero]
  have hp := two_zpow_pos (K := K) e
  have hkK : (0 : K) < k := by exact_mod_cast h0
  have hx : (0 : K) < k * 2 ^ e := mul_pos hkK hp
  generalize hX : (k : K) * 2 ^ e = x at *
  have hq := two_zpow_pos (K := K) (lastBitP p e0 x)
  suffices h : ∃ N : ℤ, x / 2 ^ (lastBitP p e0 x) = N by
    obtain ⟨N, hN⟩ := h
    unfold binpos
    rw [hN, rhe_int, ← hN, div_mul_cancel₀ _ hq.ne']
  by_cases hle : (lastBitP p e0 x) ≤ e
  · obtain ⟨N, hN⟩ := zpow_split (K := K) e (lastBitP p e0 x) hle
    refine ⟨k * N, ?_⟩
    rw [← hX] at hN ⊢
    rw [mul_div_assoc, hN]
    push_cast; ring
  · have h1 := ge_lastBitP (p := p) (e0 := e0) hx (by omega)
    have h2 : x ≤ 2 ^ (e + (p + 1)) := by
      rw [← hX, add_comm, zpow_add₀ (by norm_num)]
      refine mul_le_mul_of_nonneg_right ?_ hp.le
      exact_mod_cast hk2
    have h3 : (lastBitP p e0 x) + p ≤ e + (p + 1) := (zpow_le_zpow_iff_right₀ (by norm_num : (1 : K) < 2)).mp (h1.trans h2)
    have h4 : (lastBitP p e0 x) = e + 1 := by omega
    have h5 : x = 2 ^ (e + (p + 1)) := by
      refine le_antisymm h2 ?_
      rw [h4] at h1
      rwa [show e + 1 + p = e + (p + 1) by omega] at h1
    obtain ⟨N, hN⟩ := zpow_split (K := K) (e + (p + 1)) (lastBitP p e0 x) (by omega)
    exact ⟨N, by rw [← hN, ← h5]⟩

theorem binpos_form {x : K} (hx : 0 ≤ x) : ∃ k e : ℤ, 0 ≤ k ∧ k ≤ 2 ^ (p + 1) ∧ e0 ≤ e ∧ binpos p e0 x = k * 2 ^ e := by
  have hp := two_zpow_pos (K := K) (lastBitP p e0 x)
  refine ⟨rhe (x / 2 ^ (lastBitP p e0 x)), (lastBitP p e0 x), ?_, ?_, le_max_right _ _, rfl⟩
  · have := rhe_mono (div_nonneg hx hp.le)
    have e := rhe_int (K := K) 0
    rw [Int.cast_zero] at e
    rwa [e] at this
  · have h1 : x / 2 ^ (lastBitP p e0 x) ≤ ((2 ^ (p + 1) : ℤ) : K) := by
      rw [div_le_iff₀ hp]
      have := (lt_lastBitP (p := p) (e0 := e0) (x := x)).le
      rw [zpow_add₀ (by norm_num), mul_comm] at this
      exact_mod_cast this
    have := rhe_mono h1
    rwa [rhe_int] at this

/-- nearest binary value: ties to even, gradual underflow, overflow to infinity -/
def binrd (p : ℕ) (e0 E : ℤ) (x : K) : Val K :=
  if x < 0 then (if 2 ^ E ≤ binpos p e0 (-x) then .ninf else .fin (-binpos p e0 (-x)))
  else if 2 ^ E ≤ binpos p e0 x then .pinf else .fin (binpos p e0 x)

omit [IsStrictOrderedRing K] in
theorem binrd_nonneg {x : K} (hx : 0 ≤ x) :
    binrd p e0 E x = if 2 ^ E ≤ binpos p e0 x then .pinf else .fin (binpos p e0 x) := by
  unfold binrd
  rw [if_neg (not_lt.mpr hx)]

theorem binrd_neg (x : K) : binrd p e0 E (-x) = (binrd p e0 E x).neg := by
  have h0 : ¬ (2 ^ E : K) ≤ 0 := not_le.mpr (two_zpow_pos _)
  unfold binrd
  rcases lt_trichotomy x 0 with h | h | h
  · rw [if_neg (not_lt.mpr (neg_nonneg.mpr h.le)), if_pos h]
    split_ifs <;> simp [Val.neg]
  · subst h
    rw [neg_zero, if_neg (lt_irrefl _), binpos_zero, if_neg h0]
    simp [Val.neg]
  · rw [if_pos (neg_lt_zero.mpr h), if_neg (not_lt.mpr h.le), neg_neg]
    split_ifs <;> simp [Val.neg]

theorem binrd_mono_pos {x y : K} (hx : 0 ≤ x) (h : x ≤ y) : (binrd p e0 E x).le (binrd p e0 E y) = true := by
  rw [binrd_nonneg hx, binrd_nonneg (hx.trans h)]
  have := binpos_mono (p := p) (e0 := e0) hx h
  split_ifs <;> simp [Val.le]
  · linarith
  · exact this

/-- Binary floating point with `p + 1` significant bits, smallest positive number `2^e0`, overflow from `2^E` on; round to nearest even. -/
def binaryP (p : ℕ) (e0 E : ℤ) (hp : 6 ≤ p) (h0 : e0 ≤ 0) (hE : 7 ≤ E) : Rounding K where
  rd := binrd p e0 E
  odd := binrd_neg
  mono := by
    intro x y h
    rcases le_total 0 x with hx | hx
    · exact binrd_mono_pos hx h
    rcases le_total 0 y with hy | hy
    · have h1 : (binrd p e0 E x).le (binrd p e0 E 0) = true := by
        have := binrd_mono_pos (p := p) (e0 := e0) (E := E) (le_refl 0) (neg_nonneg.mpr hx)
        rwa [binrd_neg, show binrd p e0 E (0 : K) = (binrd p e0 E 0).neg by rw [← binrd_neg, neg_zero], Val.le_neg] at this
      have h2 := binrd_mono_pos (p := p) (e0 := e0) (E := E) (le_refl 0) hy
      revert h1 h2
      generalize binrd p e0 E x = a
      generalize binrd p e0 E y = c
      generalize binrd p e0 E (0 : K) = b
      cases a <;> cases b <;> cases c <;> simp [Val.le]
      exact fun h1 h2 => h1.trans h2
    · have := binrd_mono_pos (p := p) (e0 := e0) (E := E) (neg_nonneg.mpr hy) (neg_le_neg h)
      rwa [binrd_neg, binrd_neg, Val.le_neg] at this
  idem := by
    have key : ∀ {x y : K}, 0 ≤ x → binrd p e0 E x = .fin y → binrd p e0 E y = .fin y := by
      intro x y hx h
      rw [binrd_nonneg hx] at h
      split_ifs at h with h1
      obtain rfl := Val.fin.inj h
      rw [binrd_nonneg (binpos_nonneg hx)]
      obtain ⟨k, e, q1, q2, q3, q4⟩ := binpos_form (p := p) (e0 := e0) hx
      have : binpos p e0 (binpos p e0 x) = binpos p e0 x := by rw [q4, binpos_exact q1 q2 q3]
      rw [this, if_neg h1]
    intro x y h
    rcases le_total 0 x with hx | hx
    · exact key hx h
    · have := key (neg_nonneg.mpr hx) (y := -y) (by rw [binrd_neg, h]; rfl)
      have h2 := congrArg Val.neg this
      rw [← binrd_neg, neg_neg] at h2
      rw [h2]; simp [Val.neg]
  zero := by
    rw [binrd_nonneg (le_refl _), binpos_zero, if_neg (not_le.mpr (two_zpow_pos _))]
  one := by
    have := binpos_exact (K := K) (p := p) (e0 := e0) (k := 1) (e := 0) (by norm_num) (one_le_pow₀ (by norm_num)) h0
    simp only [Int.cast_one, zpow_zero, mul_one] at this
    rw [binrd_nonneg (by norm_num), this, if_neg (not_le.mpr (one_lt_zpow₀ (by norm_num) (by omega)))]
  hundred := by
    have := binpos_exact (K := K) (p := p) (e0 := e0) (k := 100) (e := 0) (by norm_num) (le_trans (by norm_num : (100 : ℤ) ≤ 2 ^ 7) (pow_le_pow_right₀ (by norm_num) (by omega))) h0
    simp only [zpow_zero, mul_one] at this
    push_cast at this
    have h : (100 : K) < 2 ^ E :=
      lt_of_lt_of_le (by norm_num : (100 : K) < 2 ^ (7 : ℤ)) (zpow_le_zpow_right₀ (by norm_num) hE)
    rw [binrd_nonneg (by norm_num), this, if_neg (not_le.mpr h)]

/-- IEEE-754 single precision, numpy's `float32` -/
def binary32 : Rounding K := binaryP 23 (-149) 128 (by norm_num) (by norm_num) (by norm_num)

/-- the same construction gives double precision -/
theorem binaryP_64 : (binaryP 52 (-1074) 1024 (by norm_num) (by norm_num) (by norm_num) : Rounding K) = binary64 := rfl

/-- integers of at most `p + 1` bits are kept -/
theorem binrd_int {k : ℤ} (hk : |k| ≤ 2 ^ (p + 1)) (h0 : e0 ≤ 0) (hE : (p : ℤ) + 1 < E) : binrd p e0 E (k : K) = .fin k := by
  have key : ∀ k : ℤ, 0 ≤ k → k ≤ 2 ^ (p + 1) → binrd p e0 E (k : K) = .fin k := by
    intro k h1 h2
    have := binpos_exact (K := K) (p := p) (e0 := e0) (k := k) (e := 0) h1 h2 h0
    rw [zpow_zero, mul_one] at this
    have h3 : (k : K) < 2 ^ E := by
      refine lt_of_le_of_lt (b := (2 : K) ^ ((p : ℤ) + 1)) ?_ (zpow_lt_zpow_right₀ (by norm_num) hE)
      have : ((k : ℤ) : K) ≤ ((2 ^ (p + 1) : ℤ) : K) := by exact_mod_cast h2
      refine this.trans (le_of_eq ?_)
      push_cast
      rw [← zpow_natCast]
      push_cast
      rfl
    rw [binrd_nonneg (by exact_mod_cast h1), this, if_neg (not_le.mpr h3)]
  rw [abs_le] at hk
  rcases le_total 0 k with h | h
  · exact key k h hk.2
  · have := key (-k) (by omega) (by omega)
    have h2 := congrArg Val.neg this
    rw [← binrd_neg] at h2
    simpa [Val.neg] using h2

/-- what is too small to be heard: adding at most half a unit of the last place to `2^m` gives `2^m` -/
theorem binrd_deaf {m : ℤ} {v : K} (hp : 1 ≤ p) (hm : e0 ≤ m - p) (hE : m < E) (h0 : 0 ≤ v) (h1 : v ≤ 2 ^ (m - p - 1)) :
    binrd p e0 E ((2 : K) ^ m + v) = .fin (2 ^ m) := by
  have hq := two_zpow_pos (K := K) (m - p)
  have hhalf : (2 : K) ^ (m - p - 1) = 2 ^ (m - p) / 2 := by
    rw [zpow_sub₀ (by norm_num) (m - p) 1, zpow_one]
  have hlt : v < 2 ^ m := by
    refine lt_of_le_of_lt h1 (zpow_lt_zpow_right₀ (by norm_num) (by omega))
  have hpos : (0 : K) < 2 ^ m + v := add_pos_of_pos_of_nonneg (two_zpow_pos _) h0
  have hlog : Int.log 2 ((2 : K) ^ m + v) = m := by
    refine le_antisymm ?_ ?_
    · refine Int.lt_add_one_iff.mp ?_
      rw [Int.lt_zpow_iff_log_lt (by norm_num) hpos |>.symm]
      push_cast
      rw [zpow_add₀ (by norm_num), zpow_one]
      linarith
    · rw [← Int.zpow_le_iff_le_log (by norm_num) hpos]
      push_cast
      linarith
  have hlb : lastBitP p e0 ((2 : K) ^ m + v) = m - p := by
    unfold lastBitP
    rw [hlog]
    omega
  have hdiv : ((2 : K) ^ m + v) / 2 ^ (m - p) = ((2 ^ p : ℤ) : K) + v / 2 ^ (m - p) := by
    rw [add_div, ← zpow_sub₀ (by norm_num), show m - (m - (p : ℤ)) = p by omega, zpow_natCast]
    push_cast
    rfl
  have hv2 : v / 2 ^ (m - p) ≤ 1 / 2 := by
    rw [div_le_iff₀ hq]
    linarith
  have hv0 : 0 ≤ v / 2 ^ (m - p) := div_nonneg h0 hq.le
  have hr : rhe (((2 : K) ^ m + v) / 2 ^ (m - p)) = 2 ^ p := by
    rw [hdiv]
    have hf : ⌊((2 ^ p : ℤ) : K) + v / 2 ^ (m - p)⌋ = 2 ^ p := by
      rw [Int.floor_eq_iff]
      constructor
      · linarith
      · linarith
    unfold rhe
    rw [hf]
    rcases hv2.eq_or_lt with e | e
    · rw [if_neg (by linarith), if_neg (by linarith), if_pos]
      exact (even_two.pow_of_ne_zero (by omega) : Even ((2 : ℤ) ^ p))
    · rw [if_pos (by linarith)]
  have hb : binpos p e0 ((2 : K) ^ m + v) = 2 ^ m := by
    unfold binpos
    rw [hlb, hr]
    push_cast
    rw [← zpow_natCast, ← zpow_add₀ (by norm_num), show (p : ℤ) + (m - p) = m by omega]
  rw [binrd_nonneg hpos.le, hb, if_neg (not_le.mpr (zpow_lt_zpow_right₀ (by norm_num) hE))]

end
end TA
