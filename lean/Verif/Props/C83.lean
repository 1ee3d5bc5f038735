import Verif.Props.C82
import Verif.Props.C42

/-!
# C83: returns in double precision

`ROCIndicator(window=1)` and `DailyReturnIndicator` agree in exact arithmetic (C42).  In double precision the rate of
change subtracts first and is accurate to a relative error of about `3 * 2^-53`; the daily and the cumulative return
divide first, and a small return may be reported nearly twice as large as it is.
-/

set_option linter.unusedSectionVars false

namespace TA
variable {K : Type} [Field K] [LinearOrder K] [IsStrictOrderedRing K] [FloorRing K]

/-- `2^-100` -/
def priceMin : K := 2 ^ (-100 : ℤ)
/-- `2^100` -/
def priceMax : K := 2 ^ (100 : ℤ)

theorem priceMin_pos : (0 : K) < priceMin := two_zpow_pos _
theorem price_one : (priceMin : K) ≤ 1 ∧ (1 : K) ≤ priceMax := by
  constructor
  · exact zpow_le_one_of_nonpos₀ (by norm_num) (by norm_num)
  · exact one_le_zpow₀ (by norm_num) (by norm_num)
theorem price_prod : (priceMin : K) * priceMax = 1 := by
  unfold priceMin priceMax
  rw [← zpow_add₀ (by norm_num)]; norm_num

/-- underflow cannot be seen: `2^-1075 (200 / priceMin + 2) ≤ 2^-900` -/
theorem eta_price : (2 : K) ^ (-1075 : ℤ) * (200 * priceMax + 200) ≤ tiny := by
  have h1 : (200 : K) * priceMax + 200 ≤ 2 ^ (9 : ℤ) * priceMax := by
    have := (price_one (K := K)).2
    have e : (2 : K) ^ (9 : ℤ) = 512 := by norm_num
    rw [e]; linarith
  have h2 := mul_le_mul_of_nonneg_left h1 (two_zpow_pos (K := K) (-1075)).le
  refine h2.trans ?_
  unfold priceMax tiny
  rw [← zpow_add₀ (by norm_num), ← zpow_add₀ (by norm_num)]
  exact zpow_le_zpow_right₀ (by norm_num) (by norm_num)

theorem price_cap : 1000 * (priceMax * priceMax : K) ≤ 2 ^ (1023 : ℤ) := by
  refine big_le ?_
  unfold priceMax cap
  rw [← zpow_add₀ (by norm_num)]
  exact zpow_le_zpow_right₀ (by norm_num) (by norm_num)

/-- the three roundings of one rate of change -/
theorem roc_num {u η p D d q r : K} (hu : 0 ≤ u) (hu1 : u ≤ 1 / 1000) (hη : 0 ≤ η) (hp : 0 < p) (h1 : |d - D| ≤ u * |D| + η)
    (h2 : |q - d / p| ≤ u * |d / p| + η) (h3 : |r - q * 100| ≤ u * |q * 100| + η) :
    |r - D / p * 100| ≤ 4 * u * |D / p * 100| + η * (200 / p + 200) := by
  have a1 : |d / p - D / p| ≤ u * |D / p| + η / p := by
    rw [← sub_div, abs_div, abs_div, abs_of_pos hp, ← mul_div_assoc, ← add_div]
    exact div_le_div_of_nonneg_right h1 hp.le
  have hηp : 0 ≤ η / p := by positivity
  generalize d / p = x at *
  generalize D / p = X at *
  have e : η * (200 / p + 200) = 200 * (η / p) + 200 * η := by ring
  rw [e]
  generalize η / p = ζ at *
  have b1 : |x| ≤ |X| + (u * |X| + ζ) := by
    have := abs_add_le (x - X) X
    rw [sub_add_cancel] at this
    linarith
  have hX := mul_nonneg hu (abs_nonneg X)
  have b2 : u * |x| ≤ u * |X| + (u * (u * |X|) + u * ζ) := by
    have := mul_le_mul_of_nonneg_left b1 hu
    linarith
  have c1 : u * (u * |X|) ≤ 1 / 1000 * (u * |X|) := mul_le_mul_of_nonneg_right hu1 (by positivity)
  have c2 : u * ζ ≤ 1 / 1000 * ζ := mul_le_mul_of_nonneg_right hu1 hηp
  have c3 : u * η ≤ 1 / 1000 * η := mul_le_mul_of_nonneg_right hu1 hη
  have b3 : |q - X| ≤ 2.001 * (u * |X|) + 1.001 * ζ + η := by
    have := abs_add_le (q - x) (x - X)
    rw [sub_add_sub_cancel] at this
    linarith
  have b4 : |q| ≤ |X| + (2.001 * (u * |X|) + 1.001 * ζ + η) := by
    have := abs_add_le (q - X) X
    rw [sub_add_cancel] at this
    linarith
  have b5 : u * |q| ≤ u * |X| + (2.001 * (u * (u * |X|)) + 1.001 * (u * ζ) + u * η) := by
    have := mul_le_mul_of_nonneg_left b4 hu
    linarith
  have b6 := abs_add_le (r - q * 100) (q * 100 - X * 100)
  rw [sub_add_sub_cancel, ← sub_mul, abs_mul, abs_of_pos (by norm_num : (0 : K) < 100)] at b6
  rw [abs_mul, abs_of_pos (by norm_num : (0 : K) < 100)] at h3 ⊢
  linarith

/-- the three roundings of one daily return -/
theorem ret_num {u η R q d r : K} (hu : 0 ≤ u) (hu1 : u ≤ 1 / 1000) (hη1 : η ≤ u / 1000) (hR : 0 ≤ R)
    (h1 : |q - R| ≤ u * |R| + η) (h2 : |d - (q - 1)| ≤ u * |q - 1| + η) (h3 : |r - d * 100| ≤ u * |d * 100| + η) :
    |r - (R - 1) * 100| ≤ 320 * u * (R + 1) := by
  rw [abs_of_nonneg hR] at h1
  have huR : 0 ≤ u * R := by positivity
  have c1 : u * (u * R) ≤ 1 / 1000 * (u * R) := mul_le_mul_of_nonneg_right hu1 huR
  have c2 : u * u ≤ 1 / 1000 * u := mul_le_mul_of_nonneg_right hu1 hu
  have b0 : |R - 1| ≤ R + 1 := by rw [abs_le]; constructor <;> linarith
  have b1 : |q - 1| ≤ (R + 1) + (u * R + η) := by
    have := abs_add_le (q - R) (R - 1)
    rw [sub_add_sub_cancel] at this
    linarith
  have b2 : u * |q - 1| ≤ 1.002 * (u * (R + 1)) := by
    have h := mul_le_mul_of_nonneg_left b1 hu
    have : u * η ≤ u * (u / 1000) := mul_le_mul_of_nonneg_left hη1 hu
    linarith
  have b3 : |d - (R - 1)| ≤ 2.01 * (u * (R + 1)) := by
    have := abs_add_le (d - (q - 1)) (q - R)
    rw [show d - (q - 1) + (q - R) = d - (R - 1) by ring] at this
    linarith
  have b4 : u * |d| ≤ 1.01 * (u * (R + 1)) := by
    have h := abs_add_le (d - (R - 1)) (R - 1)
    rw [sub_add_cancel] at h
    have := mul_le_mul_of_nonneg_left (h.trans (add_le_add b3 b0)) hu
    linarith
  have b6 := abs_add_le (r - d * 100) (d * 100 - (R - 1) * 100)
  rw [sub_add_sub_cancel, ← sub_mul, abs_mul, abs_of_pos (by norm_num : (0 : K) < 100)] at b6
  rw [abs_mul, abs_of_pos (by norm_num : (0 : K) < 100)] at h3
  linarith

/-! ## rate of change -/

/-- prices between `2^-100` and `2^100` -/
def Priced (n : Nat) (c : Nat → K) : Prop := ∀ i, i < n → priceMin ≤ c i ∧ c i ≤ priceMax

theorem ratio_le {a b : K} (ha : priceMin ≤ a ∧ a ≤ priceMax) (hb : priceMin ≤ b ∧ b ≤ priceMax) :
    0 < a / b ∧ a / b ≤ priceMax * priceMax := by
  have h0 := priceMin_pos (K := K)
  have hb0 : 0 < b := h0.trans_le hb.1
  have ha0 : 0 < a := h0.trans_le ha.1
  refine ⟨by positivity, ?_⟩
  rw [div_le_iff₀ hb0]
  have h1 := (price_one (K := K)).2
  have h2 : priceMax * (priceMax * priceMin) ≤ priceMax * (priceMax * b) :=
    mul_le_mul_of_nonneg_left (mul_le_mul_of_nonneg_left hb.1 (by linarith)) (by linarith)
  rw [mul_comm priceMax priceMin, price_prod, mul_one] at h2
  linarith [ha.2]

/-- C83: one rate of change, relative error -/
theorem roc_row {a b : K} (ha : priceMin ≤ a ∧ a ≤ priceMax) (hb : priceMin ≤ b ∧ b ≤ priceMax) :
    ∃ y, ((rk a -. rk b) /. rk b) *. rk 100 = (rk y : Double K) ∧
      |y - 100 * (a / b - 1)| ≤ 4 * eps * |100 * (a / b - 1)| + tiny := by
  have h0 := priceMin_pos (K := K)
  have hb0 : 0 < b := h0.trans_le hb.1
  have hP1 := (price_one (K := K)).2
  have hPP : priceMax ≤ (priceMax * priceMax : K) := le_mul_of_one_le_right (by linarith) hP1
  obtain ⟨r0, r1⟩ := ratio_le ha hb
  have hc := price_cap (K := K)
  have hu := eps_pos (K := K)
  have hu1 := eps_small (K := K)
  have hη := (two_zpow_pos (K := K) (-1075)).le
  have hη1 := eta_le1 (K := K)
  have hηp := eta_price (K := K)
  have acc := b64_acc (K := K)
  change (binary64 : Rounding K).Acc eps _ _ at acc
  generalize (2 : K) ^ (-1075 : ℤ) = η at *
  generalize (2 : K) ^ (1023 : ℤ) = Ω at *
  have hd0 : |a - b| ≤ priceMax := by rw [abs_le]; constructor <;> linarith [ha.1, ha.2, hb.1, hb.2]
  obtain ⟨d, d1, _, d2⟩ := acc_sub acc (x := a) (y := b) (hd0.trans (by linarith))
  -- sizes, with exact later steps
  have hX : |(a - b) / b| ≤ 2 * (priceMax * priceMax) := by
    rw [sub_div, div_self hb0.ne', abs_le]
    constructor <;> linarith
  have hdb : |d / b| ≤ 3 * (priceMax * priceMax) := by
    have e : d / b = (d - (a - b)) / b + (a - b) / b := by ring
    have k1 : |(d - (a - b)) / b| ≤ priceMax * priceMax := by
      rw [abs_div, abs_of_pos hb0, div_le_iff₀ hb0]
      have k : |d - (a - b)| ≤ priceMax := by
        have := mul_le_mul hu1 hd0 (abs_nonneg _) (by norm_num)
        linarith
      have h2 : priceMax * (priceMax * priceMin) ≤ priceMax * (priceMax * b) :=
        mul_le_mul_of_nonneg_left (mul_le_mul_of_nonneg_left hb.1 (by linarith)) (by linarith)
      rw [mul_comm priceMax priceMin, price_prod, mul_one] at h2
      linarith
    rw [e]
    exact (abs_add_le _ _).trans (by linarith)
  obtain ⟨q, q1, q2⟩ := acc_div acc (x := d) (y := b) hb0.ne' (hdb.trans (by linarith))
  have hq : |q * 100| ≤ 500 * (priceMax * priceMax) := by
    have k1 := abs_add_le (q - d / b) (d / b)
    rw [sub_add_cancel] at k1
    have k2 := mul_le_mul hu1 hdb (abs_nonneg _) (by norm_num)
    rw [abs_mul, abs_of_pos (by norm_num : (0 : K) < 100)]
    linarith
  obtain ⟨r, r2, r3⟩ := acc_mul acc (x := q) (y := 100) (hq.trans (by linarith))
  refine ⟨r, by rw [d1, q1, r2], ?_⟩
  have := roc_num hu.le hu1 hη hb0 d2 q2 r3
  have e : (a - b) / b * 100 = 100 * (a / b - 1) := by field_simp
  rw [e] at this
  refine this.trans (add_le_add (le_refl _) ?_)
  refine le_trans (mul_le_mul_of_nonneg_left ?_ hη) hηp
  have : 200 / b ≤ 200 * priceMax := by
    rw [div_le_iff₀ hb0]
    have h2 := mul_le_mul_of_nonneg_left hb.1 (by linarith : 0 ≤ 200 * (priceMax : K))
    rw [mul_assoc, mul_comm priceMax priceMin, price_prod] at h2
    linarith
  linarith

/-- one return, absolute error -/
theorem ret_row {a b : K} (ha : priceMin ≤ a ∧ a ≤ priceMax) (hb : priceMin ≤ b ∧ b ≤ priceMax) :
    ∃ y, ((rk a /. rk b) -. rk 1) *. rk 100 = (rk y : Double K) ∧ |y - 100 * (a / b - 1)| ≤ 320 * eps * (a / b + 1) := by
  have h0 := priceMin_pos (K := K)
  have hb0 : 0 < b := h0.trans_le hb.1
  have hP1 := (price_one (K := K)).2
  have hPP : priceMax ≤ (priceMax * priceMax : K) := le_mul_of_one_le_right (by linarith) hP1
  obtain ⟨r0, r1⟩ := ratio_le ha hb
  have hc := price_cap (K := K)
  have hu := eps_pos (K := K)
  have hu1 := eps_small (K := K)
  have hη1 := eta_le1 (K := K)
  have acc := b64_acc (K := K)
  change (binary64 : Rounding K).Acc eps _ _ at acc
  generalize (2 : K) ^ (-1075 : ℤ) = η at *
  generalize (2 : K) ^ (1023 : ℤ) = Ω at *
  obtain ⟨q, q1, q2⟩ := acc_div acc (x := a) (y := b) hb0.ne' (by rw [abs_of_pos r0]; linarith)
  have hq : |q - 1| ≤ 2.01 * (priceMax * priceMax) := by
    have k1 := abs_le.mp q2
    rw [abs_of_pos r0] at k1
    have k2 := mul_le_mul hu1 r1 r0.le (by norm_num)
    rw [abs_le]
    constructor <;> linarith [k1.1, k1.2]
  obtain ⟨d, d1, _, d2⟩ := acc_sub acc (x := q) (y := 1) (hq.trans (by linarith))
  have hd : |d * 100| ≤ 300 * (priceMax * priceMax) := by
    have k1 := abs_add_le (d - (q - 1)) (q - 1)
    rw [sub_add_cancel] at k1
    have k2 := mul_le_mul hu1 hq (abs_nonneg _) (by norm_num)
    rw [abs_mul, abs_of_pos (by norm_num : (0 : K) < 100)]
    linarith
  obtain ⟨r, r2, r3⟩ := acc_mul acc (x := d) (y := 100) (hd.trans (by linarith))
  refine ⟨r, by rw [q1, d1, r2], ?_⟩
  have := ret_num hu.le hu1 hη1 r0.le q2 d2 r3
  rwa [mul_comm _ (100 : K)] at this

theorem ix_rk {n : Nat} {c : Nat → K} {i : Nat} (hi : i < n) : ix (dser n c) i = rk (c i) := ix_tab_lt hi

theorem ix_num {n : Nat} {c : Nat → K} {i : Nat} (hi : i < n) : ix (ser n c) i = .fin (c i) :=
  (def_ser n c).val i hi (Nat.zero_le _)

theorem len_dser (n : Nat) (c : Nat → K) : (dser n c).length = n := by simp [rser]

/-- filling leaves numbers alone -/
theorem fill_rk {s : Series (Double K)} {b : Bool} {v : Fill (Double K)} {i : Nat} (hi : i < s.length) {y : K}
    (h : ix s i = rk y) : ix (checkFillna b v s) i = rk y := by
  cases b with
  | false => exact h
  | true => exact Eq.trans (checkFillna_keep (F := Val K) (s := s) (v := v) (i := i) hi (num_iff.mpr ⟨y, h⟩)) h

theorem fill_fin {s : Series (Val K)} {b : Bool} {v : Fill (Val K)} {i : Nat} (hi : i < s.length) {y : K}
    (h : ix s i = .fin y) : ix (checkFillna b v s) i = .fin y := by
  cases b with
  | false => exact h
  | true => exact Eq.trans (checkFillna_keep (s := s) (v := v) (i := i) hi (num_iff.mpr ⟨y, h⟩)) h

theorem ix_roc {F : Type} [Flt F] (s : Series F) {w i : Nat} (hi : i < s.length) (hw : w ≤ i) :
    ix (ROC.run s w) i = ((ix s i -. ix s (i - w)) /. ix s (i - w)) *. lit 100 := by
  unfold ROC.run
  rw [ix_mulc (by simpa using hi), ix_sdiv (by simpa using hi), ix_ssub hi, ix_shift hi, if_neg (by omega)]

theorem ix_daily {F : Type} [Flt F] (s : Series F) {i : Nat} (hi : i + 1 < s.length) :
    ix (DR.run s) (i + 1) = ((ix s (i + 1) /. ix s i) -. lit 1) *. lit 100 := by
  unfold DR.run
  rw [ix_mulc (by simpa using hi), ix_subc (by simpa using hi), ix_sdiv hi, ix_shift hi, if_neg (by omega), Nat.add_sub_cancel]

theorem ix_cumret {F : Type} [Flt F] (s : Series F) {i : Nat} (hi : i < s.length) :
    ix (CR.run s) i = ((ix s i /. ix s 0) -. lit 1) *. lit 100 := by
  unfold CR.run
  rw [ix_mulc (by simpa using hi), ix_subc (by simpa using hi), ix_divc hi]

theorem ret_exact {a b : K} (hb : b ≠ 0) :
    ((Val.fin a /. Val.fin b) -. lit 1) *. lit 100 = (Val.fin (100 * (a / b - 1)) : Val K) := by
  rw [fin_div _ _ hb, lit_fin, lit_fin, fin_sub, fin_mul]
  congr 1
  push_cast
  ring

/-- C83: the rate of change is accurate to a relative error of `4 * 2^-53` (plus `2^-900`). -/
theorem roc_double {n : Nat} {c : Nat → K} (hc : Priced n c) (w : Nat) (fillna : Bool) {i : Nat} (hi : i < n) (hw : w ≤ i) :
    ∃ y z : K, ix (roc (dser n c) w fillna) i = Val.fin y ∧ ix (roc (ser n c) w fillna) i = .fin z ∧
      z = 100 * (c i / c (i - w) - 1) ∧ |y - z| ≤ 4 * eps * |z| + tiny := by
  have hb := hc (i - w) (by omega)
  have hb0 : c (i - w) ≠ 0 := (priceMin_pos.trans_le hb.1).ne'
  obtain ⟨y, y1, y2⟩ := roc_row (hc i hi) hb
  refine ⟨y, _, fill_rk ?_ ?_, fill_fin ?_ ?_, rfl, y2⟩
  · simpa [ROC.run, rser] using hi
  · rw [ix_roc _ (by rw [len_dser]; exact hi) hw, ix_rk hi, ix_rk (by omega), lit100k]; exact y1
  · simpa [ROC.run, ser] using hi
  · rw [ix_roc _ (by simpa [ser] using hi) hw, ix_num hi, ix_num (by omega), fin_sub, fin_div _ _ hb0, lit_fin, fin_mul]
    congr 1
    push_cast
    field_simp

/-- C83: the daily return has an absolute error of at most `320 * 2^-53 * (1 + ratio of the two closes)`. -/
theorem daily_double {n : Nat} {c : Nat → K} (hc : Priced n c) (fillna : Bool) {i : Nat} (hi : i + 1 < n) :
    ∃ y z : K, ix (dailyReturn (dser n c) fillna) (i + 1) = Val.fin y ∧ ix (dailyReturn (ser n c) fillna) (i + 1) = .fin z ∧
      z = 100 * (c (i + 1) / c i - 1) ∧ |y - z| ≤ 320 * eps * (c (i + 1) / c i + 1) := by
  have hb := hc i (by omega)
  obtain ⟨y, y1, y2⟩ := ret_row (hc (i + 1) hi) hb
  refine ⟨y, _, fill_rk ?_ ?_, fill_fin ?_ ?_, rfl, y2⟩
  · simpa [DR.run, rser] using hi
  · rw [ix_daily _ (by rw [len_dser]; exact hi), ix_rk hi, ix_rk (by omega), lit100k, lit1k]; exact y1
  · simpa [DR.run, ser] using hi
  · rw [ix_daily _ (by simpa [ser] using hi), ix_num hi, ix_num (by omega)]
    exact ret_exact (priceMin_pos.trans_le hb.1).ne'

/-- C83: the cumulative return has an absolute error of at most `320 * 2^-53 * (1 + growth since row 0)`. -/
theorem cumulative_double {n : Nat} {c : Nat → K} (hn : 0 < n) (hc : Priced n c) (fillna : Bool) :
    ∃ (out : Series (Double K)) (exact : Series (Val K)),
      cumulativeReturn (dser n c) fillna = .ok out ∧ cumulativeReturn (ser n c) fillna = .ok exact ∧
      ∀ i, i < n → ∃ y z : K, ix out i = Val.fin y ∧ ix exact i = .fin z ∧ z = 100 * (c i / c 0 - 1) ∧
        |y - z| ≤ 320 * eps * (c i / c 0 + 1) := by
  refine ⟨_, _, by unfold cumulativeReturn; rw [if_neg (by rw [len_dser]; omega)],
    by unfold cumulativeReturn; rw [if_neg (by simp [ser]; omega)], fun i hi => ?_⟩
  have hb := hc 0 hn
  obtain ⟨y, y1, y2⟩ := ret_row (hc i hi) hb
  refine ⟨y, _, fill_rk ?_ ?_, fill_fin ?_ ?_, rfl, y2⟩
  · simpa [CR.run, rser] using hi
  · rw [ix_cumret _ (by rw [len_dser]; exact hi), ix_rk hi, ix_rk hn, lit100k, lit1k]; exact y1
  · simpa [CR.run, ser] using hi
  · rw [ix_cumret _ (by simpa [ser] using hi), ix_num hi, ix_num hn]
    exact ret_exact (priceMin_pos.trans_le hb.1).ne'

/-! ## the two orders of operations differ -/

/-- just below 2, then 2: neighbouring doubles -/
def step2 (i : Nat) : ℚ := if i = 0 then 2 - 1 / 2 ^ 52 else 2

/-- C83: on two neighbouring closes the daily return is almost twice the true one, the rate of change is right to 16
digits; in exact arithmetic the two are equal (C42). -/
theorem daily_double_twice : ∃ z : ℚ,
    0 < z ∧ ix (dailyReturn (ser 2 step2)) 1 = .fin z ∧ ix (roc (ser 2 step2) 1) 1 = .fin z ∧
    (∃ y : ℚ, ix (dailyReturn (dser 2 step2)) 1 = Val.fin y ∧ 1.999 * z ≤ y) ∧
    (∃ y : ℚ, ix (roc (dser 2 step2) 1) 1 = Val.fin y ∧ |y - z| ≤ 4 * eps * z) := by
  refine ⟨100 / 9007199254740991, by norm_num, by decide +kernel, by decide +kernel,
    ⟨25 / 1125899906842624, show ix (dailyReturn (dser 2 step2)) 1 = rk (25 / 1125899906842624) by decide +kernel, by norm_num⟩,
    ⟨3518437208883201 / 316912650057057350374175801344, show ix (roc (dser 2 step2) 1) 1 =
      rk (3518437208883201 / 316912650057057350374175801344) by decide +kernel, ?_⟩⟩
  have hu : (eps : ℚ) = 1 / 2 ^ 53 := by unfold eps; norm_num
  rw [hu, abs_le]
  constructor <;> norm_num

/-! ## examples -/

/-- from 10 to 11: the rate of change is 10, the daily and the cumulative return are 10.00000000000001 -/
example : roc (dser 3 wavy) 1 = [nan, rk 10, rk (-5117726849284655 / 1125899906842624)] ∧
    dailyReturn (dser 3 wavy) = [nan, rk (5629499534213125 / 562949953421312), rk (-2558863424642325 / 562949953421312)] ∧
    cumulativeReturn (dser 3 wavy) = .ok [rk 0, rk (5629499534213125 / 562949953421312),
      rk (5629499534213125 / 1125899906842624)] := by decide +kernel

example : Priced 6 wavy := by
  have h1 := (price_one (K := ℚ)).1
  have h2 : (16 : ℚ) ≤ priceMax := by
    have : (2 : ℚ) ^ (4 : ℤ) ≤ 2 ^ (100 : ℤ) := zpow_le_zpow_right₀ (by norm_num) (by norm_num)
    exact le_trans (by norm_num) this
  have h4 : ∀ i, i < 6 → 1 ≤ wavy i ∧ wavy i ≤ 16 := by decide +kernel
  intro i hi
  have h3 := h4 i hi
  exact ⟨h1.trans h3.1, h3.2.trans h2⟩

end TA
