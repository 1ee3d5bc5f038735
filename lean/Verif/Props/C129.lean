import Verif.Props.C121

/-!
# C129 — what filling does to the head of KAMA

`ta/momentum.py:317-349`. With `fillna=True` the windows of the efficiency ratio may be short, but `np.roll` still reaches
round the end of the column. So on the rows before `window - 1` the numerator compares the close with a close near the END
of the column while the denominator has only the few changes seen so far: the "ratio" is no ratio, its square is no weight,
and the line may leave the prices by any factor. From row `window - 1` on the ratio is one, and the damage fades.
-/

set_option linter.unusedSectionVars false

namespace TA
open Finset

variable {K : Type} [Field K] [LinearOrder K] [IsStrictOrderedRing K]

/-- from row `w - 1` on the ratio is one -/
theorem wrapRatio_unit {n : Nat} (c : Nat → K) {w i : Nat} (hw : 1 ≤ w) (hi : i < n) (h : w ≤ i + 1) : 0 ≤ wrapRatio c n w i ∧ wrapRatio c n w i ≤ 1 := by
  have e : ∑ j ∈ Ico (i + 1 - w) (i + 1), |c j - c (wrapBack n 1 j)| = wsum (kVol n c) w i := by
    unfold wsum
    refine sum_congr rfl fun j hj => ?_
    rw [mem_Ico] at hj
    unfold kVol
    rw [kIx_wrap (by omega) (by omega)]
  have := kEr_unit' c hw hi (by omega : w - 1 ≤ i)
  unfold kEr at this
  unfold wrapRatio
  rw [e, ← kIx_wrap hi (by omega)]
  by_cases q : wsum (kVol n c) w i = 0
  · simp [q]
  · rwa [if_neg q, ← if_pos (c := wsum (kVol n c) w i ≠ 0) (t := |c i - c (kIx n w i)| / wsum (kVol n c) w i) (e := 0) q]

theorem wrapRatio_nonneg {n : Nat} (c : Nat → K) (w i : Nat) : 0 ≤ wrapRatio c n w i := by
  unfold wrapRatio
  split_ifs
  · exact le_refl _
  · exact div_nonneg (abs_nonneg _) (sum_nonneg fun _ _ => abs_nonneg _)

/-- off the wrap the two ratios are the same -/
theorem wrapRatio_eq {n : Nat} (c : Nat → K) {w i : Nat} (h : w ≤ i) : wrapRatio c n w i = effRatio c w i := by
  have e : ∑ j ∈ Ico (i + 1 - w) (i + 1), |c j - c (wrapBack n 1 j)| = ∑ j ∈ Ico (i + 1 - w) (i + 1), |c j - c (j - 1)| := by
    refine sum_congr rfl fun j hj => ?_
    rw [mem_Ico] at hj
    rw [show wrapBack n 1 j = j - 1 from if_pos (by omega)]
  unfold wrapRatio effRatio
  rw [e, show wrapBack n w i = i - w from if_pos h]

/-- a smoothing constant from a true ratio is a weight, at least the slow one -/
theorem weight_unit {p1 p2 : Nat} (h1 : 1 ≤ p1) (h12 : p1 ≤ p2) {e : K} (e0 : 0 ≤ e) (e1 : e ≤ 1) :
    (2 / ((p2 : K) + 1)) ^ 2 ≤ (e * (2 / ((p1 : K) + 1) - 2 / ((p2 : K) + 1)) + 2 / ((p2 : K) + 1)) ^ 2 ∧
      (e * (2 / ((p1 : K) + 1) - 2 / ((p2 : K) + 1)) + 2 / ((p2 : K) + 1)) ^ 2 ≤ 1 := by
  obtain ⟨p, q, r⟩ := span_alpha (K := K) (h1.trans h12)
  obtain ⟨p', q', -⟩ := span_alpha (K := K) h1
  have pq : 2 / ((p2 : K) + 1) ≤ 2 / ((p1 : K) + 1) := by
    have : (p1 : K) ≤ p2 := by exact_mod_cast h12
    exact div_le_div_of_nonneg_left (by norm_num) (by positivity) (by linarith)
  generalize 2 / ((p2 : K) + 1) = b at *
  generalize 2 / ((p1 : K) + 1) = a at *
  exact ⟨pow_le_pow_left₀ p.le (by nlinarith) 2, pow_le_one₀ (by nlinarith) (by nlinarith)⟩

/-- C129. With `fillna=True`, a window of at least 3 and a column longer than the window, KAMA has no bound: closes between 0 and
1 give row 1 any size. -/
theorem kama_fill_unbounded {w n p1 p2 : Nat} (hw : 3 ≤ w) (hn : w < n) (h1 : 1 ≤ p1) (h12 : p1 < p2) (B : K) :
    ∃ c : Nat → K, (∀ i, 0 ≤ c i ∧ c i ≤ 1) ∧ ∃ y, ix (kama (ser n c) w p1 p2 true) 1 = .fin y ∧ B < y := by
  obtain ⟨p, q, -⟩ := span_alpha (K := K) (h1.trans h12.le)
  obtain ⟨p', q', -⟩ := span_alpha (K := K) h1
  have pq : 2 / ((p2 : K) + 1) < 2 / ((p1 : K) + 1) := by
    have : (p1 : K) < p2 := by exact_mod_cast h12
    exact div_lt_div_of_pos_left (by norm_num) (by positivity) (by linarith)
  have key : ∀ ε : K, 0 < ε → ε ≤ 1 / 2 → ∃ c : Nat → K, (∀ i, 0 ≤ c i ∧ c i ≤ 1) ∧
      ix (kama (ser n c) w p1 p2 true) 1 = .fin (((1 - ε) / ε * (2 / ((p1 : K) + 1) - 2 / ((p2 : K) + 1)) + 2 / ((p2 : K) + 1)) ^ 2 * ε) := by
    intro ε h0 hε
    let c : Nat → K := fun i => if i = 1 then ε else if i = n + 1 - w then 1 else 0
    have c0 : c 0 = 0 := by simp only [c]; rw [if_neg (by omega), if_neg (by omega)]
    have c1 : c 1 = ε := by simp [c]
    have cj : c (n + 1 - w) = 1 := by
      show (if n + 1 - w = 1 then ε else if n + 1 - w = n + 1 - w then (1 : K) else 0) = 1
      rw [if_neg (by omega), if_pos rfl]
    have cl : c (n - 1) = 0 := by simp only [c]; rw [if_neg (by omega), if_neg (by omega)]
    refine ⟨c, fun i => ?_, ?_⟩
    · simp only [c]
      split_ifs
      · exact ⟨h0.le, by linarith⟩
      · simp
      · simp
    · obtain ⟨Y, y0, y1, hY⟩ := kama_fill n c hn.le p1 p2
      rw [hY.val 1 (by omega) (by omega), y1 0, y0, zero_add, c0, c1, zero_add, sub_zero]
      have s : ∑ j ∈ Ico (1 + 1 - w) (1 + 1), |c j - c (wrapBack n 1 j)| = ε := by
        rw [show 1 + 1 - w = 0 by omega, ← range_eq_Ico, sum_range_succ, sum_range_one,
          show wrapBack n 1 0 = n - 1 by simp [wrapBack], show wrapBack n 1 1 = 0 by simp [wrapBack], c0, c1, cl]
        simp [abs_of_pos h0]
      have r : wrapRatio c n w 1 = (1 - ε) / ε := by
        unfold wrapRatio
        rw [s, if_neg h0.ne', show wrapBack n w 1 = n + 1 - w from if_neg (by omega), c1, cj, abs_sub_comm, abs_of_nonneg (by linarith)]
      rw [r]
  generalize 2 / ((p2 : K) + 1) = b at *
  generalize 2 / ((p1 : K) + 1) = a at *
  have d0 : 0 < a - b := by linarith
  have d1 : a - b ≤ 1 := by linarith
  have B0 : (0 : K) < |B| + 1 := by positivity
  have hB : B < |B| + 1 := by linarith [le_abs_self B]
  obtain ⟨c, hc, hy⟩ := key ((a - b) ^ 2 / (4 * (|B| + 1))) (by positivity) (by
    rw [div_le_iff₀ (by positivity)]
    have : (a - b) ^ 2 ≤ 1 := pow_le_one₀ d0.le d1
    have := abs_nonneg B
    linarith)
  refine ⟨c, hc, _, hy, hB.trans_le ?_⟩
  have e0 : 0 < (a - b) ^ 2 / (4 * (|B| + 1)) := by positivity
  have e1 : (a - b) ^ 2 / (4 * (|B| + 1)) ≤ 1 / 2 := by
    rw [div_le_iff₀ (by positivity)]
    have : (a - b) ^ 2 ≤ 1 := pow_le_one₀ d0.le d1
    have := abs_nonneg B
    linarith
  have e2 : (a - b) ^ 2 = (a - b) ^ 2 / (4 * (|B| + 1)) * (4 * (|B| + 1)) := by field_simp
  generalize (a - b) ^ 2 / (4 * (|B| + 1)) = ε at *
  have r0 : 1 / 2 / ε ≤ (1 - ε) / ε := div_le_div_of_nonneg_right (by linarith) e0.le
  have r1 : 0 ≤ 1 / 2 / ε := by positivity
  calc |B| + 1 = (1 / 2 / ε * (a - b)) ^ 2 * ε := by
        rw [mul_pow, e2]; field_simp; ring
    _ ≤ ((1 - ε) / ε * (a - b) + b) ^ 2 * ε := by
        refine mul_le_mul_of_nonneg_right (pow_le_pow_left₀ (by positivity) ?_ 2) e0.le
        have := mul_le_mul_of_nonneg_right r0 d0.le
        linarith

/-- C129. From row `w - 1` on the filled line comes back: whatever it was outside the closes shrinks by the slow weight each row. -/
theorem kama_fill_settles {w n p1 p2 : Nat} (hw : 1 ≤ w) (hn : w ≤ n) (h1 : 1 ≤ p1) (h12 : p1 ≤ p2) {c : Nat → K} {lo hi x : K}
    (hc : ∀ i, i < n → lo ≤ c i ∧ c i ≤ hi) (hx : ix (kama (ser n c) w p1 p2 true) (w - 1) = .fin x) {e : K} (he : 0 ≤ e) (hl : lo - e ≤ x) (hh : x ≤ hi + e)
    {k : Nat} (hk : w - 1 + k < n) :
    ∃ y, ix (kama (ser n c) w p1 p2 true) (w - 1 + k) = .fin y ∧
      lo - (1 - (2 / ((p2 : K) + 1)) ^ 2) ^ k * e ≤ y ∧ y ≤ hi + (1 - (2 / ((p2 : K) + 1)) ^ 2) ^ k * e := by
  obtain ⟨Y, y0, y1, hY⟩ := kama_fill n c hn p1 p2
  rw [hY.val _ (by omega) (by omega)] at hx
  obtain rfl : Y (w - 1) = x := by simpa using hx
  refine ⟨_, hY.val _ hk (by omega), ?_⟩
  have hb := weight_unit (K := K) h1 h12 (e := 0) le_rfl zero_le_one
  rw [zero_mul, zero_add] at hb
  induction k with
  | zero => rw [pow_zero, one_mul]; exact ⟨hl, hh⟩
  | succ k ih =>
    obtain ⟨i1, i2⟩ := ih (by omega)
    have hr := wrapRatio_unit (n := n) c hw (i := w - 1 + k + 1) (by omega) (by omega)
    obtain ⟨s1, s2⟩ := weight_unit h1 h12 hr.1 hr.2
    obtain ⟨c1, c2⟩ := hc (w - 1 + k + 1) (by omega)
    have ey := y1 (w - 1 + k)
    rw [← Nat.add_assoc, ey, pow_succ]
    have q0 : 0 ≤ (1 - (2 / ((p2 : K) + 1)) ^ 2) ^ k * e := mul_nonneg (pow_nonneg (by linarith) _) he
    have m3 : 0 ≤ (wrapRatio c n w (w - 1 + k + 1) * (2 / ((p1 : K) + 1) - 2 / ((p2 : K) + 1)) + 2 / ((p2 : K) + 1)) ^ 2 := sq_nonneg _
    generalize (wrapRatio c n w (w - 1 + k + 1) * (2 / ((p1 : K) + 1) - 2 / ((p2 : K) + 1)) + 2 / ((p2 : K) + 1)) ^ 2 = s at *
    generalize (2 / ((p2 : K) + 1)) ^ 2 = b at *
    rw [show (1 - b) ^ k * (1 - b) * e = (1 - b) * ((1 - b) ^ k * e) by ring]
    generalize (1 - b) ^ k * e = E at *
    have m1 := mul_le_mul_of_nonneg_right s1 q0
    have m2 : 0 ≤ 1 - s := by linarith
    constructor
    · linarith [mul_le_mul_of_nonneg_left i1 m2, mul_le_mul_of_nonneg_left c1 m3]
    · linarith [mul_le_mul_of_nonneg_left i2 m2, mul_le_mul_of_nonneg_left c2 m3]

/-- C129. With and without `fillna` KAMA ends up the same: from row `w - 1` on the distance shrinks by the slow weight each row. -/
theorem kama_fill_fades {w n p1 p2 : Nat} (hw : 1 ≤ w) (hn : w ≤ n) (h1 : 1 ≤ p1) (h12 : p1 ≤ p2) (c : Nat → K) {k : Nat} (hk : w - 1 + k < n) :
    ∃ x y z, ix (kama (ser n c) w p1 p2 true) (w - 1) = .fin x ∧ ix (kama (ser n c) w p1 p2 true) (w - 1 + k) = .fin y ∧
      ix (kama (ser n c) w p1 p2 false) (w - 1 + k) = .fin z ∧ |y - z| ≤ (1 - (2 / ((p2 : K) + 1)) ^ 2) ^ k * |x - c (w - 1)| := by
  obtain ⟨Y, y0, y1, hY⟩ := kama_fill n c hn p1 p2
  obtain ⟨Z, z0, z1, hZ⟩ := kama_formula n c hw p1 p2
  refine ⟨_, _, _, hY.val _ (by omega) (by omega), hY.val _ hk (by omega), hZ.val _ hk (by omega), ?_⟩
  have hb := weight_unit (K := K) h1 h12 (e := 0) le_rfl zero_le_one
  rw [zero_mul, zero_add] at hb
  induction k with
  | zero => simp [z0]
  | succ k ih =>
    have i1 := ih (by omega)
    have hr := effRatio_unit c (w := w) (i := w - 1 + k + 1) (by omega)
    obtain ⟨s1, s2⟩ := weight_unit h1 h12 hr.1 hr.2
    have ey := y1 (w - 1 + k)
    have ez := z1 (w - 1 + k + 1) (by omega)
    rw [wrapRatio_eq c (by omega)] at ey
    rw [← Nat.add_assoc, ey, ez, pow_succ (1 - _), Nat.add_sub_cancel]
    generalize (effRatio c w (w - 1 + k + 1) * (2 / ((p1 : K) + 1) - 2 / ((p2 : K) + 1)) + 2 / ((p2 : K) + 1)) ^ 2 = s at *
    rw [show Y (w - 1 + k) + s * (c (w - 1 + k + 1) - Y (w - 1 + k)) - (Z (w - 1 + k) + s * (c (w - 1 + k + 1) - Z (w - 1 + k))) = (1 - s) * (Y (w - 1 + k) - Z (w - 1 + k)) by ring,
      abs_mul, abs_of_nonneg (by linarith : (0 : K) ≤ 1 - s), mul_comm (_ ^ k), mul_assoc]
    exact mul_le_mul (by linarith) i1 (abs_nonneg _) (by linarith)

/-! ## non-trivial instances -/

/-- closes 0, 1, 100, 0: row 1 of the filled line is above 3000 -/
example : (kama (qs [0, 1, 100, 0]) 3 2 30 true).take 2 = [.fin 0, .fin (3422500 / 961)] := by decide +kernel

example : ∃ c : Nat → ℚ, (∀ i, 0 ≤ c i ∧ c i ≤ 1) ∧ ∃ y, ix (kama (ser 100 c) 10 2 30 true) 1 = .fin y ∧ 1000000 < y :=
  kama_fill_unbounded (by omega) (by omega) (by omega) (by omega) _

end TA
