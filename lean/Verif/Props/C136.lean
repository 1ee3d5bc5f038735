import Mathlib.Analysis.Complex.ExponentialBounds
import Verif.Props.C42
import Verif.Props.C111
import Verif.Props.C117

/-!
# C136 — the daily log return in double precision

`np.log(close).diff() * 100` (`ta/others.py:56-67`). The difference is taken after the logarithms are rounded, so the error is
that of the logarithm of the *price*, not of the return, and small rises disappear.
-/

set_option linter.unusedSectionVars false

namespace TA
open Finset

theorem log_num {x : ℝ} (hx : 0 < x) : (FltFn.log (rk x) : Double ℝ) = (binary64 : Rounding ℝ).rd (Real.log x) := by
  show (binary64 : Rounding ℝ).rnd (Val.log (Val.fin x)) = _
  rw [Val.log, if_neg hx.ne', if_neg (by linarith)]
  rfl

theorem log_near {x L : ℝ} (hx : 0 < x) (h : |Real.log x| ≤ L) (hL : tiny ≤ L) (hL2 : L ≤ cap) :
    ∃ y, (FltFn.log (rk x) : Double ℝ) = rk y ∧ |y - Real.log x| ≤ 1.001 * (eps * L) := by
  obtain ⟨v, v1, v2⟩ := (b64_acc (K := ℝ)) (Real.log x) (h.trans (cap_ok hL hL2))
  exact ⟨v, by rw [log_num hx]; exact v1, near_of_acc v2 h hL⟩

/-- C136. The daily log return in double precision is within `830 ε L` of the exact one, `L` being the size of the logarithms of the
prices. -/
theorem log_return_double {n : Nat} {c : Nat → ℝ} {L : ℝ} (hc : ∀ i, 0 < c i) (hL : tiny ≤ L) (hL2 : L ≤ huge) (h : ∀ i, |Real.log (c i)| ≤ L) (fillna : Bool) :
    CloseTo (830 * (eps * L)) (dailyLogReturn (dser n c) fillna) (dailyLogReturn (ser n c) fillna) := by
  have he := eps_pos (K := ℝ)
  have he1 := eps_small (K := ℝ)
  have L0 : 0 < L := tiny_pos.trans_le hL
  have eL : 0 < eps * L := mul_pos he L0
  have eL1 : eps * L ≤ 1 / 1000 * L := mul_le_mul_of_nonneg_right he1 L0.le
  have hcp := huge_cap' (K := ℝ)
  unfold dailyLogReturn
  refine CloseTo.const ?_ (y := 0) (z := 0) lit0 (by simp) (by rw [sub_self, abs_zero]; positivity) fillna
  obtain ⟨G, g1, g2, g3, -⟩ := log_returns_sum (n := n) hc false
  have lg : Approx ((dser n c).map FltFn.log : Series (Double ℝ)) n 0 (fun i => Real.log (c i)) (1.001 * (eps * L)) := by
    refine ⟨by simp [rser], fun i _ q => by omega, fun i hi _ => ?_⟩
    rw [ix_map (by simpa [rser] using hi), ix_rk hi]
    exact log_near (hc i) (h i) hL (by linarith)
  have d := Approx.sub lg (lg.shift 1) (M := 2.1 * L) (fun i hi _ => by
    have := abs_sub (Real.log (c i)) (Real.log (c (i - 1)))
    have := h i
    have := h (i - 1)
    linarith) (by linarith) (by linarith)
  have m := Approx.mulc d lit100k (B := 201 * L) (fun i hi _ => by
    rw [abs_of_pos (by norm_num : (0 : ℝ) < 100)]
    have := abs_sub (Real.log (c i)) (Real.log (c (i - 1)))
    have := h i
    have := h (i - 1)
    linarith) (by linarith) (by linarith)
  have m2 := (m.mono (δ' := 830 * (eps * L)) (by
    rw [abs_of_pos (by norm_num : (0 : ℝ) < 100)]
    linarith)).congr (g := G) fun i _ hi => by
      obtain ⟨k, rfl⟩ : ∃ k, i = k + 1 := ⟨i - 1, by simp at hi; omega⟩
      rw [g1]
      simp
      ring
  exact m2.close g3

/-- C136. For prices between 1/1000 and 1000000 the error is less than 0.000000000002 per cent. -/
theorem log_return_usual {n : Nat} {c : Nat → ℝ} (hc : ∀ i, 1 / 1000 ≤ c i ∧ c i ≤ 1000000) (fillna : Bool) :
    CloseTo (2 / 10 ^ 12) (dailyLogReturn (dser n c) fillna) (dailyLogReturn (ser n c) fillna) := by
  have e3 : (1000000 : ℝ) ≤ Real.exp 14 := by
    have := Real.exp_one_gt_d9
    rw [show (14 : ℝ) = (14 : ℕ) * 1 by norm_num, Real.exp_nat_mul]
    calc (1000000 : ℝ) ≤ 2.7182818283 ^ 14 := by norm_num
      _ ≤ _ := pow_le_pow_left₀ (by norm_num) this.le 14
  have hl : ∀ i, |Real.log (c i)| ≤ 14 := fun i => by
    have c0 : 0 < c i := lt_of_lt_of_le (by norm_num) (hc i).1
    rw [abs_le]
    constructor
    · rw [Real.le_log_iff_exp_le c0, Real.exp_neg]
      exact (inv_anti₀ (by norm_num) e3).trans (le_trans (by norm_num) (hc i).1)
    · rw [Real.log_le_iff_le_exp c0]
      exact (hc i).2.trans e3
  have := log_return_double (n := n) (L := 14) (fun i => lt_of_lt_of_le (by norm_num) (hc i).1) (tiny_le_one.trans (by norm_num)) (by
    unfold huge
    calc (14 : ℝ) ≤ 2 ^ (20 : ℤ) := by norm_num
      _ ≤ 2 ^ (900 : ℤ) := zpow_le_zpow_right₀ (by norm_num) (by norm_num)) hl fillna
  refine ⟨this.1, fun i hi => (this.2 i hi).imp id ?_⟩
  rintro ⟨y, z, y1, z1, yz⟩
  refine ⟨y, z, y1, z1, yz.trans ?_⟩
  unfold eps
  norm_num

/-- the logarithms of prices between 64 and 2048 are rounded to multiples of 2^-50 -/
theorem log_grid {x : ℝ} (h1 : 64 ≤ x) (h2 : x ≤ 2048) :
    (FltFn.log (rk x) : Double ℝ) = rk ((rhe (Real.log x * 2 ^ 50) : ℝ) * 2 ^ (-50 : ℤ)) := by
  have x0 : 0 < x := by linarith
  have l1 : 4 ≤ Real.log x := by
    rw [Real.le_log_iff_exp_le x0]
    have := Real.exp_one_lt_d9
    rw [show (4 : ℝ) = (4 : ℕ) * 1 by norm_num, Real.exp_nat_mul]
    exact (pow_le_pow_left₀ (Real.exp_pos _).le this.le 4).trans (le_trans (by norm_num) h1)
  have l2 : Real.log x < 8 := by
    rw [Real.log_lt_iff_lt_exp x0]
    have := Real.exp_one_gt_d9
    rw [show (8 : ℝ) = (8 : ℕ) * 1 by norm_num, Real.exp_nat_mul]
    refine lt_of_le_of_lt h2 (lt_of_lt_of_le ?_ (pow_le_pow_left₀ (by norm_num) this.le 8))
    norm_num
  have lb : lastBit (Real.log x) = -50 := by
    have a : Int.log 2 (Real.log x) = 2 := by
      refine le_antisymm ?_ ?_
      · refine Int.lt_add_one_iff.mp ((Int.lt_zpow_iff_log_lt (b := 2) (by norm_num) (by linarith)).mp ?_)
        norm_num; exact l2
      · refine (Int.zpow_le_iff_le_log (b := 2) (by norm_num) (by linarith)).mp ?_
        norm_num; exact l1
    unfold lastBit
    rw [a]; norm_num
  rw [log_num x0]
  obtain ⟨v, v1, -⟩ := (b64_acc (K := ℝ)) (Real.log x) (by
    rw [abs_of_nonneg (by linarith)]
    exact l2.le.trans (cap_ok (tiny_le_one.trans (by norm_num)) (le_trans (by norm_num) thousand_le_cap)))
  have e : b64pos (Real.log x) = (rhe (Real.log x * 2 ^ 50) : ℝ) * 2 ^ (-50 : ℤ) := by
    unfold b64pos
    rw [lb, show Real.log x / 2 ^ (-50 : ℤ) = Real.log x * 2 ^ 50 by rw [zpow_neg, div_inv_eq_mul]; norm_cast]
  rw [← e]
  have v2 : b64rd (Real.log x) = .fin v := v1
  show b64rd (Real.log x) = .fin _
  rw [b64rd_nonneg (by linarith)] at v2 ⊢
  split_ifs at v2 ⊢ with q
  rfl

/-- C136. Of two rises in a row that together are less than `2^-50` of the price, one has a log return of exactly 0, though both exact
log returns are positive. -/
theorem log_return_blind {n : Nat} {c : Nat → ℝ} {i : Nat} (hi : i + 2 < n) (h0 : 64 ≤ c i) (h1 : c i < c (i + 1)) (h2 : c (i + 1) < c (i + 2)) (h3 : c (i + 2) ≤ 2048)
    (h4 : c (i + 2) ≤ c i * (1 + 2 ^ (-50 : ℤ))) :
    (ix (dailyLogReturn (dser n c)) (i + 1) = (rk 0 : Double ℝ) ∨ ix (dailyLogReturn (dser n c)) (i + 2) = (rk 0 : Double ℝ)) ∧
      ∀ k, k = i + 1 ∨ k = i + 2 → ∃ r, ix (dailyLogReturn (ser n c)) k = .fin r ∧ 0 < r := by
  have r0 : 0 < c i := by linarith
  have ln : ((dser n c).map FltFn.log : Series (Double ℝ)).length = n := by simp [rser]
  have g : ∀ j, j < n → 64 ≤ c j → c j ≤ 2048 → ix ((dser n c).map FltFn.log : Series (Double ℝ)) j = rk ((rhe (Real.log (c j) * 2 ^ 50) : ℝ) * 2 ^ (-50 : ℤ)) :=
    fun j hj a b => by rw [ix_map (by simpa [rser] using hj), ix_rk hj, log_grid a b]
  have row : ∀ j, j + 1 < n → 64 ≤ c j → c j ≤ 2048 → 64 ≤ c (j + 1) → c (j + 1) ≤ 2048 → rhe (Real.log (c j) * 2 ^ 50) = rhe (Real.log (c (j + 1)) * 2 ^ 50) →
      ix (dailyLogReturn (dser n c)) (j + 1) = (rk 0 : Double ℝ) := fun j hj a1 b1 a2 b2 e => by
    show ix (mulc (ssub _ (shift _ 1)) (lit 100)) (j + 1) = _
    rw [ix_mulc (by simpa [rser] using hj), ix_ssub (by simpa [rser] using hj), ix_shift (by simpa [rser] using hj), if_neg (by omega), Nat.add_sub_cancel,
      g j (by omega) a1 b1, g (j + 1) hj a2 b2, e, sub_self_double, lit100k]
    show (binary64 : Rounding ℝ).rd (0 * 100) = _
    rw [zero_mul]
    exact (binary64 : Rounding ℝ).zero
  have l1 := Real.log_lt_log r0 h1
  have l2 := Real.log_lt_log (r0.trans h1) h2
  have l3 : Real.log (c (i + 2)) < Real.log (c i) + 2 ^ (-50 : ℤ) := by
    have a := Real.log_le_log (by linarith) h4
    rw [Real.log_mul r0.ne' (by positivity)] at a
    have b := Real.log_lt_sub_one_of_pos (by positivity : (0 : ℝ) < 1 + 2 ^ (-50 : ℤ)) (by norm_num)
    linarith
  have m1 := rhe_mono (mul_le_mul_of_nonneg_right l1.le (by norm_num : (0 : ℝ) ≤ 2 ^ 50))
  have m2 := rhe_mono (mul_le_mul_of_nonneg_right l2.le (by norm_num : (0 : ℝ) ≤ 2 ^ 50))
  have m3 : rhe (Real.log (c (i + 2)) * 2 ^ 50) ≤ rhe (Real.log (c i) * 2 ^ 50) + 1 := by
    have a := abs_le.mp (rhe_near (Real.log (c (i + 2)) * 2 ^ 50))
    have b := abs_le.mp (rhe_near (Real.log (c i) * 2 ^ 50))
    have d := mul_lt_mul_of_pos_right l3 (by norm_num : (0 : ℝ) < 2 ^ 50)
    rw [add_mul, show (2 : ℝ) ^ (-50 : ℤ) * 2 ^ 50 = 1 by norm_num] at d
    generalize Real.log (c (i + 2)) * 2 ^ 50 = X at a d ⊢
    generalize Real.log (c i) * 2 ^ 50 = Y at b d ⊢
    refine Int.lt_add_one_iff.mp ?_
    have : (rhe X : ℝ) < ((rhe Y + 1 + 1 : ℤ) : ℝ) := by push_cast; linarith [a.2, b.1]
    exact_mod_cast this
  refine ⟨?_, ?_⟩
  · rcases (by omega : rhe (Real.log (c i) * 2 ^ 50) = rhe (Real.log (c (i + 1)) * 2 ^ 50) ∨ rhe (Real.log (c (i + 1)) * 2 ^ 50) = rhe (Real.log (c (i + 2)) * 2 ^ 50)) with e | e
    · exact .inl (row i (by omega) h0 (by linarith) (by linarith) (by linarith) e)
    · exact .inr (row (i + 1) (by omega) (by linarith) (by linarith) (by linarith) h3 e)
  · have D : ∀ j, j + 1 < n → 0 < c j → c j < c (j + 1) → ∃ r, ix (dailyLogReturn (ser n c)) (j + 1) = .fin r ∧ 0 < r := fun j hj a b => by
      refine ⟨(Real.log (c (j + 1)) - Real.log (c j)) * 100, ?_, mul_pos (sub_pos.mpr (Real.log_lt_log a b)) (by norm_num)⟩
      show ix (mulc (ssub _ (shift _ 1)) (lit 100)) (j + 1) = _
      rw [ix_mulc (by simpa [ser] using hj), ix_ssub (by simpa [ser] using hj), ix_shift (by simpa [ser] using hj), if_neg (by omega), Nat.add_sub_cancel,
        ix_map (by simpa [ser] using hj), ix_map (by simpa [ser] using (by omega : j < n)), ix_num hj, ix_num (by omega : j < n), log_fin a, log_fin (a.trans b)]
      simp
    rintro k (rfl | rfl)
    · exact D i (by omega) r0 h1
    · exact D (i + 1) hi (by linarith) h2

/-- two steps up from 1000 by one unit in the last place each: `daily_return` shows both rises in double precision … -/
example : (dailyReturn [fx 1000, fx (1000 + 1 / 2 ^ 43), fx (1000 + 2 / 2 ^ 43)]).tail = [fx (100 / 2 ^ 52), fx (100 / 2 ^ 52)] := by decide +kernel

/-- … and `daily_log_return` misses one of them -/
example : ix (dailyLogReturn (dser 3 fun i => 1000 + (i : ℝ) / 2 ^ 43)) 1 = (rk 0 : Double ℝ) ∨
    ix (dailyLogReturn (dser 3 fun i => 1000 + (i : ℝ) / 2 ^ 43)) 2 = (rk 0 : Double ℝ) :=
  (log_return_blind (n := 3) (c := fun i => 1000 + (i : ℝ) / 2 ^ 43) (i := 0) (by norm_num) (by norm_num) (by norm_num) (by norm_num) (by norm_num) (by norm_num)).1

/-- a price that doubles: the log return in double precision is that of the logarithm of 2 to twelve digits -/
example : ∃ y, ix (dailyLogReturn (dser 2 fun i => if i = 0 then 50 else 100)) 1 = (rk y : Double ℝ) ∧ |y - 100 * Real.log 2| ≤ 2 / 10 ^ 12 := by
  have hc : ∀ i : Nat, 1 / 1000 ≤ (if i = 0 then 50 else 100 : ℝ) ∧ (if i = 0 then 50 else 100 : ℝ) ≤ 1000000 := fun i => by split_ifs <;> norm_num
  obtain ⟨G, g1, -, g3, -⟩ := log_returns_sum (n := 2) (c := fun i => if i = 0 then 50 else 100) (fun i => lt_of_lt_of_le (by norm_num) (hc i).1) false
  have e := g3.val 1 (by norm_num) (by norm_num)
  rw [g1] at e
  rcases (log_return_usual (n := 2) hc false).2 1 (by rw [g3.len]; norm_num) with ⟨-, q⟩ | ⟨y, z, y1, z1, yz⟩
  · rw [e] at q; cases q
  · rw [e] at z1
    have z2 := Val.fin.inj z1
    refine ⟨y, y1, ?_⟩
    rw [← z2] at yz
    simp only [Nat.zero_add, one_ne_zero, if_false, if_true] at yz
    rwa [← Real.log_div (by norm_num) (by norm_num), show (100 : ℝ) / 50 = 2 by norm_num] at yz

end TA
