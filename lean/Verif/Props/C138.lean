import Verif.Props.C13
import Verif.Props.C85
import Verif.Props.C97
import Verif.Props.C120
import Verif.Props.C137

/-!
# C138 — the averages on a straight line

How far each average is behind a price that moves by `b` on every row.
-/

set_option linter.unusedSectionVars false

namespace TA
open Finset

section
variable {K : Type} [Field K] [LinearOrder K] [IsStrictOrderedRing K] [FloorRing K]

theorem sum_line (a b : K) {w i : Nat} (h : w ≤ i + 1) : ∑ j ∈ Ico (i + 1 - w) (i + 1), (a + b * j) = w * (a + b * (i - (w - 1) / 2)) := by
  rw [Finset.sum_Ico_eq_sum_range, show i + 1 - (i + 1 - w) = w by omega]
  obtain ⟨k, hk⟩ : ∃ k, i + 1 = k + w := ⟨i + 1 - w, by omega⟩
  have e : (i : K) = k + w - 1 := by
    have : ((i + 1 : ℕ) : K) = ((k + w : ℕ) : K) := by rw [hk]
    push_cast at this
    linarith
  rw [show i + 1 - w = k by omega, e]
  push_cast
  simp only [mul_add, Finset.sum_add_distrib, Finset.sum_const, card_range, nsmul_eq_mul, ← Finset.mul_sum, sum_id]
  ring

/-- C138. SMA: half a window, less half a row, behind. -/
theorem sma_line (n : Nat) (a b : K) {w : Nat} (hw : 1 ≤ w) :
    Def (smaIndicator (ser n fun i => a + b * i) w false) n (w - 1) (fun i => a + b * i - b * (((w : K) - 1) / 2)) := by
  have w0 : (w : K) ≠ 0 := by positivity
  refine (sma_formula n _ w hw).congr fun i _ hi => ?_
  rw [sum_line a b (by omega), mul_div_cancel_left₀ _ w0]
  ring

/-- C138. WMA: a third of a window, less a third of a row, behind. -/
theorem wma_line (n : Nat) (a b : K) {w : Nat} (hw : 1 ≤ w) :
    Def (wma (ser n fun i => a + b * i) w false) n (w - 1) (fun i => a + b * i - b * (((w : K) - 1) / 3)) := by
  have w0 : (0 : K) < w := by exact_mod_cast hw
  refine (wma_formula n _ w hw).congr fun i _ hi => ?_
  obtain ⟨k, hk⟩ : ∃ k, i + 1 = k + w := ⟨i + 1 - w, by omega⟩
  have e : (i : K) = k + w - 1 := by
    have : ((i + 1 : ℕ) : K) = ((k + w : ℕ) : K) := by rw [hk]
    push_cast at this
    linarith
  rw [show i + 1 - w = k by omega, e, div_eq_iff (by positivity)]
  have e2 : ∀ j ∈ range w, ((j : K) + 1) * (a + b * ((k + j : ℕ) : K)) = (a + b * k) + (a + b * k + b) * j + b * (j : K) ^ 2 := fun j _ => by
    push_cast; ring
  rw [Finset.sum_congr rfl e2]
  simp only [Finset.sum_add_distrib, Finset.sum_const, card_range, nsmul_eq_mul, ← Finset.mul_sum, sum_id, sum_sq_id]
  ring

theorem emaW_line (a b : K) {w : Nat} (i : Nat) :
    emaW w (fun j => a + b * j) i = a + b * i - b * (((w : K) - 1) / 2) * (1 - (1 - 2 / ((w : K) + 1)) ^ i) := by
  have w0 : (w : K) + 1 ≠ 0 := by positivity
  unfold emaW
  induction i with
  | zero => simp [emaRec]
  | succ i ih =>
    rw [emaRec_line, ih, pow_succ]
    generalize (1 - 2 / ((w : K) + 1)) ^ i = r
    push_cast
    field_simp
    ring

/-- C138. EMA: as far behind as the SMA in the end, and nearer by the factor `1 - (1 - 2/(w+1))^i` on row `i`. -/
theorem ema_line (n : Nat) (a b : K) {w : Nat} (hw : 1 ≤ w) (fillna : Bool) :
    ∃ out, emaIndicator (ser n fun i => a + b * i) w fillna = .ok out ∧
      Def out n (if fillna then 0 else w - 1) (fun i => a + b * i - b * (((w : K) - 1) / 2) * (1 - (1 - 2 / ((w : K) + 1)) ^ i)) :=
  ⟨_, by rw [emaIndicator_eq, if_neg (by omega)], ((def_ser n fun i => a + b * i).ema0 hw fillna).congr fun i _ _ => emaW_line a b i⟩

/-- C138. MACD: the difference of the two distances. -/
theorem macd_on_line (n : Nat) (a b : K) {slow fast sign : Nat} (h1 : 1 ≤ slow) (h2 : 1 ≤ fast) (h3 : 1 ≤ sign) :
    ∃ o, MACD.new (ser n fun i => a + b * i) slow fast sign false = .ok o ∧
      Def o.macd n (max (fast - 1) (slow - 1)) (fun i =>
        b * (((slow : K) - 1) / 2) * (1 - (1 - 2 / ((slow : K) + 1)) ^ i) - b * (((fast : K) - 1) / 2) * (1 - (1 - 2 / ((fast : K) + 1)) ^ i)) := by
  refine ⟨MACD.run _ slow fast sign false, by unfold MACD.new chkSpan; simp [show ¬ slow < 1 by omega, show ¬ fast < 1 by omega, show ¬ sign < 1 by omega]; rfl, ?_⟩
  have d := def_ser n fun i => a + b * (i : K)
  refine ((d.ema0 h2 false).ssub (d.ema0 h1 false)).congr fun i _ _ => ?_
  rw [emaW_line, emaW_line]
  ring

/-- C138. Awesome oscillator: half the difference of the windows. -/
theorem ao_line (n : Nat) (h l b : K) {w1 w2 : Nat} (h1 : 1 ≤ w1) (h2 : 1 ≤ w2) :
    Def (awesomeOscillator (ser n fun i => h + b * i) (ser n fun i => l + b * i) w1 w2 false) n (max w1 w2 - 1) (fun _ => b * (((w2 : K) - w1) / 2)) := by
  have w10 : (w1 : K) ≠ 0 := by positivity
  have w20 : (w2 : K) ≠ 0 := by positivity
  refine (ao_formula n _ _ h1 h2 false).congr fun i _ hi => ?_
  simp only [Bool.false_eq_true, if_false] at hi
  have e : ∀ j : Nat, (h + b * j + (l + b * j)) / 2 = (h + l) / 2 + b * j := fun j => by ring
  simp only [e]
  rw [min_eq_left (by omega), min_eq_left (by omega), sum_line _ _ (by omega), sum_line _ _ (by omega), mul_div_cancel_left₀ _ w10, mul_div_cancel_left₀ _ w20]
  ring

theorem emaRec_on_line (a b : K) {α : K} (hα : α ≠ 0) (i : Nat) :
    emaRec α (fun j => a + b * j) i = a + b * i - b * ((1 - α) / α) * (1 - (1 - α) ^ i) := by
  induction i with
  | zero => simp [emaRec]
  | succ i ih =>
    rw [emaRec_line, ih, pow_succ]
    generalize (1 - α) ^ i = r
    push_cast
    field_simp
    ring

/-- C138. KAMA of a rising line, with `α = (2/(pow1+1))²`: in the end `b (1/α - 1)` behind, whatever the window and `pow2`. -/
theorem kama_line (n : Nat) (a : K) {b : K} (hb : 0 < b) {w : Nat} (hw : 1 ≤ w) {pow1 : Nat} (hp : 1 ≤ pow1) (pow2 : Nat) {α : K}
    (hα : α = (2 / ((pow1 : K) + 1)) ^ 2) :
    Def (kama (ser n fun i => a + b * i) w pow1 pow2 false) n (w - 1) (fun i => a + b * i - b * (1 / α - 1) * (1 - (1 - α) ^ (i - (w - 1)))) := by
  have α0 : α ≠ 0 := by rw [hα]; positivity
  refine (kama_rising n (c := fun i => a + b * (i : K)) (fun i => by push_cast; linarith) hw hp pow2).1.congr fun i _ hi => ?_
  obtain ⟨k, rfl⟩ := Nat.exists_eq_add_of_le hi
  have e : (fun j : Nat => a + b * ((w - 1 + j : ℕ) : K)) = fun j : ℕ => (a + b * ((w - 1 : ℕ) : K)) + b * (j : K) := by
    funext j; push_cast; ring
  rw [← hα, e, Nat.add_sub_cancel_left, emaRec_on_line _ _ α0, sub_div, div_self α0]
  push_cast
  ring

/-- C138. DPO: a rising price is shown *below* its trend, by `b` for odd windows and `3b/2` for even ones. -/
theorem dpo_line (n : Nat) (a b : K) {w : Nat} (hw : 3 ≤ w) :
    Def (dpo (ser n fun i => a + b * i) w false) n (w - 1) (fun _ => if w % 2 = 0 then -(b * (3 / 2)) else -b) := by
  have w0 : (w : K) ≠ 0 := by positivity
  refine (dpo_formula n (fun i => a + b * (i : K)) (by omega) false).congr fun i _ hi => ?_
  simp only [Bool.false_eq_true, if_false] at hi
  rw [if_neg (by omega), min_eq_left (by omega), sum_line _ _ (by omega), mul_div_cancel_left₀ _ w0, Nat.cast_sub (by omega)]
  push_cast
  rcases Nat.even_or_odd' w with ⟨v, rfl | rfl⟩
  · rw [if_pos (by omega), show 2 * v / 2 = v by omega]; push_cast; ring
  · rw [if_neg (by omega), show (2 * v + 1) / 2 = v by omega]; push_cast; ring

theorem wmean_line (a b : K) {w i : Nat} (hw : 1 ≤ w) (h : w ≤ i + 1) : wmean (fun j => a + b * (j : K)) w i = a + b * (i - (w - 1) / 2) := by
  have w0 : (w : K) ≠ 0 := by positivity
  unfold wmean
  rw [min_eq_left h, sum_line a b h, mul_div_cancel_left₀ _ w0]

end

theorem wstd_line (a b : ℝ) {w i : Nat} (hw : 1 ≤ w) (h : w ≤ i + 1) :
    wstd (fun j => a + b * (j : ℝ)) w i = |b| * Real.sqrt (((w : ℝ) ^ 2 - 1) / 12) := by
  have w0 : (w : ℝ) ≠ 0 := by positivity
  unfold wstd
  rw [wmean_line a b hw h, min_eq_left h, Finset.sum_Ico_eq_sum_range, show i + 1 - (i + 1 - w) = w by omega, ← Real.sqrt_sq_eq_abs, ← Real.sqrt_mul (sq_nonneg b)]
  congr 1
  obtain ⟨k, hk⟩ : ∃ k, i + 1 = k + w := ⟨i + 1 - w, by omega⟩
  have e : (i : ℝ) = k + w - 1 := by
    have : ((i + 1 : ℕ) : ℝ) = ((k + w : ℕ) : ℝ) := by rw [hk]
    push_cast at this
    linarith
  rw [show i + 1 - w = k by omega, e, div_eq_iff w0]
  have e2 : ∀ j ∈ range w, (a + b * ((k + j : ℕ) : ℝ) - (a + b * ((k : ℝ) + w - 1 - (w - 1) / 2))) ^ 2
      = b ^ 2 * (((w : ℝ) - 1) / 2) ^ 2 + -(b ^ 2 * (w - 1)) * j + b ^ 2 * (j : ℝ) ^ 2 := fun j _ => by
    push_cast; ring
  rw [Finset.sum_congr rfl e2]
  simp only [Finset.sum_add_distrib, Finset.sum_const, card_range, nsmul_eq_mul, ← Finset.mul_sum, sum_id, sum_sq_id]
  ring

/-- C138. Bollinger bands: parallel to the line, `d·|b|·√((w²-1)/12)` from the average. -/
theorem bollinger_line (n : Nat) (a b d : ℝ) {w : Nat} (hw : 1 ≤ w) :
    Def (BB.new (ser n fun i => a + b * (i : ℝ)) w (.fin d)).bollingerHband n (w - 1)
      (fun i => a + b * (i - ((w : ℝ) - 1) / 2) + d * (|b| * Real.sqrt (((w : ℝ) ^ 2 - 1) / 12))) ∧
    Def (BB.new (ser n fun i => a + b * (i : ℝ)) w (.fin d)).bollingerLband n (w - 1)
      (fun i => a + b * (i - ((w : ℝ) - 1) / 2) - d * (|b| * Real.sqrt (((w : ℝ) ^ 2 - 1) / 12))) := by
  have HB := bollinger_formula (n := n) (fun i => a + b * (i : ℝ)) hw d false
  constructor
  · refine HB.hband.congr fun i _ hi => ?_
    simp only [Bool.false_eq_true, if_false] at hi
    rw [wmean_line a b hw (by omega), wstd_line a b hw (by omega)]
  · refine HB.lband.congr fun i _ hi => ?_
    simp only [Bool.false_eq_true, if_false] at hi
    rw [wmean_line a b hw (by omega), wstd_line a b hw (by omega)]

theorem line_inside (b d : ℝ) {w : Nat} (hw : 1 ≤ w) (hd : 3 ≤ d ^ 2) (hd0 : 0 ≤ d) :
    |b * (((w : ℝ) - 1) / 2)| ≤ d * (|b| * Real.sqrt (((w : ℝ) ^ 2 - 1) / 12)) := by
  have w1 : (1 : ℝ) ≤ w := by exact_mod_cast hw
  rw [abs_mul, abs_of_nonneg (by linarith : (0 : ℝ) ≤ ((w : ℝ) - 1) / 2), mul_left_comm]
  refine mul_le_mul_of_nonneg_left ?_ (abs_nonneg b)
  refine abs_le_of_sq_le_sq' ?_ (by positivity) |>.2
  rw [mul_pow, Real.sq_sqrt (by nlinarith)]
  nlinarith [mul_nonneg (by linarith : (0 : ℝ) ≤ (w : ℝ) - 1) (by linarith : (0 : ℝ) ≤ (w : ℝ) + 1)]

/-- C138. However steep, a line never leaves its Bollinger bands when `d` is at least `√3`; the usual `d` is 2. -/
theorem bollinger_line_inside (n : Nat) (a b : ℝ) {d : ℝ} {w : Nat} (hw : 1 ≤ w) (hd : 3 ≤ d ^ 2) (hd0 : 0 ≤ d) {i : Nat} (hi : i < n) (hr : w - 1 ≤ i) :
    ∃ lo hi : ℝ, ix (BB.new (ser n fun i => a + b * (i : ℝ)) w (.fin d)).bollingerLband i = .fin lo ∧
      ix (BB.new (ser n fun i => a + b * (i : ℝ)) w (.fin d)).bollingerHband i = .fin hi ∧ lo ≤ a + b * i ∧ a + b * i ≤ hi := by
  have h := bollinger_line n a b d hw
  have l := abs_le.1 (line_inside b d hw hd hd0)
  exact ⟨_, _, h.2.val i hi hr, h.1.val i hi hr, by linarith [l.1], by linarith [l.2]⟩

/-- C138. With `d = 1` and a window of at least three rows, a rising line is above its upper band on every row. -/
theorem bollinger_line_outside (n : Nat) (a : ℝ) {b : ℝ} (hb : 0 < b) {w : Nat} (hw : 3 ≤ w) {i : Nat} (hi : i < n) (hr : w - 1 ≤ i) :
    ∃ hi : ℝ, ix (BB.new (ser n fun i => a + b * (i : ℝ)) w (.fin 1)).bollingerHband i = .fin hi ∧ hi < a + b * i := by
  have h := bollinger_line n a b 1 (by omega : 1 ≤ w)
  refine ⟨_, h.1.val i hi hr, ?_⟩
  have w3 : (3 : ℝ) ≤ w := by exact_mod_cast hw
  have : Real.sqrt (((w : ℝ) ^ 2 - 1) / 12) < ((w : ℝ) - 1) / 2 := by
    rw [Real.sqrt_lt' (by linarith)]
    nlinarith
  rw [abs_of_pos hb]
  nlinarith

/-- closes 10, 12, 14, …: the price on row 30 is 70 -/
example : ix (smaIndicator (ser 40 fun i => (10 : ℚ) + 2 * i) 26 false) 30 = .fin 45 := by
  rw [(sma_line 40 10 2 (by norm_num : 1 ≤ 26)).val 30 (by norm_num) (by norm_num)]; norm_num

example : ix (wma (ser 40 fun i => (10 : ℚ) + 2 * i) 10 false) 30 = .fin 64 := by
  rw [(wma_line 40 10 2 (by norm_num : 1 ≤ 10)).val 30 (by norm_num) (by norm_num)]; norm_num

example : ix (awesomeOscillator (ser 40 fun i => (11 : ℚ) + 2 * i) (ser 40 fun i => 9 + 2 * i) 5 34 false) 35 = .fin 29 := by
  rw [(ao_line 40 11 9 2 (by norm_num : 1 ≤ 5) (by norm_num : 1 ≤ 34)).val 35 (by norm_num) (by norm_num)]; norm_num

/-- with the usual `pow1 = 2`: KAMA starts at the close of row 9 and two rows later is `5/4 · 2 · (1 - 25/81)` behind -/
example : ix (kama (ser 40 fun i => (10 : ℚ) + 2 * i) 10 2 30 false) 11 = .fin (32 - 5 / 2 * (56 / 81)) := by
  rw [(kama_line 40 10 (by norm_num : (0 : ℚ) < 2) (by norm_num : 1 ≤ 10) (by norm_num : 1 ≤ 2) 30 rfl).val 11 (by norm_num) (by norm_num)]; norm_num

/-- the DPO of a price that only rises -/
example : ix (dpo (ser 40 fun i => (10 : ℚ) + 2 * i) 20 false) 30 = .fin (-3) := by
  rw [(dpo_line 40 10 2 (by norm_num : 3 ≤ 20)).val 30 (by norm_num) (by norm_num)]; norm_num

example : (qs [1, 2, 3, 4] : Series (Val ℚ)) = ser 4 (fun i => 1 + 1 * (i : ℚ)) ∧
    (emaIndicator (qs [1, 2, 3, 4]) 3 true : Except PyErr (Series (Val ℚ))) = .ok [.fin 1, .fin (3 / 2), .fin (9 / 4), .fin (25 / 8)] := by
  decide +kernel

end TA
