import Verif.Props.C96
import Verif.Props.C13
import Verif.Props.C40
import Verif.Props.C61

/-!
# C97 — What the averages do when prices move slowly

If the closes never move by more than `d` from one row to the next, the averages cannot be far from the last close nor from each other: a simple average
lags by at most `(window - 1) / 2` steps, a weighted one by `(window - 1) / 3`, an exponential one by `(window - 1) / 2`, and the differences of two
averages (MACD, awesome oscillator) are at most half the difference of the windows.  On a ramp these bounds are attained.
-/

namespace TA
open Finset

section slow
variable {K : Type} [Field K] [LinearOrder K] [IsStrictOrderedRing K]

/-- among the first `n` values no step is larger than `d` -/
def Calm (n : Nat) (x : Nat → K) (d : K) : Prop := ∀ j, j + 1 < n → |x (j + 1) - x j| ≤ d

theorem Calm.dist {n : Nat} {x : Nat → K} {d : K} (h : Calm n x d) {j k : Nat} (hk : j + k < n) : |x (j + k) - x j| ≤ d * k := by
  induction k with
  | zero => simp
  | succ k ih =>
    have h1 := ih (by omega)
    have h2 := h (j + k) (by omega)
    have e : x (j + (k + 1)) - x j = (x (j + k + 1) - x (j + k)) + (x (j + k) - x j) := by rw [Nat.add_assoc]; ring
    rw [e]
    refine (abs_add_le _ _).trans ?_
    push_cast
    linarith

theorem Calm.dist' {n : Nat} {x : Nat → K} {d : K} (h : Calm n x d) {j i : Nat} (hj : j ≤ i) (hi : i < n) : |x i - x j| ≤ d * (i - j : K) := by
  obtain ⟨k, rfl⟩ := Nat.exists_eq_add_of_le hj
  have := h.dist (j := j) (k := k) hi
  push_cast
  rwa [add_sub_cancel_left]

theorem Calm.nonneg {n : Nat} {x : Nat → K} {d : K} (h : Calm n x d) (hn : 1 < n) : 0 ≤ d := (abs_nonneg _).trans (h 0 (by omega))

omit [LinearOrder K] [IsStrictOrderedRing K] in
/-- the mean of a window, written from its first row -/
theorem wmean_range (x : Nat → K) {w i : Nat} (hi : w ≤ i + 1) : wmean x w i = (∑ k ∈ range w, x (i + 1 - w + k)) / w := by
  unfold wmean
  rw [Finset.sum_Ico_eq_sum_range, show i + 1 - (i + 1 - w) = w by omega, min_eq_left hi]

theorem sum_id (w : Nat) : ∑ k ∈ range w, (k : K) = w * (w - 1) / 2 := by
  induction w with
  | zero => simp
  | succ w ih => rw [Finset.sum_range_succ, ih]; push_cast; ring

theorem sum_sq_id (w : Nat) : ∑ k ∈ range w, (k : K) ^ 2 = w * (w - 1) * (2 * w - 1) / 6 := by
  induction w with
  | zero => simp
  | succ w ih => rw [Finset.sum_range_succ, ih]; push_cast; ring

/-- a value against the mean of the window ending on its row -/
theorem Calm.mean {n : Nat} {x : Nat → K} {d : K} (h : Calm n x d) {w i : Nat} (hw : 1 ≤ w) (hwi : w ≤ i + 1) (hi : i < n) :
    |x i - wmean x w i| ≤ d * ((w - 1) / 2) := by
  have w0 : (0 : K) < w := by exact_mod_cast hw
  have e : x i - wmean x w i = (∑ k ∈ range w, (x i - x (i + 1 - w + k))) / w := by
    rw [wmean_range x hwi, Finset.sum_sub_distrib, Finset.sum_const, card_range, nsmul_eq_mul, sub_div, mul_div_cancel_left₀ _ w0.ne']
  rw [e, abs_div, abs_of_pos w0, div_le_iff₀ w0]
  refine (Finset.abs_sum_le_sum_abs _ _).trans ?_
  calc ∑ k ∈ range w, |x i - x (i + 1 - w + k)| ≤ ∑ k ∈ range w, d * ((w : K) - 1 - k) := by
        refine Finset.sum_le_sum fun k hk => ?_
        rw [mem_range] at hk
        have := h.dist' (j := i + 1 - w + k) (i := i) (by omega) hi
        refine this.trans (le_of_eq ?_)
        rw [Nat.cast_add, Nat.cast_sub hwi]; push_cast; ring
    _ = d * ((w - 1) / 2) * w := by
        rw [← Finset.mul_sum, Finset.sum_sub_distrib, Finset.sum_const, card_range, nsmul_eq_mul, sum_id]; ring

/-- the value just before the window, against the mean of the window -/
theorem Calm.mean_before {n : Nat} {x : Nat → K} {d : K} (h : Calm n x d) {w i : Nat} (hw : 1 ≤ w) (hwi : w ≤ i) (hi : i < n) :
    |x (i - w) - wmean x w i| ≤ d * ((w + 1) / 2) := by
  have w0 : (0 : K) < w := by exact_mod_cast hw
  have e : x (i - w) - wmean x w i = (∑ k ∈ range w, (x (i - w) - x (i + 1 - w + k))) / w := by
    rw [wmean_range x (by omega), Finset.sum_sub_distrib, Finset.sum_const, card_range, nsmul_eq_mul, sub_div, mul_div_cancel_left₀ _ w0.ne']
  rw [e, abs_div, abs_of_pos w0, div_le_iff₀ w0]
  refine (Finset.abs_sum_le_sum_abs _ _).trans ?_
  calc ∑ k ∈ range w, |x (i - w) - x (i + 1 - w + k)| ≤ ∑ k ∈ range w, d * ((k : K) + 1) := by
        refine Finset.sum_le_sum fun k hk => ?_
        rw [mem_range] at hk
        have := h.dist (j := i - w) (k := k + 1) (by omega)
        rw [abs_sub_comm, show i + 1 - w + k = i - w + (k + 1) by omega]
        exact_mod_cast this
    _ = d * ((w + 1) / 2) * w := by
        rw [← Finset.mul_sum, Finset.sum_add_distrib, Finset.sum_const, card_range, nsmul_eq_mul, sum_id]; ring

/-- one more row in the window moves the mean by half a step at most -/
theorem Calm.mean_step {n : Nat} {x : Nat → K} {d : K} (h : Calm n x d) {w i : Nat} (hw : 1 ≤ w) (hwi : w ≤ i) (hi : i < n) :
    |wmean x (w + 1) i - wmean x w i| ≤ d / 2 := by
  have w0 : (0 : K) < w := by exact_mod_cast hw
  have e : wmean x (w + 1) i - wmean x w i = (x (i - w) - wmean x w i) / (w + 1) := by
    have s : ∑ k ∈ range (w + 1), x (i + 1 - (w + 1) + k) = x (i - w) + ∑ k ∈ range w, x (i + 1 - w + k) := by
      rw [Finset.sum_range_succ', add_comm, show i + 1 - (w + 1) + 0 = i - w by omega]
      congr 1
      exact Finset.sum_congr rfl fun k _ => by congr 1; omega
    rw [wmean_range x (by omega : w + 1 ≤ i + 1), wmean_range x (by omega : w ≤ i + 1), s]
    push_cast
    field_simp
    ring
  have w1 : (0 : K) < w + 1 := by linarith
  rw [e, abs_div, abs_of_pos w1, div_le_iff₀ w1]
  refine (h.mean_before hw hwi hi).trans (le_of_eq (by ring))

theorem Calm.means {n : Nat} {x : Nat → K} {d : K} (h : Calm n x d) {u k i : Nat} (hu : 1 ≤ u) (hwi : u + k ≤ i + 1) (hi : i < n) :
    |wmean x (u + k) i - wmean x u i| ≤ d * (k / 2) := by
  induction k with
  | zero => simp
  | succ k ih =>
    have h1 := ih (by omega)
    have h2 := h.mean_step (w := u + k) (by omega) (by omega) hi
    have e : wmean x (u + (k + 1)) i - wmean x u i = (wmean x (u + k + 1) i - wmean x (u + k) i) + (wmean x (u + k) i - wmean x u i) := by
      rw [Nat.add_assoc]; ring
    rw [e]
    refine (abs_add_le _ _).trans ?_
    push_cast
    linarith

/-- **Two simple averages**: half a step per row by which the windows differ. -/
theorem Calm.means' {n : Nat} {x : Nat → K} {d : K} (h : Calm n x d) {u v i : Nat} (hu : 1 ≤ u) (hv : 1 ≤ v) (hui : u ≤ i + 1) (hvi : v ≤ i + 1) (hi : i < n) :
    |wmean x u i - wmean x v i| ≤ d * (|(u : K) - v| / 2) := by
  rcases le_total u v with g | g
  · obtain ⟨k, rfl⟩ := Nat.exists_eq_add_of_le g
    rw [abs_sub_comm]
    refine (h.means hu hvi hi).trans (le_of_eq ?_)
    push_cast
    rw [sub_add_cancel_left, abs_neg, abs_of_nonneg (Nat.cast_nonneg k)]
  · obtain ⟨k, rfl⟩ := Nat.exists_eq_add_of_le g
    refine (h.means hv hui hi).trans (le_of_eq ?_)
    push_cast
    rw [add_sub_cancel_left, abs_of_nonneg (Nat.cast_nonneg k)]

/-- **SMA**: on every row with a value. -/
theorem sma_calm {n : Nat} {x : Nat → K} {d : K} (h : Calm n x d) {w : Nat} (hw : 1 ≤ w) {i : Nat} (hi : i < n) (hwi : w ≤ i + 1) (fillna : Bool) :
    ∃ y, ix (smaIndicator (ser n x) w fillna) i = .fin y ∧ |x i - y| ≤ d * ((w - 1) / 2) := by
  have hm := h.mean hw hwi hi
  cases fillna with
  | false => exact ⟨_, ((sma_formula n x w hw).val i hi (by omega)).trans (by rw [← min_eq_left hwi]), by simpa only [wmean, min_eq_left hwi] using hm⟩
  | true => exact ⟨_, (sma_fill_formula n x w hw).val i hi (Nat.zero_le _), hm⟩

/-- **WMA**: two thirds of that. -/
theorem wma_calm {n : Nat} {x : Nat → K} {d : K} (h : Calm n x d) {w : Nat} (hw : 1 ≤ w) {i : Nat} (hi : i < n) (hwi : w ≤ i + 1) :
    ∃ y, ix (wma (ser n x) w false) i = .fin y ∧ |x i - y| ≤ d * ((w - 1) / 3) := by
  refine ⟨_, (wma_formula n x w hw).val i hi (by omega), ?_⟩
  have w0 : (0 : K) < w := by exact_mod_cast hw
  have t0 : (0 : K) < (w : K) * (w + 1) / 2 := by positivity
  have sw : ∑ k ∈ range w, ((k : K) + 1) = (w : K) * (w + 1) / 2 := by
    rw [Finset.sum_add_distrib, Finset.sum_const, card_range, nsmul_eq_mul, sum_id]; ring
  have e : x i - (∑ k ∈ range w, ((k : K) + 1) * x (i + 1 - w + k)) / ((w : K) * (w + 1) / 2)
      = (∑ k ∈ range w, ((k : K) + 1) * (x i - x (i + 1 - w + k))) / ((w : K) * (w + 1) / 2) := by
    simp only [mul_sub]
    rw [Finset.sum_sub_distrib, ← Finset.sum_mul, sw, sub_div, mul_div_cancel_left₀ _ t0.ne']
  rw [e, abs_div, abs_of_pos t0, div_le_iff₀ t0]
  refine (Finset.abs_sum_le_sum_abs _ _).trans ?_
  calc ∑ k ∈ range w, |((k : K) + 1) * (x i - x (i + 1 - w + k))| ≤ ∑ k ∈ range w, d * ((w - 2) * (k : K) + (w - 1) - (k : K) ^ 2) := by
        refine Finset.sum_le_sum fun k hk => ?_
        rw [mem_range] at hk
        have := h.dist' (j := i + 1 - w + k) (i := i) (by omega) hi
        rw [Nat.cast_add, Nat.cast_sub hwi] at this
        have k0 : (0 : K) < (k : K) + 1 := by positivity
        rw [abs_mul, abs_of_pos k0]
        refine (mul_le_mul_of_nonneg_left this k0.le).trans (le_of_eq ?_)
        push_cast; ring
    _ = d * ((w - 1) / 3) * ((w : K) * (w + 1) / 2) := by
        rw [← Finset.mul_sum, Finset.sum_sub_distrib, Finset.sum_add_distrib, ← Finset.mul_sum, Finset.sum_const, card_range, nsmul_eq_mul, sum_id, sum_sq_id]; ring

/-! ### exponential averages -/

/-- the lag of an exponential average -/
theorem Calm.ema {n : Nat} {x : Nat → K} {d a : K} (hd : 0 ≤ d) (h : Calm n x d) (a0 : 0 < a) (a1 : a ≤ 1) {i : Nat} (hi : i < n) :
    |x i - emaRec a x i| ≤ d * ((1 - a) / a) := by
  have q0 : 0 ≤ d * ((1 - a) / a) := mul_nonneg hd (div_nonneg (by linarith) a0.le)
  induction i with
  | zero => simpa [emaRec] using q0
  | succ i ih =>
    have h1 := ih (by omega)
    have h2 := h i hi
    have e : x (i + 1) - emaRec a x (i + 1) = (1 - a) * ((x i - emaRec a x i) + (x (i + 1) - x i)) := by
      show x (i + 1) - ((1 - a) * emaRec a x i + a * x (i + 1)) = _
      ring
    rw [e, abs_mul, abs_of_nonneg (by linarith : 0 ≤ 1 - a)]
    refine (mul_le_mul_of_nonneg_left ((abs_add_le _ _).trans (add_le_add h1 h2)) (by linarith)).trans (le_of_eq ?_)
    field_simp
    ring

/-- two exponential averages of the same values -/
theorem Calm.emas {n : Nat} {x : Nat → K} {d a b : K} (hd : 0 ≤ d) (h : Calm n x d) (b0 : 0 < b) (hab : b ≤ a) (a1 : a ≤ 1) {i : Nat} (hi : i < n) :
    |emaRec a x i - emaRec b x i| ≤ d * (1 / b - 1 / a) := by
  have a0 : 0 < a := b0.trans_le hab
  have q0 : 0 ≤ d * (1 / b - 1 / a) := mul_nonneg hd (sub_nonneg.mpr (one_div_le_one_div_of_le b0 hab))
  induction i with
  | zero => simpa [emaRec] using q0
  | succ i ih =>
    have h1 := ih (by omega)
    have h2 := h i hi
    have h3 := h.ema hd a0 a1 (i := i) (by omega)
    have e : emaRec a x (i + 1) - emaRec b x (i + 1)
        = (1 - b) * (emaRec a x i - emaRec b x i) + (a - b) * ((x i - emaRec a x i) + (x (i + 1) - x i)) := by
      show ((1 - a) * emaRec a x i + a * x (i + 1)) - ((1 - b) * emaRec b x i + b * x (i + 1)) = _
      ring
    rw [e]
    refine (abs_add_le _ _).trans ?_
    rw [abs_mul, abs_mul, abs_of_nonneg (by linarith : 0 ≤ 1 - b), abs_of_nonneg (by linarith : 0 ≤ a - b)]
    refine (add_le_add (mul_le_mul_of_nonneg_left h1 (by linarith)) (mul_le_mul_of_nonneg_left ((abs_add_le _ _).trans (add_le_add h3 h2)) (by linarith))).trans
      (le_of_eq ?_)
    field_simp
    ring

theorem span_alpha {w : Nat} (hw : 1 ≤ w) : (0 : K) < 2 / ((w : K) + 1) ∧ 2 / ((w : K) + 1) ≤ 1 ∧ 1 / (2 / ((w : K) + 1)) = (w + 1) / 2 := by
  have w1 : (1 : K) ≤ w := by exact_mod_cast hw
  refine ⟨by positivity, ?_, by rw [one_div_div]⟩
  rw [div_le_one (by linarith)]; linarith

/-- **EMA**: on every row with a value. -/
theorem ema_calm {n : Nat} {x : Nat → K} {d : K} (hd : 0 ≤ d) (h : Calm n x d) {w : Nat} (hw : 1 ≤ w) {i : Nat} (hi : i < n) {fillna : Bool}
    (hwi : fillna = true ∨ w ≤ i + 1) {out : Series (Val K)} (ho : emaIndicator (ser n x) w fillna = .ok out) :
    ∃ y, ix out i = .fin y ∧ |x i - y| ≤ d * ((w - 1) / 2) := by
  obtain ⟨e, e0, e1, out', h1, h2⟩ := ema_recurrence n x w hw fillna
  rw [ho] at h1
  cases Except.ok.inj h1
  refine ⟨_, h2.val i hi (by rcases hwi with rfl | g; simp; split_ifs <;> omega), ?_⟩
  have ee : ∀ i, e i = emaRec (2 / ((w : K) + 1)) x i := fun i => by
    induction i with
    | zero => exact e0
    | succ i ih => rw [e1, ih]; rfl
  obtain ⟨p, q, r⟩ := span_alpha (K := K) hw
  rw [ee]
  refine (h.ema hd p q hi).trans (le_of_eq ?_)
  rw [sub_div, r, div_self p.ne']; ring

/-- the values of an exponential average stay where its inputs are -/
theorem emaRec_stays {x : Nat → K} {B a : K} (a0 : 0 ≤ a) (a1 : a ≤ 1) {i : Nat} (h : ∀ j, j ≤ i → |x j| ≤ B) : |emaRec a x i| ≤ B := by
  induction i with
  | zero => exact h 0 le_rfl
  | succ i ih =>
    have h1 := ih fun j hj => h j (by omega)
    have h2 := h (i + 1) le_rfl
    show |(1 - a) * emaRec a x i + a * x (i + 1)| ≤ B
    refine (abs_add_le _ _).trans ?_
    rw [abs_mul, abs_mul, abs_of_nonneg a0, abs_of_nonneg (by linarith : 0 ≤ 1 - a)]
    nlinarith

/-- **MACD**: line and signal line. -/
theorem macd_calm {n : Nat} {c : Nat → K} {d : K} (hd : 0 ≤ d) (h : Calm n c d) {slow fast sign : Nat} {fillna : Bool} {o : MACD (Val K)}
    (ho : MACD.new (ser n c) slow fast sign fillna = .ok o) {i : Nat} (hi : i < n) {y : K} :
    (ix o.macd i = .fin y → |y| ≤ d * (|(slow : K) - fast| / 2)) ∧ (ix o.macdSignal i = .fin y → |y| ≤ d * (|(slow : K) - fast| / 2)) := by
  obtain ⟨h1, h2, h3, -⟩ := macd_new ho
  obtain ⟨L, S, hL, hS, d1, d2, -⟩ := macd_formula ho
  have key : ∀ j, j < n → |L j| ≤ d * (|(slow : K) - fast| / 2) := fun j hj => by
    rw [hL]
    obtain ⟨p, q, r⟩ := span_alpha (K := K) h1
    obtain ⟨p', q', r'⟩ := span_alpha (K := K) h2
    rcases le_total fast slow with g | g
    · have g' : (fast : K) ≤ slow := by exact_mod_cast g
      have := h.emas hd p (div_le_div_of_nonneg_left (by norm_num) (by positivity) (by linarith)) q' hj
      rw [r, r'] at this
      rw [abs_of_nonneg (by linarith : 0 ≤ (slow : K) - fast)]
      exact this.trans (le_of_eq (by ring))
    · have g' : (slow : K) ≤ fast := by exact_mod_cast g
      have := h.emas hd p' (div_le_div_of_nonneg_left (by norm_num) (by positivity) (by linarith)) q hj
      rw [r, r', abs_sub_comm] at this
      rw [abs_sub_comm (slow : K), abs_of_nonneg (by linarith : 0 ≤ (fast : K) - slow)]
      exact this.trans (le_of_eq (by ring))
  constructor
  · intro hy
    rcases Nat.lt_or_ge i (if fillna then 0 else max slow fast - 1) with g | g
    · rw [d1.gap i hi g] at hy; exact nomatch hy
    · rw [d1.val i hi g] at hy
      cases Val.fin.inj hy
      exact key i hi
  · intro hy
    rcases Nat.lt_or_ge i (if fillna then 0 else max slow fast + sign - 2) with g | g
    · rw [d2.gap i hi g] at hy; exact nomatch hy
    · rw [d2.val i hi g] at hy
      cases Val.fin.inj hy
      obtain ⟨p, q, -⟩ := span_alpha (K := K) h3
      rw [hS]
      refine emaRec_stays p.le q fun j hj => key _ ?_
      revert g hj
      cases fillna <;> simp <;> omega

/-- **Awesome oscillator**: the middles of the bars move by `d` at most. -/
theorem ao_calm {n : Nat} {h l : Nat → K} {d : K} (hm : Calm n (fun i => (h i + l i) / 2) d) {w1 w2 : Nat} (h1 : 1 ≤ w1) (h2 : 1 ≤ w2) (fillna : Bool)
    {i : Nat} (hi : i < n) (g1 : w1 ≤ i + 1) (g2 : w2 ≤ i + 1) :
    ∃ y, ix (awesomeOscillator (ser n h) (ser n l) w1 w2 fillna) i = .fin y ∧ |y| ≤ d * (|(w1 : K) - w2| / 2) :=
  ⟨_, (ao_formula n h l h1 h2 fillna).val i hi (by split_ifs <;> omega), hm.means' h1 h2 g1 g2 hi⟩

/-! ### KAMA -/

theorem effRatio_unit (c : Nat → K) {w i : Nat} (h : w ≤ i) : 0 ≤ effRatio c w i ∧ effRatio c w i ≤ 1 := by
  have h1 := abs_sub_le_path c i w h
  have h0 : (0 : K) ≤ ∑ j ∈ Finset.Ico (i + 1 - w) (i + 1), |c j - c (j - 1)| := Finset.sum_nonneg fun _ _ => abs_nonneg _
  unfold effRatio
  split_ifs with h2
  · simp
  · have hp := lt_of_le_of_ne h0 (Ne.symm h2)
    exact ⟨div_nonneg (abs_nonneg _) h0, by rw [div_le_one hp]; exact h1⟩

/-- **KAMA** follows at its slowest rate or faster. -/
theorem kama_calm {n : Nat} {x : Nat → K} {d : K} (hd : 0 ≤ d) (h : Calm n x d) {w pow1 pow2 : Nat} (hw : 1 ≤ w) (h1 : 1 ≤ pow1) (h12 : pow1 ≤ pow2)
    {i : Nat} (hi : i < n) (hwi : w ≤ i + 1) :
    ∃ y, ix (kama (ser n x) w pow1 pow2 false) i = .fin y ∧ |x i - y| ≤ d * ((((pow2 : K) + 1) / 2) ^ 2 - 1) := by
  obtain ⟨Y, y0, y1, hY⟩ := kama_formula n x hw pow1 pow2
  refine ⟨_, hY.val i hi (by omega), ?_⟩
  obtain ⟨p, q, r⟩ := span_alpha (K := K) (h1.trans h12)
  obtain ⟨p', q', -⟩ := span_alpha (K := K) h1
  have pq : 2 / ((pow2 : K) + 1) ≤ 2 / ((pow1 : K) + 1) := by
    have : (pow1 : K) ≤ pow2 := by exact_mod_cast h12
    exact div_le_div_of_nonneg_left (by norm_num) (by positivity) (by linarith)
  have eq : (((pow2 : K) + 1) / 2) ^ 2 = 1 / (2 / ((pow2 : K) + 1)) ^ 2 := by rw [one_div, ← inv_pow, inv_div]
  rw [eq]
  generalize 2 / ((pow2 : K) + 1) = b at *
  generalize 2 / ((pow1 : K) + 1) = a at *
  have b2 : 0 < b ^ 2 := by positivity
  have b21 : b ^ 2 ≤ 1 := pow_le_one₀ p.le q
  have q0 : 0 ≤ d * (1 / b ^ 2 - 1) := mul_nonneg hd (sub_nonneg.mpr ((one_le_div b2).mpr b21))
  obtain ⟨k, rfl⟩ : ∃ k, i = w - 1 + k := ⟨i - (w - 1), by omega⟩
  clear hwi
  induction k with
  | zero => simpa [y0] using q0
  | succ k ih =>
    have hh := ih (by omega)
    have h2 := h (w - 1 + k) (by omega)
    have er := effRatio_unit x (w := w) (i := w - 1 + (k + 1)) (by omega)
    have s1 : b ^ 2 ≤ (effRatio x w (w - 1 + (k + 1)) * (a - b) + b) ^ 2 :=
      pow_le_pow_left₀ p.le (by nlinarith [er.1]) 2
    have s2 : (effRatio x w (w - 1 + (k + 1)) * (a - b) + b) ^ 2 ≤ 1 :=
      pow_le_one₀ (by nlinarith [er.1]) (by nlinarith [er.2])
    have ey := y1 (w - 1 + (k + 1)) (by omega)
    rw [show w - 1 + (k + 1) - 1 = w - 1 + k by omega] at ey
    generalize (effRatio x w (w - 1 + (k + 1)) * (a - b) + b) ^ 2 = s at *
    rw [← Nat.add_assoc] at ey ⊢
    have e : x (w - 1 + k + 1) - Y (w - 1 + k + 1) = (1 - s) * ((x (w - 1 + k) - Y (w - 1 + k)) + (x (w - 1 + k + 1) - x (w - 1 + k))) := by
      rw [ey]; ring
    rw [e, abs_mul, abs_of_nonneg (by linarith : 0 ≤ 1 - s)]
    have t : |x (w - 1 + k) - Y (w - 1 + k) + (x (w - 1 + k + 1) - x (w - 1 + k))| ≤ d * (1 / b ^ 2) :=
      (abs_add_le _ _).trans ((add_le_add hh h2).trans (le_of_eq (by ring)))
    refine (mul_le_mul (by linarith : 1 - s ≤ 1 - b ^ 2) t (abs_nonneg _) (by linarith)).trans (le_of_eq ?_)
    field_simp

/-- **ROC** of positive closes not below `m`. -/
theorem roc_calm {n : Nat} {c : Nat → K} {d m : K} (h : Calm n c d) (hm : 0 < m) (hc : ∀ i, m ≤ c i) (hd : 0 ≤ d) {w i : Nat} (hi : i < n) (hwi : w ≤ i) :
    ∃ y, ix (roc (ser n c) w false) i = .fin y ∧ |y| ≤ 100 * (d * w / m) := by
  refine ⟨_, (roc_formula n (fun j => (hm.trans_le (hc j)).ne') w).1.val i hi hwi, ?_⟩
  have := h.dist (j := i - w) (k := w) (by omega)
  rw [Nat.sub_add_cancel hwi] at this
  have p : 0 < c (i - w) := hm.trans_le (hc _)
  rw [abs_mul, abs_of_pos (by norm_num : (0 : K) < 100), div_sub_one p.ne', abs_div, abs_of_pos p]
  refine mul_le_mul_of_nonneg_left ?_ (by norm_num)
  exact div_le_div₀ (mul_nonneg hd (Nat.cast_nonneg _)) this hm (hc _)

end slow

/-! ### standard deviation -/

theorem sum_pairs (y : Nat → ℝ) (w : Nat) :
    ∑ j ∈ range w, ∑ k ∈ range w, (y j - y k) ^ 2 = 2 * (w * ∑ k ∈ range w, y k ^ 2) - 2 * (∑ k ∈ range w, y k) ^ 2 := by
  have e : ∀ j k, (y j - y k) ^ 2 = y j ^ 2 + y k ^ 2 - 2 * (y j * y k) := fun j k => by ring
  simp only [e, Finset.sum_sub_distrib, Finset.sum_add_distrib, Finset.sum_const, card_range, nsmul_eq_mul, ← Finset.mul_sum]
  rw [← Finset.sum_mul]
  ring

/-- the variance of a window through the differences of its members -/
theorem var_pairs (x : Nat → ℝ) {w i : Nat} (hw : 1 ≤ w) (hwi : w ≤ i + 1) :
    wstd x w i ^ 2 = (∑ j ∈ range w, ∑ k ∈ range w, (x (i + 1 - w + j) - x (i + 1 - w + k)) ^ 2) / (2 * (w : ℝ) ^ 2) := by
  have w0 : (w : ℝ) ≠ 0 := by exact_mod_cast (by omega : w ≠ 0)
  unfold wstd
  rw [Real.sq_sqrt (div_nonneg (Finset.sum_nonneg fun _ _ => sq_nonneg _) (Nat.cast_nonneg _)), wmean_range x hwi, Finset.sum_Ico_eq_sum_range,
    show i + 1 - (i + 1 - w) = w by omega, min_eq_left hwi, sum_pairs (fun k => x (i + 1 - w + k))]
  have e : ∀ k m, (x (i + 1 - w + k) - m) ^ 2 = x (i + 1 - w + k) ^ 2 - 2 * m * x (i + 1 - w + k) + m ^ 2 := fun k m => by ring
  simp only [e, Finset.sum_sub_distrib, Finset.sum_add_distrib, Finset.sum_const, card_range, nsmul_eq_mul, ← Finset.mul_sum]
  field_simp
  ring

theorem pairs_id (w : Nat) : ∑ j ∈ range w, ∑ k ∈ range w, ((j : ℝ) - k) ^ 2 = (w : ℝ) ^ 2 * ((w : ℝ) ^ 2 - 1) / 6 := by
  rw [sum_pairs (fun k => (k : ℝ)), sum_id, sum_sq_id]; ring

theorem Calm.std {n : Nat} {x : Nat → ℝ} {d : ℝ} (hd : 0 ≤ d) (h : Calm n x d) {w i : Nat} (hw : 1 ≤ w) (hwi : w ≤ i + 1) (hi : i < n) :
    wstd x w i ≤ d * Real.sqrt (((w : ℝ) ^ 2 - 1) / 12) := by
  have w0 : (0 : ℝ) < w := by exact_mod_cast hw
  have w1 : (1 : ℝ) ≤ w := by exact_mod_cast hw
  refine le_of_sq_le_sq ?_ (mul_nonneg hd (Real.sqrt_nonneg _))
  rw [mul_pow, Real.sq_sqrt (by nlinarith), var_pairs x hw hwi, div_le_iff₀ (by positivity)]
  calc _ ≤ ∑ j ∈ range w, ∑ k ∈ range w, d ^ 2 * ((j : ℝ) - k) ^ 2 := by
        refine Finset.sum_le_sum fun j hj => Finset.sum_le_sum fun k hk => ?_
        rw [mem_range] at hj hk
        rw [← mul_pow]
        have key : ∀ j k, j ≤ k → k < w → (x (i + 1 - w + j) - x (i + 1 - w + k)) ^ 2 ≤ (d * ((j : ℝ) - k)) ^ 2 := fun j k hjk hk => by
          have := h.dist' (j := i + 1 - w + j) (i := i + 1 - w + k) (by omega) (by omega)
          rw [abs_sub_comm] at this
          refine sq_le_sq.mpr (this.trans ?_)
          refine (le_abs_self _).trans (le_of_eq ?_)
          rw [← abs_neg]; congr 1; push_cast; ring
        rcases le_total j k with g | g
        · exact key j k g hk
        · rw [← neg_sub, neg_sq, ← neg_sub (k : ℝ), mul_neg, neg_sq]
          exact key k j g hj
    _ = d ^ 2 * (((w : ℝ) ^ 2 - 1) / 12) * (2 * (w : ℝ) ^ 2) := by
        simp only [← Finset.mul_sum]
        rw [pairs_id]; ring

/-- **Bollinger**: the middle line and the distance of the bands. -/
theorem bollinger_calm {n : Nat} {c : Nat → ℝ} {d : ℝ} (hd : 0 ≤ d) (h : Calm n c d) {w : Nat} (hw : 1 ≤ w) {v : ℝ} (hv : 0 ≤ v) (fillna : Bool) {i : Nat} (hi : i < n)
    (hwi : w ≤ i + 1) : ∃ m a b, ix (BB.new (ser n c) w (.fin v) fillna).bollingerMavg i = .fin m ∧ ix (BB.new (ser n c) w (.fin v) fillna).bollingerHband i = .fin a ∧
      ix (BB.new (ser n c) w (.fin v) fillna).bollingerLband i = .fin b ∧ |c i - m| ≤ d * ((w - 1) / 2) ∧ a - b ≤ 2 * v * (d * Real.sqrt (((w : ℝ) ^ 2 - 1) / 12)) := by
  have H := bollinger_formula (n := n) c hw v fillna
  have g : (if fillna then 0 else w - 1) ≤ i := by split_ifs <;> omega
  refine ⟨_, _, _, H.mavg.val i hi g, H.hband.val i hi g, H.lband.val i hi g, h.mean hw hwi hi, ?_⟩
  have := mul_le_mul_of_nonneg_left (h.std hd hw hwi hi) hv
  linarith

/-! ### ramps -/

section ramp
variable {K : Type} [Field K] [LinearOrder K] [IsStrictOrderedRing K]

theorem calm_ramp (n : Nat) (b d : K) (hd : 0 ≤ d) : Calm n (fun j => b + d * j) d := fun j _ => by
  push_cast
  rw [show b + d * (j + 1) - (b + d * j) = d by ring, abs_of_nonneg hd]

theorem wmean_ramp (b d : K) {w i : Nat} (hw : 1 ≤ w) (hwi : w ≤ i + 1) : wmean (fun j => b + d * j) w i = b + d * i - d * ((w - 1) / 2) := by
  have w0 : (w : K) ≠ 0 := by exact_mod_cast (by omega : w ≠ 0)
  rw [wmean_range _ hwi]
  have e : ∀ k : Nat, b + d * ((i + 1 - w + k : ℕ) : K) = (b + d * (i + 1 - w)) + d * k := fun k => by
    rw [Nat.cast_add, Nat.cast_sub hwi]; push_cast; ring
  simp only [e, Finset.sum_add_distrib, Finset.sum_const, card_range, nsmul_eq_mul, ← Finset.mul_sum, sum_id]
  field_simp
  ring

/-- **On a ramp the bounds for SMA, WMA and the awesome oscillator are attained**, on every full row. -/
theorem ramp_attained (n : Nat) (b d : K) {w i : Nat} (hw : 1 ≤ w) (hi : i < n) (hwi : w ≤ i + 1) :
    ix (smaIndicator (ser n fun j => b + d * j) w false) i = .fin (b + d * i - d * ((w - 1) / 2))
    ∧ ix (wma (ser n fun j => b + d * j) w false) i = .fin (b + d * i - d * ((w - 1) / 3))
    ∧ ∀ u, 1 ≤ u → u ≤ i + 1 → ∀ fillna, ix (awesomeOscillator (ser n fun j => b + d * j) (ser n fun j => b + d * j) u w fillna) i = .fin (d * (((w : K) - u) / 2)) := by
  have w0 : (0 : K) < w := by exact_mod_cast hw
  refine ⟨?_, ?_, fun u hu hui fillna => ?_⟩
  · rw [(sma_formula n _ w hw).val i hi (by omega), ← wmean_ramp b d hw hwi, wmean, min_eq_left hwi]
  · rw [(wma_formula n _ w hw).val i hi (by omega)]
    have e : ∀ k : Nat, ((k : K) + 1) * (b + d * ((i + 1 - w + k : ℕ) : K)) = (b + d * (i + 1 - w)) + (b + d * (i + 1 - w) + d) * k + d * (k : K) ^ 2 := fun k => by
      rw [Nat.cast_add, Nat.cast_sub hwi]; push_cast; ring
    simp only [e, Finset.sum_add_distrib, Finset.sum_const, card_range, nsmul_eq_mul, ← Finset.mul_sum, sum_id, sum_sq_id]
    congr 1
    have : (w : K) + 1 ≠ 0 := by positivity
    field_simp
    ring
  · rw [(ao_formula n _ _ hu hw fillna).val i hi (by split_ifs <;> omega)]
    have e : ∀ j : Nat, ((b + d * j) + (b + d * j)) / 2 = b + d * j := fun j => by ring
    have e1 := wmean_ramp b d hu hui
    have e2 := wmean_ramp b d hw hwi
    unfold wmean at e1 e2
    simp only [e]
    rw [e1, e2]
    congr 1
    ring

theorem ramp_emaRec (b d : K) {a : K} (ha : a ≠ 0) (i : Nat) :
    emaRec a (fun j => b + d * j) i = b + d * i - d * ((1 - a) / a) * (1 - (1 - a) ^ i) := by
  induction i with
  | zero => simp [emaRec]
  | succ i ih =>
    show (1 - a) * emaRec a (fun j => b + d * j) i + a * (b + d * ((i + 1 : ℕ) : K)) = _
    rw [ih, pow_succ]
    push_cast
    field_simp
    ring

/-- **On a ramp the lag of the EMA grows towards its bound**: the rest shrinks by `1 - 2/(w+1)` a row. -/
theorem ramp_ema (n : Nat) (b d : K) {w : Nat} (hw : 1 ≤ w) {fillna : Bool} {i : Nat} (hi : i < n) (hwi : fillna = true ∨ w ≤ i + 1) {out : Series (Val K)}
    (ho : emaIndicator (ser n fun j => b + d * j) w fillna = .ok out) :
    ix out i = .fin (b + d * i - d * ((w - 1) / 2) * (1 - (1 - 2 / ((w : K) + 1)) ^ i)) := by
  obtain ⟨e, e0, e1, out', h1, h2⟩ := ema_recurrence n (fun j => b + d * j) w hw fillna
  rw [ho] at h1
  cases Except.ok.inj h1
  rw [h2.val i hi (by rcases hwi with rfl | g; simp; split_ifs <;> omega)]
  have ee : ∀ i, e i = emaRec (2 / ((w : K) + 1)) (fun j => b + d * j) i := fun i => by
    induction i with
    | zero => exact e0
    | succ i ih => rw [e1, ih]; rfl
  obtain ⟨p, q, r⟩ := span_alpha (K := K) hw
  rw [ee, ramp_emaRec b d p.ne', sub_div, r, div_self p.ne']
  congr 1
  ring

end ramp

theorem ramp_std (b : ℝ) {d : ℝ} (hd : 0 ≤ d) {w i : Nat} (hw : 1 ≤ w) (hwi : w ≤ i + 1) :
    wstd (fun j => b + d * j) w i = d * Real.sqrt (((w : ℝ) ^ 2 - 1) / 12) := by
  have w1 : (1 : ℝ) ≤ w := by exact_mod_cast hw
  have w0 : (w : ℝ) ≠ 0 := by linarith
  refine (sq_eq_sq₀ (wstd_nonneg' _ _ _) (mul_nonneg hd (Real.sqrt_nonneg _))).mp ?_
  rw [mul_pow, Real.sq_sqrt (by nlinarith), var_pairs _ hw hwi]
  have e : ∀ j k : Nat, (b + d * ((i + 1 - w + j : ℕ) : ℝ) - (b + d * ((i + 1 - w + k : ℕ) : ℝ))) ^ 2 = d ^ 2 * ((j : ℝ) - k) ^ 2 := fun j k => by
    push_cast; ring
  simp only [e, ← Finset.mul_sum]
  rw [pairs_id]
  field_simp
  ring

/-- **On a ramp the Bollinger bands are as far apart as they can be.** -/
theorem ramp_bollinger (n : Nat) (b : ℝ) {d : ℝ} (hd : 0 ≤ d) {w i : Nat} (hw : 1 ≤ w) (hi : i < n) (hwi : w ≤ i + 1) (v : ℝ) (fillna : Bool) :
    ∃ x y, ix (BB.new (ser n fun j => b + d * j) w (.fin v) fillna).bollingerHband i = .fin x ∧ ix (BB.new (ser n fun j => b + d * j) w (.fin v) fillna).bollingerLband i = .fin y
      ∧ x - y = 2 * v * (d * Real.sqrt (((w : ℝ) ^ 2 - 1) / 12)) := by
  have H := bollinger_formula (n := n) (fun j => b + d * j) hw v fillna
  have g : (if fillna then 0 else w - 1) ≤ i := by split_ifs <;> omega
  refine ⟨_, _, H.hband.val i hi g, H.lband.val i hi g, ?_⟩
  rw [ramp_std b hd hw hwi]; ring

example : Calm 6 (fun i => [10, 11, 12, 11, 10, 11].getD i (0 : ℚ)) 1 := by
  intro j hj
  have : j = 0 ∨ j = 1 ∨ j = 2 ∨ j = 3 ∨ j = 4 := by omega
  rcases this with rfl | rfl | rfl | rfl | rfl <;> norm_num
example : smaIndicator (qs [10, 11, 12, 13, 14, 15]) 5 false = [.nan, .nan, .nan, .nan, .fin 12, .fin 13] := by decide +kernel
example : wma (qs [10, 11, 12, 13, 14, 15]) 4 false = [.nan, .nan, .nan, .fin 12, .fin 13, .fin 14] := by decide +kernel
example : emaIndicator (qs [10, 11, 12, 13]) 3 true = .ok [.fin 10, .fin (21 / 2), .fin (45 / 4), .fin (97 / 8)] := by decide +kernel
example : awesomeOscillator (qs [10, 11, 12, 13]) (qs [10, 11, 12, 13]) 2 4 false = [.nan, .nan, .nan, .fin 1] := by decide +kernel

end TA
