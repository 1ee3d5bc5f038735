import Verif.Props.C49
import Verif.Props.C30
import Mathlib.Algebra.Order.Chebyshev

/-!
# C96 — How far the last value can be from its own window

The bands of Bollinger and the scale of the CCI are computed from a window that contains the value they are compared with.  A single value out of `m`
can be at most `sqrt (m - 1)` standard deviations and at most `m / 2` mean deviations away from the mean.  So the crossing flags of Bollinger bands with
`window - 1 ≤ dev²` never fire (5 rows and 2 deviations, say), and the CCI lies in `[-window / (2 constant), window / (2 constant)]`.  In the same way each term of the mass index is at most `(window_fast + 1) / 2`.
-/

namespace TA
open Finset

section dev
variable {K : Type} [Field K] [LinearOrder K] [IsStrictOrderedRing K]

/-- the deviations from the mean add up to zero -/
theorem sum_dev (f : Nat → K) {w : Nat} (hw : 1 ≤ w) (i : Nat) : ∑ j ∈ Ico (i + 1 - w) (i + 1), (f j - wmean f w i) = 0 := by
  have h0 : ((min w (i + 1) : ℕ) : K) ≠ 0 := by exact_mod_cast (by omega : min w (i + 1) ≠ 0)
  rw [Finset.sum_sub_distrib, Finset.sum_const, Nat.card_Ico, nsmul_eq_mul, wmean, show i + 1 - (i + 1 - w) = min w (i + 1) by omega]
  rw [mul_div_cancel₀ _ h0, sub_self]

/-- Samuelson's inequality -/
theorem dev_sq_le (f : Nat → K) {w : Nat} (hw : 1 ≤ w) (i : Nat) :
    (f i - wmean f w i) ^ 2 ≤ (((min w (i + 1) : ℕ) : K) - 1) * ((∑ j ∈ Ico (i + 1 - w) (i + 1), (f j - wmean f w i) ^ 2) / (min w (i + 1) : ℕ)) := by
  have h1 : 1 ≤ min w (i + 1) := by omega
  have mem : i ∈ Ico (i + 1 - w) (i + 1) := by simp; omega
  have hs := sum_dev f hw i
  have hm : (Ico (i + 1 - w) (i + 1)).card = min w (i + 1) := by rw [Nat.card_Ico]; omega
  generalize hy : (fun j => f j - wmean f w i) = y
  have e : ∀ j, f j - wmean f w i = y j := fun j => congrFun hy j
  simp only [e] at hs ⊢
  generalize Ico (i + 1 - w) (i + 1) = S at *
  generalize hM : min w (i + 1) = m at *
  have cM : ((S.erase i).card : K) = (m : K) - 1 := by
    rw [Finset.card_erase_of_mem mem, hm, Nat.cast_sub h1, Nat.cast_one]
  have d1 : ∑ j ∈ S.erase i, y j = - y i := by
    rw [← Finset.add_sum_erase _ _ mem] at hs; linarith
  have d2 : ∑ j ∈ S.erase i, y j ^ 2 = (∑ j ∈ S, y j ^ 2) - y i ^ 2 := by
    rw [← Finset.add_sum_erase _ _ mem]; ring
  have cs := sq_sum_le_card_mul_sum_sq (s := S.erase i) (f := y)
  rw [d1, d2, cM] at cs
  have mp : (0 : K) < m := by exact_mod_cast h1
  rw [mul_div_assoc', le_div_iff₀ mp]
  nlinarith [cs]

/-- a deviation is at most half the sum of all deviations -/
theorem dev_le_mad (f : Nat → K) {w : Nat} (hw : 1 ≤ w) (i : Nat) : |f i - wmean f w i| ≤ ((min w (i + 1) : ℕ) : K) / 2 * wmad f w i := by
  have h1 : 1 ≤ min w (i + 1) := by omega
  have mem : i ∈ Ico (i + 1 - w) (i + 1) := by simp; omega
  have hs := sum_dev f hw i
  have hd : ((min w (i + 1) : ℕ) : K) * wmad f w i = ∑ j ∈ Ico (i + 1 - w) (i + 1), |f j - wmean f w i| := by
    have h0 : ((min w (i + 1) : ℕ) : K) ≠ 0 := by exact_mod_cast (by omega : min w (i + 1) ≠ 0)
    rw [wmad, wmean, mul_div_cancel₀ _ h0]
  rw [div_mul_eq_mul_div, hd]
  rw [← Finset.add_sum_erase _ _ mem] at hs ⊢
  have : |f i - wmean f w i| ≤ ∑ j ∈ (Ico (i + 1 - w) (i + 1)).erase i, |f j - wmean f w i| := by
    rw [eq_neg_of_add_eq_zero_left hs, abs_neg]
    exact Finset.abs_sum_le_sum_abs _ _
  linarith

end dev

/-! ## Bollinger bands -/

theorem dev_le_std (c : Nat → ℝ) {w : Nat} (hw : 1 ≤ w) (i : Nat) : (c i - wmean c w i) ^ 2 ≤ ((w : ℝ) - 1) * wstd c w i ^ 2 := by
  have q : 0 ≤ (∑ j ∈ Ico (i + 1 - w) (i + 1), (c j - wmean c w i) ^ 2) / (min w (i + 1) : ℕ) :=
    div_nonneg (Finset.sum_nonneg fun _ _ => sq_nonneg _) (Nat.cast_nonneg _)
  have s2 : wstd c w i ^ 2 = (∑ j ∈ Ico (i + 1 - w) (i + 1), (c j - wmean c w i) ^ 2) / (min w (i + 1) : ℕ) := Real.sq_sqrt q
  refine (dev_sq_le c hw i).trans ?_
  rw [s2]
  refine mul_le_mul_of_nonneg_right ?_ q
  have : ((min w (i + 1) : ℕ) : ℝ) ≤ w := by exact_mod_cast Nat.min_le_left _ _
  linarith

theorem wstd_nonneg' (c : Nat → ℝ) (w i : Nat) : 0 ≤ wstd c w i := Real.sqrt_nonneg _

/-- **The flags never fire** when `window - 1 ≤ dev²`. -/
theorem bollinger_never_crossed {n : Nat} (c : Nat → ℝ) {w : Nat} (hw : 1 ≤ w) {d : ℝ} (hd : 0 ≤ d) (hdw : (w : ℝ) - 1 ≤ d ^ 2) (fillna : Bool) :
    (∀ i < n, ix (BB.new (ser n c) w (.fin d) fillna).bollingerHbandIndicator i = .fin 0)
    ∧ ∀ i < n, ix (BB.new (ser n c) w (.fin d) fillna).bollingerLbandIndicator i = .fin 0 := by
  have H := bollinger_formula (n := n) c hw d fillna
  have key : ∀ i, |c i - wmean c w i| ≤ d * wstd c w i := fun i => by
    refine abs_le_of_sq_le_sq ?_ (mul_nonneg hd (wstd_nonneg' c w i))
    rw [mul_pow]
    exact (dev_le_std c hw i).trans (mul_le_mul_of_nonneg_right hdw (sq_nonneg _))
  constructor
  · intro i hi
    rw [H.above.val i hi (Nat.zero_le _), if_neg]
    rintro ⟨-, h⟩
    have := (abs_le.1 (key i)).2
    linarith
  · intro i hi
    rw [H.below.val i hi (Nat.zero_le _), if_neg]
    rintro ⟨-, h⟩
    have := (abs_le.1 (key i)).1
    linarith

/-- a flat column that jumps by 1 on row `w - 1` -/
def jump (w : Nat) (i : Nat) : ℝ := if i = w - 1 then 2 else 1

theorem jump_mean {w : Nat} (hw : 1 ≤ w) : wmean (jump w) w (w - 1) = 1 + 1 / w := by
  have hw0 : (w : ℝ) ≠ 0 := by exact_mod_cast (by omega : w ≠ 0)
  have e : ∀ j, jump w j = 1 + if j = w - 1 then 1 else 0 := fun j => by unfold jump; split_ifs <;> norm_num
  unfold wmean
  rw [show w - 1 + 1 - w = 0 by omega, show w - 1 + 1 = w by omega, min_self]
  simp only [e]
  rw [Finset.sum_add_distrib, Finset.sum_const, Nat.card_Ico, Finset.sum_ite_eq' (Ico 0 w), if_pos (by simp; omega)]
  simp only [Nat.sub_zero, nsmul_eq_mul]
  field_simp

theorem jump_var {w : Nat} (hw : 1 ≤ w) : wstd (jump w) w (w - 1) ^ 2 = ((w : ℝ) - 1) / w ^ 2 := by
  have hw0 : (w : ℝ) ≠ 0 := by exact_mod_cast (by omega : w ≠ 0)
  unfold wstd
  rw [Real.sq_sqrt (div_nonneg (Finset.sum_nonneg fun _ _ => sq_nonneg _) (Nat.cast_nonneg _)), jump_mean hw, show w - 1 + 1 - w = 0 by omega,
    show w - 1 + 1 = w by omega, min_self]
  have e : ∀ j, (jump w j - (1 + 1 / (w : ℝ))) ^ 2 = (1 / (w : ℝ)) ^ 2 + if j = w - 1 then 1 - 2 / (w : ℝ) else 0 := fun j => by
    unfold jump; split_ifs <;> ring
  simp only [e]
  rw [Finset.sum_add_distrib, Finset.sum_const, Nat.card_Ico, Finset.sum_ite_eq' (Ico 0 w), if_pos (by simp; omega)]
  simp only [Nat.sub_zero, nsmul_eq_mul]
  field_simp
  ring

/-- **and only then**: if `dev² < window - 1` there is a column of positive closes on which the upper flag fires. -/
theorem bollinger_crossed {w : Nat} (hw : 1 ≤ w) {d : ℝ} (hdw : d ^ 2 < (w : ℝ) - 1) (fillna : Bool) :
    ∃ c : Nat → ℝ, (∀ i, 0 < c i) ∧ ix (BB.new (ser w c) w (.fin d) fillna).bollingerHbandIndicator (w - 1) = .fin 1 := by
  refine ⟨jump w, fun i => by unfold jump; split_ifs <;> norm_num, ?_⟩
  have H := bollinger_formula (n := w) (jump w) hw d fillna
  rw [H.above.val (w - 1) (by omega) (Nat.zero_le _), if_pos]
  refine ⟨by split_ifs <;> omega, ?_⟩
  have hw0 : (0 : ℝ) < w := by exact_mod_cast hw
  rw [jump_mean hw]
  have ej : jump w (w - 1) = 2 := if_pos rfl
  rw [ej]
  have s0 := wstd_nonneg' (jump w) w (w - 1)
  have s2 := jump_var hw
  generalize wstd (jump w) w (w - 1) = s at s0 s2
  have : d * s < ((w : ℝ) - 1) / w := by
    have p : 0 ≤ ((w : ℝ) - 1) / w := div_nonneg (by nlinarith [sq_nonneg d]) hw0.le
    refine lt_of_pow_lt_pow_left₀ 2 p ?_
    rw [mul_pow, s2, div_pow, ← mul_div_assoc, sq ((w : ℝ) - 1)]
    have : 0 < (w : ℝ) - 1 := by nlinarith [sq_nonneg d]
    gcongr
  have e : (1 : ℝ) + 1 / w + ((w : ℝ) - 1) / w = 2 := by field_simp; ring
  linarith

/-- **%B** stays within `sqrt (window - 1) / (2 dev)` of one half. -/
theorem bollinger_pband_reach {n : Nat} (c : Nat → ℝ) {w : Nat} (hw : 1 ≤ w) {d : ℝ} (hd : 0 < d) {i : Nat} (hi : i < n) {p : ℝ}
    (hp : ix (BB.new (ser n c) w (.fin d) false).bollingerPband i = .fin p) : |p - 1 / 2| ≤ Real.sqrt ((w : ℝ) - 1) / (2 * d) := by
  have hM := (def_ser n c).rollMeanP hw (le_refl w)
  have hS := (def_ser n c).rollStd hw (le_refl w)
  have hA := hM.sadd (hS.cmul d)
  have hB := hM.ssub (hS.cmul d)
  rw [max_self] at hA hB
  have hc := def_ser n c
  have e : ix (BB.new (ser n c) w (.fin d) false).bollingerPband i
      = (ix (ser n c) i -. ix (ssub (rollMean w w (ser n c)) (cmul (.fin d) (TA.rollStd w w (ser n c)))) i) /.
        (if ix (sadd (rollMean w w (ser n c)) (cmul (.fin d) (TA.rollStd w w (ser n c)))) i !=.
            ix (ssub (rollMean w w (ser n c)) (cmul (.fin d) (TA.rollStd w w (ser n c)))) i
          then ix (sadd (rollMean w w (ser n c)) (cmul (.fin d) (TA.rollStd w w (ser n c)))) i -.
            ix (ssub (rollMean w w (ser n c)) (cmul (.fin d) (TA.rollStd w w (ser n c)))) i else nan) := by
    show ix (sdiv _ _) i = _
    rw [ix_sdiv (by simp [BB.new, ser, hi]), ix_ssub (by simp [BB.new, ser, hi]), ix_zip2 (by simp [BB.new, ser, hi])]
    rfl
  rw [e] at hp
  by_cases h1 : i < w - 1
  · rw [hB.gap i hi h1] at hp
    simp at hp
  · rw [hA.val i hi (not_lt.1 h1), hB.val i hi (not_lt.1 h1), hc.val i hi (Nat.zero_le _)] at hp
    have s0 := wstd_nonneg' c w i
    have key := dev_le_std c hw i
    generalize wstd c w i = s at *
    generalize wmean c w i = m at *
    by_cases hs : s = 0
    · subst hs
      simp at hp
    · have sp : 0 < s := lt_of_le_of_ne s0 (Ne.symm hs)
      have ne : m + d * s ≠ m - d * s := by have := mul_pos hd sp; intro h; linarith
      rw [if_pos (by simpa using ne), fin_sub, fin_sub, fin_div _ _ (sub_ne_zero.2 ne)] at hp
      have hp := Val.fin.inj hp
      have ds : 0 < d * s := mul_pos hd sp
      have : p - 1 / 2 = (c i - m) / (2 * d * s) := by
        rw [← hp]; field_simp; ring
      rw [this, abs_div, abs_of_pos (by positivity : 0 < 2 * d * s), div_le_div_iff₀ (by positivity) (by positivity)]
      have q : |c i - m| ≤ Real.sqrt ((w : ℝ) - 1) * s := by
        have w0 : (0 : ℝ) ≤ (w : ℝ) - 1 := by have : (1 : ℝ) ≤ w := by exact_mod_cast hw
                                              linarith
        refine abs_le_of_sq_le_sq ?_ (mul_nonneg (Real.sqrt_nonneg _) s0)
        rwa [mul_pow, Real.sq_sqrt w0]
      calc |c i - m| * (2 * d) ≤ Real.sqrt ((w : ℝ) - 1) * s * (2 * d) := mul_le_mul_of_nonneg_right q (by positivity)
        _ = _ := by ring

/-! ## CCI -/

section cci
variable {K : Type} [Field K] [LinearOrder K] [IsStrictOrderedRing K]

/-- **CCI** lies between `-window / (2 constant)` and `window / (2 constant)`. -/
theorem cci_reach (n : Nat) (h l c : Nat → K) {w : Nat} (hw : 1 ≤ w) {k : K} (hk : 0 < k) {i : Nat} (hi : i < n) {x : K}
    (hx : ix (cci (ser n h) (ser n l) (ser n c) w (.fin k) false) i = .fin x) : |x| ≤ w / (2 * k) := by
  obtain ⟨T, A, M, hT, hA, hM, -, f1, f2⟩ := cci_formula n h l c hw hk.ne' false
  have eA : ∀ i, A i = wmean T w i := hA
  have eM : ∀ i, M i = wmad T w i := fun i => (hM i).trans (by unfold wmad; rw [wmean, eA])
  by_cases g : i < w - 1 ∨ M i = 0
  · rw [f2 i hi rfl g] at hx; exact nomatch hx
  · push Not at g
    rw [f1 i hi (.inr g.1) g.2] at hx
    have hx := Val.fin.inj hx
    have b := dev_le_mad T hw i
    rw [← eM, ← eA] at b
    have M0 : 0 < M i := lt_of_le_of_ne (by rw [eM]; exact div_nonneg (Finset.sum_nonneg fun _ _ => abs_nonneg _) (Nat.cast_nonneg _)) (Ne.symm g.2)
    rw [← hx, abs_div, abs_of_pos (mul_pos hk M0), div_le_div_iff₀ (mul_pos hk M0) (by positivity)]
    have wm : ((min w (i + 1) : ℕ) : K) ≤ w := by exact_mod_cast Nat.min_le_left _ _
    have : |T i - A i| ≤ w / 2 * M i := b.trans (by gcongr)
    nlinarith [mul_le_mul_of_nonneg_right this hk.le]

/-- the bound is reached: a flat market that jumps on row `w - 1` -/
theorem cci_reached {w : Nat} (hw : 2 ≤ w) {k : K} (hk : 0 < k) (fillna : Bool) :
    ix (cci (ser w fun i => if i = w - 1 then (2 : K) else 1) (ser w fun i => if i = w - 1 then 2 else 1) (ser w fun i => if i = w - 1 then 2 else 1)
      w (.fin k) fillna) (w - 1) = .fin (w / (2 * k)) := by
  obtain ⟨T, A, M, hT, hA, hM, -, f1, -⟩ := cci_formula w (fun i => if i = w - 1 then (2 : K) else 1) (fun i => if i = w - 1 then 2 else 1)
    (fun i => if i = w - 1 then 2 else 1) (by omega : 1 ≤ w) hk.ne' fillna
  have hw0 : (w : K) ≠ 0 := by exact_mod_cast (by omega : w ≠ 0)
  have hw2 : (2 : K) ≤ w := by exact_mod_cast hw
  have eT : ∀ j, T j = 1 + if j = w - 1 then 1 else 0 := fun j => by rw [hT]; split_ifs <;> norm_num
  have eA : A (w - 1) = 1 + 1 / w := by
    rw [hA, show w - 1 + 1 - w = 0 by omega, show w - 1 + 1 = w by omega, min_self]
    simp only [eT]
    rw [Finset.sum_add_distrib, Finset.sum_const, Nat.card_Ico, Finset.sum_ite_eq' (Ico 0 w), if_pos (by simp; omega)]
    simp only [Nat.sub_zero, nsmul_eq_mul]
    field_simp
  have eM : M (w - 1) = 2 * (w - 1) / w ^ 2 := by
    rw [hM, eA, show w - 1 + 1 - w = 0 by omega, show w - 1 + 1 = w by omega, min_self]
    have e : ∀ j, |T j - (1 + 1 / (w : K))| = 1 / (w : K) + if j = w - 1 then 1 - 2 / (w : K) else 0 := fun j => by
      rw [eT]
      split_ifs
      · rw [abs_of_nonneg (by rw [show (1 : K) + 1 - (1 + 1 / w) = 1 - 1 / w by ring, sub_nonneg, div_le_one (by linarith)]; linarith)]; ring
      · rw [show (1 : K) + 0 - (1 + 1 / w) = -(1 / w) by ring, abs_neg, abs_of_nonneg (by positivity)]; ring
    simp only [e]
    rw [Finset.sum_add_distrib, Finset.sum_const, Nat.card_Ico, Finset.sum_ite_eq' (Ico 0 w), if_pos (by simp; omega)]
    simp only [Nat.sub_zero, nsmul_eq_mul]
    field_simp
    ring
  have w1 : (w : K) - 1 ≠ 0 := by linarith
  rw [f1 (w - 1) (by omega) (.inr le_rfl) (by rw [eM]; exact div_ne_zero (mul_ne_zero two_ne_zero w1) (pow_ne_zero _ hw0)), eA, eM, eT, if_pos rfl]
  congr 1
  field_simp
  ring

/-- **Mass index**: at most `window_slow (window_fast + 1) / 2`. -/
theorem mass_reach {n : Nat} {h l : Nat → K} (hlh : ∀ i, l i < h i) {fast slow : Nat} (hf : 1 ≤ fast) (hs : 1 ≤ slow)
    {fillna : Bool} {out : Series (Val K)} (ho : massIndex (ser n h) (ser n l) fast slow fillna = .ok out) {i : Nat}
    (hi : i < n) (hp : fillna = true ∨ 2 * fast + slow - 3 ≤ i) : ∃ x, ix out i = .fin x ∧ x ≤ slow * ((fast + 1) / 2) := by
  obtain ⟨p, E1, E2, out', ep, h1, h2, h3, h4⟩ := mass_formula (n := n) hlh hf hs fillna
  rw [ho] at h3
  cases Except.ok.inj h3
  have hv := h4.val i hi (by rcases hp with rfl | hp; simp; split_ifs <;> omega)
  have p1 : ∀ i, 0 < E1 i := fun i => by rw [h1]; exact emaW_pos hf fun j _ => sub_pos.mpr (hlh j)
  have p2 : ∀ i, 0 < E2 i := fun i => by rw [h2]; exact emaW_pos hf fun j _ => p1 _
  have f1 : (1 : K) ≤ fast := by exact_mod_cast hf
  have ratio : ∀ j, p ≤ j → E1 j / E2 j ≤ (fast + 1) / 2 := by
    intro j hj
    rw [div_le_div_iff₀ (p2 j) two_pos]
    obtain ⟨m, rfl⟩ := Nat.exists_eq_add_of_le hj
    have q := h2 (p + m)
    rw [Nat.add_sub_cancel_left] at q
    cases m with
    | zero =>
      have : E2 (p + 0) = E1 (p + 0) := by rw [q]; rfl
      rw [this]
      nlinarith [p1 (p + 0)]
    | succ m =>
      have q' := h2 (p + m)
      rw [Nat.add_sub_cancel_left] at q'
      rw [emaRec, ← q'] at q
      have b : 0 ≤ (1 - 2 / ((fast : K) + 1)) * E2 (p + m) := by
        refine mul_nonneg ?_ (p2 _).le
        rw [sub_nonneg, div_le_one (by linarith)]; linarith
      have : 2 / ((fast : K) + 1) * E1 (p + (m + 1)) ≤ E2 (p + (m + 1)) := by rw [q]; linarith
      rw [div_mul_eq_mul_div, div_le_iff₀ (by linarith)] at this
      linarith
  refine ⟨_, hv, ?_⟩
  calc ∑ j ∈ Ico (i + 1 - slow) (i + 1), E1 j / E2 j ≤ ∑ j ∈ Ico (i + 1 - slow) (i + 1), ((fast : K) + 1) / 2 := by
        refine Finset.sum_le_sum fun j hj => ratio j ?_
        have := (Finset.mem_Ico.1 hj).1
        rw [ep]
        rcases hp with rfl | hp
        · simp
        · split_ifs <;> omega
    _ = ((i + 1 - (i + 1 - slow) : ℕ) : K) * (((fast : K) + 1) / 2) := by rw [Finset.sum_const, Nat.card_Ico, nsmul_eq_mul]
    _ ≤ _ := by
        have : ((i + 1 - (i + 1 - slow) : ℕ) : K) ≤ slow := by exact_mod_cast (by omega)
        have : (0 : K) ≤ ((fast : K) + 1) / 2 := by linarith
        gcongr

end cci

example : cci (qs [1, 1, 2]) (qs [1, 1, 2]) (qs [1, 1, 2]) 3 (.fin (3 / 200)) = [.nan, .nan, .fin 100] := by decide +kernel

end TA
