import Verif.Props.C96
import Verif.Props.C31
import Verif.Props.C32
import Verif.Lemmas.Toy
import Mathlib.Analysis.Complex.ExponentialBounds

/-!
# C119: the measures of volatility against one another

Bollinger bands, Keltner and Donchian channels, ATR and the ulcer index all measure how much the price moves about.  What one
of them says limits what the others can say.
-/

set_option linter.unusedSectionVars false

namespace TA
open Finset

/-! ## Deviations and ranges -/

/-- Popoviciu: the standard deviation is at most half the range -/
theorem wstd_le_range {f : Nat → ℝ} {w i : Nat} (hw : 1 ≤ w) {A B : ℝ} (hf : ∀ j, j ≤ i → i < j + w → B ≤ f j ∧ f j ≤ A) :
    wstd f w i ≤ (A - B) / 2 := by
  have hAB : B ≤ A := (hf i (le_refl _) (by omega)).1.trans (hf i (le_refl _) (by omega)).2
  have hm : 0 < ((min w (i + 1) : ℕ) : ℝ) := by exact_mod_cast (by omega : 0 < min w (i + 1))
  have hc : (Ico (i + 1 - w) (i + 1)).card = min w (i + 1) := by rw [Nat.card_Ico]; omega
  unfold wstd
  rw [Real.sqrt_le_left (by linarith), div_le_iff₀ hm]
  have h1 : ∑ j ∈ Ico (i + 1 - w) (i + 1), (f j - wmean f w i) ^ 2
      ≤ ∑ j ∈ Ico (i + 1 - w) (i + 1), (f j - (A + B) / 2) ^ 2 := by
    have e : ∀ j, (f j - (A + B) / 2) ^ 2 = (f j - wmean f w i) ^ 2 + 2 * (wmean f w i - (A + B) / 2) * (f j - wmean f w i)
        + (wmean f w i - (A + B) / 2) ^ 2 := fun j => by ring
    simp only [e]
    rw [Finset.sum_add_distrib, Finset.sum_add_distrib, ← Finset.mul_sum, sum_dev f hw i, Finset.sum_const, hc, nsmul_eq_mul]
    have := mul_nonneg hm.le (sq_nonneg (wmean f w i - (A + B) / 2))
    linarith
  have h2 : ∑ j ∈ Ico (i + 1 - w) (i + 1), (f j - (A + B) / 2) ^ 2 ≤ ((A - B) / 2) ^ 2 * (min w (i + 1) : ℕ) := by
    have := Finset.sum_le_card_nsmul (Ico (i + 1 - w) (i + 1)) (fun j => (f j - (A + B) / 2) ^ 2) (((A - B) / 2) ^ 2) fun j hj => by
      rw [Finset.mem_Ico] at hj
      obtain ⟨k1, k2⟩ := hf j (by omega) (by omega)
      rw [sq_le_sq, abs_of_nonneg (by linarith : (0 : ℝ) ≤ (A - B) / 2), abs_le]
      constructor <;> linarith
    rwa [hc, nsmul_eq_mul, mul_comm] at this
  linarith

/-- two values of the window are not further apart than `√(2m)` standard deviations -/
theorem gap_le_wstd {f : Nat → ℝ} {w i : Nat} (hw : 1 ≤ w) {p q : Nat} (hp : p ≤ i) (hp' : i < p + w) (hq : q ≤ i) (hq' : i < q + w) :
    (f p - f q) ^ 2 ≤ 2 * (min w (i + 1) : ℕ) * wstd f w i ^ 2 := by
  have hm : 0 < ((min w (i + 1) : ℕ) : ℝ) := by exact_mod_cast (by omega : 0 < min w (i + 1))
  have h0 : 0 ≤ ∑ j ∈ Ico (i + 1 - w) (i + 1), (f j - wmean f w i) ^ 2 := Finset.sum_nonneg fun j _ => sq_nonneg _
  unfold wstd
  rw [Real.sq_sqrt (div_nonneg h0 hm.le), mul_assoc, mul_div_cancel₀ _ hm.ne']
  rcases eq_or_ne p q with rfl | hne
  · simpa using h0
  have h1 := Finset.add_sum_erase (Ico (i + 1 - w) (i + 1)) (fun j => (f j - wmean f w i) ^ 2) (a := p) (by simp; omega)
  have h2 := Finset.single_le_sum (s := (Ico (i + 1 - w) (i + 1)).erase p) (f := fun j => (f j - wmean f w i) ^ 2) (a := q)
    (fun j _ => sq_nonneg _) (by rw [Finset.mem_erase]; simp; omega)
  nlinarith [sq_nonneg ((f p - wmean f w i) + (f q - wmean f w i))]

/-- C119: with the same window the Bollinger bands are at most `dev` Donchian widths apart, if the closes lie within their bars. -/
theorem bollinger_within_donchian {n : Nat} {h l c : Nat → ℝ} (hc : ∀ i, l i ≤ c i ∧ c i ≤ h i) {w : Nat} (hw : 1 ≤ w) {d : ℝ} (hd : 0 ≤ d)
    {fillna : Bool} {o : Donchian (Val ℝ)} (ho : Donchian.new (ser n h) (ser n l) (ser n c) w 0 fillna = .ok o)
    {i : Nat} (hi : i < n) (hr : fillna = true ∨ w - 1 ≤ i) :
    ∃ a b A B : ℝ, ix (BB.new (ser n c) w (.fin d) fillna).bollingerHband i = .fin a ∧
      ix (BB.new (ser n c) w (.fin d) fillna).bollingerLband i = .fin b ∧ ix o.hband i = .fin A ∧ ix o.lband i = .fin B ∧
      a - b ≤ d * (A - B) := by
  have hp : (if fillna = true then 0 else w - 1) ≤ i := by rcases hr with h1 | h1 <;> [simp [h1]; (split_ifs <;> omega)]
  have HB := bollinger_formula (n := n) c hw d fillna
  obtain ⟨H, L, hH, hL, dH, dL, -⟩ := donchian_formula hw ho
  refine ⟨_, _, _, _, HB.hband.val i hi hp, HB.lband.val i hi hp, dH.val i hi hp, dL.val i hi hp, ?_⟩
  have := wstd_le_range (f := c) (i := i) hw (A := H i) (B := L i) fun j h1 h2 =>
    ⟨((hL i hi).2 ⟨j, h1, h2, rfl⟩).trans (hc j).1, (hc j).2.trans ((hH i hi).2 ⟨j, h1, h2, rfl⟩)⟩
  nlinarith

/-- C119: they are at least `dev √(2/window)` times as far apart as the highest and lowest close. -/
theorem bollinger_not_narrow {n : Nat} {c : Nat → ℝ} {w : Nat} (hw : 1 ≤ w) {d : ℝ} (hd : 0 ≤ d)
    {fillna : Bool} {o : Donchian (Val ℝ)} (ho : Donchian.new (ser n c) (ser n c) (ser n c) w 0 fillna = .ok o)
    {i : Nat} (hi : i < n) (hr : fillna = true ∨ w - 1 ≤ i) :
    ∃ a b A B : ℝ, ix (BB.new (ser n c) w (.fin d) fillna).bollingerHband i = .fin a ∧
      ix (BB.new (ser n c) w (.fin d) fillna).bollingerLband i = .fin b ∧ ix o.hband i = .fin A ∧ ix o.lband i = .fin B ∧
      d * (A - B) * Real.sqrt (2 / w) ≤ a - b := by
  have hp : (if fillna = true then 0 else w - 1) ≤ i := by rcases hr with h1 | h1 <;> [simp [h1]; (split_ifs <;> omega)]
  have HB := bollinger_formula (n := n) c hw d fillna
  obtain ⟨H, L, hH, hL, dH, dL, -⟩ := donchian_formula hw ho
  refine ⟨_, _, _, _, HB.hband.val i hi hp, HB.lband.val i hi hp, dH.val i hi hp, dL.val i hi hp, ?_⟩
  obtain ⟨⟨p, hp1, hp2, ep⟩, -⟩ := hH i hi
  obtain ⟨⟨q, hq1, hq2, eq⟩, -⟩ := hL i hi
  have g := gap_le_wstd (f := c) hw hp1 hp2 hq1 hq2
  have hs : 0 ≤ wstd c w i := wstd_nonneg' c w i
  have hw0 : (0 : ℝ) < w := by exact_mod_cast hw
  have hm : ((min w (i + 1) : ℕ) : ℝ) ≤ w := by exact_mod_cast Nat.min_le_left _ _
  have k : (H i - L i) * Real.sqrt (2 / w) ≤ 2 * wstd c w i := by
    refine le_of_sq_le_sq ?_ (by linarith)
    rw [mul_pow, Real.sq_sqrt (by positivity), ep, eq]
    have : (c p - c q) ^ 2 ≤ 2 * w * wstd c w i ^ 2 := g.trans (by
      have := mul_le_mul_of_nonneg_right hm (sq_nonneg (wstd c w i)); linarith)
    calc (c p - c q) ^ 2 * (2 / w) ≤ 2 * w * wstd c w i ^ 2 * (2 / w) := mul_le_mul_of_nonneg_right this (by positivity)
      _ = (2 * wstd c w i) ^ 2 := by field_simp
  calc d * (H i - L i) * Real.sqrt (2 / w) = d * ((H i - L i) * Real.sqrt (2 / w)) := by ring
    _ ≤ d * (2 * wstd c w i) := mul_le_mul_of_nonneg_left k hd
    _ = _ := by ring

/-- Both bounds are reached: with two rows, closes 1 and 3 and `dev = 2` the bands are 4 apart, the Donchian lines 2. -/
example : ∃ o : Donchian (Val ℝ), Donchian.new (ser 2 fun i => 1 + 2 * (i : ℝ)) (ser 2 fun i => 1 + 2 * (i : ℝ)) (ser 2 fun i => 1 + 2 * (i : ℝ)) 2 0 false = .ok o ∧
    ∃ a b A B : ℝ, ix (BB.new (ser 2 (fun i => 1 + 2 * (i : ℝ))) 2 (.fin 2)).bollingerHband 1 = .fin a ∧
      ix (BB.new (ser 2 (fun i => 1 + 2 * (i : ℝ))) 2 (.fin 2)).bollingerLband 1 = .fin b ∧ ix o.hband 1 = .fin A ∧ ix o.lband 1 = .fin B ∧
      a - b = 2 * (A - B) := by
  obtain ⟨o, ho⟩ : ∃ o : Donchian (Val ℝ), Donchian.new (ser 2 fun i => 1 + 2 * (i : ℝ)) (ser 2 fun i => 1 + 2 * (i : ℝ)) (ser 2 fun i => 1 + 2 * (i : ℝ)) 2 0 false = .ok o := ⟨_, rfl⟩
  obtain ⟨a, b, A, B, h1, h2, h3, h4, h5⟩ := bollinger_within_donchian (n := 2) (fun _ => ⟨le_refl _, le_refl _⟩) (w := 2) (by norm_num) (d := 2) (by norm_num)
    ho (i := 1) (by norm_num) (.inr (by norm_num))
  obtain ⟨a', b', A', B', k1, k2, k3, k4, k5⟩ := bollinger_not_narrow (n := 2) (w := 2) (by norm_num) (d := 2) (by norm_num)
    ho (i := 1) (by norm_num) (.inr (by norm_num))
  obtain rfl := Val.fin.inj (h1.symm.trans k1)
  obtain rfl := Val.fin.inj (h2.symm.trans k2)
  obtain rfl := Val.fin.inj (h3.symm.trans k3)
  obtain rfl := Val.fin.inj (h4.symm.trans k4)
  refine ⟨o, ho, _, _, _, _, h1, h2, h3, h4, le_antisymm h5 ?_⟩
  norm_num at k5
  exact k5

/-- the mean deviation is at most the standard deviation -/
theorem wmad_le_wstd (f : Nat → ℝ) {w : Nat} (hw : 1 ≤ w) (i : Nat) : wmad f w i ≤ wstd f w i := by
  have hm : 0 < ((min w (i + 1) : ℕ) : ℝ) := by exact_mod_cast (by omega : 0 < min w (i + 1))
  have hc : (Ico (i + 1 - w) (i + 1)).card = min w (i + 1) := by rw [Nat.card_Ico]; omega
  have cs := sq_sum_le_card_mul_sum_sq (s := Ico (i + 1 - w) (i + 1)) (f := fun j => |f j - wmean f w i|)
  simp only [sq_abs, hc] at cs
  refine Real.le_sqrt_of_sq_le ?_
  show (_ / _) ^ 2 ≤ _
  rw [div_pow, div_le_div_iff₀ (by positivity) hm]
  nlinarith

/-- C119: a typical price above its upper Bollinger band (`dev` deviations) means a CCI above `dev / constant`, one below the
lower band a CCI below `-dev / constant`: with the defaults 2 and 0.015 a CCI beyond 133. -/
theorem bollinger_break_cci {n : Nat} {h l c : Nat → ℝ} {w : Nat} (hw : 1 ≤ w) {d k : ℝ} (hd : 0 ≤ d) (hk : 0 < k) {fillna : Bool}
    {i : Nat} (hi : i < n) :
    (ix (BB.new (ser n fun j => (h j + l j + c j) / 3) w (.fin d) fillna).bollingerHbandIndicator i = .fin 1 →
      ∃ x, ix (cci (ser n h) (ser n l) (ser n c) w (.fin k) fillna) i = .fin x ∧ d / k < x) ∧
    (ix (BB.new (ser n fun j => (h j + l j + c j) / 3) w (.fin d) fillna).bollingerLbandIndicator i = .fin 1 →
      ∃ x, ix (cci (ser n h) (ser n l) (ser n c) w (.fin k) fillna) i = .fin x ∧ x < -(d / k)) := by
  have HB := bollinger_formula (n := n) (fun j => (h j + l j + c j) / 3) hw d fillna
  obtain ⟨T, A, M, hT, hA, hM, -, hv, -⟩ := cci_formula n h l c hw hk.ne' fillna
  obtain rfl : T = fun j => (h j + l j + c j) / 3 := funext hT
  have eA : A i = wmean (fun j => (h j + l j + c j) / 3) w i := hA i
  have eM : M i = wmad (fun j => (h j + l j + c j) / 3) w i := by rw [hM, eA]; rfl
  rw [HB.above.val i hi (Nat.zero_le _), HB.below.val i hi (Nat.zero_le _)]
  have hms := wmad_le_wstd (fun j => (h j + l j + c j) / 3) hw i
  have hdev := dev_le_mad (fun j => (h j + l j + c j) / 3) hw i
  have hv := hv i hi
  rw [eA, eM] at hv
  simp only at hv hdev
  generalize wmean (fun j => (h j + l j + c j) / 3) w i = m at *
  generalize wmad (fun j => (h j + l j + c j) / 3) w i = D at *
  generalize wstd (fun j => (h j + l j + c j) / 3) w i = s at *
  generalize (h i + l i + c i) / 3 = t at *
  have hmm : 0 < ((min w (i + 1) : ℕ) : ℝ) / 2 := by
    have : 0 < ((min w (i + 1) : ℕ) : ℝ) := by exact_mod_cast (by omega : 0 < min w (i + 1))
    linarith
  generalize ((min w (i + 1) : ℕ) : ℝ) / 2 = r at *
  have hD0 : 0 ≤ D := by
    by_contra hn
    have := mul_neg_of_pos_of_neg hmm (not_le.mp hn)
    linarith [abs_nonneg (t - m)]
  have hr : ∀ {P : Prop} [Decidable P], (Val.fin (if (if fillna = true then 0 else w - 1) ≤ i ∧ P then (1 : ℝ) else 0) = .fin 1) →
      (fillna = true ∨ w - 1 ≤ i) ∧ P := by
    intro P _ h1
    split_ifs at h1 with h2 h3 h3
    · exact ⟨.inl h2, h3.2⟩
    · simp at h1
    · exact ⟨.inr h3.1, h3.2⟩
    · simp at h1
  constructor
  · intro h1
    obtain ⟨h2, h3⟩ := hr h1
    have hpos : 0 < t - m := by nlinarith [mul_nonneg hd (hD0.trans hms)]
    have hDp : 0 < D := by
      rcases hD0.lt_or_eq with h4 | h4
      · exact h4
      · rw [← h4, mul_zero, abs_of_pos hpos] at hdev; linarith
    refine ⟨_, hv h2 hDp.ne', ?_⟩
    rw [div_lt_div_iff₀ hk (mul_pos hk hDp)]
    nlinarith [mul_le_mul_of_nonneg_left hms hd]
  · intro h1
    obtain ⟨h2, h3⟩ := hr h1
    have hneg : t - m < 0 := by nlinarith [mul_nonneg hd (hD0.trans hms)]
    have hDp : 0 < D := by
      rcases hD0.lt_or_eq with h4 | h4
      · exact h4
      · rw [← h4, mul_zero, abs_of_neg hneg] at hdev; linarith
    refine ⟨_, hv h2 hDp.ne', ?_⟩
    rw [← neg_div, div_lt_div_iff₀ (mul_pos hk hDp) hk]
    nlinarith [mul_le_mul_of_nonneg_left hms hd]

/-- two rows, closes 1 and 3, `dev = 1/2`: 3 is above the band 2.5, and the CCI is 66.7, above 33.3 -/
example : ∃ x, ix (cci (ser 2 fun i => 1 + 2 * (i : ℝ)) (ser 2 fun i => 1 + 2 * (i : ℝ)) (ser 2 fun i => 1 + 2 * (i : ℝ)) 2 (.fin (3 / 200)) false) 1 = .fin x ∧ 1 / 2 / (3 / 200) < x := by
  refine (bollinger_break_cci (d := 1 / 2) (k := 3 / 200) (w := 2) (by norm_num) (by norm_num) (by norm_num) (by norm_num)).1 ?_
  have e : (fun j : Nat => (1 + 2 * (j : ℝ) + (1 + 2 * (j : ℝ)) + (1 + 2 * (j : ℝ))) / 3) = fun j : Nat => 1 + 2 * (j : ℝ) := by
    funext j; ring
  rw [e, (bollinger_formula (n := 2) (fun i => 1 + 2 * (i : ℝ)) (w := 2) (by norm_num) (1 / 2) false).above.val 1 (by norm_num) (by norm_num)]
  have hm : wmean (fun i => 1 + 2 * (i : ℝ)) 2 1 = 2 := by
    unfold wmean; simp [Finset.sum_range_succ]; norm_num
  have hs : wstd (fun i => 1 + 2 * (i : ℝ)) 2 1 = 1 := by
    unfold wstd; rw [hm]; simp [Finset.sum_range_succ]; norm_num
  rw [hm, hs]
  norm_num

/-! ## Channels -/

/-- C119: the bands of the original Keltner channel are two mean bar heights apart, hence at most two Donchian widths. -/
theorem keltner_within_donchian {n : Nat} {h l c : Nat → ℝ} {w wa : Nat} (hw : 1 ≤ w) {fillna : Bool} {m : Val ℝ} {o : Keltner (Val ℝ)}
    (hk : Keltner.new (ser n h) (ser n l) (ser n c) w wa fillna true m = .ok o) {e : Donchian (Val ℝ)}
    (he : Donchian.new (ser n h) (ser n l) (ser n c) w 0 fillna = .ok e) {i : Nat} (hi : i < n) (hr : fillna = true ∨ w - 1 ≤ i) :
    ∃ a b A B : ℝ, ix o.hband i = .fin a ∧ ix o.lband i = .fin b ∧ ix e.hband i = .fin A ∧ ix e.lband i = .fin B ∧
      a - b = 2 * ((∑ j ∈ Ico (i + 1 - w) (i + 1), (h j - l j)) / (min w (i + 1) : ℕ)) ∧ a - b ≤ 2 * (A - B) := by
  have hp : (if fillna = true then 0 else w - 1) ≤ i := by rcases hr with h1 | h1 <;> [simp [h1]; (split_ifs <;> omega)]
  have HK := keltner_original_formula hw hk
  obtain ⟨H, L, hH, hL, dH, dL, -⟩ := donchian_formula hw he
  have hm : 0 < ((min w (i + 1) : ℕ) : ℝ) := by exact_mod_cast (by omega : 0 < min w (i + 1))
  have hcd : (Ico (i + 1 - w) (i + 1)).card = min w (i + 1) := by rw [Nat.card_Ico]; omega
  have e1 : wmean (fun j => (4 * h j - 2 * l j + c j) / 3) w i - wmean (fun j => (-2 * h j + 4 * l j + c j) / 3) w i
      = 2 * ((∑ j ∈ Ico (i + 1 - w) (i + 1), (h j - l j)) / (min w (i + 1) : ℕ)) := by
    unfold wmean
    rw [← sub_div, ← Finset.sum_sub_distrib, mul_div_assoc', Finset.mul_sum]
    congr 1
    exact Finset.sum_congr rfl fun j _ => by ring
  refine ⟨_, _, _, _, HK.hband.val i hi (Nat.zero_le _), HK.lband.val i hi (Nat.zero_le _), dH.val i hi hp, dL.val i hi hp, e1, ?_⟩
  rw [e1]
  refine mul_le_mul_of_nonneg_left ?_ (by norm_num)
  rw [div_le_iff₀ hm]
  have := Finset.sum_le_card_nsmul (Ico (i + 1 - w) (i + 1)) (fun j => h j - l j) (H i - L i) fun j hj => by
    rw [Finset.mem_Ico] at hj
    have k1 := (hH i hi).2 ⟨j, by omega, by omega, rfl⟩
    have k2 := (hL i hi).2 ⟨j, by omega, by omega, rfl⟩
    linarith
  rwa [hcd, nsmul_eq_mul, mul_comm] at this

/-- two bars 1 to 3 and 3 to 5: Keltner width 4, Donchian width 4 -/
example : (Keltner.new (qs [3, 5]) (qs [1, 3]) (qs [2, 4]) 2 2 false true (.fin 2)).map (fun o => (o.hband, o.lband))
      = .ok (qs [4, 5], qs [0, 1]) ∧
    (Donchian.new (qs [3, 5]) (qs [1, 3]) (qs [2, 4]) 2 0 false).map (fun o => (o.hband, o.lband)) = .ok ([.nan, .fin 5], [.nan, .fin 1]) := by
  decide +kernel

/-! ## True ranges -/

theorem tr0_ge {h l c : Nat → ℝ} (hb : ∀ i, l i ≤ c i ∧ c i ≤ h i) (i : Nat) : 0 ≤ tr0 h l c i ∧ h i - l i ≤ tr0 h l c i := by
  have := hb i
  unfold tr0
  split_ifs with h0
  · subst h0; exact ⟨by linarith, le_refl _⟩
  · have h1 : h i ≤ max (h i) (c (i - 1)) := le_max_left _ _
    have h2 : min (l i) (c (i - 1)) ≤ l i := min_le_left _ _
    exact ⟨by linarith, by linarith⟩

/-- a distance covered is at most the sum of the true ranges of the rows on the way -/
theorem path_le {h l c : Nat → ℝ} (hb : ∀ i, l i ≤ c i ∧ c i ≤ h i) (s k : Nat) :
    ∀ p q, s ≤ p → p ≤ s + k → s ≤ q → q ≤ s + k → h p - l q ≤ ∑ j ∈ Ico s (s + k + 1), tr0 h l c j := by
  induction k with
  | zero =>
    intro p q h1 h2 h3 h4
    obtain rfl : p = s := by omega
    obtain rfl : q = p := by omega
    simpa using (tr0_ge hb q).2
  | succ k ih =>
    intro p q h1 h2 h3 h4
    rw [show s + (k + 1) + 1 = (s + k + 1) + 1 by omega, Finset.sum_Ico_succ_top (by omega)]
    have t0 := tr0_ge hb (s + k + 1)
    have t1 : h (s + k + 1) - c (s + k) ≤ tr0 h l c (s + k + 1) ∧ c (s + k) - l (s + k + 1) ≤ tr0 h l c (s + k + 1) := by
      unfold tr0
      rw [if_neg (by omega), show s + k + 1 - 1 = s + k by omega]
      have a1 : h (s + k + 1) ≤ max (h (s + k + 1)) (c (s + k)) := le_max_left _ _
      have a2 : c (s + k) ≤ max (h (s + k + 1)) (c (s + k)) := le_max_right _ _
      have a3 : min (l (s + k + 1)) (c (s + k)) ≤ l (s + k + 1) := min_le_left _ _
      have a4 : min (l (s + k + 1)) (c (s + k)) ≤ c (s + k) := min_le_right _ _
      constructor <;> linarith
    have hbk := hb (s + k)
    rcases Nat.lt_or_ge p (s + k + 1) with hp | hp
    · rcases Nat.lt_or_ge q (s + k + 1) with hq | hq
      · linarith [ih p q h1 (by omega) h3 (by omega)]
      · obtain rfl : q = s + k + 1 := by omega
        linarith [ih p (s + k) h1 (by omega) (by omega) (by omega)]
    · obtain rfl : p = s + k + 1 := by omega
      rcases Nat.lt_or_ge q (s + k + 1) with hq | hq
      · linarith [ih (s + k) q (by omega) (by omega) h3 (by omega)]
      · obtain rfl : q = s + k + 1 := by omega
        linarith [ih (s + k) (s + k) (by omega) (by omega) (by omega) (by omega)]

/-- Wilder's mean counts each of the last `w` values with at least the weight `(1 - 1/w)^(w-1) / w` -/
theorem wilMean_ge {x : Nat → ℝ} (hx : ∀ j, 0 ≤ x j) {w : Nat} (hw : 1 ≤ w) (k : Nat) :
    0 ≤ wilMean x w k ∧ ∀ s, s ≤ w + k → (1 - 1 / (w : ℝ)) ^ (w + k - s - 1) * ∑ j ∈ Ico s (w + k), x j ≤ w * wilMean x w k := by
  have hw0 : (0 : ℝ) < w := by exact_mod_cast hw
  have hw1 : (1 : ℝ) ≤ w := by exact_mod_cast hw
  have q0 : 0 ≤ 1 - 1 / (w : ℝ) := by rw [sub_nonneg, div_le_one hw0]; exact hw1
  have q1 : 1 - 1 / (w : ℝ) ≤ 1 := by have : 0 ≤ 1 / (w : ℝ) := by positivity
                                      linarith
  have sn : ∀ a b, 0 ≤ ∑ j ∈ Ico a b, x j := fun a b => Finset.sum_nonneg fun j _ => hx j
  induction k with
  | zero =>
    have e : (w : ℝ) * wilMean x w 0 = ∑ j ∈ range w, x j := by
      unfold wilMean; rw [mul_div_cancel₀ _ hw0.ne']
    refine ⟨div_nonneg (Finset.sum_nonneg fun j _ => hx j) hw0.le, fun s hs => ?_⟩
    rw [e, Nat.add_zero, Finset.range_eq_Ico]
    have h1 : ∑ j ∈ Ico s w, x j ≤ ∑ j ∈ Ico 0 w, x j :=
      Finset.sum_le_sum_of_subset_of_nonneg (Finset.Ico_subset_Ico (Nat.zero_le _) (le_refl _)) fun j _ _ => hx j
    have h2 : (1 - 1 / (w : ℝ)) ^ (w - s - 1) ≤ 1 := pow_le_one₀ q0 q1
    nlinarith [sn s w]
  | succ k ih =>
    have e : (w : ℝ) * wilMean x w (k + 1) = (1 - 1 / (w : ℝ)) * (w * wilMean x w k) + x (w + k) := by
      show (w : ℝ) * ((wilMean x w k * ((w - 1 : ℕ) : ℝ) + x (w + k)) / w) = _
      rw [Nat.cast_sub hw, Nat.cast_one]
      field_simp
    have hn : 0 ≤ (w : ℝ) * wilMean x w (k + 1) := by
      rw [e]; exact add_nonneg (mul_nonneg q0 (mul_nonneg hw0.le ih.1)) (hx _)
    refine ⟨nonneg_of_mul_nonneg_right hn hw0, fun s hs => ?_⟩
    rcases Nat.lt_or_ge s (w + k + 1) with h1 | h1
    · rw [show w + (k + 1) = (w + k) + 1 by omega, Finset.sum_Ico_succ_top (by omega), e, show w + k + 1 - s - 1 = w + k - s by omega]
      have hp : (1 - 1 / (w : ℝ)) ^ (w + k - s) ≤ 1 := pow_le_one₀ q0 q1
      have hp0 : 0 ≤ (1 - 1 / (w : ℝ)) ^ (w + k - s) := pow_nonneg q0 _
      rcases Nat.lt_or_ge s (w + k) with h2 | h2
      · have := mul_le_mul_of_nonneg_left (ih.2 s (by omega)) q0
        rw [← mul_assoc, ← pow_succ', show w + k - s - 1 + 1 = w + k - s by omega] at this
        nlinarith [hx (w + k)]
      · obtain rfl : s = w + k := by omega
        have := mul_nonneg q0 (mul_nonneg hw0.le ih.1)
        simpa using this
    · obtain rfl : s = w + (k + 1) := by omega
      simpa using hn

/-- `(1 - 1/w)^(w-1)` is more than a third -/
theorem third_lt {w : Nat} (hw : 1 ≤ w) : 1 / 3 < (1 - 1 / (w : ℝ)) ^ (w - 1) := by
  obtain ⟨m, rfl⟩ : ∃ m, w = m + 1 := ⟨w - 1, by omega⟩
  rcases Nat.eq_zero_or_pos m with rfl | hm
  · norm_num
  · have hm0 : (0 : ℝ) < m := by exact_mod_cast hm
    have e : 1 - 1 / ((m + 1 : ℕ) : ℝ) = (1 + 1 / (m : ℝ))⁻¹ := by push_cast; field_simp; ring
    rw [e, Nat.add_sub_cancel, inv_pow, one_div]
    refine inv_strictAnti₀ (by positivity) ?_
    have h1 : 1 + 1 / (m : ℝ) ≤ Real.exp (1 / m) := by have := Real.add_one_le_exp (1 / (m : ℝ)); linarith
    have h2 : (1 + 1 / (m : ℝ)) ^ m ≤ Real.exp (1 / m) ^ m := pow_le_pow_left₀ (by positivity) h1 m
    rw [← Real.exp_nat_mul, mul_one_div_cancel hm0.ne'] at h2
    linarith [Real.exp_one_lt_d9]

/-- C119: the Donchian width is at most the sum of the true ranges of its rows, so with the same window it is at most `3 window`
average true ranges from row `window - 1` on, and at most `window` of them on row `window - 1` itself; and as long as the Donchian width
(of two rows or more) stays below a bound, so does the ATR. -/
theorem donchian_within_atr {n : Nat} {h l c : Nat → ℝ} (hb : ∀ i, l i ≤ c i ∧ c i ≤ h i) {w w' : Nat} (hw : 1 ≤ w) (hw' : 2 ≤ w')
    {fillna filled : Bool} {o o' : Donchian (Val ℝ)} (ho : Donchian.new (ser n h) (ser n l) (ser n c) w 0 fillna = .ok o)
    (ho' : Donchian.new (ser n h) (ser n l) (ser n c) w' 0 true = .ok o') {out : Series (Val ℝ)}
    (ha : averageTrueRange (ser n h) (ser n l) (ser n c) w filled = .ok out) {i : Nat} (hi : i < n) (hr : w - 1 ≤ i) :
    ∃ A B x : ℝ, ix o.hband i = .fin A ∧ ix o.lband i = .fin B ∧ ix out i = .fin x ∧
      A - B ≤ ∑ j ∈ Ico (i + 1 - w) (i + 1), tr0 h l c j ∧
      (1 - 1 / (w : ℝ)) ^ (w - 1) * (A - B) ≤ w * x ∧ A - B ≤ 3 * w * x ∧ (i = w - 1 → A - B ≤ w * x) ∧
      ∀ R, (∀ j, j ≤ i → ∀ A' B', ix o'.hband j = .fin A' → ix o'.lband j = .fin B' → A' - B' ≤ R) → x ≤ R := by
  have hp : (if fillna = true then 0 else w - 1) ≤ i := by split_ifs <;> omega
  obtain ⟨H, L, hH, hL, dH, dL, -⟩ := donchian_formula hw ho
  obtain ⟨H', L', hH', hL', dH', dL', -⟩ := donchian_formula (by omega : 1 ≤ w') ho'
  have hx := (atr_formula (fun i _ => (hb i).1.trans (hb i).2) hw ha).2.val i hi (Nat.zero_le _)
  rw [if_neg (by omega)] at hx
  have hw0 : (0 : ℝ) < w := by exact_mod_cast hw
  have hsum : H i - L i ≤ ∑ j ∈ Ico (i + 1 - w) (i + 1), tr0 h l c j := by
    obtain ⟨⟨p, hp1, hp2, ep⟩, -⟩ := hH i hi
    obtain ⟨⟨q, hq1, hq2, eq⟩, -⟩ := hL i hi
    have := path_le hb (i + 1 - w) (w - 1) p q (by omega) (by omega) (by omega) (by omega)
    rw [show i + 1 - w + (w - 1) + 1 = i + 1 by omega] at this
    rw [ep, eq]; exact this
  have hwm := wilMean_ge (fun j => (tr0_ge hb j).1) hw (i - (w - 1))
  have h1 := hwm.2 (i + 1 - w) (by omega)
  rw [show w + (i - (w - 1)) = i + 1 by omega, show i + 1 - (i + 1 - w) - 1 = w - 1 by omega] at h1
  have h3 := third_lt hw
  have hpow : (1 - 1 / (w : ℝ)) ^ (w - 1) * (H i - L i) ≤ w * wilMean (tr0 h l c) w (i - (w - 1)) :=
    (mul_le_mul_of_nonneg_left hsum (by linarith)).trans h1
  refine ⟨_, _, _, dH.val i hi hp, dL.val i hi hp, hx, hsum, hpow, ?_, fun hiw => ?_, fun R hR => ?_⟩
  · have hn : 0 ≤ (w : ℝ) * wilMean (tr0 h l c) w (i - (w - 1)) := mul_nonneg hw0.le hwm.1
    rcases le_or_gt (H i - L i) 0 with h4 | h4
    · nlinarith
    · nlinarith
  · subst hiw
    rw [Nat.sub_self]
    have e : (w : ℝ) * wilMean (tr0 h l c) w 0 = ∑ j ∈ range w, tr0 h l c j := by
      unfold wilMean; rw [mul_div_cancel₀ _ hw0.ne']
    rw [e, Finset.range_eq_Ico]
    rwa [show w - 1 + 1 - w = 0 by omega, show w - 1 + 1 = w by omega] at hsum
  · refine (wilMean_mem hw (lo := 0) _ fun j hj => ⟨(tr0_ge hb j).1, ?_⟩).2
    have hj' : j < n := by omega
    have hR := hR j (by omega) _ _ (dH'.val j hj' (by simp)) (dL'.val j hj' (by simp))
    have g1 := (hH' j hj').2 ⟨j, le_refl _, by omega, rfl⟩
    have g2 := (hL' j hj').2 ⟨j, le_refl _, by omega, rfl⟩
    unfold tr0
    split_ifs with h0
    · subst h0; linarith
    · have g3 := (hH' j hj').2 ⟨j - 1, by omega, by omega, rfl⟩
      have g4 := (hL' j hj').2 ⟨j - 1, by omega, by omega, rfl⟩
      have := hb (j - 1)
      have m1 : max (h j) (c (j - 1)) ≤ H' j := max_le g1 (by linarith)
      have m2 : L' j ≤ min (l j) (c (j - 1)) := le_min g2 (by linarith)
      linarith

/-- bars that close on their highs: two rows, width 2, ATR 1 -/
example : averageTrueRange (qs [2, 3, 4]) (qs [1, 2, 3]) (qs [2, 3, 4]) 2 false = .ok (qs [0, 1, 1]) ∧
    (Donchian.new (qs [2, 3, 4]) (qs [1, 2, 3]) (qs [2, 3, 4]) 2 0 false).map (fun o => (o.hband, o.lband))
      = .ok ([.nan, .fin 3, .fin 4], [.nan, .fin 1, .fin 2]) := by
  decide +kernel

/-! ## Drawdowns -/

/-- C119: the ulcer index is at most the percentage by which the lowest close of the last `2 window - 1` rows is below the highest. -/
theorem ulcer_within_donchian {n : Nat} {c : Nat → ℝ} (hc : ∀ i, 0 < c i) {w : Nat} (hw : 1 ≤ w) {out : Series (Val ℝ)}
    (hu : ulcerIndex (ser n c) w = .ok out) {o : Donchian (Val ℝ)}
    (ho : Donchian.new (ser n c) (ser n c) (ser n c) (2 * w - 1) 0 true = .ok o) {i : Nat} (hi : i < n) (hr : w - 1 ≤ i) :
    ∃ x A B : ℝ, ix out i = .fin x ∧ ix o.hband i = .fin A ∧ ix o.lband i = .fin B ∧ x ≤ 100 * (A - B) / A := by
  obtain ⟨H, L, hH, hL, dH, dL, -⟩ := donchian_formula (by omega : 1 ≤ 2 * w - 1) ho
  refine ⟨_, _, _, (ulcer_formula hc hw hu).val i hi hr, dH.val i hi (by simp), dL.val i hi (by simp), ?_⟩
  have hLp : 0 < L i := by obtain ⟨⟨q, _, _, e⟩, -⟩ := hL i hi; rw [e]; exact hc q
  have hLH : L i ≤ H i := ((hL i hi).2 ⟨i, le_refl _, by omega, rfl⟩).trans ((hH i hi).2 ⟨i, le_refl _, by omega, rfl⟩)
  have hHp : 0 < H i := by linarith
  have hB : 0 ≤ 100 * (H i - L i) / H i := div_nonneg (by linarith) hHp.le
  have hw0 : (0 : ℝ) < w := by exact_mod_cast hw
  rw [Real.sqrt_le_left hB, div_le_iff₀ hw0]
  have hd : ∀ j ∈ Ico (i + 1 - w) (i + 1), drawdownPct c w j ^ 2 ≤ (100 * (H i - L i) / H i) ^ 2 := by
    intro j hj
    rw [Finset.mem_Ico] at hj
    obtain ⟨⟨p, p1, p2, ep⟩, hmx⟩ := wmax_spec c (i := j) hw
    have h1 := hmx j (le_refl _) (by omega)
    have h2 := hc j
    have h3 : 0 < wmax c w j := by linarith
    have h4 : wmax c w j ≤ H i := by rw [ep]; exact (hH i hi).2 ⟨p, by omega, by omega, rfl⟩
    have h5 : L i ≤ c j := (hL i hi).2 ⟨j, by omega, by omega, rfl⟩
    have e : drawdownPct c w j = -(100 * (wmax c w j - c j) / wmax c w j) := by unfold drawdownPct; ring
    rw [e, neg_sq]
    refine pow_le_pow_left₀ (div_nonneg (by linarith) h3.le) ?_ 2
    rw [div_le_div_iff₀ h3 hHp]
    have : L i * wmax c w j ≤ c j * H i := mul_le_mul h5 h4 h3.le h2.le
    linarith
  have := Finset.sum_le_card_nsmul _ _ _ hd
  rw [Nat.card_Ico, nsmul_eq_mul] at this
  have e : ((i + 1 - (i + 1 - w) : ℕ) : ℝ) = w := by congr 1; omega
  rw [e] at this
  linarith

/-- closes 2 and 3/2 with two rows: the lowest is 25 percent below the highest, the ulcer index `√(25²/2)` -/
example : ∃ x, (∃ out, ulcerIndex (ser 2 fun i => 1 + (1 / 2 : ℝ) ^ i) 2 = .ok out ∧ ix out 1 = .fin x) ∧ x ≤ 25 := by
  have hpos : ∀ i : Nat, 0 < 1 + (1 / 2 : ℝ) ^ i := fun i => by positivity
  obtain ⟨o, ho⟩ : ∃ o : Donchian (Val ℝ), Donchian.new (ser 2 fun i => 1 + (1 / 2 : ℝ) ^ i) (ser 2 fun i => 1 + (1 / 2 : ℝ) ^ i)
      (ser 2 fun i => 1 + (1 / 2 : ℝ) ^ i) (2 * 2 - 1) 0 true = .ok o := ⟨_, rfl⟩
  obtain ⟨x, A, B, h1, h2, h3, h4⟩ := ulcer_within_donchian (n := 2) hpos (w := 2) (by norm_num) rfl ho (i := 1) (by norm_num) (by norm_num)
  refine ⟨x, ⟨_, rfl, h1⟩, h4.trans ?_⟩
  obtain ⟨H, L, hH, hL, dH, dL, -⟩ := donchian_formula (by norm_num) ho
  obtain rfl := Val.fin.inj ((dH.val 1 (by norm_num) (by norm_num)).symm.trans h2)
  obtain rfl := Val.fin.inj ((dL.val 1 (by norm_num) (by norm_num)).symm.trans h3)
  have a1 := (hH 1 (by norm_num)).2 ⟨0, by norm_num, by norm_num, rfl⟩
  have a2 : 3 / 2 ≤ L 1 := by
    obtain ⟨⟨q, q1, -, e⟩, -⟩ := hL 1 (by norm_num)
    rw [e]
    rcases (show q = 0 ∨ q = 1 by omega) with rfl | rfl <;> norm_num
  have a3 : H 1 ≤ 2 := by
    obtain ⟨⟨q, q1, -, e⟩, -⟩ := hH 1 (by norm_num)
    rw [e]
    rcases (show q = 0 ∨ q = 1 by omega) with rfl | rfl <;> norm_num
  norm_num at a1
  rw [div_le_iff₀ (by linarith)]
  linarith

end TA
