import Verif.Props.C99
import Verif.Props.C05
import Verif.Props.C23
import Verif.Lemmas.Psar

/-!
# C100: a higher close on the row in hand: channels, volume, and what does not move

Continuation of C99.  The outputs that a change of the last close cannot move are treated in arbitrary arithmetic.
-/

set_option linter.unusedSectionVars false

namespace TA
open Finset

/-! ## outputs that do not read the last close -/

section unmoved
variable {F : Type} [FltFn F]

/-- The outputs of a row in which the close of that row does not take part (the parabolic SAR from the third row on). -/
def Ind.skipsClose {F : Type} : Ind F → Prop
  | .ao .. | .pvo .. | .pvoSignal .. | .pvoHist .. | .aroonUp .. | .aroonDown .. | .aroonInd .. | .massIndex .. | .ichimokuConv ..
  | .ichimokuBase .. | .ichimokuA .. | .ichimokuB .. | .adx .. | .adxPos .. | .adxNeg .. | .psar .. | .psarUp .. | .psarDown ..
  | .psarUpInd .. | .psarDownInd .. | .atr .. | .dcHband .. | .dcLband .. | .dcMband .. | .eom | .smaEom .. => True
  | _ => False

theorem shift_last {F : Type} [Flt F] (s : Series F) (x y fill : F) : shift (s ++ [x]) 1 fill = shift (s ++ [y]) 1 fill := by
  apply series_ext
  · simp
  · intro i hi
    simp only [length_shift, List.length_append, List.length_singleton] at hi
    rw [ix_shift (by simpa using hi), ix_shift (by simpa using hi)]
    by_cases h : i < 1
    · rw [if_pos h, if_pos h]
    · rw [if_neg h, if_neg h, ix_append_left (by omega), ix_append_left (by omega)]

theorem psar_last {h l : Series F} (s : Series F) (hs : 2 ≤ s.length) (x y st mx : F) (fillna : Bool) :
    PSAR.new h l (s ++ [x]) .positional st mx fillna = PSAR.new h l (s ++ [y]) .positional st mx fillna := by
  rw [PSAR.new_eq _ _ _ _ _ _ (by simp), PSAR.new_eq _ _ _ _ _ _ (by simp)]
  have e0 : ∀ i, i < 2 → ix (s ++ [x]) i = ix (s ++ [y]) i := fun i hi => by
    rw [ix_append_left (by omega), ix_append_left (by omega)]
  have ec : ∀ k, PSAR.cores h l (s ++ [x]) st mx k = PSAR.cores h l (s ++ [y]) st mx k := fun k => by
    unfold PSAR.cores; rw [e0 1 (by omega)]
  simp only [ec, List.length_append, List.length_singleton]
  have e1 : ∀ i, (if i < 2 then ix (s ++ [x]) i else (PSAR.cores h l (s ++ [y]) st mx (i - 1)).val)
      = if i < 2 then ix (s ++ [y]) i else (PSAR.cores h l (s ++ [y]) st mx (i - 1)).val := fun i => by
    by_cases h2 : i < 2
    · rw [if_pos h2, if_pos h2, e0 i h2]
    · rw [if_neg h2, if_neg h2]
  simp only [e1]

/-- C100. In any arithmetic: the close of the last row has no effect on these outputs. -/
theorem last_close_unread (ind : Ind F) (hi : ind.skipsClose) (fillna : Bool) (past : List (Bar F)) (hp : 2 ≤ past.length)
    {r r' : Bar F} (hh : r'.high = r.high) (hl : r'.low = r.low) (hv : r'.volume = r.volume) :
    ind.eval fillna (past ++ [r']) = ind.eval fillna (past ++ [r]) := by
  have eh : highs (past ++ [r']) = highs (past ++ [r]) := by simp [hh]
  have el : lows (past ++ [r']) = lows (past ++ [r]) := by simp [hl]
  have ev : volumes (past ++ [r']) = volumes (past ++ [r]) := by simp [hv]
  have ec : ∀ q : Bar F, closes (past ++ [q]) = closes past ++ [q.close] := fun q => by simp
  have es : shift (closes (past ++ [r'])) 1 = shift (closes (past ++ [r])) 1 := by rw [ec, ec]; exact shift_last _ _ _ _
  have en : (closes (past ++ [r'])).length = (closes (past ++ [r])).length := by simp
  have eadx : ∀ w, ADX.new (highs (past ++ [r])) (lows (past ++ [r])) (closes (past ++ [r'])) w fillna
      = ADX.new (highs (past ++ [r])) (lows (past ++ [r])) (closes (past ++ [r])) w fillna := fun w => by
    unfold ADX.new ADX.run ADX.range
    rw [es, en]
  have eps : ∀ st mx, PSAR.new (highs (past ++ [r])) (lows (past ++ [r])) (closes (past ++ [r'])) .positional st mx fillna
      = PSAR.new (highs (past ++ [r])) (lows (past ++ [r])) (closes (past ++ [r])) .positional st mx fillna := fun st mx => by
    rw [ec, ec]; exact psar_last _ (by simpa using hp) _ _ _ _ _
  have edc : ∀ w off, ∀ g : Donchian F → Series F, (∀ (o : Donchian F) (c : Series F), g { o with close := c } = g o) →
      (Donchian.new (highs (past ++ [r])) (lows (past ++ [r])) (closes (past ++ [r'])) w off fillna).map g
        = (Donchian.new (highs (past ++ [r])) (lows (past ++ [r])) (closes (past ++ [r])) w off fillna).map g := by
    intro w off g hg
    unfold Donchian.new
    dsimp only
    cases chkRoll w (if fillna = true then 1 else w) with
    | error e => rfl
    | ok u =>
      have := hg ⟨closes (past ++ [r]), rollMax w (if fillna = true then 1 else w) (highs (past ++ [r])),
        rollMin w (if fillna = true then 1 else w) (lows (past ++ [r])), w, if fillna = true then 1 else w, off, fillna⟩ (closes (past ++ [r']))
      exact congrArg Except.ok this
  cases ind with
  | adx w => simp only [Ind.eval, eh, el, eadx]
  | adxPos w => simp only [Ind.eval, eh, el, eadx]
  | adxNeg w => simp only [Ind.eval, eh, el, eadx]
  | psar st mx => simp only [Ind.eval, eh, el, eps]
  | psarUp st mx => simp only [Ind.eval, eh, el, eps]
  | psarDown st mx => simp only [Ind.eval, eh, el, eps]
  | psarUpInd st mx => simp only [Ind.eval, eh, el, eps]
  | psarDownInd st mx => simp only [Ind.eval, eh, el, eps]
  | atr w =>
    simp only [Ind.eval, eh, el]
    unfold averageTrueRange ATR.run
    rw [es, en]
  | dcHband w off => simp only [Ind.eval, eh, el]; exact edc w off _ fun o c => rfl
  | dcLband w off => simp only [Ind.eval, eh, el]; exact edc w off _ fun o c => rfl
  | dcMband w off => simp only [Ind.eval, eh, el]; exact edc w off _ fun o c => rfl
  | _ => first | exact absurd hi id | simp only [Ind.eval, eh, el, ev]

/-- the range sums of the vortex indicator read the last close only through the fill value of row 0 -/
theorem trn_last [NaNLaws F] (h l s : Series F) (x y : F) (w : Nat) (fillna : Bool) (hh : h.length = s.length + 1) :
    AgreeFrom w (Vortex.trn h l (s ++ [x]) w fillna) (Vortex.trn h l (s ++ [y]) w fillna) := by
  unfold Vortex.trn rollSum
  refine AgreeFrom.mono (AgreeFrom.roll (k := 1) ?_) (by omega)
  refine ⟨by simp, fun i h1 h2 => ?_⟩
  simp only [length_trueRange] at h2
  unfold trueRange
  rw [ix_zip3 h2, ix_zip3 h2, ix_shift (by simp; omega), ix_shift (by simp; omega), if_neg (by omega), if_neg (by omega),
    ix_append_left (by omega), ix_append_left (by omega)]

theorem vortex_part_last [NaNLaws F] {h l s x : Series F} {w : Nat} {u v : F} (hh : h.length = s.length + 1)
    (hx : x.length = s.length + 1) (hx0 : ix x 0 = nan) :
    sdiv (rollSum w (minp false w) x) (Vortex.trn h l (s ++ [u]) w false)
      = sdiv (rollSum w (minp false w) x) (Vortex.trn h l (s ++ [v]) w false) := by
  have ha := trn_last h l s u v w false hh
  apply series_ext
  · simp
  · intro i hi
    simp only [length_sdiv, length_rollSum] at hi
    rw [ix_sdiv (by simpa using hi), ix_sdiv (by simpa using hi)]
    by_cases hiw : i < w
    · rw [rollSum_short hi hiw hx0, NaNLaws.nan_div, NaNLaws.nan_div]
    · rw [ha.2 i (by omega) (by rw [ha.1]; simp [Vortex.trn]; omega)]

/-- C100. Without filling the vortex indicator does not depend on the last close either (rows whose window reaches row 0, where the
mean of all closes stands for a previous close, are NaN). -/
theorem vortex_last_close_unread [NaNLaws F] (w : Nat) (past : List (Bar F)) {r r' : Bar F} (hh : r'.high = r.high) (hl : r'.low = r.low) :
    (Ind.vortexPos w).eval false (past ++ [r']) = (Ind.vortexPos w).eval false (past ++ [r]) ∧
    (Ind.vortexNeg w).eval false (past ++ [r']) = (Ind.vortexNeg w).eval false (past ++ [r]) ∧
    (Ind.vortexDiff w).eval false (past ++ [r']) = (Ind.vortexDiff w).eval false (past ++ [r]) := by
  have eh : highs (past ++ [r']) = highs (past ++ [r]) := by simp [hh]
  have el : lows (past ++ [r']) = lows (past ++ [r]) := by simp [hl]
  have ec : ∀ q : Bar F, closes (past ++ [q]) = closes past ++ [q.close] := fun q => by simp
  have ep : Vortex.vip (highs (past ++ [r])) (lows (past ++ [r])) (closes (past ++ [r'])) w false
      = Vortex.vip (highs (past ++ [r])) (lows (past ++ [r])) (closes (past ++ [r])) w false := by
    unfold Vortex.vip
    rw [ec, ec]
    exact vortex_part_last (by simp) (by simp) (vortex_row0 (by simp) (by simp))
  have en : Vortex.vin (highs (past ++ [r])) (lows (past ++ [r])) (closes (past ++ [r'])) w false
      = Vortex.vin (highs (past ++ [r])) (lows (past ++ [r])) (closes (past ++ [r])) w false := by
    unfold Vortex.vin
    rw [ec, ec]
    exact vortex_part_last (by simp) (by simp) (vortex_row0 (by simp) (by simp))
  simp only [Ind.eval, eh, el, vortexPos, vortexNeg, vortexDiff, ep, en, and_self]

end unmoved

/-! ## Bollinger bands -/

section bollinger

/-- how the sum of squared deviations moves with the last value -/
theorem sq_dev_higher {K : Type} [Field K] [LinearOrder K] [IsStrictOrderedRing K] {i : Nat} {f f' : Nat → K} (hf : HigherAt i f f')
    {w : Nat} (hw : 1 ≤ w) :
    ∑ j ∈ Ico (i + 1 - w) (i + 1), (f' j - wmean f' w i) ^ 2
      = ∑ j ∈ Ico (i + 1 - w) (i + 1), (f j - wmean f w i) ^ 2
        + (f' i - f i) * ((f i - wmean f w i) + (f' i - wmean f' w i)) := by
  have hm : ((min w (i + 1) : ℕ) : K) ≠ 0 := by exact_mod_cast (by omega : min w (i + 1) ≠ 0)
  have hA := hf.wmean hw
  have e1 : ∑ j ∈ Ico (i + 1 - w) (i + 1), (f' j - wmean f' w i) ^ 2
      = ∑ j ∈ Ico (i + 1 - w) (i + 1), (f' j - wmean f w i) ^ 2
        - (min w (i + 1) : ℕ) * (wmean f' w i - wmean f w i) ^ 2 := by
    have s0 := sum_dev f' hw i
    have : ∑ j ∈ Ico (i + 1 - w) (i + 1), (f' j - wmean f w i) ^ 2
        = ∑ j ∈ Ico (i + 1 - w) (i + 1), ((f' j - wmean f' w i) ^ 2 + 2 * (wmean f' w i - wmean f w i) * (f' j - wmean f' w i)
          + (wmean f' w i - wmean f w i) ^ 2) := Finset.sum_congr rfl fun j _ => by ring
    rw [this, Finset.sum_add_distrib, Finset.sum_add_distrib, ← Finset.mul_sum, s0, Finset.sum_const, Nat.card_Ico, nsmul_eq_mul,
      show i + 1 - (i + 1 - w) = min w (i + 1) by omega]
    ring
  rw [e1, Finset.sum_Ico_succ_top (by omega), Finset.sum_Ico_succ_top (by omega),
    Finset.sum_congr rfl fun j hj => by rw [hf.before j (Finset.mem_Ico.mp hj).2]]
  rw [hA]
  field_simp
  ring

variable {n i : Nat} {c c' : Nat → ℝ}

/-- the last value in standard deviations of its window rises with the value -/
theorem zscore_rises (hc : HigherAt i c c') {w : Nat} (hw : 1 ≤ w) :
    (c i - wmean c w i) * wstd c' w i ≤ (c' i - wmean c' w i) * wstd c w i := by
  have hm : (0 : ℝ) < (min w (i + 1) : ℕ) := by exact_mod_cast (by omega : 0 < min w (i + 1))
  have hm1 : (1 : ℝ) ≤ (min w (i + 1) : ℕ) := by exact_mod_cast (by omega : 1 ≤ min w (i + 1))
  have hQ := sq_dev_higher hc hw
  have hS := dev_sq_le c hw i
  have hA := hc.wmean hw
  have hd := sub_nonneg.mpr hc.now
  have hdm : (c' i - c i) / (min w (i + 1) : ℕ) ≤ c' i - c i := div_le_self hd hm1
  unfold wstd
  set u := c i - wmean c w i with hu
  set u' := c' i - wmean c' w i with hu'
  set Q := ∑ j ∈ Ico (i + 1 - w) (i + 1), (c j - wmean c w i) ^ 2 with hQd
  set Q' := ∑ j ∈ Ico (i + 1 - w) (i + 1), (c' j - wmean c' w i) ^ 2 with hQd'
  have hQ0 : 0 ≤ Q := Finset.sum_nonneg fun j _ => sq_nonneg _
  have hQ0' : 0 ≤ Q' := Finset.sum_nonneg fun j _ => sq_nonneg _
  have huu : u ≤ u' := by rw [hu, hu', hA]; linarith
  generalize hmd : ((min w (i + 1) : ℕ) : ℝ) = m at *
  have hue : u' - u = (c' i - c i) * (m - 1) / m := by
    rw [hu, hu', hA]; field_simp; ring
  have key : u' ^ 2 * (Q / m) - u ^ 2 * (Q' / m) = (c' i - c i) * (u + u') * ((m - 1) * (Q / m) - u ^ 2) / m := by
    rw [hQ, show u' = u + (c' i - c i) * (m - 1) / m by linarith]
    field_simp
    ring
  have s1 : Real.sqrt (Q / m) ^ 2 = Q / m := Real.sq_sqrt (div_nonneg hQ0 hm.le)
  have s2 : Real.sqrt (Q' / m) ^ 2 = Q' / m := Real.sq_sqrt (div_nonneg hQ0' hm.le)
  have n1 := Real.sqrt_nonneg (Q / m)
  have n2 := Real.sqrt_nonneg (Q' / m)
  have hS0 : 0 ≤ (m - 1) * (Q / m) - u ^ 2 := sub_nonneg.mpr hS
  rcases le_total 0 u with h0 | h0
  · have k : 0 ≤ (c' i - c i) * (u + u') * ((m - 1) * (Q / m) - u ^ 2) / m :=
      div_nonneg (mul_nonneg (mul_nonneg hd (by linarith)) hS0) hm.le
    refine (le_abs_self _).trans (abs_le_of_sq_le_sq ?_ (mul_nonneg (by linarith) n1))
    rw [mul_pow, mul_pow, s1, s2]
    linarith
  · rcases le_total 0 u' with h0' | h0'
    · exact (mul_nonpos_of_nonpos_of_nonneg h0 n2).trans (mul_nonneg h0' n1)
    · have k : (c' i - c i) * (u + u') * ((m - 1) * (Q / m) - u ^ 2) / m ≤ 0 :=
        div_nonpos_of_nonpos_of_nonneg (mul_nonpos_of_nonpos_of_nonneg (mul_nonpos_of_nonneg_of_nonpos hd (by linarith)) hS0) hm.le
      have : -u' * Real.sqrt (Q / m) ≤ -u * Real.sqrt (Q' / m) := by
        refine (le_abs_self _).trans (abs_le_of_sq_le_sq ?_ (mul_nonneg (by linarith) n2))
        rw [mul_pow, mul_pow, s1, s2, neg_sq, neg_sq]
        linarith
      linarith

/-- the deviation of the last value vanishes with the standard deviation -/
theorem dev_zero_of_std {c : Nat → ℝ} {w : Nat} (hw : 1 ≤ w) (h0 : wstd c w i = 0) : c i - wmean c w i = 0 := by
  have hS := dev_sq_le c hw i
  have h1 : (∑ j ∈ Ico (i + 1 - w) (i + 1), (c j - wmean c w i) ^ 2) / (min w (i + 1) : ℕ) = 0 := by
    have h2 : 0 ≤ (∑ j ∈ Ico (i + 1 - w) (i + 1), (c j - wmean c w i) ^ 2) / (min w (i + 1) : ℕ) :=
      div_nonneg (Finset.sum_nonneg fun j _ => sq_nonneg _) (Nat.cast_nonneg _)
    exact (Real.sqrt_eq_zero h2).mp h0
  rw [h1, mul_zero] at hS
  exact pow_eq_zero_iff (two_ne_zero) |>.mp (le_antisymm hS (sq_nonneg _))

/-- C100. The middle Bollinger line and %B follow the close; a raised upper flag stays raised, a lower flag that is down stays down. -/
theorem bollinger_rises (hc : HigherAt i c c') (hi : i < n) {w : Nat} (hw : 1 ≤ w) {d : ℝ} (hd : 0 < d) {fillna : Bool}
    (hp : (if fillna then 0 else w - 1) ≤ i) :
    let o := BB.new (ser n c) w (.fin d) fillna
    let o' := BB.new (ser n c') w (.fin d) fillna
    Rises o.bollingerMavg o'.bollingerMavg i ∧
    (wstd c w i ≠ 0 → wstd c' w i ≠ 0 → Rises o.bollingerPband o'.bollingerPband i) ∧
    Rises o.bollingerHbandIndicator o'.bollingerHbandIndicator i ∧
    Sinks o.bollingerLbandIndicator o'.bollingerLbandIndicator i := by
  intro o o'
  have B := bollinger_formula (n := n) c hw d fillna
  have B' := bollinger_formula (n := n) c' hw d fillna
  have hz := zscore_rises hc hw
  have n1 := wstd_nonneg' c w i
  have n2 := wstd_nonneg' c' w i
  have huu : c i - wmean c w i ≤ c' i - wmean c' w i := by
    rw [hc.wmean hw]
    have := div_le_self (sub_nonneg.mpr hc.now) (by exact_mod_cast (by omega : 1 ≤ min w (i + 1)) : (1 : ℝ) ≤ (min w (i + 1) : ℕ))
    linarith
  refine ⟨B.mavg.rises B'.mavg hi hp (hc.wmeans hw).now, fun h1 h2 => ?_, ?_, ?_⟩
  · have p1 : 0 < wstd c w i := lt_of_le_of_ne n1 (Ne.symm h1)
    have p2 : 0 < wstd c' w i := lt_of_le_of_ne n2 (Ne.symm h2)
    have q1 := mul_pos hd p1
    have q2 := mul_pos hd p2
    refine ⟨_, _, B.pband i hi hp (by intro e; linarith), B'.pband i hi hp (by intro e; linarith), ?_⟩
    rw [div_le_div_iff₀ (by linarith) (by linarith)]
    have := mul_le_mul_of_nonneg_left hz hd.le
    nlinarith
  · refine B.above.rises B'.above hi (Nat.zero_le _) ?_
    by_cases hx : wmean c w i + d * wstd c w i < c i
    · have hu : 0 < c i - wmean c w i := by have := mul_nonneg hd.le n1; linarith
      have p1 : 0 < wstd c w i := lt_of_le_of_ne n1 fun e => hu.ne' (dev_zero_of_std hw e.symm)
      have p2 : 0 < wstd c' w i := lt_of_le_of_ne n2 fun e => (hu.trans_le huu).ne' (dev_zero_of_std hw e.symm)
      have hy : wmean c' w i + d * wstd c' w i < c' i := by
        have t : d * wstd c w i * wstd c' w i < (c i - wmean c w i) * wstd c' w i := mul_lt_mul_of_pos_right (by linarith) p2
        have : d * wstd c' w i < c' i - wmean c' w i := by
          refine lt_of_mul_lt_mul_right (a := wstd c w i) ?_ p1.le
          linarith
        linarith
      rw [if_pos ⟨hp, hx⟩, if_pos ⟨hp, hy⟩]
    · rw [if_neg fun h => hx h.2]
      split_ifs <;> norm_num
  · refine B.below.sinks B'.below hi (Nat.zero_le _) ?_
    by_cases hx : c' i < wmean c' w i - d * wstd c' w i
    · have hu : c' i - wmean c' w i < 0 := by have := mul_nonneg hd.le n2; linarith
      have p2 : 0 < wstd c' w i := lt_of_le_of_ne n2 fun e => hu.ne (dev_zero_of_std hw e.symm)
      have p1 : 0 < wstd c w i := lt_of_le_of_ne n1 fun e => (huu.trans_lt hu).ne (dev_zero_of_std hw e.symm)
      have hy : c i < wmean c w i - d * wstd c w i := by
        have t : d * wstd c' w i * wstd c w i < -(c' i - wmean c' w i) * wstd c w i := mul_lt_mul_of_pos_right (by linarith) p1
        have : d * wstd c w i < -(c i - wmean c w i) := by
          refine lt_of_mul_lt_mul_right (a := wstd c' w i) ?_ p2.le
          linarith
        linarith
      rw [if_pos ⟨hp, hx⟩, if_pos ⟨hp, hy⟩]
    · rw [if_neg fun h => hx h.2]
      split_ifs <;> norm_num

end bollinger

/-! ## Keltner and Donchian channels -/

/-- two Average True Ranges over closes that agree before row `i` agree up to row `i` -/
theorem atr_row_same {F : Type} [Flt F] {h l c c' : Series F} {w i : Nat} {fillna : Bool} {out out' : Series F} (hh : h.length = c.length)
    (hlen : c'.length = c.length) (hi : i < c.length) (hc : c'.take i = c.take i) (ho : averageTrueRange h l c w fillna = .ok out)
    (ho' : averageTrueRange h l c' w fillna = .ok out') : ix out' i = ix out i := by
  have e : c.take (i + 1) = c.take i ++ [c[i]] := List.take_succ_eq_append_getElem hi
  have e' : c'.take (i + 1) = c.take i ++ [c'[i]'(by omega)] := by rw [← hc]; exact List.take_succ_eq_append_getElem (by omega)
  have es : shift (c'.take (i + 1)) 1 = shift (c.take (i + 1)) 1 := by
    rw [e', e]; exact shift_last _ _ _ _
  have er : (ATR.run h l c' w).take (i + 1) = (ATR.run h l c w).take (i + 1) := by
    rw [take_atr_run h l c w _ hh, take_atr_run h l c' w _ (by omega)]
    unfold ATR.run
    rw [es, List.length_take, List.length_take, hlen]
  unfold averageTrueRange at ho ho'
  split_ifs at ho ho'
  have ef : (checkFillna fillna (.const (lit 0)) (ATR.run h l c' w)).take (i + 1)
      = (checkFillna fillna (.const (lit 0)) (ATR.run h l c w)).take (i + 1) := by
    rw [take_checkFillna_const, take_checkFillna_const, er]
  rw [← Except.ok.inj ho, ← Except.ok.inj ho', ← ix_take_lt (s := checkFillna fillna (.const (lit 0)) (ATR.run h l c' w)) (Nat.lt_succ_self i), ef,
    ix_take_lt (Nat.lt_succ_self i)]

section channels
variable {K : Type} [Field K] [LinearOrder K] [IsStrictOrderedRing K] {n i : Nat} {h l c c' : Nat → K}

theorem take_ser_same (hc : HigherAt i c c') : (ser n c').take i = (ser n c).take i := by
  apply List.ext_getElem
  · simp [ser]
  · intro j h1 h2
    simp only [List.length_take] at h1
    have hj : j < i := by omega
    simp [ser, tab, hc.before j hj]

/-- C100. The three lines and the percentage of the Keltner channel follow the close, the width does the opposite; a raised upper flag
stays raised, a lower flag that is down stays down. This from what the two channels are made of. -/
theorem keltnerSpec_rises {o o' : Keltner (Val K)} {p q : Nat} {m a b m' a' b' : Nat → K} (S : KeltnerSpec o n p q c m a b)
    (S' : KeltnerSpec o' n p q c' m' a' b') (hi : i < n) (hp : p ≤ i) (hq : q ≤ i) (hm : 0 < m i) (hab : b i ≤ a i)
    (hwid : a' i - b' i = a i - b i) (h1 : m i ≤ m' i) (h2 : a i ≤ a' i) (h4 : c i - a i ≤ c' i - a' i) :
    Rises o.mband o'.mband i ∧ Rises o.hband o'.hband i ∧ Rises o.lband o'.lband i ∧ Sinks o.wband o'.wband i ∧
    (b i < a i → Rises o.pband o'.pband i) ∧ Rises o.hbandIndicator o'.hbandIndicator i ∧ Sinks o.lbandIndicator o'.lbandIndicator i := by
  refine ⟨S.mband.rises S'.mband hi hp h1, S.hband.rises S'.hband hi hq h2, S.lband.rises S'.lband hi hq (by linarith),
    ⟨_, _, S.wband i hi hp hq hm.ne', S'.wband i hi hp hq (hm.trans_le h1).ne', ?_⟩,
    fun hlt => ⟨_, _, S.pband i hi hq hlt.ne', S'.pband i hi hq (by intro e; linarith), ?_⟩,
    S.above.rises S'.above hi (Nat.zero_le _) ?_, S.below.sinks S'.below hi (Nat.zero_le _) ?_⟩
  · rw [hwid]
    exact mul_le_mul_of_nonneg_right (div_le_div_of_nonneg_left (sub_nonneg.mpr hab) hm h1) (by norm_num)
  · rw [hwid]
    exact div_le_div_of_nonneg_right (by linarith) (by linarith)
  · by_cases hx : a i < c i
    · rw [if_pos ⟨hq, hx⟩, if_pos ⟨hq, by linarith⟩]
    · rw [if_neg fun h => hx h.2]
      split_ifs <;> norm_num
  · by_cases hx : c' i < b' i
    · rw [if_pos ⟨hq, hx⟩, if_pos ⟨hq, by linarith⟩]
    · rw [if_neg fun h => hx h.2]
      split_ifs <;> norm_num

/-- C100. Keltner channel, original version. -/
theorem keltner_original_rises (hc : HigherAt i c c') (hi : i < n) (hlh : ∀ j, j < n → l j ≤ h j) (hpos : ∀ j, 0 < l j ∧ 0 < h j ∧ 0 < c j)
    {w wa : Nat} (hw : 1 ≤ w) {fillna : Bool} (hp : (if fillna then 0 else w - 1) ≤ i) {k : Val K} {o o' : Keltner (Val K)}
    (ho : Keltner.new (ser n h) (ser n l) (ser n c) w wa fillna true k = .ok o)
    (ho' : Keltner.new (ser n h) (ser n l) (ser n c') w wa fillna true k = .ok o') :
    Rises o.mband o'.mband i ∧ Rises o.hband o'.hband i ∧ Rises o.lband o'.lband i ∧ Sinks o.wband o'.wband i ∧
    (l i < h i → Rises o.pband o'.pband i) ∧ Rises o.hbandIndicator o'.hbandIndicator i ∧ Sinks o.lbandIndicator o'.lbandIndicator i := by
  have S := keltner_original_formula hw ho
  have S' := keltner_original_formula hw ho'
  have hm0 : (0 : K) < (min w (i + 1) : ℕ) := by exact_mod_cast (by omega : 0 < min w (i + 1))
  have hm1 : (1 : K) ≤ (min w (i + 1) : ℕ) := by exact_mod_cast (by omega : 1 ≤ min w (i + 1))
  have hd := sub_nonneg.mpr hc.now
  have mk : ∀ g : Nat → K, HigherAt i (fun j => (g j + c j) / 3) (fun j => (g j + c' j) / 3) := fun g =>
    ⟨fun j hj => by rw [hc.before j hj], by linarith [hc.now]⟩
  have mv : ∀ g : Nat → K, wmean (fun j => (g j + c' j) / 3) w i = wmean (fun j => (g j + c j) / 3) w i + (c' i - c i) / 3 / (min w (i + 1) : ℕ) :=
    fun g => by
      rw [(mk g).wmean hw]
      congr 2
      ring
  have e0 : 0 ≤ (c' i - c i) / 3 / (min w (i + 1) : ℕ) := div_nonneg (by linarith) hm0.le
  have e1 : (c' i - c i) / 3 / (min w (i + 1) : ℕ) ≤ c' i - c i := (div_le_self (by linarith) hm1).trans (by linarith)
  have m1 := mv fun j => h j + l j
  have m2 := mv fun j => 4 * h j - 2 * l j
  have m3 := mv fun j => -2 * h j + 4 * l j
  have diff : wmean (fun j => (4 * h j - 2 * l j + c j) / 3) w i - wmean (fun j => (-2 * h j + 4 * l j + c j) / 3) w i
      = (∑ j ∈ Ico (i + 1 - w) (i + 1), 2 * (h j - l j)) / (min w (i + 1) : ℕ) := by
    unfold wmean
    rw [← sub_div, ← Finset.sum_sub_distrib]
    congr 1
    exact Finset.sum_congr rfl fun j _ => by ring
  have hnn : ∀ j ∈ Ico (i + 1 - w) (i + 1), 0 ≤ 2 * (h j - l j) := fun j hj => by
    have := hlh j (by have := (Finset.mem_Ico.mp hj).2; omega)
    linarith
  have dnn : 0 ≤ (∑ j ∈ Ico (i + 1 - w) (i + 1), 2 * (h j - l j)) / (min w (i + 1) : ℕ) := div_nonneg (Finset.sum_nonneg hnn) hm0.le
  have R := keltnerSpec_rises S S' hi hp (Nat.zero_le _) ?_ (by linarith) (by linarith) (by linarith) (by linarith) (by linarith)
  · obtain ⟨r1, r2, r3, r4, r5, r6, r7⟩ := R
    refine ⟨r1, r2, r3, r4, fun hlt => r5 ?_, r6, r7⟩
    have : 0 < (∑ j ∈ Ico (i + 1 - w) (i + 1), 2 * (h j - l j)) / (min w (i + 1) : ℕ) :=
      div_pos (Finset.sum_pos' hnn ⟨i, Finset.mem_Ico.mpr ⟨by omega, by omega⟩, by linarith⟩) hm0
    linarith
  · refine div_pos (Finset.sum_pos (fun j _ => ?_) ⟨i, Finset.mem_Ico.mpr ⟨by omega, by omega⟩⟩) hm0
    have := hpos j
    linarith

/-- C100. Keltner channel around the exponential mean, half a width of `k` Average True Ranges (the range of the row in hand does not
read its close). -/
theorem keltner_atr_rises (hc : HigherAt i c c') (hi : i < n) (hlh : ∀ j, j < n → l j ≤ h j) (hpos : ∀ j, 0 < c j)
    {w wa : Nat} (hw : 1 ≤ w) (hwa : 1 ≤ wa) {fillna : Bool} (hp : (if fillna then 0 else w - 1) ≤ i) {k : K} (hk : 0 ≤ k)
    {o o' : Keltner (Val K)} (ho : Keltner.new (ser n h) (ser n l) (ser n c) w wa fillna false (.fin k) = .ok o)
    (ho' : Keltner.new (ser n h) (ser n l) (ser n c') w wa fillna false (.fin k) = .ok o') :
    Rises o.mband o'.mband i ∧ Rises o.hband o'.hband i ∧ Rises o.lband o'.lband i ∧ Sinks o.wband o'.wband i ∧
    (∀ x y, ix o.hband i = .fin x → ix o.lband i = .fin y → y < x → Rises o.pband o'.pband i) ∧
    Rises o.hbandIndicator o'.hbandIndicator i ∧ Sinks o.lbandIndicator o'.lbandIndicator i := by
  obtain ⟨atr, ⟨t, ht, dt⟩, a0, S⟩ := keltner_atr_formula hlh hw hwa ho
  obtain ⟨atr', ⟨t', ht', dt'⟩, a0', S'⟩ := keltner_atr_formula hlh hw hwa ho'
  have ea : atr' i = atr i := by
    have := atr_row_same (by simp [ser]) (by simp [ser]) (by simpa [ser] using hi) (take_ser_same hc) ht ht'
    rw [dt.val i hi (Nat.zero_le _), dt'.val i hi (Nat.zero_le _)] at this
    exact Val.fin.inj this
  have hb := emaWt_bd (K := K) hw i
  have e := hc.ema (2 / ((w : K) + 1))
  have hd := sub_nonneg.mpr hc.now
  have e0 := mul_nonneg hb.1.le hd
  have e1 := mul_nonneg (sub_nonneg.mpr hb.2) hd
  have ka := mul_nonneg hk (a0 i hi)
  obtain ⟨r1, r2, r3, r4, r5, r6, r7⟩ := keltnerSpec_rises S S' hi hp hp (emaRec_pos_all (span_pos w) (span_le w hw) fun j _ => hpos j)
    (by linarith) (by rw [ea]; linarith) (by linarith) (by rw [ea]; linarith) (by rw [ea]; linarith)
  refine ⟨r1, r2, r3, r4, fun x y hx hy hxy => r5 ?_, r6, r7⟩
  rw [S.hband.val i hi hp] at hx
  rw [S.lband.val i hi hp] at hy
  rw [Val.fin.inj hx, Val.fin.inj hy]
  exact hxy

/-- C100. The Donchian percentage follows the close and the width (relative to the mean close) does the opposite. -/
theorem donchian_rises (hc : HigherAt i c c') (hi : i < n) (hlh : l i ≤ h i) (hpos : ∀ j, 0 < c j) {w : Nat} (hw : 1 ≤ w) {fillna : Bool}
    (hp : (if fillna then 0 else w - 1) ≤ i) {o o' : Donchian (Val K)}
    (ho : Donchian.new (ser n h) (ser n l) (ser n c) w 0 fillna = .ok o)
    (ho' : Donchian.new (ser n h) (ser n l) (ser n c') w 0 fillna = .ok o') :
    (l i < h i → Rises o.pband o'.pband i) ∧ Sinks o.wband o'.wband i := by
  obtain ⟨H, L, hH, hL, -, -, -, v⟩ := donchian_formula hw ho
  obtain ⟨H', L', hH', hL', -, -, -, v'⟩ := donchian_formula hw ho'
  have eH : H' i = H i := (hH' i hi).unique (hH i hi)
  have eL : L' i = L i := (hL' i hi).unique (hL i hi)
  have b1 : h i ≤ H i := (hH i hi).2 ⟨i, le_refl _, by omega, rfl⟩
  have b2 : L i ≤ l i := (hL i hi).2 ⟨i, le_refl _, by omega, rfl⟩
  have hp' : fillna = false → w - 1 ≤ i := fun hf => by simpa [hf] using hp
  have hm0 : (0 : K) < (min w (i + 1) : ℕ) := by exact_mod_cast (by omega : 0 < min w (i + 1))
  have hs : 0 < ∑ j ∈ Ico (i + 1 - w) (i + 1), c j := Finset.sum_pos (fun j _ => hpos j) ⟨i, Finset.mem_Ico.mpr ⟨by omega, by omega⟩⟩
  have hs' := hc.wsum hw
  have hd := sub_nonneg.mpr hc.now
  constructor
  · intro hlt
    refine ⟨_, _, (v i hi hp').2 (by intro e; linarith), (v' i hi hp').2 (by rw [eH, eL]; intro e; linarith), ?_⟩
    rw [eH, eL]
    exact div_le_div_of_nonneg_right (by linarith) (by linarith)
  · refine ⟨_, _, (v i hi hp').1 hs.ne', (v' i hi hp').1 (by rw [hs']; linarith), ?_⟩
    rw [eH, eL]
    refine mul_le_mul_of_nonneg_right (div_le_div_of_nonneg_left (by linarith) (div_pos hs hm0) ?_) (by norm_num)
    rw [hs']
    exact div_le_div_of_nonneg_right (by linarith) hm0.le

end channels

/-! ## volume -/

section volume
variable {K : Type} [Field K] [LinearOrder K] [IsStrictOrderedRing K] {n i : Nat} {h l c c' v : Nat → K}

/-- the location of the close in its bar, weighted, rises with the close -/
theorem clv_mono {h l x x' v : K} (hlh : l ≤ h) (hx : x ≤ x') (hv : 0 ≤ v) :
    (if h = l then 0 else ((x - l) - (h - x)) / (h - l)) * v ≤ (if h = l then 0 else ((x' - l) - (h - x')) / (h - l)) * v := by
  refine mul_le_mul_of_nonneg_right ?_ hv
  split_ifs
  · exact le_refl _
  · exact div_le_div_of_nonneg_right (by linarith) (by linarith)

/-- C100. The accumulation/distribution index, Chaikin's money flow and the volume weighted price follow the close. -/
theorem money_rises (hc : HigherAt i c c') (hi : i < n) (hb : ∀ j, l j ≤ c j ∧ c j ≤ h j) (hb' : ∀ j, l j ≤ c' j ∧ c' j ≤ h j)
    (hv : ∀ j, 0 < v j) {w : Nat} (hw : 1 ≤ w) (fillna : Bool) (hp : (if fillna then 0 else w - 1) ≤ i) :
    Rises (accDistIndex (ser n h) (ser n l) (ser n c) (ser n v) fillna) (accDistIndex (ser n h) (ser n l) (ser n c') (ser n v) fillna) i ∧
    Rises (chaikinMoneyFlow (ser n h) (ser n l) (ser n c) (ser n v) w fillna) (chaikinMoneyFlow (ser n h) (ser n l) (ser n c') (ser n v) w fillna) i ∧
    Rises (volumeWeightedAveragePrice (ser n h) (ser n l) (ser n c) (ser n v) w fillna)
      (volumeWeightedAveragePrice (ser n h) (ser n l) (ser n c') (ser n v) w fillna) i := by
  have term : ∀ j, j ≤ i → (if h j = l j then 0 else ((c j - l j) - (h j - c j)) / (h j - l j)) * v j
      ≤ (if h j = l j then 0 else ((c' j - l j) - (h j - c' j)) / (h j - l j)) * v j := fun j hj => by
    refine clv_mono ((hb j).1.trans (hb j).2) ?_ (hv j).le
    rcases Nat.lt_or_ge j i with h1 | h1
    · exact (hc.before j h1).ge
    · rw [show j = i by omega]; exact hc.now
  have hs : 0 ≤ ∑ j ∈ Finset.Ico (i + 1 - w) (i + 1), v j := Finset.sum_nonneg fun j _ => (hv j).le
  refine ⟨(adi_formula n h l c v (fun j => (hb j).1) (fun j => (hb j).2) fillna).rises
      (adi_formula n h l c' v (fun j => (hb' j).1) (fun j => (hb' j).2) fillna) hi (Nat.zero_le _)
      (Finset.sum_le_sum fun j hj => term j (by have := Finset.mem_range.mp hj; omega)),
    (cmf_formula n h l c v w fillna hw hv (fun j => (hb j).1) (fun j => (hb j).2)).rises
      (cmf_formula n h l c' v w fillna hw hv (fun j => (hb' j).1) (fun j => (hb' j).2)) hi hp
      (div_le_div_of_nonneg_right (Finset.sum_le_sum fun j hj => term j (by have := (Finset.mem_Ico.mp hj).2; omega)) hs),
    (vwap_formula n h l c v w fillna hw hv).rises (vwap_formula n h l c' v w fillna hw hv) hi hp
      (div_le_div_of_nonneg_right (Finset.sum_le_sum fun j hj => mul_le_mul_of_nonneg_right ?_ (hv j).le) hs)⟩
  rcases Nat.lt_or_ge j i with h1 | h1
  · rw [hc.before j h1]
  · rw [show j = i by have := (Finset.mem_Ico.mp hj).2; omega]; linarith [hc.now]

/-- C100. On-balance volume follows the close. -/
theorem obv_rises (hc : HigherAt i c c') (hi : i < n) (hv : 0 ≤ v i) (fillna : Bool) :
    Rises (onBalanceVolume (ser n c) (ser n v) fillna) (onBalanceVolume (ser n c') (ser n v) fillna) i := by
  refine (obv_formula n c v fillna).rises (obv_formula n c' v fillna) hi (Nat.zero_le _) ?_
  rw [Finset.sum_range_succ, Finset.sum_range_succ]
  refine add_le_add (le_of_eq (Finset.sum_congr rfl fun j hj => ?_)) ?_
  · have hj := Finset.mem_range.mp hj
    rw [hc.before j hj, hc.before (j - 1) (by omega)]
  · by_cases h1 : 0 < i ∧ c' i < c' (i - 1)
    · rw [if_pos h1, if_pos ⟨h1.1, by have := hc.before (i - 1) (by omega); have := hc.now; have := h1.2; linarith⟩]
    · rw [if_neg h1]
      split_ifs <;> linarith

/-- C100. The force index follows the close. -/
theorem forceIndex_rises (hc : HigherAt (i + 1) c c') (hi : i + 1 < n) (hv : 0 ≤ v (i + 1)) {w : Nat} (hw : 1 ≤ w) {fillna : Bool}
    (hp : fillna = true ∨ w ≤ i + 1) {out out' : Series (Val K)} (ho : forceIndex (ser n c) (ser n v) w fillna = .ok out)
    (ho' : forceIndex (ser n c') (ser n v) w fillna = .ok out') : Rises out out' (i + 1) := by
  have key : emaRec (2 / ((w : K) + 1)) (fun j => (c (j + 1) - c j) * v (j + 1)) i
      ≤ emaRec (2 / ((w : K) + 1)) (fun j => (c' (j + 1) - c' j) * v (j + 1)) i := by
    have : HigherAt i (fun j => (c (j + 1) - c j) * v (j + 1)) (fun j => (c' (j + 1) - c' j) * v (j + 1)) :=
      ⟨fun j hj => by rw [hc.before (j + 1) (by omega), hc.before j (by omega)], by
        have e := hc.before i (by omega)
        have := hc.now
        exact mul_le_mul_of_nonneg_right (by linarith) hv⟩
    exact (this.emas hw).now
  cases fillna with
  | false =>
    obtain ⟨u, hu, d⟩ := forceIndex_formula n c v hw
    obtain ⟨u', hu', d'⟩ := forceIndex_formula n c' v hw
    obtain rfl := Except.ok.inj (hu.symm.trans ho)
    obtain rfl := Except.ok.inj (hu'.symm.trans ho')
    exact d.rises d' hi (by simpa using hp) key
  | true =>
    obtain ⟨u, hu, d⟩ := forceIndex_fill_formula n c v hw
    obtain ⟨u', hu', d'⟩ := forceIndex_fill_formula n c' v hw
    obtain rfl := Except.ok.inj (hu.symm.trans ho)
    obtain rfl := Except.ok.inj (hu'.symm.trans ho')
    exact d.rises d' hi (Nat.zero_le _) (by rw [if_neg (by omega), if_neg (by omega)]; exact key)

/-- C100. The volume-price trend (also smoothed) follows the close. -/
theorem vpt_rises (hc : HigherAt i c c') (hi : i < n) (hi1 : 1 ≤ i) (hp : ∀ j, 0 < c j) (hp' : ∀ j, 0 < c' j) (hv : 0 ≤ v i) :
    (∀ fillna, Rises (volumePriceTrend (ser n c) (ser n v) fillna) (volumePriceTrend (ser n c') (ser n v) fillna) i) ∧
    ∀ k, 1 ≤ k → k ≤ i → Rises (volumePriceTrend (ser n c) (ser n v) false (some k)) (volumePriceTrend (ser n c') (ser n v) false (some k)) i := by
  have key : HigherAt i (fun i => ∑ j ∈ Ico 1 (i + 1), v j * (c j / c (j - 1) - 1)) (fun i => ∑ j ∈ Ico 1 (i + 1), v j * (c' j / c' (j - 1) - 1)) := by
    constructor
    · intro j hj
      refine Finset.sum_congr rfl fun k hk => ?_
      have hk := Finset.mem_Ico.mp hk
      rw [hc.before k (by omega), hc.before (k - 1) (by omega)]
    · rw [Finset.sum_Ico_succ_top hi1, Finset.sum_Ico_succ_top hi1]
      refine add_le_add (le_of_eq (Finset.sum_congr rfl fun k hk => ?_)) (mul_le_mul_of_nonneg_left ?_ hv)
      · have hk := Finset.mem_Ico.mp hk
        rw [hc.before k (by omega), hc.before (k - 1) (by omega)]
      · rw [hc.before (i - 1) (by omega)]
        have := div_le_div_of_nonneg_right hc.now (hp (i - 1)).le
        linarith
  refine ⟨fun fillna => ?_, fun k hk hki => ?_⟩
  · cases fillna with
    | false => exact (vpt_formula n v fun j => (hp j).ne').rises (vpt_formula n v fun j => (hp' j).ne') hi hi1 key.now
    | true => exact (vpt_fill_formula n v fun j => (hp j).ne').rises (vpt_fill_formula n v fun j => (hp' j).ne') hi (Nat.zero_le _) key.now
  · refine (vpt_smooth_formula n v (fun j => (hp j).ne') hk).rises (vpt_smooth_formula n v (fun j => (hp' j).ne') hk) hi hki ?_
    refine div_le_div_of_nonneg_right (Finset.sum_le_sum fun m hm => ?_) (Nat.cast_nonneg _)
    have hm := Finset.mem_Ico.mp hm
    rcases Nat.lt_or_ge m i with h1 | h1
    · exact (key.before m h1).ge
    · rw [show m = i by omega]; exact key.now

/-- C100. The negative volume index follows the close (and does not move with it on rows of rising volume). -/
theorem nvi_rises (hc : HigherAt i c c') (hi : i < n) (hp : ∀ j, 0 < c j) (hp' : ∀ j, 0 < c' j) {fillna : Bool} {out out' : Series (Val K)}
    (ho : negativeVolumeIndex (ser n c) (ser n v) fillna = .ok out) (ho' : negativeVolumeIndex (ser n c') (ser n v) fillna = .ok out') :
    Rises out out' i ∧ (1 ≤ i → ¬ v i < v (i - 1) → ix out' i = ix out i) := by
  obtain ⟨u, hu, d⟩ := nvi_formula (by omega : 0 < n) v (fun j => (hp j).ne') fillna
  obtain ⟨u', hu', d'⟩ := nvi_formula (by omega : 0 < n) v (fun j => (hp' j).ne') fillna
  obtain rfl := Except.ok.inj (hu.symm.trans ho)
  obtain rfl := Except.ok.inj (hu'.symm.trans ho')
  have hpos : ∀ (x : Nat → K), (∀ j, 0 < x j) → ∀ j, 0 < nvi x v j := fun x hx j => by
    induction j with
    | zero => unfold nvi; norm_num
    | succ j ih =>
      unfold nvi
      split_ifs
      · exact mul_pos ih (div_pos (hx _) (hx _))
      · exact ih
  have hb : ∀ j, j < i → nvi c' v j = nvi c v j := fun j => by
    induction j with
    | zero => intro _; rfl
    | succ j ih =>
      intro hj
      unfold nvi
      rw [ih (by omega), hc.before (j + 1) hj, hc.before j (by omega)]
  cases i with
  | zero => exact ⟨d.rises d' hi (Nat.zero_le _) (le_refl _), fun h => absurd h (by omega)⟩
  | succ i =>
    have e1 := hb i (by omega)
    have e2 := hc.before i (by omega)
    refine ⟨d.rises d' hi (Nat.zero_le _) ?_, fun _ hn => ?_⟩
    · unfold nvi
      rw [e1, e2]
      split_ifs
      · exact mul_le_mul_of_nonneg_left (div_le_div_of_nonneg_right hc.now (hp i).le) (hpos c hp i).le
      · exact le_refl _
    · rw [d.val _ hi (Nat.zero_le _), d'.val _ hi (Nat.zero_le _)]
      unfold nvi
      rw [e1, if_neg (by simpa using hn), if_neg (by simpa using hn)]

end volume

/-! ## over the reals -/

section reals
variable {n i : Nat} {c c' : Nat → ℝ}

/-- C100. The daily log return follows the close. -/
theorem log_return_rises (hc : HigherAt (i + 1) c c') (hi : i + 1 < n) (hp : ∀ j, 0 < c j) (hp' : ∀ j, 0 < c' j) (fillna : Bool) :
    Rises (dailyLogReturn (ser n c) fillna) (dailyLogReturn (ser n c') fillna) (i + 1) := by
  obtain ⟨G, g, -, d, -⟩ := log_returns_sum (n := n) hp fillna
  obtain ⟨G', g', -, d', -⟩ := log_returns_sum (n := n) hp' fillna
  refine d.rises d' hi (by split_ifs <;> omega) ?_
  rw [g, g', hc.before i (by omega)]
  have := Real.log_le_log (hp (i + 1)) hc.now
  linarith

/-- a drawdown is not positive and shrinks as the close rises -/
theorem drawdown_rises (hc : HigherAt i c c') (hp : ∀ j, 0 < c j) (hp' : ∀ j, 0 < c' j) {w : Nat} (hw : 1 ≤ w) :
    drawdownPct c w i ≤ drawdownPct c' w i ∧ drawdownPct c' w i ≤ 0 := by
  obtain ⟨⟨a, a1, a2, a3⟩, b⟩ := wmax_spec c (i := i) hw
  obtain ⟨⟨a', a1', a2', a3'⟩, b'⟩ := wmax_spec c' (i := i) hw
  have m1 : c i ≤ wmax c w i := b i (le_refl _) (by omega)
  have m2 : c' i ≤ wmax c' w i := b' i (le_refl _) (by omega)
  have p1 := (hp i).trans_le m1
  have p2 := (hp' i).trans_le m2
  have hz : drawdownPct c' w i ≤ 0 := by
    unfold drawdownPct
    exact div_nonpos_of_nonpos_of_nonneg (by linarith) p2.le
  refine ⟨?_, hz⟩
  have hle : c i * wmax c' w i ≤ c' i * wmax c w i := by
    rcases Nat.lt_or_ge a' i with h1 | h1
    · have : wmax c' w i ≤ wmax c w i := by rw [a3', hc.before a' h1]; exact b a' a1' a2'
      exact mul_le_mul hc.now this p2.le (hp' i).le
    · have e : a' = i := by omega
      rw [a3', e, mul_comm (c i)]
      exact mul_le_mul_of_nonneg_left m1 (hp' i).le
  unfold drawdownPct
  rw [div_le_div_iff₀ p1 p2]
  nlinarith

/-- C100. The Ulcer index falls when the close rises. -/
theorem ulcer_sinks (hc : HigherAt i c c') (hi : i < n) (hp : ∀ j, 0 < c j) (hp' : ∀ j, 0 < c' j) {w : Nat} (hw : 1 ≤ w) (hwi : w ≤ i + 1)
    {out out' : Series (Val ℝ)} (ho : ulcerIndex (ser n c) w = .ok out) (ho' : ulcerIndex (ser n c') w = .ok out') : Sinks out out' i := by
  refine (ulcer_formula hp hw ho).sinks (ulcer_formula hp' hw ho') hi (by omega) ?_
  refine Real.sqrt_le_sqrt (div_le_div_of_nonneg_right (Finset.sum_le_sum fun j hj => ?_) (Nat.cast_nonneg _))
  have hj := Finset.mem_Ico.mp hj
  rcases Nat.lt_or_ge j i with h1 | h1
  · have e : wmax c' w j = wmax c w j := by
      obtain ⟨⟨a, a1, a2, a3⟩, b⟩ := wmax_spec c (i := j) hw
      obtain ⟨⟨a', a1', a2', a3'⟩, b'⟩ := wmax_spec c' (i := j) hw
      refine le_antisymm ?_ ?_
      · rw [a3', hc.before a' (by omega)]; exact b a' a1' a2'
      · rw [a3, ← hc.before a (by omega)]; exact b' a a1 a2
    unfold drawdownPct
    rw [e, hc.before j h1]
  · obtain rfl : j = i := by omega
    obtain ⟨q1, q2⟩ := drawdown_rises hc hp hp' hw
    nlinarith

/-- C100. The Bollinger bands themselves and their width go either way: after a close of 10, with window 2 and two deviations, closing at
0, 4, 20 puts the upper band at 15, 13, 25. -/
theorem bollinger_band_either : ∀ x : ℝ, ix (BB.new (ser 2 fun j => if j = 0 then 10 else x) 2 (.fin 2)).bollingerHband 1
    = .fin ((10 + x) / 2 + |x - 10|) ∧ ix (BB.new (ser 2 fun j => if j = 0 then 10 else x) 2 (.fin 2)).bollingerLband 1
    = .fin ((10 + x) / 2 - |x - 10|) ∧ (10 + x ≠ 0 → ix (BB.new (ser 2 fun j => if j = 0 then 10 else x) 2 (.fin 2)).bollingerWband 1
    = .fin (2 * |x - 10| / ((10 + x) / 2) * 100)) := by
  intro x
  have B := bollinger_formula (n := 2) (fun j => if j = 0 then 10 else x) (by norm_num : 1 ≤ 2) 2 false
  have em : wmean (fun j => if j = 0 then (10 : ℝ) else x) 2 1 = (10 + x) / 2 := by
    unfold wmean
    rw [show (1 : ℕ) + 1 - 2 = 0 from rfl, show (1 : ℕ) + 1 = 2 from rfl, Finset.sum_Ico_succ_top (by norm_num), Finset.sum_Ico_succ_top (by norm_num)]
    simp
  have es : wstd (fun j => if j = 0 then (10 : ℝ) else x) 2 1 = |x - 10| / 2 := by
    unfold wstd
    rw [em, show (1 : ℕ) + 1 - 2 = 0 from rfl, show (1 : ℕ) + 1 = 2 from rfl, Finset.sum_Ico_succ_top (by norm_num), Finset.sum_Ico_succ_top (by norm_num)]
    rw [show (∑ k ∈ Ico 0 0, ((if k = 0 then (10 : ℝ) else x) - (10 + x) / 2) ^ 2 + ((if 0 = 0 then (10 : ℝ) else x) - (10 + x) / 2) ^ 2
      + ((if 1 = 0 then (10 : ℝ) else x) - (10 + x) / 2) ^ 2) / ((min 2 2 : ℕ) : ℝ) = ((x - 10) / 2) ^ 2 by simp; ring]
    rw [Real.sqrt_sq_eq_abs, abs_div, abs_of_pos (by norm_num : (0 : ℝ) < 2)]
  refine ⟨?_, ?_, fun hx => ?_⟩
  · rw [B.hband.val 1 (by norm_num) (by norm_num), em, es]
    congr 1; ring
  · rw [B.lband.val 1 (by norm_num) (by norm_num), em, es]
    congr 1; ring
  · rw [B.wband 1 (by norm_num) (by norm_num) (by rw [em]; intro e; exact hx (by linarith)), em, es]
    congr 1; ring

end reals

/-! ## concrete bars -/

section examples
attribute [local instance] toyFn

example : (Ind.adx 2 : Ind (Val ℚ)).eval false (fiveBars ++ [qbar 9 4 5 1]) = (Ind.adx 2).eval false (fiveBars ++ [qbar 9 4 8 1]) ∧
    (Ind.adx 2 : Ind (Val ℚ)).skipsClose ∧ 2 ≤ (fiveBars : List (Bar (Val ℚ))).length :=
  ⟨(last_close_unread (.adx 2) trivial false fiveBars (by decide) (r := qbar 9 4 5 1) (r' := qbar 9 4 8 1) rfl rfl rfl).symm, trivial, by decide⟩
/-- the parabolic SAR of the second row is the close of that row -/
example : (Ind.psar (.fin (1 / 50)) (.fin (1 / 5)) : Ind (Val ℚ)).eval false [qbar 9 4 5 1, qbar 9 4 5 1]
    ≠ (Ind.psar (.fin (1 / 50)) (.fin (1 / 5))).eval false [qbar 9 4 5 1, qbar 9 4 6 1] := by decide +kernel
/-- with filling the vortex indicator reads the last close in its first rows -/
example : (Ind.vortexPos 2 : Ind (Val ℚ)).eval true [qbar 9 4 5 1, qbar 9 4 5 1, qbar 90 4 5 1]
    ≠ (Ind.vortexPos 2).eval true [qbar 9 4 5 1, qbar 9 4 5 1, qbar 90 4 89 1] := by decide +kernel
example : ix (onBalanceVolume (qs [10, 9]) (qs [3, 4])) 1 = .fin (-1) ∧ ix (onBalanceVolume (qs [10, 11]) (qs [3, 4])) 1 = .fin 7 := by
  decide +kernel
example : ix (chaikinMoneyFlow (qs [4, 4]) (qs [0, 0]) (qs [2, 1]) (qs [3, 3]) 2) 1 = .fin (-1 / 4) ∧
    ix (chaikinMoneyFlow (qs [4, 4]) (qs [0, 0]) (qs [2, 4]) (qs [3, 3]) 2) 1 = .fin (1 / 2) := by decide +kernel

end examples

end TA
