import Verif.Lemmas.Bars
import Verif.Lemmas.RelInd
import Verif.Props.C18

/-! # C21: stochastic oscillator and Williams %R; C22: StochRSI and Schaff trend cycle -/

set_option linter.unusedSectionVars false

namespace TA
open Finset
variable {K : Type} [Field K] [LinearOrder K] [IsStrictOrderedRing K]

/-- `m * a / b` with `0 ≤ a ≤ b`: NaN (0/0) or between 0 and `m` -/
theorem ratio_mem {m a b : K} (hm : 0 ≤ m) (h0 : 0 ≤ a) (h : a ≤ b) :
    FinOr (fun x => 0 ≤ x ∧ x ≤ m) (Val.fin (m * a) /. Val.fin b) := by
  by_cases hb : b = 0
  · left
    have : a = 0 := le_antisymm (hb ▸ h) h0
    rw [hb, this, mul_zero, fin_div_zero]; simp
  · right
    have hp : 0 < b := lt_of_le_of_ne (le_trans h0 h) (Ne.symm hb)
    rw [fin_div _ _ hb]
    refine ⟨_, rfl, div_nonneg (mul_nonneg hm h0) hp.le, ?_⟩
    rw [div_le_iff₀ hp]
    exact mul_le_mul_of_nonneg_left h hm

theorem FinOr.nanOr {P : K → Prop} {s : Series (Val K)} (h : ∀ i, i < s.length → FinOr P (ix s i)) : NaNOr P s := h

/-- rolling means of a series stay in the bounds of the series -/
theorem NaNOr.rollMean {s : Series (Val K)} {a b : K} (h : NaNOr (fun x => a ≤ x ∧ x ≤ b) s) (w mp : Nat) :
    NaNOr (fun x => a ≤ x ∧ x ≤ b) (TA.rollMean w mp s) := fun i hi =>
  rollMean_mem (by simpa using hi) fun j x _ _ hx => h.allFin j x hx

/-! ## C21 -/

/-- one row of %K -/
theorem stochK_mem {h l c : Series (Val K)} (g : GoodBars h l c) (w : Nat) (fillna : Bool) :
    NaNOr (fun x => 0 ≤ x ∧ x ≤ 100) (Stoch.k h l c w fillna) := by
  intro i hi
  have hi' : i < h.length := by simpa [Stoch.k, g.lenC] using hi
  unfold Stoch.k
  dsimp only
  rw [ix_sdiv (by simpa [g.lenC] using hi'), ix_cmul (by simpa [g.lenC] using hi'), ix_ssub (by rw [g.lenC]; exact hi'),
    ix_ssub (by simpa using hi')]
  rcases g.row i hi' with ⟨_, _, h3⟩ | ⟨x, y, z, h1, h2, h3, h4, h5⟩
  · left; rw [h3]; simp
  rcases rollMin_cases l w (minp fillna w) i (by rw [g.lenL]; exact hi') with e | ⟨m, e, hm, hm'⟩
  · left; rw [e]; simp
  rcases rollMax_cases h w (minp fillna w) i hi' with e' | ⟨M, e', hM, hM'⟩
  · left; rw [e']; simp
  have hw : i < i + w := by
    obtain ⟨j, h6, h7, _⟩ := mem_obs.mp hm
    omega
  have i1 := hm' y (mem_obs.mpr ⟨i, le_refl _, hw, h2⟩)
  have i2 := hM' x (mem_obs.mpr ⟨i, le_refl _, hw, h1⟩)
  rw [e, e', h3, fin_sub, fin_sub, lit_fin, fin_mul]
  push_cast
  exact ratio_mem (by norm_num) (by linarith) (by linarith)

/-- C21: on bars (missing rows allowed) with low ≤ close ≤ high, %K and %D are NaN or in [0, 100] on every row, for all
windows and both values of `fillna`. -/
theorem stoch_range {h l c : Series (Val K)} (g : GoodBars h l c) (w smooth : Nat) (fillna : Bool) :
    NaNOr (fun x => 0 ≤ x ∧ x ≤ 100) (stoch h l c w fillna) ∧
    NaNOr (fun x => 0 ≤ x ∧ x ≤ 100) (stochSignal h l c w smooth fillna) := by
  constructor
  · unfold stoch; rw [lit_fin]; exact NaNOr.fill (stochK_mem g w fillna) (by norm_num) _
  · unfold stochSignal; rw [lit_fin]; exact NaNOr.fill ((stochK_mem g w fillna).rollMean _ _) (by norm_num) _

/-- the two formulas differ by 100, whatever the data -/
theorem wr_scalar (hh c ll : Val K) (h1 : hh = .nan ∨ ∃ x, hh = .fin x) (h2 : ll = .nan ∨ ∃ x, ll = .fin x) :
    VA 1 (-100) ((lit 100 *. (c -. ll)) /. (hh -. ll)) ((lit (-100) *. (hh -. c)) /. (hh -. ll)) := by
  rcases h1 with rfl | ⟨a, rfl⟩
  · simp only [nan_sub, mul_nan, div_nan]; exact .nan
  rcases h2 with rfl | ⟨b, rfl⟩
  · simp only [sub_nan, mul_nan, div_nan]; exact .nan
  cases c with
  | nan => simp only [sub_nan, nan_sub, mul_nan, nan_div]; exact .nan
  | fin x =>
    simp only [fin_sub, lit_fin, fin_mul]
    push_cast
    by_cases h0 : a - b = 0
    · have : a = b := sub_eq_zero.mp h0
      subst this
      rw [sub_self, fin_div_zero, fin_div_zero]
      have e : (-100 : K) * (a - x) = 100 * (x - a) := by ring
      rw [e]
      split_ifs
      · exact .nan
      · exact .pinf
      · exact .ninf
    · rw [fin_div _ _ h0, fin_div _ _ h0]
      refine VA.fin' ?_
      field_simp
      ring
  | pinf =>
    have e1 : (lit 100 *. (Val.pinf -. Val.fin b)) = (Val.pinf : Val K) := by
      show Val.mul (.fin ((100 : ℚ) : K)) .pinf = _
      simp [Val.mul, Val.infMul]
    have e2 : (lit (-100) *. (Val.fin a -. Val.pinf)) = (Val.pinf : Val K) := by
      have h100 : ¬ ((100 : K) < 0) := by norm_num
      show Val.mul (.fin ((-100 : ℚ) : K)) .ninf = _
      simp [Val.mul, Val.infMul, Val.neg, h100]
    rw [e1, e2, fin_sub]
    show VA 1 (-100) (if 0 ≤ a - b then Val.pinf else Val.ninf) (if 0 ≤ a - b then Val.pinf else Val.ninf)
    split_ifs
    · exact .pinf
    · exact .ninf
  | ninf =>
    have e1 : (lit 100 *. (Val.ninf -. Val.fin b)) = (Val.ninf : Val K) := by
      show Val.mul (.fin ((100 : ℚ) : K)) .ninf = _
      simp [Val.mul, Val.infMul, Val.neg]
    have e2 : (lit (-100) *. (Val.fin a -. Val.ninf)) = (Val.ninf : Val K) := by
      show Val.mul (.fin ((-100 : ℚ) : K)) .pinf = _
      simp [Val.mul, Val.infMul]
    rw [e1, e2, fin_sub]
    show VA 1 (-100) (if 0 ≤ a - b then Val.ninf else Val.pinf) (if 0 ≤ a - b then Val.ninf else Val.pinf)
    split_ifs
    · exact .ninf
    · exact .pinf

/-- C21: Williams %R is %K minus 100 on every row, for any data (NaN, infinities, closes outside the bars), any window
and both values of `fillna`; the gaps are in the same rows. -/
theorem williamsR_eq_stoch (h l c : Series (Val K)) (hl : l.length = h.length) (hc : c.length = h.length) (w : Nat)
    (fillna : Bool) :
    williamsR h l c w fillna = (stoch h l c w fillna).map fun v => v -. .fin 100 := by
  have hrel : SA 1 (-100) (Stoch.k h l c w fillna) (WR.run h l c w fillna) := by
    refine ⟨by simp [Stoch.k, WR.run, hc], fun i hi => ?_⟩
    have hi' : i < h.length := by simpa [Stoch.k, hc] using hi
    unfold Stoch.k WR.run
    dsimp only
    rw [ix_sdiv (by simpa [hc] using hi'), ix_cmul (by simpa [hc] using hi'), ix_ssub (by rw [hc]; exact hi'),
      ix_ssub (by simpa using hi'), ix_sdiv (by simpa using hi'), ix_cmul (by simpa using hi'), ix_ssub (by simpa using hi'),
      ix_ssub (by simpa using hi')]
    refine wr_scalar _ _ _ ?_ ?_
    · rcases rollMax_cases h w (minp fillna w) i hi' with e | ⟨M, e, _⟩
      · exact .inl e
      · exact .inr ⟨M, e⟩
    · rcases rollMin_cases l w (minp fillna w) i (by rw [hl]; exact hi') with e | ⟨M, e, _⟩
      · exact .inl e
      · exact .inr ⟨M, e⟩
  have hf : SA 1 (-100) (stoch h l c w fillna) (williamsR h l c w fillna) :=
    hrel.fill fillna fun _ => .const (by rw [lit_fin, lit_fin]; exact VA.fin' (by norm_num))
  refine SA.det hf (SA.map_of _ (fun v => ?_) _)
  cases v with
  | nan => exact .nan
  | pinf => exact .pinf
  | ninf => exact .ninf
  | fin x => rw [fin_sub]; exact VA.fin' (by ring)

/-- C21: on bars with low ≤ close ≤ high, Williams %R is NaN or in [-100, 0] on every row. -/
theorem williamsR_range {h l c : Series (Val K)} (g : GoodBars h l c) (w : Nat) (fillna : Bool) :
    NaNOr (fun x => -100 ≤ x ∧ x ≤ 0) (williamsR h l c w fillna) := by
  rw [williamsR_eq_stoch h l c g.lenL g.lenC]
  intro i hi
  have hi' : i < (stoch h l c w fillna).length := by simpa using hi
  rw [ix_map hi']
  rcases (stoch_range g w 0 fillna).1 i hi' with e | ⟨x, e, h1, h2⟩
  · left; rw [e]; simp
  · right; rw [e, fin_sub]; exact ⟨_, rfl, by linarith, by linarith⟩

/-- C21: the formula on gap-free bars; `M` and `m` are the highest high and the lowest low of the window.  A window with
`M = m` has no value (0/0). -/
theorem stoch_formula (n : Nat) (h l c : Nat → K) (hl : ∀ i, i < n → l i ≤ c i ∧ c i ≤ h i) (w : Nat) (hw : 1 ≤ w) :
    ∃ M m : Nat → K,
      (∀ i, (∃ j, j ≤ i ∧ i < j + w ∧ M i = h j) ∧ ∀ j, j ≤ i → i < j + w → h j ≤ M i) ∧
      (∀ i, (∃ j, j ≤ i ∧ i < j + w ∧ m i = l j) ∧ ∀ j, j ≤ i → i < j + w → m i ≤ l j) ∧
      (stoch (ser n h) (ser n l) (ser n c) w false).length = n ∧
      (∀ i, i < n → i < w - 1 → ix (stoch (ser n h) (ser n l) (ser n c) w false) i = .nan) ∧
      ∀ i, i < n → w - 1 ≤ i → ix (stoch (ser n h) (ser n l) (ser n c) w false) i =
        if M i = m i then .nan else .fin (100 * (c i - m i) / (M i - m i)) := by
  refine ⟨wmax h w, wmin l w, fun i => ?_, fun i => ?_, by simp [stoch, Stoch.k, ser], fun i hi hi' => ?_, fun i hi hi' => ?_⟩
  · obtain ⟨⟨j, h1, h2, h3⟩, h4⟩ := wmax_spec h (w := w) (i := i) hw
    exact ⟨⟨j, h1, h2, h3⟩, h4⟩
  · obtain ⟨⟨j, h1, h2, h3⟩, h4⟩ := wmin_spec l (w := w) (i := i) hw
    exact ⟨⟨j, h1, h2, h3⟩, h4⟩
  all_goals
    have hM := (def_ser n h).rollMax hw
    have hm := (def_ser n l).rollMin hw
    have e : ix (stoch (ser n h) (ser n l) (ser n c) w false) i
        = ((lit 100 *. (ix (ser n c) i -. ix (rollMin w w (ser n l)) i)) /. (ix (rollMax w w (ser n h)) i -. ix (rollMin w w (ser n l)) i)) := by
      show ix (Stoch.k _ _ _ w false) i = _
      unfold Stoch.k
      dsimp only
      rw [ix_sdiv (by simpa [ser] using hi), ix_cmul (by simpa [ser] using hi), ix_ssub (by simpa [ser] using hi),
        ix_ssub (by simpa [ser] using hi)]
      rfl
    rw [e]
  · rw [hM.gap i hi (by omega), hm.gap i hi (by omega)]; simp
  · rw [hM.val i hi (by omega), hm.val i hi (by omega), (def_ser n c).val i hi (Nat.zero_le _)]
    simp only [fin_sub, lit_fin, fin_mul]
    have h1 := (wmax_spec h (w := w) (i := i) hw).2 i (le_refl _) (by omega)
    have h2 := (wmin_spec l (w := w) (i := i) hw).2 i (le_refl _) (by omega)
    have h3 := hl i hi
    split_ifs with h0
    · have : c i - wmin l w i = 0 := by linarith
      rw [h0, this, sub_self, mul_zero, fin_div_zero]; simp
    · rw [fin_div _ _ (sub_ne_zero.mpr h0)]
      push_cast; rfl

example : stoch (qs [11, 13, 12]) (qs [9, 10, 8]) (qs [10, 12, 9]) 2 = [.nan, .fin 75, .fin 20] := by decide +kernel
example : williamsR (qs [11, 13, 12]) (qs [9, 10, 8]) (qs [10, 12, 9]) 2 = [.nan, .fin (-25), .fin (-80)] := by decide +kernel
/-- a flat window: 0/0 -/
example : stoch (qs [5, 5, 5]) (qs [5, 5, 5]) (qs [5, 5, 5]) 2 = [.nan, .nan, .nan] := by decide +kernel
example : stoch (qs [5, 5, 6]) (qs [5, 5, 5]) (qs [5, 5, 6]) 2 true = [.fin 50, .fin 50, .fin 100] := by decide +kernel
/-- outside the bar the identity still holds -/
example : stoch (qs [11, 13]) (qs [9, 10]) (qs [20, 30]) 1 = [.fin 550, .fin (2000/3)] ∧
    williamsR (qs [11, 13]) (qs [9, 10]) (qs [20, 30]) 1 = [.fin 450, .fin (1700/3)] := by decide +kernel

/-! ## C22 -/

/-- `m * (x - min) / (max - min)` over a window is NaN or in [0, m] -/
theorem minmax_mem {x : Series (Val K)} {w mp i : Nat} (hi : i < x.length) {m : K} (hm0 : 0 ≤ m)
    (hx : ix x i = .nan ∨ ∃ v, ix x i = .fin v) :
    FinOr (fun y => 0 ≤ y ∧ y ≤ m)
      ((Val.fin m *. (ix x i -. ix (rollMin w mp x) i)) /. (ix (rollMax w mp x) i -. ix (rollMin w mp x) i)) := by
  rcases hx with e | ⟨v, e⟩
  · left; rw [e]; simp
  rcases rollMin_cases x w mp i hi with e1 | ⟨a, e1, ha, ha'⟩
  · left; rw [e1]; simp
  rcases rollMax_cases x w mp i hi with e2 | ⟨b, e2, hb, hb'⟩
  · left; rw [e2]; simp
  have hw : i < i + w := by
    obtain ⟨j, h6, h7, _⟩ := mem_obs.mp ha
    omega
  have hv := mem_obs.mpr ⟨i, le_refl _, hw, e⟩
  have i1 := ha' v hv
  have i2 := hb' v hv
  rw [e, e1, e2, fin_sub, fin_sub, fin_mul]
  exact ratio_mem hm0 (by linarith) (by linarith)

/-- C22: for any close series, windows and both values of `fillna`, the StochRSI and its %K and %D are NaN or in [0, 1]
on every row. -/
theorem stochrsi_range (s : Series (Val K)) (w s1 s2 : Nat) (fillna : Bool) (o : StochRSI (Val K))
    (ho : StochRSI.new s w s1 s2 fillna = .ok o) :
    NaNOr (fun x => 0 ≤ x ∧ x ≤ 1) o.stochrsi ∧ NaNOr (fun x => 0 ≤ x ∧ x ≤ 1) o.stochrsiK ∧
      NaNOr (fun x => 0 ≤ x ∧ x ≤ 1) o.stochrsiD := by
  unfold StochRSI.new at ho
  cases hr : rsi s w fillna with
  | error e => rw [hr] at ho; cases ho
  | ok r =>
    rw [hr] at ho
    have hrr := rsi_range s w fillna r hr
    have e := Except.ok.inj ho
    have hraw : NaNOr (fun x => 0 ≤ x ∧ x ≤ 1) (StochRSI.ofRsi r w) := by
      intro i hi
      have hi' : i < r.length := by simpa [StochRSI.ofRsi] using hi
      unfold StochRSI.ofRsi
      dsimp only
      rw [ix_sdiv (by simpa using hi'), ix_ssub (by simpa using hi'), ix_ssub (by simpa using hi')]
      have hx : ix r i = .nan ∨ ∃ v, ix r i = .fin v := by
        rcases hrr i hi' with e | ⟨x, e, _⟩
        · exact .inl e
        · exact .inr ⟨x, e⟩
      have := minmax_mem (w := w) (mp := w) hi' (zero_le_one' K) hx
      have e1 : ∀ v : Val K, (v = .nan ∨ ∃ x, v = .fin x) → (Val.fin 1 *. v) = v := by
        rintro v (rfl | ⟨x, rfl⟩)
        · rfl
        · rw [fin_mul, one_mul]
      rw [e1] at this
      · exact this
      · rcases hx with h | ⟨v, h⟩
        · left; rw [h]; simp
        · rcases rollMin_cases r w w i hi' with h2 | ⟨a, h2, _⟩
          · left; rw [h2]; simp
          · right; rw [h, h2, fin_sub]; exact ⟨_, rfl⟩
    subst e
    unfold StochRSI.stochrsi StochRSI.stochrsiK StochRSI.stochrsiD
    rw [lit_fin]
    exact ⟨hraw.fill (by norm_num) _, (hraw.rollMean _ _).fill (by norm_num) _,
      ((hraw.rollMean _ _).rollMean _ _).fill (by norm_num) _⟩

/-- smoothing is NaN or a number -/
theorem ema_nanOr {s : Series (Val K)} {w : Nat} (hw : 1 ≤ w) (b : Bool) : NaNOr (fun _ => True) (ema s w b) := by
  intro i hi
  unfold ema
  rw [alphaOfSpan_fin]
  exact ewm_mem convex_true (span_pos w) (span_le w hw) _ (by simpa using hi) fun _ _ _ _ => trivial

/-- C22: for any close series, windows and both values of `fillna`, the Schaff trend cycle is NaN or in [0, 100] on every
row. -/
theorem stc_range (s : Series (Val K)) (slow fast cycle s1 s2 : Nat) (fillna : Bool) (out : Series (Val K))
    (ho : stc s slow fast cycle s1 s2 fillna = .ok out) : NaNOr (fun x => 0 ≤ x ∧ x ≤ 100) out := by
  unfold stc chkSpan at ho
  by_cases h1 : fast < 1
  · rw [if_pos h1] at ho; cases ho
  rw [if_neg h1] at ho
  by_cases h2 : slow < 1
  · rw [if_pos h2] at ho; cases ho
  rw [if_neg h2] at ho
  by_cases h3 : s1 < 1
  · rw [if_pos h3] at ho; cases ho
  rw [if_neg h3] at ho
  by_cases h4 : s2 < 1
  · rw [if_pos h4] at ho; cases ho
  rw [if_neg h4] at ho
  have e := Except.ok.inj ho
  rw [← e, lit_fin]
  refine NaNOr.fill ?_ (by norm_num) fillna
  unfold STC.run
  dsimp only
  generalize ssub (ema s fast fillna) (ema s slow fillna) = macd
  have hd := ema_nanOr (s := STC.stochOf macd cycle) (by omega : 1 ≤ s1) fillna
  revert hd
  generalize ema (STC.stochOf macd cycle) s1 fillna = d
  intro hd i hi
  have hi' : i < d.length := by simpa [STC.stochOf] using hi
  have hk : NaNOr (fun x => 0 ≤ x ∧ x ≤ 100) (STC.stochOf d cycle) := by
    intro j hj
    have hj' : j < d.length := by simpa [STC.stochOf] using hj
    unfold STC.stochOf
    dsimp only
    rw [ix_sdiv (by simpa using hj'), ix_cmul (by simpa using hj'), ix_ssub (by simpa using hj'), ix_ssub (by simpa using hj'), lit_fin]
    push_cast
    refine minmax_mem hj' (by norm_num) ?_
    rcases hd j hj' with e | ⟨x, e, _⟩
    · exact .inl e
    · exact .inr ⟨x, e⟩
  unfold ema
  rw [alphaOfSpan_fin]
  exact ewm_mem (convex_Icc 0 100) (span_pos s2) (span_le s2 (by omega)) _ (by simpa [STC.stochOf] using hi')
    fun j x _ hx => hk.allFin j x hx

example : (StochRSI.new (qs [10, 12, 11, 13, 12, 15]) 2 1 1).map (·.stochrsi)
    = .ok [.nan, .nan, .fin 0, .fin 1, .fin 0, .fin 1] := by decide +kernel
example : stc (qs [10, 12, 11, 13, 12, 15, 11, 12]) 2 1 2 2 1
    = .ok [.nan, .nan, .nan, .nan, .fin 0, .fin 100, .fin 0, .fin 100] := by decide +kernel

end TA
