import Verif.Props.C85
import Verif.Props.C27
import Verif.Props.C32
import Verif.Props.C34
import Verif.Props.C45
import Verif.Props.C23

/-!
# C86: bars that only rise, bars that only fall

A market in which high, low and close rise on every bar (or fall on every bar), as read by the indicators that take bars
and volumes.
-/

set_option linter.unusedSectionVars false

namespace TA
open Finset
variable {K : Type} [Field K] [LinearOrder K] [IsStrictOrderedRing K]

/-- bars whose high, low and close rise on every row -/
structure Rising (h l c : Nat → K) : Prop where
  high : ∀ i, h i < h (i + 1)
  low : ∀ i, l i < l (i + 1)
  close : ∀ i, c i < c (i + 1)
  bar : ∀ i, l i < h i ∧ l i ≤ c i ∧ c i ≤ h i
  pos : ∀ i, 0 < l i

/-- bars whose high, low and close fall on every row -/
structure Falling (h l c : Nat → K) : Prop where
  high : ∀ i, h (i + 1) < h i
  low : ∀ i, l (i + 1) < l i
  close : ∀ i, c (i + 1) < c i
  bar : ∀ i, l i < h i ∧ l i ≤ c i ∧ c i ≤ h i
  pos : ∀ i, 0 < l i

theorem fall_lt {x : Nat → K} (hx : ∀ i, x (i + 1) < x i) {i j : Nat} (h : i < j) : x j < x i :=
  strictAnti_nat_of_succ_lt hx h
theorem fall_le {x : Nat → K} (hx : ∀ i, x (i + 1) < x i) {i j : Nat} (h : i ≤ j) : x j ≤ x i :=
  (strictAnti_nat_of_succ_lt hx).antitone h

variable {n : Nat} {h l c v : Nat → K}

/-- every table of bars that rise on each of its rows is the start of bars that rise for ever -/
theorem rising_bars_extend (hn : 0 < n) (hh : ∀ i, i + 1 < n → h i < h (i + 1)) (hl : ∀ i, i + 1 < n → l i < l (i + 1))
    (hc : ∀ i, i + 1 < n → c i < c (i + 1)) (hb : ∀ i, i < n → l i < h i ∧ l i ≤ c i ∧ c i ≤ h i) (h0 : 0 < l 0) :
    Rising (carryOn n h) (carryOn n l) (carryOn n c) ∧ ser n (carryOn n h) = ser n h ∧ ser n (carryOn n l) = ser n l ∧
      ser n (carryOn n c) = ser n c := by
  have r := (rising_extends hn hl).1
  refine ⟨⟨(rising_extends hn hh).1, r, (rising_extends hn hc).1, fun i => ?_, fun i => ?_⟩,
    (rising_extends hn hh).2, (rising_extends hn hl).2, (rising_extends hn hc).2⟩
  · unfold carryOn
    by_cases hi : i < n
    · simp only [if_pos hi]; exact hb i hi
    · simp only [if_neg hi]
      obtain ⟨a, b, d⟩ := hb (n - 1) (by omega)
      exact ⟨by linarith, by linarith, by linarith⟩
  · have : carryOn n l 0 ≤ carryOn n l i := rise_le r (Nat.zero_le i)
    rw [show carryOn n l 0 = l 0 from if_pos hn] at this
    exact h0.trans_le this

/-- every table of positive bars that fall on each of its rows is the start of bars that fall for ever -/
theorem falling_bars_extend (hn : 0 < n) (hh : ∀ i, i + 1 < n → h (i + 1) < h i) (hl : ∀ i, i + 1 < n → l (i + 1) < l i)
    (hc : ∀ i, i + 1 < n → c (i + 1) < c i) (hb : ∀ i, i < n → l i < h i ∧ l i ≤ c i ∧ c i ≤ h i) (h0 : ∀ i, i < n → 0 < l i) :
    Falling (sinkOn n h) (sinkOn n l) (sinkOn n c) ∧ ser n (sinkOn n h) = ser n h ∧ ser n (sinkOn n l) = ser n l ∧
      ser n (sinkOn n c) = ser n c := by
  have fh := falling_extends hn hh fun i hi => (h0 i hi).trans (hb i hi).1
  have fl := falling_extends hn hl h0
  have fc := falling_extends hn hc fun i hi => (h0 i hi).trans_le (hb i hi).2.1
  refine ⟨⟨fh.1, fl.1, fc.1, fun i => ?_, fl.2.1⟩, fh.2.2, fl.2.2, fc.2.2⟩
  unfold sinkOn
  by_cases hi : i < n
  · simp only [if_pos hi]; exact hb i hi
  · simp only [if_neg hi]
    obtain ⟨a, b, d⟩ := hb (n - 1) (by omega)
    have hp : (0 : K) < ((i + 2 - n : ℕ) : K) := by exact_mod_cast (by omega : 0 < i + 2 - n)
    exact ⟨div_lt_div_of_pos_right a hp, div_le_div_of_nonneg_right b hp.le, div_le_div_of_nonneg_right d hp.le⟩

/-! ## Aroon -/

theorem oldestMax_rise {x : Nat → K} (hx : ∀ i, x i < x (i + 1)) {w i k : Nat} (hk : IsOldestMax x w i k) (hwi : w ≤ i) :
    k = w := by
  by_contra hne
  have h1 := hk.2.1 i (by omega) (le_refl _)
  have := hk.1
  exact absurd (rise_lt hx (show i - w + k < i by omega)) (not_lt.mpr h1)

theorem oldestMax_fall {x : Nat → K} (hx : ∀ i, x (i + 1) < x i) {w i k : Nat} (hk : IsOldestMax x w i k) : k = 0 := by
  by_contra hne
  have h1 := hk.2.1 (i - w) (le_refl _) (by omega)
  exact absurd (fall_lt hx (show i - w < i - w + k by omega)) (not_lt.mpr h1)

/-- C86. Aroon up is 100 and Aroon down 0 from row `w` on in a rising market, the other way round in a falling one. -/
theorem aroon_rising (hr : Rising h l c) {w : Nat} {fillna : Bool} {o : Aroon (Val K)} (hw : 1 ≤ w)
    (ho : Aroon.new (ser n h) (ser n l) w fillna = .ok o) {i : Nat} (hi : i < n) (hwi : w ≤ i) :
    ix o.aroonUp i = .fin 100 ∧ ix o.aroonDown i = .fin 0 ∧ ix o.aroonIndicator i = .fin 100 := by
  obtain ⟨ku, kd, hu, hd, d1, d2, d3⟩ := aroon_formula hw ho
  have e1 := oldestMax_rise hr.high (hu i) hwi
  have e2 := oldestMax_fall (x := fun j => -l j) (fun i => neg_lt_neg (hr.low i)) (hd i)
  have hp : (if fillna then 0 else w) ≤ i := by split_ifs <;> omega
  have hw0 : (w : K) ≠ 0 := by exact_mod_cast (by omega : w ≠ 0)
  rw [d1.val i hi hp, d2.val i hi hp, d3.val i hi hp, e1, e2]
  simp [hw0]

theorem aroon_falling (hr : Falling h l c) {w : Nat} {fillna : Bool} {o : Aroon (Val K)} (hw : 1 ≤ w)
    (ho : Aroon.new (ser n h) (ser n l) w fillna = .ok o) {i : Nat} (hi : i < n) (hwi : w ≤ i) :
    ix o.aroonUp i = .fin 0 ∧ ix o.aroonDown i = .fin 100 ∧ ix o.aroonIndicator i = .fin (-100) := by
  obtain ⟨ku, kd, hu, hd, d1, d2, d3⟩ := aroon_formula hw ho
  have e1 := oldestMax_fall hr.high (hu i)
  have e2 := oldestMax_rise (x := fun j => -l j) (fun i => neg_lt_neg (hr.low i)) (hd i) hwi
  have hp : (if fillna then 0 else w) ≤ i := by split_ifs <;> omega
  have hw0 : (w : K) ≠ 0 := by exact_mod_cast (by omega : w ≠ 0)
  rw [d1.val i hi hp, d2.val i hi hp, d3.val i hi hp, e1, e2]
  simp [hw0]

/-! ## ADX -/

theorem wil_zero {f : Nat → K} (hf : ∀ j, f j = 0) (w i : Nat) : wil f w i = 0 := by
  induction i with
  | zero => simp [wil, hf]
  | succ i ih => simp [wil, ih, hf]

theorem wil_pos {f : Nat → K} (hf : ∀ j, 1 ≤ j → 0 < f j) {w : Nat} (hw : 1 ≤ w) (i : Nat) : 0 < wil f w i := by
  have hw1 : (1 : K) ≤ w := by exact_mod_cast hw
  induction i with
  | zero => exact sum_pos (fun j hj => hf j (mem_Ico.mp hj).1) ⟨1, by simp; omega⟩
  | succ i ih =>
    have h1 : wil f w i / w ≤ wil f w i := div_le_self ih.le hw1
    have := hf (w + 1 + i) (by omega)
    rw [wil]; linarith

theorem wilMean_const (a : K) {w : Nat} (hw : 1 ≤ w) (i : Nat) : wilMean (fun _ => a) w i = a := by
  have hw0 : (w : K) ≠ 0 := by exact_mod_cast (by omega : w ≠ 0)
  induction i with
  | zero => simp [wilMean]; field_simp
  | succ i ih =>
    rw [wilMean, ih, Nat.cast_sub hw]
    field_simp
    push_cast
    ring

theorem dirIdx_one_sided {t p m : K} (ht : 0 < t) (hp : 0 < p) (hm : m = 0) :
    0 < dirInd t p ∧ dirInd t m = 0 := by
  subst hm
  unfold dirInd
  rw [if_neg ht.ne', if_neg ht.ne']
  exact ⟨by positivity, by simp⟩

theorem trv_pos (hb : ∀ i, l i < h i) (j : Nat) : 0 < trv h l c j := by
  unfold trv
  have := hb j
  have := le_max_left (h j) (c (j - 1))
  have := min_le_left (l j) (c (j - 1))
  linarith

/-- C86. In a rising market -DI is 0 on every row, +DI is positive after row `w` and ADX is 100 from row `2 * w - 1` on. -/
theorem adx_rising (hr : Rising h l c) {w : Nat} {fillna : Bool} {o : ADX (Val K)}
    (ho : ADX.new (ser n h) (ser n l) (ser n c) w fillna = .ok o) {i : Nat} (hi : i < n) :
    ix o.adxNeg i = .fin 0 ∧ (w < i → Reads o.adxPos i (0 < ·)) ∧
    ∀ out, o.adx = .ok out → 2 * w - 1 ≤ i → ix out i = .fin 100 := by
  obtain ⟨hw, -, -⟩ := adx_obj ho
  have hT : ∀ i, 0 < wil (trv h l c) w i := wil_pos (fun j _ => trv_pos (fun i => (hr.bar i).1) j) hw
  have hU : ∀ i, 0 < wil (dmUp h l) w i := wil_pos (fun j hj => by
    obtain ⟨k, rfl⟩ : ∃ k, j = k + 1 := ⟨j - 1, by omega⟩
    have := hr.high k
    have := hr.low k
    unfold dmUp
    rw [Nat.add_sub_cancel, if_pos ⟨by linarith, by linarith⟩]
    linarith) hw
  have hD : ∀ i, wil (dmDown h l) w i = 0 := wil_zero (fun j => by
    have : l (j - 1) ≤ l j := rise_le hr.low (by omega)
    unfold dmDown
    rw [if_neg (fun g => by linarith [g.2])]) w
  have hone := fun i => dirIdx_one_sided (hT i) (hU i) (hD i)
  obtain ⟨d1, d2⟩ := adx_di_formula ho
  refine ⟨?_, fun h1 => d1.reads hi (Nat.zero_le _) ?_, fun out ha h2 => ?_⟩
  · rw [d2.val i hi (Nat.zero_le _)]
    congr 1
    split_ifs
    · rfl
    · exact (hone _).2
  · rw [if_neg (by omega)]; exact (hone _).1
  · obtain ⟨-, d3⟩ := adx_formula (fun i => (hr.bar i).2.1) (fun i => (hr.bar i).2.2) ho ha
    have e : dirIdx h l c w = fun _ => 100 := by
      funext k
      have hp : 0 < plusDI h l c w k := (hone k).1
      have hm : minusDI h l c w k = 0 := (hone k).2
      unfold dirIdx
      rw [hm, add_zero, sub_zero, if_neg hp.ne', abs_of_pos hp, mul_div_assoc, div_self hp.ne', mul_one]
    rw [d3.val i hi (Nat.zero_le _), if_neg (by omega), e, wilMean_const _ hw]

/-- C86. In a falling market +DI is 0 on every row, -DI is positive after row `w` and ADX is 100 from row `2 * w - 1` on. -/
theorem adx_falling (hr : Falling h l c) {w : Nat} {fillna : Bool} {o : ADX (Val K)}
    (ho : ADX.new (ser n h) (ser n l) (ser n c) w fillna = .ok o) {i : Nat} (hi : i < n) :
    ix o.adxPos i = .fin 0 ∧ (w < i → Reads o.adxNeg i (0 < ·)) ∧
    ∀ out, o.adx = .ok out → 2 * w - 1 ≤ i → ix out i = .fin 100 := by
  obtain ⟨hw, -, -⟩ := adx_obj ho
  have hT : ∀ i, 0 < wil (trv h l c) w i := wil_pos (fun j _ => trv_pos (fun i => (hr.bar i).1) j) hw
  have hU : ∀ i, 0 < wil (dmDown h l) w i := wil_pos (fun j hj => by
    obtain ⟨k, rfl⟩ : ∃ k, j = k + 1 := ⟨j - 1, by omega⟩
    have := hr.high k
    have := hr.low k
    unfold dmDown
    rw [Nat.add_sub_cancel, if_pos ⟨by linarith, by linarith⟩]
    linarith) hw
  have hD : ∀ i, wil (dmUp h l) w i = 0 := wil_zero (fun j => by
    have : h j ≤ h (j - 1) := fall_le hr.high (by omega)
    unfold dmUp
    rw [if_neg (fun g => by linarith [g.2])]) w
  have hone := fun i => dirIdx_one_sided (hT i) (hU i) (hD i)
  obtain ⟨d1, d2⟩ := adx_di_formula ho
  refine ⟨?_, fun h1 => d2.reads hi (Nat.zero_le _) ?_, fun out ha h2 => ?_⟩
  · rw [d1.val i hi (Nat.zero_le _)]
    congr 1
    split_ifs
    · rfl
    · exact (hone _).2
  · rw [if_neg (by omega)]; exact (hone _).1
  · obtain ⟨-, d3⟩ := adx_formula (fun i => (hr.bar i).2.1) (fun i => (hr.bar i).2.2) ho ha
    have e : dirIdx h l c w = fun _ => 100 := by
      funext k
      have hp : 0 < minusDI h l c w k := (hone k).1
      have hm : plusDI h l c w k = 0 := (hone k).2
      unfold dirIdx
      rw [hm, zero_add, zero_sub, abs_neg, if_neg hp.ne', abs_of_pos hp, mul_div_assoc, div_self hp.ne', mul_one]
    rw [d3.val i hi (Nat.zero_le _), if_neg (by omega), e, wilMean_const _ hw]

/-! ## Vortex -/

/-- C86. The vortex difference is positive in a rising market and negative in a falling one, on every row with a value
except row 0. -/
theorem vortex_rising (hb : ∀ i, l i < h i) {w : Nat} (hw : 1 ≤ w) (fillna : Bool) {i : Nat} (hi : i < n) (h1 : 1 ≤ i)
    (hp : fillna = true ∨ w ≤ i) :
    (Rising h l c → Reads (vortexDiff (ser n h) (ser n l) (ser n c) w fillna) i (0 < ·)) ∧
    (Falling h l c → Reads (vortexDiff (ser n h) (ser n l) (ser n c) w fillna) i (· < 0)) := by
  obtain ⟨P, M, hP, hM, -, -, d⟩ := vortex_formula (n := n) (c := c) hb hw fillna
  have hpi : (if fillna then 0 else w) ≤ i := by
    rcases hp with rfl | hp
    · simp
    · split_ifs <;> omega
  have ht : 0 < ∑ j ∈ Ico (i + 1 - w) (i + 1), trP h l (prevOr n c 1) j := by
    refine sum_pos (fun j _ => ?_) ⟨i, by simp; omega⟩
    have h1 := le_max_left (h j) (prevOr n c 1 j)
    have h2 := min_le_left (l j) (prevOr n c 1 j)
    have := hb j
    unfold trP; linarith
  have ne : (Ico (max 1 (i + 1 - w)) (i + 1)).Nonempty := ⟨i, by simp; omega⟩
  refine ⟨fun hr => d.reads hi hpi ?_, fun hr => d.reads hi hpi ?_⟩
  · rw [hP, hM, ← sub_div]
    refine div_pos (sub_pos.mpr (sum_lt_sum_of_nonempty ne fun j hj => ?_)) ht
    rw [mem_Ico] at hj
    obtain ⟨k, rfl⟩ : ∃ k, j = k + 1 := ⟨j - 1, by omega⟩
    rw [Nat.add_sub_cancel]
    have := hr.high k; have := hr.low k; have := hb k; have := hb (k + 1)
    rw [abs_of_pos (show 0 < h (k + 1) - l k by linarith), abs_lt]
    constructor <;> linarith
  · rw [hP, hM, ← sub_div]
    refine div_neg_of_neg_of_pos (sub_neg.mpr (sum_lt_sum_of_nonempty ne fun j hj => ?_)) ht
    rw [mem_Ico] at hj
    obtain ⟨k, rfl⟩ : ∃ k, j = k + 1 := ⟨j - 1, by omega⟩
    rw [Nat.add_sub_cancel]
    have := hr.high k; have := hr.low k; have := hb k; have := hb (k + 1)
    rw [abs_of_neg (show l (k + 1) - h k < 0 by linarith), abs_lt]
    constructor <;> linarith

/-! ## means of the last rows: CCI and the awesome oscillator -/

/-- the mean of a rising sequence over the rows `b..i` is above its mean over the longer stretch `a..i` -/
theorem mean_rise {x : Nat → K} (hx : ∀ i, x i < x (i + 1)) {a b i : Nat} (hab : a < b) (hbi : b ≤ i) :
    (∑ j ∈ Ico a (i + 1), x j) / ((i + 1 - a : ℕ) : K) < (∑ j ∈ Ico b (i + 1), x j) / ((i + 1 - b : ℕ) : K) := by
  have h1 : ∑ j ∈ Ico a b, x j < ((b - a : ℕ) : K) * x b := by
    have := sum_lt_sum_of_nonempty (s := Ico a b) (f := x) (g := fun _ => x b) ⟨a, by simp [hab]⟩
      (fun j hj => rise_lt hx (mem_Ico.mp hj).2)
    simpa using this
  have h2 : ((i + 1 - b : ℕ) : K) * x b ≤ ∑ j ∈ Ico b (i + 1), x j := by
    have := sum_le_sum (s := Ico b (i + 1)) (f := fun _ => x b) (g := x) (fun j hj => rise_le hx (mem_Ico.mp hj).1)
    simpa using this
  have e : ∑ j ∈ Ico a (i + 1), x j = ∑ j ∈ Ico a b, x j + ∑ j ∈ Ico b (i + 1), x j :=
    (sum_Ico_consecutive x hab.le (by omega)).symm
  have pa : (0 : K) < ((b - a : ℕ) : K) := by exact_mod_cast (by omega : 0 < b - a)
  have pb : (0 : K) < ((i + 1 - b : ℕ) : K) := by exact_mod_cast (by omega : 0 < i + 1 - b)
  have el : ((i + 1 - a : ℕ) : K) = ((b - a : ℕ) : K) + ((i + 1 - b : ℕ) : K) := by
    exact_mod_cast (by omega : i + 1 - a = (b - a) + (i + 1 - b))
  rw [e, el, div_lt_div_iff₀ (by linarith) pb]
  nlinarith [mul_lt_mul_of_pos_right h1 pb, mul_le_mul_of_nonneg_right h2 pa.le]

theorem mean_fall {x : Nat → K} (hx : ∀ i, x (i + 1) < x i) {a b i : Nat} (hab : a < b) (hbi : b ≤ i) :
    (∑ j ∈ Ico b (i + 1), x j) / ((i + 1 - b : ℕ) : K) < (∑ j ∈ Ico a (i + 1), x j) / ((i + 1 - a : ℕ) : K) := by
  have := mean_rise (x := fun j => -x j) (fun i => neg_lt_neg (hx i)) hab hbi
  simp only [sum_neg_distrib, neg_div] at this
  linarith

theorem win_len (w i : Nat) : i + 1 - (i + 1 - w) = min w (i + 1) := by omega

/-- C86. With the fast window shorter than the slow one the awesome oscillator is positive in a rising market and negative
in a falling one, on every row with a value that the two windows see differently. -/
theorem ao_rising {w1 w2 : Nat} (h1 : 1 ≤ w1) (h12 : w1 < w2) (fillna : Bool) {i : Nat} (hi : i < n) (hw : w1 ≤ i)
    (hp : fillna = true ∨ w2 - 1 ≤ i) :
    (Rising h l c → Reads (awesomeOscillator (ser n h) (ser n l) w1 w2 fillna) i (0 < ·)) ∧
    (Falling h l c → Reads (awesomeOscillator (ser n h) (ser n l) w1 w2 fillna) i (· < 0)) := by
  have d := ao_formula n h l h1 (by omega : 1 ≤ w2) fillna
  have hpi : (if fillna then 0 else max w1 w2 - 1) ≤ i := by
    rcases hp with rfl | hp
    · simp
    · split_ifs <;> omega
  refine ⟨fun hr => d.reads hi hpi ?_, fun hr => d.reads hi hpi ?_⟩
  · have := mean_rise (x := fun j => (h j + l j) / 2) (fun i => by have := hr.high i; have := hr.low i; linarith)
      (show i + 1 - w2 < i + 1 - w1 by omega) (show i + 1 - w1 ≤ i by omega)
    rw [win_len, win_len] at this
    linarith
  · have := mean_fall (x := fun j => (h j + l j) / 2) (fun i => by have := hr.high i; have := hr.low i; linarith)
      (show i + 1 - w2 < i + 1 - w1 by omega) (show i + 1 - w1 ≤ i by omega)
    rw [win_len, win_len] at this
    linarith

/-- C86. CCI (window at least 2, positive constant) is positive in a rising market and negative in a falling one, on every
row with a value except row 0. -/
theorem cci_rising {w : Nat} (hw : 2 ≤ w) {k : K} (hk : 0 < k) (fillna : Bool) {i : Nat} (hi : i < n) (h1 : 1 ≤ i)
    (hp : fillna = true ∨ w - 1 ≤ i) :
    (Rising h l c → Reads (cci (ser n h) (ser n l) (ser n c) w (.fin k) fillna) i (0 < ·)) ∧
    (Falling h l c → Reads (cci (ser n h) (ser n l) (ser n c) w (.fin k) fillna) i (· < 0)) := by
  obtain ⟨T, A, M, hT, hA, hM, -, hv, -⟩ := cci_formula n h l c (by omega : 1 ≤ w) hk.ne' fillna
  have hm : (0 : K) < (min w (i + 1) : ℕ) := by exact_mod_cast (by omega : 0 < min w (i + 1))
  have M0 : ∀ d, 0 < |T i - d| → d = A i → 0 < M i := by
    rintro d hd rfl
    rw [hM]
    refine div_pos (sum_pos' (fun j _ => abs_nonneg _) ⟨i, by simp; omega, hd⟩) hm
  have last : (∑ j ∈ Ico i (i + 1), T j) / ((i + 1 - i : ℕ) : K) = T i := by simp
  refine ⟨fun hr => ?_, fun hr => ?_⟩
  · have g := mean_rise (x := T) (fun i => by
      have := hr.high i; have := hr.low i; have := hr.close i; rw [hT, hT]; linarith)
      (show i + 1 - w < i by omega) (le_refl i)
    rw [win_len, last, ← hA] at g
    have hM0 := M0 _ (abs_pos.mpr (sub_pos.mpr g).ne') rfl
    exact ⟨_, hv i hi hp hM0.ne', div_pos (sub_pos.mpr g) (mul_pos hk hM0)⟩
  · have g := mean_fall (x := T) (fun i => by
      have := hr.high i; have := hr.low i; have := hr.close i; rw [hT, hT]; linarith)
      (show i + 1 - w < i by omega) (le_refl i)
    rw [win_len, last, ← hA] at g
    have hM0 := M0 _ (abs_pos.mpr (sub_neg.mpr g).ne) rfl
    exact ⟨_, hv i hi hp hM0.ne', div_neg_of_neg_of_pos (sub_neg.mpr g) (mul_pos hk hM0)⟩

/-! ## Donchian and Ichimoku -/

theorem top_rise {x : Nat → K} (hx : ∀ i, x i < x (i + 1)) {w i : Nat} (hw : 1 ≤ w) {M : K}
    (hM : IsGreatest {y | ∃ j, j ≤ i ∧ i < j + w ∧ y = x j} M) : M = x i :=
  hM.unique ⟨⟨i, le_refl _, by omega, rfl⟩, by rintro _ ⟨j, hj, -, rfl⟩; exact rise_le hx hj⟩
theorem top_fall {x : Nat → K} (hx : ∀ i, x (i + 1) < x i) {w i : Nat} (hw : 1 ≤ w) {M : K}
    (hM : IsGreatest {y | ∃ j, j ≤ i ∧ i < j + w ∧ y = x j} M) : M = x (i + 1 - w) :=
  hM.unique ⟨⟨i + 1 - w, by omega, by omega, rfl⟩, by rintro _ ⟨j, hj, h2, rfl⟩; exact fall_le hx (by omega)⟩
theorem bottom_rise {x : Nat → K} (hx : ∀ i, x i < x (i + 1)) {w i : Nat} (hw : 1 ≤ w) {m : K}
    (hm : IsLeast {y | ∃ j, j ≤ i ∧ i < j + w ∧ y = x j} m) : m = x (i + 1 - w) :=
  hm.unique ⟨⟨i + 1 - w, by omega, by omega, rfl⟩, by rintro _ ⟨j, hj, h2, rfl⟩; exact rise_le hx (by omega)⟩
theorem bottom_fall {x : Nat → K} (hx : ∀ i, x (i + 1) < x i) {w i : Nat} (hw : 1 ≤ w) {m : K}
    (hm : IsLeast {y | ∃ j, j ≤ i ∧ i < j + w ∧ y = x j} m) : m = x i :=
  hm.unique ⟨⟨i, le_refl _, by omega, rfl⟩, by rintro _ ⟨j, hj, -, rfl⟩; exact fall_le hx hj⟩

/-- C86. In a rising market the upper Donchian band is the current high and the lower band the oldest low of the window,
in a falling market the upper band is the oldest high and the lower band the current low. -/
theorem donchian_rising {w : Nat} (hw : 1 ≤ w) {fillna : Bool} {o : Donchian (Val K)}
    (ho : Donchian.new (ser n h) (ser n l) (ser n c) w 0 fillna = .ok o) :
    (Rising h l c → Def o.hband n (if fillna then 0 else w - 1) h ∧
      Def o.lband n (if fillna then 0 else w - 1) (fun i => l (i + 1 - w))) ∧
    (Falling h l c → Def o.hband n (if fillna then 0 else w - 1) (fun i => h (i + 1 - w)) ∧
      Def o.lband n (if fillna then 0 else w - 1) l) := by
  obtain ⟨H, L, hH, hL, d1, d2, -⟩ := donchian_formula hw ho
  exact ⟨fun hr => ⟨d1.congr fun i hi _ => top_rise hr.high hw (hH i hi), d2.congr fun i hi _ => bottom_rise hr.low hw (hL i hi)⟩,
    fun hr => ⟨d1.congr fun i hi _ => top_fall hr.high hw (hH i hi), d2.congr fun i hi _ => bottom_fall hr.low hw (hL i hi)⟩⟩

/-- C86. Ichimoku with a conversion window shorter than the base window: in a rising market the conversion line is above
the base line, in a falling market below, on every row with a value that the two windows see differently. -/
theorem ichimoku_rising {w1 w2 : Nat} (h1 : 1 ≤ w1) (h12 : w1 < w2) (fillna : Bool) {i : Nat} (hi : i < n) (hwi : w1 ≤ i)
    (hp : fillna = true ∨ w2 - 1 ≤ i) :
    ∃ a b, ix (ichimokuConversionLine (ser n h) (ser n l) w1 fillna) i = .fin a ∧
      ix (ichimokuBaseLine (ser n h) (ser n l) w2 fillna) i = .fin b ∧
      (Rising h l c → b < a) ∧ (Falling h l c → a < b) := by
  obtain ⟨C, B, S, hC, hB, -, dC, dB, -, -⟩ := ichimoku_formula n h l h1 (by omega : 1 ≤ w2) (le_refl 1) fillna
  have p1 : (if fillna then 0 else w1 - 1) ≤ i := by
    rcases hp with rfl | hp
    · simp
    · split_ifs <;> omega
  have p2 : (if fillna then 0 else w2 - 1) ≤ i := by
    rcases hp with rfl | hp
    · simp
    · split_ifs <;> omega
  refine ⟨C i, B i, dC.val i hi p1, dB.val i hi p2, fun hr => ?_, fun hr => ?_⟩
  · obtain ⟨a, b, ha, hb, e⟩ := hC i
    obtain ⟨a', b', ha', hb', e'⟩ := hB i
    rw [e, e', top_rise hr.high h1 ha, top_rise hr.high (by omega) ha', bottom_rise hr.low h1 hb, bottom_rise hr.low (by omega) hb']
    have := rise_lt hr.low (show i + 1 - w2 < i + 1 - w1 by omega)
    linarith
  · obtain ⟨a, b, ha, hb, e⟩ := hC i
    obtain ⟨a', b', ha', hb', e'⟩ := hB i
    rw [e, e', top_fall hr.high h1 ha, top_fall hr.high (by omega) ha', bottom_fall hr.low h1 hb, bottom_fall hr.low (by omega) hb']
    have := fall_lt hr.high (show i + 1 - w2 < i + 1 - w1 by omega)
    linarith

/-! ## Parabolic SAR -/

/-- the state of the stop while the bars rise without overlapping -/
theorem sar_rise (hr : Rising h l c) (hgap : ∀ i, h i ≤ l (i + 1)) {step mx : K} (hs0 : 0 ≤ step) (hs1 : step ≤ 1)
    (hm0 : 0 ≤ mx) (hm1 : mx ≤ 1) (k : Nat) :
    let s := sarAt h l c step mx (k + 1)
    s.up = true ∧ 0 ≤ s.af ∧ s.af ≤ 1 ∧ s.sar ≤ h (k + 1) ∧ s.hi ≤ h (k + 1) ∧ (1 ≤ k → s.sar ≤ l (k + 1)) := by
  induction k with
  | zero => exact ⟨rfl, hs0, hs1, (hr.bar 1).2.2, (hr.high 0).le, fun h0 => absurd h0 (by omega)⟩
  | succ k ih =>
    obtain ⟨i1, i2, i3, i4, i5, -⟩ := ih
    show (Sar.next h l step mx (k + 2) (sarAt h l c step mx (k + 1))).up = true ∧ _
    simp only [show sarAt h l c step mx (k + 1 + 1) = Sar.next h l step mx (k + 2) (sarAt h l c step mx (k + 1)) from rfl]
    generalize sarAt h l c step mx (k + 1) = s at i1 i2 i3 i4 i5 ⊢
    obtain ⟨u, af, hi, lo, sar⟩ := s
    dsimp only at i1 i2 i3 i4 i5
    subst i1
    have hp : sar + af * (hi - sar) ≤ h (k + 1) := by
      have e : sar + af * (hi - sar) = (1 - af) * sar + af * hi := by ring
      have := mul_le_mul_of_nonneg_left i4 (sub_nonneg.mpr i3)
      have := mul_le_mul_of_nonneg_left i5 i2
      linarith
    have hl : sar + af * (hi - sar) ≤ l (k + 2) := hp.trans (hgap (k + 1))
    have hh := hr.high (k + 1)
    have hb := (hr.bar (k + 2)).1
    unfold Sar.next
    simp only [if_true, not_lt.mpr hl, if_false, true_and]
    have hsar : ∀ q : K, q ≤ l (k + 2) → (if l (k + 2 - 2) < q then l (k + 2 - 2) else if l (k + 2 - 1) < q then l (k + 2 - 1) else q)
        ≤ l (k + 2) := by
      intro q hq
      split_ifs
      · exact rise_le hr.low (by omega)
      · exact rise_le hr.low (by omega)
      · exact hq
    refine ⟨?_, ?_, (hsar _ hl).trans hb.le, max_le (i5.trans hh.le) (le_refl _), fun _ => hsar _ hl⟩
    · split_ifs
      · exact le_min (by linarith) hm0
      · exact i2
    · split_ifs
      · exact (min_le_right _ _).trans hm1
      · exact i3

/-- C86. Parabolic SAR with `0 ≤ step ≤ 1` and `0 ≤ max_step ≤ 1` while the bars rise without overlapping: every row from
2 on is an up row with the stop at or below the low, and none is a down row. -/
theorem psar_rising (hr : Rising h l c) (hgap : ∀ i, h i ≤ l (i + 1)) {step mx : K} (hs0 : 0 ≤ step) (hs1 : step ≤ 1)
    (hm0 : 0 ≤ mx) (hm1 : mx ≤ 1) {o : PSAR (Val K)}
    (ho : PSAR.new (ser n h) (ser n l) (ser n c) .positional (.fin step) (.fin mx) = .ok o) {i : Nat} (h2 : 2 ≤ i) (hi : i < n) :
    Reads o.psarUp i (· ≤ l i) ∧ ix o.psarDown i = .nan := by
  obtain ⟨-, ⟨-, r2⟩, ⟨-, r3⟩⟩ := psar_rows ho
  obtain ⟨k, rfl⟩ : ∃ k, i = k + 1 := ⟨i - 1, by omega⟩
  obtain ⟨a, -, -, -, -, b⟩ := sar_rise hr hgap hs0 hs1 hm0 hm1 k
  refine ⟨⟨_, by rw [r2 _ hi, if_pos ⟨h2, a⟩], b (by omega)⟩, ?_⟩
  rw [r3 _ hi, if_neg (fun g => by rw [a] at g; exact absurd g.2 (by simp))]

/-- the state of the stop while the bars fall without overlapping -/
theorem sar_fall (hr : Falling h l c) (hgap : ∀ i, h (i + 1) ≤ l i) {step mx : K} (hs0 : 0 ≤ step) (hs1 : step ≤ 1)
    (hm0 : 0 ≤ mx) (hm1 : mx ≤ 1) (k : Nat) :
    let s := sarAt h l c step mx (k + 2)
    s.up = false ∧ 0 ≤ s.af ∧ s.af ≤ 1 ∧ h (k + 2) ≤ s.sar ∧ l (k + 2) ≤ s.lo ∧ l (k + 2) ≤ s.sar := by
  induction k with
  | zero =>
    have hp : l 2 < c 1 + step * (h 0 - c 1) := by
      have h01 := hr.high 0
      have := (hr.bar 1).2.2
      have := mul_nonneg hs0 (show 0 ≤ h 0 - c 1 by linarith)
      have := (hr.bar 1).2.1
      have := hr.low 1
      linarith
    have e : sarAt h l c step mx (0 + 2) = ⟨false, step, h 0, l 2, h 0⟩ := by
      show Sar.next h l step mx 2 ⟨true, step, h 0, l 0, c 1⟩ = _
      unfold Sar.next
      simp [hp]
    rw [e]
    have h20 : h 2 ≤ h 0 := fall_le hr.high (by omega)
    exact ⟨rfl, hs0, hs1, h20, le_refl _, (hr.bar 2).1.le.trans h20⟩
  | succ k ih =>
    obtain ⟨i1, i2, i3, i4, i5, i6⟩ := ih
    simp only [show sarAt h l c step mx (k + 1 + 2) = Sar.next h l step mx (k + 3) (sarAt h l c step mx (k + 2)) from rfl]
    generalize sarAt h l c step mx (k + 2) = s at i1 i2 i3 i4 i5 i6 ⊢
    obtain ⟨u, af, hi, lo, sar⟩ := s
    dsimp only at i1 i2 i3 i4 i5 i6
    subst i1
    have hp : l (k + 2) ≤ sar - af * (sar - lo) := by
      have e : sar - af * (sar - lo) = (1 - af) * sar + af * lo := by ring
      have := mul_le_mul_of_nonneg_left i6 (sub_nonneg.mpr i3)
      have := mul_le_mul_of_nonneg_left i5 i2
      linarith
    have hl : h (k + 3) ≤ sar - af * (sar - lo) := (hgap (k + 2)).trans hp
    have hlow := hr.low (k + 2)
    have hb := (hr.bar (k + 3)).1
    unfold Sar.next
    simp only [Bool.false_eq_true, if_false, not_lt.mpr hl, true_and]
    have hsar : ∀ q : K, h (k + 3) ≤ q → h (k + 3) ≤ (if q < h (k + 3 - 2) then h (k + 3 - 2) else if q < h (k + 3 - 1) then h (k + 3 - 1) else q) := by
      intro q hq
      split_ifs
      · exact fall_le hr.high (by omega)
      · exact fall_le hr.high (by omega)
      · exact hq
    refine ⟨?_, ?_, hsar _ hl, le_min (hlow.le.trans i5) (le_refl _), hb.le.trans (hsar _ hl)⟩
    · split_ifs
      · exact le_min (by linarith) hm0
      · exact i2
    · split_ifs
      · exact (min_le_right _ _).trans hm1
      · exact i3

/-- C86. While the bars fall without overlapping every row from 2 on is a down row with the stop at or above the high. -/
theorem psar_falling (hr : Falling h l c) (hgap : ∀ i, h (i + 1) ≤ l i) {step mx : K} (hs0 : 0 ≤ step) (hs1 : step ≤ 1)
    (hm0 : 0 ≤ mx) (hm1 : mx ≤ 1) {o : PSAR (Val K)}
    (ho : PSAR.new (ser n h) (ser n l) (ser n c) .positional (.fin step) (.fin mx) = .ok o) {i : Nat} (h2 : 2 ≤ i) (hi : i < n) :
    Reads o.psarDown i (h i ≤ ·) ∧ ix o.psarUp i = .nan := by
  obtain ⟨-, ⟨-, r2⟩, ⟨-, r3⟩⟩ := psar_rows ho
  obtain ⟨k, rfl⟩ : ∃ k, i = k + 2 := ⟨i - 2, by omega⟩
  obtain ⟨a, -, -, b, -, -⟩ := sar_fall hr hgap hs0 hs1 hm0 hm1 k
  refine ⟨⟨_, by rw [r3 _ hi, if_pos ⟨h2, a⟩], b⟩, ?_⟩
  rw [r2 _ hi, if_neg (fun g => by rw [a] at g; exact absurd g.2 (by simp))]

/-! ## volume -/

/-- C86. The money flow index (without filling) is 100 in a rising market with positive volumes, 0 in a falling one, from
the first row with a full window on (row 1 at the earliest). -/
theorem mfi_rising (hv : ∀ i, 0 < v i) {w : Nat} (hw : 1 ≤ w) {i : Nat} (hi : i < n) (h1 : 1 ≤ i) (hwi : w - 1 ≤ i) :
    (Rising h l c → ix (moneyFlowIndex (ser n h) (ser n l) (ser n c) (ser n v) w) i = .fin 100) ∧
    (Falling h l c → ix (moneyFlowIndex (ser n h) (ser n l) (ser n c) (ser n v) w) i = .fin 0) := by
  obtain ⟨e, -, -, hrow⟩ := mfi_formula n h l c v w false hw
  rw [e, noFill, hrow i hi (Or.inr hwi)]
  beta_reduce
  have mem : i ∈ Ico (i + 1 - w) (i + 1) := by simp; omega
  constructor
  · intro hr
    have hT : ∀ i, (h i + l i + c i) / 3 < (h (i + 1) + l (i + 1) + c (i + 1)) / 3 := fun i => by
      have := hr.high i; have := hr.low i; have := hr.close i; linarith
    have hT0 : ∀ i, 0 < (h i + l i + c i) / 3 := fun i => by
      have := hr.pos i; have := (hr.bar i).1; have := (hr.bar i).2.1; linarith
    have hm : ∀ j, 1 ≤ j → 0 < mflow (fun i => (h i + l i + c i) / 3) v j := fun j hj => by
      obtain ⟨k, rfl⟩ : ∃ k, j = k + 1 := ⟨j - 1, by omega⟩
      unfold mflow
      rw [if_neg (by omega), Nat.add_sub_cancel, if_pos (hT k)]
      exact mul_pos (hT0 _) (hv _)
    have hm0 : ∀ j, 0 ≤ mflow (fun i => (h i + l i + c i) / 3) v j := fun j => by
      rcases Nat.eq_zero_or_pos j with rfl | hj
      · simp [mflow]
      · exact (hm j hj).le
    have hN : ∑ j ∈ Ico (i + 1 - w) (i + 1), max (-mflow (fun i => (h i + l i + c i) / 3) v j) 0 = 0 :=
      sum_eq_zero fun j _ => max_eq_right (by linarith [hm0 j])
    have hP : 0 < ∑ j ∈ Ico (i + 1 - w) (i + 1), max (mflow (fun i => (h i + l i + c i) / 3) v j) 0 :=
      sum_pos' (fun j _ => le_max_right _ _) ⟨i, mem, lt_max_of_lt_left (hm i h1)⟩
    rw [hN, add_zero, if_neg hP.ne', mul_div_assoc, div_self hP.ne', mul_one]
  · intro hr
    have hT : ∀ i, (h (i + 1) + l (i + 1) + c (i + 1)) / 3 < (h i + l i + c i) / 3 := fun i => by
      have := hr.high i; have := hr.low i; have := hr.close i; linarith
    have hT0 : ∀ i, 0 < (h i + l i + c i) / 3 := fun i => by
      have := hr.pos i; have := (hr.bar i).1; have := (hr.bar i).2.1; linarith
    have hm : ∀ j, 1 ≤ j → mflow (fun i => (h i + l i + c i) / 3) v j < 0 := fun j hj => by
      obtain ⟨k, rfl⟩ : ∃ k, j = k + 1 := ⟨j - 1, by omega⟩
      unfold mflow
      rw [if_neg (by omega), Nat.add_sub_cancel, if_neg (not_lt.mpr (hT k).le), if_pos (hT k)]
      exact neg_neg_of_pos (mul_pos (hT0 _) (hv _))
    have hm0 : ∀ j, mflow (fun i => (h i + l i + c i) / 3) v j ≤ 0 := fun j => by
      rcases Nat.eq_zero_or_pos j with rfl | hj
      · simp [mflow]
      · exact (hm j hj).le
    have hP : ∑ j ∈ Ico (i + 1 - w) (i + 1), max (mflow (fun i => (h i + l i + c i) / 3) v j) 0 = 0 :=
      sum_eq_zero fun j _ => max_eq_right (hm0 j)
    have hN : 0 < ∑ j ∈ Ico (i + 1 - w) (i + 1), max (-mflow (fun i => (h i + l i + c i) / 3) v j) 0 :=
      sum_pos' (fun j _ => le_max_right _ _) ⟨i, mem, lt_max_of_lt_left (by linarith [hm i h1])⟩
    rw [hP, zero_add, if_neg hN.ne', mul_zero, zero_div]

/-- C86. On-balance volume is the total volume so far while the closes rise, and the first volume minus all later ones
while they fall. -/
theorem obv_rising (n : Nat) (c v : Nat → K) (fillna : Bool) :
    ((∀ i, c i < c (i + 1)) → Def (onBalanceVolume (ser n c) (ser n v) fillna) n 0 (fun i => ∑ j ∈ range (i + 1), v j)) ∧
    ((∀ i, c (i + 1) < c i) → Def (onBalanceVolume (ser n c) (ser n v) fillna) n 0 (fun i => 2 * v 0 - ∑ j ∈ range (i + 1), v j)) := by
  have d := obv_formula n c v fillna
  refine ⟨fun hc => d.congr fun i _ _ => sum_congr rfl fun j _ => ?_, fun hc => d.congr fun i _ _ => ?_⟩
  · rw [if_neg (fun g => absurd g.2 (not_lt.mpr (rise_le hc (by omega))))]
  · rw [sum_range_succ', sum_range_succ' (f := v)]
    have : ∀ j ∈ range i, (if 0 < j + 1 ∧ c (j + 1) < c (j + 1 - 1) then -v (j + 1) else v (j + 1)) = -v (j + 1) :=
      fun j _ => if_pos ⟨by omega, by rw [Nat.add_sub_cancel]; exact hc j⟩
    rw [sum_congr rfl this, sum_neg_distrib]
    simp
    ring

/-- C86. Volume-price trend (from row 1 on) is positive and growing while the closes rise, negative and shrinking while
they fall, for positive closes and volumes. -/
theorem vpt_rising (hpos : ∀ i, 0 < c i) (hv : ∀ i, 0 < v i) {i : Nat} (h1 : 1 ≤ i) (hi : i < n) :
    ((∀ i, c i < c (i + 1)) → Reads (volumePriceTrend (ser n c) (ser n v)) i (0 < ·)) ∧
    ((∀ i, c (i + 1) < c i) → Reads (volumePriceTrend (ser n c) (ser n v)) i (· < 0)) := by
  have d := vpt_formula n v fun i => (hpos i).ne'
  have ne : (Ico 1 (i + 1)).Nonempty := ⟨i, by simp; omega⟩
  refine ⟨fun hc => d.reads hi h1 (sum_pos (fun j hj => mul_pos (hv j) (sub_pos.mpr ((one_lt_div (hpos _)).mpr ?_))) ne),
    fun hc => d.reads hi h1 (sum_neg (fun j hj => mul_neg_of_pos_of_neg (hv j) (sub_neg.mpr ((div_lt_one (hpos _)).mpr ?_))) ne)⟩
  · have := (mem_Ico.mp hj).1
    exact rise_lt hc (by omega)
  · have := (mem_Ico.mp hj).1
    exact fall_lt hc (by omega)

/-- C86. The force index is positive wherever it has a value while the closes rise, negative while they fall. -/
theorem forceIndex_rising (n : Nat) (hv : ∀ i, 0 < v i) {w : Nat} (hw : 1 ≤ w) :
    ∃ out, forceIndex (ser n c) (ser n v) w = .ok out ∧ ∀ i, w ≤ i → i < n →
      ((∀ i, c i < c (i + 1)) → Reads out i (0 < ·)) ∧ ((∀ i, c (i + 1) < c i) → Reads out i (· < 0)) := by
  obtain ⟨out, ho, d⟩ := forceIndex_formula n c v hw
  refine ⟨out, ho, fun i hwi hi => ⟨fun hc => d.reads hi hwi ?_, fun hc => d.reads hi hwi ?_⟩⟩
  · exact emaRec_pos_all (span_pos w) (span_le w hw) fun j _ => mul_pos (sub_pos.mpr (hc j)) (hv _)
  · have := emaRec_pos_all (span_pos w) (span_le w hw) (f := fun j => -((c (j + 1) - c j) * v (j + 1))) (i := i - 1)
      fun j _ => by
        have := mul_pos (sub_pos.mpr (hc j)) (hv (j + 1))
        linarith
    rw [emaRec_neg] at this
    linarith

/-- C86. Ease of movement is positive from row 1 on in a rising market, negative in a falling one. -/
theorem eom_rising (hv : ∀ i, 0 < v i) {i : Nat} (h1 : 1 ≤ i) (hi : i < n) :
    (Rising h l c → Reads (easeOfMovement (ser n h) (ser n l) (ser n v)) i (0 < ·)) ∧
    (Falling h l c → Reads (easeOfMovement (ser n h) (ser n l) (ser n v)) i (· < 0)) := by
  have d := eom_formula n h l v fun i => (hv i).ne'
  refine ⟨fun hr => d.reads hi h1 ?_, fun hr => d.reads hi h1 ?_⟩
  · have := rise_lt hr.high (show i - 1 < i by omega)
    have := rise_lt hr.low (show i - 1 < i by omega)
    exact mul_pos (div_pos (mul_pos (by linarith) (sub_pos.mpr (hr.bar i).1)) (hv i)) (by norm_num)
  · have := fall_lt hr.high (show i - 1 < i by omega)
    have := fall_lt hr.low (show i - 1 < i by omega)
    exact mul_neg_of_neg_of_pos (div_neg_of_neg_of_pos (mul_neg_of_neg_of_pos (by linarith) (sub_pos.mpr (hr.bar i).1)) (hv i))
      (by norm_num)

/-- C86. The negative volume index never falls while positive closes rise, and never rises while they fall. -/
theorem nvi_rising (hn : 0 < n) (hpos : ∀ i, 0 < c i) (v : Nat → K) (fillna : Bool) :
    ∃ out, negativeVolumeIndex (ser n c) (ser n v) fillna = .ok out ∧ ∀ i, i + 1 < n → ∃ a b, ix out i = .fin a ∧
      ix out (i + 1) = .fin b ∧ 0 < a ∧ ((∀ i, c i < c (i + 1)) → a ≤ b) ∧ ((∀ i, c (i + 1) < c i) → b ≤ a) := by
  obtain ⟨out, ho, d⟩ := nvi_formula hn v (fun i => (hpos i).ne') fillna
  have pos : ∀ i, 0 < nvi c v i := by
    intro i
    induction i with
    | zero => simp [nvi]
    | succ i ih =>
      rw [nvi]
      split_ifs
      · exact mul_pos ih (div_pos (hpos _) (hpos _))
      · exact ih
  refine ⟨out, ho, fun i hi => ⟨_, _, d.val i (by omega) (Nat.zero_le _), d.val (i + 1) hi (Nat.zero_le _), pos i, fun hc => ?_, fun hc => ?_⟩⟩
  · rw [nvi]
    split_ifs
    · exact le_mul_of_one_le_right (pos i).le ((one_le_div (hpos _)).mpr (hc i).le)
    · exact le_refl _
  · rw [nvi]
    split_ifs
    · exact mul_le_of_le_one_right (pos i).le ((div_le_one (hpos _)).mpr (hc i).le)
    · exact le_refl _

/-! ## a run -/

/-- bars `[2i+1, 2i+3]` closing in the middle -/
theorem rising_bars : Rising (fun i => (2 * i + 3 : ℚ)) (fun i => (2 * i + 1 : ℚ)) (fun i => (2 * i + 2 : ℚ)) where
  high i := by push_cast; linarith
  low i := by push_cast; linarith
  close i := by push_cast; linarith
  bar i := ⟨by linarith, by linarith, by linarith⟩
  pos i := by positivity

example : ((ADX.new (qs [3, 5, 7, 9, 11]) (qs [1, 3, 5, 7, 9]) (qs [2, 4, 6, 8, 10]) 2).toOption.map fun o =>
    (o.adxPos, o.adxNeg, o.adx.toOption))
    = some (qs [0, 0, 0, 200 / 3, 200 / 3], qs [0, 0, 0, 0, 0], some (qs [0, 0, 0, 100, 100])) := by decide +kernel

example : ((Aroon.new (qs [3, 5, 7, 9]) (qs [1, 3, 5, 7]) 2).toOption.map fun o => (o.aroonUp, o.aroonDown, o.aroonIndicator))
    = some ([.nan, .nan, .fin 100, .fin 100], [.nan, .nan, .fin 0, .fin 0], [.nan, .nan, .fin 100, .fin 100]) := by
  decide +kernel

example : moneyFlowIndex (qs [3, 5, 7, 9]) (qs [1, 3, 5, 7]) (qs [2, 4, 6, 8]) (qs [5, 5, 6, 1]) 2
    = [.nan, .fin 100, .fin 100, .fin 100] ∧
    moneyFlowIndex (qs [9, 7, 5, 3]) (qs [7, 5, 3, 1]) (qs [8, 6, 4, 2]) (qs [5, 5, 6, 1]) 2
    = [.nan, .fin 0, .fin 0, .fin 0] := by decide +kernel

example : awesomeOscillator (qs [3, 5, 7, 9]) (qs [1, 3, 5, 7]) 1 3 = [.nan, .nan, .fin 2, .fin 2] ∧
    awesomeOscillator (qs [3, 5, 7, 9]) (qs [1, 3, 5, 7]) 1 3 true = [.fin 0, .fin 1, .fin 2, .fin 2] := by decide +kernel

/-- the bars must not overlap: here every high, low and close rises, and the stop still turns down on row 3 -/
theorem psar_overlap : ((PSAR.new (qs [3, 4, 5, 6]) (qs [1, 2, 3, 4]) (qs [2, 3, 4, 5]) .positional (.fin 1) (.fin 1)).toOption.map
    fun o => (o.psarUp, o.psarDown)) = some ([.nan, .nan, .fin 1, .nan], [.nan, .nan, .nan, .fin 5]) := by decide +kernel

example : ((PSAR.new (qs [3, 5, 7, 9]) (qs [1, 3, 5, 7]) (qs [2, 4, 6, 8]) .positional (.fin (1 / 50)) (.fin (1 / 5))).toOption.map
    fun o => o.psarDown) = some [.nan, .nan, .nan, .nan] := by decide +kernel

end TA
