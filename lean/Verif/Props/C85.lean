import Verif.Props.C61
import Verif.Props.C40
import Verif.Props.C42
import Verif.Props.C49
import Verif.Props.C30
import Verif.Lemmas.Take
import Verif.Lemmas.Toy

/-!
# C85: closes that only rise, closes that only fall

What the momentum and trend indicators read off a close series that rises (or falls) on every row.
-/

set_option linter.unusedSectionVars false

namespace TA
open Finset
variable {K : Type} [Field K] [LinearOrder K] [IsStrictOrderedRing K]

/-- row `i` of the output is a number with the property `P` -/
def Reads (s : Series (Val K)) (i : Nat) (P : K → Prop) : Prop := ∃ x, ix s i = .fin x ∧ P x

theorem Def.reads {s : Series (Val K)} {n p : Nat} {f : Nat → K} (h : Def s n p f) {i : Nat} (hi : i < n) (hp : p ≤ i)
    {P : K → Prop} (hP : P (f i)) : Reads s i P := ⟨_, h.val i hi hp, hP⟩

/-- a column of `n` rows continued for ever by rising by 1 on each further row -/
def carryOn (n : Nat) (x : Nat → K) (i : Nat) : K := if i < n then x i else x (n - 1) + ((i + 1 - n : ℕ) : K)
/-- a column of `n` rows continued for ever by falling towards 0 -/
def sinkOn (n : Nat) (x : Nat → K) (i : Nat) : K := if i < n then x i else x (n - 1) / ((i + 2 - n : ℕ) : K)

theorem ser_congr {n : Nat} {x y : Nat → K} (h : ∀ i, i < n → x i = y i) : ser n x = ser n y :=
  series_ext (by simp [ser]) fun i hi => by
    have hi' : i < n := by simpa [ser] using hi
    rw [(def_ser n y).val i hi' (Nat.zero_le _), (def_ser n x).val i hi' (Nat.zero_le _), h i hi']

/-- every column that rises (falls, with positive values) on each of its rows is the start of a sequence that does so for
ever, so that the theorems below apply to it -/
theorem rising_extends {n : Nat} (hn : 0 < n) {x : Nat → K} (hx : ∀ i, i + 1 < n → x i < x (i + 1)) :
    (∀ i, carryOn n x i < carryOn n x (i + 1)) ∧ ser n (carryOn n x) = ser n x := by
  have hy : ∀ i, carryOn n x i < carryOn n x (i + 1) := by
    intro i
    unfold carryOn
    rcases Nat.lt_or_ge (i + 1) n with h1 | h1
    · rw [if_pos (by omega), if_pos h1]; exact hx i h1
    · rw [if_neg (show ¬ i + 1 < n by omega)]
      rcases Nat.lt_or_ge i n with h2 | h2
      · rw [if_pos h2, show n - 1 = i by omega, show i + 1 + 1 - n = 1 by omega]; simp
      · rw [if_neg (by omega), show i + 1 + 1 - n = (i + 1 - n) + 1 by omega]; push_cast; linarith
  exact ⟨hy, ser_congr fun i hi => if_pos hi⟩

theorem falling_extends {n : Nat} (hn : 0 < n) {x : Nat → K} (hx : ∀ i, i + 1 < n → x (i + 1) < x i) (h0 : ∀ i, i < n → 0 < x i) :
    (∀ i, sinkOn n x (i + 1) < sinkOn n x i) ∧ (∀ i, 0 < sinkOn n x i) ∧ ser n (sinkOn n x) = ser n x := by
  have hl := h0 (n - 1) (by omega)
  refine ⟨fun i => ?_, fun i => ?_, ser_congr fun i hi => if_pos hi⟩
  · unfold sinkOn
    rcases Nat.lt_or_ge (i + 1) n with h1 | h1
    · rw [if_pos h1, if_pos (by omega)]; exact hx i h1
    · rw [if_neg (show ¬ i + 1 < n by omega)]
      rcases Nat.lt_or_ge i n with h2 | h2
      · rw [if_pos h2, show i = n - 1 by omega, show n - 1 + 1 + 2 - n = 2 by omega]; push_cast; linarith
      · rw [if_neg (by omega)]
        refine div_lt_div_of_pos_left hl ?_ ?_
        · exact_mod_cast (by omega : 0 < i + 2 - n)
        · exact_mod_cast (by omega : i + 2 - n < i + 1 + 2 - n)
  · unfold sinkOn
    split_ifs with h
    · exact h0 i h
    · exact div_pos hl (by exact_mod_cast (by omega : 0 < i + 2 - n))

/-! ## exponential means of a rising sequence -/

theorem rise_lt {x : Nat → K} (hx : ∀ i, x i < x (i + 1)) {i j : Nat} (h : i < j) : x i < x j :=
  strictMono_nat_of_lt_succ hx h
theorem rise_le {x : Nat → K} (hx : ∀ i, x i < x (i + 1)) {i j : Nat} (h : i ≤ j) : x i ≤ x j :=
  (strictMono_nat_of_lt_succ hx).monotone h

theorem emaRec_le_last {a : K} (ha1 : a ≤ 1) {f : Nat → K} (hf : ∀ i, f i < f (i + 1)) (i : Nat) :
    emaRec a f i ≤ f i := by
  induction i with
  | zero => exact le_refl _
  | succ i ih =>
    rw [emaRec]
    have := hf i
    nlinarith [mul_nonneg (sub_nonneg.mpr ha1) (sub_nonneg.mpr (ih.trans this.le))]

theorem emaRec_rise {a : K} (ha : 0 < a) (ha1 : a ≤ 1) {f : Nat → K} (hf : ∀ i, f i < f (i + 1)) (i : Nat) :
    emaRec a f i < emaRec a f (i + 1) := by
  have h1 := emaRec_le_last ha1 hf i
  have h2 := mul_pos ha (sub_pos.mpr (h1.trans_lt (hf i)))
  rw [emaRec]
  linarith

/-- the faster mean is above the slower one -/
theorem emaRec_fast {a b : K} (hba : b < a) (ha1 : a ≤ 1) {f : Nat → K} (hf : ∀ i, f i < f (i + 1)) (i : Nat) :
    emaRec b f (i + 1) < emaRec a f (i + 1) := by
  have key : ∀ i, emaRec b f i ≤ emaRec a f i → emaRec b f (i + 1) < emaRec a f (i + 1) := by
    intro i ih
    have h1 := emaRec_le_last (hba.le.trans ha1) hf i
    have h2 := mul_pos (sub_pos.mpr hba) (sub_pos.mpr (h1.trans_lt (hf i)))
    have h3 := mul_nonneg (sub_nonneg.mpr ha1) (sub_nonneg.mpr ih)
    rw [emaRec, emaRec]
    linarith
  induction i with
  | zero => exact key 0 (le_refl _)
  | succ i ih => exact key _ ih.le

theorem span_lt {fast slow : Nat} (h : fast < slow) : (2 : K) / ((slow : K) + 1) < 2 / ((fast : K) + 1) := by
  have h1 : (0 : K) < (fast : K) + 1 := by positivity
  have h2 : ((fast : K) + 1) < (slow : K) + 1 := by
    have : (fast : K) < slow := by exact_mod_cast h
    linarith
  exact div_lt_div_of_pos_left (by norm_num) h1 h2

theorem emaRec_fast_fall {a b : K} (hba : b < a) (ha1 : a ≤ 1) {f : Nat → K} (hf : ∀ i, f (i + 1) < f i) (i : Nat) :
    emaRec a f (i + 1) < emaRec b f (i + 1) := by
  have := emaRec_fast hba ha1 (f := fun j => -f j) (fun i => neg_lt_neg (hf i)) i
  rw [emaRec_neg, emaRec_neg] at this
  linarith

/-! ## RSI, StochRSI, TSI -/

/-- C85. RSI of closes that rise on every row is 100 wherever it has a value. -/
theorem rsi_rising (n : Nat) {x : Nat → K} (hx : ∀ i, x i < x (i + 1)) {w : Nat} (hw : 1 ≤ w) (fillna : Bool) :
    ∃ out, rsi (ser n x) w fillna = .ok out ∧ Def out n (if fillna then 0 else w - 1) (fun _ => 100) := by
  obtain ⟨U, D, -, d0, -, d1, -, out, ho, hd, -⟩ := rsi_formula n x w hw fillna
  have hD : ∀ i, D i = 0 := by
    intro i
    induction i with
    | zero => exact d0
    | succ i ih => rw [d1, ih, max_eq_right (by linarith [hx i])]; ring
  exact ⟨out, ho, hd.congr fun i _ _ => by rw [if_pos (hD i)]⟩

/-- C85. RSI of closes that fall on every row is 0 wherever it has a value, except that a value on row 0 (with filling or
window 1) is 100: there has been no change yet. -/
theorem rsi_falling (n : Nat) {x : Nat → K} (hx : ∀ i, x (i + 1) < x i) {w : Nat} (hw : 1 ≤ w) (fillna : Bool) :
    ∃ out, rsi (ser n x) w fillna = .ok out ∧
      Def out n (if fillna then 0 else w - 1) (fun i => if i = 0 then 100 else 0) := by
  obtain ⟨U, D, u0, d0, u1, d1, -, out, ho, hd, -⟩ := rsi_formula n x w hw fillna
  have hU : ∀ i, U i = 0 := by
    intro i
    induction i with
    | zero => exact u0
    | succ i ih => rw [u1, ih, max_eq_right (by linarith [hx i])]; ring
  have hD : ∀ i, 0 ≤ D i → 0 < D (i + 1) := by
    intro i h
    have := mul_nonneg (sub_nonneg.mpr (wilder_le (K := K) w hw)) h
    have h2 := mul_pos (wilder_pos (K := K) w hw) (sub_pos.mpr (hx i))
    rw [d1, max_eq_left (by linarith [hx i])]
    linarith
  have hD0 : ∀ i, 0 < D (i + 1) := by
    intro i
    induction i with
    | zero => exact hD 0 d0.ge
    | succ i ih => exact hD _ ih.le
  refine ⟨out, ho, hd.congr fun i _ _ => ?_⟩
  cases i with
  | zero => simp [d0]
  | succ i => simp [(hD0 i).ne', hU]

/-- C85. StochRSI, its %K and %D have no value at all while the closes only rise: RSI is constant and the ratio is 0/0. -/
theorem stochrsi_rising {n : Nat} {x : Nat → K} (hx : ∀ i, x i < x (i + 1)) {w s1 s2 : Nat} (hw : 1 ≤ w) (h1 : 1 ≤ s1)
    (h2 : 1 ≤ s2) {o : StochRSI (Val K)} (ho : StochRSI.new (ser n x) w s1 s2 = .ok o) {i : Nat} (hi : i < n) :
    ix o.stochrsi i = .nan ∧ ix o.stochrsiK i = .nan ∧ ix o.stochrsiD i = .nan := by
  obtain ⟨r, hr, hd⟩ := rsi_rising n hx hw false
  have hl : (ser n x).length = n := by simp [ser]
  have a : ∀ i, i < n → ix o.stochrsi i = .nan := by
    intro i hi
    obtain ⟨f1, f2, -, -⟩ := stochrsi_formula h1 h2 hr ho (i := i) (by omega)
    by_cases hc : w ≤ i + 1 ∧ ∀ j, j ≤ i → i < j + w → (ix r j).IsFin
    · obtain ⟨M, m, hM, hm, e⟩ := f1 (fun _ => 100) hc.1 (fun j h3 h4 => by
        by_contra hne
        rcases Nat.lt_or_ge j (w - 1) with h5 | h5
        · have := hd.gap j (by omega) (by simpa using h5)
          have g := hc.2 j h3 h4
          rw [this] at g
          exact absurd g (by simp [Val.IsFin])
        · exact hne (hd.val j (by omega) (by simpa using h5)))
      obtain ⟨⟨_, -, -, e1⟩, -⟩ := hM
      obtain ⟨⟨_, -, -, e2⟩, -⟩ := hm
      rw [e, if_pos (e1.trans e2.symm)]
    · exact f2 hc
  have nf : ¬ (Val.nan : Val K).IsFin := by simp [Val.IsFin]
  have b : ∀ i, i < n → ix o.stochrsiK i = .nan := by
    intro i hi
    refine (stochrsi_formula h1 h2 hr ho (i := i) (by omega)).2.2.1.2 fun hc => nf ?_
    rw [← a i hi]; exact hc.2 i (le_refl _) (by omega)
  refine ⟨a i hi, b i hi, (stochrsi_formula h1 h2 hr ho (i := i) (by omega)).2.2.2.2 fun hc => nf ?_⟩
  rw [← b i hi]; exact hc.2 i (le_refl _) (by omega)

/-- C85. TSI of closes that rise on every row is 100 wherever it has a value, and -100 if they fall on every row. -/
theorem tsi_rising (n : Nat) {x : Nat → K} (hx : ∀ i, x i < x (i + 1)) {slow fast : Nat} (h1 : 1 ≤ slow) (h2 : 1 ≤ fast) :
    ∃ out, tsi (ser n x) slow fast false = .ok out ∧ Def out n (slow + fast - 1) (fun _ => 100) := by
  obtain ⟨e, E, a, A, e0, e1, a0, a1, E0, E1, A0, A1, out, ho, hl, hg, hv⟩ := tsi_formula n x slow fast h1 h2
  have s0 := span_pos (K := K) slow
  have s1 := sub_nonneg.mpr (span_le (K := K) slow h1)
  have f0 := span_pos (K := K) fast
  have f1 := sub_nonneg.mpr (span_le (K := K) fast h2)
  have ea : ∀ i, e i = a i ∧ 0 < a i := by
    intro i
    induction i with
    | zero => rw [e0, a0, abs_of_pos (by linarith [hx 0])]; exact ⟨rfl, by linarith [hx 0]⟩
    | succ i ih =>
      have g := sub_pos.mpr (hx (i + 1))
      rw [e1, a1, abs_of_pos g, ih.1]
      exact ⟨rfl, add_pos_of_nonneg_of_pos (mul_nonneg s1 ih.2.le) (mul_pos s0 g)⟩
  have EA : ∀ i, E i = A i ∧ 0 < A i := by
    intro i
    induction i with
    | zero => rw [E0, A0]; exact ea _
    | succ i ih =>
      rw [E1, A1, ih.1, (ea _).1]
      exact ⟨rfl, add_pos_of_nonneg_of_pos (mul_nonneg f1 ih.2.le) (mul_pos f0 (ea _).2)⟩
  refine ⟨out, ho, hl, hg, fun i hi hp => ?_⟩
  rw [hv i hi hp, if_neg (EA _).2.ne', (EA _).1, div_self (EA _).2.ne', mul_one]

theorem tsi_falling (n : Nat) {x : Nat → K} (hx : ∀ i, x (i + 1) < x i) {slow fast : Nat} (h1 : 1 ≤ slow) (h2 : 1 ≤ fast) :
    ∃ out, tsi (ser n x) slow fast false = .ok out ∧ Def out n (slow + fast - 1) (fun _ => -100) := by
  obtain ⟨e, E, a, A, e0, e1, a0, a1, E0, E1, A0, A1, out, ho, hl, hg, hv⟩ := tsi_formula n x slow fast h1 h2
  have s0 := span_pos (K := K) slow
  have s1 := sub_nonneg.mpr (span_le (K := K) slow h1)
  have f0 := span_pos (K := K) fast
  have f1 := sub_nonneg.mpr (span_le (K := K) fast h2)
  have ea : ∀ i, e i = -a i ∧ 0 < a i := by
    intro i
    induction i with
    | zero => rw [e0, a0, abs_of_neg (by linarith [hx 0])]; exact ⟨by ring, by linarith [hx 0]⟩
    | succ i ih =>
      have g := sub_neg.mpr (hx (i + 1))
      rw [e1, a1, abs_of_neg g, ih.1]
      exact ⟨by ring, add_pos_of_nonneg_of_pos (mul_nonneg s1 ih.2.le) (mul_pos s0 (neg_pos.mpr g))⟩
  have EA : ∀ i, E i = -A i ∧ 0 < A i := by
    intro i
    induction i with
    | zero => rw [E0, A0]; exact ea _
    | succ i ih =>
      rw [E1, A1, ih.1, (ea _).1]
      exact ⟨by ring, add_pos_of_nonneg_of_pos (mul_nonneg f1 ih.2.le) (mul_pos f0 (ea _).2)⟩
  refine ⟨out, ho, hl, hg, fun i hi hp => ?_⟩
  rw [hv i hi hp, if_neg (EA _).2.ne', (EA _).1, neg_div, div_self (EA _).2.ne', mul_neg, mul_one]

/-! ## MACD, PPO -/

theorem emaRec_from_pos {a : K} (ha : 0 < a) (ha1 : a ≤ 1) {L : Nat → K} (h0 : L 0 = 0)
    (hL : ∀ i, 0 < L (i + 1)) (i p : Nat) : 0 < emaRec a (fun j => L (p + j)) (i + 1 - p) ∨ i + 1 ≤ p := by
  rcases Nat.lt_or_ge i p with hi | hi
  · right; exact hi
  left
  rcases Nat.eq_zero_or_pos p with rfl | hp
  · simp only [Nat.zero_add, Nat.sub_zero]
    have hn := emaRec_nonneg ha ha1 (f := L) (fun j => by
      cases j with
      | zero => rw [h0]
      | succ j => exact (hL j).le) i
    rw [emaRec]
    have := mul_pos ha (hL i)
    have := mul_nonneg (sub_nonneg.mpr ha1) hn
    linarith
  · refine emaRec_pos_all ha ha1 fun j _ => ?_
    rw [show p + j = (p + j - 1) + 1 by omega]
    exact hL _

/-- the smoothed line, from the first row of the line on -/
theorem signal_pos {a : K} (ha : 0 < a) (ha1 : a ≤ 1) {L : Nat → K} (h0 : L 0 = 0)
    (hL : ∀ i, 0 < L (i + 1)) {i p : Nat} (hi : 1 ≤ i) (hpi : p ≤ i) : 0 < emaRec a (fun j => L (p + j)) (i - p) := by
  obtain ⟨k, rfl⟩ : ∃ k, i = k + 1 := ⟨i - 1, by omega⟩
  rcases emaRec_from_pos ha ha1 h0 hL k p with h | h
  · exact h
  · obtain rfl : p = k + 1 := by omega
    rw [Nat.sub_self]
    exact hL _

theorem signal_neg {a : K} (ha : 0 < a) (ha1 : a ≤ 1) {L : Nat → K} (h0 : L 0 = 0)
    (hL : ∀ i, L (i + 1) < 0) {i p : Nat} (hi : 1 ≤ i) (hpi : p ≤ i) : emaRec a (fun j => L (p + j)) (i - p) < 0 := by
  have := signal_pos ha ha1 (L := fun j => -L j) (by simp [h0]) (fun i => neg_pos.mpr (hL i)) hi hpi
  rw [emaRec_neg] at this
  linarith

/-- C85. With the fast window shorter than the slow one, the MACD line and its signal are positive on closes that only
rise and negative on closes that only fall, on every row with a value except row 0 (where filling shows 0). -/
theorem macd_rising {n : Nat} {c : Nat → K} (hc : ∀ i, c i < c (i + 1)) {slow fast sign : Nat} (hfs : fast < slow)
    {fillna : Bool} {o : MACD (Val K)} (ho : MACD.new (ser n c) slow fast sign fillna = .ok o) {i : Nat} (hi : i < n)
    (h1 : 1 ≤ i) :
    ((if fillna then 0 else slow - 1) ≤ i → Reads o.macd i (0 < ·)) ∧
    ((if fillna then 0 else slow + sign - 2) ≤ i → Reads o.macdSignal i (0 < ·)) := by
  obtain ⟨_, hf1, hs1, -⟩ := macd_new ho
  obtain ⟨L, S, hL, hS, dL, dS, -⟩ := macd_formula ho
  rw [show max slow fast = slow by omega] at hS dL dS
  have L0 : L 0 = 0 := by rw [hL]; simp [emaRec]
  have L1 : ∀ i, 0 < L (i + 1) := fun i => by
    rw [hL]; exact sub_pos.mpr (emaRec_fast (span_lt hfs) (span_le fast hf1) hc i)
  refine ⟨fun hp => dL.reads hi hp ?_, fun hp => dS.reads hi hp ?_⟩
  · obtain ⟨k, rfl⟩ : ∃ k, i = k + 1 := ⟨i - 1, by omega⟩
    exact L1 k
  · rw [hS]
    exact signal_pos (span_pos sign) (span_le sign hs1) L0 L1 h1 (by revert hp; cases fillna <;> simp; omega)

theorem macd_falling {n : Nat} {c : Nat → K} (hc : ∀ i, c (i + 1) < c i) {slow fast sign : Nat} (hfs : fast < slow)
    {fillna : Bool} {o : MACD (Val K)} (ho : MACD.new (ser n c) slow fast sign fillna = .ok o) {i : Nat} (hi : i < n)
    (h1 : 1 ≤ i) :
    ((if fillna then 0 else slow - 1) ≤ i → Reads o.macd i (· < 0)) ∧
    ((if fillna then 0 else slow + sign - 2) ≤ i → Reads o.macdSignal i (· < 0)) := by
  obtain ⟨_, hf1, hs1, -⟩ := macd_new ho
  obtain ⟨L, S, hL, hS, dL, dS, -⟩ := macd_formula ho
  rw [show max slow fast = slow by omega] at hS dL dS
  have L0 : L 0 = 0 := by rw [hL]; simp [emaRec]
  have L1 : ∀ i, L (i + 1) < 0 := fun i => by
    rw [hL]; exact sub_neg.mpr (emaRec_fast_fall (span_lt hfs) (span_le fast hf1) hc i)
  refine ⟨fun hp => dL.reads hi hp ?_, fun hp => dS.reads hi hp ?_⟩
  · obtain ⟨k, rfl⟩ : ∃ k, i = k + 1 := ⟨i - 1, by omega⟩
    exact L1 k
  · rw [hS]
    exact signal_neg (span_pos sign) (span_le sign hs1) L0 L1 h1 (by revert hp; cases fillna <;> simp; omega)

/-- C85. The same for PPO and its signal, on positive closes. -/
theorem ppo_rising {n : Nat} {c : Nat → K} (hpos : ∀ i, 0 < c i) (hc : ∀ i, c i < c (i + 1)) {slow fast sign : Nat} (hfs : fast < slow)
    {fillna : Bool} {o : PPO (Val K)} (ho : PPO.new (ser n c) slow fast sign fillna = .ok o) {i : Nat} (hi : i < n)
    (h1 : 1 ≤ i) :
    ((if fillna then 0 else slow - 1) ≤ i → Reads o.ppo i (0 < ·)) ∧
    ((if fillna then 0 else slow + sign - 2) ≤ i → Reads o.ppoSignal i (0 < ·)) := by
  obtain ⟨hs0, hf1, hs1, -⟩ := ppo_new ho
  obtain ⟨L, S, hL, hS, dL, dS, -⟩ := ppo_formula hpos ho
  rw [show max slow fast = slow by omega] at hS dL dS
  have hE : ∀ i, 0 < emaRec (2 / ((slow : K) + 1)) c i := fun i =>
    emaRec_pos_all (span_pos slow) (span_le slow hs0) fun j _ => hpos j
  have L0 : L 0 = 0 := by rw [hL]; simp [emaRec, (hpos 0).ne']
  have L1 : ∀ i, 0 < L (i + 1) := fun i => by
    rw [hL]
    refine mul_pos (by norm_num) (sub_pos.mpr ?_)
    rw [one_lt_div (hE _)]
    exact emaRec_fast (span_lt hfs) (span_le fast hf1) hc i
  refine ⟨fun hp => dL.reads hi hp ?_, fun hp => dS.reads hi hp ?_⟩
  · obtain ⟨k, rfl⟩ : ∃ k, i = k + 1 := ⟨i - 1, by omega⟩
    exact L1 k
  · rw [hS]
    exact signal_pos (span_pos sign) (span_le sign hs1) L0 L1 h1 (by revert hp; cases fillna <;> simp; omega)

theorem ppo_falling {n : Nat} {c : Nat → K} (hpos : ∀ i, 0 < c i) (hc : ∀ i, c (i + 1) < c i) {slow fast sign : Nat} (hfs : fast < slow)
    {fillna : Bool} {o : PPO (Val K)} (ho : PPO.new (ser n c) slow fast sign fillna = .ok o) {i : Nat} (hi : i < n)
    (h1 : 1 ≤ i) :
    ((if fillna then 0 else slow - 1) ≤ i → Reads o.ppo i (· < 0)) ∧
    ((if fillna then 0 else slow + sign - 2) ≤ i → Reads o.ppoSignal i (· < 0)) := by
  obtain ⟨hs0, hf1, hs1, -⟩ := ppo_new ho
  obtain ⟨L, S, hL, hS, dL, dS, -⟩ := ppo_formula hpos ho
  rw [show max slow fast = slow by omega] at hS dL dS
  have hE : ∀ i, 0 < emaRec (2 / ((slow : K) + 1)) c i := fun i =>
    emaRec_pos_all (span_pos slow) (span_le slow hs0) fun j _ => hpos j
  have L0 : L 0 = 0 := by rw [hL]; simp [emaRec, (hpos 0).ne']
  have L1 : ∀ i, L (i + 1) < 0 := fun i => by
    rw [hL]
    refine mul_neg_of_pos_of_neg (by norm_num) (sub_neg.mpr ?_)
    rw [div_lt_one (hE _)]
    exact emaRec_fast_fall (span_lt hfs) (span_le fast hf1) hc i
  refine ⟨fun hp => dL.reads hi hp ?_, fun hp => dS.reads hi hp ?_⟩
  · obtain ⟨k, rfl⟩ : ∃ k, i = k + 1 := ⟨i - 1, by omega⟩
    exact L1 k
  · rw [hS]
    exact signal_neg (span_pos sign) (span_le sign hs1) L0 L1 h1 (by revert hp; cases fillna <;> simp; omega)

/-! ## ROC, TRIX, KST, returns -/

/-- C85. Rate of change (window at least 1) is positive from row `w` on while the closes rise, negative while they fall. -/
theorem roc_rising {n : Nat} {c : Nat → K} (hpos : ∀ i, 0 < c i) {w i : Nat} (hw : 1 ≤ w) (hwi : w ≤ i) (hi : i < n)
    (fillna : Bool) :
    ((∀ i, c i < c (i + 1)) → Reads (roc (ser n c) w fillna) i (0 < ·)) ∧
    ((∀ i, c (i + 1) < c i) → Reads (roc (ser n c) w fillna) i (· < 0)) := by
  obtain ⟨f1, f2⟩ := roc_formula n (fun i => (hpos i).ne') w
  have h0 := hpos (i - w)
  have up : (∀ i, c i < c (i + 1)) → 0 < 100 * (c i / c (i - w) - 1) := fun hc =>
    mul_pos (by norm_num) (sub_pos.mpr ((one_lt_div h0).mpr (rise_lt hc (by omega))))
  have dn : (∀ i, c (i + 1) < c i) → 100 * (c i / c (i - w) - 1) < 0 := fun hc =>
    mul_neg_of_pos_of_neg (by norm_num) (sub_neg.mpr ((div_lt_one h0).mpr
      (strictAnti_nat_of_succ_lt hc (by omega))))
  cases fillna with
  | false => exact ⟨fun hc => f1.reads hi hwi (up hc), fun hc => f1.reads hi hwi (dn hc)⟩
  | true =>
    exact ⟨fun hc => f2.reads hi (Nat.zero_le _) (by rw [if_neg (by omega)]; exact up hc),
      fun hc => f2.reads hi (Nat.zero_le _) (by rw [if_neg (by omega)]; exact dn hc)⟩

/-- C85. TRIX (window at least 2) is positive wherever it has a value while the closes rise, negative while they fall. -/
theorem trix_rising {n : Nat} {c : Nat → K} (hpos : ∀ i, 0 < c i) {w i : Nat} (hw : 2 ≤ w) (hwi : 3 * w - 2 ≤ i)
    (hi : i < n) :
    ∃ out, trix (ser n c) w = .ok out ∧ ((∀ i, c i < c (i + 1)) → Reads out i (0 < ·)) ∧
      ((∀ i, c (i + 1) < c i) → Reads out i (· < 0)) := by
  obtain ⟨E1, E2, E3, out, e1, e2, e3, ho, hd⟩ := trix_formula (n := n) hpos hw
  have a0 := span_pos (K := K) w
  have a1 := span_le (K := K) w (by omega)
  have p1 : ∀ i, 0 < E1 i := fun i => by rw [e1]; exact emaRec_pos_all a0 a1 fun j _ => hpos j
  have p2 : ∀ i, 0 < E2 i := fun i => by rw [e2]; exact emaRec_pos_all a0 a1 fun j _ => p1 _
  have p3 : ∀ i, 0 < E3 i := fun i => by rw [e3]; exact emaRec_pos_all a0 a1 fun j _ => p2 _
  obtain ⟨k, rfl⟩ : ∃ k, i = (w - 1 + (w - 1)) + (k + 1) := ⟨i - 1 - (w - 1 + (w - 1)), by omega⟩
  have s1 : w - 1 + (w - 1) + (k + 1) - (w - 1 + (w - 1)) = k + 1 := by omega
  have s2 : w - 1 + (w - 1) + (k + 1) - 1 - (w - 1 + (w - 1)) = k := by omega
  have rise2 : (∀ i, c i < c (i + 1)) → ∀ j, E2 (w - 1 + (w - 1) + j) < E2 (w - 1 + (w - 1) + (j + 1)) := by
    intro hc j
    rw [e2, e2, show w - 1 + (w - 1) + (j + 1) - (w - 1) = (w - 1 + (w - 1) + j - (w - 1)) + 1 by omega]
    refine emaRec_rise a0 a1 (fun i => ?_) _
    rw [e1, e1]
    exact emaRec_rise a0 a1 hc _
  have fall2 : (∀ i, c (i + 1) < c i) → ∀ j, E2 (w - 1 + (w - 1) + (j + 1)) < E2 (w - 1 + (w - 1) + j) := by
    intro hc j
    have hE : ∀ i, E1 (i + 1) < E1 i := fun i => by
      rw [e1, e1]
      have := emaRec_rise a0 a1 (f := fun j => -c j) (fun i => neg_lt_neg (hc i)) i
      rw [emaRec_neg, emaRec_neg] at this
      linarith
    rw [e2, e2, show w - 1 + (w - 1) + (j + 1) - (w - 1) = (w - 1 + (w - 1) + j - (w - 1)) + 1 by omega]
    have := emaRec_rise a0 a1 (f := fun j => -E1 (w - 1 + j)) (fun i => neg_lt_neg (hE _)) (w - 1 + (w - 1) + j - (w - 1))
    rw [emaRec_neg, emaRec_neg] at this
    linarith
  refine ⟨out, ho, fun hc => hd.reads hi hwi ?_, fun hc => hd.reads hi hwi ?_⟩
  · refine mul_pos (by norm_num) (sub_pos.mpr ((one_lt_div (p3 _)).mpr ?_))
    rw [e3, e3, s1, s2]
    exact emaRec_rise a0 a1 (rise2 hc) k
  · refine mul_neg_of_pos_of_neg (by norm_num) (sub_neg.mpr ((div_lt_one (p3 _)).mpr ?_))
    rw [e3, e3, s1, s2]
    have := emaRec_rise a0 a1 (f := fun j => -E2 (w - 1 + (w - 1) + j)) (fun i => neg_lt_neg (fall2 hc i)) k
    rw [emaRec_neg, emaRec_neg] at this
    linarith

theorem rocMean_rise {n : Nat} {c : Nat → K} (hpos : ∀ i, 0 < c i) {r w i : Nat} (hr : 1 ≤ r) (hw : 1 ≤ w)
    (h : r + w ≤ i + 1) :
    ((∀ i, c i < c (i + 1)) → 0 < rocMean n c r w i) ∧ ((∀ i, c (i + 1) < c i) → rocMean n c r w i < 0) := by
  have hm : (0 : K) < (min w (i + 1) : ℕ) := by exact_mod_cast (by omega : 0 < min w (i + 1))
  have ne : (Ico (i + 1 - w) (i + 1)).Nonempty := ⟨i, by simp; omega⟩
  have e : ∀ j ∈ Ico (i + 1 - w) (i + 1), prevOr n c r j = c (j - r) ∧ j - r < j := by
    intro j hj
    rw [mem_Ico] at hj
    exact ⟨by unfold prevOr; rw [if_neg (by omega)], by omega⟩
  unfold rocMean wmean
  refine ⟨fun hc => div_pos (sum_pos (fun j hj => ?_) ne) hm, fun hc => div_neg_of_neg_of_pos (sum_neg (fun j hj => ?_) ne) hm⟩
  · rw [(e j hj).1]
    exact sub_pos.mpr ((one_lt_div (hpos _)).mpr (rise_lt hc (e j hj).2))
  · rw [(e j hj).1]
    exact sub_neg.mpr ((div_lt_one (hpos _)).mpr (strictAnti_nat_of_succ_lt hc (e j hj).2))

/-- C85. KST is positive while the closes rise and negative while they fall, from the row on at which all four of its
means are over real past closes (before that the mean of the whole column stands in for them). -/
theorem kst_rising {n : Nat} {c : Nat → K} (hpos : ∀ i, 0 < c i) {r1 r2 r3 r4 w1 w2 w3 w4 : Nat}
    (hr1 : 1 ≤ r1) (hr2 : 1 ≤ r2) (hr3 : 1 ≤ r3) (hr4 : 1 ≤ r4) (h1 : 1 ≤ w1) (h2 : 1 ≤ w2) (h3 : 1 ≤ w3) (h4 : 1 ≤ w4)
    {i : Nat} (hi : i < n) (g1 : r1 + w1 ≤ i + 1) (g2 : r2 + w2 ≤ i + 1) (g3 : r3 + w3 ≤ i + 1) (g4 : r4 + w4 ≤ i + 1)
    (fillna : Bool) :
    ((∀ i, c i < c (i + 1)) → Reads (kst (ser n c) r1 r2 r3 r4 w1 w2 w3 w4 fillna) i (0 < ·)) ∧
    ((∀ i, c (i + 1) < c i) → Reads (kst (ser n c) r1 r2 r3 r4 w1 w2 w3 w4 fillna) i (· < 0)) := by
  obtain ⟨p, L, S, hp, hL, -, dL, -, -⟩ := kst_formula (n := n) hpos r1 r2 r3 r4 h1 h2 h3 h4 (le_refl 1) fillna
  have hpi : p ≤ i := by rw [hp]; cases fillna <;> simp; omega
  have m1 := rocMean_rise (n := n) hpos hr1 h1 g1
  have m2 := rocMean_rise (n := n) hpos hr2 h2 g2
  have m3 := rocMean_rise (n := n) hpos hr3 h3 g3
  have m4 := rocMean_rise (n := n) hpos hr4 h4 g4
  refine ⟨fun hc => dL.reads hi hpi ?_, fun hc => dL.reads hi hpi ?_⟩
  · rw [hL]
    have := m1.1 hc; have := m2.1 hc; have := m3.1 hc; have := m4.1 hc
    linarith
  · rw [hL]
    have := m1.2 hc; have := m2.2 hc; have := m3.2 hc; have := m4.2 hc
    linarith

/-- C85. KAMA of closes that rise on every row: the efficiency ratio is 1, so that it is an exponential mean with the
constant factor `(2 / (pow1 + 1))²`, started at row `w - 1`; `pow2` is not visible. It never exceeds the close. -/
theorem kama_rising (n : Nat) {c : Nat → K} (hc : ∀ i, c i < c (i + 1)) {w : Nat} (hw : 1 ≤ w) {pow1 : Nat} (hp : 1 ≤ pow1)
    (pow2 : Nat) :
    Def (kama (ser n c) w pow1 pow2 false) n (w - 1)
      (fun i => emaRec ((2 / ((pow1 : K) + 1)) ^ 2) (fun j => c (w - 1 + j)) (i - (w - 1))) ∧
    ∀ i, i < n → w - 1 ≤ i → Reads (kama (ser n c) w pow1 pow2 false) i (· ≤ c i) := by
  obtain ⟨Y, y0, y1, hd⟩ := kama_formula n c hw pow1 pow2
  have tel : ∀ a b, a ≤ b → ∑ j ∈ Ico (a + 1) (b + 1), |c j - c (j - 1)| = c b - c a := by
    intro a b hab
    induction b, hab using Nat.le_induction with
    | base => simp
    | succ b hb ih =>
      rw [sum_Ico_succ_top (by omega), ih, Nat.add_sub_cancel, abs_of_pos (sub_pos.mpr (hc b))]; ring
  have er : ∀ i, w ≤ i → effRatio c w i = 1 := by
    intro i hi
    have h1 := tel (i - w) i (by omega)
    rw [show i - w + 1 = i + 1 - w by omega] at h1
    have h2 := sub_pos.mpr (rise_lt hc (show i - w < i by omega))
    unfold effRatio
    rw [h1, if_neg h2.ne', abs_of_pos h2, div_self h2.ne']
  have key : ∀ k, Y (w - 1 + k) = emaRec ((2 / ((pow1 : K) + 1)) ^ 2) (fun j => c (w - 1 + j)) k := by
    intro k
    induction k with
    | zero => simpa [emaRec] using y0
    | succ k ih =>
      rw [y1 _ (by omega), er _ (by omega), emaRec, ← ih, show w - 1 + (k + 1) - 1 = w - 1 + k by omega]
      ring
  have hd' : Def (kama (ser n c) w pow1 pow2 false) n (w - 1)
      (fun i => emaRec ((2 / ((pow1 : K) + 1)) ^ 2) (fun j => c (w - 1 + j)) (i - (w - 1))) :=
    hd.congr fun i _ h => by rw [← key, show w - 1 + (i - (w - 1)) = i by omega]
  refine ⟨hd', fun i hi h => hd'.reads hi h ?_⟩
  have := emaRec_le_last (a := (2 / ((pow1 : K) + 1)) ^ 2) (f := fun j => c (w - 1 + j))
    (pow_le_one₀ (span_pos pow1).le (span_le pow1 hp)) (fun i => hc _) (i - (w - 1))
  simpa [show w - 1 + (i - (w - 1)) = i by omega] using this

/-- C85. The Ulcer index of closes that only rise is 0 wherever it has a value. -/
theorem ulcer_rising {n : Nat} {c : Nat → ℝ} (hpos : ∀ i, 0 < c i) (hc : ∀ i, c i < c (i + 1)) {w : Nat} (hw : 1 ≤ w)
    {out : Series (Val ℝ)} (ho : ulcerIndex (ser n c) w = .ok out) {i : Nat} (hi : i < n) (hwi : w - 1 ≤ i) :
    ix out i = .fin 0 :=
  (ulcer_zero_iff hpos hw ho hi hwi).mpr fun _ _ _ _ hk _ => rise_le hc hk

/-! ## a run -/

example : rsi (qs [1, 2, 4, 5]) 2 = .ok (qs [100, 100, 100, 100] |>.set 0 .nan) ∧
    rsi (qs [5, 4, 2, 1]) 2 true = .ok (qs [100, 0, 0, 0]) := by decide +kernel

example : tsi (qs [1, 2, 4, 5]) 2 1 = .ok [.nan, .nan, .fin 100, .fin 100] ∧
    tsi (qs [5, 4, 2, 1]) 2 1 = .ok [.nan, .nan, .fin (-100), .fin (-100)] := by decide +kernel

example : ((MACD.new (qs [1, 2, 4, 5]) 2 1 1).toOption.map fun o => (o.macd, o.macdSignal))
    = some ([.nan, .fin (1 / 3), .fin (7 / 9), .fin (16 / 27)], [.nan, .fin (1 / 3), .fin (7 / 9), .fin (16 / 27)]) := by
  decide +kernel

/-- equal windows show 0, so that `fast < slow` is needed; with the windows exchanged a rising market reads as negative -/
example : ((MACD.new (qs [1, 2, 4, 5]) 2 2 1).toOption.map fun o => o.macd) = some [.nan, .fin 0, .fin 0, .fin 0] ∧
    ((MACD.new (qs [1, 2, 4, 5]) 1 2 1).toOption.map fun o => o.macd)
      = some [.nan, .fin (-1 / 3), .fin (-7 / 9), .fin (-16 / 27)] := by decide +kernel

/-- before the look-back of all four terms the mean of the whole column is used, and KST is negative although every close
so far was a rise -/
example : kst (qs [1, 2, 4, 9]) 2 2 2 2 1 1 1 1 = [.fin (-750), .fin (-500), .fin 3000, .fin 3500] := by decide +kernel

example : kama (qs [1, 2, 4, 5]) 2 1 30 false = [.nan, .fin 2, .fin 4, .fin 5] ∧
    kama (qs [1, 2, 4, 5]) 2 3 30 false = [.nan, .fin 2, .fin (5 / 2), .fin (25 / 8)] := by decide +kernel

end TA
