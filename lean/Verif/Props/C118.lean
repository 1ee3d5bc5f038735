import Verif.Props.C17
import Verif.Props.C19
import Verif.Props.C20
import Verif.Props.C21
import Verif.Props.C23
import Verif.Props.C25
import Verif.Props.C27
import Verif.Props.C61
import Verif.Lemmas.Toy

/-!
# C118: what a reading at the limit means

An oscillator bounded by 0 and 100 (or -100 and 100, -1 and 1) reaches its bounds.  For each of them: the data on which it
does, exactly.
-/

set_option linter.unusedSectionVars false

namespace TA
open Finset
variable {K : Type} [Field K] [LinearOrder K] [IsStrictOrderedRing K]

/-- a smoothed series of non-negative terms vanishes only if all its terms do -/
theorem smooth_zero {a : K} (h0 : 0 < a) (h1 : a < 1) {U g : Nat → K} (hg : ∀ i, 0 ≤ g i) (hU0 : 0 ≤ U 0)
    (hU : ∀ i, U (i + 1) = (1 - a) * U i + a * g i) (i : Nat) : 0 ≤ U i ∧ (U i = 0 ↔ U 0 = 0 ∧ ∀ j, j < i → g j = 0) := by
  induction i with
  | zero => exact ⟨hU0, fun h => ⟨h, fun j hj => by omega⟩, fun h => h.1⟩
  | succ i ih =>
    have h2 : 0 < 1 - a := by linarith
    have p1 := mul_nonneg h2.le ih.1
    have p2 := mul_nonneg h0.le (hg i)
    refine ⟨by rw [hU]; linarith, ?_⟩
    rw [hU]
    constructor
    · intro h
      have e1 : (1 - a) * U i = 0 := by linarith
      have e2 : a * g i = 0 := by linarith
      have e1' := (mul_eq_zero.mp e1).resolve_left h2.ne'
      have e2' := (mul_eq_zero.mp e2).resolve_left h0.ne'
      obtain ⟨k1, k2⟩ := ih.2.mp e1'
      refine ⟨k1, fun j hj => ?_⟩
      rcases Nat.lt_succ_iff_lt_or_eq.mp hj with h3 | rfl
      · exact k2 j h3
      · exact e2'
    · rintro ⟨k1, k2⟩
      rw [ih.2.mpr ⟨k1, fun j hj => k2 j (by omega)⟩, k2 i (by omega)]
      ring

/-! ## RSI -/

/-- C118: RSI is 100 exactly when no close since the first was below the one before, and 0 exactly when none was above and at
least one was below. -/
theorem rsi_limits {n : Nat} {x : Nat → K} {w : Nat} (hw : 2 ≤ w) {fillna : Bool} {out : Series (Val K)}
    (ho : rsi (ser n x) w fillna = .ok out) {i : Nat} (hi : i < n) (hr : fillna = true ∨ w - 1 ≤ i) :
    (ix out i = .fin 100 ↔ ∀ j, j < i → x j ≤ x (j + 1)) ∧
    (ix out i = .fin 0 ↔ (∀ j, j < i → x (j + 1) ≤ x j) ∧ ∃ j, j < i ∧ x (j + 1) < x j) := by
  obtain ⟨U, D, u0, d0, hU, hD, hp, out', ho', hdef, -⟩ := rsi_formula n x w (by omega) fillna
  have := Except.ok.inj (ho.symm.trans ho')
  subst this
  have hw0 : (0 : K) < w := by exact_mod_cast (by omega : 0 < w)
  have a0 : (0 : K) < 1 / w := by positivity
  have a1 : 1 / (w : K) < 1 := by
    rw [div_lt_one hw0]; exact_mod_cast (by omega : 1 < w)
  have zU := (smooth_zero a0 a1 (g := fun i => max (x (i + 1) - x i) 0) (fun _ => le_max_right _ _) u0.ge hU i).2
  have zD := (smooth_zero a0 a1 (g := fun i => max (x i - x (i + 1)) 0) (fun _ => le_max_right _ _) d0.ge hD i).2
  have mz : ∀ {t : K}, max t 0 = 0 ↔ t ≤ 0 := fun {t} => max_eq_right_iff
  simp only [u0, d0, true_and, mz, sub_nonpos] at zU zD
  rw [hdef.val i hi (by split_ifs with h <;> simp_all)]
  obtain ⟨pU, pD⟩ := hp i
  constructor
  · rw [Val.fin.injEq, ← zD]
    split_ifs with h
    · simp [h]
    · have hs : U i + D i ≠ 0 := by
        have : 0 < D i := lt_of_le_of_ne pD (Ne.symm h)
        linarith
      rw [div_eq_iff hs]
      constructor
      · intro e; linarith
      · intro e; exact absurd e h
  · rw [Val.fin.injEq]
    have hne : D i ≠ 0 ↔ ∃ j, j < i ∧ x (j + 1) < x j := by
      rw [Ne, zD]
      push Not
      rfl
    rw [← zU, ← hne]
    split_ifs with h
    · simp [h]
    · have hs : U i + D i ≠ 0 := by
        have : 0 < D i := lt_of_le_of_ne pD (Ne.symm h)
        linarith
      rw [div_eq_iff hs, zero_mul, mul_eq_zero]
      simp [h]

/-- C118: with `window = 1` RSI only tells whether the last close fell: 0 if it did, 100 if it did not. -/
theorem rsi_window_one {n : Nat} {x : Nat → K} {fillna : Bool} {out : Series (Val K)}
    (ho : rsi (ser n x) 1 fillna = .ok out) {i : Nat} (hi : i + 1 < n) :
    ix out (i + 1) = .fin (if x (i + 1) < x i then 0 else 100) := by
  obtain ⟨U, D, u0, d0, hU, hD, hp, out', ho', hdef, -⟩ := rsi_formula n x 1 (le_refl _) fillna
  have := Except.ok.inj (ho.symm.trans ho')
  subst this
  rw [hdef.val (i + 1) hi (by split_ifs <;> omega)]
  have e1 : D (i + 1) = max (x i - x (i + 1)) 0 := by rw [hD]; simp
  have e2 : U (i + 1) = max (x (i + 1) - x i) 0 := by rw [hU]; simp
  congr 1
  by_cases h : x (i + 1) < x i
  · rw [if_neg (by rw [e1, max_eq_left (by linarith)]; exact (sub_pos.mpr h).ne'), if_pos h, e2, max_eq_right (by linarith)]
    simp
  · rw [if_pos (by rw [e1, max_eq_right (by linarith)]), if_neg h]

/-! ## TSI -/

theorem tail_zero {b : K} (h0 : 0 < b) (h1 : b ≤ 1) {E d : Nat → K} {s : Nat} (hd : ∀ i, 0 ≤ d i) (hE0 : E 0 = d (s - 1))
    (hE : ∀ i, E (i + 1) = (1 - b) * E i + b * d (s + i)) (i : Nat) (hs : 1 ≤ s) :
    0 ≤ E i ∧ (E i = 0 → d (s - 1 + i) = 0) ∧ ((∀ j, j ≤ s - 1 + i → d j = 0) → E i = 0) := by
  induction i with
  | zero => rw [hE0]; exact ⟨hd _, fun h => h, fun h => h _ (by omega)⟩
  | succ i ih =>
    have p1 := mul_nonneg (by linarith : 0 ≤ 1 - b) ih.1
    have p2 := mul_nonneg h0.le (hd (s + i))
    have e : s - 1 + (i + 1) = s + i := by omega
    rw [hE, e]
    refine ⟨by linarith, fun h => ?_, fun h => ?_⟩
    · have e2 : b * d (s + i) = 0 := by linarith
      exact (mul_eq_zero.mp e2).resolve_left h0.ne'
    · rw [ih.2.2 fun j hj => h j (by omega), h _ (le_refl _)]
      ring

/-- C118: TSI is 100 exactly when no close since the first was below the one before and one was above, -100 exactly when the
reverse holds, and NaN exactly when the close never changed. -/
theorem tsi_limits {n : Nat} {x : Nat → K} {slow fast : Nat} (h1 : 2 ≤ slow) (h2 : 1 ≤ fast) {out : Series (Val K)}
    (ho : tsi (ser n x) slow fast false = .ok out) {i : Nat} (hi : i < n) (hr : slow + fast - 1 ≤ i) :
    (ix out i = .nan ↔ ∀ j, j < i → x (j + 1) = x j) ∧
    (ix out i = .fin 100 ↔ (∀ j, j < i → x j ≤ x (j + 1)) ∧ ∃ j, j < i ∧ x j < x (j + 1)) ∧
    (ix out i = .fin (-100) ↔ (∀ j, j < i → x (j + 1) ≤ x j) ∧ ∃ j, j < i ∧ x (j + 1) < x j) := by
  obtain ⟨e, E, a, A, e0, he, a0, ha, E0, hE, A0, hA, out', ho', -, -, hv⟩ := tsi_formula n x slow fast (by omega) h2
  have := Except.ok.inj (ho.symm.trans ho')
  subst this
  rw [hv i hi hr]
  have s0 : (0 : K) < slow + 1 := by positivity
  have f0 : (0 : K) < fast + 1 := by positivity
  have hα0 : (0 : K) < 2 / ((slow : K) + 1) := by positivity
  have hα1 : 2 / ((slow : K) + 1) < 1 := by
    rw [div_lt_one s0]
    have : (2 : K) ≤ slow := by exact_mod_cast h1
    linarith
  have hβ0 : (0 : K) < 2 / ((fast : K) + 1) := by positivity
  have hβ1 : 2 / ((fast : K) + 1) ≤ 1 := by
    rw [div_le_one f0]
    have : (1 : K) ≤ fast := by exact_mod_cast h2
    linarith
  -- a linear combination `p * |change| + q * change` smoothed twice
  have key : ∀ q : K, (∀ t : K, 0 ≤ |t| + q * t) →
      (A (i - slow) + q * E (i - slow) = 0 ↔ ∀ j, j < i → |x (j + 1) - x j| + q * (x (j + 1) - x j) = 0) := by
    intro q hq
    have hd := smooth_zero hα0 hα1 (U := fun k => a k + q * e k) (g := fun k => |x (k + 2) - x (k + 1)| + q * (x (k + 2) - x (k + 1)))
      (fun k => hq _) (by simp only [a0, e0]; exact hq _) (fun k => by simp only [ha, he]; ring)
    have hz := tail_zero (s := slow) hβ0 hβ1 (E := fun k => A k + q * E k) (d := fun k => a k + q * e k) (fun k => (hd k).1)
      (by simp only [A0, E0]) (fun k => by simp only [hA, hE]; ring) (i - slow) (by omega)
    have last : slow - 1 + (i - slow) = i - 1 := by omega
    rw [last] at hz
    have first : ∀ k, k ≤ i - 1 → (a k + q * e k = 0 ↔ ∀ j, j < k + 1 → |x (j + 1) - x j| + q * (x (j + 1) - x j) = 0) := by
      intro k _
      rw [(hd k).2]
      simp only [a0, e0]
      constructor
      · rintro ⟨k1, k2⟩ j hj
        cases j with
        | zero => exact k1
        | succ j => exact k2 j (by omega)
      · intro h
        exact ⟨h 0 (by omega), fun j hj => h (j + 1) (by omega)⟩
    constructor
    · intro h j hj
      exact (first (i - 1) (le_refl _)).mp (hz.2.1 h) j (by omega)
    · intro h
      exact hz.2.2 fun k hk => (first k hk).mpr fun j hj => h j (by omega)
  have kA := key 0 (fun t => by rw [zero_mul, add_zero]; exact abs_nonneg t)
  have kU := key (-1) (fun t => by have := le_abs_self t; linarith)
  have kD := key 1 (fun t => by have := neg_abs_le t; linarith)
  simp only [zero_mul, add_zero, abs_eq_zero, sub_eq_zero] at kA
  have u1 : ∀ t : K, |t| + -1 * t = 0 ↔ 0 ≤ t := fun t => by
    rw [show |t| + -1 * t = |t| - t by ring, sub_eq_zero, abs_eq_self]
  have u2 : ∀ t : K, |t| + 1 * t = 0 ↔ t ≤ 0 := fun t => by
    rw [show |t| + 1 * t = |t| - -t by ring, sub_eq_zero, abs_eq_neg_self]
  simp only [u1, u2, sub_nonneg, sub_nonpos] at kU kD
  have nA : A (i - slow) ≠ 0 ↔ ∃ j, j < i ∧ x (j + 1) ≠ x j := by
    rw [Ne, kA]; push Not; rfl
  refine ⟨?_, ?_, ?_⟩
  · rw [← kA]
    split_ifs with h <;> simp [h]
  · have : (∃ j, j < i ∧ x j < x (j + 1)) ∧ (∀ j, j < i → x j ≤ x (j + 1)) ↔ A (i - slow) ≠ 0 ∧ ∀ j, j < i → x j ≤ x (j + 1) := by
      rw [nA]
      constructor
      · rintro ⟨⟨j, j1, j2⟩, h⟩; exact ⟨⟨j, j1, j2.ne'⟩, h⟩
      · rintro ⟨⟨j, j1, j2⟩, h⟩; exact ⟨⟨j, j1, lt_of_le_of_ne (h j j1) j2.symm⟩, h⟩
    rw [and_comm, this, ← kU]
    split_ifs with h
    · simp [h]
    · rw [Val.fin.injEq]
      have : 100 * (E (i - slow) / A (i - slow)) = 100 ↔ A (i - slow) + -1 * E (i - slow) = 0 := by
        rw [← mul_div_assoc, div_eq_iff h]
        constructor <;> intro q <;> linarith
      rw [this]
      simp [h]
  · have : (∃ j, j < i ∧ x (j + 1) < x j) ∧ (∀ j, j < i → x (j + 1) ≤ x j) ↔ A (i - slow) ≠ 0 ∧ ∀ j, j < i → x (j + 1) ≤ x j := by
      rw [nA]
      constructor
      · rintro ⟨⟨j, j1, j2⟩, h⟩; exact ⟨⟨j, j1, j2.ne⟩, h⟩
      · rintro ⟨⟨j, j1, j2⟩, h⟩; exact ⟨⟨j, j1, lt_of_le_of_ne (h j j1) j2⟩, h⟩
    rw [and_comm, this, ← kD]
    split_ifs with h
    · simp [h]
    · rw [Val.fin.injEq]
      have : 100 * (E (i - slow) / A (i - slow)) = -100 ↔ A (i - slow) + 1 * E (i - slow) = 0 := by
        rw [← mul_div_assoc, div_eq_iff h]
        constructor <;> intro q <;> linarith
      rw [this]
      simp [h]

/-! ## %K, Williams %R, StochRSI -/

/-- C118: %K is 100 exactly when the close is at the highest high of the window, 0 when it is at the lowest low, NaN when the
whole window is one price. -/
theorem stoch_limits {n : Nat} {h l c : Nat → K} (hl : ∀ i, i < n → l i ≤ c i ∧ c i ≤ h i) {w : Nat} (hw : 1 ≤ w) {i : Nat}
    (hi : i < n) (hr : w - 1 ≤ i) :
    (ix (stoch (ser n h) (ser n l) (ser n c) w false) i = .nan ↔ ∀ j k, j ≤ i → i < j + w → k ≤ i → i < k + w → h j = l k) ∧
    (ix (stoch (ser n h) (ser n l) (ser n c) w false) i = .fin 100 ↔
      (∀ j, j ≤ i → i < j + w → h j ≤ c i) ∧ ∃ j, j ≤ i ∧ i < j + w ∧ l j < c i) ∧
    (ix (stoch (ser n h) (ser n l) (ser n c) w false) i = .fin 0 ↔
      (∀ j, j ≤ i → i < j + w → c i ≤ l j) ∧ ∃ j, j ≤ i ∧ i < j + w ∧ c i < h j) := by
  obtain ⟨M, m, hM, hm, -, -, hv⟩ := stoch_formula n h l c hl w hw
  rw [hv i hi hr]
  obtain ⟨⟨p, p1, p2, p3⟩, hM⟩ := hM i
  obtain ⟨⟨q, q1, q2, q3⟩, hm⟩ := hm i
  have hc := hl i hi
  have c1 := hM i (le_refl _) (by omega)
  have c2 := hm i (le_refl _) (by omega)
  refine ⟨?_, ?_, ?_⟩
  · constructor
    · intro e
      split_ifs at e with h0
      intro j k j1 j2 k1 k2
      have a1 := hM j j1 j2
      have a2 := hM k k1 k2
      have b1 := hm j j1 j2
      have b2 := hm k k1 k2
      have d1 := hl j (by omega)
      have d2 := hl k (by omega)
      linarith
    · intro e
      rw [if_pos (by rw [p3, q3]; exact e p q p1 p2 q1 q2)]
  · constructor
    · intro e
      split_ifs at e with h0
      have hd : M i - m i ≠ 0 := sub_ne_zero.mpr h0
      rw [Val.fin.injEq, div_eq_iff hd] at e
      have e2 : c i = M i := by linarith
      refine ⟨fun j j1 j2 => by rw [e2]; exact hM j j1 j2, q, q1, q2, ?_⟩
      rw [← q3, e2]
      exact lt_of_le_of_ne (by linarith) (Ne.symm h0)
    · rintro ⟨e1, j, j1, j2, j3⟩
      have e2 : c i = M i := le_antisymm (hc.2.trans c1) (p3 ▸ e1 p p1 p2)
      have h0 : m i < M i := by rw [← e2]; exact (hm j j1 j2).trans_lt j3
      rw [if_neg h0.ne', e2, mul_div_assoc, div_self (sub_ne_zero.mpr h0.ne'), mul_one]
  · constructor
    · intro e
      split_ifs at e with h0
      have hd : M i - m i ≠ 0 := sub_ne_zero.mpr h0
      rw [Val.fin.injEq, div_eq_iff hd] at e
      have e2 : c i = m i := by linarith
      refine ⟨fun j j1 j2 => by rw [e2]; exact hm j j1 j2, p, p1, p2, ?_⟩
      rw [← p3, e2]
      exact lt_of_le_of_ne (by linarith) (Ne.symm h0)
    · rintro ⟨e1, j, j1, j2, j3⟩
      have e2 : c i = m i := le_antisymm (q3 ▸ e1 q q1 q2) (c2.trans hc.1)
      have h0 : m i < M i := by rw [← e2]; exact j3.trans_le (hM j j1 j2)
      rw [if_neg h0.ne', e2, sub_self, mul_zero, zero_div]

/-- C118: Williams %R is 0 and -100 on the same rows -/
theorem williamsR_limits {n : Nat} {h l c : Nat → K} (hl : ∀ i, i < n → l i ≤ c i ∧ c i ≤ h i) {w : Nat} (hw : 1 ≤ w) {i : Nat}
    (hi : i < n) (hr : w - 1 ≤ i) :
    (ix (williamsR (ser n h) (ser n l) (ser n c) w false) i = .fin 0 ↔
      (∀ j, j ≤ i → i < j + w → h j ≤ c i) ∧ ∃ j, j ≤ i ∧ i < j + w ∧ l j < c i) ∧
    (ix (williamsR (ser n h) (ser n l) (ser n c) w false) i = .fin (-100) ↔
      (∀ j, j ≤ i → i < j + w → c i ≤ l j) ∧ ∃ j, j ≤ i ∧ i < j + w ∧ c i < h j) := by
  obtain ⟨-, k1, k2⟩ := stoch_limits hl hw hi hr
  have hlen : i < (stoch (ser n h) (ser n l) (ser n c) w false).length := by simpa [stoch, Stoch.k, ser] using hi
  rw [williamsR_eq_stoch _ _ _ (by simp [ser]) (by simp [ser]), ix_map hlen, ← k1, ← k2]
  generalize ix (stoch (ser n h) (ser n l) (ser n c) w false) i = v
  cases v with
  | nan => simp
  | pinf => constructor <;> constructor <;> intro h <;> cases h
  | ninf => constructor <;> constructor <;> intro h <;> cases h
  | fin x =>
    rw [fin_sub]
    simp only [Val.fin.injEq]
    constructor <;> constructor <;> intro q <;> linarith

/-- C118: StochRSI is 1 (0) exactly when the RSI is at the top (bottom) of its last `window` values, not all equal. -/
theorem stochrsi_limits {s r : Series (Val K)} {w s1 s2 : Nat} (hs1 : 1 ≤ s1) (hs2 : 1 ≤ s2) {o : StochRSI (Val K)}
    (hr : rsi s w = .ok r) (ho : StochRSI.new s w s1 s2 = .ok o) {i : Nat} (hi : i < s.length) (hwi : w ≤ i + 1) {R : Nat → K}
    (hR : ∀ j, j ≤ i → i < j + w → ix r j = .fin (R j)) :
    (ix o.stochrsi i = .fin 1 ↔ (∀ j, j ≤ i → i < j + w → R j ≤ R i) ∧ ∃ j, j ≤ i ∧ i < j + w ∧ R j < R i) ∧
    (ix o.stochrsi i = .fin 0 ↔ (∀ j, j ≤ i → i < j + w → R i ≤ R j) ∧ ∃ j, j ≤ i ∧ i < j + w ∧ R i < R j) := by
  obtain ⟨hf, -⟩ := stochrsi_formula hs1 hs2 hr ho hi
  obtain ⟨M, m, ⟨⟨p, p1, p2, p3⟩, hM⟩, ⟨⟨q, q1, q2, q3⟩, hm⟩, e⟩ := hf R hwi hR
  rw [e]
  have hM : ∀ j, j ≤ i → i < j + w → R j ≤ M := fun j a b => hM ⟨j, a, b, rfl⟩
  have hm : ∀ j, j ≤ i → i < j + w → m ≤ R j := fun j a b => hm ⟨j, a, b, rfl⟩
  have c1 := hM i (le_refl _) (by omega)
  have c2 := hm i (le_refl _) (by omega)
  constructor
  · constructor
    · intro e
      split_ifs at e with h0
      have hd : M - m ≠ 0 := sub_ne_zero.mpr h0
      rw [Val.fin.injEq, div_eq_iff hd] at e
      have e2 : R i = M := by linarith
      refine ⟨fun j j1 j2 => by rw [e2]; exact hM j j1 j2, q, q1, q2, ?_⟩
      rw [← q3, e2]
      exact lt_of_le_of_ne (by linarith) (Ne.symm h0)
    · rintro ⟨e1, j, j1, j2, j3⟩
      have e2 : R i = M := le_antisymm c1 (p3 ▸ e1 p p1 p2)
      have h0 : m < M := by rw [← e2]; exact (hm j j1 j2).trans_lt j3
      rw [if_neg h0.ne', e2, div_self (sub_ne_zero.mpr h0.ne')]
  · constructor
    · intro e
      split_ifs at e with h0
      have hd : M - m ≠ 0 := sub_ne_zero.mpr h0
      rw [Val.fin.injEq, div_eq_iff hd] at e
      have e2 : R i = m := by linarith
      refine ⟨fun j j1 j2 => by rw [e2]; exact hm j j1 j2, p, p1, p2, ?_⟩
      rw [← p3, e2]
      exact lt_of_le_of_ne (by linarith) (Ne.symm h0)
    · rintro ⟨e1, j, j1, j2, j3⟩
      have e2 : R i = m := le_antisymm (q3 ▸ e1 q q1 q2) c2
      have h0 : m < M := by rw [← e2]; exact j3.trans_le (hM j j1 j2)
      rw [if_neg h0.ne', e2, sub_self, zero_div]

/-! ## MFI and CMF -/

/-- C118: MFI is 100 exactly when, over the window, the typical price never fell from one row to the next and rose at least
once; 0 exactly when it never rose and fell at least once. -/
theorem mfi_limits {n : Nat} {h l c v : Nat → K} (hpos : ∀ i, 0 < (h i + l i + c i) / 3 ∧ 0 < v i) {w : Nat} (hw : 1 ≤ w)
    {i : Nat} (hi : i < n) (hr : w - 1 ≤ i) :
    let tp := fun j => (h j + l j + c j) / 3
    (ix (moneyFlowIndex (ser n h) (ser n l) (ser n c) (ser n v) w false) i = .fin 100 ↔
      (∀ j, i < j + 1 + w → j + 1 ≤ i → tp j ≤ tp (j + 1)) ∧ ∃ j, i < j + 1 + w ∧ j + 1 ≤ i ∧ tp j < tp (j + 1)) ∧
    (ix (moneyFlowIndex (ser n h) (ser n l) (ser n c) (ser n v) w false) i = .fin 0 ↔
      (∀ j, i < j + 1 + w → j + 1 ≤ i → tp (j + 1) ≤ tp j) ∧ ∃ j, i < j + 1 + w ∧ j + 1 ≤ i ∧ tp (j + 1) < tp j) := by
  intro tp
  obtain ⟨e1, -, -, hv⟩ := mfi_formula n h l c v w false hw
  have cf : ∀ (v : Fill (Val K)) (s : Series (Val K)), checkFillna false v s = s := fun _ _ => rfl
  rw [e1, cf, hv i hi (.inr hr)]
  clear e1 hv
  set m := mflow (fun i => (h i + l i + c i) / 3) v with hm
  set P := ∑ j ∈ Finset.Ico (i + 1 - w) (i + 1), max (m j) 0 with hP
  set N := ∑ j ∈ Finset.Ico (i + 1 - w) (i + 1), max (-m j) 0 with hN
  have p0 : 0 ≤ P := Finset.sum_nonneg fun _ _ => le_max_right _ _
  have n0 : 0 ≤ N := Finset.sum_nonneg fun _ _ => le_max_right _ _
  have up : ∀ j, 0 < m (j + 1) ↔ tp j < tp (j + 1) := by
    intro j
    have hp := mul_pos (hpos (j + 1)).1 (hpos (j + 1)).2
    rw [hm]
    unfold mflow
    rw [if_neg (by omega), Nat.add_sub_cancel]
    split_ifs with a b
    · exact iff_of_true hp a
    · exact iff_of_false (by simpa using hp.le) a
    · exact iff_of_false (lt_irrefl _) a
  have down : ∀ j, m (j + 1) < 0 ↔ tp (j + 1) < tp j := by
    intro j
    have hp := mul_pos (hpos (j + 1)).1 (hpos (j + 1)).2
    rw [hm]
    unfold mflow
    rw [if_neg (by omega), Nat.add_sub_cancel]
    split_ifs with a b
    · exact iff_of_false (not_lt.mpr hp.le) (not_lt.mpr (le_of_lt a))
    · exact iff_of_true (by simpa using hp) b
    · exact iff_of_false (lt_irrefl _) b
  have m0 : m 0 = 0 := by rw [hm]; unfold mflow; rw [if_pos rfl]
  have zP : P = 0 ↔ ∀ j, i < j + 1 + w → j + 1 ≤ i → tp (j + 1) ≤ tp j := by
    rw [hP, Finset.sum_eq_zero_iff_of_nonneg fun _ _ => le_max_right _ _]
    constructor
    · intro q j j1 j2
      have := q (j + 1) (Finset.mem_Ico.mpr ⟨by omega, by omega⟩)
      rw [max_eq_right_iff] at this
      exact not_lt.mp fun hc => absurd ((up j).mpr hc) (not_lt.mpr this)
    · intro q j hj
      rw [Finset.mem_Ico] at hj
      rw [max_eq_right_iff]
      cases j with
      | zero => exact m0.le
      | succ j => exact not_lt.mp fun hc => absurd ((up j).mp hc) (not_lt.mpr (q j (by omega) (by omega)))
  have zN : N = 0 ↔ ∀ j, i < j + 1 + w → j + 1 ≤ i → tp j ≤ tp (j + 1) := by
    rw [hN, Finset.sum_eq_zero_iff_of_nonneg fun _ _ => le_max_right _ _]
    constructor
    · intro q j j1 j2
      have := q (j + 1) (Finset.mem_Ico.mpr ⟨by omega, by omega⟩)
      rw [max_eq_right_iff, neg_nonpos] at this
      exact not_lt.mp fun hc => absurd ((down j).mpr hc) (not_lt.mpr this)
    · intro q j hj
      rw [Finset.mem_Ico] at hj
      rw [max_eq_right_iff, neg_nonpos]
      cases j with
      | zero => exact m0.ge
      | succ j => exact not_lt.mp fun hc => absurd ((down j).mp hc) (not_lt.mpr (q j (by omega) (by omega)))
  have nP : P ≠ 0 ↔ ∃ j, i < j + 1 + w ∧ j + 1 ≤ i ∧ tp j < tp (j + 1) := by
    rw [Ne, zP]; push Not; rfl
  have nN : N ≠ 0 ↔ ∃ j, i < j + 1 + w ∧ j + 1 ≤ i ∧ tp (j + 1) < tp j := by
    rw [Ne, zN]; push Not; rfl
  rw [← zP, ← zN, ← nP, ← nN]
  by_cases h0 : P + N = 0
  · have e1 : P = 0 := by linarith
    have e2 : N = 0 := by linarith
    rw [if_pos h0]
    simp [e1, e2]
  · rw [if_neg h0, Val.fin.injEq, Val.fin.injEq, div_eq_iff h0, div_eq_iff h0]
    constructor
    · constructor
      · intro q
        have : N = 0 := by linarith
        exact ⟨this, fun hp => h0 (by rw [hp, this, add_zero])⟩
      · rintro ⟨q, -⟩; rw [q, add_zero]
    · constructor
      · intro q
        have : P = 0 := by linarith
        exact ⟨this, fun hp => h0 (by rw [hp, this, add_zero])⟩
      · rintro ⟨q, -⟩
        show 100 * P = 0 * (P + N)
        rw [q, mul_zero, zero_mul]

/-- C118: CMF is 1 (-1) exactly when every bar of the window has a range and closes at its high (low). -/
theorem cmf_limits {n : Nat} {h l c v : Nat → K} {w : Nat} {fillna : Bool} (hw : 1 ≤ w) (hv : ∀ i, 0 < v i) (hlc : ∀ i, l i ≤ c i)
    (hch : ∀ i, c i ≤ h i) {i : Nat} (hi : i < n) (hr : fillna = true ∨ w - 1 ≤ i) :
    (ix (chaikinMoneyFlow (ser n h) (ser n l) (ser n c) (ser n v) w fillna) i = .fin 1 ↔
      ∀ j, j ≤ i → i < j + w → l j < h j ∧ c j = h j) ∧
    (ix (chaikinMoneyFlow (ser n h) (ser n l) (ser n c) (ser n v) w fillna) i = .fin (-1) ↔
      ∀ j, j ≤ i → i < j + w → l j < h j ∧ c j = l j) := by
  rw [(cmf_formula n h l c v w fillna hw hv hlc hch).val i hi (by split_ifs with q <;> simp_all)]
  obtain ⟨q, hq⟩ : ∃ q : Nat → K, ∀ j, q j = if h j = l j then 0 else ((c j - l j) - (h j - c j)) / (h j - l j) := ⟨_, fun _ => rfl⟩
  simp only [← hq]
  have hV : 0 < ∑ j ∈ Finset.Ico (i + 1 - w) (i + 1), v j :=
    Finset.sum_pos (fun j _ => hv j) ⟨i, Finset.mem_Ico.mpr ⟨by omega, by omega⟩⟩
  have q1 : ∀ j, q j ≤ 1 ∧ (q j = 1 ↔ l j < h j ∧ c j = h j) := by
    intro j
    have a := hlc j
    have b := hch j
    rw [hq]
    split_ifs with e
    · exact ⟨zero_le_one, iff_of_false zero_ne_one (fun k => by linarith [k.1])⟩
    · have d : 0 < h j - l j := sub_pos.mpr (lt_of_le_of_ne (a.trans b) (Ne.symm e))
      refine ⟨by rw [div_le_one d]; linarith, ?_⟩
      rw [div_eq_one_iff_eq d.ne']
      constructor
      · intro k; exact ⟨by linarith, by linarith⟩
      · rintro ⟨-, k⟩; rw [k]; ring
  have q2 : ∀ j, -1 ≤ q j ∧ (q j = -1 ↔ l j < h j ∧ c j = l j) := by
    intro j
    have a := hlc j
    have b := hch j
    rw [hq]
    split_ifs with e
    · exact ⟨by norm_num, iff_of_false (by norm_num) (fun k => by linarith [k.1])⟩
    · have d : 0 < h j - l j := sub_pos.mpr (lt_of_le_of_ne (a.trans b) (Ne.symm e))
      refine ⟨by rw [le_div_iff₀ d]; linarith, ?_⟩
      rw [div_eq_iff d.ne']
      constructor
      · intro k; exact ⟨by linarith, by linarith⟩
      · rintro ⟨-, k⟩; rw [k]; ring
  rw [Val.fin.injEq, Val.fin.injEq, div_eq_iff hV.ne', div_eq_iff hV.ne']
  constructor
  · rw [one_mul, eq_comm, ← sub_eq_zero, ← Finset.sum_sub_distrib,
      Finset.sum_eq_zero_iff_of_nonneg fun j _ => by have := mul_le_mul_of_nonneg_right (q1 j).1 (hv j).le; linarith]
    constructor
    · intro k j j1 j2
      have := k j (Finset.mem_Ico.mpr ⟨by omega, by omega⟩)
      refine (q1 j).2.mp (mul_right_cancel₀ (hv j).ne' ?_)
      linarith
    · intro k j hj
      rw [Finset.mem_Ico] at hj
      rw [(q1 j).2.mpr (k j (by omega) (by omega))]; ring
  · rw [← sub_eq_zero, neg_one_mul, sub_neg_eq_add, ← Finset.sum_add_distrib,
      Finset.sum_eq_zero_iff_of_nonneg fun j _ => by have := mul_le_mul_of_nonneg_right (q2 j).1 (hv j).le; linarith]
    constructor
    · intro k j j1 j2
      have := k j (Finset.mem_Ico.mpr ⟨by omega, by omega⟩)
      refine (q2 j).2.mp (mul_right_cancel₀ (hv j).ne' ?_)
      linarith
    · intro k j hj
      rw [Finset.mem_Ico] at hj
      rw [(q2 j).2.mpr (k j (by omega) (by omega))]; ring

/-! ## Ultimate oscillator -/

/-- C118: the ultimate oscillator is 100 exactly when each bar of the longest window closes at its high and not below the
close before, 0 exactly when each closes at its low and not above the close before. -/
theorem uo_limits {n : Nat} {h l c : Nat → K} (hl : ∀ i, i < n → l i ≤ c i ∧ c i ≤ h i) {w1 w2 w3 : Nat} (p1 : 1 ≤ w1)
    (p2 : 1 ≤ w2) (p3 : 1 ≤ w3) {a b d : K} (ha : 0 < a) (hb : 0 < b) (hd : 0 < d) {i : Nat} (hi : i < n)
    (hr : max w1 (max w2 w3) ≤ i)
    (hmove : ∀ w, w = w1 ∨ w = w2 ∨ w = w3 → ∃ j, j ≤ i ∧ i < j + w ∧ min (l j) (c (j - 1)) < max (h j) (c (j - 1))) :
    let out := ultimateOscillator (ser n h) (ser n l) (ser n c) w1 w2 w3 (.fin a) (.fin b) (.fin d) false
    (ix out i = .fin 100 ↔ ∀ j, j ≤ i → i < j + max w1 (max w2 w3) → c j = h j ∧ c (j - 1) ≤ c j) ∧
    (ix out i = .fin 0 ↔ ∀ j, j ≤ i → i < j + max w1 (max w2 w3) → c j = l j ∧ c j ≤ c (j - 1)) := by
  intro out
  have hs : 0 < a + b + d := by linarith
  obtain ⟨-, -, hv⟩ := uo_formula n h l c hl w1 w2 w3 p1 p2 p3 a b d hs.ne'
  obtain ⟨bp, hbp⟩ : ∃ bp : Nat → K, ∀ j, bp j = c j - min (l j) (c (j - 1)) := ⟨_, fun _ => rfl⟩
  obtain ⟨tr, htr⟩ : ∃ tr : Nat → K, ∀ j, tr j = max (h j) (c (j - 1)) - min (l j) (c (j - 1)) := ⟨_, fun _ => rfl⟩
  simp only [← hbp, ← htr] at hv
  have t0 : ∀ j, j ≤ i → 0 ≤ bp j ∧ bp j ≤ tr j ∧ (bp j = tr j ↔ c j = h j ∧ c (j - 1) ≤ c j) ∧ (bp j = 0 ↔ c j = l j ∧ c j ≤ c (j - 1)) := by
    intro j hj
    obtain ⟨e1, e2⟩ := hl j (by omega)
    rw [hbp, htr]
    have m1 := min_le_left (l j) (c (j - 1))
    have m2 := le_max_left (h j) (c (j - 1))
    refine ⟨by linarith, by linarith, ?_, ?_⟩
    · constructor
      · intro e
        have e3 : c j = max (h j) (c (j - 1)) := by linarith
        have e4 := le_max_right (h j) (c (j - 1))
        exact ⟨le_antisymm e2 (by linarith), by linarith⟩
      · rintro ⟨k1, k2⟩
        rw [max_eq_left (by linarith), k1]
    · constructor
      · intro e
        have e3 : c j = min (l j) (c (j - 1)) := by linarith
        have e4 := min_le_right (l j) (c (j - 1))
        exact ⟨le_antisymm (by linarith) e1, by linarith⟩
      · rintro ⟨k1, k2⟩
        rw [min_eq_left (by linarith), k1, sub_self]
  have mem : ∀ {w j : Nat}, j ∈ Finset.Ioc (i - w) i → j ≤ i := fun hj => (Finset.mem_Ioc.mp hj).2
  have T : ∀ w, w = w1 ∨ w = w2 ∨ w = w3 → 0 < ∑ j ∈ Finset.Ioc (i - w) i, tr j := by
    intro w hw
    obtain ⟨j, j1, j2, j3⟩ := hmove w hw
    have hwi : w ≤ i := by rcases hw with rfl | rfl | rfl <;> omega
    refine Finset.sum_pos' (fun k hk => ((t0 k (mem hk)).1.trans (t0 k (mem hk)).2.1)) ⟨j, Finset.mem_Ioc.mpr ⟨by omega, j1⟩, ?_⟩
    rw [htr]; linarith
  have B : ∀ w, 0 ≤ ∑ j ∈ Finset.Ioc (i - w) i, bp j := fun w => Finset.sum_nonneg fun k hk => (t0 k (mem hk)).1
  have BT : ∀ w, ∑ j ∈ Finset.Ioc (i - w) i, bp j ≤ ∑ j ∈ Finset.Ioc (i - w) i, tr j := fun w =>
    Finset.sum_le_sum fun k hk => (t0 k (mem hk)).2.1
  have one : ∀ w, w = w1 ∨ w = w2 ∨ w = w3 →
      0 ≤ (∑ j ∈ Finset.Ioc (i - w) i, bp j) / ∑ j ∈ Finset.Ioc (i - w) i, tr j ∧
      (∑ j ∈ Finset.Ioc (i - w) i, bp j) / (∑ j ∈ Finset.Ioc (i - w) i, tr j) ≤ 1 ∧
      ((∑ j ∈ Finset.Ioc (i - w) i, bp j) / (∑ j ∈ Finset.Ioc (i - w) i, tr j) = 1 ↔
        ∀ j, j ≤ i → i < j + w → c j = h j ∧ c (j - 1) ≤ c j) ∧
      ((∑ j ∈ Finset.Ioc (i - w) i, bp j) / (∑ j ∈ Finset.Ioc (i - w) i, tr j) = 0 ↔
        ∀ j, j ≤ i → i < j + w → c j = l j ∧ c j ≤ c (j - 1)) := by
    intro w hw
    have hwi : w ≤ i := by rcases hw with rfl | rfl | rfl <;> omega
    have hT := T w hw
    refine ⟨div_nonneg (B w) hT.le, by rw [div_le_one hT]; exact BT w, ?_, ?_⟩
    · rw [div_eq_one_iff_eq hT.ne', eq_comm, ← sub_eq_zero, ← Finset.sum_sub_distrib,
        Finset.sum_eq_zero_iff_of_nonneg fun j hj => sub_nonneg.mpr (t0 j (mem hj)).2.1]
      constructor
      · intro k j j1 j2
        exact (t0 j j1).2.2.1.mp (by have := k j (Finset.mem_Ioc.mpr ⟨by omega, j1⟩); linarith)
      · intro k j hj
        rw [Finset.mem_Ioc] at hj
        rw [(t0 j hj.2).2.2.1.mpr (k j hj.2 (by omega)), sub_self]
    · rw [div_eq_zero_iff, or_iff_left hT.ne', Finset.sum_eq_zero_iff_of_nonneg fun j hj => (t0 j (mem hj)).1]
      constructor
      · intro k j j1 j2
        exact (t0 j j1).2.2.2.mp (k j (Finset.mem_Ioc.mpr ⟨by omega, j1⟩))
      · intro k j hj
        rw [Finset.mem_Ioc] at hj
        exact (t0 j hj.2).2.2.2.mpr (k j hj.2 (by omega))
  have hv' := hv i hi hr fun w hw => (T w hw).ne'
  obtain ⟨x1, x2, x3, x4⟩ := one w1 (.inl rfl)
  obtain ⟨y1, y2, y3, y4⟩ := one w2 (.inr (.inl rfl))
  obtain ⟨z1, z2, z3, z4⟩ := one w3 (.inr (.inr rfl))
  show (ix (ultimateOscillator _ _ _ w1 w2 w3 _ _ _ false) i = _ ↔ _) ∧ (ix (ultimateOscillator _ _ _ w1 w2 w3 _ _ _ false) i = _ ↔ _)
  rw [hv']
  clear hv hv' one T B BT
  generalize (∑ j ∈ Finset.Ioc (i - w1) i, bp j) / ∑ j ∈ Finset.Ioc (i - w1) i, tr j = X at *
  generalize (∑ j ∈ Finset.Ioc (i - w2) i, bp j) / ∑ j ∈ Finset.Ioc (i - w2) i, tr j = Y at *
  generalize (∑ j ∈ Finset.Ioc (i - w3) i, bp j) / ∑ j ∈ Finset.Ioc (i - w3) i, tr j = Z at *
  have split : ∀ Q : Nat → Prop, (∀ j, j ≤ i → i < j + max w1 (max w2 w3) → Q j) ↔
      (∀ j, j ≤ i → i < j + w1 → Q j) ∧ (∀ j, j ≤ i → i < j + w2 → Q j) ∧ ∀ j, j ≤ i → i < j + w3 → Q j := by
    intro Q
    constructor
    · intro k
      exact ⟨fun j a b => k j a (by omega), fun j a b => k j a (by omega), fun j a b => k j a (by omega)⟩
    · rintro ⟨k1, k2, k3⟩ j j1 j2
      by_cases q1 : i < j + w1
      · exact k1 j j1 q1
      by_cases q2 : i < j + w2
      · exact k2 j j1 q2
      · exact k3 j j1 (by omega)
  rw [split, split, ← x3, ← y3, ← z3, ← x4, ← y4, ← z4, Val.fin.injEq, Val.fin.injEq, div_eq_iff hs.ne', div_eq_iff hs.ne']
  constructor
  · constructor
    · intro e
      have k1 := mul_nonneg ha.le (sub_nonneg.mpr x2)
      have k2 := mul_nonneg hb.le (sub_nonneg.mpr y2)
      have k3 := mul_nonneg hd.le (sub_nonneg.mpr z2)
      have e1 : a * (1 - X) = 0 := by nlinarith
      have e2 : b * (1 - Y) = 0 := by nlinarith
      have e3 : d * (1 - Z) = 0 := by nlinarith
      have f1 := (mul_eq_zero.mp e1).resolve_left ha.ne'
      have f2 := (mul_eq_zero.mp e2).resolve_left hb.ne'
      have f3 := (mul_eq_zero.mp e3).resolve_left hd.ne'
      exact ⟨by linarith, by linarith, by linarith⟩
    · rintro ⟨rfl, rfl, rfl⟩; ring
  · constructor
    · intro e
      have k1 := mul_nonneg ha.le x1
      have k2 := mul_nonneg hb.le y1
      have k3 := mul_nonneg hd.le z1
      have e1 : a * X = 0 := by linarith
      have e2 : b * Y = 0 := by linarith
      have e3 : d * Z = 0 := by linarith
      exact ⟨(mul_eq_zero.mp e1).resolve_left ha.ne', (mul_eq_zero.mp e2).resolve_left hb.ne', (mul_eq_zero.mp e3).resolve_left hd.ne'⟩
    · rintro ⟨rfl, rfl, rfl⟩; ring

/-! ## Aroon and the directional indicators -/

/-- C118: Aroon Up is 0 exactly when no later high of the window exceeds the oldest one, Aroon Down is 0 exactly when no
later low is below the oldest one, and Aroon Down is 100 exactly when the newest low is below all others. -/
theorem aroon_limits {n : Nat} {h l : Nat → K} {w : Nat} {fillna : Bool} {o : Aroon (Val K)} (hw : 1 ≤ w)
    (ho : Aroon.new (ser n h) (ser n l) w fillna = .ok o) {i : Nat} (hi : i < n) (hwi : w ≤ i) :
    (ix o.aroonUp i = .fin 0 ↔ ∀ j, i - w < j → j ≤ i → h j ≤ h (i - w)) ∧
    (ix o.aroonDown i = .fin 0 ↔ ∀ j, i - w < j → j ≤ i → l (i - w) ≤ l j) ∧
    (ix o.aroonDown i = .fin 100 ↔ ∀ j, i - w ≤ j → j < i → l i < l j) := by
  obtain ⟨ku, kd, hu, hd, du, dd, -⟩ := aroon_formula hw ho
  rw [du.val i hi (by split_ifs <;> omega), dd.val i hi (by split_ifs <;> omega)]
  have hp : (0 : K) < w := by exact_mod_cast hw
  have e0 : ∀ k : Nat, (Val.fin (100 * (k : K) / w) = Val.fin 0) ↔ k = 0 := by
    intro k
    rw [Val.fin.injEq, div_eq_iff hp.ne', zero_mul, mul_eq_zero]
    constructor
    · rintro (q | q)
      · norm_num at q
      · exact_mod_cast q
    · intro q; right; exact_mod_cast q
  have e1 : ∀ k : Nat, (Val.fin (100 * (k : K) / w) = Val.fin 100) ↔ k = w := by
    intro k
    rw [Val.fin.injEq, div_eq_iff hp.ne']
    constructor
    · intro q
      have h4 : (k : K) = w := by linarith
      exact_mod_cast h4
    · intro q; rw [q]
  have first : ∀ (x : Nat → K) (k : Nat), IsOldestMax x w i k → (k = 0 ↔ ∀ j, i - w < j → j ≤ i → x j ≤ x (i - w)) := by
    rintro x k ⟨h1, h2, h3⟩
    constructor
    · rintro rfl j j1 j2
      exact h2 j (by omega) j2
    · intro hs
      by_contra hk
      have k1 := h3 (i - w) (le_refl _) (by omega)
      have k2 := hs (i - w + k) (by omega) h1
      linarith
  have last : ∀ (x : Nat → K) (k : Nat), IsOldestMax x w i k → (k = w ↔ ∀ j, i - w ≤ j → j < i → x j < x i) := by
    rintro x k ⟨h1, h2, h3⟩
    constructor
    · intro hk j j1 j2
      rw [hk, Nat.sub_add_cancel hwi] at h3
      exact h3 j j1 j2
    · intro hs
      by_contra hne
      have k1 := hs _ (by omega) (by omega : i - w + k < i)
      have k2 := h2 i (by omega) (le_refl _)
      linarith
  rw [e0, e0, e1, first _ _ (hu i), first _ _ (hd i), last _ _ (hd i)]
  simp only [neg_le_neg_iff, neg_lt_neg_iff, and_self]

theorem wil_zero_iff {f : Nat → K} (hf : ∀ j, 0 ≤ f j) {w : Nat} (hw : 2 ≤ w) (i : Nat) :
    wil f w i = 0 ↔ ∀ j, 1 ≤ j → j ≤ w + i → f j = 0 := by
  induction i with
  | zero =>
    unfold wil
    rw [Finset.sum_eq_zero_iff_of_nonneg fun _ _ => hf _]
    constructor
    · intro q j j1 j2; exact q j (Finset.mem_Ico.mpr ⟨j1, by omega⟩)
    · intro q j hj; rw [Finset.mem_Ico] at hj; exact q j hj.1 (by omega)
  | succ i ih =>
    have hw0 : (0 : K) < w := by exact_mod_cast (by omega : 0 < w)
    have hw1 : (1 : K) < w := by exact_mod_cast (by omega : 1 < w)
    have p := wil_nonneg hf (by omega : 1 ≤ w) i
    have e : wil f w (i + 1) = wil f w i * (1 - 1 / w) + f (w + 1 + i) := by
      show wil f w i - wil f w i / w + f (w + 1 + i) = _
      ring
    have h1 : 0 < 1 - 1 / (w : K) := by
      rw [sub_pos, div_lt_one hw0]; exact hw1
    have p1 := mul_nonneg p h1.le
    have p2 := hf (w + 1 + i)
    rw [e]
    constructor
    · intro q j j1 j2
      have e1 : wil f w i * (1 - 1 / w) = 0 := by linarith
      have e2 := (mul_eq_zero.mp e1).resolve_right h1.ne'
      by_cases hj : j ≤ w + i
      · exact ih.mp e2 j j1 hj
      · rw [show j = w + 1 + i by omega]; linarith
    · intro q
      rw [ih.mpr fun j j1 j2 => q j j1 (by omega), q (w + 1 + i) (by omega) (by omega)]
      ring

/-- C118: +DI (-DI) is 0 exactly when no row since the first had an upward (downward) directional movement. -/
theorem di_limits {n : Nat} {h l c : Nat → K} (hlc : ∀ i, l i ≤ c i) (hch : ∀ i, c i ≤ h i) {w : Nat} (hw : 2 ≤ w) {fillna : Bool}
    {o : ADX (Val K)} (ho : ADX.new (ser n h) (ser n l) (ser n c) w fillna = .ok o) {i : Nat} (hi : i < n) (hwi : w < i) :
    (ix o.adxPos i = .fin 0 ↔ ∀ j, j < i → ¬ (h j < h (j + 1) ∧ l j - l (j + 1) < h (j + 1) - h j)) ∧
    (ix o.adxNeg i = .fin 0 ↔ ∀ j, j < i → ¬ (l (j + 1) < l j ∧ h (j + 1) - h j < l j - l (j + 1))) := by
  obtain ⟨hp, hm⟩ := adx_di_formula ho
  rw [hp.val i hi (Nat.zero_le _), hm.val i hi (Nat.zero_le _), if_neg (by omega), if_neg (by omega), Val.fin.injEq, Val.fin.injEq]
  have up0 := wil_nonneg (dmUp_nonneg h l) (by omega : 1 ≤ w) (i - w)
  have dn0 := wil_nonneg (dmDown_nonneg h l) (by omega : 1 ≤ w) (i - w)
  have s := wil_mono (by omega : 1 ≤ w) (fun j _ => dm_le_tr hlc hch j) (i - w)
  rw [wil_add] at s
  have dz : ∀ {t d : K}, 0 ≤ d → d ≤ t → (dirInd t d = 0 ↔ d = 0) := by
    intro t d h0 h1
    unfold dirInd
    split_ifs with ht
    · exact iff_of_true rfl (by linarith)
    · rw [div_eq_zero_iff, or_iff_left ht, mul_eq_zero]
      exact or_iff_right (by norm_num)
  unfold plusDI minusDI
  rw [dz up0 (by linarith), dz dn0 (by linarith), wil_zero_iff (dmUp_nonneg h l) hw, wil_zero_iff (dmDown_nonneg h l) hw,
    show w + (i - w) = i by omega]
  constructor
  · constructor
    · rintro q j hj ⟨k1, k2⟩
      have := q (j + 1) (by omega) (by omega)
      unfold dmUp at this
      rw [Nat.add_sub_cancel, if_pos ⟨k2, sub_pos.mpr k1⟩] at this
      linarith
    · intro q j j1 j2
      obtain ⟨k, rfl⟩ : ∃ k, j = k + 1 := ⟨j - 1, by omega⟩
      unfold dmUp
      rw [Nat.add_sub_cancel, if_neg fun k3 => q k (by omega) ⟨sub_pos.mp k3.2, k3.1⟩]
  · constructor
    · rintro q j hj ⟨k1, k2⟩
      have := q (j + 1) (by omega) (by omega)
      unfold dmDown at this
      rw [Nat.add_sub_cancel, if_pos ⟨k2, sub_pos.mpr k1⟩] at this
      linarith
    · intro q j j1 j2
      obtain ⟨k, rfl⟩ : ∃ k, j = k + 1 := ⟨j - 1, by omega⟩
      unfold dmDown
      rw [Nat.add_sub_cancel, if_neg fun k3 => q k (by omega) ⟨sub_pos.mp k3.2, k3.1⟩]

/-! ## examples -/

example : rsi (qs [1, 2, 2, 3, 2, 1]) 2 = .ok [.nan, .fin 100, .fin 100, .fin 100, .fin (500 / 13), .fin (500 / 29)] ∧
    rsi (qs [3, 3, 2, 1, 1, 2]) 2 = .ok [.nan, .fin 100, .fin 0, .fin 0, .fin 0, .fin (800 / 11)] := by decide +kernel
example : tsi (qs [1, 2, 2, 3, 2]) 2 2 = .ok [.nan, .nan, .nan, .fin 100, .fin (-500 / 67)] ∧
    tsi (qs [3, 3, 2, 1, 1, 2]) 2 2 = .ok [.nan, .nan, .nan, .fin (-100), .fin (-100), .fin (100 / 3)] := by decide +kernel
example : stoch (qs [3, 4, 5, 5]) (qs [1, 2, 3, 1]) (qs [2, 4, 3, 1]) 2 = [.nan, .fin 100, .fin (100 / 3), .fin 0] ∧
    williamsR (qs [3, 4, 5, 5]) (qs [1, 2, 3, 1]) (qs [2, 4, 3, 1]) 2 = [.nan, .fin 0, .fin (-200 / 3), .fin (-100)] := by
  decide +kernel
example : moneyFlowIndex (qs [3, 4, 5, 4, 3]) (qs [3, 4, 5, 4, 3]) (qs [3, 4, 5, 4, 3]) (qs [1, 1, 1, 1, 1]) 2 =
    [.nan, .fin 100, .fin 100, .fin (500 / 9), .fin 0] := by decide +kernel
example : chaikinMoneyFlow (qs [3, 4, 5, 5]) (qs [1, 2, 3, 3]) (qs [3, 4, 3, 3]) (qs [1, 2, 1, 3]) 2 =
    [.nan, .fin 1, .fin (1 / 3), .fin (-1)] := by decide +kernel
example : ultimateOscillator (qs [3, 4, 5, 6, 6]) (qs [1, 2, 3, 1, 0]) (qs [3, 4, 5, 1, 0]) 1 2 2 (.fin 4) (.fin 2) (.fin 1) =
    [.nan, .nan, .fin 100, .fin (600 / 49), .fin 0] := by decide +kernel
example : (ADX.new (qs [3, 4, 5, 6, 7, 8]) (qs [1, 2, 3, 4, 5, 6]) (qs [2, 3, 4, 5, 6, 7]) 2).toOption.map
    (fun o => (o.adxPos, o.adxNeg)) = some (qs [0, 0, 0, 50, 50, 50], qs [0, 0, 0, 0, 0, 0]) := by decide +kernel

end TA
