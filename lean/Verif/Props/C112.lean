import Verif.Props.C32
import Verif.Props.C75
import Verif.Props.C97
import Verif.Props.C98
import Verif.Props.C99
import Verif.Props.C100

/-!
# C112 — When a line turns

Which way an output moves from one row to the next can be read off another number that is known on the row: an EMA rises exactly when the
close is above it, an SMA when the close is above the one that leaves the window, a signal line when the histogram is positive, …
-/

set_option linter.unusedSectionVars false

namespace TA
open Finset

variable {K : Type} [Field K] [LinearOrder K] [IsStrictOrderedRing K]

/-- Four numbers: `b` is above, at or below `a` exactly as `d` is above, at or below `c`. -/
def SameWay (a b c d : Val K) : Prop :=
  ∃ x y z t, a = .fin x ∧ b = .fin y ∧ c = .fin z ∧ d = .fin t ∧ (x < y ↔ z < t) ∧ (y < x ↔ t < z)

theorem scaled_neg {k a : K} (hk : 0 < k) : k * a < 0 ↔ a < 0 := by
  rw [← neg_pos, ← mul_neg, mul_pos_iff_of_pos_left hk, neg_pos]

theorem sameWay_fin {x y z t k : K} (hk : 0 < k) (h : y - x = k * (t - z)) : SameWay (.fin x) (.fin y) (.fin z) (.fin t) := by
  refine ⟨x, y, z, t, rfl, rfl, rfl, rfl, ?_, ?_⟩
  · rw [← sub_pos, h, mul_pos_iff_of_pos_left hk, sub_pos]
  · rw [← sub_neg, h, scaled_neg hk, sub_neg]

/-! ## moving averages -/

theorem obs_local {s : Series (Val K)} {f : Nat → K} {w i : Nat} (h : ∀ j, j ≤ i → i < j + w → ix s j = .fin (f j)) : obs s w i = (winIx w i).map f := by
  unfold obs
  rw [← nums_fin ((winIx w i).map f), List.map_map]
  congr 1
  refine List.map_congr_left fun j hj => ?_
  rw [mem_winIx] at hj
  exact h j hj.1 hj.2

/-- **SMA** of any series: it rises exactly if the value that enters is above the value that leaves. -/
theorem sma_turns {s : Series (Val K)} {w i : Nat} (hw : 1 ≤ w) (hi : i + 1 < s.length) (hwi : w ≤ i + 1)
    (hfin : ∀ j, i + 1 - w ≤ j → j ≤ i + 1 → (ix s j).IsFin) :
    SameWay (ix (smaIndicator s w) i) (ix (smaIndicator s w) (i + 1)) (ix s (i + 1 - w)) (ix s (i + 1)) := by
  have hf : ∃ f : Nat → K, ∀ j, i + 1 - w ≤ j → j ≤ i + 1 → ix s j = .fin (f j) := by
    refine ⟨fun j => match ix s j with | .fin x => x | _ => 0, fun j h1 h2 => ?_⟩
    obtain ⟨y, hy⟩ := hfin j h1 h2
    simp only [hy]
  obtain ⟨f, hf⟩ := hf
  have w0 : (0 : K) < w := by exact_mod_cast hw
  have row : ∀ k, k = i ∨ k = i + 1 → ix (smaIndicator s w) k = .fin ((∑ j ∈ Ico (k + 1 - w) (k + 1), f j) / w) := by
    intro k hk
    show ix (rollMean w w s) k = _
    rw [ix_rollMean (by omega), obs_local (f := f) (fun j h1 h2 => hf j (by omega) (by omega)), List.length_map, length_winIx, min_eq_left (by omega),
      if_pos ⟨le_rfl, hw⟩]
    rfl
  rw [row i (.inl rfl), row (i + 1) (.inr rfl), hf _ le_rfl (by omega), hf (i + 1) (by omega) le_rfl]
  refine sameWay_fin (k := 1 / (w : K)) (by positivity) ?_
  rw [sum_window f hw, if_pos hwi]
  field_simp
  ring

/-- SMA of closes: the direction of the average is the sign of the rate of change over the same window. -/
theorem sma_roc {n : Nat} {c : Nat → K} (hc : ∀ i, 0 < c i) {w i : Nat} (hw : 1 ≤ w) (hi : i + 1 < n) (hwi : w ≤ i + 1) :
    SameWay (ix (smaIndicator (ser n c) w) i) (ix (smaIndicator (ser n c) w) (i + 1)) (.fin 0) (ix (roc (ser n c) w false) (i + 1)) := by
  have S := sma_formula n c w hw
  have R := (roc_formula n (fun i => (hc i).ne') w).1
  rw [S.val i (by omega) (by omega), S.val (i + 1) hi (by omega), R.val (i + 1) hi (by omega)]
  have w0 : (0 : K) < w := by exact_mod_cast hw
  have c0 := hc (i + 1 - w)
  refine sameWay_fin (k := c (i + 1 - w) / (100 * w)) (by positivity) ?_
  rw [sum_window c hw, if_pos hwi]
  field_simp
  ring

/-- **EMA** of a series that is NaN up to some row and numbers from there on: it rises exactly if the new value is above the old average,
and (window 2 or more) exactly if it is above the new one. -/
theorem ema_turns {s : Series (Val K)} {n p : Nat} {f : Nat → K} (hs : Def s n p f) {w i : Nat} {fillna : Bool} {out : Series (Val K)}
    (ho : emaIndicator s w fillna = .ok out) (hi : i + 1 < n) (hp : p + (if fillna then 0 else w - 1) ≤ i) :
    SameWay (ix out i) (ix out (i + 1)) (ix out i) (ix s (i + 1)) ∧ (2 ≤ w → SameWay (ix out i) (ix out (i + 1)) (ix out (i + 1)) (ix s (i + 1))) := by
  rw [emaIndicator_eq] at ho
  split_ifs at ho with h1
  have hw : 1 ≤ w := by omega
  obtain rfl := Except.ok.inj ho
  have E := hs.ema hw fillna
  rw [E.val i (by omega) hp, E.val (i + 1) hi (by omega), hs.val (i + 1) hi (by omega)]
  have a0 := span_pos (K := K) w
  have e : emaW w (fun j => f (p + j)) (i + 1 - p) = (1 - 2 / ((w : K) + 1)) * emaW w (fun j => f (p + j)) (i - p) + 2 / ((w : K) + 1) * f (i + 1) := by
    rw [show i + 1 - p = i - p + 1 by omega]
    unfold emaW
    rw [emaRec, show p + (i - p + 1) = i + 1 by omega]
  rw [e]
  refine ⟨sameWay_fin a0 (by ring), fun h2 => ?_⟩
  have a1 : 2 / ((w : K) + 1) < 1 := by
    have : (2 : K) ≤ w := by exact_mod_cast h2
    rw [div_lt_one (by linarith)]; linarith
  generalize 2 / ((w : K) + 1) = a at *
  have b0 : 0 < 1 - a := by linarith
  refine sameWay_fin (k := a / (1 - a)) (by positivity) ?_
  field_simp
  ring

theorem abel_steps (y : Nat → K) (w : Nat) : ∑ k ∈ range w, ((k : K) + 1) * (y (k + 1) - y k) = w * y w - ∑ k ∈ range w, y k := by
  induction w with
  | zero => simp
  | succ w ih =>
    rw [Finset.sum_range_succ, Finset.sum_range_succ, ih]
    push_cast
    ring

/-- **WMA**: it rises exactly if the close is above the simple average of the rows before. -/
theorem wma_turns {n : Nat} {c : Nat → K} {w i : Nat} (hw : 1 ≤ w) (hi : i + 1 < n) (hwi : w ≤ i + 1) :
    SameWay (ix (wma (ser n c) w false) i) (ix (wma (ser n c) w false) (i + 1)) (ix (smaIndicator (ser n c) w) i) (ix (ser n c) (i + 1)) := by
  have W := wma_formula n c w hw
  have S := sma_formula n c w hw
  rw [W.val i (by omega) (by omega), W.val (i + 1) hi (by omega), S.val i (by omega) (by omega), (def_ser n c).val (i + 1) hi (Nat.zero_le _)]
  have w0 : (0 : K) < w := by exact_mod_cast hw
  refine sameWay_fin (k := 2 / ((w : K) + 1)) (by positivity) ?_
  have A := abel_steps (fun k => c (i + 1 - w + k)) w
  have e1 : ∑ k ∈ range w, ((k : K) + 1) * (c (i + 1 - w + (k + 1)) - c (i + 1 - w + k))
      = ∑ k ∈ range w, ((k : K) + 1) * c (i + 1 + 1 - w + k) - ∑ k ∈ range w, ((k : K) + 1) * c (i + 1 - w + k) := by
    rw [← Finset.sum_sub_distrib]
    refine Finset.sum_congr rfl fun k _ => ?_
    rw [show i + 1 + 1 - w + k = i + 1 - w + (k + 1) by omega]
    ring
  have e2 : ∑ k ∈ range w, c (i + 1 - w + k) = ∑ j ∈ Ico (i + 1 - w) (i + 1), c j := by
    rw [Finset.sum_Ico_eq_sum_range, show i + 1 - (i + 1 - w) = w by omega]
  rw [e1, e2, show i + 1 - w + w = i + 1 by omega] at A
  generalize ∑ k ∈ range w, ((k : K) + 1) * c (i + 1 + 1 - w + k) = P at *
  generalize ∑ k ∈ range w, ((k : K) + 1) * c (i + 1 - w + k) = Q at *
  generalize ∑ j ∈ Ico (i + 1 - w) (i + 1), c j = T at *
  have : P = Q + (w * c (i + 1) - T) := by linarith
  rw [this]
  field_simp
  ring

/-- **KAMA** (positive slow constant): it rises exactly if the close is above the old average. -/
theorem kama_turns {n : Nat} {c : Nat → K} {w pow1 pow2 i : Nat} (hw : 1 ≤ w) (hi : i + 1 < n) (hwi : w ≤ i + 1) :
    SameWay (ix (kama (ser n c) w pow1 pow2 false) i) (ix (kama (ser n c) w pow1 pow2 false) (i + 1)) (ix (kama (ser n c) w pow1 pow2 false) i) (ix (ser n c) (i + 1)) := by
  obtain ⟨Y, -, y1, hY⟩ := kama_formula n c hw pow1 pow2
  rw [hY.val i (by omega) (by omega), hY.val (i + 1) hi (by omega), (def_ser n c).val (i + 1) hi (Nat.zero_le _)]
  have e := y1 (i + 1) (by omega)
  rw [Nat.add_sub_cancel] at e
  rw [e]
  have er := effRatio_unit c (w := w) (i := i + 1) (by omega)
  have p1 : (0 : K) < 2 / ((pow1 : K) + 1) := by positivity
  have p2 : (0 : K) < 2 / ((pow2 : K) + 1) := by positivity
  refine sameWay_fin (k := (effRatio c w (i + 1) * (2 / ((pow1 : K) + 1) - 2 / ((pow2 : K) + 1)) + 2 / ((pow2 : K) + 1)) ^ 2) (pow_pos ?_ 2) (by ring)
  generalize 2 / ((pow2 : K) + 1) = b at *
  generalize 2 / ((pow1 : K) + 1) = a at *
  generalize effRatio c w (i + 1) = r at *
  rw [show r * (a - b) + b = r * a + (1 - r) * b by ring]
  rcases eq_or_lt_of_le er.1 with h | h
  · rw [← h]; linarith
  · have := mul_pos h p1
    have := mul_nonneg (sub_nonneg.mpr er.2) p2.le
    linarith

/-! ## signal lines -/

theorem signal_turns {L : Nat → K} {q sign i : Nat} (h2 : 2 ≤ sign) (hq : q ≤ i) :
    let S := fun i => emaRec (2 / ((sign : K) + 1)) (fun j => L (q + j)) (i - q)
    SameWay (.fin (S i)) (.fin (S (i + 1))) (.fin 0) (.fin (L (i + 1) - S (i + 1))) := by
  intro S
  have e : S (i + 1) = (1 - 2 / ((sign : K) + 1)) * S i + 2 / ((sign : K) + 1) * L (i + 1) := by
    show emaRec _ _ (i + 1 - q) = _
    rw [show i + 1 - q = i - q + 1 by omega, emaRec, show q + (i - q + 1) = i + 1 by omega]
  rw [e]
  have a0 := span_pos (K := K) sign
  have a1 : 2 / ((sign : K) + 1) < 1 := by
    have : (2 : K) ≤ sign := by exact_mod_cast h2
    rw [div_lt_one (by linarith)]; linarith
  generalize 2 / ((sign : K) + 1) = a at *
  have b0 : 0 < 1 - a := by linarith
  refine sameWay_fin (k := a / (1 - a)) (by positivity) ?_
  field_simp
  ring

/-- **MACD**: the signal line rises exactly while the histogram is positive. -/
theorem macd_turns {n : Nat} {c : Nat → K} {slow fast sign : Nat} {fillna : Bool} {o : MACD (Val K)} (ho : MACD.new (ser n c) slow fast sign fillna = .ok o)
    (h2 : 2 ≤ sign) {i : Nat} (hi : i + 1 < n) (hp : (if fillna then 0 else max slow fast + sign - 2) ≤ i) :
    SameWay (ix o.macdSignal i) (ix o.macdSignal (i + 1)) (.fin 0) (ix o.macdDiff (i + 1)) := by
  obtain ⟨L, S, -, hS, -, dS, dD⟩ := macd_formula ho
  rw [dS.val i (by omega) hp, dS.val (i + 1) hi (by omega), dD.val (i + 1) hi (by omega), hS i, hS (i + 1)]
  exact signal_turns (L := L) h2 (by split_ifs at hp ⊢ <;> omega)

/-- **PPO** (closes) and **PVO** (volumes): likewise. -/
theorem ppo_turns {n : Nat} {x : Nat → K} (hx : ∀ i, 0 < x i) {slow fast sign : Nat} {fillna : Bool} {o : PPO (Val K)} (ho : PPO.new (ser n x) slow fast sign fillna = .ok o)
    (h2 : 2 ≤ sign) {i : Nat} (hi : i + 1 < n) (hp : (if fillna then 0 else max slow fast + sign - 2) ≤ i) :
    SameWay (ix o.ppoSignal i) (ix o.ppoSignal (i + 1)) (.fin 0) (ix o.ppoHist (i + 1)) := by
  obtain ⟨L, S, -, hS, -, dS, dD⟩ := ppo_formula hx ho
  rw [dS.val i (by omega) hp, dS.val (i + 1) hi (by omega), dD.val (i + 1) hi (by omega), hS i, hS (i + 1)]
  exact signal_turns (L := L) h2 (by split_ifs at hp ⊢ <;> omega)

/-- **KST**: the signal line rises exactly if the line is above where it was `nsig` rows before. -/
theorem kst_turns {n : Nat} {c : Nat → K} (hc : ∀ i, 0 < c i) (r1 r2 r3 r4 : Nat) {w1 w2 w3 w4 nsig : Nat} (h1 : 1 ≤ w1) (h2 : 1 ≤ w2) (h3 : 1 ≤ w3) (h4 : 1 ≤ w4)
    (hs : 1 ≤ nsig) (fillna : Bool) {i : Nat} (hi : i + 1 < n) (hp : (if fillna then 0 else max (max (max w1 w2) w3) w4 - 1) + nsig ≤ i + 1) :
    let line := kst (ser n c) r1 r2 r3 r4 w1 w2 w3 w4 fillna
    let sig := kstSig (ser n c) r1 r2 r3 r4 w1 w2 w3 w4 nsig fillna
    SameWay (ix sig i) (ix sig (i + 1)) (ix line (i + 1 - nsig)) (ix line (i + 1)) := by
  obtain ⟨p, L, S, ep, -, hS, dL, dS, -⟩ := kst_formula (n := n) hc r1 r2 r3 r4 h1 h2 h3 h4 hs fillna
  rw [← ep] at hp
  intro line sig
  rw [dS.val i (by omega) (by omega), dS.val (i + 1) hi (by omega), dL.val _ (by omega) (by omega), dL.val (i + 1) hi (by omega), hS i (by omega), hS (i + 1) (by omega)]
  rw [show max p (i + 1 - nsig) = i + 1 - nsig by omega, show max p (i + 1 + 1 - nsig) = i + 1 + 1 - nsig by omega, show min nsig (i + 1 - p) = nsig by omega,
    show min nsig (i + 1 + 1 - p) = nsig by omega]
  have w0 : (0 : K) < nsig := by exact_mod_cast hs
  refine sameWay_fin (k := 1 / (nsig : K)) (by positivity) ?_
  rw [sum_window L hs, if_pos (by omega)]
  field_simp
  ring

/-! ## Wilder's averages -/

theorem wilMean_turns (x : Nat → K) {w j : Nat} (hw : 1 ≤ w) :
    SameWay (.fin (wilMean x w j)) (.fin (wilMean x w (j + 1))) (.fin (wilMean x w j)) (.fin (x (w + j))) := by
  have w0 : (0 : K) < w := by exact_mod_cast hw
  refine sameWay_fin (k := 1 / (w : K)) (by positivity) ?_
  rw [wilMean, Nat.cast_sub hw]
  push_cast
  field_simp
  ring

/-- **ATR** rises exactly if the true range of the row is above the old ATR. -/
theorem atr_turns {n : Nat} {h l c : Nat → K} (hlh : ∀ i, i < n → l i ≤ h i) {w : Nat} (hw : 1 ≤ w) {fillna : Bool} {out : Series (Val K)}
    (ho : averageTrueRange (ser n h) (ser n l) (ser n c) w fillna = .ok out) {i : Nat} (hi : i + 1 < n) (hwi : w ≤ i + 1) :
    SameWay (ix out i) (ix out (i + 1)) (ix out i) (ix (trueRange (ser n h) (ser n l) (shift (ser n c) 1)) (i + 1)) := by
  obtain ⟨-, A⟩ := atr_formula hlh hw ho
  have T : Def (trueRange (ser n h) (ser n l) (shift (ser n c) 1)) n 0 (tr0 h l c) := true_range_formula n h l c hlh
  rw [A.val i (by omega) (Nat.zero_le _), A.val (i + 1) hi (Nat.zero_le _), T.val (i + 1) hi (Nat.zero_le _), if_neg (show ¬ i < w - 1 by omega),
    if_neg (show ¬ i + 1 < w - 1 by omega), show i + 1 - (w - 1) = i - (w - 1) + 1 by omega]
  have := wilMean_turns (tr0 h l c) (w := w) (j := i - (w - 1)) hw
  rwa [show w + (i - (w - 1)) = i + 1 by omega] at this

/-- **ADX** rises exactly if the directional index of the row, `100 |+DI - -DI| / (+DI + -DI)` of the two other columns, is above the old ADX. -/
theorem adx_turns {n : Nat} {h l c : Nat → K} (hlc : ∀ i, l i ≤ c i) (hch : ∀ i, c i ≤ h i) {w : Nat} {fillna : Bool} {o : ADX (Val K)}
    (ho : ADX.new (ser n h) (ser n l) (ser n c) w fillna = .ok o) {out : Series (Val K)} (ha : o.adx = .ok out) {i : Nat} (hi : i + 1 < n) (hwi : 2 * w ≤ i + 1) :
    ∃ p m : K, ix o.adxPos (i + 1) = .fin p ∧ ix o.adxNeg (i + 1) = .fin m ∧
      SameWay (ix out i) (ix out (i + 1)) (ix out i) (.fin (if p + m = 0 then 0 else 100 * |p - m| / (p + m))) := by
  obtain ⟨hw, -, -⟩ := adx_obj ho
  obtain ⟨-, A⟩ := adx_formula hlc hch ho ha
  obtain ⟨P, M⟩ := adx_di_formula ho
  refine ⟨_, _, P.val (i + 1) hi (Nat.zero_le _), M.val (i + 1) hi (Nat.zero_le _), ?_⟩
  rw [A.val i (by omega) (Nat.zero_le _), A.val (i + 1) hi (Nat.zero_le _), if_neg (show ¬ i < 2 * w - 1 by omega), if_neg (show ¬ i + 1 < 2 * w - 1 by omega),
    if_neg (show ¬ i + 1 ≤ w by omega), if_neg (show ¬ i + 1 ≤ w by omega), show i + 1 - (2 * w - 1) = i - (2 * w - 1) + 1 by omega]
  have := wilMean_turns (dirIdx h l c w) (w := w) (j := i - (2 * w - 1)) (by omega)
  rw [show w + (i - (2 * w - 1)) = i + 1 - w by omega] at this
  exact this

/-- **RSI** inside (0, 100), window 2 or more: it rises on a higher close, falls on a lower close and stays on an unchanged one. -/
theorem rsi_turns {n : Nat} {c : Nat → K} {w i : Nat} (hw : 2 ≤ w) {fillna : Bool} {out : Series (Val K)} (ho : rsi (ser n c) w fillna = .ok out) (hi : i + 1 < n)
    (hp : (if fillna then 0 else w - 1) ≤ i) {r : K} (hr : ix out i = .fin r) (r0 : 0 < r) (r1 : r < 100) :
    SameWay (ix out i) (ix out (i + 1)) (ix (ser n c) i) (ix (ser n c) (i + 1)) := by
  obtain ⟨U, D, -, -, u1, d1, hn, u, hu, du, -⟩ := rsi_formula n c w (by omega) fillna
  obtain rfl := Except.ok.inj (hu.symm.trans ho)
  have ei := du.val i (by omega) hp
  rw [hr] at ei
  have ei := Val.fin.inj ei
  have D0 : D i ≠ 0 := fun h => by rw [if_pos h] at ei; linarith
  rw [if_neg D0] at ei
  have Dp : 0 < D i := lt_of_le_of_ne (hn i).2 (Ne.symm D0)
  have Up : 0 < U i := by
    rcases eq_or_lt_of_le (hn i).1 with h | h
    · rw [← h] at ei; simp at ei; linarith
    · exact h
  have w2 : (2 : K) ≤ w := by exact_mod_cast hw
  have a0 : (0 : K) < 1 / w := by positivity
  have a1 : (1 : K) / w < 1 := by rw [div_lt_one (by linarith)]; linarith
  rw [du.val i (by omega) hp, du.val (i + 1) hi (by omega), (def_ser n c).val i (by omega) (Nat.zero_le _), (def_ser n c).val (i + 1) hi (Nat.zero_le _)]
  have u' := u1 i
  have d' := d1 i
  generalize 1 / (w : K) = a at *
  have b0 : 0 < 1 - a := by linarith
  have g0 := le_max_right (c (i + 1) - c i) 0
  have l0 := le_max_right (c i - c (i + 1)) 0
  have D1 : 0 < D (i + 1) := by rw [d']; have := mul_pos b0 Dp; have := mul_nonneg a0.le l0; linarith
  have U1 : 0 < U (i + 1) := by rw [u']; have := mul_pos b0 Up; have := mul_nonneg a0.le g0; linarith
  rw [if_neg D0, if_neg D1.ne']
  -- the cross product decides
  have key : 100 * U (i + 1) / (U (i + 1) + D (i + 1)) - 100 * U i / (U i + D i)
      = 100 * a / ((U (i + 1) + D (i + 1)) * (U i + D i)) * (max (c (i + 1) - c i) 0 * D i - max (c i - c (i + 1)) 0 * U i) := by
    have s0 : U i + D i ≠ 0 := by positivity
    have s1 : U (i + 1) + D (i + 1) ≠ 0 := by positivity
    have x : U (i + 1) * D i - U i * D (i + 1) = a * (max (c (i + 1) - c i) 0 * D i - max (c i - c (i + 1)) 0 * U i) := by rw [u', d']; ring
    have y : 100 * U (i + 1) / (U (i + 1) + D (i + 1)) - 100 * U i / (U i + D i) = 100 * (U (i + 1) * D i - U i * D (i + 1)) / ((U (i + 1) + D (i + 1)) * (U i + D i)) := by
      field_simp
      ring
    rw [y, x]
    ring
  have kp : 0 < 100 * a / ((U (i + 1) + D (i + 1)) * (U i + D i)) := by positivity
  refine ⟨_, _, _, _, rfl, rfl, rfl, rfl, ?_, ?_⟩
  · rw [← sub_pos, key, mul_pos_iff_of_pos_left kp]
    constructor
    · intro h
      by_contra g
      rw [max_eq_right (by linarith : c (i + 1) - c i ≤ 0), max_eq_left (by linarith : (0 : K) ≤ c i - c (i + 1))] at h
      have := mul_nonneg (by linarith : (0 : K) ≤ c i - c (i + 1)) Up.le
      linarith
    · intro g
      rw [max_eq_left (by linarith : (0 : K) ≤ c (i + 1) - c i), max_eq_right (by linarith : c i - c (i + 1) ≤ 0)]
      have := mul_pos (by linarith : (0 : K) < c (i + 1) - c i) Dp
      linarith
  · rw [← sub_neg, key, scaled_neg kp]
    constructor
    · intro h
      by_contra g
      rw [max_eq_left (by linarith : (0 : K) ≤ c (i + 1) - c i), max_eq_right (by linarith : c i - c (i + 1) ≤ 0)] at h
      have := mul_nonneg (by linarith : (0 : K) ≤ c (i + 1) - c i) Dp.le
      linarith
    · intro g
      rw [max_eq_right (by linarith : c (i + 1) - c i ≤ 0), max_eq_left (by linarith : (0 : K) ≤ c i - c (i + 1))]
      have := mul_pos (by linarith : (0 : K) < c i - c (i + 1)) Up
      linarith

/-! ## running totals, breakouts, TRIX -/

/-- **Force index**: it rises exactly if the row's `(close - previous close) * volume` is above the old value. -/
theorem forceIndex_turns {n : Nat} {c v : Nat → K} {w i : Nat} {out : Series (Val K)} (ho : forceIndex (ser n c) (ser n v) w = .ok out) (hi : i + 1 < n) (hwi : w ≤ i) :
    SameWay (ix out i) (ix out (i + 1)) (ix out i) (.fin ((c (i + 1) - c i) * v (i + 1))) := by
  have hw : 1 ≤ w := by
    by_contra h
    rw [(lines_of_emas (ser n c) (ser n c) (ser n v) w w w w).2, emaIndicator_eq, if_pos (by omega)] at ho
    cases ho
  obtain ⟨out', h1, F⟩ := forceIndex_formula n c v hw
  obtain rfl := Except.ok.inj (h1.symm.trans ho)
  rw [F.val i (by omega) hwi, F.val (i + 1) hi (by omega)]
  refine sameWay_fin (span_pos (K := K) w) ?_
  rw [Nat.add_sub_cancel, show emaRec (2 / ((w : K) + 1)) (fun j => (c (j + 1) - c j) * v (j + 1)) i
      = (1 - 2 / ((w : K) + 1)) * emaRec (2 / ((w : K) + 1)) (fun j => (c (j + 1) - c j) * v (j + 1)) (i - 1) + 2 / ((w : K) + 1) * ((c (i + 1) - c i) * v (i + 1)) by
    obtain ⟨k, rfl⟩ : ∃ k, i = k + 1 := ⟨i - 1, by omega⟩
    rfl]
  ring

/-- **Accumulation/distribution**: on a row with volume and range it rises exactly if the close is above the middle of the bar.
**Volume-price trend** (volume) and **cumulative return**: exactly if the close is above the previous one. -/
theorem totals_turn {n : Nat} {h l c v : Nat → K} (hlc : ∀ i, l i ≤ c i) (hch : ∀ i, c i ≤ h i) (hc : ∀ i, 0 < c i) (fillna : Bool) {i : Nat} (hi : i + 1 < n)
    (hv : 0 < v (i + 1)) :
    (l (i + 1) < h (i + 1) → let out := accDistIndex (ser n h) (ser n l) (ser n c) (ser n v) fillna
      SameWay (ix out i) (ix out (i + 1)) (.fin ((h (i + 1) + l (i + 1)) / 2)) (ix (ser n c) (i + 1))) ∧
    (1 ≤ i ∨ fillna = true → let out := volumePriceTrend (ser n c) (ser n v) fillna
      SameWay (ix out i) (ix out (i + 1)) (ix (ser n c) i) (ix (ser n c) (i + 1))) ∧
    ∃ out, cumulativeReturn (ser n c) fillna = .ok out ∧ SameWay (ix out i) (ix out (i + 1)) (ix (ser n c) i) (ix (ser n c) (i + 1)) := by
  have c0 := hc i
  have d := def_ser n c
  rw [d.val i (by omega) (Nat.zero_le _), d.val (i + 1) hi (Nat.zero_le _)]
  refine ⟨fun hb => ?_, fun hp => ?_, ?_⟩
  · have A := adi_formula n h l c v hlc hch fillna
    intro out
    rw [A.val i (by omega) (Nat.zero_le _), A.val (i + 1) hi (Nat.zero_le _), Finset.sum_range_succ _ (i + 1), if_neg hb.ne']
    have b : 0 < h (i + 1) - l (i + 1) := by linarith
    refine sameWay_fin (k := 2 * v (i + 1) / (h (i + 1) - l (i + 1))) (by positivity) ?_
    rw [add_sub_cancel_left]
    field_simp
    ring
  · have e : ∑ j ∈ Ico 1 (i + 1 + 1), v j * (c j / c (j - 1) - 1) - ∑ j ∈ Ico 1 (i + 1), v j * (c j / c (j - 1) - 1) = v (i + 1) / c i * (c (i + 1) - c i) := by
      rw [Finset.sum_Ico_succ_top (by omega), add_sub_cancel_left, Nat.add_sub_cancel]
      field_simp
    cases fillna with
    | true =>
      have A := vpt_fill_formula n v fun i => (hc i).ne'
      intro out
      rw [A.val i (by omega) (Nat.zero_le _), A.val (i + 1) hi (Nat.zero_le _)]
      exact sameWay_fin (k := v (i + 1) / c i) (by positivity) e
    | false =>
      have A := vpt_formula n v fun i => (hc i).ne'
      have hp : 1 ≤ i := by simpa using hp
      intro out
      rw [A.val i (by omega) hp, A.val (i + 1) hi (by omega)]
      exact sameWay_fin (k := v (i + 1) / c i) (by positivity) e
  · obtain ⟨D, C, out, -, -, hC, -, h1, dC, -⟩ := returns_compound (by omega : 0 < n) hc fillna
    refine ⟨out, h1, ?_⟩
    rw [dC.val i (by omega) (Nat.zero_le _), dC.val (i + 1) hi (Nat.zero_le _), hC, hC]
    have := hc 0
    refine sameWay_fin (k := 100 / c 0) (by positivity) ?_
    field_simp
    ring

/-- **Donchian channel**: the upper band rises exactly on a high above it, the lower band falls exactly on a low below it. -/
theorem donchian_turns {n : Nat} {h l c : Nat → K} {w : Nat} (hw : 1 ≤ w) {fillna : Bool} {o : Donchian (Val K)}
    (ho : Donchian.new (ser n h) (ser n l) (ser n c) w 0 fillna = .ok o) {i : Nat} (hi : i + 1 < n) (hp : (if fillna then 0 else w - 1) ≤ i) :
    (∃ x y, ix o.hband i = .fin x ∧ ix o.hband (i + 1) = .fin y ∧ (x < y ↔ x < h (i + 1))) ∧
      ∃ x y, ix o.lband i = .fin x ∧ ix o.lband (i + 1) = .fin y ∧ (y < x ↔ l (i + 1) < x) := by
  obtain ⟨H, L, hH, hL, dH, dL, -⟩ := donchian_formula hw ho
  refine ⟨⟨_, _, dH.val i (by omega) hp, dH.val (i + 1) hi (by omega), ?_⟩, _, _, dL.val i (by omega) hp, dL.val (i + 1) hi (by omega), ?_⟩
  · obtain ⟨-, b⟩ := hH i (by omega)
    obtain ⟨⟨j, j1, j2, e⟩, b'⟩ := hH (i + 1) hi
    constructor
    · intro g
      rcases Nat.lt_or_ge i j with k | k
      · obtain rfl : j = i + 1 := by omega
        rwa [e] at g
      · have := b ⟨j, k, by omega, e⟩
        exact absurd g (not_lt.mpr this)
    · exact fun g => g.trans_le (b' ⟨i + 1, le_rfl, by omega, rfl⟩)
  · obtain ⟨-, b⟩ := hL i (by omega)
    obtain ⟨⟨j, j1, j2, e⟩, b'⟩ := hL (i + 1) hi
    constructor
    · intro g
      rcases Nat.lt_or_ge i j with k | k
      · obtain rfl : j = i + 1 := by omega
        rwa [e] at g
      · have := b ⟨j, k, by omega, e⟩
        exact absurd g (not_lt.mpr this)
    · exact fun g => (b' ⟨i + 1, le_rfl, by omega, rfl⟩).trans_lt g

/-- **TRIX** is positive exactly when the triple EMA rises, that is, when the double EMA is above the old triple EMA. -/
theorem trix_turns {n : Nat} {c : Nat → K} (hc : ∀ i, 0 < c i) {w : Nat} (hw : 2 ≤ w) {i : Nat} (hi : i + 1 < n) (hp : 3 * w - 3 ≤ i) :
    ∃ e1 e2 e3 out, emaIndicator (ser n c) w = .ok e1 ∧ emaIndicator e1 w = .ok e2 ∧ emaIndicator e2 w = .ok e3 ∧ trix (ser n c) w = .ok out ∧
      SameWay (.fin 0) (ix out (i + 1)) (ix e3 i) (ix e3 (i + 1)) ∧ SameWay (.fin 0) (ix out (i + 1)) (ix e3 i) (ix e2 (i + 1)) := by
  have hw1 : 1 ≤ w := by omega
  have ok : ∀ s : Series (Val K), emaIndicator s w = .ok (ema s w false) := fun s => by rw [emaIndicator_eq, if_neg (by omega)]
  obtain ⟨E1, E2, E3, out, h1, h2, h3, ho, dT⟩ := trix_formula (n := n) hc hw
  have d1 := (def_ser n c).ema0 hw1 false
  have d2 := d1.ema hw1 false
  have d3 := d2.ema hw1 false
  simp only [Bool.false_eq_true, if_false] at d1 d2 d3
  refine ⟨_, _, _, out, ok _, ok _, ok _, ho, ?_⟩
  have r1 : ∀ j, emaW w c j = E1 j := fun j => (h1 j).symm
  have r2 : ∀ j, emaW w (fun j => emaW w c (w - 1 + j)) (j - (w - 1)) = E2 j := by
    intro j
    rw [h2]
    unfold emaW
    simp only [h1]
  have r3 : ∀ j, emaW w (fun j => emaW w (fun j => emaW w c (w - 1 + j)) (w - 1 + (w - 1) + j - (w - 1))) (j - (w - 1 + (w - 1))) = E3 j := by
    intro j
    rw [h3, ← funext fun j => r2 (w - 1 + (w - 1) + j)]
    rfl
  have a0 := span_pos (K := K) w
  have a1 := span_le (K := K) w hw1
  have p1 : ∀ j, 0 < E1 j := fun j => by rw [h1]; exact emaRec_pos_all a0 a1 fun j _ => hc j
  have p2 : ∀ j, 0 < E2 j := fun j => by rw [h2]; exact emaRec_pos_all a0 a1 fun j _ => p1 _
  have p3 : ∀ j, 0 < E3 j := fun j => by rw [h3]; exact emaRec_pos_all a0 a1 fun j _ => p2 _
  rw [dT.val (i + 1) hi (by omega), d3.val i (by omega) (by omega), d3.val (i + 1) hi (by omega), d2.val (i + 1) hi (by omega), r3, r3, r2, Nat.add_sub_cancel]
  have q := p3 i
  refine ⟨sameWay_fin (k := 100 / E3 i) (by positivity) (by field_simp; ring), ?_⟩
  have e : E3 (i + 1) = (1 - 2 / ((w : K) + 1)) * E3 i + 2 / ((w : K) + 1) * E2 (i + 1) := by
    rw [h3, h3, show i + 1 - (w - 1 + (w - 1)) = i - (w - 1 + (w - 1)) + 1 by omega, emaRec, show w - 1 + (w - 1) + (i - (w - 1 + (w - 1)) + 1) = i + 1 by omega]
  generalize 2 / ((w : K) + 1) = a at *
  refine sameWay_fin (k := 100 * a / E3 i) (by positivity) ?_
  rw [e]
  field_simp
  ring

/-! ## examples -/

/-- SMA(2) of 1 2 4 3 rises, rises: 4 > 1, 3 > 2 -/
example : smaIndicator (qs [1, 2, 4, 3]) 2 = [.nan, .fin (3 / 2), .fin 3, .fin (7 / 2)] := by decide +kernel
/-- the EMA of 4 3 5 3 falls, rises, falls with the closes below, above, below it -/
example : emaIndicator (qs [4, 3, 5, 3]) 3 true = .ok [.fin 4, .fin (7 / 2), .fin (17 / 4), .fin (29 / 8)] := by decide +kernel
/-- a close above the WMA but below the SMA of the rows before: the WMA falls -/
example : wma (qs [9, 1, 1, 3]) 3 false = [.nan, .nan, .fin (7 / 3), .fin 2] ∧ smaIndicator (qs [9, 1, 1, 3]) 3 = [.nan, .nan, .fin (11 / 3), .fin (5 / 3)] := by
  decide +kernel
/-- RSI(2) on 4 5 4 5 4 4 -/
example : rsi (qs [4, 5, 4, 5, 4, 4]) 2 = .ok [.nan, .fin 100, .fin (100 / 3), .fin (500 / 7), .fin (100 / 3), .fin (100 / 3)] := by decide +kernel

end TA
