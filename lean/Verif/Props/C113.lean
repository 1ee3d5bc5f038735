import Verif.Props.C112

/-!
# C113 — Different columns, one signal

Columns of different classes that cross their thresholds on the same rows.  The least obvious one: `RSI(w)` is above 50 exactly if the close is above
its own `EMA(2w - 1)`, because the two smoothings have the same constant and
`RSI = 50 + 50 (close - EMA) / ((w - 1) EMA(|change|))`.
-/

set_option linter.unusedSectionVars false

namespace TA
open Finset

variable {K : Type} [Field K] [LinearOrder K] [IsStrictOrderedRing K]

theorem SameWay.swap {a b c d : Val K} (h : SameWay a b c d) : SameWay c d a b := by
  obtain ⟨x, y, z, t, h1, h2, h3, h4, h5, h6⟩ := h
  exact ⟨z, t, x, y, h3, h4, h1, h2, h5.symm, h6.symm⟩

theorem SameWay.trans {a b c d e f : Val K} (h : SameWay a b c d) (h' : SameWay c d e f) : SameWay a b e f := by
  obtain ⟨x, y, z, t, rfl, rfl, rfl, rfl, h5, h6⟩ := h
  obtain ⟨z', t', u, v, h1, h2, rfl, rfl, h7, h8⟩ := h'
  cases Val.fin.inj h1
  cases Val.fin.inj h2
  exact ⟨x, y, u, v, rfl, rfl, rfl, rfl, h5.trans h7, h6.trans h8⟩

/-! ## RSI and the EMA of the closes -/

/-- `EMA` of the changes (none on row 0) is the distance of the close from its own `EMA`, up to a factor. -/
theorem emaRec_changes (a : K) (c : Nat → K) (i : Nat) :
    (1 - a) * emaRec a (fun j => if j = 0 then 0 else c j - c (j - 1)) i = a * (c i - emaRec a c i) := by
  induction i with
  | zero => simp [emaRec]
  | succ i ih =>
    rw [emaRec, emaRec, mul_add, show (1 - a) * ((1 - a) * emaRec a (fun j => if j = 0 then 0 else c j - c (j - 1)) i)
      = (1 - a) * ((1 - a) * emaRec a (fun j => if j = 0 then 0 else c j - c (j - 1)) i) from rfl, ih]
    simp only [Nat.add_eq_zero_iff, one_ne_zero, and_false, if_false, Nat.add_sub_cancel]
    ring

/-- C113. **RSI is a distance from an EMA**: with window `w ≥ 2`, on every row before which the close has moved,
`RSI(w) = 50 + 50 (close - EMA(close)) / ((w - 1) EMA(|change|))`, both EMA with window `2w - 1`. -/
theorem rsi_is_distance {n : Nat} {c : Nat → K} {w i : Nat} (hw : 2 ≤ w) {fillna : Bool} {out ec ed : Series (Val K)} (ho : rsi (ser n c) w fillna = .ok out)
    (hec : emaIndicator (ser n c) (2 * w - 1) true = .ok ec) (hed : emaIndicator (ser n fun j => |if j = 0 then 0 else c j - c (j - 1)|) (2 * w - 1) true = .ok ed)
    (hi : i < n) (hp : (if fillna then 0 else w - 1) ≤ i) (hm : ∃ j, j < i ∧ c j ≠ c (j + 1)) :
    ∃ e d : K, ix ec i = .fin e ∧ ix ed i = .fin d ∧ 0 < d ∧ ix out i = .fin (50 + 50 * (c i - e) / (((w : K) - 1) * d)) := by
  have w2 : (2 : K) ≤ w := by exact_mod_cast hw
  have al : (2 : K) / (((2 * w - 1 : ℕ) : K) + 1) = 1 / (w : K) := by
    rw [Nat.cast_sub (by omega)]
    push_cast
    rw [sub_add_cancel]
    field_simp
  rw [emaIndicator_eq, if_neg (by omega)] at hec hed
  obtain rfl := Except.ok.inj hec
  obtain rfl := Except.ok.inj hed
  have E := (def_ser n c).ema0 (w := 2 * w - 1) (by omega) true
  have A := (def_ser n fun j => |if j = 0 then 0 else c j - c (j - 1)|).ema0 (w := 2 * w - 1) (by omega) true
  obtain ⟨U, D, u0, d0, u1, d1, hn, u, hu, du, -⟩ := rsi_formula n c w (by omega) fillna
  obtain rfl := Except.ok.inj (hu.symm.trans ho)
  unfold emaW at E A
  rw [al] at E A
  refine ⟨_, _, E.val i hi (Nat.zero_le _), A.val i hi (Nat.zero_le _), ?_⟩
  rw [du.val i hi hp]
  have a0 : (0 : K) < 1 / w := by positivity
  have a1 : (1 : K) / w < 1 := by rw [div_lt_one (by linarith)]; linarith
  have ch := emaRec_changes (1 / (w : K)) c i
  have wa : (w : K) * (1 / w) = 1 := by field_simp
  generalize (1 : K) / w = a at *
  have eD : ∀ j, U j - D j = emaRec a (fun j => if j = 0 then 0 else c j - c (j - 1)) j := by
    intro j
    induction j with
    | zero => rw [u0, d0]; simp [emaRec]
    | succ j ih =>
      rw [emaRec, ← ih, u1, d1]
      simp only [Nat.add_eq_zero_iff, one_ne_zero, and_false, if_false, Nat.add_sub_cancel]
      have : max (c (j + 1) - c j) 0 - max (c j - c (j + 1)) 0 = c (j + 1) - c j := by
        rcases le_total (c j) (c (j + 1)) with g | g
        · rw [max_eq_left (by linarith), max_eq_right (by linarith)]; ring
        · rw [max_eq_right (by linarith), max_eq_left (by linarith)]; ring
      linear_combination a * this
  have eS : ∀ j, U j + D j = emaRec a (fun j => |if j = 0 then 0 else c j - c (j - 1)|) j := by
    intro j
    induction j with
    | zero => rw [u0, d0]; simp [emaRec]
    | succ j ih =>
      rw [emaRec, ← ih, u1, d1]
      simp only [Nat.add_eq_zero_iff, one_ne_zero, and_false, if_false, Nat.add_sub_cancel]
      have : max (c (j + 1) - c j) 0 + max (c j - c (j + 1)) 0 = |c (j + 1) - c j| := by
        rcases le_total (c j) (c (j + 1)) with g | g
        · rw [max_eq_left (by linarith), max_eq_right (by linarith), abs_of_nonneg (by linarith)]; ring
        · rw [max_eq_right (by linarith), max_eq_left (by linarith), abs_of_nonpos (by linarith)]; ring
      linear_combination a * this
  rw [← eD] at ch
  rw [← eS]
  have pos : 0 < U i + D i := by
    obtain ⟨j, hj, hne⟩ := hm
    have start : 0 < U (j + 1) + D (j + 1) := by
      rw [eS, emaRec, ← eS]
      simp only [Nat.add_eq_zero_iff, one_ne_zero, and_false, if_false, Nat.add_sub_cancel]
      have h1 := mul_nonneg (by linarith : (0 : K) ≤ 1 - a) (add_nonneg (hn j).1 (hn j).2)
      have h2 := mul_pos a0 (abs_pos.mpr (sub_ne_zero.mpr (Ne.symm hne)))
      linarith
    obtain ⟨k, rfl⟩ : ∃ k, i = j + 1 + k := ⟨i - (j + 1), by omega⟩
    clear hj hp hi ch
    induction k with
    | zero => exact start
    | succ k ih =>
      rw [show j + 1 + (k + 1) = j + 1 + k + 1 by omega, eS, emaRec, ← eS]
      have h1 := mul_pos (by linarith : (0 : K) < 1 - a) ih
      have h2 := mul_nonneg a0.le (abs_nonneg (if j + 1 + k + 1 = 0 then 0 else c (j + 1 + k + 1) - c (j + 1 + k + 1 - 1)))
      linarith
  refine ⟨pos, ?_⟩
  have dist : c i - emaRec a c i = ((w : K) - 1) * (U i - D i) := by
    have : a * (c i - emaRec a c i) = a * (((w : K) - 1) * (U i - D i)) := by rw [← ch]; linear_combination (-(U i - D i)) * wa
    exact mul_left_cancel₀ a0.ne' this
  rw [dist]
  have w1 : (w : K) - 1 ≠ 0 := by linarith
  congr 1
  by_cases g : D i = 0
  · rw [g, add_zero] at pos
    have := pos.ne'
    rw [if_pos g, g, add_zero, sub_zero]
    field_simp
    norm_num
  · rw [if_neg g]
    have := pos.ne'
    field_simp
    ring

/-- C113. **RSI(w) is above 50 exactly if the close is above EMA(2w - 1)** (at 50 exactly if at it, below exactly if below), and then that EMA rises. -/
theorem rsi_fifty {n : Nat} {c : Nat → K} {w i : Nat} (hw : 2 ≤ w) {fillna : Bool} {out ec : Series (Val K)} (ho : rsi (ser n c) w fillna = .ok out)
    (hec : emaIndicator (ser n c) (2 * w - 1) true = .ok ec) (hi : i < n) (hp : (if fillna then 0 else w - 1) ≤ i) (hm : ∃ j, j < i ∧ c j ≠ c (j + 1)) :
    SameWay (.fin 50) (ix out i) (ix ec i) (ix (ser n c) i) ∧ SameWay (.fin 50) (ix out i) (ix ec (i - 1)) (ix ec i) := by
  obtain ⟨ed, hed⟩ : ∃ ed, emaIndicator (ser n fun j => |if j = 0 then 0 else c j - c (j - 1)|) (2 * w - 1) true = .ok ed := by
    rw [emaIndicator_eq, if_neg (by omega)]; exact ⟨_, rfl⟩
  obtain ⟨e, d, h1, h2, d0, h3⟩ := rsi_is_distance hw ho hec hed hi hp hm
  have w2 : (2 : K) ≤ w := by exact_mod_cast hw
  have w1 : (0 : K) < (w : K) - 1 := by linarith
  have main : SameWay (.fin 50) (ix out i) (ix ec i) (ix (ser n c) i) := by
    rw [h1, h3, (def_ser n c).val i hi (Nat.zero_le _)]
    refine sameWay_fin (k := 50 / (((w : K) - 1) * d)) (by positivity) ?_
    ring
  refine ⟨main, ?_⟩
  obtain ⟨j, hj, -⟩ := hm
  have := (ema_turns (def_ser n c) (i := i - 1) hec (by omega) (by simp)).2 (by omega)
  rw [show i - 1 + 1 = i by omega] at this
  exact main.trans this.swap

/-! ## position in a range -/

/-- C113. **Stochastic and Donchian**: on a window with a range, %K is above 50, Williams %R above -50 and the Donchian percentage above 1/2 exactly if the
close is above the Donchian middle line. -/
theorem stoch_fifty {n : Nat} {h l c : Nat → K} {w : Nat} (hw : 1 ≤ w) {o : Donchian (Val K)} (ho : Donchian.new (ser n h) (ser n l) (ser n c) w = .ok o)
    {i : Nat} (hi : i < n) (hp : w - 1 ≤ i) (hr : ix o.hband i ≠ ix o.lband i) (hlh : ∀ j, l j ≤ h j) :
    SameWay (.fin (1 / 2)) (ix o.pband i) (ix o.mband i) (ix (ser n c) i) ∧
      SameWay (.fin 50) (ix (stoch (ser n h) (ser n l) (ser n c) w) i) (ix o.mband i) (ix (ser n c) i) ∧
      SameWay (.fin (-50)) (ix (williamsR (ser n h) (ser n l) (ser n c) w) i) (ix o.mband i) (ix (ser n c) i) := by
  obtain ⟨o', ho', e⟩ := stoch_donchian (ser n h) (ser n l) (ser n c) w
  obtain rfl := Except.ok.inj (ho'.symm.trans ho)
  obtain ⟨H, L, hH, hL, dH, dL, dM, rest⟩ := donchian_formula hw ho
  rw [dH.val i hi hp, dL.val i hi hp] at hr
  have ne : H i ≠ L i := fun g => hr (by rw [g])
  have le : L i ≤ H i := ((hL i hi).2 ⟨i, le_rfl, by omega, rfl⟩).trans ((hlh i).trans ((hH i hi).2 ⟨i, le_rfl, by omega, rfl⟩))
  have lt : 0 < H i - L i := sub_pos.mpr (lt_of_le_of_ne le (Ne.symm ne))
  have P := (rest i hi (fun _ => hp)).2 ne
  have len : i < o'.pband.length := by
    by_contra g
    have : ix o'.pband i = .nan := ix_ge (by omega)
    rw [this] at P
    cases P
  have S : ix (stoch (ser n h) (ser n l) (ser n c) w) i = .fin (100 * ((c i - L i) / (H i - L i))) := by
    rw [e, ix_map len, P]
    rfl
  have slen : i < (stoch (ser n h) (ser n l) (ser n c) w).length := by rw [e, List.length_map]; exact len
  rw [williamsR_eq_stoch _ _ _ (by simp [ser]) (by simp [ser]), ix_map slen, S, P, dM.val i hi hp, (def_ser n c).val i hi (Nat.zero_le _)]
  refine ⟨sameWay_fin (k := 1 / (H i - L i)) (by positivity) ?_, sameWay_fin (k := 100 / (H i - L i)) (by positivity) ?_, ?_⟩
  · field_simp; ring
  · field_simp; ring
  · show SameWay _ (.fin (100 * ((c i - L i) / (H i - L i)) + -100)) _ _
    refine sameWay_fin (k := 100 / (H i - L i)) (by positivity) ?_
    field_simp
    ring

/-- a percentage `(close - lower) / (upper - lower)` -/
theorem percent_way {a b c : K} (h : b < a) :
    SameWay (.fin 1) (.fin ((c - b) / (a - b))) (.fin a) (.fin c) ∧ SameWay (.fin 0) (.fin ((c - b) / (a - b))) (.fin b) (.fin c) ∧
      SameWay (.fin (1 / 2)) (.fin ((c - b) / (a - b))) (.fin ((a + b) / 2)) (.fin c) := by
  have lt : 0 < a - b := by linarith
  refine ⟨sameWay_fin (k := 1 / (a - b)) (by positivity) ?_, sameWay_fin (k := 1 / (a - b)) (by positivity) ?_, sameWay_fin (k := 1 / (a - b)) (by positivity) ?_⟩ <;>
    (field_simp; try ring)

/-- C113. **Bollinger**: the percentage passes 1, 0 and 1/2 exactly where the close passes the upper, the lower and the middle line; the flags are 1 exactly where
the percentage is above 1 and below 0. -/
theorem bollinger_signals {n : Nat} (c : Nat → ℝ) {w : Nat} (hw : 1 ≤ w) {d : ℝ} (hd : 0 < d) (fillna : Bool) {i : Nat} (hi : i < n) (hp : (if fillna then 0 else w - 1) ≤ i)
    (hs : wstd c w i ≠ 0) :
    let o := BB.new (ser n c) w (.fin d) fillna
    SameWay (.fin 1) (ix o.bollingerPband i) (ix o.bollingerHband i) (ix (ser n c) i) ∧ SameWay (.fin 0) (ix o.bollingerPband i) (ix o.bollingerLband i) (ix (ser n c) i) ∧
      SameWay (.fin (1 / 2)) (ix o.bollingerPband i) (ix o.bollingerMavg i) (ix (ser n c) i) ∧
      ∃ p, ix o.bollingerPband i = .fin p ∧ (ix o.bollingerHbandIndicator i = .fin 1 ↔ 1 < p) ∧ (ix o.bollingerLbandIndicator i = .fin 1 ↔ p < 0) := by
  intro o
  have B : BollingerSpec o n _ c _ _ _ := bollinger_formula (n := n) c hw d fillna
  generalize (if fillna then 0 else w - 1) = q at hp B
  clear_value o
  have s0 : 0 < wstd c w i := lt_of_le_of_ne (Real.sqrt_nonneg _) (Ne.symm hs)
  have ds := mul_pos hd s0
  have lt : wmean c w i - d * wstd c w i < wmean c w i + d * wstd c w i := by linarith
  rw [B.pband i hi hp lt.ne', B.hband.val i hi hp, B.lband.val i hi hp, B.mavg.val i hi hp, (def_ser n c).val i hi (Nat.zero_le _), B.above.val i hi (Nat.zero_le _),
    B.below.val i hi (Nat.zero_le _)]
  obtain ⟨h1, h2, h3⟩ := percent_way (c := c i) lt
  rw [show (wmean c w i + d * wstd c w i + (wmean c w i - d * wstd c w i)) / 2 = wmean c w i by ring] at h3
  refine ⟨h1, h2, h3, _, rfl, ?_, ?_⟩
  · obtain ⟨x, y, z, t, e1, e2, e3, e4, e5, -⟩ := h1
    cases Val.fin.inj e1; cases Val.fin.inj e2; cases Val.fin.inj e3; cases Val.fin.inj e4
    rw [e5]
    split_ifs with g
    · exact ⟨fun _ => g.2, fun _ => rfl⟩
    · exact ⟨fun k => absurd (Val.fin.inj k) (by norm_num), fun k => absurd ⟨hp, k⟩ g⟩
  · obtain ⟨x, y, z, t, e1, e2, e3, e4, -, e5⟩ := h2
    cases Val.fin.inj e1; cases Val.fin.inj e2; cases Val.fin.inj e3; cases Val.fin.inj e4
    rw [e5]
    split_ifs with g
    · exact ⟨fun _ => g.2, fun _ => rfl⟩
    · exact ⟨fun k => absurd (Val.fin.inj k) (by norm_num), fun k => absurd ⟨hp, k⟩ g⟩

/-- C113. **Keltner**, both versions: likewise for the upper and lower line. -/
theorem keltner_signals {o : Keltner (Val K)} {n p q : Nat} {c m a b : Nat → K} (S : KeltnerSpec o n p q c m a b) {i : Nat} (hi : i < n) (hq : q ≤ i) (hb : b i < a i) :
    SameWay (.fin 1) (ix o.pband i) (ix o.hband i) (ix (ser n c) i) ∧ SameWay (.fin 0) (ix o.pband i) (ix o.lband i) (ix (ser n c) i) ∧
      ∃ p, ix o.pband i = .fin p ∧ (ix o.hbandIndicator i = .fin 1 ↔ 1 < p) ∧ (ix o.lbandIndicator i = .fin 1 ↔ p < 0) := by
  rw [S.pband i hi hq hb.ne', S.hband.val i hi hq, S.lband.val i hi hq, (def_ser n c).val i hi (Nat.zero_le _), S.above.val i hi (Nat.zero_le _),
    S.below.val i hi (Nat.zero_le _)]
  obtain ⟨h1, h2, -⟩ := percent_way (c := c i) hb
  refine ⟨h1, h2, _, rfl, ?_, ?_⟩
  · obtain ⟨x, y, z, t, e1, e2, e3, e4, e5, -⟩ := h1
    cases Val.fin.inj e1; cases Val.fin.inj e2; cases Val.fin.inj e3; cases Val.fin.inj e4
    rw [e5]
    split_ifs with g
    · exact ⟨fun _ => g.2, fun _ => rfl⟩
    · exact ⟨fun k => absurd (Val.fin.inj k) (by norm_num), fun k => absurd ⟨hq, k⟩ g⟩
  · obtain ⟨x, y, z, t, e1, e2, e3, e4, -, e5⟩ := h2
    cases Val.fin.inj e1; cases Val.fin.inj e2; cases Val.fin.inj e3; cases Val.fin.inj e4
    rw [e5]
    split_ifs with g
    · exact ⟨fun _ => g.2, fun _ => rfl⟩
    · exact ⟨fun k => absurd (Val.fin.inj k) (by norm_num), fun k => absurd ⟨hq, k⟩ g⟩

/-! ## signs -/

/-- C113. **MACD and PPO** have the same sign: that of fast EMA less slow EMA. -/
theorem macd_ppo_sign {n : Nat} {c : Nat → K} (hc : ∀ i, 0 < c i) {slow fast sign : Nat} {fillna : Bool} {o : MACD (Val K)} {o' : PPO (Val K)}
    (ho : MACD.new (ser n c) slow fast sign fillna = .ok o) (ho' : PPO.new (ser n c) slow fast sign fillna = .ok o')
    {i : Nat} (hi : i < n) (hp : (if fillna then 0 else max slow fast - 1) ≤ i) :
    ∃ es ef, emaIndicator (ser n c) slow fillna = .ok es ∧ emaIndicator (ser n c) fast fillna = .ok ef ∧
      SameWay (.fin 0) (ix o.macd i) (ix es i) (ix ef i) ∧ SameWay (.fin 0) (ix o'.ppo i) (ix es i) (ix ef i) := by
  obtain ⟨h1, h2, h3, -⟩ := macd_new ho
  obtain ⟨L, S, hL, -, dL, -⟩ := macd_formula ho
  obtain ⟨L', S', hL', -, dL', -⟩ := ppo_formula hc ho'
  refine ⟨_, _, by rw [emaIndicator_eq, if_neg (by omega)], by rw [emaIndicator_eq, if_neg (by omega)], ?_⟩
  have ds := (def_ser n c).ema0 h1 fillna
  have df := (def_ser n c).ema0 h2 fillna
  rw [dL.val i hi hp, dL'.val i hi hp, ds.val i hi (by split_ifs at hp ⊢ <;> omega), df.val i hi (by split_ifs at hp ⊢ <;> omega), hL, hL']
  unfold emaW
  have p := emaRec_pos_all (span_pos (K := K) slow) (span_le slow h1) (f := c) (i := i) fun j _ => hc j
  generalize emaRec (2 / ((slow : K) + 1)) c i = s at *
  generalize emaRec (2 / ((fast : K) + 1)) c i = f at *
  refine ⟨sameWay_fin (k := 1) one_pos (by ring), sameWay_fin (k := 100 / s) (by positivity) ?_⟩
  field_simp
  ring

/-- C113. **CCI** is positive exactly if the typical price is above its SMA, the middle line of the original Keltner channel. -/
theorem cci_sign {n : Nat} {h l c : Nat → K} {w wa : Nat} (hw : 1 ≤ w) {k : K} (hk : 0 < k) {m : Val K} {o : Keltner (Val K)}
    (ho : Keltner.new (ser n h) (ser n l) (ser n c) w wa false true m = .ok o) {i : Nat} (hi : i < n) (hp : w - 1 ≤ i)
    (hf : (ix (cci (ser n h) (ser n l) (ser n c) w (.fin k)) i).IsFin) :
    SameWay (.fin 0) (ix (cci (ser n h) (ser n l) (ser n c) w (.fin k)) i) (ix o.mband i) (.fin ((h i + l i + c i) / 3)) := by
  obtain ⟨T, A, M, hT, hA, hM, -, v, nv⟩ := cci_formula n h l c hw hk.ne' false
  have S := keltner_original_formula hw ho
  have M0 : M i ≠ 0 := fun g => by
    rw [nv i hi rfl (.inr g)] at hf
    obtain ⟨y, hy⟩ := hf
    cases hy
  have Mp : 0 < M i := by
    refine lt_of_le_of_ne ?_ (Ne.symm M0)
    rw [hM]
    exact div_nonneg (Finset.sum_nonneg fun _ _ => abs_nonneg _) (Nat.cast_nonneg _)
  rw [v i hi (.inr hp) M0, S.mband.val i hi hp]
  have e : wmean (fun j => (h j + l j + c j) / 3) w i = A i := by
    rw [hA]; unfold wmean; simp only [hT]
  rw [e, ← hT]
  refine sameWay_fin (k := 1 / (k * M i)) (by positivity) ?_
  field_simp
  ring

/-- C113. **CMF** is positive exactly if the accumulation/distribution line is above where it was `w` rows before. -/
theorem cmf_sign {n : Nat} {h l c v : Nat → K} {w : Nat} (hw : 1 ≤ w) (hv : ∀ i, 0 < v i) (hlc : ∀ i, l i ≤ c i) (hch : ∀ i, c i ≤ h i) {i : Nat} (hi : i + w < n) :
    let adi := accDistIndex (ser n h) (ser n l) (ser n c) (ser n v)
    SameWay (.fin 0) (ix (chaikinMoneyFlow (ser n h) (ser n l) (ser n c) (ser n v) w) (i + w)) (ix adi i) (ix adi (i + w)) := by
  obtain ⟨a, a', h1, h2, h3⟩ := cmf_adi n hw hv hlc hch hi
  intro adi
  rw [h1, h2, h3]
  have V : 0 < ∑ j ∈ Ico (i + 1) (i + w + 1), v j := Finset.sum_pos (fun j _ => hv j) ⟨i + 1, by simp; omega⟩
  refine sameWay_fin (k := 1 / ∑ j ∈ Ico (i + 1) (i + w + 1), v j) (by positivity) ?_
  ring

/-- C113. **Returns**: daily return, daily log return and ROC(1) have the sign of the change; the cumulative return that of the change since row 0. -/
theorem return_signs {n : Nat} {c : Nat → ℝ} (hc : ∀ i, 0 < c i) (fillna : Bool) {i : Nat} (hi : i + 1 < n) :
    SameWay (.fin 0) (ix (dailyReturn (ser n c) fillna) (i + 1)) (ix (ser n c) i) (ix (ser n c) (i + 1)) ∧
      SameWay (.fin 0) (ix (dailyLogReturn (ser n c) fillna) (i + 1)) (ix (ser n c) i) (ix (ser n c) (i + 1)) ∧
      SameWay (.fin 0) (ix (roc (ser n c) 1) (i + 1)) (ix (ser n c) i) (ix (ser n c) (i + 1)) ∧
      ∃ out, cumulativeReturn (ser n c) fillna = .ok out ∧ SameWay (.fin 0) (ix out (i + 1)) (ix (ser n c) 0) (ix (ser n c) (i + 1)) := by
  obtain ⟨D, C, out, hD, -, hC, dD, h1, dC, -⟩ := returns_compound (by omega : 0 < n) hc fillna
  obtain ⟨G, hG, -, dG, -, -⟩ := log_returns_sum (n := n) hc fillna
  have R := (roc_formula n (fun i => (hc i).ne') 1).1
  have d := def_ser n c
  have c0 := hc i
  have c00 := hc 0
  rw [d.val i (by omega) (Nat.zero_le _), d.val (i + 1) hi (Nat.zero_le _), d.val 0 (by omega) (Nat.zero_le _), dD.val (i + 1) hi (by split_ifs <;> omega),
    dG.val (i + 1) hi (by split_ifs <;> omega), R.val (i + 1) hi (by omega), hD, hG, Nat.add_sub_cancel]
  refine ⟨sameWay_fin (k := 100 / c i) (by positivity) (by field_simp; ring), ⟨_, _, _, _, rfl, rfl, rfl, rfl, ?_, ?_⟩, sameWay_fin (k := 100 / c i) (by positivity) (by field_simp; ring),
    out, h1, ?_⟩
  · rw [mul_pos_iff_of_pos_left (by norm_num), sub_pos, Real.log_lt_log_iff (hc _) (hc _)]
  · rw [scaled_neg (by norm_num), sub_neg, Real.log_lt_log_iff (hc _) (hc _)]
  · rw [dC.val (i + 1) hi (Nat.zero_le _), hC]
    exact sameWay_fin (k := 100 / c 0) (by positivity) (by field_simp; ring)

/-! ## examples -/

/-- RSI(2) against EMA(3): 100/3 where the close is below, 500/7 where it is above -/
example : rsi (qs [4, 5, 4, 5]) 2 true = .ok [.fin 100, .fin 100, .fin (100 / 3), .fin (500 / 7)] ∧
    emaIndicator (qs [4, 5, 4, 5]) 3 true = .ok [.fin 4, .fin (9 / 2), .fin (17 / 4), .fin (37 / 8)] := by decide +kernel
/-- the price never moved: RSI is 100 although the close is at its EMA -/
example : rsi (qs [4, 4, 4]) 2 true = .ok [.fin 100, .fin 100, .fin 100] ∧ emaIndicator (qs [4, 4, 4]) 3 true = .ok [.fin 4, .fin 4, .fin 4] := by decide +kernel

end TA
