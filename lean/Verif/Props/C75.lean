import Verif.Props.C13
import Verif.Props.C21
import Verif.Props.C27
import Verif.Props.C23
import Verif.Props.C34
import Verif.Lemmas.NewEq

/-!
# C75: the same quantity reached through different classes

Classes of the library that compute the same thing from different code. `fillna = False` unless said otherwise (the classes fill differently);
the data may contain NaN and infinities.
-/

set_option linter.unusedSectionVars false

namespace TA
open Finset

section any
variable {F : Type} [Flt F]

/-- C75, moving averages under another name, in any arithmetic: Bollinger's centre is the SMA of the close, the centre of the original Keltner
channel the SMA of the typical price, that of the ATR version the EMA of the close; the smoothed ease of movement is the SMA of the plain one. -/
theorem centres_are_averages {G : Type} [FltFn G] (c' : Series G) (dev : G) (h l c v : Series F) (w wa : Nat) (k : F) :
    (BB.new c' w dev).bollingerMavg = smaIndicator c' w ∧
    (Keltner.new h l c w wa false true k).map Keltner.mband = .ok (smaIndicator (typicalPrice h l c) w) ∧
    (∀ o, Keltner.new h l c w wa false false k = .ok o → emaIndicator c w = .ok o.mband) ∧
    smaEaseOfMovement h l v w = smaIndicator (easeOfMovement h l v) w := by
  refine ⟨rfl, ?_, fun o ho => ?_, rfl⟩
  · rw [Keltner.new_original_eq]
    simp only [Bool.false_eq_true, false_and, if_false]
    rfl
  · rw [Keltner.new_atr_eq] at ho
    rw [emaIndicator_eq]
    split_ifs at ho with h1
    have ho := Except.ok.inj ho
    rw [← ho, if_neg h1]
    rfl

/-- C75, signal lines are moving averages of the lines they accompany: MACD, PPO/PVO (EMA), stochastic, stochastic RSI (SMA). In any
arithmetic. -/
theorem signals_are_averages (x h l c : Series F) (slow fast sign w s1 s2 : Nat) :
    (∀ o, MACD.new x slow fast sign = .ok o → emaIndicator o.macd sign = .ok o.macdSignal) ∧
    (∀ o, PPO.new x slow fast sign = .ok o → emaIndicator o.ppo sign = .ok o.ppoSignal) ∧
    stochSignal h l c w s1 = smaIndicator (stoch h l c w) s1 ∧
    (∀ o, StochRSI.new x w s1 s2 = .ok o → o.stochrsiK = smaIndicator o.stochrsi s1 ∧ o.stochrsiD = smaIndicator o.stochrsiK s2) := by
  refine ⟨fun o ho => ?_, fun o ho => ?_, rfl, fun o ho => ?_⟩
  · rw [MACD.new_eq] at ho
    split_ifs at ho with h1
    have ho := Except.ok.inj ho
    rw [← ho, emaIndicator_eq, if_neg (fun hw => h1 (Or.inr (Or.inr hw)))]
    rfl
  · rw [PPO.new_eq] at ho
    split_ifs at ho with h1
    have ho := Except.ok.inj ho
    rw [← ho, emaIndicator_eq, if_neg (fun hw => h1 (Or.inr (Or.inr hw)))]
    rfl
  · rw [StochRSI.new_eq] at ho
    split_ifs at ho with h1
    have ho := Except.ok.inj ho
    rw [← ho]
    simp only [StochRSI.stochrsiK, StochRSI.stochrsiD, StochRSI.stochrsi, noFill, smaIndicator, sma, minp, Bool.false_eq_true,
      if_false, and_self]

/-- C75, the MACD line is the difference of two EMAs, the PPO the same difference in percent of the slow EMA, the PVO the PPO of the volume
(same class body), and the force index the EMA of the price change times the volume. In any arithmetic. -/
theorem lines_of_emas (x c v : Series F) (slow fast sign w : Nat) :
    (∀ o o', MACD.new x slow fast sign = .ok o → PPO.new x slow fast sign = .ok o' → ∃ ef es, emaIndicator x fast = .ok ef ∧
      emaIndicator x slow = .ok es ∧ ∀ i, i < x.length → ix o.macd i = (ix ef i -. ix es i) ∧ ix o'.ppo i = (ix o.macd i /. ix es i) *. lit 100) ∧
    forceIndex c v w = emaIndicator (tab c.length fun i => (ix c i -. if i = 0 then nan else ix c (i - 1)) *. ix v i) w := by
  refine ⟨fun o o' ho ho' => ?_, ?_⟩
  · rw [MACD.new_eq] at ho
    rw [PPO.new_eq] at ho'
    split_ifs at ho with h1
    rw [if_neg h1] at ho'
    have ho := Except.ok.inj ho
    have ho' := Except.ok.inj ho'
    refine ⟨_, _, by rw [emaIndicator_eq, if_neg fun hw => h1 (Or.inr (Or.inl hw))], by rw [emaIndicator_eq, if_neg fun hw => h1 (Or.inl hw)],
      fun i hi => ?_⟩
    have hl : i < (ema x fast false).length := by simpa using hi
    rw [← ho, ← ho']
    simp only [MACD.macd, PPO.ppo, MACD.run, PPO.run, noFill]
    rw [ix_ssub hl, ix_mulc (by simpa using hi), ix_sdiv (by simpa using hi), ix_ssub hl]
    exact ⟨rfl, rfl⟩
  · rw [forceIndex_eq, emaIndicator_eq]
    split_ifs with hw
    · rfl
    · rw [noFill]
      unfold FI.run
      congr 2
      refine series_ext (by simp) fun i hi => ?_
      have hi : i < c.length := by simpa using hi
      rw [ix_smul (by simpa using hi), ix_ssub hi, ix_tab_lt hi, ix_shift hi]
      simp only [Nat.lt_one_iff]

end any

variable {K : Type} [Field K] [LinearOrder K] [IsStrictOrderedRing K]

theorem Val.scale_div {m : K} (hm : 0 < m) (a b : Val K) : ((Val.fin m *. a) /. b) = (Val.fin m *. (a /. b)) := by
  have hp : (Val.fin m *. (.pinf : Val K)) = .pinf := by
    show Val.mul (.fin m) .pinf = _
    simp [Val.mul, Val.infMul, hm, hm.ne']
  have hn : (Val.fin m *. (.ninf : Val K)) = .ninf := by
    show Val.mul (.fin m) .ninf = _
    simp [Val.mul, Val.infMul, hm, hm.ne', Val.neg]
  cases a with
  | nan => simp
  | pinf =>
    rw [hp]
    cases b with
    | fin y =>
      show (if 0 ≤ y then Val.pinf else Val.ninf) = (Val.fin m *. (if 0 ≤ y then (Val.pinf : Val K) else Val.ninf))
      split_ifs
      · exact hp.symm
      · exact hn.symm
    | nan => rfl
    | pinf => rfl
    | ninf => rfl
  | ninf =>
    rw [hn]
    cases b with
    | fin y =>
      show (if 0 ≤ y then Val.ninf else Val.pinf) = (Val.fin m *. (if 0 ≤ y then (Val.ninf : Val K) else Val.pinf))
      split_ifs
      · exact hn.symm
      · exact hp.symm
    | nan => rfl
    | pinf => rfl
    | ninf => rfl
  | fin x =>
    rw [fin_mul]
    cases b with
    | nan => simp
    | pinf => show Val.fin 0 = Val.fin (m * 0); rw [mul_zero]
    | ninf => show Val.fin 0 = Val.fin (m * 0); rw [mul_zero]
    | fin y =>
      by_cases hy : y = 0
      · subst hy
        rw [fin_div_zero, fin_div_zero]
        by_cases hx : x = 0
        · simp [hx]
        · by_cases h0 : 0 < x
          · simp only [mul_eq_zero, hm.ne', hx, or_self, if_false, mul_pos hm h0, h0, if_true]
            exact hp.symm
          · have : ¬ 0 < m * x := fun h => h0 ((mul_pos_iff_of_pos_left hm).1 h)
            simp only [mul_eq_zero, hm.ne', hx, or_self, if_false, this, h0]
            exact hn.symm
      · rw [fin_div _ _ hy, fin_div _ _ hy, fin_mul, mul_div_assoc]

/-- rolled maxima and minima are NaN or numbers -/
theorem rollMax_num (s : Series (Val K)) (w mp i : Nat) : ix (rollMax w mp s) i = .nan ∨ ∃ x, ix (rollMax w mp s) i = .fin x := by
  by_cases hi : i < s.length
  · rcases rollMax_cases s w mp i hi with e | ⟨x, e, _⟩
    · exact .inl e
    · exact .inr ⟨x, e⟩
  · exact .inl (ix_ge (by simpa using hi))

theorem rollMin_num (s : Series (Val K)) (w mp i : Nat) : ix (rollMin w mp s) i = .nan ∨ ∃ x, ix (rollMin w mp s) i = .fin x := by
  by_cases hi : i < s.length
  · rcases rollMin_cases s w mp i hi with e | ⟨x, e, _⟩
    · exact .inl e
    · exact .inr ⟨x, e⟩
  · exact .inl (ix_ge (by simpa using hi))

/-- C75: %K is a hundred times the Donchian percentage band of the same window (no offset), whatever the data. -/
theorem stoch_donchian (h l c : Series (Val K)) (w : Nat) :
    ∃ o, Donchian.new h l c w = .ok o ∧ stoch h l c w = o.pband.map fun v => .fin 100 *. v := by
  refine ⟨_, by rw [Donchian.new_eq, if_neg (by simp)], ?_⟩
  simp only [stoch, noFill, Donchian.pband, Donchian.off, ne_eq, not_true_eq_false, if_false, Bool.false_eq_true]
  unfold Stoch.k
  refine series_ext (by simp) fun i hi => ?_
  have hi : i < c.length := by simpa using hi
  rw [ix_map (by simpa using hi), ix_sdiv (by simpa using hi), ix_sdiv (by simpa using hi), ix_cmul (by simpa using hi)]
  rw [lit_fin]
  push_cast
  exact Val.scale_div (by norm_num) _ _

/-- C75: Ichimoku's conversion and base lines are the Donchian middle bands of their windows, with or without fillna, whatever the data. -/
theorem ichimoku_donchian (h l c : Series (Val K)) {w : Nat} (hw : 1 ≤ w) (b : Bool) :
    ∃ o, Donchian.new h l c w 0 b = .ok o ∧ ichimokuConversionLine h l w b = o.mband ∧ ichimokuBaseLine h l w b = o.mband := by
  have key : Ichimoku.mid h l w (minp b w) = sadd (divc (ssub (rollMax w (if b then 1 else w) h) (rollMin w (if b then 1 else w) l)) (lit 2))
      (rollMin w (if b then 1 else w) l) := by
    have eM : rollMax w (minp b w) h = rollMax w (if b then 1 else w) h := by
      refine series_ext (by simp) fun i hi => ?_
      have hi : i < h.length := by simpa using hi
      rw [ix_rollMax hi, ix_rollMax hi]
      cases b
      · rfl
      · simp only [minp, if_true, Nat.zero_le]
        split_ifs with h0
        · rfl
        · rw [show obs h w i = [] from List.eq_nil_of_length_eq_zero (by omega)]; rfl
    have em : rollMin w (minp b w) l = rollMin w (if b then 1 else w) l := by
      refine series_ext (by simp) fun i hi => ?_
      have hi : i < l.length := by simpa using hi
      rw [ix_rollMin hi, ix_rollMin hi]
      cases b
      · rfl
      · simp only [minp, if_true, Nat.zero_le]
        split_ifs with h0
        · rfl
        · rw [show obs l w i = [] from List.eq_nil_of_length_eq_zero (by omega)]; rfl
    unfold Ichimoku.mid
    rw [eM, em]
    refine series_ext (by simp) fun i hi => ?_
    have hi : i < h.length := by simpa using hi
    rw [ix_cmul (by simpa using hi), ix_sadd (by simpa using hi), ix_sadd (by simpa using hi), ix_divc (by simpa using hi),
      ix_ssub (by simpa using hi)]
    rcases rollMax_num h w (if b then 1 else w) i with e | ⟨x, e⟩ <;> rw [e]
    · simp
    rcases rollMin_num l w (if b then 1 else w) i with e' | ⟨y, e'⟩ <;> rw [e']
    · simp
    rw [fin_add, fin_sub, lit_fin, lit_fin, fin_mul, fin_div _ _ (by norm_num), fin_add]
    congr 1
    push_cast
    ring
  refine ⟨_, by rw [Donchian.new_eq, if_neg (by omega)], ?_, ?_⟩ <;>
  · simp only [ichimokuConversionLine, ichimokuBaseLine, Donchian.mband, Donchian.off, ne_eq, not_true_eq_false, if_false]
    rw [key]

theorem typ_self (t : Series (Val K)) : typicalPrice t t t = t := by
  refine series_ext (by simp [typicalPrice]) fun i hi => ?_
  have hi : i < t.length := by simpa [typicalPrice] using hi
  unfold typicalPrice
  rw [ix_divc (by simpa using hi), ix_sadd (by simpa using hi), ix_sadd hi]
  cases ix t i with
  | fin x =>
    rw [fin_add, fin_add, lit_fin, fin_div _ _ (by norm_num)]
    congr 1
    push_cast
    ring
  | nan => rfl
  | pinf =>
    show (if (0 : K) ≤ ((3 : ℚ) : K) then Val.pinf else Val.ninf) = _
    rw [if_pos (by norm_num)]
  | ninf =>
    show (if (0 : K) ≤ ((3 : ℚ) : K) then Val.ninf else Val.pinf) = _
    rw [if_pos (by norm_num)]

theorem med_self (m : Series (Val K)) : cmul (lit (1/2)) (sadd m m) = m := by
  refine series_ext (by simp) fun i hi => ?_
  have hi : i < m.length := by simpa using hi
  have h2 : (0 : K) < ((1/2 : ℚ) : K) := by norm_num
  rw [ix_cmul (by simpa using hi), ix_sadd hi]
  cases ix m i with
  | fin x =>
    rw [fin_add, lit_fin, fin_mul]
    congr 1
    push_cast
    ring
  | nan => rfl
  | pinf => show Val.mul (.fin ((1/2 : ℚ) : K)) .pinf = _; simp only [Val.mul, Val.infMul, h2, h2.ne', if_true, if_false]
  | ninf => show Val.mul (.fin ((1/2 : ℚ) : K)) .ninf = _; simp only [Val.mul, Val.infMul, h2, h2.ne', if_true, if_false, Val.neg]

/-- C75: CCI, MFI and VWAP see of a bar only its typical price, the awesome oscillator only its median price: collapsing each bar to that one
price changes nothing, for any data and both values of `fillna`. -/
theorem only_typical_price (h l c v : Series (Val K)) (w w1 w2 : Nat) (k : Val K) (b : Bool) :
    (∀ t, t = (tab h.length fun i => (ix h i +. ix l i +. ix c i) /. .fin 3) →
      cci h l c w k b = cci t t t w k b ∧ moneyFlowIndex h l c v w b = moneyFlowIndex t t t v w b ∧
      volumeWeightedAveragePrice h l c v w b = volumeWeightedAveragePrice t t t v w b) ∧
    ∀ m, m = (tab h.length fun i => .fin (1/2) *. (ix h i +. ix l i)) → awesomeOscillator h l w1 w2 b = awesomeOscillator m m w1 w2 b := by
  refine ⟨fun t ht => ?_, fun m hm => ?_⟩
  · have e : typicalPrice h l c = t := by
      rw [ht]
      unfold typicalPrice
      refine series_ext (by simp) fun i hi => ?_
      have hi : i < h.length := by simpa using hi
      rw [ix_divc (by simpa using hi), ix_sadd (by simpa using hi), ix_sadd hi, ix_tab_lt hi, lit_fin]
      push_cast
      rfl
    refine ⟨?_, ?_, ?_⟩
    · unfold cci CCI.run; rw [e, typ_self]
    · unfold moneyFlowIndex MFI.run MFI.flow; rw [e, typ_self]
    · unfold volumeWeightedAveragePrice VWAP.run; rw [e, typ_self]
  · have e : cmul (lit (1/2)) (sadd h l) = m := by
      rw [hm]
      refine series_ext (by simp) fun i hi => ?_
      have hi : i < h.length := by simpa using hi
      rw [ix_cmul (by simpa using hi), ix_sadd hi, ix_tab_lt hi, lit_fin]
      push_cast
      rfl
    unfold awesomeOscillator AO.run
    rw [e, med_self]

/-- C75: the stochastic RSI is a hundredth of the stochastic oscillator of the RSI. -/
theorem stochrsi_stoch (c : Series (Val K)) (w s1 s2 : Nat) (o : StochRSI (Val K)) (ho : StochRSI.new c w s1 s2 = .ok o) :
    ∃ r, rsi c w = .ok r ∧ stoch r r r w = o.stochrsi.map fun v => .fin 100 *. v := by
  rw [StochRSI.new_eq] at ho
  split_ifs at ho with h1
  have ho := Except.ok.inj ho
  refine ⟨_, by rw [rsi, if_neg h1], ?_⟩
  rw [← ho]
  simp only [stoch, noFill, StochRSI.stochrsi]
  unfold Stoch.k StochRSI.ofRsi minp
  refine series_ext (by simp) fun i hi => ?_
  have hi : i < (RSI.run c w false).length := by simpa using hi
  rw [ix_map (by simpa using hi), ix_sdiv (by simpa using hi), ix_sdiv (by simpa using hi), ix_cmul (by simpa using hi), lit_fin]
  push_cast
  exact Val.scale_div (by norm_num) _ _

/-- C75: Chaikin's money flow is the increase of the ADI over the window, per unit of volume. -/
theorem cmf_adi (n : Nat) {h l c v : Nat → K} {w : Nat} (hw : 1 ≤ w) (hv : ∀ i, 0 < v i) (hlc : ∀ i, l i ≤ c i) (hch : ∀ i, c i ≤ h i)
    {i : Nat} (hi : i + w < n) :
    ∃ a a' : K, ix (accDistIndex (ser n h) (ser n l) (ser n c) (ser n v)) i = .fin a ∧
      ix (accDistIndex (ser n h) (ser n l) (ser n c) (ser n v)) (i + w) = .fin a' ∧
      ix (chaikinMoneyFlow (ser n h) (ser n l) (ser n c) (ser n v) w) (i + w) = .fin ((a' - a) / ∑ j ∈ Ico (i + 1) (i + w + 1), v j) := by
  have d := adi_formula n h l c v hlc hch false
  refine ⟨_, _, d.val i (by omega) (Nat.zero_le _), d.val (i + w) hi (Nat.zero_le _), ?_⟩
  rw [(cmf_formula n h l c v w false hw hv hlc hch).val (i + w) hi (by simp; omega), show i + w + 1 - w = i + 1 by omega]
  congr 2
  rw [Finset.sum_Ico_eq_sub _ (by omega)]

theorem Def.eq_ser {s : Series (Val K)} {n : Nat} {f : Nat → K} (d : Def s n 0 f) : s = ser n f :=
  series_ext (by rw [d.len]; simp [ser]) fun i hi => by
    have hi : i < n := by rw [← d.len]; exact hi
    rw [d.val i hi (Nat.zero_le _), (def_ser n f).val i hi (Nat.zero_le _)]

/-- C75: with window 1 the averages are the close itself, VWAP the typical price and the ATR the true range of the bar. -/
theorem window_one (n : Nat) (x h l v : Nat → K) (hv : ∀ i, 0 < v i) (hlh : ∀ i, l i ≤ h i) :
    smaIndicator (ser n x) 1 = ser n x ∧ emaIndicator (ser n x) 1 = .ok (ser n x) ∧ wma (ser n x) 1 = ser n x ∧
    volumeWeightedAveragePrice (ser n h) (ser n l) (ser n x) (ser n v) 1 = ser n (fun i => (h i + l i + x i) / 3) ∧
    ∀ out, averageTrueRange (ser n h) (ser n l) (ser n x) 1 = .ok out →
      out = ser n (fun i => if i = 0 then h i - l i else max (h i) (x (i - 1)) - min (l i) (x (i - 1))) := by
  refine ⟨?_, ?_, ?_, ?_, fun out ho => ?_⟩
  · exact ((sma_formula n x 1 le_rfl).congr fun i _ _ => by simp).eq_ser
  · obtain ⟨e, e0, es, out, ho, d⟩ := ema_recurrence n x 1 le_rfl false
    rw [ho]
    congr 1
    refine (d.congr fun i _ _ => ?_).eq_ser
    cases i with
    | zero => exact e0
    | succ i => rw [es]; norm_num
  · exact ((wma_formula n x 1 le_rfl).congr fun i _ _ => by norm_num).eq_ser
  · refine ((vwap_formula n h l x v 1 false le_rfl hv).congr fun i _ _ => ?_).eq_ser
    have := (hv i).ne'
    simp only [Nat.add_sub_cancel, Nat.Ico_succ_singleton, Finset.sum_singleton]
    field_simp
  · refine ((atr_formula (fun i _ => hlh i) le_rfl ho).2.congr fun i _ _ => ?_).eq_ser
    have hi : ∀ i, wilMean (tr0 h l x) 1 i = tr0 h l x i := by
      intro i
      cases i with
      | zero => simp [wilMean]
      | succ i => simp [wilMean, Nat.add_comm]
    simp only [Nat.sub_self, Nat.not_lt_zero, if_false, Nat.sub_zero, hi, tr0]
    split_ifs with h0
    · rw [h0]
    · rfl

section examples

/-- data with a gap, an infinite close and a bar without range -/
example : stoch (qs [12, 14] ++ [.nan, .fin 13, .fin 13, .fin 13]) (qs [8, 9] ++ [.nan, .fin 13, .fin 13, .fin 13])
      [.fin 10, .fin 12, .fin 11, .fin 13, .pinf, .fin 12] 2 = [.nan, .fin (200/3), .nan, .nan, .pinf, .ninf] ∧
    (Donchian.new (qs [12, 14] ++ [.nan, .fin 13, .fin 13, .fin 13]) (qs [8, 9] ++ [.nan, .fin 13, .fin 13, .fin 13])
      [.fin 10, .fin 12, .fin 11, .fin 13, .pinf, .fin 12] 2).map Donchian.pband = .ok [.nan, .fin (2/3), .nan, .nan, .pinf, .ninf] := by
  decide +kernel

/-- the second span of Ichimoku is not the Donchian middle band: it starts at the first row even without fillna -/
theorem spanB_not_donchian : ichimokuB (qs [12, 14, 16]) (qs [8, 9, 10]) 1 2 = qs [10, 11, 25/2] ∧
    (Donchian.new (qs [12, 14, 16]) (qs [8, 9, 10]) (qs [8, 9, 10]) 2).map Donchian.mband = .ok [.nan, .fin 11, .fin (25/2)] := by
  decide +kernel

/-- CCI of three bars and of their typical prices -/
example : cci (qs [12, 14, 16]) (qs [9, 10, 8]) (qs [9, 12, 12]) 2 = [.nan, .fin (200/3), .nan] ∧ cci (qs [10, 12, 12]) (qs [10, 12, 12]) (qs [10, 12, 12]) 2 =
    [.nan, .fin (200/3), .nan] := by decide +kernel

/-- CMF of the second row from the ADI of the first two -/
example : accDistIndex (qs [11, 13]) (qs [9, 10]) (qs [10, 13]) (qs [5, 4]) = qs [0, 4] ∧
    chaikinMoneyFlow (qs [11, 13]) (qs [9, 10]) (qs [10, 13]) (qs [5, 4]) 1 = qs [0, 1] := by decide +kernel

end examples

end TA
