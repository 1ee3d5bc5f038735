import Verif.Props.C41
import Verif.Props.C86

/-! # C87: a market at a standstill

The same bar over and over.  The value of each of the 84 outputs, in closed form. -/

set_option linter.unusedSectionVars false

namespace TA

open Finset

/-- the average true range of a market at a standstill: its range, once there are `w` rows -/
noncomputable def stillRange (h l : ℝ) (w i : Nat) : ℝ := if i < w - 1 then 0 else h - l

/-- The value of row `i` of an output when every bar is `(h, l, c, v)`. -/
noncomputable def Ind.still (h l c v : ℝ) (i : Nat) : Ind (Val ℝ) → Val ℝ
  -- ratios of two zeros
  | .tsi .. | .stochrsi .. | .stochrsiK .. | .stochrsiD .. | .cci .. | .stc .. | .bbPband .. | .mfi .. => .nan
  -- no losses
  | .rsi _ => .fin 100
  -- the place of the close between low and high
  | .uo .. | .stoch _ | .stochSignal .. => .fin (100 * (c - l) / (h - l))
  | .williamsR _ => .fin (-100 * (h - c) / (h - l))
  | .dcPband .. => .fin ((c - l) / (h - l))
  | .cmf _ => .fin (((c - l) - (h - c)) / (h - l))
  -- averages
  | .kama .. | .ema _ | .sma _ | .wma _ | .bbMavg .. | .bbHband .. | .bbLband .. => .fin c
  | .vwap _ => .fin ((h + l + c) / 3)
  | .ichimokuConv _ | .ichimokuBase _ | .ichimokuA .. | .ichimokuB .. | .dcMband .. => .fin ((h + l) / 2)
  | .dcHband .. => .fin h
  | .dcLband .. => .fin l
  | .dcWband .. => .fin (100 * (h - l) / c)
  -- changes
  | .roc _ | .ao .. | .ppo .. | .ppoSignal .. | .ppoHist .. | .pvo .. | .pvoSignal .. | .pvoHist .. | .macd ..
  | .macdSignal .. | .macdDiff .. | .trix _ | .kst _ | .kstSig .. | .kstDiff .. | .dpo _ | .adx _ | .adxPos _ | .adxNeg _
  | .bbWband .. | .bbHi .. | .bbLi .. | .ulcer _ | .fi _ | .eom | .smaEom _ | .vpt _ | .dr | .dlr | .cr
  -- the oldest of the equal extremes is the one counted
  | .aroonUp _ | .aroonDown _ | .aroonInd _ | .vortexDiff _ => .fin 0
  | .vortexPos _ | .vortexNeg _ => .fin 1
  | .massIndex _ slow => .fin slow
  | .atr w => .fin (stillRange h l w i)
  -- the stop is hit on every bar
  | .psar .. => .fin (if i < 2 then c else if i % 2 = 1 then l else h)
  | .psarUp .. => if i % 2 = 1 then .fin l else .nan
  | .psarDown .. => if i % 2 = 1 then .nan else .fin h
  | .psarUpInd .. => .fin (if 2 ≤ i ∧ i % 2 = 1 then 1 else 0)
  | .psarDownInd .. => .fin (if 2 ≤ i ∧ i % 2 = 0 then 1 else 0)
  | .kcMband _ _ true _ => .fin ((h + l + c) / 3)
  | .kcHband _ _ true _ => .fin ((4 * h - 2 * l + c) / 3)
  | .kcLband _ _ true _ => .fin ((-2 * h + 4 * l + c) / 3)
  | .kcWband _ _ true _ => .fin (600 * (h - l) / (h + l + c))
  | .kcPband _ _ true _ => .fin ((h + c - 2 * l) / (3 * (h - l)))
  | .kcHi _ _ true _ | .kcLi _ _ true _ => .fin 0
  | .kcMband _ _ false _ => .fin c
  | .kcHband _ wa false k => .fin c +. k *. .fin (stillRange h l wa i)
  | .kcLband _ wa false k => .fin c -. k *. .fin (stillRange h l wa i)
  | .kcWband _ wa false k => .fin (200 * stillRange h l wa i / c) *. k
  | .kcPband _ wa false k => if k = .fin 0 ∨ i < wa - 1 then .nan else .fin (1 / 2)
  | .kcHi w wa false k | .kcLi w wa false k => .fin (if k <. .fin 0 ∧ w - 1 ≤ i ∧ wa - 1 ≤ i then 1 else 0)
  | .adi => .fin (((c - l) - (h - c)) / (h - l) * v * (i + 1))
  | .obv => .fin (v * (i + 1))
  | .nvi => .fin 1000

/-- Beyond `Sane`: a positive first acceleration, no shift to the left, no displaced span A. -/
def Ind.Steady : Ind (Val ℝ) → Prop
  | .psar s _ | .psarUp s _ | .psarDown s _ | .psarUpInd s _ | .psarDownInd s _ => ∃ x, s = .fin x ∧ 0 < x
  | .dcHband _ off | .dcLband _ off | .dcMband _ off | .dcWband _ off | .dcPband _ off => 0 ≤ off
  | .ichimokuA _ _ visual => visual = false
  | _ => True

/-! ### constants through the formulas -/

theorem ser_still (n : Nat) (a : ℝ) : List.replicate n (Val.fin a) = ser n fun _ => a := by
  unfold ser tab
  rw [List.map_const', List.length_range]

theorem still_cols (n : Nat) (h l c v : ℝ) :
    let b : List (Bar (Val ℝ)) := List.replicate n ⟨.fin h, .fin l, .fin c, .fin v⟩
    highs b = ser n (fun _ => h) ∧ lows b = ser n (fun _ => l) ∧ closes b = ser n (fun _ => c) ∧
    volumes b = ser n (fun _ => v) := by
  intro b
  refine ⟨?_, ?_, ?_, ?_⟩ <;> rw [← ser_still] <;> simp [b, highs, lows, closes, volumes]

theorem still_mean (a : ℝ) {w i : Nat} (hw : 1 ≤ w) : (∑ _j ∈ Ico (i + 1 - w) (i + 1), a) / (min w (i + 1) : ℕ) = a := by
  have h1 : i + 1 - (i + 1 - w) = min w (i + 1) := by omega
  have h2 : ((min w (i + 1) : ℕ) : ℝ) ≠ 0 := by
    have : min w (i + 1) ≠ 0 := by omega
    exact_mod_cast this
  rw [sum_const, Nat.card_Ico, h1, nsmul_eq_mul]
  field_simp

theorem still_mean_full (a : ℝ) {w i : Nat} (hw : 1 ≤ w) (hi : w - 1 ≤ i) : (∑ _j ∈ Ico (i + 1 - w) (i + 1), a) / w = a := by
  have := still_mean a (i := i) hw
  rwa [show min w (i + 1) = w by omega] at this

theorem still_wmean (a : ℝ) {w : Nat} (hw : 1 ≤ w) (i : Nat) : wmean (fun _ => a) w i = a := still_mean a hw

theorem still_wmax (a : ℝ) {w : Nat} (hw : 1 ≤ w) (i : Nat) : wmax (fun _ => a) w i = a := by
  obtain ⟨⟨j, _, _, e⟩, _⟩ := wmax_spec (fun _ => a) (w := w) (i := i) hw
  exact e

theorem still_wmin (a : ℝ) {w : Nat} (hw : 1 ≤ w) (i : Nat) : wmin (fun _ => a) w i = a := by
  obtain ⟨⟨j, _, _, e⟩, _⟩ := wmin_spec (fun _ => a) (w := w) (i := i) hw
  exact e

theorem still_wstd (a : ℝ) {w : Nat} (hw : 1 ≤ w) (i : Nat) : wstd (fun _ => a) w i = 0 := by
  unfold wstd
  rw [still_wmean a hw]
  simp

theorem still_prev {n : Nat} (hn : 0 < n) (a : ℝ) (k i : Nat) : prevOr n (fun _ => a) k i = a := by
  unfold prevOr meanAll
  split_ifs
  · have : (n : ℝ) ≠ 0 := by exact_mod_cast hn.ne'
    simp
    field_simp
  · rfl

theorem still_mid {h l : ℝ} {w : Nat} {M : Nat → ℝ} (hM : IsMid (fun _ => h) (fun _ => l) w M) (i : Nat) :
    M i = (h + l) / 2 := by
  obtain ⟨a, b, ⟨⟨_, _, _, rfl⟩, _⟩, ⟨⟨_, _, _, rfl⟩, _⟩, e⟩ := hM i
  exact e

theorem still_tr {h l c : ℝ} (hlc : l ≤ c) (hch : c ≤ h) : max h c - min l c = h - l := by
  rw [max_eq_left hch, min_eq_left hlc]

theorem still_sar {h l c step mx : ℝ} (hlh : l < h) (hlc : l ≤ c) (hch : c ≤ h) (hs : 0 < step) (i : Nat) (hi : 2 ≤ i) :
    sarAt (fun _ => h) (fun _ => l) (fun _ => c) step mx i
      = if i % 2 = 1 then ⟨true, step, h, l, l⟩ else ⟨false, step, h, l, h⟩ := by
  have hp := mul_pos hs (sub_pos.mpr hlh)
  induction i, hi using Nat.le_induction with
  | base =>
    show Sar.next _ _ step mx 2 ⟨true, step, h, l, c⟩ = _
    unfold Sar.next
    have : l < c + step * (h - c) := by
      rcases hlc.eq_or_lt with e | e
      · subst e; linarith
      · have := mul_nonneg hs.le (sub_nonneg.mpr hch); linarith
    simp [this]
  | succ i hi ih =>
    rw [sarAt_succ (by omega), ih]
    rcases Nat.mod_two_eq_zero_or_one i with e | e
    · rw [if_neg (show ¬ i % 2 = 1 by omega), if_pos (show (i + 1) % 2 = 1 by omega)]
      have : h - step * (h - l) < h := by linarith
      unfold Sar.next
      rw [if_neg (by simp)]
      exact if_pos this
    · rw [if_pos e, if_neg (show ¬ (i + 1) % 2 = 1 by omega)]
      have : l < l + step * (h - l) := by linarith
      unfold Sar.next
      rw [if_pos rfl]
      exact if_pos this

theorem still_oldest {a : ℝ} {w i k : Nat} (hk : IsOldestMax (fun _ => a) w i k) : k = 0 := by
  by_contra h0
  exact lt_irrefl a (hk.2.2 (i - w) (le_refl _) (by omega))

theorem still_kst {n : Nat} (hn : 0 < n) {c : ℝ} (hc : 0 < c) (r : Nat) {w : Nat} (hw : 1 ≤ w) (i : Nat) :
    rocMean n (fun _ => c) r w i = 0 := by
  unfold rocMean
  have e : (fun j => (fun _ : Nat => c) j / prevOr n (fun _ => c) r j - 1) = fun _ => (0 : ℝ) := by
    funext j
    rw [still_prev hn, div_self hc.ne', sub_self]
  rw [e, still_wmean _ hw]

theorem still_wil_zero {h l c : ℝ} (w i : Nat) :
    plusDI (fun _ => h) (fun _ => l) (fun _ => c) w i = 0 ∧ minusDI (fun _ => h) (fun _ => l) (fun _ => c) w i = 0 := by
  unfold plusDI minusDI
  rw [wil_zero (f := dmUp (fun _ => h) (fun _ => l)) (fun j => by simp [dmUp]),
    wil_zero (f := dmDown (fun _ => h) (fun _ => l)) (fun j => by simp [dmDown])]
  simp [dirInd]

theorem still_atr {h l c : ℝ} (hlc : l ≤ c) (hch : c ≤ h) {w : Nat} (hw : 1 ≤ w) (i : Nat) :
    (if i < w - 1 then 0 else wilMean (tr0 (fun _ => h) (fun _ => l) (fun _ => c)) w (i - (w - 1))) = stillRange h l w i := by
  have e : tr0 (fun _ => h) (fun _ => l) (fun _ => c) = fun _ => h - l := by
    funext j
    unfold tr0
    split_ifs
    · rfl
    · exact still_tr hlc hch
  rw [e, wilMean_const _ hw]
  rfl

theorem all_gap {s : Series (Val ℝ)} {n p q : Nat} (h : Gap s n p) (hf : ∀ i, i < n → p ≤ i → ix s i = .nan) : Gap s n q :=
  ⟨h.len, fun i h1 _ => by
    by_cases hp : i < p
    · exact h.gap i h1 hp
    · exact hf i h1 (by omega)⟩

theorem nan_ratio : (Val.fin (0 : ℝ) /. Val.fin 0) = .nan := by rw [fin_div_zero, if_pos rfl]

theorem stochOf_still {s : Series (Val ℝ)} {n p w : Nat} (h : Def s n p fun _ => 0) (hw : 1 ≤ w) :
    Gap (STC.stochOf s w) n n := by
  have hmx := h.rollMax hw
  have hmn := h.rollMin hw
  refine all_gap (h.toGap.stochOf hw) fun j h1 h2 => ?_
  unfold STC.stochOf cmul
  rw [ix_sdiv (by simp [h.len, h1]), ix_map (by simp [h.len, h1]), ix_ssub (by simp [h.len, h1]),
    ix_ssub (by simp [h.len, h1]), hmx.val j h1 h2, hmn.val j h1 h2, h.val j h1 (by omega), still_wmax _ hw, still_wmin _ hw,
    lit_fin, fin_sub, fin_mul, sub_zero, mul_zero]
  exact nan_ratio

theorem stc_still {n : Nat} {c : ℝ} {slow fast cycle s1 s2 : Nat} {out : Series (Val ℝ)} (hcy : 1 ≤ cycle)
    (ho : stc (ser n fun _ => c) slow fast cycle s1 s2 false = .ok out) {i : Nat} (hi : i < n) : ix out i = .nan := by
  unfold stc chkSpan at ho
  simp only [bind, Except.bind, pure, Except.pure] at ho
  by_cases h1 : fast < 1
  · rw [if_pos h1] at ho; cases ho
  rw [if_neg h1] at ho
  by_cases h2 : slow < 1
  · rw [if_pos h2] at ho; cases ho
  rw [if_neg h2] at ho
  by_cases h3 : s1 < 1
  · rw [if_pos h3] at ho; cases ho
  rw [if_neg h3] at ho
  by_cases h4 : s2 < 1
  · rw [if_pos h4] at ho; cases ho
  rw [if_neg h4] at ho
  have e := Except.ok.inj ho
  have hL0 := (((def_ser n fun _ => c).ema0 (by omega : 1 ≤ fast) false).ssub
    ((def_ser n fun _ => c).ema0 (by omega : 1 ≤ slow) false)).congr (g := fun _ => (0 : ℝ)) fun i _ _ => by
      unfold emaW
      rw [emaRec_const, emaRec_const, sub_self]
  have hA := stochOf_still hL0 hcy
  have hD := hA.ewm (alphaOfSpan s1) (minp false s1)
  have hB := hD.stochOf hcy
  have hS := hB.ewm (alphaOfSpan s2) (minp false s2)
  rw [← e]
  exact hS.gap i hi (by omega)

theorem kc_pband_still {o : Keltner (Val ℝ)} {n : Nat} {c a b : Nat → ℝ} {q : Nat} (hc : o.close = ser n c)
    (hf : o.fillna = false) (h1 : Def o.hband n q a) (h2 : Def o.lband n q b) {i : Nat} (hi : i < n) (hq : q ≤ i)
    (e1 : a i = b i) (e2 : c i = b i) : ix o.pband i = .nan := by
  unfold Keltner.hband checkFillna at h1
  unfold Keltner.lband checkFillna at h2
  rw [hf] at h1 h2
  unfold Keltner.pband checkFillna
  rw [hf, hc]
  show ix (sdiv (ssub (ser n c) o.tpLow) (ssub o.tpHigh o.tpLow)) i = _
  have h1 : Def o.tpHigh n q a := h1
  have h2 : Def o.tpLow n q b := h2
  rw [ix_sdiv (by simp [ser, hi]), ix_ssub (by simp [ser, hi]), ix_ssub (by rw [h1.len]; exact hi), h1.val i hi hq,
    h2.val i hi hq, (def_ser n c).val i hi (Nat.zero_le _), fin_sub, fin_sub, e1, e2, sub_self]
  exact nan_ratio

theorem bb_pband_still {n : Nat} {c : ℝ} {w : Nat} (hw : 1 ≤ w) (d : ℝ) {i : Nat} (hi : i < n) (hp : w - 1 ≤ i) :
    ix (BB.new (ser n fun _ => c) w (.fin d) false).bollingerPband i = .nan := by
  have S := bollinger_formula (n := n) (fun _ => c) hw d false
  simp only [Bool.false_eq_true, if_false] at S
  have h1 := S.hband
  have h2 := S.lband
  unfold BB.bollingerHband checkFillna at h1
  unfold BB.bollingerLband checkFillna at h2
  unfold BB.bollingerPband checkFillna
  generalize ho : BB.new (ser n fun _ => c) w (.fin d) false = o at h1 h2 ⊢
  have hf : o.fillna = false := by rw [← ho]; rfl
  have hc : o.close = ser n fun _ => c := by rw [← ho]; rfl
  rw [hf] at h1 h2 ⊢
  have h1 : Def o.hband n (w - 1) _ := h1
  have h2 : Def o.lband n (w - 1) _ := h2
  show ix (sdiv (ssub o.close o.lband) (zip2 _ o.hband o.lband)) i = _
  rw [hc, ix_sdiv (by simp [ser, hi]), ix_zip2 (by rw [h1.len]; exact hi), h1.val i hi hp, h2.val i hi hp]
  simp only [still_wstd _ hw, mul_zero, add_zero, sub_zero]
  rw [if_neg (by simp)]
  exact div_nan _

/-- the visual span B of a market at a standstill -/
theorem vis_still {n w : Nat} {s : Series (Val ℝ)} {a : ℝ} (h : Def s n 0 fun _ => a) {i : Nat} (hi : i < n) :
    (if i < w then smean s else ix s (i - w)) = .fin a := by
  split_ifs with h1
  · have e : s = ser n fun _ => a := series_ext (by rw [h.len, (def_ser n _).len]) fun j hj => by
      rw [h.val j (by rw [← h.len]; exact hj) (Nat.zero_le _),
        (def_ser n _).val j (by rw [← h.len]; exact hj) (Nat.zero_le _)]
    have : (n : ℝ) ≠ 0 := by exact_mod_cast (by omega : n ≠ 0)
    rw [e, smean_ser (by omega), meanAll]
    simp
    field_simp
  · exact h.val (i - w) (by omega) (Nat.zero_le _)

theorem uo_still {h l c : ℝ} (hlh : l < h) (hlc : l ≤ c) (hch : c ≤ h) (n w1 w2 w3 : Nat) (q1 : 1 ≤ w1) (q2 : 1 ≤ w2)
    (q3 : 1 ≤ w3) {x y z : ℝ} (hs : x + y + z ≠ 0) {i : Nat} (hi : i < n) (hp : max w1 (max w2 w3) ≤ i) :
    ix (ultimateOscillator (ser n fun _ => h) (ser n fun _ => l) (ser n fun _ => c) w1 w2 w3 (.fin x) (.fin y) (.fin z) false) i
      = .fin (100 * (c - l) / (h - l)) := by
  have hd : h - l ≠ 0 := (sub_pos.mpr hlh).ne'
  obtain ⟨_, _, r3⟩ := uo_formula n (fun _ => h) (fun _ => l) (fun _ => c) (fun i _ => ⟨hlc, hch⟩) w1 w2 w3 q1 q2 q3 x y z hs
  have hsum : ∀ (w : Nat) (a : ℝ), w ≤ i → ∑ _j ∈ Ioc (i - w) i, a = w * a := fun w a hw => by
    rw [sum_const, Nat.card_Ioc, nsmul_eq_mul, show i - (i - w) = w by omega]
  have hne : ∀ w : Nat, 1 ≤ w → (w : ℝ) ≠ 0 := fun w hw => by exact_mod_cast (by omega : w ≠ 0)
  simp only [min_eq_left hlc, max_eq_left hch] at r3
  rw [r3 i hi hp (fun w hw => ?_)]
  · rw [hsum w1 _ (by omega), hsum w1 _ (by omega), hsum w2 _ (by omega), hsum w2 _ (by omega), hsum w3 _ (by omega),
      hsum w3 _ (by omega)]
    rw [mul_div_mul_left _ _ (hne w1 q1), mul_div_mul_left _ _ (hne w2 q2), mul_div_mul_left _ _ (hne w3 q3), mul_div_assoc 100 (c - l)]
    generalize (c - l) / (h - l) = r
    rw [← add_mul, ← add_mul, mul_div_assoc, mul_div_cancel_left₀ _ hs]
  · rw [hsum w _ (by rcases hw with rfl | rfl | rfl <;> omega)]
    exact mul_ne_zero (hne w (by rcases hw with rfl | rfl | rfl <;> assumption)) hd

theorem stochrsi_still {n : Nat} {c : ℝ} {w s1 s2 : Nat} (hw : 1 ≤ w) (h1 : 1 ≤ s1) (h2 : 1 ≤ s2)
    {o : StochRSI (Val ℝ)} (ho : StochRSI.new (ser n fun _ => c) w s1 s2 = .ok o) {i : Nat} (hi : i < n) :
    ix o.stochrsi i = .nan ∧ ix o.stochrsiK i = .nan ∧ ix o.stochrsiD i = .nan := by
  obtain ⟨U, D, _, d0, _, d1, _, r, hr, hd, _⟩ := rsi_formula n (fun _ => c) w hw false
  simp only [Bool.false_eq_true, if_false] at hd
  have hD : ∀ j, D j = 0 := fun j => by
    induction j with
    | zero => exact d0
    | succ i ih => rw [d1, ih]; simp
  have F := fun j (hj : j < n) => stochrsi_formula h1 h2 hr ho (i := j) (by simpa [ser] using hj)
  have g1 : ∀ j, j < n → ix o.stochrsi j = .nan := fun j hj => by
    by_cases hf : 2 * w - 2 ≤ j
    · obtain ⟨M, m, ⟨⟨_, _, _, e1⟩, _⟩, ⟨⟨_, _, _, e2⟩, _⟩, e⟩ := (F j hj).1 (fun _ => 100) (by omega) (fun k k1 k2 => by
        rw [hd.val k (by omega) (by omega), if_pos (hD k)])
      rw [e, if_pos (e1.trans e2.symm)]
    · exact (stochrsi_warm hw h1 h2 ho hj).1 (by omega)
  have g2 : ∀ j, j < n → ix o.stochrsiK j = .nan := fun j hj => (F j hj).2.2.1.2 fun ⟨_, q⟩ => by
    obtain ⟨x, hx⟩ := q j (le_refl _) (by omega)
    rw [g1 j hj] at hx; cases hx
  refine ⟨g1 i hi, g2 i hi, (F i hi).2.2.2.2 fun ⟨_, q⟩ => ?_⟩
  obtain ⟨x, hx⟩ := q i (le_refl _) (by omega)
  rw [g2 i hi] at hx; cases hx

theorem ppo_still {n : Nat} {c : ℝ} (hc : 0 < c) {slow fast sign : Nat} {o : PPO (Val ℝ)}
    (ho : PPO.new (ser n fun _ => c) slow fast sign false = .ok o) {i : Nat} (hi : i < n) :
    (max slow fast - 1 ≤ i → ix o.ppo i = .fin 0) ∧ (max slow fast + sign - 2 ≤ i → ix o.ppoSignal i = .fin 0) ∧
    (max slow fast + sign - 2 ≤ i → ix o.ppoHist i = .fin 0) := by
  obtain ⟨L, S, hL, hS, d1, d2, d3⟩ := ppo_formula (x := fun _ => c) (fun _ => hc) ho
  have l0 : ∀ j, L j = 0 := fun j => by rw [hL, emaRec_const, emaRec_const, div_self hc.ne', sub_self, mul_zero]
  have s0 : ∀ j, S j = 0 := fun j => by rw [hS]; exact emaRec_zero fun _ _ => l0 _
  refine ⟨fun hp => ?_, fun hp => ?_, fun hp => ?_⟩
  · rw [d1.val i hi hp, l0]
  · rw [d2.val i hi hp, s0]
  · rw [d3.val i hi hp, l0, s0, sub_self]

theorem macd_still {n : Nat} {c : ℝ} {slow fast sign : Nat} {o : MACD (Val ℝ)}
    (ho : MACD.new (ser n fun _ => c) slow fast sign false = .ok o) {i : Nat} (hi : i < n) :
    (max slow fast - 1 ≤ i → ix o.macd i = .fin 0) ∧ (max slow fast + sign - 2 ≤ i → ix o.macdSignal i = .fin 0) ∧
    (max slow fast + sign - 2 ≤ i → ix o.macdDiff i = .fin 0) := by
  obtain ⟨L, S, hL, hS, d1, d2, d3⟩ := macd_formula ho
  have l0 : ∀ j, L j = 0 := fun j => by rw [hL, emaRec_const, emaRec_const, sub_self]
  have s0 : ∀ j, S j = 0 := fun j => by rw [hS]; exact emaRec_zero fun _ _ => l0 _
  refine ⟨fun hp => ?_, fun hp => ?_, fun hp => ?_⟩
  · rw [d1.val i hi hp, l0]
  · rw [d2.val i hi hp, s0]
  · rw [d3.val i hi hp, l0, s0, sub_self]

theorem aroon_still {n : Nat} {h l : ℝ} {w : Nat} (hw : 1 ≤ w) {o : Aroon (Val ℝ)}
    (ho : Aroon.new (ser n fun _ => h) (ser n fun _ => l) w false = .ok o) {i : Nat} (hi : i < n) (hp : w ≤ i) :
    ix o.aroonUp i = .fin 0 ∧ ix o.aroonDown i = .fin 0 ∧ ix o.aroonIndicator i = .fin 0 := by
  obtain ⟨ku, kd, h1, h2, d1, d2, d3⟩ := aroon_formula hw ho
  rw [d1.val i hi hp, d2.val i hi hp, d3.val i hi hp, still_oldest (h1 i), still_oldest (h2 i)]
  simp

theorem trix_still {n : Nat} {c : ℝ} (hc : 0 < c) {w : Nat} (hw : 2 ≤ w) {out : Series (Val ℝ)}
    (ho : trix (ser n fun _ => c) w = .ok out) {i : Nat} (hi : i < n) (hp : 3 * w - 2 ≤ i) : ix out i = .fin 0 := by
  obtain ⟨E1, E2, E3, r, h1, h2, h3, hr, hd⟩ := trix_formula (n := n) (c := fun _ => c) (fun _ => hc) hw
  have f1 : E1 = fun _ => c := funext fun j => by rw [h1, emaRec_const]
  have f2 : E2 = fun _ => c := funext fun j => by rw [h2, f1, emaRec_const]
  have f3 : ∀ j, E3 j = c := fun j => by rw [h3, f2, emaRec_const]
  rw [hr] at ho
  rw [← Except.ok.inj ho, hd.val i hi hp, f3, f3, div_self hc.ne', sub_self, mul_zero]

theorem mass_still {n : Nat} {h l : ℝ} (hlh : l < h) {fast slow : Nat} (hf : 1 ≤ fast) (hs : 1 ≤ slow) {out : Series (Val ℝ)}
    (ho : massIndex (ser n fun _ => h) (ser n fun _ => l) fast slow false = .ok out) {i : Nat} (hi : i < n)
    (hp : 2 * fast + slow - 3 ≤ i) : ix out i = .fin slow := by
  obtain ⟨p, E1, E2, r, _, h1, h2, hr, hd⟩ := mass_formula (n := n) (h := fun _ => h) (l := fun _ => l) (fun _ => hlh) hf hs false
  have f1 : E1 = fun _ => h - l := funext fun j => by rw [h1, emaRec_const]
  have f2 : E2 = fun _ => h - l := funext fun j => by rw [h2, f1, emaRec_const]
  rw [hr] at ho
  rw [← Except.ok.inj ho, hd.val i hi hp, f1, f2]
  simp only [div_self (sub_pos.mpr hlh).ne', sum_const, Nat.card_Ico]
  rw [show i + 1 - (i + 1 - slow) = slow by omega]
  simp

theorem vortex_still {n : Nat} {h l c : ℝ} (hlh : l < h) (hlc : l ≤ c) (hch : c ≤ h) {w : Nat} (hw : 1 ≤ w) {i : Nat}
    (hi : i < n) (hp : w ≤ i) :
    ix (vortexPos (ser n fun _ => h) (ser n fun _ => l) (ser n fun _ => c) w false) i = .fin 1 ∧
    ix (vortexNeg (ser n fun _ => h) (ser n fun _ => l) (ser n fun _ => c) w false) i = .fin 1 ∧
    ix (vortexDiff (ser n fun _ => h) (ser n fun _ => l) (ser n fun _ => c) w false) i = .fin 0 := by
  obtain ⟨P, M, h1, h2, d1, d2, d3⟩ := vortex_formula (n := n) (h := fun _ => h) (l := fun _ => l) (c := fun _ => c)
    (fun _ => hlh) hw false
  have hd := sub_pos.mpr hlh
  have ht : trP (fun _ => h) (fun _ => l) (prevOr n (fun _ => c) 1) = fun _ => h - l := funext fun j => by
    unfold trP
    rw [still_prev (by omega)]
    exact still_tr hlc hch
  have hw0 : (w : ℝ) ≠ 0 := by exact_mod_cast (by omega : w ≠ 0)
  have p1 : P i = 1 := by
    rw [h1, ht, abs_of_pos hd, max_eq_right (by omega), sum_const, Nat.card_Ico, nsmul_eq_mul,
      show i + 1 - (i + 1 - w) = w by omega]
    exact div_self (mul_ne_zero hw0 hd.ne')
  have m1 : M i = 1 := by
    rw [h2, ht, abs_sub_comm, abs_of_pos hd, max_eq_right (by omega), sum_const, Nat.card_Ico, nsmul_eq_mul,
      show i + 1 - (i + 1 - w) = w by omega]
    exact div_self (mul_ne_zero hw0 hd.ne')
  rw [d1.val i hi hp, d2.val i hi hp, d3.val i hi hp, p1, m1, sub_self]
  exact ⟨rfl, rfl, rfl⟩

theorem kst_still {n : Nat} {c : ℝ} (hc : 0 < c) (p : KstP) {ns : Nat} (h1 : 1 ≤ p.w1) (h2 : 1 ≤ p.w2) (h3 : 1 ≤ p.w3)
    (h4 : 1 ≤ p.w4) (hs : 1 ≤ ns) {i : Nat} (hi : i < n) (hp : max (max (max p.w1 p.w2) p.w3) p.w4 - 1 ≤ i) :
    ix (kst (ser n fun _ => c) p.r1 p.r2 p.r3 p.r4 p.w1 p.w2 p.w3 p.w4 false) i = .fin 0 ∧
    ix (kstSig (ser n fun _ => c) p.r1 p.r2 p.r3 p.r4 p.w1 p.w2 p.w3 p.w4 ns false) i = .fin 0 ∧
    ix (kstDiff (ser n fun _ => c) p.r1 p.r2 p.r3 p.r4 p.w1 p.w2 p.w3 p.w4 ns false) i = .fin 0 := by
  obtain ⟨q, L, S, hq, hL, hS, d1, d2, d3⟩ := kst_formula (n := n) (c := fun _ => c) (fun _ => hc) p.r1 p.r2 p.r3 p.r4 h1 h2 h3 h4
    hs false
  have hqi : q ≤ i := by rw [hq]; exact hp
  have hn : 0 < n := by omega
  have l0 : ∀ j, L j = 0 := fun j => by
    rw [hL, still_kst hn hc _ h1, still_kst hn hc _ h2, still_kst hn hc _ h3, still_kst hn hc _ h4]; simp
  have s0 : S i = 0 := by rw [hS i hqi]; simp [l0]
  rw [d1.val i hi hqi, d2.val i hi hqi, d3.val i hi hqi, l0, s0, sub_self]
  exact ⟨rfl, rfl, rfl⟩

theorem dpo_still {n : Nat} {c : ℝ} {w : Nat} (hw : 1 ≤ w) {i : Nat} (hi : i < n) (hp : w - 1 ≤ i) :
    ix (dpo (ser n fun _ => c) w false) i = .fin 0 := by
  have hn : (n : ℝ) ≠ 0 := by exact_mod_cast (by omega : n ≠ 0)
  rw [(dpo_formula n (fun _ => c) hw false).val i hi hp, still_mean _ hw, sum_const, card_range, nsmul_eq_mul,
    mul_div_cancel_left₀ _ hn, ite_self, sub_self]

theorem cci_still {n : Nat} {h l c : ℝ} {w : Nat} (hw : 1 ≤ w) {k : ℝ} (hk : k ≠ 0) {i : Nat} (hi : i < n) :
    ix (cci (ser n fun _ => h) (ser n fun _ => l) (ser n fun _ => c) w (.fin k) false) i = .nan := by
  obtain ⟨T, A, M, hT, hA, hM, _, _, q⟩ := cci_formula n (fun _ => h) (fun _ => l) (fun _ => c) hw hk false
  have f1 : T = fun _ => (h + l + c) / 3 := funext hT
  have f2 : A i = (h + l + c) / 3 := by rw [hA, f1, still_mean _ hw]
  refine q i hi rfl (.inr ?_)
  rw [hM, f2, f1]
  simp

theorem psar_still {n : Nat} {h l c step mx : ℝ} (hlh : l < h) (hlc : l ≤ c) (hch : c ≤ h) (hs : 0 < step)
    {o : PSAR (Val ℝ)} (ho : PSAR.new (ser n fun _ => h) (ser n fun _ => l) (ser n fun _ => c) .positional (.fin step) (.fin mx)
      = .ok o) {i : Nat} (hi : i < n) :
    ix o.psar i = .fin (if i < 2 then c else if i % 2 = 1 then l else h) ∧
    ix o.psarUp i = (if 2 ≤ i ∧ i % 2 = 1 then .fin l else .nan) ∧
    ix o.psarDown i = (if 2 ≤ i ∧ i % 2 = 0 then .fin h else .nan) := by
  obtain ⟨d1, ⟨_, d2⟩, ⟨_, d3⟩⟩ := psar_rows ho
  rw [d1.val i hi (Nat.zero_le _), d2 i hi, d3 i hi]
  by_cases h2 : i < 2
  · rw [if_pos h2, if_neg (by omega), if_neg (by omega), if_neg (by omega), if_neg (by omega)]
    refine ⟨?_, rfl, rfl⟩
    rcases i with _ | _ | i
    · rfl
    · rfl
    · omega
  · rw [still_sar hlh hlc hch hs i (by omega), if_neg h2]
    rcases Nat.mod_two_eq_zero_or_one i with e | e
    · simp [e]
    · simp [e]

theorem psar_flags_still {n : Nat} {h l c step mx : ℝ} (hl : 0 < l) (hlh : l < h) (hlc : l ≤ c) (hch : c ≤ h) (hs : 0 < step)
    {o : PSAR (Val ℝ)} (ho : PSAR.new (ser n fun _ => h) (ser n fun _ => l) (ser n fun _ => c) .positional (.fin step) (.fin mx)
      = .ok o) {i : Nat} (hi : i < n) :
    ix o.psarUpIndicator i = .fin (if 2 ≤ i ∧ i % 2 = 1 then 1 else 0) ∧
    ix o.psarDownIndicator i = .fin (if 2 ≤ i ∧ i % 2 = 0 then 1 else 0) := by
  have R := fun j (hj : j < n) => psar_still hlh hlc hch hs ho hj
  have hfin : ∀ (p : Prop) [Decidable p] (a : ℝ), (if p then Val.fin a else .nan).IsFin ↔ p := fun p _ a => by
    by_cases hp : p
    · rw [if_pos hp]; exact ⟨fun _ => hp, fun _ => ⟨a, rfl⟩⟩
    · rw [if_neg hp]; exact ⟨fun ⟨_, e⟩ => (by cases e), fun q => absurd q hp⟩
  have u := (psar_up_flag ho).2 i hi
  have d := (psar_down_flag ho).2 i hi
  unfold DownRow at d
  rw [(R i hi).2.1, (R (i - 1) (by omega)).2.1, hfin, hfin] at u
  rw [(R i hi).2.2, (R (i - 1) (by omega)).2.2, hfin, hfin] at d
  constructor
  · by_cases hp : 2 ≤ i ∧ i % 2 = 1
    · rw [if_pos hp]
      refine u.1 ⟨hp, ?_, by omega⟩
      rw [if_pos hp]
      intro e
      exact hl.ne' (Val.fin.inj e)
    · rw [if_neg hp]
      exact u.2 fun q => hp q.1
  · by_cases hp : 2 ≤ i ∧ i % 2 = 0
    · rw [if_pos hp]
      exact d.1 ⟨hp, by omega⟩
    · rw [if_neg hp]
      exact d.2 fun q => hp q.1

theorem still_weights (c : ℝ) (w : Nat) : ∑ k ∈ range w, ((k : ℝ) + 1) * c = (w : ℝ) * (w + 1) / 2 * c := by
  induction w with
  | zero => simp
  | succ w ih => rw [sum_range_succ, ih]; push_cast; ring

theorem bb_still {n : Nat} {c : ℝ} (hc : 0 < c) {w : Nat} (hw : 1 ≤ w) (d : ℝ) {i : Nat} (hi : i < n) :
    let o := BB.new (ser n fun _ => c) w (.fin d) false
    (w - 1 ≤ i → ix o.bollingerMavg i = .fin c ∧ ix o.bollingerHband i = .fin c ∧ ix o.bollingerLband i = .fin c ∧
      ix o.bollingerWband i = .fin 0 ∧ ix o.bollingerPband i = .nan) ∧
    ix o.bollingerHbandIndicator i = .fin 0 ∧ ix o.bollingerLbandIndicator i = .fin 0 := by
  intro o
  have S := bollinger_formula (n := n) (fun _ => c) hw d false
  simp only [Bool.false_eq_true, if_false, still_wstd _ hw, still_wmean _ hw, mul_zero, add_zero, sub_zero] at S
  have em : wmean (fun _ => c) w = fun _ => c := funext fun j => still_wmean _ hw j
  rw [em] at S
  refine ⟨fun hp => ⟨S.mavg.val i hi hp, S.hband.val i hi hp, S.lband.val i hi hp, ?_, bb_pband_still hw d hi hp⟩, ?_, ?_⟩
  · rw [S.wband i hi hp hc.ne', sub_self, zero_div, zero_mul]
  · rw [S.above.val i hi (Nat.zero_le _), if_neg (fun q => lt_irrefl _ q.2)]
  · rw [S.below.val i hi (Nat.zero_le _), if_neg (fun q => lt_irrefl _ q.2)]

theorem kc_original_still {n : Nat} {h l c : ℝ} (hl : 0 < l) (hlh : l < h) (hlc : l ≤ c) (hch : c ≤ h) {w wa : Nat} (hw : 1 ≤ w)
    {k : Val ℝ} {o : Keltner (Val ℝ)}
    (ho : Keltner.new (ser n fun _ => h) (ser n fun _ => l) (ser n fun _ => c) w wa false true k = .ok o) {i : Nat} (hi : i < n) :
    (w - 1 ≤ i → ix o.mband i = .fin ((h + l + c) / 3)) ∧ ix o.hband i = .fin ((4 * h - 2 * l + c) / 3) ∧
    ix o.lband i = .fin ((-2 * h + 4 * l + c) / 3) ∧ (w - 1 ≤ i → ix o.wband i = .fin (600 * (h - l) / (h + l + c))) ∧
    ix o.pband i = .fin ((h + c - 2 * l) / (3 * (h - l))) ∧ ix o.hbandIndicator i = .fin 0 ∧ ix o.lbandIndicator i = .fin 0 := by
  have S := keltner_original_formula hw ho
  simp only [Bool.false_eq_true, if_false] at S
  have em : ∀ a : ℝ, wmean (fun _ => a) w = fun _ => a := fun a => funext fun j => still_wmean _ hw j
  rw [em, em, em] at S
  have hd := sub_pos.mpr hlh
  refine ⟨fun hp => S.mband.val i hi hp, S.hband.val i hi (Nat.zero_le _), S.lband.val i hi (Nat.zero_le _), fun hp => ?_, ?_, ?_, ?_⟩
  · have h1 : h + l + c ≠ 0 := (by linarith : 0 < h + l + c).ne'
    rw [S.wband i hi hp (Nat.zero_le _) (div_ne_zero h1 (by norm_num))]
    congr 1
    field_simp
    ring
  · rw [S.pband i hi (Nat.zero_le _) (by intro e; apply hd.ne'; linarith)]
    congr 1
    rw [show (4 * h - 2 * l + c) / 3 - (-2 * h + 4 * l + c) / 3 = 2 * (h - l) by ring]
    have := hd.ne'
    field_simp
    ring
  · rw [S.above.val i hi (Nat.zero_le _), if_neg (fun q => by have := q.2; linarith)]
  · rw [S.below.val i hi (Nat.zero_le _), if_neg (fun q => by have := q.2; linarith)]

theorem kc_atr_still {n : Nat} {h l c : ℝ} (hc : 0 < c) (hlh : l < h) (hlc : l ≤ c) (hch : c ≤ h) {w wa : Nat} (hw : 1 ≤ w)
    (hwa : 1 ≤ wa) {k : ℝ} {o : Keltner (Val ℝ)}
    (ho : Keltner.new (ser n fun _ => h) (ser n fun _ => l) (ser n fun _ => c) w wa false false (.fin k) = .ok o) {i : Nat}
    (hi : i < n) :
    (w - 1 ≤ i → ix o.mband i = .fin c ∧ ix o.hband i = .fin (c + k * stillRange h l wa i) ∧
      ix o.lband i = .fin (c - k * stillRange h l wa i) ∧ ix o.wband i = .fin (200 * stillRange h l wa i / c * k) ∧
      ix o.pband i = if k = 0 ∨ i < wa - 1 then .nan else .fin (1 / 2)) ∧
    ix o.hbandIndicator i = .fin (if k < 0 ∧ w - 1 ≤ i ∧ wa - 1 ≤ i then 1 else 0) ∧
    ix o.lbandIndicator i = .fin (if k < 0 ∧ w - 1 ≤ i ∧ wa - 1 ≤ i then 1 else 0) := by
  obtain ⟨atr, ⟨r, hr, hd⟩, _, S⟩ := keltner_atr_formula (fun i _ => hlh.le) hw hwa ho
  simp only [Bool.false_eq_true, if_false, emaRec_const] at S
  have hpos := sub_pos.mpr hlh
  have ha : atr i = stillRange h l wa i := by
    have := (atr_formula (fun i _ => hlh.le) hwa hr).2.val i hi (Nat.zero_le _)
    rw [hd.val i hi (Nat.zero_le _), still_atr hlc hch hwa] at this
    exact Val.fin.inj this
  have hsgn : k < 0 ∧ wa - 1 ≤ i ↔ k * stillRange h l wa i < 0 := by
    unfold stillRange
    split_ifs with hp
    · constructor
      · rintro ⟨_, q⟩; omega
      · intro q; simp at q
    · rw [mul_neg_iff]
      constructor
      · rintro ⟨q, _⟩; exact .inr ⟨q, hpos⟩
      · rintro (⟨_, q⟩ | ⟨q, _⟩)
        · exact absurd q (not_lt.mpr hpos.le)
        · exact ⟨q, by omega⟩
  refine ⟨fun hp => ⟨?_, ?_, ?_, ?_, ?_⟩, ?_, ?_⟩
  · rw [S.mband.val i hi hp, emaRec_const]
  · rw [S.hband.val i hi hp, ha]
  · rw [S.lband.val i hi hp, ha]
  · rw [S.wband i hi hp hp (by rw [emaRec_const]; exact hc.ne'), ha, emaRec_const]
    congr 1
    ring
  · have h0 : k * stillRange h l wa i = 0 ↔ k = 0 ∨ i < wa - 1 := by
      unfold stillRange
      rw [mul_eq_zero]
      refine or_congr Iff.rfl ?_
      split_ifs with hq
      · simp [hq]
      · simp [hq, hpos.ne']
    by_cases hk : k = 0 ∨ i < wa - 1
    · rw [if_pos hk]
      have hz := h0.mpr hk
      exact kc_pband_still (kc_shape hw ho).1 (kc_shape hw ho).2 S.hband S.lband hi hp (by rw [ha, hz]; ring) (by rw [ha, hz]; ring)
    · rw [if_neg hk]
      have hz : k * stillRange h l wa i ≠ 0 := fun q => hk (h0.mp q)
      rw [S.pband i hi hp (by rw [ha]; intro q; apply hz; linarith), ha]
      congr 1
      generalize k * stillRange h l wa i = y at hz
      rw [show c + y - (c - y) = 2 * y by ring]
      field_simp
      ring
  · rw [S.above.val i hi (Nat.zero_le _), ha]
    congr 1
    refine if_congr ?_ rfl rfl
    rw [and_left_comm, hsgn]
    refine and_congr Iff.rfl ⟨fun q => by linarith, fun q => by linarith⟩
  · rw [S.below.val i hi (Nat.zero_le _), ha]
    congr 1
    refine if_congr ?_ rfl rfl
    rw [and_left_comm, hsgn]
    refine and_congr Iff.rfl ⟨fun q => by linarith, fun q => by linarith⟩

theorem dc_len {n : Nat} {h l c : Nat → ℝ} {w : Nat} {off : Int} {o : Donchian (Val ℝ)}
    (ho : Donchian.new (ser n h) (ser n l) (ser n c) w off false = .ok o) (f : Donchian (Val ℝ) → Series (Val ℝ))
    (hf : f = Donchian.hband ∨ f = Donchian.lband ∨ f = Donchian.mband ∨ f = Donchian.wband ∨ f = Donchian.pband) :
    (f o).length = n := by
  rw [(donchian_new ho).2]
  rcases hf with rfl | rfl | rfl | rfl | rfl <;>
  simp [Donchian.hband, Donchian.lband, Donchian.mband, Donchian.wband, Donchian.pband, Donchian.off, shiftInt, ser] <;>
  split_ifs <;> simp

theorem dc_still {n : Nat} {h l c : ℝ} (hc : 0 < c) (hlh : l < h) {w : Nat} (hw : 1 ≤ w) {off : Int} (hoff : 0 ≤ off)
    {o : Donchian (Val ℝ)}
    (ho : Donchian.new (ser n fun _ => h) (ser n fun _ => l) (ser n fun _ => c) w off false = .ok o) {i : Nat} (hi : i < n)
    (hp : ((w - 1 : Nat) + off).toNat ≤ i) :
    ix o.hband i = .fin h ∧ ix o.lband i = .fin l ∧ ix o.mband i = .fin ((h + l) / 2) ∧
    ix o.wband i = .fin (100 * (h - l) / c) ∧ ix o.pband i = .fin ((c - l) / (h - l)) := by
  obtain ⟨o0, h0, hs⟩ := donchian_offset ho
  obtain ⟨H, L, hH, hL, g1, g2, g3, g4⟩ := donchian_formula hw h0
  simp only [Bool.false_eq_true, if_false] at g1 g2 g3
  obtain ⟨j, hj⟩ : ∃ j : Nat, ((i : Int) - off).toNat = j := ⟨_, rfl⟩
  have hj1 : w - 1 ≤ j := by omega
  have hj2 : j < n := by omega
  have eH : H j = h := by obtain ⟨⟨_, _, _, e⟩, _⟩ := hH j hj2; exact e
  have eL : L j = l := by obtain ⟨⟨_, _, _, e⟩, _⟩ := hL j hj2; exact e
  have W := dc_len ho
  have W0 := dc_len h0
  have key : ∀ f : Donchian (Val ℝ) → Series (Val ℝ), (f = Donchian.hband ∨ f = Donchian.lband ∨ f = Donchian.mband ∨
      f = Donchian.wband ∨ f = Donchian.pband) → ix (f o) i = ix (f o0) j := fun f hf => by
    rw [hs f hf i (by rw [W f hf]; exact hi), if_pos (by rw [W0 f hf]; omega), hj]
  rw [key _ (.inl rfl), key _ (.inr (.inl rfl)), key _ (.inr (.inr (.inl rfl))), key _ (.inr (.inr (.inr (.inl rfl)))),
    key _ (.inr (.inr (.inr (.inr rfl)))), g1.val j hj2 hj1, g2.val j hj2 hj1, g3.val j hj2 hj1, eH, eL]
  have hsum : ∑ _k ∈ Ico (j + 1 - w) (j + 1), c ≠ 0 := (wsum_pos (f := fun _ => c) (fun _ => hc) hw j).ne'
  refine ⟨rfl, rfl, rfl, ?_, ?_⟩
  · rw [(g4 j hj2 (fun _ => hj1)).1 hsum, still_mean _ hw, eH, eL]
    congr 1
    ring
  · rw [(g4 j hj2 (fun _ => hj1)).2 (by rw [eH, eL]; exact hlh.ne'), eH, eL]

set_option maxHeartbeats 1000000 in
/-- C87. If every bar is the same `(h, l, c, v)`, with `0 < l < h`, the close between them and a positive volume, every
output reads, from its look-back on, exactly the value of the table `Ind.still`. -/
theorem standstill (x : Ind (Val ℝ)) (hx : x.Sane) (hy : x.Steady) {h l c v : ℝ} (hl : 0 < l) (hlh : l < h) (hlc : l ≤ c)
    (hch : c ≤ h) (hv : 0 < v) (n : Nat) {out : Series (Val ℝ)}
    (ho : x.eval false (List.replicate n ⟨.fin h, .fin l, .fin c, .fin v⟩) = .ok out) {i : Nat} (hi : i < n)
    (hp : x.lookback ≤ i) : ix out i = x.still h l c v i := by
  obtain ⟨e1, e2, e3, e4⟩ := still_cols n h l c v
  have hn : 0 < n := by omega
  have hc : 0 < c := hl.trans_le hlc
  have hc' : c ≠ 0 := hc.ne'
  have hd : h - l ≠ 0 := (sub_pos.mpr hlh).ne'
  have ec : c / c - 1 = 0 := by rw [div_self hc', sub_self]
  cases x <;> simp only [Ind.Sane, Ind.eval, Ind.lookback, Ind.still, Ind.Steady, e1, e2, e3, e4] at hx hy ho hp ⊢
  case rsi w =>
    obtain ⟨U, D, _, d0, _, d1, _, r, hr, hd, _⟩ := rsi_formula n (fun _ => c) w hx false
    rw [hr] at ho
    rw [← Except.ok.inj ho, hd.val i hi hp]
    have : D i = 0 := by
      clear hp hi
      induction i with
      | zero => exact d0
      | succ i ih => rw [d1, ih]; simp
    rw [if_pos this]
  case tsi slow fast =>
    obtain ⟨_, _, a, A, _, _, a0, a1, _, _, A0, A1, r, hr, _, _, q⟩ := tsi_formula n (fun _ => c) slow fast hx.1 hx.2
    rw [hr] at ho
    have ha : ∀ j, a j = 0 := fun j => by
      induction j with
      | zero => rw [a0]; simp
      | succ i ih => rw [a1, ih]; simp
    have hA : ∀ j, A j = 0 := fun j => by
      induction j with
      | zero => rw [A0, ha]
      | succ i ih => rw [A1, ih, ha]; simp
    rw [← Except.ok.inj ho, q i hi hp, if_pos (hA _)]
  case uo w1 w2 w3 a b d =>
    obtain ⟨q1, q2, q3, x, y, z, rfl, rfl, rfl, hs⟩ := hx
    rw [← Except.ok.inj ho]
    exact uo_still hlh hlc hch n w1 w2 w3 q1 q2 q3 hs hi hp
  case stoch w =>
    rw [← Except.ok.inj ho]
    have := (stoch_def n (h := fun _ => h) (l := fun _ => l) (c := fun _ => c) (fun _ => hlh) hx).val i hi hp
    rwa [still_wmax _ hx, still_wmin _ hx] at this
  case stochSignal w s =>
    rw [← Except.ok.inj ho]
    have h0 := (stoch_def n (h := fun _ => h) (l := fun _ => l) (c := fun _ => c) (fun _ => hlh) hx.1).congr
      (g := fun _ => 100 * (c - l) / (h - l)) (fun i _ _ => by rw [still_wmax _ hx.1, still_wmin _ hx.1])
    have := (h0.rollMean hx.2).val i hi (by omega)
    rw [show wsum (fun _ => 100 * (c - l) / (h - l)) s i / (s : ℝ) = 100 * (c - l) / (h - l) from
      still_mean_full _ hx.2 (by omega)] at this
    exact this
  case kama w q1 q2 =>
    obtain ⟨Y, y0, y1, hd⟩ := kama_formula n (fun _ => c) hx q1 q2
    rw [← Except.ok.inj ho, hd.val i hi hp]
    clear hi
    induction i, hp using Nat.le_induction with
    | base => rw [y0]
    | succ i hi ih => rw [y1 (i + 1) (by omega), Nat.add_sub_cancel, Val.fin.inj ih]; simp
  case roc w =>
    rw [← Except.ok.inj ho, (roc_formula n (c := fun _ => c) (fun _ => hc') w).1.val i hi hp, ec, mul_zero]
  case ao w1 w2 =>
    rw [← Except.ok.inj ho, (ao_formula n (fun _ => h) (fun _ => l) hx.1 hx.2 false).val i hi hp, still_mean _ hx.1,
      still_mean _ hx.2, sub_self]
  case williamsR w =>
    rw [← Except.ok.inj ho, williamsR_eq_stoch _ _ _ (by simp [ser]) (by simp [ser])]
    have := (stoch_def n (h := fun _ => h) (l := fun _ => l) (c := fun _ => c) (fun _ => hlh) hx).map (φ := fun v => v -. .fin 100)
      (nan_sub _) (fun i _ _ => fin_sub _ _)
    have := this.val i hi hp
    rw [still_wmax _ hx, still_wmin _ hx] at this
    refine Eq.trans this ?_
    congr 1
    field_simp
    ring
  case stochrsi w s1 s2 =>
    obtain ⟨o, hn, rfl⟩ := except_map_ok ho
    exact (stochrsi_still hx.1 hx.2.1 hx.2.2 hn hi).1
  case stochrsiK w s1 s2 =>
    obtain ⟨o, hn, rfl⟩ := except_map_ok ho
    exact (stochrsi_still hx.1 hx.2.1 hx.2.2 hn hi).2.1
  case stochrsiD w s1 s2 =>
    obtain ⟨o, hn, rfl⟩ := except_map_ok ho
    exact (stochrsi_still hx.1 hx.2.1 hx.2.2 hn hi).2.2
  case ppo slow fast sign =>
    obtain ⟨o, hn, rfl⟩ := except_map_ok ho
    exact (ppo_still hc hn hi).1 hp
  case ppoSignal slow fast sign =>
    obtain ⟨o, hn, rfl⟩ := except_map_ok ho
    exact (ppo_still hc hn hi).2.1 hp
  case ppoHist slow fast sign =>
    obtain ⟨o, hn, rfl⟩ := except_map_ok ho
    exact (ppo_still hc hn hi).2.2 hp
  case pvo slow fast sign =>
    obtain ⟨o, hn, rfl⟩ := except_map_ok ho
    exact (ppo_still hv hn hi).1 hp
  case pvoSignal slow fast sign =>
    obtain ⟨o, hn, rfl⟩ := except_map_ok ho
    exact (ppo_still hv hn hi).2.1 hp
  case pvoHist slow fast sign =>
    obtain ⟨o, hn, rfl⟩ := except_map_ok ho
    exact (ppo_still hv hn hi).2.2 hp
  case aroonUp w =>
    obtain ⟨o, hn, rfl⟩ := except_map_ok ho
    exact (aroon_still hx hn hi hp).1
  case aroonDown w =>
    obtain ⟨o, hn, rfl⟩ := except_map_ok ho
    exact (aroon_still hx hn hi hp).2.1
  case aroonInd w =>
    obtain ⟨o, hn, rfl⟩ := except_map_ok ho
    exact (aroon_still hx hn hi hp).2.2
  case macd slow fast sign =>
    obtain ⟨o, hn, rfl⟩ := except_map_ok ho
    exact (macd_still hn hi).1 hp
  case macdSignal slow fast sign =>
    obtain ⟨o, hn, rfl⟩ := except_map_ok ho
    exact (macd_still hn hi).2.1 hp
  case macdDiff slow fast sign =>
    obtain ⟨o, hn, rfl⟩ := except_map_ok ho
    exact (macd_still hn hi).2.2 hp
  case ema w =>
    obtain ⟨e, e0, e1, r, hr, hd⟩ := ema_recurrence n (fun _ => c) w hx false
    rw [hr] at ho
    rw [← Except.ok.inj ho, hd.val i hi hp]
    have : ∀ j, e j = c := fun j => by
      induction j with
      | zero => exact e0
      | succ j ih => rw [e1, ih]; ring
    rw [this]
  case sma w =>
    rw [← Except.ok.inj ho, (sma_formula n (fun _ => c) w hx).val i hi hp, still_mean_full _ hx hp]
  case wma w =>
    rw [← Except.ok.inj ho, (wma_formula n (fun _ => c) w hx).val i hi hp, still_weights, mul_div_cancel_left₀ _ (by positivity)]
  case trix w => exact trix_still hc hx ho hi hp
  case massIndex fast slow => exact mass_still hlh hx.1 hx.2 ho hi hp
  case ichimokuConv w =>
    obtain ⟨_, _, _, m, _, _, d, _⟩ := ichimoku_formula n (fun _ => h) (fun _ => l) hx hx hx false
    rw [← Except.ok.inj ho, d.val i hi hp, still_mid m]
  case ichimokuBase w =>
    obtain ⟨_, _, _, _, m, _, _, d, _⟩ := ichimoku_formula n (fun _ => h) (fun _ => l) hx hx hx false
    rw [← Except.ok.inj ho, d.val i hi hp, still_mid m]
  case ichimokuA w1 w2 vis =>
    subst hy
    obtain ⟨_, _, _, m1, m2, _, _, _, d, _⟩ := ichimoku_formula n (fun _ => h) (fun _ => l) hx.1 hx.2 hx.2 false
    rw [← Except.ok.inj ho, d.val i hi hp, still_mid m1, still_mid m2, add_self_div_two]
  case ichimokuB w2 w3 vis =>
    obtain ⟨_, _, _, _, _, m, _, _, _, d⟩ := ichimoku_formula n (fun _ => h) (fun _ => l) hx.1 hx.1 hx.2 false
    have d := d.congr (g := fun _ => (h + l) / 2) fun j _ _ => still_mid m j
    cases vis
    · rw [← Except.ok.inj ho, d.val i hi (Nat.zero_le _)]
    · rw [← Except.ok.inj ho, (ichimoku_visual_shift _ _ w2 w2 w3 i (by simpa [ser] using hi)).2]
      exact vis_still d hi
  case kst p =>
    rw [← Except.ok.inj ho]
    exact (kst_still hc p hx.1 hx.2.1 hx.2.2.1 hx.2.2.2 (le_refl 1) hi hp).1
  case kstSig p ns =>
    rw [← Except.ok.inj ho]
    exact (kst_still hc p hx.1 hx.2.1 hx.2.2.1 hx.2.2.2.1 hx.2.2.2.2 hi hp).2.1
  case kstDiff p ns =>
    rw [← Except.ok.inj ho]
    exact (kst_still hc p hx.1 hx.2.1 hx.2.2.1 hx.2.2.2.1 hx.2.2.2.2 hi hp).2.2
  case dpo w => rw [← Except.ok.inj ho]; exact dpo_still hx hi hp
  case cci w k =>
    obtain ⟨hw, x, rfl, hk⟩ := hx
    rw [← Except.ok.inj ho]; exact cci_still hw hk hi
  case adx w =>
    rcases hn : ADX.new (ser n fun _ => h) (ser n fun _ => l) (ser n fun _ => c) w false with e | o
    · rw [hn] at ho; cases ho
    · rw [hn] at ho
      rw [(adx_formula (fun _ => hlc) (fun _ => hch) hn ho).2.val i hi (Nat.zero_le _)]
      have : dirIdx (fun _ => h) (fun _ => l) (fun _ => c) w = fun _ => 0 := funext fun j => by
        unfold dirIdx
        rw [(still_wil_zero w j).1, (still_wil_zero w j).2, if_pos (add_zero 0)]
      rw [this, wilMean_const _ hx, ite_self]
  case adxPos w =>
    obtain ⟨o, hn, rfl⟩ := except_map_ok ho
    rw [(adx_di_formula hn).1.val i hi (Nat.zero_le _), (still_wil_zero w _).1, ite_self]
  case adxNeg w =>
    obtain ⟨o, hn, rfl⟩ := except_map_ok ho
    rw [(adx_di_formula hn).2.val i hi (Nat.zero_le _), (still_wil_zero w _).2, ite_self]
  case vortexPos w => rw [← Except.ok.inj ho]; exact (vortex_still hlh hlc hch hx hi hp).1
  case vortexNeg w => rw [← Except.ok.inj ho]; exact (vortex_still hlh hlc hch hx hi hp).2.1
  case vortexDiff w => rw [← Except.ok.inj ho]; exact (vortex_still hlh hlc hch hx hi hp).2.2
  case psar s m =>
    obtain ⟨x, y, rfl, rfl⟩ := hx
    obtain ⟨_, he, hs⟩ := hy
    obtain rfl := Val.fin.inj he
    obtain ⟨o, hn, rfl⟩ := except_map_ok ho
    exact (psar_still hlh hlc hch hs hn hi).1
  case psarUp s m =>
    obtain ⟨x, y, rfl, rfl⟩ := hx
    obtain ⟨_, he, hs⟩ := hy
    obtain rfl := Val.fin.inj he
    obtain ⟨o, hn, rfl⟩ := except_map_ok ho
    rw [(psar_still hlh hlc hch hs hn hi).2.1]
    simp only [hp, true_and]
  case psarDown s m =>
    obtain ⟨x, y, rfl, rfl⟩ := hx
    obtain ⟨_, he, hs⟩ := hy
    obtain rfl := Val.fin.inj he
    obtain ⟨o, hn, rfl⟩ := except_map_ok ho
    rw [(psar_still hlh hlc hch hs hn hi).2.2]
    rcases Nat.mod_two_eq_zero_or_one i with e | e
    · rw [if_pos ⟨hp, e⟩, if_neg (by omega)]
    · rw [if_neg (by omega), if_pos e]
  case psarUpInd s m =>
    obtain ⟨x, y, rfl, rfl⟩ := hx
    obtain ⟨_, he, hs⟩ := hy
    obtain rfl := Val.fin.inj he
    obtain ⟨o, hn, rfl⟩ := except_map_ok ho
    exact (psar_flags_still hl hlh hlc hch hs hn hi).1
  case psarDownInd s m =>
    obtain ⟨x, y, rfl, rfl⟩ := hx
    obtain ⟨_, he, hs⟩ := hy
    obtain rfl := Val.fin.inj he
    obtain ⟨o, hn, rfl⟩ := except_map_ok ho
    exact (psar_flags_still hl hlh hlc hch hs hn hi).2
  case stc slow fast cycle s1 s2 => exact stc_still hx ho hi
  case atr w =>
    rw [(atr_formula (fun i _ => hlh.le) hx ho).2.val i hi (Nat.zero_le _), still_atr hlc hch hx]
  case bbMavg w d =>
    obtain ⟨hw, x, rfl⟩ := hx
    rw [← Except.ok.inj ho]; exact ((bb_still hc hw x hi).1 hp).1
  case bbHband w d =>
    obtain ⟨hw, x, rfl⟩ := hx
    rw [← Except.ok.inj ho]; exact ((bb_still hc hw x hi).1 hp).2.1
  case bbLband w d =>
    obtain ⟨hw, x, rfl⟩ := hx
    rw [← Except.ok.inj ho]; exact ((bb_still hc hw x hi).1 hp).2.2.1
  case bbWband w d =>
    obtain ⟨hw, x, rfl⟩ := hx
    rw [← Except.ok.inj ho]; exact ((bb_still hc hw x hi).1 hp).2.2.2.1
  case bbPband w d =>
    obtain ⟨hw, x, rfl⟩ := hx
    rw [← Except.ok.inj ho]; exact ((bb_still hc hw x hi).1 hp).2.2.2.2
  case bbHi w d =>
    obtain ⟨hw, x, rfl⟩ := hx
    rw [← Except.ok.inj ho]; exact ((bb_still hc hw x hi).2.1)
  case bbLi w d =>
    obtain ⟨hw, x, rfl⟩ := hx
    rw [← Except.ok.inj ho]; exact ((bb_still hc hw x hi).2.2)
  case kcMband w wa og k =>
    obtain ⟨hw, hwa, x, rfl⟩ := hx
    obtain ⟨o, hn, rfl⟩ := except_map_ok ho
    cases og
    · have S := kc_atr_still hc hlh hlc hch hw hwa hn hi
      simp only
      exact (S.1 hp).1
    · have S := kc_original_still hl hlh hlc hch hw hn hi
      exact S.1 hp
  case kcHband w wa og k =>
    obtain ⟨hw, hwa, x, rfl⟩ := hx
    obtain ⟨o, hn, rfl⟩ := except_map_ok ho
    cases og
    · have S := kc_atr_still hc hlh hlc hch hw hwa hn hi
      simp only
      rw [(S.1 hp).2.1, fin_mul, fin_add]
    · have S := kc_original_still hl hlh hlc hch hw hn hi
      exact S.2.1
  case kcLband w wa og k =>
    obtain ⟨hw, hwa, x, rfl⟩ := hx
    obtain ⟨o, hn, rfl⟩ := except_map_ok ho
    cases og
    · have S := kc_atr_still hc hlh hlc hch hw hwa hn hi
      simp only
      rw [(S.1 hp).2.2.1, fin_mul, fin_sub]
    · have S := kc_original_still hl hlh hlc hch hw hn hi
      exact S.2.2.1
  case kcWband w wa og k =>
    obtain ⟨hw, hwa, x, rfl⟩ := hx
    obtain ⟨o, hn, rfl⟩ := except_map_ok ho
    cases og
    · have S := kc_atr_still hc hlh hlc hch hw hwa hn hi
      simp only
      rw [(S.1 hp).2.2.2.1, fin_mul]
    · have S := kc_original_still hl hlh hlc hch hw hn hi
      exact S.2.2.2.1 hp
  case kcPband w wa og k =>
    obtain ⟨hw, hwa, x, rfl⟩ := hx
    obtain ⟨o, hn, rfl⟩ := except_map_ok ho
    cases og
    · have S := kc_atr_still hc hlh hlc hch hw hwa hn hi
      simp only
      rw [(S.1 hp).2.2.2.2]; simp only [Val.fin.injEq]
    · have S := kc_original_still hl hlh hlc hch hw hn hi
      exact S.2.2.2.2.1
  case kcHi w wa og k =>
    obtain ⟨hw, hwa, x, rfl⟩ := hx
    obtain ⟨o, hn, rfl⟩ := except_map_ok ho
    cases og
    · have S := kc_atr_still hc hlh hlc hch hw hwa hn hi
      simp only
      rw [S.2.1]; simp only [fin_lt, decide_eq_true_eq]
    · have S := kc_original_still hl hlh hlc hch hw hn hi
      exact S.2.2.2.2.2.1
  case kcLi w wa og k =>
    obtain ⟨hw, hwa, x, rfl⟩ := hx
    obtain ⟨o, hn, rfl⟩ := except_map_ok ho
    cases og
    · have S := kc_atr_still hc hlh hlc hch hw hwa hn hi
      simp only
      rw [S.2.2]; simp only [fin_lt, decide_eq_true_eq]
    · have S := kc_original_still hl hlh hlc hch hw hn hi
      exact S.2.2.2.2.2.2
  case dcHband w off =>
    obtain ⟨o, hn, rfl⟩ := except_map_ok ho
    exact (dc_still hc hlh hx hy hn hi hp).1
  case dcLband w off =>
    obtain ⟨o, hn, rfl⟩ := except_map_ok ho
    exact (dc_still hc hlh hx hy hn hi hp).2.1
  case dcMband w off =>
    obtain ⟨o, hn, rfl⟩ := except_map_ok ho
    exact (dc_still hc hlh hx hy hn hi hp).2.2.1
  case dcWband w off =>
    obtain ⟨o, hn, rfl⟩ := except_map_ok ho
    exact (dc_still hc hlh hx hy hn hi hp).2.2.2.1
  case dcPband w off =>
    obtain ⟨o, hn, rfl⟩ := except_map_ok ho
    exact (dc_still hc hlh hx hy hn hi hp).2.2.2.2
  case ulcer w =>
    rw [(ulcer_formula (c := fun _ => c) (fun _ => hc) hx ho).val i hi hp]
    simp only [drawdownPct, still_wmax _ hx]
    simp
  case adi =>
    rw [← Except.ok.inj ho, (adi_formula n (fun _ => h) (fun _ => l) (fun _ => c) (fun _ => v) (fun _ => hlc) (fun _ => hch)
      false).val i hi hp, if_neg hlh.ne', sum_const, card_range, nsmul_eq_mul]
    congr 1
    push_cast
    ring
  case obv =>
    rw [← Except.ok.inj ho, (obv_formula n (fun _ => c) (fun _ => v) false).val i hi hp]
    simp only [lt_irrefl, and_false, if_false, sum_const, card_range, nsmul_eq_mul]
    congr 1
    push_cast
    ring
  case cmf w =>
    rw [← Except.ok.inj ho, (cmf_formula n (fun _ => h) (fun _ => l) (fun _ => c) (fun _ => v) w false hx (fun _ => hv)
      (fun _ => hlc) (fun _ => hch)).val i hi hp, if_neg hlh.ne', ← mul_sum, mul_div_assoc,
      div_self (show ∑ _j ∈ Ico (i + 1 - w) (i + 1), v ≠ 0 from (wsum_pos (f := fun _ => v) (fun _ => hv) hx i).ne'),
      mul_one]
  case fi w =>
    obtain ⟨r, hr, hd⟩ := forceIndex_formula n (fun _ => c) (fun _ => v) hx
    rw [hr] at ho
    rw [← Except.ok.inj ho, hd.val i hi hp, emaRec_zero fun _ _ => by simp]
  case eom =>
    rw [← Except.ok.inj ho, (eom_formula n (fun _ => h) (fun _ => l) (fun _ => v) (fun i => hv.ne')).val i hi hp]
    simp
  case smaEom w =>
    rw [← Except.ok.inj ho, (smaEom_formula n (fun _ => h) (fun _ => l) (fun _ => v) (fun i => hv.ne') hx).val i hi hp]
    simp
  case vpt sm =>
    rw [← Except.ok.inj ho]
    cases sm with
    | none =>
      rw [(vpt_formula n (c := fun _ => c) (fun _ => v) (fun _ => hc')).val i hi hp]
      simp [ec]
    | some k =>
      rw [(vpt_smooth_formula n (c := fun _ => c) (fun _ => v) (fun _ => hc') hx).val i hi hp]
      simp [ec]
  case nvi =>
    obtain ⟨r, hr, hd⟩ := nvi_formula hn (c := fun _ => c) (fun _ => v) (fun _ => hc') false
    rw [hr] at ho
    rw [← Except.ok.inj ho, hd.val i hi hp]
    congr 1
    clear hi hp
    induction i with
    | zero => rfl
    | succ i ih => rw [nvi, if_neg (lt_irrefl _), ih]
  case mfi w =>
    obtain ⟨q1, _, _, q⟩ := mfi_formula n (fun _ => h) (fun _ => l) (fun _ => c) (fun _ => v) w false hx
    rw [← Except.ok.inj ho, q1]
    refine (q i hi (.inr hp)).trans (if_pos ?_)
    simp [mflow]
  case vwap w =>
    rw [← Except.ok.inj ho, (vwap_formula n (fun _ => h) (fun _ => l) (fun _ => c) (fun _ => v) w false hx (fun _ => hv)).val i hi hp,
      ← mul_sum, mul_div_assoc, div_self (show ∑ _j ∈ Ico (i + 1 - w) (i + 1), v ≠ 0 from (wsum_pos (f := fun _ => v) (fun _ => hv) hx i).ne'),
      mul_one]
  case dr =>
    obtain ⟨D, _, _, hD, _, _, d, _⟩ := returns_compound hn (c := fun _ => c) (fun _ => hc) false
    rw [← Except.ok.inj ho, d.val i hi hp]
    obtain ⟨j, rfl⟩ : ∃ j, i = j + 1 := ⟨i - 1, by omega⟩
    rw [hD, ec, mul_zero]
  case dlr =>
    obtain ⟨G, hG, _, d, _⟩ := log_returns_sum (n := n) (c := fun _ => c) (fun _ => hc) false
    rw [← Except.ok.inj ho, d.val i hi hp]
    obtain ⟨j, rfl⟩ : ∃ j, i = j + 1 := ⟨i - 1, by omega⟩
    rw [hG, sub_self, mul_zero]
  case cr =>
    obtain ⟨_, C, r, _, _, hC, _, hr, d, _⟩ := returns_compound hn (c := fun _ => c) (fun _ => hc) false
    rw [hr] at ho
    rw [← Except.ok.inj ho, d.val i hi (Nat.zero_le _), hC, ec, mul_zero]

/-- The table at work: a stop that is hit on every bar, although nothing moves. -/
example {n : Nat} {out : Series (Val ℝ)} (ho : (Ind.psar (.fin 0.02) (.fin 0.2)).eval false
    (List.replicate n ⟨.fin 12, .fin 8, .fin 9, .fin 5⟩) = .ok out) (hn : 6 < n) : ix out 5 = .fin 8 ∧ ix out 6 = .fin 12 := by
  have S := fun i (hi : i < n) => standstill (.psar (.fin 0.02) (.fin 0.2)) ⟨_, _, rfl, rfl⟩ ⟨_, rfl, by norm_num⟩ (by norm_num)
    (by norm_num) (by norm_num) (by norm_num) (by norm_num) n ho hi (Nat.zero_le _)
  have h5 := S 5 (by omega)
  have h6 := S 6 (by omega)
  simp only [Ind.still] at h5 h6
  exact ⟨by simpa using h5, by simpa using h6⟩

/-- six equal bars -/
def stillBars : List (Bar (Val ℚ)) := List.replicate 6 (qbar 12 8 9 5)

section
attribute [local instance] toyFn
example : (Ind.psar (.fin (1 / 50)) (.fin (1 / 5))).eval false stillBars = .ok (qs [9, 9, 12, 8, 12, 8]) := by decide +kernel
example : (Ind.stoch 3).eval false stillBars = .ok [.nan, .nan, .fin 25, .fin 25, .fin 25, .fin 25] := by decide +kernel
example : (Ind.massIndex 2 3).eval false stillBars = .ok [.nan, .nan, .nan, .nan, .fin 3, .fin 3] := by decide +kernel
example : (Ind.rsi 2).eval false stillBars = .ok [.nan, .fin 100, .fin 100, .fin 100, .fin 100, .fin 100] := by decide +kernel
example : (Ind.adi).eval false stillBars = .ok (qs [-5 / 2, -5, -15 / 2, -10, -25 / 2, -15]) := by decide +kernel
example : (Ind.kcPband 2 3 false (.fin 2)).eval false stillBars
    = .ok [.nan, .nan, .fin (1 / 2), .fin (1 / 2), .fin (1 / 2), .fin (1 / 2)] := by decide +kernel
end

end TA
