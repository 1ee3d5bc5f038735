import Verif.Props.C45
import Verif.Props.C49
import Verif.Props.C61
import Verif.Props.C25
import Verif.Props.C23
import Verif.Props.C17
import Verif.Props.C19
import Verif.Props.C20
import Verif.Props.C21
import Verif.Props.C34
import Verif.Props.C40
import Verif.Props.C42
import Verif.Props.C51
import Verif.Props.C27
import Verif.Props.C30
import Verif.Props.C31
import Verif.Props.C32
import Verif.Props.C13

/-! # C41: exact warm-up of every output -/

set_option linter.unusedSectionVars false

namespace TA

/-- The number of leading rows without a value, `fillna=False`, per output. -/
def Ind.lookback {F : Type} : Ind F → Nat
  | .rsi w | .kama w _ _ | .stoch w | .williamsR w | .ema w | .sma w | .wma w | .dpo w | .cci w _ => w - 1
  | .tsi slow fast => slow + fast - 1
  | .uo w1 w2 w3 _ _ _ => max w1 (max w2 w3)
  | .stochSignal w smooth => w + smooth - 2
  | .roc w => w
  | .ao w1 w2 => max w1 w2 - 1
  | .stochrsi w _ _ => 2 * w - 2
  | .stochrsiK w s1 _ => 2 * w + s1 - 3
  | .stochrsiD w s1 s2 => 2 * w + s1 + s2 - 4
  | .ppo slow fast _ | .pvo slow fast _ | .macd slow fast _ => max slow fast - 1
  | .ppoSignal slow fast sign | .ppoHist slow fast sign | .pvoSignal slow fast sign | .pvoHist slow fast sign
  | .macdSignal slow fast sign | .macdDiff slow fast sign => max slow fast + sign - 2
  | .aroonUp w | .aroonDown w | .aroonInd w => w
  | .trix w => 3 * w - 2
  | .massIndex fast slow => 2 * fast + slow - 3
  | .ichimokuConv w1 => w1 - 1
  | .ichimokuBase w2 => w2 - 1
  | .ichimokuA w1 w2 visual => if visual then 0 else max w1 w2 - 1
  | .ichimokuB _ _ _ => 0
  | .kst p | .kstSig p _ | .kstDiff p _ => max (max (max p.w1 p.w2) p.w3) p.w4 - 1
  | .adx _ | .adxPos _ | .adxNeg _ => 0
  | .vortexPos w | .vortexNeg w | .vortexDiff w => w
  | .psar _ _ | .psarUpInd _ _ | .psarDownInd _ _ => 0
  | .psarUp _ _ | .psarDown _ _ => 2
  | .stc slow fast cycle s1 s2 => max slow fast - 1 + 2 * (cycle - 1) + (s1 - 1) + (s2 - 1)
  | .atr _ => 0
  | .bbMavg w _ | .bbHband w _ | .bbLband w _ | .bbWband w _ | .bbPband w _ => w - 1
  | .bbHi _ _ | .bbLi _ _ => 0
  | .kcMband w _ _ _ | .kcWband w _ _ _ => w - 1
  | .kcHband w _ original _ | .kcLband w _ original _ | .kcPband w _ original _ => if original then 0 else w - 1
  | .kcHi _ _ _ _ | .kcLi _ _ _ _ => 0
  | .dcHband w off | .dcLband w off | .dcMband w off | .dcWband w off | .dcPband w off => ((w - 1 : Nat) + off).toNat
  | .ulcer w => w - 1
  | .adi | .obv | .nvi | .cr => 0
  | .cmf w | .mfi w | .vwap w => w - 1
  | .fi w | .smaEom w => w
  | .eom | .dr | .dlr => 1
  | .vpt none => 1
  | .vpt (some k) => k

/-- The outputs that have a value on every row from the look-back on, whatever the prices.  The others divide by
something that can be 0 (a flat stretch), or are only defined in one of the two trends, or are shifted. -/
def Ind.always {F : Type} : Ind F → Prop
  | .tsi .. | .stochrsi .. | .stochrsiK .. | .stochrsiD .. | .cci .. | .psarUp .. | .psarDown .. | .stc ..
  | .bbPband .. | .mfi .. => False
  | .kcPband _ _ original _ => original = true
  | .ichimokuA _ _ visual => visual = false
  | .dcHband _ off | .dcLband _ off | .dcMband _ off | .dcWband _ off | .dcPband _ off => 0 ≤ off
  | _ => True

/-- Reasonable parameters: windows at least 1 (TRIX: 2), factors that are numbers. -/
def Ind.Sane {K : Type} [Field K] : Ind (Val K) → Prop
  | .rsi w | .kama w _ _ | .stoch w | .williamsR w | .ema w | .sma w | .wma w | .dpo w | .ulcer w | .cmf w | .mfi w
  | .vwap w | .fi w | .smaEom w | .aroonUp w | .aroonDown w | .aroonInd w | .ichimokuConv w | .ichimokuBase w
  | .adx w | .adxPos w | .adxNeg w | .vortexPos w | .vortexNeg w | .vortexDiff w | .atr w => 1 ≤ w
  | .cci w k => 1 ≤ w ∧ ∃ x, k = .fin x ∧ x ≠ 0
  | .tsi slow fast => 1 ≤ slow ∧ 1 ≤ fast
  | .uo w1 w2 w3 a b d => 1 ≤ w1 ∧ 1 ≤ w2 ∧ 1 ≤ w3 ∧ ∃ x y z, a = .fin x ∧ b = .fin y ∧ d = .fin z ∧ x + y + z ≠ 0
  | .stochSignal w smooth => 1 ≤ w ∧ 1 ≤ smooth
  | .ao w1 w2 => 1 ≤ w1 ∧ 1 ≤ w2
  | .stochrsi w s1 s2 | .stochrsiK w s1 s2 | .stochrsiD w s1 s2 => 1 ≤ w ∧ 1 ≤ s1 ∧ 1 ≤ s2
  | .trix w => 2 ≤ w
  | .massIndex fast slow => 1 ≤ fast ∧ 1 ≤ slow
  | .ichimokuA w1 w2 _ => 1 ≤ w1 ∧ 1 ≤ w2
  | .ichimokuB w2 w3 _ => 1 ≤ w2 ∧ 1 ≤ w3
  | .kst p => 1 ≤ p.w1 ∧ 1 ≤ p.w2 ∧ 1 ≤ p.w3 ∧ 1 ≤ p.w4
  | .kstSig p nsig | .kstDiff p nsig => 1 ≤ p.w1 ∧ 1 ≤ p.w2 ∧ 1 ≤ p.w3 ∧ 1 ≤ p.w4 ∧ 1 ≤ nsig
  | .psar s m | .psarUp s m | .psarDown s m | .psarUpInd s m | .psarDownInd s m => ∃ x y, s = .fin x ∧ m = .fin y
  | .stc _ _ cycle _ _ => 1 ≤ cycle
  | .bbMavg w d | .bbHband w d | .bbLband w d | .bbWband w d | .bbPband w d | .bbHi w d | .bbLi w d =>
      1 ≤ w ∧ ∃ x, d = .fin x
  | .kcMband w wa _ m | .kcHband w wa _ m | .kcLband w wa _ m | .kcWband w wa _ m | .kcPband w wa _ m
  | .kcHi w wa _ m | .kcLi w wa _ m => 1 ≤ w ∧ 1 ≤ wa ∧ ∃ x, m = .fin x
  | .dcHband w _ | .dcLband w _ | .dcMband w _ | .dcWband w _ | .dcPband w _ => 1 ≤ w
  | .vpt (some k) => 1 ≤ k
  | _ => True

/-- An ordinary bar: positive numbers, the high above the low, the close in between. -/
def PosBar {K : Type} [Field K] [LinearOrder K] (r : Bar (Val K)) : Prop :=
  ∃ h l c v : K, r = ⟨.fin h, .fin l, .fin c, .fin v⟩ ∧ 0 < l ∧ l < h ∧ l ≤ c ∧ c ≤ h ∧ 0 < v

/-- `n` rows, no value before row `p`, and (`t`) a number on every row from `p` on. -/
def Warm {K : Type} [Field K] [LinearOrder K] (t : Prop) (out : Series (Val K)) (n p : Nat) : Prop :=
  out.length = n ∧ (∀ i, i < n → i < p → ix out i = .nan) ∧ (t → ∀ i, i < n → p ≤ i → (ix out i).IsFin)

section
variable {K : Type} [Field K] [LinearOrder K] [IsStrictOrderedRing K]

theorem Def.warm {s : Series (Val K)} {n p : Nat} {f : Nat → K} (h : Def s n p f) (t : Prop) : Warm t s n p :=
  ⟨h.len, h.gap, fun _ i h1 h2 => ⟨_, h.val i h1 h2⟩⟩

/-- the columns of ordinary bars -/
theorem bars_split (b : List (Bar (Val K))) (hb : ∀ r ∈ b, PosBar r) :
    ∃ h l c v : Nat → K, highs b = ser b.length h ∧ lows b = ser b.length l ∧ closes b = ser b.length c ∧
      volumes b = ser b.length v ∧ (∀ i, 0 < l i) ∧ (∀ i, l i < h i) ∧ (∀ i, l i ≤ c i) ∧ (∀ i, c i ≤ h i) ∧
      ∀ i, 0 < v i := by
  induction b with
  | nil =>
    refine ⟨fun _ => 2, fun _ => 1, fun _ => 1, fun _ => 1, rfl, rfl, rfl, rfl, fun _ => one_pos, fun _ => one_lt_two,
      fun _ => le_refl _, fun _ => one_le_two, fun _ => one_pos⟩
  | cons r b ih =>
    obtain ⟨h, l, c, v, h1, h2, h3, h4, p1, p2, p3, p4, p5⟩ := ih (fun x hx => hb x (List.mem_cons_of_mem _ hx))
    obtain ⟨x, y, z, u, rfl, q1, q2, q3, q4, q5⟩ := hb r (List.mem_cons_self)
    have key : ∀ (f : Nat → K) (a : K), ser (b.length + 1) (fun i => Nat.casesOn i a f) = .fin a :: ser b.length f := by
      intro f a
      unfold ser tab
      rw [List.range_succ_eq_map]
      simp [Function.comp_def]
    refine ⟨fun i => Nat.casesOn i x h, fun i => Nat.casesOn i y l, fun i => Nat.casesOn i z c, fun i => Nat.casesOn i u v,
      ?_, ?_, ?_, ?_, ?_, ?_, ?_, ?_, ?_⟩
    · rw [List.length_cons, key, ← h1]; rfl
    · rw [List.length_cons, key, ← h2]; rfl
    · rw [List.length_cons, key, ← h3]; rfl
    · rw [List.length_cons, key, ← h4]; rfl
    · rintro (_ | i); exacts [q1, p1 i]
    · rintro (_ | i); exacts [q2, p2 i]
    · rintro (_ | i); exacts [q3, p3 i]
    · rintro (_ | i); exacts [q4, p4 i]
    · rintro (_ | i); exacts [q5, p5 i]

/-! ### outputs that depend on the data: only the gap -/

/-- no value before row `p` -/
structure Gap (s : Series (Val K)) (n p : Nat) : Prop where
  len : s.length = n
  gap : ∀ i, i < n → i < p → ix s i = .nan

theorem Def.toGap {s : Series (Val K)} {n p : Nat} {f : Nat → K} (h : Def s n p f) : Gap s n p := ⟨h.len, h.gap⟩

theorem Gap.roll {s : Series (Val K)} {n p w : Nat} (h : Gap s n p) (hw : 1 ≤ w) :
    Gap (rollMax w w s) n (p + w - 1) ∧ Gap (rollMin w w s) n (p + w - 1) ∧ Gap (rollMean w w s) n (p + w - 1) := by
  have key : ∀ i, i < n → i < p + w - 1 → ¬ w ≤ (obs s w i).length := by
    intro i h1 h2 h3
    obtain ⟨h4, h5⟩ := obs_full h3
    obtain ⟨x, hx⟩ := h5 (i + 1 - w) (by omega) (by omega)
    rw [h.gap _ (by omega) (by omega)] at hx
    cases hx
  refine ⟨⟨by simp [h.len], fun i h1 h2 => ?_⟩, ⟨by simp [h.len], fun i h1 h2 => ?_⟩, ⟨by simp [h.len], fun i h1 h2 => ?_⟩⟩
  · rw [ix_rollMax (by rw [h.len]; exact h1), if_neg (key i h1 h2)]
  · rw [ix_rollMin (by rw [h.len]; exact h1), if_neg (key i h1 h2)]
  · rw [ix_rollMean (by rw [h.len]; exact h1), if_neg (fun hh => key i h1 h2 hh.1)]

theorem Gap.ewm {s : Series (Val K)} {n p : Nat} (h : Gap s n p) (a : Val K) (mp : Nat) :
    Gap (TA.ewm a mp s) n (p + max mp 1 - 1) := by
  have key : ∀ k, k ≤ n → (ewmAt a s k).nobs ≤ k - p := by
    intro k
    induction k with
    | zero => intro _; exact Nat.zero_le _
    | succ k ih =>
      intro hk
      have := ih (by omega)
      simp only [ewmAt]
      generalize ewmAt a s k = S at this ⊢
      by_cases hp : k < p
      · rw [h.gap k (by omega) hp]
        have : (ewmStep a S (clean (.nan : Val K))).nobs = S.nobs := by
          unfold ewmStep; cases Flt.isNaN S.avg <;> rfl
        omega
      · have : (ewmStep a S (clean (ix s k))).nobs ≤ S.nobs + 1 := by
          unfold ewmStep
          cases Flt.isNaN S.avg <;> cases Flt.isNaN (clean (ix s k)) <;> simp
        omega
  refine ⟨by simp [h.len], fun i h1 h2 => ?_⟩
  rw [ix_ewm' (by rw [h.len]; exact h1)]
  unfold ewmOut
  have := key (i + 1) (by omega)
  rw [if_neg (by omega)]; rfl

theorem Gap.left {s t : Series (Val K)} {n p : Nat} (h : Gap s n p) {φ : Val K → Val K → Val K} (hφ : ∀ v, φ .nan v = .nan) :
    Gap (zip2 φ s t) n p := by
  refine ⟨by simp [h.len], fun i h1 h2 => ?_⟩
  rw [ix_zip2 (by rw [h.len]; exact h1), h.gap i h1 h2, hφ]

theorem Gap.right {s t : Series (Val K)} {n p : Nat} (h : Gap t n p) (hs : s.length = n) {φ : Val K → Val K → Val K}
    (hφ : ∀ v, φ v .nan = .nan) : Gap (zip2 φ s t) n p := by
  refine ⟨by simp [hs], fun i h1 h2 => ?_⟩
  rw [ix_zip2 (by rw [hs]; exact h1), h.gap i h1 h2, hφ]

theorem Gap.map {s : Series (Val K)} {n p : Nat} (h : Gap s n p) {φ : Val K → Val K} (hφ : φ .nan = .nan) :
    Gap (s.map φ) n p := by
  refine ⟨by simp [h.len], fun i h1 h2 => ?_⟩
  rw [ix_map (by rw [h.len]; exact h1), h.gap i h1 h2, hφ]

theorem Gap.stochOf {s : Series (Val K)} {n p w : Nat} (h : Gap s n p) (hw : 1 ≤ w) :
    Gap (STC.stochOf s w) n (p + w - 1) := by
  obtain ⟨h1, h2, _⟩ := h.roll hw
  unfold STC.stochOf
  exact (h1.left (fun _ => nan_sub _)).right (by simp [h.len]) div_nan

theorem Gap.warm {s : Series (Val K)} {n p : Nat} (h : Gap s n p) {t : Prop} (ht : ¬ t) : Warm t s n p :=
  ⟨h.len, h.gap, fun h => absurd h ht⟩

theorem stc_gap {n : Nat} {c : Nat → K} {slow fast cycle s1 s2 : Nat} {out : Series (Val K)} (hcy : 1 ≤ cycle)
    (ho : stc (ser n c) slow fast cycle s1 s2 false = .ok out) :
    Gap out n (max slow fast - 1 + 2 * (cycle - 1) + (s1 - 1) + (s2 - 1)) := by
  unfold stc chkSpan at ho
  simp only [bind, Except.bind, pure, Except.pure] at ho
  by_cases h1 : fast < 1
  · rw [if_pos h1] at ho; cases ho
  rw [if_neg h1] at ho
  by_cases h2 : slow < 1
  · rw [if_pos h2] at ho; cases ho
  rw [if_neg h2] at ho
  by_cases h3 : s1 < 1
  · rw [if_pos h3] at ho; cases ho
  rw [if_neg h3] at ho
  by_cases h4 : s2 < 1
  · rw [if_pos h4] at ho; cases ho
  rw [if_neg h4] at ho
  have e := Except.ok.inj ho
  have hL0 := (((def_ser n c).ema0 (by omega : 1 ≤ fast) false).ssub ((def_ser n c).ema0 (by omega : 1 ≤ slow) false)).toGap
  have hA := hL0.stochOf hcy
  have hD := hA.ewm (alphaOfSpan s1) (minp false s1)
  have hB := hD.stochOf hcy
  have hS := hB.ewm (alphaOfSpan s2) (minp false s2)
  rw [← e]
  have e2 : ∀ w, minp false w = w := fun _ => rfl
  rw [e2, e2] at hS
  rw [show max (if false = true then 0 else fast - 1) (if false = true then 0 else slow - 1) + cycle - 1 + max s1 1 - 1 + cycle - 1
    + max s2 1 - 1 = max slow fast - 1 + 2 * (cycle - 1) + (s1 - 1) + (s2 - 1) by simp; omega] at hS
  exact hS

theorem cci_gap (n : Nat) (h l c : Nat → K) {w : Nat} (hw : 1 ≤ w) (k : Val K) :
    Gap (cci (ser n h) (ser n l) (ser n c) w k false) n (w - 1) := by
  have := ((def_tp n h l c).rollMean hw).toGap
  rw [Nat.zero_add] at this
  exact (this.right (by simp [ser, typicalPrice]) sub_nan).left (fun _ => nan_div _)

theorem stoch_def (n : Nat) {h l c : Nat → K} (hlh : ∀ i, l i < h i) {w : Nat} (hw : 1 ≤ w) :
    Def (Stoch.k (ser n h) (ser n l) (ser n c) w false) n (w - 1)
      (fun i => 100 * (c i - wmin l w i) / (wmax h w i - wmin l w i)) := by
  have h1 := (def_ser n l).rollMin hw
  have h2 := (def_ser n h).rollMax hw
  rw [Nat.zero_add] at h1 h2
  have h3 := (((def_ser n c).ssub h1).cmul 100).sdiv (h2.ssub h1) (fun i _ _ _ => by
    have a := (wmin_spec l (w := w) (i := i) hw).2 i (le_refl _) (by omega)
    have b := (wmax_spec h (w := w) (i := i) hw).2 i (le_refl _) (by omega)
    have := hlh i
    exact sub_ne_zero.mpr (by intro e; rw [e] at b; exact absurd (b.trans a) (not_le.mpr this)))
  simp only [max_self, Nat.zero_max] at h3
  unfold Stoch.k minp
  simpa [lit_fin] using h3

/-- an offset moves the first row -/
theorem Warm.shift {s s0 : Series (Val K)} {n p : Nat} {k : Int} (h : Warm True s0 n p) (hl : s.length = n)
    (hs : ∀ i : Nat, i < s.length → ix s i = if 0 ≤ (i : Int) - k ∧ (i : Int) - k < s0.length
      then ix s0 ((i : Int) - k).toNat else (nan : Val K)) : Warm (0 ≤ k) s n ((p : Int) + k).toNat := by
  obtain ⟨h1, h2, h3⟩ := h
  refine ⟨hl, fun i hi hp => ?_, fun hk i hi hp => ?_⟩
  · rw [hs i (by omega)]
    split_ifs with hc
    · exact h2 _ (by omega) (by omega)
    · rfl
  · rw [hs i (by omega), if_pos (by omega)]
    exact h3 trivial _ (by omega) (by omega)

theorem wsum_pos {f : Nat → K} (hf : ∀ i, 0 < f i) {w : Nat} (hw : 1 ≤ w) (i : Nat) : 0 < wsum f w i :=
  Finset.sum_pos (fun j _ => hf j) ⟨i, by rw [Finset.mem_Ico]; omega⟩

theorem wmean_pos {f : Nat → K} (hf : ∀ i, 0 < f i) {w : Nat} (hw : 1 ≤ w) (i : Nat) : 0 < wmean f w i := by
  have := wsum_pos hf hw i
  unfold wmean
  unfold wsum at this
  exact div_pos this (by exact_mod_cast (by omega : 0 < min w (i + 1)))

theorem dc_warm {n : Nat} {h l c : Nat → K} (hlh : ∀ i, l i < h i) (hc : ∀ i, 0 < c i) {w : Nat} (hw : 1 ≤ w) {off : Int}
    {o : Donchian (Val K)} (ho : Donchian.new (ser n h) (ser n l) (ser n c) w off false = .ok o)
    {f : Donchian (Val K) → Series (Val K)}
    (hf : f = Donchian.hband ∨ f = Donchian.lband ∨ f = Donchian.mband ∨ f = Donchian.wband ∨ f = Donchian.pband) :
    Warm (0 ≤ off) (f o) n ((w - 1 : Nat) + off).toNat := by
  obtain ⟨o0, h0, hs⟩ := donchian_offset ho
  have hs := hs f hf
  have hlen : (f o).length = n := by
    rw [(donchian_new ho).2]
    rcases hf with rfl | rfl | rfl | rfl | rfl <;>
    simp [Donchian.hband, Donchian.lband, Donchian.mband, Donchian.wband, Donchian.pband, Donchian.off, shiftInt, ser] <;>
    split_ifs <;> simp
  refine Warm.shift ?_ hlen hs
  have h1 := (def_ser n l).rollMin hw
  have h2 := (def_ser n h).rollMax hw
  have h3 := (def_ser n c).rollMean hw
  rw [Nat.zero_add] at h1 h2 h3
  have hlt : ∀ i, wmin l w i < wmax h w i := fun i => by
    have a := (wmin_spec l (w := w) (i := i) hw).2 i (le_refl _) (by omega)
    have b := (wmax_spec h (w := w) (i := i) hw).2 i (le_refl _) (by omega)
    exact a.trans_lt ((hlh i).trans_le b)
  obtain ⟨H, L, _, _, g1, g2, g3, _⟩ := donchian_formula hw h0
  rcases hf with rfl | rfl | rfl | rfl | rfl
  · exact g1.warm _
  · exact g2.warm _
  · exact g3.warm _
  · rw [(donchian_new h0).2]
    have := ((h2.ssub h1).sdiv h3 (fun i _ _ _ => (div_pos (wsum_pos hc hw i) (by exact_mod_cast hw : (0 : K) < w)).ne')).mulc 100
    simp only [max_self] at this
    unfold Donchian.wband Donchian.off
    simpa [lit_fin, checkFillna] using this.warm True
  · rw [(donchian_new h0).2]
    have := ((def_ser n c).ssub h1).sdiv (h2.ssub h1) (fun i _ _ _ => (sub_pos.mpr (hlt i)).ne')
    simp only [max_self, Nat.zero_max] at this
    unfold Donchian.pband Donchian.off
    simpa [lit_fin, checkFillna] using this.warm True

theorem kc_pband_gap {o : Keltner (Val K)} {n q : Nat} {a : Nat → K} (hc : o.close.length = n) (hf : o.fillna = false)
    (h : Def o.lband n q a) : Gap o.pband n q := by
  have h' : Gap o.tpLow n q := by
    have := h.toGap
    unfold Keltner.lband checkFillna at this
    rw [hf] at this
    exact this
  unfold Keltner.pband checkFillna
  rw [hf]
  exact (h'.right hc sub_nan).left (fun _ => nan_div _)

theorem kc_wband_gap {o : Keltner (Val K)} {n p : Nat} {m : Nat → K} (hc : o.tpHigh.length = n) (hf : o.fillna = false)
    (h : Def o.mband n p m) : Gap o.wband n p := by
  have h' : Gap o.tp n p := by
    have := h.toGap
    unfold Keltner.mband checkFillna at this
    rw [hf] at this
    exact this
  unfold Keltner.wband checkFillna
  rw [hf]
  exact (h'.right (by simp [hc]) div_nan).map (nan_mul _)

theorem kc_shape {h l c : Series (Val K)} {w wa : Nat} (hw : 1 ≤ w) {orig : Bool} {k : Val K} {o : Keltner (Val K)}
    (ho : Keltner.new h l c w wa false orig k = .ok o) : o.close = c ∧ o.fillna = false := by
  unfold Keltner.new at ho
  cases orig
  · rw [if_neg (by simp)] at ho
    unfold chkSpan at ho
    rw [if_neg (by omega)] at ho
    generalize averageTrueRange h l c wa false = r at ho
    cases r with
    | error e => cases ho
    | ok a => rw [← Except.ok.inj ho]; exact ⟨rfl, rfl⟩
  · rw [if_pos rfl] at ho
    unfold chkRoll at ho
    rw [if_neg (by simp)] at ho
    rw [← Except.ok.inj ho]; exact ⟨rfl, rfl⟩

theorem kc_warm {n : Nat} {h l c : Nat → K} (hl : ∀ i, 0 < l i) (hlh : ∀ i, l i < h i) (hlc : ∀ i, l i ≤ c i) {w wa : Nat}
    (hw : 1 ≤ w) (hwa : 1 ≤ wa) {orig : Bool} {k : K} {o : Keltner (Val K)}
    (ho : Keltner.new (ser n h) (ser n l) (ser n c) w wa false orig (.fin k) = .ok o) :
    Warm True o.mband n (w - 1) ∧ Warm True o.hband n (if orig then 0 else w - 1) ∧
    Warm True o.lband n (if orig then 0 else w - 1) ∧ Warm True o.wband n (w - 1) ∧
    Warm (orig = true) o.pband n (if orig then 0 else w - 1) ∧ Warm True o.hbandIndicator n 0 ∧
    Warm True o.lbandIndicator n 0 := by
  obtain ⟨hs1, hs2⟩ := kc_shape hw ho
  have hcl : o.close.length = n := by rw [hs1]; simp [ser]
  have hth : ∀ {q a}, Def o.hband n q a → o.tpHigh.length = n := fun hd => by
    have := hd.len
    unfold Keltner.hband checkFillna at this
    rw [hs2] at this
    exact this
  cases orig
  · obtain ⟨atr, _, _, S⟩ := keltner_atr_formula (fun i _ => (hlh i).le) hw hwa ho
    simp only [Bool.false_eq_true, if_false] at S ⊢
    refine ⟨S.mband.warm _, S.hband.warm _, S.lband.warm _, ?_, (kc_pband_gap hcl hs2 S.lband).warm (by simp), S.above.warm _,
      S.below.warm _⟩
    have g := kc_wband_gap (hth S.hband) hs2 S.mband
    refine ⟨g.len, g.gap, fun _ i h1 h2 => ⟨_, S.wband i h1 h2 h2 ?_⟩⟩
    have := emaW_pos hw (f := c) (i := i) (fun j _ => (hl j).trans_le (hlc j))
    exact this.ne'
  · have S := keltner_original_formula hw ho
    simp only [Bool.false_eq_true, if_false] at S
    rw [if_pos rfl]
    refine ⟨S.mband.warm _, S.hband.warm _, S.lband.warm _, ?_, ?_, S.above.warm _, S.below.warm _⟩
    · have g := kc_wband_gap (hth S.hband) hs2 S.mband
      refine ⟨g.len, g.gap, fun _ i h1 h2 => ⟨_, S.wband i h1 h2 (Nat.zero_le _) (ne_of_gt (wmean_pos (fun j => ?_) hw i))⟩⟩
      have := hl j
      have := hlh j
      have := hlc j
      exact div_pos (by linarith) (by norm_num)
    · have g := kc_pband_gap hcl hs2 S.lband
      refine ⟨g.len, g.gap, fun _ i h1 h2 => ⟨_, S.pband i h1 (Nat.zero_le _) (ne_of_gt ?_)⟩⟩
      unfold wmean
      refine div_lt_div_of_pos_right ?_ (by exact_mod_cast (by omega : 0 < min w (i + 1)))
      refine Finset.sum_lt_sum_of_nonempty ⟨i, by rw [Finset.mem_Ico]; omega⟩ (fun j _ => ?_)
      have := hlh j
      exact div_lt_div_of_pos_right (by linarith) (by norm_num)

end

theorem bb_warm {n : Nat} {c : Nat → ℝ} (hc : ∀ i, 0 < c i) {w : Nat} (hw : 1 ≤ w) (d : ℝ) :
    let o := BB.new (ser n c) w (.fin d) false
    Warm True o.bollingerMavg n (w - 1) ∧ Warm True o.bollingerHband n (w - 1) ∧ Warm True o.bollingerLband n (w - 1) ∧
    Warm True o.bollingerWband n (w - 1) ∧ Warm False o.bollingerPband n (w - 1) ∧
    Warm True o.bollingerHbandIndicator n 0 ∧ Warm True o.bollingerLbandIndicator n 0 := by
  intro o
  have S := bollinger_formula (n := n) c hw d false
  simp only [Bool.false_eq_true, if_false] at S
  refine ⟨S.mavg.warm _, S.hband.warm _, S.lband.warm _, ?_, ?_, S.above.warm _, S.below.warm _⟩
  · have g : Gap o.bollingerWband n (w - 1) :=
      ((Def.toGap S.mavg : Gap o.mavg n (w - 1)).right (by simp [o, BB.new, ser]) div_nan).map (nan_mul _)
    exact ⟨g.len, g.gap, fun _ i h1 h2 => ⟨_, S.wband i h1 h2 (wmean_pos hc hw i).ne'⟩⟩
  · have g : Gap o.bollingerPband n (w - 1) :=
      ((Def.toGap S.lband : Gap o.lband n (w - 1)).right (by simp [o, BB.new, ser]) sub_nan).left (fun _ => nan_div _)
    exact g.warm (by simp)

theorem stochrsi_warm {n : Nat} {c : Nat → ℝ} {w s1 s2 : Nat} (hw : 1 ≤ w) (h1 : 1 ≤ s1) (h2 : 1 ≤ s2)
    {o : StochRSI (Val ℝ)} (ho : StochRSI.new (ser n c) w s1 s2 = .ok o) {i : Nat} (hi : i < n) :
    (i < 2 * w - 2 → ix o.stochrsi i = .nan) ∧ (i < 2 * w + s1 - 3 → ix o.stochrsiK i = .nan) ∧
    (i < 2 * w + s1 + s2 - 4 → ix o.stochrsiD i = .nan) := by
  obtain ⟨_, _, _, _, _, _, _, r, hr, hd, _⟩ := rsi_formula n c w hw false
  simp only [Bool.false_eq_true, if_false] at hd
  have F := fun j (hj : j < n) => stochrsi_formula h1 h2 hr ho (i := j) (by simpa [ser] using hj)
  have nofin : ∀ {s : Series (Val ℝ)} {j p k : Nat}, j < n → j < p + k - 1 → 1 ≤ k →
      (∀ m, m < n → m < p → ix s m = .nan) → ¬ (k ≤ j + 1 ∧ ∀ m, m ≤ j → j < m + k → (ix s m).IsFin) := by
    rintro s j p k hj hp hk hg ⟨q1, q2⟩
    obtain ⟨x, hx⟩ := q2 (j + 1 - k) (by omega) (by omega)
    rw [hg _ (by omega) (by omega)] at hx; cases hx
  have g1 : ∀ j, j < n → j < 2 * w - 2 → ix o.stochrsi j = .nan := fun j hj hp =>
    (F j hj).2.1 (nofin hj (by omega : j < (w - 1) + w - 1) hw hd.gap)
  have g2 : ∀ j, j < n → j < 2 * w + s1 - 3 → ix o.stochrsiK j = .nan := fun j hj hp =>
    (F j hj).2.2.1.2 (nofin hj (by omega : j < (2 * w - 2) + s1 - 1) h1 g1)
  have g3 : ∀ j, j < n → j < 2 * w + s1 + s2 - 4 → ix o.stochrsiD j = .nan := fun j hj hp =>
    (F j hj).2.2.2.2 (nofin hj (by omega : j < (2 * w + s1 - 3) + s2 - 1) h2 g2)
  exact ⟨g1 i hi, g2 i hi, g3 i hi⟩

theorem vis_fin {n w : Nat} {s : Series (Val ℝ)} {f : Nat → ℝ} (h : Def s n 0 f) {i : Nat} (hi : i < n) :
    (if i < w then smean s else ix s (i - w)).IsFin := by
  split_ifs with h1
  · have e : s = ser n f := series_ext (by rw [h.len, (def_ser n f).len]) fun j hj => by
      rw [h.val j (by rw [← h.len]; exact hj) (Nat.zero_le _), (def_ser n f).val j (by rw [← h.len]; exact hj) (Nat.zero_le _)]
    rw [e, smean_ser (by omega)]
    exact ⟨_, rfl⟩
  · exact ⟨_, h.val (i - w) (by omega) (Nat.zero_le _)⟩

/-- C41. On ordinary bars (positive, gap-free) without filling, every output has one row per bar, no value in its first
`lookback` rows, and, for the outputs marked `always`, a number in every later row. So for those the number of leading
NaN rows is exactly the smaller of `lookback` and the number of bars. -/
theorem warmup (x : Ind (Val ℝ)) (hx : x.Sane) (b : List (Bar (Val ℝ))) (hb : ∀ r ∈ b, PosBar r) {out : Series (Val ℝ)}
    (ho : x.eval false b = .ok out) : Warm x.always out b.length x.lookback := by
  have hlen := row_for_row x false b out ho
  obtain ⟨h, l, c, v, e1, e2, e3, e4, p1, p2, p3, p4, p5⟩ := bars_split b hb
  generalize b.length = n at hlen e1 e2 e3 e4 ⊢
  have pc : ∀ i, 0 < c i := fun i => (p1 i).trans_le (p3 i)
  have pc' : ∀ i, c i ≠ 0 := fun i => (pc i).ne'
  cases x <;> simp only [Ind.Sane, Ind.eval, Ind.lookback, Ind.always, e1, e2, e3, e4] at hx ho ⊢
  case rsi w =>
    obtain ⟨_, _, _, _, _, _, _, r, hr, hd, _⟩ := rsi_formula n c w hx false
    rw [hr] at ho
    rw [← Except.ok.inj ho]
    exact hd.warm _
  case tsi slow fast =>
    obtain ⟨_, _, _, _, _, _, _, _, _, _, _, _, r, hr, q1, q2, _⟩ := tsi_formula n c slow fast hx.1 hx.2
    rw [hr] at ho
    rw [← Except.ok.inj ho]
    exact ⟨q1, q2, fun hf => hf.elim⟩
  case uo w1 w2 w3 a b d =>
    obtain ⟨q1, q2, q3, x, y, z, rfl, rfl, rfl, hs⟩ := hx
    obtain ⟨r1, r2, r3⟩ := uo_formula n h l c (fun i _ => ⟨p3 i, p4 i⟩) w1 w2 w3 q1 q2 q3 x y z hs
    rw [← Except.ok.inj ho]
    refine ⟨r1, r2, fun _ i h1 h2 => ⟨_, r3 i h1 h2 (fun w hw => ?_)⟩⟩
    refine ne_of_gt (Finset.sum_pos (fun j _ => ?_) ⟨i, by rw [Finset.mem_Ioc]; rcases hw with rfl | rfl | rfl <;> omega⟩)
    exact sub_pos.mpr ((min_le_left _ _).trans_lt ((p2 j).trans_le (le_max_left _ _)))
  case stoch w =>
    rw [← Except.ok.inj ho]
    exact (stoch_def n p2 hx).warm _
  case stochSignal w s =>
    rw [← Except.ok.inj ho]
    have := ((stoch_def n (c := c) p2 hx.1).rollMean hx.2).warm True
    rwa [show w - 1 + s - 1 = w + s - 2 by omega] at this
  case kama w q1 q2 =>
    obtain ⟨_, _, _, hd⟩ := kama_formula n c hx q1 q2
    rw [← Except.ok.inj ho]
    exact hd.warm _
  case roc w =>
    rw [← Except.ok.inj ho]
    exact (roc_formula n pc' w).1.warm _
  case ao w1 w2 =>
    rw [← Except.ok.inj ho]
    exact (ao_formula n h l hx.1 hx.2 false).warm _
  case williamsR w =>
    rw [← Except.ok.inj ho, williamsR_eq_stoch _ _ _ (by simp [ser]) (by simp [ser])]
    exact ((stoch_def n p2 hx).map (φ := fun v => v -. .fin 100) (nan_sub _) (fun i _ _ => fin_sub _ _)).warm _
  case stochrsi w s1 s2 =>
    obtain ⟨o, hn, rfl⟩ := except_map_ok ho
    exact ⟨hlen, fun i h1 => (stochrsi_warm hx.1 hx.2.1 hx.2.2 hn h1).1, fun hf => hf.elim⟩
  case stochrsiK w s1 s2 =>
    obtain ⟨o, hn, rfl⟩ := except_map_ok ho
    exact ⟨hlen, fun i h1 => (stochrsi_warm hx.1 hx.2.1 hx.2.2 hn h1).2.1, fun hf => hf.elim⟩
  case stochrsiD w s1 s2 =>
    obtain ⟨o, hn, rfl⟩ := except_map_ok ho
    exact ⟨hlen, fun i h1 => (stochrsi_warm hx.1 hx.2.1 hx.2.2 hn h1).2.2, fun hf => hf.elim⟩
  case ppo slow fast sign =>
    obtain ⟨o, hn, rfl⟩ := except_map_ok ho
    obtain ⟨L, S, _, _, d1, d2, d3⟩ := ppo_formula pc hn
    exact d1.warm _
  case ppoSignal slow fast sign =>
    obtain ⟨o, hn, rfl⟩ := except_map_ok ho
    obtain ⟨L, S, _, _, d1, d2, d3⟩ := ppo_formula pc hn
    exact d2.warm _
  case ppoHist slow fast sign =>
    obtain ⟨o, hn, rfl⟩ := except_map_ok ho
    obtain ⟨L, S, _, _, d1, d2, d3⟩ := ppo_formula pc hn
    exact d3.warm _
  case pvo slow fast sign =>
    obtain ⟨o, hn, rfl⟩ := except_map_ok ho
    obtain ⟨L, S, _, _, d1, d2, d3⟩ := ppo_formula p5 hn
    exact d1.warm _
  case pvoSignal slow fast sign =>
    obtain ⟨o, hn, rfl⟩ := except_map_ok ho
    obtain ⟨L, S, _, _, d1, d2, d3⟩ := ppo_formula p5 hn
    exact d2.warm _
  case pvoHist slow fast sign =>
    obtain ⟨o, hn, rfl⟩ := except_map_ok ho
    obtain ⟨L, S, _, _, d1, d2, d3⟩ := ppo_formula p5 hn
    exact d3.warm _
  case aroonUp w =>
    obtain ⟨o, hn, rfl⟩ := except_map_ok ho
    obtain ⟨_, _, _, _, d1, d2, d3⟩ := aroon_formula hx hn
    exact d1.warm _
  case aroonDown w =>
    obtain ⟨o, hn, rfl⟩ := except_map_ok ho
    obtain ⟨_, _, _, _, d1, d2, d3⟩ := aroon_formula hx hn
    exact d2.warm _
  case aroonInd w =>
    obtain ⟨o, hn, rfl⟩ := except_map_ok ho
    obtain ⟨_, _, _, _, d1, d2, d3⟩ := aroon_formula hx hn
    exact d3.warm _
  case macd slow fast sign =>
    obtain ⟨o, hn, rfl⟩ := except_map_ok ho
    obtain ⟨L, S, _, _, d1, d2, d3⟩ := macd_formula hn
    exact d1.warm _
  case macdSignal slow fast sign =>
    obtain ⟨o, hn, rfl⟩ := except_map_ok ho
    obtain ⟨L, S, _, _, d1, d2, d3⟩ := macd_formula hn
    exact d2.warm _
  case macdDiff slow fast sign =>
    obtain ⟨o, hn, rfl⟩ := except_map_ok ho
    obtain ⟨L, S, _, _, d1, d2, d3⟩ := macd_formula hn
    exact d3.warm _
  case ema w =>
    obtain ⟨_, _, _, r, hr, hd⟩ := ema_recurrence n c w hx false
    rw [hr] at ho
    rw [← Except.ok.inj ho]
    exact hd.warm _
  case sma w =>
    rw [← Except.ok.inj ho]
    exact (sma_formula n c w hx).warm _
  case wma w =>
    rw [← Except.ok.inj ho]
    exact (wma_formula n c w hx).warm _
  case trix w =>
    obtain ⟨_, _, _, r, _, _, _, hr, hd⟩ := trix_formula (n := n) pc hx
    rw [hr] at ho
    rw [← Except.ok.inj ho]
    exact hd.warm _
  case massIndex fast slow =>
    obtain ⟨_, _, _, r, _, _, _, hr, hd⟩ := mass_formula (n := n) p2 hx.1 hx.2 false
    rw [hr] at ho
    rw [← Except.ok.inj ho]
    exact hd.warm _
  case ichimokuConv w =>
    obtain ⟨_, _, _, _, _, _, d, _⟩ := ichimoku_formula n h l hx hx hx false
    rw [← Except.ok.inj ho]
    exact d.warm _
  case ichimokuBase w =>
    obtain ⟨_, _, _, _, _, _, _, d, _⟩ := ichimoku_formula n h l hx hx hx false
    rw [← Except.ok.inj ho]
    exact d.warm _
  case ichimokuA w1 w2 vis =>
    cases vis
    · obtain ⟨_, _, _, _, _, _, _, _, d, _⟩ := ichimoku_formula n h l hx.1 hx.2 hx.2 false
      rw [← Except.ok.inj ho]
      exact d.warm _
    · exact ⟨hlen, fun i _ hi => absurd hi (Nat.not_lt_zero _), fun hf => by cases hf⟩
  case ichimokuB w2 w3 vis =>
    obtain ⟨_, _, _, _, _, _, _, _, _, d⟩ := ichimoku_formula n h l hx.1 hx.1 hx.2 false
    cases vis
    · rw [← Except.ok.inj ho]
      exact d.warm _
    · refine ⟨hlen, fun i _ hi => absurd hi (Nat.not_lt_zero _), fun _ i hi _ => ?_⟩
      rw [← Except.ok.inj ho, (ichimoku_visual_shift _ _ w2 w2 w3 i (by simpa [ser] using hi)).2]
      exact vis_fin d hi
  case kst p =>
    obtain ⟨q, _, _, hq, _, _, d1, _, _⟩ := kst_formula (n := n) pc p.r1 p.r2 p.r3 p.r4 hx.1 hx.2.1 hx.2.2.1 hx.2.2.2
      (le_refl 1) false
    subst hq
    rw [← Except.ok.inj ho]
    exact d1.warm _
  case kstSig p ns =>
    obtain ⟨q, _, _, hq, _, _, _, d1, _⟩ := kst_formula (n := n) pc p.r1 p.r2 p.r3 p.r4 hx.1 hx.2.1 hx.2.2.1 hx.2.2.2.1
      hx.2.2.2.2 false
    subst hq
    rw [← Except.ok.inj ho]
    exact d1.warm _
  case kstDiff p ns =>
    obtain ⟨q, _, _, hq, _, _, _, _, d1⟩ := kst_formula (n := n) pc p.r1 p.r2 p.r3 p.r4 hx.1 hx.2.1 hx.2.2.1 hx.2.2.2.1
      hx.2.2.2.2 false
    subst hq
    rw [← Except.ok.inj ho]
    exact d1.warm _
  case dpo w =>
    rw [← Except.ok.inj ho]
    exact (dpo_formula n c hx false).warm _
  case cci w k =>
    rw [← Except.ok.inj ho]
    exact (cci_gap n h l c hx.1 k).warm (by simp)
  case adx w =>
    rcases hn : ADX.new (ser n h) (ser n l) (ser n c) w false with e | o
    · rw [hn] at ho; cases ho
    · rw [hn] at ho
      exact (adx_formula p3 p4 hn ho).2.warm _
  case adxPos w =>
    obtain ⟨o, hn, rfl⟩ := except_map_ok ho
    exact (adx_di_formula hn).1.warm _
  case adxNeg w =>
    obtain ⟨o, hn, rfl⟩ := except_map_ok ho
    exact (adx_di_formula hn).2.warm _
  case vortexPos w =>
    obtain ⟨_, _, _, _, d1, d2, d3⟩ := vortex_formula (n := n) (c := c) p2 hx false
    rw [← Except.ok.inj ho]
    exact d1.warm _
  case vortexNeg w =>
    obtain ⟨_, _, _, _, d1, d2, d3⟩ := vortex_formula (n := n) (c := c) p2 hx false
    rw [← Except.ok.inj ho]
    exact d2.warm _
  case vortexDiff w =>
    obtain ⟨_, _, _, _, d1, d2, d3⟩ := vortex_formula (n := n) (c := c) p2 hx false
    rw [← Except.ok.inj ho]
    exact d3.warm _
  case psar s m =>
    obtain ⟨x, y, rfl, rfl⟩ := hx
    obtain ⟨o, hn, rfl⟩ := except_map_ok ho
    exact ⟨hlen, fun i _ hi => absurd hi (Nat.not_lt_zero _), fun _ i hi _ => (psar_partition hn hi).1⟩
  case psarUp s m =>
    obtain ⟨x, y, rfl, rfl⟩ := hx
    obtain ⟨o, hn, rfl⟩ := except_map_ok ho
    exact ⟨hlen, fun i hi h2 => ((psar_partition hn hi).2.1 h2).2.1, fun hf => hf.elim⟩
  case psarDown s m =>
    obtain ⟨x, y, rfl, rfl⟩ := hx
    obtain ⟨o, hn, rfl⟩ := except_map_ok ho
    exact ⟨hlen, fun i hi h2 => ((psar_partition hn hi).2.1 h2).2.2, fun hf => hf.elim⟩
  case psarUpInd s m =>
    obtain ⟨x, y, rfl, rfl⟩ := hx
    obtain ⟨o, hn, rfl⟩ := except_map_ok ho
    refine ⟨hlen, fun i _ hi => absurd hi (Nat.not_lt_zero _), fun _ i hi _ => ?_⟩
    have := (psar_up_flag hn).2 i hi
    by_cases hc : (ix o.psarUp i).IsFin ∧ ix o.psarUp i ≠ .fin 0 ∧ ¬ (1 ≤ i ∧ (ix o.psarUp (i - 1)).IsFin)
    · exact ⟨_, this.1 hc⟩
    · exact ⟨_, this.2 hc⟩
  case psarDownInd s m =>
    obtain ⟨x, y, rfl, rfl⟩ := hx
    obtain ⟨o, hn, rfl⟩ := except_map_ok ho
    refine ⟨hlen, fun i _ hi => absurd hi (Nat.not_lt_zero _), fun _ i hi _ => ?_⟩
    have := (psar_down_flag hn).2 i hi
    by_cases hc : DownRow o i ∧ ¬ (1 ≤ i ∧ DownRow o (i - 1))
    · exact ⟨_, this.1 hc⟩
    · exact ⟨_, this.2 hc⟩
  case stc slow fast cycle s1 s2 => exact (stc_gap hx ho).warm (by simp)
  case atr w => exact (atr_formula (fun i _ => (p2 i).le) hx ho).2.warm _
  case bbMavg w d =>
    obtain ⟨hw, x, rfl⟩ := hx
    rw [← Except.ok.inj ho]; exact (bb_warm pc hw x).1
  case bbHband w d =>
    obtain ⟨hw, x, rfl⟩ := hx
    rw [← Except.ok.inj ho]; exact (bb_warm pc hw x).2.1
  case bbLband w d =>
    obtain ⟨hw, x, rfl⟩ := hx
    rw [← Except.ok.inj ho]; exact (bb_warm pc hw x).2.2.1
  case bbWband w d =>
    obtain ⟨hw, x, rfl⟩ := hx
    rw [← Except.ok.inj ho]; exact (bb_warm pc hw x).2.2.2.1
  case bbPband w d =>
    obtain ⟨hw, x, rfl⟩ := hx
    rw [← Except.ok.inj ho]; exact (bb_warm pc hw x).2.2.2.2.1
  case bbHi w d =>
    obtain ⟨hw, x, rfl⟩ := hx
    rw [← Except.ok.inj ho]; exact (bb_warm pc hw x).2.2.2.2.2.1
  case bbLi w d =>
    obtain ⟨hw, x, rfl⟩ := hx
    rw [← Except.ok.inj ho]; exact (bb_warm pc hw x).2.2.2.2.2.2
  case kcMband w wa og k =>
    obtain ⟨hw, hwa, x, rfl⟩ := hx
    obtain ⟨o, hn, rfl⟩ := except_map_ok ho
    exact (kc_warm p1 p2 p3 hw hwa hn).1
  case kcHband w wa og k =>
    obtain ⟨hw, hwa, x, rfl⟩ := hx
    obtain ⟨o, hn, rfl⟩ := except_map_ok ho
    exact (kc_warm p1 p2 p3 hw hwa hn).2.1
  case kcLband w wa og k =>
    obtain ⟨hw, hwa, x, rfl⟩ := hx
    obtain ⟨o, hn, rfl⟩ := except_map_ok ho
    exact (kc_warm p1 p2 p3 hw hwa hn).2.2.1
  case kcWband w wa og k =>
    obtain ⟨hw, hwa, x, rfl⟩ := hx
    obtain ⟨o, hn, rfl⟩ := except_map_ok ho
    exact (kc_warm p1 p2 p3 hw hwa hn).2.2.2.1
  case kcPband w wa og k =>
    obtain ⟨hw, hwa, x, rfl⟩ := hx
    obtain ⟨o, hn, rfl⟩ := except_map_ok ho
    exact (kc_warm p1 p2 p3 hw hwa hn).2.2.2.2.1
  case kcHi w wa og k =>
    obtain ⟨hw, hwa, x, rfl⟩ := hx
    obtain ⟨o, hn, rfl⟩ := except_map_ok ho
    exact (kc_warm p1 p2 p3 hw hwa hn).2.2.2.2.2.1
  case kcLi w wa og k =>
    obtain ⟨hw, hwa, x, rfl⟩ := hx
    obtain ⟨o, hn, rfl⟩ := except_map_ok ho
    exact (kc_warm p1 p2 p3 hw hwa hn).2.2.2.2.2.2
  case dcHband w off =>
    obtain ⟨o, hn, rfl⟩ := except_map_ok ho
    exact dc_warm p2 pc hx hn (.inl rfl)
  case dcLband w off =>
    obtain ⟨o, hn, rfl⟩ := except_map_ok ho
    exact dc_warm p2 pc hx hn (.inr (.inl rfl))
  case dcMband w off =>
    obtain ⟨o, hn, rfl⟩ := except_map_ok ho
    exact dc_warm p2 pc hx hn (.inr (.inr (.inl rfl)))
  case dcWband w off =>
    obtain ⟨o, hn, rfl⟩ := except_map_ok ho
    exact dc_warm p2 pc hx hn (.inr (.inr (.inr (.inl rfl))))
  case dcPband w off =>
    obtain ⟨o, hn, rfl⟩ := except_map_ok ho
    exact dc_warm p2 pc hx hn (.inr (.inr (.inr (.inr rfl))))
  case ulcer w => exact (ulcer_formula pc hx ho).warm _
  case adi =>
    rw [← Except.ok.inj ho]; exact (adi_formula n h l c v p3 p4 false).warm _
  case obv =>
    rw [← Except.ok.inj ho]; exact (obv_formula n c v false).warm _
  case cmf w =>
    rw [← Except.ok.inj ho]; exact (cmf_formula n h l c v w false hx p5 p3 p4).warm _
  case fi w =>
    obtain ⟨r, hr, hd⟩ := forceIndex_formula n c v hx
    rw [hr] at ho
    rw [← Except.ok.inj ho]; exact hd.warm _
  case eom =>
    rw [← Except.ok.inj ho]; exact (eom_formula n h l v (fun i => (p5 i).ne')).warm _
  case smaEom w =>
    rw [← Except.ok.inj ho]; exact (smaEom_formula n h l v (fun i => (p5 i).ne') hx).warm _
  case vpt sm =>
    rw [← Except.ok.inj ho]
    cases sm with
    | none => exact (vpt_formula n v pc').warm _
    | some k => exact (vpt_smooth_formula n v pc' hx).warm _
  case nvi =>
    by_cases hn : 0 < n
    · obtain ⟨r, hr, hd⟩ := nvi_formula hn v pc' false
      rw [hr] at ho
      rw [← Except.ok.inj ho]; exact hd.warm _
    · exact ⟨hlen, fun i hi => by omega, fun _ i hi => by omega⟩
  case mfi w =>
    obtain ⟨q1, q2, q3, _⟩ := mfi_formula n h l c v w false hx
    rw [← Except.ok.inj ho, q1]
    exact ⟨q2, fun i h1 h2 => q3 i h1 rfl h2, fun hf => hf.elim⟩
  case vwap w =>
    rw [← Except.ok.inj ho]; exact (vwap_formula n h l c v w false hx p5).warm _
  case dr =>
    rw [← Except.ok.inj ho]
    by_cases hn : 0 < n
    · obtain ⟨_, _, _, _, _, _, d, _⟩ := returns_compound hn pc false
      exact d.warm _
    · rw [Except.ok.inj ho]
      exact ⟨hlen, fun i hi => by omega, fun _ i hi => by omega⟩
  case dlr =>
    obtain ⟨_, _, _, d, _⟩ := log_returns_sum (n := n) pc false
    rw [← Except.ok.inj ho]
    exact d.warm _
  case cr =>
    by_cases hn : 0 < n
    · obtain ⟨_, _, r, _, _, _, _, hr, d, _⟩ := returns_compound hn pc false
      rw [hr] at ho
      rw [← Except.ok.inj ho]
      exact d.warm _
    · exact ⟨hlen, fun i hi => by omega, fun _ i hi => by omega⟩

/-- the number of leading rows without a value -/
noncomputable def leadNaN (out : Series (Val ℝ)) : Nat := (out.takeWhile fun v => Flt.isNaN v).length

theorem takeWhile_count {α : Type} (p : α → Bool) (l : List α) (k : Nat) (h1 : ∀ i (h : i < l.length), i < k → p l[i] = true)
    (h2 : ∀ (h : k < l.length), p l[k] = false) : (l.takeWhile p).length = min l.length k := by
  induction l generalizing k with
  | nil => simp
  | cons a l ih =>
    cases k with
    | zero =>
      have := h2 (by simp)
      rw [List.takeWhile_cons_of_neg (by simpa using this)]
      simp
    | succ k =>
      have := h1 0 (by simp) (by omega)
      rw [List.takeWhile_cons_of_pos (by simpa using this), List.length_cons, List.length_cons,
        ih k (fun i hi hk => h1 (i + 1) (by rw [List.length_cons]; omega) (by omega)) (fun hk => h2 (by rw [List.length_cons]; omega))]
      omega

/-- C41. The count itself. -/
theorem leading_nans (x : Ind (Val ℝ)) (hx : x.Sane) (ha : x.always) (b : List (Bar (Val ℝ))) (hb : ∀ r ∈ b, PosBar r)
    {out : Series (Val ℝ)} (ho : x.eval false b = .ok out) : leadNaN out = min b.length x.lookback := by
  obtain ⟨h1, h2, h3⟩ := warmup x hx b hb ho
  unfold leadNaN
  rw [takeWhile_count _ _ x.lookback (fun i hi hk => ?_) (fun hk => ?_), h1]
  · have := h2 i (by omega) hk
    rw [ix_lt hi] at this
    rw [this]; rfl
  · obtain ⟨y, hy⟩ := h3 ha x.lookback (by omega) (le_refl _)
    rw [ix_lt hk] at hy
    rw [hy]; rfl

/-- the hypotheses are satisfiable, and the count is not 0 -/
example : ∃ out, (Ind.macdSignal 2 1 2).eval false
      [⟨.fin 12, .fin 10, .fin 11, .fin 5⟩, ⟨.fin 14, .fin 11, .fin 13, .fin 7⟩, ⟨.fin 13, .fin 9, .fin 10, .fin (4 : ℝ)⟩]
        = .ok out ∧ leadNaN out = 2 := by
  refine ⟨_, rfl, ?_⟩
  refine leading_nans (.macdSignal 2 1 2) trivial trivial [_, _, _] ?_ rfl
  intro r hr
  rcases List.mem_cons.mp hr with rfl | hr
  · exact ⟨_, _, _, _, rfl, by norm_num, by norm_num, by norm_num, by norm_num, by norm_num⟩
  rcases List.mem_cons.mp hr with rfl | hr
  · exact ⟨_, _, _, _, rfl, by norm_num, by norm_num, by norm_num, by norm_num, by norm_num⟩
  rcases List.mem_cons.mp hr with rfl | hr
  · exact ⟨_, _, _, _, rfl, by norm_num, by norm_num, by norm_num, by norm_num, by norm_num⟩
  · cases hr

section examples
attribute [local instance] toyFn

/-- seven ordinary bars -/
def warmBars : List (Bar (Val ℚ)) :=
  [qbar 12 10 11 5, qbar 14 11 13 7, qbar 13 9 10 4, qbar 15 12 14 6, qbar 16 11 12 3, qbar 13 10 12 8, qbar 17 12 15 5]
/-- which rows have no value, next to the look-back of the table -/
def warmRows (x : Ind (Val ℚ)) : Except PyErr (List Bool) × Nat :=
  ((x.eval false warmBars).map (·.map Flt.isNaN), x.lookback)

example : warmRows (.trix 2) = (.ok [true, true, true, true, false, false, false], 4) := by decide +kernel
example : warmRows (.massIndex 2 2) = (.ok [true, true, true, false, false, false, false], 3) := by decide +kernel
example : warmRows (.dcMband 2 1) = (.ok [true, true, false, false, false, false, false], 2) := by decide +kernel
example : warmRows (.stc 2 1 2 2 1) = (.ok [true, true, true, true, false, false, false], 4) := by decide +kernel
example : warmRows (.tsi 2 2) = (.ok [true, true, true, false, false, false, false], 3) := by decide +kernel
/-- rows 5 and 6: the window of row 5 saw no movement -/
example : warmRows (.stochrsiK 2 2 1) = (.ok [true, true, true, false, false, true, true], 3) := by decide +kernel

end examples
end TA
