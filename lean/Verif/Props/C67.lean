import Verif.Props.C18

/-! # C67 — changing the unit of the volumes

`Bar.vol k` multiplies the volume of a row by `k`; the prices stay. -/

set_option linter.unusedSectionVars false

namespace TA

section
variable {K : Type} [Field K] [LinearOrder K] [IsStrictOrderedRing K]

/-- a row with its volume multiplied -/
def Bar.vol (k : K) (r : Bar (Val K)) : Bar (Val K) := ⟨r.high, r.low, r.close, .fin k *. r.volume⟩

end

/-- the power of the volume unit an output is measured in -/
def Ind.volDegree {F : Type} : Ind F → Int
  | .adi | .obv | .fi .. | .vpt .. => 1
  | .eom | .smaEom .. => -1
  | _ => 0

section
variable {k : ℝ} (hk : 0 < k) {h l s v v' : Series (Val ℝ)} (hv : SA k 0 v v')
include hk hv

theorem vrel_adi (b : Bool) : SA k 0 (accDistIndex h l s v b) (accDistIndex h l s v' b) := by
  refine SRel.fill0 (SRel.cumsum ?_) b
  exact SRel.cast (SRel.smul one_pos hk (SRel.refl (clv h l s)) hv) (one_mul k) rfl

theorem vrel_obv (b : Bool) : SA k 0 (onBalanceVolume s v b) (onBalanceVolume s v' b) := by
  refine SRel.fill0 (SRel.cumsum ?_) b
  exact SRel.zip3 (SRel.refl s) (SRel.refl (shift s 1)) hv fun a a' b b' d d' ha hb hd => by
    rw [ha.lt one_pos hb]
    split_ifs
    · exact hd.neg
    · exact hd

theorem vrel_cmf (w : Nat) (b : Bool) : SA 1 0 (chaikinMoneyFlow h l s v w b) (chaikinMoneyFlow h l s v' w b) := by
  refine SRel.fill0 (SRel.sdiv1 hk (SRel.rollSum _ _ ?_) (SRel.rollSum _ _ hv)) b
  exact SRel.cast (SRel.smul one_pos hk (SRel.refl (clv h l s)) hv) (one_mul k) rfl

theorem vrel_fi (w : Nat) (b : Bool) : ERel (SA k 0) (forceIndex s v w b) (forceIndex s v' w b) := by
  refine ERel.guard fun h1 => .ok (SRel.fill0 (SRel.ema w h1 b ?_) b)
  exact SRel.cast (SRel.smul one_pos hk (SRel.refl _) hv) (one_mul k) rfl

theorem vrel_eomRun : SA k⁻¹ 0 (EOM.run h l v) (EOM.run h l v') := by
  refine SRel.mulc (inv_pos.2 hk) _ (SRel.cast (SRel.sdiv one_pos hk (SRel.refl _) (hv.cmul hk _)) (one_div k) rfl)

theorem vrel_eom (b : Bool) : SA k⁻¹ 0 (easeOfMovement h l v b) (easeOfMovement h l v' b) :=
  SRel.fill0 (vrel_eomRun hk hv) b

theorem vrel_smaEom (w : Nat) (b : Bool) : SA k⁻¹ 0 (smaEaseOfMovement h l v w b) (smaEaseOfMovement h l v' w b) :=
  SRel.fill0 (SRel.rollMean _ _ (vrel_eomRun hk hv)) b

theorem vrel_vpt (sm : Option Nat) (b : Bool) :
    SA k 0 (volumePriceTrend s v b sm false) (volumePriceTrend s v' b sm false) := by
  have hc : SA k 0 (cumsum (smul (pctChange s) v)) (cumsum (smul (pctChange s) v')) :=
    SRel.cumsum (SRel.cast (SRel.smul one_pos hk (SRel.refl _) hv) (one_mul k) rfl)
  refine SRel.fill0 ?_ b
  match sm with
  | none => exact hc
  | some 0 => exact hc
  | some (n + 1) => exact hc.rollMean _ _

theorem vrel_nvi (b : Bool) : negativeVolumeIndex s v' b = negativeVolumeIndex s v b := by
  unfold negativeVolumeIndex NVI.run
  have : NVI.step s v' = NVI.step s v := by
    funext i p
    unfold NVI.step
    rw [VA.lt hk (hv.ix i) (hv.ix (i - 1))]
  rw [this]

theorem vrel_mfi (w : Nat) (b : Bool) : moneyFlowIndex h l s v' w b = moneyFlowIndex h l s v w b := by
  have h0 : VA k 0 (lit 0) (lit 0) := by rw [lit_fin, Rat.cast_zero]; exact VA.lit0 k
  have hf : SA k 0 (MFI.flow h l s v) (MFI.flow h l s v') :=
    SRel.cast (SRel.smul (mul_pos one_pos hk) one_pos (SRel.smul one_pos hk (SRel.refl _) hv) (SRel.refl _))
      (by ring) rfl
  have hp : SA k 0 (rollApply MFI.pos w (minp b w) (MFI.flow h l s v)) (rollApply MFI.pos w (minp b w) (MFI.flow h l s v')) := by
    refine hf.rollApply _ _ fun x x' hx => ?_
    refine VA.cast (LA.sumL (c := 0) (hx.map fun a a' ha => ?_)) rfl (mul_zero _)
    rw [h0.le hk ha]
    split_ifs
    · exact ha
    · exact h0
  have hn : SA k 0 (rollApply MFI.neg w (minp b w) (MFI.flow h l s v)) (rollApply MFI.neg w (minp b w) (MFI.flow h l s v')) := by
    refine hf.rollApply _ _ fun x x' hx => ?_
    refine VA.cast (LA.sumL (c := 0) (hx.map fun a a' ha => ?_)) rfl (mul_zero _)
    rw [ha.lt hk h0]
    split_ifs
    · exact ha
    · exact h0
  unfold moneyFlowIndex MFI.run
  simp only [(SRel.sdiv1 hk hp (hn.sabs hk)).eq]

theorem vrel_vwap (w : Nat) (b : Bool) :
    SA 1 0 (volumeWeightedAveragePrice h l s v w b) (volumeWeightedAveragePrice h l s v' w b) := by
  refine SRel.fill0 (SRel.sdiv1 hk (SRel.rollSum _ _ ?_) (SRel.rollSum _ _ hv)) b
  exact SRel.cast (SRel.smul one_pos hk (SRel.refl _) hv) (one_mul k) rfl

end

section
variable {k : ℝ} (b : List (Bar (Val ℝ)))

theorem vcol_high : highs (b.map (Bar.vol k)) = highs b := by simp [highs, Bar.vol, Function.comp_def]
theorem vcol_low : lows (b.map (Bar.vol k)) = lows b := by simp [lows, Bar.vol, Function.comp_def]
theorem vcol_close : closes (b.map (Bar.vol k)) = closes b := by simp [closes, Bar.vol, Function.comp_def]
theorem vcol_volume (hk : 0 < k) : SA k 0 (volumes b) (volumes (b.map (Bar.vol k))) := by
  have := SA.map_of (fun v => .fin k *. v) (VA.scale k hk) (volumes b)
  simpa [volumes, Bar.vol, Function.comp_def] using this

end

/-- C67: multiplying all volumes by `k > 0` multiplies every output by `k ^ volDegree` (degree 0: unchanged), raising
the same exception if it raised one; for all 84 outputs, all parameters, with and without `fillna`, and any data (NaN
and infinities included). -/
theorem volume_law (k : ℝ) (hk : 0 < k) (ind : Ind (Val ℝ)) (fillna : Bool) (b : List (Bar (Val ℝ))) :
    ind.eval fillna (b.map (Bar.vol k)) =
      (ind.eval fillna b).map (List.map fun v => .fin (k ^ ind.volDegree) *. v) := by
  refine ERel.toMap (VA.scale _ (zpow_pos hk _)) ?_
  have hv := vcol_volume b hk
  have d0 : ∀ {x y : Except PyErr (Series (Val ℝ))}, ERel (SA 1 0) x y → ERel (SA (k ^ (0 : Int)) 0) x y :=
    fun h => by rwa [zpow_zero]
  have d1 : ∀ {x y : Except PyErr (Series (Val ℝ))}, ERel (SA k 0) x y → ERel (SA (k ^ (1 : Int)) 0) x y :=
    fun h => by rwa [zpow_one]
  have d2 : ∀ {x y : Except PyErr (Series (Val ℝ))}, ERel (SA k⁻¹ 0) x y → ERel (SA (k ^ (-1 : Int)) 0) x y :=
    fun h => by rwa [zpow_neg_one]
  cases ind
  case pvo a1 a2 a3 => exact d0 (.mapEq (rel_ppo hk hv a1 a2 a3 fillna))
  case pvoSignal a1 a2 a3 => exact d0 (.mapEq (rel_ppo hk hv a1 a2 a3 fillna))
  case pvoHist a1 a2 a3 => exact d0 (.mapEq (rel_ppo hk hv a1 a2 a3 fillna))
  case adi => exact d1 (by simp only [Ind.eval, vcol_high, vcol_low, vcol_close]; exact .ok (vrel_adi hk hv fillna))
  case obv => exact d1 (by simp only [Ind.eval, vcol_close]; exact .ok (vrel_obv hk hv fillna))
  case cmf w => exact d0 (by simp only [Ind.eval, vcol_high, vcol_low, vcol_close]; exact .ok (vrel_cmf hk hv w fillna))
  case fi w => exact d1 (by simp only [Ind.eval, vcol_close]; exact vrel_fi hk hv w fillna)
  case eom => exact d2 (by simp only [Ind.eval, vcol_high, vcol_low]; exact .ok (vrel_eom hk hv fillna))
  case smaEom w => exact d2 (by simp only [Ind.eval, vcol_high, vcol_low]; exact .ok (vrel_smaEom hk hv w fillna))
  case vpt sm => exact d1 (by simp only [Ind.eval, vcol_close]; exact .ok (vrel_vpt hk hv sm fillna))
  case nvi => exact d0 (.ofEq (by simp only [Ind.eval, vcol_close]; exact vrel_nvi hk hv fillna))
  case mfi w =>
    exact d0 (by simp only [Ind.eval, vcol_high, vcol_low, vcol_close]; exact .ofEqS (vrel_mfi hk hv w fillna))
  case vwap w =>
    exact d0 (by simp only [Ind.eval, vcol_high, vcol_low, vcol_close]; exact .ok (vrel_vwap hk hv w fillna))
  all_goals exact d0 (.ofEq (by simp only [Ind.eval, vcol_high, vcol_low, vcol_close]))

section examples
attribute [local instance] toyFn

/-- C67 on numbers: the same data with volumes in another unit -/
example : (Ind.obv).eval false (fiveBars.map (Bar.vol 3)) = .ok (qs [30, 90, 135, 99, 189]) ∧
    (Ind.obv).eval false fiveBars = .ok (qs [10, 30, 45, 33, 63]) := by decide +kernel
example : (Ind.eom).eval true (fiveBars.map (Bar.vol 2)) ≠ (Ind.eom).eval true fiveBars ∧
    (Ind.vwap 2).eval false (fiveBars.map (Bar.vol 2)) = (Ind.vwap 2).eval false fiveBars := by decide +kernel
/-- the factor must be positive: with `k = 0` the VWAP is lost -/
theorem volume_law_zero : (Ind.vwap 2).eval false (fiveBars.map (Bar.vol 0)) ≠ (Ind.vwap 2).eval false fiveBars := by
  decide +kernel

end examples

end TA
