import Verif.Lemmas.Mirror
import Verif.Props.C18

/-! # Negated prices through the indicators

Negating all prices exchanges the roles of high and low: the mirrored columns are `sneg l`, `sneg h`, `sneg s`. -/

set_option linter.unusedSectionVars false

namespace TA

theorem chk_map {α β : Type} {w : Nat} {x : Except PyErr α} {y : Except PyErr β} {f : α → β} (h : y = x.map f) :
    (chkSpan w >>= fun _ => y) = (chkSpan w >>= fun _ => x).map f := by
  unfold chkSpan
  split_ifs
  · rfl
  · exact h

theorem chkRoll_map {α β : Type} {w m : Nat} {x : Except PyErr α} {y : Except PyErr β} {f : α → β} (h : y = x.map f) :
    (chkRoll w m >>= fun _ => y) = (chkRoll w m >>= fun _ => x).map f := by
  unfold chkRoll
  split_ifs
  · rfl
  · exact h

section
variable {K : Type} [Field K] [LinearOrder K] [IsStrictOrderedRing K]
variable {h l s : Series (Val K)}

/-! ## one price column -/

theorem neg_tsi (slow fast : Nat) (b : Bool) : tsi (sneg s) slow fast b = (tsi s slow fast b).map sneg := by
  refine chk_map (chk_map (congrArg Except.ok ?_))
  show checkFillna b _ (TSI.run (sneg s) slow fast b) = sneg (checkFillna b _ (TSI.run s slow fast b))
  unfold TSI.run
  simp only [shiftNan_neg, ssub_neg, ema_neg, sabs_neg, sdiv_neg, mulc_neg, fill0_neg]

theorem neg_kama (w p1 p2 : Nat) (b : Bool) : kama (sneg s) w p1 p2 b = sneg (kama s w p1 p2 b) := by
  unfold kama
  have her : KAMA.er (sneg s) w b = KAMA.er s w b := by
    unfold KAMA.er KAMA.vol
    simp only [npRoll_neg, ssub_neg, sabs_neg]
  have hsc : KAMA.sc (sneg s) w p1 p2 b = KAMA.sc s w p1 p2 b := by unfold KAMA.sc; rw [her]
  have hrun : KAMA.run (sneg s) w p1 p2 b = sneg (KAMA.run s w p1 p2 b) := by
    unfold KAMA.run
    rw [hsc, length_sneg, ← tab_neg]
    refine tab_congr rfl fun i _ => ?_
    generalize KAMA.sc s w p1 p2 b = sc
    have main : ∀ m, iter (KAMA.step sc (sneg s)) (nan, true) m
        = (Flt.neg (iter (KAMA.step sc s) (nan, true) m).1, (iter (KAMA.step sc s) (nan, true) m).2) := by
      intro m
      induction m with
      | zero => rfl
      | succ m ih =>
        simp only [iter]
        rw [ih]
        generalize iter (KAMA.step sc s) (nan, true) m = x
        unfold KAMA.step
        simp only [ix_sneg, neg_sub_neg', mul_neg', neg_add']
        split_ifs <;> rfl
    rw [main]
  rw [hrun, fillSer'_neg]

theorem neg_macd (slow fast sign : Nat) (b : Bool) (f : MACD (Val K) → Series (Val K))
    (hf : f = MACD.macd ∨ f = MACD.macdSignal ∨ f = MACD.macdDiff) :
    (MACD.new (sneg s) slow fast sign b).map f = ((MACD.new s slow fast sign b).map f).map sneg := by
  have e : MACD.new (sneg s) slow fast sign b
      = (MACD.new s slow fast sign b).map fun o => ⟨sneg o.line, sneg o.signal, sneg o.diff, o.fillna⟩ := by
    refine chk_map (chk_map (chk_map (congrArg Except.ok ?_)))
    unfold MACD.run
    simp only [ema_neg, ssub_neg]
  rw [e]
  cases MACD.new s slow fast sign b with
  | error e => rfl
  | ok o =>
    refine congrArg Except.ok ?_
    rcases hf with rfl | rfl | rfl
    · exact fill0_neg _ _
    · exact fill0_neg _ _
    · exact fill0_neg _ _

theorem neg_ema (w : Nat) (b : Bool) : emaIndicator (sneg s) w b = (emaIndicator s w b).map sneg :=
  chk_map (congrArg Except.ok (ema_neg s w b))

theorem neg_sma (w : Nat) (b : Bool) : smaIndicator (sneg s) w b = sneg (smaIndicator s w b) := rollMean_neg _ _ _

theorem neg_wma (w : Nat) (b : Bool) : wma (sneg s) w b = sneg (wma s w b) := by
  unfold wma
  rw [rollApply_neg s w w (g' := WMA.avg w), fill0_neg]
  intro l
  unfold WMA.avg
  rw [List.length_map, ← sumL_neg]
  congr 1
  show _ = sneg (tab _ _)
  rw [← tab_neg]
  refine tab_congr rfl fun j _ => ?_
  have := ix_sneg l j
  unfold sneg at this
  rw [this, mul_neg']

theorem neg_dpo (w : Nat) (b : Bool) : dpo (sneg s) w b = sneg (dpo s w b) := by
  unfold dpo DPO.run
  rw [smean_neg, shift_neg, rollMean_neg, ssub_neg, fill0_neg]

/-! ## two price columns -/

theorem neg_ao (e : l.length = h.length) (w1 w2 : Nat) (b : Bool) :
    awesomeOscillator (sneg l) (sneg h) w1 w2 b = sneg (awesomeOscillator h l w1 w2 b) := by
  unfold awesomeOscillator AO.run
  simp only [sadd_neg, sadd_comm' l h e.symm, cmul_neg, rollMean_neg, ssub_neg, fill0_neg]

theorem neg_mass (e : l.length = h.length) (fast slow : Nat) (b : Bool) :
    massIndex (sneg l) (sneg h) fast slow b = massIndex h l fast slow b := by
  unfold massIndex Mass.run
  rw [ssub_neg, neg_ssub l h e.symm]

theorem neg_aroon (w : Nat) (b : Bool) :
    Aroon.new (sneg l) (sneg h) w b = (Aroon.new h l w b).map fun o => ⟨o.down, o.up, o.fillna⟩ := by
  unfold Aroon.new
  rw [replaceInf_neg, replaceInf_neg, valid_neg, valid_neg, List.length_map, List.length_map,
    Nat.add_comm (valid (replaceInf l)).length]
  split_ifs
  · rfl
  · refine congrArg Except.ok ?_
    unfold Aroon.run
    dsimp only
    congr 1
    · exact rollApply_even _ _ _ fun x => by rw [argmax_neg]
    · exact rollApply_even _ _ _ fun x => by rw [argmin_neg]

theorem neg_mid (e : l.length = h.length) (w mp : Nat) :
    Ichimoku.mid (sneg l) (sneg h) w mp = sneg (Ichimoku.mid h l w mp) := by
  unfold Ichimoku.mid
  rw [rollMax_neg, rollMin_neg, sadd_neg, cmul_neg, sadd_comm' (rollMin w mp l)]
  simp [rollMax, rollMin, e]

theorem neg_vis (vis : Bool) (w : Nat) : Ichimoku.vis vis w (sneg s) = sneg (Ichimoku.vis vis w s) := by
  unfold Ichimoku.vis
  split_ifs
  · rw [smean_neg, shift_neg]
  · rfl

theorem neg_ichimokuConv (e : l.length = h.length) (w : Nat) (b : Bool) :
    ichimokuConversionLine (sneg l) (sneg h) w b = sneg (ichimokuConversionLine h l w b) := by
  unfold ichimokuConversionLine; rw [neg_mid e, fillBack_neg]

theorem neg_ichimokuBase (e : l.length = h.length) (w : Nat) (b : Bool) :
    ichimokuBaseLine (sneg l) (sneg h) w b = sneg (ichimokuBaseLine h l w b) := by
  unfold ichimokuBaseLine; rw [neg_mid e, fillBack_neg]

theorem neg_ichimokuA (e : l.length = h.length) (w1 w2 : Nat) (vis b : Bool) :
    ichimokuA (sneg l) (sneg h) w1 w2 vis b = sneg (ichimokuA h l w1 w2 vis b) := by
  unfold ichimokuA Ichimoku.spanA
  rw [neg_mid e, neg_mid e, sadd_neg, cmul_neg, neg_vis, fillBack_neg]

theorem neg_ichimokuB (e : l.length = h.length) (w2 w3 : Nat) (vis b : Bool) :
    ichimokuB (sneg l) (sneg h) w2 w3 vis b = sneg (ichimokuB h l w2 w3 vis b) := by
  unfold ichimokuB
  rw [neg_mid e, neg_vis, fillBack_neg]

theorem neg_eom (e : l.length = h.length) (v : Series (Val K)) : EOM.run (sneg l) (sneg h) v = sneg (EOM.run h l v) := by
  unfold EOM.run
  rw [sdiff_neg, sdiff_neg, sadd_neg, ssub_neg, neg_ssub l h e.symm, smul_neg, sdiv_neg, mulc_neg,
    sadd_comm' (sdiff l) (sdiff h) (by simp [sdiff, e])]

/-! ## three price columns -/

theorem neg_cci (e : l.length = h.length) (w : Nat) (d : Val K) (b : Bool) :
    cci (sneg l) (sneg h) (sneg s) w d b = sneg (cci h l s w d b) := by
  unfold cci CCI.run
  dsimp only
  rw [typicalPrice_neg e, rollMean_neg, ssub_neg, rollApply_even _ _ _ (g' := CCI.mad), sdiv_neg, fill0_neg]
  intro x
  unfold CCI.mad
  rw [npMean_neg, List.map_map]
  congr 1
  refine List.map_congr_left fun a _ => ?_
  show Flt.abs (Flt.neg a -. Flt.neg _) = _
  rw [neg_sub_neg', abs_neg']

theorem neg_range (e : l.length = h.length) :
    ADX.range (sneg l) (sneg h) (sneg s) = ADX.range h l s := by
  unfold ADX.range getMax getMin
  rw [shiftNan_neg, zip2_neg _ _ npMax2_neg, zip2_neg _ _ npMin2_neg, ssub_neg, neg_ssub]
  simp [zip2, e]

theorem adxPos_neg : ADX.pos (sneg l) (sneg h) = ADX.neg h l := by
  unfold ADX.pos ADX.neg
  rw [shiftNan_neg, shiftNan_neg, ssub_neg, ssub_neg, neg_ssub, neg_ssub] <;> simp

theorem adxNeg_neg : ADX.neg (sneg l) (sneg h) = ADX.pos h l := by
  unfold ADX.pos ADX.neg
  rw [shiftNan_neg, shiftNan_neg, ssub_neg, ssub_neg, neg_ssub, neg_ssub] <;> simp

theorem neg_adx_new (e : l.length = h.length) (w : Nat) (b : Bool) :
    ADX.new (sneg l) (sneg h) (sneg s) w b
      = (ADX.new h l s w b).map fun o => ⟨o.n, o.window, o.trs, o.din, o.dip, o.fillna⟩ := by
  unfold ADX.new
  rw [length_sneg]
  split_ifs
  · rfl
  · rfl
  · rfl
  · refine congrArg Except.ok ?_
    unfold ADX.run
    dsimp only
    rw [neg_range e, adxPos_neg, adxNeg_neg, length_sneg]

/-- exchanging the two directions leaves the directional index alone -/
theorem adx_swap (o : ADX (Val K)) : ADX.adx ⟨o.n, o.window, o.trs, o.din, o.dip, o.fillna⟩ = o.adx := by
  have : ADX.dx ⟨o.n, o.window, o.trs, o.din, o.dip, o.fillna⟩ = ADX.dx o := by
    unfold ADX.dx
    refine tab_congr rfl fun i _ => ?_
    dsimp only
    generalize ADX.di (ix o.trs i) (ix o.dip i) = p
    generalize ADX.di (ix o.trs i) (ix o.din i) = m
    rw [vadd_comm m p, ← neg_sub' p m, neg_div', abs_neg']
  unfold ADX.adx
  rw [this]

theorem neg_trn (e : l.length = h.length) (w : Nat) (b : Bool) :
    Vortex.trn (sneg l) (sneg h) (sneg s) w b = Vortex.trn h l s w b := by
  unfold Vortex.trn
  rw [smean_neg, shift_neg, trueRange_neg _ e]

theorem neg_vip (e : l.length = h.length) (w : Nat) (b : Bool) :
    Vortex.vip (sneg l) (sneg h) (sneg s) w b = Vortex.vin h l s w b := by
  unfold Vortex.vip Vortex.vin
  rw [neg_trn e, shiftNan_neg, ssub_neg, sabs_neg]

theorem neg_vin (e : l.length = h.length) (w : Nat) (b : Bool) :
    Vortex.vin (sneg l) (sneg h) (sneg s) w b = Vortex.vip h l s w b := by
  unfold Vortex.vip Vortex.vin
  rw [neg_trn e, shiftNan_neg, ssub_neg, sabs_neg]

theorem neg_vortexDiff (e : l.length = h.length) (w : Nat) (b : Bool) :
    vortexDiff (sneg l) (sneg h) (sneg s) w b = sneg (vortexDiff h l s w b) := by
  unfold vortexDiff
  rw [neg_vip e, neg_vin e, ← fill0_neg, neg_ssub]
  simp [Vortex.vip, Vortex.vin, sdiv, zip2, rollSum, sabs, ssub, e]

theorem neg_atr (e : l.length = h.length) (w : Nat) (b : Bool) :
    averageTrueRange (sneg l) (sneg h) (sneg s) w b = averageTrueRange h l s w b := by
  unfold averageTrueRange ATR.run
  rw [length_sneg, shiftNan_neg, trueRange_neg _ e]

theorem sadd_neg_left (a c : Series (Val K)) : sadd (sneg a) c = sneg (ssub a c) := by
  unfold sadd ssub zip2
  rw [length_sneg, ← tab_neg]
  refine tab_congr rfl fun i _ => ?_
  rw [ix_sneg, sub_def', ← neg_add', neg_neg']

theorem ssub_neg_left (a c : Series (Val K)) : ssub (sneg a) c = sneg (sadd a c) := by
  unfold sadd ssub zip2
  rw [length_sneg, ← tab_neg]
  refine tab_congr rfl fun i _ => ?_
  rw [ix_sneg, sub_def', neg_add']

theorem gtFlag_neg (a c : Series (Val K)) : gtFlag (sneg a) (sneg c) = ltFlag a c := by
  unfold gtFlag ltFlag zip2
  rw [length_sneg]
  exact tab_congr rfl fun i _ => by rw [ix_sneg, ix_sneg]; simp only [lt_neg_neg']

theorem ltFlag_neg (a c : Series (Val K)) : ltFlag (sneg a) (sneg c) = gtFlag a c := by
  unfold gtFlag ltFlag zip2
  rw [length_sneg]
  exact tab_congr rfl fun i _ => by rw [ix_sneg, ix_sneg]; simp only [lt_neg_neg']

theorem neg_kc_new (e : l.length = h.length) (w wa : Nat) (b o : Bool) (k : Val K) :
    Keltner.new (sneg l) (sneg h) (sneg s) w wa b o k = (Keltner.new h l s w wa b o k).map fun x =>
      ⟨sneg x.close, sneg x.tp, sneg x.tpLow, sneg x.tpHigh, x.fillna⟩ := by
  unfold Keltner.new
  cases o with
  | true =>
    refine chkRoll_map (congrArg Except.ok ?_)
    unfold Keltner.runOriginal
    have e2 : ∀ t : Series (Val K), cmul (lit (-2)) t = sneg (cmul (lit 2) t) := by
      intro t
      unfold cmul sneg
      rw [List.map_map]
      refine List.map_congr_left fun a _ => ?_
      show _ = Flt.neg (_ *. _)
      rw [← neg_mul', lit_fin, lit_fin, fin_neg]
      simp
    have l1 : (cmul (lit 2) h).length = (cmul (lit 4) l).length := by simp [cmul, e]
    have e3 : sadd (ssub (cmul (lit 4) (sneg l)) (cmul (lit 2) (sneg h))) (sneg s)
        = sneg (sadd (sadd (cmul (lit (-2)) h) (cmul (lit 4) l)) s) := by
      rw [cmul_neg, cmul_neg, ssub_neg, sadd_neg, e2, sadd_neg_left, neg_ssub _ _ l1.symm]
    have e4 : sadd (sadd (cmul (lit (-2)) (sneg l)) (cmul (lit 4) (sneg h))) (sneg s)
        = sneg (sadd (ssub (cmul (lit 4) h) (cmul (lit 2) l)) s) := by
      have l2 : (cmul (lit 2) l).length = (cmul (lit 4) h).length := by simp [cmul, e]
      rw [cmul_neg, cmul_neg, sadd_neg, e2, sadd_neg, sadd_neg_left, neg_ssub _ _ l2.symm]
    dsimp only
    rw [e3, e4, typicalPrice_neg e]
    simp only [divc_neg, rollMean_neg]
  | false =>
    refine chk_map ?_
    rw [neg_atr e]
    cases averageTrueRange h l s wa b with
    | error _ => rfl
    | ok a =>
      refine congrArg Except.ok ?_
      unfold Keltner.runAtr
      dsimp only
      rw [ewm_neg, sadd_neg_left, ssub_neg_left]

theorem neg_clv (e : l.length = h.length) (es : s.length = h.length) :
    clv (sneg l) (sneg h) (sneg s) = sneg (clv h l s) := by
  unfold clv
  rw [ssub_neg s h, ssub_neg l s, ssub_neg l h, ssub_neg, sdiv_neg, neg_ssub l h e.symm]
  conv_lhs => rw [← neg_zero']
  rw [fillConst_neg]
  congr 3
  rw [← neg_ssub s l (by rw [e, es]), ← neg_ssub h s es, ssub_neg, neg_ssub]
  simp [es]

theorem neg_fi (v : Series (Val K)) (w : Nat) (b : Bool) : forceIndex (sneg s) v w b = (forceIndex s v w b).map sneg := by
  refine chk_map (congrArg Except.ok ?_)
  unfold FI.run
  rw [shiftNan_neg, ssub_neg, smul_neg, ema_neg, fill0_neg]

theorem neg_vwap (e : l.length = h.length) (v : Series (Val K)) (w : Nat) (b : Bool) :
    volumeWeightedAveragePrice (sneg l) (sneg h) (sneg s) v w b = sneg (volumeWeightedAveragePrice h l s v w b) := by
  unfold volumeWeightedAveragePrice VWAP.run
  dsimp only
  rw [typicalPrice_neg e, smul_neg, rollSum_neg, sdiv_neg, fill0_neg]

end
end TA
