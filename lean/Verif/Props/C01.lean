import Verif.Lemmas.Toy
import Verif.Lemmas.Shape
import Verif.Spec.Causal

/-! # C01 — row-for-row output -/

set_option linter.unusedSectionVars false
set_option linter.unusedSimpArgs false

namespace TA
variable {F : Type} [FltFn F]

/-- the `Except` plumbing of constructors that check their arguments -/
macro "unguard" h:ident : tactic =>
  `(tactic| simp only [chkSpan, chkRoll, bind, Except.bind, pure, Except.pure, Except.map] at $h:ident)

/-- C01.  Every output of every indicator has one row per input row: for every arithmetic, every data, every
parameter and both values of `fillna`. -/
theorem row_for_row (ind : Ind F) (fillna : Bool) : RowForRow (fun b => ind.eval fillna b) := by
  intro b out h
  cases ind with
  | psar s mx =>
    obtain ⟨o, ho, rfl⟩ := except_map_ok h
    by_cases hb : 0 < (closes b).length
    · rw [PSAR.new_eq _ _ _ _ _ _ hb] at ho; cases ho; simp [PSAR.psar]
    · unfold PSAR.new at ho; rw [if_pos (by omega)] at ho; cases ho
  | psarUp s mx =>
    obtain ⟨o, ho, rfl⟩ := except_map_ok h
    by_cases hb : 0 < (closes b).length
    · rw [PSAR.new_eq _ _ _ _ _ _ hb] at ho; cases ho; simp [PSAR.psarUp]
    · unfold PSAR.new at ho; rw [if_pos (by omega)] at ho; cases ho
  | psarDown s mx =>
    obtain ⟨o, ho, rfl⟩ := except_map_ok h
    by_cases hb : 0 < (closes b).length
    · rw [PSAR.new_eq _ _ _ _ _ _ hb] at ho; cases ho; simp [PSAR.psarDown]
    · unfold PSAR.new at ho; rw [if_pos (by omega)] at ho; cases ho
  | psarUpInd s mx =>
    obtain ⟨o, ho, rfl⟩ := except_map_ok h
    by_cases hb : 0 < (closes b).length
    · rw [PSAR.new_eq _ _ _ _ _ _ hb] at ho; cases ho; simp [PSAR.psarUpIndicator]
    · unfold PSAR.new at ho; rw [if_pos (by omega)] at ho; cases ho
  | psarDownInd s mx =>
    obtain ⟨o, ho, rfl⟩ := except_map_ok h
    by_cases hb : 0 < (closes b).length
    · rw [PSAR.new_eq _ _ _ _ _ _ hb] at ho; cases ho; simp [PSAR.psarDownIndicator]
    · unfold PSAR.new at ho; rw [if_pos (by omega)] at ho; cases ho
  | adx w =>
    simp only [Ind.eval, bind, Except.bind] at h
    unfold ADX.new at h
    split_ifs at h <;> simp only [reduceCtorEq] at h
    unfold ADX.adx at h
    split_ifs at h with h1
    cases h
    simp only [ADX.run, length_wilder, length_range, List.length_map] at h1
    simp [ADX.run] at *
    omega
  | adxPos w =>
    obtain ⟨o, ho, rfl⟩ := except_map_ok h
    unfold ADX.new at ho
    split_ifs at ho
    cases ho; simp [ADX.adxPos, ADX.place, ADX.run]
  | adxNeg w =>
    obtain ⟨o, ho, rfl⟩ := except_map_ok h
    unfold ADX.new at ho
    split_ifs at ho
    cases ho; simp [ADX.adxNeg, ADX.place, ADX.run]
  | vpt sm =>
    simp only [Ind.eval] at h
    cases h
    unfold volumePriceTrend VPT.run
    cases sm with
    | none => simp
    | some k => cases k <;> simp
  | kcMband w wa o k | kcHband w wa o k | kcLband w wa o k | kcWband w wa o k | kcPband w wa o k | kcHi w wa o k
  | kcLi w wa o k =>
    obtain ⟨o', ho, rfl⟩ := except_map_ok h
    unfold Keltner.new at ho
    cases o
    all_goals
      unguard ho
      split_ifs at ho
      all_goals
        simp only [averageTrueRange, reduceCtorEq, if_false, if_true, Bool.false_eq_true] at ho
        try split_ifs at ho
        all_goals
          first
          | (cases ho; simp [Keltner.mband, Keltner.hband, Keltner.lband, Keltner.wband, Keltner.pband,
              Keltner.hbandIndicator, Keltner.lbandIndicator, Keltner.runOriginal, Keltner.runAtr]; done)
          | (simp at ho; done)
          | (simp only at ho; cases ho; simp [Keltner.mband, Keltner.hband, Keltner.lband, Keltner.wband,
              Keltner.pband, Keltner.hbandIndicator, Keltner.lbandIndicator, Keltner.runOriginal, Keltner.runAtr])
  | _ =>
    simp only [Ind.eval, rsi, tsi, StochRSI.new, PPO.new, Aroon.new, MACD.new, emaIndicator, trix, massIndex, stc,
      averageTrueRange, Donchian.new, ulcerIndex, forceIndex, negativeVolumeIndex, cumulativeReturn] at h
    try unguard h
    try split_ifs at h
    all_goals try simp only [reduceCtorEq] at h
    all_goals
      first
      | (cases h; simp [RSI.run, RSI.up, RSI.down, TSI.run, ultimateOscillator, UO.run, UO.avg,
          UO.buyingPressure, stoch, Stoch.k, stochSignal, kama, KAMA.run, roc, ROC.run, awesomeOscillator, AO.run,
          williamsR, WR.run, StochRSI.stochrsi, StochRSI.stochrsiK, StochRSI.stochrsiD, StochRSI.ofRsi, PPO.ppo,
          PPO.ppoSignal, PPO.ppoHist, PPO.run, Aroon.aroonUp, Aroon.aroonDown, Aroon.aroonIndicator, Aroon.run,
          MACD.macd, MACD.macdSignal, MACD.macdDiff, MACD.run, smaIndicator, wma, TRIX.run, Mass.run,
          ichimokuConversionLine, ichimokuBaseLine, ichimokuA, ichimokuB, Ichimoku.mid, Ichimoku.spanA, kst, kstSig,
          kstDiff, KST.run, KST.sig, KST.rocma, dpo, DPO.run, cci, CCI.run, vortexPos, vortexNeg, vortexDiff,
          Vortex.vip, Vortex.vin, STC.run, STC.stochOf, ATR.run, BB.new, BB.bollingerMavg, BB.bollingerHband,
          BB.bollingerLband, BB.bollingerWband, BB.bollingerPband, BB.bollingerHbandIndicator,
          BB.bollingerLbandIndicator, Donchian.hband, Donchian.lband, Donchian.mband, Donchian.wband,
          Donchian.pband, Ulcer.drawdown, accDistIndex, ADI.run, onBalanceVolume, OBV.run, OBV.signed,
          chaikinMoneyFlow, CMF.run, FI.run, easeOfMovement, EOM.run, smaEaseOfMovement, NVI.run, moneyFlowIndex,
          MFI.run, MFI.flow, volumeWeightedAveragePrice, VWAP.run, dailyReturn, DR.run, dailyLogReturn, DLR.run,
          CR.run]; done)
      | (cases h; simp [ATR.run]; split_ifs <;> simp; done)

section examples
attribute [local instance] toyFn

/-- A non-trivial instance, with a gap in the data. -/
example : (Ind.sma 2 : Ind (Val ℚ)).eval true [qb 1, ⟨.nan, .nan, .nan, .nan⟩, qb 3] =
    .ok [.fin 1, .fin 1, .fin 3] := by decide +kernel

/-- The documented exception: VPT with `dropnans=True` loses its first row. -/
theorem vpt_dropnans_not_row_for_row :
    ∃ close volume : Series (Val ℚ), close.length = volume.length ∧
      (volumePriceTrend close volume false none true).length ≠ close.length :=
  ⟨qs [1, 2], qs [1, 1], rfl, by decide +kernel⟩

end examples

end TA
