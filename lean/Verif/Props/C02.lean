import Verif.Props.C01
import Verif.Lemmas.Toy
import Verif.Lemmas.NewEq

/-! # C02, C03 — no look-ahead -/

set_option linter.unusedSectionVars false
set_option linter.unusedSimpArgs false

namespace TA
variable {F : Type} [FltFn F]

/-- The indicators for which C02 is claimed.  Left out: the ones of C04-C08 (KAMA, DPO, KST, TRIX, Vortex, the
visual Ichimoku spans), the ADX family (see `adx_no_lookahead`), the Donchian channel with a negative offset, and
Aroon with window 0 (which raises as soon as there is an observation). -/
def Ind.Plain : Ind F → Prop
  | .kama .. | .dpo .. | .trix .. | .kst .. | .kstSig .. | .kstDiff .. => False
  | .vortexPos .. | .vortexNeg .. | .vortexDiff .. => False
  | .adx .. | .adxPos .. | .adxNeg .. => False
  | .ichimokuA _ _ vis | .ichimokuB _ _ vis => vis = false
  | .aroonUp w | .aroonDown w | .aroonInd w => 1 ≤ w
  | .dcHband _ off | .dcLband _ off | .dcMband _ off | .dcWband _ off | .dcPband _ off => 0 ≤ off
  | _ => True

/-- The outputs filled by backfill (`value=-1`); all others are filled with a constant or not filled. -/
def Ind.BackFill : Ind F → Prop
  | .ichimokuConv .. | .ichimokuBase .. | .ichimokuA .. | .ichimokuB .. => True
  | .psar .. | .psarUp .. | .psarDown .. => True
  | .bbMavg .. | .bbHband .. | .bbLband .. => True
  | .kcMband .. | .kcHband .. | .kcLband .. => True
  | .dcHband .. | .dcLband .. | .dcMband .. => True
  | .cr => True
  | _ => False

/-- push `take` to the input columns -/
macro "take_simp" : tactic =>
  `(tactic| simp only [List.map_take, take_sadd, take_ssub, take_smul, take_sdiv, take_cmul, take_csub, take_cadd,
    take_cdiv, take_mulc, take_subc, take_divc, take_sabs, take_replaceInf, take_fillConst, take_fillSer, take_sdiff,
    take_rollSum, take_rollMean, take_rollMax, take_rollMin, take_rollApply, take_rollStd, take_ewm, take_sma,
    take_ema, take_cumsum, take_ffill, take_pctChange, take_getMax, take_getMin, take_trueRange, take_gtFlag,
    take_ltFlag, take_checkFillna_false, take_checkFillna_const, take_shift, take_zip2, take_zip3, take_clv,
    take_typicalPrice, take_nvi_run, take_rsi_up, take_rsi_down, take_dlr])

theorem take_off {o : Donchian F} (h : 0 ≤ o.offset) (s : Series F) (m : Nat) :
    (o.off s).take m = o.off (s.take m) := by
  unfold Donchian.off; split_ifs
  · rw [take_shiftInt _ _ h]
  · rfl

macro "ind_defs" : tactic =>
  `(tactic| simp only [RSI.run, TSI.run, ultimateOscillator, UO.run, UO.avg,
          UO.buyingPressure, stoch, Stoch.k, stochSignal, roc, ROC.run, awesomeOscillator, AO.run,
          williamsR, WR.run, StochRSI.stochrsi, StochRSI.stochrsiK, StochRSI.stochrsiD, StochRSI.ofRsi, PPO.ppo,
          PPO.ppoSignal, PPO.ppoHist, PPO.run, Aroon.aroonUp, Aroon.aroonDown, Aroon.aroonIndicator, Aroon.run,
          MACD.macd, MACD.macdSignal, MACD.macdDiff, MACD.run, smaIndicator, wma, Mass.run,
          ichimokuConversionLine, ichimokuBaseLine, ichimokuA, ichimokuB, Ichimoku.mid, Ichimoku.spanA,
          Ichimoku.vis, if_false, Bool.false_eq_true, cci, CCI.run, STC.run, STC.stochOf, BB.new, BB.bollingerMavg,
          BB.bollingerHband,
          BB.bollingerLband, BB.bollingerWband, BB.bollingerPband, BB.bollingerHbandIndicator,
          BB.bollingerLbandIndicator, Donchian.hband, Donchian.lband, Donchian.mband, Donchian.wband,
          Donchian.pband, Ulcer.drawdown, accDistIndex, ADI.run, onBalanceVolume, OBV.run, OBV.signed,
          chaikinMoneyFlow, CMF.run, FI.run, easeOfMovement, EOM.run, smaEaseOfMovement, moneyFlowIndex,
          MFI.run, MFI.flow, volumeWeightedAveragePrice, VWAP.run, dailyReturn, DR.run, dailyLogReturn,
          Keltner.mband, Keltner.hband, Keltner.lband, Keltner.wband, Keltner.pband,
          Keltner.hbandIndicator, Keltner.lbandIndicator, Keltner.runOriginal, Keltner.runAtr])

theorem nla_psar (s mx : F) (fillna : Bool) (g : PSAR F → Series F)
    (hg : ∀ (o : PSAR F) m, o.fillna = fillna → (g o).take m = g (o.take m)) :
    NoLookAhead (fun b : List (Bar F) =>
      (PSAR.new (highs b) (lows b) (closes b) .positional s mx fillna).map g) := by
  intro past future out h
  obtain ⟨o, ho, rfl⟩ := except_map_ok h
  have hpos : 0 < (closes past).length := by
    by_contra hc
    unfold PSAR.new at ho
    rw [if_pos (by omega)] at ho
    cases ho
  have hl : 0 < (closes (past ++ future)).length := by simp at hpos ⊢; omega
  obtain ⟨o', e, hfn⟩ : ∃ o', PSAR.new (highs (past ++ future)) (lows (past ++ future)) (closes (past ++ future))
      .positional s mx fillna = .ok o' ∧ o'.fillna = fillna := ⟨_, PSAR.new_eq _ _ _ s mx fillna hl, rfl⟩
  have e2 := take_psar_new _ _ _ s mx fillna past.length _ (by simp at hpos ⊢; omega) e
  simp only [← List.map_take, List.take_left] at e2
  rw [e2] at ho
  cases ho
  exact ⟨g o', by simp only [e, Except.map], hg _ _ hfn⟩

/-- C02 and the constant-fill part of C03: appending rows never changes an output row already produced.  Any
arithmetic whatsoever, all data, all parameters. -/
theorem no_lookahead (ind : Ind F) (fillna : Bool) (hp : ind.Plain) (hf : fillna = true → ¬ ind.BackFill) :
    NoLookAhead (fun b => ind.eval fillna b) := by
  cases ind
  all_goals try (exact absurd hp id)
  all_goals
    first
    | (have hf' : fillna = false := by
        cases fillna with
        | false => rfl
        | true => exact absurd trivial (hf rfl)
       subst hf')
    | skip
  all_goals try simp only [Ind.Plain] at hp
  all_goals
    try subst hp
  case psar => exact nla_psar _ _ _ _ (fun o m h => by
    simp only [PSAR.psar, PSAR.take, h, checkFillna, Bool.false_eq_true, if_false])
  case psarUp => exact nla_psar _ _ _ _ (fun o m h => by
    simp only [PSAR.psarUp, PSAR.take, h, checkFillna, Bool.false_eq_true, if_false])
  case psarDown => exact nla_psar _ _ _ _ (fun o m h => by
    simp only [PSAR.psarDown, PSAR.take, h, checkFillna, Bool.false_eq_true, if_false])
  case psarUpInd => exact nla_psar _ _ _ _ (fun o m h => by
    simp only [PSAR.psarUpIndicator, PSAR.take, take_flag])
  case psarDownInd => exact nla_psar _ _ _ _ (fun o m h => by
    simp only [PSAR.psarDownIndicator, PSAR.take, take_flag])
  case vpt sm =>
    apply nla_ok
    intro b m
    unfold volumePriceTrend VPT.run
    cases sm with
    | none => simp only [Bool.false_eq_true, if_false]; take_simp
    | some k => cases k <;> simp only [Bool.false_eq_true, if_false] <;> take_simp
  case aroonUp w | aroonDown w | aroonInd w =>
    have hw : ∀ p : Prop, (w = 0 ∧ p) = False := fun p => eq_false (by rintro ⟨h1, -⟩; omega)
    simp only [Ind.eval, Aroon.new, hw, if_false, Except.map]
    exact nla_ok (fun b m => by ind_defs; take_simp)
  case kcMband w wa o k | kcHband w wa o k | kcLband w wa o k | kcWband w wa o k | kcPband w wa o k
     | kcHi w wa o k | kcLi w wa o k =>
    cases o
    · simp only [Ind.eval, Keltner.new_atr_eq]
      by_cases h1 : w < 1
      · simp only [h1, if_true, Except.map]; exact nla_err
      · simp only [h1, if_false, map_guard, List.length_map]
        exact nla_guard (p := fun n => n < max wa 1) (fun n m h1 h2 => by omega)
          (nla_ok (fun b m => by ind_defs; take_simp; try rw [take_atr_run _ _ _ _ _ (by simp)]))
    · simp only [Ind.eval, Keltner.new_original_eq, map_guard]
      exact nla_ite nla_err (nla_ok (fun b m => by ind_defs; take_simp))
  case dcHband w off | dcLband w off | dcMband w off | dcWband w off | dcPband w off =>
    simp only [Ind.eval, Donchian.new_eq, map_guard]
    refine nla_ite nla_err (nla_ok (fun b m => ?_))
    ind_defs
    rw [take_off (by simpa using hp)]
    simp only [Donchian.off]
    take_simp
  case atr w =>
    simp only [Ind.eval, averageTrueRange, List.length_map]
    exact nla_guard (p := fun n => n < max w 1) (fun n m h1 h2 => by omega)
          (nla_ok (fun b m => by take_simp; rw [take_atr_run _ _ _ _ _ (by simp)]))
  case nvi =>
    simp only [Ind.eval, negativeVolumeIndex, List.length_map]
    exact nla_guard (p := fun n => n = 0) (fun n m h1 h2 => by omega) (nla_ok (fun b m => by take_simp))
  case cr =>
    simp only [Ind.eval, cumulativeReturn, List.length_map]
    intro past future out h
    simp only at h
    split_ifs at h with h3
    have h5 : ¬ (past ++ future).length = 0 := by simp at h3 ⊢; simp [h3]
    simp only [if_neg h5]
    refine ⟨_, rfl, ?_⟩
    cases h
    simp only [CR.run]
    take_simp
    have e : ix (closes (past ++ future)) 0 = ix (closes past) 0 := by
      unfold closes
      rw [List.map_append, ix_append_left (by simp; omega)]
    rw [← List.map_take, List.take_left, e]
  all_goals
    simp only [Ind.eval, rsi, tsi_eq, StochRSI.new_eq, PPO.new_eq, MACD.new_eq, emaIndicator_eq, trix_eq,
      massIndex_eq, stc_eq, Donchian.new_eq, ulcerIndex_eq, forceIndex_eq, map_guard, List.length_map]
  all_goals
    first
    | exact nla_ok (fun b m => by ind_defs; take_simp)
    | exact nla_ite nla_err (nla_ok (fun b m => by ind_defs; take_simp))
    | exact nla_ok (fun b m => by take_simp)
    | exact nla_ite nla_err (nla_ok (fun b m => by take_simp))

section examples
attribute [local instance] toyFn

/-- A non-trivial instance: the RSI of three rows is defined and stays what it is when two rows are appended. -/
example : (Ind.rsi 2 : Ind (Val ℚ)).Plain ∧
    (Ind.rsi 2 : Ind (Val ℚ)).eval false [qb 1, qb 3, qb 2] = .ok [.nan, .fin 100, .fin 50] ∧
    (Ind.rsi 2 : Ind (Val ℚ)).eval false ([qb 1, qb 3, qb 2] ++ [qb 9, qb 4]) =
      .ok [.nan, .fin 100, .fin 50, .fin (375/4), .fin (125/3)] := by
  refine ⟨trivial, ?_, ?_⟩ <;> decide +kernel

/-- Witness that a negative Donchian offset must be excluded: it moves later rows up. -/
theorem donchian_negative_offset_leaks :
    ¬ NoLookAhead (fun b => (Ind.dcHband 1 (-1) : Ind (Val ℚ)).eval false b) :=
  not_nla [qb 1] [qb 5] (by decide +kernel)

/-- Witness that Aroon with window 0 must be excluded: it raises once there is an observation. -/
theorem aroon_window_zero_raises :
    ¬ NoLookAhead (fun b => (Ind.aroonUp 0 : Ind (Val ℚ)).eval false b) :=
  not_nla [] [qb 5] (by decide +kernel)

end examples

end TA
