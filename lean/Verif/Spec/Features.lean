import Verif.Model.Catalogue
import Verif.Model.Wrapper

/-! # Specification of the wrapper: which columns, from which indicator, and what is read -/

set_option linter.unusedSectionVars false

namespace TA
variable {F : Type} [FltFn F]

/-! ## the documented features -/

/-- columns of `add_volume_ta`: name (without prefix) and indicator with its parameters -/
def volumeF (vectorized : Bool) : List (String × Ind F) :=
  [("volume_adi", .adi), ("volume_obv", .obv), ("volume_cmf", .cmf 20), ("volume_fi", .fi 13), ("volume_em", .eom),
   ("volume_sma_em", .smaEom 14), ("volume_vpt", .vpt none), ("volume_vwap", .vwap 14)] ++
  (if vectorized then [] else [("volume_mfi", .mfi 14), ("volume_nvi", .nvi)])

/-- columns of `add_volatility_ta` -/
def volatilityF (vectorized : Bool) : List (String × Ind F) :=
  [("volatility_bbm", .bbMavg 20 (lit 2)), ("volatility_bbh", .bbHband 20 (lit 2)), ("volatility_bbl", .bbLband 20 (lit 2)),
   ("volatility_bbw", .bbWband 20 (lit 2)), ("volatility_bbp", .bbPband 20 (lit 2)), ("volatility_bbhi", .bbHi 20 (lit 2)),
   ("volatility_bbli", .bbLi 20 (lit 2)),
   ("volatility_kcc", .kcMband 10 10 true (lit 2)), ("volatility_kch", .kcHband 10 10 true (lit 2)),
   ("volatility_kcl", .kcLband 10 10 true (lit 2)), ("volatility_kcw", .kcWband 10 10 true (lit 2)),
   ("volatility_kcp", .kcPband 10 10 true (lit 2)), ("volatility_kchi", .kcHi 10 10 true (lit 2)),
   ("volatility_kcli", .kcLi 10 10 true (lit 2)),
   ("volatility_dcl", .dcLband 20 0), ("volatility_dch", .dcHband 20 0), ("volatility_dcm", .dcMband 20 0),
   ("volatility_dcw", .dcWband 20 0), ("volatility_dcp", .dcPband 20 0)] ++
  (if vectorized then [] else [("volatility_atr", .atr 10), ("volatility_ui", .ulcer 14)])

/-- columns of `add_trend_ta` -/
def trendF (vectorized : Bool) : List (String × Ind F) :=
  [("trend_macd", .macd 26 12 9), ("trend_macd_signal", .macdSignal 26 12 9), ("trend_macd_diff", .macdDiff 26 12 9),
   ("trend_sma_fast", .sma 12), ("trend_sma_slow", .sma 26), ("trend_ema_fast", .ema 12), ("trend_ema_slow", .ema 26),
   ("trend_vortex_ind_pos", .vortexPos 14), ("trend_vortex_ind_neg", .vortexNeg 14),
   ("trend_vortex_ind_diff", .vortexDiff 14), ("trend_trix", .trix 15), ("trend_mass_index", .massIndex 9 25),
   ("trend_dpo", .dpo 20), ("trend_kst", .kst {}), ("trend_kst_sig", .kstSig {} 9), ("trend_kst_diff", .kstDiff {} 9),
   ("trend_ichimoku_conv", .ichimokuConv 9), ("trend_ichimoku_base", .ichimokuBase 26),
   ("trend_ichimoku_a", .ichimokuA 9 26 false), ("trend_ichimoku_b", .ichimokuB 26 52 false),
   ("trend_stc", .stc 50 23 10 3 3)] ++
  (if vectorized then [] else
  [("trend_adx", .adx 14), ("trend_adx_pos", .adxPos 14), ("trend_adx_neg", .adxNeg 14), ("trend_cci", .cci 20 (lit (3/200))),
   ("trend_visual_ichimoku_a", .ichimokuA 9 26 true), ("trend_visual_ichimoku_b", .ichimokuB 26 52 true),
   ("trend_aroon_up", .aroonUp 25), ("trend_aroon_down", .aroonDown 25), ("trend_aroon_ind", .aroonInd 25),
   ("trend_psar_up", .psarUp (lit (1/50)) (lit (1/5))), ("trend_psar_down", .psarDown (lit (1/50)) (lit (1/5))),
   ("trend_psar_up_indicator", .psarUpInd (lit (1/50)) (lit (1/5))),
   ("trend_psar_down_indicator", .psarDownInd (lit (1/50)) (lit (1/5)))])

/-- columns of `add_momentum_ta` -/
def momentumF (vectorized : Bool) : List (String × Ind F) :=
  [("momentum_rsi", .rsi 14), ("momentum_stoch_rsi", .stochrsi 14 3 3), ("momentum_stoch_rsi_k", .stochrsiK 14 3 3),
   ("momentum_stoch_rsi_d", .stochrsiD 14 3 3), ("momentum_tsi", .tsi 25 13),
   ("momentum_uo", .uo 7 14 28 (lit 4) (lit 2) (lit 1)), ("momentum_stoch", .stoch 14),
   ("momentum_stoch_signal", .stochSignal 14 3), ("momentum_wr", .williamsR 14), ("momentum_ao", .ao 5 34),
   ("momentum_roc", .roc 12), ("momentum_ppo", .ppo 26 12 9), ("momentum_ppo_signal", .ppoSignal 26 12 9),
   ("momentum_ppo_hist", .ppoHist 26 12 9), ("momentum_pvo", .pvo 26 12 9), ("momentum_pvo_signal", .pvoSignal 26 12 9),
   ("momentum_pvo_hist", .pvoHist 26 12 9)] ++
  (if vectorized then [] else [("momentum_kama", .kama 10 2 30)])

/-- columns of `add_others_ta` -/
def othersF : List (String × Ind F) := [("others_dr", .dr), ("others_dlr", .dlr), ("others_cr", .cr)]

/-- columns of `add_all_ta_features` -/
def allF (vectorized : Bool) : List (String × Ind F) :=
  volumeF vectorized ++ volatilityF vectorized ++ trendF vectorized ++ momentumF vectorized ++ othersF

/-- An output on rows with a given index. Only the PSAR looks at the index (C47). -/
def Ind.evalAt (idx : Idx) (fillna : Bool) (b : List (Bar F)) : Ind F → Except PyErr (Series F)
  | .psar st mx => (PSAR.new (highs b) (lows b) (closes b) idx st mx fillna).map (·.psar)
  | .psarUp st mx => (PSAR.new (highs b) (lows b) (closes b) idx st mx fillna).map (·.psarUp)
  | .psarDown st mx => (PSAR.new (highs b) (lows b) (closes b) idx st mx fillna).map (·.psarDown)
  | .psarUpInd st mx => (PSAR.new (highs b) (lows b) (closes b) idx st mx fillna).map (·.psarUpIndicator)
  | .psarDownInd st mx => (PSAR.new (highs b) (lows b) (closes b) idx st mx fillna).map (·.psarDownIndicator)
  | x => x.eval fillna b

/-! ## the wrapper functions -/

/-- the six functions of the wrapper -/
inductive Fn where
  | volume | volatility | trend | momentum | others | all

/-- the call with its arguments -/
def Fn.call (df : Frame F) (open_ high low close volume : String) (fillna : Bool) (pfx : String) (vec : Bool) : Fn → Outcome F
  | .volume => addVolumeTa df high low close volume fillna pfx vec
  | .volatility => addVolatilityTa df high low close fillna pfx vec
  | .trend => addTrendTa df high low close fillna pfx vec
  | .momentum => addMomentumTa df high low close volume fillna pfx vec
  | .others => addOthersTa df close fillna pfx
  | .all => addAllTaFeatures df open_ high low close volume fillna pfx vec

/-- the documented columns of the function -/
def Fn.features (vec : Bool) : Fn → List (String × Ind F)
  | .volume => volumeF vec
  | .volatility => volatilityF vec
  | .trend => trendF vec
  | .momentum => momentumF vec
  | .others => othersF
  | .all => allF vec

/-- the input columns of the function: name, and the field of the bar it is read into -/
def Fn.inputs (high low close volume : String) : Fn → List (String × (Bar F → F))
  | .volume | .momentum | .all => [(high, (·.high)), (low, (·.low)), (close, (·.close)), (volume, (·.volume))]
  | .volatility | .trend => [(high, (·.high)), (low, (·.low)), (close, (·.close))]
  | .others => [(close, (·.close))]

/-- the frame holds the bars `b` in the input columns of the function -/
def Fn.Reads (fn : Fn) (df : Frame F) (high low close volume : String) (b : List (Bar F)) : Prop :=
  ∀ p ∈ fn.inputs (F := F) high low close volume, df.get p.1 = .ok (b.map p.2)

/-- no generated name is the name of an input column -/
def Fn.NoClash (F : Type) [FltFn F] (fn : Fn) (high low close volume pfx : String) (vec : Bool) : Prop :=
  ∀ p ∈ fn.features (F := F) vec, ∀ m ∈ fn.inputs (F := F) high low close volume, m.1 ≠ pfx ++ p.1

end TA
