import Verif.Model.Catalogue

/-! # The names of the returned Series

The `name=` of the `pd.Series(...)` each output method returns: a fixed text and some of the constructor's windows. -/

namespace TA
variable {F : Type}

/-- The fixed text, up to the first window. -/
def Ind.stem : Ind F → String
  -- ta/momentum.py:60, 119, 214, 266, 279, 359, 405, 473, 546, 600, 609, 619
  | .rsi _ => "rsi" | .tsi .. => "tsi" | .uo .. => "uo" | .stoch _ => "stoch_k" | .stochSignal .. => "stoch_k_signal"
  | .kama .. => "kama" | .roc _ => "roc" | .ao .. => "ao" | .williamsR _ => "wr"
  | .stochrsi .. => "stochrsi" | .stochrsiK .. => "stochrsi_k" | .stochrsiD .. => "stochrsi_d"
  -- ta/momentum.py:667, 679, 691, 741, 753, 765
  | .ppo .. => "PPO_" | .ppoSignal .. => "PPO_sign_" | .ppoHist .. => "PPO_hist_"
  | .pvo .. => "PVO_" | .pvoSignal .. => "PVO_sign_" | .pvoHist .. => "PVO_hist_"
  -- ta/trend.py:62, 71, 81, 130, 143, 154, 179, 203, 246, 285, 336
  | .aroonUp _ => "aroon_up_" | .aroonDown _ => "aroon_down_" | .aroonInd _ => "aroon_ind_"
  | .macd .. => "MACD_" | .macdSignal .. => "MACD_sign_" | .macdDiff .. => "MACD_diff_"
  | .ema _ => "ema_" | .sma _ => "sma_" | .wma _ => "wma_" | .trix _ => "trix_" | .massIndex .. => "mass_index_"
  -- ta/trend.py:394, 404, 419, 437, 550, 561, 573, 612, 675
  | .ichimokuConv _ => "ichimoku_conv_" | .ichimokuBase _ => "ichimoku_base_" | .ichimokuA .. => "ichimoku_a_"
  | .ichimokuB .. => "ichimoku_b_" | .kst _ => "kst" | .kstSig .. => "kst_sig" | .kstDiff .. => "kst_diff"
  | .dpo _ => "dpo_" | .cci .. => "cci"
  -- ta/trend.py:818, 839, 860, 912, 921, 931, 1048, 1057, 1066, 1078, 1090, 1156
  | .adx _ => "adx" | .adxPos _ => "adx_pos" | .adxNeg _ => "adx_neg"
  | .vortexPos _ => "vip" | .vortexNeg _ => "vin" | .vortexDiff _ => "vid"
  | .psar .. => "psar" | .psarUp .. => "psarup" | .psarDown .. => "psardown" | .psarUpInd .. => "psariup"
  | .psarDownInd .. => "psaridown" | .stc .. => "stc"
  -- ta/volatility.py:64, 108, 117, 126, 138, 152, 166, 180
  | .atr _ => "atr" | .bbMavg .. => "mavg" | .bbHband .. => "hband" | .bbLband .. => "lband" | .bbWband .. => "bbiwband"
  | .bbPband .. => "bbipband" | .bbHi .. => "bbihband" | .bbLi .. => "bbilband"
  -- ta/volatility.py:265, 274, 283, 293, 303, 317, 331
  | .kcMband .. => "mavg" | .kcHband .. => "kc_hband" | .kcLband .. => "kc_lband" | .kcWband .. => "bbiwband"
  | .kcPband .. => "bbipband" | .kcHi .. => "dcihband" | .kcLi .. => "dcilband"
  -- ta/volatility.py:382, 393, 405, 418, 430, 469
  | .dcHband .. => "dchband" | .dcLband .. => "dclband" | .dcMband .. => "dcmband" | .dcWband .. => "dcwband"
  | .dcPband .. => "dcpband" | .ulcer _ => "ui"
  -- ta/volume.py:62, 96, 151, 194, 243, 254, 306, 347, 421, 489
  | .adi => "adi" | .obv => "obv" | .cmf _ => "cmf" | .fi _ => "fi_" | .eom => "eom_" | .smaEom _ => "sma_eom_"
  | .vpt _ => "vpt" | .nvi => "nvi" | .mfi _ => "mfi_" | .vwap _ => "vwap_"
  -- ta/others.py:38, 67, 94
  | .dr => "d_ret" | .dlr => "d_logret" | .cr => "cum_ret"

/-- The windows in the name (same lines).  `other`: the window of the constructor that the name shows although the output does not
depend on it (`window2` for the conversion line, `window1` for the base line and span B, `window` for the ease of movement). -/
def Ind.shown (x : Ind F) (other : Nat) : List Nat :=
  match x with
  | .ppo slow fast _ | .ppoSignal slow fast _ | .ppoHist slow fast _ | .pvo slow fast _ | .pvoSignal slow fast _ | .pvoHist slow fast _
  | .macd slow fast _ | .macdSignal slow fast _ | .macdDiff slow fast _ => [fast, slow]
  | .aroonUp w | .aroonDown w | .aroonInd w | .ema w | .sma w | .wma w | .trix w | .dpo w | .fi w | .smaEom w | .mfi w | .vwap w => [w]
  | .massIndex fast slow => [fast, slow]
  | .ichimokuConv w1 => [w1, other]
  | .ichimokuBase w2 => [other, w2]
  | .ichimokuA w1 w2 _ => [w1, w2]
  | .ichimokuB w2 _ _ => [other, w2]
  | .eom => [other]
  | _ => []

/-- windows joined by underscores -/
def joinNats : List Nat → String
  | [] => ""
  | [n] => toString n
  | n :: l => toString n ++ "_" ++ joinNats l

/-- `Series.name` of the returned Series. -/
def Ind.name (x : Ind F) (other : Nat := 0) : String := x.stem ++ joinNats (x.shown other)

end TA
