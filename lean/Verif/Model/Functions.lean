import Verif.Model.Call

/-! # Signatures of the indicator classes and the module level functions

The tables `Cls.sig`, `PyFn.sig`, `PyFn.cls`, `PyFn.passes` and `PyFn.meth` are written by `tools/functions.py` from the text of
/repo/ta; `Meth.run` connects each public method to the model of its class. -/

namespace TA

/-- parameter names -/
inductive Param
  | close | window | fillna | window_slow | window_fast | high | low | window1 | window2 | window3 | weight1 | weight2
  | weight3 | smooth_window | pow1 | pow2 | lbp | smooth1 | smooth2 | window_sign | volume | visual | roc1 | roc2
  | roc3 | roc4 | window4 | nsig | constant | step | max_step | cycle | window_dev | window_atr | original_version
  | multiplier | offset | smoothing_factor | dropnans
  deriving DecidableEq

/-- indicator classes -/
inductive Cls
  | RSIIndicator | TSIIndicator | UltimateOscillator | StochasticOscillator | KAMAIndicator | ROCIndicator
  | AwesomeOscillatorIndicator | WilliamsRIndicator | StochRSIIndicator | PercentagePriceOscillator
  | PercentageVolumeOscillator | AroonIndicator | MACD | EMAIndicator | SMAIndicator | WMAIndicator | TRIXIndicator
  | MassIndex | IchimokuIndicator | KSTIndicator | DPOIndicator | CCIIndicator | ADXIndicator | VortexIndicator
  | PSARIndicator | STCIndicator | AverageTrueRange | BollingerBands | KeltnerChannel | DonchianChannel | UlcerIndex
  | AccDistIndexIndicator | OnBalanceVolumeIndicator | ChaikinMoneyFlowIndicator | ForceIndexIndicator
  | EaseOfMovementIndicator | VolumePriceTrendIndicator | NegativeVolumeIndexIndicator | MFIIndicator
  | VolumeWeightedAveragePrice | DailyReturnIndicator | DailyLogReturnIndicator | CumulativeReturnIndicator
  deriving DecidableEq

/-- public methods -/
inductive Meth
  | rsi | tsi | ultimate_oscillator | stoch | stoch_signal | kama | roc | awesome_oscillator | williams_r | stochrsi
  | stochrsi_k | stochrsi_d | ppo | ppo_signal | ppo_hist | pvo | pvo_signal | pvo_hist | aroon_up | aroon_down
  | aroon_indicator | macd | macd_signal | macd_diff | ema_indicator | sma_indicator | wma | trix | mass_index
  | ichimoku_conversion_line | ichimoku_base_line | ichimoku_a | ichimoku_b | kst | kst_sig | kst_diff | dpo | cci
  | adx | adx_pos | adx_neg | vortex_indicator_pos | vortex_indicator_neg | vortex_indicator_diff | psar | psar_up
  | psar_down | psar_up_indicator | psar_down_indicator | stc | average_true_range | bollinger_mavg | bollinger_hband
  | bollinger_lband | bollinger_wband | bollinger_pband | bollinger_hband_indicator | bollinger_lband_indicator
  | keltner_channel_mband | keltner_channel_hband | keltner_channel_lband | keltner_channel_wband
  | keltner_channel_pband | keltner_channel_hband_indicator | keltner_channel_lband_indicator | donchian_channel_hband
  | donchian_channel_lband | donchian_channel_mband | donchian_channel_wband | donchian_channel_pband | ulcer_index
  | acc_dist_index | on_balance_volume | chaikin_money_flow | force_index | ease_of_movement | sma_ease_of_movement
  | volume_price_trend | negative_volume_index | money_flow_index | volume_weighted_average_price | daily_return
  | daily_log_return | cumulative_return
  deriving DecidableEq

/-- module level functions -/
inductive PyFn
  | rsi | tsi | ultimate_oscillator | stoch | stoch_signal | williams_r | awesome_oscillator | kama | roc | stochrsi
  | stochrsi_k | stochrsi_d | ppo | ppo_signal | ppo_hist | pvo | pvo_signal | pvo_hist | ema_indicator
  | sma_indicator | wma_indicator | macd | macd_signal | macd_diff | adx | adx_pos | adx_neg | vortex_indicator_pos
  | vortex_indicator_neg | trix | mass_index | cci | dpo | kst | stc | kst_sig | ichimoku_conversion_line
  | ichimoku_base_line | ichimoku_a | ichimoku_b | aroon_up | aroon_down | psar_up | psar_down | psar_up_indicator
  | psar_down_indicator | average_true_range | bollinger_mavg | bollinger_hband | bollinger_lband | bollinger_wband
  | bollinger_pband | bollinger_hband_indicator | bollinger_lband_indicator | keltner_channel_mband
  | keltner_channel_hband | keltner_channel_lband | keltner_channel_wband | keltner_channel_pband
  | keltner_channel_hband_indicator | keltner_channel_lband_indicator | donchian_channel_hband
  | donchian_channel_lband | donchian_channel_mband | donchian_channel_wband | donchian_channel_pband | ulcer_index
  | acc_dist_index | on_balance_volume | chaikin_money_flow | force_index | ease_of_movement | sma_ease_of_movement
  | volume_price_trend | negative_volume_index | money_flow_index | volume_weighted_average_price | daily_return
  | daily_log_return | cumulative_return
  deriving DecidableEq

/-- constructor signatures (without `self`) -/
def Cls.sig : Cls → Sig Param
  -- ta/momentum.py:30
  | .RSIIndicator => [(.close, none), (.window, some (.int 14)), (.fillna, some (.bool false))]
  -- ta/momentum.py:77
  | .TSIIndicator => [(.close, none), (.window_slow, some (.int 25)), (.window_fast, some (.int 13)),
    (.fillna, some (.bool false))]
  -- ta/momentum.py:151
  | .UltimateOscillator => [(.high, none), (.low, none), (.close, none), (.window1, some (.int 7)),
    (.window2, some (.int 14)), (.window3, some (.int 28)), (.weight1, some (.num 4)), (.weight2, some (.num 2)),
    (.weight3, some (.num 1)), (.fillna, some (.bool false))]
  -- ta/momentum.py:236
  | .StochasticOscillator => [(.high, none), (.low, none), (.close, none), (.window, some (.int 14)),
    (.smooth_window, some (.int 3)), (.fillna, some (.bool false))]
  -- ta/momentum.py:302
  | .KAMAIndicator => [(.close, none), (.window, some (.int 10)), (.pow1, some (.int 2)), (.pow2, some (.int 30)),
    (.fillna, some (.bool false))]
  -- ta/momentum.py:386
  | .ROCIndicator => [(.close, none), (.window, some (.int 12)), (.fillna, some (.bool false))]
  -- ta/momentum.py:442
  | .AwesomeOscillatorIndicator => [(.high, none), (.low, none), (.window1, some (.int 5)),
    (.window2, some (.int 34)), (.fillna, some (.bool false))]
  -- ta/momentum.py:514
  | .WilliamsRIndicator => [(.high, none), (.low, none), (.close, none), (.lbp, some (.int 14)),
    (.fillna, some (.bool false))]
  -- ta/momentum.py:568
  | .StochRSIIndicator => [(.close, none), (.window, some (.int 14)), (.smooth1, some (.int 3)),
    (.smooth2, some (.int 3)), (.fillna, some (.bool false))]
  -- ta/momentum.py:637
  | .PercentagePriceOscillator => [(.close, none), (.window_slow, some (.int 26)), (.window_fast, some (.int 12)),
    (.window_sign, some (.int 9)), (.fillna, some (.bool false))]
  -- ta/momentum.py:711
  | .PercentageVolumeOscillator => [(.volume, none), (.window_slow, some (.int 26)), (.window_fast, some (.int 12)),
    (.window_sign, some (.int 9)), (.fillna, some (.bool false))]
  -- ta/trend.py:32
  | .AroonIndicator => [(.high, none), (.low, none), (.window, some (.int 25)), (.fillna, some (.bool false))]
  -- ta/trend.py:100
  | .MACD => [(.close, none), (.window_slow, some (.int 26)), (.window_fast, some (.int 12)),
    (.window_sign, some (.int 9)), (.fillna, some (.bool false))]
  -- ta/trend.py:167
  | .EMAIndicator => [(.close, none), (.window, some (.int 14)), (.fillna, some (.bool false))]
  -- ta/trend.py:191
  | .SMAIndicator => [(.close, none), (.window, none), (.fillna, some (.bool false))]
  -- ta/trend.py:215
  | .WMAIndicator => [(.close, none), (.window, some (.int 9)), (.fillna, some (.bool false))]
  -- ta/trend.py:263
  | .TRIXIndicator => [(.close, none), (.window, some (.int 15)), (.fillna, some (.bool false))]
  -- ta/trend.py:305
  | .MassIndex => [(.high, none), (.low, none), (.window_fast, some (.int 9)), (.window_slow, some (.int 25)),
    (.fillna, some (.bool false))]
  -- ta/trend.py:355
  | .IchimokuIndicator => [(.high, none), (.low, none), (.window1, some (.int 9)), (.window2, some (.int 26)),
    (.window3, some (.int 52)), (.visual, some (.bool false)), (.fillna, some (.bool false))]
  -- ta/trend.py:464
  | .KSTIndicator => [(.close, none), (.roc1, some (.int 10)), (.roc2, some (.int 15)), (.roc3, some (.int 20)),
    (.roc4, some (.int 30)), (.window1, some (.int 10)), (.window2, some (.int 10)), (.window3, some (.int 10)),
    (.window4, some (.int 15)), (.nsig, some (.int 9)), (.fillna, some (.bool false))]
  -- ta/trend.py:590
  | .DPOIndicator => [(.close, none), (.window, some (.int 20)), (.fillna, some (.bool false))]
  -- ta/trend.py:635
  | .CCIIndicator => [(.high, none), (.low, none), (.close, none), (.window, some (.int 20)),
    (.constant, some (.num (3/200))), (.fillna, some (.bool false))]
  -- ta/trend.py:703
  | .ADXIndicator => [(.high, none), (.low, none), (.close, none), (.window, some (.int 14)),
    (.fillna, some (.bool false))]
  -- ta/trend.py:880
  | .VortexIndicator => [(.high, none), (.low, none), (.close, none), (.window, some (.int 14)),
    (.fillna, some (.bool false))]
  -- ta/trend.py:954
  | .PSARIndicator => [(.high, none), (.low, none), (.close, none), (.step, some (.num (1/50))),
    (.max_step, some (.num (1/5))), (.fillna, some (.bool false))]
  -- ta/trend.py:1115
  | .STCIndicator => [(.close, none), (.window_slow, some (.int 50)), (.window_fast, some (.int 23)),
    (.cycle, some (.int 10)), (.smooth1, some (.int 3)), (.smooth2, some (.int 3)), (.fillna, some (.bool false))]
  -- ta/volatility.py:31
  | .AverageTrueRange => [(.high, none), (.low, none), (.close, none), (.window, some (.int 14)),
    (.fillna, some (.bool false))]
  -- ta/volatility.py:79
  | .BollingerBands => [(.close, none), (.window, some (.int 20)), (.window_dev, some (.int 2)),
    (.fillna, some (.bool false))]
  -- ta/volatility.py:205
  | .KeltnerChannel => [(.high, none), (.low, none), (.close, none), (.window, some (.int 20)),
    (.window_atr, some (.int 10)), (.fillna, some (.bool false)), (.original_version, some (.bool true)),
    (.multiplier, some (.int 2))]
  -- ta/volatility.py:347
  | .DonchianChannel => [(.high, none), (.low, none), (.close, none), (.window, some (.int 20)),
    (.offset, some (.int 0)), (.fillna, some (.bool false))]
  -- ta/volatility.py:444
  | .UlcerIndex => [(.close, none), (.window, some (.int 14)), (.fillna, some (.bool false))]
  -- ta/volume.py:32
  | .AccDistIndexIndicator => [(.high, none), (.low, none), (.close, none), (.volume, none),
    (.fillna, some (.bool false))]
  -- ta/volume.py:79
  | .OnBalanceVolumeIndicator => [(.close, none), (.volume, none), (.fillna, some (.bool false))]
  -- ta/volume.py:115
  | .ChaikinMoneyFlowIndicator => [(.high, none), (.low, none), (.close, none), (.volume, none),
    (.window, some (.int 20)), (.fillna, some (.bool false))]
  -- ta/volume.py:170
  | .ForceIndexIndicator => [(.close, none), (.volume, none), (.window, some (.int 13)),
    (.fillna, some (.bool false))]
  -- ta/volume.py:213
  | .EaseOfMovementIndicator => [(.high, none), (.low, none), (.volume, none), (.window, some (.int 14)),
    (.fillna, some (.bool false))]
  -- ta/volume.py:274
  | .VolumePriceTrendIndicator => [(.close, none), (.volume, none), (.fillna, some (.bool false)),
    (.smoothing_factor, some (.none)), (.dropnans, some (.bool false))]
  -- ta/volume.py:320
  | .NegativeVolumeIndexIndicator => [(.close, none), (.volume, none), (.fillna, some (.bool false))]
  -- ta/volume.py:370
  | .MFIIndicator => [(.high, none), (.low, none), (.close, none), (.volume, none), (.window, some (.int 14)),
    (.fillna, some (.bool false))]
  -- ta/volume.py:447
  | .VolumeWeightedAveragePrice => [(.high, none), (.low, none), (.close, none), (.volume, none),
    (.window, some (.int 14)), (.fillna, some (.bool false))]
  -- ta/others.py:22
  | .DailyReturnIndicator => [(.close, none), (.fillna, some (.bool false))]
  -- ta/others.py:51
  | .DailyLogReturnIndicator => [(.close, none), (.fillna, some (.bool false))]
  -- ta/others.py:78
  | .CumulativeReturnIndicator => [(.close, none), (.fillna, some (.bool false))]

/-- the class a method belongs to -/
def Meth.cls : Meth → Cls
  | .rsi => .RSIIndicator
  | .tsi => .TSIIndicator
  | .ultimate_oscillator => .UltimateOscillator
  | .stoch => .StochasticOscillator
  | .stoch_signal => .StochasticOscillator
  | .kama => .KAMAIndicator
  | .roc => .ROCIndicator
  | .awesome_oscillator => .AwesomeOscillatorIndicator
  | .williams_r => .WilliamsRIndicator
  | .stochrsi => .StochRSIIndicator
  | .stochrsi_k => .StochRSIIndicator
  | .stochrsi_d => .StochRSIIndicator
  | .ppo => .PercentagePriceOscillator
  | .ppo_signal => .PercentagePriceOscillator
  | .ppo_hist => .PercentagePriceOscillator
  | .pvo => .PercentageVolumeOscillator
  | .pvo_signal => .PercentageVolumeOscillator
  | .pvo_hist => .PercentageVolumeOscillator
  | .aroon_up => .AroonIndicator
  | .aroon_down => .AroonIndicator
  | .aroon_indicator => .AroonIndicator
  | .macd => .MACD
  | .macd_signal => .MACD
  | .macd_diff => .MACD
  | .ema_indicator => .EMAIndicator
  | .sma_indicator => .SMAIndicator
  | .wma => .WMAIndicator
  | .trix => .TRIXIndicator
  | .mass_index => .MassIndex
  | .ichimoku_conversion_line => .IchimokuIndicator
  | .ichimoku_base_line => .IchimokuIndicator
  | .ichimoku_a => .IchimokuIndicator
  | .ichimoku_b => .IchimokuIndicator
  | .kst => .KSTIndicator
  | .kst_sig => .KSTIndicator
  | .kst_diff => .KSTIndicator
  | .dpo => .DPOIndicator
  | .cci => .CCIIndicator
  | .adx => .ADXIndicator
  | .adx_pos => .ADXIndicator
  | .adx_neg => .ADXIndicator
  | .vortex_indicator_pos => .VortexIndicator
  | .vortex_indicator_neg => .VortexIndicator
  | .vortex_indicator_diff => .VortexIndicator
  | .psar => .PSARIndicator
  | .psar_up => .PSARIndicator
  | .psar_down => .PSARIndicator
  | .psar_up_indicator => .PSARIndicator
  | .psar_down_indicator => .PSARIndicator
  | .stc => .STCIndicator
  | .average_true_range => .AverageTrueRange
  | .bollinger_mavg => .BollingerBands
  | .bollinger_hband => .BollingerBands
  | .bollinger_lband => .BollingerBands
  | .bollinger_wband => .BollingerBands
  | .bollinger_pband => .BollingerBands
  | .bollinger_hband_indicator => .BollingerBands
  | .bollinger_lband_indicator => .BollingerBands
  | .keltner_channel_mband => .KeltnerChannel
  | .keltner_channel_hband => .KeltnerChannel
  | .keltner_channel_lband => .KeltnerChannel
  | .keltner_channel_wband => .KeltnerChannel
  | .keltner_channel_pband => .KeltnerChannel
  | .keltner_channel_hband_indicator => .KeltnerChannel
  | .keltner_channel_lband_indicator => .KeltnerChannel
  | .donchian_channel_hband => .DonchianChannel
  | .donchian_channel_lband => .DonchianChannel
  | .donchian_channel_mband => .DonchianChannel
  | .donchian_channel_wband => .DonchianChannel
  | .donchian_channel_pband => .DonchianChannel
  | .ulcer_index => .UlcerIndex
  | .acc_dist_index => .AccDistIndexIndicator
  | .on_balance_volume => .OnBalanceVolumeIndicator
  | .chaikin_money_flow => .ChaikinMoneyFlowIndicator
  | .force_index => .ForceIndexIndicator
  | .ease_of_movement => .EaseOfMovementIndicator
  | .sma_ease_of_movement => .EaseOfMovementIndicator
  | .volume_price_trend => .VolumePriceTrendIndicator
  | .negative_volume_index => .NegativeVolumeIndexIndicator
  | .money_flow_index => .MFIIndicator
  | .volume_weighted_average_price => .VolumeWeightedAveragePrice
  | .daily_return => .DailyReturnIndicator
  | .daily_log_return => .DailyLogReturnIndicator
  | .cumulative_return => .CumulativeReturnIndicator

/-- function signatures -/
def PyFn.sig : PyFn → Sig Param
  -- ta/momentum.py:769-787
  | .rsi => [(.close, none), (.window, some (.int 14)), (.fillna, some (.bool false))]
  -- ta/momentum.py:790-808
  | .tsi => [(.close, none), (.window_slow, some (.int 25)), (.window_fast, some (.int 13)),
    (.fillna, some (.bool false))]
  -- ta/momentum.py:811-865
  | .ultimate_oscillator => [(.high, none), (.low, none), (.close, none), (.window1, some (.int 7)),
    (.window2, some (.int 14)), (.window3, some (.int 28)), (.weight1, some (.num 4)), (.weight2, some (.num 2)),
    (.weight3, some (.num 1)), (.fillna, some (.bool false))]
  -- ta/momentum.py:868-897
  | .stoch => [(.high, none), (.low, none), (.close, none), (.window, some (.int 14)),
    (.smooth_window, some (.int 3)), (.fillna, some (.bool false))]
  -- ta/momentum.py:900-927
  | .stoch_signal => [(.high, none), (.low, none), (.close, none), (.window, some (.int 14)),
    (.smooth_window, some (.int 3)), (.fillna, some (.bool false))]
  -- ta/momentum.py:930-973
  | .williams_r => [(.high, none), (.low, none), (.close, none), (.lbp, some (.int 14)),
    (.fillna, some (.bool false))]
  -- ta/momentum.py:976-1014
  | .awesome_oscillator => [(.high, none), (.low, none), (.window1, some (.int 5)), (.window2, some (.int 34)),
    (.fillna, some (.bool false))]
  -- ta/momentum.py:1017-1041
  | .kama => [(.close, none), (.window, some (.int 10)), (.pow1, some (.int 2)), (.pow2, some (.int 30)),
    (.fillna, some (.bool false))]
  -- ta/momentum.py:1044-1071
  | .roc => [(.close, none), (.window, some (.int 12)), (.fillna, some (.bool false))]
  -- ta/momentum.py:1074-1101
  | .stochrsi => [(.close, none), (.window, some (.int 14)), (.smooth1, some (.int 3)), (.smooth2, some (.int 3)),
    (.fillna, some (.bool false))]
  -- ta/momentum.py:1104-1131
  | .stochrsi_k => [(.close, none), (.window, some (.int 14)), (.smooth1, some (.int 3)), (.smooth2, some (.int 3)),
    (.fillna, some (.bool false))]
  -- ta/momentum.py:1134-1161
  | .stochrsi_d => [(.close, none), (.window, some (.int 14)), (.smooth1, some (.int 3)), (.smooth2, some (.int 3)),
    (.fillna, some (.bool false))]
  -- ta/momentum.py:1164-1192
  | .ppo => [(.close, none), (.window_slow, some (.int 26)), (.window_fast, some (.int 12)),
    (.window_sign, some (.int 9)), (.fillna, some (.bool false))]
  -- ta/momentum.py:1195-1219
  | .ppo_signal => [(.close, none), (.window_slow, some (.int 26)), (.window_fast, some (.int 12)),
    (.window_sign, some (.int 9)), (.fillna, some (.bool false))]
  -- ta/momentum.py:1222-1250
  | .ppo_hist => [(.close, none), (.window_slow, some (.int 26)), (.window_fast, some (.int 12)),
    (.window_sign, some (.int 9)), (.fillna, some (.bool false))]
  -- ta/momentum.py:1253-1284
  | .pvo => [(.volume, none), (.window_slow, some (.int 26)), (.window_fast, some (.int 12)),
    (.window_sign, some (.int 9)), (.fillna, some (.bool false))]
  -- ta/momentum.py:1287-1318
  | .pvo_signal => [(.volume, none), (.window_slow, some (.int 26)), (.window_fast, some (.int 12)),
    (.window_sign, some (.int 9)), (.fillna, some (.bool false))]
  -- ta/momentum.py:1321-1352
  | .pvo_hist => [(.volume, none), (.window_slow, some (.int 26)), (.window_fast, some (.int 12)),
    (.window_sign, some (.int 9)), (.fillna, some (.bool false))]
  -- ta/trend.py:1159-1165
  | .ema_indicator => [(.close, none), (.window, some (.int 12)), (.fillna, some (.bool false))]
  -- ta/trend.py:1168-1174
  | .sma_indicator => [(.close, none), (.window, some (.int 12)), (.fillna, some (.bool false))]
  -- ta/trend.py:1177-1183
  | .wma_indicator => [(.close, none), (.window, some (.int 9)), (.fillna, some (.bool false))]
  -- ta/trend.py:1186-1209
  | .macd => [(.close, none), (.window_slow, some (.int 26)), (.window_fast, some (.int 12)),
    (.fillna, some (.bool false))]
  -- ta/trend.py:1212-1235
  | .macd_signal => [(.close, none), (.window_slow, some (.int 26)), (.window_fast, some (.int 12)),
    (.window_sign, some (.int 9)), (.fillna, some (.bool false))]
  -- ta/trend.py:1238-1261
  | .macd_diff => [(.close, none), (.window_slow, some (.int 26)), (.window_fast, some (.int 12)),
    (.window_sign, some (.int 9)), (.fillna, some (.bool false))]
  -- ta/trend.py:1264-1293
  | .adx => [(.high, none), (.low, none), (.close, none), (.window, some (.int 14)), (.fillna, some (.bool false))]
  -- ta/trend.py:1296-1325
  | .adx_pos => [(.high, none), (.low, none), (.close, none), (.window, some (.int 14)),
    (.fillna, some (.bool false))]
  -- ta/trend.py:1328-1357
  | .adx_neg => [(.high, none), (.low, none), (.close, none), (.window, some (.int 14)),
    (.fillna, some (.bool false))]
  -- ta/trend.py:1360-1381
  | .vortex_indicator_pos => [(.high, none), (.low, none), (.close, none), (.window, some (.int 14)),
    (.fillna, some (.bool false))]
  -- ta/trend.py:1384-1405
  | .vortex_indicator_neg => [(.high, none), (.low, none), (.close, none), (.window, some (.int 14)),
    (.fillna, some (.bool false))]
  -- ta/trend.py:1408-1424
  | .trix => [(.close, none), (.window, some (.int 15)), (.fillna, some (.bool false))]
  -- ta/trend.py:1427-1453
  | .mass_index => [(.high, none), (.low, none), (.window_fast, some (.int 9)), (.window_slow, some (.int 25)),
    (.fillna, some (.bool false))]
  -- ta/trend.py:1456-1481
  | .cci => [(.high, none), (.low, none), (.close, none), (.window, some (.int 20)), (.constant, some (.num (3/200))),
    (.fillna, some (.bool false))]
  -- ta/trend.py:1484-1500
  | .dpo => [(.close, none), (.window, some (.int 20)), (.fillna, some (.bool false))]
  -- ta/trend.py:1503-1551
  | .kst => [(.close, none), (.roc1, some (.int 10)), (.roc2, some (.int 15)), (.roc3, some (.int 20)),
    (.roc4, some (.int 30)), (.window1, some (.int 10)), (.window2, some (.int 10)), (.window3, some (.int 10)),
    (.window4, some (.int 15)), (.fillna, some (.bool false))]
  -- ta/trend.py:1554-1588
  | .stc => [(.close, none), (.window_slow, some (.int 50)), (.window_fast, some (.int 23)), (.cycle, some (.int 10)),
    (.smooth1, some (.int 3)), (.smooth2, some (.int 3)), (.fillna, some (.bool false))]
  -- ta/trend.py:1591-1641
  | .kst_sig => [(.close, none), (.roc1, some (.int 10)), (.roc2, some (.int 15)), (.roc3, some (.int 20)),
    (.roc4, some (.int 30)), (.window1, some (.int 10)), (.window2, some (.int 10)), (.window3, some (.int 10)),
    (.window4, some (.int 15)), (.nsig, some (.int 9)), (.fillna, some (.bool false))]
  -- ta/trend.py:1644-1672
  | .ichimoku_conversion_line => [(.high, none), (.low, none), (.window1, some (.int 9)), (.window2, some (.int 26)),
    (.visual, some (.bool false)), (.fillna, some (.bool false))]
  -- ta/trend.py:1675-1703
  | .ichimoku_base_line => [(.high, none), (.low, none), (.window1, some (.int 9)), (.window2, some (.int 26)),
    (.visual, some (.bool false)), (.fillna, some (.bool false))]
  -- ta/trend.py:1706-1732
  | .ichimoku_a => [(.high, none), (.low, none), (.window1, some (.int 9)), (.window2, some (.int 26)),
    (.visual, some (.bool false)), (.fillna, some (.bool false))]
  -- ta/trend.py:1735-1761
  | .ichimoku_b => [(.high, none), (.low, none), (.window2, some (.int 26)), (.window3, some (.int 52)),
    (.visual, some (.bool false)), (.fillna, some (.bool false))]
  -- ta/trend.py:1764-1783
  | .aroon_up => [(.high, none), (.low, none), (.window, some (.int 25)), (.fillna, some (.bool false))]
  -- ta/trend.py:1786-1804
  | .aroon_down => [(.high, none), (.low, none), (.window, some (.int 25)), (.fillna, some (.bool false))]
  -- ta/trend.py:1807-1828
  | .psar_up => [(.high, none), (.low, none), (.close, none), (.step, some (.num (1/50))),
    (.max_step, some (.num (1/5))), (.fillna, some (.bool false))]
  -- ta/trend.py:1831-1852
  | .psar_down => [(.high, none), (.low, none), (.close, none), (.step, some (.num (1/50))),
    (.max_step, some (.num (1/5))), (.fillna, some (.bool false))]
  -- ta/trend.py:1855-1876
  | .psar_up_indicator => [(.high, none), (.low, none), (.close, none), (.step, some (.num (1/50))),
    (.max_step, some (.num (1/5))), (.fillna, some (.bool false))]
  -- ta/trend.py:1879-1900
  | .psar_down_indicator => [(.high, none), (.low, none), (.close, none), (.step, some (.num (1/50))),
    (.max_step, some (.num (1/5))), (.fillna, some (.bool false))]
  -- ta/volatility.py:472-494
  | .average_true_range => [(.high, none), (.low, none), (.close, none), (.window, some (.int 14)),
    (.fillna, some (.bool false))]
  -- ta/volatility.py:497-513
  | .bollinger_mavg => [(.close, none), (.window, some (.int 20)), (.fillna, some (.bool false))]
  -- ta/volatility.py:516-536
  | .bollinger_hband => [(.close, none), (.window, some (.int 20)), (.window_dev, some (.int 2)),
    (.fillna, some (.bool false))]
  -- ta/volatility.py:539-559
  | .bollinger_lband => [(.close, none), (.window, some (.int 20)), (.window_dev, some (.int 2)),
    (.fillna, some (.bool false))]
  -- ta/volatility.py:562-579
  | .bollinger_wband => [(.close, none), (.window, some (.int 20)), (.window_dev, some (.int 2)),
    (.fillna, some (.bool false))]
  -- ta/volatility.py:582-599
  | .bollinger_pband => [(.close, none), (.window, some (.int 20)), (.window_dev, some (.int 2)),
    (.fillna, some (.bool false))]
  -- ta/volatility.py:602-621
  | .bollinger_hband_indicator => [(.close, none), (.window, some (.int 20)), (.window_dev, some (.int 2)),
    (.fillna, some (.bool false))]
  -- ta/volatility.py:624-643
  | .bollinger_lband_indicator => [(.close, none), (.window, some (.int 20)), (.window_dev, some (.int 2)),
    (.fillna, some (.bool false))]
  -- ta/volatility.py:646-678
  | .keltner_channel_mband => [(.high, none), (.low, none), (.close, none), (.window, some (.int 20)),
    (.window_atr, some (.int 10)), (.fillna, some (.bool false)), (.original_version, some (.bool true))]
  -- ta/volatility.py:681-713
  | .keltner_channel_hband => [(.high, none), (.low, none), (.close, none), (.window, some (.int 20)),
    (.window_atr, some (.int 10)), (.fillna, some (.bool false)), (.original_version, some (.bool true))]
  -- ta/volatility.py:716-748
  | .keltner_channel_lband => [(.high, none), (.low, none), (.close, none), (.window, some (.int 20)),
    (.window_atr, some (.int 10)), (.fillna, some (.bool false)), (.original_version, some (.bool true))]
  -- ta/volatility.py:751-781
  | .keltner_channel_wband => [(.high, none), (.low, none), (.close, none), (.window, some (.int 20)),
    (.window_atr, some (.int 10)), (.fillna, some (.bool false)), (.original_version, some (.bool true))]
  -- ta/volatility.py:784-814
  | .keltner_channel_pband => [(.high, none), (.low, none), (.close, none), (.window, some (.int 20)),
    (.window_atr, some (.int 10)), (.fillna, some (.bool false)), (.original_version, some (.bool true))]
  -- ta/volatility.py:817-850
  | .keltner_channel_hband_indicator => [(.high, none), (.low, none), (.close, none), (.window, some (.int 20)),
    (.window_atr, some (.int 10)), (.fillna, some (.bool false)), (.original_version, some (.bool true))]
  -- ta/volatility.py:853-885
  | .keltner_channel_lband_indicator => [(.high, none), (.low, none), (.close, none), (.window, some (.int 20)),
    (.window_atr, some (.int 10)), (.fillna, some (.bool false)), (.original_version, some (.bool true))]
  -- ta/volatility.py:888-908
  | .donchian_channel_hband => [(.high, none), (.low, none), (.close, none), (.window, some (.int 20)),
    (.offset, some (.int 0)), (.fillna, some (.bool false))]
  -- ta/volatility.py:911-931
  | .donchian_channel_lband => [(.high, none), (.low, none), (.close, none), (.window, some (.int 20)),
    (.offset, some (.int 0)), (.fillna, some (.bool false))]
  -- ta/volatility.py:934-952
  | .donchian_channel_mband => [(.high, none), (.low, none), (.close, none), (.window, some (.int 10)),
    (.offset, some (.int 0)), (.fillna, some (.bool false))]
  -- ta/volatility.py:955-973
  | .donchian_channel_wband => [(.high, none), (.low, none), (.close, none), (.window, some (.int 10)),
    (.offset, some (.int 0)), (.fillna, some (.bool false))]
  -- ta/volatility.py:976-994
  | .donchian_channel_pband => [(.high, none), (.low, none), (.close, none), (.window, some (.int 10)),
    (.offset, some (.int 0)), (.fillna, some (.bool false))]
  -- ta/volatility.py:997-1011
  | .ulcer_index => [(.close, none), (.window, some (.int 14)), (.fillna, some (.bool false))]
  -- ta/volume.py:492-511
  | .acc_dist_index => [(.high, none), (.low, none), (.close, none), (.volume, none), (.fillna, some (.bool false))]
  -- ta/volume.py:514-532
  | .on_balance_volume => [(.close, none), (.volume, none), (.fillna, some (.bool false))]
  -- ta/volume.py:535-555
  | .chaikin_money_flow => [(.high, none), (.low, none), (.close, none), (.volume, none), (.window, some (.int 20)),
    (.fillna, some (.bool false))]
  -- ta/volume.py:558-578
  | .force_index => [(.close, none), (.volume, none), (.window, some (.int 13)), (.fillna, some (.bool false))]
  -- ta/volume.py:581-601
  | .ease_of_movement => [(.high, none), (.low, none), (.volume, none), (.window, some (.int 14)),
    (.fillna, some (.bool false))]
  -- ta/volume.py:604-624
  | .sma_ease_of_movement => [(.high, none), (.low, none), (.volume, none), (.window, some (.int 14)),
    (.fillna, some (.bool false))]
  -- ta/volume.py:627-654
  | .volume_price_trend => [(.close, none), (.volume, none), (.fillna, some (.bool false)),
    (.smoothing_factor, some (.none)), (.dropnans, some (.bool false))]
  -- ta/volume.py:657-699
  | .negative_volume_index => [(.close, none), (.volume, none), (.fillna, some (.bool false))]
  -- ta/volume.py:702-728
  | .money_flow_index => [(.high, none), (.low, none), (.close, none), (.volume, none), (.window, some (.int 14)),
    (.fillna, some (.bool false))]
  -- ta/volume.py:731-764
  | .volume_weighted_average_price => [(.high, none), (.low, none), (.close, none), (.volume, none),
    (.window, some (.int 14)), (.fillna, some (.bool false))]
  -- ta/others.py:97-107
  | .daily_return => [(.close, none), (.fillna, some (.bool false))]
  -- ta/others.py:110-122
  | .daily_log_return => [(.close, none), (.fillna, some (.bool false))]
  -- ta/others.py:125-135
  | .cumulative_return => [(.close, none), (.fillna, some (.bool false))]

/-- the class the function constructs -/
def PyFn.cls : PyFn → Cls
  | .rsi => .RSIIndicator
  | .tsi => .TSIIndicator
  | .ultimate_oscillator => .UltimateOscillator
  | .stoch => .StochasticOscillator
  | .stoch_signal => .StochasticOscillator
  | .williams_r => .WilliamsRIndicator
  | .awesome_oscillator => .AwesomeOscillatorIndicator
  | .kama => .KAMAIndicator
  | .roc => .ROCIndicator
  | .stochrsi => .StochRSIIndicator
  | .stochrsi_k => .StochRSIIndicator
  | .stochrsi_d => .StochRSIIndicator
  | .ppo => .PercentagePriceOscillator
  | .ppo_signal => .PercentagePriceOscillator
  | .ppo_hist => .PercentagePriceOscillator
  | .pvo => .PercentageVolumeOscillator
  | .pvo_signal => .PercentageVolumeOscillator
  | .pvo_hist => .PercentageVolumeOscillator
  | .ema_indicator => .EMAIndicator
  | .sma_indicator => .SMAIndicator
  | .wma_indicator => .WMAIndicator
  | .macd => .MACD
  | .macd_signal => .MACD
  | .macd_diff => .MACD
  | .adx => .ADXIndicator
  | .adx_pos => .ADXIndicator
  | .adx_neg => .ADXIndicator
  | .vortex_indicator_pos => .VortexIndicator
  | .vortex_indicator_neg => .VortexIndicator
  | .trix => .TRIXIndicator
  | .mass_index => .MassIndex
  | .cci => .CCIIndicator
  | .dpo => .DPOIndicator
  | .kst => .KSTIndicator
  | .stc => .STCIndicator
  | .kst_sig => .KSTIndicator
  | .ichimoku_conversion_line => .IchimokuIndicator
  | .ichimoku_base_line => .IchimokuIndicator
  | .ichimoku_a => .IchimokuIndicator
  | .ichimoku_b => .IchimokuIndicator
  | .aroon_up => .AroonIndicator
  | .aroon_down => .AroonIndicator
  | .psar_up => .PSARIndicator
  | .psar_down => .PSARIndicator
  | .psar_up_indicator => .PSARIndicator
  | .psar_down_indicator => .PSARIndicator
  | .average_true_range => .AverageTrueRange
  | .bollinger_mavg => .BollingerBands
  | .bollinger_hband => .BollingerBands
  | .bollinger_lband => .BollingerBands
  | .bollinger_wband => .BollingerBands
  | .bollinger_pband => .BollingerBands
  | .bollinger_hband_indicator => .BollingerBands
  | .bollinger_lband_indicator => .BollingerBands
  | .keltner_channel_mband => .KeltnerChannel
  | .keltner_channel_hband => .KeltnerChannel
  | .keltner_channel_lband => .KeltnerChannel
  | .keltner_channel_wband => .KeltnerChannel
  | .keltner_channel_pband => .KeltnerChannel
  | .keltner_channel_hband_indicator => .KeltnerChannel
  | .keltner_channel_lband_indicator => .KeltnerChannel
  | .donchian_channel_hband => .DonchianChannel
  | .donchian_channel_lband => .DonchianChannel
  | .donchian_channel_mband => .DonchianChannel
  | .donchian_channel_wband => .DonchianChannel
  | .donchian_channel_pband => .DonchianChannel
  | .ulcer_index => .UlcerIndex
  | .acc_dist_index => .AccDistIndexIndicator
  | .on_balance_volume => .OnBalanceVolumeIndicator
  | .chaikin_money_flow => .ChaikinMoneyFlowIndicator
  | .force_index => .ForceIndexIndicator
  | .ease_of_movement => .EaseOfMovementIndicator
  | .sma_ease_of_movement => .EaseOfMovementIndicator
  | .volume_price_trend => .VolumePriceTrendIndicator
  | .negative_volume_index => .NegativeVolumeIndexIndicator
  | .money_flow_index => .MFIIndicator
  | .volume_weighted_average_price => .VolumeWeightedAveragePrice
  | .daily_return => .DailyReturnIndicator
  | .daily_log_return => .DailyLogReturnIndicator
  | .cumulative_return => .CumulativeReturnIndicator

/-- the keyword arguments it passes to the constructor -/
def PyFn.passes : PyFn → List (Param × Arg Param)
  | .rsi => [(.close, .var .close), (.window, .var .window), (.fillna, .var .fillna)]
  | .tsi => [(.close, .var .close), (.window_slow, .var .window_slow), (.window_fast, .var .window_fast),
    (.fillna, .var .fillna)]
  | .ultimate_oscillator => [(.high, .var .high), (.low, .var .low), (.close, .var .close), (.window1, .var .window1),
    (.window2, .var .window2), (.window3, .var .window3), (.weight1, .var .weight1), (.weight2, .var .weight2),
    (.weight3, .var .weight3), (.fillna, .var .fillna)]
  | .stoch => [(.high, .var .high), (.low, .var .low), (.close, .var .close), (.window, .var .window),
    (.smooth_window, .var .smooth_window), (.fillna, .var .fillna)]
  | .stoch_signal => [(.high, .var .high), (.low, .var .low), (.close, .var .close), (.window, .var .window),
    (.smooth_window, .var .smooth_window), (.fillna, .var .fillna)]
  | .williams_r => [(.high, .var .high), (.low, .var .low), (.close, .var .close), (.lbp, .var .lbp),
    (.fillna, .var .fillna)]
  | .awesome_oscillator => [(.high, .var .high), (.low, .var .low), (.window1, .var .window1),
    (.window2, .var .window2), (.fillna, .var .fillna)]
  | .kama => [(.close, .var .close), (.window, .var .window), (.pow1, .var .pow1), (.pow2, .var .pow2),
    (.fillna, .var .fillna)]
  | .roc => [(.close, .var .close), (.window, .var .window), (.fillna, .var .fillna)]
  | .stochrsi => [(.close, .var .close), (.window, .var .window), (.smooth1, .var .smooth1),
    (.smooth2, .var .smooth2), (.fillna, .var .fillna)]
  | .stochrsi_k => [(.close, .var .close), (.window, .var .window), (.smooth1, .var .smooth1),
    (.smooth2, .var .smooth2), (.fillna, .var .fillna)]
  | .stochrsi_d => [(.close, .var .close), (.window, .var .window), (.smooth1, .var .smooth1),
    (.smooth2, .var .smooth2), (.fillna, .var .fillna)]
  | .ppo => [(.close, .var .close), (.window_slow, .var .window_slow), (.window_fast, .var .window_fast),
    (.window_sign, .var .window_sign), (.fillna, .var .fillna)]
  | .ppo_signal => [(.close, .var .close), (.window_slow, .var .window_slow), (.window_fast, .var .window_fast),
    (.window_sign, .var .window_sign), (.fillna, .var .fillna)]
  | .ppo_hist => [(.close, .var .close), (.window_slow, .var .window_slow), (.window_fast, .var .window_fast),
    (.window_sign, .var .window_sign), (.fillna, .var .fillna)]
  | .pvo => [(.volume, .var .volume), (.window_slow, .var .window_slow), (.window_fast, .var .window_fast),
    (.window_sign, .var .window_sign), (.fillna, .var .fillna)]
  | .pvo_signal => [(.volume, .var .volume), (.window_slow, .var .window_slow), (.window_fast, .var .window_fast),
    (.window_sign, .var .window_sign), (.fillna, .var .fillna)]
  | .pvo_hist => [(.volume, .var .volume), (.window_slow, .var .window_slow), (.window_fast, .var .window_fast),
    (.window_sign, .var .window_sign), (.fillna, .var .fillna)]
  | .ema_indicator => [(.close, .var .close), (.window, .var .window), (.fillna, .var .fillna)]
  | .sma_indicator => [(.close, .var .close), (.window, .var .window), (.fillna, .var .fillna)]
  | .wma_indicator => [(.close, .var .close), (.window, .var .window), (.fillna, .var .fillna)]
  | .macd => [(.close, .var .close), (.window_slow, .var .window_slow), (.window_fast, .var .window_fast),
    (.window_sign, .const (.int 9)), (.fillna, .var .fillna)]
  | .macd_signal => [(.close, .var .close), (.window_slow, .var .window_slow), (.window_fast, .var .window_fast),
    (.window_sign, .var .window_sign), (.fillna, .var .fillna)]
  | .macd_diff => [(.close, .var .close), (.window_slow, .var .window_slow), (.window_fast, .var .window_fast),
    (.window_sign, .var .window_sign), (.fillna, .var .fillna)]
  | .adx => [(.high, .var .high), (.low, .var .low), (.close, .var .close), (.window, .var .window),
    (.fillna, .var .fillna)]
  | .adx_pos => [(.high, .var .high), (.low, .var .low), (.close, .var .close), (.window, .var .window),
    (.fillna, .var .fillna)]
  | .adx_neg => [(.high, .var .high), (.low, .var .low), (.close, .var .close), (.window, .var .window),
    (.fillna, .var .fillna)]
  | .vortex_indicator_pos => [(.high, .var .high), (.low, .var .low), (.close, .var .close), (.window, .var .window),
    (.fillna, .var .fillna)]
  | .vortex_indicator_neg => [(.high, .var .high), (.low, .var .low), (.close, .var .close), (.window, .var .window),
    (.fillna, .var .fillna)]
  | .trix => [(.close, .var .close), (.window, .var .window), (.fillna, .var .fillna)]
  | .mass_index => [(.high, .var .high), (.low, .var .low), (.window_fast, .var .window_fast),
    (.window_slow, .var .window_slow), (.fillna, .var .fillna)]
  | .cci => [(.high, .var .high), (.low, .var .low), (.close, .var .close), (.window, .var .window),
    (.constant, .var .constant), (.fillna, .var .fillna)]
  | .dpo => [(.close, .var .close), (.window, .var .window), (.fillna, .var .fillna)]
  | .kst => [(.close, .var .close), (.roc1, .var .roc1), (.roc2, .var .roc2), (.roc3, .var .roc3),
    (.roc4, .var .roc4), (.window1, .var .window1), (.window2, .var .window2), (.window3, .var .window3),
    (.window4, .var .window4), (.nsig, .const (.int 9)), (.fillna, .var .fillna)]
  | .stc => [(.close, .var .close), (.window_slow, .var .window_slow), (.window_fast, .var .window_fast),
    (.cycle, .var .cycle), (.smooth1, .var .smooth1), (.smooth2, .var .smooth2), (.fillna, .var .fillna)]
  | .kst_sig => [(.close, .var .close), (.roc1, .var .roc1), (.roc2, .var .roc2), (.roc3, .var .roc3),
    (.roc4, .var .roc4), (.window1, .var .window1), (.window2, .var .window2), (.window3, .var .window3),
    (.window4, .var .window4), (.nsig, .var .nsig), (.fillna, .var .fillna)]
  | .ichimoku_conversion_line => [(.high, .var .high), (.low, .var .low), (.window1, .var .window1),
    (.window2, .var .window2), (.window3, .const (.int 52)), (.visual, .var .visual), (.fillna, .var .fillna)]
  | .ichimoku_base_line => [(.high, .var .high), (.low, .var .low), (.window1, .var .window1),
    (.window2, .var .window2), (.window3, .const (.int 52)), (.visual, .var .visual), (.fillna, .var .fillna)]
  | .ichimoku_a => [(.high, .var .high), (.low, .var .low), (.window1, .var .window1), (.window2, .var .window2),
    (.window3, .const (.int 52)), (.visual, .var .visual), (.fillna, .var .fillna)]
  | .ichimoku_b => [(.high, .var .high), (.low, .var .low), (.window1, .const (.int 9)), (.window2, .var .window2),
    (.window3, .var .window3), (.visual, .var .visual), (.fillna, .var .fillna)]
  | .aroon_up => [(.high, .var .high), (.low, .var .low), (.window, .var .window), (.fillna, .var .fillna)]
  | .aroon_down => [(.high, .var .high), (.low, .var .low), (.window, .var .window), (.fillna, .var .fillna)]
  | .psar_up => [(.high, .var .high), (.low, .var .low), (.close, .var .close), (.step, .var .step),
    (.max_step, .var .max_step), (.fillna, .var .fillna)]
  | .psar_down => [(.high, .var .high), (.low, .var .low), (.close, .var .close), (.step, .var .step),
    (.max_step, .var .max_step), (.fillna, .var .fillna)]
  | .psar_up_indicator => [(.high, .var .high), (.low, .var .low), (.close, .var .close), (.step, .var .step),
    (.max_step, .var .max_step), (.fillna, .var .fillna)]
  | .psar_down_indicator => [(.high, .var .high), (.low, .var .low), (.close, .var .close), (.step, .var .step),
    (.max_step, .var .max_step), (.fillna, .var .fillna)]
  | .average_true_range => [(.high, .var .high), (.low, .var .low), (.close, .var .close), (.window, .var .window),
    (.fillna, .var .fillna)]
  | .bollinger_mavg => [(.close, .var .close), (.window, .var .window), (.fillna, .var .fillna)]
  | .bollinger_hband => [(.close, .var .close), (.window, .var .window), (.window_dev, .var .window_dev),
    (.fillna, .var .fillna)]
  | .bollinger_lband => [(.close, .var .close), (.window, .var .window), (.window_dev, .var .window_dev),
    (.fillna, .var .fillna)]
  | .bollinger_wband => [(.close, .var .close), (.window, .var .window), (.window_dev, .var .window_dev),
    (.fillna, .var .fillna)]
  | .bollinger_pband => [(.close, .var .close), (.window, .var .window), (.window_dev, .var .window_dev),
    (.fillna, .var .fillna)]
  | .bollinger_hband_indicator => [(.close, .var .close), (.window, .var .window), (.window_dev, .var .window_dev),
    (.fillna, .var .fillna)]
  | .bollinger_lband_indicator => [(.close, .var .close), (.window, .var .window), (.window_dev, .var .window_dev),
    (.fillna, .var .fillna)]
  | .keltner_channel_mband => [(.high, .var .high), (.low, .var .low), (.close, .var .close), (.window, .var .window),
    (.window_atr, .var .window_atr), (.fillna, .var .fillna), (.original_version, .var .original_version)]
  | .keltner_channel_hband => [(.high, .var .high), (.low, .var .low), (.close, .var .close), (.window, .var .window),
    (.window_atr, .var .window_atr), (.fillna, .var .fillna), (.original_version, .var .original_version)]
  | .keltner_channel_lband => [(.high, .var .high), (.low, .var .low), (.close, .var .close), (.window, .var .window),
    (.window_atr, .var .window_atr), (.fillna, .var .fillna), (.original_version, .var .original_version)]
  | .keltner_channel_wband => [(.high, .var .high), (.low, .var .low), (.close, .var .close), (.window, .var .window),
    (.window_atr, .var .window_atr), (.fillna, .var .fillna), (.original_version, .var .original_version)]
  | .keltner_channel_pband => [(.high, .var .high), (.low, .var .low), (.close, .var .close), (.window, .var .window),
    (.window_atr, .var .window_atr), (.fillna, .var .fillna), (.original_version, .var .original_version)]
  | .keltner_channel_hband_indicator => [(.high, .var .high), (.low, .var .low), (.close, .var .close),
    (.window, .var .window), (.window_atr, .var .window_atr), (.fillna, .var .fillna),
    (.original_version, .var .original_version)]
  | .keltner_channel_lband_indicator => [(.high, .var .high), (.low, .var .low), (.close, .var .close),
    (.window, .var .window), (.window_atr, .var .window_atr), (.fillna, .var .fillna),
    (.original_version, .var .original_version)]
  | .donchian_channel_hband => [(.high, .var .high), (.low, .var .low), (.close, .var .close),
    (.window, .var .window), (.offset, .var .offset), (.fillna, .var .fillna)]
  | .donchian_channel_lband => [(.high, .var .high), (.low, .var .low), (.close, .var .close),
    (.window, .var .window), (.offset, .var .offset), (.fillna, .var .fillna)]
  | .donchian_channel_mband => [(.high, .var .high), (.low, .var .low), (.close, .var .close),
    (.window, .var .window), (.offset, .var .offset), (.fillna, .var .fillna)]
  | .donchian_channel_wband => [(.high, .var .high), (.low, .var .low), (.close, .var .close),
    (.window, .var .window), (.offset, .var .offset), (.fillna, .var .fillna)]
  | .donchian_channel_pband => [(.high, .var .high), (.low, .var .low), (.close, .var .close),
    (.window, .var .window), (.offset, .var .offset), (.fillna, .var .fillna)]
  | .ulcer_index => [(.close, .var .close), (.window, .var .window), (.fillna, .var .fillna)]
  | .acc_dist_index => [(.high, .var .high), (.low, .var .low), (.close, .var .close), (.volume, .var .volume),
    (.fillna, .var .fillna)]
  | .on_balance_volume => [(.close, .var .close), (.volume, .var .volume), (.fillna, .var .fillna)]
  | .chaikin_money_flow => [(.high, .var .high), (.low, .var .low), (.close, .var .close), (.volume, .var .volume),
    (.window, .var .window), (.fillna, .var .fillna)]
  | .force_index => [(.close, .var .close), (.volume, .var .volume), (.window, .var .window), (.fillna, .var .fillna)]
  | .ease_of_movement => [(.high, .var .high), (.low, .var .low), (.volume, .var .volume), (.window, .var .window),
    (.fillna, .var .fillna)]
  | .sma_ease_of_movement => [(.high, .var .high), (.low, .var .low), (.volume, .var .volume),
    (.window, .var .window), (.fillna, .var .fillna)]
  | .volume_price_trend => [(.close, .var .close), (.volume, .var .volume), (.fillna, .var .fillna),
    (.smoothing_factor, .var .smoothing_factor), (.dropnans, .var .dropnans)]
  | .negative_volume_index => [(.close, .var .close), (.volume, .var .volume), (.fillna, .var .fillna)]
  | .money_flow_index => [(.high, .var .high), (.low, .var .low), (.close, .var .close), (.volume, .var .volume),
    (.window, .var .window), (.fillna, .var .fillna)]
  | .volume_weighted_average_price => [(.high, .var .high), (.low, .var .low), (.close, .var .close),
    (.volume, .var .volume), (.window, .var .window), (.fillna, .var .fillna)]
  | .daily_return => [(.close, .var .close), (.fillna, .var .fillna)]
  | .daily_log_return => [(.close, .var .close), (.fillna, .var .fillna)]
  | .cumulative_return => [(.close, .var .close), (.fillna, .var .fillna)]

/-- the method it calls on the object -/
def PyFn.meth : PyFn → Meth
  | .rsi => .rsi
  | .tsi => .tsi
  | .ultimate_oscillator => .ultimate_oscillator
  | .stoch => .stoch
  | .stoch_signal => .stoch_signal
  | .williams_r => .williams_r
  | .awesome_oscillator => .awesome_oscillator
  | .kama => .kama
  | .roc => .roc
  | .stochrsi => .stochrsi
  | .stochrsi_k => .stochrsi_k
  | .stochrsi_d => .stochrsi_d
  | .ppo => .ppo
  | .ppo_signal => .ppo_signal
  | .ppo_hist => .ppo_hist
  | .pvo => .pvo
  | .pvo_signal => .pvo_signal
  | .pvo_hist => .pvo_hist
  | .ema_indicator => .ema_indicator
  | .sma_indicator => .sma_indicator
  | .wma_indicator => .wma
  | .macd => .macd
  | .macd_signal => .macd_signal
  | .macd_diff => .macd_diff
  | .adx => .adx
  | .adx_pos => .adx_pos
  | .adx_neg => .adx_neg
  | .vortex_indicator_pos => .vortex_indicator_pos
  | .vortex_indicator_neg => .vortex_indicator_neg
  | .trix => .trix
  | .mass_index => .mass_index
  | .cci => .cci
  | .dpo => .dpo
  | .kst => .kst
  | .stc => .stc
  | .kst_sig => .kst_sig
  | .ichimoku_conversion_line => .ichimoku_conversion_line
  | .ichimoku_base_line => .ichimoku_base_line
  | .ichimoku_a => .ichimoku_a
  | .ichimoku_b => .ichimoku_b
  | .aroon_up => .aroon_up
  | .aroon_down => .aroon_down
  | .psar_up => .psar_up
  | .psar_down => .psar_down
  | .psar_up_indicator => .psar_up_indicator
  | .psar_down_indicator => .psar_down_indicator
  | .average_true_range => .average_true_range
  | .bollinger_mavg => .bollinger_mavg
  | .bollinger_hband => .bollinger_hband
  | .bollinger_lband => .bollinger_lband
  | .bollinger_wband => .bollinger_wband
  | .bollinger_pband => .bollinger_pband
  | .bollinger_hband_indicator => .bollinger_hband_indicator
  | .bollinger_lband_indicator => .bollinger_lband_indicator
  | .keltner_channel_mband => .keltner_channel_mband
  | .keltner_channel_hband => .keltner_channel_hband
  | .keltner_channel_lband => .keltner_channel_lband
  | .keltner_channel_wband => .keltner_channel_wband
  | .keltner_channel_pband => .keltner_channel_pband
  | .keltner_channel_hband_indicator => .keltner_channel_hband_indicator
  | .keltner_channel_lband_indicator => .keltner_channel_lband_indicator
  | .donchian_channel_hband => .donchian_channel_hband
  | .donchian_channel_lband => .donchian_channel_lband
  | .donchian_channel_mband => .donchian_channel_mband
  | .donchian_channel_wband => .donchian_channel_wband
  | .donchian_channel_pband => .donchian_channel_pband
  | .ulcer_index => .ulcer_index
  | .acc_dist_index => .acc_dist_index
  | .on_balance_volume => .on_balance_volume
  | .chaikin_money_flow => .chaikin_money_flow
  | .force_index => .force_index
  | .ease_of_movement => .ease_of_movement
  | .sma_ease_of_movement => .sma_ease_of_movement
  | .volume_price_trend => .volume_price_trend
  | .negative_volume_index => .negative_volume_index
  | .money_flow_index => .money_flow_index
  | .volume_weighted_average_price => .volume_weighted_average_price
  | .daily_return => .daily_return
  | .daily_log_return => .daily_log_return
  | .cumulative_return => .cumulative_return

variable {F : Type} [FltFn F]

/-- Run a method of an object whose constructor arguments are given (for the parabolic SAR: on a non-integer index). -/
def Meth.run (env : Env Param F) : Meth → Except CallErr (Series F)
  | .rsi => do lift (TA.rsi (← env.ser .close) (← env.nat .window) (← env.bool .fillna))
  | .tsi => do lift (TA.tsi (← env.ser .close) (← env.nat .window_slow) (← env.nat .window_fast) (← env.bool .fillna))
  | .ultimate_oscillator => do
      return ultimateOscillator (← env.ser .high) (← env.ser .low) (← env.ser .close) (← env.nat .window1)
        (← env.nat .window2) (← env.nat .window3) (← env.num .weight1) (← env.num .weight2) (← env.num .weight3)
        (← env.bool .fillna)
  | .stoch => do
      return TA.stoch (← env.ser .high) (← env.ser .low) (← env.ser .close) (← env.nat .window) (← env.bool .fillna)
  | .stoch_signal => do
      return TA.stochSignal (← env.ser .high) (← env.ser .low) (← env.ser .close) (← env.nat .window)
        (← env.nat .smooth_window) (← env.bool .fillna)
  | .kama => do
      return TA.kama (← env.ser .close) (← env.nat .window) (← env.nat .pow1) (← env.nat .pow2) (← env.bool .fillna)
  | .roc => do return TA.roc (← env.ser .close) (← env.nat .window) (← env.bool .fillna)
  | .awesome_oscillator => do
      return awesomeOscillator (← env.ser .high) (← env.ser .low) (← env.nat .window1) (← env.nat .window2)
        (← env.bool .fillna)
  | .williams_r => do
      return TA.williamsR (← env.ser .high) (← env.ser .low) (← env.ser .close) (← env.nat .lbp) (← env.bool .fillna)
  | .stochrsi => do
      lift ((StochRSI.new (← env.ser .close) (← env.nat .window) (← env.nat .smooth1) (← env.nat .smooth2)
        (← env.bool .fillna)).map (·.stochrsi))
  | .stochrsi_k => do
      lift ((StochRSI.new (← env.ser .close) (← env.nat .window) (← env.nat .smooth1) (← env.nat .smooth2)
        (← env.bool .fillna)).map (·.stochrsiK))
  | .stochrsi_d => do
      lift ((StochRSI.new (← env.ser .close) (← env.nat .window) (← env.nat .smooth1) (← env.nat .smooth2)
        (← env.bool .fillna)).map (·.stochrsiD))
  | .ppo => do
      lift ((PPO.new (← env.ser .close) (← env.nat .window_slow) (← env.nat .window_fast) (← env.nat .window_sign)
        (← env.bool .fillna)).map (·.ppo))
  | .ppo_signal => do
      lift ((PPO.new (← env.ser .close) (← env.nat .window_slow) (← env.nat .window_fast) (← env.nat .window_sign)
        (← env.bool .fillna)).map (·.ppoSignal))
  | .ppo_hist => do
      lift ((PPO.new (← env.ser .close) (← env.nat .window_slow) (← env.nat .window_fast) (← env.nat .window_sign)
        (← env.bool .fillna)).map (·.ppoHist))
  | .pvo => do
      lift ((PPO.new (← env.ser .volume) (← env.nat .window_slow) (← env.nat .window_fast) (← env.nat .window_sign)
        (← env.bool .fillna)).map (·.ppo))
  | .pvo_signal => do
      lift ((PPO.new (← env.ser .volume) (← env.nat .window_slow) (← env.nat .window_fast) (← env.nat .window_sign)
        (← env.bool .fillna)).map (·.ppoSignal))
  | .pvo_hist => do
      lift ((PPO.new (← env.ser .volume) (← env.nat .window_slow) (← env.nat .window_fast) (← env.nat .window_sign)
        (← env.bool .fillna)).map (·.ppoHist))
  | .aroon_up => do
      lift ((Aroon.new (← env.ser .high) (← env.ser .low) (← env.nat .window) (← env.bool .fillna)).map (·.aroonUp))
  | .aroon_down => do
      lift ((Aroon.new (← env.ser .high) (← env.ser .low) (← env.nat .window)
        (← env.bool .fillna)).map (·.aroonDown))
  | .aroon_indicator => do
      lift ((Aroon.new (← env.ser .high) (← env.ser .low) (← env.nat .window)
        (← env.bool .fillna)).map (·.aroonIndicator))
  | .macd => do
      lift ((MACD.new (← env.ser .close) (← env.nat .window_slow) (← env.nat .window_fast) (← env.nat .window_sign)
        (← env.bool .fillna)).map (·.macd))
  | .macd_signal => do
      lift ((MACD.new (← env.ser .close) (← env.nat .window_slow) (← env.nat .window_fast) (← env.nat .window_sign)
        (← env.bool .fillna)).map (·.macdSignal))
  | .macd_diff => do
      lift ((MACD.new (← env.ser .close) (← env.nat .window_slow) (← env.nat .window_fast) (← env.nat .window_sign)
        (← env.bool .fillna)).map (·.macdDiff))
  | .ema_indicator => do lift (emaIndicator (← env.ser .close) (← env.nat .window) (← env.bool .fillna))
  | .sma_indicator => do return smaIndicator (← env.ser .close) (← env.nat .window) (← env.bool .fillna)
  | .wma => do return TA.wma (← env.ser .close) (← env.nat .window) (← env.bool .fillna)
  | .trix => do lift (TA.trix (← env.ser .close) (← env.nat .window) (← env.bool .fillna))
  | .mass_index => do
      lift (TA.massIndex (← env.ser .high) (← env.ser .low) (← env.nat .window_fast) (← env.nat .window_slow)
        (← env.bool .fillna))
  | .ichimoku_conversion_line => do
      return ichimokuConversionLine (← env.ser .high) (← env.ser .low) (← env.nat .window1) (← env.bool .fillna)
  | .ichimoku_base_line => do
      return ichimokuBaseLine (← env.ser .high) (← env.ser .low) (← env.nat .window2) (← env.bool .fillna)
  | .ichimoku_a => do
      return TA.ichimokuA (← env.ser .high) (← env.ser .low) (← env.nat .window1) (← env.nat .window2)
        (← env.bool .visual) (← env.bool .fillna)
  | .ichimoku_b => do
      return TA.ichimokuB (← env.ser .high) (← env.ser .low) (← env.nat .window2) (← env.nat .window3)
        (← env.bool .visual) (← env.bool .fillna)
  | .kst => do
      return TA.kst (← env.ser .close) (← env.nat .roc1) (← env.nat .roc2) (← env.nat .roc3) (← env.nat .roc4)
        (← env.nat .window1) (← env.nat .window2) (← env.nat .window3) (← env.nat .window4) (← env.bool .fillna)
  | .kst_sig => do
      return TA.kstSig (← env.ser .close) (← env.nat .roc1) (← env.nat .roc2) (← env.nat .roc3) (← env.nat .roc4)
        (← env.nat .window1) (← env.nat .window2) (← env.nat .window3) (← env.nat .window4) (← env.nat .nsig)
        (← env.bool .fillna)
  | .kst_diff => do
      return TA.kstDiff (← env.ser .close) (← env.nat .roc1) (← env.nat .roc2) (← env.nat .roc3) (← env.nat .roc4)
        (← env.nat .window1) (← env.nat .window2) (← env.nat .window3) (← env.nat .window4) (← env.nat .nsig)
        (← env.bool .fillna)
  | .dpo => do return TA.dpo (← env.ser .close) (← env.nat .window) (← env.bool .fillna)
  | .cci => do
      return TA.cci (← env.ser .high) (← env.ser .low) (← env.ser .close) (← env.nat .window) (← env.num .constant)
        (← env.bool .fillna)
  | .adx => do
      lift ((ADX.new (← env.ser .high) (← env.ser .low) (← env.ser .close) (← env.nat .window)
        (← env.bool .fillna)).bind (·.adx))
  | .adx_pos => do
      lift ((ADX.new (← env.ser .high) (← env.ser .low) (← env.ser .close) (← env.nat .window)
        (← env.bool .fillna)).map (·.adxPos))
  | .adx_neg => do
      lift ((ADX.new (← env.ser .high) (← env.ser .low) (← env.ser .close) (← env.nat .window)
        (← env.bool .fillna)).map (·.adxNeg))
  | .vortex_indicator_pos => do
      return TA.vortexPos (← env.ser .high) (← env.ser .low) (← env.ser .close) (← env.nat .window)
        (← env.bool .fillna)
  | .vortex_indicator_neg => do
      return TA.vortexNeg (← env.ser .high) (← env.ser .low) (← env.ser .close) (← env.nat .window)
        (← env.bool .fillna)
  | .vortex_indicator_diff => do
      return TA.vortexDiff (← env.ser .high) (← env.ser .low) (← env.ser .close) (← env.nat .window)
        (← env.bool .fillna)
  | .psar => do
      lift ((PSAR.new (← env.ser .high) (← env.ser .low) (← env.ser .close) .positional (← env.num .step)
        (← env.num .max_step) (← env.bool .fillna)).map (·.psar))
  | .psar_up => do
      lift ((PSAR.new (← env.ser .high) (← env.ser .low) (← env.ser .close) .positional (← env.num .step)
        (← env.num .max_step) (← env.bool .fillna)).map (·.psarUp))
  | .psar_down => do
      lift ((PSAR.new (← env.ser .high) (← env.ser .low) (← env.ser .close) .positional (← env.num .step)
        (← env.num .max_step) (← env.bool .fillna)).map (·.psarDown))
  | .psar_up_indicator => do
      lift ((PSAR.new (← env.ser .high) (← env.ser .low) (← env.ser .close) .positional (← env.num .step)
        (← env.num .max_step) (← env.bool .fillna)).map (·.psarUpIndicator))
  | .psar_down_indicator => do
      lift ((PSAR.new (← env.ser .high) (← env.ser .low) (← env.ser .close) .positional (← env.num .step)
        (← env.num .max_step) (← env.bool .fillna)).map (·.psarDownIndicator))
  | .stc => do
      lift (TA.stc (← env.ser .close) (← env.nat .window_slow) (← env.nat .window_fast) (← env.nat .cycle)
        (← env.nat .smooth1) (← env.nat .smooth2) (← env.bool .fillna))
  | .average_true_range => do
      lift (averageTrueRange (← env.ser .high) (← env.ser .low) (← env.ser .close) (← env.nat .window)
        (← env.bool .fillna))
  | .bollinger_mavg => do
      return (BB.new (← env.ser .close) (← env.nat .window) (← env.num .window_dev)
        (← env.bool .fillna)).bollingerMavg
  | .bollinger_hband => do
      return (BB.new (← env.ser .close) (← env.nat .window) (← env.num .window_dev)
        (← env.bool .fillna)).bollingerHband
  | .bollinger_lband => do
      return (BB.new (← env.ser .close) (← env.nat .window) (← env.num .window_dev)
        (← env.bool .fillna)).bollingerLband
  | .bollinger_wband => do
      return (BB.new (← env.ser .close) (← env.nat .window) (← env.num .window_dev)
        (← env.bool .fillna)).bollingerWband
  | .bollinger_pband => do
      return (BB.new (← env.ser .close) (← env.nat .window) (← env.num .window_dev)
        (← env.bool .fillna)).bollingerPband
  | .bollinger_hband_indicator => do
      return (BB.new (← env.ser .close) (← env.nat .window) (← env.num .window_dev)
        (← env.bool .fillna)).bollingerHbandIndicator
  | .bollinger_lband_indicator => do
      return (BB.new (← env.ser .close) (← env.nat .window) (← env.num .window_dev)
        (← env.bool .fillna)).bollingerLbandIndicator
  | .keltner_channel_mband => do
      lift ((Keltner.new (← env.ser .high) (← env.ser .low) (← env.ser .close) (← env.nat .window)
        (← env.nat .window_atr) (← env.bool .fillna) (← env.bool .original_version)
        (← env.num .multiplier)).map (·.mband))
  | .keltner_channel_hband => do
      lift ((Keltner.new (← env.ser .high) (← env.ser .low) (← env.ser .close) (← env.nat .window)
        (← env.nat .window_atr) (← env.bool .fillna) (← env.bool .original_version)
        (← env.num .multiplier)).map (·.hband))
  | .keltner_channel_lband => do
      lift ((Keltner.new (← env.ser .high) (← env.ser .low) (← env.ser .close) (← env.nat .window)
        (← env.nat .window_atr) (← env.bool .fillna) (← env.bool .original_version)
        (← env.num .multiplier)).map (·.lband))
  | .keltner_channel_wband => do
      lift ((Keltner.new (← env.ser .high) (← env.ser .low) (← env.ser .close) (← env.nat .window)
        (← env.nat .window_atr) (← env.bool .fillna) (← env.bool .original_version)
        (← env.num .multiplier)).map (·.wband))
  | .keltner_channel_pband => do
      lift ((Keltner.new (← env.ser .high) (← env.ser .low) (← env.ser .close) (← env.nat .window)
        (← env.nat .window_atr) (← env.bool .fillna) (← env.bool .original_version)
        (← env.num .multiplier)).map (·.pband))
  | .keltner_channel_hband_indicator => do
      lift ((Keltner.new (← env.ser .high) (← env.ser .low) (← env.ser .close) (← env.nat .window)
        (← env.nat .window_atr) (← env.bool .fillna) (← env.bool .original_version)
        (← env.num .multiplier)).map (·.hbandIndicator))
  | .keltner_channel_lband_indicator => do
      lift ((Keltner.new (← env.ser .high) (← env.ser .low) (← env.ser .close) (← env.nat .window)
        (← env.nat .window_atr) (← env.bool .fillna) (← env.bool .original_version)
        (← env.num .multiplier)).map (·.lbandIndicator))
  | .donchian_channel_hband => do
      lift ((Donchian.new (← env.ser .high) (← env.ser .low) (← env.ser .close) (← env.nat .window)
        (← env.int .offset) (← env.bool .fillna)).map (·.hband))
  | .donchian_channel_lband => do
      lift ((Donchian.new (← env.ser .high) (← env.ser .low) (← env.ser .close) (← env.nat .window)
        (← env.int .offset) (← env.bool .fillna)).map (·.lband))
  | .donchian_channel_mband => do
      lift ((Donchian.new (← env.ser .high) (← env.ser .low) (← env.ser .close) (← env.nat .window)
        (← env.int .offset) (← env.bool .fillna)).map (·.mband))
  | .donchian_channel_wband => do
      lift ((Donchian.new (← env.ser .high) (← env.ser .low) (← env.ser .close) (← env.nat .window)
        (← env.int .offset) (← env.bool .fillna)).map (·.wband))
  | .donchian_channel_pband => do
      lift ((Donchian.new (← env.ser .high) (← env.ser .low) (← env.ser .close) (← env.nat .window)
        (← env.int .offset) (← env.bool .fillna)).map (·.pband))
  | .ulcer_index => do lift (ulcerIndex (← env.ser .close) (← env.nat .window) (← env.bool .fillna))
  | .acc_dist_index => do
      return accDistIndex (← env.ser .high) (← env.ser .low) (← env.ser .close) (← env.ser .volume)
        (← env.bool .fillna)
  | .on_balance_volume => do return onBalanceVolume (← env.ser .close) (← env.ser .volume) (← env.bool .fillna)
  | .chaikin_money_flow => do
      return chaikinMoneyFlow (← env.ser .high) (← env.ser .low) (← env.ser .close) (← env.ser .volume)
        (← env.nat .window) (← env.bool .fillna)
  | .force_index => do
      lift (forceIndex (← env.ser .close) (← env.ser .volume) (← env.nat .window) (← env.bool .fillna))
  | .ease_of_movement => do
      return easeOfMovement (← env.ser .high) (← env.ser .low) (← env.ser .volume) (← env.bool .fillna)
  | .sma_ease_of_movement => do
      return smaEaseOfMovement (← env.ser .high) (← env.ser .low) (← env.ser .volume) (← env.nat .window)
        (← env.bool .fillna)
  | .volume_price_trend => do
      return volumePriceTrend (← env.ser .close) (← env.ser .volume) (← env.bool .fillna)
        (← env.optNat .smoothing_factor) (← env.bool .dropnans)
  | .negative_volume_index => do
      lift (negativeVolumeIndex (← env.ser .close) (← env.ser .volume) (← env.bool .fillna))
  | .money_flow_index => do
      return moneyFlowIndex (← env.ser .high) (← env.ser .low) (← env.ser .close) (← env.ser .volume)
        (← env.nat .window) (← env.bool .fillna)
  | .volume_weighted_average_price => do
      return volumeWeightedAveragePrice (← env.ser .high) (← env.ser .low) (← env.ser .close) (← env.ser .volume)
        (← env.nat .window) (← env.bool .fillna)
  | .daily_return => do return dailyReturn (← env.ser .close) (← env.bool .fillna)
  | .daily_log_return => do return dailyLogReturn (← env.ser .close) (← env.bool .fillna)
  | .cumulative_return => do lift (cumulativeReturn (← env.ser .close) (← env.bool .fillna))

/-- `Cls(*pos, **kw).meth()` -/
def callCls (c : Cls) (m : Meth) (pos : List (PyVal F)) (kw : List (Param × PyVal F)) : Except CallErr (Series F) := do
  m.run (← bind c.sig pos kw)

/-- `fn(*pos, **kw)` -/
def callFn (f : PyFn) (pos : List (PyVal F)) (kw : List (Param × PyVal F)) : Except CallErr (Series F) := do
  let env ← bind f.sig pos kw
  callCls f.cls f.meth [] (f.passes.map fun a => (a.1, a.2.val env))

end TA
