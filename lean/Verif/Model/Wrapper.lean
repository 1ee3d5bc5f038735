import Verif.Model.Momentum
import Verif.Model.Others
import Verif.Model.Volume
import Verif.Model.Trend
import Verif.Model.Adx
import Verif.Model.Psar
import Verif.Model.Volatility

/-! # Model of `/repo/ta/wrapper.py`

A DataFrame of numeric columns is its index and an ordered list of named columns.  A failing call leaves the
frame as it was mutated up to that point, so the result of a call is the frame together with the exception, if
any. -/

namespace TA

/-- A DataFrame whose columns are all float columns. -/
structure Frame (F : Type) where
  idx : Idx
  cols : List (String × Series F)

/-- Result of a call that mutates a frame: the frame afterwards, and the exception if one was raised. -/
abbrev Outcome (F : Type) := Frame F × Option PyErr

variable {F : Type} [FltFn F]

/-- `df[name]` -/
def Frame.get (df : Frame F) (name : String) : Except PyErr (Series F) :=
  match df.cols.lookup name with
  | some s => .ok s
  | none => .error .keyError

/-- Column assignment on the list of columns: replace in place or append. -/
def setCol (name : String) (s : Series F) : List (String × Series F) → List (String × Series F)
  | [] => [(name, s)]
  | (m, t) :: rest => if m = name then (m, s) :: rest else (m, t) :: setCol name s rest

/-- `df[name] = s` -/
def Frame.set (df : Frame F) (name : String) (s : Series F) : Frame F :=
  { df with cols := setCol name s df.cols }

/-- One indicator used by the wrapper: read the columns and run the constructor (may raise), then a list of
method calls, each assigned to a column. -/
abbrev Block (F : Type) := Frame F → Except PyErr (List (String × Except PyErr (Series F)))

/-- The assignments `df[name] = method()` of one indicator, in order; the first exception stops. -/
def assignAll (pfx : String) : List (String × Except PyErr (Series F)) → Frame F → Outcome F
  | [], df => (df, none)
  | (_, .error e) :: _, df => (df, some e)
  | (name, .ok s) :: rest, df => assignAll pfx rest (df.set (pfx ++ name) s)

/-- One block. -/
def runBlock (pfx : String) (b : Block F) (df : Frame F) : Outcome F :=
  match b df with
  | .error e => (df, some e)
  | .ok cols => assignAll pfx cols df

/-- Blocks in sequence; the first exception stops. -/
def runBlocks (pfx : String) : List (Block F) → Frame F → Outcome F
  | [], df => (df, none)
  | b :: rest, df =>
    match runBlock pfx b df with
    | (df', none) => runBlocks pfx rest df'
    | (df', some e) => (df', some e)

/-- Sequencing of two wrapper calls (`df = f(df); df = g(df)`). -/
def Outcome.andThen (r : Outcome F) (g : Frame F → Outcome F) : Outcome F :=
  match r with
  | (df, none) => g df
  | (df, some e) => (df, some e)

/-- The blocks of `add_volume_ta` — ta/wrapper.py:90-146 -/
def volumeBlocks (high low close volume : String) (fillna vectorized : Bool) : List (Block F) :=
  [ -- 90-93 ADI
    fun df => do
      let h ← df.get high; let l ← df.get low; let c ← df.get close; let v ← df.get volume
      return [("volume_adi", .ok (accDistIndex h l c v fillna))],
    -- 95-98 OBV
    fun df => do
      let c ← df.get close; let v ← df.get volume
      return [("volume_obv", .ok (onBalanceVolume c v fillna))],
    -- 100-103 CMF
    fun df => do
      let h ← df.get high; let l ← df.get low; let c ← df.get close; let v ← df.get volume
      return [("volume_cmf", .ok (chaikinMoneyFlow h l c v 20 fillna))],
    -- 105-108 FI
    fun df => do
      let c ← df.get close; let v ← df.get volume
      let r ← forceIndex c v 13 fillna
      return [("volume_fi", .ok r)],
    -- 110-115 EoM
    fun df => do
      let h ← df.get high; let l ← df.get low; let v ← df.get volume
      return [("volume_em", .ok (easeOfMovement h l v fillna)),
              ("volume_sma_em", .ok (smaEaseOfMovement h l v 14 fillna))],
    -- 117-120 VPT
    fun df => do
      let c ← df.get close; let v ← df.get volume
      return [("volume_vpt", .ok (volumePriceTrend c v fillna))],
    -- 122-130 VWAP
    fun df => do
      let h ← df.get high; let l ← df.get low; let c ← df.get close; let v ← df.get volume
      return [("volume_vwap", .ok (volumeWeightedAveragePrice h l c v 14 fillna))] ] ++
  (if vectorized then [] else
  [ -- 133-141 MFI
    fun df => do
      let h ← df.get high; let l ← df.get low; let c ← df.get close; let v ← df.get volume
      return [("volume_mfi", .ok (moneyFlowIndex h l c v 14 fillna))],
    -- 143-146 NVI
    fun df => do
      let c ← df.get close; let v ← df.get volume
      let r ← negativeVolumeIndex c v fillna
      return [("volume_nvi", .ok r)] ])

/-- The blocks of `add_volatility_ta` — ta/wrapper.py:175-218 -/
def volatilityBlocks (high low close : String) (fillna vectorized : Bool) : List (Block F) :=
  [ -- 175-185 Bollinger
    fun df => do
      let c ← df.get close
      let o := BB.new c 20 (lit 2) fillna
      return [("volatility_bbm", .ok o.bollingerMavg), ("volatility_bbh", .ok o.bollingerHband),
              ("volatility_bbl", .ok o.bollingerLband), ("volatility_bbw", .ok o.bollingerWband),
              ("volatility_bbp", .ok o.bollingerPband), ("volatility_bbhi", .ok o.bollingerHbandIndicator),
              ("volatility_bbli", .ok o.bollingerLbandIndicator)],
    -- 187-197 Keltner
    fun df => do
      let c ← df.get close; let h ← df.get high; let l ← df.get low
      let o ← Keltner.new h l c 10 10 fillna true (lit 2)
      return [("volatility_kcc", .ok o.mband), ("volatility_kch", .ok o.hband),
              ("volatility_kcl", .ok o.lband), ("volatility_kcw", .ok o.wband),
              ("volatility_kcp", .ok o.pband), ("volatility_kchi", .ok o.hbandIndicator),
              ("volatility_kcli", .ok o.lbandIndicator)],
    -- 199-207 Donchian
    fun df => do
      let h ← df.get high; let l ← df.get low; let c ← df.get close
      let o ← Donchian.new h l c 20 0 fillna
      return [("volatility_dcl", .ok o.lband), ("volatility_dch", .ok o.hband),
              ("volatility_dcm", .ok o.mband), ("volatility_dcw", .ok o.wband),
              ("volatility_dcp", .ok o.pband)] ] ++
  (if vectorized then [] else
  [ -- 210-213 ATR
    fun df => do
      let c ← df.get close; let h ← df.get high; let l ← df.get low
      let r ← averageTrueRange h l c 10 fillna
      return [("volatility_atr", .ok r)],
    -- 215-218 Ulcer
    fun df => do
      let c ← df.get close
      let r ← ulcerIndex c 14 fillna
      return [("volatility_ui", .ok r)] ])

/-- The blocks of `add_trend_ta` — ta/wrapper.py:247-393 -/
def trendBlocks (high low close : String) (fillna vectorized : Bool) : List (Block F) :=
  [ -- 247-253 MACD
    fun df => do
      let c ← df.get close
      let o ← MACD.new c 26 12 9 fillna
      return [("trend_macd", .ok o.macd), ("trend_macd_signal", .ok o.macdSignal),
              ("trend_macd_diff", .ok o.macdDiff)],
    -- 255-261 SMAs
    fun df => do
      let c ← df.get close
      return [("trend_sma_fast", .ok (smaIndicator c 12 fillna))],
    fun df => do
      let c ← df.get close
      return [("trend_sma_slow", .ok (smaIndicator c 26 fillna))],
    -- 263-269 EMAs
    fun df => do
      let c ← df.get close
      let r ← emaIndicator c 12 fillna
      return [("trend_ema_fast", .ok r)],
    fun df => do
      let c ← df.get close
      let r ← emaIndicator c 26 fillna
      return [("trend_ema_slow", .ok r)],
    -- 271-277 Vortex
    fun df => do
      let h ← df.get high; let l ← df.get low; let c ← df.get close
      return [("trend_vortex_ind_pos", .ok (vortexPos h l c 14 fillna)),
              ("trend_vortex_ind_neg", .ok (vortexNeg h l c 14 fillna)),
              ("trend_vortex_ind_diff", .ok (vortexDiff h l c 14 fillna))],
    -- 279-282 TRIX
    fun df => do
      let c ← df.get close
      let r ← trix c 15 fillna
      return [("trend_trix", .ok r)],
    -- 284-287 Mass Index
    fun df => do
      let h ← df.get high; let l ← df.get low
      let r ← massIndex h l 9 25 fillna
      return [("trend_mass_index", .ok r)],
    -- 289-292 DPO
    fun df => do
      let c ← df.get close
      return [("trend_dpo", .ok (dpo c 20 fillna))],
    -- 294-310 KST
    fun df => do
      let c ← df.get close
      return [("trend_kst", .ok (kst c 10 15 20 30 10 10 10 15 fillna)),
              ("trend_kst_sig", .ok (kstSig c 10 15 20 30 10 10 10 15 9 fillna)),
              ("trend_kst_diff", .ok (kstDiff c 10 15 20 30 10 10 10 15 9 fillna))],
    -- 312-325 Ichimoku
    fun df => do
      let h ← df.get high; let l ← df.get low
      return [("trend_ichimoku_conv", .ok (ichimokuConversionLine h l 9 fillna)),
              ("trend_ichimoku_base", .ok (ichimokuBaseLine h l 26 fillna)),
              ("trend_ichimoku_a", .ok (ichimokuA h l 9 26 false fillna)),
              ("trend_ichimoku_b", .ok (ichimokuB h l 26 52 false fillna))],
    -- 327-336 STC
    fun df => do
      let c ← df.get close
      let r ← stc c 50 23 10 3 3 fillna
      return [("trend_stc", .ok r)] ] ++
  (if vectorized then [] else
  [ -- 339-345 ADX (adx() itself may raise)
    fun df => do
      let h ← df.get high; let l ← df.get low; let c ← df.get close
      let o ← ADX.new h l c 14 fillna
      return [("trend_adx", o.adx), ("trend_adx_pos", .ok o.adxPos), ("trend_adx_neg", .ok o.adxNeg)],
    -- 347-355 CCI
    fun df => do
      let h ← df.get high; let l ← df.get low; let c ← df.get close
      return [("trend_cci", .ok (cci h l c 20 (lit (3/200)) fillna))],
    -- 357-368 visual Ichimoku
    fun df => do
      let h ← df.get high; let l ← df.get low
      return [("trend_visual_ichimoku_a", .ok (ichimokuA h l 9 26 true fillna)),
              ("trend_visual_ichimoku_b", .ok (ichimokuB h l 26 52 true fillna))],
    -- 370-376 Aroon
    fun df => do
      let h ← df.get high; let l ← df.get low
      let o ← Aroon.new h l 25 fillna
      return [("trend_aroon_up", .ok o.aroonUp), ("trend_aroon_down", .ok o.aroonDown),
              ("trend_aroon_ind", .ok o.aroonIndicator)],
    -- 378-393 PSAR
    fun df => do
      let h ← df.get high; let l ← df.get low; let c ← df.get close
      let o ← PSAR.new h l c df.idx (lit (1/50)) (lit (1/5)) fillna
      return [("trend_psar_up", .ok o.psarUp), ("trend_psar_down", .ok o.psarDown),
              ("trend_psar_up_indicator", .ok o.psarUpIndicator),
              ("trend_psar_down_indicator", .ok o.psarDownIndicator)] ])

/-- The blocks of `add_momentum_ta` — ta/wrapper.py:424-503 -/
def momentumBlocks (high low close volume : String) (fillna vectorized : Bool) : List (Block F) :=
  [ -- 424-427 RSI
    fun df => do
      let c ← df.get close
      let r ← rsi c 14 fillna
      return [("momentum_rsi", .ok r)],
    -- 429-435 StochRSI
    fun df => do
      let c ← df.get close
      let o ← StochRSI.new c 14 3 3 fillna
      return [("momentum_stoch_rsi", .ok o.stochrsi), ("momentum_stoch_rsi_k", .ok o.stochrsiK),
              ("momentum_stoch_rsi_d", .ok o.stochrsiD)],
    -- 437-440 TSI
    fun df => do
      let c ← df.get close
      let r ← tsi c 25 13 fillna
      return [("momentum_tsi", .ok r)],
    -- 442-454 UO
    fun df => do
      let h ← df.get high; let l ← df.get low; let c ← df.get close
      return [("momentum_uo", .ok (ultimateOscillator h l c 7 14 28 (lit 4) (lit 2) (lit 1) fillna))],
    -- 456-466 Stoch
    fun df => do
      let h ← df.get high; let l ← df.get low; let c ← df.get close
      return [("momentum_stoch", .ok (stoch h l c 14 fillna)),
              ("momentum_stoch_signal", .ok (stochSignal h l c 14 3 fillna))],
    -- 468-471 Williams %R
    fun df => do
      let h ← df.get high; let l ← df.get low; let c ← df.get close
      return [("momentum_wr", .ok (williamsR h l c 14 fillna))],
    -- 473-476 AO
    fun df => do
      let h ← df.get high; let l ← df.get low
      return [("momentum_ao", .ok (awesomeOscillator h l 5 34 fillna))],
    -- 478-481 ROC
    fun df => do
      let c ← df.get close
      return [("momentum_roc", .ok (roc c 12 fillna))],
    -- 483-489 PPO
    fun df => do
      let c ← df.get close
      let o ← PPO.new c 26 12 9 fillna
      return [("momentum_ppo", .ok o.ppo), ("momentum_ppo_signal", .ok o.ppoSignal),
              ("momentum_ppo_hist", .ok o.ppoHist)],
    -- 491-497 PVO
    fun df => do
      let v ← df.get volume
      let o ← PPO.new v 26 12 9 fillna
      return [("momentum_pvo", .ok o.ppo), ("momentum_pvo_signal", .ok o.ppoSignal),
              ("momentum_pvo_hist", .ok o.ppoHist)] ] ++
  (if vectorized then [] else
  [ -- 500-503 KAMA
    fun df => do
      let c ← df.get close
      return [("momentum_kama", .ok (kama c 10 2 30 fillna))] ])

/-- The blocks of `add_others_ta` — ta/wrapper.py:525-538 -/
def othersBlocks (close : String) (fillna : Bool) : List (Block F) :=
  [ fun df => do
      let c ← df.get close
      return [("others_dr", .ok (dailyReturn c fillna))],
    fun df => do
      let c ← df.get close
      return [("others_dlr", .ok (dailyLogReturn c fillna))],
    fun df => do
      let c ← df.get close
      let r ← cumulativeReturn c fillna
      return [("others_cr", .ok r)] ]

/-- `add_volume_ta` — ta/wrapper.py:64-148 -/
def addVolumeTa (df : Frame F) (high low close volume : String) (fillna : Bool := false)
    (colprefix : String := "") (vectorized : Bool := false) : Outcome F :=
  runBlocks colprefix (volumeBlocks high low close volume fillna vectorized) df

/-- `add_volatility_ta` — ta/wrapper.py:151-220 -/
def addVolatilityTa (df : Frame F) (high low close : String) (fillna : Bool := false)
    (colprefix : String := "") (vectorized : Bool := false) : Outcome F :=
  runBlocks colprefix (volatilityBlocks high low close fillna vectorized) df

/-- `add_trend_ta` — ta/wrapper.py:223-395 -/
def addTrendTa (df : Frame F) (high low close : String) (fillna : Bool := false)
    (colprefix : String := "") (vectorized : Bool := false) : Outcome F :=
  runBlocks colprefix (trendBlocks high low close fillna vectorized) df

/-- `add_momentum_ta` — ta/wrapper.py:398-505 -/
def addMomentumTa (df : Frame F) (high low close volume : String) (fillna : Bool := false)
    (colprefix : String := "") (vectorized : Bool := false) : Outcome F :=
  runBlocks colprefix (momentumBlocks high low close volume fillna vectorized) df

/-- `add_others_ta` — ta/wrapper.py:508-540 -/
def addOthersTa (df : Frame F) (close : String) (fillna : Bool := false) (colprefix : String := "") :
    Outcome F :=
  runBlocks colprefix (othersBlocks close fillna) df

/-- `add_all_ta_features` — ta/wrapper.py:543-609 (`open` is accepted and never read) -/
def addAllTaFeatures (df : Frame F) (_open high low close volume : String) (fillna : Bool := false)
    (colprefix : String := "") (vectorized : Bool := false) : Outcome F :=
  ((((addVolumeTa df high low close volume fillna colprefix vectorized).andThen
    fun df => addVolatilityTa df high low close fillna colprefix vectorized).andThen
    fun df => addTrendTa df high low close fillna colprefix vectorized).andThen
    fun df => addMomentumTa df high low close volume fillna colprefix vectorized).andThen
    fun df => addOthersTa df close fillna colprefix

end TA
