import Verif.Model.Wrapper

/-!
# Catalogue of all indicator outputs

One constructor per public output method of the 43 indicator classes, carrying the constructor parameters, and
`Ind.eval` running it on a list of bars.  A list of bars is four equally long columns; an indicator reads the
columns its constructor takes.  (`VolumePriceTrendIndicator(dropnans=True)` is not in the catalogue: it is the one
output that is not row-for-row.)
-/

namespace TA

/-- One row of input. -/
structure Bar (F : Type) where
  high : F
  low : F
  close : F
  volume : F

/-- The columns. -/
abbrev highs {F : Type} (b : List (Bar F)) : Series F := b.map Bar.high
abbrev lows {F : Type} (b : List (Bar F)) : Series F := b.map Bar.low
abbrev closes {F : Type} (b : List (Bar F)) : Series F := b.map Bar.close
abbrev volumes {F : Type} (b : List (Bar F)) : Series F := b.map Bar.volume

/-- Parameters of `KSTIndicator` — ta/trend.py:464-477 -/
structure KstP where
  r1 : Nat := 10
  r2 : Nat := 15
  r3 : Nat := 20
  r4 : Nat := 30
  w1 : Nat := 10
  w2 : Nat := 10
  w3 : Nat := 10
  w4 : Nat := 15

/-- Every public output method, with its parameters. -/
inductive Ind (F : Type) where
  -- ta/momentum.py
  | rsi (w : Nat)
  | tsi (slow fast : Nat)
  | uo (w1 w2 w3 : Nat) (wt1 wt2 wt3 : F)
  | stoch (w : Nat)
  | stochSignal (w smooth : Nat)
  | kama (w pow1 pow2 : Nat)
  | roc (w : Nat)
  | ao (w1 w2 : Nat)
  | williamsR (lbp : Nat)
  | stochrsi (w s1 s2 : Nat)
  | stochrsiK (w s1 s2 : Nat)
  | stochrsiD (w s1 s2 : Nat)
  | ppo (slow fast sign : Nat)
  | ppoSignal (slow fast sign : Nat)
  | ppoHist (slow fast sign : Nat)
  | pvo (slow fast sign : Nat)
  | pvoSignal (slow fast sign : Nat)
  | pvoHist (slow fast sign : Nat)
  -- ta/trend.py
  | aroonUp (w : Nat)
  | aroonDown (w : Nat)
  | aroonInd (w : Nat)
  | macd (slow fast sign : Nat)
  | macdSignal (slow fast sign : Nat)
  | macdDiff (slow fast sign : Nat)
  | ema (w : Nat)
  | sma (w : Nat)
  | wma (w : Nat)
  | trix (w : Nat)
  | massIndex (fast slow : Nat)
  | ichimokuConv (w1 : Nat)
  | ichimokuBase (w2 : Nat)
  | ichimokuA (w1 w2 : Nat) (visual : Bool)
  | ichimokuB (w2 w3 : Nat) (visual : Bool)
  | kst (p : KstP)
  | kstSig (p : KstP) (nsig : Nat)
  | kstDiff (p : KstP) (nsig : Nat)
  | dpo (w : Nat)
  | cci (w : Nat) (constant : F)
  | adx (w : Nat)
  | adxPos (w : Nat)
  | adxNeg (w : Nat)
  | vortexPos (w : Nat)
  | vortexNeg (w : Nat)
  | vortexDiff (w : Nat)
  | psar (step maxStep : F)
  | psarUp (step maxStep : F)
  | psarDown (step maxStep : F)
  | psarUpInd (step maxStep : F)
  | psarDownInd (step maxStep : F)
  | stc (slow fast cycle smooth1 smooth2 : Nat)
  -- ta/volatility.py
  | atr (w : Nat)
  | bbMavg (w : Nat) (dev : F)
  | bbHband (w : Nat) (dev : F)
  | bbLband (w : Nat) (dev : F)
  | bbWband (w : Nat) (dev : F)
  | bbPband (w : Nat) (dev : F)
  | bbHi (w : Nat) (dev : F)
  | bbLi (w : Nat) (dev : F)
  | kcMband (w watr : Nat) (original : Bool) (mult : F)
  | kcHband (w watr : Nat) (original : Bool) (mult : F)
  | kcLband (w watr : Nat) (original : Bool) (mult : F)
  | kcWband (w watr : Nat) (original : Bool) (mult : F)
  | kcPband (w watr : Nat) (original : Bool) (mult : F)
  | kcHi (w watr : Nat) (original : Bool) (mult : F)
  | kcLi (w watr : Nat) (original : Bool) (mult : F)
  | dcHband (w : Nat) (offset : Int)
  | dcLband (w : Nat) (offset : Int)
  | dcMband (w : Nat) (offset : Int)
  | dcWband (w : Nat) (offset : Int)
  | dcPband (w : Nat) (offset : Int)
  | ulcer (w : Nat)
  -- ta/volume.py
  | adi
  | obv
  | cmf (w : Nat)
  | fi (w : Nat)
  | eom
  | smaEom (w : Nat)
  | vpt (smoothing : Option Nat)
  | nvi
  | mfi (w : Nat)
  | vwap (w : Nat)
  -- ta/others.py
  | dr
  | dlr
  | cr

variable {F : Type} [FltFn F]

/-- Run one output method: constructor and method call, as a function of the input rows.  The PSAR is run with a
non-integer (e.g. date) index; for the dependence on the index see C47. -/
def Ind.eval (fillna : Bool) (b : List (Bar F)) : Ind F → Except PyErr (Series F)
  | .rsi w => TA.rsi (closes b) w fillna
  | .tsi slow fast => TA.tsi (closes b) slow fast fillna
  | .uo w1 w2 w3 wt1 wt2 wt3 =>
      .ok (ultimateOscillator (highs b) (lows b) (closes b) w1 w2 w3 wt1 wt2 wt3 fillna)
  | .stoch w => .ok (TA.stoch (highs b) (lows b) (closes b) w fillna)
  | .stochSignal w s => .ok (TA.stochSignal (highs b) (lows b) (closes b) w s fillna)
  | .kama w p1 p2 => .ok (TA.kama (closes b) w p1 p2 fillna)
  | .roc w => .ok (TA.roc (closes b) w fillna)
  | .ao w1 w2 => .ok (awesomeOscillator (highs b) (lows b) w1 w2 fillna)
  | .williamsR w => .ok (TA.williamsR (highs b) (lows b) (closes b) w fillna)
  | .stochrsi w s1 s2 => (StochRSI.new (closes b) w s1 s2 fillna).map (·.stochrsi)
  | .stochrsiK w s1 s2 => (StochRSI.new (closes b) w s1 s2 fillna).map (·.stochrsiK)
  | .stochrsiD w s1 s2 => (StochRSI.new (closes b) w s1 s2 fillna).map (·.stochrsiD)
  | .ppo slow fast sign => (PPO.new (closes b) slow fast sign fillna).map (·.ppo)
  | .ppoSignal slow fast sign => (PPO.new (closes b) slow fast sign fillna).map (·.ppoSignal)
  | .ppoHist slow fast sign => (PPO.new (closes b) slow fast sign fillna).map (·.ppoHist)
  | .pvo slow fast sign => (PPO.new (volumes b) slow fast sign fillna).map (·.ppo)
  | .pvoSignal slow fast sign => (PPO.new (volumes b) slow fast sign fillna).map (·.ppoSignal)
  | .pvoHist slow fast sign => (PPO.new (volumes b) slow fast sign fillna).map (·.ppoHist)
  | .aroonUp w => (Aroon.new (highs b) (lows b) w fillna).map (·.aroonUp)
  | .aroonDown w => (Aroon.new (highs b) (lows b) w fillna).map (·.aroonDown)
  | .aroonInd w => (Aroon.new (highs b) (lows b) w fillna).map (·.aroonIndicator)
  | .macd slow fast sign => (MACD.new (closes b) slow fast sign fillna).map (·.macd)
  | .macdSignal slow fast sign => (MACD.new (closes b) slow fast sign fillna).map (·.macdSignal)
  | .macdDiff slow fast sign => (MACD.new (closes b) slow fast sign fillna).map (·.macdDiff)
  | .ema w => emaIndicator (closes b) w fillna
  | .sma w => .ok (smaIndicator (closes b) w fillna)
  | .wma w => .ok (TA.wma (closes b) w fillna)
  | .trix w => TA.trix (closes b) w fillna
  | .massIndex fast slow => TA.massIndex (highs b) (lows b) fast slow fillna
  | .ichimokuConv w1 => .ok (ichimokuConversionLine (highs b) (lows b) w1 fillna)
  | .ichimokuBase w2 => .ok (ichimokuBaseLine (highs b) (lows b) w2 fillna)
  | .ichimokuA w1 w2 vis => .ok (TA.ichimokuA (highs b) (lows b) w1 w2 vis fillna)
  | .ichimokuB w2 w3 vis => .ok (TA.ichimokuB (highs b) (lows b) w2 w3 vis fillna)
  | .kst p => .ok (TA.kst (closes b) p.r1 p.r2 p.r3 p.r4 p.w1 p.w2 p.w3 p.w4 fillna)
  | .kstSig p nsig => .ok (TA.kstSig (closes b) p.r1 p.r2 p.r3 p.r4 p.w1 p.w2 p.w3 p.w4 nsig fillna)
  | .kstDiff p nsig => .ok (TA.kstDiff (closes b) p.r1 p.r2 p.r3 p.r4 p.w1 p.w2 p.w3 p.w4 nsig fillna)
  | .dpo w => .ok (TA.dpo (closes b) w fillna)
  | .cci w k => .ok (TA.cci (highs b) (lows b) (closes b) w k fillna)
  | .adx w => do (← ADX.new (highs b) (lows b) (closes b) w fillna).adx
  | .adxPos w => (ADX.new (highs b) (lows b) (closes b) w fillna).map (·.adxPos)
  | .adxNeg w => (ADX.new (highs b) (lows b) (closes b) w fillna).map (·.adxNeg)
  | .vortexPos w => .ok (TA.vortexPos (highs b) (lows b) (closes b) w fillna)
  | .vortexNeg w => .ok (TA.vortexNeg (highs b) (lows b) (closes b) w fillna)
  | .vortexDiff w => .ok (TA.vortexDiff (highs b) (lows b) (closes b) w fillna)
  | .psar st mx => (PSAR.new (highs b) (lows b) (closes b) .positional st mx fillna).map (·.psar)
  | .psarUp st mx => (PSAR.new (highs b) (lows b) (closes b) .positional st mx fillna).map (·.psarUp)
  | .psarDown st mx => (PSAR.new (highs b) (lows b) (closes b) .positional st mx fillna).map (·.psarDown)
  | .psarUpInd st mx =>
      (PSAR.new (highs b) (lows b) (closes b) .positional st mx fillna).map (·.psarUpIndicator)
  | .psarDownInd st mx =>
      (PSAR.new (highs b) (lows b) (closes b) .positional st mx fillna).map (·.psarDownIndicator)
  | .stc slow fast cycle s1 s2 => TA.stc (closes b) slow fast cycle s1 s2 fillna
  | .atr w => averageTrueRange (highs b) (lows b) (closes b) w fillna
  | .bbMavg w dev => .ok (BB.new (closes b) w dev fillna).bollingerMavg
  | .bbHband w dev => .ok (BB.new (closes b) w dev fillna).bollingerHband
  | .bbLband w dev => .ok (BB.new (closes b) w dev fillna).bollingerLband
  | .bbWband w dev => .ok (BB.new (closes b) w dev fillna).bollingerWband
  | .bbPband w dev => .ok (BB.new (closes b) w dev fillna).bollingerPband
  | .bbHi w dev => .ok (BB.new (closes b) w dev fillna).bollingerHbandIndicator
  | .bbLi w dev => .ok (BB.new (closes b) w dev fillna).bollingerLbandIndicator
  | .kcMband w wa o k => (Keltner.new (highs b) (lows b) (closes b) w wa fillna o k).map (·.mband)
  | .kcHband w wa o k => (Keltner.new (highs b) (lows b) (closes b) w wa fillna o k).map (·.hband)
  | .kcLband w wa o k => (Keltner.new (highs b) (lows b) (closes b) w wa fillna o k).map (·.lband)
  | .kcWband w wa o k => (Keltner.new (highs b) (lows b) (closes b) w wa fillna o k).map (·.wband)
  | .kcPband w wa o k => (Keltner.new (highs b) (lows b) (closes b) w wa fillna o k).map (·.pband)
  | .kcHi w wa o k => (Keltner.new (highs b) (lows b) (closes b) w wa fillna o k).map (·.hbandIndicator)
  | .kcLi w wa o k => (Keltner.new (highs b) (lows b) (closes b) w wa fillna o k).map (·.lbandIndicator)
  | .dcHband w off => (Donchian.new (highs b) (lows b) (closes b) w off fillna).map (·.hband)
  | .dcLband w off => (Donchian.new (highs b) (lows b) (closes b) w off fillna).map (·.lband)
  | .dcMband w off => (Donchian.new (highs b) (lows b) (closes b) w off fillna).map (·.mband)
  | .dcWband w off => (Donchian.new (highs b) (lows b) (closes b) w off fillna).map (·.wband)
  | .dcPband w off => (Donchian.new (highs b) (lows b) (closes b) w off fillna).map (·.pband)
  | .ulcer w => ulcerIndex (closes b) w fillna
  | .adi => .ok (accDistIndex (highs b) (lows b) (closes b) (volumes b) fillna)
  | .obv => .ok (onBalanceVolume (closes b) (volumes b) fillna)
  | .cmf w => .ok (chaikinMoneyFlow (highs b) (lows b) (closes b) (volumes b) w fillna)
  | .fi w => forceIndex (closes b) (volumes b) w fillna
  | .eom => .ok (easeOfMovement (highs b) (lows b) (volumes b) fillna)
  | .smaEom w => .ok (smaEaseOfMovement (highs b) (lows b) (volumes b) w fillna)
  | .vpt sm => .ok (volumePriceTrend (closes b) (volumes b) fillna sm)
  | .nvi => negativeVolumeIndex (closes b) (volumes b) fillna
  | .mfi w => .ok (moneyFlowIndex (highs b) (lows b) (closes b) (volumes b) w fillna)
  | .vwap w => .ok (volumeWeightedAveragePrice (highs b) (lows b) (closes b) (volumes b) w fillna)
  | .dr => .ok (dailyReturn (closes b) fillna)
  | .dlr => .ok (dailyLogReturn (closes b) fillna)
  | .cr => cumulativeReturn (closes b) fillna

end TA
