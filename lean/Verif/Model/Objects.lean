import Verif.Model.Catalogue

/-!
# Indicator objects over time

`Ind.eval` runs the constructor and one method at once. Here an object lives on: the constructor computes arrays from the input columns and
keeps them as attributes, together with references to the caller's columns; a method reads attributes and, in some classes, the columns
themselves, which the caller may have overwritten in place since (a data frame column hands out a view of its data). A method returns either a new array or,
with `fillna=False`, `pd.Series(self._x, name=…)`, which in pandas 1.3.5 shares its data with the attribute `self._x`.

No constructor keeps a view of an input column as an attribute that it computed: every computed attribute is the result of an arithmetic
operation, a window function, `.copy()` (`PSARIndicator`, ta/trend.py:975) or a new numpy array. No method assigns to an attribute.
-/

namespace TA

/-- The 43 classes, with the parameters of the constructor. -/
inductive Obj (F : Type) where
  -- ta/momentum.py:14, 63, 122, 217, 282, 362, 408, 476, 549, 622, 695
  | rsi (w : Nat)
  | tsi (slow fast : Nat)
  | uo (w1 w2 w3 : Nat) (wt1 wt2 wt3 : F)
  | stoch (w smooth : Nat)
  | kama (w pow1 pow2 : Nat)
  | roc (w : Nat)
  | ao (w1 w2 : Nat)
  | williamsR (lbp : Nat)
  | stochrsi (w s1 s2 : Nat)
  | ppo (slow fast sign : Nat)
  | pvo (slow fast sign : Nat)
  -- ta/trend.py:14, 84, 158, 182, 206, 249, 288, 340, 440, 576, 615, 678, 863, 934, 1093
  | aroon (w : Nat)
  | macd (slow fast sign : Nat)
  | ema (w : Nat)
  | sma (w : Nat)
  | wma (w : Nat)
  | trix (w : Nat)
  | massIndex (fast slow : Nat)
  | ichimoku (w1 w2 w3 : Nat) (visual : Bool)
  | kst (p : KstP) (nsig : Nat)
  | dpo (w : Nat)
  | cci (w : Nat) (constant : F)
  | adx (w : Nat)
  | vortex (w : Nat)
  | psar (step maxStep : F)
  | stc (slow fast cycle smooth1 smooth2 : Nat)
  -- ta/volatility.py:14, 67, 183, 334, 433
  | atr (w : Nat)
  | bollinger (w : Nat) (dev : F)
  | keltner (w watr : Nat) (original : Bool) (mult : F)
  | donchian (w : Nat) (offset : Int)
  | ulcer (w : Nat)
  -- ta/volume.py:17, 65, 99, 154, 197, 257, 309, 350, 424
  | adi
  | obv
  | cmf (w : Nat)
  | fi (w : Nat)
  | eom (w : Nat)
  | vpt (smoothing : Option Nat)
  | nvi
  | mfi (w : Nat)
  | vwap (w : Nat)
  -- ta/others.py:14, 41, 70
  | dr
  | dlr
  | cr

/-- The output methods of an object. -/
def Obj.outputs {F : Type} : Obj F → List (Ind F)
  | .rsi w => [.rsi w]
  | .tsi s f => [.tsi s f]
  | .uo w1 w2 w3 a b c => [.uo w1 w2 w3 a b c]
  | .stoch w s => [.stoch w, .stochSignal w s]
  | .kama w p q => [.kama w p q]
  | .roc w => [.roc w]
  | .ao w1 w2 => [.ao w1 w2]
  | .williamsR w => [.williamsR w]
  | .stochrsi w a b => [.stochrsi w a b, .stochrsiK w a b, .stochrsiD w a b]
  | .ppo s f g => [.ppo s f g, .ppoSignal s f g, .ppoHist s f g]
  | .pvo s f g => [.pvo s f g, .pvoSignal s f g, .pvoHist s f g]
  | .aroon w => [.aroonUp w, .aroonDown w, .aroonInd w]
  | .macd s f g => [.macd s f g, .macdSignal s f g, .macdDiff s f g]
  | .ema w => [.ema w]
  | .sma w => [.sma w]
  | .wma w => [.wma w]
  | .trix w => [.trix w]
  | .massIndex f s => [.massIndex f s]
  | .ichimoku w1 w2 w3 v => [.ichimokuConv w1, .ichimokuBase w2, .ichimokuA w1 w2 v, .ichimokuB w2 w3 v]
  | .kst p n => [.kst p, .kstSig p n, .kstDiff p n]
  | .dpo w => [.dpo w]
  | .cci w k => [.cci w k]
  | .adx w => [.adx w, .adxPos w, .adxNeg w]
  | .vortex w => [.vortexPos w, .vortexNeg w, .vortexDiff w]
  | .psar s m => [.psar s m, .psarUp s m, .psarDown s m, .psarUpInd s m, .psarDownInd s m]
  | .stc a b c d e => [.stc a b c d e]
  | .atr w => [.atr w]
  | .bollinger w d => [.bbMavg w d, .bbHband w d, .bbLband w d, .bbWband w d, .bbPband w d, .bbHi w d, .bbLi w d]
  | .keltner w a o m => [.kcMband w a o m, .kcHband w a o m, .kcLband w a o m, .kcWband w a o m, .kcPband w a o m, .kcHi w a o m, .kcLi w a o m]
  | .donchian w o => [.dcHband w o, .dcLband w o, .dcMband w o, .dcWband w o, .dcPband w o]
  | .ulcer w => [.ulcer w]
  | .adi => [.adi]
  | .obv => [.obv]
  | .cmf w => [.cmf w]
  | .fi w => [.fi w]
  | .eom w => [.eom, .smaEom w]
  | .vpt s => [.vpt s]
  | .nvi => [.nvi]
  | .mfi w => [.mfi w]
  | .vwap w => [.vwap w]
  | .dr => [.dr]
  | .dlr => [.dlr]
  | .cr => [.cr]

/-- What a method hands out: a Series sharing its data with attribute `k` of the object, or a new one. -/
inductive Ret (F : Type) where
  | own (k : Nat)
  | new (s : Series F)

variable {F : Type} [FltFn F]

/-- The constructor: the arrays it computes and keeps, from the columns as they are when it runs. Lines as in `Model/Momentum.lean` and so on;
`EMAIndicator` and `SMAIndicator` compute nothing (ta/trend.py:167-170, 191-194). -/
def Obj.init (fillna : Bool) (b : List (Bar F)) : Obj F → Except PyErr (List (Series F))
  | .rsi w => if w = 0 then .error .zeroDivision else .ok [RSI.run (closes b) w fillna]
  | .tsi s f => do chkSpan s; chkSpan f; return [TSI.run (closes b) s f fillna]
  | .uo w1 w2 w3 x y z => .ok [UO.run (highs b) (lows b) (closes b) w1 w2 w3 x y z fillna]
  | .stoch w _ => .ok [Stoch.k (highs b) (lows b) (closes b) w fillna]
  | .kama w p q => .ok [KAMA.run (closes b) w p q fillna]
  | .roc w => .ok [ROC.run (closes b) w]
  | .ao w1 w2 => .ok [AO.run (highs b) (lows b) w1 w2 fillna]
  | .williamsR w => .ok [WR.run (highs b) (lows b) (closes b) w fillna]
  | .stochrsi w s1 s2 => (StochRSI.new (closes b) w s1 s2 fillna).map fun o => [o.raw, o.k]
  | .ppo s f g => (PPO.new (closes b) s f g fillna).map fun o => [o.line, o.signal, o.hist]
  | .pvo s f g => (PPO.new (volumes b) s f g fillna).map fun o => [o.line, o.signal, o.hist]
  | .aroon w => (Aroon.new (highs b) (lows b) w fillna).map fun o => [o.up, o.down]
  | .macd s f g => (MACD.new (closes b) s f g fillna).map fun o => [o.line, o.signal, o.diff]
  | .ema _ => .ok []
  | .sma _ => .ok []
  | .wma w => .ok [rollApply (WMA.avg w) w w (closes b)]
  | .trix w => do chkSpan w; return [TRIX.run (closes b) w fillna]
  | .massIndex f s => do chkSpan f; return [Mass.run (highs b) (lows b) f s fillna]
  | .ichimoku w1 w2 _ _ => .ok [Ichimoku.mid (highs b) (lows b) w1 (minp fillna w1), Ichimoku.mid (highs b) (lows b) w2 (minp fillna w2)]
  | .kst p n =>
      let k := KST.run (closes b) p.r1 p.r2 p.r3 p.r4 p.w1 p.w2 p.w3 p.w4 fillna
      .ok [k, KST.sig k n]
  | .dpo w => .ok [DPO.run (closes b) w fillna]
  | .cci w k => .ok [CCI.run (highs b) (lows b) (closes b) w k fillna]
  | .adx w => (ADX.new (highs b) (lows b) (closes b) w fillna).map fun o => [o.trs, o.dip, o.din]
  | .vortex w => .ok [Vortex.vip (highs b) (lows b) (closes b) w fillna, Vortex.vin (highs b) (lows b) (closes b) w fillna]
  | .psar s m => (PSAR.new (highs b) (lows b) (closes b) .positional s m fillna).map fun o => [o.psarS, o.up, o.down]
  | .stc s f c s1 s2 => do chkSpan f; chkSpan s; chkSpan s1; chkSpan s2; return [STC.run (closes b) s f c s1 s2 fillna]
  | .atr w => if (closes b).length < max w 1 then .error .indexError else .ok [ATR.run (highs b) (lows b) (closes b) w]
  | .bollinger w d =>
      let o := BB.new (closes b) w d fillna
      .ok [o.mavg, o.hband, o.lband]
  | .keltner w wa o m => (Keltner.new (highs b) (lows b) (closes b) w wa fillna o m).map fun o => [o.tp, o.tpHigh, o.tpLow]
  | .donchian w off => (Donchian.new (highs b) (lows b) (closes b) w off fillna).map fun o => [o.hb, o.lb]
  | .ulcer w => do chkRoll w 1; return [rollApply (Ulcer.fn w) w w (Ulcer.drawdown (closes b) w)]
  | .adi => .ok [ADI.run (highs b) (lows b) (closes b) (volumes b)]
  | .obv => .ok [OBV.run (closes b) (volumes b)]
  | .cmf w => .ok [CMF.run (highs b) (lows b) (closes b) (volumes b) w fillna]
  | .fi w => do chkSpan w; return [FI.run (closes b) (volumes b) w fillna]
  | .eom _ => .ok [EOM.run (highs b) (lows b) (volumes b)]
  | .vpt s => .ok [VPT.run (closes b) (volumes b) s fillna]
  | .nvi => if (closes b).length = 0 then .error .indexError else .ok [NVI.run (closes b) (volumes b)]
  | .mfi w => .ok [MFI.run (highs b) (lows b) (closes b) (volumes b) w fillna]
  | .vwap w => .ok [VWAP.run (highs b) (lows b) (closes b) (volumes b) w fillna]
  | .dr => .ok [DR.run (closes b)]
  | .dlr => .ok [DLR.run (closes b)]
  | .cr => if (closes b).length = 0 then .error .indexError else .ok [CR.run (closes b)]

/-- attribute `k` -/
def attr (a : List (Series F)) (k : Nat) : Series F := a.getD k []

/-- `pd.Series(self._check_fillna(self._x, value=v), name=…)`: `_check_fillna` returns its argument when `fillna` is off, and a new
Series otherwise — ta/utils.py:29-36 -/
def handOut (fillna : Bool) (v : Fill F) (a : List (Series F)) (k : Nat) : Except PyErr (Ret F) :=
  .ok (if fillna then .new (checkFillna true v (attr a k)) else .own k)

/-- a new Series -/
def handNew (fillna : Bool) (v : Fill F) (s : Series F) : Except PyErr (Ret F) := .ok (.new (checkFillna fillna v s))

/-- the attributes of a `BollingerBands` object beside the column it was given -/
def bbOf (fillna : Bool) (a : List (Series F)) (close : Series F) : BB F :=
  { close := close, mavg := attr a 0, hband := attr a 1, lband := attr a 2, fillna := fillna }

/-- the same of a `KeltnerChannel` object -/
def kcOf (fillna : Bool) (a : List (Series F)) (close : Series F) : Keltner F :=
  { close := close, tp := attr a 0, tpHigh := attr a 1, tpLow := attr a 2, fillna := fillna }

/-- the same of a `DonchianChannel` object -/
def dcOf (fillna : Bool) (w : Nat) (off : Int) (a : List (Series F)) (close : Series F) : Donchian F :=
  { close := close, hb := attr a 0, lb := attr a 1, window := w, minPeriods := if fillna then 1 else w, offset := off, fillna := fillna }

/-- the same of an `ADXIndicator` object; of the close column only the length is read -/
def adxObj (fillna : Bool) (w : Nat) (a : List (Series F)) (n : Nat) : ADX F :=
  { n := n, window := w, trs := attr a 0, dip := attr a 1, din := attr a 2, fillna := fillna }

/-- A method call: from the attributes and the columns as they are now. -/
def Ind.call (fillna : Bool) (a : List (Series F)) (b : List (Bar F)) : Ind F → Except PyErr (Ret F)
  | .rsi _ => handOut fillna (.const (lit 50)) a 0
  | .tsi .. => handOut fillna (.const (lit 0)) a 0
  | .uo .. => handOut fillna (.const (lit 50)) a 0
  | .stoch _ => handOut fillna (.const (lit 50)) a 0
  | .stochSignal _ s => handNew fillna (.const (lit 50)) (rollMean s (minp fillna s) (attr a 0))
  | .kama .. => handOut fillna (.ser (closes b)) a 0
  | .roc _ => handOut fillna (.const (lit 0)) a 0
  | .ao .. => handOut fillna (.const (lit 0)) a 0
  | .williamsR _ => handOut fillna (.const (lit (-50))) a 0
  | .stochrsi .. => handOut fillna (.const (lit 0)) a 0
  | .stochrsiK .. => handOut fillna (.const (lit 0)) a 1
  | .stochrsiD _ _ s2 => handNew fillna (.const (lit 0)) (rollMean s2 s2 (attr a 1))
  | .ppo .. => handOut fillna (.const (lit 0)) a 0
  | .ppoSignal .. => handOut fillna (.const (lit 0)) a 1
  | .ppoHist .. => handOut fillna (.const (lit 0)) a 2
  | .pvo .. => handOut fillna (.const (lit 0)) a 0
  | .pvoSignal .. => handOut fillna (.const (lit 0)) a 1
  | .pvoHist .. => handOut fillna (.const (lit 0)) a 2
  | .aroonUp _ => handOut fillna (.const (lit 0)) a 0
  | .aroonDown _ => handOut fillna (.const (lit 0)) a 1
  | .aroonInd _ => handNew fillna (.const (lit 0)) (ssub (attr a 0) (attr a 1))
  | .macd .. => handOut fillna (.const (lit 0)) a 0
  | .macdSignal .. => handOut fillna (.const (lit 0)) a 1
  | .macdDiff .. => handOut fillna (.const (lit 0)) a 2
  | .ema w => (emaIndicator (closes b) w fillna).map .new
  | .sma w => .ok (.new (smaIndicator (closes b) w fillna))
  | .wma _ => handOut fillna (.const (lit 0)) a 0
  | .trix _ => handOut fillna (.const (lit 0)) a 0
  | .massIndex .. => handOut fillna (.const (lit 0)) a 0
  | .ichimokuConv _ => handOut fillna .back a 0
  | .ichimokuBase _ => handOut fillna .back a 1
  | .ichimokuA _ w2 v => handNew fillna .back (Ichimoku.vis v w2 (cmul (lit (1/2)) (sadd (attr a 0) (attr a 1))))
  | .ichimokuB w2 w3 v => handNew fillna .back (Ichimoku.vis v w2 (Ichimoku.mid (highs b) (lows b) w3 0))
  | .kst _ => handOut fillna (.const (lit 0)) a 0
  | .kstSig .. => handOut fillna (.const (lit 0)) a 1
  | .kstDiff .. => handNew fillna (.const (lit 0)) (ssub (attr a 0) (attr a 1))
  | .dpo _ => handOut fillna (.const (lit 0)) a 0
  | .cci .. => handOut fillna (.const (lit 0)) a 0
  | .adx w => ((adxObj fillna w a b.length).adx).map .new
  | .adxPos w => .ok (.new (adxObj fillna w a b.length).adxPos)
  | .adxNeg w => .ok (.new (adxObj fillna w a b.length).adxNeg)
  | .vortexPos _ => handOut fillna (.const (lit 1)) a 0
  | .vortexNeg _ => handOut fillna (.const (lit 1)) a 1
  | .vortexDiff _ => handNew fillna (.const (lit 0)) (ssub (attr a 0) (attr a 1))
  | .psar .. => handOut fillna .back a 0
  | .psarUp .. => handOut fillna .back a 1
  | .psarDown .. => handOut fillna .back a 2
  | .psarUpInd .. => .ok (.new (PSAR.flag (attr a 1) (attr a 1)))
  | .psarDownInd .. => .ok (.new (PSAR.flag (attr a 1) (attr a 2)))
  | .stc .. => handOut fillna (.const (lit 0)) a 0
  | .atr _ => handOut fillna (.const (lit 0)) a 0
  | .bbMavg .. => handOut fillna .back a 0
  | .bbHband .. => handOut fillna .back a 1
  | .bbLband .. => handOut fillna .back a 2
  | .bbWband .. => .ok (.new (bbOf fillna a (closes b)).bollingerWband)
  | .bbPband .. => .ok (.new (bbOf fillna a (closes b)).bollingerPband)
  | .bbHi .. => .ok (.new (bbOf fillna a (closes b)).bollingerHbandIndicator)
  | .bbLi .. => .ok (.new (bbOf fillna a (closes b)).bollingerLbandIndicator)
  | .kcMband .. => handOut fillna .back a 0
  | .kcHband .. => handOut fillna .back a 1
  | .kcLband .. => handOut fillna .back a 2
  | .kcWband .. => .ok (.new (kcOf fillna a (closes b)).wband)
  | .kcPband .. => .ok (.new (kcOf fillna a (closes b)).pband)
  | .kcHi .. => .ok (.new (kcOf fillna a (closes b)).hbandIndicator)
  | .kcLi .. => .ok (.new (kcOf fillna a (closes b)).lbandIndicator)
  | .dcHband w off => if off ≠ 0 then .ok (.new (dcOf fillna w off a (closes b)).hband) else handOut fillna .back a 0
  | .dcLband w off => if off ≠ 0 then .ok (.new (dcOf fillna w off a (closes b)).lband) else handOut fillna .back a 1
  | .dcMband w off => .ok (.new (dcOf fillna w off a (closes b)).mband)
  | .dcWband w off => .ok (.new (dcOf fillna w off a (closes b)).wband)
  | .dcPband w off => .ok (.new (dcOf fillna w off a (closes b)).pband)
  | .ulcer _ => handOut fillna (.const (lit 0)) a 0
  | .adi => handOut fillna (.const (lit 0)) a 0
  | .obv => handOut fillna (.const (lit 0)) a 0
  | .cmf _ => handOut fillna (.const (lit 0)) a 0
  | .fi _ => handOut fillna (.const (lit 0)) a 0
  | .eom => handOut fillna (.const (lit 0)) a 0
  | .smaEom w => handNew fillna (.const (lit 0)) (rollMean w (minp fillna w) (attr a 0))
  | .vpt _ => handOut fillna (.const (lit 0)) a 0
  | .nvi => handOut fillna (.const (lit 1000)) a 0
  | .mfi _ => handOut fillna (.const (lit 50)) a 0
  | .vwap _ => handOut fillna (.const (lit 0)) a 0
  | .dr => handOut fillna (.const (lit 0)) a 0
  | .dlr => handOut fillna (.const (lit 0)) a 0
  | .cr => handOut fillna .back a 0

/-- The data of one object: the caller's columns, the arrays of the object, and the Series handed out so far. -/
structure World (F : Type) where
  bars : List (Bar F)
  attrs : List (Series F)
  outs : List (Ind F × Ret F)

/-- What can happen to it. -/
inductive Ev (F : Type) where
  /-- the caller overwrites row `i` of the input columns in place -/
  | input (i : Nat) (r : Bar F)
  /-- the caller calls an output method -/
  | call (x : Ind F)
  /-- the caller overwrites row `i` of the `j`-th Series handed out -/
  | poke (j i : Nat) (v : F)

/-- the present contents of a Series handed out -/
def World.read (w : World F) : Ret F → Series F
  | .own k => attr w.attrs k
  | .new s => s

/-- one event; a method that raises hands out nothing -/
def World.step (fillna : Bool) (w : World F) : Ev F → World F
  | .input i r => { w with bars := w.bars.set i r }
  | .call x => match x.call fillna w.attrs w.bars with
    | .ok r => { w with outs := w.outs ++ [(x, r)] }
    | .error _ => w
  | .poke j i v => match w.outs[j]? with
    | some (_, .own k) => { w with attrs := w.attrs.set k ((attr w.attrs k).set i v) }
    | some (x, .new s) => { w with outs := w.outs.set j (x, .new (s.set i v)) }
    | none => w

/-- a history -/
def World.after (fillna : Bool) (w : World F) (h : List (Ev F)) : World F := h.foldl (World.step fillna) w

/-- what a method call returns -/
def World.ask (fillna : Bool) (w : World F) (x : Ind F) : Except PyErr (Series F) := (x.call fillna w.attrs w.bars).map w.read

end TA
