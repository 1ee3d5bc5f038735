"""Runs the model on the inputs of /repo/test/unit and compares with the expected columns of /repo/test/data.

Reads the CSV files as text, writes a Lean file with a float64 instance of the arithmetic (outside the project), and evaluates it:
    python3 tools/csvcheck.py
Each line: test file and target column, verdict on the rows the unit test compares (tail), number of agreeing rows of the whole column.
Tolerance as in pandas' assert_series_equal (rtol 1e-5, atol 1e-8; TSI: 0.5e-3, its test asks for less precision).
"""
import csv, os, subprocess, sys, tempfile
D='/repo/test/data/cs-'
# file, indicator, fillna, target, tail
T=[('roc','.roc 12',0,'ROC',5),('rsi','.rsi 14',0,'RSI',5),('stochrsi','.stochrsi 14 3 3',0,'StochRSI(14)',5),
('ultosc','.uo 7 14 28 4 2 1',0,'Ult_Osc',5),('soo','.stoch 14',0,'SO',5),('soo','.stochSignal 14 3',0,'SO_SIG',5),('percentr','.williamsR 14',0,'Williams_%R',5),
('kama','.kama 10 2 30',0,'KAMA',5),('tsi','.tsi 25 13',0,'TSI',5),('ppo','.ppo 26 12 9',1,'PPO',5),('ppo','.ppoSignal 26 12 9',1,'PPO_Signal_Line',5),('ppo','.ppoHist 26 12 9',1,'PPO_Histogram',5),
('pvo','.pvo 26 12 9',1,'PVO',5),('pvo','.pvoSignal 26 12 9',1,'PVO_Signal_Line',5),('pvo','.pvoHist 26 12 9',1,'PVO_Histogram',5),
('adx','.adx 14',0,'ADX',5),('adx','.adxPos 14',0,'+DI14',5),('adx','.adxNeg 14',0,'-DI14',5),
('macd','.macd 26 12 9',0,'MACD_line',5),('macd','.macdSignal 26 12 9',0,'MACD_signal',5),('macd','.macdDiff 26 12 9',0,'MACD_diff',5),
('cci','.cci 20 0.015',0,'CCI',5),('vortex','.vortexPos 14',0,'+VI14',5),('vortex','.vortexNeg 14',0,'-VI14',5),
('psar','.psarUp 0.02 0.2',0,'psar_up',5),('psar','.psarDown 0.02 0.2',0,'psar_down',5),('psar','.psarUpInd 0.02 0.2',0,'psar_up_ind',5),('psar','.psarDownInd 0.02 0.2',0,'psar_down_ind',5),
('stc','.stc 50 23 10 3 3',0,'stc',15),('wma','.wma 9',0,'WMA',5),('atr','.atr 14',0,'ATR',5),('atr2','.atr 10',0,'ATR',5),
('bbands','.bbMavg 20 2',0,'MiddleBand',5),('bbands','.bbHband 20 2',0,'HighBand',5),('bbands','.bbLband 20 2',0,'LowBand',5),('bbands','.bbWband 20 2',0,'WidthBand',5),('bbands','.bbPband 20 2',0,'PercentageBand',5),('bbands','.bbHi 20 2',0,'CrossUp',5),('bbands','.bbLi 20 2',0,'CrossDown',5)]
for f,o in (('dc',0),('dc2',1)):
  for m,t in (('dcMband','middle_band'),('dcHband','upper_band'),('dcLband','lower_band'),('dcWband','dc_band_width'),('dcPband','dc_percentage')): T.append((f,f'.{m} 20 {o}',0,t,5))
for m,t in (('kcMband','middle_band'),('kcHband','upper_band'),('kcLband','lower_band'),('kcWband','kc_band_width'),('kcPband','kc_percentage'),('kcHi','kc_high_indicator'),('kcLi','kc_low_indicator')): T.append(('kc',f'.{m} 20 10 false 2',0,t,5))
T+=[('ui','.ulcer 14',0,'ulcer_index',1),('obv','.obv',0,'OBV',5),('fi','.fi 13',0,'FI',5),('easeofmovement','.eom',0,'EMV',5),('easeofmovement','.smaEom 14',0,'SMA_EMV',5),('accum','.adi',0,'ADLine',5),('mfi','.mfi 14',0,'MFI',5),('vwap','.vwap 14',0,'vwap',5),
('vpt','.vpt none',0,'unsmoothed vpt',5),('vpt','.vpt (some 14)',0,'14-smoothed vpt',5)]
def fl(x):
    x=x.strip().strip('"').replace(',','')
    if x=='' or x.lower()=='nan' or x=='#N/A': return 'NaN'
    try: v=float(x)
    except: return 'NaN'
    return f'({v!r})' if v<0 else repr(v)
def load(f):
    with open(D+f+'.csv') as h: rows=list(csv.reader(h))
    return rows[0],rows[1:]
out=['''import Verif.Model.Catalogue
open TA
namespace Chk
def NaN : Float := 0.0/0.0
instance : FltFn Float where
  nan := NaN
  lit q := Float.ofInt q.num / Float.ofNat q.den
  add := Float.add
  sub := Float.sub
  mul := Float.mul
  div := Float.div
  neg := Float.neg
  abs := Float.abs
  lt a b := a < b
  le a b := a ≤ b
  eq a b := a == b
  isNaN := Float.isNaN
  isInf := Float.isInf
  sqrt := Float.sqrt
  log := Float.log
def close (rtol a b : Float) : Bool := (a.isNaN && b.isNaN) || (a - b).abs ≤ 1e-8 + rtol * b.abs
def run (name : String) (x : Ind Float) (fill : Bool) (b : List (Bar Float)) (want : List Float) (k : Nat) (rtol : Float) : IO Unit := do
  match x.eval fill b with
  | .error _ => IO.println s!"{name}: RAISED"
  | .ok u =>
    let ps := u.zip want
    let bad := (ps.drop (ps.length - k)).filter fun p => !(close rtol p.1 p.2)
    let all := ps.filter fun p => !p.2.isNaN
    let badAll := all.filter fun p => !(close rtol p.1 p.2)
    IO.println s!"{name}: len {u.length}={want.length} {if bad.isEmpty then "ok" else "BAD " ++ toString bad}; all rows {all.length - badAll.length}/{all.length}"
''']
seen=set()
body=[]
for f,ind,fill,tgt,k in T:
    h,rows=load(f)
    rows=[r for r in rows if any(c.strip() for c in r)]
    col={n.strip().lower():i for i,n in enumerate(h)}
    if f not in seen:
        seen.add(f)
        def g(r,n):
            return fl(r[col[n]]) if n in col else 'NaN'
        out.append(f"def d_{f} : List (Bar Float) := ["+",\n ".join("⟨"+", ".join(g(r,n) for n in ('high','low','close','volume'))+"⟩" for r in rows)+"]")
    j=h.index(tgt)
    body.append(f'#eval run "{f} {tgt}" ({ind}) {"true" if fill else "false"} d_{f} ['+", ".join(fl(r[j]) for r in rows)+f'] {k} {"5e-4" if f=="tsi" else "1e-5"}')
lean = os.path.join(os.path.dirname(os.path.abspath(__file__)), "..", "lean")
with tempfile.TemporaryDirectory() as tmp:
    p = os.path.join(tmp, "Check.lean")
    with open(p, "w") as h: h.write("\n".join(out + body) + "\nend Chk\n")
    r = subprocess.run(["lake", "env", "lean", p], cwd=lean, capture_output=True, text=True)
print(r.stdout)
good = sum(": len" in l and " ok;" in l for l in r.stdout.splitlines())
print(f"{good} of {len(T)} targets agree")
sys.exit(good != len(T))
