import Verif.Model.Wrapper

/-!
# Fidelity check of the model (not a proof)

Runs the model on Lean's float64 `Float` over the CSV fixtures in `/repo/test/data` and compares with the expected
columns stored there, with the comparison the project's own unit tests make (`assert_series_equal` on the last
rows: NaN at the same places, relative tolerance 1e-5).

Run with `lake env lean --run Verif/Validate.lean /repo/test/data`.  No theorem depends on this file.
-/

namespace TA

/-- float64 -/
instance : FltFn Float where
  nan := 0.0 / 0.0
  lit q := Float.ofInt q.num / Float.ofNat q.den
  add := Float.add
  sub := Float.sub
  mul := Float.mul
  div := Float.div
  neg := Float.neg
  abs := Float.abs
  lt a b := decide (a < b)
  le a b := decide (a ≤ b)
  eq a b := a == b
  isNaN := Float.isNaN
  isInf := Float.isInf
  sqrt := Float.sqrt
  log := Float.log

namespace Validate

/-- Read a decimal such as `-12.34e-5`; empty is NaN. -/
def parseFloat (s : String) : Float :=
  let s := s.trimAscii.toString
  if s.isEmpty then nan else
  let (neg, s) := if s.startsWith "-" then (true, (s.drop 1).toString) else (false, s)
  let (mant, ex) := match s.splitOn "e" with
    | [m, e] => (m, e.toInt?.getD 0)
    | _ => (s, 0)
  let (ip, fp) := match mant.splitOn "." with
    | [a, b] => (a, b)
    | _ => (mant, "")
  match (ip ++ fp).toNat? with
  | none => nan
  | some m =>
    let e : Int := ex - fp.length
    let v := if e ≥ 0 then Float.ofScientific m false e.toNat else Float.ofScientific m true (-e).toNat
    if neg then -v else v

abbrev Csv := List (String × Series Float)

def readCsv (path : String) : IO Csv := do
  let txt ← IO.FS.readFile path
  let lines := (txt.splitOn "\n").filter (fun l => !l.trimAscii.isEmpty)
  match lines with
  | [] => return []
  | hd :: rows =>
    let names := hd.trimAscii.toString.splitOn ","
    let cells := rows.map (fun r => (r.trimAscii.toString.splitOn ",").toArray)
    return names.mapIdx (fun j n => (n, cells.map (fun r => parseFloat (r.getD j ""))))

def col (c : Csv) (n : String) : Series Float := (c.lookup n).getD []

/-- Worst relative error over the last `k` rows (infinite if NaNs are not at the same places). -/
def worst (k : Nat) (a b : Series Float) : Float :=
  let a' := lastN k a
  let b' := lastN k b
  (List.zip a' b').foldl (fun w (x, y) =>
    let e := if x.isNaN && y.isNaN then 0.0 else if x.isNaN || y.isNaN then 1.0 / 0.0
      else if x == y then 0.0 else (x - y).abs / (1e-8 + y.abs)
    if e > w then e else w) (if a.length == b.length then 0.0 else 1.0 / 0.0)

def report (name : String) (k : Nat) (r : Except PyErr (Series Float)) (t : Series Float)
    (tol : Float := 1.1e-5) : IO Unit :=
  match r with
  | .error e => IO.println s!"FAIL {name}: raised {repr e}"
  | .ok s =>
    let w := worst k s t
    IO.println s!"{if w ≤ tol then "ok  " else "FAIL"} {name}: rows {s.length}, worst relative error {w}"

def run (dir : String) : IO Unit := do
  let rd (f : String) := readCsv (dir ++ "/" ++ f ++ ".csv")
  let hlc (c : Csv) := (col c "High", col c "Low", col c "Close")
  -- momentum (test/unit/momentum.py)
  let c ← rd "cs-roc"
  report "roc" 5 (.ok (roc (col c "Close") 12)) (col c "ROC")
  let c ← rd "cs-rsi"
  report "rsi" 5 (rsi (col c "Close") 14) (col c "RSI")
  let c ← rd "cs-stochrsi"
  report "stochrsi" 5 ((StochRSI.new (col c "Close") 14 3 3).map (·.stochrsi)) (col c "StochRSI(14)")
  let c ← rd "cs-ultosc"
  let (h, l, cl) := hlc c
  report "uo" 5 (.ok (ultimateOscillator h l cl)) (col c "Ult_Osc")
  let c ← rd "cs-soo"
  let (h, l, cl) := hlc c
  report "stoch" 5 (.ok (stoch h l cl 14)) (col c "SO")
  report "stoch_signal" 5 (.ok (stochSignal h l cl 14 3)) (col c "SO_SIG")
  let c ← rd "cs-percentr"
  let (h, l, cl) := hlc c
  report "williams_r" 5 (.ok (williamsR h l cl 14)) (col c "Williams_%R")
  let c ← rd "cs-kama"
  report "kama" 5 (.ok (kama (col c "Close") 10 2 30)) (col c "KAMA")
  let c ← rd "cs-tsi"
  -- the project's test uses check_less_precise=True here
  report "tsi" 5 (tsi (col c "Close") 25 13) (col c "TSI") 0.5e-3
  let c ← rd "cs-ppo"
  report "ppo" 5 ((PPO.new (col c "Close") 26 12 9 true).map (·.ppo)) (col c "PPO")
  report "ppo_signal" 5 ((PPO.new (col c "Close") 26 12 9 true).map (·.ppoSignal)) (col c "PPO_Signal_Line")
  report "ppo_hist" 5 ((PPO.new (col c "Close") 26 12 9 true).map (·.ppoHist)) (col c "PPO_Histogram")
  let c ← rd "cs-pvo"
  report "pvo" 5 ((PPO.new (col c "Volume") 26 12 9 true).map (·.ppo)) (col c "PVO")
  report "pvo_signal" 5 ((PPO.new (col c "Volume") 26 12 9 true).map (·.ppoSignal)) (col c "PVO_Signal_Line")
  report "pvo_hist" 5 ((PPO.new (col c "Volume") 26 12 9 true).map (·.ppoHist)) (col c "PVO_Histogram")
  -- trend (test/unit/trend.py)
  let c ← rd "cs-adx"
  let (h, l, cl) := hlc c
  report "adx" 5 (do (← ADX.new h l cl 14).adx) (col c "ADX")
  report "adx_pos" 5 ((ADX.new h l cl 14).map (·.adxPos)) (col c "+DI14")
  report "adx_neg" 5 ((ADX.new h l cl 14).map (·.adxNeg)) (col c "-DI14")
  let c ← rd "cs-macd"
  report "macd" 5 ((MACD.new (col c "Close") 26 12 9).map (·.macd)) (col c "MACD_line")
  report "macd_signal" 5 ((MACD.new (col c "Close") 26 12 9).map (·.macdSignal)) (col c "MACD_signal")
  report "macd_diff" 5 ((MACD.new (col c "Close") 26 12 9).map (·.macdDiff)) (col c "MACD_diff")
  let c ← rd "cs-cci"
  let (h, l, cl) := hlc c
  report "cci" 5 (.ok (cci h l cl 20)) (col c "CCI")
  let c ← rd "cs-vortex"
  let (h, l, cl) := hlc c
  report "vortex_pos" 5 (.ok (vortexPos h l cl 14)) (col c "+VI14")
  report "vortex_neg" 5 (.ok (vortexNeg h l cl 14)) (col c "-VI14")
  let c ← rd "cs-psar"
  let (h, l, cl) := hlc c
  let ps := PSAR.new h l cl (Idx.range cl.length)
  report "psar_up" 100 (ps.map (·.psarUp)) (col c "psar_up")
  report "psar_down" 100 (ps.map (·.psarDown)) (col c "psar_down")
  report "psar_up_indicator" 100 (ps.map (·.psarUpIndicator)) (col c "psar_up_ind")
  report "psar_down_indicator" 100 (ps.map (·.psarDownIndicator)) (col c "psar_down_ind")
  let c ← rd "cs-stc"
  report "stc" 15 (stc (col c "Close") 50 23 10 3 3) (col c "stc")
  let c ← rd "cs-wma"
  report "wma" 5 (.ok (wma (col c "Close") 9)) (col c "WMA")
  -- volatility (test/unit/volatility.py)
  let c ← rd "cs-atr"
  let (h, l, cl) := hlc c
  report "atr" 100 (averageTrueRange h l cl 14) (col c "ATR")
  let c ← rd "cs-atr2"
  let (h, l, cl) := hlc c
  report "atr2" 100 (averageTrueRange h l cl 10) (col c "ATR")
  let c ← rd "cs-bbands"
  let b := BB.new (col c "Close") 20 (2 : Float)
  report "bb_mavg" 5 (.ok b.bollingerMavg) (col c "MiddleBand")
  report "bb_hband" 5 (.ok b.bollingerHband) (col c "HighBand")
  report "bb_lband" 5 (.ok b.bollingerLband) (col c "LowBand")
  report "bb_wband" 5 (.ok b.bollingerWband) (col c "WidthBand")
  report "bb_pband" 5 (.ok b.bollingerPband) (col c "PercentageBand")
  report "bb_hi" 5 (.ok b.bollingerHbandIndicator) (col c "CrossUp")
  report "bb_li" 5 (.ok b.bollingerLbandIndicator) (col c "CrossDown")
  for (f, off) in [("cs-dc", (0 : Int)), ("cs-dc2", 1)] do
    let c ← rd f
    let d := Donchian.new (col c "high") (col c "low") (col c "close") 20 off
    report s!"{f} mband" 5 (d.map (·.mband)) (col c "middle_band")
    report s!"{f} hband" 5 (d.map (·.hband)) (col c "upper_band")
    report s!"{f} lband" 5 (d.map (·.lband)) (col c "lower_band")
    report s!"{f} wband" 5 (d.map (·.wband)) (col c "dc_band_width")
    report s!"{f} pband" 5 (d.map (·.pband)) (col c "dc_percentage")
  let c ← rd "cs-kc"
  let (h, l, cl) := hlc c
  let k := Keltner.new h l cl 20 10 false false
  report "kc_mband" 5 (k.map (·.mband)) (col c "middle_band")
  report "kc_hband" 5 (k.map (·.hband)) (col c "upper_band")
  report "kc_lband" 5 (k.map (·.lband)) (col c "lower_band")
  report "kc_wband" 5 (k.map (·.wband)) (col c "kc_band_width")
  report "kc_pband" 5 (k.map (·.pband)) (col c "kc_percentage")
  report "kc_hi" 5 (k.map (·.hbandIndicator)) (col c "kc_high_indicator")
  report "kc_li" 5 (k.map (·.lbandIndicator)) (col c "kc_low_indicator")
  let c ← rd "cs-ui"
  report "ulcer" 1 (ulcerIndex (col c "Close") 14) (col c "ulcer_index")
  -- volume (test/unit/volume.py)
  let c ← rd "cs-obv"
  report "obv" 100 (.ok (onBalanceVolume (col c "Close") (col c "Volume"))) (col c "OBV")
  let c ← rd "cs-fi"
  report "fi" 5 (forceIndex (col c "Close") (col c "Volume") 13) (col c "FI")
  let c ← rd "cs-easeofmovement"
  report "eom" 100 (.ok (easeOfMovement (col c "High") (col c "Low") (col c "Volume"))) (col c "EMV")
  report "sma_eom" 100 (.ok (smaEaseOfMovement (col c "High") (col c "Low") (col c "Volume") 14)) (col c "SMA_EMV")
  let c ← rd "cs-accum"
  let (h, l, cl) := hlc c
  report "adi" 5 (.ok (accDistIndex h l cl (col c "Volume"))) (col c "ADLine")
  let c ← rd "cs-mfi"
  let (h, l, cl) := hlc c
  report "mfi" 5 (.ok (moneyFlowIndex h l cl (col c "Volume") 14)) (col c "MFI")
  let c ← rd "cs-vwap"
  let (h, l, cl) := hlc c
  report "vwap" 5 (.ok (volumeWeightedAveragePrice h l cl (col c "Volume"))) (col c "vwap")
  let c ← rd "cs-vpt"
  report "vpt" 100 (.ok (volumePriceTrend (col c "Close") (col c "Volume"))) (col c "unsmoothed vpt")
  report "vpt14" 100 (.ok (volumePriceTrend (col c "Close") (col c "Volume") false (some 14))) (col c "14-smoothed vpt")

end Validate
end TA

def main (args : List String) : IO Unit := TA.Validate.run (args.getD 0 "/repo/test/data")
