#!/usr/bin/env python3
"""Writes /verif/properties.jsonl (source of the property list, kept here so it can be edited readably)."""
import json, os
P = []
def p(id, title, statement, quantifier, why, anchors):
    P.append(dict(id=id, title=title, statement=statement, quantifier=quantifier, why_tests_cant=why, anchors=anchors))

U, M, T, VL, VO, O, W = ("ta/utils.py", "ta/momentum.py", "ta/trend.py", "ta/volatility.py", "ta/volume.py", "ta/others.py", "ta/wrapper.py")
EX = "Arithmetic claims are about exact arithmetic with IEEE NaN/inf (rounding aside)."

p("C01", "Row-for-row output",
  "Every indicator output has exactly one row per input row (VPT with dropnans=True is the only documented exception), whatever the data, window and fillna flag.",
  "all input series, lengths, windows, flags",
  "fixtures check a handful of fixed-length files; alignment must hold for every length including shorter-than-window ones",
  [f"{U}:_sma,_ema,IndicatorMixin", f"{M}:*", f"{T}:*", f"{VL}:*", f"{VO}:*", f"{O}:*"])
p("C02", "No look-ahead with fillna=False",
  "For every indicator except the ones named in C04-C08, with fillna=False, appending any number of later rows never changes an output row already produced: the output of the first n rows is a function of the first n rows. This holds for any arithmetic, rounding included. Exceptions, each with a witness: the ADX family needs gap-free prices so far (its seed otherwise searches forward for observations), the Donchian offset must not be negative, and Aroon with window 0 raises once there is an observation.",
  "all series, all appended suffixes, all windows, any float arithmetic",
  "a back-test fixture has one fixed end date; independence from the future quantifies over all possible futures",
  [f"{M}:RSIIndicator,TSIIndicator,UltimateOscillator,StochasticOscillator,ROCIndicator,AwesomeOscillatorIndicator,WilliamsRIndicator,StochRSIIndicator,PercentagePriceOscillator,PercentageVolumeOscillator",
   f"{T}:AroonIndicator,MACD,EMAIndicator,SMAIndicator,WMAIndicator,MassIndex,CCIIndicator,ADXIndicator,PSARIndicator,STCIndicator",
   f"{VL}:AverageTrueRange,BollingerBands,KeltnerChannel,DonchianChannel,UlcerIndex", f"{VO}:*", f"{O}:*"])
p("C03", "No look-ahead with fillna=True (constant-fill indicators)",
  "For the indicators whose missing values are filled by forward fill then a constant, the same append-invariance holds with fillna=True; for the ones filled by backfill (value=-1) it holds as soon as the output so far contains one defined value, and fails otherwise (an output that is still entirely NaN is filled from the future).",
  "all series, all appended suffixes, all windows",
  "requires comparing runs over every possible future of the series",
  [f"{U}:IndicatorMixin._check_fillna"])
p("C04", "KAMA look-ahead",
  "With fillna=False and NaN-free close, KAMA never looks ahead although it builds its volatility with a circular shift (np.roll); with fillna=True it does: the value of a row can change when later rows are appended (witness).",
  "all NaN-free close series, windows >= 1, pow1, pow2",
  "the fixture is compared at one fixed length, so a dependence on the last row is invisible",
  [f"{M}:KAMAIndicator._run"])
p("C05", "DPO look-ahead",
  "With fillna=False and window >= 3 the DPO column is causal; for window 1 or 2, or with fillna=True, early rows contain the mean of the whole series, future included (witnesses).",
  "all series, all windows", "depends on the relation between shift length and warm-up for every window", [f"{T}:DPOIndicator._run"])
p("C06", "KST look-ahead is confined to the warm-up",
  "Every KST / KST-signal row from index max_j(roc_j + window_j) - 1 (plus nsig - 1 for the signal) on is unaffected by appended rows; before that the rate of change is measured against the mean of the whole series, so appended rows do change defined values even with fillna=False (witness).",
  "all series, all roc/window parameters", "needs every future of the series", [f"{T}:KSTIndicator._run"])
p("C07", "TRIX and Vortex look-ahead",
  "TRIX with fillna=False and window >= 2, and Vortex with fillna=False and window >= 1, are causal although they fill their first lag with the mean of the whole series; with fillna=True the first rows leak the future (witnesses).",
  "all series, all windows", "needs every future of the series", [f"{T}:TRIXIndicator._run,VortexIndicator._run"])
p("C08", "Ichimoku spans and the visual shift",
  "With visual=False all four Ichimoku lines are causal. With visual=True row i of the spans equals row i - window2 of the unshifted span for i >= window2, and the first window2 rows hold the mean of the whole span, which depends on future rows (witness).",
  "all series, all windows", "needs every future of the series", [f"{T}:IchimokuIndicator"])
p("C09", "fillna=True leaves no gap (constant fill)",
  "With fillna=True an output filled with a constant contains neither NaN nor +-inf, for any input whatsoever (NaN and inf rows included).",
  "all input series, including all-NaN and infinite ones", "the set of gap patterns is unbounded", [f"{U}:IndicatorMixin._check_fillna"])
p("C10", "fillna=True in backfill mode",
  "With fillna=True and fill value -1 the output is gap-free iff the computed series has at least one finite value; otherwise it is entirely NaN.",
  "all input series", "the set of gap patterns is unbounded", [f"{U}:IndicatorMixin._check_fillna"])
p("C11", "Filling never overwrites a finite value, and fills with the latest one",
  "fillna=False returns the computed series unchanged. With fillna=True every finite computed value is kept, and every gap takes the nearest earlier finite value, or (no earlier one) the constant / the nearest later finite value. Filling twice equals filling once.",
  "all series, all fill values", "the set of gap patterns is unbounded", [f"{U}:IndicatorMixin._check_fillna"])
p("C12", "fillna only fills: defined rows do not depend on the flag",
  "For every output except those listed next, each row that is finite with fillna=False has the same value with fillna=True, on any data. The exceptions, where a later stage reads the rows that fillna adds, all fail (witnesses): MACD/PPO/PVO/KST signal and histogram, TSI, TRIX, mass index, STC, KAMA, the Bollinger and ATR-Keltner crossing flags, and visual Ichimoku span A.",
  "all series, all windows", "two runs related over all inputs", [f"{U}:_sma,_ema,IndicatorMixin._check_fillna", f"{T}:MACD._run"])
p("C13", "Simple moving average",
  "Row i of the SMA is the arithmetic mean of the last `window` values, NaN for the first window-1 rows; with fillna=True the mean of the values seen so far. " + EX,
  "all NaN-free series, all windows >= 1", "all windows and lengths", [f"{U}:_sma", f"{T}:SMAIndicator"])
p("C14", "Exponential moving average",
  "The EMA satisfies e_0 = x_0, e_i = (1-a) e_{i-1} + a x_i with a = 2/(window+1); rows before window-1 are NaN (fillna=False). " + EX,
  "all NaN-free series, all windows >= 1", "all windows and lengths", [f"{U}:_ema", f"{T}:EMAIndicator"])
p("C15", "Weighted moving average",
  "Row i of the WMA is sum_{k=1..w} k*x_{i-w+k} / (w(w+1)/2), NaN for the first w-1 rows. " + EX,
  "all NaN-free series, all windows >= 1", "all windows and lengths", [f"{T}:WMAIndicator"])
p("C16", "Averages stay inside the data",
  "SMA and EMA, and with fillna=False also WMA and KAMA (pow1, pow2 >= 1), never leave the interval [min, max] of the input; with fillna=False all four return c on a constant series c. Exceptions, with witnesses: WMA with fillna=True puts 0 in its warm-up rows, KAMA with a pow of 0 overshoots, and KAMA with fillna=True has no bound at all (C129). " + EX,
  "all series, all windows", "convexity over all inputs", [f"{U}:_sma,_ema", f"{T}:WMAIndicator", f"{M}:KAMAIndicator"])
p("C17", "RSI is an oscillator in [0,100]",
  "Every finite RSI value is in [0,100], for any close series (NaN and inf included); it is 100 - 100/(1+U/D) with Wilder-smoothed gains U and losses D, 100 when there was no loss (also on a flat series), 0 when there was no gain but a loss. The first row counts as a day without change. " + EX,
  "all close series, all windows >= 1", "range over all inputs", [f"{M}:RSIIndicator"])
p("C18", "RSI ignores price units and offsets",
  "Multiplying all closes by k > 0 or adding a constant leaves the RSI unchanged, with NaN and inf anywhere in the series. " + EX, "all series, all k > 0, all offsets", "relation between infinitely many runs", [f"{M}:RSIIndicator"])
p("C19", "TSI in [-100,100]", "Every finite TSI value is in [-100,100], for any close series; +100 on strictly rising and -100 on strictly falling prices. " + EX, "all close series, all windows", "range over all inputs", [f"{M}:TSIIndicator"])
p("C20", "Ultimate oscillator in [0,100]",
  "With low <= close <= high on every row and non-negative weights with positive sum, every finite value is in [0,100]; buying pressure never exceeds true range. " + EX, "all valid bars, all windows and weights", "range over all inputs", [f"{M}:UltimateOscillator"])
p("C21", "Stochastic and Williams %R",
  "With low <= close <= high, %K and %D are in [0,100] and %R in [-100,0]; %R = %K - 100 on every row where both are defined; on a flat window both are NaN (50 / -50 with fillna=True at the start). " + EX,
  "all valid bars, all windows", "range over all inputs", [f"{M}:StochasticOscillator,WilliamsRIndicator"])
p("C22", "StochRSI in [0,1], STC in [0,100]", "Every finite StochRSI, %K, %D is in [0,1] and every finite STC value in [0,100], for any close series. " + EX, "all close series, all windows", "range over all inputs", [f"{M}:StochRSIIndicator", f"{T}:STCIndicator"])
p("C23", "MFI in [0,100]", "Every MFI row is NaN or in [0,100], for any data. It is 100*P/(P+N) with the sums P and N of the positive and the negative money flow of the window, NaN (50 filled) when there was no flow at all; with non-negative prices and volumes, 100 when no typical price fell in the window and one rose on positive volume, 0 when none rose and one fell. " + EX, "all OHLCV rows, all windows", "range over all inputs", [f"{VO}:MFIIndicator"])
p("C24", "CMF in [-1,1]", "With low <= close <= high and volume >= 0 (bars and volumes may be missing), every CMF row is NaN or in [-1,1]; with positive volumes it is the volume weighted mean of the close location values of the window. " + EX, "all valid bars", "range over all inputs", [f"{VO}:ChaikinMoneyFlowIndicator"])
p("C25", "ADX family in [0,100]", "With low <= close <= high, +DI, -DI and ADX are in [0,100] on every row and +DI + -DI <= 100. " + EX, "all valid bars, all windows >= 1", "range over all inputs", [f"{T}:ADXIndicator"])
p("C26", "ADX follows Wilder's smoothing",
  "+DI/-DI at row i > window are 100 times the Wilder-smoothed directional movement over the Wilder-smoothed true range, and are 0 up to and including row `window`; ADX is the Wilder mean of DX seeded by the mean of the first `window` DX values at row 2*window-1, and 0 before. " + EX, "all bars, all windows", "recurrence over all lengths", [f"{T}:ADXIndicator"])
p("C27", "Aroon", "Aroon up/down are in [0,100] and the oscillator in [-100,100]; up is 100 exactly when the newest bar is the strict maximum of the last window+1 highs, and 100*(window-d)/window where d is the age of the oldest maximum. " + EX, "all series, all windows >= 1", "range over all inputs", [f"{T}:AroonIndicator"])
p("C28", "ATR", "ATR rows before window-1 are 0, row window-1 is the mean true range, then the Wilder recurrence; it is non-negative and never exceeds the largest true range seen. " + EX, "all valid bars, all windows", "recurrence over all lengths", [f"{VL}:AverageTrueRange"])
p("C29", "True range", "True range equals max(high, previous close) - min(low, previous close), and high - low on the first row; it is >= high - low >= 0. " + EX, "all valid bars", "all inputs", [f"{U}:IndicatorMixin._true_range"])
p("C30", "Bollinger bands", "Lower <= middle <= upper, both at distance window_dev * population standard deviation of the window; %b = 1/2 + (close-middle)/(upper-lower); the crossing indicators are 1 exactly when close is above upper / below lower; at most one of them is 1. " + EX, "all series, all windows, all non-negative window_dev", "all inputs", [f"{VL}:BollingerBands"])
p("C31", "Keltner channel", "With low <= high and multiplier >= 0 the upper band is >= the lower band and the middle is their midpoint (both versions); a channel's crossing indicators are mutually exclusive. In the original version the outer bands are defined from the first row even with fillna=False while the middle is not. " + EX, "all bars, all windows", "all inputs", [f"{VL}:KeltnerChannel"])
p("C32", "Donchian channel", "Upper is the maximum high and lower the minimum low of the window, every bar of the window lies inside, middle is the midpoint, %b is in [0,1] for low<=close<=high; a larger window gives a wider channel; offset k moves every output by exactly k rows and leaves NaN (even with fillna=True) where it came from. " + EX, "all bars, windows, integer offsets", "all inputs", [f"{VL}:DonchianChannel"])
p("C33", "Ulcer index", "For positive closes the Ulcer index is between 0 and 100, and is 0 exactly when no close in the window is below its trailing maximum; with fillna the rows before a full window are 0 and the others are unchanged. " + EX, "all positive series, all windows", "all inputs", [f"{VL}:UlcerIndex"])
p("C34", "OBV", "OBV starts at volume_0 and moves by -volume on a lower close and by +volume otherwise (an unchanged close counts as up, unlike the cited definition). " + EX, "all series", "all inputs", [f"{VO}:OnBalanceVolumeIndicator"])
p("C35", "ADI", "With low <= close <= high and volume >= 0, each step of the ADI is at most the row's volume in absolute value; a bar closing at its high adds exactly its volume, at its low subtracts it, a zero-range bar adds 0. " + EX, "all bars", "all inputs", [f"{VO}:AccDistIndexIndicator"])
p("C36", "VPT", "VPT_i is the sum over 1<=j<=i of volume_j * (close_j/close_{j-1} - 1), NaN on row 0; smoothing takes its moving average; dropnans removes exactly the NaN rows. " + EX, "all series with non-zero closes", "all inputs", [f"{VO}:VolumePriceTrendIndicator"])
p("C37", "NVI", "NVI starts at 1000 and changes only on rows whose volume is below the previous row's, then by exactly the close-to-close return; with positive closes it stays positive. " + EX, "all series", "all inputs", [f"{VO}:NegativeVolumeIndexIndicator"])
p("C38", "Force index and ease of movement", "Force index is the EMA of (close - previous close)*volume from row 1 on. EoM is 1e8*(midpoint move)*(range)/volume, 0-fill for row 0; its SMA signal is the window mean. " + EX, "all series", "all inputs", [f"{VO}:ForceIndexIndicator,EaseOfMovementIndicator"])
p("C39", "VWAP inside the window's price range", "With positive volumes and low <= close <= high, VWAP lies between the lowest low and the highest high of the window and equals sum(tp*vol)/sum(vol). " + EX, "all bars, all windows", "all inputs", [f"{VO}:VolumeWeightedAveragePrice"])
p("C40", "Line / signal / histogram identities", "MACD, PPO, PVO, KST, Vortex, Aroon with fillna=False: histogram/difference = line - signal on every row, and (except for Vortex, where both lines can be infinite: witness) is NaN exactly when one of them is NaN; MACD line = EMA(fast) - EMA(slow); PPO/PVO = 100*(fast/slow - 1); KST and Vortex lines by their published formulas. " + EX, "all series and windows", "all inputs", [f"{T}:MACD,KSTIndicator,VortexIndicator,AroonIndicator", f"{M}:PercentagePriceOscillator,PercentageVolumeOscillator"])
p("C41", "Exact warm-up", "With fillna=False on ordinary bars (gap-free, positive, high > low) every output has no value in its first lookback rows, where lookback is the fixed table per output: window-1 for SMA/EMA/WMA/RSI/KAMA/stochastic/rolling bands, slow-1 and slow+sign-2 for MACD line and signal, 3*window-2 for TRIX (window >= 2), slow+fast-1 for TSI, the longest window for the ultimate oscillator, window-1+offset for Donchian, and so on. All outputs that cannot divide by zero on such bars have a number on every later row, so the number of leading NaN rows is exactly min(rows, lookback). " + EX, "all ordinary bars, all lengths, all windows", "all windows and lengths", [f"{M}:*", f"{T}:*", f"{VL}:*", f"{VO}:*", f"{O}:*"])
p("C42", "Ichimoku lines inside the price range", "Conversion and base line lie between the lowest low and the highest high of their window and equal the mid-point of the two; span A is the mean of the two lines. " + EX, "all bars, all windows", "all inputs", [f"{T}:IchimokuIndicator"])
p("C43", "Returns compound", "1 + cumulative_return_i/100 = prod_{1<=j<=i} (1 + daily_return_j/100); the daily log returns sum to 100*log(close_i/close_0) = 100*log(1 + cumulative_return_i/100). " + EX, "all positive close series", "all lengths", [f"{O}:*"])
p("C44", "ROC", "ROC_i = 100*(close_i/close_{i-w} - 1), NaN on the first w rows; ROC with window 1 equals the daily return on finite closes; ROC is unchanged by rescaling prices. " + EX, "all non-zero series, all windows", "all inputs", [f"{M}:ROCIndicator", f"{O}:DailyReturnIndicator"])
p("C45", "PSAR trend partition", "With fillna=False, from row 2 on exactly one of psar_up / psar_down is defined and it equals psar; rows 0 and 1 have neither. " + EX, "all NaN-free bars, all step/max_step", "state machine over all histories", [f"{T}:PSARIndicator"])
p("C46", "PSAR stays on its side of the price", "PSAR follows Wilder's rules: with E the highest high of the current up-trend (bar 1 is never looked at), alpha = step until E is raised and min(step*(1+number of times E was raised), max_step) from then on (step >= 0), S the last stop and p = S + alpha*(E-S), the next row is a down row with stop E iff its low is below p, and otherwise an up row with stop p, clamped to the low two bars back, else to the previous low; mirrored for down-trends. While a trend continues, psar is not above the bar's low (up) nor below its high (down), and not beyond the low/high two bars back. It can be on the wrong side on a reversal bar and beyond the previous bar's low (witnesses).", "all NaN-free bars", "state machine over all histories", [f"{T}:PSARIndicator._run"])
p("C47", "PSAR does not depend on row labels", "Relabelling the rows (same prices in the same order) must not change the PSAR. True for a default index and for non-integer indexes; false for an integer index other than 0..n-1 (e.g. after utils.dropna), because the down-trend clamp writes by label (witness).", "all bars, all indexes", "all index labellings", [f"{T}:PSARIndicator._run", f"{U}:dropna"])
p("C48", "PSAR flip indicators", "psar_down_indicator is 1 exactly on the first row of each down-trend run and 0 elsewhere; psar_up_indicator likewise for up-trends, provided the psar value is not 0 (witness for 0).", "all NaN-free bars", "state machine over all histories", [f"{T}:PSARIndicator.psar_up_indicator,psar_down_indicator"])
p("C49", "Mass index", "With a constant positive range the mass index equals window_slow (the number of rows in the window, if it is short with fillna=True); with positive ranges it is positive. Unchanged by rescaling or shifting prices. " + EX, "all bars with high > low, all windows", "all inputs", [f"{T}:MassIndex"])
p("C50", "CCI", "CCI is (tp - SMA(tp)) / (constant * mean absolute deviation); NaN/inf-free where the deviation is non-zero; unchanged by rescaling prices with k>0 or shifting them. " + EX, "all bars, all windows", "all inputs", [f"{T}:CCIIndicator"])
p("C51", "When the constructors raise", "Whether an output raises, and which exception, depends only on its parameters and the number of rows (for Aroon with window 0 also on whether there is any number): ATR raises (IndexError) exactly when there are fewer rows than window or none; ADX raises ValueError for window 0 or fewer than window-1 rows, IndexError for exactly window-1 rows, and its adx() IndexError for fewer than 2*window rows; PSAR, NVI and cumulative return raise exactly on empty input; exponential smoothing with span 0 raises ValueError, RSI with window 0 ZeroDivisionError.", "all lengths and windows", "all lengths and windows", [f"{VL}:AverageTrueRange._run", f"{T}:ADXIndicator,PSARIndicator", f"{VO}:NegativeVolumeIndexIndicator", f"{O}:CumulativeReturnIndicator"])
p("C52", "Wrapper adds exactly its columns", "Each add_*_ta function and add_all_ta_features returns the caller's frame extended by exactly its documented list of prefixed column names, in order, each once; all other columns (the inputs too) are unchanged when no generated name equals an existing column.", "all frames, column names, prefixes, flags", "all frames and name choices", [f"{W}:*"])
p("C53", "Wrapper values are the indicators of the original columns", "If no generated name equals an input column name, each generated column equals the corresponding indicator, with the documented parameters, applied to the original input columns; so columns do not influence each other.", "all frames, names, prefixes", "all frames and name choices", [f"{W}:*"])
p("C54", "vectorized=True is a subset", "vectorized=True produces a sub-list of the columns of vectorized=False, with identical values.", "all frames", "all frames", [f"{W}:*"])
p("C55", "colprefix only renames", "The values produced do not depend on colprefix (absent clashes); the open column is never read.", "all frames, prefixes", "all frames", [f"{W}:*"])
p("C56", "Wrapper failure", "With its input columns present, each wrapper function succeeds or raises by the number of rows n alone. add_all_ta_features: IndexError for n < 10, ValueError for 10 <= n < 13, IndexError for 13 <= n < 28, success from 28 rows on; with vectorized=True IndexError for n = 0 and success otherwise (and similar tables for the five others). A missing input column raises KeyError; add_all_ta_features then leaves the frame unchanged. Whatever happens, columns with names that are not generated stay as they were; after an exception, exactly the columns before the failing one have been added.", "all frames, every failure point", "crash points over all lengths", [f"{W}:*"])
p("C57", "dropna", "utils.dropna keeps exactly the rows whose numeric cells are all non-NaN, non-zero and below exp(709) and whose other cells are non-null, in order, with unchanged values and labels; it does not touch its argument and is idempotent. It does not remove -inf (witness).", "all frames", "all frames", [f"{U}:dropna"])
p("C58", "Which bounds survive rounding", "When every operation is rounded by any monotone, odd, idempotent rounding that keeps 0, 1 and 100 (IEEE double precision is one; overflow to infinity included): RSI, MFI and the Aroon lines stay in [0,100], their difference in [-100,100], StochRSI in [0,1], for any data; Donchian %b stays in [0,1], ATR and +DI/-DI stay >= 0 and ADX in [0,100] (rounding exact on k and 100k up to the window) for bars with low <= close <= high; Bollinger bands and the ATR-based Keltner bands stay ordered; the Ulcer index stays >= 0. Not so in double precision: the stochastic oscillator exceeds 100, Williams %R falls below -100, and the EMA leaves the range of its data (witnesses).", "all inputs, all such roundings", "all inputs and rounding modes", [f"{M}:RSIIndicator,StochRSIIndicator,StochasticOscillator,WilliamsRIndicator", f"{VO}:MFIIndicator", f"{T}:AroonIndicator,ADXIndicator,EMAIndicator", f"{VL}:*"])
p("C59", "What a shift of all prices does", "Adding a constant to all prices leaves these outputs unchanged: RSI, TSI, ultimate oscillator, stochastic, Williams %R, StochRSI, awesome oscillator, PVO, Aroon, MACD, mass index, DPO, CCI, ADX family, Vortex, PSAR down flag, STC, ATR, the %b and crossing flags of the channels, ADI, OBV, CMF, force index, ease of movement. It moves by that constant: KAMA, EMA, SMA, WMA and VWAP (fillna=False), Ichimoku, PSAR, and the Bollinger, Keltner and Donchian lines. The remaining outputs depend on the origin of the prices (witnesses). Any data, gaps included; any parameters. " + EX, "all bars, all offsets, all parameters", "relation between infinitely many runs", [f"{T}:*", f"{M}:*", f"{VL}:*", f"{VO}:*"])
p("C60", "Price-unit invariance", "Multiplying all prices by k>0 multiplies every one of the 84 outputs by a fixed power of k: k^2 for ease of movement and its average, k for the price-valued lines (averages, channels, MACD, ATR, awesome oscillator, DPO, PSAR, Ichimoku, force index, VWAP), k^0 (unchanged) for all others. The same exceptions are raised. Any data, gaps included; any parameters, both fillna flags. " + EX, "all bars, all k > 0, all parameters", "relation between infinitely many runs", [f"{T}:*", f"{M}:*", f"{VL}:*", f"{VO}:*", f"{O}:*"])
p("C61", "KAMA is the adaptive recurrence", "KAMA with fillna=False is NaN before row window-1, the close on row window-1, and then k + sc*(close - k) with sc = (ER*(2/(pow1+1) - 2/(pow2+1)) + 2/(pow2+1))^2, ER = |close_i - close_{i-w}| / sum of the last w absolute changes (0 if that sum is 0). The circular np.roll is not visible. " + EX, "all NaN-free series, all windows and powers", "recurrence over all histories", [f"{M}:KAMAIndicator"])
p("C62", "StochRSI is the position of the RSI in its range", "With fillna=False, StochRSI is (rsi - m)/(M - m) with M, m the extreme RSI values of the last window rows, NaN if M = m or if one of these rows is missing; %K is the mean of the last smooth1 rows of it, %D the mean of the last smooth2 rows of %K. " + EX, "all series, all windows", "all inputs", [f"{M}:StochRSIIndicator"])
p("C63", "STC is the twice-smoothed position of the MACD line", "STC takes the position (in percent) of the MACD line in its range over cycle rows, smooths it, takes the position of the result again, and smooths that, as long as neither is flat over a whole cycle; first defined row max(slow,fast)-1 + 2*(cycle-1) + smooth1-1 + smooth2-1. " + EX, "all NaN-free series, all windows", "all inputs", [f"{T}:STCIndicator"])
p("C64", "Awesome oscillator, DPO and TRIX", "AO is the difference of the short and long average of the median price; DPO_i = close_{i - (w/2+1)} - SMA_w(close)_i, with the mean of the whole series where row i - (w/2+1) does not exist; TRIX_i = 100*(e_i/e_{i-1} - 1) with e the triple exponential average. " + EX, "all NaN-free bars, all windows", "all inputs", [f"{M}:AwesomeOscillatorIndicator", f"{T}:DPOIndicator,TRIXIndicator"])
p("C65", "Wrapper calls are idempotent", "Calling a wrapper function again on its own result, with the same arguments, gives the same frame: same columns in the same order with the same values (no generated name being an input column).", "all frames, names, prefixes, flags", "all frames", [f"{W}:*"])
p("C66", "Windowed outputs have finite memory", "Without filling, a row of a windowed output depends only on its own bar and a fixed number of bars before it, so older history can be cut off or replaced: w-1 bars for SMA, WMA, stochastic, Williams %R, CCI, CMF, VWAP, Bollinger, original Keltner and Ichimoku lines (plus the displacement), w-1+offset for Donchian, w for ROC, Aroon, MFI, Vortex and averaged ease of movement, 2(w-1) for the Ulcer index, and so on (table). Where this is also the warm-up, no smaller number will do; and for the EMA, OBV, ADI and cumulative return no number will do. Any data. " + EX, "all inputs, all histories", "relation between all pairs of histories", [f"{T}:*", f"{M}:*", f"{VL}:*", f"{VO}:*", f"{O}:*"])
p("C67", "Volume-unit invariance", "Multiplying all volumes by k>0 (shares to lots, say) multiplies on-balance volume, accumulation/distribution, force index and volume-price trend by k, divides ease of movement and its average by k, and leaves the other 78 outputs unchanged, among them CMF, MFI, VWAP, NVI and the three PVO lines. The same exceptions are raised. Any data, gaps included; any parameters, both fillna flags. " + EX, "all bars, all k > 0, all parameters", "relation between infinitely many runs", [f"{VO}:*", f"{M}:PercentageVolumeOscillator"])
p("C68", "The module-level functions are the classes", "Each of the 80 module-level functions, called with any mix of positional, keyword (in any order) and omitted arguments, returns or raises what its class does with the same arguments; a malformed call raises TypeError. The exception: ema_indicator, sma_indicator and donchian_channel_mband/wband/pband have their own default window, so with window omitted they differ from the class (and the default Donchian middle line is not midway between the default bands). Called with the columns only, every function uses the documented defaults. The parameters that macd, kst, the Ichimoku functions and bollinger_mavg do not expose are irrelevant to their outputs; the multiplier that the Keltner functions do not expose is not.", "all functions, all argument lists, all data", "all calls", [f"{T}:1159-1900", f"{M}:769-1352", f"{VL}:472-1011", f"{VO}:492-764", f"{O}:97-135"])
p("C69", "Turning the chart upside down",
  "Replace every price p by c - p, exchanging high and low, and keep the volumes. Fifty-five outputs then change in a "
  "known way: momentum outputs (TSI, AO, MACD line, signal and histogram, DPO, CCI, Aroon and vortex difference, ADI, "
  "CMF, force index, ease of movement and its mean) become their negatives; averages and middle bands (EMA, SMA, KAMA, "
  "Ichimoku lines, Bollinger, Keltner and Donchian middle lines, unfilled WMA and VWAP) are reflected like a price; upper and lower bands, "
  "their crossing flags, +DI and -DI, VI+ and VI-, Aroon up and down change places; ATR, ADX, mass index and the PVO outputs stay; the stochastic "
  "and its signal, Williams %R, and without filling the STC and the channel positions, become their complements (to 100, -100, 1). RSI "
  "becomes 100 - RSI once the close has moved (while it has not, both are 100), and the ultimate oscillator 100 - UO. The OBV, the parabolic SAR and the filled WMA have no such law: witnesses. " + EX,
  "all data (missing and infinite values included, errors included), all c, all parameters, both values of fillna where stated; RSI and UO for all finite data",
  "a long/short asymmetry (a sign, a high taken for a low, an off-by-one on one side only) is invisible in fixtures from one market; the law compares all inputs with their mirror images",
  [f"{M}:*", f"{T}:*", f"{VL}:*", f"{VO}:*"])
p("C70", "Superposition",
  "The moving averages (SMA, EMA, WMA with window >= 1), the MACD line, signal and histogram, the DPO, the awesome oscillator, the Bollinger "
  "middle line, the Keltner middle lines and the original Keltner bands are linear filters: for a price table p*A + q*B (row by row, A and B with "
  "gaps in the same rows) each of them returns p*(output of A) + q*(output of B), with the same gaps and the same exceptions. VWAP and the "
  "force index are linear in the prices when the volumes are the same; OBV, ADI and the force index are linear in the volumes "
  "when the bars are the same. KAMA is not linear (witness). " + EX,
  "all pairs of tables with gaps in the same rows (no infinities), all real p and q, all parameters, both values of fillna",
  "relation between infinitely many triples of runs",
  [f"{T}:*", f"{M}:AwesomeOscillatorIndicator,KAMAIndicator", f"{VL}:BollingerBands,KeltnerChannel", f"{VO}:*", f"{U}:_sma,_ema"])
p("C71", "Raising prices never lowers a trend line",
  "If no price of table B is below that of table A (gaps in the same rows), then no row of these outputs is lower for B than for A: SMA, EMA, WMA "
  "(window >= 1), Bollinger and Keltner middle line, the three Donchian lines for any offset, the four Ichimoku lines with and without the visual shift, and (volumes the same "
  "and >= 0) VWAP. Not so KAMA and the upper Keltner bands (witnesses). " + EX,
  "all pairs of tables, all parameters, both values of fillna", "relation between infinitely many pairs of runs",
  [f"{T}:*", f"{M}:KAMAIndicator", f"{VL}:BollingerBands,KeltnerChannel,DonchianChannel", f"{VO}:VolumeWeightedAveragePrice", f"{U}:_sma,_ema"])
p("C72", "Rolling windows as pandas computes them",
  "pandas does not evaluate each rolling window anew but moves an accumulator along the series (compensated sums, Welford's variance, a queue "
  "of candidates for max and min). In exact arithmetic rolling(w, min_periods).sum/mean/std(ddof=0)/max/min nevertheless return, row by row, the sum, "
  "mean, ... of the numbers in the window, for any series with gaps and infinities. Max and min do so in rounded arithmetic too. In any arithmetic none of "
  "them reads a later row. In float64 a mean can be wrong long after a large value has left: the SMA(2) of 3, 2^53, 1, 1 ends with 1.5 (witness).",
  "all series (NaN, inf allowed), all windows, all min_periods",
  "equality of two algorithms on all series",
  [f"{U}:_sma", f"{M}:StochasticOscillator,WilliamsRIndicator,UltimateOscillator", f"{T}:IchimokuIndicator,VortexIndicator,MassIndex",
   f"{VL}:BollingerBands,DonchianChannel,UlcerIndex", f"{VO}:ChaikinMoneyFlowIndicator,MFIIndicator,VolumeWeightedAveragePrice"])
p("C73", "Exponential outputs forget, geometrically; some outputs never do",
  "Let a run on recent bars be compared with a run on the same bars with any older bars put in front. On ordinary bars whose prices, "
  "high-low ranges and volumes stay between fixed positive bounds, for every eps > 0 there is a number of rows N (depending on the bounds "
  "and the parameters only, not on the data nor on how much of it came before) from which on the two runs both return numbers that differ "
  "by less than eps. This holds for EMA, MACD, PPO and PVO (line, signal, histogram), ATR, KAMA, TRIX, mass index, force index, the two "
  "directional indicators, the bands, width and percentage of the ATR-based Keltner channel, and every always-defined windowed output. For the EMA "
  "the difference after i rows is at most (1 - 2/(w+1))^i times the range of the prices. It fails for the RSI (windows from 2 on: on a "
  "flat market one fall arbitrarily long ago makes the difference between 0 and 100), OBV, ADI and the cumulative return. " + EX,
  "for all eps, bounds, parameters, old and recent data of any length",
  "A uniform limit over unboundedly long histories; tests compare runs of one length on one data set, and would not meet the never-forgetting "
  "market of the RSI.",
  [f"{T}:EMAIndicator", f"{T}:MACD", f"{M}:PercentagePriceOscillator", f"{M}:PercentageVolumeOscillator", f"{M}:KAMAIndicator", f"{M}:RSIIndicator",
   f"{T}:TRIXIndicator", f"{T}:MassIndex", f"{T}:ADXIndicator", f"{VL}:AverageTrueRange", f"{VL}:KeltnerChannel", f"{VO}:ForceIndexIndicator"])
p("C74", "All that a running total keeps of the past is one number",
  "Let a run on recent bars be compared with a run on the same bars with older bars put in front. From the first recent row on the ADI and the OBV differ "
  "by a constant, the last value of the old run (for the OBV less 2 volumes if the first recent close is a fall, because a run counts its first row as a rise), "
  "VPT differs by a constant from its second recent row on, and NVI and the compounded return 1 + r/100 differ by a constant factor. So increments "
  "(ratios) between two recent rows do not depend on where the data started. " + EX,
  "for all old and recent bars of any length",
  "A relation between two runs for every history; tests look at one history.",
  [f"{VO}:AccDistIndexIndicator", f"{VO}:OnBalanceVolumeIndicator", f"{VO}:VolumePriceTrendIndicator", f"{VO}:NegativeVolumeIndexIndicator", f"{O}:CumulativeReturnIndicator"])
p("C75", "The same quantity reached through different classes",
  "For any data (NaN and infinities allowed) with fillna=False: %K of the stochastic oscillator is 100 times Donchian's percentage band; Ichimoku's conversion and base "
  "lines are the Donchian middle bands of their windows (also with fillna; the second span is not, a witness); the stochastic RSI is a hundredth of the "
  "stochastic oscillator applied to the RSI as high, low and close; CCI, MFI and VWAP do not change when each bar is collapsed to its typical price, nor the awesome oscillator "
  "when it is collapsed to its median price (also with fillna). In any arithmetic: the centres of the Bollinger, original Keltner and ATR-Keltner channels are the SMA of "
  "the close, SMA of the typical price and EMA of the close; the MACD, PPO and PVO signals are the EMA, the stochastic and stochastic RSI signals the SMA of their lines; "
  "MACD and PPO are built from the two EMAs, the force index is the EMA of price change times volume. On ordinary bars CMF is the rise of the ADI over the window per unit of volume, "
  "and with window 1 SMA, EMA and WMA are the close, VWAP the typical price and ATR the true range. " + EX,
  "all data, all windows",
  "Equality of two classes on all inputs, including gaps, infinities and bars without range.",
  [f"{M}:StochasticOscillator", f"{VL}:DonchianChannel", f"{T}:IchimokuIndicator", f"{M}:StochRSIIndicator", f"{T}:CCIIndicator", f"{VO}:MFIIndicator",
   f"{VO}:VolumeWeightedAveragePrice", f"{M}:AwesomeOscillatorIndicator", f"{VL}:BollingerBands", f"{VL}:KeltnerChannel", f"{T}:MACD", f"{M}:PercentagePriceOscillator",
   f"{VO}:ForceIndexIndicator", f"{VO}:EaseOfMovementIndicator", f"{VO}:ChaikinMoneyFlowIndicator", f"{VO}:AccDistIndexIndicator"])
p("C76", "Averages and totals of data with missing rows",
  "On closes or volumes some of whose rows are not numbers: SMA with fillna=True is the mean of the numbers among the last window rows (NaN if none). The EMA starts at the first number; "
  "on a row with a number whose predecessor with a number is d rows back it is ((1-a)^d * e + a*x)/((1-a)^d + a), so missing rows age the old average; rows without a number repeat it; "
  "rows are shown once window numbers (1 with fillna) have been seen. The RSI counts the moves into and out of a missing row as no move, so a fall across a gap "
  "is never seen. OBV and ADI show a number exactly on the rows that have a volume and sum over those rows only; a move from or to a missing close counts as a rise for the OBV, a missing bar as 0 for the ADI. " + EX,
  "all placements of missing rows, all windows",
  "Tests use complete data; the behaviour over gaps is a formula with one case per gap pattern.",
  [f"{U}:_sma,_ema", f"{T}:SMAIndicator", f"{T}:EMAIndicator", f"{M}:RSIIndicator", f"{VO}:OnBalanceVolumeIndicator", f"{VO}:AccDistIndexIndicator"])
p("C77", "Missing bars: who comes back, who does not",
  "Take data in which some rows are entirely missing (all four columns NaN) and which consists of ordinary bars (positive prices, low < high, low <= close <= high, positive "
  "volume) from some row on; fillna=False. (a) Every windowed output that is always a number on ordinary data, and EMA, RSI, MACD, PPO and PVO with their signal and difference lines, TRIX, mass index, "
  "force index, OBV, ADI, NVI, VPT and the Keltner centre line are numbers again on every row from a stated number of rows after the last missing one. (b) The other outputs that are always numbers "
  "on ordinary data can be ended by one missing bar: the ATR (and the bands, width and position of the ATR-based Keltner channel, whose flags say 0 from then on) by one at or after row w; "
  "+DI and -DI by one after row w, and with them the ADX from row 2w-1 on; KAMA by one missing close after its first value; the parabolic stop by a missing first or second bar, the cumulative return by a missing first "
  "close. From that row on they are NaN for ever. With fillna=True the ATR repeats its last value for ever instead. "
  "(c) These two lists together contain every output that is always a number on ordinary data. " + EX,
  "all series, all parameters, all positions and numbers of missing bars",
  "a test has finitely many rows after its gap; `for ever` and `every row after the delay` need all lengths",
  [f"{VL}:AverageTrueRange._run", f"{VL}:KeltnerChannel._run", f"{M}:KAMAIndicator._run", f"{T}:ADXIndicator._run", f"{T}:PSARIndicator._run", f"{O}:CumulativeReturnIndicator._run", f"{U}:_ema", f"{U}:IndicatorMixin._true_range"])
p("C78", "What the name of a returned Series tells",
  "Two outputs of the catalogue, with any arguments, carry the same Series name exactly when they show the same windows and are either the same method or the pair Bollinger/Keltner middle line (both 'mavg'), "
  "width (both 'bbiwband') or percentage band (both 'bbipband'). For 22 of the 84 outputs the name determines every argument the values depend on, and for the main lines of MACD, PPO and PVO "
  "it determines the values. For each of the remaining 59 there are two choices of arguments and data with the same name and different values (e.g. the MACD signal line omits the signal window, Ichimoku span B its "
  "look-back window). Conversely exactly four outputs show an argument that has no influence: window2 of the conversion line, window1 of the base line and of span B, window of the ease of movement.",
  "all pairs of outputs, all windows (of any number of digits)",
  "Distinctness of names for all pairs of windows is injectivity of a text encoding.",
  [f"{T}:IchimokuIndicator", f"{T}:MACD", f"{VL}:BollingerBands", f"{VL}:KeltnerChannel", f"{VO}:EaseOfMovementIndicator", f"{M}:PercentagePriceOscillator"])
p("C79", "ATR on rows labelled by floats",
  "AverageTrueRange seeds its recurrence with true_range[0:window], which pandas takes as positions on integer and date indexes but as labels (both ends included) on a Float64Index. With window >= 1 and increasing float labels: "
  "(a) if the labels between 0 and window are exactly those of the first window rows, the ATR is the usual one; (b) with labels 0.0, 1.0, 2.0, … the first value, on row window-1, is the mean of the first window+1 "
  "true ranges, so it depends on the following row (look-ahead; witness); (c) with no label between 0 and window (timestamps in seconds) the ATR is NaN from row window-1 on for ever, and with fillna=True it is 0 on every row; "
  "(d) in case (c) the ATR-based Keltner channel has NaN bands, width and position and its flags are 0 from that row on; with fillna=True and a finite multiplier its three lines coincide and width and position are 0 on every row. " + EX,
  "all data, all windows, all label lists of the stated kind",
  "No test uses a float index; (c) is about all rows and labels.",
  [f"{VL}:AverageTrueRange._run", f"{VL}:KeltnerChannel._run"])
p("C80", "Rounding errors of EMA, MACD and ATR do not build up",
  "Evaluated in IEEE double precision, EMA, MACD (line, signal, histogram) and ATR stay within a fixed multiple of 2^-53 of their exact values on every row, however long the series: 20(w+1)*2^-53*M for EMA (M bounds the closes), 20(slow+fast+3), 20(slow+fast+3 sign+6) and 20(2 slow+2 fast+3 sign+10) times 2^-53*M for MACD, 10 w*2^-53*T for ATR (T bounds the true ranges); NaN appears in the same places and nothing overflows.",
  "all series lengths, all gap-free data with bound between 2^-900 and 2^900, all windows up to 2^40, both values of fillna",
  "a test compares a few hundred rows with a tolerance; it cannot show that the error stays bounded for every length and every data set, nor separate rounding from a wrong formula",
  [f"{T}:EMAIndicator", f"{T}:MACD", f"{VL}:AverageTrueRange", f"{U}:_ema", f"{U}:IndicatorMixin._true_range"])
p("C81", "On-balance volume in double precision",
  "In IEEE double precision on-balance volume equals its exact value when the volumes are integers and every running total is at most 2^52 in absolute value; for other volumes the error after n rows is at most 1.1*n*2^-53*S, S bounding the totals; the growth is real: after a total of 2^53, any number n of rows with volume 1 leaves the computed total unchanged, n too small.",
  "all closes, all volumes, all series lengths (up to 2^40 for the general bound), both values of fillna",
  "unit tests add a few dozen volumes and compare with a tolerance; neither exactness for all integer volumes nor the loss of every further row can be seen there",
  [f"{VO}:OnBalanceVolumeIndicator"])
p("C82", "RSI and TSI in double precision",
  "Evaluated in IEEE double precision on closes whose changes lie between m and M in absolute value, RSI stays within 10000*w*2^-53*M/m of its exact value on every row, and TSI within 9000*(slow+fast+2)*2^-53*M/m (when that quotient is below about 180), however long the series; NaN appears in the same places, and an overflow of the ratio of averages inside RSI does no harm.",
  "all series lengths, all gap-free closes with changes in [m, M], M between 2^-900 and 2^900, all windows from 2 (RSI) or 1 (TSI) up to 2^40, fillna off",
  "a test compares a few hundred rows with a tolerance; it cannot show that the error stays bounded for every length and data set, and it never reaches the rows where the ratio overflows",
  [f"{M}:RSIIndicator", f"{M}:TSIIndicator", f"{U}:_ema"])
p("C83", "Returns in double precision: dividing first loses small returns",
  "In IEEE double precision ROC is within a relative error of 4*2^-53 (plus 2^-900) of its exact value on every row; the daily and the cumulative return have an absolute error of at most 320*2^-53*(1 + ratio of the closes), and no small relative error: from the double just below 2 to 2 the daily return comes out almost twice as large as it is, while ROC with window 1, equal to it in exact arithmetic, is right to 16 digits.",
  "all closes between 2^-100 and 2^100, all lengths and windows, both values of fillna; the last part is a witness",
  "tests compare returns of a few per cent with a tolerance; the loss only shows on returns near the rounding unit, and no test compares ROC(1) with the daily return",
  [f"{M}:ROCIndicator", f"{O}:DailyReturnIndicator", f"{O}:CumulativeReturnIndicator"])
p("C84", "PPO, PVO, force index and the ATR Keltner channel stay accurate in double precision",
  "Computed in IEEE double precision instead of exactly: the force index is off by at most 22(w+1)*2^-53*D*V (D bounds the price changes, V the volumes); the middle and outer lines of the ATR version of the Keltner channel by 20(w+1)*2^-53*M and 2^-53*((20w+24)M + (10*window_atr+4)|multiplier|T) (M bounds the closes, T the true ranges); the PPO and PVO line by 4000(2*slow+fast+6)*2^-53*r^2 for positive data whose largest value is at most r times the smallest (1000(slow+fast+3)*2^-53*r <= 1), with similar bounds for signal and histogram. The missing rows are the same and no bound grows with the number of rows.",
  "all finite inputs in the stated (very wide) ranges, all lengths, all windows from 1 to 2^40, both values of fillna (force index: fillna=False)",
  "tests compare a few hundred rows with a tolerance; they cannot show that the error of a recursive filter never accumulates",
  [f"{M}:PercentagePriceOscillator", f"{M}:PercentageVolumeOscillator", f"{VO}:ForceIndexIndicator", f"{VL}:KeltnerChannel"])
p("C85", "Closes that only rise or only fall are read as such",
  "On a close column that rises on every row: RSI is 100 and TSI is 100 on every row with a value, StochRSI with its %K and %D has no value at all (0/0); from row 1 and their warm-up on MACD, PPO and their signals (fast window shorter than the slow one), ROC, TRIX and (once all look-backs are real) KST are positive, KAMA is an exponential mean with the constant factor (2/(pow1+1))^2 and never above the close, the Ulcer index is 0. On a column that falls on every row RSI is 0 (but 100 on row 0 when that row has a value), TSI is -100 and MACD, PPO, their signals, ROC, TRIX and KST are negative. " + EX,
  "all rising or falling finite columns of any length (positive for PPO, ROC, TRIX, KST and the Ulcer index), all windows (TRIX from 2), both values of fillna for RSI, MACD, PPO, ROC and KST, fillna=False for the rest",
  "tests use one up-and-down price column, on which none of these extremes is reached",
  [f"{M}:RSIIndicator", f"{M}:StochRSIIndicator", f"{M}:TSIIndicator", f"{M}:PercentagePriceOscillator", f"{M}:ROCIndicator", f"{M}:KAMAIndicator", f"{T}:MACD", f"{T}:TRIXIndicator", f"{T}:KSTIndicator", f"{VL}:UlcerIndex"])
p("C86", "Bars that only rise or only fall are read as such",
  "While high, low and close rise on every bar, and after the warm-up of each output: Aroon up is 100 and Aroon down 0, -DI is 0 on every row and +DI positive, ADX is 100 from row 2w-1 on, the vortex difference, the awesome oscillator, CCI, force index, ease of movement and volume-price trend are positive, the Ichimoku conversion line is above the base line, the Donchian channel runs from the oldest low to the newest high of its window, MFI is 100, OBV is the total volume, NVI never falls, and if successive bars do not overlap parabolic SAR never leaves its up trend. The mirrored statements hold while the bars fall. For overlapping bars the SAR statement fails (witness). " + EX,
  "all rising or falling bar tables of any length with positive prices and volumes, all windows (CCI from 2; AO and Ichimoku with the first window shorter than the second), both values of fillna for Aroon, ADX, vortex, AO, CCI, Donchian, Ichimoku, OBV and NVI, fillna=False for the rest; PSAR with step and maximum in [0, 1]",
  "tests use one up-and-down price table, on which none of these extremes is reached",
  [f"{T}:AroonIndicator", f"{T}:ADXIndicator", f"{T}:VortexIndicator", f"{T}:CCIIndicator", f"{T}:IchimokuIndicator", f"{T}:PSARIndicator", f"{M}:AwesomeOscillatorIndicator", f"{VL}:DonchianChannel", f"{VO}:MFIIndicator", f"{VO}:OnBalanceVolumeIndicator", f"{VO}:ForceIndexIndicator", f"{VO}:EaseOfMovementIndicator", f"{VO}:VolumePriceTrendIndicator", f"{VO}:NegativeVolumeIndexIndicator"])
p("C87", "A market at a standstill",
  "If every bar is the same (high, low, close, volume), 0 < low < high, the close between them and the volume positive, then each of the 84 outputs reads, on every row from its look-back on, the closed form of one table: NaN for the ratios of two zeros (TSI, StochRSI, CCI, STC, MFI, Bollinger percentage), 100 for RSI, 100(c-l)/(h-l) for the stochastics and the ultimate oscillator, the price for the averages, 0 for the changes, 0 for Aroon because the oldest of the equal extremes counts, `slow` for the mass index, the range (0 in the first rows) for ATR, clv*v*(i+1) for ADI, v*(i+1) for OBV, and a parabolic stop that jumps between low and high on every bar. " + EX,
  "all 84 outputs, all windows at least 1 (TRIX 2) and finite factors, all bars with 0 < low < high, low <= close <= high, positive volume, all numbers of rows, fillna=False; PSAR with a positive step, Donchian with offset >= 0, undisplaced span A",
  "a constant input is the degenerate case the fixtures never contain; which outputs are 0, 100, NaN or a formula there is a convention of each implementation",
  [f"{T}:PSARIndicator", f"{T}:AroonIndicator", f"{M}:RSIIndicator", f"{M}:StochasticOscillator", f"{VL}:KeltnerChannel", f"{VL}:BollingerBands", f"{VO}:AccDistIndexIndicator", f"{W}:add_all_ta_features"])
p("C88", "What the parameters do",
  "A narrower Donchian window gives a channel inside the one of a wider window, on any data including missing rows; a larger multiplier of the ATR Keltner channel, or a larger number of deviations of the Bollinger bands, keeps the middle line, widens the channel and can only clear breakout flags; CCI times its constant does not depend on the constant; the ultimate oscillator does not see the order of its three (window, weight) pairs nor the unit of the weights; exchanging slow and fast negates the MACD line, signal and difference and the awesome oscillator, and inverts the ratio behind PPO; KAMA with equal speed constants is the exponential average with the squared constant started on row window-1. " + EX,
  "all finite columns (Donchian: any), all windows at least 1, all factors, every row; UO with low < high and low <= close <= high; PPO on positive closes; Donchian, CCI, UO and KAMA without fill",
  "each relation compares two runs with different parameters; the fixtures run each indicator with one set of parameters",
  [f"{VL}:DonchianChannel", f"{VL}:KeltnerChannel", f"{VL}:BollingerBands", f"{T}:CCIIndicator", f"{M}:UltimateOscillator", f"{T}:MACD", f"{M}:PercentagePriceOscillator", f"{M}:AwesomeOscillatorIndicator", f"{M}:KAMAIndicator"])
p("C89", "The documented pipeline",
  "The README recipe, dropna followed by add_all_ta_features with fillna=True: on a table whose High, Low, Close and Volume columns are numeric and hold no -inf the call succeeds exactly if dropna leaves 28 rows (one row with vectorized=True); then every generated column has one row per remaining row and a finite number in each, except that trend_psar_up or trend_psar_down may be NaN on every row; the other columns keep their remaining cells, and in the four input columns there is no NaN, no infinity and no 0. The exception does occur: while the bars rise without overlapping, trend_psar_down is NaN on every row although fillna=True. The result is not determined by the remaining rows alone: when dropna removes the first row of a table labelled 0, 1, 2, ..., the parabolic SAR columns differ from those of the same rows labelled by dates. More generally, with fillna=True and any parameters, every output but the three lines of the parabolic SAR, the ATR Keltner lines and the Donchian lines with an offset has a finite number on every row, on bars of finite numbers with a close other than 0. " + EX,
  "every rectangular table of any size, any further columns, any column names that do not clash with generated ones, integer or other labels; every parameter setting with windows at least 1 for the general statement",
  "the wrapper tests call the functions on one clean data set and check the number of columns; the combination with dropna is not tested, nor is the presence of NaN in the result",
  [f"{U}:dropna", f"{W}:add_all_ta_features", f"{T}:PSARIndicator", f"{U}:IndicatorMixin"])
p("C90", "Indicator objects over time",
  "Let one of the 43 objects be built on some columns and let the caller go on: overwrite rows of those columns in place, call methods in any order and any number of times, write into Series of their own. Then calling methods changes nothing: the answer to a call does not depend on the earlier calls. 72 of the 84 outputs still answer for the columns as they were when the object was built; EMA, SMA and Ichimoku span B answer for the columns as they are now; KAMA answers for the old ones but fills gaps with the present closes; %B and the band indicators of Bollinger and Keltner and the width and %B of Donchian compare the old lines with the present closes, which can give a value that is right neither for the old data nor for the new (Bollinger(2, 1), closes 1, 3 moved to 4, 6: %B 5/2 and the upper indicator 1, but 1 and 0 on either data). A Series handed out keeps its contents. With fillna=False the main lines are handed out without a copy: a value the caller writes into the result of such a method is what the next call returns, and it reaches other outputs (writing into the result of stoch() changes stoch_signal()); with fillna=True, and for the outputs computed on call, this does not happen.",
  "every class, every parameter setting for which the constructor succeeds, both values of fillna, every data, every history of overwritten rows, method calls and writes of any length; any arithmetic",
  "the unit tests build an object and ask for one output at once; order of calls, reuse of an object after the frame has changed, and writing into results are not tested",
  [f"{T}:EMAIndicator", f"{T}:SMAIndicator", f"{T}:IchimokuIndicator", f"{M}:StochasticOscillator", f"{M}:KAMAIndicator", f"{VL}:BollingerBands", f"{VL}:KeltnerChannel", f"{VL}:DonchianChannel", f"{U}:IndicatorMixin"])
p("C91", "How far a small change of the prices can move an output",
  "If every high, low and close of two tables differs by at most d (gaps in the same places), then on every row EMA, SMA, WMA, the Bollinger and Keltner middle lines, the Donchian lines and the Ichimoku lines differ by at most d; MACD, its signal, the awesome oscillator, DPO and ATR by at most 2d; the MACD histogram by at most 4d; a Bollinger band by at most (1 + |dev|) d; a Keltner band by at most 7/3 d (original version) or (1 + 2 |multiplier|) d (ATR version). The number of rows does not matter, the gaps and the warm-up are the same, and so are the exceptions. VWAP differs by at most d when the volumes are the same and not negative. The oscillators have no such bound: however small d > 0, there are two tables of positive prices within d of each other on which RSI is 100 and 0, TSI 100 and -100, the aroon indicator 100 and -100, the money flow index 100 and 0 on every row after the warm-up, and OBV adds the volumes in one and subtracts them in the other. " + EX,
  "every pair of tables of any length with gaps, every d, both values of fillna, every window (WMA from window 1); all windows for the jumps",
  "a test can compare two runs on particular data; a bound for all changes of all data cannot be tested",
  [f"{T}:EMAIndicator", f"{T}:SMAIndicator", f"{T}:WMAIndicator", f"{T}:MACD", f"{T}:IchimokuIndicator", f"{T}:DPOIndicator", f"{VL}:AverageTrueRange", f"{VL}:BollingerBands", f"{VL}:KeltnerChannel", f"{VL}:DonchianChannel", f"{M}:AwesomeOscillatorIndicator", f"{M}:RSIIndicator", f"{VO}:VolumeWeightedAveragePrice"])
p("C92", "The rows keep their labels",
  "On columns that carry the same row labels (dates, strings, numbers; in any order, repeated or not) every output method raises what it raises on the bare values, or returns a Series with exactly these labels in this order, and with values that do not depend on the labels.",
  "all 84 outputs, all parameters, both values of fillna, all tables of any length, all lists of labels of any ordered type; any arithmetic (PSAR on integer labels: C47, ATR on float labels: C79)",
  "the fixtures have the default labels 0, 1, 2, ...; labels out of order or repeated (two trades in one second) are not tested",
  [f"{U}:IndicatorMixin", f"{VO}:MFIIndicator", f"{VO}:OnBalanceVolumeIndicator", f"{VL}:KeltnerChannel", f"{VL}:AverageTrueRange", f"{T}:ADXIndicator", f"{M}:UltimateOscillator"])
p("C93", "Which rows the answer has",
  "Let the four columns be labelled differently. For each of the 84 outputs one list of columns decides about the rows of the answer: if these columns are labelled alike the answer has their labels in their order; if not it has every label that occurs in one of them, once, in increasing order. The list is high, low, close and volume for ADI, CMF, MFI and VWAP; high, low, close for UO, stochastic, Williams %R, CCI, vortex, ATR, the Keltner lines and the width and percentage of Donchian; high, low for the awesome oscillator, mass index, Ichimoku, Aroon indicator and Donchian middle line; high, low, volume for ease of movement; close, volume for force index and VPT; high alone for Aroon up and the upper Donchian band, low alone for Aroon down and the lower Donchian band; close alone for ADX, PSAR, OBV, NVI and the Keltner indicators, although these use the other columns. Hence outputs of one object can have different numbers of rows. In CMF the money flow is added up over windows of price rows and the volumes over windows of their own rows; only the two sums are paired by label.",
  "all 84 outputs, all parameters, both values of fillna, all non-empty columns with any values and labels (distinct within a column), whenever the method answers; any arithmetic",
  "the tests pass columns of one frame; Series from different sources (volume from another feed, one missing day) are not tested",
  [f"{T}:ADXIndicator", f"{T}:PSARIndicator", f"{T}:AroonIndicator", f"{T}:IchimokuIndicator", f"{VL}:DonchianChannel", f"{VL}:KeltnerChannel", f"{VO}:OnBalanceVolumeIndicator", f"{VO}:NegativeVolumeIndexIndicator", f"{VO}:ChaikinMoneyFlowIndicator"])
p("C94", "A column whose rows come in another order",
  "Let all columns have the same row labels, in increasing order except in some columns. Each output has a list of columns for which the order does not matter: whatever the order of their rows the answer is the one for the columns put in order. These are, besides the columns an output does not use: low and close for CCI, ADI, CMF, MFI, VWAP and the lines of the original Keltner channel; low for the awesome oscillator, mass index, UO, ATR, negative vortex line and the ATR Keltner channel; close for stochastic, Williams %R and the Donchian percentage; volume for ADI, MFI, force index, VPT and ease of movement. For the other columns there are tables on which the answer is another one or an exception: volume in OBV, NVI, CMF and VWAP; close in UO, ATR, ATR Keltner, Keltner indicators, Donchian width, PSAR, ADX, vortex, force index, VPT, OBV, NVI; low in stochastic, Williams %R, Ichimoku, Aroon, PSAR, ADX, positive vortex line, Donchian and ease of movement. So ADI and OBV pair the same volumes with different days.",
  "all 84 outputs, all parameters, both values of fillna, every set of labels, every permutation of the rows of the listed columns, all values; any arithmetic; the counterexamples are single tables of five rows",
  "the tests take all columns from one frame, where this cannot happen",
  [f"{VO}:OnBalanceVolumeIndicator", f"{VO}:NegativeVolumeIndexIndicator", f"{VO}:ChaikinMoneyFlowIndicator", f"{VO}:VolumeWeightedAveragePrice", f"{VO}:AccDistIndexIndicator", f"{VO}:MFIIndicator", f"{T}:PSARIndicator", f"{T}:VortexIndicator", f"{M}:StochasticOscillator", f"{VL}:KeltnerChannel"])
p("C95", "Columns that do not belong together: answer or exception",
  "OBV, NVI and PSAR on columns of equal length answer for the rows paired by position whatever the labels, and label the answer like close. ADX does the same if high and low are labelled alike and raises otherwise, whatever the labels of close. ATR (window not longer than close) answers exactly if high and low have no label that close does not have. MFI (two rows at least) answers exactly if the volumes have no label that the prices do not have. The Keltner indicators answer exactly if all three columns are labelled alike or close is in increasing order and has every label of high and low.",
  "all windows, multipliers and both values of fillna; all columns with any values and labels; labels of close distinct for ATR and the ATR Keltner channel, rows of the typical price distinct for MFI; any arithmetic",
  "no test passes columns with different indexes; whether such a call is refused, answered by label or answered by position differs from class to class",
  [f"{VO}:OnBalanceVolumeIndicator", f"{VO}:NegativeVolumeIndexIndicator", f"{T}:PSARIndicator", f"{T}:ADXIndicator", f"{VL}:AverageTrueRange", f"{VO}:MFIIndicator", f"{VL}:KeltnerChannel"])
p("C96", "How far the last value can be from its own window",
  "On gap-free closes the Bollinger crossing flags with window - 1 <= dev^2 are 0 on every row (so 5 rows and 2 deviations never signal), while for every window and dev with dev^2 < window - 1 there are positive closes for which the upper flag is 1. Every finite %B is within sqrt(window - 1) / (2 dev) of 1/2. Every finite CCI is at most window / (2 constant) in absolute value, and that value is attained. The mass index of bars with low < high is at most window_slow * (window_fast + 1) / 2. " + EX,
  "all windows, positive constants and deviations, all gap-free columns and rows; %B and the upper bound of CCI with fillna=False",
  "the tests use the default windows on one data set, on which no value comes near its bound, and no test asks whether a signal is possible at all",
  [f"{VL}:BollingerBands", f"{T}:CCIIndicator", f"{T}:MassIndex"])
p("C97", "Averages of slowly moving prices: lag in steps",
  "If the gap-free closes never move by more than d from one row to the next, then on every row with a full window: |close - SMA| <= d(w-1)/2, |close - WMA| <= d(w-1)/3, |close - EMA| <= d(w-1)/2, |close - KAMA| <= d(((pow2+1)/2)^2 - 1) whatever its window, |MACD| and |MACD signal| <= d|slow-fast|/2, the Bollinger bands are at most 2 dev d sqrt((w^2-1)/12) apart, and |ROC| <= 100 d w / m for closes not below m > 0; if the middles of the bars move by at most d, |awesome oscillator| <= d|w1-w2|/2. On the ramp b + d*row the SMA, WMA, awesome oscillator and Bollinger bounds hold with equality and the EMA lags by d(w-1)/2 (1 - (1-2/(w+1))^row). " + EX,
  "all step sizes, windows (pow1 <= pow2 for KAMA) and rows (WMA, KAMA and ROC with fillna=False), all gap-free columns of any length whose steps are bounded",
  "a statement about all price paths with bounded steps; the tests compare one path with a stored column",
  [f"{T}:SMAIndicator", f"{T}:WMAIndicator", f"{T}:EMAIndicator", f"{T}:MACD", f"{M}:KAMAIndicator", f"{M}:AwesomeOscillatorIndicator", f"{M}:ROCIndicator", f"{VL}:BollingerBands"])
p("C98", "Rolling sums and means in double precision, as pandas computes them",
  "pandas' rolling sum and mean (one accumulator moved along the column, compensated additions and removals) evaluated in IEEE double precision are, on row i, within 80 (i+1) w 2^-53 M and 85 (i+1) 2^-53 M of the exact window sum and window mean of values bounded by M: the error grows at most in proportion to the number of rows, so the SMA of a million closes is right to seven decimals of the largest close. The same holds for the awesome oscillator computed with this kernel (360 n 2^-53 M). On whole numbers whose window sums stay below 2^52 (volumes) the sum is exact on every row and the mean is rounded once.",
  "all windows, min_periods and columns of up to 2^44 numbers between -M and M, 2^-900 <= M <= 2^900; all integer columns with w M <= 2^52",
  "the error made on one row stays in the accumulator for all later rows, so no test of a few hundred rows can bound it",
  [f"{T}:SMAIndicator", f"{VL}:BollingerBands", f"{M}:AwesomeOscillatorIndicator", f"{U}:_sma"])
p("C99", "A higher close on the row in hand: averages, oscillators and returns",
  "Take two markets that agree on all rows before row i and let the second close higher on row i (highs, lows and volumes the same). Then on row i, wherever they are numbers, SMA, EMA, WMA, MACD, PPO, TRIX, KST, ROC, RSI, TSI, Ultimate Oscillator, Stochastic, Williams %R, StochRSI, STC and CCI with their signal lines and histograms, and the daily and cumulative return are at least as high in the second market (positive prices where prices are divided by; fast windows not longer than slow ones), although most of them also divide by something that has grown. The detrended price oscillator is at most as high. KAMA and the money flow index do not have this property: there are markets where a higher close lowers them and markets where it raises them. " + EX,
  "all pairs of such series, all rows after the warm-up, all windows; fillna=False for SMA, WMA, TRIX, TSI, UO, stochastic, Williams %R and StochRSI; STC where its two inner ranges are not flat, CCI where its mean deviation is not 0",
  "a comparison of two runs on arbitrary data; examples show it only for the pairs tried",
  [f"{T}:MACD", f"{T}:CCIIndicator", f"{T}:STCIndicator", f"{T}:KSTIndicator", f"{T}:DPOIndicator", f"{M}:RSIIndicator", f"{M}:TSIIndicator", f"{M}:UltimateOscillator", f"{M}:StochasticOscillator", f"{M}:StochRSIIndicator", f"{M}:KAMAIndicator", f"{VO}:MFIIndicator", f"{O}:DailyReturnIndicator"])
p("C100", "A higher close on the row in hand: channels, volume, and what does not move",
  "Two markets that agree on all rows before row i, the second closing higher on row i, everything else the same. Upwards (where they are numbers, positive prices where prices are divided by): the middle Bollinger line and %B, all three Keltner lines and the Keltner and Donchian percentages, ADI, OBV, CMF, force index, volume-price trend, NVI, VWAP and the daily log return; a raised upper-band flag stays raised and a lowered lower-band flag stays lowered (Bollinger and Keltner). Downwards: the widths of the Keltner and Donchian channels and the Ulcer index. Unmoved, in any arithmetic: ATR, the three ADX outputs, all parabolic SAR outputs from the third row on, the vortex indicator (without fillna), and everything computed from highs, lows and volumes. Either way: the outer Bollinger bands and their width. With C99 this settles all 84 outputs. " + EX,
  "all pairs of such series, all rows after the warm-up, all windows; Donchian with offset 0, Ulcer index and the effect on vortex with fillna=False",
  "a comparison of two runs on arbitrary data; examples show it only for the pairs tried",
  [f"{VL}:BollingerBands", f"{VL}:KeltnerChannel", f"{VL}:DonchianChannel", f"{VL}:UlcerIndex", f"{VL}:AverageTrueRange", f"{VO}:AccDistIndexIndicator", f"{VO}:OnBalanceVolumeIndicator", f"{VO}:ChaikinMoneyFlowIndicator", f"{VO}:NegativeVolumeIndexIndicator", f"{T}:ADXIndicator", f"{T}:PSARIndicator", f"{T}:VortexIndicator", f"{O}:DailyLogReturnIndicator"])
p("C101", "The wrapper's parameters and the defaults of the classes",
  "For 72 of the 86 columns of add_all_ta_features the value is what the indicator class returns when it is given the input columns and fillna only, so the parameters written into the wrapper are the defaults of the classes. The other fourteen are the class with window=10 (the seven Keltner columns and volatility_atr; the defaults are 20 and 14), window=12 and window=26 (SMA and EMA, fast and slow; the SMA class has no default, EMA has 14) and visual=True (the two visual Ichimoku spans); without that argument each of them comes out different (witness).",
  "any frame, column names without clash, prefix, fillna, vectorized, any of the six functions; any arithmetic",
  "A test compares a few columns with stored values; it does not say which call reproduces a column, nor that the wrapper and a bare class silently use different windows.",
  [f"{W}:add_all_ta_features", f"{W}:add_volatility_ta", f"{VL}:KeltnerChannel", f"{VL}:AverageTrueRange", f"{T}:EMAIndicator"])
p("C102", "A bar moved up around the same close",
  "Take two markets with the same closes and volumes that agree on all rows before row i, and let the high, the low or both be higher on row i in the second. Then on row i, wherever they are numbers: the awesome oscillator (first window not longer than the second), the four Ichimoku lines, the three Donchian lines, CCI, VWAP, the middle line of the original Keltner channel, Aroon up and the Aroon difference are at least as high; the stochastic oscillator, its signal line, Williams %R, the Ultimate Oscillator, the Donchian percentage, ADI, CMF and Aroon down are at most as high (closes within their bars in both markets). CCI, VWAP and the Keltner line rise also when high, low and close all rise. A lower bar is the same comparison read backwards. Ease of movement goes either way (witness). " + EX,
  "all pairs of such series, all rows after the warm-up, all windows; Donchian with offset 0, Ichimoku unshifted, oscillators with fillna=False",
  "a comparison of two runs on arbitrary data; examples show it only for the pairs tried",
  [f"{M}:AwesomeOscillatorIndicator", f"{M}:StochasticOscillator", f"{M}:WilliamsRIndicator", f"{M}:UltimateOscillator", f"{T}:IchimokuIndicator", f"{T}:AroonIndicator", f"{T}:CCIIndicator", f"{VL}:DonchianChannel", f"{VL}:KeltnerChannel", f"{VO}:AccDistIndexIndicator", f"{VO}:ChaikinMoneyFlowIndicator", f"{VO}:VolumeWeightedAveragePrice", f"{VO}:EaseOfMovementIndicator"])
p("C103", "A wider bar around the same close",
  "Two markets with the same closes and volumes that agree on all rows before row i; on row i the high is higher or the low is lower in the second. Ranges and channels (high and low may both move): ATR, the mass index, the upper band and the width of the Keltner (both versions) and Donchian channels are at least as high on row i, the lower bands at most as high, the Keltner flags are not raised; the mass index although it divides by a smoothed range that has grown as well. One-sided moves: a higher high does not raise -DI nor the negative vortex line, a lower low does not raise +DI nor the positive vortex line. From the third row on a higher high does not raise the parabolic SAR and leaves a row of an uptrend exactly as it was, a lower low does not lower it and leaves a row of a downtrend exactly as it was. +DI and the positive vortex line go either way with the high, ADX with the low (witnesses). " + EX,
  "all pairs of such series, all rows after the warm-up (SAR from row 2, second close not above the second high), all windows; Donchian with offset 0; SAR step and maximum between 0 and 1",
  "a comparison of two runs on arbitrary data; the SAR claim is about a loop with state",
  [f"{VL}:AverageTrueRange", f"{VL}:KeltnerChannel", f"{VL}:DonchianChannel", f"{T}:MassIndex", f"{T}:ADXIndicator", f"{T}:VortexIndicator", f"{T}:PSARIndicator"])
p("C104", "A larger volume on the row in hand",
  "Two markets with the same prices whose volumes agree before row i, on which the second trades at least as much. On row i: on-balance volume moves by exactly the added volume, down if the close fell and up otherwise; the accumulation/distribution index does not sink for a close in the upper half of its bar and does not rise in the lower half; Chaikin's money flow comes to lie between its former value and the place of the close in its bar, the volume-weighted average price between its former value and the row's typical price, ease of movement between its former value and zero (its moving average falls where the midpoint rose and rises where it fell); the volume-price trend (plain, filled, smoothed) and the force index follow the sign of the close-to-close change; the money flow index rises if the typical price rose, sinks if it fell, and is exactly the same if it did not move; the three volume oscillator outputs rise (fast <= slow); the negative volume index only asks whether the volume is below the one before - unchanged while the answer is, equal to the row before once the volume has caught up. " + EX + " In any arithmetic: the other outputs of the catalogue are the same whatever the volume column holds.",
  "all pairs of such series, all rows after the warm-up, all windows; ease of movement with fillna=False; the last claim for all 71 other outputs and all volume columns",
  "a comparison of two runs on arbitrary data",
  [f"{VO}:OnBalanceVolumeIndicator", f"{VO}:AccDistIndexIndicator", f"{VO}:ChaikinMoneyFlowIndicator", f"{VO}:VolumeWeightedAveragePrice", f"{VO}:VolumePriceTrendIndicator", f"{VO}:ForceIndexIndicator", f"{VO}:EaseOfMovementIndicator", f"{VO}:NegativeVolumeIndexIndicator", f"{VO}:MFIIndicator", f"{M}:PercentageVolumeOscillator"])
p("C105", "Columns of integers",
  "With closes of an integer type KAMA raises TypeError, whatever the closes and parameters (its quotient is written into an integer array). So add_momentum_ta raises TypeError on every such frame, having added exactly the columns it adds with vectorized=True; add_all_ta_features raises TypeError from 28 rows on, where float closes succeed, having added exactly the columns before momentum_kama, and below 28 rows it fails with the same exception and frame as on floats. With vectorized=True the type makes no difference. On-balance volume of volumes of w unsigned bits is the true value plus 2^w for every row so far with a lower close and a non-zero volume, modulo 2^64: right for 64 bits as long as the true value is not negative, off by 2^64 where it is. Ease of movement of 32-bit volumes agrees with floats below 2^30; from there to 2^31 the divisor is 2v - 2^32 and the sign is wrong.",
  "all frames with the input columns, prefixes, fillna; all closes and volumes of the type",
  "The tests feed float columns read from CSV; integer columns are what a frame of whole-number prices or volumes holds, and the failures depend on the type, not on the values tried.",
  [f"{M}:KAMAIndicator", f"{W}:add_momentum_ta", f"{W}:add_all_ta_features", f"{VO}:OnBalanceVolumeIndicator", f"{VO}:EaseOfMovementIndicator"])
p("C106", "Negative windows",
  "rolling and ewm reject a negative window; ROC, the four lags of KST and ATR do not use them and check nothing. The loop of ATR, modelled statement by statement with integer subscripts, gives for positive windows what the other properties say. With window -k, k >= 1, it raises IndexError on k rows or fewer; on more it runs through the last k rows and then through all rows again, growing by the factor 1 + 1/k: row i is r^(k+i+1) times the mean of the first n - k true ranges minus 1/k times the weighted sum of the last k and the first i + 1 (r = 1 + 1/k), so a last bar taller by d lowers every earlier row i by r^(i+1) d / k, and the ATR can be negative. ROC with window -k compares each close with the close k rows later (its growth factor is the inverse of the one ROC with window k has k rows later); the last k rows are NaN, with fillna the last value again. A negative lag of KST compares with the close k rows later, and with the mean of all closes on the last k rows. " + EX,
  "all gap-free series with low <= high (KST and ROC: positive or non-zero closes), all k, both fillna; the loop itself for any arithmetic and any columns",
  "No test passes a negative window, and nothing raises: the values look like an ATR or a ROC but read the future.",
  [f"{VL}:AverageTrueRange", f"{M}:ROCIndicator", f"{T}:KSTIndicator"])
p("C107", "Keeping the columns up to date row by row",
  "Every output that does not look at later rows can be kept up to date as the rows come in, without going back to the earlier rows. There is a "
  "state, updated with each new row, from which the newest value is read off, and the values read off are exactly the column the library "
  "computes from all the rows at once: the same rounding, missing rows and infinities included. The state holds a fixed number of numbers and a "
  "counter with a fixed number of values, both of which depend on the output, its windows and fillna only: not on the length of the history, not "
  "on the data, not on the precision of the numbers. An EMA needs three numbers, whatever its window. Seen from outside: on numbers of finite precision, of sufficiently many "
  "histories two are followed by the same rows, whatever comes next. DPO (window at least 3), TRIX (window at least 2) and the Vortex lines "
  "belong here as well as long as fillna is off, although they pad with the mean of the whole column. With fillna on, DPO cannot be kept up to "
  "date this way by any state of any size, and neither can a column filled backwards. The limit on the state says something: a column that tells whether "
  "a value has been there before looks at earlier rows only and yet there is no such limit for it.",
  "all arithmetics, all outputs covered by C02 with and without fillna (no backward fill), all parameters, all histories; DPO, TRIX and Vortex for arithmetics "
  "with the NaN laws and without fillna",
  "a test compares an incremental update with the batch computation on a few histories; that one state of fixed size will do for all histories of any "
  "length, bit for bit, is not something a run can show",
  [f"{U}:_ema", f"{U}:_sma", f"{T}:PSARIndicator._run", f"{VL}:AverageTrueRange._run", f"{VO}:NegativeVolumeIndexIndicator._run", f"{T}:DPOIndicator._run", f"{T}:VortexIndicator._run"])
p("C108", "A day without trading",
  "One more row after row k with high, low and close equal to the close of row k and volume 0. On-balance volume, the accumulation/distribution index, the volume-price trend (k >= 1) and the cumulative return show row k twice and are the same on all other rows; the daily return is 0 on the extra row and unchanged elsewhere; the RSI (window from 2 on) repeats its value on the extra row. As long as the extra row is inside the window, the volume-weighted average price and Chaikin's money flow with window w + 1 are what window w gave without the row. The negative volume index repeats its value on the extra row, but from then on it is off by the factor close_k / close_{k+1} if the volume of row k+1 was below that of row k, because the comparison with 0 hides the drop, and unchanged otherwise. Witnesses: VPT after row 0, NVI and the RSI of the next day differ. " + EX,
  "all gap-free series with low <= close <= high (positive or non-zero closes for the returns and NVI, positive volumes for VWAP and CMF), all k, windows and rows; VPT, VWAP and CMF with fillna=False",
  "a comparison of two runs on arbitrary data; the test data have no day without trading",
  [f"{VO}:OnBalanceVolumeIndicator", f"{VO}:AccDistIndexIndicator", f"{VO}:VolumePriceTrendIndicator", f"{VO}:NegativeVolumeIndexIndicator", f"{VO}:VolumeWeightedAveragePrice", f"{VO}:ChaikinMoneyFlowIndicator", f"{M}:RSIIndicator", f"{O}:CumulativeReturnIndicator", f"{O}:DailyReturnIndicator"])
p("C109", "Columns of single precision",
  "On float32 columns the cumulated sums of OBV and ADI are taken in single precision (24 bits, round to nearest even, constructed as a rounding). OBV of whole-number volumes is exact as long as no running total exceeds 2^24 in size. Beyond that it goes deaf: on closes that never fall, after a first volume of 2^m (-126 <= m < 128) every volume up to 2^(m-24) is lost, so the column stays at 2^m on all rows while the true total has grown by their sum; the same for ADI on whole-number bars that close at their high. With volume 1 on every row the column counts min(rows, 16777216). Any number of rows.",
  "all closes that never fall, all such volumes, any number of rows, both fillna",
  "The tests feed float64; the loss needs totals of 24 bits more than a row's volume and is silent.",
  [f"{VO}:OnBalanceVolumeIndicator", f"{VO}:AccDistIndexIndicator"])
p("C110", "One bad tick stays in the Bollinger bands",
  "pandas computes the rolling deviation by adding the row that enters the window and subtracting the row that leaves it. In exact arithmetic BollingerBands with those kernels is the model's BollingerBands. In double precision a wrong value that has left the window keeps acting for ever. Any rounding, either order of adding and removing: once the price stands still at c, the window is full of it and the running mean rests on it, the stored sum of squares never changes again, whatever it is. Witnesses with the default parameters, for tables of any length: (a) closes 999999999, 99, 101, 99, 101, …: from row 20 on the window holds ten 99s and ten 101s, yet on every later row both bands equal the middle line 100, the width is 0, the percentage is NaN, and every row is flagged, above on the 101s and below on the 99s; (b) with 4000000000 as first close the bands are at least 20 away from 100 on every later row. In exact arithmetic, for any first close, the bands are 102 and 98 from row 20 on and no row is flagged.",
  "all roundings and standing prices (residue); all table lengths, later rows, both orders, and square roots with sqrt 0 = 0 or with values in [10,16] on [100,256] (witnesses)",
  "The test data has no outlier and about 40 rows; the error has no end, so it only shows by an invariant of the accumulator.",
  [f"{VL}:BollingerBands"])
p("C111", "Bollinger bands in double precision: how wrong they can get",
  "Computed with pandas' rolling-variance accumulator in IEEE double precision, on up to 2^43 finite closes of size at most M (2^-400 ≤ M ≤ 2^400), any window and any multiplier d (|d| ≤ 2^400), the rolling variance on row i differs from the exact population variance of the window by at most 560 (i+1) 2^-53 M² (whichever of adding and removing a row comes first in the loop), the rolling standard deviation by at most 24 √((i+1) 2^-53) M, the middle line by at most 85 (i+1) 2^-53 M, and the upper and lower bands by at most (25 |d| + 4) √((i+1) 2^-53) M. The bands are NaN in exactly the rows in which the exact bands are. So rounding errors add up over the rows but are never amplified; the square root in the bound is the price C110's bad tick pays.",
  "for all finite series of at most 2^43 closes bounded by M, all windows ≥ 1, multipliers, fillna settings and rows",
  "The error depends on the whole history of the accumulator, so the worst case is spread over millions of rows and adversarial prices; a test compares with a stored column to a few decimals on 30 rows and says nothing about the accumulated error on other data.",
  [f"{VL}:BollingerBands"])
p("C112", "When a line turns",
  "From one row to the next, a moving average or total rises, stays or falls exactly as another number that is known on the row lies above, at or below a reference: SMA — the entering value against the leaving one (for closes: the sign of the ROC over the same window); EMA — the new value against the old average, and, for window 2 or more, against the new one; WMA — the close against the SMA of the rows before; KAMA — the close against the old KAMA; the signal lines of MACD, PPO and PVO — the histogram against 0; the KST signal — the KST against its value nsig rows before; ATR — the row's true range against the old ATR; ADX — 100 |+DI − −DI| / (+DI + −DI) of the same row against the old ADX; RSI inside (0, 100) — the close against the previous close; force index — (close − previous close) · volume against the old value; ADI — the close against the middle of the bar; VPT and cumulative return — the close against the previous close. The upper Donchian band rises exactly on a high above it, the lower falls exactly on a low below it. TRIX is positive exactly when the triple EMA rises, that is, when the double EMA is above the old triple EMA. " + EX,
  "for all gap-free series (positive closes for PPO, KST, TRIX and the returns), windows (signal lines and TRIX: 2 or more) and rows past the warm-up, fillna=False for SMA, WMA, KAMA, force index and TRIX (any data in the window for SMA, leading NaN allowed for EMA)",
  "An equivalence of strict signs for every series: tests compare columns to a few decimals and never look at which way two columns move against each other; a wrong smoothing constant, an off-by-one in the row that leaves, or a signal line computed from the wrong column changes turning points on data that no fixture contains.",
  [f"{T}:SMAIndicator", f"{T}:EMAIndicator", f"{T}:WMAIndicator", f"{T}:MACD", f"{T}:KSTIndicator", f"{T}:ADXIndicator", f"{T}:TRIXIndicator", f"{M}:RSIIndicator", f"{M}:KAMAIndicator", f"{M}:PercentagePriceOscillator", f"{VL}:AverageTrueRange", f"{VL}:DonchianChannel", f"{VO}:ForceIndexIndicator", f"{VO}:AccDistIndexIndicator", f"{VO}:VolumePriceTrendIndicator", f"{O}:CumulativeReturnIndicator"])
p("C113", "Different columns, one signal",
  "Outputs of different classes cross their thresholds on the same rows. RSI(w) equals 50 + 50 (close − EMA) / ((w − 1) · EMA of |close change|) with both EMAs of window 2w − 1; hence RSI(w) is above, at or below 50 exactly as the close is above, at or below EMA(2w − 1), and exactly as that EMA rises, stays or falls. Where the window has a range, %K against 50, Williams %R against −50 and the Donchian percentage against 1/2 all say on which side of the Donchian middle line the close is. The Bollinger percentage passes 1, 0 and 1/2 exactly where the close passes the upper, lower and middle line, and the two flags are 1 exactly where the percentage is above 1 and below 0; the same for Keltner channels of both versions (upper and lower line). MACD and PPO with the same windows have the same sign, that of fast EMA less slow EMA. CCI has the sign of typical price less the middle line of the original Keltner channel of the same window. CMF(w) has the sign of the change of the accumulation/distribution line over w rows. Daily return, daily log return and ROC(1) have the sign of the last change, the cumulative return that of the change since row 0. " + EX,
  "for all gap-free series, windows and rows past the warm-up where the quotient is defined (RSI: w ≥ 2 and some earlier change of the close; PPO and returns: positive closes; CMF: positive volume and l ≤ c ≤ h)",
  "The statements relate outputs of different classes in different files on every series: fixtures test each class by itself. A smoothing by alpha = 2/(w+1) instead of 1/w in RSI, or a middle line taken from the wrong price, satisfies any one-column bound but breaks the agreement.",
  [f"{M}:RSIIndicator", f"{T}:EMAIndicator", f"{M}:StochasticOscillator", f"{M}:WilliamsRIndicator", f"{VL}:DonchianChannel", f"{VL}:BollingerBands", f"{VL}:KeltnerChannel", f"{T}:MACD", f"{M}:PercentagePriceOscillator", f"{T}:CCIIndicator", f"{VO}:ChaikinMoneyFlowIndicator", f"{VO}:AccDistIndexIndicator", f"{O}:DailyReturnIndicator", f"{O}:DailyLogReturnIndicator", f"{O}:CumulativeReturnIndicator", f"{M}:ROCIndicator"])
p("C114", "In whatever order the numbers are added",
  "np.sum, np.mean, Series.sum and Series.mean add in numpy's pairwise order (eight running sums up to 128 entries, halves cut at a multiple of 8 above). In exact arithmetic this order — and any other — gives, for every array also with NaN and infinities, the sum from left to right; hence WMA, CCI, MFI, Ulcer index, ATR, ADX, +DI, −DI and the rows that TRIX, KST, DPO, Vortex and the visual Ichimoku spans fill from a mean are the same whichever order is used. In any rounded arithmetic and with any order of the sums MFI is NaN or in [0, 100]. In double precision a sum in which each of n numbers of size up to M takes part in at most d additions is wrong by at most 1.1 d 2^-53 n M; numpy's order has d ≤ 26 for up to 128 numbers and one more for every doubling (n ≤ 112·2^s + 16: d ≤ 26 + s). Integers of total size up to 2^52 are summed exactly in any order. WMA of a window up to 128, added as numpy does, is within 62 · 2^-53 · M of the exact WMA. Up to seven numbers numpy adds from left to right, and for eight the results can differ (witness).",
  "for all arrays and columns, all windows, every way of adding up (any order and bracketing, `AddsUp`); WMA: 2^-800 ≤ M ≤ 2^800",
  "The order of additions is invisible in the Python source and changes with the length of the array; the fixtures compare a few windows to four decimals. That no order changes a result in exact arithmetic, and how much any order can change it in doubles, are statements about all bracketings.",
  [f"{T}:WMAIndicator", f"{T}:CCIIndicator", f"{VO}:MFIIndicator", f"{VL}:UlcerIndex", f"{VL}:AverageTrueRange", f"{T}:ADXIndicator", f"{T}:TRIXIndicator", f"{T}:KSTIndicator", f"{T}:DPOIndicator", f"{T}:VortexIndicator", f"{T}:IchimokuIndicator"])
p("C115", "Rows before the first price",
  "On a frame of n rows without a single price or volume each output has the same known value. With fillna=True: 50 for the ultimate oscillator, the stochastic and its signal and the MFI; -50 for Williams %R; 100 for the RSI; 1 for both vortex lines; 1000 for the NVI; NaN for every output filled backwards (Ichimoku, PSAR lines, Bollinger, Keltner and Donchian bands and middle lines, cumulative return) and for KAMA, EMA and SMA; 0 for all others, the weighted average, the VWAP and the three ADX columns included. With fillna=False: NaN, except RSI 100 from row w-1, NVI 1000, ATR 0 before row w-1, and 0 for the six flags. For an output that takes nothing from later rows the first k rows of a frame that starts with k empty rows show these values whatever follows. The fill value 20 of the ADX columns is never used: with fillna=True they show the last number up to that row on any data. " + EX,
  "all 84 outputs, all parameters (a WMA window and a mass index window of at least 1), every number of rows, any data after the empty rows",
  "the test data has a price on every row; a wrong fill constant shows only on rows before the first number, and the tests with fillna=True compare few of them",
  [f"{U}:IndicatorMixin._check_fillna", f"{M}:WilliamsRIndicator", f"{M}:RSIIndicator", f"{T}:VortexIndicator", f"{T}:ADXIndicator", f"{VO}:NegativeVolumeIndexIndicator", f"{VL}:DonchianChannel"])
p("C116", "The first rows when filling is on",
  "With `fillna=True` the windows start short, so the first rows hold values computed from fewer rows; a row without a value repeats the row before it, and only a start without any value shows the fill constant. Row by row: stoch and williams_r use the extremes of the rows seen so far (50 and -50 for a flat start), stoch_signal, sma_ease_of_movement and the smoothed VPT the mean of the rows seen so far; TSI starts at the first change; CCI's first row is 0. The ultimate oscillator counts the true range of row 0 but not its buying pressure, so its first row is 0, not 50, unless the first bar is flat. KAMA starts on row 0 and compares its first `window` rows with the end of the column. StochRSI does not start short: its first rows are 0, and its %K and %D are means of the unfilled values. " + EX,
  "all gap-free frames (low <= close <= high where the formula needs it), all windows >= 1, all weights and powers, every row",
  "The tests compare fillna=True columns only for NaN-freeness and the last values of one file; the first rows, the rows with a flat window and the circular comparison in KAMA need every length and window.",
  [f"{M}:StochasticOscillator", f"{M}:WilliamsRIndicator", f"{M}:TSIIndicator", f"{M}:UltimateOscillator", f"{M}:KAMAIndicator", f"{M}:StochRSIIndicator", f"{T}:CCIIndicator", f"{VO}:EaseOfMovementIndicator", f"{VO}:VolumePriceTrendIndicator", f"{U}:IndicatorMixin._check_fillna"])
p("C117", "Columns built from highs and lows lose nothing to rounding",
  "Evaluated in IEEE double precision (round to nearest even, gradual underflow, overflow) the running maximum and minimum are exact, and what is computed from them is a few roundings away from the exact value on every row, for every window and however long the history: stoch and williams_r within 410 * 2^-53, the Donchian high and low bands exactly equal, the middle band within 4 * 2^-53 of the largest price, the percentage band within 4 * 2^-53, the Ichimoku conversion, base and B lines within 2.1 * 2^-53 and the A line within 4.2 * 2^-53 of the largest price, Aroon Up and Down within 205 * 2^-53 and the Aroon indicator within 520 * 2^-53 (Aroon on any data, NaN and infinities included). NaN appears on the same rows. With prices of 2^1023 the range overflows and %K is NaN where the exact value is 100.",
  "all gap-free bars with low <= close <= high, sizes up to 2^900 and no high and low closer than 2^-900 unless equal, all windows >= 1 (Aroon: up to 2^40), all offsets, both fillna values, every row",
  "The tests compare with tolerance on one file; they cannot separate a bounded rounding error from one that grows with the history or the window.",
  [f"{M}:StochasticOscillator", f"{M}:WilliamsRIndicator", f"{VL}:DonchianChannel", f"{T}:IchimokuIndicator", f"{T}:AroonIndicator"])
p("C118", "What a reading at the limit means",
  "The bounded oscillators reach their bounds on exactly these rows. RSI (window >= 2) is 100 iff no close since row 0 was below the one before, 0 iff none was above and at least one was below; with window 1 it is 0 if the last close fell, else 100. TSI (fillna=False) is 100 iff no close since row 0 fell and one rose, -100 iff the reverse, NaN iff the close never changed. stoch is 100 (williams_r 0) iff the close is at the highest high of the window, stoch 0 (williams_r -100) iff it is at the lowest low, NaN iff the window is one price. stochrsi is 1 or 0 iff the RSI is at the top or bottom of its window. MFI is 100 iff the typical price never fell within the window and rose once, 0 iff the reverse. CMF is 1 (-1) iff every bar of the window has a range and closes at its high (low). The ultimate oscillator is 100 (0) iff each bar of the longest window closes at its high and not below (at its low and not above) the close before. Aroon Up is 0 iff no later high of the window exceeds the oldest; Aroon Down is 0 or 100 correspondingly. +DI (-DI) is 0 iff no row since the first had an upward (downward) directional movement. " + EX,
  "all gap-free data (low <= close <= high, positive volumes and typical prices where the formula needs it), all windows >= 1 (RSI, TSI slow, ADX >= 2), all rows past the warm-up",
  "An iff over all histories: tests show some rows at the bound on one file, never that only these data reach it. A smoothing that drops old rows, or a window off by one, keeps the bound but changes when it is reached.",
  [f"{M}:RSIIndicator", f"{M}:TSIIndicator", f"{M}:StochasticOscillator", f"{M}:WilliamsRIndicator", f"{M}:StochRSIIndicator", f"{M}:UltimateOscillator", f"{VO}:MFIIndicator", f"{VO}:ChaikinMoneyFlowIndicator", f"{T}:AroonIndicator", f"{T}:ADXIndicator"])
p("C119", "The measures of volatility against one another",
  "With the same window and closes within their bars: the Bollinger bands are at most dev Donchian widths apart, and at least dev*sqrt(2/window) times as far apart as the highest and lowest close; the bands of the original Keltner channel are exactly two mean bar heights apart, so at most two Donchian widths; the Donchian width is at most the sum of the true ranges of its rows, hence at most window*ATR on row window-1 and at most 3*window*ATR (window*ATR/(1-1/window)^(window-1)) on every later row; as long as the Donchian width of two or more rows stays below a bound, so does the ATR; the ulcer index of positive closes is at most the percentage by which the lowest close of the last 2*window-1 rows is below the highest. A typical price above (below) its own Bollinger band of dev deviations means a CCI above dev/constant (below -dev/constant), 133 with the defaults. " + EX,
  "all gap-free data with low <= close <= high (positive closes for the ulcer index), all windows >= 1, dev >= 0, constant > 0, fillna on and off where the class has shorter windows, all rows with a value",
  "Inequalities between different indicators over all histories. Tests compare each column with stored numbers on one file and never one column with another; a deviation taken with n-1, a window off by one in one of the two or a true range without the previous close breaks them only on particular data.",
  [f"{VL}:BollingerBands", f"{VL}:KeltnerChannel", f"{VL}:DonchianChannel", f"{VL}:AverageTrueRange", f"{VL}:UlcerIndex", f"{T}:CCIIndicator"])
p("C120", "A cycle that fits into the window",
  "Let the bars repeat themselves every p rows and the windows be multiples of p (Donchian: at least p). Then on every row past the warm-up (fillna=False): the SMA is the mean of one cycle, the Bollinger lines are its mean and dev times its population deviation around it, ROC and the awesome oscillator are 0, DPO is the close window//2+1 rows ago less that mean, the Donchian lines are the highest high and lowest low of the cycle; VWAP and CMF are the ratios of one cycle; from row window on MFI and the Vortex lines are the ratios of the sums over rows 1 to p, and the ultimate oscillator is 100 times the buying pressure of those rows per true range whatever the three weights. OBV, ADI and VPT move by the same amount over each p rows. " + EX,
  "all data with period p, all p, all windows that are multiples of p, all rows past the warm-up, any length",
  "Needs an unbounded family of periodic data sets and windows. A window off by one, a first row that leaks into later windows or a total with a reset breaks it; tests never feed periodic data.",
  [f"{T}:SMAIndicator", f"{T}:DPOIndicator", f"{T}:VortexIndicator", f"{M}:ROCIndicator", f"{M}:AwesomeOscillatorIndicator", f"{M}:UltimateOscillator", f"{VL}:BollingerBands", f"{VL}:DonchianChannel", f"{VO}:VolumeWeightedAveragePrice", f"{VO}:ChaikinMoneyFlowIndicator", f"{VO}:MFIIndicator", f"{VO}:OnBalanceVolumeIndicator", f"{VO}:AccDistIndexIndicator", f"{VO}:VolumePriceTrendIndicator"])
p("C121", "KAMA in double precision",
  "Let all closes be at most M in size and any two of them equal or at least 2^-900 apart, and let kama run with fillna=False, window w and powers between 1 and P. Computed in IEEE double precision, the column has NaN on the same rows as the exact one, and elsewhere differs by at most (2w + 14)(P + 1)^2 2^-53 M when each window of absolute changes is summed from left to right; this bound does not grow with the number of rows. With pandas' own compensated rolling sum the bound is 310 n w (M/g)(P + 1)^2 2^-53 M over n rows, where g is the smallest nonzero difference between two closes, provided that this is at most M/25. The wrapped-around change on row 0 (np.roll) never disturbs this: on the first row with a value the efficiency ratio is still at most 1.",
  "all row counts (up to 2^44 with pandas' kernel), all closes of size at most M (2^-900 <= M <= 2^900, 2^900/3 with pandas' kernel), all windows and powers up to 2^14 (any window and powers up to 2^40 with pandas' kernel, under the stated proviso)",
  "The smoothing factor is a quotient of two computed sums, squared, inside a recursion; a test compares a few dozen rows of one file to some decimals and cannot tell a bounded error from one that builds up.",
  [f"{M}:KAMAIndicator"])
p("C122", "CMF and VWAP in double precision",
  "Let l <= c <= h on every bar, prices at most M in size (2^-400 <= M <= 2^400), each bar's high equal to its low or at least 2^-900 above it, and all volumes between 2^-400 and 2^400. In IEEE double precision, with either fillna, volume_weighted_average_price with window w has NaN on the same rows as in exact arithmetic and is elsewhere within (2.1w + 5) 2^-53 M of it, and chaikin_money_flow within (2.1w + 8) 2^-53, when the windows are summed from left to right. With pandas' compensated running sums over n rows, if no volume is more than R times another, the bounds are 180 n R 2^-53 M and 180 n R 2^-53.",
  "all row counts (up to 2^44 with pandas' kernel, and n R 2^-53 <= 10^-5), all bars and volumes in the stated ranges, all windows >= 1 (up to 2^38 for the left-to-right sums), both settings of fillna",
  "A test compares one file to a few decimals; that the error stays of the order of the window, whatever the volumes, and what a running sum costs in addition, cannot be seen from samples.",
  [f"{VO}:ChaikinMoneyFlowIndicator", f"{VO}:VolumeWeightedAveragePrice"])
p("C123", "The money flow index in double precision, and where it breaks",
  "Let all prices lie between 2^-400 and 2^400, all volumes be 0 or between 2^-400 and 2^400, and let neighbouring bars either be the same three numbers or have exact typical prices that differ by at least 4 * 2^-53 times their sum. In IEEE double precision, with either fillna, money_flow_index with window w is NaN on the same rows as in exact arithmetic and elsewhere within (102 w + 1003) 2^-53 of it when flows are added from left to right, and within (102 s + 3655) 2^-53 in numpy's order for windows of at most 112 * 2^s + 16 rows. Without the separation no such bound holds: on the three bars (1, 0.2, 0.5), (1, 0.3, 0.4), (1, 0.25, 0.25), whose first two typical prices are equal as exact numbers, with volumes 1, 1000, 1 and window 2, the exact index of the last row is 0 and the computed one exceeds 99.9.",
  "all bars and volumes in the stated ranges, all windows >= 1 (up to 2^38, or 2^40 in numpy's order), both settings of fillna, every order of summation with at most d additions per entry; the failure is a concrete witness",
  "The index depends on the sign of differences of rounded prices; tests compare one file to a few decimals and would have to hit a tie of typical prices to notice that rounding decides the sign.",
  [f"{VO}:MFIIndicator"])
p("C124", "Running volume totals and ease of movement in double precision",
  "IEEE double precision against exact arithmetic, row by row. ADI (l <= c <= h, high and low at most M in size with M in [2^-400, 2^400], h - l zero or at least 2^-900, volumes in [2^-400, 2^400]): row i is within (1.02 i + 8) 2^-53 times the volume traded up to that row, with either fillna. VPT (positive closes, none more than R <= 2^400 times the one before, volumes in [2^-400, 2^400], fillna=False, no smoothing): NaN on row 0, then within (1.02 i + 4) 2^-53 times the sum of v_j (c_j / c_{j-1} + 1) over 1 <= j <= i. NVI (neighbouring closes within a factor R <= 2^400 of each other, exact values in [2^-400, 2^400], at least one row): the relative error on row i is at most i (3.1 R + 4.2) 2^-53, with either fillna. EOM on any row after the first: within 7.2 * 10^8 * 2^-53 * A T / v when high and low each moved by at most A from the row before and the bar's range is at most T, with A, T, v and A T / v in [2^-400, 2^400], with either fillna.",
  "ADI, VPT: all row counts up to 2^40; NVI: all row counts n >= 1 with n (3.1 R + 4.2) 2^-53 <= 1/100; EOM: all row counts; all data in the stated ranges",
  "How fast the rounding error of a running total grows with the number of rows is a statement about all lengths and all data; a test compares one file to a few decimals.",
  [f"{VO}:AccDistIndexIndicator", f"{VO}:VolumePriceTrendIndicator", f"{VO}:NegativeVolumeIndexIndicator", f"{VO}:EaseOfMovementIndicator"])
p("C125", "The ultimate oscillator and the vortex lines in double precision",
  "IEEE double precision against exact arithmetic, fillna=False. Bars have l <= c <= h; any two of the prices h, l, c of a bar and the close before it are equal or at least 2^-400 apart, and differ by at most T in [2^-400, 2^400]. The ultimate oscillator (windows from 1 to w <= 2^40, weights in [2^-400, 2^400]) is NaN exactly on the rows where exact arithmetic gives NaN, and elsewhere within 100 (2.1 w + 11) 2^-53. Vortex (l < h, also high and low against the low and high before, 4 T <= 2^400, window w <= 2^39): NaN on the first w rows, then each line has a relative error of at most (2.05 w + 3.1) 2^-53, and their difference an error of at most (2.05 w + 4.2) 2^-53 times their sum. The number of rows does not enter. Each window is summed afresh from left to right.",
  "all row counts, all windows in the stated ranges, all bars in the stated ranges",
  "A test file shows the error on one set of bars to a few decimals; it cannot show that no cancellation is possible in the sums.",
  [f"{M}:UltimateOscillator", f"{T}:VortexIndicator"])
p("C126", "TRIX, mass index, DPO, the original Keltner channel and the Donchian width in IEEE double precision",
  "In double precision, against the values the formulas give in exact arithmetic, with the same rows missing. "
  "TRIX without filling, window 2 ≤ w ≤ 2^40, closes between m and r·m with m ≥ 2^-900, r ≥ 1, r·m ≤ 2^900 and 1000·(w+1)·2^-53·r² ≤ 1: every row is within 38000·(w+1)·2^-53·r² (percentage points). "
  "The remaining four with the compensated running sum of pandas and at most 2^44 rows, n being the number of rows. "
  "Mass index, with or without filling, windows 1 ≤ fast ≤ 2^40 and slow ≥ 1, ranges high − low between m and r·m (m, r as before, 1000·(fast+1)·2^-53·r² ≤ 1): within 10·slow·(13·(fast+1)·r² + 10·n·r)·2^-53. "
  "DPO without filling, window at least 3, closes at most M in size, 2^-900 ≤ M ≤ 2^900: within 90·n·2^-53·M; no row uses the mean of all closes. "
  "Original Keltner channel, with or without filling, prices at most M in size, 2^-900 ≤ M and 3·M ≤ 2^900: the middle line is within 95·n·2^-53·M, the outer lines within 220·n·2^-53·M. "
  "Width of the Donchian channel, with or without filling and with any offset, closes between m and r·m, highs and lows at most r·m in size, 1000·n·2^-53·r² ≤ 1: within 36000·n·2^-53·r². "
  "Rows missing at the start leave the accumulator of the running sum untouched: from there on it is the running sum of the rest.",
  "all data in the ranges given, all windows, all numbers of rows up to 2^44, all rows; the data are numbers, none missing",
  "The tests compare a few hundred rows of one price history with a tolerance; a bound needs every history of the size and every place where a rounding error can be made.",
  [f"{T}:TRIXIndicator", f"{T}:MassIndex", f"{T}:DPOIndicator", f"{VL}:KeltnerChannel", f"{VL}:DonchianChannel"])
p("C127", "Lines that compare with an earlier row or the mean of the column (KST, DPO, TRIX) in IEEE double precision",
  "KST, DPO and TRIX fill the rows that have no earlier row with the mean of the whole column. Let the column be summed in any way in which no number takes part in more than d additions "
  "(numpy's pairwise sum has d = 26 + s for at most 112·2^s + 16 rows), n rows, n and d at most 2^40, rolling means by pandas' compensated running sum. "
  "In double precision, against the values the formulas give in exact arithmetic, with or without filling, with the same rows missing: "
  "DPO, any window w ≥ 1, closes at most M in size, 2^-900 ≤ M ≤ 2^900, is within (90·n + 2·d + 8)·2^-53·M. "
  "For closes between m and r·m, m ≥ 2^-900, r ≥ 1, 2·r·m ≤ 2^900: TRIX, 1 ≤ w ≤ 2^40 and 1000·(w+d+2)·2^-53·r² ≤ 1, is within 38500·(w+d+2)·2^-53·r²; "
  "with e = (n+d+1)·2^-53·r² and 1000·e ≤ 1, all four lags any and all windows at least 1, the KST line is within 93700·e, its signal within 187000·e and its histogram within 286000·e (percentage points). "
  "In exact arithmetic every way of summing gives the same KST, DPO and TRIX.",
  "all data in the ranges given, all ways of summing of the kind described, all lags and windows, both values of fillna, all rows; the data are numbers, none missing",
  "The tests compare a few hundred rows of one price history with a tolerance; a bound needs every history of the size and every place where a rounding error can be made.",
  [f"{T}:KSTIndicator", f"{T}:DPOIndicator", f"{T}:TRIXIndicator"])
p("C128", "Look-ahead and filling in IEEE arithmetic, and the last bits that leak from the future",
  "IEEE double and single precision are arithmetics with an absorbing NaN, so C05–C10 and C12 hold in them; stated for double precision: DPO (window at least 3), TRIX (window at least 2) and Vortex with fillna=False do not "
  "look ahead, nor does KST from the row given in C06 on; constant-filled outputs are free of gaps, backfilled ones all numbers or all missing, and filling keeps every number of the outputs for which C12 says so. "
  "In every rounded arithmetic the ADX family does not look ahead, if no price so far is missing and twice the largest high or low in size does not overflow. "
  "In double precision KAMA with fillna=False (window up to 2^38, pow1 and pow2 from 1 to 2^40) on closes at most M in size, 2^-900 ≤ M ≤ 2^900, any two equal or at least 2^-900 apart, does not look ahead if every window is summed afresh. "
  "With pandas' running sum it does: the closes 2.6, 2.8, 0.7 give another third row once 4.5 is appended, because the first row of the sum is a change from the last close and leaves its rounding error behind. "
  "How much later closes can change is bounded by 620·n·w·(M/g)·(P+1)²·2^-53·M (n rows, P at least pow1 and pow2, closes equal or at least g apart, under the conditions of C121). "
  "Vortex and KST, whose first rows are compared with the mean of all closes, leak in the same way (witnesses).",
  "all formats given by a rounding that is monotone, odd and idempotent (ADX), all prices, windows, parameters and appended rows within the ranges given, all rows",
  "The tests run each indicator once on a fixed file; they never compare the result of a longer history with that of a shorter one, and a tolerance hides the last bits.",
  [f"{M}:KAMAIndicator", f"{T}:ADXIndicator", f"{T}:VortexIndicator", f"{T}:KSTIndicator", f"{T}:DPOIndicator", f"{T}:TRIXIndicator", f"{U}:IndicatorMixin"])
p("C129", "Filling lets KAMA leave the prices by any factor, and how the damage fades",
  "With fillna=True, a window of at least 3, more rows than the window and 1 <= pow1 < pow2, there are for every B closes between 0 and 1 whose KAMA is above B in the second row: the windows of the efficiency ratio are short at the start but its circular shift still reaches the end of the column. "
  "From row window-1 on the ratio is in [0,1] (pow1 <= pow2), so that a KAMA which is at most e outside an interval holding all closes on that row is at most (1 - (2/(pow2+1))^2)^k * e outside k rows later, and the lines with and without fillna differ by at most (1 - (2/(pow2+1))^2)^k times their distance on row window-1. " + EX,
  "all closes, all windows up to the number of rows, all pow1 and pow2 as given, all later rows", "a bound is refuted for every B, and the decay holds for every column", [f"{M}:KAMAIndicator"])
p("C130", "+DI and -DI in IEEE double precision",
  "Prices are finite doubles with low <= close <= high, and the highs of two neighbouring bars never exceed twice their lows. Then the true range and both directional movements that ADXIndicator computes in double precision are exactly those of the rational formulas, on every row from the second. If moreover every true range lies in [m, r m] with m >= 2^-900, r >= 1, 2 r m <= 2^900, the window w and the number a of additions an entry takes part in when the first w values are summed are at most 2^40, and (3.2 w + 1.1 a) r 2^-53 <= 0.003, then on every row, however long the series, adx_pos() and adx_neg() are within (650 w + 223 a + 204) r 2^-53 of their values in exact arithmetic, for either value of fillna. The order of the initial sum is arbitrary: a = w from left to right, a = 26 for numpy's order and w <= 128. Without the factor of two the movement can be lost: there are bars of doubles whose exact +DI is about 33.3 on a row where double precision gives 0.",
  "all numbers of rows, all windows, all bars and all summation orders in the stated ranges",
  "A wrong comparison of two moves changes the movement from its full size to nothing, so no tolerance found on sample data carries over to other data; that the errors of the running sum do not pile up over the rows needs an induction.",
  [f"{T}:ADXIndicator"])
p("C131", "ADX in IEEE double precision",
  "Bars as in C130 (finite doubles, low <= close <= high, neighbouring bars within a factor of two, every true range in [m, r m], window w and number a of additions per entry at most 2^40), on which +DI and -DI add up to at least q > 0 in exact arithmetic on every row from w on, and 2.2 D 2^-53 / q <= 0.003 where D = (650 w + 223 a + 204) r. Then adx() succeeds in double precision whenever it does in exact arithmetic, and every row is within 530 D 2^-53 / q of the exact value, for either value of fillna, however many rows there are and in whatever order the two initial means are summed.",
  "all numbers of rows, all windows, all bars and all summation orders in the stated ranges",
  "The quotient (+DI - -DI) / (+DI + -DI) magnifies the error of its terms, and the smoothed line feeds on its own past; sample files show neither the worst factor nor what happens after many rows.",
  [f"{T}:ADXIndicator"])
p("C132", "CCI in double precision, and on a price that stands still",
  "`CCIIndicator(...).cci()` in double precision, with pandas' compensated rolling mean and numpy's sums, is within `(210 n + (25 + 5 d) w) * 2^-53 * M / (k g)` of the exact CCI of the same doubles on each row whose mean absolute deviation is at least `g` (`n` rows of prices up to `M` in size, window `w`, constant `k`, no number in more than `d` additions), as long as `g` is at least `(46 + 8 d) * 2^-53 * M`. The last condition cannot be dropped: when all bars stand at one price the exact CCI has no value on any row, but in double precision with the default parameters the CCI of bars at 100.01 is -inf on four of every sixteen rows and NaN on the others, and that of bars at 0.11 jumps between -66.67 and +66.67 for ever.",
  "all prices with absolute value at most M and M, k between 2^-400 and 2^400, all n and w up to 2^40, fillna true or false (row w-1 onwards without it), every order of summation; the two witnesses are for frames of every length and every row from the twentieth",
  "the tests compare one fixture in which the price always moves; a still market is never fed in and no test runs long enough to see the pattern repeat",
  [f"{T}:CCIIndicator"])
p("C133", "The parabolic SAR in double precision, and the bar that just touches it",
  "`PSARIndicator` in double precision: up to the first close call `psar()` is within `E = (8 + 7 max_step / step) * 2^-53 * M / step` of the exact parabolic SAR of the same doubles on every row, and `psar_up()` and `psar_down()` have their values on the same rows as the exact ones; `E` does not grow with the number of rows. A close call is a bar whose low (high, in a down-trend), or that of the bar two before it, is within `E` of the tentative stop `S + a (H - S)` that it is compared with. The proviso is needed: with the default steps, on three bars with highs 125, 110, 110, lows 90, 90, 100.5 and closes 100, 100, 105, row 2 is an up row with stop 90 in double precision and a down row with stop 125 without rounding.",
  "all bars with absolute values at most M, M between 2^-900 and 2^900, all steps with 2^-20 <= step <= max_step <= 1, all numbers of rows, fillna=False, an index that is not of integers",
  "the tests compare one fixture to a few decimals; whether the error builds up over long columns, and what happens on a touch, is not tested",
  [f"{T}:PSARIndicator"])
p("C134", "The stochastic's signal line, the smoothed ease of movement and StochRSI in double precision",
  "With pandas' compensated rolling mean, and all errors counted against the exact indicator of the same doubles: `stoch_signal()` is within `(8510 n + 410) * 2^-53` when every bar has a range; `sma_ease_of_movement()` is within `(8.6e9 n + 7.2e8) * 2^-53 * A T / V`, with `A` the largest move of high or low from bar to bar, `T` the largest range and `V` the smallest volume; `stochrsi()` is within `90000 w * 2^-53 * (M / m) / g`, and `stochrsi_k()`, `stochrsi_d()` within `240 n * 2^-53` and `530 n * 2^-53` more, when the close moves by between `m` and `M` on every row and the exact RSI has a range of at least `g >= 50000 w * 2^-53 * M / m` in every full window. NaN rows are the same. Without a range StochRSI shows noise: on closes 100, 101 and then 96 for good, the exact StochRSI with default windows is NaN on rows 31 to 34, but in double precision it is 1, 1, 0, 0.",
  "all bars and volumes of the sizes stated (prices up to 2^900 for the stochastic and StochRSI, moves, ranges and volumes between 2^-400 and 2^400 for ease of movement), all numbers of rows up to 2^44, all windows (2 up to 2^40 for StochRSI), fillna true or false (StochRSI: false)",
  "the tests compare one fixture to a few decimals; neither long columns nor a close that stops moving are fed in",
  [f"{M}:StochasticOscillator", f"{VO}:EaseOfMovementIndicator", f"{M}:StochRSIIndicator"])
p("C135", "The Ulcer index in double precision is as good as its drawdowns",
  "For closes within the range of ordinary doubles, `UlcerIndex(close, window, fillna).ulcer_index()` computed with a rounding after every operation has the same rows as without rounding, and each value is within (620 + 121 d) ε of the exact one, where ε = 2^-53 and no squared drawdown takes part in more than d additions of `(x ** 2 / window).sum()`. With numpy's pairwise summation and the default window of 14 that is less than 10^-12 on a scale from 0 to 100. So, unlike the Bollinger bands, the square root does not lose half of the digits, not even when the index is close to 0.",
  "for all n, all real closes between 2^-900 and 2^900, all windows between 1 and 2^40, all orders of summation of depth d ≤ 2^40, both values of fillna",
  "The tests compare one column with a spreadsheet to a few decimals; they cannot bound the error for other prices, windows or orders of summation.",
  [f"{VL}:UlcerIndex"])
p("C136", "The daily log return in double precision, and the rises it does not see",
  "`DailyLogReturnIndicator(close, fillna).daily_log_return()` in double precision has its values on the same rows as without rounding, each within `830 * 2^-53 * L` of the exact log return of the same doubles, where `L` is the largest absolute logarithm of a price; for prices between 0.001 and 1000000 that is less than 2e-12 per cent. The error does not shrink with the return: of two rises in a row between 64 and 2048 that together are at most 2^-50 of the price, at least one has a log return of exactly 0, though both exact log returns are positive. At 1000, 1000 + 2^-43, 1000 + 2^-42 `daily_return()` still shows both rises.",
  "all n, all positive closes whose logarithms are at most L in size, L between 2^-900 and 2^900, fillna true or false; for the missed rise all frames and all rows with two such rises",
  "the tests compare one column to a few decimals; rises of one unit in the last place do not occur in it",
  [f"{O}:DailyLogReturnIndicator"])
p("C137", "The Schaff trend cycle in double precision, and on a straight line",
  "`STCIndicator(...).stc()` in double precision has its values on the same rows as the exact STC of the same doubles and is within `400 E / g' + (4100 smooth2 + 4510) * 2^-53` of it, with `E = (8000 (window_slow + window_fast + 3) M / g + 4100 smooth1 + 4510) * 2^-53`: prices are at most `M` in size, the exact MACD line has a range of at least `g` and its smoothed position one of at least `g'` in every complete cycle, `g >= 80 (window_slow + window_fast + 3) * 2^-53 * M` and `g' >= 4 E`. Without a range the two differ: on a price that moves by the same amount on every row (up, down or not at all) the exact STC has no value on any row, however long the column (0 with fillna), but in double precision the price 1, 2, 3, ... has an STC of 0 on row 133 with windows 8 and 1, cycle 3 and smoothings of 3.",
  "all n, all prices at most M in size, M between 2^-400 and 2^400, all windows and smoothings between 1 and 2^40, every cycle, fillna true or false; the straight line for all n, every step, all windows, cycles and smoothings from 1 on, fillna true or false",
  "the tests compare one fixture to a few decimals; they neither bound the error that the two divisions by a range can blow up nor feed in a straight line",
  [f"{T}:STCIndicator"])
p("C138", "The averages on a straight line",
  "On a close that moves by `b` on every row, `SMAIndicator` is exactly `b (window - 1) / 2` behind the close, `WMAIndicator` exactly `b (window - 1) / 3`, and `EMAIndicator` `b (window - 1) / 2 * (1 - (1 - 2 / (window + 1))^i)` on row `i`; `MACD(...).macd()` is the difference of the two EMA distances. `KAMAIndicator` of a rising line is `b (1/A - 1) (1 - (1 - A)^(i - window + 1))` behind on row `i`, with `A = (2 / (pow1 + 1))^2`, whatever `pow2`. The awesome oscillator is `b (window2 - window1) / 2` when high and low both move by `b`. `DPOIndicator` shows a rising close below its trend on every row: `-b` for odd windows, `-3b/2` for even ones. The Bollinger bands are `window_dev * |b| * sqrt((window^2 - 1) / 12)` from the average, so no line, however steep, leaves the usual bands (window_dev 2, or any from sqrt 3 on), while with window_dev 1 and a window of at least three a rising line is above its upper band on every row.",
  "all n, every start and step of the line, all windows from 1 on (DPO and the band crossing from 3 on), every row from window - 1 on; fillna false, for the EMA either",
  "the tests compare one price fixture to a few decimals; they never feed in a price whose right answer is known for every window",
  [f"{T}:SMAIndicator", f"{T}:WMAIndicator", f"{T}:EMAIndicator", f"{T}:MACD", f"{T}:DPOIndicator", f"{M}:AwesomeOscillatorIndicator", f"{M}:KAMAIndicator", f"{VL}:BollingerBands"])

out = os.path.join(os.path.dirname(os.path.abspath(__file__)), "..", "properties.jsonl")
with open(out, "w") as f:
    for x in P: f.write(json.dumps(x, ensure_ascii=False) + "\n")
print(len(P))
