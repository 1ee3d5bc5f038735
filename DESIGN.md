# Formal model of bukosabino/ta (Lean 4) — design and trusted base

The tables of sections 4 and 5 are written by `tools/design.py`; the text above them is `tools/design_head.md`.

## 1. What is modelled

| code | model | remarks |
|---|---|---|
| `ta/utils.py` | `Verif/Model/Utils.lean`, `Dropna.lean` | `_check_fillna`, `_true_range`, `_sma`, `_ema`, `_get_min_max`, `dropna` |
| `ta/momentum.py` | `Verif/Model/Momentum.lean` | all classes |
| `ta/trend.py` | `Verif/Model/Trend.lean`, `Psar.lean`, `Adx.lean` | all classes |
| `ta/volatility.py` | `Verif/Model/Volatility.lean` | all classes |
| `ta/volume.py` | `Verif/Model/Volume.lean` | all classes |
| `ta/others.py` | `Verif/Model/Others.lean` | all classes |
| module-level functions of the five files, Python's argument binding | `Verif/Model/Call.lean`, `Functions.lean` | signatures, defaults and delegated calls; `Functions.lean` is written by `tools/functions.py`, which parses (does not run) the source text |
| `ta/wrapper.py` | `Verif/Model/Wrapper.lean` | all `add_*` functions, as a program of column assignments over a data frame, with failure points |
| all 84 output methods as one type | `Verif/Model/Catalogue.lean` | `Ind`, `Ind.eval`: constructor followed by method call, as a function of the bars |
| the 43 classes as objects that live on after the constructor | `Verif/Model/Objects.lean` | `Obj`, `Obj.init` (the arrays a constructor keeps), `Ind.call` (what a method reads and whether it hands out the object's array), histories of calls and in-place writes (C90 only) |
| the 84 output methods on labelled columns | `Verif/Model/Labels.lean` | `Lab`, `Ind.evalL`: what pandas does with the row labels, columns with different labels |
| pandas/numpy primitives the code calls | `Verif/Base/Series.lean` | `rolling().sum/mean/min/max/std/apply`, `ewm().mean`, `shift`, `diff`, `cumsum`, `pct_change`, `where`, `ffill`, `bfill`, `fillna`, `dropna`, `np.roll`, `np.where`, `np.argmax`, `DataFrame.max/min(axis=1)` |

Modelling decisions:

* **Numbers.** The model is written once over an abstract arithmetic `Flt F` *without any law*
  (`Verif/Base/Num.lean`). Structural theorems (causality, shape, memory, wrapper, function calls) are proved for every `F`, so
  they hold for IEEE float64 with any rounding. A few need that NaN is absorbing (`NaNLaws F`, which float64 satisfies).
  Numeric theorems are proved for `Val K`: `nan`, `+inf`,
  `-inf` and exact finite values in an arbitrary linearly ordered field `K` (instances: ℚ, ℝ); where square roots or
  logarithms occur, for `Val ℝ`. C58 and C80 to C84 are about arithmetic in which the result of every operation is rounded
  (`Verif/Base/Round.lean`), with binary64 constructed as an instance.
* **Series.** A float64 Series is the list of its values. All series passed to one indicator share the
  same index (as they do when they are columns of one frame), so pandas alignment is positional (C92 proves this from the
  alignment rules). Row labels are modelled where the code depends on them: PSAR (`self._psar[i] = …`), `utils.dropna`, and in `Labels.lean`.
* **Rolling and ewm** turn infinities into NaN first, as pandas 1.3.5 does; a rolling aggregate is a function of the
  non-NaN values in its window.
* **Exceptions** are values (`Except PyErr`). Windows are natural numbers: `rolling` and `ewm` raise on negative
  ones, and the three classes that do not use them are modelled with integer windows in `Negative.lean` (C106); the Donchian offset is an integer.

## 2. Trusted base

* Lean's kernel, and the axioms `propext`, `Classical.choice`, `Quot.sound` only (section 5 lists them per theorem).
  No axioms of our own, no `sorry`, no `native_decide`, no `bv_decide`. Examples are computed by the kernel
  (`decide +kernel`).
* The reading of `/repo/ta/*.py` as the definitions in `Verif/Model` (each definition cites file and lines).
* The reading of the pandas 1.3.5 / numpy 1.21.5 primitives (the versions pinned in
  `requirements-core.txt`) as the definitions in `Verif/Base/Series.lean`.
* For C90: `pd.Series(s, name=…)` of a Series shares its data in pandas 1.3.5, `replace`/`ffill`/arithmetic give new data, and a column of a frame can be
  overwritten in place under an object that holds it.
* For C92 to C95: the alignment rules of pandas 1.3.5 at the head of `Verif/Model/Labels.lean` (arithmetic of two Series: outer join, sorted unless the
  indexes are equal; comparison of differently labelled Series raises; numpy arrays and `.iloc` go by position; `s *= t` keeps the index of `s`).
* The specifications the theorems are stated with: `Verif/Spec/Data.lean` (finite data, "defined from row p on with the
  values f", NaN-or), `Spec/Causal.lean` (no look-ahead, row for row), `Spec/Memory.lean` (finite memory),
  `Spec/Features.lean` (names of the wrapper's columns), and the textbook definitions beside the theorems (`emaRec`, `wsum`,
  `wmean`, `wmax`, `wmin`, `wstd`, `gain`, `loss`, `sarAt`, …).

Evidence for the reading of the code (not a proof): `tools/csvcheck.py` evaluates the model with float64 arithmetic on the inputs of the repository's
unit tests and compares it with the expected columns in `/repo/test/data`. All 66 target columns agree on the rows the unit tests compare, within the tolerance
of those tests.

Not modelled:

* Overflow, the sign of zero, dtypes other than float64 (except C105, and C109: on `float32` columns products, quotients and `cumsum` are carried out in
  single precision, `Verif/Base/RoundP.lean`; rolling and exponential windows convert to float64 first); rounding, except in C58, C80 to C84 and in the theorems
  that hold in any arithmetic. pandas computes rolling sums, means and variances online (adding the new value and subtracting the
  old one, with compensation); the model sums each window from left to right. C72 writes pandas' kernels out (`Verif/Base/Online.lean`) and
  proves that in exact arithmetic there is no difference, nor for max and min in rounded arithmetic, and that the kernels look at no later row in
  any arithmetic. Under rounding sums do differ (witness in C72), so C58, C66 and C80 to C84 speak of the model's order. C98 bounds the
  error of pandas' own running sums and means in double precision, C111 that of the variances. numpy sums in pairwise
  order; again the model sums from left to right. C114 writes numpy's order out (`Verif/Model/NumpySum.lean`, trusted reading of numpy 1.21.5's
  `pairwise_sum_DOUBLE`) and proves that in exact arithmetic it makes no difference to any output.
* Repeated row labels in columns whose labels differ (pandas then joins every pair of rows); labels that cannot be compared with one another.
  Differently labelled columns are the subject of C93 to C95 and excluded elsewhere.
  `ATR` slices with integers, which pandas takes as labels when the index is a Float64Index: modelled separately (C79), not in the other properties.
* `rolling(0)`: taken as NaN for min and max.
* Arguments of a type the code does not document (strings, …). Integer columns count as converted to float, except in C105, which models the three places where the code does arithmetic in the type of the column (KAMA's `out=` array, the negated volumes of OBV, the doubled volumes of EoM) after the rules of numpy 1.21.5: casting rule `same_kind`, arithmetic modulo `2^w`, cumulated sums of unsigned columns in uint64. Those rules are trusted, not derived.
* Warnings, memory and time.
* `utils.dropna` is modelled on tables whose columns are numeric or "other" (only null-ness of the other cells is kept).

## 3. Techniques

* **Causality** (C02–C08): pointwise lemma for each pandas primitive "row i only reads rows ≤ i", composed (`Lemmas/Take.lean`).
* **Memory** (C66): the same from the other end: relation `Tail` between a series and a suffix of it.
* **Fill** (C09–C12): `ffill` as a prefix function, induction over the series.
* **Formulas and warm-up** (C13–C15, C26–C44, C61–C64): a predicate `Def s n p f` ("series `s` has `n` rows, `nan` on the first `p`,
  then the finite values `f i`"), closed under every primitive; each indicator is then computed by composition
  and compared with a textbook formula.
* **Bounds** (C16–C25, C27, C33, C39): invariants of the recurrences / windows, on data with gaps.
* **Invariance** (C18, C59, C60, C67, C69): a relation between two series ("row by row `y = k x + c`", negation, complement)
  preserved by every primitive, hence by every indicator.
* **Linear filters** (C70, C71): a family of series with gaps in the same rows and a linear or order relation between the numbers of a row.
* **pandas' kernels** (C72): invariants of the accumulators (prefix sums, moments, queue of candidates).
* **Fading memory** (C73): two runs as functions of the data (`Fade`: bounded, and the difference vanishes uniformly), closed under sums, products,
  quotients with denominators away from 0, lags, window sums, and smoothing with weights bounded below (contraction).
* **Gaps** (C76, C77): the predicate `Heal` ("a number on every row from k rows after the last gap on"), closed under the primitives that recover;
  absorbing NaN states of the recurrences that do not.
* **Names** (C78): decoding of the name; the texts of the 84 outputs are compared pairwise, which is all of them.
* **Error bounds** (C80 to C84): `Lemmas/Error.lean` proves `|rd x - x| <= 2^-53 |x| + 2^-1075` for `binary64` and carries `Approx` (computed series near an exact one) through the operations; the smoothing contracts, so the error of a row does not depend on the number of rows before it.
* **Compensated sums** (C98): an invariant of pandas' accumulator (distance from the exact window sum, size of the two compensations) carried from row to row.
* **Reach and lag** (C96, C97): Samuelson's inequality; the lag of an average as a contraction, or as a sum over the steps in the window.
* **Comparison of two markets** (C99, C100): the first market is written as the second with one value moved; each formula is split into what the rows before contribute and the weight of the row in hand, and the quotient is shown monotone in that value.
* **Rounding** (C58): monotonicity and exactness of representable numbers are all that is used of the rounding.
* **Trends and standstill** (C85 to C87): closed forms of the recurrences on monotone or constant data; one table for all 84 outputs at a standstill.
* **Pipeline** (C89): `dropna_spec`, then C09 and C52 on what is left; the parabolic SAR apart.
* **Objects** (C90): for each class, what its methods answer from the arrays and the present columns (`Ind.late`); an invariant of histories keeps the arrays fixed.
* **Sensitivity** (C91): the relation `|x - y| <= d` between rows, through every primitive; Minkowski's inequality for the standard deviation.
* **Labels** (C92 to C95): equal labels make every labelled operation positional; the rows of a join are determined by the set of joined indexes. Putting a column in order (`Lab.ord`) commutes with arithmetic of columns (C94).
* **State machines** (C37, C45–C48): induction over the loop.
* **Wrapper** (C52–C56, C65): a program of column assignments interpreted over a frame; one induction over the program.
* **Python calls** (C68, C101): binding of arguments to parameters, for arbitrary signatures; C101 combines it with the values of the wrapper (C53).

Wrong programs: `seeded/LOG.jsonl` records edits of the model and the theorems that then fail. The
names in `failed` are found from the line numbers of the build errors. Up to entry `cf9` an error reported for a documented
declaration as a whole (a timeout, say) was put down to the declaration above it, so a list may name a neighbour besides or
instead of the theorem that failed. Only the first levels of failures are followed, so the lists are not complete either.

## 4. The properties

Plan and result; what is modelled for a property is the code it is anchored at.

| id | property | code | status | theorems (file) | scope |
|---|---|---|---|---|---|
| C01 | Row-for-row output | utils.py:_sma,_ema,IndicatorMixin, momentum.py:*, trend.py:*, volatility.py:*, volume.py:*, others.py:* | proved | `row_for_row`, `vpt_dropnans_not_row_for_row` (Props/C01.lean) | All 84 outputs of the catalogue, any arithmetic. The second theorem shows the documented exception. |
| C02 | No look-ahead with fillna=False | momentum.py:RSIIndicator,TSIIndicator,UltimateOscillator,StochasticOscillator,ROCIndicator,AwesomeOscillatorIndicator,WilliamsRIndicator,StochRSIIndicator,PercentagePriceOscillator,PercentageVolumeOscillator, trend.py:AroonIndicator,MACD,EMAIndicator,SMAIndicator,WMAIndicator,MassIndex,CCIIndicator,ADXIndicator,PSARIndicator,STCIndicator, volatility.py:AverageTrueRange,BollingerBands,KeltnerChannel,DonchianChannel,UlcerIndex, volume.py:*, others.py:* | proved | `no_lookahead`, `donchian_negative_offset_leaks`, `aroon_window_zero_raises` (Props/C02.lean); `adx_no_lookahead`, `adx_lookahead_gap` (Props/C02Adx.lean) | Any arithmetic. The ADX family needs gap-free prices so far (witness adx_lookahead_gap). ADX in rounded arithmetic: C128. |
| C03 | No look-ahead with fillna=True (constant-fill indicators) | utils.py:IndicatorMixin._check_fillna | proved | `no_lookahead` (Props/C02.lean); `no_lookahead_backfill`, `backfill_leaks`, `backfill_leaks_psar` (Props/C03.lean) | no_lookahead covers fillna=True for constant-fill outputs; backfill outputs under the stated condition, with witnesses of the failure. |
| C04 | KAMA look-ahead | momentum.py:KAMAIndicator._run | proved | `kama_no_lookahead`, `kama_leaks_fillna`, `kama_leaks_gap` (Props/C04.lean) | fillna=False on gap-free closes, over any ordered field with NaN and infinities; witnesses show both conditions are needed. In doubles: C128. |
| C05 | DPO look-ahead | trend.py:DPOIndicator._run | proved | `dpo_no_lookahead`, `dpo_leaks_window1`, `dpo_leaks_window2`, `dpo_leaks_fillna` (Props/C05.lean) | Any arithmetic in which NaN is absorbing; witnesses for windows 1, 2 and for fillna=True. |
| C06 | KST look-ahead is confined to the warm-up | trend.py:KSTIndicator._run | proved | `kst_no_lookahead_from`, `kst_leaks` (Props/C05.lean) | fillna=False, any arithmetic in which NaN is absorbing. Windows are summed afresh; for the rounding errors of pandas' running sum see C128. |
| C07 | TRIX and Vortex look-ahead | trend.py:TRIXIndicator._run,VortexIndicator._run | proved | `trix_no_lookahead`, `vortex_no_lookahead`, `trix_leaks_fillna`, `trix_leaks_window1`, `vortex_leaks_fillna` (Props/C05.lean) | Any arithmetic in which NaN is absorbing. Windows are summed afresh; for the rounding errors of pandas' running sum see C128. |
| C08 | Ichimoku spans and the visual shift | trend.py:IchimokuIndicator | proved | `ichimoku_no_lookahead`, `ichimoku_visual`, `ichimoku_visual_leaks` (Props/C05.lean) | fillna=False; any arithmetic. |
| C09 | fillna=True leaves no gap (constant fill) | utils.py:IndicatorMixin._check_fillna | proved | `fillna_const_gapfree` (Props/C09.lean) | All outputs with a constant fill; any arithmetic in which NaN is absorbing. |
| C10 | fillna=True in backfill mode | utils.py:IndicatorMixin._check_fillna | proved | `checkFillna_back_gapfree_iff`, `fillna_back_all_or_nothing` (Props/C09.lean) | All outputs filled with fillna(value=-1). |
| C11 | Filling never overwrites a finite value, and fills with the latest one | utils.py:IndicatorMixin._check_fillna | proved | `checkFillna_false`, `checkFillna_isFilled`, `IsFilled.unique`, `checkFillna_idem` (Props/C09.lean) | The fill is characterised independently of ffill/bfill and shown unique and idempotent. |
| C12 | fillna only fills: defined rows do not depend on the flag | utils.py:_sma,_ema,IndicatorMixin._check_fillna, trend.py:MACD._run | proved | `fillna_keeps_defined`, `fillna_keeps_keltner_atr`, `fillna_changes_defined` (Props/C12.lean) | Any arithmetic in which NaN is absorbing, except the ATR-Keltner bands (ordered field with NaN and infinities). The third theorem has one witness per excluded output. |
| C13 | Simple moving average | utils.py:_sma, trend.py:SMAIndicator | proved | `sma_formula`, `sma_fill_formula`, `sma_defined_iff` (Props/C13.lean) | Any ordered field; the last theorem characterises the defined rows on data with gaps. |
| C14 | Exponential moving average | utils.py:_ema, trend.py:EMAIndicator | proved | `ema_recurrence`, `ema_closed_form` (Props/C13.lean) | Any ordered field; recurrence and closed form. |
| C15 | Weighted moving average | trend.py:WMAIndicator | proved | `wma_formula`, `wma_fill_formula` (Props/C13.lean) | Any ordered field. |
| C16 | Averages stay inside the data | utils.py:_sma,_ema, trend.py:WMAIndicator, momentum.py:KAMAIndicator | proved | `sma_within`, `ema_within`, `wma_within`, `kama_within`, `averages_of_constant`, `wma_fill_leaves`, `kama_leaves_pow_zero` (Props/C16.lean); `kama_fill_unbounded` (Props/C129.lean) | Any data for SMA/EMA/WMA; gap-free data for KAMA. The last three are witnesses of the stated exceptions. |
| C17 | RSI is an oscillator in [0,100] | momentum.py:RSIIndicator | proved | `rsi_range`, `rsi_formula`, `rsi_never_fell`, `rsi_never_rose` (Props/C17.lean) | The range holds on any data (NaN and infinities included). |
| C18 | RSI ignores price units and offsets | momentum.py:RSIIndicator | proved | `rsi_affine` (Props/C18.lean) | Any data. |
| C19 | TSI in [-100,100] | momentum.py:TSIIndicator | proved | `tsi_range`, `tsi_formula`, `tsi_monotone` (Props/C19.lean) | The range holds on any data (NaN and infinities included). |
| C20 | Ultimate oscillator in [0,100] | momentum.py:UltimateOscillator | proved | `uo_range`, `uo_formula`, `bp_le_tr` (Props/C20.lean) | Any ordered field; bars may be missing in the range theorem. |
| C21 | Stochastic and Williams %R | momentum.py:StochasticOscillator,WilliamsRIndicator | proved | `stoch_range`, `williamsR_range`, `williamsR_eq_stoch`, `stoch_formula` (Props/C21.lean); `stoch_fill` (Props/C116.lean) | Any ordered field; the identity %R = %K - 100 holds on any data. |
| C22 | StochRSI in [0,1], STC in [0,100] | momentum.py:StochRSIIndicator, trend.py:STCIndicator | proved | `stochrsi_range`, `stc_range` (Props/C21.lean) | Any data. |
| C23 | MFI in [0,100] | volume.py:MFIIndicator | proved | `mfi_range`, `mfi_formula`, `mfi_no_fall`, `mfi_no_rise` (Props/C23.lean) | The range holds on any data; formula on gap-free data. |
| C24 | CMF in [-1,1] | volume.py:ChaikinMoneyFlowIndicator | proved | `cmf_range`, `cmf_formula` (Props/C23.lean) | Range with missing bars and volumes; formula on gap-free data. |
| C25 | ADX family in [0,100] | trend.py:ADXIndicator | proved | `adx_di_range`, `adx_range` (Props/C25.lean) | Any ordered field, gap-free bars. |
| C26 | ADX follows Wilder's smoothing | trend.py:ADXIndicator | proved | `adx_di_formula`, `adx_formula` (Props/C25.lean) | Any ordered field, gap-free bars. |
| C27 | Aroon | trend.py:AroonIndicator | proved | `aroon_range`, `aroon_formula`, `aroon_up_100` (Props/C27.lean) | The range holds on any data; the formula on gap-free data. |
| C28 | ATR | volatility.py:AverageTrueRange | proved | `atr_formula`, `atr_mem`, `atr_nonneg` (Props/C27.lean) | Formula and upper bound on gap-free bars; non-negativity also with missing bars. |
| C29 | True range | utils.py:IndicatorMixin._true_range | proved | `true_range_formula`, `true_range_ge` (Props/C20.lean) | Any ordered field. |
| C30 | Bollinger bands | volatility.py:BollingerBands | proved | `bollinger_formula`, `bollinger_pband_half`, `bollinger_order` (Props/C30.lean) | Over the reals (square root); gap-free data. |
| C31 | Keltner channel | volatility.py:KeltnerChannel | proved | `keltner_original_formula`, `keltner_atr_formula`, `keltner_order` (Props/C31.lean) | Any ordered field, gap-free bars. |
| C32 | Donchian channel | volatility.py:DonchianChannel | proved | `donchian_extreme`, `donchian_formula`, `donchian_pband_range`, `donchian_wider`, `donchian_offset` (Props/C32.lean) | Any ordered field, gap-free bars. |
| C33 | Ulcer index | volatility.py:UlcerIndex | proved | `ulcer_formula`, `ulcer_fill_formula`, `ulcer_range`, `ulcer_zero_iff` (Props/C30.lean) | Over the reals (square root); gap-free positive closes. |
| C34 | OBV | volume.py:OnBalanceVolumeIndicator | proved | `obv_formula`, `obv_step` (Props/C34.lean) | Any ordered field, gap-free data. |
| C35 | ADI | volume.py:AccDistIndexIndicator | proved | `adi_formula`, `adi_step` (Props/C34.lean) | Any ordered field, gap-free bars. |
| C36 | VPT | volume.py:VolumePriceTrendIndicator | proved | `vpt_formula`, `vpt_fill_formula`, `vpt_smooth_formula`, `vpt_dropnans` (Props/C34.lean) | Gap-free data with non-zero closes; the dropnans theorem holds on any data. |
| C37 | NVI | volume.py:NegativeVolumeIndexIndicator | proved | `nvi_formula`, `nvi_pos` (Props/C34.lean) | Gap-free data with non-zero (positive) closes. |
| C38 | Force index and ease of movement | volume.py:ForceIndexIndicator,EaseOfMovementIndicator | proved | `forceIndex_formula`, `forceIndex_fill_formula`, `eom_formula`, `smaEom_formula` (Props/C34.lean); `eom_fill` (Props/C116.lean) | Gap-free data; non-zero volumes for the ease of movement. |
| C39 | VWAP inside the window's price range | volume.py:VolumeWeightedAveragePrice | proved | `vwap_mem`, `vwap_formula` (Props/C23.lean) | Range with missing bars and volumes; formula on gap-free data. |
| C40 | Line / signal / histogram identities | trend.py:MACD,KSTIndicator,VortexIndicator,AroonIndicator, momentum.py:PercentagePriceOscillator,PercentageVolumeOscillator | proved | `hist_eq`, `hist_nan_iff`, `vortex_diff_nan`, `macd_formula`, `ppo_formula`, `kst_formula`, `vortex_formula` (Props/C40.lean) | The difference identity holds in any arithmetic on any data; the lines themselves on gap-free data. vortex_diff_nan is the witness of the stated exception. |
| C41 | Exact warm-up | momentum.py:*, trend.py:*, volatility.py:*, volume.py:*, others.py:* | proved | `warmup`, `leading_nans` (Props/C41.lean) | All 84 outputs, over the reals. Ten outputs can be undefined later on flat data and are only covered up to their look-back here; their exact conditions are in C19, C23, C30, C45, C50, C62, C63. |
| C42 | Ichimoku lines inside the price range | trend.py:IchimokuIndicator | proved | `ichimoku_formula`, `ichimoku_within`, `ichimoku_visual_shift` (Props/C42.lean) | Any ordered field, gap-free bars. |
| C43 | Returns compound | others.py:* | proved | `returns_compound`, `log_returns_sum` (Props/C42.lean) | Any ordered field with non-zero closes; logarithms over the reals with positive closes. |
| C44 | ROC | momentum.py:ROCIndicator, others.py:DailyReturnIndicator | proved | `roc_formula`, `roc_one_eq_daily` (Props/C42.lean); `scale_law` (Props/C18.lean) | Any ordered field; the equality with the daily return also with gaps, but not with infinite closes. |
| C45 | PSAR trend partition | trend.py:PSARIndicator | proved | `psar_partition` (Props/C45.lean) | Any ordered field, gap-free bars. |
| C46 | PSAR stays on its side of the price | trend.py:PSARIndicator._run | proved | `psar_rule_up`, `psar_rule_down`, `psar_side`, `psar_side_limits` (Props/C45.lean) | Any ordered field, gap-free bars; psar_side_limits are the witnesses. |
| C47 | PSAR does not depend on row labels | trend.py:PSARIndicator._run, utils.py:dropna | proved | `psar_index`, `psar_index_range`, `psar_labels_matter` (Props/C45.lean) | Any arithmetic, any data; the last theorem is the witness that the claim fails for other integer indexes. |
| C48 | PSAR flip indicators | trend.py:PSARIndicator.psar_up_indicator,psar_down_indicator | proved | `psar_down_flag`, `psar_up_flag`, `psar_up_flag_zero` (Props/C45.lean) | Any ordered field, gap-free bars; the last theorem is the witness of the stated exception. |
| C49 | Mass index | trend.py:MassIndex | proved | `mass_formula`, `mass_pos_const` (Props/C49.lean); `scale_law`, `shift_fixed` (Props/C18.lean) | Gap-free bars with high > low; invariances on any data. |
| C50 | CCI | trend.py:CCIIndicator | proved | `cci_formula` (Props/C49.lean); `scale_law`, `shift_fixed` (Props/C18.lean) | Gap-free bars; invariances on any data. |
| C51 | When the constructors raise | volatility.py:AverageTrueRange._run, trend.py:ADXIndicator,PSARIndicator, volume.py:NegativeVolumeIndexIndicator, others.py:CumulativeReturnIndicator | proved | `raises_iff` (Props/C51.lean) | Every output of the catalogue, any arithmetic, any data: the exception is given by a table in the number of rows and the parameters. |
| C52 | Wrapper adds exactly its columns | wrapper.py:* | proved | `wrapper_filled`, `wrapper_keeps`, `wrapper_get` (Props/C52.lean) | All six functions, any arithmetic. The last two hold on every frame, also with clashing names, missing columns and exceptions. |
| C53 | Wrapper values are the indicators of the original columns | wrapper.py:* | proved | `wrapper_filled`, `wrapper_values`, `clash_matters` (Props/C52.lean); `evalAt_plain` (Lemmas/Wrap.lean) | All six functions, any arithmetic. Only the parabolic SAR sees the index, and not the default index. The last theorem is the witness that the hypothesis on names is needed. |
| C54 | vectorized=True is a subset | wrapper.py:* | proved | `vectorized_sublist`, `sublist_features` (Props/C52.lean) | All six functions, any arithmetic. |
| C55 | colprefix only renames | wrapper.py:* | proved | `prefix_renames`, `open_unused` (Props/C52.lean) | All six functions, any arithmetic. |
| C56 | Wrapper failure | wrapper.py:* | proved | `wrapper_exception`, `all_succeeds_iff`, `missing_column`, `all_missing_unchanged`, `wrapper_filled`, `wrapper_keeps` (Props/C52.lean) | All six functions, any arithmetic, any data. |
| C57 | dropna | utils.py:dropna | proved | `dropna_spec`, `dropna_good`, `dropna_idem`, `dropna_keeps_ninf` (Props/C57.lean) | Any ordered field with NaN and infinities. Integer columns are taken as converted to float; that the argument is copied first is a fact of the model. |
| C58 | Which bounds survive rounding | momentum.py:RSIIndicator,StochRSIIndicator,StochasticOscillator,WilliamsRIndicator, volume.py:MFIIndicator, trend.py:AroonIndicator,ADXIndicator,EMAIndicator, volatility.py:* | proved | `rsi_rounded`, `mfi_rounded`, `aroon_rounded`, `stochrsi_rounded`, `donchian_pband_rounded`, `atr_rounded`, `adx_rounded`, `binary64_keeps`, `keltner_order_rounded`, `bollinger_order_rounded`, `ulcer_rounded`, `stoch_exceeds_100`, `williamsR_below`, `ema_leaves_range` (Props/C58.lean) | Any rounding of the exact result of each operation; binary64 is constructed and proved to be one. Sums are taken left to right: pandas' online rolling kernels and numpy's pairwise order are not modelled, nor the sign of zero. |
| C59 | What a shift of all prices does | trend.py:*, momentum.py:*, volatility.py:*, volume.py:* | proved | `shift_fixed`, `shift_moves`, `affine_law`, `shift_other_witness` (Props/C18.lean); `shift_real_witness` (Props/C59.lean) | Over the reals with NaN and infinities. There is a witness for every excluded output; the last theorem has those that need a square root or a logarithm. |
| C60 | Price-unit invariance | trend.py:*, momentum.py:*, volatility.py:*, volume.py:*, others.py:* | proved | `scale_law` (Props/C18.lean) | All outputs of the catalogue, over the reals with NaN and infinities. |
| C61 | KAMA is the adaptive recurrence | momentum.py:KAMAIndicator | proved | `kama_formula` (Props/C61.lean) | Any ordered field, gap-free closes. |
| C62 | StochRSI is the position of the RSI in its range | momentum.py:StochRSIIndicator | proved | `stochrsi_formula` (Props/C61.lean) | Any data. |
| C63 | STC is the twice-smoothed position of the MACD line | trend.py:STCIndicator | proved | `stc_formula` (Props/C61.lean) | Gap-free closes; under the stated non-flatness. |
| C64 | Awesome oscillator, DPO and TRIX | momentum.py:AwesomeOscillatorIndicator, trend.py:DPOIndicator,TRIXIndicator | proved | `ao_formula`, `dpo_formula`, `trix_formula`, `trix_fill_formula` (Props/C49.lean) | Gap-free data. |
| C65 | Wrapper calls are idempotent | wrapper.py:* | proved | `wrapper_twice` (Props/C52.lean) | All six functions, any arithmetic. |
| C66 | Windowed outputs have finite memory | trend.py:*, momentum.py:*, volatility.py:*, volume.py:*, others.py:* | proved | `finite_memory`, `memory_sharp`, `no_finite_memory` (Props/C66.lean) | finite_memory in any arithmetic; the two others over the reals. pandas' online rolling kernels carry rounding errors across windows, which the model does not show. |
| C67 | Volume-unit invariance | volume.py:*, momentum.py:PercentageVolumeOscillator | proved | `volume_law`, `volume_law_zero` (Props/C67.lean) | All outputs of the catalogue, over the reals with NaN and infinities. The second theorem is the witness that k = 0 is excluded. |
| C68 | The module-level functions are the classes | trend.py:1159-1900, momentum.py:769-1352, volatility.py:472-1011, volume.py:492-764, others.py:97-135 | proved | `fn_as_class`, `fn_type_error`, `fn_value`, `fn_defaults`, `cls_defaults`, `fn_kw_order`, `fn_positional`, `hidden_irrelevant`, `own_default_differs`, `donchian_defaults_disagree`, `keltner_multiplier_hidden` (Props/C68.lean) | Any arithmetic. Arguments of another type than the model's (negative windows, strings, ...) are outside the model. |
| C69 | Turning the chart upside down | momentum.py:*, trend.py:*, volatility.py:*, volume.py:* | proved | `mirror_law`, `rsi_mirror`, `uo_mirror`, `mirror_asymmetric` (Props/C69.lean) | Table Ind.mirror in Props/C69.lean; over the real numbers. |
| C70 | Superposition | trend.py:*, momentum.py:AwesomeOscillatorIndicator,KAMAIndicator, volatility.py:BollingerBands,KeltnerChannel, volume.py:*, utils.py:_sma,_ema | proved | `superposition`, `superposition_weighted`, `superposition_volume`, `kama_not_linear_not_monotone` (Props/C70.lean) | Over the real numbers; data with gaps. Table Ind.linear in Props/C70.lean. |
| C71 | Raising prices never lowers a trend line | trend.py:*, momentum.py:KAMAIndicator, volatility.py:BollingerBands,KeltnerChannel,DonchianChannel, volume.py:VolumeWeightedAveragePrice, utils.py:_sma,_ema | proved | `monotone_in_prices`, `vwap_monotone`, `kama_not_linear_not_monotone`, `keltner_not_monotone` (Props/C70.lean) | Over the real numbers; data with gaps. Table Ind.rising in Props/C70.lean. |
| C72 | Rolling windows as pandas computes them | utils.py:_sma, momentum.py:StochasticOscillator,WilliamsRIndicator,UltimateOscillator, trend.py:IchimokuIndicator,VortexIndicator,MassIndex, volatility.py:BollingerBands,DonchianChannel,UlcerIndex, volume.py:ChaikinMoneyFlowIndicator,MFIIndicator,VolumeWeightedAveragePrice | proved | `online_sum`, `online_mean`, `online_std`, `online_max`, `online_min`, `online_max_rounded`, `online_min_rounded`, `online_no_lookahead`, `online_std_no_lookahead`, `online_mean_float64` (Props/C72.lean) | The kernels of pandas 1.3.5 are written out in Base/Online.lean from knowledge of that version; pandas' source is not in /repo. |
| C73 | Exponential outputs forget, geometrically; some outputs never do | trend.py:EMAIndicator, trend.py:MACD, momentum.py:PercentagePriceOscillator, momentum.py:PercentageVolumeOscillator, momentum.py:KAMAIndicator, momentum.py:RSIIndicator, trend.py:TRIXIndicator, trend.py:MassIndex, trend.py:ADXIndicator, volatility.py:AverageTrueRange, volatility.py:KeltnerChannel, volume.py:ForceIndexIndicator | proved | `fading_memory`, `ema_fades_geometrically`, `never_forgets` (Props/C73.lean) | N is uniform over the data; the smoothing weight of KAMA varies with the data but is the same in both runs and bounded below |
| C74 | All that a running total keeps of the past is one number | volume.py:AccDistIndexIndicator, volume.py:OnBalanceVolumeIndicator, volume.py:VolumePriceTrendIndicator, volume.py:NegativeVolumeIndexIndicator, others.py:CumulativeReturnIndicator | proved | `adi_history`, `obv_history`, `vpt_history`, `nvi_history`, `cr_history` (Props/C74.lean) | Spec `ShiftedBy`/`ScaledBy`; the constants are given explicitly. |
| C75 | The same quantity reached through different classes | momentum.py:StochasticOscillator, volatility.py:DonchianChannel, trend.py:IchimokuIndicator, momentum.py:StochRSIIndicator, trend.py:CCIIndicator, volume.py:MFIIndicator, volume.py:VolumeWeightedAveragePrice, momentum.py:AwesomeOscillatorIndicator, volatility.py:BollingerBands, volatility.py:KeltnerChannel, trend.py:MACD, momentum.py:PercentagePriceOscillator, volume.py:ForceIndexIndicator, volume.py:EaseOfMovementIndicator, volume.py:ChaikinMoneyFlowIndicator, volume.py:AccDistIndexIndicator | proved | `stoch_donchian`, `ichimoku_donchian`, `spanB_not_donchian`, `stochrsi_stoch`, `only_typical_price`, `centres_are_averages`, `signals_are_averages`, `lines_of_emas`, `cmf_adi`, `window_one` (Props/C75.lean) | Some of these hold by unfolding the two classes to the same expression; the others need the laws of exact arithmetic with special values. |
| C76 | Averages and totals of data with missing rows | utils.py:_sma,_ema, trend.py:SMAIndicator, trend.py:EMAIndicator, momentum.py:RSIIndicator, volume.py:OnBalanceVolumeIndicator, volume.py:AccDistIndexIndicator | proved | `sma_gaps`, `ema_gaps`, `rsi_gaps`, `obv_gaps`, `adi_gaps` (Props/C76.lean) | SMA and EMA on any data; RSI, OBV on data without infinities, ADI on bars that may be missing. |
| C77 | Missing bars: who comes back, who does not | volatility.py:AverageTrueRange._run, volatility.py:KeltnerChannel._run, momentum.py:KAMAIndicator._run, trend.py:ADXIndicator._run, trend.py:PSARIndicator._run, others.py:CumulativeReturnIndicator._run, utils.py:_ema, utils.py:IndicatorMixin._true_range | proved | `recovers`, `atr_poison`, `atr_frozen`, `keltner_poison`, `kama_poison`, `adx_poison`, `psar_poison`, `cr_poison`, `heals_or_mortal` (Props/C77.lean) | the windowed part rests on C66 and C41 |
| C78 | What the name of a returned Series tells | trend.py:IchimokuIndicator, trend.py:MACD, volatility.py:BollingerBands, volatility.py:KeltnerChannel, volume.py:EaseOfMovementIndicator, momentum.py:PercentagePriceOscillator | proved | `same_name`, `told_name`, `main_line_name`, `names_ambiguous`, `name_shows_unused` (Props/C78.lean) | The witnesses are evaluated with square roots of 0 and 1 only. |
| C79 | ATR on rows labelled by floats | volatility.py:AverageTrueRange._run, volatility.py:KeltnerChannel._run | proved | `atr_float_same`, `atr_float_range`, `atr_float_lookahead`, `atr_float_dead`, `atr_float_zero`, `keltner_float_dead`, `keltner_float_flat` (Props/C79.lean) |  |
| C80 | Rounding errors of EMA, MACD and ATR do not build up | trend.py:EMAIndicator, trend.py:MACD, volatility.py:AverageTrueRange, utils.py:_ema, utils.py:IndicatorMixin._true_range | proved | `ema_double`, `macd_double`, `atr_double` (Props/C80.lean) | the mean that starts ATR is summed left to right |
| C81 | On-balance volume in double precision | volume.py:OnBalanceVolumeIndicator | proved | `obv_double_exact`, `obv_double`, `obv_double_stuck` (Props/C81.lean) | gap-free columns; numpy's cumsum adds left to right, as the model does |
| C82 | RSI and TSI in double precision | momentum.py:RSIIndicator, momentum.py:TSIIndicator, utils.py:_ema | proved | `rsi_double`, `tsi_double` (Props/C82.lean) | the smoothing factor 1/w goes through pandas' com, as in the model |
| C83 | Returns in double precision: dividing first loses small returns | momentum.py:ROCIndicator, others.py:DailyReturnIndicator, others.py:CumulativeReturnIndicator | proved | `roc_double`, `daily_double`, `cumulative_double`, `daily_double_twice` (Props/C83.lean) |  |
| C84 | PPO, PVO, force index and the ATR Keltner channel stay accurate in double precision | momentum.py:PercentagePriceOscillator, momentum.py:PercentageVolumeOscillator, volume.py:ForceIndexIndicator, volatility.py:KeltnerChannel | proved | `forceIndex_double`, `keltner_double`, `ppo_double` (Props/C84.lean) |  |
| C85 | Closes that only rise or only fall are read as such | momentum.py:RSIIndicator, momentum.py:StochRSIIndicator, momentum.py:TSIIndicator, momentum.py:PercentagePriceOscillator, momentum.py:ROCIndicator, momentum.py:KAMAIndicator, trend.py:MACD, trend.py:TRIXIndicator, trend.py:KSTIndicator, volatility.py:UlcerIndex | proved | `rsi_rising`, `rsi_falling`, `stochrsi_rising`, `tsi_rising`, `tsi_falling`, `macd_rising`, `macd_falling`, `ppo_rising`, `ppo_falling`, `roc_rising`, `trix_rising`, `kst_rising`, `kama_rising`, `ulcer_rising`, `rising_extends`, `falling_extends` (Props/C85.lean) | The theorems are about sequences that rise (fall) for ever; rising_extends and falling_extends say that every finite rising (positive falling) column is the start of one. |
| C86 | Bars that only rise or only fall are read as such | trend.py:AroonIndicator, trend.py:ADXIndicator, trend.py:VortexIndicator, trend.py:CCIIndicator, trend.py:IchimokuIndicator, trend.py:PSARIndicator, momentum.py:AwesomeOscillatorIndicator, volatility.py:DonchianChannel, volume.py:MFIIndicator, volume.py:OnBalanceVolumeIndicator, volume.py:ForceIndexIndicator, volume.py:EaseOfMovementIndicator, volume.py:VolumePriceTrendIndicator, volume.py:NegativeVolumeIndexIndicator | proved | `aroon_rising`, `aroon_falling`, `adx_rising`, `adx_falling`, `vortex_rising`, `ao_rising`, `cci_rising`, `donchian_rising`, `ichimoku_rising`, `psar_rising`, `psar_falling`, `psar_overlap`, `mfi_rising`, `obv_rising`, `vpt_rising`, `forceIndex_rising`, `eom_rising`, `nvi_rising`, `rising_bars_extend`, `falling_bars_extend` (Props/C86.lean) |  |
| C87 | A market at a standstill | trend.py:PSARIndicator, trend.py:AroonIndicator, momentum.py:RSIIndicator, momentum.py:StochasticOscillator, volatility.py:KeltnerChannel, volatility.py:BollingerBands, volume.py:AccDistIndexIndicator, wrapper.py:add_all_ta_features | proved | `standstill` (Props/C87.lean) | the table is Ind.still, written without the model; the proof goes through the formula theorems of the single indicators |
| C88 | What the parameters do | volatility.py:DonchianChannel, volatility.py:KeltnerChannel, volatility.py:BollingerBands, trend.py:CCIIndicator, momentum.py:UltimateOscillator, trend.py:MACD, momentum.py:PercentagePriceOscillator, momentum.py:AwesomeOscillatorIndicator, momentum.py:KAMAIndicator | proved | `donchian_nested`, `keltner_nested`, `bollinger_nested`, `cci_constant`, `uo_weights`, `macd_swap`, `ppo_swap`, `ao_swap`, `kama_equal` (Props/C88.lean) |  |
| C89 | The documented pipeline | utils.py:dropna, wrapper.py:add_all_ta_features, trend.py:PSARIndicator, utils.py:IndicatorMixin | proved | `clean_gapfree`, `readme_pipeline`, `psar_down_stays_empty`, `pipeline_labels_matter` (Props/C89.lean) | -inf is what dropna lets through |
| C90 | Indicator objects over time | trend.py:EMAIndicator, trend.py:SMAIndicator, trend.py:IchimokuIndicator, momentum.py:StochasticOscillator, momentum.py:KAMAIndicator, volatility.py:BollingerBands, volatility.py:KeltnerChannel, volatility.py:DonchianChannel, utils.py:IndicatorMixin | proved | `object_timing`, `bollinger_mixed`, `keltner_mixed`, `donchian_mixed`, `result_stable`, `shared_write`, `private_write`, `mixed_is_neither`, `shared_write_spreads` (Props/C90.lean) | tables Ind.timing and Ind.fresh in Props/C90.lean; rests on the reading of pandas 1.3.5 sharing in Model/Objects.lean |
| C91 | How far a small change of the prices can move an output | trend.py:EMAIndicator, trend.py:SMAIndicator, trend.py:WMAIndicator, trend.py:MACD, trend.py:IchimokuIndicator, trend.py:DPOIndicator, volatility.py:AverageTrueRange, volatility.py:BollingerBands, volatility.py:KeltnerChannel, volatility.py:DonchianChannel, momentum.py:AwesomeOscillatorIndicator, momentum.py:RSIIndicator, volume.py:VolumeWeightedAveragePrice | proved | `sensitivity`, `vwap_sensitivity`, `creeping_markets`, `readings_jump` (Props/C91.lean) | table Ind.gain in Props/C91.lean; over the real numbers because of the standard deviation; VWAP without fill and without infinite prices |
| C92 | The rows keep their labels | utils.py:IndicatorMixin, volume.py:MFIIndicator, volume.py:OnBalanceVolumeIndicator, volatility.py:KeltnerChannel, volatility.py:AverageTrueRange, trend.py:ADXIndicator, momentum.py:UltimateOscillator | proved | `labels_pass_through`, `answer_index`, `labels_do_not_count` (Props/C92.lean) | rests on the alignment rules of pandas 1.3.5 in Model/Labels.lean |
| C93 | Which rows the answer has | trend.py:ADXIndicator, trend.py:PSARIndicator, trend.py:AroonIndicator, trend.py:IchimokuIndicator, volatility.py:DonchianChannel, volatility.py:KeltnerChannel, volume.py:OnBalanceVolumeIndicator, volume.py:NegativeVolumeIndexIndicator, volume.py:ChaikinMoneyFlowIndicator | proved | `joined_labels`, `rows_depend_on_labels` (Props/C93.lean); `cmf_rows` (Props/C94.lean) | table Ind.rowCols in Props/C93.lean, relation Joined |
| C94 | A column whose rows come in another order | volume.py:OnBalanceVolumeIndicator, volume.py:NegativeVolumeIndexIndicator, volume.py:ChaikinMoneyFlowIndicator, volume.py:VolumeWeightedAveragePrice, volume.py:AccDistIndexIndicator, volume.py:MFIIndicator, trend.py:PSARIndicator, trend.py:VortexIndicator, momentum.py:StochasticOscillator, volatility.py:KeltnerChannel | proved | `order_by_label`, `order_by_label_bars`, `swapped_same`, `order_matters` (Props/C94.lean) | table Ind.loose in Props/C94.lean; high has to be in order wherever it is used |
| C95 | Columns that do not belong together: answer or exception | volume.py:OnBalanceVolumeIndicator, volume.py:NegativeVolumeIndexIndicator, trend.py:PSARIndicator, trend.py:ADXIndicator, volatility.py:AverageTrueRange, volume.py:MFIIndicator, volatility.py:KeltnerChannel | proved | `paired_by_position`, `adx_labels`, `atr_answers`, `mfi_answers`, `keltner_flag_answers`, `keltner_atr_flag_answers` (Props/C95.lean) |  |
| C96 | How far the last value can be from its own window | volatility.py:BollingerBands, trend.py:CCIIndicator, trend.py:MassIndex | proved | `bollinger_never_crossed`, `bollinger_crossed`, `bollinger_pband_reach`, `cci_reach`, `cci_reached`, `mass_reach` (Props/C96.lean) |  |
| C97 | Averages of slowly moving prices: lag in steps | trend.py:SMAIndicator, trend.py:WMAIndicator, trend.py:EMAIndicator, trend.py:MACD, momentum.py:KAMAIndicator, momentum.py:AwesomeOscillatorIndicator, momentum.py:ROCIndicator, volatility.py:BollingerBands | proved | `sma_calm`, `wma_calm`, `ema_calm`, `macd_calm`, `ao_calm`, `kama_calm`, `roc_calm`, `bollinger_calm`, `ramp_attained`, `ramp_ema`, `ramp_bollinger` (Props/C97.lean) |  |
| C98 | Rolling sums and means in double precision, as pandas computes them | trend.py:SMAIndicator, volatility.py:BollingerBands, momentum.py:AwesomeOscillatorIndicator, utils.py:_sma | proved | `pandas_mean_drift`, `pandas_sum_drift`, `pandas_sum_int`, `pandas_mean_int`, `sma_pandas`, `ao_pandas` (Props/C98.lean) |  |
| C99 | A higher close on the row in hand: averages, oscillators and returns | trend.py:MACD, trend.py:CCIIndicator, trend.py:STCIndicator, trend.py:KSTIndicator, trend.py:DPOIndicator, momentum.py:RSIIndicator, momentum.py:TSIIndicator, momentum.py:UltimateOscillator, momentum.py:StochasticOscillator, momentum.py:StochRSIIndicator, momentum.py:KAMAIndicator, volume.py:MFIIndicator, others.py:DailyReturnIndicator | proved | `sma_rises`, `ema_rises`, `wma_rises`, `macd_rises`, `ppo_rises`, `roc_rises`, `returns_rise`, `trix_rises`, `kst_rises`, `rsi_rises`, `tsi_rises`, `uo_rises`, `stoch_rises`, `stochrsi_rises`, `stc_rises`, `cci_rises`, `dpo_sinks`, `kama_not_rising`, `mfi_not_rising` (Props/C99.lean) | Gap-free data. |
| C100 | A higher close on the row in hand: channels, volume, and what does not move | volatility.py:BollingerBands, volatility.py:KeltnerChannel, volatility.py:DonchianChannel, volatility.py:UlcerIndex, volatility.py:AverageTrueRange, volume.py:AccDistIndexIndicator, volume.py:OnBalanceVolumeIndicator, volume.py:ChaikinMoneyFlowIndicator, volume.py:NegativeVolumeIndexIndicator, trend.py:ADXIndicator, trend.py:PSARIndicator, trend.py:VortexIndicator, others.py:DailyLogReturnIndicator | proved | `bollinger_rises`, `keltner_original_rises`, `keltner_atr_rises`, `donchian_rises`, `money_rises`, `obv_rises`, `forceIndex_rises`, `vpt_rises`, `nvi_rises`, `log_return_rises`, `ulcer_sinks`, `last_close_unread`, `vortex_last_close_unread`, `bollinger_band_either` (Props/C100.lean) | Gap-free data, except for the outputs that do not move: any data, any arithmetic (vortex: arithmetic in which NaN is absorbing). |
| C101 | The wrapper's parameters and the defaults of the classes | wrapper.py:add_all_ta_features, wrapper.py:add_volatility_ta, volatility.py:KeltnerChannel, volatility.py:AverageTrueRange, trend.py:EMAIndicator | proved | `wrapper_calls`, `features_calls`, `ownColumns_eq`, `args_needed` (Props/C101.lean) | All six functions, any arithmetic. The table of calls was read off the wrapper; wrapper_calls proves every row of it. |
| C102 | A bar moved up around the same close | momentum.py:AwesomeOscillatorIndicator, momentum.py:StochasticOscillator, momentum.py:WilliamsRIndicator, momentum.py:UltimateOscillator, trend.py:IchimokuIndicator, trend.py:AroonIndicator, trend.py:CCIIndicator, volatility.py:DonchianChannel, volatility.py:KeltnerChannel, volume.py:AccDistIndexIndicator, volume.py:ChaikinMoneyFlowIndicator, volume.py:VolumeWeightedAveragePrice, volume.py:EaseOfMovementIndicator | proved | `ao_rises`, `ichimoku_rises`, `donchian_bar_rises`, `typical_rises`, `stoch_bar_sinks`, `uo_bar_sinks`, `money_bar_sinks`, `aroon_bar_rises`, `eom_bar_either` (Props/C102.lean) | Gap-free data. CCI where its mean deviation is not 0, the oscillators where the bars in hand have a range. |
| C103 | A wider bar around the same close | volatility.py:AverageTrueRange, volatility.py:KeltnerChannel, volatility.py:DonchianChannel, trend.py:MassIndex, trend.py:ADXIndicator, trend.py:VortexIndicator, trend.py:PSARIndicator | proved | `atr_wider`, `keltner_atr_wider`, `keltner_original_wider`, `donchian_bar_wider`, `mass_wider`, `di_wider`, `vortex_wider`, `psar_wider`, `wider_either` (Props/C103.lean) | Gap-free data; relative widths need positive prices. For the SAR nothing is assumed about the second close relative to the first high; the invariant covers the start-up rows. |
| C104 | A larger volume on the row in hand | volume.py:OnBalanceVolumeIndicator, volume.py:AccDistIndexIndicator, volume.py:ChaikinMoneyFlowIndicator, volume.py:VolumeWeightedAveragePrice, volume.py:VolumePriceTrendIndicator, volume.py:ForceIndexIndicator, volume.py:EaseOfMovementIndicator, volume.py:NegativeVolumeIndexIndicator, volume.py:MFIIndicator, momentum.py:PercentageVolumeOscillator | proved | `obv_volume`, `adi_volume`, `cmf_vwap_volume`, `vpt_volume`, `force_volume`, `eom_volume`, `nvi_volume`, `mfi_volume`, `pvo_volume`, `volume_unread` (Props/C104.lean) | Gap-free data with positive volumes where a quotient of volumes is taken; the money flow index needs positive typical prices. |
| C105 | Columns of integers | momentum.py:KAMAIndicator, wrapper.py:add_momentum_ta, wrapper.py:add_all_ta_features, volume.py:OnBalanceVolumeIndicator, volume.py:EaseOfMovementIndicator | proved | `kama_int`, `kama_float`, `momentum_float`, `all_float`, `vectorized_typed`, `vectorized_all_typed`, `momentum_int`, `all_int_short`, `all_int`, `obv_unsigned`, `obv_uint64`, `obv_uint`, `obvZ_float`, `eom_int32`, `eom_int32_small`, `eom_int32_big` (Props/C105.lean) | numpy's casting rule and its arithmetic on integer types are trusted as stated in DESIGN.md; the frame has no column with a generated name. |
| C106 | Negative windows | volatility.py:AverageTrueRange, momentum.py:ROCIndicator, trend.py:KSTIndicator | proved | `atrZ_pos`, `atrZ_neg`, `atr_negative_formula`, `atr_negative_lookahead`, `rocZ_nat`, `roc_negative`, `roc_negative_inverse`, `kst_negative` (Props/C106.lean) | Model/Negative.lean: subscripts and slices from the end, range with a negative start, shift by a negative number. |
| C107 | Keeping the columns up to date row by row | utils.py:_ema, utils.py:_sma, trend.py:PSARIndicator._run, volatility.py:AverageTrueRange._run, volume.py:NegativeVolumeIndexIndicator._run, trend.py:DPOIndicator._run, trend.py:VortexIndicator._run | proved | `live_all`, `eval_forgets`, `live_pads`, `live_ema`, `live_forgets`, `liveE_causal`, `dpo_fillna_not_live`, `backfill_not_live`, `seenBefore_not_live` (Props/C107.lean) | A skeleton (output with its windows) is fixed before the number type, so the size of the state cannot depend on the numbers; Spec/Live.lean says what fits into a state |
| C108 | A day without trading | volume.py:OnBalanceVolumeIndicator, volume.py:AccDistIndexIndicator, volume.py:VolumePriceTrendIndicator, volume.py:NegativeVolumeIndexIndicator, volume.py:VolumeWeightedAveragePrice, volume.py:ChaikinMoneyFlowIndicator, momentum.py:RSIIndicator, others.py:CumulativeReturnIndicator, others.py:DailyReturnIndicator | proved | `obv_pause`, `adi_pause`, `vpt_pause`, `cr_pause`, `dr_pause`, `nvi_pause`, `rsi_pause`, `vwap_pause`, `cmf_pause`, `pause_matters` (Props/C108.lean) | VWAP and CMF without filling. |
| C109 | Columns of single precision | volume.py:OnBalanceVolumeIndicator, volume.py:AccDistIndexIndicator | proved | `binaryP_64` (Base/RoundP.lean); `obv_single_exact`, `obv_single_deaf`, `obv_single_ceiling`, `adi_single_deaf` (Props/C109.lean) | That numpy and pandas cumulate float32 columns in float32 is trusted. |
| C110 | One bad tick stays in the Bollinger bands | volatility.py:BollingerBands | proved | `bb_pandas_exact`, `variance_residue`, `bands_collapse`, `bands_blow_up`, `bands_exact` (Props/C110.lean) | accumulator of pandas' roll_var as in C72; the first 21 rows by evaluation, all later rows by a fixed point |
| C111 | Bollinger bands in double precision: how wrong they can get | volatility.py:BollingerBands | proved | `pandas_var_near`, `pandas_std_near`, `bollinger_double` (Props/C111.lean) | pandas' Welford accumulator with compensation (Base/Online) in rounded arithmetic; invariant on n·mean and ssq + n·mean² over all rows |
| C112 | When a line turns | trend.py:SMAIndicator, trend.py:EMAIndicator, trend.py:WMAIndicator, trend.py:MACD, trend.py:KSTIndicator, trend.py:ADXIndicator, trend.py:TRIXIndicator, momentum.py:RSIIndicator, momentum.py:KAMAIndicator, momentum.py:PercentagePriceOscillator, volatility.py:AverageTrueRange, volatility.py:DonchianChannel, volume.py:ForceIndexIndicator, volume.py:AccDistIndexIndicator, volume.py:VolumePriceTrendIndicator, others.py:CumulativeReturnIndicator | proved | `sma_turns`, `sma_roc`, `ema_turns`, `wma_turns`, `kama_turns`, `macd_turns`, `ppo_turns`, `kst_turns`, `atr_turns`, `adx_turns`, `rsi_turns`, `forceIndex_turns`, `totals_turn`, `donchian_turns`, `trix_turns` (Props/C112.lean) |  |
| C113 | Different columns, one signal | momentum.py:RSIIndicator, trend.py:EMAIndicator, momentum.py:StochasticOscillator, momentum.py:WilliamsRIndicator, volatility.py:DonchianChannel, volatility.py:BollingerBands, volatility.py:KeltnerChannel, trend.py:MACD, momentum.py:PercentagePriceOscillator, trend.py:CCIIndicator, volume.py:ChaikinMoneyFlowIndicator, volume.py:AccDistIndexIndicator, others.py:DailyReturnIndicator, others.py:DailyLogReturnIndicator, others.py:CumulativeReturnIndicator, momentum.py:ROCIndicator | proved | `rsi_is_distance`, `rsi_fifty`, `stoch_fifty`, `bollinger_signals`, `keltner_signals`, `macd_ppo_sign`, `cci_sign`, `cmf_sign`, `return_signs` (Props/C113.lean) |  |
| C114 | In whatever order the numbers are added | trend.py:WMAIndicator, trend.py:CCIIndicator, volume.py:MFIIndicator, volatility.py:UlcerIndex, volatility.py:AverageTrueRange, trend.py:ADXIndicator, trend.py:TRIXIndicator, trend.py:KSTIndicator, trend.py:DPOIndicator, trend.py:VortexIndicator, trend.py:IchimokuIndicator | proved | `npSum_addsUp`, `npSum_short`, `npSum_split`, `AddsUp.exact`, `numpy_order`, `numpy_order_ulcer`, `mfi_any_order`, `adds_double`, `adds_int`, `wma_any_order`, `wma_numpy` (Props/C114.lean) | numpy 1.21.5's pairwise_sum is read from its C source and trusted |
| C115 | Rows before the first price | utils.py:IndicatorMixin._check_fillna, momentum.py:WilliamsRIndicator, momentum.py:RSIIndicator, trend.py:VortexIndicator, trend.py:ADXIndicator, volume.py:NegativeVolumeIndexIndicator, volatility.py:DonchianChannel | proved | `unpriced_rows`, `unpriced_start`, `adx_fill_unused` (Props/C115.lean) | The table is written from the python source, one line per kind of output; the ADX columns with fillna=False (zeros, then NaN) are not in it. |
| C116 | The first rows when filling is on | momentum.py:StochasticOscillator, momentum.py:WilliamsRIndicator, momentum.py:TSIIndicator, momentum.py:UltimateOscillator, momentum.py:KAMAIndicator, momentum.py:StochRSIIndicator, trend.py:CCIIndicator, volume.py:EaseOfMovementIndicator, volume.py:VolumePriceTrendIndicator, utils.py:IndicatorMixin._check_fillna | proved | `stoch_fill`, `williamsR_fill`, `stochSignal_fill`, `tsi_fill`, `uo_fill`, `kama_fill`, `stochrsi_fill`, `cci_fill`, `eom_fill`, `vpt_smooth_fill` (Props/C116.lean) | `Carried out n v d f` says: value `f i` where `d i`, else the row before, else `v`. KAMA assumes window <= rows (otherwise np.roll wraps more than once). |
| C117 | Columns built from highs and lows lose nothing to rounding | momentum.py:StochasticOscillator, momentum.py:WilliamsRIndicator, volatility.py:DonchianChannel, trend.py:IchimokuIndicator, trend.py:AroonIndicator | proved | `stoch_double`, `williamsR_double`, `donchian_double`, `ichimoku_lines_double`, `ichimoku_spans_double`, `aroon_double`, `stoch_double_overflow` (Props/C117.lean) | Binary64 modelled as in C58; the Ichimoku spans are stated for visual=False (with visual=True the first rows are a mean over the whole column). |
| C118 | What a reading at the limit means | momentum.py:RSIIndicator, momentum.py:TSIIndicator, momentum.py:StochasticOscillator, momentum.py:WilliamsRIndicator, momentum.py:StochRSIIndicator, momentum.py:UltimateOscillator, volume.py:MFIIndicator, volume.py:ChaikinMoneyFlowIndicator, trend.py:AroonIndicator, trend.py:ADXIndicator | proved | `rsi_limits`, `rsi_window_one`, `tsi_limits`, `stoch_limits`, `williamsR_limits`, `stochrsi_limits`, `mfi_limits`, `cmf_limits`, `uo_limits`, `aroon_limits`, `di_limits` (Props/C118.lean) | Aroon Up at 100 is aroon_up_100 (C27). |
| C119 | The measures of volatility against one another | volatility.py:BollingerBands, volatility.py:KeltnerChannel, volatility.py:DonchianChannel, volatility.py:AverageTrueRange, volatility.py:UlcerIndex, trend.py:CCIIndicator | proved | `bollinger_within_donchian`, `bollinger_not_narrow`, `bollinger_break_cci`, `keltner_within_donchian`, `donchian_within_atr`, `ulcer_within_donchian` (Props/C119.lean) | The two Bollinger bounds meet on two rows (example). |
| C120 | A cycle that fits into the window | trend.py:SMAIndicator, trend.py:DPOIndicator, trend.py:VortexIndicator, momentum.py:ROCIndicator, momentum.py:AwesomeOscillatorIndicator, momentum.py:UltimateOscillator, volatility.py:BollingerBands, volatility.py:DonchianChannel, volume.py:VolumeWeightedAveragePrice, volume.py:ChaikinMoneyFlowIndicator, volume.py:MFIIndicator, volume.py:OnBalanceVolumeIndicator, volume.py:AccDistIndexIndicator, volume.py:VolumePriceTrendIndicator | proved | `cycle_sma`, `cycle_roc`, `cycle_ao`, `cycle_dpo`, `cycle_donchian`, `cycle_bollinger`, `cycle_vwap`, `cycle_cmf`, `cycle_mfi`, `cycle_uo`, `cycle_vortex`, `cycle_obv`, `cycle_adi`, `cycle_vpt` (Props/C120.lean) |  |
| C121 | KAMA in double precision | momentum.py:KAMAIndicator | proved | `kama_double`, `kama_pandas_double`, `kama_near`, `kamaPandas_exact`, `sum_rel`, `kEr_unit` (Props/C121.lean) | `kama_double` is about the model's `kama`; `kama_pandas_double` about the same loop over pandas' rolling sum (`onlineSum`, C72/C98). |
| C122 | CMF and VWAP in double precision | volume.py:ChaikinMoneyFlowIndicator, volume.py:VolumeWeightedAveragePrice | proved | `vwap_double`, `vwap_pandas_double`, `cmf_double`, `cmf_pandas_double`, `vwapPandas_exact`, `cmfPandas_exact`, `Weighted.fresh`, `Weighted.online` (Props/C122.lean) | The model sums each window from left to right; the `_pandas_` theorems are about the same formulas over pandas' running sum (`onlineSum`, C72/C98). |
| C123 | The money flow index in double precision, and where it breaks | volume.py:MFIIndicator | proved | `mfi_double_any`, `mfi_double`, `mfi_numpy_double`, `mflow_rows`, `AddsUp.rel`, `mfi_tie`, `mfi_tie_far`, `tie_data` (Props/C123.lean) | The model adds the flows of a window from left to right; `mfi_numpy_double` is about `moneyFlowIndexBy npSum` (Model/NumpySum.lean). |
| C124 | Running volume totals and ease of movement in double precision | volume.py:AccDistIndexIndicator, volume.py:VolumePriceTrendIndicator, volume.py:NegativeVolumeIndexIndicator, volume.py:EaseOfMovementIndicator | proved | `adi_double`, `vpt_double`, `nvi_double`, `eom_double`, `cumsum_near`, `nvi_turn`, `pct_rows` (Props/C124.lean) | Running totals are added from left to right, as `cumsum` does in the model. `nvi` is the recursion of property C37 (defined in Props/C34.lean). |
| C125 | The ultimate oscillator and the vortex lines in double precision | momentum.py:UltimateOscillator, trend.py:VortexIndicator | proved | `uo_double`, `vortex_double`, `uoAvg_double`, `uo_row`, `vline_double`, `rollSum_rel` (Props/C125.lean) | Rolling sums are those of the model, without pandas' running update of the window. |
| C126 | TRIX, mass index, DPO, the original Keltner channel and the Donchian width in IEEE double precision | trend.py:TRIXIndicator, trend.py:MassIndex, trend.py:DPOIndicator, volatility.py:KeltnerChannel, volatility.py:DonchianChannel | proved | `trix_double`, `mass_double`, `dpo_double`, `keltner_original_double`, `donchian_width_double`, `online_init`, `online_skip`, `massPandas_exact`, `dpoPandas_exact`, `keltnerPandas_exact`, `wbandPandas_exact` (Props/C126.lean) | The running sums and means are pandas' compensated kernels as modelled in Base/Online.lean; in exact arithmetic they give the model's rolling sums and means. |
| C127 | Lines that compare with an earlier row or the mean of the column (KST, DPO, TRIX) in IEEE double precision | trend.py:KSTIndicator, trend.py:DPOIndicator, trend.py:TRIXIndicator | proved | `kst_double`, `dpo_double_any`, `trix_double_any`, `meanfilled_exact`, `npSum_sumsIn`, `Approx.mean`, `Approx.shiftMean`, `Approx.onlineMean0`, `Approx.change` (Props/C127.lean) | The KST, DPO and TRIX of these theorems are the model's with the summation as a parameter and pandas' running mean; `meanfilled_exact` says they are the model's in exact arithmetic. Lags at least the number of rows are included: every row is then compared with the mean. |
| C128 | Look-ahead and filling in IEEE arithmetic, and the last bits that leak from the future | momentum.py:KAMAIndicator, trend.py:ADXIndicator, trend.py:VortexIndicator, trend.py:KSTIndicator, trend.py:DPOIndicator, trend.py:TRIXIndicator, utils.py:IndicatorMixin | proved | `nanLaws_double`, `nanLaws_single`, `double_causal`, `double_filled`, `adx_no_lookahead_rounded`, `kama_no_lookahead_double`, `kama_pandas_leak`, `kama_pandas_looks_ahead`, `vortex_pandas_looks_ahead`, `kst_pandas_looks_ahead`, `vortexPosPandas_exact` (Props/C128.lean) | `double_causal` is about the model, which sums each window afresh; the `_looks_ahead` witnesses are about the running sum of pandas (Base/Online.lean). In exact arithmetic both are the same. |
| C129 | Filling lets KAMA leave the prices by any factor, and how the damage fades | momentum.py:KAMAIndicator | proved | `kama_fill_unbounded`, `kama_fill_settles`, `kama_fill_fades` (Props/C129.lean) | Any ordered field, gap-free closes. |
| C130 | +DI and -DI in IEEE double precision | trend.py:ADXIndicator | proved | `sterbenz`, `adx_inputs_exact`, `adx_di_double`, `adx_runBy_sumL`, `sumL_sumsIn`, `adx_di_tie` (Props/C130.lean); `npSum_sumsIn` (Props/C127.lean) | ADX.runBy σ is the model of _run with the initial sum taken by σ; σ = sumL is ADX.run. IsDouble x: rounding x to double precision gives x. |
| C131 | ADX in IEEE double precision | trend.py:ADXIndicator | proved | `adx_double`, `adxBy_sumL` (Props/C131.lean); `adx_runBy_sumL` (Props/C130.lean) | ADX.adxBy σ is the model of adx() with the initial mean summed by σ; σ = sumL is ADX.adx. The bars are given by sequences h, l, c that satisfy low <= close <= high at every index, also beyond the n rows used. |
| C132 | CCI in double precision, and on a price that stands still | trend.py:CCIIndicator | proved | `cci_double`, `cciPandas_exact`, `cci_still_inf`, `cci_still_swings`, `cci_still_exact` (Props/C132.lean) | `SumsIn` and `npSum` are those of C114 and C127; the period of the two still columns comes from the state of pandas' accumulator returning to itself after 16 and 32 rows, which is a computation, and holds for all later rows by induction |
| C133 | The parabolic SAR in double precision, and the bar that just touches it | trend.py:PSARIndicator | proved | `psar_double`, `psar_close_call` (Props/C133.lean) | `sarAt` is the recursion over bars that C45 proves equal to the model; the error of the acceleration factor is included in E |
| C134 | The stochastic's signal line, the smoothed ease of movement and StochRSI in double precision | momentum.py:StochasticOscillator, volume.py:EaseOfMovementIndicator, momentum.py:StochRSIIndicator | proved | `stoch_signal_double`, `sma_eom_double`, `stochrsi_double`, `stochrsi_noise`, `smoothed_exact` (Props/C134.lean) | stoch_signal_double, sma_eom_double and stochrsi_double are the three bounds, over any ordered field; smoothed_exact says that the definitions with pandas' rolling mean are the model's in exact arithmetic; stochrsi_noise is the witness that the range g is needed. The error of StochRSI is that of C82 for the RSI, divided by g; rolling extremes add none. |
| C135 | The Ulcer index in double precision is as good as its drawdowns | volatility.py:UlcerIndex | proved | `ulcer_double`, `ulcer_double_default` (Props/C135.lean) | Doubles as in C80 (rounding to nearest, with subnormals and overflow), the square root correctly rounded. The prices are taken as they are (any reals in the range), so the error is that of the computation and not of reading the prices. |
| C136 | The daily log return in double precision, and the rises it does not see | others.py:DailyLogReturnIndicator | proved | `log_return_double`, `log_return_usual`, `log_return_blind` (Props/C136.lean) | Doubles as in C80; the logarithm is taken to be correctly rounded, which numpy does not promise (its error is below one unit in the last place). |
| C137 | The Schaff trend cycle in double precision, and on a straight line | trend.py:STCIndicator | proved | `stc_double`, `stc_line`, `stc_line_noise` (Props/C137.lean) | Doubles as in C80. The ranges g and g' are those of the exact columns, described as in C63 (emaRec and PosOf), not through the code. |
| C138 | The averages on a straight line | trend.py:SMAIndicator, trend.py:WMAIndicator, trend.py:EMAIndicator, trend.py:MACD, trend.py:DPOIndicator, momentum.py:AwesomeOscillatorIndicator, momentum.py:KAMAIndicator, volatility.py:BollingerBands | proved | `sma_line`, `wma_line`, `ema_line`, `macd_on_line`, `kama_line`, `ao_line`, `dpo_line`, `bollinger_line`, `bollinger_line_inside`, `bollinger_line_outside` (Props/C138.lean) | exact arithmetic |

## 5. Axioms per theorem

* none: `ownColumns_eq`
* propext, Classical.choice, Quot.sound: `AddsUp.exact`, `AddsUp.rel`, `Approx.change`, `Approx.mean`, `Approx.onlineMean0`, `Approx.shiftMean`, `IsFilled.unique`, `Weighted.fresh`, `Weighted.online`, `adds_double`, `adds_int`, `adi_double`, `adi_formula`, `adi_gaps`, `adi_history`, `adi_pause`, `adi_single_deaf`, `adi_step`, `adi_volume`, `adx_di_double`, `adx_di_formula`, `adx_di_range`, `adx_di_tie`, `adx_double`, `adx_falling`, `adx_fill_unused`, `adx_formula`, `adx_inputs_exact`, `adx_labels`, `adx_lookahead_gap`, `adx_no_lookahead`, `adx_no_lookahead_rounded`, `adx_poison`, `adx_range`, `adx_rising`, `adx_rounded`, `adx_turns`, `affine_law`, `all_float`, `all_int`, `all_int_short`, `all_missing_unchanged`, `all_succeeds_iff`, `answer_index`, `ao_calm`, `ao_formula`, `ao_line`, `ao_pandas`, `ao_rises`, `ao_rising`, `ao_swap`, `args_needed`, `aroon_bar_rises`, `aroon_double`, `aroon_falling`, `aroon_formula`, `aroon_limits`, `aroon_range`, `aroon_rising`, `aroon_rounded`, `aroon_up_100`, `aroon_window_zero_raises`, `atrZ_neg`, `atr_answers`, `atr_double`, `atr_float_dead`, `atr_float_lookahead`, `atr_float_range`, `atr_float_same`, `atr_float_zero`, `atr_formula`, `atr_frozen`, `atr_mem`, `atr_negative_formula`, `atr_negative_lookahead`, `atr_nonneg`, `atr_poison`, `atr_rounded`, `atr_turns`, `atr_wider`, `averages_of_constant`, `backfill_leaks`, `backfill_leaks_psar`, `backfill_not_live`, `bands_blow_up`, `bands_collapse`, `bands_exact`, `bb_pandas_exact`, `binary64_keeps`, `binaryP_64`, `bollinger_band_either`, `bollinger_break_cci`, `bollinger_calm`, `bollinger_crossed`, `bollinger_double`, `bollinger_formula`, `bollinger_line`, `bollinger_line_inside`, `bollinger_line_outside`, `bollinger_mixed`, `bollinger_nested`, `bollinger_never_crossed`, `bollinger_not_narrow`, `bollinger_order`, `bollinger_order_rounded`, `bollinger_pband_half`, `bollinger_pband_reach`, `bollinger_rises`, `bollinger_signals`, `bollinger_within_donchian`, `bp_le_tr`, `cciPandas_exact`, `cci_constant`, `cci_double`, `cci_fill`, `cci_formula`, `cci_reach`, `cci_reached`, `cci_rises`, `cci_rising`, `cci_sign`, `cci_still_exact`, `cci_still_inf`, `cci_still_swings`, `checkFillna_back_gapfree_iff`, `checkFillna_false`, `checkFillna_idem`, `checkFillna_isFilled`, `clash_matters`, `clean_gapfree`, `cls_defaults`, `cmfPandas_exact`, `cmf_adi`, `cmf_double`, `cmf_formula`, `cmf_limits`, `cmf_pandas_double`, `cmf_pause`, `cmf_range`, `cmf_rows`, `cmf_sign`, `cmf_vwap_volume`, `cr_history`, `cr_pause`, `cr_poison`, `creeping_markets`, `cumsum_near`, `cumulative_double`, `cycle_adi`, `cycle_ao`, `cycle_bollinger`, `cycle_cmf`, `cycle_donchian`, `cycle_dpo`, `cycle_mfi`, `cycle_obv`, `cycle_roc`, `cycle_sma`, `cycle_uo`, `cycle_vortex`, `cycle_vpt`, `cycle_vwap`, `daily_double`, `daily_double_twice`, `di_limits`, `di_wider`, `donchian_bar_rises`, `donchian_bar_wider`, `donchian_defaults_disagree`, `donchian_double`, `donchian_extreme`, `donchian_formula`, `donchian_mixed`, `donchian_negative_offset_leaks`, `donchian_nested`, `donchian_offset`, `donchian_pband_range`, `donchian_pband_rounded`, `donchian_rises`, `donchian_rising`, `donchian_turns`, `donchian_wider`, `donchian_width_double`, `donchian_within_atr`, `double_causal`, `double_filled`, `dpoPandas_exact`, `dpo_double`, `dpo_double_any`, `dpo_fillna_not_live`, `dpo_formula`, `dpo_leaks_fillna`, `dpo_leaks_window1`, `dpo_leaks_window2`, `dpo_line`, `dpo_no_lookahead`, `dpo_sinks`, `dr_pause`, `dropna_good`, `dropna_idem`, `dropna_keeps_ninf`, `dropna_spec`, `ema_calm`, `ema_closed_form`, `ema_double`, `ema_fades_geometrically`, `ema_gaps`, `ema_leaves_range`, `ema_line`, `ema_recurrence`, `ema_rises`, `ema_turns`, `ema_within`, `eom_bar_either`, `eom_double`, `eom_fill`, `eom_formula`, `eom_int32`, `eom_int32_big`, `eom_int32_small`, `eom_rising`, `eom_volume`, `evalAt_plain`, `eval_forgets`, `fading_memory`, `falling_bars_extend`, `falling_extends`, `features_calls`, `fillna_back_all_or_nothing`, `fillna_changes_defined`, `fillna_const_gapfree`, `fillna_keeps_defined`, `fillna_keeps_keltner_atr`, `finite_memory`, `fn_as_class`, `fn_defaults`, `fn_kw_order`, `fn_positional`, `fn_type_error`, `fn_value`, `forceIndex_double`, `forceIndex_fill_formula`, `forceIndex_formula`, `forceIndex_rises`, `forceIndex_rising`, `forceIndex_turns`, `force_volume`, `hidden_irrelevant`, `hist_nan_iff`, `ichimoku_donchian`, `ichimoku_formula`, `ichimoku_lines_double`, `ichimoku_no_lookahead`, `ichimoku_rises`, `ichimoku_rising`, `ichimoku_spans_double`, `ichimoku_visual`, `ichimoku_visual_leaks`, `ichimoku_visual_shift`, `ichimoku_within`, `joined_labels`, `kEr_unit`, `kamaPandas_exact`, `kama_calm`, `kama_double`, `kama_equal`, `kama_fill`, `kama_fill_fades`, `kama_fill_settles`, `kama_fill_unbounded`, `kama_formula`, `kama_leaks_fillna`, `kama_leaks_gap`, `kama_leaves_pow_zero`, `kama_line`, `kama_near`, `kama_no_lookahead`, `kama_no_lookahead_double`, `kama_not_linear_not_monotone`, `kama_not_rising`, `kama_pandas_double`, `kama_pandas_leak`, `kama_pandas_looks_ahead`, `kama_rising`, `kama_turns`, `kama_within`, `keltnerPandas_exact`, `keltner_atr_flag_answers`, `keltner_atr_formula`, `keltner_atr_rises`, `keltner_atr_wider`, `keltner_double`, `keltner_flag_answers`, `keltner_float_dead`, `keltner_float_flat`, `keltner_mixed`, `keltner_multiplier_hidden`, `keltner_nested`, `keltner_not_monotone`, `keltner_order`, `keltner_order_rounded`, `keltner_original_double`, `keltner_original_formula`, `keltner_original_rises`, `keltner_original_wider`, `keltner_poison`, `keltner_signals`, `keltner_within_donchian`, `kst_double`, `kst_formula`, `kst_leaks`, `kst_negative`, `kst_no_lookahead_from`, `kst_pandas_looks_ahead`, `kst_rises`, `kst_rising`, `kst_turns`, `labels_do_not_count`, `labels_pass_through`, `last_close_unread`, `leading_nans`, `liveE_causal`, `live_all`, `live_ema`, `live_forgets`, `live_pads`, `log_return_blind`, `log_return_double`, `log_return_rises`, `log_return_usual`, `log_returns_sum`, `macd_calm`, `macd_double`, `macd_falling`, `macd_formula`, `macd_on_line`, `macd_ppo_sign`, `macd_rises`, `macd_rising`, `macd_swap`, `macd_turns`, `main_line_name`, `massPandas_exact`, `mass_double`, `mass_formula`, `mass_pos_const`, `mass_reach`, `mass_wider`, `meanfilled_exact`, `memory_sharp`, `mfi_answers`, `mfi_any_order`, `mfi_double`, `mfi_double_any`, `mfi_formula`, `mfi_limits`, `mfi_no_fall`, `mfi_no_rise`, `mfi_not_rising`, `mfi_numpy_double`, `mfi_range`, `mfi_rising`, `mfi_rounded`, `mfi_tie`, `mfi_tie_far`, `mfi_volume`, `mflow_rows`, `mirror_asymmetric`, `mirror_law`, `missing_column`, `mixed_is_neither`, `momentum_float`, `momentum_int`, `money_bar_sinks`, `money_rises`, `monotone_in_prices`, `name_shows_unused`, `names_ambiguous`, `nanLaws_double`, `nanLaws_single`, `never_forgets`, `no_finite_memory`, `no_lookahead`, `no_lookahead_backfill`, `npSum_addsUp`, `npSum_short`, `npSum_sumsIn`, `numpy_order`, `numpy_order_ulcer`, `nvi_double`, `nvi_formula`, `nvi_history`, `nvi_pause`, `nvi_pos`, `nvi_rises`, `nvi_rising`, `nvi_turn`, `nvi_volume`, `object_timing`, `obvZ_float`, `obv_double`, `obv_double_exact`, `obv_double_stuck`, `obv_formula`, `obv_gaps`, `obv_history`, `obv_pause`, `obv_rises`, `obv_rising`, `obv_single_ceiling`, `obv_single_deaf`, `obv_single_exact`, `obv_step`, `obv_uint`, `obv_uint64`, `obv_unsigned`, `obv_volume`, `online_max`, `online_max_rounded`, `online_mean`, `online_mean_float64`, `online_min`, `online_min_rounded`, `online_skip`, `online_std`, `online_sum`, `only_typical_price`, `open_unused`, `order_by_label`, `order_by_label_bars`, `order_matters`, `own_default_differs`, `paired_by_position`, `pandas_mean_drift`, `pandas_mean_int`, `pandas_std_near`, `pandas_sum_drift`, `pandas_sum_int`, `pandas_var_near`, `pause_matters`, `pct_rows`, `pipeline_labels_matter`, `ppo_double`, `ppo_falling`, `ppo_formula`, `ppo_rises`, `ppo_rising`, `ppo_swap`, `ppo_turns`, `prefix_renames`, `private_write`, `psar_close_call`, `psar_double`, `psar_down_flag`, `psar_down_stays_empty`, `psar_falling`, `psar_index`, `psar_index_range`, `psar_labels_matter`, `psar_overlap`, `psar_partition`, `psar_poison`, `psar_rising`, `psar_rule_down`, `psar_rule_up`, `psar_side`, `psar_side_limits`, `psar_up_flag`, `psar_up_flag_zero`, `psar_wider`, `pvo_volume`, `raises_iff`, `ramp_attained`, `ramp_bollinger`, `ramp_ema`, `readings_jump`, `readme_pipeline`, `recovers`, `result_stable`, `return_signs`, `returns_compound`, `returns_rise`, `rising_bars_extend`, `rising_extends`, `rocZ_nat`, `roc_calm`, `roc_double`, `roc_formula`, `roc_negative`, `roc_negative_inverse`, `roc_one_eq_daily`, `roc_rises`, `roc_rising`, `rollSum_rel`, `row_for_row`, `rows_depend_on_labels`, `rsi_affine`, `rsi_double`, `rsi_falling`, `rsi_fifty`, `rsi_formula`, `rsi_gaps`, `rsi_is_distance`, `rsi_limits`, `rsi_mirror`, `rsi_never_fell`, `rsi_never_rose`, `rsi_pause`, `rsi_range`, `rsi_rises`, `rsi_rising`, `rsi_rounded`, `rsi_turns`, `rsi_window_one`, `same_name`, `scale_law`, `seenBefore_not_live`, `sensitivity`, `shared_write`, `shared_write_spreads`, `shift_fixed`, `shift_moves`, `shift_other_witness`, `shift_real_witness`, `smaEom_formula`, `sma_calm`, `sma_defined_iff`, `sma_eom_double`, `sma_fill_formula`, `sma_formula`, `sma_gaps`, `sma_line`, `sma_pandas`, `sma_rises`, `sma_roc`, `sma_turns`, `sma_within`, `smoothed_exact`, `spanB_not_donchian`, `standstill`, `stc_double`, `stc_formula`, `stc_line`, `stc_line_noise`, `stc_range`, `stc_rises`, `sterbenz`, `stochSignal_fill`, `stoch_bar_sinks`, `stoch_donchian`, `stoch_double`, `stoch_double_overflow`, `stoch_exceeds_100`, `stoch_fifty`, `stoch_fill`, `stoch_formula`, `stoch_limits`, `stoch_range`, `stoch_rises`, `stoch_signal_double`, `stochrsi_double`, `stochrsi_fill`, `stochrsi_formula`, `stochrsi_limits`, `stochrsi_noise`, `stochrsi_range`, `stochrsi_rises`, `stochrsi_rising`, `stochrsi_rounded`, `stochrsi_stoch`, `sublist_features`, `sumL_sumsIn`, `sum_rel`, `superposition`, `superposition_volume`, `superposition_weighted`, `swapped_same`, `tie_data`, `told_name`, `totals_turn`, `trix_double`, `trix_double_any`, `trix_fill_formula`, `trix_formula`, `trix_leaks_fillna`, `trix_leaks_window1`, `trix_no_lookahead`, `trix_rises`, `trix_rising`, `trix_turns`, `true_range_formula`, `true_range_ge`, `tsi_double`, `tsi_falling`, `tsi_fill`, `tsi_formula`, `tsi_limits`, `tsi_monotone`, `tsi_range`, `tsi_rises`, `tsi_rising`, `typical_rises`, `ulcer_double`, `ulcer_double_default`, `ulcer_fill_formula`, `ulcer_formula`, `ulcer_range`, `ulcer_rising`, `ulcer_rounded`, `ulcer_sinks`, `ulcer_within_donchian`, `ulcer_zero_iff`, `unpriced_rows`, `unpriced_start`, `uoAvg_double`, `uo_bar_sinks`, `uo_double`, `uo_fill`, `uo_formula`, `uo_limits`, `uo_mirror`, `uo_range`, `uo_rises`, `uo_row`, `uo_weights`, `variance_residue`, `vectorized_all_typed`, `vectorized_sublist`, `vectorized_typed`, `vline_double`, `volume_law`, `volume_law_zero`, `volume_unread`, `vortexPosPandas_exact`, `vortex_diff_nan`, `vortex_double`, `vortex_formula`, `vortex_last_close_unread`, `vortex_leaks_fillna`, `vortex_no_lookahead`, `vortex_pandas_looks_ahead`, `vortex_rising`, `vortex_wider`, `vpt_double`, `vpt_dropnans_not_row_for_row`, `vpt_fill_formula`, `vpt_formula`, `vpt_history`, `vpt_pause`, `vpt_rises`, `vpt_rising`, `vpt_smooth_fill`, `vpt_smooth_formula`, `vpt_volume`, `vwapPandas_exact`, `vwap_double`, `vwap_formula`, `vwap_mem`, `vwap_monotone`, `vwap_pandas_double`, `vwap_pause`, `vwap_sensitivity`, `warmup`, `wbandPandas_exact`, `wider_either`, `williamsR_below`, `williamsR_double`, `williamsR_eq_stoch`, `williamsR_fill`, `williamsR_limits`, `williamsR_range`, `window_one`, `wma_any_order`, `wma_calm`, `wma_fill_formula`, `wma_fill_leaves`, `wma_formula`, `wma_line`, `wma_numpy`, `wma_rises`, `wma_turns`, `wma_within`, `wrapper_calls`, `wrapper_exception`, `wrapper_filled`, `wrapper_get`, `wrapper_keeps`, `wrapper_twice`, `wrapper_values`
* propext, Quot.sound: `adxBy_sumL`, `adx_runBy_sumL`, `atrZ_pos`, `centres_are_averages`, `heals_or_mortal`, `hist_eq`, `kama_float`, `kama_int`, `kama_poison`, `lines_of_emas`, `npSum_split`, `online_init`, `online_no_lookahead`, `online_std_no_lookahead`, `signals_are_averages`, `vpt_dropnans`
