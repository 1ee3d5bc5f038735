claim("C01", "proved", "row_for_row vpt_dropnans_not_row_for_row",
  "All 84 outputs of the catalogue, any arithmetic. The second theorem shows the documented exception.")
claim("C02", "proved", "no_lookahead adx_no_lookahead adx_lookahead_gap donchian_negative_offset_leaks aroon_window_zero_raises",
  "Any arithmetic. The ADX family needs gap-free prices so far (witness adx_lookahead_gap). ADX in rounded arithmetic: C128.")
claim("C03", "proved", "no_lookahead no_lookahead_backfill backfill_leaks backfill_leaks_psar",
  "no_lookahead covers fillna=True for constant-fill outputs; backfill outputs under the stated condition, with witnesses of the failure.")
claim("C05", "proved", "dpo_no_lookahead dpo_leaks_window1 dpo_leaks_window2 dpo_leaks_fillna",
  "Any arithmetic in which NaN is absorbing; witnesses for windows 1, 2 and for fillna=True.")
claim("C06", "proved", "kst_no_lookahead_from kst_leaks",
  "fillna=False, any arithmetic in which NaN is absorbing. Windows are summed afresh; for the rounding errors of pandas' running sum see C128.")
claim("C07", "proved", "trix_no_lookahead vortex_no_lookahead trix_leaks_fillna trix_leaks_window1 vortex_leaks_fillna",
  "Any arithmetic in which NaN is absorbing. Windows are summed afresh; for the rounding errors of pandas' running sum see C128.")
claim("C08", "proved", "ichimoku_no_lookahead ichimoku_visual ichimoku_visual_leaks", "fillna=False; any arithmetic.")
claim("C04", "proved", "kama_no_lookahead kama_leaks_fillna kama_leaks_gap",
  "fillna=False on gap-free closes, over any ordered field with NaN and infinities; witnesses show both conditions are needed. In doubles: C128.")
claim("C09", "proved", "fillna_const_gapfree", "All outputs with a constant fill; any arithmetic in which NaN is absorbing.")
claim("C10", "proved", "checkFillna_back_gapfree_iff fillna_back_all_or_nothing", "All outputs filled with fillna(value=-1).")
claim("C11", "proved", "checkFillna_false checkFillna_isFilled IsFilled.unique checkFillna_idem", "The fill is characterised independently of ffill/bfill and shown unique and idempotent.")
claim("C12", "proved", "fillna_keeps_defined fillna_keeps_keltner_atr fillna_changes_defined",
  "Any arithmetic in which NaN is absorbing, except the ATR-Keltner bands (ordered field with NaN and infinities). The third theorem has one witness per excluded output.")

claim("C13", "proved", "sma_formula sma_fill_formula sma_defined_iff", "Any ordered field; the last theorem characterises the defined rows on data with gaps.")
claim("C14", "proved", "ema_recurrence ema_closed_form", "Any ordered field; recurrence and closed form.")
claim("C15", "proved", "wma_formula wma_fill_formula", "Any ordered field.")
claim("C16", "proved", "sma_within ema_within wma_within kama_within averages_of_constant wma_fill_leaves kama_leaves_pow_zero kama_fill_unbounded", "Any data for SMA/EMA/WMA; gap-free data for KAMA. The last three are witnesses of the stated exceptions.")
claim("C17", "proved", "rsi_range rsi_formula rsi_never_fell rsi_never_rose", "The range holds on any data (NaN and infinities included).")
claim("C18", "proved", "rsi_affine", "Any data.")
claim("C19", "proved", "tsi_range tsi_formula tsi_monotone", "The range holds on any data (NaN and infinities included).")
claim("C20", "proved", "uo_range uo_formula bp_le_tr", "Any ordered field; bars may be missing in the range theorem.")
claim("C21", "proved", "stoch_range williamsR_range williamsR_eq_stoch stoch_formula stoch_fill", "Any ordered field; the identity %R = %K - 100 holds on any data.")
claim("C22", "proved", "stochrsi_range stc_range", "Any data.")
claim("C23", "proved", "mfi_range mfi_formula mfi_no_fall mfi_no_rise", "The range holds on any data; formula on gap-free data.")
claim("C24", "proved", "cmf_range cmf_formula", "Range with missing bars and volumes; formula on gap-free data.")
claim("C25", "proved", "adx_di_range adx_range", "Any ordered field, gap-free bars.")
claim("C26", "proved", "adx_di_formula adx_formula", "Any ordered field, gap-free bars.")
claim("C27", "proved", "aroon_range aroon_formula aroon_up_100", "The range holds on any data; the formula on gap-free data.")
claim("C28", "proved", "atr_formula atr_mem atr_nonneg", "Formula and upper bound on gap-free bars; non-negativity also with missing bars.")
claim("C29", "proved", "true_range_formula true_range_ge", "Any ordered field.")
claim("C30", "proved", "bollinger_formula bollinger_pband_half bollinger_order", "Over the reals (square root); gap-free data.")
claim("C31", "proved", "keltner_original_formula keltner_atr_formula keltner_order", "Any ordered field, gap-free bars.")
claim("C32", "proved", "donchian_extreme donchian_formula donchian_pband_range donchian_wider donchian_offset", "Any ordered field, gap-free bars.")
claim("C33", "proved", "ulcer_formula ulcer_fill_formula ulcer_range ulcer_zero_iff", "Over the reals (square root); gap-free positive closes.")
claim("C34", "proved", "obv_formula obv_step", "Any ordered field, gap-free data.")
claim("C35", "proved", "adi_formula adi_step", "Any ordered field, gap-free bars.")
claim("C36", "proved", "vpt_formula vpt_fill_formula vpt_smooth_formula vpt_dropnans", "Gap-free data with non-zero closes; the dropnans theorem holds on any data.")
claim("C37", "proved", "nvi_formula nvi_pos", "Gap-free data with non-zero (positive) closes.")
claim("C38", "proved", "forceIndex_formula forceIndex_fill_formula eom_formula smaEom_formula eom_fill", "Gap-free data; non-zero volumes for the ease of movement.")
claim("C39", "proved", "vwap_mem vwap_formula", "Range with missing bars and volumes; formula on gap-free data.")
claim("C40", "proved", "hist_eq hist_nan_iff vortex_diff_nan macd_formula ppo_formula kst_formula vortex_formula", "The difference identity holds in any arithmetic on any data; the lines themselves on gap-free data. vortex_diff_nan is the witness of the stated exception.")
claim("C41", "proved", "warmup leading_nans", "All 84 outputs, over the reals. Ten outputs can be undefined later on flat data and are only covered up to their look-back here; their exact conditions are in C19, C23, C30, C45, C50, C62, C63.")
claim("C58", "proved", "rsi_rounded mfi_rounded aroon_rounded stochrsi_rounded donchian_pband_rounded atr_rounded adx_rounded binary64_keeps keltner_order_rounded bollinger_order_rounded ulcer_rounded stoch_exceeds_100 williamsR_below ema_leaves_range", "Any rounding of the exact result of each operation; binary64 is constructed and proved to be one. Sums are taken left to right: pandas' online rolling kernels and numpy's pairwise order are not modelled, nor the sign of zero.")
claim("C59", "proved", "shift_fixed shift_moves affine_law shift_other_witness shift_real_witness", "Over the reals with NaN and infinities. There is a witness for every excluded output; the last theorem has those that need a square root or a logarithm.")
claim("C60", "proved", "scale_law", "All outputs of the catalogue, over the reals with NaN and infinities.")
claim("C42", "proved", "ichimoku_formula ichimoku_within ichimoku_visual_shift", "Any ordered field, gap-free bars.")
claim("C43", "proved", "returns_compound log_returns_sum", "Any ordered field with non-zero closes; logarithms over the reals with positive closes.")
claim("C44", "proved", "roc_formula roc_one_eq_daily scale_law", "Any ordered field; the equality with the daily return also with gaps, but not with infinite closes.")
claim("C49", "proved", "mass_formula mass_pos_const scale_law shift_fixed", "Gap-free bars with high > low; invariances on any data.")
claim("C50", "proved", "cci_formula scale_law shift_fixed", "Gap-free bars; invariances on any data.")
claim("C61", "proved", "kama_formula", "Any ordered field, gap-free closes.")
claim("C62", "proved", "stochrsi_formula", "Any data.")
claim("C63", "proved", "stc_formula", "Gap-free closes; under the stated non-flatness.")
claim("C64", "proved", "ao_formula dpo_formula trix_formula trix_fill_formula", "Gap-free data.")
claim("C45", "proved", "psar_partition", "Any ordered field, gap-free bars.")
claim("C46", "proved", "psar_rule_up psar_rule_down psar_side psar_side_limits", "Any ordered field, gap-free bars; psar_side_limits are the witnesses.")
claim("C47", "proved", "psar_index psar_index_range psar_labels_matter", "Any arithmetic, any data; the last theorem is the witness that the claim fails for other integer indexes.")
claim("C48", "proved", "psar_down_flag psar_up_flag psar_up_flag_zero", "Any ordered field, gap-free bars; the last theorem is the witness of the stated exception.")
claim("C51", "proved", "raises_iff", "Every output of the catalogue, any arithmetic, any data: the exception is given by a table in the number of rows and the parameters.")
claim("C52", "proved", "wrapper_filled wrapper_keeps wrapper_get", "All six functions, any arithmetic. The last two hold on every frame, also with clashing names, missing columns and exceptions.")
claim("C53", "proved", "wrapper_filled wrapper_values evalAt_plain clash_matters", "All six functions, any arithmetic. Only the parabolic SAR sees the index, and not the default index. The last theorem is the witness that the hypothesis on names is needed.")
claim("C54", "proved", "vectorized_sublist sublist_features", "All six functions, any arithmetic.")
claim("C55", "proved", "prefix_renames open_unused", "All six functions, any arithmetic.")
claim("C56", "proved", "wrapper_exception all_succeeds_iff missing_column all_missing_unchanged wrapper_filled wrapper_keeps", "All six functions, any arithmetic, any data.")
claim("C57", "proved", "dropna_spec dropna_good dropna_idem dropna_keeps_ninf", "Any ordered field with NaN and infinities. Integer columns are taken as converted to float; that the argument is copied first is a fact of the model.")
claim("C65", "proved", "wrapper_twice", "All six functions, any arithmetic.")
claim("C66", "proved", "finite_memory memory_sharp no_finite_memory", "finite_memory in any arithmetic; the two others over the reals. pandas' online rolling kernels carry rounding errors across windows, which the model does not show.")
claim("C67", "proved", "volume_law volume_law_zero", "All outputs of the catalogue, over the reals with NaN and infinities. The second theorem is the witness that k = 0 is excluded.")
claim("C68", "proved", "fn_as_class fn_type_error fn_value fn_defaults cls_defaults fn_kw_order fn_positional hidden_irrelevant own_default_differs donchian_defaults_disagree keltner_multiplier_hidden", "Any arithmetic. Arguments of another type than the model's (negative windows, strings, ...) are outside the model.")
claim("C69", "proved", "mirror_law rsi_mirror uo_mirror mirror_asymmetric",
      "Table Ind.mirror in Props/C69.lean; over the real numbers.")
claim("C70", "proved", "superposition superposition_weighted superposition_volume kama_not_linear_not_monotone",
      "Over the real numbers; data with gaps. Table Ind.linear in Props/C70.lean.")
claim("C71", "proved", "monotone_in_prices vwap_monotone kama_not_linear_not_monotone keltner_not_monotone",
      "Over the real numbers; data with gaps. Table Ind.rising in Props/C70.lean.")
claim("C72", "proved", "online_sum online_mean online_std online_max online_min online_max_rounded online_min_rounded online_no_lookahead online_std_no_lookahead online_mean_float64",
      "The kernels of pandas 1.3.5 are written out in Base/Online.lean from knowledge of that version; pandas' source is not in /repo.")
claim("C73", "proved", "fading_memory ema_fades_geometrically never_forgets",
      "N is uniform over the data; the smoothing weight of KAMA varies with the data but is the same in both runs and bounded below")
claim("C74", "proved", "adi_history obv_history vpt_history nvi_history cr_history",
      "Spec `ShiftedBy`/`ScaledBy`; the constants are given explicitly.")
claim("C75", "proved", "stoch_donchian ichimoku_donchian spanB_not_donchian stochrsi_stoch only_typical_price centres_are_averages signals_are_averages lines_of_emas cmf_adi window_one",
      "Some of these hold by unfolding the two classes to the same expression; the others need the laws of exact arithmetic with special values.")
claim("C76", "proved", "sma_gaps ema_gaps rsi_gaps obv_gaps adi_gaps",
      "SMA and EMA on any data; RSI, OBV on data without infinities, ADI on bars that may be missing.")
claim("C77", "proved", "recovers atr_poison atr_frozen keltner_poison kama_poison adx_poison psar_poison cr_poison heals_or_mortal",
      "the windowed part rests on C66 and C41")
claim("C78", "proved", "same_name told_name main_line_name names_ambiguous name_shows_unused", "The witnesses are evaluated with square roots of 0 and 1 only.")
claim("C79", "proved", "atr_float_same atr_float_range atr_float_lookahead atr_float_dead atr_float_zero keltner_float_dead keltner_float_flat", "")
claim("C80", "proved", "ema_double macd_double atr_double", "the mean that starts ATR is summed left to right")
claim("C81", "proved", "obv_double_exact obv_double obv_double_stuck", "gap-free columns; numpy's cumsum adds left to right, as the model does")
claim("C82", "proved", "rsi_double tsi_double", "the smoothing factor 1/w goes through pandas' com, as in the model")
claim("C83", "proved", "roc_double daily_double cumulative_double daily_double_twice", "")
claim("C84", "proved", "forceIndex_double keltner_double ppo_double", "")
claim("C85", "proved", "rsi_rising rsi_falling stochrsi_rising tsi_rising tsi_falling macd_rising macd_falling ppo_rising ppo_falling roc_rising trix_rising kst_rising kama_rising ulcer_rising rising_extends falling_extends", "The theorems are about sequences that rise (fall) for ever; rising_extends and falling_extends say that every finite rising (positive falling) column is the start of one.")
claim("C86", "proved", "aroon_rising aroon_falling adx_rising adx_falling vortex_rising ao_rising cci_rising donchian_rising ichimoku_rising psar_rising psar_falling psar_overlap mfi_rising obv_rising vpt_rising forceIndex_rising eom_rising nvi_rising rising_bars_extend falling_bars_extend", "")
claim("C87", "proved", "standstill", "the table is Ind.still, written without the model; the proof goes through the formula theorems of the single indicators")
claim("C88", "proved", "donchian_nested keltner_nested bollinger_nested cci_constant uo_weights macd_swap ppo_swap ao_swap kama_equal", "")
claim("C89", "proved", "clean_gapfree readme_pipeline psar_down_stays_empty pipeline_labels_matter", "-inf is what dropna lets through")
claim("C90", "proved", "object_timing bollinger_mixed keltner_mixed donchian_mixed result_stable shared_write private_write mixed_is_neither shared_write_spreads", "tables Ind.timing and Ind.fresh in Props/C90.lean; rests on the reading of pandas 1.3.5 sharing in Model/Objects.lean")
claim("C91", "proved", "sensitivity vwap_sensitivity creeping_markets readings_jump", "table Ind.gain in Props/C91.lean; over the real numbers because of the standard deviation; VWAP without fill and without infinite prices")
claim("C92", "proved", "labels_pass_through answer_index labels_do_not_count", "rests on the alignment rules of pandas 1.3.5 in Model/Labels.lean")
claim("C93", "proved", "joined_labels rows_depend_on_labels cmf_rows", "table Ind.rowCols in Props/C93.lean, relation Joined")
claim("C94", "proved", "order_by_label order_by_label_bars swapped_same order_matters", "table Ind.loose in Props/C94.lean; high has to be in order wherever it is used")
claim("C95", "proved", "paired_by_position adx_labels atr_answers mfi_answers keltner_flag_answers keltner_atr_flag_answers", "")
claim("C96", "proved", "bollinger_never_crossed bollinger_crossed bollinger_pband_reach cci_reach cci_reached mass_reach", "")
claim("C97", "proved", "sma_calm wma_calm ema_calm macd_calm ao_calm kama_calm roc_calm bollinger_calm ramp_attained ramp_ema ramp_bollinger", "")
claim("C98", "proved", "pandas_mean_drift pandas_sum_drift pandas_sum_int pandas_mean_int sma_pandas ao_pandas", "")
claim("C99", "proved", "sma_rises ema_rises wma_rises macd_rises ppo_rises roc_rises returns_rise trix_rises kst_rises rsi_rises tsi_rises uo_rises stoch_rises stochrsi_rises stc_rises cci_rises dpo_sinks kama_not_rising mfi_not_rising", "Gap-free data.")
claim("C100", "proved", "bollinger_rises keltner_original_rises keltner_atr_rises donchian_rises money_rises obv_rises forceIndex_rises vpt_rises nvi_rises log_return_rises ulcer_sinks last_close_unread vortex_last_close_unread bollinger_band_either", "Gap-free data, except for the outputs that do not move: any data, any arithmetic (vortex: arithmetic in which NaN is absorbing).")
claim("C101", "proved", "wrapper_calls features_calls ownColumns_eq args_needed", "All six functions, any arithmetic. The table of calls was read off the wrapper; wrapper_calls proves every row of it.")
claim("C102", "proved", "ao_rises ichimoku_rises donchian_bar_rises typical_rises stoch_bar_sinks uo_bar_sinks money_bar_sinks aroon_bar_rises eom_bar_either", "Gap-free data. CCI where its mean deviation is not 0, the oscillators where the bars in hand have a range.")
claim("C103", "proved", "atr_wider keltner_atr_wider keltner_original_wider donchian_bar_wider mass_wider di_wider vortex_wider psar_wider wider_either", "Gap-free data; relative widths need positive prices. For the SAR nothing is assumed about the second close relative to the first high; the invariant covers the start-up rows.")
claim("C104", "proved", "obv_volume adi_volume cmf_vwap_volume vpt_volume force_volume eom_volume nvi_volume mfi_volume pvo_volume volume_unread", "Gap-free data with positive volumes where a quotient of volumes is taken; the money flow index needs positive typical prices.")
claim("C105", "proved", "kama_int kama_float momentum_float all_float vectorized_typed vectorized_all_typed momentum_int all_int_short all_int obv_unsigned obv_uint64 obv_uint obvZ_float eom_int32 eom_int32_small eom_int32_big", "numpy's casting rule and its arithmetic on integer types are trusted as stated in DESIGN.md; the frame has no column with a generated name.")
claim("C106", "proved", "atrZ_pos atrZ_neg atr_negative_formula atr_negative_lookahead rocZ_nat roc_negative roc_negative_inverse kst_negative",
      "Model/Negative.lean: subscripts and slices from the end, range with a negative start, shift by a negative number.")
claim("C107", "proved", "live_all eval_forgets live_pads live_ema live_forgets liveE_causal dpo_fillna_not_live backfill_not_live seenBefore_not_live", "A skeleton (output with its windows) is fixed before the number type, so the size of the state cannot depend on the numbers; Spec/Live.lean says what fits into a state")
claim("C108", "proved", "obv_pause adi_pause vpt_pause cr_pause dr_pause nvi_pause rsi_pause vwap_pause cmf_pause pause_matters", "VWAP and CMF without filling.")
claim("C109", "proved", "binaryP_64 obv_single_exact obv_single_deaf obv_single_ceiling adi_single_deaf", "That numpy and pandas cumulate float32 columns in float32 is trusted.")
claim("C110", "proved", "bb_pandas_exact variance_residue bands_collapse bands_blow_up bands_exact", "accumulator of pandas' roll_var as in C72; the first 21 rows by evaluation, all later rows by a fixed point")
claim("C111", "proved", "pandas_var_near pandas_std_near bollinger_double", "pandas' Welford accumulator with compensation (Base/Online) in rounded arithmetic; invariant on n·mean and ssq + n·mean² over all rows")
claim("C112", "proved", "sma_turns sma_roc ema_turns wma_turns kama_turns macd_turns ppo_turns kst_turns atr_turns adx_turns rsi_turns forceIndex_turns totals_turn donchian_turns trix_turns", "")
claim("C113", "proved", "rsi_is_distance rsi_fifty stoch_fifty bollinger_signals keltner_signals macd_ppo_sign cci_sign cmf_sign return_signs", "")
claim("C114", "proved", "npSum_addsUp npSum_short npSum_split AddsUp.exact numpy_order numpy_order_ulcer mfi_any_order adds_double adds_int wma_any_order wma_numpy", "numpy 1.21.5's pairwise_sum is read from its C source and trusted")
claim("C115", "proved", "unpriced_rows unpriced_start adx_fill_unused",
      "The table is written from the python source, one line per kind of output; the ADX columns with fillna=False (zeros, then NaN) are not in it.")
claim("C116", "proved", "stoch_fill williamsR_fill stochSignal_fill tsi_fill uo_fill kama_fill stochrsi_fill cci_fill eom_fill vpt_smooth_fill", "`Carried out n v d f` says: value `f i` where `d i`, else the row before, else `v`. KAMA assumes window <= rows (otherwise np.roll wraps more than once).")
claim("C117", "proved", "stoch_double williamsR_double donchian_double ichimoku_lines_double ichimoku_spans_double aroon_double stoch_double_overflow", "Binary64 modelled as in C58; the Ichimoku spans are stated for visual=False (with visual=True the first rows are a mean over the whole column).")
claim("C118", "proved", "rsi_limits rsi_window_one tsi_limits stoch_limits williamsR_limits stochrsi_limits mfi_limits cmf_limits uo_limits aroon_limits di_limits", "Aroon Up at 100 is aroon_up_100 (C27).")
claim("C119", "proved", "bollinger_within_donchian bollinger_not_narrow bollinger_break_cci keltner_within_donchian donchian_within_atr ulcer_within_donchian", "The two Bollinger bounds meet on two rows (example).")
claim("C120", "proved", "cycle_sma cycle_roc cycle_ao cycle_dpo cycle_donchian cycle_bollinger cycle_vwap cycle_cmf cycle_mfi cycle_uo cycle_vortex cycle_obv cycle_adi cycle_vpt", "")
claim("C121", "proved", "kama_double kama_pandas_double kama_near kamaPandas_exact sum_rel kEr_unit", "`kama_double` is about the model's `kama`; `kama_pandas_double` about the same loop over pandas' rolling sum (`onlineSum`, C72/C98).")
claim("C122", "proved", "vwap_double vwap_pandas_double cmf_double cmf_pandas_double vwapPandas_exact cmfPandas_exact Weighted.fresh Weighted.online", "The model sums each window from left to right; the `_pandas_` theorems are about the same formulas over pandas' running sum (`onlineSum`, C72/C98).")
claim("C123", "proved", "mfi_double_any mfi_double mfi_numpy_double mflow_rows AddsUp.rel mfi_tie mfi_tie_far tie_data", "The model adds the flows of a window from left to right; `mfi_numpy_double` is about `moneyFlowIndexBy npSum` (Model/NumpySum.lean).")
claim("C124", "proved", "adi_double vpt_double nvi_double eom_double cumsum_near nvi_turn pct_rows", "Running totals are added from left to right, as `cumsum` does in the model. `nvi` is the recursion of property C37 (defined in Props/C34.lean).")
claim("C125", "proved", "uo_double vortex_double uoAvg_double uo_row vline_double rollSum_rel", "Rolling sums are those of the model, without pandas' running update of the window.")
claim("C126", "proved", "trix_double mass_double dpo_double keltner_original_double donchian_width_double online_init online_skip massPandas_exact dpoPandas_exact keltnerPandas_exact wbandPandas_exact",
      "The running sums and means are pandas' compensated kernels as modelled in Base/Online.lean; in exact arithmetic they give the model's rolling sums and means.")
claim("C127", "proved", "kst_double dpo_double_any trix_double_any meanfilled_exact npSum_sumsIn Approx.mean Approx.shiftMean Approx.onlineMean0 Approx.change",
      "The KST, DPO and TRIX of these theorems are the model's with the summation as a parameter and pandas' running mean; `meanfilled_exact` says they are the model's in exact arithmetic. Lags at least the number of rows are included: every row is then compared with the mean.")
claim("C128", "proved", "nanLaws_double nanLaws_single double_causal double_filled adx_no_lookahead_rounded kama_no_lookahead_double kama_pandas_leak kama_pandas_looks_ahead vortex_pandas_looks_ahead kst_pandas_looks_ahead vortexPosPandas_exact",
      "`double_causal` is about the model, which sums each window afresh; the `_looks_ahead` witnesses are about the running sum of pandas (Base/Online.lean). In exact arithmetic both are the same.")
claim("C129", "proved", "kama_fill_unbounded kama_fill_settles kama_fill_fades", "Any ordered field, gap-free closes.")
claim("C130", "proved", "sterbenz adx_inputs_exact adx_di_double adx_runBy_sumL sumL_sumsIn npSum_sumsIn adx_di_tie", "ADX.runBy σ is the model of _run with the initial sum taken by σ; σ = sumL is ADX.run. IsDouble x: rounding x to double precision gives x.")
claim("C131", "proved", "adx_double adxBy_sumL adx_runBy_sumL", "ADX.adxBy σ is the model of adx() with the initial mean summed by σ; σ = sumL is ADX.adx. The bars are given by sequences h, l, c that satisfy low <= close <= high at every index, also beyond the n rows used.")
claim("C132", "proved", "cci_double cciPandas_exact cci_still_inf cci_still_swings cci_still_exact", "`SumsIn` and `npSum` are those of C114 and C127; the period of the two still columns comes from the state of pandas' accumulator returning to itself after 16 and 32 rows, which is a computation, and holds for all later rows by induction")
claim("C133", "proved", "psar_double psar_close_call", "`sarAt` is the recursion over bars that C45 proves equal to the model; the error of the acceleration factor is included in E")
claim("C134", "proved", "stoch_signal_double sma_eom_double stochrsi_double stochrsi_noise smoothed_exact", "stoch_signal_double, sma_eom_double and stochrsi_double are the three bounds, over any ordered field; smoothed_exact says that the definitions with pandas' rolling mean are the model's in exact arithmetic; stochrsi_noise is the witness that the range g is needed. The error of StochRSI is that of C82 for the RSI, divided by g; rolling extremes add none.")
claim("C135", "proved", "ulcer_double ulcer_double_default", "Doubles as in C80 (rounding to nearest, with subnormals and overflow), the square root correctly rounded. The prices are taken as they are (any reals in the range), so the error is that of the computation and not of reading the prices.")
claim("C136", "proved", "log_return_double log_return_usual log_return_blind", "Doubles as in C80; the logarithm is taken to be correctly rounded, which numpy does not promise (its error is below one unit in the last place).")
claim("C137", "proved", "stc_double stc_line stc_line_noise", "Doubles as in C80. The ranges g and g' are those of the exact columns, described as in C63 (emaRec and PosOf), not through the code.")
claim("C138", "proved", "sma_line wma_line ema_line macd_on_line kama_line ao_line dpo_line bollinger_line bollinger_line_inside bollinger_line_outside", "exact arithmetic")
