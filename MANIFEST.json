{
 "claims": [
  {
   "property": "C01",
   "status": "proved",
   "theorems": [
    "TA.row_for_row",
    "TA.vpt_dropnans_not_row_for_row"
   ],
   "note": "All 84 outputs of the catalogue, any arithmetic. The second theorem shows the documented exception."
  },
  {
   "property": "C02",
   "status": "proved",
   "theorems": [
    "TA.no_lookahead",
    "TA.adx_no_lookahead",
    "TA.adx_lookahead_gap",
    "TA.donchian_negative_offset_leaks",
    "TA.aroon_window_zero_raises"
   ],
   "note": "Any arithmetic. The ADX family needs gap-free prices so far (witness adx_lookahead_gap). ADX in rounded arithmetic: C128."
  },
  {
   "property": "C03",
   "status": "proved",
   "theorems": [
    "TA.no_lookahead",
    "TA.no_lookahead_backfill",
    "TA.backfill_leaks",
    "TA.backfill_leaks_psar"
   ],
   "note": "no_lookahead covers fillna=True for constant-fill outputs; backfill outputs under the stated condition, with witnesses of the failure."
  },
  {
   "property": "C05",
   "status": "proved",
   "theorems": [
    "TA.dpo_no_lookahead",
    "TA.dpo_leaks_window1",
    "TA.dpo_leaks_window2",
    "TA.dpo_leaks_fillna"
   ],
   "note": "Any arithmetic in which NaN is absorbing; witnesses for windows 1, 2 and for fillna=True."
  },
  {
   "property": "C06",
   "status": "proved",
   "theorems": [
    "TA.kst_no_lookahead_from",
    "TA.kst_leaks"
   ],
   "note": "fillna=False, any arithmetic in which NaN is absorbing. Windows are summed afresh; for the rounding errors of pandas' running sum see C128."
  },
  {
   "property": "C07",
   "status": "proved",
   "theorems": [
    "TA.trix_no_lookahead",
    "TA.vortex_no_lookahead",
    "TA.trix_leaks_fillna",
    "TA.trix_leaks_window1",
    "TA.vortex_leaks_fillna"
   ],
   "note": "Any arithmetic in which NaN is absorbing. Windows are summed afresh; for the rounding errors of pandas' running sum see C128."
  },
  {
   "property": "C08",
   "status": "proved",
   "theorems": [
    "TA.ichimoku_no_lookahead",
    "TA.ichimoku_visual",
    "TA.ichimoku_visual_leaks"
   ],
   "note": "fillna=False; any arithmetic."
  },
  {
   "property": "C04",
   "status": "proved",
   "theorems": [
    "TA.kama_no_lookahead",
    "TA.kama_leaks_fillna",
    "TA.kama_leaks_gap"
   ],
   "note": "fillna=False on gap-free closes, over any ordered field with NaN and infinities; witnesses show both conditions are needed. In doubles: C128."
  },
  {
   "property": "C09",
   "status": "proved",
   "theorems": [
    "TA.fillna_const_gapfree"
   ],
   "note": "All outputs with a constant fill; any arithmetic in which NaN is absorbing."
  },
  {
   "property": "C10",
   "status": "proved",
   "theorems": [
    "TA.checkFillna_back_gapfree_iff",
    "TA.fillna_back_all_or_nothing"
   ],
   "note": "All outputs filled with fillna(value=-1)."
  },
  {
   "property": "C11",
   "status": "proved",
   "theorems": [
    "TA.checkFillna_false",
    "TA.checkFillna_isFilled",
    "TA.IsFilled.unique",
    "TA.checkFillna_idem"
   ],
   "note": "The fill is characterised independently of ffill/bfill and shown unique and idempotent."
  },
  {
   "property": "C12",
   "status": "proved",
   "theorems": [
    "TA.fillna_keeps_defined",
    "TA.fillna_keeps_keltner_atr",
    "TA.fillna_changes_defined"
   ],
   "note": "Any arithmetic in which NaN is absorbing, except the ATR-Keltner bands (ordered field with NaN and infinities). The third theorem has one witness per excluded output."
  },
  {
   "property": "C13",
   "status": "proved",
   "theorems": [
    "TA.sma_formula",
    "TA.sma_fill_formula",
    "TA.sma_defined_iff"
   ],
   "note": "Any ordered field; the last theorem characterises the defined rows on data with gaps."
  },
  {
   "property": "C14",
   "status": "proved",
   "theorems": [
    "TA.ema_recurrence",
    "TA.ema_closed_form"
   ],
   "note": "Any ordered field; recurrence and closed form."
  },
  {
   "property": "C15",
   "status": "proved",
   "theorems": [
    "TA.wma_formula",
    "TA.wma_fill_formula"
   ],
   "note": "Any ordered field."
  },
  {
   "property": "C16",
   "status": "proved",
   "theorems": [
    "TA.sma_within",
    "TA.ema_within",
    "TA.wma_within",
    "TA.kama_within",
    "TA.averages_of_constant",
    "TA.wma_fill_leaves",
    "TA.kama_leaves_pow_zero",
    "TA.kama_fill_unbounded"
   ],
   "note": "Any data for SMA/EMA/WMA; gap-free data for KAMA. The last three are witnesses of the stated exceptions."
  },
  {
   "property": "C17",
   "status": "proved",
   "theorems": [
    "TA.rsi_range",
    "TA.rsi_formula",
    "TA.rsi_never_fell",
    "TA.rsi_never_rose"
   ],
   "note": "The range holds on any data (NaN and infinities included)."
  },
  {
   "property": "C18",
   "status": "proved",
   "theorems": [
    "TA.rsi_affine"
   ],
   "note": "Any data."
  },
  {
   "property": "C19",
   "status": "proved",
   "theorems": [
    "TA.tsi_range",
    "TA.tsi_formula",
    "TA.tsi_monotone"
   ],
   "note": "The range holds on any data (NaN and infinities included)."
  },
  {
   "property": "C20",
   "status": "proved",
   "theorems": [
    "TA.uo_range",
    "TA.uo_formula",
    "TA.bp_le_tr"
   ],
   "note": "Any ordered field; bars may be missing in the range theorem."
  },
  {
   "property": "C21",
   "status": "proved",
   "theorems": [
    "TA.stoch_range",
    "TA.williamsR_range",
    "TA.williamsR_eq_stoch",
    "TA.stoch_formula",
    "TA.stoch_fill"
   ],
   "note": "Any ordered field; the identity %R = %K - 100 holds on any data."
  },
  {
   "property": "C22",
   "status": "proved",
   "theorems": [
    "TA.stochrsi_range",
    "TA.stc_range"
   ],
   "note": "Any data."
  },
  {
   "property": "C23",
   "status": "proved",
   "theorems": [
    "TA.mfi_range",
    "TA.mfi_formula",
    "TA.mfi_no_fall",
    "TA.mfi_no_rise"
   ],
   "note": "The range holds on any data; formula on gap-free data."
  },
  {
   "property": "C24",
   "status": "proved",
   "theorems": [
    "TA.cmf_range",
    "TA.cmf_formula"
   ],
   "note": "Range with missing bars and volumes; formula on gap-free data."
  },
  {
   "property": "C25",
   "status": "proved",
   "theorems": [
    "TA.adx_di_range",
    "TA.adx_range"
   ],
   "note": "Any ordered field, gap-free bars."
  },
  {
   "property": "C26",
   "status": "proved",
   "theorems": [
    "TA.adx_di_formula",
    "TA.adx_formula"
   ],
   "note": "Any ordered field, gap-free bars."
  },
  {
   "property": "C27",
   "status": "proved",
   "theorems": [
    "TA.aroon_range",
    "TA.aroon_formula",
    "TA.aroon_up_100"
   ],
   "note": "The range holds on any data; the formula on gap-free data."
  },
  {
   "property": "C28",
   "status": "proved",
   "theorems": [
    "TA.atr_formula",
    "TA.atr_mem",
    "TA.atr_nonneg"
   ],
   "note": "Formula and upper bound on gap-free bars; non-negativity also with missing bars."
  },
  {
   "property": "C29",
   "status": "proved",
   "theorems": [
    "TA.true_range_formula",
    "TA.true_range_ge"
   ],
   "note": "Any ordered field."
  },
  {
   "property": "C30",
   "status": "proved",
   "theorems": [
    "TA.bollinger_formula",
    "TA.bollinger_pband_half",
    "TA.bollinger_order"
   ],
   "note": "Over the reals (square root); gap-free data."
  },
  {
   "property": "C31",
   "status": "proved",
   "theorems": [
    "TA.keltner_original_formula",
    "TA.keltner_atr_formula",
    "TA.keltner_order"
   ],
   "note": "Any ordered field, gap-free bars."
  },
  {
   "property": "C32",
   "status": "proved",
   "theorems": [
    "TA.donchian_extreme",
    "TA.donchian_formula",
    "TA.donchian_pband_range",
    "TA.donchian_wider",
    "TA.donchian_offset"
   ],
   "note": "Any ordered field, gap-free bars."
  },
  {
   "property": "C33",
   "status": "proved",
   "theorems": [
    "TA.ulcer_formula",
    "TA.ulcer_fill_formula",
    "TA.ulcer_range",
    "TA.ulcer_zero_iff"
   ],
   "note": "Over the reals (square root); gap-free positive closes."
  },
  {
   "property": "C34",
   "status": "proved",
   "theorems": [
    "TA.obv_formula",
    "TA.obv_step"
   ],
   "note": "Any ordered field, gap-free data."
  },
  {
   "property": "C35",
   "status": "proved",
   "theorems": [
    "TA.adi_formula",
    "TA.adi_step"
   ],
   "note": "Any ordered field, gap-free bars."
  },
  {
   "property": "C36",
   "status": "proved",
   "theorems": [
    "TA.vpt_formula",
    "TA.vpt_fill_formula",
    "TA.vpt_smooth_formula",
    "TA.vpt_dropnans"
   ],
   "note": "Gap-free data with non-zero closes; the dropnans theorem holds on any data."
  },
  {
   "property": "C37",
   "status": "proved",
   "theorems": [
    "TA.nvi_formula",
    "TA.nvi_pos"
   ],
   "note": "Gap-free data with non-zero (positive) closes."
  },
  {
   "property": "C38",
   "status": "proved",
   "theorems": [
    "TA.forceIndex_formula",
    "TA.forceIndex_fill_formula",
    "TA.eom_formula",
    "TA.smaEom_formula",
    "TA.eom_fill"
   ],
   "note": "Gap-free data; non-zero volumes for the ease of movement."
  },
  {
   "property": "C39",
   "status": "proved",
   "theorems": [
    "TA.vwap_mem",
    "TA.vwap_formula"
   ],
   "note": "Range with missing bars and volumes; formula on gap-free data."
  },
  {
   "property": "C40",
   "status": "proved",
   "theorems": [
    "TA.hist_eq",
    "TA.hist_nan_iff",
    "TA.vortex_diff_nan",
    "TA.macd_formula",
    "TA.ppo_formula",
    "TA.kst_formula",
    "TA.vortex_formula"
   ],
   "note": "The difference identity holds in any arithmetic on any data; the lines themselves on gap-free data. vortex_diff_nan is the witness of the stated exception."
  },
  {
   "property": "C41",
   "status": "proved",
   "theorems": [
    "TA.warmup",
    "TA.leading_nans"
   ],
   "note": "All 84 outputs, over the reals. Ten outputs can be undefined later on flat data and are only covered up to their look-back here; their exact conditions are in C19, C23, C30, C45, C50, C62, C63."
  },
  {
   "property": "C58",
   "status": "proved",
   "theorems": [
    "TA.rsi_rounded",
    "TA.mfi_rounded",
    "TA.aroon_rounded",
    "TA.stochrsi_rounded",
    "TA.donchian_pband_rounded",
    "TA.atr_rounded",
    "TA.adx_rounded",
    "TA.binary64_keeps",
    "TA.keltner_order_rounded",
    "TA.bollinger_order_rounded",
    "TA.ulcer_rounded",
    "TA.stoch_exceeds_100",
    "TA.williamsR_below",
    "TA.ema_leaves_range"
   ],
   "note": "Any rounding of the exact result of each operation; binary64 is constructed and proved to be one. Sums are taken left to right: pandas' online rolling kernels and numpy's pairwise order are not modelled, nor the sign of zero."
  },
  {
   "property": "C59",
   "status": "proved",
   "theorems": [
    "TA.shift_fixed",
    "TA.shift_moves",
    "TA.affine_law",
    "TA.shift_other_witness",
    "TA.shift_real_witness"
   ],
   "note": "Over the reals with NaN and infinities. There is a witness for every excluded output; the last theorem has those that need a square root or a logarithm."
  },
  {
   "property": "C60",
   "status": "proved",
   "theorems": [
    "TA.scale_law"
   ],
   "note": "All outputs of the catalogue, over the reals with NaN and infinities."
  },
  {
   "property": "C42",
   "status": "proved",
   "theorems": [
    "TA.ichimoku_formula",
    "TA.ichimoku_within",
    "TA.ichimoku_visual_shift"
   ],
   "note": "Any ordered field, gap-free bars."
  },
  {
   "property": "C43",
   "status": "proved",
   "theorems": [
    "TA.returns_compound",
    "TA.log_returns_sum"
   ],
   "note": "Any ordered field with non-zero closes; logarithms over the reals with positive closes."
  },
  {
   "property": "C44",
   "status": "proved",
   "theorems": [
    "TA.roc_formula",
    "TA.roc_one_eq_daily",
    "TA.scale_law"
   ],
   "note": "Any ordered field; the equality with the daily return also with gaps, but not with infinite closes."
  },
  {
   "property": "C49",
   "status": "proved",
   "theorems": [
    "TA.mass_formula",
    "TA.mass_pos_const",
    "TA.scale_law",
    "TA.shift_fixed"
   ],
   "note": "Gap-free bars with high > low; invariances on any data."
  },
  {
   "property": "C50",
   "status": "proved",
   "theorems": [
    "TA.cci_formula",
    "TA.scale_law",
    "TA.shift_fixed"
   ],
   "note": "Gap-free bars; invariances on any data."
  },
  {
   "property": "C61",
   "status": "proved",
   "theorems": [
    "TA.kama_formula"
   ],
   "note": "Any ordered field, gap-free closes."
  },
  {
   "property": "C62",
   "status": "proved",
   "theorems": [
    "TA.stochrsi_formula"
   ],
   "note": "Any data."
  },
  {
   "property": "C63",
   "status": "proved",
   "theorems": [
    "TA.stc_formula"
   ],
   "note": "Gap-free closes; under the stated non-flatness."
  },
  {
   "property": "C64",
   "status": "proved",
   "theorems": [
    "TA.ao_formula",
    "TA.dpo_formula",
    "TA.trix_formula",
    "TA.trix_fill_formula"
   ],
   "note": "Gap-free data."
  },
  {
   "property": "C45",
   "status": "proved",
   "theorems": [
    "TA.psar_partition"
   ],
   "note": "Any ordered field, gap-free bars."
  },
  {
   "property": "C46",
   "status": "proved",
   "theorems": [
    "TA.psar_rule_up",
    "TA.psar_rule_down",
    "TA.psar_side",
    "TA.psar_side_limits"
   ],
   "note": "Any ordered field, gap-free bars; psar_side_limits are the witnesses."
  },
  {
   "property": "C47",
   "status": "proved",
   "theorems": [
    "TA.psar_index",
    "TA.psar_index_range",
    "TA.psar_labels_matter"
   ],
   "note": "Any arithmetic, any data; the last theorem is the witness that the claim fails for other integer indexes."
  },
  {
   "property": "C48",
   "status": "proved",
   "theorems": [
    "TA.psar_down_flag",
    "TA.psar_up_flag",
    "TA.psar_up_flag_zero"
   ],
   "note": "Any ordered field, gap-free bars; the last theorem is the witness of the stated exception."
  },
  {
   "property": "C51",
   "status": "proved",
   "theorems": [
    "TA.raises_iff"
   ],
   "note": "Every output of the catalogue, any arithmetic, any data: the exception is given by a table in the number of rows and the parameters."
  },
  {
   "property": "C52",
   "status": "proved",
   "theorems": [
    "TA.wrapper_filled",
    "TA.wrapper_keeps",
    "TA.wrapper_get"
   ],
   "note": "All six functions, any arithmetic. The last two hold on every frame, also with clashing names, missing columns and exceptions."
  },
  {
   "property": "C53",
   "status": "proved",
   "theorems": [
    "TA.wrapper_filled",
    "TA.wrapper_values",
    "TA.evalAt_plain",
    "TA.clash_matters"
   ],
   "note": "All six functions, any arithmetic. Only the parabolic SAR sees the index, and not the default index. The last theorem is the witness that the hypothesis on names is needed."
  },
  {
   "property": "C54",
   "status": "proved",
   "theorems": [
    "TA.vectorized_sublist",
    "TA.sublist_features"
   ],
   "note": "All six functions, any arithmetic."
  },
  {
   "property": "C55",
   "status": "proved",
   "theorems": [
    "TA.prefix_renames",
    "TA.open_unused"
   ],
   "note": "All six functions, any arithmetic."
  },
  {
   "property": "C56",
   "status": "proved",
   "theorems": [
    "TA.wrapper_exception",
    "TA.all_succeeds_iff",
    "TA.missing_column",
    "TA.all_missing_unchanged",
    "TA.wrapper_filled",
    "TA.wrapper_keeps"
   ],
   "note": "All six functions, any arithmetic, any data."
  },
  {
   "property": "C57",
   "status": "proved",
   "theorems": [
    "TA.dropna_spec",
    "TA.dropna_good",
    "TA.dropna_idem",
    "TA.dropna_keeps_ninf"
   ],
   "note": "Any ordered field with NaN and infinities. Integer columns are taken as converted to float; that the argument is copied first is a fact of the model."
  },
  {
   "property": "C65",
   "status": "proved",
   "theorems": [
    "TA.wrapper_twice"
   ],
   "note": "All six functions, any arithmetic."
  },
  {
   "property": "C66",
   "status": "proved",
   "theorems": [
    "TA.finite_memory",
    "TA.memory_sharp",
    "TA.no_finite_memory"
   ],
   "note": "finite_memory in any arithmetic; the two others over the reals. pandas' online rolling kernels carry rounding errors across windows, which the model does not show."
  },
  {
   "property": "C67",
   "status": "proved",
   "theorems": [
    "TA.volume_law",
    "TA.volume_law_zero"
   ],
   "note": "All outputs of the catalogue, over the reals with NaN and infinities. The second theorem is the witness that k = 0 is excluded."
  },
  {
   "property": "C68",
   "status": "proved",
   "theorems": [
    "TA.fn_as_class",
    "TA.fn_type_error",
    "TA.fn_value",
    "TA.fn_defaults",
    "TA.cls_defaults",
    "TA.fn_kw_order",
    "TA.fn_positional",
    "TA.hidden_irrelevant",
    "TA.own_default_differs",
    "TA.donchian_defaults_disagree",
    "TA.keltner_multiplier_hidden"
   ],
   "note": "Any arithmetic. Arguments of another type than the model's (negative windows, strings, ...) are outside the model."
  },
  {
   "property": "C69",
   "status": "proved",
   "theorems": [
    "TA.mirror_law",
    "TA.rsi_mirror",
    "TA.uo_mirror",
    "TA.mirror_asymmetric"
   ],
   "note": "Table Ind.mirror in Props/C69.lean; over the real numbers."
  },
  {
   "property": "C70",
   "status": "proved",
   "theorems": [
    "TA.superposition",
    "TA.superposition_weighted",
    "TA.superposition_volume",
    "TA.kama_not_linear_not_monotone"
   ],
   "note": "Over the real numbers; data with gaps. Table Ind.linear in Props/C70.lean."
  },
  {
   "property": "C71",
   "status": "proved",
   "theorems": [
    "TA.monotone_in_prices",
    "TA.vwap_monotone",
    "TA.kama_not_linear_not_monotone",
    "TA.keltner_not_monotone"
   ],
   "note": "Over the real numbers; data with gaps. Table Ind.rising in Props/C70.lean."
  },
  {
   "property": "C72",
   "status": "proved",
   "theorems": [
    "TA.online_sum",
    "TA.online_mean",
    "TA.online_std",
    "TA.online_max",
    "TA.online_min",
    "TA.online_max_rounded",
    "TA.online_min_rounded",
    "TA.online_no_lookahead",
    "TA.online_std_no_lookahead",
    "TA.online_mean_float64"
   ],
   "note": "The kernels of pandas 1.3.5 are written out in Base/Online.lean from knowledge of that version; pandas' source is not in /repo."
  },
  {
   "property": "C73",
   "status": "proved",
   "theorems": [
    "TA.fading_memory",
    "TA.ema_fades_geometrically",
    "TA.never_forgets"
   ],
   "note": "N is uniform over the data; the smoothing weight of KAMA varies with the data but is the same in both runs and bounded below"
  },
  {
   "property": "C74",
   "status": "proved",
   "theorems": [
    "TA.adi_history",
    "TA.obv_history",
    "TA.vpt_history",
    "TA.nvi_history",
    "TA.cr_history"
   ],
   "note": "Spec `ShiftedBy`/`ScaledBy`; the constants are given explicitly."
  },
  {
   "property": "C75",
   "status": "proved",
   "theorems": [
    "TA.stoch_donchian",
    "TA.ichimoku_donchian",
    "TA.spanB_not_donchian",
    "TA.stochrsi_stoch",
    "TA.only_typical_price",
    "TA.centres_are_averages",
    "TA.signals_are_averages",
    "TA.lines_of_emas",
    "TA.cmf_adi",
    "TA.window_one"
   ],
   "note": "Some of these hold by unfolding the two classes to the same expression; the others need the laws of exact arithmetic with special values."
  },
  {
   "property": "C76",
   "status": "proved",
   "theorems": [
    "TA.sma_gaps",
    "TA.ema_gaps",
    "TA.rsi_gaps",
    "TA.obv_gaps",
    "TA.adi_gaps"
   ],
   "note": "SMA and EMA on any data; RSI, OBV on data without infinities, ADI on bars that may be missing."
  },
  {
   "property": "C77",
   "status": "proved",
   "theorems": [
    "TA.recovers",
    "TA.atr_poison",
    "TA.atr_frozen",
    "TA.keltner_poison",
    "TA.kama_poison",
    "TA.adx_poison",
    "TA.psar_poison",
    "TA.cr_poison",
    "TA.heals_or_mortal"
   ],
   "note": "the windowed part rests on C66 and C41"
  },
  {
   "property": "C78",
   "status": "proved",
   "theorems": [
    "TA.same_name",
    "TA.told_name",
    "TA.main_line_name",
    "TA.names_ambiguous",
    "TA.name_shows_unused"
   ],
   "note": "The witnesses are evaluated with square roots of 0 and 1 only."
  },
  {
   "property": "C79",
   "status": "proved",
   "theorems": [
    "TA.atr_float_same",
    "TA.atr_float_range",
    "TA.atr_float_lookahead",
    "TA.atr_float_dead",
    "TA.atr_float_zero",
    "TA.keltner_float_dead",
    "TA.keltner_float_flat"
   ],
   "note": ""
  },
  {
   "property": "C80",
   "status": "proved",
   "theorems": [
    "TA.ema_double",
    "TA.macd_double",
    "TA.atr_double"
   ],
   "note": "the mean that starts ATR is summed left to right"
  },
  {
   "property": "C81",
   "status": "proved",
   "theorems": [
    "TA.obv_double_exact",
    "TA.obv_double",
    "TA.obv_double_stuck"
   ],
   "note": "gap-free columns; numpy's cumsum adds left to right, as the model does"
  },
  {
   "property": "C82",
   "status": "proved",
   "theorems": [
    "TA.rsi_double",
    "TA.tsi_double"
   ],
   "note": "the smoothing factor 1/w goes through pandas' com, as in the model"
  },
  {
   "property": "C83",
   "status": "proved",
   "theorems": [
    "TA.roc_double",
    "TA.daily_double",
    "TA.cumulative_double",
    "TA.daily_double_twice"
   ],
   "note": ""
  },
  {
   "property": "C84",
   "status": "proved",
   "theorems": [
    "TA.forceIndex_double",
    "TA.keltner_double",
    "TA.ppo_double"
   ],
   "note": ""
  },
  {
   "property": "C85",
   "status": "proved",
   "theorems": [
    "TA.rsi_rising",
    "TA.rsi_falling",
    "TA.stochrsi_rising",
    "TA.tsi_rising",
    "TA.tsi_falling",
    "TA.macd_rising",
    "TA.macd_falling",
    "TA.ppo_rising",
    "TA.ppo_falling",
    "TA.roc_rising",
    "TA.trix_rising",
    "TA.kst_rising",
    "TA.kama_rising",
    "TA.ulcer_rising",
    "TA.rising_extends",
    "TA.falling_extends"
   ],
   "note": "The theorems are about sequences that rise (fall) for ever; rising_extends and falling_extends say that every finite rising (positive falling) column is the start of one."
  },
  {
   "property": "C86",
   "status": "proved",
   "theorems": [
    "TA.aroon_rising",
    "TA.aroon_falling",
    "TA.adx_rising",
    "TA.adx_falling",
    "TA.vortex_rising",
    "TA.ao_rising",
    "TA.cci_rising",
    "TA.donchian_rising",
    "TA.ichimoku_rising",
    "TA.psar_rising",
    "TA.psar_falling",
    "TA.psar_overlap",
    "TA.mfi_rising",
    "TA.obv_rising",
    "TA.vpt_rising",
    "TA.forceIndex_rising",
    "TA.eom_rising",
    "TA.nvi_rising",
    "TA.rising_bars_extend",
    "TA.falling_bars_extend"
   ],
   "note": ""
  },
  {
   "property": "C87",
   "status": "proved",
   "theorems": [
    "TA.standstill"
   ],
   "note": "the table is Ind.still, written without the model; the proof goes through the formula theorems of the single indicators"
  },
  {
   "property": "C88",
   "status": "proved",
   "theorems": [
    "TA.donchian_nested",
    "TA.keltner_nested",
    "TA.bollinger_nested",
    "TA.cci_constant",
    "TA.uo_weights",
    "TA.macd_swap",
    "TA.ppo_swap",
    "TA.ao_swap",
    "TA.kama_equal"
   ],
   "note": ""
  },
  {
   "property": "C89",
   "status": "proved",
   "theorems": [
    "TA.clean_gapfree",
    "TA.readme_pipeline",
    "TA.psar_down_stays_empty",
    "TA.pipeline_labels_matter"
   ],
   "note": "-inf is what dropna lets through"
  },
  {
   "property": "C90",
   "status": "proved",
   "theorems": [
    "TA.object_timing",
    "TA.bollinger_mixed",
    "TA.keltner_mixed",
    "TA.donchian_mixed",
    "TA.result_stable",
    "TA.shared_write",
    "TA.private_write",
    "TA.mixed_is_neither",
    "TA.shared_write_spreads"
   ],
   "note": "tables Ind.timing and Ind.fresh in Props/C90.lean; rests on the reading of pandas 1.3.5 sharing in Model/Objects.lean"
  },
  {
   "property": "C91",
   "status": "proved",
   "theorems": [
    "TA.sensitivity",
    "TA.vwap_sensitivity",
    "TA.creeping_markets",
    "TA.readings_jump"
   ],
   "note": "table Ind.gain in Props/C91.lean; over the real numbers because of the standard deviation; VWAP without fill and without infinite prices"
  },
  {
   "property": "C92",
   "status": "proved",
   "theorems": [
    "TA.labels_pass_through",
    "TA.answer_index",
    "TA.labels_do_not_count"
   ],
   "note": "rests on the alignment rules of pandas 1.3.5 in Model/Labels.lean"
  },
  {
   "property": "C93",
   "status": "proved",
   "theorems": [
    "TA.joined_labels",
    "TA.rows_depend_on_labels",
    "TA.cmf_rows"
   ],
   "note": "table Ind.rowCols in Props/C93.lean, relation Joined"
  },
  {
   "property": "C94",
   "status": "proved",
   "theorems": [
    "TA.order_by_label",
    "TA.order_by_label_bars",
    "TA.swapped_same",
    "TA.order_matters"
   ],
   "note": "table Ind.loose in Props/C94.lean; high has to be in order wherever it is used"
  },
  {
   "property": "C95",
   "status": "proved",
   "theorems": [
    "TA.paired_by_position",
    "TA.adx_labels",
    "TA.atr_answers",
    "TA.mfi_answers",
    "TA.keltner_flag_answers",
    "TA.keltner_atr_flag_answers"
   ],
   "note": ""
  },
  {
   "property": "C96",
   "status": "proved",
   "theorems": [
    "TA.bollinger_never_crossed",
    "TA.bollinger_crossed",
    "TA.bollinger_pband_reach",
    "TA.cci_reach",
    "TA.cci_reached",
    "TA.mass_reach"
   ],
   "note": ""
  },
  {
   "property": "C97",
   "status": "proved",
   "theorems": [
    "TA.sma_calm",
    "TA.wma_calm",
    "TA.ema_calm",
    "TA.macd_calm",
    "TA.ao_calm",
    "TA.kama_calm",
    "TA.roc_calm",
    "TA.bollinger_calm",
    "TA.ramp_attained",
    "TA.ramp_ema",
    "TA.ramp_bollinger"
   ],
   "note": ""
  },
  {
   "property": "C98",
   "status": "proved",
   "theorems": [
    "TA.pandas_mean_drift",
    "TA.pandas_sum_drift",
    "TA.pandas_sum_int",
    "TA.pandas_mean_int",
    "TA.sma_pandas",
    "TA.ao_pandas"
   ],
   "note": ""
  },
  {
   "property": "C99",
   "status": "proved",
   "theorems": [
    "TA.sma_rises",
    "TA.ema_rises",
    "TA.wma_rises",
    "TA.macd_rises",
    "TA.ppo_rises",
    "TA.roc_rises",
    "TA.returns_rise",
    "TA.trix_rises",
    "TA.kst_rises",
    "TA.rsi_rises",
    "TA.tsi_rises",
    "TA.uo_rises",
    "TA.stoch_rises",
    "TA.stochrsi_rises",
    "TA.stc_rises",
    "TA.cci_rises",
    "TA.dpo_sinks",
    "TA.kama_not_rising",
    "TA.mfi_not_rising"
   ],
   "note": "Gap-free data."
  },
  {
   "property": "C100",
   "status": "proved",
   "theorems": [
    "TA.bollinger_rises",
    "TA.keltner_original_rises",
    "TA.keltner_atr_rises",
    "TA.donchian_rises",
    "TA.money_rises",
    "TA.obv_rises",
    "TA.forceIndex_rises",
    "TA.vpt_rises",
    "TA.nvi_rises",
    "TA.log_return_rises",
    "TA.ulcer_sinks",
    "TA.last_close_unread",
    "TA.vortex_last_close_unread",
    "TA.bollinger_band_either"
   ],
   "note": "Gap-free data, except for the outputs that do not move: any data, any arithmetic (vortex: arithmetic in which NaN is absorbing)."
  },
  {
   "property": "C101",
   "status": "proved",
   "theorems": [
    "TA.wrapper_calls",
    "TA.features_calls",
    "TA.ownColumns_eq",
    "TA.args_needed"
   ],
   "note": "All six functions, any arithmetic. The table of calls was read off the wrapper; wrapper_calls proves every row of it."
  },
  {
   "property": "C102",
   "status": "proved",
   "theorems": [
    "TA.ao_rises",
    "TA.ichimoku_rises",
    "TA.donchian_bar_rises",
    "TA.typical_rises",
    "TA.stoch_bar_sinks",
    "TA.uo_bar_sinks",
    "TA.money_bar_sinks",
    "TA.aroon_bar_rises",
    "TA.eom_bar_either"
   ],
   "note": "Gap-free data. CCI where its mean deviation is not 0, the oscillators where the bars in hand have a range."
  },
  {
   "property": "C103",
   "status": "proved",
   "theorems": [
    "TA.atr_wider",
    "TA.keltner_atr_wider",
    "TA.keltner_original_wider",
    "TA.donchian_bar_wider",
    "TA.mass_wider",
    "TA.di_wider",
    "TA.vortex_wider",
    "TA.psar_wider",
    "TA.wider_either"
   ],
   "note": "Gap-free data; relative widths need positive prices. For the SAR nothing is assumed about the second close relative to the first high; the invariant covers the start-up rows."
  },
  {
   "property": "C104",
   "status": "proved",
   "theorems": [
    "TA.obv_volume",
    "TA.adi_volume",
    "TA.cmf_vwap_volume",
    "TA.vpt_volume",
    "TA.force_volume",
    "TA.eom_volume",
    "TA.nvi_volume",
    "TA.mfi_volume",
    "TA.pvo_volume",
    "TA.volume_unread"
   ],
   "note": "Gap-free data with positive volumes where a quotient of volumes is taken; the money flow index needs positive typical prices."
  },
  {
   "property": "C105",
   "status": "proved",
   "theorems": [
    "TA.kama_int",
    "TA.kama_float",
    "TA.momentum_float",
    "TA.all_float",
    "TA.vectorized_typed",
    "TA.vectorized_all_typed",
    "TA.momentum_int",
    "TA.all_int_short",
    "TA.all_int",
    "TA.obv_unsigned",
    "TA.obv_uint64",
    "TA.obv_uint",
    "TA.obvZ_float",
    "TA.eom_int32",
    "TA.eom_int32_small",
    "TA.eom_int32_big"
   ],
   "note": "numpy's casting rule and its arithmetic on integer types are trusted as stated in DESIGN.md; the frame has no column with a generated name."
  },
  {
   "property": "C106",
   "status": "proved",
   "theorems": [
    "TA.atrZ_pos",
    "TA.atrZ_neg",
    "TA.atr_negative_formula",
    "TA.atr_negative_lookahead",
    "TA.rocZ_nat",
    "TA.roc_negative",
    "TA.roc_negative_inverse",
    "TA.kst_negative"
   ],
   "note": "Model/Negative.lean: subscripts and slices from the end, range with a negative start, shift by a negative number."
  },
  {
   "property": "C107",
   "status": "proved",
   "theorems": [
    "TA.live_all",
    "TA.eval_forgets",
    "TA.live_pads",
    "TA.live_ema",
    "TA.live_forgets",
    "TA.liveE_causal",
    "TA.dpo_fillna_not_live",
    "TA.backfill_not_live",
    "TA.seenBefore_not_live"
   ],
   "note": "A skeleton (output with its windows) is fixed before the number type, so the size of the state cannot depend on the numbers; Spec/Live.lean says what fits into a state"
  },
  {
   "property": "C108",
   "status": "proved",
   "theorems": [
    "TA.obv_pause",
    "TA.adi_pause",
    "TA.vpt_pause",
    "TA.cr_pause",
    "TA.dr_pause",
    "TA.nvi_pause",
    "TA.rsi_pause",
    "TA.vwap_pause",
    "TA.cmf_pause",
    "TA.pause_matters"
   ],
   "note": "VWAP and CMF without filling."
  },
  {
   "property": "C109",
   "status": "proved",
   "theorems": [
    "TA.binaryP_64",
    "TA.obv_single_exact",
    "TA.obv_single_deaf",
    "TA.obv_single_ceiling",
    "TA.adi_single_deaf"
   ],
   "note": "That numpy and pandas cumulate float32 columns in float32 is trusted."
  },
  {
   "property": "C110",
   "status": "proved",
   "theorems": [
    "TA.bb_pandas_exact",
    "TA.variance_residue",
    "TA.bands_collapse",
    "TA.bands_blow_up",
    "TA.bands_exact"
   ],
   "note": "accumulator of pandas' roll_var as in C72; the first 21 rows by evaluation, all later rows by a fixed point"
  },
  {
   "property": "C111",
   "status": "proved",
   "theorems": [
    "TA.pandas_var_near",
    "TA.pandas_std_near",
    "TA.bollinger_double"
   ],
   "note": "pandas' Welford accumulator with compensation (Base/Online) in rounded arithmetic; invariant on n\u00b7mean and ssq + n\u00b7mean\u00b2 over all rows"
  },
  {
   "property": "C112",
   "status": "proved",
   "theorems": [
    "TA.sma_turns",
    "TA.sma_roc",
    "TA.ema_turns",
    "TA.wma_turns",
    "TA.kama_turns",
    "TA.macd_turns",
    "TA.ppo_turns",
    "TA.kst_turns",
    "TA.atr_turns",
    "TA.adx_turns",
    "TA.rsi_turns",
    "TA.forceIndex_turns",
    "TA.totals_turn",
    "TA.donchian_turns",
    "TA.trix_turns"
   ],
   "note": ""
  },
  {
   "property": "C113",
   "status": "proved",
   "theorems": [
    "TA.rsi_is_distance",
    "TA.rsi_fifty",
    "TA.stoch_fifty",
    "TA.bollinger_signals",
    "TA.keltner_signals",
    "TA.macd_ppo_sign",
    "TA.cci_sign",
    "TA.cmf_sign",
    "TA.return_signs"
   ],
   "note": ""
  },
  {
   "property": "C114",
   "status": "proved",
   "theorems": [
    "TA.npSum_addsUp",
    "TA.npSum_short",
    "TA.npSum_split",
    "TA.AddsUp.exact",
    "TA.numpy_order",
    "TA.numpy_order_ulcer",
    "TA.mfi_any_order",
    "TA.adds_double",
    "TA.adds_int",
    "TA.wma_any_order",
    "TA.wma_numpy"
   ],
   "note": "numpy 1.21.5's pairwise_sum is read from its C source and trusted"
  },
  {
   "property": "C115",
   "status": "proved",
   "theorems": [
    "TA.unpriced_rows",
    "TA.unpriced_start",
    "TA.adx_fill_unused"
   ],
   "note": "The table is written from the python source, one line per kind of output; the ADX columns with fillna=False (zeros, then NaN) are not in it."
  },
  {
   "property": "C116",
   "status": "proved",
   "theorems": [
    "TA.stoch_fill",
    "TA.williamsR_fill",
    "TA.stochSignal_fill",
    "TA.tsi_fill",
    "TA.uo_fill",
    "TA.kama_fill",
    "TA.stochrsi_fill",
    "TA.cci_fill",
    "TA.eom_fill",
    "TA.vpt_smooth_fill"
   ],
   "note": "`Carried out n v d f` says: value `f i` where `d i`, else the row before, else `v`. KAMA assumes window <= rows (otherwise np.roll wraps more than once)."
  },
  {
   "property": "C117",
   "status": "proved",
   "theorems": [
    "TA.stoch_double",
    "TA.williamsR_double",
    "TA.donchian_double",
    "TA.ichimoku_lines_double",
    "TA.ichimoku_spans_double",
    "TA.aroon_double",
    "TA.stoch_double_overflow"
   ],
   "note": "Binary64 modelled as in C58; the Ichimoku spans are stated for visual=False (with visual=True the first rows are a mean over the whole column)."
  },
  {
   "property": "C118",
   "status": "proved",
   "theorems": [
    "TA.rsi_limits",
    "TA.rsi_window_one",
    "TA.tsi_limits",
    "TA.stoch_limits",
    "TA.williamsR_limits",
    "TA.stochrsi_limits",
    "TA.mfi_limits",
    "TA.cmf_limits",
    "TA.uo_limits",
    "TA.aroon_limits",
    "TA.di_limits"
   ],
   "note": "Aroon Up at 100 is aroon_up_100 (C27)."
  },
  {
   "property": "C119",
   "status": "proved",
   "theorems": [
    "TA.bollinger_within_donchian",
    "TA.bollinger_not_narrow",
    "TA.bollinger_break_cci",
    "TA.keltner_within_donchian",
    "TA.donchian_within_atr",
    "TA.ulcer_within_donchian"
   ],
   "note": "The two Bollinger bounds meet on two rows (example)."
  },
  {
   "property": "C120",
   "status": "proved",
   "theorems": [
    "TA.cycle_sma",
    "TA.cycle_roc",
    "TA.cycle_ao",
    "TA.cycle_dpo",
    "TA.cycle_donchian",
    "TA.cycle_bollinger",
    "TA.cycle_vwap",
    "TA.cycle_cmf",
    "TA.cycle_mfi",
    "TA.cycle_uo",
    "TA.cycle_vortex",
    "TA.cycle_obv",
    "TA.cycle_adi",
    "TA.cycle_vpt"
   ],
   "note": ""
  },
  {
   "property": "C121",
   "status": "proved",
   "theorems": [
    "TA.kama_double",
    "TA.kama_pandas_double",
    "TA.kama_near",
    "TA.kamaPandas_exact",
    "TA.sum_rel",
    "TA.kEr_unit"
   ],
   "note": "`kama_double` is about the model's `kama`; `kama_pandas_double` about the same loop over pandas' rolling sum (`onlineSum`, C72/C98)."
  },
  {
   "property": "C122",
   "status": "proved",
   "theorems": [
    "TA.vwap_double",
    "TA.vwap_pandas_double",
    "TA.cmf_double",
    "TA.cmf_pandas_double",
    "TA.vwapPandas_exact",
    "TA.cmfPandas_exact",
    "TA.Weighted.fresh",
    "TA.Weighted.online"
   ],
   "note": "The model sums each window from left to right; the `_pandas_` theorems are about the same formulas over pandas' running sum (`onlineSum`, C72/C98)."
  },
  {
   "property": "C123",
   "status": "proved",
   "theorems": [
    "TA.mfi_double_any",
    "TA.mfi_double",
    "TA.mfi_numpy_double",
    "TA.mflow_rows",
    "TA.AddsUp.rel",
    "TA.mfi_tie",
    "TA.mfi_tie_far",
    "TA.tie_data"
   ],
   "note": "The model adds the flows of a window from left to right; `mfi_numpy_double` is about `moneyFlowIndexBy npSum` (Model/NumpySum.lean)."
  },
  {
   "property": "C124",
   "status": "proved",
   "theorems": [
    "TA.adi_double",
    "TA.vpt_double",
    "TA.nvi_double",
    "TA.eom_double",
    "TA.cumsum_near",
    "TA.nvi_turn",
    "TA.pct_rows"
   ],
   "note": "Running totals are added from left to right, as `cumsum` does in the model. `nvi` is the recursion of property C37 (defined in Props/C34.lean)."
  },
  {
   "property": "C125",
   "status": "proved",
   "theorems": [
    "TA.uo_double",
    "TA.vortex_double",
    "TA.uoAvg_double",
    "TA.uo_row",
    "TA.vline_double",
    "TA.rollSum_rel"
   ],
   "note": "Rolling sums are those of the model, without pandas' running update of the window."
  },
  {
   "property": "C126",
   "status": "proved",
   "theorems": [
    "TA.trix_double",
    "TA.mass_double",
    "TA.dpo_double",
    "TA.keltner_original_double",
    "TA.donchian_width_double",
    "TA.online_init",
    "TA.online_skip",
    "TA.massPandas_exact",
    "TA.dpoPandas_exact",
    "TA.keltnerPandas_exact",
    "TA.wbandPandas_exact"
   ],
   "note": "The running sums and means are pandas' compensated kernels as modelled in Base/Online.lean; in exact arithmetic they give the model's rolling sums and means."
  },
  {
   "property": "C127",
   "status": "proved",
   "theorems": [
    "TA.kst_double",
    "TA.dpo_double_any",
    "TA.trix_double_any",
    "TA.meanfilled_exact",
    "TA.npSum_sumsIn",
    "TA.Approx.mean",
    "TA.Approx.shiftMean",
    "TA.Approx.onlineMean0",
    "TA.Approx.change"
   ],
   "note": "The KST, DPO and TRIX of these theorems are the model's with the summation as a parameter and pandas' running mean; `meanfilled_exact` says they are the model's in exact arithmetic. Lags at least the number of rows are included: every row is then compared with the mean."
  },
  {
   "property": "C128",
   "status": "proved",
   "theorems": [
    "TA.nanLaws_double",
    "TA.nanLaws_single",
    "TA.double_causal",
    "TA.double_filled",
    "TA.adx_no_lookahead_rounded",
    "TA.kama_no_lookahead_double",
    "TA.kama_pandas_leak",
    "TA.kama_pandas_looks_ahead",
    "TA.vortex_pandas_looks_ahead",
    "TA.kst_pandas_looks_ahead",
    "TA.vortexPosPandas_exact"
   ],
   "note": "`double_causal` is about the model, which sums each window afresh; the `_looks_ahead` witnesses are about the running sum of pandas (Base/Online.lean). In exact arithmetic both are the same."
  },
  {
   "property": "C129",
   "status": "proved",
   "theorems": [
    "TA.kama_fill_unbounded",
    "TA.kama_fill_settles",
    "TA.kama_fill_fades"
   ],
   "note": "Any ordered field, gap-free closes."
  },
  {
   "property": "C130",
   "status": "proved",
   "theorems": [
    "TA.sterbenz",
    "TA.adx_inputs_exact",
    "TA.adx_di_double",
    "TA.adx_runBy_sumL",
    "TA.sumL_sumsIn",
    "TA.npSum_sumsIn",
    "TA.adx_di_tie"
   ],
   "note": "ADX.runBy \u03c3 is the model of _run with the initial sum taken by \u03c3; \u03c3 = sumL is ADX.run. IsDouble x: rounding x to double precision gives x."
  },
  {
   "property": "C131",
   "status": "proved",
   "theorems": [
    "TA.adx_double",
    "TA.adxBy_sumL",
    "TA.adx_runBy_sumL"
   ],
   "note": "ADX.adxBy \u03c3 is the model of adx() with the initial mean summed by \u03c3; \u03c3 = sumL is ADX.adx. The bars are given by sequences h, l, c that satisfy low <= close <= high at every index, also beyond the n rows used."
  },
  {
   "property": "C132",
   "status": "proved",
   "theorems": [
    "TA.cci_double",
    "TA.cciPandas_exact",
    "TA.cci_still_inf",
    "TA.cci_still_swings",
    "TA.cci_still_exact"
   ],
   "note": "`SumsIn` and `npSum` are those of C114 and C127; the period of the two still columns comes from the state of pandas' accumulator returning to itself after 16 and 32 rows, which is a computation, and holds for all later rows by induction"
  },
  {
   "property": "C133",
   "status": "proved",
   "theorems": [
    "TA.psar_double",
    "TA.psar_close_call"
   ],
   "note": "`sarAt` is the recursion over bars that C45 proves equal to the model; the error of the acceleration factor is included in E"
  },
  {
   "property": "C134",
   "status": "proved",
   "theorems": [
    "TA.stoch_signal_double",
    "TA.sma_eom_double",
    "TA.stochrsi_double",
    "TA.stochrsi_noise",
    "TA.smoothed_exact"
   ],
   "note": "stoch_signal_double, sma_eom_double and stochrsi_double are the three bounds, over any ordered field; smoothed_exact says that the definitions with pandas' rolling mean are the model's in exact arithmetic; stochrsi_noise is the witness that the range g is needed. The error of StochRSI is that of C82 for the RSI, divided by g; rolling extremes add none."
  },
  {
   "property": "C135",
   "status": "proved",
   "theorems": [
    "TA.ulcer_double",
    "TA.ulcer_double_default"
   ],
   "note": "Doubles as in C80 (rounding to nearest, with subnormals and overflow), the square root correctly rounded. The prices are taken as they are (any reals in the range), so the error is that of the computation and not of reading the prices."
  },
  {
   "property": "C136",
   "status": "proved",
   "theorems": [
    "TA.log_return_double",
    "TA.log_return_usual",
    "TA.log_return_blind"
   ],
   "note": "Doubles as in C80; the logarithm is taken to be correctly rounded, which numpy does not promise (its error is below one unit in the last place)."
  },
  {
   "property": "C137",
   "status": "proved",
   "theorems": [
    "TA.stc_double",
    "TA.stc_line",
    "TA.stc_line_noise"
   ],
   "note": "Doubles as in C80. The ranges g and g' are those of the exact columns, described as in C63 (emaRec and PosOf), not through the code."
  },
  {
   "property": "C138",
   "status": "proved",
   "theorems": [
    "TA.sma_line",
    "TA.wma_line",
    "TA.ema_line",
    "TA.macd_on_line",
    "TA.kama_line",
    "TA.ao_line",
    "TA.dpo_line",
    "TA.bollinger_line",
    "TA.bollinger_line_inside",
    "TA.bollinger_line_outside"
   ],
   "note": "exact arithmetic"
  }
 ]
}