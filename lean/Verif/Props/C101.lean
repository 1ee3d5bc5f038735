import Verif.Props.C52
import Verif.Props.C68

/-! # C101 — the parameters the wrapper uses and the defaults of the classes

The wrapper passes most parameters explicitly. For 72 of the 86 columns of `add_all_ta_features` they are the defaults of
the class; the remaining fourteen are what the class returns with the arguments listed in `columnCalls`, and something
else without them. -/

set_option linter.unusedSectionVars false

namespace TA

section
variable {F : Type} [FltFn F]

/-- the columns of the caller's table that a constructor takes, in the order of its signature -/
def Cls.columns (b : List (Bar F)) (c : Cls) : List (PyVal F) :=
  (keys c.sig).filterMap fun
    | .high => some (.ser (highs b))
    | .low => some (.ser (lows b))
    | .close => some (.ser (closes b))
    | .volume => some (.ser (volumes b))
    | _ => none

/-- `Cls(columns, fillna=fillna, **args).meth()` -/
def callWith (b : List (Bar F)) (fillna : Bool) (m : Meth) (args : List (Param × PyVal F)) : Except CallErr (Series F) :=
  callCls m.cls m (m.cls.columns b) ((.fillna, .bool fillna) :: args)

/-- The generated columns in order: name, the method that fills it, and the arguments the class has to be given besides the
input columns and `fillna`. -/
def columnCalls : List (String × Meth × List (Param × PyVal F)) :=
  [("volume_adi", .acc_dist_index, []), ("volume_obv", .on_balance_volume, []),
   ("volume_cmf", .chaikin_money_flow, []), ("volume_fi", .force_index, []), ("volume_em", .ease_of_movement, []),
   ("volume_sma_em", .sma_ease_of_movement, []), ("volume_vpt", .volume_price_trend, []),
   ("volume_vwap", .volume_weighted_average_price, []), ("volume_mfi", .money_flow_index, []),
   ("volume_nvi", .negative_volume_index, []), ("volatility_bbm", .bollinger_mavg, []),
   ("volatility_bbh", .bollinger_hband, []), ("volatility_bbl", .bollinger_lband, []),
   ("volatility_bbw", .bollinger_wband, []), ("volatility_bbp", .bollinger_pband, []),
   ("volatility_bbhi", .bollinger_hband_indicator, []), ("volatility_bbli", .bollinger_lband_indicator, []),
   ("volatility_kcc", .keltner_channel_mband, [(.window, .int 10)]),
   ("volatility_kch", .keltner_channel_hband, [(.window, .int 10)]),
   ("volatility_kcl", .keltner_channel_lband, [(.window, .int 10)]),
   ("volatility_kcw", .keltner_channel_wband, [(.window, .int 10)]),
   ("volatility_kcp", .keltner_channel_pband, [(.window, .int 10)]),
   ("volatility_kchi", .keltner_channel_hband_indicator, [(.window, .int 10)]),
   ("volatility_kcli", .keltner_channel_lband_indicator, [(.window, .int 10)]),
   ("volatility_dcl", .donchian_channel_lband, []), ("volatility_dch", .donchian_channel_hband, []),
   ("volatility_dcm", .donchian_channel_mband, []), ("volatility_dcw", .donchian_channel_wband, []),
   ("volatility_dcp", .donchian_channel_pband, []), ("volatility_atr", .average_true_range, [(.window, .int 10)]),
   ("volatility_ui", .ulcer_index, []), ("trend_macd", .macd, []), ("trend_macd_signal", .macd_signal, []),
   ("trend_macd_diff", .macd_diff, []), ("trend_sma_fast", .sma_indicator, [(.window, .int 12)]),
   ("trend_sma_slow", .sma_indicator, [(.window, .int 26)]), ("trend_ema_fast", .ema_indicator, [(.window, .int 12)]),
   ("trend_ema_slow", .ema_indicator, [(.window, .int 26)]), ("trend_vortex_ind_pos", .vortex_indicator_pos, []),
   ("trend_vortex_ind_neg", .vortex_indicator_neg, []), ("trend_vortex_ind_diff", .vortex_indicator_diff, []),
   ("trend_trix", .trix, []), ("trend_mass_index", .mass_index, []), ("trend_dpo", .dpo, []), ("trend_kst", .kst, []),
   ("trend_kst_sig", .kst_sig, []), ("trend_kst_diff", .kst_diff, []),
   ("trend_ichimoku_conv", .ichimoku_conversion_line, []), ("trend_ichimoku_base", .ichimoku_base_line, []),
   ("trend_ichimoku_a", .ichimoku_a, []), ("trend_ichimoku_b", .ichimoku_b, []), ("trend_stc", .stc, []),
   ("trend_adx", .adx, []), ("trend_adx_pos", .adx_pos, []), ("trend_adx_neg", .adx_neg, []), ("trend_cci", .cci, []),
   ("trend_visual_ichimoku_a", .ichimoku_a, [(.visual, .bool true)]),
   ("trend_visual_ichimoku_b", .ichimoku_b, [(.visual, .bool true)]), ("trend_aroon_up", .aroon_up, []),
   ("trend_aroon_down", .aroon_down, []), ("trend_aroon_ind", .aroon_indicator, []), ("trend_psar_up", .psar_up, []),
   ("trend_psar_down", .psar_down, []), ("trend_psar_up_indicator", .psar_up_indicator, []),
   ("trend_psar_down_indicator", .psar_down_indicator, []), ("momentum_rsi", .rsi, []),
   ("momentum_stoch_rsi", .stochrsi, []), ("momentum_stoch_rsi_k", .stochrsi_k, []),
   ("momentum_stoch_rsi_d", .stochrsi_d, []), ("momentum_tsi", .tsi, []), ("momentum_uo", .ultimate_oscillator, []),
   ("momentum_stoch", .stoch, []), ("momentum_stoch_signal", .stoch_signal, []), ("momentum_wr", .williams_r, []),
   ("momentum_ao", .awesome_oscillator, []), ("momentum_roc", .roc, []), ("momentum_ppo", .ppo, []),
   ("momentum_ppo_signal", .ppo_signal, []), ("momentum_ppo_hist", .ppo_hist, []), ("momentum_pvo", .pvo, []),
   ("momentum_pvo_signal", .pvo_signal, []), ("momentum_pvo_hist", .pvo_hist, []), ("momentum_kama", .kama, []),
   ("others_dr", .daily_return, []), ("others_dlr", .daily_log_return, []), ("others_cr", .cumulative_return, [])]

/-- the fourteen columns that are not the class with its defaults -/
def ownColumns : List String :=
  ["volatility_kcc", "volatility_kch", "volatility_kcl", "volatility_kcw", "volatility_kcp", "volatility_kchi",
   "volatility_kcli", "volatility_atr", "trend_sma_fast", "trend_sma_slow", "trend_ema_fast", "trend_ema_slow",
   "trend_visual_ichimoku_a", "trend_visual_ichimoku_b"]

set_option maxHeartbeats 2000000 in
/-- the table of the features and the table of the calls agree, row by row -/
theorem features_calls (fillna : Bool) (b : List (Bar F)) :
    List.Forall₂ (fun p q => p.1 = q.1 ∧ lift (p.2.eval fillna b) = callWith b fillna q.2.1 q.2.2) (allF false)
      (columnCalls (F := F)) := by
  simp only [allF, volumeF, volatilityF, trendF, momentumF, othersF, columnCalls, List.cons_append, List.nil_append,
    Bool.false_eq_true, if_false]
  repeat' first | exact .nil | refine .cons ⟨rfl, rfl⟩ ?_

theorem features_sub (fn : Fn) (vec : Bool) {p : String × Ind F} (hp : p ∈ fn.features vec) : p ∈ allF false := by
  have hsub : ∀ (f : Bool → List (String × Ind F)) (A B : List (String × Ind F)),
      (∀ v, f v = A ++ if v then [] else B) → p ∈ f vec → p ∈ f false := by
    intro f A B h hm
    rw [h] at hm ⊢
    cases vec with
    | false => exact hm
    | true => simp only [if_true, List.append_nil] at hm; exact List.mem_append_left _ hm
  have h1 : p ∈ volumeF vec → p ∈ volumeF false := hsub volumeF _ _ fun _ => rfl
  have h2 : p ∈ volatilityF vec → p ∈ volatilityF false := hsub volatilityF _ _ fun _ => rfl
  have h3 : p ∈ trendF vec → p ∈ trendF false := hsub trendF _ _ fun _ => rfl
  have h4 : p ∈ momentumF vec → p ∈ momentumF false := hsub momentumF _ _ fun _ => rfl
  unfold allF
  simp only [List.mem_append]
  cases fn with
  | volume => exact .inl (.inl (.inl (.inl (h1 hp))))
  | volatility => exact .inl (.inl (.inl (.inr (h2 hp))))
  | trend => exact .inl (.inl (.inr (h3 hp)))
  | momentum => exact .inl (.inr (h4 hp))
  | others => exact .inr hp
  | all =>
    simp only [Fn.features, allF, List.mem_append] at hp
    rcases hp with (((hp | hp) | hp) | hp) | hp
    · exact .inl (.inl (.inl (.inl (h1 hp))))
    · exact .inl (.inl (.inl (.inr (h2 hp))))
    · exact .inl (.inl (.inr (h3 hp)))
    · exact .inl (.inr (h4 hp))
    · exact .inr hp

theorem forall₂_left {α β : Type} {R : α → β → Prop} {l : List α} {m : List β} (h : List.Forall₂ R l m) {a : α}
    (ha : a ∈ l) : ∃ c ∈ m, R a c := by
  induction h with
  | nil => cases ha
  | cons r _ ih =>
    rcases List.mem_cons.1 ha with rfl | ha
    · exact ⟨_, List.mem_cons_self, r⟩
    · obtain ⟨c, hc, hr⟩ := ih ha
      exact ⟨c, List.mem_cons_of_mem _ hc, hr⟩

/-- C101: after a successful call of a wrapper function every generated column holds what the class returns for the input
columns with `fillna` and the arguments of `columnCalls`. For the columns not in `ownColumns` there are none: the column is
the class with its defaults. -/
theorem wrapper_calls (fn : Fn) {df : Frame F} {open_ high low close volume pfx : String} {fillna vec : Bool}
    {b : List (Bar F)} (hr : fn.Reads df high low close volume b) (hc : fn.NoClash F high low close volume pfx vec)
    (hi : PlainIdx b.length df.idx) (hok : (fn.call df open_ high low close volume fillna pfx vec).2 = none)
    {p : String × Ind F} (hp : p ∈ fn.features vec) :
    ∃ q ∈ columnCalls (F := F), q.1 = p.1 ∧
      lift ((fn.call df open_ high low close volume fillna pfx vec).1.get (pfx ++ p.1)) = callWith b fillna q.2.1 q.2.2 := by
  obtain ⟨q, hq, e, hv⟩ := forall₂_left (features_calls fillna b) (features_sub fn vec hp)
  refine ⟨q, hq, e.symm, ?_⟩
  rw [wrapper_values fn hr hc hok p hp, evalAt_plain hi, hv]

/-- C101: exactly fourteen columns need arguments. -/
theorem ownColumns_eq : ((columnCalls (F := F)).filter fun q => !q.2.2.isEmpty).map (·.1) = ownColumns ∧
    (columnCalls (F := F)).length = 86 ∧ ((columnCalls (F := F)).map (·.1)).Nodup := ⟨rfl, rfl, by
  simp only [columnCalls, List.map]; decide +kernel⟩

end

/-! ## the arguments are needed -/

section examples
attribute [local instance] toyFn

/-- two high rows, then lower and still prices, then a small rise -/
def fallAndRest : List (Bar (Val ℚ)) :=
  [qbar 501 499 500 5, qbar 501 499 500 5, qbar 101 99 100 5, qbar 101 99 100 5, qbar 101 99 100 5, qbar 101 99 100 5,
   qbar 101 99 100 5, qbar 101 99 100 5, qbar 101 99 100 5, qbar 101 99 100 5, qbar 101 99 100 5, qbar 101 99 100 5,
   qbar 111 109 110 5, qbar 111 109 110 5]

/-- C101: without its arguments each of the fourteen columns comes out different (the SMA class has no default window and
raises): the arguments are not the defaults, and the difference shows. -/
theorem args_needed : ∀ q ∈ columnCalls (F := Val ℚ), q.1 ∈ ownColumns →
    callWith fallAndRest true q.2.1 [] ≠ callWith fallAndRest true q.2.1 q.2.2 := by decide +kernel

/-- the ATR of the wrapper starts four rows before the one of the class -/
example : (callWith fallAndRest false .average_true_range [(.window, .int 10)]).toOption.map (·.getD 9 .nan) =
      some (.fin (419/10)) ∧
    (callWith fallAndRest false .average_true_range []).toOption.map (·.getD 9 .nan) = some (.fin 0) := by decide +kernel

/-- the hypotheses of `wrapper_calls`, and a column that is the class with its defaults -/
example : (Fn.call ohlcF "" "High" "Low" "Close" "Volume" true "" true .volume).2 = none ∧
    lift ((Fn.call ohlcF "" "High" "Low" "Close" "Volume" true "" true .volume).1.get "volume_fi") =
      callWith ohlc true .force_index [] ∧
    callWith ohlc true .force_index [] ≠ callWith ohlc true .force_index [(.window, .int 12)] := by decide +kernel

end examples
end TA
