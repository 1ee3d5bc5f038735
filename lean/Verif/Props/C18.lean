import Verif.Lemmas.RelReal
import Verif.Lemmas.Toy

/-! # C18, C59, C60 — changing the unit or the origin of the prices

`Bar.aff k c` multiplies the three prices of a row by `k` and adds `c`; the volume stays. -/

set_option linter.unusedSectionVars false

namespace TA

section
variable {K : Type} [Field K] [LinearOrder K] [IsStrictOrderedRing K]

/-- a price in another unit and from another origin -/
def price (k c : K) (v : Val K) : Val K := .fin k *. v +. .fin c

/-- a row with all prices changed -/
def Bar.aff (k c : K) (r : Bar (Val K)) : Bar (Val K) :=
  ⟨price k c r.high, price k c r.low, price k c r.close, r.volume⟩

/-- a row with all prices multiplied -/
def Bar.scale (k : K) (r : Bar (Val K)) : Bar (Val K) := ⟨.fin k *. r.high, .fin k *. r.low, .fin k *. r.close, r.volume⟩

theorem VA.scale (k : K) (hk : 0 < k) (v : Val K) : VA k 0 v (.fin k *. v) := by
  have h := VA.map k 0 hk v
  have e : (.fin k *. v +. .fin 0 : Val K) = .fin k *. v := by
    generalize (.fin k *. v : Val K) = x
    cases x
    · rfl
    · rfl
    · rfl
    · show Val.fin (_ + 0) = _; rw [add_zero]
  rwa [e] at h

theorem VA.det {k c : K} {a b b' : Val K} (h : VA k c a b) (h' : VA k c a b') : b = b' := by
  cases h with
  | fin h => cases h' with | fin h' => rw [h, h']
  | _ => cases h'; rfl

theorem SA.map_of {k c : K} (f : Val K → Val K) (hf : ∀ v, VA k c v (f v)) (s : Series (Val K)) : SA k c s (s.map f) := by
  refine ⟨by simp, fun i hi => ?_⟩
  rw [ix_map hi]
  exact hf _

theorem SA.det {k c : K} {s t t' : Series (Val K)} (h : SA k c s t) (h' : SA k c s t') : t = t' := by
  refine series_ext (by rw [← h.len, ← h'.len]) fun i hi => VA.det (h.row i ?_) (h'.row i ?_) <;> rw [h.len] <;> exact hi

theorem ERel.toMap {k c : K} {f : Val K → Val K} (hf : ∀ v, VA k c v (f v)) {x y : Except PyErr (Series (Val K))}
    (h : ERel (SA k c) x y) : y = x.map (List.map f) := by
  cases h with
  | error e => rfl
  | ok h => exact congrArg Except.ok (SA.det h (SA.map_of f hf _))

/-- C18: the RSI of `k * close + c` (`k > 0`) is the RSI of `close`, row by row, whatever is in the series. -/
theorem rsi_affine (k c : K) (hk : 0 < k) (s : Series (Val K)) (w : Nat) (fillna : Bool) :
    rsi (s.map (price k c)) w fillna = rsi s w fillna := by
  have h := rel_rsi hk (SA.map_of (price k c) (VA.map k c hk) s) w fillna
  rw [ERel.toMap (f := id) VA.refl h]
  cases rsi s w fillna with
  | error e => rfl
  | ok s => simp [Except.map]

end

/-- the power of the price unit an output is measured in -/
def Ind.degree {F : Type} : Ind F → Nat
  | .kama .. | .ao .. | .macd .. | .macdSignal .. | .macdDiff .. | .ema .. | .sma .. | .wma ..
  | .ichimokuConv .. | .ichimokuBase .. | .ichimokuA .. | .ichimokuB .. | .dpo ..
  | .psar .. | .psarUp .. | .psarDown .. | .atr ..
  | .bbMavg .. | .bbHband .. | .bbLband .. | .kcMband .. | .kcHband .. | .kcLband ..
  | .dcHband .. | .dcLband .. | .dcMband .. | .fi .. | .vwap .. => 1
  | .eom | .smaEom .. => 2
  | _ => 0

/-- what adding a constant to all prices does to an output -/
inductive ShiftKind
  | fixed
  | moves
  | other
  deriving DecidableEq

/-- `other`: the outputs that divide by a price level (or, for the PSAR up flag and WMA's zero fill, compare a price
with zero; VWAP's windows with `fillna=True` may miss a price but not its volume). -/
def Ind.shiftKind {F : Type} (fillna : Bool) : Ind F → ShiftKind
  | .kama .. | .ema .. | .sma .. | .ichimokuConv .. | .ichimokuBase .. | .ichimokuA .. | .ichimokuB ..
  | .psar .. | .psarUp .. | .psarDown ..
  | .bbMavg .. | .bbHband .. | .bbLband .. | .kcMband .. | .kcHband .. | .kcLband ..
  | .dcHband .. | .dcLband .. | .dcMband .. => .moves
  | .wma w => if fillna = false ∧ 1 ≤ w then .moves else .other
  | .vwap .. => if fillna = false then .moves else .other
  | .roc .. | .ppo .. | .ppoSignal .. | .ppoHist .. | .trix .. | .kst .. | .kstSig .. | .kstDiff ..
  | .bbWband .. | .kcWband .. | .dcWband .. | .ulcer .. | .vpt .. | .nvi | .mfi .. | .dr | .dlr | .cr
  | .psarUpInd .. => .other
  | _ => .fixed

section
variable {k c : ℝ}

theorem ERel.deg0 {x y : Except PyErr (Series (Val ℝ))} (h : ERel (SA 1 0) x y) : ERel (SA (k ^ 0) 0) x y := by
  rwa [pow_zero]
theorem ERel.deg1 {x y : Except PyErr (Series (Val ℝ))} (h : ERel (SA k 0) x y) : ERel (SA (k ^ 1) 0) x y := by
  rwa [pow_one]
theorem ERel.deg2 {x y : Except PyErr (Series (Val ℝ))} (h : ERel (SA (k * k) 0) x y) : ERel (SA (k ^ 2) 0) x y := by
  rwa [pow_two]
theorem ERel.ofEq {x y : Except PyErr (Series (Val ℝ))} (h : y = x) : ERel (SA 1 0) x y := by
  subst h
  cases y with
  | error e => exact .error e
  | ok s => exact .ok (SRel.refl s)
theorem ERel.ofEqS {x y : Series (Val ℝ)} (h : y = x) : ERel (SA 1 0) (.ok x) (.ok y) := by
  subst h; exact .ok (SRel.refl _)
theorem ERel.mapEq {α : Type} {x y : Except PyErr α} {f : α → Series (Val ℝ)} (h : ERel (fun a b => b = a) x y) :
    ERel (SA 1 0) (x.map f) (y.map f) := h.map fun a b e => by subst e; exact SRel.refl _

theorem psar_excl (h l s : Series (Val ℝ)) (sp mx : Val ℝ) (b : Bool) (o : PSAR (Val ℝ))
    (ho : PSAR.new h l s .positional sp mx b = .ok o) (i : Nat) :
    (ix o.down i).isNaN = true ∨ (ix o.up i).isNaN = true := by
  by_cases hn : 0 < s.length
  · rw [PSAR.new_eq _ _ _ _ _ _ hn] at ho
    have e := Except.ok.inj ho
    rw [← e]
    by_cases hi : i < s.length
    · simp only [ix_tab_lt hi]
      cases hu : (PSAR.cores h l s sp mx (i - 1)).upTrend
      · right; simp; rfl
      · left; simp; rfl
    · left
      rw [ix_ge (by simpa using hi)]
      rfl
  · unfold PSAR.new at ho
    rw [if_pos (by omega)] at ho
    cases ho

variable (hk : 0 < k) {h h' l l' s s' : Series (Val ℝ)} (hh : SA k c h h') (hl : SA k c l l') (hs : SA k c s s')
include hk hh hl hs

theorem rel_psarDownInd (sp mx : Val ℝ) (b : Bool) :
    ERel (SA 1 0) ((PSAR.new h l s .positional sp mx b).map (·.psarDownIndicator))
      ((PSAR.new h' l' s' .positional sp mx b).map (·.psarDownIndicator)) := by
  have hr := rel_psar hk hh hl hs sp mx b
  have hx := psar_excl h l s sp mx b
  generalize PSAR.new h l s .positional sp mx b = x at *
  generalize PSAR.new h' l' s' .positional sp mx b = y at *
  cases hr with
  | error e => exact .error e
  | ok hr =>
    rename_i o o'
    refine .ok ?_
    show SA 1 0 (PSAR.flag o.up o.down) (PSAR.flag o'.up o'.down)
    rw [rel_flag_excl hr.2.2.1 hr.2.2.2 (hx o rfl)]
    exact SRel.refl _

end

section
variable {k c : ℝ} (hk : 0 < k) (b : List (Bar (Val ℝ)))
include hk

theorem col_high : SA k c (highs b) (highs (b.map (Bar.aff k c))) := by
  have := SA.map_of (price k c) (VA.map k c hk) (highs b)
  simpa [highs, Bar.aff, Function.comp_def] using this
theorem col_low : SA k c (lows b) (lows (b.map (Bar.aff k c))) := by
  have := SA.map_of (price k c) (VA.map k c hk) (lows b)
  simpa [lows, Bar.aff, Function.comp_def] using this
theorem col_close : SA k c (closes b) (closes (b.map (Bar.aff k c))) := by
  have := SA.map_of (price k c) (VA.map k c hk) (closes b)
  simpa [closes, Bar.aff, Function.comp_def] using this
omit hk in
theorem col_volume : volumes (b.map (Bar.aff k c)) = volumes b := by simp [volumes, Bar.aff, Function.comp_def]
end

section
variable {k c : ℝ} (hk : 0 < k) (b : List (Bar (Val ℝ))) (fillna : Bool)
include hk

theorem aff_fixed (ind : Ind (Val ℝ)) (hi : ind.shiftKind fillna = .fixed) :
    ERel (SA (k ^ ind.degree) 0) (ind.eval fillna b) (ind.eval fillna (b.map (Bar.aff k c))) := by
  have hh : SA k c _ _ := col_high hk b
  have hl : SA k c _ _ := col_low hk b
  have hs : SA k c _ _ := col_close hk b
  have hv : volumes (b.map (Bar.aff k c)) = volumes b := col_volume b
  cases ind
  case rsi w => exact .deg0 (rel_rsi hk hs w fillna)
  case tsi a1 a2 => exact .deg0 (rel_tsi hk hs a1 a2 fillna)
  case uo w1 w2 w3 a1 a2 a3 => exact .deg0 (.ofEqS (rel_uo hk hh hl hs w1 w2 w3 a1 a2 a3 fillna))
  case stoch w => exact .deg0 (.ok (SRel.fill1 (rel_stochK hk hh hl hs w fillna) _ _))
  case stochSignal w sm =>
    exact .deg0 (.ok (SRel.fill1 (SRel.rollMean _ _ (rel_stochK hk hh hl hs w fillna)) _ _))
  case ao w1 w2 => exact .deg1 (.ok (rel_ao hk hh hl w1 w2 fillna))
  case williamsR w => exact .deg0 (.ok (rel_wr hk hh hl hs w fillna))
  case stochrsi w s1 s2 => exact .deg0 (.mapEq (rel_stochRSI hk hs w s1 s2 fillna))
  case stochrsiK w s1 s2 => exact .deg0 (.mapEq (rel_stochRSI hk hs w s1 s2 fillna))
  case stochrsiD w s1 s2 => exact .deg0 (.mapEq (rel_stochRSI hk hs w s1 s2 fillna))
  case pvo a1 a2 a3 => exact .deg0 (.ofEq (by show _ = Ind.eval _ _ _; simp only [Ind.eval, hv]))
  case pvoSignal a1 a2 a3 => exact .deg0 (.ofEq (by show _ = Ind.eval _ _ _; simp only [Ind.eval, hv]))
  case pvoHist a1 a2 a3 => exact .deg0 (.ofEq (by show _ = Ind.eval _ _ _; simp only [Ind.eval, hv]))
  case aroonUp w => exact .deg0 (.mapEq (rel_aroon hk hh hl w fillna))
  case aroonDown w => exact .deg0 (.mapEq (rel_aroon hk hh hl w fillna))
  case aroonInd w => exact .deg0 (.mapEq (rel_aroon hk hh hl w fillna))
  case macd a1 a2 a3 => exact .deg1 ((rel_macd hk hs a1 a2 a3 fillna).map fun _ _ h => h.1)
  case macdSignal a1 a2 a3 => exact .deg1 ((rel_macd hk hs a1 a2 a3 fillna).map fun _ _ h => h.2.1)
  case macdDiff a1 a2 a3 => exact .deg1 ((rel_macd hk hs a1 a2 a3 fillna).map fun _ _ h => h.2.2)
  case massIndex a1 a2 => exact .deg0 (rel_mass hk hh hl a1 a2 fillna)
  case dpo w => exact .deg1 (.ok (rel_dpo hk hs w fillna))
  case cci w d => exact .deg0 (.ok (rel_cci hk hh hl hs w d fillna))
  case adx w =>
    refine .deg0 ((rel_adx hk hh hl hs w fillna).bind fun o o' h => ?_)
    exact .ofEq h.1
  case adxPos w => exact .deg0 ((rel_adx hk hh hl hs w fillna).map fun o o' h => by rw [h.2.1]; exact SRel.refl _)
  case adxNeg w => exact .deg0 ((rel_adx hk hh hl hs w fillna).map fun o o' h => by rw [h.2.2]; exact SRel.refl _)
  case vortexPos w => exact .deg0 (.ok (SRel.fill1 (rel_vip hk hh hl hs w fillna) _ _))
  case vortexNeg w => exact .deg0 (.ok (SRel.fill1 (rel_vin hk hh hl hs w fillna) _ _))
  case vortexDiff w =>
    exact .deg0 (.ok (SRel.fill1 ((rel_vip hk hh hl hs w fillna).ssub0 (rel_vin hk hh hl hs w fillna)) _ _))
  case psarDownInd a1 a2 => exact .deg0 (rel_psarDownInd hk hh hl hs a1 a2 fillna)
  case stc a1 a2 a3 a4 a5 => exact .deg0 (rel_stc hk hs a1 a2 a3 a4 a5 fillna)
  case atr w => exact .deg1 (rel_atr hk hh hl hs w fillna)
  case bbPband w d => exact .deg0 (.ok (rel_bb hk hs w d fillna).2.2.2.1)
  case bbHi w d => exact .deg0 (.ok (rel_bb hk hs w d fillna).2.2.2.2.1)
  case bbLi w d => exact .deg0 (.ok (rel_bb hk hs w d fillna).2.2.2.2.2.1)
  case kcPband w wa o d => exact .deg0 ((rel_kc hk hh hl hs w wa o d fillna).map fun _ _ h => h.2.2.2.1)
  case kcHi w wa o d => exact .deg0 ((rel_kc hk hh hl hs w wa o d fillna).map fun _ _ h => h.2.2.2.2.1)
  case kcLi w wa o d => exact .deg0 ((rel_kc hk hh hl hs w wa o d fillna).map fun _ _ h => h.2.2.2.2.2.1)
  case dcPband w off => exact .deg0 ((rel_donchian hk hh hl hs w off fillna).map fun _ _ h => h.2.2.2.1)
  case adi => exact .deg0 (.ofEqS (by rw [hv]; exact rel_adi hk hh hl hs _ fillna))
  case obv => exact .deg0 (.ofEqS (by rw [hv]; exact rel_obv hk hs _ fillna))
  case cmf w => exact .deg0 (.ofEqS (by rw [hv]; exact rel_cmf hk hh hl hs _ w fillna))
  case fi w => refine .deg1 ?_; show ERel _ _ (forceIndex _ (volumes _) _ _); rw [hv]; exact rel_fi hk hs _ w fillna
  case eom =>
    refine .deg2 ?_
    show ERel _ _ (.ok (easeOfMovement _ _ (volumes _) _))
    rw [hv]
    exact .ok (SRel.fill0 (rel_eom hk hh hl _) fillna)
  case smaEom w =>
    refine .deg2 ?_
    show ERel _ _ (.ok (smaEaseOfMovement _ _ (volumes _) _ _))
    rw [hv]
    exact .ok (SRel.fill0 (SRel.rollMean _ _ (rel_eom hk hh hl _)) fillna)
  case wma w => simp only [Ind.shiftKind] at hi; split_ifs at hi <;> cases hi
  case vwap w => simp only [Ind.shiftKind] at hi; split_ifs at hi <;> cases hi
  all_goals cases hi

theorem aff_moves (ind : Ind (Val ℝ)) (hi : ind.shiftKind fillna = .moves) :
    ERel (SA k c) (ind.eval fillna b) (ind.eval fillna (b.map (Bar.aff k c))) := by
  have hh : SA k c _ _ := col_high hk b
  have hl : SA k c _ _ := col_low hk b
  have hs : SA k c _ _ := col_close hk b
  cases ind
  case kama a1 a2 a3 => exact .ok (rel_kama hk hs a1 a2 a3 fillna)
  case ema w => exact rel_emaIndicator hk hs w fillna
  case sma w => exact .ok (rel_sma hk hs w fillna)
  case wma w =>
    simp only [Ind.shiftKind] at hi
    split_ifs at hi with h1
    obtain ⟨h1, h2⟩ := h1
    subst h1
    exact .ok (rel_wma hs w h2)
  case vwap w =>
    simp only [Ind.shiftKind] at hi
    split_ifs at hi with h1
    subst h1
    show ERel _ _ (.ok (volumeWeightedAveragePrice _ _ _ (volumes _) _ _))
    rw [col_volume b]
    exact .ok (rel_vwap_shift hk hh hl hs _ w)
  case ichimokuConv w => exact .ok (rel_ichimokuConv hk hh hl w fillna)
  case ichimokuBase w => exact .ok (rel_ichimokuBase hk hh hl w fillna)
  case ichimokuA w1 w2 vis => exact .ok (rel_ichimokuA hk hh hl w1 w2 vis fillna)
  case ichimokuB w2 w3 vis => exact .ok (rel_ichimokuB hk hh hl w2 w3 vis fillna)
  case psar a1 a2 =>
    refine (rel_psar hk hh hl hs a1 a2 fillna).map fun o o' h => ?_
    show SA k c (checkFillna o.fillna .back o.psarS) (checkFillna o'.fillna .back o'.psarS)
    rw [h.1]; exact h.2.1.fillBack _
  case psarUp a1 a2 =>
    refine (rel_psar hk hh hl hs a1 a2 fillna).map fun o o' h => ?_
    show SA k c (checkFillna o.fillna .back o.up) (checkFillna o'.fillna .back o'.up)
    rw [h.1]; exact h.2.2.1.fillBack _
  case psarDown a1 a2 =>
    refine (rel_psar hk hh hl hs a1 a2 fillna).map fun o o' h => ?_
    show SA k c (checkFillna o.fillna .back o.down) (checkFillna o'.fillna .back o'.down)
    rw [h.1]; exact h.2.2.2.fillBack _
  case bbMavg w d => exact .ok (rel_bb hk hs w d fillna).1
  case bbHband w d => exact .ok (rel_bb hk hs w d fillna).2.1
  case bbLband w d => exact .ok (rel_bb hk hs w d fillna).2.2.1
  case kcMband w wa o d => exact (rel_kc hk hh hl hs w wa o d fillna).map fun _ _ h => h.1
  case kcHband w wa o d => exact (rel_kc hk hh hl hs w wa o d fillna).map fun _ _ h => h.2.1
  case kcLband w wa o d => exact (rel_kc hk hh hl hs w wa o d fillna).map fun _ _ h => h.2.2.1
  case dcHband w off => exact (rel_donchian hk hh hl hs w off fillna).map fun _ _ h => h.1
  case dcLband w off => exact (rel_donchian hk hh hl hs w off fillna).map fun _ _ h => h.2.1
  case dcMband w off => exact (rel_donchian hk hh hl hs w off fillna).map fun _ _ h => h.2.2.1
  all_goals cases hi

theorem aff_other (ind : Ind (Val ℝ)) (hi : ind.shiftKind fillna = .other) :
    ERel (SA (k ^ ind.degree) 0) (ind.eval fillna b) (ind.eval fillna (b.map (Bar.aff k 0))) := by
  have hh : SA k 0 _ _ := col_high hk b
  have hl : SA k 0 _ _ := col_low hk b
  have hs : SA k 0 _ _ := col_close hk b
  have hv : volumes (b.map (Bar.aff k 0)) = volumes b := col_volume b
  cases ind
  case wma w => exact .deg1 (.ok (rel_wma0 hk hs w fillna))
  case roc w => exact .deg0 (.ok (rel_roc hk hs w fillna))
  case ppo a1 a2 a3 => exact .deg0 (.mapEq (rel_ppo hk hs a1 a2 a3 fillna))
  case ppoSignal a1 a2 a3 => exact .deg0 (.mapEq (rel_ppo hk hs a1 a2 a3 fillna))
  case ppoHist a1 a2 a3 => exact .deg0 (.mapEq (rel_ppo hk hs a1 a2 a3 fillna))
  case trix w => exact .deg0 (rel_trix hk hs w fillna)
  case kst p =>
    refine .deg0 (.ofEqS ?_)
    unfold TA.kst; rw [rel_kst_run hk hs]
  case kstSig p n =>
    refine .deg0 (.ofEqS ?_)
    unfold TA.kstSig; rw [rel_kst_run hk hs]
  case kstDiff p n =>
    refine .deg0 (.ofEqS ?_)
    unfold TA.kstDiff; rw [rel_kst_run hk hs]
  case bbWband w d => exact .deg0 (.ok ((rel_bb hk hs w d fillna).2.2.2.2.2.2 rfl))
  case kcWband w wa o d => exact .deg0 ((rel_kc hk hh hl hs w wa o d fillna).map fun _ _ h => h.2.2.2.2.2.2 rfl)
  case dcWband w off => exact .deg0 ((rel_donchian hk hh hl hs w off fillna).map fun _ _ h => h.2.2.2.2 rfl)
  case ulcer w => exact .deg0 (.ofEq (rel_ulcer hk hs w fillna))
  case vpt sm => exact .deg0 (.ofEqS (by rw [hv]; exact rel_vpt hk hs sm _ _ fillna))
  case nvi => exact .deg0 (.ofEq (by show negativeVolumeIndex _ (volumes _) _ = _; rw [hv]; exact rel_nvi hk hs _ fillna))
  case mfi w => exact .deg0 (.ofEqS (by rw [hv]; exact rel_mfi hk hh hl hs _ w fillna))
  case vwap w =>
    refine .deg1 ?_
    show ERel _ _ (.ok (volumeWeightedAveragePrice _ _ _ (volumes _) _ _))
    rw [hv]
    exact .ok (rel_vwap hk hh hl hs _ w fillna)
  case dr => exact .deg0 (.ok (rel_dr hk hs fillna))
  case dlr => exact .deg0 (.ofEqS (rel_dlr hk hs fillna))
  case cr => exact .deg0 (.ofEq (rel_cr hk hs fillna))
  case psarUpInd a1 a2 =>
    refine .deg0 ((rel_psar hk hh hl hs a1 a2 fillna).map fun o o' h => ?_)
    show SA 1 0 (PSAR.flag o.up o.up) (PSAR.flag o'.up o'.up)
    rw [rel_flag hk h.2.2.1 h.2.2.1]
    exact SRel.refl _
  all_goals cases hi

end

theorem degree_of_moves {F : Type} (fillna : Bool) (ind : Ind F) (hi : ind.shiftKind fillna = .moves) : ind.degree = 1 := by
  cases ind
  case wma w => rfl
  case vwap w => rfl
  all_goals first | rfl | cases hi

theorem Bar.aff_zero (k : ℝ) (hk : 0 < k) (b : List (Bar (Val ℝ))) : b.map (Bar.aff k 0) = b.map (Bar.scale k) := by
  have e : ∀ v : Val ℝ, price k 0 v = .fin k *. v := fun v => VA.det (VA.map k 0 hk v) (VA.scale k hk v)
  refine List.map_congr_left fun r _ => ?_
  simp only [Bar.aff, Bar.scale, e]

/-- C60: multiplying all prices by `k > 0` multiplies every output by `k ^ degree` (degree 0: unchanged), raising the
same exception if it raised one; for all 84 outputs, all parameters, with and without `fillna`, and any data (NaN and
infinities included). -/
theorem scale_law (k : ℝ) (hk : 0 < k) (ind : Ind (Val ℝ)) (fillna : Bool) (b : List (Bar (Val ℝ))) :
    ind.eval fillna (b.map (Bar.scale k)) =
      (ind.eval fillna b).map (List.map fun v => .fin (k ^ ind.degree) *. v) := by
  rw [← Bar.aff_zero k hk]
  refine ERel.toMap (VA.scale _ (pow_pos hk _)) ?_
  cases hi : ind.shiftKind fillna with
  | fixed => exact aff_fixed hk b fillna ind hi
  | moves =>
    rw [degree_of_moves fillna ind hi, pow_one]
    exact aff_moves hk b fillna ind hi
  | other => exact aff_other hk b fillna ind hi

/-- C59: adding `c` to all prices leaves the outputs of kind `fixed` unchanged. -/
theorem shift_fixed (c : ℝ) (ind : Ind (Val ℝ)) (fillna : Bool) (hi : ind.shiftKind fillna = .fixed)
    (b : List (Bar (Val ℝ))) : ind.eval fillna (b.map (Bar.aff 1 c)) = ind.eval fillna b := by
  have h := aff_fixed (c := c) one_pos b fillna ind hi
  rw [one_pow] at h
  rw [ERel.toMap (f := id) VA.refl h]
  cases ind.eval fillna b with
  | error e => rfl
  | ok s => simp [Except.map]

/-- C59: and moves the outputs of kind `moves` by `c`. -/
theorem shift_moves (c : ℝ) (ind : Ind (Val ℝ)) (fillna : Bool) (hi : ind.shiftKind fillna = .moves)
    (b : List (Bar (Val ℝ))) :
    ind.eval fillna (b.map (Bar.aff 1 c)) = (ind.eval fillna b).map (List.map fun v => v +. .fin c) := by
  refine ERel.toMap (fun v => ?_) (aff_moves (c := c) one_pos b fillna ind hi)
  cases v with
  | nan => exact .nan
  | pinf => exact .pinf
  | ninf => exact .ninf
  | fin x => exact .fin (by simp [Aff])

/-- C59 and C60 together: a change of unit and of origin at once. -/
theorem affine_law (k c : ℝ) (hk : 0 < k) (ind : Ind (Val ℝ)) (fillna : Bool) (hi : ind.shiftKind fillna ≠ .other)
    (b : List (Bar (Val ℝ))) :
    ind.eval fillna (b.map (Bar.aff k c)) = (ind.eval fillna b).map
      (List.map fun v => .fin (k ^ ind.degree) *. v +. .fin (if ind.shiftKind fillna = .moves then c else 0)) := by
  refine ERel.toMap (fun v => VA.map _ _ (pow_pos hk _) v) ?_
  cases h : ind.shiftKind fillna with
  | fixed => rw [if_neg (by decide)]; exact aff_fixed hk b fillna ind h
  | moves => rw [if_pos rfl, degree_of_moves fillna ind h, pow_one]; exact aff_moves hk b fillna ind h
  | other => exact absurd h hi

/-! ## witnesses and examples -/

section examples
attribute [local instance] toyFn

/-- adding `c` neither leaves the output alone nor moves it by `c` -/
def shiftBreaks (c : ℚ) (ind : Ind (Val ℚ)) (fillna : Bool) (b : List (Bar (Val ℚ))) : Bool :=
  ind.eval fillna (b.map (Bar.aff 1 c)) != ind.eval fillna b &&
  ind.eval fillna (b.map (Bar.aff 1 c)) != (ind.eval fillna b).map (List.map fun v => v +. .fin c)

/-- five ordinary rows -/
def fiveBars : List (Bar (Val ℚ)) := [qbar 3 1 2 10, qbar 5 2 4 20, qbar 6 4 5 15, qbar 6 3 4 12, qbar 9 4 8 30]

/-- C59: outputs of kind `other` do depend on the origin of the prices (no square root or logarithm is evaluated). -/
theorem shift_other_witness :
    shiftBreaks 1 (.roc 1) false fiveBars ∧ shiftBreaks 1 (.ppo 2 1 1) false fiveBars ∧
    shiftBreaks 1 (.ppoSignal 2 1 1) false fiveBars ∧ shiftBreaks 1 (.ppoHist 2 1 2) false fiveBars ∧
    shiftBreaks 1 (.trix 1) false fiveBars ∧ shiftBreaks 1 (.kst ⟨1,1,1,1,1,1,1,1⟩) false fiveBars ∧
    shiftBreaks 1 (.kstSig ⟨1,1,1,1,1,1,1,1⟩ 2) false fiveBars ∧
    shiftBreaks 1 (.kstDiff ⟨1,1,1,1,1,1,1,1⟩ 2) false fiveBars ∧
    shiftBreaks 1 (.kcWband 2 2 true (.fin 2)) false fiveBars ∧ shiftBreaks 1 (.dcWband 2 0) false fiveBars ∧
    shiftBreaks 1 (.vpt none) false fiveBars ∧ shiftBreaks 1 .nvi false fiveBars ∧
    shiftBreaks 1 (.mfi 4) false fiveBars ∧ shiftBreaks 1 .dr false fiveBars ∧ shiftBreaks 1 .cr false fiveBars ∧
    shiftBreaks 1 (.wma 2) true fiveBars ∧
    shiftBreaks (-1) (.psarUpInd (.fin (1/50)) (.fin (1/5))) false fiveBars ∧
    shiftBreaks 1 (.vwap 2) true [⟨.fin 1, .fin 1, .fin 1, .fin 0⟩, ⟨.fin 1, .fin 1, .fin 1, .fin 0⟩,
      ⟨.nan, .nan, .nan, .fin 1⟩, ⟨.fin 1, .fin 1, .fin 1, .fin 1⟩] := by
  refine ⟨?_, ?_, ?_, ?_, ?_, ?_, ?_, ?_, ?_, ?_, ?_, ?_, ?_, ?_, ?_, ?_, ?_, ?_⟩ <;> decide +kernel

/-- C18, C59, C60 on numbers: `2 * price + 3` and `price + 1` -/
example : rsi (qs [7, 11, 13, 11, 19]) 2 false = rsi (qs [2, 4, 5, 4, 8]) 2 false := by decide +kernel
example : rsi (qs [2, 4, 5, 4, 8]) 2 false = .ok [.nan, .fin 100, .fin 100, .fin 50, .fin 90] := by
  decide +kernel
example : (Ind.atr 2).eval false (fiveBars.map (Bar.scale 3)) =
    ((Ind.atr 2).eval false fiveBars).map (List.map fun v => .fin 3 *. v) := by decide +kernel
example : (Ind.atr 2).eval false fiveBars = .ok [.fin 0, .fin (5/2), .fin (9/4), .fin (21/8), .fin (61/16)] := by
  decide +kernel

end examples

end TA
