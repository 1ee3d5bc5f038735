import Verif.Props.C09
import Verif.Lemmas.Win
import Verif.Lemmas.ValFin

/-! # C12 — rows defined with `fillna=False` keep their value with `fillna=True` -/

set_option linter.unusedSectionVars false
set_option linter.unusedSimpArgs false

namespace TA

section rel
variable {F : Type} [Flt F] [NaNLaws F]

/-- `t` extends `s`: wherever `s` is not NaN the two agree. -/
def Ext (s t : Series F) : Prop := s.length = t.length ∧ ∀ i, i < s.length → ix s i = nan ∨ ix s i = ix t i

theorem Ext.refl (s : Series F) : Ext s s := ⟨rfl, fun _ _ => .inr rfl⟩

theorem Ext.zip2 {φ : F → F → F} {a b a' b' : Series F} (ha : Ext a a') (hb : Ext b b') (hl : a.length = b.length)
    (h1 : ∀ v, φ nan v = nan) (h2 : ∀ v, φ v nan = nan) : Ext (TA.zip2 φ a b) (TA.zip2 φ a' b') := by
  refine ⟨by simp [ha.1], fun i hi => ?_⟩
  simp only [length_zip2] at hi
  rw [ix_zip2 hi, ix_zip2 (by rw [← ha.1]; exact hi)]
  rcases ha.2 i hi with h | h
  · left; rw [h, h1]
  · rcases hb.2 i (by omega) with h' | h'
    · left; rw [h', h2]
    · right; rw [h, h']

theorem Ext.map {φ : F → F} {a a' : Series F} (ha : Ext a a') (h1 : φ nan = nan) : Ext (a.map φ) (a'.map φ) := by
  refine ⟨by simp [ha.1], fun i hi => ?_⟩
  simp only [List.length_map] at hi
  rw [ix_map hi, ix_map (by rw [← ha.1]; exact hi)]
  rcases ha.2 i hi with h | h
  · left; rw [h, h1]
  · right; rw [h]

theorem Ext.sadd {a b a' b' : Series F} (ha : Ext a a') (hb : Ext b b') (hl : a.length = b.length) :
    Ext (TA.sadd a b) (TA.sadd a' b') := ha.zip2 hb hl NaNLaws.nan_add NaNLaws.add_nan
theorem Ext.ssub {a b a' b' : Series F} (ha : Ext a a') (hb : Ext b b') (hl : a.length = b.length) :
    Ext (TA.ssub a b) (TA.ssub a' b') := ha.zip2 hb hl NaNLaws.nan_sub NaNLaws.sub_nan
theorem Ext.smul {a b a' b' : Series F} (ha : Ext a a') (hb : Ext b b') (hl : a.length = b.length) :
    Ext (TA.smul a b) (TA.smul a' b') := ha.zip2 hb hl NaNLaws.nan_mul NaNLaws.mul_nan
theorem Ext.sdiv {a b a' b' : Series F} (ha : Ext a a') (hb : Ext b b') (hl : a.length = b.length) :
    Ext (TA.sdiv a b) (TA.sdiv a' b') := ha.zip2 hb hl NaNLaws.nan_div NaNLaws.div_nan
theorem Ext.cmul {a a' : Series F} (ha : Ext a a') (c : F) : Ext (TA.cmul c a) (TA.cmul c a') :=
  ha.map (NaNLaws.mul_nan _)
theorem Ext.csub {a a' : Series F} (ha : Ext a a') (c : F) : Ext (TA.csub c a) (TA.csub c a') :=
  ha.map (NaNLaws.sub_nan _)
theorem Ext.cadd {a a' : Series F} (ha : Ext a a') (c : F) : Ext (TA.cadd c a) (TA.cadd c a') :=
  ha.map (NaNLaws.add_nan _)
theorem Ext.cdiv {a a' : Series F} (ha : Ext a a') (c : F) : Ext (TA.cdiv c a) (TA.cdiv c a') :=
  ha.map (NaNLaws.div_nan _)
theorem Ext.mulc {a a' : Series F} (ha : Ext a a') (c : F) : Ext (TA.mulc a c) (TA.mulc a' c) :=
  ha.map (NaNLaws.nan_mul _)
theorem Ext.divc {a a' : Series F} (ha : Ext a a') (c : F) : Ext (TA.divc a c) (TA.divc a' c) :=
  ha.map (NaNLaws.nan_div _)
theorem Ext.sabs {a a' : Series F} (ha : Ext a a') : Ext (TA.sabs a) (TA.sabs a') := ha.map NaNLaws.nan_abs

/-- a window function that yields NaN below `min_periods` and does not depend on it otherwise -/
def MinP (agg : Nat → List F → F) : Prop :=
  ∀ m m' win, m' ≤ m → ((valid win).length < m → agg m win = nan) ∧
    (m ≤ (valid win).length → agg m win = agg m' win)

theorem minP_sum : MinP (F := F) aggSum := by
  intro m m' win h
  unfold aggSum
  constructor
  · intro h1; rw [if_neg (by omega), if_neg (by omega)]
  · intro h1
    split_ifs <;> first | rfl | omega

theorem minP_mean : MinP (F := F) aggMean := by
  intro m m' win h
  unfold aggMean
  constructor
  · intro h1; rw [if_neg (by omega)]
  · intro h1
    by_cases h0 : 0 < (valid win).length
    · rw [if_pos ⟨h1, h0⟩, if_pos ⟨by omega, h0⟩]
    · rw [if_neg (by omega), if_neg (by omega)]

theorem minP_max : MinP (F := F) aggMax := by
  intro m m' win h
  unfold aggMax
  exact ⟨fun h1 => by rw [if_neg (by omega)], fun h1 => by rw [if_pos h1, if_pos (by omega)]⟩

theorem minP_min : MinP (F := F) aggMin := by
  intro m m' win h
  unfold aggMin
  exact ⟨fun h1 => by rw [if_neg (by omega)], fun h1 => by rw [if_pos h1, if_pos (by omega)]⟩

theorem minP_apply (g : List F → F) : MinP (F := F) (aggApply g) := by
  intro m m' win h
  unfold aggApply
  exact ⟨fun h1 => by rw [if_neg (by omega)], fun h1 => by rw [if_pos h1, if_pos (by omega)]⟩

theorem minP_std {F : Type} [FltFn F] : MinP (F := F) aggStd := by
  intro m m' win h
  unfold aggStd
  constructor
  · intro h1; dsimp only; rw [if_neg (by omega)]
  · intro h1
    dsimp only
    by_cases h0 : 0 < (valid win).length
    · rw [if_pos ⟨h1, h0⟩, if_pos ⟨by omega, h0⟩]
    · rw [if_neg (by omega), if_neg (by omega)]

/-- lowering `min_periods` only adds rows -/
theorem ext_roll {agg : Nat → List F → F} (hagg : MinP agg) (s : Series F) (w : Nat) {m m' : Nat} (h : m' ≤ m) :
    Ext (roll w (agg m) s) (roll w (agg m') s) := by
  refine ⟨by simp, fun i hi => ?_⟩
  simp only [length_roll] at hi
  rw [ix_roll' hi, ix_roll' hi]
  obtain ⟨h1, h2⟩ := hagg m m' ((winIx w i).map fun j => clean (ix s j)) h
  by_cases hv : m ≤ (valid ((winIx w i).map fun j => clean (ix s j))).length
  · exact .inr (h2 hv)
  · exact .inl (h1 (by omega))

/-- the same on top of a series whose finite rows are kept: with full `min_periods` the whole window is defined -/
theorem ext_roll_full {agg : Nat → List F → F} (hagg : MinP agg) {s t : Series F} (hl : s.length = t.length)
    (hst : ∀ i, i < s.length → Num (ix s i) → ix t i = ix s i) (w : Nat) {m' : Nat} (h : m' ≤ w) :
    Ext (roll w (agg w) s) (roll w (agg m') t) := by
  refine ⟨by simp [hl], fun i hi => ?_⟩
  simp only [length_roll] at hi
  rw [ix_roll' hi, ix_roll' (by omega)]
  obtain ⟨h1, h2⟩ := hagg w m' ((winIx w i).map fun j => clean (ix s j)) h
  by_cases hv : w ≤ (valid ((winIx w i).map fun j => clean (ix s j))).length
  · right
    rw [h2 hv]
    congr 1
    apply List.map_congr_left
    intro j hj
    have hall : ∀ x ∈ (winIx w i).map (fun j => clean (ix s j)), Flt.isNaN x = false := by
      have h3 : ((winIx w i).map fun j => clean (ix s j)).length ≤
          (valid ((winIx w i).map fun j => clean (ix s j))).length := by
        rw [List.length_map, length_winIx]; omega
      unfold valid at h3
      have h4 := List.length_filter_eq_length_iff.mp (le_antisymm (List.length_filter_le _ _) h3)
      intro x hx
      simpa using h4 x hx
    have hn : Num (ix s j) := num_clean.mp (hall _ (List.mem_map.mpr ⟨j, hj, rfl⟩))
    rw [hst j (by rw [mem_winIx] at hj; omega) hn]
  · exact .inl (h1 (by omega))

theorem ext_ewm (s : Series F) (a : F) {m m' : Nat} (h : m' ≤ m) : Ext (ewm a m s) (ewm a m' s) := by
  refine ⟨by simp, fun i hi => ?_⟩
  simp only [length_ewm] at hi
  rw [ix_ewm hi, ix_ewm hi]
  unfold ewmOut
  split_ifs with h1 h2
  · exact .inr rfl
  · omega
  · exact .inl rfl
  · exact .inl rfl

theorem ext_rollSum (s : Series F) (w : Nat) : Ext (rollSum w (minp false w) s) (rollSum w (minp true w) s) :=
  ext_roll minP_sum s w (by simp [minp])
theorem ext_rollMean (s : Series F) (w : Nat) : Ext (rollMean w (minp false w) s) (rollMean w (minp true w) s) :=
  ext_roll minP_mean s w (by simp [minp])
theorem ext_rollMax (s : Series F) (w : Nat) : Ext (rollMax w (minp false w) s) (rollMax w (minp true w) s) :=
  ext_roll minP_max s w (by simp [minp])
theorem ext_rollMin (s : Series F) (w : Nat) : Ext (rollMin w (minp false w) s) (rollMin w (minp true w) s) :=
  ext_roll minP_min s w (by simp [minp])
theorem ext_rollApply (g : List F → F) (s : Series F) (w : Nat) :
    Ext (rollApply g w (minp false w) s) (rollApply g w (minp true w) s) :=
  ext_roll (minP_apply g) s w (by simp [minp])
theorem ext_rollStd {F : Type} [FltFn F] [NaNLaws F] (s : Series F) (w : Nat) :
    Ext (rollStd w (minp false w) s) (rollStd w (minp true w) s) :=
  ext_roll minP_std s w (by simp [minp])
theorem ext_ema (s : Series F) (w : Nat) : Ext (ema s w false) (ema s w true) := ext_ewm s _ (by simp [minp])
theorem ext_sma (s : Series F) (w : Nat) : Ext (sma s w false) (sma s w true) := ext_rollMean s w

theorem Ext.num {s t : Series F} (h : Ext s t) {i : Nat} (hi : i < s.length) (hn : Num (ix s i)) :
    ix t i = ix s i := by
  rcases h.2 i hi with h | h
  · rw [h] at hn; have := hn.1; rw [NaNLaws.isNaN_nan] at this; cases this
  · exact h.symm


/-- every number in `out` is in the same row of `out'` -/
def Kept (out out' : Series F) : Prop := ∀ i, i < out.length → Num (ix out i) → ix out' i = ix out i

/-- `y`, if both calls succeed, keeps the numbers of `x` -/
def KeptE (x y : Except PyErr (Series F)) : Prop := ∀ out out', x = .ok out → y = .ok out' → Kept out out'

theorem keptE_ok {s t : Series F} (h : Kept s t) : KeptE (.ok s) (.ok t) := by
  intro o o' h1 h2
  rw [← Except.ok.inj h1, ← Except.ok.inj h2]
  exact h

theorem keptE_ite {p q : Prop} [Decidable p] [Decidable q] {x y : Except PyErr (Series F)} {e e' : PyErr}
    (h : KeptE x y) : KeptE (if p then .error e else x) (if q then .error e' else y) := by
  split_ifs
  · intro o o' h1; simp at h1
  · intro o o' h1; simp at h1
  · intro o o' _ h2; simp at h2
  · exact h

theorem kept_fill {s t : Series F} (h : Ext s t) (v v' : Fill F) :
    Kept (checkFillna false v s) (checkFillna true v' t) := by
  intro i hi hn
  have hi' : i < s.length := by simpa [checkFillna] using hi
  have hn' : Num (ix s i) := hn
  show ix (checkFillna true v' t) i = ix s i
  have e := h.num hi' hn'
  rw [checkFillna_keep (by rw [← h.1]; exact hi') (by rw [e]; exact hn'), e]

theorem Kept.of_ext {s t : Series F} (h : Ext s t) : Kept s t := fun _ hi hn => h.num hi hn

theorem keptE_fill {s t : Series F} (h : Ext s t) (v v' : Fill F) :
    KeptE (.ok (checkFillna false v s)) (.ok (checkFillna true v' t)) := keptE_ok (kept_fill h v v')

theorem keptE_ite' {p q : Prop} [Decidable p] [Decidable q] {x y : Except PyErr (Series F)} {e e' : PyErr}
    (h : ¬ q → KeptE x y) : KeptE (if p then .error e else x) (if q then .error e' else y) := by
  by_cases hq : q
  · rw [if_pos hq]
    intro o o' _ h2
    exact absurd h2 (by simp)
  · exact keptE_ite (h hq)

theorem keptE_map {α : Type} {x y : Except PyErr α} {g : α → Series F}
    (h : ∀ o o', x = .ok o → y = .ok o' → Kept (g o) (g o')) : KeptE (x.map g) (y.map g) := by
  intro out out' h1 h2
  obtain ⟨o, ho, rfl⟩ := except_map_ok h1
  obtain ⟨o', ho', rfl⟩ := except_map_ok h2
  exact h o o' ho ho'

end rel

section cat
variable {F : Type} [FltFn F] [NaNLaws F]

/-- The outputs of C12.  Left out are the cascades (TSI, TRIX, mass index, STC; MACD, PPO and PVO signal and histogram;
KST signal and difference), KAMA, the Bollinger and ATR-Keltner crossing flags (whose 0 during warm-up is a number) and
the visual Ichimoku span A (shifted in rows hold its mean), for all of which it fails, and the ATR-Keltner bands, which
are in `fillna_keeps_keltner_atr`. -/
def Ind.SinglePass : Ind F → Prop
  | .tsi .. | .trix .. | .massIndex .. | .stc .. | .kama .. => False
  | .macdSignal .. | .macdDiff .. | .ppoSignal .. | .ppoHist .. | .pvoSignal .. | .pvoHist .. => False
  | .kstSig .. | .kstDiff .. => False
  | .bbHi .. | .bbLi .. => False
  | .ichimokuA _ _ visual => visual = false
  | .kcHband _ _ o _ | .kcLband _ _ o _ | .kcWband _ _ o _ | .kcPband _ _ o _ | .kcHi _ _ o _ | .kcLi _ _ o _ => o = true
  | _ => True

theorem keptE_off {s t : Series F} (o o' : Donchian F) (ho : o.offset = o'.offset) (hl : s.length = t.length)
    (h : Kept s t) : KeptE (.ok (o.off s)) (.ok (o'.off t)) := by
  apply keptE_ok
  unfold Donchian.off
  rw [← ho]
  split_ifs
  · intro i hi hn
    simp only [length_shiftInt] at hi
    unfold shiftInt at hn ⊢
    rw [ix_tab_lt hi] at hn
    rw [ix_tab_lt hi, ix_tab_lt (by omega)]
    split_ifs with h1
    · rfl
    · rw [if_neg h1] at hn
      by_cases h2 : ((i : Int) - o.offset).toNat < s.length
      · exact h _ h2 hn
      · rw [ix_ge (by omega), ix_ge (by omega)]
  · exact h

theorem ext_rsi (c : Series F) (w : Nat) : Ext (RSI.run c w false) (RSI.run c w true) := by
  unfold RSI.run
  refine ⟨by simp, fun i hi => ?_⟩
  simp only [length_zip2, length_ewm] at hi
  rw [ix_zip2 (by simpa using hi), ix_zip2 (by simpa using hi)]
  have h1 := (ext_ewm (RSI.up c) (RSI.alpha w) (m := minp false w) (m' := minp true w) (by simp [minp])).2 i
    (by simpa using hi)
  have h2 := (ext_ewm (RSI.down c) (RSI.alpha w) (m := minp false w) (m' := minp true w)
    (by simp [minp])).2 i (by simpa [RSI.down, RSI.up] using hi)
  rcases h2 with h2 | h2
  · left
    rw [h2, NaNLaws.nan_eq, if_neg (by simp), NaNLaws.div_nan, NaNLaws.add_nan, NaNLaws.div_nan, NaNLaws.sub_nan]
  · rw [h2]
    rcases h1 with h1 | h1
    · split_ifs
      · exact .inr rfl
      · left
        rw [h1, NaNLaws.nan_div, NaNLaws.add_nan, NaNLaws.div_nan, NaNLaws.sub_nan]
    · rw [h1]; exact .inr rfl

theorem ext_stochrsi (c : Series F) (w : Nat) (hw : w ≠ 0) :
    Ext (StochRSI.ofRsi (checkFillna false (.const (lit 50)) (RSI.run c w false)) w)
      (StochRSI.ofRsi (checkFillna true (.const (lit 50)) (RSI.run c w true)) w) := by
  have hk := kept_fill (ext_rsi c w) (.const (lit 50)) (.const (lit 50))
  have hl : (checkFillna false (.const (lit 50)) (RSI.run c w false)).length =
      (checkFillna true (.const (lit 50)) (RSI.run c w true)).length := by
    rw [length_checkFillna, length_checkFillna]; exact (ext_rsi c w).1
  generalize checkFillna false (.const (lit 50)) (RSI.run c w false) = r at hk hl ⊢
  generalize checkFillna true (.const (lit 50)) (RSI.run c w true) = r' at hk hl ⊢
  have hlo : Ext (rollMin w w r) (rollMin w w r') := ext_roll_full minP_min hl hk w (le_refl w)
  have hhi : Ext (rollMax w w r) (rollMax w w r') := ext_roll_full minP_max hl hk w (le_refl w)
  unfold StochRSI.ofRsi
  refine ⟨by simp [hl], fun i hi => ?_⟩
  simp only [length_sdiv, length_ssub] at hi
  dsimp only
  have hi' : i < r'.length := by omega
  rw [ix_sdiv (by simpa using hi), ix_sdiv (by simpa using hi'), ix_ssub hi, ix_ssub hi',
    ix_ssub (by simpa using hi), ix_ssub (by simpa using hi')]
  rcases hlo.2 i (by simpa using hi) with h1 | h1
  · left; rw [h1, NaNLaws.sub_nan, NaNLaws.nan_div]
  · rw [h1]
    rcases hhi.2 i (by simpa using hi) with h2 | h2
    · left; rw [h2, NaNLaws.nan_sub, NaNLaws.div_nan]
    · rw [h2]
      by_cases hn : Num (ix r i)
      · right; rw [hk i hi hn]
      · left
        rw [← h1]
        have e : ix (rollMin w w r) i = nan := by
          unfold rollMin
          rw [ix_roll' hi]
          refine ((minP_min w 0 _ (by omega)).1 ?_)
          have h3 : (valid ((winIx w i).map fun j => clean (ix r j))).length
              < ((winIx w i).map fun j => clean (ix r j)).length := by
            unfold valid
            rw [List.length_filter_lt_length_iff_exists]
            refine ⟨clean (ix r i), List.mem_map.mpr ⟨i, ?_, rfl⟩, ?_⟩
            · rw [mem_winIx]; omega
            · rw [isNaN_clean.mpr hn]; simp
          rw [List.length_map, length_winIx] at h3
          omega
        rw [e, NaNLaws.sub_nan, NaNLaws.nan_div]

/-- prove `Ext` of two runs of the same pipeline -/
macro "ext_tac" : tactic =>
  `(tactic| repeat' (first
    | with_reducible exact Ext.refl _
    | with_reducible exact ext_rollSum _ _ | with_reducible exact ext_rollMean _ _ | with_reducible exact ext_rollMax _ _ | with_reducible exact ext_rollMin _ _
    | with_reducible exact ext_rollApply _ _ _ | with_reducible exact ext_rollStd _ _ | with_reducible exact ext_ema _ _ | with_reducible exact ext_sma _ _
    | with_reducible exact ext_roll minP_mean _ _ (by simp; try omega) | with_reducible exact ext_roll minP_max _ _ (by simp; try omega)
    | with_reducible exact ext_roll minP_min _ _ (by simp; try omega) | with_reducible exact ext_roll (minP_apply _) _ _ (by simp; try omega)
    | with_reducible exact ext_ewm _ _ (by simp; try omega)
    | with_reducible refine Ext.sadd ?_ ?_ (by simp) | with_reducible refine Ext.ssub ?_ ?_ (by simp) | with_reducible refine Ext.smul ?_ ?_ (by simp)
    | with_reducible refine Ext.sdiv ?_ ?_ (by simp) | with_reducible refine Ext.cmul ?_ _ | with_reducible refine Ext.csub ?_ _ | with_reducible refine Ext.cadd ?_ _
    | with_reducible refine Ext.cdiv ?_ _ | with_reducible refine Ext.mulc ?_ _ | with_reducible refine Ext.divc ?_ _ | with_reducible refine Ext.sabs ?_))

section
variable (b : List (Bar F))

theorem kept_stochrsi (w s1 s2 : Nat) :
    KeptE ((Ind.stochrsi w s1 s2).eval false b) ((Ind.stochrsi w s1 s2).eval true b) := by
  simp only [Ind.eval, StochRSI.new_eq, map_guard, StochRSI.stochrsi]
  exact keptE_ite' fun hw => keptE_fill (ext_stochrsi _ _ hw) _ _

theorem kept_stochrsiK (w s1 s2 : Nat) :
    KeptE ((Ind.stochrsiK w s1 s2).eval false b) ((Ind.stochrsiK w s1 s2).eval true b) := by
  simp only [Ind.eval, StochRSI.new_eq, map_guard, StochRSI.stochrsiK]
  refine keptE_ite' fun hw => keptE_fill ?_ _ _
  have h0 := ext_stochrsi (closes b) w hw
  exact ext_roll_full minP_mean h0.1 (fun i hi hn => h0.num hi hn) _ (le_refl _)

theorem kept_stochrsiD (w s1 s2 : Nat) :
    KeptE ((Ind.stochrsiD w s1 s2).eval false b) ((Ind.stochrsiD w s1 s2).eval true b) := by
  simp only [Ind.eval, StochRSI.new_eq, map_guard, StochRSI.stochrsiD]
  refine keptE_ite' fun hw => keptE_fill ?_ _ _
  have h0 := ext_stochrsi (closes b) w hw
  have h1 : Ext (rollMean s1 s1 _) (rollMean s1 s1 _) :=
    ext_roll_full minP_mean h0.1 (fun i hi hn => h0.num hi hn) s1 (le_refl _)
  exact ext_roll_full minP_mean h1.1 (fun i hi hn => h1.num hi hn) _ (le_refl _)

theorem kept_stochSignal (w s1 : Nat) :
    KeptE ((Ind.stochSignal w s1).eval false b) ((Ind.stochSignal w s1).eval true b) := by
  simp only [Ind.eval, stochSignal]
  have h0 : Ext (Stoch.k (highs b) (lows b) (closes b) w false) (Stoch.k (highs b) (lows b) (closes b) w true) := by
    unfold Stoch.k
    ext_tac
  exact keptE_fill (ext_roll_full minP_mean h0.1 (fun i hi hn => h0.num hi hn) _ (by simp [minp])) _ _

theorem kept_psar (st mx : F) (g : PSAR F → Series F)
    (h : ∀ o : PSAR F, Kept (g { o with fillna := false }) (g { o with fillna := true })) :
    KeptE ((PSAR.new (highs b) (lows b) (closes b) .positional st mx false).map g)
      ((PSAR.new (highs b) (lows b) (closes b) .positional st mx true).map g) := by
  unfold PSAR.new
  rw [map_guard, map_guard]
  exact keptE_ite (keptE_ok (h { psarS := _, up := _, down := _, fillna := false }))

theorem kept_bbPband (w : Nat) (dev : F) :
    KeptE ((Ind.bbPband w dev).eval false b) ((Ind.bbPband w dev).eval true b) := by
  simp only [Ind.eval, BB.bollingerPband, BB.new]
  refine keptE_fill (Ext.sdiv (by ext_tac)
    (Ext.zip2 (by ext_tac) (by ext_tac) (by simp) (fun v => ?_) (fun v => ?_)) (by simp)) _ _
  · rw [NaNLaws.nan_sub, ite_self]
  · rw [NaNLaws.sub_nan, ite_self]

theorem kept_vpt (sm : Option Nat) : KeptE ((Ind.vpt sm).eval false b) ((Ind.vpt sm).eval true b) := by
  simp only [Ind.eval, volumePriceTrend]
  refine keptE_fill ?_ _ _
  unfold VPT.run
  cases sm with
  | none => exact Ext.refl _
  | some k =>
    cases k with
    | zero => exact Ext.refl _
    | succ k => exact ext_rollMean _ _

theorem kept_donchian (w : Nat) (off : Int) (f : Fill F) (g : Donchian F → Series F)
    (h : ∀ o o' : Donchian F, o.close = o'.close → o.hb.length = o'.hb.length → Ext o.hb o'.hb → Ext o.lb o'.lb →
      Ext (rollMean o.window o.minPeriods o.close) (rollMean o'.window o'.minPeriods o'.close) →
      o.lb.length = o.hb.length → o.close.length = o.hb.length → Ext (g o) (g o')) :
    KeptE ((Donchian.new (highs b) (lows b) (closes b) w off false).map fun o => o.off (checkFillna o.fillna f (g o)))
      ((Donchian.new (highs b) (lows b) (closes b) w off true).map fun o => o.off (checkFillna o.fillna f (g o))) := by
  simp only [Donchian.new_eq, map_guard]
  refine keptE_ite' fun hw => ?_
  have e := h { close := closes b, hb := rollMax w w (highs b), lb := rollMin w w (lows b), window := w
                minPeriods := w, offset := off, fillna := false }
    { close := closes b, hb := rollMax w 1 (highs b), lb := rollMin w 1 (lows b), window := w
      minPeriods := 1, offset := off, fillna := true } rfl (by simp)
    (ext_roll minP_max _ _ (by simp at hw ⊢; omega)) (ext_roll minP_min _ _ (by simp at hw ⊢; omega))
    (ext_roll minP_mean _ _ (by simp at hw ⊢; omega)) (by simp) (by simp)
  exact keptE_off _ _ rfl (by rw [length_checkFillna, length_checkFillna]; exact e.1) (kept_fill e _ _)

theorem kept_kc (w wa : Nat) (k : F) (g : Keltner F → Series F)
    (h : ∀ o o' : Keltner F, o.fillna = false → o'.fillna = true → o.close = o'.close → Ext o.tp o'.tp →
      o.tpHigh = o'.tpHigh → o.tpLow = o'.tpLow → o.tp.length = o.close.length →
      o.tpHigh.length = o.close.length → o.tpLow.length = o.close.length → Kept (g o) (g o')) :
    KeptE ((Keltner.new (highs b) (lows b) (closes b) w wa false true k).map g)
      ((Keltner.new (highs b) (lows b) (closes b) w wa true true k).map g) := by
  simp only [Keltner.new_original_eq, map_guard]
  refine keptE_ite' fun hw => keptE_ok (h _ _ rfl rfl rfl ?_ rfl rfl ?_ ?_ ?_)
  · exact ext_roll minP_mean _ _ (by simp at hw ⊢; omega)
  · simp [Keltner.runOriginal, typicalPrice]
  · simp [Keltner.runOriginal]
  · simp [Keltner.runOriginal]

theorem kept_aroon (w : Nat) (g : Aroon F → Series F)
    (h : ∀ o o' : Aroon F, o.fillna = false → o'.fillna = true → Ext o.up o'.up → Ext o.down o'.down →
      o.up.length = o.down.length → Kept (g o) (g o')) :
    KeptE ((Aroon.new (highs b) (lows b) w false).map g) ((Aroon.new (highs b) (lows b) w true).map g) := by
  unfold Aroon.new
  rw [map_guard, map_guard]
  refine keptE_ite (keptE_ok (h _ _ rfl rfl ?_ ?_ ?_))
  · exact ext_roll (minP_apply _) _ _ (by simp)
  · exact ext_roll (minP_apply _) _ _ (by simp)
  · simp [Aroon.run]

theorem kept_adx (w : Nat) : KeptE ((Ind.adx w).eval false b) ((Ind.adx w).eval true b) := by
  intro out out' h1 h2
  have key : ∀ (f : Bool) (r : Series F), (Ind.adx w).eval f b = .ok r →
      (ADX.run (highs b) (lows b) (closes b) w f).adx = .ok r := by
    intro f r hr
    simp only [Ind.eval] at hr
    cases hx : ADX.new (highs b) (lows b) (closes b) w f with
    | error e => rw [hx] at hr; simp [bind, Except.bind] at hr
    | ok o =>
      rw [hx] at hr
      obtain ⟨_, _, rfl⟩ := ADX.new_ok hx
      exact hr
  refine (?_ : KeptE (ADX.adx _) (ADX.adx _)) out out' (key _ _ h1) (key _ _ h2)
  unfold ADX.adx
  exact keptE_ite (keptE_fill (Ext.refl _) _ _)

end

set_option maxHeartbeats 1000000 in
/-- C12: every finite value obtained with `fillna=False` is in the same row with `fillna=True`. -/
theorem fillna_keeps_defined (ind : Ind F) (h : ind.SinglePass) (b : List (Bar F)) (out out' : Series F)
    (ho : ind.eval false b = .ok out) (ho' : ind.eval true b = .ok out') (i : Nat) (hi : i < out.length)
    (hn : Num (ix out i)) : ix out' i = ix out i := by
  refine (?_ : KeptE (ind.eval false b) (ind.eval true b)) out out' ho ho' i hi hn
  clear ho ho' hi hn
  cases ind
  all_goals try (exact absurd h id)
  all_goals try simp only [Ind.SinglePass] at h
  all_goals try subst h
  case stochrsi => exact kept_stochrsi _ _ _ _
  case stochrsiK => exact kept_stochrsiK _ _ _ _
  case stochrsiD => exact kept_stochrsiD _ _ _ _
  case stochSignal => exact kept_stochSignal _ _ _
  case psar => exact kept_psar _ _ _ _ fun o => kept_fill (Ext.refl _) _ _
  case psarUp => exact kept_psar _ _ _ _ fun o => kept_fill (Ext.refl _) _ _
  case psarDown => exact kept_psar _ _ _ _ fun o => kept_fill (Ext.refl _) _ _
  case psarUpInd => exact kept_psar _ _ _ _ fun o => Kept.of_ext (Ext.refl _)
  case psarDownInd => exact kept_psar _ _ _ _ fun o => Kept.of_ext (Ext.refl _)
  case bbPband => exact kept_bbPband _ _ _
  case vpt => exact kept_vpt _ _
  case dcHband => exact kept_donchian _ _ _ _ _ fun o o' _ _ h1 _ _ _ _ => h1
  case dcLband => exact kept_donchian _ _ _ _ _ fun o o' _ _ _ h2 _ _ _ => h2
  case dcMband => exact kept_donchian _ _ _ _ _ fun o o' _ _ h1 h2 _ e _ =>
    ((h1.ssub h2 e.symm).divc _).sadd h2 (by simp [e])
  case dcWband => exact kept_donchian _ _ _ _ _ fun o o' _ _ h1 h2 h3 e e' =>
    ((h1.ssub h2 e.symm).sdiv h3 (by simp [e'])).mulc _
  case dcPband =>
    refine kept_donchian _ _ _ _ _ fun o o' hc _ h1 h2 h3 e e' => ?_
    rw [← hc]
    exact ((Ext.refl _).ssub h2 (e'.trans e.symm)).sdiv (h1.ssub h2 e.symm) (by simp [e'])
  case kcHband =>
    refine kept_kc _ _ _ _ _ fun o o' f f' _ _ h1 _ _ _ _ => ?_
    unfold Keltner.hband; rw [f, f', h1]; exact kept_fill (Ext.refl _) _ _
  case kcLband =>
    refine kept_kc _ _ _ _ _ fun o o' f f' _ _ h1 h2 _ _ _ => ?_
    unfold Keltner.lband; rw [f, f', h2]; exact kept_fill (Ext.refl _) _ _
  case kcWband =>
    refine kept_kc _ _ _ _ _ fun o o' f f' _ h0 h1 h2 e0 e1 e2 => ?_
    unfold Keltner.wband; rw [f, f', h1, h2]
    exact kept_fill (((Ext.refl _).sdiv h0 (by rw [← h1]; simp [e1, e0])).mulc _) _ _
  case kcPband =>
    refine kept_kc _ _ _ _ _ fun o o' f f' hc _ h1 h2 _ _ _ => ?_
    unfold Keltner.pband; rw [f, f', hc, h1, h2]; exact kept_fill (Ext.refl _) _ _
  case kcHi =>
    refine kept_kc _ _ _ _ _ fun o o' f f' hc _ h1 h2 _ _ _ => ?_
    unfold Keltner.hbandIndicator; rw [f, f', hc, h1]; exact kept_fill (Ext.refl _) _ _
  case kcLi =>
    refine kept_kc _ _ _ _ _ fun o o' f f' hc _ h1 h2 _ _ _ => ?_
    unfold Keltner.lbandIndicator; rw [f, f', hc, h2]; exact kept_fill (Ext.refl _) _ _
  case kcMband w wa o k =>
    cases o with
    | true =>
      refine kept_kc _ _ _ _ _ fun o o' f f' _ h0 _ _ _ _ _ => ?_
      unfold Keltner.mband; rw [f, f']; exact kept_fill h0 _ _
    | false =>
      refine keptE_map fun o o' h1 h2 => ?_
      rw [Keltner.new_atr_eq] at h1 h2
      split_ifs at h1 h2 with hw hn
      rw [← Except.ok.inj h1, ← Except.ok.inj h2]
      exact kept_fill (ext_ewm _ _ (m := w) (m' := 1) (by omega)) _ _
  case aroonUp =>
    refine kept_aroon _ _ _ fun o o' f f' h1 h2 e => ?_
    unfold Aroon.aroonUp; rw [f, f']; exact kept_fill h1 _ _
  case aroonDown =>
    refine kept_aroon _ _ _ fun o o' f f' h1 h2 e => ?_
    unfold Aroon.aroonDown; rw [f, f']; exact kept_fill h2 _ _
  case aroonInd =>
    refine kept_aroon _ _ _ fun o o' f f' h1 h2 e => ?_
    unfold Aroon.aroonIndicator; rw [f, f']; exact kept_fill (h1.ssub h2 e) _ _
  case adx => exact kept_adx _ _
  case adxPos =>
    refine keptE_map fun o o' h1 h2 => ?_
    obtain ⟨_, _, rfl⟩ := ADX.new_ok h1
    obtain ⟨_, _, rfl⟩ := ADX.new_ok h2
    exact kept_fill (Ext.refl _) _ _
  case adxNeg =>
    refine keptE_map fun o o' h1 h2 => ?_
    obtain ⟨_, _, rfl⟩ := ADX.new_ok h1
    obtain ⟨_, _, rfl⟩ := ADX.new_ok h2
    exact kept_fill (Ext.refl _) _ _
  all_goals
    simp only [Ind.eval, rsi, tsi_eq, PPO.new_eq, MACD.new_eq, emaIndicator_eq, trix_eq,
      massIndex_eq, stc_eq, ulcerIndex_eq, forceIndex_eq, averageTrueRange, negativeVolumeIndex,
      cumulativeReturn, map_guard, List.length_map]
  case rsi w => exact keptE_ite (keptE_fill (ext_rsi _ _) _ _)
  all_goals try ind_defs
  all_goals try simp only [if_true, kst, KST.run, KST.rocma, dpo, DPO.run, vortexPos, vortexNeg, vortexDiff,
    Vortex.vip, Vortex.vin, Vortex.trn]
  all_goals
    first
    | (with_reducible refine keptE_fill ?_ _ _; ext_tac; done)
    | (with_reducible refine keptE_ite (keptE_fill ?_ _ _); ext_tac; done)
    | (with_reducible refine keptE_ok (Kept.of_ext ?_); ext_tac; done)
    | (with_reducible refine keptE_ite (keptE_ok (Kept.of_ext ?_)); ext_tac; done)
    | skip

end cat

/-! ## Keltner channel, ATR version -/

section keltner
variable {K : Type} [Field K] [LinearOrder K] [IsStrictOrderedRing K]

theorem kept_keltner_atr (c a a' : Series (Val K)) (w : Nat) (k : Val K) (hw : 1 ≤ w) (ha : Kept a a')
    (hl : a.length = a'.length) (hc : a.length = c.length) (g : Keltner (Val K) → Series (Val K))
    (hg : g = Keltner.hband ∨ g = Keltner.lband ∨ g = Keltner.wband ∨ g = Keltner.pband) :
    Kept (g (Keltner.runAtr c a w false k)) (g (Keltner.runAtr c a' w true k)) := by
  have hmid : Ext (ewm (alphaOfSpan w) w c) (ewm (alphaOfSpan w) 1 c) := ext_ewm _ _ hw
  have mid : ∀ i x, i < c.length → ix (ewm (alphaOfSpan w) w c) i = .fin x →
      ix (ewm (alphaOfSpan w) 1 c) i = .fin x := by
    intro i x hi h
    rcases hmid.2 i (by simpa using hi) with h1 | h1
    · rw [h1] at h; cases h
    · rw [← h1, h]
  have atr : ∀ i x, i < c.length → ix (cmul k a) i = .fin x → ix (cmul k a') i = .fin x := by
    intro i x hi h
    unfold cmul at h ⊢
    rw [ix_map (by omega)] at h ⊢
    obtain ⟨_, y, _, hy, _⟩ := mul_eq_fin.mp h
    rw [ha i (by omega) (num_iff.mpr ⟨y, hy⟩), h]
  have hi' : ∀ i x, i < c.length → ix (sadd (ewm (alphaOfSpan w) w c) (cmul k a)) i = .fin x →
      ix (sadd (ewm (alphaOfSpan w) 1 c) (cmul k a')) i = .fin x := by
    intro i x hi h
    rw [ix_sadd (by simpa using hi)] at h ⊢
    obtain ⟨_, _, h1, h2, _⟩ := add_eq_fin.mp h
    rw [mid i _ hi h1, atr i _ hi h2, ← h1, ← h2, h]
  have lo' : ∀ i x, i < c.length → ix (ssub (ewm (alphaOfSpan w) w c) (cmul k a)) i = .fin x →
      ix (ssub (ewm (alphaOfSpan w) 1 c) (cmul k a')) i = .fin x ∧
      ix (sadd (ewm (alphaOfSpan w) 1 c) (cmul k a')) i = ix (sadd (ewm (alphaOfSpan w) w c) (cmul k a)) i := by
    intro i x hi h
    rw [ix_ssub (by simpa using hi)] at h
    rw [ix_ssub (by simpa using hi), ix_sadd (by simpa using hi), ix_sadd (by simpa using hi)]
    obtain ⟨_, _, h1, h2, _⟩ := sub_eq_fin.mp h
    rw [mid i _ hi h1, atr i _ hi h2, ← h1, ← h2, h]
    exact ⟨rfl, rfl⟩
  have fill : ∀ (f : Fill (Val K)) (s t : Series (Val K)), s.length = c.length → t.length = c.length →
      (∀ i x, i < c.length → ix s i = .fin x → ix t i = .fin x) →
      Kept (checkFillna false f s) (checkFillna true f t) := by
    intro f s t hs ht hst i hi hn
    have hi1 : i < c.length := by simpa [checkFillna, hs] using hi
    obtain ⟨x, hx⟩ := num_iff.mp hn
    have hx' : ix s i = .fin x := hx
    rw [checkFillna_keep (by omega) (num_iff.mpr ⟨x, hst i x hi1 hx'⟩), hx, hst i x hi1 hx']
  rcases hg with rfl | rfl | rfl | rfl
  · exact fill .back _ _ (by simp [Keltner.runAtr]) (by simp [Keltner.runAtr]) hi'
  · exact fill .back _ _ (by simp [Keltner.runAtr]) (by simp [Keltner.runAtr]) fun i x hi h => (lo' i x hi h).1
  · refine fill (.const (lit 0)) _ _ (by simp [Keltner.runAtr]) (by simp [Keltner.runAtr]) fun i x hi h => ?_
    simp only [Keltner.runAtr, Bool.false_eq_true, if_false, if_true] at h ⊢
    unfold mulc at h ⊢
    rw [ix_map (by simpa using hi), ix_sdiv (by simpa using hi), ix_ssub (by simpa using hi)] at h ⊢
    obtain ⟨_, _, h1, _, _⟩ := mul_eq_fin.mp h
    obtain ⟨_, h2, h3⟩ := div_eq_fin h1
    obtain ⟨_, _, h4, h5, _⟩ := sub_eq_fin.mp h2
    have h6 : ∃ y, ix (ewm (alphaOfSpan w) w c) i = .fin y := by
      have h8 := h5
      rw [ix_ssub (by simpa using hi)] at h8
      obtain ⟨y, _, h7, _, _⟩ := sub_eq_fin.mp h8
      exact ⟨y, h7⟩
    obtain ⟨y, h6⟩ := h6
    rw [hi' i _ hi h4, (lo' i _ hi h5).1, mid i _ hi h6, ← h4, ← h5, ← h6, h]
  · refine fill (.const (lit 0)) _ _ (by simp [Keltner.runAtr]) (by simp [Keltner.runAtr]) fun i x hi h => ?_
    simp only [Keltner.runAtr, Bool.false_eq_true, if_false, if_true] at h ⊢
    have e : ∀ hb lb : Series (Val K), hb.length = c.length → ix (sdiv (ssub c lb) (ssub hb lb)) i =
        (ix c i -. ix lb i) /. (ix hb i -. ix lb i) := fun hb lb h1 => by
      rw [ix_sdiv (by simpa using hi), ix_ssub hi, ix_ssub (by omega)]
    rw [e _ _ (by simp)] at h ⊢
    obtain ⟨_, h2, _⟩ := div_eq_fin h
    obtain ⟨_, _, _, h5, _⟩ := sub_eq_fin.mp h2
    rw [(lo' i _ hi h5).1, (lo' i _ hi h5).2, ← h5, h]

/-- C12, ATR version of the Keltner bands, over a field with NaN and infinities. -/
theorem fillna_keeps_keltner_atr (h l c : Series (Val K)) (w wa : Nat) (k : Val K)
    (g : Keltner (Val K) → Series (Val K))
    (hg : g = Keltner.hband ∨ g = Keltner.lband ∨ g = Keltner.wband ∨ g = Keltner.pband) :
    KeptE ((Keltner.new h l c w wa false false k).map g) ((Keltner.new h l c w wa true false k).map g) := by
  refine keptE_map fun o o' h1 h2 => ?_
  rw [Keltner.new_atr_eq] at h1 h2
  split_ifs at h1 h2 with hw hn
  rw [← Except.ok.inj h1, ← Except.ok.inj h2]
  have e : (ATR.run h l c wa).length = c.length := by
    unfold ATR.run; dsimp only; split_ifs <;> simp
  exact kept_keltner_atr c _ _ w k (by omega) (kept_fill (Ext.refl _) _ _)
    (by rw [length_checkFillna, length_checkFillna]) (by rw [length_checkFillna, e]) g hg

end keltner

section witness
attribute [local instance] toyFn

/-- some finite row obtained with `fillna=False` is different with `fillna=True` -/
def loses (ind : Ind (Val ℚ)) (b : List (Bar (Val ℚ))) : Bool :=
  match ind.eval false b, ind.eval true b with
  | .ok s, .ok t => (List.range s.length).any fun i => !Flt.isNaN (ix s i) && !Flt.isInf (ix s i) && ix s i != ix t i
  | _, _ => false

theorem not_kept {ind : Ind (Val ℚ)} {b : List (Bar (Val ℚ))} (h : loses ind b = true) :
    ¬ KeptE (ind.eval false b) (ind.eval true b) := by
  intro hk
  unfold loses at h
  cases h1 : ind.eval false b with
  | error e => rw [h1] at h; simp at h
  | ok s =>
    cases h2 : ind.eval true b with
    | error e => rw [h1, h2] at h; simp at h
    | ok t =>
      rw [h1, h2] at h
      simp only [List.any_eq_true, List.mem_range, Bool.and_eq_true, Bool.not_eq_true', bne_iff_ne] at h
      obtain ⟨i, hi, ⟨ha, hb⟩, hc⟩ := h
      exact hc (hk s t h1 h2 i hi ⟨ha, hb⟩).symm

/-- twelve prices -/
def px1 : List (Bar (Val ℚ)) := [1, 2, 4, 7, 5, 9, 3, 8, 2, 6, 11].map qb
/-- eight bars -/
def px2 : List (Bar (Val ℚ)) :=
  [qbar 3 1 2 1, qbar 5 2 3 2, qbar 9 3 4 4, qbar 12 5 6 3, qbar 11 7 9 8, qbar 15 4 11 2, qbar 13 6 7 9, qbar 14 8 10 4]

/-- C12 fails for every output left out: a smoothing of an already smoothed line starts from more rows, and flags and
means are computed from them. -/
theorem fillna_changes_defined :
    (∀ ind ∈ ([.macdSignal 3 2 2, .macdDiff 3 2 2, .ppoSignal 3 2 2, .ppoHist 3 2 2, .pvoSignal 3 2 2, .pvoHist 3 2 2,
      .tsi 3 2, .trix 2, .stc 3 2 2 2 2, .kama 2 1 2, .kstSig ⟨1, 1, 1, 1, 2, 2, 2, 2⟩ 2,
      .kstDiff ⟨1, 1, 1, 1, 2, 2, 2, 2⟩ 2, .bbHi 3 (.fin 0)] : List (Ind (Val ℚ))),
      ¬ KeptE (ind.eval false px1) (ind.eval true px1)) ∧
    (∀ ind ∈ ([.massIndex 2 2, .ichimokuA 1 2 true, .kcHi 3 2 false (.fin 0), .kcLi 3 2 false (.fin (-1))] :
      List (Ind (Val ℚ))), ¬ KeptE (ind.eval false px2) (ind.eval true px2)) ∧
    ¬ KeptE ((Ind.bbLi 3 (.fin 0) : Ind (Val ℚ)).eval false (px1.reverse)) ((Ind.bbLi 3 (.fin 0)).eval true px1.reverse) := by
  refine ⟨?_, ?_, not_kept (by decide +kernel)⟩
  · have h : ∀ ind ∈ ([.macdSignal 3 2 2, .macdDiff 3 2 2, .ppoSignal 3 2 2, .ppoHist 3 2 2, .pvoSignal 3 2 2,
      .pvoHist 3 2 2, .tsi 3 2, .trix 2, .stc 3 2 2 2 2, .kama 2 1 2, .kstSig ⟨1, 1, 1, 1, 2, 2, 2, 2⟩ 2,
      .kstDiff ⟨1, 1, 1, 1, 2, 2, 2, 2⟩ 2, .bbHi 3 (.fin 0)] : List (Ind (Val ℚ))), loses ind px1 = true := by
      decide +kernel
    exact fun ind hi => not_kept (h ind hi)
  · have h : ∀ ind ∈ ([.massIndex 2 2, .ichimokuA 1 2 true, .kcHi 3 2 false (.fin 0), .kcLi 3 2 false (.fin (-1))] :
      List (Ind (Val ℚ))), loses ind px2 = true := by decide +kernel
    exact fun ind hi => not_kept (h ind hi)

/-- C12 on an EMA: rows 0 and 1 are filled in, the others kept. -/
example : (Ind.ema 3 : Ind (Val ℚ)).SinglePass ∧
    (Ind.ema 3 : Ind (Val ℚ)).eval false ([1, 3, 5, 1].map qb) = .ok [.nan, .nan, .fin (7/2), .fin (9/4)] ∧
    (Ind.ema 3 : Ind (Val ℚ)).eval true ([1, 3, 5, 1].map qb) = .ok [.fin 1, .fin 2, .fin (7/2), .fin (9/4)] := by
  refine ⟨trivial, ?_, ?_⟩ <;> decide +kernel

end witness
end TA
