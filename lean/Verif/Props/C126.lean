import Verif.Props.C49
import Verif.Props.C31
import Verif.Props.C84
import Verif.Props.C117
import Verif.Props.C122

/-!
# C126 — TRIX, mass index, DPO, the original Keltner channel and the Donchian width in double precision

TRIX (`ta/trend.py:263-285`) needs exponential averages only. The other four take rolling sums or means of computed series
(`ta/trend.py:326`, `599-601`; `ta/volatility.py:228-243`, `415`); here with pandas' compensated running sum.
-/

set_option linter.unusedSectionVars false

namespace TA
open Finset

section any
variable {F : Type} [Flt F]

/-- `.mass_index()` with pandas' own rolling sum -/
def massPandas (high low : Series F) (fast slow : Nat) (fillna : Bool) : Series F :=
  checkFillna fillna (.const (lit 0)) (onlineSum slow (minp fillna slow)
    (sdiv (ema (ssub high low) fast fillna) (ema (ema (ssub high low) fast fillna) fast fillna)))

/-- `.dpo()` with pandas' own rolling mean -/
def dpoPandas (close : Series F) (window : Nat) (fillna : Bool) : Series F :=
  checkFillna fillna (.const (lit 0))
    (ssub (shift close (window / 2 + 1) (smean close)) (onlineMean window (minp fillna window) close))

/-- the original Keltner channel with pandas' own rolling mean -/
def keltnerPandas (high low close : Series F) (window : Nat) (fillna : Bool) : Keltner F :=
  { close := close
    tp := onlineMean window (if fillna then 1 else window) (typicalPrice high low close)
    tpHigh := onlineMean window 0 (divc (sadd (ssub (cmul (lit 4) high) (cmul (lit 2) low)) close) (lit 3))
    tpLow := onlineMean window 0 (divc (sadd (sadd (cmul (lit (-2)) high) (cmul (lit 4) low)) close) (lit 3))
    fillna := fillna }

/-- `.donchian_channel_wband()` with pandas' own rolling mean -/
def Donchian.wbandPandas (o : Donchian F) : Series F :=
  o.off (checkFillna o.fillna (.const (lit 0))
    (mulc (sdiv (ssub o.hb o.lb) (onlineMean o.window o.minPeriods o.close)) (lit 100)))

/-- leading NaN leave pandas' accumulator as it is -/
theorem online_init {s : List F} {p w : Nat} (hw : 1 ≤ w) (hs : ∀ j, j < p → Flt.isNaN (ix s j) = true) {i : Nat} (hi : i < p) (hl : i < s.length) :
    online .removeFirst SumSt.add SumSt.rem SumSt.init w s i = SumSt.init := by
  have a : ∀ (st : SumSt F) j, j < p → SumSt.add st (ix s j) = st := fun st j hj => by unfold SumSt.add; rw [if_pos (hs j hj)]
  have r : ∀ (st : SumSt F) j, j < p → SumSt.rem st (ix s j) = st := fun st j hj => by unfold SumSt.rem; rw [if_pos (hs j hj)]
  induction i with
  | zero => rw [online_zero _ _ _ hw hl, a _ _ hi]
  | succ i ih =>
    rw [online_succ _ _ _ hw hl, ih (by omega) (by omega), a _ _ hi]
    split_ifs
    · exact r _ _ (by omega)
    · rfl

theorem ix_dropped (s : List F) (p i : Nat) : ix (s.drop p) i = ix s (p + i) := by
  unfold ix
  rw [List.getD_eq_getElem?_getD, List.getD_eq_getElem?_getD, List.getElem?_drop]

theorem online_skip {s : List F} {p w : Nat} (hw : 1 ≤ w) (hs : ∀ j, j < p → Flt.isNaN (ix s j) = true) {i : Nat} (hl : p + i < s.length) :
    online .removeFirst SumSt.add SumSt.rem SumSt.init w s (p + i) = online .removeFirst SumSt.add SumSt.rem SumSt.init w (s.drop p) i := by
  have r : ∀ (st : SumSt F) j, j < p → SumSt.rem st (ix s j) = st := fun st j hj => by unfold SumSt.rem; rw [if_pos (hs j hj)]
  have ld : (s.drop p).length = s.length - p := by simp
  induction i with
  | zero =>
    rw [online_zero _ _ _ hw (by omega), ix_dropped]
    cases p with
    | zero => rw [online_zero _ _ _ hw (by omega)]
    | succ q =>
      show online .removeFirst SumSt.add SumSt.rem SumSt.init w s (q + 1) = _
      rw [online_succ _ _ _ hw (by omega), online_init hw hs (by omega) (by omega)]
      split_ifs
      · rw [r _ _ (by omega)]
      · rfl
  | succ i ih =>
    show online .removeFirst SumSt.add SumSt.rem SumSt.init w s (p + i + 1) = _
    rw [online_succ _ _ _ hw (by omega), online_succ _ _ _ hw (by omega), ih (by omega), ix_dropped, ix_dropped]
    by_cases g : w ≤ i + 1
    · rw [if_pos g, if_pos (by omega), show p + i + 1 - w = p + (i + 1 - w) by omega]; rfl
    · rw [if_neg g]
      by_cases g' : w ≤ p + i + 1
      · rw [if_pos g', r _ _ (by omega)]; rfl
      · rw [if_neg g']; rfl

/-- where the first row is missing, what it is compared with does not matter -/
theorem change_first {s : Series F} {v : F} (n1 : ∀ x : F, (nan -. x : F) = nan) (n2 : ∀ x : F, (nan /. x : F) = nan) (h0 : ix s 0 = nan) :
    sdiv (ssub s (shift s 1 v)) (shift s 1 v) = sdiv (ssub s (shift s 1)) (shift s 1) := by
  refine series_ext (by simp) fun i hi => ?_
  replace hi : i < s.length := by simpa using hi
  iterate 2 rw [ix_sdiv (by simpa using hi), ix_ssub hi, ix_shift hi]
  by_cases g : i < 1
  · obtain rfl : i = 0 := by omega
    rw [h0, n1, n1, n2, n2]
  · simp only [if_neg g]

end any

section dbl
variable {K : Type} [Field K] [LinearOrder K] [IsStrictOrderedRing K] [FloorRing K]

theorem massPandas_exact {h l : Series (Val K)} {fast slow : Nat} (hf : 1 ≤ fast) (fillna : Bool) :
    massIndex h l fast slow fillna = .ok (massPandas h l fast slow fillna) := by
  unfold massIndex chkSpan massPandas Mass.run
  rw [if_neg (by omega), online_sum]; rfl

theorem dpoPandas_exact (c : Series (Val K)) (w : Nat) (fillna : Bool) : dpoPandas c w fillna = dpo c w fillna := by
  unfold dpoPandas dpo DPO.run
  rw [online_mean]

theorem keltnerPandas_exact (h l c : Series (Val K)) (w : Nat) (fillna : Bool) : keltnerPandas h l c w fillna = Keltner.runOriginal h l c w fillna := by
  unfold keltnerPandas Keltner.runOriginal
  simp only [online_mean]

theorem wbandPandas_exact (o : Donchian (Val K)) : o.wbandPandas = o.wband := by
  unfold Donchian.wbandPandas Donchian.wband
  rw [online_mean]

/-! ## running sums and means of computed series -/

/-- a computed series is a gap, then numbers -/
theorem Approx.split {s : Series (Double K)} {n p : Nat} {f : Nat → K} {δ : K} (h : Approx s n p f δ) :
    ∃ y : Nat → K, (∀ i, i < n - p → |y i - f (p + i)| ≤ δ) ∧ s.drop p = dser (n - p) y ∧ ∀ j, j < p → Flt.isNaN (ix s j) = true := by
  have ex : ∀ i, ∃ y : K, i < n - p → ix s (p + i) = rk y ∧ |y - f (p + i)| ≤ δ := fun i => by
    by_cases hi : i < n - p
    · obtain ⟨y, y1, y2⟩ := h.val (p + i) (by omega) (by omega)
      exact ⟨y, fun _ => ⟨y1, y2⟩⟩
    · exact ⟨0, fun q => absurd q hi⟩
  choose y hy using ex
  refine ⟨y, fun i hi => (hy i hi).2, series_ext (by simp [rser, h.len]) fun i hi => ?_, fun j hj => ?_⟩
  · replace hi : i < n - p := by simpa [h.len] using hi
    rw [ix_dropped, (hy i hi).1, ix_rk hi]
  · by_cases g : j < n
    · rw [h.gap j g hj]; rfl
    · have : ix s j = nan := by
        unfold ix
        rw [List.getD_eq_getElem?_getD, List.getElem?_eq_none (by rw [h.len]; omega)]; rfl
      rw [this]; rfl

theorem wsum_near {y f : Nat → K} {n w i : Nat} {δ : K} (hδ : 0 ≤ δ) (h : ∀ j, j < n → |y j - f j| ≤ δ) (hi : i < n) : |wsum y w i - wsum f w i| ≤ w * δ := by
  have e : wsum y w i - wsum f w i = ∑ j ∈ Ico (i + 1 - w) (i + 1), (y j - f j) := by
    unfold wsum
    rw [← Finset.sum_sub_distrib]
  rw [e]
  exact abs_window (n := n) h (by omega) hδ (by omega)

theorem clean_drop (s : Series (Double K)) (p : Nat) : (s.map clean).drop p = (s.drop p).map clean := by rw [List.map_drop]

theorem cleaned_nan {s : Series (Double K)} {j : Nat} (h : Flt.isNaN (ix s j) = true) : Flt.isNaN (ix (s.map clean) j) = true := by
  by_cases g : j < s.length
  · rw [ix_map g]
    unfold clean
    split_ifs
    · rfl
    · exact h
  · have : ix (s.map clean) j = nan := by
      unfold ix
      rw [List.getD_eq_getElem?_getD, List.getElem?_eq_none (by simpa using g)]; rfl
    rw [this]; rfl

/-- pandas' running sum of a computed series -/
theorem Approx.onlineSum {s : Series (Double K)} {n p : Nat} {f : Nat → K} {δ M : K} (h : Approx s n p f δ) (hδ : 0 ≤ δ)
    (hf : ∀ i, i < n → p ≤ i → |f i| ≤ M) (hM : tiny ≤ M) (hM2 : M + δ ≤ huge) (hn : n ≤ 2 ^ 44) {w mp : Nat} (hw : 1 ≤ w) (hmp : mp ≤ w) (hp : mp = w ∨ p = 0) :
    Approx (TA.onlineSum w mp s) n (p + mp - 1) (wsum f w) (w * (δ + 80 * n * (eps * (M + δ)))) := by
  obtain ⟨y, y1, y2, y3⟩ := h.split
  have hM0 : 0 < M := tiny_pos.trans_le hM
  have yb : ∀ j, j < n - p → |y j| ≤ M + δ := fun j hj => near_of_err (y1 j hj) (hf _ (by omega) (by omega))
  have len : (TA.onlineSum w mp s).length = n := by unfold TA.onlineSum; rw [length_tab, h.len]
  have e : ∀ i, i < n → ix (TA.onlineSum w mp s) i = (online .removeFirst SumSt.add SumSt.rem SumSt.init w (s.map clean) i).calcSum mp := fun i hi => by
    unfold TA.onlineSum
    rw [ix_tab_lt (by rw [h.len]; exact hi)]
  have row : ∀ i, p + i < n → ∃ t : K, ix (TA.onlineSum w mp s) (p + i) = (if mp ≤ min w (i + 1) then rk t else nan) ∧
      |t - wsum y w i| ≤ 80 * (i + 1) * (eps * ((min w (i + 1) : ℕ) * (M + δ))) := fun i hi => by
    obtain ⟨t, t1, t2⟩ := onlineSum_rk (n := n - p) (by omega) (hM.trans (by linarith)) hM2 yb (w := w) (mp := mp) (i := i) hw (by omega)
    refine ⟨t, ?_, t2⟩
    rw [← t1, e _ hi, online_skip hw (fun j hj => cleaned_nan (y3 j hj)) (by simp [h.len, hi]), clean_drop, y2]
    unfold TA.onlineSum
    rw [ix_tab_lt (by simp [rser]; omega)]
  refine ⟨len, fun i hi g => ?_, fun i hi g => ?_⟩
  · by_cases q : i < p
    · rw [e i hi, online_init hw (fun j hj => cleaned_nan (y3 j hj)) q (by simp [h.len, hi])]
      unfold SumSt.calcSum SumSt.init
      dsimp only
      rw [if_neg (by rintro ⟨-, q⟩; omega), if_neg (by omega)]
    · obtain ⟨k, rfl⟩ : ∃ k, i = p + k := ⟨i - p, by omega⟩
      obtain ⟨t, t1, -⟩ := row k hi
      rw [t1, if_neg (by omega)]
  · obtain ⟨k, rfl⟩ : ∃ k, i = p + k := ⟨i - p, by omega⟩
    obtain ⟨t, t1, t2⟩ := row k hi
    refine ⟨t, by rw [t1, if_pos (by omega)], ?_⟩
    have ew : wsum (fun j => f (p + j)) w k = wsum f w (p + k) := by
      rcases hp with rfl | rfl
      · unfold wsum
        rw [Finset.sum_Ico_add (fun j => f j) (k + 1 - mp) (k + 1) p]
        congr 1
        rw [show k + 1 - mp + p = p + k + 1 - mp by omega, show k + 1 + p = p + k + 1 by omega]
      · simp only [Nat.zero_add]
    have k1 : |wsum y w k - wsum f w (p + k)| ≤ w * δ := by
      rw [← ew]
      exact wsum_near hδ y1 (by omega)
    have k2 : 80 * ((k : K) + 1) * (eps * ((min w (k + 1) : ℕ) * (M + δ))) ≤ w * (80 * n * (eps * (M + δ))) := by
      have a : ((k : K) + 1) ≤ n := by exact_mod_cast (by omega : k + 1 ≤ n)
      have b : ((min w (k + 1) : ℕ) : K) ≤ w := by exact_mod_cast Nat.min_le_left _ _
      have e0 : 0 ≤ eps * (M + δ) := mul_nonneg eps_pos.le (by linarith)
      have c := mul_le_mul a b (Nat.cast_nonneg _) (Nat.cast_nonneg n)
      have d := mul_le_mul_of_nonneg_right c e0
      linarith
    have := abs_add_le (t - wsum y w k) (wsum y w k - wsum f w (p + k))
    rw [sub_add_sub_cancel] at this
    linarith

/-- pandas' running mean of a computed series without gaps -/
theorem Approx.onlineMean {s : Series (Double K)} {n : Nat} {f : Nat → K} {δ M : K} (h : Approx s n 0 f δ) (hδ : 0 ≤ δ)
    (hf : ∀ i, i < n → |f i| ≤ M) (hM : tiny ≤ M) (hM2 : M + δ ≤ huge) (hn : n ≤ 2 ^ 44) {w mp : Nat} (hw : 1 ≤ w) (hmp : mp ≤ w) :
    Approx (TA.onlineMean w mp s) n (mp - 1) (wmean f w) (δ + 85 * n * (eps * (M + δ))) := by
  obtain ⟨y, y1, y2, -⟩ := h.split
  simp only [Nat.sub_zero, Nat.zero_add, List.drop_zero] at y1 y2
  subst y2
  have hM0 : 0 < M := tiny_pos.trans_le hM
  obtain ⟨d1, d2⟩ := pandas_mean_drift hn (hM.trans (by linarith)) hM2 (fun j hj => near_of_err (y1 j hj) (hf j hj)) hw hmp
  have hD := (def_ser n y).rollMeanP hw hmp
  have e0 : 0 ≤ eps * (M + δ) := mul_nonneg eps_pos.le (by linarith)
  refine ⟨d1.trans hD.len, fun i hi g => ?_, fun i hi g => ?_⟩
  · rcases d2 i (by rw [hD.len]; exact hi) with q | ⟨a, b, -, q, -⟩
    · exact q.1
    · rw [hD.gap i hi g] at q; exact absurd q (by simp)
  · rcases d2 i (by rw [hD.len]; exact hi) with q | ⟨a, b, q1, q2, q3⟩
    · have := q.2
      rw [hD.val i hi g] at this; exact absurd this (by simp)
    · rw [hD.val i hi g] at q2
      cases Val.fin.inj q2
      refine ⟨a, q1, ?_⟩
      have m0 : (0 : K) < (min w (i + 1) : ℕ) := by exact_mod_cast (by omega : 0 < min w (i + 1))
      have k1 : |wmean y w i - wmean f w i| ≤ δ := by
        have : wmean y w i - wmean f w i = wmean (fun j => y j - f j) w i := by
          unfold wmean
          rw [← sub_div, ← Finset.sum_sub_distrib]
        rw [this]
        exact abs_wmean hw y1 hi hδ
      have k2 : ((i : K) + 1) * (85 * eps * (M + δ)) ≤ 85 * n * (eps * (M + δ)) := by
        have a : ((i : K) + 1) ≤ n := by exact_mod_cast hi
        have := mul_le_mul_of_nonneg_right a e0
        linarith
      have := abs_add_le (a - wmean y w i) (wmean y w i - wmean f w i)
      rw [sub_add_sub_cancel] at this
      linarith

theorem ratio_cap {r : K} (h : 1000 * eps * r ≤ 1) : 1000 * r ≤ cap := by
  have he := eps_pos (K := K)
  have e : (eps : K) * cap = 2 ^ (947 : ℤ) := by
    unfold eps cap; rw [← zpow_add₀ (by norm_num)]; norm_num only
  have e1 : (1 : K) ≤ eps * cap := by rw [e]; exact one_le_zpow₀ (by norm_num) (by norm_num)
  by_contra q
  push Not at q
  have := mul_lt_mul_of_pos_left q he
  clear e
  linarith

theorem ratio_huge {r : K} (h : 1000 * eps * r ≤ 1) : 1000 * r ≤ huge := by
  have he := eps_pos (K := K)
  have e : (eps : K) * huge = 2 ^ (847 : ℤ) := by
    unfold eps huge; rw [← zpow_add₀ (by norm_num)]; norm_num only
  have e1 : (1 : K) ≤ eps * huge := by rw [e]; exact one_le_zpow₀ (by norm_num) (by norm_num)
  by_contra q
  push Not at q
  have := mul_lt_mul_of_pos_left q he
  clear e
  linarith

/-- one more exponential average, of a series between `m` and `M` -/
theorem ema_between {s : Series (Double K)} {t : Series (Val K)} {n p : Nat} {f : Nat → K} {d m M : K} {w : Nat} (hw : 1 ≤ w) (hw2 : w ≤ 2 ^ 40) (hd : 0 ≤ d) (hd2 : d ≤ 100)
    (ha : Approx s n p f (d * (((w : K) + 1) * eps * M))) (ht : Def t n p f) (hf : ∀ i, i < n → p ≤ i → m ≤ f i ∧ f i ≤ M) (hm : 0 ≤ m) (hM : tiny ≤ M) (hM2 : M ≤ huge)
    (fillna : Bool) :
    ∃ g : Nat → K, Approx (ema s w fillna) n (p + if fillna then 0 else w - 1) g ((1.02 * d + 20) * (((w : K) + 1) * eps * M)) ∧
      Def (ema t w fillna) n (p + if fillna then 0 else w - 1) g ∧ ∀ i, i < n → p ≤ i → m ≤ g i ∧ g i ≤ M := by
  have hM0 : 0 < M := tiny_pos.trans_le hM
  have hW := eps_win (K := K) hw2
  have hcap := huge_cap (K := K)
  obtain ⟨E, hE⟩ : ∃ E : K, E = ((w : K) + 1) * eps := ⟨_, rfl⟩
  have hE0 : 0 < E := by rw [hE]; exact mul_pos (by positivity) eps_pos
  have hE1 : 1000 * E ≤ 1 := by rw [hE]; linarith
  rw [← hE] at ha ⊢
  have EM : E * M ≤ M / 1000 := by nlinarith
  have EM0 : 0 < E * M := mul_pos hE0 hM0
  have dEM : d * (E * M) ≤ M / 10 := by nlinarith
  have p1 : (0 : K) ≤ 2 / ((w : K) + 1) := by positivity
  have p2 : 2 / ((w : K) + 1) ≤ 1 := span_le w hw
  have ax : ∀ i, i < n → p ≤ i → |f i| ≤ M := fun i h1 h2 => by rw [abs_of_nonneg (hm.trans (hf i h1 h2).1)]; exact (hf i h1 h2).2
  refine ⟨_, (ha.ema hw hw2 (by positivity) ax hM (by linarith) fillna).mono ?_, ht.ema hw fillna, fun i h1 h2 => ⟨?_, ?_⟩⟩
  · have e : 20 * ((w : K) + 1) * eps * (M + d * (E * M)) = 20 * (E * M) + 20 * (d * (E * (E * M))) := by rw [hE]; ring
    have k : E * (E * M) ≤ E * M / 1000 := by nlinarith
    have k2 := mul_le_mul_of_nonneg_left k hd
    rw [e]
    linarith
  · exact emaRec_lower p1 p2 fun j hj => (hf _ (by omega) (by omega)).1
  · exact (le_abs_self _).trans (emaRec_abs p1 p2 fun j hj => ax _ (by omega) (by omega))

/-! ## TRIX -/

theorem nan_sub_double (v : Double K) : (nan -. v : Double K) = nan := by
  have : Val.sub Val.nan v = (Val.nan : Val K) := TA.nan_sub (K := K) v
  show (binary64 : Rounding K).rnd (Val.sub Val.nan v) = Val.nan
  rw [this]; rfl

theorem nan_div_double (v : Double K) : (nan /. v : Double K) = nan := by
  have : Val.div Val.nan v = (Val.nan : Val K) := TA.nan_div (K := K) v
  show (binary64 : Rounding K).rnd (Val.div Val.nan v) = Val.nan
  rw [this]; rfl

theorem sub_nan_double (v : Double K) : (v -. nan : Double K) = nan := by
  have : Val.sub v Val.nan = (Val.nan : Val K) := TA.sub_nan (K := K) v
  show (binary64 : Rounding K).rnd (Val.sub v Val.nan) = Val.nan
  rw [this]; rfl

/-- the relative change of a computed series in percent -/
theorem percent_near {s : Series (Double K)} {t : Series (Val K)} {n p : Nat} {g : Nat → K} {m r E : K} (a3 : Approx s n p g (61.208 * (E * (r * m)))) (d3 : Def t n p g) (hp : 1 ≤ p)
    (b : ∀ i, i < n → p ≤ i → m ≤ g i ∧ g i ≤ r * m) (hm : tiny ≤ m) (hr : 1 ≤ r) (hM2 : r * m ≤ huge) (hEe : 3 * eps ≤ E) (hEr : 1000 * (E * r ^ 2) ≤ 1) (v : Double K) (v' : Val K) :
    CloseTo (38000 * (E * r ^ 2)) (mulc (sdiv (ssub s (shift s 1 v)) (shift s 1 v)) (lit 100)) (mulc (sdiv (ssub t (shift t 1 v')) (shift t 1 v')) (lit 100)) := by
  have he := eps_pos (K := K)
  have hm0 : 0 < m := tiny_pos.trans_le hm
  have hr0 : 0 < r := by linarith
  obtain ⟨M, hM⟩ : ∃ M, M = r * m := ⟨_, rfl⟩
  rw [← hM] at hM2 a3 b
  have hmM : m ≤ M := by rw [hM]; exact le_mul_of_one_le_left hm0.le hr
  have hM0 : 0 < M := hm0.trans_le hmM
  have hM1 : tiny ≤ M := hm.trans hmM
  have hcap := huge_cap (K := K)
  rcases Nat.eq_zero_or_pos n with rfl | hn
  · refine ⟨by simp [a3.len, d3.len], fun i hi => ?_⟩
    simp [d3.len] at hi
  rw [change_first nan_sub_double nan_div_double (a3.gap 0 hn (by omega)), change_first (fun x => nan_sub x) (fun x => nan_div x) (d3.gap 0 hn (by omega))]
  have hE0 : 0 < E := by linarith
  have rr : r ≤ r ^ 2 := by nlinarith
  have hEr1 : E * r ≤ E * r ^ 2 := mul_le_mul_of_nonneg_left rr hE0.le
  have hE1 : E ≤ E * r := le_mul_of_one_le_right hE0.le hr
  have EM : E * M ≤ M / 1000 := by
    have := mul_le_mul_of_nonneg_right (by linarith : E ≤ 1 / 1000) hM0.le
    linarith
  have EM0 : 0 < E * M := mul_pos hE0 hM0
  have eM : 3 * (eps * M) ≤ E * M := by
    have := mul_le_mul_of_nonneg_right hEe hM0.le
    linarith
  have er : 3 * (eps * r) ≤ E * r ^ 2 := by
    have := mul_le_mul_of_nonneg_right hEe hr0.le
    linarith
  have hrc := ratio_cap (K := K) (r := r) (by linarith)
  have dif : ∀ i, i < n → p + 1 ≤ i → |g i - g (i - 1)| ≤ M := fun i h1 h2 => by
    have q1 := b i h1 (by omega)
    have q2 := b (i - 1) (by omega) (by omega)
    rw [abs_le]; constructor <;> linarith
  have dif2 : ∀ i, i < n → p + 1 ≤ i → |g i - g (i - 1)| ≤ r * |g (i - 1)| := fun i h1 h2 => by
    have q2 := b (i - 1) (by omega) (by omega)
    have := dif i h1 h2
    rw [hM] at this
    rw [abs_of_pos (hm0.trans_le q2.1)]
    exact this.trans (mul_le_mul_of_nonneg_left q2.1 hr0.le)
  have low : ∀ i, i < n → p + 1 ≤ i → m ≤ |g (i - 1)| := fun i h1 h2 => by
    have q := b (i - 1) (by omega) (by omega)
    rw [abs_of_pos (hm0.trans_le q.1)]; exact q.1
  have a4 := (a3.sub (a3.shift 1) (M := 2 * M) (fun i h1 h2 => by
    have := dif i h1 (by omega)
    linarith) (by linarith) (by linarith)).mono (δ' := 124 * (E * M)) (by linarith)
  have k1 : 2 * (124 * (E * M) + r * (61.208 * (E * M))) / m ≤ 371 * (E * r ^ 2) := by
    rw [div_le_iff₀ hm0, hM]
    have := mul_le_mul_of_nonneg_right hEr1 hm0.le
    have e : r * (61.208 * (E * (r * m))) = 61.208 * (E * r ^ 2 * m) := by ring
    have e0 : 0 < E * r ^ 2 * m := by positivity
    rw [e]
    linarith
  have k2 : E * M ≤ m / 1000 := by
    rw [hM]
    have := mul_le_mul_of_nonneg_right (hEr1.trans (by linarith : E * r ^ 2 ≤ 1 / 1000)) hm0.le
    linarith
  have a5 := a4.sdiv (a3.shift 1) hm0 (Q := r) (B := 2 * r) (fun i h1 h2 => low i h1 (by omega)) (by linarith) (fun i h1 h2 => dif2 i h1 (by omega))
    (by linarith) (by linarith [tiny_le_one (K := K)]) (by linarith)
  have a6 := (a5.mono (δ' := 372 * (E * r ^ 2)) (by linarith)).mulc lit100k (B := 200 * r) (fun i h1 h2 => by
    have : |(g i - g (i - 1)) / g (i - 1)| ≤ r := by
      rw [abs_div, div_le_iff₀ (hm0.trans_le (low i h1 (by omega)))]
      exact dif2 i h1 (by omega)
    rw [abs_of_pos (by norm_num : (0 : K) < 100)]
    linarith) (by linarith [tiny_le_one (K := K)]) (by linarith)
  have d6 := ((d3.ssub (d3.shift 1)).sdiv (d3.shift 1) (fun i h1 h2 _ => (hm0.trans_le (b (i - 1) (by omega) (by omega)).1).ne')).mulc 100
  have e : (Flt.lit 100 : Val K) = .fin 100 := by rw [lit_fin]; norm_num
  rw [← e] at d6
  refine (a6.close d6).mono ?_
  rw [abs_of_pos (by norm_num : (0 : K) < 100)]
  linarith

theorem trix_ok {F : Type} [Flt F] (s : Series F) {w : Nat} (hw : 1 ≤ w) : trix s w = .ok (TRIX.run s w false) := by
  unfold trix chkSpan
  rw [if_neg (by omega)]; rfl

/-- C126: TRIX in double precision, without filling, on closes between `m` and `r m`. -/
theorem trix_double (n : Nat) (c : Nat → K) {w : Nat} (hw : 2 ≤ w) (hw2 : w ≤ 2 ^ 40) {m r : K} (hc : ∀ i, i < n → m ≤ c i ∧ c i ≤ r * m) (hm : tiny ≤ m)
    (hr : 1 ≤ r) (hM2 : r * m ≤ huge) (hr2 : 1000 * ((w : K) + 1) * eps * r ^ 2 ≤ 1) :
    ∃ (out : Series (Double K)) (exact : Series (Val K)), trix (dser n c) w = .ok out ∧ trix (ser n c) w = .ok exact ∧
      CloseTo (38000 * ((w : K) + 1) * eps * r ^ 2) out exact := by
  have he := eps_pos (K := K)
  have hm0 : 0 < m := tiny_pos.trans_le hm
  have hw3 : (3 : K) ≤ (w : K) + 1 := by
    have : (2 : K) ≤ w := by exact_mod_cast hw
    linarith
  have hM1 : tiny ≤ r * m := hm.trans (le_mul_of_one_le_left hm0.le hr)
  have w1 : 1 ≤ w := by omega
  obtain ⟨g1, a1, d1, b1⟩ := ema_between (d := 0) w1 hw2 (le_refl _) (by norm_num)
    ((approx_ser (R := binary64) n c).mono (by rw [zero_mul])) (def_ser n c) (fun i hi _ => hc i hi) hm0.le hM1 hM2 false
  obtain ⟨g2, a2, d2, b2⟩ := ema_between (d := 20) w1 hw2 (by norm_num) (by norm_num) (a1.mono (by rw [mul_zero, zero_add])) d1
    (fun i h1 h2 => b1 i h1 (by omega)) hm0.le hM1 hM2 false
  obtain ⟨g3, a3, d3, b3⟩ := ema_between (d := 40.4) w1 hw2 (by norm_num) (by norm_num) (a2.mono (by norm_num)) d2
    (fun i h1 h2 => b2 i h1 (by omega)) hm0.le hM1 hM2 false
  refine ⟨_, _, trix_ok _ w1, trix_ok _ w1, ?_⟩
  have := percent_near (E := ((w : K) + 1) * eps) (a3.mono (by norm_num)) d3 (by simp only [Bool.false_eq_true, if_false]; omega)
    (fun i h1 h2 => b3 i h1 (by omega)) hm hr hM2 (mul_le_mul_of_nonneg_right hw3 he.le) (by linarith)
    (smean (ema (ema (ema (dser n c) w false) w false) w false)) (smean (ema (ema (ema (ser n c) w false) w false) w false))
  refine CloseTo.mono this (le_of_eq (by ring))

/-! ## mass index -/

/-- C126: the mass index in double precision, on bars whose range lies between `m` and `r m`. -/
theorem mass_double {n : Nat} (hn : n ≤ 2 ^ 44) {h l : Nat → K} {fast slow : Nat} (hf : 1 ≤ fast) (hf2 : fast ≤ 2 ^ 40) (hs : 1 ≤ slow) (fillna : Bool) {m r : K}
    (hx : ∀ i, i < n → m ≤ h i - l i ∧ h i - l i ≤ r * m) (hm : tiny ≤ m) (hr : 1 ≤ r) (hM2 : r * m ≤ huge) (hr2 : 1000 * ((fast : K) + 1) * eps * r ^ 2 ≤ 1) :
    ∃ exact : Series (Val K), massIndex (ser n h) (ser n l) fast slow fillna = .ok exact ∧
      CloseTo (10 * slow * (13 * ((fast : K) + 1) * r ^ 2 + 10 * n * r) * eps) (massPandas (dser n h) (dser n l) fast slow fillna) exact := by
  have he := eps_pos (K := K)
  have hm0 : 0 < m := tiny_pos.trans_le hm
  have hr0 : 0 < r := by linarith
  have hmM : m ≤ r * m := le_mul_of_one_le_left hm0.le hr
  have hM1 : tiny ≤ r * m := hm.trans hmM
  have hM0 : 0 < r * m := hm0.trans_le hmM
  have hcap := huge_cap (K := K)
  have hw2 : (2 : K) ≤ (fast : K) + 1 := by
    have : (1 : K) ≤ fast := by exact_mod_cast hf
    linarith
  obtain ⟨E, hE⟩ : ∃ E : K, E = ((fast : K) + 1) * eps := ⟨_, rfl⟩
  have hEe : 2 * eps ≤ E := by rw [hE]; exact mul_le_mul_of_nonneg_right hw2 he.le
  have hE0 : 0 < E := by linarith
  have hEr : 1000 * (E * r ^ 2) ≤ 1 := by rw [hE]; linarith
  have rr : r ≤ r ^ 2 := by nlinarith
  have hEr1 : E * r ≤ E * r ^ 2 := mul_le_mul_of_nonneg_left rr hE0.le
  have hE1 : E ≤ E * r := le_mul_of_one_le_right hE0.le hr
  have eM : 2 * (eps * (r * m)) ≤ E * (r * m) := by
    have := mul_le_mul_of_nonneg_right hEe hM0.le
    linarith
  have er : 2 * (eps * r) ≤ E * r ^ 2 := by
    have := mul_le_mul_of_nonneg_right hEe hr0.le
    linarith
  have ab : ∀ i, i < n → |h i - l i| ≤ r * m := fun i hi => by rw [abs_of_pos (hm0.trans_le (hx i hi).1)]; exact (hx i hi).2
  have a0 := ((approx_ser (R := binary64) n h).sub (approx_ser (R := binary64) n l) (M := r * m) (fun i hi _ => by linarith [ab i hi]) hM1 (by linarith)).mono
    (δ' := 1 * (((fast : K) + 1) * eps * (r * m))) (by rw [← hE]; linarith)
  have d0 := (def_ser n h).ssub (def_ser n l)
  rw [max_self] at a0 d0
  obtain ⟨g1, a1, d1, b1⟩ := ema_between (d := 1) hf hf2 (by norm_num) (by norm_num) a0 d0 (fun i hi _ => hx i hi) hm0.le hM1 hM2 fillna
  obtain ⟨g2, a2, d2, b2⟩ := ema_between (d := 21.02) hf hf2 (by norm_num) (by norm_num) (a1.mono (by norm_num)) d1
    (fun i h1 h2 => b1 i h1 (by omega)) hm0.le hM1 hM2 fillna
  rw [← hE] at a1 a2
  refine ⟨_, massPandas_exact hf fillna, ?_⟩
  obtain ⟨q, hq⟩ : ∃ q, q = if fillna = true then 0 else fast - 1 := ⟨_, rfl⟩
  rw [← hq] at a1 a2 d1 d2
  unfold massPandas
  generalize TA.ema (ssub (dser n h) (dser n l)) fast fillna = s1 at a1 a2
  generalize TA.ema s1 fast fillna = s2 at a2
  generalize TA.ema (ssub (ser n h) (ser n l)) fast fillna = t1 at d1 d2
  generalize TA.ema t1 fast fillna = t2 at d2
  have b1' : ∀ i, i < n → m ≤ g1 i ∧ g1 i ≤ r * m := fun i hi => b1 i hi (by omega)
  have b2' : ∀ i, i < n → q ≤ i → m ≤ g2 i ∧ g2 i ≤ r * m := fun i hi h2 => b2 i hi (by omega)
  have quo : ∀ i, i < n → q ≤ i → |g1 i| ≤ r * |g2 i| := fun i hi h2 => by
    have q1 := b1' i hi
    have q2 := b2' i hi h2
    rw [abs_of_pos (hm0.trans_le q1.1), abs_of_pos (hm0.trans_le q2.1)]
    exact q1.2.trans (mul_le_mul_of_nonneg_left q2.1 hr0.le)
  have k1 : 2 * ((1.02 * 1 + 20) * (E * (r * m)) + r * ((1.02 * 21.02 + 20) * (E * (r * m)))) / m ≤ 125 * (E * r ^ 2) := by
    rw [div_le_iff₀ hm0]
    have := mul_le_mul_of_nonneg_right hEr1 hm0.le
    have e : r * ((1.02 * 21.02 + 20) * (E * (r * m))) = (1.02 * 21.02 + 20) * (E * r ^ 2 * m) := by ring
    have e0 : 0 < E * r ^ 2 * m := by positivity
    rw [e]
    linarith
  have k2 : E * (r * m) ≤ m / 1000 := by
    have := mul_le_mul_of_nonneg_right (hEr1.trans (by linarith : E * r ^ 2 ≤ 1 / 1000)) hm0.le
    linarith
  have hrc := ratio_cap (K := K) (r := r) (by linarith)
  have a3 := (a1.sdiv a2 hm0 (Q := r) (B := 2 * r) (fun i h1 h2 => by
    have q2 := b2' i h1 (by omega)
    rw [abs_of_pos (hm0.trans_le q2.1)]; exact q2.1) (by linarith) (fun i h1 h2 => quo i h1 (by omega))
    (by linarith) (by linarith [tiny_le_one (K := K)]) (by linarith)).mono (δ' := 130 * (E * r ^ 2)) (by linarith)
  have d3 := d1.sdiv d2 (fun i h1 h2 _ => (hm0.trans_le (b2' i h1 (by omega)).1).ne')
  have rb : ∀ i, i < n → max (0 + q) (0 + q + q) ≤ i → |g1 i / g2 i| ≤ r := fun i h1 h2 => by
    have q2 := b2' i h1 (by omega)
    rw [abs_div, div_le_iff₀ (by rw [abs_of_pos (hm0.trans_le q2.1)]; exact hm0.trans_le q2.1)]
    exact quo i h1 (by omega)
  have hrh : r + 130 * (E * r ^ 2) ≤ huge := by
    have := ratio_huge (K := K) (r := r) (by linarith)
    linarith
  have a4 := a3.onlineSum (M := r) (by positivity) rb (by linarith [tiny_le_one (K := K)]) hrh hn hs (minp_le fillna slow) (by
    cases fillna with
    | true => right; rw [hq]; simp
    | false => left; rfl)
  have e4 : max (0 + q) (0 + q + q) + minp fillna slow - 1 = if fillna = true then 0 else 2 * fast + slow - 3 := by
    cases fillna with
    | true => rw [hq]; simp [minp]
    | false => rw [hq]; simp [minp]; omega
  have d4 : Def (TA.onlineSum slow (minp fillna slow) (sdiv t1 t2)) n (if fillna = true then 0 else 2 * fast + slow - 3) (wsum (fun i => g1 i / g2 i) slow) := by
    rw [online_sum, ← e4]
    cases fillna with
    | true =>
      have : max (0 + q) (0 + q + q) = 0 := by rw [hq]; simp
      rw [this] at d3 ⊢
      exact d3.rollSum0
    | false => exact d3.rollSum (.inl hs)
  rw [e4] at a4
  refine (((a4.fillOr (b := fillna) (by rintro rfl; rfl) _).close (d4.fillOr (b := fillna) (by rintro rfl; rfl) _))).mono ?_
  have s0 : (0 : K) ≤ slow := Nat.cast_nonneg _
  have n0 : (0 : K) ≤ n := Nat.cast_nonneg _
  have k3 : eps * (r + 130 * (E * r ^ 2)) ≤ 1.2 * (eps * r) := by
    have := mul_le_mul_of_nonneg_left (by linarith : r + 130 * (E * r ^ 2) ≤ 1.2 * r) he.le
    linarith
  have k4 := mul_le_mul_of_nonneg_left k3 (by linarith : 0 ≤ 80 * (n : K))
  have k5 : 0 ≤ n * (eps * r) := by positivity
  have k6 := mul_le_mul_of_nonneg_left (by linarith : 130 * (E * r ^ 2) + 80 * n * (eps * (r + 130 * (E * r ^ 2))) ≤ 130 * (E * r ^ 2) + 100 * (n * (eps * r))) s0
  refine k6.trans (le_of_eq ?_)
  rw [hE]; ring

/-! ## DPO -/

theorem sub_gap {s t : Series (Double K)} {n p i : Nat} {f : Nat → K} {δ : K} (hs : s.length = n) (h : Approx t n p f δ) (hi : i < n) (g : i < p) : ix (ssub s t) i = nan := by
  rw [ix_ssub (by rw [hs]; exact hi), h.gap i hi g]
  exact sub_nan_double _

/-- C126: DPO in double precision, without filling; the window is at least 3, so that no row is compared with the mean of all closes. -/
theorem dpo_double {n : Nat} (hn : n ≤ 2 ^ 44) {c : Nat → K} {w : Nat} (hw : 3 ≤ w) {M : K} (hc : ∀ i, i < n → |c i| ≤ M) (hM : tiny ≤ M) (hM2 : M ≤ huge) :
    CloseTo (90 * n * eps * M) (dpoPandas (dser n c) w false) (dpo (ser n c) w) := by
  have he := eps_pos (K := K)
  have hM0 : 0 < M := tiny_pos.trans_le hM
  have hcap := huge_cap (K := K)
  have a := (approx_ser (R := binary64) n c).onlineMean (le_refl _) hc hM (by linarith) hn (w := w) (mp := w) (by omega) (le_refl _)
  rw [zero_add, add_zero] at a
  have d := dpo_formula n c (w := w) (by omega) false
  simp only [Bool.false_eq_true, if_false] at d
  refine Approx.close (n := n) (p := w - 1) ?_ d
  have len : (shift (dser n c) (w / 2 + 1) (smean (dser n c))).length = n := by simp [rser]
  unfold dpoPandas checkFillna
  refine ⟨by simp [rser], fun i hi g => sub_gap len a hi g, fun i hi g => ?_⟩
  have n1 : (1 : K) ≤ n := by exact_mod_cast (by omega : 1 ≤ n)
  have eM : 0 < eps * M := mul_pos he hM0
  have neM : eps * M ≤ n * (eps * M) := le_mul_of_one_le_left eM.le n1
  have nM : n * (eps * M) ≤ M / 100 := by
    have := mul_le_mul_of_nonneg_right (eps_rows (K := K) hn) hM0.le
    linarith
  obtain ⟨y, y1, y2⟩ := a.val i hi g
  have yb := near_of_err y2 (abs_wmean (by omega) hc hi hM0.le)
  have cb := hc (i - (w / 2 + 1)) (by omega)
  obtain ⟨z, z1, z2⟩ := near_sub (x := c (i - (w / 2 + 1))) (y := y) (B := 3 * M) (by
    rw [abs_le] at cb yb ⊢
    constructor <;> linarith [cb.1, cb.2, yb.1, yb.2]) (by linarith) (by linarith)
  refine ⟨z, ?_, ?_⟩
  · show ix (ssub _ _) i = _
    rw [ix_ssub (by rw [len]; exact hi), ix_shift (by simpa [rser] using hi), if_neg (by omega), ix_rk (by omega)]
    rw [show minp false w = w from rfl, y1, z1]
  · rw [if_neg (by omega)]
    have e : (∑ j ∈ Ico (i + 1 - w) (i + 1), c j) / (min w (i + 1) : ℕ) = wmean c w i := rfl
    rw [e]
    rw [abs_le] at y2 z2 ⊢
    constructor <;> linarith [y2.1, y2.2, z2.1, z2.2]

/-! ## the original Keltner channel -/

theorem Approx.third {s : Series (Double K)} {n p : Nat} {f : Nat → K} {δ B : K} (h : Approx s n p f δ)
    (hB : ∀ i, i < n → p ≤ i → (|f i| + δ) / 3 ≤ B) (hB1 : tiny ≤ B) (hB2 : B ≤ cap) :
    Approx (divc s (lit 3)) n p (fun i => f i / 3) (δ / 3 + 1.001 * (eps * B)) := by
  have l3 : (lit 3 : Double K) = rk 3 := lit_double (k := 3) (by norm_num) (by norm_num) (by norm_num)
  refine ⟨by simp [h.len], fun i h1 h2 => ?_, fun i h1 h2 => ?_⟩
  · rw [ix_divc (by rw [h.len]; exact h1), h.gap i h1 h2]
    exact nan_div_double _
  · obtain ⟨y, y1, y2⟩ := h.val i h1 h2
    have yb := near_of_err y2 (le_refl _)
    obtain ⟨z, z1, z2⟩ := near_div (x := y) (y := 3) (B := B) (by norm_num) (by
      rw [abs_div, abs_of_pos (by norm_num : (0 : K) < 3)]
      have := hB i h1 h2
      have : |y| / 3 ≤ (|f i| + δ) / 3 := by linarith
      linarith) hB1 hB2
    rw [ix_divc (by rw [h.len]; exact h1), y1, l3, z1]
    refine ⟨z, rfl, ?_⟩
    have k : |y / 3 - f i / 3| ≤ δ / 3 := by
      rw [← sub_div, abs_div, abs_of_pos (by norm_num : (0 : K) < 3)]
      linarith
    have := abs_add_le (z - y / 3) (y / 3 - f i / 3)
    rw [sub_add_sub_cancel] at this
    show |z - f i / 3| ≤ _
    linarith

theorem lit4k : (lit 4 : Double K) = rk 4 := lit_double (k := 4) (by norm_num) (by norm_num) (by norm_num)
theorem litm2k : (lit (-2) : Double K) = rk (-2) := lit_double (k := -2) (by norm_num) (by norm_num) (by norm_num)

section kc
variable {n : Nat} {h l c : Nat → K} {M : K} (hh : ∀ i, i < n → |h i| ≤ M) (hl : ∀ i, i < n → |l i| ≤ M) (hc : ∀ i, i < n → |c i| ≤ M) (hM : tiny ≤ M) (hM2 : M ≤ huge)
include hh hl hc hM hM2

theorem tp_approx : Approx (typicalPrice (dser n h) (dser n l) (dser n c)) n 0 (fun i => (h i + l i + c i) / 3) (7 * (eps * M)) := by
  have hM0 : 0 < M := tiny_pos.trans_le hM
  have hcap := huge_cap (K := K)
  have he := eps_pos (K := K)
  have eM : eps * M ≤ M / 1000 := by
    have := mul_le_mul_of_nonneg_right (eps_small (K := K)) hM0.le
    linarith
  have eM0 : 0 < eps * M := mul_pos he hM0
  have a1 := (approx_ser (R := binary64) n h).sadd (approx_ser (R := binary64) n l) (B := 2 * M) (fun i hi _ => by
    have := abs_add_le (h i) (l i)
    linarith [hh i hi, hl i hi]) (by linarith) (by linarith)
  have b1 : ∀ i, i < n → |h i + l i| ≤ 2 * M := fun i hi => by
    have := abs_add_le (h i) (l i)
    linarith [hh i hi, hl i hi]
  have a2 := a1.sadd (approx_ser (R := binary64) n c) (B := 4 * M) (fun i hi _ => by
    have := abs_add_le (h i + l i) (c i)
    linarith [b1 i hi, hc i hi]) (by linarith) (by linarith)
  have a3 := a2.third (B := 2 * M) (fun i hi _ => by
    have := abs_add_le (h i + l i) (c i)
    linarith [b1 i hi, hc i hi]) (by linarith) (by linarith)
  simp only [max_self] at a3
  exact a3.mono (by linarith)

theorem lower_approx (a b : K) {s t : Double K} (hs : s = rk a) (ht : t = rk b) (ha : |a| ≤ 4) (hb : |b| ≤ 4) (hab : |a| + |b| ≤ 6) :
    Approx (divc (sadd (sadd (cmul s (dser n h)) (cmul t (dser n l))) (dser n c)) (lit 3)) n 0 (fun i => (a * h i + b * l i + c i) / 3) (16 * (eps * M)) ∧
      ∀ i, i < n → |(a * h i + b * l i + c i) / 3| ≤ 7 / 3 * M := by
  have hM0 : 0 < M := tiny_pos.trans_le hM
  have hcap := huge_cap (K := K)
  have he := eps_pos (K := K)
  have eM : eps * M ≤ M / 1000 := by
    have := mul_le_mul_of_nonneg_right (eps_small (K := K)) hM0.le
    linarith
  have eM0 : 0 < eps * M := mul_pos he hM0
  have m4 : ∀ {u x : K}, |u| ≤ 4 → |x| ≤ M → |u| * (|x| + 0) ≤ 4 * M := fun {u x} h1 h2 => by
    rw [add_zero]; exact mul_le_mul h1 h2 (abs_nonneg _) (by norm_num)
  have a1 := (approx_ser (R := binary64) n h).cmul hs (B := 4 * M) (fun i hi _ => m4 ha (hh i hi)) (by linarith) (by linarith)
  have a2 := (approx_ser (R := binary64) n l).cmul ht (B := 4 * M) (fun i hi _ => m4 hb (hl i hi)) (by linarith) (by linarith)
  rw [mul_zero, zero_add] at a1 a2
  have b1 : ∀ i, i < n → |a * h i + b * l i| ≤ 6 * M := fun i hi => by
    refine (abs_add_le _ _).trans ?_
    rw [abs_mul, abs_mul]
    have k1 := mul_le_mul_of_nonneg_left (hh i hi) (abs_nonneg a)
    have k2 := mul_le_mul_of_nonneg_left (hl i hi) (abs_nonneg b)
    have k3 := mul_le_mul_of_nonneg_right hab hM0.le
    linarith
  have b2 : ∀ i, i < n → |a * h i + b * l i + c i| ≤ 7 * M := fun i hi => by
    have := abs_add_le (a * h i + b * l i) (c i)
    linarith [b1 i hi, hc i hi]
  have a3 := a1.sadd a2 (B := 7 * M) (fun i hi _ => by linarith [b1 i hi]) (by linarith) (by linarith)
  have a4 := a3.sadd (approx_ser (R := binary64) n c) (B := 8 * M) (fun i hi _ => by linarith [b2 i hi]) (by linarith) (by linarith)
  have a5 := a4.third (B := 3 * M) (fun i hi _ => by linarith [b2 i hi]) (by linarith) (by linarith)
  simp only [max_self] at a5
  refine ⟨a5.mono (by linarith), fun i hi => ?_⟩
  rw [abs_div, abs_of_pos (by norm_num : (0 : K) < 3)]
  linarith [b2 i hi]

theorem upper_approx (a b : K) {s t : Double K} (hs : s = rk a) (ht : t = rk b) (ha : |a| ≤ 4) (hb : |b| ≤ 4) (hab : |a| + |b| ≤ 6) :
    Approx (divc (sadd (ssub (cmul s (dser n h)) (cmul t (dser n l))) (dser n c)) (lit 3)) n 0 (fun i => (a * h i - b * l i + c i) / 3) (16 * (eps * M)) ∧
      ∀ i, i < n → |(a * h i - b * l i + c i) / 3| ≤ 7 / 3 * M := by
  have hM0 : 0 < M := tiny_pos.trans_le hM
  have hcap := huge_cap (K := K)
  have he := eps_pos (K := K)
  have eM : eps * M ≤ M / 1000 := by
    have := mul_le_mul_of_nonneg_right (eps_small (K := K)) hM0.le
    linarith
  have eM0 : 0 < eps * M := mul_pos he hM0
  have m4 : ∀ {u x : K}, |u| ≤ 4 → |x| ≤ M → |u| * (|x| + 0) ≤ 4 * M := fun {u x} h1 h2 => by
    rw [add_zero]; exact mul_le_mul h1 h2 (abs_nonneg _) (by norm_num)
  have a1 := (approx_ser (R := binary64) n h).cmul hs (B := 4 * M) (fun i hi _ => m4 ha (hh i hi)) (by linarith) (by linarith)
  have a2 := (approx_ser (R := binary64) n l).cmul ht (B := 4 * M) (fun i hi _ => m4 hb (hl i hi)) (by linarith) (by linarith)
  rw [mul_zero, zero_add] at a1 a2
  have b1 : ∀ i, i < n → |a * h i - b * l i| ≤ 6 * M := fun i hi => by
    refine (abs_sub _ _).trans ?_
    rw [abs_mul, abs_mul]
    have k1 := mul_le_mul_of_nonneg_left (hh i hi) (abs_nonneg a)
    have k2 := mul_le_mul_of_nonneg_left (hl i hi) (abs_nonneg b)
    have k3 := mul_le_mul_of_nonneg_right hab hM0.le
    linarith
  have b2 : ∀ i, i < n → |a * h i - b * l i + c i| ≤ 7 * M := fun i hi => by
    have := abs_add_le (a * h i - b * l i) (c i)
    linarith [b1 i hi, hc i hi]
  have a3 := a1.sub a2 (M := 7 * M) (fun i hi _ => by linarith [b1 i hi]) (by linarith) (by linarith)
  have a4 := a3.sadd (approx_ser (R := binary64) n c) (B := 8 * M) (fun i hi _ => by linarith [b2 i hi]) (by linarith) (by linarith)
  have a5 := a4.third (B := 3 * M) (fun i hi _ => by linarith [b2 i hi]) (by linarith) (by linarith)
  simp only [max_self] at a5
  refine ⟨a5.mono (by linarith), fun i hi => ?_⟩
  rw [abs_div, abs_of_pos (by norm_num : (0 : K) < 3)]
  linarith [b2 i hi]

/-- C126: the three lines of the original Keltner channel in double precision, with pandas' rolling mean. -/
theorem keltner_original_double (hn : n ≤ 2 ^ 44) (hM3 : 3 * M ≤ huge) {w : Nat} (hw : 1 ≤ w) (fillna : Bool) :
    ∃ e : Keltner (Val K), (∀ wa m, Keltner.new (ser n h) (ser n l) (ser n c) w wa fillna true m = .ok e) ∧
      CloseTo (95 * n * eps * M) (keltnerPandas (dser n h) (dser n l) (dser n c) w fillna).mband e.mband ∧
      CloseTo (220 * n * eps * M) (keltnerPandas (dser n h) (dser n l) (dser n c) w fillna).hband e.hband ∧
      CloseTo (220 * n * eps * M) (keltnerPandas (dser n h) (dser n l) (dser n c) w fillna).lband e.lband := by
  have hM0 : 0 < M := tiny_pos.trans_le hM
  have he := eps_pos (K := K)
  have eM : eps * M ≤ M / 1000 := by
    have := mul_le_mul_of_nonneg_right (eps_small (K := K)) hM0.le
    linarith
  have eM0 : 0 < eps * M := mul_pos he hM0
  have eeM : eps * (eps * M) ≤ eps * M / 1000 := by
    have := mul_le_mul_of_nonneg_right (eps_small (K := K)) eM0.le
    linarith
  have ok : ∀ wa m, Keltner.new (ser n h) (ser n l) (ser n c) w wa fillna true m = .ok (Keltner.runOriginal (ser n h) (ser n l) (ser n c) w fillna) := fun wa m => by
    unfold Keltner.new
    rw [if_pos rfl]
    unfold chkRoll
    rw [if_neg (by split_ifs <;> omega)]; rfl
  have S := keltner_original_formula hw (ok 0 (.fin 0))
  refine ⟨_, ok, ?_⟩
  rcases Nat.eq_zero_or_pos n with rfl | hn0
  · refine ⟨⟨?_, fun i hi => ?_⟩, ⟨?_, fun i hi => ?_⟩, ⟨?_, fun i hi => ?_⟩⟩
    · rw [S.mband.len]; simp [Keltner.mband, keltnerPandas, TA.onlineMean, typicalPrice, rser]
    · rw [S.mband.len] at hi; omega
    · rw [S.hband.len]; simp [Keltner.hband, keltnerPandas, TA.onlineMean, rser]
    · rw [S.hband.len] at hi; omega
    · rw [S.lband.len]; simp [Keltner.lband, keltnerPandas, TA.onlineMean, rser]
    · rw [S.lband.len] at hi; omega
  have n1 : (1 : K) ≤ n := by exact_mod_cast hn0
  have neM : eps * M ≤ n * (eps * M) := le_mul_of_one_le_left eM0.le n1
  have neeM : n * (eps * (eps * M)) ≤ n * (eps * M) / 1000 := by
    have := mul_le_mul_of_nonneg_left eeM (by linarith : (0 : K) ≤ n)
    linarith
  have b0 : ∀ i, i < n → |(h i + l i + c i) / 3| ≤ M := fun i hi => by
    rw [abs_div, abs_of_pos (by norm_num : (0 : K) < 3)]
    have k1 := abs_add_le (h i) (l i)
    have k2 := abs_add_le (h i + l i) (c i)
    linarith [hh i hi, hl i hi, hc i hi]
  have a0 := (tp_approx hh hl hc hM hM2).onlineMean (by positivity) b0 hM (by linarith) hn hw (mp := if fillna = true then 1 else w) (by split_ifs <;> omega)
  obtain ⟨u1, u2⟩ := upper_approx hh hl hc hM hM2 4 2 lit4k lit2k (by norm_num) (by norm_num) (by norm_num)
  obtain ⟨v1, v2⟩ := lower_approx hh hl hc hM hM2 (-2) 4 litm2k lit4k (by norm_num) (by norm_num) (by norm_num)
  have a1 := u1.onlineMean (by positivity) u2 (by linarith) (by linarith) hn hw (mp := 0) (Nat.zero_le _)
  have a2 := v1.onlineMean (by positivity) v2 (by linarith) (by linarith) hn hw (mp := 0) (Nat.zero_le _)
  have e0 : (if fillna = true then 1 else w) - 1 = if fillna = true then 0 else w - 1 := by split_ifs <;> omega
  rw [e0] at a0
  refine ⟨((a0.fillOr (b := fillna) (by rintro rfl; rfl) .back).close S.mband).mono ?_, ((a1.fillOr (b := fillna) (fun _ => rfl) .back).close S.hband).mono ?_,
    ((a2.fillOr (b := fillna) (fun _ => rfl) .back).close S.lband).mono ?_⟩
  · linarith
  · linarith
  · linarith

end kc

/-! ## the width of the Donchian channel -/

theorem Approx.of_def {s : Series (Double K)} {n p : Nat} {f : Nat → K} (h : Def (s : Series (Val K)) n p f) : Approx s n p f 0 :=
  ⟨h.len, fun i h1 h2 => h.gap i h1 h2, fun i h1 h2 => ⟨f i, h.val i h1 h2, by simp⟩⟩

/-- C126: the width of the Donchian channel in double precision; closes between `m` and `r m`, highs and lows at most `r m` in size. -/
theorem donchian_width_double {n : Nat} (hn : n ≤ 2 ^ 44) {h l c : Nat → K} {m r : K} (hm : tiny ≤ m) (hr : 1 ≤ r) (hM2 : r * m ≤ huge) (hc : ∀ i, i < n → m ≤ c i ∧ c i ≤ r * m)
    (hh : ∀ i, i < n → |h i| ≤ r * m) (hl : ∀ i, i < n → |l i| ≤ r * m) {w : Nat} (hw : 1 ≤ w) (offset : Int) (fillna : Bool) (hr2 : 1000 * n * eps * r ^ 2 ≤ 1) :
    ∃ (o : Donchian (Double K)) (e : Donchian (Val K)), Donchian.new (dser n h) (dser n l) (dser n c) w offset fillna = .ok o ∧
      Donchian.new (ser n h) (ser n l) (ser n c) w offset fillna = .ok e ∧ CloseTo (36000 * n * eps * r ^ 2) o.wbandPandas e.wband := by
  have he := eps_pos (K := K)
  obtain ⟨mp, hmp⟩ : ∃ mp, mp = if fillna then 1 else w := ⟨_, rfl⟩
  have hmw : mp ≤ w := by rw [hmp]; split_ifs <;> omega
  obtain ⟨hX, hN⟩ := extremes n h l hw hmw
  refine ⟨⟨dser n c, rollMax w mp (dser n h), rollMin w mp (dser n l), w, mp, offset, fillna⟩,
    ⟨ser n c, rollMax w mp (ser n h), rollMin w mp (ser n l), w, mp, offset, fillna⟩, ?_, ?_, ?_⟩
  · unfold Donchian.new
    simp only [← hmp, chkRoll]
    rw [if_neg (by omega)]; rfl
  · unfold Donchian.new
    simp only [← hmp, chkRoll]
    rw [if_neg (by omega)]; rfl
  have hm0 : 0 < m := tiny_pos.trans_le hm
  have hr0 : 0 < r := by linarith
  obtain ⟨M, hM⟩ : ∃ M, M = r * m := ⟨_, rfl⟩
  rw [← hM] at hM2 hc hh hl
  have hmM : m ≤ M := by rw [hM]; exact le_mul_of_one_le_left hm0.le hr
  have hM0 : 0 < M := hm0.trans_le hmM
  have hM1 : tiny ≤ M := hm.trans hmM
  have hcap := huge_cap (K := K)
  have key : CloseTo (36000 * n * eps * r ^ 2) (mulc (sdiv (ssub (rollMax w mp (dser n h)) (rollMin w mp (dser n l))) (TA.onlineMean w mp (dser n c))) (lit 100))
      (mulc (sdiv (ssub (rollMax w mp (ser n h)) (rollMin w mp (ser n l))) (rollMean w mp (ser n c))) (lit 100)) := by
    have hX' : Approx (rollMax w mp (dser n h)) n (mp - 1) (wmax h w) 0 := Approx.of_def hX
    have hN' : Approx (rollMin w mp (dser n l)) n (mp - 1) (wmin l w) 0 := Approx.of_def hN
    have hD := (def_ser n c).rollMeanP hw hmw
    have cb : ∀ i, i < n → |c i| ≤ M := fun i hi => by rw [abs_of_pos (hm0.trans_le (hc i hi).1)]; exact (hc i hi).2
    have hA := (approx_ser (R := binary64) n c).onlineMean (le_refl _) cb hM1 (by linarith) hn hw hmw
    rw [zero_add, add_zero] at hA
    rcases Nat.eq_zero_or_pos n with rfl | hn0
    · refine ⟨by simp [TA.onlineMean, rser, ser], fun i hi => ?_⟩
      simp [ser] at hi
    have n1 : (1 : K) ≤ n := by exact_mod_cast hn0
    obtain ⟨E, hE⟩ : ∃ E : K, E = n * eps := ⟨_, rfl⟩
    have hEe : eps ≤ E := by rw [hE]; exact le_mul_of_one_le_left he.le n1
    have hE0 : 0 < E := by linarith
    have hEr : 1000 * (E * r ^ 2) ≤ 1 := by rw [hE]; linarith
    have rr : r ≤ r ^ 2 := by nlinarith
    have hEr1 : E * r ≤ E * r ^ 2 := mul_le_mul_of_nonneg_left rr hE0.le
    have Er0 : 0 < E * r ^ 2 := by positivity
    have er : eps * r ≤ E * r := mul_le_mul_of_nonneg_right hEe hr0.le
    have hrc := ratio_cap (K := K) (r := r) (by linarith)
    have eA : 85 * n * (eps * M) = 85 * (E * M) := by rw [hE]; ring
    rw [eA] at hA
    have eM : eps * M ≤ E * M := mul_le_mul_of_nonneg_right hEe hM0.le
    have EM0 : 0 < E * M := mul_pos hE0 hM0
    have dif : ∀ i, i < n → |wmax h w i - wmin l w i| ≤ 2 * M := fun i hi => by
      have k1 := wmax_bound hh hw hi
      have k2 := wmin_bound hl hw hi
      have := abs_sub (wmax h w i) (wmin l w i)
      linarith
    have low : ∀ i, i < n → m ≤ wmean c w i := fun i hi => by
      have m0 : (0 : K) < (min w (i + 1) : ℕ) := by exact_mod_cast (by omega : 0 < min w (i + 1))
      unfold wmean
      rw [le_div_iff₀ m0]
      have := Finset.card_nsmul_le_sum (Ico (i + 1 - w) (i + 1)) c m (fun j hj => (hc j (by rw [mem_Ico] at hj; omega)).1)
      rw [Nat.card_Ico, nsmul_eq_mul, show i + 1 - (i + 1 - w) = min w (i + 1) by omega] at this
      linarith
    have low' : ∀ i, i < n → m ≤ |wmean c w i| := fun i hi => (low i hi).trans (le_abs_self _)
    have quo : ∀ i, i < n → |wmax h w i - wmin l w i| ≤ 2 * r * |wmean c w i| := fun i hi => by
      have k1 := dif i hi
      have k2 := mul_le_mul_of_nonneg_left (low' i hi) hr0.le
      rw [hM] at k1
      linarith
    have a4 := (hX'.sub hN' (M := 2 * M) (fun i h1 h2 => by linarith [dif i h1]) (by linarith) (by linarith)).mono (δ' := 4 * (E * M)) (by linarith)
    rw [max_self] at a4
    have k1 : 2 * (4 * (E * M) + 2 * r * (85 * (E * M))) / m ≤ 350 * (E * r ^ 2) := by
      rw [div_le_iff₀ hm0, hM]
      have := mul_le_mul_of_nonneg_right hEr1 hm0.le
      have e : 2 * r * (85 * (E * (r * m))) = 170 * (E * r ^ 2 * m) := by ring
      have e0 : 0 < E * r ^ 2 * m := by positivity
      rw [e]
      linarith
    have k2 : E * M ≤ m / 1000 := by
      rw [hM]
      have := mul_le_mul_of_nonneg_right (hEr1.trans (by linarith : E * r ^ 2 ≤ 1 / 1000)) hm0.le
      linarith
    have a5 := a4.sdiv hA hm0 (Q := 2 * r) (B := 3 * r) (fun i h1 h2 => low' i h1) (by linarith) (fun i h1 h2 => quo i h1) (by linarith) (by linarith [tiny_le_one (K := K)]) (by linarith)
    rw [max_self] at a5
    have a6 := (a5.mono (δ' := 354 * (E * r ^ 2)) (by linarith)).mulc lit100k (B := 300 * r) (fun i h1 h2 => by
      have : |(wmax h w i - wmin l w i) / wmean c w i| ≤ 2 * r := by
        rw [abs_div, div_le_iff₀ (hm0.trans_le (low' i h1))]
        exact quo i h1
      rw [abs_of_pos (by norm_num : (0 : K) < 100)]
      linarith) (by linarith [tiny_le_one (K := K)]) (by linarith)
    have d5 := (hX.ssub hN)
    rw [max_self] at d5
    have d6 := (d5.sdiv hD (fun i h1 h2 _ => (hm0.trans_le (low i h1)).ne')).mulc 100
    rw [max_self] at d6
    have e : (Flt.lit 100 : Val K) = .fin 100 := by rw [lit_fin]; norm_num
    rw [← e] at d6
    refine (a6.close d6).mono ?_
    rw [abs_of_pos (by norm_num : (0 : K) < 100)]
    have : 36000 * n * eps * r ^ 2 = 36000 * (E * r ^ 2) := by rw [hE]; ring
    rw [this]
    linarith
  have key2 := key.const (y := 0) (z := 0) lit0k (lit_exact (k := 0) (q := 0) (by norm_num) (by norm_num))
    (by rw [sub_self, abs_zero]; positivity) fillna
  unfold Donchian.wbandPandas Donchian.wband Donchian.off
  dsimp only
  split_ifs
  · exact key2.shiftInt offset
  · exact key2

end dbl

/-! ## examples -/

/-- `wavy`, half a point higher -/
def wavyH (i : Nat) : ℚ := wavy i + 1 / 2
/-- `wavy`, with growing ranges below -/
def wavyL (i : Nat) : ℚ := wavy i - i

example : trix (dser 6 wavy) 2 = .ok ([Val.nan, Val.nan, Val.nan, Val.nan, rk (5630866249322159 / 1125899906842624), rk (859068137012859 / 562949953421312)] : Series (Double ℚ)) := by
  decide +kernel
example : trix (ser 6 wavy) 2 = .ok [.nan, .nan, .nan, .nan, .fin (20600 / 4119), .fin (264 / 173)] := by decide +kernel
example : massPandas (dser 4 wavyH) (dser 4 wavyL) 2 2 false = ([Val.nan, Val.nan, Val.nan, rk (1311640314027213 / 562949953421312)] : Series (Double ℚ)) := by decide +kernel
example : massIndex (ser 4 wavyH) (ser 4 wavyL) 2 2 = .ok [.nan, .nan, .nan, .fin (93186 / 39995)] := by decide +kernel
example : dpoPandas (dser 6 wavy) 3 false = ([Val.nan, Val.nan, rk (-1 / 2), rk (-1 / 2), rk (-3 / 2), rk (1 / 2)] : Series (Double ℚ)) := by decide +kernel
example : dpo (ser 6 wavy) 3 = [.nan, .nan, .fin (-1 / 2), .fin (-1 / 2), .fin (-3 / 2), .fin (1 / 2)] := by decide +kernel
example : (keltnerPandas (dser 3 wavyH) (dser 3 wavyL) (dser 3 wavy) 2 false).hband
    = ([rk (6004799503160661 / 562949953421312), rk (23 / 2), rk (3494980960823979 / 281474976710656)] : Series (Double ℚ)) := by decide +kernel
example : (Keltner.runOriginal (ser 3 wavyH) (ser 3 wavyL) (ser 3 wavy) 2 false).hband = [.fin (32 / 3), .fin (23 / 2), .fin (149 / 12)] := by decide +kernel

/-- the bound for TRIX, for a million rows of `zigzag` and window 15: less than `10^-9` -/
example : ∃ (out : Series (Double ℚ)) (exact : Series (Val ℚ)), trix (dser 1000000 zigzag) 15 = .ok out ∧ trix (ser 1000000 zigzag) 15 = .ok exact ∧
    CloseTo (38000 * (((15 : ℕ) : ℚ) + 1) * eps * 2 ^ 2) out exact ∧ 38000 * (((15 : ℕ) : ℚ) + 1) * eps * 2 ^ 2 < 1 / 10 ^ 9 := by
  have hu : (eps : ℚ) = 1 / 2 ^ 53 := by unfold eps; norm_num
  obtain ⟨out, exact, h1, h2, h3⟩ := trix_double 1000000 zigzag (w := 15) (by norm_num) (by norm_num) (m := 1) (r := 2)
    (fun i _ => by unfold zigzag; split_ifs <;> norm_num) tiny_le_one (by norm_num)
    (by
      have h1 : (2 : ℚ) ^ (1 : ℤ) ≤ 2 ^ (900 : ℤ) := zpow_le_zpow_right₀ (by norm_num) (by norm_num)
      unfold huge
      exact le_trans (by norm_num) h1) (by rw [hu]; norm_num)
  exact ⟨out, exact, h1, h2, h3, by rw [hu]; norm_num⟩

/-- the bound for the mass index, for a million rows with ranges 1 and 2, windows 9 and 25: less than `10^-6` -/
example : ∃ exact : Series (Val ℚ), massIndex (ser 1000000 zigzag) (ser 1000000 fun _ => 0) 9 25 = .ok exact ∧
    CloseTo (1 / 10 ^ 6 : ℚ) (massPandas (dser 1000000 zigzag) (dser 1000000 fun _ => 0) 9 25 false) exact := by
  have hu : (eps : ℚ) = 1 / 2 ^ 53 := by unfold eps; norm_num
  obtain ⟨exact, h1, h2⟩ := mass_double (n := 1000000) (by norm_num) (h := zigzag) (l := fun _ => 0) (fast := 9) (slow := 25) (by norm_num) (by norm_num) (by norm_num) false (m := 1) (r := 2)
    (fun i _ => by unfold zigzag; split_ifs <;> norm_num) tiny_le_one (by norm_num)
    (by
      have h1 : (2 : ℚ) ^ (1 : ℤ) ≤ 2 ^ (900 : ℤ) := zpow_le_zpow_right₀ (by norm_num) (by norm_num)
      unfold huge
      exact le_trans (by norm_num) h1) (by rw [hu]; norm_num)
  exact ⟨exact, h1, h2.mono (by rw [hu]; norm_num)⟩

end TA
