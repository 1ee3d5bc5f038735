import Verif.Props.C61
import Verif.Props.C124
import Verif.Props.C127

/-!
# C134 — the stochastic's signal line, the smoothed ease of movement and StochRSI in double precision

The three take pandas' rolling mean of a computed column that starts with NaN rows (`ta/momentum.py:268-279`,
`ta/volume.py:245-254`, `ta/momentum.py:587-619`); StochRSI also takes rolling extremes of a computed column.
-/

set_option linter.unusedSectionVars false

namespace TA
open Finset

section any
variable {F : Type} [Flt F]

/-- `.stoch_signal()` with pandas' own rolling mean -/
def stochSignalPandas (high low close : Series F) (window smooth : Nat) (fillna : Bool) : Series F :=
  checkFillna fillna (.const (lit 50)) (onlineMean smooth (minp fillna smooth) (Stoch.k high low close window fillna))

/-- `.sma_ease_of_movement()` with pandas' own rolling mean -/
def smaEomPandas (high low volume : Series F) (window : Nat) (fillna : Bool) : Series F :=
  checkFillna fillna (.const (lit 0)) (onlineMean window (minp fillna window) (EOM.run high low volume))

/-- `StochRSIIndicator(...)` with pandas' own rolling mean -/
def StochRSI.newPandas (close : Series F) (window smooth1 smooth2 : Nat) (fillna : Bool) : Except PyErr (StochRSI F) := do
  let r ← rsi close window fillna
  let raw := StochRSI.ofRsi r window
  return { raw := raw, k := onlineMean smooth1 smooth1 raw, smooth2 := smooth2, fillna := fillna }

/-- `.stochrsi_d()` with pandas' own rolling mean -/
def StochRSI.dPandas (o : StochRSI F) : Series F :=
  checkFillna o.fillna (.const (lit 0)) (onlineMean o.smooth2 o.smooth2 o.k)

end any

variable {K : Type} [Field K] [LinearOrder K] [IsStrictOrderedRing K] [FloorRing K]

/-- in exact arithmetic these are the model's -/
theorem smoothed_exact (h l c v : Series (Val K)) (w s s' : Nat) (fillna : Bool) :
    stochSignalPandas h l c w s fillna = stochSignal h l c w s fillna ∧ smaEomPandas h l v w fillna = smaEaseOfMovement h l v w fillna ∧
    StochRSI.newPandas c w s s' fillna = StochRSI.new c w s s' fillna ∧ ∀ o : StochRSI (Val K), o.dPandas = o.stochrsiD := by
  refine ⟨?_, ?_, ?_, fun o => ?_⟩
  · unfold stochSignalPandas stochSignal; rw [online_mean]
  · unfold smaEomPandas smaEaseOfMovement; rw [online_mean]
  · unfold StochRSI.newPandas StochRSI.new; simp only [online_mean]
  · unfold StochRSI.dPandas StochRSI.stochrsiD; rw [online_mean]

/-! ## means and extremes of a computed column -/

/-- pandas' running mean of a computed column, full windows only -/
theorem Approx.onlineMeanFull {s : Series (Double K)} {n p : Nat} {f : Nat → K} {δ M : K} (h : Approx s n p f δ) (hδ : 0 ≤ δ)
    (hf : ∀ i, i < n → p ≤ i → |f i| ≤ M) (hM : tiny ≤ M) (hM2 : M + δ ≤ huge) (hn : n ≤ 2 ^ 44) {w : Nat} (hw : 1 ≤ w) :
    Approx (TA.onlineMean w w s) n (p + w - 1) (fun i => wsum f w i / w) (δ + 85 * n * (eps * (M + δ))) := by
  obtain ⟨y, y1, y2, y3⟩ := h.split
  have hM0 : 0 < M := tiny_pos.trans_le hM
  have A := (approx_ser (R := binary64) (n - p) y).onlineMean (M := M + δ) (le_refl _) (fun i hi => near_of_err (y1 i hi) (hf _ (by omega) (by omega))) (hM.trans (by linarith))
    (by linarith) (by omega) hw (le_refl w)
  rw [show rser (n - p) y = dser (n - p) y from rfl, ← y2, zero_add] at A
  have len : (TA.onlineMean w w s).length = n := by unfold TA.onlineMean; rw [length_tab, h.len]
  have e : ∀ i, i < n → ix (TA.onlineMean w w s) i = (online .removeFirst SumSt.add SumSt.rem SumSt.init w (s.map clean) i).calcMean w := fun i hi => by
    unfold TA.onlineMean
    rw [ix_tab_lt (by rw [h.len]; exact hi)]
  have e2 : ∀ k, p + k < n → ix (TA.onlineMean w w s) (p + k) = ix (TA.onlineMean w w (s.drop p)) k := fun k hi => by
    rw [e _ hi, online_skip hw (fun j hj => cleaned_nan (y3 j hj)) (by simp [h.len, hi]), clean_drop]
    unfold TA.onlineMean
    rw [ix_tab_lt (by simp [h.len]; omega)]
  refine ⟨len, fun i hi g => ?_, fun i hi g => ?_⟩
  · by_cases q : i < p
    · rw [e i hi, online_init hw (fun j hj => cleaned_nan (y3 j hj)) q (by simp [h.len, hi])]
      unfold SumSt.calcMean SumSt.init
      dsimp only
      rw [if_neg (by omega)]
    · obtain ⟨k, rfl⟩ : ∃ k, i = p + k := ⟨i - p, by omega⟩
      rw [e2 k hi]
      exact A.gap k (by omega) (by omega)
  · obtain ⟨k, rfl⟩ : ∃ k, i = p + k := ⟨i - p, by omega⟩
    obtain ⟨t, t1, t2⟩ := A.val k (by omega) (by omega)
    refine ⟨t, (e2 k hi).trans t1, ?_⟩
    have ew : wsum f w (p + k) / w = wmean (fun j => f (p + j)) w k := by
      unfold wsum wmean
      rw [Finset.sum_Ico_add (fun j => f j) (k + 1 - w) (k + 1) p, show p + k + 1 - w = k + 1 - w + p by omega, show k + 1 + p = p + k + 1 by omega,
        min_eq_left (by omega)]
    rw [ew]
    have k1 : |wmean y w k - wmean (fun j => f (p + j)) w k| ≤ δ := by
      have : wmean y w k - wmean (fun j => f (p + j)) w k = wmean (fun j => y j - f (p + j)) w k := by
        unfold wmean
        rw [← sub_div, ← Finset.sum_sub_distrib]
      rw [this]
      exact abs_wmean hw y1 (by omega) hδ
    have k2 : 85 * ((n - p : ℕ) : K) * (eps * (M + δ)) ≤ 85 * n * (eps * (M + δ)) := by
      have a : ((n - p : ℕ) : K) ≤ n := by exact_mod_cast Nat.sub_le n p
      have e0 : 0 ≤ eps * (M + δ) := mul_nonneg eps_pos.le (by linarith)
      have := mul_le_mul_of_nonneg_right a e0
      linarith
    have := abs_add_le (t - wmean y w k) (wmean y w k - wmean (fun j => f (p + j)) w k)
    rw [sub_add_sub_cancel] at this
    linarith

/-- a computed column is, as a column of values, a column of the values computed -/
theorem Approx.values {s : Series (Double K)} {n p : Nat} {f : Nat → K} {δ : K} (h : Approx s n p f δ) :
    ∃ y : Nat → K, @Def K _ _ s n p y ∧ ∀ i, i < n → p ≤ i → |y i - f i| ≤ δ := by
  have : ∀ i, ∃ y : K, i < n → p ≤ i → ix s i = rk y ∧ |y - f i| ≤ δ := fun i => by
    by_cases g : i < n ∧ p ≤ i
    · obtain ⟨y, y1, y2⟩ := h.val i g.1 g.2
      exact ⟨y, fun _ _ => ⟨y1, y2⟩⟩
    · exact ⟨0, fun a b => absurd ⟨a, b⟩ g⟩
  choose y hy using this
  exact ⟨y, ⟨h.len, fun i hi g => h.gap i hi g, fun i hi g => (hy i hi g).1⟩, fun i hi g => (hy i hi g).2⟩

theorem wmax_near {y f : Nat → K} {w i p n : Nat} {δ : K} (hw : 1 ≤ w) (hi : i < n) (hp : p + w ≤ i + 1) (h : ∀ j, j < n → p ≤ j → |y j - f j| ≤ δ) :
    |wmax y w i - wmax f w i| ≤ δ ∧ |wmin y w i - wmin f w i| ≤ δ := by
  obtain ⟨⟨a, a1, a2, a3⟩, aM⟩ := wmax_spec y (w := w) (i := i) hw
  obtain ⟨⟨b, b1, b2, b3⟩, bM⟩ := wmax_spec f (w := w) (i := i) hw
  obtain ⟨⟨c, c1, c2, c3⟩, cM⟩ := wmin_spec y (w := w) (i := i) hw
  obtain ⟨⟨d, d1, d2, d3⟩, dM⟩ := wmin_spec f (w := w) (i := i) hw
  have k1 := abs_le.mp (h a (by omega) (by omega))
  have k2 := abs_le.mp (h b (by omega) (by omega))
  have k3 := abs_le.mp (h c (by omega) (by omega))
  have k4 := abs_le.mp (h d (by omega) (by omega))
  have q1 := bM a a1 a2
  have q2 := aM b b1 b2
  have q3 := dM c c1 c2
  have q4 := cM d d1 d2
  refine ⟨abs_le.mpr ⟨?_, ?_⟩, abs_le.mpr ⟨?_, ?_⟩⟩ <;> linarith

/-- rolling extremes of a computed column: no further error -/
theorem Approx.extremes {s : Series (Double K)} {n p : Nat} {f : Nat → K} {δ : K} (h : Approx s n p f δ) {w : Nat} (hw : 1 ≤ w) :
    Approx (rollMax w w s) n (p + w - 1) (wmax f w) δ ∧ Approx (rollMin w w s) n (p + w - 1) (wmin f w) δ := by
  obtain ⟨y, y1, y2⟩ := h.values
  have a := y1.rollMax' hw (le_refl w)
  have b := y1.rollMin' hw (le_refl w)
  rw [max_eq_left hw] at a b
  refine ⟨⟨a.len, a.gap, fun i hi g => ⟨_, a.val i hi g, ?_⟩⟩, ⟨b.len, b.gap, fun i hi g => ⟨_, b.val i hi g, ?_⟩⟩⟩
  · rw [min_eq_left (by omega)]
    exact (wmax_near hw hi (by omega) y2).1
  · rw [min_eq_left (by omega)]
    exact (wmax_near hw hi (by omega) y2).2

theorem CloseTo.approx {s : Series (Double K)} {t : Series (Val K)} {n p : Nat} {f : Nat → K} {δ : K} (h : CloseTo δ s t) (ht : Def t n p f) :
    Approx s n p f δ := by
  refine ⟨h.1.trans ht.len, fun i hi g => ?_, fun i hi g => ?_⟩
  · rcases h.2 i (by rw [ht.len]; exact hi) with q | ⟨y, z, -, q, -⟩
    · exact q.1
    · rw [ht.gap i hi g] at q; exact absurd q (by simp)
  · rcases h.2 i (by rw [ht.len]; exact hi) with q | ⟨y, z, q1, q2, q3⟩
    · have := q.2
      rw [ht.val i hi g] at this; exact absurd this (by simp)
    · rw [ht.val i hi g] at q2
      cases Val.fin.inj q2
      exact ⟨y, q1, q3⟩

/-! ## the stochastic's signal line -/

section bars
variable {n : Nat} {h l c v : Nat → K}

/-- the exact `%K` of bars that all have a range -/
theorem k_def (hb : Spread n h l c) (hr : ∀ i, i < n → l i < h i) {w : Nat} (hw : 1 ≤ w) (fillna : Bool) :
    Def (Stoch.k (ser n h) (ser n l) (ser n c) w fillna) n (minp fillna w - 1) (fun i => 100 * (c i - wmin l w i) / (wmax h w i - wmin l w i)) ∧
      ∀ i, i < n → |100 * (c i - wmin l w i) / (wmax h w i - wmin l w i)| ≤ 100 := by
  obtain ⟨hM, hm⟩ := TA.extremes n h l hw (minp_le fillna w)
  have pos : ∀ i, i < n → 0 < wmax h w i - wmin l w i := fun i hi => by
    have a := (wmax_spec h (w := w) (i := i) hw).2 i (le_refl _) (by omega)
    have b := (wmin_spec l (w := w) (i := i) hw).2 i (le_refl _) (by omega)
    have := hr i hi
    linarith
  refine ⟨⟨by simp [Stoch.k, ser], fun i hi g => ?_, fun i hi g => ?_⟩, fun i hi => ?_⟩
  · unfold Stoch.k
    dsimp only
    rw [ix_sdiv (by simpa [ser] using hi), ix_cmul (by simpa [ser] using hi), ix_ssub (by simpa [ser] using hi), ix_ssub (by simpa [ser] using hi), hm.gap i hi g]
    simp
  · unfold Stoch.k
    dsimp only
    rw [ix_sdiv (by simpa [ser] using hi), ix_cmul (by simpa [ser] using hi), ix_ssub (by simpa [ser] using hi), ix_ssub (by simpa [ser] using hi),
      ix_num hi, hm.val i hi g, hM.val i hi g, lit_fin, fin_sub, fin_sub, fin_mul, fin_div _ _ (pos i hi).ne']
    push_cast
    rfl
  · obtain ⟨r1, r2, -, -⟩ := hb.range hw hi
    rw [abs_div, abs_of_pos (pos i hi), div_le_iff₀ (pos i hi), abs_of_nonneg (by linarith)]
    linarith

theorem k_near (hb : Spread n h l c) (hr : ∀ i, i < n → l i < h i) {w : Nat} (hw : 1 ≤ w) (fillna : Bool) :
    Approx (Stoch.k (dser n h) (dser n l) (dser n c) w fillna) n (minp fillna w - 1) (fun i => 100 * (c i - wmin l w i) / (wmax h w i - wmin l w i)) (410 * eps) := by
  obtain ⟨hM, hm⟩ := TA.extremes n h l hw (minp_le fillna w)
  refine ⟨by simp [Stoch.k, rser], fun i hi g => ?_, fun i hi g => ?_⟩
  · have e1 : ix (rollMin w (minp fillna w) (dser n l)) i = Val.nan := hm.gap i hi g
    have e2 : ix (rollMax w (minp fillna w) (dser n h)) i = Val.nan := hM.gap i hi g
    unfold Stoch.k
    dsimp only
    rw [ix_sdiv (by simpa [rser] using hi), ix_cmul (by simpa [rser] using hi), ix_ssub (by simpa [rser] using hi), ix_ssub (by simpa [rser] using hi), ix_rk hi, lit100k, e1, e2]
    rfl
  · have e1 : ix (rollMin w (minp fillna w) (dser n l)) i = rk (wmin l w i) := hm.val i hi g
    have e2 : ix (rollMax w (minp fillna w) (dser n h)) i = rk (wmax h w i) := hM.val i hi g
    unfold Stoch.k
    dsimp only
    rw [ix_sdiv (by simpa [rser] using hi), ix_cmul (by simpa [rser] using hi), ix_ssub (by simpa [rser] using hi), ix_ssub (by simpa [rser] using hi), ix_rk hi, lit100k, e1, e2]
    obtain ⟨r1, r2, r3, r4⟩ := hb.range hw hi
    have a := (wmax_spec h (w := w) (i := i) hw).2 i (le_refl _) (by omega)
    have b := (wmin_spec l (w := w) (i := i) hw).2 i (le_refl _) (by omega)
    have hlt := hr i hi
    rcases r3 with r3 | r3
    · linarith
    · exact scaled_near (q := 100) (a := c i) (b := wmin l w i) r3 r4 (by rw [abs_of_nonneg (by linarith)]; linarith) (by norm_num)

/-- C134: the signal line of the stochastic in double precision, when every bar has a range. -/
theorem stoch_signal_double (hb : Spread n h l c) (hr : ∀ i, i < n → l i < h i) (hn : n ≤ 2 ^ 44) {w s : Nat} (hw : 1 ≤ w) (hs : 1 ≤ s) (fillna : Bool) :
    CloseTo ((8510 * (n : K) + 410) * eps) (stochSignalPandas (dser n h) (dser n l) (dser n c) w s fillna) (stochSignal (ser n h) (ser n l) (ser n c) w s fillna) := by
  have he := eps_pos (K := K)
  have he1 := eps_small (K := K)
  have hh : (1000 : K) ≤ huge := by
    unfold huge
    calc (1000 : K) ≤ 2 ^ (10 : ℤ) := by norm_num
      _ ≤ 2 ^ (900 : ℤ) := zpow_le_zpow_right₀ (by norm_num) (by norm_num)
  obtain ⟨d1, d2⟩ := k_def hb hr hw fillna
  have a1 := k_near hb hr hw fillna
  have hN : (0 : K) ≤ n := Nat.cast_nonneg _
  have bd : 410 * eps + 85 * n * (eps * (100 + 410 * eps)) ≤ (8510 * (n : K) + 410) * eps := by
    have : (n : K) * eps * eps ≤ n * eps * (1 / 100000) := mul_le_mul_of_nonneg_left eps_tenth (by positivity)
    have := mul_nonneg hN he.le
    linarith
  unfold stochSignalPandas stochSignal
  refine CloseTo.const (y := 50) (z := 50) ?_ (lit_double (k := 50) (by norm_num) (by norm_num) (by norm_num))
    (lit_exact (k := 50) (by norm_num) (by norm_num)) (by rw [sub_self, abs_zero]; positivity) fillna
  cases fillna with
  | false =>
    have e : minp false s = s := rfl
    rw [e]
    exact ((a1.onlineMeanFull (M := 100) (by positivity) (fun i hi _ => d2 i hi) (tiny_le_one.trans (by norm_num)) (by linarith) hn hs).mono bd).close
      (d1.rollMean hs)
  | true =>
    have e : minp true s = 0 := rfl
    have e' : minp true w - 1 = 0 := rfl
    rw [e]
    rw [e'] at a1 d1
    exact ((a1.onlineMean0 (M := 100) (by positivity) (fun i hi _ => d2 i hi) (tiny_le_one.trans (by norm_num)) (by linarith) hn hs).mono bd).close
      (d1.rollMean0 hs)

/-! ## the smoothed ease of movement -/

theorem eom_value {i : Nat} (hi : i + 1 < n) (hv : 0 < v (i + 1)) : ix (EOM.run (ser n h) (ser n l) (ser n v)) (i + 1) =
    .fin (((h (i + 1) - h i) + (l (i + 1) - l i)) * (h (i + 1) - l (i + 1)) / (2 * v (i + 1)) * 100000000) := by
  have e : ∀ (x : Nat → K) j, j < n → ix (ser n x) j = .fin (x j) := fun x j hj => (def_ser n x).val j hj (Nat.zero_le _)
  unfold EOM.run sdiff
  rw [ix_mulc (by simpa [ser] using hi), ix_sdiv (by simpa [ser] using hi), ix_smul (by simpa [ser] using hi), ix_sadd (by simpa [ser] using hi), ix_ssub (by simpa [ser] using hi),
    ix_ssub (by simpa [ser] using hi), ix_ssub (by simpa [ser] using hi), ix_cmul (by simpa [ser] using hi), ix_prev (by simpa [ser] using hi), ix_prev (by simpa [ser] using hi),
    if_neg (Nat.succ_ne_zero i), if_neg (Nat.succ_ne_zero i), Nat.add_sub_cancel, e h _ hi, e l _ hi, e v _ hi, e h i (by omega), e l i (by omega), lit_fin, lit_fin]
  simp only [fin_sub, fin_add, fin_mul]
  rw [fin_div _ _ (by simp; exact hv.ne'), fin_mul]
  push_cast
  rfl

theorem eom_first (hn : 0 < n) : ix (EOM.run (ser n h) (ser n l) (ser n v)) 0 = .nan ∧ ix (EOM.run (dser n h) (dser n l) (dser n v)) 0 = nan := by
  unfold EOM.run sdiff
  constructor
  · rw [ix_mulc (by simpa [ser] using hn), ix_sdiv (by simpa [ser] using hn), ix_smul (by simpa [ser] using hn), ix_sadd (by simpa [ser] using hn), ix_ssub (by simpa [ser] using hn),
      ix_shift (by simpa [ser] using hn), if_pos (by omega)]
    simp
  · rw [ix_mulc (by simpa [rser] using hn), ix_sdiv (by simpa [rser] using hn), ix_smul (by simpa [rser] using hn), ix_sadd (by simpa [rser] using hn), ix_ssub (by simpa [rser] using hn),
      ix_shift (by simpa [rser] using hn), if_pos (by omega), ix_rk hn]
    rfl

/-- C134: the smoothed ease of movement in double precision. `A` bounds the moves of high and low from bar to bar, `T` the
range of a bar, `V` and `W` the volumes. -/
theorem sma_eom_double {A T V W : K} (hA : petty ≤ A) (hA2 : A ≤ grand) (hT : petty ≤ T) (hT2 : T ≤ grand) (hV : petty ≤ V) (hVW : V ≤ W) (hW : W ≤ grand)
    (h1 : ∀ i, i + 1 < n → |h (i + 1) - h i| ≤ A ∧ |l (i + 1) - l i| ≤ A ∧ |h (i + 1) - l (i + 1)| ≤ T ∧ V ≤ v (i + 1) ∧ v (i + 1) ≤ W)
    (hB : petty ≤ A * T / W) (hB2 : 10 ^ 9 * (A * T / V) ≤ grand) (hn : n ≤ 2 ^ 44) {w : Nat} (hw : 1 ≤ w) (fillna : Bool) :
    CloseTo ((8.6 * 10 ^ 9 * (n : K) + 7.2 * 10 ^ 8) * eps * (A * T / V)) (smaEomPandas (dser n h) (dser n l) (dser n v) w fillna)
      (smaEaseOfMovement (ser n h) (ser n l) (ser n v) w fillna) := by
  have he := eps_pos (K := K)
  have he1 := eps_tenth (K := K)
  have p0 := petty_pos (K := K)
  have hN : (0 : K) ≤ n := Nat.cast_nonneg _
  have A0 := p0.trans_le hA
  have T0 := p0.trans_le hT
  have V0 := p0.trans_le hV
  have tp := tiny_petty (K := K)
  have gl := grand_le (K := K)
  have AT0 : 0 < A * T := mul_pos A0 T0
  have S0 : 0 < A * T / V := div_pos AT0 V0
  generalize hS : A * T / V = S at *
  have row : ∀ i, i + 1 < n → 0 < v (i + 1) ∧ A * T / v (i + 1) ≤ S ∧ petty ≤ A * T / v (i + 1) := fun i hi => by
    obtain ⟨-, -, -, q1, q2⟩ := h1 i hi
    have v0 := V0.trans_le q1
    exact ⟨v0, hS ▸ div_le_div_of_nonneg_left AT0.le V0 q1, hB.trans (div_le_div_of_nonneg_left AT0.le v0 q2)⟩
  have size : ∀ i, i + 1 < n → |((h (i + 1) - h i) + (l (i + 1) - l i)) * (h (i + 1) - l (i + 1)) / (2 * v (i + 1)) * 100000000| ≤ 10 ^ 8 * S := fun i hi => by
    obtain ⟨q1, q2, q3, -, -⟩ := h1 i hi
    obtain ⟨v0, r1, -⟩ := row i hi
    have k := abs_add_le (h (i + 1) - h i) (l (i + 1) - l i)
    have k1 := mul_le_mul (k.trans (add_le_add q1 q2)) q3 (abs_nonneg _) (by linarith)
    rw [abs_mul, abs_div, abs_mul, abs_of_pos (by linarith : 0 < 2 * v (i + 1)), abs_of_pos (by norm_num : (0 : K) < 100000000)]
    have k2 := div_le_div_of_nonneg_right k1 (by linarith : 0 ≤ 2 * v (i + 1))
    have k3 : (A + A) * T / (2 * v (i + 1)) = A * T / v (i + 1) := by field_simp; ring
    rw [k3] at k2
    linarith
  have hSg : S ≤ grand := by linarith
  let f : Nat → K := fun i => ((h i - h (i - 1)) + (l i - l (i - 1))) * (h i - l i) / (2 * v i) * 100000000
  have d1 : Def (EOM.run (ser n h) (ser n l) (ser n v)) n 1 f := by
    refine ⟨by simp [EOM.run, sdiff, ser], fun i hi g => ?_, fun i hi g => ?_⟩
    · obtain rfl : i = 0 := by omega
      exact (eom_first hi).1
    · obtain ⟨k, rfl⟩ : ∃ k, i = k + 1 := ⟨i - 1, by omega⟩
      exact eom_value hi (row k hi).1
  have a1 : Approx (EOM.run (dser n h) (dser n l) (dser n v)) n 1 f (7.2 * 10 ^ 8 * eps * S) := by
    refine ⟨by simp [EOM.run, sdiff, rser], fun i hi g => ?_, fun i hi g => ?_⟩
    · obtain rfl : i = 0 := by omega
      exact (eom_first hi).2
    · obtain ⟨k, rfl⟩ : ∃ k, i = k + 1 := ⟨i - 1, by omega⟩
      obtain ⟨q1, q2, q3, q4, q5⟩ := h1 k hi
      obtain ⟨v0, r1, r2⟩ := row k hi
      obtain ⟨y, z, y1, z1, yz⟩ := eom_double hi hA hA2 hT hT2 q1 q2 q3 (hV.trans q4) (q5.trans hW) r2 (r1.trans hSg) false
      have ez : z = f (k + 1) := by
        have : ix (EOM.run (ser n h) (ser n l) (ser n v)) (k + 1) = .fin z := z1
        rw [d1.val _ hi (by omega)] at this
        exact (Val.fin.inj this).symm
      refine ⟨y, y1, ?_⟩
      rw [← ez]
      exact yz.trans (mul_le_mul_of_nonneg_left r1 (by positivity))
  have size' : ∀ i, i < n → 1 ≤ i → |f i| ≤ 10 ^ 8 * S := fun i hi g => by
    obtain ⟨k, rfl⟩ : ∃ k, i = k + 1 := ⟨i - 1, by omega⟩
    exact size k hi
  have hM : tiny ≤ 10 ^ 8 * S := by
    have := hB.trans (hS ▸ div_le_div_of_nonneg_left AT0.le V0 hVW)
    linarith
  have heS : eps * S ≤ 1 / 100000 * S := mul_le_mul_of_nonneg_right he1 S0.le
  have heS0 : 0 < eps * S := mul_pos he S0
  have hM2 : 10 ^ 8 * S + 7.2 * 10 ^ 8 * eps * S ≤ huge := by
    have : (0 : K) < grand := two_zpow_pos _
    linarith
  have bd : 7.2 * 10 ^ 8 * eps * S + 85 * n * (eps * (10 ^ 8 * S + 7.2 * 10 ^ 8 * eps * S)) ≤ (8.6 * 10 ^ 9 * (n : K) + 7.2 * 10 ^ 8) * eps * S := by
    have k1 := mul_le_mul_of_nonneg_left heS (mul_nonneg hN he.le)
    have k2 := mul_nonneg hN heS0.le
    linarith
  have δ0 : 0 ≤ 7.2 * 10 ^ 8 * eps * S := by positivity
  unfold smaEomPandas smaEaseOfMovement
  refine CloseTo.const (y := 0) (z := 0) ?_ lit0k (by rw [lit_fin]; simp) (by rw [sub_self, abs_zero]; positivity) fillna
  cases fillna with
  | false =>
    have e : minp false w = w := rfl
    rw [e]
    exact ((a1.onlineMeanFull δ0 size' hM hM2 hn hw).mono bd).close (d1.rollMean hw)
  | true =>
    have e : minp true w = 0 := rfl
    rw [e]
    exact ((a1.onlineMean0 δ0 size' hM hM2 hn hw).mono bd).close (d1.rollMean0 hw)


end bars

/-! ## StochRSI -/

/-- C134: StochRSI in double precision. `m` and `M` bound the changes of the close and `g` is the smallest range of the exact
RSI over a window; the error of the ratio is nine times that of the RSI divided by `g`. -/
theorem stochrsi_double (n : Nat) (hn : n ≤ 2 ^ 44) (x : Nat → K) {w s1 s2 : Nat} (hw : 2 ≤ w) (hw2 : w ≤ 2 ^ 40) (hs1 : 1 ≤ s1) (hs2 : 1 ≤ s2) {m M g : K} (hm : 0 < m)
    (hx : ∀ i, i + 1 < n → m ≤ |x (i + 1) - x i| ∧ |x (i + 1) - x i| ≤ M) (hmM : m ≤ M) (hM : tiny ≤ M) (hM2 : M ≤ huge)
    (hg : 50000 * w * eps * (M / m) ≤ g) (hg2 : g ≤ 100)
    {r : Series (Val K)} (hr : rsi (ser n x) w false = .ok r)
    (hrange : ∀ i, i < n → 2 * w - 2 ≤ i → ∃ j k a b, j ≤ i ∧ i < j + w ∧ k ≤ i ∧ i < k + w ∧ ix r j = .fin a ∧ ix r k = .fin b ∧ a + g ≤ b) :
    ∃ (o : StochRSI (Double K)) (exact : StochRSI (Val K)),
      StochRSI.newPandas (dser n x) w s1 s2 false = .ok o ∧ StochRSI.new (ser n x) w s1 s2 false = .ok exact ∧
      CloseTo (90000 * w * eps * (M / m) / g) o.stochrsi exact.stochrsi ∧
      CloseTo (90000 * w * eps * (M / m) / g + 240 * n * eps) o.stochrsiK exact.stochrsiK ∧
      CloseTo (90000 * w * eps * (M / m) / g + 530 * n * eps) o.dPandas exact.stochrsiD := by
  have he := eps_pos (K := K)
  have he1 := eps_tenth (K := K)
  have hW : (2 : K) ≤ w := by exact_mod_cast hw
  have hMm : 1 ≤ M / m := by rwa [le_div_iff₀ hm, one_mul]
  obtain ⟨out, ex, o1, o2, o3⟩ := rsi_double n x hw hw2 hm hx hM hM2
  rw [hr] at o2
  cases Except.ok.inj o2
  obtain ⟨U, D, -, -, -, -, UD, out', e1, e2, -⟩ := rsi_formula n x w (by omega) false
  rw [hr] at e1
  cases Except.ok.inj e1
  rw [if_neg (by simp)] at e2
  generalize hR : (fun i => if D i = 0 then 100 else 100 * U i / (U i + D i)) = R at e2
  have R0 : ∀ i, 0 ≤ R i ∧ R i ≤ 100 := fun i => by
    subst hR
    dsimp only
    split_ifs with q
    · norm_num
    · have u := UD i
      have : 0 < U i + D i := by
        rcases u.2.lt_or_eq with q' | q'
        · linarith
        · exact absurd q'.symm q
      exact ⟨div_nonneg (by linarith) this.le, by rw [div_le_iff₀ this]; linarith⟩
  have hδe : 20000 * eps ≤ 10000 * w * eps * (M / m) := by
    have k1 : (2 : K) * eps ≤ (w : K) * eps := mul_le_mul_of_nonneg_right hW he.le
    have k2 : w * eps * 1 ≤ w * eps * (M / m) := mul_le_mul_of_nonneg_left hMm (by positivity)
    linarith
  have a := o3.approx e2
  have hη : 90000 * w * eps * (M / m) / g = 9 * (10000 * w * eps * (M / m) / g) := by ring
  have hgδ : 5 * (10000 * w * eps * (M / m)) ≤ g := by linarith
  rw [hη]
  generalize (10000 * w * eps * (M / m)) = δ at *
  have δ0 : 0 < δ := by linarith
  have g0 : 0 < g := by linarith
  obtain ⟨aM, am⟩ := a.extremes (w := w) (by omega)
  have p1 : w - 1 + w - 1 = 2 * w - 2 := by omega
  rw [p1] at aM am
  have dM := e2.rollMax' (w := w) (by omega) (le_refl w)
  have dm := e2.rollMin' (w := w) (by omega) (le_refl w)
  rw [max_eq_left (by omega), p1] at dM dm
  replace dM := dM.congr (g := wmax R w) fun i _ h => by rw [min_eq_left (by omega)]
  replace dm := dm.congr (g := wmin R w) fun i _ h => by rw [min_eq_left (by omega)]
  have rng : ∀ i, i < n → 2 * w - 2 ≤ i → g ≤ wmax R w i - wmin R w i ∧ wmin R w i ≤ R i ∧ R i ≤ wmax R w i ∧ 0 ≤ wmin R w i ∧ wmax R w i ≤ 100 := fun i hi g' => by
    obtain ⟨j, k, u, v, j1, j2, k1, k2, q1, q2, q3⟩ := hrange i hi g'
    rw [e2.val j (by omega) (by omega)] at q1
    rw [e2.val k (by omega) (by omega)] at q2
    cases Val.fin.inj q1
    cases Val.fin.inj q2
    obtain ⟨⟨b, b1, b2, b3⟩, bM⟩ := wmax_spec R (w := w) (i := i) (by omega)
    obtain ⟨⟨c, c1, c2, c3⟩, cM⟩ := wmin_spec R (w := w) (i := i) (by omega)
    have := bM k k1 k2
    have := cM j j1 j2
    exact ⟨by linarith, cM i (le_refl _) (by omega), bM i (le_refl _) (by omega), c3 ▸ (R0 c).1, b3 ▸ (R0 b).2⟩
  have pw : max (w - 1) (2 * w - 2) = 2 * w - 2 := by omega
  have cap1 : (1000 : K) ≤ cap := thousand_le_cap
  have num := a.sub am (M := 200) (fun i hi g' => by
    rw [pw] at g'
    obtain ⟨q1, q2, q3, q4, q5⟩ := rng i hi g'
    rw [abs_of_nonneg (by linarith)]
    linarith) (tiny_le_one.trans (by norm_num)) (by linarith)
  have den := aM.sub am (M := 200) (fun i hi g' => by
    rw [max_self] at g'
    obtain ⟨q1, q2, q3, q4, q5⟩ := rng i hi g'
    rw [abs_of_nonneg (by linarith)]
    linarith) (tiny_le_one.trans (by norm_num)) (by linarith)
  rw [pw] at num
  rw [max_self] at den
  have hE : δ + δ + 2 * eps * 200 ≤ 2.02 * δ := by linarith
  replace num := num.mono hE
  replace den := den.mono hE
  have hδg : 0 < δ / g := div_pos δ0 g0
  have hδg1 : δ / g ≤ 1 / 5 := by rw [div_le_iff₀ g0]; linarith
  have hδg2 : 200 * eps ≤ δ / g := by
    rw [le_div_iff₀ g0]
    have := mul_le_mul_of_nonneg_left hg2 (by positivity : 0 ≤ 200 * (eps : K))
    linarith
  have raw := num.sdiv den (m := g) (Q := 1) (B := 3) g0 (fun i hi g' => by
      rw [max_self] at g'
      exact (rng i hi g').1.trans (le_abs_self _)) (by linarith) (fun i hi g' => by
      rw [max_self] at g'
      obtain ⟨q1, q2, q3, q4, q5⟩ := rng i hi g'
      rw [abs_of_nonneg (by linarith), abs_of_nonneg (by linarith)]
      linarith) (by
      have : 2 * (2.02 * δ + 1 * (2.02 * δ)) / g = 8.08 * (δ / g) := by ring
      rw [this]
      linarith) (tiny_le_one.trans (by norm_num)) (by linarith)
  rw [max_self] at raw
  replace raw := raw.mono (δ' := 9 * (δ / g)) (by
      have : 2 * (2.02 * δ + 1 * (2.02 * δ)) / g = 8.08 * (δ / g) := by ring
      rw [this]
      linarith)
  have draw := (e2.ssub dm).sdiv (dM.ssub dm) fun i hi _ g' => by
    rw [max_self] at g'
    exact (g0.trans_le (rng i hi g').1).ne'
  rw [pw, max_self, max_self] at draw
  have unit : ∀ i, i < n → 2 * w - 2 ≤ i → |(R i - wmin R w i) / (wmax R w i - wmin R w i)| ≤ 1 := fun i hi g' => by
    obtain ⟨q1, q2, q3, q4, q5⟩ := rng i hi g'
    have : 0 < wmax R w i - wmin R w i := by linarith
    rw [abs_of_nonneg (div_nonneg (by linarith) this.le), div_le_one this]
    linarith
  have hN : (0 : K) ≤ n := Nat.cast_nonneg _
  have hNe : 0 ≤ (n : K) * eps := mul_nonneg hN he.le
  have hNe1 : (n : K) * eps ≤ 1 / 500 := by
    have : (n : K) ≤ 2 ^ 44 := by exact_mod_cast hn
    refine (mul_le_mul_of_nonneg_right this he.le).trans ?_
    unfold eps
    rw [show (2 : K) ^ 44 = 2 ^ (44 : ℤ) by norm_cast, ← zpow_add₀ (by norm_num)]
    norm_num
  have hh : (1000 : K) ≤ huge := by
    unfold huge
    calc (1000 : K) ≤ 2 ^ (10 : ℤ) := by norm_num
      _ ≤ 2 ^ (900 : ℤ) := zpow_le_zpow_right₀ (by norm_num) (by norm_num)
  have kk := (raw.onlineMeanFull (M := 1) (by linarith) unit tiny_le_one (by linarith) hn hs1).mono (δ' := 9 * (δ / g) + 240 * n * eps) (by
    have := mul_le_mul_of_nonneg_left (show 1 + 9 * (δ / g) ≤ 2.8 by linarith) hNe
    linarith)
  have dk := draw.rollMean hs1
  have unit2 : ∀ i, i < n → 2 * w - 2 + s1 - 1 ≤ i → |wsum (fun i => (R i - wmin R w i) / (wmax R w i - wmin R w i)) s1 i / s1| ≤ 1 := fun i hi g' => by
    have s0 : (0 : K) < s1 := by exact_mod_cast hs1
    rw [abs_div, abs_of_pos s0, div_le_one s0]
    unfold wsum
    refine (Finset.abs_sum_le_sum_abs _ _).trans ((Finset.sum_le_card_nsmul _ _ 1 fun j hj => ?_).trans ?_)
    · rw [Finset.mem_Ico] at hj
      exact unit j (by omega) (by omega)
    · rw [Nat.card_Ico, nsmul_eq_mul, mul_one]
      exact_mod_cast (by omega : i + 1 - (i + 1 - s1) ≤ s1)
  have dd := (kk.onlineMeanFull (M := 1) (by linarith) unit2 tiny_le_one (by linarith) hn hs2).mono (δ' := 9 * (δ / g) + 530 * n * eps) (by
    have := mul_le_mul_of_nonneg_left (show 1 + (9 * (δ / g) + 240 * n * eps) ≤ 3.4 by linarith) hNe
    linarith)
  refine ⟨_, _, by unfold StochRSI.newPandas; rw [o1]; rfl, by unfold StochRSI.new; rw [hr]; rfl, ?_, ?_, ?_⟩
  · exact raw.close draw
  · exact kk.close dk
  · exact dd.close (dk.rollMean hs2)

/-- 100, 101, then 96 for good -/
def halted (n : Nat) : List ℚ := [100, 101, 96] ++ List.replicate n 96

/-- C134: what the range `g` is for. Once the close stands still, gains and losses shrink in proportion and the exact RSI no
longer moves, so the exact StochRSI is NaN. In double precision the RSI still moves in its last bits and StochRSI, with its
default windows, reports 1 and soon after 0. -/
theorem stochrsi_noise :
    ((StochRSI.newPandas ((halted 33).map (fun q => (rk q : Double ℚ))) 14 3 3 false).toOption.map fun o => [ix o.stochrsi 31, ix o.stochrsi 32, ix o.stochrsi 33, ix o.stochrsi 34])
      = some [rk 1, rk 1, rk 0, rk 0] ∧
    ((StochRSI.new ((halted 33).map Val.fin) 14 3 3 false).toOption.map fun o => [ix o.stochrsi 31, ix o.stochrsi 32, ix o.stochrsi 33, ix o.stochrsi 34])
      = some [.nan, .nan, .nan, .nan] := by
  decide +kernel

/-! ## examples -/

def up5 (i : Nat) : ℚ := [7, 9, 8, 11, 12].getD i 0
def dn5 (i : Nat) : ℚ := [5, 6, 5, 8, 9].getD i 0
def cl5 (i : Nat) : ℚ := [6, 8, 7, 10, 11].getD i 0
def vo5 (i : Nat) : ℚ := [3, 7, 11, 13, 9].getD i 0

theorem bars5 : Spread 5 up5 dn5 cl5 ∧ ∀ i, i < 5 → dn5 i < up5 i := by
  have big : (100 : ℚ) ≤ huge := by
    unfold huge
    calc (100 : ℚ) ≤ 2 ^ (10 : ℤ) := by norm_num
      _ ≤ 2 ^ (900 : ℤ) := zpow_le_zpow_right₀ (by norm_num) (by norm_num)
  have small : (tiny : ℚ) ≤ 1 := tiny_le_one
  refine ⟨⟨by decide +kernel, fun i hi => ?_, fun i j hi hj => ?_⟩, by decide +kernel⟩
  · have : ∀ i, i < 5 → |up5 i| ≤ 100 ∧ |dn5 i| ≤ 100 := by decide +kernel
    exact ⟨(this i hi).1.trans big, (this i hi).2.trans big⟩
  · have : ∀ i, i < 5 → ∀ j, j < 5 → up5 i = dn5 j ∨ 1 ≤ |up5 i - dn5 j| := by decide +kernel
    exact (this i hi j hj).imp_right small.trans

example : CloseTo ((8510 * ((5 : ℕ) : ℚ) + 410) * eps) (stochSignalPandas (dser 5 up5) (dser 5 dn5) (dser 5 cl5) 3 2 false) (stochSignal (ser 5 up5) (ser 5 dn5) (ser 5 cl5) 3 2 false) :=
  stoch_signal_double bars5.1 bars5.2 (by norm_num) (by norm_num) (by norm_num) false

example : stochSignalPandas (dser 5 up5) (dser 5 dn5) (dser 5 cl5) 3 2 false
      = ([nan, nan, nan, rk (2345624805922133 / 2 ^ 45), rk (743479291162819 / 2 ^ 43)] : Series (Double ℚ)) ∧
    stochSignal (ser 5 up5) (ser 5 dn5) (ser 5 cl5) 3 2 false = [.nan, .nan, .nan, .fin (200 / 3), .fin (1775 / 21)] := by
  decide +kernel

example : smaEomPandas (dser 5 up5) (dser 5 dn5) (dser 5 vo5) 3 false
      = ([nan, nan, nan, rk (4753265192407593 / 2 ^ 27), rk (1684239554933955 / 2 ^ 26)] : Series (Double ℚ)) ∧
    smaEaseOfMovement (ser 5 up5) (ser 5 dn5) (ser 5 vo5) 3 false = [.nan, .nan, .nan, .fin (35450000000 / 1001), .fin (32300000000 / 1287)] := by
  decide +kernel

def zig7 (i : Nat) : ℚ := [10, 11, 9, 10, 12, 11, 13].getD i 0

/-- the hypotheses of `stochrsi_double` hold here, with a range of 20 -/
example : ∃ (o : StochRSI (Double ℚ)) (exact : StochRSI (Val ℚ)), StochRSI.newPandas (dser 7 zig7) 3 2 2 false = .ok o ∧ StochRSI.new (ser 7 zig7) 3 2 2 false = .ok exact ∧
    CloseTo (1 / 10 ^ 11) o.stochrsi exact.stochrsi := by
  have hu : (eps : ℚ) = 1 / 2 ^ 53 := by unfold eps; norm_num
  have big : (2 : ℚ) ≤ huge := by
    unfold huge
    calc (2 : ℚ) = 2 ^ (1 : ℤ) := by norm_num
      _ ≤ 2 ^ (900 : ℤ) := zpow_le_zpow_right₀ (by norm_num) (by norm_num)
  have hr : rsi (ser 7 zig7) 3 false = .ok [.nan, .nan, .fin 25, .fin 52, .fin (1000 / 13), .fin (16000 / 289), .fin (10075 / 133)] := by decide +kernel
  obtain ⟨o, ex, q1, q2, q3, -, -⟩ := stochrsi_double 7 (by norm_num) zig7 (w := 3) (s1 := 2) (s2 := 2) (by norm_num) (by norm_num) (by norm_num) (by norm_num) (m := 1) (M := 2) (g := 20)
    (by norm_num) (fun i hi => by
      have : ∀ i, i < 6 → 1 ≤ |zig7 (i + 1) - zig7 i| ∧ |zig7 (i + 1) - zig7 i| ≤ 2 := by decide +kernel
      exact this i (by omega)) (by norm_num) (tiny_le_one.trans (by norm_num)) big (by rw [hu]; norm_num) (by norm_num) hr
    (fun i hi hi' => by
      have : i = 4 ∨ i = 5 ∨ i = 6 := by omega
      rcases this with rfl | rfl | rfl
      · exact ⟨2, 4, 25, 1000 / 13, by norm_num, by norm_num, by norm_num, by norm_num, rfl, rfl, by norm_num⟩
      · exact ⟨3, 4, 52, 1000 / 13, by norm_num, by norm_num, by norm_num, by norm_num, rfl, rfl, by norm_num⟩
      · exact ⟨5, 4, 16000 / 289, 1000 / 13, by norm_num, by norm_num, by norm_num, by norm_num, rfl, rfl, by norm_num⟩)
  refine ⟨o, ex, q1, q2, q3.1, fun i hi => (q3.2 i hi).imp_right ?_⟩
  rintro ⟨y, z, y1, z1, yz⟩
  refine ⟨y, z, y1, z1, yz.trans ?_⟩
  rw [hu]
  norm_num

end TA
