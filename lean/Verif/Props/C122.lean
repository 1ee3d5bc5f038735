import Verif.Props.C23
import Verif.Props.C121

/-!
# C122 — volume-weighted averages in double precision

Chaikin money flow (`ta/volume.py:129-142`) and VWAP (`ta/volume.py:464-480`) are quotients of two rolling sums over the same
window, the numerator being the volumes times something bounded. Two ways of summing: from left to right, window by window
(the model), and pandas' compensated running sum.
-/

set_option linter.unusedSectionVars false

namespace TA
open Finset

section any
variable {F : Type} [Flt F]

/-- `.chaikin_money_flow()` with pandas' own rolling sum -/
def cmfPandas (high low close volume : Series F) (window : Nat) (fillna : Bool) : Series F :=
  checkFillna fillna (.const (lit 0)) (sdiv (onlineSum window (minp fillna window) (smul (clv high low close) volume))
    (onlineSum window (minp fillna window) volume))

/-- `.volume_weighted_average_price()` with pandas' own rolling sum -/
def vwapPandas (high low close volume : Series F) (window : Nat) (fillna : Bool) : Series F :=
  checkFillna fillna (.const (lit 0)) (sdiv (onlineSum window (minp fillna window) (smul (typicalPrice high low close) volume))
    (onlineSum window (minp fillna window) volume))

end any

section dbl
variable {K : Type} [Field K] [LinearOrder K] [IsStrictOrderedRing K] [FloorRing K]

theorem cmfPandas_exact (h l c v : Series (Val K)) (w : Nat) (fillna : Bool) : cmfPandas h l c v w fillna = chaikinMoneyFlow h l c v w fillna := by
  unfold cmfPandas chaikinMoneyFlow CMF.run
  rw [online_sum, online_sum]

theorem vwapPandas_exact (h l c v : Series (Val K)) (w : Nat) (fillna : Bool) : vwapPandas h l c v w fillna = volumeWeightedAveragePrice h l c v w fillna := by
  unfold vwapPandas volumeWeightedAveragePrice VWAP.run
  rw [online_sum, online_sum]

/-! ## sums and quotients -/

theorem eps_tenth : (eps : K) ≤ 1 / 100000 := by
  have : (2 : K) ^ (-53 : ℤ) ≤ 2 ^ (-20 : ℤ) := zpow_le_zpow_right₀ (by norm_num) (by norm_num)
  refine this.trans ?_
  norm_num

/-- left-to-right sums of terms `p j` near `f j`, where `f j` is at most `g j` in size -/
theorem sum_wt (l : List Nat) (p f g : Nat → K) {δ : K} (hδ2 : δ ≤ 100) (hf : ∀ j ∈ l, |f j| ≤ g j) (hg : ∀ j ∈ l, tiny ≤ g j)
    (hp : ∀ j ∈ l, |p j - f j| ≤ δ * (eps * g j)) {a A W : K} {k : Nat} (hA : |A| ≤ W) (ha : |a - A| ≤ (δ + 1.02 * k) * (eps * W)) (hk : k + l.length ≤ 2 ^ 40)
    (hcap : 2 * (W + (l.map g).sum) ≤ cap) :
    ∃ s, (l.map fun j => (rk (p j) : Double K)).foldl Flt.add (rk a) = rk s ∧
      |s - (A + (l.map f).sum)| ≤ (δ + 1.02 * (k + l.length : Nat)) * (eps * (W + (l.map g).sum)) := by
  induction l generalizing a A W k with
  | nil => exact ⟨a, rfl, by simpa using ha⟩
  | cons j l ih =>
    have he := eps_pos (K := K)
    have gj := hg j (by simp)
    have g0 : 0 < g j := tiny_pos.trans_le gj
    have W0 : 0 ≤ W := (abs_nonneg _).trans hA
    have fj := hf j (by simp)
    have pj := hp j (by simp)
    have k0 : (0 : K) ≤ k := Nat.cast_nonneg k
    have S0 : 0 ≤ (l.map g).sum := List.sum_nonneg fun x hx => by
      obtain ⟨i, hi, rfl⟩ := List.mem_map.mp hx
      exact (tiny_pos.trans_le (hg i (by simp [hi]))).le
    simp only [List.map_cons, List.sum_cons, List.foldl_cons] at hcap ⊢
    have hlen : (j :: l).length = l.length + 1 := rfl
    have hek := eps_win (K := K) (w := k) (by omega)
    have sm : (δ + 1.02 * k) * eps ≤ 0.005 := by
      have := mul_le_mul hδ2 (eps_tenth (K := K)) he.le (by norm_num)
      nlinarith
    have eW : 0 ≤ eps * W := mul_nonneg he.le W0
    have eG : 0 < eps * g j := mul_pos he g0
    have d1 : |a + p j - (A + f j)| ≤ (δ + 1.02 * k) * (eps * (W + g j)) := by
      have := abs_add_le (a - A) (p j - f j)
      rw [show a - A + (p j - f j) = a + p j - (A + f j) by ring] at this
      have : 0 ≤ 1.02 * (k : K) * (eps * g j) := by positivity
      nlinarith
    have d2 : |a + p j| ≤ 1.01 * (W + g j) := by
      have h1 := abs_add_le (a + p j - (A + f j)) (A + f j)
      rw [sub_add_cancel] at h1
      have h2 := abs_add_le A (f j)
      have h3 := mul_le_mul_of_nonneg_right sm (by linarith : 0 ≤ W + g j)
      linarith
    obtain ⟨z, z1, z2⟩ := near_add d2 (by linarith) (by linarith)
    have z3 : |z - (A + f j)| ≤ (δ + 1.02 * (k + 1 : Nat)) * (eps * (W + g j)) := by
      have := abs_add_le (z - (a + p j)) (a + p j - (A + f j))
      rw [sub_add_sub_cancel] at this
      push_cast
      nlinarith
    have hA' : |A + f j| ≤ W + g j := (abs_add_le _ _).trans (add_le_add hA fj)
    obtain ⟨s, s1, s2⟩ := ih (a := z) (A := A + f j) (W := W + g j) (k := k + 1) (fun i hi => hf i (by simp [hi])) (fun i hi => hg i (by simp [hi]))
      (fun i hi => hp i (by simp [hi])) hA' z3 (by rw [hlen] at hk; omega) (by linarith)
    refine ⟨s, ?_, ?_⟩
    · rw [show Flt.add (rk a : Double K) (rk (p j)) = rk z from z1]; exact s1
    · rw [← add_assoc, ← add_assoc, hlen, show k + (l.length + 1) = k + 1 + l.length by omega]; exact s2

/-- a quotient of two sums -/
theorem wquot_near {N D N' D' b α β : K} (hD : 0 < D) (hb : tiny ≤ b) (hb2 : 2 * b ≤ cap) (hα : 0 ≤ α) (hβ : 0 ≤ β) (hα1 : α * eps ≤ 0.003) (hβ1 : β * eps ≤ 0.003)
    (hN : |N| ≤ b * D) (h1 : |N' - N| ≤ α * (eps * (b * D))) (h2 : |D' - D| ≤ β * (eps * D)) :
    ∃ y, (rk N' /. rk D' : Double K) = rk y ∧ |y - N / D| ≤ (1.01 * (α + β) + 1.02) * eps * b := by
  have he := eps_pos (K := K)
  have b0 : 0 < b := tiny_pos.trans_le hb
  have bD : 0 < b * D := mul_pos b0 hD
  have d1 : 0.997 * D ≤ D' := by
    have := (abs_le.mp h2).1
    have := mul_le_mul_of_nonneg_right hβ1 hD.le
    linarith
  have dp : 0 < D' := lt_of_lt_of_le (by positivity) d1
  have r1 : |N / D| ≤ b := by rw [abs_div, abs_of_pos hD, div_le_iff₀ hD]; exact hN
  have q : |N' / D' - N / D| ≤ 1.004 * (α + β) * (eps * b) := by
    have e : N' / D' - N / D = ((N' - N) - N / D * (D' - D)) / D' := by field_simp; ring
    rw [e, abs_div, abs_of_pos dp, div_le_iff₀ dp]
    have t : |N' - N - N / D * (D' - D)| ≤ (α + β) * (eps * (b * D)) := by
      refine (abs_sub _ _).trans ?_
      rw [abs_mul]
      have := mul_le_mul r1 h2 (abs_nonneg _) b0.le
      linarith
    refine t.trans ?_
    have p0 : 0 ≤ 1.004 * (α + β) * (eps * b) := by positivity
    have := mul_le_mul_of_nonneg_left d1 p0
    have p1 : 0 ≤ (α + β) * (eps * (b * D)) := by positivity
    linarith
  have sm : 1.004 * (α + β) * (eps * b) ≤ 0.007 * b := by
    have := mul_le_mul_of_nonneg_right (add_le_add hα1 hβ1) b0.le
    linarith
  have bd : |N' / D'| ≤ 1.01 * b := by
    have := abs_add_le (N' / D' - N / D) (N / D)
    rw [sub_add_cancel] at this
    linarith
  obtain ⟨z, z1, z2⟩ := near_div dp.ne' bd (by linarith) (by linarith)
  refine ⟨z, z1, ?_⟩
  have := abs_add_le (z - N' / D') (N' / D' - N / D)
  rw [sub_add_sub_cancel] at this
  have p1 : 0 ≤ (α + β) * (eps * b) := by positivity
  have p2 : 0 < eps * b := mul_pos he b0
  linarith

/-! ## rolling sums of rounded numbers, row by row -/

theorem rollSum_rk {n : Nat} (x : Nat → K) {w mp i : Nat} (hw : 1 ≤ w) (hi : i < n) :
    ix (rollSum w mp (dser n x)) i = if mp ≤ min w (i + 1) then sumL ((winIx w i).map fun j => (rk (x j) : Double K)) else nan := by
  unfold rollSum
  rw [ix_roll' (by simpa [rser] using hi)]
  have e : ((winIx w i).map fun j => clean (ix (dser n x) j)) = (winIx w i).map fun j => (rk (x j) : Double K) := by
    refine List.map_congr_left fun j hj => ?_
    rw [mem_winIx] at hj
    rw [show ix (dser n x) j = rk (x j) from ix_tab_lt (by omega)]
    rfl
  have vl : valid ((winIx w i).map fun j => (rk (x j) : Double K)) = (winIx w i).map fun j => (rk (x j) : Double K) := by
    unfold valid
    rw [List.filter_eq_self]
    intro x hx
    obtain ⟨j, -, rfl⟩ := List.mem_map.mp hx
    rfl
  rw [e]
  unfold aggSum
  rw [vl, List.length_map, length_winIx, if_neg (by omega)]

theorem onlineSum_rk {n : Nat} (hn : n ≤ 2 ^ 44) {x : Nat → K} {M : K} (hM1 : tiny ≤ M) (hM2 : M ≤ huge) (hx : ∀ j, j < n → |x j| ≤ M)
    {w mp i : Nat} (hw : 1 ≤ w) (hi : i < n) :
    ∃ s : K, ix (onlineSum w mp (dser n x)) i = (if mp ≤ min w (i + 1) then rk s else nan) ∧
      |s - wsum x w i| ≤ 80 * (i + 1) * (eps * ((min w (i + 1) : ℕ) * M)) := by
  have hM : 0 < M := tiny_pos.trans_le hM1
  have e : ix (onlineSum w mp (dser n x)) i = (online .removeFirst SumSt.add SumSt.rem SumSt.init w (dser n x) i).calcSum mp := by
    unfold onlineSum
    rw [ix_tab_lt (by simpa [rser] using hi), clean_dser]
  obtain ⟨s, ca, cr, h1, h2, -, -⟩ := SumSt.online_err (b64_acc (K := K)) eps_pos eps_small hM (eta_le hM1) (two_zpow_pos _).le hw (rows_cap hn hM2 hM.le) (eps_rows hn) hx hi
  refine ⟨s, ?_, h2⟩
  rw [e, show online .removeFirst SumSt.add SumSt.rem SumSt.init w (dser n x) i = _ from h1]
  unfold SumSt.calcSum
  dsimp only
  rw [if_neg (fun q => by have := q.1; omega)]
  by_cases g : mp ≤ min w (i + 1)
  · rw [if_pos g, if_pos (by exact_mod_cast g)]
  · rw [if_neg g, if_neg (fun q => g (by exact_mod_cast q))]

/-! ## weighted averages -/

/-- `2^-400` and `2^400`: sizes that can be multiplied with each other and summed up -/
def petty : K := 2 ^ (-400 : ℤ)
def grand : K := 2 ^ (400 : ℤ)

theorem petty_pos : (0 : K) < petty := two_zpow_pos _

theorem petty_sq : (tiny : K) ≤ petty * petty := by
  unfold petty tiny
  rw [← zpow_add₀ (by norm_num)]
  exact zpow_le_zpow_right₀ (by norm_num) (by norm_num)

theorem petty_one : (petty : K) ≤ 1 := by
  have : (2 : K) ^ (-400 : ℤ) ≤ 2 ^ (0 : ℤ) := zpow_le_zpow_right₀ (by norm_num) (by norm_num)
  rwa [zpow_zero] at this

theorem one_grand : (1 : K) ≤ grand := by
  have : (2 : K) ^ (0 : ℤ) ≤ 2 ^ (400 : ℤ) := zpow_le_zpow_right₀ (by norm_num) (by norm_num)
  rwa [zpow_zero] at this

theorem tiny_petty : (tiny : K) ≤ petty := zpow_le_zpow_right₀ (by norm_num) (by norm_num)

theorem grand_sq : 1000 * (grand * grand : K) ≤ huge := by
  have e : (huge : K) = 2 ^ (100 : ℤ) * (grand * grand) := by
    unfold huge grand
    rw [← zpow_add₀ (by norm_num), ← zpow_add₀ (by norm_num)]; norm_num only
  rw [e]
  have h0 : (0 : K) < grand * grand := mul_pos (two_zpow_pos _) (two_zpow_pos _)
  refine mul_le_mul_of_nonneg_right ?_ h0.le
  have : (2 : K) ^ (10 : ℤ) ≤ 2 ^ (100 : ℤ) := zpow_le_zpow_right₀ (by norm_num) (by norm_num)
  exact le_trans (by norm_num) this

theorem grand_le : 1000 * (grand : K) ≤ huge := by
  have h0 : (0 : K) ≤ grand := (two_zpow_pos _).le
  have h := mul_le_mul_of_nonneg_left (one_grand (K := K)) h0
  rw [mul_one] at h
  linarith [grand_sq (K := K)]

/-- terms `p j` near `f j`, which is at most `b` times the weight `v j` -/
structure Weighted (n : Nat) (p f v : Nat → K) (b δ : K) : Prop where
  blo : petty ≤ b
  bhi : b ≤ grand
  vlo : ∀ j, j < n → petty ≤ v j
  vhi : ∀ j, j < n → v j ≤ grand
  size : ∀ j, j < n → |f j| ≤ b * v j
  near : ∀ j, j < n → |p j - f j| ≤ δ * (eps * (b * v j))

section wt
variable {n : Nat} {p f v : Nat → K} {b δ : K}

theorem Weighted.lo (h : Weighted n p f v b δ) {j : Nat} (hj : j < n) : tiny ≤ b * v j :=
  petty_sq.trans (mul_le_mul h.blo (h.vlo j hj) petty_pos.le (petty_pos.le.trans h.blo))

theorem Weighted.pos (h : Weighted n p f v b δ) {j : Nat} (hj : j < n) : 0 < v j := petty_pos.trans_le (h.vlo j hj)

theorem Weighted.bpos (h : Weighted n p f v b δ) : 0 < b := petty_pos.trans_le h.blo

theorem Weighted.wpos (h : Weighted n p f v b δ) {w i : Nat} (hw : 1 ≤ w) (hi : i < n) : 0 < wsum v w i := by
  unfold wsum
  refine Finset.sum_pos (fun j hj => h.pos ?_) ⟨i, mem_Ico.mpr ⟨by omega, by omega⟩⟩
  rw [mem_Ico] at hj; omega

theorem Weighted.wnum (h : Weighted n p f v b δ) {w i : Nat} (hi : i < n) : |wsum f w i| ≤ b * wsum v w i := by
  unfold wsum
  rw [Finset.mul_sum]
  refine (Finset.abs_sum_le_sum_abs _ _).trans (Finset.sum_le_sum fun j hj => h.size j ?_)
  rw [mem_Ico] at hj; omega

theorem wsum_le_card {g : Nat → K} {B : K} {w i : Nat} (h : ∀ j, j ≤ i → g j ≤ B) : wsum g w i ≤ (min w (i + 1) : ℕ) * B := by
  unfold wsum
  refine (Finset.sum_le_card_nsmul _ _ B fun j hj => ?_).trans (le_of_eq ?_)
  · rw [mem_Ico] at hj; exact h j (by omega)
  · rw [Nat.card_Ico, nsmul_eq_mul, show i + 1 - (i + 1 - w) = min w (i + 1) by omega]

theorem card_le_wsum {g : Nat → K} {B : K} {w i : Nat} (h : ∀ j, j ≤ i → B ≤ g j) : (min w (i + 1) : ℕ) * B ≤ wsum g w i := by
  unfold wsum
  refine (le_of_eq ?_).trans (Finset.card_nsmul_le_sum _ _ B fun j hj => ?_)
  · rw [Nat.card_Ico, nsmul_eq_mul, show i + 1 - (i + 1 - w) = min w (i + 1) by omega]
  · rw [mem_Ico] at hj; exact h j (by omega)

/-- **Weighted average**, sums taken from left to right. -/
theorem Weighted.fresh (h : Weighted n p f v b δ) (hδ : 0 ≤ δ) (hδ2 : δ ≤ 100) {w mp : Nat} (hw : 1 ≤ w) (hw2 : w ≤ 2 ^ 38) (hmp : mp ≤ w) :
    Approx (sdiv (rollSum w mp (dser n p)) (rollSum w mp (dser n v))) n (mp - 1) (fun i => wsum f w i / wsum v w i)
      ((1.01 * (δ + 2.04 * w) + 1.02) * eps * b) := by
  have he := eps_pos (K := K)
  have b0 := h.bpos
  refine ⟨by simp [rser], fun i hi g => ?_, fun i hi g => ?_⟩
  all_goals rw [ix_sdiv (by simpa [rser] using hi), rollSum_rk p hw hi, rollSum_rk v hw hi]
  · rw [if_neg (by omega), if_neg (by omega)]; rfl
  · rw [if_pos (by omega), if_pos (by omega)]
    have len : (winIx w i).length ≤ w := by rw [length_winIx]; omega
    have mem : ∀ j ∈ winIx w i, j < n := fun j hj => by rw [mem_winIx] at hj; omega
    have ws : ∀ g : Nat → K, ((winIx w i).map g).sum = wsum g w i := fun g => sum_winIx g w i
    have W1 : wsum v w i ≤ w * grand := by
      refine (wsum_le_card fun j hj => h.vhi j (by omega)).trans ?_
      refine mul_le_mul_of_nonneg_right (by exact_mod_cast Nat.min_le_left _ _) (two_zpow_pos _).le
    have wc : (w : K) * huge ≤ cap := by
      have := huge_win (K := K) (w := w) (by omega)
      linarith
    have w0 : (0 : K) ≤ w := Nat.cast_nonneg w
    have g2 := mul_le_mul_of_nonneg_left (grand_sq (K := K)) w0
    have g1 := mul_le_mul_of_nonneg_left (grand_le (K := K)) w0
    have gp : (0 : K) < grand := two_zpow_pos _
    have c1 : 2 * wsum v w i ≤ cap := by
      have : 0 ≤ (w : K) * grand := by positivity
      linarith
    have c2 : 2 * (b * wsum v w i) ≤ cap := by
      have t := mul_le_mul h.bhi W1 (h.wpos hw hi).le gp.le
      have : 0 ≤ (w : K) * (grand * grand) := by positivity
      linarith
    have wb : ∀ j, wsum (fun j => b * v j) w j = b * wsum v w j := fun j => by unfold wsum; rw [Finset.mul_sum]
    obtain ⟨N, N1, N2⟩ := sum_wt (winIx w i) p f (fun j => b * v j) hδ2 (fun j hj => h.size j (mem j hj)) (fun j hj => h.lo (mem j hj))
      (fun j hj => h.near j (mem j hj)) (a := 0) (A := 0) (W := 0) (k := 0) (by simp) (by simp) (by omega) (by rw [zero_add, ws, wb]; exact c2)
    obtain ⟨D, D1, D2⟩ := sum_wt (winIx w i) v v v (δ := 0) (by norm_num) (fun j hj => (abs_of_pos (h.pos (mem j hj))).le) (fun j hj => tiny_petty.trans (h.vlo j (mem j hj)))
      (fun j hj => by simp) (a := 0) (A := 0) (W := 0) (k := 0) (by simp) (by simp) (by omega) (by rw [zero_add, ws]; exact c1)
    simp only [zero_add, ws, wb] at N2 D2
    unfold sumL
    rw [lit0k, N1, D1]
    have lw : ((winIx w i).length : K) ≤ w := by exact_mod_cast len
    have Dp := h.wpos hw hi
    have ew := eps_win (K := K) (w := w) (by omega)
    have sm : (δ + 1.02 * w) * eps ≤ 0.003 := by
      have := mul_le_mul hδ2 (eps_tenth (K := K)) he.le (by norm_num)
      nlinarith
    have sm2 : (1.02 * (w : K)) * eps ≤ 0.003 := by
      have := mul_nonneg hδ he.le
      linarith
    obtain ⟨y, y1, y2⟩ := wquot_near (α := δ + 1.02 * w) (β := 1.02 * w) Dp (tiny_petty.trans h.blo) (by linarith [h.bhi, grand_le (K := K), huge_cap' (K := K)])
      (by positivity) (by positivity) sm sm2 (h.wnum hi)
      (N2.trans (mul_le_mul_of_nonneg_right (by linarith) (by positivity)))
      (D2.trans (mul_le_mul_of_nonneg_right (by linarith) (by positivity)))
    refine ⟨y, y1, y2.trans (le_of_eq ?_)⟩
    ring

/-- **Weighted average**, pandas' running sums; `R` bounds how much two volumes differ. -/
theorem Weighted.online (h : Weighted n p f v b δ) (hδ : 0 ≤ δ) (hδ2 : δ ≤ 100) {w mp : Nat} (hw : 1 ≤ w) (hmp : mp ≤ w) (hn : n ≤ 2 ^ 44) {R : K}
    (hR : ∀ i j, i < n → j < n → v i ≤ R * v j) (hsm : n * R * eps ≤ 1 / 100000) :
    Approx (sdiv (onlineSum w mp (dser n p)) (onlineSum w mp (dser n v))) n (mp - 1) (fun i => wsum f w i / wsum v w i)
      ((1.01 * (δ + 162 * (n * R)) + 1.02) * eps * b) := by
  have he := eps_pos (K := K)
  have b0 := h.bpos
  refine ⟨by simp [rser, onlineSum], fun i hi g => ?_, fun i hi g => ?_⟩
  all_goals
    have gp : (0 : K) < grand := two_zpow_pos _
    have hmax : ∃ V, petty ≤ V ∧ V ≤ grand ∧ (∀ j, j < n → v j ≤ V) ∧ ∀ j, j < n → V ≤ R * v j := by
      obtain ⟨m, m1, m2⟩ := Finset.exists_max_image (Finset.range n) v ⟨i, by simpa using hi⟩
      rw [Finset.mem_range] at m1
      exact ⟨v m, h.vlo m m1, h.vhi m m1, fun j hj => m2 j (by simpa using hj), fun j hj => hR m j m1 hj⟩
    obtain ⟨V, V0, V1, V2, V3⟩ := hmax
    have Vp : 0 < V := petty_pos.trans_le V0
    have pM : ∀ j, j < n → |p j| ≤ 1.01 * (b * V) := fun j hj => by
      have t := abs_add_le (p j - f j) (f j)
      rw [sub_add_cancel] at t
      have := h.near j hj
      have := h.size j hj
      have u := mul_le_mul_of_nonneg_left (V2 j hj) b0.le
      have bv : 0 < b * v j := mul_pos b0 (h.pos hj)
      have s : δ * (eps * (b * v j)) ≤ 0.01 * (b * v j) := by
        have := mul_le_mul hδ2 (eps_tenth (K := K)) he.le (by norm_num)
        have := mul_le_mul_of_nonneg_right this bv.le
        linarith
      linarith
    have vM : ∀ j, j < n → |v j| ≤ V := fun j hj => by rw [abs_of_pos (h.pos hj)]; exact V2 j hj
    have bV1 : tiny ≤ 1.01 * (b * V) := by
      have := petty_sq.trans (mul_le_mul h.blo V0 petty_pos.le b0.le)
      have : 0 < b * V := mul_pos b0 Vp
      linarith
    have bV2 : 1.01 * (b * V) ≤ huge := by
      have := mul_le_mul h.bhi V1 Vp.le gp.le
      have : (0 : K) < grand * grand := mul_pos gp gp
      linarith [grand_sq (K := K)]
    obtain ⟨N, N1, N2⟩ := onlineSum_rk hn bV1 bV2 pM (w := w) (mp := mp) hw hi
    obtain ⟨D, D1, D2⟩ := onlineSum_rk hn (tiny_petty.trans V0) (V1.trans (by linarith [grand_le (K := K)])) vM (w := w) (mp := mp) hw hi
    rw [ix_sdiv (by simpa [rser, onlineSum] using hi), N1, D1]
  · rw [if_neg (by omega), if_neg (by omega)]; rfl
  · rw [if_pos (by omega), if_pos (by omega)]
    have Dp := h.wpos hw hi
    have iN : (i : K) + 1 ≤ n := by exact_mod_cast hi
    have R0 : 0 < R := by
      have := V3 i hi
      by_contra q
      have := mul_nonpos_of_nonpos_of_nonneg (not_lt.mp q) (h.pos hi).le
      linarith
    have kV : ((min w (i + 1) : ℕ) : K) * V ≤ R * wsum v w i := by
      have : wsum (fun j => R * v j) w i = R * wsum v w i := by unfold wsum; rw [Finset.mul_sum]
      rw [← this]
      exact card_le_wsum fun j hj => V3 j (by omega)
    have i0 : (0 : K) ≤ (i : K) + 1 := by positivity
    have key : ((i : K) + 1) * (eps * ((min w (i + 1) : ℕ) * V)) ≤ n * R * (eps * wsum v w i) := by
      refine (mul_le_mul iN (mul_le_mul_of_nonneg_left kV he.le) (by positivity) (by positivity)).trans (le_of_eq ?_)
      ring
    have kb := mul_le_mul_of_nonneg_left key b0.le
    have hpf : |wsum p w i - wsum f w i| ≤ δ * (eps * (b * wsum v w i)) := by
      have : δ * (eps * (b * wsum v w i)) = wsum (fun j => δ * (eps * (b * v j))) w i := by unfold wsum; simp only [Finset.mul_sum]
      rw [this]
      unfold wsum
      rw [← Finset.sum_sub_distrib]
      refine (Finset.abs_sum_le_sum_abs _ _).trans (Finset.sum_le_sum fun j hj => h.near j ?_)
      rw [mem_Ico] at hj; omega
    have nR : 0 ≤ (n : K) * R := by positivity
    obtain ⟨y, y1, y2⟩ := wquot_near (α := δ + 81 * (n * R)) (β := 81 * (n * R)) (N := wsum f w i) (N' := N) (D' := D) Dp (tiny_petty.trans h.blo)
      (by linarith [h.bhi, grand_le (K := K), huge_cap' (K := K)]) (by positivity) (by positivity)
      (by have := mul_le_mul hδ2 (eps_tenth (K := K)) he.le (by norm_num)
          linarith) (by linarith) (h.wnum hi)
      (by have := abs_add_le (N - wsum p w i) (wsum p w i - wsum f w i)
          rw [sub_add_sub_cancel] at this
          have q : 0 ≤ n * R * (eps * (b * wsum v w i)) := by positivity
          linarith)
      (by have q : 0 ≤ n * R * (eps * wsum v w i) := by positivity
          linarith)
    refine ⟨y, y1, y2.trans (le_of_eq ?_)⟩
    ring

end wt

/-! ## the two columns -/

/-- bars with volumes; `M` bounds the prices -/
structure Traded (n : Nat) (h l c v : Nat → K) (M : K) : Prop where
  mlo : petty ≤ M
  mhi : M ≤ grand
  order : ∀ i, i < n → l i ≤ c i ∧ c i ≤ h i
  gap : ∀ i, i < n → h i = l i ∨ tiny ≤ h i - l i
  bound : ∀ i, i < n → |h i| ≤ M ∧ |l i| ≤ M
  vlo : ∀ i, i < n → petty ≤ v i
  vhi : ∀ i, i < n → v i ≤ grand

/-- the typical price -/
theorem tp_near {h l c M : K} (hM : petty ≤ M) (hM2 : M ≤ grand) (hh : |h| ≤ M) (hl : |l| ≤ M) (hc : |c| ≤ M) :
    ∃ t, (((rk h +. rk l) +. rk c) /. lit 3 : Double K) = rk t ∧ |t - (h + l + c) / 3| ≤ 2.72 * (eps * M) := by
  have he := eps_pos (K := K)
  have he1 := eps_tenth (K := K)
  have M0 : 0 < M := petty_pos.trans_le hM
  have eM : 0 < eps * M := mul_pos he M0
  have eMs : eps * M ≤ 1 / 100000 * M := mul_le_mul_of_nonneg_right he1 M0.le
  have lo : tiny ≤ M := tiny_petty.trans hM
  have hi : 10 * M ≤ cap := by linarith [grand_le (K := K), huge_cap' (K := K)]
  obtain ⟨a, a1, a2⟩ := near_add (x := h) (y := l) (B := 2 * M) ((abs_add_le _ _).trans (by linarith)) (by linarith) (by linarith)
  have a3 : |a + c - (h + l + c)| ≤ 2.002 * (eps * M) := by rw [show a + c - (h + l + c) = a - (h + l) by ring]; linarith
  have a4 : |h + l + c| ≤ 3 * M := (abs_add_le _ _).trans (by linarith [abs_add_le h l])
  obtain ⟨s, s1, s2⟩ := near_add (x := a) (y := c) (B := 3.001 * M)
    (by have := abs_add_le (a + c - (h + l + c)) (h + l + c)
        rw [sub_add_cancel] at this
        linarith) (by linarith) (by linarith)
  have s3 : |s - (h + l + c)| ≤ 5.01 * (eps * M) := by
    have := abs_add_le (s - (a + c)) (a + c - (h + l + c))
    rw [sub_add_sub_cancel] at this
    linarith
  have s4 : |s / 3 - (h + l + c) / 3| ≤ 1.67 * (eps * M) := by
    rw [← sub_div, abs_div, abs_of_pos (by norm_num : (0 : K) < 3), div_le_iff₀ (by norm_num)]
    linarith
  have s5 : |s / 3| ≤ 1.001 * M := by
    have := abs_add_le (s / 3 - (h + l + c) / 3) ((h + l + c) / 3)
    rw [sub_add_cancel, abs_div (h + l + c), abs_of_pos (by norm_num : (0 : K) < 3)] at this
    linarith
  obtain ⟨t, t1, t2⟩ := near_div (by norm_num : (3 : K) ≠ 0) s5 (by linarith) (by linarith)
  refine ⟨t, ?_, ?_⟩
  · rw [a1, s1, show (lit 3 : Double K) = rk 3 from lit_double (k := 3) (by norm_num) (by norm_num) (by norm_num), t1]
  · have := abs_add_le (t - s / 3) (s / 3 - (h + l + c) / 3)
    rw [sub_add_sub_cancel] at this
    linarith

/-- the close location value -/
theorem clv_near {h l c : K} (hl : l ≤ c) (hc : c ≤ h) (hg : h = l ∨ tiny ≤ h - l) (hb : h - l ≤ huge) :
    ∃ t, (fun x : Double K => if Flt.isNaN x then lit 0 else x) (((rk c -. rk l) -. (rk h -. rk c)) /. (rk h -. rk l)) = rk t ∧
      |t - (if h = l then 0 else ((c - l) - (h - c)) / (h - l))| ≤ 5.2 * eps := by
  have he := eps_pos (K := K)
  have he1 := eps_tenth (K := K)
  have hcap := huge_cap' (K := K)
  by_cases hr : h = l
  · subst hr
    obtain rfl : c = h := le_antisymm hc hl
    refine ⟨0, ?_, by rw [if_pos rfl, sub_zero, abs_zero]; positivity⟩
    rw [sub_self_double, sub_self_double, zero_div_zero_double]
    exact lit0k
  · have d0 := hg.resolve_left hr
    have dp : 0 < h - l := tiny_pos.trans_le d0
    have ed : 0 < eps * (h - l) := mul_pos he dp
    have eds : eps * (h - l) ≤ 1 / 100000 * (h - l) := mul_le_mul_of_nonneg_right he1 dp.le
    obtain ⟨a, a1, a2⟩ := near_sub (x := c) (y := l) (B := h - l) (by rw [abs_of_nonneg (by linarith)]; linarith) d0 (by linarith)
    obtain ⟨b, b1, b2⟩ := near_sub (x := h) (y := c) (B := h - l) (by rw [abs_of_nonneg (by linarith)]; linarith) d0 (by linarith)
    obtain ⟨d, d1, d2⟩ := near_sub (x := h) (y := l) (B := h - l) (by rw [abs_of_nonneg dp.le]) d0 (by linarith)
    have t0 : |c - l - (h - c)| ≤ h - l := by rw [abs_le]; constructor <;> linarith
    have e1 : |a - b - (c - l - (h - c))| ≤ 2.002 * (eps * (h - l)) := by
      have := abs_sub (a - (c - l)) (b - (h - c))
      rw [show a - (c - l) - (b - (h - c)) = a - b - (c - l - (h - c)) by ring] at this
      linarith
    obtain ⟨m, m1, m2⟩ := near_sub (x := a) (y := b) (B := 1.001 * (h - l))
      (by have := abs_add_le (a - b - (c - l - (h - c))) (c - l - (h - c))
          rw [sub_add_cancel] at this
          linarith) (by linarith) (by linarith)
    have m3 : |m - (c - l - (h - c))| ≤ 3.01 * (eps * (h - l)) := by
      have := abs_add_le (m - (a - b)) (a - b - (c - l - (h - c)))
      rw [sub_add_sub_cancel] at this
      linarith
    obtain ⟨y, y1, y2⟩ := frac_near (B := 1) d0 d2 m3 (by linarith) (by norm_num) (by norm_num) le_rfl (by norm_num)
    refine ⟨y, by rw [a1, b1, d1, m1, y1]; rfl, ?_⟩
    rw [if_neg hr]
    linarith

/-- a bounded factor times a volume -/
theorem term_near {t T b v δ : K} (hb : petty ≤ b) (hb2 : b ≤ grand) (hv : petty ≤ v) (hv2 : v ≤ grand) (hδ2 : δ ≤ 10) (hT : |T| ≤ b) (ht : |t - T| ≤ δ * (eps * b)) :
    ∃ p, (rk t *. rk v : Double K) = rk p ∧ |p - T * v| ≤ (δ + 1.02) * (eps * (b * v)) := by
  have he := eps_pos (K := K)
  have he1 := eps_tenth (K := K)
  have b0 : 0 < b := petty_pos.trans_le hb
  have v0 : 0 < v := petty_pos.trans_le hv
  have bv : 0 < b * v := mul_pos b0 v0
  have s1 : |t| ≤ 1.001 * b := by
    have := abs_add_le (t - T) T
    rw [sub_add_cancel] at this
    have : δ * (eps * b) ≤ 10 * (1 / 100000 * b) := mul_le_mul hδ2 (mul_le_mul_of_nonneg_right he1 b0.le) (by positivity) (by norm_num)
    linarith
  have s2 : |t * v| ≤ 1.001 * (b * v) := by
    rw [abs_mul, abs_of_pos v0]
    have := mul_le_mul_of_nonneg_right s1 v0.le
    linarith
  have lo : tiny ≤ b * v := petty_sq.trans (mul_le_mul hb hv petty_pos.le b0.le)
  have hi : b * v ≤ grand * grand := mul_le_mul hb2 hv2 v0.le (b0.le.trans hb2)
  obtain ⟨p, p1, p2⟩ := near_mul s2 (by linarith) (by linarith [grand_sq (K := K), huge_cap' (K := K)])
  refine ⟨p, p1, ?_⟩
  have := abs_add_le (p - t * v) (t * v - T * v)
  rw [sub_add_sub_cancel] at this
  have q : |t * v - T * v| ≤ δ * (eps * (b * v)) := by
    rw [← sub_mul, abs_mul, abs_of_pos v0]
    have := mul_le_mul_of_nonneg_right ht v0.le
    linarith
  have : 0 < eps * (b * v) := mul_pos he bv
  linarith

section cols
variable {n : Nat} {h l c v : Nat → K} {M : K}

theorem Traded.cbound (H : Traded n h l c v M) {i : Nat} (hi : i < n) : |c i| ≤ M := by
  have := H.order i hi
  obtain ⟨a, b⟩ := H.bound i hi
  rw [abs_le] at *
  constructor <;> linarith

theorem dser_of_rows {s : Series (Double K)} {p : Nat → K} (hl : s.length = n) (h : ∀ i, i < n → ix s i = rk (p i)) : s = dser n p := by
  refine series_ext (F := Double K) (by rw [hl]; simp [rser]) fun i hi => ?_
  rw [h i (hl ▸ hi)]
  exact (show ix (dser n p) i = rk (p i) from ix_tab_lt (hl ▸ hi)).symm

theorem tpv_rows (H : Traded n h l c v M) :
    ∃ p, smul (typicalPrice (dser n h) (dser n l) (dser n c)) (dser n v) = dser n p ∧ Weighted n p (fun j => (h j + l j + c j) / 3 * v j) v M 3.74 := by
  have ex : ∀ i, i < n → ∃ p, ix (smul (typicalPrice (dser n h) (dser n l) (dser n c)) (dser n v)) i = rk p ∧
      |p - (h i + l i + c i) / 3 * v i| ≤ 3.74 * (eps * (M * v i)) := by
    intro i hi
    have e : ∀ x : Nat → K, ix (dser n x) i = rk (x i) := fun x => ix_tab_lt hi
    obtain ⟨t, t1, t2⟩ := tp_near H.mlo H.mhi (H.bound i hi).1 (H.bound i hi).2 (H.cbound hi)
    have T : |(h i + l i + c i) / 3| ≤ M := by
      rw [abs_div, abs_of_pos (by norm_num : (0 : K) < 3), div_le_iff₀ (by norm_num)]
      refine (abs_add_le _ _).trans ?_
      linarith [abs_add_le (h i) (l i), H.bound i hi, H.cbound hi]
    obtain ⟨p, p1, p2⟩ := term_near H.mlo H.mhi (H.vlo i hi) (H.vhi i hi) (by norm_num) T t2
    refine ⟨p, ?_, p2.trans (le_of_eq (by ring))⟩
    unfold typicalPrice
    rw [ix_smul (by simpa [rser] using hi), ix_divc (by simpa [rser] using hi), ix_sadd (by simpa [rser] using hi), ix_sadd (by simpa [rser] using hi), e, e, e, e, t1, p1]
  choose! p p1 p2 using ex
  refine ⟨p, dser_of_rows (by simp [typicalPrice, rser]) p1, H.mlo, H.mhi, H.vlo, H.vhi, fun i hi => ?_, p2⟩
  rw [abs_mul, abs_of_pos (petty_pos.trans_le (H.vlo i hi))]
  refine mul_le_mul_of_nonneg_right ?_ (petty_pos.trans_le (H.vlo i hi)).le
  rw [abs_div, abs_of_pos (by norm_num : (0 : K) < 3), div_le_iff₀ (by norm_num)]
  refine (abs_add_le _ _).trans ?_
  linarith [abs_add_le (h i) (l i), H.bound i hi, H.cbound hi]

theorem mfv_rows (H : Traded n h l c v M) :
    ∃ p, smul (clv (dser n h) (dser n l) (dser n c)) (dser n v) = dser n p ∧
      Weighted n p (fun j => (if h j = l j then 0 else ((c j - l j) - (h j - c j)) / (h j - l j)) * v j) v 1 6.22 := by
  have T : ∀ i, i < n → |if h i = l i then 0 else ((c i - l i) - (h i - c i)) / (h i - l i)| ≤ 1 := by
    intro i hi
    obtain ⟨a, b⟩ := H.order i hi
    split_ifs with q
    · rw [abs_zero]; exact zero_le_one
    · have dp : 0 < h i - l i := lt_of_le_of_ne (by linarith) (fun e => q (by linarith))
      rw [abs_div, abs_of_pos dp, div_le_one dp, abs_le]
      constructor <;> linarith
  have ex : ∀ i, i < n → ∃ p, ix (smul (clv (dser n h) (dser n l) (dser n c)) (dser n v)) i = rk p ∧
      |p - (if h i = l i then 0 else ((c i - l i) - (h i - c i)) / (h i - l i)) * v i| ≤ 6.22 * (eps * (1 * v i)) := by
    intro i hi
    have e : ∀ x : Nat → K, ix (dser n x) i = rk (x i) := fun x => ix_tab_lt hi
    obtain ⟨b1, b2⟩ := H.bound i hi
    obtain ⟨t, t1, t2⟩ := clv_near (H.order i hi).1 (H.order i hi).2 (H.gap i hi) (by
      rw [abs_le] at b1 b2
      have := grand_le (K := K)
      have := H.mhi
      have : (0 : K) < grand := two_zpow_pos _
      linarith [b1.2, b2.1])
    obtain ⟨p, p1, p2⟩ := term_near petty_one one_grand (H.vlo i hi) (H.vhi i hi) (δ := 5.2) (by norm_num) (T i hi) (by rw [mul_one]; exact t2)
    refine ⟨p, ?_, p2.trans (le_of_eq (by ring))⟩
    unfold clv fillConst
    rw [ix_smul (by simpa [rser] using hi), ix_map (by simpa [rser] using hi), ix_sdiv (by simpa [rser] using hi), ix_ssub (by simpa [rser] using hi),
      ix_ssub (by simpa [rser] using hi), ix_ssub (by simpa [rser] using hi), ix_ssub (by simpa [rser] using hi), e, e, e, e]
    rw [← p1, ← t1]
  choose! p p1 p2 using ex
  refine ⟨p, dser_of_rows (by simp [clv, fillConst, rser]) p1, petty_one, one_grand, H.vlo, H.vhi, fun i hi => ?_, p2⟩
  have v0 := petty_pos.trans_le (H.vlo i hi)
  rw [abs_mul, abs_of_pos v0]
  exact mul_le_mul_of_nonneg_right (T i hi) v0.le

theorem ser_clamp (x : Nat → K) : ser n (fun i => x (min i (n - 1))) = ser n x := by
  refine series_ext (by simp [ser]) fun i hi => ?_
  have hi : i < n := by simpa [ser] using hi
  rw [(def_ser n _).val i hi (Nat.zero_le _), (def_ser n x).val i hi (Nat.zero_le _)]
  rw [show min i (n - 1) = i by omega]

theorem wsum_clamp (x : Nat → K) {w i : Nat} (hi : i < n) : wsum (fun j => x (min j (n - 1))) w i = wsum x w i := by
  unfold wsum
  refine Finset.sum_congr rfl fun j hj => ?_
  rw [mem_Ico] at hj
  show x (min j (n - 1)) = x j
  rw [show min j (n - 1) = j by omega]

theorem minp_first (fillna : Bool) (w : Nat) : minp fillna w - 1 = if fillna then 0 else w - 1 := by cases fillna <;> simp [minp]

theorem vwap_rows_def (H : Traded n h l c v M) {w : Nat} (hw : 1 ≤ w) (fillna : Bool) :
    Def (volumeWeightedAveragePrice (ser n h) (ser n l) (ser n c) (ser n v) w fillna) n (minp fillna w - 1)
      (fun i => wsum (fun j => (h j + l j + c j) / 3 * v j) w i / wsum v w i) := by
  rcases Nat.eq_zero_or_pos n with rfl | hn
  · exact ⟨by simp [volumeWeightedAveragePrice, VWAP.run, typicalPrice, ser], fun i hi => by omega, fun i hi => by omega⟩
  have F := vwap_formula n (fun i => h (min i (n - 1))) (fun i => l (min i (n - 1))) (fun i => c (min i (n - 1))) (fun i => v (min i (n - 1))) w fillna hw
    (fun i => petty_pos.trans_le (H.vlo _ (by omega)))
  rw [ser_clamp, ser_clamp, ser_clamp, ser_clamp, ← minp_first] at F
  refine ⟨F.len, F.gap, fun i hi q => (F.val i hi q).trans ?_⟩
  have e1 := wsum_clamp (n := n) (fun j => (h j + l j + c j) / 3 * v j) (w := w) hi
  have e2 := wsum_clamp (n := n) v (w := w) hi
  rw [← e1, ← e2]
  rfl

theorem cmf_rows_def (H : Traded n h l c v M) {w : Nat} (hw : 1 ≤ w) (fillna : Bool) :
    Def (chaikinMoneyFlow (ser n h) (ser n l) (ser n c) (ser n v) w fillna) n (minp fillna w - 1)
      (fun i => wsum (fun j => (if h j = l j then 0 else ((c j - l j) - (h j - c j)) / (h j - l j)) * v j) w i / wsum v w i) := by
  rcases Nat.eq_zero_or_pos n with rfl | hn
  · exact ⟨by simp [chaikinMoneyFlow, CMF.run, clv, fillConst, ser], fun i hi => by omega, fun i hi => by omega⟩
  have F := cmf_formula n (fun i => h (min i (n - 1))) (fun i => l (min i (n - 1))) (fun i => c (min i (n - 1))) (fun i => v (min i (n - 1))) w fillna hw
    (fun i => petty_pos.trans_le (H.vlo _ (by omega))) (fun i => (H.order _ (by omega)).1) (fun i => (H.order _ (by omega)).2)
  rw [ser_clamp, ser_clamp, ser_clamp, ser_clamp, ← minp_first] at F
  refine ⟨F.len, F.gap, fun i hi q => (F.val i hi q).trans ?_⟩
  have e1 := wsum_clamp (n := n) (fun j => (if h j = l j then 0 else ((c j - l j) - (h j - c j)) / (h j - l j)) * v j) (w := w) hi
  have e2 := wsum_clamp (n := n) v (w := w) hi
  rw [← e1, ← e2]
  rfl

/-- nothing is left to fill -/
theorem Approx.noFill {s : Series (Double K)} {p : Nat → K} {w : Nat} {δ : K} {fillna : Bool} (h : Approx s n (minp fillna w - 1) p δ) (x : Fill (Double K)) :
    Approx (checkFillna fillna x s) n (minp fillna w - 1) p δ := by
  cases fillna with
  | false => exact h
  | true => exact Approx.fill h true x

/-- **VWAP** (as modelled) in double precision. -/
theorem vwap_double (H : Traded n h l c v M) {w : Nat} (hw : 1 ≤ w) (hw2 : w ≤ 2 ^ 38) (fillna : Bool) :
    CloseTo ((2.1 * w + 5) * eps * M) (volumeWeightedAveragePrice (dser n h) (dser n l) (dser n c) (dser n v) w fillna)
      (volumeWeightedAveragePrice (ser n h) (ser n l) (ser n c) (ser n v) w fillna) := by
  obtain ⟨p, e, W⟩ := tpv_rows H
  have A := W.fresh (by norm_num) (by norm_num) hw hw2 (minp_le fillna w)
  have w0 : (0 : K) ≤ w := Nat.cast_nonneg w
  have eM : 0 < eps * M := mul_pos eps_pos W.bpos
  rw [← e] at A
  refine Approx.close (Approx.mono (Approx.noFill A (.const (lit 0))) ?_) (vwap_rows_def H hw fillna)
  · nlinarith

/-- **VWAP** with pandas' rolling sums; no volume is more than `R` times another. -/
theorem vwap_pandas_double (H : Traded n h l c v M) (hn : n ≤ 2 ^ 44) {R : K} (hR : ∀ i j, i < n → j < n → v i ≤ R * v j) (hsm : n * R * eps ≤ 1 / 100000)
    {w : Nat} (hw : 1 ≤ w) (fillna : Bool) :
    CloseTo (180 * n * R * eps * M) (vwapPandas (dser n h) (dser n l) (dser n c) (dser n v) w fillna)
      (volumeWeightedAveragePrice (ser n h) (ser n l) (ser n c) (ser n v) w fillna) := by
  obtain ⟨p, e, W⟩ := tpv_rows H
  rcases Nat.eq_zero_or_pos n with h0 | h0
  · subst h0
    refine ⟨by simp [vwapPandas, typicalPrice, onlineSum, volumeWeightedAveragePrice, VWAP.run, rser, ser], fun i hi => ?_⟩
    simp [volumeWeightedAveragePrice, VWAP.run, typicalPrice, ser] at hi
  have A := W.online (by norm_num) (by norm_num) hw (minp_le fillna w) hn hR hsm
  have eM : 0 < eps * M := mul_pos eps_pos W.bpos
  have n1 : (1 : K) ≤ n := by exact_mod_cast h0
  have R1 : 1 ≤ R := by
    have := hR 0 0 h0 h0
    have := W.pos h0
    by_contra q
    nlinarith
  have nR : 1 ≤ (n : K) * R := by nlinarith
  rw [← e] at A
  refine Approx.close (Approx.mono (Approx.noFill A (.const (lit 0))) ?_) (vwap_rows_def H hw fillna)
  · have := mul_le_mul_of_nonneg_right nR eM.le
    linarith

/-- **Chaikin money flow** (as modelled) in double precision. -/
theorem cmf_double (H : Traded n h l c v M) {w : Nat} (hw : 1 ≤ w) (hw2 : w ≤ 2 ^ 38) (fillna : Bool) :
    CloseTo ((2.1 * w + 8) * eps : K) (chaikinMoneyFlow (dser n h) (dser n l) (dser n c) (dser n v) w fillna)
      (chaikinMoneyFlow (ser n h) (ser n l) (ser n c) (ser n v) w fillna) := by
  obtain ⟨p, e, W⟩ := mfv_rows H
  have A := W.fresh (by norm_num) (by norm_num) hw hw2 (minp_le fillna w)
  have w0 : (0 : K) ≤ w := Nat.cast_nonneg w
  have e0 := eps_pos (K := K)
  rw [← e] at A
  refine Approx.close (Approx.mono (Approx.noFill A (.const (lit 0))) ?_) (cmf_rows_def H hw fillna)
  · nlinarith

/-- **Chaikin money flow** with pandas' rolling sums. -/
theorem cmf_pandas_double (H : Traded n h l c v M) (hn : n ≤ 2 ^ 44) {R : K} (hR : ∀ i j, i < n → j < n → v i ≤ R * v j) (hsm : n * R * eps ≤ 1 / 100000)
    {w : Nat} (hw : 1 ≤ w) (fillna : Bool) :
    CloseTo (180 * n * R * eps) (cmfPandas (dser n h) (dser n l) (dser n c) (dser n v) w fillna)
      (chaikinMoneyFlow (ser n h) (ser n l) (ser n c) (ser n v) w fillna) := by
  obtain ⟨p, e, W⟩ := mfv_rows H
  rcases Nat.eq_zero_or_pos n with h0 | h0
  · subst h0
    refine ⟨by simp [cmfPandas, clv, fillConst, onlineSum, chaikinMoneyFlow, CMF.run, rser, ser], fun i hi => ?_⟩
    simp [chaikinMoneyFlow, CMF.run, clv, fillConst, ser] at hi
  have A := W.online (by norm_num) (by norm_num) hw (minp_le fillna w) hn hR hsm
  have n1 : (1 : K) ≤ n := by exact_mod_cast h0
  have R1 : 1 ≤ R := by
    have := hR 0 0 h0 h0
    have := W.pos h0
    by_contra q
    nlinarith
  have nR : 1 ≤ (n : K) * R := by nlinarith
  rw [← e] at A
  refine Approx.close (Approx.mono (Approx.noFill A (.const (lit 0))) ?_) (cmf_rows_def H hw fillna)
  · have e0 := eps_pos (K := K)
    have := mul_le_mul_of_nonneg_right nR e0.le
    linarith

end cols

end dbl
/-! ## examples -/

/-- three bars -/
theorem threeBars : Traded 3 (fun i => (i : ℚ) + 3) (fun i => i) (fun i => (i : ℚ) + 1) (fun i => (i : ℚ) + 2) 5 := by
  have a := petty_one (K := ℚ)
  have t := tiny_le_one (K := ℚ)
  have b : (1000 : ℚ) ≤ grand := by
    have : (2 : ℚ) ^ (10 : ℤ) ≤ 2 ^ (400 : ℤ) := zpow_le_zpow_right₀ (by norm_num) (by norm_num)
    exact le_trans (by norm_num) this
  have c : ∀ i : Nat, i < 3 → (i : ℚ) ≤ 2 := fun i hi => by exact_mod_cast (by omega : i ≤ 2)
  have d : ∀ i : Nat, (0 : ℚ) ≤ i := fun i => Nat.cast_nonneg i
  refine ⟨by linarith, by linarith, fun i _ => ⟨by linarith, by linarith⟩, fun i _ => .inr (by linarith), fun i hi => ?_, fun i _ => by linarith [d i], fun i hi => by linarith [c i hi]⟩
  rw [abs_of_nonneg (by linarith [d i]), abs_of_nonneg (d i)]
  exact ⟨by linarith [c i hi], by linarith [c i hi]⟩

example : volumeWeightedAveragePrice (ser 3 fun i => (i : ℚ) + 3) (ser 3 fun i => i) (ser 3 fun i => (i : ℚ) + 1) (ser 3 fun i => (i : ℚ) + 2) 2 false
    = [.nan, .fin (29/15), .fin (61/21)] := by decide +kernel
example : volumeWeightedAveragePrice (dser 3 fun i => (i : ℚ) + 3) (dser 3 fun i => i) (dser 3 fun i => (i : ℚ) + 1) (dser 3 fun i => (i : ℚ) + 2) 2 false
    = ([Val.nan, rk (4353479639791479/2251799813685248), rk (408808894746429/140737488355328)] : Series (Double ℚ)) := by decide +kernel
example : CloseTo ((2.1 * (2 : ℕ) + 5) * eps * 5 : ℚ)
    (volumeWeightedAveragePrice (dser 3 fun i => (i : ℚ) + 3) (dser 3 fun i => i) (dser 3 fun i => (i : ℚ) + 1) (dser 3 fun i => (i : ℚ) + 2) 2 false)
    (volumeWeightedAveragePrice (ser 3 fun i => (i : ℚ) + 3) (ser 3 fun i => i) (ser 3 fun i => (i : ℚ) + 1) (ser 3 fun i => (i : ℚ) + 2) 2 false) :=
  vwap_double threeBars (by norm_num) (by norm_num) false
example : CloseTo (180 * (3 : ℕ) * 2 * eps : ℚ)
    (cmfPandas (dser 3 fun i => (i : ℚ) + 3) (dser 3 fun i => i) (dser 3 fun i => (i : ℚ) + 1) (dser 3 fun i => (i : ℚ) + 2) 2 true)
    (chaikinMoneyFlow (ser 3 fun i => (i : ℚ) + 3) (ser 3 fun i => i) (ser 3 fun i => (i : ℚ) + 1) (ser 3 fun i => (i : ℚ) + 2) 2 true) :=
  cmf_pandas_double threeBars (by norm_num) (fun i j hi hj => by
    have : (i : ℚ) ≤ 2 := by exact_mod_cast (by omega : i ≤ 2)
    have : (0 : ℚ) ≤ j := Nat.cast_nonneg j
    linarith) (by unfold eps; norm_num) (by norm_num) true

end TA
