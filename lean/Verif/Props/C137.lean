import Verif.Props.C49
import Verif.Props.C61
import Verif.Props.C134

/-!
# C137 — the Schaff trend cycle in double precision

`STCIndicator._run` (`ta/trend.py:1134-1156`) takes the position of a column in its own range twice. Each time the error is divided by
that range.
-/

set_option linter.unusedSectionVars false

namespace TA
open Finset

section
variable {K : Type} [Field K] [LinearOrder K] [IsStrictOrderedRing K] [FloorRing K]

/-- in every complete window of `w` rows from row `p` on, `f` has two values at least `g` apart -/
def Spaced (f : Nat → K) (w p n : Nat) (g : K) : Prop :=
  ∀ i, i < n → p ≤ i → ∃ j k, j ≤ i ∧ i < j + w ∧ k ≤ i ∧ i < k + w ∧ f j + g ≤ f k

theorem Spaced.nonFlat {f : Nat → K} {w p n : Nat} {g : K} (h : Spaced f w p n g) (hg : 0 < g) : NonFlat f w p n := fun i h1 h2 => by
  obtain ⟨j, k, j1, j2, k1, k2, q⟩ := h i h1 h2
  exact ⟨j, k, j1, j2, k1, k2, fun e => by rw [e] at q; linarith⟩

/-- the position is given by its description -/
theorem PosOf.eq {f g : Nat → K} {w : Nat} (h : PosOf f w g) (hw : 1 ≤ w) (i : Nat) : g i = 100 * (f i - wmin f w i) / (wmax f w i - wmin f w i) := by
  obtain ⟨M, m, a1, a2, a3⟩ := h i
  obtain ⟨M', m', b1, b2, b3⟩ := posOf_wmax f hw i
  rw [a3, a1.unique b1, a2.unique b2]
  exact b3.symm

/-- two positions in ranges that differ a little -/
theorem ratio_near {a b a' b' δ g : K} (ha : 0 ≤ a') (hab : a' ≤ b') (hb' : 0 < b') (hb : g ≤ b) (hg : 0 < g) (h1 : |a' - a| ≤ 2 * δ) (h2 : |b' - b| ≤ 2 * δ) :
    |100 * a' / b' - 100 * a / b| ≤ 400 * δ / g := by
  have b0 : 0 < b := by linarith
  have δ0 : 0 ≤ δ := by linarith [abs_nonneg (a' - a)]
  have r0 : 0 ≤ a' / b' := div_nonneg ha hb'.le
  have r1 : a' / b' ≤ 1 := by rwa [div_le_one hb']
  have e : 100 * a' / b' - 100 * a / b = 100 * ((a' - a) - a' / b' * (b' - b)) / b := by field_simp; ring
  rw [e, abs_div, abs_mul, abs_of_pos b0, abs_of_pos (by norm_num : (0 : K) < 100)]
  have k1 := abs_sub (a' - a) (a' / b' * (b' - b))
  rw [abs_mul, abs_of_nonneg r0] at k1
  have k2 := mul_le_mul r1 h2 (abs_nonneg _) (by norm_num : (0 : K) ≤ 1)
  refine (div_le_div_of_nonneg_left (by positivity) hg hb).trans ?_
  refine div_le_div_of_nonneg_right ?_ hg.le
  linarith

theorem Approx.stochOf {s : Series (Double K)} {n p : Nat} {f : Nat → K} {δ B g : K} (h : Approx s n p f δ) {w : Nat} (hw : 1 ≤ w)
    (hf : ∀ i, i < n → p ≤ i → |f i| ≤ B) (hB : B + δ ≤ huge) (hs : Spaced f w (p + w - 1) n g) (hg : 4 * δ ≤ g) (hg2 : 2 * tiny ≤ g) :
    Approx (STC.stochOf s w) n (p + w - 1) (fun i => 100 * (f i - wmin f w i) / (wmax f w i - wmin f w i)) (400 * δ / g + 410 * eps) := by
  have t0 := tiny_pos (K := K)
  have g0 : 0 < g := by linarith
  obtain ⟨y, y1, y2⟩ := h.values
  have a := y1.rollMax' hw (le_refl w)
  have b := y1.rollMin' hw (le_refl w)
  rw [max_eq_left hw] at a b
  have la : (rollMax w w s).length = n := a.len
  have lb : (rollMin w w s).length = n := b.len
  refine ⟨by simp [STC.stochOf, h.len], fun i hi q => ?_, fun i hi q => ?_⟩
  · have e1 : ix (rollMin w w s) i = Val.nan := b.gap i hi q
    have e2 : ix (rollMax w w s) i = Val.nan := a.gap i hi q
    unfold STC.stochOf
    dsimp only
    rw [ix_sdiv (by simpa [h.len] using hi), ix_cmul (by simpa [h.len] using hi), ix_ssub (by simpa [h.len] using hi), ix_ssub (by simpa [h.len] using hi), lit100k, e1, e2]
    cases hx : ix s i <;> rfl
  · have e1 : ix (rollMin w w s) i = rk (wmin y w i) := by
      have := b.val i hi q
      rw [min_eq_left (by omega)] at this
      exact this
    have e2 : ix (rollMax w w s) i = rk (wmax y w i) := by
      have := a.val i hi q
      rw [min_eq_left (by omega)] at this
      exact this
    have e3 : ix s i = rk (y i) := y1.val i hi (by omega)
    obtain ⟨n1, n2⟩ := wmax_near hw hi (by omega) y2
    obtain ⟨⟨u, u1, u2, u3⟩, uM⟩ := wmax_spec f (w := w) (i := i) hw
    obtain ⟨⟨v, v1, v2, v3⟩, vM⟩ := wmin_spec f (w := w) (i := i) hw
    have yM := (wmax_spec y (w := w) (i := i) hw).2 i (le_refl _) (by omega)
    have ym := (wmin_spec y (w := w) (i := i) hw).2 i (le_refl _) (by omega)
    obtain ⟨j, k, j1, j2, k1, k2, jk⟩ := hs i hi q
    have rg : g ≤ wmax f w i - wmin f w i := by linarith [uM k k1 k2, vM j j1 j2]
    have n3 := y2 i hi (by omega)
    have m1 := abs_le.mp n1
    have m2 := abs_le.mp n2
    have m3 := abs_le.mp n3
    have bu := abs_le.mp (hf u (by omega) (by omega))
    have bv := abs_le.mp (hf v (by omega) (by omega))
    rw [← u3] at bu
    rw [← v3] at bv
    have ry : tiny ≤ wmax y w i - wmin y w i := by linarith
    obtain ⟨z, z1, z2⟩ := scaled_near (q := 100) (a := y i) (b := wmin y w i) ry (by linarith) (by rw [abs_of_nonneg (by linarith)]; linarith) (by norm_num)
    refine ⟨z, ?_, ?_⟩
    · unfold STC.stochOf
      dsimp only
      rw [ix_sdiv (by simpa [h.len] using hi), ix_cmul (by simpa [h.len] using hi), ix_ssub (by simpa [h.len] using hi), ix_ssub (by simpa [h.len] using hi), lit100k, e1, e2, e3]
      exact z1
    · have k := ratio_near (a := f i - wmin f w i) (b := wmax f w i - wmin f w i) (a' := y i - wmin y w i) (b' := wmax y w i - wmin y w i) (δ := δ) (by linarith) (by linarith) (by linarith) rg g0
        (by rw [abs_le]; constructor <;> linarith) (by rw [abs_le]; constructor <;> linarith)
      have := abs_add_le (z - 100 * (y i - wmin y w i) / (wmax y w i - wmin y w i)) (100 * (y i - wmin y w i) / (wmax y w i - wmin y w i) - 100 * (f i - wmin f w i) / (wmax f w i - wmin f w i))
      rw [sub_add_sub_cancel] at this
      linarith

/-- a position is between 0 and 100 -/
theorem pos_abs (f : Nat → K) {w : Nat} (hw : 1 ≤ w) (i : Nat) : |100 * (f i - wmin f w i) / (wmax f w i - wmin f w i)| ≤ 100 := by
  have uM := (wmax_spec f (w := w) (i := i) hw).2 i (le_refl _) (by omega)
  have vM := (wmin_spec f (w := w) (i := i) hw).2 i (le_refl _) (by omega)
  rcases (sub_nonneg.mpr (vM.trans uM)).lt_or_eq with q | q
  · rw [abs_of_nonneg (div_nonneg (by linarith) q.le), div_le_iff₀ q]; linarith
  · rw [← q, div_zero, abs_zero]; norm_num

/-- the error of the smoothed position of the MACD line -/
def stcErr (slow fast s1 : Nat) (M g : K) : K := (8000 * ((slow : K) + fast + 3) * M / g + 4100 * s1 + 4510) * eps

set_option maxHeartbeats 1600000 in
/-- C137. STC in double precision. `L` is the exact MACD line, `A` its position in percent in its own range over `cycle` rows, `D` the
smoothing of `A`; in every complete cycle `L` has a range of at least `g` and `D` one of at least `g'`. -/
theorem stc_double (n : Nat) (x : Nat → K) {slow fast cycle s1 s2 : Nat} (h1 : 1 ≤ slow) (h2 : 1 ≤ fast) (hcy : 1 ≤ cycle) (h3 : 1 ≤ s1) (h4 : 1 ≤ s2)
    (q1 : slow ≤ 2 ^ 40) (q2 : fast ≤ 2 ^ 40) (q3 : s1 ≤ 2 ^ 40) (q4 : s2 ≤ 2 ^ 40) (fillna : Bool) {M g g' : K}
    (hx : ∀ i, i < n → |x i| ≤ M) (hM : petty ≤ M) (hM2 : M ≤ grand) {p q : Nat} {L A D : Nat → K}
    (hp : p = (if fillna then 0 else max slow fast - 1) + cycle - 1) (hq : q = p + (if fillna then 0 else s1 - 1) + cycle - 1)
    (hL : ∀ i, L i = emaRec (2 / ((fast : K) + 1)) x i - emaRec (2 / ((slow : K) + 1)) x i) (hA : PosOf L cycle A)
    (hD : ∀ i, D i = emaRec (2 / ((s1 : K) + 1)) (fun j => A (p + j)) (i - p))
    (sL : Spaced L cycle p n g) (sD : Spaced D cycle q n g')
    (hg : 80 * ((slow : K) + fast + 3) * eps * M ≤ g) (hg' : 4 * stcErr slow fast s1 M g ≤ g') :
    ∃ (out : Series (Double K)) (exact : Series (Val K)),
      stc (dser n x) slow fast cycle s1 s2 fillna = .ok out ∧ stc (ser n x) slow fast cycle s1 s2 fillna = .ok exact ∧
      CloseTo (400 * stcErr slow fast s1 M g / g' + (4100 * (s2 : K) + 4510) * eps) out exact := by
  have pt : (tiny : K) ≤ petty := by
    have := petty_sq (K := K)
    have := mul_le_mul_of_nonneg_right (petty_one (K := K)) (petty_pos (K := K)).le
    linarith
  have tM : tiny ≤ M := pt.trans hM
  have gh := grand_le (K := K)
  have hMb := huge_cap (K := K)
  have hMc := huge_cap' (K := K)
  have t0 := tiny_pos (K := K)
  have tl := tiny_le_one (K := K)
  have hM0 : 0 < M := t0.trans_le tM
  have hu := eps_pos (K := K)
  have hu1 := eps_small (K := K)
  have w1 := eps_win (K := K) q1
  have w2 := eps_win (K := K) q2
  have v1 : 20 * ((slow : K) + 1) * eps * M ≤ M / 50 := by
    have := mul_le_mul_of_nonneg_right w1 hM0.le
    linarith
  have v2 : 20 * ((fast : K) + 1) * eps * M ≤ M / 50 := by
    have := mul_le_mul_of_nonneg_right w2 hM0.le
    linarith
  have v4 : 0 < eps * M := mul_pos hu hM0
  have v5 : 20 * eps * M ≤ M / 50 := by
    have := mul_le_mul_of_nonneg_right hu1 hM0.le
    linarith
  have b1 : ∀ i, i < n → |emaW fast x i| ≤ M := fun i hi =>
    emaRec_abs (by positivity) (by rw [div_le_one (by positivity)]; exact_mod_cast (by omega)) fun j hj => hx j (by omega)
  have b2 : ∀ i, i < n → |emaW slow x i| ≤ M := fun i hi =>
    emaRec_abs (by positivity) (by rw [div_le_one (by positivity)]; exact_mod_cast (by omega)) fun j hj => hx j (by omega)
  have aF := ((approx_ser (R := binary64) n x).ema h2 q2 (le_refl _) (fun i hi _ => hx i hi) tM (by linarith) fillna).congr
    (g := emaW fast x) fun i _ _ => by unfold emaW; simp
  have aS := ((approx_ser (R := binary64) n x).ema h1 q1 (le_refl _) (fun i hi _ => hx i hi) tM (by linarith) fillna).congr
    (g := emaW slow x) fun i _ _ => by unfold emaW; simp
  rw [Nat.zero_add, zero_add, add_zero] at aF aS
  have eL : ∀ i, emaW fast x i - emaW slow x i = L i := fun i => (hL i).symm
  have bL : ∀ i, i < n → |L i| ≤ 2 * M := fun i hi => by
    rw [← eL]
    have := abs_sub (emaW fast x i) (emaW slow x i)
    linarith [b1 i hi, b2 i hi]
  have aL := ((aF.sub aS (M := 3 * M) (fun i hi _ => by rw [eL]; linarith [bL i hi]) (by linarith) (by linarith)).mono
    (δ' := 20 * ((slow : K) + fast + 3) * eps * M) (by linarith)).congr (g := L) fun i _ _ => eL i
  have dL := (((def_ser n x).ema0 h2 fillna).ssub ((def_ser n x).ema0 h1 fillna)).congr (g := L) fun i _ _ => eL i
  have mx : max (if fillna then 0 else fast - 1) (if fillna then 0 else slow - 1) = if fillna then 0 else max slow fast - 1 := by
    cases fillna <;> simp; omega
  rw [mx] at aL dL
  have hW : (5 : K) ≤ (slow : K) + fast + 3 := by
    have : (1 : K) ≤ slow := by exact_mod_cast h1
    have : (1 : K) ≤ fast := by exact_mod_cast h2
    linarith
  have e2M : 40 * tiny ≤ eps * M := by
    refine le_trans ?_ (mul_le_mul_of_nonneg_left hM hu.le)
    unfold tiny eps petty
    rw [← zpow_add₀ (by norm_num)]
    calc (40 : K) * 2 ^ (-900 : ℤ) ≤ 2 ^ (6 : ℤ) * 2 ^ (-900 : ℤ) := mul_le_mul_of_nonneg_right (by norm_num) (two_zpow_pos _).le
      _ = 2 ^ (6 + -900 : ℤ) := (zpow_add₀ (by norm_num) _ _).symm
      _ ≤ _ := zpow_le_zpow_right₀ (by norm_num) (by norm_num)
  have k5 := mul_le_mul_of_nonneg_right hW v4.le
  have δ0p : 0 < 20 * ((slow : K) + fast + 3) * eps * M := by positivity
  have hgδ : 4 * (20 * ((slow : K) + fast + 3) * eps * M) ≤ g := by linarith
  have hg2 : 2 * tiny ≤ g := by linarith
  have g0 : 0 < g := by linarith
  have aA := aL.stochOf hcy (fun i hi _ => bL i hi) (by linarith) (hp ▸ sL) hgδ hg2
  have dA := def_stochOf dL hcy (hp ▸ sL.nonFlat g0)
  rw [← hp] at aA dA
  have fA : ∀ i, 100 * (L i - wmin L cycle i) / (wmax L cycle i - wmin L cycle i) = A i := fun i => (hA.eq hcy i).symm
  have bA : ∀ i, |A i| ≤ 100 := fun i => by rw [← fA]; exact pos_abs L hcy i
  replace aA := aA.congr (g := A) fun i _ _ => fA i
  replace dA := dA.congr (g := A) fun i _ _ => fA i
  have r1 : 400 * (20 * ((slow : K) + fast + 3) * eps * M) / g ≤ 100 := by rw [div_le_iff₀ g0]; linarith
  have r0 : 0 ≤ 400 * (20 * ((slow : K) + fast + 3) * eps * M) / g := by positivity
  have es : stcErr slow fast s1 M g = 400 * (20 * ((slow : K) + fast + 3) * eps * M) / g + (4100 * s1 + 4510) * eps := by unfold stcErr; ring
  have eD : ∀ i, emaRec (2 / ((s1 : K) + 1)) (fun j => A (p + j)) (i - p) = D i := fun i => (hD i).symm
  have tc := thousand_le_cap (K := K)
  -- smoothing a column of positions
  have sm : ∀ {s : Series (Double K)} {p w : Nat} {f : Nat → K} {δ : K}, 1 ≤ w → w ≤ 2 ^ 40 → 0 ≤ δ → δ ≤ 100 → (∀ i, |f i| ≤ 100) → Approx s n p f (δ + 410 * eps) →
      Approx (TA.ema s w fillna) n (p + if fillna then 0 else w - 1) (fun i => emaRec (2 / ((w : K) + 1)) (fun j => f (p + j)) (i - p)) (δ + (4100 * w + 4510) * eps) :=
    fun {s p w f δ} a b c d e h => by
      refine (h.ema a b (by positivity) (fun i _ _ => e i) (tl.trans (by norm_num)) (by linarith) fillna).mono ?_
      have k := mul_le_mul_of_nonneg_left (by linarith : 100 + (δ + 410 * eps) ≤ 205) (by positivity : 0 ≤ 20 * ((w : K) + 1) * eps)
      linarith
  have aD := (sm h3 q3 r0 r1 bA aA).congr (g := D) fun i _ _ => eD i
  have dD := (dA.ema h3 fillna).congr (g := D) fun i _ _ => eD i
  rw [← es] at aD
  have bD : ∀ i, |D i| ≤ 100 := fun i => by
    rw [hD]
    exact emaRec_abs (by positivity) (by rw [div_le_one (by positivity)]; exact_mod_cast (by omega)) fun j _ => bA _
  have e0 : 0 < stcErr slow fast s1 M g := by rw [es]; positivity
  have g'0 : 0 < g' := by linarith
  have te : (tiny : K) ≤ eps := by unfold tiny eps; exact zpow_le_zpow_right₀ (by norm_num) (by norm_num)
  have s10 : (0 : K) ≤ s1 * eps := mul_nonneg (Nat.cast_nonneg _) hu.le
  have w3 := eps_win (K := K) q3
  have g'2 : 2 * tiny ≤ g' := by
    rw [es] at hg'
    linarith
  have g'3 : stcErr slow fast s1 M g ≤ 1000 := by
    rw [es]
    linarith
  have hh : (2000 : K) ≤ huge := by
    unfold huge
    calc (2000 : K) ≤ 2 ^ (20 : ℤ) := by norm_num
      _ ≤ 2 ^ (900 : ℤ) := zpow_le_zpow_right₀ (by norm_num) (by norm_num)
  have aB := aD.stochOf hcy (fun i _ _ => bD i) (by linarith) (hq ▸ sD) hg' g'2
  have dB := def_stochOf dD hcy (hq ▸ sD.nonFlat g'0)
  rw [← hq] at aB dB
  have aO := sm h4 q4 (by positivity) (by rw [div_le_iff₀ g'0]; linarith) (fun i => pos_abs D hcy i) aB
  have dO := dB.ema h4 fillna
  refine ⟨checkFillna fillna (.const (lit 0)) (STC.run (dser n x) slow fast cycle s1 s2 fillna), checkFillna fillna (.const (lit 0)) (STC.run (ser n x) slow fast cycle s1 s2 fillna), ?_, ?_, ?_⟩
  · unfold stc chkSpan
    rw [if_neg (by omega), if_neg (by omega), if_neg (by omega), if_neg (by omega)]
    rfl
  · unfold stc chkSpan
    rw [if_neg (by omega), if_neg (by omega), if_neg (by omega), if_neg (by omega)]
    rfl
  · refine CloseTo.const ?_ (y := 0) (z := 0) lit0 (by simp) (by rw [sub_self, abs_zero]; positivity) fillna
    exact aO.close dO

/-! ## a straight line -/

/-- an average of a straight line lags behind by less and less more -/
theorem emaRec_line (α a b : K) (i : Nat) :
    emaRec α (fun j => a + b * j) (i + 1) = emaRec α (fun j => a + b * j) i + b - b * (1 - α) ^ (i + 1) := by
  induction i with
  | zero => simp only [emaRec]; push_cast; ring
  | succ i ih =>
    rw [emaRec, ih]
    have e : emaRec α (fun j => a + b * j) (i + 1) = (1 - α) * emaRec α (fun j => a + b * j) i + α * (a + b * ((i + 1 : ℕ) : K)) := rfl
    rw [ih] at e
    push_cast at e ⊢
    linear_combination (-1) * e

/-- no position without a range -/
theorem stochOf_flat {s : Series (Val K)} {n p : Nat} {f : Nat → K} (h : Def s n p f) {w : Nat} (hw : 1 ≤ w)
    (hf : ∀ i, i < n → p + w - 1 ≤ i → wmax f w i = wmin f w i) : Def (STC.stochOf s w) n n (fun _ => 0) := by
  have M := h.rollMax (w := w) hw
  have m := h.rollMin (w := w) hw
  refine ⟨by simp [STC.stochOf, h.len], fun i hi _ => ?_, fun i h1 h2 => by omega⟩
  unfold STC.stochOf
  dsimp only
  rw [ix_sdiv (by simpa [h.len] using hi), ix_cmul (by simpa [h.len] using hi), ix_ssub (by simpa [h.len] using hi), ix_ssub (by simpa [h.len] using hi)]
  by_cases q : i < p + w - 1
  · rw [M.gap i hi q, m.gap i hi q]; simp
  · rw [M.val i hi (by omega), m.val i hi (by omega), h.val i hi (by omega)]
    have e := hf i hi (by omega)
    have e1 := (wmax_spec f (w := w) (i := i) hw).2 i (le_refl _) (by omega)
    have e2 := (wmin_spec f (w := w) (i := i) hw).2 i (le_refl _) (by omega)
    have e3 : f i = wmin f w i := le_antisymm (e ▸ e1) e2
    rw [e, e3, fin_sub, lit_fin, fin_mul, sub_self, mul_zero, fin_div_zero, if_pos rfl]

theorem extremes_const (k : K) {w : Nat} (hw : 1 ≤ w) (i : Nat) : wmax (fun _ => k) w i = wmin (fun _ => k) w i :=
  (wmax_spec (fun _ => k) (w := w) (i := i) hw).1.choose_spec.2.2.trans (wmin_spec (fun _ => k) (w := w) (i := i) hw).1.choose_spec.2.2.symm

theorem extremes_one (f : Nat → K) (i : Nat) : wmax f 1 i = wmin f 1 i := by
  obtain ⟨⟨u, u1, u2, u3⟩, -⟩ := wmax_spec f (w := 1) (i := i) (le_refl _)
  obtain ⟨⟨v, v1, v2, v3⟩, -⟩ := wmin_spec f (w := 1) (i := i) (le_refl _)
  rw [u3, v3, show u = v by omega]

/-- a column that always rises is always at the top of its range, one that always falls at the bottom -/
theorem pos_mono {f : Nat → K} [Decidable (StrictMono f)] {w i : Nat} (hw : 2 ≤ w) (hi : 1 ≤ i) (h : StrictMono f ∨ StrictAnti f) :
    100 * (f i - wmin f w i) / (wmax f w i - wmin f w i) = if StrictMono f then 100 else 0 := by
  obtain ⟨⟨u, u1, u2, u3⟩, uM⟩ := wmax_spec f (w := w) (i := i) (by omega)
  obtain ⟨⟨v, v1, v2, v3⟩, vM⟩ := wmin_spec f (w := w) (i := i) (by omega)
  by_cases up : StrictMono f
  · have e : wmax f w i = f i := le_antisymm (u3 ▸ up.monotone u1) (uM i (le_refl _) (by omega))
    have := vM (i - 1) (by omega) (by omega)
    have := up (by omega : i - 1 < i)
    rw [if_pos up, e, mul_div_assoc, div_self (by linarith), mul_one]
  · have dn := h.resolve_left up
    have e : wmin f w i = f i := le_antisymm (vM i (le_refl _) (by omega)) (v3 ▸ dn.antitone v1)
    rw [if_neg up, e, sub_self, mul_zero, zero_div]

/-- the MACD line of a straight line rises, falls or stands still -/
theorem macd_line {slow fast : Nat} (hf : 1 ≤ fast) (hs : 1 ≤ slow) (a b : K) {L : Nat → K}
    (hL : ∀ i, L i = emaRec (2 / ((fast : K) + 1)) (fun j => a + b * j) i - emaRec (2 / ((slow : K) + 1)) (fun j => a + b * j) i) :
    (StrictMono L ∨ StrictAnti L) ∨ ∀ i, L i = 0 := by
  have r0 : ∀ {w : Nat}, 1 ≤ w → 0 ≤ 1 - 2 / ((w : K) + 1) := fun {w} h => by
    have : (1 : K) ≤ w := by exact_mod_cast h
    rw [sub_nonneg, div_le_one (by linarith)]; linarith
  have r1 : ∀ {v w : Nat}, v < w → 1 - 2 / ((v : K) + 1) < 1 - 2 / ((w : K) + 1) := fun {v w} h => by
    have h' : (v : K) < w := by exact_mod_cast h
    have := div_lt_div_of_pos_left (by norm_num : (0 : K) < 2) (by positivity : (0 : K) < (v : K) + 1) (by linarith : (v : K) + 1 < w + 1)
    linarith
  have st : ∀ i, L (i + 1) - L i = b * ((1 - 2 / ((slow : K) + 1)) ^ (i + 1) - (1 - 2 / ((fast : K) + 1)) ^ (i + 1)) := fun i => by
    rw [hL, hL, emaRec_line, emaRec_line]; ring
  rcases lt_trichotomy fast slow with q | rfl | q
  · have d : ∀ i : Nat, 0 < (1 - 2 / ((slow : K) + 1)) ^ (i + 1) - (1 - 2 / ((fast : K) + 1)) ^ (i + 1) := fun i => sub_pos.mpr (pow_lt_pow_left₀ (r1 q) (r0 hf) (by omega))
    rcases lt_trichotomy b 0 with hb | rfl | hb
    · exact .inl (.inr (strictAnti_nat_of_succ_lt fun i => by have := mul_neg_of_neg_of_pos hb (d i); rw [← st] at this; linarith))
    · refine .inr fun i => ?_
      induction i with
      | zero => rw [hL]; simp [emaRec]
      | succ i ih => have := st i; rw [ih, zero_mul] at this; linarith
    · exact .inl (.inl (strictMono_nat_of_lt_succ fun i => by have := mul_pos hb (d i); rw [← st] at this; linarith))
  · exact .inr fun i => by rw [hL, sub_self]
  · have d : ∀ i : Nat, (1 - 2 / ((slow : K) + 1)) ^ (i + 1) - (1 - 2 / ((fast : K) + 1)) ^ (i + 1) < 0 := fun i => sub_neg.mpr (pow_lt_pow_left₀ (r1 q) (r0 hs) (by omega))
    rcases lt_trichotomy b 0 with hb | rfl | hb
    · exact .inl (.inl (strictMono_nat_of_lt_succ fun i => by have := mul_pos_of_neg_of_neg hb (d i); rw [← st] at this; linarith))
    · refine .inr fun i => ?_
      induction i with
      | zero => rw [hL]; simp [emaRec]
      | succ i ih => have := st i; rw [ih, zero_mul] at this; linarith
    · exact .inl (.inr (strictAnti_nat_of_succ_lt fun i => by have := mul_neg_of_pos_of_neg hb (d i); rw [← st] at this; linarith))

/-- C137. On a price that moves by the same amount on every row, up, down or not at all, STC without rounding has no value on any row. -/
theorem stc_line {n slow fast cycle s1 s2 : Nat} (hf : 1 ≤ fast) (hs : 1 ≤ slow) (hcy : 1 ≤ cycle) (h3 : 1 ≤ s1) (h4 : 1 ≤ s2) (a b : K) (fillna : Bool) :
    ∃ out, stc (ser n fun i => a + b * i) slow fast cycle s1 s2 fillna = .ok out ∧ ∀ i, i < n → ix out i = if fillna then .fin 0 else .nan := by
  obtain ⟨L, hL⟩ : ∃ L : Nat → K, ∀ i, L i = emaRec (2 / ((fast : K) + 1)) (fun j => a + b * j) i - emaRec (2 / ((slow : K) + 1)) (fun j => a + b * j) i := ⟨_, fun _ => rfl⟩
  classical
  have mono := macd_line hf hs a b hL
  generalize (fun i : Nat => a + b * (i : K)) = x at *
  have dL := (((def_ser n x).ema0 hf fillna).ssub ((def_ser n x).ema0 hs fillna)).congr (g := L) fun i _ _ => (hL i).symm
  generalize max (if fillna = true then 0 else fast - 1) (if fillna = true then 0 else slow - 1) = p at dL
  have dB : Def (STC.stochOf (TA.ema (STC.stochOf (ssub (TA.ema (ser n x) fast fillna) (TA.ema (ser n x) slow fillna)) cycle) s1 fillna) cycle) n n (fun _ => 0) := by
    by_cases hc : 2 ≤ cycle ∧ (StrictMono L ∨ StrictAnti L)
    · have dA := (def_stochOf dL hcy fun i _ hi => ⟨i - 1, i, by omega, by omega, by omega, by omega, by
        rcases hc.2 with q | q
        · exact (q (by omega : i - 1 < i)).ne
        · exact (q (by omega : i - 1 < i)).ne'⟩).congr (g := fun _ => if StrictMono L then 100 else 0) fun i _ hi => pos_mono hc.1 (by omega) hc.2
      have dD := (dA.ema h3 fillna).congr (g := fun _ => if StrictMono L then 100 else 0) fun i _ _ => emaRec_const _ _ _
      exact stochOf_flat dD hcy fun i _ _ => extremes_const _ hcy i
    · have dA := stochOf_flat dL hcy fun i _ _ => by
        rcases mono with q | q
        · rw [show cycle = 1 by by_contra h; exact hc ⟨by omega, q⟩]
          exact extremes_one L i
        · rw [show L = fun _ => 0 from funext q]
          exact extremes_const _ hcy i
      have dD := (dA.ema h3 fillna).congr (g := fun _ => 0) fun i _ _ => emaRec_const _ _ _
      exact stochOf_flat dD hcy fun i _ _ => extremes_const _ hcy i
  have dO := dB.ema h4 fillna
  have nan : ∀ i, i < n → ix (STC.run (ser n x) slow fast cycle s1 s2 fillna) i = .nan := fun i hi => dO.gap i hi (by omega)
  refine ⟨checkFillna fillna (.const (lit 0)) (STC.run (ser n x) slow fast cycle s1 s2 fillna), ?_, fun i hi => ?_⟩
  · unfold stc chkSpan
    rw [if_neg (by omega), if_neg (by omega), if_neg (by omega), if_neg (by omega)]
    rfl
  · cases fillna with
    | false => exact nan i hi
    | true =>
      have := (dO.fillConst 0).val i hi (Nat.zero_le _)
      rw [if_pos (by omega)] at this
      rw [lit_fin]
      push_cast
      exact this

end

/-- C137. In double precision the averages stop converging, and the same line gets a value: with windows 8 and 1 and a cycle of 3 the price
1, 2, 3, … has an STC of 0 on row 133. -/
theorem stc_line_noise :
    (stc (dser 134 fun i => 1 + 1 * (i : ℚ)) 8 1 3 3 3 false).toOption.map (fun o => ix o 133) = some (rk 0 : Double ℚ) ∧
    (stc (ser 134 fun i => 1 + 1 * (i : ℚ)) 8 1 3 3 3 false).toOption.map (fun o => ix o 133) = some .nan := by
  refine ⟨by decide +kernel, ?_⟩
  obtain ⟨out, h1, h2⟩ := stc_line (n := 134) (slow := 8) (fast := 1) (cycle := 3) (s1 := 3) (s2 := 3) (by norm_num) (by norm_num) (by norm_num) (by norm_num) (by norm_num) (1 : ℚ) 1 false
  rw [h1]
  exact congrArg some (h2 133 (by norm_num))

/-! ## examples -/

def zig8 (i : Nat) : ℚ := [10, 12, 11, 13, 12, 15, 11, 12].getD i 0

/-- the conditions of `stc_double` hold on an ordinary column: `L` moves by at least 1/10 from row to row and `D` by at least 10 -/
example : ∃ (out : Series (Double ℚ)), stc (dser 8 zig8) 2 1 2 2 1 false = .ok out ∧
    CloseTo (1 / 1000000) out [.nan, .nan, .nan, .nan, .fin 0, .fin 100, .fin 0, .fin 100] := by
  obtain ⟨L, hL⟩ : ∃ L : Nat → ℚ, L = fun i => emaRec (2 / (((1 : ℕ) : ℚ) + 1)) zig8 i - emaRec (2 / (((2 : ℕ) : ℚ) + 1)) zig8 i := ⟨_, rfl⟩
  obtain ⟨A, hA⟩ : ∃ A : Nat → ℚ, A = fun i => 100 * (L i - wmin L 2 i) / (wmax L 2 i - wmin L 2 i) := ⟨_, rfl⟩
  obtain ⟨D, hD⟩ : ∃ D : Nat → ℚ, D = fun i => emaRec (2 / (((2 : ℕ) : ℚ) + 1)) (fun j => A (2 + j)) (i - 2) := ⟨_, rfl⟩
  have two : ∀ (f : Nat → ℚ) (p : Nat) (g : ℚ), 1 ≤ p → (∀ i, i < 8 → p ≤ i → f (i - 1) + g ≤ f i ∨ f i + g ≤ f (i - 1)) → Spaced f 2 p 8 g := fun f p g hp h i h1 h2 => by
    rcases h i h1 h2 with q | q
    · exact ⟨i - 1, i, by omega, by omega, by omega, by omega, q⟩
    · exact ⟨i, i - 1, by omega, by omega, by omega, by omega, q⟩
  obtain ⟨out, exact, o1, o2, o3⟩ := stc_double 8 zig8 (slow := 2) (fast := 1) (cycle := 2) (s1 := 2) (s2 := 1) (by norm_num) (by norm_num) (by norm_num) (by norm_num) (by norm_num)
    (by norm_num) (by norm_num) (by norm_num) (by norm_num) false (M := 15) (g := 1 / 10) (g' := 10) (p := 2) (q := 4) (L := L) (A := A) (D := D)
    (by decide +kernel) (by decide +kernel) (by decide +kernel) rfl rfl (fun i => by rw [hL]) (hA ▸ posOf_wmax L (by norm_num)) (fun i => by rw [hD])
    (two _ _ _ (by norm_num) (by rw [hL]; decide +kernel)) (two _ _ _ (by norm_num) (by rw [hD, hA, hL]; decide +kernel)) (by decide +kernel) (by decide +kernel)
  refine ⟨out, o1, ?_⟩
  have e : exact = [.nan, .nan, .nan, .nan, .fin 0, .fin 100, .fin 0, .fin 100] := by
    have : stc (ser 8 zig8) 2 1 2 2 1 false = .ok [.nan, .nan, .nan, .nan, .fin 0, .fin 100, .fin 0, .fin 100] := by decide +kernel
    rw [this] at o2
    exact (Except.ok.inj o2).symm
  rw [e] at o3
  refine ⟨o3.1, fun i hi => (o3.2 i hi).imp id ?_⟩
  rintro ⟨y, z, y1, z1, yz⟩
  exact ⟨y, z, y1, z1, yz.trans (by decide +kernel)⟩

end TA
