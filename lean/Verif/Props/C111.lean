import Verif.Props.C109
import Verif.Props.C110

/-!
# C111 — Bollinger bands in double precision: how wrong they can get

The other half of C110.  pandas' accumulator (`VarSt`, Welford's method with compensation) holds a mean `m` and a sum of squares `q` of `n` rows.
In exact arithmetic `n m` and `q + n m²` change by `± x` and `± x²`, whether or not `m` is the mean of the window; so rounding errors
add up and are not amplified.
-/

set_option linter.unusedSectionVars false

namespace TA
open Finset

section any
variable {F : Type} [Flt F] {S : Type}

theorem online_start (o : Order) (add rem : S → F → S) (init : S) {w : Nat} (hw : 1 ≤ w) {s : List F} (h : 0 < s.length) :
    online o add rem init w s 0 = add init (ix s 0) := by
  show over add s (winStart w 0) (winEnd 0) init = _
  rw [show winStart w 0 = 0 by unfold winStart; omega]
  exact over_one add s h init

theorem online_step (o : Order) (add rem : S → F → S) (init : S) {w : Nat} {s : List F} {i : Nat} (h : i + 1 < s.length) (hw : 1 ≤ w) :
    online o add rem init w s (i + 1)
      = if w ≤ i + 1 then
          match o with
          | .removeFirst => add (rem (online o add rem init w s i) (ix s (i + 1 - w))) (ix s (i + 1))
          | .addFirst => rem (add (online o add rem init w s i) (ix s (i + 1))) (ix s (i + 1 - w))
        else add (online o add rem init w s i) (ix s (i + 1)) := by
  cases o with
  | removeFirst =>
    rw [online_succ add rem init hw h]
    split_ifs <;> rfl
  | addFirst =>
    show over rem s (winStart w i) (winStart w (i + 1)) (over add s (winEnd i) (winEnd (i + 1)) (online .addFirst add rem init w s i)) = _
    generalize online .addFirst add rem init w s i = st
    have e1 : ∀ st, over add s (winEnd i) (winEnd (i + 1)) st = add st (ix s (i + 1)) := fun st => over_one add s h st
    rw [e1]
    split_ifs with g
    · rw [show winStart w (i + 1) = winStart w i + 1 by unfold winStart; omega, over_one rem s (by unfold winStart; omega)]
      rfl
    · rw [show winStart w (i + 1) = winStart w i by unfold winStart; omega, over_self]

end any

/-! ## one step under rounding -/

section err
variable {K : Type} [Field K] [LinearOrder K] [IsStrictOrderedRing K] {R : Rounding K}

/-- what the arithmetic has to be for values up to `M` -/
structure Headroom (R : Rounding K) (u η Ω M : K) : Prop where
  acc : R.Acc u η Ω
  u0 : 0 < u
  u1 : u ≤ 1 / 1000
  M0 : 0 < M
  η0 : 0 ≤ η
  η1 : η ≤ u * M / 1000
  η2 : η ≤ u * (M * M) / 1000
  Ω1 : 10 * M ≤ Ω
  Ω2 : 10 * (M * M) ≤ Ω

/-- a rounded difference of numbers that are not too large -/
theorem Headroom.sub {u η Ω M : K} (H : Headroom R u η Ω M) {x y B : K} (h : |x - y| ≤ B * M) (hB : B ≤ 10) :
    ∃ z, (rk x -. rk y : Rval R) = rk z ∧ |z - (x - y)| ≤ (B + 0.001) * (u * M) := by
  obtain ⟨z, h1, h2⟩ := rk_sub H.acc (x := x) (y := y) (h.trans ((mul_le_mul_of_nonneg_right hB H.M0.le).trans H.Ω1))
  refine ⟨z, h1, h2.trans ?_⟩
  have := mul_le_mul_of_nonneg_left h H.u0.le
  have := H.η1
  linarith

theorem Headroom.add {u η Ω M : K} (H : Headroom R u η Ω M) {x y B : K} (h : |x + y| ≤ B * M) (hB : B ≤ 10) :
    ∃ z, (rk x +. rk y : Rval R) = rk z ∧ |z - (x + y)| ≤ (B + 0.001) * (u * M) := by
  obtain ⟨z, h1, h2⟩ := acc_add H.acc (x := x) (y := y) (h.trans ((mul_le_mul_of_nonneg_right hB H.M0.le).trans H.Ω1))
  refine ⟨z, h1, h2.trans ?_⟩
  have := mul_le_mul_of_nonneg_left h H.u0.le
  have := H.η1
  linarith

/-- triangle inequality along a path -/
theorem near_trans {a b c δ ε : K} (h1 : |a - b| ≤ δ) (h2 : |b - c| ≤ ε) : |a - c| ≤ δ + ε := by
  have := abs_add_le (a - b) (b - c)
  rw [sub_add_sub_cancel] at this
  linarith

theorem near_abs {a b δ B : K} (h1 : |a - b| ≤ δ) (h2 : |b| ≤ B) : |a| ≤ δ + B := by
  have := abs_add_le (a - b) b
  rw [sub_add_cancel] at this
  linarith

/-- the common part of `add_var` and `remove_var` -/
theorem welford_core {u η Ω M : K} (H : Headroom R u η Ω M) {m x c N : K} (hm : |m| ≤ 1.2 * M) (hx : |x| ≤ M) (hc : |c| ≤ 4 * (u * M)) (hN : 1 ≤ N) :
    ∃ pv y t c' d a, (rk m -. rk c : Rval R) = rk pv ∧ (rk x -. rk c : Rval R) = rk y ∧ (rk y -. rk m : Rval R) = rk t ∧
      ((rk t +. rk m) -. rk y : Rval R) = rk c' ∧ (rk t /. rk N : Rval R) = rk d ∧ (rk x -. rk pv : Rval R) = rk a ∧
      |c'| ≤ 4 * (u * M) ∧ |d - (x - m) / N| ≤ 10 * (u * M) ∧ |a - (x - m)| ≤ 8 * (u * M) := by
  have M0 := H.M0
  have uM : 0 < u * M := mul_pos H.u0 M0
  have uM1 : u * M ≤ M / 1000 := by have := mul_le_mul_of_nonneg_right H.u1 M0.le; linarith
  have uuM : u * (u * M) ≤ u * M / 1000 := by have := mul_le_mul_of_nonneg_right H.u1 uM.le; linarith
  have N0 : 0 < N := by linarith
  -- prev
  have b1 : |m - c| ≤ 1.21 * M := (abs_sub _ _).trans (by linarith)
  obtain ⟨pv, hpv, epv⟩ := H.sub b1 (by norm_num)
  have epv' : |pv - m| ≤ 5.3 * (u * M) := by
    have : |m - c - m| ≤ 4 * (u * M) := by rw [show m - c - m = -c by ring, abs_neg]; exact hc
    have := near_trans epv this
    linarith
  -- y
  have b2 : |x - c| ≤ 1.01 * M := (abs_sub _ _).trans (by linarith)
  obtain ⟨y, hy, ey⟩ := H.sub b2 (by norm_num)
  have ey' : |y - x| ≤ 5.1 * (u * M) := by
    have : |x - c - x| ≤ 4 * (u * M) := by rw [show x - c - x = -c by ring, abs_neg]; exact hc
    have := near_trans ey this
    linarith
  have ay : |y| ≤ 1.01 * M := (near_abs ey' hx).trans (by linarith)
  -- t
  have b3 : |y - m| ≤ 2.22 * M := (abs_sub _ _).trans (by linarith)
  obtain ⟨t, ht, et⟩ := H.sub b3 (by norm_num)
  have at' : |t| ≤ 2.23 * M := (near_abs et b3).trans (by linarith)
  have et' : |t - (x - m)| ≤ 7.4 * (u * M) := by
    have : |y - m - (x - m)| ≤ 5.1 * (u * M) := by rw [sub_sub_sub_cancel_right]; exact ey'
    have := near_trans et this
    linarith
  -- compensation
  have e3 : |t + m - y| ≤ 2.23 * (u * M) := by rw [show t + m - y = t - (y - m) by ring]; linarith
  have b4 : |t + m| ≤ 1.02 * M := (near_abs e3 ay).trans (by linarith)
  obtain ⟨v, hv, ev⟩ := H.add b4 (by norm_num)
  have e4 : |v - y| ≤ 3.26 * (u * M) := (near_trans ev e3).trans (by linarith)
  obtain ⟨c', hc', ec'⟩ := H.sub (x := v) (y := y) (B := 0.01) (e4.trans (by linarith)) (by norm_num)
  -- d
  have b5 : |t / N| ≤ 2.23 * M := by
    rw [abs_div, abs_of_pos N0]
    exact (div_le_self (abs_nonneg _) hN).trans at'
  obtain ⟨d, hd, ed⟩ := acc_div H.acc N0.ne' (b5.trans (by have := H.Ω1; linarith))
  have ed' : |d - t / N| ≤ 2.3 * (u * M) := by
    have := mul_le_mul_of_nonneg_left b5 H.u0.le
    have := H.η1
    linarith
  have e6 : |t / N - (x - m) / N| ≤ 7.4 * (u * M) := by
    rw [← sub_div, abs_div, abs_of_pos N0]
    exact (div_le_self (abs_nonneg _) hN).trans et'
  -- a
  have b7 : |x - pv| ≤ 2.22 * M := by
    have : |pv| ≤ 1.21 * M := (near_abs epv' hm).trans (by linarith)
    exact (abs_sub _ _).trans (by linarith)
  obtain ⟨a, ha, ea⟩ := H.sub b7 (by norm_num)
  refine ⟨pv, y, t, c', d, a, hpv, hy, ht, by rw [hv, hc'], hd, ha, ?_, (near_trans ed' e6).trans (by linarith), ?_⟩
  · exact (near_abs ec' e4).trans (by linarith)
  · have : |x - pv - (x - m)| ≤ 5.3 * (u * M) := by rw [sub_sub_sub_cancel_left, abs_sub_comm]; exact epv'
    exact (near_trans ea this).trans (by linarith)

/-- the product that is added to or taken from the sum of squares -/
theorem welford_prod {u η Ω M : K} (H : Headroom R u η Ω M) {x a A m' ms : K} (hx : |x| ≤ M) (ha : |a - A| ≤ 8 * (u * M)) (hA : |A| ≤ 2.2 * M)
    (hms : |ms| ≤ 1.2 * M) (hm : |m' - ms| ≤ 15 * (u * M)) :
    ∃ b p, (rk x -. rk m' : Rval R) = rk b ∧ (rk a *. rk b : Rval R) = rk p ∧ |p - A * (x - ms)| ≤ 65 * (u * (M * M)) ∧ |p| ≤ 5 * (M * M) := by
  have M0 := H.M0
  have uM : 0 < u * M := mul_pos H.u0 M0
  have uM1 : u * M ≤ M / 1000 := by have := mul_le_mul_of_nonneg_right H.u1 M0.le; linarith
  have MM : 0 < M * M := mul_pos M0 M0
  have uMM : u * (M * M) ≤ M * M / 1000 := by have := mul_le_mul_of_nonneg_right H.u1 MM.le; linarith
  have uMM0 : 0 < u * (M * M) := mul_pos H.u0 MM
  have am' : |m'| ≤ 1.215 * M := (near_abs hm hms).trans (by linarith)
  have b1 : |x - m'| ≤ 2.215 * M := (abs_sub _ _).trans (by linarith)
  obtain ⟨b, hb, eb⟩ := H.sub b1 (by norm_num)
  have eb' : |b - (x - ms)| ≤ 17.3 * (u * M) := by
    have : |x - m' - (x - ms)| ≤ 15 * (u * M) := by rw [sub_sub_sub_cancel_left, abs_sub_comm]; exact hm
    exact (near_trans eb this).trans (by linarith)
  have ab : |b| ≤ 2.22 * M := (near_abs eb b1).trans (by linarith)
  have aa : |a| ≤ 2.21 * M := (near_abs ha hA).trans (by linarith)
  have pab : |a * b| ≤ 4.91 * (M * M) := by
    rw [abs_mul]
    have := mul_le_mul aa ab (abs_nonneg _) (by linarith)
    nlinarith
  obtain ⟨p, hp, ep⟩ := acc_mul H.acc (x := a) (y := b) (pab.trans (by have := H.Ω2; linarith))
  have ep' : |p - a * b| ≤ 5 * (u * (M * M)) := by
    have := mul_le_mul_of_nonneg_left pab H.u0.le
    have := H.η2
    linarith
  have q : |a * b - A * (x - ms)| ≤ 56 * (u * (M * M)) := by
    have e : a * b - A * (x - ms) = (a - A) * b + A * (b - (x - ms)) := by ring
    rw [e]
    refine (abs_add_le _ _).trans ?_
    rw [abs_mul, abs_mul]
    have h1 := mul_le_mul ha ab (abs_nonneg _) (by linarith)
    have h2 := mul_le_mul hA eb' (abs_nonneg _) (by linarith)
    nlinarith
  exact ⟨b, p, hb, hp, (near_trans ep' q).trans (by linarith), (near_abs ep' pab).trans (by linarith)⟩

theorem isNaN_rk (x : K) : ¬ Flt.isNaN (rk x : Rval R) = true := by simp [show Flt.isNaN (rk x : Rval R) = false from rfl]

/-- squares of two close numbers -/
theorem sq_near {a b δ M : K} (h : |a - b| ≤ δ) (hb : |b| ≤ 1.2 * M) (ha : |a| ≤ 1.22 * M) : |a ^ 2 - b ^ 2| ≤ 2.42 * (δ * M) := by
  rw [show a ^ 2 - b ^ 2 = (a - b) * (a + b) by ring, abs_mul]
  have h1 : |a + b| ≤ 2.42 * M := (abs_add_le _ _).trans (by linarith)
  have := mul_le_mul h h1 (abs_nonneg _) ((abs_nonneg _).trans h)
  linarith

/-- **`add_var`** under rounding: the sum and the sum of squares it stands for. -/
theorem VarSt.add_err {u η Ω M : K} (H : Headroom R u η Ω M) {n : Nat} (hN : R.rd ((n : K) + 1) = .fin ((n : K) + 1)) (hΩ : 10 * (((n : K) + 1) * (M * M)) ≤ Ω)
    {m q ca x : K} {cr : Rval R} (hm : |m| ≤ 1.2 * M) (hx : |x| ≤ M) (hc : |ca| ≤ 4 * (u * M)) (hq : |q| ≤ 3 * (((n : K) + 1) * (M * M))) :
    ∃ m' q' c', VarSt.add (⟨(n : ℤ), rk m, rk q, rk ca, cr⟩ : VarSt (Rval R)) (rk x) = ⟨((n + 1 : ℕ) : ℤ), rk m', rk q', rk c', cr⟩ ∧
      |((n : K) + 1) * m' - (n * m + x)| ≤ 15 * (((n : K) + 1) * (u * M)) ∧
      |q' + ((n : K) + 1) * m' ^ 2 - (q + n * m ^ 2 + x ^ 2)| ≤ 115 * (((n : K) + 1) * (u * (M * M))) ∧ |c'| ≤ 4 * (u * M) := by
  have M0 := H.M0
  have uM : 0 < u * M := mul_pos H.u0 M0
  have uM1 : u * M ≤ M / 1000 := by have := mul_le_mul_of_nonneg_right H.u1 M0.le; linarith
  have MM : 0 < M * M := mul_pos M0 M0
  have uMM : 0 < u * (M * M) := mul_pos H.u0 MM
  have n0 : (0 : K) ≤ n := Nat.cast_nonneg n
  have N1 : (1 : K) ≤ n + 1 := by linarith
  have N0 : (0 : K) < n + 1 := by linarith
  have nMM : u * (M * M) ≤ ((n : K) + 1) * (u * (M * M)) := le_mul_of_one_le_left uMM.le N1
  have nMM' : M * M ≤ ((n : K) + 1) * (M * M) := le_mul_of_one_le_left MM.le N1
  obtain ⟨pv, y, t, c', d, a, e1, e2, e3, e4, e5, e6, hc', hd, ha⟩ := welford_core H hm hx hc N1
  set N : K := (n : K) + 1 with hNdef
  set ms : K := m + (x - m) / N with hms
  have ems : N * ms = n * m + x := by
    rw [hms, mul_add, mul_div_cancel₀ _ N0.ne', hNdef]; ring
  have ams : |ms| ≤ 1.2 * M := by
    have : |N * ms| ≤ N * (1.2 * M) := by
      rw [ems]
      refine (abs_add_le _ _).trans ?_
      rw [abs_mul, abs_of_nonneg n0]
      have := mul_le_mul_of_nonneg_left hm n0
      rw [hNdef]; linarith
    rw [abs_mul, abs_of_pos N0] at this
    exact le_of_mul_le_mul_left this N0
  have b1 : |m + d| ≤ 1.3 * M := by
    have : |m + d - ms| ≤ 10 * (u * M) := by rw [hms, add_sub_add_left_eq_sub]; exact hd
    exact (near_abs this ams).trans (by linarith)
  obtain ⟨m', hm', em'⟩ := H.add b1 (by norm_num)
  have em : |m' - ms| ≤ 15 * (u * M) := by
    have : |m + d - ms| ≤ 10 * (u * M) := by rw [hms, add_sub_add_left_eq_sub]; exact hd
    exact (near_trans em' this).trans (by linarith)
  obtain ⟨b, p, f1, f2, hp, ap⟩ := welford_prod H hx ha ((abs_sub _ _).trans (by linarith)) ams em
  have aqp : |q + p| ≤ 8 * (N * (M * M)) := (abs_add_le _ _).trans (by linarith)
  obtain ⟨q', hq', eq'⟩ := acc_add H.acc (x := q) (y := p) (aqp.trans (by linarith))
  have am' : |m'| ≤ 1.22 * M := (near_abs em ams).trans (by linarith)
  refine ⟨m', q', c', ?_, ?_, ?_, hc'⟩
  · unfold VarSt.add
    rw [if_neg (isNaN_rk x)]
    dsimp only
    have l : (lit (((n : ℤ) + 1 : ℤ) : ℚ) : Rval R) = rk N := by
      show R.rd _ = Val.fin _
      rw [← hN]; congr 1; push_cast; rfl
    rw [if_pos (show (n : ℤ) + 1 ≠ 0 by omega), e1, e2, e3, e4, l, e5, e6, hm', f1, f2, hq']
    push_cast
    rfl
  · rw [← ems, ← mul_sub, abs_mul, abs_of_pos N0]
    have := mul_le_mul_of_nonneg_left em N0.le
    linarith
  · have key : q + n * m ^ 2 + x ^ 2 = q + (x - m) * (x - ms) + N * ms ^ 2 := by
      have h1 : ms = (n * m + x) / N := by rw [← ems, mul_div_cancel_left₀ _ N0.ne']
      rw [h1]
      field_simp
      rw [hNdef]
      ring
    rw [key]
    have e : q' + N * m' ^ 2 - (q + (x - m) * (x - ms) + N * ms ^ 2) = (q' - (q + p)) + (p - (x - m) * (x - ms)) + N * (m' ^ 2 - ms ^ 2) := by ring
    rw [e]
    refine (abs_add_three _ _ _).trans ?_
    rw [abs_mul, abs_of_pos N0]
    have h1 := mul_le_mul_of_nonneg_left (sq_near em ams am') N0.le
    have h2 := mul_le_mul_of_nonneg_left aqp H.u0.le
    have h3 := H.η2
    have h4 : N * (2.42 * (15 * (u * M) * M)) = 36.3 * (N * (u * (M * M))) := by ring
    have h5 : u * (8 * (N * (M * M))) = 8 * (N * (u * (M * M))) := by ring
    linarith

/-- **`remove_var`** under rounding; at least one row stays. -/
theorem VarSt.rem_err {u η Ω M : K} (H : Headroom R u η Ω M) {n : Nat} (hn : 1 ≤ n) (hN : R.rd (n : K) = .fin (n : K)) (hΩ : 10 * (((n : K) + 1) * (M * M)) ≤ Ω)
    {m q cr x : K} {ca : Rval R} (hm : |m| ≤ 1.2 * M) (hx : |x| ≤ M) (hc : |cr| ≤ 4 * (u * M)) (hq : |q| ≤ 3 * (((n : K) + 1) * (M * M)))
    (hms : |((n : K) + 1) * m - x| ≤ n * (1.2 * M)) :
    ∃ m' q' c', VarSt.rem (⟨((n + 1 : ℕ) : ℤ), rk m, rk q, ca, rk cr⟩ : VarSt (Rval R)) (rk x) = ⟨(n : ℤ), rk m', rk q', ca, rk c'⟩ ∧
      |(n : K) * m' - (((n : K) + 1) * m - x)| ≤ 15 * ((n : K) * (u * M)) ∧
      |q' + (n : K) * m' ^ 2 - (q + ((n : K) + 1) * m ^ 2 - x ^ 2)| ≤ 115 * (((n : K) + 1) * (u * (M * M))) ∧ |c'| ≤ 4 * (u * M) := by
  have M0 := H.M0
  have uM : 0 < u * M := mul_pos H.u0 M0
  have uM1 : u * M ≤ M / 1000 := by have := mul_le_mul_of_nonneg_right H.u1 M0.le; linarith
  have MM : 0 < M * M := mul_pos M0 M0
  have uMM : 0 < u * (M * M) := mul_pos H.u0 MM
  have N1 : (1 : K) ≤ n := by exact_mod_cast hn
  have N0 : (0 : K) < n := by linarith
  have nMM : u * (M * M) ≤ ((n : K) + 1) * (u * (M * M)) := le_mul_of_one_le_left uMM.le (by linarith)
  have nMM' : M * M ≤ ((n : K) + 1) * (M * M) := le_mul_of_one_le_left MM.le (by linarith)
  obtain ⟨pv, y, t, c', d, a, e1, e2, e3, e4, e5, e6, hc', hd, ha⟩ := welford_core H hm hx hc N1
  set N : K := (n : K) with hNdef
  set ms : K := m - (x - m) / N with hmsd
  have ems : N * ms = (N + 1) * m - x := by
    rw [hmsd, mul_sub, mul_div_cancel₀ _ N0.ne']; ring
  have ams : |ms| ≤ 1.2 * M := by
    rw [← ems, abs_mul, abs_of_pos N0] at hms
    exact le_of_mul_le_mul_left hms N0
  have q1 : |m - d - ms| ≤ 10 * (u * M) := by rw [hmsd, sub_sub_sub_cancel_left, abs_sub_comm]; exact hd
  have b1 : |m - d| ≤ 1.3 * M := (near_abs q1 ams).trans (by linarith)
  obtain ⟨m', hm', em'⟩ := H.sub b1 (by norm_num)
  have em : |m' - ms| ≤ 15 * (u * M) := (near_trans em' q1).trans (by linarith)
  obtain ⟨b, p, f1, f2, hp, ap⟩ := welford_prod H hx ha ((abs_sub _ _).trans (by linarith)) ams em
  have aqp : |q - p| ≤ 8 * ((N + 1) * (M * M)) := (abs_sub _ _).trans (by linarith)
  obtain ⟨q', hq', eq'⟩ := rk_sub H.acc (x := q) (y := p) (aqp.trans (by linarith))
  have am' : |m'| ≤ 1.22 * M := (near_abs em ams).trans (by linarith)
  refine ⟨m', q', c', ?_, ?_, ?_, hc'⟩
  · unfold VarSt.rem
    rw [if_neg (isNaN_rk x)]
    dsimp only
    have l : (lit ((((n + 1 : ℕ) : ℤ) - 1 : ℤ) : ℚ) : Rval R) = rk N := by
      show R.rd _ = Val.fin _
      rw [← hN]; congr 1; push_cast; ring
    rw [if_pos (show ((n + 1 : ℕ) : ℤ) - 1 ≠ 0 by omega), e1, e2, e3, e4, l, e5, e6, hm', f1, f2, hq']
    congr 1
    omega
  · rw [← ems, ← mul_sub, abs_mul, abs_of_pos N0]
    have := mul_le_mul_of_nonneg_left em N0.le
    linarith
  · have key : q + (N + 1) * m ^ 2 - x ^ 2 = q - (x - m) * (x - ms) + N * ms ^ 2 := by
      have h1 : ms = ((N + 1) * m - x) / N := by rw [← ems, mul_div_cancel_left₀ _ N0.ne']
      rw [h1]
      field_simp
      ring
    rw [key]
    have e : q' + N * m' ^ 2 - (q - (x - m) * (x - ms) + N * ms ^ 2) = (q' - (q - p)) + -(p - (x - m) * (x - ms)) + N * (m' ^ 2 - ms ^ 2) := by ring
    rw [e]
    refine (abs_add_three _ _ _).trans ?_
    rw [abs_neg, abs_mul, abs_of_pos N0]
    have h1 := mul_le_mul_of_nonneg_left (sq_near em ams am') N0.le
    have h2 := mul_le_mul_of_nonneg_left aqp H.u0.le
    have h3 := H.η2
    have h4 : N * (2.42 * (15 * (u * M) * M)) = 36.3 * (N * (u * (M * M))) := by ring
    have h5 : u * (8 * ((N + 1) * (M * M))) = 8 * ((N + 1) * (u * (M * M))) := by ring
    linarith

/-- the numbers a good accumulator holds are not large -/
theorem state_bounds {M k m q S Q e f : K} (M0 : 0 < M) (k1 : 1 ≤ k) (hS : |S| ≤ k * M) (hQ0 : 0 ≤ Q) (hQ : Q ≤ k * (M * M))
    (hm : |k * m - S| ≤ e * (k * M)) (hq : |q + k * m ^ 2 - Q| ≤ f * (k * (M * M))) (he : e ≤ 0.1) (hf : f ≤ 1.5) :
    |m| ≤ 1.1 * M ∧ |q| ≤ 3 * (k * (M * M)) := by
  have k0 : 0 < k := by linarith
  have kM : 0 < k * M := mul_pos k0 M0
  have MM : 0 < M * M := mul_pos M0 M0
  have kMM : 0 < k * (M * M) := mul_pos k0 MM
  have am : |m| ≤ 1.1 * M := by
    have h1 := near_abs hm hS
    rw [abs_mul, abs_of_pos k0] at h1
    have h2 := mul_le_mul_of_nonneg_right he kM.le
    have h3 : k * |m| ≤ k * (1.1 * M) := by linarith
    exact le_of_mul_le_mul_left h3 k0
  refine ⟨am, ?_⟩
  have m2 : m ^ 2 ≤ 1.21 * (M * M) := by
    rw [← sq_abs]
    have := mul_le_mul am am (abs_nonneg _) (by linarith)
    nlinarith
  have km2 := mul_le_mul_of_nonneg_left m2 k0.le
  have km0 : 0 ≤ k * m ^ 2 := mul_nonneg k0.le (sq_nonneg m)
  have hf2 := mul_le_mul_of_nonneg_right hf kMM.le
  rw [abs_le] at hq ⊢
  constructor <;> linarith [hq.1, hq.2]

theorem sq_window {x : Nat → K} {M : K} {n w a b : Nat} (hx : ∀ j, j < n → |x j| ≤ M) (hi : b ≤ n) (hM : 0 ≤ M) (hab : b - a ≤ w) :
    0 ≤ ∑ j ∈ Ico a b, x j ^ 2 ∧ ∑ j ∈ Ico a b, x j ^ 2 ≤ w * (M * M) := by
  have h := abs_window (x := fun j => x j ^ 2) (M := M * M) (n := n) (w := w) (a := a) (b := b)
    (fun j hj => by rw [abs_pow, pow_two]; exact mul_le_mul (hx j hj) (hx j hj) (abs_nonneg _) hM) hi (mul_nonneg hM hM) hab
  exact ⟨Finset.sum_nonneg fun j _ => sq_nonneg _, (le_abs_self _).trans h⟩

set_option maxHeartbeats 1000000 in
/-- **The accumulator** after row `i`: the sum and the sum of squares of the window that it stands for, and the errors. -/
theorem VarSt.online_err (o : Order) {u η Ω M : K} (H : Headroom R u η Ω M) {w n : Nat} (hw : 1 ≤ w) (hΩ : 10 * ((n : K) * (M * M)) ≤ Ω) (hn : 1000 * (u * n) ≤ 1)
    (hint : ∀ k : ℕ, k ≤ n → R.rd (k : K) = .fin (k : K)) {x : Nat → K} (hx : ∀ j, j < n → |x j| ≤ M) {i : Nat} (hi : i < n) :
    ∃ m q ca cr : K, online o VarSt.add VarSt.rem VarSt.init w (rser (R := R) n x) i = ⟨(min w (i + 1) : ℕ), rk m, rk q, rk ca, rk cr⟩ ∧
      |(min w (i + 1) : ℕ) * m - ∑ j ∈ Ico (i + 1 - w) (i + 1), x j| ≤ 45 * (i + 1) * ((min w (i + 1) : ℕ) * (u * M)) ∧
      |q + (min w (i + 1) : ℕ) * m ^ 2 - ∑ j ∈ Ico (i + 1 - w) (i + 1), x j ^ 2| ≤ 460 * (i + 1) * ((min w (i + 1) : ℕ) * (u * (M * M))) ∧
      |ca| ≤ 4 * (u * M) ∧ |cr| ≤ 4 * (u * M) := by
  have M0 := H.M0
  have uM : 0 < u * M := mul_pos H.u0 M0
  have MM : 0 < M * M := mul_pos M0 M0
  have uMM : 0 < u * (M * M) := mul_pos H.u0 MM
  have len : (rser (R := R) n x).length = n := by simp [rser]
  have val : ∀ j, j < n → ix (rser (R := R) n x) j = rk (x j) := fun j hj => ix_tab_lt hj
  induction i with
  | zero =>
    rw [online_start o _ _ _ hw (by rw [len]; exact hi), val 0 hi, show min w (0 + 1) = 1 by omega, show 0 + 1 - w = 0 by omega]
    have h0 : (VarSt.init : VarSt (Rval R)) = ⟨((0 : ℕ) : ℤ), rk 0, rk 0, rk 0, rk 0⟩ := by unfold VarSt.init; rw [show (lit 0 : Rval R) = rk 0 from lit0]; rfl
    have n1 : (1 : K) ≤ n := by exact_mod_cast (by omega : 1 ≤ n)
    have nMM := mul_le_mul_of_nonneg_right n1 MM.le
    have h1 : R.rd (((0 : ℕ) : K) + 1) = .fin (((0 : ℕ) : K) + 1) := by have := hint 1 (by omega); push_cast at this ⊢; rw [zero_add]; exact this
    obtain ⟨m', q', c', r1, r2, r3, r4⟩ := VarSt.add_err H (n := 0) h1 (by push_cast; linarith) (m := 0) (q := 0) (ca := 0) (x := x 0) (cr := rk 0)
      (by rw [abs_zero]; linarith) (hx 0 hi) (by rw [abs_zero]; linarith) (by rw [abs_zero]; push_cast; linarith)
    refine ⟨m', q', c', 0, by rw [h0, r1], ?_, ?_, r4, by rw [abs_zero]; linarith⟩
    · simp only [zero_add, Nat.Ico_succ_singleton, sum_singleton]
      push_cast at r2 ⊢
      simp only [zero_add, zero_mul] at r2
      linarith
    · simp only [zero_add, Nat.Ico_succ_singleton, sum_singleton]
      push_cast at r3 ⊢
      simp only [zero_add, zero_mul] at r3
      linarith
  | succ i ih =>
    obtain ⟨m, q, ca, cr, h1, h2, h3, h4, h5⟩ := ih (by omega)
    rw [online_step o _ _ _ (by rw [len]; exact hi) hw, h1, val _ hi]
    set k : ℕ := min w (i + 1) with hk
    set S := ∑ j ∈ Ico (i + 1 - w) (i + 1), x j with hS
    set Q := ∑ j ∈ Ico (i + 1 - w) (i + 1), x j ^ 2 with hQ
    have k1 : (1 : K) ≤ k := by exact_mod_cast (by omega : 1 ≤ k)
    have k0 : (0 : K) < k := by linarith
    have kn : (k : K) + 1 ≤ n := by exact_mod_cast (by omega : k + 1 ≤ n)
    have i0 : (0 : K) ≤ i := Nat.cast_nonneg i
    have iN : (i : K) + 1 + 1 ≤ n := by exact_mod_cast hi
    have ui : u * ((i : K) + 1 + 1) ≤ 0.001 := by
      have := mul_le_mul_of_nonneg_left iN H.u0.le
      linarith
    have kU : 0 < (k : K) * (u * M) := mul_pos k0 uM
    have kV : 0 < (k : K) * (u * (M * M)) := mul_pos k0 uMM
    have kM : 0 < (k : K) * M := mul_pos k0 M0
    have kMM : 0 < (k : K) * (M * M) := mul_pos k0 MM
    -- before
    have bS : |S| ≤ k * M := abs_window hx (by omega) M0.le (by omega)
    have bQ := sq_window (w := k) (a := i + 1 - w) (b := i + 1) hx (by omega) M0.le (by omega)
    obtain ⟨am, aq⟩ := state_bounds (e := 45 * (u * ((i : K) + 1))) (f := 460 * (u * ((i : K) + 1))) M0 k1 bS bQ.1 bQ.2
      (h2.trans (le_of_eq (by ring))) (h3.trans (le_of_eq (by ring))) (by linarith [H.u0]) (by linarith [H.u0])
    -- the row that enters
    have hint1 : R.rd ((k : K) + 1) = .fin ((k : K) + 1) := by have := hint (k + 1) (by omega); push_cast at this; exact this
    have Ωk : 10 * (((k : K) + 1) * (M * M)) ≤ Ω := by
      have := mul_le_mul_of_nonneg_right kn MM.le
      linarith
    obtain ⟨m1, q1, c1, r1, r2, r3, r4⟩ := VarSt.add_err H hint1 Ωk (m := m) (q := q) (ca := ca) (x := x (i + 1)) (cr := rk cr) (by linarith) (hx _ hi) h4 (by linarith)
    have A1 : |((k : K) + 1) * m1 - (S + x (i + 1))| ≤ 45 * (i + 1) * (k * (u * M)) + 15 * (((k : K) + 1) * (u * M)) := by
      have : |(k : K) * m + x (i + 1) - (S + x (i + 1))| ≤ 45 * (i + 1) * (k * (u * M)) := by rw [add_sub_add_right_eq_sub]; exact h2
      exact (near_trans r2 this).trans (by linarith)
    have A2 : |q1 + ((k : K) + 1) * m1 ^ 2 - (Q + x (i + 1) ^ 2)| ≤ 460 * (i + 1) * (k * (u * (M * M))) + 115 * (((k : K) + 1) * (u * (M * M))) := by
      have : |q + (k : K) * m ^ 2 + x (i + 1) ^ 2 - (Q + x (i + 1) ^ 2)| ≤ 460 * (i + 1) * (k * (u * (M * M))) := by rw [add_sub_add_right_eq_sub]; exact h3
      exact (near_trans r3 this).trans (by linarith)
    have sw := sum_window x (w := w) (i := i) hw
    have qw := sum_window (fun j => x j ^ 2) (w := w) (i := i) hw
    by_cases g : w ≤ i + 1
    · rw [if_pos g] at sw qw ⊢
      have ek : min w (i + 1 + 1) = k := by omega
      rw [ek, val _ (by omega)]
      have iM : ((i : K) + 1) * (k * (u * M)) ≤ 0.001 * (k * M) := by
        have := mul_le_mul_of_nonneg_right (show u * ((i : K) + 1) ≤ 0.001 by linarith [H.u0]) kM.le
        linarith
      have iMM : ((i : K) + 1) * (k * (u * (M * M))) ≤ 0.001 * (k * (M * M)) := by
        have := mul_le_mul_of_nonneg_right (show u * ((i : K) + 1) ≤ 0.001 by linarith [H.u0]) kMM.le
        linarith
      have u1M : u * M ≤ 0.001 * M := by have := mul_le_mul_of_nonneg_right H.u1 M0.le; linarith
      have u1MM : u * (M * M) ≤ 0.001 * (M * M) := by have := mul_le_mul_of_nonneg_right H.u1 MM.le; linarith
      have ku := mul_le_mul_of_nonneg_left u1M k0.le
      have kuu := mul_le_mul_of_nonneg_left u1MM k0.le
      have bS1 : |S + x (i + 1)| ≤ ((k : K) + 1) * M := (abs_add_le _ _).trans (by linarith [hx _ hi])
      have xx : x (i + 1) ^ 2 ≤ M * M := by
        rw [← sq_abs, pow_two]; exact mul_le_mul (hx _ hi) (hx _ hi) (abs_nonneg _) M0.le
      have kk : u * M ≤ k * (u * M) := le_mul_of_one_le_left uM.le k1
      have kkk : u * (M * M) ≤ k * (u * (M * M)) := le_mul_of_one_le_left uMM.le k1
      cases o with
      | removeFirst =>
        dsimp only
        have xw := hx (i + 1 - w) (by omega)
        have xx' : x (i + 1 - w) ^ 2 ≤ M * M := by
          rw [← sq_abs, pow_two]; exact mul_le_mul xw xw (abs_nonneg _) M0.le
        have eS : S - x (i + 1 - w) = ∑ j ∈ Ico (i + 1 - w + 1) (i + 1), x j := by
          rw [hS, Finset.sum_eq_sum_Ico_succ_bot (by omega : i + 1 - w < i + 1), add_sub_cancel_left]
        have eQ : Q - x (i + 1 - w) ^ 2 = ∑ j ∈ Ico (i + 1 - w + 1) (i + 1), x j ^ 2 := by
          rw [hQ, Finset.sum_eq_sum_Ico_succ_bot (by omega : i + 1 - w < i + 1), add_sub_cancel_left]
        -- the row that leaves
        obtain ⟨k', hk'⟩ : ∃ k', k = k' + 1 := ⟨k - 1, by omega⟩
        have ck : (k : K) = (k' : K) + 1 := by rw [hk']; push_cast; rfl
        have k'0 : (0 : K) ≤ k' := Nat.cast_nonneg k'
        have bS' : |S - x (i + 1 - w)| ≤ k' * M := by rw [eS]; exact abs_window hx (by omega) M0.le (by omega)
        have bQ' := sq_window (w := k') (a := i + 1 - w + 1) (b := i + 1) hx (by omega) M0.le (by omega)
        rw [← eQ] at bQ'
        have out : ∃ m1 q1 c2 : K, VarSt.rem (⟨(k : ℤ), rk m, rk q, rk ca, rk cr⟩ : VarSt (Rval R)) (rk (x (i + 1 - w))) = ⟨(k' : ℤ), rk m1, rk q1, rk ca, rk c2⟩ ∧
            |(k' : K) * m1 - (S - x (i + 1 - w))| ≤ 45 * (i + 1) * (k * (u * M)) + 15 * (k * (u * M)) ∧
            |q1 + (k' : K) * m1 ^ 2 - (Q - x (i + 1 - w) ^ 2)| ≤ 460 * (i + 1) * (k * (u * (M * M))) + 115 * (k * (u * (M * M))) ∧
            |c2| ≤ 4 * (u * M) ∧ |m1| ≤ 1.2 * M ∧ |q1| ≤ 3 * (((k' : K) + 1) * (M * M)) := by
          rcases Nat.eq_zero_or_pos k' with z | z
          · subst z
            have e1 : S - x (i + 1 - w) = 0 := by rw [eS, Finset.Ico_eq_empty (by omega), Finset.sum_empty]
            have e2 : Q - x (i + 1 - w) ^ 2 = 0 := by rw [eQ, Finset.Ico_eq_empty (by omega), Finset.sum_empty]
            refine ⟨0, 0, cr, ?_, ?_, ?_, h5, by rw [abs_zero]; linarith, by rw [abs_zero]; push_cast; linarith⟩
            · unfold VarSt.rem
              rw [if_neg (isNaN_rk _), hk']
              simp only [show (lit 0 : Rval R) = rk 0 from lit0]
              rfl
            · rw [e1]
              simp only [Nat.cast_zero, zero_mul, sub_zero, abs_zero]
              positivity
            · rw [e2]
              simp only [Nat.cast_zero, zero_mul, add_zero, sub_zero, abs_zero]
              positivity
          · have k'1 : (1 : K) ≤ k' := by exact_mod_cast z
            have k'M : M ≤ (k' : K) * M := le_mul_of_one_le_left M0.le k'1
            have k'MM : M * M ≤ (k' : K) * (M * M) := le_mul_of_one_le_left MM.le k'1
            have B1 : |((k' : K) + 1) * m - x (i + 1 - w) - (S - x (i + 1 - w))| ≤ 45 * (i + 1) * (k * (u * M)) := by
              rw [sub_sub_sub_cancel_right, ← ck]; exact h2
            have B2 : |q + ((k' : K) + 1) * m ^ 2 - x (i + 1 - w) ^ 2 - (Q - x (i + 1 - w) ^ 2)| ≤ 460 * (i + 1) * (k * (u * (M * M))) := by
              rw [sub_sub_sub_cancel_right, ← ck]; exact h3
            have kM' : (k : K) * M = k' * M + M := by rw [ck]; ring
            have kMM' : (k : K) * (M * M) = k' * (M * M) + M * M := by rw [ck]; ring
            obtain ⟨m1, q1, c2, s1, s2, s3, s4⟩ := VarSt.rem_err H (n := k') z (hint k' (by omega)) (by rw [← ck]; linarith) (m := m) (q := q) (cr := cr)
              (x := x (i + 1 - w)) (ca := rk ca) (by linarith) xw h5 (by rw [← ck]; exact aq) ((near_abs B1 bS').trans (by linarith))
            have C1 := near_trans s2 B1
            have C2 := near_trans s3 B2
            have k'U : (k' : K) * (u * M) ≤ k * (u * M) := by rw [ck]; linarith
            have iK : ((i : K) + 1 + 1) * (k * (u * M)) ≤ 0.001 * (k * M) := by
              have := mul_le_mul_of_nonneg_right ui kM.le
              linarith
            obtain ⟨am1, aq1⟩ := state_bounds (k := (k' : K)) (e := 0.1) (f := 1.5) M0 k'1 bS' bQ'.1 bQ'.2
              (C1.trans (by linarith)) (C2.trans (by rw [← ck]; linarith)) le_rfl le_rfl
            refine ⟨m1, q1, c2, by rw [← s1, hk'], C1.trans (by linarith), C2.trans (by rw [← ck]; linarith), s4, by linarith, by linarith⟩
        obtain ⟨m1, q1, c2, s1, s2, s3, s4, am1, aq1⟩ := out
        rw [s1]
        -- the row that enters
        obtain ⟨m2, q2, c1, r1, r2, r3, r4⟩ := VarSt.add_err H (n := k') (by rw [← ck]; exact hint k (by omega)) (by rw [← ck]; linarith) (m := m1) (q := q1) (ca := ca)
          (x := x (i + 1)) (cr := rk c2) am1 (hx _ hi) h4 aq1
        rw [← ck] at r2 r3
        rw [r1, ← hk']
        refine ⟨m2, q2, c1, c2, rfl, ?_, ?_, r4, s4⟩
        · rw [sw]
          have : |(k' : K) * m1 + x (i + 1) - (S - x (i + 1 - w) + x (i + 1))| ≤ 45 * (i + 1) * (k * (u * M)) + 15 * (k * (u * M)) := by
            rw [add_sub_add_right_eq_sub]; exact s2
          refine (near_trans r2 this).trans ?_
          push_cast
          linarith
        · rw [qw]
          have : |q1 + (k' : K) * m1 ^ 2 + x (i + 1) ^ 2 - (Q - x (i + 1 - w) ^ 2 + x (i + 1) ^ 2)| ≤ 460 * (i + 1) * (k * (u * (M * M))) + 115 * (k * (u * (M * M))) := by
            rw [add_sub_add_right_eq_sub]; exact s3
          refine (near_trans r3 this).trans ?_
          push_cast
          linarith
      | addFirst =>
      dsimp only
      rw [r1]
      obtain ⟨am1, aq1⟩ := state_bounds (k := (k : K) + 1) (e := 0.1) (f := 1.5) M0 (by linarith) bS1 (add_nonneg bQ.1 (sq_nonneg _))
        (by linarith [bQ.2]) (A1.trans (by linarith)) (A2.trans (by linarith)) le_rfl le_rfl
      have bS2 : |S + x (i + 1) - x (i + 1 - w)| ≤ k * M := by
        have e : S + x (i + 1) - x (i + 1 - w) = ∑ j ∈ Ico (i + 1 + 1 - w) (i + 1 + 1), x j := by rw [sw]; ring
        rw [e]
        exact abs_window hx (by omega) M0.le (by omega)
      have B1 : |((k : K) + 1) * m1 - x (i + 1 - w) - (S + x (i + 1) - x (i + 1 - w))| ≤ 45 * (i + 1) * (k * (u * M)) + 15 * (((k : K) + 1) * (u * M)) := by
        rw [sub_sub_sub_cancel_right]; exact A1
      have B2 : |q1 + ((k : K) + 1) * m1 ^ 2 - x (i + 1 - w) ^ 2 - (Q + x (i + 1) ^ 2 - x (i + 1 - w) ^ 2)|
          ≤ 460 * (i + 1) * (k * (u * (M * M))) + 115 * (((k : K) + 1) * (u * (M * M))) := by
        rw [sub_sub_sub_cancel_right]; exact A2
      obtain ⟨m2, q2, c2, s1, s2, s3, s4⟩ := VarSt.rem_err H (n := k) (by omega) (hint k (by omega)) Ωk (m := m1) (q := q1) (cr := cr) (x := x (i + 1 - w)) (ca := rk c1)
        (by linarith) (hx _ (by omega)) h5 aq1 ((near_abs B1 bS2).trans (by linarith))
      rw [s1]
      refine ⟨m2, q2, c1, c2, rfl, ?_, ?_, r4, s4⟩
      · rw [sw, show S - x (i + 1 - w) + x (i + 1) = S + x (i + 1) - x (i + 1 - w) by ring]
        refine (near_trans s2 B1).trans ?_
        push_cast
        linarith
      · rw [qw, show Q - x (i + 1 - w) ^ 2 + x (i + 1) ^ 2 = Q + x (i + 1) ^ 2 - x (i + 1 - w) ^ 2 by ring]
        refine (near_trans s3 B2).trans ?_
        push_cast
        linarith
    · rw [if_neg g] at sw qw ⊢
      have ek : min w (i + 1 + 1) = k + 1 := by omega
      rw [ek, r1]
      refine ⟨m1, q1, c1, cr, rfl, ?_, ?_, r4, h5⟩
      · rw [sw]
        push_cast
        refine A1.trans ?_
        have : 0 ≤ (i : K) * (u * M) := mul_nonneg i0 uM.le
        linarith
      · rw [qw]
        push_cast
        refine A2.trans ?_
        have : 0 ≤ (i : K) * (u * (M * M)) := mul_nonneg i0 uMM.le
        linarith

/-- the population variance of the last `w` rows up to row `i` (fewer at the start) -/
def wvar (f : Nat → K) (w i : Nat) : K := (∑ j ∈ Ico (i + 1 - w) (i + 1), (f j - wmean f w i) ^ 2) / (min w (i + 1) : ℕ)

theorem wvar_nonneg (f : Nat → K) (w i : Nat) : 0 ≤ wvar f w i :=
  div_nonneg (Finset.sum_nonneg fun _ _ => sq_nonneg _) (Nat.cast_nonneg _)

/-- mean of the squares less square of the mean -/
theorem wvar_eq {f : Nat → K} {w i : Nat} (hw : 1 ≤ w) :
    wvar f w i = (∑ j ∈ Ico (i + 1 - w) (i + 1), f j ^ 2) / (min w (i + 1) : ℕ) - wmean f w i ^ 2 := by
  have k0 : ((min w (i + 1) : ℕ) : K) ≠ 0 := by exact_mod_cast (by omega : min w (i + 1) ≠ 0)
  have hc : (((Ico (i + 1 - w) (i + 1)).card : ℕ) : K) = (min w (i + 1) : ℕ) := by rw [Nat.card_Ico]; congr 1; omega
  have hm : ∑ j ∈ Ico (i + 1 - w) (i + 1), f j = (min w (i + 1) : ℕ) * wmean f w i := by unfold wmean; rw [mul_div_cancel₀ _ k0]
  unfold wvar
  generalize wmean f w i = μ at hm ⊢
  have e : ∑ j ∈ Ico (i + 1 - w) (i + 1), (f j - μ) ^ 2 = ∑ j ∈ Ico (i + 1 - w) (i + 1), f j ^ 2 - (min w (i + 1) : ℕ) * μ ^ 2 := by
    have : ∀ j, (f j - μ) ^ 2 = f j ^ 2 - 2 * μ * f j + μ ^ 2 := fun j => by ring
    simp only [this]
    rw [Finset.sum_add_distrib, Finset.sum_sub_distrib, ← Finset.mul_sum, hm, Finset.sum_const, nsmul_eq_mul, hc]
    ring
  rw [e, sub_div, mul_div_cancel_left₀ _ k0]

/-- **The variance** read off the accumulator. -/
theorem VarSt.calcVar_err (o : Order) {u η Ω M : K} (H : Headroom R u η Ω M) {w n : Nat} (hw : 1 ≤ w) (hΩ : 10 * ((n : K) * (M * M)) ≤ Ω) (hn : 1000 * (u * n) ≤ 1)
    (hint : ∀ k : ℕ, k ≤ n → R.rd (k : K) = .fin (k : K)) {x : Nat → K} (hx : ∀ j, j < n → |x j| ≤ M) {i : Nat} (hi : i < n) {mp : Nat} (hmp : mp ≤ min w (i + 1)) :
    ∃ y, (online o VarSt.add VarSt.rem VarSt.init w (rser (R := R) n x) i).calcVar mp = rk y ∧ 0 ≤ y ∧ |y - wvar x w i| ≤ 560 * (i + 1) * (u * (M * M)) := by
  obtain ⟨m, q, ca, cr, h1, h2, h3, -, -⟩ := VarSt.online_err o H hw hΩ hn hint hx hi
  have M0 := H.M0
  have MM : 0 < M * M := mul_pos M0 M0
  have uM : 0 < u * M := mul_pos H.u0 M0
  have uMM : 0 < u * (M * M) := mul_pos H.u0 MM
  have i0 : (0 : K) ≤ i := Nat.cast_nonneg i
  have iN : (i : K) + 1 ≤ n := by exact_mod_cast hi
  have v0 := wvar_nonneg x w i
  have am := abs_wmean hw hx hi M0.le
  have ve := wvar_eq (f := x) (w := w) (i := i) hw
  rw [h1]
  have hk1 : 1 ≤ min w (i + 1) := by omega
  have hkn : min w (i + 1) ≤ n := by omega
  have bQ := sq_window (w := min w (i + 1)) (a := i + 1 - w) (b := i + 1) hx (by omega) M0.le (by omega)
  have bS : |∑ j ∈ Ico (i + 1 - w) (i + 1), x j| ≤ (min w (i + 1) : ℕ) * M := abs_window hx (by omega) M0.le (by omega)
  have one : min w (i + 1) = 1 → wvar x w i = 0 := by
    intro e
    have : Ico (i + 1 - w) (i + 1) = {i} := by
      ext j
      rw [mem_Ico, mem_singleton]
      omega
    unfold wvar wmean
    rw [this, sum_singleton, sum_singleton, e]
    simp
  have wm : wmean x w i = (∑ j ∈ Ico (i + 1 - w) (i + 1), x j) / (min w (i + 1) : ℕ) := rfl
  generalize min w (i + 1) = k at *
  generalize ∑ j ∈ Ico (i + 1 - w) (i + 1), x j = S at *
  generalize ∑ j ∈ Ico (i + 1 - w) (i + 1), x j ^ 2 = Q at *
  generalize wvar x w i = v at *
  generalize wmean x w i = μ at *
  have k1 : (1 : K) ≤ k := by exact_mod_cast hk1
  have k0 : (0 : K) < k := by linarith
  unfold VarSt.calcVar
  dsimp only
  rw [if_pos ⟨by exact_mod_cast (by omega : max mp 1 ≤ k), by exact_mod_cast hk1⟩]
  by_cases g : (k : ℤ) = 1
  · rw [if_pos g, one (by exact_mod_cast g)]
    refine ⟨0, lit0, le_rfl, ?_⟩
    rw [sub_self, abs_zero]
    positivity
  rw [if_neg g]
  have ui : u * ((i : K) + 1) ≤ 0.001 := by
    have := mul_le_mul_of_nonneg_left iN H.u0.le
    linarith
  obtain ⟨bm, bq⟩ := state_bounds (e := 45 * (u * ((i : K) + 1))) (f := 460 * (u * ((i : K) + 1))) M0 k1 bS bQ.1 bQ.2
    (h2.trans (le_of_eq (by ring))) (h3.trans (le_of_eq (by ring))) (by linarith) (by linarith)
  have dm : |m - μ| ≤ 45 * (i + 1) * (u * M) := by
    have e : (k : K) * m - S = k * (m - μ) := by rw [wm]; field_simp
    rw [e, abs_mul, abs_of_pos k0] at h2
    refine le_of_mul_le_mul_left (h2.trans (le_of_eq ?_)) k0
    ring
  have dq : |q / k - v| ≤ 555 * (i + 1) * (u * (M * M)) := by
    have e : q / k - v = (q + k * m ^ 2 - Q) / k - (m - μ) * (m + μ) := by
      rw [ve]; field_simp; ring
    rw [e]
    refine (abs_sub _ _).trans ?_
    rw [abs_div, abs_of_pos k0, abs_mul]
    have a1 : |q + k * m ^ 2 - Q| / k ≤ 460 * (i + 1) * (u * (M * M)) := by
      rw [div_le_iff₀ k0]; exact h3.trans (le_of_eq (by ring))
    have a2 : |m + μ| ≤ 2.1 * M := (abs_add_le _ _).trans (by linarith)
    have a3 := mul_le_mul dm a2 (abs_nonneg _) (by positivity)
    have a4 : 0 ≤ (i : K) * (u * (M * M)) := mul_nonneg i0 uMM.le
    nlinarith
  have aqk : |q / k| ≤ 3 * (M * M) := by
    rw [abs_div, abs_of_pos k0, div_le_iff₀ k0]
    linarith
  have l : (lit (((k : ℕ) : ℤ) : ℚ) : Rval R) = rk (k : K) := by
    show R.rd _ = Val.fin _
    rw [← hint k hkn]; congr 1; push_cast; rfl
  obtain ⟨r, hr, er⟩ := acc_div H.acc (x := q) (y := (k : K)) k0.ne' (aqk.trans (by have := H.Ω2; linarith))
  have er' : |r - v| ≤ 560 * (i + 1) * (u * (M * M)) := by
    have h4 := mul_le_mul_of_nonneg_left aqk H.u0.le
    have h5 := H.η2
    have h6 : 0 ≤ (i : K) * (u * (M * M)) := mul_nonneg i0 uMM.le
    exact (near_trans er dq).trans (by linarith)
  rw [l, hr]
  have c1 : ((rk r : Rval R) <. lit 0) = decide (r < 0) := by rw [show (lit 0 : Rval R) = rk 0 from lit0]; rfl
  rw [c1]
  simp only [decide_eq_true_eq]
  split_ifs with g2
  · exact ⟨0, lit0, le_rfl, (clip_le er').1 v0 g2⟩
  · exact ⟨r, rfl, not_lt.mp g2, er'⟩

end err

/-! ## double precision -/

section dbl
variable {K : Type} [Field K] [LinearOrder K] [IsStrictOrderedRing K] [FloorRing K]

theorem eps_rows' {n : Nat} (h : n ≤ 2 ^ 43) : 1000 * ((eps : K) * n) ≤ 1 := by
  have h1 : (n : K) ≤ 2 ^ (43 : ℤ) := by
    have : (n : K) ≤ 2 ^ 43 := by exact_mod_cast h
    exact_mod_cast this
  have e : (eps : K) * 2 ^ (43 : ℤ) = 2 ^ (-10 : ℤ) := by
    unfold eps; rw [← zpow_add₀ (by norm_num)]; norm_num only
  have := mul_le_mul_of_nonneg_left h1 (eps_pos (K := K)).le
  rw [e] at this
  refine (mul_le_mul_of_nonneg_left this (by norm_num)).trans ?_
  norm_num

theorem sq_huge {M : K} (M0 : 0 < M) (h : M ≤ 2 ^ (400 : ℤ)) : M * M ≤ huge := by
  have h1 := mul_le_mul h h M0.le (two_zpow_pos _).le
  rw [← zpow_add₀ (by norm_num)] at h1
  exact h1.trans (zpow_le_zpow_right₀ (by norm_num) (by norm_num))

theorem sq_tiny {M : K} (h : 2 ^ (-400 : ℤ) ≤ M) : tiny ≤ M * M := by
  have h1 := mul_le_mul h h (two_zpow_pos _).le ((two_zpow_pos (K := K) _).le.trans h)
  rw [← zpow_add₀ (by norm_num)] at h1
  exact (zpow_le_zpow_right₀ (by norm_num) (by norm_num) : (2 : K) ^ (-900 : ℤ) ≤ _).trans h1

/-- double precision fits values between `2^-400` and `2^400` -/
theorem fits_double {M : K} (h1 : 2 ^ (-400 : ℤ) ≤ M) (h2 : M ≤ 2 ^ (400 : ℤ)) : Headroom (binary64 : Rounding K) eps (2 ^ (-1075 : ℤ)) (2 ^ (1023 : ℤ)) M := by
  have M0 : 0 < M := (two_zpow_pos _).trans_le h1
  have tM : tiny ≤ M := (zpow_le_zpow_right₀ (by norm_num) (by norm_num) : (2 : K) ^ (-900 : ℤ) ≤ _).trans h1
  have Mh : M ≤ huge := h2.trans (zpow_le_zpow_right₀ (by norm_num) (by norm_num))
  have c1 := rows_cap (n := 1) (by norm_num) Mh M0.le
  have c2 := rows_cap (n := 1) (by norm_num) (sq_huge M0 h2) (mul_pos M0 M0).le
  have MM := mul_pos M0 M0
  rw [Nat.cast_one, one_mul] at c1 c2
  refine ⟨b64_acc, eps_pos, eps_small, M0, (two_zpow_pos _).le, eta_le tM, eta_le (sq_tiny h1), ?_, ?_⟩
  · refine le_trans ?_ c1
    linarith
  · refine le_trans ?_ c2
    linarith

/-- C111. **Rolling variance** as pandas computes it, in double precision: on row `i` within `560 (i + 1) 2^-53 M²` of the exact variance of
the window, `M` bounding all closes so far. -/
theorem pandas_var_near (o : Order) {n : Nat} (hn : n ≤ 2 ^ 43) {x : Nat → K} {M : K} (hM1 : 2 ^ (-400 : ℤ) ≤ M) (hM2 : M ≤ 2 ^ (400 : ℤ)) (hx : ∀ j, j < n → |x j| ≤ M)
    {w mp i : Nat} (hw : 1 ≤ w) (hi : i < n) (hmp : mp ≤ min w (i + 1)) :
    ∃ y, (online o VarSt.add VarSt.rem VarSt.init w (dser n x) i).calcVar mp = rk y ∧ 0 ≤ y ∧ |y - wvar x w i| ≤ 560 * (i + 1) * (eps * (M * M)) := by
  have M0 : 0 < M := (two_zpow_pos _).trans_le hM1
  have MM := mul_pos M0 M0
  have n0 : (0 : K) ≤ n := Nat.cast_nonneg n
  have := mul_nonneg n0 MM.le
  refine VarSt.calcVar_err o (fits_double hM1 hM2) hw ?_ (eps_rows' hn) (fun k hk => ?_) hx hi hmp
  · refine le_trans ?_ (rows_cap (n := n) (hn.trans (by norm_num)) (sq_huge M0 hM2) MM.le)
    linarith
  · have := b64_int (K := K) (k := (k : ℤ)) (by rw [abs_of_nonneg (by omega)]; have : k ≤ 2 ^ 43 := hk.trans hn; omega)
    simpa using this

end dbl

/-! ## standard deviation and bands -/

theorem wstd_eq (f : Nat → ℝ) (w i : Nat) : wstd f w i = Real.sqrt (wvar f w i) := rfl

theorem sqrt_add_le {a b : ℝ} (ha : 0 ≤ a) (hb : 0 ≤ b) : Real.sqrt (a + b) ≤ Real.sqrt a + Real.sqrt b := by
  rw [Real.sqrt_le_left (by positivity), add_sq, Real.sq_sqrt ha, Real.sq_sqrt hb]
  have : 0 ≤ Real.sqrt a * Real.sqrt b := by positivity
  linarith

theorem sqrt_near {a b : ℝ} (ha : 0 ≤ a) (hb : 0 ≤ b) : |Real.sqrt a - Real.sqrt b| ≤ Real.sqrt |a - b| := by
  rw [abs_le]
  constructor
  · have : Real.sqrt b ≤ Real.sqrt (a + |a - b|) := Real.sqrt_le_sqrt (by linarith [neg_abs_le (a - b)])
    linarith [sqrt_add_le ha (abs_nonneg (a - b))]
  · have : Real.sqrt a ≤ Real.sqrt (b + |a - b|) := Real.sqrt_le_sqrt (by linarith [le_abs_self (a - b)])
    linarith [sqrt_add_le hb (abs_nonneg (a - b))]

/-- the unit of the error on row `i`: `√((i + 1) 2^-53)` -/
noncomputable def rowErr (i : Nat) : ℝ := Real.sqrt ((i + 1) * eps)

theorem rowErr_sq (i : Nat) : rowErr i * rowErr i = (i + 1) * eps :=
  Real.mul_self_sqrt (mul_nonneg (by positivity) eps_pos.le)

theorem rowErr_pos (i : Nat) : 0 < rowErr i := Real.sqrt_pos.mpr (mul_pos (by positivity) eps_pos)

theorem rowErr_small {n i : Nat} (hn : n ≤ 2 ^ 43) (hi : i < n) : rowErr i ≤ 0.04 := by
  have h := eps_rows' (K := ℝ) hn
  have iN : (i : ℝ) + 1 ≤ n := by exact_mod_cast hi
  have := mul_le_mul_of_nonneg_right iN (eps_pos (K := ℝ)).le
  unfold rowErr
  rw [Real.sqrt_le_left (by norm_num)]
  linarith

/-- the rounding errors of single operations are small against it -/
theorem eps_rowErr {n i : Nat} (hn : n ≤ 2 ^ 43) (hi : i < n) : (i + 1) * eps ≤ 0.04 * rowErr i := by
  rw [← rowErr_sq]
  exact mul_le_mul_of_nonneg_right (rowErr_small hn hi) (rowErr_pos i).le

theorem wvar_le {x : Nat → ℝ} {M : ℝ} {n w i : Nat} (hw : 1 ≤ w) (hx : ∀ j, j < n → |x j| ≤ M) (hi : i < n) (hM : 0 ≤ M) : wvar x w i ≤ M * M := by
  have k0 : (0 : ℝ) < (min w (i + 1) : ℕ) := by exact_mod_cast (by omega : 0 < min w (i + 1))
  rw [wvar_eq hw]
  have := (sq_window (w := min w (i + 1)) (a := i + 1 - w) (b := i + 1) hx (by omega) hM (by omega)).2
  have : (∑ j ∈ Ico (i + 1 - w) (i + 1), x j ^ 2) / (min w (i + 1) : ℕ) ≤ M * M := by rw [div_le_iff₀ k0]; linarith
  nlinarith [sq_nonneg (wmean x w i)]

/-- **Rolling standard deviation** as pandas computes it, in double precision. -/
theorem pandas_std_near (o : Order) {n : Nat} (hn : n ≤ 2 ^ 43) {x : Nat → ℝ} {M : ℝ} (hM1 : 2 ^ (-400 : ℤ) ≤ M) (hM2 : M ≤ 2 ^ (400 : ℤ)) (hx : ∀ j, j < n → |x j| ≤ M)
    {w mp i : Nat} (hw : 1 ≤ w) (hi : i < n) (hmp : mp ≤ min w (i + 1)) :
    ∃ z, ix (onlineStd o w mp (dser n x)) i = rk z ∧ |z - wstd x w i| ≤ 24 * rowErr i * M := by
  have M0 : 0 < M := (two_zpow_pos _).trans_le hM1
  have MM := mul_pos M0 M0
  obtain ⟨y, h1, y0, h2⟩ := pandas_var_near o hn hM1 hM2 hx hw hi hmp
  have v0 := wvar_nonneg x w i
  have vM := wvar_le hw hx hi M0.le
  have r0 := rowErr_pos i
  have H := fits_double (K := ℝ) hM1 hM2
  have ee := eps_rowErr hn hi
  have i0 : (0 : ℝ) ≤ i := Nat.cast_nonneg i
  have iN : (i : ℝ) + 1 ≤ n := by exact_mod_cast hi
  have ep := eps_pos (K := ℝ)
  have h3 : |Real.sqrt y - wstd x w i| ≤ 23.7 * rowErr i * M := by
    rw [wstd_eq]
    refine (sqrt_near y0 v0).trans ?_
    rw [Real.sqrt_le_left (by positivity)]
    refine h2.trans ?_
    have e : (23.7 * rowErr i * M) ^ 2 = 561.69 * ((rowErr i * rowErr i) * (M * M)) := by ring
    rw [e, rowErr_sq]
    have : 0 ≤ (i + 1) * eps * (M * M) := by positivity
    linarith
  have sM : Real.sqrt y ≤ 2 * M := by
    rw [Real.sqrt_le_left (by linarith)]
    have a := (abs_le.mp h2).2
    have b := mul_le_mul_of_nonneg_right (eps_rows' (K := ℝ) hn) MM.le
    have c := mul_le_mul_of_nonneg_right iN (mul_pos ep MM).le
    nlinarith
  have s0 := Real.sqrt_nonneg y
  obtain ⟨z, hz, ez⟩ := H.acc (Real.sqrt y) (by rw [abs_of_nonneg s0]; exact le_trans (by linarith) H.Ω1)
  refine ⟨z, ?_, ?_⟩
  · unfold onlineStd
    rw [ix_tab_lt (by simpa [rser] using hi), clean_dser, h1]
    have c1 : ((rk y : Double ℝ) <. lit 0) = false := by
      rw [show (lit 0 : Double ℝ) = rk 0 from lit0]
      exact decide_eq_false (not_lt.mpr y0)
    unfold zsqrt
    rw [if_neg (by rw [c1]; exact Bool.false_ne_true)]
    show (binary64 : Rounding ℝ).rnd (Val.sqrt (Val.fin y)) = _
    rw [show Val.sqrt (Val.fin y) = .fin (Real.sqrt y) by simp [Val.sqrt, not_lt.mpr y0]]
    exact hz
  · rw [abs_of_nonneg s0] at ez
    have a := mul_le_mul_of_nonneg_left sM ep.le
    have b := H.η1
    have c := mul_le_mul_of_nonneg_right ee M0.le
    have d : eps * M ≤ (i + 1) * eps * M := by
      have := mul_nonneg i0 (mul_pos ep M0).le
      linarith
    refine (near_trans ez h3).trans ?_
    have e : 0 < rowErr i * M := mul_pos r0 M0
    linarith

/-- both NaN, or two numbers at most `δ` apart -/
def Within' (δ : ℝ) (a : Double ℝ) (b : Val ℝ) : Prop := (a = Val.nan ∧ b = .nan) ∨ ∃ y z : ℝ, a = Val.fin y ∧ b = .fin z ∧ |y - z| ≤ δ

/-- C111. **Bollinger bands** as pandas computes them, in double precision, against the exact bands: closes up to `M` in size, any window and multiplier.
On row `i` the middle line is off by at most `85 (i + 1) 2^-53 M`, the bands by at most `(25 |d| + 4) √((i + 1) 2^-53) M`. -/
theorem bollinger_double (o : Order) {n : Nat} (hn : n ≤ 2 ^ 43) {c : Nat → ℝ} {M : ℝ} (hM1 : 2 ^ (-400 : ℤ) ≤ M) (hM2 : M ≤ 2 ^ (400 : ℤ)) (hc : ∀ j, j < n → |c j| ≤ M)
    {w : Nat} (hw : 1 ≤ w) {d : ℝ} (hd : |d| ≤ 2 ^ (400 : ℤ)) (fillna : Bool) {i : Nat} (hi : i < n) :
    let b := BB.pandas o (dser n c) w (rk d) fillna
    let e := BB.new (ser n c) w (.fin d) fillna
    Within' (85 * ((i + 1) * eps) * M) (ix b.bollingerMavg i) (ix e.bollingerMavg i) ∧
      Within' ((25 * |d| + 4) * rowErr i * M) (ix b.bollingerHband i) (ix e.bollingerHband i) ∧
      Within' ((25 * |d| + 4) * rowErr i * M) (ix b.bollingerLband i) (ix e.bollingerLband i) := by
  have M0 : 0 < M := (two_zpow_pos _).trans_le hM1
  have tM : tiny ≤ M := (zpow_le_zpow_right₀ (by norm_num) (by norm_num) : (2 : ℝ) ^ (-900 : ℤ) ≤ _).trans hM1
  have Mh : M ≤ huge := hM2.trans (zpow_le_zpow_right₀ (by norm_num) (by norm_num))
  have B := bollinger_formula (n := n) c hw d fillna
  have D := pandas_mean_drift (hn.trans (by norm_num)) tM Mh hc hw (minp_le fillna w)
  have hmean := (def_ser n c).rollMeanP hw (minp_le fillna w)
  have Di := D.2 i (by rw [hmean.len]; exact hi)
  have H := fits_double (K := ℝ) hM1 hM2
  have ep := eps_pos (K := ℝ)
  have r0 := rowErr_pos i
  have ee := eps_rowErr hn hi
  have i0 : (0 : ℝ) ≤ i := Nat.cast_nonneg i
  have d0 := abs_nonneg d
  have hp : minp fillna w - 1 = if fillna then 0 else w - 1 := by unfold minp; split_ifs <;> omega
  intro b e
  have lm : b.mavg.length = n := by show (onlineMean w _ (dser n c)).length = n; simp [onlineMean, rser]
  have lh : b.hband.length = n := by show (sadd (onlineMean w _ (dser n c)) _).length = n; simp [onlineMean, onlineStd, cmul, rser]
  have ll : b.lband.length = n := by show (ssub (onlineMean w _ (dser n c)) _).length = n; simp [onlineMean, onlineStd, cmul, rser]
  -- before the window is full
  by_cases g : i < minp fillna w - 1
  · have hf : fillna = false := by
      cases fillna with
      | false => rfl
      | true => simp [minp] at g
    subst hf
    have nm : ix (onlineMean w (minp false w) (dser n c)) i = Val.nan := by
      rcases Di with ⟨a, -⟩ | ⟨y, z, -, a, -⟩
      · exact a
      · rw [hmean.gap i hi g] at a; exact nomatch a
    have ls : (onlineStd o w (minp false w) (dser n c)).length = n := by simp [onlineStd, rser]
    have lo : (onlineMean w (minp false w) (dser n c)).length = n := by simp [onlineMean, rser]
    have g' : i < (if false = true then 0 else w - 1) := by rw [← hp]; exact g
    refine ⟨.inl ⟨?_, B.mavg.gap i hi g'⟩, .inl ⟨?_, B.hband.gap i hi g'⟩, .inl ⟨?_, B.lband.gap i hi g'⟩⟩
    · exact nm
    · show ix (sadd (onlineMean w (minp false w) (dser n c)) (cmul (rk d) (onlineStd o w (minp false w) (dser n c)))) i = _
      rw [ix_sadd (by omega), nm]
      rfl
    · show ix (ssub (onlineMean w (minp false w) (dser n c)) (cmul (rk d) (onlineStd o w (minp false w) (dser n c)))) i = _
      rw [ix_ssub (by omega), nm]
      rfl
  -- afterwards
  have g1 : (if fillna then 0 else w - 1) ≤ i := by rw [← hp]; omega
  obtain ⟨y, hy, ey⟩ : ∃ y, ix (onlineMean w (minp fillna w) (dser n c)) i = rk y ∧ |y - wmean c w i| ≤ 85 * ((i + 1) * eps) * M := by
    rcases Di with ⟨-, a⟩ | ⟨y, z, a, a', a''⟩
    · rw [hmean.val i hi (by omega)] at a; exact nomatch a
    · rw [hmean.val i hi (by omega)] at a'
      cases Val.fin.inj a'
      exact ⟨y, a, a''.trans (le_of_eq (by ring))⟩
  obtain ⟨z, hz, ez⟩ := pandas_std_near o hn hM1 hM2 hc hw hi (mp := minp fillna w) (by have := minp_le fillna w; omega)
  have ls : (onlineStd o w (minp fillna w) (dser n c)).length = n := by simp [onlineStd, rser]
  have lo : (onlineMean w (minp fillna w) (dser n c)).length = n := by simp [onlineMean, rser]
  have am := abs_wmean hw hc hi M0.le
  have sM : |wstd c w i| ≤ M := by
    rw [wstd_eq, abs_of_nonneg (Real.sqrt_nonneg _), Real.sqrt_le_left M0.le]
    exact (wvar_le hw hc hi M0.le).trans (le_of_eq (by ring))
  have rM : 0 < rowErr i * M := mul_pos r0 M0
  have rM1 : rowErr i * M ≤ 0.04 * M := mul_le_mul_of_nonneg_right (rowErr_small hn hi) M0.le
  have eM := mul_le_mul_of_nonneg_right ee M0.le
  have e1M : eps * M ≤ 0.04 * (rowErr i * M) := by
    have := mul_nonneg i0 (mul_pos ep M0).le
    linarith
  have az : |z| ≤ 2 * M := (near_abs ez sM).trans (by linarith)
  have ay : |y| ≤ 1.2 * M := (near_abs ey am).trans (by linarith)
  have dM : |d| * M ≤ huge := by
    have h1 := mul_le_mul hd hM2 M0.le (two_zpow_pos _).le
    rw [← zpow_add₀ (by norm_num)] at h1
    exact h1.trans (zpow_le_zpow_right₀ (by norm_num) (by norm_num))
  have dM0 : 0 ≤ |d| * M := mul_nonneg d0 M0.le
  have cap1 : 16 * (|d| * M) ≤ (2 : ℝ) ^ (1023 : ℤ) := by
    have := rows_cap (n := 1) (by norm_num) dM dM0
    rwa [Nat.cast_one, one_mul] at this
  have cap2 := H.Ω1
  have cap3 := H.η1
  have ac := H.acc
  have adz : |d * z| ≤ 2 * (|d| * M) := by
    rw [abs_mul]
    have := mul_le_mul_of_nonneg_left az d0
    linarith
  generalize (2 : ℝ) ^ (1023 : ℤ) = Ω at *
  generalize (2 : ℝ) ^ (-1075 : ℤ) = η at *
  obtain ⟨p, hp1, ep1⟩ := acc_mul ac (x := d) (y := z) (adz.trans (by linarith))
  have drM : 0 ≤ |d| * (rowErr i * M) := mul_nonneg d0 rM.le
  have ep2 : |p - d * wstd c w i| ≤ 24.1 * (|d| * (rowErr i * M)) + 0.001 * (rowErr i * M) := by
    have h1 : |d * z - d * wstd c w i| ≤ 24 * (|d| * (rowErr i * M)) := by
      rw [← mul_sub, abs_mul]
      have := mul_le_mul_of_nonneg_left ez d0
      linarith
    have h2 := mul_le_mul_of_nonneg_left adz ep.le
    have h3 := mul_le_mul_of_nonneg_left e1M d0
    exact (near_trans ep1 h1).trans (by linarith)
  have ap : |p| ≤ 3 * (|d| * M) + 0.1 * M := by
    have h1 : |d * wstd c w i| ≤ |d| * M := by
      rw [abs_mul]; exact mul_le_mul_of_nonneg_left sM d0
    have h2 := mul_le_mul_of_nonneg_left rM1 d0
    exact (near_abs ep2 h1).trans (by linarith)
  have fin : ∀ (t q σ : ℝ), (|t - q| ≤ eps * |q| + η) → |q| ≤ 1.3 * M + 3 * (|d| * M) → |q - σ| ≤ 85 * ((i + 1) * eps) * M + 24.1 * (|d| * (rowErr i * M)) + 0.001 * (rowErr i * M) →
      |t - σ| ≤ (25 * |d| + 4) * rowErr i * M := by
    intro t q σ h1 h2 h3
    have h4 := mul_le_mul_of_nonneg_left h2 ep.le
    have h5 := mul_le_mul_of_nonneg_left e1M d0
    exact (near_trans h1 h3).trans (by linarith)
  obtain ⟨t, ht, et⟩ := acc_add ac (x := y) (y := p) ((abs_add_le _ _).trans (by linarith))
  obtain ⟨s, hs, es⟩ := rk_sub ac (x := y) (y := p) ((abs_sub _ _).trans (by linarith))
  have fill : ∀ (u : Series (Double ℝ)) (v : Fill (Double ℝ)) (q : ℝ), u.length = n → ix u i = rk q → ix (checkFillna fillna v u) i = rk q := by
    intro u v q hu hq
    cases hf : fillna with
    | false => rw [noFill]; exact hq
    | true => exact (keep_rounded (by rw [hu]; exact hi) hq).trans hq
  refine ⟨.inr ⟨y, _, fill _ _ y lm hy, B.mavg.val i hi g1, ey⟩, .inr ⟨t, _, fill _ _ t lh ?_, B.hband.val i hi g1, ?_⟩,
    .inr ⟨s, _, fill _ _ s ll ?_, B.lband.val i hi g1, ?_⟩⟩
  · show ix (sadd (onlineMean w (minp fillna w) (dser n c)) (cmul (rk d) (onlineStd o w (minp fillna w) (dser n c)))) i = _
    unfold cmul
    rw [ix_sadd (by omega), ix_map (by omega), hy, hz, hp1, ht]
  · refine fin t (y + p) _ et ((abs_add_le _ _).trans (by linarith)) ?_
    rw [show y + p - (wmean c w i + d * wstd c w i) = (y - wmean c w i) + (p - d * wstd c w i) by ring]
    exact (abs_add_le _ _).trans (by linarith)
  · show ix (ssub (onlineMean w (minp fillna w) (dser n c)) (cmul (rk d) (onlineStd o w (minp fillna w) (dser n c)))) i = _
    unfold cmul
    rw [ix_ssub (by omega), ix_map (by omega), hy, hz, hp1, hs]
  · refine fin s (y - p) _ es ((abs_sub _ _).trans (by linarith)) ?_
    rw [show y - p - (wmean c w i - d * wstd c w i) = (y - wmean c w i) - (p - d * wstd c w i) by ring]
    exact (abs_sub _ _).trans (by linarith)

/-! ## examples -/

/-- four years of hourly closes up to 128: pandas' upper band at two standard deviations is right to a cent -/
example (o : Order) (c : Nat → ℝ) (hc : ∀ j, j < 10000 → |c j| ≤ 128) (w : Nat) (hw : 1 ≤ w) (i : Nat) (hi : i < 10000) (hwi : w ≤ i + 1) :
    ∃ y : ℝ, ix (BB.pandas o (dser 10000 c) w (rk 2) false).bollingerHband i = Val.fin y ∧ |y - (wmean c w i + 2 * wstd c w i)| < 1 / 100 := by
  have t1 : (2 : ℝ) ^ (-400 : ℤ) ≤ 128 := by
    have h2 : (2 : ℝ) ^ (-400 : ℤ) ≤ 2 ^ (7 : ℤ) := zpow_le_zpow_right₀ (by norm_num) (by norm_num)
    norm_num at h2 ⊢; exact h2
  have t2 : (128 : ℝ) ≤ 2 ^ (400 : ℤ) := by
    have h2 : (2 : ℝ) ^ (7 : ℤ) ≤ 2 ^ (400 : ℤ) := zpow_le_zpow_right₀ (by norm_num) (by norm_num)
    norm_num at h2 ⊢; exact h2
  have t3 : |(2 : ℝ)| ≤ 2 ^ (400 : ℤ) := by
    have h2 : (2 : ℝ) ^ (1 : ℤ) ≤ 2 ^ (400 : ℤ) := zpow_le_zpow_right₀ (by norm_num) (by norm_num)
    norm_num at h2 ⊢; exact h2
  have B := bollinger_formula (n := 10000) c hw 2 false
  rcases (bollinger_double o (by norm_num) t1 t2 hc hw t3 false hi).2.1 with ⟨-, b⟩ | ⟨y, z, a, b, h⟩
  · rw [B.hband.val i hi (show w - 1 ≤ i by omega)] at b; exact nomatch b
  · rw [B.hband.val i hi (show w - 1 ≤ i by omega)] at b
    cases Val.fin.inj b
    refine ⟨y, a, h.trans_lt ?_⟩
    have hr : rowErr i ≤ 1.1 / 1000000 := by
      unfold rowErr
      rw [Real.sqrt_le_left (by norm_num)]
      have : (i : ℝ) + 1 ≤ 10000 := by exact_mod_cast hi
      have e : (eps : ℝ) = 2 ^ (-53 : ℤ) := rfl
      rw [e]
      norm_num
      linarith
    rw [abs_of_pos (by norm_num : (0 : ℝ) < 2)]
    norm_num at hr ⊢
    linarith

end TA
