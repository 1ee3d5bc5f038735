import Verif.Props.C30
import Verif.Props.C111
import Verif.Props.C132

/-!
# C135 — the Ulcer index in double precision

`np.sqrt((x**2 / window).sum())` of the drawdowns (`ta/volatility.py:444-469`). All terms of the sum are positive, so its error is
relative, and the square root does not lose half of the digits as it does for the Bollinger bands (C111).
-/

set_option linter.unusedSectionVars false

namespace TA
open Finset

section sums
variable {K : Type} [Field K] [LinearOrder K] [IsStrictOrderedRing K] [FloorRing K]

/-- the entries plus `tiny` each -/
def heft (l : List (Double K)) : K := (l.map fun x => rnum x + tiny).sum

theorem heft_perm {l m : List (Double K)} (p : l.Perm m) : heft l = heft m := (p.map _).sum_eq

theorem heft_nonneg {l : List (Double K)} (h : ∀ x ∈ l, 0 ≤ rnum x) : 0 ≤ heft l := by
  unfold heft
  refine List.sum_nonneg fun y hy => ?_
  obtain ⟨x, hx, rfl⟩ := List.mem_map.mp hy
  have := h x hx
  have := tiny_pos (K := K)
  linarith

theorem rd_nonneg {x z : K} (hx : 0 ≤ x) (h : (binary64 : Rounding K).rd x = .fin z) : 0 ≤ z := by
  have := (binary64 : Rounding K).mono hx
  rw [Rounding.zero, h] at this
  simpa [Val.le] using this

/-- **the error of a sum of positive numbers in any order** is relative to the sum -/
theorem AddsUp.bulk {D : Nat} (hD : D ≤ 2 ^ 40) {l : List (Double K)} {a : Double K} {d : Nat} (h : AddsUp l a d) (hd : d ≤ D) (hl : ∀ x ∈ l, ∃ y : K, x = rk y ∧ 0 ≤ y)
    (hW : heft l ≤ huge) : ∃ S : K, a = rk S ∧ 0 ≤ S ∧ |S - (l.map rnum).sum| ≤ d * (1.1 * eps * heft l) ∧ 0 ≤ (l.map rnum).sum ∧ (l.map rnum).sum ≤ heft l := by
  have he := eps_pos (K := K)
  have hp : ∀ {l : List (Double K)}, (∀ x ∈ l, ∃ y : K, x = rk y ∧ 0 ≤ y) → ∀ x ∈ l, 0 ≤ rnum x := fun hl x hx => by
    obtain ⟨y, rfl, hy⟩ := hl x hx
    exact hy
  induction h with
  | nil d => exact ⟨0, lit0, le_refl _, by simp [heft], by simp, by simp [heft]⟩
  | one x d =>
    obtain ⟨y, rfl, hy⟩ := hl x (by simp)
    have t := tiny_pos (K := K)
    refine ⟨y, rfl, hy, ?_, by simpa using hy, by simp [heft, t.le]⟩
    have := heft_nonneg (hp hl)
    simp
    positivity
  | @add l m a b d h1 h2 i1 i2 =>
    have t := tiny_pos (K := K)
    have dn : (0 : K) ≤ d := Nat.cast_nonneg d
    have l1 : ∀ x ∈ l, ∃ y : K, x = rk y ∧ 0 ≤ y := fun x hx => hl x (by simp [hx])
    have m1 : ∀ x ∈ m, ∃ y : K, x = rk y ∧ 0 ≤ y := fun x hx => hl x (by simp [hx])
    have hh : heft (l ++ m) = heft l + heft m := by unfold heft; rw [List.map_append, List.sum_append]
    have hl0 := heft_nonneg (hp l1)
    have hm0 := heft_nonneg (hp m1)
    rw [hh] at hW ⊢
    push_cast
    obtain ⟨S, e1, S1, b1, c1, f1⟩ := i1 (by omega) l1 (by linarith)
    obtain ⟨T, e2, T1, b2, c2, f2⟩ := i2 (by omega) m1 (by linarith)
    rw [List.map_append, List.sum_append]
    by_cases z : l ++ m = []
    · obtain ⟨rfl, rfl⟩ := List.append_eq_nil_iff.mp z
      simp only [heft, List.map_nil, List.sum_nil, mul_zero, sub_zero] at b1 b2
      have S0 := abs_nonpos_iff.mp b1
      have T0 := abs_nonpos_iff.mp b2
      subst S0 T0
      refine ⟨0, ?_, le_refl _, by simp [heft], by simp, by simp [heft]⟩
      rw [e1, e2]
      show (binary64 : Rounding K).rd (0 + 0) = _
      rw [add_zero]
      exact Rounding.zero _
    · have big : tiny ≤ heft l + heft m := by
        rw [← hh]
        obtain ⟨x, k, hk⟩ := List.exists_cons_of_ne_nil z
        have kk : ∀ y ∈ x :: k, 0 ≤ rnum y := fun y hy => hp hl y (hk ▸ hy)
        have := heft_nonneg (l := k) fun y hy => kk y (by simp [hy])
        have := kk x (by simp)
        rw [hk]
        unfold heft at *
        rw [List.map_cons, List.sum_cons]
        linarith
      generalize (l.map rnum).sum = s at *
      generalize (m.map rnum).sum = q at *
      have st : |(S + T) - (s + q)| ≤ d * (1.1 * eps * (heft l + heft m)) := by
        have k := abs_add_le (S - s) (T - q)
        rw [show S - s + (T - q) = S + T - (s + q) by ring] at k
        linarith
      have sq := add_le_add f1 f2
      generalize heft l + heft m = L at *
      have hL0 : 0 < L := t.trans_le big
      have du : (d : K) * (1.1 * eps * L) ≤ 0.0011 * L := by
        have k := mul_le_mul_of_nonneg_right (eps_win (K := K) (show d ≤ 2 ^ 40 by omega)) hL0.le
        have : 0 ≤ eps * L := by positivity
        linarith
      have ST : |S + T| ≤ 1.0011 * L := by
        have k := abs_add_le (S + T - (s + q)) (s + q)
        rw [sub_add_cancel, abs_of_nonneg (by linarith : 0 ≤ s + q)] at k
        linarith
      have hc := huge_cap' (K := K)
      obtain ⟨Z, Z1, Z2⟩ := near_add (x := S) (y := T) ST (by linarith) (by linarith)
      refine ⟨Z, by rw [e1, e2, Z1], rd_nonneg (add_nonneg S1 T1) Z1, ?_, by linarith, by linarith⟩
      have k := abs_add_le (Z - (S + T)) (S + T - (s + q))
      rw [show Z - (S + T) + (S + T - (s + q)) = Z - (s + q) by ring] at k
      have : 0 < eps * L := by positivity
      linarith
  | @perm l m a d p h i =>
    obtain ⟨S, e, S1, b, c, f⟩ := i hd (fun x hx => hl x (p.mem_iff.mp hx)) (by rw [heft_perm p]; exact hW)
    rw [(p.map rnum).sum_eq, heft_perm p] at b
    rw [(p.map rnum).sum_eq] at c
    rw [(p.map rnum).sum_eq, heft_perm p] at f
    exact ⟨S, e, S1, b, c, f⟩

/-- one drawdown -/
theorem drawdown_near {c M : K} (h0 : 0 ≤ c) (h1 : c ≤ M) (hM : tiny ≤ M) (hM2 : M ≤ huge) :
    ∃ y, ((rk 100 *. (rk c -. rk M)) /. rk M : Double K) = rk y ∧ |y - 100 * (c - M) / M| ≤ 302 * eps := by
  have he := eps_pos (K := K)
  have he1 := eps_small (K := K)
  have hc := huge_cap' (K := K)
  have M0 : 0 < M := tiny_pos.trans_le hM
  have heM : 0 < eps * M := mul_pos he M0
  have heM1 : eps * M ≤ 1 / 1000 * M := mul_le_mul_of_nonneg_right he1 M0.le
  have hcM : |c - M| ≤ M := by rw [abs_sub_comm, abs_of_nonneg (by linarith)]; linarith
  obtain ⟨e, e1, e2⟩ := near_sub (x := c) (y := M) hcM hM (by linarith)
  have e3 : |e| ≤ 1.002 * M := by
    have k := abs_add_le (e - (c - M)) (c - M)
    rw [sub_add_cancel] at k
    linarith
  have e4 : |100 * e| ≤ 100.2 * M := by
    rw [abs_mul, abs_of_pos (by norm_num : (0 : K) < 100)]
    linarith
  obtain ⟨p, p1, p2⟩ := near_mul (x := 100) (y := e) e4 (by linarith) (by linarith)
  have p3 : |p - 100 * (c - M)| ≤ 200.5 * (eps * M) := by
    have k := abs_add_le (p - 100 * e) (100 * e - 100 * (c - M))
    rw [sub_add_sub_cancel, ← mul_sub, abs_mul, abs_of_pos (by norm_num : (0 : K) < 100)] at k
    linarith
  have q1 : |p / M - 100 * (c - M) / M| ≤ 200.5 * eps := by
    rw [← sub_div, abs_div, abs_of_pos M0, div_le_iff₀ M0]
    linarith
  have q2 : |p / M| ≤ 100.3 := by
    have : |100 * (c - M) / M| ≤ 100 := by
      rw [abs_div, abs_of_pos M0, div_le_iff₀ M0, abs_mul, abs_of_pos (by norm_num : (0 : K) < 100)]
      linarith
    have k := abs_add_le (p / M - 100 * (c - M) / M) (100 * (c - M) / M)
    rw [sub_add_cancel] at k
    linarith
  have := thousand_le_cap (K := K)
  obtain ⟨y, y1, y2⟩ := near_div (x := p) (y := M) M0.ne' q2 (tiny_le_one.trans (by norm_num)) (by linarith)
  refine ⟨y, by rw [e1, p1, y1], ?_⟩
  have k := abs_add_le (y - p / M) (p / M - 100 * (c - M) / M)
  rw [sub_add_sub_cancel] at k
  linarith

/-- one term of the sum -/
theorem share_sq {y : K} (hy : |y| ≤ 101) {w : Nat} (hw : 1 ≤ w) (hw2 : w ≤ 2 ^ 40) :
    ∃ z, ((rk y *. rk y) /. natF w : Double K) = rk z ∧ 0 ≤ z ∧ |z - y ^ 2 / w| ≤ 2.1 * eps * (y ^ 2 / w + tiny) := by
  have he := eps_pos (K := K)
  have he1 := eps_small (K := K)
  have t0 := tiny_pos (K := K)
  have hη := eta_le (K := K) (le_refl tiny)
  have η0 : (0 : K) < 2 ^ (-1075 : ℤ) := two_zpow_pos _
  have hw0 : (0 : K) < w := by exact_mod_cast hw
  have hw1 : (1 : K) ≤ w := by exact_mod_cast hw
  have big : (20000 : K) ≤ 2 ^ (1023 : ℤ) := by
    calc (20000 : K) ≤ 2 ^ (20 : ℤ) := by norm_num
      _ ≤ 2 ^ (1023 : ℤ) := zpow_le_zpow_right₀ (by norm_num) (by norm_num)
  have y2 : y * y ≤ 10201 := by
    have := mul_self_le_mul_self (abs_nonneg _) hy
    rw [abs_mul_abs_self] at this
    linarith
  have y0 : 0 ≤ y * y := mul_self_nonneg y
  obtain ⟨q, q1, q2⟩ := acc_mul (b64_acc (K := K)) (x := y) (y := y) (by rw [abs_of_nonneg y0]; exact (y2.trans (by norm_num)).trans big)
  have q0 : 0 ≤ q := rd_nonneg y0 q1
  rw [abs_of_nonneg y0, show (2 : K) ^ (-53 : ℤ) = eps from rfl] at q2
  generalize hηd : (2 : K) ^ (-1075 : ℤ) = η at *
  have q3 := abs_le.mp q2
  have tt : (tiny : K) ≤ 1 := tiny_le_one
  have ey : eps * (y * y) ≤ 1 / 1000 * (y * y) := mul_le_mul_of_nonneg_right he1 y0
  have et : (eps : K) * tiny ≤ 1 / 1000 * tiny := mul_le_mul_of_nonneg_right he1 t0.le
  have qw : q / w ≤ q := div_le_self q0 hw1
  have qw0 : 0 ≤ q / w := div_nonneg q0 hw0.le
  obtain ⟨z, z1, z2⟩ := acc_div (b64_acc (K := K)) (x := q) (y := w) hw0.ne' (by rw [abs_of_nonneg qw0]; exact (by linarith : q / w ≤ 20000).trans big)
  rw [abs_of_nonneg qw0, show (2 : K) ^ (-53 : ℤ) = eps from rfl, hηd] at z2
  refine ⟨z, by rw [natF_rk hw2, q1, z1], ?_, ?_⟩
  · have : ((rk q /. rk (w : K)) : Double K) = (binary64 : Rounding K).rd (q / w) := by
      show (binary64 : Rounding K).rnd (Val.div (.fin q) (.fin (w : K))) = _
      rw [show Val.div (.fin q) (.fin (w : K)) = .fin (q / w) from fin_div _ _ hw0.ne']
      rfl
    exact rd_nonneg qw0 (this.symm.trans z1)
  · have k := abs_add_le (z - q / w) (q / w - y ^ 2 / w)
    rw [sub_add_sub_cancel, ← sub_div, abs_div, abs_of_pos hw0, sq] at k
    have k1 : |q - y * y| / w ≤ eps * (y * y / w) + η := by
      refine (div_le_div_of_nonneg_right q2 hw0.le).trans ?_
      rw [add_div, mul_div_assoc]
      have := div_le_self η0.le hw1
      linarith
    have k2 : q / w ≤ 1.001 * (y * y / w) + η := by
      have : q / w ≤ (1.001 * (y * y) + η) / w := div_le_div_of_nonneg_right (by linarith) hw0.le
      rw [add_div, mul_div_assoc] at this
      have := div_le_self η0.le hw1
      linarith
    have Y0 : 0 ≤ y * y / w := div_nonneg y0 hw0.le
    have k3 := mul_le_mul_of_nonneg_left k2 he.le
    have k4 : eps * η ≤ η := mul_le_of_le_one_left η0.le (by linarith)
    have k5 := mul_nonneg he.le Y0
    have k6 := mul_pos he t0
    rw [sq]
    linarith

end sums

/-! ## square roots -/

theorem sqrt_rel {a b κ μ : ℝ} (ha : 0 ≤ a) (hb : 0 ≤ b) (hκ : 0 ≤ κ) (hκ1 : κ ≤ 1) (hμ : 0 ≤ μ) (h : |a - b| ≤ κ * (b + μ)) :
    |Real.sqrt a - Real.sqrt b| ≤ κ * Real.sqrt b + Real.sqrt μ := by
  obtain ⟨h1, h2⟩ := abs_le.mp h
  have s0 := Real.sqrt_nonneg b
  have m0 := Real.sqrt_nonneg μ
  have km : κ * μ ≤ μ := mul_le_of_le_one_left hμ hκ1
  have p1 : Real.sqrt a ≤ (1 + κ) * Real.sqrt b + Real.sqrt μ := by
    have k : Real.sqrt a ≤ Real.sqrt ((1 + κ) ^ 2 * b + μ) := Real.sqrt_le_sqrt (by nlinarith [mul_nonneg hκ hb, mul_nonneg (mul_nonneg hκ hκ) hb])
    have k2 := sqrt_add_le (a := (1 + κ) ^ 2 * b) (by positivity) hμ
    rw [Real.sqrt_mul (by positivity), Real.sqrt_sq (by linarith)] at k2
    linarith
  have p2 : (1 - κ) * Real.sqrt b ≤ Real.sqrt a + Real.sqrt μ := by
    have k : Real.sqrt ((1 - κ) ^ 2 * b) ≤ Real.sqrt (a + μ) := Real.sqrt_le_sqrt (by nlinarith [mul_nonneg (mul_nonneg hκ (by linarith : 0 ≤ 1 - κ)) hb])
    rw [Real.sqrt_mul (by positivity), Real.sqrt_sq (by linarith)] at k
    linarith [sqrt_add_le ha hμ]
  rw [abs_le]
  constructor <;> linarith

/-- root mean square -/
noncomputable def rms (f : Nat → ℝ) (s : Finset Nat) (w : Nat) : ℝ := Real.sqrt ((∑ j ∈ s, f j ^ 2) / w)

theorem rms_half {y f : Nat → ℝ} {s : Finset Nat} {w : Nat} (hw : 1 ≤ w) (hs : s.card = w) {δ : ℝ} (hδ : 0 ≤ δ) (h : ∀ j ∈ s, |y j - f j| ≤ δ) : rms y s w ≤ rms f s w + δ := by
  have w0 : (0 : ℝ) < w := by exact_mod_cast hw
  have f0 : 0 ≤ rms f s w := Real.sqrt_nonneg _
  have e : rms f s w ^ 2 = (∑ j ∈ s, f j ^ 2) / w := Real.sq_sqrt (div_nonneg (Finset.sum_nonneg fun _ _ => sq_nonneg _) w0.le)
  have cs : (∑ j ∈ s, |f j|) / w ≤ rms f s w := by
    refine Real.le_sqrt_of_sq_le ?_
    have := sq_sum_le_card_mul_sum_sq (s := s) (f := fun j => |f j|)
    simp only [sq_abs] at this
    rw [hs] at this
    rw [div_pow, div_le_div_iff₀ (by positivity) w0]
    nlinarith
  unfold rms at *
  rw [Real.sqrt_le_left (by positivity), div_le_iff₀ w0]
  have t : ∑ j ∈ s, y j ^ 2 ≤ ∑ j ∈ s, (f j ^ 2 + 2 * δ * |f j| + δ ^ 2) := Finset.sum_le_sum fun j hj => by
    have k := h j hj
    have k1 : |y j| ≤ |f j| + δ := by
      have := abs_add_le (y j - f j) (f j)
      rw [sub_add_cancel] at this
      linarith
    have k2 := mul_self_le_mul_self (abs_nonneg _) k1
    rw [← sq, sq_abs, ← sq, add_sq, sq_abs] at k2
    linarith
  rw [Finset.sum_add_distrib, Finset.sum_add_distrib, ← Finset.mul_sum, Finset.sum_const, hs, nsmul_eq_mul] at t
  rw [div_le_iff₀ w0] at cs
  have e2 := (eq_div_iff w0.ne').mp e
  have := mul_le_mul_of_nonneg_left cs (by linarith : 0 ≤ 2 * δ)
  nlinarith

theorem rms_near {y f : Nat → ℝ} {s : Finset Nat} {w : Nat} (hw : 1 ≤ w) (hs : s.card = w) {δ : ℝ} (hδ : 0 ≤ δ) (h : ∀ j ∈ s, |y j - f j| ≤ δ) : |rms y s w - rms f s w| ≤ δ := by
  have a := rms_half hw hs hδ h
  have b := rms_half hw hs hδ (y := f) (f := y) fun j hj => by rw [abs_sub_comm]; exact h j hj
  rw [abs_le]
  constructor <;> linarith

/-! ## the Ulcer index -/

/-- `np.sqrt((x**2 / window).sum())` of computed drawdowns -/
theorem ulcer_fn_near {σ : List (Double ℝ) → Double ℝ} {w d : Nat} (hσ : SumsIn σ w d) (hd : d ≤ 2 ^ 40) (hw : 1 ≤ w) (hw2 : w ≤ 2 ^ 40) {y f : Nat → ℝ} {i : Nat} (hi : w ≤ i + 1)
    (hy : ∀ j, j ≤ i → |y j - f j| ≤ 302 * eps) (hf : ∀ j, j ≤ i → |f j| ≤ 100) :
    ∃ v, Ulcer.fnBy σ w ((winIx w i).map fun j => (rk (y j) : Double ℝ)) = rk v ∧ |v - rms f (Ico (i + 1 - w) (i + 1)) w| ≤ (620 + 121 * d) * eps := by
  have he := eps_pos (K := ℝ)
  have he1 := eps_tenth (K := ℝ)
  have t0 := tiny_pos (K := ℝ)
  have w0 : (0 : ℝ) < w := by exact_mod_cast hw
  have y1 : ∀ j, j ≤ i → |y j| ≤ 100.1 := fun j hj => by
    have := abs_add_le (y j - f j) (f j)
    rw [sub_add_cancel] at this
    have := hy j hj
    have := hf j hj
    linarith
  have : ∀ j, ∃ z : ℝ, j ≤ i → ((rk (y j) *. rk (y j)) /. natF w : Double ℝ) = rk z ∧ 0 ≤ z ∧ |z - y j ^ 2 / w| ≤ 2.1 * eps * (y j ^ 2 / w + tiny) := fun j => by
    by_cases hj : j ≤ i
    · obtain ⟨z, hz⟩ := share_sq (K := ℝ) (y := y j) ((y1 j hj).trans (by norm_num)) hw hw2
      exact ⟨z, fun _ => hz⟩
    · exact ⟨0, fun h => absurd h hj⟩
  choose z hz using this
  have el : ((winIx w i).map fun j => (rk (y j) : Double ℝ)).map (fun v => (v *. v) /. natF w) = (winIx w i).map fun j => (rk (z j) : Double ℝ) := by
    rw [List.map_map]
    refine List.map_congr_left fun j hj => ?_
    rw [mem_winIx] at hj
    exact (hz j (by omega)).1
  generalize hI : Ico (i + 1 - w) (i + 1) = I
  have memI : ∀ j ∈ I, j ≤ i := fun j hj => by rw [← hI, Finset.mem_Ico] at hj; omega
  have card : I.card = w := by rw [← hI, Nat.card_Ico]; omega
  have sumI : ∀ g : Nat → ℝ, ((winIx w i).map g).sum = ∑ j ∈ I, g j := fun g => by rw [← hI, sum_winIx]; rfl
  set l := (winIx w i).map fun j => (rk (z j) : Double ℝ) with hl
  have zs : (l.map rnum).sum = ∑ j ∈ I, z j := by rw [hl, List.map_map]; exact sumI z
  have ht : heft l = ∑ j ∈ I, (z j + tiny) := by unfold heft; rw [hl, List.map_map]; exact sumI fun j => z j + tiny
  generalize hQ : ∑ j ∈ I, y j ^ 2 / w = Q
  have Q0 : 0 ≤ Q := hQ ▸ Finset.sum_nonneg fun j _ => div_nonneg (sq_nonneg _) w0.le
  have Q1 : Q ≤ 10020.01 := by
    have : ∀ j ∈ I, y j ^ 2 / w ≤ 10020.01 / w := fun j hj => by
      refine div_le_div_of_nonneg_right ?_ w0.le
      rw [← sq_abs]
      have := mul_self_le_mul_self (abs_nonneg _) (y1 j (memI j hj))
      rw [← sq, ← sq] at this
      linarith
    have := Finset.sum_le_card_nsmul _ _ _ this
    rwa [card, nsmul_eq_mul, mul_div_cancel₀ _ w0.ne', hQ] at this
  have wt0 : 0 < (w : ℝ) * tiny := mul_pos w0 t0
  have wt1 : (w : ℝ) * tiny ≤ (eps : ℝ) ^ 2 := by
    have : (w : ℝ) ≤ 2 ^ 40 := by exact_mod_cast hw2
    refine (mul_le_mul_of_nonneg_right this t0.le).trans ?_
    unfold tiny eps
    rw [show (2 : ℝ) ^ 40 = 2 ^ (40 : ℤ) by norm_cast, ← zpow_add₀ (by norm_num), ← zpow_natCast, ← zpow_mul]
    exact zpow_le_zpow_right₀ (by norm_num) (by norm_num)
  have zq : |∑ j ∈ I, z j - Q| ≤ 2.1 * eps * (Q + w * tiny) := by
    rw [← hQ, ← Finset.sum_sub_distrib]
    refine (Finset.abs_sum_le_sum_abs _ _).trans ((Finset.sum_le_sum fun j hj => (hz j (memI j hj)).2.2).trans (le_of_eq ?_))
    rw [← Finset.mul_sum, Finset.sum_add_distrib, Finset.sum_const, card, nsmul_eq_mul]
  have ht2 : heft l = ∑ j ∈ I, z j + w * tiny := by rw [ht, Finset.sum_add_distrib, Finset.sum_const, card, nsmul_eq_mul]
  generalize hμ : (w : ℝ) * tiny = μ at *
  have e1 : eps ^ 2 ≤ (1 : ℝ) := pow_le_one₀ he.le (by linarith)
  have eq0 : eps * (Q + μ) ≤ 1 / 100000 * (Q + μ) := mul_le_mul_of_nonneg_right he1 (by linarith)
  have hft : heft l ≤ 1.0001 * (Q + μ) := by
    have := (abs_le.mp zq).2
    rw [ht2]
    linarith
  have hh : (100000 : ℝ) ≤ huge := by
    unfold huge
    calc (100000 : ℝ) ≤ 2 ^ (20 : ℤ) := by norm_num
      _ ≤ 2 ^ (900 : ℤ) := zpow_le_zpow_right₀ (by norm_num) (by norm_num)
  obtain ⟨S, s1, s0, s2, -, -⟩ := AddsUp.bulk hd (hσ l (by rw [hl, List.length_map, length_winIx]; omega)) (le_refl d) (fun x hx => by
    rw [hl] at hx
    obtain ⟨j, hj, rfl⟩ := List.mem_map.mp hx
    rw [mem_winIx] at hj
    exact ⟨z j, rfl, (hz j (by omega)).2.1⟩) (hft.trans (by linarith))
  rw [zs] at s2
  have d0 : (0 : ℝ) ≤ d := Nat.cast_nonneg _
  have de := eps_win (K := ℝ) hd
  have de0 : 0 ≤ (d : ℝ) * eps := mul_nonneg d0 he.le
  have sq1 : |S - Q| ≤ (2.1 + 1.2 * d) * eps * (Q + μ) := by
    have k := abs_add_le (S - ∑ j ∈ I, z j) (∑ j ∈ I, z j - Q)
    rw [sub_add_sub_cancel] at k
    have k1 := mul_le_mul_of_nonneg_left hft de0
    have k2 := mul_nonneg de0 (by linarith : 0 ≤ Q + μ)
    linarith
  have κ1 : (2.1 + 1.2 * d) * eps ≤ (1 / 100 : ℝ) := by linarith
  have κ0 : 0 ≤ (2.1 + 1.2 * d) * (eps : ℝ) := by positivity
  have rt := sqrt_rel s0 Q0 κ0 (κ1.trans (by norm_num)) wt0.le sq1
  have rμ : Real.sqrt μ ≤ eps := by rw [Real.sqrt_le_left he.le]; exact wt1
  have rQ : Real.sqrt Q ≤ 100.1 := by rw [Real.sqrt_le_left (by norm_num)]; linarith
  have rQ0 := Real.sqrt_nonneg Q
  have rS0 := Real.sqrt_nonneg S
  have rQe : Real.sqrt Q = rms y I w := by unfold rms; rw [← hQ, Finset.sum_div]
  have rn := rms_near (y := y) (f := f) hw card (by positivity : (0 : ℝ) ≤ 302 * eps) fun j hj => hy j (memI j hj)
  rw [← rQe] at rn
  have kk := mul_le_mul_of_nonneg_left rQ κ0
  have rS : |Real.sqrt S| ≤ 102 := by
    rw [abs_of_nonneg rS0]
    have := (abs_le.mp rt).2
    have : (2.1 + 1.2 * d) * (eps : ℝ) * 100.1 ≤ 1 / 100 * 100.1 := mul_le_mul_of_nonneg_right κ1 (by norm_num)
    linarith
  have tc := thousand_le_cap (K := ℝ)
  obtain ⟨v, v1, v2⟩ := (b64_acc (K := ℝ)) (Real.sqrt S) (rS.trans (cap_ok (tiny_le_one.trans (by norm_num)) (by linarith)))
  have v3 := near_of_acc v2 rS (tiny_le_one.trans (by norm_num))
  refine ⟨v, ?_, ?_⟩
  · unfold Ulcer.fnBy
    rw [el, s1]
    show (binary64 : Rounding ℝ).rnd (Val.sqrt (Val.fin S)) = _
    rw [show Val.sqrt (Val.fin S) = .fin (Real.sqrt S) by simp [Val.sqrt, not_lt.mpr s0]]
    exact v1
  · have k1 := abs_add_le (v - Real.sqrt S) (Real.sqrt S - Real.sqrt Q)
    have k2 := abs_add_le (v - Real.sqrt Q) (Real.sqrt Q - rms f I w)
    rw [sub_add_sub_cancel] at k1 k2
    linarith

/-- the drawdown column in double precision -/
theorem drawdown_double {w n : Nat} (hw : 1 ≤ w) {c : Nat → ℝ} (hc : ∀ i, tiny ≤ c i ∧ c i ≤ huge) :
    Approx (Ulcer.drawdown (dser n c) w : Series (Double ℝ)) n 0 (drawdownPct c w) (302 * eps) := by
  obtain ⟨hM, -⟩ := extremes n c c hw hw
  refine ⟨by simp [Ulcer.drawdown, rser], fun i _ h => by omega, fun i hi _ => ?_⟩
  obtain ⟨⟨j, -, -, j3⟩, m2⟩ := wmax_spec c hw (i := i)
  have e2 : ix (rollMax w 1 (dser n c)) i = rk (wmax c w i) := hM.val i hi (by omega)
  have ci : c i ≤ wmax c w i := m2 i (le_refl _) (by omega)
  obtain ⟨y, y1, y2⟩ := drawdown_near (c := c i) (M := wmax c w i) (tiny_pos.le.trans (hc i).1) ci ((hc i).1.trans ci) (by rw [j3]; exact (hc j).2)
  refine ⟨y, ?_, y2⟩
  unfold Ulcer.drawdown
  dsimp only
  rw [ix_sdiv (by simpa [rser] using hi), ix_cmul (by simpa [rser] using hi), ix_ssub (by simpa [rser] using hi), ix_rk hi, e2, lit100k]
  exact y1

theorem drawdown_le {c : Nat → ℝ} (hc : ∀ i, 0 < c i) {w : Nat} (hw : 1 ≤ w) (j : Nat) : |drawdownPct c w j| ≤ 100 := by
  have h1 := (wmax_spec c hw).2 j (le_refl _) (by omega)
  have h2 := hc j
  have h3 : 0 < wmax c w j := by linarith
  unfold drawdownPct
  rw [abs_le]
  constructor
  · rw [le_div_iff₀ h3]; linarith
  · exact (div_nonpos_of_nonpos_of_nonneg (by linarith) h3.le).trans (by norm_num)

/-- C135: the Ulcer index in double precision, for every way of adding up in which no term is in more than `d` additions. -/
theorem ulcer_double {σ : List (Double ℝ) → Double ℝ} {w d : Nat} (hσ : SumsIn σ w d) (hd : d ≤ 2 ^ 40) (hw : 1 ≤ w) (hw2 : w ≤ 2 ^ 40) {n : Nat} {c : Nat → ℝ}
    (hc : ∀ i, tiny ≤ c i ∧ c i ≤ huge) (fillna : Bool) :
    ∃ (out : Series (Double ℝ)) (exact : Series (Val ℝ)), ulcerIndexBy σ (dser n c) w fillna = .ok out ∧ ulcerIndex (ser n c) w fillna = .ok exact ∧
      CloseTo ((620 + 121 * (d : ℝ)) * eps) out exact := by
  have c0 : ∀ i, 0 < c i := fun i => tiny_pos.trans_le (hc i).1
  have e0 : ∀ b, ulcerIndex (ser n c) w b = .ok (checkFillna b (.const (lit 0)) (rollApply (Ulcer.fn w) w w (Ulcer.drawdown (ser n c) w))) := fun b => by
    unfold ulcerIndex chkRoll
    rw [if_neg (by omega)]
    rfl
  have e1 : ulcerIndexBy σ (dser n c) w fillna
      = .ok (checkFillna fillna (.const (lit 0)) (rollApply (Ulcer.fnBy σ w) w w (Ulcer.drawdown (dser n c) w))) := by
    unfold ulcerIndexBy chkRoll
    rw [if_neg (by omega)]
    rfl
  refine ⟨_, _, e1, e0 fillna, ?_⟩
  have he := eps_pos (K := ℝ)
  refine CloseTo.const ?_ (y := 0) (z := 0) lit0 (by simp) (by rw [sub_self, abs_zero]; positivity) fillna
  have D := ulcer_formula (n := n) c0 hw (e0 false)
  refine Approx.close ?_ D
  obtain ⟨y, y1, y2, -⟩ := (drawdown_double (n := n) hw hc).split
  simp only [Nat.sub_zero, Nat.zero_add, List.drop_zero] at y1 y2
  rw [y2]
  have ln : (dser n y).length = n := by simp [rser]
  have win : ∀ i, i < n → (winIx w i).map (fun j => clean (ix (dser n y) j)) = (winIx w i).map fun j => (rk (y j) : Double ℝ) := fun i hi => by
    refine List.map_congr_left fun j hj => ?_
    rw [mem_winIx] at hj
    rw [show ix (dser n y) j = rk (y j) from ix_tab_lt (by omega)]
    rfl
  have lv : ∀ i, (valid ((winIx w i).map fun j => (rk (y j) : Double ℝ))).length = min w (i + 1) := fun i => by
    unfold valid
    rw [List.filter_eq_self.mpr (fun x hx => by obtain ⟨j, -, rfl⟩ := List.mem_map.mp hx; rfl), List.length_map, length_winIx]
  refine ⟨by simp [rollApply, roll, rser], fun i hi g => ?_, fun i hi g => ?_⟩
  · unfold rollApply
    rw [ix_roll' (by rw [ln]; exact hi), win i hi]
    unfold aggApply
    rw [lv, if_neg (by omega)]
  · obtain ⟨v, v1, v2⟩ := ulcer_fn_near hσ hd hw hw2 (i := i) (by omega) (fun j hj => y1 j (by omega)) (fun j _ => drawdown_le c0 hw j)
    refine ⟨v, ?_, v2⟩
    unfold rollApply
    rw [ix_roll' (by rw [ln]; exact hi), win i hi]
    unfold aggApply
    rw [lv, if_pos (by omega), v1]

/-- C135. With the default window and numpy's own way of adding up, the Ulcer index in double precision is within a trillionth of the exact one. -/
theorem ulcer_double_default {n : Nat} {c : Nat → ℝ} (hc : ∀ i, tiny ≤ c i ∧ c i ≤ huge) (fillna : Bool) :
    ∃ (out : Series (Double ℝ)) (exact : Series (Val ℝ)), ulcerIndexBy npSum (dser n c) 14 fillna = .ok out ∧ ulcerIndex (ser n c) 14 fillna = .ok exact ∧
      CloseTo (1 / 10 ^ 12) out exact := by
  obtain ⟨out, exact, h1, h2, h3⟩ := ulcer_double (npSum_sumsIn (s := 0) (by norm_num)) (by norm_num) (by norm_num : 1 ≤ 14) (by norm_num) (n := n) hc fillna
  refine ⟨out, exact, h1, h2, h3.1, fun i hi => (h3.2 i hi).imp id ?_⟩
  rintro ⟨y, z, y1, z1, yz⟩
  refine ⟨y, z, y1, z1, yz.trans ?_⟩
  unfold eps
  norm_num

/-- a price that halves twice: the Ulcer index over two rows is 50 on the third row, and the one of the doubles is within a trillionth of it -/
example : ∃ (out : Series (Double ℝ)) (v : ℝ), ulcerIndexBy npSum (dser 3 fun i => if i = 0 then 100 else if i = 1 then 50 else 25) 2 false = .ok out ∧
    ix out 2 = rk v ∧ |v - 50| ≤ 1 / 10 ^ 12 := by
  have big : ∀ x : ℝ, 25 ≤ x → x ≤ 100 → tiny ≤ x ∧ x ≤ huge := fun x h1 h2 =>
    ⟨tiny_le_one.trans (by linarith), h2.trans (by
      unfold huge
      calc (100 : ℝ) ≤ 2 ^ (20 : ℤ) := by norm_num
        _ ≤ 2 ^ (900 : ℤ) := zpow_le_zpow_right₀ (by norm_num) (by norm_num))⟩
  have hc : ∀ i : Nat, tiny ≤ (if i = 0 then 100 else if i = 1 then 50 else 25 : ℝ) ∧ (if i = 0 then 100 else if i = 1 then 50 else 25 : ℝ) ≤ huge := fun i =>
    big _ (by split_ifs <;> norm_num) (by split_ifs <;> norm_num)
  obtain ⟨out, exact, h1, h2, h3⟩ := ulcer_double (npSum_sumsIn (s := 0) (by norm_num)) (by norm_num) (by norm_num : 1 ≤ 2) (by norm_num) (n := 3) hc false
  have D := ulcer_formula (fun i => tiny_pos.trans_le (hc i).1) (by norm_num) h2
  have e := D.val 2 (by norm_num) (by norm_num)
  have m : ∀ j, j = 1 ∨ j = 2 → drawdownPct (fun i => if i = 0 then 100 else if i = 1 then 50 else 25 : Nat → ℝ) 2 j = -50 := by
    rintro j (rfl | rfl) <;> simp [drawdownPct, wmax, winIx, lmax, List.range'] <;> norm_num
  rcases h3.2 2 (by rw [D.len]; norm_num) with ⟨-, q⟩ | ⟨y, z, y1, z1, yz⟩
  · rw [e] at q; cases q
  · refine ⟨out, y, h1, y1, ?_⟩
    rw [e] at z1
    have z2 := Val.fin.inj z1
    rw [show Ico (2 + 1 - 2) (2 + 1) = {1, 2} from rfl, Finset.sum_pair (by norm_num), m 1 (.inl rfl), m 2 (.inr rfl),
      show (((-50 : ℝ)) ^ 2 + (-50) ^ 2) / ((2 : ℕ) : ℝ) = 50 ^ 2 by norm_num, Real.sqrt_sq (by norm_num)] at z2
    rw [z2]
    refine yz.trans ?_
    unfold eps
    norm_num

end TA
