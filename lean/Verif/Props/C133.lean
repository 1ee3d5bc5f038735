import Verif.Props.C45
import Verif.Props.C84

/-!
# C133 — the parabolic SAR in double precision

The stop of one row is computed from that of the row before (`ta/trend.py:988-1032`), so a rounding error is carried along; it is also pulled towards the extreme of the trend
by the acceleration factor, and so it does not build up.  What rounding can change is a comparison: a bar that touches the tentative stop reverses the trend or does not.
-/

set_option linter.unusedSectionVars false

namespace TA
open Finset

section psar
variable {K : Type} [Field K] [LinearOrder K] [IsStrictOrderedRing K] [FloorRing K]

/-- the stop of the next bar before it is compared with anything -/
def Sar.tent (s : Sar K) : K := if s.up then s.sar + s.af * (s.hi - s.sar) else s.sar - s.af * (s.sar - s.lo)

/-- no close call at bar `i`: the bar, and the bar two before it, are more than `E` away from the tentative stop, on the side that is compared with it -/
def SarClear (h l c : Nat → K) (step mx E : K) (i : Nat) : Prop :=
  if (sarAt h l c step mx (i - 1)).up = true then
    E < |l i - (sarAt h l c step mx (i - 1)).tent| ∧ E < |l (i - 2) - (sarAt h l c step mx (i - 1)).tent|
  else E < |h i - (sarAt h l c step mx (i - 1)).tent| ∧ E < |h (i - 2) - (sarAt h l c step mx (i - 1)).tent|

/-- steps that are not absurdly small -/
structure SarPar (step mx : K) : Prop where
  lo : 2 ^ (-20 : ℤ) ≤ step
  le : step ≤ mx
  one : mx ≤ 1

/-- the error that the stop can have -/
def sarErr (step mx M : K) : K := (8 + 7 * (mx / step)) * (eps * M) / step

/-! ## the exact recursion stays within bounds -/

structure SarOk (step mx M : K) (s : Sar K) : Prop where
  alo : step ≤ s.af
  ahi : s.af ≤ mx
  hi : |s.hi| ≤ M
  lo : |s.lo| ≤ M
  sar : |s.sar| ≤ M

theorem mix_abs {a x y M : K} (h0 : 0 ≤ a) (h1 : a ≤ 1) (hx : |x| ≤ M) (hy : |y| ≤ M) : |x + a * (y - x)| ≤ M := by
  rw [abs_le] at hx hy ⊢
  have e : x + a * (y - x) = (1 - a) * x + a * y := by ring
  have p1 := mul_le_mul_of_nonneg_left hx.1 (sub_nonneg.mpr h1)
  have p2 := mul_le_mul_of_nonneg_left hx.2 (sub_nonneg.mpr h1)
  have p3 := mul_le_mul_of_nonneg_left hy.1 h0
  have p4 := mul_le_mul_of_nonneg_left hy.2 h0
  rw [e]
  constructor <;> linarith

theorem SarPar.pos {step mx : K} (hp : SarPar step mx) : 0 < step := lt_of_lt_of_le (two_zpow_pos _) hp.lo

theorem SarOk.next {step mx M : K} (hp : SarPar step mx) {h l : Nat → K} {n : Nat} (hh : ∀ i, i < n → |h i| ≤ M) (hl : ∀ i, i < n → |l i| ≤ M) {s : Sar K} (hs : SarOk step mx M s)
    {i : Nat} (hi : i < n) : SarOk step mx M (Sar.next h l step mx i s) := by
  have s0 := hp.pos
  have a1 := hs.ahi.trans hp.one
  have a0 := s0.le.trans hs.alo
  have mm : step ≤ min (s.af + step) mx := le_min (by linarith) hp.le
  have mm' : min (s.af + step) mx ≤ mx := min_le_right _ _
  have mb : ∀ a b : K, |a| ≤ M → |b| ≤ M → |max a b| ≤ M ∧ |min a b| ≤ M := fun a b ha hb => by
    rcases le_total a b with g | g
    · rw [max_eq_right g, min_eq_left g]; exact ⟨hb, ha⟩
    · rw [max_eq_left g, min_eq_right g]; exact ⟨ha, hb⟩
  have pk : ∀ (P Q : Prop) [Decidable P] [Decidable Q] (a b c : K), |a| ≤ M → |b| ≤ M → |c| ≤ M → |if P then a else if Q then b else c| ≤ M := by
    intro P Q _ _ a b c ha hb hc
    split_ifs <;> assumption
  have af : ∀ (P : Prop) [Decidable P], step ≤ (if P then min (s.af + step) mx else s.af) ∧ (if P then min (s.af + step) mx else s.af) ≤ mx := by
    intro P _
    split_ifs
    · exact ⟨mm, mm'⟩
    · exact ⟨hs.alo, hs.ahi⟩
  unfold Sar.next
  by_cases hu : s.up = true
  · rw [if_pos hu]
    dsimp only
    by_cases h1 : l i < s.sar + s.af * (s.hi - s.sar)
    · rw [if_pos h1]; exact ⟨le_refl _, hp.le, hs.hi, hl i hi, hs.hi⟩
    · rw [if_neg h1]
      exact ⟨(af _).1, (af _).2, (mb _ _ hs.hi (hh i hi)).1, hs.lo, pk _ _ _ _ _ (hl _ (by omega)) (hl _ (by omega)) (mix_abs a0 a1 hs.sar hs.hi)⟩
  · rw [if_neg hu]
    dsimp only
    by_cases h1 : s.sar - s.af * (s.sar - s.lo) < h i
    · rw [if_pos h1]; exact ⟨le_refl _, hp.le, hh i hi, hs.lo, hs.lo⟩
    · rw [if_neg h1]
      refine ⟨(af _).1, (af _).2, hs.hi, (mb _ _ hs.lo (hl i hi)).2, pk _ _ _ _ _ (hh _ (by omega)) (hh _ (by omega)) ?_⟩
      have := mix_abs a0 a1 hs.sar hs.lo
      rwa [show s.sar + s.af * (s.lo - s.sar) = s.sar - s.af * (s.sar - s.lo) by ring] at this

theorem sarOk {step mx M : K} (hp : SarPar step mx) {h l c : Nat → K} {n : Nat} (hh : ∀ i, i < n → |h i| ≤ M) (hl : ∀ i, i < n → |l i| ≤ M) (hc : ∀ i, i < n → |c i| ≤ M) :
    ∀ {i : Nat}, i < n → SarOk step mx M (sarAt h l c step mx i)
  | 0, hi => ⟨le_refl _, hp.le, hh 0 hi, hl 0 hi, hc 0 hi⟩
  | 1, hi => ⟨le_refl _, hp.le, hh 0 (by omega), hl 0 (by omega), hc 1 hi⟩
  | i + 2, hi => (sarOk hp hh hl hc (i := i + 1) (by omega)).next hp hh hl hi

/-! ## one step with rounding -/

theorem SarPar.eps_le {step mx : K} (hp : SarPar step mx) : 8000 * eps ≤ step * step := by
  have h := mul_le_mul hp.lo hp.lo (two_zpow_pos _).le hp.pos.le
  refine le_trans ?_ h
  unfold eps
  rw [← zpow_add₀ (by norm_num)]
  have : (2 : K) ^ (-20 + -20 : ℤ) = 8192 * 2 ^ (-53 : ℤ) := by
    rw [show (8192 : K) = 2 ^ (13 : ℤ) by norm_num, ← zpow_add₀ (by norm_num)]; norm_num only
  rw [this]
  exact mul_le_mul_of_nonneg_right (by norm_num) (two_zpow_pos _).le

variable {step mx M : K} (hp : SarPar step mx) (hM : tiny ≤ M) (hM2 : M ≤ huge)

include hp in
/-- the ratio of the two steps -/
theorem SarPar.ratio : 1 ≤ mx / step ∧ 8000 * (eps * (mx / step)) ≤ 1 ∧ mx / step * step = mx := by
  have s0 := hp.pos
  have he := eps_pos (K := K)
  have e : mx / step * step = mx := by field_simp
  refine ⟨by rw [le_div_iff₀ s0, one_mul]; exact hp.le, ?_, e⟩
  have s1 : step ≤ 1 := hp.le.trans hp.one
  have h1 := hp.eps_le
  rw [show 8000 * (eps * (mx / step)) = 8000 * eps * mx / step by ring, div_le_iff₀ s0, one_mul]
  have h2 : 8000 * eps * mx ≤ 8000 * eps * 1 := mul_le_mul_of_nonneg_left hp.one (by linarith)
  have h3 : step * step ≤ 1 * step := mul_le_mul_of_nonneg_right s1 s0.le
  linarith

include hp hM in
theorem sarErr_le : 0 ≤ sarErr step mx M ∧ 100 * sarErr step mx M ≤ M ∧ sarErr step mx M * step = (8 + 7 * (mx / step)) * (eps * M) := by
  have s0 := hp.pos
  have M0 : 0 < M := tiny_pos.trans_le hM
  have he := eps_pos (K := K)
  have eM := mul_pos he M0
  obtain ⟨r1, r2, r3⟩ := hp.ratio
  have e : sarErr step mx M * step = (8 + 7 * (mx / step)) * (eps * M) := by unfold sarErr; field_simp
  refine ⟨by unfold sarErr; positivity, ?_, e⟩
  have h1 : (8 + 7 * (mx / step)) * (eps * M) ≤ 15 * (mx / step) * (eps * M) := mul_le_mul_of_nonneg_right (by linarith) eM.le
  have s1 : step ≤ 1 := hp.le.trans hp.one
  have h2 : mx / step * step ≤ 1 := by rw [r3]; exact hp.one
  have h3 : 8000 * (eps * M) ≤ step * step * M := by
    have := mul_le_mul_of_nonneg_right hp.eps_le M0.le
    linarith
  by_contra g
  rw [not_le] at g
  have h4 : M * (step * step) < 100 * sarErr step mx M * (step * step) := mul_lt_mul_of_pos_right g (mul_pos s0 s0)
  have h5 : 100 * sarErr step mx M * (step * step) ≤ 1500 * (eps * M) := by
    have := mul_le_mul_of_nonneg_right (e.le.trans h1) s0.le
    have h6 : 15 * (mx / step) * (eps * M) * step = 15 * (eps * M) * (mx / step * step) := by ring
    have h7 := mul_le_mul_of_nonneg_left h2 (show 0 ≤ 15 * (eps * M) by linarith)
    linarith
  linarith

include hp in
/-- the acceleration factor -/
theorem accel_near {α a : K} (h1 : step ≤ α) (h2 : α ≤ mx) (ha : a ≤ mx) (hd : |a - α| ≤ 3 * eps * (α / step)) :
    ∃ b : K, pyMin ((rk a : Double K) +. rk step) (rk mx) = rk b ∧ b ≤ mx ∧ |b - min (α + step) mx| ≤ 3 * eps * (min (α + step) mx / step) := by
  have s0 := hp.pos
  have he := eps_pos (K := K)
  obtain ⟨r1, r2, r3⟩ := hp.ratio
  have x1 : α / step * step = α := by field_simp
  have x0 : 0 ≤ α / step := div_nonneg (by linarith) s0.le
  have x2 : α / step ≤ mx / step := div_le_div_of_nonneg_right h2 s0.le
  obtain ⟨x, hx⟩ : ∃ x, x = α / step := ⟨_, rfl⟩
  obtain ⟨ρ, hρ⟩ : ∃ ρ, ρ = mx / step := ⟨_, rfl⟩
  rw [← hx] at hd x0 x1 x2
  rw [← hρ] at r1 r2 r3 x2
  have ex : eps * x ≤ eps * ρ := mul_le_mul_of_nonneg_left x2 he.le
  have ex0 : 0 ≤ eps * x := mul_nonneg he.le x0
  have hm := hp.one
  have hle := hp.le
  have hd' := abs_le.mp hd
  have es : 8000 * eps ≤ step := by
    have := hp.eps_le
    have : step * step ≤ step * 1 := mul_le_mul_of_nonneg_left (by linarith) s0.le
    linarith
  obtain ⟨t, t1, t2⟩ := near_add (x := a) (y := step) (B := 2.01) (by
    rw [abs_le]; constructor <;> linarith [hd'.1, hd'.2]) (by linarith [tiny_le_one (K := K)]) (by linarith [thousand_le_cap (K := K)])
  have t3 := abs_le.mp t2
  refine ⟨min t mx, ?_, min_le_right _ _, ?_⟩
  · rw [t1]
    unfold pyMin
    have lt : ((rk mx : Double K) <. rk t) = decide (mx < t) := rfl
    rw [lt]
    by_cases g : mx < t
    · rw [min_eq_right g.le]; simp [g]
    · rw [min_eq_left (not_lt.mp g)]; simp [g]
  · by_cases g : α + step ≤ mx
    · rw [min_eq_left g]
      have e1 : (α + step) / step = x + 1 := by rw [hx]; field_simp
      rw [e1]
      have n1 := abs_min_sub_min_le_max t mx (α + step) mx
      rw [min_eq_left g, sub_self, abs_zero, max_eq_left (abs_nonneg _)] at n1
      refine n1.trans ?_
      rw [abs_le]
      constructor <;> linarith [hd'.1, hd'.2, t3.1, t3.2]
    · rw [not_le] at g
      rw [min_eq_right g.le, ← hρ]
      have y1 : ρ - x ≤ 1 := by
        by_contra q
        rw [not_le] at q
        have := mul_lt_mul_of_pos_right q s0
        have : (ρ - x) * step = mx - α := by linarith
        linarith
      have y2 : 3 * eps * (1 - (ρ - x)) ≤ step * (1 - (ρ - x)) := mul_le_mul_of_nonneg_right (by linarith) (by linarith)
      have y3 : step * (1 - (ρ - x)) = step - mx + α := by linarith
      rw [y3] at y2
      rw [abs_le]
      have m1 := min_le_right t mx
      have m0 : 0 ≤ eps * ρ := by linarith
      constructor
      · rcases le_total t mx with q | q
        · rw [min_eq_left q]; linarith [hd'.1, t3.1]
        · rw [min_eq_right q]; linarith
      · linarith

include hp hM hM2 in
/-- the tentative stop; `H` is the extreme of the trend -/
theorem tent_near {α a S v H : K} (h1 : step ≤ α) (h2 : α ≤ mx) (hd : |a - α| ≤ 3 * eps * (α / step)) (hS : |S| ≤ M) (hH : |H| ≤ M) (hv : |v - S| ≤ sarErr step mx M) :
    (∃ q : K, ((rk v : Double K) +. (rk a *. (rk H -. rk v))) = rk q ∧ |q - (S + α * (H - S))| ≤ sarErr step mx M) ∧
    ∃ q : K, ((rk v : Double K) -. (rk a *. (rk v -. rk H))) = rk q ∧ |q - (S - α * (S - H))| ≤ sarErr step mx M := by
  have s0 := hp.pos
  have he := eps_pos (K := K)
  have M0 : 0 < M := tiny_pos.trans_le hM
  have hcap := huge_cap (K := K)
  have e0 : 0 < eps * M := mul_pos he M0
  have eM : eps * M ≤ M / 1000 := by
    have := mul_le_mul_of_nonneg_right (eps_small (K := K)) M0.le
    linarith
  obtain ⟨r1, r2, r3⟩ := hp.ratio
  obtain ⟨E0, E1, E2⟩ := sarErr_le hp hM
  obtain ⟨E, hE⟩ : ∃ E, E = sarErr step mx M := ⟨_, rfl⟩
  rw [← hE] at E0 E1 E2 hv ⊢
  have x2 : eps * (α / step) ≤ eps * (mx / step) := mul_le_mul_of_nonneg_left (div_le_div_of_nonneg_right h2 s0.le) he.le
  obtain ⟨ρ, hρ⟩ : ∃ ρ, ρ = mx / step := ⟨_, rfl⟩
  rw [← hρ] at r1 r2 r3 x2 E2
  have hd1 : |a - α| ≤ 3 * (eps * ρ) := hd.trans (by linarith)
  have a1 : α ≤ 1 := h2.trans hp.one
  have a0 : 0 ≤ α := s0.le.trans h1
  have ab : |a| ≤ 1.001 := by
    have := near_of_err hd1 (show |α| ≤ 1 by rw [abs_of_nonneg a0]; exact a1)
    linarith
  have vb : |v| ≤ 1.01 * M := by
    have := near_of_err hv hS; linarith
  have Hv : |H - v| ≤ 2.01 * M := by
    have := abs_sub H v; linarith
  -- the exact part
  have key : |(v + a * (H - v)) - (S + α * (H - S))| ≤ (1 - step) * E + 6.03 * ρ * (eps * M) := by
    have e : (v + a * (H - v)) - (S + α * (H - S)) = (1 - α) * (v - S) + (a - α) * (H - v) := by ring
    rw [e]
    refine (abs_add_le _ _).trans (add_le_add ?_ ?_)
    · rw [abs_mul, abs_of_nonneg (by linarith : 0 ≤ 1 - α)]
      exact mul_le_mul (by linarith) hv (abs_nonneg _) (by linarith)
    · rw [abs_mul]
      refine (mul_le_mul hd1 Hv (abs_nonneg _) ((abs_nonneg _).trans hd1)).trans (le_of_eq (by ring))
  have fin : ∀ q t2 t1 u : K, |q - (v + t2)| ≤ 3.1 * (eps * M) → |t2 - a * t1| ≤ 2.05 * (eps * M) → |t1 - u| ≤ 2.03 * (eps * M) → u = H - v → |q - (S + α * (H - S))| ≤ E := by
    intro q t2 t1 u q1 q2 q3 hu
    subst hu
    have q4 : |a * (t1 - (H - v))| ≤ 2.04 * (eps * M) := by
      rw [abs_mul]
      have := mul_le_mul ab q3 (abs_nonneg _) (by norm_num)
      linarith
    have e : q - (S + α * (H - S)) = (q - (v + t2)) + (t2 - a * t1) + a * (t1 - (H - v)) + ((v + a * (H - v)) - (S + α * (H - S))) := by ring
    rw [e]
    have b1 := abs_add_le ((q - (v + t2)) + (t2 - a * t1) + a * (t1 - (H - v))) ((v + a * (H - v)) - (S + α * (H - S)))
    have b2 := abs_add_le ((q - (v + t2)) + (t2 - a * t1)) (a * (t1 - (H - v)))
    have b3 := abs_add_le (q - (v + t2)) (t2 - a * t1)
    have : 0 ≤ ρ * (eps * M) := mul_nonneg (by linarith) e0.le
    linarith
  have prod : ∀ t1 u : K, |u| ≤ 2.01 * M → |t1 - u| ≤ 2.03 * (eps * M) → |a * t1| ≤ 2.03 * M := fun t1 u hu h => by
    have := near_of_err h hu
    rw [abs_mul]
    have := mul_le_mul ab this (abs_nonneg _) (by norm_num)
    linarith
  constructor
  · obtain ⟨t1, p1, p2⟩ := near_sub (x := H) (y := v) Hv (by linarith) (by linarith)
    have p3 : |t1 - (H - v)| ≤ 2.03 * (eps * M) := by linarith
    obtain ⟨t2, p4, p5⟩ := near_mul (x := a) (y := t1) (prod t1 _ Hv p3) (by linarith) (by linarith)
    have tb := near_of_err p5 (prod t1 _ Hv p3)
    obtain ⟨q, p6, p7⟩ := near_add (x := v) (y := t2) (B := 3.05 * M) ((abs_add_le _ _).trans (by linarith)) (by linarith) (by linarith)
    exact ⟨q, by rw [p1, p4, p6], fin q t2 t1 _ (by linarith) (by linarith) p3 rfl⟩
  · have Hv' : |v - H| ≤ 2.01 * M := by rw [abs_sub_comm]; exact Hv
    obtain ⟨t1, p1, p2⟩ := near_sub (x := v) (y := H) Hv' (by linarith) (by linarith)
    have p3 : |t1 - (v - H)| ≤ 2.03 * (eps * M) := by linarith
    obtain ⟨t2, p4, p5⟩ := near_mul (x := a) (y := t1) (prod t1 _ Hv' p3) (by linarith) (by linarith)
    have tb := near_of_err p5 (prod t1 _ Hv' p3)
    obtain ⟨q, p6, p7⟩ := near_sub (x := v) (y := t2) (B := 3.05 * M) ((abs_sub _ _).trans (by linarith)) (by linarith) (by linarith)
    refine ⟨q, by rw [p1, p4, p6], ?_⟩
    have := fin q (-t2) (-t1) _ (by rw [← sub_eq_add_neg]; linarith) (by rw [show -t2 - a * -t1 = -(t2 - a * t1) by ring, abs_neg]; linarith)
      (by rw [show -t1 - (H - v) = -(t1 - (v - H)) by ring, abs_neg]; exact p3) rfl
    rwa [show S + α * (H - S) = S - α * (S - H) by ring] at this

/-- the computed state next to the exact one -/
structure SarNear (step mx M : K) (s : Sar K) (c : PCore (Double K)) : Prop where
  up : c.upTrend = s.up
  hi : c.high = rk s.hi
  lo : c.low = rk s.lo
  af : ∃ a : K, c.af = rk a ∧ a ≤ mx ∧ |a - s.af| ≤ 3 * eps * (s.af / step)
  val : ∃ v : K, c.val = rk v ∧ |v - s.sar| ≤ sarErr step mx M

theorem same_side {x p q E : K} (h : |q - p| ≤ E) (hx : E < |x - p|) : (x < q ↔ x < p) ∧ (q < x ↔ p < x) := by
  rw [abs_le] at h
  rcases lt_abs.mp hx with g | g
  · refine ⟨⟨fun _ => ?_, fun _ => ?_⟩, ⟨fun _ => ?_, fun _ => ?_⟩⟩ <;> linarith [h.1, h.2]
  · refine ⟨⟨fun _ => ?_, fun _ => ?_⟩, ⟨fun _ => ?_, fun _ => ?_⟩⟩ <;> linarith [h.1, h.2]

include hp hM hM2 in
/-- one bar without a close call -/
theorem SarNear.next {s : Sar K} {c : PCore (Double K)} (hs : SarOk step mx M s) (hc : SarNear step mx M s c) (h l : Nat → K) {i : Nat}
    (hcl : if s.up = true then sarErr step mx M < |l i - s.tent| ∧ sarErr step mx M < |l (i - 2) - s.tent|
      else sarErr step mx M < |h i - s.tent| ∧ sarErr step mx M < |h (i - 2) - s.tent|) :
    SarNear step mx M (Sar.next h l step mx i s)
      (pcore (rk step) (rk mx) c (rk (h i)) (rk (l i)) (rk (h (i - 1))) (rk (l (i - 1))) (rk (h (i - 2))) (rk (l (i - 2)))) := by
  have s0 := hp.pos
  have he := eps_pos (K := K)
  have E0 := (sarErr_le hp hM).1
  obtain ⟨u, ca, ch, cl, cv⟩ := c
  obtain ⟨cu, chi, clo, ⟨a, rfl, a1, a2⟩, ⟨v, rfl, v1⟩⟩ := hc
  dsimp only at cu chi clo
  subst cu chi clo
  have lt : ∀ x y : K, ((rk x : Double K) <. rk y) = decide (x < y) := fun _ _ => rfl
  have af0 : ∃ a : K, (rk step : Double K) = rk a ∧ a ≤ mx ∧ |a - step| ≤ 3 * eps * (step / step) :=
    ⟨step, rfl, hp.le, by rw [sub_self, abs_zero]; positivity⟩
  obtain ⟨b, b1, b2, b3⟩ := accel_near hp hs.alo hs.ahi a1 a2
  unfold Sar.tent at hcl
  unfold pcore Sar.next
  by_cases hu : s.up = true
  · obtain ⟨q, q1, q2⟩ := (tent_near hp hM hM2 hs.alo hs.ahi a2 hs.sar hs.hi v1).1
    simp only [hu, if_true] at hcl ⊢
    rw [q1, lt]
    obtain ⟨g1, -⟩ := same_side q2 hcl.1
    obtain ⟨g2, -⟩ := same_side q2 hcl.2
    by_cases h1 : l i < s.sar + s.af * (s.hi - s.sar)
    · rw [if_pos h1, if_pos (by simpa using g1.mpr h1)]
      exact ⟨rfl, rfl, rfl, af0, ⟨s.hi, rfl, by simpa using E0⟩⟩
    · have h1' : ¬ decide (l i < q) = true := fun g => h1 (g1.mp (of_decide_eq_true g))
      rw [if_neg h1, if_neg h1']
      have val : ∃ v : K, (if (rk (l (i - 2)) : Double K) <. rk q then rk (l (i - 2)) else if (rk (l (i - 1)) : Double K) <. rk q then rk (l (i - 1)) else rk q : Double K) = rk v ∧
          |v - (if l (i - 2) < s.sar + s.af * (s.hi - s.sar) then l (i - 2) else if l (i - 1) < s.sar + s.af * (s.hi - s.sar) then l (i - 1) else s.sar + s.af * (s.hi - s.sar))|
            ≤ sarErr step mx M := by
        rw [lt, lt]
        by_cases h2 : l (i - 2) < s.sar + s.af * (s.hi - s.sar)
        · rw [if_pos h2, if_pos (by simpa using g2.mpr h2)]
          exact ⟨_, rfl, by simpa using E0⟩
        · rw [if_neg h2, if_neg (by simpa using fun h => h2 (g2.mp h))]
          have mn : ∀ x y : K, (if x < y then x else y) = min x y := fun x y => by
            by_cases g : x < y
            · rw [if_pos g, min_eq_left g.le]
            · rw [if_neg g, min_eq_right (not_lt.mp g)]
          refine ⟨min (l (i - 1)) q, ?_, ?_⟩
          · rw [← mn]; by_cases g : l (i - 1) < q <;> simp [g]
          · rw [mn]
            have := abs_min_sub_min_le_max (l (i - 1)) q (l (i - 1)) (s.sar + s.af * (s.hi - s.sar))
            rw [sub_self, abs_zero, max_eq_right (abs_nonneg _)] at this
            exact this.trans q2
      rw [lt s.hi (h i)]
      by_cases h3 : s.hi < h i
      · rw [if_pos h3, if_pos (decide_eq_true h3), max_eq_right h3.le]
        exact ⟨rfl, rfl, rfl, ⟨b, b1, b2, b3⟩, val⟩
      · rw [if_neg h3, if_neg (show ¬ decide _ = true from fun g => h3 (of_decide_eq_true g)), max_eq_left (not_lt.mp h3)]
        exact ⟨rfl, rfl, rfl, ⟨a, rfl, a1, a2⟩, val⟩
  · obtain ⟨q, q1, q2⟩ := (tent_near hp hM hM2 hs.alo hs.ahi a2 hs.sar hs.lo v1).2
    rw [Bool.not_eq_true] at hu
    simp only [hu, if_false, Bool.false_eq_true] at hcl ⊢
    rw [q1, lt]
    obtain ⟨-, g1⟩ := same_side q2 hcl.1
    obtain ⟨-, g2⟩ := same_side q2 hcl.2
    by_cases h1 : s.sar - s.af * (s.sar - s.lo) < h i
    · rw [if_pos h1, if_pos (by simpa using g1.mpr h1)]
      exact ⟨rfl, rfl, rfl, af0, ⟨s.lo, rfl, by simpa using E0⟩⟩
    · have h1' : ¬ decide (q < h i) = true := fun g => h1 (g1.mp (of_decide_eq_true g))
      rw [if_neg h1, if_neg h1']
      have val : ∃ v : K, (if (rk q : Double K) <. rk (h (i - 2)) then rk (h (i - 2)) else if (rk q : Double K) <. rk (h (i - 1)) then rk (h (i - 1)) else rk q : Double K) = rk v ∧
          |v - (if s.sar - s.af * (s.sar - s.lo) < h (i - 2) then h (i - 2) else if s.sar - s.af * (s.sar - s.lo) < h (i - 1) then h (i - 1) else s.sar - s.af * (s.sar - s.lo))|
            ≤ sarErr step mx M := by
        rw [lt, lt]
        by_cases h2 : s.sar - s.af * (s.sar - s.lo) < h (i - 2)
        · rw [if_pos h2, if_pos (by simpa using g2.mpr h2)]
          exact ⟨_, rfl, by simpa using E0⟩
        · rw [if_neg h2, if_neg (by simpa using fun h => h2 (g2.mp h))]
          have mn : ∀ x y : K, (if y < x then x else y) = max x y := fun x y => by
            by_cases g : y < x
            · rw [if_pos g, max_eq_left g.le]
            · rw [if_neg g, max_eq_right (not_lt.mp g)]
          refine ⟨max (h (i - 1)) q, ?_, ?_⟩
          · rw [← mn]; by_cases g : q < h (i - 1) <;> simp [g]
          · rw [mn]
            refine (abs_max_sub_max_le_max (h (i - 1)) q (h (i - 1)) (s.sar - s.af * (s.sar - s.lo))).trans ?_
            rw [sub_self, abs_zero]
            exact max_le E0 q2
      rw [lt (l i) s.lo]
      by_cases h3 : l i < s.lo
      · rw [if_pos h3, if_pos (decide_eq_true h3), min_eq_right h3.le]
        exact ⟨rfl, rfl, rfl, ⟨b, b1, b2, b3⟩, val⟩
      · rw [if_neg h3, if_neg (show ¬ decide _ = true from fun g => h3 (of_decide_eq_true g)), min_eq_left (not_lt.mp h3)]
        exact ⟨rfl, rfl, rfl, ⟨a, rfl, a1, a2⟩, val⟩

include hp hM hM2 in
theorem cores_near {h l c : Nat → K} {n : Nat} (hh : ∀ i, i < n → |h i| ≤ M) (hl : ∀ i, i < n → |l i| ≤ M) (hc : ∀ i, i < n → |c i| ≤ M) :
    ∀ k, k + 1 < n → (∀ j, 2 ≤ j → j ≤ k + 1 → SarClear h l c step mx (sarErr step mx M) j) →
      SarNear step mx M (sarAt h l c step mx (k + 1)) (PSAR.cores (dser n h) (dser n l) (dser n c) (rk step) (rk mx) k) := by
  have E0 := (sarErr_le hp hM).1
  have he := eps_pos (K := K)
  have s0 := hp.pos
  have ixd : ∀ (f : Nat → K) (j : Nat), j < n → ix (dser n f) j = rk (f j) := fun f j hj => ix_tab_lt hj
  intro k
  induction k with
  | zero =>
    intro hk _
    unfold PSAR.cores iter
    rw [ixd h 0 (by omega), ixd l 0 (by omega), ixd c 1 (by omega)]
    exact ⟨rfl, rfl, rfl, ⟨step, rfl, hp.le, by show |step - step| ≤ 3 * eps * (step / step); rw [sub_self, abs_zero]; positivity⟩,
      ⟨c 1, rfl, by show |c 1 - c 1| ≤ _; rw [sub_self, abs_zero]; exact E0⟩⟩
  | succ k ih =>
    intro hk hcl
    have := (ih (by omega) fun j h1 h2 => hcl j h1 (by omega))
    have nx := SarNear.next hp hM hM2 (sarOk hp hh hl hc (by omega)) this h l (i := k + 2) (hcl (k + 2) (by omega) (by omega))
    have e : PSAR.cores (dser n h) (dser n l) (dser n c) (rk step) (rk mx) (k + 1)
        = PSAR.cstep (dser n h) (dser n l) (rk step) (rk mx) (k + 2) (PSAR.cores (dser n h) (dser n l) (dser n c) (rk step) (rk mx) k) := rfl
    rw [e]
    unfold PSAR.cstep
    rw [ixd h _ (by omega), ixd l _ (by omega), ixd h _ (by omega), ixd l _ (by omega), ixd h _ (by omega), ixd l _ (by omega)]
    exact nx

/-- C133: **the parabolic SAR in double precision**. Up to the first close call the computed trend is the exact trend of the same doubles on every row, and the stop is within
`(8 + 7 max_step / step) eps M / step` of the exact one, however many rows there are. -/
theorem psar_double {step mx M : K} (h1 : 2 ^ (-20 : ℤ) ≤ step) (h2 : step ≤ mx) (h3 : mx ≤ 1) (hM : tiny ≤ M) (hM2 : M ≤ huge) {n : Nat} {h l c : Nat → K}
    (hh : ∀ i, i < n → |h i| ≤ M) (hl : ∀ i, i < n → |l i| ≤ M) (hc : ∀ i, i < n → |c i| ≤ M) {o : PSAR (Val K)} {d : PSAR (Double K)}
    (ho : PSAR.new (ser n h) (ser n l) (ser n c) .positional (.fin step) (.fin mx) = .ok o)
    (hd : PSAR.new (dser n h) (dser n l) (dser n c) .positional (rk step) (rk mx) = .ok d) {i : Nat} (hi : i < n)
    (hcl : ∀ j, 2 ≤ j → j ≤ i → SarClear h l c step mx ((8 + 7 * (mx / step)) * (eps * M) / step) j) :
    ∃ y z : K, ix d.psar i = rk y ∧ ix o.psar i = .fin z ∧ |y - z| ≤ (8 + 7 * (mx / step)) * (eps * M) / step ∧
      ((ix d.psarUp i = rk y ∧ ix o.psarUp i = .fin z) ∨ (ix d.psarUp i = nan ∧ ix o.psarUp i = .nan)) ∧
      ((ix d.psarDown i = rk y ∧ ix o.psarDown i = .fin z) ∨ (ix d.psarDown i = nan ∧ ix o.psarDown i = .nan)) := by
  have hp : SarPar step mx := ⟨h1, h2, h3⟩
  have ln : (dser n c).length = n := by simp [rser]
  have ixd : ∀ (f : Nat → K) (j : Nat), j < n → ix (dser n f) j = rk (f j) := fun f j hj => ix_tab_lt hj
  have E0 := (sarErr_le hp hM).1
  obtain ⟨p1, ⟨-, p2⟩, ⟨-, p3⟩⟩ := psar_rows ho
  rw [PSAR.new_eq _ _ _ _ _ _ (by rw [ln]; omega)] at hd
  have e := Except.ok.inj hd
  subst e
  have q1 : ix (tab (dser n c).length fun i => if i < 2 then ix (dser n c) i else (PSAR.cores (dser n h) (dser n l) (dser n c) (rk step) (rk mx) (i - 1)).val) i
      = if i < 2 then ix (dser n c) i else (PSAR.cores (dser n h) (dser n l) (dser n c) (rk step) (rk mx) (i - 1)).val := ix_tab_lt (by rw [ln]; exact hi)
  have q2 := fun b : Bool => ix_tab_lt (n := (dser n c).length) (i := i) (f := fun i => if 2 ≤ i ∧ (PSAR.cores (dser n h) (dser n l) (dser n c) (rk step) (rk mx) (i - 1)).upTrend = b
    then (PSAR.cores (dser n h) (dser n l) (dser n c) (rk step) (rk mx) (i - 1)).val else (nan : Double K)) (by rw [ln]; exact hi)
  by_cases g : i < 2
  · refine ⟨c i, c i, ?_, ?_, ?_, .inr ⟨?_, ?_⟩, .inr ⟨?_, ?_⟩⟩
    · refine Eq.trans q1 ?_
      rw [if_pos g, ixd c i hi]
    · rw [p1.val i hi (by omega)]
      obtain rfl | rfl : i = 0 ∨ i = 1 := by omega
      all_goals rfl
    · rw [sub_self, abs_zero]; exact E0
    · refine Eq.trans (q2 true) ?_
      rw [if_neg (by omega)]
    · rw [p2 i hi, if_neg (by omega)]
    · refine Eq.trans (q2 false) ?_
      rw [if_neg (by omega)]
    · rw [p3 i hi, if_neg (by omega)]
  · obtain ⟨k, rfl⟩ : ∃ k, i = k + 1 := ⟨i - 1, by omega⟩
    obtain ⟨nu, -, -, -, ⟨v, v1, v2⟩⟩ := cores_near hp hM hM2 hh hl hc k hi hcl
    rw [show k + 1 - 1 = k by omega] at q1 q2
    simp only [nu, v1] at q1 q2
    refine ⟨v, _, ?_, p1.val _ hi (by omega), v2, ?_, ?_⟩
    · refine Eq.trans q1 ?_
      rw [if_neg g]
    · by_cases q : (sarAt h l c step mx (k + 1)).up = true
      · refine .inl ⟨Eq.trans (q2 true) ?_, ?_⟩
        · rw [if_pos ⟨by omega, q⟩]
        · rw [p2 _ hi, if_pos ⟨by omega, q⟩]
      · refine .inr ⟨Eq.trans (q2 true) ?_, ?_⟩
        · rw [if_neg fun w => q w.2]
        · rw [p2 _ hi, if_neg fun w => q w.2]
    · by_cases q : (sarAt h l c step mx (k + 1)).up = false
      · refine .inl ⟨Eq.trans (q2 false) ?_, ?_⟩
        · rw [if_pos ⟨by omega, q⟩]
        · rw [p3 _ hi, if_pos ⟨by omega, q⟩]
      · refine .inr ⟨Eq.trans (q2 false) ?_, ?_⟩
        · rw [if_neg fun w => q w.2]
        · rw [p3 _ hi, if_neg fun w => q w.2]

end psar

/-- the double nearest to 0.02, as a fraction; it is a little more than 1/50 -/
def step64 : ℚ := 5764607523034235 / 288230376151711744

/-- the double nearest to 0.2 -/
def max64 : ℚ := 3602879701896397 / 18014398509481984

/-- three bars, the last of which just touches the tentative stop -/
def touchH : Nat → ℚ := fun i => if i = 0 then 125 else 110
def touchL : Nat → ℚ := fun i => if i = 2 then 201 / 2 else 90
def touchC : Nat → ℚ := fun i => if i = 2 then 105 else 100

/-- C133. **A close call**: with the default steps, on three bars of which the third has its low at 100.5, the tentative stop `100 + 0.02 * 25` is 100.5 in double precision and
a little more without rounding. Computed, the trend goes on with its stop at 90; without rounding it is reversed and the stop is at 125. -/
theorem psar_close_call :
    ((PSAR.new (dser 3 touchH) (dser 3 touchL) (dser 3 touchC) .positional (rk step64) (rk max64) : Except PyErr (PSAR (Double ℚ))).toOption.map fun d => (d.psarUp, d.psarDown))
      = some ([nan, nan, rk 90], [nan, nan, nan]) ∧
    ((PSAR.new (ser 3 touchH) (ser 3 touchL) (ser 3 touchC) .positional (.fin step64) (.fin max64)).toOption.map fun o => (o.psarUp, o.psarDown))
      = some ([.nan, .nan, .nan], [.nan, .nan, .fin 125]) := by
  constructor <;> decide +kernel

/-- those are the doubles that Python's `0.02` and `0.2` stand for -/
example : (lit (1 / 50) : Double ℚ) = rk step64 ∧ (lit (1 / 5) : Double ℚ) = rk max64 := by constructor <;> decide +kernel

/-- without a close call: the same bars with the third low at 101 are clear of the stop by more than 10^-12, the bound for prices up to 125 and the default steps -/
example : SarClear touchH (fun i => if i = 2 then 101 else 90) touchC step64 max64 ((8 + 7 * (max64 / step64)) * (eps * 125) / step64) 2 := by
  unfold SarClear
  rw [if_pos (by decide +kernel)]
  constructor <;> decide +kernel

end TA
