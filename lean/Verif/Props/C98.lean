import Verif.Props.C72
import Verif.Props.C80
import Verif.Props.C49
import Verif.Props.C13

/-!
# C98 — Rolling sums and means in double precision, as pandas computes them

pandas moves one accumulator along the column, adding the row that enters and subtracting the one that leaves, each with a compensation
(`Base/Online.lean`).  In double precision an error once made stays in the accumulator.  It grows at most in proportion to the number of rows: the
mean of row `i` is within `85 (i + 1) 2^-53` times the largest value of the exact one.  On whole numbers (volumes) whose window sums stay below `2^52`
nothing is lost at all.
-/

set_option linter.unusedSectionVars false

namespace TA
open Finset

/-! ## one step of the window -/

section any
variable {F : Type} [Flt F] {S : Type}

theorem over_self (f : S → F → S) (s : List F) (a : Nat) (st : S) : over f s a a st = st := by
  unfold over slice
  rw [List.drop_eq_nil_of_le (by simp)]; rfl

theorem over_one (f : S → F → S) (s : List F) {a : Nat} (h : a < s.length) (st : S) : over f s a (a + 1) st = f st (ix s a) := by
  unfold over slice
  have e : (s.take (a + 1)).drop a = [ix s a] := by
    rw [List.take_add_one, List.drop_append_of_le_length (by simp; omega), List.drop_eq_nil_of_le (by simp), List.getElem?_eq_getElem h]
    simp [ix, List.getElem?_eq_getElem h]
  rw [e]; rfl

theorem online_zero (add rem : S → F → S) (init : S) {w : Nat} (hw : 1 ≤ w) {s : List F} (h : 0 < s.length) :
    online .removeFirst add rem init w s 0 = add init (ix s 0) := by
  show over add s (winStart w 0) (winEnd 0) init = _
  rw [show winStart w 0 = 0 by unfold winStart; omega]
  exact over_one add s h init

theorem online_succ (add rem : S → F → S) (init : S) {w : Nat} (hw : 1 ≤ w) {s : List F} {i : Nat} (h : i + 1 < s.length) :
    online .removeFirst add rem init w s (i + 1)
      = add (if w ≤ i + 1 then rem (online .removeFirst add rem init w s i) (ix s (i + 1 - w)) else online .removeFirst add rem init w s i) (ix s (i + 1)) := by
  show over add s (winEnd i) (winEnd (i + 1)) (over rem s (winStart w i) (winStart w (i + 1)) (online .removeFirst add rem init w s i)) = _
  generalize online .removeFirst add rem init w s i = st
  have e1 : ∀ st, over add s (winEnd i) (winEnd (i + 1)) st = add st (ix s (i + 1)) := fun st => over_one add s h st
  rw [e1]
  congr 1
  split_ifs with g
  · rw [show winStart w (i + 1) = winStart w i + 1 by unfold winStart; omega, over_one rem s (by unfold winStart; omega)]
    rfl
  · rw [show winStart w (i + 1) = winStart w i by unfold winStart; omega, over_self]

end any

/-! ## compensated addition under rounding -/

section err
variable {K : Type} [Field K] [LinearOrder K] [IsStrictOrderedRing K] {R : Rounding K}

theorem rk_sub {u η Ω : K} (acc : R.Acc u η Ω) {x y : K} (h : |x - y| ≤ Ω) : ∃ z, (rk x -. rk y : Rval R) = rk z ∧ |z - (x - y)| ≤ u * |x - y| + η := by
  obtain ⟨z, h1, -, h2⟩ := acc_sub acc h
  exact ⟨z, h1, h2⟩

/-- one compensated addition: what is added and what is carried -/
theorem kahan_step {u η Ω B : K} (acc : R.Acc u η Ω) (hu : 0 < u) (hu1 : u ≤ 1 / 1000) (hB : 0 ≤ B) (hη : η ≤ u * B / 1000) (hη0 : 0 ≤ η) (hΩ : 2 * B ≤ Ω)
    {s x c : K} (hc : |c| ≤ 3 * (u * B)) (hsx : |s| + |x| ≤ B / 2) :
    ∃ y t c', (rk x -. rk c : Rval R) = rk y ∧ (rk s +. rk y : Rval R) = rk t ∧ ((rk t -. rk s) -. rk y : Rval R) = rk c' ∧
      |t - (s + x)| ≤ 5 * (u * B) ∧ |c'| ≤ 3 * (u * B) := by
  have uB : 0 ≤ u * B := mul_nonneg hu.le hB
  have uB1 : u * B ≤ B / 1000 := by nlinarith
  have uuB : u * (u * B) ≤ u * B / 1000 := by nlinarith
  have s0 := abs_nonneg s
  have x0 := abs_nonneg x
  have lip : ∀ {a b : K}, a ≤ b → u * a ≤ u * b := fun h => mul_le_mul_of_nonneg_left h hu.le
  -- y
  have xc : |x - c| ≤ |x| + 3 * (u * B) := (abs_sub _ _).trans (by linarith)
  obtain ⟨y, hy, ey⟩ := rk_sub acc (x := x) (y := c) (xc.trans (by linarith))
  have ey1 : |y - (x - c)| ≤ 0.6 * (u * B) := by
    have := lip (xc.trans (by linarith : _ ≤ B / 2 + 3 * (u * B)))
    nlinarith
  have yx : |y - x| ≤ 3.6 * (u * B) := by
    have := abs_add_le (y - (x - c)) (-c)
    rw [show y - (x - c) + -c = y - x by ring, abs_neg] at this
    linarith
  have ay : |y| ≤ |x| + 3.6 * (u * B) := by
    have := abs_add_le (y - x) x
    rw [sub_add_cancel] at this
    linarith
  -- t
  have sy : |s + y| ≤ B := (abs_add_le _ _).trans (by linarith)
  obtain ⟨t, ht, et⟩ := acc_add acc (sy.trans (by linarith))
  have et1 : |t - (s + y)| ≤ 1.001 * (u * B) := by
    have := lip sy
    linarith
  -- t - s
  have ts : |t - s| ≤ B := by
    have := abs_add_le (t - (s + y)) y
    rw [show t - (s + y) + y = t - s by ring] at this
    linarith
  obtain ⟨z, hz, ez⟩ := rk_sub acc (x := t) (y := s) (ts.trans (by linarith))
  have ez1 : |z - (t - s)| ≤ 1.001 * (u * B) := by
    have := lip ts
    linarith
  have zy : |z - y| ≤ 2.002 * (u * B) := by
    have := abs_add_le (z - (t - s)) (t - (s + y))
    rw [show z - (t - s) + (t - (s + y)) = z - y by ring] at this
    linarith
  obtain ⟨c', hc', ec'⟩ := rk_sub acc (x := z) (y := y) (zy.trans (by linarith))
  refine ⟨y, t, c', hy, ht, by rw [hz, hc'], ?_, ?_⟩
  · have := abs_add_le (t - (s + y)) (y - x)
    rw [show t - (s + y) + (y - x) = t - (s + x) by ring] at this
    linarith
  · have := lip zy
    have := abs_add_le (c' - (z - y)) (z - y)
    rw [sub_add_cancel] at this
    nlinarith

theorem SumSt.add_err {u η Ω B : K} (acc : R.Acc u η Ω) (hu : 0 < u) (hu1 : u ≤ 1 / 1000) (hB : 0 ≤ B) (hη : η ≤ u * B / 1000) (hη0 : 0 ≤ η) (hΩ : 2 * B ≤ Ω)
    {s x ca cr : K} {m k : Int} (hc : |ca| ≤ 3 * (u * B)) (hsx : |s| + |x| ≤ B / 2) :
    ∃ t c', SumSt.add (⟨rk s, rk ca, rk cr, m, k⟩ : SumSt (Rval R)) (rk x) = ⟨rk t, rk c', rk cr, m + 1, if x < 0 then k + 1 else k⟩ ∧
      |t - (s + x)| ≤ 5 * (u * B) ∧ |c'| ≤ 3 * (u * B) := by
  obtain ⟨y, t, c', h1, h2, h3, h4, h5⟩ := kahan_step acc hu hu1 hB hη hη0 hΩ hc hsx
  refine ⟨t, c', ?_, h4, h5⟩
  unfold SumSt.add
  rw [if_neg (show ¬ Flt.isNaN (rk x : Rval R) = true by simp [show Flt.isNaN (rk x : Rval R) = false from rfl])]
  dsimp only
  rw [h1, h2, h3]
  congr 1
  have e : ((rk x : Rval R) <. lit 0) = decide (x < 0) := by
    rw [show (lit 0 : Rval R) = rk 0 from lit0]; rfl
  rw [e]
  simp

theorem SumSt.rem_err {u η Ω B : K} (acc : R.Acc u η Ω) (hu : 0 < u) (hu1 : u ≤ 1 / 1000) (hB : 0 ≤ B) (hη : η ≤ u * B / 1000) (hη0 : 0 ≤ η) (hΩ : 2 * B ≤ Ω)
    {s x ca cr : K} {m k : Int} (hc : |cr| ≤ 3 * (u * B)) (hsx : |s| + |x| ≤ B / 2) :
    ∃ t c', SumSt.rem (⟨rk s, rk ca, rk cr, m, k⟩ : SumSt (Rval R)) (rk x) = ⟨rk t, rk ca, rk c', m - 1, if x < 0 then k - 1 else k⟩ ∧
      |t - (s - x)| ≤ 5 * (u * B) ∧ |c'| ≤ 3 * (u * B) := by
  obtain ⟨y, t, c', h1, h2, h3, h4, h5⟩ := kahan_step acc hu hu1 hB hη hη0 hΩ (s := s) (x := -x) hc (by rwa [abs_neg])
  refine ⟨t, c', ?_, by rwa [← sub_eq_add_neg] at h4, h5⟩
  unfold SumSt.rem
  rw [if_neg (show ¬ Flt.isNaN (rk x : Rval R) = true by simp [show Flt.isNaN (rk x : Rval R) = false from rfl])]
  dsimp only
  rw [show Flt.neg (rk x : Rval R) = rk (-x) from rfl, h1, h2, h3]
  congr 1
  have e : ((rk x : Rval R) <. lit 0) = decide (x < 0) := by
    rw [show (lit 0 : Rval R) = rk 0 from lit0]; rfl
  rw [e]
  simp

/-- how many of the rows in the window are negative -/
def wneg (x : Nat → K) (w i : Nat) : Int := ∑ j ∈ Ico (i + 1 - w) (i + 1), if x j < 0 then 1 else 0

/-- moving a window sum on by one row -/
theorem sum_window {G : Type} [AddCommGroup G] (x : Nat → G) {w i : Nat} (hw : 1 ≤ w) : ∑ j ∈ Ico (i + 1 + 1 - w) (i + 1 + 1), x j
    = (if w ≤ i + 1 then ∑ j ∈ Ico (i + 1 - w) (i + 1), x j - x (i + 1 - w) else ∑ j ∈ Ico (i + 1 - w) (i + 1), x j) + x (i + 1) := by
  split_ifs with g
  · rw [Finset.sum_Ico_succ_top (by omega), show i + 1 + 1 - w = i + 1 - w + 1 by omega, Finset.sum_eq_sum_Ico_succ_bot (by omega : i + 1 - w < i + 1), add_sub_cancel_left]
  · rw [show i + 1 + 1 - w = 0 by omega, show i + 1 - w = 0 by omega, Finset.sum_Ico_succ_top (by omega)]

theorem abs_window {G : Type} [CommRing G] [LinearOrder G] [IsStrictOrderedRing G] {x : Nat → G} {M : G} {n w a b : Nat} (hx : ∀ j, j < n → |x j| ≤ M)
    (hi : b ≤ n) (hM : 0 ≤ M) (hab : b - a ≤ w) : |∑ j ∈ Ico a b, x j| ≤ w * M := by
  refine (Finset.abs_sum_le_sum_abs _ _).trans ?_
  refine (Finset.sum_le_card_nsmul _ _ M fun j hj => hx j (by rw [mem_Ico] at hj; omega)).trans ?_
  rw [Nat.card_Ico, nsmul_eq_mul]
  exact mul_le_mul_of_nonneg_right (by exact_mod_cast hab) hM

/-- **The accumulator** after row `i`. -/
theorem SumSt.online_err {u η Ω M : K} (acc : R.Acc u η Ω) (hu : 0 < u) (hu1 : u ≤ 1 / 1000) (hM : 0 < M) (hη : η ≤ u * M / 1000) (hη0 : 0 ≤ η)
    {w n : Nat} (hw : 1 ≤ w) (hΩ : 16 * (n * M) ≤ Ω) (hn : 100 * (u * n) ≤ 1) {x : Nat → K} (hx : ∀ j, j < n → |x j| ≤ M) {i : Nat} (hi : i < n) :
    ∃ s ca cr : K, online .removeFirst SumSt.add SumSt.rem SumSt.init w (rser (R := R) n x) i = ⟨rk s, rk ca, rk cr, (min w (i + 1) : ℕ), wneg x w i⟩ ∧
      |s - ∑ j ∈ Ico (i + 1 - w) (i + 1), x j| ≤ 80 * (i + 1) * (u * ((min w (i + 1) : ℕ) * M)) ∧
      |ca| ≤ 24 * (u * ((min w (i + 1) : ℕ) * M)) ∧ |cr| ≤ 24 * (u * ((min w (i + 1) : ℕ) * M)) := by
  have uM : 0 < u * M := mul_pos hu hM
  have len : (rser (R := R) n x).length = n := by simp [rser]
  have val : ∀ j, j < n → ix (rser (R := R) n x) j = rk (x j) := fun j hj => ix_tab_lt hj
  induction i with
  | zero =>
    rw [online_zero _ _ _ hw (by rw [len]; exact hi), val 0 hi, show min w (0 + 1) = 1 by omega]
    have h0 : (SumSt.init : SumSt (Rval R)) = ⟨rk 0, rk 0, rk 0, 0, 0⟩ := by unfold SumSt.init; rw [show (lit 0 : Rval R) = rk 0 from lit0]
    have n1 : (1 : K) ≤ n := by exact_mod_cast (by omega : 1 ≤ n)
    obtain ⟨t, c', h1, h2, h3⟩ := SumSt.add_err acc hu hu1 (B := 8 * M) (by linarith) (by linarith) hη0 (by nlinarith) (s := 0) (x := x 0) (ca := 0) (cr := 0)
      (m := 0) (k := 0) (by rw [abs_zero]; linarith) (by rw [abs_zero]; linarith [hx 0 hi])
    refine ⟨t, c', 0, ?_, ?_, ?_, ?_⟩
    · rw [h0, h1]
      unfold wneg
      rw [show 0 + 1 - w = 0 by omega, Nat.Ico_succ_singleton, sum_singleton]
      simp
    · rw [show 0 + 1 - w = 0 by omega]
      simp only [zero_add, Nat.Ico_succ_singleton, sum_singleton] at h2 ⊢
      push_cast
      linarith
    · push_cast; linarith
    · rw [abs_zero]; push_cast; linarith
  | succ i ih =>
    obtain ⟨s, ca, cr, h1, h2, h3, h4⟩ := ih (by omega)
    rw [online_succ _ _ _ hw (by rw [len]; exact hi), h1, val _ hi]
    set m : ℕ := min w (i + 1) with hm
    set m' : ℕ := min w (i + 1 + 1) with hm'
    have mm : (m : K) ≤ m' := by exact_mod_cast (by omega : m ≤ m')
    have m1 : (1 : K) ≤ m := by exact_mod_cast (by omega : 1 ≤ m)
    have mn : (m' : K) ≤ n := by exact_mod_cast (by omega : m' ≤ n)
    have i0 : (0 : K) ≤ i := Nat.cast_nonneg i
    have iN : (i : K) + 1 + 1 ≤ n := by exact_mod_cast hi
    have P : m * M ≤ m' * M := mul_le_mul_of_nonneg_right mm hM.le
    have P1 : M ≤ m * M := by nlinarith
    have P2 : m' * M ≤ n * M := mul_le_mul_of_nonneg_right mn hM.le
    have U : u * (m * M) ≤ u * (m' * M) := mul_le_mul_of_nonneg_left P hu.le
    have U0 : 0 ≤ u * (m * M) := by positivity
    have UM : u * M ≤ u * (m' * M) := mul_le_mul_of_nonneg_left (P1.trans P) hu.le
    -- the accumulated error is small
    have E1 : 80 * ((i : K) + 1) * (u * (m * M)) ≤ m' * M := by
      have a1 : 80 * ((i : K) + 1) * (u * (m * M)) ≤ 100 * n * (u * (m' * M)) :=
        mul_le_mul (by linarith) U U0 (by linarith)
      have a2 : 100 * n * (u * (m' * M)) = 100 * (u * n) * (m' * M) := by ring
      have a3 : 100 * (u * n) * (m' * M) ≤ 1 * (m' * M) := mul_le_mul_of_nonneg_right hn (by linarith)
      linarith
    have S1 : |s| ≤ 2 * (m' * M) := by
      have := abs_add_le (s - ∑ j ∈ Ico (i + 1 - w) (i + 1), x j) (∑ j ∈ Ico (i + 1 - w) (i + 1), x j)
      rw [sub_add_cancel] at this
      have := abs_window (w := m) (a := i + 1 - w) (b := i + 1) hx (by omega) hM.le (by omega)
      linarith
    set B : K := 8 * (m' * M) with hB
    have uB : u * B = 8 * (u * (m' * M)) := by rw [hB]; ring
    have B0 : 0 ≤ B := by rw [hB]; linarith
    have ηB : η ≤ u * B / 1000 := by rw [uB]; linarith
    have ΩB : 2 * B ≤ Ω := by rw [hB]; linarith
    -- after the removal
    obtain ⟨s', cr', e', q1, q2, q3⟩ : ∃ s' cr', (if w ≤ i + 1 then SumSt.rem (⟨rk s, rk ca, rk cr, (m : ℕ), wneg x w i⟩ : SumSt (Rval R)) (ix (rser (R := R) n x) (i + 1 - w))
        else ⟨rk s, rk ca, rk cr, (m : ℕ), wneg x w i⟩) = ⟨rk s', rk ca, rk cr', (m' : ℤ) - 1, wneg x w (i + 1) - if x (i + 1) < 0 then 1 else 0⟩ ∧
        |s' - (∑ j ∈ Ico (i + 1 + 1 - w) (i + 1 + 1), x j - x (i + 1))| ≤ 80 * ((i : K) + 1) * (u * (m * M)) + 5 * (u * B) ∧ |cr'| ≤ 3 * (u * B) ∧
        |s'| + |x (i + 1)| ≤ B / 2 := by
      have W : |∑ j ∈ Ico (i + 1 + 1 - w) (i + 1 + 1), x j - x (i + 1)| ≤ m' * M - M := by
        rw [Finset.sum_Ico_succ_top (by omega), add_sub_cancel_right]
        have := abs_window (w := m' - 1) (a := i + 1 + 1 - w) (b := i + 1) hx (by omega) hM.le (by omega)
        rw [Nat.cast_sub (by omega)] at this
        refine this.trans (le_of_eq ?_)
        push_cast; ring
      have fin : ∀ s' : K, |s' - (∑ j ∈ Ico (i + 1 + 1 - w) (i + 1 + 1), x j - x (i + 1))| ≤ 80 * ((i : K) + 1) * (u * (m * M)) + 5 * (u * B) → |s'| + |x (i + 1)| ≤ B / 2 := by
        intro s' h
        have := abs_add_le (s' - (∑ j ∈ Ico (i + 1 + 1 - w) (i + 1 + 1), x j - x (i + 1))) (∑ j ∈ Ico (i + 1 + 1 - w) (i + 1 + 1), x j - x (i + 1))
        rw [sub_add_cancel] at this
        have := hx (i + 1) hi
        have : 5 * (u * B) ≤ B / 8 := by nlinarith
        rw [hB] at *
        linarith
      have ng := sum_window (fun j => if x j < 0 then (1 : ℤ) else 0) (w := w) (i := i) hw
      have sw := sum_window x (w := w) (i := i) hw
      by_cases g : w ≤ i + 1
      · rw [if_pos g] at ng sw ⊢
        rw [val _ (by omega)]
        obtain ⟨t, c', r1, r2, r3⟩ := SumSt.rem_err (R := R) acc hu hu1 B0 ηB hη0 ΩB (s := s) (x := x (i + 1 - w)) (ca := ca) (cr := cr) (m := (m : ℕ)) (k := wneg x w i)
          (by rw [uB]; linarith) (by have := hx (i + 1 - w) (by omega); rw [hB]; linarith)
        have key : |t - (∑ j ∈ Ico (i + 1 + 1 - w) (i + 1 + 1), x j - x (i + 1))| ≤ 80 * ((i : K) + 1) * (u * (m * M)) + 5 * (u * B) := by
          rw [sw, add_sub_cancel_right]
          have := abs_add_le (t - (s - x (i + 1 - w))) (s - ∑ j ∈ Ico (i + 1 - w) (i + 1), x j)
          rw [show t - (s - x (i + 1 - w)) + (s - ∑ j ∈ Ico (i + 1 - w) (i + 1), x j) = t - (∑ j ∈ Ico (i + 1 - w) (i + 1), x j - x (i + 1 - w)) by ring] at this
          linarith
        refine ⟨t, c', ?_, key, r3, fin t key⟩
        rw [r1]
        congr 1
        · omega
        · unfold wneg
          rw [ng]
          split_ifs <;> omega
      · rw [if_neg g] at ng sw ⊢
        have key : |s - (∑ j ∈ Ico (i + 1 + 1 - w) (i + 1 + 1), x j - x (i + 1))| ≤ 80 * ((i : K) + 1) * (u * (m * M)) + 5 * (u * B) := by
          rw [sw, add_sub_cancel_right]
          have : 0 ≤ u * B := mul_nonneg hu.le B0
          linarith
        refine ⟨s, cr, ?_, key, by rw [uB]; linarith, fin s key⟩
        congr 1
        · omega
        · unfold wneg
          rw [ng]
          omega
    rw [e']
    obtain ⟨t, c', r1, r2, r3⟩ := SumSt.add_err (R := R) acc hu hu1 B0 ηB hη0 ΩB (s := s') (x := x (i + 1)) (ca := ca) (cr := cr') (m := (m' : ℤ) - 1)
      (k := wneg x w (i + 1) - if x (i + 1) < 0 then 1 else 0) (by rw [uB]; linarith) q3
    refine ⟨t, c', cr', ?_, ?_, by rw [uB] at r3; linarith, by rw [uB] at q2; linarith⟩
    · rw [r1]
      congr 1
      · omega
      · split_ifs <;> omega
    · have := abs_add_le (t - (s' + x (i + 1))) (s' - (∑ j ∈ Ico (i + 1 + 1 - w) (i + 1 + 1), x j - x (i + 1)))
      rw [show t - (s' + x (i + 1)) + (s' - (∑ j ∈ Ico (i + 1 + 1 - w) (i + 1 + 1), x j - x (i + 1))) = t - ∑ j ∈ Ico (i + 1 + 1 - w) (i + 1 + 1), x j by ring] at this
      rw [uB] at r2 q1
      have U2 : 80 * ((i : K) + 1) * (u * (m * M)) ≤ 80 * ((i : K) + 1) * (u * (m' * M)) := mul_le_mul_of_nonneg_left U (by linarith)
      push_cast
      linarith

/-- clipping at the sign of the exact mean only helps -/
theorem clip_le {r q ε : K} (h : |r - q| ≤ ε) : (0 ≤ q → r < 0 → |0 - q| ≤ ε) ∧ (q ≤ 0 → 0 < r → |0 - q| ≤ ε) := by
  rw [abs_le] at h
  refine ⟨fun h0 h1 => ?_, fun h0 h1 => ?_⟩ <;> rw [abs_le] <;> constructor <;> linarith

theorem wneg_zero {x : Nat → K} {w i : Nat} (h : wneg x w i = 0) : 0 ≤ ∑ j ∈ Ico (i + 1 - w) (i + 1), x j := by
  unfold wneg at h
  rw [Finset.sum_eq_zero_iff_of_nonneg (fun j _ => by split_ifs <;> norm_num)] at h
  refine Finset.sum_nonneg fun j hj => not_lt.mp fun g => ?_
  have := h j hj
  rw [if_pos g] at this
  exact absurd this (by norm_num)

theorem wneg_all {x : Nat → K} {w i : Nat} (h : wneg x w i = (min w (i + 1) : ℕ)) : ∑ j ∈ Ico (i + 1 - w) (i + 1), x j ≤ 0 := by
  unfold wneg at h
  have c : ∑ j ∈ Ico (i + 1 - w) (i + 1), (1 : ℤ) = (min w (i + 1) : ℕ) := by simp; omega
  have h0 : ∑ j ∈ Ico (i + 1 - w) (i + 1), ((1 : ℤ) - if x j < 0 then 1 else 0) = 0 := by rw [Finset.sum_sub_distrib, c, h, sub_self]
  rw [Finset.sum_eq_zero_iff_of_nonneg (fun j _ => by split_ifs <;> norm_num)] at h0
  refine Finset.sum_nonpos fun j hj => le_of_lt (by
    by_contra g
    have := h0 j hj
    rw [if_neg g] at this
    exact absurd this (by norm_num))

/-- the mean read off an accumulator -/
theorem SumSt.calcMean_err {u η Ω M E : K} (acc : R.Acc u η Ω) (hΩ : 2 * M ≤ Ω) (hu : 0 < u) {mp : Nat}
    {w i : Nat} (hw : 1 ≤ w) {x : Nat → K} (hT : |wmean x w i| ≤ M) (lm : R.rd (((min w (i + 1) : ℕ) : ℤ) : K) = .fin ((min w (i + 1) : ℕ) : K))
    {s : K} {ca cr : Rval R} (hE : E ≤ M) (h : |s - ∑ j ∈ Ico (i + 1 - w) (i + 1), x j| ≤ (min w (i + 1) : ℕ) * E) (hm : mp ≤ min w (i + 1)) :
    ∃ y, SumSt.calcMean mp (⟨rk s, ca, cr, (min w (i + 1) : ℕ), wneg x w i⟩ : SumSt (Rval R)) = rk y ∧ |y - wmean x w i| ≤ E + u * (2 * M) + η := by
  have m0 : (0 : K) < (min w (i + 1) : ℕ) := by exact_mod_cast (by omega : 0 < min w (i + 1))
  have d : |s / (min w (i + 1) : ℕ) - wmean x w i| ≤ E := by
    unfold wmean
    rw [← sub_div, abs_div, abs_of_pos m0, div_le_iff₀ m0]
    linarith
  have a : |s / (min w (i + 1) : ℕ)| ≤ 2 * M := by
    have := abs_add_le (s / (min w (i + 1) : ℕ) - wmean x w i) (wmean x w i)
    rw [sub_add_cancel] at this
    linarith
  obtain ⟨r, r1, r2⟩ := acc_div acc m0.ne' (a.trans hΩ)
  have r3 : |r - wmean x w i| ≤ E + u * (2 * M) + η := by
    have := abs_add_le (r - s / (min w (i + 1) : ℕ)) (s / (min w (i + 1) : ℕ) - wmean x w i)
    rw [sub_add_sub_cancel] at this
    have := mul_le_mul_of_nonneg_left a hu.le
    linarith
  have hl : (lit ((((min w (i + 1) : ℕ) : ℤ)) : ℚ) : Rval R) = rk ((min w (i + 1) : ℕ) : K) := by
    show R.rd _ = Val.fin _
    rw [← lm]; congr 1; push_cast; rfl
  unfold SumSt.calcMean
  dsimp only
  rw [if_pos ⟨by exact_mod_cast hm, by exact_mod_cast (by omega : 0 < min w (i + 1))⟩, hl, r1]
  have c1 : ((rk r : Rval R) <. lit 0) = decide (r < 0) := by rw [show (lit 0 : Rval R) = rk 0 from lit0]; rfl
  have c2 : ((lit 0 : Rval R) <. rk r) = decide (0 < r) := by rw [show (lit 0 : Rval R) = rk 0 from lit0]; rfl
  rw [c1, c2, show (lit 0 : Rval R) = rk 0 from lit0]
  simp only [decide_eq_true_eq]
  split_ifs with g1 g2
  · exact ⟨0, rfl, (clip_le r3).1 (div_nonneg (wneg_zero g1.1) m0.le) g1.2⟩
  · exact ⟨0, rfl, (clip_le r3).2 (div_nonpos_of_nonpos_of_nonneg (wneg_all g2.1) m0.le) g2.2⟩
  · exact ⟨r, rfl, r3⟩

theorem abs_wmean {x : Nat → K} {M : K} {n w i : Nat} (hw : 1 ≤ w) (hx : ∀ j, j < n → |x j| ≤ M) (hi : i < n) (hM : 0 ≤ M) : |wmean x w i| ≤ M := by
  have m0 : (0 : K) < (min w (i + 1) : ℕ) := by exact_mod_cast (by omega : 0 < min w (i + 1))
  unfold wmean
  rw [abs_div, abs_of_pos m0, div_le_iff₀ m0, mul_comm]
  exact abs_window hx (by omega) hM (by omega)

end err

/-! ## double precision -/

section dbl
variable {K : Type} [Field K] [LinearOrder K] [IsStrictOrderedRing K] [FloorRing K]

/-- Same rows, NaN in the same places; elsewhere two numbers, on row `i` at most `(i + 1) ε` apart. -/
def Drift (ε : K) (s : Series (Double K)) (t : Series (Val K)) : Prop :=
  s.length = t.length ∧ ∀ i, i < t.length →
    (ix s i = Val.nan ∧ ix t i = .nan) ∨ ∃ y z : K, ix s i = Val.fin y ∧ ix t i = .fin z ∧ |y - z| ≤ (i + 1) * ε

theorem eps_rows {n : Nat} (h : n ≤ 2 ^ 44) : 100 * ((eps : K) * n) ≤ 1 := by
  have h1 : (n : K) ≤ 2 ^ (44 : ℤ) := by
    have : (n : K) ≤ 2 ^ 44 := by exact_mod_cast h
    exact_mod_cast this
  have e : (eps : K) * 2 ^ (44 : ℤ) = 2 ^ (-9 : ℤ) := by
    unfold eps; rw [← zpow_add₀ (by norm_num)]; norm_num only
  have := mul_le_mul_of_nonneg_left h1 (eps_pos (K := K)).le
  rw [e] at this
  refine (mul_le_mul_of_nonneg_left this (by norm_num)).trans ?_
  norm_num

theorem rows_cap {n : Nat} (h : n ≤ 2 ^ 44) {M : K} (hM : M ≤ huge) (hM0 : 0 ≤ M) : 16 * (n * M) ≤ (2 : K) ^ (1023 : ℤ) := by
  have h1 : (n : K) ≤ 2 ^ (44 : ℤ) := by
    have : (n : K) ≤ 2 ^ 44 := by exact_mod_cast h
    exact_mod_cast this
  have h2 : (n : K) * M ≤ 2 ^ (44 : ℤ) * 2 ^ (900 : ℤ) := mul_le_mul h1 hM hM0 (two_zpow_pos _).le
  have h3 : (16 : K) * (2 ^ (44 : ℤ) * 2 ^ (900 : ℤ)) = 2 ^ (948 : ℤ) := by
    rw [show (16 : K) = 2 ^ (4 : ℤ) by norm_num, ← zpow_add₀ (by norm_num), ← zpow_add₀ (by norm_num)]; norm_num only
  have h4 : (2 : K) ^ (948 : ℤ) ≤ 2 ^ (1023 : ℤ) := zpow_le_zpow_right₀ (by norm_num) (by norm_num)
  exact (mul_le_mul_of_nonneg_left h2 (by norm_num)).trans (h3.le.trans h4)

theorem two_cap {M : K} (hM : M ≤ huge) (hM0 : 0 ≤ M) : 2 * M ≤ (2 : K) ^ (1023 : ℤ) :=
  le_trans (by linarith : 2 * M ≤ 1000 * M) (big_le (hM.trans (zpow_le_zpow_right₀ (by norm_num) (by norm_num))))

theorem clean_dser (n : Nat) (x : Nat → K) : (dser n x).map clean = dser n x := by
  unfold dser rser tab
  rw [List.map_map]
  exact List.map_congr_left fun j _ => rfl

/-- **Rolling mean** (SMA, the middle Bollinger line): pandas' running mean in double precision against the exact mean. -/
theorem pandas_mean_drift {n : Nat} (hn : n ≤ 2 ^ 44) {x : Nat → K} {M : K} (hM1 : tiny ≤ M) (hM2 : M ≤ huge) (hx : ∀ j, j < n → |x j| ≤ M)
    {w mp : Nat} (hw : 1 ≤ w) (hmp : mp ≤ w) : Drift (85 * eps * M) (onlineMean w mp (dser n x)) (rollMean w mp (ser n x)) := by
  have hM : 0 < M := tiny_pos.trans_le hM1
  have hD := (def_ser n x).rollMeanP hw hmp
  have len : (onlineMean w mp (dser n x)).length = n := by unfold onlineMean; rw [length_tab]; simp [rser]
  refine ⟨len.trans hD.len.symm, fun i hi => ?_⟩
  rw [hD.len] at hi
  have cl := clean_dser n x
  have e : ix (onlineMean w mp (dser n x)) i = (online .removeFirst SumSt.add SumSt.rem SumSt.init w (dser n x) i).calcMean mp := by
    unfold onlineMean
    rw [ix_tab_lt (by simpa [rser] using hi), cl]
  obtain ⟨s, ca, cr, h1, h2, -, -⟩ := SumSt.online_err (b64_acc (K := K)) eps_pos eps_small hM (eta_le hM1) (two_zpow_pos _).le hw (rows_cap hn hM2 hM.le) (eps_rows hn) hx hi
  rw [e, show online .removeFirst SumSt.add SumSt.rem SumSt.init w (dser n x) i = _ from h1]
  by_cases g : mp ≤ min w (i + 1)
  · right
    have i0 : (0 : K) ≤ i := Nat.cast_nonneg i
    have iN : (i : K) + 1 ≤ n := by exact_mod_cast hi
    have uM : (0 : K) < eps * M := mul_pos eps_pos hM
    have hE : 80 * ((i : K) + 1) * (eps * M) ≤ M := by
      have a := mul_le_mul_of_nonneg_right (eps_rows (K := K) hn) hM.le
      have b := mul_le_mul_of_nonneg_right iN uM.le
      nlinarith
    have lm : (binary64 : Rounding K).rd (((min w (i + 1) : ℕ) : ℤ) : K) = .fin ((min w (i + 1) : ℕ) : K) := by
      have := b64_int (K := K) (k := ((min w (i + 1) : ℕ) : ℤ)) (by rw [abs_of_nonneg (by omega)]; omega)
      simpa using this
    obtain ⟨y, y1, y2⟩ := SumSt.calcMean_err (b64_acc (K := K)) (two_cap hM2 hM.le)
      eps_pos hw (abs_wmean hw hx hi hM.le) lm (ca := rk ca) (cr := rk cr) hE (by refine h2.trans (le_of_eq ?_); unfold eps; ring) g
    refine ⟨y, _, y1, hD.val i hi (by omega), y2.trans ?_⟩
    have q := eta_le (K := K) hM1
    have q2 : (0 : K) ≤ i * (eps * M) := mul_nonneg i0 uM.le
    change 80 * ((i : K) + 1) * (eps * M) + eps * (2 * M) + 2 ^ (-1075 : ℤ) ≤ (i + 1) * (85 * eps * M)
    generalize (2 : K) ^ (-1075 : ℤ) = η at q ⊢
    linarith
  · left
    refine ⟨?_, hD.gap i hi (by omega)⟩
    unfold SumSt.calcMean
    rw [if_neg (fun q => g (Int.ofNat_le.mp q.1))]
    rfl

theorem ix_rollSum_ser (n : Nat) (x : Nat → K) {w mp i : Nat} (hi : i < n) :
    ix (rollSum w mp (ser n x)) i = if mp ≤ min w (i + 1) then .fin (∑ j ∈ Ico (i + 1 - w) (i + 1), x j) else .nan := by
  have h := def_ser n x
  rw [ix_rollSum (by rw [h.len]; exact hi), h.obs_eq hi, List.length_map, length_winIx]
  simp only [Nat.sub_zero]
  rw [show min (min w (i + 1)) (i + 1) = min w (i + 1) by omega]
  split_ifs with g
  · rw [sum_winIx, wsum, show i + 1 - min w (i + 1) = i + 1 - w by omega]
  · rfl

/-- **Rolling sum**: the error in units of the window. -/
theorem pandas_sum_drift {n : Nat} (hn : n ≤ 2 ^ 44) {x : Nat → K} {M : K} (hM1 : tiny ≤ M) (hM2 : M ≤ huge) (hx : ∀ j, j < n → |x j| ≤ M)
    {w : Nat} (hw : 1 ≤ w) (mp : Nat) : Drift (80 * w * eps * M) (onlineSum w mp (dser n x)) (rollSum w mp (ser n x)) := by
  have hM : 0 < M := tiny_pos.trans_le hM1
  have len : (onlineSum w mp (dser n x)).length = n := by unfold onlineSum; rw [length_tab]; simp [rser]
  have len' : (rollSum w mp (ser n x)).length = n := by simp [ser]
  refine ⟨len.trans len'.symm, fun i hi => ?_⟩
  rw [len'] at hi
  have e : ix (onlineSum w mp (dser n x)) i = (online .removeFirst SumSt.add SumSt.rem SumSt.init w (dser n x) i).calcSum mp := by
    unfold onlineSum
    rw [ix_tab_lt (by simpa [rser] using hi), clean_dser]
  obtain ⟨s, ca, cr, h1, h2, -, -⟩ := SumSt.online_err (b64_acc (K := K)) eps_pos eps_small hM (eta_le hM1) (two_zpow_pos _).le hw (rows_cap hn hM2 hM.le) (eps_rows hn) hx hi
  rw [e, show online .removeFirst SumSt.add SumSt.rem SumSt.init w (dser n x) i = _ from h1, ix_rollSum_ser n x hi]
  unfold SumSt.calcSum
  dsimp only
  rw [if_neg (fun q => by have := q.1; omega)]
  by_cases g : mp ≤ min w (i + 1)
  · right
    rw [if_pos g, if_pos (by exact_mod_cast g)]
    refine ⟨s, _, rfl, rfl, h2.trans ?_⟩
    change 80 * ((i : K) + 1) * (eps * ((min w (i + 1) : ℕ) * M)) ≤ (i + 1) * (80 * w * eps * M)
    have a : ((min w (i + 1) : ℕ) : K) ≤ w := by exact_mod_cast Nat.min_le_left _ _
    have i0 : (0 : K) ≤ i := Nat.cast_nonneg i
    have b := mul_le_mul_of_nonneg_left (mul_le_mul_of_nonneg_right a hM.le) (mul_nonneg (by linarith : 0 ≤ 80 * ((i : K) + 1)) (eps_pos (K := K)).le)
    nlinarith
  · left
    rw [if_neg g, if_neg (fun q => g (by exact_mod_cast q))]
    exact ⟨rfl, rfl⟩

/-! ## whole numbers -/

theorem b64_sub_int {a b : ℤ} (h : |a - b| ≤ 2 ^ 52) : (rk (a : K) -. rk (b : K) : Double K) = rk ((a - b : ℤ) : K) := by
  have := b64_int (K := K) h
  show (binary64 : Rounding K).rd ((a : K) + -(b : K)) = _
  rw [← sub_eq_add_neg]
  exact_mod_cast this

theorem b64_add_int {a b : ℤ} (h : |a + b| ≤ 2 ^ 52) : (rk (a : K) +. rk (b : K) : Double K) = rk ((a + b : ℤ) : K) := by
  have := b64_int (K := K) h
  show (binary64 : Rounding K).rd ((a : K) + (b : K)) = _
  exact_mod_cast this

theorem SumSt.add_int {s x m k : ℤ} {cr : Double K} (h : |s + x| ≤ 2 ^ 52) (hx : |x| ≤ 2 ^ 52) :
    SumSt.add (⟨rk (s : K), rk ((0 : ℤ) : K), cr, m, k⟩ : SumSt (Double K)) (rk (x : K))
      = ⟨rk ((s + x : ℤ) : K), rk ((0 : ℤ) : K), cr, m + 1, if (x : K) < 0 then k + 1 else k⟩ := by
  unfold SumSt.add
  rw [if_neg (show ¬ Flt.isNaN (rk (x : K) : Double K) = true by simp [show Flt.isNaN (rk (x : K) : Double K) = false from rfl])]
  dsimp only
  rw [b64_sub_int (by rwa [sub_zero]), sub_zero, b64_add_int h, b64_sub_int (by rwa [add_sub_cancel_left]), add_sub_cancel_left,
    b64_sub_int (by rw [sub_self]; norm_num), sub_self]
  congr 1
  have e : ((rk (x : K) : Double K) <. lit 0) = decide ((x : K) < 0) := by
    rw [show (lit 0 : Double K) = rk 0 from lit0]; rfl
  rw [e]
  simp

theorem SumSt.rem_int {s x m k : ℤ} {ca : Double K} (h : |s - x| ≤ 2 ^ 52) (hx : |x| ≤ 2 ^ 52) :
    SumSt.rem (⟨rk (s : K), ca, rk ((0 : ℤ) : K), m, k⟩ : SumSt (Double K)) (rk (x : K))
      = ⟨rk ((s - x : ℤ) : K), ca, rk ((0 : ℤ) : K), m - 1, if (x : K) < 0 then k - 1 else k⟩ := by
  unfold SumSt.rem
  rw [if_neg (show ¬ Flt.isNaN (rk (x : K) : Double K) = true by simp [show Flt.isNaN (rk (x : K) : Double K) = false from rfl])]
  dsimp only
  have ng : Flt.neg (rk (x : K) : Double K) = rk ((-x : ℤ) : K) := by
    show Val.fin (-(x : K)) = Val.fin _
    push_cast; rfl
  rw [ng, b64_sub_int (by rwa [sub_zero, abs_neg]), sub_zero, b64_add_int (by rwa [← sub_eq_add_neg]),
    b64_sub_int (by rwa [add_sub_cancel_left, abs_neg]), add_sub_cancel_left, b64_sub_int (by rw [sub_self]; norm_num), sub_self, ← sub_eq_add_neg]
  congr 1
  have e : ((rk (x : K) : Double K) <. lit 0) = decide ((x : K) < 0) := by
    rw [show (lit 0 : Double K) = rk 0 from lit0]; rfl
  rw [e]
  simp

/-- the accumulator on whole numbers holds the exact sum, and nothing is carried -/
theorem SumSt.online_int {n : Nat} {k : Nat → ℤ} {w : Nat} (hw : 1 ≤ w) {M : ℤ} (hk : ∀ j, j < n → |k j| ≤ M) (hM : w * M ≤ 2 ^ 52) {i : Nat} (hi : i < n) :
    online .removeFirst SumSt.add SumSt.rem SumSt.init w (dser n fun j => (k j : K)) i
      = ⟨rk ((∑ j ∈ Ico (i + 1 - w) (i + 1), k j : ℤ) : K), rk ((0 : ℤ) : K), rk ((0 : ℤ) : K), (min w (i + 1) : ℕ), wneg (fun j => (k j : K)) w i⟩ := by
  have len : (dser n fun j => (k j : K)).length = n := by simp [rser]
  have val : ∀ j, j < n → ix (dser n fun j => (k j : K)) j = rk (k j : K) := fun j hj => ix_tab_lt hj
  have M0 : 0 ≤ M := (abs_nonneg _).trans (hk 0 (by omega))
  have M1 : M ≤ 2 ^ 52 := by
    have : (1 : ℤ) ≤ w := by exact_mod_cast hw
    nlinarith
  have kb : ∀ j, j < n → |k j| ≤ 2 ^ 52 := fun j hj => (hk j hj).trans M1
  have bnd : ∀ a b, b ≤ n → b - a ≤ w → |∑ j ∈ Ico a b, k j| ≤ 2 ^ 52 := fun a b hb hab => (abs_window hk hb M0 hab).trans hM
  induction i with
  | zero =>
    rw [online_zero _ _ _ hw (by rw [len]; exact hi), val 0 hi, show min w (0 + 1) = 1 by omega, show 0 + 1 - w = 0 by omega, Nat.Ico_succ_singleton, sum_singleton]
    have h0 : (SumSt.init : SumSt (Double K)) = ⟨rk ((0 : ℤ) : K), rk ((0 : ℤ) : K), rk ((0 : ℤ) : K), 0, 0⟩ := by
      unfold SumSt.init; rw [show (lit 0 : Double K) = rk 0 from lit0, Int.cast_zero]
    rw [h0, SumSt.add_int (by rw [zero_add]; exact kb 0 hi) (kb 0 hi), zero_add]
    congr 1
    unfold wneg
    rw [show 0 + 1 - w = 0 by omega, Nat.Ico_succ_singleton, sum_singleton]
    simp
  | succ i ih =>
    rw [online_succ _ _ _ hw (by rw [len]; exact hi), ih (by omega), val _ hi]
    have ng := sum_window (fun j => if (k j : K) < 0 then (1 : ℤ) else 0) (w := w) (i := i) hw
    have sw := sum_window k (w := w) (i := i) hw
    have full := bnd (i + 1 + 1 - w) (i + 1 + 1) (by omega) (by omega)
    by_cases g : w ≤ i + 1
    · rw [if_pos g] at ng sw ⊢
      have part : |∑ j ∈ Ico (i + 1 - w) (i + 1), k j - k (i + 1 - w)| ≤ 2 ^ 52 := by
        have := bnd (i + 1 - w + 1) (i + 1) (by omega) (by omega)
        rwa [Finset.sum_eq_sum_Ico_succ_bot (by omega : i + 1 - w < i + 1), add_sub_cancel_left]
      rw [val _ (by omega), SumSt.rem_int part (kb _ (by omega)), SumSt.add_int (by rw [← sw]; exact full) (kb _ hi), ← sw]
      congr 1
      · omega
      · unfold wneg
        dsimp only
        rw [ng]
        split_ifs <;> omega
    · rw [if_neg g] at ng sw ⊢
      rw [SumSt.add_int (by rw [← sw]; exact full) (kb _ hi), ← sw]
      congr 1
      · omega
      · unfold wneg
        dsimp only
        rw [ng]
        split_ifs <;> omega

/-- **Whole numbers**: the rolling sum in double precision is exact. -/
theorem pandas_sum_int {n : Nat} {k : Nat → ℤ} {w : Nat} (hw : 1 ≤ w) {M : ℤ} (hk : ∀ j, j < n → |k j| ≤ M) (hM : w * M ≤ 2 ^ 52) (mp : Nat) :
    CloseTo 0 (onlineSum w mp (dser n fun j => (k j : K))) (rollSum w mp (ser n fun j => (k j : K))) := by
  have len : (onlineSum w mp (dser n fun j => (k j : K))).length = n := by unfold onlineSum; rw [length_tab]; simp [rser]
  have len' : (rollSum w mp (ser n fun j => (k j : K))).length = n := by simp [ser]
  refine ⟨len.trans len'.symm, fun i hi => ?_⟩
  rw [len'] at hi
  have e : ix (onlineSum w mp (dser n fun j => (k j : K))) i
      = (online .removeFirst SumSt.add SumSt.rem SumSt.init w (dser n fun j => (k j : K)) i).calcSum mp := by
    unfold onlineSum
    rw [ix_tab_lt (by simpa [rser] using hi), clean_dser]
  rw [e, SumSt.online_int hw hk hM hi, ix_rollSum_ser n _ hi]
  unfold SumSt.calcSum
  dsimp only
  rw [if_neg (fun q => by have := q.1; omega)]
  by_cases g : mp ≤ min w (i + 1)
  · right
    rw [if_pos g, if_pos (by exact_mod_cast g)]
    refine ⟨_, _, rfl, rfl, ?_⟩
    push_cast
    rw [sub_self, abs_zero]
  · left
    rw [if_neg g, if_neg (fun q => g (by exact_mod_cast q))]
    exact ⟨rfl, rfl⟩

/-- **Whole numbers**: the rolling mean is the exact mean, rounded once. -/
theorem pandas_mean_int {n : Nat} {k : Nat → ℤ} {w : Nat} (hw : 1 ≤ w) {M : ℤ} (hM1 : 1 ≤ M) (hk : ∀ j, j < n → |k j| ≤ M) (hM : w * M ≤ 2 ^ 52) {mp : Nat} (hmp : mp ≤ w) :
    CloseTo (3 * eps * (M : K)) (onlineMean w mp (dser n fun j => (k j : K))) (rollMean w mp (ser n fun j => (k j : K))) := by
  have hD := (def_ser n fun j => (k j : K)).rollMeanP hw hmp
  have len : (onlineMean w mp (dser n fun j => (k j : K))).length = n := by unfold onlineMean; rw [length_tab]; simp [rser]
  refine ⟨len.trans hD.len.symm, fun i hi => ?_⟩
  rw [hD.len] at hi
  have e : ix (onlineMean w mp (dser n fun j => (k j : K))) i
      = (online .removeFirst SumSt.add SumSt.rem SumSt.init w (dser n fun j => (k j : K)) i).calcMean mp := by
    unfold onlineMean
    rw [ix_tab_lt (by simpa [rser] using hi), clean_dser]
  rw [e, SumSt.online_int hw hk hM hi]
  have K1 : (1 : K) ≤ M := by exact_mod_cast hM1
  have w1 : (1 : ℤ) ≤ w := by exact_mod_cast hw
  have w52 : (w : ℤ) ≤ 2 ^ 52 := by nlinarith
  have M52 : M ≤ 2 ^ 52 := by nlinarith
  have KM : (M : K) ≤ huge := by
    have h1 : (M : K) ≤ 2 ^ 52 := by exact_mod_cast M52
    have h2 : (2 : K) ^ (52 : ℤ) ≤ 2 ^ (900 : ℤ) := zpow_le_zpow_right₀ (by norm_num) (by norm_num)
    rw [zpow_ofNat] at h2
    exact h1.trans h2
  have tM : (tiny : K) ≤ M := by
    have h2 : (2 : K) ^ (-900 : ℤ) ≤ 2 ^ (0 : ℤ) := zpow_le_zpow_right₀ (by norm_num) (by norm_num)
    rw [zpow_zero] at h2
    exact h2.trans K1
  by_cases g : mp ≤ min w (i + 1)
  · right
    have lm : (binary64 : Rounding K).rd (((min w (i + 1) : ℕ) : ℤ) : K) = .fin ((min w (i + 1) : ℕ) : K) := by
      have := b64_int (K := K) (k := ((min w (i + 1) : ℕ) : ℤ)) (by
        have : ((min w (i + 1) : ℕ) : ℤ) ≤ w := by exact_mod_cast Nat.min_le_left _ _
        rw [abs_of_nonneg (by omega)]; omega)
      simpa using this
    obtain ⟨y, y1, y2⟩ := SumSt.calcMean_err (b64_acc (K := K)) (two_cap KM (by linarith)) eps_pos hw
      (abs_wmean hw (x := fun j => (k j : K)) (n := n) (M := (M : K)) (fun j hj => by exact_mod_cast hk j hj) hi (by linarith)) lm
      (s := ((∑ j ∈ Ico (i + 1 - w) (i + 1), k j : ℤ) : K)) (ca := rk ((0 : ℤ) : K)) (cr := rk ((0 : ℤ) : K)) (E := 0) (by linarith)
      (by push_cast; rw [sub_self, abs_zero, mul_zero]) g
    refine ⟨y, _, y1, hD.val i hi (by omega), y2.trans ?_⟩
    have q := eta_le (K := K) tM
    have uM : (0 : K) < eps * M := mul_pos eps_pos (by linarith)
    change 0 + eps * (2 * (M : K)) + 2 ^ (-1075 : ℤ) ≤ 3 * eps * M
    generalize (2 : K) ^ (-1075 : ℤ) = η at q ⊢
    linarith
  · left
    refine ⟨?_, hD.gap i hi (by omega)⟩
    unfold SumSt.calcMean
    rw [if_neg (fun q => g (Int.ofNat_le.mp q.1))]
    rfl

/-! ## indicators -/

/-- **SMA** (and the middle Bollinger line, C75): `ta/utils.py:60-62` with pandas' kernel, in double precision. -/
theorem sma_pandas {n : Nat} (hn : n ≤ 2 ^ 44) {x : Nat → K} {M : K} (hM1 : tiny ≤ M) (hM2 : M ≤ huge) (hx : ∀ j, j < n → |x j| ≤ M) {w : Nat} (hw : 1 ≤ w)
    (fillna : Bool) : Drift (85 * eps * M) (onlineMean w (minp fillna w) (dser n x)) (smaIndicator (ser n x) w fillna) :=
  pandas_mean_drift hn hM1 hM2 hx hw (minp_le fillna w)

/-- the same over a whole column of values that are themselves approximate -/
theorem pandas_mean_near {n : Nat} (hn : n ≤ 2 ^ 44) {s : Series (Double K)} {f : Nat → K} {M δ : K} (h : Approx s n 0 f δ) (hM1 : tiny ≤ M) (hM2 : M ≤ huge)
    (hf : ∀ j, j < n → |f j| + δ ≤ M) {w mp : Nat} (hw : 1 ≤ w) (hmp : mp ≤ w) :
    Approx (onlineMean w mp s) n (mp - 1) (wmean f w) (n * (85 * eps * M) + δ) := by
  have hM : 0 < M := tiny_pos.trans_le hM1
  choose! y y1 y2 using fun i (hi : i < n) => h.val i hi (Nat.zero_le i)
  have es : s = dser n y := by
    refine series_ext (F := Double K) (by rw [h.len]; simp [rser]) fun i hi => ?_
    rw [h.len] at hi
    rw [y1 i hi]
    exact (show ix (dser n y) i = rk (y i) from ix_tab_lt hi).symm
  have hy : ∀ j, j < n → |y j| ≤ M := fun j hj => by
    have := abs_add_le (y j - f j) (f j)
    rw [sub_add_cancel] at this
    have := hf j hj
    have := y2 j hj
    linarith
  have D := pandas_mean_drift hn hM1 hM2 hy hw hmp
  have hD := (def_ser n y).rollMeanP hw hmp
  rw [← es] at D
  refine ⟨D.1.trans hD.len, fun i hi g => ?_, fun i hi g => ?_⟩
  · rcases D.2 i (by rw [hD.len]; exact hi) with ⟨a, -⟩ | ⟨u, v, a, b, -⟩
    · exact a
    · rw [hD.gap i hi g] at b; exact nomatch b
  · rcases D.2 i (by rw [hD.len]; exact hi) with ⟨-, b⟩ | ⟨u, v, a, b, c⟩
    · rw [hD.val i hi g] at b; exact nomatch b
    · rw [hD.val i hi g] at b
      cases Val.fin.inj b
      refine ⟨u, a, ?_⟩
      have m0 : (0 : K) < (min w (i + 1) : ℕ) := by exact_mod_cast (by omega : 0 < min w (i + 1))
      have d : |wmean y w i - wmean f w i| ≤ δ := by
        unfold wmean
        rw [← sub_div, ← Finset.sum_sub_distrib, abs_div, abs_of_pos m0, div_le_iff₀ m0, mul_comm]
        exact abs_window (n := n) (x := fun j => y j - f j) y2 (by omega) ((abs_nonneg _).trans (y2 i hi)) (by omega)
      have := abs_add_le (u - wmean y w i) (wmean y w i - wmean f w i)
      rw [sub_add_sub_cancel] at this
      have e1 : ((i : K) + 1) * (85 * eps * M) ≤ n * (85 * eps * M) :=
        mul_le_mul_of_nonneg_right (by exact_mod_cast hi) (mul_nonneg (mul_nonneg (by norm_num) eps_pos.le) hM.le)
      linarith

/-- `AwesomeOscillatorIndicator._run` (ta/momentum.py:449-464) with pandas' rolling mean -/
def AO.runPandas {F : Type} [Flt F] (high low : Series F) (w1 w2 : Nat) (fillna : Bool) : Series F :=
  ssub (onlineMean w1 (minp fillna w1) (cmul (lit (1 / 2)) (sadd high low))) (onlineMean w2 (minp fillna w2) (cmul (lit (1 / 2)) (sadd high low)))

/-- `.awesome_oscillator()` with pandas' rolling mean -/
def aoPandas {F : Type} [Flt F] (high low : Series F) (w1 w2 : Nat) (fillna : Bool) : Series F :=
  checkFillna fillna (.const (lit 0)) (AO.runPandas high low w1 w2 fillna)

/-- in exact arithmetic this is the model's awesome oscillator -/
theorem aoPandas_exact (h l : Series (Val K)) (w1 w2 : Nat) (fillna : Bool) : aoPandas h l w1 w2 fillna = awesomeOscillator h l w1 w2 fillna := by
  unfold aoPandas AO.runPandas awesomeOscillator AO.run
  rw [online_mean, online_mean]

theorem median_near {n : Nat} {h l : Nat → K} {M : K} (hM1 : tiny ≤ M) (hM2 : M ≤ huge) (hh : ∀ j, j < n → |h j| ≤ M) (hl : ∀ j, j < n → |l j| ≤ M) :
    Approx (cmul (lit (1 / 2)) (sadd (dser n h) (dser n l))) n 0 (fun j => (h j + l j) / 2) (3 * eps * M) := by
  have hM : 0 < M := tiny_pos.trans_le hM1
  have uM : (0 : K) < eps * M := mul_pos eps_pos hM
  have us : eps * M ≤ M / 1000 := by have := mul_le_mul_of_nonneg_right (eps_small (K := K)) hM.le; linarith
  have uus : eps * (eps * M) ≤ eps * M / 1000 := by have := mul_le_mul_of_nonneg_right (eps_small (K := K)) uM.le; linarith
  have half : (lit (1 / 2) : Double K) = rk (1 / 2) := by
    have := b64_half (K := K) (k := 1) (by norm_num)
    show (binary64 : Rounding K).rd _ = _
    push_cast at this ⊢
    exact this
  have hη := eta_le (K := K) hM1
  have cap2 := two_cap (K := K) hM2 hM.le
  refine ⟨by simp [rser], fun i _ g => by omega, fun i hi _ => ?_⟩
  have e : ix (cmul (lit (1 / 2)) (sadd (dser n h) (dser n l))) i = (lit (1 / 2) : Double K) *. (rk (h i) +. rk (l i)) := by
    rw [ix_cmul (by simpa [rser] using hi), ix_sadd (by simpa [rser] using hi)]
    rw [show ix (dser n h) i = rk (h i) from ix_tab_lt hi, show ix (dser n l) i = rk (l i) from ix_tab_lt hi]
  have a1 : |h i + l i| ≤ 2 * M := (abs_add_le _ _).trans (by linarith [hh i hi, hl i hi])
  obtain ⟨z, z1, z2⟩ := acc_add (b64_acc (K := K)) (a1.trans cap2)
  have z3 : |z - (h i + l i)| ≤ 2.001 * (eps * M) := by
    have := mul_le_mul_of_nonneg_left a1 (eps_pos (K := K)).le
    change |z - (h i + l i)| ≤ eps * |h i + l i| + _ at z2
    generalize (2 : K) ^ (-1075 : ℤ) = η at hη z2
    linarith
  have a2 : |1 / 2 * z| ≤ 1.01 * M := by
    have := abs_add_le (z - (h i + l i)) (h i + l i)
    rw [sub_add_cancel] at this
    rw [abs_mul, abs_of_pos (by norm_num : (0 : K) < 1 / 2)]
    linarith
  obtain ⟨y, y1, y2⟩ := acc_mul (b64_acc (K := K)) (a2.trans (le_trans (by linarith) cap2))
  refine ⟨y, by rw [e, half, z1, y1], ?_⟩
  have := mul_le_mul_of_nonneg_left a2 (eps_pos (K := K)).le
  change |y - 1 / 2 * z| ≤ eps * |1 / 2 * z| + _ at y2
  have t := abs_add_le (y - 1 / 2 * z) (1 / 2 * (z - (h i + l i)))
  rw [abs_mul (1 / 2 : K), abs_of_pos (by norm_num : (0 : K) < 1 / 2), show y - 1 / 2 * z + 1 / 2 * (z - (h i + l i)) = y - (h i + l i) / 2 by ring] at t
  generalize (2 : K) ^ (-1075 : ℤ) = η at hη y2
  linarith

/-- **Awesome oscillator** with pandas' kernel, in double precision, over a column of `n` rows. -/
theorem ao_pandas {n : Nat} (hn : n ≤ 2 ^ 44) {h l : Nat → K} {M : K} (hM1 : tiny ≤ M) (hM2 : 2 * M ≤ huge) (hh : ∀ j, j < n → |h j| ≤ M) (hl : ∀ j, j < n → |l j| ≤ M)
    {w1 w2 : Nat} (h1 : 1 ≤ w1) (h2 : 1 ≤ w2) (fillna : Bool) :
    CloseTo (360 * n * eps * M) (aoPandas (dser n h) (dser n l) w1 w2 fillna) (awesomeOscillator (ser n h) (ser n l) w1 w2 fillna) := by
  have hM : 0 < M := tiny_pos.trans_le hM1
  rcases Nat.eq_zero_or_pos n with rfl | hn0
  · refine ⟨by simp [aoPandas, AO.runPandas, awesomeOscillator, AO.run, onlineMean, rser, ser], fun i hi => ?_⟩
    simp [awesomeOscillator, AO.run, ser] at hi
  have n1 : (1 : K) ≤ n := by exact_mod_cast hn0
  have uM : (0 : K) < eps * M := mul_pos eps_pos hM
  have us : eps * M ≤ M / 1000 := by have := mul_le_mul_of_nonneg_right (eps_small (K := K)) hM.le; linarith
  have nu : (n : K) * (eps * M) ≤ M / 100 := by have := mul_le_mul_of_nonneg_right (eps_rows (K := K) hn) hM.le; linarith
  have hm := median_near (n := n) hM1 (le_trans (by linarith) hM2) hh hl
  have med : ∀ j, j < n → |(h j + l j) / 2| ≤ M := fun j hj => by
    have := abs_add_le (h j) (l j)
    rw [abs_div, abs_of_pos (by norm_num : (0 : K) < 2)]
    linarith [hh j hj, hl j hj]
  have fM : ∀ j, j < n → |(h j + l j) / 2| + 3 * eps * M ≤ 2 * M := fun j hj => by have := med j hj; linarith
  have A := pandas_mean_near hn hm (le_trans hM1 (by linarith)) hM2 fM h1 (minp_le fillna w1)
  have B := pandas_mean_near hn hm (le_trans hM1 (by linarith)) hM2 fM h2 (minp_le fillna w2)
  have S := Approx.ssub (b64_acc (K := K)) eps_pos.le A B (B := 10 * M) (fun i hi _ => by
    have a := abs_wmean h1 med hi hM.le
    have b := abs_wmean h2 med hi hM.le
    have := abs_sub (wmean (fun j => (h j + l j) / 2) w1 i) (wmean (fun j => (h j + l j) / 2) w2 i)
    linarith) (by
      have := big_le (K := K) (M := M) (le_trans (by linarith) (hM2.trans (zpow_le_zpow_right₀ (by norm_num) (by norm_num))))
      exact le_trans (by linarith) this)
  have hη := eta_le (K := K) hM1
  have S' := S.mono (δ' := 360 * n * eps * M) (by
    have : eps * M ≤ n * (eps * M) := by nlinarith
    change n * (85 * eps * (2 * M)) + 3 * eps * M + (n * (85 * eps * (2 * M)) + 3 * eps * M) + eps * (10 * M) + _ ≤ _
    generalize (2 : K) ^ (-1075 : ℤ) = η at hη ⊢
    linarith)
  have E := ao_formula n h l h1 h2 fillna
  have pe : max (minp fillna w1 - 1) (minp fillna w2 - 1) = if fillna then 0 else max w1 w2 - 1 := by
    rw [minp_sub, minp_sub]; split_ifs <;> omega
  rw [pe] at S'
  cases fillna with
  | false => exact Approx.close S' E
  | true => exact Approx.close (Approx.fill S' true _) E

/-! ## examples -/

/-- a million closes up to 2: the SMA is right to seven decimals -/
example (x : Nat → ℚ) (hx : ∀ j, j < 1000000 → |x j| ≤ 2) (w : Nat) (hw : 1 ≤ w) (i : Nat) (hi : i < 1000000) (hwi : w ≤ i + 1) :
    ∃ y z : ℚ, ix (onlineMean w w (dser 1000000 x)) i = Val.fin y ∧ ix (smaIndicator (ser 1000000 x) w false) i = .fin z ∧ |y - z| < 1 / 10 ^ 7 := by
  have t1 : (tiny : ℚ) ≤ 2 := by
    have h2 : (2 : ℚ) ^ (-900 : ℤ) ≤ 2 ^ (1 : ℤ) := zpow_le_zpow_right₀ (by norm_num) (by norm_num)
    rwa [zpow_one] at h2
  have t2 : (2 : ℚ) ≤ huge := by
    have h2 : (2 : ℚ) ^ (1 : ℤ) ≤ 2 ^ (900 : ℤ) := zpow_le_zpow_right₀ (by norm_num) (by norm_num)
    rwa [zpow_one] at h2
  have S := sma_formula 1000000 x w hw
  rcases (sma_pandas (by norm_num) t1 t2 hx hw false).2 i (by rw [S.len]; exact hi) with ⟨-, b⟩ | ⟨y, z, a, b, c⟩
  · rw [S.val i hi (by omega)] at b; exact nomatch b
  · refine ⟨y, z, a, b, c.trans_lt ?_⟩
    have : (i : ℚ) + 1 ≤ 1000000 := by exact_mod_cast hi
    have e : (eps : ℚ) = 2 ^ (-53 : ℤ) := rfl
    rw [e]
    norm_num
    linarith

/-- volumes up to four billion, a window of a million rows: no error -/
example (v : Nat → ℤ) (hv : ∀ j, j < 5000 → |v j| ≤ 4000000000) : CloseTo 0 (onlineSum 1000000 1 (dser 5000 fun j => (v j : ℚ))) (rollSum 1000000 1 (ser 5000 fun j => (v j : ℚ))) :=
  pandas_sum_int (by norm_num) hv (by norm_num) 1

end dbl

end TA
