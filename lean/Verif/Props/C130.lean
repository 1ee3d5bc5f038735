import Verif.Props.C25
import Verif.Props.C103
import Verif.Props.C125
import Verif.Props.C127

/-!
# C130 — the directional indicators in double precision

`ADXIndicator._run`, `adx_pos` and `adx_neg` (`ta/trend.py:718-769, 820-860`).  The directional movement of a row is the larger of two price
moves or nothing at all, so a rounding error that reverses the comparison would change it completely.  When the prices of neighbouring bars are
within a factor of two of each other, as they are on any market that does not halve or double overnight, the differences come out exact
(Sterbenz' lemma), and so do true range and directional movement.  What is left is the rounding in Wilder's running sums, which forget old
errors at the same pace as old rows: the bound does not depend on the number of rows.
-/

set_option linter.unusedSectionVars false

namespace TA
open Finset

section dbl
variable {K : Type} [Field K] [LinearOrder K] [IsStrictOrderedRing K] [FloorRing K]

/-! ## exact differences -/

/-- `x` is a finite double -/
def IsDouble (x : K) : Prop := (binary64 : Rounding K).rd x = .fin x

theorem b64_fin_iff {x : K} (hx : 0 ≤ x) : IsDouble x ↔ b64pos x = x ∧ x < 2 ^ (1024 : ℤ) := by
  show b64rd x = .fin x ↔ _
  rw [b64rd_nonneg hx]
  split_ifs with h
  · refine ⟨fun e => (by cases e), fun e => ?_⟩
    rw [e.1] at h
    exact absurd e.2 (not_lt.mpr h)
  · rw [not_le] at h
    exact ⟨fun e => ⟨(by injection e), (by injection e with e; rwa [e] at h)⟩, fun e => by rw [e.1]⟩

/-- a multiple of `2^e` that is not larger than a given double of that grid is a double -/
theorem sterbenz_pos {x y : K} (hx : IsDouble x) (hy : IsDouble y) (h0 : 0 ≤ y) (h1 : y ≤ x) (h2 : x ≤ 2 * y) : IsDouble (x - y) := by
  have x0 := h0.trans h1
  obtain ⟨px, lx⟩ := (b64_fin_iff x0).mp hx
  obtain ⟨py, ly⟩ := (b64_fin_iff h0).mp hy
  obtain ⟨a, e, a0, a1, e1, ea⟩ := b64pos_form x0
  obtain ⟨b, f, b0, b1, f1, eb⟩ := b64pos_form h0
  rw [px] at ea
  rw [py] at eb
  refine (b64_fin_iff (sub_nonneg.mpr h1)).mpr ⟨?_, lt_of_le_of_lt (by linarith) lx⟩
  have key : ∃ m g : ℤ, 0 ≤ m ∧ m ≤ 2 ^ 53 ∧ -1074 ≤ g ∧ x - y = m * 2 ^ g := by
    rcases le_total e f with q | q
    · obtain ⟨d, rfl⟩ : ∃ d : ℕ, f = e + d := ⟨(f - e).toNat, by omega⟩
      have p := two_zpow_pos (K := K) e
      have E : x - y = ((a - b * 2 ^ d : ℤ) : K) * 2 ^ e := by
        rw [zpow_add₀ (by norm_num), zpow_natCast] at eb
        push_cast
        rw [ea, eb]; ring
      refine ⟨a - b * 2 ^ d, e, ?_, ?_, e1, E⟩
      · have : (0 : K) ≤ ((a - b * 2 ^ d : ℤ) : K) * 2 ^ e := by rw [← E]; linarith
        exact_mod_cast nonneg_of_mul_nonneg_left this p
      · have : (0 : ℤ) ≤ b * 2 ^ d := mul_nonneg b0 (by positivity)
        omega
    · obtain ⟨d, rfl⟩ : ∃ d : ℕ, e = f + d := ⟨(e - f).toNat, by omega⟩
      have p := two_zpow_pos (K := K) f
      have E : x - y = ((a * 2 ^ d - b : ℤ) : K) * 2 ^ f := by
        rw [zpow_add₀ (by norm_num), zpow_natCast] at ea
        push_cast
        rw [ea, eb]; ring
      refine ⟨a * 2 ^ d - b, f, ?_, ?_, f1, E⟩
      · have : (0 : K) ≤ ((a * 2 ^ d - b : ℤ) : K) * 2 ^ f := by rw [← E]; linarith
        exact_mod_cast nonneg_of_mul_nonneg_left this p
      · have : ((a * 2 ^ d - b : ℤ) : K) * 2 ^ f ≤ (b : K) * 2 ^ f := by rw [← E, ← eb]; linarith
        have := le_of_mul_le_mul_right this p
        have : a * 2 ^ d - b ≤ b := by exact_mod_cast this
        omega
  obtain ⟨m, g, m0, m1, g1, E⟩ := key
  rw [E, b64pos_exact m0 m1 g1]

theorem isDouble_neg {x : K} (h : IsDouble x) : IsDouble (-x) := by
  show b64rd (-x) = _
  rw [b64rd_neg, show b64rd x = .fin x from h]; rfl

/-- **Sterbenz' lemma**: the difference of two doubles within a factor of two of each other is a double. -/
theorem sterbenz {x y : K} (hx : IsDouble x) (hy : IsDouble y) (h1 : x ≤ 2 * y) (h2 : y ≤ 2 * x) : IsDouble (x - y) := by
  have x0 : 0 ≤ x := by linarith
  have y0 : 0 ≤ y := by linarith
  rcases le_total y x with q | q
  · exact sterbenz_pos hx hy y0 q h1
  · have := isDouble_neg (sterbenz_pos hy hx x0 q h2)
    rwa [neg_sub] at this

theorem IsDouble.sub {x y : K} (h : IsDouble (x - y)) : (rk x -. rk y : Double K) = rk (x - y) := by
  have h : binary64.rd (x - y) = Val.fin (x - y) := h
  rw [sub_eq_add_neg] at h
  show binary64.rd (x + -y) = _
  rw [h, ← sub_eq_add_neg]; rfl

theorem npMax2_rk (a b : K) : npMax2 (rk a : Double K) (rk b) = rk (max a b) := by
  show (if decide (a < b) = true then rk b else rk a : Double K) = _
  by_cases q : a < b
  · rw [if_pos (by simpa using q), max_eq_right q.le]
  · rw [if_neg (by simpa using q), max_eq_left (not_lt.mp q)]

/-! ## bars -/

/-- bars of doubles with the close between low and high, two neighbouring ones always within a factor of two of each other -/
structure Steady (n : Nat) (h l c : Nat → K) : Prop where
  dbl : ∀ i, i < n → IsDouble (h i) ∧ IsDouble (l i) ∧ IsDouble (c i)
  ord : ∀ i, i < n → l i ≤ c i ∧ c i ≤ h i
  near : ∀ i, i + 1 < n → max (h i) (h (i + 1)) ≤ 2 * min (l i) (l (i + 1))

section bars
variable {n : Nat} {h l c : Nat → K}

theorem Steady.far (S : Steady n h l c) {j : Nat} (hj : j < n) (j1 : 1 ≤ j) :
    h (j - 1) ≤ 2 * l (j - 1) ∧ h (j - 1) ≤ 2 * l j ∧ h j ≤ 2 * l (j - 1) ∧ h j ≤ 2 * l j := by
  obtain ⟨i, rfl⟩ : ∃ i, j = i + 1 := ⟨j - 1, by omega⟩
  have := S.near i hj
  have a := le_max_left (h i) (h (i + 1))
  have b := le_max_right (h i) (h (i + 1))
  have d := min_le_left (l i) (l (i + 1))
  have e := min_le_right (l i) (l (i + 1))
  rw [Nat.add_sub_cancel]
  refine ⟨?_, ?_, ?_, ?_⟩ <;> linarith

theorem Steady.up (S : Steady n h l c) {j : Nat} (hj : j < n) (j1 : 1 ≤ j) : IsDouble (h j - h (j - 1)) := by
  have F := S.far hj j1
  have o := S.ord j hj
  have o' := S.ord (j - 1) (by omega)
  exact sterbenz (S.dbl j hj).1 (S.dbl (j - 1) (by omega)).1 (by linarith) (by linarith)

theorem Steady.down (S : Steady n h l c) {j : Nat} (hj : j < n) (j1 : 1 ≤ j) : IsDouble (l (j - 1) - l j) := by
  have F := S.far hj j1
  have o := S.ord j hj
  have o' := S.ord (j - 1) (by omega)
  exact sterbenz (S.dbl (j - 1) (by omega)).2.1 (S.dbl j hj).2.1 (by linarith) (by linarith)

theorem Steady.rng (S : Steady n h l c) {j : Nat} (hj : j < n) (j1 : 1 ≤ j) : IsDouble (trv h l c j) := by
  have F := S.far hj j1
  have o := S.ord j hj
  have o' := S.ord (j - 1) (by omega)
  have d := S.dbl j hj
  have d' := S.dbl (j - 1) (by omega)
  unfold trv
  rcases max_cases (h j) (c (j - 1)) with q | q <;> rcases min_cases (l j) (c (j - 1)) with r | r <;> rw [q.1, r.1]
  · exact sterbenz d.1 d.2.1 (by linarith) (by linarith)
  · exact sterbenz d.1 d'.2.2 (by linarith) (by linarith)
  · exact sterbenz d'.2.2 d.2.1 (by linarith) (by linarith)
  · exact sterbenz d'.2.2 d'.2.2 (by linarith) (by linarith)

theorem prev_nan {x : Nat → K} (hi : 0 < n) : ix (shift (dser n x) 1) 0 = (nan : Double K) := by
  rw [ix_shift (by simpa [rser] using hi), if_pos (by omega)]

theorem prev_rk {x : Nat → K} {i : Nat} (hi : i < n) (h1 : 1 ≤ i) : ix (shift (dser n x) 1) i = rk (x (i - 1)) := by
  rw [ix_shift (by simpa [rser] using hi), if_neg (by omega), ix_rk (by omega)]

theorem Steady.from_range (S : Steady n h l c) : From (ADX.range (dser n h) (dser n l) (dser n c)) n 1 (trv h l c) := by
  unfold ADX.range getMax getMin
  refine ⟨by simp [rser], fun i hi h1 => ?_, fun i hi h1 => ?_⟩
  all_goals rw [ix_ssub (by simpa [rser] using hi), ix_zip2 (by simpa [rser] using hi), ix_zip2 (by simpa [rser] using hi)]
  · obtain rfl : i = 0 := by omega
    rw [prev_nan hi, ix_rk hi, ix_rk hi]; rfl
  · rw [prev_rk hi h1, ix_rk hi, ix_rk hi, npMax2_rk, npMin2_rk]
    exact (S.rng hi h1).sub

theorem dm_rk {x y : K} (hx : IsDouble x) :
    (Flt.abs ((if ((rk x : Double K) >. rk y) && ((rk x : Double K) >. lit 0) then lit 1 else lit 0) *. rk x) : Double K)
      = rk (if y < x ∧ 0 < x then x else 0) := by
  have h1 : (lit 1 : Double K) = rk 1 := by show binary64.rd ((1 : ℚ) : K) = _; rw [Rat.cast_one, Rounding.one]; rfl
  have h0 : (lit 0 : Double K) = rk 0 := by show binary64.rd ((0 : ℚ) : K) = _; rw [Rat.cast_zero, Rounding.zero]; rfl
  rw [h1, h0]
  by_cases q : y < x ∧ 0 < x
  · have : (((rk x : Double K) >. rk y) && ((rk x : Double K) >. rk 0)) = true := by
      show (decide (y < x) && decide (0 < x)) = true
      simpa using q
    rw [if_pos this, if_pos q]
    show Val.abs (binary64.rd (1 * x)) = _
    rw [one_mul, show binary64.rd x = _ from hx]
    show Val.fin |x| = _
    rw [abs_of_pos q.2]; rfl
  · have : ¬ (((rk x : Double K) >. rk y) && ((rk x : Double K) >. rk 0)) = true := by
      show ¬ (decide (y < x) && decide (0 < x)) = true
      simpa using q
    rw [if_neg this, if_neg q]
    show Val.abs (binary64.rd (0 * x)) = _
    rw [zero_mul, Rounding.zero]
    show Val.fin |0| = _
    rw [abs_zero]; rfl

theorem dm_nan (v : Double K) : (Flt.abs ((if ((nan : Double K) >. v) && ((nan : Double K) >. lit 0) then lit 1 else lit 0) *. (nan : Double K)) : Double K) = nan := by
  generalize (if ((nan : Double K) >. v) && ((nan : Double K) >. lit 0) then (lit 1 : Double K) else lit 0) = k
  cases k <;> rfl

theorem Steady.from_pos (S : Steady n h l c) : From (ADX.pos (dser n h) (dser n l)) n 1 (dmUp h l) := by
  unfold ADX.pos ADX.dm
  refine ⟨by simp [rser], fun i hi h1 => ?_, fun i hi h1 => ?_⟩
  all_goals rw [ix_zip2 (by simpa [rser] using hi), ix_ssub (by simpa [rser] using hi), ix_ssub (by simpa [rser] using hi)]
  · obtain rfl : i = 0 := by omega
    rw [prev_nan hi, prev_nan hi, sub_nan_double]
    exact dm_nan _
  · rw [prev_rk hi h1, prev_rk hi h1, ix_rk hi, ix_rk hi, (S.up hi h1).sub, (S.down hi h1).sub]
    exact dm_rk (S.up hi h1)

theorem Steady.from_neg (S : Steady n h l c) : From (ADX.neg (dser n h) (dser n l)) n 1 (dmDown h l) := by
  unfold ADX.neg ADX.dm
  refine ⟨by simp [rser], fun i hi h1 => ?_, fun i hi h1 => ?_⟩
  all_goals rw [ix_zip2 (by simpa [rser] using hi), ix_ssub (by simpa [rser] using hi), ix_ssub (by simpa [rser] using hi)]
  · obtain rfl : i = 0 := by omega
    rw [prev_nan hi, prev_nan hi, nan_sub_double]
    exact dm_nan _
  · rw [prev_rk hi h1, prev_rk hi h1, ix_rk hi, ix_rk hi, (S.up hi h1).sub, (S.down hi h1).sub]
    exact dm_rk (S.down hi h1)

theorem Steady.up_le (S : Steady n h l c) {j : Nat} (hj : j < n) (j1 : 1 ≤ j) : dmUp h l j ≤ trv h l c j := by
  have o := S.ord j hj
  have o' := S.ord (j - 1) (by omega)
  have a := le_max_left (h j) (c (j - 1))
  have b := min_le_right (l j) (c (j - 1))
  have d := le_max_right (h j) (c (j - 1))
  unfold dmUp trv
  split_ifs <;> linarith

theorem Steady.down_le (S : Steady n h l c) {j : Nat} (hj : j < n) (j1 : 1 ≤ j) : dmDown h l j ≤ trv h l c j := by
  have o := S.ord j hj
  have o' := S.ord (j - 1) (by omega)
  have a := le_max_right (h j) (c (j - 1))
  have b := min_le_left (l j) (c (j - 1))
  have d := min_le_right (l j) (c (j - 1))
  unfold dmDown trv
  split_ifs <;> linarith

end bars

/-! ## Wilder's running sums -/

theorem wil_const (a : K) {w : Nat} (hw : 1 ≤ w) (i : Nat) : wil (fun _ => a) w i = w * a := by
  have hw' : (w : K) ≠ 0 := by exact_mod_cast (by omega : w ≠ 0)
  induction i with
  | zero => unfold wil; simp
  | succ i ih => unfold wil; rw [ih]; field_simp; ring

/-- the error of one step: quotient, difference and sum each lose at most a little more than `eps` times the bound of the sums -/
theorem wil_step {w : Nat} (hw : 1 ≤ w) (hw2 : w ≤ 2 ^ 40) {A B W x p : K} (hB : tiny ≤ B) (hB2 : 2 * B ≤ cap) (hA : 3.2 * w ≤ A) (hA2 : A * eps ≤ 0.01)
    (hW0 : 0 ≤ W) (hW : W ≤ B) (hn0 : 0 ≤ W - W / w + x) (hn : W - W / w + x ≤ B) (hp : |p - W| ≤ A * (eps * B)) :
    ∃ y, (rk p -. (rk p /. natF w)) +. rk x = (rk y : Double K) ∧ |y - (W - W / w + x)| ≤ A * (eps * B) := by
  have he := eps_pos (K := K)
  have hes := eps_small (K := K)
  have B0 : 0 < B := tiny_pos.trans_le hB
  have eB : 0 < eps * B := mul_pos he B0
  have AB : A * (eps * B) ≤ 0.01 * B := by rw [← mul_assoc]; exact mul_le_mul_of_nonneg_right hA2 B0.le
  have eBs : eps * B ≤ 0.001 * B := mul_le_mul_of_nonneg_right (hes.trans (by norm_num)) B0.le
  have w1 : (1 : K) ≤ w := by exact_mod_cast hw
  have w0 : (0 : K) < w := lt_of_lt_of_le one_pos w1
  have pB : |p| ≤ 1.01 * B := by
    rw [abs_le] at hp ⊢
    constructor <;> linarith [hp.1, hp.2]
  have pw : |p / w| ≤ 1.01 * B := by
    rw [abs_div, abs_of_pos w0]
    exact (div_le_self (abs_nonneg _) w1).trans pB
  -- the part of the old sum that stays
  have e1 : p - p / w - (W - W / w) = (p - W) * (1 - 1 / w) := by ring
  have f0 : 0 ≤ 1 - 1 / (w : K) := by rw [sub_nonneg, div_le_one w0]; exact w1
  have f1 : 1 - 1 / (w : K) ≤ 1 := by have : (0 : K) ≤ 1 / w := by positivity
                                      linarith
  have e2 : |p - p / w - (W - W / w)| ≤ A * (eps * B) * (1 - 1 / w) := by
    rw [e1, abs_mul, abs_of_nonneg f0]
    exact mul_le_mul_of_nonneg_right hp f0
  have e3 : A * (eps * B) * (1 - 1 / w) ≤ A * (eps * B) - 3.2 * (eps * B) := by
    have : 3.2 * (eps * B) ≤ A * (eps * B) * (1 / w) := by
      rw [mul_one_div, le_div_iff₀ w0]
      calc 3.2 * (eps * B) * w = 3.2 * w * (eps * B) := by ring
        _ ≤ _ := mul_le_mul_of_nonneg_right hA eB.le
    rw [mul_sub, mul_one]; linarith
  have pm : |p - p / w| ≤ 1.01 * B := by
    rw [show p - p / w = p * (1 - 1 / w) by ring, abs_mul, abs_of_nonneg f0]
    calc |p| * (1 - 1 / (w : K)) ≤ |p| * 1 := mul_le_mul_of_nonneg_left f1 (abs_nonneg _)
      _ ≤ _ := by rw [mul_one]; exact pB
  obtain ⟨q, q1, q2⟩ := near_div (K := K) (x := p) (y := w) (B := 1.01 * B) w0.ne' pw (by linarith) (by linarith)
  have ms : |p - q| ≤ 1.02 * B := by
    have : p - q = (p - p / w) - (q - p / w) := by ring
    rw [this]
    refine (abs_sub _ _).trans ?_
    linarith
  obtain ⟨s, s1, s2⟩ := near_sub (K := K) (x := p) (y := q) (B := 1.02 * B) ms (by linarith) (by linarith)
  have st : |s - (W - W / w)| ≤ A * (eps * B) - 3.2 * (eps * B) + 2.04 * (eps * B) := by
    have : s - (W - W / w) = (s - (p - q)) - (q - p / w) + (p - p / w - (W - W / w)) := by ring
    rw [this]
    refine (abs_add_le _ _).trans ?_
    have := abs_sub (s - (p - q)) (q - p / w)
    linarith
  have sx : |s + x| ≤ 1.02 * B := by
    rw [abs_le] at st ⊢
    constructor <;> linarith [st.1, st.2]
  obtain ⟨y, y1, y2⟩ := near_add (K := K) (x := s) (y := x) (B := 1.02 * B) sx (by linarith) (by linarith)
  refine ⟨y, ?_, ?_⟩
  · rw [natF_rk hw2, q1, s1, y1]
  · have : y - (W - W / w + x) = (y - (s + x)) + (s - (W - W / w)) := by ring
    rw [this]
    refine (abs_add_le _ _).trans ?_
    linarith

theorem From.wilderAt {σ : List (Double K) → Double K} {s : Series (Double K)} {n w d : Nat} {f : Nat → K} {T : K} (hf : From s n 1 f) (hσ : SumsIn σ w d) (hd : d ≤ 2 ^ 40)
    (hw : 1 ≤ w) (hw2 : w ≤ 2 ^ 40) (hT : tiny ≤ T) (hT2 : 2 * T ≤ huge) (h0 : ∀ j, 1 ≤ j → j < n → 0 ≤ f j) (hfT : ∀ j, 1 ≤ j → j < n → f j ≤ T) :
    ∀ i, w + i < n → ∃ y, ADX.wilderAtBy σ s w i = rk y ∧ |y - wil f w i| ≤ (3.2 * w + 1.1 * d) * (eps * (w * T)) := by
  have he := eps_pos (K := K)
  have T0 : 0 < T := tiny_pos.trans_le hT
  have w1 : (1 : K) ≤ w := by exact_mod_cast hw
  have wT : T ≤ w * T := by have := mul_le_mul_of_nonneg_right w1 T0.le; linarith
  have d0 : (0 : K) ≤ d := Nat.cast_nonneg _
  have eT : 0 < eps * (w * T) := mul_pos he (T0.trans_le wT)
  intro i
  induction i with
  | zero =>
    intro hi
    have v : (sdropna s).take w = ((List.range' 1 w).map f).map (rk : K → Double K) := by
      have := hf.valid_take (k := n) le_rfl
      rw [List.take_of_length_le hf.len.le] at this
      unfold sdropna
      rw [this, ← List.map_take, take_range1 (by omega), Nat.add_sub_cancel, List.map_map]; rfl
    have mem : ∀ y ∈ (List.range' 1 w).map f, |y| ≤ T := by
      intro y hy
      obtain ⟨j, hj, rfl⟩ := List.mem_map.mp hy
      rw [List.mem_range'_1] at hj
      rw [abs_of_nonneg (h0 j hj.1 (by omega))]
      exact hfT j hj.1 (by omega)
    have A := hσ (((List.range' 1 w).map f).map (rk : K → Double K)) (by simp)
    obtain ⟨y, y1, y2⟩ := adds_double A hT (by linarith) mem (by simpa using hw2) hd
    refine ⟨y, ?_, ?_⟩
    · unfold ADX.wilderAtBy
      rw [v]; exact y1
    · have e : ((List.range' 1 w).map f).sum = wil f w 0 := by
        rw [sum_range', Nat.add_comm]; rfl
      rw [e, List.length_map, List.length_range'] at y2
      refine y2.trans ?_
      have : (0 : K) ≤ 3.2 * w * (eps * (w * T)) := by positivity
      rw [add_mul]
      calc (d : K) * (1.1 * eps * (T * w)) = 1.1 * d * (eps * (w * T)) := by ring
        _ ≤ _ := by linarith
  | succ i ih =>
    intro hi
    obtain ⟨p, p1, p2⟩ := ih (by omega)
    have b0 : ∀ k, w + k < n → 0 ≤ wil f w k := fun k hk => by
      have := wil_le (f := fun _ => 0) (g := f) hw (k := k) fun j j1 j2 => h0 j j1 (by omega)
      rwa [wil_const _ hw, mul_zero] at this
    have b1 : ∀ k, w + k < n → wil f w k ≤ w * T := fun k hk => by
      have := wil_le (f := f) (g := fun _ => T) hw (k := k) fun j j1 j2 => hfT j j1 (by omega)
      rwa [wil_const _ hw] at this
    have n0 := b0 (i + 1) hi
    have n1 := b1 (i + 1) hi
    have E : wil f w (i + 1) = wil f w i - wil f w i / w + f (w + 1 + i) := rfl
    rw [E] at n0 n1 ⊢
    have hwe := eps_win (K := K) hw2
    have hde := eps_win (K := K) hd
    have h2 : 2 * (w * T) ≤ cap := by
      have := mul_le_mul_of_nonneg_right hT2 (Nat.cast_nonneg (α := K) w)
      have h4 := huge_win (K := K) hw2
      linarith
    obtain ⟨y, y1, y2⟩ := wil_step hw hw2 (A := 3.2 * (w : K) + 1.1 * d) (hT.trans wT) h2 (by linarith) (by linarith) (b0 i (by omega)) (b1 i (by omega)) n0 n1 p2
    refine ⟨y, ?_, y2⟩
    unfold ADX.wilderAtBy
    dsimp only
    rw [p1, hf.val (w + (i + 1)) hi (by omega), show w + (i + 1) = w + 1 + i by omega]
    exact y1

/-! ## the indicators -/

/-- `100 * (d / t)` with both sums computed -/
theorem di_rk {t d t' d' α : K} (ht : 0 < t) (hd : 0 ≤ d) (hdt : d ≤ t) (hα : 0 ≤ α) (hα1 : α * eps ≤ 0.003) (h1 : |t' - t| ≤ α * (eps * t)) (h2 : |d' - d| ≤ α * (eps * t)) :
    ∃ y, ADX.di (rk t') (rk d') = (rk y : Double K) ∧ |y - dirInd t d| ≤ (202 * α + 204) * eps := by
  have he := eps_pos (K := K)
  have hes := eps_small (K := K)
  have q : |t' - t| ≤ 0.003 * t := by
    refine h1.trans ?_
    rw [← mul_assoc]
    exact mul_le_mul_of_nonneg_right hα1 ht.le
  have t0 : t' ≠ 0 := by
    have := (abs_le.mp q).1
    intro e; rw [e] at this; linarith
  obtain ⟨z, z1, z2⟩ := wquot_near (N := d) (D := t) (N' := d') (D' := t') (b := 1) ht tiny_le_one (by linarith [thousand_le_cap (K := K)]) hα hα hα1 hα1
    (by rw [abs_of_nonneg hd, one_mul]; exact hdt) (by rw [one_mul]; exact h2) h1
  have r0 : 0 ≤ d / t := div_nonneg hd ht.le
  have r1 : d / t ≤ 1 := (div_le_one ht).mpr hdt
  have z3 : |z - d / t| ≤ (2.02 * α + 1.02) * eps := z2.trans (le_of_eq (by ring))
  have z4 : |100 * z| ≤ 101 := by
    have : (2.02 * α + 1.02) * eps ≤ 0.01 := by
      have e : (2.02 * α + 1.02) * eps = 2.02 * (α * eps) + 1.02 * eps := by ring
      rw [e]; linarith
    rw [abs_le] at z3 ⊢
    constructor <;> linarith [z3.1, z3.2]
  obtain ⟨y, y1, y2⟩ := near_mul (K := K) (x := 100) (y := z) (B := 101) z4 (by linarith [tiny_le_one (K := K)]) (by linarith [thousand_le_cap (K := K)])
  have h0 : (lit 0 : Double K) = rk 0 := lit_double (k := 0) (by norm_num) (by norm_num) (by norm_num)
  have h100 : (lit 100 : Double K) = rk 100 := lit_double (k := 100) (by norm_num) (by norm_num) (by norm_num)
  refine ⟨y, ?_, ?_⟩
  · unfold ADX.di
    have : ((rk t' : Double K) !=. lit 0) = true := by
      rw [h0]
      show (!decide (t' = 0)) = true
      simpa using t0
    rw [if_pos this, z1, h100, y1]
  · unfold dirInd
    rw [if_neg ht.ne']
    have : y - 100 * d / t = (y - 100 * z) + 100 * (z - d / t) := by ring
    rw [this]
    refine (abs_add_le _ _).trans ?_
    rw [abs_mul, abs_of_pos (by norm_num : (0 : K) < 100)]
    have e : (202 * α + 204) * eps = 100 * ((2.02 * α + 1.02) * eps) + 102 * eps := by ring
    rw [e]
    linarith

section rows
variable {n : Nat} {h l c : Nat → K}

/-- row `i` of one of the two lines, counted from the first sum -/
theorem di_at {σ : List (Double K) → Double K} {t d : Series (Double K)} {w a : Nat} {f g : Nat → K} {m r : K} (ht : From t n 1 f) (hd : From d n 1 g) (hσ : SumsIn σ w a)
    (ha : a ≤ 2 ^ 40) (hw : 1 ≤ w) (hw2 : w ≤ 2 ^ 40) (hm : tiny ≤ m) (hr : 1 ≤ r) (hm2 : 2 * (r * m) ≤ huge) (hrw : (3.2 * w + 1.1 * a) * r * eps ≤ 0.003)
    (hf : ∀ j, 1 ≤ j → j < n → m ≤ f j ∧ f j ≤ r * m) (hg : ∀ j, 1 ≤ j → j < n → 0 ≤ g j ∧ g j ≤ f j) {i : Nat} (hi : w + i < n) :
    ∃ y, ADX.di (ix (ADX.wilderBy σ t w) i) (ix (ADX.wilderBy σ d w) i) = (rk y : Double K) ∧
      |y - dirInd (wil f w i) (wil g w i)| ≤ (202 * ((3.2 * w + 1.1 * a) * r) + 204) * eps := by
  have he := eps_pos (K := K)
  have m0 : 0 < m := tiny_pos.trans_le hm
  have r0 : 0 < r := lt_of_lt_of_le one_pos hr
  have hT : tiny ≤ r * m := by have := mul_le_mul_of_nonneg_right hr m0.le; linarith
  have w1 : (1 : K) ≤ w := by exact_mod_cast hw
  have a0 : (0 : K) ≤ a := Nat.cast_nonneg _
  have A0 : 0 ≤ (3.2 * (w : K) + 1.1 * a) * r := by positivity
  have row : ∀ {s : Series (Double K)} {φ : Nat → K}, From s n 1 φ → ix (ADX.wilderBy σ s w) i = ADX.wilderAtBy σ s w i := fun {s φ} hs => by
    unfold ADX.wilderBy
    dsimp only
    rw [hs.len, ix_tab_lt (by omega)]
    split_ifs with h0 h1
    · rw [h0]
    · rfl
    · omega
  rw [row ht, row hd]
  obtain ⟨x, x1, x2⟩ := ht.wilderAt hσ ha hw hw2 hT hm2 (fun j j1 j2 => m0.le.trans (hf j j1 j2).1) (fun j j1 j2 => (hf j j1 j2).2) i (by omega)
  obtain ⟨y, y1, y2⟩ := hd.wilderAt hσ ha hw hw2 hT hm2 (fun j j1 j2 => (hg j j1 j2).1) (fun j j1 j2 => (hg j j1 j2).2.trans (hf j j1 j2).2) i (by omega)
  have t1 : w * m ≤ wil f w i := by
    have := wil_le (f := fun _ => m) (g := f) hw (k := i) fun j j1 j2 => (hf j j1 (by omega)).1
    rwa [wil_const _ hw] at this
  have d0 : 0 ≤ wil g w i := by
    have := wil_le (f := fun _ => 0) (g := g) hw (k := i) fun j j1 j2 => (hg j j1 (by omega)).1
    rwa [wil_const _ hw, mul_zero] at this
  have d1 : wil g w i ≤ wil f w i := wil_le hw fun j j1 j2 => (hg j j1 (by omega)).2
  have t0 : 0 < wil f w i := lt_of_lt_of_le (by positivity) t1
  have cv : (3.2 * (w : K) + 1.1 * a) * (eps * (w * (r * m))) ≤ (3.2 * w + 1.1 * a) * r * (eps * wil f w i) := by
    calc (3.2 * (w : K) + 1.1 * a) * (eps * (w * (r * m))) = (3.2 * w + 1.1 * a) * r * (eps * (w * m)) := by ring
      _ ≤ _ := mul_le_mul_of_nonneg_left (mul_le_mul_of_nonneg_left t1 he.le) A0
  rw [x1, y1]
  exact di_rk t0 d0 d1 A0 hrw (x2.trans cv) (y2.trans cv)

/-- one of the two lines -/
theorem di_line {σ : List (Double K) → Double K} {t d : Series (Double K)} {w a : Nat} {f g : Nat → K} {m r : K} (ht : From t n 1 f) (hd : From d n 1 g) (hσ : SumsIn σ w a)
    (ha : a ≤ 2 ^ 40) (hw : 1 ≤ w) (hw2 : w ≤ 2 ^ 40) (hm : tiny ≤ m) (hr : 1 ≤ r) (hm2 : 2 * (r * m) ≤ huge) (hrw : (3.2 * w + 1.1 * a) * r * eps ≤ 0.003)
    (hf : ∀ j, 1 ≤ j → j < n → m ≤ f j ∧ f j ≤ r * m) (hg : ∀ j, 1 ≤ j → j < n → 0 ≤ g j ∧ g j ≤ f j) :
    Approx (ADX.place n w (ADX.wilderBy σ t w) (ADX.wilderBy σ d w)) n 0 (fun k => if k ≤ w then 0 else dirInd (wil f w (k - w)) (wil g w (k - w)))
      ((202 * ((3.2 * w + 1.1 * a) * r) + 204) * eps) := by
  have he := eps_pos (K := K)
  have r0 : 0 < r := lt_of_lt_of_le one_pos hr
  unfold ADX.place
  refine ⟨by simp, fun i _ h2 => by omega, fun i hi _ => ?_⟩
  have hl : (ADX.wilderBy σ t w).length = n - (w - 1) := by simp [ADX.wilderBy, ht.len]
  rw [ix_tab_lt hi, hl]
  by_cases h1 : i ≤ w
  · rw [if_neg (by omega), if_pos h1]
    refine ⟨0, lit_double (k := 0) (by norm_num) (by norm_num) (by norm_num), ?_⟩
    rw [sub_self, abs_zero]
    positivity
  · rw [if_pos (by omega), if_neg h1]
    exact di_at ht hd hσ ha hw hw2 hm hr hm2 hrw hf hg (by omega)

/-- C130. **+DI and -DI in double precision.**  `σ` adds up the first `w` values in any order. -/
theorem adx_di_double {σ : List (Double K) → Double K} {w a : Nat} {m r : K} {fillna : Bool} {o : ADX (Val K)} (S : Steady n h l c) (hσ : SumsIn σ w a)
    (ha : a ≤ 2 ^ 40) (hw2 : w ≤ 2 ^ 40) (hm : tiny ≤ m) (hr : 1 ≤ r) (hm2 : 2 * (r * m) ≤ huge) (hrw : (3.2 * w + 1.1 * a) * r * eps ≤ 0.003)
    (htr : ∀ j, 1 ≤ j → j < n → m ≤ trv h l c j ∧ trv h l c j ≤ r * m) (ho : ADX.new (ser n h) (ser n l) (ser n c) w fillna = .ok o) :
    CloseTo ((650 * w + 223 * a + 204) * r * eps) (ADX.runBy σ (dser n h) (dser n l) (dser n c) w fillna).adxPos o.adxPos ∧
    CloseTo ((650 * w + 223 * a + 204) * r * eps) (ADX.runBy σ (dser n h) (dser n l) (dser n c) w fillna).adxNeg o.adxNeg := by
  have he := eps_pos (K := K)
  have hw := (adx_obj ho).1
  have E := adx_di_formula ho
  have w1 : (1 : K) ≤ w := by exact_mod_cast hw
  have a0 : (0 : K) ≤ a := Nat.cast_nonneg _
  have le : (202 * ((3.2 * w + 1.1 * a) * r) + 204) * eps ≤ (650 * (w : K) + 223 * a + 204) * r * eps := by
    refine mul_le_mul_of_nonneg_right ?_ he.le
    have u : (0 : K) ≤ w * r := by positivity
    have v : (0 : K) ≤ a * r := by positivity
    linarith
  have hl : (dser n c).length = n := len_dser n c
  have P := (di_line S.from_range S.from_pos hσ ha hw hw2 hm hr hm2 hrw htr fun j j1 j2 => ⟨dmUp_nonneg _ _ _, S.up_le j2 j1⟩).mono le
  have N := (di_line S.from_range S.from_neg hσ ha hw hw2 hm hr hm2 hrw htr fun j j1 j2 => ⟨dmDown_nonneg _ _ _, S.down_le j2 j1⟩).mono le
  constructor
  · have := P.fill fillna (.const (lit 20))
    refine Approx.close ?_ E.1
    unfold ADX.adxPos ADX.runBy
    dsimp only
    rw [hl]; exact this
  · have := N.fill fillna (.const (lit 20))
    refine Approx.close ?_ E.2
    unfold ADX.adxNeg ADX.runBy
    dsimp only
    rw [hl]; exact this

end rows

/-- C130. The three inputs of the sums are the exact ones. -/
theorem adx_inputs_exact {n : Nat} {h l c : Nat → K} (S : Steady n h l c) {j : Nat} (hj : j < n) (j1 : 1 ≤ j) :
    ix (ADX.range (dser n h) (dser n l) (dser n c)) j = rk (max (h j) (c (j - 1)) - min (l j) (c (j - 1))) ∧
    ix (ADX.pos (dser n h) (dser n l)) j = rk (dmUp h l j) ∧ ix (ADX.neg (dser n h) (dser n l)) j = rk (dmDown h l j) :=
  ⟨S.from_range.val j hj j1, S.from_pos.val j hj j1, S.from_neg.val j hj j1⟩

theorem sumL_sumsIn (n : Nat) : SumsIn (sumL : List (Double K) → Double K) n n := fun l hl => (AddsUp.sumL l).mono hl

/-- with the plain sum it is the model -/
theorem adx_runBy_sumL {F : Type} [Flt F] (h l c : Series F) (w : Nat) (b : Bool) : ADX.runBy sumL h l c w b = ADX.run h l c w b := by
  have : ∀ (x : Series F) (i : Nat), ADX.wilderAtBy sumL x w i = ADX.wilderAt x w i := fun x i => by
    induction i with
    | zero => rfl
    | succ i ih => unfold ADX.wilderAtBy ADX.wilderAt; rw [ih]
  unfold ADX.runBy ADX.run ADX.wilderBy ADX.wilder
  simp only [this]

theorem new_ok {n : Nat} (h l c : Nat → K) {w : Nat} (hw : 1 ≤ w) (hn : w ≤ n) (b : Bool) :
    ADX.new (ser n h) (ser n l) (ser n c) w b = .ok (ADX.run (ser n h) (ser n l) (ser n c) w b) := by
  have hl : (ser n c).length = n := by simp [ser]
  unfold ADX.new
  rw [hl, if_neg (by omega), if_neg (by omega), if_neg (by omega)]

end dbl

/-- C130. **Without the factor of two a near tie can become a tie.**  In the last row the high rises by 1 and the low falls by `1 - 2^-60`,
which rounds to 1: +DI is 0 instead of 33.3. -/
theorem adx_di_tie :
    (ADX.run (F := Double ℚ) [rk 2, rk 2, rk 3] [rk 1, rk 1, rk (1 / 2 ^ 60)] [rk (3 / 2), rk (3 / 2), rk (3 / 2)] 1 false).adxPos = ([rk 0, rk 0, rk 0] : Series (Double ℚ)) ∧
    (ADX.run (F := Val ℚ) [.fin 2, .fin 2, .fin 3] [.fin 1, .fin 1, .fin (1 / 2 ^ 60)] [.fin (3 / 2), .fin (3 / 2), .fin (3 / 2)] 1 false).adxPos
      = [.fin 0, .fin 0, .fin (100 / (3 - 1 / 2 ^ 60))] := by
  constructor <;> decide +kernel

section ex

/-- whole numbers are doubles -/
theorem isDouble_int {k : ℤ} (h : |k| ≤ 2 ^ 52) : IsDouble (k : ℚ) := b64_int h

/-- bars of height 2 that go up twice and fall back -/
example {n : Nat} (hn : 14 ≤ n) (b : Bool) :
    CloseTo (30204 * eps)
      (ADX.runBy npSum (dser n fun i => ((12 + i % 3 : ℕ) : ℚ)) (dser n fun i => ((10 + i % 3 : ℕ) : ℚ)) (dser n fun i => ((11 + i % 3 : ℕ) : ℚ)) 14 b).adxPos
      (ADX.run (ser n fun i => ((12 + i % 3 : ℕ) : ℚ)) (ser n fun i => ((10 + i % 3 : ℕ) : ℚ)) (ser n fun i => ((11 + i % 3 : ℕ) : ℚ)) 14 b).adxPos := by
  have dbl : ∀ k : ℕ, k ≤ 14 → IsDouble ((k : ℕ) : ℚ) := fun k hk => by
    have := isDouble_int (k := k) (by rw [abs_of_nonneg (by omega)]; omega)
    simpa using this
  have S : Steady n (fun i => ((12 + i % 3 : ℕ) : ℚ)) (fun i => ((10 + i % 3 : ℕ) : ℚ)) (fun i => ((11 + i % 3 : ℕ) : ℚ)) := by
    refine ⟨fun i _ => ⟨dbl _ (by omega), dbl _ (by omega), dbl _ (by omega)⟩, fun i _ => ⟨?_, ?_⟩, fun i _ => ?_⟩
    · exact_mod_cast (by omega : 10 + i % 3 ≤ 11 + i % 3)
    · exact_mod_cast (by omega : 11 + i % 3 ≤ 12 + i % 3)
    · have a : ∀ j : ℕ, ((12 + j % 3 : ℕ) : ℚ) ≤ 14 := fun j => by exact_mod_cast (by omega : 12 + j % 3 ≤ 14)
      have b : ∀ j : ℕ, (10 : ℚ) ≤ ((10 + j % 3 : ℕ) : ℚ) := fun j => by exact_mod_cast (by omega : 10 ≤ 10 + j % 3)
      have := max_le (a i) (a (i + 1))
      have := le_min (b i) (b (i + 1))
      linarith
  have := (adx_di_double (σ := npSum) (w := 14) (a := 26) (m := 2) (r := 2) (fillna := b) S (npSum_sumsIn (s := 0) (by norm_num)) (by norm_num) (by norm_num)
    (by have := tiny_le_one (K := ℚ); linarith) (by norm_num) (by
      have : (2 : ℚ) ^ (3 : ℤ) ≤ huge := zpow_le_zpow_right₀ (by norm_num) (by norm_num)
      exact le_trans (by norm_num) this) (by unfold eps; norm_num) (fun j _ _ => ?_) (new_ok _ _ _ (by norm_num) hn b)).1
  · norm_num at this ⊢
    exact this
  · have e : ∀ x y z u : ℕ, ∀ k m : ℕ, max x y = min z u + k → k ≤ 4 → 2 ≤ k → (2 : ℚ) ≤ max (x : ℚ) y - min (z : ℚ) u ∧ max (x : ℚ) y - min (z : ℚ) u ≤ 2 * 2 := by
      intro x y z u k _ hk h4 h2
      have : max (x : ℚ) y = min (z : ℚ) u + k := by exact_mod_cast hk
      have h4 : (k : ℚ) ≤ 4 := by exact_mod_cast h4
      have h2 : (2 : ℚ) ≤ k := by exact_mod_cast h2
      rw [this]; constructor <;> linarith
    exact e _ _ _ _ (max (12 + j % 3) (11 + (j - 1) % 3) - min (10 + j % 3) (11 + (j - 1) % 3)) 0 (by omega) (by omega) (by omega)

end ex
end TA
