import Verif.Props.C97
import Verif.Props.C98
import Verif.Props.C114
import Verif.Props.C117

/-!
# C121 — KAMA in double precision

`ta/momentum.py:317-349`. KAMA smooths with a factor that is itself computed from the data: a quotient of two sums of
price changes. The quotient of two small numbers may be far off even when both are accurate in absolute terms; what saves
KAMA is that sums of absolute values lose no *relative* accuracy. `KAMA.runBy` is the loop with the denominator column given.
-/

set_option linter.unusedSectionVars false

namespace TA
open Finset

/-! ## the loop, denominator given -/

section any
variable {F : Type} [Flt F]

/-- `efficiency_ratio` and `smoothing_constant` (ta/momentum.py:321-334) over a given `er_den` -/
def KAMA.scBy (den close : Series F) (window pow1 pow2 : Nat) : Series F :=
  (zip2 (fun a b => if b !=. lit 0 then a /. b else lit 0) (sabs (ssub close (npRoll close window))) den).map (fun e =>
    let x := e *. ((lit 2 /. (natF pow1 +. lit 1)) -. (lit 2 /. (natF pow2 +. lit 1))) +. (lit 2 /. (natF pow2 +. lit 1))
    x *. x)

/-- `_run` (ta/momentum.py:317-349) over a given `er_den` -/
def KAMA.runBy (den close : Series F) (window pow1 pow2 : Nat) : Series F :=
  tab close.length (fun i => (iter (KAMA.step (KAMA.scBy den close window pow1 pow2) close) (nan, true) (i + 1)).1)

theorem KAMA.run_eq (close : Series F) (window pow1 pow2 : Nat) (fillna : Bool) :
    KAMA.run close window pow1 pow2 fillna = KAMA.runBy (rollSum window (minp fillna window) (KAMA.vol close)) close window pow1 pow2 := rfl

/-- `.kama()` with pandas' own rolling sum -/
def kamaPandas (close : Series F) (window pow1 pow2 : Nat) (fillna : Bool) : Series F :=
  checkFillna fillna (.ser close) (KAMA.runBy (onlineSum window (minp fillna window) (KAMA.vol close)) close window pow1 pow2)

end any

section dbl
variable {K : Type} [Field K] [LinearOrder K] [IsStrictOrderedRing K] [FloorRing K]

/-- in exact arithmetic pandas' kernel changes nothing -/
theorem kamaPandas_exact (c : Series (Val K)) (w pow1 pow2 : Nat) (fillna : Bool) : kamaPandas c w pow1 pow2 fillna = kama c w pow1 pow2 fillna := by
  unfold kamaPandas kama
  rw [online_sum, KAMA.run_eq]

/-! ## pieces -/

theorem lit2k : (lit 2 : Double K) = rk 2 := lit_double (k := 2) (by norm_num) (by norm_num) (by norm_num)

theorem zero_div_double {d : K} (hd : d ≠ 0) : (rk 0 /. rk d : Double K) = rk 0 := by
  have e : Val.div (.fin 0) (.fin d) = (.fin 0 : Val K) := by
    have := fin_div (0 : K) d hd
    rw [zero_div] at this
    exact this
  show (binary64 : Rounding K).rnd (Val.div (.fin 0) (.fin d)) = _
  rw [e]
  have := b64_int (K := K) (k := 0) (by norm_num)
  rw [Int.cast_zero] at this
  exact this

/-- `2 / (p + 1)` -/
theorem fastness_double {p : Nat} (h1 : 1 ≤ p) (h2 : p ≤ 2 ^ 40) :
    ∃ a : K, (lit 2 /. (natF p +. lit 1) : Double K) = rk a ∧ |a - 2 / ((p : K) + 1)| ≤ 1.001 * eps := by
  have e : (natF p +. lit 1 : Double K) = rk ((p : K) + 1) := by
    rw [natF_double (by omega), lit1k]
    have := b64_int (K := K) (k := (p : ℤ) + 1) (by rw [abs_of_nonneg (by omega)]; omega)
    show (binary64 : Rounding K).rd ((p : K) + 1) = _
    push_cast at this
    exact this
  have p0 : (0 : K) < (p : K) + 1 := by positivity
  obtain ⟨z, z1, z2⟩ := near_div (x := 2) (y := (p : K) + 1) (B := 1) p0.ne'
    (by rw [abs_of_pos (by positivity), div_le_one p0]; have : (1 : K) ≤ p := by exact_mod_cast h1
        linarith) tiny_le_one (le_trans (by norm_num) thousand_le_cap)
  exact ⟨z, by rw [e, lit2k, z1], by rw [mul_one] at z2; exact z2⟩

/-- a price change: no relative accuracy is lost -/
theorem change_near {x y : K} (h : x = y ∨ tiny ≤ |x - y|) (h2 : |x - y| ≤ cap) :
    ∃ v, (Flt.abs (rk x -. rk y) : Double K) = rk v ∧ 0 ≤ v ∧ |v - abs (x - y)| ≤ 1.001 * (eps * |x - y|) := by
  rcases h with rfl | h
  · refine ⟨0, ?_, le_rfl, by simp⟩
    rw [sub_self_double]
    show (rk |(0 : K)| : Double K) = rk 0
    rw [abs_zero]
  · obtain ⟨z, z1, z2⟩ := near_sub le_rfl h h2
    refine ⟨|z|, by rw [z1]; rfl, abs_nonneg _, (abs_abs_sub_abs_le _ _).trans z2⟩

theorem rel_zero {v f r : K} (hf : f = 0) (h : |v - f| ≤ r * f) : v = 0 := by
  rw [hf, mul_zero, sub_zero] at h
  exact abs_nonpos_iff.mp h

/-- **Sums of absolute values** lose no relative accuracy. -/
theorem sum_rel {ι : Type} (l : List ι) (v f : ι → K) (hf : ∀ j ∈ l, f j = 0 ∨ tiny ≤ f j) (hv : ∀ j ∈ l, |v j - f j| ≤ 1.001 * (eps * f j))
    {a A : K} {k : Nat} (hA : A = 0 ∨ tiny ≤ A) (ha : |a - A| ≤ 1.01 * (k + 1) * (eps * A)) (hk : k + l.length ≤ 2 ^ 40) (hcap : 2 * (A + (l.map f).sum) ≤ cap) :
    ∃ s, (l.map fun j => (rk (v j) : Double K)).foldl Flt.add (rk a) = rk s ∧
      |s - (A + (l.map f).sum)| ≤ 1.01 * ((k + l.length : Nat) + 1) * (eps * (A + (l.map f).sum)) := by
  induction l generalizing a A k with
  | nil => exact ⟨a, rfl, by simpa using ha⟩
  | cons j l ih =>
    have f0 : ∀ i ∈ j :: l, 0 ≤ f i := fun i hi => by
      rcases hf i hi with h | h
      · exact h.ge
      · exact tiny_pos.le.trans h
    have fj := f0 j (by simp)
    have A0 : 0 ≤ A := by
      rcases hA with h | h
      · exact h.ge
      · exact tiny_pos.le.trans h
    have S0 : 0 ≤ (l.map f).sum := List.sum_nonneg fun x hx => by
      obtain ⟨i, hi, rfl⟩ := List.mem_map.mp hx
      exact f0 i (by simp [hi])
    have hvj := hv j (by simp)
    have hlen : (j :: l).length = l.length + 1 := rfl
    have he := eps_pos (K := K)
    have hek := eps_win (K := K) (w := k) (by omega)
    have eA : 0 ≤ eps * A := mul_nonneg he.le A0
    have eF : 0 ≤ eps * f j := mul_nonneg he.le fj
    have k0 : (0 : K) ≤ k := Nat.cast_nonneg k
    have sm : 1.01 * ((k : K) + 1) * (eps * A) ≤ 0.002 * A := by
      have := mul_le_mul_of_nonneg_right hek A0
      linarith
    have sf : 1.001 * (eps * f j) ≤ 0.002 * f j := by
      have := mul_le_mul_of_nonneg_right (eps_small (K := K)) fj
      linarith
    simp only [List.map_cons, List.sum_cons, List.foldl_cons] at hcap ⊢
    have step : ∃ z, (rk a +. rk (v j) : Double K) = rk z ∧ |z - (A + f j)| ≤ 1.01 * ((k + 1 : Nat) + 1) * (eps * (A + f j)) := by
      by_cases h0 : A + f j = 0
      · have a0 : A = 0 := by linarith
        have f0 : f j = 0 := by linarith
        have q1 : a = 0 := rel_zero (r := 1.01 * (k + 1) * eps) a0 (by rw [mul_assoc]; exact ha)
        have q2 : v j = 0 := rel_zero (r := 1.001 * eps) f0 (by rw [mul_assoc]; exact hvj)
        refine ⟨0, ?_, by rw [h0]; simp⟩
        rw [q1, q2]
        have := b64_int (K := K) (k := 0) (by norm_num)
        rw [Int.cast_zero] at this
        show (binary64 : Rounding K).rd (0 + 0) = _
        rw [add_zero]; exact this
      · have ht : tiny ≤ A + f j := by
          rcases hA with h | h
          · rcases hf j (by simp) with h' | h'
            · exact absurd (by rw [h, h', add_zero]) h0
            · linarith
          · linarith
        have d1 : |a + v j - (A + f j)| ≤ 1.01 * (k + 1) * (eps * A) + 1.001 * (eps * f j) := by
          have := abs_add_le (a - A) (v j - f j)
          rw [show a - A + (v j - f j) = a + v j - (A + f j) by ring] at this
          linarith
        have d2 : |a + v j| ≤ 1.002 * (A + f j) := by
          have := abs_add_le (a + v j - (A + f j)) (A + f j)
          rw [sub_add_cancel, abs_of_nonneg (add_nonneg A0 fj)] at this
          linarith
        obtain ⟨z, z1, z2⟩ := near_add d2 (by linarith [tiny_pos (K := K)]) (by linarith)
        refine ⟨z, z1, ?_⟩
        have := abs_add_le (z - (a + v j)) (a + v j - (A + f j))
        rw [sub_add_sub_cancel] at this
        push_cast
        have p2 : 0 ≤ (k : K) * (eps * f j) := mul_nonneg k0 eF
        nlinarith
    obtain ⟨z, z1, z2⟩ := step
    have hA' : A + f j = 0 ∨ tiny ≤ A + f j := by
      rcases hA with h | h
      · rw [h, zero_add]; exact hf j (by simp)
      · right; linarith
    obtain ⟨s, s1, s2⟩ := ih (a := z) (A := A + f j) (k := k + 1) (fun i hi => hf i (by simp [hi])) (fun i hi => hv i (by simp [hi])) hA' z2 (by rw [hlen] at hk; omega) (by linarith)
    refine ⟨s, ?_, ?_⟩
    · rw [show Flt.add (rk a : Double K) (rk (v j)) = rk z from z1]; exact s1
    · rw [← add_assoc, hlen, show k + (l.length + 1) = k + 1 + l.length by omega]; exact s2

omit [FloorRing K] in
/-- on every row from `w - 1` on the net change is at most the path, the wrap on row `w - 1` included -/
theorem kEr_unit {n : Nat} (f : Nat → K) {w i : Nat} (hw : 1 ≤ w) (hi : i < n) (h : w - 1 ≤ i) : |f i - f (kIx n w i)| ≤ wsum (kVol n f) w i := by
  by_cases g : w ≤ i
  · have e1 : wsum (kVol n f) w i = ∑ j ∈ Ico (i + 1 - w) (i + 1), |f j - f (j - 1)| := by
      unfold wsum
      apply Finset.sum_congr rfl
      intro j hj
      rw [Finset.mem_Ico] at hj
      unfold kVol
      rw [kIx_of_le (by omega) (by omega)]
    rw [e1, kIx_of_le hi g]
    exact abs_sub_le_path f i w g
  · obtain rfl : i = w - 1 := by omega
    have e0 : kIx n w (w - 1) = kIx n 1 0 := by
      have a : kIx n 1 0 = n - 1 := by
        unfold kIx
        rcases Nat.eq_or_lt_of_le (show 1 ≤ n by omega) with h1 | h1
        · subst h1; rfl
        · rw [Nat.mod_eq_of_lt h1, zero_add, Nat.mod_eq_of_lt (by omega)]
      rw [a]
      unfold kIx
      rcases Nat.eq_or_lt_of_le (show w ≤ n by omega) with h1 | h1
      · subst h1
        rw [Nat.mod_self, Nat.sub_zero, Nat.add_mod_right, Nat.mod_eq_of_lt (by omega)]
      · rw [Nat.mod_eq_of_lt h1, show w - 1 + (n - w) = n - 1 by omega, Nat.mod_eq_of_lt (by omega)]
    rw [e0]
    have main : ∀ m, m < n → |f m - f (kIx n 1 0)| ≤ ∑ j ∈ range (m + 1), kVol n f j := by
      intro m
      induction m with
      | zero => intro _; simp [kVol]
      | succ m ih =>
        intro hm
        rw [Finset.sum_range_succ]
        have := abs_sub_le (f (m + 1)) (f m) (f (kIx n 1 0))
        have e : kVol n f (m + 1) = |f (m + 1) - f m| := by unfold kVol; rw [kIx_of_le hm (by omega)]; rfl
        rw [e]
        linarith [ih (by omega)]
    refine (main _ hi).trans (le_of_eq ?_)
    unfold wsum
    rw [show w - 1 + 1 - w = 0 by omega, ← Finset.range_eq_Ico]

omit [FloorRing K] in
theorem kEr_unit' {n : Nat} (f : Nat → K) {w i : Nat} (hw : 1 ≤ w) (hi : i < n) (h : w - 1 ≤ i) : 0 ≤ kEr n f w i ∧ kEr n f w i ≤ 1 := by
  have h1 := kEr_unit f hw hi h
  have h0 : 0 ≤ wsum (kVol n f) w i := Finset.sum_nonneg fun _ _ => abs_nonneg _
  unfold kEr
  split_ifs with h2
  · have hp := lt_of_le_of_ne h0 (Ne.symm h2)
    exact ⟨div_nonneg (abs_nonneg _) h0, by rw [div_le_one hp]; exact h1⟩
  · simp

/-! ## the smoothing constant -/

/-- the efficiency ratio -/
theorem er_near {N D v d ρ : K} (hρ : 0 ≤ ρ) (hρ1 : ρ ≤ 1 / 100) (hN : 0 ≤ N) (hND : N ≤ D) (hv : |v - N| ≤ 1.001 * (eps * N)) (hd : D = 0 ∨ |d - D| ≤ ρ * D) :
    ∃ e, (if (rk d : Double K) !=. lit 0 then rk v /. rk d else lit 0 : Double K) = rk e ∧
      |e - (if D ≠ 0 then N / D else 0)| ≤ 1.02 * ρ + 2.1 * eps := by
  have he := eps_pos (K := K)
  have he1 := eps_small (K := K)
  have ne : ((rk d : Double K) !=. lit 0) = decide (d ≠ 0) := by rw [lit0k]; exact fin_ne d 0
  rw [ne]
  simp only [decide_eq_true_eq]
  by_cases D0 : D = 0
  · rw [show (if D ≠ 0 then N / D else 0) = 0 from if_neg (by simpa using D0)]
    have n0 : N = 0 := by linarith
    have v0 : v = 0 := rel_zero (r := 1.001 * eps) n0 (by rw [mul_assoc]; exact hv)
    refine ⟨0, ?_, by rw [sub_zero, abs_zero]; positivity⟩
    split_ifs with h
    · rw [v0, zero_div_double h]
    · exact lit0k
  · have hd := hd.resolve_left D0
    have Dp : 0 < D := lt_of_le_of_ne (hN.trans hND) (Ne.symm D0)
    have d1 : 0.99 * D ≤ d := by
      have := (abs_le.mp hd).1
      have := mul_le_mul_of_nonneg_right hρ1 Dp.le
      linarith
    have dp : 0 < d := lt_of_lt_of_le (by positivity) d1
    rw [if_pos D0, if_pos dp.ne']
    have q : |v / d - N / D| ≤ 1.02 * ρ + 1.03 * eps := by
      have e : v / d - N / D = ((v - N) - N / D * (d - D)) / d := by field_simp; ring
      rw [e, abs_div, abs_of_pos dp, div_le_iff₀ dp]
      have n1 : 0 ≤ N / D := div_nonneg hN Dp.le
      have n2 : N / D ≤ 1 := (div_le_one Dp).mpr hND
      have t : |v - N - N / D * (d - D)| ≤ 1.001 * (eps * D) + ρ * D := by
        refine (abs_sub _ _).trans ?_
        rw [abs_mul, abs_of_nonneg n1]
        have := mul_le_mul n2 hd (abs_nonneg _) zero_le_one
        have := mul_le_mul_of_nonneg_left hND he.le
        linarith
      refine t.trans ?_
      have := mul_le_mul_of_nonneg_left d1 (by positivity : 0 ≤ 1.02 * ρ + 1.03 * eps)
      have h1 : 0 ≤ ρ * D := mul_nonneg hρ Dp.le
      have h2 : 0 ≤ eps * D := mul_nonneg he.le Dp.le
      linarith
    have b : |v / d| ≤ 1.03 := by
      have n1 : 0 ≤ N / D := div_nonneg hN Dp.le
      have n2 : N / D ≤ 1 := (div_le_one Dp).mpr hND
      have := abs_add_le (v / d - N / D) (N / D)
      rw [sub_add_cancel, abs_of_nonneg n1] at this
      linarith
    obtain ⟨z, z1, z2⟩ := near_div dp.ne' b (tiny_le_one.trans (by norm_num)) (le_trans (by norm_num) thousand_le_cap)
    refine ⟨z, z1, ?_⟩
    have := abs_add_le (z - v / d) (v / d - N / D)
    rw [sub_add_sub_cancel] at this
    linarith

/-- from the efficiency ratio to the smoothing constant -/
theorem sc_near {e E a b A B δ : K} (hE : 0 ≤ E ∧ E ≤ 1) (hA : 0 ≤ A ∧ A ≤ 1) (hB : 0 ≤ B ∧ B ≤ 1) (he : |e - E| ≤ δ) (hδ1 : δ ≤ 1 / 50)
    (ha : |a - A| ≤ 1.001 * eps) (hb : |b - B| ≤ 1.001 * eps) :
    ∃ s, (((rk e *. (rk a -. rk b)) +. rk b) *. ((rk e *. (rk a -. rk b)) +. rk b) : Double K) = rk s ∧
      |s - (E * (A - B) + B) * (E * (A - B) + B)| ≤ 2.1 * δ + 14.5 * eps := by
  have ep := eps_pos (K := K)
  have ep1 : (eps : K) ≤ 1 / 100000 := by
    have : (2 : K) ^ (-53 : ℤ) ≤ 2 ^ (-20 : ℤ) := zpow_le_zpow_right₀ (by norm_num) (by norm_num)
    refine this.trans ?_
    norm_num
  have hc := thousand_le_cap (K := K)
  have ht := tiny_le_one (K := K)
  have δ0 : 0 ≤ δ := (abs_nonneg _).trans he
  have G : |A - B| ≤ 1 := by rw [abs_le]; constructor <;> linarith [hA.1, hA.2, hB.1, hB.2]
  have g1 : |a - b - (A - B)| ≤ 2.002 * eps := by
    have := abs_sub (a - A) (b - B)
    rw [show a - A - (b - B) = a - b - (A - B) by ring] at this
    linarith
  have g2 : |a - b| ≤ 1.001 := by
    have := abs_add_le (a - b - (A - B)) (A - B)
    rw [sub_add_cancel] at this
    linarith
  obtain ⟨g, q1, q2⟩ := near_sub g2 (by linarith) (by linarith)
  have g3 : |g - (A - B)| ≤ 3.01 * eps := by
    have := abs_add_le (g - (a - b)) (a - b - (A - B))
    rw [sub_add_sub_cancel] at this
    linarith
  have g4 : |g| ≤ 1.001 := by
    have := abs_add_le (g - (A - B)) (A - B)
    rw [sub_add_cancel] at this
    linarith
  have m1 : |e * g - E * (A - B)| ≤ 1.001 * δ + 3.01 * eps := by
    have t : e * g - E * (A - B) = (e - E) * g + E * (g - (A - B)) := by ring
    rw [t]
    refine (abs_add_le _ _).trans ?_
    rw [abs_mul, abs_mul, abs_of_nonneg hE.1]
    have t1 := mul_le_mul he g4 (abs_nonneg _) δ0
    have t2 := mul_le_mul hE.2 g3 (abs_nonneg _) zero_le_one
    linarith
  have EG : |E * (A - B)| ≤ 1 := by
    rw [abs_mul, abs_of_nonneg hE.1]
    exact mul_le_one₀ hE.2 (abs_nonneg _) G
  have m2 : |e * g| ≤ 1.03 := by
    have := abs_add_le (e * g - E * (A - B)) (E * (A - B))
    rw [sub_add_cancel] at this
    linarith
  obtain ⟨m, r1, r2⟩ := near_mul m2 (by linarith) (by linarith)
  have X0 : 0 ≤ E * (A - B) + B := by nlinarith [hE.1, hE.2, hA.1, hB.1]
  have X1 : E * (A - B) + B ≤ 1 := by nlinarith [hE.1, hE.2, hA.2, hB.2]
  have x1 : |m + b - (E * (A - B) + B)| ≤ 1.001 * δ + 5.05 * eps := by
    have h1 := abs_add_le (m - e * g) (e * g - E * (A - B))
    rw [sub_add_sub_cancel] at h1
    have h2 := abs_add_le (m - E * (A - B)) (b - B)
    rw [show m - E * (A - B) + (b - B) = m + b - (E * (A - B) + B) by ring] at h2
    linarith
  have x2 : |m + b| ≤ 1.03 := by
    have := abs_add_le (m + b - (E * (A - B) + B)) (E * (A - B) + B)
    rw [sub_add_cancel, abs_of_nonneg X0] at this
    linarith
  obtain ⟨x, t1, t2⟩ := near_add x2 (by linarith) (by linarith)
  have x3 : |x - (E * (A - B) + B)| ≤ 1.001 * δ + 6.1 * eps := by
    have := abs_add_le (x - (m + b)) (m + b - (E * (A - B) + B))
    rw [sub_add_sub_cancel] at this
    linarith
  generalize E * (A - B) + B = X at *
  have x4 : |x| ≤ 1.021 := by
    have := abs_add_le (x - X) X
    rw [sub_add_cancel, abs_of_nonneg X0] at this
    linarith
  have s1 : |x * x - X * X| ≤ 2.021 * (1.001 * δ + 6.1 * eps) := by
    rw [show x * x - X * X = (x + X) * (x - X) by ring, abs_mul]
    refine mul_le_mul ?_ x3 (abs_nonneg _) (by norm_num)
    refine (abs_add_le _ _).trans ?_
    rw [abs_of_nonneg X0]
    linarith
  have s2 : |x * x| ≤ 1.05 := by
    rw [abs_mul]
    exact (mul_le_mul x4 x4 (abs_nonneg _) (by norm_num)).trans (by norm_num)
  obtain ⟨s, u1, u2⟩ := near_mul s2 (by linarith) (by linarith)
  refine ⟨s, by rw [q1, r1, t1, u1], ?_⟩
  have := abs_add_le (s - x * x) (x * x - X * X)
  rw [sub_add_sub_cancel] at this
  linarith

/-- one turn of the loop -/
theorem kama_turn {y Y c s S M E σ : K} (hM : tiny ≤ M) (hM2 : M ≤ huge) (hS : 0 ≤ S ∧ S ≤ 1) (hY : |Y| ≤ M) (hc : |c| ≤ M) (hs : |s - S| ≤ σ) (hσ : σ ≤ 1 / 10)
    (hy : |y - Y| ≤ E) (hE : E ≤ M / 10) :
    ∃ z, (rk y +. (rk s *. (rk c -. rk y)) : Double K) = rk z ∧ |z - (Y + S * (c - Y))| ≤ (1 - S) * E + (2.2 * σ + 8 * eps) * M := by
  have ep := eps_pos (K := K)
  have ep1 := eps_small (K := K)
  have M0 : 0 < M := tiny_pos.trans_le hM
  have hcap := huge_cap' (K := K)
  have σ0 : 0 ≤ σ := (abs_nonneg _).trans hs
  have E0 : 0 ≤ E := (abs_nonneg _).trans hy
  have eM : 0 < eps * M := mul_pos ep M0
  have eMs : eps * M ≤ M / 1000 := by have := mul_le_mul_of_nonneg_right ep1 M0.le; linarith
  have yb : |y| ≤ 1.1 * M := by
    have := abs_add_le (y - Y) Y
    rw [sub_add_cancel] at this
    linarith
  have d1 : |c - y| ≤ 2.1 * M := (abs_sub _ _).trans (by linarith)
  obtain ⟨t, t1, t2⟩ := near_sub d1 (by linarith) (by linarith)
  have t3 : |t| ≤ 2.11 * M := by
    have := abs_add_le (t - (c - y)) (c - y)
    rw [sub_add_cancel] at this
    linarith
  have sb : |s| ≤ 1.1 := by
    have := abs_add_le (s - S) S
    rw [sub_add_cancel, abs_of_nonneg hS.1] at this
    linarith [hS.2]
  have p1 : |s * t - S * (c - y)| ≤ 2.11 * (σ * M) + 2.11 * (eps * M) := by
    rw [show s * t - S * (c - y) = (s - S) * t + S * (t - (c - y)) by ring]
    refine (abs_add_le _ _).trans ?_
    rw [abs_mul, abs_mul, abs_of_nonneg hS.1]
    have a1 := mul_le_mul hs t3 (abs_nonneg _) σ0
    have a2 := mul_le_mul hS.2 t2 (abs_nonneg _) zero_le_one
    linarith
  have p2 : |s * t| ≤ 2.4 * M := by
    rw [abs_mul]
    refine (mul_le_mul sb t3 (abs_nonneg _) (by norm_num)).trans ?_
    linarith
  obtain ⟨q, q1, q2⟩ := near_mul p2 (by linarith) (by linarith)
  have r1 : |y + q| ≤ 3.6 * M := by
    have := abs_add_le (q - s * t) (s * t)
    rw [sub_add_cancel] at this
    have := abs_add_le y q
    linarith
  have r2 : |y + q - (Y + S * (c - Y))| ≤ (1 - S) * E + 2.11 * (σ * M) + 4.6 * (eps * M) := by
    have e : y + q - (Y + S * (c - Y)) = (1 - S) * (y - Y) + ((q - s * t) + (s * t - S * (c - y))) := by ring
    rw [e]
    refine (abs_add_le _ _).trans ?_
    rw [abs_mul, abs_of_nonneg (by linarith [hS.2] : 0 ≤ 1 - S)]
    have a1 := mul_le_mul_of_nonneg_left hy (by linarith [hS.2] : 0 ≤ 1 - S)
    have a2 := abs_add_le (q - s * t) (s * t - S * (c - y))
    linarith
  have σM : σ * M ≤ M / 10 := by have := mul_le_mul_of_nonneg_right hσ M0.le; linarith
  have σM0 : 0 ≤ σ * M := mul_nonneg σ0 M0.le
  have r3 : |y + q| ≤ 1.5 * M := by
    have h1 : |Y + S * (c - Y)| ≤ M := by
      rw [show Y + S * (c - Y) = (1 - S) * Y + S * c by ring]
      refine (abs_add_le _ _).trans ?_
      rw [abs_mul, abs_mul, abs_of_nonneg hS.1, abs_of_nonneg (by linarith [hS.2] : 0 ≤ 1 - S)]
      have a1 := mul_le_mul_of_nonneg_left hY (by linarith [hS.2] : 0 ≤ 1 - S)
      have a2 := mul_le_mul_of_nonneg_left hc hS.1
      linarith
    have := abs_add_le (y + q - (Y + S * (c - Y))) (Y + S * (c - Y))
    rw [sub_add_cancel] at this
    have : (1 - S) * E ≤ E := by nlinarith [hS.1]
    linarith
  obtain ⟨z, z1, z2⟩ := near_add r3 (by linarith) (by linarith)
  refine ⟨z, by rw [t1, q1, z1], ?_⟩
  have := abs_add_le (z - (y + q)) (y + q - (Y + S * (c - Y)))
  rw [sub_add_sub_cancel] at this
  linarith

/-! ## the whole column -/

/-- any two closes are equal or at least `2^-900` apart, and none is larger than `M` -/
structure Prices (n : Nat) (c : Nat → K) (M : K) : Prop where
  lo : tiny ≤ M
  hi : M ≤ huge
  bound : ∀ i, i < n → |c i| ≤ M
  gap : ∀ i j, i < n → j < n → c i = c j ∨ tiny ≤ |c i - c j|

theorem kIx_lt {n k i : Nat} (hi : i < n) : kIx n k i < n := Nat.mod_lt _ (by omega)

theorem Prices.le {n : Nat} {c : Nat → K} {M : K} (h : Prices n c M) {i j : Nat} (hi : i < n) (hj : j < n) : |c i - c j| ≤ 2 * M :=
  (abs_sub _ _).trans (by linarith [h.bound i hi, h.bound j hj])

theorem Prices.cap {n : Nat} {c : Nat → K} {M : K} (h : Prices n c M) : 1000 * M ≤ cap := by
  have := huge_cap' (K := K)
  linarith [h.hi]

/-- `abs(close - np.roll(close, k))` -/
theorem Prices.change {n : Nat} {c : Nat → K} {M : K} (h : Prices n c M) (k : Nat) {i : Nat} (hi : i < n) :
    ∃ v, ix (sabs (ssub (dser n c) (npRoll (dser n c) k))) i = rk v ∧ 0 ≤ v ∧ |v - abs (c i - c (kIx n k i))| ≤ 1.001 * (eps * |c i - c (kIx n k i)|) := by
  have hj := kIx_lt (k := k) hi
  have M0 : 0 < M := tiny_pos.trans_le h.lo
  obtain ⟨v, v1, v2, v3⟩ := change_near (h.gap i _ hi hj) ((h.le hi hj).trans (by linarith [h.cap]))
  refine ⟨v, ?_, v2, v3⟩
  have l : (dser n c).length = n := by simp [rser]
  have e : ix (npRoll (dser n c) k) i = rk (c (kIx n k i)) := by
    unfold npRoll
    rw [l, ix_tab_lt hi]
    exact ix_tab_lt hj
  rw [ix_sabs (by simpa [rser] using hi), ix_ssub (by simpa [rser] using hi), e, show ix (dser n c) i = rk (c i) from ix_tab_lt hi, v1]

/-- what the denominator column has to be -/
structure Path (D : Series (Double K)) (n : Nat) (c : Nat → K) (w : Nat) (ρ : K) : Prop where
  len : D.length = n
  gap : ∀ i, i < n → i < w - 1 → ix D i = nan
  val : ∀ i, i < n → w - 1 ≤ i → ∃ d, ix D i = rk d ∧ (wsum (kVol n c) w i = 0 ∨ |d - wsum (kVol n c) w i| ≤ ρ * wsum (kVol n c) w i)

theorem scBy_near {n : Nat} {c : Nat → K} {M : K} (h : Prices n c M) {w : Nat} (hw : 1 ≤ w) {p1 p2 : Nat} (h1 : 1 ≤ p1) (h1' : p1 ≤ 2 ^ 40) (h2 : 1 ≤ p2) (h2' : p2 ≤ 2 ^ 40)
    {D : Series (Double K)} {ρ : K} (hρ : 0 ≤ ρ) (hρ1 : ρ ≤ 1 / 100) (hD : Path D n c w ρ) :
    Approx (KAMA.scBy D (dser n c) w p1 p2) n (w - 1) (kSc n c w p1 p2) (2.15 * ρ + 19 * eps) := by
  have ep := eps_pos (K := K)
  have ep1 := eps_small (K := K)
  have lz : (zip2 (fun a b => if b !=. lit 0 then a /. b else lit 0) (sabs (ssub (dser n c) (npRoll (dser n c) w))) D).length = n := by simp [rser]
  have row : ∀ i, i < n → ix (KAMA.scBy D (dser n c) w p1 p2) i = (fun e : Double K =>
      ((e *. ((lit 2 /. (natF p1 +. lit 1)) -. (lit 2 /. (natF p2 +. lit 1)))) +. (lit 2 /. (natF p2 +. lit 1))) *.
        ((e *. ((lit 2 /. (natF p1 +. lit 1)) -. (lit 2 /. (natF p2 +. lit 1)))) +. (lit 2 /. (natF p2 +. lit 1))))
      (if ix D i !=. lit 0 then ix (sabs (ssub (dser n c) (npRoll (dser n c) w))) i /. ix D i else lit 0) := by
    intro i hi
    unfold KAMA.scBy
    rw [ix_map (by rw [lz]; exact hi), ix_zip2 (by simpa [rser] using hi)]
  refine ⟨by unfold KAMA.scBy; rw [List.length_map, lz], fun i hi g => ?_, fun i hi g => ?_⟩
  · rw [row i hi, hD.gap i hi g]
    obtain ⟨v, v1, -, -⟩ := h.change w hi
    rw [v1]
    rfl
  · rw [row i hi]
    obtain ⟨v, v1, v0, v2⟩ := h.change w hi
    obtain ⟨d, d1, d2⟩ := hD.val i hi g
    obtain ⟨a, a1, a2⟩ := fastness_double (K := K) h1 h1'
    obtain ⟨b, b1, b2⟩ := fastness_double (K := K) h2 h2'
    obtain ⟨e, e1, e2⟩ := er_near hρ hρ1 (abs_nonneg _) (kEr_unit c hw hi g) v2 d2
    rw [v1, d1, e1, a1, b1]
    have hA := span_pos (K := K) p1
    have hA' := span_le (K := K) p1 h1
    have hB := span_pos (K := K) p2
    have hB' := span_le (K := K) p2 h2
    obtain ⟨s, s1, s2⟩ := sc_near (kEr_unit' c hw hi g) ⟨hA.le, hA'⟩ ⟨hB.le, hB'⟩ e2 (by linarith) a2 b2
    exact ⟨s, s1, s2.trans (by linarith)⟩

theorem kEr_eff {n : Nat} (c : Nat → K) {w i : Nat} (hi : i < n) (hwi : w ≤ i) : kEr n c w i = effRatio c w i := by
  have e1 : wsum (kVol n c) w i = ∑ j ∈ Ico (i + 1 - w) (i + 1), |c j - c (j - 1)| := by
    unfold wsum
    apply Finset.sum_congr rfl
    intro j hj
    rw [mem_Ico] at hj
    unfold kVol
    rw [kIx_of_le (by omega) (by omega)]
  unfold kEr effRatio
  rw [e1, kIx_of_le hi hwi]
  by_cases h0 : ∑ j ∈ Ico (i + 1 - w) (i + 1), |c j - c (j - 1)| = 0 <;> simp [h0]

/-- **KAMA** with any denominator column that is relatively accurate. The error does not grow with the number of rows. -/
theorem kama_near {n : Nat} {c : Nat → K} {M : K} (h : Prices n c M) {w : Nat} (hw : 1 ≤ w) {p1 p2 P : Nat} (h1 : 1 ≤ p1) (h1' : p1 ≤ P) (h2 : 1 ≤ p2) (h2' : p2 ≤ P)
    (hP : P ≤ 2 ^ 40) {D : Series (Double K)} {ρ : K} (hρ : 0 ≤ ρ) (hD : Path D n c w ρ) (hsm : (1.2 * ρ + 12.5 * eps) * ((P : K) + 1) ^ 2 ≤ 1 / 25) :
    CloseTo ((1.2 * ρ + 12.5 * eps) * ((P : K) + 1) ^ 2 * M) (KAMA.runBy D (dser n c) w p1 p2) (kama (ser n c) w p1 p2 false) := by
  have ep := eps_pos (K := K)
  have ep1 := eps_small (K := K)
  have M0 : 0 < M := tiny_pos.trans_le h.lo
  have P1 : (1 : K) ≤ P := by exact_mod_cast h1.trans h1'
  have PP : (4 : K) ≤ ((P : K) + 1) ^ 2 := by nlinarith
  have hκ0 : 0 ≤ 1.2 * ρ + 12.5 * eps := by positivity
  have hρ1 : ρ ≤ 1 / 100 := by
    have := mul_le_mul_of_nonneg_left PP hκ0
    linarith
  obtain ⟨Y, y0, y1, hY⟩ := kama_formula n c hw p1 p2
  have key : ∀ E, E = (1.2 * ρ + 12.5 * eps) * ((P : K) + 1) ^ 2 * M → Approx (KAMA.runBy D (dser n c) w p1 p2) n (w - 1) Y E := by
    intro E hE
    have hE0 : 0 ≤ E := by rw [hE]; positivity
    have hE1 : E ≤ M / 10 := by
      have := mul_le_mul_of_nonneg_right hsm M0.le
      rw [hE]; linarith
    have l : (dser n c).length = n := by simp [rser]
    have hsc := scBy_near h hw h1 (h1'.trans hP) h2 (h2'.trans hP) hρ hρ1 hD
    have ec : ∀ i, i < n → ix (dser n c) i = rk (c i) := fun i hi => ix_tab_lt hi
    have before : ∀ k, k ≤ w - 1 → k ≤ n → iter (KAMA.step (KAMA.scBy D (dser n c) w p1 p2) (dser n c)) (nan, true) k = (nan, true) := by
      intro k
      induction k with
      | zero => intro _ _; rfl
      | succ k ih =>
        intro a b
        rw [iter_succ, ih (by omega) (by omega)]
        unfold KAMA.step
        rw [hsc.gap k (by omega) (by omega)]
        rfl
    have main : ∀ m, w - 1 + m < n → |Y (w - 1 + m)| ≤ M ∧ ∃ y,
        iter (KAMA.step (KAMA.scBy D (dser n c) w p1 p2) (dser n c)) (nan, true) (w - 1 + m + 1) = (rk y, false) ∧ |y - Y (w - 1 + m)| ≤ E := by
      intro m
      induction m with
      | zero =>
        intro hm
        rw [Nat.add_zero] at hm ⊢
        rw [y0]
        refine ⟨h.bound _ hm, c (w - 1), ?_, by rw [sub_self, abs_zero]; exact hE0⟩
        rw [iter_succ, before _ le_rfl (by omega)]
        obtain ⟨s, s1, -⟩ := hsc.val (w - 1) hm le_rfl
        unfold KAMA.step
        rw [s1, ec _ hm]
        rfl
      | succ m ih =>
        intro hm
        obtain ⟨b, y, e1, e2⟩ := ih (by omega)
        have ey := y1 (w - 1 + (m + 1)) (by omega)
        rw [show w - 1 + (m + 1) - 1 = w - 1 + m by omega] at ey
        obtain ⟨s, s1, s2⟩ := hsc.val (w - 1 + (m + 1)) hm (by omega)
        have eS : kSc n c w p1 p2 (w - 1 + (m + 1)) = (effRatio c w (w - 1 + (m + 1)) * (2 / ((p1 : K) + 1) - 2 / ((p2 : K) + 1)) + 2 / ((p2 : K) + 1)) ^ 2 := by
          unfold kSc
          rw [kEr_eff c hm (by omega), sq]
        rw [← eS] at ey
        have hS := kSc_mem (n := n) c (w := w) (p1 := p1) (p2 := p2) hm (by omega) h1 h2
        have hlow : 4 ≤ kSc n c w p1 p2 (w - 1 + (m + 1)) * ((P : K) + 1) ^ 2 := by
          obtain ⟨r0, r1⟩ := effRatio_unit c (w := w) (i := w - 1 + (m + 1)) (by omega)
          have q1 : 2 / ((P : K) + 1) ≤ 2 / ((p1 : K) + 1) := by
            have : (p1 : K) ≤ P := by exact_mod_cast h1'
            exact div_le_div_of_nonneg_left (by norm_num) (by positivity) (by linarith)
          have q2 : 2 / ((P : K) + 1) ≤ 2 / ((p2 : K) + 1) := by
            have : (p2 : K) ≤ P := by exact_mod_cast h2'
            exact div_le_div_of_nonneg_left (by norm_num) (by positivity) (by linarith)
          rw [eS]
          have q3 : 2 / ((P : K) + 1) ≤ effRatio c w (w - 1 + (m + 1)) * (2 / ((p1 : K) + 1) - 2 / ((p2 : K) + 1)) + 2 / ((p2 : K) + 1) := by
            generalize effRatio c w (w - 1 + (m + 1)) = r at *
            generalize 2 / ((P : K) + 1) = Q at *
            nlinarith
          have q4 := pow_le_pow_left₀ (by positivity : 0 ≤ 2 / ((P : K) + 1)) q3 2
          refine le_trans (le_of_eq ?_) (mul_le_mul_of_nonneg_right q4 (by positivity))
          field_simp
          norm_num
        generalize kSc n c w p1 p2 (w - 1 + (m + 1)) = S at *
        have bY : |Y (w - 1 + (m + 1))| ≤ M := by
          rw [ey, show Y (w - 1 + m) + S * (c (w - 1 + (m + 1)) - Y (w - 1 + m)) = (1 - S) * Y (w - 1 + m) + S * c (w - 1 + (m + 1)) by ring]
          refine (abs_add_le _ _).trans ?_
          rw [abs_mul, abs_mul, abs_of_nonneg hS.1, abs_of_nonneg (by linarith [hS.2] : 0 ≤ 1 - S)]
          have a1 := mul_le_mul_of_nonneg_left b (by linarith [hS.2] : 0 ≤ 1 - S)
          have a2 := mul_le_mul_of_nonneg_left (h.bound _ hm) hS.1
          linarith
        refine ⟨bY, ?_⟩
        obtain ⟨z, z1, z2⟩ := kama_turn h.lo h.hi hS b (h.bound _ hm) s2 (by linarith) e2 hE1
        refine ⟨z, ?_, ?_⟩
        · rw [iter_succ, show w - 1 + (m + 1) = w - 1 + m + 1 by omega, e1]
          unfold KAMA.step
          rw [show w - 1 + m + 1 = w - 1 + (m + 1) by omega, s1, ec _ hm, if_neg (show ¬ (Flt.isNaN (rk s : Double K) = true) by intro q; exact nomatch q), if_neg (by simp)]
          rw [z1]
        · rw [ey]
          refine z2.trans ?_
          have t1 : 4 * ((1.2 * ρ + 12.5 * eps) * M) ≤ S * E := by
            have := mul_le_mul_of_nonneg_right hlow (mul_nonneg hκ0 M0.le)
            rw [hE]
            linarith
          have t2 : 0 ≤ ρ * M := mul_nonneg hρ M0.le
          have t3 : 0 < eps * M := mul_pos ep M0
          linarith
    refine ⟨by simp [KAMA.runBy, rser], fun i hi g => ?_, fun i hi g => ?_⟩
    all_goals
      unfold KAMA.runBy
      rw [l, ix_tab_lt hi]
    · rw [before _ (by omega) (by omega)]
    · obtain ⟨-, y, e1, e2⟩ := main (i - (w - 1)) (by omega)
      rw [show w - 1 + (i - (w - 1)) = i by omega] at e1 e2
      exact ⟨y, by rw [e1], e2⟩
  exact (key _ rfl).close hY

theorem vol_rows {n : Nat} {c : Nat → K} {M : K} (h : Prices n c M) :
    ∃ v : Nat → K, KAMA.vol (dser n c) = dser n v ∧ ∀ i, i < n → 0 ≤ v i ∧ |v i - kVol n c i| ≤ 1.001 * (eps * kVol n c i) := by
  choose! v v1 v2 v3 using fun i (hi : i < n) => h.change 1 hi
  refine ⟨v, ?_, fun i hi => ⟨v2 i hi, v3 i hi⟩⟩
  refine series_ext (F := Double K) (by simp [KAMA.vol, rser]) fun i hi => ?_
  have hi : i < n := by simpa [KAMA.vol, rser] using hi
  rw [show KAMA.vol (dser n c) = sabs (ssub (dser n c) (npRoll (dser n c) 1)) from rfl, v1 i hi]
  exact (show ix (dser n v) i = rk (v i) from ix_tab_lt hi).symm

theorem kVol_gap {n : Nat} {c : Nat → K} {M : K} (h : Prices n c M) {i : Nat} (hi : i < n) : kVol n c i = 0 ∨ tiny ≤ kVol n c i := by
  rcases h.gap i _ hi (kIx_lt (k := 1) hi) with q | q
  · left; unfold kVol; rw [q, sub_self, abs_zero]
  · exact .inr q

theorem wsum_vol_le {n : Nat} {c : Nat → K} {M : K} (h : Prices n c M) {w i : Nat} (hi : i < n) (g : w - 1 ≤ i) (hw : 1 ≤ w) : wsum (kVol n c) w i ≤ w * (2 * M) := by
  unfold wsum
  refine (Finset.sum_le_card_nsmul _ _ (2 * M) fun j hj => ?_).trans (le_of_eq ?_)
  · rw [mem_Ico] at hj
    exact h.le (by omega) (kIx_lt (by omega))
  · rw [Nat.card_Ico, nsmul_eq_mul, show i + 1 - (i + 1 - w) = w by omega]

/-- the model's denominator -/
theorem path_fresh {n : Nat} {c : Nat → K} {M : K} (h : Prices n c M) {w : Nat} (hw : 1 ≤ w) (hw2 : w ≤ 2 ^ 38) :
    Path (rollSum w w (KAMA.vol (dser n c))) n c w (1.01 * (w + 1) * eps) := by
  obtain ⟨v, ev, hv⟩ := vol_rows h
  rw [ev]
  have l : (dser n v).length = n := by simp [rser]
  have row : ∀ i, i < n → ix (rollSum w w (dser n v)) i = if w ≤ min w (i + 1) then sumL ((winIx w i).map fun j => (rk (v j) : Double K)) else nan := by
    intro i hi
    unfold rollSum
    rw [ix_roll' (by rw [l]; exact hi)]
    have e : ((winIx w i).map fun j => clean (ix (dser n v) j)) = (winIx w i).map fun j => (rk (v j) : Double K) := by
      refine List.map_congr_left fun j hj => ?_
      rw [mem_winIx] at hj
      rw [show ix (dser n v) j = rk (v j) from ix_tab_lt (by omega)]
      rfl
    have vl : valid ((winIx w i).map fun j => (rk (v j) : Double K)) = (winIx w i).map fun j => (rk (v j) : Double K) := by
      unfold valid
      rw [List.filter_eq_self]
      intro x hx
      obtain ⟨j, -, rfl⟩ := List.mem_map.mp hx
      rfl
    rw [e]
    unfold aggSum
    rw [vl, List.length_map, length_winIx, if_neg (by omega)]
  refine ⟨by simp [rser], fun i hi g => by rw [row i hi, if_neg (by omega)], fun i hi g => ?_⟩
  rw [row i hi, if_pos (by omega)]
  have es : ((winIx w i).map (kVol n c)).sum = wsum (kVol n c) w i := sum_winIx _ _ _
  obtain ⟨s, s1, s2⟩ := sum_rel (winIx w i) v (kVol n c) (fun j hj => kVol_gap h (by rw [mem_winIx] at hj; omega)) (fun j hj => (hv j (by rw [mem_winIx] at hj; omega)).2)
    (a := 0) (A := 0) (k := 0) (.inl rfl) (by simp) (by rw [length_winIx]; omega) (by
      rw [zero_add, es]
      have q1 := wsum_vol_le h hi g hw
      have q2 := huge_win (K := K) (w := 4 * w) (by omega)
      have q3 := mul_le_mul_of_nonneg_left h.hi (by positivity : (0 : K) ≤ 4 * w)
      push_cast at q2
      linarith)
  rw [zero_add, es] at s2
  refine ⟨s, ?_, .inr ?_⟩
  · unfold sumL; rw [lit0k]; exact s1
  · rw [length_winIx, min_eq_left (by omega), zero_add] at s2
    rw [mul_assoc]; exact s2

/-- pandas' denominator; `g` is the smallest change -/
theorem path_pandas {n : Nat} (hn : n ≤ 2 ^ 44) {c : Nat → K} {M g : K} (h : Prices n c M) (hM3 : 3 * M ≤ huge) (hg : 0 < g) (hgap : ∀ i j, i < n → j < n → c i = c j ∨ g ≤ |c i - c j|) {w : Nat} (hw : 1 ≤ w) :
    Path (onlineSum w w (KAMA.vol (dser n c))) n c w (240 * n * w * eps * (M / g) + 1.001 * eps) := by
  obtain ⟨v, ev, hv⟩ := vol_rows h
  rw [ev]
  have ep := eps_pos (K := K)
  have ep1 := eps_small (K := K)
  have M0 : 0 < M := tiny_pos.trans_le h.lo
  have vM : ∀ j, j < n → |v j| ≤ 3 * M := fun j hj => by
    obtain ⟨a, b⟩ := hv j hj
    have k1 : kVol n c j ≤ 2 * M := h.le hj (kIx_lt hj)
    have := (abs_le.mp b).2
    have := mul_le_mul_of_nonneg_left k1 ep.le
    have := mul_le_mul_of_nonneg_right ep1 M0.le
    rw [abs_of_nonneg a]
    linarith
  have D := pandas_sum_drift hn (M := 3 * M) (by linarith [h.lo]) hM3 vM hw w
  have len : (rollSum w w (ser n v)).length = n := by simp [ser]
  have hR : ∀ i, i < n → ix (rollSum w w (ser n v)) i = _ := fun i hi => ix_rollSum_ser n v (w := w) (mp := w) hi
  refine ⟨D.1.trans len, fun i hi q => ?_, fun i hi q => ?_⟩
  · rcases D.2 i (by rw [len]; exact hi) with ⟨a, -⟩ | ⟨y, z, a, b, -⟩
    · exact a
    · rw [hR i hi, if_neg (by omega)] at b; exact nomatch b
  · rcases D.2 i (by rw [len]; exact hi) with ⟨-, b⟩ | ⟨y, z, a, b, d⟩
    · rw [hR i hi, if_pos (by omega)] at b; exact nomatch b
    · rw [hR i hi, if_pos (by omega)] at b
      cases Val.fin.inj b
      refine ⟨y, a, ?_⟩
      by_cases z0 : wsum (kVol n c) w i = 0
      · exact .inl z0
      right
      have k0 : ∀ j, 0 ≤ kVol n c j := fun j => abs_nonneg _
      have hge : g ≤ wsum (kVol n c) w i := by
        unfold wsum at z0 ⊢
        obtain ⟨j, hj, hj0⟩ := Finset.exists_ne_zero_of_sum_ne_zero z0
        refine le_trans ?_ (Finset.single_le_sum (f := kVol n c) (fun j _ => k0 j) hj)
        rw [mem_Ico] at hj
        rcases hgap j _ (by omega) (kIx_lt (k := 1) (show j < n by omega)) with e | e
        · exact absurd (by unfold kVol; rw [e, sub_self, abs_zero]) hj0
        · exact e
      have s1 : |(∑ j ∈ Ico (i + 1 - w) (i + 1), v j) - wsum (kVol n c) w i| ≤ 1.001 * (eps * wsum (kVol n c) w i) := by
        unfold wsum
        rw [← Finset.sum_sub_distrib]
        refine (Finset.abs_sum_le_sum_abs _ _).trans ?_
        rw [Finset.mul_sum, Finset.mul_sum]
        refine Finset.sum_le_sum fun j hj => (hv j ?_).2
        rw [mem_Ico] at hj; omega
      have t := abs_add_le (y - ∑ j ∈ Ico (i + 1 - w) (i + 1), v j) ((∑ j ∈ Ico (i + 1 - w) (i + 1), v j) - wsum (kVol n c) w i)
      rw [sub_add_sub_cancel] at t
      have iN : (i : K) + 1 ≤ n := by exact_mod_cast hi
      have b1 : ((i : K) + 1) * (80 * w * eps * (3 * M)) ≤ 240 * n * w * eps * (M / g) * wsum (kVol n c) w i := by
        have p0 : (0 : K) ≤ 80 * w * eps * (3 * M) := by positivity
        refine (mul_le_mul_of_nonneg_right iN p0).trans ?_
        have : (n : K) * (80 * w * eps * (3 * M)) = 240 * n * w * eps * (M / g) * g := by field_simp; ring
        rw [this]
        exact mul_le_mul_of_nonneg_left hge (by positivity)
      linarith

/-! ## the two columns -/

/-- **KAMA** as modelled (windows summed from left to right), in double precision, against exact arithmetic. The bound does
not grow with the number of rows. -/
theorem kama_double {n : Nat} {c : Nat → K} {M : K} (h : Prices n c M) {w p1 p2 P : Nat} (hw : 1 ≤ w) (hw2 : w ≤ 2 ^ 14) (h1 : 1 ≤ p1) (h1' : p1 ≤ P) (h2 : 1 ≤ p2) (h2' : p2 ≤ P)
    (hP : P ≤ 2 ^ 14) : CloseTo ((2 * w + 14) * ((P : K) + 1) ^ 2 * eps * M) (kama (dser n c) w p1 p2 false) (kama (ser n c) w p1 p2 false) := by
  have ep := eps_pos (K := K)
  have M0 : 0 < M := tiny_pos.trans_le h.lo
  have w0 : (0 : K) ≤ w := Nat.cast_nonneg w
  have hle : 1.2 * (1.01 * ((w : K) + 1) * eps) + 12.5 * eps ≤ (2 * w + 14) * eps := by nlinarith
  have P0 : (0 : K) ≤ ((P : K) + 1) ^ 2 := by positivity
  refine CloseTo.mono (kama_near h hw h1 h1' h2 h2' (hP.trans (by norm_num)) (by positivity) (path_fresh h hw (hw2.trans (by norm_num))) ?_) ?_
  · refine (mul_le_mul_of_nonneg_right hle P0).trans ?_
    have a : (w : K) ≤ 2 ^ 14 := by exact_mod_cast hw2
    have b : (P : K) ≤ 2 ^ 14 := by exact_mod_cast hP
    have b2 : ((P : K) + 1) ^ 2 ≤ (2 ^ 14 + 1) ^ 2 := pow_le_pow_left₀ (by positivity) (by linarith) 2
    have e : (eps : K) = 1 / 2 ^ 53 := by unfold eps; norm_num
    have c1 : (2 * (w : K) + 14) * eps ≤ (2 * 2 ^ 14 + 14) * eps := mul_le_mul_of_nonneg_right (by linarith) ep.le
    refine (mul_le_mul c1 b2 P0 (by positivity)).trans ?_
    rw [e]; norm_num
  · have := mul_le_mul_of_nonneg_right (mul_le_mul_of_nonneg_right hle P0) M0.le
    linarith

/-- **KAMA** with pandas' rolling sum. Its error in the sum is absolute, so the smallest change `g` matters, and rows already
processed do. -/
theorem kama_pandas_double {n : Nat} (hn : n ≤ 2 ^ 44) {c : Nat → K} {M g : K} (h : Prices n c M) (hM3 : 3 * M ≤ huge) (hg : 0 < g) (hgM : g ≤ M)
    (hgap : ∀ i j, i < n → j < n → c i = c j ∨ g ≤ |c i - c j|) {w p1 p2 P : Nat} (hw : 1 ≤ w) (h1 : 1 ≤ p1) (h1' : p1 ≤ P) (h2 : 1 ≤ p2) (h2' : p2 ≤ P)
    (hP : P ≤ 2 ^ 40) (hsm : 310 * n * w * (M / g) * ((P : K) + 1) ^ 2 * eps ≤ 1 / 25) :
    CloseTo (310 * n * w * (M / g) * ((P : K) + 1) ^ 2 * eps * M) (kamaPandas (dser n c) w p1 p2 false) (kama (ser n c) w p1 p2 false) := by
  have ep := eps_pos (K := K)
  have M0 : 0 < M := tiny_pos.trans_le h.lo
  rcases Nat.eq_zero_or_pos n with rfl | hn0
  · refine ⟨by simp [kamaPandas, checkFillna, KAMA.runBy, kama, KAMA.run, rser, ser], fun i hi => ?_⟩
    simp [kama, checkFillna, KAMA.run, ser] at hi
  have n1 : (1 : K) ≤ n := by exact_mod_cast hn0
  have w1 : (1 : K) ≤ w := by exact_mod_cast hw
  have r1 : (1 : K) ≤ M / g := by rw [le_div_iff₀ hg]; linarith
  have big : (1 : K) ≤ n * w * (M / g) := by
    have := mul_le_mul n1 w1 zero_le_one (by linarith)
    have := mul_le_mul (this.trans' (by norm_num : (1 : K) ≤ 1 * 1)) r1 zero_le_one (by positivity)
    linarith
  have hle : 1.2 * (240 * n * w * eps * (M / g) + 1.001 * eps) + 12.5 * eps ≤ 310 * n * w * (M / g) * eps := by
    have := mul_le_mul_of_nonneg_right big ep.le
    linarith
  have P0 : (0 : K) ≤ ((P : K) + 1) ^ 2 := by positivity
  have hle2 := mul_le_mul_of_nonneg_right hle P0
  refine CloseTo.mono (kama_near h hw h1 h1' h2 h2' hP (by positivity) (path_pandas hn h hM3 hg hgap hw) ?_) ?_
  · linarith
  · have := mul_le_mul_of_nonneg_right hle2 M0.le
    linarith

end dbl
/-! ## examples -/

/-- `1, 2, 4, 3` -/
def fourCloses (i : Nat) : ℚ := if i = 0 then 1 else if i = 1 then 2 else if i = 2 then 4 else 3

theorem fourCloses_prices : Prices 4 fourCloses 4 := by
  have t := tiny_le_one (K := ℚ)
  have hh : (1000 : ℚ) ≤ huge := by
    have : (2 : ℚ) ^ (10 : ℤ) ≤ 2 ^ (900 : ℤ) := zpow_le_zpow_right₀ (by norm_num) (by norm_num)
    exact le_trans (by norm_num) this
  refine ⟨by linarith, by linarith, fun i hi => ?_, fun i j hi hj => ?_⟩
  · obtain rfl | rfl | rfl | rfl : i = 0 ∨ i = 1 ∨ i = 2 ∨ i = 3 := by omega
    all_goals norm_num [fourCloses]
  · by_cases e : fourCloses i = fourCloses j
    · exact .inl e
    · right
      refine t.trans ?_
      obtain rfl | rfl | rfl | rfl : i = 0 ∨ i = 1 ∨ i = 2 ∨ i = 3 := by omega
      all_goals
        obtain rfl | rfl | rfl | rfl : j = 0 ∨ j = 1 ∨ j = 2 ∨ j = 3 := by omega
        all_goals first | exact absurd rfl e | norm_num [fourCloses, abs_of_nonneg, abs_of_neg]

/-- exactly `26/9` and `2029342/700569` on the last two rows -/
example : kama (ser 4 fourCloses) 2 2 30 false = [.nan, .fin 2, .fin (26/9), .fin (2029342/700569)] := by decide +kernel
example : kama (dser 4 fourCloses) 2 2 30 false =
    ([Val.nan, rk 2, rk (3252599730878691/1125899906842624), rk (6522800662752203/2251799813685248)] : Series (Double ℚ)) := by decide +kernel
example : kamaPandas (dser 4 fourCloses) 2 2 30 false = kama (dser 4 fourCloses) 2 2 30 false := by decide +kernel
/-- the difference is within the bound, `18 * 31 ^ 2 * 4` units of `2^-53` -/
example : CloseTo ((2 * (2 : ℕ) + 14) * (((30 : ℕ) : ℚ) + 1) ^ 2 * eps * 4) (kama (dser 4 fourCloses) 2 2 30 false) (kama (ser 4 fourCloses) 2 2 30 false) :=
  kama_double fourCloses_prices (by norm_num) (by norm_num) (by norm_num) (by norm_num) (by norm_num) (by norm_num) (by norm_num)

end TA
