import Verif.Props.C49
import Verif.Props.C87
import Verif.Props.C96
import Verif.Props.C110
import Verif.Props.C127
import Mathlib.Tactic.IntervalCases

/-!
# C132 — CCI in double precision, and what it says when nothing moves

`CCIIndicator` (`ta/trend.py:643-660`) divides the distance of the typical price from its rolling mean by its mean absolute deviation.  pandas moves the rolling mean
along with compensated sums; numpy adds the deviations of each window.  Where the deviation is not small compared with the prices the result is right.
When the price stands still both are 0 in exact arithmetic and the column has no value; in double precision one or both are a last bit, and their quotient is anything:
±66.67 on every row, or -∞ on four rows out of sixteen, for ever.
-/

set_option linter.unusedSectionVars false

namespace TA
open Finset

/-- `CCIIndicator(...).cci()` with pandas' rolling mean and the given sum — ta/trend.py:643-675 -/
def cciPandas {F : Type} [Flt F] (σ : List F → F) (high low close : Series F) (window : Nat) (constant : F) (fillna : Bool) : Series F :=
  let tp := typicalPrice high low close
  checkFillna fillna (.const (lit 0)) (sdiv (ssub tp (onlineMean window (minp fillna window) tp))
    (cmul constant (rollApply (CCI.madBy σ) window (minp fillna window) tp)))

/-! ## A price that stands still -/

section flat

/-- pandas' accumulator on a column that is always `x`, once the window is full: one row out, one row in, over and over -/
theorem online_const {F S : Type} [Flt F] (add rem : S → F → S) (init : S) {w : Nat} (hw : 1 ≤ w) (x : F) (m : Nat) {n : Nat} (h : w - 1 + m < n) :
    online .removeFirst add rem init w (List.replicate n x) (w - 1 + m)
      = (fun st => add (rem st x) x)^[m] (online .removeFirst add rem init w (List.replicate w x) (w - 1)) := by
  have ixr : ∀ {k j : Nat}, j < k → ix (List.replicate k x) j = x := fun {k j} hj => by
    rw [ix_lt (by simpa using hj)]; simp
  induction m with
  | zero =>
    have := online_take .removeFirst add rem init w (List.replicate n x) (show w - 1 < w by omega)
    rw [List.take_replicate, min_eq_left (by omega)] at this
    exact this.symm
  | succ m ih =>
    rw [Function.iterate_succ_apply', ← ih (by omega), ← Nat.add_assoc, online_succ add rem init hw (by simp; omega)]
    rw [if_pos (by omega), ixr (by omega), ixr (by omega)]

theorem typical_replicate {F : Type} [Flt F] (n : Nat) (p : F) :
    typicalPrice (List.replicate n p) (List.replicate n p) (List.replicate n p) = List.replicate n (((p +. p) +. p) /. lit 3) := by
  have ixr : ∀ {k j : Nat} {x : F}, j < k → ix (List.replicate k x) j = x := fun {k j x} hj => by
    rw [ix_lt (by simpa using hj)]; simp
  refine series_ext (by simp [typicalPrice, divc]) fun i hi => ?_
  have hi' : i < n := by simpa using hi
  unfold typicalPrice divc
  rw [ix_map (by simpa using hi'), ix_sadd (by simpa using hi'), ix_sadd (by simpa using hi'), ixr hi', ixr hi']

/-- the CCI of a price that stands still, row by row -/
theorem cci_flat_row {F : Type} [Flt F] (σ : List F → F) {p x k : F} (hx : ((p +. p) +. p) /. lit 3 = x) (hc : clean x = x) (hv : Flt.isNaN x = false) {w : Nat} (hw : 1 ≤ w) {n m : Nat}
    (h : w - 1 + m < n) :
    ix (cciPandas σ (List.replicate n p) (List.replicate n p) (List.replicate n p) w k false) (w - 1 + m)
      = (x -. SumSt.calcMean w ((fun st => SumSt.add (SumSt.rem st x) x)^[m] (online .removeFirst SumSt.add SumSt.rem SumSt.init w (List.replicate w x) (w - 1))))
        /. (k *. CCI.madBy σ (List.replicate w x)) := by
  have ln : (List.replicate n x).length = n := List.length_replicate
  have ixr : ∀ {k j : Nat}, j < k → ix (List.replicate k x) j = x := fun {k j} hj => by
    rw [ix_lt (by simpa using hj)]; simp
  unfold cciPandas
  rw [typical_replicate, hx]
  dsimp only
  rw [show ∀ s : Series F, checkFillna false (.const (lit 0)) s = s from fun _ => rfl, show minp false w = w from rfl]
  have e1 : ix (onlineMean w w (List.replicate n x)) (w - 1 + m) = SumSt.calcMean w ((fun st => SumSt.add (SumSt.rem st x) x)^[m]
      (online .removeFirst SumSt.add SumSt.rem SumSt.init w (List.replicate w x) (w - 1))) := by
    unfold onlineMean
    rw [ix_tab_lt (by rw [ln]; exact h), List.map_replicate, hc, online_const _ _ _ hw x m h]
  have e2 : ix (rollApply (CCI.madBy σ) w w (List.replicate n x)) (w - 1 + m) = CCI.madBy σ (List.replicate w x) := by
    unfold rollApply
    rw [ix_roll' (by rw [ln]; exact h)]
    have e : (winIx w (w - 1 + m)).map (fun j => clean (ix (List.replicate n x) j)) = List.replicate w x := by
      rw [List.eq_replicate_iff]
      refine ⟨by rw [List.length_map, length_winIx]; omega, fun y hy => ?_⟩
      obtain ⟨j, hj, rfl⟩ := List.mem_map.mp hy
      rw [mem_winIx] at hj
      rw [ixr (by omega), hc]
    rw [e]
    unfold aggApply
    rw [if_pos]
    unfold valid
    rw [List.filter_eq_self.mpr (fun y hy => by rw [List.eq_of_mem_replicate hy, hv]; rfl), List.length_replicate]
  unfold cmul
  rw [ix_sdiv (by simp; omega), ix_ssub (by simp; omega), ix_map (by simp; omega), e1, e2, ixr h]

/-- the double nearest to `q` -/
def near64 (q : ℚ) : F64 := lit q

/-- the CCI with its default parameters of `n` bars that all stand at `p`, in double precision as pandas and numpy compute it -/
def stillCci (p : F64) (n : Nat) : Series F64 :=
  cciPandas npSum (List.replicate n p) (List.replicate n p) (List.replicate n p) 20 (near64 (3 / 200)) false

/-- a value that comes back after `t` rows: the column repeats itself for ever -/
theorem stillCci_periodic {p : F64} {t : Nat} (hx : ((p +. p) +. p) /. lit 3 = p) (hc : clean p = p) (hv : Flt.isNaN p = false)
    (ht : (fun st => SumSt.add (SumSt.rem st p) p)^[t] (online .removeFirst SumSt.add SumSt.rem SumSt.init 20 (List.replicate 20 p) 19)
      = online .removeFirst SumSt.add SumSt.rem SumSt.init 20 (List.replicate 20 p) 19) {n i : Nat} (hi : 19 ≤ i) (hn : i < n) :
    ix (stillCci p n) i = (p -. SumSt.calcMean 20 ((fun st => SumSt.add (SumSt.rem st p) p)^[(i - 19) % t]
      (online .removeFirst SumSt.add SumSt.rem SumSt.init 20 (List.replicate 20 p) 19))) /. (near64 (3 / 200) *. CCI.madBy npSum (List.replicate 20 p)) := by
  obtain ⟨m, rfl⟩ : ∃ m, i = 20 - 1 + m := ⟨i - 19, by omega⟩
  unfold stillCci
  rw [cci_flat_row npSum hx hc hv (by norm_num) hn, show 20 - 1 + m - 19 = m by omega]
  rw [Function.IsPeriodicPt.iterate_mod_apply (show Function.IsPeriodicPt _ t _ from ht)]

/-- `-inf` -/
def inf64 : F64 := Val.ninf

/-- C132. All bars at 100.01: in double precision, of every sixteen rows four show -∞ and twelve nothing, for ever. -/
theorem cci_still_inf {n i : Nat} (hi : 19 ≤ i) (hn : i < n) :
    ix (stillCci (near64 (10001 / 100)) n) i = if (i - 19) % 16 ∈ [4, 5, 6, 7] then inf64 else nan := by
  rw [stillCci_periodic (t := 16) (by decide +kernel) (by decide +kernel) (by decide +kernel) (by decide +kernel) hi hn]
  have := Nat.mod_lt (i - 19) (show 0 < 16 by norm_num)
  generalize (i - 19) % 16 = r at this ⊢
  interval_cases r <;> decide +kernel

/-- C132. All bars at 0.11: in double precision the CCI jumps between -66.67 and +66.67 for ever. -/
theorem cci_still_swings {n i : Nat} (hi : 19 ≤ i) (hn : i < n) :
    ix (stillCci (near64 (11 / 100)) n) i
      = if (i - 19) % 32 ∈ [2, 3, 6, 9, 10, 13, 16, 17, 20, 24, 27, 31] then fx (4691249611844267 / 70368744177664) else fx (-4691249611844267 / 70368744177664) := by
  rw [stillCci_periodic (t := 32) (by decide +kernel) (by decide +kernel) (by decide +kernel) (by decide +kernel) hi hn]
  have := Nat.mod_lt (i - 19) (show 0 < 32 by norm_num)
  generalize (i - 19) % 32 = r at this ⊢
  interval_cases r <;> decide +kernel

end flat

/-! ## Where the price moves -/

section moves
variable {K : Type} [Field K] [LinearOrder K] [IsStrictOrderedRing K] [FloorRing K]

/-- in exact arithmetic this is the model's CCI -/
theorem cciPandas_exact {σ : List (Val K) → Val K} (hσ : Summing σ) (h l c : Series (Val K)) (w : Nat) (k : Val K) (fillna : Bool) :
    cciPandas σ h l c w k fillna = cci h l c w k fillna := by
  rw [summing_eq hσ]
  unfold cciPandas cci CCI.run
  simp only [online_mean]
  rfl

/-- `np.mean` of a list of doubles -/
theorem npMean_double {σ : List (Double K) → Double K} {m d : Nat} (hσ : SumsIn σ m d) (hd : d ≤ 2 ^ 40) {x : List K} (h0 : x ≠ []) (hm : x.length ≤ m) (hx2 : x.length ≤ 2 ^ 40)
    {A : K} (hA : tiny ≤ A) (hA2 : A ≤ huge) (hx : ∀ y ∈ x, |y| ≤ A) :
    ∃ μ : K, npMeanBy σ (x.map rk) = rk μ ∧ |μ - x.sum / x.length| ≤ 1.2 * (((d : K) + 1) * (eps * A)) := by
  have he := eps_pos (K := K)
  have A0 : 0 < A := tiny_pos.trans_le hA
  have hcap := huge_cap (K := K)
  have eA : 0 < eps * A := mul_pos he A0
  have np : (0 : K) < x.length := by exact_mod_cast List.length_pos_iff.mpr h0
  obtain ⟨S, S1, S2⟩ := adds_double (hσ (x.map rk) (by simpa using hm)) hA hA2 hx hx2 hd
  have q1 : |S / x.length - x.sum / x.length| ≤ d * (1.1 * (eps * A)) := by
    rw [← sub_div, abs_div, abs_of_pos np, div_le_iff₀ np]
    exact S2.trans (le_of_eq (by ring))
  have dA : ((d : K) + 1) * (eps * A) ≤ A / 1000 := by
    have := mul_le_mul_of_nonneg_right (eps_win (K := K) hd) A0.le
    linarith
  have q2 : |x.sum / (x.length : K)| ≤ A := by
    rw [abs_div, abs_of_pos np, div_le_iff₀ np]
    have : ∀ l : List K, (∀ y ∈ l, |y| ≤ A) → |l.sum| ≤ A * l.length := fun l => by
      induction l with
      | nil => intro _; simp
      | cons a l ih =>
        intro hl
        have h1 := ih fun y hy => hl y (by simp [hy])
        have h2 := hl a (by simp)
        have := abs_add_le a l.sum
        rw [List.sum_cons, List.length_cons]
        push_cast
        linarith
    exact this x hx
  have d0 : (0 : K) ≤ d := Nat.cast_nonneg _
  have e1 : d * (1.1 * (eps * A)) = 1.1 * (((d : K) + 1) * (eps * A)) - 1.1 * (eps * A) := by ring
  obtain ⟨μ, m1, m2⟩ := near_div (x := S) (y := x.length) (B := 1.01 * A) np.ne' (by
    have := near_of_err q1 q2
    linarith) (by linarith) (by linarith)
  refine ⟨μ, ?_, ?_⟩
  · unfold npMeanBy
    rw [List.length_map, natF_rk hx2, S1]
    exact m1
  · have := abs_add_le (μ - S / x.length) (S / x.length - x.sum / x.length)
    rw [sub_add_sub_cancel] at this
    have : 0 ≤ ((d : K) + 1) * (eps * A) := mul_nonneg (by linarith) eA.le
    linarith

/-- the mean absolute deviation of a window of computed typical prices -/
theorem mad_double {σ : List (Double K) → Double K} {w d : Nat} (hσ : SumsIn σ w d) (hd : d ≤ 2 ^ 40) (hw : 1 ≤ w) (hw2 : w ≤ 2 ^ 40) {M : K} (hM : tiny ≤ M) (hM2 : 3 * M ≤ huge)
    {n : Nat} {y T : Nat → K} (hy : ∀ j, j < n → |y j - T j| ≤ 7 * (eps * M)) (hT : ∀ j, j < n → |T j| ≤ M) {i : Nat} (hi : i < n) :
    ∃ v : K, CCI.madBy σ ((winIx w i).map fun j => (rk (y j) : Double K)) = rk v ∧ |v - wmad T w i| ≤ (20 + 4 * (d : K)) * (eps * M) := by
  have he := eps_pos (K := K)
  have M0 : 0 < M := tiny_pos.trans_le hM
  have hcap := huge_cap (K := K)
  obtain ⟨e, rfl⟩ : ∃ e, e = eps * M := ⟨_, rfl⟩
  have e0 : 0 < eps * M := mul_pos he M0
  have eM : eps * M ≤ M / 1000 := by
    have := mul_le_mul_of_nonneg_right (eps_small (K := K)) M0.le
    linarith
  have dM : ((d : K) + 1) * (eps * M) ≤ M / 1000 := by
    have := mul_le_mul_of_nonneg_right (eps_win (K := K) hd) M0.le
    linarith
  have d0 : 0 ≤ ((d : K) + 1) * (eps * M) := mul_nonneg (by positivity) e0.le
  have lw : (winIx w i).length ≤ w := by rw [length_winIx]; omega
  have ln : ∀ j, j ∈ winIx w i → j < n := fun j hj => by rw [mem_winIx] at hj; omega
  have wm : ∀ f : Nat → K, ((winIx w i).map f).sum / (((winIx w i).map f).length : K) = wmean f w i := fun f => by
    rw [List.length_map, length_winIx, sum_winIx]; rfl
  have wd : ∀ (f g : Nat → K) (δ : K), 0 ≤ δ → (∀ j, j < n → |f j - g j| ≤ δ) → |wmean f w i - wmean g w i| ≤ δ := fun f g δ hδ h => by
    have := abs_wmean (x := fun j => f j - g j) hw h hi hδ
    rw [show wmean f w i - wmean g w i = wmean (fun j => f j - g j) w i by unfold wmean; rw [← sub_div, ← Finset.sum_sub_distrib]]
    exact this
  have yb : ∀ j, j < n → |y j| ≤ 1.007 * M := fun j hj => by
    have := near_of_err (hy j hj) (hT j hj); linarith
  obtain ⟨μ, m1, m2⟩ := npMean_double hσ hd (x := (winIx w i).map y) (by simpa using winIx_ne_nil hw i) (by simpa using lw) (by simpa using lw.trans hw2) (A := 1.007 * M)
    (by linarith) (by linarith) (fun z hz => by
      obtain ⟨j, hj, rfl⟩ := List.mem_map.mp hz
      exact yb j (ln j hj))
  rw [wm] at m2
  have m3 := wd y T _ (by linarith) hy
  have m4 : |μ - wmean T w i| ≤ 7 * (eps * M) + 1.21 * (((d : K) + 1) * (eps * M)) := by
    have := abs_add_le (μ - wmean y w i) (wmean y w i - wmean T w i)
    rw [sub_add_sub_cancel] at this
    have e : 1.2 * (((d : K) + 1) * (eps * (1.007 * M))) = 1.2084 * (((d : K) + 1) * (eps * M)) := by ring
    rw [e] at m2
    linarith
  have mA := abs_wmean hw hT hi M0.le
  have mb : |μ| ≤ 1.01 * M := by
    have := near_of_err m4 mA; linarith
  have ex : ∀ j, ∃ z : K, j < n → (Flt.abs ((rk (y j) : Double K) -. rk μ) = rk |z| ∧ |z - (y j - μ)| ≤ 2.03 * (eps * M)) := fun j => by
    by_cases hj : j < n
    · have hs : |y j - μ| ≤ 2.02 * M := by
        have := abs_sub (y j) μ
        have := yb j hj
        linarith
      obtain ⟨z, z1, z2⟩ := near_sub hs (by linarith) (by linarith)
      exact ⟨z, fun _ => ⟨by rw [z1]; rfl, by linarith⟩⟩
    · exact ⟨0, fun h => absurd h hj⟩
  choose z hz using ex
  have za : ∀ j, j < n → abs (|z j| - |T j - wmean T w i|) ≤ 16.03 * (eps * M) + 1.21 * (((d : K) + 1) * (eps * M)) := fun j hj => by
    have h1 := abs_abs_sub_abs_le_abs_sub (z j) (T j - wmean T w i)
    have h2 := (hz j hj).2
    have h3 := hy j hj
    refine h1.trans ?_
    rw [abs_le] at h2 h3 m4 ⊢
    constructor <;> linarith [h2.1, h2.2, h3.1, h3.2, m4.1, m4.2]
  have zb : ∀ j, j < n → abs |z j| ≤ 2.03 * M := fun j hj => by
    rw [abs_abs]
    have h2 := (hz j hj).2
    have h4 := yb j hj
    rw [abs_le] at h2 h4 mb ⊢
    constructor <;> linarith [h2.1, h2.2, h4.1, h4.2, mb.1, mb.2]
  obtain ⟨v, v1, v2⟩ := npMean_double hσ hd (x := (winIx w i).map fun j => |z j|) (by simpa using winIx_ne_nil hw i) (by simpa using lw) (by simpa using lw.trans hw2) (A := 2.03 * M)
    (by linarith) (by linarith) (fun x hx => by
      obtain ⟨j, hj, rfl⟩ := List.mem_map.mp hx
      exact zb j (ln j hj))
  rw [wm] at v2
  have v3 := wd (fun j => |z j|) (fun j => |T j - wmean T w i|) _ (by linarith) za
  refine ⟨v, ?_, ?_⟩
  · rw [← v1]
    unfold CCI.madBy
    rw [List.map_map] at m1
    rw [show ((winIx w i).map fun j => (rk (y j) : Double K)) = (winIx w i).map (rk ∘ y) from rfl, m1, List.map_map, List.map_map]
    congr 1
    refine List.map_congr_left fun j hj => ?_
    exact (hz j (ln j hj)).1
  · have := abs_add_le (v - wmean (fun j => |z j|) w i) (wmean (fun j => |z j|) w i - wmad T w i)
    rw [sub_add_sub_cancel] at this
    have e : 1.2 * (((d : K) + 1) * (eps * (2.03 * M))) = 2.436 * (((d : K) + 1) * (eps * M)) := by ring
    rw [e] at v2
    have v4 : |wmean (fun j => |z j|) w i - wmad T w i| ≤ 16.03 * (eps * M) + 1.21 * (((d : K) + 1) * (eps * M)) := v3
    have e2 : (20 + 4 * (d : K)) * (eps * M) = 16 * (eps * M) + 4 * (((d : K) + 1) * (eps * M)) := by ring
    have e3 : eps * M ≤ ((d : K) + 1) * (eps * M) := by
      have : (0 : K) ≤ d := Nat.cast_nonneg _
      have := mul_nonneg this e0.le
      linarith
    linarith

/-- the deviation of the computed typical price, row by row -/
theorem rollMad_double {σ : List (Double K) → Double K} {w d : Nat} (hσ : SumsIn σ w d) (hd : d ≤ 2 ^ 40) (hw : 1 ≤ w) (hw2 : w ≤ 2 ^ 40) {M : K} (hM : tiny ≤ M) (hM2 : 3 * M ≤ huge)
    {s : Series (Double K)} {n : Nat} {T : Nat → K} (hs : Approx s n 0 T (7 * (eps * M))) (hT : ∀ j, j < n → |T j| ≤ M) {mp : Nat} (hmp : mp ≤ w) :
    Approx (rollApply (CCI.madBy σ) w mp s) n (mp - 1) (wmad T w) ((20 + 4 * (d : K)) * (eps * M)) := by
  obtain ⟨y, y1, y2, -⟩ := hs.split
  simp only [Nat.sub_zero, Nat.zero_add, List.drop_zero] at y1 y2
  subst y2
  have ln : (dser n y).length = n := by simp [rser]
  have win : ∀ i, i < n → (winIx w i).map (fun j => clean (ix (dser n y) j)) = (winIx w i).map fun j => (rk (y j) : Double K) := fun i hi => by
    refine List.map_congr_left fun j hj => ?_
    rw [mem_winIx] at hj
    rw [show ix (dser n y) j = rk (y j) from ix_tab_lt (by omega)]
    rfl
  have lv : ∀ i, (valid ((winIx w i).map fun j => (rk (y j) : Double K))).length = min w (i + 1) := fun i => by
    unfold valid
    rw [List.filter_eq_self.mpr (fun x hx => by obtain ⟨j, -, rfl⟩ := List.mem_map.mp hx; rfl), List.length_map, length_winIx]
  refine ⟨by simp [rollApply, roll, rser], fun i hi g => ?_, fun i hi g => ?_⟩
  · unfold rollApply
    rw [ix_roll' (by rw [ln]; exact hi), win i hi]
    unfold aggApply
    rw [lv, if_neg (by omega)]
  · obtain ⟨v, v1, v2⟩ := mad_double hσ hd hw hw2 hM hM2 y1 hT hi
    refine ⟨v, ?_, v2⟩
    unfold rollApply
    rw [ix_roll' (by rw [ln]; exact hi), win i hi]
    unfold aggApply
    rw [lv, if_pos (by omega), v1]

theorem petty_room {k : K} (hk : petty ≤ k) {x : K} (hx : x ≤ 2 ^ 50) : x / k ≤ cap := by
  have h0 := petty_pos (K := K)
  rw [div_le_iff₀ (h0.trans_le hk)]
  have e : (2 : K) ^ 50 ≤ cap * petty := by
    unfold cap petty
    rw [← zpow_add₀ (by norm_num)]
    have : (2 : K) ^ (50 : ℤ) ≤ 2 ^ (1000 + -400 : ℤ) := zpow_le_zpow_right₀ (by norm_num) (by norm_num)
    exact_mod_cast this
  have c0 : (0 : K) ≤ cap := by linarith [thousand_le_cap (K := K)]
  exact hx.trans (e.trans (mul_le_mul_of_nonneg_left hk c0))

theorem grand_inv {k : K} (hk0 : 0 < k) (hk : k ≤ grand) : (tiny : K) ≤ 1 / (2 * k) := by
  rw [le_div_iff₀ (by linarith)]
  have h1 : (tiny : K) * grand ≤ 1 / 2 := by
    unfold tiny grand
    rw [← zpow_add₀ (by norm_num)]
    have : (2 : K) ^ (-900 + 400 : ℤ) ≤ 2 ^ (-1 : ℤ) := zpow_le_zpow_right₀ (by norm_num) (by norm_num)
    refine this.trans (le_of_eq (by norm_num))
  have h2 := mul_le_mul_of_nonneg_left hk (tiny_pos (K := K)).le
  linarith

theorem filled_row {s : Series (Double K)} {i : Nat} {y : K} (hi : i < s.length) (h : ix s i = rk y) (b : Bool) (v : Fill (Double K)) : ix (checkFillna b v s) i = rk y := by
  cases b with
  | false => exact h
  | true => exact Eq.trans (checkFillna_keep (F := Val K) (s := s) (v := v) hi (num_iff.mpr ⟨y, h⟩)) h

/-- C132: **CCI in double precision**, as pandas and numpy compute it, on a row where the typical price deviates from its mean by at least `g` on average and `g` is not as
small as the rounding of the prices: within `(210 n + (25 + 5 d) w) eps M / (k g)` of the exact CCI of the same doubles. -/
theorem cci_double {σ : List (Double K) → Double K} {w d : Nat} (hσ : SumsIn σ w d) (hd : d ≤ 2 ^ 40) (hw : 1 ≤ w) (hw2 : w ≤ 2 ^ 40) {n : Nat} (hn : n ≤ 2 ^ 40) {h l c : Nat → K}
    {M k : K} (hh : ∀ i, i < n → |h i| ≤ M) (hl : ∀ i, i < n → |l i| ≤ M) (hc : ∀ i, i < n → |c i| ≤ M) (hM : petty ≤ M) (hM2 : M ≤ grand) (hk : petty ≤ k) (hk2 : k ≤ grand)
    (fillna : Bool) {i : Nat} (hi : i < n) (hf : fillna = true ∨ w - 1 ≤ i) {g : K}
    (hg : g ≤ wmad (fun j => (h j + l j + c j) / 3) w i) (hgM : (46 + 8 * (d : K)) * (eps * M) ≤ g) :
    ∃ y z : K, ix (cciPandas σ (dser n h) (dser n l) (dser n c) w (rk k) fillna) i = rk y ∧
      ix (cci (ser n h) (ser n l) (ser n c) w (.fin k) fillna) i = .fin z ∧
      |y - z| ≤ (210 * n + (25 + 5 * (d : K)) * w) * (eps * M) / (k * g) := by
  have he := eps_pos (K := K)
  have M0 : 0 < M := petty_pos.trans_le hM
  have k0 : 0 < k := petty_pos.trans_le hk
  have e0 : 0 < eps * M := mul_pos he M0
  have d0 : (0 : K) ≤ d := Nat.cast_nonneg _
  have dE : 0 ≤ (d : K) * (eps * M) := mul_nonneg d0 e0.le
  have g0 : 0 < g := by linarith
  have hMt : tiny ≤ M := tiny_petty.trans hM
  have hgr := grand_le (K := K)
  have gr0 : (0 : K) < grand := two_zpow_pos _
  have hMh : 1000 * M ≤ huge := by linarith
  have hcap := huge_cap (K := K)
  have n1 : (1 : K) ≤ n := by exact_mod_cast (by omega : 1 ≤ n)
  have w1 : (1 : K) ≤ w := by exact_mod_cast hw
  have nM : ((n : K) + 1) * (eps * M) ≤ M / 1000 := by
    have := mul_le_mul_of_nonneg_right (eps_win (K := K) hn) M0.le
    linarith
  have dM : ((d : K) + 1) * (eps * M) ≤ M / 1000 := by
    have := mul_le_mul_of_nonneg_right (eps_win (K := K) hd) M0.le
    linarith
  have nE : eps * M ≤ n * (eps * M) := by
    have := mul_le_mul_of_nonneg_right n1 e0.le
    linarith
  have a := tp_approx hh hl hc hMt (by linarith)
  have T1 : ∀ j, j < n → |(h j + l j + c j) / 3| ≤ M := fun j hj => by
    have h1 := abs_le.mp (hh j hj)
    have h2 := abs_le.mp (hl j hj)
    have h3 := abs_le.mp (hc j hj)
    rw [abs_le]; constructor <;> linarith [h1.1, h1.2, h2.1, h2.2, h3.1, h3.2]
  obtain ⟨T, A, D, t1, t2, t3, -, t4, -⟩ := cci_formula n h l c hw k0.ne' fillna
  have eT : T = fun j => (h j + l j + c j) / 3 := funext t1
  have eA : A i = wmean T w i := t2 i
  have eD : D i = wmad T w i := by rw [t3, eA]; rfl
  rw [← eT] at a hg
  have T2 : ∀ j, j < n → |T j| ≤ M := fun j hj => by rw [t1]; exact T1 j hj
  clear T1
  have hD0 : 0 < wmad T w i := g0.trans_le hg
  have exact_ := t4 i hi hf (by rw [eD]; exact hD0.ne')
  rw [eA, eD] at exact_
  -- the mean
  have hmp := minp_le fillna w
  have b := a.onlineMean (by linarith) T2 hMt (by linarith) (hn.trans (by norm_num)) hw hmp
  have b' := b.mono (show _ ≤ 7 * (eps * M) + 85.6 * (n * (eps * M)) by
    have e1 : 85 * (n : K) * (eps * (M + 7 * (eps * M))) = 85 * (n * (eps * M)) + 595 * (eps * (n * (eps * M))) := by ring
    have e2 : eps * (n * (eps * M)) ≤ 1 / 1000 * (n * (eps * M)) := mul_le_mul_of_nonneg_right eps_small (by linarith)
    rw [e1]; linarith)
  have mA := fun j hj => abs_wmean (x := T) (n := n) (w := w) (i := j) hw T2 hj M0.le
  have num := a.sub b' (M := 2.2 * M) (fun j hj _ => by
    have h1 := T2 j hj
    have h2 := mA j hj
    have := abs_sub (T j) (wmean T w j)
    linarith) (by linarith) (by linarith)
  -- the deviation
  have hkM : tiny ≤ k * M := petty_sq.trans (mul_le_mul hk hM petty_pos.le k0.le)
  have hkM2 : 1000 * (k * M) ≤ huge := by
    have := mul_le_mul hk2 hM2 M0.le gr0.le
    linarith [grand_sq (K := K)]
  have wb : ∀ j, j < n → |wmad T w j| ≤ 2 * M := fun j hj => abs_wmean (x := fun q => |T q - wmean T w j|) hw (fun q hq => by
    rw [abs_abs]
    have h1 := T2 q hq
    have h2 := mA j hj
    have := abs_sub (T q) (wmean T w j)
    linarith) hj (by linarith)
  have den := (rollMad_double hσ hd hw hw2 hMt (by linarith) a T2 hmp).cmul (c := k) rfl (B := 2.03 * (k * M)) (fun j hj _ => by
    rw [abs_of_pos k0]
    have h1 := wb j hj
    have : |wmad T w j| + (20 + 4 * (d : K)) * (eps * M) ≤ 2.03 * M := by linarith
    have := mul_le_mul_of_nonneg_left this k0.le
    linarith) (by linarith [mul_pos k0 M0]) (by linarith)
  rw [abs_of_pos k0] at den
  have den' := den.mono (show _ ≤ k * ((23 + 4 * (d : K)) * (eps * M)) by
    have e1 : eps * (2.03 * (k * M)) = 2.03 * (k * (eps * M)) := by ring
    have e2 : k * ((23 + 4 * (d : K)) * (eps * M)) = k * ((20 + 4 * (d : K)) * (eps * M)) + 3 * (k * (eps * M)) := by ring
    have := mul_pos k0 e0
    rw [e1, e2]; linarith)
  have num' := num.mono (show _ ≤ 104 * (n * (eps * M)) by
    have e1 : 2 * eps * (2.2 * M) = 4.4 * (eps * M) := by ring
    rw [e1]; linarith)
  have hrow : minp fillna w - 1 ≤ i := by rw [minp_sub]; rcases hf with rfl | h1; simp; split_ifs <;> omega
  obtain ⟨u, u1, u2⟩ := num'.val i hi (by simpa using hrow)
  obtain ⟨v, v1, v2⟩ := den'.val i hi hrow
  -- the quotient
  have kg : 0 < k * g := mul_pos k0 g0
  have hmg : k * g ≤ |k * wmad T w i| := by
    rw [abs_of_pos (mul_pos k0 hD0)]; exact mul_le_mul_of_nonneg_left hg k0.le
  have h2e : 2 * (k * ((23 + 4 * (d : K)) * (eps * M))) ≤ k * g := by
    have := mul_le_mul_of_nonneg_left hgM k0.le
    linarith
  have hQ : |T i - wmean T w i| ≤ w / (2 * k) * |k * wmad T w i| := by
    rw [abs_of_pos (mul_pos k0 hD0)]
    have h1 := dev_le_mad T hw i
    have h3 : ((min w (i + 1) : ℕ) : K) ≤ w := by exact_mod_cast min_le_left _ _
    have h2 := mul_le_mul_of_nonneg_right h3 hD0.le
    have e1 : w / (2 * k) * (k * wmad T w i) = w * wmad T w i / 2 := by field_simp
    rw [e1]; linarith
  obtain ⟨q0, q1⟩ := quot_err kg hmg h2e u2 v2 hQ
  have e1 : 2 * (104 * (n * (eps * M)) + w / (2 * k) * (k * ((23 + 4 * (d : K)) * (eps * M)))) / (k * g) = (208 * n + (23 + 4 * (d : K)) * w) * (eps * M) / (k * g) := by
    field_simp; ring
  rw [e1] at q1
  have g2 : g ≤ 2 * M := hg.trans ((le_abs_self _).trans (wb i hi))
  clear num num' den den' a b b' wb mA T2 t4 t1 t2 t3 hh hl hc hσ
  obtain ⟨P, hP⟩ : ∃ P, P = (208 * n + (23 + 4 * (d : K)) * w) * (eps * M) / (k * g) := ⟨_, rfl⟩
  obtain ⟨Z, hZ⟩ : ∃ Z, Z = (w : K) / (2 * k) := ⟨_, rfl⟩
  rw [← hP] at q1
  have n0 : (0 : K) ≤ n := by linarith
  have P0 : 0 ≤ P := by rw [hP]; positivity
  have k3 : |(T i - wmean T w i) / (k * wmad T w i)| ≤ Z := by
    rw [abs_div, div_le_iff₀ (kg.trans_le hmg), hZ]; exact hQ
  have hB : |u / v| ≤ Z + P := near_of_err q1 k3
  have Zt : tiny ≤ Z := (grand_inv k0 hk2).trans (by rw [hZ]; exact div_le_div_of_nonneg_right w1 (by linarith))
  have PZ : P ≤ (5 * n + w) / k := by
    rw [hP, div_le_div_iff₀ kg k0]
    have h1 : (n : K) * (46 * (eps * M)) ≤ n * g := mul_le_mul_of_nonneg_left (by linarith) n0
    have h2 : (w : K) * ((46 + 8 * (d : K)) * (eps * M)) ≤ w * g := mul_le_mul_of_nonneg_left hgM (by linarith)
    have h3 : 0 ≤ (w : K) * g := mul_nonneg (by linarith) g0.le
    have h4 : 0 ≤ (n : K) * g := mul_nonneg n0 g0.le
    have h5 : (208 * n + (23 + 4 * (d : K)) * w) * (eps * M) ≤ (5 * n + w) * g := by linarith
    have := mul_le_mul_of_nonneg_right h5 k0.le
    linarith
  have Bc : Z + P ≤ cap := by
    have h1 : Z + P ≤ (5 * n + 2 * w) / k := by
      have e2 : (5 * (n : K) + 2 * w) / k = (5 * n + w) / k + 2 * Z := by rw [hZ]; field_simp; ring
      rw [e2]; linarith [tiny_pos (K := K)]
    refine h1.trans (petty_room hk ?_)
    have h2 : (n : K) ≤ 2 ^ 40 := by exact_mod_cast hn
    have h3 : (w : K) ≤ 2 ^ 40 := by exact_mod_cast hw2
    have e3 : (2 : K) ^ 50 = 1024 * 2 ^ 40 := by norm_num
    have e4 : (0 : K) < 2 ^ 40 := by positivity
    rw [e3]; linarith
  obtain ⟨y, y1, y2⟩ := near_div q0 hB (by linarith) Bc
  have row : ix (sdiv (ssub (typicalPrice (dser n h) (dser n l) (dser n c)) (onlineMean w (minp fillna w) (typicalPrice (dser n h) (dser n l) (dser n c))))
      (cmul (rk k) (rollApply (CCI.madBy σ) w (minp fillna w) (typicalPrice (dser n h) (dser n l) (dser n c))))) i = rk y := by
    rw [ix_sdiv (by simp [typicalPrice, divc, rser]; exact hi), u1, v1, y1]
  refine ⟨y, (T i - wmean T w i) / (k * wmad T w i), ?_, exact_, ?_⟩
  · unfold cciPandas
    exact filled_row (by simp [typicalPrice, divc, rser]; exact hi) row fillna _
  · have r1 := abs_add_le (y - u / v) (u / v - (T i - wmean T w i) / (k * wmad T w i))
    rw [sub_add_sub_cancel] at r1
    have r2 : eps * P ≤ 1 / 1000 * P := mul_le_mul_of_nonneg_right eps_small P0
    have r3 : eps * Z ≤ w * (eps * M) / (k * g) := by
      rw [hZ, ← mul_div_assoc, div_le_div_iff₀ (by linarith) kg]
      have := mul_le_mul_of_nonneg_left g2 (mul_nonneg (mul_nonneg he.le (by linarith : (0 : K) ≤ w)) k0.le)
      linarith
    have R0 : 0 ≤ (w : K) * (eps * M) / (k * g) := by positivity
    have R1 : 0 ≤ (d : K) * w * (eps * M) / (k * g) := by positivity
    have R2 : 0 ≤ (n : K) * (eps * M) / (k * g) := by positivity
    have e5 : (210 * n + (25 + 5 * (d : K)) * w) * (eps * M) / (k * g)
        = 210 * (n * (eps * M) / (k * g)) + 25 * (w * (eps * M) / (k * g)) + 5 * (d * w * (eps * M) / (k * g)) := by ring
    have e6 : P = 208 * (n * (eps * M) / (k * g)) + 23 * (w * (eps * M) / (k * g)) + 4 * (d * w * (eps * M) / (k * g)) := by rw [hP]; ring
    rw [e5]
    linarith

/-- a market that moves: on every row of 20 bars or more at `100, 101, 100, 101, …` the deviation is 1/2, and with numpy's sum the bound applies with `g = 1/2` -/
example : SumsIn (npSum : List (Double ℚ) → Double ℚ) 20 26 ∧ wmad (fun j => (((100 + j % 2 : ℕ) : ℚ) + (100 + j % 2 : ℕ) + (100 + j % 2 : ℕ)) / 3) 20 19 = 1 / 2 ∧
    (46 + 8 * ((26 : ℕ) : ℚ)) * (eps * 101) ≤ 1 / 2 := by
  refine ⟨npSum_sumsIn (s := 0) (by norm_num), by decide +kernel, ?_⟩
  unfold eps; norm_num

/-- C132. The market of `cci_still_inf` and `cci_still_swings`: without rounding it has no CCI on any row. -/
theorem cci_still_exact {n i : Nat} (p : ℝ) {k : ℝ} (hk : k ≠ 0) (hi : i < n) :
    ix (cci (ser n fun _ => p) (ser n fun _ => p) (ser n fun _ => p) 20 (.fin k) false) i = .nan := cci_still (by norm_num) hk hi

/-- the first eight rows of the market at 100.01 that have a full window: no value four times, then -∞ four times -/
example : (stillCci (near64 (10001 / 100)) 27).drop 19 = [nan, nan, nan, nan, inf64, inf64, inf64, inf64] := by decide +kernel

end moves
end TA
