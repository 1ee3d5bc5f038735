import Verif.Props.C80
import Verif.Props.C34
import Verif.Props.C58

/-!
# C81: on-balance volume in double precision

A running total has no fading: integer volumes are added exactly while the totals stay below `2^52`; in general the error
grows with the number of rows, and it does grow in the worst case: from `2^53` on, unit volumes no longer count.
-/

set_option linter.unusedSectionVars false

namespace TA
variable {K : Type} [Field K] [LinearOrder K] [IsStrictOrderedRing K] [FloorRing K]

theorem signed_double (n : Nat) (c v : Nat → K) : OBV.signed (dser n c) (dser n v) = dser n (signedVol c v) := by
  refine series_ext (by simp [OBV.signed, rser]) fun i hi => ?_
  have hi : i < n := by simpa [OBV.signed, rser] using hi
  have eh : ∀ f : Nat → K, ix (dser n f) i = rk (f i) := fun f => ix_tab_lt hi
  have ec : ix (shift (dser n c) 1) i = if i = 0 then nan else rk (c (i - 1)) := by
    rw [ix_shift (by simpa [rser] using hi)]
    by_cases h0 : i = 0
    · rw [if_pos (by omega), if_pos h0]
    · rw [if_neg (by omega), if_neg h0]
      exact ix_tab_lt (by omega)
  unfold OBV.signed
  rw [ix_zip3 (by simpa [rser] using hi), eh, eh, eh, ec]
  unfold signedVol
  by_cases h0 : i = 0
  · have e : ((rk (c i) : Double K) <. nan) = false := rfl
    rw [if_pos h0, e, if_neg (by simp), if_neg (fun h => by omega)]
  · rw [if_neg h0]
    have e : ((rk (c i) : Double K) <. rk (c (i - 1))) = decide (c i < c (i - 1)) := rfl
    rw [e]
    by_cases hc : c i < c (i - 1)
    · rw [if_pos (by simpa using hc), if_pos ⟨by omega, hc⟩]; rfl
    · rw [if_neg (by simpa using hc), if_neg (fun h => hc h.2)]

/-- the first `k` additions of a running total -/
def running (f : Nat → K) (k : Nat) : Double K := ((List.range k).map fun j => (rk (f j) : Double K)).foldl Flt.add (rk 0)

theorem running_succ (f : Nat → K) (k : Nat) : running f (k + 1) = running f k +. rk (f k) := by
  unfold running
  rw [List.range_succ, List.map_append, List.foldl_append]; rfl

theorem ix_obv_double (n : Nat) (c v : Nat → K) {i : Nat} (hi : i < n) :
    ix (OBV.run (dser n c) (dser n v)) i = running (signedVol c v) (i + 1) := by
  unfold OBV.run
  rw [signed_double]
  generalize signedVol c v = f
  unfold cumsum
  rw [ix_pre (by simpa [rser] using hi)]
  have ht : (dser n f).take (i + 1) = (List.range (i + 1)).map fun j => (rk (f j) : Double K) := by
    unfold dser rser tab
    rw [← List.map_take, List.take_range, Nat.min_eq_left (by omega)]
  have hv : valid ((List.range (i + 1)).map fun j => (rk (f j) : Double K)) =
      (List.range (i + 1)).map fun j => (rk (f j) : Double K) := by
    unfold valid
    rw [List.filter_eq_self]
    intro a ha
    obtain ⟨z, _, rfl⟩ := List.mem_map.mp ha
    rfl
  have hlast : ix ((dser n f).take (i + 1)) (((dser n f).take (i + 1)).length - 1) = rk (f i) := by
    rw [ht, ix_lt (by simp)]; simp
  rw [hlast, ht, hv]
  unfold sumL running
  rw [show (lit 0 : Double K) = rk 0 from lit0]
  rfl

/-- numbers in every row: nothing to fill -/
theorem obv_fill {n : Nat} {c v : Nat → K} {g : Nat → K} {δ : K} (fillna : Bool)
    (h : ∀ i, i < n → ∃ y, running (signedVol c v) (i + 1) = rk y ∧ |y - g i| ≤ δ) :
    Approx (onBalanceVolume (dser n c) (dser n v) fillna) n 0 g δ := by
  unfold onBalanceVolume
  refine Approx.fill ⟨by simp [OBV.run, cumsum, OBV.signed, pre, rser], fun i _ h => by omega, fun i hi _ => ?_⟩ _ _
  rw [ix_obv_double n c v hi]
  exact h i hi

/-- C81: on-balance volume is exact for integer volumes as long as every running total is at most `2^52`. -/
theorem obv_double_exact (n : Nat) (c : Nat → K) (v : Nat → ℤ) (fillna : Bool)
    (h : ∀ i, i < n → |∑ j ∈ Finset.range (i + 1), if 0 < j ∧ c j < c (j - 1) then -v j else v j| ≤ 2 ^ 52) :
    CloseTo 0 (onBalanceVolume (dser n c) (dser n fun i => (v i : K)) fillna)
      (onBalanceVolume (ser n c) (ser n fun i => (v i : K)) fillna) := by
  refine Approx.close (p := 0) ?_ (obv_formula n c (fun i => (v i : K)) fillna)
  refine obv_fill fillna ?_
  have key : ∀ i, i ≤ n → running (signedVol c fun i => (v i : K)) i
      = rk ((∑ j ∈ Finset.range i, if 0 < j ∧ c j < c (j - 1) then -v j else v j : ℤ) : K) := by
    intro i
    induction i with
    | zero => intro _; simp [running]
    | succ i ih =>
      intro hi
      rw [running_succ, ih (by omega)]
      have e : signedVol c (fun i => (v i : K)) i = ((if 0 < i ∧ c i < c (i - 1) then -v i else v i : ℤ) : K) := by
        unfold signedVol; split_ifs <;> push_cast <;> rfl
      rw [e]
      show (binary64 : Rounding K).rd (_ + _) = Val.fin _
      rw [Finset.sum_range_succ, ← Int.cast_add]
      refine b64_int ?_
      have := h i (by omega)
      rwa [Finset.sum_range_succ] at this
  intro i hi
  refine ⟨_, key (i + 1) (by omega), ?_⟩
  push_cast
  rw [sub_self, abs_zero]

/-- C81: in general the error grows at most linearly with the row number; `S` bounds the exact totals. -/
theorem obv_double (n : Nat) (hn : n ≤ 2 ^ 40) (c v : Nat → K) (fillna : Bool) {S : K} (hS1 : tiny ≤ S) (hS2 : S ≤ huge)
    (h : ∀ i, i < n → |∑ j ∈ Finset.range (i + 1), if 0 < j ∧ c j < c (j - 1) then -v j else v j| ≤ S) :
    CloseTo (1.1 * n * eps * S) (onBalanceVolume (dser n c) (dser n v) fillna)
      (onBalanceVolume (ser n c) (ser n v) fillna) := by
  refine Approx.close (p := 0) ?_ (obv_formula n c v fillna)
  refine obv_fill fillna ?_
  have hS0 : 0 < S := tiny_pos.trans_le hS1
  have hu := eps_pos (K := K)
  have hη := eta_le hS1
  have hb := big_le (K := K) (M := S) (by linarith [huge_cap (K := K)])
  have huS : 0 < eps * S := by positivity
  have key : ∀ i, i ≤ n → ∃ y, running (signedVol c v) i = rk y ∧
      |y - ∑ j ∈ Finset.range i, signedVol c v j| ≤ 1.1 * i * eps * S := by
    intro i
    induction i with
    | zero => intro _; exact ⟨0, rfl, by simp⟩
    | succ i ih =>
      intro hi
      obtain ⟨y, y1, y2⟩ := ih (by omega)
      rw [running_succ, y1, Finset.sum_range_succ]
      have hs := h i (by omega)
      change |∑ j ∈ Finset.range (i + 1), signedVol c v j| ≤ S at hs
      rw [Finset.sum_range_succ] at hs
      generalize signedVol c v i = x at *
      generalize (∑ j ∈ Finset.range i, signedVol c v j) = P at *
      have hi1 : 1000 * eps * ((i : K) + 1) ≤ 1 := eps_win (by omega)
      have k1 : 1.1 * i * eps * S ≤ 0.01 * S := by
        have := mul_le_mul_of_nonneg_right hi1 hS0.le
        have : 0 ≤ (i : K) * (eps * S) := by positivity
        linarith
      have k2 : |y + x| ≤ 1.01 * S := by
        have := abs_add_le (y - P) (P + x)
        rw [show y - P + (P + x) = y + x by ring] at this
        linarith
      obtain ⟨z, z1, z2⟩ := acc_add (b64_acc (K := K)) (x := y) (y := x)
        (k2.trans (le_trans (by linarith) hb))
      change |z - (y + x)| ≤ eps * |y + x| + _ at z2
      refine ⟨z, z1, ?_⟩
      have k3 := mul_le_mul_of_nonneg_left k2 hu.le
      have := abs_add_le (z - (y + x)) (y - P)
      rw [show z - (y + x) + (y - P) = z - (P + x) by ring] at this
      push_cast
      linarith
  intro i hi
  obtain ⟨y, y1, y2⟩ := key (i + 1) (by omega)
  refine ⟨y, y1, y2.trans ?_⟩
  have : (((i + 1 : ℕ)) : K) ≤ n := by exact_mod_cast hi
  have := mul_le_mul_of_nonneg_right this (by positivity : 0 ≤ 1.1 * (eps * S))
  linarith

/-- volumes `2^53, 1, 1, 1, …` -/
def crowded (i : Nat) : ℚ := if i = 0 then 2 ^ 53 else 1

/-- C81: the error does build up: after a total of `2^53`, `n` rows of volume 1 on rising closes leave the computed total
unchanged while the exact one has grown by `n`. -/
theorem obv_double_stuck (n : Nat) (fillna : Bool) :
    ix (onBalanceVolume (dser (n + 1) fun i => (i : ℚ)) (dser (n + 1) crowded) fillna) n = (rk (2 ^ 53) : Double ℚ) ∧
    ix (onBalanceVolume (ser (n + 1) fun i => (i : ℚ)) (ser (n + 1) crowded) fillna) n = .fin (2 ^ 53 + n) := by
  have hs : ∀ i, signedVol (fun i => (i : ℚ)) crowded i = crowded i := fun i => by
    unfold signedVol
    rw [if_neg]
    rintro ⟨h1, h2⟩
    have h2 : (i : ℚ) < ((i - 1 : ℕ) : ℚ) := h2
    have : i < i - 1 := by exact_mod_cast h2
    omega
  constructor
  · have key : ∀ i, running (signedVol (fun i => (i : ℚ)) crowded) (i + 1) = (rk (2 ^ 53) : Double ℚ) := by
      intro i
      rw [running_succ, hs]
      induction i with
      | zero =>
        have : (b64rd (0 + 2 ^ 53) : Val ℚ) = .fin (2 ^ 53) := by decide +kernel
        exact this
      | succ i ih =>
        rw [running_succ, hs, ih]
        have : (b64rd (2 ^ 53 + 1) : Val ℚ) = .fin (2 ^ 53) := by decide +kernel
        exact this
    have := obv_fill (n := n + 1) (c := fun i => (i : ℚ)) (v := crowded) (g := fun _ => 2 ^ 53) (δ := 0) fillna
      fun i _ => ⟨2 ^ 53, key i, by simp⟩
    obtain ⟨y, y1, y2⟩ := this.val n (by omega) (Nat.zero_le _)
    rw [y1]
    have := abs_nonpos_iff.mp y2
    rw [sub_eq_zero.mp this]
  · rw [(obv_formula (n + 1) (fun i => (i : ℚ)) crowded fillna).val n (by omega) (Nat.zero_le _)]
    congr 1
    have := Finset.sum_congr (rfl : Finset.range (n + 1) = _) fun i _ => hs i
    unfold signedVol at this
    rw [this, Finset.sum_range_succ']
    simp [crowded]
    ring

/-! ## examples -/

example : onBalanceVolume (dser 4 zigzag) (dser 4 fun i => ((7 * (i : ℤ) + 1 : ℤ) : ℚ)) =
    [rk 1, rk 9, rk (-6), rk 16] := by decide +kernel

example : CloseTo 0 (onBalanceVolume (dser 4 zigzag) (dser 4 fun i => ((7 * (i : ℤ) + 1 : ℤ) : ℚ)) true)
    (onBalanceVolume (ser 4 zigzag) (ser 4 fun i => ((7 * (i : ℤ) + 1 : ℤ) : ℚ)) true) :=
  obv_double_exact 4 zigzag (fun i => 7 * (i : ℤ) + 1) true (by decide +kernel)

/-- tenths are not exact: 0.1 + 0.2 is not 0.3 -/
example : onBalanceVolume [rk 1, rk 1] [f64 0.1, f64 0.2] = [f64 0.1, f64 (0.3 + 1 / 2 ^ 54)] ∧
    f64 (0.3 + 1 / 2 ^ 54) ≠ f64 0.3 := by decide +kernel

end TA
