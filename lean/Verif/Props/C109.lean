import Verif.Props.C81
import Verif.Base.RoundP

/-!
# C109: columns of single precision

On `float32` columns pandas and numpy compute products, quotients and cumulated sums in `float32` (rolling and exponential windows are
converted to `float64` first).  So the running totals OBV and ADI are sums in single precision: whole numbers are added exactly up to `2^24`,
and there the total stays, whatever is traded afterwards in small lots.  In double precision the same volumes are added exactly (C81).
-/

set_option linter.unusedSectionVars false

namespace TA

section
variable {K : Type} [Field K] [LinearOrder K] [IsStrictOrderedRing K] {R : Rounding K}

/-- a running total, every addition rounded -/
def total (f : Nat → K) (k : Nat) : Rval R := ((List.range k).map fun j => (rk (f j) : Rval R)).foldl Flt.add (rk 0)

theorem total_succ (f : Nat → K) (k : Nat) : (total f (k + 1) : Rval R) = total f k +. rk (f k) := by
  unfold total
  rw [List.range_succ, List.map_append, List.foldl_append]; rfl

theorem ix_cumsum_rser (n : Nat) (f : Nat → K) {i : Nat} (hi : i < n) : ix (cumsum (rser n f : Series (Rval R))) i = total f (i + 1) := by
  unfold cumsum
  rw [ix_pre (by simpa [rser] using hi)]
  have ht : (rser n f : Series (Rval R)).take (i + 1) = (List.range (i + 1)).map fun j => (rk (f j) : Rval R) := by
    unfold rser tab
    rw [← List.map_take, List.take_range, Nat.min_eq_left (by omega)]
  have hv : valid ((List.range (i + 1)).map fun j => (rk (f j) : Rval R)) = (List.range (i + 1)).map fun j => (rk (f j) : Rval R) := by
    unfold valid
    rw [List.filter_eq_self]
    intro a ha
    obtain ⟨z, _, rfl⟩ := List.mem_map.mp ha
    rfl
  have hlast : ix ((rser n f : Series (Rval R)).take (i + 1)) (((rser n f : Series (Rval R)).take (i + 1)).length - 1) = rk (f i) := by
    rw [ht, ix_lt (by simp)]; simp
  rw [hlast, ht, hv]
  unfold sumL total
  rw [show (lit 0 : Rval R) = rk 0 from lit0]
  rfl

theorem signed_rser (n : Nat) (c v : Nat → K) : OBV.signed (rser n c : Series (Rval R)) (rser n v) = rser n (signedVol c v) := by
  refine series_ext (by simp [OBV.signed, rser]) fun i hi => ?_
  have hi : i < n := by simpa [OBV.signed, rser] using hi
  have eh : ∀ f : Nat → K, ix (rser n f : Series (Rval R)) i = rk (f i) := fun f => ix_tab_lt hi
  have ec : ix (shift (rser n c : Series (Rval R)) 1) i = if i = 0 then nan else rk (c (i - 1)) := by
    rw [ix_shift (by simpa [rser] using hi)]
    by_cases h0 : i = 0
    · rw [if_pos (by omega), if_pos h0]
    · rw [if_neg (by omega), if_neg h0]
      exact ix_tab_lt (by omega)
  unfold OBV.signed
  rw [ix_zip3 (by simpa [rser] using hi), eh, eh, eh, ec]
  unfold signedVol
  by_cases h0 : i = 0
  · have e : ((rk (c i) : Rval R) <. nan) = false := rfl
    rw [if_pos h0, e, if_neg (by simp), if_neg (fun h => by omega)]
  · rw [if_neg h0]
    have e : ((rk (c i) : Rval R) <. rk (c (i - 1))) = decide (c i < c (i - 1)) := rfl
    rw [e]
    by_cases hc : c i < c (i - 1)
    · rw [if_pos (by simpa using hc), if_pos ⟨by omega, hc⟩]; rfl
    · rw [if_neg (by simpa using hc), if_neg (fun h => hc h.2)]

theorem keep_rounded {s : Series (Rval R)} {v : Fill (Rval R)} {i : Nat} (hi : i < s.length) {y : K} (h : ix s i = rk y) :
    ix (checkFillna true v s) i = ix s i :=
  checkFillna_keep (F := Val K) (s := s) (v := v) (i := i) hi (num_iff.mpr ⟨y, h⟩)

/-- OBV in rounded arithmetic is the running total, where that is a number -/
theorem obv_total (n : Nat) (c v : Nat → K) (fillna : Bool) {i : Nat} (hi : i < n) {y : K} (h : (total (signedVol c v) (i + 1) : Rval R) = rk y) :
    ix (onBalanceVolume (rser n c : Series (Rval R)) (rser n v) fillna) i = rk y := by
  have e : ix (OBV.run (rser n c : Series (Rval R)) (rser n v)) i = rk y := by
    unfold OBV.run
    rw [signed_rser, ix_cumsum_rser n _ hi, h]
  unfold onBalanceVolume
  cases fillna with
  | false => rw [noFill]; exact e
  | true => exact (keep_rounded (by simpa [OBV.run, cumsum, OBV.signed, rser] using hi) e).trans e

/-- the close location value of bars that close at the high: 1, when the range is representable -/
theorem clv_high (n : Nat) (h l : Nat → K) (hr : ∀ i, i < n → l i < h i ∧ R.rd (h i - l i) = .fin (h i - l i)) :
    clv (rser n h : Series (Rval R)) (rser n l) (rser n h) = rser n fun _ => 1 := by
  refine series_ext (by simp [clv, fillConst, rser]) fun i hi => ?_
  have hi : i < n := by simpa [clv, fillConst, rser] using hi
  obtain ⟨hlh, hrd⟩ := hr i hi
  have eh : ∀ f : Nat → K, ix (rser n f : Series (Rval R)) i = rk (f i) := fun f => ix_tab_lt hi
  unfold clv fillConst
  rw [ix_map (by simpa [rser] using hi), ix_sdiv (by simpa [rser] using hi), ix_ssub (by simpa [rser] using hi),
    ix_ssub (by simpa [rser] using hi), ix_ssub (by simpa [rser] using hi), eh, eh, eh]
  have e1 : (rk (h i) -. rk (l i) : Rval R) = rk (h i - l i) := by
    show R.rd (h i + -l i) = Val.fin _
    rw [← sub_eq_add_neg, hrd]
  have e2 : (rk (h i) -. rk (h i) : Rval R) = rk 0 := by
    show R.rd (h i + -h i) = Val.fin 0
    rw [add_neg_cancel, R.zero]
  have e3 : (rk (h i - l i) -. rk 0 : Rval R) = rk (h i - l i) := by
    show R.rd (h i - l i + -0) = Val.fin _
    rw [neg_zero, add_zero, hrd]
  have e4 : (rk (h i - l i) /. rk (h i - l i) : Rval R) = rk 1 := by
    show R.rnd (Val.div (Val.fin (h i - l i)) (Val.fin (h i - l i))) = Val.fin 1
    have hne := sub_ne_zero.mpr hlh.ne'
    rw [show Val.div (Val.fin (h i - l i)) (Val.fin (h i - l i)) = Val.fin ((h i - l i) / (h i - l i)) from fin_div _ _ hne, div_self hne]
    exact R.one
  rw [e1, e2, e3, e4]
  rfl

theorem adi_total (n : Nat) (h l v : Nat → K) (fillna : Bool) (hr : ∀ i, i < n → l i < h i ∧ R.rd (h i - l i) = .fin (h i - l i))
    (hv : ∀ i, i < n → R.rd (v i) = .fin (v i)) {i : Nat} (hi : i < n) {y : K} (ht : (total v (i + 1) : Rval R) = rk y) :
    ix (accDistIndex (rser n h : Series (Rval R)) (rser n l) (rser n h) (rser n v) fillna) i = rk y := by
  have hm : smul (rser n fun _ => 1 : Series (Rval R)) (rser n v) = rser n v := by
    refine series_ext (by simp [rser]) fun j hj => ?_
    have hj : j < n := by simpa [rser] using hj
    have eh : ∀ f : Nat → K, ix (rser n f : Series (Rval R)) j = rk (f j) := fun f => ix_tab_lt hj
    rw [ix_smul (by simpa [rser] using hj), eh, eh]
    show R.rd (1 * v j) = Val.fin (v j)
    rw [one_mul, hv j hj]
  have e : ix (ADI.run (rser n h : Series (Rval R)) (rser n l) (rser n h) (rser n v)) i = rk y := by
    unfold ADI.run
    rw [clv_high n h l hr, hm, ix_cumsum_rser n _ hi, ht]
  unfold accDistIndex
  cases fillna with
  | false => rw [noFill]; exact e
  | true => exact (keep_rounded (by simpa [ADI.run, cumsum, clv, fillConst, rser] using hi) e).trans e

end

variable {K : Type} [Field K] [LinearOrder K] [IsStrictOrderedRing K] [FloorRing K]

/-- values of `float32` columns -/
abbrev Single (K : Type) [Field K] [LinearOrder K] [IsStrictOrderedRing K] [FloorRing K] := Rval (binary32 : Rounding K)

/-- the `float32` column of the numbers `x 0, …, x (n-1)` -/
abbrev fser (n : Nat) (x : Nat → K) : Series (Single K) := rser n x

theorem b32_int {k : ℤ} (hk : |k| ≤ 2 ^ 24) : (binary32 : Rounding K).rd (k : K) = .fin k :=
  binrd_int (p := 23) hk (by norm_num) (by norm_num)

theorem b32_deaf {m : ℤ} {v : K} (hm : -126 ≤ m) (hE : m < 128) (h0 : 0 ≤ v) (h1 : v ≤ 2 ^ (m - 24)) :
    (binary32 : Rounding K).rd (2 ^ m + v) = .fin (2 ^ m) := by
  refine binrd_deaf (p := 23) (by norm_num) (by push_cast; omega) hE h0 ?_
  rwa [show m - (23 : ℕ) - 1 = m - 24 by push_cast; ring]

/-- whole numbers are added exactly up to `2^24` -/
theorem total_int {f : Nat → ℤ} {n : Nat} (h : ∀ i, i < n → |∑ j ∈ Finset.range (i + 1), f j| ≤ 2 ^ 24) :
    ∀ i, i ≤ n → (total (fun j => (f j : K)) i : Single K) = rk ((∑ j ∈ Finset.range i, f j : ℤ) : K) := by
  intro i
  induction i with
  | zero => intro _; simp [total]
  | succ i ih =>
    intro hi
    rw [total_succ, ih (by omega)]
    show (binary32 : Rounding K).rd (_ + _) = Val.fin _
    rw [Finset.sum_range_succ, ← Int.cast_add]
    refine b32_int ?_
    have := h i (by omega)
    rwa [Finset.sum_range_succ] at this

/-- C109: OBV of `float32` columns is exact for whole volumes as long as every total is at most `2^24` in size. -/
theorem obv_single_exact (n : Nat) (c : Nat → K) (v : Nat → ℤ) (fillna : Bool)
    (h : ∀ i, i < n → |∑ j ∈ Finset.range (i + 1), if 0 < j ∧ c j < c (j - 1) then -v j else v j| ≤ 2 ^ 24) {i : Nat} (hi : i < n) :
    ∃ x : K, ix (onBalanceVolume (fser n c) (fser n fun i => (v i : K)) fillna) i = rk x ∧
      ix (onBalanceVolume (ser n c) (ser n fun i => (v i : K)) fillna) i = .fin x := by
  have e : signedVol c (fun i => (v i : K)) = fun j => ((if 0 < j ∧ c j < c (j - 1) then -v j else v j : ℤ) : K) := by
    funext j
    unfold signedVol
    split_ifs <;> push_cast <;> rfl
  refine ⟨_, obv_total n c _ fillna hi (by rw [e]; exact total_int h (i + 1) hi), ?_⟩
  rw [(obv_formula n c _ fillna).val i hi (Nat.zero_le _)]
  push_cast
  rfl

/-- a total of `2^m` does not hear what is at most `2^(m-24)` -/
theorem total_deaf {m : ℤ} (hm : -126 ≤ m) (hE : m < 128) {f : Nat → K} (h0 : f 0 = 2 ^ m) (h : ∀ i, 1 ≤ i → 0 ≤ f i ∧ f i ≤ 2 ^ (m - 24)) (i : Nat) :
    (total f (i + 1) : Single K) = rk (2 ^ m) := by
  induction i with
  | zero =>
    rw [total_succ, h0]
    show (binary32 : Rounding K).rd (0 + 2 ^ m) = Val.fin _
    have := b32_deaf (K := K) (v := 0) hm hE le_rfl (two_zpow_pos _).le
    rw [zero_add]
    rwa [add_zero] at this
  | succ i ih =>
    rw [total_succ, ih]
    exact b32_deaf hm hE (h _ (by omega)).1 (h _ (by omega)).2

theorem signed_rising {c v : Nat → K} (hc : ∀ i, c i ≤ c (i + 1)) : signedVol c v = v := by
  funext j
  unfold signedVol
  rw [if_neg]
  rintro ⟨h1, h2⟩
  have := hc (j - 1)
  rw [show j - 1 + 1 = j by omega] at this
  exact absurd h2 (not_lt.mpr this)

/-- C109: on closes that never fall, after a first volume of `2^m` all volumes up to `2^(m-24)` are lost: the `float32` column stays where it
was, while the true total has grown by their sum. -/
theorem obv_single_deaf {m : ℤ} (hm : -126 ≤ m) (hE : m < 128) (n : Nat) {c v : Nat → K} (hc : ∀ i, c i ≤ c (i + 1)) (h0 : v 0 = 2 ^ m)
    (hv : ∀ i, 1 ≤ i → 0 ≤ v i ∧ v i ≤ 2 ^ (m - 24)) (fillna : Bool) {i : Nat} (hi : i < n) :
    ix (onBalanceVolume (fser n c) (fser n v) fillna) i = rk (2 ^ m) ∧
    ix (onBalanceVolume (ser n c) (ser n v) fillna) i = .fin (2 ^ m + ∑ j ∈ Finset.range i, v (j + 1)) := by
  refine ⟨obv_total n c v fillna hi (by rw [signed_rising hc]; exact total_deaf hm hE h0 hv i), ?_⟩
  rw [(obv_formula n c v fillna).val i hi (Nat.zero_le _)]
  congr 1
  have := congrFun (signed_rising (v := v) hc)
  unfold signedVol at this
  rw [Finset.sum_congr rfl fun j _ => this j, Finset.sum_range_succ', h0, add_comm]

/-- C109: unit volumes, the plainest case: the `float32` OBV counts the rows up to 16777216 and no further. -/
theorem obv_single_ceiling (n : Nat) {c : Nat → K} (hc : ∀ i, c i ≤ c (i + 1)) (fillna : Bool) {i : Nat} (hi : i < n) :
    ix (onBalanceVolume (fser n c) (fser n fun _ => 1) fillna) i = rk ((min (i + 1) (2 ^ 24) : ℕ) : K) ∧
    ix (onBalanceVolume (ser n c) (ser n fun _ => 1) fillna) i = .fin ((i + 1 : ℕ) : K) := by
  have key : ∀ k, (total (fun _ => 1) k : Single K) = rk ((min k (2 ^ 24) : ℕ) : K) := by
    intro k
    induction k with
    | zero => simp [total]
    | succ k ih =>
      rw [total_succ, ih]
      rcases Nat.lt_or_ge k (2 ^ 24) with h | h
      · rw [Nat.min_eq_left h.le, Nat.min_eq_left h]
        show (binary32 : Rounding K).rd ((k : K) + 1) = Val.fin _
        have := b32_int (K := K) (k := (k : ℤ) + 1) (by rw [abs_of_nonneg (by omega)]; exact_mod_cast h)
        push_cast at this ⊢
        exact this
      · rw [Nat.min_eq_right h, Nat.min_eq_right (by omega)]
        have := b32_deaf (K := K) (m := 24) (v := 1) (by norm_num) (by norm_num) (by norm_num) (by norm_num)
        show (binary32 : Rounding K).rd (((2 ^ 24 : ℕ) : K) + 1) = Val.fin _
        push_cast
        exact_mod_cast this
  refine ⟨obv_total n c _ fillna hi (by rw [signed_rising hc]; exact key (i + 1)), ?_⟩
  rw [(obv_formula n c _ fillna).val i hi (Nat.zero_le _)]
  have := congrFun (signed_rising (v := fun _ => (1 : K)) hc)
  unfold signedVol at this
  rw [Finset.sum_congr rfl fun j _ => this j]
  simp

/-- C109: the accumulation/distribution index likewise, on bars of whole prices that close at their high. -/
theorem adi_single_deaf {m : ℤ} (hm : -126 ≤ m) (hE : m < 128) (n : Nat) {h l : Nat → ℤ} {v : Nat → K} (hlh : ∀ i, l i < h i)
    (hr : ∀ i, h i - l i ≤ 2 ^ 24) (h0 : v 0 = 2 ^ m) (hv : ∀ i, 1 ≤ i → 0 ≤ v i ∧ v i ≤ 2 ^ (m - 24))
    (hrep : ∀ i, (binary32 : Rounding K).rd (v i) = .fin (v i)) (fillna : Bool) {i : Nat} (hi : i < n) :
    ix (accDistIndex (fser n fun i => (h i : K)) (fser n fun i => (l i : K)) (fser n fun i => (h i : K)) (fser n v) fillna) i = rk (2 ^ m) ∧
    ix (accDistIndex (ser n fun i => (h i : K)) (ser n fun i => (l i : K)) (ser n fun i => (h i : K)) (ser n v) fillna) i
      = .fin (2 ^ m + ∑ j ∈ Finset.range i, v (j + 1)) := by
  have hK : ∀ i, (l i : K) < h i := fun i => by exact_mod_cast hlh i
  constructor
  · refine adi_total n _ _ v fillna (fun j _ => ⟨hK j, ?_⟩) (fun j _ => hrep j) hi (total_deaf hm hE h0 hv i)
    have := b32_int (K := K) (k := h j - l j) (by rw [abs_of_nonneg (by linarith [hlh j])]; exact hr j)
    push_cast at this
    exact this
  · rw [(adi_formula n _ _ _ v (fun i => (hK i).le) (fun _ => le_rfl) fillna).val i hi (Nat.zero_le _)]
    congr 1
    have : ∀ j, (if (h j : K) = l j then 0 else (((h j : K) - l j) - ((h j : K) - h j)) / ((h j : K) - l j)) * v j = v j := fun j => by
      rw [if_neg (hK j).ne', sub_self, sub_zero, div_self (sub_ne_zero.mpr (hK j).ne'), one_mul]
    rw [Finset.sum_congr rfl fun j _ => this j, Finset.sum_range_succ', h0, add_comm]

/-! ## examples -/

/-- two billion shares, then lots of 100 -/
example (n : Nat) {i : Nat} (hi : i < n) :
    ix (onBalanceVolume (fser n fun i => (i : ℚ)) (fser n fun i => if i = 0 then 2 ^ (31 : ℤ) else 100)) i = rk (2 ^ (31 : ℤ)) :=
  (obv_single_deaf (m := 31) (by norm_num) (by norm_num) n (fun i => by push_cast; linarith) (by simp)
    (fun i h => by rw [if_neg (by omega)]; norm_num) false hi).1

/-- single precision keeps 24 bits, double precision 53 -/
example : (binary32 : Rounding ℚ).rd (2 ^ 24 + 1) = .fin (2 ^ 24) ∧ (binary32 : Rounding ℚ).rd (2 ^ 24 + 3) = .fin (2 ^ 24 + 4) ∧
    (binary64 : Rounding ℚ).rd (2 ^ 24 + 1) = .fin (2 ^ 24 + 1) := by decide +kernel

end TA
