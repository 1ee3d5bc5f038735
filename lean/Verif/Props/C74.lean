import Verif.Props.C34
import Verif.Props.C42

/-!
# C74: what history does to the running totals

`k` older rows in front of `n` recent ones. The totals never forget (C73), but all that is left of the past is one number: from the first
recent row on the two runs differ by a constant (ADI, OBV, VPT) or by a constant factor (NVI and the compounded return). So the increments
between two rows are functions of the rows in between.
-/

set_option linter.unusedSectionVars false

namespace TA
open Finset
variable {K : Type} [Field K] [LinearOrder K] [IsStrictOrderedRing K]

/-- two outputs that are numbers on the recent rows from row `p` on and differ there by the constant `d` -/
def ShiftedBy (k n p : Nat) (d : K) (out out' : Series (Val K)) : Prop :=
  ∀ i, p ≤ i → i < n → ∃ x, ix out i = .fin x ∧ ix out' (k + i) = .fin (x + d)

/-- … by the factor `q` -/
def ScaledBy (k n : Nat) (q : K) (out out' : Series (Val K)) : Prop :=
  ∀ i, i < n → ∃ x, ix out i = .fin x ∧ ix out' (k + i) = .fin (q * x)

/-- C74, ADI: the constant is the last value of the old run. -/
theorem adi_history (k n : Nat) {h l c v : Nat → K} (hlc : ∀ i, l i ≤ c i) (hch : ∀ i, c i ≤ h i) (fillna : Bool) :
    ∃ d : K, ix (accDistIndex (ser (k + 1) h) (ser (k + 1) l) (ser (k + 1) c) (ser (k + 1) v) fillna) k = .fin d ∧
      ShiftedBy (k + 1) n 0 d
        (accDistIndex (ser n fun i => h (k + 1 + i)) (ser n fun i => l (k + 1 + i)) (ser n fun i => c (k + 1 + i)) (ser n fun i => v (k + 1 + i)) fillna)
        (accDistIndex (ser (k + 1 + n) h) (ser (k + 1 + n) l) (ser (k + 1 + n) c) (ser (k + 1 + n) v) fillna) := by
  have d0 := adi_formula (k + 1) h l c v hlc hch fillna
  have d1 := adi_formula n (fun i => h (k + 1 + i)) (fun i => l (k + 1 + i)) (fun i => c (k + 1 + i)) (fun i => v (k + 1 + i))
    (fun i => hlc _) (fun i => hch _) fillna
  have d2 := adi_formula (k + 1 + n) h l c v hlc hch fillna
  refine ⟨_, d0.val k (by omega) (Nat.zero_le _), fun i _ hi => ⟨_, d1.val i hi (Nat.zero_le _), ?_⟩⟩
  rw [d2.val _ (by omega) (Nat.zero_le _), show k + 1 + i + 1 = (k + 1) + (i + 1) by omega, Finset.sum_range_add, add_comm]

/-- C74, OBV: the last value of the old run, but the recent run counts its first row as a rise. -/
theorem obv_history (k n : Nat) (c v : Nat → K) (fillna : Bool) :
    ∃ d : K, ix (onBalanceVolume (ser (k + 1) c) (ser (k + 1) v) fillna) k = .fin d ∧
      ShiftedBy (k + 1) n 0 (d - if c (k + 1) < c k then 2 * v (k + 1) else 0)
        (onBalanceVolume (ser n fun i => c (k + 1 + i)) (ser n fun i => v (k + 1 + i)) fillna)
        (onBalanceVolume (ser (k + 1 + n) c) (ser (k + 1 + n) v) fillna) := by
  have d0 := obv_formula (k + 1) c v fillna
  have d1 := obv_formula n (fun i => c (k + 1 + i)) (fun i => v (k + 1 + i)) fillna
  have d2 := obv_formula (k + 1 + n) c v fillna
  refine ⟨_, d0.val k (by omega) (Nat.zero_le _), fun i _ hi => ⟨_, d1.val i hi (Nat.zero_le _), ?_⟩⟩
  rw [d2.val _ (by omega) (Nat.zero_le _), show k + 1 + i + 1 = (k + 1) + (i + 1) by omega, Finset.sum_range_add]
  congr 1
  have e : ∀ i, ∑ j ∈ range (i + 1), (if 0 < k + 1 + j ∧ c (k + 1 + j) < c (k + 1 + j - 1) then -v (k + 1 + j) else v (k + 1 + j))
      = ∑ j ∈ range (i + 1), (if 0 < j ∧ c (k + 1 + j) < c (k + 1 + (j - 1)) then -v (k + 1 + j) else v (k + 1 + j))
        - if c (k + 1) < c k then 2 * v (k + 1) else 0 := by
    intro i
    induction i with
    | zero =>
      simp only [zero_add, Finset.sum_range_one, Nat.add_zero]
      rw [show k + 1 - 1 = k by omega]
      by_cases h : c (k + 1) < c k
      · simp [h]; ring
      · simp [h]
    | succ i ih =>
      rw [Finset.sum_range_succ, ih, Finset.sum_range_succ _ (i + 1), show k + 1 + (i + 1) - 1 = k + 1 + (i + 1 - 1) by omega]
      simp only [Nat.succ_pos, true_and, show 0 < k + 1 + (i + 1) by omega]
      ring
  rw [e]
  ring

/-- C74, VPT: from the second recent row on (the first has no predecessor in the recent run) the constant is what the long run shows on the
first recent row. -/
theorem vpt_history (k n : Nat) (hn : 0 < n) {c : Nat → K} (v : Nat → K) (hc : ∀ i, c i ≠ 0) :
    ∃ d : K, ix (volumePriceTrend (ser (k + 1 + n) c) (ser (k + 1 + n) v)) (k + 1) = .fin d ∧
      ShiftedBy (k + 1) n 1 d
        (volumePriceTrend (ser n fun i => c (k + 1 + i)) (ser n fun i => v (k + 1 + i)))
        (volumePriceTrend (ser (k + 1 + n) c) (ser (k + 1 + n) v)) := by
  have d1 := vpt_formula n (fun i => v (k + 1 + i)) (fun i => hc (k + 1 + i))
  have d2 := vpt_formula (k + 1 + n) v hc
  refine ⟨_, d2.val (k + 1) (by omega) (by omega), fun i hp hi => ⟨_, d1.val i hi hp, ?_⟩⟩
  rw [d2.val _ (by omega) (by omega)]
  congr 1
  rw [← Finset.sum_Ico_consecutive _ (show 1 ≤ k + 1 + 1 by omega) (show k + 1 + 1 ≤ k + 1 + i + 1 by omega), add_comm]
  congr 1
  rw [show k + 1 + 1 = 1 + (k + 1) by omega, show k + 1 + i + 1 = (i + 1) + (k + 1) by omega, ← Finset.sum_Ico_add']
  refine Finset.sum_congr rfl fun j hj => ?_
  rw [Finset.mem_Ico] at hj
  rw [Nat.add_comm j (k + 1), show k + 1 + j - 1 = k + 1 + (j - 1) by omega]

/-- C74, NVI: the factor is a thousandth of what the long run shows on the first recent row. -/
theorem nvi_history (k n : Nat) (hn : 0 < n) {c : Nat → K} (v : Nat → K) (hc : ∀ i, c i ≠ 0) (fillna : Bool) :
    ∃ (q : K) (out out' : Series (Val K)), negativeVolumeIndex (ser n fun i => c (k + i)) (ser n fun i => v (k + i)) fillna = .ok out ∧
      negativeVolumeIndex (ser (k + n) c) (ser (k + n) v) fillna = .ok out' ∧ ix out' k = .fin (1000 * q) ∧ ScaledBy k n q out out' := by
  obtain ⟨out, h1, d1⟩ := nvi_formula hn (fun i => v (k + i)) (fun i => hc (k + i)) fillna
  obtain ⟨out', h2, d2⟩ := nvi_formula (by omega : 0 < k + n) v hc fillna
  refine ⟨nvi c v k / 1000, out, out', h1, h2, ?_, fun i hi => ⟨_, d1.val i hi (Nat.zero_le _), ?_⟩⟩
  · rw [d2.val k (by omega) (Nat.zero_le _)]
    congr 1
    field_simp
  · rw [d2.val _ (by omega) (Nat.zero_le _)]
    congr 1
    clear hi
    induction i with
    | zero => simp [nvi]
    | succ i ih =>
      rw [← Nat.add_assoc]
      simp only [nvi, ih, ← Nat.add_assoc]
      split_ifs
      · ring
      · rfl

/-- C74, cumulative return: growth factors multiply. -/
theorem cr_history (k n : Nat) (hn : 0 < n) {c : Nat → K} (hc : ∀ i, 0 < c i) (fillna : Bool) :
    ∃ (q : K) (out out' : Series (Val K)), cumulativeReturn (ser n fun i => c (k + i)) fillna = .ok out ∧
      cumulativeReturn (ser (k + n) c) fillna = .ok out' ∧ ix out' k = .fin q ∧
      ∀ i, i < n → ∃ x, ix out i = .fin x ∧ ∃ y, ix out' (k + i) = .fin y ∧ 1 + y / 100 = (1 + q / 100) * (1 + x / 100) := by
  obtain ⟨_, C1, out, _, _, c1, _, h1, d1, _⟩ := returns_compound hn (fun i => hc (k + i)) fillna
  obtain ⟨_, C2, out', _, _, c2, _, h2, d2, _⟩ := returns_compound (by omega : 0 < k + n) hc fillna
  refine ⟨_, out, out', h1, h2, d2.val k (by omega) (Nat.zero_le _), fun i hi =>
    ⟨_, d1.val i hi (Nat.zero_le _), _, d2.val _ (by omega) (Nat.zero_le _), ?_⟩⟩
  rw [c1, c2, c2, Nat.add_zero]
  have := (hc k).ne'
  have := (hc 0).ne'
  field_simp
  ring

section examples

/-- OBV of five rows, and of the last three alone: 5 below, because the third row was a fall (2 · 4) and the old run ended at 3 -/
example : onBalanceVolume (qs [5, 6, 4, 7, 7]) (qs [1, 2, 4, 8, 16]) = qs [1, 3, -1, 7, 23] ∧
    onBalanceVolume (qs [4, 7, 7]) (qs [4, 8, 16]) = qs [4, 12, 28] := by decide +kernel

/-- NVI of four rows, and of the last two alone -/
example : negativeVolumeIndex (qs [5, 10, 4, 5]) (qs [4, 2, 3, 1]) = .ok (qs [1000, 2000, 2000, 2500]) ∧
    negativeVolumeIndex (qs [4, 5]) (qs [3, 1]) = .ok (qs [1000, 1250]) := by decide +kernel

end examples

end TA
