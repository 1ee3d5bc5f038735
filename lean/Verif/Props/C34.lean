import Verif.Lemmas.Defs

/-! # C34–C38: on-balance volume, accumulation/distribution, volume-price trend, negative volume
index, force index, ease of movement -/

set_option linter.unusedSectionVars false

namespace TA
open Finset
variable {K : Type} [Field K] [LinearOrder K] [IsStrictOrderedRing K]

/-! ## C34: OBV -/

/-- volume with the sign of the move of the close: minus on a fall, plus otherwise -/
def signedVol (c v : Nat → K) (j : Nat) : K := if 0 < j ∧ c j < c (j - 1) then -v j else v j

theorem def_signed (n : Nat) (c v : Nat → K) :
    Def (OBV.signed (ser n c) (ser n v)) n 0 (signedVol c v) := by
  refine ⟨by simp [OBV.signed, ser], fun i _ h2 => by omega, fun i hi _ => ?_⟩
  have ec := (def_ser n c).val i hi (Nat.zero_le _)
  have ev := (def_ser n v).val i hi (Nat.zero_le _)
  unfold OBV.signed signedVol
  rw [ix_zip3 (by simpa [ser] using hi), ec, ev]
  rcases Nat.eq_zero_or_pos i with h0 | h0
  · subst h0
    rw [(def_prev n c).gap 0 hi (by omega)]
    simp
  · rw [(def_prev n c).val i hi (by omega)]
    by_cases hlt : c i < c (i - 1)
    · simp [hlt, h0]
    · simp [hlt]

/-- C34. On gap-free data OBV is the running sum of the volumes, negative exactly on the rows whose
close fell; an unchanged close counts as a rise. -/
theorem obv_formula (n : Nat) (c v : Nat → K) (fillna : Bool) :
    Def (onBalanceVolume (ser n c) (ser n v) fillna) n 0
      (fun i => ∑ j ∈ range (i + 1), if 0 < j ∧ c j < c (j - 1) then -v j else v j) := by
  have := (def_signed n c v).cumsum.fill fillna (.const (lit 0))
  simpa [signedVol, onBalanceVolume, OBV.run] using this

/-- C34. Row 0 is the first volume; each later row moves by minus the volume on a lower close and by
plus the volume otherwise. -/
theorem obv_step {n : Nat} (c v : Nat → K) (fillna : Bool) :
    (0 < n → ix (onBalanceVolume (ser n c) (ser n v) fillna) 0 = .fin (v 0)) ∧
    ∀ i x, i + 1 < n → ix (onBalanceVolume (ser n c) (ser n v) fillna) i = .fin x →
      ix (onBalanceVolume (ser n c) (ser n v) fillna) (i + 1)
        = .fin (if c (i + 1) < c i then x - v (i + 1) else x + v (i + 1)) := by
  have H := obv_formula n c v fillna
  refine ⟨fun h => by rw [H.val 0 h (Nat.zero_le _)]; simp, fun i x hi hx => ?_⟩
  rw [H.val i (by omega) (Nat.zero_le _)] at hx
  have hx' := Val.fin.inj hx
  rw [H.val (i + 1) hi (Nat.zero_le _), Finset.sum_range_succ, hx']
  by_cases hc : c (i + 1) < c i
  · simp [hc, sub_eq_add_neg]
  · simp [hc]

/-- an unchanged close adds its volume; a fall subtracts it -/
example : onBalanceVolume (qs [5, 5, 4, 6]) (qs [10, 20, 30, 40])
    = qs [10, 30, 0, 40] := by decide +kernel

/-! ## C35: accumulation/distribution -/

/-- C35. On gap-free bars with `low ≤ close ≤ high` the ADI is the running sum of close location
value times volume, the location of a bar without range being 0. -/
theorem adi_formula (n : Nat) (h l c v : Nat → K) (hlc : ∀ i, l i ≤ c i) (hch : ∀ i, c i ≤ h i) (fillna : Bool) :
    Def (accDistIndex (ser n h) (ser n l) (ser n c) (ser n v) fillna) n 0
      (fun i => ∑ j ∈ range (i + 1), (if h j = l j then 0 else ((c j - l j) - (h j - c j)) / (h j - l j)) * v j) := by
  have := ((def_clv n h l c hlc hch).smul (def_ser n v)).cumsum.fill fillna (.const (lit 0))
  simpa [accDistIndex, ADI.run] using this

/-- C35. The step of the ADI into a row is at most the row's volume in absolute value, exactly the
volume for a close at the high, minus it for a close at the low, 0 for a bar without range. -/
theorem adi_step {n : Nat} (h l c v : Nat → K) (hlc : ∀ i, l i ≤ c i) (hch : ∀ i, c i ≤ h i)
    (hv : ∀ i, 0 ≤ v i) (fillna : Bool) {i : Nat} (hi : i < n) :
    ∃ x d : K,
      (if i = 0 then x = 0 else
        ix (accDistIndex (ser n h) (ser n l) (ser n c) (ser n v) fillna) (i - 1) = .fin x) ∧
      ix (accDistIndex (ser n h) (ser n l) (ser n c) (ser n v) fillna) i = .fin (x + d) ∧
      |d| ≤ v i ∧ (h i = l i → d = 0) ∧ (l i < h i → c i = h i → d = v i) ∧
      (l i < h i → c i = l i → d = -v i) := by
  have H := adi_formula n h l c v hlc hch fillna
  refine ⟨∑ j ∈ range i, (if h j = l j then 0 else ((c j - l j) - (h j - c j)) / (h j - l j)) * v j,
    (if h i = l i then 0 else ((c i - l i) - (h i - c i)) / (h i - l i)) * v i, ?_, ?_, ?_, ?_, ?_, ?_⟩
  · by_cases h0 : i = 0
    · rw [if_pos h0]; subst h0; simp
    · rw [if_neg h0, H.val (i - 1) (by omega) (Nat.zero_le _)]
      rw [show i - 1 + 1 = i by omega]
  · rw [H.val i hi (Nat.zero_le _), Finset.sum_range_succ]
  · by_cases hr : h i = l i
    · rw [if_pos hr]; simpa using hv i
    · rw [if_neg hr]
      have hpos : 0 < h i - l i := sub_pos.mpr (lt_of_le_of_ne ((hlc i).trans (hch i)) (Ne.symm hr))
      rw [abs_mul, abs_of_nonneg (hv i), abs_div, abs_of_pos hpos]
      have : |c i - l i - (h i - c i)| / (h i - l i) ≤ 1 := by
        rw [div_le_one hpos, abs_le]
        constructor <;> linarith [hlc i, hch i]
      calc _ ≤ 1 * v i := mul_le_mul_of_nonneg_right this (hv i)
        _ = v i := one_mul _
  · intro hr; rw [if_pos hr, zero_mul]
  · intro hr hc
    rw [if_neg hr.ne', hc]
    have : h i - l i ≠ 0 := sub_ne_zero.mpr hr.ne'
    field_simp; ring
  · intro hr hc
    rw [if_neg hr.ne', hc]
    have : h i - l i ≠ 0 := sub_ne_zero.mpr hr.ne'
    field_simp; ring

/-- a close at the high, at the low, a quarter up, and a bar without range -/
example : accDistIndex (qs [10, 10, 8, 5]) (qs [6, 6, 4, 5]) (qs [10, 6, 5, 5]) (qs [100, 30, 8, 50])
    = qs [100, 70, 66, 66] := by decide +kernel

/-! ## C36: volume-price trend -/

/-- the running sum of volume times return -/
def vptSum (c v : Nat → K) (i : Nat) : K := ∑ j ∈ Ico 1 (i + 1), v j * (c j / c (j - 1) - 1)

theorem def_vpt (n : Nat) {c : Nat → K} (v : Nat → K) (hc : ∀ i, c i ≠ 0) (fillna : Bool) :
    Def (VPT.run (ser n c) (ser n v) none fillna) n 1 (vptSum c v) := by
  have := ((def_pct n hc).smul (def_ser n v)).cumsum
  unfold VPT.run vptSum
  dsimp only
  have e : max 1 0 = 1 := rfl
  rw [e] at this
  refine this.congr fun i _ _ => Finset.sum_congr rfl fun j _ => mul_comm _ _

/-- C36. On gap-free data with non-zero closes VPT is NaN on row 0 and from row 1 on the sum of
`volume_j * (close_j / close_{j-1} - 1)` over the rows `1..i`. -/
theorem vpt_formula (n : Nat) {c : Nat → K} (v : Nat → K) (hc : ∀ i, c i ≠ 0) :
    Def (volumePriceTrend (ser n c) (ser n v)) n 1
      (fun i => ∑ j ∈ Ico 1 (i + 1), v j * (c j / c (j - 1) - 1)) := by
  unfold volumePriceTrend
  rw [noFill]
  exact def_vpt n v hc false

/-- C36. With `fillna=True` row 0 is 0, so that the formula holds on every row. -/
theorem vpt_fill_formula (n : Nat) {c : Nat → K} (v : Nat → K) (hc : ∀ i, c i ≠ 0) :
    Def (volumePriceTrend (ser n c) (ser n v) true) n 0
      (fun i => ∑ j ∈ Ico 1 (i + 1), v j * (c j / c (j - 1) - 1)) := by
  unfold volumePriceTrend
  have := (def_vpt n v hc true).fillConst 0
  rw [← Rat.cast_zero, ← lit_fin] at this
  refine Def.congr (by simpa using this) fun i _ _ => ?_
  rcases Nat.eq_zero_or_pos i with h0 | h0
  · subst h0; simp
  · rw [if_neg (by omega)]; rfl

/-- C36. A smoothing factor `k` gives the mean of the last `k` values, defined from row `k` on. -/
theorem vpt_smooth_formula (n : Nat) {c : Nat → K} (v : Nat → K) (hc : ∀ i, c i ≠ 0) {k : Nat} (hk : 1 ≤ k) :
    Def (volumePriceTrend (ser n c) (ser n v) false (some k)) n k
      (fun i => (∑ m ∈ Ico (i + 1 - k) (i + 1), ∑ j ∈ Ico 1 (m + 1), v j * (c j / c (j - 1) - 1)) / k) := by
  obtain ⟨k, rfl⟩ : ∃ j, k = j + 1 := ⟨k - 1, by omega⟩
  unfold volumePriceTrend
  rw [noFill]
  have := (def_vpt n v hc false).rollMean (w := k + 1) (by omega)
  unfold VPT.run at this ⊢
  dsimp only at this ⊢
  have e : 1 + (k + 1) - 1 = k + 1 := by omega
  rw [e] at this
  exact this

/-- C36. `dropnans` removes exactly the NaN rows: what remains is the undropped output without its
NaN values, in order. -/
theorem vpt_dropnans {F : Type} [Flt F] (c v : Series F) (k : Option Nat) :
    volumePriceTrend c v false k true = (volumePriceTrend c v false k false).filter (fun x => !Flt.isNaN x) := rfl

example : volumePriceTrend (qs [10, 20, 15]) (qs [7, 8, 4]) = [.nan, .fin 8, .fin 7] := by decide +kernel
example : volumePriceTrend (qs [10, 20, 15]) (qs [7, 8, 4]) false (some 2) = [.nan, .nan, .fin (15 / 2)] := by decide +kernel
example : volumePriceTrend (qs [10, 20, 15]) (qs [7, 8, 4]) false none true = qs [8, 7] := by decide +kernel

/-! ## C37: negative volume index -/

/-- the index: it follows the close on a row of falling volume and stays put otherwise -/
def nvi (c v : Nat → K) : Nat → K
  | 0 => 1000
  | i + 1 => if v (i + 1) < v i then nvi c v i * (c (i + 1) / c i) else nvi c v i

/-- C37. On gap-free data with non-zero closes NVI starts at 1000, is multiplied by the close-to-close
ratio on rows whose volume is below the previous row's, and is unchanged on all others. -/
theorem nvi_formula {n : Nat} (hn : 0 < n) {c : Nat → K} (v : Nat → K) (hc : ∀ i, c i ≠ 0) (fillna : Bool) :
    ∃ out, negativeVolumeIndex (ser n c) (ser n v) fillna = .ok out ∧ Def out n 0 (nvi c v) := by
  refine ⟨_, by unfold negativeVolumeIndex; rw [if_neg (by simp [ser]; omega)], ?_⟩
  refine Def.fill ⟨by simp [NVI.run, ser], fun i _ h2 => by omega, fun i hi _ => ?_⟩ _ _
  unfold NVI.run
  rw [ix_tab_lt (by simpa [ser] using hi)]
  induction i with
  | zero => rw [iter_succ]; simp [NVI.step, nvi, lit_fin]
  | succ i ih =>
    rw [iter_succ, ih (by omega)  (Nat.zero_le _)]
    unfold NVI.step
    rw [show nvi c v (i + 1) = if v (i + 1) < v i then nvi c v i * (c (i + 1) / c i) else nvi c v i from rfl,
      if_neg (by omega), Nat.add_sub_cancel, (def_ser n v).val i (by omega) (Nat.zero_le _),
      (def_ser n v).val (i + 1) hi (Nat.zero_le _), (def_pct n hc).val (i + 1) hi (by omega), lit_fin]
    simp only [Nat.add_sub_cancel, Rat.cast_one, fin_add, fin_mul]
    by_cases hlt : v (i + 1) < v i
    · simp [hlt]
    · simp [hlt]

/-- C37. With positive closes NVI stays positive. -/
theorem nvi_pos {n : Nat} (hn : 0 < n) {c : Nat → K} (v : Nat → K) (hc : ∀ i, 0 < c i) (fillna : Bool) :
    ∃ out, negativeVolumeIndex (ser n c) (ser n v) fillna = .ok out ∧
      ∀ i, i < n → ∃ x, ix out i = .fin x ∧ 0 < x := by
  obtain ⟨out, h1, h2⟩ := nvi_formula hn v (fun i => (hc i).ne') fillna
  refine ⟨out, h1, fun i hi => ⟨_, h2.val i hi (Nat.zero_le _), ?_⟩⟩
  induction i with
  | zero => simp [nvi]
  | succ i ih =>
    unfold nvi
    split
    · exact mul_pos (ih (by omega)) (div_pos (hc _) (hc _))
    · exact ih (by omega)

example : negativeVolumeIndex (qs [10, 20, 15, 30]) (qs [7, 8, 4, 4]) = .ok (qs [1000, 1000, 750, 750]) := by
  decide +kernel

/-! ## C38: force index and ease of movement -/

/-- C38. The force index is the exponential mean (span `w`) of `(close_j - close_{j-1}) * volume_j`
over the rows from 1 on; without filling its first number is at row `w`. -/
theorem forceIndex_formula (n : Nat) (c v : Nat → K) {w : Nat} (hw : 1 ≤ w) :
    ∃ out, forceIndex (ser n c) (ser n v) w = .ok out ∧
      Def out n w (fun i => emaRec (2 / ((w : K) + 1)) (fun j => (c (j + 1) - c j) * v (j + 1)) (i - 1)) := by
  refine ⟨_, by unfold forceIndex chkSpan; rw [if_neg (by omega)]; rfl, ?_⟩
  rw [noFill]
  unfold FI.run
  have := (((def_ser n c).ssub (def_prev n c)).smul (def_ser n v)).ema hw false
  have e1 : max (max 0 1) 0 = 1 := rfl
  rw [e1] at this
  have e : (1 + if false = true then 0 else w - 1) = w := by simp; omega
  rw [e] at this
  refine this.congr fun i _ _ => ?_
  unfold emaW
  congr 1
  funext j
  rw [Nat.add_comm 1 j, Nat.add_sub_cancel]

/-- C38. With `fillna=True` the force index is the same mean from row 1 on, and 0 on row 0. -/
theorem forceIndex_fill_formula (n : Nat) (c v : Nat → K) {w : Nat} (hw : 1 ≤ w) :
    ∃ out, forceIndex (ser n c) (ser n v) w true = .ok out ∧
      Def out n 0 (fun i => if i = 0 then 0 else
        emaRec (2 / ((w : K) + 1)) (fun j => (c (j + 1) - c j) * v (j + 1)) (i - 1)) := by
  refine ⟨_, by unfold forceIndex chkSpan; rw [if_neg (by omega)]; rfl, ?_⟩
  unfold FI.run
  have := ((((def_ser n c).ssub (def_prev n c)).smul (def_ser n v)).ema hw true).fillConst 0
  rw [← Rat.cast_zero, ← lit_fin] at this
  refine Def.congr this fun i _ _ => ?_
  rcases Nat.eq_zero_or_pos i with h0 | h0
  · subst h0; simp
  · rw [if_neg (by simp; omega), if_neg (by omega)]
    unfold emaW
    simp only [max_eq_left, Nat.zero_le, Nat.zero_max]
    congr 1
    funext j
    simp [Nat.add_comm 1 j]

theorem def_eom (n : Nat) (h l v : Nat → K) (hv : ∀ i, v i ≠ 0) :
    Def (EOM.run (ser n h) (ser n l) (ser n v)) n 1
      (fun i => ((h i + l i) / 2 - (h (i - 1) + l (i - 1)) / 2) * (h i - l i) / v i * 100000000) := by
  unfold EOM.run
  rw [lit_fin, lit_fin]
  have := (((((def_ser n h).ssub (def_prev n h)).sadd ((def_ser n l).ssub (def_prev n l))).smul
    ((def_ser n h).ssub (def_ser n l))).sdiv ((def_ser n v).cmul 2)
      (fun i _ _ _ => mul_ne_zero two_ne_zero (hv i))).mulc 100000000
  push_cast
  refine Def.congr (by simpa [sdiff] using this) fun i _ _ => ?_
  have := hv i
  field_simp
  ring

/-- C38. On gap-free data with non-zero volumes EoM is `10^8` times the move of the mid-point times
the range over the volume, NaN on row 0. -/
theorem eom_formula (n : Nat) (h l v : Nat → K) (hv : ∀ i, v i ≠ 0) :
    Def (easeOfMovement (ser n h) (ser n l) (ser n v)) n 1
      (fun i => ((h i + l i) / 2 - (h (i - 1) + l (i - 1)) / 2) * (h i - l i) / v i * 100000000) := by
  unfold easeOfMovement
  rw [noFill]
  exact def_eom n h l v hv

/-- C38. Its signal is the mean of the last `w` values, defined from row `w` on. -/
theorem smaEom_formula (n : Nat) (h l v : Nat → K) (hv : ∀ i, v i ≠ 0) {w : Nat} (hw : 1 ≤ w) :
    Def (smaEaseOfMovement (ser n h) (ser n l) (ser n v) w) n w
      (fun i => (∑ j ∈ Ico (i + 1 - w) (i + 1),
        ((h j + l j) / 2 - (h (j - 1) + l (j - 1)) / 2) * (h j - l j) / v j * 100000000) / w) := by
  unfold smaEaseOfMovement
  rw [noFill]
  have := (def_eom n h l v hv).rollMean hw
  have e : 1 + w - 1 = w := by omega
  rw [e] at this
  exact this

example : forceIndex (qs [10, 20, 15, 30]) (qs [7, 8, 4, 6]) 1 = .ok [.nan, .fin 80, .fin (-20), .fin 90] := by decide +kernel
example : forceIndex (qs [10, 20, 15, 30]) (qs [7, 8, 4, 6]) 3 true = .ok (qs [0, 80, 30, 60]) := by decide +kernel
example : easeOfMovement (qs [10, 12, 15]) (qs [6, 8, 11]) (qs [7, 8, 6]) = [.nan, .fin 100000000, .fin 200000000] := by
  decide +kernel

end TA
