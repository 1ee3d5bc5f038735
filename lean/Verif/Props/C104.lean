import Verif.Props.C102

/-!
# C104: a larger volume on the row in hand

Two markets with the same prices, and the same volumes up to a row on which more is traded in one of them.
-/

set_option linter.unusedSectionVars false

namespace TA
open Finset
variable {K : Type} [Field K] [LinearOrder K] [IsStrictOrderedRing K] {n i : Nat} {h l c v v' : Nat → K}

/-- row `i` is a number in both outputs, and in the second it lies between the first and `z` -/
def Nearer (z : K) (s s' : Series (Val K)) (i : Nat) : Prop :=
  ∃ x x', ix s i = .fin x ∧ ix s' i = .fin x' ∧ ((x ≤ x' ∧ x' ≤ z) ∨ (z ≤ x' ∧ x' ≤ x))
/-- row `i` is the same number in both outputs -/
def Stays (s s' : Series (Val K)) (i : Nat) : Prop := ∃ x, ix s i = .fin x ∧ ix s' i = .fin x

theorem Def.nearer {s s' : Series (Val K)} {n p : Nat} {f f' : Nat → K} (h : Def s n p f) (h' : Def s' n p f') {i : Nat} (hi : i < n)
    (hp : p ≤ i) {z : K} (hf : (f i ≤ f' i ∧ f' i ≤ z) ∨ (z ≤ f' i ∧ f' i ≤ f i)) : Nearer z s s' i :=
  ⟨_, _, h.val i hi hp, h'.val i hi hp, hf⟩

/-! ## running totals -/

/-- what is weighed by the volume of the row in hand -/
theorem HigherAt.weigh (hv : HigherAt i v v') (g : Nat → K) (lo : Nat) (hlo : lo ≤ i) :
    ∑ j ∈ Ico lo (i + 1), g j * v' j = ∑ j ∈ Ico lo (i + 1), g j * v j + g i * (v' i - v i) := by
  rw [Finset.sum_Ico_succ_top hlo, Finset.sum_Ico_succ_top hlo,
    Finset.sum_congr rfl fun j hj => by rw [hv.before j (Finset.mem_Ico.mp hj).2]]
  ring

/-- C104. On-balance volume rises with the volume unless the close fell, in which case it sinks by as much. -/
theorem obv_volume (hv : HigherAt i v v') (hi : i < n) (fillna : Bool) :
    ∃ x, ix (onBalanceVolume (ser n c) (ser n v) fillna) i = .fin x ∧
      ix (onBalanceVolume (ser n c) (ser n v') fillna) i
        = .fin (if 0 < i ∧ c i < c (i - 1) then x - (v' i - v i) else x + (v' i - v i)) := by
  refine ⟨_, (obv_formula n c v fillna).val i hi (Nat.zero_le _), ?_⟩
  rw [(obv_formula n c v' fillna).val i hi (Nat.zero_le _)]
  have e : ∀ u : Nat → K, ∑ j ∈ range (i + 1), (if 0 < j ∧ c j < c (j - 1) then -u j else u j)
      = ∑ j ∈ Ico 0 (i + 1), (if 0 < j ∧ c j < c (j - 1) then -1 else 1) * u j := fun u => by
    rw [Finset.range_eq_Ico]
    exact Finset.sum_congr rfl fun j _ => by split_ifs <;> ring
  rw [e, e, hv.weigh _ 0 (Nat.zero_le _)]
  congr 1
  split_ifs <;> ring

/-- C104. The accumulation/distribution index moves by the added volume times the place of the close in its bar: up for a close in the
upper half, down in the lower half. -/
theorem adi_volume (hv : HigherAt i v v') (hi : i < n) (hlc : ∀ j, l j ≤ c j) (hch : ∀ j, c j ≤ h j) (fillna : Bool) :
    (h i + l i ≤ 2 * c i → Rises (accDistIndex (ser n h) (ser n l) (ser n c) (ser n v) fillna)
      (accDistIndex (ser n h) (ser n l) (ser n c) (ser n v') fillna) i) ∧
    (2 * c i ≤ h i + l i → Sinks (accDistIndex (ser n h) (ser n l) (ser n c) (ser n v) fillna)
      (accDistIndex (ser n h) (ser n l) (ser n c) (ser n v') fillna) i) := by
  have d := adi_formula n h l c v hlc hch fillna
  have d' := adi_formula n h l c v' hlc hch fillna
  have hd : 0 ≤ v' i - v i := sub_nonneg.mpr hv.now
  have hr : 0 ≤ h i - l i := by linarith [hlc i, hch i]
  refine ⟨fun hm => d.rises d' hi (Nat.zero_le _) ?_, fun hm => d.sinks d' hi (Nat.zero_le _) ?_⟩
  all_goals
    show ∑ j ∈ range (i + 1), _ ≤ ∑ j ∈ range (i + 1), _
    rw [Finset.range_eq_Ico, hv.weigh _ 0 (Nat.zero_le _)]
  · have : 0 ≤ if h i = l i then 0 else ((c i - l i) - (h i - c i)) / (h i - l i) := by
      split_ifs
      · exact le_refl _
      · exact div_nonneg (by linarith) hr
    linarith [mul_nonneg this hd]
  · have : (if h i = l i then 0 else ((c i - l i) - (h i - c i)) / (h i - l i)) ≤ 0 := by
      split_ifs
      · exact le_refl _
      · exact div_nonpos_of_nonpos_of_nonneg (by linarith) hr
    linarith [mul_nonneg (neg_nonneg.mpr this) hd]

/-! ## volume-weighted means -/

/-- adding weight to one value draws the mean towards it -/
theorem wavg_towards {A B x d : K} (hB : 0 < B) (hd : 0 ≤ d) :
    (A / B ≤ (A + x * d) / (B + d) ∧ (A + x * d) / (B + d) ≤ x) ∨ (x ≤ (A + x * d) / (B + d) ∧ (A + x * d) / (B + d) ≤ A / B) := by
  have hB' : 0 < B + d := by linarith
  have key : A * (B + d) - (A + x * d) * B = d * (A - x * B) := by ring
  rcases le_total A (x * B) with hm | hm
  · refine .inl ⟨?_, ?_⟩
    · rw [div_le_div_iff₀ hB hB']
      linarith [mul_nonneg hd (sub_nonneg.mpr hm), mul_sub d (x * B) A, mul_sub d A (x * B)]
    · rw [div_le_iff₀ hB', mul_add]; linarith
  · refine .inr ⟨?_, ?_⟩
    · rw [le_div_iff₀ hB', mul_add]; linarith
    · rw [div_le_div_iff₀ hB' hB]
      linarith [mul_nonneg hd (sub_nonneg.mpr hm)]

theorem HigherAt.wavg (hv : HigherAt i v v') (hp : ∀ j, 0 < v j) (g : Nat → K) {w : Nat} (hw : 1 ≤ w) :
    let m := fun u : Nat → K => (∑ j ∈ Ico (i + 1 - w) (i + 1), g j * u j) / ∑ j ∈ Ico (i + 1 - w) (i + 1), u j
    (m v ≤ m v' ∧ m v' ≤ g i) ∨ (g i ≤ m v' ∧ m v' ≤ m v) := by
  intro m
  show _ ∨ _
  simp only [m]
  rw [hv.weigh g _ (by omega), hv.wsum hw]
  exact wavg_towards (Finset.sum_pos (fun j _ => hp j) ⟨i, Finset.mem_Ico.mpr ⟨by omega, by omega⟩⟩) (sub_nonneg.mpr hv.now)

/-- C104. Chaikin's money flow is drawn towards the place of the row's close in its bar, the volume-weighted average price towards the
row's typical price. -/
theorem cmf_vwap_volume (hv : HigherAt i v v') (hi : i < n) (hp : ∀ j, 0 < v j) (hp' : ∀ j, 0 < v' j) {w : Nat} (hw : 1 ≤ w)
    (fillna : Bool) (hwm : (if fillna then 0 else w - 1) ≤ i) :
    ((∀ j, l j ≤ c j) → (∀ j, c j ≤ h j) →
      Nearer (if h i = l i then 0 else ((c i - l i) - (h i - c i)) / (h i - l i))
        (chaikinMoneyFlow (ser n h) (ser n l) (ser n c) (ser n v) w fillna)
        (chaikinMoneyFlow (ser n h) (ser n l) (ser n c) (ser n v') w fillna) i) ∧
    Nearer ((h i + l i + c i) / 3) (volumeWeightedAveragePrice (ser n h) (ser n l) (ser n c) (ser n v) w fillna)
      (volumeWeightedAveragePrice (ser n h) (ser n l) (ser n c) (ser n v') w fillna) i :=
  ⟨fun hlc hch => (cmf_formula n h l c v w fillna hw hp hlc hch).nearer (cmf_formula n h l c v' w fillna hw hp' hlc hch) hi hwm
      (hv.wavg hp (fun j => if h j = l j then 0 else ((c j - l j) - (h j - c j)) / (h j - l j)) hw),
    (vwap_formula n h l c v w fillna hw hp).nearer (vwap_formula n h l c v' w fillna hw hp') hi hwm
      (hv.wavg hp (fun j => (h j + l j + c j) / 3) hw)⟩

/-! ## price change times volume -/

/-- C104. The volume-price trend and its smoothed version follow the sign of the close-to-close change. -/
theorem vpt_volume (hv : HigherAt i v v') (hi : i < n) (hc : ∀ j, 0 < c j) {k : Nat} (hk : 1 ≤ k) (h1 : 1 ≤ i) :
    (c (i - 1) ≤ c i →
      Rises (volumePriceTrend (ser n c) (ser n v)) (volumePriceTrend (ser n c) (ser n v')) i ∧
      Rises (volumePriceTrend (ser n c) (ser n v) true) (volumePriceTrend (ser n c) (ser n v') true) i ∧
      (k ≤ i → Rises (volumePriceTrend (ser n c) (ser n v) false (some k)) (volumePriceTrend (ser n c) (ser n v') false (some k)) i)) ∧
    (c i ≤ c (i - 1) →
      Sinks (volumePriceTrend (ser n c) (ser n v)) (volumePriceTrend (ser n c) (ser n v')) i ∧
      Sinks (volumePriceTrend (ser n c) (ser n v) true) (volumePriceTrend (ser n c) (ser n v') true) i ∧
      (k ≤ i → Sinks (volumePriceTrend (ser n c) (ser n v) false (some k)) (volumePriceTrend (ser n c) (ser n v') false (some k)) i)) := by
  have hc0 : ∀ j, c j ≠ 0 := fun j => (hc j).ne'
  have S : ∑ j ∈ Ico 1 (i + 1), v' j * (c j / c (j - 1) - 1)
      = ∑ j ∈ Ico 1 (i + 1), v j * (c j / c (j - 1) - 1) + (c i / c (i - 1) - 1) * (v' i - v i) := by
    have := hv.weigh (fun j => c j / c (j - 1) - 1) 1 h1
    simpa only [mul_comm] using this
  have B : ∀ m, m < i → ∑ j ∈ Ico 1 (m + 1), v' j * (c j / c (j - 1) - 1) = ∑ j ∈ Ico 1 (m + 1), v j * (c j / c (j - 1) - 1) :=
    fun m hm => Finset.sum_congr rfl fun j hj => by rw [hv.before j (by have := (Finset.mem_Ico.mp hj).2; omega)]
  have hd : 0 ≤ v' i - v i := sub_nonneg.mpr hv.now
  have up : c (i - 1) ≤ c i → 0 ≤ (c i / c (i - 1) - 1) * (v' i - v i) := fun hm =>
    mul_nonneg (sub_nonneg.mpr ((one_le_div (hc _)).mpr hm)) hd
  have dn : c i ≤ c (i - 1) → (c i / c (i - 1) - 1) * (v' i - v i) ≤ 0 := fun hm =>
    mul_nonpos_of_nonpos_of_nonneg (sub_nonpos.mpr ((div_le_one (hc _)).mpr hm)) hd
  have W : ∑ m ∈ Ico (i + 1 - k) (i + 1), ∑ j ∈ Ico 1 (m + 1), v' j * (c j / c (j - 1) - 1)
      = ∑ m ∈ Ico (i + 1 - k) (i + 1), ∑ j ∈ Ico 1 (m + 1), v j * (c j / c (j - 1) - 1) + (c i / c (i - 1) - 1) * (v' i - v i) := by
    rw [Finset.sum_Ico_succ_top (by omega), Finset.sum_Ico_succ_top (a := i + 1 - k) (by omega), S,
      Finset.sum_congr rfl fun m hm => B m (Finset.mem_Ico.mp hm).2]
    ring
  have hk0 : (0 : K) ≤ k := Nat.cast_nonneg k
  refine ⟨fun hm => ⟨(vpt_formula n v hc0).rises (vpt_formula n v' hc0) hi h1 ?_,
      (vpt_fill_formula n v hc0).rises (vpt_fill_formula n v' hc0) hi (Nat.zero_le _) ?_, fun hki =>
      (vpt_smooth_formula n v hc0 hk).rises (vpt_smooth_formula n v' hc0 hk) hi hki (div_le_div_of_nonneg_right ?_ hk0)⟩,
    fun hm => ⟨(vpt_formula n v hc0).sinks (vpt_formula n v' hc0) hi h1 ?_,
      (vpt_fill_formula n v hc0).sinks (vpt_fill_formula n v' hc0) hi (Nat.zero_le _) ?_, fun hki =>
      (vpt_smooth_formula n v hc0 hk).sinks (vpt_smooth_formula n v' hc0 hk) hi hki (div_le_div_of_nonneg_right ?_ hk0)⟩⟩
  · rw [S]; linarith [up hm]
  · rw [S]; linarith [up hm]
  · rw [W]; linarith [up hm]
  · rw [S]; linarith [dn hm]
  · rw [S]; linarith [dn hm]
  · rw [W]; linarith [dn hm]

/-- C104. So does the force index. -/
theorem force_volume (hv : HigherAt i v v') (hi : i < n) (h1 : 1 ≤ i) {w : Nat} (hw : 1 ≤ w) (fillna : Bool)
    (hp : fillna = true ∨ w ≤ i) :
    ∃ out out', forceIndex (ser n c) (ser n v) w fillna = .ok out ∧ forceIndex (ser n c) (ser n v') w fillna = .ok out' ∧
      (c (i - 1) ≤ c i → Rises out out' i) ∧ (c i ≤ c (i - 1) → Sinks out out' i) := by
  have ea : ∀ k : Nat, k + 1 = i → emaRec (2 / ((w : K) + 1)) (fun j => (c (j + 1) - c j) * v' (j + 1)) k
      = emaRec (2 / ((w : K) + 1)) (fun j => (c (j + 1) - c j) * v (j + 1)) k
        + emaWt (2 / ((w : K) + 1)) k * ((c i - c (i - 1)) * (v' i - v i)) := by
    rintro k rfl
    rw [emaRec_split _ _ k, emaRec_split _ (fun j => (c (j + 1) - c j) * v (j + 1)) k,
      emaHead_same (f := fun j => (c (j + 1) - c j) * v (j + 1)) fun j hj => by rw [hv.before (j + 1) (by omega)]]
    simp only [Nat.add_sub_cancel]
    ring
  have hk := ea (i - 1) (by omega)
  have hd : 0 ≤ v' i - v i := sub_nonneg.mpr hv.now
  have hwt := (emaWt_bd (K := K) hw (i - 1)).1.le
  have up : c (i - 1) ≤ c i → 0 ≤ emaWt (2 / ((w : K) + 1)) (i - 1) * ((c i - c (i - 1)) * (v' i - v i)) := fun hm =>
    mul_nonneg hwt (mul_nonneg (sub_nonneg.mpr hm) hd)
  have dn : c i ≤ c (i - 1) → emaWt (2 / ((w : K) + 1)) (i - 1) * ((c i - c (i - 1)) * (v' i - v i)) ≤ 0 := fun hm =>
    mul_nonpos_of_nonneg_of_nonpos hwt (mul_nonpos_of_nonpos_of_nonneg (sub_nonpos.mpr hm) hd)
  have hi0 : i ≠ 0 := by omega
  cases fillna with
  | false =>
    obtain ⟨o, ho, d⟩ := forceIndex_formula n c v hw
    obtain ⟨o', ho', d'⟩ := forceIndex_formula n c v' hw
    have hwi : w ≤ i := hp.resolve_left (by simp)
    exact ⟨o, o', ho, ho', fun hm => d.rises d' hi hwi (by rw [hk]; linarith [up hm]),
      fun hm => d.sinks d' hi hwi (by rw [hk]; linarith [dn hm])⟩
  | true =>
    obtain ⟨o, ho, d⟩ := forceIndex_fill_formula n c v hw
    obtain ⟨o', ho', d'⟩ := forceIndex_fill_formula n c v' hw
    exact ⟨o, o', ho, ho', fun hm => d.rises d' hi (Nat.zero_le _) (by rw [if_neg hi0, if_neg hi0, hk]; linarith [up hm]),
      fun hm => d.sinks d' hi (Nat.zero_le _) (by rw [if_neg hi0, if_neg hi0, hk]; linarith [dn hm])⟩

/-! ## ease of movement -/

theorem shrink {x a b : K} (ha : 0 < a) (hab : a ≤ b) : (x / a ≤ x / b ∧ x / b ≤ 0) ∨ (0 ≤ x / b ∧ x / b ≤ x / a) := by
  have hb : 0 < b := lt_of_lt_of_le ha hab
  rcases le_total 0 x with hx | hx
  · exact .inr ⟨div_nonneg hx hb.le, div_le_div_of_nonneg_left hx ha hab⟩
  · refine .inl ⟨?_, div_nonpos_of_nonpos_of_nonneg hx hb.le⟩
    have := div_le_div_of_nonneg_left (neg_nonneg.mpr hx) ha hab
    rw [neg_div, neg_div] at this
    linarith

/-- C104. Ease of movement is drawn towards zero; its moving average goes down on a row whose midpoint rose and up where it fell. -/
theorem eom_volume (hv : HigherAt i v v') (hi : i < n) (h1 : 1 ≤ i) (hp : ∀ j, 0 < v j) (hp' : ∀ j, 0 < v' j) (hr : l i ≤ h i)
    {w : Nat} (hw : 1 ≤ w) :
    Nearer 0 (easeOfMovement (ser n h) (ser n l) (ser n v)) (easeOfMovement (ser n h) (ser n l) (ser n v')) i ∧
    (w ≤ i → h (i - 1) + l (i - 1) ≤ h i + l i →
      Sinks (smaEaseOfMovement (ser n h) (ser n l) (ser n v) w) (smaEaseOfMovement (ser n h) (ser n l) (ser n v') w) i) ∧
    (w ≤ i → h i + l i ≤ h (i - 1) + l (i - 1) →
      Rises (smaEaseOfMovement (ser n h) (ser n l) (ser n v) w) (smaEaseOfMovement (ser n h) (ser n l) (ser n v') w) i) := by
  have hv0 : ∀ j, v j ≠ 0 := fun j => (hp j).ne'
  have hv0' : ∀ j, v' j ≠ 0 := fun j => (hp' j).ne'
  have near := shrink (x := ((h i + l i) / 2 - (h (i - 1) + l (i - 1)) / 2) * (h i - l i)) (hp i) hv.now
  have w0 : (0 : K) ≤ w := Nat.cast_nonneg w
  have hrr : 0 ≤ h i - l i := sub_nonneg.mpr hr
  refine ⟨(eom_formula n h l v hv0).nearer (eom_formula n h l v' hv0') hi h1 ?_, fun hwi hm => ?_, fun hwi hm => ?_⟩
  · rcases near with ⟨a, b⟩ | ⟨a, b⟩
    · exact .inl ⟨by linarith, by linarith⟩
    · exact .inr ⟨by linarith, by linarith⟩
  · refine (smaEom_formula n h l v hv0 hw).sinks (smaEom_formula n h l v' hv0' hw) hi hwi (div_le_div_of_nonneg_right ?_ w0)
    refine Finset.sum_le_sum fun j hj => ?_
    have := (Finset.mem_Ico.mp hj).2
    rcases Nat.lt_or_ge j i with hji | hji
    · rw [hv.before j hji]
    · rw [show j = i by omega]
      have := div_le_div_of_nonneg_left (mul_nonneg (show 0 ≤ (h i + l i) / 2 - (h (i - 1) + l (i - 1)) / 2 by linarith) hrr)
        (hp i) hv.now
      linarith
  · refine (smaEom_formula n h l v hv0 hw).rises (smaEom_formula n h l v' hv0' hw) hi hwi (div_le_div_of_nonneg_right ?_ w0)
    refine Finset.sum_le_sum fun j hj => ?_
    have := (Finset.mem_Ico.mp hj).2
    rcases Nat.lt_or_ge j i with hji | hji
    · rw [hv.before j hji]
    · rw [show j = i by omega]
      have := div_le_div_of_nonneg_left (mul_nonneg (show 0 ≤ -((h i + l i) / 2 - (h (i - 1) + l (i - 1)) / 2) by linarith) hrr)
        (hp i) hv.now
      rw [neg_mul, neg_div, neg_div] at this
      linarith

/-! ## negative volume index -/

theorem nvi_same (hv : ∀ j, j ≤ i → v' j = v j) : nvi c v' i = nvi c v i := by
  induction i with
  | zero => rfl
  | succ i ih => rw [nvi, nvi, ih fun j hj => hv j (by omega), hv i (by omega), hv (i + 1) (le_refl _)]

/-- C104. The negative volume index only asks whether the volume is below the one before: it is unchanged while the answer is, and repeats
the row before once the volume has caught up; hence a larger volume can lower it only where the close rose, and raise it only where
the close fell. -/
theorem nvi_volume (hv : HigherAt (i + 1) v v') (hi : i + 1 < n) (hc : ∀ j, 0 < c j) (fillna : Bool) :
    ∃ out out', negativeVolumeIndex (ser n c) (ser n v) fillna = .ok out ∧ negativeVolumeIndex (ser n c) (ser n v') fillna = .ok out' ∧
      (v i ≤ v (i + 1) ∨ v' (i + 1) < v i → Stays out out' (i + 1)) ∧
      (v i ≤ v' (i + 1) → ix out' (i + 1) = ix out i) ∧
      (c i ≤ c (i + 1) → Sinks out out' (i + 1)) ∧ (c (i + 1) ≤ c i → Rises out out' (i + 1)) := by
  have hc0 : ∀ j, c j ≠ 0 := fun j => (hc j).ne'
  have hn : 0 < n := by omega
  obtain ⟨o, ho, d⟩ := nvi_formula hn v hc0 fillna
  obtain ⟨o', ho', d'⟩ := nvi_formula hn v' hc0 fillna
  have e : nvi c v (i + 1) = if v (i + 1) < v i then nvi c v i * (c (i + 1) / c i) else nvi c v i := rfl
  have e' : nvi c v' (i + 1) = if v' (i + 1) < v i then nvi c v i * (c (i + 1) / c i) else nvi c v i := by
    rw [nvi, nvi_same (v := v) fun j hj => hv.before j (by omega), hv.before i (by omega)]
  have hnow := hv.now
  have p0 : 0 < nvi c v i := by
    obtain ⟨q, hq, hpos⟩ := nvi_pos hn v hc fillna
    obtain ⟨x, hx, h0⟩ := hpos i (by omega)
    have : o = q := Except.ok.inj (ho.symm.trans hq)
    subst this
    rw [d.val i (by omega) (Nat.zero_le _)] at hx
    rw [Val.fin.inj hx]; exact h0
  refine ⟨o, o', ho, ho', fun hs => ⟨_, d.val _ hi (Nat.zero_le _), ?_⟩, fun hs => ?_,
    fun hm => d.sinks d' hi (Nat.zero_le _) ?_, fun hm => d.rises d' hi (Nat.zero_le _) ?_⟩
  · rw [d'.val _ hi (Nat.zero_le _), e, e']
    rcases hs with hs | hs
    · rw [if_neg (by linarith), if_neg (by linarith)]
    · rw [if_pos (by linarith), if_pos (by linarith)]
  · rw [d'.val _ hi (Nat.zero_le _), d.val i (by omega) (Nat.zero_le _), e', if_neg (by linarith)]
  · have := mul_le_mul_of_nonneg_left ((one_le_div (hc i)).mpr hm) p0.le
    rw [e, e']
    split_ifs <;> linarith
  · have := mul_le_mul_of_nonneg_left ((div_le_one (hc i)).mpr hm) p0.le
    rw [e, e']
    split_ifs <;> linarith

/-! ## money flow index and percentage volume oscillator -/

/-- the index of a window from its positive and its negative flow -/
def mfiOf (P N : K) : Val K := if P + N = 0 then .nan else .fin (100 * P / (P + N))

theorem mfiOf_pos {P N : K} (h : P + N ≠ 0) : mfiOf P N = .fin (100 * P / (P + N)) := if_neg h

/-- C104. The money flow index rises if the typical price rose on the row, sinks if it fell, and does not move if it stayed. -/
theorem mfi_volume (hv : HigherAt i v v') (hi : i < n) (h1 : 1 ≤ i) (hh : ∀ j, 0 < h j + l j + c j) (hp : ∀ j, 0 < v j)
    {w : Nat} (hw : 1 ≤ w) (fillna : Bool) (hwm : fillna = true ∨ w - 1 ≤ i) :
    (h (i - 1) + l (i - 1) + c (i - 1) < h i + l i + c i → Rises (moneyFlowIndex (ser n h) (ser n l) (ser n c) (ser n v) w fillna)
      (moneyFlowIndex (ser n h) (ser n l) (ser n c) (ser n v') w fillna) i) ∧
    (h i + l i + c i < h (i - 1) + l (i - 1) + c (i - 1) → Sinks (moneyFlowIndex (ser n h) (ser n l) (ser n c) (ser n v) w fillna)
      (moneyFlowIndex (ser n h) (ser n l) (ser n c) (ser n v') w fillna) i) ∧
    (h i + l i + c i = h (i - 1) + l (i - 1) + c (i - 1) → ix (moneyFlowIndex (ser n h) (ser n l) (ser n c) (ser n v') w fillna) i
      = ix (moneyFlowIndex (ser n h) (ser n l) (ser n c) (ser n v) w fillna) i) := by
  obtain ⟨a1, a2, a3, a4⟩ := mfi_formula n h l c v w fillna hw
  obtain ⟨b1, b2, b3, b4⟩ := mfi_formula n h l c v' w fillna hw
  have a4 : ∀ i, i < n → (fillna = true ∨ w - 1 ≤ i) → ix (MFI.run (ser n h) (ser n l) (ser n c) (ser n v) w fillna) i
      = mfiOf (∑ j ∈ Ico (i + 1 - w) (i + 1), max (mflow (fun i => (h i + l i + c i) / 3) v j) 0)
        (∑ j ∈ Ico (i + 1 - w) (i + 1), max (-mflow (fun i => (h i + l i + c i) / 3) v j) 0) := a4
  have b4 : ∀ i, i < n → (fillna = true ∨ w - 1 ≤ i) → ix (MFI.run (ser n h) (ser n l) (ser n c) (ser n v') w fillna) i
      = mfiOf (∑ j ∈ Ico (i + 1 - w) (i + 1), max (mflow (fun i => (h i + l i + c i) / 3) v' j) 0)
        (∑ j ∈ Ico (i + 1 - w) (i + 1), max (-mflow (fun i => (h i + l i + c i) / 3) v' j) 0) := b4
  rw [a1, b1]
  generalize MFI.run (ser n h) (ser n l) (ser n c) (ser n v) w fillna = s at *
  generalize MFI.run (ser n h) (ser n l) (ser n c) (ser n v') w fillna = s' at *
  set tp : Nat → K := fun i => (h i + l i + c i) / 3 with htp
  have tpos : 0 < tp i := by have := hh i; simp only [tp]; linarith
  have tps : ∀ j, tp j = (h j + l j + c j) / 3 := fun _ => rfl
  have hi0 : i ≠ 0 := by omega
  have same : ∀ j, j < i → mflow tp v' j = mflow tp v j := fun j hj => by unfold mflow; rw [hv.before j hj]
  have P0 : 0 ≤ ∑ j ∈ Ico (i + 1 - w) i, max (mflow tp v j) 0 := Finset.sum_nonneg fun _ _ => le_max_right _ _
  have N0 : 0 ≤ ∑ j ∈ Ico (i + 1 - w) i, max (-mflow tp v j) 0 := Finset.sum_nonneg fun _ _ => le_max_right _ _
  have a5 := a4 i hi hwm
  have b5 := b4 i hi hwm
  rw [Finset.sum_Ico_succ_top (by omega), Finset.sum_Ico_succ_top (by omega)] at a5 b5
  have past : ∀ q : K → K, ∑ j ∈ Ico (i + 1 - w) i, q (mflow tp v' j) = ∑ j ∈ Ico (i + 1 - w) i, q (mflow tp v j) := fun q =>
    Finset.sum_congr rfl fun j hj => by rw [same j (Finset.mem_Ico.mp hj).2]
  rw [past (fun x => max x 0), past (fun x => max (-x) 0)] at b5
  generalize ∑ j ∈ Ico (i + 1 - w) i, max (mflow tp v j) 0 = P at a5 b5 P0
  generalize ∑ j ∈ Ico (i + 1 - w) i, max (-mflow tp v j) 0 = N at a5 b5 N0
  have f0 : 0 < tp i * v i := mul_pos tpos (hp i)
  have f1 : tp i * v i ≤ tp i * v' i := mul_le_mul_of_nonneg_left hv.now tpos.le
  have keep : ∀ (s : Series (Val K)) (x : K), s.length = n → ix s i = .fin x →
      ix (checkFillna fillna (.const (.fin 50)) s) i = .fin x := fun s x hs hx => by
    cases fillna with
    | false => simpa [checkFillna] using hx
    | true => rw [checkFillna_keep (by omega) (by rw [hx]; exact num_iff.mpr ⟨x, rfl⟩), hx]
  refine ⟨fun hm => ?_, fun hm => ?_, fun hm => ?_⟩
  · have t : tp (i - 1) < tp i := by rw [tps, tps]; linarith
    have fl : ∀ u : Nat → K, mflow tp u i = tp i * u i := fun u => by unfold mflow; rw [if_neg hi0, if_pos t]
    rw [fl, max_eq_left f0.le, max_eq_right (by linarith), mfiOf_pos (ne_of_gt (by linarith))] at a5
    rw [fl, max_eq_left (f0.le.trans f1), max_eq_right (by linarith), mfiOf_pos (ne_of_gt (by linarith))] at b5
    refine ⟨_, _, keep s _ a2 a5, keep s' _ b2 b5, ?_⟩
    rw [mul_div_assoc, mul_div_assoc]
    exact mul_le_mul_of_nonneg_left
      (part_mono (by linarith) (by linarith) (by linarith) (le_refl _) (by linarith) (by linarith)) (by norm_num)
  · have t : tp i < tp (i - 1) := by rw [tps, tps]; linarith
    have fl : ∀ u : Nat → K, mflow tp u i = -(tp i * u i) := fun u => by
      unfold mflow; rw [if_neg hi0, if_neg (not_lt.mpr t.le), if_pos t]
    rw [fl, max_eq_right (by linarith), neg_neg, max_eq_left f0.le, mfiOf_pos (ne_of_gt (by linarith))] at a5
    rw [fl, max_eq_right (by linarith), neg_neg, max_eq_left (f0.le.trans f1), mfiOf_pos (ne_of_gt (by linarith))] at b5
    refine ⟨_, _, keep s _ a2 a5, keep s' _ b2 b5, ?_⟩
    rw [mul_div_assoc, mul_div_assoc]
    exact mul_le_mul_of_nonneg_left
      (part_mono (by linarith) (by linarith) (le_refl _) (by linarith) (by linarith) (by linarith)) (by norm_num)
  · have t : tp i = tp (i - 1) := by rw [tps, tps, hm]
    have all : ∀ j, j ≤ i → mflow tp v' j = mflow tp v j := fun j hj => by
      rcases Nat.lt_or_ge j i with hji | hji
      · exact same j hji
      · rw [show j = i by omega]
        unfold mflow
        rw [if_neg hi0, if_neg hi0, if_neg (not_lt.mpr t.le), if_neg (not_lt.mpr t.le), if_neg (not_lt.mpr t.ge), if_neg (not_lt.mpr t.ge)]
    have rows : ∀ j, j ≤ i → ix s' j = ix s j := fun j hj => by
      by_cases hd : fillna = true ∨ w - 1 ≤ j
      · have win : ∀ q : K → K, ∑ k ∈ Ico (j + 1 - w) (j + 1), q (mflow tp v' k) = ∑ k ∈ Ico (j + 1 - w) (j + 1), q (mflow tp v k) :=
          fun q => Finset.sum_congr rfl fun k hk => by rw [all k (by have := (Finset.mem_Ico.mp hk).2; omega)]
        rw [a4 j (by omega) hd, b4 j (by omega) hd, win (fun x => max x 0), win (fun x => max (-x) 0)]
      · have hf : fillna = false := by by_contra hf; exact hd (.inl (by simpa using hf))
        rw [a3 j (by omega) hf (by omega), b3 j (by omega) hf (by omega)]
    have tk : s'.take (i + 1) = s.take (i + 1) := by
      apply series_ext
      · simp [a2, b2]
      · intro j hj
        have hj : j < i + 1 := by simp at hj; omega
        rw [ix_take_lt hj, ix_take_lt hj, rows j (by omega)]
    have := congrArg (fun q => ix (checkFillna fillna (.const (.fin 50)) q) i) tk
    simp only [← take_checkFillna_const] at this
    rwa [ix_take_lt (by omega), ix_take_lt (by omega)] at this

/-- C104. The volume oscillator, its signal and its histogram rise. -/
theorem pvo_volume (hv : HigherAt i v v') (hi : i < n) (hp : ∀ j, 0 < v j) (hp' : ∀ j, 0 < v' j) {slow fast sign : Nat} (hfs : fast ≤ slow)
    {fillna : Bool} {o o' : PPO (Val K)} (ho : PPO.new (ser n v) slow fast sign fillna = .ok o)
    (ho' : PPO.new (ser n v') slow fast sign fillna = .ok o') :
    ((if fillna then 0 else max slow fast - 1) ≤ i → Rises o.ppo o'.ppo i) ∧
    ((if fillna then 0 else max slow fast + sign - 2) ≤ i → Rises o.ppoSignal o'.ppoSignal i ∧ Rises o.ppoHist o'.ppoHist i) :=
  ppo_rises hv hi hp hp' hfs ho ho'

/-! ## everything else -/

/-- the outputs that read the volume -/
def Ind.readsVolume {F : Type} : Ind F → Prop
  | .pvo .. | .pvoSignal .. | .pvoHist .. | .adi | .obv | .cmf .. | .fi .. | .eom | .smaEom .. | .vpt .. | .nvi | .mfi .. | .vwap .. => True
  | _ => False

/-- C104. In any arithmetic: the other outputs are the same whatever the volumes of all rows, missing ones included. -/
theorem volume_unread {F : Type} [FltFn F] (ind : Ind F) (hr : ¬ ind.readsVolume) (fillna : Bool) {b b' : List (Bar F)}
    (hh : highs b' = highs b) (hl : lows b' = lows b) (hc : closes b' = closes b) : ind.eval fillna b' = ind.eval fillna b := by
  cases ind
  all_goals first
    | exact absurd trivial hr
    | (unfold Ind.eval; simp only [hh, hl, hc])

section examples

/-- five rows whose last volume is `x` -/
def vols (x : ℚ) : Series (Val ℚ) := qs [3, 5, 4, 6, x]
def volH : Series (Val ℚ) := qs [10, 12, 11, 13, 14]
def volL : Series (Val ℚ) := qs [8, 9, 9, 10, 12]
def volC : Series (Val ℚ) := qs [9, 11, 10, 12, 13]

example : [ix (onBalanceVolume volC (vols 5)) 4, ix (onBalanceVolume volC (vols 8)) 4] = qs [15, 18] := by decide +kernel
example : [ix (accDistIndex volH volL (qs [9, 11, 10, 12, 14]) (vols 5)) 4, ix (accDistIndex volH volL (qs [9, 11, 10, 12, 14]) (vols 8)) 4,
    ix (chaikinMoneyFlow volH volL (qs [9, 11, 10, 12, 14]) (vols 5) 3) 4, ix (chaikinMoneyFlow volH volL (qs [9, 11, 10, 12, 14]) (vols 8) 3) 4]
      = qs [26 / 3, 35 / 3, 7 / 15, 5 / 9] := by decide +kernel
example : [ix (volumeWeightedAveragePrice volH volL volC (vols 5) 3) 4, ix (volumeWeightedAveragePrice volH volL volC (vols 8) 3) 4]
    = qs [35 / 3, 107 / 9] := by decide +kernel
example : [ix (volumePriceTrend volC (vols 6)) 4, ix (volumePriceTrend volC (vols 12)) 4,
    ix (volumePriceTrend volC (vols 6) false (some 2)) 4, ix (volumePriceTrend volC (vols 12) false (some 2)) 4]
      = qs [2423 / 990, 1459 / 495, 4351 / 1980, 2423 / 990] := by decide +kernel
example : [(forceIndex volC (vols 5) 3).toOption.map (ix · 4), (forceIndex volC (vols 8) 3).toOption.map (ix · 4)]
    = [some (.fin (25 / 4)), some (.fin (31 / 4))] := by decide +kernel
example : [ix (easeOfMovement volH volL (vols 5)) 4, ix (easeOfMovement volH volL (vols 8)) 4,
    ix (smaEaseOfMovement volH volL (vols 5) 2) 4, ix (smaEaseOfMovement volH volL (vols 8) 2) 4]
      = qs [60000000, 37500000, 67500000, 56250000] := by decide +kernel
example : ([5, 6, 8].map fun x => (negativeVolumeIndex volC (vols x)).toOption.map (ix · 4))
    = [some (.fin (32500 / 33)), some (.fin (10000 / 11)), some (.fin (10000 / 11))] := by decide +kernel
example : [ix (moneyFlowIndex volH volL volC (vols 5) 3) 4, ix (moneyFlowIndex volH volL volC (vols 8) 3) 4]
    = qs [540 / 7, 8700 / 107] := by decide +kernel
example : ([5, 8].map fun x => (PPO.new (vols x) 3 2 2).toOption.map fun o => [ix o.ppo 4, ix o.ppoSignal 4, ix o.ppoHist 4])
    = [some (qs [200 / 81, 875 / 243, -275 / 243]), some (qs [10100 / 1053, 26375 / 3159, 3925 / 3159])] := by decide +kernel

end examples

end TA
