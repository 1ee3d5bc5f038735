import Verif.Props.C17
import Verif.Props.C23
import Verif.Props.C34
import Verif.Props.C42
import Verif.Props.C45

/-!
# C108: a day without trading

One more row after row `k`: open, high, low and close equal to the close of row `k`, volume 0 — how data vendors write a day on which nothing
was traded.  The running totals and the compounded return repeat their value and go on as if the row were not there.  The RSI repeats its value on
that row.  VWAP and Chaikin's money flow are, as long as the row is inside the window, what the window one row shorter gave.  The negative
volume index is not indifferent: the row hides the drop in volume that may follow it.
-/

set_option linter.unusedSectionVars false

namespace TA
open Finset
variable {K : Type} [Field K] [LinearOrder K] [IsStrictOrderedRing K]

/-- `x` with one more entry `a` after entry `k` -/
def insAfter (k : Nat) (a : K) (x : Nat → K) (i : Nat) : K := if i ≤ k then x i else if i = k + 1 then a else x (i - 1)

/-- the column `out'` is the column `out` with row `k` shown twice -/
def ShownTwice (k n : Nat) (out out' : Series (Val K)) : Prop :=
  out.length = n ∧ out'.length = n + 1 ∧ (∀ i, i ≤ k → ix out' i = ix out i) ∧ ∀ i, k ≤ i → i < n → ix out' (i + 1) = ix out i

theorem ins_le {k i : Nat} (h : i ≤ k) (a : K) (x : Nat → K) : insAfter k a x i = x i := if_pos h
theorem ins_at (k : Nat) (a : K) (x : Nat → K) : insAfter k a x (k + 1) = a := by simp [insAfter]
theorem ins_gt {k i : Nat} (h : k < i) (a : K) (x : Nat → K) : insAfter k a x (i + 1) = x i := by
  unfold insAfter
  rw [if_neg (show ¬ i + 1 ≤ k by omega), if_neg (show ¬ i + 1 = k + 1 by omega), Nat.add_sub_cancel]
/-- a repeated entry -/
theorem ins_ge {k i : Nat} (h : k ≤ i) (x : Nat → K) : insAfter k (x k) x (i + 1) = x i := by
  rcases h.eq_or_lt with rfl | h
  · exact ins_at _ _ _
  · exact ins_gt h _ _

theorem sum_ins {k : Nat} {f f' : Nat → K} (h1 : ∀ i, i ≤ k → f' i = f i) (h2 : f' (k + 1) = 0) (h3 : ∀ i, k < i → f' (i + 1) = f i) :
    (∀ i, i ≤ k + 1 → ∑ j ∈ range i, f' j = ∑ j ∈ range i, f j) ∧ ∀ i, k ≤ i → ∑ j ∈ range (i + 2), f' j = ∑ j ∈ range (i + 1), f j := by
  have a : ∀ i, i ≤ k + 1 → ∑ j ∈ range i, f' j = ∑ j ∈ range i, f j := fun i hi =>
    Finset.sum_congr rfl fun j hj => h1 j (by have := Finset.mem_range.mp hj; omega)
  refine ⟨a, fun i hi => ?_⟩
  induction i, hi using Nat.le_induction with
  | base => rw [Finset.sum_range_succ, h2, add_zero, a _ (by omega)]
  | succ i hi ih => rw [Finset.sum_range_succ, ih, h3 _ (by omega), Finset.sum_range_succ _ (i + 1)]

/-- … over a window that ends on or after the extra row and begins before or at it -/
theorem sum_ins_Ico {k : Nat} {f f' : Nat → K} (h1 : ∀ i, i ≤ k → f' i = f i) (h2 : f' (k + 1) = 0) (h3 : ∀ i, k < i → f' (i + 1) = f i)
    {a i : Nat} (ha : a ≤ k + 1) (hi : k ≤ i) : ∑ j ∈ Ico a (i + 2), f' j = ∑ j ∈ Ico a (i + 1), f j := by
  obtain ⟨e1, e2⟩ := sum_ins h1 h2 h3
  rw [Finset.sum_Ico_eq_sub _ (by omega), Finset.sum_Ico_eq_sub _ (by omega), e1 a ha, e2 i hi]

theorem Def.twice {out out' : Series (Val K)} {n p k : Nat} {f f' : Nat → K} (d : Def out n p f) (d' : Def out' (n + 1) p f') (hp : p ≤ k)
    (hk : k < n) (h1 : ∀ i, p ≤ i → i ≤ k → f' i = f i) (h2 : ∀ i, k ≤ i → f' (i + 1) = f i) : ShownTwice k n out out' := by
  refine ⟨d.len, d'.len, fun i hi => ?_, fun i hi hn => ?_⟩
  · by_cases h : p ≤ i
    · rw [d'.val i (by omega) h, d.val i (by omega) h, h1 i h hi]
    · rw [d'.gap i (by omega) (by omega), d.gap i (by omega) (by omega)]
  · rw [d'.val (i + 1) (by omega) (by omega), d.val i hn (by omega), h2 i hi]

/-! ### running totals -/

/-- C108, OBV. -/
theorem obv_pause {k n : Nat} (hk : k < n) (c v : Nat → K) (fillna : Bool) :
    ShownTwice k n (onBalanceVolume (ser n c) (ser n v) fillna)
      (onBalanceVolume (ser (n + 1) (insAfter k (c k) c)) (ser (n + 1) (insAfter k 0 v)) fillna) := by
  have hs := sum_ins (k := k) (f := fun j => if 0 < j ∧ c j < c (j - 1) then -v j else v j)
    (f' := fun j => if 0 < j ∧ insAfter k (c k) c j < insAfter k (c k) c (j - 1) then -insAfter k 0 v j else insAfter k 0 v j)
    (fun i hi => by simp only [ins_le hi, ins_le (show i - 1 ≤ k by omega)])
    (by simp [ins_at])
    (fun i hi => by
      simp only [ins_gt hi, Nat.add_sub_cancel]
      obtain ⟨i, rfl⟩ : ∃ j, i = j + 1 := ⟨i - 1, by omega⟩
      rw [ins_ge (by omega)]
      simp)
  exact (obv_formula n c v fillna).twice (obv_formula (n + 1) _ _ fillna) (Nat.zero_le _) hk (fun i _ hi => hs.1 _ (by omega)) (fun i hi => hs.2 i hi)

/-- C108, ADI. -/
theorem adi_pause {k n : Nat} (hk : k < n) {h l c : Nat → K} (v : Nat → K) (hlc : ∀ i, l i ≤ c i) (hch : ∀ i, c i ≤ h i) (fillna : Bool) :
    ShownTwice k n (accDistIndex (ser n h) (ser n l) (ser n c) (ser n v) fillna)
      (accDistIndex (ser (n + 1) (insAfter k (c k) h)) (ser (n + 1) (insAfter k (c k) l)) (ser (n + 1) (insAfter k (c k) c))
        (ser (n + 1) (insAfter k 0 v)) fillna) := by
  have hs := sum_ins (k := k) (f := fun j => (if h j = l j then 0 else ((c j - l j) - (h j - c j)) / (h j - l j)) * v j)
    (f' := fun j => (if insAfter k (c k) h j = insAfter k (c k) l j then 0 else
      ((insAfter k (c k) c j - insAfter k (c k) l j) - (insAfter k (c k) h j - insAfter k (c k) c j)) /
        (insAfter k (c k) h j - insAfter k (c k) l j)) * insAfter k 0 v j)
    (fun i hi => by simp only [ins_le hi]) (by simp [ins_at]) (fun i hi => by simp only [ins_gt hi])
  refine (adi_formula n h l c v hlc hch fillna).twice (adi_formula (n + 1) _ _ _ _ (fun i => ?_) (fun i => ?_) fillna) (Nat.zero_le _) hk
    (fun i _ hi => hs.1 _ (by omega)) (fun i hi => hs.2 i hi) <;>
  · unfold insAfter
    split_ifs
    · first | exact hlc _ | exact hch _
    · exact le_rfl
    · first | exact hlc _ | exact hch _

theorem ins_ne {k : Nat} {a : K} {x : Nat → K} (ha : a ≠ 0) (hx : ∀ i, x i ≠ 0) (i : Nat) : insAfter k a x i ≠ 0 := by
  unfold insAfter
  split_ifs
  · exact hx _
  · exact ha
  · exact hx _

theorem ins_pos {k : Nat} {a : K} {x : Nat → K} (ha : 0 < a) (hx : ∀ i, 0 < x i) (i : Nat) : 0 < insAfter k a x i := by
  unfold insAfter
  split_ifs
  · exact hx _
  · exact ha
  · exact hx _

/-- C108, VPT: after the second row (row 0 has no return to weigh and shows nothing). -/
theorem vpt_pause {k n : Nat} (hk1 : 1 ≤ k) (hk : k < n) {c : Nat → K} (v : Nat → K) (hc : ∀ i, c i ≠ 0) :
    ShownTwice k n (volumePriceTrend (ser n c) (ser n v))
      (volumePriceTrend (ser (n + 1) (insAfter k (c k) c)) (ser (n + 1) (insAfter k 0 v))) := by
  have h1 : ∀ i, i ≤ k → insAfter k 0 v i * (insAfter k (c k) c i / insAfter k (c k) c (i - 1) - 1) = v i * (c i / c (i - 1) - 1) := fun i hi => by
    simp only [ins_le hi, ins_le (show i - 1 ≤ k by omega)]
  have h2 : insAfter k 0 v (k + 1) * (insAfter k (c k) c (k + 1) / insAfter k (c k) c (k + 1 - 1) - 1) = 0 := by simp [ins_at]
  have h3 : ∀ i, k < i → insAfter k 0 v (i + 1) * (insAfter k (c k) c (i + 1) / insAfter k (c k) c (i + 1 - 1) - 1) = v i * (c i / c (i - 1) - 1) :=
    fun i hi => by
      simp only [ins_gt hi, Nat.add_sub_cancel]
      obtain ⟨i, rfl⟩ : ∃ j, i = j + 1 := ⟨i - 1, by omega⟩
      rw [ins_ge (by omega)]
      simp
  refine (vpt_formula n v hc).twice (vpt_formula (n + 1) _ (ins_ne (hc k) hc)) hk1 hk (fun i hi hik => ?_) (fun i hi => ?_)
  · exact Finset.sum_congr rfl fun j hj => h1 j (by have := Finset.mem_Ico.mp hj; omega)
  · exact sum_ins_Ico h1 h2 h3 (a := 1) (by omega) hi

/-- C108, cumulative return. -/
theorem cr_pause {k n : Nat} (hk : k < n) {c : Nat → K} (hc : ∀ i, 0 < c i) (fillna : Bool) :
    ∃ out out', cumulativeReturn (ser n c) fillna = .ok out ∧ cumulativeReturn (ser (n + 1) (insAfter k (c k) c)) fillna = .ok out' ∧
      ShownTwice k n out out' := by
  obtain ⟨_, C, out, _, _, hC, _, ho, d, _⟩ := returns_compound (n := n) (by omega) hc fillna
  obtain ⟨_, C', out', _, _, hC', _, ho', d', _⟩ := returns_compound (n := n + 1) (by omega) (ins_pos (k := k) (hc k) hc) fillna
  refine ⟨out, out', ho, ho', d.twice d' (Nat.zero_le _) hk (fun i _ hi => ?_) (fun i hi => ?_)⟩
  · rw [hC', hC, ins_le hi, ins_le (Nat.zero_le _)]
  · rw [hC', hC, ins_ge hi, ins_le (Nat.zero_le _)]

/-- C108, daily return: 0 on the extra row, the other rows as before. -/
theorem dr_pause {k n : Nat} (hk : k < n) {c : Nat → K} (hc : ∀ i, 0 < c i) (fillna : Bool) :
    let out := dailyReturn (ser n c) fillna
    let out' := dailyReturn (ser (n + 1) (insAfter k (c k) c)) fillna
    (∀ i, i ≤ k → ix out' i = ix out i) ∧ ix out' (k + 1) = .fin 0 ∧ ∀ i, k < i → i < n → ix out' (i + 1) = ix out i := by
  intro out out'
  obtain ⟨D, _, _, hD, hD0, _, d, _⟩ := returns_compound (n := n) (by omega) hc fillna
  obtain ⟨D', _, _, hD', hD0', _, d', _⟩ := returns_compound (n := n + 1) (by omega) (ins_pos (k := k) (hc k) hc) fillna
  refine ⟨fun i hi => ?_, ?_, fun i hi hn => ?_⟩
  · by_cases h : (if fillna then 0 else 1) ≤ i
    · rw [d'.val i (by omega) h, d.val i (by omega) h]
      rcases Nat.eq_zero_or_pos i with rfl | h0
      · rw [hD0, hD0']
      · obtain ⟨i, rfl⟩ : ∃ j, i = j + 1 := ⟨i - 1, by omega⟩
        rw [hD, hD', ins_le hi, ins_le (by omega)]
    · rw [d'.gap i (by omega) (by omega), d.gap i (by omega) (by omega)]
  · rw [d'.val (k + 1) (by omega) (by split_ifs <;> omega), hD', ins_at, ins_le le_rfl, div_self (hc k).ne']
    simp
  · obtain ⟨i, rfl⟩ : ∃ j, i = j + 1 := ⟨i - 1, by omega⟩
    rw [d'.val _ (by omega) (by split_ifs <;> omega), d.val _ hn (by split_ifs <;> omega), hD, hD', ins_ge (by omega), ins_ge (by omega)]

/-! ### the negative volume index -/

/-- C108, NVI: the row shows the value again, but what follows is off by the first return after it whenever the volume fell across it. -/
theorem nvi_pause {k n : Nat} (hk : k < n) {c v : Nat → K} (hc : ∀ i, c i ≠ 0) (hv : ∀ i, 0 ≤ v i) (fillna : Bool) :
    ∃ out out', negativeVolumeIndex (ser n c) (ser n v) fillna = .ok out ∧
      negativeVolumeIndex (ser (n + 1) (insAfter k (c k) c)) (ser (n + 1) (insAfter k 0 v)) fillna = .ok out' ∧
      (∀ i, i ≤ k → ix out' i = ix out i) ∧ ix out' (k + 1) = ix out k ∧
      ∀ i, k < i → i < n → ∃ x, ix out i = .fin x ∧ ix out' (i + 1) = .fin (x * if v (k + 1) < v k then c k / c (k + 1) else 1) := by
  obtain ⟨out, ho, d⟩ := nvi_formula (n := n) (by omega) v hc fillna
  obtain ⟨out', ho', d'⟩ := nvi_formula (n := n + 1) (by omega) (insAfter k 0 v) (ins_ne (k := k) (hc k) hc) fillna
  have s : ∀ (c v : Nat → K) i, nvi c v (i + 1) = if v (i + 1) < v i then nvi c v i * (c (i + 1) / c i) else nvi c v i := fun _ _ _ => rfl
  have h1 : ∀ i, i ≤ k → nvi (insAfter k (c k) c) (insAfter k 0 v) i = nvi c v i := by
    intro i hi
    induction i with
    | zero => rfl
    | succ i ih => rw [s, s, ih (by omega), ins_le hi, ins_le (by omega), ins_le hi, ins_le (by omega)]
  have h2 : nvi (insAfter k (c k) c) (insAfter k 0 v) (k + 1) = nvi c v k := by
    rw [s, h1 k le_rfl, ins_at, ins_at, ins_le le_rfl, ins_le le_rfl, div_self (hc k), mul_one, ite_self]
  have h3 : ∀ i, k < i → nvi (insAfter k (c k) c) (insAfter k 0 v) (i + 1) = nvi c v i * if v (k + 1) < v k then c k / c (k + 1) else 1 := by
    intro i hi
    induction i, hi using Nat.le_induction with
    | base =>
      rw [s, h2, ins_gt (Nat.lt_succ_self k), ins_at, ins_gt (Nat.lt_succ_self k), ins_at, if_neg (not_lt.mpr (hv _)), s]
      have a := hc k
      have b := hc (k + 1)
      split_ifs
      · field_simp
      · rw [mul_one]
    | succ i hi ih =>
      rw [s, ih, ins_gt (show k < i + 1 by omega), ins_gt (show k < i by omega), ins_gt (show k < i + 1 by omega), ins_gt (show k < i by omega), s]
      split_ifs <;> ring
  refine ⟨out, out', ho, ho', fun i hi => ?_, ?_, fun i hi hn => ⟨_, d.val i hn (Nat.zero_le _), ?_⟩⟩
  · rw [d'.val i (by omega) (Nat.zero_le _), d.val i (by omega) (Nat.zero_le _), h1 i hi]
  · rw [d'.val _ (by omega) (Nat.zero_le _), d.val k hk (Nat.zero_le _), h2]
  · rw [d'.val _ (by omega) (Nat.zero_le _), h3 i hi]

/-! ### RSI -/

/-- C108, RSI: the extra row repeats the value (from window 2 on). -/
theorem rsi_pause {k n : Nat} (hk : k < n) (c : Nat → K) {w : Nat} (hw : 2 ≤ w) (fillna : Bool) (hwm : (if fillna then 0 else w - 1) ≤ k) :
    ∃ out out', rsi (ser n c) w fillna = .ok out ∧ rsi (ser (n + 1) (insAfter k (c k) c)) w fillna = .ok out' ∧
      (∀ i, i ≤ k → ix out' i = ix out i) ∧ ix out' (k + 1) = ix out k := by
  obtain ⟨U, D, hU0, hD0, hU, hD, hp, out, ho, d, _⟩ := rsi_formula n c w (by omega) fillna
  obtain ⟨U', D', hU0', hD0', hU', hD', hp', out', ho', d', _⟩ := rsi_formula (n + 1) (insAfter k (c k) c) w (by omega) fillna
  have hwK : (2 : K) ≤ w := by exact_mod_cast hw
  have hb : 0 < 1 - 1 / (w : K) := by
    have : 1 / (w : K) < 1 := by rw [div_lt_one (by linarith)]; linarith
    linarith
  have e : ∀ i, i ≤ k → U' i = U i ∧ D' i = D i := by
    intro i hi
    induction i with
    | zero => exact ⟨hU0'.trans hU0.symm, hD0'.trans hD0.symm⟩
    | succ i ih =>
      obtain ⟨a, b⟩ := ih (by omega)
      rw [hU', hU, hD', hD, a, b, ins_le hi, ins_le (show i ≤ k by omega)]
      exact ⟨rfl, rfl⟩
  have eU : U' (k + 1) = (1 - 1 / (w : K)) * U k := by rw [hU', (e k le_rfl).1, ins_at, ins_le le_rfl]; simp
  have eD : D' (k + 1) = (1 - 1 / (w : K)) * D k := by rw [hD', (e k le_rfl).2, ins_at, ins_le le_rfl]; simp
  refine ⟨out, out', ho, ho', fun i hi => ?_, ?_⟩
  · by_cases h : (if fillna then 0 else w - 1) ≤ i
    · rw [d'.val i (by omega) h, d.val i (by omega) h, (e i hi).1, (e i hi).2]
    · rw [d'.gap i (by omega) (by omega), d.gap i (by omega) (by omega)]
  · rw [d'.val _ (by omega) (by omega), d.val k hk hwm, eU, eD]
    congr 1
    by_cases h0 : D k = 0
    · simp [h0]
    · have hd : 0 < D k := lt_of_le_of_ne (hp k).2 (Ne.symm h0)
      have hs : U k + D k ≠ 0 := by linarith [(hp k).1]
      rw [if_neg h0, if_neg (mul_ne_zero hb.ne' h0), ← mul_add]
      generalize 1 - 1 / (w : K) = q at hb
      have hq := hb.ne'
      field_simp

/-! ### windows -/

theorem cmf_formula_sum (n : Nat) {h l c v : Nat → K} (w : Nat) (hw : 1 ≤ w) (hlc : ∀ i, l i ≤ c i) (hch : ∀ i, c i ≤ h i)
    (hs : ∀ i, ∑ j ∈ Ico (i + 1 - w) (i + 1), v j ≠ 0) :
    Def (chaikinMoneyFlow (ser n h) (ser n l) (ser n c) (ser n v) w) n (w - 1)
      (fun i => (∑ j ∈ Ico (i + 1 - w) (i + 1), (if h j = l j then 0 else ((c j - l j) - (h j - c j)) / (h j - l j)) * v j) /
        ∑ j ∈ Ico (i + 1 - w) (i + 1), v j) := by
  have hm := (def_clv n h l c hlc hch).smul (def_ser n v)
  simp only [Nat.max_self] at hm
  unfold chaikinMoneyFlow
  rw [noFill]
  unfold CMF.run minp
  have := (hm.rollSum (w := w) (.inl hw)).sdiv ((def_ser n v).rollSum (w := w) (.inl hw)) (fun i _ _ _ => hs i)
  simpa [wsum] using this

theorem vwap_formula_sum (n : Nat) {h l c v : Nat → K} (w : Nat) (hw : 1 ≤ w)
    (hs : ∀ i, ∑ j ∈ Ico (i + 1 - w) (i + 1), v j ≠ 0) :
    Def (volumeWeightedAveragePrice (ser n h) (ser n l) (ser n c) (ser n v) w) n (w - 1)
      (fun i => (∑ j ∈ Ico (i + 1 - w) (i + 1), (h j + l j + c j) / 3 * v j) / ∑ j ∈ Ico (i + 1 - w) (i + 1), v j) := by
  have htp : Def (typicalPrice (ser n h) (ser n l) (ser n c)) n 0 (fun i => (h i + l i + c i) / 3) := by
    have := (((def_ser n h).sadd (def_ser n l)).sadd (def_ser n c)).divc (c := (3 : K)) (by norm_num)
    unfold typicalPrice
    rw [lit_fin]
    push_cast
    simpa using this
  have hm := htp.smul (def_ser n v)
  simp only [Nat.max_self] at hm
  unfold volumeWeightedAveragePrice
  rw [noFill]
  unfold VWAP.run minp
  have := (hm.rollSum (w := w) (.inl hw)).sdiv ((def_ser n v).rollSum (w := w) (.inl hw)) (fun i _ _ _ => hs i)
  simpa [wsum] using this

theorem ins_window {k w : Nat} {v : Nat → K} (hw : 1 ≤ w) (hv : ∀ i, 0 < v i) (i : Nat) :
    ∑ j ∈ Ico (i + 1 - (w + 1)) (i + 1), insAfter k 0 v j ≠ 0 := by
  have hn : ∀ j, 0 ≤ insAfter k 0 v j := fun j => by
    unfold insAfter
    split_ifs
    · exact (hv _).le
    · exact le_rfl
    · exact (hv _).le
  refine (Finset.sum_pos' (fun j _ => hn j) ?_).ne'
  by_cases h : i = k + 1
  · exact ⟨k, Finset.mem_Ico.mpr ⟨by omega, by omega⟩, by rw [ins_le le_rfl]; exact hv _⟩
  · refine ⟨i, Finset.mem_Ico.mpr ⟨by omega, by omega⟩, ?_⟩
    unfold insAfter
    rw [if_neg h]
    split_ifs <;> exact hv _

/-- C108, VWAP: while the extra row is in the window, the window shows what one row less of it showed without the extra row. -/
theorem vwap_pause {k n : Nat} (h l c : Nat → K) {v : Nat → K} (hv : ∀ i, 0 < v i) {w : Nat} (hw : 1 ≤ w) {i : Nat} (hi : i < n) (hwi : w - 1 ≤ i)
    (hki : k ≤ i) (hik : i ≤ k + w) :
    ix (volumeWeightedAveragePrice (ser (n + 1) (insAfter k (c k) h)) (ser (n + 1) (insAfter k (c k) l)) (ser (n + 1) (insAfter k (c k) c))
        (ser (n + 1) (insAfter k 0 v)) (w + 1)) (i + 1)
      = ix (volumeWeightedAveragePrice (ser n h) (ser n l) (ser n c) (ser n v) w) i := by
  rw [(vwap_formula n h l c v w false hw hv).val i hi (by simpa using hwi),
    (vwap_formula_sum (n + 1) (w + 1) (by omega) (ins_window hw hv)).val (i + 1) (by omega) (by omega)]
  rw [show i + 1 + 1 - (w + 1) = i + 1 - w by omega,
    sum_ins_Ico (k := k) (f := fun j => (h j + l j + c j) / 3 * v j) (fun j hj => by simp only [ins_le hj]) (by simp [ins_at])
      (fun j hj => by simp only [ins_gt hj]) (by omega) hki,
    sum_ins_Ico (k := k) (f := v) (fun j hj => ins_le hj _ _) (ins_at _ _ _) (fun j hj => ins_gt hj _ _) (by omega) hki]

/-- C108, Chaikin's money flow: likewise. -/
theorem cmf_pause {k n : Nat} {h l c v : Nat → K} (hlc : ∀ i, l i ≤ c i) (hch : ∀ i, c i ≤ h i) (hv : ∀ i, 0 < v i) {w : Nat} (hw : 1 ≤ w)
    {i : Nat} (hi : i < n) (hwi : w - 1 ≤ i) (hki : k ≤ i) (hik : i ≤ k + w) :
    ix (chaikinMoneyFlow (ser (n + 1) (insAfter k (c k) h)) (ser (n + 1) (insAfter k (c k) l)) (ser (n + 1) (insAfter k (c k) c))
        (ser (n + 1) (insAfter k 0 v)) (w + 1)) (i + 1)
      = ix (chaikinMoneyFlow (ser n h) (ser n l) (ser n c) (ser n v) w) i := by
  have a : ∀ x y : Nat → K, (∀ i, x i ≤ y i) → ∀ i, insAfter k (c k) x i ≤ insAfter k (c k) y i := fun x y hxy i => by
    unfold insAfter
    split_ifs
    · exact hxy _
    · exact le_rfl
    · exact hxy _
  rw [(cmf_formula n h l c v w false hw hv hlc hch).val i hi (by simpa using hwi),
    (cmf_formula_sum (n + 1) (w + 1) (by omega) (a _ _ hlc) (a _ _ hch) (ins_window hw hv)).val (i + 1) (by omega) (by omega)]
  rw [show i + 1 + 1 - (w + 1) = i + 1 - w by omega,
    sum_ins_Ico (k := k) (f := fun j => (if h j = l j then 0 else ((c j - l j) - (h j - c j)) / (h j - l j)) * v j)
      (fun j hj => by simp only [ins_le hj]) (by simp [ins_at]) (fun j hj => by simp only [ins_gt hj]) (by omega) hki,
    sum_ins_Ico (k := k) (f := v) (fun j hj => ins_le hj _ _) (ins_at _ _ _) (fun j hj => ins_gt hj _ _) (by omega) hki]

/-! ### examples -/

/-- a quiet day after the second of four -/
example : onBalanceVolume (qs [10, 12, 11, 13]) (qs [5, 6, 4, 7]) = qs [5, 11, 7, 14] ∧
    onBalanceVolume (qs [10, 12, 12, 11, 13]) (qs [5, 6, 0, 4, 7]) = qs [5, 11, 11, 7, 14] := by decide +kernel
example : accDistIndex (qs [11, 13, 12]) (qs [9, 10, 8]) (qs [10, 13, 9]) (qs [5, 1, 2]) = qs [0, 1, 0] ∧
    accDistIndex (qs [11, 13, 13, 12]) (qs [9, 10, 13, 8]) (qs [10, 13, 13, 9]) (qs [5, 1, 0, 2]) = qs [0, 1, 1, 0] := by decide +kernel
example : volumePriceTrend (qs [10, 20, 15]) (qs [7, 8, 4]) = [.nan, .fin 8, .fin 7] ∧
    volumePriceTrend (qs [10, 20, 20, 15]) (qs [7, 8, 0, 4]) = [.nan, .fin 8, .fin 8, .fin 7] := by decide +kernel
example : volumeWeightedAveragePrice (qs [11, 13, 12]) (qs [9, 10, 8]) (qs [10, 13, 10]) (qs [5, 1, 2]) 2 = [.nan, .fin (31/3), .fin (32/3)] ∧
    volumeWeightedAveragePrice (qs [11, 13, 13, 12]) (qs [9, 10, 13, 8]) (qs [10, 13, 13, 10]) (qs [5, 1, 0, 2]) 3
      = [.nan, .nan, .fin (31/3), .fin (32/3)] := by decide +kernel

/-- C108: VPT shows a number on a quiet second row where it showed none on the first; NVI loses the 10 % fall on falling volume that follows
the quiet day; the RSI of the day after the quiet one is not what it was. -/
theorem pause_matters :
    (volumePriceTrend (qs [10, 20]) (qs [7, 8]) = [.nan, .fin 8] ∧ volumePriceTrend (qs [10, 10, 20]) (qs [7, 0, 8]) = [.nan, .fin 0, .fin 8]) ∧
    (negativeVolumeIndex (qs [10, 20, 18]) (qs [7, 8, 4]) = .ok (qs [1000, 1000, 900]) ∧
      negativeVolumeIndex (qs [10, 20, 20, 18]) (qs [7, 8, 0, 4]) = .ok (qs [1000, 1000, 1000, 1000])) ∧
    (rsi (qs [10, 14, 13, 15]) 2 = .ok [.nan, .fin 100, .fin (200/3), .fin (600/7)] ∧
      rsi (qs [10, 14, 13, 13, 15]) 2 = .ok [.nan, .fin 100, .fin (200/3), .fin (200/3), .fin (1000/11)]) := by decide +kernel

end TA
