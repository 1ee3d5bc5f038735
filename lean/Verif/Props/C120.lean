import Verif.Props.C13
import Verif.Props.C20
import Verif.Props.C23
import Verif.Props.C30
import Verif.Props.C34
import Verif.Props.C40
import Verif.Props.C42
import Verif.Props.C49
import Verif.Lemmas.Toy

/-!
# C120: a cycle that fits into the window

Data that repeat themselves every `p` rows, read by an indicator whose window is a multiple of `p`: the windowed sums do not see the cycle at all,
and the running totals grow by the same amount with each cycle.
-/

set_option linter.unusedSectionVars false

namespace TA
open Finset
variable {K : Type} [Field K] [LinearOrder K] [IsStrictOrderedRing K]

/-- from row `s` on the values repeat themselves every `p` rows -/
def Cycle (s p : Nat) (f : Nat → K) : Prop := ∀ i, s ≤ i → f (i + p) = f i

theorem Cycle.from {s t p : Nat} {f : Nat → K} (h : Cycle s p f) (hst : s ≤ t) : Cycle t p f := fun i hi => h i (by omega)

theorem Cycle.back {p : Nat} {f : Nat → K} (h : Cycle 0 p f) : Cycle 1 p fun i => f (i - 1) := fun i hi => by
  show f (i + p - 1) = f (i - 1)
  rw [show i + p - 1 = i - 1 + p by omega, h _ (Nat.zero_le _)]

theorem Cycle.mult {s p : Nat} {f : Nat → K} (h : Cycle s p f) {i : Nat} (hi : s ≤ i) (m : Nat) : f (i + p * m) = f i := by
  induction m with
  | zero => rfl
  | succ m ih => rw [Nat.mul_succ, ← Nat.add_assoc, h _ (by omega), ih]

theorem Cycle.one {s p : Nat} {f : Nat → K} (h : Cycle s p f) (k : Nat) :
    ∑ j ∈ Ico (s + k) (s + k + p), f j = ∑ j ∈ Ico s (s + p), f j := by
  induction k with
  | zero => rfl
  | succ k ih =>
    rw [← ih]
    rcases Nat.eq_zero_or_pos p with rfl | hp
    · simp
    · rw [show s + (k + 1) + p = (s + k + p) + 1 by omega, Finset.sum_Ico_succ_top (by omega), h _ (by omega),
        Finset.sum_eq_sum_Ico_succ_bot (show s + k < s + k + p by omega), show s + (k + 1) = s + k + 1 by omega]
      ring

/-- a window of a whole number of cycles -/
theorem Cycle.sum {s p : Nat} {f : Nat → K} (h : Cycle s p f) {k m : Nat} (hk : s ≤ k) :
    ∑ j ∈ Ico k (k + p * m), f j = m * ∑ j ∈ Ico s (s + p), f j := by
  obtain ⟨d, rfl⟩ : ∃ d, k = s + d := ⟨k - s, by omega⟩
  induction m with
  | zero => simp
  | succ m ih =>
    have h1 := h.one (d + p * m)
    rw [← Finset.sum_Ico_consecutive _ (show s + d ≤ s + d + p * m by omega) (show s + d + p * m ≤ s + d + p * (m + 1) by
      rw [Nat.mul_succ]; omega), ih, show s + d + p * m = s + (d + p * m) by omega,
      show s + d + p * (m + 1) = s + (d + p * m) + p by rw [Nat.mul_succ]; omega, h1]
    push_cast; ring

theorem Cycle.win {s p : Nat} {f : Nat → K} (h : Cycle s p f) {w i : Nat} (hd : p ∣ w) (hi : s + w ≤ i + 1) :
    ∑ j ∈ Ico (i + 1 - w) (i + 1), f j = (w / p : ℕ) * ∑ j ∈ Ico s (s + p), f j := by
  obtain ⟨m, rfl⟩ := hd
  rcases Nat.eq_zero_or_pos p with rfl | hp
  · simp
  · have := h.sum (k := i + 1 - p * m) (m := m) (by omega)
    rw [show i + 1 - p * m + p * m = i + 1 by omega] at this
    rw [this, Nat.mul_div_cancel_left m hp]

theorem Cycle.count {p w : Nat} (hw : 1 ≤ w) (hd : p ∣ w) : 1 ≤ p ∧ (1 : K) ≤ (w / p : ℕ) ∧ (w : K) = (w / p : ℕ) * p := by
  obtain ⟨m, rfl⟩ := hd
  have hp : 1 ≤ p := Nat.pos_of_ne_zero fun h => by subst h; simp at hw
  have hm : 1 ≤ m := Nat.pos_of_ne_zero fun h => by subst h; simp at hw
  rw [Nat.mul_div_cancel_left m hp]
  exact ⟨hp, by exact_mod_cast hm, by push_cast; ring⟩

theorem Cycle.mean {s p : Nat} {f : Nat → K} (h : Cycle s p f) {w i : Nat} (hw : 1 ≤ w) (hd : p ∣ w) (hi : s + w ≤ i + 1) :
    (∑ j ∈ Ico (i + 1 - w) (i + 1), f j) / w = (∑ j ∈ Ico s (s + p), f j) / p := by
  obtain ⟨hp, hm, e⟩ := Cycle.count (K := K) hw hd
  have hp0 : (p : K) ≠ 0 := by positivity
  rw [h.win hd hi, e]
  exact mul_div_mul_left _ _ (by linarith)

theorem Cycle.ratio {s p : Nat} {f g : Nat → K} (hf : Cycle s p f) (hg : Cycle s p g) {w i : Nat} (hw : 1 ≤ w) (hd : p ∣ w) (hi : s + w ≤ i + 1) :
    (∑ j ∈ Ico (i + 1 - w) (i + 1), f j) / (∑ j ∈ Ico (i + 1 - w) (i + 1), g j)
      = (∑ j ∈ Ico s (s + p), f j) / (∑ j ∈ Ico s (s + p), g j) := by
  obtain ⟨hp, hm, e⟩ := Cycle.count (K := K) hw hd
  rw [hf.win hd hi, hg.win hd hi]
  exact mul_div_mul_left _ _ (by linarith)

variable {n p : Nat} {h l c v : Nat → K}

/-! ## Prices -/

/-- C120: the SMA of a whole number of cycles is the mean of one cycle, on every row. -/
theorem cycle_sma (hc : Cycle 0 p c) {w : Nat} (hw : 1 ≤ w) (hd : p ∣ w) {i : Nat} (hi : i < n) (hr : w - 1 ≤ i) :
    ix (smaIndicator (ser n c) w false) i = .fin ((∑ j ∈ range p, c j) / p) := by
  rw [(sma_formula n c w hw).val i hi hr, hc.mean hw hd (by omega), Nat.zero_add, Finset.range_eq_Ico]

/-- C120: the rate of change over a whole number of cycles is 0. -/
theorem cycle_roc (hc : Cycle 0 p c) (h0 : ∀ i, c i ≠ 0) {w : Nat} (hd : p ∣ w) {i : Nat} (hi : i < n) (hr : w ≤ i) :
    ix (roc (ser n c) w false) i = .fin 0 := by
  rw [(roc_formula n h0 w).1.val i hi hr]
  obtain ⟨m, rfl⟩ := hd
  have := hc.mult (i := i - p * m) (Nat.zero_le _) m
  rw [show i - p * m + p * m = i by omega] at this
  rw [← this, div_self (h0 _), sub_self, mul_zero]

/-- C120: the awesome oscillator does not see a cycle that fits into both its windows. -/
theorem cycle_ao (hh : Cycle 0 p h) (hl : Cycle 0 p l) {w1 w2 : Nat} (h1 : 1 ≤ w1) (h2 : 1 ≤ w2) (d1 : p ∣ w1) (d2 : p ∣ w2)
    {i : Nat} (hi : i < n) (hr : max w1 w2 - 1 ≤ i) : ix (awesomeOscillator (ser n h) (ser n l) w1 w2 false) i = .fin 0 := by
  have hm : Cycle 0 p fun j => (h j + l j) / 2 := fun i hi => by show (_ + _) / _ = _; rw [hh i hi, hl i hi]
  rw [(ao_formula n h l h1 h2 false).val i hi (by simpa using hr), show min w1 (i + 1) = w1 by omega, show min w2 (i + 1) = w2 by omega,
    hm.mean h1 d1 (by omega), hm.mean h2 d2 (by omega), sub_self]

/-- C120: the DPO is the close `window/2 + 1` rows ago less the mean of a cycle: nothing but the cycle remains. -/
theorem cycle_dpo (hc : Cycle 0 p c) {w : Nat} (hw : 3 ≤ w) (hd : p ∣ w) {i : Nat} (hi : i < n) (hr : w - 1 ≤ i) :
    ix (dpo (ser n c) w false) i = .fin (c (i - (w / 2 + 1)) - (∑ j ∈ range p, c j) / p) := by
  rw [(dpo_formula n c (by omega) false).val i hi (by simpa using hr), if_neg (by omega), show min w (i + 1) = w by omega,
    hc.mean (by omega) hd (by omega), Nat.zero_add, Finset.range_eq_Ico]

/-- C120: a window of at least one cycle holds its highest high and its lowest low: the Donchian lines do not move. -/
theorem cycle_donchian (hp : 1 ≤ p) (hh : Cycle 0 p h) (hl : Cycle 0 p l) {w : Nat} (hw : p ≤ w) {o : Donchian (Val K)}
    (ho : Donchian.new (ser n h) (ser n l) (ser n c) w 0 false = .ok o) :
    ∃ A B : K, IsGreatest {x | ∃ j, j < p ∧ x = h j} A ∧ IsLeast {x | ∃ j, j < p ∧ x = l j} B ∧
      ∀ i, i < n → w - 1 ≤ i → ix o.hband i = .fin A ∧ ix o.lband i = .fin B ∧ ix o.mband i = .fin ((A + B) / 2) := by
  obtain ⟨H, L, hH, hL, dH, dL, dM, -⟩ := donchian_formula (by omega) ho
  have red : ∀ f : Nat → K, Cycle 0 p f → ∀ j, f j = f (j % p) := fun f hf j => by
    have := hf.mult (i := j % p) (Nat.zero_le _) (j / p)
    rwa [Nat.mod_add_div] at this
  have cov : ∀ i k, w - 1 ≤ i → k < p → ∃ j, j ≤ i ∧ i < j + w ∧ j % p = k := fun i k hi hk => by
    refine ⟨i - (i + (p - k)) % p, Nat.sub_le _ _, ?_, ?_⟩
    · have := Nat.mod_lt (i + (p - k)) hp
      omega
    · have h1 := Nat.mod_lt (i + (p - k)) hp
      have h2 := Nat.mod_add_div (i + (p - k)) p
      have h3 : i - (i + (p - k)) % p + p = k + p * ((i + (p - k)) / p) := by omega
      have h4 := congrArg (· % p) h3
      simp only [Nat.add_mod_right, Nat.add_mul_mod_self_left] at h4
      rw [h4, Nat.mod_eq_of_lt hk]
  have ne : (Finset.range p).Nonempty := ⟨0, Finset.mem_range.mpr hp⟩
  refine ⟨(range p).sup' ne h, (range p).inf' ne l, ?_, ?_, fun i hi hr => ?_⟩
  · obtain ⟨j, hj, e⟩ := Finset.exists_mem_eq_sup' ne h
    exact ⟨⟨j, by simpa using hj, e⟩, fun x ⟨k, hk, e'⟩ => by rw [e']; exact Finset.le_sup' h (by simpa using hk)⟩
  · obtain ⟨j, hj, e⟩ := Finset.exists_mem_eq_inf' ne l
    exact ⟨⟨j, by simpa using hj, e⟩, fun x ⟨k, hk, e'⟩ => by rw [e']; exact Finset.inf'_le l (by simpa using hk)⟩
  · have eH : H i = (range p).sup' ne h := by
      refine le_antisymm ?_ (Finset.sup'_le ne h fun k hk => ?_)
      · obtain ⟨⟨j, -, -, e⟩, -⟩ := hH i hi
        rw [e, red h hh j]
        exact Finset.le_sup' h (by simpa using Nat.mod_lt j hp)
      · obtain ⟨j, j1, j2, e⟩ := cov i k hr (by simpa using hk)
        exact (hH i hi).2 ⟨j, j1, j2, by rw [red h hh j, e]⟩
    have eL : L i = (range p).inf' ne l := by
      refine le_antisymm (Finset.le_inf' ne l fun k hk => ?_) ?_
      · obtain ⟨j, j1, j2, e⟩ := cov i k hr (by simpa using hk)
        exact (hL i hi).2 ⟨j, j1, j2, by rw [red l hl j, e]⟩
      · obtain ⟨⟨j, -, -, e⟩, -⟩ := hL i hi
        rw [e, red l hl j]
        exact Finset.inf'_le l (by simpa using Nat.mod_lt j hp)
    rw [dH.val i hi (by simpa using hr), dL.val i hi (by simpa using hr), dM.val i hi (by simpa using hr), eH, eL]
    exact ⟨rfl, rfl, rfl⟩

/-- C120: the Bollinger bands do not move either; mean and deviation are those of one cycle. -/
theorem cycle_bollinger {n p : Nat} {c : Nat → ℝ} (hc : Cycle 0 p c) {w : Nat} (hw : 1 ≤ w) (hd : p ∣ w) (d : ℝ) {i : Nat} (hi : i < n) (hr : w - 1 ≤ i) :
    ∃ m s : ℝ, m = (∑ j ∈ range p, c j) / p ∧ s = Real.sqrt ((∑ j ∈ range p, (c j - m) ^ 2) / p) ∧
      ix (BB.new (ser n c) w (.fin d)).bollingerMavg i = .fin m ∧ ix (BB.new (ser n c) w (.fin d)).bollingerHband i = .fin (m + d * s) ∧
      ix (BB.new (ser n c) w (.fin d)).bollingerLband i = .fin (m - d * s) := by
  have HB := bollinger_formula (n := n) c hw d false
  have em : wmean c w i = (∑ j ∈ range p, c j) / p := by
    unfold wmean
    rw [show min w (i + 1) = w by omega, hc.mean hw hd (by omega), Nat.zero_add, Finset.range_eq_Ico]
  have es : wstd c w i = Real.sqrt ((∑ j ∈ range p, (c j - (∑ j ∈ range p, c j) / p) ^ 2) / p) := by
    have hq : Cycle 0 p fun j => (c j - (∑ j ∈ range p, c j) / p) ^ 2 := fun i hi => by show (_ - _) ^ 2 = _; rw [hc i hi]
    unfold wstd
    rw [em, show min w (i + 1) = w by omega, hq.mean hw hd (by omega), Nat.zero_add, Finset.range_eq_Ico]
  refine ⟨_, _, rfl, rfl, ?_, ?_, ?_⟩
  · rw [HB.mavg.val i hi (by simpa using hr), em]
  · rw [HB.hband.val i hi (by simpa using hr), em, es]
  · rw [HB.lband.val i hi (by simpa using hr), em, es]

/-- closes 1, 2, 6, 1, 2, 6, …: the SMA of three rows is 3, the ROC 0, the DPO shows the closes less 3 -/
example : smaIndicator (qs [1, 2, 6, 1, 2, 6]) 3 false = [.nan, .nan, .fin 3, .fin 3, .fin 3, .fin 3] ∧
    roc (qs [1, 2, 6, 1, 2, 6]) 3 false = [.nan, .nan, .nan, .fin 0, .fin 0, .fin 0] ∧
    dpo (qs [1, 2, 6, 1, 2, 6]) 3 false = [.nan, .nan, .fin (-2), .fin (-1), .fin 3, .fin (-2)] := by
  decide +kernel

/-! ## Ratios of sums -/

/-- C120: the VWAP of a whole number of cycles is that of one cycle. -/
theorem cycle_vwap (hh : Cycle 0 p h) (hl : Cycle 0 p l) (hc : Cycle 0 p c) (hv : Cycle 0 p v) (pv : ∀ i, 0 < v i) {w : Nat} (hw : 1 ≤ w) (hd : p ∣ w)
    {i : Nat} (hi : i < n) (hr : w - 1 ≤ i) : ix (volumeWeightedAveragePrice (ser n h) (ser n l) (ser n c) (ser n v) w false) i
      = .fin ((∑ j ∈ range p, (h j + l j + c j) / 3 * v j) / ∑ j ∈ range p, v j) := by
  have hf : Cycle 0 p fun j => (h j + l j + c j) / 3 * v j := fun i hi => by show (_ + _ + _) / _ * _ = _; rw [hh i hi, hl i hi, hc i hi, hv i hi]
  rw [(vwap_formula n h l c v w false hw pv).val i hi (by simpa using hr), hf.ratio hv hw hd (by omega), Nat.zero_add, Finset.range_eq_Ico]

/-- C120: so is the CMF. -/
theorem cycle_cmf (hh : Cycle 0 p h) (hl : Cycle 0 p l) (hc : Cycle 0 p c) (hv : Cycle 0 p v) (pv : ∀ i, 0 < v i)
    (hb : ∀ i, l i ≤ c i ∧ c i ≤ h i) {w : Nat} (hw : 1 ≤ w) (hd : p ∣ w)
    {i : Nat} (hi : i < n) (hr : w - 1 ≤ i) : ix (chaikinMoneyFlow (ser n h) (ser n l) (ser n c) (ser n v) w false) i
      = .fin ((∑ j ∈ range p, (if h j = l j then 0 else ((c j - l j) - (h j - c j)) / (h j - l j)) * v j) / ∑ j ∈ range p, v j) := by
  have hf : Cycle 0 p fun j => (if h j = l j then 0 else ((c j - l j) - (h j - c j)) / (h j - l j)) * v j := fun i hi => by
    dsimp only
    rw [hh i hi, hl i hi, hc i hi, hv i hi]
  rw [(cmf_formula n h l c v w false hw pv (fun i => (hb i).1) fun i => (hb i).2).val i hi (by simpa using hr), hf.ratio hv hw hd (by omega),
    Nat.zero_add, Finset.range_eq_Ico]

theorem mflow_cycle {t : Nat → K} (ht : Cycle 0 p t) (hv : Cycle 0 p v) : Cycle 1 p (mflow t v) := fun i hi => by
  have a1 := ht i (Nat.zero_le _)
  have a2 := ht.back i hi
  have a3 := hv i (Nat.zero_le _)
  dsimp only at a2
  simp only [mflow, show i + p ≠ 0 by omega, show i ≠ 0 by omega, if_false, a1, a2, a3]

/-- C120: from row `window` on (the first row has no flow) the money flow index is that of one cycle, rows 1 to `p`. -/
theorem cycle_mfi (hh : Cycle 0 p h) (hl : Cycle 0 p l) (hc : Cycle 0 p c) (hv : Cycle 0 p v) {w : Nat} (hw : 1 ≤ w) (hd : p ∣ w)
    {i : Nat} (hi : i < n) (hr : w ≤ i) :
    ∃ P N : K, P = (∑ j ∈ Ico 1 (1 + p), if h (j - 1) + l (j - 1) + c (j - 1) < h j + l j + c j then max ((h j + l j + c j) / 3 * v j) 0
        else if h j + l j + c j < h (j - 1) + l (j - 1) + c (j - 1) then max (-((h j + l j + c j) / 3 * v j)) 0 else 0) ∧
      N = (∑ j ∈ Ico 1 (1 + p), if h (j - 1) + l (j - 1) + c (j - 1) < h j + l j + c j then max (-((h j + l j + c j) / 3 * v j)) 0
        else if h j + l j + c j < h (j - 1) + l (j - 1) + c (j - 1) then max ((h j + l j + c j) / 3 * v j) 0 else 0) ∧
      ix (moneyFlowIndex (ser n h) (ser n l) (ser n c) (ser n v) w false) i = if P + N = 0 then .nan else .fin (100 * P / (P + N)) := by
  obtain ⟨e0, -, -, e1⟩ := mfi_formula n h l c v w false hw
  have cf : ∀ v s, checkFillna (F := Val K) false v s = s := fun _ _ => rfl
  rw [e0, cf, e1 i hi (.inr (by omega))]
  have ht : Cycle 0 p fun j => (h j + l j + c j) / 3 := fun i hi => by show (_ + _ + _) / _ = _; rw [hh i hi, hl i hi, hc i hi]
  have hm := mflow_cycle ht hv
  have third : ∀ a b : K, a / 3 < b / 3 ↔ a < b := fun a b => div_lt_div_iff_of_pos_right (by norm_num)
  have hP : Cycle 1 p fun j => max (mflow (fun i => (h i + l i + c i) / 3) v j) 0 := fun i hi => by show max _ _ = _; rw [hm i hi]
  have hN : Cycle 1 p fun j => max (-mflow (fun i => (h i + l i + c i) / 3) v j) 0 := fun i hi => by show max _ _ = _; rw [hm i hi]
  obtain ⟨hp, hk, -⟩ := Cycle.count (K := K) hw hd
  refine ⟨∑ j ∈ Ico 1 (1 + p), max (mflow (fun i => (h i + l i + c i) / 3) v j) 0, ∑ j ∈ Ico 1 (1 + p), max (-mflow (fun i => (h i + l i + c i) / 3) v j) 0,
    ?_, ?_, ?_⟩
  · refine Finset.sum_congr rfl fun j hj => ?_
    rw [Finset.mem_Ico] at hj
    simp only [mflow, show j ≠ 0 by omega, if_false, third]
    split_ifs <;> simp
  · refine Finset.sum_congr rfl fun j hj => ?_
    rw [Finset.mem_Ico] at hj
    simp only [mflow, show j ≠ 0 by omega, if_false, third]
    split_ifs <;> simp
  · simp only [hP.win hd (show 1 + w ≤ i + 1 by omega), hN.win hd (show 1 + w ≤ i + 1 by omega), ← mul_add]
    generalize (∑ j ∈ Ico 1 (1 + p), max (mflow (fun i => (h i + l i + c i) / 3) v j) 0) = P
    generalize (∑ j ∈ Ico 1 (1 + p), max (-mflow (fun i => (h i + l i + c i) / 3) v j) 0) = N
    generalize ((w / p : ℕ) : K) = k at hk
    have hk0 : k ≠ 0 := by linarith
    by_cases h0 : P + N = 0
    · rw [if_pos h0, h0, mul_zero, if_pos rfl]
    · rw [if_neg h0, if_neg (mul_ne_zero hk0 h0), mul_left_comm, mul_div_mul_left _ _ hk0]

/-- C120: the ultimate oscillator of cycles that fit into all three windows is the buying pressure of one cycle, in percent of its true range:
the weights do not matter. -/
theorem cycle_uo (hh : Cycle 0 p h) (hl : Cycle 0 p l) (hc : Cycle 0 p c) (hb : ∀ i, l i ≤ c i ∧ c i ≤ h i) {w1 w2 w3 : Nat}
    (p1 : 1 ≤ w1) (p2 : 1 ≤ w2) (p3 : 1 ≤ w3) (d1 : p ∣ w1) (d2 : p ∣ w2) (d3 : p ∣ w3) {a b d : K} (hs : a + b + d ≠ 0)
    (ht : ∑ j ∈ Ico 1 (1 + p), (max (h j) (c (j - 1)) - min (l j) (c (j - 1))) ≠ 0)
    {i : Nat} (hi : i < n) (hr : max w1 (max w2 w3) ≤ i) :
    ix (ultimateOscillator (ser n h) (ser n l) (ser n c) w1 w2 w3 (.fin a) (.fin b) (.fin d) false) i
      = .fin (100 * ((∑ j ∈ Ico 1 (1 + p), (c j - min (l j) (c (j - 1)))) / ∑ j ∈ Ico 1 (1 + p), (max (h j) (c (j - 1)) - min (l j) (c (j - 1))))) := by
  obtain ⟨-, -, e⟩ := uo_formula n h l c (fun i _ => hb i) w1 w2 w3 p1 p2 p3 a b d hs
  have cb : Cycle 1 p fun j => c j - min (l j) (c (j - 1)) := fun i hi => by
    have a2 := hc.back i hi
    dsimp only at a2 ⊢
    rw [hl i (by omega), hc i (by omega), a2]
  have ct : Cycle 1 p fun j => max (h j) (c (j - 1)) - min (l j) (c (j - 1)) := fun i hi => by
    have a2 := hc.back i hi
    dsimp only at a2 ⊢
    rw [hl i (by omega), hh i (by omega), a2]
  have io : ∀ w, Finset.Ioc (i - w) i = if w ≤ i then Ico (i + 1 - w) (i + 1) else Ioc (i - w) i := fun w => by
    split_ifs with h1
    · ext j; simp; omega
    · rfl
  have r : ∀ w, 1 ≤ w → p ∣ w → w ≤ i → (∑ j ∈ Ioc (i - w) i, (c j - min (l j) (c (j - 1)))) / (∑ j ∈ Ioc (i - w) i, (max (h j) (c (j - 1)) - min (l j) (c (j - 1))))
      = (∑ j ∈ Ico 1 (1 + p), (c j - min (l j) (c (j - 1)))) / ∑ j ∈ Ico 1 (1 + p), (max (h j) (c (j - 1)) - min (l j) (c (j - 1))) := fun w hw hd hi => by
    rw [io w, if_pos hi]
    exact cb.ratio ct hw hd (by omega)
  have z : ∀ w, 1 ≤ w → p ∣ w → w ≤ i → ∑ j ∈ Ioc (i - w) i, (max (h j) (c (j - 1)) - min (l j) (c (j - 1))) ≠ 0 := fun w hw hd hi => by
    rw [io w, if_pos hi, ct.win hd (by omega)]
    obtain ⟨-, hk, -⟩ := Cycle.count (K := K) hw hd
    exact mul_ne_zero (by linarith) ht
  rw [e i hi hr fun w hw => by
    rcases hw with rfl | rfl | rfl
    · exact z _ p1 d1 (by omega)
    · exact z _ p2 d2 (by omega)
    · exact z _ p3 d3 (by omega)]
  simp only
  rw [r w1 p1 d1 (by omega), r w2 p2 d2 (by omega), r w3 p3 d3 (by omega), ← add_mul, ← add_mul, mul_left_comm,
    mul_div_cancel_left₀ _ hs]

/-- C120: from row `window` on the two vortex lines are those of one cycle. -/
theorem cycle_vortex (hh : Cycle 0 p h) (hl : Cycle 0 p l) (hc : Cycle 0 p c) (hlh : ∀ i, l i < h i) {w : Nat} (hw : 1 ≤ w) (hd : p ∣ w)
    {i : Nat} (hi : i < n) (hr : w ≤ i) :
    ix (vortexPos (ser n h) (ser n l) (ser n c) w false) i
      = .fin ((∑ j ∈ Ico 1 (1 + p), |h j - l (j - 1)|) / ∑ j ∈ Ico 1 (1 + p), (max (h j) (c (j - 1)) - min (l j) (c (j - 1)))) ∧
    ix (vortexNeg (ser n h) (ser n l) (ser n c) w false) i
      = .fin ((∑ j ∈ Ico 1 (1 + p), |l j - h (j - 1)|) / ∑ j ∈ Ico 1 (1 + p), (max (h j) (c (j - 1)) - min (l j) (c (j - 1)))) := by
  obtain ⟨P, M, hP, hM, dP, dM, -⟩ := vortex_formula (n := n) (c := c) hlh hw false
  have c1 : Cycle 1 p fun j => |h j - l (j - 1)| := fun i hi => by
    have a2 := hl.back i hi
    dsimp only at a2 ⊢
    rw [hh i (by omega), a2]
  have c2 : Cycle 1 p fun j => |l j - h (j - 1)| := fun i hi => by
    have a2 := hh.back i hi
    dsimp only at a2 ⊢
    rw [hl i (by omega), a2]
  have ct : Cycle 1 p (trP h l (prevOr n c 1)) := fun i hi => by
    have a2 := hc.back i hi
    unfold trP prevOr
    dsimp only at a2 ⊢
    rw [if_neg (by omega), if_neg (by omega), hl i (by omega), hh i (by omega), a2]
  have et : ∑ j ∈ Ico 1 (1 + p), trP h l (prevOr n c 1) j = ∑ j ∈ Ico 1 (1 + p), (max (h j) (c (j - 1)) - min (l j) (c (j - 1))) :=
    Finset.sum_congr rfl fun j hj => by
      rw [Finset.mem_Ico] at hj
      unfold trP prevOr
      rw [if_neg (by omega)]
  rw [dP.val i hi (by simpa using hr), dM.val i hi (by simpa using hr), hP, hM, show max 1 (i + 1 - w) = i + 1 - w by omega,
    c1.ratio ct hw hd (by omega), c2.ratio ct hw hd (by omega), et]
  exact ⟨rfl, rfl⟩

/-! ## Totals -/

theorem Cycle.total {s : Nat} {f : Nat → K} (hf : Cycle s p f) {i : Nat} (hi : s ≤ i + 1) :
    ∑ j ∈ range (i + p + 1), f j = ∑ j ∈ range (i + 1), f j + ∑ j ∈ Ico s (s + p), f j := by
  have := hf.one (i + 1 - s)
  rw [show s + (i + 1 - s) = i + 1 by omega] at this
  rw [← this, Finset.range_eq_Ico, Finset.range_eq_Ico, Finset.sum_Ico_consecutive _ (by omega) (by omega), show i + 1 + p = i + p + 1 by omega]

/-- C120: with each cycle the OBV moves by the same amount, the signed volumes of rows 1 to `p`, whatever the row. -/
theorem cycle_obv (hc : Cycle 0 p c) (hv : Cycle 0 p v) (fillna : Bool) {i : Nat} (hi : i + p < n) :
    ∃ x y : K, ix (onBalanceVolume (ser n c) (ser n v) fillna) i = .fin x ∧ ix (onBalanceVolume (ser n c) (ser n v) fillna) (i + p) = .fin y ∧
      y - x = ∑ j ∈ Ico 1 (1 + p), if c j < c (j - 1) then -v j else v j := by
  refine ⟨_, _, (obv_formula n c v fillna).val i (by omega) (Nat.zero_le _), (obv_formula n c v fillna).val (i + p) hi (Nat.zero_le _), ?_⟩
  have hf : Cycle 1 p fun j => if 0 < j ∧ c j < c (j - 1) then -v j else v j := fun i hi => by
    have a2 := hc.back i hi
    dsimp only at a2 ⊢
    simp only [show 0 < i + p by omega, show 0 < i by omega, true_and]
    rw [hc i (by omega), a2, hv i (by omega)]
  rw [hf.total (by omega), add_sub_cancel_left]
  refine Finset.sum_congr rfl fun j hj => ?_
  rw [Finset.mem_Ico] at hj
  simp only [show 0 < j by omega, true_and]

/-- C120: so does the ADI, by the sum over the first `p` rows. -/
theorem cycle_adi (hh : Cycle 0 p h) (hl : Cycle 0 p l) (hc : Cycle 0 p c) (hv : Cycle 0 p v) (hb : ∀ i, l i ≤ c i ∧ c i ≤ h i) (fillna : Bool)
    {i : Nat} (hi : i + p < n) :
    ∃ x y : K, ix (accDistIndex (ser n h) (ser n l) (ser n c) (ser n v) fillna) i = .fin x ∧
      ix (accDistIndex (ser n h) (ser n l) (ser n c) (ser n v) fillna) (i + p) = .fin y ∧
      y - x = ∑ j ∈ range p, (if h j = l j then 0 else ((c j - l j) - (h j - c j)) / (h j - l j)) * v j := by
  have D := adi_formula n h l c v (fun i => (hb i).1) (fun i => (hb i).2) fillna
  refine ⟨_, _, D.val i (by omega) (Nat.zero_le _), D.val (i + p) hi (Nat.zero_le _), ?_⟩
  have hf : Cycle 0 p fun j => (if h j = l j then 0 else ((c j - l j) - (h j - c j)) / (h j - l j)) * v j := fun i hi => by
    dsimp only
    rw [hh i hi, hl i hi, hc i hi, hv i hi]
  rw [hf.total (by omega), add_sub_cancel_left, Nat.zero_add, Finset.range_eq_Ico]

/-- C120: and the VPT, by the sum over rows 1 to `p`. -/
theorem cycle_vpt (hc : Cycle 0 p c) (hv : Cycle 0 p v) (h0 : ∀ i, c i ≠ 0) {i : Nat} (h1 : 1 ≤ i) (hi : i + p < n) :
    ∃ x y : K, ix (volumePriceTrend (ser n c) (ser n v)) i = .fin x ∧ ix (volumePriceTrend (ser n c) (ser n v)) (i + p) = .fin y ∧
      y - x = ∑ j ∈ Ico 1 (1 + p), v j * (c j / c (j - 1) - 1) := by
  have D := vpt_formula n v h0
  refine ⟨_, _, D.val i (by omega) h1, D.val (i + p) hi (by omega), ?_⟩
  have hf : Cycle 1 p fun j => v j * (c j / c (j - 1) - 1) := fun i hi => by
    have a2 := hc.back i hi
    dsimp only at a2 ⊢
    rw [hc i (by omega), a2, hv i (by omega)]
  have := hf.one i
  rw [← this, show 1 + i = i + 1 by omega, show i + p + 1 = i + 1 + p by omega,
    ← Finset.sum_Ico_consecutive _ (show 1 ≤ i + 1 by omega) (show i + 1 ≤ i + 1 + p by omega), add_sub_cancel_left]

/-- volumes 10 with closes 1, 2, 6: the OBV gains 10 with each cycle (two rises, one fall) -/
example : onBalanceVolume (qs [1, 2, 6, 1, 2, 6, 1]) (qs [10, 10, 10, 10, 10, 10, 10]) false = qs [10, 20, 30, 20, 30, 40, 30] ∧
    moneyFlowIndex (qs [1, 2, 6, 1, 2, 6, 1]) (qs [1, 2, 6, 1, 2, 6, 1]) (qs [1, 2, 6, 1, 2, 6, 1]) (qs [10, 10, 10, 10, 10, 10, 10]) 3 false
      = [.nan, .nan, .fin 100, .fin (800 / 9), .fin (800 / 9), .fin (800 / 9), .fin (800 / 9)] := by
  decide +kernel

end TA
