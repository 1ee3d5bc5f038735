import Verif.Props.C13
import Verif.Props.C04
import Mathlib.Algebra.Order.BigOperators.Group.Finset
import Mathlib.Tactic.Positivity

/-! # C16: the averages stay inside the data -/

set_option linter.unusedSectionVars false

namespace TA
open Finset
variable {K : Type} [Field K] [LinearOrder K] [IsStrictOrderedRing K]

/-- C16: SMA, any data (NaN and infinities included), both values of `fillna`: every row is NaN or lies between any
bounds of the numbers in its window. -/
theorem sma_within (s : Series (Val K)) (w : Nat) (fillna : Bool) (lo hi : K) (i : Nat) (hn : i < s.length)
    (h : ∀ j x, j ≤ i → i < j + w → ix s j = .fin x → lo ≤ x ∧ x ≤ hi) :
    ix (smaIndicator s w fillna) i = .nan ∨ ∃ y, ix (smaIndicator s w fillna) i = .fin y ∧ lo ≤ y ∧ y ≤ hi :=
  rollMean_mem hn h

/-- C16: EMA, any data, both values of `fillna`: every row is NaN or lies between any bounds of the numbers up to it. -/
theorem ema_within (s : Series (Val K)) (w : Nat) (fillna : Bool) (lo hi : K) (out : Series (Val K))
    (ho : emaIndicator s w fillna = .ok out) (i : Nat) (hn : i < s.length)
    (h : ∀ j x, j ≤ i → ix s j = .fin x → lo ≤ x ∧ x ≤ hi) :
    ix out i = .nan ∨ ∃ y, ix out i = .fin y ∧ lo ≤ y ∧ y ≤ hi := by
  unfold emaIndicator chkSpan at ho
  by_cases hw : w < 1
  · rw [if_pos hw] at ho; cases ho
  · rw [if_neg hw] at ho
    have e : ema s w fillna = out := Except.ok.inj ho
    rw [← e]
    unfold ema
    rw [alphaOfSpan_fin]
    exact ewm_mem (convex_Icc lo hi) (span_pos w) (span_le w (by omega)) _ hn h

theorem sum_weights (w : Nat) : (∑ k ∈ range w, ((k : K) + 1)) = (w : K) * (w + 1) / 2 := by
  induction w with
  | zero => simp
  | succ w ih => rw [Finset.sum_range_succ, ih]; push_cast; ring

theorem wavg_mem (x : Nat → K) (w b : Nat) (hw : 1 ≤ w) (lo hi : K) (h : ∀ k, k < w → lo ≤ x (b + k) ∧ x (b + k) ≤ hi) :
    lo ≤ (∑ k ∈ range w, ((k : K) + 1) * x (b + k)) / ((w : K) * (w + 1) / 2) ∧
      (∑ k ∈ range w, ((k : K) + 1) * x (b + k)) / ((w : K) * (w + 1) / 2) ≤ hi := by
  have hwp : (0 : K) < w := by exact_mod_cast hw
  have hd : (0 : K) < (w : K) * (w + 1) / 2 := by positivity
  rw [le_div_iff₀ hd, div_le_iff₀ hd, ← sum_weights, mul_comm lo, mul_comm hi, Finset.sum_mul, Finset.sum_mul]
  constructor
  · refine Finset.sum_le_sum fun k hk => mul_le_mul_of_nonneg_left (h k (Finset.mem_range.mp hk)).1 (by positivity)
  · refine Finset.sum_le_sum fun k hk => mul_le_mul_of_nonneg_left (h k (Finset.mem_range.mp hk)).2 (by positivity)

/-- C16: WMA with `fillna=False`, any data: every row is NaN or lies between any bounds of the numbers in its window. -/
theorem wma_within (s : Series (Val K)) (w : Nat) (hw : 1 ≤ w) (lo hi : K) (i : Nat) (hn : i < s.length)
    (h : ∀ j x, j ≤ i → i < j + w → ix s j = .fin x → lo ≤ x ∧ x ≤ hi) :
    ix (wma s w false) i = .nan ∨ ∃ y, ix (wma s w false) i = .fin y ∧ lo ≤ y ∧ y ≤ hi := by
  have e : ix (wma s w false) i = _ := ix_rollApply (g := WMA.avg w) (w := w) (mp := w) hn
  rw [e]
  split_ifs with h1
  · obtain ⟨h2, h3⟩ := obs_full h1
    let x : Nat → K := fun j => ((ix s j).num?).getD 0
    have hx : ∀ j, j ≤ i → i < j + w → ix s j = .fin (x j) := by
      intro j h4 h5
      obtain ⟨y, hy⟩ := h3 j h4 h5
      simp only [x]; rw [hy]; rfl
    have e2 : (winIx w i).map (fun j => clean (ix s j)) = ((winIx w i).map x).map Val.fin := by
      rw [List.map_map]
      apply List.map_congr_left
      intro j hj
      rw [mem_winIx] at hj
      rw [hx j hj.1 hj.2]; rfl
    rw [e2, wmaAvg_win x w i hw h2]
    refine .inr ⟨_, rfl, wavg_mem x w (i + 1 - w) hw lo hi fun k hk => ?_⟩
    exact h (i + 1 - w + k) _ (by omega) (by omega) (hx _ (by omega) (by omega))
  · exact .inl rfl

/-- C16: with `fillna=True` the WMA does leave the interval: the warm-up rows are 0. -/
theorem wma_fill_leaves : ∃ s : Series (Val ℚ), (∀ i x, ix s i = .fin x → 10 ≤ x) ∧ ix (wma s 2 true) 0 = .fin 0 := by
  refine ⟨qs [10, 11, 12], fun i x hx => ?_, by decide +kernel⟩
  match i, hx with
  | 0, hx => cases hx; norm_num
  | 1, hx => cases hx; norm_num
  | 2, hx => cases hx; norm_num
  | i + 3, hx => cases hx

/-! ## KAMA -/

theorem abs_sub_le_path (f : Nat → K) (i w : Nat) (h : w ≤ i) :
    |f i - f (i - w)| ≤ ∑ j ∈ Ico (i + 1 - w) (i + 1), |f j - f (j - 1)| := by
  induction w with
  | zero => simp
  | succ w ih =>
    have h1 := ih (by omega)
    rw [Finset.sum_eq_sum_Ico_succ_bot (by omega), show i + 1 - (w + 1) + 1 = i + 1 - w by omega]
    have e1 : i + 1 - (w + 1) = i - w := by omega
    have e2 : i - w - 1 = i - (w + 1) := by omega
    rw [e1, e2]
    calc |f i - f (i - (w + 1))| = |(f (i - w) - f (i - (w + 1))) + (f i - f (i - w))| := by congr 1; ring
      _ ≤ |f (i - w) - f (i - (w + 1))| + |f i - f (i - w)| := abs_add_le _ _
      _ ≤ _ := by linarith

theorem kEr_mem {n : Nat} (f : Nat → K) {w i : Nat} (hi : i < n) (h : w ≤ i) :
    0 ≤ kEr n f w i ∧ kEr n f w i ≤ 1 := by
  have e1 : wsum (kVol n f) w i = ∑ j ∈ Ico (i + 1 - w) (i + 1), |f j - f (j - 1)| := by
    unfold wsum
    apply Finset.sum_congr rfl
    intro j hj
    rw [Finset.mem_Ico] at hj
    unfold kVol
    rw [kIx_of_le (by omega) (by omega)]
  unfold kEr
  rw [e1, kIx_of_le hi h]
  have h1 := abs_sub_le_path f i w h
  have h0 : (0 : K) ≤ ∑ j ∈ Ico (i + 1 - w) (i + 1), |f j - f (j - 1)| := Finset.sum_nonneg fun _ _ => abs_nonneg _
  split_ifs with h2
  · have hp := lt_of_le_of_ne h0 (Ne.symm h2)
    exact ⟨div_nonneg (abs_nonneg _) h0, by rw [div_le_one hp]; exact h1⟩
  · exact ⟨le_refl _, by norm_num⟩

theorem kSc_mem {n : Nat} (f : Nat → K) {w p1 p2 i : Nat} (hi : i < n) (h : w ≤ i) (h1 : 1 ≤ p1) (h2 : 1 ≤ p2) :
    0 ≤ kSc n f w p1 p2 i ∧ kSc n f w p1 p2 i ≤ 1 := by
  obtain ⟨e0, e1⟩ := kEr_mem f hi h
  have a0 := span_pos (K := K) p1
  have a1 := span_le (K := K) p1 h1
  have b0 := span_pos (K := K) p2
  have b1 := span_le (K := K) p2 h2
  unfold kSc
  generalize kEr n f w i = e at *
  generalize 2 / ((p1 : K) + 1) = A at *
  generalize 2 / ((p2 : K) + 1) = B at *
  have l0 : 0 ≤ e * (A - B) + B := by nlinarith
  have l1 : e * (A - B) + B ≤ 1 := by nlinarith
  exact ⟨mul_nonneg l0 l0, mul_le_one₀ l1 l0 l1⟩

/-- C16: KAMA with `fillna=False` on NaN-free closes: NaN on the first `w-1` rows, then a number between any bounds of
the closes seen so far.  (`pow1, pow2 ≥ 1`; the window may be anything.) -/
theorem kama_within (n : Nat) (x : Nat → K) (w pow1 pow2 : Nat) (h1 : 1 ≤ pow1) (h2 : 1 ≤ pow2) (lo hi : K) (i : Nat)
    (hn : i < n) (h : ∀ j, j ≤ i → lo ≤ x j ∧ x j ≤ hi) :
    (i < w - 1 → ix (kama (ser n x) w pow1 pow2 false) i = .nan) ∧
    (w - 1 ≤ i → ∃ y, ix (kama (ser n x) w pow1 pow2 false) i = .fin y ∧ lo ≤ y ∧ y ≤ hi) := by
  have hs := def_ser n x
  have hsc := kSc_def hs w pow1 pow2
  have e : ix (kama (ser n x) w pow1 pow2 false) i
      = (iter (KAMA.step (KAMA.sc (ser n x) w pow1 pow2 false) (ser n x)) (nan, true) (i + 1)).1 := by
    show ix (KAMA.run (ser n x) w pow1 pow2 false) i = _
    unfold KAMA.run
    rw [hs.len, ix_tab_lt hn]
  rw [e]
  refine ⟨fun hi' => ?_, fun hi' => ?_⟩
  · rw [kama_before hsc (by omega) (by omega)]; rfl
  · have main : ∀ m, w - 1 + m ≤ i → ∃ y,
        iter (KAMA.step (KAMA.sc (ser n x) w pow1 pow2 false) (ser n x)) (nan, true) (w - 1 + m + 1) = (.fin y, false)
          ∧ lo ≤ y ∧ y ≤ hi := by
      intro m
      induction m with
      | zero =>
        intro hm
        refine ⟨x (w - 1), ?_, h _ (by omega)⟩
        rw [Nat.add_zero, kama_at hsc (by omega), hs.val _ (by omega) (by omega)]
      | succ m ih =>
        intro hm
        obtain ⟨y, hy, hlo, hhi⟩ := ih (by omega)
        have hk := kSc_mem (n := n) x (w := w) (p1 := pow1) (p2 := pow2) (i := w - 1 + (m + 1)) (by omega) (by omega)
          h1 h2
        refine ⟨y + kSc n x w pow1 pow2 (w - 1 + (m + 1)) * (x (w - 1 + (m + 1)) - y), ?_, ?_⟩
        · rw [iter_succ, show w - 1 + (m + 1) = w - 1 + m + 1 by omega, hy]
          unfold KAMA.step
          rw [hsc.val _ (by omega) (by omega), hs.val _ (by omega) (by omega)]
          simp
        · obtain ⟨b1, b2⟩ := h (w - 1 + (m + 1)) hm
          obtain ⟨k0, k1⟩ := hk
          constructor <;> nlinarith
    obtain ⟨y, hy, hb⟩ := main (i - (w - 1)) (by omega)
    rw [show w - 1 + (i - (w - 1)) + 1 = i + 1 by omega] at hy
    exact ⟨y, by rw [hy], hb⟩

/-- C16: with `pow1 = 0` the smoothing constant can exceed 1 and KAMA overshoots the data. -/
theorem kama_leaves_pow_zero : ∃ s : Series (Val ℚ), (∀ i x, ix s i = .fin x → 0 ≤ x ∧ x ≤ 1) ∧
    ix (kama s 1 0 1 false) 1 = .fin 4 := by
  refine ⟨qs [0, 1], fun i x hx => ?_, by decide +kernel⟩
  match i, hx with
  | 0, hx => cases hx; norm_num
  | 1, hx => cases hx; norm_num
  | i + 2, hx => cases hx

/-! ## constants -/

/-- C16: on a constant series each of the four averages is that constant on every row from `w-1` on. -/
theorem averages_of_constant (n : Nat) (c : K) (w : Nat) (hw : 1 ≤ w) (pow1 pow2 : Nat) (h1 : 1 ≤ pow1)
    (h2 : 1 ≤ pow2) :
    Def (smaIndicator (ser n fun _ => c) w false) n (w - 1) (fun _ => c) ∧
    (∃ out, emaIndicator (ser n fun _ => c) w false = .ok out ∧ Def out n (w - 1) (fun _ => c)) ∧
    Def (wma (ser n fun _ => c) w false) n (w - 1) (fun _ => c) ∧
    Def (kama (ser n fun _ => c) w pow1 pow2 false) n (w - 1) (fun _ => c) := by
  have hwp : (0 : K) < w := by exact_mod_cast hw
  refine ⟨(sma_formula n _ w hw).congr fun i _ hi => ?_, ?_, (wma_formula n _ w hw).congr fun i _ hi => ?_, ?_, ?_, ?_⟩
  · rw [Finset.sum_const, Nat.card_Ico, show i + 1 - (i + 1 - w) = w by omega, nsmul_eq_mul]
    field_simp
  · obtain ⟨e, e0, e1, out, ho, hd⟩ := ema_recurrence n (fun _ => c) w hw false
    refine ⟨out, ho, ?_⟩
    simp only [Bool.false_eq_true, if_false] at hd
    refine hd.congr fun i _ _ => ?_
    rename_i a1 a2
    clear a1 a2 hd
    induction i with
    | zero => exact e0
    | succ i ih => rw [e1, ih]; ring
  · rw [← Finset.sum_mul, sum_weights]
    have : (w : K) * (w + 1) / 2 ≠ 0 := by positivity
    field_simp
  · simp [kama, checkFillna, KAMA.run, ser]
  · intro i hn hi
    exact (kama_within n (fun _ => c) w pow1 pow2 h1 h2 c c i hn fun _ _ => ⟨le_refl _, le_refl _⟩).1 hi
  · intro i hn hi
    obtain ⟨y, hy, hlo, hhi⟩ :=
      (kama_within n (fun _ => c) w pow1 pow2 h1 h2 c c i hn fun _ _ => ⟨le_refl _, le_refl _⟩).2 hi
    rw [hy, le_antisymm hhi hlo]

example : kama (qs [3, 5, 4, 9]) 2 2 30 false =
    [.nan, .fin 5, .fin (383729 / 77841), .fin (35224445089 / 6059221281)] := by decide +kernel

end TA
