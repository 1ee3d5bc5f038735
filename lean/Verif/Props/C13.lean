import Verif.Lemmas.Bound
import Verif.Lemmas.Toy
import Mathlib.Algebra.BigOperators.Intervals
import Mathlib.Algebra.BigOperators.Ring.Finset
import Mathlib.Algebra.BigOperators.Field
import Mathlib.Tactic.Ring

/-! # C13, C14, C15: the moving averages

`ser n x` is a series of the numbers `x 0 … x (n-1)`; `Def s n p f` says that `s` has `n` rows, NaN before row `p` and
`f i` from row `p` on.  The formulas are written with Mathlib sums only. -/

set_option linter.unusedSectionVars false

namespace TA
open Finset
variable {K : Type} [Field K] [LinearOrder K] [IsStrictOrderedRing K]

/-! ## C13 -/

/-- C13: `fillna=False`: NaN for `w-1` rows, then the mean of the last `w` values. -/
theorem sma_formula (n : Nat) (x : Nat → K) (w : Nat) (hw : 1 ≤ w) :
    Def (smaIndicator (ser n x) w false) n (w - 1) (fun i => (∑ j ∈ Ico (i + 1 - w) (i + 1), x j) / w) := by
  have := (def_ser n x).rollMean hw
  rw [Nat.zero_add] at this
  exact this

/-- C13: `fillna=True`: from the first row on, the mean of the (at most `w`) last values. -/
theorem sma_fill_formula (n : Nat) (x : Nat → K) (w : Nat) (hw : 1 ≤ w) :
    Def (smaIndicator (ser n x) w true) n 0
      (fun i => (∑ j ∈ Ico (i + 1 - w) (i + 1), x j) / (min w (i + 1) : ℕ)) := by
  have := (def_ser n x).rollMean0 hw
  refine this.congr fun i _ _ => ?_
  have : i + 1 - min w (i + 1) = i + 1 - w := by omega
  simp only [wsum, Nat.sub_zero, this]

theorem obs_full {s : Series (Val K)} {w i : Nat} (h : w ≤ (obs s w i).length) :
    w ≤ i + 1 ∧ ∀ j, j ≤ i → i < j + w → (ix s j).IsFin := by
  have h1 := obs_length_le s w i
  refine ⟨by omega, fun j h2 h3 => ?_⟩
  have e : (nums ((winIx w i).map (ix s))).length = ((winIx w i).map (ix s)).length := by
    refine le_antisymm (nums_length_le _) ?_
    rw [List.length_map, length_winIx]
    exact le_trans (by omega) h
  unfold nums at e
  rw [List.length_filterMap_eq_countP, List.countP_eq_length] at e
  have := e (ix s j) (List.mem_map_of_mem (mem_winIx.mpr ⟨h2, h3⟩))
  rw [Option.isSome_iff_exists] at this
  obtain ⟨y, hy⟩ := this
  exact ⟨y, num?_eq_some.mp hy⟩

theorem obs_length_of_fin {s : Series (Val K)} {w i : Nat} (hw : w ≤ i + 1)
    (h : ∀ j, j ≤ i → i < j + w → (ix s j).IsFin) : (obs s w i).length = w := by
  unfold obs nums
  rw [List.length_filterMap_eq_countP, List.countP_eq_length.mpr, List.length_map, length_winIx]
  · omega
  · intro v hv
    obtain ⟨j, hj, rfl⟩ := List.mem_map.mp hv
    rw [mem_winIx] at hj
    obtain ⟨y, hy⟩ := h j hj.1 hj.2
    rw [hy]; rfl

/-- C13, any data: with `fillna=False` a row of the SMA is a number exactly when the window is complete and every
value in it is a number; otherwise it is NaN (one NaN or infinity blanks `w` rows, never more). -/
theorem sma_defined_iff (s : Series (Val K)) (w : Nat) (hw : 1 ≤ w) (i : Nat) (hi : i < s.length) :
    ((ix (smaIndicator s w false) i).IsFin ↔ w ≤ i + 1 ∧ ∀ j, j ≤ i → i < j + w → (ix s j).IsFin) ∧
    (¬ (ix (smaIndicator s w false) i).IsFin → ix (smaIndicator s w false) i = .nan) := by
  have e : ix (smaIndicator s w false) i = _ := ix_rollMean (w := w) (mp := w) hi
  rw [e]
  split_ifs with h
  · exact ⟨⟨fun _ => obs_full h.1, fun _ => ⟨_, rfl⟩⟩, fun h => absurd ⟨_, rfl⟩ h⟩
  · refine ⟨⟨?_, fun ⟨h1, h2⟩ => ?_⟩, fun _ => rfl⟩
    · rintro ⟨y, hy⟩; cases hy
    · have := obs_length_of_fin h1 h2
      exact absurd ⟨by omega, by omega⟩ h

example : smaIndicator (qs [1, 2, 6, 7]) 3 false = [.nan, .nan, .fin 3, .fin 5] := by decide +kernel
example : smaIndicator (qs [1, 2, 6, 7]) 3 true = [.fin 1, .fin (3/2), .fin 3, .fin 5] := by decide +kernel
example : smaIndicator ([.fin 1, .fin 2, .pinf, .fin 4, .fin 6, .fin 8] : Series (Val ℚ)) 2 false
    = [.nan, .fin (3/2), .nan, .nan, .fin 5, .fin 7] := by decide +kernel

/-! ## C14 -/

/-- C14: the recurrence, for both values of `fillna`; `fillna=False` hides the first `w-1` rows. -/
theorem ema_recurrence (n : Nat) (x : Nat → K) (w : Nat) (hw : 1 ≤ w) (fillna : Bool) :
    ∃ e : Nat → K, e 0 = x 0 ∧
      (∀ i, e (i + 1) = (1 - 2 / ((w : K) + 1)) * e i + 2 / ((w : K) + 1) * x (i + 1)) ∧
      ∃ out, emaIndicator (ser n x) w fillna = .ok out ∧ Def out n (if fillna then 0 else w - 1) e := by
  refine ⟨emaRec (2 / ((w : K) + 1)) x, rfl, fun i => rfl, ema (ser n x) w fillna, ?_, ?_⟩
  · unfold emaIndicator chkSpan
    rw [if_neg (by omega)]; rfl
  · unfold ema
    rw [alphaOfSpan_fin]
    have h := (def_ser n x).ewm (a := 2 / ((w : K) + 1)) (minp fillna w)
    have e1 : 0 + max (minp fillna w) 1 - 1 = if fillna then 0 else w - 1 := by
      unfold minp; cases fillna <;> simp <;> omega
    rw [e1] at h
    refine h.congr fun i _ _ => ?_
    simp

theorem emaRec_closed (a : K) (x : Nat → K) (i : Nat) :
    emaRec a x i = (1 - a) ^ i * x 0 + ∑ j ∈ Ico 1 (i + 1), a * (1 - a) ^ (i - j) * x j := by
  induction i with
  | zero => simp [emaRec]
  | succ i ih =>
    rw [emaRec, ih, Finset.sum_Ico_succ_top (show 1 ≤ i + 1 by omega), Nat.sub_self, pow_zero, mul_add, Finset.mul_sum]
    have : ∀ j ∈ Ico 1 (i + 1), (1 - a) * (a * (1 - a) ^ (i - j) * x j) = a * (1 - a) ^ (i + 1 - j) * x j := by
      intro j hj
      rw [Finset.mem_Ico] at hj
      rw [show i + 1 - j = i - j + 1 by omega, pow_succ]; ring
    rw [Finset.sum_congr rfl this]; ring

/-- C14, closed form: weight `a (1-a)^k` on the value `k` rows back, the remaining weight on the first value. -/
theorem ema_closed_form (n : Nat) (x : Nat → K) (w : Nat) (hw : 1 ≤ w) (fillna : Bool) :
    ∃ out, emaIndicator (ser n x) w fillna = .ok out ∧ Def out n (if fillna then 0 else w - 1) (fun i =>
      (1 - 2 / ((w : K) + 1)) ^ i * x 0
        + ∑ j ∈ Ico 1 (i + 1), 2 / ((w : K) + 1) * (1 - 2 / ((w : K) + 1)) ^ (i - j) * x j) := by
  obtain ⟨e, h0, h1, out, h2, h3⟩ := ema_recurrence n x w hw fillna
  refine ⟨out, h2, h3.congr fun i _ _ => ?_⟩
  rw [← emaRec_closed]
  rename_i a1 a2
  clear h3 a1 a2
  induction i with
  | zero => exact h0
  | succ i ih => rw [h1, emaRec, ih]

example : emaIndicator (qs [8, 4, 2, 6]) 3 false = .ok [.nan, .nan, .fin 4, .fin 5] := by decide +kernel
example : emaIndicator (qs [8, 4, 2, 6]) 3 true = .ok [.fin 8, .fin 6, .fin 4, .fin 5] := by decide +kernel

/-! ## C15 -/

theorem sumL_tab_fin (m : Nat) (g : Nat → K) : sumL (tab m fun j => Val.fin (g j)) = Val.fin (∑ j ∈ range m, g j) := by
  have e : (tab m fun j => Val.fin (g j)) = (tab m g).map Val.fin := by simp [tab]
  have e2 : (sumL ((tab m g).map Val.fin) : Val K) = .fin (0 + (tab m g).sum) := by
    unfold sumL; rw [lit_fin, Rat.cast_zero]; exact sumL_fin_aux _ _
  rw [e, e2, zero_add]
  rfl

theorem wmaAvg_win (x : Nat → K) (w i : Nat) (hw : 1 ≤ w) (hi : w ≤ i + 1) :
    WMA.avg w (((winIx w i).map x).map Val.fin) =
      .fin ((∑ k ∈ range w, ((k : K) + 1) * x (i + 1 - w + k)) / ((w : K) * (w + 1) / 2)) := by
  have hwp : (0 : K) < w := by exact_mod_cast hw
  have hd : ((w * (w + 1) : ℕ) : K) ≠ 0 := by positivity
  unfold WMA.avg
  have hl : (((winIx w i).map x).map Val.fin).length = w := by
    rw [List.length_map, List.length_map, length_winIx]; omega
  have : (tab (((winIx w i).map x).map Val.fin).length fun j =>
      ((natF ((j + 1) * 2) /. natF (w * (w + 1))) *. ix (((winIx w i).map x).map Val.fin) j : Val K))
      = tab w fun j => Val.fin (((j + 1) * 2 : ℕ) / ((w * (w + 1) : ℕ) : K) * x (i + 1 - w + j)) := by
    apply tab_congr hl
    intro j hj
    rw [hl] at hj
    have e : ix (((winIx w i).map x).map Val.fin) j = .fin (x (i + 1 - w + j)) := by
      rw [ix_lt (by rw [hl]; exact hj)]
      simp [winIx]
    rw [e, natF_fin, natF_fin, fin_div _ _ hd, fin_mul]
  rw [this, sumL_tab_fin, Finset.sum_div]
  congr 1
  apply Finset.sum_congr rfl
  intro j _
  push_cast
  field_simp

/-- C15: `fillna=False`. -/
theorem wma_formula (n : Nat) (x : Nat → K) (w : Nat) (hw : 1 ≤ w) :
    Def (wma (ser n x) w false) n (w - 1)
      (fun i => (∑ k ∈ range w, ((k : K) + 1) * x (i + 1 - w + k)) / ((w : K) * (w + 1) / 2)) := by
  have := (def_ser n x).rollApply (w := w) (g := WMA.avg w) (Or.inr rfl)
    (e := fun i => (∑ k ∈ range w, ((k : K) + 1) * x (i + 1 - w + k)) / ((w : K) * (w + 1) / 2))
    fun i _ h2 => wmaAvg_win x w i hw (by omega)
  rw [Nat.zero_add] at this
  exact this

/-- filling with a constant a series with a warm-up -/
theorem Def.fillConst {s : Series (Val K)} {n p : Nat} {f : Nat → K} (h : Def s n p f) (v : K) :
    Def (checkFillna true (.const (.fin v)) s) n 0 (fun i => if i < p then v else f i) := by
  refine ⟨by rw [length_checkFillna, h.len], fun i _ h2 => by omega, fun i h1 _ => ?_⟩
  split_ifs with h2
  · rw [checkFillna_const_none (by rw [h.len]; exact h1)]
    intro j hj
    rw [h.gap j (by omega) (by omega)]; simp [Num]
  · rw [checkFillna_keep (by rw [h.len]; exact h1) (by rw [h.val i h1 (by omega)]; exact num_iff.mpr ⟨_, rfl⟩),
      h.val i h1 (by omega)]

/-- C15: `fillna=True` writes 0 (not a partial average) into the warm-up rows and changes nothing else. -/
theorem wma_fill_formula (n : Nat) (x : Nat → K) (w : Nat) (hw : 1 ≤ w) :
    Def (wma (ser n x) w true) n 0 (fun i => if i < w - 1 then 0 else
      (∑ k ∈ range w, ((k : K) + 1) * x (i + 1 - w + k)) / ((w : K) * (w + 1) / 2)) := by
  have := (wma_formula n x w hw).fillConst 0
  unfold wma
  rw [lit_fin, Rat.cast_zero]
  exact this

example : wma (qs [6, 12, 18, 0]) 3 false = [.nan, .nan, .fin 14, .fin 8] := by decide +kernel
example : wma (qs [6, 12, 18, 0]) 3 true = [.fin 0, .fin 0, .fin 14, .fin 8] := by decide +kernel

end TA
