import Verif.Lemmas.Bound
import Verif.Props.C17

/-! # Price bars: true range, sums over windows -/

set_option linter.unusedSectionVars false

namespace TA
open Finset
variable {K : Type} [Field K] [LinearOrder K] [IsStrictOrderedRing K]

/-- one row of the true range when all three numbers are there -/
theorem tr_fin (h l p : K) (hl : l ≤ h) :
    maxL (valid [Val.fin h -. Val.fin l, Flt.abs (Val.fin h -. Val.fin p), Flt.abs (Val.fin l -. Val.fin p)])
      = Val.fin (max h p - min l p) := by
  have e : valid [Val.fin h -. Val.fin l, Flt.abs (Val.fin h -. Val.fin p), Flt.abs (Val.fin l -. Val.fin p)]
      = ((h - l) :: [|h - p|, |l - p|]).map Val.fin := by
    simp [valid]
  rw [e, maxL_fin]
  congr 1
  show max (max (h - l) |h - p|) |l - p| = _
  rcases le_total h p with h1 | h1
  · have h2 : l ≤ p := le_trans hl h1
    rw [max_eq_right h1, min_eq_left h2, abs_of_nonpos (by linarith : h - p ≤ 0), abs_of_nonpos (by linarith : l - p ≤ 0)]
    rw [max_eq_right (by apply max_le <;> linarith)]; ring
  · rw [max_eq_left h1, abs_of_nonneg (by linarith : 0 ≤ h - p)]
    rcases le_total l p with h2 | h2
    · rw [min_eq_left h2, abs_of_nonpos (by linarith : l - p ≤ 0), max_eq_left (by linarith : h - p ≤ h - l),
        max_eq_left (by linarith)]
    · rw [min_eq_right h2, abs_of_nonneg (by linarith : 0 ≤ l - p), max_eq_right (by linarith : h - l ≤ h - p),
        max_eq_left (by linarith)]

theorem tr_nan (h l : K) :
    maxL (valid [Val.fin h -. Val.fin l, Flt.abs (Val.fin h -. (Val.nan : Val K)), Flt.abs (Val.fin l -. (Val.nan : Val K))])
      = Val.fin (h - l) := by
  simp [valid, maxL]

theorem npMin2_fin (a b : K) : npMin2 (Val.fin a) (Val.fin b) = Val.fin (min a b) := by
  simp only [npMin2, isNaN_fin, fin_lt, decide_eq_true_eq, Bool.false_eq_true, if_false]
  split_ifs with h
  · rw [min_eq_right h.le]
  · rw [min_eq_left (not_lt.mp h)]

theorem npMax2_fin (a b : K) : npMax2 (Val.fin a) (Val.fin b) = Val.fin (max a b) := by
  simp only [npMax2, isNaN_fin, fin_lt, decide_eq_true_eq, Bool.false_eq_true, if_false]
  split_ifs with h
  · rw [max_eq_right h.le]
  · rw [max_eq_left (not_lt.mp h)]

@[simp] theorem npMin2_nan_left (b : Val K) : npMin2 (Val.nan : Val K) b = Val.nan := rfl
@[simp] theorem npMin2_nan_right (a : Val K) : npMin2 a (Val.nan : Val K) = Val.nan := by
  unfold npMin2; cases a <;> rfl
@[simp] theorem npMax2_nan_left (b : Val K) : npMax2 (Val.nan : Val K) b = Val.nan := rfl
@[simp] theorem npMax2_nan_right (a : Val K) : npMax2 a (Val.nan : Val K) = Val.nan := by
  unfold npMax2; cases a <;> rfl

/-- Sum over the observed rows of a window, for two series where the first is dominated by the second. -/
theorem obs_sum_le {s t : Series (Val K)} {w i : Nat}
    (hs : ∀ j x, j ≤ i → i < j + w → ix s j = .fin x → ∃ y, ix t j = .fin y ∧ x ≤ y)
    (ht : ∀ j y, j ≤ i → i < j + w → ix t j = .fin y → 0 ≤ y) :
    (obs s w i).sum ≤ (obs t w i).sum := by
  unfold obs
  have h : ∀ l : List Nat, (∀ j ∈ l, j ≤ i ∧ i < j + w) →
      (nums (l.map (ix s))).sum ≤ (nums (l.map (ix t))).sum := by
    intro l
    induction l with
    | nil => intro _; exact le_refl _
    | cons a l ih =>
      intro hl
      have h1 := ih fun j hj => hl j (List.mem_cons_of_mem _ hj)
      have h2 := hl a List.mem_cons_self
      unfold nums at h1 ⊢
      simp only [List.map_cons, List.filterMap_cons]
      cases hsa : ix s a with
      | fin x =>
        obtain ⟨y, hy, hxy⟩ := hs a x h2.1 h2.2 hsa
        rw [hy]; simp only [num?_fin, List.sum_cons]
        exact add_le_add hxy h1
      | _ =>
        cases hta : ix t a with
        | fin y =>
          have := ht a y h2.1 h2.2 hta
          simp only [num?_nan, num?_pinf, num?_ninf, num?_fin, List.sum_cons]
          linarith
        | _ => simpa using h1
  exact h _ fun j hj => mem_winIx.mp hj

section bars
variable {h l c : Series (Val K)}

/-- the previous close, as the code computes it -/
theorem ix_prev {i : Nat} (hi : i < c.length) : ix (shift c 1) i = if i = 0 then .nan else ix c (i - 1) := by
  rw [ix_shift hi]
  by_cases h0 : i = 0
  · rw [if_pos (by omega), if_pos h0]; rfl
  · rw [if_neg (by omega), if_neg h0]

/-- the previous close is NaN or a number -/
theorem GoodBars.prev_cases (g : GoodBars h l c) {i : Nat} (hi : i < h.length) :
    ix (shift c 1) i = .nan ∨ ∃ p, ix (shift c 1) i = .fin p := by
  rw [ix_prev (by rw [g.lenC]; exact hi)]
  split_ifs with h0
  · exact .inl rfl
  · rcases g.row (i - 1) (by omega) with ⟨_, _, h3⟩ | ⟨x, y, z, _, _, h3, _⟩
    · exact .inl h3
    · exact .inr ⟨z, h3⟩

/-- true range: NaN on a missing bar, else a non-negative number -/
theorem GoodBars.tr_cases (g : GoodBars h l c) {i : Nat} (hi : i < h.length) :
    (ix h i = .nan ∧ ix l i = .nan ∧ ix c i = .nan ∧ ix (trueRange h l (shift c 1)) i = .nan) ∨
    ∃ x y z, ix h i = .fin x ∧ ix l i = .fin y ∧ ix c i = .fin z ∧ y ≤ z ∧ z ≤ x ∧
      ((ix (shift c 1) i = .nan ∧ ix (trueRange h l (shift c 1)) i = .fin (x - y)) ∨
       ∃ p, ix (shift c 1) i = .fin p ∧ ix (trueRange h l (shift c 1)) i = .fin (max x p - min y p)) := by
  unfold trueRange
  rw [ix_zip3 hi]
  rcases g.row i hi with ⟨h1, h2, h3⟩ | ⟨x, y, z, h1, h2, h3, h4, h5⟩
  · left; rw [h1, h2]; exact ⟨rfl, rfl, h3, rfl⟩
  · right
    refine ⟨x, y, z, h1, h2, h3, h4, h5, ?_⟩
    rw [h1, h2]
    rcases g.prev_cases hi with hp | ⟨p, hp⟩
    · left; rw [hp]; exact ⟨rfl, tr_nan x y⟩
    · right; refine ⟨p, hp, ?_⟩; rw [hp]; exact tr_fin x y p (le_trans h4 h5)

theorem GoodBars.tr_nonneg (g : GoodBars h l c) {i : Nat} {t : K} (ht : ix (trueRange h l (shift c 1)) i = .fin t) :
    0 ≤ t := by
  by_cases hi : i < h.length
  · rcases g.tr_cases hi with ⟨_, _, _, e⟩ | ⟨x, y, z, _, _, _, h4, h5, ⟨_, e⟩ | ⟨p, _, e⟩⟩
    · rw [e] at ht; cases ht
    · rw [e] at ht; cases ht; linarith
    · rw [e] at ht; cases ht
      have := le_max_left x p
      have := min_le_left y p
      linarith
  · rw [ix_ge (by simpa using hi)] at ht; cases ht

end bars

end TA
