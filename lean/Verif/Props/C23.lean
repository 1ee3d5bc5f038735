import Verif.Props.C21

/-! # C23: money flow index; C24: Chaikin money flow; C39: volume weighted average price -/

set_option linter.unusedSectionVars false

namespace TA
open Finset
variable {K : Type} [Field K] [LinearOrder K] [IsStrictOrderedRing K]

theorem noFill {F : Type} [Flt F] (v : Fill F) (s : Series F) : checkFillna false v s = s := rfl

/-! ## C23 -/

theorem mfi_pos_sum (l : List (Val K)) : ∃ p, 0 ≤ p ∧
    sumL ((l.map clean).map (fun v => if v >=. lit 0 then v else lit 0)) = .fin p := by
  have h : ∀ (l : List (Val K)) (a : K), 0 ≤ a → ∃ p, 0 ≤ p ∧
      ((l.map clean).map (fun v => if v >=. lit 0 then v else lit 0)).foldl Flt.add (.fin a) = .fin p := by
    intro l
    induction l with
    | nil => intro a ha; exact ⟨a, ha, rfl⟩
    | cons v l ih =>
      intro a ha
      simp only [List.map_cons, List.foldl_cons]
      have : ∃ b, 0 ≤ b ∧ (if clean v >=. lit 0 then clean v else lit 0) = Val.fin b := by
        rcases clean_cases v with e | ⟨x, e, _⟩
        · rw [e]; exact ⟨0, le_refl _, by simp⟩
        · rw [e]
          by_cases hx : 0 ≤ x
          · exact ⟨x, hx, by simp [hx]⟩
          · exact ⟨0, le_refl _, by simp [hx]⟩
      obtain ⟨b, hb, e⟩ := this
      rw [e, fin_add]
      exact ih (a + b) (by linarith)
  have := h l 0 (le_refl _)
  simpa [sumL] using this

theorem mfi_neg_sum (l : List (Val K)) : ∃ p, p ≤ 0 ∧
    sumL ((l.map clean).map (fun v => if v <. lit 0 then v else lit 0)) = .fin p := by
  have h : ∀ (l : List (Val K)) (a : K), a ≤ 0 → ∃ p, p ≤ 0 ∧
      ((l.map clean).map (fun v => if v <. lit 0 then v else lit 0)).foldl Flt.add (.fin a) = .fin p := by
    intro l
    induction l with
    | nil => intro a ha; exact ⟨a, ha, rfl⟩
    | cons v l ih =>
      intro a ha
      simp only [List.map_cons, List.foldl_cons]
      have : ∃ b, b ≤ 0 ∧ (if clean v <. lit 0 then clean v else lit 0) = Val.fin b := by
        rcases clean_cases v with e | ⟨x, e, _⟩
        · rw [e]; exact ⟨0, le_refl _, by simp⟩
        · rw [e]
          by_cases hx : x < 0
          · exact ⟨x, hx.le, by simp [hx]⟩
          · exact ⟨0, le_refl _, by simp [hx]⟩
      obtain ⟨b, hb, e⟩ := this
      rw [e, fin_add]
      exact ih (a + b) (by linarith)
  have := h l 0 (le_refl _)
  simpa [sumL] using this

/-- `100 - 100 / (1 + p / n)` as the code computes it, for non-negative flows -/
theorem mfi_scalar {p n : K} (hp : 0 ≤ p) (hn : 0 ≤ n) :
    (lit 100 -. (lit 100 /. (lit 1 +. (Val.fin p /. Val.fin n)))) =
      if p + n = 0 then .nan else .fin (100 * p / (p + n)) := by
  by_cases h0 : n = 0
  · subst h0
    rw [add_zero, fin_div_zero]
    by_cases h1 : p = 0
    · rw [if_pos h1, if_pos h1]; simp
    · rw [if_neg h1, if_neg h1, if_pos (lt_of_le_of_ne hp (Ne.symm h1)), mul_div_assoc, div_self h1, mul_one]
      have e : (lit 1 +. (Val.pinf : Val K)) = .pinf := rfl
      rw [e]
      show Val.fin ((100 : ℚ) : K) -. Val.fin 0 = _
      simp
  · have hp' : 0 < n := lt_of_le_of_ne hn (Ne.symm h0)
    have hpn : p + n ≠ 0 := by linarith
    have h1 : (1 : K) + p / n ≠ 0 := by
      have : 0 ≤ p / n := div_nonneg hp hn
      linarith
    rw [if_neg hpn, fin_div _ _ h0]
    simp only [lit_fin, fin_add]
    push_cast
    rw [fin_div _ _ h1, fin_sub]
    congr 1
    have : (1 : K) + p / n = (p + n) / n := by field_simp; ring
    rw [this]
    field_simp
    ring

/-- C23: for any data (gaps, infinities, any signs), any window and both values of `fillna`, every row of the MFI is NaN
or in [0, 100]. -/
theorem mfi_range (h l c v : Series (Val K)) (w : Nat) (fillna : Bool) :
    NaNOr (fun x => 0 ≤ x ∧ x ≤ 100) (moneyFlowIndex h l c v w fillna) := by
  unfold moneyFlowIndex
  rw [lit_fin]
  refine NaNOr.fill ?_ (by norm_num) fillna
  intro i hi
  unfold MFI.run at hi ⊢
  dsimp only at hi ⊢
  generalize MFI.flow h l c v = m at hi ⊢
  have hi' : i < m.length := by simpa using hi
  rw [ix_csub (by simpa using hi'), ix_cdiv (by simpa using hi'), ix_cadd (by simpa using hi'), ix_sdiv (by simpa using hi'),
    ix_sabs (by simpa using hi'), ix_rollApply hi', ix_rollApply hi']
  split_ifs
  · have e : (winIx w i).map (fun j => clean (ix m j)) = ((winIx w i).map (ix m)).map clean := by simp
    rw [e]
    obtain ⟨p, hp, e1⟩ := mfi_pos_sum ((winIx w i).map (ix m))
    obtain ⟨q, hq, e2⟩ := mfi_neg_sum ((winIx w i).map (ix m))
    unfold MFI.pos MFI.neg
    rw [e1, e2, fin_abs, mfi_scalar hp (abs_nonneg q)]
    split_ifs with h0
    · exact .inl rfl
    · right
      have hq' := abs_nonneg q
      have : 0 < p + |q| := lt_of_le_of_ne (by linarith) (Ne.symm h0)
      refine ⟨_, rfl, div_nonneg (by linarith) this.le, ?_⟩
      rw [div_le_iff₀ this]; linarith
  · left; simp

/-- money flow of row `j`: typical price times volume, with the sign of the change of the typical price; row 0 has none -/
def mflow (tp v : Nat → K) (j : Nat) : K :=
  if j = 0 then 0
  else if tp (j - 1) < tp j then tp j * v j
  else if tp j < tp (j - 1) then -(tp j * v j)
  else 0

theorem def_flow (n : Nat) (h l c v : Nat → K) :
    Def (MFI.flow (ser n h) (ser n l) (ser n c) (ser n v)) n 0 (mflow (fun i => (h i + l i + c i) / 3) v) := by
  have htp : Def (typicalPrice (ser n h) (ser n l) (ser n c)) n 0 (fun i => (h i + l i + c i) / 3) := by
    have := (((def_ser n h).sadd (def_ser n l)).sadd (def_ser n c)).divc (c := (3 : K)) (by norm_num)
    unfold typicalPrice
    rw [lit_fin]
    push_cast
    simpa using this
  unfold MFI.flow
  dsimp only
  refine ⟨by simp [ser], fun i _ h2 => by omega, fun i hi _ => ?_⟩
  rw [ix_smul (by simpa [ser] using hi), ix_smul (by simpa [ser] using hi), ix_zip2 (by simpa [ser] using hi),
    ix_prev (by simpa [ser] using hi), htp.val i hi (Nat.zero_le _), (def_ser n v).val i hi (Nat.zero_le _)]
  unfold mflow
  by_cases h0 : i = 0
  · rw [if_pos h0, if_pos h0]; simp
  · rw [if_neg h0, if_neg h0, htp.val (i - 1) (by omega) (Nat.zero_le _)]
    simp only [fin_lt, decide_eq_true_eq, lit_fin, fin_mul]
    split_ifs <;> simp

theorem sum_map_pos (f : Nat → K) (l : List Nat) :
    sumL ((((l.map f).map Val.fin)).map (fun v => if v >=. lit 0 then v else lit 0)) = Val.fin ((l.map fun j => max (f j) 0).sum) := by
  have e : (((l.map f).map Val.fin)).map (fun v => if v >=. lit 0 then v else lit 0) = (l.map fun j => max (f j) 0).map Val.fin := by
    rw [List.map_map, List.map_map, List.map_map]
    refine List.map_congr_left fun j _ => ?_
    simp only [Function.comp, lit_fin, fin_le, decide_eq_true_eq, Rat.cast_zero]
    split_ifs with h
    · rw [max_eq_left h]
    · rw [max_eq_right (by linarith)]
  rw [e, sumL_fin]

theorem sum_map_neg (f : Nat → K) (l : List Nat) :
    sumL ((((l.map f).map Val.fin)).map (fun v => if v <. lit 0 then v else lit 0)) = Val.fin (-(l.map fun j => max (-f j) 0).sum) := by
  have e : (((l.map f).map Val.fin)).map (fun v => if v <. lit 0 then v else lit 0) = (l.map fun j => -max (-f j) 0).map Val.fin := by
    rw [List.map_map, List.map_map, List.map_map]
    refine List.map_congr_left fun j _ => ?_
    simp only [Function.comp, lit_fin, fin_lt, decide_eq_true_eq, Rat.cast_zero]
    split_ifs with h
    · rw [max_eq_left (by linarith), neg_neg]
    · rw [max_eq_right (by linarith), neg_zero]
  rw [e, sumL_fin]
  clear e
  congr 1
  induction l with
  | nil => simp
  | cons a l ih => simp only [List.map_cons, List.sum_cons]; rw [ih]; ring

/-- C23: the formula on gap-free data.  `P` and `N` are the sums over the window of the positive and the negative money
flow; the index is `100 * P / (P + N)`, and NaN when there was no flow at all.  Windows are cut at row 0 with
`fillna=True`. -/
theorem mfi_formula (n : Nat) (h l c v : Nat → K) (w : Nat) (fillna : Bool) (hw : 1 ≤ w) :
    let m := mflow (fun i => (h i + l i + c i) / 3) v
    let P := fun i => ∑ j ∈ Finset.Ico (i + 1 - w) (i + 1), max (m j) 0
    let N := fun i => ∑ j ∈ Finset.Ico (i + 1 - w) (i + 1), max (-m j) 0
    let out := MFI.run (ser n h) (ser n l) (ser n c) (ser n v) w fillna
    moneyFlowIndex (ser n h) (ser n l) (ser n c) (ser n v) w fillna = checkFillna fillna (.const (.fin 50)) out ∧
    out.length = n ∧ (∀ i, i < n → fillna = false → i < w - 1 → ix out i = .nan) ∧
    ∀ i, i < n → (fillna = true ∨ w - 1 ≤ i) → ix out i = if P i + N i = 0 then .nan else .fin (100 * P i / (P i + N i)) := by
  intro m P N out
  have hm := def_flow n h l c v
  have hrow : ∀ i, i < n → ix out i = if (minp fillna w) ≤ min w (i + 1)
      then (if P i + N i = 0 then .nan else .fin (100 * P i / (P i + N i))) else .nan := by
    intro i hi
    have hi' : i < (MFI.flow (ser n h) (ser n l) (ser n c) (ser n v)).length := by rw [hm.len]; exact hi
    show ix (MFI.run _ _ _ _ w fillna) i = _
    unfold MFI.run
    dsimp only
    rw [ix_csub (by simpa using hi'), ix_cdiv (by simpa using hi'), ix_cadd (by simpa using hi'), ix_sdiv (by simpa using hi'),
      ix_sabs (by simpa using hi'), ix_rollApply hi', ix_rollApply hi', hm.obs_eq hi, List.length_map, length_winIx]
    have e0 : min (min w (i + 1 - 0)) (i + 1) = min w (i + 1) := by omega
    rw [e0]
    split_ifs with h1 h2
    · have e1 : (winIx w i).map (fun j => clean (ix (MFI.flow (ser n h) (ser n l) (ser n c) (ser n v)) j))
          = ((winIx w i).map m).map Val.fin := by
        rw [List.map_map]
        refine List.map_congr_left fun j hj => ?_
        have := mem_winIx.mp hj
        rw [hm.val j (by omega) (Nat.zero_le _)]; rfl
      unfold MFI.pos MFI.neg
      rw [e1, sum_map_pos, sum_map_neg, fin_abs, abs_neg]
      have hP : ((winIx w i).map fun j => max (m j) 0).sum = P i := rfl
      have hN : ((winIx w i).map fun j => max (-m j) 0).sum = N i := rfl
      have p0 : 0 ≤ P i := Finset.sum_nonneg fun j _ => le_max_right _ _
      have n0 : 0 ≤ N i := Finset.sum_nonneg fun j _ => le_max_right _ _
      rw [hP, hN, abs_of_nonneg n0, mfi_scalar p0 n0, if_pos h2]
    · have e1 : (winIx w i).map (fun j => clean (ix (MFI.flow (ser n h) (ser n l) (ser n c) (ser n v)) j))
          = ((winIx w i).map m).map Val.fin := by
        rw [List.map_map]
        refine List.map_congr_left fun j hj => ?_
        have := mem_winIx.mp hj
        rw [hm.val j (by omega) (Nat.zero_le _)]; rfl
      unfold MFI.pos MFI.neg
      rw [e1, sum_map_pos, sum_map_neg, fin_abs, abs_neg]
      have hP : ((winIx w i).map fun j => max (m j) 0).sum = P i := rfl
      have hN : ((winIx w i).map fun j => max (-m j) 0).sum = N i := rfl
      have p0 : 0 ≤ P i := Finset.sum_nonneg fun j _ => le_max_right _ _
      have n0 : 0 ≤ N i := Finset.sum_nonneg fun j _ => le_max_right _ _
      rw [hP, hN, abs_of_nonneg n0, mfi_scalar p0 n0, if_neg h2]
    · simp
  refine ⟨?_, ?_, fun i hi hf hw1 => ?_, fun i hi hor => ?_⟩
  · unfold moneyFlowIndex; rw [lit_fin]; push_cast; rfl
  · show (MFI.run _ _ _ _ w fillna).length = n
    simp [MFI.run, hm.len]
  · subst hf
    rw [hrow i hi, if_neg]
    show ¬ (w ≤ _)
    omega
  · rw [hrow i hi, if_pos]
    rcases hor with rfl | hor
    · exact Nat.zero_le _
    · unfold minp; split_ifs <;> omega

/-- C23: with non-negative prices and volumes, the index is 100 when the typical price did not fall in the window and rose
at least once on positive volume. -/
theorem mfi_no_fall (n : Nat) (h l c v : Nat → K) (w : Nat) (hw : 1 ≤ w) (i : Nat) (hi : i < n) (hwi : w - 1 ≤ i)
    (htp : ∀ j, 0 ≤ (h j + l j + c j) / 3) (hv : ∀ j, 0 ≤ v j)
    (hx : ∀ j, 1 ≤ j → j ≤ i → i < j + w → (h (j - 1) + l (j - 1) + c (j - 1)) / 3 ≤ (h j + l j + c j) / 3)
    (k : Nat) (k1 : 1 ≤ k) (k2 : k ≤ i) (k3 : i < k + w) (hv0 : 0 < v k)
    (hk : (h (k - 1) + l (k - 1) + c (k - 1)) / 3 < (h k + l k + c k) / 3) :
    ix (moneyFlowIndex (ser n h) (ser n l) (ser n c) (ser n v) w) i = .fin 100 := by
  have H := mfi_formula n h l c v w false hw
  dsimp only at H
  rw [H.1, noFill, H.2.2.2 i hi (.inr hwi)]
  clear H
  generalize hm : mflow (fun i => (h i + l i + c i) / 3) v = m
  have hnn : ∀ j, j ≤ i → i < j + w → 0 ≤ m j := by
    intro j j1 j2
    rw [← hm]; unfold mflow
    split_ifs with a1 a2 a3
    · exact le_refl _
    · exact mul_nonneg (htp j) (hv j)
    · exact absurd (hx j (by omega) j1 j2) (not_le.mpr a3)
    · exact le_refl _
  have hN : ∑ j ∈ Finset.Ico (i + 1 - w) (i + 1), max (-m j) 0 = 0 := by
    refine Finset.sum_eq_zero fun j hj => ?_
    rw [Finset.mem_Ico] at hj
    exact max_eq_right (by linarith [hnn j (by omega) (by omega)])
  have hP : 0 < ∑ j ∈ Finset.Ico (i + 1 - w) (i + 1), max (m j) 0 := by
    refine lt_of_lt_of_le ?_ (Finset.single_le_sum (f := fun j => max (m j) 0) (fun j _ => le_max_right _ _)
      (Finset.mem_Ico.mpr ⟨by omega, by omega⟩ : k ∈ _))
    refine lt_max_of_lt_left ?_
    rw [← hm]; unfold mflow
    rw [if_neg (by omega), if_pos hk]
    exact mul_pos (lt_of_le_of_lt (htp (k - 1)) hk) hv0
  rw [if_neg (by rw [hN, add_zero]; exact hP.ne'), hN, add_zero, mul_div_assoc, div_self hP.ne', mul_one]

/-- C23: and 0 when it did not rise and fell at least once with a positive money flow. -/
theorem mfi_no_rise (n : Nat) (h l c v : Nat → K) (w : Nat) (hw : 1 ≤ w) (i : Nat) (hi : i < n) (hwi : w - 1 ≤ i)
    (htp : ∀ j, 0 ≤ (h j + l j + c j) / 3) (hv : ∀ j, 0 ≤ v j)
    (hx : ∀ j, 1 ≤ j → j ≤ i → i < j + w → (h j + l j + c j) / 3 ≤ (h (j - 1) + l (j - 1) + c (j - 1)) / 3)
    (k : Nat) (k1 : 1 ≤ k) (k2 : k ≤ i) (k3 : i < k + w) (hv0 : 0 < (h k + l k + c k) / 3 * v k)
    (hk : (h k + l k + c k) / 3 < (h (k - 1) + l (k - 1) + c (k - 1)) / 3) :
    ix (moneyFlowIndex (ser n h) (ser n l) (ser n c) (ser n v) w) i = .fin 0 := by
  have H := mfi_formula n h l c v w false hw
  dsimp only at H
  rw [H.1, noFill, H.2.2.2 i hi (.inr hwi)]
  clear H
  generalize hm : mflow (fun i => (h i + l i + c i) / 3) v = m
  have hnn : ∀ j, j ≤ i → i < j + w → m j ≤ 0 := by
    intro j j1 j2
    rw [← hm]; unfold mflow
    split_ifs with a1 a2 a3
    · exact le_refl _
    · exact absurd (hx j (by omega) j1 j2) (not_le.mpr a2)
    · have := mul_nonneg (htp j) (hv j); linarith
    · exact le_refl _
  have hP : ∑ j ∈ Finset.Ico (i + 1 - w) (i + 1), max (m j) 0 = 0 := by
    refine Finset.sum_eq_zero fun j hj => ?_
    rw [Finset.mem_Ico] at hj
    exact max_eq_right (hnn j (by omega) (by omega))
  have hN : 0 < ∑ j ∈ Finset.Ico (i + 1 - w) (i + 1), max (-m j) 0 := by
    refine lt_of_lt_of_le ?_ (Finset.single_le_sum (f := fun j => max (-m j) 0) (fun j _ => le_max_right _ _)
      (Finset.mem_Ico.mpr ⟨by omega, by omega⟩ : k ∈ _))
    refine lt_max_of_lt_left ?_
    rw [← hm]; unfold mflow
    rw [if_neg (by omega), if_neg (not_lt.mpr hk.le), if_pos hk, neg_neg]
    exact hv0
  rw [if_neg (by rw [hP, zero_add]; exact hN.ne'), hP, mul_zero, zero_div]

example : moneyFlowIndex (qs [11, 13, 12, 12]) (qs [9, 10, 8, 8]) (qs [10, 13, 10, 10]) (qs [5, 1, 2, 9]) 2
    = [.nan, .fin 100, .fin (75/2), .fin 0] := by decide +kernel
example : moneyFlowIndex (qs [5, 5, 5]) (qs [5, 5, 5]) (qs [5, 5, 5]) (qs [1, 1, 1]) 2 = [.nan, .nan, .nan] := by decide +kernel
example : moneyFlowIndex (qs [5, 5, 6]) (qs [5, 5, 6]) (qs [5, 5, 6]) (qs [1, 1, 1]) 2 true = qs [50, 50, 100] := by decide +kernel

/-! ## Sums of two series over the same rows -/

theorem obs_sum_pair {s t : Series (Val K)} {w i : Nat} (P : K → K → Prop) (h0 : P 0 0)
    (hadd : ∀ a b c d, P a b → P c d → P (a + c) (b + d))
    (h : ∀ j, j ≤ i → i < j + w → ((ix s j).num? = none ∧ (ix t j).num? = none) ∨
      ∃ x y, ix s j = .fin x ∧ ix t j = .fin y ∧ P x y) :
    P (obs s w i).sum (obs t w i).sum := by
  unfold obs
  have h : ∀ l : List Nat, (∀ j ∈ l, j ≤ i ∧ i < j + w) →
      P (nums (l.map (ix s))).sum (nums (l.map (ix t))).sum := by
    intro l
    induction l with
    | nil => intro _; exact h0
    | cons a l ih =>
      intro hl
      have h1 := ih fun j hj => hl j (List.mem_cons_of_mem _ hj)
      have h2 := hl a List.mem_cons_self
      unfold nums at h1 ⊢
      simp only [List.map_cons, List.filterMap_cons]
      rcases h a h2.1 h2.2 with ⟨e1, e2⟩ | ⟨x, y, e1, e2, hp⟩
      · rw [e1, e2]; exact h1
      · rw [e1, e2]
        simp only [num?_fin, List.sum_cons]
        exact hadd _ _ _ _ hp h1
  exact h _ fun j hj => mem_winIx.mp hj

theorem num?_none_of {v : Val K} (h : ∀ z, v ≠ .fin z) : v.num? = none := by
  cases v with
  | fin x => exact absurd rfl (h x)
  | _ => rfl

theorem Def.rollSum0 {s : Series (Val K)} {n : Nat} {f : Nat → K} (h : Def s n 0 f) {w : Nat} :
    Def (TA.rollSum w 0 s) n 0 (fun i => wsum f w i) := by
  refine ⟨by simp [h.len], fun i h1 h2 => by omega, fun i h1 h2 => ?_⟩
  rw [ix_rollSum (by rw [h.len]; exact h1), h.obs_eq h1, if_pos (Nat.zero_le _)]
  congr 1
  show ((winIx _ i).map f).sum = ((winIx w i).map f).sum
  congr 2
  unfold winIx
  congr 1
  all_goals omega

/-! ## C24 -/

section bars
variable {h l c v : Series (Val K)}

/-- the close location value of a good bar: a number in [-1, 1] (0 for a missing bar and for a bar without range) -/
theorem GoodBars.clv_mem (g : GoodBars h l c) {i : Nat} (hi : i < h.length) :
    ∃ a, ix (clv h l c) i = .fin a ∧ |a| ≤ 1 := by
  have hl : l.length = h.length := g.lenL
  have hc : c.length = h.length := g.lenC
  unfold clv fillConst
  rw [ix_map (by simp; omega), ix_sdiv (by simp; omega), ix_ssub (by simp; omega), ix_ssub (by omega), ix_ssub hi, ix_ssub hi]
  rcases g.row i hi with ⟨h1, h2, h3⟩ | ⟨x, y, z, h1, h2, h3, h4, h5⟩
  · rw [h1, h2, h3]; exact ⟨0, by simp, by simp⟩
  · rw [h1, h2, h3]
    simp only [fin_sub]
    by_cases hr : x - y = 0
    · have e1 : z - y = 0 := by linarith
      have e2 : x - z = 0 := by linarith
      rw [e1, e2, hr, sub_zero, fin_div_zero]; exact ⟨0, by simp, by simp⟩
    · rw [fin_div _ _ hr]
      refine ⟨_, by simp; rfl, ?_⟩
      have hp : 0 < x - y := lt_of_le_of_ne (by linarith) (Ne.symm hr)
      rw [abs_div, abs_of_pos hp, div_le_iff₀ hp, one_mul, abs_le]
      constructor <;> linarith

/-- C24: with good bars (possibly missing) and non-negative volumes (possibly missing), every CMF row is NaN or in [-1, 1],
for every window and both values of `fillna`. -/
theorem cmf_range (g : GoodBars h l c) (hv : ∀ i x, ix v i = .fin x → 0 ≤ x) (w : Nat) (fillna : Bool) :
    NaNOr (fun x => -1 ≤ x ∧ x ≤ 1) (chaikinMoneyFlow h l c v w fillna) := by
  have hl : l.length = h.length := g.lenL
  have hc : c.length = h.length := g.lenC
  unfold chaikinMoneyFlow
  rw [lit_fin]
  refine NaNOr.fill ?_ (by norm_num) fillna
  intro i hi
  unfold CMF.run at hi ⊢
  have hlen : (smul (clv h l c) v).length = h.length := by simp [clv, fillConst, hc]
  have hi' : i < h.length := by simpa [hlen] using hi
  rw [ix_sdiv (by simpa [hlen] using hi'), ix_rollSum (by simpa [hlen] using hi')]
  by_cases hiv : i < v.length
  · rw [ix_rollSum hiv]
    have key : |(obs (smul (clv h l c) v) w i).sum| ≤ (obs v w i).sum := by
      refine obs_sum_pair (fun a b => |a| ≤ b) (by simp) (fun a b c d h1 h2 => (abs_add_le _ _).trans (add_le_add h1 h2)) ?_
      intro j hj _
      obtain ⟨a, ea, ha⟩ := g.clv_mem (i := j) (by omega)
      rw [ix_smul (by simp [clv, fillConst, hc]; omega), ea]
      cases hx : ix v j with
      | nan => left; simp
      | pinf => exact .inl ⟨num?_none_of fun z => infMul_ne_fin (Val.fin a) z, rfl⟩
      | ninf => exact .inl ⟨num?_none_of (neg_ne_fin (infMul_ne_fin (Val.fin a))), rfl⟩
      | fin x =>
        right
        refine ⟨a * x, x, rfl, rfl, ?_⟩
        rw [abs_mul, abs_of_nonneg (hv j x hx)]
        nlinarith [hv j x hx]
    split_ifs
    · rw [show (fun x : K => -1 ≤ x ∧ x ≤ 1) = fun x => |x| ≤ 1 from funext fun x => by rw [abs_le]]
      generalize (obs (smul (clv h l c) v) w i).sum = a at key ⊢
      generalize (obs v w i).sum = b at key ⊢
      by_cases hb : b = 0
      · subst hb
        have : a = 0 := abs_eq_zero.mp (le_antisymm key (abs_nonneg a))
        subst this; left; rw [fin_div_zero]; simp
      · right
        rw [fin_div _ _ hb]
        refine ⟨_, rfl, ?_⟩
        dsimp only
        have hbp : 0 < b := lt_of_le_of_ne ((abs_nonneg a).trans key) (Ne.symm hb)
        rw [abs_div, abs_of_pos hbp, div_le_iff₀ hbp, one_mul]; exact key
    all_goals left; simp
  · left
    rw [ix_ge (s := rollSum w _ v) (by simpa using hiv)]; simp

/-! ## C39 -/

/-- C39: with good bars and non-negative volumes the VWAP is NaN or lies between any lower bound of the lows and any upper
bound of the highs of its window.  With `fillna=True` a missing bar must not carry a volume, and rows that are NaN
become 0. -/
theorem vwap_mem (g : GoodBars h l c) (hv : ∀ i x, ix v i = .fin x → 0 ≤ x) (w : Nat) (fillna : Bool)
    (hm : fillna = true → ∀ i x, ix v i = .fin x → i < h.length → (ix h i).IsFin)
    (lo hi : K) (i : Nat)
    (hlo : ∀ j x, j ≤ i → i < j + w → ix l j = .fin x → lo ≤ x)
    (hhi : ∀ j x, j ≤ i → i < j + w → ix h j = .fin x → x ≤ hi) :
    ix (VWAP.run h l c v w fillna) i = .nan ∨ ∃ x, ix (VWAP.run h l c v w fillna) i = .fin x ∧ lo ≤ x ∧ x ≤ hi := by
  have hl : l.length = h.length := g.lenL
  have hc : c.length = h.length := g.lenC
  unfold VWAP.run
  dsimp only
  have hlen : (smul (typicalPrice h l c) v).length = h.length := by simp [typicalPrice]
  by_cases hi' : i < h.length
  swap
  · left; rw [ix_ge (by simpa [hlen] using hi')]; rfl
  rw [ix_sdiv (by simpa [hlen] using hi'), ix_rollSum (by simpa [hlen] using hi')]
  by_cases hiv : i < v.length
  swap
  · left; rw [ix_ge (s := rollSum w _ v) (by simpa using hiv)]; simp
  rw [ix_rollSum hiv]
  split_ifs with o1 o2
  · have key : (lo * (obs v w i).sum ≤ (obs (smul (typicalPrice h l c) v) w i).sum ∧
        (obs (smul (typicalPrice h l c) v) w i).sum ≤ hi * (obs v w i).sum) ∧ 0 ≤ (obs v w i).sum := by
      refine obs_sum_pair (fun a b => (lo * b ≤ a ∧ a ≤ hi * b) ∧ 0 ≤ b) (by simp)
        (fun a b c d h1 h2 => ⟨⟨by rw [mul_add]; exact add_le_add h1.1.1 h2.1.1, by rw [mul_add]; exact add_le_add h1.1.2 h2.1.2⟩,
          add_nonneg h1.2 h2.2⟩) ?_
      intro j hj hjw
      have hjl : j < h.length := by omega
      have etp : ix (smul (typicalPrice h l c) v) j = (((ix h j +. ix l j) +. ix c j) /. lit 3) *. ix v j := by
        unfold typicalPrice
        rw [ix_smul (by simpa using hjl), ix_divc (by simpa using hjl), ix_sadd (by simpa using hjl), ix_sadd hjl]
      have hfin : ∀ x, ix v j = .fin x → (ix h j).IsFin := by
        intro x hx
        cases fillna with
        | true => exact hm rfl j x hx hjl
        | false =>
          obtain ⟨a, ha⟩ := (obs_full o1).2 j hj hjw
          rw [etp, mul_eq_fin] at ha
          obtain ⟨b, d, hb, _⟩ := ha
          obtain ⟨b', hb', _⟩ := div_eq_fin hb
          rw [add_eq_fin] at hb'
          obtain ⟨b2, _, hb2, _⟩ := hb'
          rw [add_eq_fin] at hb2
          obtain ⟨b3, _, hb3, _⟩ := hb2
          exact ⟨b3, hb3⟩
      cases hx : ix v j with
      | fin x =>
        right
        obtain ⟨xh, exh⟩ := hfin x hx
        rcases g.row j hjl with ⟨h1, _⟩ | ⟨a, b, d, h1, h2, h3, h4, h5⟩
        · rw [h1] at exh; cases exh
        · rw [etp, h1, h2, h3, hx]
          have := hlo j b hj hjw h2
          have := hhi j a hj hjw h1
          have hx0 := hv j x hx
          refine ⟨(a + b + d) / 3 * x, x, ?_, rfl, ⟨?_, ?_⟩, hx0⟩
          · simp only [fin_add, lit_fin]
            push_cast
            rw [fin_div _ _ (by norm_num)]; rfl
          · exact mul_le_mul_of_nonneg_right (by rw [le_div_iff₀ (by norm_num)]; linarith) hx0
          · exact mul_le_mul_of_nonneg_right (by rw [div_le_iff₀ (by norm_num)]; linarith) hx0
      | nan => left; rw [etp, hx]; simp
      | pinf =>
        left; refine ⟨num?_none_of fun z hz => ?_, rfl⟩
        rw [etp, mul_eq_fin, hx] at hz
        obtain ⟨_, _, _, h0, _⟩ := hz; cases h0
      | ninf =>
        left; refine ⟨num?_none_of fun z hz => ?_, rfl⟩
        rw [etp, mul_eq_fin, hx] at hz
        obtain ⟨_, _, _, h0, _⟩ := hz; cases h0
    generalize (obs (smul (typicalPrice h l c) v) w i).sum = a at key ⊢
    generalize (obs v w i).sum = b at key ⊢
    obtain ⟨⟨k1, k2⟩, k3⟩ := key
    by_cases hb : b = 0
    · subst hb
      have : a = 0 := by rw [mul_zero] at k1 k2; exact le_antisymm k2 k1
      subst this; left; rw [fin_div_zero]; simp
    · right
      have hbp : 0 < b := lt_of_le_of_ne k3 (Ne.symm hb)
      rw [fin_div _ _ hb]
      refine ⟨_, rfl, ?_, ?_⟩
      · rw [le_div_iff₀ hbp]; exact k1
      · rw [div_le_iff₀ hbp]; exact k2
  all_goals left; simp

end bars

/-- C24: on gap-free bars with positive volumes, CMF is the volume weighted mean of the close location values of the window
(where the location of a bar without range is 0), from row `w - 1` on (from row 0 with `fillna=True`). -/
theorem cmf_formula (n : Nat) (h l c v : Nat → K) (w : Nat) (fillna : Bool) (hw : 1 ≤ w) (hv : ∀ i, 0 < v i)
    (hlc : ∀ i, l i ≤ c i) (hch : ∀ i, c i ≤ h i) :
    Def (chaikinMoneyFlow (ser n h) (ser n l) (ser n c) (ser n v) w fillna) n (if fillna then 0 else w - 1)
      (fun i => (∑ j ∈ Finset.Ico (i + 1 - w) (i + 1),
          (if h j = l j then 0 else ((c j - l j) - (h j - c j)) / (h j - l j)) * v j) /
        ∑ j ∈ Finset.Ico (i + 1 - w) (i + 1), v j) := by
  have hclv : Def (clv (ser n h) (ser n l) (ser n c)) n 0
      (fun j => if h j = l j then 0 else ((c j - l j) - (h j - c j)) / (h j - l j)) := by
    refine ⟨by simp [clv, fillConst, ser], fun i _ h2 => by omega, fun i hi _ => ?_⟩
    have e : ∀ x : Nat → K, ix (ser n x) i = .fin (x i) := fun x => (def_ser n x).val i hi (Nat.zero_le _)
    unfold clv fillConst
    rw [ix_map (by simpa [ser] using hi), ix_sdiv (by simpa [ser] using hi), ix_ssub (by simpa [ser] using hi),
      ix_ssub (by simpa [ser] using hi), ix_ssub (by simpa [ser] using hi), ix_ssub (by simpa [ser] using hi), e, e, e]
    simp only [fin_sub]
    by_cases hr : h i = l i
    · have e1 : c i - l i = 0 := by linarith [hlc i, hch i]
      have e2 : h i - c i = 0 := by linarith [hlc i, hch i]
      have e3 : h i - l i = 0 := by linarith
      rw [if_pos hr, e1, e2, e3, sub_zero, fin_div_zero]; simp
    · rw [if_neg hr, fin_div _ _ (sub_ne_zero.mpr hr)]; simp
  have hs : ∀ i, ∑ j ∈ Finset.Ico (i + 1 - w) (i + 1), v j ≠ 0 := fun i =>
    (Finset.sum_pos (fun j _ => hv j) ⟨i, Finset.mem_Ico.mpr ⟨by omega, by omega⟩⟩).ne'
  have hrun : Def (CMF.run (ser n h) (ser n l) (ser n c) (ser n v) w fillna) n (if fillna then 0 else w - 1)
      (fun i => (∑ j ∈ Finset.Ico (i + 1 - w) (i + 1),
          (if h j = l j then 0 else ((c j - l j) - (h j - c j)) / (h j - l j)) * v j) /
        ∑ j ∈ Finset.Ico (i + 1 - w) (i + 1), v j) := by
    have hm := hclv.smul (def_ser n v)
    simp only [Nat.max_self] at hm
    unfold CMF.run minp
    cases fillna with
    | true =>
      have := hm.rollSum0 (w := w) |>.sdiv ((def_ser n v).rollSum0 (w := w)) (fun i _ _ _ => hs i)
      simpa [wsum] using this
    | false =>
      have := (hm.rollSum (w := w) (.inl hw)).sdiv ((def_ser n v).rollSum (w := w) (.inl hw)) (fun i _ _ _ => hs i)
      simpa [wsum] using this
  unfold chaikinMoneyFlow
  cases fillna with
  | false => exact hrun
  | true =>
    refine ⟨by simpa using hrun.len, fun i _ h2 => by simp at h2, fun i hi h2 => ?_⟩
    have hval := hrun.val i hi h2
    rw [checkFillna_keep (by rw [hrun.len]; exact hi) (num_iff.mpr ⟨_, hval⟩)]
    exact hval

/-- C39: on gap-free data with positive volumes, VWAP is the volume weighted mean of the typical prices of the window, from
row `w - 1` on (from row 0, over the rows so far, with `fillna=True`). -/
theorem vwap_formula (n : Nat) (h l c v : Nat → K) (w : Nat) (fillna : Bool) (hw : 1 ≤ w) (hv : ∀ i, 0 < v i) :
    Def (volumeWeightedAveragePrice (ser n h) (ser n l) (ser n c) (ser n v) w fillna) n (if fillna then 0 else w - 1)
      (fun i => (∑ j ∈ Finset.Ico (i + 1 - w) (i + 1), (h j + l j + c j) / 3 * v j) /
        ∑ j ∈ Finset.Ico (i + 1 - w) (i + 1), v j) := by
  have htp : Def (typicalPrice (ser n h) (ser n l) (ser n c)) n 0 (fun i => (h i + l i + c i) / 3) := by
    have := (((def_ser n h).sadd (def_ser n l)).sadd (def_ser n c)).divc (c := (3 : K)) (by norm_num)
    unfold typicalPrice
    rw [lit_fin]
    push_cast
    simpa using this
  have hs : ∀ i, ∑ j ∈ Finset.Ico (i + 1 - w) (i + 1), v j ≠ 0 := fun i =>
    (Finset.sum_pos (fun j _ => hv j) ⟨i, Finset.mem_Ico.mpr ⟨by omega, by omega⟩⟩).ne'
  have hrun : Def (VWAP.run (ser n h) (ser n l) (ser n c) (ser n v) w fillna) n (if fillna then 0 else w - 1)
      (fun i => (∑ j ∈ Finset.Ico (i + 1 - w) (i + 1), (h j + l j + c j) / 3 * v j) /
        ∑ j ∈ Finset.Ico (i + 1 - w) (i + 1), v j) := by
    have hm := htp.smul (def_ser n v)
    simp only [Nat.max_self] at hm
    unfold VWAP.run minp
    cases fillna with
    | true =>
      have := hm.rollSum0 (w := w) |>.sdiv ((def_ser n v).rollSum0 (w := w)) (fun i _ _ _ => hs i)
      simpa [wsum] using this
    | false =>
      have := (hm.rollSum (w := w) (.inl hw)).sdiv ((def_ser n v).rollSum (w := w) (.inl hw)) (fun i _ _ _ => hs i)
      simpa [wsum] using this
  unfold volumeWeightedAveragePrice
  cases fillna with
  | false => exact hrun
  | true =>
    refine ⟨by simpa using hrun.len, fun i _ h2 => by simp at h2, fun i hi h2 => ?_⟩
    have hval := hrun.val i hi h2
    rw [checkFillna_keep (by rw [hrun.len]; exact hi) (num_iff.mpr ⟨_, hval⟩)]
    exact hval

example : volumeWeightedAveragePrice (qs [11, 13, 12]) (qs [9, 10, 8]) (qs [10, 13, 10]) (qs [5, 1, 2]) 2
    = [.nan, .fin (31/3), .fin (32/3)] := by decide +kernel
example : chaikinMoneyFlow (qs [11, 13, 12]) (qs [9, 10, 8]) (qs [10, 13, 9]) (qs [5, 1, 2]) 2
    = [.nan, .fin (1/6), .fin 0] := by decide +kernel
/-- without `low <= close <= high` the CMF can leave [-1, 1] -/
example : chaikinMoneyFlow (qs [11]) (qs [9]) (qs [15]) (qs [5]) 1 = [.fin 5] := by decide +kernel

end TA
