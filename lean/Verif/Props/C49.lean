import Verif.Props.C42
import Verif.Props.C16

/-! # C49 mass index, C50 CCI, and the formulas of AO, DPO, TRIX, KAMA, StochRSI and STC -/

set_option linter.unusedSectionVars false

namespace TA
open Finset
variable {K : Type} [Field K] [LinearOrder K] [IsStrictOrderedRing K]

/-! ## C49 -/

theorem emaW_pos {w : Nat} (hw : 1 ≤ w) {f : Nat → K} {i : Nat} (h : ∀ j ≤ i, 0 < f j) : 0 < emaW w f i :=
  emaRec_pos_all (span_pos w) (span_le w hw) h

theorem emaRec_const (a c : K) (i : Nat) : emaRec a (fun _ => c) i = c := by
  induction i with
  | zero => rfl
  | succ i ih => simp only [emaRec]; rw [ih]; ring

/-- C49. For bars with `low < high`: with `E1` the smoothed range and `E2` the smoothed `E1` (started where `E1` starts),
the mass index is the sum of `E1 / E2` over the last `slow` rows on which the ratio is defined. -/
theorem mass_formula {n : Nat} {h l : Nat → K} (hlh : ∀ i, l i < h i) {fast slow : Nat} (hf : 1 ≤ fast) (hs : 1 ≤ slow)
    (fillna : Bool) :
    ∃ (p : Nat) (E1 E2 : Nat → K) (out : Series (Val K)), p = (if fillna then 0 else fast - 1) ∧
      (∀ i, E1 i = emaRec (2 / ((fast : K) + 1)) (fun j => h j - l j) i) ∧
      (∀ i, E2 i = emaRec (2 / ((fast : K) + 1)) (fun j => E1 (p + j)) (i - p)) ∧
      massIndex (ser n h) (ser n l) fast slow fillna = .ok out ∧
      Def out n (if fillna then 0 else 2 * fast + slow - 3) (fun i => ∑ j ∈ Ico (i + 1 - slow) (i + 1), E1 j / E2 j) := by
  have hE0 := (def_ser n h).ssub (def_ser n l)
  rw [max_self] at hE0
  have hE1 := hE0.ema0 hf fillna
  have hE2 := hE1.ema hf fillna
  have p1 : ∀ i, 0 < emaW fast (fun j => h j - l j) i := fun i => emaW_pos hf fun j _ => sub_pos.mpr (hlh j)
  refine ⟨_, _, _, checkFillna fillna (.const (lit 0)) (Mass.run (ser n h) (ser n l) fast slow fillna), rfl,
    fun i => rfl, fun i => rfl, ?_, ?_⟩
  · unfold massIndex chkSpan
    rw [if_neg (by omega)]; rfl
  · have hR := hE1.sdiv hE2 (fun i _ _ _ => (emaW_pos hf fun j _ => by simpa using p1 _).ne')
    unfold Mass.run
    dsimp only
    cases fillna with
    | true =>
      simp only [if_true] at hR
      exact (hR.rollSum0 (w := slow)).fill _ _
    | false =>
      simp only [Bool.false_eq_true, if_false] at hR ⊢
      have := hR.rollSum (w := slow) (.inl hs)
      have e : max (fast - 1) (fast - 1 + (fast - 1)) + slow - 1 = 2 * fast + slow - 3 := by omega
      rw [e] at this
      exact this

/-- C49. It is positive, and with a constant range it is the number of rows summed: `slow`. -/
theorem mass_pos_const {n : Nat} {h l : Nat → K} (hlh : ∀ i, l i < h i) {fast slow : Nat} (hf : 1 ≤ fast) (hs : 1 ≤ slow)
    {fillna : Bool} {out : Series (Val K)} (ho : massIndex (ser n h) (ser n l) fast slow fillna = .ok out) {i : Nat}
    (hi : i < n) (hp : fillna = true ∨ 2 * fast + slow - 3 ≤ i) :
    (∃ x, ix out i = .fin x ∧ 0 < x) ∧
    ((∃ r, ∀ j, h j - l j = r) → ix out i = .fin (min slow (i + 1) : ℕ)) := by
  obtain ⟨p, E1, E2, out', _, h1, h2, h3, h4⟩ := mass_formula (n := n) hlh hf hs fillna
  rw [ho] at h3
  cases Except.ok.inj h3
  have hv := h4.val i hi (by rcases hp with rfl | hp; simp; split_ifs <;> omega)
  have p1 : ∀ i, 0 < E1 i := fun i => by rw [h1]; exact emaW_pos hf fun j _ => sub_pos.mpr (hlh j)
  have p2 : ∀ i, 0 < E2 i := fun i => by rw [h2]; exact emaW_pos hf fun j _ => p1 _
  refine ⟨⟨_, hv, Finset.sum_pos (fun j _ => div_pos (p1 j) (p2 j)) ⟨i, by simp; omega⟩⟩, ?_⟩
  rintro ⟨r, hr⟩
  have e1 : ∀ i, E1 i = r := fun i => by rw [h1]; simp only [hr]; exact emaRec_const _ _ _
  have e2 : ∀ i, E2 i = r := fun i => by rw [h2]; simp only [e1]; exact emaRec_const _ _ _
  have hr0 : r ≠ 0 := by rw [← e1 0]; exact (p1 0).ne'
  rw [hv]
  simp only [e1, e2, div_self hr0, Finset.sum_const, Nat.card_Ico, nsmul_eq_mul, mul_one]
  congr 2
  omega

example : massIndex (qs [4, 5, 6, 8]) (qs [2, 3, 4, 5]) 2 2 = .ok [.nan, .nan, .nan, .fin (23 / 11)] := by decide +kernel
example : massIndex (qs [4, 5, 6, 7]) (qs [2, 3, 4, 5]) 2 2 = .ok [.nan, .nan, .nan, .fin 2] := by decide +kernel

/-! ## C50 -/

theorem Def.rollApplyP {s : Series (Val K)} {n : Nat} {f : Nat → K} (h : Def s n 0 f) {w mp : Nat}
    (hm : mp ≤ w) {g : List (Val K) → Val K} {e : Nat → K}
    (hg : ∀ i, i < n → g (((winIx w i).map f).map Val.fin) = .fin (e i)) :
    Def (TA.rollApply g w mp s) n (mp - 1) e := by
  refine ⟨by simp [h.len], fun i h1 h2 => ?_, fun i h1 h2 => ?_⟩
  · rw [ix_rollApply (by rw [h.len]; exact h1), h.obs_eq h1, List.length_map, length_winIx, if_neg (by omega)]
  · rw [ix_rollApply (by rw [h.len]; exact h1), h.obs_eq h1, List.length_map, length_winIx, if_pos (by omega),
      ← hg i h1, List.map_map]
    congr 1
    apply List.map_congr_left
    intro j hj
    rw [mem_winIx] at hj
    rw [h.val j (by omega) (by omega)]; rfl

theorem npMean_fin (l : List K) (hl : l ≠ []) : npMean (l.map Val.fin) = .fin (l.sum / l.length) := by
  unfold npMean
  have h0 : (l.length : K) ≠ 0 := by
    have : 0 < l.length := List.length_pos_of_ne_nil hl
    exact_mod_cast this.ne'
  rw [sumL_fin, List.length_map, natF_fin, fin_div _ _ h0]

/-- mean absolute deviation from the mean, over the last `w` rows -/
def wmad (f : Nat → K) (w i : Nat) : K := wmean (fun j => |f j - wmean f w i|) w i

theorem winIx_ne_nil {w : Nat} (hw : 1 ≤ w) (i : Nat) : winIx w i ≠ [] := by
  intro h
  have := length_winIx w i
  rw [h] at this
  simp at this; omega

theorem mad_fin {w : Nat} (hw : 1 ≤ w) (f : Nat → K) (i : Nat) :
    CCI.mad (((winIx w i).map f).map Val.fin) = .fin (wmad f w i) := by
  have hne : (winIx w i).map f ≠ [] := by simpa using winIx_ne_nil hw i
  unfold CCI.mad
  rw [npMean_fin _ hne]
  have e : (((winIx w i).map f).map Val.fin).map (fun v => Flt.abs (v -. Val.fin (((winIx w i).map f).sum / ((winIx w i).map f).length)))
      = ((winIx w i).map fun j => |f j - wmean f w i|).map Val.fin := by
    rw [List.map_map, List.map_map, List.map_map]
    apply List.map_congr_left
    intro j _
    simp only [Function.comp_apply, fin_sub, fin_abs]
    rw [List.length_map, length_winIx, sum_winIx]
    rfl
  rw [e, npMean_fin _ (by simpa using winIx_ne_nil hw i), List.length_map, length_winIx, sum_winIx]
  rfl

/-- C50. With `T` the typical price, `A` its mean and `M` its mean absolute deviation over the last `w` rows:
`(T - A) / (k * M)` where the deviation is not zero. Where it is zero there is no value (0/0). -/
theorem cci_formula (n : Nat) (h l c : Nat → K) {w : Nat} (hw : 1 ≤ w) {k : K} (hk : k ≠ 0) (fillna : Bool) :
    ∃ T A M : Nat → K, (∀ i, T i = (h i + l i + c i) / 3) ∧
      (∀ i, A i = (∑ j ∈ Ico (i + 1 - w) (i + 1), T j) / (min w (i + 1) : ℕ)) ∧
      (∀ i, M i = (∑ j ∈ Ico (i + 1 - w) (i + 1), |T j - A i|) / (min w (i + 1) : ℕ)) ∧
      (cci (ser n h) (ser n l) (ser n c) w (.fin k) fillna).length = n ∧
      (∀ i, i < n → (fillna = true ∨ w - 1 ≤ i) → M i ≠ 0 →
        ix (cci (ser n h) (ser n l) (ser n c) w (.fin k) fillna) i = .fin ((T i - A i) / (k * M i))) ∧
      ∀ i, i < n → fillna = false → (i < w - 1 ∨ M i = 0) → ix (cci (ser n h) (ser n l) (ser n c) w (.fin k) fillna) i = .nan := by
  refine ⟨fun i => (h i + l i + c i) / 3, wmean (fun i => (h i + l i + c i) / 3) w, wmad (fun i => (h i + l i + c i) / 3) w,
    fun i => rfl, fun i => rfl, fun i => rfl, by simp [cci, CCI.run, typicalPrice, ser], ?_⟩
  have hT := def_tp n h l c
  unfold cci CCI.run
  dsimp only
  generalize typicalPrice (ser n h) (ser n l) (ser n c) = tp at hT
  have hTe : ∀ i, (fun i => (h i + l i + c i) / 3) i = (h i + l i + c i) / 3 := fun i => rfl
  generalize (fun i => (h i + l i + c i) / 3) = T at hT hTe
  simp only [← hTe]
  have hA := hT.rollMeanP hw (minp_le fillna w)
  have hM := (hT.rollApplyP (minp_le fillna w) (fun i _ => mad_fin hw T i)).cmul k
  rw [minp_sub] at hA hM
  have key : ∀ i, i < n → ix (sdiv (ssub tp (rollMean w (minp fillna w) tp)) (cmul (.fin k) (rollApply CCI.mad w (minp fillna w) tp))) i
      = if i < (if fillna then 0 else w - 1) then .nan else (Val.fin (T i - wmean T w i) /. Val.fin (k * wmad T w i)) := by
    intro i hi
    rw [ix_sdiv (by simp [hT.len, hi]), ix_ssub (by simp [hT.len, hi])]
    by_cases hp : i < (if fillna then 0 else w - 1)
    · rw [if_pos hp, hA.gap i hi hp]; simp
    · rw [if_neg hp, hA.val i hi (not_lt.mp hp), hM.val i hi (not_lt.mp hp), hT.val i hi (Nat.zero_le _), fin_sub]
  refine ⟨fun i hi hp hm => ?_, fun i hi hf hp => ?_⟩
  · refine fill_keep (by simp [hT.len, hi]) ?_
    rw [key i hi, if_neg (by rcases hp with rfl | hp; simp; split_ifs <;> omega), fin_div _ _ (mul_ne_zero hk hm)]
  · subst hf
    show ix (sdiv _ _) i = _
    rw [key i hi]
    by_cases h1 : i < (if false = true then 0 else w - 1)
    · rw [if_pos h1]
    · rw [if_neg h1]
      rcases hp with hp | hm
      · simp at h1; omega
      · have hdev : T i - wmean T w i = 0 := by
          have h0 : (0 : K) < (min w (i + 1) : ℕ) := by exact_mod_cast (by omega : 0 < min w (i + 1))
          have hs : ∑ j ∈ Ico (i + 1 - w) (i + 1), |T j - wmean T w i| = 0 := by
            have : wmad T w i = (∑ j ∈ Ico (i + 1 - w) (i + 1), |T j - wmean T w i|) / (min w (i + 1) : ℕ) := rfl
            rw [hm, eq_comm, div_eq_zero_iff] at this
            exact this.resolve_right h0.ne'
          have := (Finset.sum_eq_zero_iff_of_nonneg fun j _ => abs_nonneg _).mp hs i (by simp; omega)
          exact abs_eq_zero.mp this
        rw [hdev, hm, mul_zero, fin_div_zero]; simp

example : cci (qs [3, 6, 12]) (qs [1, 2, 4]) (qs [2, 4, 8]) 2 = [.nan, .fin (200 / 3), .fin (200 / 3)] ∧
    cci (qs [3, 3]) (qs [1, 1]) (qs [2, 2]) 2 = [.nan, .nan] ∧ cci (qs [3, 3]) (qs [1, 1]) (qs [2, 2]) 2 (lit (3/200)) true = [.fin 0, .fin 0] := by
  decide +kernel

/-! ## AO, DPO, TRIX -/

/-- Awesome oscillator: difference of the `w1`- and `w2`-row means of the mid-price. -/
theorem ao_formula (n : Nat) (h l : Nat → K) {w1 w2 : Nat} (h1 : 1 ≤ w1) (h2 : 1 ≤ w2) (fillna : Bool) :
    Def (awesomeOscillator (ser n h) (ser n l) w1 w2 fillna) n (if fillna then 0 else max w1 w2 - 1) (fun i =>
      (∑ j ∈ Ico (i + 1 - w1) (i + 1), (h j + l j) / 2) / (min w1 (i + 1) : ℕ)
      - (∑ j ∈ Ico (i + 1 - w2) (i + 1), (h j + l j) / 2) / (min w2 (i + 1) : ℕ)) := by
  have hm0 := ((def_ser n h).sadd (def_ser n l)).cmul (1 / 2)
  rw [max_self] at hm0
  have hm : Def (cmul (lit (1 / 2)) (sadd (ser n h) (ser n l))) n 0 (fun j => (h j + l j) / 2) := by
    rw [lit_fin]; push_cast
    exact hm0.congr fun i _ _ => by ring
  have := (hm.rollMeanP h1 (minp_le fillna w1)).ssub (hm.rollMeanP h2 (minp_le fillna w2))
  rw [minp_sub, minp_sub, show max (if fillna then 0 else w1 - 1) (if fillna then 0 else w2 - 1)
      = if fillna then 0 else max w1 w2 - 1 by cases fillna <;> simp; omega] at this
  exact this.fillOr (by rintro rfl; rfl) _

example : awesomeOscillator (qs [2, 4, 9]) (qs [0, 2, 5]) 1 2 = [.nan, .fin 1, .fin 2] := by decide +kernel

/-- Detrended price: the close `w/2 + 1` rows before (the mean of all closes where there is none) minus the mean of the
last `w` closes. -/
theorem dpo_formula (n : Nat) (c : Nat → K) {w : Nat} (hw : 1 ≤ w) (fillna : Bool) :
    Def (dpo (ser n c) w fillna) n (if fillna then 0 else w - 1) (fun i =>
      (if i < w / 2 + 1 then (∑ j ∈ range n, c j) / n else c (i - (w / 2 + 1)))
      - (∑ j ∈ Ico (i + 1 - w) (i + 1), c j) / (min w (i + 1) : ℕ)) := by
  have := (def_prevOr n c (w / 2 + 1)).ssub ((def_ser n c).rollMeanP hw (minp_le fillna w))
  rw [minp_sub, Nat.zero_max] at this
  exact this.fillOr (by rintro rfl; rfl) _

example : dpo (qs [1, 2, 6]) 2 = [.nan, .fin (3 / 2), .fin (-3)] := by decide +kernel

/-- TRIX without filling: `E3` is the close smoothed three times, each smoothing starting where the previous one does;
the value is its relative change in percent. For `w ≥ 2` it starts at row `3 * w - 2`. -/
theorem trix_formula {n : Nat} {c : Nat → K} (hc : ∀ i, 0 < c i) {w : Nat} (hw : 2 ≤ w) :
    ∃ (E1 E2 E3 : Nat → K) (out : Series (Val K)),
      (∀ i, E1 i = emaRec (2 / ((w : K) + 1)) c i) ∧
      (∀ i, E2 i = emaRec (2 / ((w : K) + 1)) (fun j => E1 (w - 1 + j)) (i - (w - 1))) ∧
      (∀ i, E3 i = emaRec (2 / ((w : K) + 1)) (fun j => E2 (w - 1 + (w - 1) + j)) (i - (w - 1 + (w - 1)))) ∧
      trix (ser n c) w = .ok out ∧ Def out n (3 * w - 2) (fun i => 100 * (E3 i / E3 (i - 1) - 1)) := by
  have h1 := (def_ser n c).ema0 (by omega : 1 ≤ w) false
  have h2 := h1.ema (by omega : 1 ≤ w) false
  have h3 := h2.ema (by omega : 1 ≤ w) false
  have p1 : ∀ i, 0 < emaW w c i := fun i => emaW_pos (by omega) fun j _ => hc j
  have p2 : ∀ i, 0 < emaW w (fun j => emaW w c (w - 1 + j)) (i - (w - 1)) := fun i => emaW_pos (by omega) fun j _ => p1 _
  have p3 : ∀ i, 0 < emaW w (fun j => emaW w (fun j => emaW w c (w - 1 + j)) (w - 1 + (w - 1) + j - (w - 1)))
      (i - (w - 1 + (w - 1))) := fun i => emaW_pos (by omega) fun j _ => p2 _
  refine ⟨_, _, _, TRIX.run (ser n c) w false, fun i => rfl, fun i => rfl, fun i => rfl, ?_, ?_⟩
  · unfold trix chkSpan
    rw [if_neg (by omega)]; rfl
  · simp only [Bool.false_eq_true, if_false] at h3
    unfold TRIX.run
    dsimp only
    generalize ema (ema (ema (ser n c) w false) w false) w false = e3 at h3
    have p3' := p3
    unfold emaW at h3 p3'
    generalize hE : (fun i => emaRec (2 / ((w : K) + 1)) (fun j => emaRec (2 / ((w : K) + 1)) (fun j =>
      emaRec (2 / ((w : K) + 1)) c (w - 1 + j)) (w - 1 + (w - 1) + j - (w - 1))) (i - (w - 1 + (w - 1)))) = E3 at h3
    have hE' : ∀ i, emaRec (2 / ((w : K) + 1)) (fun j => emaRec (2 / ((w : K) + 1)) (fun j =>
      emaRec (2 / ((w : K) + 1)) c (w - 1 + j)) (w - 1 + (w - 1) + j - (w - 1))) (i - (w - 1 + (w - 1))) = E3 i :=
      fun i => by rw [← hE]
    simp only [hE'] at p3' ⊢
    refine ⟨by simp [h3.len], fun i h4 h5 => ?_, fun i h4 h5 => ?_⟩
    all_goals rw [ix_mulc (by simp [h3.len, h4]), ix_sdiv (by simp [h3.len, h4]), ix_ssub (by rw [h3.len]; exact h4),
      ix_shift (by rw [h3.len]; exact h4)]
    · by_cases h6 : i < w - 1 + (w - 1) + (w - 1)
      · rw [h3.gap i h4 h6]; simp
      · rw [if_neg (by omega), h3.gap (i - 1) (by omega) (by omega)]; simp
    · have h0 := (p3' (i - 1)).ne'
      rw [if_neg (by omega), h3.val i h4 (by omega), h3.val (i - 1) (by omega) (by omega), fin_sub, fin_div _ _ h0,
        lit_fin, fin_mul]
      congr 1
      push_cast
      field_simp

/-- TRIX with filling starts at row 0; there the previous value is the mean of all of `E3`. -/
theorem trix_fill_formula {n : Nat} {c : Nat → K} (hc : ∀ i, 0 < c i) {w : Nat} (hw : 1 ≤ w) :
    ∃ (E3 : Nat → K) (out : Series (Val K)),
      (∀ i, E3 i = emaRec (2 / ((w : K) + 1)) (emaRec (2 / ((w : K) + 1)) (emaRec (2 / ((w : K) + 1)) c)) i) ∧
      trix (ser n c) w true = .ok out ∧
      Def out n 0 (fun i => 100 * (E3 i / (if i = 0 then (∑ j ∈ range n, E3 j) / n else E3 (i - 1)) - 1)) := by
  have h3 := (((def_ser n c).ema0 hw true).ema0 hw true).ema0 hw true
  have p3 : ∀ i, 0 < emaW w (emaW w (emaW w c)) i :=
    fun i => emaW_pos hw fun j _ => emaW_pos hw fun j _ => emaW_pos hw fun j _ => hc j
  refine ⟨_, checkFillna true (.const (lit 0)) (TRIX.run (ser n c) w true), fun i => rfl, ?_, ?_⟩
  · unfold trix chkSpan
    rw [if_neg (by omega)]; rfl
  · refine Def.fill ?_ _ _
    unfold TRIX.run
    dsimp only
    simp only [if_true] at h3
    generalize ema (ema (ema (ser n c) w true) w true) w true = e3 at h3
    change Def _ n 0 (fun i => 100 * (emaW w (emaW w (emaW w c)) i / (if i = 0 then (∑ j ∈ range n, emaW w (emaW w (emaW w c)) j) / n
      else emaW w (emaW w (emaW w c)) (i - 1)) - 1))
    generalize emaW w (emaW w (emaW w c)) = E3 at h3 p3
    have e : e3 = ser n E3 := series_ext (by rw [h3.len, (def_ser n E3).len]) fun i hi => by
      have hi' : i < n := by rw [← h3.len]; exact hi
      rw [h3.val i hi' (Nat.zero_le _), (def_ser n E3).val i hi' (Nat.zero_le _)]
    subst e
    have hp := def_prevOr n E3 1
    have := ((h3.ssub hp).sdiv hp (fun i hi _ _ => (prevOr_pos p3 1 hi).ne')).mulc 100
    rw [lit_fin]
    push_cast
    refine this.congr fun i hi _ => ?_
    have h0 := (prevOr_pos p3 1 hi).ne'
    have e1 : prevOr n E3 1 i = if i = 0 then (∑ j ∈ range n, E3 j) / n else E3 (i - 1) := by
      unfold prevOr meanAll
      by_cases h : i = 0 <;> simp [h]
    rw [← e1]
    field_simp

example : trix (qs [1, 4, 10, 4, 7, 1]) 2 = .ok [.nan, .nan, .nan, .nan, .fin (6400 / 1389), .fin (-33600 / 1453)] := by decide +kernel

end TA
