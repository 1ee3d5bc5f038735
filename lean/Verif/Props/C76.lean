import Verif.Props.C13
import Verif.Props.C17
import Verif.Props.C34
import Verif.Lemmas.Fam
import Verif.Props.C23

/-!
# C76: averages and totals of data with missing rows

C13, C14, C17, C34 and C35 for series in which some rows are not numbers.
-/

set_option linter.unusedSectionVars false

namespace TA
open Finset
variable {K : Type} [Field K] [LinearOrder K] [IsStrictOrderedRing K]

/-- the number in a row, 0 if there is none -/
def Val.or0 : Val K → K
  | .fin x => x
  | _ => 0

/-- is it a number? -/
def Val.isFin : Val K → Bool
  | .fin _ => true
  | _ => false

theorem Val.isFin_iff {v : Val K} : v.isFin = true ↔ v.IsFin := by
  cases v <;> simp [Val.isFin, Val.IsFin]

/-- how many of the rows `a, …, b - 1` hold a number -/
def count (s : Series (Val K)) (a b : Nat) : Nat := ∑ j ∈ Ico a b, if (ix s j).isFin then 1 else 0

/-! ## Simple moving average -/

theorem nums_sum (l : List (Val K)) : (nums l).sum = (l.map Val.or0).sum := by
  induction l with
  | nil => rfl
  | cons v l ih =>
    cases v with
    | fin x =>
      show (x :: nums l).sum = _
      simp [ih, Val.or0]
    | _ =>
      show (nums l).sum = _
      simp [ih, Val.or0]

theorem nums_length (l : List (Val K)) : (nums l).length = (l.map fun v => if v.isFin then 1 else 0).sum := by
  induction l with
  | nil => rfl
  | cons v l ih =>
    cases v with
    | fin x =>
      show (x :: nums l).length = _
      simp [ih, Val.isFin, Nat.add_comm]
    | _ =>
      show (nums l).length = _
      simp [ih, Val.isFin]

theorem obs_sum (s : Series (Val K)) (w i : Nat) : (obs s w i).sum = ∑ j ∈ Ico (i + 1 - w) (i + 1), (ix s j).or0 := by
  unfold obs
  rw [nums_sum, List.map_map]
  exact sum_winIx _ _ _

theorem obs_count (s : Series (Val K)) (w i : Nat) : (obs s w i).length = count s (i + 1 - w) (i + 1) := by
  unfold obs count
  rw [nums_length, List.map_map]
  rfl

/-- C76: SMA with `fillna=True` on any data: the mean of the numbers among the last `w` rows, NaN if there is none. (With `fillna=False` one missing
row is enough for NaN: `sma_defined_iff`.) -/
theorem sma_gaps (s : Series (Val K)) (w i : Nat) (hi : i < s.length) :
    ix (smaIndicator s w true) i = if count s (i + 1 - w) (i + 1) = 0 then .nan
      else .fin ((∑ j ∈ Ico (i + 1 - w) (i + 1), (ix s j).or0) / count s (i + 1 - w) (i + 1)) := by
  have e : ix (smaIndicator s w true) i = _ := ix_rollMean (w := w) (mp := 0) hi
  rw [e, obs_sum, obs_count]
  by_cases h : count s (i + 1 - w) (i + 1) = 0
  · rw [if_pos h, if_neg (by omega)]
  · rw [if_neg h, if_pos (by omega)]

/-! ## Exponential moving average -/

theorem count_succ (s : Series (Val K)) (k : Nat) : count s 0 (k + 1) = count s 0 k + if (ix s k).isFin then 1 else 0 := by
  unfold count
  exact Finset.sum_Ico_succ_top (Nat.zero_le _) _

theorem clean_isFin {v : Val K} (h : v.isFin = false) : clean v = .nan := by
  cases v <;> simp_all [Val.isFin]

/-- the average held after `k` rows -/
def avgAt (a : K) (s : Series (Val K)) (k : Nat) : K := (ewmAt (.fin a) s k).avg.or0

/-- what the smoothing knows after `k` rows: nothing, or the average as of the last number `j`, its weight decayed by the rows since -/
theorem ewmAt_gaps {a : K} (ha : 0 < a) (ha1 : a ≤ 1) (s : Series (Val K)) (k : Nat) :
    (ewmAt (.fin a) s k).nobs = count s 0 k ∧
    ((count s 0 k = 0 ∧ (∀ j, j < k → (ix s j).isFin = false) ∧ ewmAt (.fin a) s k = ewmInit) ∨
      (0 < count s 0 k ∧ ∃ j, j < k ∧ (ix s j).isFin = true ∧ (∀ m, j < m → m < k → (ix s m).isFin = false) ∧
        (ewmAt (.fin a) s k).avg = .fin (avgAt a s (j + 1)) ∧ (ewmAt (.fin a) s k).oldWt = .fin ((1 - a) ^ (k - 1 - j)))) := by
  induction k with
  | zero => exact ⟨rfl, .inl ⟨rfl, fun j hj => by omega, rfl⟩⟩
  | succ k ih =>
    obtain ⟨h1, h2⟩ := ih
    have hs : ewmAt (.fin a) s (k + 1) = ewmStep (.fin a) (ewmAt (.fin a) s k) (clean (ix s k)) := rfl
    rw [count_succ]
    by_cases hf : (ix s k).isFin = true
    · obtain ⟨x, hx⟩ := Val.isFin_iff.1 hf
      rw [if_pos hf]
      have key : ∀ y o, ewmAt (.fin a) s (k + 1) = ⟨.fin y, .fin o, count s 0 k + 1⟩ → o = 1 →
          (ewmAt (.fin a) s (k + 1)).nobs = count s 0 k + 1 ∧ ((count s 0 k + 1 = 0 ∧ (∀ j, j < k + 1 → (ix s j).isFin = false) ∧ ewmAt (.fin a) s (k + 1) = ewmInit) ∨
          (0 < count s 0 k + 1 ∧ ∃ j, j < k + 1 ∧ (ix s j).isFin = true ∧ (∀ m, j < m → m < k + 1 → (ix s m).isFin = false) ∧
            (ewmAt (.fin a) s (k + 1)).avg = .fin (avgAt a s (j + 1)) ∧
            (ewmAt (.fin a) s (k + 1)).oldWt = .fin ((1 - a) ^ (k + 1 - 1 - j)))) := by
        intro y o e ho
        refine ⟨by rw [e], .inr ⟨by omega, k, by omega, hf, fun m h3 h4 => by omega, ?_, ?_⟩⟩
        · unfold avgAt; rw [e]; rfl
        · rw [e, ho]; simp
      rcases h2 with ⟨h3, _, h4⟩ | ⟨_, j, _, _, _, h5, h6⟩
      · refine key x 1 ?_ rfl
        rw [hs, h4, hx, clean_fin, h3]
        show ewmStep (Val.fin a) ⟨Val.nan, lit 1, 0⟩ (Val.fin x) = _
        rw [ewmStep_nan_fin, lit_fin]
        norm_num
      · refine key (((1 - a) ^ (k - 1 - j) * (1 - a) * avgAt a s (j + 1) + a * x) / ((1 - a) ^ (k - 1 - j) * (1 - a) + a)) 1 ?_ rfl
        rw [hs, hx, clean_fin]
        generalize ewmAt (.fin a) s k = S at *
        obtain ⟨A, O, N⟩ := S
        simp only at h1 h5 h6
        subst h1 h5 h6
        exact ewmStep_fin_fin _ _ _ _ _ (weight_pos ha ha1 (pow_nonneg (by linarith) _)).ne'
    · rw [Bool.not_eq_true] at hf
      rw [if_neg (by rw [hf]; simp), Nat.add_zero]
      have hc := clean_isFin hf
      rcases h2 with ⟨h3, h4, h5⟩ | ⟨h3, j, h4, h5, h6, h7, h8⟩
      · have e : ewmAt (.fin a) s (k + 1) = ewmInit := by rw [hs, hc, h5]; rfl
        refine ⟨by rw [e, h3]; rfl, .inl ⟨h3, fun j hj => ?_, e⟩⟩
        rcases Nat.lt_succ_iff_lt_or_eq.1 hj with hj | hj
        · exact h4 j hj
        · rw [hj]; exact hf
      · have e : ewmAt (.fin a) s (k + 1) = ⟨.fin (avgAt a s (j + 1)), .fin ((1 - a) ^ (k - 1 - j) * (1 - a)), count s 0 k⟩ := by
          rw [hs, hc]
          generalize ewmAt (.fin a) s k = S at *
          obtain ⟨A, O, N⟩ := S
          simp only at h1 h7 h8
          subst h1 h7 h8
          exact ewmStep_fin_nan _ _ _ _
        refine ⟨by rw [e]; rfl, .inr ⟨h3, j, by omega, h5, fun m h9 h10 => ?_, by rw [e], ?_⟩⟩
        · rcases Nat.lt_succ_iff_lt_or_eq.1 h10 with h | h
          · exact h6 m h9 h
          · rw [h]; exact hf
        · rw [e, ← pow_succ, show k - 1 - j + 1 = k + 1 - 1 - j by omega]

/-- C76: EMA on any data. The first number starts it. Where row `i` holds a number and the last one before it was in row `j`, the old average counts with
weight `(1-a)^(i-j)` against `a`: every row in between, though missing, ages it. Rows without a number repeat the average. The row is shown once
`w` numbers (one, if filling) have been seen. -/
theorem ema_gaps (s : Series (Val K)) {w : Nat} (hw : 1 ≤ w) (fillna : Bool) :
    ∃ (y : Nat → K) (out : Series (Val K)), emaIndicator s w fillna = .ok out ∧ out.length = s.length ∧
      (∀ i x, ix s i = .fin x → (∀ j, j < i → ¬ (ix s j).IsFin) → y i = x) ∧
      (∀ j i x, j < i → (ix s j).IsFin → (∀ m, j < m → m < i → ¬ (ix s m).IsFin) → ix s i = .fin x →
        y i = ((1 - 2 / ((w : K) + 1)) ^ (i - j) * y j + 2 / ((w : K) + 1) * x) / ((1 - 2 / ((w : K) + 1)) ^ (i - j) + 2 / ((w : K) + 1))) ∧
      (∀ i, ¬ (ix s (i + 1)).IsFin → y (i + 1) = y i) ∧
      ∀ i, i < s.length → ix out i = if (if fillna then 1 else w) ≤ count s 0 (i + 1) then .fin (y i) else .nan := by
  have ha := span_pos (K := K) w
  have ha1 := span_le (K := K) w hw
  generalize hae : 2 / ((w : K) + 1) = a at *
  have hstep : ∀ i, ewmAt (.fin a) s (i + 1) = ewmStep (.fin a) (ewmAt (.fin a) s i) (clean (ix s i)) := fun _ => rfl
  have hno : ∀ {v : Val K}, ¬ v.IsFin → v.isFin = false := fun h => by
    rw [← Bool.not_eq_true, Val.isFin_iff]; exact h
  refine ⟨fun i => avgAt a s (i + 1), ema s w fillna, by rw [emaIndicator, chkSpan, if_neg (by omega)]; rfl, by simp [ema], fun i x hx h0 => ?_,
    fun j i x hji hj hm hx => ?_, fun i hi => ?_, fun i hi => ?_⟩
  · rcases (ewmAt_gaps ha ha1 s i).2 with ⟨_, _, e⟩ | ⟨_, j, h1, h2, _⟩
    · show avgAt a s (i + 1) = x
      unfold avgAt
      rw [hstep, e, hx]; rfl
    · exact absurd (Val.isFin_iff.1 h2) (h0 j h1)
  · rcases (ewmAt_gaps ha ha1 s i).2 with ⟨_, h1, _⟩ | ⟨_, j', h1, h2, h3, h4, h5⟩
    · have := h1 j hji
      rw [Val.isFin_iff.2 hj] at this
      simp at this
    · have : j' = j := by
        rcases Nat.lt_trichotomy j' j with h | h | h
        · have := h3 j h hji; rw [Val.isFin_iff.2 hj] at this; simp at this
        · exact h
        · exact absurd (Val.isFin_iff.1 h2) (hm j' h h1)
      subst this
      have e : (ewmAt (.fin a) s (i + 1)).avg = .fin (((1 - a) ^ (i - 1 - j') * (1 - a) * avgAt a s (j' + 1) + a * x) / ((1 - a) ^ (i - 1 - j') * (1 - a) + a)) := by
        rw [hstep, hx, clean_fin]
        generalize ewmAt (.fin a) s i = S at *
        obtain ⟨A, O, N⟩ := S
        simp only at h4 h5
        subst h4 h5
        rw [ewmStep_fin_fin _ _ _ _ _ (weight_pos ha ha1 (pow_nonneg (by linarith) _)).ne']
      show avgAt a s (i + 1) = _
      rw [avgAt, e, ← pow_succ, show i - 1 - j' + 1 = i - j' by omega]
      rfl
  · show avgAt a s (i + 1 + 1) = avgAt a s (i + 1)
    have hc := clean_isFin (hno hi)
    rcases (ewmAt_gaps ha ha1 s (i + 1)).2 with ⟨_, _, e⟩ | ⟨_, j, _, _, _, h4, h5⟩
    · unfold avgAt
      rw [hstep (i + 1), hc, e]; rfl
    · unfold avgAt at h4 ⊢
      rw [hstep (i + 1), hc]
      generalize ewmAt (.fin a) s (i + 1) = S at *
      obtain ⟨A, O, N⟩ := S
      simp only at h4 h5
      subst h4 h5
      rw [ewmStep_fin_nan]
  · unfold ema
    rw [alphaOfSpan_fin, hae, ix_ewm' hi, ewmOut]
    obtain ⟨h1, h2⟩ := ewmAt_gaps ha ha1 s (i + 1)
    rw [h1]
    have e : max (minp fillna w) 1 = if fillna then 1 else w := by unfold minp; cases fillna <;> simp <;> omega
    rw [e]
    by_cases h : (if fillna then 1 else w) ≤ count s 0 (i + 1)
    · rw [if_pos h, if_pos h]
      rcases h2 with ⟨h3, _⟩ | ⟨_, j, _, _, _, h4, _⟩
      · cases fillna <;> simp at h <;> omega
      · show _ = Val.fin (avgAt a s (i + 1))
        rw [show avgAt a s (i + 1) = avgAt a s (j + 1) by rw [avgAt, h4]; rfl]
        exact h4
    · rw [if_neg h, if_neg h]; rfl

/-! ## RSI -/

/-- rows are numbers or missing -/
def NoInfRow (s : Series (Val K)) : Prop := ∀ i, ix s i = .nan ∨ (ix s i).IsFin

/-- change of row `i` where it and the row before hold numbers, 0 elsewhere -/
def change (s : Series (Val K)) (i : Nat) : K :=
  if i ≠ 0 ∧ (ix s (i - 1)).isFin ∧ (ix s i).isFin then (ix s i).or0 - (ix s (i - 1)).or0 else 0

theorem sdiff_gaps {s : Series (Val K)} (hs : NoInfRow s) {i : Nat} (hi : i < s.length) :
    (ix (sdiff s) i = .nan ∧ change s i = 0) ∨ ix (sdiff s) i = .fin (change s i) := by
  unfold sdiff change
  rw [ix_ssub hi, ix_prev hi]
  by_cases h0 : i = 0
  · left; simp [h0]
  · rw [if_neg h0]
    rcases hs i with e | ⟨x, e⟩
    · left; simp [e, Val.isFin]
    · rcases hs (i - 1) with e' | ⟨y, e'⟩
      · left; simp [e', Val.isFin]
      · right; simp [e, e', Val.isFin, h0, Val.or0]

/-- C76: the RSI of closes with missing rows (no infinities) is Wilder's, from row `w - 1` on, with the moves into and out of a missing row
counted as no move: what the price did across the gap is lost. -/
theorem rsi_gaps {s : Series (Val K)} (hs : NoInfRow s) {w : Nat} (hw : 1 ≤ w) (fillna : Bool) :
    ∃ U D : Nat → K, U 0 = 0 ∧ D 0 = 0 ∧
      (∀ i, U (i + 1) = (1 - 1 / (w : K)) * U i + 1 / (w : K) * max (change s (i + 1)) 0) ∧
      (∀ i, D (i + 1) = (1 - 1 / (w : K)) * D i + 1 / (w : K) * max (-change s (i + 1)) 0) ∧
      ∃ out, rsi s w fillna = .ok out ∧ Def out s.length (if fillna then 0 else w - 1)
        (fun i => if D i = 0 then 100 else 100 * U i / (U i + D i)) := by
  have hu : Def (RSI.up s) s.length 0 (fun i => max (change s i) 0) := by
    refine ⟨by simp [RSI.up, sdiff], fun i _ h2 => by omega, fun i h1 _ => ?_⟩
    unfold RSI.up
    rw [ix_map (by simpa [sdiff] using h1)]
    rcases sdiff_gaps hs h1 with ⟨e, e'⟩ | e
    · rw [e, e']; simp
    · rw [e]
      simp only [lit_fin, Rat.cast_zero, fin_lt, decide_eq_true_eq]
      split_ifs with h3
      · rw [max_eq_left h3.le]
      · rw [max_eq_right (by linarith)]
  have hd : Def (RSI.down s) s.length 0 (fun i => max (-change s i) 0) := by
    refine ⟨by simp [RSI.down, sdiff], fun i _ h2 => by omega, fun i h1 _ => ?_⟩
    unfold RSI.down
    rw [ix_map (by simpa [sdiff] using h1)]
    rcases sdiff_gaps hs h1 with ⟨e, e'⟩ | e
    · rw [e, e']; simp
    · rw [e]
      simp only [lit_fin, Rat.cast_zero, fin_lt, decide_eq_true_eq]
      split_ifs with h3
      · rw [max_eq_left (by linarith)]; simp
      · rw [max_eq_right (by linarith)]; simp
  obtain ⟨out, ho, h⟩ := rsi_of_changes hu hd (fun i => le_max_right _ _) (fun i => le_max_right _ _) w hw fillna
  have c0 : change s 0 = 0 := by simp [change]
  exact ⟨_, _, by simp [emaRec, c0], by simp [emaRec, c0], fun i => rfl, fun i => rfl, out, ho, h⟩

/-! ## Running totals -/

theorem cumsum_gaps {s : Series (Val K)} (hs : NoInfRow s) {i : Nat} (hi : i < s.length) :
    ix (cumsum s) i = if (ix s i).isFin then .fin (∑ j ∈ range (i + 1), (ix s j).or0) else .nan := by
  unfold cumsum
  rw [ix_pre hi]
  have e : (s.take (i + 1)).length - 1 = i := by rw [List.length_take]; omega
  have e2 : ix (s.take (i + 1)) i = ix s i := by
    unfold ix
    simp [List.getD_eq_getElem?_getD]
  rw [e, e2]
  rcases hs i with h | ⟨x, h⟩
  · rw [h]; rfl
  · have hc : (s.take (i + 1)).map clean = s.take (i + 1) := by
      rw [take_eq_map (by omega), List.map_map]
      refine List.map_congr_left fun j _ => ?_
      rcases hs j with h | ⟨x, h⟩ <;> simp [h]
    rw [← hc, valid_clean, sumL_fin, nums_sum, take_eq_map (by omega), List.map_map, h]
    simp only [isNaN_fin, Val.isFin, Bool.false_eq_true, if_false, if_true]
    congr 1

/-- C76: OBV with missing rows. A row shows a number exactly if it has a volume; then it is the sum of the volumes so far, negative where the close fell
from the row before (a move from or to a missing close counts as a rise). -/
theorem obv_gaps {c v : Series (Val K)} (hv : NoInfRow v) (hl : c.length = v.length) {i : Nat} (hi : i < c.length) :
    ix (onBalanceVolume c v) i = if (ix v i).isFin then
      .fin (∑ j ∈ range (i + 1), if (ix c j <. if j = 0 then .nan else ix c (j - 1)) then -(ix v j).or0 else (ix v j).or0) else .nan := by
  have hrow : ∀ j, j < c.length → ix (OBV.signed c v) j =
      if (ix c j <. if j = 0 then .nan else ix c (j - 1)) then Flt.neg (ix v j) else ix v j := by
    intro j hj
    unfold OBV.signed
    rw [ix_zip3 hj, ix_prev hj]
  have hlen : (OBV.signed c v).length = c.length := by simp [OBV.signed]
  have hs : NoInfRow (OBV.signed c v) := by
    intro j
    by_cases hj : j < c.length
    · rw [hrow j hj]
      rcases hv j with e | ⟨x, e⟩
      · left; rw [e]; simp
      · right; rw [e]; split_ifs <;> exact ⟨_, rfl⟩
    · left; exact ix_ge (by omega)
  have hor : ∀ j, j < c.length → (ix (OBV.signed c v) j).or0 =
      if (ix c j <. if j = 0 then .nan else ix c (j - 1)) then -(ix v j).or0 else (ix v j).or0 := by
    intro j hj
    rw [hrow j hj]
    rcases hv j with e | ⟨x, e⟩ <;> rw [e] <;> split_ifs <;> simp [Val.or0]
  show ix (cumsum (OBV.signed c v)) i = _
  rw [cumsum_gaps hs (by omega), Finset.sum_congr rfl fun j hj => hor j (by rw [Finset.mem_range] at hj; omega), hrow i hi]
  rcases hv i with e | ⟨x, e⟩ <;> rw [e] <;> split_ifs <;> simp_all [Val.isFin]

/-- place of the close between low and high, 0 if the bar is missing or without range -/
def place0 (h l c : Series (Val K)) (j : Nat) : K :=
  if (ix h j).or0 = (ix l j).or0 then 0
  else (((ix c j).or0 - (ix l j).or0) - ((ix h j).or0 - (ix c j).or0)) / ((ix h j).or0 - (ix l j).or0)

theorem clv_gaps {h l c : Series (Val K)} (g : GoodBars h l c) {j : Nat} (hj : j < h.length) : ix (clv h l c) j = .fin (place0 h l c j) := by
  unfold clv fillConst place0
  have hc : j < c.length := by rw [g.lenC]; exact hj
  rw [ix_map (by simpa using hc), ix_sdiv (by simpa using hc), ix_ssub (by simpa using hc), ix_ssub hc, ix_ssub hj, ix_ssub hj]
  rcases g.row j hj with ⟨e1, e2, e3⟩ | ⟨x, y, z, e1, e2, e3, h1, h2⟩
  · simp [e1, e2, e3, Val.or0]
  · rw [e1, e2, e3]
    simp only [fin_sub, Val.or0]
    by_cases h0 : x = y
    · subst h0
      have : z = x := le_antisymm h2 h1
      subst this
      simp [fin_div_zero]
    · rw [fin_div _ _ (sub_ne_zero.2 h0), isNaN_fin, if_neg (by simp)]
      exact congrArg Val.fin (if_neg h0).symm

/-- C76: ADI with missing bars and volumes: a row shows a number exactly if it has a volume; missing bars contribute 0. -/
theorem adi_gaps {h l c v : Series (Val K)} (g : GoodBars h l c) (hv : NoInfRow v) (hl : h.length = v.length) {i : Nat} (hi : i < h.length) :
    ix (accDistIndex h l c v) i = if (ix v i).isFin then .fin (∑ j ∈ range (i + 1), place0 h l c j * (ix v j).or0) else .nan := by
  have hlen : (clv h l c).length = h.length := by simp [clv, fillConst, g.lenC]
  have hrow : ∀ j, j < h.length → ix (smul (clv h l c) v) j = if (ix v j).isFin then .fin (place0 h l c j * (ix v j).or0) else .nan := by
    intro j hj
    rw [ix_smul (by omega), clv_gaps g hj]
    rcases hv j with e | ⟨x, e⟩ <;> rw [e] <;> simp [Val.isFin, Val.or0]
  have hs : NoInfRow (smul (clv h l c) v) := by
    intro j
    by_cases hj : j < h.length
    · rw [hrow j hj]
      split_ifs
      · right; exact ⟨_, rfl⟩
      · left; rfl
    · left; exact ix_ge (by simp [hlen]; omega)
  have hor : ∀ j, j < h.length → (ix (smul (clv h l c) v) j).or0 = place0 h l c j * (ix v j).or0 := by
    intro j hj
    rw [hrow j hj]
    rcases hv j with e | ⟨x, e⟩ <;> rw [e] <;> simp [Val.isFin, Val.or0]
  show ix (cumsum (smul (clv h l c) v)) i = _
  rw [cumsum_gaps hs (by simp [hlen]; omega), Finset.sum_congr rfl fun j hj => hor j (by rw [Finset.mem_range] at hj; omega), hrow i hi]
  rcases hv i with e | ⟨x, e⟩ <;> rw [e] <;> simp [Val.isFin]

section examples

/-- a missing row ages the average: 19/7 instead of the 7/3 without it -/
example : emaIndicator ([.fin 1, .nan, .fin 3] : Series (Val ℚ)) 2 = .ok [.nan, .nan, .fin (19/7)] ∧
    emaIndicator (qs [1, 3]) 2 = .ok [.nan, .fin (7/3)] := by decide +kernel

/-- … and is repeated meanwhile -/
example : emaIndicator ([.fin 1, .fin 4, .pinf, .fin 3] : Series (Val ℚ)) 2 true = .ok [.fin 1, .fin 3, .fin 3, .fin 3] := by decide +kernel

example : smaIndicator ([.fin 1, .nan, .nan, .fin 3, .fin 5] : Series (Val ℚ)) 2 true = [.fin 1, .fin 1, .nan, .fin 3, .fin 4] := by decide +kernel

/-- the fall from 9 to 1 over the missing row is not seen: the RSI stays at 100 -/
example : rsi ([.fin 8, .fin 9, .nan, .fin 1, .fin 2] : Series (Val ℚ)) 2 = .ok [.nan, .fin 100, .fin 100, .fin 100, .fin 100] := by decide +kernel

example : onBalanceVolume ([.fin 8, .fin 9, .nan, .fin 1, .fin 0] : Series (Val ℚ)) [.fin 1, .fin 2, .fin 4, .nan, .fin 8] =
    [.fin 1, .fin 3, .fin 7, .nan, .fin (-1)] := by decide +kernel

end examples

end TA
