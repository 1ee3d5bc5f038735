import Verif.Lemmas.Ewm
import Verif.Lemmas.Bound
import Verif.Props.C13
import Mathlib.Algebra.BigOperators.Pi

/-! # Families of series under a common relation

A family of series `S k` (`k : ι`) that have their gaps in the same rows, and in every other row hold numbers `x k` that
stand in a relation `R x`.  If `R` is closed under addition and under multiplication by numbers `≥ 0` (a cone), it passes
through every moving average; if it is closed under subtraction too (a subspace) it passes through every linear
operation.  Used for superposition (`x 2 = p x 0 + q x 1`) and monotonicity (`x 0 ≤ x 1`). -/

set_option linter.unusedSectionVars false

namespace TA
variable {K : Type} [Field K] [LinearOrder K] [IsStrictOrderedRing K] {ι : Type}

/-- closed under non-negative combinations -/
structure IsCone (R : (ι → K) → Prop) : Prop where
  zero : R 0
  add : ∀ x y, R x → R y → R (x + y)
  smul : ∀ (c : K) x, 0 ≤ c → R x → R (fun k => c * x k)

/-- closed under all linear combinations -/
structure IsSub (R : (ι → K) → Prop) : Prop extends IsCone R where
  neg : ∀ x, R x → R (fun k => - x k)

/-- all NaN, or numbers in relation -/
def FV (R : (ι → K) → Prop) (v : ι → Val K) : Prop := (∀ k, v k = .nan) ∨ ∃ x : ι → K, (∀ k, v k = .fin (x k)) ∧ R x

/-- row by row -/
structure FS (R : (ι → K) → Prop) (n : Nat) (S : ι → Series (Val K)) : Prop where
  len : ∀ k, (S k).length = n
  row : ∀ i, i < n → FV R fun k => ix (S k) i

variable {R : (ι → K) → Prop} {n : Nat} {S T : ι → Series (Val K)}

theorem FV.nan : FV R fun _ => (.nan : Val K) := .inl fun _ => rfl
theorem FV.fin {x : ι → K} (h : R x) : FV R fun k => .fin (x k) := .inr ⟨x, fun _ => rfl, h⟩

theorem FV.congr {v w : ι → Val K} (h : FV R v) (e : ∀ k, w k = v k) : FV R w := by
  have : w = v := funext e
  rw [this]; exact h

theorem FS.ixv (h : FS R n S) (i : Nat) : FV R fun k => ix (S k) i := by
  by_cases hi : i < n
  · exact h.row i hi
  · exact FV.nan.congr fun k => by rw [ix_ge (by rw [h.len]; omega)]; rfl

theorem FS.cs (h : FS R n S) (i : Nat) :
    (∀ k, ix (S k) i = .nan) ∨ ∃ x : ι → K, (∀ k, ix (S k) i = .fin (x k)) ∧ R x := h.ixv i

theorem FV.map {v : ι → Val K} (h : FV R v) (f : Val K → Val K) (hn : f .nan = .nan) (g : K → K)
    (hf : ∀ x, f (.fin x) = .fin (g x)) (hR : ∀ x, R x → R fun k => g (x k)) : FV R fun k => f (v k) := by
  rcases h with h | ⟨x, h, hx⟩
  · exact FV.nan.congr fun k => by rw [h, hn]
  · exact (FV.fin (hR x hx)).congr fun k => by rw [h, hf]

theorem FS.map (h : FS R n S) (f : Val K → Val K) (hn : f .nan = .nan) (g : K → K)
    (hf : ∀ x, f (.fin x) = .fin (g x)) (hR : ∀ x, R x → R fun k => g (x k)) : FS R n fun k => (S k).map f :=
  ⟨fun k => by rw [List.length_map, h.len], fun i hi =>
    ((h.row i hi).map f hn g hf hR).congr fun k => by
      rw [ix_lt (by rw [List.length_map, h.len]; exact hi), List.getElem_map, ← ix_lt (by rw [h.len]; exact hi)]⟩

theorem FS.zip2 (h : FS R n S) (h' : FS R n T) (f : Val K → Val K → Val K) (hn : ∀ v, f .nan v = .nan)
    (hn' : ∀ v, f v .nan = .nan) (g : K → K → K) (hf : ∀ x y, f (.fin x) (.fin y) = .fin (g x y))
    (hR : ∀ x y, R x → R y → R fun k => g (x k) (y k)) : FS R n fun k => zip2 f (S k) (T k) :=
  ⟨fun k => by unfold TA.zip2; rw [length_tab, h.len], fun i hi => by
    have e : ∀ k, ix (TA.zip2 f (S k) (T k)) i = f (ix (S k) i) (ix (T k) i) := fun k => by
      unfold TA.zip2; rw [ix_tab_lt (by rw [h.len]; exact hi)]
    rcases h.cs i with h1 | ⟨x, h1, hx⟩
    · exact FV.nan.congr fun k => by rw [e, h1, hn]
    · rcases h'.cs i with h2 | ⟨y, h2, hy⟩
      · exact FV.nan.congr fun k => by rw [e, h2, hn']
      · exact (FV.fin (hR x y hx hy)).congr fun k => by rw [e, h1, h2, hf]⟩

theorem FS.sadd (hR : IsCone R) (h : FS R n S) (h' : FS R n T) : FS R n fun k => sadd (S k) (T k) :=
  h.zip2 h' _ nan_add add_nan (· + ·) (fun _ _ => rfl) fun x y hx hy => hR.add x y hx hy

theorem IsSub.sub (hR : IsSub R) (x y : ι → K) (hx : R x) (hy : R y) : R fun k => x k - y k := by
  have := hR.add _ _ hx (hR.neg y hy)
  have e : (x + fun k => - y k) = fun k => x k - y k := by funext k; simp [sub_eq_add_neg]
  rwa [e] at this

theorem FS.ssub (hR : IsSub R) (h : FS R n S) (h' : FS R n T) : FS R n fun k => ssub (S k) (T k) :=
  h.zip2 h' _ nan_sub sub_nan (· - ·) (fun _ _ => fin_sub _ _) fun x y hx hy => hR.sub x y hx hy

theorem IsSub.smul' (hR : IsSub R) (c : K) (x : ι → K) (hx : R x) : R fun k => c * x k := by
  rcases le_total 0 c with h | h
  · exact hR.smul c x h hx
  · have := hR.smul (-c) _ (by linarith) (hR.neg x hx)
    simpa using this

theorem FS.cmulPos (hR : IsCone R) (h : FS R n S) {c : K} (hc : 0 ≤ c) : FS R n fun k => cmul (.fin c) (S k) :=
  h.map _ (mul_nan _) (c * ·) (fun _ => rfl) fun x hx => hR.smul c x hc hx

theorem FS.cmul (hR : IsSub R) (h : FS R n S) (c : K) : FS R n fun k => cmul (.fin c) (S k) :=
  h.map _ (mul_nan _) (c * ·) (fun _ => rfl) fun x hx => hR.smul' c x hx

theorem FS.divPos (hR : IsCone R) (h : FS R n S) {c : K} (hc : 0 < c) : FS R n fun k => divc (S k) (.fin c) :=
  h.map _ (nan_div _) (· / c) (fun x => fin_div x c hc.ne') fun x hx => by
    have := hR.smul c⁻¹ x (inv_nonneg.mpr hc.le) hx
    have e : (fun k => x k / c) = fun k => c⁻¹ * x k := by funext k; rw [div_eq_inv_mul]
    rw [e]; exact this

/-- multiplication, row by row, by a common series of numbers -/
theorem FS.smulCommon (hR : IsSub R) (h : FS R n S) (t : Series (Val K)) (ht : ∀ i, ix t i = .nan ∨ (ix t i).IsFin) :
    FS R n fun k => smul (S k) t :=
  ⟨fun k => by unfold TA.smul TA.zip2; rw [length_tab, h.len], fun i hi => by
    have e : ∀ k, ix (TA.smul (S k) t) i = ix (S k) i *. ix t i := fun k => by
      unfold TA.smul TA.zip2; rw [ix_tab_lt (by rw [h.len]; exact hi)]
    rcases h.cs i with h1 | ⟨x, h1, hx⟩
    · exact FV.nan.congr fun k => by rw [e, h1, nan_mul]
    · rcases ht i with h2 | ⟨y, h2⟩
      · exact FV.nan.congr fun k => by rw [e, h2, mul_nan]
      · exact (FV.fin (hR.smul' y x hx)).congr fun k => by rw [e, h1, h2, fin_mul, mul_comm]⟩

/-- the same with a common series of numbers `≥ 0` -/
theorem FS.smulCommonPos (hR : IsCone R) (h : FS R n S) (t : Series (Val K))
    (ht : ∀ i, ix t i = .nan ∨ ∃ y, ix t i = .fin y ∧ 0 ≤ y) : FS R n fun k => smul (S k) t :=
  ⟨fun k => by unfold TA.smul TA.zip2; rw [length_tab, h.len], fun i hi => by
    have e : ∀ k, ix (TA.smul (S k) t) i = ix (S k) i *. ix t i := fun k => by
      unfold TA.smul TA.zip2; rw [ix_tab_lt (by rw [h.len]; exact hi)]
    rcases h.cs i with h1 | ⟨x, h1, hx⟩
    · exact FV.nan.congr fun k => by rw [e, h1, nan_mul]
    · rcases ht i with h2 | ⟨y, h2, hy⟩
      · exact FV.nan.congr fun k => by rw [e, h2, mul_nan]
      · exact (FV.fin (hR.smul y x hy hx)).congr fun k => by rw [e, h1, h2, fin_mul, mul_comm]⟩

theorem FS.shift (h : FS R n S) (m : Nat) {v : ι → Val K} (hv : FV R v) : FS R n fun k => shift (S k) m (v k) :=
  ⟨fun k => by unfold TA.shift; rw [length_tab, h.len], fun i hi => by
    have e : ∀ k, ix (TA.shift (S k) m (v k)) i = if i < m then v k else ix (S k) (i - m) := fun k => by
      unfold TA.shift; rw [ix_tab_lt (by rw [h.len]; exact hi)]
    by_cases hm : i < m
    · exact hv.congr fun k => by rw [e, if_pos hm]
    · exact (h.ixv (i - m)).congr fun k => by rw [e, if_neg hm]⟩

theorem FS.shiftInt (h : FS R n S) (m : Int) : FS R n fun k => shiftInt (S k) m :=
  ⟨fun k => by unfold TA.shiftInt; rw [length_tab, h.len], fun i hi => by
    have e : ∀ k, ix (TA.shiftInt (S k) m) i =
        if (i : Int) - m < 0 then nan else ix (S k) ((i : Int) - m).toNat := fun k => by
      unfold TA.shiftInt; rw [ix_tab_lt (by rw [h.len]; exact hi)]
    by_cases hm : (i : Int) - m < 0
    · exact FV.nan.congr fun k => by rw [e, if_pos hm]; rfl
    · exact (h.ixv ((i : Int) - m).toNat).congr fun k => by rw [e, if_neg hm]⟩

/-! ## the numbers among some rows -/

theorem FS.nums (h : FS R n S) (js : List Nat) :
    ∃ L : List (ι → K), (∀ k, TA.nums (js.map (ix (S k))) = L.map (· k)) ∧ ∀ x ∈ L, R x := by
  induction js with
  | nil => exact ⟨[], fun _ => rfl, fun x hx => by cases hx⟩
  | cons j js ih =>
    obtain ⟨L, h1, h2⟩ := ih
    rcases h.cs j with hj | ⟨x, hj, hx⟩
    · refine ⟨L, fun k => ?_, h2⟩
      rw [← h1]
      unfold TA.nums
      rw [List.map_cons, List.filterMap_cons, hj]; rfl
    · refine ⟨x :: L, fun k => ?_, fun y hy => ?_⟩
      · rw [List.map_cons, List.map_cons, ← h1]
        unfold TA.nums
        rw [List.filterMap_cons, hj]; rfl
      · rcases List.mem_cons.mp hy with rfl | hy
        · exact hx
        · exact h2 y hy

theorem sum_map_apply (L : List (ι → K)) (k : ι) : (L.map (· k)).sum = L.sum k := by
  induction L with
  | nil => rfl
  | cons x L ih => rw [List.map_cons, List.sum_cons, List.sum_cons, ih]; rfl

theorem IsCone.sum (hR : IsCone R) (L : List (ι → K)) (h : ∀ x ∈ L, R x) : R L.sum := by
  induction L with
  | nil => exact hR.zero
  | cons x L ih =>
    rw [List.sum_cons]
    exact hR.add _ _ (h x List.mem_cons_self) (ih fun y hy => h y (List.mem_cons_of_mem _ hy))

theorem FS.rollMean (hR : IsCone R) (h : FS R n S) (w mp : Nat) : FS R n fun k => rollMean w mp (S k) :=
  ⟨fun k => by rw [length_rollMean, h.len], fun i hi => by
    obtain ⟨L, h1, h2⟩ := h.nums (winIx w i)
    have e : ∀ k, ix (TA.rollMean w mp (S k)) i = if mp ≤ L.length ∧ 0 < L.length
        then .fin (L.sum k / L.length) else .nan := fun k => by
      rw [ix_rollMean (by rw [h.len]; exact hi)]
      unfold obs
      rw [h1, List.length_map, sum_map_apply]
    by_cases hm : mp ≤ L.length ∧ 0 < L.length
    · have := hR.smul (L.length : K)⁻¹ _ (by positivity) (hR.sum L h2)
      exact (FV.fin this).congr fun k => by rw [e, if_pos hm, div_eq_inv_mul]
    · exact FV.nan.congr fun k => by rw [e, if_neg hm]⟩

theorem FS.rollSum (hR : IsCone R) (h : FS R n S) (w mp : Nat) : FS R n fun k => rollSum w mp (S k) :=
  ⟨fun k => by rw [length_rollSum, h.len], fun i hi => by
    obtain ⟨L, h1, h2⟩ := h.nums (winIx w i)
    have e : ∀ k, ix (TA.rollSum w mp (S k)) i = if mp ≤ L.length then .fin (L.sum k) else .nan := fun k => by
      rw [ix_rollSum (by rw [h.len]; exact hi)]
      unfold obs
      rw [h1, List.length_map, sum_map_apply]
    by_cases hm : mp ≤ L.length
    · exact (FV.fin (hR.sum L h2)).congr fun k => by rw [e, if_pos hm]
    · exact FV.nan.congr fun k => by rw [e, if_neg hm]⟩

/-! ## exponential smoothing -/

theorem FS.ewmAt (hR : IsCone R) (h : FS R n S) {a : K} (ha : 0 < a) (ha1 : a ≤ 1) (i : Nat) :
    ∃ (w : K) (m : Nat), 0 ≤ w ∧ w ≤ 1 ∧ (∀ k, (ewmAt (.fin a) (S k) i).oldWt = .fin w) ∧
      (∀ k, (ewmAt (.fin a) (S k) i).nobs = m) ∧ FV R fun k => (ewmAt (.fin a) (S k) i).avg := by
  induction i with
  | zero => exact ⟨1, 0, by norm_num, le_refl _, fun k => by simp [TA.ewmAt, ewmInit], fun _ => rfl, FV.nan⟩
  | succ i ih =>
    obtain ⟨w, m, hw, hw1, h1, h2, h3⟩ := ih
    have e0 : ∀ k, TA.ewmAt (.fin a) (S k) i = ⟨(TA.ewmAt (.fin a) (S k) i).avg, .fin w, m⟩ := fun k => by
      rw [← h1 k, ← h2 k]
    have hp := weight_pos ha ha1 hw
    unfold FV at h3
    beta_reduce at h3
    rcases h3 with h3 | ⟨x, h3, hx⟩
    · rcases h.cs i with h4 | ⟨y, h4, hy⟩
      · have e : ∀ k, TA.ewmAt (.fin a) (S k) (i + 1) = ⟨.nan, .fin w, m⟩ := fun k => by
          simp only [TA.ewmAt]; rw [e0, h3, h4, clean_nan, ewmStep_nan_nan]
        exact ⟨w, m, hw, hw1, fun k => by rw [e], fun k => by rw [e], FV.nan.congr fun k => by rw [e]⟩
      · have e : ∀ k, TA.ewmAt (.fin a) (S k) (i + 1) = ⟨.fin (y k), .fin w, m + 1⟩ := fun k => by
          simp only [TA.ewmAt]; rw [e0, h3, h4, clean_fin, ewmStep_nan_fin]
        exact ⟨w, m + 1, hw, hw1, fun k => by rw [e], fun k => by rw [e], (FV.fin hy).congr fun k => by rw [e]⟩
    · rcases h.cs i with h4 | ⟨y, h4, hy⟩
      · have e : ∀ k, TA.ewmAt (.fin a) (S k) (i + 1) = ⟨.fin (x k), .fin (w * (1 - a)), m⟩ := fun k => by
          simp only [TA.ewmAt]; rw [e0, h3, h4, clean_nan, ewmStep_fin_nan]
        exact ⟨w * (1 - a), m, mul_nonneg hw (by linarith), by nlinarith, fun k => by rw [e], fun k => by rw [e],
          (FV.fin hx).congr fun k => by rw [e]⟩
      · have e : ∀ k, TA.ewmAt (.fin a) (S k) (i + 1) =
            ⟨.fin ((w * (1 - a) * x k + a * y k) / (w * (1 - a) + a)), .fin 1, m + 1⟩ := fun k => by
          simp only [TA.ewmAt]; rw [e0, h3, h4, clean_fin, ewmStep_fin_fin _ _ _ _ _ hp.ne']
        refine ⟨1, m + 1, by norm_num, le_refl _, fun k => by rw [e], fun k => by rw [e], ?_⟩
        have hr := hR.add _ _ (hR.smul (w * (1 - a) / (w * (1 - a) + a)) x
          (div_nonneg (mul_nonneg hw (by linarith)) hp.le) hx)
          (hR.smul (a / (w * (1 - a) + a)) y (div_nonneg ha.le hp.le) hy)
        refine (FV.fin hr).congr fun k => ?_
        rw [e]
        simp only [Pi.add_apply]
        congr 1
        field_simp

theorem FS.ewm (hR : IsCone R) (h : FS R n S) {a : K} (ha : 0 < a) (ha1 : a ≤ 1) (mp : Nat) :
    FS R n fun k => ewm (.fin a) mp (S k) :=
  ⟨fun k => by rw [length_ewm, h.len], fun i hi => by
    obtain ⟨w, m, _, _, _, h2, h3⟩ := h.ewmAt hR ha ha1 (i + 1)
    have e : ∀ k, ix (TA.ewm (.fin a) mp (S k)) i =
        if max mp 1 ≤ m then (TA.ewmAt (.fin a) (S k) (i + 1)).avg else .nan := fun k => by
      rw [ix_ewm' (by rw [h.len]; exact hi)]
      unfold ewmOut
      rw [h2]; rfl
    by_cases hm : max mp 1 ≤ m
    · exact h3.congr fun k => by rw [e, if_pos hm]
    · exact FV.nan.congr fun k => by rw [e, if_neg hm]⟩

theorem FS.ema (hR : IsCone R) (h : FS R n S) {w : Nat} (hw : 1 ≤ w) (b : Bool) : FS R n fun k => ema (S k) w b := by
  unfold TA.ema
  rw [alphaOfSpan_fin]
  exact h.ewm hR (span_pos w) (span_le w hw) _

/-! ## weighted average -/

theorem wmaAvg_fin (w : Nat) (hw : 1 ≤ w) (l : List K) :
    WMA.avg w (l.map Val.fin) =
      .fin ((tab l.length fun j => ((j : K) + 1) * 2 / ((w : K) * (w + 1)) * l.getD j 0).sum) := by
  unfold WMA.avg
  have hd : ((w * (w + 1) : ℕ) : K) ≠ 0 := by positivity
  rw [← sumL_fin]
  congr 1
  rw [List.length_map]
  unfold tab
  rw [List.map_map]
  apply List.map_congr_left
  intro j hj
  have hj' : j < l.length := List.mem_range.mp hj
  rw [ix_lt (by rw [List.length_map]; exact hj'), List.getElem_map, natF_fin, natF_fin, fin_div _ _ hd, fin_mul]
  simp only [Function.comp]
  congr 1
  push_cast
  rw [List.getD_eq_getElem?_getD, List.getElem?_eq_getElem hj', Option.getD_some]

theorem nums_full {l : List (Val K)} (h : l.length ≤ (TA.nums l).length) : l.map clean = (TA.nums l).map Val.fin := by
  have e : (TA.nums l).length = l.length := le_antisymm (nums_length_le _) h
  unfold TA.nums at *
  rw [List.length_filterMap_eq_countP, List.countP_eq_length] at e
  clear h
  induction l with
  | nil => rfl
  | cons v l ih =>
    have hv := e v List.mem_cons_self
    rw [Option.isSome_iff_exists] at hv
    obtain ⟨y, hy⟩ := hv
    rw [num?_eq_some] at hy
    subst hy
    rw [List.map_cons, List.filterMap_cons, num?_fin, clean_fin, List.map_cons,
      ih fun a ha => e a (List.mem_cons_of_mem _ ha)]

theorem FS.wma (hR : IsCone R) (h : FS R n S) {w : Nat} (hw : 1 ≤ w) : FS R n fun k => rollApply (WMA.avg w) w w (S k) :=
  ⟨fun k => by rw [length_rollApply, h.len], fun i hi => by
    obtain ⟨L, h1, h2⟩ := h.nums (winIx w i)
    have e : ∀ k, ix (rollApply (WMA.avg w) w w (S k)) i = if w ≤ L.length
        then .fin ((tab L.length fun j => ((j : K) + 1) * 2 / ((w : K) * (w + 1)) * (L.getD j 0) k).sum) else .nan :=
      fun k => by
      rw [ix_rollApply (by rw [h.len]; exact hi)]
      unfold obs
      rw [h1, List.length_map]
      split_ifs with hm
      · have e1 : ((winIx w i).map fun j => clean (ix (S k) j)) = (L.map (· k)).map Val.fin := by
          have := nums_full (l := (winIx w i).map (ix (S k))) (by
            rw [h1, List.length_map, List.length_map, length_winIx]; omega)
          rw [h1, List.map_map] at this
          exact this
        rw [e1, wmaAvg_fin w hw, List.length_map]
        congr 2
        unfold tab
        apply List.map_congr_left
        intro j hj
        have hj' : j < L.length := List.mem_range.mp hj
        simp [List.getD_eq_getElem?_getD, List.getElem?_eq_getElem hj']
      · rfl
    by_cases hm : w ≤ L.length
    · have hr : R (tab L.length fun j => fun k => ((j : K) + 1) * 2 / ((w : K) * (w + 1)) * (L.getD j 0) k).sum := by
        apply hR.sum
        intro x hx
        unfold tab at hx
        obtain ⟨j, hj, rfl⟩ := List.mem_map.mp hx
        refine hR.smul _ _ (by positivity) ?_
        have hj' : j < L.length := List.mem_range.mp hj
        rw [List.getD_eq_getElem?_getD, List.getElem?_eq_getElem hj', Option.getD_some]
        exact h2 _ (List.getElem_mem hj')
      refine (FV.fin hr).congr fun k => ?_
      rw [e, if_pos hm, ← sum_map_apply]
      congr 2
      unfold tab
      rw [List.map_map]; rfl
    · exact FV.nan.congr fun k => by rw [e, if_neg hm]⟩

/-! ## fills -/

theorem FS.eq_map (h : FS R n S) (k : ι) : S k = (List.range n).map (ix (S k)) := by
  apply List.ext_getElem
  · rw [h.len]; simp
  · intro i h1 h2
    rw [List.getElem_map, List.getElem_range, ix_lt h1]

theorem FS.noInf (h : FS R n S) (k : ι) (i : Nat) : clean (ix (S k) i) = ix (S k) i := by
  rcases h.cs i with h1 | ⟨x, h1, _⟩
  · rw [h1]; rfl
  · rw [h1]; rfl

theorem FS.validOf (h : FS R n S) (js : List Nat) :
    ∃ L : List (ι → K), (∀ k, valid (js.map (ix (S k))) = (L.map (· k)).map Val.fin) ∧ ∀ x ∈ L, R x := by
  obtain ⟨L, h1, h2⟩ := h.nums js
  refine ⟨L, fun k => ?_, h2⟩
  rw [← h1, ← valid_clean, List.map_map]
  congr 1
  exact List.map_congr_left fun j _ => (h.noInf k j).symm

theorem FS.smean (hR : IsCone R) (h : FS R n S) : FV R fun k => smean (S k) := by
  obtain ⟨L, h1, h2⟩ := h.validOf (List.range n)
  have e : ∀ k, TA.smean (S k) = if L.length = 0 then .nan else .fin (L.sum k / L.length) := fun k => by
    unfold TA.smean
    have e1 : valid (S k) = (L.map (· k)).map Val.fin := by rw [← h1 k, ← h.eq_map k]
    rw [e1, List.length_map, List.length_map, sumL_fin, sum_map_apply, natF_fin]
    split_ifs with h0
    · rfl
    · rw [fin_div _ _ (by exact_mod_cast h0)]
  by_cases h0 : L.length = 0
  · exact FV.nan.congr fun k => by rw [e, if_pos h0]
  · have := hR.smul (L.length : K)⁻¹ _ (by positivity) (hR.sum L h2)
    exact (FV.fin this).congr fun k => by rw [e, if_neg h0, div_eq_inv_mul]

theorem take_eq_map {s : Series (Val K)} {m : Nat} (h : m ≤ s.length) : s.take m = (List.range m).map (ix s) := by
  apply List.ext_getElem
  · simp; omega
  · intro i h1 h2
    have : i < s.length := by simp at h1; omega
    rw [List.getElem_map, List.getElem_range, ix_lt this, List.getElem_take]

theorem drop_eq_map (s : Series (Val K)) (m : Nat) :
    s.drop m = (List.range' m (s.length - m)).map (ix s) := by
  apply List.ext_getElem
  · simp
  · intro i h1 h2
    have : m + i < s.length := by simp at h1; omega
    rw [List.getElem_map, List.getElem_range', List.getElem_drop, ix_lt (by simpa using this)]
    simp

theorem FS.ffill (h : FS R n S) : FS R n fun k => ffill (S k) :=
  ⟨fun k => by rw [length_ffill, h.len], fun i hi => by
    obtain ⟨L, h1, h2⟩ := h.validOf (List.range (i + 1))
    have e : ∀ k, ix (TA.ffill (S k)) i = ((L.getLast?).map fun x => Val.fin (x k)).getD .nan := fun k => by
      unfold TA.ffill
      rw [ix_pre (by rw [h.len]; exact hi), take_eq_map (by rw [h.len]; omega), h1, List.map_map, List.getLast?_map]
      rfl
    cases hl : L.getLast? with
    | none => exact FV.nan.congr fun k => by rw [e, hl]; rfl
    | some x => exact (FV.fin (h2 x (List.mem_of_getLast? hl))).congr fun k => by rw [e, hl]; rfl⟩

theorem FS.bfill (h : FS R n S) : FS R n fun k => bfill (S k) :=
  ⟨fun k => by rw [length_bfill, h.len], fun i hi => by
    obtain ⟨L, h1, h2⟩ := h.validOf (List.range' i (n - i))
    have e : ∀ k, ix (TA.bfill (S k)) i = ((L.head?).map fun x => Val.fin (x k)).getD .nan := fun k => by
      unfold TA.bfill
      rw [ix_tab_lt (by rw [h.len]; exact hi), drop_eq_map, h.len, h1, List.map_map, List.head?_map]
      rfl
    cases hl : L.head? with
    | none => exact FV.nan.congr fun k => by rw [e, hl]; rfl
    | some x => exact (FV.fin (h2 x (List.mem_of_head? hl))).congr fun k => by rw [e, hl]; rfl⟩

theorem FS.replaceInf (h : FS R n S) : FS R n fun k => replaceInf (S k) :=
  h.map clean rfl id (fun _ => rfl) fun _ hx => hx

theorem FS.fillConst (h : FS R n S) {v : K} (hv : R fun _ => v) : FS R n fun k => fillConst (.fin v) (S k) :=
  ⟨fun k => by unfold TA.fillConst; rw [List.length_map, h.len], fun i hi => by
    have e : ∀ k, ix (TA.fillConst (.fin v) (S k)) i = if Flt.isNaN (ix (S k) i) then .fin v else ix (S k) i :=
      fun k => by
        unfold TA.fillConst
        rw [ix_lt (by rw [List.length_map, h.len]; exact hi), List.getElem_map, ← ix_lt (by rw [h.len]; exact hi)]
    rcases h.cs i with h1 | ⟨x, h1, hx⟩
    · exact (FV.fin hv).congr fun k => by rw [e, h1]; rfl
    · exact (FV.fin hx).congr fun k => by rw [e, h1]; rfl⟩

theorem FS.fill0 (hR : IsCone R) (h : FS R n S) (b : Bool) :
    FS R n fun k => checkFillna b (.const (lit 0)) (S k) := by
  cases b with
  | false => exact h
  | true =>
    unfold checkFillna
    simp only [if_true, lit_fin, Rat.cast_zero]
    exact h.replaceInf.ffill.fillConst hR.zero

theorem FS.fillBack (h : FS R n S) (b : Bool) : FS R n fun k => checkFillna b .back (S k) := by
  cases b with
  | false => exact h
  | true => exact h.replaceInf.ffill.bfill

end TA
