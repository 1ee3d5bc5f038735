import Verif.Lemmas.Win
import Mathlib.Tactic.LinearCombination

/-! # Exponential smoothing over `Val K`

`ewm_rel`: whatever relation between two numbers survives convex combinations survives exponential smoothing of two
series that have their gaps in the same rows.  `Def.ewm`: on a series without gaps (after its warm-up) the smoothing is
the recurrence `e ↦ (1-a) e + a x`. -/

set_option linter.unusedSectionVars false

namespace TA

section general
variable {F : Type} [Flt F]

/-- state of the smoothing after `k` rows -/
def ewmAt (a : F) (s : Series F) : Nat → EwmSt F
  | 0 => ewmInit
  | k + 1 => ewmStep a (ewmAt a s k) (clean (ix s k))

theorem ewmAt_eq (a : F) (s : Series F) (k : Nat) (h : k ≤ s.length) :
    ((s.map clean).take k).foldl (ewmStep a) ewmInit = ewmAt a s k := by
  induction k with
  | zero => rfl
  | succ k ih =>
    rw [List.take_succ_eq_append_getElem (by rw [List.length_map]; omega), List.foldl_append, ih (by omega)]
    simp only [List.foldl_cons, List.foldl_nil, List.getElem_map, ewmAt]
    rw [ix_lt (by omega)]

theorem ix_ewm' {a : F} {mp : Nat} {s : Series F} {i : Nat} (h : i < s.length) :
    ix (ewm a mp s) i = ewmOut mp (ewmAt a s (i + 1)) := by
  rw [ix_ewm h, ewmAt_eq _ _ _ (by omega)]

end general

variable {K : Type} [Field K] [LinearOrder K] [IsStrictOrderedRing K]

/-! ## one step on finite values -/

theorem ewmStep_nan_nan (a : K) (w : Val K) (n : Nat) :
    ewmStep (.fin a : Val K) ⟨.nan, w, n⟩ .nan = ⟨.nan, w, n⟩ := rfl

theorem ewmStep_nan_fin (a x : K) (w : Val K) (n : Nat) :
    ewmStep (.fin a : Val K) ⟨.nan, w, n⟩ (.fin x) = ⟨.fin x, w, n + 1⟩ := rfl

theorem ewmStep_fin_nan (a m w : K) (n : Nat) :
    ewmStep (.fin a : Val K) ⟨.fin m, .fin w, n⟩ .nan = ⟨.fin m, .fin (w * (1 - a)), n⟩ := by
  simp [ewmStep]

theorem ewmStep_fin_fin (a m w x : K) (n : Nat) (h : w * (1 - a) + a ≠ 0) :
    ewmStep (.fin a : Val K) ⟨.fin m, .fin w, n⟩ (.fin x) =
      ⟨.fin ((w * (1 - a) * m + a * x) / (w * (1 - a) + a)), .fin 1, n + 1⟩ := by
  unfold ewmStep
  simp only [isNaN_fin, Bool.not_false, if_true, lit_fin, Rat.cast_one, fin_sub, fin_mul, fin_ne, fin_add,
    decide_eq_true_eq]
  rw [fin_div _ _ h]
  split_ifs with h1
  · rfl
  · have : m = x := by simpa using h1
    subst this
    congr 2
    field_simp

/-- smoothing weights stay in `[0,1]` -/
theorem weight_pos {a w : K} (ha : 0 < a) (ha1 : a ≤ 1) (hw : 0 ≤ w) : 0 < w * (1 - a) + a := by
  have : 0 ≤ w * (1 - a) := mul_nonneg hw (by linarith)
  linarith

/-! ## relations that survive smoothing -/

/-- Both NaN, both the same infinity, or two numbers in relation `C`. -/
inductive VRel (C : K → K → Prop) : Val K → Val K → Prop
  | nan : VRel C .nan .nan
  | pinf : VRel C .pinf .pinf
  | ninf : VRel C .ninf .ninf
  | fin {x y : K} (h : C x y) : VRel C (.fin x) (.fin y)

/-- Row by row. -/
structure SRel (C : K → K → Prop) (s t : Series (Val K)) : Prop where
  len : s.length = t.length
  row : ∀ i, i < s.length → VRel C (ix s i) (ix t i)

/-- closed under convex combinations -/
def Convex (C : K → K → Prop) : Prop :=
  ∀ u v x x' y y' : K, 0 ≤ u → 0 ≤ v → u + v = 1 → C x y → C x' y' → C (u * x + v * x') (u * y + v * y')

theorem VRel.clean {C : K → K → Prop} {v w : Val K} (h : VRel C v w) :
    VRel C (TA.clean v) (TA.clean w) := by
  cases h with
  | fin h => exact .fin h
  | _ => exact .nan

theorem clean_VRel_cases {C : K → K → Prop} {v w : Val K} (h : VRel C v w) :
    (TA.clean v = .nan ∧ TA.clean w = .nan) ∨ ∃ x y, TA.clean v = .fin x ∧ TA.clean w = .fin y ∧ C x y := by
  cases h with
  | fin h => exact .inr ⟨_, _, rfl, rfl, h⟩
  | _ => exact .inl ⟨rfl, rfl⟩

theorem SRel.ix {C : K → K → Prop} {s t : Series (Val K)} (h : SRel C s t) (i : Nat) : VRel C (TA.ix s i) (TA.ix t i) := by
  by_cases hi : i < s.length
  · exact h.row i hi
  · rw [ix_ge (by omega), ix_ge (by rw [← h.len]; omega)]; exact .nan

/-- joint invariant of two smoothing runs -/
theorem ewmAt_rel {C : K → K → Prop} (hC : Convex C) {a : K} (ha : 0 < a) (ha1 : a ≤ 1) {s t : Series (Val K)}
    (k : Nat) (h : ∀ j, j < k → VRel C (ix s j) (ix t j)) :
    ∃ w : K, 0 ≤ w ∧ w ≤ 1 ∧ (ewmAt (.fin a) s k).oldWt = .fin w ∧ (ewmAt (.fin a) t k).oldWt = .fin w ∧
      (ewmAt (.fin a) s k).nobs = (ewmAt (.fin a) t k).nobs ∧
      (((ewmAt (.fin a) s k).avg = .nan ∧ (ewmAt (.fin a) t k).avg = .nan ∧ (ewmAt (.fin a) s k).nobs = 0) ∨
        ∃ x y, (ewmAt (.fin a) s k).avg = .fin x ∧ (ewmAt (.fin a) t k).avg = .fin y ∧ C x y) := by
  induction k with
  | zero => exact ⟨1, by norm_num, le_refl _, by simp [ewmAt, ewmInit], by simp [ewmAt, ewmInit], rfl,
      .inl ⟨rfl, rfl, rfl⟩⟩
  | succ k ih =>
    obtain ⟨w, hw, hw1, h1, h2, h3, h4⟩ := ih fun j hj => h j (by omega)
    have hk := clean_VRel_cases (h k (by omega))
    simp only [ewmAt]
    generalize ewmAt (.fin a) s k = S at *
    generalize ewmAt (.fin a) t k = T at *
    obtain ⟨Sa, Sw, Sn⟩ := S
    obtain ⟨Ta, Tw, Tn⟩ := T
    simp only at h1 h2 h3 h4
    subst h1 h2 h3
    rcases h4 with ⟨rfl, rfl, rfl⟩ | ⟨x, y, rfl, rfl, hxy⟩
    · rcases hk with ⟨e1, e2⟩ | ⟨x', y', e1, e2, hc⟩
      · rw [e1, e2, ewmStep_nan_nan]
        exact ⟨w, hw, hw1, rfl, rfl, rfl, .inl ⟨rfl, rfl, rfl⟩⟩
      · rw [e1, e2, ewmStep_nan_fin, ewmStep_nan_fin]
        exact ⟨w, hw, hw1, rfl, rfl, rfl, .inr ⟨_, _, rfl, rfl, hc⟩⟩
    · have hp := weight_pos ha ha1 hw
      rcases hk with ⟨e1, e2⟩ | ⟨x', y', e1, e2, hc⟩
      · rw [e1, e2, ewmStep_fin_nan, ewmStep_fin_nan]
        exact ⟨_, mul_nonneg hw (by linarith), by nlinarith, rfl, rfl, rfl, .inr ⟨_, _, rfl, rfl, hxy⟩⟩
      · rw [e1, e2, ewmStep_fin_fin _ _ _ _ _ hp.ne', ewmStep_fin_fin _ _ _ _ _ hp.ne']
        refine ⟨1, by norm_num, le_refl _, rfl, rfl, rfl, .inr ⟨_, _, rfl, rfl, ?_⟩⟩
        have e := hC (w * (1 - a) / (w * (1 - a) + a)) (a / (w * (1 - a) + a)) x x' y y'
          (div_nonneg (mul_nonneg hw (by linarith)) hp.le) (div_nonneg ha.le hp.le)
          (by rw [← add_div, div_self hp.ne']) hxy hc
        have e1 : ∀ p q : K, (w * (1 - a) * p + a * q) / (w * (1 - a) + a) =
            w * (1 - a) / (w * (1 - a) + a) * p + a / (w * (1 - a) + a) * q := fun p q => by
          field_simp
        rw [e1, e1]; exact e

/-- Smoothing preserves any convex relation. -/
theorem ewm_rel {C : K → K → Prop} (hC : Convex C) {a : K} (ha : 0 < a) (ha1 : a ≤ 1) (mp : Nat)
    {s t : Series (Val K)} (h : SRel C s t) : SRel C (ewm (.fin a) mp s) (ewm (.fin a) mp t) := by
  refine ⟨by simp [h.len], fun i hi => ?_⟩
  have hi' : i < s.length := by simpa using hi
  rw [ix_ewm' hi', ix_ewm' (by rw [← h.len]; exact hi')]
  obtain ⟨w, _, _, _, _, h3, h4⟩ := ewmAt_rel hC ha ha1 (s := s) (t := t) (i + 1) fun j _ => h.ix j
  unfold ewmOut
  rw [← h3]
  split_ifs with hm
  · rcases h4 with ⟨e1, e2, e3⟩ | ⟨x, y, e1, e2, hc⟩
    · rw [e1, e2]; exact .nan
    · rw [e1, e2]; exact .fin hc
  · exact .nan

/-- A value is finite or NaN, and satisfies `P` if finite. -/
def FinOr (P : K → Prop) (v : Val K) : Prop := v = .nan ∨ ∃ x, v = .fin x ∧ P x

/-- Smoothing stays inside any convex set that contains the data read so far. -/
theorem ewm_mem {P : K → Prop} (hP : Convex fun x _ => P x) {a : K} (ha : 0 < a) (ha1 : a ≤ 1) (mp : Nat)
    {s : Series (Val K)} {i : Nat} (hi : i < s.length) (h : ∀ j x, j ≤ i → ix s j = .fin x → P x) :
    FinOr P (ix (ewm (.fin a) mp s) i) := by
  rw [ix_ewm' hi]
  obtain ⟨w, _, _, _, _, h3, h4⟩ := ewmAt_rel hP ha ha1 (s := s) (t := s) (i + 1) fun j hj => by
    cases e : ix s j with
    | fin x => exact .fin (h j x (by omega) e)
    | nan => exact .nan
    | pinf => exact .pinf
    | ninf => exact .ninf
  unfold ewmOut
  split_ifs with hm
  · rcases h4 with ⟨e1, e2, e3⟩ | ⟨x, y, e1, e2, hc⟩
    · rw [e1]; exact .inl rfl
    · rw [e1]; exact .inr ⟨x, rfl, hc⟩
  · exact .inl rfl

theorem convex_Icc (lo hi : K) : Convex fun x _ : K => lo ≤ x ∧ x ≤ hi := by
  rintro u v x x' _ _ hu hv huv ⟨h1, h2⟩ ⟨h3, h4⟩
  constructor
  · calc lo = u * lo + v * lo := by rw [← add_mul, huv, one_mul]
      _ ≤ _ := add_le_add (mul_le_mul_of_nonneg_left h1 hu) (mul_le_mul_of_nonneg_left h3 hv)
  · calc u * x + v * x' ≤ u * hi + v * hi :=
          add_le_add (mul_le_mul_of_nonneg_left h2 hu) (mul_le_mul_of_nonneg_left h4 hv)
      _ = hi := by rw [← add_mul, huv, one_mul]

theorem convex_ge (lo : K) : Convex fun x _ : K => lo ≤ x := by
  intro u v x x' _ _ hu hv huv h1 h3
  calc lo = u * lo + v * lo := by rw [← add_mul, huv, one_mul]
    _ ≤ _ := add_le_add (mul_le_mul_of_nonneg_left h1 hu) (mul_le_mul_of_nonneg_left h3 hv)

theorem convex_le (hi : K) : Convex fun x _ : K => x ≤ hi := by
  intro u v x x' _ _ hu hv huv h2 h4
  calc u * x + v * x' ≤ u * hi + v * hi :=
          add_le_add (mul_le_mul_of_nonneg_left h2 hu) (mul_le_mul_of_nonneg_left h4 hv)
    _ = hi := by rw [← add_mul, huv, one_mul]

theorem convex_true : Convex fun _ _ : K => True := fun _ _ _ _ _ _ _ _ _ _ _ => trivial

/-- affine relations `y = k x + c` -/
theorem convex_affine (k c : K) : Convex fun x y : K => y = k * x + c := by
  rintro u v x x' y y' hu hv huv rfl rfl
  linear_combination c * huv

/-- `|x| ≤ y` -/
theorem convex_abs : Convex fun x y : K => |x| ≤ y := by
  intro u v x x' y y' hu hv huv h1 h2
  calc |u * x + v * x'| ≤ |u * x| + |v * x'| := abs_add_le _ _
    _ = u * |x| + v * |x'| := by rw [abs_mul, abs_mul, abs_of_nonneg hu, abs_of_nonneg hv]
    _ ≤ _ := add_le_add (mul_le_mul_of_nonneg_left h1 hu) (mul_le_mul_of_nonneg_left h2 hv)

/-! ## recurrence on gap-free data -/

/-- `e_0 = f 0`, `e_{i+1} = (1-a) e_i + a f(i+1)` -/
def emaRec (a : K) (f : Nat → K) : Nat → K
  | 0 => f 0
  | i + 1 => (1 - a) * emaRec a f i + a * f (i + 1)

theorem ewmAt_def {a : K} {s : Series (Val K)} {n p : Nat} {f : Nat → K} (h : Def s n p f) (k : Nat) (hk : k ≤ n) :
    (k ≤ p → ewmAt (.fin a) s k = ⟨.nan, .fin 1, 0⟩) ∧
    (p < k → ewmAt (.fin a) s k = ⟨.fin (emaRec a (fun j => f (p + j)) (k - 1 - p)), .fin 1, k - p⟩) := by
  induction k with
  | zero => exact ⟨fun _ => by simp [ewmAt, ewmInit], fun h => by omega⟩
  | succ k ih =>
    obtain ⟨ih1, ih2⟩ := ih (by omega)
    refine ⟨fun hp => ?_, fun hp => ?_⟩
    · simp only [ewmAt]
      rw [ih1 (by omega), h.gap k (by omega) (by omega)]; rfl
    · simp only [ewmAt]
      rw [h.val k (by omega) (by omega), clean_fin]
      by_cases hkp : k = p
      · subst hkp
        rw [ih1 (le_refl _), ewmStep_nan_fin]
        simp [emaRec]
      · rw [ih2 (by omega), ewmStep_fin_fin _ _ _ _ _ (by norm_num)]
        obtain ⟨m, rfl⟩ : ∃ m, k = p + 1 + m := ⟨k - p - 1, by omega⟩
        have e1 : p + 1 + m - 1 - p = m := by omega
        have e2 : p + 1 + m + 1 - 1 - p = m + 1 := by omega
        have e3 : p + 1 + m - p + 1 = p + 1 + m + 1 - p := by omega
        rw [e1, e2, e3]
        simp only [emaRec]
        rw [show p + (m + 1) = p + 1 + m by omega]
        congr 2
        simp

/-- the smoothed series: warm-up `max mp 1 - 1` rows longer than that of the data -/
theorem Def.ewm {a : K} {s : Series (Val K)} {n p : Nat} {f : Nat → K} (h : Def s n p f) (mp : Nat) :
    Def (TA.ewm (.fin a) mp s) n (p + max mp 1 - 1) (fun i => emaRec a (fun j => f (p + j)) (i - p)) := by
  refine ⟨by simp [h.len], fun i h1 h2 => ?_, fun i h1 h2 => ?_⟩
  · rw [ix_ewm' (by rw [h.len]; exact h1)]
    unfold ewmOut
    by_cases hp : i + 1 ≤ p
    · rw [(ewmAt_def h (i + 1) (by omega)).1 hp]
      simp
    · rw [(ewmAt_def h (i + 1) (by omega)).2 (by omega)]
      simp only
      rw [if_neg (by omega)]; rfl
  · rw [ix_ewm' (by rw [h.len]; exact h1), (ewmAt_def h (i + 1) (by omega)).2 (by omega)]
    unfold ewmOut
    simp only
    rw [if_pos (by omega)]; rfl

end TA
