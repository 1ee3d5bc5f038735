import Verif.Lemmas.Ewm
import Verif.Lemmas.Fill
import Verif.Lemmas.ValFin

/-! # Bounds on the numbers in a series -/

set_option linter.unusedSectionVars false

namespace TA
variable {K : Type} [Field K] [LinearOrder K] [IsStrictOrderedRing K]

theorem NaNOr.allFin {P : K → Prop} {s : Series (Val K)} (h : NaNOr P s) : AllFin P s := by
  intro i x hx
  by_cases hi : i < s.length
  · rcases h i hi with h1 | ⟨y, h1, h2⟩
    · rw [h1] at hx; cases hx
    · rw [h1] at hx; cases hx; exact h2
  · rw [ix_ge (by omega)] at hx; cases hx

theorem AllFin.mono {P Q : K → Prop} {s : Series (Val K)} (h : AllFin P s) (hpq : ∀ x, P x → Q x) : AllFin Q s :=
  fun i x hx => hpq x (h i x hx)

theorem NaNOr.mono {P Q : K → Prop} {s : Series (Val K)} (h : NaNOr P s) (hpq : ∀ x, P x → Q x) : NaNOr Q s := by
  intro i hi
  rcases h i hi with h1 | ⟨y, h1, h2⟩
  · exact .inl h1
  · exact .inr ⟨y, h1, hpq _ h2⟩

/-- a filled series: every row comes from the series or is the constant -/
theorem checkFillna_const_cases (s : Series (Val K)) (v : Val K) (i : Nat) (hi : i < s.length) :
    (∃ j x, j ≤ i ∧ ix s j = .fin x ∧ ix (checkFillna true (.const v) s) i = .fin x) ∨
      ix (checkFillna true (.const v) s) i = v := by
  classical
  rcases latest (fun j => Num (ix s j)) i with ⟨j, h1, h2, h3⟩ | h
  · obtain ⟨x, hx⟩ := num_iff.mp h2
    exact .inl ⟨j, x, h1, hx, by rw [checkFillna_ffill h1 hi h2 h3, hx]⟩
  · exact .inr (checkFillna_const_none hi h)

theorem NaNOr.fill {P : K → Prop} {s : Series (Val K)} (h : NaNOr P s) {v : K} (hv : P v) (b : Bool) :
    NaNOr P (checkFillna b (.const (.fin v)) s) := by
  cases b with
  | false => exact h
  | true =>
    intro i hi
    rw [length_checkFillna] at hi
    rcases checkFillna_const_cases s (.fin v) i hi with ⟨j, x, h1, h2, h3⟩ | h3
    · exact .inr ⟨x, h3, h.allFin _ _ h2⟩
    · exact .inr ⟨v, h3, hv⟩

theorem AllFin.fill {P : K → Prop} {s : Series (Val K)} (h : AllFin P s) {v : K} (hv : P v) (b : Bool) :
    AllFin P (checkFillna b (.const (.fin v)) s) := by
  cases b with
  | false => exact h
  | true =>
    intro i x hx
    by_cases hi : i < s.length
    · rcases checkFillna_const_cases s (.fin v) i hi with ⟨j, y, h1, h2, h3⟩ | h3
      · rw [h3] at hx; cases hx; exact h _ _ h2
      · rw [h3] at hx; cases hx; exact hv
    · rw [ix_ge (by rw [length_checkFillna]; omega)] at hx; cases hx

theorem NaNOr.fillBack {P : K → Prop} {s : Series (Val K)} (h : NaNOr P s) (b : Bool) :
    NaNOr P (checkFillna b .back s) := by
  classical
  cases b with
  | false => exact h
  | true =>
    intro i hi
    rw [length_checkFillna] at hi
    rcases latest (fun j => Num (ix s j)) i with ⟨j, h1, h2, h3⟩ | h0
    · obtain ⟨x, hx⟩ := num_iff.mp h2
      exact .inr ⟨x, by rw [checkFillna_ffill h1 hi h2 h3, hx], h.allFin _ _ hx⟩
    · rcases earliest (fun j => Num (ix s j)) i s.length with ⟨j, h1, h2, h3, h4⟩ | h5
      · obtain ⟨x, hx⟩ := num_iff.mp h3
        refine .inr ⟨x, ?_, h.allFin _ _ hx⟩
        rw [checkFillna_back_later h1 h2 h3 (fun k hk => ?_), hx]
        by_cases hki : k ≤ i
        · exact h0 k hki
        · exact h4 k (by omega) hk
      · refine .inl ?_
        rw [checkFillna_back_none hi fun k hk => ?_]; · rfl
        by_cases hki : k ≤ i
        · exact h0 k hki
        · exact h5 k (by omega) hk

/-! ## windows -/

theorem sum_le_of_mem {l : List K} {b : K} (h : ∀ x ∈ l, x ≤ b) : l.sum ≤ l.length * b := by
  induction l with
  | nil => simp
  | cons x l ih =>
    rw [List.sum_cons, List.length_cons]
    have h1 := h x (by simp)
    have h2 := ih fun y hy => h y (by simp [hy])
    push_cast
    linarith

theorem le_sum_of_mem {l : List K} {b : K} (h : ∀ x ∈ l, b ≤ x) : l.length * b ≤ l.sum := by
  induction l with
  | nil => simp
  | cons x l ih =>
    rw [List.sum_cons, List.length_cons]
    have h1 := h x (by simp)
    have h2 := ih fun y hy => h y (by simp [hy])
    push_cast
    linarith

theorem mean_mem {l : List K} {a b : K} (h0 : 0 < l.length) (h : ∀ x ∈ l, a ≤ x ∧ x ≤ b) :
    a ≤ l.sum / l.length ∧ l.sum / l.length ≤ b := by
  have hp : (0 : K) < l.length := by exact_mod_cast h0
  rw [le_div_iff₀ hp, div_le_iff₀ hp]
  constructor
  · rw [mul_comm]; exact le_sum_of_mem fun x hx => (h x hx).1
  · rw [mul_comm]; exact sum_le_of_mem fun x hx => (h x hx).2

/-- Rolling mean: NaN or between any bounds on the numbers of the window. -/
theorem rollMean_mem {s : Series (Val K)} {w mp i : Nat} (hi : i < s.length) {a b : K}
    (h : ∀ j x, j ≤ i → i < j + w → ix s j = .fin x → a ≤ x ∧ x ≤ b) :
    FinOr (fun x => a ≤ x ∧ x ≤ b) (ix (rollMean w mp s) i) := by
  rw [ix_rollMean hi]
  split_ifs with h0
  · refine .inr ⟨_, rfl, mean_mem h0.2 fun x hx => ?_⟩
    obtain ⟨j, h1, h2, h3⟩ := mem_obs.mp hx
    exact h j x h1 h2 h3
  · exact .inl rfl

theorem sum_nonneg' {l : List K} (h : ∀ x ∈ l, 0 ≤ x) : 0 ≤ l.sum := by
  simpa using le_sum_of_mem h

theorem rollMax_cases (s : Series (Val K)) (w mp i : Nat) (hi : i < s.length) :
    ix (rollMax w mp s) i = .nan ∨ ∃ m, ix (rollMax w mp s) i = .fin m ∧ m ∈ obs s w i ∧ ∀ y ∈ obs s w i, y ≤ m := by
  rw [ix_rollMax hi]
  split_ifs with h
  · by_cases h0 : obs s w i = []
    · rw [h0]; exact .inl rfl
    · exact .inr (maxL_spec h0)
  · exact .inl rfl

theorem rollMin_cases (s : Series (Val K)) (w mp i : Nat) (hi : i < s.length) :
    ix (rollMin w mp s) i = .nan ∨ ∃ m, ix (rollMin w mp s) i = .fin m ∧ m ∈ obs s w i ∧ ∀ y ∈ obs s w i, m ≤ y := by
  rw [ix_rollMin hi]
  split_ifs with h
  · by_cases h0 : obs s w i = []
    · rw [h0]; exact .inl rfl
    · exact .inr (minL_spec h0)
  · exact .inl rfl

theorem rollSum_cases (s : Series (Val K)) (w mp i : Nat) (hi : i < s.length) :
    ix (rollSum w mp s) i = .nan ∨ ix (rollSum w mp s) i = .fin (obs s w i).sum := by
  rw [ix_rollSum hi]
  split_ifs with h
  · exact .inr rfl
  · exact .inl rfl

/-! ## smoothing factors -/

/-- `2 / (w + 1)` -/
theorem alphaOfSpan_fin (w : Nat) : (alphaOfSpan w : Val K) = .fin (2 / ((w : K) + 1)) := by
  unfold alphaOfSpan
  simp only [lit_fin, natF_fin, Rat.cast_one, Rat.cast_ofNat, fin_sub]
  have h1 : (1 : K) + ((w : K) - 1) / 2 = ((w : K) + 1) / 2 := by ring
  have h2 : ((w : K) + 1) / 2 ≠ 0 := by positivity
  rw [fin_div _ _ (by norm_num), fin_add, h1, fin_div _ _ h2, one_div_div]

theorem span_pos (w : Nat) : (0 : K) < 2 / ((w : K) + 1) := by positivity

theorem span_le (w : Nat) (hw : 1 ≤ w) : 2 / ((w : K) + 1) ≤ 1 := by
  have : (1 : K) ≤ w := by exact_mod_cast hw
  rw [div_le_one (by linarith)]; linarith

/-- `1 / w` -/
theorem rsiAlpha_fin (w : Nat) (hw : 1 ≤ w) : (RSI.alpha w : Val K) = .fin (1 / (w : K)) := by
  have hw' : (0 : K) < w := by exact_mod_cast hw
  unfold RSI.alpha alphaOfAlpha
  simp only [lit_fin, natF_fin, Rat.cast_one]
  have h1 : (1 : K) / w ≠ 0 := by positivity
  have h2 : (1 : K) + (1 - 1 / w) / (1 / w) = w := by field_simp; ring
  rw [fin_div _ _ hw'.ne', fin_sub, fin_div _ _ h1, fin_add, h2, fin_div _ _ hw'.ne']

theorem wilder_pos (w : Nat) (hw : 1 ≤ w) : (0 : K) < 1 / (w : K) := by
  have : (0 : K) < w := by exact_mod_cast hw
  positivity

theorem wilder_le (w : Nat) (hw : 1 ≤ w) : 1 / (w : K) ≤ 1 := by
  have : (1 : K) ≤ w := by exact_mod_cast hw
  rw [div_le_one (by linarith)]; exact this

end TA
