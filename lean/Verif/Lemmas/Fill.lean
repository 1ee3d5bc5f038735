import Verif.Lemmas.Look
import Verif.Spec.Data

/-! # What `ffill`, `bfill` and `_check_fillna` put where -/

set_option linter.unusedSectionVars false

namespace TA

section plain
variable {F : Type} [Flt F]

theorem valid_eq_nil {l : List F} (h : ∀ x ∈ l, Flt.isNaN x = true) : valid l = [] := by
  unfold valid
  rw [List.filter_eq_nil_iff]
  intro x hx; simp [h x hx]

theorem take_split {s : Series F} {j i : Nat} (hj : j ≤ i) (hi : i < s.length) :
    s.take (i + 1) = s.take j ++ (ix s j :: (s.drop (j + 1)).take (i - j)) := by
  rw [ix_lt (by omega), show i + 1 = j + (i - j + 1) by omega, List.take_add, List.drop_eq_getElem_cons (by omega),
    List.take_succ_cons]

theorem mem_drop_take {s : Series F} {j i : Nat} {x : F} (hi : i < s.length)
    (hx : x ∈ (s.drop (j + 1)).take (i - j)) : ∃ k, j < k ∧ k ≤ i ∧ ix s k = x := by
  obtain ⟨k, hk, rfl⟩ := List.getElem_of_mem hx
  simp only [List.length_take, List.length_drop] at hk
  refine ⟨j + 1 + k, by omega, by omega, ?_⟩
  rw [ix_lt (by omega)]
  simp

/-- `ffill`: the latest observation -/
theorem ffill_at {s : Series F} {j i : Nat} (hj : j ≤ i) (hi : i < s.length) (h1 : Flt.isNaN (ix s j) = false)
    (h2 : ∀ k, j < k → k ≤ i → Flt.isNaN (ix s k) = true) : ix (ffill s) i = ix s j := by
  unfold ffill
  rw [ix_pre hi, take_split hj hi]
  have e : valid (s.take j ++ (ix s j :: (s.drop (j + 1)).take (i - j))) = valid (s.take j) ++ [ix s j] := by
    have e2 : valid ((s.drop (j + 1)).take (i - j)) = [] := by
      apply valid_eq_nil
      intro x hx
      obtain ⟨k, hk1, hk2, rfl⟩ := mem_drop_take hi hx
      exact h2 k hk1 hk2
    unfold valid at *
    rw [List.filter_append, List.filter_cons_of_pos (by simp [h1]), e2]
  rw [e]; simp

theorem ffill_none {s : Series F} {i : Nat} (hi : i < s.length)
    (h : ∀ k, k ≤ i → Flt.isNaN (ix s k) = true) : ix (ffill s) i = nan := by
  unfold ffill
  rw [ix_pre hi, valid_eq_nil]
  · rfl
  · intro x hx
    obtain ⟨k, hk, rfl⟩ := List.getElem_of_mem hx
    simp only [List.length_take] at hk
    have := h k (by omega)
    rw [ix_lt (by omega)] at this
    simpa using this

theorem bfill_at {s : Series F} {j i : Nat} (hj : i ≤ j) (hi : j < s.length) (h1 : Flt.isNaN (ix s j) = false)
    (h2 : ∀ k, i ≤ k → k < j → Flt.isNaN (ix s k) = true) : ix (bfill s) i = ix s j := by
  unfold bfill
  rw [ix_tab_lt (by omega)]
  have e : s.drop i = (s.drop i).take (j - i) ++ (ix s j :: s.drop (j + 1)) := by
    conv_lhs => rw [← List.take_append_drop (j - i) (s.drop i)]
    rw [List.drop_drop, show i + (j - i) = j by omega, ix_lt hi, ← List.drop_eq_getElem_cons hi]
  rw [e]
  have e2 : valid ((s.drop i).take (j - i)) = [] := by
    apply valid_eq_nil
    intro x hx
    obtain ⟨k, hk, rfl⟩ := List.getElem_of_mem hx
    simp only [List.length_take, List.length_drop] at hk
    have := h2 (i + k) (by omega) (by omega)
    rw [ix_lt (by omega)] at this
    simpa using this
  unfold valid at *
  rw [List.filter_append, e2, List.filter_cons_of_pos (by simp [h1])]
  rfl

theorem bfill_none {s : Series F} {i : Nat} (hi : i < s.length)
    (h : ∀ k, i ≤ k → k < s.length → Flt.isNaN (ix s k) = true) : ix (bfill s) i = nan := by
  unfold bfill
  rw [ix_tab_lt hi, valid_eq_nil]
  · rfl
  · intro x hx
    obtain ⟨k, hk, rfl⟩ := List.getElem_of_mem hx
    simp only [List.length_drop] at hk
    have := h (i + k) (by omega) (by omega)
    rw [ix_lt (by omega)] at this
    simpa using this

/-- Either there is a latest row `≤ i` with property `p`, or there is none. -/
theorem latest (p : Nat → Prop) [DecidablePred p] (i : Nat) :
    (∃ j, j ≤ i ∧ p j ∧ ∀ k, j < k → k ≤ i → ¬ p k) ∨ ∀ k, k ≤ i → ¬ p k := by
  induction i with
  | zero =>
    by_cases h : p 0
    · exact .inl ⟨0, le_refl _, h, fun k h1 h2 => by omega⟩
    · exact .inr (fun k hk => by rw [show k = 0 by omega]; exact h)
  | succ i ih =>
    by_cases h : p (i + 1)
    · exact .inl ⟨i + 1, le_refl _, h, fun k h1 h2 => by omega⟩
    · rcases ih with ⟨j, h1, h2, h3⟩ | h1
      · refine .inl ⟨j, by omega, h2, fun k h4 h5 => ?_⟩
        by_cases h6 : k = i + 1
        · rw [h6]; exact h
        · exact h3 k h4 (by omega)
      · refine .inr (fun k hk => ?_)
        by_cases h6 : k = i + 1
        · rw [h6]; exact h
        · exact h1 k (by omega)

/-- Either there is a first row `≥ i` below `n` with property `p`, or there is none. -/
theorem earliest (p : Nat → Prop) [DecidablePred p] (i n : Nat) :
    (∃ j, i ≤ j ∧ j < n ∧ p j ∧ ∀ k, i ≤ k → k < j → ¬ p k) ∨ ∀ k, i ≤ k → k < n → ¬ p k := by
  by_cases h : ∃ j, i ≤ j ∧ j < n ∧ p j
  · refine .inl ⟨Nat.find h, (Nat.find_spec h).1, (Nat.find_spec h).2.1, (Nat.find_spec h).2.2, fun k h1 h2 h3 => ?_⟩
    have := (Nat.find_spec h).2.1
    exact Nat.find_min h h2 ⟨h1, by omega, h3⟩
  · exact .inr (fun k h1 h2 h3 => h ⟨k, h1, h2, h3⟩)

end plain

section laws
variable {F : Type} [Flt F] [NaNLaws F]

instance (x : F) : Decidable (Num x) := by unfold Num; infer_instance

theorem clean_num {x : F} (h : Num x) : clean x = x := by unfold clean; rw [h.2]; rfl

theorem num_clean {x : F} : Flt.isNaN (clean x) = false ↔ Num x := by
  unfold clean Num
  cases h : Flt.isInf x
  · simp
  · simp [NaNLaws.isNaN_nan]

theorem isNaN_clean {x : F} : Flt.isNaN (clean x) = true ↔ ¬ Num x := by
  rw [← num_clean]; simp

theorem ix_replaceInf {s : Series F} {i : Nat} (h : i < s.length) : ix (replaceInf s) i = clean (ix s i) := by
  unfold replaceInf; rw [ix_map h]

/-- The forward-filled series after `replace([inf, -inf], nan)`, row by row. -/
theorem ffill_clean_at {s : Series F} {j i : Nat} (hj : j ≤ i) (hi : i < s.length) (h1 : Num (ix s j))
    (h2 : ∀ k, j < k → k ≤ i → ¬ Num (ix s k)) : ix (ffill (replaceInf s)) i = ix s j := by
  rw [ffill_at (j := j) hj (by simpa using hi), ix_replaceInf (by omega), clean_num h1]
  · rw [ix_replaceInf (by omega), num_clean]; exact h1
  · intro k h3 h4; rw [ix_replaceInf (by omega), isNaN_clean]; exact h2 k h3 h4

theorem ffill_clean_none {s : Series F} {i : Nat} (hi : i < s.length)
    (h : ∀ k, k ≤ i → ¬ Num (ix s k)) : ix (ffill (replaceInf s)) i = nan := by
  apply ffill_none (by simpa using hi)
  intro k hk; rw [ix_replaceInf (by omega), isNaN_clean]; exact h k hk

/-- a finite value is never overwritten -/
theorem checkFillna_keep {s : Series F} {v : Fill F} {i : Nat} (hi : i < s.length) (h : Num (ix s i)) :
    ix (checkFillna true v s) i = ix s i := by
  have e := ffill_clean_at (le_refl i) hi h (fun k h1 h2 => by omega)
  unfold checkFillna
  cases v with
  | const c =>
    simp only [if_true]
    unfold fillConst
    rw [ix_map (by simpa using hi), e, h.1]; rfl
  | back =>
    simp only [if_true]
    rw [bfill_at (j := i) (le_refl i) (by simpa using hi), e]
    · rw [e]; exact h.1
    · intro k h1 h2; omega
  | ser t =>
    simp only [if_true]
    unfold fillSer
    rw [ix_zip2 (by simpa using hi), e, h.1]; rfl

/-- a gap takes the latest earlier value -/
theorem checkFillna_ffill {s : Series F} {v : Fill F} {j i : Nat} (hj : j ≤ i) (hi : i < s.length)
    (h1 : Num (ix s j)) (h2 : ∀ k, j < k → k ≤ i → ¬ Num (ix s k)) : ix (checkFillna true v s) i = ix s j := by
  have e := ffill_clean_at hj hi h1 h2
  unfold checkFillna
  cases v with
  | const c =>
    simp only [if_true]
    unfold fillConst
    rw [ix_map (by simpa using hi), e, h1.1]; rfl
  | back =>
    simp only [if_true]
    rw [bfill_at (j := i) (le_refl i) (by simpa using hi), e]
    · rw [e]; exact h1.1
    · intro k h1 h2; omega
  | ser t =>
    simp only [if_true]
    unfold fillSer
    rw [ix_zip2 (by simpa using hi), e, h1.1]; rfl

/-- no earlier value: the constant -/
theorem checkFillna_const_none {s : Series F} {c : F} {i : Nat} (hi : i < s.length)
    (h : ∀ k, k ≤ i → ¬ Num (ix s k)) : ix (checkFillna true (.const c) s) i = c := by
  unfold checkFillna
  simp only [if_true]
  unfold fillConst
  rw [ix_map (by simpa using hi), ffill_clean_none hi h, NaNLaws.isNaN_nan]; rfl

/-- no earlier value: the nearest later one -/
theorem checkFillna_back_later {s : Series F} {j i : Nat} (hj : i ≤ j) (hjn : j < s.length)
    (h1 : Num (ix s j)) (h2 : ∀ k, k < j → ¬ Num (ix s k)) : ix (checkFillna true .back s) i = ix s j := by
  unfold checkFillna
  simp only [if_true]
  have e := ffill_clean_at (le_refl j) hjn h1 (fun k h3 h4 => by omega)
  rw [bfill_at (j := j) hj (by simpa using hjn), e]
  · rw [e]; exact h1.1
  · intro k h3 h4
    rw [ffill_clean_none (by omega) (fun k' hk' => h2 k' (by omega))]
    exact NaNLaws.isNaN_nan

/-- no value at all -/
theorem checkFillna_back_none {s : Series F} {i : Nat} (hi : i < s.length)
    (h : ∀ k, k < s.length → ¬ Num (ix s k)) : ix (checkFillna true .back s) i = nan := by
  unfold checkFillna
  simp only [if_true]
  apply bfill_none (by simpa using hi)
  intro k _ h3
  simp at h3
  rw [ffill_clean_none (by omega) (fun k' hk' => h k' (by omega))]
  exact NaNLaws.isNaN_nan

theorem checkFillna_const_num {s : Series F} {c : F} (hc : Num c) {i : Nat} (hi : i < s.length) :
    Num (ix (checkFillna true (.const c) s) i) := by
  rcases latest (fun k => Num (ix s k)) i with ⟨j, h1, h2, h3⟩ | h1
  · rw [checkFillna_ffill h1 hi h2 h3]; exact h2
  · rw [checkFillna_const_none hi h1]; exact hc

theorem checkFillna_back_num {s : Series F} {j : Nat} (hj : j < s.length) (h : Num (ix s j)) {i : Nat}
    (hi : i < s.length) : Num (ix (checkFillna true .back s) i) := by
  rcases latest (fun k => Num (ix s k)) i with ⟨j, h1, h2, h3⟩ | h1
  · rw [checkFillna_ffill h1 hi h2 h3]; exact h2
  · rcases earliest (fun k => Num (ix s k)) 0 s.length with ⟨j', h2, h3, h4, h5⟩ | h2
    · have : i ≤ j' := by
        by_contra hc
        exact h1 j' (by omega) h4
      rw [checkFillna_back_later this h3 h4 (fun k hk => h5 k (by omega) hk)]
      exact h4
    · exact absurd h (h2 j (by omega) hj)

theorem forall_ix {s : Series F} {P : F → Prop} (h : ∀ i, i < s.length → P (ix s i)) : ∀ x ∈ s, P x := by
  intro x hx
  obtain ⟨k, hk, rfl⟩ := List.getElem_of_mem hx
  have := h k hk
  rwa [ix_lt hk] at this

end laws
end TA
