import Verif.Props.C17

/-! # C19: true strength index — bounds, formula, behaviour on monotone prices -/

set_option linter.unusedSectionVars false

namespace TA
open Finset
variable {K : Type} [Field K] [LinearOrder K] [IsStrictOrderedRing K]

theorem clean_idem (v : Val K) : clean (clean v) = clean v := by cases v <;> rfl

theorem ewm_clean (a : Val K) (mp : Nat) (s : Series (Val K)) : ewm a mp (s.map clean) = ewm a mp s := by
  unfold ewm
  rw [List.map_map]
  congr 2
  funext v
  exact clean_idem v

/-- the gaps of `s` and `|s|` are in the same rows -/
theorem clean_abs_rel (s : Series (Val K)) : SRel (fun x y => |x| ≤ y) (s.map clean) ((sabs s).map clean) := by
  refine ⟨by simp, fun i hi => ?_⟩
  have hi' : i < s.length := by simpa using hi
  rw [ix_map hi', ix_map (by simpa using hi'), ix_sabs hi']
  cases ix s i with
  | nan => exact .nan
  | pinf => exact .nan
  | ninf => exact .nan
  | fin x => exact .fin (le_refl _)

/-- C19: for any close series (NaN, infinities, any sign), any windows and both values of `fillna`, every row of the TSI
is NaN or a number in [-100, 100]; never an infinity. -/
theorem tsi_range (s : Series (Val K)) (slow fast : Nat) (fillna : Bool) (out : Series (Val K))
    (ho : tsi s slow fast fillna = .ok out) : NaNOr (fun x => -100 ≤ x ∧ x ≤ 100) out := by
  unfold tsi chkSpan at ho
  by_cases h1 : slow < 1
  · rw [if_pos h1] at ho; cases ho
  rw [if_neg h1] at ho
  by_cases h2 : fast < 1
  · rw [if_pos h2] at ho; cases ho
  rw [if_neg h2] at ho
  have e := Except.ok.inj ho
  rw [← e, lit_fin]
  refine NaNOr.fill ?_ (by norm_num) fillna
  intro i hi
  unfold TSI.run at hi ⊢
  simp only [length_mulc, length_sdiv, length_ema, length_ssub] at hi
  dsimp only
  rw [ix_mulc (by simpa using hi), ix_sdiv (by simpa using hi)]
  have r1 := ewm_rel convex_abs (span_pos (K := K) slow) (span_le slow (by omega)) (minp fillna slow)
    (clean_abs_rel (ssub s (shift s 1)))
  rw [ewm_clean, ewm_clean] at r1
  have r2 := ewm_rel convex_abs (span_pos (K := K) fast) (span_le fast (by omega)) (minp fillna fast) r1
  have r3 := r2.row i (by simpa using hi)
  unfold ema
  simp only [alphaOfSpan_fin]
  revert r3
  generalize ix (ewm _ _ (ewm _ _ (ssub s (shift s 1)))) i = u
  generalize ix (ewm _ _ (ewm _ _ (sabs (ssub s (shift s 1))))) i = v
  intro r3
  cases r3 with
  | nan => left; simp
  | pinf => left; rfl
  | ninf => left; rfl
  | @fin x y h =>
    by_cases h0 : y = 0
    · subst h0
      have : x = 0 := abs_nonpos_iff.mp h
      subst this
      left
      rw [fin_div_zero]; simp
    · have hy : 0 < y := lt_of_le_of_ne (le_trans (abs_nonneg x) h) (Ne.symm h0)
      right
      rw [fin_div _ _ h0, lit_fin, fin_mul]
      refine ⟨_, rfl, ?_⟩
      have h4 := abs_le.mp h
      have h5 : -1 ≤ x / y := by rw [le_div_iff₀ hy]; linarith
      have h6 : x / y ≤ 1 := by rw [div_le_one hy]; exact h4.2
      push_cast
      constructor <;> linarith

theorem emaRec_congr {a : K} {f g : Nat → K} {i : Nat} (h : ∀ j, j ≤ i → f j = g j) : emaRec a f i = emaRec a g i := by
  induction i with
  | zero => exact h 0 (le_refl _)
  | succ i ih => rw [emaRec, emaRec, ih fun j hj => h j (by omega), h _ (le_refl _)]

theorem emaRec_pos_all {a : K} (ha : 0 < a) (ha1 : a ≤ 1) {f : Nat → K} {i : Nat} (h : ∀ j, j ≤ i → 0 < f j) :
    0 < emaRec a f i := by
  induction i with
  | zero => exact h 0 (le_refl _)
  | succ i ih =>
    rw [emaRec]
    have h1 := ih fun j hj => h j (by omega)
    have h2 := h (i + 1) (le_refl _)
    have h3 : 0 ≤ 1 - a := by linarith
    have h4 : 0 < a * f (i + 1) := mul_pos ha h2
    have h5 := mul_nonneg h3 h1.le
    linarith

theorem emaRec_neg {a : K} {f : Nat → K} (i : Nat) : emaRec a (fun j => -f j) i = -emaRec a f i := by
  induction i with
  | zero => rfl
  | succ i ih => rw [emaRec, emaRec, ih]; ring

theorem emaRec_abs_le {a : K} (ha : 0 < a) (ha1 : a ≤ 1) {f g : Nat → K} (h : ∀ j, |f j| ≤ g j) (i : Nat) :
    |emaRec a f i| ≤ emaRec a g i := by
  induction i with
  | zero => exact h 0
  | succ i ih =>
    rw [emaRec, emaRec]
    have h3 : 0 ≤ 1 - a := by linarith
    calc |(1 - a) * emaRec a f i + a * f (i + 1)|
        ≤ |(1 - a) * emaRec a f i| + |a * f (i + 1)| := abs_add_le _ _
      _ = (1 - a) * |emaRec a f i| + a * |f (i + 1)| := by rw [abs_mul, abs_mul, abs_of_nonneg h3, abs_of_pos ha]
      _ ≤ _ := add_le_add (mul_le_mul_of_nonneg_left ih h3) (mul_le_mul_of_nonneg_left (h _) ha.le)

/-- C19: the formula.  `e` is the EMA(slow) of the close-to-close changes and `E` its EMA(fast); `a` and `A` the same for
the absolute changes; the TSI is `100 * E / A`, defined from row `slow + fast - 1` on, wherever `A ≠ 0`. -/
theorem tsi_formula (n : Nat) (x : Nat → K) (slow fast : Nat) (h1 : 1 ≤ slow) (h2 : 1 ≤ fast) :
    ∃ e E a A : Nat → K,
      e 0 = x 1 - x 0 ∧ (∀ i, e (i + 1) = (1 - 2 / ((slow : K) + 1)) * e i + 2 / ((slow : K) + 1) * (x (i + 2) - x (i + 1))) ∧
      a 0 = |x 1 - x 0| ∧ (∀ i, a (i + 1) = (1 - 2 / ((slow : K) + 1)) * a i + 2 / ((slow : K) + 1) * |x (i + 2) - x (i + 1)|) ∧
      E 0 = e (slow - 1) ∧ (∀ i, E (i + 1) = (1 - 2 / ((fast : K) + 1)) * E i + 2 / ((fast : K) + 1) * e (slow + i)) ∧
      A 0 = a (slow - 1) ∧ (∀ i, A (i + 1) = (1 - 2 / ((fast : K) + 1)) * A i + 2 / ((fast : K) + 1) * a (slow + i)) ∧
      ∃ out, tsi (ser n x) slow fast false = .ok out ∧ out.length = n ∧
        (∀ i, i < n → i < slow + fast - 1 → ix out i = .nan) ∧
        (∀ i, i < n → slow + fast - 1 ≤ i →
          ix out i = if A (i - slow) = 0 then .nan else .fin (100 * (E (i - slow) / A (i - slow)))) := by
  have e1 : max slow 1 = slow := by omega
  have e2 : max fast 1 = fast := by omega
  have hd : Def (ssub (ser n x) (shift (ser n x) 1)) n 1 (fun i => x i - x (i - 1)) := def_sdiff n x
  have hs := (hd.ewm (a := 2 / ((slow : K) + 1)) slow).ewm (a := 2 / ((fast : K) + 1)) fast
  have ha := (hd.sabs.ewm (a := 2 / ((slow : K) + 1)) slow).ewm (a := 2 / ((fast : K) + 1)) fast
  rw [e1, e2] at hs ha
  have e3 : 1 + slow - 1 + fast - 1 = slow + fast - 1 := by omega
  rw [e3] at hs ha
  refine ⟨emaRec (2 / ((slow : K) + 1)) (fun j => x (j + 1) - x j),
    emaRec (2 / ((fast : K) + 1)) (fun k => emaRec (2 / ((slow : K) + 1)) (fun j => x (j + 1) - x j) (slow + k - 1)),
    emaRec (2 / ((slow : K) + 1)) (fun j => |x (j + 1) - x j|),
    emaRec (2 / ((fast : K) + 1)) (fun k => emaRec (2 / ((slow : K) + 1)) (fun j => |x (j + 1) - x j|) (slow + k - 1)),
    rfl, fun i => rfl, rfl, fun i => rfl, rfl, fun i => rfl, rfl, fun i => rfl,
    checkFillna false (.const (lit 0)) (TSI.run (ser n x) slow fast false), ?_, ?_, fun i hn hi => ?_, fun i hn hi => ?_⟩
  · unfold tsi chkSpan
    rw [if_neg (by omega), if_neg (by omega)]; rfl
  · simp [TSI.run, checkFillna, ser]
  · show ix (TSI.run (ser n x) slow fast false) i = .nan
    unfold TSI.run ema
    simp only [alphaOfSpan_fin, minp, Bool.false_eq_true, if_false]
    rw [ix_mulc (by simp [ser, hn]), ix_sdiv (by simp [ser, hn]), hs.gap i hn hi]; simp
  · show ix (TSI.run (ser n x) slow fast false) i = _
    unfold TSI.run ema
    simp only [alphaOfSpan_fin, minp, Bool.false_eq_true, if_false]
    rw [ix_mulc (by simp [ser, hn]), ix_sdiv (by simp [ser, hn]), hs.val i hn hi, ha.val i hn hi]
    have e6 : ∀ j, 1 + j - 1 = j := by intro j; omega
    have e7 : ∀ j, 1 + j = j + 1 := by intro j; omega
    simp only [e6]
    simp only [e7]
    have hle := emaRec_abs_le (span_pos (K := K) fast) (span_le fast h2)
      (fun k => emaRec_abs_le (span_pos (K := K) slow) (span_le slow h1)
        (f := fun j => x (j + 1) - x j) (fun j => le_refl _) (slow + k - 1)) (i - slow)
    revert hle
    generalize emaRec (2 / ((fast : K) + 1)) (fun k => emaRec (2 / ((slow : K) + 1)) (fun j => x (j + 1) - x j) (slow + k - 1)) (i - slow) = E
    generalize emaRec (2 / ((fast : K) + 1)) (fun k => emaRec (2 / ((slow : K) + 1)) (fun j => |x (j + 1) - x j|) (slow + k - 1)) (i - slow) = A
    intro hle
    split_ifs with h0
    · subst h0
      have : E = 0 := abs_nonpos_iff.mp hle
      subst this
      rw [fin_div_zero]; simp
    · rw [fin_div _ _ h0, lit_fin, fin_mul]
      push_cast
      rw [mul_comm]

/-- C19: after a strictly rising run from row 0 the TSI is exactly +100, after a strictly falling one exactly -100. -/
theorem tsi_monotone (n : Nat) (x : Nat → K) (slow fast : Nat) (h1 : 1 ≤ slow) (h2 : 1 ≤ fast) (out : Series (Val K))
    (ho : tsi (ser n x) slow fast false = .ok out) (i : Nat) (hn : i < n) (hi : slow + fast - 1 ≤ i) :
    ((∀ j, j < i → x j < x (j + 1)) → ix out i = .fin 100) ∧
    ((∀ j, j < i → x (j + 1) < x j) → ix out i = .fin (-100)) := by
  obtain ⟨e, E, a, A, e0, e1, a0, a1, E0, E1, A0, A1, out', ho', _, _, hv⟩ := tsi_formula n x slow fast h1 h2
  obtain rfl : out' = out := Except.ok.inj (ho'.symm.trans ho)
  have s0 := span_pos (K := K) slow
  have s1 := span_le (K := K) slow h1
  have f0 := span_pos (K := K) fast
  have f1 := span_le (K := K) fast h2
  have key : ∀ σ : K, (σ = 1 ∨ σ = -1) → (∀ j, j < i → 0 < σ * (x (j + 1) - x j)) → ix out' i = .fin (100 * σ) := by
    intro σ hσ hx
    have hσσ : σ * σ = 1 := by rcases hσ with h | h <;> rw [h] <;> norm_num
    have habs : ∀ j, j < i → |x (j + 1) - x j| = σ * (x (j + 1) - x j) := by
      intro j hj
      have := hx j hj
      rcases hσ with h | h <;> subst h
      · rw [abs_of_pos (by linarith)]; ring
      · rw [abs_of_neg (by linarith)]; ring
    have he : ∀ k, k < i → 0 < a k ∧ a k = σ * e k := by
      intro k
      induction k with
      | zero => intro hk; rw [a0, e0, habs 0 hk]; exact ⟨hx 0 hk, rfl⟩
      | succ k ih =>
        intro hk
        obtain ⟨i1, i2⟩ := ih (by omega)
        have h3 := hx (k + 1) hk
        have h4 := habs (k + 1) hk
        rw [a1, e1, h4]
        refine ⟨?_, by rw [i2]; ring⟩
        have h5 := mul_pos s0 h3
        have h6 := mul_nonneg (sub_nonneg.mpr s1) i1.le
        linarith
    have hE : ∀ k, slow + k - 1 < i → 0 < A k ∧ A k = σ * E k := by
      intro k
      induction k with
      | zero => intro hk; rw [A0, E0]; exact he _ hk
      | succ k ih =>
        intro hk
        obtain ⟨i1, i2⟩ := ih (by omega)
        obtain ⟨h3, h4⟩ := he (slow + k) (by omega)
        rw [A1, E1]
        refine ⟨?_, by rw [i2, h4]; ring⟩
        have h5 := mul_pos f0 h3
        have h6 := mul_nonneg (sub_nonneg.mpr f1) i1.le
        linarith
    obtain ⟨h3, h4⟩ := hE (i - slow) (by omega)
    have h5 : E (i - slow) = σ * A (i - slow) := by rw [h4, ← mul_assoc, hσσ, one_mul]
    rw [hv i hn hi, if_neg h3.ne', h5, mul_div_assoc, div_self h3.ne', mul_one]
  constructor
  · intro hx
    have := key 1 (.inl rfl) fun j hj => by linarith [hx j hj]
    rwa [mul_one] at this
  · intro hx
    have := key (-1) (.inr rfl) fun j hj => by linarith [hx j hj]
    rw [this]; norm_num

example : tsi (qs [10, 12, 11, 15, 14]) 2 2 false
    = .ok [.nan, .nan, .nan, .fin (1200/17), .fin (75/2)] := by decide +kernel
example : tsi (qs [1, 2, 4, 5]) 1 2 false = .ok [.nan, .nan, .fin 100, .fin 100] := by decide +kernel
/-- a flat series gives 0/0 -/
example : tsi (qs [5, 5, 5]) 1 1 false = .ok [.nan, .nan, .nan] := by decide +kernel

end TA
