import Verif.Props.C02
import Verif.Lemmas.Win

/-! # C04 — KAMA's circular shift and look-ahead -/

set_option linter.unusedSectionVars false

namespace TA

section
variable {K : Type} [Field K] [LinearOrder K] [IsStrictOrderedRing K]

/-- row `(j - k) mod n` -/
def kIx (n k j : Nat) : Nat := (j + (n - k % n)) % n
/-- absolute one-row change, circular on row 0 -/
def kVol (n : Nat) (f : Nat → K) (j : Nat) : K := |f j - f (kIx n 1 j)|
/-- efficiency ratio -/
def kEr (n : Nat) (f : Nat → K) (w i : Nat) : K :=
  if wsum (kVol n f) w i ≠ 0 then |f i - f (kIx n w i)| / wsum (kVol n f) w i else 0
/-- smoothing constant -/
def kSc (n : Nat) (f : Nat → K) (w p1 p2 i : Nat) : K :=
  (kEr n f w i * (2 / ((p1 : K) + 1) - 2 / ((p2 : K) + 1)) + 2 / ((p2 : K) + 1))
    * (kEr n f w i * (2 / ((p1 : K) + 1) - 2 / ((p2 : K) + 1)) + 2 / ((p2 : K) + 1))

theorem Def.npRoll {s : Series (Val K)} {n : Nat} {f : Nat → K} (h : Def s n 0 f) (k : Nat) :
    Def (TA.npRoll s k) n 0 (fun i => f (kIx n k i)) := by
  refine ⟨by simp [h.len], fun i _ h2 => by omega, fun i h1 _ => ?_⟩
  unfold TA.npRoll
  rw [h.len, ix_tab_lt h1]
  exact h.val _ (Nat.mod_lt _ (by omega)) (by omega)

theorem kIx_of_le {n k i : Nat} (hi : i < n) (h : k ≤ i) : kIx n k i = i - k := by
  unfold kIx
  rw [Nat.mod_eq_of_lt (show k < n by omega), show i + (n - k) = i - k + n by omega, Nat.add_mod_right,
    Nat.mod_eq_of_lt (by omega)]

theorem kVol_def {c : Series (Val K)} {n : Nat} {f : Nat → K} (h : Def c n 0 f) : Def (KAMA.vol c) n 0 (kVol n f) := by
  have := (h.ssub (h.npRoll 1)).sabs
  exact this

theorem kEr_def {c : Series (Val K)} {n : Nat} {f : Nat → K} (h : Def c n 0 f) (w : Nat) :
    Def (KAMA.er c w false) n (w - 1) (kEr n f w) := by
  have h1 := (h.ssub (h.npRoll w)).sabs
  have h2 := (kVol_def h).rollSum (w := w) (Or.inr rfl)
  simp only [zero_add, max_self] at h1 h2
  refine ⟨by simp [KAMA.er, h.len], fun i h3 h4 => ?_, fun i h3 h4 => ?_⟩
  · unfold KAMA.er
    rw [ix_zip2 (by rw [h1.len]; exact h3)]
    have e := h2.gap i h3 h4
    simp only [minp, Bool.false_eq_true, if_false]
    rw [e, nan_ne, if_pos rfl, div_nan]
  · unfold KAMA.er
    rw [ix_zip2 (by rw [h1.len]; exact h3)]
    have e := h2.val i h3 h4
    simp only [minp, Bool.false_eq_true, if_false]
    rw [e, h1.val i h3 (by omega)]
    unfold kEr
    simp only [lit_fin, Rat.cast_zero, fin_ne, decide_eq_true_eq]
    split_ifs with h5
    · rw [fin_div _ _ h5]
    · rfl

theorem kSc_def {c : Series (Val K)} {n : Nat} {f : Nat → K} (h : Def c n 0 f) (w p1 p2 : Nat) :
    Def (KAMA.sc c w p1 p2 false) n (w - 1) (kSc n f w p1 p2) := by
  have q : ∀ p : Nat, ((p : K) + 1) ≠ 0 := fun p => by positivity
  unfold KAMA.sc
  refine (kEr_def h w).map ?_ (fun i h1 h2 => ?_)
  · simp
  · simp only [lit_fin, natF_fin, fin_add, Rat.cast_one, Rat.cast_ofNat, fin_div _ _ (q _), fin_sub, fin_mul]
    rfl

/-- the smoothing constant from row `w` on does not see the circular shift -/
theorem kSc_of_le {n n' : Nat} (f : Nat → K) {w p1 p2 i : Nat} (h : w ≤ i) (hn : i < n) (hn' : i < n') :
    kSc n f w p1 p2 i = kSc n' f w p1 p2 i := by
  have e : kEr n f w i = kEr n' f w i := by
    unfold kEr
    have e1 : wsum (kVol n f) w i = wsum (kVol n' f) w i := by
      unfold wsum
      apply Finset.sum_congr rfl
      intro j hj
      rw [Finset.mem_Ico] at hj
      unfold kVol
      rw [kIx_of_le (by omega) (by omega), kIx_of_le (by omega) (by omega)]
    rw [e1, kIx_of_le hn h, kIx_of_le hn' h]
  unfold kSc; rw [e]

/-- the loop before the first value -/
theorem kama_before {sc c : Series (Val K)} {n p : Nat} {g : Nat → K} (h : Def sc n p g) {k : Nat} (hk : k ≤ p)
    (hn : k ≤ n) : iter (KAMA.step sc c) (nan, true) k = (nan, true) := by
  induction k with
  | zero => rfl
  | succ k ih =>
    rw [iter_succ, ih (by omega) (by omega)]
    unfold KAMA.step
    rw [h.gap k (by omega) (by omega)]
    rfl

theorem kama_at {sc c : Series (Val K)} {n p : Nat} {g : Nat → K} (h : Def sc n p g) (hn : p < n) :
    iter (KAMA.step sc c) (nan, true) (p + 1) = (ix c p, false) := by
  rw [iter_succ, kama_before h (le_refl _) (by omega)]
  unfold KAMA.step
  rw [h.val p hn (le_refl _)]
  rfl

theorem take_kama_run {c : Series (Val K)} (hc : ∀ v ∈ c, v.IsFin) (w p1 p2 m : Nat) :
    (KAMA.run c w p1 p2 false).take m = KAMA.run (c.take m) w p1 p2 false := by
  obtain ⟨f, hf⟩ := def_of_fin hc
  have hf' : Def (c.take m) (c.take m).length 0 f := by
    refine ⟨rfl, fun i _ h2 => by omega, fun i h1 h2 => ?_⟩
    simp at h1
    rw [ix_take_lt (by omega)]
    exact hf.val i (by omega) h2
  have h1 := kSc_def hf w p1 p2
  have h2 := kSc_def hf' w p1 p2
  unfold KAMA.run
  rw [take_tab]
  apply tab_congr (by simp)
  intro i hi
  congr 1
  have hm : (c.take m).length ≤ c.length := by simp
  have hi' : i < (c.take m).length := by simp at hi ⊢; omega
  have main : ∀ k, k ≤ (c.take m).length →
      iter (KAMA.step (KAMA.sc c w p1 p2 false) c) (nan, true) k =
      iter (KAMA.step (KAMA.sc (c.take m) w p1 p2 false) (c.take m)) (nan, true) k := by
    intro k hk
    induction k with
    | zero => rfl
    | succ k ih =>
      by_cases hw : k < w - 1
      · rw [kama_before h1 (by omega) (by omega), kama_before h2 (by omega) (by omega)]
      · have ek : ix c k = ix (c.take m) k := by rw [ix_take_lt (by simp at hk; omega)]
        by_cases hw' : k = w - 1
        · subst hw'
          rw [kama_at h1 (by omega), kama_at h2 (by omega), ek]
        · rw [iter_succ, iter_succ, ih (by omega)]
          unfold KAMA.step
          rw [h1.val k (by omega) (by omega), h2.val k (by omega) (by omega), ek,
            kSc_of_le (n := c.length) (n' := (c.take m).length) f (by omega) (by omega) (by omega)]
  exact main (i + 1) (by omega)

/-- C04: with `fillna=False` and a gap-free close, appending rows never changes a KAMA row, although the volatility
and the efficiency ratio are built with a circular shift.  (Holds for every window and smoothing parameter.) -/
theorem kama_no_lookahead (w pow1 pow2 : Nat) (past future : List (Bar (Val K)))
    (hf : ∀ r ∈ past ++ future, r.close.IsFin) :
    (kama (closes (past ++ future)) w pow1 pow2).take past.length = kama (closes past) w pow1 pow2 := by
  unfold kama
  rw [take_checkFillna_false]
  simp only [checkFillna, Bool.false_eq_true, if_false]
  rw [take_kama_run]
  · unfold closes; rw [← List.map_take, List.take_left]
  · intro v hv
    obtain ⟨r, hr, rfl⟩ := List.mem_map.mp hv
    exact hf r hr

end

section witnesses
attribute [local instance] toyFn

/-- A non-trivial instance. -/
example : kama (qs [1, 2, 4, 3]) 2 2 30 = [.nan, .fin 2, .fin (26/9), .fin (2029342/700569)] := by decide +kernel

/-- Witness: with `fillna=True` the second row of KAMA depends on the last close. -/
theorem kama_leaks_fillna : ¬ NoLookAhead (fun b => (Ind.kama 2 2 30 : Ind (Val ℚ)).eval true b) :=
  not_nla [qb 1, qb 2] [qb 7] (by decide +kernel)

/-- Witness: without the assumption that no close is missing the claim fails: a gap in the last row empties row 1. -/
theorem kama_leaks_gap : ¬ NoLookAhead (fun b => (Ind.kama 2 2 30 : Ind (Val ℚ)).eval false b) :=
  not_nla [qb 1, qb 2] [qb 7, ⟨.nan, .nan, .nan, .nan⟩] (by decide +kernel)

end witnesses
end TA
