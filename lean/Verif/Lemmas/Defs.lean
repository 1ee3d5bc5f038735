import Verif.Props.C27

/-! # More operations on series that are NaN up to a row and numbers from there on -/

set_option linter.unusedSectionVars false

namespace TA
open Finset
variable {K : Type} [Field K] [LinearOrder K] [IsStrictOrderedRing K]

/-- smoothing with `span = w` -/
def emaW (w : Nat) (f : Nat → K) : Nat → K := emaRec (2 / ((w : K) + 1)) f

theorem Def.ema {s : Series (Val K)} {n p : Nat} {f : Nat → K} (h : Def s n p f) {w : Nat} (hw : 1 ≤ w) (fillna : Bool) :
    Def (TA.ema s w fillna) n (p + if fillna then 0 else w - 1) (fun i => emaW w (fun j => f (p + j)) (i - p)) := by
  unfold TA.ema emaW
  rw [alphaOfSpan_fin]
  have := h.ewm (a := 2 / ((w : K) + 1)) (minp fillna w)
  cases fillna with
  | true => simpa [minp] using this
  | false =>
    have e : p + max (minp false w) 1 - 1 = p + (w - 1) := by simp only [minp]; simp; omega
    rw [e] at this; simpa using this

theorem Def.ema0 {s : Series (Val K)} {n : Nat} {f : Nat → K} (h : Def s n 0 f) {w : Nat} (hw : 1 ≤ w) (fillna : Bool) :
    Def (TA.ema s w fillna) n (if fillna then 0 else w - 1) (emaW w f) := by
  have := h.ema hw fillna
  simpa using this

theorem Def.valid_take {s : Series (Val K)} {n p : Nat} {f : Nat → K} (h : Def s n p f) {k : Nat} (hk : k ≤ n) :
    valid (s.take k) = ((List.range' p (k - p)).map f).map Val.fin := by
  induction k with
  | zero => simp [valid]
  | succ k ih =>
    have hk' : k < s.length := by rw [h.len]; omega
    have e : s.take (k + 1) = s.take k ++ [ix s k] := by
      rw [List.take_succ_eq_append_getElem hk', ix_lt hk']
    rw [e]
    unfold valid at ih ⊢
    rw [List.filter_append, ih (by omega)]
    by_cases hp : k < p
    · rw [h.gap k (by omega) hp]
      have e1 : k + 1 - p = 0 := by omega
      have e2 : k - p = 0 := by omega
      rw [e1, e2]; simp
    · rw [h.val k (by omega) (by omega)]
      have e1 : k + 1 - p = (k - p) + 1 := by omega
      rw [e1, List.range'_concat]
      simp only [List.map_append, List.map_cons, List.map_nil]
      congr 1
      simp [show p + (k - p) = k by omega]

theorem Def.cumsum {s : Series (Val K)} {n p : Nat} {f : Nat → K} (h : Def s n p f) :
    Def (TA.cumsum s) n p (fun i => ∑ j ∈ Finset.Ico p (i + 1), f j) := by
  have hr : ∀ i, i < n → ix (TA.cumsum s) i = if Flt.isNaN (ix s i) then nan else sumL (valid (s.take (i + 1))) := by
    intro i hi
    unfold TA.cumsum
    rw [ix_pre (by rw [h.len]; exact hi)]
    have e : (s.take (i + 1)).length - 1 = i := by
      rw [List.length_take, h.len]; omega
    rw [e]
    have e2 : ix (s.take (i + 1)) i = ix s i := by
      unfold ix
      simp [List.getD_eq_getElem?_getD]
    rw [e2]
  refine ⟨by simp [TA.cumsum, pre, h.len], fun i h1 h2 => ?_, fun i h1 h2 => ?_⟩
  · rw [hr i h1, h.gap i h1 h2]; rfl
  · rw [hr i h1, h.val i h1 h2, h.valid_take (by omega), sumL_fin]
    rfl

/-- a series whose rows are all numbers is its own forward fill -/
theorem ffill_ser (n : Nat) (x : Nat → K) : ffill (ser n x) = ser n x := by
  have hd := def_ser n x
  apply List.ext_getElem
  · simp [ffill, pre]
  · intro i h1 h2
    have hi : i < n := by simpa [ser] using h2
    rw [← ix_lt h1, ← ix_lt h2, ffill_at (le_refl i) h2 (by rw [hd.val i hi (Nat.zero_le _)]; rfl) (fun k a b => by omega)]

theorem def_pct (n : Nat) {x : Nat → K} (hx : ∀ i, x i ≠ 0) :
    Def (pctChange (ser n x)) n 1 (fun i => x i / x (i - 1) - 1) := by
  unfold pctChange
  rw [ffill_ser, lit_fin, Rat.cast_one]
  have := ((def_ser n x).sdiv (def_prev n x) (fun i _ _ _ => hx (i - 1))).subc 1
  simpa using this

theorem def_tp (n : Nat) (h l c : Nat → K) :
    Def (typicalPrice (ser n h) (ser n l) (ser n c)) n 0 (fun i => (h i + l i + c i) / 3) := by
  have := (((def_ser n h).sadd (def_ser n l)).sadd (def_ser n c)).divc (c := (3 : K)) (by norm_num)
  unfold typicalPrice
  rw [lit_fin]
  push_cast
  simpa using this

theorem def_clv (n : Nat) (h l c : Nat → K) (hlc : ∀ i, l i ≤ c i) (hch : ∀ i, c i ≤ h i) :
    Def (clv (ser n h) (ser n l) (ser n c)) n 0
      (fun j => if h j = l j then 0 else ((c j - l j) - (h j - c j)) / (h j - l j)) := by
  refine ⟨by simp [clv, fillConst, ser], fun i _ h2 => by omega, fun i hi _ => ?_⟩
  have e : ∀ x : Nat → K, ix (ser n x) i = .fin (x i) := fun x => (def_ser n x).val i hi (Nat.zero_le _)
  unfold clv fillConst
  rw [ix_map (by simpa [ser] using hi), ix_sdiv (by simpa [ser] using hi), ix_ssub (by simpa [ser] using hi),
    ix_ssub (by simpa [ser] using hi), ix_ssub (by simpa [ser] using hi), ix_ssub (by simpa [ser] using hi), e, e, e]
  simp only [fin_sub]
  by_cases hr : h i = l i
  · have e1 : c i - l i = 0 := by linarith [hlc i, hch i]
    have e2 : h i - c i = 0 := by linarith [hlc i, hch i]
    have e3 : h i - l i = 0 := by linarith
    rw [if_pos hr, e1, e2, e3, sub_zero, fin_div_zero]; simp
  · rw [if_neg hr, fin_div _ _ (sub_ne_zero.mpr hr)]; simp

end TA
