import Verif.Props.C02
import Verif.Spec.Data
import Verif.Lemmas.AdxTake
import Verif.Lemmas.Val

/-! # C02 for the ADX family

The constructor seeds Wilder's sums with the first `window` *observed* true ranges and directional movements, wherever
they are, so causality needs them to lie in the first `window + 1` rows.  They do when no price is missing. -/

set_option linter.unusedSectionVars false

namespace TA

section general
variable {F : Type} [Flt F]

theorem seeded_of {w : Nat} {x : Series F} (hx : w + 1 ≤ x.length)
    (h : ∀ i, 1 ≤ i → i < x.length → Flt.isNaN (ix x i) = false) : Seeded w x := by
  cases x with
  | nil => simp at hx
  | cons a xs =>
    unfold Seeded
    have h1 : valid (xs.take w) = xs.take w := by
      unfold valid
      rw [List.filter_eq_self]
      intro y hy
      obtain ⟨i, hi, rfl⟩ := List.mem_iff_getElem.mp (List.mem_of_mem_take hy)
      have := h (i + 1) (by omega) (by simpa using hi)
      rw [ix_lt (by simpa using hi)] at this
      simpa using this
    have h2 : valid ((a :: xs).take (w + 1)) = valid ([a] ++ xs.take w) := by simp
    rw [h2, valid_append, List.length_append, h1, List.length_take]
    simp at hx
    omega

/-- `ADXIndicator(...).adx()` as a function of the rows -/
def adxOf (w : Nat) (fillna : Bool) (b : List (Bar F)) : Except PyErr (Series F) := do
  (← ADX.new (highs b) (lows b) (closes b) w fillna).adx
/-- `ADXIndicator(...).adx_pos()` -/
def adxPosOf (w : Nat) (fillna : Bool) (b : List (Bar F)) : Except PyErr (Series F) :=
  (ADX.new (highs b) (lows b) (closes b) w fillna).map (·.adxPos)
/-- `ADXIndicator(...).adx_neg()` -/
def adxNegOf (w : Nat) (fillna : Bool) (b : List (Bar F)) : Except PyErr (Series F) :=
  (ADX.new (highs b) (lows b) (closes b) w fillna).map (·.adxNeg)

variable {w : Nat} {fillna : Bool} {past future : List (Bar F)} {out : Series F}

theorem adxOf_append (hs : w + 1 ≤ past.length → ADX.Seeded (highs past) (lows past) (closes past) w)
    (h : adxOf w fillna past = .ok out) :
    ∃ out', adxOf w fillna (past ++ future) = .ok out' ∧ out'.take past.length = out := by
  unfold adxOf at h ⊢
  cases hn : ADX.new (highs past) (lows past) (closes past) w fillna with
  | error e => rw [hn] at h; cases h
  | ok o =>
    rw [hn] at h
    obtain ⟨h1, h2, rfl⟩ := ADX.new_ok hn
    rw [ADX.new_eq _ _ _ _ _ h1 (by simp at h2 ⊢; omega)]
    have eh : highs past = (highs (past ++ future)).take past.length := by simp [highs]
    have el : lows past = (lows (past ++ future)).take past.length := by simp [lows]
    have ec : closes past = (closes (past ++ future)).take past.length := by simp [closes]
    have hlen : w + 1 ≤ past.length := by
      by_contra hc
      change (ADX.run _ _ _ w fillna).adx = _ at h
      unfold ADX.adx at h
      rw [if_pos (by simp [ADX.run]; omega)] at h
      cases h
    refine adx_take (h := highs (past ++ future)) (l := lows (past ++ future)) (c := closes (past ++ future))
      (m := past.length) (by simp) (by simp) (by simp) h1 ?_ out ?_
    · rw [← eh, ← el, ← ec]; exact hs hlen
    · rw [← eh, ← el, ← ec]; exact h

theorem adxDi_append (hs : w + 1 ≤ past.length → ADX.Seeded (highs past) (lows past) (closes past) w) :
    (adxPosOf w fillna past = .ok out →
      ∃ out', adxPosOf w fillna (past ++ future) = .ok out' ∧ out'.take past.length = out) ∧
    (adxNegOf w fillna past = .ok out →
      ∃ out', adxNegOf w fillna (past ++ future) = .ok out' ∧ out'.take past.length = out) := by
  have eh : highs past = (highs (past ++ future)).take past.length := by simp [highs]
  have el : lows past = (lows (past ++ future)).take past.length := by simp [lows]
  have ec : closes past = (closes (past ++ future)).take past.length := by simp [closes]
  constructor
  all_goals
    intro h
    simp only [adxPosOf, adxNegOf] at h ⊢
    obtain ⟨o, hn, rfl⟩ := except_map_ok h
    obtain ⟨h1, h2, rfl⟩ := ADX.new_ok hn
    rw [ADX.new_eq _ _ _ _ _ h1 (by simp at h2 ⊢; omega)]
    refine ⟨_, rfl, ?_⟩
    simp only [ADX.adxPos, ADX.adxNeg, ADX.run, take_checkFillna_const]
    congr 1
  · rw [place_take (h := highs (past ++ future)) (l := lows (past ++ future)) (c := closes (past ++ future)) h1
      (by simp) (by simp) _ (by simp [length_pos]) ?_]
    · rw [take_range, take_pos, ← eh, ← el, ← ec]
    · intro h3
      rw [take_range, take_pos, ← eh, ← el, ← ec]
      exact ⟨(hs (by omega)).1, (hs (by omega)).2.1⟩
  · rw [place_take (h := highs (past ++ future)) (l := lows (past ++ future)) (c := closes (past ++ future)) h1
      (by simp) (by simp) _ (by simp [length_neg]) ?_]
    · rw [take_range, take_neg, ← eh, ← el, ← ec]
    · intro h3
      rw [take_range, take_neg, ← eh, ← el, ← ec]
      exact ⟨(hs (by omega)).1, (hs (by omega)).2.2⟩

end general

variable {K : Type} [Field K] [LinearOrder K]

theorem ix_col {f : Bar (Val K) → Val K} {b : List (Bar (Val K))} (hb : ∀ r ∈ b, (f r).IsFin) {i : Nat}
    (hi : i < b.length) : (ix (b.map f) i).IsFin := by
  rw [ix_lt (by simpa using hi)]
  simp only [List.getElem_map]
  exact hb _ (List.getElem_mem hi)

theorem seeded_of_finite {b : List (Bar (Val K))} (hb : FinitePrices b) {w : Nat} (hw : w + 1 ≤ b.length) :
    ADX.Seeded (highs b) (lows b) (closes b) w := by
  have key : ∀ i, 1 ≤ i → i < b.length → ∃ h l c h' l' c' : K,
      ix (highs b) i = .fin h ∧ ix (lows b) i = .fin l ∧ ix (closes b) i = .fin c ∧
      ix (shift (highs b) 1) i = .fin h' ∧ ix (shift (lows b) 1) i = .fin l' ∧
      ix (shift (closes b) 1) i = .fin c' := by
    intro i h1 h2
    obtain ⟨h, eh⟩ := ix_col (f := Bar.high) (fun r hr => (hb r hr).1) h2
    obtain ⟨l, el⟩ := ix_col (f := Bar.low) (fun r hr => (hb r hr).2.1) h2
    obtain ⟨c, ec⟩ := ix_col (f := Bar.close) (fun r hr => (hb r hr).2.2) h2
    have h3 : i - 1 < b.length := by omega
    obtain ⟨h', eh'⟩ := ix_col (f := Bar.high) (fun r hr => (hb r hr).1) h3
    obtain ⟨l', el'⟩ := ix_col (f := Bar.low) (fun r hr => (hb r hr).2.1) h3
    obtain ⟨c', ec'⟩ := ix_col (f := Bar.close) (fun r hr => (hb r hr).2.2) h3
    have hs : ∀ f : Bar (Val K) → Val K, ix (shift (b.map f) 1) i = ix (b.map f) (i - 1) := by
      intro f
      unfold shift
      rw [ix_tab_lt (by simpa using h2), if_neg (by omega)]
    exact ⟨h, l, c, h', l', c', eh, el, ec, (hs _).trans eh', (hs _).trans el', (hs _).trans ec'⟩
  refine ⟨seeded_of (by simpa using hw) ?_, seeded_of (by simpa [length_pos] using hw) ?_,
    seeded_of (by simpa [length_neg] using hw) ?_⟩
  all_goals
    intro i h1 h2
    have h2' : i < b.length := by simpa [length_pos, length_neg] using h2
    obtain ⟨h, l, c, h', l', c', e1, e2, e3, e4, e5, e6⟩ := key i h1 h2'
  · unfold ADX.range ssub zip2 getMax getMin zip2
    rw [ix_tab_lt (by simpa using h2'), ix_tab_lt (by simpa using h2'), ix_tab_lt (by simpa using h2'), e1, e2, e6]
    unfold npMax2 npMin2
    simp only [isNaN_fin, Bool.false_eq_true, if_false]
    split_ifs <;> simp
  · unfold ADX.pos ADX.dm ssub zip2
    rw [ix_tab_lt (by simpa using h2'), ix_tab_lt (by simpa using h2'), ix_tab_lt (by simpa using h2'), e1, e2, e4, e5]
    dsimp only
    split_ifs <;> simp
  · unfold ADX.neg ADX.dm ssub zip2
    rw [ix_tab_lt (by simpa using h2'), ix_tab_lt (by simpa using h2'), ix_tab_lt (by simpa using h2'), e1, e2, e4, e5]
    dsimp only
    split_ifs <;> simp

/-- C02 for `adx()`, `adx_pos()` and `adx_neg()`: with no price missing so far, appending any rows (even ones with
missing values) changes nothing already produced, with either value of `fillna`. -/
theorem adx_no_lookahead (w : Nat) (fillna : Bool) (past future : List (Bar (Val K))) (hp : FinitePrices past)
    (out : Series (Val K)) :
    (adxOf w fillna past = .ok out →
      ∃ out', adxOf w fillna (past ++ future) = .ok out' ∧ out'.take past.length = out) ∧
    (adxPosOf w fillna past = .ok out →
      ∃ out', adxPosOf w fillna (past ++ future) = .ok out' ∧ out'.take past.length = out) ∧
    (adxNegOf w fillna past = .ok out →
      ∃ out', adxNegOf w fillna (past ++ future) = .ok out' ∧ out'.take past.length = out) := by
  have hs := fun h => seeded_of_finite hp (w := w) h
  exact ⟨adxOf_append hs, (adxDi_append hs).1, (adxDi_append hs).2⟩

/-- Five rows with finite prices: the hypotheses are met and the conclusion is about defined values. -/
example : FinitePrices (K := ℚ) [qbar 3 1 2 1, qbar 4 2 3 1, qbar 6 3 5 1, qbar 5 4 4 1] ∧
    adxPosOf 1 false [qbar 3 1 2 1, qbar 4 2 3 1, qbar 6 3 5 1, qbar 5 4 4 1] =
      .ok [.fin 0, .fin 0, .fin (200/3), .fin 0] := by
  refine ⟨?_, by decide +kernel⟩
  intro r hr
  simp only [List.mem_cons, List.not_mem_nil, or_false] at hr
  rcases hr with rfl | rfl | rfl | rfl <;> exact ⟨⟨_, rfl⟩, ⟨_, rfl⟩, ⟨_, rfl⟩⟩

/-- Witness that finiteness is needed: with two closes missing, appending a row changes the +DI already produced
for row 4 (the seed takes its third true range from the appended row). -/
theorem adx_lookahead_gap :
    ¬ NoLookAhead (adxPosOf (F := Val ℚ) 3 false) :=
  not_nla [⟨.fin 3, .fin 1, .nan, .nan⟩, ⟨.fin 4, .fin 2, .nan, .nan⟩, qbar 6 3 5 1, qbar 8 4 7 1, qbar 9 5 6 1]
    [qbar 20 4 9 1] (by decide +kernel)

end TA
