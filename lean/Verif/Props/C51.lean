import Verif.Lemmas.NewEq
import Verif.Lemmas.Take
import Verif.Lemmas.Toy

/-! # C51: when the indicators raise -/

set_option linter.unusedSectionVars false

namespace TA
variable {F : Type} [FltFn F]

/-- The exception of each output, by the number of rows `n`, the parameters and, for Aroon with window 0 only, whether some
high or low is a number. -/
def Ind.raises (fillna : Bool) (n : Nat) (someNum : Prop) : Ind F → PyErr → Prop
  -- Wilder smoothing with window 0
  | .rsi w, e | .stochrsi w _ _, e | .stochrsiK w _ _, e | .stochrsiD w _ _, e => w = 0 ∧ e = .zeroDivision
  -- exponential smoothing with span 0
  | .tsi a b, e => (a = 0 ∨ b = 0) ∧ e = .valueError
  | .ppo a b c, e | .ppoSignal a b c, e | .ppoHist a b c, e | .pvo a b c, e | .pvoSignal a b c, e | .pvoHist a b c, e
  | .macd a b c, e | .macdSignal a b c, e | .macdDiff a b c, e => (a = 0 ∨ b = 0 ∨ c = 0) ∧ e = .valueError
  | .ema w, e | .trix w, e | .massIndex w _, e | .fi w, e | .ulcer w, e => w = 0 ∧ e = .valueError
  | .stc a b _ c d, e => (a = 0 ∨ b = 0 ∨ c = 0 ∨ d = 0) ∧ e = .valueError
  | .aroonUp w, e | .aroonDown w, e | .aroonInd w, e => w = 0 ∧ someNum ∧ e = .zeroDivision
  | .adxPos w, e | .adxNeg w, e =>
      ((w = 0 ∨ n + 1 < w) ∧ e = .valueError) ∨ (w ≠ 0 ∧ n + 1 = w ∧ e = .indexError)
  | .adx w, e =>
      ((w = 0 ∨ n + 1 < w) ∧ e = .valueError) ∨ (w ≠ 0 ∧ w ≤ n + 1 ∧ n < 2 * w ∧ e = .indexError)
  | .psar _ _, e | .psarUp _ _, e | .psarDown _ _, e | .psarUpInd _ _, e | .psarDownInd _ _, e
  | .nvi, e | .cr, e => n = 0 ∧ e = .indexError
  | .atr w, e => (n < w ∨ n = 0) ∧ e = .indexError
  -- min_periods larger than the window; original = false: span 0, then as ATR
  | .kcMband w wa o _, e | .kcHband w wa o _, e | .kcLband w wa o _, e | .kcWband w wa o _, e
  | .kcPband w wa o _, e | .kcHi w wa o _, e | .kcLi w wa o _, e =>
      (w = 0 ∧ (o = false ∨ fillna = true) ∧ e = .valueError) ∨
      (w ≠ 0 ∧ o = false ∧ (n < wa ∨ n = 0) ∧ e = .indexError)
  | .dcHband w _, e | .dcLband w _, e | .dcMband w _, e | .dcWband w _, e | .dcPband w _, e =>
      w = 0 ∧ fillna = true ∧ e = .valueError
  | _, _ => False

/-- some high or low is a number -/
def someNum (b : List (Bar F)) : Prop :=
  0 < (valid (replaceInf (highs b))).length + (valid (replaceInf (lows b))).length

theorem guard_err {α : Type} {p : Prop} [Decidable p] {e e' : PyErr} {x : α} :
    ((if p then (.error e : Except PyErr α) else .ok x) = .error e') ↔ p ∧ e' = e := by
  split_ifs with h
  · simp [h]; exact eq_comm
  · simp [h]

theorem guard_err2 {α : Type} {p q : Prop} [Decidable p] [Decidable q] {e1 e2 e' : PyErr} {x : α} :
    ((if p then (.error e1 : Except PyErr α) else if q then .error e2 else .ok x) = .error e') ↔
      (p ∧ e' = e1) ∨ (¬ p ∧ q ∧ e' = e2) := by
  split_ifs with h h2
  · simp [h]; exact eq_comm
  · simp [h, h2]; exact eq_comm
  · simp [h, h2]

theorem map_guard2 {α β : Type} {p q : Prop} [Decidable p] [Decidable q] {e1 e2 : PyErr} {x : α} {f : α → β} :
    (if p then (.error e1 : Except PyErr α) else if q then .error e2 else .ok x).map f
      = if p then .error e1 else if q then .error e2 else .ok (f x) := by
  split_ifs <;> rfl

theorem map_err {α β : Type} {x : Except PyErr α} {f : α → β} {e : PyErr} : x.map f = .error e ↔ x = .error e := by
  cases x with
  | error a => constructor <;> (intro h; cases h; rfl)
  | ok a => constructor <;> (intro h; cases h)

theorem keltner_err (h l c : Series F) (w wa : Nat) (b o : Bool) (k : F) (e : PyErr) :
    Keltner.new h l c w wa b o k = .error e ↔ (w = 0 ∧ (o = false ∨ b = true) ∧ e = .valueError) ∨
      (w ≠ 0 ∧ o = false ∧ (c.length < wa ∨ c.length = 0) ∧ e = .indexError) := by
  cases o with
  | true => rw [Keltner.new_original_eq, guard_err, Nat.lt_one_iff]; simp; tauto
  | false =>
    rw [Keltner.new_atr_eq, guard_err2]
    have h1 : c.length < max wa 1 ↔ c.length < wa ∨ c.length = 0 := by omega
    rw [h1]; simp

theorem adx_new_err (h l c : Series F) (w : Nat) (b : Bool) (e : PyErr) :
    ADX.new h l c w b = .error e ↔
      ((w = 0 ∨ c.length + 1 < w) ∧ e = .valueError) ∨ (w ≠ 0 ∧ c.length + 1 = w ∧ e = .indexError) := by
  unfold ADX.new
  split_ifs with h1 h2 h3
  · simp [h1]; exact eq_comm
  · simp [h1, show c.length + 1 < w by omega, show c.length + 1 ≠ w by omega]; exact eq_comm
  · simp [h1, show c.length + 1 = w by omega]; exact eq_comm
  · simp [h1, show ¬ c.length + 1 < w by omega, show c.length + 1 ≠ w by omega]

/-- C51. Every output raises exactly the exceptions of the table `Ind.raises`, in any arithmetic and on any data. So
whether an output raises, and what, depends only on its parameters and the number of rows (and, for Aroon with window 0,
on whether there is any number). -/
theorem raises_iff (x : Ind F) (fillna : Bool) (b : List (Bar F)) (e : PyErr) :
    x.eval fillna b = .error e ↔ x.raises fillna b.length (someNum b) e := by
  have hc : (closes b).length = b.length := by simp
  have lt1 : ∀ w : Nat, w < 1 ↔ w = 0 := by omega
  cases x
  case adx w =>
    show (ADX.new (highs b) (lows b) (closes b) w fillna >>= ADX.adx) = .error e ↔ _
    have h1 := adx_new_err (highs b) (lows b) (closes b) w fillna e
    rw [hc] at h1
    have h1' := adx_new_err (highs b) (lows b) (closes b) w fillna
    rw [hc] at h1'
    rcases hx : ADX.new (highs b) (lows b) (closes b) w fillna with e' | o
    · rw [hx] at h1
      show (Except.error e' : Except PyErr (Series F)) = .error e ↔ _
      have : ((Except.error e' : Except PyErr (Series F)) = .error e) ↔ (Except.error e' : Except PyErr (ADX F)) = .error e := by
        simp
      rw [this, h1]
      show _ ↔ (_ ∨ _)
      have h2 := (h1' e').mp hx
      constructor
      · rintro (h | ⟨h3, h4, h5⟩)
        · exact .inl h
        · exact .inr ⟨h3, by omega, by omega, h5⟩
      · rintro (h | ⟨h3, h4, h5, h6⟩)
        · exact .inl h
        · refine .inr ⟨h3, ?_, h6⟩
          rcases h2 with ⟨h7, _⟩ | ⟨_, h7, _⟩
          · omega
          · exact h7
    · obtain ⟨h2, h3, h4⟩ := ADX.new_ok hx
      rw [hc] at h3
      show ADX.adx o = .error e ↔ (_ ∨ _)
      unfold ADX.adx
      have hl : o.trs.length = b.length - (w - 1) ∧ o.window = w := by
        rw [h4]
        refine ⟨?_, rfl⟩
        simp [ADX.run, ADX.wilder, ADX.range, getMax, getMin]
      rw [guard_err, hl.1, hl.2]
      constructor
      · rintro ⟨h5, h6⟩
        exact .inr ⟨by omega, by omega, by omega, h6⟩
      · rintro (⟨h5, _⟩ | ⟨_, _, h5, h6⟩)
        · omega
        · exact ⟨by omega, h6⟩
  all_goals
    simp only [Ind.eval, Ind.raises, TA.rsi, tsi_eq, PPO.new_eq, MACD.new_eq, emaIndicator_eq, trix_eq, massIndex_eq, stc_eq,
      forceIndex_eq, ulcerIndex_eq, Donchian.new_eq, StochRSI.new_eq, Aroon.new, PSAR.new, negativeVolumeIndex,
      cumulativeReturn, averageTrueRange, map_guard, map_err, guard_err, keltner_err, adx_new_err, hc, lt1, reduceCtorEq,
      someNum]
  all_goals first
    | tauto
    | (have h1 : ∀ w : Nat, b.length < max w 1 ↔ b.length < w ∨ b.length = 0 := by omega
       rw [h1])

example : (Ind.atr 3 : Ind (Val ℚ)).raises false 2 True .indexError ∧ ¬ (Ind.atr 3 : Ind (Val ℚ)).raises false 3 True .indexError ∧
    (Ind.adx 3 : Ind (Val ℚ)).raises false 5 True .indexError ∧ ¬ ∃ e, (Ind.adx 3 : Ind (Val ℚ)).raises false 6 True e := by
  refine ⟨⟨by omega, rfl⟩, fun h => by have := h.1; omega, .inr ⟨by omega, by omega, by omega, rfl⟩, ?_⟩
  rintro ⟨e, h | h⟩
  · omega
  · omega

end TA
