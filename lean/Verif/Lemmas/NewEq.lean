import Verif.Model.Catalogue
import Mathlib.Tactic.SplitIfs

/-! # Constructors that check their arguments, as one guard -/

set_option linter.unusedSectionVars false

namespace TA
variable {F : Type} [Flt F]

theorem map_guard {α β : Type} {p : Prop} [Decidable p] {e : PyErr} {x : α} {f : α → β} :
    (if p then (.error e : Except PyErr α) else .ok x).map f = if p then .error e else .ok (f x) := by
  split_ifs <;> rfl

theorem tsi_eq (c : Series F) (slow fast : Nat) (b : Bool) :
    tsi c slow fast b = if slow < 1 ∨ fast < 1 then .error .valueError
      else .ok (checkFillna b (.const (lit 0)) (TSI.run c slow fast b)) := by
  unfold tsi chkSpan
  by_cases h1 : slow < 1 <;> by_cases h2 : fast < 1 <;>
    simp only [h1, h2, if_true, if_false, true_or, or_true, or_self] <;> rfl

theorem PPO.new_eq (c : Series F) (slow fast sign : Nat) (b : Bool) :
    PPO.new c slow fast sign b = if slow < 1 ∨ fast < 1 ∨ sign < 1 then .error .valueError
      else .ok (PPO.run c slow fast sign b) := by
  unfold PPO.new chkSpan
  by_cases h1 : slow < 1 <;> by_cases h2 : fast < 1 <;> by_cases h3 : sign < 1 <;>
    simp only [h1, h2, h3, if_true, if_false, true_or, or_true, or_self] <;> rfl

theorem MACD.new_eq (c : Series F) (slow fast sign : Nat) (b : Bool) :
    MACD.new c slow fast sign b = if slow < 1 ∨ fast < 1 ∨ sign < 1 then .error .valueError
      else .ok (MACD.run c slow fast sign b) := by
  unfold MACD.new chkSpan
  by_cases h1 : slow < 1 <;> by_cases h2 : fast < 1 <;> by_cases h3 : sign < 1 <;>
    simp only [h1, h2, h3, if_true, if_false, true_or, or_true, or_self] <;> rfl

theorem emaIndicator_eq (c : Series F) (w : Nat) (b : Bool) :
    emaIndicator c w b = if w < 1 then .error .valueError else .ok (ema c w b) := by
  unfold emaIndicator chkSpan
  by_cases h1 : w < 1 <;> simp only [h1, if_true, if_false] <;> rfl

theorem trix_eq (c : Series F) (w : Nat) (b : Bool) :
    trix c w b = if w < 1 then .error .valueError
      else .ok (checkFillna b (.const (lit 0)) (TRIX.run c w b)) := by
  unfold trix chkSpan
  by_cases h1 : w < 1 <;> simp only [h1, if_true, if_false] <;> rfl

theorem massIndex_eq (h l : Series F) (fast slow : Nat) (b : Bool) :
    massIndex h l fast slow b = if fast < 1 then .error .valueError
      else .ok (checkFillna b (.const (lit 0)) (Mass.run h l fast slow b)) := by
  unfold massIndex chkSpan
  by_cases h1 : fast < 1 <;> simp only [h1, if_true, if_false] <;> rfl

theorem stc_eq (c : Series F) (slow fast cycle s1 s2 : Nat) (b : Bool) :
    stc c slow fast cycle s1 s2 b = if slow < 1 ∨ fast < 1 ∨ s1 < 1 ∨ s2 < 1 then .error .valueError
      else .ok (checkFillna b (.const (lit 0)) (STC.run c slow fast cycle s1 s2 b)) := by
  unfold stc chkSpan
  by_cases h1 : slow < 1 <;> by_cases h2 : fast < 1 <;> by_cases h3 : s1 < 1 <;> by_cases h4 : s2 < 1 <;>
    simp only [h1, h2, h3, h4, if_true, if_false, true_or, or_true, or_self] <;> rfl

theorem forceIndex_eq (c v : Series F) (w : Nat) (b : Bool) :
    forceIndex c v w b = if w < 1 then .error .valueError
      else .ok (checkFillna b (.const (lit 0)) (FI.run c v w b)) := by
  unfold forceIndex chkSpan
  by_cases h1 : w < 1 <;> simp only [h1, if_true, if_false] <;> rfl

theorem ulcerIndex_eq {F : Type} [FltFn F] (c : Series F) (w : Nat) (b : Bool) :
    ulcerIndex c w b = if w < 1 then .error .valueError
      else .ok (checkFillna b (.const (lit 0)) (rollApply (Ulcer.fn w) w w (Ulcer.drawdown c w))) := by
  unfold ulcerIndex chkRoll
  by_cases h1 : w < 1 <;> simp only [h1, if_true, if_false] <;> rfl

theorem Donchian.new_eq (h l c : Series F) (w : Nat) (off : Int) (b : Bool) :
    Donchian.new h l c w off b = if b = true ∧ w < 1 then .error .valueError
      else .ok { close := c, hb := rollMax w (if b then 1 else w) h, lb := rollMin w (if b then 1 else w) l
                 window := w, minPeriods := (if b then 1 else w), offset := off, fillna := b } := by
  unfold Donchian.new chkRoll
  cases b
  · simp only [Bool.false_eq_true, if_false, false_and, lt_irrefl]; rfl
  · by_cases h1 : w < 1 <;> simp only [h1, if_true, if_false, and_true, and_false] <;> rfl

theorem Keltner.new_original_eq (h l c : Series F) (w wa : Nat) (b : Bool) (k : F) :
    Keltner.new h l c w wa b true k = if b = true ∧ w < 1 then .error .valueError
      else .ok (Keltner.runOriginal h l c w b) := by
  unfold Keltner.new chkRoll
  cases b
  · simp only [Bool.false_eq_true, if_false, false_and, lt_irrefl, if_true]; rfl
  · by_cases h1 : w < 1 <;> simp only [h1, if_true, if_false, and_true, and_false] <;> rfl

theorem Keltner.new_atr_eq (h l c : Series F) (w wa : Nat) (b : Bool) (k : F) :
    Keltner.new h l c w wa b false k = if w < 1 then .error .valueError
      else if c.length < max wa 1 then .error .indexError
      else .ok (Keltner.runAtr c (checkFillna b (.const (lit 0)) (ATR.run h l c wa)) w b k) := by
  unfold Keltner.new chkSpan averageTrueRange
  by_cases h1 : w < 1 <;> by_cases h2 : c.length < max wa 1 <;>
    simp only [h1, h2, if_true, if_false, Bool.false_eq_true] <;> rfl

theorem StochRSI.new_eq (c : Series F) (w s1 s2 : Nat) (b : Bool) :
    StochRSI.new c w s1 s2 b = if w = 0 then .error .zeroDivision
      else .ok { raw := StochRSI.ofRsi (checkFillna b (.const (lit 50)) (RSI.run c w b)) w
                 k := rollMean s1 s1 (StochRSI.ofRsi (checkFillna b (.const (lit 50)) (RSI.run c w b)) w)
                 smooth2 := s2, fillna := b } := by
  unfold StochRSI.new rsi
  by_cases h1 : w = 0 <;> simp only [h1, if_true, if_false] <;> rfl

theorem ADX.new_eq (h l c : Series F) (w : Nat) (b : Bool) (hw : 1 ≤ w) (hn : w ≤ c.length) :
    ADX.new h l c w b = .ok (ADX.run h l c w b) := by
  unfold ADX.new
  rw [if_neg (by omega), if_neg (by omega), if_neg (by omega)]

theorem ADX.new_ok {h l c : Series F} {w : Nat} {b : Bool} {o : ADX F} (ho : ADX.new h l c w b = .ok o) :
    1 ≤ w ∧ w ≤ c.length ∧ o = ADX.run h l c w b := by
  unfold ADX.new at ho
  split_ifs at ho with h1 h2 h3
  refine ⟨by omega, by omega, ?_⟩
  cases ho; rfl

end TA
