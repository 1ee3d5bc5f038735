import Verif.Model.Catalogue
import Verif.Lemmas.Psar
import Verif.Spec.Causal

/-! # Row counts and prefixes of the indicators -/

set_option linter.unusedSectionVars false

namespace TA
variable {F : Type} [Flt F]

theorem except_map_ok {ε α β : Type} {f : α → β} {x : Except ε α} {y : β} (h : x.map f = .ok y) :
    ∃ a, x = .ok a ∧ f a = y := by
  cases x with
  | error e => simp [Except.map] at h
  | ok a => exact ⟨a, rfl, by simpa [Except.map] using h⟩

@[simp] theorem length_clv (h l c : Series F) : (clv h l c).length = c.length := by simp [clv]
@[simp] theorem length_typicalPrice (h l c : Series F) : (typicalPrice h l c).length = h.length := by
  simp [typicalPrice]
@[simp] theorem length_wilder (x : Series F) (w : Nat) : (ADX.wilder x w).length = x.length - (w - 1) := by
  simp [ADX.wilder]
@[simp] theorem length_range (h l c : Series F) : (ADX.range h l c).length = h.length := by simp [ADX.range]
@[simp] theorem length_flag (u x : Series F) : (PSAR.flag u x).length = u.length := by simp [PSAR.flag]

@[simp] theorem length_off (o : Donchian F) (s : Series F) : (o.off s).length = s.length := by
  unfold Donchian.off; split_ifs <;> simp

@[simp] theorem length_vis (v : Bool) (w : Nat) (s : Series F) : (Ichimoku.vis v w s).length = s.length := by
  unfold Ichimoku.vis; split_ifs <;> simp

/-! ## prefixes -/

theorem take_clv (h l c : Series F) (m : Nat) : (clv h l c).take m = clv (h.take m) (l.take m) (c.take m) := by
  unfold clv; simp only [take_fillConst, take_sdiv, take_ssub]

theorem take_typicalPrice (h l c : Series F) (m : Nat) :
    (typicalPrice h l c).take m = typicalPrice (h.take m) (l.take m) (c.take m) := by
  unfold typicalPrice; simp only [take_divc, take_sadd]

theorem take_rsi_up (c : Series F) (m : Nat) : (RSI.up c).take m = RSI.up (c.take m) := by
  unfold RSI.up; rw [take_mapF, take_sdiff]

theorem take_rsi_down (c : Series F) (m : Nat) : (RSI.down c).take m = RSI.down (c.take m) := by
  unfold RSI.down; rw [take_mapF, take_sdiff]

theorem take_dlr {F : Type} [FltFn F] (c : Series F) (m : Nat) : (DLR.run c).take m = DLR.run (c.take m) := by
  unfold DLR.run; rw [take_mulc, take_sdiff, take_mapF]

theorem take_atr_run (h l c : Series F) (w m : Nat) (_hh : h.length = c.length) :
    (ATR.run h l c w).take m = ATR.run (h.take m) (l.take m) (c.take m) w := by
  unfold ATR.run
  by_cases hw : w = 0
  · simp [hw]
  · simp only [if_neg hw, take_tab]
    apply tab_congr
    · simp
    · intro i hi
      apply iter_congr
      intro k hk s
      unfold ATR.step
      rw [← take_shift, ← take_trueRange]
      split_ifs with h1 h2
      · rfl
      · rw [List.take_take, min_eq_left (by omega)]
      · rw [ix_take_lt (by omega)]

theorem take_nvi_run (c v : Series F) (m : Nat) : (NVI.run c v).take m = NVI.run (c.take m) (v.take m) := by
  unfold NVI.run
  rw [take_tab]
  apply tab_congr
  · simp
  · intro i hi
    apply iter_congr
    intro k hk s
    unfold NVI.step
    rw [← take_pctChange, ix_take_lt (s := v) (by omega), ix_take_lt (s := v) (by omega),
      ix_take_lt (by omega)]

theorem take_flag (u x : Series F) (m : Nat) : (PSAR.flag u x).take m = PSAR.flag (u.take m) (x.take m) := by
  unfold PSAR.flag
  rw [take_tab]
  apply tab_congr
  · simp
  · intro i hi
    rw [← take_shift, ix_take_lt (s := u) (by omega), ix_take_lt (s := x) (by omega), ix_take_lt (by omega)]

/-- PSAR objects restricted to their first `m` rows. -/
def PSAR.take (o : PSAR F) (m : Nat) : PSAR F := ⟨o.psarS.take m, o.up.take m, o.down.take m, o.fillna⟩

theorem take_psar_new (h l c : Series F) (s mx : F) (b : Bool) (m : Nat) (o : PSAR F)
    (hc : 0 < (c.take m).length)
    (ho : PSAR.new h l c .positional s mx b = .ok o) :
    PSAR.new (h.take m) (l.take m) (c.take m) .positional s mx b = .ok (o.take m) := by
  have hc' : 0 < c.length := by simp at hc; omega
  rw [PSAR.new_eq _ _ _ _ _ _ hc'] at ho
  rw [PSAR.new_eq _ _ _ _ _ _ hc]
  cases ho
  simp only [PSAR.take, take_tab, Except.ok.injEq, PSAR.mk.injEq, and_true]
  refine ⟨?_, ?_, ?_⟩
  all_goals
    apply tab_congr
    · simp
    · intro i hi
      simp only [List.length_take] at hi
      by_cases h2 : i < 2
      · try rw [if_pos h2, if_pos h2, ix_take_lt (by omega)]
        try rw [if_neg (by omega), if_neg (by omega)]
      · rw [PSAR.cores_take _ _ _ _ _ _ _ (by omega)]
        try rw [if_neg h2, if_neg h2]

/-! ## backfill -/

theorem mem_valid {l : List F} {x : F} : x ∈ valid l ↔ x ∈ l ∧ Flt.isNaN x = false := by simp [valid]

theorem valid_take_head {s : List F} {m : Nat} (hm : 0 < m) (h : (valid s).head?.isSome)
    (h0 : Flt.isNaN (ix s 0) = false) : (valid (s.take m)).head? = (valid s).head? := by
  cases s with
  | nil => simp
  | cons x xs =>
    obtain ⟨m, rfl⟩ : ∃ k, m = k + 1 := ⟨m - 1, by omega⟩
    simp only [ix, List.getD_cons_zero] at h0
    simp [valid, h0]

/-- If row 0 is defined, forward filling leaves nothing for backward filling to do. -/
theorem ffill_valid {s : Series F} (h0 : Flt.isNaN (ix s 0) = false) {i : Nat} (hi : i < s.length) :
    Flt.isNaN (ix (ffill s) i) = false := by
  unfold ffill pre
  rw [ix_tab_lt hi]
  have hne : valid (s.take (i + 1)) ≠ [] := by
    cases s with
    | nil => simp at hi
    | cons x xs =>
      simp only [ix, List.getD_cons_zero] at h0
      simp [valid, h0]
  show Flt.isNaN ((valid (s.take (i + 1))).getLast?.getD nan) = false
  rw [List.getLast?_eq_some_getLast hne]
  simp only [Option.getD_some]
  exact (mem_valid.mp (List.getLast_mem hne)).2

theorem bfill_of_valid {s : Series F} (h : ∀ i, i < s.length → Flt.isNaN (ix s i) = false) : bfill s = s := by
  unfold bfill
  conv_rhs => rw [← tab_ix s]
  apply tab_congr rfl
  intro i hi
  have := h i hi
  rw [ix_lt hi] at this ⊢
  rw [List.drop_eq_getElem_cons hi]
  unfold valid
  rw [List.filter_cons_of_pos (by simp [this])]
  rfl

theorem checkFillna_back_of_first {s : Series F} (h0 : Flt.isNaN (ix (replaceInf s) 0) = false) :
    checkFillna true .back s = ffill (replaceInf s) := by
  unfold checkFillna
  simp only [if_true]
  apply bfill_of_valid
  intro i hi
  apply ffill_valid h0
  simpa using hi

theorem take_checkFillna_back {s : Series F} {m : Nat}
    (h0 : Flt.isNaN (ix (replaceInf (s.take m)) 0) = false) :
    (checkFillna true .back s).take m = checkFillna true .back (s.take m) := by
  by_cases hm : m = 0
  · subst hm; simp [checkFillna, ffill, bfill, tab, replaceInf, pre]
  have h0' : Flt.isNaN (ix (replaceInf s) 0) = false := by
    rw [← h0, ← take_replaceInf, ix_take_lt (by omega)]
  rw [checkFillna_back_of_first h0, checkFillna_back_of_first h0', take_ffill, take_replaceInf]

/-! ## look-ahead of guarded functions -/

section nla
variable {F : Type} [Flt F]

theorem nla_ok {T : List (Bar F) → Series F} (hT : ∀ b m, (T b).take m = T (b.take m)) :
    NoLookAhead (fun b => Except.ok (T b)) := by
  intro past future out h
  refine ⟨_, rfl, ?_⟩
  rw [hT, List.take_left]
  simpa using h

theorem nla_err {e : PyErr} : NoLookAhead (fun _ : List (Bar F) => (Except.error e : Except PyErr (Series F))) := by
  intro past future out h; simp at h

theorem nla_ite {p : Prop} [Decidable p] {f g : List (Bar F) → Except PyErr (Series F)}
    (h1 : NoLookAhead f) (h2 : NoLookAhead g) : NoLookAhead (fun b => if p then f b else g b) := by
  by_cases h : p <;> simpa [h]

/-- a guard on the number of rows that more rows cannot violate -/
theorem nla_guard {e : PyErr} {p : Nat → Prop} [DecidablePred p] {g : List (Bar F) → Except PyErr (Series F)}
    (hp : ∀ n m, n ≤ m → p m → p n) (h2 : NoLookAhead g) :
    NoLookAhead (fun b => if p b.length then .error e else g b) := by
  intro past future out h
  simp only at h
  split_ifs at h with h3
  have h5 : ¬ p (past ++ future).length := fun h4 => h3 (hp _ _ (by simp) h4)
  simp only [if_neg h5]
  exact h2 _ _ _ h

end nla

end TA
