import Verif.Props.C02
import Verif.Lemmas.Fill

/-! # C09–C11 — what `fillna=True` guarantees -/

set_option linter.unusedSectionVars false
set_option linter.unusedSimpArgs false

namespace TA

section
variable {F : Type} [FltFn F] [NaNLaws F]

/-- The outputs filled by forward fill and then a constant (or made of flags).  Left out: the backfilled outputs, SMA
and EMA (which do not fill), KAMA (which fills from the close), and the Donchian outputs with an offset (shifted after
the fill). -/
def Ind.ConstFill : Ind F → Prop
  | .sma .. | .ema .. | .kama .. => False
  | .dcWband _ off | .dcPband _ off => off = 0
  | i => ¬ i.BackFill

theorem gapfree_const {s : Series F} {q : ℚ} {x : F} (hx : x ∈ checkFillna true (.const (lit q)) s)
    (hq : |q| ≤ 1000 := by norm_num [abs_le]) : Num x := by
  refine forall_ix (P := Num) (fun i hi => ?_) x hx
  simp only [length_checkFillna] at hi
  exact checkFillna_const_num (NaNLaws.lit_num q hq) hi

theorem gapfree_flag {u v : Series F} {x : F} (hx : x ∈ PSAR.flag u v) : Num x := by
  unfold PSAR.flag tab at hx
  obtain ⟨i, _, rfl⟩ := List.mem_map.mp hx
  dsimp only
  split_ifs with h1 h2 h2
  · exact NaNLaws.eq_lit_num _ _ (by norm_num) h2
  · exact NaNLaws.lit_num 1 (by norm_num)
  · exact NaNLaws.lit_num 0 (by norm_num)
  · exact NaNLaws.lit_num 1 (by norm_num)

/-- whatever the call returns satisfies `P` -/
def OutSat (P : Series F → Prop) (e : Except PyErr (Series F)) : Prop := ∀ out, e = .ok out → P out

theorem outSat_ok {P : Series F → Prop} {s : Series F} (h : P s) : OutSat P (.ok s) := by
  intro out ho; rw [← Except.ok.inj ho]; exact h

theorem outSat_err {P : Series F → Prop} {e : PyErr} : OutSat P (.error e) := by
  intro out ho; simp at ho

theorem outSat_ite {P : Series F → Prop} {p : Prop} [Decidable p] {x y : Except PyErr (Series F)} (hx : OutSat P x)
    (hy : OutSat P y) : OutSat P (if p then x else y) := by split_ifs <;> assumption

theorem gapfree_ok {s : Series F} {q : ℚ} (hq : |q| ≤ 1000 := by norm_num [abs_le]) :
    OutSat (fun out => ∀ x ∈ out, Num x) (.ok (checkFillna true (.const (lit q)) s)) :=
  outSat_ok fun _ hx => gapfree_const hx hq

/-- C09: with `fillna=True` a constant-filled output is gap-free: no NaN, no ±inf, whatever the input. -/
theorem fillna_const_gapfree (ind : Ind F) (h : ind.ConstFill) (b : List (Bar F)) (out : Series F)
    (ho : ind.eval true b = .ok out) : ∀ x ∈ out, Num x := by
  revert out
  change OutSat (fun out => ∀ x ∈ out, Num x) (ind.eval true b)
  cases ind
  all_goals try (exact absurd h id)
  all_goals try (exact absurd trivial h)
  all_goals
    simp only [Ind.eval, rsi, tsi_eq, StochRSI.new_eq, PPO.new_eq, MACD.new_eq, emaIndicator_eq, trix_eq,
      massIndex_eq, stc_eq, Donchian.new_eq, ulcerIndex_eq, forceIndex_eq, averageTrueRange, negativeVolumeIndex,
      Aroon.new, PSAR.new, map_guard, List.length_map]
  case kcWband w wa o k | kcPband w wa o k | kcHi w wa o k | kcLi w wa o k =>
    cases o
    · rw [Keltner.new_atr_eq]
      split_ifs
      · exact outSat_err
      · exact outSat_err
      · exact gapfree_ok
    · rw [Keltner.new_original_eq, map_guard]
      exact outSat_ite outSat_err gapfree_ok
  case dcWband w off | dcPband w off =>
    simp only [Ind.ConstFill] at h
    subst h
    refine outSat_ite outSat_err ?_
    simp only [Donchian.wband, Donchian.pband, Donchian.off, ne_eq, not_true_eq_false, if_false]
    exact gapfree_ok
  case adx w =>
    intro out ho
    obtain ⟨o, h1, h2⟩ : ∃ o, ADX.new (highs b) (lows b) (closes b) w true = .ok o ∧ o.adx = .ok out := by
      cases hx : ADX.new (highs b) (lows b) (closes b) w true with
      | error e => rw [hx] at ho; simp [bind, Except.bind] at ho
      | ok o => rw [hx] at ho; exact ⟨o, rfl, ho⟩
    obtain ⟨_, _, rfl⟩ := ADX.new_ok h1
    revert out
    intro out _ h2
    refine (?_ : OutSat (fun out => ∀ x ∈ out, Num x) (ADX.adx _)) out h2
    unfold ADX.adx
    exact outSat_ite outSat_err gapfree_ok
  case adxPos w | adxNeg w =>
    intro out ho
    obtain ⟨o, h1, rfl⟩ := except_map_ok ho
    obtain ⟨_, _, rfl⟩ := ADX.new_ok h1
    exact fun x hx => gapfree_const hx
  case psarUpInd | psarDownInd => exact outSat_ite outSat_err (outSat_ok fun x hx => gapfree_flag hx)
  all_goals
    first
    | exact gapfree_ok
    | exact outSat_ite outSat_err gapfree_ok

/-- The backfilled outputs, the Donchian bands only without an offset. -/
def Ind.BackFill0 : Ind F → Prop
  | .dcHband _ off | .dcLband _ off | .dcMband _ off => off = 0
  | i => i.BackFill

/-- All rows are numbers, or all rows are NaN. -/
def AllOrNothing (out : Series F) : Prop := (∀ x ∈ out, Num x) ∨ (∀ x ∈ out, x = nan)

theorem back_all_or_nothing (s : Series F) :
    ((∃ x ∈ s, Num x) ∧ ∀ x ∈ checkFillna true .back s, Num x) ∨
    ((∀ x ∈ s, ¬ Num x) ∧ ∀ x ∈ checkFillna true .back s, x = nan) := by
  by_cases h : ∃ x ∈ s, Num x
  · refine .inl ⟨h, forall_ix (fun i hi => ?_)⟩
    obtain ⟨x, hx, hn⟩ := h
    obtain ⟨j, hj, rfl⟩ := List.getElem_of_mem hx
    simp only [length_checkFillna] at hi
    exact checkFillna_back_num (j := j) hj (by rw [ix_lt hj]; exact hn) hi
  · have h' : ∀ x ∈ s, ¬ Num x := fun x hx hn => h ⟨x, hx, hn⟩
    refine .inr ⟨h', forall_ix (fun i hi => ?_)⟩
    simp only [length_checkFillna] at hi
    exact checkFillna_back_none hi (fun k hk => by rw [ix_lt hk]; exact h' _ (List.getElem_mem hk))

theorem aon_back (s : Series F) : AllOrNothing (checkFillna true .back s) := by
  rcases back_all_or_nothing s with ⟨_, h⟩ | ⟨_, h⟩
  · exact .inl h
  · exact .inr h

/-- C10: `_check_fillna(series, value=-1)` with `fillna=True` leaves no gap exactly when the (non-empty) series has a
finite value; otherwise everything is NaN. -/
theorem checkFillna_back_gapfree_iff (s : Series F) (hs : s ≠ []) :
    ((∀ x ∈ checkFillna true .back s, Num x) ↔ ∃ x ∈ s, Num x) ∧
    ((¬ ∃ x ∈ s, Num x) → ∀ x ∈ checkFillna true .back s, x = nan) := by
  have hn : ¬ Num (nan : F) := fun h => by
    have := h.1; rw [NaNLaws.isNaN_nan] at this; cases this
  rcases back_all_or_nothing s with ⟨h1, h2⟩ | ⟨h1, h2⟩
  · exact ⟨⟨fun _ => h1, fun _ => h2⟩, fun h => absurd h1 h⟩
  · refine ⟨⟨fun h => ?_, fun ⟨x, hx, hn⟩ => absurd hn (h1 x hx)⟩, fun _ => h2⟩
    have hl : 0 < (checkFillna true .back s).length := by
      rw [length_checkFillna]; exact List.length_pos_iff.mpr hs
    have := List.getElem_mem hl
    exact absurd (h2 _ this ▸ h _ this) hn

theorem aon_ok {s : Series F} : OutSat AllOrNothing (.ok (checkFillna true .back s)) := outSat_ok (aon_back s)

/-- C10 for the library: every backfilled output is, with `fillna=True`, either gap-free or entirely NaN. -/
theorem fillna_back_all_or_nothing (ind : Ind F) (h : ind.BackFill0) (b : List (Bar F)) (out : Series F)
    (ho : ind.eval true b = .ok out) : AllOrNothing out := by
  revert out
  change OutSat AllOrNothing (ind.eval true b)
  cases ind
  all_goals try (exact absurd h id)
  all_goals
    simp only [Ind.eval, Donchian.new_eq, cumulativeReturn, PSAR.new, map_guard, List.length_map]
  case kcMband w wa o k | kcHband w wa o k | kcLband w wa o k =>
    cases o
    · rw [Keltner.new_atr_eq]
      split_ifs
      · exact outSat_err
      · exact outSat_err
      · exact aon_ok
    · rw [Keltner.new_original_eq, map_guard]
      exact outSat_ite outSat_err aon_ok
  case dcHband w off | dcLband w off | dcMband w off =>
    simp only [Ind.BackFill0] at h
    subst h
    refine outSat_ite outSat_err ?_
    simp only [Donchian.hband, Donchian.lband, Donchian.mband, Donchian.off, ne_eq, not_true_eq_false, if_false]
    exact aon_ok
  all_goals
    first
    | exact aon_ok
    | exact outSat_ite outSat_err aon_ok

/-- C11 (a): `fillna=False` returns the computed series. -/
theorem checkFillna_false (v : Fill F) (s : Series F) : checkFillna false v s = s := rfl

/-- What filling with `value` must do to `s`: keep numbers, repeat the latest number over a gap, and before the first
number use the constant, or (backfill) the first number, or NaN if there is none. -/
structure IsFilled (value : Fill F) (s out : Series F) : Prop where
  rows : out.length = s.length
  keeps : ∀ i, i < s.length → Num (ix s i) → ix out i = ix s i
  forward : ∀ j i, j ≤ i → i < s.length → Num (ix s j) → (∀ k, j < k → k ≤ i → ¬ Num (ix s k)) → ix out i = ix s j
  first : ∀ i, i < s.length → (∀ k, k ≤ i → ¬ Num (ix s k)) →
    match value with
    | .const v => ix out i = v
    | .ser t => ix out i = ix t i
    | .back => (∀ j, i ≤ j → j < s.length → Num (ix s j) → (∀ k, k < j → ¬ Num (ix s k)) → ix out i = ix s j)
        ∧ ((∀ k, k < s.length → ¬ Num (ix s k)) → ix out i = nan)

/-- C11 (b): `fillna=True` fills exactly like that. -/
theorem checkFillna_isFilled (value : Fill F) (s : Series F) : IsFilled value s (checkFillna true value s) where
  rows := by simp
  keeps i hi h := checkFillna_keep hi h
  forward j i h1 h2 h3 h4 := checkFillna_ffill h1 h2 h3 h4
  first i hi h := by
    cases value with
    | const v => exact checkFillna_const_none hi h
    | ser t =>
      show ix (checkFillna true (.ser t) s) i = ix t i
      unfold checkFillna
      simp only [if_true]
      unfold fillSer
      rw [ix_zip2 (by simpa using hi), ffill_clean_none hi h, NaNLaws.isNaN_nan]; rfl
    | back => exact ⟨fun j h1 h2 h3 h4 => checkFillna_back_later h1 h2 h3 h4, fun h1 => checkFillna_back_none hi h1⟩

/-- ... and there is only one such series, so the specification determines the result. -/
theorem IsFilled.unique {value : Fill F} {s o o' : Series F} (h : IsFilled value s o) (h' : IsFilled value s o') :
    o = o' := by
  apply series_ext (h.rows.trans h'.rows.symm)
  intro i hi
  rw [h.rows] at hi
  rcases latest (fun k => Num (ix s k)) i with ⟨j, h1, h2, h3⟩ | h1
  · rw [h.forward j i h1 hi h2 h3, h'.forward j i h1 hi h2 h3]
  · have e := h.first i hi h1
    have e' := h'.first i hi h1
    cases value with
    | const v => simp only at e e'; rw [e, e']
    | ser t => simp only at e e'; rw [e, e']
    | back =>
      simp only at e e'
      rcases earliest (fun k => Num (ix s k)) 0 s.length with ⟨j', h2, h3, h4, h5⟩ | h2
      · have : i ≤ j' := by
          by_contra hc
          exact h1 j' (by omega) h4
        rw [e.1 j' this h3 h4 (fun k hk => h5 k (by omega) hk), e'.1 j' this h3 h4 (fun k hk => h5 k (by omega) hk)]
      · rw [e.2 (fun k hk => h2 k (by omega) hk), e'.2 (fun k hk => h2 k (by omega) hk)]

theorem checkFillna_of_num {value : Fill F} {s : Series F} (h : ∀ x ∈ s, Num x) : checkFillna true value s = s := by
  apply series_ext (by simp)
  intro i hi
  simp only [length_checkFillna] at hi
  exact checkFillna_keep hi (by rw [ix_lt hi]; exact h _ (List.getElem_mem hi))

/-- C11 (c): filling twice is filling once. -/
theorem checkFillna_idem (value : Fill F) (hv : ∀ v, value = .const v → Num v) (hs : ∀ t, value ≠ .ser t)
    (s : Series F) : checkFillna true value (checkFillna true value s) = checkFillna true value s := by
  cases value with
  | const v =>
    exact checkFillna_of_num (forall_ix (fun i hi => checkFillna_const_num (hv v rfl) (by simpa using hi)))
  | ser t => exact absurd rfl (hs t)
  | back =>
    rcases back_all_or_nothing s with ⟨_, h⟩ | ⟨_, h⟩
    · exact checkFillna_of_num h
    · have hn : ∀ k, k < (checkFillna true .back s).length → ¬ Num (ix (checkFillna true .back s) k) := by
        intro k hk hc
        rw [ix_lt hk, h _ (List.getElem_mem hk)] at hc
        have := hc.1; rw [NaNLaws.isNaN_nan] at this; cases this
      apply series_ext (by simp)
      intro i hi
      simp only [length_checkFillna] at hi
      rw [checkFillna_back_none (by simpa using hi) hn]
      rw [ix_lt (by simpa using hi), h _ (List.getElem_mem _)]

end

section examples
attribute [local instance] toyFn

/-- C09 on data with gaps and infinities. -/
example : (Ind.roc 1 : Ind (Val ℚ)).ConstFill ∧
    (Ind.roc 1 : Ind (Val ℚ)).eval true ([.fin 0, .fin 1, .fin 3, .nan, .pinf, .fin 4].map fun c => ⟨c, c, c, c⟩) =
      .ok [.fin 0, .fin 0, .fin 200, .fin 200, .fin 200, .fin 200] := by
  refine ⟨id, ?_⟩; decide +kernel

/-- C10: the Ichimoku base line, gap-free with one finite row, all NaN with none. -/
example : (Ind.ichimokuBase 2 : Ind (Val ℚ)).BackFill0 ∧
    (Ind.ichimokuBase 2 : Ind (Val ℚ)).eval true ([.nan, .pinf, .fin 3, .nan].map fun c => ⟨c, c, c, c⟩) =
      .ok [.fin 3, .fin 3, .fin 3, .fin 3] ∧
    (Ind.ichimokuBase 2 : Ind (Val ℚ)).eval true ([.nan, .pinf].map fun c => ⟨c, c, c, c⟩) = .ok [.nan, .nan] := by
  refine ⟨trivial, ?_, ?_⟩ <;> decide +kernel

/-- C11 -/
example : checkFillna true (.const (.fin 7)) ([.nan, .fin 1, .ninf, .nan, .fin 2] : Series (Val ℚ))
      = [.fin 7, .fin 1, .fin 1, .fin 1, .fin 2] ∧
    checkFillna true .back ([.nan, .fin 1, .ninf, .nan, .fin 2] : Series (Val ℚ)) = [.fin 1, .fin 1, .fin 1, .fin 1, .fin 2] := by
  decide +kernel

end examples
end TA
