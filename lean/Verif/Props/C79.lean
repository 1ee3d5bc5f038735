import Verif.Model.FloatIndex
import Verif.Props.C77

/-!
# C79: ATR on rows labelled by floats
-/

set_option linter.unusedSectionVars false

namespace TA

section generic
variable {F : Type} [Flt F]

theorem stepFrom_seed (tr : Series F) (w : Nat) : ATR.stepFrom (smean (tr.take w)) tr w = ATR.step tr w := rfl

theorem floatSlice_take {w : Nat} : ∀ (s : Series F) (ls : List ℚ) (k : Nat), ls.length = s.length →
    (∀ i, i < s.length → (i < k ↔ 0 ≤ ls.getD i 0 ∧ ls.getD i 0 ≤ (w : ℚ))) → floatSlice ls w s = s.take k := by
  intro s
  induction s with
  | nil => intro ls k hl _; cases ls <;> simp [floatSlice] at hl ⊢
  | cons x s ih =>
    intro ls k hl hk
    cases ls with
    | nil => simp at hl
    | cons a ls =>
      have h0 := hk 0 (by simp)
      simp only [List.getD_cons_zero] at h0
      have hi := fun k' hk' => ih ls k' (by simpa using hl) hk'
      unfold floatSlice at hi ⊢
      cases k with
      | zero =>
        have : ¬ (0 ≤ a ∧ a ≤ (w : ℚ)) := fun hc => absurd (h0.2 hc) (by omega)
        rw [List.zip_cons_cons, List.filter_cons_of_neg (by simpa using this), hi 0 fun i hi => ?_]
        · simp
        · have := hk (i + 1) (by simpa using hi)
          simp only [List.getD_cons_succ, Nat.not_lt_zero, false_iff] at this ⊢
          exact this
      | succ k =>
        have : 0 ≤ a ∧ a ≤ (w : ℚ) := h0.1 (by omega)
        rw [List.zip_cons_cons, List.filter_cons_of_pos (by simpa using this), List.map_cons, hi k fun i hi => ?_]
        · simp
        · have := hk (i + 1) (by simpa using hi)
          simp only [List.getD_cons_succ, Nat.add_lt_add_iff_right] at this
          exact this

/-- C79: if the labels between 0 and `window` are those of the first `window` rows, nothing changes. -/
theorem atr_float_same (labels : List ℚ) (h l c : Series F) (w : Nat) (b : Bool) (hw : 1 ≤ w) (hn : labels.length = c.length)
    (hh : h.length = c.length) (hlab : ∀ i, i < c.length → (i < w ↔ 0 ≤ labels.getD i 0 ∧ labels.getD i 0 ≤ (w : ℚ))) :
    averageTrueRangeF labels h l c w b = averageTrueRange h l c w b := by
  unfold averageTrueRangeF averageTrueRange ATR.runF ATR.run
  dsimp only
  rw [if_neg (by omega : ¬ w = 0), floatSlice_take _ labels w (by simp [trueRange, zip3, hn, hh]) (by simpa [trueRange, zip3, hh] using hlab)]
  rfl

/-- The first value: row `w - 1`. -/
theorem runF_seed (labels : List ℚ) (h l c : Series F) (w : Nat) (hw : 1 ≤ w) (hn : w ≤ c.length) :
    ix (ATR.runF labels h l c w) (w - 1) = smean (floatSlice labels w (trueRange h l (shift c 1))) := by
  unfold ATR.runF
  dsimp only
  rw [ix_tab_lt (by omega)]
  show ATR.stepFrom _ _ w (w - 1) _ = _
  unfold ATR.stepFrom
  rw [if_neg (by omega), if_pos (by omega)]

theorem floatSlice_range (w : Nat) (s : Series F) : floatSlice (tab s.length (fun i => (i : ℚ))) w s = s.take (w + 1) := by
  refine floatSlice_take s _ (w + 1) (by simp [tab]) fun i hi => ?_
  have e : (tab s.length (fun i => (i : ℚ))).getD i 0 = (i : ℚ) := by simp [tab, hi]
  rw [e, Nat.lt_succ_iff]
  exact ⟨fun h => ⟨by positivity, by exact_mod_cast h⟩, fun h => by exact_mod_cast h.2⟩

/-- C79: labels 0.0, 1.0, 2.0, …: the first value, on row `window - 1`, is the mean of the first `window + 1` true ranges: the row after it
included. -/
theorem atr_float_range (h l c : Series F) (w : Nat) (hw : 1 ≤ w) (hn : w ≤ c.length) (hh : h.length = c.length) {out : Series F}
    (ho : averageTrueRangeF (tab c.length (fun i => (i : ℚ))) h l c w false = .ok out) :
    ix out (w - 1) = smean ((trueRange h l (shift c 1)).take (w + 1)) := by
  unfold averageTrueRangeF at ho
  split_ifs at ho
  rw [noFill] at ho
  rw [← Except.ok.inj ho, runF_seed _ _ _ _ _ hw hn]
  have e : c.length = (trueRange h l (shift c 1)).length := by simp [trueRange, zip3, hh]
  rw [e, floatSlice_range]

end generic

section
variable {K : Type} [Field K] [LinearOrder K] [IsStrictOrderedRing K]

theorem floatSlice_none {labels : List ℚ} {w : Nat} {s : Series (Val K)} (hl : ∀ x ∈ labels, x < 0 ∨ (w : ℚ) < x) :
    floatSlice labels w s = [] := by
  unfold floatSlice
  rw [List.map_eq_nil_iff, List.filter_eq_nil_iff]
  intro p hp
  have := hl p.1 (List.of_mem_zip hp).1
  simp only [decide_eq_true_eq, not_and, not_le]
  intro h0
  rcases this with h | h
  · exact absurd h (by linarith)
  · exact h

theorem runF_dead {labels : List ℚ} {h l c : Series (Val K)} {w : Nat} (hw : 1 ≤ w) (hl : ∀ x ∈ labels, x < 0 ∨ (w : ℚ) < x) :
    (∀ i, i + 1 < w → i < c.length → ix (ATR.runF labels h l c w) i = .fin 0) ∧ DeadFrom (ATR.runF labels h l c w) (w - 1) := by
  unfold ATR.runF
  dsimp only
  rw [floatSlice_none hl]
  refine ⟨fun i hi hc => ?_, dead_of fun i hi hc => ?_⟩
  · rw [ix_tab_lt hc]
    show ATR.stepFrom _ _ w i _ = _
    unfold ATR.stepFrom
    rw [if_pos hi]; simp
  · rw [ix_tab_lt (by simpa using hc)]
    clear hc
    induction i, hi using Nat.le_induction with
    | base =>
      show ATR.stepFrom _ _ w (w - 1) _ = _
      unfold ATR.stepFrom
      rw [if_neg (by omega), if_pos (by omega)]; simp [smean, valid]
    | succ i hi ih =>
      show ATR.stepFrom _ _ w (i + 1) (iter _ _ (i + 1)) = _
      rw [ih]
      unfold ATR.stepFrom
      rw [if_neg (by omega), if_neg (by omega)]
      simp

/-- C79: no label between 0 and `window` (e.g. seconds since 1970): NaN from the first value on, for ever. -/
theorem atr_float_dead {labels : List ℚ} {h l c out : Series (Val K)} {w : Nat} (hw : 1 ≤ w) (hl : ∀ x ∈ labels, x < 0 ∨ (w : ℚ) < x)
    (ho : averageTrueRangeF labels h l c w false = .ok out) : DeadFrom out (w - 1) := by
  unfold averageTrueRangeF at ho
  split_ifs at ho
  rw [noFill] at ho
  rw [← Except.ok.inj ho]
  exact (runF_dead hw hl).2

/-- rows that are 0, infinite or NaN are filled with 0 -/
theorem fill_zero {s : Series (Val K)} (hs : ∀ x ∈ s, x = .fin 0 ∨ ¬ x.IsFin) :
    checkFillna true (.const (lit 0)) s = List.replicate s.length (.fin 0) := by
  rw [List.eq_replicate_iff]
  refine ⟨by simp [checkFillna, fillConst], ?_⟩
  have h1 : Every (fun x : Val K => x = .nan ∨ x = .fin 0) (s.map clean) := Every.map hs fun v hv => by
    rcases hv with rfl | hv
    · right; rfl
    · left; cases v <;> first | rfl | exact absurd ⟨_, rfl⟩ hv
  refine (h1.ffill (.inl rfl)).map (Q := fun x => x = .fin 0) fun x hx => ?_
  rcases hx with rfl | rfl <;> simp

/-- C79: with `fillna=True` that is 0 on every row. -/
theorem atr_float_zero {labels : List ℚ} {h l c out : Series (Val K)} {w : Nat} (hw : 1 ≤ w) (hl : ∀ x ∈ labels, x < 0 ∨ (w : ℚ) < x)
    (ho : averageTrueRangeF labels h l c w true = .ok out) : out = List.replicate c.length (.fin 0) := by
  unfold averageTrueRangeF at ho
  split_ifs at ho
  obtain ⟨h1, h2⟩ := runF_dead (h := h) (l := l) (c := c) hw hl
  have hlen : (ATR.runF labels h l c w).length = c.length := by simp [ATR.runF]
  rw [← Except.ok.inj ho, fill_zero, hlen]
  intro x hx
  obtain ⟨i, hi, rfl⟩ := List.getElem_of_mem hx
  rw [← ix_lt hi]
  by_cases hiw : i + 1 < w
  · exact .inl (h1 i hiw (by rw [← hlen]; exact hi))
  · right; rw [h2 i (by omega)]; rintro ⟨_, e⟩; cases e

theorem newF_eq {F : Type} [Flt F] (labels : List ℚ) (h l c : Series F) (w wa : Nat) (b : Bool) (m : F) :
    Keltner.newF labels h l c w wa b m = if w < 1 then .error .valueError
      else if c.length < max wa 1 then .error .indexError
      else .ok (Keltner.runAtr c (checkFillna b (.const (lit 0)) (ATR.runF labels h l c wa)) w b m) := by
  unfold Keltner.newF chkSpan averageTrueRangeF
  by_cases h1 : w < 1 <;> by_cases h2 : c.length < max wa 1 <;> simp only [h1, h2, if_true, if_false] <;> rfl

/-- C79: the Keltner channel built on that ATR: no bands, no width, no position from there on, and its crossing flags say 0. -/
theorem keltner_float_dead {labels : List ℚ} {h l c : Series (Val K)} {w wa : Nat} {m : Val K} {o : Keltner (Val K)} (hw : 1 ≤ wa)
    (hl : ∀ x ∈ labels, x < 0 ∨ (wa : ℚ) < x) (ho : Keltner.newF labels h l c w wa false m = .ok o) :
    DeadFrom o.hband (wa - 1) ∧ DeadFrom o.lband (wa - 1) ∧ DeadFrom o.wband (wa - 1) ∧ DeadFrom o.pband (wa - 1) ∧
      ∀ i, wa - 1 ≤ i → i < c.length → ix o.hbandIndicator i = .fin 0 ∧ ix o.lbandIndicator i = .fin 0 := by
  rw [newF_eq] at ho
  split_ifs at ho with h1 h2
  have hd := (runF_dead (h := h) (l := l) (c := c) hw hl).2
  rw [noFill] at ho
  rw [← Except.ok.inj ho]
  have la : (ATR.runF labels h l c wa).length = c.length := by simp [ATR.runF]
  generalize ATR.runF labels h l c wa = a at hd la
  have e1 : DeadFrom (sadd (ewm (alphaOfSpan w) w c) (cmul m a)) (wa - 1) := dead_of fun i hi hl => by
    have hl' : i < c.length := by simpa using hl
    rw [ix_sadd (by simpa using hl'), ix_cmul (by rw [la]; exact hl'), hd i hi]; simp
  have e2 : DeadFrom (ssub (ewm (alphaOfSpan w) w c) (cmul m a)) (wa - 1) := dead_of fun i hi hl => by
    have hl' : i < c.length := by simpa using hl
    rw [ix_ssub (by simpa using hl'), ix_cmul (by rw [la]; exact hl'), hd i hi]; simp
  unfold Keltner.hband Keltner.lband Keltner.wband Keltner.pband Keltner.hbandIndicator Keltner.lbandIndicator Keltner.runAtr
  dsimp only
  simp only [noFill, Bool.false_eq_true, if_false]
  have lt : (ewm (alphaOfSpan w) w c).length = c.length := by simp
  generalize ewm (alphaOfSpan w) w c = t at e1 e2 lt ⊢
  refine ⟨e1, e2, dead_of fun i hi hl => ?_, dead_of fun i hi hl => ?_, fun i hi hl => ⟨?_, ?_⟩⟩
  · have hl' : i < t.length := by simpa [mulc, sdiv, TA.ssub, sadd] using hl
    rw [ix_mulc (by simpa [sdiv, TA.ssub, sadd] using hl'), ix_sdiv (by simpa [TA.ssub, sadd] using hl'), ix_ssub (by simpa [sadd] using hl'), e1 i hi]
    simp
  · have hl' : i < c.length := by simpa [sdiv, TA.ssub] using hl
    rw [ix_sdiv (by simpa [TA.ssub] using hl'), ix_ssub hl', e2 i hi]
    simp
  · unfold gtFlag
    rw [ix_zip2 hl, e1 i hi]
    simp
  · unfold ltFlag
    rw [ix_zip2 hl, e2 i hi]
    simp

theorem zero_div_or (y : Val K) : (Val.fin 0 /. y *. lit 100) = .fin 0 ∨ ¬ (Val.fin 0 /. y *. lit 100).IsFin := by
  rcases y with _ | _ | _ | y
  · right; rintro ⟨_, e⟩; cases e
  · left; show Val.fin _ = _; simp
  · left; show Val.fin _ = _; simp
  · by_cases hy : y = 0
    · right
      have : (Val.fin 0 /. Val.fin y) = .nan := by show Val.div _ _ = _; simp [Val.div, hy]
      rw [this]; rintro ⟨_, e⟩; cases e
    · left
      have : (Val.fin 0 /. Val.fin y) = .fin 0 := by show Val.div _ _ = _; simp [Val.div, hy]
      rw [this]; show Val.fin _ = _; simp

theorem div_zero_inf (y : Val K) : ¬ (y /. Val.fin 0).IsFin := by
  rintro ⟨r, e⟩
  have e' : Val.div y (.fin 0) = .fin r := e
  rcases y with _ | _ | _ | y <;> simp only [Val.div] at e' <;> first | cases e' | (split_ifs at e')

/-- C79: and with `fillna=True` (finite multiplier) its three lines coincide, its width and its position are 0 on every row. -/
theorem keltner_float_flat {labels : List ℚ} {h l c : Series (Val K)} {w wa : Nat} {m : K} {o : Keltner (Val K)} (hw : 1 ≤ wa)
    (hl : ∀ x ∈ labels, x < 0 ∨ (wa : ℚ) < x) (ho : Keltner.newF labels h l c w wa true (.fin m) = .ok o) :
    o.hband = o.mband ∧ o.lband = o.mband ∧ o.wband = List.replicate c.length (.fin 0) ∧ o.pband = List.replicate c.length (.fin 0) := by
  rw [newF_eq] at ho
  split_ifs at ho with h1 h2
  have hz : checkFillna true (.const (lit 0)) (ATR.runF labels h l c wa) = List.replicate c.length (.fin 0) :=
    atr_float_zero (out := _) hw hl (by unfold averageTrueRangeF; rw [if_neg h2])
  rw [hz] at ho
  rw [← Except.ok.inj ho]
  unfold Keltner.mband Keltner.hband Keltner.lband Keltner.wband Keltner.pband Keltner.runAtr
  dsimp only
  have lt : (ewm (alphaOfSpan w) (if true = true then 1 else w) c).length = c.length := by simp
  generalize ewm (alphaOfSpan w) (if true = true then 1 else w) c = t at lt ⊢
  have hz : ∀ i, i < c.length → ix (cmul (Val.fin m) (List.replicate c.length (.fin 0))) i = .fin 0 := fun i hi => by
    rw [ix_cmul (by simpa using hi), ix_lt (by simpa using hi)]; simp
  have ep : ∀ x : Val K, (x +. Val.fin 0) = x := fun x => by cases x <;> first | rfl | simp
  have em : ∀ x : Val K, (x -. Val.fin 0) = x := fun x => by cases x <;> first | rfl | simp
  have e1 : sadd t (cmul (Val.fin m) (List.replicate c.length (.fin 0))) = t := series_ext (by simp) fun i hi => by
    have hi' : i < t.length := by simpa using hi
    rw [ix_sadd hi', hz i (by rw [← lt]; exact hi'), ep]
  have e2 : ssub t (cmul (Val.fin m) (List.replicate c.length (.fin 0))) = t := series_ext (by simp) fun i hi => by
    have hi' : i < t.length := by simpa using hi
    rw [ix_ssub hi', hz i (by rw [← lt]; exact hi'), em]
  rw [e1, e2]
  have z : ∀ x : Val K, (x -. x) = .fin 0 ∨ (x -. x) = .nan := fun x => by cases x <;> first | exact .inr rfl | simp
  refine ⟨rfl, rfl, ?_, ?_⟩
  · rw [fill_zero fun x hx => ?_]
    · simp [lt]
    · obtain ⟨i, hi, rfl⟩ := List.getElem_of_mem hx
      have hi' : i < t.length := by simpa using hi
      rw [← ix_lt hi, ix_mulc (by simpa using hi'), ix_sdiv (by simpa using hi'), ix_ssub hi']
      rcases z (ix t i) with e | e <;> rw [e]
      · exact zero_div_or _
      · right; rintro ⟨_, e⟩; cases e
  · rw [fill_zero fun x hx => ?_]
    · simp
    · obtain ⟨i, hi, rfl⟩ := List.getElem_of_mem hx
      have hi' : i < c.length := by simpa using hi
      rw [← ix_lt hi, ix_sdiv (by simpa using hi'), ix_ssub hi', ix_ssub (by rw [lt]; exact hi')]
      right
      rcases z (ix t i) with e | e <;> rw [e]
      · exact div_zero_inf _
      · have : ((ix c i -. ix t i) /. Val.nan) = .nan := by simp
        rw [this]; rintro ⟨_, e⟩; cases e

end

/-- C79: so on labels 0.0, 1.0, … the ATR is not free of look-ahead: these two differ in the last row only. -/
theorem atr_float_lookahead : ∃ (h h' l c u v : Series (Val ℚ)) (labels : List ℚ), labels = [0, 1, 2] ∧ h.take 2 = h'.take 2 ∧
    averageTrueRangeF labels h l c 2 false = .ok u ∧ averageTrueRangeF labels h' l c 2 false = .ok v ∧ u.take 2 ≠ v.take 2 :=
  ⟨qs [3, 5, 6], qs [3, 5, 9], qs [1, 2, 4], qs [2, 4, 5], qs [0, 7/3, 13/6], qs [0, 10/3, 25/6], [0, 1, 2], by decide +kernel⟩

/-- C79 on five bars labelled 0.0, 1.0, …: the second row already knows the third bar; and labelled by seconds -/
example : averageTrueRange (highs fiveBars) (lows fiveBars) (closes fiveBars) 2 = .ok (qs [0, 5/2, 9/4, 21/8, 61/16]) ∧
    averageTrueRangeF [0, 1, 2, 3, 4] (highs fiveBars) (lows fiveBars) (closes fiveBars) 2 false = .ok (qs [0, 7/3, 13/6, 31/12, 91/24]) ∧
    averageTrueRangeF [10, 11, 12, 13, 14] (highs fiveBars) (lows fiveBars) (closes fiveBars) 2 false = .ok [.fin 0, .nan, .nan, .nan, .nan] ∧
    averageTrueRangeF [10, 11, 12, 13, 14] (highs fiveBars) (lows fiveBars) (closes fiveBars) 2 true = .ok (qs [0, 0, 0, 0, 0]) := by decide +kernel

end TA
