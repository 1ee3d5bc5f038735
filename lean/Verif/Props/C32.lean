import Verif.Props.C31

/-! # C32: Donchian channel -/

set_option linter.unusedSectionVars false

namespace TA
open Finset
variable {K : Type} [Field K] [LinearOrder K] [IsStrictOrderedRing K]

theorem donchian_new {F : Type} [Flt F] {high low close : Series F} {w : Nat} {k : Int} {fillna : Bool} {o : Donchian F}
    (ho : Donchian.new high low close w k fillna = .ok o) :
    (if fillna then 1 else w) ≤ w ∧
    o = { close := close, hb := rollMax w (if fillna then 1 else w) high, lb := rollMin w (if fillna then 1 else w) low
          window := w, minPeriods := if fillna then 1 else w, offset := k, fillna := fillna } := by
  unfold Donchian.new at ho
  dsimp only at ho
  unfold chkRoll at ho
  by_cases h : w < if fillna then 1 else w
  · rw [if_pos h] at ho; cases ho
  · rw [if_neg h] at ho
    exact ⟨by omega, (Except.ok.inj ho).symm⟩

/-- C32. On any data, where the upper band is a number it is the largest high of the last `w` rows, and where the
lower band is a number it is the smallest low: every bar of the window lies inside. -/
theorem donchian_extreme {high low close : Series (Val K)} {w : Nat} (hw : 1 ≤ w) {o : Donchian (Val K)}
    (ho : Donchian.new high low close w 0 false = .ok o) (i : Nat) :
    (∀ a, ix o.hband i = .fin a → IsGreatest {x | ∃ j, j ≤ i ∧ i < j + w ∧ ix high j = .fin x} a) ∧
    (∀ b, ix o.lband i = .fin b → IsLeast {x | ∃ j, j ≤ i ∧ i < j + w ∧ ix low j = .fin x} b) := by
  have e := (donchian_new ho).2
  subst e
  unfold Donchian.hband Donchian.lband Donchian.off
  simp only [ne_eq, not_true_eq_false, if_false, noFill, Bool.false_eq_true]
  constructor
  · intro a ha
    have hi : i < high.length := by
      by_contra h
      rw [ix_ge (by simpa using h)] at ha; cases ha
    rw [ix_rollMax hi] at ha
    split_ifs at ha with h1
    have hne : obs high w i ≠ [] := by intro h; rw [h] at h1; simp at h1; omega
    obtain ⟨m, e1, e2, e3⟩ := maxL_spec hne
    rw [e1] at ha
    obtain rfl := Val.fin.inj ha
    obtain ⟨j, h2⟩ := mem_obs.mp e2
    exact ⟨⟨j, by tauto⟩, fun y ⟨j, h3, h4, h5⟩ => e3 y (mem_obs.mpr ⟨j, by tauto⟩)⟩
  · intro a ha
    have hi : i < low.length := by
      by_contra h
      rw [ix_ge (by simpa using h)] at ha; cases ha
    rw [ix_rollMin hi] at ha
    split_ifs at ha with h1
    have hne : obs low w i ≠ [] := by intro h; rw [h] at h1; simp at h1; omega
    obtain ⟨m, e1, e2, e3⟩ := minL_spec hne
    rw [e1] at ha
    obtain rfl := Val.fin.inj ha
    obtain ⟨j, h2⟩ := mem_obs.mp e2
    exact ⟨⟨j, by tauto⟩, fun y ⟨j, h3, h4, h5⟩ => e3 y (mem_obs.mpr ⟨j, by tauto⟩)⟩

/-- C32. On gap-free data, with offset 0: the five outputs, given by the largest high `H` and the smallest low `L` of
the window and the mean close. Without filling they start at row `w - 1`, with filling at row 0. -/
theorem donchian_formula {n : Nat} {h l c : Nat → K} {w : Nat} (hw : 1 ≤ w) {fillna : Bool} {o : Donchian (Val K)}
    (ho : Donchian.new (ser n h) (ser n l) (ser n c) w 0 fillna = .ok o) :
    ∃ H L : Nat → K, (∀ i, i < n → IsGreatest {x | ∃ j, j ≤ i ∧ i < j + w ∧ x = h j} (H i)) ∧
      (∀ i, i < n → IsLeast {x | ∃ j, j ≤ i ∧ i < j + w ∧ x = l j} (L i)) ∧
      Def o.hband n (if fillna then 0 else w - 1) H ∧
      Def o.lband n (if fillna then 0 else w - 1) L ∧
      Def o.mband n (if fillna then 0 else w - 1) (fun i => (H i + L i) / 2) ∧
      (∀ i, i < n → (fillna = false → w - 1 ≤ i) →
        ((∑ j ∈ Ico (i + 1 - w) (i + 1), c j) ≠ 0 → ix o.wband i = .fin
          ((H i - L i) / ((∑ j ∈ Ico (i + 1 - w) (i + 1), c j) / (min w (i + 1) : ℕ)) * 100)) ∧
        (H i ≠ L i → ix o.pband i = .fin ((c i - L i) / (H i - L i)))) := by
  obtain ⟨hmp, e⟩ := donchian_new ho
  set mp := if fillna then 1 else w with hmpd
  set p := if fillna then 0 else w - 1 with hpd
  have hp : 0 + max mp 1 - 1 = p := by rw [hmpd, hpd]; cases fillna <;> simp <;> omega
  have hp' : mp - 1 = p := by rw [hmpd, hpd]; cases fillna <;> simp
  have hp0 : fillna = true → p = 0 := fun h => by rw [hpd, if_pos h]
  have hA : Def (rollMax w mp (ser n h)) n p (wmax h w) := by
    have := (def_ser n h).rollMax' hw hmp
    rw [hp] at this
    refine this.congr fun i _ _ => ?_
    unfold wmax winIx
    rw [show i + 1 - min w (i + 1 - 0) = i + 1 - w by omega]
  have hB : Def (rollMin w mp (ser n l)) n p (wmin l w) := by
    have := (def_ser n l).rollMin' hw hmp
    rw [hp] at this
    refine this.congr fun i _ _ => ?_
    unfold wmin winIx
    rw [show i + 1 - min w (i + 1 - 0) = i + 1 - w by omega]
  have hC := (def_ser n c).rollMeanP hw hmp
  rw [hp'] at hC
  clear_value mp p
  subst e
  refine ⟨wmax h w, wmin l w, fun i _ => ?_, fun i _ => ?_, ?_, ?_, ?_, fun i hi hpi => ⟨fun hs => ?_, fun hne => ?_⟩⟩
  · obtain ⟨⟨j, h1, h2, h3⟩, h4⟩ := wmax_spec h (i := i) hw
    exact ⟨⟨j, h1, h2, h3⟩, fun y ⟨j, h5, h6, h7⟩ => h7 ▸ h4 j h5 h6⟩
  · obtain ⟨⟨j, h1, h2, h3⟩, h4⟩ := wmin_spec l (i := i) hw
    exact ⟨⟨j, h1, h2, h3⟩, fun y ⟨j, h5, h6, h7⟩ => h7 ▸ h4 j h5 h6⟩
  · unfold Donchian.hband Donchian.off
    simp only [ne_eq, not_true_eq_false, if_false]
    exact hA.fillOr hp0 _
  · unfold Donchian.lband Donchian.off
    simp only [ne_eq, not_true_eq_false, if_false]
    exact hB.fillOr hp0 _
  · unfold Donchian.mband Donchian.off
    simp only [ne_eq, not_true_eq_false, if_false]
    refine Def.fillOr ?_ hp0 _
    have := ((hA.ssub hB).divc (c := (2 : K)) (by norm_num)).sadd hB
    rw [lit_fin]
    push_cast
    rw [max_self, max_self] at this
    exact this.congr fun i _ _ => by ring
  · have hpi' : p ≤ i := by
      cases fillna with
      | true => rw [hp0 rfl]; exact Nat.zero_le _
      | false => simp at hpd; rw [hpd]; exact hpi rfl
    unfold Donchian.wband Donchian.off
    simp only [ne_eq, not_true_eq_false, if_false]
    refine fill_keep (by simp [hA.len, hi]) ?_
    unfold mulc
    have hm : wmean c w i ≠ 0 := by
      unfold wmean
      refine div_ne_zero hs ?_
      have : 0 < min w (i + 1) := by omega
      exact_mod_cast this.ne'
    rw [ix_map (by simp [ser, hi]), ix_sdiv (by simp [ser, hi]), ix_ssub (by simp [ser, hi]),
      hA.val i hi hpi', hB.val i hi hpi', hC.val i hi hpi', lit_fin, fin_sub, fin_div _ _ hm, fin_mul]
    norm_num [wmean]
  · have hpi' : p ≤ i := by
      cases fillna with
      | true => rw [hp0 rfl]; exact Nat.zero_le _
      | false => simp at hpd; rw [hpd]; exact hpi rfl
    unfold Donchian.pband Donchian.off
    simp only [ne_eq, not_true_eq_false, if_false]
    refine fill_keep (by simp [ser, hi]) ?_
    rw [ix_sdiv (by simp [ser, hi]), ix_ssub (by simp [ser, hi]), ix_ssub (by simp [ser, hi]),
      hA.val i hi hpi', hB.val i hi hpi', (def_ser n c).val i hi (Nat.zero_le _), fin_sub, fin_sub,
      fin_div _ _ (sub_ne_zero.mpr hne)]

/-- C32. With `low ≤ close ≤ high` on every row, the percentage band is in `[0, 1]` wherever the channel has width. -/
theorem donchian_pband_range {n : Nat} {h l c : Nat → K} (hlc : ∀ i, l i ≤ c i) (hch : ∀ i, c i ≤ h i) {w : Nat}
    (hw : 1 ≤ w) {fillna : Bool} {o : Donchian (Val K)}
    (ho : Donchian.new (ser n h) (ser n l) (ser n c) w 0 fillna = .ok o) {i : Nat} (hi : i < n) {a b : K}
    (ha : ix o.hband i = .fin a) (hb : ix o.lband i = .fin b) :
    b ≤ a ∧ (a ≠ b → ∃ x, ix o.pband i = .fin x ∧ 0 ≤ x ∧ x ≤ 1) := by
  obtain ⟨H, L, h1, h2, h3, h4, _, h6⟩ := donchian_formula hw ho
  have hp : (if fillna then 0 else w - 1) ≤ i := by
    by_contra hp
    rw [h3.gap i hi (by omega)] at ha; cases ha
  rw [h3.val i hi hp] at ha
  rw [h4.val i hi hp] at hb
  obtain rfl := Val.fin.inj ha
  obtain rfl := Val.fin.inj hb
  have e1 := (h1 i hi).2 ⟨i, le_refl _, by omega, rfl⟩
  have e2 := (h2 i hi).2 ⟨i, le_refl _, by omega, rfl⟩
  refine ⟨by linarith [hlc i, hch i], fun hne => ⟨_, (h6 i hi (fun hf => ?_)).2 hne, ?_, ?_⟩⟩
  · rw [hf] at hp; simpa using hp
  · exact div_nonneg (by linarith [hlc i]) (by linarith [hlc i, hch i])
  · have : 0 < H i - L i := sub_pos.mpr (lt_of_le_of_ne (by linarith [hlc i, hch i]) (Ne.symm hne))
    rw [div_le_one this]; linarith [hch i]

/-- C32. On any data a larger window gives a wider channel wherever both are numbers. -/
theorem donchian_wider {high low close : Series (Val K)} {w w' : Nat} (hw : 1 ≤ w) (hww : w ≤ w')
    {o o' : Donchian (Val K)} (ho : Donchian.new high low close w 0 false = .ok o)
    (ho' : Donchian.new high low close w' 0 false = .ok o') {i : Nat} :
    (∀ a a', ix o.hband i = .fin a → ix o'.hband i = .fin a' → a ≤ a') ∧
    (∀ b b', ix o.lband i = .fin b → ix o'.lband i = .fin b' → b' ≤ b) := by
  have H := donchian_extreme hw ho i
  have H' := donchian_extreme (hw.trans hww) ho' i
  constructor
  · intro a a' ha ha'
    obtain ⟨j, h1, h2, h3⟩ := (H.1 a ha).1
    exact (H'.1 a' ha').2 ⟨j, h1, by omega, h3⟩
  · intro b b' hb hb'
    obtain ⟨j, h1, h2, h3⟩ := (H.2 b hb).1
    exact (H'.2 b' hb').2 ⟨j, h1, by omega, h3⟩

theorem Donchian.off_shift {F : Type} [Flt F] {o o0 : Donchian F} (h0 : o0.offset = 0) (s : Series F) {i : Nat}
    (h3 : i < (o.off s).length) :
    ix (o.off s) i = if 0 ≤ (i : Int) - o.offset ∧ (i : Int) - o.offset < (o0.off s).length
      then ix (o0.off s) ((i : Int) - o.offset).toNat else nan := by
  have e0 : o0.off s = s := by unfold Donchian.off; rw [h0]; simp
  rw [e0]
  unfold Donchian.off at h3 ⊢
  generalize o.offset = k at h3 ⊢
  by_cases hk : k = 0
  · subst hk
    simp at h3 ⊢
    intro h4; omega
  · rw [if_pos hk] at h3 ⊢
    unfold shiftInt at h3 ⊢
    rw [length_tab] at h3
    rw [ix_tab_lt h3]
    by_cases h5 : (i : Int) - k < 0
    · rw [if_pos h5, if_neg (by omega)]
    · rw [if_neg h5]
      by_cases h6 : (i : Int) - k < s.length
      · rw [if_pos ⟨by omega, h6⟩]
      · rw [if_neg (by tauto), ix_ge (by omega)]

/-- C32. On any data, offset `k` moves each of the five outputs by exactly `k` rows, and the rows that nothing moves
into are NaN, also with `fillna=True`. -/
theorem donchian_offset {F : Type} [Flt F] {high low close : Series F} {w : Nat} {k : Int} {fillna : Bool} {o : Donchian F}
    (ho : Donchian.new high low close w k fillna = .ok o) :
    ∃ o0, Donchian.new high low close w 0 fillna = .ok o0 ∧
      ∀ out : Donchian F → Series F, (out = Donchian.hband ∨ out = Donchian.lband ∨ out = Donchian.mband ∨
        out = Donchian.wband ∨ out = Donchian.pband) → ∀ i : Nat, i < (out o).length →
        ix (out o) i = if 0 ≤ (i : Int) - k ∧ (i : Int) - k < (out o0).length
          then ix (out o0) ((i : Int) - k).toNat else nan := by
  obtain ⟨hmp, e⟩ := donchian_new ho
  refine ⟨{ o with offset := 0 }, by unfold Donchian.new chkRoll; dsimp only; rw [if_neg (by omega), e]; rfl,
    fun out h i hi => ?_⟩
  have hk : o.offset = k := by rw [e]
  clear e ho
  subst hk
  rcases h with rfl | rfl | rfl | rfl | rfl
  · unfold Donchian.hband at hi ⊢
    exact Donchian.off_shift (o0 := { o with offset := 0 }) rfl _ hi
  · unfold Donchian.lband at hi ⊢
    exact Donchian.off_shift (o0 := { o with offset := 0 }) rfl _ hi
  · unfold Donchian.mband at hi ⊢
    exact Donchian.off_shift (o0 := { o with offset := 0 }) rfl _ hi
  · unfold Donchian.wband at hi ⊢
    exact Donchian.off_shift (o0 := { o with offset := 0 }) rfl _ hi
  · unfold Donchian.pband at hi ⊢
    exact Donchian.off_shift (o0 := { o with offset := 0 }) rfl _ hi

example : (Donchian.new (qs [10, 12, 14]) (qs [8, 9, 10]) (qs [9, 12, 10]) 2).map (fun o => [o.hband, o.lband, o.mband, o.wband, o.pband])
    = .ok [[.nan, .fin 12, .fin 14], [.nan, .fin 8, .fin 9], [.nan, .fin 10, .fin (23 / 2)],
      [.nan, .fin (800 / 21), .fin (500 / 11)], [.nan, .fin 1, .fin (1 / 5)]] := by decide +kernel
/-- an offset leaves a NaN even with `fillna=True` -/
example : (Donchian.new (qs [10, 12, 14]) (qs [8, 9, 10]) (qs [9, 12, 10]) 2 1 true).map (fun o => (o.hband, o.lband))
    = .ok ([.nan, .fin 10, .fin 12], [.nan, .fin 8, .fin 8]) := by decide +kernel
example : (Donchian.new (qs [10, 12, 14]) (qs [8, 9, 10]) (qs [9, 12, 10]) 2 (-1) true).map (fun o => (o.hband, o.lband))
    = .ok ([.fin 12, .fin 14, .nan], [.fin 8, .fin 9, .nan]) := by decide +kernel

end TA
