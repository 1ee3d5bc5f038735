import Verif.Props.C102
import Verif.Props.C25
import Verif.Props.C45

/-!
# C103: a wider bar around the same close

Two markets with the same closes and the same bars up to a row, on which the high is higher or the low is lower (or both) in one of
them: ranges, channels, directional movement, vortex and the parabolic SAR.
-/

set_option linter.unusedSectionVars false

namespace TA
open Finset
variable {K : Type} [Field K] [LinearOrder K] [IsStrictOrderedRing K] {n i : Nat} {h h' l l' c : Nat → K}

/-! ## Average True Range and the channels -/

theorem wilMean_le {f g : Nat → K} {w k : Nat} (hfg : ∀ j, j < w + k → f j ≤ g j) : wilMean f w k ≤ wilMean g w k := by
  induction k with
  | zero => exact div_le_div_of_nonneg_right (Finset.sum_le_sum fun j hj => hfg j (by have := Finset.mem_range.mp hj; omega)) (Nat.cast_nonneg _)
  | succ k ih =>
    rw [wilMean, wilMean]
    refine div_le_div_of_nonneg_right (add_le_add (mul_le_mul_of_nonneg_right (ih fun j hj => hfg j (by omega)) (Nat.cast_nonneg _))
      (hfg _ (by omega))) (Nat.cast_nonneg _)

theorem tr0_wider (hh : HigherAt i h h') (hl : HigherAt i l' l) {j : Nat} (hj : j ≤ i) : tr0 h l c j ≤ tr0 h' l' c j := by
  unfold tr0
  have a := hh.le hj
  have b := hl.le hj
  split_ifs with h0
  · subst h0; linarith
  · exact sub_le_sub (max_le_max_right _ a) (min_le_min_right _ b)

/-- C103. The Average True Range rises with the width of the bar. -/
theorem atr_wider (hh : HigherAt i h h') (hl : HigherAt i l' l) (hi : i < n) (hb : ∀ j, j < n → l j ≤ h j) (hb' : ∀ j, j < n → l' j ≤ h' j)
    {w : Nat} (hw : 1 ≤ w) {fillna : Bool} {out out' : Series (Val K)} (ho : averageTrueRange (ser n h) (ser n l) (ser n c) w fillna = .ok out)
    (ho' : averageTrueRange (ser n h') (ser n l') (ser n c) w fillna = .ok out') : Rises out out' i := by
  refine (atr_formula hb hw ho).2.rises (atr_formula hb' hw ho').2 hi (Nat.zero_le _) ?_
  split_ifs with h1
  · exact le_refl _
  · exact wilMean_le fun j hj => tr0_wider hh hl (by omega)

/-- what a channel with a higher upper and a lower lower line does, the close being the same -/
theorem keltnerSpec_wider {o o' : Keltner (Val K)} {p q : Nat} {m a b m' a' b' : Nat → K} (S : KeltnerSpec o n p q c m a b)
    (S' : KeltnerSpec o' n p q c m' a' b') (hi : i < n) (hp : p ≤ i) (hq : q ≤ i) (hm : 0 < m i) (hm' : 0 < m' i)
    (ha : a i ≤ a' i) (hb : b' i ≤ b i) (hw : (a i - b i) / m i ≤ (a' i - b' i) / m' i) :
    Rises o.hband o'.hband i ∧ Sinks o.lband o'.lband i ∧ Rises o.wband o'.wband i ∧
    Sinks o.hbandIndicator o'.hbandIndicator i ∧ Sinks o.lbandIndicator o'.lbandIndicator i := by
  refine ⟨S.hband.rises S'.hband hi hq ha, S.lband.sinks S'.lband hi hq hb,
    ⟨_, _, S.wband i hi hp hq hm.ne', S'.wband i hi hp hq hm'.ne', mul_le_mul_of_nonneg_right hw (by norm_num)⟩,
    S.above.sinks S'.above hi (Nat.zero_le _) ?_, S.below.sinks S'.below hi (Nat.zero_le _) ?_⟩
  · by_cases hx : a' i < c i
    · rw [if_pos ⟨hq, hx⟩, if_pos ⟨hq, by linarith⟩]
    · rw [if_neg fun h => hx h.2]
      split_ifs <;> norm_num
  · by_cases hx : c i < b' i
    · rw [if_pos ⟨hq, hx⟩, if_pos ⟨hq, by linarith⟩]
    · rw [if_neg fun h => hx h.2]
      split_ifs <;> norm_num

/-- C103. The Keltner channel (Average True Ranges around an exponential mean) opens on both sides, its middle line stays, and its flags
can only be lowered. -/
theorem keltner_atr_wider (hh : HigherAt i h h') (hl : HigherAt i l' l) (hi : i < n) (hb : ∀ j, j < n → l j ≤ h j)
    (hb' : ∀ j, j < n → l' j ≤ h' j) (hpos : ∀ j, 0 < c j) {w wa : Nat} (hw : 1 ≤ w) (hwa : 1 ≤ wa) {fillna : Bool}
    (hp : (if fillna then 0 else w - 1) ≤ i) {k : K} (hk : 0 ≤ k) {o o' : Keltner (Val K)}
    (ho : Keltner.new (ser n h) (ser n l) (ser n c) w wa fillna false (.fin k) = .ok o)
    (ho' : Keltner.new (ser n h') (ser n l') (ser n c) w wa fillna false (.fin k) = .ok o') :
    ix o'.mband i = ix o.mband i ∧
    Rises o.hband o'.hband i ∧ Sinks o.lband o'.lband i ∧ Rises o.wband o'.wband i ∧
    Sinks o.hbandIndicator o'.hbandIndicator i ∧ Sinks o.lbandIndicator o'.lbandIndicator i := by
  obtain ⟨atr, ⟨t, ht, dt⟩, a0, S⟩ := keltner_atr_formula hb hw hwa ho
  obtain ⟨atr', ⟨t', ht', dt'⟩, a0', S'⟩ := keltner_atr_formula hb' hw hwa ho'
  have ea : atr i ≤ atr' i := by
    obtain ⟨x, x', hx, hx', hle⟩ := atr_wider hh hl hi hb hb' hwa ht ht'
    rw [dt.val i hi (Nat.zero_le _)] at hx
    rw [dt'.val i hi (Nat.zero_le _)] at hx'
    rw [Val.fin.inj hx, Val.fin.inj hx']
    exact hle
  have hm : 0 < emaRec (2 / ((w : K) + 1)) c i := emaRec_pos_all (span_pos w) (span_le w hw) fun j _ => hpos j
  have ka := mul_le_mul_of_nonneg_left ea hk
  refine ⟨by rw [S.mband.val i hi hp, S'.mband.val i hi hp], keltnerSpec_wider S S' hi hp hp hm hm ?_ ?_ ?_⟩
  · linarith
  · linarith
  · exact div_le_div_of_nonneg_right (by linarith) hm.le

/-- C103. So does the original Keltner channel (its middle line follows the bar, C102; the relative width needs positive prices). -/
theorem keltner_original_wider (hh : HigherAt i h h') (hl : HigherAt i l' l) (hi : i < n) (hb : ∀ j, l j ≤ h j)
    (hpos : ∀ j, 0 < l j ∧ 0 < c j) (hpos' : ∀ j, 0 < l' j) {w wa : Nat} (hw : 1 ≤ w) {fillna : Bool}
    (hp : (if fillna then 0 else w - 1) ≤ i) {k : Val K} {o o' : Keltner (Val K)}
    (ho : Keltner.new (ser n h) (ser n l) (ser n c) w wa fillna true k = .ok o)
    (ho' : Keltner.new (ser n h') (ser n l') (ser n c) w wa fillna true k = .ok o') :
    Rises o.hband o'.hband i ∧ Sinks o.lband o'.lband i ∧ Rises o.wband o'.wband i ∧
    Sinks o.hbandIndicator o'.hbandIndicator i ∧ Sinks o.lbandIndicator o'.lbandIndicator i := by
  have S := keltner_original_formula hw ho
  have S' := keltner_original_formula hw ho'
  have hm0 : (0 : K) < (min w (i + 1) : ℕ) := by exact_mod_cast (by omega : 0 < min w (i + 1))
  have wi : ∀ j ∈ Ico (i + 1 - w) (i + 1), j ≤ i := fun j hj => by have := (Finset.mem_Ico.mp hj).2; omega
  have ne : (Ico (i + 1 - w) (i + 1)).Nonempty := ⟨i, Finset.mem_Ico.mpr ⟨by omega, by omega⟩⟩
  have mp : ∀ {h l : Nat → K}, (∀ j, j ≤ i → 0 < l j ∧ l j ≤ h j) → 0 < wmean (fun j => (h j + l j + c j) / 3) w i := fun {h l} hp =>
    div_pos (Finset.sum_pos (fun j hj => by have := hp j (wi j hj); have := (hpos j).2; linarith) ne) hm0
  have hb1 : ∀ j, j ≤ i → 0 < l' j ∧ l' j ≤ h' j := fun j hj => ⟨hpos' j, (hl.le hj).trans ((hb j).trans (hh.le hj))⟩
  have m1 := mp fun j _ => ⟨(hpos j).1, hb j⟩
  have m2 := mp hb1
  have diff : ∀ h l : Nat → K, wmean (fun j => (4 * h j - 2 * l j + c j) / 3) w i - wmean (fun j => (-2 * h j + 4 * l j + c j) / 3) w i
      = (∑ j ∈ Ico (i + 1 - w) (i + 1), 2 * (h j - l j)) / (min w (i + 1) : ℕ) := fun h l => by
    unfold wmean
    rw [← sub_div, ← Finset.sum_sub_distrib]
    congr 1
    exact Finset.sum_congr rfl fun j _ => by ring
  refine keltnerSpec_wider S S' hi hp (Nat.zero_le _) m1 m2 ?_ ?_ ?_
  · exact div_le_div_of_nonneg_right (Finset.sum_le_sum fun j hj => by
      have := hh.le (wi j hj); have := hl.le (wi j hj); linarith) hm0.le
  · exact div_le_div_of_nonneg_right (Finset.sum_le_sum fun j hj => by
      have := hh.le (wi j hj); have := hl.le (wi j hj); linarith) hm0.le
  · rw [diff, diff]
    rw [div_le_div_iff₀ m1 m2]
    unfold wmean
    rw [div_mul_div_comm, div_mul_div_comm]
    refine div_le_div_of_nonneg_right ?_ (mul_nonneg hm0.le hm0.le)
    have e1 := hh.wsum hw
    have e2 := hl.wsum hw
    have sm : ∀ h l : Nat → K, ∑ j ∈ Ico (i + 1 - w) (i + 1), (h j + l j + c j) / 3
        = (∑ j ∈ Ico (i + 1 - w) (i + 1), h j + ∑ j ∈ Ico (i + 1 - w) (i + 1), l j + ∑ j ∈ Ico (i + 1 - w) (i + 1), c j) / 3 := fun h l => by
      rw [← Finset.sum_add_distrib, ← Finset.sum_add_distrib, Finset.sum_div]
    have sw : ∀ h l : Nat → K, ∑ j ∈ Ico (i + 1 - w) (i + 1), 2 * (h j - l j)
        = 2 * (∑ j ∈ Ico (i + 1 - w) (i + 1), h j - ∑ j ∈ Ico (i + 1 - w) (i + 1), l j) := fun h l => by
      rw [← Finset.sum_sub_distrib, Finset.mul_sum]
    have a1 := sub_nonneg.mpr hh.now
    have a2 := sub_nonneg.mpr hl.now
    have p1 : 0 < ∑ j ∈ Ico (i + 1 - w) (i + 1), c j := Finset.sum_pos (fun j _ => (hpos j).2) ne
    have p2 : 0 < ∑ j ∈ Ico (i + 1 - w) (i + 1), l' j := Finset.sum_pos (fun j _ => hpos' j) ne
    have p3 : 0 < ∑ j ∈ Ico (i + 1 - w) (i + 1), h j := Finset.sum_pos (fun j _ => (hpos j).1.trans_le (hb j)) ne
    rw [sm, sm, sw, sw, e1, e2]
    generalize ∑ j ∈ Ico (i + 1 - w) (i + 1), c j = C at *
    generalize ∑ j ∈ Ico (i + 1 - w) (i + 1), l' j = L at *
    generalize ∑ j ∈ Ico (i + 1 - w) (i + 1), h j = H at *
    generalize h' i - h i = x at *
    generalize l i - l' i = y at *
    have t1 := mul_nonneg a1 (add_pos p1 p2).le
    have t2 := mul_nonneg a2 (add_pos p1 p3).le
    have t3 := mul_nonneg a1 a2
    nlinarith

/-- C103. The Donchian channel opens on both sides. -/
theorem donchian_bar_wider (hh : HigherAt i h h') (hl : HigherAt i l' l) (hi : i < n) (hpos : ∀ j, 0 < c j) {w : Nat} (hw : 1 ≤ w)
    {fillna : Bool} (hp : (if fillna then 0 else w - 1) ≤ i) {o o' : Donchian (Val K)}
    (ho : Donchian.new (ser n h) (ser n l) (ser n c) w 0 fillna = .ok o)
    (ho' : Donchian.new (ser n h') (ser n l') (ser n c) w 0 fillna = .ok o') :
    Rises o.hband o'.hband i ∧ Sinks o.lband o'.lband i ∧ Rises o.wband o'.wband i := by
  obtain ⟨H, L, hH, hL, dH, dL, dM, v⟩ := donchian_formula hw ho
  obtain ⟨H', L', hH', hL', dH', dL', dM', v'⟩ := donchian_formula hw ho'
  have eH : H i ≤ H' i := by
    obtain ⟨j, j1, j2, e⟩ := (hH i hi).1
    rw [e]; exact (hh.le j1).trans ((hH' i hi).2 ⟨j, j1, j2, rfl⟩)
  have eL : L' i ≤ L i := by
    obtain ⟨j, j1, j2, e⟩ := (hL i hi).1
    rw [e]; exact ((hL' i hi).2 ⟨j, j1, j2, rfl⟩ : L' i ≤ l' j).trans (hl.le j1)
  have hp' : fillna = false → w - 1 ≤ i := fun hf => by simpa [hf] using hp
  have hm0 : (0 : K) < (min w (i + 1) : ℕ) := by exact_mod_cast (by omega : 0 < min w (i + 1))
  have hs : 0 < ∑ j ∈ Ico (i + 1 - w) (i + 1), c j := Finset.sum_pos (fun j _ => hpos j) ⟨i, Finset.mem_Ico.mpr ⟨by omega, by omega⟩⟩
  exact ⟨dH.rises dH' hi hp eH, dL.sinks dL' hi hp eL, _, _, (v i hi hp').1 hs.ne', (v' i hi hp').1 hs.ne',
    mul_le_mul_of_nonneg_right (div_le_div_of_nonneg_right (by linarith) (div_pos hs hm0).le) (by norm_num)⟩

/-! ## the mass index -/

/-- C103. The mass index rises with the width of the bar, although the smoothed smoothed range it divides by rises too. -/
theorem mass_wider (hh : HigherAt i h h') (hl : HigherAt i l' l) (hi : i < n) (hb : ∀ j, l j < h j) (hb' : ∀ j, l' j < h' j)
    {fast slow : Nat} (hf : 1 ≤ fast) (hs : 1 ≤ slow) {fillna : Bool} (hp : (if fillna then 0 else 2 * fast + slow - 3) ≤ i)
    {out out' : Series (Val K)} (ho : massIndex (ser n h) (ser n l) fast slow fillna = .ok out)
    (ho' : massIndex (ser n h') (ser n l') fast slow fillna = .ok out') : Rises out out' i := by
  obtain ⟨p, E1, E2, u, ep, h1, h2, hu, d⟩ := mass_formula (n := n) hb hf hs fillna
  obtain ⟨p', E1', E2', u', ep', h1', h2', hu', d'⟩ := mass_formula (n := n) hb' hf hs fillna
  obtain rfl := Except.ok.inj (hu.symm.trans ho)
  obtain rfl := Except.ok.inj (hu'.symm.trans ho')
  obtain rfl : p' = p := by rw [ep, ep']
  have wide : HigherAt i (fun j => h j - l j) (fun j => h' j - l' j) :=
    ⟨fun j hj => by rw [hh.before j hj, hl.before j hj], sub_le_sub hh.now hl.now⟩
  have k1 : HigherAt i E1 E1' := by rw [funext h1, funext h1']; exact wide.emas hf
  have q1 : ∀ j, 0 < E1 j := fun j => by rw [h1]; exact emaW_pos hf fun j _ => sub_pos.mpr (hb j)
  have q1' : ∀ j, 0 < E1' j := fun j => by rw [h1']; exact emaW_pos hf fun j _ => sub_pos.mpr (hb' j)
  have q2 : 0 < E2 i := by rw [h2]; exact emaW_pos hf fun j _ => q1 _
  have q2' : 0 < E2' i := by rw [h2']; exact emaW_pos hf fun j _ => q1' _
  have hpi : p' ≤ i := by rw [ep]; split_ifs at hp ⊢ <;> omega
  have win : ∀ j, i + 1 - slow ≤ j → p' ≤ j := fun j hj => by rw [ep]; split_ifs at hp ⊢ <;> omega
  have k2 : E2' i = E2 i + emaWt (2 / ((fast : K) + 1)) (i - p') * (E1' i - E1 i) := by
    rw [h2, h2', (k1.from hpi).ema, Nat.add_sub_cancel' hpi]
  have k3 : emaWt (2 / ((fast : K) + 1)) (i - p') * E1 i ≤ E2 i := by
    rw [h2, emaRec_split, Nat.add_sub_cancel' hpi]
    have : 0 ≤ emaHead (2 / ((fast : K) + 1)) (fun j => E1 (p' + j)) (i - p') := by
      cases i - p' with
      | zero => exact le_refl _
      | succ m => exact mul_nonneg (sub_nonneg.mpr (span_le fast hf)) (emaRec_pos_all (span_pos fast) (span_le fast hf) fun k _ => q1 _).le
    linarith
  refine d.rises d' hi hp (Finset.sum_le_sum fun j hj => ?_)
  have hj := Finset.mem_Ico.mp hj
  rcases Nat.lt_or_ge j i with c1 | c1
  · have pj := win j hj.1
    rw [k1.before j c1, h2 j, h2' j, emaRec_same (f := fun j => E1 (p' + j)) (g := fun j => E1' (p' + j)) fun m hm => k1.before _ (by omega)]
  · obtain rfl : j = i := by omega
    rw [div_le_div_iff₀ q2 q2', k2]
    have := mul_le_mul_of_nonneg_right k3 (sub_nonneg.mpr k1.now)
    nlinarith

/-! ## directional movement and vortex -/

theorem wil_le {f g : Nat → K} {w : Nat} (hw : 1 ≤ w) {k : Nat} (hfg : ∀ j, 1 ≤ j → j ≤ w + k → f j ≤ g j) : wil f w k ≤ wil g w k := by
  induction k with
  | zero => exact Finset.sum_le_sum fun j hj => hfg j (Finset.mem_Ico.mp hj).1 (by have := (Finset.mem_Ico.mp hj).2; omega)
  | succ k ih =>
    unfold wil
    have hw' : (1 : K) ≤ w := by exact_mod_cast hw
    have ih := ih fun j a b => hfg j a (by omega)
    have h1 : (wil g w k - wil f w k) / w ≤ wil g w k - wil f w k := div_le_self (by linarith) hw'
    rw [sub_div] at h1
    linarith [hfg (w + 1 + k) (by omega) (by omega)]

/-- a smaller share of more -/
theorem dirInd_anti {t t' d d' : K} (hd' : 0 ≤ d') (hd : d' ≤ d) (ht : t ≤ t') (hdt : d ≤ t) : dirInd t' d' ≤ dirInd t d := by
  unfold dirInd
  have t0 : 0 ≤ t := (hd'.trans hd).trans hdt
  by_cases z : t = 0
  · obtain rfl : d' = 0 := le_antisymm (by linarith) hd'
    simp [z]
  · have z0 : 0 < t := lt_of_le_of_ne t0 (Ne.symm z)
    rw [if_neg z, if_neg (z0.trans_le ht).ne']
    exact div_le_div₀ (by linarith) (by linarith) z0 ht

theorem trv_wider (hh : HigherAt i h h') (hl : HigherAt i l' l) {j : Nat} (hj : j ≤ i) : trv h l c j ≤ trv h' l' c j :=
  sub_le_sub (max_le_max_right _ (hh.le hj)) (min_le_min_right _ (hl.le hj))

/-- C103. A higher high lowers -DI, a lower low lowers +DI: the directional movement it takes away and the true range it adds
both count against it. -/
theorem di_wider (hi : i < n) (hlc : ∀ j, l j ≤ c j) (hch : ∀ j, c j ≤ h j) {w : Nat} {fillna : Bool} {o o' : ADX (Val K)}
    (ho : ADX.new (ser n h) (ser n l) (ser n c) w fillna = .ok o)
    (ho' : ADX.new (ser n h') (ser n l') (ser n c) w fillna = .ok o') :
    (HigherAt i h h' → l' = l → Sinks o.adxNeg o'.adxNeg i) ∧ (h' = h → HigherAt i l' l → Sinks o.adxPos o'.adxPos i) := by
  have hw : 1 ≤ w := (adx_obj ho).1
  constructor
  · rintro hh rfl
    refine (adx_di_formula ho).2.sinks (adx_di_formula ho').2 hi (Nat.zero_le _) ?_
    split_ifs with hwi
    · exact le_refl _
    · refine dirInd_anti (wil_nonneg (dmDown_nonneg _ _) hw _) (wil_le hw fun j j1 j2 => ?_)
        (wil_le hw fun j j1 j2 => trv_wider hh (HigherAt.refl _ _) (by omega)) (wil_le hw fun j _ _ => ?_)
      · have a := hh.le (j := j) (by omega)
        have b := hh.before (j - 1) (by omega)
        unfold dmDown
        rw [b]
        split_ifs with x y y
        · exact le_refl _
        · exact absurd ⟨by linarith [x.1], x.2⟩ y
        · exact y.2.le
        · exact le_refl _
      · have := dm_le_tr hlc hch j
        have := dmUp_nonneg h l' j
        linarith
  · rintro rfl hl
    refine (adx_di_formula ho).1.sinks (adx_di_formula ho').1 hi (Nat.zero_le _) ?_
    split_ifs with hwi
    · exact le_refl _
    · refine dirInd_anti (wil_nonneg (dmUp_nonneg _ _) hw _) (wil_le hw fun j j1 j2 => ?_)
        (wil_le hw fun j j1 j2 => trv_wider (HigherAt.refl _ _) hl (by omega)) (wil_le hw fun j _ _ => ?_)
      · have a := hl.le (j := j) (by omega)
        have b := hl.before (j - 1) (by omega)
        unfold dmUp
        rw [b]
        split_ifs with x y y
        · exact le_refl _
        · exact absurd ⟨by linarith [x.1], x.2⟩ y
        · exact y.2.le
        · exact le_refl _
      · have := dm_le_tr hlc hch j
        have := dmDown_nonneg h' l j
        linarith

/-- C103. A higher high lowers the negative vortex line, a lower low the positive one. -/
theorem vortex_wider (hi : i < n) (hb : ∀ j, l j < h j) (hb' : ∀ j, l' j < h' j) {w : Nat} (hw : 1 ≤ w) {fillna : Bool}
    (hp : (if fillna then 0 else w) ≤ i) :
    (HigherAt i h h' → l' = l → Sinks (vortexNeg (ser n h) (ser n l) (ser n c) w fillna) (vortexNeg (ser n h') (ser n l') (ser n c) w fillna) i) ∧
    (h' = h → HigherAt i l' l → Sinks (vortexPos (ser n h) (ser n l) (ser n c) w fillna) (vortexPos (ser n h') (ser n l') (ser n c) w fillna) i) := by
  obtain ⟨P, M, hP, hM, dP, dM, -⟩ := vortex_formula (n := n) (c := c) hb hw fillna
  obtain ⟨P', M', hP', hM', dP', dM', -⟩ := vortex_formula (n := n) (c := c) hb' hw fillna
  have pos : ∀ {h l : Nat → K}, (∀ j, l j < h j) → 0 < ∑ j ∈ Ico (i + 1 - w) (i + 1), trP h l (prevOr n c 1) j := fun {h l} hb =>
    Finset.sum_pos (fun j _ => sub_pos.mpr ((min_le_left _ _).trans_lt ((hb j).trans_le (le_max_left _ _))))
      ⟨i, Finset.mem_Ico.mpr ⟨by omega, by omega⟩⟩
  have den : HigherAt i h h' → HigherAt i l' l → ∑ j ∈ Ico (i + 1 - w) (i + 1), trP h l (prevOr n c 1) j
      ≤ ∑ j ∈ Ico (i + 1 - w) (i + 1), trP h' l' (prevOr n c 1) j := fun hh hl => Finset.sum_le_sum fun j hj => by
    have hj := Finset.mem_Ico.mp hj
    exact sub_le_sub (max_le_max_right _ (hh.le (by omega))) (min_le_min_right _ (hl.le (by omega)))
  constructor
  · rintro hh rfl
    refine dM.sinks dM' hi hp ?_
    rw [hM, hM']
    have e : ∑ j ∈ Ico (max 1 (i + 1 - w)) (i + 1), |l' j - h' (j - 1)| = ∑ j ∈ Ico (max 1 (i + 1 - w)) (i + 1), |l' j - h (j - 1)| :=
      Finset.sum_congr rfl fun j hj => by
        have hj := Finset.mem_Ico.mp hj
        rw [hh.before (j - 1) (by omega)]
    rw [e]
    exact div_le_div_of_nonneg_left (Finset.sum_nonneg fun _ _ => abs_nonneg _) (pos hb) (den hh (HigherAt.refl _ _))
  · rintro rfl hl
    refine dP.sinks dP' hi hp ?_
    rw [hP, hP']
    have e : ∑ j ∈ Ico (max 1 (i + 1 - w)) (i + 1), |h' j - l' (j - 1)| = ∑ j ∈ Ico (max 1 (i + 1 - w)) (i + 1), |h' j - l (j - 1)| :=
      Finset.sum_congr rfl fun j hj => by
        have hj := Finset.mem_Ico.mp hj
        rw [hl.before (j - 1) (by omega)]
    rw [e]
    exact div_le_div_of_nonneg_left (Finset.sum_nonneg fun _ _ => abs_nonneg _) (pos hb) (den (HigherAt.refl _ _) hl)

/-! ## the parabolic SAR -/

theorem sarAt_same {step mx : K} {h h' l l' : Nat → K} (hh : ∀ j, j < i → h' j = h j) (hl : ∀ j, j < i → l' j = l j) :
    ∀ j, j < i → 1 < i → sarAt h' l' c step mx j = sarAt h l c step mx j
  | 0, hj, _ => by simp only [sarAt]; rw [hh 0 hj, hl 0 hj]
  | 1, hj, _ => by simp only [sarAt]; rw [hh 0 (by omega), hl 0 (by omega)]
  | j + 2, hj, h1 => by
    rw [sarAt, sarAt, sarAt_same hh hl (j + 1) (by omega) h1]
    unfold Sar.next
    rw [hh (j + 2) hj, hl (j + 2) hj, hh (j + 2 - 2) (by omega), hl (j + 2 - 2) (by omega), hh (j + 2 - 1) (by omega), hl (j + 2 - 1) (by omega)]

/-- where the stop of row `i` is, so that the next stop without a reversal is on the near side of the extreme of the trend -/
structure SarInv (h l : Nat → K) (i : Nat) (s : Sar K) : Prop where
  af : 0 ≤ s.af ∧ s.af ≤ 1
  up : s.up = true → (h i ≤ s.hi ∨ s.sar ≤ h i) ∧ (s.sar ≤ s.hi ∨ (s.sar ≤ l (i - 1) ∧ h i ≤ s.hi) ∨ l (i - 1) ≤ s.hi)
  down : s.up = false → s.lo ≤ l i ∧ (s.lo ≤ s.sar ∨ h (i - 1) ≤ s.sar ∨ s.lo ≤ h (i - 1))

/-- the next stop while the trend goes up -/
def Sar.keepUp (l : Nat → K) (s : Sar K) (i : Nat) : K :=
  let p := s.sar + s.af * (s.hi - s.sar)
  if l (i - 2) < p then l (i - 2) else if l (i - 1) < p then l (i - 1) else p
/-- the next stop while the trend goes down -/
def Sar.keepDown (h : Nat → K) (s : Sar K) (i : Nat) : K :=
  let p := s.sar - s.af * (s.sar - s.lo)
  if p < h (i - 2) then h (i - 2) else if p < h (i - 1) then h (i - 1) else p

theorem SarInv.keepUp_le {s : Sar K} (hs : SarInv h l i s) (hi : 1 ≤ i) (hb : ∀ j, l j ≤ h j) (hu : s.up = true) : s.keepUp l (i + 1) ≤ s.hi := by
  obtain ⟨a0, a1⟩ := hs.af
  obtain ⟨u1, u2⟩ := hs.up hu
  unfold Sar.keepUp
  dsimp only
  rw [show i + 1 - 2 = i - 1 by omega, Nat.add_sub_cancel]
  have q : ∀ x y p : K, (if x < p then x else if y < p then y else p) ≤ p := fun x y p => by
    split_ifs <;> first | exact le_refl _ | (rename_i a; exact a.le)
  rcases u2 with u | ⟨u, u'⟩ | u
  · refine (q _ _ _).trans ?_
    have := mul_le_mul_of_nonneg_right a1 (sub_nonneg.mpr u)
    linarith
  · rcases le_or_gt s.sar s.hi with v | v
    · refine (q _ _ _).trans ?_
      have := mul_le_mul_of_nonneg_right a1 (sub_nonneg.mpr v)
      linarith
    · have : s.af * (s.hi - s.sar) ≤ 0 := mul_nonpos_of_nonneg_of_nonpos a0 (by linarith)
      rw [if_neg (by linarith)]
      have := hb i
      split_ifs with x
      · linarith
      · linarith
  · split_ifs with x y
    · exact u
    · linarith
    · linarith

theorem SarInv.le_keepDown {s : Sar K} (hs : SarInv h l i s) (hi : 1 ≤ i) (hb : ∀ j, l j ≤ h j) (hu : s.up = false) : s.lo ≤ s.keepDown h (i + 1) := by
  obtain ⟨a0, a1⟩ := hs.af
  obtain ⟨u1, u2⟩ := hs.down hu
  unfold Sar.keepDown
  dsimp only
  rw [show i + 1 - 2 = i - 1 by omega, Nat.add_sub_cancel]
  have q : ∀ x y p : K, p ≤ (if p < x then x else if p < y then y else p) := fun x y p => by
    split_ifs <;> first | exact le_refl _ | (rename_i a; exact a.le)
  rcases u2 with u | u | u
  · refine le_trans ?_ (q _ _ _)
    have := mul_le_mul_of_nonneg_right a1 (sub_nonneg.mpr u)
    linarith
  · rcases le_or_gt s.lo s.sar with v | v
    · refine le_trans ?_ (q _ _ _)
      have := mul_le_mul_of_nonneg_right a1 (sub_nonneg.mpr v)
      linarith
    · have : s.af * (s.sar - s.lo) ≤ 0 := mul_nonpos_of_nonneg_of_nonpos a0 (by linarith)
      rw [if_neg (by linarith)]
      have := hb i
      split_ifs with x
      · linarith
      · linarith
  · split_ifs with x y
    · exact u
    · linarith
    · linarith

theorem Sar.next_up_eq {s : Sar K} {step mx : K} (hu : s.up = true) : Sar.next h l step mx i s =
    if l i < s.sar + s.af * (s.hi - s.sar) then ⟨false, step, s.hi, l i, s.hi⟩
    else ⟨true, if s.hi < h i then min (s.af + step) mx else s.af, max s.hi (h i), s.lo, s.keepUp l i⟩ := by
  unfold Sar.next; rw [if_pos hu]; rfl
theorem Sar.next_down_eq {s : Sar K} {step mx : K} (hu : s.up = false) : Sar.next h l step mx i s =
    if s.sar - s.af * (s.sar - s.lo) < h i then ⟨true, step, h i, s.lo, s.lo⟩
    else ⟨false, if l i < s.lo then min (s.af + step) mx else s.af, s.hi, min s.lo (l i), s.keepDown h i⟩ := by
  unfold Sar.next; rw [if_neg (by rw [hu]; decide)]; rfl

theorem sarInv {step mx : K} (hs : 0 ≤ step ∧ step ≤ 1) (hm : 0 ≤ mx ∧ mx ≤ 1) (hb : ∀ j, l j ≤ h j) (hc : c 1 ≤ h 1) :
    ∀ i, SarInv h l (i + 1) (sarAt h l c step mx (i + 1))
  | 0 => ⟨hs, fun _ => ⟨.inr hc, .inr (.inr (hb 0))⟩, fun hu => by simp [sarAt] at hu⟩
  | i + 1 => by
    have ih := sarInv hs hm hb hc i
    rw [sarAt]
    generalize sarAt h l c step mx (i + 1) = s at ih
    have hmin : 0 ≤ min (s.af + step) mx ∧ min (s.af + step) mx ≤ 1 :=
      ⟨le_min (add_nonneg ih.af.1 hs.1) hm.1, (min_le_right _ _).trans hm.2⟩
    cases hu : s.up with
    | true =>
      obtain ⟨u1, u2⟩ := ih.up hu
      rw [Sar.next_up_eq hu]
      split_ifs with x y
      · refine ⟨hs, fun e => by simp at e, fun _ => ⟨le_refl _, ?_⟩⟩
        dsimp only
        rcases u1 with u | u
        · exact .inr (.inl u)
        · rcases le_or_gt s.sar s.hi with v | v
          · have := mul_le_mul_of_nonneg_right ih.af.2 (sub_nonneg.mpr v)
            exact .inl (by linarith)
          · have : s.af * (s.hi - s.sar) ≤ 0 := mul_nonpos_of_nonneg_of_nonpos ih.af.1 (by linarith)
            exact .inr (.inr (by show l (i + 2) ≤ h (i + 1); linarith))
      · exact ⟨hmin, fun _ => ⟨.inl (le_max_right _ _), .inl ((ih.keepUp_le (by omega) hb hu).trans (le_max_left _ _))⟩, fun e => by simp at e⟩
      · exact ⟨ih.af, fun _ => ⟨.inl (le_max_right _ _), .inl ((ih.keepUp_le (by omega) hb hu).trans (le_max_left _ _))⟩, fun e => by simp at e⟩
    | false =>
      obtain ⟨u1, u2⟩ := ih.down hu
      rw [Sar.next_down_eq hu]
      split_ifs with x y
      · exact ⟨hs, fun _ => ⟨.inl (le_refl _), .inr (.inl ⟨u1, le_refl _⟩)⟩, fun e => by simp at e⟩
      · exact ⟨hmin, fun e => by simp at e, fun _ => ⟨min_le_right _ _, .inl ((min_le_left _ _).trans (ih.le_keepDown (by omega) hb hu))⟩⟩
      · exact ⟨ih.af, fun e => by simp at e, fun _ => ⟨min_le_right _ _, .inl ((min_le_left _ _).trans (ih.le_keepDown (by omega) hb hu))⟩⟩

/-- C103. From the third row on a higher high can only lower the parabolic SAR (by ending a downtrend: the stop drops to the low of
that trend), a lower low can only raise it; a row that is in an uptrend (downtrend) stays so. -/
theorem psar_wider (hi : i < n) (hi2 : 2 ≤ i) {step mx : K} (hs : 0 ≤ step ∧ step ≤ 1) (hm : 0 ≤ mx ∧ mx ≤ 1) (hb : ∀ j, l j ≤ h j) (hc : c 1 ≤ h 1)
    {o o' : PSAR (Val K)} (ho : PSAR.new (ser n h) (ser n l) (ser n c) .positional (.fin step) (.fin mx) = .ok o)
    (ho' : PSAR.new (ser n h') (ser n l') (ser n c) .positional (.fin step) (.fin mx) = .ok o') :
    (HigherAt i h h' → l' = l → Sinks o.psar o'.psar i ∧ (ix o.psarUp i ≠ .nan → ix o'.psarUp i = ix o.psarUp i)) ∧
    (h' = h → HigherAt i l' l → Rises o.psar o'.psar i ∧ (ix o.psarDown i ≠ .nan → ix o'.psarDown i = ix o.psarDown i)) := by
  obtain ⟨d, ⟨-, up⟩, ⟨-, dn⟩⟩ := psar_rows ho
  obtain ⟨d', ⟨-, up'⟩, ⟨-, dn'⟩⟩ := psar_rows ho'
  obtain ⟨k, rfl⟩ : ∃ k, i = k + 2 := ⟨i - 2, by omega⟩
  have inv := sarInv (l := l) hs hm hb hc k
  constructor
  · rintro hh rfl
    have same := sarAt_same (c := c) (step := step) (mx := mx) hh.before (fun j _ => rfl : ∀ j, j < k + 2 → l' j = l' j) (k + 1) (by omega) (by omega)
    have val : (sarAt h' l' c step mx (k + 2)).sar ≤ (sarAt h l' c step mx (k + 2)).sar ∧
        ((sarAt h l' c step mx (k + 2)).up = true → (sarAt h' l' c step mx (k + 2)).up = true ∧
          (sarAt h' l' c step mx (k + 2)).sar = (sarAt h l' c step mx (k + 2)).sar) := by
      rw [sarAt, sarAt, same]
      generalize sarAt h l' c step mx (k + 1) = s at inv
      have now := hh.now
      cases hu : s.up with
      | true =>
        rw [Sar.next_up_eq hu, Sar.next_up_eq hu]
        split_ifs <;> exact ⟨le_refl _, fun e => ⟨e, rfl⟩⟩
      | false =>
        rw [Sar.next_down_eq hu, Sar.next_down_eq hu]
        have ek : s.keepDown h' (k + 2) = s.keepDown h (k + 2) := by
          unfold Sar.keepDown; rw [hh.before (k + 2 - 2) (by omega), hh.before (k + 2 - 1) (by omega)]
        by_cases x : s.sar - s.af * (s.sar - s.lo) < h (k + 2)
        · rw [if_pos x, if_pos (x.trans_le now)]
          exact ⟨le_refl _, fun _ => ⟨rfl, rfl⟩⟩
        · rw [if_neg x]
          by_cases y : s.sar - s.af * (s.sar - s.lo) < h' (k + 2)
          · rw [if_pos y]
            exact ⟨inv.le_keepDown (by omega) hb hu, fun e => by simp at e⟩
          · rw [if_neg y]
            exact ⟨ek.le, fun e => by simp at e⟩
    refine ⟨d.sinks d' hi (Nat.zero_le _) val.1, fun hne => ?_⟩
    rw [up _ hi] at hne ⊢
    rw [up' _ hi]
    by_cases e : (sarAt h l' c step mx (k + 2)).up = true
    · rw [if_pos ⟨by omega, (val.2 e).1⟩, if_pos ⟨by omega, e⟩, (val.2 e).2]
    · rw [if_neg fun a => e a.2] at hne
      exact absurd rfl hne
  · rintro rfl hl
    have same := (sarAt_same (c := c) (step := step) (mx := mx) (fun j _ => rfl : ∀ j, j < k + 2 → h' j = h' j) hl.before (k + 1) (by omega)
      (by omega)).symm
    have val : (sarAt h' l c step mx (k + 2)).sar ≤ (sarAt h' l' c step mx (k + 2)).sar ∧
        ((sarAt h' l c step mx (k + 2)).up = false → (sarAt h' l' c step mx (k + 2)).up = false ∧
          (sarAt h' l' c step mx (k + 2)).sar = (sarAt h' l c step mx (k + 2)).sar) := by
      rw [sarAt, sarAt, same]
      generalize sarAt h' l c step mx (k + 1) = s at inv
      have now := hl.now
      cases hu : s.up with
      | false =>
        rw [Sar.next_down_eq hu, Sar.next_down_eq hu]
        split_ifs <;> exact ⟨le_refl _, fun e => ⟨e, rfl⟩⟩
      | true =>
        rw [Sar.next_up_eq hu, Sar.next_up_eq hu]
        have ek : s.keepUp l' (k + 2) = s.keepUp l (k + 2) := by
          unfold Sar.keepUp; rw [hl.before (k + 2 - 2) (by omega), hl.before (k + 2 - 1) (by omega)]
        by_cases x : l (k + 2) < s.sar + s.af * (s.hi - s.sar)
        · rw [if_pos x, if_pos (now.trans_lt x)]
          exact ⟨le_refl _, fun _ => ⟨rfl, rfl⟩⟩
        · rw [if_neg x]
          by_cases y : l' (k + 2) < s.sar + s.af * (s.hi - s.sar)
          · rw [if_pos y]
            exact ⟨inv.keepUp_le (by omega) hb hu, fun e => by simp at e⟩
          · rw [if_neg y]
            exact ⟨ek.ge, fun e => by simp at e⟩
    refine ⟨d.rises d' hi (Nat.zero_le _) val.1, fun hne => ?_⟩
    rw [dn _ hi] at hne ⊢
    rw [dn' _ hi]
    by_cases e : (sarAt h' l c step mx (k + 2)).up = false
    · rw [if_pos ⟨by omega, (val.2 e).1⟩, if_pos ⟨by omega, e⟩, (val.2 e).2]
    · rw [if_neg fun a => e a.2] at hne
      exact absurd rfl hne

/-! ## concrete bars -/

section examples

/-- five highs, lows and closes, the last bar left open -/
def openHigh (x : ℚ) : Series (Val ℚ) := qs [9, 11, 9, 10, x]
def openLow (x : ℚ) : Series (Val ℚ) := qs [5, 7, 5, 6, x]
def openClose : Series (Val ℚ) := qs [8, 8, 8, 9, 8]

example : (averageTrueRange (openHigh 9) (openLow 7) openClose 2).map (ix · 4) = .ok (.fin 3) ∧
    (averageTrueRange (openHigh 11) (openLow 5) openClose 2).map (ix · 4) = .ok (.fin 5) := by decide +kernel
example : (massIndex (openHigh 9) (openLow 7) 2 2).map (ix · 4) = .ok (.fin (13 / 7)) ∧
    (massIndex (openHigh 9) (openLow 5) 2 2).map (ix · 4) = .ok (.fin 2) := by decide +kernel
example : (ADX.new (openHigh 9) (openLow 7) openClose 2).toOption.map (fun o => ix o.adxNeg 4) = some (.fin (25 / 3)) ∧
    (ADX.new (openHigh 12) (openLow 7) openClose 2).toOption.map (fun o => ix o.adxNeg 4) = some (.fin (50 / 9)) := by decide +kernel
/-- a high of 8 leaves the stop of a downtrend where it was, a high of 15 ends the trend -/
example : (PSAR.new (qs [9, 11, 9, 6, 8]) (qs [5, 7, 5, 4, 3]) (qs [8, 8, 8, 5, 4]) .positional (.fin (1 / 50)) (.fin (1 / 5))).toOption.map
      (fun o => (ix o.psar 4, ix o.psarUp 4)) = some (.fin (268 / 25), .nan) ∧
    (PSAR.new (qs [9, 11, 9, 6, 15]) (qs [5, 7, 5, 4, 3]) (qs [8, 8, 8, 5, 4]) .positional (.fin (1 / 50)) (.fin (1 / 5))).toOption.map
      (fun o => (ix o.psar 4, ix o.psarUp 4)) = some (.fin 4, .fin 4) := by decide +kernel

/-- C103. The positive lines go either way with the high: +DI is 50/3, 100/7, 25 for highs of 9, 10, 11; the vortex line falls from 4/3 to
9/7 (low 7) and rises from 2/3 to 5/7 (low 1). ADX goes either way with the low: 25, 55/3, 625/21 for lows of 6, 5, 4. -/
theorem wider_either :
    ([9, 10, 11].map fun x => (ADX.new (openHigh x) (openLow 7) openClose 2).toOption.map fun o => ix o.adxPos 4)
      = [some (.fin (50 / 3)), some (.fin (100 / 7)), some (.fin 25)] ∧
    ([6, 5, 4].map fun x => (ADX.new (openHigh 10) (openLow x) openClose 2).toOption.map fun o => o.adx.toOption.map (ix · 4))
      = [some (some (.fin 25)), some (some (.fin (55 / 3))), some (some (.fin (625 / 21)))] ∧
    [ix (vortexPos (openHigh 9) (openLow 7) openClose 2) 4, ix (vortexPos (openHigh 10) (openLow 7) openClose 2) 4,
      ix (vortexPos (openHigh 9) (openLow 1) openClose 2) 4, ix (vortexPos (openHigh 11) (openLow 1) openClose 2) 4]
      = [.fin (4 / 3), .fin (9 / 7), .fin (2 / 3), .fin (5 / 7)] := by decide +kernel

end examples

end TA
