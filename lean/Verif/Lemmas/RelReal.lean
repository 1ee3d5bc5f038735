import Verif.Lemmas.RelInd
import Verif.Base.Real
import Mathlib.Algebra.BigOperators.Ring.Finset
import Verif.Props.C16

/-! # Affine changes through the standard deviation, the logarithm and the weighted average -/

set_option linter.unusedSectionVars false

namespace TA

section
variable {K : Type} [Field K] [LinearOrder K] [IsStrictOrderedRing K] {k c : K} {s s' : Series (Val K)}

theorem tab_succ {α : Type} (n : Nat) (f : Nat → α) : tab (n + 1) f = tab n f ++ [f n] := by
  simp [tab, List.range_succ]

theorem sumL_snoc (l : List (Val K)) (x : Val K) : sumL (l ++ [x]) = sumL l +. x := by
  simp [sumL, List.foldl_append]

theorem rel_sum_tab (n : Nat) (f f' : Nat → Val K) (d : Nat → K) (h : ∀ j, j < n → VA k (d j) (f j) (f' j)) :
    VA k (∑ j ∈ Finset.range n, d j) (sumL (tab n f)) (sumL (tab n f')) := by
  induction n with
  | zero =>
    show VA k _ (lit 0) (lit 0)
    rw [lit_fin, Rat.cast_zero, Finset.sum_range_zero]
    exact VA.lit0 k
  | succ n ih =>
    rw [tab_succ, tab_succ, sumL_snoc, sumL_snoc, Finset.sum_range_succ]
    exact (ih fun j hj => h j (by omega)).add (h n (by omega))

theorem rel_wma (hs : SA k c s s') (w : Nat) (hw : 1 ≤ w) : SA k c (wma s w false) (wma s' w false) := by
  have hwp : (0 : K) < w := by exact_mod_cast hw
  have hd : (0 : K) < ((w * (w + 1) : ℕ) : K) := by push_cast; positivity
  unfold wma checkFillna rollApply roll pre
  simp only [Bool.false_eq_true, if_false]
  have hc : SA k c (s.map clean) (s'.map clean) := hs.map fun a a' ha => VRel.clean ha
  refine SRel.tab (by simpa using hs.len) fun i hi => ?_
  have hl : LA k c (lastN w ((s.map clean).take (i + 1))) (lastN w ((s'.map clean).take (i + 1))) := by
    unfold lastN
    rw [← (hc.toLA.take (i + 1)).length_eq]
    exact (hc.toLA.take _).drop _
  have hle : (lastN w ((s.map clean).take (i + 1))).length ≤ w := by
    unfold lastN; rw [List.length_drop]; omega
  generalize lastN w ((s.map clean).take (i + 1)) = x at *
  generalize lastN w ((s'.map clean).take (i + 1)) = x' at *
  unfold aggApply
  rw [← hl.valid.length_eq]
  split_ifs with h1
  · have hxl : x.length = w := le_antisymm hle (le_trans h1 (List.length_filter_le _ _))
    unfold WMA.avg
    rw [← hl.length_eq, hxl]
    refine VA.cast (rel_sum_tab w _ _ (fun j => (((j + 1) * 2 : ℕ) : K) / ((w * (w + 1) : ℕ) : K) * c) fun j hj => ?_) rfl ?_
    · have e : (natF ((j + 1) * 2) /. natF (w * (w + 1)) : Val K) = .fin ((((j + 1) * 2 : ℕ) : K) / ((w * (w + 1) : ℕ) : K)) := by
        rw [natF_fin, natF_fin, fin_div _ _ hd.ne']
      rw [e]
      exact VA.cmulPos (div_pos (by positivity) hd) (hl.toSRel.ix j)
    · rw [← Finset.sum_mul, ← Finset.sum_div]
      have e2 : (∑ j ∈ Finset.range w, (((j + 1) * 2 : ℕ) : K)) = ((w * (w + 1) : ℕ) : K) := by
        have := sum_weights (K := K) w
        push_cast
        rw [← Finset.sum_mul, this]
        ring
      rw [e2, div_self hd.ne', one_mul]
  · exact .nan

theorem obs_of_fin {s : Series (Val K)} {w i : Nat} (f : Nat → K) (h : ∀ j, j ≤ i → i < j + w → ix s j = .fin (f j)) :
    obs s w i = (winIx w i).map f := by
  unfold obs
  have : (winIx w i).map (ix s) = ((winIx w i).map f).map Val.fin := by
    rw [List.map_map]
    refine List.map_congr_left fun j hj => ?_
    rw [mem_winIx] at hj
    exact h j hj.1 hj.2
  rw [this, nums_fin]

/-- VWAP without `fillna` follows the prices: a window with a missing price or volume has no value at all. -/
theorem rel_vwap_shift (hk : 0 < k) {h h' l l' : Series (Val K)} (hh : SA k c h h') (hl : SA k c l l') (hs : SA k c s s')
    (v : Series (Val K)) (w : Nat) :
    SA k c (volumeWeightedAveragePrice h l s v w false) (volumeWeightedAveragePrice h' l' s' v w false) := by
  have ht := hh.typicalPrice hl hs
  have hlen : (typicalPrice h l s).length = (typicalPrice h' l' s').length := ht.len
  unfold volumeWeightedAveragePrice VWAP.run checkFillna minp
  simp only [Bool.false_eq_true, if_false]
  generalize typicalPrice h l s = p at *
  generalize typicalPrice h' l' s' = p' at *
  refine ⟨by simp [hlen], fun i hi => ?_⟩
  have hi1 : i < p.length := by simpa using hi
  have hi2 : i < p'.length := by rw [← hlen]; exact hi1
  rw [ix_sdiv (by simpa using hi1), ix_sdiv (by simpa using hi2), ix_rollSum (s := smul p v) (by simpa using hi1),
    ix_rollSum (s := smul p' v) (by simpa using hi2)]
  -- rows present in one product are present in the other
  have key : ∀ {q q' : Series (Val K)}, q.length = q'.length → (∀ j, VA k c (ix q j) (ix q' j) ∨ VA k c (ix q' j) (ix q j)) →
      i < q.length → w ≤ (obs (smul q v) w i).length → w ≤ (obs (smul q' v) w i).length := by
    intro q q' hl hq hi h1
    obtain ⟨h2, h3⟩ := obs_full h1
    rw [obs_length_of_fin h2]
    intro j h4 h5
    obtain ⟨z, hz⟩ := h3 j h4 h5
    rw [ix_smul (by omega)] at hz
    obtain ⟨x, y, hx, hy, -⟩ := mul_eq_fin.mp hz
    rw [ix_smul (by omega), hy]
    have : ∃ x', ix q' j = .fin x' := by
      rcases hq j with hq | hq <;> rw [hx] at hq
      · generalize ix q' j = u at hq
        cases hq with | fin _ => exact ⟨_, rfl⟩
      · generalize ix q' j = u at hq
        cases hq with | fin _ => exact ⟨_, rfl⟩
    obtain ⟨x', hx'⟩ := this
    exact ⟨x' * y, by rw [hx', fin_mul]⟩
  by_cases h1 : w ≤ (obs (smul p v) w i).length
  · have h2 := key hlen (fun j => .inl (ht.ix j)) hi1 h1
    rw [if_pos h1, if_pos h2]
    obtain ⟨h3, h4⟩ := obs_full h1
    have hx : ∀ j, j ≤ i → i < j + w → ∃ x y, ix p j = .fin x ∧ ix v j = .fin y := by
      intro j h5 h6
      obtain ⟨z, hz⟩ := h4 j h5 h6
      rw [ix_smul (by omega)] at hz
      obtain ⟨x, y, hx, hy, -⟩ := mul_eq_fin.mp hz
      exact ⟨x, y, hx, hy⟩
    let fx : Nat → K := fun j => (ix p j).num?.getD 0
    let fy : Nat → K := fun j => (ix v j).num?.getD 0
    have e1 : ∀ j, j ≤ i → i < j + w → ix p j = .fin (fx j) := fun j h5 h6 => by
      obtain ⟨x, y, hx, hy⟩ := hx j h5 h6
      simp only [fx]; rw [hx]; rfl
    have e2 : ∀ j, j ≤ i → i < j + w → ix v j = .fin (fy j) := fun j h5 h6 => by
      obtain ⟨x, y, hx, hy⟩ := hx j h5 h6
      simp only [fy]; rw [hy]; rfl
    have e3 : ∀ j, j ≤ i → i < j + w → ix p' j = .fin (k * fx j + c) := fun j h5 h6 => by
      have := ht.ix j
      rw [e1 j h5 h6] at this
      generalize ix p' j = u at this
      cases this with | fin h => exact congrArg Val.fin h
    rw [obs_of_fin (fun j => fx j * fy j) fun j h5 h6 => by
        rw [ix_smul (by omega), e1 j h5 h6, e2 j h5 h6, fin_mul],
      obs_of_fin (s := smul p' v) (fun j => (k * fx j + c) * fy j) fun j h5 h6 => by
        rw [ix_smul (by omega), e3 j h5 h6, e2 j h5 h6, fin_mul]]
    by_cases hiv : i < v.length
    · rw [ix_rollSum hiv, obs_of_fin fy e2]
      split_ifs with h7
      · rw [sum_winIx, sum_winIx, sum_winIx]
        have es : wsum (fun j => (k * fx j + c) * fy j) w i = k * wsum (fun j => fx j * fy j) w i + c * wsum fy w i := by
          simp only [wsum, Finset.mul_sum]
          rw [← Finset.sum_add_distrib]
          exact Finset.sum_congr rfl fun j _ => by ring
        rw [es]
        generalize wsum (fun j => fx j * fy j) w i = a
        generalize wsum fy w i = d
        by_cases hd : d = 0
        · rw [hd, mul_zero, add_zero, fin_div_zero, fin_div_zero]
          rcases lt_trichotomy a 0 with ha | ha | ha
          · rw [if_neg ha.ne, if_neg (not_lt.mpr ha.le), if_neg (mul_neg_of_pos_of_neg hk ha).ne,
              if_neg (not_lt.mpr (mul_neg_of_pos_of_neg hk ha).le)]
            exact .ninf
          · rw [if_pos ha, if_pos (by rw [ha, mul_zero])]; exact .nan
          · rw [if_neg ha.ne', if_pos ha, if_neg (mul_pos hk ha).ne', if_pos (mul_pos hk ha)]
            exact .pinf
        · rw [fin_div _ _ hd, fin_div _ _ hd]
          exact VA.fin' (by field_simp)
      · exact .nan
    · rw [ix_ge (by simpa using hiv)]
      exact .nan
  · have h2 : ¬ w ≤ (obs (smul p' v) w i).length := fun h2 => h1 (key hlen.symm (fun j => .inr (ht.ix j)) hi2 h2)
    rw [if_neg h1, if_neg h2]
    exact .nan

end

section
variable {k c : ℝ} {a a' : Val ℝ} {s s' : Series (Val ℝ)}

theorem VA.sqrt (hk : 0 < k) (h : VA (k * k) 0 a a') : VA k 0 (FltFn.sqrt a) (FltFn.sqrt a') := by
  show VA k 0 (Val.sqrt a) (Val.sqrt a')
  cases h with
  | nan => exact .nan
  | pinf => exact .pinf
  | ninf => exact .nan
  | @fin x y h =>
    unfold Aff at h
    rw [add_zero] at h
    subst h
    have hkk : 0 < k * k := mul_pos hk hk
    simp only [Val.sqrt]
    by_cases hx : x < 0
    · rw [if_pos hx, if_pos (mul_neg_of_pos_of_neg hkk hx)]; exact .nan
    · rw [if_neg hx, if_neg (not_lt.mpr (mul_nonneg hkk.le (not_lt.mp hx)))]
      refine VA.fin' ?_
      rw [Real.sqrt_mul hkk.le, Real.sqrt_mul_self hk.le, add_zero]

theorem VA.log (hk : 0 < k) (h : VA k 0 a a') : VA 1 (Real.log k) (FltFn.log a) (FltFn.log a') := by
  show VA 1 _ (Val.log a) (Val.log a')
  cases h with
  | nan => exact .nan
  | pinf => exact .pinf
  | ninf => exact .nan
  | @fin x y h =>
    unfold Aff at h
    rw [add_zero] at h
    subst h
    simp only [Val.log]
    by_cases h0 : x = 0
    · rw [if_pos h0, if_pos (by rw [h0, mul_zero])]; exact .ninf
    · rw [if_neg h0, if_neg (mul_ne_zero hk.ne' h0)]
      by_cases hx : x < 0
      · rw [if_pos hx, if_pos (mul_neg_of_pos_of_neg hk hx)]; exact .nan
      · rw [if_neg hx, if_neg (not_lt.mpr (mul_nonneg hk.le (not_lt.mp hx)))]
        refine VA.fin' ?_
        rw [Real.log_mul hk.ne' h0]; ring

theorem SRel.rollStd (hk : 0 < k) (w mp : Nat) (h : SA k c s s') : SA k 0 (rollStd w mp s) (rollStd w mp s') := by
  refine h.roll w fun l l' hl => ?_
  unfold aggStd
  dsimp only
  rw [← hl.valid.length_eq]
  split_ifs with h1
  · have hm := hl.valid.mean h1.2
    rw [← hl.valid.length_eq] at hm
    have hn : (0 : ℝ) < (valid l).length := by exact_mod_cast h1.2
    refine VA.sqrt hk ?_
    rw [natF_fin]
    refine VA.cast (VA.divFin hn (LA.sumL (c := 0) (hl.valid.map fun b b' hb => ?_))) rfl (by simp)
    have hd := (VA.sub hb hm).cast rfl (sub_self c)
    rw [natF_fin] at hd
    exact VA.mul hk hk hd hd
  · exact .nan

theorem rel_ulcer (hk : 0 < k) (hs : SA k 0 s s') (w : Nat) (b : Bool) :
    ulcerIndex s' w b = ulcerIndex s w b := by
  unfold ulcerIndex
  rw [(rel_drawdown hk hs w).eq]

theorem rel_dlr (hk : 0 < k) (hs : SA k 0 s s') (b : Bool) : dailyLogReturn s' b = dailyLogReturn s b := by
  unfold dailyLogReturn DLR.run
  have h1 : SA 1 (Real.log k) (s.map FltFn.log) (s'.map FltFn.log) := hs.map fun _ _ => VA.log hk
  rw [h1.sdiff.eq]

theorem rel_bb (hk : 0 < k) (hs : SA k c s s') (w : Nat) (d : Val ℝ) (b : Bool) :
    SA k c (BB.new s w d b).bollingerMavg (BB.new s' w d b).bollingerMavg ∧
    SA k c (BB.new s w d b).bollingerHband (BB.new s' w d b).bollingerHband ∧
    SA k c (BB.new s w d b).bollingerLband (BB.new s' w d b).bollingerLband ∧
    SA 1 0 (BB.new s w d b).bollingerPband (BB.new s' w d b).bollingerPband ∧
    SA 1 0 (BB.new s w d b).bollingerHbandIndicator (BB.new s' w d b).bollingerHbandIndicator ∧
    SA 1 0 (BB.new s w d b).bollingerLbandIndicator (BB.new s' w d b).bollingerLbandIndicator ∧
    (c = 0 → SA 1 0 (BB.new s w d b).bollingerWband (BB.new s' w d b).bollingerWband) := by
  have hm := hs.rollMean w (minp b w)
  have hd := (hs.rollStd hk w (minp b w)).cmul hk d
  have e2 : SA k c (BB.new s w d b).hband (BB.new s' w d b).hband := SRel.cast (hm.sadd hd) rfl (add_zero c)
  have e3 : SA k c (BB.new s w d b).lband (BB.new s' w d b).lband := SRel.cast (hm.ssub hd) rfl (sub_zero c)
  refine ⟨hm.fillBack b, e2.fillBack b, e3.fillBack b,
    SRel.fill1 (SRel.sdiv1 hk (hs.ssub0 e3) (e2.zip2 e3 fun x x' y y' hx hy => ?_)) _ _,
    SRel.fill1 (hs.zip2 e2 fun x x' y y' ha hb => ?_) _ _, SRel.fill1 (hs.zip2 e3 fun x x' y y' ha hb => ?_) _ _,
    fun e => SRel.fill1 (SRel.mulc one_pos _ (SRel.sdiv1 hk (e2.ssub0 e3) (SRel.cast hm rfl e))) _ _⟩
  · rw [hx.ne hk hy]
    split_ifs
    · exact (hx.sub hy).cast rfl (sub_self c)
    · exact .nan
  · rw [hb.lt hk ha]; exact VA.refl _
  · rw [ha.lt hk hb]; exact VA.refl _

end
end TA
