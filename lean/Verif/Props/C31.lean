import Verif.Lemmas.Defs

/-! # C31: Keltner channel -/

set_option linter.unusedSectionVars false

namespace TA
open Finset
variable {K : Type} [Field K] [LinearOrder K] [IsStrictOrderedRing K]

/-- the mean of `f` over the `w` rows ending at row `i` (fewer at the start) -/
def wmean (f : Nat → K) (w i : Nat) : K := (∑ j ∈ Ico (i + 1 - w) (i + 1), f j) / (min w (i + 1) : ℕ)

theorem Def.rollMeanP {s : Series (Val K)} {n : Nat} {f : Nat → K} (h : Def s n 0 f) {w mp : Nat} (hw : 1 ≤ w)
    (hm : mp ≤ w) : Def (TA.rollMean w mp s) n (mp - 1) (wmean f w) := by
  refine ⟨by simp [h.len], fun i h1 h2 => ?_, fun i h1 h2 => ?_⟩
  · rw [ix_rollMean (by rw [h.len]; exact h1), h.obs_eq h1, List.length_map, length_winIx, if_neg (by omega)]
  · rw [ix_rollMean (by rw [h.len]; exact h1), h.obs_eq h1, List.length_map, length_winIx, if_pos (by omega),
      sum_winIx]
    unfold wmean wsum
    congr 3
    · congr 1; omega
    · omega

theorem wmean_sub (f g : Nat → K) (w i : Nat) : wmean f w i - wmean g w i = wmean (fun j => f j - g j) w i := by
  unfold wmean; rw [Finset.sum_sub_distrib, sub_div]
theorem wmean_add (f g : Nat → K) (w i : Nat) : wmean f w i + wmean g w i = wmean (fun j => f j + g j) w i := by
  unfold wmean; rw [Finset.sum_add_distrib, add_div]
theorem wmean_mul (k : K) (f : Nat → K) (w i : Nat) : k * wmean f w i = wmean (fun j => k * f j) w i := by
  unfold wmean; rw [← Finset.mul_sum, mul_div_assoc]
theorem wmean_nonneg {f : Nat → K} (h : ∀ j, 0 ≤ f j) (w i : Nat) : 0 ≤ wmean f w i :=
  div_nonneg (Finset.sum_nonneg fun j _ => h j) (Nat.cast_nonneg _)

/-! ## C31: Keltner channel -/

/-- What the seven outputs of a Keltner object are, given its three lines: `m` from row `p` on, `a` (upper) and `b`
(lower) from row `q` on. -/
structure KeltnerSpec (o : Keltner (Val K)) (n p q : Nat) (c m a b : Nat → K) : Prop where
  mband : Def o.mband n p m
  hband : Def o.hband n q a
  lband : Def o.lband n q b
  wband : ∀ i, i < n → p ≤ i → q ≤ i → m i ≠ 0 → ix o.wband i = .fin ((a i - b i) / m i * 100)
  pband : ∀ i, i < n → q ≤ i → a i ≠ b i → ix o.pband i = .fin ((c i - b i) / (a i - b i))
  above : Def o.hbandIndicator n 0 (fun i => if q ≤ i ∧ a i < c i then 1 else 0)
  below : Def o.lbandIndicator n 0 (fun i => if q ≤ i ∧ c i < b i then 1 else 0)

theorem def_gtFlag {s t : Series (Val K)} {n q : Nat} {c a : Nat → K} (hs : Def s n 0 c) (ht : Def t n q a) :
    Def (gtFlag s t) n 0 (fun i => if q ≤ i ∧ a i < c i then 1 else 0) := by
  refine ⟨by simp [hs.len], fun i _ h2 => by omega, fun i hi _ => ?_⟩
  unfold gtFlag
  rw [ix_zip2 (by rw [hs.len]; exact hi), hs.val i hi (Nat.zero_le _)]
  by_cases hq : q ≤ i
  · rw [ht.val i hi hq]
    by_cases hlt : a i < c i <;> simp [hq, hlt, lit_fin]
  · rw [ht.gap i hi (by omega)]
    simp [hq, lit_fin]

theorem def_ltFlag {s t : Series (Val K)} {n q : Nat} {c b : Nat → K} (hs : Def s n 0 c) (ht : Def t n q b) :
    Def (ltFlag s t) n 0 (fun i => if q ≤ i ∧ c i < b i then 1 else 0) := by
  refine ⟨by simp [hs.len], fun i _ h2 => by omega, fun i hi _ => ?_⟩
  unfold ltFlag
  rw [ix_zip2 (by rw [hs.len]; exact hi), hs.val i hi (Nat.zero_le _)]
  by_cases hq : q ≤ i
  · rw [ht.val i hi hq]
    by_cases hlt : c i < b i <;> simp [hq, hlt, lit_fin]
  · rw [ht.gap i hi (by omega)]
    simp [hq, lit_fin]

/-- a number survives the fill -/
theorem fill_keep {s : Series (Val K)} {b : Bool} {v : Fill (Val K)} {i : Nat} {x : K} (hi : i < s.length)
    (h : ix s i = .fin x) : ix (checkFillna b v s) i = .fin x := by
  cases b with
  | false => exact h
  | true => rw [checkFillna_keep hi (num_iff.mpr ⟨_, h⟩), h]

theorem Def.fillOr {s : Series (Val K)} {n p : Nat} {f : Nat → K} (h : Def s n p f) {b : Bool} (hb : b = true → p = 0)
    (v : Fill (Val K)) : Def (checkFillna b v s) n p f := by
  cases b with
  | false => exact h
  | true => obtain rfl := hb rfl; exact h.fill true v

theorem keltnerSpec {o : Keltner (Val K)} {n p q : Nat} {c m a b : Nat → K} (hc : Def o.close n 0 c)
    (hm : Def o.tp n p m) (ha : Def o.tpHigh n q a) (hb : Def o.tpLow n q b)
    (hf : o.fillna = true → p = 0 ∧ q = 0) : KeltnerSpec o n p q c m a b := by
  refine ⟨hm.fillOr (fun h => (hf h).1) _, ha.fillOr (fun h => (hf h).2) _, hb.fillOr (fun h => (hf h).2) _,
    fun i hi h1 h2 h3 => ?_, fun i hi h2 h3 => ?_, (def_gtFlag hc ha).fill _ _, (def_ltFlag hc hb).fill _ _⟩
  · unfold Keltner.wband
    refine fill_keep (by simp [ha.len, hi]) ?_
    unfold mulc
    rw [ix_map (by simp [ha.len, hi]), ix_sdiv (by simp [ha.len, hi]), ix_ssub (by simp [ha.len, hi]),
      ha.val i hi h2, hb.val i hi h2, hm.val i hi h1, lit_fin, fin_sub, fin_div _ _ h3, fin_mul]
    norm_num
  · unfold Keltner.pband
    refine fill_keep (by simp [hc.len, hi]) ?_
    rw [ix_sdiv (by simp [hc.len, hi]), ix_ssub (by simp [hc.len, hi]), ix_ssub (by simp [ha.len, hi]),
      ha.val i hi h2, hb.val i hi h2, hc.val i hi (Nat.zero_le _), fin_sub, fin_sub, fin_div _ _ (sub_ne_zero.mpr h3)]

/-- C31, original version. The middle line is the mean of the typical price, the outer ones are the means of
`(4h - 2l + c)/3` and `(-2h + 4l + c)/3`, over the last `w` rows. Without filling the middle line starts at row
`w - 1`, but the outer ones (and the percentage band and the two flags) start at row 0. -/
theorem keltner_original_formula {n : Nat} {h l c : Nat → K} {w wa : Nat} (hw : 1 ≤ w) {fillna : Bool} {m : Val K}
    {o : Keltner (Val K)} (ho : Keltner.new (ser n h) (ser n l) (ser n c) w wa fillna true m = .ok o) :
    KeltnerSpec o n (if fillna then 0 else w - 1) 0 c (wmean (fun j => (h j + l j + c j) / 3) w)
      (wmean (fun j => (4 * h j - 2 * l j + c j) / 3) w) (wmean (fun j => (-2 * h j + 4 * l j + c j) / 3) w) := by
  have hmp : (if fillna = true then 1 else w) ≤ w := by split_ifs <;> omega
  have e : o = Keltner.runOriginal (ser n h) (ser n l) (ser n c) w fillna := by
    unfold Keltner.new at ho
    rw [if_pos rfl] at ho
    unfold chkRoll at ho
    rw [if_neg (by omega)] at ho
    exact (Except.ok.inj ho).symm
  subst e
  refine keltnerSpec (def_ser n c) ?_ ?_ ?_ (fun hf => ?_)
  · have := (def_tp n h l c).rollMeanP hw hmp
    unfold Keltner.runOriginal
    cases fillna <;> exact this
  · unfold Keltner.runOriginal
    dsimp only
    simp only [lit_fin]
    push_cast
    have := ((((def_ser n h).cmul 4).ssub ((def_ser n l).cmul 2)).sadd (def_ser n c)).divc (c := (3 : K)) (by norm_num)
    exact Def.rollMeanP (by simpa using this) hw (Nat.zero_le _)
  · unfold Keltner.runOriginal
    dsimp only
    simp only [lit_fin]
    push_cast
    have := ((((def_ser n h).cmul (-2)).sadd ((def_ser n l).cmul 4)).sadd (def_ser n c)).divc (c := (3 : K)) (by norm_num)
    exact Def.rollMeanP (by simpa using this) hw (Nat.zero_le _)
  · have : fillna = true := hf
    rw [if_pos this]; simp

/-- C31, ATR version. The middle line is the exponential mean of the close, the outer ones are `multiplier` ATRs
away. -/
theorem keltner_atr_formula {n : Nat} {h l c : Nat → K} (hlh : ∀ i, i < n → l i ≤ h i) {w wa : Nat} (hw : 1 ≤ w)
    (hwa : 1 ≤ wa) {fillna : Bool} {k : K} {o : Keltner (Val K)}
    (ho : Keltner.new (ser n h) (ser n l) (ser n c) w wa fillna false (.fin k) = .ok o) :
    ∃ atr : Nat → K, (∃ out, averageTrueRange (ser n h) (ser n l) (ser n c) wa fillna = .ok out ∧ Def out n 0 atr) ∧
      (∀ i, i < n → 0 ≤ atr i) ∧
      KeltnerSpec o n (if fillna then 0 else w - 1) (if fillna then 0 else w - 1) c
        (emaRec (2 / ((w : K) + 1)) c) (fun i => emaRec (2 / ((w : K) + 1)) c i + k * atr i)
        (fun i => emaRec (2 / ((w : K) + 1)) c i - k * atr i) := by
  unfold Keltner.new at ho
  rw [if_neg (by simp)] at ho
  unfold chkSpan at ho
  rw [if_neg (by omega)] at ho
  cases hA : averageTrueRange (ser n h) (ser n l) (ser n c) wa fillna with
  | error e => rw [hA] at ho; exact absurd ho (by simp [bind, Except.bind])
  | ok out =>
    rw [hA] at ho
    have e : o = Keltner.runAtr (ser n c) out w fillna (.fin k) := (Except.ok.inj ho).symm
    obtain ⟨hwn, hD⟩ := atr_formula hlh hwa hA
    refine ⟨_, ⟨out, rfl, hD⟩, fun i hi => ?_, ?_⟩
    · split_ifs with h1
      · exact le_refl _
      · have hub : ∀ j, j ≤ i → 0 ≤ tr0 h l c j ∧ tr0 h l c j ≤ tr0 h l c j := fun j hj => by
          refine ⟨?_, le_refl _⟩
          unfold tr0
          split_ifs
          · subst_vars; linarith [hlh 0 (by omega)]
          · have := hlh j (by omega)
            have h1 : h j ≤ max (h j) (c (j - 1)) := le_max_left _ _
            have h2 : min (l j) (c (j - 1)) ≤ l j := min_le_left _ _
            linarith
        have : 0 ≤ wilMean (tr0 h l c) wa (i - (wa - 1)) := by
          have hs : ∃ up, ∀ j, j ≤ i → tr0 h l c j ≤ up := by
            refine ⟨∑ j ∈ range (i + 1), |tr0 h l c j|, fun j hj => ?_⟩
            exact (le_abs_self _).trans (Finset.single_le_sum (f := fun j => |tr0 h l c j|) (fun _ _ => abs_nonneg _)
              (Finset.mem_range.mpr (by omega)))
          obtain ⟨up, hup⟩ := hs
          exact (wilMean_mem hwa _ fun j hj => ⟨(hub j (by omega)).1, hup j (by omega)⟩).1
        exact this
    · subst e
      have hT : Def (ewm (alphaOfSpan w) (if fillna then 1 else w) (ser n c)) n (if fillna then 0 else w - 1)
          (emaRec (2 / ((w : K) + 1)) c) := by
        rw [alphaOfSpan_fin]
        have := (def_ser n c).ewm (a := 2 / ((w : K) + 1)) (if fillna then 1 else w)
        have e : 0 + max (if fillna = true then 1 else w) 1 - 1 = if fillna = true then 0 else w - 1 := by
          split_ifs <;> omega
        rw [e] at this
        simpa using this
      have hA2 := hD.cmul k
      refine keltnerSpec (def_ser n c) hT ?_ ?_ (fun hf => ?_)
      · have := hT.sadd hA2
        rw [max_eq_left (Nat.zero_le _)] at this
        exact this
      · have := hT.ssub hA2
        rw [max_eq_left (Nat.zero_le _)] at this
        exact this
      · have : fillna = true := hf
        rw [if_pos this]; simp

/-- C31. In both versions (the ATR one with a non-negative multiplier), with `low ≤ high`: wherever the bands are
numbers the lower one is not above the upper one, the middle line is half way between them where it is a number, the
two crossing flags are always 0 or 1, and never both 1. -/
theorem keltner_order {n : Nat} {h l c : Nat → K} (hlh : ∀ i, l i ≤ h i) {w wa : Nat} (hw : 1 ≤ w)
    (hwa : 1 ≤ wa) {fillna original : Bool} {k : K} (hk : 0 ≤ k) {o : Keltner (Val K)}
    (ho : Keltner.new (ser n h) (ser n l) (ser n c) w wa fillna original (.fin k) = .ok o) {i : Nat} (hi : i < n) :
    (∀ a b, ix o.hband i = .fin a → ix o.lband i = .fin b → b ≤ a ∧ ∀ m, ix o.mband i = .fin m → m = (a + b) / 2) ∧
    (ix o.hbandIndicator i = .fin 0 ∨ ix o.hbandIndicator i = .fin 1) ∧
    (ix o.lbandIndicator i = .fin 0 ∨ ix o.lbandIndicator i = .fin 1) ∧
    ¬ (ix o.hbandIndicator i = .fin 1 ∧ ix o.lbandIndicator i = .fin 1) := by
  have key : ∀ (p q : Nat) (m a b : Nat → K), KeltnerSpec o n p q c m a b → (∀ i, i < n → b i ≤ a i) →
      (∀ i, i < n → m i = (a i + b i) / 2) →
      (∀ a b, ix o.hband i = .fin a → ix o.lband i = .fin b → b ≤ a ∧ ∀ m, ix o.mband i = .fin m → m = (a + b) / 2) ∧
      (ix o.hbandIndicator i = .fin 0 ∨ ix o.hbandIndicator i = .fin 1) ∧
      (ix o.lbandIndicator i = .fin 0 ∨ ix o.lbandIndicator i = .fin 1) ∧
      ¬ (ix o.hbandIndicator i = .fin 1 ∧ ix o.lbandIndicator i = .fin 1) := by
    intro p q m a b H hab hmid
    rw [H.above.val i hi (Nat.zero_le _), H.below.val i hi (Nat.zero_le _)]
    refine ⟨fun x y hx hy => ?_, ?_, ?_, ?_⟩
    · have hq : q ≤ i := by
        by_contra hq
        rw [H.hband.gap i hi (by omega)] at hx; cases hx
      rw [H.hband.val i hi hq] at hx
      rw [H.lband.val i hi hq] at hy
      obtain rfl := Val.fin.inj hx
      obtain rfl := Val.fin.inj hy
      refine ⟨hab i hi, fun z hz => ?_⟩
      by_cases hp : p ≤ i
      · rw [H.mband.val i hi hp] at hz
        rw [← Val.fin.inj hz]; exact hmid i hi
      · rw [H.mband.gap i hi (by omega)] at hz; cases hz
    · split_ifs <;> simp
    · split_ifs <;> simp
    · have := hab i hi
      split_ifs with h1 h2
      · exact absurd (h1.2.trans h2.2) (by simpa using this)
      all_goals simp
  cases original with
  | true =>
    refine key _ _ _ _ _ (keltner_original_formula hw ho) (fun i _ => ?_) (fun i _ => ?_)
    · rw [← sub_nonneg, wmean_sub]
      refine wmean_nonneg (fun j => ?_) _ _
      have := hlh j
      linarith
    · rw [wmean_add, eq_div_iff two_ne_zero, mul_comm, wmean_mul]
      congr 1; funext j; ring
  | false =>
    obtain ⟨atr, _, h2, H⟩ := keltner_atr_formula (fun i _ => hlh i) hw hwa ho
    refine key _ _ _ _ _ H (fun i hi => ?_) (fun i _ => by ring)
    have := mul_nonneg hk (h2 i hi)
    linarith

/-- original version without filling: outer bands from row 0, middle line from row 1 -/
example : (Keltner.new (qs [10, 12, 14]) (qs [8, 9, 10]) (qs [9, 12, 10]) 2 1).map (fun o => (o.mband, o.hband, o.lband))
    = .ok ([.nan, .fin 10, .fin (67 / 6)], qs [11, 25 / 2, 44 / 3], qs [7, 15 / 2, 23 / 3]) := by decide +kernel
/-- ATR version -/
example : (Keltner.new (qs [10, 12, 14]) (qs [8, 9, 10]) (qs [9, 12, 10]) 1 2 false false).map
    (fun o => (o.mband, o.hband, o.lband)) = .ok (qs [9, 12, 10], qs [9, 17, 33 / 2], qs [9, 7, 7 / 2]) := by
  decide +kernel
example : (Keltner.new (qs [10, 12, 14, 20]) (qs [8, 9, 10, 18]) (qs [9, 12, 10, 19]) 4 1 false true).map
    (fun o => (o.hbandIndicator, o.lbandIndicator)) = .ok (qs [0, 0, 0, 1], qs [0, 0, 0, 0]) := by decide +kernel

end TA
