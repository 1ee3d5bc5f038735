import Verif.Props.C02
import Verif.Lemmas.Look

/-! # C05–C08: indicators that fill their lag with the mean of the whole series

The fill is a function of the future.  Where the affected rows fall into the warm-up (and hence are NaN anyway) the
output is causal; these theorems need NaN to be absorbing (`NaNLaws`), which IEEE 754 guarantees. -/

set_option linter.unusedSectionVars false

namespace TA

section general
variable {F : Type} [Flt F] [NaNLaws F]

/-! ## DPO -/

theorem take_dpo {c : Series F} {w m : Nat} (hw : 3 ≤ w) : (DPO.run c w false).take m = DPO.run (c.take m) w false := by
  unfold DPO.run
  rw [take_ssub, take_shift, take_rollMean]
  apply series_ext
  · simp
  · intro i hi
    simp only [length_ssub, length_shift] at hi
    rw [ix_ssub (by simpa using hi), ix_ssub (by simpa using hi)]
    by_cases h : i < w / 2 + 1
    · have e : ix (rollMean w (minp false w) (c.take m)) i = nan :=
        rollMean_short hi (by show i + 1 < w; omega)
      rw [e, NaNLaws.sub_nan, NaNLaws.sub_nan]
    · rw [ix_shift hi, ix_shift hi, if_neg h, if_neg h]

/-! ## TRIX -/

theorem ewm_row0 {a : F} {mp : Nat} {s : Series F} (h : 0 < s.length) (hm : 2 ≤ mp) : ix (ewm a mp s) 0 = nan := by
  rw [ix_ewm h]
  cases s with
  | nil => simp at h
  | cons x xs =>
    simp only [List.map_cons, zero_add, List.take_succ_cons, List.take_zero, List.foldl_cons, List.foldl_nil]
    unfold ewmOut
    rw [if_neg]
    have hn : Flt.isNaN (Flt.nan : F) = true := NaNLaws.isNaN_nan
    simp only [ewmStep, ewmInit, hn]
    split_ifs <;> simp <;> omega

theorem take_trix {c : Series F} {w m : Nat} (hw : 2 ≤ w) :
    (TRIX.run c w false).take m = TRIX.run (c.take m) w false := by
  unfold TRIX.run
  simp only [take_mulc, take_sdiv, take_ssub, take_shift, take_ema]
  generalize he : ema (ema (ema (c.take m) w false) w false) w false = e3
  have hl : e3.length = (c.take m).length := by rw [← he]; simp
  apply series_ext
  · simp
  · intro i hi
    simp only [length_mulc, length_sdiv, length_ssub] at hi
    rw [ix_mulc (by simpa using hi), ix_mulc (by simpa using hi), ix_sdiv (by simpa using hi),
      ix_sdiv (by simpa using hi), ix_ssub (by simpa using hi), ix_ssub (by simpa using hi),
      ix_shift hi, ix_shift hi]
    by_cases h0 : i < 1
    · have : i = 0 := by omega
      subst this
      have e : ix e3 0 = nan := by
        rw [← he]
        exact ewm_row0 (by simpa [hl] using hi) (by simpa [minp] using hw)
      simp only [e, NaNLaws.nan_sub, NaNLaws.nan_div]
    · rw [if_neg h0, if_neg h0]

/-! ## Vortex -/

theorem lastN_take_eq {w : Nat} {l : List F} {i : Nat} (h : i + 1 ≤ w) : lastN w (l.take (i + 1)) = l.take (i + 1) := by
  unfold lastN
  rw [show (l.take (i + 1)).length - w = 0 by simp; omega]
  rfl

theorem clean_nan' : clean (Flt.nan : F) = Flt.nan := by unfold clean; split_ifs <;> rfl

theorem rollSum_short {w : Nat} {s : Series F} {i : Nat} (h : i < s.length) (hi : i < w)
    (h0 : ix s 0 = nan) : ix (rollSum w (minp false w) s) i = nan := by
  unfold rollSum
  rw [ix_roll h, lastN_take_eq (by omega)]
  cases s with
  | nil => simp at h
  | cons x xs =>
    have hx : x = nan := by simpa [ix] using h0
    subst hx
    have hn : Flt.isNaN (Flt.nan : F) = true := NaNLaws.isNaN_nan
    have e : valid ((((Flt.nan : F) :: xs).map clean).take (i + 1)) = valid ((xs.map clean).take i) := by
      simp only [List.map_cons, List.take_succ_cons, clean_nan']
      unfold valid
      rw [List.filter_cons_of_neg (by simp [hn])]
    have hl := valid_length_le ((xs.map clean).take i)
    simp only [List.length_take, List.length_map] at hl
    unfold aggSum
    rw [e, if_neg (by simp [minp]; omega), if_neg (by simp [minp]; omega)]

theorem trn_agree (h l c : Series F) (w m : Nat) (hl : h.length = c.length) :
    AgreeFrom w (Vortex.trn (h.take m) (l.take m) (c.take m) w false)
      (rollSum w (minp false w) (trueRange (h.take m) (l.take m) (shift (c.take m) 1 (smean c)))) := by
  unfold Vortex.trn rollSum
  refine AgreeFrom.mono (AgreeFrom.roll (k := 1) ?_) (by omega)
  refine ⟨by simp, fun i h1 h2 => ?_⟩
  simp only [length_trueRange] at h2
  unfold trueRange
  have h3 : i < (c.take m).length := by simp at h2 ⊢; omega
  rw [ix_zip3 h2, ix_zip3 h2, ix_shift h3, ix_shift h3, if_neg (by omega), if_neg (by omega)]

theorem take_vortex_aux {h l c x : Series F} {w m : Nat} (hl : h.length = c.length)
    (hx : x.length = c.length) (hx0 : 0 < x.length → ix x 0 = nan) :
    (sdiv (rollSum w (minp false w) x) (Vortex.trn h l c w false)).take m =
      sdiv (rollSum w (minp false w) (x.take m)) (Vortex.trn (h.take m) (l.take m) (c.take m) w false) := by
  have ha := trn_agree h l c w m hl
  rw [take_sdiv, take_rollSum]
  have e : (Vortex.trn h l c w false).take m =
      rollSum w (minp false w) (trueRange (h.take m) (l.take m) (shift (c.take m) 1 (smean c))) := by
    unfold Vortex.trn; rw [take_rollSum, take_trueRange, take_shift]
  rw [e]
  apply series_ext
  · simp
  · intro i hi
    simp only [length_sdiv, length_rollSum] at hi
    rw [ix_sdiv (by simpa using hi), ix_sdiv (by simpa using hi)]
    by_cases hiw : i < w
    · have hm : 0 < m := by simp at hi; omega
      rw [rollSum_short hi hiw (by rw [ix_take_lt hm]; exact hx0 (by simp at hi; omega)), NaNLaws.nan_div,
        NaNLaws.nan_div]
    · rw [ha.2 i (by omega) (by rw [ha.1]; simp at hi ⊢; omega)]

theorem vortex_row0 {a b : Series F} (h : 0 < (sabs (ssub a (shift b 1))).length) (hb : b.length = a.length) :
    ix (sabs (ssub a (shift b 1))) 0 = nan := by
  simp only [length_sabs, length_ssub] at h
  rw [ix_sabs (by simpa using h), ix_ssub h, ix_shift (by omega), if_pos (by omega), NaNLaws.sub_nan]
  exact NaNLaws.nan_abs

theorem take_vip {h l c : Series F} {w m : Nat} (hh : h.length = c.length) (hl : l.length = c.length) :
    (Vortex.vip h l c w false).take m = Vortex.vip (h.take m) (l.take m) (c.take m) w false := by
  unfold Vortex.vip
  rw [take_vortex_aux hh (by simpa using hh) (fun h1 => vortex_row0 h1 (by omega))]
  rw [take_sabs, take_ssub, take_shift]

theorem take_vin {h l c : Series F} {w m : Nat} (hh : h.length = c.length) (hl : l.length = c.length) :
    (Vortex.vin h l c w false).take m = Vortex.vin (h.take m) (l.take m) (c.take m) w false := by
  unfold Vortex.vin
  rw [take_vortex_aux hh (by simpa using hl) (fun h1 => vortex_row0 h1 (by omega))]
  rw [take_sabs, take_ssub, take_shift]

/-! ## KST -/

theorem rocma_agree (c : Series F) (r w m : Nat) (b : Bool) :
    AgreeFrom (r + w - 1) ((KST.rocma c r w b).take m) (KST.rocma (c.take m) r w b) := by
  unfold KST.rocma
  simp only [take_rollMean, take_sdiv, take_ssub, take_shift]
  have hs := AgreeFrom.shift_fill (c.take m) r (smean c) (smean (c.take m))
  exact AgreeFrom.roll (AgreeFrom.zip2 (AgreeFrom.zip2 (AgreeFrom.refl _ _) hs (by simp)) hs (by simp))

/-- first row of the KST that does not read the artificial history -/
def KstP.start (p : KstP) : Nat := max (max (p.r1 + p.w1) (p.r2 + p.w2)) (max (p.r3 + p.w3) (p.r4 + p.w4)) - 1

theorem kst_agree (p : KstP) (c : Series F) (m : Nat) (b : Bool) :
    AgreeFrom p.start ((KST.run c p.r1 p.r2 p.r3 p.r4 p.w1 p.w2 p.w3 p.w4 b).take m)
      (KST.run (c.take m) p.r1 p.r2 p.r3 p.r4 p.w1 p.w2 p.w3 p.w4 b) := by
  have h1 := (rocma_agree c p.r1 p.w1 m b).mono (show _ ≤ p.start by unfold KstP.start; omega)
  have h2 := (rocma_agree c p.r2 p.w2 m b).mono (show _ ≤ p.start by unfold KstP.start; omega)
  have h3 := (rocma_agree c p.r3 p.w3 m b).mono (show _ ≤ p.start by unfold KstP.start; omega)
  have h4 := (rocma_agree c p.r4 p.w4 m b).mono (show _ ≤ p.start by unfold KstP.start; omega)
  unfold KST.run
  simp only [take_cmul, take_sadd]
  have hlen : ∀ r w, (KST.rocma c r w b).length = c.length := by intro r w; simp [KST.rocma]
  refine AgreeFrom.map (AgreeFrom.zip2 (AgreeFrom.zip2 (AgreeFrom.zip2 h1 (AgreeFrom.map h2) ?_)
    (AgreeFrom.map h3) ?_) (AgreeFrom.map h4) ?_) <;> simp [hlen, sadd]

theorem nlaFrom_ok {k : Nat} {T : List (Bar F) → Series F}
    (h : ∀ past future, AgreeFrom k ((T (past ++ future)).take past.length) (T past)) :
    NoLookAheadFrom k (fun b => Except.ok (T b)) := by
  intro past future out ho
  refine ⟨_, rfl, ?_⟩
  rw [← Except.ok.inj ho]
  exact (h past future).drop

end general

section
variable {F : Type} [FltFn F] [NaNLaws F]

/-- C05: the DPO with `fillna=False` and window at least 3 never looks ahead. -/
theorem dpo_no_lookahead (w : Nat) (hw : 3 ≤ w) : NoLookAhead (fun b => (Ind.dpo w : Ind F).eval false b) := by
  refine nla_ok (T := fun b => dpo (closes b) w false) ?_
  intro b m
  simp only [dpo, take_checkFillna_false, take_dpo hw, closes, List.map_take]

/-- C07: TRIX with `fillna=False` and window at least 2 never looks ahead. -/
theorem trix_no_lookahead (w : Nat) (hw : 2 ≤ w) : NoLookAhead (fun b => (Ind.trix w : Ind F).eval false b) := by
  have e : (fun b => (Ind.trix w : Ind F).eval false b) =
      fun b => .ok (checkFillna false (.const (lit 0)) (TRIX.run (closes b) w false)) := by
    funext b
    simp only [Ind.eval, trix_eq]
    rw [if_neg (by omega)]
  rw [e]
  refine nla_ok ?_
  intro b m
  simp only [take_checkFillna_false, take_trix hw, closes, List.map_take]

/-- C07: the three Vortex outputs with `fillna=False` never look ahead. -/
theorem vortex_no_lookahead (w : Nat) :
    NoLookAhead (fun b => (Ind.vortexPos w : Ind F).eval false b) ∧
    NoLookAhead (fun b => (Ind.vortexNeg w : Ind F).eval false b) ∧
    NoLookAhead (fun b => (Ind.vortexDiff w : Ind F).eval false b) := by
  refine ⟨?_, ?_, ?_⟩
  · refine nla_ok (T := fun b => vortexPos (highs b) (lows b) (closes b) w false) ?_
    intro b m
    simp only [vortexPos, take_checkFillna_false]
    rw [take_vip (by simp) (by simp)]
    simp only [List.map_take]
  · refine nla_ok (T := fun b => vortexNeg (highs b) (lows b) (closes b) w false) ?_
    intro b m
    simp only [vortexNeg, take_checkFillna_false]
    rw [take_vin (by simp) (by simp)]
    simp only [List.map_take]
  · refine nla_ok (T := fun b => vortexDiff (highs b) (lows b) (closes b) w false) ?_
    intro b m
    simp only [vortexDiff, take_checkFillna_false, take_ssub]
    rw [take_vip (by simp) (by simp), take_vin (by simp) (by simp)]
    simp only [List.map_take]

/-- C06: from row `max (roc_j + window_j) - 1` on, the KST does not depend on later rows; the signal and the
difference from `nsig - 1` rows later on. -/
theorem kst_no_lookahead_from (p : KstP) (nsig : Nat) :
    NoLookAheadFrom p.start (fun b => (Ind.kst p : Ind F).eval false b) ∧
    NoLookAheadFrom (p.start + (nsig - 1)) (fun b => (Ind.kstSig p nsig : Ind F).eval false b) ∧
    NoLookAheadFrom (p.start + (nsig - 1)) (fun b => (Ind.kstDiff p nsig : Ind F).eval false b) := by
  have hc : ∀ past future : List (Bar F), closes past = (closes (past ++ future)).take past.length := by
    intro past future; simp [closes]
  have hsig : ∀ past future : List (Bar F), AgreeFrom (p.start + (nsig - 1))
      ((KST.sig (KST.run (closes (past ++ future)) p.r1 p.r2 p.r3 p.r4 p.w1 p.w2 p.w3 p.w4 false) nsig).take past.length)
      (KST.sig (KST.run (closes past) p.r1 p.r2 p.r3 p.r4 p.w1 p.w2 p.w3 p.w4 false) nsig) := by
    intro past future
    have h := kst_agree p (closes (past ++ future)) past.length false
    rw [← hc] at h
    unfold KST.sig
    rw [take_rollMean]
    exact (AgreeFrom.roll h).mono (by omega)
  refine ⟨?_, ?_, ?_⟩
  · refine nlaFrom_ok (T := fun b => TA.kst (closes b) p.r1 p.r2 p.r3 p.r4 p.w1 p.w2 p.w3 p.w4 false) ?_
    intro past future
    simp only [kst, checkFillna, Bool.false_eq_true, if_false]
    have h := kst_agree p (closes (past ++ future)) past.length false
    rwa [← hc] at h
  · refine nlaFrom_ok (T := fun b => TA.kstSig (closes b) p.r1 p.r2 p.r3 p.r4 p.w1 p.w2 p.w3 p.w4 nsig false) ?_
    intro past future
    simp only [kstSig, checkFillna, Bool.false_eq_true, if_false]
    exact hsig past future
  · refine nlaFrom_ok (T := fun b => TA.kstDiff (closes b) p.r1 p.r2 p.r3 p.r4 p.w1 p.w2 p.w3 p.w4 nsig false) ?_
    intro past future
    simp only [kstDiff, checkFillna, Bool.false_eq_true, if_false]
    rw [take_ssub]
    have h := kst_agree p (closes (past ++ future)) past.length false
    rw [← hc] at h
    refine AgreeFrom.zip2 (h.mono (by omega)) (hsig past future) ?_
    simp [KST.sig]

/-- C08: with `visual=False` the four Ichimoku lines never look ahead. -/
theorem ichimoku_no_lookahead (w1 w2 w3 : Nat) :
    NoLookAhead (fun b => (Ind.ichimokuConv w1 : Ind F).eval false b) ∧
    NoLookAhead (fun b => (Ind.ichimokuBase w2 : Ind F).eval false b) ∧
    NoLookAhead (fun b => (Ind.ichimokuA w1 w2 false : Ind F).eval false b) ∧
    NoLookAhead (fun b => (Ind.ichimokuB w2 w3 false : Ind F).eval false b) :=
  ⟨no_lookahead _ _ trivial (by simp), no_lookahead _ _ trivial (by simp), no_lookahead _ _ rfl (by simp),
    no_lookahead _ _ rfl (by simp)⟩

end

/-- C08: with `visual=True` (and `fillna=False`) row `i ≥ window2` of each span is row `i - window2` of the unshifted
span, and the first `window2` rows hold the mean (`Series.mean()`) of the whole unshifted span. -/
theorem ichimoku_visual {F : Type} [Flt F] (high low : Series F) (w1 w2 w3 : Nat) (i : Nat) :
    (i < high.length → ix (ichimokuA high low w1 w2 true false) i =
      if i < w2 then smean (ichimokuA high low w1 w2 false false)
      else ix (ichimokuA high low w1 w2 false false) (i - w2)) ∧
    (i < high.length → ix (ichimokuB high low w2 w3 true false) i =
      if i < w2 then smean (ichimokuB high low w2 w3 false false)
      else ix (ichimokuB high low w2 w3 false false) (i - w2)) := by
  constructor <;> intro h
  · simp only [ichimokuA, Ichimoku.vis, checkFillna, Bool.false_eq_true, if_false, if_true]
    rw [ix_shift (by simpa [Ichimoku.spanA, Ichimoku.mid] using h)]
  · simp only [ichimokuB, Ichimoku.vis, checkFillna, Bool.false_eq_true, if_false, if_true]
    rw [ix_shift (by simpa [Ichimoku.mid] using h)]

section examples
attribute [local instance] toyFn

/-- defined DPO rows with window 3 -/
example : (Ind.dpo 3 : Ind (Val ℚ)).eval false [qb 1, qb 3, qb 2, qb 6] =
    .ok [.nan, .nan, .fin (-1), .fin (-2/3)] := by decide +kernel

theorem dpo_leaks_window1 : ¬ NoLookAhead (fun b => (Ind.dpo 1 : Ind (Val ℚ)).eval false b) :=
  not_nla [qb 1] [qb 5] (by decide +kernel)
theorem dpo_leaks_window2 : ¬ NoLookAhead (fun b => (Ind.dpo 2 : Ind (Val ℚ)).eval false b) :=
  not_nla [qb 1, qb 2] [qb 5] (by decide +kernel)
theorem dpo_leaks_fillna : ¬ NoLookAhead (fun b => (Ind.dpo 20 : Ind (Val ℚ)).eval true b) :=
  not_nla [qb 1, qb 2] [qb 5] (by decide +kernel)

/-- defined TRIX rows with window 2 -/
example : (Ind.trix 2 : Ind (Val ℚ)).eval false [qb 8, qb 8, qb 8, qb 8, qb 35] =
    .ok [.nan, .nan, .nan, .nan, .fin 100] := by decide +kernel

theorem trix_leaks_fillna : ¬ NoLookAhead (fun b => (Ind.trix 2 : Ind (Val ℚ)).eval true b) :=
  not_nla [qb 1] [qb 5] (by decide +kernel)
theorem trix_leaks_window1 : ¬ NoLookAhead (fun b => (Ind.trix 1 : Ind (Val ℚ)).eval false b) :=
  not_nla [qb 1] [qb 5] (by decide +kernel)

/-- defined Vortex rows with window 1 -/
example : (Ind.vortexPos 1 : Ind (Val ℚ)).eval false [qbar 3 1 2 1, qbar 5 2 4 1] =
    .ok [.nan, .fin (4/3)] := by decide +kernel

theorem vortex_leaks_fillna : ¬ NoLookAhead (fun b => (Ind.vortexPos 2 : Ind (Val ℚ)).eval true b) :=
  not_nla [qbar 3 1 2 1, qbar 5 2 4 1] [qbar 50 20 40 1] (by decide +kernel)

/-- a KST with short periods: row 1 on is settled, row 0 is not -/
def kstShort : KstP := ⟨1, 1, 1, 1, 1, 1, 1, 1⟩
example : kstShort.start = 1 ∧ (Ind.kst kstShort : Ind (Val ℚ)).eval false [qb 1, qb 2] =
    .ok [.fin (-1000/3), .fin 1000] := by decide +kernel
theorem kst_leaks : ¬ NoLookAhead (fun b => (Ind.kst kstShort : Ind (Val ℚ)).eval false b) :=
  not_nla [qb 1, qb 2] [qb 5] (by decide +kernel)

theorem ichimoku_visual_leaks : ¬ NoLookAhead (fun b => (Ind.ichimokuA 1 1 true : Ind (Val ℚ)).eval false b) ∧
    ¬ NoLookAhead (fun b => (Ind.ichimokuB 1 1 true : Ind (Val ℚ)).eval false b) :=
  ⟨not_nla [qb 1] [qb 5] (by decide +kernel), not_nla [qb 1] [qb 5] (by decide +kernel)⟩

end examples

end TA
