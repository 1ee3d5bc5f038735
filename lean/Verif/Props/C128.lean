import Verif.Props.C02Adx
import Verif.Props.C05
import Verif.Props.C09
import Verif.Props.C12
import Verif.Props.C109
import Verif.Props.C121
import Verif.Props.C127

/-!
# C128 — causality and filling in IEEE arithmetic

The theorems on look-ahead and on filling that need NaN to be absorbing (C03, C05–C10, C12) hold in `binary64` and `binary32`: both are instances of `NaNLaws`.
The two families whose causality was shown in exact arithmetic only are the ADX family (C02) and KAMA (C04); here they are treated in rounded arithmetic.
With pandas' running sum KAMA does look ahead: what enters the sum in row 0, the change from the *last* close, leaves its rounding error behind.
-/

set_option linter.unusedSectionVars false

namespace TA
open Finset

/-! ## the IEEE formats are instances -/

section inst
variable {K : Type} [Field K] [LinearOrder K] [IsStrictOrderedRing K]

theorem rd_num (R : Rounding K) (x : K) : (R.rd x).isNaN = false := by
  have := R.mono (le_refl x)
  cases h : R.rd x with
  | nan => rw [h] at this; exact absurd this (by simp [Val.le])
  | _ => rfl

/-- a format that holds 1000 holds, rounded, everything below -/
theorem rd_moderate {R : Rounding K} {B y : K} (hR : R.rd B = .fin y) {x : K} (hx : |x| ≤ B) : ∃ z, R.rd x = .fin z := by
  have h1 := R.mono (abs_le.mp hx).2
  have h2 := R.mono (abs_le.mp hx).1
  rw [R.odd, hR] at h2
  rw [hR] at h1
  cases h : R.rd x with
  | nan => have := rd_num R x; rw [h] at this; cases this
  | pinf => rw [h] at h1; exact absurd h1 (by simp [Val.le])
  | ninf => rw [h] at h2; exact absurd h2 (by simp [Val.le, Val.neg])
  | fin z => exact ⟨z, rfl⟩

theorem nanLaws_of (R : Rounding K) (hR : R.rd 1000 = .fin 1000) : NaNLaws (Rval R) where
  isNaN_nan := rfl
  nan_add := fun b => by show R.rnd (Val.add .nan b) = .nan; rw [show Val.add .nan b = (.nan : Val K) from TA.nan_add b]; rfl
  add_nan := fun b => by show R.rnd (Val.add b .nan) = .nan; rw [show Val.add b .nan = (.nan : Val K) from TA.add_nan b]; rfl
  nan_sub := fun b => by show R.rnd (Val.sub .nan b) = .nan; rw [show Val.sub .nan b = (.nan : Val K) from TA.nan_sub b]; rfl
  sub_nan := fun b => by show R.rnd (Val.sub b .nan) = .nan; rw [show Val.sub b .nan = (.nan : Val K) from TA.sub_nan b]; rfl
  nan_mul := fun b => by show R.rnd (Val.mul .nan b) = .nan; rw [show Val.mul .nan b = (.nan : Val K) from TA.nan_mul b]; rfl
  mul_nan := fun b => by show R.rnd (Val.mul b .nan) = .nan; rw [show Val.mul b .nan = (.nan : Val K) from TA.mul_nan b]; rfl
  nan_div := fun b => by show R.rnd (Val.div .nan b) = .nan; rw [show Val.div .nan b = (.nan : Val K) from TA.nan_div b]; rfl
  div_nan := fun b => by show R.rnd (Val.div b .nan) = .nan; rw [show Val.div b .nan = (.nan : Val K) from TA.div_nan b]; rfl
  nan_abs := rfl
  nan_eq := fun b => TA.nan_eq (b : Val K)
  eq_nan := fun b => TA.eq_nan (b : Val K)
  isInf_nan := rfl
  lit_num := fun q hq => by
    obtain ⟨z, hz⟩ := rd_moderate hR (x := (q : K)) (by exact_mod_cast hq)
    show (R.rd (q : K)).isNaN = false ∧ (R.rd (q : K)).isInf = false
    rw [hz]; exact ⟨rfl, rfl⟩
  eq_lit_num := fun a q hq h => by
    obtain ⟨z, hz⟩ := rd_moderate hR (x := (q : K)) (by exact_mod_cast hq)
    have h : Val.eq a (R.rd (q : K)) = true := h
    rw [hz] at h
    change Val.isNaN a = false ∧ Val.isInf a = false
    change Val K at a
    cases a <;> first | exact ⟨rfl, rfl⟩ | exact absurd h Bool.false_ne_true

variable [FloorRing K]

/-- C128: **IEEE double precision is an instance** -/
theorem nanLaws_double : NaNLaws (Double K) := nanLaws_of _ (by
  have := b64_int (K := K) (k := 1000) (by norm_num)
  push_cast at this
  exact this)

/-- C128: **so is single precision** -/
theorem nanLaws_single : NaNLaws (Single K) := nanLaws_of _ (by
  have := b32_int (K := K) (k := 1000) (by norm_num)
  push_cast at this
  exact this)

instance : NaNLaws (Double K) := nanLaws_double
instance : NaNLaws (Single K) := nanLaws_single

end inst

/-- C128: **causality in double precision** of the lines that fill their first lag with a mean (C05–C08) -/
theorem double_causal :
    (∀ w, 3 ≤ w → NoLookAhead fun b => (Ind.dpo w : Ind (Double ℝ)).eval false b) ∧
    (∀ w, 2 ≤ w → NoLookAhead fun b => (Ind.trix w : Ind (Double ℝ)).eval false b) ∧
    (∀ w, NoLookAhead (fun b => (Ind.vortexPos w : Ind (Double ℝ)).eval false b) ∧ NoLookAhead (fun b => (Ind.vortexNeg w : Ind (Double ℝ)).eval false b) ∧
      NoLookAhead fun b => (Ind.vortexDiff w : Ind (Double ℝ)).eval false b) ∧
    (∀ (p : KstP) nsig, NoLookAheadFrom p.start (fun b => (Ind.kst p : Ind (Double ℝ)).eval false b) ∧
      NoLookAheadFrom (p.start + (nsig - 1)) (fun b => (Ind.kstSig p nsig : Ind (Double ℝ)).eval false b) ∧
      NoLookAheadFrom (p.start + (nsig - 1)) fun b => (Ind.kstDiff p nsig : Ind (Double ℝ)).eval false b) :=
  ⟨fun w hw => dpo_no_lookahead w hw, fun w hw => trix_no_lookahead w hw, fun w => vortex_no_lookahead w, fun p nsig => kst_no_lookahead_from p nsig⟩

/-- C128: **filling in double precision** (C09, C10, C12) -/
theorem double_filled (ind : Ind (Double ℝ)) (b : List (Bar (Double ℝ))) :
    (∀ out, ind.ConstFill → ind.eval true b = .ok out → ∀ x ∈ out, Num x) ∧
    (∀ out, ind.BackFill0 → ind.eval true b = .ok out → AllOrNothing out) ∧
    (∀ out out', ind.SinglePass → ind.eval false b = .ok out → ind.eval true b = .ok out' → ∀ i, i < out.length → Num (ix out i) → ix out' i = ix out i) :=
  ⟨fun out h ho => fillna_const_gapfree ind h b out ho, fun out h ho => fillna_back_all_or_nothing ind h b out ho,
    fun out out' h ho ho' i hi hn => fillna_keeps_defined ind h b out out' ho ho' i hi hn⟩

/-! ## ADX -/

section adx
variable {K : Type} [Field K] [LinearOrder K] [IsStrictOrderedRing K] {R : Rounding K}

/-- bars of numbers, highs and lows at most `B` in size -/
def BarsWithin (R : Rounding K) (B : K) (b : List (Bar (Rval R))) : Prop :=
  ∀ r ∈ b, (∃ h, r.high = rk h ∧ |h| ≤ B) ∧ (∃ l, r.low = rk l ∧ |l| ≤ B) ∧ ∃ c, r.close = rk c

theorem ix_colR {f : Bar (Rval R) → Rval R} {P : Rval R → Prop} {b : List (Bar (Rval R))} (hb : ∀ r ∈ b, P (f r)) {i : Nat} (hi : i < b.length) : P (ix (b.map f) i) := by
  rw [ix_lt (by simpa using hi)]
  simp only [List.getElem_map]
  exact hb _ (List.getElem_mem hi)

theorem sub_rk (x y : K) : ((rk x : Rval R) -. rk y) = (R.rd (x - y) : Val K) := by
  show R.rd (x + -y) = _
  rw [sub_eq_add_neg]

theorem dm_num {B y : K} (hB : R.rd (2 * B) = .fin y) {a b : K} (ha : |a| ≤ B) (hb : |b| ≤ B) (v : Rval R) :
    Flt.isNaN (Flt.abs ((if (((rk a : Rval R) -. (rk b : Rval R)) >. v) && (((rk a : Rval R) -. (rk b : Rval R)) >. lit 0) then lit 1 else lit 0)
      *. ((rk a : Rval R) -. (rk b : Rval R))) : Rval R) = false := by
  obtain ⟨z, hz⟩ := rd_moderate hB (x := a - b) ((abs_sub _ _).trans (by linarith))
  have hz : ((rk a : Rval R) -. (rk b : Rval R)) = rk z := (sub_rk a b).trans hz
  rw [hz]
  have h1 : (lit 1 : Rval R) = rk 1 := by show R.rd ((1 : ℚ) : K) = _; rw [Rat.cast_one, R.one]; rfl
  have h0 : (lit 0 : Rval R) = rk 0 := by show R.rd ((0 : ℚ) : K) = _; rw [Rat.cast_zero, R.zero]; rfl
  have key : ∀ k : K, Flt.isNaN (Flt.abs ((rk k : Rval R) *. (rk z : Rval R)) : Rval R) = false := fun k => by
    show (Val.abs (R.rd (k * z))).isNaN = false
    have := rd_num R (k * z)
    cases h : R.rd (k * z) <;> simp_all [Val.abs, Val.isNaN]
  split_ifs
  · rw [h1]; exact key 1
  · rw [h0]; exact key 0

theorem seeded_of_bars {B y : K} (hB : R.rd (2 * B) = .fin y) {b : List (Bar (Rval R))} (hb : BarsWithin R B b) {w : Nat} (hw : w + 1 ≤ b.length) :
    ADX.Seeded (highs b) (lows b) (closes b) w := by
  have hs : ∀ (f : Bar (Rval R) → Rval R) i, 1 ≤ i → i < b.length → ix (shift (b.map f) 1) i = ix (b.map f) (i - 1) := by
    intro f i h1 h2
    unfold shift
    rw [ix_tab_lt (by simpa using h2), if_neg (by omega)]
  have H : ∀ i, i < b.length → ∃ h, ix (highs b) i = rk h ∧ |h| ≤ B := fun i hi => ix_colR (f := Bar.high) (P := fun v => ∃ h, v = rk h ∧ |h| ≤ B) (fun r hr => (hb r hr).1) hi
  have L : ∀ i, i < b.length → ∃ h, ix (lows b) i = rk h ∧ |h| ≤ B := fun i hi => ix_colR (f := Bar.low) (P := fun v => ∃ h, v = rk h ∧ |h| ≤ B) (fun r hr => (hb r hr).2.1) hi
  have C : ∀ i, i < b.length → ∃ h, ix (closes b) i = rk h := fun i hi => ix_colR (f := Bar.close) (P := fun v => ∃ h, v = rk h) (fun r hr => (hb r hr).2.2) hi
  refine ⟨seeded_of (by simpa using hw) ?_, seeded_of (by simpa [length_pos] using hw) ?_,
    seeded_of (by simpa [length_neg] using hw) ?_⟩
  all_goals
    intro i h1 h2
    have h2' : i < b.length := by simpa [length_pos, length_neg] using h2
    obtain ⟨h, e1, b1⟩ := H i h2'
    obtain ⟨l, e2, b2⟩ := L i h2'
    obtain ⟨h', e4, b4⟩ := H (i - 1) (by omega)
    obtain ⟨l', e5, b5⟩ := L (i - 1) (by omega)
    obtain ⟨c', e6⟩ := C (i - 1) (by omega)
    rw [← hs Bar.high i h1 h2'] at e4
    rw [← hs Bar.low i h1 h2'] at e5
    rw [← hs Bar.close i h1 h2'] at e6
  · unfold ADX.range ssub zip2 getMax getMin zip2
    rw [ix_tab_lt (by simpa using h2'), ix_tab_lt (by simpa using h2'), ix_tab_lt (by simpa using h2'), e1, e2, show ix (shift (closes b) 1) i = _ from e6]
    unfold npMax2 npMin2
    have q : ∀ x : K, Flt.isNaN (rk x : Rval R) = false := fun _ => rfl
    simp only [q, Bool.false_eq_true, if_false]
    split_ifs <;> exact rd_num R _
  · unfold ADX.pos ADX.dm ssub zip2
    rw [ix_tab_lt (by simpa using h2'), ix_tab_lt (by simpa using h2'), ix_tab_lt (by simpa using h2'), e1, e2, show ix (shift (highs b) 1) i = _ from e4, show ix (shift (lows b) 1) i = _ from e5]
    dsimp only
    exact dm_num hB b1 b4 _
  · unfold ADX.neg ADX.dm ssub zip2
    rw [ix_tab_lt (by simpa using h2'), ix_tab_lt (by simpa using h2'), ix_tab_lt (by simpa using h2'), e1, e2, show ix (shift (highs b) 1) i = _ from e4, show ix (shift (lows b) 1) i = _ from e5]
    dsimp only
    exact dm_num hB b5 b2 _

/-- C128: **`adx()`, `adx_pos()` and `adx_neg()` do not look ahead in rounded arithmetic** either, as long as no price is missing and twice the largest price does not
overflow. -/
theorem adx_no_lookahead_rounded {B y : K} (hB : R.rd (2 * B) = .fin y) (w : Nat) (fillna : Bool) (past future : List (Bar (Rval R))) (hp : BarsWithin R B past) (out : Series (Rval R)) :
    (adxOf w fillna past = .ok out → ∃ out', adxOf w fillna (past ++ future) = .ok out' ∧ out'.take past.length = out) ∧
    (adxPosOf w fillna past = .ok out → ∃ out', adxPosOf w fillna (past ++ future) = .ok out' ∧ out'.take past.length = out) ∧
    (adxNegOf w fillna past = .ok out → ∃ out', adxNegOf w fillna (past ++ future) = .ok out' ∧ out'.take past.length = out) := by
  have hs := fun h => seeded_of_bars hB hp (w := w) h
  exact ⟨adxOf_append hs, (adxDi_append hs).1, (adxDi_append hs).2⟩

end adx

/-! ## KAMA -/

section kama
variable {F : Type} [Flt F]

theorem rollSum_row {s t : Series F} {w mp i : Nat} (hs : i < s.length) (ht : i < t.length) (h : ∀ j, j ≤ i → i < j + w → ix s j = ix t j) :
    ix (rollSum w mp s) i = ix (rollSum w mp t) i := by
  unfold rollSum
  rw [ix_roll' hs, ix_roll' ht]
  congr 1
  apply List.map_congr_left
  intro j hj
  rw [mem_winIx] at hj
  rw [h j hj.1 hj.2]

/-- the loop of KAMA over two smoothing constants that agree after row `p`, and are missing before it -/
theorem kama_loop {sc sc' c c' : Series F} (hN : Flt.isNaN (nan : F) = true) {p n : Nat} (h0 : ∀ i, i < n → i < p → ix sc i = nan ∧ ix sc' i = nan)
    (h1 : p < n → Flt.isNaN (ix sc p) = false ∧ Flt.isNaN (ix sc' p) = false)
    (h2 : ∀ i, p < i → i < n → ix sc i = ix sc' i) (hc : ∀ i, i < n → ix c i = ix c' i) (k : Nat) (hk : k ≤ n) :
    iter (KAMA.step sc c) (nan, true) k = iter (KAMA.step sc' c') (nan, true) k := by
  have pre : ∀ k, k ≤ n → k ≤ p → iter (KAMA.step sc c) (nan, true) k = (nan, true) ∧ iter (KAMA.step sc' c') (nan, true) k = (nan, true) := by
    intro k hn hk
    induction k with
    | zero => exact ⟨rfl, rfl⟩
    | succ k ih =>
      obtain ⟨a, b⟩ := ih (by omega) (by omega)
      rw [iter_succ, iter_succ, a, b]
      unfold KAMA.step
      rw [(h0 k (by omega) (by omega)).1, (h0 k (by omega) (by omega)).2, hN]
      exact ⟨rfl, rfl⟩
  induction k with
  | zero => rfl
  | succ k ih =>
    rcases lt_trichotomy k p with g | g | g
    · rw [(pre _ (by omega) (by omega)).1, (pre _ (by omega) (by omega)).2]
    · subst g
      rw [iter_succ, iter_succ, (pre _ (by omega) le_rfl).1, (pre _ (by omega) le_rfl).2]
      unfold KAMA.step
      rw [(h1 (by omega)).1, (h1 (by omega)).2, hc k (by omega)]
      rfl
    · rw [iter_succ, iter_succ, ih (by omega)]
      unfold KAMA.step
      rw [h2 k g (by omega), hc k (by omega)]

end kama

section kd
variable {K : Type} [Field K] [LinearOrder K] [IsStrictOrderedRing K] [FloorRing K]

theorem Prices.less {n m : Nat} {c : Nat → K} {M : K} (h : Prices n c M) (hm : m ≤ n) : Prices m c M :=
  ⟨h.lo, h.hi, fun i hi => h.bound i (by omega), fun i j hi hj => h.gap i j (by omega) (by omega)⟩

theorem ix_roll_dser {n k i : Nat} (c : Nat → K) (hk : k ≤ i) (hi : i < n) :
    ix (sabs (ssub (dser n c) (npRoll (dser n c) k))) i = (Flt.abs (rk (c i) -. rk (c (i - k)) : Double K) : Double K) := by
  have l : (dser n c).length = n := by simp [rser]
  have e : ix (npRoll (dser n c) k) i = rk (c (i - k)) := by
    have := kIx_of_le hi hk
    unfold kIx at this
    unfold npRoll
    rw [l, ix_tab_lt hi, this]
    exact ix_tab_lt (by omega)
  rw [ix_sabs (by simp [l, hi]), ix_ssub (by rw [l]; exact hi), e, show ix (dser n c) i = rk (c i) from ix_tab_lt hi]

/-- C128: **KAMA does not look ahead in double precision** if each window is summed afresh. -/
theorem kama_no_lookahead_double {n m : Nat} {c : Nat → K} {M : K} (h : Prices n c M) (hm : m ≤ n) {w p1 p2 : Nat} (hw : 1 ≤ w) (hw2 : w ≤ 2 ^ 38) (h1 : 1 ≤ p1) (h1' : p1 ≤ 2 ^ 40)
    (h2 : 1 ≤ p2) (h2' : p2 ≤ 2 ^ 40) : (kama (dser n c) w p1 p2 false).take m = kama (dser m c) w p1 p2 false := by
  have hp := h.less hm
  have ρ1 : 1.01 * ((w : K) + 1) * eps ≤ 1 / 100 := by
    have a : (w : K) ≤ 2 ^ 38 := by exact_mod_cast hw2
    have b : (eps : K) = 1 / 2 ^ 53 := by unfold eps; norm_num
    have d := mul_le_mul_of_nonneg_right a (eps_pos (K := K)).le
    rw [b] at d ⊢
    norm_num only at d ⊢
    linarith
  have ρ0 : 0 ≤ 1.01 * ((w : K) + 1) * eps := by have := eps_pos (K := K); positivity
  have A := scBy_near h hw h1 h1' h2 h2' ρ0 ρ1 (path_fresh h hw hw2)
  have B := scBy_near hp hw h1 h1' h2 h2' ρ0 ρ1 (path_fresh hp hw hw2)
  have ln : (dser n c).length = n := by simp [rser]
  have lm : (dser m c).length = m := by simp [rser]
  show (KAMA.run (dser n c) w p1 p2 false).take m = KAMA.run (dser m c) w p1 p2 false
  rw [KAMA.run_eq, KAMA.run_eq]
  unfold KAMA.runBy
  rw [take_tab]
  apply tab_congr (by rw [ln, lm]; omega)
  intro i hi
  have hi : i < m := by rw [ln] at hi; omega
  congr 1
  refine kama_loop (F := Double K) rfl (p := w - 1) (n := m) (fun j hj g => ?_) (fun hj => ?_) (fun j g hj => ?_) (fun j hj => ?_) (i + 1) hi
  · exact ⟨A.gap j (by omega) g, B.gap j (by omega) g⟩
  · obtain ⟨x, e1, -⟩ := A.val (w - 1) (by omega) le_rfl
    obtain ⟨y, e2, -⟩ := B.val (w - 1) (by omega) le_rfl
    exact ⟨(congrArg Flt.isNaN e1).trans rfl, (congrArg Flt.isNaN e2).trans rfl⟩
  · unfold KAMA.scBy
    have q : ix (rollSum w w (KAMA.vol (dser n c))) j = ix (rollSum w w (KAMA.vol (dser m c))) j :=
      rollSum_row (by simp [KAMA.vol, ln]; omega) (by simp [KAMA.vol, lm]; omega) fun k k1 k2 => by
        unfold KAMA.vol
        rw [ix_roll_dser c (by omega) (by omega), ix_roll_dser c (by omega) (by omega)]
    rw [ix_map (by simp [ln]; omega), ix_map (by simp [lm]; omega), ix_zip2 (by simp [ln]; omega), ix_zip2 (by simp [lm]; omega),
      ix_roll_dser c (by omega) (by omega), ix_roll_dser c (by omega) (by omega)]
    simp only [minp, Bool.false_eq_true, if_false]
    rw [q]
  · rw [show ix (dser n c) j = rk (c j) from ix_tab_lt (by omega), show ix (dser m c) j = rk (c j) from ix_tab_lt (by omega)]

/-- C128: with pandas' running sum, **what later closes change in KAMA is bounded by the rounding errors**. -/
theorem kama_pandas_leak {n m : Nat} (hn : n ≤ 2 ^ 44) (hm : m ≤ n) {c : Nat → K} {M g : K} (h : Prices n c M) (hM3 : 3 * M ≤ huge) (hg : 0 < g) (hgM : g ≤ M)
    (hgap : ∀ i j, i < n → j < n → c i = c j ∨ g ≤ |c i - c j|) {w p1 p2 P : Nat} (hw : 1 ≤ w) (h1 : 1 ≤ p1) (h1' : p1 ≤ P) (h2 : 1 ≤ p2) (h2' : p2 ≤ P)
    (hP : P ≤ 2 ^ 40) (hsm : 310 * n * w * (M / g) * ((P : K) + 1) ^ 2 * eps ≤ 1 / 25) {i : Nat} (hi : i < m) :
    (ix (kamaPandas (dser n c) w p1 p2 false) i = Val.nan ∧ ix (kamaPandas (dser m c) w p1 p2 false) i = Val.nan) ∨
    ∃ y z, ix (kamaPandas (dser n c) w p1 p2 false) i = rk y ∧ ix (kamaPandas (dser m c) w p1 p2 false) i = rk z ∧
      |y - z| ≤ 620 * n * w * (M / g) * ((P : K) + 1) ^ 2 * eps * M := by
  have ep := eps_pos (K := K)
  have M0 : 0 < M := tiny_pos.trans_le h.lo
  have nm : (m : K) ≤ n := by exact_mod_cast hm
  have le : 310 * m * w * (M / g) * ((P : K) + 1) ^ 2 * eps ≤ 310 * n * w * (M / g) * ((P : K) + 1) ^ 2 * eps := by
    have e : ∀ k : K, 310 * k * w * (M / g) * ((P : K) + 1) ^ 2 * eps = k * (310 * w * (M / g) * ((P : K) + 1) ^ 2 * eps) := fun k => by ring
    rw [e, e]
    exact mul_le_mul_of_nonneg_right nm (by positivity)
  have A := kama_pandas_double hn h hM3 hg hgM hgap hw h1 h1' h2 h2' hP hsm
  have B := kama_pandas_double (hm.trans hn) (h.less hm) hM3 hg hgM (fun i j hi hj => hgap i j (by omega) (by omega)) hw h1 h1' h2 h2' hP (le.trans hsm)
  have T : (kama (ser n c) w p1 p2 false).take m = kama (ser m c) w p1 p2 false := by
    have e := take_kama_run (c := ser n c) (fun v hv => by
      unfold ser tab at hv
      obtain ⟨j, -, rfl⟩ := List.mem_map.mp hv
      exact ⟨_, rfl⟩) w p1 p2 m
    have q : (ser n c).take m = ser m c := by
      unfold ser
      rw [take_tab, Nat.min_eq_left hm]
    rw [q] at e
    exact e
  have lm : (kama (ser m c) w p1 p2 false).length = m := by rw [← B.1]; simp [kamaPandas, KAMA.runBy, rser]
  have ln : (kama (ser n c) w p1 p2 false).length = n := by rw [← A.1]; simp [kamaPandas, KAMA.runBy, rser]
  have E : ix (kama (ser n c) w p1 p2 false) i = ix (kama (ser m c) w p1 p2 false) i := by rw [← T, ix_take_lt hi]
  rcases A.2 i (by omega) with ⟨a1, a2⟩ | ⟨y, t, a1, a2, a3⟩
  · rcases B.2 i (by omega) with ⟨b1, b2⟩ | ⟨z, u, b1, b2, b3⟩
    · exact .inl ⟨a1, b1⟩
    · rw [E, b2] at a2; cases a2
  · rcases B.2 i (by omega) with ⟨b1, b2⟩ | ⟨z, u, b1, b2, b3⟩
    · rw [E, b2] at a2; cases a2
    · rw [E, b2] at a2
      obtain rfl : u = t := by injection a2
      refine .inr ⟨y, z, a1, b1, ?_⟩
      have le' := mul_le_mul_of_nonneg_right le M0.le
      have := abs_sub_le y u z
      rw [abs_sub_comm u z] at this
      generalize 310 * m * w * (M / g) * ((P : K) + 1) ^ 2 * eps * M = X at *
      have e2 : 620 * n * w * (M / g) * ((P : K) + 1) ^ 2 * eps * M = 2 * (310 * n * w * (M / g) * ((P : K) + 1) ^ 2 * eps * M) := by ring
      rw [e2]
      generalize 310 * n * w * (M / g) * ((P : K) + 1) ^ 2 * eps * M = Y at *
      linarith

end kd

/-- the closes 2.6, 2.8, 0.7 and 4.5 as doubles -/
def decimals : List (Double ℚ) := [lit (26 / 10), lit (28 / 10), lit (7 / 10), lit (45 / 10)]

/-- C128: **with pandas' running sum KAMA looks ahead**: a fourth close changes the last bit of the third row, past the warm-up. -/
theorem kama_pandas_looks_ahead :
    kamaPandas (decimals.take 3) 2 2 30 false = ([Val.nan, lit (28 / 10), rk (2405888006235627 / 1125899906842624)] : Series (Double ℚ)) ∧
    kamaPandas decimals 2 2 30 false = ([Val.nan, lit (28 / 10), rk (4811776012471255 / 2251799813685248), rk (2556620217735809 / 1125899906842624)] : Series (Double ℚ)) := by
  decide +kernel

/-! ## the vortex indicator and KST -/

/-- `.vortex_indicator_pos()` with numpy's sum for the mean and pandas' running sums -/
def vortexPosPandas {F : Type} [Flt F] (σ : List F → F) (high low close : Series F) (window : Nat) (fillna : Bool) : Series F :=
  checkFillna fillna (.const (lit 1)) (sdiv (onlineSum window (minp fillna window) (sabs (ssub high (shift low 1))))
    (onlineSum window (minp fillna window) (trueRange high low (shift close 1 (smeanBy σ close)))))

/-- in exact arithmetic it is the model's -/
theorem vortexPosPandas_exact {K : Type} [Field K] [LinearOrder K] [IsStrictOrderedRing K] [FloorRing K] {σ : List (Val K) → Val K} (h : Summing σ) (hi l c : Series (Val K)) (w : Nat) (fillna : Bool) :
    vortexPosPandas σ hi l c w fillna = vortexPos hi l c w fillna := by
  unfold vortexPosPandas vortexPos Vortex.vip Vortex.trn
  rw [summing_eq h, smeanBy_eq, online_sum, online_sum]

/-- a price with one decimal as a double -/
def tenths (k : ℕ) : Double ℚ := lit ((k : ℚ) / 10)

/-- C128: **the vortex indicator looks ahead** in the same way: its first true range is taken against the mean of all closes. -/
theorem vortex_pandas_looks_ahead :
    vortexPosPandas npSum ([16, 25, 45].map tenths) ([3, 21, 27].map tenths) ([12, 21, 36].map tenths) 2 false = ([Val.nan, Val.nan, rk (5599069807001157 / 4503599627370496)] : Series (Double ℚ)) ∧
    (vortexPosPandas npSum ([16, 25, 45, 123].map tenths) ([3, 21, 27, 118].map tenths) ([12, 21, 36, 120].map tenths) 2 false).take 3 = ([Val.nan, Val.nan, rk (1399767451750289 / 1125899906842624)] : Series (Double ℚ)) := by
  decide +kernel

/-- C128: **and so does KST** beyond the rows named in C06 (row 2 for these windows). -/
theorem kst_pandas_looks_ahead :
    (kstPandas npSum ([13, 12, 25].map tenths) 1 1 1 1 2 2 2 2 false).drop 2 = ([rk (4426239116944411 / 8796093022208)] : Series (Double ℚ)) ∧
    ((kstPandas npSum ([13, 12, 25, 31].map tenths) 1 1 1 1 2 2 2 2 false).take 3).drop 2 = ([rk (2213119558472205 / 4398046511104)] : Series (Double ℚ)) := by
  decide +kernel

/-! ## examples -/

/-- four bars within the bound of double precision: +DI in doubles -/
example : adxPosOf 1 false [⟨tenths 30, tenths 10, tenths 20, nan⟩, ⟨tenths 40, tenths 20, tenths 30, nan⟩, ⟨tenths 61, tenths 30, tenths 50, nan⟩, ⟨tenths 50, tenths 40, tenths 40, nan⟩]
    = .ok ([rk 0, rk 0, rk (4766914928164335 / 70368744177664), rk 0] : Series (Double ℚ)) := by decide +kernel
/-- and the bound holds for them: twice 1000 does not overflow -/
example : (binary64 : Rounding ℚ).rd (2 * 1000) = .fin 2000 := by decide +kernel
/-- fresh sums: the third row of KAMA is the same with and without the fourth close -/
example : (kama decimals 2 2 30 false).take 3 = kama (decimals.take 3) 2 2 30 false ∧
    ix (kama decimals 2 2 30 false) 2 = (rk (4811776012471255 / 2251799813685248) : Double ℚ) := by decide +kernel
/-- a constant fill in doubles -/
example : rsi ([10, 12, 11].map tenths) 3 true = .ok ([rk 100, rk 100, rk (1005267773966629 / 17592186044416)] : Series (Double ℚ)) := by decide +kernel

end TA
