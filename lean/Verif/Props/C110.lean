import Verif.Props.C30
import Verif.Props.C58
import Verif.Props.C72
import Verif.Props.C98

/-!
# C110: one bad tick stays in the Bollinger bands

pandas' rolling variance carries a sum of squared deviations along, adding the row that enters and subtracting the one that
leaves.  In exact arithmetic that is the variance of each window (C72).  In double precision what is added for a huge value is
not what is later subtracted for it, and the difference stays for good.
-/

set_option linter.unusedSectionVars false

namespace TA

/-- `BollingerBands._run` with pandas' own kernels in place of the mean and the deviation of each window -/
def BB.pandas {F : Type} [FltFn F] (o : Order) (close : Series F) (window : Nat := 20) (dev : F := lit 2) (fillna : Bool := false) : BB F :=
  let mavg := onlineMean window (minp fillna window) close
  let mstd := onlineStd o window (minp fillna window) close
  { close := close, mavg := mavg, hband := sadd mavg (cmul dev mstd), lband := ssub mavg (cmul dev mstd)
    fillna := fillna }

/-- C110: in exact arithmetic these are the bands of the model. -/
theorem bb_pandas_exact (o : Order) (close : Series (Val ℝ)) {w : Nat} (hw : 1 ≤ w) (dev : Val ℝ) (fillna : Bool) :
    BB.pandas o close w dev fillna = BB.new close w dev fillna := by
  unfold BB.pandas BB.new
  rw [online_mean, online_std o w _ (.inl hw)]

/-! ## A state that reproduces itself -/

section stuck
variable {F : Type} [Flt F] {S : Type}

/-- The rows entering the window equal those leaving it, and the state does not mind: it stays for ever. -/
theorem online_stuck (o : Order) (add rem : S → F → S) (init : S) {w : Nat} (s : List F) {r : Nat} {st : S} (hw : w ≤ r + 1)
    (h0 : online o add rem init w s r = st)
    (hper : ∀ i, r < i → i < s.length → ix s i = ix s (i - w))
    (h1 : o = .removeFirst → ∀ i, r < i → i < s.length → add (rem st (ix s i)) (ix s i) = st)
    (h2 : o = .addFirst → ∀ i, r < i → i < s.length → rem (add st (ix s i)) (ix s i) = st) :
    ∀ i, r ≤ i → i < s.length → online o add rem init w s i = st := by
  intro i hi hl
  induction i, hi using Nat.le_induction with
  | base => exact h0
  | succ i hi ih =>
    have e := ih (by omega)
    have hp := hper (i + 1) (by omega) hl
    have hs : winStart w i = i + 1 - w := rfl
    have hs' : winStart w (i + 1) = i + 1 - w + 1 := by unfold winStart; omega
    unfold online
    rw [e]
    cases o
    · show over add s (i + 1) (i + 1 + 1) (over rem s (winStart w i) (winStart w (i + 1)) st) = st
      rw [hs, hs', over_one _ _ hl, over_one _ _ (show i + 1 - w < s.length by omega), ← hp]
      exact h1 rfl (i + 1) (by omega) hl
    · show over rem s (winStart w i) (winStart w (i + 1)) (over add s (i + 1) (i + 1 + 1) st) = st
      rw [hs, hs', over_one _ _ (show i + 1 - w < s.length by omega), over_one _ _ hl, ← hp]
      exact h2 rfl (i + 1) (by omega) hl

end stuck

/-! ## Any rounding: what is left over stays -/

section residue
variable {K : Type} [Field K] [LinearOrder K] [IsStrictOrderedRing K] {R : Rounding K}

/-- the state of the rolling variance: `w` rows, mean `c`, sum of squares `q`, nothing to compensate -/
def VarSt.rest (R : Rounding K) (w : Nat) (c q : K) : VarSt (Rval R) := ⟨w, rk c, rk q, rk 0, rk 0⟩

theorem lit_ge_one (R : Rounding K) {n : ℤ} (hn : 1 ≤ n) : (lit (n : ℚ) : Rval R) = Val.pinf ∨ ∃ y : K, 1 ≤ y ∧ (lit (n : ℚ) : Rval R) = Val.fin y := by
  have h : (R.rd 1).le (R.rd ((n : ℚ) : K)) = true := R.mono (by exact_mod_cast hn)
  rw [R.one] at h
  show R.rd ((n : ℚ) : K) = _ ∨ ∃ y, _ ∧ R.rd ((n : ℚ) : K) = _
  cases e : R.rd ((n : ℚ) : K) with
  | nan => rw [e] at h; simp [Val.le] at h
  | ninf => rw [e] at h; simp [Val.le] at h
  | pinf => exact .inl rfl
  | fin y => rw [e] at h; exact .inr ⟨y, by simpa [Val.le] using h, rfl⟩

theorem zero_div_lit (R : Rounding K) {n : ℤ} (hn : 1 ≤ n) : ((rk 0 : Rval R) /. lit (n : ℚ)) = rk 0 := by
  show R.rnd (Val.div (.fin 0) (lit (n : ℚ) : Rval R)) = _
  rcases lit_ge_one R hn with e | ⟨y, hy, e⟩
  · rw [e]; simp [Val.div, Rounding.rnd, R.zero]; rfl
  · rw [e]
    have : y ≠ 0 := by linarith
    simp [Val.div, Rounding.rnd, R.zero, this]; rfl

theorem rv_self_sub (R : Rounding K) (c : K) : ((rk c : Rval R) -. rk c) = rk 0 := by
  show R.rd (c + -c) = _
  rw [add_neg_cancel, R.zero]
  rfl

theorem rv_sub_zero {c : K} (hc : R.rd c = .fin c) : ((rk c : Rval R) -. rk 0) = rk c := by
  show R.rd (c + -0) = _
  rw [neg_zero, add_zero, hc]
  rfl

theorem rv_add_zero {c : K} (hc : R.rd c = .fin c) : ((rk c : Rval R) +. rk 0) = rk c := by
  show R.rd (c + 0) = _
  rw [add_zero, hc]
  rfl

theorem rv_zero_add {c : K} (hc : R.rd c = .fin c) : ((rk 0 : Rval R) +. rk c) = rk c := by
  show R.rd (0 + c) = _
  rw [zero_add, hc]
  rfl

theorem rv_zero_mul (R : Rounding K) : ((rk 0 : Rval R) *. rk 0) = rk 0 := by
  show R.rd (0 * 0) = _
  rw [mul_zero, R.zero]
  rfl

theorem VarSt.rest_add {w : Nat} {c q : K} (hc : R.rd c = .fin c) (hq : R.rd q = .fin q) :
    (VarSt.rest R w c q).add (rk c) = VarSt.rest R (w + 1) c q := by
  have hn : ((w : ℤ) + 1) ≠ 0 := by omega
  unfold VarSt.rest VarSt.add
  dsimp only
  rw [if_neg (by exact Bool.false_ne_true), if_pos hn, rv_sub_zero hc, rv_self_sub R, zero_div_lit R (by omega), rv_add_zero hc, rv_zero_add hc,
    rv_self_sub R, rv_zero_mul R, rv_add_zero hq]
  push_cast
  rfl

theorem VarSt.rest_rem {w : Nat} {c q : K} (hw : 1 ≤ w) (hc : R.rd c = .fin c) (hq : R.rd q = .fin q) :
    (VarSt.rest R (w + 1) c q).rem (rk c) = VarSt.rest R w c q := by
  have hn : (((w + 1 : ℕ) : ℤ) - 1) ≠ 0 := by omega
  unfold VarSt.rest VarSt.rem
  dsimp only
  rw [if_neg (by exact Bool.false_ne_true), if_pos hn, rv_sub_zero hc, rv_self_sub R, zero_div_lit R (by omega), rv_sub_zero hc, rv_zero_add hc,
    rv_self_sub R, rv_zero_mul R, rv_sub_zero hq]
  push_cast
  rw [add_sub_cancel_right]

/-- C110. Any rounding, either order: when the price stands still at `c`, the window is full of it and the running mean has come
to rest on it, the sum of squares never changes again, whatever it is: no row of a constant price brings the deviation any closer to 0. -/
theorem variance_residue (o : Order) {w : Nat} (hw : 2 ≤ w) {c q : K} (hc : R.rd c = .fin c) (hq : R.rd q = .fin q)
    {s : List (Rval R)} {r : Nat} (hr : w ≤ r + 1) (h0 : online o VarSt.add VarSt.rem VarSt.init w s r = VarSt.rest R w c q)
    (hs : ∀ i, r + 1 - w ≤ i → i < s.length → ix s i = (rk c : Rval R)) :
    ∀ i, r ≤ i → i < s.length → online o VarSt.add VarSt.rem VarSt.init w s i = VarSt.rest R w c q := by
  obtain ⟨v, rfl⟩ : ∃ v, w = v + 1 := ⟨w - 1, by omega⟩
  refine online_stuck o _ _ _ s hr h0 (fun i h1 h2 => by rw [hs i (by omega) h2, hs (i - (v + 1)) (by omega) (by omega)]) ?_ ?_
  · intro _ i h1 h2
    rw [hs i (by omega) h2, VarSt.rest_rem (by omega) hc hq, VarSt.rest_add hc hq]
  · intro _ i h1 h2
    rw [hs i (by omega) h2, VarSt.rest_add hc hq, VarSt.rest_rem (by omega) hc hq]

/-- closes 100, 101, 10⁸, 100, 100, 100, 100 with window 4: in double precision the state is at rest with a sum of squares of 1 -/
example (o : Order) : online o VarSt.add VarSt.rem VarSt.init 4 (fs [100, 101, 10 ^ 8, 100, 100, 100, 100]) 6 = VarSt.rest binary64 4 100 1 := by
  have h : ∀ (s t : VarSt F64), s.nobs = t.nobs → s.mean = t.mean → s.ssq = t.ssq → s.cAdd = t.cAdd → s.cRem = t.cRem → s = t := by
    rintro ⟨⟩ ⟨⟩ rfl rfl rfl rfl rfl; rfl
  cases o <;> refine h _ _ ?_ ?_ ?_ ?_ ?_ <;> decide +kernel

end residue

/-! ## The witnesses -/

/-- double precision with the given square root (and logarithm) -/
@[instance_reducible] def f64Fn (sq lg : F64 → F64) : FltFn F64 where
  toFlt := inferInstance
  sqrt := sq
  log := lg

/-- one wrong close at the very start, then 99, 101, 99, 101, … -/
def tick (bad : ℚ) (i : Nat) : ℚ := if i = 0 then bad else if i % 2 = 1 then 99 else 101

/-- the bands of that series with the default parameters, in double precision, with pandas' kernels -/
def tickBands (sq lg : F64 → F64) (o : Order) (bad : ℚ) (n : Nat) : BB F64 :=
  letI := f64Fn sq lg
  BB.pandas o (tab n fun i => fx (tick bad i))

theorem tick_take (bad : ℚ) {n k : Nat} (h : k ≤ n) :
    ((tab n fun i => fx (tick bad i)).map clean).take k = tab k fun i => fx (tick bad i) := by
  rw [show (tab n fun i => fx (tick bad i)).map clean = tab n fun i => fx (tick bad i) from ?_, take_tab, min_eq_left h]
  unfold tab
  rw [List.map_map]
  rfl

theorem tick_ix (bad : ℚ) {n i : Nat} (h : i < n) : ix ((tab n fun i => fx (tick bad i)).map clean) i = fx (tick bad i) := by
  rw [ix_map (by simpa using h), ix_tab_lt h]
  rfl

theorem tick_even (bad : ℚ) {i : Nat} (h : 20 < i) : tick bad i = tick bad (i - 20) := by
  unfold tick
  rw [if_neg (show ¬ i = 0 by omega), if_neg (show ¬ i - 20 = 0 by omega), show (i - 20) % 2 = i % 2 by omega]

theorem tick_cases (bad : ℚ) {i : Nat} (h : i ≠ 0) : tick bad i = 99 ∨ tick bad i = 101 := by
  unfold tick
  rw [if_neg h]
  split_ifs <;> simp

/-- a state that is reached after row 20 and that both prices leave alone is kept -/
theorem tick_stuck {S : Type} (o : Order) (add rem : S → F64 → S) (init : S) (bad : ℚ) {st : S}
    (h0 : online o add rem init 20 (tab 21 fun i => fx (tick bad i)) 20 = st)
    (h1 : o = .removeFirst → add (rem st (fx 99)) (fx 99) = st ∧ add (rem st (fx 101)) (fx 101) = st)
    (h2 : o = .addFirst → rem (add st (fx 99)) (fx 99) = st ∧ rem (add st (fx 101)) (fx 101) = st)
    {n i : Nat} (hi : 20 ≤ i) (hn : i < n) :
    online o add rem init 20 ((tab n fun i => fx (tick bad i)).map clean) i = st := by
  have hl : ((tab n fun i => fx (tick bad i)).map clean).length = n := by simp
  refine online_stuck o add rem init _ (by norm_num) ?_ (fun j hj hjn => ?_) (fun e j hj hjn => ?_) (fun e j hj hjn => ?_) i hi (by rw [hl]; exact hn)
  · rw [← online_take o add rem init 20 _ (show 20 < 21 by norm_num), tick_take bad (by omega)]
    exact h0
  · rw [hl] at hjn
    rw [tick_ix bad hjn, tick_ix bad (by omega), tick_even bad hj]
  · rw [hl] at hjn
    rw [tick_ix bad hjn]
    rcases tick_cases bad (show j ≠ 0 by omega) with h | h <;> rw [h]
    · exact (h1 e).1
    · exact (h1 e).2
  · rw [hl] at hjn
    rw [tick_ix bad hjn]
    rcases tick_cases bad (show j ≠ 0 by omega) with h | h <;> rw [h]
    · exact (h2 e).1
    · exact (h2 e).2

deriving instance DecidableEq for SumSt
deriving instance DecidableEq for VarSt

theorem tick_mean {bad : ℚ} (hb : bad = 999999999 ∨ bad = 4000000000) {n i : Nat} (hi : 20 ≤ i) (hn : i < n) :
    ix (onlineMean 20 20 (tab n fun i => fx (tick bad i))) i = fx 100 := by
  unfold onlineMean
  rw [ix_tab_lt (by simpa using hn), tick_stuck (st := ⟨fx 2000, fx 0, fx 0, 20, 0⟩) .removeFirst _ _ _ bad ?_ (fun _ => ?_) (fun h => nomatch h) hi hn]
  · decide +kernel
  · rcases hb with rfl | rfl <;> decide +kernel
  · decide +kernel

theorem tick_std (sq lg : F64 → F64) (o : Order) {bad : ℚ} {st : VarSt F64}
    (h0 : online o VarSt.add VarSt.rem VarSt.init 20 (tab 21 fun i => fx (tick bad i)) 20 = st)
    (h1 : o = .removeFirst → (st.rem (fx 99)).add (fx 99) = st ∧ (st.rem (fx 101)).add (fx 101) = st)
    (h2 : o = .addFirst → (st.add (fx 99)).rem (fx 99) = st ∧ (st.add (fx 101)).rem (fx 101) = st) {n i : Nat} (hi : 20 ≤ i) (hn : i < n) :
    ix (@onlineStd F64 (f64Fn sq lg) o 20 20 (tab n fun i => fx (tick bad i))) i = @zsqrt F64 (f64Fn sq lg) (st.calcVar 20) := by
  unfold onlineStd
  rw [ix_tab_lt (by simpa using hn)]
  exact congrArg (fun st => @zsqrt F64 (f64Fn sq lg) (VarSt.calcVar 20 st)) (tick_stuck o _ _ _ bad h0 h1 h2 hi hn)

/-- the three lines of row `i` from the mean and the deviation there -/
theorem tick_lines (sq lg : F64 → F64) (o : Order) {bad : ℚ} (hb : bad = 999999999 ∨ bad = 4000000000) {n i : Nat} (hi : 20 ≤ i) (hn : i < n) {d : F64}
    (hd : ix (@onlineStd F64 (f64Fn sq lg) o 20 20 (tab n fun i => fx (tick bad i))) i = d) :
    ix (tickBands sq lg o bad n).mavg i = fx 100 ∧ ix (tickBands sq lg o bad n).hband i = fx 100 +. (fx 2 *. d) ∧
      ix (tickBands sq lg o bad n).lband i = fx 100 -. (fx 2 *. d) := by
  have hm := tick_mean hb hi hn
  have l2 : (lit 2 : F64) = fx 2 := by decide +kernel
  have lm : (onlineMean 20 20 (tab n fun i => fx (tick bad i))).length = n := by simp [onlineMean]
  have ls : (@onlineStd F64 (f64Fn sq lg) o 20 20 (tab n fun i => fx (tick bad i))).length = n := by simp [onlineStd]
  refine ⟨hm, ?_, ?_⟩
  · show ix (sadd (onlineMean 20 20 (tab n fun i => fx (tick bad i))) (cmul (lit 2) (@onlineStd F64 (f64Fn sq lg) o 20 20 (tab n fun i => fx (tick bad i))))) i = _
    unfold cmul
    rw [ix_sadd (by omega), ix_map (by omega), hm, hd, l2]
  · show ix (ssub (onlineMean 20 20 (tab n fun i => fx (tick bad i))) (cmul (lit 2) (@onlineStd F64 (f64Fn sq lg) o 20 20 (tab n fun i => fx (tick bad i))))) i = _
    unfold cmul
    rw [ix_ssub (by omega), ix_map (by omega), hm, hd, l2]

/-- C110. **The bands collapse.** Closes 999999999, 99, 101, 99, 101, …: from row 20 on the window holds only 99 and 101, ten of
each, and yet in double precision pandas' rolling deviation is 0 on every later row, in either order of adding and removing.  Both bands lie
on the middle line for ever, the percentage is NaN, and every row is flagged as outside the bands: above on the 101s, below on the 99s. -/
theorem bands_collapse (sq lg : F64 → F64) (hsq : sq (fx 0) = fx 0) (o : Order) {n i : Nat} (hi : 20 ≤ i) (hn : i < n) :
    let b := tickBands sq lg o 999999999 n
    ix b.bollingerMavg i = fx 100 ∧ ix b.bollingerHband i = fx 100 ∧ ix b.bollingerLband i = fx 100 ∧ ix b.bollingerWband i = fx 0 ∧
      ix b.bollingerPband i = nan ∧ ix b.bollingerHbandIndicator i = (if i % 2 = 0 then fx 1 else fx 0) ∧
      ix b.bollingerLbandIndicator i = (if i % 2 = 1 then fx 1 else fx 0) := by
  have hz : @zsqrt F64 (f64Fn sq lg) (fx 0) = fx 0 := by
    unfold zsqrt
    rw [if_neg]
    · exact hsq
    · show ¬ ((fx 0 <. lit 0) = true)
      decide +kernel
  have hd : ix (@onlineStd F64 (f64Fn sq lg) o 20 20 (tab n fun i => fx (tick 999999999 i))) i = fx 0 := by
    cases o
    · rw [tick_std sq lg .removeFirst (st := ⟨20, fx (3518437208870093/35184372088832), fx (-3368440675234439/8796093022208), fx 0, fx 0⟩)
        (by decide +kernel) (fun _ => by decide +kernel) (fun h => nomatch h) hi hn]
      refine Eq.trans (congrArg (@zsqrt F64 (f64Fn sq lg)) ?_) hz
      decide +kernel
    · rw [tick_std sq lg .addFirst (st := ⟨20, fx 100, fx (-384), fx 0, fx 0⟩)
        (by decide +kernel) (fun h => nomatch h) (fun _ => by decide +kernel) hi hn]
      refine Eq.trans (congrArg (@zsqrt F64 (f64Fn sq lg)) ?_) hz
      decide +kernel
  obtain ⟨h1, h2, h3⟩ := tick_lines sq lg o (.inl rfl) hi hn hd
  rw [show fx 100 +. (fx 2 *. fx 0) = fx 100 by decide +kernel] at h2
  rw [show fx 100 -. (fx 2 *. fx 0) = fx 100 by decide +kernel] at h3
  intro b
  have hc : ix b.close i = fx (tick 999999999 i) := by
    show ix (tab n _) i = _
    rw [ix_tab_lt hn]
  have lc : b.close.length = n := by show (tab n _).length = n; simp
  have lm : b.mavg.length = n := by show (onlineMean 20 _ _).length = n; simp [onlineMean]
  have lh : b.hband.length = n := by show (sadd (onlineMean 20 _ _) _).length = n; simp [onlineMean, onlineStd, cmul]
  have ll : b.lband.length = n := by show (ssub (onlineMean 20 _ _) _).length = n; simp [onlineMean, onlineStd, cmul]
  have hf : b.fillna = false := rfl
  unfold BB.bollingerMavg BB.bollingerHband BB.bollingerLband BB.bollingerWband BB.bollingerPband BB.bollingerHbandIndicator BB.bollingerLbandIndicator
  rw [hf]
  simp only [checkFillna, Bool.false_eq_true, if_false]
  refine ⟨h1, h2, h3, ?_, ?_, ?_, ?_⟩
  · unfold mulc
    rw [ix_map (by simp [lh, hn]), ix_sdiv (by simp [lh, hn]), ix_ssub (by simp [lh, hn]), h1, h2, h3]
    decide +kernel
  · rw [ix_sdiv (by simp [lc, hn]), ix_ssub (by simp [lc, hn]), ix_zip2 (by simp [lh, hn]), h2, h3, hc]
    rcases tick_cases 999999999 (show i ≠ 0 by omega) with h | h <;> rw [h] <;> decide +kernel
  · unfold gtFlag
    rw [ix_zip2 (by simp [lc, hn]), hc, h2]
    unfold tick
    rw [if_neg (show ¬ i = 0 by omega)]
    rcases Nat.mod_two_eq_zero_or_one i with h | h <;> rw [h] <;> decide +kernel
  · unfold ltFlag
    rw [ix_zip2 (by simp [lc, hn]), hc, h3]
    unfold tick
    rw [if_neg (show ¬ i = 0 by omega)]
    rcases Nat.mod_two_eq_zero_or_one i with h | h <;> rw [h] <;> decide +kernel

/-- a rounded number between two representable ones is a number -/
theorem f64_between {x a b : ℚ} (ha : (binary64 : Rounding ℚ).rd a = .fin a) (hb : (binary64 : Rounding ℚ).rd b = .fin b) (h1 : a ≤ x) (h2 : x ≤ b) :
    ∃ y, (binary64 : Rounding ℚ).rd x = .fin y ∧ a ≤ y ∧ y ≤ b := by
  have h3 := (binary64 : Rounding ℚ).mono h1
  have h4 := (binary64 : Rounding ℚ).mono h2
  rw [ha] at h3
  rw [hb] at h4
  cases e : (binary64 : Rounding ℚ).rd x with
  | fin y => rw [e] at h3 h4; exact ⟨y, rfl, by simpa [Val.le] using h3, by simpa [Val.le] using h4⟩
  | nan => rw [e] at h3; simp [Val.le] at h3
  | pinf => rw [e] at h4; simp [Val.le] at h4
  | ninf => rw [e] at h3; simp [Val.le] at h3

/-- C110. **Or they stay wide.** With 4000000000 as the wrong first close the deviation is that of a variance above 100 on every later
row (it is 1): for any square root that is between 10 and 16 from 100 to 256, the bands are at least 20 away from the middle line for ever. -/
theorem bands_blow_up (sq lg : F64 → F64) (hsq : ∀ x, 100 ≤ x → x ≤ 256 → ∃ y, 10 ≤ y ∧ y ≤ 16 ∧ sq (fx x) = fx y) (o : Order) {n i : Nat} (hi : 20 ≤ i)
    (hn : i < n) :
    let b := tickBands sq lg o 4000000000 n
    ix b.bollingerMavg i = fx 100 ∧ (∃ h, ix b.bollingerHband i = fx h ∧ 120 ≤ h) ∧ ∃ l, ix b.bollingerLband i = fx l ∧ l ≤ 80 := by
  have hz : ∀ x, 100 ≤ x → x ≤ 256 → ∃ y, 10 ≤ y ∧ y ≤ 16 ∧ @zsqrt F64 (f64Fn sq lg) (fx x) = fx y := by
    intro x h1 h2
    obtain ⟨y, h3, h4, e⟩ := hsq x h1 h2
    refine ⟨y, h3, h4, ?_⟩
    unfold zsqrt
    rw [if_neg]
    · exact e
    · rw [show (lit 0 : F64) = fx 0 by decide +kernel]
      show ¬ (decide (x < 0) = true)
      rw [decide_eq_true_eq]
      linarith
  have hd : ∃ y, 10 ≤ y ∧ y ≤ 16 ∧ ix (@onlineStd F64 (f64Fn sq lg) o 20 20 (tab n fun i => fx (tick 4000000000 i))) i = fx y := by
    cases o
    · obtain ⟨y, h1, h2, e⟩ := hz (450591438859555/4398046511104) (by norm_num) (by norm_num)
      refine ⟨y, h1, h2, ?_⟩
      rw [tick_std sq lg .removeFirst (st := ⟨20, fx (3518437209617203/35184372088832), fx (2252957194297775/1099511627776), fx 0, fx 0⟩)
        (by decide +kernel) (fun _ => by decide +kernel) (fun h => nomatch h) hi hn]
      refine Eq.trans (congrArg (@zsqrt F64 (f64Fn sq lg)) ?_) e
      decide +kernel
    · obtain ⟨y, h1, h2, e⟩ := hz (3602879701896397/35184372088832) (by norm_num) (by norm_num)
      refine ⟨y, h1, h2, ?_⟩
      rw [tick_std sq lg .addFirst (st := ⟨20, fx (3355443201/33554432), fx 2048, fx 0, fx 0⟩)
        (by decide +kernel) (fun h => nomatch h) (fun _ => by decide +kernel) hi hn]
      refine Eq.trans (congrArg (@zsqrt F64 (f64Fn sq lg)) ?_) e
      decide +kernel
  obtain ⟨y, y1, y2, hd⟩ := hd
  obtain ⟨h1, h2, h3⟩ := tick_lines sq lg o (.inr rfl) hi hn hd
  have r20 : (binary64 : Rounding ℚ).rd 20 = .fin 20 := by decide +kernel
  have r32 : (binary64 : Rounding ℚ).rd 32 = .fin 32 := by decide +kernel
  obtain ⟨z, ez, z1, z2⟩ := f64_between (x := 2 * y) r20 r32 (by linarith) (by linarith)
  have e2 : fx 2 *. fx y = fx z := ez
  rw [e2] at h2 h3
  obtain ⟨u, eu, u1, -⟩ := f64_between (x := 100 + z) (a := 120) (b := 132) (by decide +kernel) (by decide +kernel) (by linarith) (by linarith)
  obtain ⟨v, ev, -, v1⟩ := f64_between (x := 100 + -z) (a := 68) (b := 80) (by decide +kernel) (by decide +kernel) (by linarith) (by linarith)
  exact ⟨h1, ⟨u, h2.trans eu, u1⟩, v, h3.trans ev, v1⟩

/-! ## In exact arithmetic -/

theorem tick_sum (bad : ℚ) (g : ℝ → ℝ) {i : Nat} (hi : 20 ≤ i) :
    ∑ j ∈ Finset.Ico (i + 1 - 20) (i + 1), g (tick bad j : ℝ) = 10 * (g 99 + g 101) := by
  have e : ∀ j, i + 1 - 20 ≤ j → g (tick bad j : ℝ) = if j % 2 = 1 then g 99 else g 101 := fun j hj => by
    unfold tick
    rw [if_neg (show ¬ j = 0 by omega)]
    split_ifs <;> norm_num
  rw [Finset.sum_Ico_eq_sum_range, show i + 1 - (i + 1 - 20) = 20 by omega]
  rw [Finset.sum_congr rfl fun k _ => e (i + 1 - 20 + k) (by omega)]
  generalize i + 1 - 20 = m
  rcases Nat.mod_two_eq_zero_or_one m with h | h
  · rw [Finset.sum_congr rfl fun k _ => show _ = if k % 2 = 1 then g 99 else g 101 by rw [Nat.add_mod, h, zero_add, Nat.mod_mod]]
    simp [Finset.sum_range_succ]
    ring
  · rw [Finset.sum_congr rfl fun k _ => show _ = if k % 2 = 0 then g 99 else g 101 by
      have : (m + k) % 2 = 1 ↔ k % 2 = 0 := by omega
      simp only [this]]
    simp [Finset.sum_range_succ]
    ring

/-- C110: in exact arithmetic the same code forgets the wrong close: from row 20 on the bands are 102 and 98 and no row is outside. -/
theorem bands_exact (o : Order) (bad : ℚ) {n i : Nat} (hi : 20 ≤ i) (hn : i < n) :
    let b := BB.pandas o (ser n fun j => (tick bad j : ℝ)) 20 (.fin 2)
    ix b.bollingerMavg i = .fin 100 ∧ ix b.bollingerHband i = .fin 102 ∧ ix b.bollingerLband i = .fin 98 ∧
      ix b.bollingerHbandIndicator i = .fin 0 ∧ ix b.bollingerLbandIndicator i = .fin 0 := by
  rw [bb_pandas_exact o _ (by norm_num)]
  have hm : wmean (fun j => (tick bad j : ℝ)) 20 i = 100 := by
    unfold wmean
    rw [tick_sum bad (fun x => x) hi, min_eq_left (by omega)]
    norm_num
  have hs : wstd (fun j => (tick bad j : ℝ)) 20 i = 1 := by
    unfold wstd
    rw [hm, tick_sum bad (fun x => (x - 100) ^ 2) hi, min_eq_left (by omega)]
    norm_num
  have B := bollinger_formula (n := n) (fun j => (tick bad j : ℝ)) (w := 20) (by norm_num) 2 false
  have ht : (tick bad i : ℝ) = 99 ∨ (tick bad i : ℝ) = 101 := by
    rcases tick_cases bad (show i ≠ 0 by omega) with h | h <;> rw [h] <;> norm_num
  intro b
  refine ⟨?_, ?_, ?_, ?_, ?_⟩
  · rw [B.mavg.val i hn (by simp; omega), hm]
  · rw [B.hband.val i hn (by simp; omega), hm, hs]; norm_num
  · rw [B.lband.val i hn (by simp; omega), hm, hs]; norm_num
  · rw [B.above.val i hn (by omega), hm, hs, if_neg (by rcases ht with h | h <;> rw [h] <;> norm_num)]
  · rw [B.below.val i hn (by omega), hm, hs, if_neg (by rcases ht with h | h <;> rw [h] <;> norm_num)]

/-- rows 20 and 21 of a table of 30: flagged above, then below -/
example (sq lg : F64 → F64) (h : sq (fx 0) = fx 0) (o : Order) :
    ix (tickBands sq lg o 999999999 30).bollingerHbandIndicator 20 = fx 1 ∧ ix (tickBands sq lg o 999999999 30).bollingerLbandIndicator 21 = fx 1 :=
  ⟨(bands_collapse sq lg h o (i := 20) (by norm_num) (by norm_num)).2.2.2.2.2.1, (bands_collapse sq lg h o (i := 21) (by norm_num) (by norm_num)).2.2.2.2.2.2⟩

example (o : Order) : ix (BB.pandas o (ser 30 fun j => (tick 999999999 j : ℝ)) 20 (.fin 2)).bollingerHbandIndicator 20 = .fin 0 :=
  (bands_exact o 999999999 (by norm_num) (by norm_num)).2.2.2.1

end TA
