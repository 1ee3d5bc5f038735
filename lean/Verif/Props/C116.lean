import Verif.Props.C61
import Verif.Props.C34
import Verif.Props.C20
import Verif.Props.C19
import Verif.Props.C17

/-! # C116: the first rows with `fillna=True`

`fillna=True` does more than replace NaN. It also lets the windows start short (`min_periods=0`), so the first rows hold real
values computed from fewer rows. A row which still has no value repeats the row before it, and only a start without any value
receives the constant of the indicator. Here are the outputs for which this was not part of the formula theorem. -/

set_option linter.unusedSectionVars false

namespace TA
open Finset
variable {K : Type} [Field K] [LinearOrder K] [IsStrictOrderedRing K]

/-- A filled column: the row is `f i` where the indicator has a value (`d i`), otherwise a copy of the row before it, and
`v` if there is no row before it. -/
structure Carried (out : Series (Val K)) (n : Nat) (v : K) (d : Nat → Prop) (f : Nat → K) : Prop where
  len : out.length = n
  val : ∀ i, i < n → d i → ix out i = .fin (f i)
  start : 0 < n → ¬ d 0 → ix out 0 = .fin v
  carry : ∀ i, i + 1 < n → ¬ d (i + 1) → ix out (i + 1) = ix out i

theorem carried_fill {s : Series (Val K)} {n : Nat} {d : Nat → Prop} {f : Nat → K} (hl : s.length = n)
    (h1 : ∀ i, i < n → d i → ix s i = .fin (f i)) (h2 : ∀ i, i < n → ¬ d i → ix s i = .nan) (v : K) :
    Carried (checkFillna true (.const (.fin v)) s) n v d f := by
  have hn : ∀ i, i < n → ¬ d i → ¬ Num (ix s i) := fun i hi hd => by rw [h2 i hi hd]; simp [Num]
  refine ⟨by rw [length_checkFillna, hl], fun i hi hd => ?_, fun hp hd => ?_, fun i hi hd => ?_⟩
  · rw [checkFillna_keep (by rw [hl]; exact hi) (by rw [h1 i hi hd]; exact num_iff.mpr ⟨_, rfl⟩), h1 i hi hd]
  · refine checkFillna_const_none (by rw [hl]; exact hp) fun k hk => ?_
    obtain rfl : k = 0 := by omega
    exact hn 0 hp hd
  · rcases latest (fun k => Num (ix s k)) i with ⟨j, a1, a2, a3⟩ | a
    · rw [checkFillna_ffill a1 (by omega) a2 a3, checkFillna_ffill (j := j) (by omega) (by omega) a2]
      intro k b1 b2
      rcases Nat.lt_or_ge i k with b3 | b3
      · obtain rfl : k = i + 1 := by omega
        exact hn _ hi hd
      · exact a3 k b1 b3
    · rw [checkFillna_const_none (by omega) a, checkFillna_const_none (by omega)]
      intro k b
      rcases Nat.lt_or_ge i k with b3 | b3
      · obtain rfl : k = i + 1 := by omega
        exact hn _ hi hd
      · exact a k b3

/-- `M` is the highest value of `f` in the rows of a window of `w` rows ending at `i`, short at the start. -/
def Top (f : Nat → K) (w : Nat) (M : Nat → K) : Prop := ∀ i, IsGreatest {x | ∃ j, j ≤ i ∧ i < j + w ∧ x = f j} (M i)
/-- the lowest -/
def Bottom (f : Nat → K) (w : Nat) (m : Nat → K) : Prop := ∀ i, IsLeast {x | ∃ j, j ≤ i ∧ i < j + w ∧ x = f j} (m i)

theorem top_wmax (f : Nat → K) {w : Nat} (hw : 1 ≤ w) : Top f w (wmax f w) := fun i => by
  obtain ⟨⟨j, h1, h2, h3⟩, h4⟩ := wmax_spec f (w := w) (i := i) hw
  exact ⟨⟨j, h1, h2, h3⟩, by rintro x ⟨j, a, b, rfl⟩; exact h4 j a b⟩

theorem bottom_wmin (f : Nat → K) {w : Nat} (hw : 1 ≤ w) : Bottom f w (wmin f w) := fun i => by
  obtain ⟨⟨j, h1, h2, h3⟩, h4⟩ := wmin_spec f (w := w) (i := i) hw
  exact ⟨⟨j, h1, h2, h3⟩, by rintro x ⟨j, a, b, rfl⟩; exact h4 j a b⟩

theorem rollMax_short (n : Nat) (f : Nat → K) {w : Nat} (hw : 1 ≤ w) : Def (rollMax w (minp true w) (ser n f)) n 0 (wmax f w) := by
  have := (def_ser n f).rollMax' hw (minp_le true w)
  refine (show Def _ n 0 _ from this).congr fun i _ _ => ?_
  unfold wmax
  rw [show winIx (min w (i + 1 - 0)) i = winIx w i from by unfold winIx; congr 1 <;> omega]

theorem rollMin_short (n : Nat) (f : Nat → K) {w : Nat} (hw : 1 ≤ w) : Def (rollMin w (minp true w) (ser n f)) n 0 (wmin f w) := by
  have := (def_ser n f).rollMin' hw (minp_le true w)
  refine (show Def _ n 0 _ from this).congr fun i _ _ => ?_
  unfold wmin
  rw [show winIx (min w (i + 1 - 0)) i = winIx w i from by unfold winIx; congr 1 <;> omega]

theorem stochK_short (n : Nat) {h l c : Nat → K} (hl : ∀ i, i < n → l i ≤ c i ∧ c i ≤ h i) {w : Nat} (hw : 1 ≤ w) {i : Nat} (hi : i < n) :
    ix (Stoch.k (ser n h) (ser n l) (ser n c) w true) i =
      if wmax h w i = wmin l w i then .nan else .fin (100 * (c i - wmin l w i) / (wmax h w i - wmin l w i)) := by
  unfold Stoch.k
  dsimp only
  rw [ix_sdiv (by simpa [ser] using hi), ix_cmul (by simpa [ser] using hi), ix_ssub (by simpa [ser] using hi),
    ix_ssub (by simpa [ser] using hi), (rollMax_short n h hw).val i hi (Nat.zero_le _), (rollMin_short n l hw).val i hi (Nat.zero_le _),
    (def_ser n c).val i hi (Nat.zero_le _)]
  simp only [fin_sub, lit_fin, fin_mul]
  have h1 := (wmax_spec h (w := w) (i := i) hw).2 i (le_refl _) (by omega)
  have h2 := (wmin_spec l (w := w) (i := i) hw).2 i (le_refl _) (by omega)
  have h3 := hl i hi
  split_ifs with h0
  · have : c i - wmin l w i = 0 := by linarith
    rw [h0, this, sub_self, mul_zero, fin_div_zero]; simp
  · rw [fin_div _ _ (sub_ne_zero.mpr h0)]
    push_cast; rfl

/-- C116. The stochastic oscillator with `fillna=True`: from the first row on the position of the close between the extremes
of the rows seen so far, at most `w`; a flat window repeats the row before, and 50 stands for a flat start. -/
theorem stoch_fill (n : Nat) (h l c : Nat → K) (hl : ∀ i, i < n → l i ≤ c i ∧ c i ≤ h i) {w : Nat} (hw : 1 ≤ w) :
    ∃ M m : Nat → K, Top h w M ∧ Bottom l w m ∧
      Carried (stoch (ser n h) (ser n l) (ser n c) w true) n 50 (fun i => m i < M i) (fun i => 100 * (c i - m i) / (M i - m i)) := by
  refine ⟨wmax h w, wmin l w, top_wmax h hw, bottom_wmin l hw, ?_⟩
  unfold stoch
  rw [lit_fin]
  push_cast
  refine carried_fill (by simp [Stoch.k, ser]) (fun i hi hd => ?_) (fun i hi hd => ?_) _
  · rw [stochK_short n hl hw hi, if_neg (ne_of_gt hd)]
  · rw [stochK_short n hl hw hi, if_pos]
    have h1 := (wmax_spec h (w := w) (i := i) hw).2 i (le_refl _) (by omega)
    have h2 := (wmin_spec l (w := w) (i := i) hw).2 i (le_refl _) (by omega)
    have h3 := hl i hi
    exact le_antisymm (not_lt.mp hd) (by linarith)

/-- C116. Williams %R likewise, counted down from the top, with -50. -/
theorem williamsR_fill (n : Nat) (h l c : Nat → K) (hl : ∀ i, i < n → l i ≤ c i ∧ c i ≤ h i) {w : Nat} (hw : 1 ≤ w) :
    ∃ M m : Nat → K, Top h w M ∧ Bottom l w m ∧
      Carried (williamsR (ser n h) (ser n l) (ser n c) w true) n (-50) (fun i => m i < M i) (fun i => -100 * (M i - c i) / (M i - m i)) := by
  refine ⟨wmax h w, wmin l w, top_wmax h hw, bottom_wmin l hw, ?_⟩
  unfold williamsR
  rw [lit_fin]
  have key : ∀ i, i < n → ix (WR.run (ser n h) (ser n l) (ser n c) w true) i =
      if wmax h w i = wmin l w i then .nan else .fin (-100 * (wmax h w i - c i) / (wmax h w i - wmin l w i)) := by
    intro i hi
    unfold WR.run
    dsimp only
    rw [ix_sdiv (by simpa [ser] using hi), ix_cmul (by simpa [ser] using hi), ix_ssub (by simpa [ser] using hi),
      ix_ssub (by simpa [ser] using hi), (rollMax_short n h hw).val i hi (Nat.zero_le _), (rollMin_short n l hw).val i hi (Nat.zero_le _),
      (def_ser n c).val i hi (Nat.zero_le _)]
    simp only [fin_sub, lit_fin, fin_mul]
    have h1 := (wmax_spec h (w := w) (i := i) hw).2 i (le_refl _) (by omega)
    have h2 := (wmin_spec l (w := w) (i := i) hw).2 i (le_refl _) (by omega)
    have h3 := hl i hi
    split_ifs with h0
    · have : wmax h w i - c i = 0 := by linarith
      rw [this, h0, sub_self, mul_zero, fin_div_zero]; simp
    · rw [fin_div _ _ (sub_ne_zero.mpr h0)]
      push_cast; rfl
  push_cast
  refine carried_fill (by simp [WR.run, ser]) (fun i hi hd => ?_) (fun i hi hd => ?_) _
  · rw [key i hi, if_neg (ne_of_gt hd)]
  · rw [key i hi, if_pos]
    have h1 := (wmax_spec h (w := w) (i := i) hw).2 i (le_refl _) (by omega)
    have h2 := (wmin_spec l (w := w) (i := i) hw).2 i (le_refl _) (by omega)
    have h3 := hl i hi
    exact le_antisymm (not_lt.mp hd) (by linarith)

/-- C116. The signal line of the stochastic oscillator: the mean of the last `smooth` rows of %K, of fewer at the start. -/
theorem stochSignal_fill (n : Nat) (h l c : Nat → K) (hl : ∀ i, i < n → l i ≤ c i ∧ c i ≤ h i) (hlh : ∀ i, i < n → l i < h i) {w sm : Nat}
    (hw : 1 ≤ w) (hs : 1 ≤ sm) :
    ∃ M m : Nat → K, Top h w M ∧ Bottom l w m ∧
      Def (stochSignal (ser n h) (ser n l) (ser n c) w sm true) n 0 (fun i =>
        (∑ j ∈ Ico (i + 1 - sm) (i + 1), 100 * (c j - m j) / (M j - m j)) / (min sm (i + 1) : ℕ)) := by
  refine ⟨wmax h w, wmin l w, top_wmax h hw, bottom_wmin l hw, ?_⟩
  have hk : Def (Stoch.k (ser n h) (ser n l) (ser n c) w true) n 0 (fun i => 100 * (c i - wmin l w i) / (wmax h w i - wmin l w i)) := by
    refine ⟨by simp [Stoch.k, ser], fun i _ h2 => by omega, fun i hi _ => ?_⟩
    rw [stochK_short n hl hw hi, if_neg]
    have h1 := (wmax_spec h (w := w) (i := i) hw).2 i (le_refl _) (by omega)
    have h2 := (wmin_spec l (w := w) (i := i) hw).2 i (le_refl _) (by omega)
    have h3 := hlh i hi
    intro e
    linarith
  have := hk.rollMeanP hs (minp_le true sm)
  exact (show Def _ n 0 _ from this).fill true _

/-- C116. The TSI with `fillna=True`. `e` is the EMA(slow) of the changes from row 1 on and `E` its EMA(fast), both from the
first change on; `a` and `A` the same for the absolute changes. -/
theorem tsi_fill (n : Nat) (x : Nat → K) {slow fast : Nat} (h1 : 1 ≤ slow) (h2 : 1 ≤ fast) :
    ∃ e E a A : Nat → K,
      e 0 = x 1 - x 0 ∧ (∀ i, e (i + 1) = (1 - 2 / ((slow : K) + 1)) * e i + 2 / ((slow : K) + 1) * (x (i + 2) - x (i + 1))) ∧
      a 0 = |x 1 - x 0| ∧ (∀ i, a (i + 1) = (1 - 2 / ((slow : K) + 1)) * a i + 2 / ((slow : K) + 1) * |x (i + 2) - x (i + 1)|) ∧
      E 0 = e 0 ∧ (∀ i, E (i + 1) = (1 - 2 / ((fast : K) + 1)) * E i + 2 / ((fast : K) + 1) * e (i + 1)) ∧
      A 0 = a 0 ∧ (∀ i, A (i + 1) = (1 - 2 / ((fast : K) + 1)) * A i + 2 / ((fast : K) + 1) * a (i + 1)) ∧
      ∃ out, tsi (ser n x) slow fast true = .ok out ∧
        Carried out n 0 (fun i => 1 ≤ i ∧ A (i - 1) ≠ 0) (fun i => 100 * (E (i - 1) / A (i - 1))) := by
  have hd : Def (ssub (ser n x) (shift (ser n x) 1)) n 1 (fun i => x i - x (i - 1)) := def_sdiff n x
  have hs := (hd.ewm (a := 2 / ((slow : K) + 1)) 0).ewm (a := 2 / ((fast : K) + 1)) 0
  have ha := (hd.sabs.ewm (a := 2 / ((slow : K) + 1)) 0).ewm (a := 2 / ((fast : K) + 1)) 0
  rw [show 1 + max 0 1 - 1 + max 0 1 - 1 = 1 from rfl, show 1 + max 0 1 - 1 = 1 from rfl] at hs ha
  refine ⟨emaRec (2 / ((slow : K) + 1)) (fun j => x (j + 1) - x j),
    emaRec (2 / ((fast : K) + 1)) (emaRec (2 / ((slow : K) + 1)) (fun j => x (j + 1) - x j)),
    emaRec (2 / ((slow : K) + 1)) (fun j => |x (j + 1) - x j|),
    emaRec (2 / ((fast : K) + 1)) (emaRec (2 / ((slow : K) + 1)) (fun j => |x (j + 1) - x j|)),
    rfl, fun i => rfl, rfl, fun i => rfl, rfl, fun i => rfl, rfl, fun i => rfl,
    checkFillna true (.const (lit 0)) (TSI.run (ser n x) slow fast true), ?_, ?_⟩
  · unfold tsi chkSpan
    rw [if_neg (by omega), if_neg (by omega)]; rfl
  have e6 : ∀ j, 1 + j - 1 = j := by intro j; omega
  have e7 : ∀ j, 1 + j = j + 1 := by intro j; omega
  simp only [e6] at hs ha
  simp only [e7] at hs ha
  have hle := fun i => emaRec_abs_le (span_pos (K := K) fast) (span_le fast h2)
      (fun k => emaRec_abs_le (span_pos (K := K) slow) (span_le slow h1)
        (f := fun j => x (j + 1) - x j) (fun j => le_refl _) k) i
  have key : ∀ i, i < n → ix (TSI.run (ser n x) slow fast true) i = if i < 1 then .nan else
      (Val.fin (emaRec (2 / ((fast : K) + 1)) (emaRec (2 / ((slow : K) + 1)) (fun j => x (j + 1) - x j)) (i - 1)) /.
        Val.fin (emaRec (2 / ((fast : K) + 1)) (emaRec (2 / ((slow : K) + 1)) (fun j => |x (j + 1) - x j|)) (i - 1))) *. lit 100 := by
    intro i hn
    unfold TSI.run ema
    simp only [alphaOfSpan_fin, minp, if_true]
    rw [ix_mulc (by simp [ser, hn]), ix_sdiv (by simp [ser, hn])]
    split_ifs with h0
    · rw [hs.gap i hn h0]; simp
    · rw [hs.val i hn (by omega), ha.val i hn (by omega)]
  rw [lit_fin]
  push_cast
  refine carried_fill (by simp [TSI.run, ser]) (fun i hi hd => ?_) (fun i hi hd => ?_) _
  · rw [key i hi, if_neg (by omega), fin_div _ _ hd.2, lit_fin, fin_mul]
    push_cast
    rw [mul_comm]
  · rw [key i hi]
    split_ifs with h0
    · rfl
    · have hA : emaRec (2 / ((fast : K) + 1)) (emaRec (2 / ((slow : K) + 1)) (fun j => |x (j + 1) - x j|)) (i - 1) = 0 := by
        by_contra hne
        exact hd ⟨by omega, hne⟩
      have := hle (i - 1)
      rw [hA] at this
      have hE := abs_nonpos_iff.mp this
      rw [hA, hE, fin_div_zero]; simp

/-- C116. EoM with `fillna=True` is 0 on row 0, and its signal the mean of the values seen so far, at most `w`. -/
theorem eom_fill (n : Nat) (h l v : Nat → K) (hv : ∀ i, v i ≠ 0) {w : Nat} (hw : 1 ≤ w) :
    ∃ e : Nat → K, (∀ i, e i = ((h i + l i) / 2 - (h (i - 1) + l (i - 1)) / 2) * (h i - l i) / v i * 100000000) ∧
      Def (easeOfMovement (ser n h) (ser n l) (ser n v) true) n 0 (fun i => if i = 0 then 0 else e i) ∧
      Def (smaEaseOfMovement (ser n h) (ser n l) (ser n v) w true) n 0 (fun i => if i = 0 then 0 else
        (∑ j ∈ Ico (max 1 (i + 1 - w)) (i + 1), e j) / (min w i : ℕ)) := by
  refine ⟨_, fun i => rfl, ?_, ?_⟩
  · unfold easeOfMovement
    rw [lit_fin]
    have := (def_eom n h l v hv).fillConst 0
    push_cast
    exact this.congr fun i _ _ => by simp only [Nat.lt_one_iff]
  · unfold smaEaseOfMovement
    rw [lit_fin]
    have := ((def_eom n h l v hv).rollMean0 hw).fillConst 0
    rw [Rat.cast_zero]
    refine (show Def (checkFillna true _ (rollMean w (minp true w) _)) n 0 _ from this).congr fun i _ _ => ?_
    simp only [Nat.lt_one_iff]
    split_ifs with h0
    · rfl
    · rw [show i + 1 - 1 = i by omega]
      unfold wsum
      rw [show i + 1 - min w i = max 1 (i + 1 - w) by omega]

/-- C116. The price-volume trend smoothed over `k` rows, with `fillna=True`: the mean of the values seen so far, at most `k`;
0 on row 0. -/
theorem vpt_smooth_fill (n : Nat) {c : Nat → K} (v : Nat → K) (hc : ∀ i, c i ≠ 0) (k : Nat) :
    ∃ t : Nat → K, (∀ i, t i = ∑ j ∈ Ico 1 (i + 1), v j * (c j / c (j - 1) - 1)) ∧
      Def (volumePriceTrend (ser n c) (ser n v) true (some (k + 1))) n 0 (fun i => if i = 0 then 0 else
        (∑ j ∈ Ico (max 1 (i - k)) (i + 1), t j) / (min (k + 1) i : ℕ)) := by
  refine ⟨_, fun i => rfl, ?_⟩
  unfold volumePriceTrend
  have h0 : Def (cumsum (smul (pctChange (ser n c)) (ser n v))) n 1 (fun i => ∑ j ∈ Ico 1 (i + 1), v j * (c j / c (j - 1) - 1)) :=
    def_vpt n v hc true
  have := (h0.rollMean0 (w := k + 1) (by omega)).fillConst 0
  rw [lit_fin]
  rw [Rat.cast_zero]
  refine (show Def (checkFillna true (.const (.fin 0)) (rollMean (k + 1) (minp true (k + 1)) (cumsum (smul (pctChange (ser n c)) (ser n v))))) n 0 _
    from this).congr fun i _ _ => ?_
  simp only [Nat.lt_one_iff]
  split_ifs with h0
  · rfl
  · rw [show i + 1 - 1 = i by omega]
    unfold wsum
    rw [show i + 1 - min (k + 1) i = max 1 (i - k) by omega]

/-! ## the ultimate oscillator -/

theorem short_sum {s : Series (Val K)} {n p : Nat} {f : Nat → K} (h : Def s n p f) {w i : Nat} (hi : i < n) :
    ix (rollSum w (minp true w) s) i = .fin (∑ j ∈ Ico (max p (i + 1 - w)) (i + 1), f j) := by
  rw [ix_rollSum (by rw [h.len]; exact hi), h.obs_eq hi, show minp true w = 0 from rfl, if_pos (Nat.zero_le _), sum_winIx]
  unfold wsum
  rw [show Ico (i + 1 - min w (i + 1 - p)) (i + 1) = Ico (max p (i + 1 - w)) (i + 1) from by
    ext j; simp only [mem_Ico]; omega]

/-- C116. The ultimate oscillator with `fillna=True`: the three averages run over the rows seen so far. The true range of row 0
counts, the buying pressure of row 0 is missing: the first `w` rows are too low, and row 0 is 0. A row on which one of the three
true-range sums is 0 repeats the row before; 50 only appears if the first bar is flat. -/
theorem uo_fill (n : Nat) (h l c : Nat → K) (hl : ∀ i, i < n → l i ≤ c i ∧ c i ≤ h i) (w1 w2 w3 : Nat) (a b d : K)
    (hs : a + b + d ≠ 0) :
    ∃ (bp tr : Nat → K) (B S : Nat → Nat → K), (∀ j, bp j = c j - min (l j) (c (j - 1))) ∧ tr 0 = h 0 - l 0 ∧
      (∀ j, tr (j + 1) = max (h (j + 1)) (c j) - min (l (j + 1)) (c j)) ∧
      (∀ w i, B w i = ∑ j ∈ Ico (max 1 (i + 1 - w)) (i + 1), bp j) ∧ (∀ w i, S w i = ∑ j ∈ Ico (i + 1 - w) (i + 1), tr j) ∧
      Carried (ultimateOscillator (ser n h) (ser n l) (ser n c) w1 w2 w3 (.fin a) (.fin b) (.fin d) true) n 50
        (fun i => S w1 i ≠ 0 ∧ S w2 i ≠ 0 ∧ S w3 i ≠ 0)
        (fun i => 100 * (a * (B w1 i / S w1 i) + b * (B w2 i / S w2 i) + d * (B w3 i / S w3 i)) / (a + b + d)) := by
  have hbp : Def (UO.buyingPressure (ser n l) (ser n c)) n 1 (fun j => c j - min (l j) (c (j - 1))) := by
    refine ⟨by simp [UO.buyingPressure, ser], fun i hi h0 => ?_, fun i hi h0 => ?_⟩ <;>
    · unfold UO.buyingPressure
      rw [ix_ssub (by simpa [ser] using hi), ix_zip2 (by simpa [ser] using hi), ix_prev (by simpa [ser] using hi),
        (def_ser n l).val i hi (Nat.zero_le _), (def_ser n c).val i hi (Nat.zero_le _)]
      first
      | rw [if_pos (by omega)]; simp
      | rw [if_neg (by omega), (def_ser n c).val (i - 1) (by omega) (Nat.zero_le _), npMin2_fin, fin_sub]
  have htr := true_range_formula n h l c fun i hi => le_trans (hl i hi).1 (hl i hi).2
  obtain ⟨bp, hb⟩ : ∃ bp : Nat → K, ∀ j, bp j = c j - min (l j) (c (j - 1)) := ⟨_, fun _ => rfl⟩
  obtain ⟨tr, ht⟩ : ∃ tr : Nat → K, ∀ j, tr j = if j = 0 then h 0 - l 0 else max (h j) (c (j - 1)) - min (l j) (c (j - 1)) := ⟨_, fun _ => rfl⟩
  replace hbp := hbp.congr (g := bp) fun i _ _ => (hb i).symm
  replace htr := htr.congr (g := tr) fun i _ _ => (ht i).symm
  refine ⟨bp, tr, _, _, hb, by rw [ht, if_pos rfl], fun j => by rw [ht, if_neg (by omega)]; rfl, fun w i => rfl, fun w i => rfl, ?_⟩
  have p0 : ∀ j, j < n → 0 ≤ tr j := by
    intro j hj
    rw [ht]
    have := hl j hj
    have := le_max_left (h j) (c (j - 1))
    have := min_le_left (l j) (c (j - 1))
    split_ifs with h0
    · subst h0; linarith
    · linarith
  have p1 : ∀ j, j < n → 0 ≤ bp j := by
    intro j hj
    rw [hb]
    have := min_le_left (l j) (c (j - 1))
    have := (hl j hj).1
    linarith
  have p2 : ∀ j, j < n → 1 ≤ j → bp j ≤ tr j := by
    intro j hj h1
    rw [hb, ht, if_neg (by omega)]
    have := le_max_left (h j) (c (j - 1))
    have := (hl j hj).2
    linarith
  have hle : ∀ i, i < n → ∀ w, ∑ j ∈ Ico (i + 1 - w) (i + 1), tr j = 0 → ∑ j ∈ Ico (max 1 (i + 1 - w)) (i + 1), bp j = 0 := by
    intro i hi w h0
    refine le_antisymm ?_ (sum_nonneg fun j hj => p1 j (by rw [mem_Ico] at hj; omega))
    rw [← h0]
    refine (sum_le_sum fun j hj => p2 j (by rw [mem_Ico] at hj; omega) (by rw [mem_Ico] at hj; omega)).trans ?_
    refine sum_le_sum_of_subset_of_nonneg ?_ fun j hj _ => p0 j (by rw [mem_Ico] at hj; omega)
    intro j hj
    rw [mem_Ico] at hj ⊢
    omega
  have key : ∀ w i, i < n → ix (UO.avg (UO.buyingPressure (ser n l) (ser n c)) (trueRange (ser n h) (ser n l) (shift (ser n c) 1)) w true) i
      = if ∑ j ∈ Ico (i + 1 - w) (i + 1), tr j = 0 then .nan
        else .fin ((∑ j ∈ Ico (max 1 (i + 1 - w)) (i + 1), bp j) / ∑ j ∈ Ico (i + 1 - w) (i + 1), tr j) := by
    intro w i hi
    unfold UO.avg
    rw [ix_sdiv (by simpa [hbp.len] using hi), short_sum hbp hi, short_sum htr hi, Nat.zero_max]
    split_ifs with h0
    · rw [h0, hle i hi w h0, fin_div_zero]; simp
    · rw [fin_div _ _ h0]
  unfold ultimateOscillator
  rw [lit_fin]
  push_cast
  refine carried_fill (by simp [UO.run, UO.avg, hbp.len]) (fun i hi hd => ?_) (fun i hi hd => ?_) _
  · rw [ix_uoRun _ _ _ _ _ _ _ (by simpa [ser] using hi), key w1 i hi, key w2 i hi, key w3 i hi, if_neg hd.1, if_neg hd.2.1, if_neg hd.2.2]
    simp only [fin_mul, fin_add, lit_fin]
    rw [fin_div _ _ hs]
    push_cast; rfl
  · rw [ix_uoRun _ _ _ _ _ _ _ (by simpa [ser] using hi), key w1 i hi, key w2 i hi, key w3 i hi]
    by_cases q1 : ∑ j ∈ Ico (i + 1 - w1) (i + 1), tr j = 0
    · rw [if_pos q1]; simp
    by_cases q2 : ∑ j ∈ Ico (i + 1 - w2) (i + 1), tr j = 0
    · rw [if_pos q2]; simp
    by_cases q3 : ∑ j ∈ Ico (i + 1 - w3) (i + 1), tr j = 0
    · rw [if_pos q3]; simp
    exact absurd ⟨q1, q2, q3⟩ hd

/-! ## KAMA -/

/-- `k` rows back, counted round the end of the column (`np.roll`) -/
def wrapBack (n k j : Nat) : Nat := if k ≤ j then j - k else n + j - k

theorem kIx_wrap {n k j : Nat} (hj : j < n) (hk : k ≤ n) : kIx n k j = wrapBack n k j := by
  unfold wrapBack
  split_ifs with h
  · exact kIx_of_le hj h
  · unfold kIx
    rcases Nat.lt_or_ge k n with h1 | h1
    · rw [Nat.mod_eq_of_lt h1, Nat.mod_eq_of_lt (by omega)]; omega
    · obtain rfl : k = n := by omega
      rw [Nat.mod_self, Nat.sub_zero, Nat.add_mod_right, Nat.mod_eq_of_lt hj]; omega

/-- efficiency ratio of row `i` as the code computes it on a column of `n` rows -/
def wrapRatio (c : Nat → K) (n w i : Nat) : K :=
  if ∑ j ∈ Ico (i + 1 - w) (i + 1), |c j - c (wrapBack n 1 j)| = 0 then 0
  else |c i - c (wrapBack n w i)| / ∑ j ∈ Ico (i + 1 - w) (i + 1), |c j - c (wrapBack n 1 j)|

theorem kSc_short (n : Nat) (c : Nat → K) {w : Nat} (hwn : w ≤ n) (p1 p2 : Nat) :
    Def (KAMA.sc (ser n c) w p1 p2 true) n 0 (fun i =>
      (wrapRatio c n w i * (2 / ((p1 : K) + 1) - 2 / ((p2 : K) + 1)) + 2 / ((p2 : K) + 1)) ^ 2) := by
  have q : ∀ p : Nat, ((p : K) + 1) ≠ 0 := fun p => by positivity
  have hs := def_ser n c
  have hv := kVol_def hs
  have hn := (hs.ssub (hs.npRoll w)).sabs
  rw [max_self] at hn
  have her : Def (KAMA.er (ser n c) w true) n 0 (wrapRatio c n w) := by
    refine ⟨by simp [KAMA.er, ser], fun i _ h2 => by omega, fun i hi _ => ?_⟩
    have e0 : ix (rollSum w (minp true w) (KAMA.vol (ser n c))) i = .fin (∑ j ∈ Ico (i + 1 - w) (i + 1), |c j - c (wrapBack n 1 j)|) := by
      rw [ix_rollSum (by rw [hv.len]; exact hi), hv.obs_eq hi, show minp true w = 0 from rfl, if_pos (Nat.zero_le _), sum_winIx]
      congr 1
      unfold wsum
      rw [show i + 1 - min w (i + 1 - 0) = i + 1 - w by omega]
      refine sum_congr rfl fun j hj => ?_
      rw [mem_Ico] at hj
      unfold kVol
      rw [kIx_wrap (by omega) (by omega)]
    unfold KAMA.er
    dsimp only
    rw [ix_zip2 (by simp [ser, hi]), e0, hn.val i hi (Nat.zero_le _), kIx_wrap hi hwn]
    unfold wrapRatio
    by_cases h0 : ∑ j ∈ Ico (i + 1 - w) (i + 1), |c j - c (wrapBack n 1 j)| = 0
    · rw [if_pos h0, h0]; simp
    · rw [if_neg h0, lit_fin, Rat.cast_zero]
      have : (Val.fin (∑ j ∈ Ico (i + 1 - w) (i + 1), |c j - c (wrapBack n 1 j)|) !=. Val.fin 0) = true := by
        simp [h0]
      rw [if_pos this, fin_div _ _ h0]
  unfold KAMA.sc
  refine her.map ?_ (fun i h1 h2 => ?_)
  · simp
  · simp only [lit_fin, natF_fin, fin_add, Rat.cast_one, Rat.cast_ofNat, fin_div _ _ (q _), fin_sub, fin_mul]
    rw [sq]

/-- C116. KAMA with `fillna=True` starts on row 0 with the close. The efficiency ratio of the first `w` rows compares them with
the END of the column: the windows are short, but the circular shift is not cut off. -/
theorem kama_fill (n : Nat) (c : Nat → K) {w : Nat} (hwn : w ≤ n) (pow1 pow2 : Nat) :
    ∃ Y : Nat → K, Y 0 = c 0 ∧
      (∀ i, Y (i + 1) = Y i + (wrapRatio c n w (i + 1) * (2 / ((pow1 : K) + 1) - 2 / ((pow2 : K) + 1)) + 2 / ((pow2 : K) + 1)) ^ 2
        * (c (i + 1) - Y i)) ∧
      Def (kama (ser n c) w pow1 pow2 true) n 0 Y := by
  let sc : Nat → K := fun i => (wrapRatio c n w i * (2 / ((pow1 : K) + 1) - 2 / ((pow2 : K) + 1)) + 2 / ((pow2 : K) + 1)) ^ 2
  let V : Nat → K := fun k => Nat.rec (c 0) (fun k y => y + sc (k + 1) * (c (k + 1) - y)) k
  refine ⟨V, rfl, fun i => rfl, ?_⟩
  have hs := def_ser n c
  have hsc := kSc_short n c hwn pow1 pow2
  have main : ∀ m, m < n → iter (KAMA.step (KAMA.sc (ser n c) w pow1 pow2 true) (ser n c)) (nan, true) (m + 1) = (.fin (V m), false) := by
    intro m
    induction m with
    | zero =>
      intro hm
      rw [kama_at hsc (by omega), hs.val _ (by omega) (by omega)]
      rfl
    | succ m ih =>
      intro hm
      rw [iter_succ, ih (by omega)]
      unfold KAMA.step
      rw [hsc.val _ (by omega) (by omega), hs.val _ (by omega) (by omega)]
      simp [V, sc]
  have hr : Def (KAMA.run (ser n c) w pow1 pow2 true) n 0 V := by
    refine ⟨by simp [KAMA.run, ser], fun i h1 h2 => by omega, fun i h1 h2 => ?_⟩
    unfold KAMA.run
    dsimp only
    rw [hs.len, ix_tab_lt h1, main i h1]
  exact hr.fill true _

/-! ## StochRSI -/

theorem carried_of {s : Series (Val K)} {n : Nat} {d : Nat → Prop} {f : Nat → K} (hl : s.length = n)
    (h : ∀ i, i < n → (d i ∧ ix s i = .fin (f i)) ∨ (¬ d i ∧ ix s i = .nan)) (v : K) :
    Carried (checkFillna true (.const (.fin v)) s) n v d f :=
  carried_fill hl (fun i hi hd => ((h i hi).resolve_right fun q => q.1 hd).2) (fun i hi hd => ((h i hi).resolve_left fun q => hd q.1).2) v

theorem mean_rows {s : Series (Val K)} {n : Nat} {d : Nat → Prop} {f : Nat → K} (hl : s.length = n)
    (h : ∀ i, i < n → (d i ∧ ix s i = .fin (f i)) ∨ (¬ d i ∧ ix s i = .nan)) {w : Nat} (hw : 1 ≤ w) :
    ∀ i, i < n → ((w ≤ i + 1 ∧ ∀ j, j ≤ i → i < j + w → d j) ∧ ix (rollMean w w s) i = .fin ((∑ j ∈ Ico (i + 1 - w) (i + 1), f j) / w)) ∨
      (¬ (w ≤ i + 1 ∧ ∀ j, j ≤ i → i < j + w → d j) ∧ ix (rollMean w w s) i = .nan) := by
  intro i hi
  have hm := meanRow_rollMean hw (by rw [hl]; exact hi : i < s.length)
  by_cases q : w ≤ i + 1 ∧ ∀ j, j ≤ i → i < j + w → d j
  · exact .inl ⟨q, hm.1 f q.1 fun j a b => ((h j (by omega)).resolve_right fun r => r.1 (q.2 j a b)).2⟩
  · refine .inr ⟨q, hm.2 fun r => q ⟨r.1, fun j a b => ?_⟩⟩
    rcases h j (by omega) with u | u
    · exact u.1
    · have := r.2 j a b
      rw [u.2] at this
      obtain ⟨x, hx⟩ := this
      cases hx

/-- C116. StochRSI with `fillna=True`. The RSI `R` starts on row 0, but the windows above it do not start short: the first
`w - 1` rows are 0, and so are the first rows of %K and %D. A flat window repeats the row before; %K and %D are means of the
rows BEFORE filling, so a single flat window keeps them still for `s1` rows, and for `s1 + s2 - 1`. -/
theorem stochrsi_fill {n : Nat} {x : Nat → K} {w s1 s2 : Nat} (hs1 : 1 ≤ s1) (hs2 : 1 ≤ s2) {o : StochRSI (Val K)}
    (ho : StochRSI.new (ser n x) w s1 s2 true = .ok o) :
    ∃ (r : Series (Val K)) (R M m P Q : Nat → K) (d e : Nat → Prop), rsi (ser n x) w true = .ok r ∧ Def r n 0 R ∧ Top R w M ∧ Bottom R w m ∧
      (∀ i, d i ↔ w ≤ i + 1 ∧ m i < M i) ∧ (∀ i, P i = (R i - m i) / (M i - m i)) ∧
      (∀ i, e i ↔ s1 ≤ i + 1 ∧ ∀ j, j ≤ i → i < j + s1 → d j) ∧ (∀ i, Q i = (∑ j ∈ Ico (i + 1 - s1) (i + 1), P j) / s1) ∧
      Carried o.stochrsi n 0 d P ∧ Carried o.stochrsiK n 0 e Q ∧
      Carried o.stochrsiD n 0 (fun i => s2 ≤ i + 1 ∧ ∀ j, j ≤ i → i < j + s2 → e j) (fun i => (∑ j ∈ Ico (i + 1 - s2) (i + 1), Q j) / s2) := by
  have hw : 1 ≤ w := by
    by_contra h
    obtain rfl : w = 0 := by omega
    unfold StochRSI.new rsi at ho
    cases ho
  obtain ⟨U, D, -, -, -, -, -, r, hr, hd, -⟩ := rsi_formula n x w hw true
  simp only [if_true] at hd
  generalize (fun i => if D i = 0 then 100 else 100 * U i / (U i + D i)) = R at hd
  have e0 : o = { raw := StochRSI.ofRsi r w, k := rollMean s1 s1 (StochRSI.ofRsi r w), smooth2 := s2, fillna := true } := by
    unfold StochRSI.new at ho
    rw [hr] at ho
    exact (Except.ok.inj ho).symm
  subst e0
  refine ⟨r, R, wmax R w, wmin R w, fun i => (R i - wmin R w i) / (wmax R w i - wmin R w i), _, fun i => w ≤ i + 1 ∧ wmin R w i < wmax R w i, _,
    hr, hd, top_wmax R hw, bottom_wmin R hw, fun i => Iff.rfl, fun i => rfl, fun i => Iff.rfl, fun i => rfl, ?_⟩
  have hraw : ∀ i, i < n → ((w ≤ i + 1 ∧ wmin R w i < wmax R w i) ∧ ix (StochRSI.ofRsi r w) i = .fin ((R i - wmin R w i) / (wmax R w i - wmin R w i))) ∨
      (¬ (w ≤ i + 1 ∧ wmin R w i < wmax R w i) ∧ ix (StochRSI.ofRsi r w) i = .nan) := by
    intro i hi
    have h1 := hd.rollMin hw
    have h2 := hd.rollMax hw
    rw [Nat.zero_add] at h1 h2
    have e : ix (StochRSI.ofRsi r w) i = ((ix r i -. ix (rollMin w w r) i) /. (ix (rollMax w w r) i -. ix (rollMin w w r) i)) := by
      unfold StochRSI.ofRsi
      dsimp only
      rw [ix_sdiv (by simp [hd.len, hi]), ix_ssub (by simp [hd.len, hi]), ix_ssub (by simp [hd.len, hi])]
    rw [e]
    by_cases h3 : w ≤ i + 1
    · rw [h1.val i hi (by omega), h2.val i hi (by omega), hd.val i hi (Nat.zero_le _), fin_sub, fin_sub]
      by_cases h4 : wmin R w i < wmax R w i
      · exact .inl ⟨⟨h3, h4⟩, fin_div _ _ (sub_ne_zero.mpr h4.ne')⟩
      · refine .inr ⟨fun q => h4 q.2, ?_⟩
        have a := (wmax_spec R (w := w) (i := i) hw).2 i (le_refl _) (by omega)
        have b := (wmin_spec R (w := w) (i := i) hw).2 i (le_refl _) (by omega)
        have c1 : R i - wmin R w i = 0 := by linarith [not_lt.mp h4]
        have c2 : wmax R w i - wmin R w i = 0 := by linarith [not_lt.mp h4]
        rw [c1, c2, fin_div_zero]; simp
    · refine .inr ⟨fun q => h3 q.1, ?_⟩
      rw [h1.gap i hi (by omega)]; simp
  have hl : (StochRSI.ofRsi r w).length = n := by simp [StochRSI.ofRsi, hd.len]
  have hk := mean_rows hl hraw hs1
  have hl2 : (rollMean s1 s1 (StochRSI.ofRsi r w)).length = n := by simp [hl]
  have hD := mean_rows hl2 hk hs2
  have z : (lit 0 : Val K) = .fin 0 := by rw [lit_fin, Rat.cast_zero]
  unfold StochRSI.stochrsi StochRSI.stochrsiK StochRSI.stochrsiD
  dsimp only
  rw [z]
  exact ⟨carried_of hl hraw 0, carried_of hl2 hk 0, carried_of (by simp [hl]) hD 0⟩

/-! ## CCI -/

/-- C116. CCI with `fillna=True`: every row whose typical prices so far (at most `w`) are not all equal has its value; a row
without deviation repeats the row before, and the first row, which never has one, is 0. -/
theorem cci_fill (n : Nat) (h l c : Nat → K) {w : Nat} (hw : 1 ≤ w) {k : K} (hk : k ≠ 0) :
    ∃ T A M : Nat → K, (∀ i, T i = (h i + l i + c i) / 3) ∧
      (∀ i, A i = (∑ j ∈ Ico (i + 1 - w) (i + 1), T j) / (min w (i + 1) : ℕ)) ∧
      (∀ i, M i = (∑ j ∈ Ico (i + 1 - w) (i + 1), |T j - A i|) / (min w (i + 1) : ℕ)) ∧ M 0 = 0 ∧
      Carried (cci (ser n h) (ser n l) (ser n c) w (.fin k) true) n 0 (fun i => M i ≠ 0) (fun i => (T i - A i) / (k * M i)) := by
  refine ⟨fun i => (h i + l i + c i) / 3, wmean (fun i => (h i + l i + c i) / 3) w, wmad (fun i => (h i + l i + c i) / 3) w,
    fun i => rfl, fun i => rfl, fun i => rfl, ?_, ?_⟩
  · unfold wmad wmean
    rw [show min w (0 + 1) = 1 by omega, show 0 + 1 - w = 0 by omega]
    simp
  have hT := def_tp n h l c
  unfold cci CCI.run
  dsimp only
  generalize typicalPrice (ser n h) (ser n l) (ser n c) = tp at hT
  have hTe : ∀ i, (fun i => (h i + l i + c i) / 3) i = (h i + l i + c i) / 3 := fun i => rfl
  generalize (fun i => (h i + l i + c i) / 3) = T at hT hTe
  simp only [← hTe]
  have hA := hT.rollMeanP hw (minp_le true w)
  have hM := (hT.rollApplyP (minp_le true w) (fun i _ => mad_fin hw T i)).cmul k
  have key : ∀ i, i < n → ix (sdiv (ssub tp (rollMean w (minp true w) tp)) (cmul (.fin k) (rollApply CCI.mad w (minp true w) tp))) i
      = (Val.fin (T i - wmean T w i) /. Val.fin (k * wmad T w i)) := by
    intro i hi
    rw [ix_sdiv (by simp [hT.len, hi]), ix_ssub (by simp [hT.len, hi]), hA.val i hi (Nat.zero_le _), hM.val i hi (Nat.zero_le _),
      hT.val i hi (Nat.zero_le _), fin_sub]
  rw [show (lit 0 : Val K) = .fin 0 by rw [lit_fin, Rat.cast_zero]]
  refine carried_fill (by simp [hT.len]) (fun i hi hd => ?_) (fun i hi hd => ?_) _
  · rw [key i hi, fin_div _ _ (mul_ne_zero hk hd)]
  · have hm : wmad T w i = 0 := not_not.mp hd
    have hdev : T i - wmean T w i = 0 := by
      have h0 : (0 : K) < (min w (i + 1) : ℕ) := by exact_mod_cast (by omega : 0 < min w (i + 1))
      have hs : ∑ j ∈ Ico (i + 1 - w) (i + 1), |T j - wmean T w i| = 0 := by
        have : wmad T w i = (∑ j ∈ Ico (i + 1 - w) (i + 1), |T j - wmean T w i|) / (min w (i + 1) : ℕ) := rfl
        rw [hm, eq_comm, div_eq_zero_iff] at this
        exact this.resolve_right h0.ne'
      have := (Finset.sum_eq_zero_iff_of_nonneg fun j _ => abs_nonneg _).mp hs i (by simp; omega)
      exact abs_eq_zero.mp this
    rw [key i hi, hdev, hm, mul_zero, fin_div_zero]; simp

/-! ## instances -/

example : stoch (qs [5, 5, 7, 8]) (qs [5, 5, 5, 6]) (qs [5, 5, 6, 8]) 3 true = qs [50, 50, 50, 100] ∧
    williamsR (qs [5, 5, 7, 8]) (qs [5, 5, 5, 6]) (qs [5, 5, 6, 8]) 3 true = qs [-50, -50, -50, 0] ∧
    stochSignal (qs [6, 7, 8]) (qs [4, 5, 6]) (qs [5, 6, 8]) 2 2 true = qs [50, 175 / 3, 250 / 3] := by decide +kernel
example : tsi (qs [5, 5, 7, 6]) 2 2 true = .ok (qs [0, 0, 100, 100 / 7]) := by decide +kernel
example : smaEaseOfMovement (qs [10, 12, 15]) (qs [6, 8, 11]) (qs [7, 8, 6]) 2 true = qs [0, 100000000, 150000000] ∧
    volumePriceTrend (qs [10, 20, 10]) (qs [7, 8, 6]) true (some 2) = qs [0, 8, 13 / 2] := by decide +kernel
/-- the oscillator starts at 0, not at 50 -/
example : ultimateOscillator (qs [11, 13, 12]) (qs [9, 10, 8]) (qs [10, 12, 9]) 1 2 3 (lit 4) (lit 2) (lit 1) true
    = qs [0, 1160 / 21, 4600 / 147] := by decide +kernel
/-- row 1 already depends on the last close -/
example : ix (kama (qs [1, 2, 4, 3]) 2 2 30 true) 1 = .fin (83317 / 77841) ∧ ix (kama (qs [1, 2, 4, 5]) 2 2 30 true) 1 = .fin (28381 / 24025) := by
  decide +kernel
example : ∃ o, StochRSI.new (qs [1, 2, 4, 3, 5, 4]) 2 2 2 true = .ok o ∧ o.stochrsi = qs [0, 0, 0, 0, 1, 0] ∧
    o.stochrsiK = qs [0, 0, 0, 0, 1 / 2, 1 / 2] ∧ o.stochrsiD = qs [0, 0, 0, 0, 0, 1 / 2] := ⟨_, rfl, by decide +kernel⟩
example : cci (qs [3, 6, 12]) (qs [1, 2, 4]) (qs [2, 4, 8]) 2 (lit (3/200)) true = qs [0, 200 / 3, 200 / 3] := by decide +kernel

end TA
