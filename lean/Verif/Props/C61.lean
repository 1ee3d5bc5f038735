import Verif.Props.C49
import Verif.Props.C21

/-! # C61-C63: the formulas of KAMA, StochRSI and STC -/

set_option linter.unusedSectionVars false

namespace TA
open Finset
variable {K : Type} [Field K] [LinearOrder K] [IsStrictOrderedRing K]

/-! ## C61: KAMA -/

/-- efficiency ratio: net change over `w` rows by the sum of the absolute one-row changes -/
def effRatio (c : Nat → K) (w i : Nat) : K :=
  if ∑ j ∈ Ico (i + 1 - w) (i + 1), |c j - c (j - 1)| = 0 then 0
  else |c i - c (i - w)| / ∑ j ∈ Ico (i + 1 - w) (i + 1), |c j - c (j - 1)|

/-- C61. KAMA without filling on gap-free closes: NaN before row `w - 1`, the close itself on row `w - 1`, and from there
on `k + sc * (close - k)` with `sc = (ER * (2/(pow1+1) - 2/(pow2+1)) + 2/(pow2+1))²`. The circular `np.roll` of the code
is not visible. -/
theorem kama_formula (n : Nat) (c : Nat → K) {w : Nat} (hw : 1 ≤ w) (pow1 pow2 : Nat) :
    ∃ Y : Nat → K, Y (w - 1) = c (w - 1) ∧
      (∀ i, w ≤ i → Y i = Y (i - 1)
        + (effRatio c w i * (2 / ((pow1 : K) + 1) - 2 / ((pow2 : K) + 1)) + 2 / ((pow2 : K) + 1)) ^ 2 * (c i - Y (i - 1))) ∧
      Def (kama (ser n c) w pow1 pow2 false) n (w - 1) Y := by
  let sc : Nat → K := fun i =>
    (effRatio c w i * (2 / ((pow1 : K) + 1) - 2 / ((pow2 : K) + 1)) + 2 / ((pow2 : K) + 1)) ^ 2
  let V : Nat → K := fun k => Nat.rec (c (w - 1)) (fun k y => y + sc (w + k) * (c (w + k) - y)) k
  have V1 : ∀ k, V (k + 1) = V k + sc (w + k) * (c (w + k) - V k) := fun k => rfl
  refine ⟨fun i => V (i - (w - 1)), by simp [V], fun i hi => ?_, ?_⟩
  · have e : i - (w - 1) = (i - w) + 1 := by omega
    have e2 : i - 1 - (w - 1) = i - w := by omega
    simp only [e, e2]
    rw [V1, show w + (i - w) = i by omega]
  have hs := def_ser n c
  have hsc := kSc_def hs w pow1 pow2
  have er : ∀ i, i < n → w ≤ i → kSc n c w pow1 pow2 i = sc i := by
    intro i hi hwi
    have e1 : wsum (kVol n c) w i = ∑ j ∈ Ico (i + 1 - w) (i + 1), |c j - c (j - 1)| := by
      unfold wsum
      apply Finset.sum_congr rfl
      intro j hj
      rw [Finset.mem_Ico] at hj
      unfold kVol
      rw [kIx_of_le (by omega) (by omega)]
    have e2 : kEr n c w i = effRatio c w i := by
      unfold kEr effRatio
      rw [e1, kIx_of_le hi hwi]
      by_cases h0 : ∑ j ∈ Ico (i + 1 - w) (i + 1), |c j - c (j - 1)| = 0 <;> simp [h0]
    simp only [sc, kSc]
    rw [e2, sq]
  have main : ∀ m, w - 1 + m < n →
      iter (KAMA.step (KAMA.sc (ser n c) w pow1 pow2 false) (ser n c)) (nan, true) (w - 1 + m + 1) = (.fin (V m), false) := by
    intro m
    induction m with
    | zero =>
      intro hm
      rw [Nat.add_zero, kama_at hsc (by omega), hs.val _ (by omega) (by omega)]
      rfl
    | succ m ih =>
      intro hm
      rw [iter_succ, show w - 1 + (m + 1) = w - 1 + m + 1 by omega, ih (by omega)]
      unfold KAMA.step
      rw [hsc.val _ (by omega) (by omega), hs.val _ (by omega) (by omega), er _ (by omega) (by omega),
        V1, show w + m = w - 1 + m + 1 by omega]
      simp
  show Def (KAMA.run (ser n c) w pow1 pow2 false) n _ _
  refine ⟨by simp [KAMA.run, ser], fun i h1 h2 => ?_, fun i h1 h2 => ?_⟩
  all_goals
    unfold KAMA.run
    dsimp only
    rw [hs.len, ix_tab_lt h1]
  · rw [kama_before hsc (by omega) (by omega)]; rfl
  · have := main (i - (w - 1)) (by omega)
    rw [show w - 1 + (i - (w - 1)) + 1 = i + 1 by omega] at this
    rw [this]

example : kama (qs [1, 2, 4, 3]) 2 2 30 = [.nan, .fin 2, .fin (26/9), .fin (2029342/700569)] := by decide +kernel

/-! ## C62: StochRSI -/

/-- Row `i` of `t` is the mean of the last `w` rows of `s`; NaN unless there are `w` rows and all of them are numbers. -/
def MeanRow (s t : Series (Val K)) (w i : Nat) : Prop :=
  (∀ f : Nat → K, w ≤ i + 1 → (∀ j, j ≤ i → i < j + w → ix s j = .fin (f j)) →
    ix t i = .fin ((∑ j ∈ Ico (i + 1 - w) (i + 1), f j) / w)) ∧
  (¬ (w ≤ i + 1 ∧ ∀ j, j ≤ i → i < j + w → (ix s j).IsFin) → ix t i = .nan)

theorem obs_all {s : Series (Val K)} {w i : Nat} {f : Nat → K} (h : ∀ j, j ≤ i → i < j + w → ix s j = .fin (f j)) :
    obs s w i = (winIx w i).map f := by
  unfold obs
  have e : (winIx w i).map (ix s) = ((winIx w i).map f).map Val.fin := by
    rw [List.map_map]
    apply List.map_congr_left
    intro j hj
    rw [mem_winIx] at hj
    exact h j hj.1 hj.2
  rw [e, nums_fin]

theorem meanRow_rollMean {s : Series (Val K)} {w i : Nat} (hw : 1 ≤ w) (hi : i < s.length) :
    MeanRow s (rollMean w w s) w i := by
  constructor
  · intro f h1 h2
    rw [ix_rollMean hi, obs_all h2, List.length_map, length_winIx, if_pos (by omega), sum_winIx,
      min_eq_left h1]
    rfl
  · intro h
    have := sma_defined_iff s w hw i hi
    have hn : ¬ (ix (smaIndicator s w false) i).IsFin := fun hf => h (this.1.mp hf)
    exact this.2 hn

/-- C62. StochRSI without filling, on any closes: with `r` the RSI, row `i` is `(r i - m) / (M - m)` for `M`, `m` the
largest and smallest RSI of the last `w` rows, NaN if `M = m`, if there are fewer than `w` rows or one of them is NaN.
`%K` is the mean of the last `s1` rows of that and `%D` the mean of the last `s2` rows of `%K`. -/
theorem stochrsi_formula {s r : Series (Val K)} {w s1 s2 : Nat} (hs1 : 1 ≤ s1) (hs2 : 1 ≤ s2) {o : StochRSI (Val K)}
    (hr : rsi s w = .ok r) (ho : StochRSI.new s w s1 s2 = .ok o) {i : Nat} (hi : i < s.length) :
    (∀ R : Nat → K, w ≤ i + 1 → (∀ j, j ≤ i → i < j + w → ix r j = .fin (R j)) →
      ∃ M m, IsGreatest {x | ∃ j, j ≤ i ∧ i < j + w ∧ x = R j} M ∧ IsLeast {x | ∃ j, j ≤ i ∧ i < j + w ∧ x = R j} m ∧
        ix o.stochrsi i = if M = m then .nan else .fin ((R i - m) / (M - m))) ∧
    (¬ (w ≤ i + 1 ∧ ∀ j, j ≤ i → i < j + w → (ix r j).IsFin) → ix o.stochrsi i = .nan) ∧
    MeanRow o.stochrsi o.stochrsiK s1 i ∧ MeanRow o.stochrsiK o.stochrsiD s2 i := by
  have hlen : r.length = s.length := by
    unfold rsi at hr
    split_ifs at hr
    rw [← Except.ok.inj hr]
    simp [RSI.run, RSI.up]
  have hw : 1 ≤ w := by
    unfold rsi at hr
    by_contra h
    rw [if_pos (by omega)] at hr
    cases hr
  unfold StochRSI.new at ho
  rw [hr] at ho
  have e := Except.ok.inj ho
  subst e
  show _ ∧ _ ∧ MeanRow (StochRSI.ofRsi r w) (rollMean s1 s1 (StochRSI.ofRsi r w)) s1 i ∧
    MeanRow (rollMean s1 s1 (StochRSI.ofRsi r w)) (rollMean s2 s2 (rollMean s1 s1 (StochRSI.ofRsi r w))) s2 i
  have hlr : (StochRSI.ofRsi r w).length = s.length := by simp [StochRSI.ofRsi, hlen]
  have e0 : ix (StochRSI.ofRsi r w) i
      = ((ix r i -. ix (rollMin w w r) i) /. (ix (rollMax w w r) i -. ix (rollMin w w r) i)) := by
    unfold StochRSI.ofRsi
    dsimp only
    rw [ix_sdiv (by simp [hlen, hi]), ix_ssub (by simp [hlen, hi]), ix_ssub (by simp [hlen, hi])]
  refine ⟨fun R h1 h2 => ?_, fun h => ?_, meanRow_rollMean hs1 (by rw [hlr]; exact hi),
    meanRow_rollMean hs2 (by simpa [hlr] using hi)⟩
  · show ∃ M m, _ ∧ _ ∧ ix (StochRSI.ofRsi r w) i = _
    rw [e0]
    have hob := obs_all h2
    have hlo : (obs r w i).length = w := by rw [hob, List.length_map, length_winIx]; omega
    have hne : obs r w i ≠ [] := by
      intro h0
      rw [h0] at hlo
      simp at hlo
      omega
    rcases rollMin_cases r w w i (by rw [hlen]; exact hi) with h | ⟨m, em, hm, hm'⟩
    · exfalso
      rw [ix_rollMin (by rw [hlen]; exact hi), if_pos (by omega)] at h
      obtain ⟨_, h', _⟩ := minL_spec hne
      rw [h'] at h
      cases h
    rcases rollMax_cases r w w i (by rw [hlen]; exact hi) with h | ⟨M, eM, hM, hM'⟩
    · exfalso
      rw [ix_rollMax (by rw [hlen]; exact hi), if_pos (by omega)] at h
      obtain ⟨_, h', _⟩ := maxL_spec hne
      rw [h'] at h
      cases h
    have hmem : ∀ x, x ∈ obs r w i ↔ ∃ j, j ≤ i ∧ i < j + w ∧ x = R j := by
      intro x
      rw [hob, List.mem_map]
      constructor
      · rintro ⟨j, hj, rfl⟩; rw [mem_winIx] at hj; exact ⟨j, hj.1, hj.2, rfl⟩
      · rintro ⟨j, h3, h4, rfl⟩; exact ⟨j, mem_winIx.mpr ⟨h3, h4⟩, rfl⟩
    refine ⟨M, m, ⟨(hmem M).mp hM, fun x hx => hM' x ((hmem x).mpr hx)⟩,
      ⟨(hmem m).mp hm, fun x hx => hm' x ((hmem x).mpr hx)⟩, ?_⟩
    rw [em, eM, h2 i (le_refl _) (by omega), fin_sub, fin_sub]
    have hRi := (hmem (R i)).mpr ⟨i, le_refl _, by omega, rfl⟩
    split_ifs with h0
    · have : R i - m = 0 := by linarith [hM' _ hRi, hm' _ hRi]
      rw [this, h0, sub_self, fin_div_zero]; simp
    · rw [fin_div _ _ (sub_ne_zero.mpr h0)]
  · show ix (StochRSI.ofRsi r w) i = _
    rw [e0]
    have : ix (rollMin w w r) i = .nan := by
      rw [ix_rollMin (by rw [hlen]; exact hi)]
      rw [if_neg]
      intro hc
      exact h (obs_full (by omega))
    rw [this]; simp

example : (StochRSI.new (qs [10, 12, 11, 13, 12, 15]) 2 2 1).map (fun o => (o.stochrsi, o.stochrsiK, o.stochrsiD))
    = .ok ([.nan, .nan, .fin 0, .fin 1, .fin 0, .fin 1], [.nan, .nan, .nan, .fin (1/2), .fin (1/2), .fin (1/2)],
      [.nan, .nan, .nan, .fin (1/2), .fin (1/2), .fin (1/2)]) := by decide +kernel

/-! ## C63: Schaff trend cycle -/

/-- `f` takes two different values in every complete window of `w` rows from row `p` on -/
def NonFlat (f : Nat → K) (w p n : Nat) : Prop :=
  ∀ i, i < n → p ≤ i → ∃ j k, j ≤ i ∧ i < j + w ∧ k ≤ i ∧ i < k + w ∧ f j ≠ f k

/-- `g` is the position of `f` in percent between its smallest and largest value in the last `w` rows -/
def PosOf (f : Nat → K) (w : Nat) (g : Nat → K) : Prop :=
  ∀ i, ∃ M m, IsGreatest {x | ∃ j, j ≤ i ∧ i < j + w ∧ x = f j} M ∧ IsLeast {x | ∃ j, j ≤ i ∧ i < j + w ∧ x = f j} m ∧
    g i = 100 * (f i - m) / (M - m)

theorem posOf_wmax (f : Nat → K) {w : Nat} (hw : 1 ≤ w) :
    PosOf f w (fun i => 100 * (f i - wmin f w i) / (wmax f w i - wmin f w i)) := by
  intro i
  obtain ⟨⟨j, h1, h2, h3⟩, h4⟩ := wmax_spec f (w := w) (i := i) hw
  obtain ⟨⟨k, g1, g2, g3⟩, g4⟩ := wmin_spec f (w := w) (i := i) hw
  refine ⟨_, _, ⟨⟨j, h1, h2, h3⟩, ?_⟩, ⟨⟨k, g1, g2, g3⟩, ?_⟩, rfl⟩
  · rintro x ⟨m, m1, m2, rfl⟩; exact h4 m m1 m2
  · rintro x ⟨m, m1, m2, rfl⟩; exact g4 m m1 m2

theorem def_stochOf {s : Series (Val K)} {n p : Nat} {f : Nat → K} (h : Def s n p f) {w : Nat} (hw : 1 ≤ w)
    (hf : NonFlat f w (p + w - 1) n) :
    Def (STC.stochOf s w) n (p + w - 1) (fun i => 100 * (f i - wmin f w i) / (wmax f w i - wmin f w i)) := by
  have := (((h.ssub (h.rollMin hw)).cmul 100).sdiv ((h.rollMax hw).ssub (h.rollMin hw)) ?_)
  · unfold STC.stochOf
    dsimp only
    rw [lit_fin]
    push_cast
    rw [show max (max p (p + w - 1)) (max (p + w - 1) (p + w - 1)) = p + w - 1 by omega] at this
    exact this
  · intro i hi _ h2
    obtain ⟨j, k, j1, j2, k1, k2, hjk⟩ := hf i hi (by omega)
    obtain ⟨_, h4⟩ := wmax_spec f (w := w) (i := i) hw
    obtain ⟨_, g4⟩ := wmin_spec f (w := w) (i := i) hw
    intro h0
    apply hjk
    linarith [h4 j j1 j2, h4 k k1 k2, g4 j j1 j2, g4 k k1 k2]

/-- C63. The Schaff trend cycle on gap-free closes: `L` is the MACD line, `A` its position in percent in its own range over
`cycle` rows, `D` the smoothing of `A`, `B` the position of `D`, and the output the smoothing of `B`; provided neither `L`
nor `D` is constant over a whole cycle. With filling the rows before the first `B` are 0. -/
theorem stc_formula {n : Nat} {c : Nat → K} {slow fast cycle s1 s2 : Nat} {fillna : Bool} {out : Series (Val K)}
    (hcy : 1 ≤ cycle) (ho : stc (ser n c) slow fast cycle s1 s2 fillna = .ok out) :
    ∃ (p q : Nat) (L : Nat → K), p = (if fillna then 0 else max slow fast - 1) + cycle - 1 ∧
      q = p + (if fillna then 0 else s1 - 1) + cycle - 1 ∧
      (∀ i, L i = emaRec (2 / ((fast : K) + 1)) c i - emaRec (2 / ((slow : K) + 1)) c i) ∧
      (NonFlat L cycle p n → ∃ A D : Nat → K, PosOf L cycle A ∧
        (∀ i, D i = emaRec (2 / ((s1 : K) + 1)) (fun j => A (p + j)) (i - p)) ∧
        (NonFlat D cycle q n → ∃ B S : Nat → K, PosOf D cycle B ∧
          (∀ i, S i = emaRec (2 / ((s2 : K) + 1)) (fun j => B (q + j)) (i - q)) ∧
          (fillna = false → Def out n (q + (s2 - 1)) S) ∧
          (fillna = true → Def out n 0 (fun i => if i < q then 0 else S i)))) := by
  unfold stc chkSpan at ho
  by_cases h1 : fast < 1
  · rw [if_pos h1] at ho; cases ho
  rw [if_neg h1] at ho
  by_cases h2 : slow < 1
  · rw [if_pos h2] at ho; cases ho
  rw [if_neg h2] at ho
  by_cases h3 : s1 < 1
  · rw [if_pos h3] at ho; cases ho
  rw [if_neg h3] at ho
  by_cases h4 : s2 < 1
  · rw [if_pos h4] at ho; cases ho
  rw [if_neg h4] at ho
  have e := Except.ok.inj ho
  refine ⟨_, _, _, rfl, rfl, fun i => rfl, fun hf1 => ?_⟩
  have hL0 := ((def_ser n c).ema0 (by omega : 1 ≤ fast) fillna).ssub ((def_ser n c).ema0 (by omega : 1 ≤ slow) fillna)
  rw [show max (if fillna then 0 else fast - 1) (if fillna then 0 else slow - 1) = if fillna then 0 else max slow fast - 1
    by cases fillna <;> simp; omega] at hL0
  unfold emaW at hL0
  unfold STC.run at e
  dsimp only at e
  have hA := def_stochOf hL0 hcy hf1
  have hD := hA.ema (by omega : 1 ≤ s1) fillna
  refine ⟨_, _, posOf_wmax _ hcy, fun i => rfl, fun hf2 => ?_⟩
  unfold emaW at hD
  have hB := def_stochOf hD hcy hf2
  have hS := hB.ema (by omega : 1 ≤ s2) fillna
  refine ⟨_, _, posOf_wmax _ hcy, fun i => rfl, ?_, ?_⟩
  · rintro rfl
    rw [← e]
    exact hS
  · rintro rfl
    rw [← e, lit_fin]
    have := hS.fillConst 0
    push_cast
    exact this

example : stc (qs [10, 12, 11, 13, 12, 15, 11, 12]) 2 1 2 2 1
    = .ok [.nan, .nan, .nan, .nan, .fin 0, .fin 100, .fin 0, .fin 100] := by decide +kernel

end TA
