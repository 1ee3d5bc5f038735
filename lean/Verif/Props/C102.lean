import Verif.Props.C100
import Verif.Props.C27
import Verif.Props.C42

/-!
# C102: a bar moved up around the same close

Two markets with the same closes and the same bars up to a row, on which the high, the low, or both are higher in one of them.
A lower bar is the same comparison read in the other direction.
-/

set_option linter.unusedSectionVars false

namespace TA
open Finset
variable {K : Type} [Field K] [LinearOrder K] [IsStrictOrderedRing K] {n i : Nat} {h h' l l' c v : Nat → K}

theorem HigherAt.refl (i : Nat) (f : Nat → K) : HigherAt i f f := ⟨fun _ _ => rfl, le_refl _⟩

theorem HigherAt.le {f f' : Nat → K} (hf : HigherAt i f f') {j : Nat} (hj : j ≤ i) : f j ≤ f' j := by
  rcases Nat.lt_or_ge j i with h1 | h1
  · exact (hf.before j h1).ge
  · rw [show j = i by omega]; exact hf.now

/-- the share of `b` in `b + u` falls when `b` falls and `u` rises -/
theorem part_mono {b u b' u' : K} (hb' : 0 ≤ b') (hu : 0 ≤ u) (hb : b' ≤ b) (hu' : u ≤ u') (hp : 0 < b + u) (hp' : 0 < b' + u') :
    b' / (b' + u') ≤ b / (b + u) := by
  rw [div_le_div_iff₀ hp' hp]
  have := mul_le_mul hb hu' hu (hb'.trans hb)
  linarith [mul_comm b b']

theorem wmax_le {f f' : Nat → K} {w : Nat} (hw : 1 ≤ w) (hf : ∀ j, j ≤ i → f j ≤ f' j) : wmax f w i ≤ wmax f' w i := by
  obtain ⟨⟨j, j1, j2, e⟩, -⟩ := wmax_spec f (w := w) (i := i) hw
  rw [e]
  exact (hf j j1).trans ((wmax_spec f' (w := w) (i := i) hw).2 j j1 j2)

theorem wmin_le {f f' : Nat → K} {w : Nat} (hw : 1 ≤ w) (hf : ∀ j, j ≤ i → f j ≤ f' j) : wmin f w i ≤ wmin f' w i := by
  obtain ⟨⟨j, j1, j2, e⟩, -⟩ := wmin_spec f' (w := w) (i := i) hw
  rw [e]
  exact ((wmin_spec f (w := w) (i := i) hw).2 j j1 j2).trans (hf j j1)

/-! ## lines that follow the bar -/

/-- C102. The awesome oscillator follows the bar (the first window the shorter one). -/
theorem ao_rises (hh : HigherAt i h h') (hl : HigherAt i l l') (hi : i < n) {w1 w2 : Nat} (h1 : 1 ≤ w1) (h12 : w1 ≤ w2) {fillna : Bool}
    (hp : (if fillna then 0 else w2 - 1) ≤ i) :
    Rises (awesomeOscillator (ser n h) (ser n l) w1 w2 fillna) (awesomeOscillator (ser n h') (ser n l') w1 w2 fillna) i := by
  have hf : HigherAt i (fun j => (h j + l j) / 2) (fun j => (h' j + l' j) / 2) :=
    ⟨fun j hj => by rw [hh.before j hj, hl.before j hj], by have := hh.now; have := hl.now; linarith⟩
  refine (ao_formula n h l h1 (by omega) fillna).rises (ao_formula n h' l' h1 (by omega) fillna) hi
    (by rw [max_eq_right h12]; exact hp) ?_
  have e := hf.wsum h1
  have e2 := hf.wsum (show 1 ≤ w2 by omega)
  have hm : (0 : K) < (min w1 (i + 1) : ℕ) := by exact_mod_cast (by omega : 0 < min w1 (i + 1))
  have := div_le_div_of_nonneg_left (sub_nonneg.mpr hf.now) hm
    (show ((min w1 (i + 1) : ℕ) : K) ≤ (min w2 (i + 1) : ℕ) by exact_mod_cast (by omega : min w1 (i + 1) ≤ min w2 (i + 1)))
  rw [e, e2, add_div, add_div (∑ j ∈ Ico (i + 1 - w2) (i + 1), (h j + l j) / 2)]
  generalize (h' i + l' i) / 2 - (h i + l i) / 2 = d at this ⊢
  linarith

theorem IsMid.rises {w : Nat} {M M' : Nat → K} (hM : IsMid h l w M) (hM' : IsMid h' l' w M') (hh : ∀ j, j ≤ i → h j ≤ h' j)
    (hl : ∀ j, j ≤ i → l j ≤ l' j) : M i ≤ M' i := by
  obtain ⟨a, b, ⟨⟨j, j1, j2, rfl⟩, -⟩, ⟨-, b2⟩, e⟩ := hM i
  obtain ⟨a', b', ⟨-, a2⟩, ⟨⟨k, k1, k2, rfl⟩, -⟩, e'⟩ := hM' i
  rw [e, e']
  have := a2 ⟨j, j1, j2, rfl⟩
  have := b2 ⟨k, k1, k2, rfl⟩
  have := hh j j1
  have := hl k k1
  linarith

/-- C102. The lines of the Ichimoku cloud follow the bar. -/
theorem ichimoku_rises (hh : HigherAt i h h') (hl : HigherAt i l l') (hi : i < n) {w1 w2 w3 : Nat} (h1 : 1 ≤ w1) (h2 : 1 ≤ w2) (h3 : 1 ≤ w3)
    {fillna : Bool} (hp : (if fillna then 0 else max w1 w2 - 1) ≤ i) :
    Rises (ichimokuConversionLine (ser n h) (ser n l) w1 fillna) (ichimokuConversionLine (ser n h') (ser n l') w1 fillna) i ∧
    Rises (ichimokuBaseLine (ser n h) (ser n l) w2 fillna) (ichimokuBaseLine (ser n h') (ser n l') w2 fillna) i ∧
    Rises (ichimokuA (ser n h) (ser n l) w1 w2 false fillna) (ichimokuA (ser n h') (ser n l') w1 w2 false fillna) i ∧
    Rises (ichimokuB (ser n h) (ser n l) w2 w3 false fillna) (ichimokuB (ser n h') (ser n l') w2 w3 false fillna) i := by
  obtain ⟨C, B, S, hC, hB, hS, dC, dB, dA, dS⟩ := ichimoku_formula n h l h1 h2 h3 fillna
  obtain ⟨C', B', S', hC', hB', hS', dC', dB', dA', dS'⟩ := ichimoku_formula n h' l' h1 h2 h3 fillna
  have a := hC.rises hC' (i := i) (fun j hj => hh.le hj) (fun j hj => hl.le hj)
  have b := hB.rises hB' (i := i) (fun j hj => hh.le hj) (fun j hj => hl.le hj)
  have s := hS.rises hS' (i := i) (fun j hj => hh.le hj) (fun j hj => hl.le hj)
  exact ⟨dC.rises dC' hi (by split_ifs at hp ⊢ <;> omega) a, dB.rises dB' hi (by split_ifs at hp ⊢ <;> omega) b,
    dA.rises dA' hi hp (by linarith), dS.rises dS' hi (Nat.zero_le _) s⟩

/-- C102. The bands of the Donchian channel follow the bar, the place of the close between them does the opposite. -/
theorem donchian_bar_rises (hh : HigherAt i h h') (hl : HigherAt i l l') (hi : i < n) (hb : l i ≤ c i ∧ c i ≤ h i) (hb' : l' i ≤ c i)
    {w : Nat} (hw : 1 ≤ w) {fillna : Bool}
    (hp : (if fillna then 0 else w - 1) ≤ i) {o o' : Donchian (Val K)}
    (ho : Donchian.new (ser n h) (ser n l) (ser n c) w 0 fillna = .ok o)
    (ho' : Donchian.new (ser n h') (ser n l') (ser n c) w 0 fillna = .ok o') :
    Rises o.hband o'.hband i ∧ Rises o.lband o'.lband i ∧ Rises o.mband o'.mband i ∧
    (l i < h i → l' i < h' i → Sinks o.pband o'.pband i) := by
  obtain ⟨H, L, hH, hL, dH, dL, dM, v⟩ := donchian_formula hw ho
  obtain ⟨H', L', hH', hL', dH', dL', dM', v'⟩ := donchian_formula hw ho'
  have eH : H i ≤ H' i := by
    obtain ⟨j, j1, j2, e⟩ := (hH i hi).1
    rw [e]; exact (hh.le j1).trans ((hH' i hi).2 ⟨j, j1, j2, rfl⟩)
  have eL : L i ≤ L' i := by
    obtain ⟨j, j1, j2, e⟩ := (hL' i hi).1
    rw [e]; exact ((hL i hi).2 ⟨j, j1, j2, rfl⟩ : L i ≤ l j).trans (hl.le j1)
  have b1 : h i ≤ H i := (hH i hi).2 ⟨i, le_refl _, by omega, rfl⟩
  have b2 : L i ≤ l i := (hL i hi).2 ⟨i, le_refl _, by omega, rfl⟩
  have b1' : h' i ≤ H' i := (hH' i hi).2 ⟨i, le_refl _, by omega, rfl⟩
  have b2' : L' i ≤ l' i := (hL' i hi).2 ⟨i, le_refl _, by omega, rfl⟩
  have hp' : fillna = false → w - 1 ≤ i := fun hf => by simpa [hf] using hp
  refine ⟨dH.rises dH' hi hp eH, dL.rises dL' hi hp eL, dM.rises dM' hi hp (by linarith), fun hr hr' =>
    ⟨_, _, (v i hi hp').2 (by intro e; linarith), (v' i hi hp').2 (by intro e; linarith), ?_⟩⟩
  have := part_mono (b := c i - L i) (u := H i - c i) (b' := c i - L' i) (u' := H' i - c i) (by linarith) (by linarith) (by linarith)
    (by linarith) (by linarith) (by linarith)
  rwa [show c i - L' i + (H' i - c i) = H' i - L' i by ring, show c i - L i + (H i - c i) = H i - L i by ring] at this

/-- C102. CCI, the volume weighted price and the middle line of the original Keltner channel follow the bar, as they follow the close. -/
theorem typical_rises (hh : HigherAt i h h') (hl : HigherAt i l l') {c' : Nat → K} (hc : HigherAt i c c') (hi : i < n) (hv : ∀ j, 0 < v j)
    {w : Nat} (hw : 1 ≤ w) {k : K} (hk : 0 < k) {fillna : Bool} (hp : (if fillna then 0 else w - 1) ≤ i) :
    (wmad (fun j => (h j + l j + c j) / 3) w i ≠ 0 → wmad (fun j => (h' j + l' j + c' j) / 3) w i ≠ 0 →
      Rises (cci (ser n h) (ser n l) (ser n c) w (.fin k) fillna) (cci (ser n h') (ser n l') (ser n c') w (.fin k) fillna) i) ∧
    Rises (volumeWeightedAveragePrice (ser n h) (ser n l) (ser n c) (ser n v) w fillna)
      (volumeWeightedAveragePrice (ser n h') (ser n l') (ser n c') (ser n v) w fillna) i ∧
    ∀ wa m o o', Keltner.new (ser n h) (ser n l) (ser n c) w wa fillna true m = .ok o →
      Keltner.new (ser n h') (ser n l') (ser n c') w wa fillna true m = .ok o' → Rises o.mband o'.mband i := by
  have hf : HigherAt i (fun j => (h j + l j + c j) / 3) (fun j => (h' j + l' j + c' j) / 3) :=
    ⟨fun j hj => by rw [hh.before j hj, hl.before j hj, hc.before j hj], by
      have := hh.now; have := hl.now; have := hc.now; linarith⟩
  have hp' : fillna = true ∨ w - 1 ≤ i := by cases fillna <;> simp_all
  refine ⟨fun hm hm' => ?_, ?_, fun wa m o o' ho ho' => ?_⟩
  · obtain ⟨T, A, M, hT, hA, hM, -, v, -⟩ := cci_formula n h l c hw hk.ne' fillna
    obtain ⟨T', A', M', hT', hA', hM', -, v', -⟩ := cci_formula n h' l' c' hw hk.ne' fillna
    obtain rfl := funext hT
    obtain rfl := funext hT'
    have eA : A = wmean (fun j => (h j + l j + c j) / 3) w := funext hA
    have eA' : A' = wmean (fun j => (h' j + l' j + c' j) / 3) w := funext hA'
    subst eA eA'
    have eM : M = wmad (fun j => (h j + l j + c j) / 3) w := funext hM
    have eM' : M' = wmad (fun j => (h' j + l' j + c' j) / 3) w := funext hM'
    subst eM eM'
    refine ⟨_, _, v i hi hp' hm, v' i hi hp' hm', ?_⟩
    have hpos : ∀ (g : Nat → K), wmad g w i ≠ 0 → 0 < wmad g w i := fun g hg =>
      lt_of_le_of_ne (div_nonneg (Finset.sum_nonneg fun _ _ => abs_nonneg _) (Nat.cast_nonneg _)) (Ne.symm hg)
    have hmm : (1 : K) ≤ (min w (i + 1) : ℕ) := by exact_mod_cast (by omega : 1 ≤ min w (i + 1))
    refine dev_ratio_mono (by linarith) hk (hpos _ hm) (hpos _ hm') ?_ (mad_near hf hw)
      (dev_le_mad (fun j => (h j + l j + c j) / 3) hw i) (dev_le_mad (fun j => (h' j + l' j + c' j) / 3) hw i)
    rw [hf.wmean hw]
    have := div_le_self (sub_nonneg.mpr hf.now) hmm
    linarith
  · refine (vwap_formula n h l c v w fillna hw hv).rises (vwap_formula n h' l' c' v w fillna hw hv) hi hp
      (div_le_div_of_nonneg_right (Finset.sum_le_sum fun j hj => mul_le_mul_of_nonneg_right ?_ (hv j).le)
        (Finset.sum_nonneg fun j _ => (hv j).le))
    exact hf.le (by have := (Finset.mem_Ico.mp hj).2; omega)
  · exact (keltner_original_formula hw ho).mband.rises (keltner_original_formula hw ho').mband hi hp (hf.wmeans hw).now

/-! ## the place of the close in the bar -/

/-- C102. The stochastic oscillator, its signal line and Williams %R fall when the bars move up around the close. -/
theorem stoch_bar_sinks (hh : HigherAt i h h') (hl : HigherAt i l l') (hi : i < n) (hb : ∀ j, j < n → l j ≤ c j ∧ c j ≤ h j)
    (hb' : ∀ j, j < n → l' j ≤ c j ∧ c j ≤ h' j) {w : Nat} (hw : 1 ≤ w) {smooth : Nat} (hsm : 1 ≤ smooth) :
    HigherRow i (stoch (ser n h') (ser n l') (ser n c) w) (stoch (ser n h) (ser n l) (ser n c) w) ∧
    HigherRow i (williamsR (ser n h') (ser n l') (ser n c) w) (williamsR (ser n h) (ser n l) (ser n c) w) ∧
    HigherRow i (stochSignal (ser n h') (ser n l') (ser n c) w smooth) (stochSignal (ser n h) (ser n l) (ser n c) w smooth) ∧
    (w ≤ i + 1 → l i < h i → l' i < h' i → Sinks (stoch (ser n h) (ser n l) (ser n c) w) (stoch (ser n h') (ser n l') (ser n c) w) i) := by
  obtain ⟨M, m, hM, hm, ln, g, v⟩ := stoch_formula n h l c hb w hw
  obtain ⟨M', m', hM', hm', ln', g', v'⟩ := stoch_formula n h' l' c hb' w hw
  have eM : ∀ j, j < i → M' j = M j := fun j hj => by
    obtain ⟨⟨a, a1, a2, a3⟩, b⟩ := hM j
    obtain ⟨⟨a', a1', a2', a3'⟩, b'⟩ := hM' j
    refine le_antisymm ?_ ?_
    · rw [a3', hh.before a' (by omega)]; exact b a' a1' a2'
    · rw [a3, ← hh.before a (by omega)]; exact b' a a1 a2
  have em : ∀ j, j < i → m' j = m j := fun j hj => by
    obtain ⟨⟨a, a1, a2, a3⟩, b⟩ := hm j
    obtain ⟨⟨a', a1', a2', a3'⟩, b'⟩ := hm' j
    refine le_antisymm ?_ ?_
    · rw [a3, ← hl.before a (by omega)]; exact b' a a1 a2
    · rw [a3', hl.before a' (by omega)]; exact b a' a1' a2'
  have mM : M i ≤ M' i := by
    obtain ⟨⟨a, a1, a2, a3⟩, -⟩ := hM i
    rw [a3]; exact (hh.le a1).trans ((hM' i).2 a a1 a2)
  have mm : m i ≤ m' i := by
    obtain ⟨⟨a, a1, a2, a3⟩, -⟩ := hm' i
    rw [a3]; exact ((hm i).2 a a1 a2).trans (hl.le a1)
  have q1 := ((hm i).2 i (le_refl _) (by omega)).trans (hb i hi).1
  have q2 := (hb i hi).2.trans ((hM i).2 i (le_refl _) (by omega))
  have q1' := ((hm' i).2 i (le_refl _) (by omega)).trans (hb' i hi).1
  have q2' := (hb' i hi).2.trans ((hM' i).2 i (le_refl _) (by omega))
  have mono : M i ≠ m i → M' i ≠ m' i → 100 * (c i - m' i) / (M' i - m' i) ≤ 100 * (c i - m i) / (M i - m i) := fun z z' => by
    have z0 : 0 < M i - m i := lt_of_le_of_ne (by linarith) (sub_ne_zero.mpr z).symm
    have z0' : 0 < M' i - m' i := lt_of_le_of_ne (by linarith) (sub_ne_zero.mpr z').symm
    have := part_mono (b := c i - m i) (u := M i - c i) (b' := c i - m' i) (u' := M' i - c i) (by linarith) (by linarith) (by linarith)
      (by linarith) (by linarith) (by linarith)
    rw [show c i - m' i + (M' i - c i) = M' i - m' i by ring, show c i - m i + (M i - c i) = M i - m i by ring] at this
    rw [mul_div_assoc, mul_div_assoc]
    linarith
  have hrow : HigherRow i (stoch (ser n h') (ser n l') (ser n c) w) (stoch (ser n h) (ser n l) (ser n c) w) := by
    constructor
    · intro j hj
      by_cases hp : w - 1 ≤ j
      · rw [v j (by omega) hp, v' j (by omega) hp, eM j hj, em j hj]
      · rw [g j (by omega) (by omega), g' j (by omega) (by omega)]
    · intro x x' hx hx'
      by_cases hp : w - 1 ≤ i
      · rw [v' i hi hp] at hx
        rw [v i hi hp] at hx'
        split_ifs at hx with hz
        split_ifs at hx' with hz'
        obtain rfl := Val.fin.inj hx
        obtain rfl := Val.fin.inj hx'
        exact mono hz' hz
      · rw [g' i hi (by omega)] at hx; cases hx
  refine ⟨hrow, ?_, ?_, ?_⟩
  · have hL : ∀ x : Nat → K, (ser n x).length = n := fun x => by simp [ser]
    rw [williamsR_eq_stoch _ _ _ (by rw [hL, hL]) (by rw [hL, hL]), williamsR_eq_stoch _ _ _ (by rw [hL, hL]) (by rw [hL, hL])]
    constructor
    · intro j hj
      rw [ix_map (by rw [ln]; omega), ix_map (by rw [ln']; omega), hrow.before j hj]
    · intro x x' hx hx'
      rw [ix_map (by rw [ln']; exact hi)] at hx
      rw [ix_map (by rw [ln]; exact hi)] at hx'
      have sub100 : ∀ {v : Val K} {y : K}, v -. .fin 100 = .fin y → v = .fin (y + 100) := by
        intro v y hy
        cases v with
        | fin z => rw [fin_sub] at hy; rw [← Val.fin.inj hy]; congr 1; ring
        | nan => cases hy
        | pinf => cases hy
        | ninf => cases hy
      have := hrow.now _ _ (sub100 hx) (sub100 hx')
      linarith
  · have hS : ∀ a b : Nat → K, stochSignal (ser n a) (ser n b) (ser n c) w smooth
        = rollMean smooth smooth (stoch (ser n a) (ser n b) (ser n c) w) := fun _ _ => rfl
    rw [hS, hS]
    exact hrow.mean (fun j hj => meanRow_rollMean hsm (by rw [ln']; omega)) (fun j hj => meanRow_rollMean hsm (by rw [ln]; omega))
  · intro hp hlt hlt'
    have hne : M i ≠ m i :=
      (((hm i).2 i (le_refl _) (by omega)).trans_lt (hlt.trans_le ((hM i).2 i (le_refl _) (by omega)))).ne'
    have hne' : M' i ≠ m' i :=
      (((hm' i).2 i (le_refl _) (by omega)).trans_lt (hlt'.trans_le ((hM' i).2 i (le_refl _) (by omega)))).ne'
    refine ⟨_, _, ?_, ?_, mono hne hne'⟩
    · rw [v i hi (by omega), if_neg hne]
    · rw [v' i hi (by omega), if_neg hne']

/-- C102. The ultimate oscillator falls when the bar moves up around the close. -/
theorem uo_bar_sinks (hh : HigherAt i h h') (hl : HigherAt i l l') (hi : i < n) (hb : ∀ j, j < n → l j ≤ c j ∧ c j ≤ h j)
    (hb' : ∀ j, j < n → l' j ≤ c j ∧ c j ≤ h' j)
    {w1 w2 w3 : Nat} (p1 : 1 ≤ w1) (p2 : 1 ≤ w2) (p3 : 1 ≤ w3) {a b d : K} (ha : 0 ≤ a) (hb0 : 0 ≤ b) (hd : 0 ≤ d) (hs : 0 < a + b + d)
    (hp : max w1 (max w2 w3) ≤ i) (hmv : l i < h i) (hmv' : l' i < h' i) :
    Sinks (ultimateOscillator (ser n h) (ser n l) (ser n c) w1 w2 w3 (.fin a) (.fin b) (.fin d))
      (ultimateOscillator (ser n h') (ser n l') (ser n c) w1 w2 w3 (.fin a) (.fin b) (.fin d)) i := by
  have f := uo_formula n h l c hb w1 w2 w3 p1 p2 p3 a b d hs.ne'
  have f' := uo_formula n h' l' c hb' w1 w2 w3 p1 p2 p3 a b d hs.ne'
  dsimp only at f f'
  have pos : ∀ {h l : Nat → K}, l i < h i → ∀ w, 1 ≤ w → 0 < ∑ j ∈ Finset.Ioc (i - w) i, (max (h j) (c (j - 1)) - min (l j) (c (j - 1))) :=
    fun {h l} hmv w hw => by
      refine Finset.sum_pos' (fun j hj => ?_) ⟨i, Finset.mem_Ioc.mpr (by omega), ?_⟩
      · exact sub_nonneg.mpr ((min_le_right _ _).trans (le_max_right _ _))
      · exact sub_pos.mpr ((min_le_left _ _).trans_lt (hmv.trans_le (le_max_left _ _)))
  have share : ∀ w, 1 ≤ w → (∑ j ∈ Finset.Ioc (i - w) i, (c j - min (l' j) (c (j - 1))))
        / ∑ j ∈ Finset.Ioc (i - w) i, (max (h' j) (c (j - 1)) - min (l' j) (c (j - 1)))
      ≤ (∑ j ∈ Finset.Ioc (i - w) i, (c j - min (l j) (c (j - 1))))
        / ∑ j ∈ Finset.Ioc (i - w) i, (max (h j) (c (j - 1)) - min (l j) (c (j - 1))) := fun w hw => by
    have sp : ∀ h l : Nat → K, ∑ j ∈ Finset.Ioc (i - w) i, (max (h j) (c (j - 1)) - min (l j) (c (j - 1)))
        = ∑ j ∈ Finset.Ioc (i - w) i, (c j - min (l j) (c (j - 1))) + ∑ j ∈ Finset.Ioc (i - w) i, (max (h j) (c (j - 1)) - c j) := fun h l => by
      rw [← Finset.sum_add_distrib]
      exact Finset.sum_congr rfl fun j _ => by ring
    have z := pos hmv w hw
    have z' := pos hmv' w hw
    rw [sp] at z z' ⊢
    rw [sp h l]
    refine part_mono (Finset.sum_nonneg fun j hj => ?_) (Finset.sum_nonneg fun j hj => ?_) (Finset.sum_le_sum fun j hj => ?_)
      (Finset.sum_le_sum fun j hj => ?_) z z' <;> have hj := Finset.mem_Ioc.mp hj
    · exact sub_nonneg.mpr ((min_le_left _ _).trans (hb' j (by omega)).1)
    · exact sub_nonneg.mpr ((hb j (by omega)).2.trans (le_max_left _ _))
    · exact sub_le_sub_left (min_le_min_right _ (hl.le hj.2)) _
    · exact sub_le_sub_right (max_le_max_right _ (hh.le hj.2)) _
  refine ⟨_, _, f.2.2 i hi hp ?_, f'.2.2 i hi hp ?_, ?_⟩
  · rintro w (rfl | rfl | rfl) <;> exact (pos hmv _ (by assumption)).ne'
  · rintro w (rfl | rfl | rfl) <;> exact (pos hmv' _ (by assumption)).ne'
  · have q1 := mul_le_mul_of_nonneg_left (share w1 p1) ha
    have q2 := mul_le_mul_of_nonneg_left (share w2 p2) hb0
    have q3 := mul_le_mul_of_nonneg_left (share w3 p3) hd
    exact div_le_div_of_nonneg_right (by linarith) hs.le

/-- the location of the close in its bar falls when the bar moves up -/
theorem clv_anti {h l h' l' x : K} (h1 : l' ≤ x) (h2 : x ≤ h) (hh : h ≤ h') (hl : l ≤ l') (hr : l < h) (hr' : l' < h') :
    (if h' = l' then 0 else ((x - l') - (h' - x)) / (h' - l')) ≤ if h = l then 0 else ((x - l) - (h - x)) / (h - l) := by
  rw [if_neg hr'.ne', if_neg hr.ne']
  have p : 0 < h - l := sub_pos.mpr hr
  have p' : 0 < h' - l' := sub_pos.mpr hr'
  have := part_mono (b := x - l) (u := h - x) (b' := x - l') (u' := h' - x) (by linarith) (by linarith) (by linarith)
      (by linarith) (by linarith) (by linarith)
  rw [show x - l' + (h' - x) = h' - l' by ring, show x - l + (h - x) = h - l by ring] at this
  rw [show ((x - l') - (h' - x)) / (h' - l') = 2 * ((x - l') / (h' - l')) - 1 by field_simp; ring,
    show ((x - l) - (h - x)) / (h - l) = 2 * ((x - l) / (h - l)) - 1 by field_simp; ring]
  linarith

/-- C102. The accumulation/distribution index and Chaikin's money flow fall when the bar moves up around the close. -/
theorem money_bar_sinks (hh : HigherAt i h h') (hl : HigherAt i l l') (hi : i < n) (hb : ∀ j, l j ≤ c j ∧ c j ≤ h j)
    (hb' : ∀ j, l' j ≤ c j ∧ c j ≤ h' j) (hr : l i < h i) (hr' : l' i < h' i)
    (hv : ∀ j, 0 < v j) {w : Nat} (hw : 1 ≤ w) (fillna : Bool) (hp : (if fillna then 0 else w - 1) ≤ i) :
    Sinks (accDistIndex (ser n h) (ser n l) (ser n c) (ser n v) fillna) (accDistIndex (ser n h') (ser n l') (ser n c) (ser n v) fillna) i ∧
    Sinks (chaikinMoneyFlow (ser n h) (ser n l) (ser n c) (ser n v) w fillna)
      (chaikinMoneyFlow (ser n h') (ser n l') (ser n c) (ser n v) w fillna) i := by
  have term : ∀ j, j ≤ i → (if h' j = l' j then 0 else ((c j - l' j) - (h' j - c j)) / (h' j - l' j)) * v j
      ≤ (if h j = l j then 0 else ((c j - l j) - (h j - c j)) / (h j - l j)) * v j := fun j hj => by
    rcases Nat.lt_or_ge j i with h1 | h1
    · rw [hh.before j h1, hl.before j h1]
    · rw [show j = i by omega]
      exact mul_le_mul_of_nonneg_right (clv_anti (hb' i).1 (hb i).2 hh.now hl.now hr hr') (hv i).le
  exact ⟨(adi_formula n h l c v (fun j => (hb j).1) (fun j => (hb j).2) fillna).sinks
      (adi_formula n h' l' c v (fun j => (hb' j).1) (fun j => (hb' j).2) fillna) hi (Nat.zero_le _)
      (Finset.sum_le_sum fun j hj => term j (by have := Finset.mem_range.mp hj; omega)),
    (cmf_formula n h l c v w fillna hw hv (fun j => (hb j).1) (fun j => (hb j).2)).sinks
      (cmf_formula n h' l' c v w fillna hw hv (fun j => (hb' j).1) (fun j => (hb' j).2)) hi hp
      (div_le_div_of_nonneg_right (Finset.sum_le_sum fun j hj => term j (by have := (Finset.mem_Ico.mp hj).2; omega))
        (Finset.sum_nonneg fun j _ => (hv j).le))⟩

/-! ## Aroon -/

theorem oldestMax_rises (hh : HigherAt i h h') {w k k' : Nat} (hk : IsOldestMax h w i k) (hk' : IsOldestMax h' w i k') : k ≤ k' := by
  obtain ⟨a1, a2, a3⟩ := hk
  obtain ⟨b1, b2, b3⟩ := hk'
  by_contra hlt
  have e1 : i - w + k' < i := by omega
  have := a3 (i - w + k') (by omega) (by omega)
  have := b2 (i - w + k) (by omega) (by omega)
  have := hh.le (j := i - w + k) (by omega)
  have := hh.before _ e1
  linarith

/-- C102. Aroon up rises with the high, Aroon down falls with a higher low, their difference rises with both. -/
theorem aroon_bar_rises (hh : HigherAt i h h') (hl : HigherAt i l l') (hi : i < n) {w : Nat} (hw : 1 ≤ w) {fillna : Bool}
    (hp : (if fillna then 0 else w) ≤ i) {o o' : Aroon (Val K)} (ho : Aroon.new (ser n h) (ser n l) w fillna = .ok o)
    (ho' : Aroon.new (ser n h') (ser n l') w fillna = .ok o') :
    Rises o.aroonUp o'.aroonUp i ∧ Sinks o.aroonDown o'.aroonDown i ∧ Rises o.aroonIndicator o'.aroonIndicator i := by
  obtain ⟨ku, kd, hu, hd, d1, d2, d3⟩ := aroon_formula hw ho
  obtain ⟨ku', kd', hu', hd', d1', d2', d3'⟩ := aroon_formula hw ho'
  have a : (ku i : K) ≤ ku' i := by exact_mod_cast oldestMax_rises hh (hu i) (hu' i)
  have b : (kd' i : K) ≤ kd i := by
    have hn : HigherAt i (fun j => -l' j) (fun j => -l j) := ⟨fun j hj => by rw [hl.before j hj], neg_le_neg hl.now⟩
    exact_mod_cast oldestMax_rises hn (hd' i) (hd i)
  have q1 : 100 * (ku i : K) / w ≤ 100 * ku' i / w := div_le_div_of_nonneg_right (by linarith) (Nat.cast_nonneg _)
  have q2 : 100 * (kd' i : K) / w ≤ 100 * kd i / w := div_le_div_of_nonneg_right (by linarith) (Nat.cast_nonneg _)
  exact ⟨d1.rises d1' hi hp q1, d2.sinks d2' hi hp q2, d3.rises d3' hi hp (by linarith)⟩

/-! ## concrete bars -/

section examples

/-- the same four closes; the last bar is 6..10, then 8..12 -/
example : HigherAt (K := ℚ) 3 (fun j => [9, 11, 9, 10].getD j 0) (fun j => [9, 11, 9, 12].getD j 0) ∧
    HigherAt (K := ℚ) 3 (fun j => [5, 7, 5, 6].getD j 0) (fun j => [5, 7, 5, 8].getD j 0) :=
  ⟨⟨by decide +kernel, by decide +kernel⟩, ⟨by decide +kernel, by decide +kernel⟩⟩
example : ix (awesomeOscillator (qs [9, 11, 9, 10]) (qs [5, 7, 5, 6]) 1 3) 3 = .fin 0 ∧
    ix (awesomeOscillator (qs [9, 11, 9, 12]) (qs [5, 7, 5, 8]) 1 3) 3 = .fin (4 / 3) := by decide +kernel
example : ix (stoch (qs [9, 11, 9, 10]) (qs [5, 7, 5, 6]) (qs [8, 8, 8, 9]) 3) 3 = .fin (200 / 3) ∧
    ix (stoch (qs [9, 11, 9, 12]) (qs [5, 7, 5, 8]) (qs [8, 8, 8, 9]) 3) 3 = .fin (400 / 7) := by decide +kernel
example : ix (accDistIndex (qs [9, 11, 9, 10]) (qs [5, 7, 5, 6]) (qs [8, 8, 8, 9]) (qs [2, 2, 2, 2])) 3 = .fin 2 ∧
    ix (accDistIndex (qs [9, 11, 9, 12]) (qs [5, 7, 5, 8]) (qs [8, 8, 8, 9]) (qs [2, 2, 2, 2])) 3 = .fin 0 := by decide +kernel
example : ix (ultimateOscillator (qs [9, 11, 9, 10]) (qs [5, 7, 5, 6]) (qs [8, 8, 8, 9]) 1 2 3 (.fin 4) (.fin 2) (.fin 1)) 3 = .fin (1525 / 21) := by
  decide +kernel
example : ix (ultimateOscillator (qs [9, 11, 9, 12]) (qs [5, 7, 5, 8]) (qs [8, 8, 8, 9]) 1 2 3 (.fin 4) (.fin 2) (.fin 1)) 3 = .fin (725 / 21) := by
  decide +kernel
example : (Aroon.new (qs [9, 11, 9, 10]) (qs [5, 7, 5, 6]) 2).toOption.map (fun o => (ix o.aroonUp 3, ix o.aroonDown 3)) = some (.fin 0, .fin 50) ∧
    (Aroon.new (qs [9, 11, 9, 12]) (qs [5, 7, 5, 8]) 2).toOption.map (fun o => (ix o.aroonUp 3, ix o.aroonDown 3)) = some (.fin 100, .fin 50) := by
  decide +kernel

/-- C102. Ease of movement goes either way with the high: a taller bar is a larger move in the direction of the midpoint. -/
theorem eom_bar_either : ix (easeOfMovement (qs [10, 4]) (qs [8, 2]) (qs [1, 1])) 1 = .fin (-1200000000) ∧
    ix (easeOfMovement (qs [10, 6]) (qs [8, 2]) (qs [1, 1])) 1 = .fin (-2000000000) ∧
    ix (easeOfMovement (qs [10, 16]) (qs [8, 2]) (qs [1, 1])) 1 = .fin 0 := by decide +kernel

end examples

end TA
