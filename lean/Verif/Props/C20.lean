import Verif.Lemmas.Bars

/-! # C20: ultimate oscillator; C29: true range -/

set_option linter.unusedSectionVars false

namespace TA
open Finset
variable {K : Type} [Field K] [LinearOrder K] [IsStrictOrderedRing K]

/-! ## C29: true range -/

/-- C29: on gap-free bars with low ≤ high the true range is `max(high, prev close) - min(low, prev close)`, and
`high - low` on the first row. -/
theorem true_range_formula (n : Nat) (h l c : Nat → K) (hl : ∀ i, i < n → l i ≤ h i) :
    Def (trueRange (ser n h) (ser n l) (shift (ser n c) 1)) n 0
      (fun i => if i = 0 then h 0 - l 0 else max (h i) (c (i - 1)) - min (l i) (c (i - 1))) := by
  refine ⟨by simp [ser], fun i _ hi => by omega, fun i hi _ => ?_⟩
  unfold trueRange
  rw [ix_zip3 (by simpa [ser] using hi), ix_prev (by simpa [ser] using hi), (def_ser n h).val i hi (Nat.zero_le _),
    (def_ser n l).val i hi (Nat.zero_le _)]
  split_ifs with h0
  · subst h0; exact tr_nan _ _
  · rw [(def_ser n c).val (i - 1) (by omega) (Nat.zero_le _)]
    exact tr_fin _ _ _ (hl i hi)

/-- C29: the true range is at least the bar's own range, and at least the distance of the close from the previous close;
a missing previous close counts as "no gap", a missing bar has no true range. -/
theorem true_range_ge {h l c : Series (Val K)} (g : GoodBars h l c) {i : Nat} (hi : i < h.length) :
    (ix h i = .nan ∧ ix (trueRange h l (shift c 1)) i = .nan) ∨
    ∃ x y z t, ix h i = .fin x ∧ ix l i = .fin y ∧ ix c i = .fin z ∧ ix (trueRange h l (shift c 1)) i = .fin t ∧
      x - y ≤ t ∧ 0 ≤ t ∧ (∀ p, ix (shift c 1) i = .fin p → |z - p| ≤ t ∧ (y ≤ p ∧ p ≤ x → t = x - y)) ∧
      (ix (shift c 1) i = .nan → t = x - y) := by
  rcases g.tr_cases hi with ⟨h1, _, _, e⟩ | ⟨x, y, z, h1, h2, h3, h4, h5, h6⟩
  · exact .inl ⟨h1, e⟩
  · right
    rcases h6 with ⟨hp, e⟩ | ⟨p, hp, e⟩
    · refine ⟨x, y, z, _, h1, h2, h3, e, le_refl _, by linarith, fun q hq => ?_, fun _ => rfl⟩
      rw [hp] at hq; cases hq
    · refine ⟨x, y, z, _, h1, h2, h3, e, ?_, g.tr_nonneg e, fun q hq => ?_, fun hq => ?_⟩
      · have := le_max_left x p
        have := min_le_left y p
        linarith
      · rw [hp] at hq; cases hq
        refine ⟨?_, fun ⟨a, b⟩ => by rw [max_eq_left b, min_eq_left a]⟩
        have := le_max_left x p
        have := min_le_left y p
        have := le_max_right x p
        have := min_le_right y p
        rw [abs_le]; constructor <;> linarith
      · rw [hp] at hq; cases hq

/-! ## C20: ultimate oscillator -/

/-- buying pressure is between 0 and the true range, row by row -/
theorem bp_le_tr {h l c : Series (Val K)} (g : GoodBars h l c) (j : Nat) (b : K)
    (hb : ix (UO.buyingPressure l c) j = .fin b) :
    0 ≤ b ∧ ∃ t, ix (trueRange h l (shift c 1)) j = .fin t ∧ b ≤ t := by
  by_cases hj : j < h.length
  · unfold UO.buyingPressure at hb
    rw [ix_ssub (by rw [g.lenC]; exact hj), ix_zip2 (by rw [g.lenL]; exact hj)] at hb
    rcases g.tr_cases hj with ⟨_, _, h3, _⟩ | ⟨x, y, z, h1, h2, h3, h4, h5, h6⟩
    · rw [h3] at hb; simp at hb
    · rw [h3, h2] at hb
      rcases h6 with ⟨hp, e⟩ | ⟨p, hp, e⟩
      · rw [hp] at hb; simp at hb
      · rw [hp, npMin2_fin, fin_sub] at hb
        cases hb
        have h7 := min_le_left y p
        refine ⟨by linarith, _, e, ?_⟩
        have := le_max_left x p
        linarith
  · rw [ix_ge (by simpa [UO.buyingPressure, g.lenC] using hj)] at hb; cases hb

/-- one of the three averages: NaN or in [0, 1] -/
theorem uo_avg_mem {h l c : Series (Val K)} (g : GoodBars h l c) (w : Nat) (fillna : Bool) {i : Nat} (hi : i < h.length) :
    FinOr (fun x => 0 ≤ x ∧ x ≤ 1)
      (ix (UO.avg (UO.buyingPressure l c) (trueRange h l (shift c 1)) w fillna) i) := by
  unfold UO.avg
  have hb : i < (UO.buyingPressure l c).length := by simpa [UO.buyingPressure, g.lenC] using hi
  rw [ix_sdiv (by simpa using hb)]
  rcases rollSum_cases (UO.buyingPressure l c) w (minp fillna w) i hb with e | e
  · rw [e]; left; simp
  rcases rollSum_cases (trueRange h l (shift c 1)) w (minp fillna w) i (by simpa using hi) with e' | e'
  · rw [e']; left; simp
  rw [e, e']
  have hle : (obs (UO.buyingPressure l c) w i).sum ≤ (obs (trueRange h l (shift c 1)) w i).sum :=
    obs_sum_le (fun j x _ _ hx => (bp_le_tr g j x hx).2) (fun j y _ _ hy => g.tr_nonneg hy)
  have h0 : 0 ≤ (obs (UO.buyingPressure l c) w i).sum := sum_nonneg' fun x hx => by
    obtain ⟨j, _, _, hj⟩ := mem_obs.mp hx
    exact (bp_le_tr g j x hj).1
  by_cases hz : (obs (trueRange h l (shift c 1)) w i).sum = 0
  · have : (obs (UO.buyingPressure l c) w i).sum = 0 := le_antisymm (hz ▸ hle) h0
    rw [hz, this, fin_div_zero]; left; simp
  · right
    have hp : 0 < (obs (trueRange h l (shift c 1)) w i).sum := lt_of_le_of_ne (le_trans h0 hle) (Ne.symm hz)
    rw [fin_div _ _ hz]
    exact ⟨_, rfl, div_nonneg h0 hp.le, by rw [div_le_one hp]; exact hle⟩

theorem ix_uoRun {h l c : Series (Val K)} (w1 w2 w3 : Nat) (a b d : Val K) (fillna : Bool) {i : Nat} (hi : i < c.length) :
    ix (UO.run h l c w1 w2 w3 a b d fillna) i =
      ((lit 100 *. ((a *. ix (UO.avg (UO.buyingPressure l c) (trueRange h l (shift c 1)) w1 fillna) i)
        +. (b *. ix (UO.avg (UO.buyingPressure l c) (trueRange h l (shift c 1)) w2 fillna) i)
        +. (d *. ix (UO.avg (UO.buyingPressure l c) (trueRange h l (shift c 1)) w3 fillna) i)))
        /. (a +. b +. d)) := by
  have hl : ∀ w, i < (UO.avg (UO.buyingPressure l c) (trueRange h l (shift c 1)) w fillna).length := fun w => by
    simpa [UO.avg, UO.buyingPressure] using hi
  unfold UO.run
  dsimp only
  rw [ix_divc (by simpa using hl w1), ix_cmul (by simpa using hl w1), ix_sadd (by simpa using hl w1),
    ix_sadd (by simpa using hl w1), ix_cmul (hl w1), ix_cmul (hl w2), ix_cmul (hl w3)]

/-- C20: on bars (missing rows allowed) with low ≤ close ≤ high, for all windows and all non-negative weights with a
positive sum, every row of the ultimate oscillator is NaN or a number in [0, 100]; both values of `fillna`. -/
theorem uo_range {h l c : Series (Val K)} (g : GoodBars h l c) (w1 w2 w3 : Nat) (a b d : K) (ha : 0 ≤ a) (hb : 0 ≤ b)
    (hd : 0 ≤ d) (hs : 0 < a + b + d) (fillna : Bool) :
    NaNOr (fun x => 0 ≤ x ∧ x ≤ 100)
      (ultimateOscillator h l c w1 w2 w3 (.fin a) (.fin b) (.fin d) fillna) := by
  unfold ultimateOscillator
  rw [lit_fin]
  refine NaNOr.fill ?_ (by norm_num) fillna
  intro i hi
  have hi' : i < h.length := by simpa [UO.run, UO.avg, UO.buyingPressure, g.lenC] using hi
  rw [ix_uoRun _ _ _ _ _ _ _ (by rw [g.lenC]; exact hi')]
  rcases uo_avg_mem g w1 fillna hi' with e1 | ⟨x1, e1, p1, q1⟩
  · rw [e1]; left; simp
  rcases uo_avg_mem g w2 fillna hi' with e2 | ⟨x2, e2, p2, q2⟩
  · rw [e2]; left; simp
  rcases uo_avg_mem g w3 fillna hi' with e3 | ⟨x3, e3, p3, q3⟩
  · rw [e3]; left; simp
  right
  rw [e1, e2, e3]
  simp only [fin_mul, fin_add, lit_fin]
  rw [fin_div _ _ hs.ne']
  refine ⟨_, rfl, ?_, ?_⟩
  · apply div_nonneg _ hs.le
    push_cast
    positivity
  · rw [div_le_iff₀ hs]
    push_cast
    have := mul_le_mul_of_nonneg_left q1 ha
    have := mul_le_mul_of_nonneg_left q2 hb
    have := mul_le_mul_of_nonneg_left q3 hd
    linarith

/-- C20: the formula on gap-free bars.  `bp j = close_j - min(low_j, close_{j-1})`,
`tr j = max(high_j, close_{j-1}) - min(low_j, close_{j-1})`; each average is `Σ bp / Σ tr` over its window of rows
(from row `w` on), and the oscillator is their weighted mean times 100; NaN before. -/
theorem uo_formula (n : Nat) (h l c : Nat → K) (hl : ∀ i, i < n → l i ≤ c i ∧ c i ≤ h i) (w1 w2 w3 : Nat)
    (p1 : 1 ≤ w1) (p2 : 1 ≤ w2) (p3 : 1 ≤ w3) (a b d : K) (hs : a + b + d ≠ 0) :
    let bp := fun j => c j - min (l j) (c (j - 1))
    let tr := fun j => max (h j) (c (j - 1)) - min (l j) (c (j - 1))
    let avg := fun w i => (∑ j ∈ Finset.Ioc (i - w) i, bp j) / ∑ j ∈ Finset.Ioc (i - w) i, tr j
    let out := ultimateOscillator (ser n h) (ser n l) (ser n c) w1 w2 w3 (.fin a) (.fin b) (.fin d) false
    out.length = n ∧
    (∀ i, i < n → i < max w1 (max w2 w3) → ix out i = .nan) ∧
    (∀ i, i < n → max w1 (max w2 w3) ≤ i → (∀ w, w = w1 ∨ w = w2 ∨ w = w3 → ∑ j ∈ Finset.Ioc (i - w) i, tr j ≠ 0) →
      ix out i = .fin (100 * (a * avg w1 i + b * avg w2 i + d * avg w3 i) / (a + b + d))) := by
  intro bp tr avg out
  have hbp : Def (UO.buyingPressure (ser n l) (ser n c)) n 1 bp := by
    refine ⟨by simp [UO.buyingPressure, ser], fun i hi h0 => ?_, fun i hi h0 => ?_⟩ <;>
    · unfold UO.buyingPressure
      rw [ix_ssub (by simpa [ser] using hi), ix_zip2 (by simpa [ser] using hi), ix_prev (by simpa [ser] using hi),
        (def_ser n l).val i hi (Nat.zero_le _), (def_ser n c).val i hi (Nat.zero_le _)]
      first
      | rw [if_pos (by omega)]; simp
      | rw [if_neg (by omega), (def_ser n c).val (i - 1) (by omega) (Nat.zero_le _), npMin2_fin, fin_sub]
  have htr := true_range_formula n h l c fun i hi => le_trans (hl i hi).1 (hl i hi).2
  have havg : ∀ w, 1 ≤ w → (UO.avg (UO.buyingPressure (ser n l) (ser n c)) (trueRange (ser n h) (ser n l) (shift (ser n c) 1)) w false).length = n ∧
      (∀ i, i < n → i < w → ix (UO.avg (UO.buyingPressure (ser n l) (ser n c)) (trueRange (ser n h) (ser n l) (shift (ser n c) 1)) w false) i = .nan) ∧
      (∀ i, i < n → w ≤ i → ∑ j ∈ Finset.Ioc (i - w) i, tr j ≠ 0 →
        ix (UO.avg (UO.buyingPressure (ser n l) (ser n c)) (trueRange (ser n h) (ser n l) (shift (ser n c) 1)) w false) i = .fin (avg w i)) := by
    intro w hw
    have h1 := hbp.rollSum (w := w) (.inl hw)
    have h2 := htr.rollSum (w := w) (.inl hw)
    refine ⟨by simp [UO.avg, hbp.len], fun i hi hiw => ?_, fun i hi hiw hne => ?_⟩
    · unfold UO.avg
      rw [ix_sdiv (by simpa [hbp.len] using hi)]
      have : ix (rollSum w (minp false w) (UO.buyingPressure (ser n l) (ser n c))) i = .nan := h1.gap i hi (by omega)
      rw [this]; simp
    · unfold UO.avg
      rw [ix_sdiv (by simpa [hbp.len] using hi)]
      have e1 : ix (rollSum w (minp false w) (UO.buyingPressure (ser n l) (ser n c))) i = _ := h1.val i hi (by omega)
      have e2 : ix (rollSum w (minp false w) (trueRange (ser n h) (ser n l) (shift (ser n c) 1))) i = _ := h2.val i hi (by omega)
      rw [e1, e2]
      have ei : Finset.Ico (i + 1 - w) (i + 1) = Finset.Ioc (i - w) i := by
        ext j; simp only [Finset.mem_Ico, Finset.mem_Ioc]; omega
      have s1 : wsum bp w i = ∑ j ∈ Finset.Ioc (i - w) i, bp j := by unfold wsum; rw [ei]
      have s2 : wsum (fun i => if i = 0 then h 0 - l 0 else max (h i) (c (i - 1)) - min (l i) (c (i - 1))) w i
          = ∑ j ∈ Finset.Ioc (i - w) i, tr j := by
        unfold wsum; rw [ei]
        refine Finset.sum_congr rfl fun j hj => ?_
        dsimp only
        rw [if_neg (by simp only [Finset.mem_Ioc] at hj; omega)]
      rw [s1, s2, fin_div _ _ hne]
  have hout : out = UO.run (ser n h) (ser n l) (ser n c) w1 w2 w3 (.fin a) (.fin b) (.fin d) false := rfl
  have hrow := fun i (hi : i < n) => ix_uoRun (h := ser n h) (l := ser n l) (c := ser n c) w1 w2 w3 (.fin a) (.fin b) (.fin d) false
    (i := i) (by simpa [ser] using hi)
  refine ⟨by simp [hout, UO.run, UO.avg, UO.buyingPressure, ser], fun i hi hm => ?_, fun i hi hm hne => ?_⟩
  · rw [hout, hrow i hi]
    rcases lt_max_iff.mp hm with hm | hm
    · rw [(havg w1 p1).2.1 i hi hm]; simp
    · rcases lt_max_iff.mp hm with hm | hm
      · rw [(havg w2 p2).2.1 i hi hm]; simp
      · rw [(havg w3 p3).2.1 i hi hm]; simp
  · have m1 : w1 ≤ i := le_trans (le_max_left _ _) hm
    have m2 : w2 ≤ i := le_trans (le_trans (le_max_left _ _) (le_max_right _ _)) hm
    have m3 : w3 ≤ i := le_trans (le_trans (le_max_right _ _) (le_max_right _ _)) hm
    rw [hout, hrow i hi, (havg w1 p1).2.2 i hi m1 (hne w1 (by simp)), (havg w2 p2).2.2 i hi m2 (hne w2 (by simp)),
      (havg w3 p3).2.2 i hi m3 (hne w3 (by simp))]
    simp only [fin_mul, fin_add, lit_fin]
    rw [fin_div _ _ hs]
    push_cast
    rfl

example : ultimateOscillator (qs [11, 13, 12]) (qs [9, 10, 8]) (qs [10, 12, 9]) 1 2 2 = [.nan, .nan, .fin (1600/49)] := by
  decide +kernel
example : trueRange (qs [11, 13, 12]) (qs [9, 12, 8]) (shift (qs [10, 12, 9]) 1) = qs [2, 3, 4] := by decide +kernel
/-- a missing bar: the next bar has no buying pressure but still a true range -/
example : (ultimateOscillator [.fin 11, .nan, .fin 12, .fin 14] [.fin 9, .nan, .fin 8, .fin 13] [.fin 10, .nan, .fin 9, .fin (27/2)] 1 1 1
    (.fin 1) (.fin 1) (.fin 1) true : Series (Val ℚ)) = [.fin 0, .fin 0, .fin 0, .fin 90] := by decide +kernel

end TA
