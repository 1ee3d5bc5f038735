import Verif.Props.C32
import Verif.Base.Real

/-! # C30, C33: Bollinger bands and Ulcer index -/

namespace TA
open Finset

theorem sqrt_fin {x : ℝ} (h : 0 ≤ x) : FltFn.sqrt (.fin x : Val ℝ) = .fin (Real.sqrt x) := by
  show Val.sqrt (.fin x) = _
  rw [Val.sqrt, if_neg (not_lt.mpr h)]

/-- the population variance of a list -/
noncomputable def pvar (l : List ℝ) : ℝ := (l.map (fun x => (x - l.sum / l.length) ^ 2)).sum / l.length

theorem pvar_nonneg (l : List ℝ) : 0 ≤ pvar l := by
  unfold pvar
  refine div_nonneg (List.sum_nonneg ?_) (Nat.cast_nonneg _)
  intro x hx
  obtain ⟨y, _, rfl⟩ := List.mem_map.mp hx
  exact sq_nonneg _

theorem ix_rollStd {s : Series (Val ℝ)} {w mp i : Nat} (h : i < s.length) :
    ix (rollStd w mp s) i = if mp ≤ (obs s w i).length ∧ 0 < (obs s w i).length
      then .fin (Real.sqrt (pvar (obs s w i))) else .nan := by
  unfold rollStd
  rw [ix_roll' h]
  unfold aggStd
  dsimp only
  rw [valid_win, List.length_map, sumL_fin, natF_fin]
  by_cases h0 : mp ≤ (obs s w i).length ∧ 0 < (obs s w i).length
  · have hl : ((obs s w i).length : ℝ) ≠ 0 := by have := h0.2; positivity
    rw [if_pos h0, if_pos h0, fin_div _ _ hl, List.map_map]
    have e : (obs s w i).map ((fun x => (x -. Val.fin ((obs s w i).sum / (obs s w i).length)) *.
        (x -. Val.fin ((obs s w i).sum / (obs s w i).length))) ∘ Val.fin)
        = ((obs s w i).map (fun x => (x - (obs s w i).sum / (obs s w i).length) ^ 2)).map Val.fin := by
      rw [List.map_map]
      refine List.map_congr_left fun x _ => ?_
      simp [pow_two]
    rw [e, sumL_fin, fin_div _ _ hl]
    exact sqrt_fin (pvar_nonneg _)
  · rw [if_neg h0, if_neg h0]; rfl

/-- the population standard deviation of `f` over the `w` rows ending at row `i` (fewer at the start) -/
noncomputable def wstd (f : Nat → ℝ) (w i : Nat) : ℝ :=
  Real.sqrt ((∑ j ∈ Ico (i + 1 - w) (i + 1), (f j - wmean f w i) ^ 2) / (min w (i + 1) : ℕ))

theorem Def.rollStd {s : Series (Val ℝ)} {n : Nat} {f : Nat → ℝ} (h : Def s n 0 f) {w mp : Nat} (hw : 1 ≤ w)
    (hm : mp ≤ w) : Def (TA.rollStd w mp s) n (mp - 1) (wstd f w) := by
  refine ⟨by simp [h.len], fun i h1 h2 => ?_, fun i h1 h2 => ?_⟩
  · rw [ix_rollStd (by rw [h.len]; exact h1), h.obs_eq h1, List.length_map, length_winIx, if_neg (by omega)]
  · rw [ix_rollStd (by rw [h.len]; exact h1), h.obs_eq h1, List.length_map, length_winIx, if_pos (by omega)]
    have e1 : min w (i + 1 - 0) = min w (i + 1) := rfl
    have e2 : min (min w (i + 1)) (i + 1) = min w (i + 1) := by omega
    have e3 : i + 1 - min w (i + 1) = i + 1 - w := by omega
    unfold pvar wstd wmean
    rw [List.map_map, List.length_map, length_winIx, e1, e2]
    have e4 : ((winIx (min w (i + 1)) i).map f).sum = ∑ j ∈ Ico (i + 1 - w) (i + 1), f j := by
      rw [sum_winIx]; unfold wsum; rw [e3]
    rw [e4]
    have e5 := sum_winIx (fun j => (f j - (∑ j ∈ Ico (i + 1 - w) (i + 1), f j) / (min w (i + 1) : ℕ)) ^ 2)
      (min w (i + 1)) i
    unfold wsum at e5
    rw [e3] at e5
    rw [← e5]
    rfl

/-- What the seven outputs of a Bollinger object are, given its middle line `m`, its upper band `a` and its lower band
`b`, all from row `p` on. -/
structure BollingerSpec (o : BB (Val ℝ)) (n p : Nat) (c m a b : Nat → ℝ) : Prop where
  mavg : Def o.bollingerMavg n p m
  hband : Def o.bollingerHband n p a
  lband : Def o.bollingerLband n p b
  wband : ∀ i, i < n → p ≤ i → m i ≠ 0 → ix o.bollingerWband i = .fin ((a i - b i) / m i * 100)
  pband : ∀ i, i < n → p ≤ i → a i ≠ b i → ix o.bollingerPband i = .fin ((c i - b i) / (a i - b i))
  above : Def o.bollingerHbandIndicator n 0 (fun i => if p ≤ i ∧ a i < c i then 1 else 0)
  below : Def o.bollingerLbandIndicator n 0 (fun i => if p ≤ i ∧ c i < b i then 1 else 0)

/-- C30. On gap-free data: the middle line is the mean close of the last `w` rows, the bands are `dev` population
standard deviations of the same rows away from it; width, percentage and crossing flags follow from these three.
Without filling everything starts at row `w - 1`, with filling at row 0 (shorter windows there). -/
theorem bollinger_formula {n : Nat} (c : Nat → ℝ) {w : Nat} (hw : 1 ≤ w) (d : ℝ) (fillna : Bool) :
    BollingerSpec (BB.new (ser n c) w (.fin d) fillna) n (if fillna then 0 else w - 1) c (wmean c w)
      (fun i => wmean c w i + d * wstd c w i) (fun i => wmean c w i - d * wstd c w i) := by
  have hmp : minp fillna w ≤ w := by unfold minp; split_ifs <;> omega
  have hp : minp fillna w - 1 = if fillna then 0 else w - 1 := by unfold minp; split_ifs <;> omega
  have hM := (def_ser n c).rollMeanP hw hmp
  have hS := (def_ser n c).rollStd hw hmp
  rw [hp] at hM hS
  have hp0 : fillna = true → (if fillna then 0 else w - 1) = 0 := fun h => by rw [if_pos h]
  generalize (if fillna then 0 else w - 1) = p at hM hS hp0 ⊢
  have hA := hM.sadd (hS.cmul d)
  have hB := hM.ssub (hS.cmul d)
  rw [max_self] at hA hB
  have hc := def_ser n c
  refine ⟨hM.fillOr hp0 _, hA.fillOr hp0 _, hB.fillOr hp0 _, fun i hi h1 h3 => ?_, fun i hi h2 h3 => ?_,
    (def_gtFlag hc hA).fill _ _, (def_ltFlag hc hB).fill _ _⟩
  · unfold BB.bollingerWband BB.new
    refine fill_keep (by simp [ser, hi]) ?_
    unfold mulc
    dsimp only
    rw [ix_map (by simp [ser, hi]), ix_sdiv (by simp [ser, hi]), ix_ssub (by simp [ser, hi]),
      hA.val i hi h1, hB.val i hi h1, hM.val i hi h1, lit_fin, fin_sub, fin_div _ _ h3, fin_mul]
    norm_num
  · unfold BB.bollingerPband BB.new
    refine fill_keep (by simp [ser, hi]) ?_
    dsimp only
    rw [ix_sdiv (by simp [ser, hi]), ix_ssub (by simp [ser, hi]), ix_zip2 (by simp [ser, hi]),
      hA.val i hi h2, hB.val i hi h2, hc.val i hi (Nat.zero_le _)]
    have e : (Val.fin (wmean c w i + d * wstd c w i) !=. Val.fin (wmean c w i - d * wstd c w i)) = true := by
      simpa using h3
    rw [if_pos e, fin_sub, fin_sub, fin_div _ _ (sub_ne_zero.mpr h3)]

/-- C30. The percentage band, the other way round: one half plus the distance from the middle line in channel
widths. -/
theorem bollinger_pband_half {n : Nat} (c : Nat → ℝ) {w : Nat} (hw : 1 ≤ w) (d : ℝ) (fillna : Bool) {i : Nat} (hi : i < n)
    {m a b : ℝ} (hm : ix (BB.new (ser n c) w (.fin d) fillna).bollingerMavg i = .fin m)
    (ha : ix (BB.new (ser n c) w (.fin d) fillna).bollingerHband i = .fin a)
    (hb : ix (BB.new (ser n c) w (.fin d) fillna).bollingerLband i = .fin b) (hab : a ≠ b) :
    ix (BB.new (ser n c) w (.fin d) fillna).bollingerPband i = .fin (1 / 2 + (c i - m) / (a - b)) := by
  have H := bollinger_formula (n := n) c hw d fillna
  generalize BB.new (ser n c) w (.fin d) fillna = o at hm ha hb H ⊢
  have hp : (if fillna then 0 else w - 1) ≤ i := by
    by_contra hp
    rw [H.mavg.gap i hi (by omega)] at hm; cases hm
  rw [H.mavg.val i hi hp] at hm
  rw [H.hband.val i hi hp] at ha
  rw [H.lband.val i hi hp] at hb
  obtain rfl := Val.fin.inj hm
  obtain rfl := Val.fin.inj ha
  obtain rfl := Val.fin.inj hb
  rw [H.pband i hi hp hab]
  have := sub_ne_zero.mpr hab
  congr 1
  field_simp
  ring

/-- C30. On any data, without filling and with `dev ≥ 0`: where the middle line is a number both bands are numbers, at
equal distances from it and in order; the flags are 0 or 1, 1 exactly for a close beyond the band, and never both 1. -/
theorem bollinger_order {close : Series (Val ℝ)} {w : Nat} {d : ℝ} (hd : 0 ≤ d) {i : Nat} (hi : i < close.length)
    {o : BB (Val ℝ)} (ho : o = BB.new close w (.fin d)) :
    ((ix o.bollingerMavg i = .nan ∧ ix o.bollingerHband i = .nan ∧ ix o.bollingerLband i = .nan) ∨
      ∃ m s : ℝ, 0 ≤ s ∧ ix o.bollingerMavg i = .fin m ∧ ix o.bollingerHband i = .fin (m + d * s) ∧
        ix o.bollingerLband i = .fin (m - d * s) ∧ m - d * s ≤ m ∧ m ≤ m + d * s) ∧
    ix o.bollingerHbandIndicator i = (if ix o.bollingerHband i <. ix close i then .fin 1 else .fin 0) ∧
    ix o.bollingerLbandIndicator i = (if ix close i <. ix o.bollingerLband i then .fin 1 else .fin 0) ∧
    ¬ (ix o.bollingerHbandIndicator i = .fin 1 ∧ ix o.bollingerLbandIndicator i = .fin 1) := by
  have hm : ix (rollMean w w close) i = .nan ∧ ix (rollStd w w close) i = .nan ∨
      ∃ m s : ℝ, 0 ≤ s ∧ ix (rollMean w w close) i = .fin m ∧ ix (rollStd w w close) i = .fin s := by
    rw [ix_rollMean hi, ix_rollStd hi]
    split_ifs
    · exact .inr ⟨_, _, Real.sqrt_nonneg _, rfl, rfl⟩
    · exact .inl ⟨rfl, rfl⟩
  have e : ix (cmul (.fin d) (rollStd w w close)) i = .fin d *. ix (rollStd w w close) i := by
    unfold cmul; rw [ix_map (by simpa using hi)]
  have e1 : ix o.bollingerMavg i = ix (rollMean w w close) i := by rw [ho]; rfl
  have e2 : ix o.bollingerHband i = ix (rollMean w w close) i +. .fin d *. ix (rollStd w w close) i := by
    rw [← e, ← ix_sadd (by simpa using hi), ho]; rfl
  have e3 : ix o.bollingerLband i = ix (rollMean w w close) i -. .fin d *. ix (rollStd w w close) i := by
    rw [← e, ← ix_ssub (by simpa using hi), ho]; rfl
  have e4 : ix o.bollingerHbandIndicator i = if ix o.bollingerHband i <. ix close i then lit 1 else lit 0 := by
    have := ix_zip2 (f := fun x y => if x >. y then (lit 1 : Val ℝ) else lit 0) (b := o.bollingerHband) hi
    rw [← this, ho]; rfl
  have e5 : ix o.bollingerLbandIndicator i = if ix close i <. ix o.bollingerLband i then lit 1 else lit 0 := by
    have := ix_zip2 (f := fun x y => if x <. y then (lit 1 : Val ℝ) else lit 0) (b := o.bollingerLband) hi
    rw [← this, ho]; rfl
  clear ho e
  generalize ix o.bollingerHbandIndicator i = u at e4 ⊢
  generalize ix o.bollingerLbandIndicator i = v at e5 ⊢
  subst e4 e5
  generalize ix o.bollingerHband i = a at e2 ⊢
  generalize ix o.bollingerLband i = b at e3 ⊢
  subst e2 e3
  rw [e1]
  rcases hm with ⟨h1, h2⟩ | ⟨m, s, h0, h1, h2⟩
  · simp only [h1, h2]
    simp [lit_fin]
  · simp only [h1, h2, fin_mul, fin_add, fin_sub]
    have := mul_nonneg hd h0
    refine ⟨.inr ⟨m, s, h0, rfl, rfl, rfl, by linarith, by linarith⟩, ?_, ?_, ?_⟩
    · simp [lit_fin]
    · simp [lit_fin]
    · cases ix close i with
      | nan => simp [lit_fin]
      | pinf => simp [lit_fin]
      | ninf => simp [lit_fin]
      | fin x =>
        simp only [lit_fin]
        by_cases h3 : m + d * s < x
        · have h4 : ¬ x < m - d * s := by linarith
          simp [h4]
        · simp [h3]

/-- closes 1, 3: mean 2, standard deviation 1, bands 0 and 4 -/
example : ix (BB.new (ser 2 (fun i => 1 + 2 * (i : ℝ))) 2 (.fin 2)).bollingerMavg 1 = .fin 2 ∧
    ix (BB.new (ser 2 (fun i => 1 + 2 * (i : ℝ))) 2 (.fin 2)).bollingerHband 1 = .fin 4 ∧
    ix (BB.new (ser 2 (fun i => 1 + 2 * (i : ℝ))) 2 (.fin 2)).bollingerLband 1 = .fin 0 ∧
    ix (BB.new (ser 2 (fun i => 1 + 2 * (i : ℝ))) 2 (.fin 2)).bollingerMavg 0 = .nan := by
  have H := bollinger_formula (n := 2) (fun i => 1 + 2 * (i : ℝ)) (w := 2) (by norm_num) 2 false
  have hm : wmean (fun i => 1 + 2 * (i : ℝ)) 2 1 = 2 := by
    unfold wmean; simp [Finset.sum_range_succ]; norm_num
  have hs : wstd (fun i => 1 + 2 * (i : ℝ)) 2 1 = 1 := by
    unfold wstd; rw [hm]; simp [Finset.sum_range_succ]; norm_num
  rw [H.mavg.val 1 (by norm_num) (by norm_num), H.hband.val 1 (by norm_num) (by norm_num),
    H.lband.val 1 (by norm_num) (by norm_num), H.mavg.gap 0 (by norm_num) (by norm_num), hm, hs]
  norm_num

/-! ## C33: Ulcer index -/

/-- drawdown in percent: how far the close of row `j` is below the highest close of the last `w` rows -/
noncomputable def drawdownPct (c : Nat → ℝ) (w j : Nat) : ℝ := 100 * (c j - wmax c w j) / wmax c w j

theorem def_drawdown {n : Nat} {c : Nat → ℝ} (hc : ∀ i, 0 < c i) {w : Nat} (hw : 1 ≤ w) :
    Def (Ulcer.drawdown (ser n c) w) n 0 (drawdownPct c w) := by
  have hM : Def (rollMax w 1 (ser n c)) n 0 (wmax c w) := by
    have := (def_ser n c).rollMax' hw hw
    refine this.congr fun i _ _ => ?_
    unfold wmax winIx
    rw [show i + 1 - min w (i + 1 - 0) = i + 1 - w by omega]
  have hpos : ∀ i, wmax c w i ≠ 0 := fun i =>
    ((hc i).trans_le ((wmax_spec c hw).2 i (le_refl _) (by omega))).ne'
  unfold Ulcer.drawdown
  dsimp only
  rw [lit_fin]
  push_cast
  exact (((def_ser n c).ssub hM).cmul 100).sdiv hM (fun i _ _ _ => hpos i)

/-- C33. For positive gap-free closes the Ulcer index is the root of the mean of the squared percentage drawdowns of the
last `w` rows, each measured from the highest close of its own last `w` rows; defined from row `w - 1` on. -/
theorem ulcer_formula {n : Nat} {c : Nat → ℝ} (hc : ∀ i, 0 < c i) {w : Nat} (hw : 1 ≤ w) {out : Series (Val ℝ)}
    (ho : ulcerIndex (ser n c) w = .ok out) :
    Def out n (w - 1) (fun i => Real.sqrt ((∑ j ∈ Ico (i + 1 - w) (i + 1), drawdownPct c w j ^ 2) / w)) := by
  unfold ulcerIndex chkRoll at ho
  rw [if_neg (by omega)] at ho
  have e : out = rollApply (Ulcer.fn w) w w (Ulcer.drawdown (ser n c) w) := (Except.ok.inj ho).symm
  subst e
  have := (def_drawdown (n := n) hc hw).rollApply (w := w) (.inl hw) (g := Ulcer.fn w)
    (e := fun i => Real.sqrt ((∑ j ∈ Ico (i + 1 - w) (i + 1), drawdownPct c w j ^ 2) / w)) ?_
  · simpa using this
  · intro i _ _
    unfold Ulcer.fn
    have hw0 : (w : ℝ) ≠ 0 := by positivity
    have e1 : (((winIx w i).map (drawdownPct c w)).map Val.fin).map (fun v => (v *. v) /. natF w)
        = ((winIx w i).map (fun j => drawdownPct c w j ^ 2 / w)).map Val.fin := by
      rw [List.map_map, List.map_map, List.map_map]
      refine List.map_congr_left fun x _ => ?_
      simp only [Function.comp, natF_fin, fin_mul]
      rw [fin_div _ _ hw0, pow_two]
    have e2 : ∑ j ∈ Ico (i + 1 - w) (i + 1), drawdownPct c w j ^ 2 / w
        = (∑ j ∈ Ico (i + 1 - w) (i + 1), drawdownPct c w j ^ 2) / w := by rw [Finset.sum_div]
    rw [e1, sumL_fin, sum_winIx]
    unfold wsum
    rw [e2]
    exact sqrt_fin (div_nonneg (Finset.sum_nonneg fun j _ => sq_nonneg _) (Nat.cast_nonneg _))

/-- C33. With `fillna=True` the rows before a full window are 0 (no shorter windows are used); the others are the same. -/
theorem ulcer_fill_formula {n : Nat} {c : Nat → ℝ} (hc : ∀ i, 0 < c i) {w : Nat} (hw : 1 ≤ w) {out : Series (Val ℝ)}
    (ho : ulcerIndex (ser n c) w true = .ok out) :
    Def out n 0 (fun i => if i < w - 1 then 0 else Real.sqrt ((∑ j ∈ Ico (i + 1 - w) (i + 1), drawdownPct c w j ^ 2) / w)) := by
  have h0 : ulcerIndex (ser n c) w = .ok (rollApply (Ulcer.fn w) w w (Ulcer.drawdown (ser n c) w)) := by
    unfold ulcerIndex chkRoll
    rw [if_neg (by omega)]
    rfl
  have := (ulcer_formula hc hw h0).fillConst 0
  unfold ulcerIndex chkRoll at ho
  rw [if_neg (by omega)] at ho
  rw [← Rat.cast_zero, ← lit_fin] at this
  rw [← Except.ok.inj ho]
  simpa using this

/-- C33. It is between 0 and 100. -/
theorem ulcer_range {n : Nat} {c : Nat → ℝ} (hc : ∀ i, 0 < c i) {w : Nat} (hw : 1 ≤ w) {out : Series (Val ℝ)}
    (ho : ulcerIndex (ser n c) w = .ok out) {i : Nat} (hi : i < n) (hwi : w - 1 ≤ i) :
    ∃ x, ix out i = .fin x ∧ 0 ≤ x ∧ x ≤ 100 := by
  refine ⟨_, (ulcer_formula hc hw ho).val i hi hwi, Real.sqrt_nonneg _, ?_⟩
  rw [Real.sqrt_le_left (by norm_num)]
  have hp : (0 : ℝ) < w := by positivity
  rw [div_le_iff₀ hp]
  have hb : ∀ j ∈ Ico (i + 1 - w) (i + 1), drawdownPct c w j ^ 2 ≤ 100 ^ 2 := by
    intro j _
    have h1 := (wmax_spec c hw).2 j (le_refl _) (by omega)
    have h2 := hc j
    have h3 : 0 < wmax c w j := by linarith
    have h4 : -100 ≤ drawdownPct c w j := by
      unfold drawdownPct; rw [le_div_iff₀ h3]; linarith
    have h5 : drawdownPct c w j ≤ 0 := by
      unfold drawdownPct; exact div_nonpos_of_nonpos_of_nonneg (by linarith) h3.le
    nlinarith
  have := Finset.sum_le_card_nsmul _ _ _ hb
  rw [Nat.card_Ico, nsmul_eq_mul] at this
  refine this.trans ?_
  rw [mul_comm]
  refine mul_le_mul_of_nonneg_left ?_ (by norm_num)
  exact_mod_cast (by omega : i + 1 - (i + 1 - w) ≤ w)

/-- C33. It is 0 exactly when no close of the window is below the highest close of its own last `w` rows. -/
theorem ulcer_zero_iff {n : Nat} {c : Nat → ℝ} (hc : ∀ i, 0 < c i) {w : Nat} (hw : 1 ≤ w) {out : Series (Val ℝ)}
    (ho : ulcerIndex (ser n c) w = .ok out) {i : Nat} (hi : i < n) (hwi : w - 1 ≤ i) :
    ix out i = .fin 0 ↔ ∀ j, j ≤ i → i < j + w → ∀ k, k ≤ j → j < k + w → c k ≤ c j := by
  rw [(ulcer_formula hc hw ho).val i hi hwi]
  have hp : (0 : ℝ) < w := by positivity
  have hz : ∀ j, drawdownPct c w j = 0 ↔ ∀ k, k ≤ j → j < k + w → c k ≤ c j := by
    intro j
    have h1 := (wmax_spec c hw).2 j (le_refl _) (by omega)
    have h3 : wmax c w j ≠ 0 := (by linarith [hc j] : 0 < wmax c w j).ne'
    have e : drawdownPct c w j = 0 ↔ c j = wmax c w j := by
      unfold drawdownPct
      rw [div_eq_zero_iff]
      constructor
      · rintro (h | h)
        · linarith
        · exact absurd h h3
      · intro h; left; rw [← h]; ring
    rw [e]
    constructor
    · intro h k h4 h5
      rw [h]; exact (wmax_spec c hw).2 k h4 h5
    · intro h
      obtain ⟨k, h4, h5, h6⟩ := (wmax_spec c (i := j) hw).1
      exact le_antisymm h1 (h6 ▸ h k h4 h5)
  have hs : (0 : ℝ) ≤ (∑ j ∈ Ico (i + 1 - w) (i + 1), drawdownPct c w j ^ 2) / w :=
    div_nonneg (Finset.sum_nonneg fun j _ => sq_nonneg _) hp.le
  constructor
  · intro h j h1 h2
    rw [← hz]
    have h3 := Val.fin.inj h
    rw [Real.sqrt_eq_zero hs, div_eq_zero_iff] at h3
    rcases h3 with h3 | h3
    · rw [Finset.sum_eq_zero_iff_of_nonneg fun j _ => sq_nonneg _] at h3
      exact pow_eq_zero_iff (two_ne_zero) |>.mp (h3 j (Finset.mem_Ico.mpr ⟨by omega, by omega⟩))
    · exact absurd h3 hp.ne'
  · intro h
    have : ∑ j ∈ Ico (i + 1 - w) (i + 1), drawdownPct c w j ^ 2 = 0 := by
      refine Finset.sum_eq_zero fun j hj => ?_
      rw [Finset.mem_Ico] at hj
      rw [(hz j).mpr (h j (by omega) (by omega))]; norm_num
    rw [this]; simp

/-- closes 2, 1: drawdowns 0 and -50, so the index is `√1250` -/
example : (ulcerIndex (ser 2 (fun i => if i = 0 then (2 : ℝ) else 1)) 2).map (fun o => (ix o 0, ix o 1))
    = .ok (.nan, .fin (Real.sqrt 1250)) := by
  have hc : ∀ i, 0 < (fun i => if i = 0 then (2 : ℝ) else 1) i := fun i => by dsimp only; split_ifs <;> norm_num
  have ho : ulcerIndex (ser 2 (fun i => if i = 0 then (2 : ℝ) else 1)) 2 = .ok _ := rfl
  have H := ulcer_formula hc (w := 2) (by norm_num) ho
  rw [ho]
  have e0 : wmax (fun i => if i = 0 then (2 : ℝ) else 1) 2 0 = 2 := by
    obtain ⟨j, h1, h2, h3⟩ := (wmax_spec (fun i => if i = 0 then (2 : ℝ) else 1) (w := 2) (i := 0) (by norm_num)).1
    obtain rfl : j = 0 := by omega
    rw [h3]; rfl
  have e1 : wmax (fun i => if i = 0 then (2 : ℝ) else 1) 2 1 = 2 := by
    have := (wmax_spec (fun i => if i = 0 then (2 : ℝ) else 1) (w := 2) (i := 1) (by norm_num))
    obtain ⟨⟨j, h1, h2, h3⟩, h4⟩ := this
    have h5 := h4 0 (by omega) (by omega)
    refine le_antisymm ?_ (by simpa using h5)
    rw [h3]; split_ifs <;> norm_num
  have h0 := H.gap 0 (by norm_num) (by norm_num)
  have h1 := H.val 1 (by norm_num) (by norm_num)
  show Except.ok (_, _) = _
  rw [h0, h1]
  congr 4
  simp [Finset.sum_range_succ, drawdownPct, e0, e1]
  norm_num

end TA
