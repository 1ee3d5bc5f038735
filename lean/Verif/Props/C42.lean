import Verif.Props.C40
import Verif.Lemmas.RelReal

/-! # C42-C44: Ichimoku, returns, rate of change -/

set_option linter.unusedSectionVars false

namespace TA
open Finset
variable {K : Type} [Field K] [LinearOrder K] [IsStrictOrderedRing K]

theorem winIx_min (w i : Nat) : winIx (min w (i + 1)) i = winIx w i := by
  unfold winIx
  have e : i + 1 - min w (i + 1) = i + 1 - w := by omega
  rw [e]

theorem Def.rollMaxP {s : Series (Val K)} {n : Nat} {f : Nat → K} (h : Def s n 0 f) {w mp : Nat} (hw : 1 ≤ w)
    (hm : mp ≤ w) : Def (TA.rollMax w mp s) n (mp - 1) (wmax f w) := by
  have := h.rollMax' hw hm
  rw [show 0 + max mp 1 - 1 = mp - 1 by omega] at this
  exact this.congr fun i _ _ => by unfold wmax; rw [Nat.sub_zero, winIx_min]

theorem Def.rollMinP {s : Series (Val K)} {n : Nat} {f : Nat → K} (h : Def s n 0 f) {w mp : Nat} (hw : 1 ≤ w)
    (hm : mp ≤ w) : Def (TA.rollMin w mp s) n (mp - 1) (wmin f w) := by
  have := h.rollMin' hw hm
  rw [show 0 + max mp 1 - 1 = mp - 1 by omega] at this
  exact this.congr fun i _ _ => by unfold wmin; rw [Nat.sub_zero, winIx_min]

theorem minp_le (b : Bool) (w : Nat) : minp b w ≤ w := by cases b <;> simp [minp]
theorem minp_sub (b : Bool) (w : Nat) : minp b w - 1 = if b then 0 else w - 1 := by cases b <;> simp [minp]

/-! ## C42 -/

/-- `M` is the middle, on every row, between the highest high and the lowest low of the last `w` rows. -/
def IsMid (h l : Nat → K) (w : Nat) (M : Nat → K) : Prop :=
  ∀ i, ∃ a b, IsGreatest {x | ∃ j, j ≤ i ∧ i < j + w ∧ x = h j} a ∧ IsLeast {x | ∃ j, j ≤ i ∧ i < j + w ∧ x = l j} b ∧
    M i = (a + b) / 2

theorem isMid_wmax (h l : Nat → K) {w : Nat} (hw : 1 ≤ w) : IsMid h l w (fun i => (wmax h w i + wmin l w i) / 2) := by
  intro i
  obtain ⟨⟨j, h1, h2, h3⟩, h4⟩ := wmax_spec h (w := w) (i := i) hw
  obtain ⟨⟨k, g1, g2, g3⟩, g4⟩ := wmin_spec l (w := w) (i := i) hw
  refine ⟨_, _, ⟨⟨j, h1, h2, h3⟩, ?_⟩, ⟨⟨k, g1, g2, g3⟩, ?_⟩, rfl⟩
  · rintro x ⟨m, m1, m2, rfl⟩; exact h4 m m1 m2
  · rintro x ⟨m, m1, m2, rfl⟩; exact g4 m m1 m2

theorem def_mid (n : Nat) (h l : Nat → K) {w mp : Nat} (hw : 1 ≤ w) (hm : mp ≤ w) :
    Def (Ichimoku.mid (ser n h) (ser n l) w mp) n (mp - 1) (fun i => (wmax h w i + wmin l w i) / 2) := by
  have := (((def_ser n h).rollMaxP hw hm).sadd ((def_ser n l).rollMinP hw hm)).cmul (1 / 2)
  rw [max_self] at this
  unfold Ichimoku.mid
  rw [lit_fin]
  push_cast
  exact this.congr fun i _ _ => by ring

/-- C42. The conversion line (window `w1`), the base line (`w2`) and span B (`w3`) are the middle of the highest high and
the lowest low of their window, span A is the mean of the first two. Without filling the first two start at row `w - 1`,
span A at the later of the two, span B at row 0. -/
theorem ichimoku_formula (n : Nat) (h l : Nat → K) {w1 w2 w3 : Nat} (h1 : 1 ≤ w1) (h2 : 1 ≤ w2) (h3 : 1 ≤ w3)
    (fillna : Bool) :
    ∃ C B S : Nat → K, IsMid h l w1 C ∧ IsMid h l w2 B ∧ IsMid h l w3 S ∧
      Def (ichimokuConversionLine (ser n h) (ser n l) w1 fillna) n (if fillna then 0 else w1 - 1) C ∧
      Def (ichimokuBaseLine (ser n h) (ser n l) w2 fillna) n (if fillna then 0 else w2 - 1) B ∧
      Def (ichimokuA (ser n h) (ser n l) w1 w2 false fillna) n (if fillna then 0 else max w1 w2 - 1)
        (fun i => (C i + B i) / 2) ∧
      Def (ichimokuB (ser n h) (ser n l) w2 w3 false fillna) n 0 S := by
  refine ⟨_, _, _, isMid_wmax h l h1, isMid_wmax h l h2, isMid_wmax h l h3, ?_, ?_, ?_, ?_⟩
  · have := def_mid n h l h1 (minp_le fillna w1)
    rw [minp_sub] at this
    exact this.fillOr (by rintro rfl; rfl) _
  · have := def_mid n h l h2 (minp_le fillna w2)
    rw [minp_sub] at this
    exact this.fillOr (by rintro rfl; rfl) _
  · have a := def_mid n h l h1 (minp_le fillna w1)
    have b := def_mid n h l h2 (minp_le fillna w2)
    have := (a.sadd b).cmul (1 / 2)
    rw [minp_sub, minp_sub, show max (if fillna then 0 else w1 - 1) (if fillna then 0 else w2 - 1)
      = if fillna then 0 else max w1 w2 - 1 by cases fillna <;> simp; omega] at this
    unfold ichimokuA Ichimoku.vis Ichimoku.spanA
    rw [lit_fin]
    push_cast
    refine Def.fillOr (p := if fillna then 0 else max w1 w2 - 1) (this.congr fun i _ _ => ?_) (by rintro rfl; rfl) _
    ring
  · exact (def_mid n h l h3 (Nat.zero_le _)).fill _ _

/-- C42. Every one of the four lines lies between the lowest low and the highest high of its window (of the longer window
for span A), whenever `low ≤ high`; stated for any bounds of the bars in the window. -/
theorem ichimoku_within (n : Nat) {h l : Nat → K} (hlh : ∀ i, l i ≤ h i) {w1 w2 w3 : Nat} (h1 : 1 ≤ w1) (h2 : 1 ≤ w2)
    (h3 : 1 ≤ w3) (fillna : Bool) {i : Nat} (hi : i < n) {lo hi' : K} :
    (∀ x, (∀ j, j ≤ i → i < j + w1 → lo ≤ l j ∧ h j ≤ hi') →
      ix (ichimokuConversionLine (ser n h) (ser n l) w1 fillna) i = .fin x → lo ≤ x ∧ x ≤ hi') ∧
    (∀ x, (∀ j, j ≤ i → i < j + w2 → lo ≤ l j ∧ h j ≤ hi') →
      ix (ichimokuBaseLine (ser n h) (ser n l) w2 fillna) i = .fin x → lo ≤ x ∧ x ≤ hi') ∧
    (∀ x, (∀ j, j ≤ i → i < j + max w1 w2 → lo ≤ l j ∧ h j ≤ hi') →
      ix (ichimokuA (ser n h) (ser n l) w1 w2 false fillna) i = .fin x → lo ≤ x ∧ x ≤ hi') ∧
    (∀ x, (∀ j, j ≤ i → i < j + w3 → lo ≤ l j ∧ h j ≤ hi') →
      ix (ichimokuB (ser n h) (ser n l) w2 w3 false fillna) i = .fin x → lo ≤ x ∧ x ≤ hi') := by
  obtain ⟨C, B, S, hC, hB, hS, dC, dB, dA, dS⟩ := ichimoku_formula n h l h1 h2 h3 fillna
  have key : ∀ {w : Nat} {M : Nat → K}, IsMid h l w M → (∀ j, j ≤ i → i < j + w → lo ≤ l j ∧ h j ≤ hi') →
      lo ≤ M i ∧ M i ≤ hi' := by
    intro w M hM hb
    obtain ⟨a, b, ⟨⟨j, j1, j2, rfl⟩, _⟩, ⟨⟨k, k1, k2, rfl⟩, _⟩, e⟩ := hM i
    obtain ⟨p1, p2⟩ := hb j j1 j2
    obtain ⟨q1, q2⟩ := hb k k1 k2
    have := hlh j
    have := hlh k
    rw [e]
    constructor <;> linarith
  have get : ∀ {s : Series (Val K)} {p : Nat} {f : Nat → K} {x : K}, Def s n p f → ix s i = .fin x → x = f i := by
    intro s p f x hd hx
    rw [hd.ix_eq hi] at hx
    split_ifs at hx
    exact (Val.fin.inj hx).symm
  refine ⟨fun x hb hx => ?_, fun x hb hx => ?_, fun x hb hx => ?_, fun x hb hx => ?_⟩
  · rw [get dC hx]; exact key hC hb
  · rw [get dB hx]; exact key hB hb
  · rw [get dA hx]
    have e1 := key hC fun j j1 j2 => hb j j1 (by omega)
    have e2 := key hB fun j j1 j2 => hb j j1 (by omega)
    constructor <;> linarith [e1.1, e1.2, e2.1, e2.2]
  · rw [get dS hx]; exact key hS hb

/-- C42. `visual=True` moves the two spans `w2` rows down and puts the mean of their defined rows in the first `w2`. -/
theorem ichimoku_visual_shift {F : Type} [Flt F] (h l : Series F) (w1 w2 w3 : Nat) (i : Nat) (hi : i < h.length) :
    ix (ichimokuA h l w1 w2 true) i = (if i < w2 then smean (ichimokuA h l w1 w2) else ix (ichimokuA h l w1 w2) (i - w2)) ∧
    ix (ichimokuB h l w2 w3 true) i = (if i < w2 then smean (ichimokuB h l w2 w3) else ix (ichimokuB h l w2 w3) (i - w2)) := by
  have e1 : (ichimokuA h l w1 w2).length = h.length := by simp [ichimokuA, Ichimoku.vis, Ichimoku.spanA, Ichimoku.mid]
  have e2 : (ichimokuB h l w2 w3).length = h.length := by simp [ichimokuB, Ichimoku.vis, Ichimoku.mid]
  constructor
  · show ix (shift (ichimokuA h l w1 w2) w2 (smean (ichimokuA h l w1 w2))) i = _
    rw [ix_shift (by rw [e1]; exact hi)]
  · show ix (shift (ichimokuB h l w2 w3) w2 (smean (ichimokuB h l w2 w3))) i = _
    rw [ix_shift (by rw [e2]; exact hi)]

example : ichimokuConversionLine (qs [4, 5, 6]) (qs [1, 3, 2]) 2 = [.nan, .fin 3, .fin 4] ∧
    ichimokuA (qs [4, 5, 6]) (qs [1, 3, 2]) 1 2 = [.nan, .fin (7 / 2), .fin 4] ∧
    ichimokuB (qs [4, 5, 6]) (qs [1, 3, 2]) 2 3 = [.fin (5 / 2), .fin 3, .fin (7 / 2)] ∧
    ichimokuB (qs [4, 5, 6]) (qs [1, 3, 2]) 2 3 true = [.fin 3, .fin 3, .fin (5 / 2)] := by decide +kernel

/-! ## C44: rate of change -/

/-- C44. `100 * (close / close w rows before - 1)`; NaN (0 with filling) on the first `w` rows. -/
theorem roc_formula (n : Nat) {c : Nat → K} (hc : ∀ i, c i ≠ 0) (w : Nat) :
    Def (roc (ser n c) w false) n w (fun i => 100 * (c i / c (i - w) - 1)) ∧
    Def (roc (ser n c) w true) n 0 (fun i => if i < w then 0 else 100 * (c i / c (i - w) - 1)) := by
  have hs : Def (shift (ser n c) w) n w (fun i => c (i - w)) := by simpa using (def_ser n c).shift w
  have hr := (((def_ser n c).ssub hs).sdiv hs (fun i _ _ _ => hc (i - w))).mulc 100
  rw [Nat.zero_max, max_self] at hr
  have hr' : Def (ROC.run (ser n c) w) n w (fun i => 100 * (c i / c (i - w) - 1)) := by
    unfold ROC.run
    rw [lit_fin]
    push_cast
    refine hr.congr fun i _ _ => ?_
    have := hc (i - w)
    field_simp
  refine ⟨hr', ?_⟩
  have := hr'.fillConst 0
  unfold roc
  rw [lit_fin]
  push_cast
  exact this

/-- C44. ROC with window 1 is the daily return, on any data without infinities (gaps allowed). -/
theorem roc_one_eq_daily (s : Series (Val K)) (hs : ∀ v ∈ s, v ≠ .pinf ∧ v ≠ .ninf) (fillna : Bool) :
    roc s 1 fillna = dailyReturn s fillna := by
  have key : ROC.run s 1 = DR.run s := by
    apply series_ext
    · simp [ROC.run, DR.run]
    · intro i hi
      have hi' : i < s.length := by simpa [ROC.run] using hi
      unfold ROC.run DR.run
      rw [ix_mulc (by simpa using hi'), ix_sdiv (by simpa using hi'), ix_ssub hi', ix_mulc (by simpa using hi'),
        ix_subc (by simpa using hi'), ix_sdiv hi', ix_prev hi']
      have ht : ∀ j, j < s.length → ix s j = .nan ∨ ∃ x, ix s j = .fin x := by
        intro j hj
        have hm : ix s j ∈ s := by rw [ix_lt hj]; exact List.getElem_mem hj
        have := hs _ hm
        cases e : ix s j with
        | nan => exact .inl rfl
        | fin x => exact .inr ⟨x, rfl⟩
        | pinf => exact absurd e this.1
        | ninf => exact absurd e this.2
      split_ifs with h0
      · simp
      · rcases ht i hi' with e1 | ⟨x, e1⟩
        · rw [e1]; simp
        rcases ht (i - 1) (by omega) with e2 | ⟨y, e2⟩
        · rw [e2]; simp
        rw [e1, e2, lit_fin, lit_fin]
        congr 1
        by_cases hy : y = 0
        · subst hy
          rw [fin_sub, sub_zero, fin_div_zero]
          split_ifs <;> simp [Flt.sub, Val.sub, Val.add, Val.neg]
        · rw [fin_sub, fin_div _ _ hy, fin_div _ _ hy, fin_sub]
          congr 1
          push_cast
          field_simp
  unfold roc dailyReturn
  rw [key]

example : roc (qs [2, 4, 3]) 1 = [.nan, .fin 100, .fin (-25)] ∧ dailyReturn (qs [2, 4, 3]) = [.nan, .fin 100, .fin (-25)] := by
  decide +kernel
/-- with an infinite close the two differ -/
example : roc ([.pinf, .fin 1] : Series (Val ℚ)) 1 ≠ dailyReturn [.pinf, .fin 1] := by decide +kernel

/-! ## C43: returns -/

/-- C43. The three returns of a positive close series of `n` rows: daily return `100 * (c i / c (i-1) - 1)` from row 1 on
(row 0 NaN, or 0 with filling), cumulative return `100 * (c i / c 0 - 1)`; they compound. -/
theorem returns_compound {n : Nat} (hn : 0 < n) {c : Nat → K} (hc : ∀ i, 0 < c i) (fillna : Bool) :
    ∃ (D C : Nat → K) (out : Series (Val K)),
      (∀ i, D (i + 1) = 100 * (c (i + 1) / c i - 1)) ∧ D 0 = 0 ∧ (∀ i, C i = 100 * (c i / c 0 - 1)) ∧
      Def (dailyReturn (ser n c) fillna) n (if fillna then 0 else 1) D ∧
      cumulativeReturn (ser n c) fillna = .ok out ∧ Def out n 0 C ∧
      ∀ i, 1 + C i / 100 = ∏ j ∈ range i, (1 + D (j + 1) / 100) := by
  have hne : ∀ i, c i ≠ 0 := fun i => (hc i).ne'
  refine ⟨fun i => if i < 1 then 0 else 100 * (c i / c (i - 1) - 1), fun i => 100 * (c i / c 0 - 1),
    checkFillna fillna .back (CR.run (ser n c)), fun i => ?_, rfl, fun i => rfl, ?_, ?_, ?_, fun i => ?_⟩
  · simp
  · have hs : ∀ v ∈ ser n c, v ≠ (.pinf : Val K) ∧ v ≠ .ninf := by
      intro v hv
      unfold ser tab at hv
      obtain ⟨j, _, rfl⟩ := List.mem_map.mp hv
      simp
    rw [← roc_one_eq_daily _ hs]
    cases fillna with
    | true => exact (roc_formula n hne 1).2
    | false => exact (roc_formula n hne 1).1.congr fun i _ hi => by rw [if_neg (by omega)]
  · unfold cumulativeReturn
    rw [if_neg (by simp [ser]; omega)]
  · refine Def.fill ?_ _ _
    have e0 : ix (ser n c) 0 = .fin (c 0) := (def_ser n c).val 0 hn (le_refl _)
    have := (((def_ser n c).divc (hne 0)).subc 1).mulc 100
    unfold CR.run
    rw [e0, lit_fin, lit_fin]
    push_cast
    exact this.congr fun i _ _ => by ring
  · induction i with
    | zero => simp [hne 0]
    | succ i ih =>
      rw [Finset.prod_range_succ, ← ih]
      have h1 := hne i
      have h2 := hne 0
      simp only [Nat.add_sub_cancel, if_neg (show ¬ i + 1 < 1 by omega)]
      field_simp
      ring

theorem log_fin {x : ℝ} (hx : 0 < x) : FltFn.log (.fin x : Val ℝ) = .fin (Real.log x) := by
  show Val.log (.fin x) = _
  rw [Val.log, if_neg hx.ne', if_neg (by linarith)]

/-- C43. Daily log returns are `100 * (log c i - log c (i-1))`; they add up to `100 * log (c i / c 0)`, which is
`100 * log (1 + cumulative return / 100)`. -/
theorem log_returns_sum {n : Nat} {c : Nat → ℝ} (hc : ∀ i, 0 < c i) (fillna : Bool) :
    ∃ G : Nat → ℝ, (∀ i, G (i + 1) = 100 * (Real.log (c (i + 1)) - Real.log (c i))) ∧ G 0 = 0 ∧
      Def (dailyLogReturn (ser n c) fillna) n (if fillna then 0 else 1) G ∧
      (∀ i, ∑ j ∈ range i, G (j + 1) = 100 * Real.log (c i / c 0)) ∧
      ∀ out, cumulativeReturn (ser n c) fillna = .ok out → ∀ i, i < n → ∃ C, ix out i = .fin C ∧
        ∑ j ∈ range i, G (j + 1) = 100 * Real.log (1 + C / 100) := by
  have hsum : ∀ i, ∑ j ∈ range i, 100 * (Real.log (c (j + 1)) - Real.log (c j)) = 100 * Real.log (c i / c 0) := by
    intro i
    rw [← Finset.mul_sum, Finset.sum_range_sub (fun j => Real.log (c j)), Real.log_div (hc i).ne' (hc 0).ne']
  have hl : (ser n c).map FltFn.log = ser n fun i => Real.log (c i) := by
    unfold ser tab
    rw [List.map_map]
    exact List.map_congr_left fun i _ => log_fin (hc i)
  have hr : Def (DLR.run (ser n c)) n 1 (fun i => 100 * (Real.log (c i) - Real.log (c (i - 1)))) := by
    unfold DLR.run
    rw [hl, lit_fin]
    push_cast
    exact ((def_sdiff n fun i => Real.log (c i)).mulc 100).congr fun i _ _ => by ring
  refine ⟨fun i => if i < 1 then 0 else 100 * (Real.log (c i) - Real.log (c (i - 1))), fun i => by simp, rfl, ?_, ?_,
    fun out ho i hi => ?_⟩
  · unfold dailyLogReturn
    cases fillna with
    | true =>
      have := hr.fillConst 0
      rw [lit_fin]
      push_cast
      exact this
    | false => exact hr.congr fun i _ hi => by rw [if_neg (by omega)]
  · intro i; simpa using hsum i
  · obtain ⟨D, C, out', _, _, hC, _, ho', hd, _⟩ := returns_compound (by omega : 0 < n) hc fillna
    rw [ho] at ho'
    cases Except.ok.inj ho'
    refine ⟨C i, hd.val i hi (Nat.zero_le _), ?_⟩
    rw [hC]
    have : 1 + 100 * (c i / c 0 - 1) / 100 = c i / c 0 := by ring
    rw [this]
    simpa using hsum i

example : cumulativeReturn (qs [2, 4, 3]) = .ok [.fin 0, .fin 100, .fin 50] := by decide +kernel
example : ix (dailyLogReturn (ser 2 fun i => if i = 0 then 1 else 2)) 1 = (.fin (100 * Real.log 2) : Val ℝ) := by
  obtain ⟨G, h1, _, h2, _⟩ := log_returns_sum (n := 2) (c := fun i => if i = 0 then 1 else 2)
    (fun i => by split_ifs <;> norm_num) false
  rw [h2.val 1 (by norm_num) (le_refl _), h1]
  norm_num

end TA
