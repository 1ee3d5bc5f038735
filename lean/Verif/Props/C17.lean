import Verif.Props.C13

/-! # C17: the relative strength index -/

set_option linter.unusedSectionVars false

namespace TA
open Finset
variable {K : Type} [Field K] [LinearOrder K] [IsStrictOrderedRing K]

theorem FinOr.elim {P : K → Prop} {v : Val K} (h : FinOr P v) {x : K} (hx : v = .fin x) : P x := by
  rcases h with h | ⟨y, h, h2⟩
  · rw [h] at hx; cases hx
  · rw [h] at hx; cases hx; exact h2

theorem rsi_up_nonneg (s : Series (Val K)) (i : Nat) (x : K) (h : ix (RSI.up s) i = .fin x) : 0 ≤ x := by
  by_cases hi : i < s.length
  · unfold RSI.up at h
    rw [ix_map (by simpa [sdiff] using hi)] at h
    cases e : ix (sdiff s) i with
    | fin y =>
      rw [e] at h
      simp only [lit_fin, Rat.cast_zero, fin_lt, decide_eq_true_eq] at h
      split_ifs at h with h1
      · cases h; exact h1.le
      · cases h; exact le_refl _
    | nan => rw [e] at h; simp at h; exact h.le
    | pinf => rw [e] at h; simp at h
    | ninf => rw [e] at h; simp at h; exact h.le
  · rw [ix_ge (by simpa [RSI.up, sdiff] using hi)] at h; cases h

theorem rsi_down_nonneg (s : Series (Val K)) (i : Nat) (x : K) (h : ix (RSI.down s) i = .fin x) : 0 ≤ x := by
  by_cases hi : i < s.length
  · unfold RSI.down at h
    rw [ix_map (by simpa [sdiff] using hi)] at h
    cases e : ix (sdiff s) i with
    | fin y =>
      rw [e] at h
      simp only [lit_fin, Rat.cast_zero, fin_lt, decide_eq_true_eq] at h
      split_ifs at h with h1
      · simp at h; linarith
      · simp at h; linarith
    | nan => rw [e] at h; simp at h; exact h.le
    | pinf => rw [e] at h; simp at h; exact h.le
    | ninf => rw [e] at h; simp at h
  · rw [ix_ge (by simpa [RSI.down, sdiff] using hi)] at h; cases h

theorem rs_mem {u d : K} (hu : 0 ≤ u) (hd : 0 ≤ d) (h0 : d ≠ 0) :
    100 - 100 / (1 + u / d) = 100 * u / (u + d) ∧ 0 ≤ 100 * u / (u + d) ∧ 100 * u / (u + d) ≤ 100 := by
  have hd' : 0 < d := lt_of_le_of_ne hd (Ne.symm h0)
  have hp : 0 < u + d := by linarith
  refine ⟨?_, by positivity, ?_⟩
  · have : 1 + u / d ≠ 0 := by positivity
    field_simp
    ring
  · rw [div_le_iff₀ hp]; linarith

/-- C17: for any close series (NaN, infinities, any sign), any window ≥ 1 and both values of `fillna`, every row of the
RSI is NaN or a number in [0, 100]; never an infinity. -/
theorem rsi_range (s : Series (Val K)) (w : Nat) (fillna : Bool) (out : Series (Val K))
    (ho : rsi s w fillna = .ok out) : NaNOr (fun x => 0 ≤ x ∧ x ≤ 100) out := by
  unfold rsi at ho
  by_cases hw : w = 0
  · rw [if_pos hw] at ho; cases ho
  · rw [if_neg hw] at ho
    rw [← Except.ok.inj ho]
    have hw1 : 1 ≤ w := by omega
    rw [lit_fin]
    refine NaNOr.fill ?_ (by norm_num) fillna
    intro i hi
    unfold RSI.run at hi ⊢
    have hi' : i < s.length := by simpa [RSI.up, sdiff] using hi
    rw [rsiAlpha_fin w hw1, ix_zip2 (by simpa [RSI.up, sdiff] using hi')]
    have hu := ewm_mem (convex_ge (0 : K)) (wilder_pos w hw1) (wilder_le w hw1)
      (minp fillna w) (s := RSI.up s) (i := i) (by simpa [RSI.up, sdiff] using hi')
      fun j x _ h => rsi_up_nonneg s j x h
    have hd := ewm_mem (convex_ge (0 : K)) (wilder_pos w hw1) (wilder_le w hw1)
      (minp fillna w) (s := RSI.down s) (i := i) (by simpa [RSI.down, sdiff] using hi')
      fun j x _ h => rsi_down_nonneg s j x h
    rcases hd with hd | ⟨d, hd, hd0⟩
    · rw [hd]; left; simp
    · rw [hd]
      simp only [lit_fin, fin_eq, decide_eq_true_eq, Rat.cast_zero, Rat.cast_ofNat, Rat.cast_one]
      split_ifs with h0
      · exact .inr ⟨100, rfl, by norm_num, le_refl _⟩
      · rcases hu with hu | ⟨u, hu, hu0⟩
        · rw [hu]; left; simp
        · obtain ⟨e, m⟩ := rs_mem hu0 hd0 h0
          have h1 : (1 : K) + u / d ≠ 0 := by
            have : 0 ≤ u / d := div_nonneg hu0 hd0
            linarith
          rw [hu, fin_div _ _ h0, fin_add, fin_div _ _ h1, fin_sub, e]
          exact .inr ⟨_, rfl, m⟩

/-- gain from row `i-1` to row `i`; row 0 counts as "no change" -/
def gain (x : Nat → K) : Nat → K
  | 0 => 0
  | i + 1 => max (x (i + 1) - x i) 0
/-- loss from row `i-1` to row `i` -/
def loss (x : Nat → K) : Nat → K
  | 0 => 0
  | i + 1 => max (x i - x (i + 1)) 0

theorem def_sdiff (n : Nat) (x : Nat → K) : Def (sdiff (ser n x)) n 1 (fun i => x i - x (i - 1)) := by
  have := (def_ser n x).ssub ((def_ser n x).shift 1)
  simpa [sdiff] using this

theorem def_up (n : Nat) (x : Nat → K) : Def (RSI.up (ser n x)) n 0 (gain x) := by
  have h := def_sdiff n x
  refine ⟨by simp [RSI.up, h.len], fun i _ h2 => by omega, fun i h1 _ => ?_⟩
  unfold RSI.up
  rw [ix_map (by rw [h.len]; exact h1)]
  cases i with
  | zero => rw [h.gap 0 h1 (by omega)]; simp [gain]
  | succ i =>
    rw [h.val _ h1 (by omega)]
    simp only [lit_fin, Rat.cast_zero, fin_lt, decide_eq_true_eq, Nat.add_sub_cancel, gain]
    split_ifs with h3
    · rw [max_eq_left h3.le]
    · rw [max_eq_right (by linarith)]

theorem def_down (n : Nat) (x : Nat → K) : Def (RSI.down (ser n x)) n 0 (loss x) := by
  have h := def_sdiff n x
  refine ⟨by simp [RSI.down, h.len], fun i _ h2 => by omega, fun i h1 _ => ?_⟩
  unfold RSI.down
  rw [ix_map (by rw [h.len]; exact h1)]
  cases i with
  | zero => rw [h.gap 0 h1 (by omega)]; simp [loss]
  | succ i =>
    rw [h.val _ h1 (by omega)]
    simp only [lit_fin, Rat.cast_zero, fin_lt, decide_eq_true_eq, Nat.add_sub_cancel, loss]
    split_ifs with h3
    · rw [max_eq_left (by linarith)]; simp
    · rw [max_eq_right (by linarith)]; simp

theorem emaRec_nonneg {a : K} (ha : 0 < a) (ha1 : a ≤ 1) {f : Nat → K} (hf : ∀ i, 0 ≤ f i) (i : Nat) :
    0 ≤ emaRec a f i := by
  induction i with
  | zero => exact hf 0
  | succ i ih =>
    rw [emaRec]
    have : 0 ≤ 1 - a := by linarith
    have := hf (i + 1)
    positivity

theorem gain_nonneg (x : Nat → K) (i : Nat) : 0 ≤ gain x i := by
  cases i with
  | zero => exact le_refl _
  | succ i => exact le_max_right _ _

theorem loss_nonneg (x : Nat → K) (i : Nat) : 0 ≤ loss x i := by
  cases i with
  | zero => exact le_refl _
  | succ i => exact le_max_right _ _

/-- the RSI of any series whose gains `g` and losses `d` are known -/
theorem rsi_of_changes {s : Series (Val K)} {n : Nat} {g d : Nat → K} (hg : Def (RSI.up s) n 0 g) (hl : Def (RSI.down s) n 0 d)
    (hg0 : ∀ i, 0 ≤ g i) (hd0 : ∀ i, 0 ≤ d i) (w : Nat) (hw : 1 ≤ w) (fillna : Bool) :
    ∃ out, rsi s w fillna = .ok out ∧ Def out n (if fillna then 0 else w - 1)
      (fun i => if emaRec (1 / (w : K)) d i = 0 then 100 else
        100 * emaRec (1 / (w : K)) g i / (emaRec (1 / (w : K)) g i + emaRec (1 / (w : K)) d i)) := by
  have ha := wilder_pos (K := K) w hw
  have ha1 := wilder_le (K := K) w hw
  have hU := emaRec_nonneg ha ha1 hg0
  have hD := emaRec_nonneg ha ha1 hd0
  have hu := hg.ewm (a := 1 / (w : K)) (minp fillna w)
  have hd := hl.ewm (a := 1 / (w : K)) (minp fillna w)
  have e1 : 0 + max (minp fillna w) 1 - 1 = if fillna then 0 else w - 1 := by
    unfold minp; cases fillna <;> simp <;> omega
  rw [e1] at hu hd
  simp only [Nat.zero_add, Nat.sub_zero] at hu hd
  have hrun : Def (RSI.run s w fillna) n (if fillna then 0 else w - 1) (fun i =>
      if emaRec (1 / (w : K)) d i = 0 then 100 else
      100 * emaRec (1 / (w : K)) g i / (emaRec (1 / (w : K)) g i + emaRec (1 / (w : K)) d i)) := by
    unfold RSI.run
    rw [rsiAlpha_fin w hw]
    refine ⟨by rw [length_zip2, hu.len], fun i h1 h2 => ?_, fun i h1 h2 => ?_⟩
    · rw [ix_zip2 (by rw [hu.len]; exact h1), hu.gap i h1 h2, hd.gap i h1 h2]; simp
    · rw [ix_zip2 (by rw [hu.len]; exact h1), hu.val i h1 h2, hd.val i h1 h2]
      simp only [lit_fin, fin_eq, decide_eq_true_eq, Rat.cast_zero, Rat.cast_ofNat, Rat.cast_one]
      split_ifs with h0
      · rfl
      · have h3 : (1 : K) + emaRec (1 / (w : K)) g i / emaRec (1 / (w : K)) d i ≠ 0 := by
          have : 0 ≤ emaRec (1 / (w : K)) g i / emaRec (1 / (w : K)) d i := div_nonneg (hU i) (hD i)
          linarith
        rw [fin_div _ _ h0, fin_add, fin_div _ _ h3, fin_sub, (rs_mem (hU i) (hD i) h0).1]
  refine ⟨checkFillna fillna (.const (lit 50)) (RSI.run s w fillna), ?_, ?_⟩
  · unfold rsi; rw [if_neg (by omega)]
  · cases fillna with
    | false => exact hrun
    | true =>
      have := hrun.fillConst (50 : K)
      rw [lit_fin]
      simpa using this

/-- C17: the formula.  `U` and `D` are Wilder's smoothed gains and losses (factor 1/w, starting at 0 on row 0); the RSI
is `100 * U / (U + D)`, equivalently `100 - 100 / (1 + U/D)`, and 100 when `D = 0`. -/
theorem rsi_formula (n : Nat) (x : Nat → K) (w : Nat) (hw : 1 ≤ w) (fillna : Bool) :
    ∃ U D : Nat → K, U 0 = 0 ∧ D 0 = 0 ∧
      (∀ i, U (i + 1) = (1 - 1 / (w : K)) * U i + 1 / (w : K) * max (x (i + 1) - x i) 0) ∧
      (∀ i, D (i + 1) = (1 - 1 / (w : K)) * D i + 1 / (w : K) * max (x i - x (i + 1)) 0) ∧
      (∀ i, 0 ≤ U i ∧ 0 ≤ D i) ∧
      ∃ out, rsi (ser n x) w fillna = .ok out ∧ Def out n (if fillna then 0 else w - 1)
        (fun i => if D i = 0 then 100 else 100 * U i / (U i + D i)) ∧
        (∀ i, D i ≠ 0 → 100 * U i / (U i + D i) = 100 - 100 / (1 + U i / D i)) := by
  have ha := wilder_pos (K := K) w hw
  have ha1 := wilder_le (K := K) w hw
  have hU := emaRec_nonneg ha ha1 (gain_nonneg x)
  have hD := emaRec_nonneg ha ha1 (loss_nonneg x)
  obtain ⟨out, ho, hd⟩ := rsi_of_changes (def_up n x) (def_down n x) (gain_nonneg x) (loss_nonneg x) w hw fillna
  exact ⟨emaRec (1 / (w : K)) (gain x), emaRec (1 / (w : K)) (loss x), rfl, rfl, fun i => rfl, fun i => rfl,
    fun i => ⟨hU i, hD i⟩, out, ho, hd, fun i h0 => ((rs_mem (hU i) (hD i) h0).1).symm⟩

theorem emaRec_zero {a : K} {f : Nat → K} {i : Nat} (h : ∀ j, j ≤ i → f j = 0) : emaRec a f i = 0 := by
  induction i with
  | zero => exact h 0 (le_refl _)
  | succ i ih => rw [emaRec, ih fun j hj => h j (by omega), h _ (le_refl _)]; ring

theorem emaRec_pos {a : K} (ha : 0 < a) (ha1 : a < 1) {f : Nat → K} (hf : ∀ i, 0 ≤ f i) {j i : Nat} (hj : j ≤ i)
    (h : 0 < f j) : 0 < emaRec a f i := by
  induction i with
  | zero => obtain rfl : j = 0 := by omega
            exact h
  | succ i ih =>
    rw [emaRec]
    have h1 : 0 < 1 - a := by linarith
    by_cases hji : j = i + 1
    · subst hji
      have := emaRec_nonneg ha ha1.le hf i
      positivity
    · have := ih (by omega)
      have := hf (i + 1)
      positivity

/-- C17: while the close has never fallen (in particular on a flat series) the RSI is 100. -/
theorem rsi_never_fell (n : Nat) (x : Nat → K) (w : Nat) (hw : 1 ≤ w) (fillna : Bool) (out : Series (Val K))
    (ho : rsi (ser n x) w fillna = .ok out) (i : Nat) (hn : i < n) (hi : fillna = true ∨ w - 1 ≤ i)
    (hx : ∀ j, j < i → x j ≤ x (j + 1)) : ix out i = .fin 100 := by
  obtain ⟨U, D, _, D0, _, D1, _, out', ho', hd, _⟩ := rsi_formula n x w hw fillna
  obtain rfl : out' = out := Except.ok.inj (ho'.symm.trans ho)
  have hD : ∀ j, j ≤ i → D j = 0 := by
    intro j
    induction j with
    | zero => exact fun _ => D0
    | succ j ih =>
      intro hj
      rw [D1, ih (by omega), max_eq_right (by linarith [hx j (by omega)])]; ring
  rw [hd.val i hn (by rcases hi with h | h <;> split_ifs <;> first | omega | simp_all), if_pos (hD i (le_refl _))]

/-- C17: if the close has never risen and has fallen at least once, the RSI is 0 (`window ≥ 2`; with window 1 only the
last change counts). -/
theorem rsi_never_rose (n : Nat) (x : Nat → K) (w : Nat) (hw : 2 ≤ w) (fillna : Bool) (out : Series (Val K))
    (ho : rsi (ser n x) w fillna = .ok out) (i : Nat) (hn : i < n) (hi : fillna = true ∨ w - 1 ≤ i)
    (hx : ∀ j, j < i → x (j + 1) ≤ x j) (k : Nat) (hk : k < i) (hxk : x (k + 1) < x k) : ix out i = .fin 0 := by
  obtain ⟨U, D, U0, D0, U1, D1, h0, out', ho', hd, _⟩ := rsi_formula n x w (by omega) fillna
  obtain rfl : out' = out := Except.ok.inj (ho'.symm.trans ho)
  have hU : ∀ j, j ≤ i → U j = 0 := by
    intro j
    induction j with
    | zero => exact fun _ => U0
    | succ j ih =>
      intro hj
      rw [U1, ih (by omega), max_eq_right (by linarith [hx j (by omega)])]; ring
  have hw0 : (0 : K) < 1 / w := wilder_pos w (by omega)
  have hw1 : (0 : K) < 1 - 1 / w := by
    have h2 : (2 : K) ≤ w := by exact_mod_cast hw
    have : 1 / (w : K) < 1 := by rw [div_lt_one (by linarith)]; linarith
    linarith
  have hD : ∀ j, k < j → 0 < D j := by
    intro j
    induction j with
    | zero => intro h; omega
    | succ j ih =>
      intro hj
      rw [D1]
      by_cases hkj : k = j
      · subst hkj
        have : 0 < max (x k - x (k + 1)) 0 := lt_max_of_lt_left (by linarith)
        have := (h0 k).2
        positivity
      · have := ih (by omega)
        have : 0 ≤ max (x j - x (j + 1)) 0 := le_max_right _ _
        positivity
  rw [hd.val i hn (by rcases hi with h | h <;> split_ifs <;> first | omega | simp_all), if_neg (hD i hk).ne', hU i (le_refl _)]
  simp

example : rsi (qs [10, 12, 11, 11, 15]) 2 false = .ok [.nan, .fin 100, .fin 50, .fin 50, .fin (850/9)] := by
  decide +kernel
/-- one NaN in the middle is treated as "no change" on two rows -/
example : rsi ([.fin 10, .fin 12, .nan, .fin 11, .fin 13, .fin 9] : Series (Val ℚ)) 2 false
    = .ok [.nan, .fin 100, .fin 100, .fin 100, .fin 100, .fin (900/41)] := by
  decide +kernel
example : rsi (qs [5, 5, 5]) 2 false = .ok [.nan, .fin 100, .fin 100] := by decide +kernel
example : rsi (qs [9, 8, 8, 4]) 3 false = .ok [.nan, .nan, .fin 0, .fin 0] := by decide +kernel

end TA
