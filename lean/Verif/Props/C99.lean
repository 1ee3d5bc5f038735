import Verif.Props.C85
import Verif.Props.C96
import Verif.Props.C34
import Verif.Props.C19
import Verif.Props.C20
import Verif.Props.C21
import Verif.Props.C32

/-!
# C99: a higher close on the row in hand

Two markets that are the same up to a row, on which one of them closes higher: which way every output of that row moves.
-/

set_option linter.unusedSectionVars false

namespace TA
open Finset
variable {K : Type} [Field K] [LinearOrder K] [IsStrictOrderedRing K]

/-- `c'` is `c` before row `i` and at least `c` on row `i` (what follows does not matter) -/
structure HigherAt (i : Nat) (c c' : Nat → K) : Prop where
  before : ∀ j, j < i → c' j = c j
  now : c i ≤ c' i

/-- row `i` is a number in both outputs, and not smaller in the second -/
def Rises (s s' : Series (Val K)) (i : Nat) : Prop := ∃ x x', ix s i = .fin x ∧ ix s' i = .fin x' ∧ x ≤ x'
/-- row `i` is a number in both outputs, and not larger in the second -/
def Sinks (s s' : Series (Val K)) (i : Nat) : Prop := ∃ x x', ix s i = .fin x ∧ ix s' i = .fin x' ∧ x' ≤ x

theorem Def.rises {s s' : Series (Val K)} {n p : Nat} {f f' : Nat → K} (h : Def s n p f) (h' : Def s' n p f') {i : Nat} (hi : i < n)
    (hp : p ≤ i) (hf : f i ≤ f' i) : Rises s s' i := ⟨_, _, h.val i hi hp, h'.val i hi hp, hf⟩
theorem Def.sinks {s s' : Series (Val K)} {n p : Nat} {f f' : Nat → K} (h : Def s n p f) (h' : Def s' n p f') {i : Nat} (hi : i < n)
    (hp : p ≤ i) (hf : f' i ≤ f i) : Sinks s s' i := ⟨_, _, h.val i hi hp, h'.val i hi hp, hf⟩

/-! ## windows and exponential means -/

/-- what an exponential mean keeps of the rows before -/
def emaHead (a : K) (f : Nat → K) : Nat → K
  | 0 => 0
  | i + 1 => (1 - a) * emaRec a f i
/-- the weight of the row in hand -/
def emaWt (a : K) (i : Nat) : K := if i = 0 then 1 else a

theorem emaRec_split (a : K) (f : Nat → K) (i : Nat) : emaRec a f i = emaHead a f i + emaWt a i * f i := by
  cases i with
  | zero => simp [emaRec, emaHead, emaWt]
  | succ i => simp [emaRec, emaHead, emaWt]

theorem emaRec_same {a : K} {f g : Nat → K} {i : Nat} (h : ∀ j, j ≤ i → g j = f j) : emaRec a g i = emaRec a f i := by
  induction i with
  | zero => exact h 0 (le_refl _)
  | succ i ih => rw [emaRec, emaRec, ih fun j hj => h j (by omega), h (i + 1) (le_refl _)]

theorem emaHead_same {a : K} {f g : Nat → K} {i : Nat} (h : ∀ j, j < i → g j = f j) : emaHead a g i = emaHead a f i := by
  cases i with
  | zero => rfl
  | succ i => rw [emaHead, emaHead, emaRec_same fun j hj => h j (by omega)]

theorem emaWt_bd {w : Nat} (hw : 1 ≤ w) (i : Nat) : 0 < emaWt (2 / ((w : K) + 1)) i ∧ emaWt (2 / ((w : K) + 1)) i ≤ 1 := by
  unfold emaWt
  split_ifs
  · exact ⟨one_pos, le_refl _⟩
  · have : (1 : K) ≤ w := by exact_mod_cast hw
    exact ⟨by positivity, (div_le_one (by linarith)).mpr (by linarith)⟩

theorem emaWt_fast {fast slow : Nat} (h : fast ≤ slow) (i : Nat) :
    emaWt (2 / ((slow : K) + 1)) i ≤ emaWt (2 / ((fast : K) + 1)) i := by
  unfold emaWt
  split_ifs
  · exact le_refl _
  · rcases h.lt_or_eq with h | rfl
    · exact (span_lt h).le
    · exact le_refl _

/-- how an exponential mean moves with its last value -/
theorem HigherAt.ema {i : Nat} {c c' : Nat → K} (h : HigherAt i c c') (a : K) :
    emaRec a c' i = emaRec a c i + emaWt a i * (c' i - c i) := by
  rw [emaRec_split a c', emaRec_split a c, emaHead_same h.before]; ring

theorem HigherAt.emaBefore {i : Nat} {c c' : Nat → K} (h : HigherAt i c c') (a : K) {j : Nat} (hj : j < i) :
    emaRec a c' j = emaRec a c j := emaRec_same fun k hk => h.before k (by omega)

theorem HigherAt.emas {i : Nat} {c c' : Nat → K} (h : HigherAt i c c') {w : Nat} (hw : 1 ≤ w) :
    HigherAt i (emaRec (2 / ((w : K) + 1)) c) (emaRec (2 / ((w : K) + 1)) c') :=
  ⟨fun _ hj => h.emaBefore _ hj, by
    rw [h.ema]; linarith [mul_nonneg (emaWt_bd (K := K) hw i).1.le (sub_nonneg.mpr h.now)]⟩

/-- an exponential mean that starts at row `p` -/
theorem HigherAt.from {i p : Nat} {c c' : Nat → K} (h : HigherAt i c c') (hp : p ≤ i) :
    HigherAt (i - p) (fun j => c (p + j)) (fun j => c' (p + j)) :=
  ⟨fun j hj => h.before _ (by omega), by simpa [Nat.add_sub_cancel' hp] using h.now⟩

/-- how a windowed sum moves with its last value -/
theorem HigherAt.wsum {i : Nat} {c c' : Nat → K} (h : HigherAt i c c') {w : Nat} (hw : 1 ≤ w) :
    ∑ j ∈ Ico (i + 1 - w) (i + 1), c' j = ∑ j ∈ Ico (i + 1 - w) (i + 1), c j + (c' i - c i) := by
  rw [Finset.sum_Ico_succ_top (by omega), Finset.sum_Ico_succ_top (by omega)]
  rw [Finset.sum_congr rfl fun j hj => h.before j (Finset.mem_Ico.mp hj).2]
  ring

theorem HigherAt.wmean {i : Nat} {c c' : Nat → K} (h : HigherAt i c c') {w : Nat} (hw : 1 ≤ w) :
    TA.wmean c' w i = TA.wmean c w i + (c' i - c i) / (min w (i + 1) : ℕ) := by
  unfold TA.wmean
  rw [h.wsum hw, add_div]

theorem wmean_same {i : Nat} {f g : Nat → K} (h : ∀ j, j ≤ i → g j = f j) (w : Nat) : wmean g w i = wmean f w i := by
  unfold wmean
  rw [Finset.sum_congr rfl fun j hj => h j (by have := (Finset.mem_Ico.mp hj).2; omega)]

theorem HigherAt.wmeans {i : Nat} {c c' : Nat → K} (h : HigherAt i c c') {w : Nat} (hw : 1 ≤ w) :
    HigherAt i (TA.wmean c w) (TA.wmean c' w) :=
  ⟨fun j hj => wmean_same (fun k hk => h.before k (by omega)) w, by
    rw [h.wmean hw]; linarith [div_nonneg (sub_nonneg.mpr h.now) (Nat.cast_nonneg (α := K) (min w (i + 1)))]⟩

/-! ## averages -/

section averages
variable {n i : Nat} {c c' : Nat → K}

/-- C99. Simple, exponential and weighted moving average follow the close. -/
theorem sma_rises (h : HigherAt i c c') (hi : i < n) {w : Nat} (hw : 1 ≤ w) (hp : w ≤ i + 1) :
    Rises (smaIndicator (ser n c) w) (smaIndicator (ser n c') w) i :=
  (sma_formula n c w hw).rises (sma_formula n c' w hw) hi (by omega) (by
    have := h.wsum hw
    simp only [this]
    exact div_le_div_of_nonneg_right (by linarith [h.now]) (Nat.cast_nonneg _))

theorem ema_rises (h : HigherAt i c c') (hi : i < n) {w : Nat} {fillna : Bool} {out out' : Series (Val K)}
    (ho : emaIndicator (ser n c) w fillna = .ok out) (ho' : emaIndicator (ser n c') w fillna = .ok out')
    (hp : (if fillna then 0 else w - 1) ≤ i) : Rises out out' i := by
  unfold emaIndicator chkSpan at ho ho'
  by_cases hw : w < 1
  · rw [if_pos hw] at ho; cases ho
  · rw [if_neg hw] at ho ho'
    obtain rfl := Except.ok.inj ho
    obtain rfl := Except.ok.inj ho'
    exact ((def_ser n c).ema0 (by omega) fillna).rises ((def_ser n c').ema0 (by omega) fillna) hi hp (h.emas (by omega)).now

theorem wma_rises (h : HigherAt i c c') (hi : i < n) {w : Nat} (hw : 1 ≤ w) (hp : w ≤ i + 1) :
    Rises (wma (ser n c) w) (wma (ser n c') w) i := by
  refine (wma_formula n c w hw).rises (wma_formula n c' w hw) hi (by omega) ?_
  have h0 : (0 : K) ≤ (w : K) * (w + 1) / 2 := by positivity
  refine div_le_div_of_nonneg_right (Finset.sum_le_sum fun k hk => mul_le_mul_of_nonneg_left ?_ (by positivity)) h0
  have hk := Finset.mem_range.mp hk
  rcases Nat.lt_or_ge (i + 1 - w + k) i with h1 | h1
  · exact (h.before _ h1).ge
  · rw [show i + 1 - w + k = i by omega]; exact h.now

/-- C99. MACD line, signal and histogram follow the close (the fast window not longer than the slow one). -/
theorem macd_rises (h : HigherAt i c c') (hi : i < n) {slow fast sign : Nat} (hfs : fast ≤ slow) {fillna : Bool}
    {o o' : MACD (Val K)} (ho : MACD.new (ser n c) slow fast sign fillna = .ok o)
    (ho' : MACD.new (ser n c') slow fast sign fillna = .ok o') :
    ((if fillna then 0 else max slow fast - 1) ≤ i → Rises o.macd o'.macd i) ∧
    ((if fillna then 0 else max slow fast + sign - 2) ≤ i → Rises o.macdSignal o'.macdSignal i ∧ Rises o.macdDiff o'.macdDiff i) := by
  obtain ⟨-, hf, hs, -⟩ := macd_new ho
  obtain ⟨L, S, l1, s1, d1, d2, d3⟩ := macd_formula ho
  obtain ⟨L', S', l1', s1', d1', d2', d3'⟩ := macd_formula ho'
  have hL : HigherAt i L L' := by
    refine ⟨fun j hj => by rw [l1, l1', h.emaBefore _ hj, h.emaBefore _ hj], ?_⟩
    rw [l1, l1', h.ema, h.ema]
    have := mul_nonneg (sub_nonneg.mpr (emaWt_fast (K := K) hfs i)) (sub_nonneg.mpr h.now)
    linarith
  refine ⟨fun hp => d1.rises d1' hi hp hL.now, fun hp => ?_⟩
  have hp' : (if fillna then 0 else max slow fast - 1) ≤ i := by
    cases fillna <;> simp at hp ⊢; omega
  have hq := hL.from hp'
  have hb := emaWt_bd (K := K) hs (i - (if fillna then 0 else max slow fast - 1))
  have hS := hq.ema (2 / ((sign : K) + 1))
  simp only [Nat.add_sub_cancel' hp'] at hS
  rw [← s1, ← s1'] at hS
  have hd := sub_nonneg.mpr hL.now
  refine ⟨d2.rises d2' hi hp ?_, d3.rises d3' hi hp ?_⟩
  · rw [hS]; linarith [mul_nonneg hb.1.le hd]
  · show L i - S i ≤ L' i - S' i
    rw [hS]
    have := mul_nonneg (sub_nonneg.mpr hb.2) hd
    linarith

end averages

/-! ## relative changes -/

section changes
variable {n i : Nat} {c c' : Nat → K}

/-- of positive values the faster average is at most as many times the slower one as its weight is of the slower weight -/
theorem emaRec_ratio {a b : K} (ha : 0 < a) (hab : a ≤ b) (hb : b ≤ 1) {f : Nat → K} (hf : ∀ j, 0 < f j) (i : Nat) :
    a * emaRec b f i ≤ b * emaRec a f i := by
  induction i with
  | zero => exact mul_le_mul_of_nonneg_right hab (hf 0).le
  | succ i ih =>
    rw [emaRec, emaRec]
    have p : 0 < emaRec b f i := emaRec_pos_all (ha.trans_le hab) hb fun k _ => hf k
    have t1 := mul_le_mul_of_nonneg_left ih (sub_nonneg.mpr hb)
    have t2 : (1 - b) * (b * emaRec a f i) ≤ (1 - a) * (b * emaRec a f i) := by
      refine mul_le_mul_of_nonneg_right (by linarith) (mul_nonneg (ha.le.trans hab) ?_)
      exact (emaRec_pos_all ha (hab.trans hb) fun k _ => hf k).le
    nlinarith

/-- C99. PPO line, signal and histogram follow a positive close (the fast window not longer than the slow one), although the
slow average it is divided by rises as well. -/
theorem ppo_rises (h : HigherAt i c c') (hi : i < n) (hc : ∀ j, 0 < c j) (hc' : ∀ j, 0 < c' j) {slow fast sign : Nat} (hfs : fast ≤ slow)
    {fillna : Bool} {o o' : PPO (Val K)} (ho : PPO.new (ser n c) slow fast sign fillna = .ok o)
    (ho' : PPO.new (ser n c') slow fast sign fillna = .ok o') :
    ((if fillna then 0 else max slow fast - 1) ≤ i → Rises o.ppo o'.ppo i) ∧
    ((if fillna then 0 else max slow fast + sign - 2) ≤ i → Rises o.ppoSignal o'.ppoSignal i ∧ Rises o.ppoHist o'.ppoHist i) := by
  obtain ⟨hsl, hf, hs, -⟩ := ppo_new ho
  obtain ⟨L, S, l1, s1, d1, d2, d3⟩ := ppo_formula hc ho
  obtain ⟨L', S', l1', s1', d1', d2', d3'⟩ := ppo_formula hc' ho'
  have hL : HigherAt i L L' := by
    refine ⟨fun j hj => by rw [l1, l1', h.emaBefore _ hj, h.emaBefore _ hj], ?_⟩
    rw [l1, l1']
    have p1 : 0 < emaRec (2 / ((slow : K) + 1)) c i := emaRec_pos_all (span_pos slow) (span_le slow hsl) fun k _ => hc k
    have p2 : 0 < emaRec (2 / ((slow : K) + 1)) c' i := emaRec_pos_all (span_pos slow) (span_le slow hsl) fun k _ => hc' k
    have r : emaWt (2 / ((slow : K) + 1)) i * emaRec (2 / ((fast : K) + 1)) c i
        ≤ emaWt (2 / ((fast : K) + 1)) i * emaRec (2 / ((slow : K) + 1)) c i := by
      cases i with
      | zero => exact le_refl _
      | succ i => exact emaRec_ratio (span_pos slow) (emaWt_fast (K := K) hfs 1) (span_le fast hf) hc _
    have key : emaRec (2 / ((fast : K) + 1)) c i / emaRec (2 / ((slow : K) + 1)) c i
        ≤ emaRec (2 / ((fast : K) + 1)) c' i / emaRec (2 / ((slow : K) + 1)) c' i := by
      rw [div_le_div_iff₀ p1 p2, h.ema, h.ema]
      have := mul_le_mul_of_nonneg_right r (sub_nonneg.mpr h.now)
      linarith
    linarith
  refine ⟨fun hp => d1.rises d1' hi hp hL.now, fun hp => ?_⟩
  have hp' : (if fillna then 0 else max slow fast - 1) ≤ i := by
    cases fillna <;> simp at hp ⊢; omega
  have hq := hL.from hp'
  have hb := emaWt_bd (K := K) hs (i - (if fillna then 0 else max slow fast - 1))
  have hS := hq.ema (2 / ((sign : K) + 1))
  simp only [Nat.add_sub_cancel' hp'] at hS
  rw [← s1, ← s1'] at hS
  have hd := sub_nonneg.mpr hL.now
  refine ⟨d2.rises d2' hi hp ?_, d3.rises d3' hi hp ?_⟩
  · rw [hS]; linarith [mul_nonneg hb.1.le hd]
  · show L i - S i ≤ L' i - S' i
    rw [hS]
    have := mul_nonneg (sub_nonneg.mpr hb.2) hd
    linarith

/-- C99. The rate of change follows the close. -/
theorem roc_rises (h : HigherAt i c c') (hi : i < n) (hc : ∀ j, 0 < c j) (hc' : ∀ j, 0 < c' j) {w : Nat} (hw : 1 ≤ w) (hp : w ≤ i)
    (fillna : Bool) : Rises (roc (ser n c) w fillna) (roc (ser n c') w fillna) i := by
  have key : 100 * (c i / c (i - w) - 1) ≤ 100 * (c' i / c' (i - w) - 1) := by
    rw [h.before (i - w) (by omega)]
    have := div_le_div_of_nonneg_right h.now (hc (i - w)).le
    linarith
  cases fillna with
  | false => exact (roc_formula n (fun j => (hc j).ne') w).1.rises (roc_formula n (fun j => (hc' j).ne') w).1 hi hp key
  | true =>
    refine (roc_formula n (fun j => (hc j).ne') w).2.rises (roc_formula n (fun j => (hc' j).ne') w).2 hi (Nat.zero_le _) ?_
    show (if i < w then (0 : K) else _) ≤ if i < w then 0 else _
    rw [if_neg (by omega), if_neg (by omega)]
    exact key

/-- C99. The daily and the cumulative return follow the close. -/
theorem returns_rise (h : HigherAt (i + 1) c c') (hi : i + 1 < n) (hc : ∀ j, 0 < c j) (hc' : ∀ j, 0 < c' j) (fillna : Bool)
    {out out' : Series (Val K)} (ho : cumulativeReturn (ser n c) fillna = .ok out)
    (ho' : cumulativeReturn (ser n c') fillna = .ok out') :
    Rises (dailyReturn (ser n c) fillna) (dailyReturn (ser n c') fillna) (i + 1) ∧ Rises out out' (i + 1) := by
  obtain ⟨D, C, u, hD, -, hC, dD, hu, dC, -⟩ := returns_compound (by omega : 0 < n) hc fillna
  obtain ⟨D', C', u', hD', -, hC', dD', hu', dC', -⟩ := returns_compound (by omega : 0 < n) hc' fillna
  obtain rfl := Except.ok.inj (hu.symm.trans ho)
  obtain rfl := Except.ok.inj (hu'.symm.trans ho')
  refine ⟨dD.rises dD' hi (by split_ifs <;> omega) ?_, dC.rises dC' hi (Nat.zero_le _) ?_⟩
  · rw [hD, hD', h.before i (by omega)]
    have := div_le_div_of_nonneg_right h.now (hc i).le
    linarith
  · rw [hC, hC', h.before 0 (by omega)]
    have := div_le_div_of_nonneg_right h.now (hc 0).le
    linarith

/-- C99. TRIX follows the close. -/
theorem trix_rises (h : HigherAt i c c') (hi : i < n) (hc : ∀ j, 0 < c j) (hc' : ∀ j, 0 < c' j) {w : Nat} (hw : 2 ≤ w)
    (hp : 3 * w - 2 ≤ i) {out out' : Series (Val K)} (ho : trix (ser n c) w = .ok out) (ho' : trix (ser n c') w = .ok out') :
    Rises out out' i := by
  obtain ⟨E1, E2, E3, u, e1, e2, e3, hu, d⟩ := trix_formula (n := n) hc hw
  obtain ⟨E1', E2', E3', u', e1', e2', e3', hu', d'⟩ := trix_formula (n := n) hc' hw
  obtain rfl := Except.ok.inj (hu.symm.trans ho)
  obtain rfl := Except.ok.inj (hu'.symm.trans ho')
  have hw1 : 1 ≤ w := by omega
  have h1 : HigherAt i E1 E1' := by
    rw [funext e1, funext e1']; exact h.emas hw1
  have h2 : HigherAt i E2 E2' := by
    have := (h1.from (p := w - 1) (by omega)).emas hw1
    refine ⟨fun j hj => ?_, by rw [e2, e2']; exact this.now⟩
    rw [e2, e2']
    exact emaRec_same fun k hk => h1.before _ (by omega)
  have h3 : HigherAt i E3 E3' := by
    have := (h2.from (p := w - 1 + (w - 1)) (by omega)).emas hw1
    refine ⟨fun j hj => ?_, by rw [e3, e3']; exact this.now⟩
    rw [e3, e3']
    exact emaRec_same fun k hk => h2.before _ (by omega)
  have pos : 0 ≤ E3 (i - 1) := by
    have hb : (0 : K) < 2 / ((w : K) + 1) ∧ 2 / ((w : K) + 1) ≤ 1 := emaWt_bd hw1 1
    have p1 : ∀ j, 0 < E1 j := fun j => by rw [e1]; exact emaRec_pos_all hb.1 hb.2 fun k _ => hc k
    have p2 : ∀ j, 0 < E2 j := fun j => by rw [e2]; exact emaRec_pos_all hb.1 hb.2 fun k _ => p1 _
    rw [e3]; exact (emaRec_pos_all hb.1 hb.2 fun k _ => p2 _).le
  refine d.rises d' hi hp ?_
  show 100 * (E3 i / E3 (i - 1) - 1) ≤ 100 * (E3' i / E3' (i - 1) - 1)
  rw [h3.before (i - 1) (by omega)]
  have := div_le_div_of_nonneg_right h3.now pos
  linarith

theorem rocMean_higher (h : HigherAt i c c') (hc : ∀ j, 0 < c j) {r w : Nat} (hr : 1 ≤ r) (hw : 1 ≤ w) {j : Nat} (hji : j ≤ i)
    (hj : r + w ≤ j + 1) :
    (j < i → rocMean n c' r w j = rocMean n c r w j) ∧ rocMean n c r w j ≤ rocMean n c' r w j := by
  unfold rocMean TA.wmean
  constructor
  · intro hlt
    congr 1
    refine Finset.sum_congr rfl fun k hk => ?_
    have hk := Finset.mem_Ico.mp hk
    unfold prevOr
    dsimp only
    rw [if_neg (by omega), if_neg (by omega), h.before k (by omega), h.before (k - r) (by omega)]
  · refine div_le_div_of_nonneg_right (Finset.sum_le_sum fun k hk => ?_) (Nat.cast_nonneg _)
    have hk := Finset.mem_Ico.mp hk
    unfold prevOr
    rw [if_neg (by omega), if_neg (by omega), h.before (k - r) (by omega)]
    have : c k ≤ c' k := by
      rcases Nat.lt_or_ge k i with h1 | h1
      · exact (h.before k h1).ge
      · rw [show k = i by omega]; exact h.now
    have := div_le_div_of_nonneg_right this (hc (k - r)).le
    linarith

/-- C99. KST follows the close from the row on where all its rates of change look at closes; its signal and histogram do so once
the window of the signal line lies there as well. -/
theorem kst_rises (h : HigherAt i c c') (hi : i < n) (hc : ∀ j, 0 < c j) (hc' : ∀ j, 0 < c' j) {r1 r2 r3 r4 w1 w2 w3 w4 nsig : Nat}
    (hr1 : 1 ≤ r1) (hr2 : 1 ≤ r2) (hr3 : 1 ≤ r3) (hr4 : 1 ≤ r4)
    (h1 : 1 ≤ w1) (h2 : 1 ≤ w2) (h3 : 1 ≤ w3) (h4 : 1 ≤ w4) (hs : 1 ≤ nsig) (fillna : Bool)
    (b1 : r1 + w1 ≤ i + 1) (b2 : r2 + w2 ≤ i + 1) (b3 : r3 + w3 ≤ i + 1) (b4 : r4 + w4 ≤ i + 1) :
    Rises (kst (ser n c) r1 r2 r3 r4 w1 w2 w3 w4 fillna) (kst (ser n c') r1 r2 r3 r4 w1 w2 w3 w4 fillna) i ∧
    (r1 + w1 + nsig ≤ i + 2 → r2 + w2 + nsig ≤ i + 2 → r3 + w3 + nsig ≤ i + 2 → r4 + w4 + nsig ≤ i + 2 →
      Rises (kstSig (ser n c) r1 r2 r3 r4 w1 w2 w3 w4 nsig fillna) (kstSig (ser n c') r1 r2 r3 r4 w1 w2 w3 w4 nsig fillna) i ∧
      Rises (kstDiff (ser n c) r1 r2 r3 r4 w1 w2 w3 w4 nsig fillna) (kstDiff (ser n c') r1 r2 r3 r4 w1 w2 w3 w4 nsig fillna) i) := by
  obtain ⟨p, L, S, hp, l1, s1, d1, d2, d3⟩ := kst_formula (n := n) hc r1 r2 r3 r4 h1 h2 h3 h4 hs fillna
  obtain ⟨p', L', S', hp', l1', s1', d1', d2', d3'⟩ := kst_formula (n := n) hc' r1 r2 r3 r4 h1 h2 h3 h4 hs fillna
  obtain rfl : p' = p := by rw [hp, hp']
  have hpi : p' ≤ i := by rw [hp']; split_ifs <;> omega
  have hL : L i ≤ L' i := by
    rw [l1, l1']
    have q1 := (rocMean_higher (n := n) h hc hr1 h1 (le_refl i) b1).2
    have q2 := (rocMean_higher (n := n) h hc hr2 h2 (le_refl i) b2).2
    have q3 := (rocMean_higher (n := n) h hc hr3 h3 (le_refl i) b3).2
    have q4 := (rocMean_higher (n := n) h hc hr4 h4 (le_refl i) b4).2
    linarith
  refine ⟨d1.rises d1' hi hpi hL, fun e1 e2 e3 e4 => ?_⟩
  have hp1 : p' + nsig ≤ i + 1 := by rw [hp']; split_ifs <;> omega
  have hb : ∀ j, i + 1 ≤ j + nsig → j < i → L' j = L j := fun j hj hlt => by
    rw [l1, l1', (rocMean_higher (n := n) h hc hr1 h1 hlt.le (by omega)).1 hlt,
      (rocMean_higher (n := n) h hc hr2 h2 hlt.le (by omega)).1 hlt, (rocMean_higher (n := n) h hc hr3 h3 hlt.le (by omega)).1 hlt,
      (rocMean_higher (n := n) h hc hr4 h4 hlt.le (by omega)).1 hlt]
  have hS : S' i = S i + (L' i - L i) / (nsig : ℕ) := by
    rw [s1 i hpi, s1' i hpi, show max p' (i + 1 - nsig) = i + 1 - nsig by omega, show min nsig (i + 1 - p') = nsig by omega,
      Finset.sum_Ico_succ_top (by omega), Finset.sum_Ico_succ_top (by omega),
      Finset.sum_congr rfl fun j hj => hb j (by have := (Finset.mem_Ico.mp hj).1; omega) (Finset.mem_Ico.mp hj).2]
    ring
  have hn1 : (1 : K) ≤ nsig := by exact_mod_cast hs
  have hd := sub_nonneg.mpr hL
  refine ⟨d2.rises d2' hi hpi ?_, d3.rises d3' hi hpi ?_⟩
  · rw [hS]; linarith [div_nonneg hd (zero_le_one.trans hn1)]
  · show L i - S i ≤ L' i - S' i
    rw [hS]
    linarith [div_le_self hd hn1]

end changes

/-! ## oscillators -/

section oscillators
variable {n i : Nat} {h l c c' : Nat → K}

theorem rsi_value_mono {U D U' D' : K} (hU : 0 ≤ U) (hD : 0 ≤ D) (hD' : 0 ≤ D') (h1 : U ≤ U') (h2 : D' ≤ D) :
    (if D = 0 then (100 : K) else 100 * U / (U + D)) ≤ if D' = 0 then 100 else 100 * U' / (U' + D') := by
  have hle : ∀ u d : K, 0 ≤ u → 0 < d → 100 * u / (u + d) ≤ 100 := fun u d hu hd => by
    rw [div_le_iff₀ (by linarith)]; linarith
  by_cases e' : D' = 0
  · rw [if_pos e']
    split_ifs with e
    · exact le_refl _
    · exact hle U D hU (lt_of_le_of_ne hD (Ne.symm e))
  · have p' : 0 < D' := lt_of_le_of_ne hD' (Ne.symm e')
    have p : 0 < D := p'.trans_le h2
    rw [if_neg e', if_neg p.ne', div_le_div_iff₀ (by linarith) (by linarith)]
    have := mul_le_mul h1 h2 hD' (hU.trans h1)
    nlinarith

/-- C99. RSI follows the close. -/
theorem rsi_rises (hc : HigherAt i c c') (hi : i < n) {w : Nat} {fillna : Bool} {out out' : Series (Val K)}
    (ho : rsi (ser n c) w fillna = .ok out) (ho' : rsi (ser n c') w fillna = .ok out') (hp : (if fillna then 0 else w - 1) ≤ i) :
    (∀ j, j < i → ix out' j = ix out j) ∧ Rises out out' i := by
  have hw : 1 ≤ w := by
    by_contra hw
    unfold rsi at ho
    rw [if_pos (by omega)] at ho
    cases ho
  obtain ⟨U, D, u0, d0, u1, d1, hn, u, hu, du, -⟩ := rsi_formula n c w hw fillna
  obtain ⟨U', D', u0', d0', u1', d1', hn', u', hu', du', -⟩ := rsi_formula n c' w hw fillna
  obtain rfl := Except.ok.inj (hu.symm.trans ho)
  obtain rfl := Except.ok.inj (hu'.symm.trans ho')
  have hb : ∀ j, j < i → U' j = U j ∧ D' j = D j := by
    intro j
    induction j with
    | zero => intro _; exact ⟨by rw [u0, u0'], by rw [d0, d0']⟩
    | succ j ih =>
      intro hj
      obtain ⟨e1, e2⟩ := ih (by omega)
      rw [u1, u1', d1, d1', e1, e2, hc.before _ hj, hc.before j (by omega)]
      exact ⟨rfl, rfl⟩
  have hrow : ∀ j, j < i → ix u' j = ix u j := by
    intro j hj
    by_cases hpj : (if fillna then 0 else w - 1) ≤ j
    · rw [du.val j (by omega) hpj, du'.val j (by omega) hpj, (hb j hj).1, (hb j hj).2]
    · rw [du.gap j (by omega) (by omega), du'.gap j (by omega) (by omega)]
  refine ⟨hrow, du.rises du' hi hp ?_⟩
  have hw0 : (0 : K) ≤ 1 / w := by positivity
  cases i with
  | zero => simp [d0, d0']
  | succ i =>
    obtain ⟨e1, e2⟩ := hb i (by omega)
    have ec := hc.before i (by omega)
    refine rsi_value_mono (hn _).1 (hn _).2 (hn' _).2 ?_ ?_
    · rw [u1, u1', e1, ec]
      have := mul_le_mul_of_nonneg_left (max_le_max (sub_le_sub_right hc.now (c i)) (le_refl (0 : K))) hw0
      linarith
    · rw [d1, d1', e2, ec]
      have := mul_le_mul_of_nonneg_left (max_le_max (sub_le_sub_left hc.now (c i)) (le_refl (0 : K))) hw0
      linarith

theorem tsi_value_mono {E0 A0 q d d' : K} (hE : |E0| ≤ A0) (hq : 0 ≤ q) (hd : d ≤ d') (hA : 0 < A0 + q * |d|) (hA' : 0 < A0 + q * |d'|) :
    (E0 + q * d) / (A0 + q * |d|) ≤ (E0 + q * d') / (A0 + q * |d'|) := by
  rw [div_le_div_iff₀ hA hA']
  have k1 : E0 * (|d'| - |d|) ≤ A0 * (d' - d) := by
    have hdd : |(|d'| - |d|)| ≤ d' - d := by
      have := abs_abs_sub_abs_le_abs_sub d' d
      rwa [abs_of_nonneg (sub_nonneg.mpr hd)] at this
    calc E0 * (|d'| - |d|) ≤ |E0 * (|d'| - |d|)| := le_abs_self _
      _ = |E0| * |(|d'| - |d|)| := abs_mul _ _
      _ ≤ A0 * (d' - d) := mul_le_mul hE hdd (abs_nonneg _) ((abs_nonneg _).trans hE)
  have k2 : d * |d'| ≤ d' * |d| := by
    rcases le_total 0 d with h1 | h1 <;> rcases le_total 0 d' with h2 | h2
    · rw [abs_of_nonneg h1, abs_of_nonneg h2]; linarith
    · rw [abs_of_nonneg h1, abs_of_nonpos h2]; nlinarith
    · rw [abs_of_nonpos h1, abs_of_nonneg h2]; nlinarith
    · rw [abs_of_nonpos h1, abs_of_nonpos h2]; linarith
  have k3 := mul_le_mul_of_nonneg_left k1 hq
  have k4 := mul_le_mul_of_nonneg_left k2 (mul_nonneg hq hq)
  nlinarith

theorem rec_emaRec {a : K} {f g : Nat → K} (h0 : g 0 = f 0) (h1 : ∀ i, g (i + 1) = (1 - a) * g i + a * f (i + 1)) (i : Nat) :
    g i = emaRec a f i := by
  induction i with
  | zero => exact h0
  | succ i ih => rw [h1, ih]; rfl

theorem emaHead_abs {a : K} (ha1 : a ≤ 1) (ha : 0 ≤ a) {f g : Nat → K} (h : ∀ j, |f j| ≤ g j) (i : Nat) :
    |emaHead a f i| ≤ emaHead a g i := by
  cases i with
  | zero => simp [emaHead]
  | succ i =>
    have key : ∀ k, |emaRec a f k| ≤ emaRec a g k := by
      intro k
      induction k with
      | zero => exact h 0
      | succ k ih =>
        rw [emaRec, emaRec]
        refine (abs_add_le _ _).trans ?_
        rw [abs_mul, abs_mul, abs_of_nonneg ha, abs_of_nonneg (sub_nonneg.mpr ha1)]
        exact add_le_add (mul_le_mul_of_nonneg_left ih (sub_nonneg.mpr ha1)) (mul_le_mul_of_nonneg_left (h _) ha)
    rw [emaHead, emaHead, abs_mul, abs_of_nonneg (sub_nonneg.mpr ha1)]
    exact mul_le_mul_of_nonneg_left (key i) (sub_nonneg.mpr ha1)

/-- C99. TSI follows the close, wherever both markets have a value. -/
theorem tsi_rises (hc : HigherAt i c c') (hi : i < n) {slow fast : Nat} (h1 : 1 ≤ slow) (h2 : 1 ≤ fast) {out out' : Series (Val K)}
    (ho : tsi (ser n c) slow fast = .ok out) (ho' : tsi (ser n c') slow fast = .ok out') {x x' : K}
    (hx : ix out i = .fin x) (hx' : ix out' i = .fin x') : x ≤ x' := by
  obtain ⟨e, E, a, A, e0, e1, a0, a1, E0, E1, A0, A1, u, hu, -, hg, hv⟩ := tsi_formula n c slow fast h1 h2
  obtain ⟨e', E', a', A', e0', e1', a0', a1', E0', E1', A0', A1', u', hu', -, hg', hv'⟩ := tsi_formula n c' slow fast h1 h2
  obtain rfl := Except.ok.inj (hu.symm.trans ho)
  obtain rfl := Except.ok.inj (hu'.symm.trans ho')
  have hp : slow + fast - 1 ≤ i := by
    by_contra hp
    rw [hg i hi (by omega)] at hx
    cases hx
  rw [hv i hi hp] at hx
  rw [hv' i hi hp] at hx'
  have hA : A (i - slow) ≠ 0 := fun h0 => by rw [if_pos h0] at hx; cases hx
  have hA' : A' (i - slow) ≠ 0 := fun h0 => by rw [if_pos h0] at hx'; cases hx'
  rw [if_neg hA] at hx
  rw [if_neg hA'] at hx'
  obtain rfl := Val.fin.inj hx
  obtain rfl := Val.fin.inj hx'
  have hs : (0 : K) < 2 / ((slow : K) + 1) ∧ 2 / ((slow : K) + 1) ≤ 1 := emaWt_bd h1 1
  have hf : (0 : K) < 2 / ((fast : K) + 1) ∧ 2 / ((fast : K) + 1) ≤ 1 := emaWt_bd h2 1
  set αs : K := 2 / ((slow : K) + 1)
  set αf : K := 2 / ((fast : K) + 1)
  set k := i - slow with hk
  have ik : slow - 1 + k = i - 1 := by omega
  -- the four averages as exponential means
  have re : ∀ j, e j = emaRec αs (fun m => c (m + 1) - c m) j := rec_emaRec e0 e1
  have re' : ∀ j, e' j = emaRec αs (fun m => c' (m + 1) - c' m) j := rec_emaRec e0' e1'
  have ra : ∀ j, a j = emaRec αs (fun m => |c (m + 1) - c m|) j := rec_emaRec a0 a1
  have ra' : ∀ j, a' j = emaRec αs (fun m => |c' (m + 1) - c' m|) j := rec_emaRec a0' a1'
  have sh : ∀ j, slow + j = slow - 1 + (j + 1) := fun j => by omega
  have rE : ∀ j, E j = emaRec αf (fun m => e (slow - 1 + m)) j := rec_emaRec E0 fun j => by rw [E1, sh]
  have rE' : ∀ j, E' j = emaRec αf (fun m => e' (slow - 1 + m)) j := rec_emaRec E0' fun j => by rw [E1', sh]
  have rA : ∀ j, A j = emaRec αf (fun m => a (slow - 1 + m)) j := rec_emaRec A0 fun j => by rw [A1, sh]
  have rA' : ∀ j, A' j = emaRec αf (fun m => a' (slow - 1 + m)) j := rec_emaRec A0' fun j => by rw [A1', sh]
  -- before the row in hand nothing differs
  have se : ∀ j, j < i - 1 → e' j = e j := fun j hj => by
    rw [re, re']; exact emaRec_same fun m hm => by rw [hc.before (m + 1) (by omega), hc.before m (by omega)]
  have sa : ∀ j, j < i - 1 → a' j = a j := fun j hj => by
    rw [ra, ra']; exact emaRec_same fun m hm => by rw [hc.before (m + 1) (by omega), hc.before m (by omega)]
  have he : ∀ j, |e j| ≤ a j := fun j => by
    rw [re, ra, emaRec_split, emaRec_split αs fun m => |c (m + 1) - c m|]
    refine (abs_add_le _ _).trans (add_le_add (emaHead_abs hs.2 hs.1.le (fun m => le_refl _) j) ?_)
    rw [abs_mul, abs_of_nonneg (emaWt_bd h1 j).1.le]
  have i1 : i - 1 + 1 = i := by omega
  have pe : e (i - 1) = emaHead αs (fun m => c (m + 1) - c m) (i - 1) + emaWt αs (i - 1) * (c i - c (i - 1)) := by
    rw [re, emaRec_split, i1]
  have pa : a (i - 1) = emaHead αs (fun m => |c (m + 1) - c m|) (i - 1) + emaWt αs (i - 1) * |c i - c (i - 1)| := by
    rw [ra, emaRec_split, i1]
  have pe' : e' (i - 1) = emaHead αs (fun m => c (m + 1) - c m) (i - 1) + emaWt αs (i - 1) * (c' i - c (i - 1)) := by
    rw [re', emaRec_split, i1, hc.before (i - 1) (by omega),
      emaHead_same fun m hm => by rw [hc.before (m + 1) (by omega), hc.before m (by omega)]]
  have pa' : a' (i - 1) = emaHead αs (fun m => |c (m + 1) - c m|) (i - 1) + emaWt αs (i - 1) * |c' i - c (i - 1)| := by
    rw [ra', emaRec_split, i1, hc.before (i - 1) (by omega),
      emaHead_same (f := fun m => |c (m + 1) - c m|) fun m hm => by
        rw [hc.before (m + 1) (by omega), hc.before m (by omega)]]
  have PE : E k = emaHead αf (fun m => e (slow - 1 + m)) k + emaWt αf k * e (i - 1) := by rw [rE, emaRec_split, ik]
  have PA : A k = emaHead αf (fun m => a (slow - 1 + m)) k + emaWt αf k * a (i - 1) := by rw [rA, emaRec_split, ik]
  have PE' : E' k = emaHead αf (fun m => e (slow - 1 + m)) k + emaWt αf k * e' (i - 1) := by
    rw [rE', emaRec_split, ik, emaHead_same fun m hm => se _ (by omega)]
  have PA' : A' k = emaHead αf (fun m => a (slow - 1 + m)) k + emaWt αf k * a' (i - 1) := by
    rw [rA', emaRec_split, ik, emaHead_same fun m hm => sa _ (by omega)]
  have hH := emaHead_abs hf.2 hf.1.le (fun m => he (slow - 1 + m)) k
  have hh := emaHead_abs hs.2 hs.1.le (fun m => le_refl |c (m + 1) - c m|) (i - 1)
  have q1 := (emaWt_bd (K := K) h1 (i - 1)).1
  have q2 := (emaWt_bd (K := K) h2 k).1
  change 0 < emaWt αs (i - 1) at q1
  change 0 < emaWt αf k at q2
  generalize emaHead αf (fun m => e (slow - 1 + m)) k = X at *
  generalize emaHead αf (fun m => a (slow - 1 + m)) k = Y at *
  generalize emaHead αs (fun m => c (m + 1) - c m) (i - 1) = u at *
  generalize emaHead αs (fun m => |c (m + 1) - c m|) (i - 1) = v at *
  generalize emaWt αs (i - 1) = r1 at *
  generalize emaWt αf k = r2 at *
  have g : |X + r2 * u| ≤ Y + r2 * v := by
    refine (abs_add_le _ _).trans (add_le_add hH ?_)
    rw [abs_mul, abs_of_pos q2]
    exact mul_le_mul_of_nonneg_left hh q2.le
  have gA : A k = (Y + r2 * v) + r2 * r1 * |c i - c (i - 1)| := by rw [PA, pa]; ring
  have gA' : A' k = (Y + r2 * v) + r2 * r1 * |c' i - c (i - 1)| := by rw [PA', pa']; ring
  have gE : E k = (X + r2 * u) + r2 * r1 * (c i - c (i - 1)) := by rw [PE, pe]; ring
  have gE' : E' k = (X + r2 * u) + r2 * r1 * (c' i - c (i - 1)) := by rw [PE', pe']; ring
  have n1 : 0 ≤ Y + r2 * v := (abs_nonneg _).trans g
  have q := mul_pos q2 q1
  have zA : 0 < (Y + r2 * v) + r2 * r1 * |c i - c (i - 1)| :=
    lt_of_le_of_ne (add_nonneg n1 (mul_nonneg q.le (abs_nonneg _))) (by rw [← gA]; exact hA.symm)
  have zA' : 0 < (Y + r2 * v) + r2 * r1 * |c' i - c (i - 1)| :=
    lt_of_le_of_ne (add_nonneg n1 (mul_nonneg q.le (abs_nonneg _))) (by rw [← gA']; exact hA'.symm)
  rw [gA, gA', gE, gE']
  exact mul_le_mul_of_nonneg_left (tsi_value_mono g q.le (sub_le_sub_right hc.now _) zA zA') (by norm_num)

/-- C99. The ultimate oscillator follows the close (weights that are not negative, windows that have moved). -/
theorem uo_rises (hc : HigherAt i c c') (hi : i < n) (hl : ∀ j, j < n → l j ≤ c j ∧ c j ≤ h j) (hl' : ∀ j, j < n → l j ≤ c' j ∧ c' j ≤ h j)
    {w1 w2 w3 : Nat} (p1 : 1 ≤ w1) (p2 : 1 ≤ w2) (p3 : 1 ≤ w3) {a b d : K} (ha : 0 ≤ a) (hb : 0 ≤ b) (hd : 0 ≤ d) (hs : 0 < a + b + d)
    (hp : max w1 (max w2 w3) ≤ i) (hmv : l i < h i) :
    Rises (ultimateOscillator (ser n h) (ser n l) (ser n c) w1 w2 w3 (.fin a) (.fin b) (.fin d))
      (ultimateOscillator (ser n h) (ser n l) (ser n c') w1 w2 w3 (.fin a) (.fin b) (.fin d)) i := by
  have f := uo_formula n h l c hl w1 w2 w3 p1 p2 p3 a b d hs.ne'
  have f' := uo_formula n h l c' hl' w1 w2 w3 p1 p2 p3 a b d hs.ne'
  dsimp only at f f'
  have e1 : ∀ w, ∑ j ∈ Finset.Ioc (i - w) i, (max (h j) (c' (j - 1)) - min (l j) (c' (j - 1)))
      = ∑ j ∈ Finset.Ioc (i - w) i, (max (h j) (c (j - 1)) - min (l j) (c (j - 1))) := fun w =>
    Finset.sum_congr rfl fun j hj => by
      have := Finset.mem_Ioc.mp hj
      rw [hc.before (j - 1) (by omega)]
  have e2 : ∀ w, ∑ j ∈ Finset.Ioc (i - w) i, (c j - min (l j) (c (j - 1)))
      ≤ ∑ j ∈ Finset.Ioc (i - w) i, (c' j - min (l j) (c' (j - 1))) := fun w =>
    Finset.sum_le_sum fun j hj => by
      have hj := Finset.mem_Ioc.mp hj
      rw [hc.before (j - 1) (by omega)]
      rcases Nat.lt_or_ge j i with h1 | h1
      · rw [hc.before j h1]
      · rw [show j = i by omega]; linarith [hc.now]
  have e3 : ∀ w, 1 ≤ w → 0 < ∑ j ∈ Finset.Ioc (i - w) i, (max (h j) (c (j - 1)) - min (l j) (c (j - 1))) := fun w hw => by
    refine Finset.sum_pos' (fun j hj => ?_) ⟨i, Finset.mem_Ioc.mpr (by omega), ?_⟩
    · exact sub_nonneg.mpr ((min_le_right _ _).trans (le_max_right _ _))
    · exact sub_pos.mpr ((min_le_left _ _).trans_lt (hmv.trans_le (le_max_left _ _)))
  refine ⟨_, _, f.2.2 i hi hp ?_, f'.2.2 i hi hp ?_, ?_⟩
  · rintro w (rfl | rfl | rfl) <;> exact (e3 _ (by assumption)).ne'
  · rintro w (rfl | rfl | rfl) <;> rw [e1] <;> exact (e3 _ (by assumption)).ne'
  · rw [e1, e1, e1]
    have q1 := mul_le_mul_of_nonneg_left (div_le_div_of_nonneg_right (e2 w1) (e3 w1 p1).le) ha
    have q2 := mul_le_mul_of_nonneg_left (div_le_div_of_nonneg_right (e2 w2) (e3 w2 p2).le) hb
    have q3 := mul_le_mul_of_nonneg_left (div_le_div_of_nonneg_right (e2 w3) (e3 w3 p3).le) hd
    exact div_le_div_of_nonneg_right (by linarith) hs.le

/-- rows before `i` are the same, row `i` (if it is a number in both) does not sink -/
structure HigherRow (i : Nat) (s s' : Series (Val K)) : Prop where
  before : ∀ j, j < i → ix s' j = ix s j
  now : ∀ x x', ix s i = .fin x → ix s' i = .fin x' → x ≤ x'

/-- a moving average without gaps in its window keeps the order -/
theorem HigherRow.mean {s s' t t' : Series (Val K)} (hs : HigherRow i s s') {w : Nat}
    (ht : ∀ j, j ≤ i → MeanRow s t w j) (ht' : ∀ j, j ≤ i → MeanRow s' t' w j) : HigherRow i t t' := by
  have fin : ∀ {s t : Series (Val K)} {j : Nat} {x : K}, MeanRow s t w j → ix t j = .fin x →
      w ≤ j + 1 ∧ ∀ k, k ≤ j → j < k + w → (ix s k).IsFin := by
    intro s t j x hm hx
    by_contra hcon
    rw [hm.2 hcon] at hx
    cases hx
  have eqn : ∀ {s t : Series (Val K)} {j : Nat} {x : K}, MeanRow s t w j → ix t j = .fin x →
      ∃ f : Nat → K, (∀ k, k ≤ j → j < k + w → ix s k = .fin (f k)) ∧ x = (∑ k ∈ Ico (j + 1 - w) (j + 1), f k) / w := by
    intro s t j x hm hx
    obtain ⟨h1, h2⟩ := fin hm hx
    have : ∀ k, ∃ y : K, k ≤ j → j < k + w → ix s k = .fin y := fun k => by
      by_cases hk : k ≤ j ∧ j < k + w
      · obtain ⟨y, hy⟩ := h2 k hk.1 hk.2
        exact ⟨y, fun _ _ => hy⟩
      · exact ⟨0, fun a b => absurd ⟨a, b⟩ hk⟩
    choose f hf using this
    have := hm.1 f h1 hf
    rw [hx] at this
    exact ⟨f, hf, Val.fin.inj this⟩
  constructor
  · intro j hj
    by_cases hg : w ≤ j + 1 ∧ ∀ k, k ≤ j → j < k + w → (ix s k).IsFin
    · have : ∀ k, ∃ y : K, k ≤ j → j < k + w → ix s k = .fin y := fun k => by
        by_cases hk : k ≤ j ∧ j < k + w
        · obtain ⟨y, hy⟩ := hg.2 k hk.1 hk.2
          exact ⟨y, fun _ _ => hy⟩
        · exact ⟨0, fun a b => absurd ⟨a, b⟩ hk⟩
      choose f hf using this
      rw [(ht j hj.le).1 f hg.1 hf, (ht' j hj.le).1 f hg.1 fun k h1 h2 => by rw [hs.before k (by omega)]; exact hf k h1 h2]
    · rw [(ht j hj.le).2 hg, (ht' j hj.le).2 fun hcon => hg ⟨hcon.1, fun k h1 h2 => by
        rw [← hs.before k (by omega)]; exact hcon.2 k h1 h2⟩]
  · intro x x' hx hx'
    obtain ⟨f, hf, rfl⟩ := eqn (ht i (le_refl _)) hx
    obtain ⟨f', hf', rfl⟩ := eqn (ht' i (le_refl _)) hx'
    refine div_le_div_of_nonneg_right (Finset.sum_le_sum fun k hk => ?_) (Nat.cast_nonneg _)
    have hk := Finset.mem_Ico.mp hk
    have a1 := hf k (by omega) (by omega)
    have a2 := hf' k (by omega) (by omega)
    rcases Nat.lt_or_ge k i with h1 | h1
    · rw [hs.before k h1, a1] at a2
      exact (Val.fin.inj a2).le
    · obtain rfl : k = i := by omega
      exact hs.now _ _ a1 a2

/-- C99. The stochastic oscillator and Williams %R follow the close, and so does the signal line of the former. -/
theorem stoch_rises (hc : HigherAt i c c') (hi : i < n) (hl : ∀ j, j < n → l j ≤ c j ∧ c j ≤ h j) (hl' : ∀ j, j < n → l j ≤ c' j ∧ c' j ≤ h j)
    {w : Nat} (hw : 1 ≤ w) {smooth : Nat} (hsm : 1 ≤ smooth) :
    HigherRow i (stoch (ser n h) (ser n l) (ser n c) w) (stoch (ser n h) (ser n l) (ser n c') w) ∧
    HigherRow i (williamsR (ser n h) (ser n l) (ser n c) w) (williamsR (ser n h) (ser n l) (ser n c') w) ∧
    HigherRow i (stochSignal (ser n h) (ser n l) (ser n c) w smooth) (stochSignal (ser n h) (ser n l) (ser n c') w smooth) ∧
    (w ≤ i + 1 → l i < h i → Rises (stoch (ser n h) (ser n l) (ser n c) w) (stoch (ser n h) (ser n l) (ser n c') w) i) := by
  obtain ⟨M, m, hM, hm, ln, g, v⟩ := stoch_formula n h l c hl w hw
  obtain ⟨M', m', hM', hm', ln', g', v'⟩ := stoch_formula n h l c' hl' w hw
  have eM : ∀ j, M' j = M j := fun j => by
    obtain ⟨⟨a, a1, a2, a3⟩, b⟩ := hM j
    obtain ⟨⟨a', a1', a2', a3'⟩, b'⟩ := hM' j
    exact le_antisymm (a3' ▸ b a' a1' a2') (a3 ▸ b' a a1 a2)
  have em : ∀ j, m' j = m j := fun j => by
    obtain ⟨⟨a, a1, a2, a3⟩, b⟩ := hm j
    obtain ⟨⟨a', a1', a2', a3'⟩, b'⟩ := hm' j
    exact le_antisymm (a3 ▸ b' a a1 a2) (a3' ▸ b a' a1' a2')
  have hle : m i ≤ M i := (((hm i).2 i (le_refl _) (by omega)).trans ((hl i hi).1.trans (hl i hi).2)).trans ((hM i).2 i (le_refl _) (by omega))
  have mono : 100 * (c i - m i) / (M i - m i) ≤ 100 * (c' i - m i) / (M i - m i) :=
    div_le_div_of_nonneg_right (by linarith [hc.now]) (sub_nonneg.mpr hle)
  have hrow : HigherRow i (stoch (ser n h) (ser n l) (ser n c) w) (stoch (ser n h) (ser n l) (ser n c') w) := by
    constructor
    · intro j hj
      by_cases hp : w - 1 ≤ j
      · rw [v j (by omega) hp, v' j (by omega) hp, eM, em, hc.before j hj]
      · rw [g j (by omega) (by omega), g' j (by omega) (by omega)]
    · intro x x' hx hx'
      by_cases hp : w - 1 ≤ i
      · rw [v i hi hp] at hx
        rw [v' i hi hp, eM, em] at hx'
        split_ifs at hx with hz
        rw [if_neg hz] at hx'
        obtain rfl := Val.fin.inj hx
        obtain rfl := Val.fin.inj hx'
        exact mono
      · rw [g i hi (by omega)] at hx; cases hx
  refine ⟨hrow, ?_, ?_, ?_⟩
  · have hL : ∀ x : Nat → K, (ser n x).length = n := fun x => by simp [ser]
    rw [williamsR_eq_stoch _ _ _ (by rw [hL, hL]) (by rw [hL, hL]), williamsR_eq_stoch _ _ _ (by rw [hL, hL]) (by rw [hL, hL])]
    constructor
    · intro j hj
      rw [ix_map (by rw [ln']; omega), ix_map (by rw [ln]; omega), hrow.before j hj]
    · intro x x' hx hx'
      rw [ix_map (by rw [ln]; exact hi)] at hx
      rw [ix_map (by rw [ln']; exact hi)] at hx'
      have sub100 : ∀ {v : Val K} {y : K}, v -. .fin 100 = .fin y → v = .fin (y + 100) := by
        intro v y hy
        cases v with
        | fin z => rw [fin_sub] at hy; rw [← Val.fin.inj hy]; congr 1; ring
        | nan => cases hy
        | pinf => cases hy
        | ninf => cases hy
      have := hrow.now _ _ (sub100 hx) (sub100 hx')
      linarith
  · have hK : ∀ x : Nat → K, stoch (ser n h) (ser n l) (ser n x) w = Stoch.k (ser n h) (ser n l) (ser n x) w false := fun x => rfl
    have hS : ∀ x : Nat → K, stochSignal (ser n h) (ser n l) (ser n x) w smooth
        = rollMean smooth smooth (stoch (ser n h) (ser n l) (ser n x) w) := fun x => rfl
    rw [hS, hS]
    exact hrow.mean (fun j hj => meanRow_rollMean hsm (by rw [ln]; omega)) (fun j hj => meanRow_rollMean hsm (by rw [ln']; omega))
  · intro hp hlt
    have hne : M i ≠ m i :=
      (((hm i).2 i (le_refl _) (by omega)).trans_lt (hlt.trans_le ((hM i).2 i (le_refl _) (by omega)))).ne'
    refine ⟨_, _, ?_, ?_, mono⟩
    · rw [v i hi (by omega), if_neg hne]
    · rw [v' i hi (by omega), eM, em, if_neg hne]

/-- the position of the last value between the smallest and the largest of a window rises with it -/
theorem position_rises {f f' : Nat → K} {w : Nat} (hb : ∀ k, k < i → i < k + w → f' k = f k) (hn : f i ≤ f' i) (hw : 1 ≤ w)
    {M m M' m' : K}
    (hM : IsGreatest {x | ∃ j, j ≤ i ∧ i < j + w ∧ x = f j} M) (hm : IsLeast {x | ∃ j, j ≤ i ∧ i < j + w ∧ x = f j} m)
    (hM' : IsGreatest {x | ∃ j, j ≤ i ∧ i < j + w ∧ x = f' j} M') (hm' : IsLeast {x | ∃ j, j ≤ i ∧ i < j + w ∧ x = f' j} m') :
    (f i - m) / (M - m) ≤ (f' i - m') / (M' - m') := by
  have a1 : m ≤ f i := hm.2 ⟨i, le_refl _, by omega, rfl⟩
  have a2 : f i ≤ M := hM.2 ⟨i, le_refl _, by omega, rfl⟩
  have b1 : m' ≤ f' i := hm'.2 ⟨i, le_refl _, by omega, rfl⟩
  have b2 : f' i ≤ M' := hM'.2 ⟨i, le_refl _, by omega, rfl⟩
  rcases a1.eq_or_lt with e | lt
  · rw [← e, sub_self, zero_div]
    exact div_nonneg (sub_nonneg.mpr b1) (by linarith)
  · obtain ⟨j, j1, j2, rfl⟩ := hm.1
    have hj : j < i := lt_of_le_of_ne j1 (by rintro rfl; exact lt_irrefl _ lt)
    have em : m' = f j := by
      refine le_antisymm ?_ ?_
      · exact hm'.2 ⟨j, j1, j2, (hb j hj j2).symm⟩
      · obtain ⟨k, k1, k2, rfl⟩ := hm'.1
        rcases Nat.lt_or_ge k i with hk | hk
        · rw [hb k hk k2]; exact hm.2 ⟨k, k1, k2, rfl⟩
        · rw [show k = i by omega]; exact lt.le.trans hn
    rw [em]
    have lt' : f j < f' i := lt.trans_le hn
    rcases b2.eq_or_lt with e | ltM
    · rw [e, div_self (by linarith), div_le_one (by linarith)]
      linarith
    · obtain ⟨k, k1, k2, rfl⟩ := hM'.1
      have hk : k < i := lt_of_le_of_ne k1 (by rintro rfl; exact lt_irrefl _ ltM)
      have eM : M = f' k := by
        refine le_antisymm ?_ ?_
        · obtain ⟨t, t1, t2, rfl⟩ := hM.1
          rcases Nat.lt_or_ge t i with ht | ht
          · rw [← hb t ht t2]; exact hM'.2 ⟨t, t1, t2, rfl⟩
          · rw [show t = i by omega]; exact hn.trans b2
        · rw [hb k hk k2]; exact hM.2 ⟨k, k1, k2, rfl⟩
      rw [eM]
      exact div_le_div_of_nonneg_right (by linarith [hn]) (by linarith)

theorem window_same {f f' : Nat → K} {j w : Nat} (h : ∀ k, k ≤ j → j < k + w → f' k = f k) :
    {x | ∃ k, k ≤ j ∧ j < k + w ∧ x = f' k} = {x | ∃ k, k ≤ j ∧ j < k + w ∧ x = f k} := by
  ext x
  constructor
  · rintro ⟨k, k1, k2, rfl⟩; exact ⟨k, k1, k2, h k k1 k2⟩
  · rintro ⟨k, k1, k2, rfl⟩; exact ⟨k, k1, k2, (h k k1 k2).symm⟩

theorem PosOf.higher {f f' g g' : Nat → K} {w p : Nat} (hw : 1 ≤ w) (hg : PosOf f w g) (hg' : PosOf f' w g')
    (hb : ∀ k, p ≤ k → k < i → f' k = f k) (hn : f i ≤ f' i) (hp : p + w - 1 ≤ i) :
    (∀ k, p + w - 1 ≤ k → k < i → g' k = g k) ∧ g i ≤ g' i := by
  constructor
  · intro j hpj hj
    obtain ⟨M, m, h1, h2, h3⟩ := hg j
    obtain ⟨M', m', h1', h2', h3'⟩ := hg' j
    rw [window_same fun k hk hk2 => hb k (by omega) (by omega)] at h1' h2'
    rw [h3, h3', h1.unique h1', h2.unique h2', hb j (by omega) hj]
  · obtain ⟨M, m, h1, h2, h3⟩ := hg i
    obtain ⟨M', m', h1', h2', h3'⟩ := hg' i
    rw [h3, h3', mul_div_assoc, mul_div_assoc]
    exact mul_le_mul_of_nonneg_left (position_rises (fun k h1 h2 => hb k (by omega) h1) hn hw h1 h2 h1' h2') (by norm_num)

/-- C99. StochRSI, its %K and its %D follow the close. -/
theorem stochrsi_rises (hc : HigherAt i c c') (hi : i < n) {w s1 s2 : Nat} (hs1 : 1 ≤ s1) (hs2 : 1 ≤ s2) {o o' : StochRSI (Val K)}
    (ho : StochRSI.new (ser n c) w s1 s2 = .ok o) (ho' : StochRSI.new (ser n c') w s1 s2 = .ok o') :
    HigherRow i o.stochrsi o'.stochrsi ∧ HigherRow i o.stochrsiK o'.stochrsiK ∧ HigherRow i o.stochrsiD o'.stochrsiD := by
  have hw : 1 ≤ w := by
    by_contra hw
    unfold StochRSI.new rsi at ho
    rw [if_pos (by omega)] at ho
    cases ho
  obtain ⟨_, _, -, -, -, -, -, r, hr, dr, -⟩ := rsi_formula n c w hw false
  obtain ⟨_, _, -, -, -, -, -, r', hr', dr', -⟩ := rsi_formula n c' w hw false
  have hln : ∀ x : Nat → K, (ser n x).length = n := fun x => by simp [ser]
  have F := fun j (hj : j < n) => stochrsi_formula hs1 hs2 hr ho (i := j) (by rw [hln]; exact hj)
  have F' := fun j (hj : j < n) => stochrsi_formula hs1 hs2 hr' ho' (i := j) (by rw [hln]; exact hj)
  have hrow : ∀ j, j < i → ix r' j = ix r j := by
    intro j hj
    rcases Nat.lt_or_ge i (w - 1) with h1 | h1
    · rw [dr.gap j (by omega) (by simp; omega), dr'.gap j (by omega) (by simp; omega)]
    · exact (rsi_rises hc hi hr hr' (by simpa using h1)).1 j hj
  have hraw : HigherRow i o.stochrsi o'.stochrsi := by
    constructor
    · intro j hj
      by_cases hg : w ≤ j + 1 ∧ ∀ k, k ≤ j → j < k + w → (ix r k).IsFin
      · have : ∀ k, ∃ y : K, k ≤ j → j < k + w → ix r k = .fin y := fun k => by
          by_cases hk : k ≤ j ∧ j < k + w
          · obtain ⟨y, hy⟩ := hg.2 k hk.1 hk.2
            exact ⟨y, fun _ _ => hy⟩
          · exact ⟨0, fun a b => absurd ⟨a, b⟩ hk⟩
        choose R hR using this
        obtain ⟨M, m, g1, g2, g3⟩ := (F j (by omega)).1 R hg.1 hR
        obtain ⟨M', m', g1', g2', g3'⟩ := (F' j (by omega)).1 R hg.1 fun k h1 h2 => by
          rw [hrow k (by omega)]; exact hR k h1 h2
        rw [g3, g3', g1.unique g1', g2.unique g2']
      · rw [(F j (by omega)).2.1 hg, (F' j (by omega)).2.1 fun hcon => hg ⟨hcon.1, fun k h1 h2 => by
          rw [← hrow k (by omega)]; exact hcon.2 k h1 h2⟩]
    · intro x x' hx hx'
      have hg : w ≤ i + 1 ∧ ∀ k, k ≤ i → i < k + w → (ix r k).IsFin := by
        by_contra hcon
        rw [(F i hi).2.1 hcon] at hx; cases hx
      have hpi : (if false = true then 0 else w - 1) ≤ i := by simp; omega
      obtain ⟨y, y', hy, hy', hle⟩ := (rsi_rises hc hi hr hr' hpi).2
      have : ∀ k, ∃ y : K, k ≤ i → i < k + w → ix r k = .fin y := fun k => by
        by_cases hk : k ≤ i ∧ i < k + w
        · obtain ⟨y, hy⟩ := hg.2 k hk.1 hk.2
          exact ⟨y, fun _ _ => hy⟩
        · exact ⟨0, fun a b => absurd ⟨a, b⟩ hk⟩
      choose R hR using this
      have eR : R i = y := by
        have := hR i (le_refl _) (by omega)
        rw [hy] at this; exact (Val.fin.inj this).symm
      have hH : HigherAt i R (fun k => if k = i then y' else R k) :=
        ⟨fun k hk => by simp [show k ≠ i by omega], by simp [eR, hle]⟩
      obtain ⟨M, m, g1, g2, g3⟩ := (F i hi).1 R hg.1 hR
      obtain ⟨M', m', g1', g2', g3'⟩ := (F' i hi).1 (fun k => if k = i then y' else R k) hg.1 fun k h1 h2 => by
        by_cases hk : k = i
        · subst hk; simpa using hy'
        · rw [hrow k (by omega)]; simpa [hk] using hR k h1 h2
      rw [hx] at g3
      rw [hx'] at g3'
      by_cases z1 : M = m
      · rw [if_pos z1] at g3; cases g3
      by_cases z2 : M' = m'
      · rw [if_pos z2] at g3'; cases g3'
      rw [if_neg z1] at g3
      rw [if_neg z2] at g3'
      rw [Val.fin.inj g3, Val.fin.inj g3']
      simpa using position_rises (fun k h _ => hH.before k h) hH.now hw g1 g2 g1' g2'
  have hK := hraw.mean (fun j hj => (F j (by omega)).2.2.1) (fun j hj => (F' j (by omega)).2.2.1)
  exact ⟨hraw, hK, hK.mean (fun j hj => (F j (by omega)).2.2.2) (fun j hj => (F' j (by omega)).2.2.2)⟩

/-- C99. STC follows the close (fast window not longer than the slow one; both MACD lines and both first smoothings move within
every cycle). -/
theorem stc_rises (hc : HigherAt i c c') (hi : i < n) {slow fast cycle s1 s2 : Nat} (hfs : fast ≤ slow) (hcy : 1 ≤ cycle) (h1 : 1 ≤ s1)
    (h2 : 1 ≤ s2) {fillna : Bool} {out out' : Series (Val K)} (ho : stc (ser n c) slow fast cycle s1 s2 fillna = .ok out)
    (ho' : stc (ser n c') slow fast cycle s1 s2 fillna = .ok out') {L L' : Nat → K}
    (hL : ∀ i, L i = emaRec (2 / ((fast : K) + 1)) c i - emaRec (2 / ((slow : K) + 1)) c i)
    (hL' : ∀ i, L' i = emaRec (2 / ((fast : K) + 1)) c' i - emaRec (2 / ((slow : K) + 1)) c' i) {p q : Nat}
    (hp : p = (if fillna then 0 else max slow fast - 1) + cycle - 1) (hq : q = p + (if fillna then 0 else s1 - 1) + cycle - 1)
    (nf : NonFlat L cycle p n) (nf' : NonFlat L' cycle p n)
    (nfD : ∀ A, PosOf L cycle A → NonFlat (fun i => emaRec (2 / ((s1 : K) + 1)) (fun j => A (p + j)) (i - p)) cycle q n)
    (nfD' : ∀ A, PosOf L' cycle A → NonFlat (fun i => emaRec (2 / ((s1 : K) + 1)) (fun j => A (p + j)) (i - p)) cycle q n)
    (hqi : q + (s2 - 1) ≤ i) : Rises out out' i := by
  obtain ⟨p0, q0, L0, rfl, rfl, l0, f0⟩ := stc_formula hcy ho
  obtain ⟨p1, q1, L1, rfl, rfl, l1, f1⟩ := stc_formula hcy ho'
  obtain rfl : L0 = L := funext fun j => by rw [l0, hL]
  obtain rfl : L1 = L' := funext fun j => by rw [l1, hL']
  subst hp hq
  obtain ⟨A, D, hA, hD, g⟩ := f0 nf
  obtain ⟨A', D', hA', hD', g'⟩ := f1 nf'
  obtain ⟨B, S, hB, hS, v1, v2⟩ := g (by rw [funext hD]; exact nfD A hA)
  obtain ⟨B', S', hB', hS', v1', v2'⟩ := g' (by rw [funext hD']; exact nfD' A' hA')
  have kL : HigherAt i L0 L1 := by
    refine ⟨fun j hj => by rw [hL, hL', hc.emaBefore _ hj, hc.emaBefore _ hj], ?_⟩
    rw [hL, hL', hc.ema, hc.ema]
    have := mul_nonneg (sub_nonneg.mpr (emaWt_fast (K := K) hfs i)) (sub_nonneg.mpr hc.now)
    linarith
  have kA := hA.higher (p := 0) hcy hA' (fun k _ h => kL.before k h) kL.now (by omega)
  have lift : ∀ {f f' g g' : Nat → K} {p w : Nat}, 1 ≤ w → p ≤ i → (∀ k, p ≤ k → k < i → f' k = f k) ∧ f i ≤ f' i →
      (∀ i, g i = emaRec (2 / ((w : K) + 1)) (fun j => f (p + j)) (i - p)) →
      (∀ i, g' i = emaRec (2 / ((w : K) + 1)) (fun j => f' (p + j)) (i - p)) →
      (∀ k, p ≤ k → k < i → g' k = g k) ∧ g i ≤ g' i := by
    intro f f' g g' p w hw hpi hf hg hg'
    refine ⟨fun j hpj hj => ?_, ?_⟩
    · rw [hg, hg']
      exact emaRec_same fun k hk => hf.1 _ (by omega) (by omega)
    · rw [hg, hg']
      have : HigherAt (i - p) (fun j => f (p + j)) (fun j => f' (p + j)) :=
        ⟨fun k hk => hf.1 _ (by omega) (by omega), by simpa [Nat.add_sub_cancel' hpi] using hf.2⟩
      exact (this.emas hw).now
  have kD := lift h1 (by omega) ⟨fun k hk => kA.1 k (by omega), kA.2⟩ hD hD'
  have kB := hB.higher hcy hB' kD.1 kD.2 (by omega)
  have kS := lift h2 (by omega) ⟨fun k hk => kB.1 k (by omega), kB.2⟩ hS hS'
  cases fillna with
  | false => exact (v1 rfl).rises (v1' rfl) hi hqi kS.2
  | true =>
    refine (v2 rfl).rises (v2' rfl) hi (Nat.zero_le _) ?_
    rw [if_neg (by omega), if_neg (by omega)]
    exact kS.2

/-- the mean absolute deviation moves at most twice as fast as the last deviation, over the length of the window -/
theorem mad_near {f f' : Nat → K} (hf : HigherAt i f f') {w : Nat} (hw : 1 ≤ w) :
    |wmad f' w i - wmad f w i| ≤ 2 / (min w (i + 1) : ℕ) * ((f' i - wmean f' w i) - (f i - wmean f w i)) := by
  have hm : (0 : K) < (min w (i + 1) : ℕ) := by exact_mod_cast (by omega : 0 < min w (i + 1))
  have hA := hf.wmean hw
  have e : ∀ g : Nat → K, wmad g w i = (∑ j ∈ Ico (i + 1 - w) (i + 1), |g j - wmean g w i|) / (min w (i + 1) : ℕ) := fun g => rfl
  rw [e, e]
  rw [← sub_div, ← Finset.sum_sub_distrib, abs_div, abs_of_pos hm, div_mul_eq_mul_div]
  refine div_le_div_of_nonneg_right ?_ hm.le
  refine (Finset.abs_sum_le_sum_abs _ _).trans ?_
  rw [Finset.sum_Ico_succ_top (by omega)]
  have e0 : 0 ≤ (f' i - f i) / (min w (i + 1) : ℕ) := div_nonneg (sub_nonneg.mpr hf.now) hm.le
  have e1 : (f' i - f i) / (min w (i + 1) : ℕ) ≤ f' i - f i :=
    div_le_self (sub_nonneg.mpr hf.now) (by exact_mod_cast (by omega : 1 ≤ min w (i + 1)))
  have e2 : ((min w (i + 1) : ℕ) : K) * ((f' i - f i) / (min w (i + 1) : ℕ)) = f' i - f i := mul_div_cancel₀ _ hm.ne'
  have a1 : ∑ j ∈ Ico (i + 1 - w) i, |(|f' j - wmean f' w i| - |f j - wmean f w i|)|
      ≤ (((min w (i + 1) : ℕ) : K) - 1) * ((f' i - f i) / (min w (i + 1) : ℕ)) := by
    refine (Finset.sum_le_card_nsmul _ _ ((f' i - f i) / (min w (i + 1) : ℕ)) fun j hj => ?_).trans (le_of_eq ?_)
    · refine (abs_abs_sub_abs_le_abs_sub _ _).trans ?_
      rw [hf.before j (Finset.mem_Ico.mp hj).2, hA]
      rw [show f j - (wmean f w i + (f' i - f i) / (min w (i + 1) : ℕ)) - (f j - wmean f w i) = -((f' i - f i) / (min w (i + 1) : ℕ)) by ring,
        abs_neg, abs_of_nonneg e0]
    · rw [nsmul_eq_mul, Nat.card_Ico, show i - (i + 1 - w) = min w (i + 1) - 1 by omega, Nat.cast_sub (by omega), Nat.cast_one]
  have a2 : |(|f' i - wmean f' w i| - |f i - wmean f w i|)| ≤ (f' i - f i) - (f' i - f i) / (min w (i + 1) : ℕ) := by
    refine (abs_abs_sub_abs_le_abs_sub _ _).trans ?_
    rw [hA, abs_of_nonneg (by linarith)]
    linarith
  refine (add_le_add a1 a2).trans ?_
  rw [sub_mul, e2, hA]
  linarith

/-- a deviation over a scale that moves at most `2 / m` times as fast and is at least `2 / m` of the deviation -/
theorem dev_ratio_mono {u u' M M' m k : K} (hm : 0 < m) (hk : 0 < k) (hM : 0 < M) (hM' : 0 < M') (hu : u ≤ u') (h1 : |M' - M| ≤ 2 / m * (u' - u))
    (h2 : |u| ≤ m / 2 * M) (h3 : |u'| ≤ m / 2 * M') : u / (k * M) ≤ u' / (k * M') := by
  have b := abs_le.mp h1
  rw [div_le_div_iff₀ (mul_pos hk hM) (mul_pos hk hM')]
  suffices h : u * M' ≤ u' * M by nlinarith [mul_le_mul_of_nonneg_left h hk.le]
  have key : ∀ {x y z d : K}, 0 ≤ x → x ≤ m / 2 * y → z ≤ y + 2 / m * d → 0 ≤ d → x * z ≤ (x + d) * y := by
    intro x y z d hx hxy hz hd
    have t1 : x * z ≤ x * (y + 2 / m * d) := mul_le_mul_of_nonneg_left hz hx
    have t2 : x * (2 / m * d) ≤ m / 2 * y * (2 / m * d) :=
      mul_le_mul_of_nonneg_right hxy (mul_nonneg (div_nonneg zero_le_two hm.le) hd)
    have t3 : m / 2 * y * (2 / m * d) = d * y := by field_simp
    linarith
  rcases le_total 0 u with h0 | h0
  · have := key h0 ((le_abs_self u).trans h2) (by linarith [b.2] : M' ≤ M + 2 / m * (u' - u)) (sub_nonneg.mpr hu)
    linarith
  · rcases le_total 0 u' with h0' | h0'
    · exact (mul_nonpos_of_nonpos_of_nonneg h0 hM'.le).trans (mul_nonneg h0' hM.le)
    · have := key (neg_nonneg.mpr h0') ((neg_le_abs u').trans h3) (by linarith [b.1] : M ≤ M' + 2 / m * (u' - u)) (sub_nonneg.mpr hu)
      linarith

/-- C99. CCI follows the close wherever it is a number in both markets. -/
theorem cci_rises (hc : HigherAt i c c') (hi : i < n) {w : Nat} (hw : 1 ≤ w) {k : K} (hk : 0 < k) {fillna : Bool}
    (hp : fillna = true ∨ w - 1 ≤ i) (hm : wmad (fun j => (h j + l j + c j) / 3) w i ≠ 0)
    (hm' : wmad (fun j => (h j + l j + c' j) / 3) w i ≠ 0) :
    Rises (cci (ser n h) (ser n l) (ser n c) w (.fin k) fillna) (cci (ser n h) (ser n l) (ser n c') w (.fin k) fillna) i := by
  obtain ⟨T, A, M, hT, hA, hM, -, v, -⟩ := cci_formula n h l c hw hk.ne' fillna
  obtain ⟨T', A', M', hT', hA', hM', -, v', -⟩ := cci_formula n h l c' hw hk.ne' fillna
  obtain rfl := funext hT
  obtain rfl := funext hT'
  have eA : A = wmean (fun j => (h j + l j + c j) / 3) w := funext hA
  have eA' : A' = wmean (fun j => (h j + l j + c' j) / 3) w := funext hA'
  subst eA eA'
  have eM : M = wmad (fun j => (h j + l j + c j) / 3) w := funext hM
  have eM' : M' = wmad (fun j => (h j + l j + c' j) / 3) w := funext hM'
  subst eM eM'
  refine ⟨_, _, v i hi hp hm, v' i hi hp hm', ?_⟩
  have hf : HigherAt i (fun j => (h j + l j + c j) / 3) (fun j => (h j + l j + c' j) / 3) :=
    ⟨fun j hj => by rw [hc.before j hj], by have := hc.now; linarith⟩
  have hpos : ∀ (g : Nat → K), wmad g w i ≠ 0 → 0 < wmad g w i := fun g hg =>
    lt_of_le_of_ne (div_nonneg (Finset.sum_nonneg fun _ _ => abs_nonneg _) (Nat.cast_nonneg _)) (Ne.symm hg)
  have hmm : (1 : K) ≤ (min w (i + 1) : ℕ) := by exact_mod_cast (by omega : 1 ≤ min w (i + 1))
  refine dev_ratio_mono (by linarith) hk (hpos _ hm) (hpos _ hm') ?_ (mad_near hf hw)
    (dev_le_mad (fun j => (h j + l j + c j) / 3) hw i) (dev_le_mad (fun j => (h j + l j + c' j) / 3) hw i)
  rw [hf.wmean hw]
  have := div_le_self (sub_nonneg.mpr hf.now) hmm
  linarith

/-- C99. DPO compares an older close with the mean of the window: it falls when the close in hand rises. -/
theorem dpo_sinks (hc : HigherAt i c c') (hi : i < n) {w : Nat} (hw : 1 ≤ w) {fillna : Bool} (hp : (if fillna then 0 else w - 1) ≤ i)
    (hs : w / 2 + 1 ≤ i ∨ n = i + 1) : Sinks (dpo (ser n c) w fillna) (dpo (ser n c') w fillna) i := by
  refine (dpo_formula n c hw fillna).sinks (dpo_formula n c' hw fillna) hi hp ?_
  have hm : (0 : K) < (min w (i + 1) : ℕ) := by exact_mod_cast (by omega : 0 < min w (i + 1))
  have e0 := sub_nonneg.mpr hc.now
  rw [hc.wsum hw, add_div]
  by_cases hlt : i < w / 2 + 1
  · obtain rfl : n = i + 1 := by omega
    rw [if_pos hlt, if_pos hlt, Finset.sum_range_succ, Finset.sum_range_succ,
      Finset.sum_congr rfl fun j hj => hc.before j (Finset.mem_range.mp hj)]
    have : (c' i - c i) / ((i + 1 : ℕ) : K) ≤ (c' i - c i) / (min w (i + 1) : ℕ) :=
      div_le_div_of_nonneg_left e0 hm (by exact_mod_cast (by omega : min w (i + 1) ≤ i + 1))
    have e : (∑ j ∈ range i, c j + c' i) / ((i + 1 : ℕ) : K) = (∑ j ∈ range i, c j + c i) / ((i + 1 : ℕ) : K) + (c' i - c i) / ((i + 1 : ℕ) : K) := by
      rw [← add_div]; congr 1; ring
    rw [e]
    linarith
  · rw [if_neg hlt, if_neg hlt, hc.before _ (by omega)]
    have := div_nonneg e0 hm.le
    linarith

end oscillators

/-! ## concrete markets -/

section examples
attribute [local instance] toyFn

/-- closes of a small market, and the same with a higher last close -/
def dayA : Series (Val ℚ) := qs [10, 12, 11, 13, 12]
def dayB : Series (Val ℚ) := qs [10, 12, 11, 13, 15]

example : HigherAt (K := ℚ) 4 (fun j => [10, 12, 11, 13, 12].getD j 0) (fun j => [10, 12, 11, 13, 15].getD j 0) :=
  ⟨by decide +kernel, by decide +kernel⟩
example : ix (smaIndicator dayA 3) 4 = .fin 12 ∧ ix (smaIndicator dayB 3) 4 = .fin 13 := by decide +kernel
example : ix (wma dayA 2) 4 = .fin (37 / 3) ∧ ix (wma dayB 2) 4 = .fin (43 / 3) := by decide +kernel
example : (rsi dayA 3).map (ix · 4) = .ok (.fin (400 / 7)) := by decide +kernel
example : (rsi dayB 3).map (ix · 4) = .ok (.fin (5300 / 59)) := by decide +kernel
example : ix (dpo dayA 3) 4 = .fin (-1) ∧ ix (dpo dayB 3) 4 = .fin (-2) := by decide +kernel
example : ix (roc dayA 2) 4 = .fin (100 / 11) ∧ ix (roc dayB 2) 4 = .fin (400 / 11) := by decide +kernel
example : (PPO.new dayA 3 2 2).map (fun o => (ix o.ppo 4, ix o.ppoSignal 4, ix o.ppoHist 4))
    = .ok (.fin (250 / 243), .fin (11900 / 8019), .fin (-3650 / 8019)) := by
  decide +kernel
example : (PPO.new dayB 3 2 2).map (fun o => (ix o.ppo 4, ix o.ppoSignal 4, ix o.ppoHist 4))
    = .ok (.fin (10100 / 2187), .fin (279800 / 72171), .fin (53500 / 72171)) := by
  decide +kernel
example : ix (cci dayA (qs [9, 9, 9, 9, 9]) dayA 3 (.fin 1)) 4 = .fin 0 := by decide +kernel
example : ix (cci dayA (qs [9, 9, 9, 9, 9]) dayB 3 (.fin 1)) 4 = .fin 1 := by decide +kernel

/-- C99. KAMA need not follow the close: ending higher it is 66/25 instead of 67/25 (the higher close is further from where the
window began, so that the average moves faster, and it still moves down). -/
theorem kama_not_rising : ix (kama (qs [1, 1, 3, 1]) 2 1 4) 3 = .fin (67 / 25) ∧
    ix (kama (qs [1, 1, 3, 2]) 2 1 4) 3 = .fin (66 / 25) ∧
    ix (kama (qs [1, 1, 3, 4]) 2 1 4) 3 = .fin 4 := by decide +kernel

/-- C99. The money flow index need not follow the close: on a falling typical price a higher one is a larger outflow. -/
theorem mfi_not_rising :
    (let p := qs [10, 12, 6]; ix (moneyFlowIndex p p p (qs [1, 1, 1]) 2) 2 = .fin (200 / 3)) ∧
    (let p := qs [10, 12, 9]; ix (moneyFlowIndex p p p (qs [1, 1, 1]) 2) 2 = .fin (400 / 7)) ∧
    (let p := qs [10, 12, 15]; ix (moneyFlowIndex p p p (qs [1, 1, 1]) 2) 2 = .fin 100) := by decide +kernel

end examples


end TA
