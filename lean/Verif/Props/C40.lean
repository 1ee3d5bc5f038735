import Verif.Props.C19
import Verif.Props.C31

/-! # C40: line, signal and histogram of MACD, PPO, PVO, KST, Vortex and Aroon -/

set_option linter.unusedSectionVars false

namespace TA
open Finset
variable {K : Type} [Field K] [LinearOrder K] [IsStrictOrderedRing K]

/-! ## The constructors -/

theorem macd_new {F : Type} [Flt F] {x : Series F} {slow fast sign : Nat} {fillna : Bool} {o : MACD F}
    (ho : MACD.new x slow fast sign fillna = .ok o) :
    1 ≤ slow ∧ 1 ≤ fast ∧ 1 ≤ sign ∧ o = MACD.run x slow fast sign fillna := by
  unfold MACD.new chkSpan at ho
  by_cases h1 : fast < 1
  · rw [if_pos h1] at ho; cases ho
  by_cases h2 : slow < 1
  · rw [if_neg h1, if_pos h2] at ho; cases ho
  by_cases h3 : sign < 1
  · rw [if_neg h1, if_neg h2, if_pos h3] at ho; cases ho
  rw [if_neg h1, if_neg h2, if_neg h3] at ho
  exact ⟨by omega, by omega, by omega, (Except.ok.inj ho).symm⟩

theorem ppo_new {F : Type} [Flt F] {x : Series F} {slow fast sign : Nat} {fillna : Bool} {o : PPO F}
    (ho : PPO.new x slow fast sign fillna = .ok o) :
    1 ≤ slow ∧ 1 ≤ fast ∧ 1 ≤ sign ∧ o = PPO.run x slow fast sign fillna := by
  unfold PPO.new chkSpan at ho
  by_cases h1 : fast < 1
  · rw [if_pos h1] at ho; cases ho
  by_cases h2 : slow < 1
  · rw [if_neg h1, if_pos h2] at ho; cases ho
  by_cases h3 : sign < 1
  · rw [if_neg h1, if_neg h2, if_pos h3] at ho; cases ho
  rw [if_neg h1, if_neg h2, if_neg h3] at ho
  exact ⟨by omega, by omega, by omega, (Except.ok.inj ho).symm⟩

/-! ## Histogram = line - signal, on any data and in any arithmetic -/

/-- C40. In any arithmetic and on any data, with `fillna=False`, every row of the histogram / difference is the
difference of the same rows of the two lines. -/
theorem hist_eq {F : Type} [Flt F] (i : Nat) :
    (∀ (x : Series F) (slow fast sign : Nat) (o : MACD F), MACD.new x slow fast sign = .ok o → i < x.length →
      ix o.macdDiff i = ix o.macd i -. ix o.macdSignal i) ∧
    (∀ (x : Series F) (slow fast sign : Nat) (o : PPO F), PPO.new x slow fast sign = .ok o → i < x.length →
      ix o.ppoHist i = ix o.ppo i -. ix o.ppoSignal i) ∧
    (∀ (x : Series F) (r1 r2 r3 r4 w1 w2 w3 w4 nsig : Nat), i < x.length →
      ix (kstDiff x r1 r2 r3 r4 w1 w2 w3 w4 nsig) i
        = ix (kst x r1 r2 r3 r4 w1 w2 w3 w4) i -. ix (kstSig x r1 r2 r3 r4 w1 w2 w3 w4 nsig) i) ∧
    (∀ (h l c : Series F) (w : Nat), i < h.length →
      ix (vortexDiff h l c w) i = ix (vortexPos h l c w) i -. ix (vortexNeg h l c w) i) ∧
    (∀ (h l : Series F) (w : Nat) (o : Aroon F), Aroon.new h l w = .ok o → i < h.length →
      ix o.aroonIndicator i = ix o.aroonUp i -. ix o.aroonDown i) := by
  refine ⟨fun x slow fast sign o ho hi => ?_, fun x slow fast sign o ho hi => ?_,
    fun x r1 r2 r3 r4 w1 w2 w3 w4 nsig hi => ?_, fun h l c w hi => ?_, fun h l w o ho hi => ?_⟩
  · obtain ⟨_, _, _, rfl⟩ := macd_new ho
    exact ix_ssub (by simpa [MACD.run] using hi)
  · obtain ⟨_, _, _, rfl⟩ := ppo_new ho
    exact ix_ssub (by simpa [PPO.run] using hi)
  · exact ix_ssub (by simpa [KST.run, KST.rocma] using hi)
  · exact ix_ssub (by simpa [Vortex.vip] using hi)
  · unfold Aroon.new at ho
    split_ifs at ho
    rw [← Except.ok.inj ho]
    exact ix_ssub (by simpa [Aroon.run] using hi)

/-- the difference of a value that is not infinite and any other value is NaN exactly when one of them is -/
theorem sub_nan_iff {a b : Val K} (hb : b = .nan ∨ ∃ x, b = .fin x) :
    (a -. b) = .nan ↔ a = .nan ∨ b = .nan := by
  rcases hb with rfl | ⟨y, rfl⟩
  · simp
  · cases a <;> simp [Flt.sub, Val.sub, Val.add, Val.neg]

theorem ewm_finOr {a : K} (ha : 0 < a) (ha1 : a ≤ 1) (mp : Nat) (s : Series (Val K)) (i : Nat) :
    ix (ewm (.fin a) mp s) i = .nan ∨ ∃ x, ix (ewm (.fin a) mp s) i = .fin x := by
  by_cases hi : i < s.length
  · rcases ewm_mem (P := fun _ => True) convex_true ha ha1 mp hi (fun _ _ _ _ => trivial) with h | ⟨x, h, _⟩
    · exact .inl h
    · exact .inr ⟨x, h⟩
  · left; rw [ix_ge (by simpa using hi)]; rfl

theorem ema_finOr {w : Nat} (hw : 1 ≤ w) (b : Bool) (s : Series (Val K)) (i : Nat) :
    ix (ema s w b) i = .nan ∨ ∃ x, ix (ema s w b) i = .fin x := by
  unfold ema
  rw [alphaOfSpan_fin]
  exact ewm_finOr (span_pos w) (span_le w hw) _ _ _

theorem rollMean_finOr (w mp : Nat) (s : Series (Val K)) (i : Nat) :
    ix (rollMean w mp s) i = .nan ∨ ∃ x, ix (rollMean w mp s) i = .fin x := by
  by_cases hi : i < s.length
  · rw [ix_rollMean hi]
    split_ifs
    · exact .inr ⟨_, rfl⟩
    · exact .inl rfl
  · left; rw [ix_ge (by simpa using hi)]; rfl

theorem rollApply_finOr {g : List (Val K) → Val K} (hg : ∀ l, ∃ x, g l = .fin x) (w mp : Nat) (s : Series (Val K)) (i : Nat) :
    ix (rollApply g w mp s) i = .nan ∨ ∃ x, ix (rollApply g w mp s) i = .fin x := by
  by_cases hi : i < s.length
  · rw [ix_rollApply hi]
    split_ifs
    · exact .inr (hg _)
    · exact .inl rfl
  · left; rw [ix_ge (by simpa using hi)]; rfl

/-- C40. On any data over an ordered field with NaN and infinities, with `fillna=False`, the histogram of MACD, PPO, PVO,
KST and Aroon is NaN exactly where the line or the signal is. -/
theorem hist_nan_iff (i : Nat) :
    (∀ (x : Series (Val K)) (slow fast sign : Nat) (o : MACD (Val K)), MACD.new x slow fast sign = .ok o → i < x.length →
      (ix o.macdDiff i = .nan ↔ ix o.macd i = .nan ∨ ix o.macdSignal i = .nan)) ∧
    (∀ (x : Series (Val K)) (slow fast sign : Nat) (o : PPO (Val K)), PPO.new x slow fast sign = .ok o → i < x.length →
      (ix o.ppoHist i = .nan ↔ ix o.ppo i = .nan ∨ ix o.ppoSignal i = .nan)) ∧
    (∀ (x : Series (Val K)) (r1 r2 r3 r4 w1 w2 w3 w4 nsig : Nat), i < x.length →
      (ix (kstDiff x r1 r2 r3 r4 w1 w2 w3 w4 nsig) i = .nan ↔
        ix (kst x r1 r2 r3 r4 w1 w2 w3 w4) i = .nan ∨ ix (kstSig x r1 r2 r3 r4 w1 w2 w3 w4 nsig) i = .nan)) ∧
    (∀ (h l : Series (Val K)) (w : Nat) (o : Aroon (Val K)), 1 ≤ w → Aroon.new h l w = .ok o → i < h.length →
      (ix o.aroonIndicator i = .nan ↔ ix o.aroonUp i = .nan ∨ ix o.aroonDown i = .nan)) := by
  obtain ⟨H1, H2, H3, _, H5⟩ := hist_eq (F := Val K) i
  refine ⟨fun x slow fast sign o ho hi => ?_, fun x slow fast sign o ho hi => ?_,
    fun x r1 r2 r3 r4 w1 w2 w3 w4 nsig hi => ?_, fun h l w o hw ho hi => ?_⟩
  · rw [H1 x slow fast sign o ho hi]
    refine sub_nan_iff ?_
    obtain ⟨_, _, h3, rfl⟩ := macd_new ho
    exact ema_finOr h3 _ _ _
  · rw [H2 x slow fast sign o ho hi]
    refine sub_nan_iff ?_
    obtain ⟨_, _, h3, rfl⟩ := ppo_new ho
    exact ema_finOr h3 _ _ _
  · rw [H3 x r1 r2 r3 r4 w1 w2 w3 w4 nsig hi]
    exact sub_nan_iff (rollMean_finOr _ _ _ _)
  · rw [H5 h l w o ho hi]
    refine sub_nan_iff ?_
    unfold Aroon.new at ho
    split_ifs at ho
    rw [← Except.ok.inj ho]
    refine rollApply_finOr (fun x => ?_) _ _ _ _
    have hw0 : (w : K) ≠ 0 := by positivity
    rw [natF_fin, natF_fin, fin_div _ _ hw0, lit_fin, fin_mul]
    exact ⟨_, rfl⟩

/-- C40. Not so for Vortex: on a bar without true range both lines can be infinite, and their difference NaN. -/
theorem vortex_diff_nan : ∃ h l c : Series (Val ℚ), ix (vortexPos h l c 1) 1 = .pinf ∧
    ix (vortexNeg h l c 1) 1 = .pinf ∧ ix (vortexDiff h l c 1) 1 = .nan :=
  ⟨qs [3, 2], qs [1, 2], qs [2, 2], by decide +kernel⟩

/-! ## The lines themselves, on gap-free data -/

/-- C40. MACD line = EMA(fast) - EMA(slow); signal = EMA(sign) of the line, started at its first row; histogram = line -
signal. Without filling the line starts at row `max slow fast - 1` and the other two `sign - 1` rows later. -/
theorem macd_formula {n : Nat} {c : Nat → K} {slow fast sign : Nat} {fillna : Bool} {o : MACD (Val K)}
    (ho : MACD.new (ser n c) slow fast sign fillna = .ok o) :
    ∃ L S : Nat → K,
      (∀ i, L i = emaRec (2 / ((fast : K) + 1)) c i - emaRec (2 / ((slow : K) + 1)) c i) ∧
      (∀ i, S i = emaRec (2 / ((sign : K) + 1)) (fun j => L ((if fillna then 0 else max slow fast - 1) + j))
        (i - (if fillna then 0 else max slow fast - 1))) ∧
      Def o.macd n (if fillna then 0 else max slow fast - 1) L ∧
      Def o.macdSignal n (if fillna then 0 else max slow fast + sign - 2) S ∧
      Def o.macdDiff n (if fillna then 0 else max slow fast + sign - 2) (fun i => L i - S i) := by
  obtain ⟨h1, h2, h3, rfl⟩ := macd_new ho
  refine ⟨_, _, fun i => rfl, fun i => rfl, ?_⟩
  have hF := (def_ser n c).ema0 h2 fillna
  have hS := (def_ser n c).ema0 h1 fillna
  have hL := hF.ssub hS
  have hG := hL.ema h3 fillna
  have hD := hL.ssub hG
  unfold emaW at hL hG hD
  cases fillna with
  | true =>
    simp only [if_true, Nat.zero_add, Nat.sub_zero, max_self] at hL hG hD ⊢
    exact ⟨hL.fill _ _, hG.fill _ _, hD.fill _ _⟩
  | false =>
    simp only [Bool.false_eq_true, if_false] at hL hG hD ⊢
    have e1 : max (fast - 1) (slow - 1) = max slow fast - 1 := by omega
    have e2 : max slow fast - 1 + (sign - 1) = max slow fast + sign - 2 := by omega
    have e3 : max (max slow fast - 1) (max slow fast + sign - 2) = max slow fast + sign - 2 := by omega
    simp only [e1, e2, e3] at hL hG hD
    exact ⟨hL, hG, hD⟩

/-- C40. PPO (of closes) and PVO (of volumes): for positive data the line is `100 * (EMA(fast) / EMA(slow) - 1)`; signal
and histogram as for MACD. -/
theorem ppo_formula {n : Nat} {x : Nat → K} (hx : ∀ i, 0 < x i) {slow fast sign : Nat} {fillna : Bool} {o : PPO (Val K)}
    (ho : PPO.new (ser n x) slow fast sign fillna = .ok o) :
    ∃ L S : Nat → K,
      (∀ i, L i = 100 * (emaRec (2 / ((fast : K) + 1)) x i / emaRec (2 / ((slow : K) + 1)) x i - 1)) ∧
      (∀ i, S i = emaRec (2 / ((sign : K) + 1)) (fun j => L ((if fillna then 0 else max slow fast - 1) + j))
        (i - (if fillna then 0 else max slow fast - 1))) ∧
      Def o.ppo n (if fillna then 0 else max slow fast - 1) L ∧
      Def o.ppoSignal n (if fillna then 0 else max slow fast + sign - 2) S ∧
      Def o.ppoHist n (if fillna then 0 else max slow fast + sign - 2) (fun i => L i - S i) := by
  obtain ⟨h1, h2, h3, rfl⟩ := ppo_new ho
  refine ⟨_, _, fun i => rfl, fun i => rfl, ?_⟩
  have hF := (def_ser n x).ema0 h2 fillna
  have hS := (def_ser n x).ema0 h1 fillna
  have hpos : ∀ i, emaW slow x i ≠ 0 := fun i => (emaRec_pos_all (span_pos slow) (span_le slow h1) fun j _ => hx j).ne'
  have hL0 := ((hF.ssub hS).sdiv hS (fun i _ _ _ => hpos i)).mulc 100
  have hL : Def (mulc (sdiv (ssub (ema (ser n x) fast fillna) (ema (ser n x) slow fillna)) (ema (ser n x) slow fillna))
      (lit 100)) n (max (max (if fillna = true then 0 else fast - 1) (if fillna = true then 0 else slow - 1))
        (if fillna = true then 0 else slow - 1)) (fun i => 100 * (emaRec (2 / ((fast : K) + 1)) x i / emaRec (2 / ((slow : K) + 1)) x i - 1)) := by
    rw [lit_fin]
    push_cast
    refine hL0.congr fun i _ _ => ?_
    have := hpos i
    unfold emaW at this ⊢
    field_simp
  have hG := hL.ema h3 fillna
  have hD := hL.ssub hG
  unfold emaW at hG hD
  cases fillna with
  | true =>
    simp only [if_true, Nat.zero_add, Nat.sub_zero, max_self] at hL hG hD ⊢
    exact ⟨hL.fill _ _, hG.fill _ _, hD.fill _ _⟩
  | false =>
    simp only [Bool.false_eq_true, if_false] at hL hG hD ⊢
    have e1 : max (max (fast - 1) (slow - 1)) (slow - 1) = max slow fast - 1 := by omega
    have e2 : max slow fast - 1 + (sign - 1) = max slow fast + sign - 2 := by omega
    have e3 : max (max slow fast - 1) (max slow fast + sign - 2) = max slow fast + sign - 2 := by omega
    simp only [e1, e2, e3] at hL hG hD
    exact ⟨hL, hG, hD⟩

example : (MACD.new (qs [1, 3, 5, 3]) 3 1 2).map (fun o => (o.macd, o.macdSignal, o.macdDiff))
    = .ok ([.nan, .nan, .fin (3 / 2), .fin (-1 / 4)], [.nan, .nan, .nan, .fin (1 / 3)],
      [.nan, .nan, .nan, .fin (-7 / 12)]) := by decide +kernel
example : (PPO.new (qs [1, 3, 5]) 3 1 1).map (fun o => (o.ppo, o.ppoSignal, o.ppoHist))
    = .ok ([.nan, .nan, .fin (300 / 7)], [.nan, .nan, .fin (300 / 7)], [.nan, .nan, .fin 0]) := by decide +kernel

/-! ## KST -/

theorem Def.shiftFill {s : Series (Val K)} {n : Nat} {f : Nat → K} (h : Def s n 0 f) (k : Nat) (v : K) :
    Def (TA.shift s k (.fin v)) n 0 (fun i => if i < k then v else f (i - k)) := by
  refine ⟨by simp [h.len], fun i h1 h2 => by omega, fun i h1 h2 => ?_⟩
  rw [ix_shift (by rw [h.len]; exact h1)]
  split_ifs with h3
  · rfl
  · exact h.val _ (by omega) (by omega)

/-- the mean of all rows -/
def meanAll (n : Nat) (c : Nat → K) : K := (∑ j ∈ range n, c j) / n

theorem smean_ser {n : Nat} (hn : 0 < n) (c : Nat → K) : smean (ser n c) = .fin (meanAll n c) := by
  have e : ser n c = ((List.range n).map c).map Val.fin := by
    unfold ser tab; rw [List.map_map]; rfl
  rw [e, smean_fin _ (by simp; omega)]
  unfold meanAll
  rw [List.length_map, List.length_range]; rfl

/-- the value `k` rows earlier; the mean of the whole column where there is none -/
def prevOr (n : Nat) (c : Nat → K) (k i : Nat) : K := if i < k then meanAll n c else c (i - k)

theorem def_prevOr (n : Nat) (c : Nat → K) (k : Nat) :
    Def (TA.shift (ser n c) k (smean (ser n c))) n 0 (prevOr n c k) := by
  rcases Nat.eq_zero_or_pos n with rfl | hn
  · exact ⟨rfl, fun i h => absurd h (Nat.not_lt_zero i), fun i h => absurd h (Nat.not_lt_zero i)⟩
  · rw [smean_ser hn]; exact (def_ser n c).shiftFill k _

theorem meanAll_pos {n : Nat} (hn : 0 < n) {c : Nat → K} (hc : ∀ i, 0 < c i) : 0 < meanAll n c :=
  div_pos (Finset.sum_pos (fun j _ => hc j) ⟨0, by simp [hn]⟩) (by exact_mod_cast hn)

theorem prevOr_pos {n : Nat} {c : Nat → K} (hc : ∀ i, 0 < c i) (k : Nat) {i : Nat} (hi : i < n) : 0 < prevOr n c k i := by
  unfold prevOr; split_ifs
  · exact meanAll_pos (by omega) hc
  · exact hc _

/-- one smoothed rate of change of the KST: the mean over `w` rows of `close / close_(r rows before) - 1` -/
def rocMean (n : Nat) (c : Nat → K) (r w i : Nat) : K := wmean (fun j => c j / prevOr n c r j - 1) w i

theorem def_rocma {n : Nat} {c : Nat → K} (hc : ∀ i, 0 < c i) (r : Nat) {w : Nat} (hw : 1 ≤ w) (fillna : Bool) :
    Def (KST.rocma (ser n c) r w fillna) n (if fillna then 0 else w - 1) (rocMean n c r w) := by
  have hp := def_prevOr n c r
  have h1 := ((def_ser n c).ssub hp).sdiv hp (fun i hi _ _ => (prevOr_pos hc r hi).ne')
  have h2 : Def (sdiv (ssub (ser n c) (shift (ser n c) r (smean (ser n c)))) (shift (ser n c) r (smean (ser n c)))) n 0
      (fun j => c j / prevOr n c r j - 1) := by
    refine (show Def _ n 0 _ from by simpa using h1).congr fun i hi _ => ?_
    have := (prevOr_pos hc r hi).ne'
    field_simp
  have hm : minp fillna w ≤ w := by cases fillna <;> simp [minp]
  have h3 := h2.rollMeanP hw hm
  have e : minp fillna w - 1 = if fillna then 0 else w - 1 := by cases fillna <;> simp [minp]
  rw [e] at h3
  exact h3

/-- C40. KST: `100 * (R1 + 2 R2 + 3 R3 + 4 R4)` with `Ri` the mean over `wi` rows of the relative change against the
close `ri` rows before (the mean of all closes where there is none); the signal is the mean of the line over the last
`nsig` rows on which the line is defined (fewer at its start); the histogram is the difference. -/
theorem kst_formula {n : Nat} {c : Nat → K} (hc : ∀ i, 0 < c i) (r1 r2 r3 r4 : Nat) {w1 w2 w3 w4 nsig : Nat}
    (h1 : 1 ≤ w1) (h2 : 1 ≤ w2) (h3 : 1 ≤ w3) (h4 : 1 ≤ w4) (hs : 1 ≤ nsig) (fillna : Bool) :
    ∃ (p : Nat) (L S : Nat → K),
      p = (if fillna then 0 else max (max (max w1 w2) w3) w4 - 1) ∧
      (∀ i, L i = 100 * (rocMean n c r1 w1 i + 2 * rocMean n c r2 w2 i + 3 * rocMean n c r3 w3 i
        + 4 * rocMean n c r4 w4 i)) ∧
      (∀ i, p ≤ i → S i = (∑ j ∈ Ico (max p (i + 1 - nsig)) (i + 1), L j) / (min nsig (i + 1 - p) : ℕ)) ∧
      Def (kst (ser n c) r1 r2 r3 r4 w1 w2 w3 w4 fillna) n p L ∧
      Def (kstSig (ser n c) r1 r2 r3 r4 w1 w2 w3 w4 nsig fillna) n p S ∧
      Def (kstDiff (ser n c) r1 r2 r3 r4 w1 w2 w3 w4 nsig fillna) n p (fun i => L i - S i) := by
  set p := if fillna then 0 else max (max (max w1 w2) w3) w4 - 1 with hpdef
  set L : Nat → K := fun i => 100 * (rocMean n c r1 w1 i + 2 * rocMean n c r2 w2 i + 3 * rocMean n c r3 w3 i
        + 4 * rocMean n c r4 w4 i) with hLdef
  refine ⟨p, L, fun i => wsum L (min nsig (i + 1 - p)) i / (min nsig (i + 1 - p) : ℕ), rfl, fun i => rfl,
    fun i hi => ?_, ?_⟩
  · have e : i + 1 - min nsig (i + 1 - p) = max p (i + 1 - nsig) := by omega
    unfold wsum
    beta_reduce
    rw [e]
  · have hL := ((((def_rocma (n := n) hc r1 h1 fillna).sadd ((def_rocma hc r2 h2 fillna).cmul 2)).sadd
      ((def_rocma hc r3 h3 fillna).cmul 3)).sadd ((def_rocma hc r4 h4 fillna).cmul 4)).cmul 100
    have hL' : Def (KST.run (ser n c) r1 r2 r3 r4 w1 w2 w3 w4 fillna) n p L := by
      rw [hpdef, hLdef]
      unfold KST.run
      simp only [lit_fin]
      push_cast
      cases fillna with
      | true => simpa using hL
      | false =>
        simp only [Bool.false_eq_true, if_false] at hL ⊢
        have e : max (max (max (w1 - 1) (w2 - 1)) (w3 - 1)) (w4 - 1) = max (max (max w1 w2) w3) w4 - 1 := by omega
        rw [e] at hL; exact hL
    have hp : fillna = true → p = 0 := fun h => by rw [hpdef, if_pos h]
    unfold kst kstSig kstDiff KST.sig
    generalize KST.run (ser n c) r1 r2 r3 r4 w1 w2 w3 w4 fillna = k at hL'
    clear_value p L
    have hS := hL'.rollMean0 hs
    have hD := hL'.ssub hS
    rw [max_self] at hD
    exact ⟨hL'.fillOr hp _, hS.fillOr hp _, hD.fillOr hp _⟩

example : kst (qs [1, 2, 4, 2]) 1 1 2 2 1 1 1 2 = [.nan, .fin (400 / 3), .fin (16000 / 9), .fin 450] := by
  decide +kernel
example : kstSig (qs [1, 2, 4, 2]) 1 1 2 2 1 1 1 2 2 = [.nan, .fin (400 / 3), .fin (8600 / 9), .fin (10025 / 9)] := by
  decide +kernel

/-! ## Vortex -/

theorem Def.rollSumAny {s : Series (Val K)} {n p : Nat} {f : Nat → K} (h : Def s n p f) {w : Nat} :
    Def (TA.rollSum w 0 s) n 0 (fun i => wsum f (min w (i + 1 - p)) i) := by
  refine ⟨by simp [h.len], fun i h1 h2 => by omega, fun i h1 h2 => ?_⟩
  rw [ix_rollSum (by rw [h.len]; exact h1), h.obs_eq h1, if_pos (Nat.zero_le _), sum_winIx]

/-- the true range against a given reference price per row -/
def trP (h l p : Nat → K) (i : Nat) : K := max (h i) (p i) - min (l i) (p i)

theorem def_trP {n : Nat} {h l p : Nat → K} {t : Series (Val K)} (hlh : ∀ i, l i ≤ h i) (ht : Def t n 0 p) :
    Def (trueRange (ser n h) (ser n l) t) n 0 (trP h l p) := by
  refine ⟨by simp [trueRange, ser], fun i _ h2 => by omega, fun i hi _ => ?_⟩
  unfold trueRange
  rw [ix_zip3 (by simpa [ser] using hi), ht.val i hi (Nat.zero_le _), (def_ser n h).val i hi (Nat.zero_le _),
    (def_ser n l).val i hi (Nat.zero_le _), tr_fin _ _ _ (hlh i)]
  rfl

/-- C40. Vortex: `+VI` is the sum over the window of `|high - previous low|`, `-VI` of `|low - previous high|`, each
divided by the sum of the true ranges (whose first row uses the mean of all closes as previous close); the difference is
`+VI - -VI`. Without filling they start at row `w`. -/
theorem vortex_formula {n : Nat} {h l c : Nat → K} (hlh : ∀ i, l i < h i) {w : Nat} (hw : 1 ≤ w) (fillna : Bool) :
    ∃ P M : Nat → K,
      (∀ i, P i = (∑ j ∈ Ico (max 1 (i + 1 - w)) (i + 1), |h j - l (j - 1)|)
        / ∑ j ∈ Ico (i + 1 - w) (i + 1), trP h l (prevOr n c 1) j) ∧
      (∀ i, M i = (∑ j ∈ Ico (max 1 (i + 1 - w)) (i + 1), |l j - h (j - 1)|)
        / ∑ j ∈ Ico (i + 1 - w) (i + 1), trP h l (prevOr n c 1) j) ∧
      Def (vortexPos (ser n h) (ser n l) (ser n c) w fillna) n (if fillna then 0 else w) P ∧
      Def (vortexNeg (ser n h) (ser n l) (ser n c) w fillna) n (if fillna then 0 else w) M ∧
      Def (vortexDiff (ser n h) (ser n l) (ser n c) w fillna) n (if fillna then 0 else w) (fun i => P i - M i) := by
  have hT0 := def_trP (fun i => (hlh i).le) (def_prevOr n c 1)
  have hpos : ∀ i, wsum (trP h l (prevOr n c 1)) w i ≠ 0 := by
    intro i
    refine (Finset.sum_pos (fun j _ => ?_) ⟨i, by simp; omega⟩).ne'
    have h1 := le_max_left (h j) (prevOr n c 1 j)
    have h2 := min_le_left (l j) (prevOr n c 1 j)
    have := hlh j
    unfold trP; linarith
  have hA := ((def_ser n h).ssub (def_prev n l)).sabs
  have hB := ((def_ser n l).ssub (def_prev n h)).sabs
  rw [Nat.zero_max] at hA hB
  refine ⟨_, _, fun i => rfl, fun i => rfl, ?_⟩
  have e0 : ∀ (f : Nat → K) (i : Nat), wsum f (min w (i + 1 - 1)) i = ∑ j ∈ Ico (max 1 (i + 1 - w)) (i + 1), f j := by
    intro f i
    have e : i + 1 - min w (i + 1 - 1) = max 1 (i + 1 - w) := by omega
    unfold wsum; rw [e]
  have e1 : ∀ (f : Nat → K) (i : Nat), w ≤ i → wsum f w i = ∑ j ∈ Ico (max 1 (i + 1 - w)) (i + 1), f j := by
    intro f i hi
    have e : i + 1 - w = max 1 (i + 1 - w) := by omega
    unfold wsum; rw [← e]
  have hP : Def (Vortex.vip (ser n h) (ser n l) (ser n c) w fillna) n (if fillna then 0 else w)
      (fun i => (∑ j ∈ Ico (max 1 (i + 1 - w)) (i + 1), |h j - l (j - 1)|)
        / ∑ j ∈ Ico (i + 1 - w) (i + 1), trP h l (prevOr n c 1) j) := by
    unfold Vortex.vip Vortex.trn
    cases fillna with
    | true =>
      have := (hA.rollSumAny (w := w)).sdiv (hT0.rollSum0 (w := w)) (fun i _ _ _ => hpos i)
      exact this.congr fun i _ _ => by rw [e0]; rfl
    | false =>
      have := (hA.rollSum (.inl hw)).sdiv (hT0.rollSum (.inl hw)) (fun i _ _ _ => hpos i)
      have e : max (1 + w - 1) (0 + w - 1) = w := by omega
      rw [e] at this
      exact this.congr fun i _ hi => by rw [e1 _ i hi]; rfl
  have hM : Def (Vortex.vin (ser n h) (ser n l) (ser n c) w fillna) n (if fillna then 0 else w)
      (fun i => (∑ j ∈ Ico (max 1 (i + 1 - w)) (i + 1), |l j - h (j - 1)|)
        / ∑ j ∈ Ico (i + 1 - w) (i + 1), trP h l (prevOr n c 1) j) := by
    unfold Vortex.vin Vortex.trn
    cases fillna with
    | true =>
      have := (hB.rollSumAny (w := w)).sdiv (hT0.rollSum0 (w := w)) (fun i _ _ _ => hpos i)
      exact this.congr fun i _ _ => by rw [e0]; rfl
    | false =>
      have := (hB.rollSum (.inl hw)).sdiv (hT0.rollSum (.inl hw)) (fun i _ _ _ => hpos i)
      have e : max (1 + w - 1) (0 + w - 1) = w := by omega
      rw [e] at this
      exact this.congr fun i _ hi => by rw [e1 _ i hi]; rfl
  have hD := hP.ssub hM
  rw [max_self] at hD
  have hp : fillna = true → (if fillna then 0 else w) = 0 := by rintro rfl; rfl
  exact ⟨hP.fillOr hp _, hM.fillOr hp _, hD.fillOr hp _⟩

example : vortexPos (qs [4, 5, 6]) (qs [1, 3, 2]) (qs [2, 4, 3]) 2 = [.nan, .nan, .fin 1] ∧
    vortexNeg (qs [4, 5, 6]) (qs [1, 3, 2]) (qs [2, 4, 3]) 2 = [.nan, .nan, .fin (4 / 7)] := by decide +kernel

end TA
