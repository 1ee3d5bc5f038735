import Verif.Lemmas.Fam
import Verif.Lemmas.NewEq
import Verif.Lemmas.Toy
import Verif.Base.Real
import Mathlib.Data.Fin.VecNotation
import Mathlib.Tactic.FinCases

/-! # C70, C71: superposition and monotonicity

C70: the moving averages, MACD, DPO, the awesome oscillator and the middle lines of the channels are linear filters: run
on a combination `p·A + q·B` of two price tables they return the same combination of their outputs.  C71: the averages,
the Donchian channel and the Ichimoku lines never fall when prices are raised.

The tables may have gaps, in the same rows. -/

set_option linter.unusedSectionVars false

namespace TA
variable {K : Type}

/-! ## vocabulary -/

/-- all three NaN, or numbers with `w = p u + q v` -/
def Mix [Field K] (p q : K) (u v w : Val K) : Prop :=
  (u = .nan ∧ v = .nan ∧ w = .nan) ∨ ∃ x y, u = .fin x ∧ v = .fin y ∧ w = .fin (p * x + q * y)

/-- row by row -/
def MixS [Field K] [LinearOrder K] (p q : K) (s t u : Series (Val K)) : Prop :=
  t.length = s.length ∧ u.length = s.length ∧ ∀ i, i < s.length → Mix p q (ix s i) (ix t i) (ix u i)

/-- both NaN, or numbers with `u ≤ v` -/
def VLe [LE K] (u v : Val K) : Prop := (u = .nan ∧ v = .nan) ∨ ∃ x y, u = .fin x ∧ v = .fin y ∧ x ≤ y

/-- row by row -/
def SLe [Field K] [LinearOrder K] (s t : Series (Val K)) : Prop :=
  t.length = s.length ∧ ∀ i, i < s.length → VLe (ix s i) (ix t i)

/-- the price table `c` is `p·a + q·b` -/
structure MixBars [Field K] [LinearOrder K] (p q : K) (a b c : List (Bar (Val K))) : Prop where
  high : MixS p q (highs a) (highs b) (highs c)
  low : MixS p q (lows a) (lows b) (lows c)
  close : MixS p q (closes a) (closes b) (closes c)

/-- no price of `b` is below that of `a` -/
structure LeBars [Field K] [LinearOrder K] (a b : List (Bar (Val K))) : Prop where
  high : SLe (highs a) (highs b)
  low : SLe (lows a) (lows b)
  close : SLe (closes a) (closes b)

/-- The outputs that are linear in the prices. -/
def Ind.linear {F : Type} : Ind F → Prop
  | .ao _ _ | .macd _ _ _ | .macdSignal _ _ _ | .macdDiff _ _ _ | .ema _ | .sma _ | .dpo _ | .bbMavg _ _
  | .kcMband _ _ _ _ | .kcHband _ _ true _ | .kcLband _ _ true _ => True
  | .wma w => 1 ≤ w
  | _ => False

/-- The outputs that rise with the prices. -/
def Ind.rising {F : Type} : Ind F → Prop
  | .ema _ | .sma _ | .bbMavg _ _ | .kcMband _ _ _ _ | .ichimokuConv _ | .ichimokuBase _ | .ichimokuA _ _ _
  | .ichimokuB _ _ _ | .dcHband _ _ | .dcLband _ _ | .dcMband _ _ => True
  | .wma w => 1 ≤ w
  | _ => False

/-! ## the laws for families -/

section families
variable {ι : Type} {n : Nat}

/-- an output of every member, in relation; or the same exception for every member -/
def FOut {K : Type} [Field K] [LinearOrder K] (R : (ι → K) → Prop) (n : Nat)
    (E : ι → Except PyErr (Series (Val K))) : Prop :=
  (∃ e, ∀ k, E k = .error e) ∨ ∃ out, (∀ k, E k = .ok (out k)) ∧ FS R n out

theorem FOut.ok {K : Type} [Field K] [LinearOrder K] {R : (ι → K) → Prop} {out : ι → Series (Val K)} (h : FS R n out) :
    FOut R n fun k => .ok (out k) := .inr ⟨out, fun _ => rfl, h⟩

theorem FOut.guard {K : Type} [Field K] [LinearOrder K] {R : (ι → K) → Prop}
    {E : ι → Except PyErr (Series (Val K))} {out : ι → Series (Val K)} {p : Prop} [Decidable p] {e : PyErr}
    (he : ∀ k, E k = if p then .error e else .ok (out k)) (h : ¬ p → FS R n out) : FOut R n E := by
  by_cases hp : p
  · exact .inl ⟨e, fun k => by rw [he, if_pos hp]⟩
  · exact .inr ⟨out, fun k => by rw [he, if_neg hp], h hp⟩

theorem FOut.guardMap {K : Type} [Field K] [LinearOrder K] {R : (ι → K) → Prop} {α : Type}
    {E : ι → Except PyErr α} {o : ι → α} {p : Prop} [Decidable p] {e : PyErr}
    (he : ∀ k, E k = if p then .error e else .ok (o k)) (f : α → Series (Val K)) (h : ¬ p → FS R n fun k => f (o k)) :
    FOut R n fun k => (E k).map f :=
  FOut.guard (fun k => by rw [he, map_guard]) h

variable {R : (ι → ℝ) → Prop} {B : ι → List (Bar (Val ℝ))}

theorem FS.typical {K : Type} [Field K] [LinearOrder K] [IsStrictOrderedRing K] {R : (ι → K) → Prop}
    {S T U : ι → Series (Val K)} (hR : IsCone R) (h : FS R n S) (h' : FS R n T) (h'' : FS R n U) :
    FS R n fun k => typicalPrice (S k) (T k) (U k) := by
  unfold typicalPrice
  rw [lit_fin]
  exact ((h.sadd hR h').sadd hR h'').divPos hR (by norm_num)

/-- the lines that are averages of prices -/
theorem fam_average (hR : IsCone R) (hh : FS R n fun k => highs (B k)) (hl : FS R n fun k => lows (B k))
    (hc : FS R n fun k => closes (B k)) (fillna : Bool) (w wa : Nat) (o : Bool) (m : Val ℝ) :
    FOut R n (fun k => (Ind.ema w).eval fillna (B k)) ∧ FOut R n (fun k => (Ind.sma w).eval fillna (B k)) ∧
    (1 ≤ w → FOut R n (fun k => (Ind.wma w).eval fillna (B k))) ∧
    FOut R n (fun k => (Ind.bbMavg w m).eval fillna (B k)) ∧
    FOut R n (fun k => (Ind.kcMband w wa o m).eval fillna (B k)) := by
  refine ⟨?_, FOut.ok (hc.rollMean hR w _), fun hw => FOut.ok ((hc.wma hR hw).fill0 hR fillna),
    FOut.ok ((hc.rollMean hR w _).fillBack fillna), ?_⟩
  · exact FOut.guard (fun k => emaIndicator_eq _ _ _) fun hw => hc.ema hR (by omega) fillna
  · cases o with
    | true =>
      refine FOut.guardMap (fun k => Keltner.new_original_eq _ _ _ _ _ _ _) _ fun _ => ?_
      · exact ((hh.typical hR hl hc).rollMean hR w _).fillBack fillna
    | false =>
      by_cases h1 : w < 1
      · refine .inl ⟨.valueError, fun k => ?_⟩
        simp only [Ind.eval]; rw [Keltner.new_atr_eq, if_pos h1]; rfl
      · refine FOut.guard (p := n < max wa 1) (e := .indexError)
          (out := fun k => checkFillna fillna .back (ewm (alphaOfSpan w) (if fillna then 1 else w) (closes (B k))))
          (fun k => ?_) fun _ => ?_
        · simp only [Ind.eval]
          rw [Keltner.new_atr_eq, if_neg h1, map_guard, hc.len]; rfl
        · refine FS.fillBack (S := fun k => ewm (alphaOfSpan w) (if fillna then 1 else w) (closes (B k))) ?_ fillna
          rw [alphaOfSpan_fin]
          exact hc.ewm hR (span_pos w) (span_le w (by omega)) _

/-- C70 for families: a linear relation between price tables passes to every linear output. -/
theorem fam_linear (hR : IsSub R) (hh : FS R n fun k => highs (B k)) (hl : FS R n fun k => lows (B k))
    (hc : FS R n fun k => closes (B k)) (fillna : Bool) (ind : Ind (Val ℝ)) (hi : ind.linear) :
    FOut R n fun k => ind.eval fillna (B k) := by
  have hav := fun w wa o m => fam_average hR.toIsCone hh hl hc fillna w wa o m
  have hline : ∀ slow fast, 1 ≤ slow → 1 ≤ fast →
      FS R n fun k => ssub (ema (closes (B k)) fast fillna) (ema (closes (B k)) slow fillna) := fun slow fast h1 h2 =>
    (hc.ema hR.toIsCone h2 fillna).ssub hR (hc.ema hR.toIsCone h1 fillna)
  cases ind
  case ema w => exact (hav w 0 true .nan).1
  case sma w => exact (hav w 0 true .nan).2.1
  case wma w => exact (hav w 0 true .nan).2.2.1 hi
  case bbMavg w d => exact (hav w 0 true d).2.2.2.1
  case kcMband w wa o m => exact (hav w wa o m).2.2.2.2
  case ao w1 w2 =>
    have hm : FS R n fun k => TA.cmul (lit (1/2)) (TA.sadd (highs (B k)) (lows (B k))) := by
      rw [lit_fin]; exact (hh.sadd hR.toIsCone hl).cmul hR _
    exact FOut.ok (((hm.rollMean hR.toIsCone w1 _).ssub hR (hm.rollMean hR.toIsCone w2 _)).fill0 hR.toIsCone fillna)
  case dpo w =>
    exact FOut.ok (((hc.shift _ (hc.smean hR.toIsCone)).ssub hR (hc.rollMean hR.toIsCone w _)).fill0 hR.toIsCone fillna)
  case macd slow fast sign =>
    refine FOut.guardMap (fun k => MACD.new_eq _ _ _ _ _) _ fun _ => ?_
    · exact (hline slow fast (by omega) (by omega)).fill0 hR.toIsCone fillna
  case macdSignal slow fast sign =>
    refine FOut.guardMap (fun k => MACD.new_eq _ _ _ _ _) _ fun _ => ?_
    · exact ((hline slow fast (by omega) (by omega)).ema hR.toIsCone (by omega) fillna).fill0 hR.toIsCone fillna
  case macdDiff slow fast sign =>
    refine FOut.guardMap (fun k => MACD.new_eq _ _ _ _ _) _ fun _ => ?_
    · have h1 := hline slow fast (by omega) (by omega)
      exact (h1.ssub hR (h1.ema hR.toIsCone (w := sign) (by omega) fillna)).fill0 hR.toIsCone fillna
  case kcHband w wa o m =>
    cases o with
    | false => exact hi.elim
    | true =>
      refine FOut.guardMap (fun k => Keltner.new_original_eq _ _ _ _ _ _ _) _ fun _ => ?_
      · have : FS R n fun k => divc (TA.sadd (TA.ssub (TA.cmul (lit 4) (highs (B k))) (TA.cmul (lit 2) (lows (B k))))
            (closes (B k))) (lit 3) := by
          simp only [lit_fin]
          exact (((hh.cmul hR _).ssub hR (hl.cmul hR _)).sadd hR.toIsCone hc).divPos hR.toIsCone (by norm_num)
        exact (this.rollMean hR.toIsCone w 0).fillBack fillna
  case kcLband w wa o m =>
    cases o with
    | false => exact hi.elim
    | true =>
      refine FOut.guardMap (fun k => Keltner.new_original_eq _ _ _ _ _ _ _) _ fun _ => ?_
      · have : FS R n fun k => divc (TA.sadd (TA.sadd (TA.cmul (lit (-2)) (highs (B k))) (TA.cmul (lit 4) (lows (B k))))
            (closes (B k))) (lit 3) := by
          simp only [lit_fin]
          exact (((hh.cmul hR _).sadd hR.toIsCone (hl.cmul hR _)).sadd hR.toIsCone hc).divPos hR.toIsCone (by norm_num)
        exact (this.rollMean hR.toIsCone w 0).fillBack fillna
  all_goals exact hi.elim

end families

/-! ## from three tables to a family and back -/

section
variable [Field K] [LinearOrder K] [IsStrictOrderedRing K]

/-- `x 2 = p x 0 + q x 1` -/
def RMix (p q : K) (x : Fin 3 → K) : Prop := x 2 = p * x 0 + q * x 1

theorem rmix_sub (p q : K) : IsSub (RMix p q) where
  zero := by simp [RMix]
  add x y hx hy := by unfold RMix at *; simp only [Pi.add_apply, hx, hy]; ring
  smul c x _ hx := by unfold RMix at *; beta_reduce; rw [hx]; ring
  neg x hx := by unfold RMix at *; beta_reduce; rw [hx]; ring

theorem MixS.toFS {p q : K} {s t u : Series (Val K)} (h : MixS p q s t u) (S : Fin 3 → Series (Val K))
    (h0 : S 0 = s) (h1 : S 1 = t) (h2 : S 2 = u) : FS (RMix p q) s.length S := by
  obtain ⟨e1, e2, h⟩ := h
  refine ⟨fun k => ?_, fun i hi => ?_⟩
  · fin_cases k
    · exact congrArg List.length h0
    · exact (congrArg List.length h1).trans e1
    · exact (congrArg List.length h2).trans e2
  · rcases h i hi with ⟨a, b, c⟩ | ⟨x, y, a, b, c⟩
    · refine .inl fun k => ?_
      fin_cases k
      · show ix (S 0) i = _; rw [h0, a]
      · show ix (S 1) i = _; rw [h1, b]
      · show ix (S 2) i = _; rw [h2, c]
    · refine .inr ⟨![x, y, p * x + q * y], fun k => ?_, ?_⟩
      · fin_cases k
        · show ix (S 0) i = _; rw [h0, a]; rfl
        · show ix (S 1) i = _; rw [h1, b]; rfl
        · show ix (S 2) i = _; rw [h2, c]; rfl
      · rfl

theorem FS.toMix {p q : K} {n : Nat} {S : Fin 3 → Series (Val K)} (h : FS (RMix p q) n S) :
    MixS p q (S 0) (S 1) (S 2) := by
  refine ⟨by rw [h.len, h.len], by rw [h.len, h.len], fun i _ => ?_⟩
  rcases h.cs i with h1 | ⟨x, h1, hx⟩
  · exact .inl ⟨h1 0, h1 1, h1 2⟩
  · exact .inr ⟨x 0, x 1, h1 0, h1 1, by rw [h1 2, hx]⟩

/-- `x 0 ≤ x 1` -/
def RLe (x : Fin 2 → K) : Prop := x 0 ≤ x 1

theorem rle_cone : IsCone (RLe : (Fin 2 → K) → Prop) where
  zero := le_refl _
  add _ _ hx hy := add_le_add hx hy
  smul _ _ hc hx := mul_le_mul_of_nonneg_left hx hc

theorem SLe.toFS {s t : Series (Val K)} (h : SLe s t) (S : Fin 2 → Series (Val K))
    (h0 : S 0 = s) (h1 : S 1 = t) : FS RLe s.length S := by
  obtain ⟨e1, h⟩ := h
  refine ⟨fun k => ?_, fun i hi => ?_⟩
  · fin_cases k
    · exact congrArg List.length h0
    · exact (congrArg List.length h1).trans e1
  · rcases h i hi with ⟨a, b⟩ | ⟨x, y, a, b, hxy⟩
    · refine .inl fun k => ?_
      fin_cases k
      · show ix (S 0) i = _; rw [h0, a]
      · show ix (S 1) i = _; rw [h1, b]
    · refine .inr ⟨![x, y], fun k => ?_, hxy⟩
      fin_cases k
      · show ix (S 0) i = _; rw [h0, a]; rfl
      · show ix (S 1) i = _; rw [h1, b]; rfl

theorem FS.toLe {n : Nat} {S : Fin 2 → Series (Val K)} (h : FS RLe n S) : SLe (S 0) (S 1) := by
  refine ⟨by rw [h.len, h.len], fun i _ => ?_⟩
  rcases h.cs i with h1 | ⟨x, h1, hx⟩
  · exact .inl ⟨h1 0, h1 1⟩
  · exact .inr ⟨x 0, x 1, h1 0, h1 1, hx⟩

/-! ## windowed extremes -/

theorem FS.rollMax {n : Nat} {S : Fin 2 → Series (Val K)} (h : FS RLe n S) (w mp : Nat) :
    FS RLe n fun k => rollMax w mp (S k) :=
  ⟨fun k => by rw [length_rollMax, h.len], fun i hi => by
    obtain ⟨L, h1, h2⟩ := h.nums (winIx w i)
    have e : ∀ k, ix (TA.rollMax w mp (S k)) i =
        if mp ≤ L.length then maxL ((L.map (· k)).map Val.fin) else .nan := fun k => by
      rw [ix_rollMax (by rw [h.len]; exact hi)]
      unfold obs
      rw [h1, List.length_map]
    by_cases hm : mp ≤ L.length
    · by_cases h0 : L = []
      · exact FV.nan.congr fun k => by rw [e, if_pos hm, h0]; rfl
      · obtain ⟨a, ha, ha1, _⟩ := maxL_spec (l := L.map (· 0)) (by simpa using h0)
        obtain ⟨b, hb, _, hb2⟩ := maxL_spec (l := L.map (· 1)) (by simpa using h0)
        refine .inr ⟨![a, b], fun k => ?_, ?_⟩
        · fin_cases k
          · show ix (TA.rollMax w mp (S 0)) i = _; rw [e, if_pos hm]; exact ha
          · show ix (TA.rollMax w mp (S 1)) i = _; rw [e, if_pos hm]; exact hb
        · obtain ⟨x, hx, rfl⟩ := List.mem_map.mp ha1
          exact le_trans (h2 x hx) (hb2 _ (List.mem_map_of_mem hx))
    · exact FV.nan.congr fun k => by rw [e, if_neg hm]⟩

theorem FS.rollMin {n : Nat} {S : Fin 2 → Series (Val K)} (h : FS RLe n S) (w mp : Nat) :
    FS RLe n fun k => rollMin w mp (S k) :=
  ⟨fun k => by rw [length_rollMin, h.len], fun i hi => by
    obtain ⟨L, h1, h2⟩ := h.nums (winIx w i)
    have e : ∀ k, ix (TA.rollMin w mp (S k)) i =
        if mp ≤ L.length then minL ((L.map (· k)).map Val.fin) else .nan := fun k => by
      rw [ix_rollMin (by rw [h.len]; exact hi)]
      unfold obs
      rw [h1, List.length_map]
    by_cases hm : mp ≤ L.length
    · by_cases h0 : L = []
      · exact FV.nan.congr fun k => by rw [e, if_pos hm, h0]; rfl
      · obtain ⟨a, ha, _, ha2⟩ := minL_spec (l := L.map (· 0)) (by simpa using h0)
        obtain ⟨b, hb, hb1, _⟩ := minL_spec (l := L.map (· 1)) (by simpa using h0)
        refine .inr ⟨![a, b], fun k => ?_, ?_⟩
        · fin_cases k
          · show ix (TA.rollMin w mp (S 0)) i = _; rw [e, if_pos hm]; exact ha
          · show ix (TA.rollMin w mp (S 1)) i = _; rw [e, if_pos hm]; exact hb
        · obtain ⟨x, hx, rfl⟩ := List.mem_map.mp hb1
          exact le_trans (ha2 _ (List.mem_map_of_mem hx)) (h2 x hx)
    · exact FV.nan.congr fun k => by rw [e, if_neg hm]⟩

theorem FS.mid {n : Nat} {H L : Fin 2 → Series (Val K)} (hh : FS RLe n H) (hl : FS RLe n L) (w mp : Nat) :
    FS RLe n fun k => Ichimoku.mid (H k) (L k) w mp := by
  unfold Ichimoku.mid
  rw [lit_fin]
  exact ((hh.rollMax w mp).sadd rle_cone (hl.rollMin w mp)).cmulPos rle_cone (by norm_num)

theorem FS.vis {n : Nat} {S : Fin 2 → Series (Val K)} (h : FS RLe n S) (v : Bool) (w : Nat) :
    FS RLe n fun k => Ichimoku.vis v w (S k) := by
  cases v with
  | false => exact h
  | true => exact h.shift w (h.smean rle_cone)

/-- the middle of two rising bands -/
theorem FS.midband {n : Nat} {S T : Fin 2 → Series (Val K)} (h : FS RLe n S) (h' : FS RLe n T) :
    FS RLe n fun k => TA.sadd (divc (TA.ssub (S k) (T k)) (lit 2)) (T k) := by
  have e : ∀ k, TA.sadd (divc (TA.ssub (S k) (T k)) (lit 2)) (T k) = divc (TA.sadd (S k) (T k)) (.fin 2) := fun k => by
    apply List.ext_getElem
    · simp [TA.sadd, TA.ssub, divc, TA.zip2]
    · intro i h1 h2
      have hi : i < n := by
        have : i < (S k).length := by simpa [TA.sadd, TA.ssub, divc, TA.zip2] using h1
        rw [h.len] at this; exact this
      rw [← ix_lt h1, ← ix_lt h2]
      have e1 : ix (TA.sadd (divc (TA.ssub (S k) (T k)) (lit 2)) (T k)) i
          = ((ix (S k) i -. ix (T k) i) /. .fin 2) +. ix (T k) i := by
        unfold TA.sadd TA.zip2
        rw [ix_tab_lt (by simp [divc, TA.ssub, TA.zip2]; rw [h.len]; exact hi)]
        congr 1
        unfold divc
        rw [ix_lt (by simp [TA.ssub, TA.zip2]; rw [h.len]; exact hi), List.getElem_map,
          ← ix_lt (by simp [TA.ssub, TA.zip2]; rw [h.len]; exact hi)]
        unfold TA.ssub TA.zip2
        rw [ix_tab_lt (by rw [h.len]; exact hi)]
        simp
      have e2 : ix (divc (TA.sadd (S k) (T k)) (.fin 2)) i = (ix (S k) i +. ix (T k) i) /. .fin 2 := by
        unfold divc
        rw [ix_lt (by simp [TA.sadd, TA.zip2]; rw [h.len]; exact hi), List.getElem_map,
          ← ix_lt (by simp [TA.sadd, TA.zip2]; rw [h.len]; exact hi)]
        unfold TA.sadd TA.zip2
        rw [ix_tab_lt (by rw [h.len]; exact hi)]
      rw [e1, e2]
      rcases h.cs i with g | ⟨x, g, _⟩
      · rw [g]; rfl
      · rcases h'.cs i with g' | ⟨y, g', _⟩
        · rw [g']; simp
        · rw [g, g', fin_sub, fin_add, fin_div _ _ two_ne_zero, fin_div _ _ two_ne_zero, fin_add]
          congr 1
          ring
  rw [funext e]
  exact (h.sadd rle_cone h').divPos rle_cone (by norm_num)

end

/-! ## C70 -/

/-- C70: superposition.  If the price table `c` is `p·a + q·b`, gaps included, every linear output of `c` is the same
combination of those of `a` and `b`: same warm-up, same gaps, same exceptions. -/
theorem superposition (p q : ℝ) (a b c : List (Bar (Val ℝ))) (h : MixBars p q a b c) (fillna : Bool)
    (ind : Ind (Val ℝ)) (hi : ind.linear) :
    (∃ e, ind.eval fillna a = .error e ∧ ind.eval fillna b = .error e ∧ ind.eval fillna c = .error e) ∨
    ∃ s t u, ind.eval fillna a = .ok s ∧ ind.eval fillna b = .ok t ∧ ind.eval fillna c = .ok u ∧ MixS p q s t u := by
  have el : (lows a).length = (highs a).length := by simp
  have ec : (closes a).length = (highs a).length := by simp
  have h1 := h.high.toFS (fun k => highs ((![a, b, c] : Fin 3 → _) k)) rfl rfl rfl
  have h2 := h.low.toFS (fun k => lows ((![a, b, c] : Fin 3 → _) k)) rfl rfl rfl
  have h3 := h.close.toFS (fun k => closes ((![a, b, c] : Fin 3 → _) k)) rfl rfl rfl
  rw [el] at h2
  rw [ec] at h3
  rcases fam_linear (rmix_sub p q) h1 h2 h3 fillna ind hi with ⟨e, he⟩ | ⟨out, ho, hf⟩
  · exact .inl ⟨e, he 0, he 1, he 2⟩
  · exact .inr ⟨out 0, out 1, out 2, ho 0, ho 1, ho 2, hf.toMix⟩

/-! ## C71 -/

/-- C71: raising prices (any of them, in any rows) never lowers a rising output. -/
theorem monotone_in_prices (a b : List (Bar (Val ℝ))) (h : LeBars a b) (fillna : Bool) (ind : Ind (Val ℝ))
    (hi : ind.rising) :
    (∃ e, ind.eval fillna a = .error e ∧ ind.eval fillna b = .error e) ∨
    ∃ s t, ind.eval fillna a = .ok s ∧ ind.eval fillna b = .ok t ∧ SLe s t := by
  have el : (lows a).length = (highs a).length := by simp
  have ec : (closes a).length = (highs a).length := by simp
  have h1 := h.high.toFS (fun k => highs ((![a, b] : Fin 2 → _) k)) rfl rfl
  have h2 := h.low.toFS (fun k => lows ((![a, b] : Fin 2 → _) k)) rfl rfl
  have h3 := h.close.toFS (fun k => closes ((![a, b] : Fin 2 → _) k)) rfl rfl
  rw [el] at h2
  rw [ec] at h3
  have key : FOut RLe (highs a).length fun k => ind.eval fillna ((![a, b] : Fin 2 → _) k) := by
    generalize (![a, b] : Fin 2 → List (Bar (Val ℝ))) = B at *
    generalize (highs a).length = n at *
    have hav := fun w wa o m => fam_average rle_cone h1 h2 h3 fillna w wa o m
    have hdc : ∀ w off (f : Donchian (Val ℝ) → Series (Val ℝ)),
        (FS RLe n fun k => f ⟨closes (B k), rollMax w (if fillna then 1 else w) (highs (B k)),
          rollMin w (if fillna then 1 else w) (lows (B k)), w, (if fillna then 1 else w), off, fillna⟩) →
        FOut RLe n fun k => (Donchian.new (highs (B k)) (lows (B k)) (closes (B k)) w off fillna).map f :=
      fun w off f hf => FOut.guardMap (fun k => Donchian.new_eq _ _ _ _ _ _) f fun _ => hf
    have hoff : ∀ (S : Fin 2 → Series (Val ℝ)) (off : Int), FS RLe n S →
        FS RLe n fun k => if off ≠ 0 then TA.shiftInt (S k) off else S k := fun S off hS => by
      by_cases h0 : off ≠ 0
      · simp only [if_pos h0]; exact hS.shiftInt off
      · simp only [if_neg h0]; exact hS
    cases ind
    case ema w => exact (hav w 0 true .nan).1
    case sma w => exact (hav w 0 true .nan).2.1
    case wma w => exact (hav w 0 true .nan).2.2.1 hi
    case bbMavg w d => exact (hav w 0 true d).2.2.2.1
    case kcMband w wa o m => exact (hav w wa o m).2.2.2.2
    case ichimokuConv w => exact FOut.ok ((h1.mid h2 w _).fillBack fillna)
    case ichimokuBase w => exact FOut.ok ((h1.mid h2 w _).fillBack fillna)
    case ichimokuA w1 w2 v =>
      have : FS RLe n fun k => Ichimoku.spanA (highs (B k)) (lows (B k)) w1 w2 fillna := by
        unfold Ichimoku.spanA
        rw [lit_fin]
        exact ((h1.mid h2 w1 _).sadd rle_cone (h1.mid h2 w2 _)).cmulPos rle_cone (by norm_num)
      exact FOut.ok ((this.vis v w2).fillBack fillna)
    case ichimokuB w2 w3 v => exact FOut.ok (((h1.mid h2 w3 0).vis v w2).fillBack fillna)
    case dcHband w off => exact hdc w off _ (hoff _ off ((h1.rollMax w _).fillBack fillna))
    case dcLband w off => exact hdc w off _ (hoff _ off ((h2.rollMin w _).fillBack fillna))
    case dcMband w off =>
      exact hdc w off _ (hoff _ off (((h1.rollMax w _).midband (h2.rollMin w _)).fillBack fillna))
    all_goals exact hi.elim
  rcases key with ⟨e, he⟩ | ⟨out, ho, hf⟩
  · exact .inl ⟨e, he 0, he 1⟩
  · exact .inr ⟨out 0, out 1, ho 0, ho 1, hf.toLe⟩

/-! ## weighting by volume -/

section
variable [Field K] [LinearOrder K] [IsStrictOrderedRing K] {ι : Type} {R : (ι → K) → Prop} {n : Nat}
  {S : ι → Series (Val K)}

/-- multiplication from the left by a common series of numbers -/
theorem FS.smulLeft (hR : IsSub R) (h : FS R n S) (t : Series (Val K)) (hn : t.length = n)
    (ht : ∀ i, ix t i = .nan ∨ (ix t i).IsFin) : FS R n fun k => smul t (S k) :=
  ⟨fun k => by unfold TA.smul TA.zip2; rw [length_tab, hn], fun i hi => by
    have e : ∀ k, ix (TA.smul t (S k)) i = ix t i *. ix (S k) i := fun k => by
      unfold TA.smul TA.zip2; rw [ix_tab_lt (by rw [hn]; exact hi)]
    rcases h.cs i with h1 | ⟨x, h1, hx⟩
    · exact FV.nan.congr fun k => by rw [e, h1, mul_nan]
    · rcases ht i with h2 | ⟨y, h2⟩
      · exact FV.nan.congr fun k => by rw [e, h2, nan_mul]
      · exact (FV.fin (hR.smul' y x hx)).congr fun k => by rw [e, h1, h2, fin_mul]⟩

theorem FS.cumsum (hR : IsCone R) (h : FS R n S) : FS R n fun k => cumsum (S k) :=
  ⟨fun k => by rw [length_cumsum, h.len], fun i hi => by
    obtain ⟨L, h1, h2⟩ := h.validOf (List.range (i + 1))
    have e : ∀ k, ix (TA.cumsum (S k)) i = if Flt.isNaN (ix (S k) i) then .nan else .fin (L.sum k) := fun k => by
      unfold TA.cumsum
      rw [ix_pre (by rw [h.len]; exact hi), take_eq_map (by rw [h.len]; omega)]
      have e1 : ix ((List.range (i + 1)).map (ix (S k))) (((List.range (i + 1)).map (ix (S k))).length - 1)
          = ix (S k) i := by
        rw [List.length_map, List.length_range, Nat.add_sub_cancel,
          ix_lt (by rw [List.length_map, List.length_range]; omega), List.getElem_map, List.getElem_range]
      rw [e1, h1, sumL_fin, sum_map_apply]; rfl
    rcases h.cs i with h3 | ⟨x, h3, hx⟩
    · exact FV.nan.congr fun k => by rw [e, h3]; rfl
    · exact (FV.fin (hR.sum L h2)).congr fun k => by rw [e, h3]; rfl⟩

/-- a weighted average with common weights `≥ 0` -/
theorem FS.wavg (hR : IsCone R) (h : FS R n S) (t : Series (Val K)) (hn : t.length = n)
    (ht : ∀ i, ix t i = .nan ∨ ∃ y, ix t i = .fin y ∧ 0 ≤ y) (w mp : Nat) :
    FS R n fun k => sdiv (TA.rollSum w mp (TA.smul (S k) t)) (TA.rollSum w mp t) := by
  have hp := h.smulCommonPos hR t ht
  have hs := hp.rollSum hR w mp
  refine ⟨fun k => by unfold sdiv TA.zip2; rw [length_tab, hs.len], fun i hi => ?_⟩
  have e : ∀ k, ix (sdiv (TA.rollSum w mp (TA.smul (S k) t)) (TA.rollSum w mp t)) i
      = ix (TA.rollSum w mp (TA.smul (S k) t)) i /. ix (TA.rollSum w mp t) i := fun k => by
    unfold sdiv TA.zip2; rw [ix_tab_lt (by rw [hs.len]; exact hi)]
  have ev := ix_rollSum (s := t) (w := w) (mp := mp) (i := i) (by rw [hn]; exact hi)
  have hv0 : ∀ v ∈ obs t w i, 0 ≤ v := fun v hv => by
    obtain ⟨j, _, _, hj⟩ := mem_obs.mp hv
    rcases ht j with h2 | ⟨y, h2, hy⟩
    · rw [h2] at hj; cases hj
    · rw [h2] at hj
      have := Val.fin.inj hj
      subst this; exact hy
  rcases hs.cs i with h1 | ⟨x, h1, hx⟩
  · exact FV.nan.congr fun k => by rw [e, h1, nan_div]
  · by_cases hm : mp ≤ (obs t w i).length
    · rw [if_pos hm] at ev
      have hn0 : 0 ≤ (obs t w i).sum := List.sum_nonneg hv0
      by_cases h0 : (obs t w i).sum = 0
      · -- every weight in the window is zero
        have hz : ∀ v ∈ obs t w i, v = 0 := fun v hv =>
          le_antisymm (by rw [← h0]; exact List.single_le_sum hv0 v hv) (hv0 v hv)
        refine FV.nan.congr fun k => ?_
        have hx0 : x k = 0 := by
          have e2 := h1 k
          rw [ix_rollSum (by rw [hp.len]; exact hi)] at e2
          split_ifs at e2 with hm2
          have e3 := Val.fin.inj e2
          rw [← e3]
          apply List.sum_eq_zero
          intro v hv
          obtain ⟨j, hj1, hj2, hj⟩ := mem_obs.mp hv
          have hjn : j < n := by omega
          have e4 : ix (TA.smul (S k) t) j = ix (S k) j *. ix t j := by
            unfold TA.smul TA.zip2; rw [ix_tab_lt (by rw [h.len]; exact hjn)]
          rw [e4] at hj
          rcases ht j with h2 | ⟨y, h2, _⟩
          · rw [h2, mul_nan] at hj; cases hj
          · have hy0 : y = 0 := hz y (mem_obs.mpr ⟨j, hj1, hj2, h2⟩)
            subst hy0
            rcases h.cs j with h3 | ⟨z, h3, _⟩
            · rw [h3, nan_mul] at hj; cases hj
            · rw [h3, h2, fin_mul, mul_zero] at hj
              exact (Val.fin.inj hj).symm
        rw [e, h1, ev, h0, hx0, fin_div_zero, if_pos rfl]
      · have hpos : 0 < (obs t w i).sum := lt_of_le_of_ne hn0 (Ne.symm h0)
        have := hR.smul ((obs t w i).sum)⁻¹ x (by positivity) hx
        exact (FV.fin this).congr fun k => by rw [e, h1, ev, fin_div _ _ h0, div_eq_inv_mul]
    · rw [if_neg hm] at ev
      exact FV.nan.congr fun k => by rw [e, ev, div_nan]

end

/-- every row is NaN or a number `≥ 0` -/
def Weights [Field K] [LinearOrder K] (t : Series (Val K)) : Prop := ∀ i, i < t.length → ix t i = .nan ∨ ∃ y, ix t i = .fin y ∧ 0 ≤ y

theorem Weights.all [Field K] [LinearOrder K] {t : Series (Val K)} (h : Weights t) (i : Nat) :
    ix t i = .nan ∨ ∃ y, ix t i = .fin y ∧ 0 ≤ y := by
  by_cases hi : i < t.length
  · exact h i hi
  · exact .inl (ix_ge (by omega))

section
variable {ι : Type} {n : Nat} {R : (ι → ℝ) → Prop} {B : ι → List (Bar (Val ℝ))}

theorem fam_vwap (hR : IsCone R) (hh : FS R n fun k => highs (B k)) (hl : FS R n fun k => lows (B k))
    (hc : FS R n fun k => closes (B k)) (vol : Series (Val ℝ)) (hn : vol.length = n) (hv : ∀ k, volumes (B k) = vol)
    (hw : Weights vol) (fillna : Bool) (w : Nat) : FOut R n fun k => (Ind.vwap w).eval fillna (B k) := by
  have e : (fun k => (Ind.vwap w).eval fillna (B k)) = fun k => .ok
      (checkFillna fillna (.const (lit 0)) (VWAP.run (highs (B k)) (lows (B k)) (closes (B k)) vol w fillna)) :=
    funext fun k => by rw [← hv k]; rfl
  rw [e]
  exact FOut.ok (((hh.typical hR hl hc).wavg hR vol hn hw.all w (minp fillna w)).fill0 hR fillna)

theorem fam_fi_price (hR : IsSub R) (hc : FS R n fun k => closes (B k)) (vol : Series (Val ℝ))
    (hv : ∀ k, volumes (B k) = vol) (hw : Weights vol) (fillna : Bool) (w : Nat) :
    FOut R n fun k => (Ind.fi w).eval fillna (B k) := by
  have hd : FS R n fun k => TA.smul (TA.ssub (closes (B k)) (TA.shift (closes (B k)) 1)) vol :=
    (hc.ssub hR (hc.shift 1 FV.nan)).smulCommon hR _ fun i => (hw.all i).imp_right fun ⟨y, hy, _⟩ => ⟨y, hy⟩
  have e : (fun k => (Ind.fi w).eval fillna (B k)) = fun k => forceIndex (closes (B k)) vol w fillna :=
    funext fun k => by rw [← hv k]; rfl
  rw [e]
  exact FOut.guard (fun k => forceIndex_eq _ _ _ _) fun hw =>
    (hd.ema hR.toIsCone (by omega) fillna).fill0 hR.toIsCone fillna

theorem fam_obv (hR : IsSub R) (hv : FS R n fun k => volumes (B k)) (c : Series (Val ℝ)) (hn : c.length = n)
    (ec : ∀ k, closes (B k) = c) (fillna : Bool) : FOut R n fun k => Ind.obv.eval fillna (B k) := by
  have hs : FS R n fun k => OBV.signed c (volumes (B k)) :=
    ⟨fun k => by unfold OBV.signed zip3; rw [length_tab, hn], fun i hi => by
      have e : ∀ k, ix (OBV.signed c (volumes (B k))) i = if ix c i <. ix (TA.shift c 1) i
          then Flt.neg (ix (volumes (B k)) i) else ix (volumes (B k)) i := fun k => by
        unfold OBV.signed zip3; rw [ix_tab_lt (by rw [hn]; exact hi)]
      cases hlt : ix c i <. ix (TA.shift c 1) i with
      | false => exact (hv.ixv i).congr fun k => by rw [e, hlt]; rfl
      | true =>
        refine ((hv.ixv i).map Flt.neg rfl (fun x => -x) (fun _ => rfl) fun x hx => hR.neg x hx).congr fun k => ?_
        rw [e, hlt]; rfl⟩
  have e : (fun k => Ind.obv.eval fillna (B k)) = fun k => .ok
      (checkFillna fillna (.const (lit 0)) (TA.cumsum (OBV.signed c (volumes (B k))))) :=
    funext fun k => by rw [← ec k]; rfl
  rw [e]
  exact FOut.ok ((hs.cumsum hR.toIsCone).fill0 hR.toIsCone fillna)

theorem clv_fin {h l c : Series (Val ℝ)} (hg : GoodBars h l c) (i : Nat) (hi : i < h.length) :
    (ix (clv h l c) i).IsFin := by
  have hl := hg.lenL
  have hc := hg.lenC
  have e : ix (clv h l c) i =
      (fun v : Val ℝ => if Flt.isNaN v then lit 0 else v) (((ix c i -. ix l i) -. (ix h i -. ix c i)) /. (ix h i -. ix l i)) := by
    unfold clv fillConst sdiv TA.ssub TA.zip2
    rw [ix_lt (by simp; omega), List.getElem_map, ← ix_lt (by simp; omega), ix_tab_lt (by simp; omega),
      ix_tab_lt (by simp; omega), ix_tab_lt (by omega), ix_tab_lt (by omega), ix_tab_lt (by omega)]
  rw [e]
  rcases hg.row i hi with ⟨e1, e2, e3⟩ | ⟨x, y, z, e1, e2, e3, h1, h2⟩
  · rw [e1, e2, e3]; exact ⟨0, by simp⟩
  · rw [e1, e2, e3]
    simp only [fin_sub]
    by_cases h0 : x - y = 0
    · have : z - y - (x - z) = 0 := by linarith
      rw [h0, this, fin_div_zero, if_pos rfl]; exact ⟨0, by simp⟩
    · rw [fin_div _ _ h0]; exact ⟨_, rfl⟩

theorem fam_adi (hR : IsSub R) (hv : FS R n fun k => volumes (B k)) {h l c : Series (Val ℝ)} (hg : GoodBars h l c)
    (hn : h.length = n) (eh : ∀ k, highs (B k) = h) (el : ∀ k, lows (B k) = l) (ec : ∀ k, closes (B k) = c)
    (fillna : Bool) : FOut R n fun k => Ind.adi.eval fillna (B k) := by
  have hlen : (clv h l c).length = n := by
    unfold clv fillConst sdiv TA.ssub TA.zip2
    simp [hg.lenC, hn]
  have hs := hv.smulLeft hR (clv h l c) hlen fun i => by
    by_cases hi : i < n
    · exact .inr (clv_fin hg i (by omega))
    · exact .inl (ix_ge (by omega))
  have e : (fun k => Ind.adi.eval fillna (B k)) = fun k => .ok
      (checkFillna fillna (.const (lit 0)) (TA.cumsum (TA.smul (clv h l c) (volumes (B k))))) :=
    funext fun k => by rw [← ec k, ← eh k, ← el k]; rfl
  rw [e]
  exact FOut.ok ((hs.cumsum hR.toIsCone).fill0 hR.toIsCone fillna)

theorem fam_fi_volume (hR : IsSub R) (hv : FS R n fun k => volumes (B k)) (c : Series (Val ℝ)) (hn : c.length = n)
    (ec : ∀ k, closes (B k) = c) (hcl : ∀ i, ix c i = .nan ∨ (ix c i).IsFin) (fillna : Bool) (w : Nat) :
    FOut R n fun k => (Ind.fi w).eval fillna (B k) := by
  have hd : ∀ i, ix (TA.ssub c (TA.shift c 1)) i = .nan ∨ (ix (TA.ssub c (TA.shift c 1)) i).IsFin := fun i => by
    by_cases hi' : i < c.length
    · unfold TA.ssub TA.zip2
      rw [ix_tab_lt hi']
      unfold TA.shift
      rw [ix_tab_lt hi']
      rcases hcl i with e1 | ⟨x, e1⟩
      · rw [e1]; exact .inl rfl
      · rw [e1]
        split_ifs
        · exact .inl (sub_nan _)
        · rcases hcl (i - 1) with e2 | ⟨y, e2⟩
          · rw [e2]; exact .inl (sub_nan _)
          · rw [e2]; exact .inr ⟨_, fin_sub _ _⟩
    · exact .inl (ix_ge (by unfold TA.ssub TA.zip2; rw [length_tab]; omega))
  have hs := hv.smulLeft hR _ (by unfold TA.ssub TA.zip2; rw [length_tab, hn]) hd
  have e : (fun k => (Ind.fi w).eval fillna (B k)) = fun k => forceIndex c (volumes (B k)) w fillna :=
    funext fun k => by rw [← ec k]; rfl
  rw [e]
  exact FOut.guard (fun k => forceIndex_eq _ _ _ _) fun hw =>
    (hs.ema hR.toIsCone (by omega) fillna).fill0 hR.toIsCone fillna

theorem FOut.toMix {p q : ℝ} {E : Fin 3 → Except PyErr (Series (Val ℝ))} (h : FOut (RMix p q) n E) :
    (∃ e, E 0 = .error e ∧ E 1 = .error e ∧ E 2 = .error e) ∨
    ∃ s t u, E 0 = .ok s ∧ E 1 = .ok t ∧ E 2 = .ok u ∧ MixS p q s t u := by
  rcases h with ⟨e, he⟩ | ⟨out, ho, hf⟩
  · exact .inl ⟨e, he 0, he 1, he 2⟩
  · exact .inr ⟨out 0, out 1, out 2, ho 0, ho 1, ho 2, hf.toMix⟩

theorem all3 {α β : Type} {f : α → β} {a b c : α} {v : β} (h0 : f a = v) (h1 : f b = v) (h2 : f c = v) (k : Fin 3) :
    f ((![a, b, c] : Fin 3 → α) k) = v := by
  fin_cases k
  · exact h0
  · exact h1
  · exact h2

end

/-- C70 for the volume-weighted outputs: with the same volumes, VWAP and the force index are linear in the prices. -/
theorem superposition_weighted (p q : ℝ) (a b c : List (Bar (Val ℝ))) (h : MixBars p q a b c)
    (hb : volumes b = volumes a) (hc : volumes c = volumes a) (hv : Weights (volumes a)) (fillna : Bool) (w : Nat)
    (ind : Ind (Val ℝ)) (hi : ind = .vwap w ∨ ind = .fi w) :
    (∃ e, ind.eval fillna a = .error e ∧ ind.eval fillna b = .error e ∧ ind.eval fillna c = .error e) ∨
    ∃ s t u, ind.eval fillna a = .ok s ∧ ind.eval fillna b = .ok t ∧ ind.eval fillna c = .ok u ∧ MixS p q s t u := by
  have el : (lows a).length = (highs a).length := by simp
  have ec : (closes a).length = (highs a).length := by simp
  have h1 := h.high.toFS (fun k => highs ((![a, b, c] : Fin 3 → _) k)) rfl rfl rfl
  have h2 := h.low.toFS (fun k => lows ((![a, b, c] : Fin 3 → _) k)) rfl rfl rfl
  have h3 := h.close.toFS (fun k => closes ((![a, b, c] : Fin 3 → _) k)) rfl rfl rfl
  rw [el] at h2
  rw [ec] at h3
  have hvol := all3 (f := volumes) (a := a) rfl hb hc
  have key : FOut (RMix p q) (highs a).length fun k => ind.eval fillna ((![a, b, c] : Fin 3 → _) k) := by
    generalize (![a, b, c] : Fin 3 → List (Bar (Val ℝ))) = B at *
    rcases hi with rfl | rfl
    · exact fam_vwap (rmix_sub p q).toIsCone h1 h2 h3 _ (by simp) hvol hv fillna w
    · exact fam_fi_price (rmix_sub p q) h3 _ hvol hv fillna w
  exact key.toMix

/-- C71 for VWAP. -/
theorem vwap_monotone (a b : List (Bar (Val ℝ))) (h : LeBars a b) (hb : volumes b = volumes a)
    (hv : Weights (volumes a)) (fillna : Bool) (w : Nat) :
    ∃ s t, (Ind.vwap w).eval fillna a = .ok s ∧ (Ind.vwap w).eval fillna b = .ok t ∧ SLe s t := by
  have el : (lows a).length = (highs a).length := by simp
  have ec : (closes a).length = (highs a).length := by simp
  have h1 := h.high.toFS (fun k => highs ((![a, b] : Fin 2 → _) k)) rfl rfl
  have h2 := h.low.toFS (fun k => lows ((![a, b] : Fin 2 → _) k)) rfl rfl
  have h3 := h.close.toFS (fun k => closes ((![a, b] : Fin 2 → _) k)) rfl rfl
  rw [el] at h2
  rw [ec] at h3
  have hvol : ∀ k, volumes ((![a, b] : Fin 2 → _) k) = volumes a := fun k => by
    fin_cases k
    · rfl
    · exact hb
  rcases fam_vwap rle_cone h1 h2 h3 _ (by simp) hvol hv fillna w with ⟨e, he⟩ | ⟨out, ho, hf⟩
  · have := he 0
    simp only [Ind.eval] at this
    cases this
  · exact ⟨out 0, out 1, ho 0, ho 1, hf.toLe⟩

/-! ## volumes -/

/-- C70, volumes: for given bars (some may be missing) OBV, ADI and the force index are linear in the volumes. -/
theorem superposition_volume (p q : ℝ) (a b c : List (Bar (Val ℝ)))
    (hb : highs b = highs a ∧ lows b = lows a ∧ closes b = closes a)
    (hc : highs c = highs a ∧ lows c = lows a ∧ closes c = closes a)
    (hg : GoodBars (highs a) (lows a) (closes a)) (h : MixS p q (volumes a) (volumes b) (volumes c)) (fillna : Bool)
    (w : Nat) (ind : Ind (Val ℝ)) (hi : ind = .obv ∨ ind = .adi ∨ ind = .fi w) :
    (∃ e, ind.eval fillna a = .error e ∧ ind.eval fillna b = .error e ∧ ind.eval fillna c = .error e) ∨
    ∃ s t u, ind.eval fillna a = .ok s ∧ ind.eval fillna b = .ok t ∧ ind.eval fillna c = .ok u ∧ MixS p q s t u := by
  have hR := rmix_sub p q
  have hv := h.toFS (fun k => volumes ((![a, b, c] : Fin 3 → _) k)) rfl rfl rfl
  have ev : (volumes a).length = (highs a).length := by simp
  rw [ev] at hv
  have eh := all3 (f := highs) (a := a) rfl hb.1 hc.1
  have el := all3 (f := lows) (a := a) rfl hb.2.1 hc.2.1
  have ec := all3 (f := closes) (a := a) rfl hb.2.2 hc.2.2
  have hn : (closes a).length = (highs a).length := by simp
  have hcl : ∀ i, ix (closes a) i = .nan ∨ (ix (closes a) i).IsFin := fun i => by
    by_cases hi' : i < (highs a).length
    · rcases hg.row i hi' with ⟨_, _, e⟩ | ⟨_, _, z, _, _, e, _⟩
      · exact .inl e
      · exact .inr ⟨z, e⟩
    · exact .inl (ix_ge (by rw [hn]; omega))
  have key : FOut (RMix p q) (highs a).length fun k => ind.eval fillna ((![a, b, c] : Fin 3 → _) k) := by
    generalize (![a, b, c] : Fin 3 → List (Bar (Val ℝ))) = B at *
    rcases hi with rfl | rfl | rfl
    · exact fam_obv hR hv _ hn ec fillna
    · exact fam_adi hR hv hg rfl eh el ec fillna
    · exact fam_fi_volume hR hv _ hn ec hcl fillna w
  exact key.toMix

/-! ## examples and what is not linear or monotone -/

example : MixS (2 : ℚ) 1 ([.fin 1, .nan, .fin 4]) ([.fin 3, .nan, .fin 0]) ([.fin 5, .nan, .fin 8]) := by
  refine ⟨rfl, rfl, fun i hi => ?_⟩
  have : i = 0 ∨ i = 1 ∨ i = 2 := by simp at hi; omega
  rcases this with rfl | rfl | rfl
  · exact .inr ⟨1, 3, rfl, rfl, by simp [ix]; norm_num⟩
  · exact .inl ⟨rfl, rfl, rfl⟩
  · exact .inr ⟨4, 0, rfl, rfl, by simp [ix]; norm_num⟩

example : (smaIndicator ([.fin 1, .nan, .fin 4, .fin 8] : Series (Val ℚ)) 2 true,
    smaIndicator ([.fin 3, .nan, .fin 0, .fin 2] : Series (Val ℚ)) 2 true,
    smaIndicator ([.fin 5, .nan, .fin 8, .fin 18] : Series (Val ℚ)) 2 true)
    = ([.fin 1, .fin 1, .fin 4, .fin 6], [.fin 3, .fin 3, .fin 0, .fin 1], [.fin 5, .fin 5, .fin 8, .fin 13]) := by
  decide +kernel

-- prices 1·A + 1·B, same volumes
example : (volumeWeightedAveragePrice (qs [3, 6]) (qs [3, 6]) (qs [3, 6]) (qs [1, 2]) 2 false,
    volumeWeightedAveragePrice (qs [1, 1]) (qs [1, 1]) (qs [1, 7]) (qs [1, 2]) 2 false,
    volumeWeightedAveragePrice (qs [4, 7]) (qs [4, 7]) (qs [4, 13]) (qs [1, 2]) 2 false)
    = ([.nan, .fin 5], [.nan, .fin (7/3)], [.nan, .fin (22/3)]) := by decide +kernel

-- volumes 2·A - 1·B, same closes
example : (onBalanceVolume (qs [5, 4, 6]) (qs [1, 2, 3]) false, onBalanceVolume (qs [5, 4, 6]) (qs [1, 1, 4]) false,
    onBalanceVolume (qs [5, 4, 6]) (qs [1, 3, 2]) false)
    = ([.fin 1, .fin (-1), .fin 2], [.fin 1, .fin 0, .fin 4], [.fin 1, .fin (-2), .fin 0]) := by decide +kernel

-- one high and one low raised
example : (ichimokuConversionLine (qs [3, 6, 4]) (qs [1, 2, 2]) 2 false,
    ichimokuConversionLine (qs [3, 6, 8]) (qs [1, 4, 2]) 2 false)
    = ([.nan, .fin (7/2), .fin 4], [.nan, .fin (7/2), .fin 5]) := by decide +kernel

/-- The limit of C70 and C71: KAMA is neither linear nor monotone.  The third table is the sum of the first two and nowhere
below the first; KAMA of it is not the sum, and falls from 11/4 to 2 in the last row. -/
theorem kama_not_linear_not_monotone :
    kama (qs [1, 2, 3, 2]) 2 1 3 false = [.nan, .fin 2, .fin 3, .fin (11/4)] ∧
    kama (qs [0, 1, 0, 0]) 2 1 3 false = [.nan, .fin 1, .fin (3/4), .fin 0] ∧
    kama (qs [1, 3, 3, 2]) 2 1 3 false = [.nan, .fin 3, .fin 3, .fin 2] := by
  decide +kernel

/-- The limit of C71: the upper Keltner band falls when a low is raised, in both versions. -/
theorem keltner_not_monotone :
    (Keltner.new (qs [3]) (qs [1]) (qs [2]) 1 1 false true (lit 2)).map (·.hband) = .ok [.fin 4] ∧
    (Keltner.new (qs [3]) (qs [2]) (qs [2]) 1 1 false true (lit 2)).map (·.hband) = .ok [.fin (10/3)] ∧
    (Keltner.new (qs [3]) (qs [1]) (qs [2]) 1 1 false false (lit 2)).map (·.hband) = .ok [.fin 6] ∧
    (Keltner.new (qs [3]) (qs [2]) (qs [2]) 1 1 false false (lit 2)).map (·.hband) = .ok [.fin 4] := by
  decide +kernel

end TA
