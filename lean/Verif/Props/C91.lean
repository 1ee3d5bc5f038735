import Verif.Lemmas.Near
import Verif.Props.C30
import Verif.Props.C86
import Verif.Props.C70
import Mathlib.Tactic.IntervalCases
import Verif.Lemmas.NewEq
import Verif.Lemmas.Toy
import Mathlib.Algebra.Order.BigOperators.Ring.Finset
import Mathlib.Algebra.BigOperators.Fin
import Mathlib.Analysis.Real.Sqrt

/-!
# C91: how far a small change of the prices can move an output
-/

set_option linter.unusedSectionVars false
namespace TA

section std

theorem list_cauchy (L : List (ℝ × ℝ)) (u v : ℝ × ℝ → ℝ) :
    ((L.map fun p => u p * v p).sum) ^ 2 ≤ (L.map fun p => u p ^ 2).sum * (L.map fun p => v p ^ 2).sum := by
  have := Finset.sum_mul_sq_le_sq_mul_sq (Finset.univ : Finset (Fin L.length)) (fun i => u L[i.1]) (fun i => v L[i.1])
  rw [Fin.sum_univ_fun_getElem L fun p => u p * v p, Fin.sum_univ_fun_getElem L fun p => u p ^ 2,
    Fin.sum_univ_fun_getElem L fun p => v p ^ 2] at this
  exact this

theorem sum_sq_nonneg (L : List (ℝ × ℝ)) (u : ℝ × ℝ → ℝ) : 0 ≤ (L.map fun p => u p ^ 2).sum :=
  List.sum_nonneg fun x hx => by
    obtain ⟨y, _, rfl⟩ := List.mem_map.mp hx
    exact sq_nonneg _

theorem list_minkowski (L : List (ℝ × ℝ)) (u v : ℝ × ℝ → ℝ) :
    Real.sqrt (L.map fun p => (u p + v p) ^ 2).sum ≤ Real.sqrt (L.map fun p => u p ^ 2).sum + Real.sqrt (L.map fun p => v p ^ 2).sum := by
  have e : (L.map fun p => (u p + v p) ^ 2).sum
      = (L.map fun p => u p ^ 2).sum + 2 * (L.map fun p => u p * v p).sum + (L.map fun p => v p ^ 2).sum := by
    induction L with
    | nil => simp
    | cons p L ih => simp only [List.map_cons, List.sum_cons, ih]; ring
  have hc := list_cauchy L u v
  have ha := sum_sq_nonneg L u
  have hb := sum_sq_nonneg L v
  rw [e]
  generalize (L.map fun p => u p ^ 2).sum = A at *
  generalize (L.map fun p => v p ^ 2).sum = B at *
  generalize (L.map fun p => u p * v p).sum = C at *
  have h1 : C ≤ Real.sqrt A * Real.sqrt B := by
    rw [← Real.sqrt_mul ha]
    exact Real.le_sqrt_of_sq_le hc
  rw [Real.sqrt_le_left (by positivity)]
  nlinarith [Real.sq_sqrt ha, Real.sq_sqrt hb]

/-- deviations from the mean are no larger than the numbers themselves -/
theorem sum_dev_le (L : List (ℝ × ℝ)) (g : ℝ × ℝ → ℝ) :
    (L.map fun p => (g p - (L.map g).sum / L.length) ^ 2).sum ≤ (L.map fun p => g p ^ 2).sum := by
  have e : ∀ m : ℝ, (L.map fun p => (g p - m) ^ 2).sum = (L.map fun p => g p ^ 2).sum - 2 * m * (L.map g).sum + L.length * m ^ 2 := by
    intro m
    induction L with
    | nil => simp
    | cons p L ih => simp only [List.map_cons, List.sum_cons, ih, List.length_cons]; push_cast; ring
  rw [e]
  by_cases h0 : (L.length : ℝ) = 0
  · rw [h0]; simp
  · have : 2 * ((L.map g).sum / L.length) * (L.map g).sum = 2 * (L.length * ((L.map g).sum / L.length) ^ 2) := by
      field_simp
    have : 0 ≤ (L.length : ℝ) * ((L.map g).sum / L.length) ^ 2 := by positivity
    linarith

theorem std_le (L : List (ℝ × ℝ)) {d : ℝ} (hd : 0 ≤ d) (h : ∀ p ∈ L, |p.1 - p.2| ≤ d) :
    Real.sqrt (pvar (L.map Prod.snd)) ≤ Real.sqrt (pvar (L.map Prod.fst)) + d := by
  unfold pvar
  simp only [List.length_map, List.map_map]
  by_cases h0 : L.length = 0
  · rw [h0]; simpa using hd
  have hn : (0 : ℝ) < L.length := by exact_mod_cast Nat.pos_of_ne_zero h0
  show Real.sqrt ((L.map fun p => (p.2 - (L.map Prod.snd).sum / L.length) ^ 2).sum / L.length)
    ≤ Real.sqrt ((L.map fun p => (p.1 - (L.map Prod.fst).sum / L.length) ^ 2).sum / L.length) + d
  rw [Real.sqrt_div (sum_sq_nonneg L fun p => p.2 - _), Real.sqrt_div (sum_sq_nonneg L fun p => p.1 - _), div_add' _ _ _ (Real.sqrt_pos.mpr hn).ne']
  refine div_le_div_of_nonneg_right ?_ (Real.sqrt_nonneg _)
  have e : (L.map fun p => p.2 - p.1).sum = (L.map Prod.snd).sum - (L.map Prod.fst).sum := by
    clear h h0 hn
    induction L with
    | nil => simp
    | cons p L ih => simp only [List.map_cons, List.sum_cons, ih]; ring
  have h1 := list_minkowski L (fun p => p.1 - (L.map Prod.fst).sum / L.length) (fun p => (p.2 - p.1) - (L.map fun p => p.2 - p.1).sum / L.length)
  have e1 : (fun p : ℝ × ℝ => (p.1 - (L.map Prod.fst).sum / L.length + ((p.2 - p.1) - (L.map fun p => p.2 - p.1).sum / L.length)) ^ 2)
      = fun p => (p.2 - (L.map Prod.snd).sum / L.length) ^ 2 := by
    funext p
    rw [e]
    ring
  rw [e1] at h1
  refine le_trans h1 (add_le_add (le_refl _) ?_)
  rw [← Real.sqrt_sq hd, ← Real.sqrt_mul (sq_nonneg d)]
  refine Real.sqrt_le_sqrt (le_trans (sum_dev_le L _) ?_)
  clear h1 e1 e hn h0
  induction L with
  | nil => simp
  | cons p L ih =>
    simp only [List.map_cons, List.sum_cons, List.length_cons]
    have h2 := h p (by simp)
    have h3 := ih fun q hq => h q (by simp [hq])
    have h4 : (p.2 - p.1) ^ 2 ≤ d ^ 2 := by
      rw [← neg_sub, neg_sq, ← sq_abs]
      exact pow_le_pow_left₀ (abs_nonneg _) h2 2
    push_cast
    linarith

theorem obs_pairs {d : ℝ} {s t : Series (Val ℝ)} (h : SN d s t) (w i : Nat) :
    ∃ L : List (ℝ × ℝ), obs s w i = L.map Prod.fst ∧ obs t w i = L.map Prod.snd ∧ ∀ p ∈ L, |p.1 - p.2| ≤ d := by
  unfold obs
  induction winIx w i with
  | nil => exact ⟨[], rfl, rfl, by simp⟩
  | cons j js ih =>
    obtain ⟨L, h1, h2, h3⟩ := ih
    have hj := h.ix j
    unfold nums at *
    simp only [List.map_cons, List.filterMap_cons]
    generalize ix s j = u at hj
    generalize ix t j = v at hj
    cases hj with
    | fin hx =>
      rename_i x y
      refine ⟨(x, y) :: L, ?_, ?_, ?_⟩
      · simp only [Val.num?, List.map_cons, h1]
      · simp only [Val.num?, List.map_cons, h2]
      · intro p hp
        rcases List.mem_cons.mp hp with rfl | hp
        · exact hx
        · exact h3 p hp
    | nan => exact ⟨L, h1, h2, h3⟩
    | pinf => exact ⟨L, h1, h2, h3⟩
    | ninf => exact ⟨L, h1, h2, h3⟩

theorem SN.rollStd {d : ℝ} (hd : 0 ≤ d) {s t : Series (Val ℝ)} (h : SN d s t) (w mp : Nat) :
    SN d (TA.rollStd w mp s) (TA.rollStd w mp t) := by
  refine ⟨by simp [h.len], fun i hi => ?_⟩
  have hi' : i < s.length := by simpa using hi
  rw [ix_rollStd hi', ix_rollStd (by rw [← h.len]; exact hi')]
  obtain ⟨L, h1, h2, h3⟩ := obs_pairs h w i
  rw [h1, h2, List.length_map, List.length_map]
  split_ifs
  · refine .fin ?_
    unfold Nr
    have a := std_le L hd h3
    have b := std_le (L.map fun p => (p.2, p.1)) hd (by
      intro p hp
      obtain ⟨q, hq, rfl⟩ := List.mem_map.mp hp
      rw [abs_sub_comm]; exact h3 q hq)
    rw [List.map_map, List.map_map] at b
    have b' : Real.sqrt (pvar (L.map Prod.fst)) ≤ Real.sqrt (pvar (L.map Prod.snd)) + d := b
    rw [abs_le]
    constructor <;> linarith
  · exact .nan

end std

/-! ## vocabulary -/

/-- the same value, or two numbers at most `d` apart -/
def Apart {K : Type} [Field K] [LinearOrder K] (d : K) (u v : Val K) : Prop := u = v ∨ ∃ x y, u = .fin x ∧ v = .fin y ∧ |x - y| ≤ d

/-- two price tables of equal length, row by row within `d`; gaps in the same places -/
structure NearBars {K : Type} [Field K] [LinearOrder K] (d : K) (a b : List (Bar (Val K))) : Prop where
  len : a.length = b.length
  high : ∀ i < a.length, Apart d (ix (highs a) i) (ix (highs b) i)
  low : ∀ i < a.length, Apart d (ix (lows a) i) (ix (lows b) i)
  close : ∀ i < a.length, Apart d (ix (closes a) i) (ix (closes b) i)

/-- How much an output can move when every price moves by at most 1. -/
noncomputable def Ind.gain : Ind (Val ℝ) → Option ℝ
  | .ema _ | .sma _ | .bbMavg .. | .kcMband .. | .ichimokuConv _ | .ichimokuBase _ | .ichimokuA .. | .ichimokuB .. => some 1
  | .dcHband .. | .dcLband .. | .dcMband .. => some 1
  | .wma w => if 1 ≤ w then some 1 else none
  | .macd .. | .macdSignal .. | .ao .. | .dpo _ | .atr _ => some 2
  | .macdDiff .. => some 4
  | .bbHband _ (.fin m) | .bbLband _ (.fin m) => some (1 + |m|)
  | .kcHband _ _ true _ | .kcLband _ _ true _ => some (7 / 3)
  | .kcHband _ _ false (.fin m) | .kcLband _ _ false (.fin m) => some (1 + 2 * |m|)
  | _ => none

/-! ## the law -/

theorem ERel.weaken {α β : Type} {R Q : α → β → Prop} {x : Except PyErr α} {y : Except PyErr β} (h : ERel R x y) (hq : ∀ a b, R a b → Q a b) :
    ERel Q x y := by
  cases h with
  | error e => exact .error e
  | ok h => exact .ok (hq _ _ h)

section
variable {K : Type} [Field K] [LinearOrder K] [IsStrictOrderedRing K]

theorem Apart.toVN {d : K} (hd : 0 ≤ d) {u v : Val K} (h : Apart d u v) : VN d u v := by
  rcases h with rfl | ⟨x, y, rfl, rfl, h⟩
  · exact VN.refl hd _
  · exact .fin h

theorem VN.within {d : K} {u v : Val K} (h : VN d u v) : Apart d u v := by
  cases h with
  | fin h => exact .inr ⟨_, _, rfl, rfl, h⟩
  | nan => exact .inl rfl
  | pinf => exact .inl rfl
  | ninf => exact .inl rfl

end

section
variable {d : ℝ} {h h' l l' s s' : Series (Val ℝ)}

theorem near_mid (hd : 0 ≤ d) (hh : SN d h h') (hl : SN d l l') (w mp : Nat) :
    SN d (Ichimoku.mid h l w mp) (Ichimoku.mid h' l' w mp) := by
  unfold Ichimoku.mid
  rw [lit_fin]
  refine SN.mono (SN.cmul (by linarith) _ (SN.sadd (SN.rollMax w mp hh) (SN.rollMin w mp hl))) (le_of_eq ?_)
  rw [abs_of_pos (by norm_num)]; push_cast; ring

theorem near_vis (hd : 0 ≤ d) (hs : SN d s s') (v : Bool) (w : Nat) : SN d (Ichimoku.vis v w s) (Ichimoku.vis v w s') := by
  cases v with
  | false => exact hs
  | true => exact SN.shift hs w (SN.smean hd hs)

theorem near_spanA (hd : 0 ≤ d) (hh : SN d h h') (hl : SN d l l') (w1 w2 : Nat) (b : Bool) :
    SN d (Ichimoku.spanA h l w1 w2 b) (Ichimoku.spanA h' l' w1 w2 b) := by
  unfold Ichimoku.spanA
  rw [lit_fin]
  refine SN.mono (SN.cmul (by linarith) _ (SN.sadd (near_mid hd hh hl w1 _) (near_mid hd hh hl w2 _))) (le_of_eq ?_)
  rw [abs_of_pos (by norm_num)]; push_cast; ring

theorem near_ao (hd : 0 ≤ d) (hh : SN d h h') (hl : SN d l l') (w1 w2 : Nat) (b : Bool) :
    SN (2 * d) (awesomeOscillator h l w1 w2 b) (awesomeOscillator h' l' w1 w2 b) := by
  have hm : SN d (cmul (lit (1/2)) (sadd h l)) (cmul (lit (1/2)) (sadd h' l')) := by
    rw [lit_fin]
    refine SN.mono (SN.cmul (by linarith) _ (SN.sadd hh hl)) (le_of_eq ?_)
    rw [abs_of_pos (by norm_num)]; push_cast; ring
  refine SN.fillC (by linarith) (SN.mono (SN.ssub (SN.rollMean hd w1 _ hm) (SN.rollMean hd w2 _ hm)) ?_) _ b
  linarith

theorem near_dpo (hd : 0 ≤ d) (hs : SN d s s') (w : Nat) (b : Bool) : SN (2 * d) (dpo s w b) (dpo s' w b) :=
  SN.fillC (by linarith) (SN.mono (SN.ssub (SN.shift hs _ (SN.smean hd hs)) (SN.rollMean hd w _ hs)) (by linarith)) _ b

theorem near_macd (hd : 0 ≤ d) (hs : SN d s s') (slow fast sign : Nat) (b : Bool) :
    ERel (fun o o' => SN (2 * d) o.macd o'.macd ∧ SN (2 * d) o.macdSignal o'.macdSignal ∧ SN (4 * d) o.macdDiff o'.macdDiff)
      (MACD.new s slow fast sign b) (MACD.new s' slow fast sign b) := by
  rw [MACD.new_eq, MACD.new_eq]
  split_ifs with h0
  · exact .error _
  · push Not at h0
    have h1 : SN (2 * d) (ssub (ema s fast b) (ema s slow b)) (ssub (ema s' fast b) (ema s' slow b)) :=
      SN.mono (SN.ssub (SN.ema fast (by omega) b hs) (SN.ema slow (by omega) b hs)) (by linarith)
    have h2 := SN.ema sign (by omega) b h1
    exact .ok ⟨SN.fillC (by linarith) h1 _ b, SN.fillC (by linarith) h2 _ b,
      SN.fillC (by linarith) (SN.mono (SN.ssub h1 h2) (by linarith)) _ b⟩

theorem near_donchian (hd : 0 ≤ d) (hh : SN d h h') (hl : SN d l l') (w : Nat) (off : Int) (b : Bool) :
    ERel (fun o o' => SN d o.hband o'.hband ∧ SN d o.lband o'.lband ∧ SN d o.mband o'.mband)
      (Donchian.new h l s w off b) (Donchian.new h' l' s' w off b) := by
  refine ERel.guardRoll (.ok ?_)
  have h1 := SN.rollMax w (if b then 1 else w) hh
  have h2 := SN.rollMin w (if b then 1 else w) hl
  have ho : ∀ {x x' : Series (Val ℝ)} (o o' : Donchian (Val ℝ)) (_ : o'.offset = o.offset)
      (_ : SN d x x'), SN d (o.off x) (o'.off x') := by
    intro x x' o o' e hx
    unfold Donchian.off
    rw [e]
    split_ifs
    · exact SN.shiftInt hx _
    · exact hx
  refine ⟨ho _ _ rfl (SN.fillBack h1 b), ho _ _ rfl (SN.fillBack h2 b), ho _ _ rfl (SN.fillBack ?_ b)⟩
  have e : ∀ x y : Series (Val ℝ), sadd (divc (ssub x y) (lit 2)) y = zip2 (fun a b => ((a -. b) /. .fin 2) +. b) x y := fun x y => by
    refine series_ext (by simp [sadd, divc, ssub, zip2]) fun i hi => ?_
    have hi' : i < x.length := by simpa [sadd, divc, ssub, zip2] using hi
    unfold sadd ssub divc
    rw [ix_zip2 (by simp [zip2]; exact hi'), ix_zip2 hi', ix_map (by simp [zip2]; exact hi'), ix_zip2 hi', lit_fin]
    norm_num
  show SN d (sadd (divc (ssub _ _) (lit 2)) _) (sadd (divc (ssub _ _) (lit 2)) _)
  rw [e, e]
  exact SN.zip2 h1 h2 fun a a' c c' => VN.middle hd

theorem near_bb (hd : 0 ≤ d) (hs : SN d s s') (w : Nat) (m : ℝ) (b : Bool) :
    SN ((1 + |m|) * d) (BB.new s w (.fin m) b).bollingerHband (BB.new s' w (.fin m) b).bollingerHband ∧
    SN ((1 + |m|) * d) (BB.new s w (.fin m) b).bollingerLband (BB.new s' w (.fin m) b).bollingerLband := by
  have hm := SN.rollMean hd w (minp b w) hs
  have hv := SN.cmul hd m (SN.rollStd hd hs w (minp b w))
  have e : d + |m| * d ≤ (1 + |m|) * d := by linarith
  exact ⟨SN.fillBack (SN.mono (SN.sadd hm hv) e) b, SN.fillBack (SN.mono (SN.ssub hm hv) e) b⟩

theorem near_kc_orig (hd : 0 ≤ d) (hh : SN d h h') (hl : SN d l l') (hs : SN d s s') (w wa : Nat) (m : Val ℝ) (b : Bool) :
    ERel (fun o o' => SN d o.mband o'.mband ∧ SN (7 / 3 * d) o.hband o'.hband ∧ SN (7 / 3 * d) o.lband o'.lband)
      (Keltner.new h l s w wa b true m) (Keltner.new h' l' s' w wa b true m) := by
  refine ERel.guardRoll (.ok ⟨SN.fillBack (SN.rollMean hd _ _ (SN.typicalPrice hd hh hl hs)) b,
    SN.fillBack (SN.rollMean (by linarith) _ _ ?_) b, SN.fillBack (SN.rollMean (by linarith) _ _ ?_) b⟩)
  · simp only [lit_fin]
    refine SN.mono (SN.divPos (by positivity) (by norm_num) (SN.sadd (SN.ssub (SN.cmul hd _ hh) (SN.cmul hd _ hl)) hs)) (le_of_eq ?_)
    push_cast
    rw [abs_of_pos (by norm_num), abs_of_pos (by norm_num)]
    ring
  · simp only [lit_fin]
    refine SN.mono (SN.divPos (by positivity) (by norm_num) (SN.sadd (SN.sadd (SN.cmul hd _ hh) (SN.cmul hd _ hl)) hs)) (le_of_eq ?_)
    push_cast
    rw [abs_neg, abs_of_pos (by norm_num), abs_of_pos (by norm_num)]
    ring

theorem near_kc_atr (hd : 0 ≤ d) (hh : SN d h h') (hl : SN d l l') (hs : SN d s s') (w wa : Nat) (m : Val ℝ) (b : Bool) :
    ERel (fun o o' => SN d o.mband o'.mband ∧ ∀ k, m = .fin k → SN ((1 + 2 * |k|) * d) o.hband o'.hband ∧ SN ((1 + 2 * |k|) * d) o.lband o'.lband)
      (Keltner.new h l s w wa b false m) (Keltner.new h' l' s' w wa b false m) := by
  refine ERel.guard fun hw => (near_atr hd hh hl hs wa b).bind fun a a' ha => .ok ?_
  have e1 : ∀ mp, SN d (ewm (alphaOfSpan w) mp s) (ewm (alphaOfSpan w) mp s') := fun mp => by
    rw [alphaOfSpan_fin]
    exact ewm_rel (convex_Nr d) (span_pos w) (span_le w hw) _ hs
  refine ⟨SN.fillBack (e1 _) b, fun k hk => ?_⟩
  subst hk
  have h2 := SN.cmul (by linarith) k ha
  have e : d + |k| * (2 * d) ≤ (1 + 2 * |k|) * d := by linarith
  exact ⟨SN.fillBack (SN.mono (SN.sadd (e1 _) h2) e) b, SN.fillBack (SN.mono (SN.ssub (e1 _) h2) e) b⟩

end

theorem gain_rel {d : ℝ} (hd : 0 ≤ d) {a b : List (Bar (Val ℝ))} (hh : SN d (highs a) (highs b)) (hl : SN d (lows a) (lows b))
    (hc : SN d (closes a) (closes b)) (fillna : Bool) (ind : Ind (Val ℝ)) {g : ℝ} (hg : ind.gain = some g) :
    ERel (SN (g * d)) (ind.eval fillna a) (ind.eval fillna b) := by
  have one : (1 : ℝ) * d = d := one_mul d
  have kc : ∀ w wa o m, ERel (fun o o' => SN d o.mband o'.mband)
      (Keltner.new (highs a) (lows a) (closes a) w wa fillna o m) (Keltner.new (highs b) (lows b) (closes b) w wa fillna o m) := by
    intro w wa o m
    cases o with
    | true => exact (near_kc_orig hd hh hl hc w wa m fillna).weaken fun _ _ h => h.1
    | false => exact (near_kc_atr hd hh hl hc w wa m fillna).weaken fun _ _ h => h.1
  cases ind
  case ema w =>
    cases hg; rw [one]
    show ERel _ (emaIndicator _ _ _) (emaIndicator _ _ _)
    rw [emaIndicator_eq, emaIndicator_eq]
    split_ifs
    · exact .error _
    · exact .ok (SN.ema w (by omega) fillna hc)
  case sma w => cases hg; rw [one]; exact .ok (SN.rollMean hd w _ hc)
  case wma w =>
    simp only [Ind.gain] at hg
    split_ifs at hg with hw
    cases hg; rw [one]; exact .ok (near_wma hd hc w hw fillna)
  case bbMavg w m => cases hg; rw [one]; exact .ok (SN.fillBack (SN.rollMean hd w _ hc) fillna)
  case kcMband w wa o m => cases hg; rw [one]; exact (kc w wa o m).map fun _ _ h => h
  case ichimokuConv w => cases hg; rw [one]; exact .ok (SN.fillBack (near_mid hd hh hl w _) fillna)
  case ichimokuBase w => cases hg; rw [one]; exact .ok (SN.fillBack (near_mid hd hh hl w _) fillna)
  case ichimokuA w1 w2 v => cases hg; rw [one]; exact .ok (SN.fillBack (near_vis hd (near_spanA hd hh hl w1 w2 fillna) v w2) fillna)
  case ichimokuB w2 w3 v => cases hg; rw [one]; exact .ok (SN.fillBack (near_vis hd (near_mid hd hh hl w3 0) v w2) fillna)
  case dcHband w off => cases hg; rw [one]; exact (near_donchian hd hh hl w off fillna).map fun _ _ h => h.1
  case dcLband w off => cases hg; rw [one]; exact (near_donchian hd hh hl w off fillna).map fun _ _ h => h.2.1
  case dcMband w off => cases hg; rw [one]; exact (near_donchian hd hh hl w off fillna).map fun _ _ h => h.2.2
  case macd slow fast sign => cases hg; exact (near_macd hd hc slow fast sign fillna).map fun _ _ h => h.1
  case macdSignal slow fast sign => cases hg; exact (near_macd hd hc slow fast sign fillna).map fun _ _ h => h.2.1
  case macdDiff slow fast sign => cases hg; exact (near_macd hd hc slow fast sign fillna).map fun _ _ h => h.2.2
  case ao w1 w2 => cases hg; exact .ok (near_ao hd hh hl w1 w2 fillna)
  case dpo w => cases hg; exact .ok (near_dpo hd hc w fillna)
  case atr w => cases hg; exact near_atr hd hh hl hc w fillna
  case bbHband w m =>
    cases m <;> cases hg
    exact .ok (near_bb hd hc w _ fillna).1
  case bbLband w m =>
    cases m <;> cases hg
    exact .ok (near_bb hd hc w _ fillna).2
  case kcHband w wa o m =>
    cases o with
    | true => cases hg; exact (near_kc_orig hd hh hl hc w wa m fillna).map fun _ _ h => h.2.1
    | false =>
      cases m <;> cases hg
      exact (near_kc_atr hd hh hl hc w wa _ fillna).map fun _ _ h => (h.2 _ rfl).1
  case kcLband w wa o m =>
    cases o with
    | true => cases hg; exact (near_kc_orig hd hh hl hc w wa m fillna).map fun _ _ h => h.2.2
    | false =>
      cases m <;> cases hg
      exact (near_kc_atr hd hh hl hc w wa _ fillna).map fun _ _ h => (h.2 _ rfl).2
  all_goals cases hg

/-- C91. If every high, low and close of two tables (gaps in the same places) differs by at most `d`, an output with gain `g` differs by at most `g d` on
every row: same gaps, same warm-up, same exceptions. -/
theorem sensitivity {d : ℝ} (hd : 0 ≤ d) {a b : List (Bar (Val ℝ))} (h : NearBars d a b) (fillna : Bool) (ind : Ind (Val ℝ)) {g : ℝ}
    (hg : ind.gain = some g) :
    (∃ e, ind.eval fillna a = .error e ∧ ind.eval fillna b = .error e) ∨
    ∃ s t, ind.eval fillna a = .ok s ∧ ind.eval fillna b = .ok t ∧ s.length = t.length ∧ ∀ i < s.length, Apart (g * d) (ix s i) (ix t i) := by
  have h1 : SN d (highs a) (highs b) := ⟨by simp [h.len], fun i hi => (h.high i (by simpa using hi)).toVN hd⟩
  have h2 : SN d (lows a) (lows b) := ⟨by simp [h.len], fun i hi => (h.low i (by simpa using hi)).toVN hd⟩
  have h3 : SN d (closes a) (closes b) := ⟨by simp [h.len], fun i hi => (h.close i (by simpa using hi)).toVN hd⟩
  have key := gain_rel hd h1 h2 h3 fillna ind hg
  generalize ind.eval fillna a = x at *
  generalize ind.eval fillna b = y at *
  cases key with
  | error e => exact .inl ⟨e, rfl, rfl⟩
  | ok h => exact .inr ⟨_, _, rfl, rfl, h.len, fun i hi => VN.within (h.row i hi)⟩

/-! ## outputs without a gain -/

section jump
variable {K : Type} [Field K] [LinearOrder K] [IsStrictOrderedRing K]

/-- rises from 1/2 towards 1 for ever -/
def creep (i : Nat) : K := 1 - 1 / (i + 2)

theorem creep_lt (i : Nat) : (creep i : K) < creep (i + 1) := by
  unfold creep
  have h1 : (0 : K) < i + 2 := by positivity
  have : (1 : K) / ((i + 1 : ℕ) + 2) < 1 / (i + 2) := by
    apply one_div_lt_one_div_of_lt h1
    push_cast; linarith
  linarith

theorem creep_bd (i : Nat) : (0 : K) < creep i ∧ (creep i : K) < 1 := by
  unfold creep
  have h1 : (0 : K) < i + 2 := by positivity
  have h2 : (1 : K) / (i + 2) < 1 := by rw [div_lt_one h1]; linarith [Nat.cast_nonneg (α := K) i]
  have h3 : (0 : K) < 1 / (i + 2) := by positivity
  constructor <;> linarith

/-- C91. However small `d > 0`, there are bars that rise on every row and bars that fall on every row, everywhere within `d` of each other. -/
theorem creeping_markets {d : K} (hd : 0 < d) :
    ∃ h l c h' l' c' : Nat → K, Rising h l c ∧ Falling h' l' c' ∧ ∀ i, |h i - h' i| ≤ d ∧ |l i - l' i| ≤ d ∧ |c i - c' i| ≤ d := by
  let up : Nat → K := fun i => d * 2 + d / 2 * creep i
  let dn : Nat → K := fun i => d * 2 - d / 2 * creep i
  have hu : ∀ i, up i < up (i + 1) := fun i => by
    have := mul_lt_mul_of_pos_left (creep_lt (K := K) i) (half_pos hd)
    simp only [up]; linarith
  have hdn : ∀ i, dn (i + 1) < dn i := fun i => by
    have := mul_lt_mul_of_pos_left (creep_lt (K := K) i) (half_pos hd)
    simp only [dn]; linarith
  have b : ∀ i, 0 < d / 2 * creep i ∧ d / 2 * (creep i : K) < d / 2 := fun i => by
    obtain ⟨h1, h2⟩ := creep_bd (K := K) i
    have := mul_lt_mul_of_pos_left h2 (half_pos hd)
    exact ⟨mul_pos (half_pos hd) h1, by linarith⟩
  have hab : ∀ i, |up i - dn i| ≤ d := fun i => by
    obtain ⟨h1, h2⟩ := b i
    rw [abs_le]
    simp only [up, dn]
    constructor <;> linarith
  refine ⟨fun i => up i + d, fun i => up i - d, up, fun i => dn i + d, fun i => dn i - d, dn, ?_, ?_, fun i => ?_⟩
  · refine ⟨fun i => by linarith [hu i], fun i => by linarith [hu i], hu, fun i => ⟨by linarith, by linarith, by linarith⟩, fun i => ?_⟩
    have := (b i).1
    simp only [up]; linarith
  · refine ⟨fun i => by linarith [hdn i], fun i => by linarith [hdn i], hdn, fun i => ⟨by linarith, by linarith, by linarith⟩, fun i => ?_⟩
    have := (b i).2
    simp only [dn]; linarith
  · have := hab i
    refine ⟨by rw [add_sub_add_right_eq_sub]; exact this, by rw [sub_sub_sub_cancel_right]; exact this, this⟩

/-- C91. The oscillators have no gain: an arbitrarily small change of the prices takes RSI from 100 to 0, TSI from 100 to -100, the aroon lines and the money
flow index from one end of the scale to the other, and changes the sign of what OBV adds. -/
theorem readings_jump {d : K} (hd : 0 < d) (n : Nat) : ∃ h l c h' l' c' : Nat → K,
    (∀ i, |h i - h' i| ≤ d ∧ |l i - l' i| ≤ d ∧ |c i - c' i| ≤ d) ∧
    (∀ w, 1 ≤ w → ∃ s t, rsi (ser n c) w false = .ok s ∧ rsi (ser n c') w false = .ok t ∧
      ∀ i < n, 1 ≤ i → w - 1 ≤ i → ix s i = .fin 100 ∧ ix t i = .fin 0) ∧
    (∀ slow fast, 1 ≤ slow → 1 ≤ fast → ∃ s t, tsi (ser n c) slow fast false = .ok s ∧ tsi (ser n c') slow fast false = .ok t ∧
      ∀ i < n, slow + fast - 1 ≤ i → ix s i = .fin 100 ∧ ix t i = .fin (-100)) ∧
    (∀ w o o', 1 ≤ w → Aroon.new (ser n h) (ser n l) w false = .ok o → Aroon.new (ser n h') (ser n l') w false = .ok o' →
      ∀ i < n, w ≤ i → ix o.aroonIndicator i = .fin 100 ∧ ix o'.aroonIndicator i = .fin (-100)) ∧
    (∀ w, 1 ≤ w → ∀ v : Nat → K, (∀ i, 0 < v i) → ∀ i < n, 1 ≤ i → w - 1 ≤ i →
      ix (moneyFlowIndex (ser n h) (ser n l) (ser n c) (ser n v) w) i = .fin 100 ∧
      ix (moneyFlowIndex (ser n h') (ser n l') (ser n c') (ser n v) w) i = .fin 0) ∧
    (∀ v : Nat → K, ∀ i < n, ix (onBalanceVolume (ser n c) (ser n v)) i = .fin (∑ j ∈ Finset.range (i + 1), v j) ∧
      ix (onBalanceVolume (ser n c') (ser n v)) i = .fin (2 * v 0 - ∑ j ∈ Finset.range (i + 1), v j)) := by
  obtain ⟨h, l, c, h', l', c', hr, hf, hw⟩ := creeping_markets hd
  refine ⟨h, l, c, h', l', c', hw, ?_, ?_, ?_, ?_, ?_⟩
  · intro w w1
    obtain ⟨s, e1, d1⟩ := rsi_rising n hr.close w1 false
    obtain ⟨t, e2, d2⟩ := rsi_falling n hf.close w1 false
    refine ⟨s, t, e1, e2, fun i hi h1 hwi => ⟨d1.val i hi (by simpa using hwi), ?_⟩⟩
    rw [d2.val i hi (by simpa using hwi), if_neg (by omega)]
  · intro slow fast s1 f1
    obtain ⟨s, e1, d1⟩ := tsi_rising n hr.close s1 f1
    obtain ⟨t, e2, d2⟩ := tsi_falling n hf.close s1 f1
    exact ⟨s, t, e1, e2, fun i hi hwi => ⟨d1.val i hi hwi, d2.val i hi hwi⟩⟩
  · intro w o o' w1 e1 e2 i hi hwi
    exact ⟨(aroon_rising hr w1 e1 hi hwi).2.2, (aroon_falling hf w1 e2 hi hwi).2.2⟩
  · intro w w1 v hv i hi h1 hwi
    exact ⟨(mfi_rising hv w1 hi h1 hwi).1 hr, (mfi_rising hv w1 hi h1 hwi).2 hf⟩
  · intro v i hi
    exact ⟨((obv_rising n c v false).1 hr.close).val i hi (by omega), ((obv_rising n c' v false).2 hf.close).val i hi (by omega)⟩

end jump

/-! ## weights -/

section vwap
variable {d : ℝ} {a b : List (Bar (Val ℝ))}

/-- no infinite price -/
def TameBars (b : List (Bar (Val ℝ))) : Prop :=
  ∀ r ∈ b, (r.high = .nan ∨ r.high.IsFin) ∧ (r.low = .nan ∨ r.low.IsFin) ∧ (r.close = .nan ∨ r.close.IsFin)

/-- every price raised by `d` -/
noncomputable def lifted (d : ℝ) (b : List (Bar (Val ℝ))) : List (Bar (Val ℝ)) :=
  b.map fun r => ⟨r.high +. .fin d, r.low +. .fin d, r.close +. .fin d, r.volume⟩

theorem lifted_rel (d : ℝ) (b : List (Bar (Val ℝ))) : SA 1 d (highs b) (highs (lifted d b)) ∧ SA 1 d (lows b) (lows (lifted d b)) ∧
    SA 1 d (closes b) (closes (lifted d b)) ∧ volumes (lifted d b) = volumes b := by
  have e : ∀ v : Val ℝ, VA 1 d v (v +. .fin d) := fun v => by
    cases v with
    | fin x => rw [fin_add]; exact .fin (by simp [Aff])
    | nan => exact .nan
    | pinf => exact .pinf
    | ninf => exact .ninf
  have m : ∀ f g : Bar (Val ℝ) → Val ℝ, (∀ r, VA 1 d (f r) (g r)) → LA 1 d (b.map f) (b.map g) := fun f g h => by
    induction b with
    | nil => exact .nil
    | cons r b ih => exact .cons (h r) ih
  refine ⟨?_, ?_, ?_, by simp [lifted]⟩
  · unfold lifted; rw [highs, highs, List.map_map]; exact (m _ _ fun r => e r.high).toSRel
  · unfold lifted; rw [lows, lows, List.map_map]; exact (m _ _ fun r => e r.low).toSRel
  · unfold lifted; rw [closes, closes, List.map_map]; exact (m _ _ fun r => e r.close).toSRel

theorem within_le {u v v' : Val ℝ} (hu : u = .nan ∨ u.IsFin) (h : Apart d u v) (hd : 0 ≤ d) (hv : VA 1 d v v') : VLe u v' := by
  have h1 := h.toVN hd
  cases h1 with
  | nan => cases hv; exact .inl ⟨rfl, rfl⟩
  | pinf => rcases hu with hu | ⟨x, hu⟩ <;> cases hu
  | ninf => rcases hu with hu | ⟨x, hu⟩ <;> cases hu
  | fin h1 =>
    cases hv with
    | fin h2 =>
      refine .inr ⟨_, _, rfl, rfl, ?_⟩
      unfold Aff at h2
      unfold Nr at h1
      rw [abs_le] at h1
      linarith [h1.2]

theorem tame_ix {f : Bar (Val ℝ) → Val ℝ} (h : ∀ r ∈ a, f r = .nan ∨ (f r).IsFin) (i : Nat) : ix (a.map f) i = .nan ∨ (ix (a.map f) i).IsFin := by
  by_cases hi : i < a.length
  · rw [ix_lt (by simpa using hi), List.getElem_map]
    exact h _ (List.getElem_mem hi)
  · rw [ix_ge (by simp; omega)]; exact .inl rfl

theorem lifted_le (hd : 0 ≤ d) (h : NearBars d a b) (ht : TameBars a) : LeBars a (lifted d b) := by
  obtain ⟨r1, r2, r3, -⟩ := lifted_rel d b
  have hl : (lifted d b).length = a.length := by simp [lifted, h.len]
  exact ⟨⟨by simp [hl], fun i hi => within_le (tame_ix (fun r hr => (ht r hr).1) i) (h.high i (by simpa using hi)) hd (r1.ix i)⟩,
    ⟨by simp [hl], fun i hi => within_le (tame_ix (fun r hr => (ht r hr).2.1) i) (h.low i (by simpa using hi)) hd (r2.ix i)⟩,
    ⟨by simp [hl], fun i hi => within_le (tame_ix (fun r hr => (ht r hr).2.2) i) (h.close i (by simpa using hi)) hd (r3.ix i)⟩⟩

theorem Apart.symm {u v : Val ℝ} (h : Apart d u v) : Apart d v u := by
  rcases h with rfl | ⟨x, y, rfl, rfl, h⟩
  · exact .inl rfl
  · exact .inr ⟨y, x, rfl, rfl, by rw [abs_sub_comm]; exact h⟩

theorem NearBars.symm (h : NearBars d a b) : NearBars d b a :=
  ⟨h.len.symm, fun i hi => (h.high i (by rw [h.len]; exact hi)).symm, fun i hi => (h.low i (by rw [h.len]; exact hi)).symm,
    fun i hi => (h.close i (by rw [h.len]; exact hi)).symm⟩

/-- one side of it -/
theorem vwap_half (hd : 0 ≤ d) (h : NearBars d a b) (ht : TameBars a) (hv : volumes b = volumes a) (hw : Weights (volumes a)) (w : Nat) :
    let s := volumeWeightedAveragePrice (highs a) (lows a) (closes a) (volumes a) w false
    let t := volumeWeightedAveragePrice (highs b) (lows b) (closes b) (volumes b) w false
    ∀ i < s.length, (ix s i = .nan ∧ ix t i = .nan) ∨ ∃ x y, ix s i = .fin x ∧ ix t i = .fin y ∧ x ≤ y + d := by
  intro s t i hi
  obtain ⟨r1, r2, r3, r4⟩ := lifted_rel d b
  obtain ⟨s', t', e1, e2, -, hle⟩ := vwap_monotone a (lifted d b) (lifted_le hd h ht) (r4.trans hv) hw false w
  have e1' : s = s' := Except.ok.inj e1
  have e2' : volumeWeightedAveragePrice (highs (lifted d b)) (lows (lifted d b)) (closes (lifted d b)) (volumes (lifted d b)) w false = t' := Except.ok.inj e2
  have hr := (rel_vwap_shift one_pos r1 r2 r3 (volumes b) w).ix i
  rw [r4] at e2'
  rw [e2'] at hr
  have hl := hle i (by rw [← e1']; exact hi)
  rw [← e1'] at hl
  change VA 1 d (ix t i) (ix t' i) at hr
  generalize ix t i = q at *
  rcases hl with ⟨l1, l2⟩ | ⟨x, y, l1, l2, l3⟩
  · rw [l2] at hr
    cases hr
    exact .inl ⟨l1, rfl⟩
  · rw [l2] at hr
    cases hr with
    | fin hr =>
      refine .inr ⟨x, _, l1, rfl, ?_⟩
      unfold Aff at hr
      linarith

/-- C91. VWAP has gain 1 in the prices, the volumes being the same. -/
theorem vwap_sensitivity (hd : 0 ≤ d) (h : NearBars d a b) (ha : TameBars a) (hb : TameBars b) (hv : volumes b = volumes a) (hw : Weights (volumes a))
    (w : Nat) :
    ∃ s t, (Ind.vwap w).eval false a = .ok s ∧ (Ind.vwap w).eval false b = .ok t ∧ s.length = t.length ∧ ∀ i < s.length, Apart d (ix s i) (ix t i) := by
  refine ⟨_, _, rfl, rfl, ?_, fun i hi => ?_⟩
  · simp [volumeWeightedAveragePrice, VWAP.run, typicalPrice, divc, sdiv, sadd, zip2, checkFillna, smul, h.len]
  have hl : (volumeWeightedAveragePrice (highs a) (lows a) (closes a) (volumes a) w false).length
      = (volumeWeightedAveragePrice (highs b) (lows b) (closes b) (volumes b) w false).length := by
    simp [volumeWeightedAveragePrice, VWAP.run, typicalPrice, divc, sdiv, sadd, zip2, checkFillna, smul, h.len]
  have h1 := vwap_half hd h ha hv hw w i hi
  have h2 := vwap_half hd h.symm hb hv.symm (by rw [hv]; exact hw) w i (by rw [← hl]; exact hi)
  rcases h1 with ⟨e1, e2⟩ | ⟨x, y, e1, e2, e3⟩
  · left; rw [e1, e2]
  · rcases h2 with ⟨e4, e5⟩ | ⟨x', y', e4, e5, e6⟩
    · rw [e1] at e5; cases e5
    · rw [e1] at e5; rw [e2] at e4; cases e5; cases e4
      refine .inr ⟨x, y, e1, e2, ?_⟩
      rw [abs_le]; constructor <;> linarith

end vwap

/-! ## witnesses -/

section witnesses

/-- two tables within 1/2 of each other, the second bar missing in both -/
noncomputable def near1 : List (Bar (Val ℝ)) := [⟨.fin 3, .fin 1, .fin 2, .fin 1⟩, ⟨.nan, .nan, .nan, .nan⟩, ⟨.fin 4, .fin 1, .fin 2, .fin 1⟩]
noncomputable def near2 : List (Bar (Val ℝ)) := [⟨.fin (5 / 2), .fin 1, .fin 2, .fin 1⟩, ⟨.nan, .nan, .nan, .nan⟩, ⟨.fin 4, .fin (3 / 2), .fin 2, .fin 1⟩]

theorem near12 : NearBars (1 / 2) near1 near2 := by
  refine ⟨rfl, fun i hi => ?_, fun i hi => ?_, fun i hi => ?_⟩ <;> (have : i < 3 := hi) <;> interval_cases i
  · exact .inr ⟨3, 5 / 2, rfl, rfl, by norm_num⟩
  · exact .inl rfl
  · exact .inl rfl
  · exact .inl rfl
  · exact .inl rfl
  · exact .inr ⟨1, 3 / 2, rfl, rfl, by norm_num⟩
  · exact .inl rfl
  · exact .inl rfl
  · exact .inl rfl

example : ∃ s t, (Ind.atr 2).eval false near1 = .ok s ∧ (Ind.atr 2).eval false near2 = .ok t ∧ ∀ i < s.length, Apart (2 * (1 / 2)) (ix s i) (ix t i) := by
  rcases sensitivity (by norm_num) near12 false (.atr 2) rfl with ⟨e, h1, -⟩ | ⟨s, t, h1, h2, -, h3⟩
  · have : (Ind.atr 2).eval false near1 = .ok (checkFillna false (.const (lit 0)) (ATR.run (highs near1) (lows near1) (closes near1) 2)) := by
      show averageTrueRange _ _ _ _ _ = _
      unfold averageTrueRange
      rw [if_neg (by simp [near1])]
    rw [this] at h1
    cases h1
  · exact ⟨s, t, h1, h2, h3⟩

attribute [local instance] toyFn

/-- the gain 7/3 of the Keltner bands is attained: (high, low, close) = (3, 1, 2) and (4, 0, 3) differ by 1 each, the bands by 7/3 -/
example : (Ind.kcHband 1 1 true (lit 2)).eval false [qbar 3 1 2 1] = .ok (qs [4]) ∧
    (Ind.kcHband 1 1 true (lit 2)).eval false [qbar 4 0 3 1] = .ok (qs [4 + 7 / 3]) := by decide +kernel

/-- the gain 2 of ATR is attained -/
example : (Ind.atr 1).eval false [qbar 3 1 2 1] = .ok (qs [2]) ∧ (Ind.atr 1).eval false [qbar 4 0 2 1] = .ok (qs [2 + 2]) := by decide +kernel

end witnesses

end TA
