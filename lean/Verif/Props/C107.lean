import Verif.Props.C02
import Verif.Lemmas.Live
import Verif.Lemmas.Look
import Verif.Props.C05
import Mathlib.Data.Fintype.Pigeonhole
import Mathlib.Data.Fintype.Powerset
import Mathlib.Data.Fintype.BigOperators
import Mathlib.Tactic.NormNum

/-! # C107: keeping the columns up to date row by row -/

set_option linter.unusedSectionVars false
set_option linter.unusedSimpArgs false

namespace TA

/-- An output with its windows, whose other parameters are the numbers `σ 0, σ 1, …`. -/
def Ind.fill {A F : Type} (σ : A → F) : Ind A → Ind F
  | .rsi w => .rsi w
  | .tsi slow fast => .tsi slow fast
  | .uo w1 w2 w3 wt1 wt2 wt3 => .uo w1 w2 w3 (σ wt1) (σ wt2) (σ wt3)
  | .stoch w => .stoch w
  | .stochSignal w smooth => .stochSignal w smooth
  | .kama w pow1 pow2 => .kama w pow1 pow2
  | .roc w => .roc w
  | .ao w1 w2 => .ao w1 w2
  | .williamsR lbp => .williamsR lbp
  | .stochrsi w s1 s2 => .stochrsi w s1 s2
  | .stochrsiK w s1 s2 => .stochrsiK w s1 s2
  | .stochrsiD w s1 s2 => .stochrsiD w s1 s2
  | .ppo slow fast sign => .ppo slow fast sign
  | .ppoSignal slow fast sign => .ppoSignal slow fast sign
  | .ppoHist slow fast sign => .ppoHist slow fast sign
  | .pvo slow fast sign => .pvo slow fast sign
  | .pvoSignal slow fast sign => .pvoSignal slow fast sign
  | .pvoHist slow fast sign => .pvoHist slow fast sign
  | .aroonUp w => .aroonUp w
  | .aroonDown w => .aroonDown w
  | .aroonInd w => .aroonInd w
  | .macd slow fast sign => .macd slow fast sign
  | .macdSignal slow fast sign => .macdSignal slow fast sign
  | .macdDiff slow fast sign => .macdDiff slow fast sign
  | .ema w => .ema w
  | .sma w => .sma w
  | .wma w => .wma w
  | .trix w => .trix w
  | .massIndex fast slow => .massIndex fast slow
  | .ichimokuConv w1 => .ichimokuConv w1
  | .ichimokuBase w2 => .ichimokuBase w2
  | .ichimokuA w1 w2 visual => .ichimokuA w1 w2 visual
  | .ichimokuB w2 w3 visual => .ichimokuB w2 w3 visual
  | .kst p => .kst p
  | .kstSig p nsig => .kstSig p nsig
  | .kstDiff p nsig => .kstDiff p nsig
  | .dpo w => .dpo w
  | .cci w constant => .cci w (σ constant)
  | .adx w => .adx w
  | .adxPos w => .adxPos w
  | .adxNeg w => .adxNeg w
  | .vortexPos w => .vortexPos w
  | .vortexNeg w => .vortexNeg w
  | .vortexDiff w => .vortexDiff w
  | .psar step maxStep => .psar (σ step) (σ maxStep)
  | .psarUp step maxStep => .psarUp (σ step) (σ maxStep)
  | .psarDown step maxStep => .psarDown (σ step) (σ maxStep)
  | .psarUpInd step maxStep => .psarUpInd (σ step) (σ maxStep)
  | .psarDownInd step maxStep => .psarDownInd (σ step) (σ maxStep)
  | .stc slow fast cycle smooth1 smooth2 => .stc slow fast cycle smooth1 smooth2
  | .atr w => .atr w
  | .bbMavg w dev => .bbMavg w (σ dev)
  | .bbHband w dev => .bbHband w (σ dev)
  | .bbLband w dev => .bbLband w (σ dev)
  | .bbWband w dev => .bbWband w (σ dev)
  | .bbPband w dev => .bbPband w (σ dev)
  | .bbHi w dev => .bbHi w (σ dev)
  | .bbLi w dev => .bbLi w (σ dev)
  | .kcMband w watr original mult => .kcMband w watr original (σ mult)
  | .kcHband w watr original mult => .kcHband w watr original (σ mult)
  | .kcLband w watr original mult => .kcLband w watr original (σ mult)
  | .kcWband w watr original mult => .kcWband w watr original (σ mult)
  | .kcPband w watr original mult => .kcPband w watr original (σ mult)
  | .kcHi w watr original mult => .kcHi w watr original (σ mult)
  | .kcLi w watr original mult => .kcLi w watr original (σ mult)
  | .dcHband w offset => .dcHband w offset
  | .dcLband w offset => .dcLband w offset
  | .dcMband w offset => .dcMband w offset
  | .dcWband w offset => .dcWband w offset
  | .dcPband w offset => .dcPband w offset
  | .ulcer w => .ulcer w
  | .adi => .adi
  | .obv => .obv
  | .cmf w => .cmf w
  | .fi w => .fi w
  | .eom => .eom
  | .smaEom w => .smaEom w
  | .vpt smoothing => .vpt smoothing
  | .nvi => .nvi
  | .mfi w => .mfi w
  | .vwap w => .vwap w
  | .dr => .dr
  | .dlr => .dlr
  | .cr => .cr

/-- what is returned, when something is returned, can be kept up to date row by row -/
def LiveE (F : Type) (c m : Nat) {I G : Type} (e : List I → Except PyErr (List G)) : Prop :=
  ∃ f, Live F c m f ∧ ∀ b out, e b = .ok out → out = f b

section
variable {F : Type} {I G : Type} {c m : Nat}

theorem liveE_ok {f : List I → List G} (h : Live F c m f) : LiveE F c m (fun b => .ok (f b)) :=
  ⟨f, h, fun _ _ e => (Except.ok.inj e).symm⟩

theorem liveE_guard {e : List I → Except PyErr (List G)} (h : LiveE F c m e) (p : List I → Prop) [∀ b, Decidable (p b)]
    (x : PyErr) : LiveE F c m (fun b => if p b then .error x else e b) := by
  obtain ⟨f, h1, h2⟩ := h
  refine ⟨f, h1, fun b out ho => ?_⟩
  by_cases hp : p b
  · simp only [if_pos hp] at ho
    cases ho
  · simp only [if_neg hp] at ho
    exact h2 b out ho

end

section loops
variable {F : Type} {I G H : Type} {c m c' m' c'' m'' : Nat}

/-- body of a loop over the rows of `z`, which may look at the number of the row up to `k` -/
def lstep {S : Type} (stp : Nat → S → G → S) (k : Nat) (z : List G) (i : Nat) (s : S) : S :=
  match z[i]? with
  | some x => stp (min i k) s x
  | none => s

theorem lstep_lt {S : Type} (stp : Nat → S → G → S) (k : Nat) {z : List G} {i : Nat} (h : i < z.length) (s : S) :
    lstep stp k z i s = stp (min i k) s z[i] := by
  unfold lstep
  rw [List.getElem?_eq_getElem h]

theorem Live.loop {f : List I → List G} (hf : Live F c m f) (k : Nat) {S : Type} (hS : Fits F c' m' S) (init : S)
    (stp : Nat → S → G → S) (out : Nat → S → H) :
    Live F (c * (c' * (k + 1))) (m + (m' + 0))
      (fun b => tab (f b).length fun i => out (min (i + 1) k) (iter (lstep stp k (f b)) init (i + 1))) := by
  let g : S × Fin (k + 1) → G → S × Fin (k + 1) := fun t x => (stp t.2.1 t.1 x, ⟨min (t.2.1 + 1) k, by omega⟩)
  let t0 : S × Fin (k + 1) := (init, ⟨0, by omega⟩)
  refine (hf.scan (fun p => p.foldl g t0) g (fun p x => by rw [List.foldl_append]; rfl) (fun t => out t.2.1 t.1)
    (hS.prod (Fits.fin F (k + 1)))).congr fun b => ?_
  refine tab_congr rfl fun i hi => ?_
  have key : ∀ j, j ≤ (f b).length → ((f b).take j).foldl g t0 = (iter (lstep stp k (f b)) init j, ⟨min j k, by omega⟩) := by
    intro j
    induction j with
    | zero =>
      intro _
      simp [t0, iter]
    | succ j ih =>
      intro hj
      rw [List.take_succ_eq_append_getElem (by omega), List.foldl_append, ih (by omega)]
      show (stp (min j k) (iter (lstep stp k (f b)) init j) (f b)[j], _) = (lstep stp k (f b) j (iter (lstep stp k (f b)) init j), _)
      rw [lstep_lt stp k (by omega)]
      congr 1
      apply Fin.ext
      show min (min j k + 1) k = min (j + 1) k
      omega
  rw [key (i + 1) (by omega)]

variable [Flt F]

theorem live_replicate (x : F) (h : 0 < c) : Live F c m (fun b : List I => List.replicate b.length x) := by
  refine ⟨Unit, (), fun _ _ => (), fun _ => x, ⟨fun _ => (⟨0, h⟩, fun _ => nan), fun _ _ _ => rfl⟩, fun b => ?_⟩
  show List.replicate b.length x = _
  unfold tab
  simp

/-! ### ATR -/

theorem live_atrLoop {tr : List I → Series F} (h : Live F c m tr) (w : Nat) :
    Live F (c * (1 * (w + 1) * (w + 1))) (m + (1 + w + 0)) (fun b => tab (tr b).length fun i => iter (ATR.step (tr b) w) (lit 0) (i + 1)) := by
  have : Inhabited F := ⟨nan⟩
  let stp : Nat → F × Upto F w → F → F × Upto F w := fun n s x =>
    (if n + 1 < w then lit 0 else if n + 1 = w then smean (s.2.1 ++ [x]) else ((s.1 *. natF (w - 1)) +. x) /. natF w,
      if hl : s.2.1.length < w then ⟨s.2.1 ++ [x], by simp; omega⟩ else s.2)
  refine (h.loop w ((Fits.one F).prod (Fits.upto F w)) (lit 0, ⟨[], by simp⟩) stp (fun _ s => s.1)).congr fun b => ?_
  refine tab_congr rfl fun i hi => ?_
  have key : ∀ j, j ≤ (tr b).length → iter (lstep stp w (tr b)) (lit 0, ⟨[], by simp⟩) j
      = (iter (ATR.step (tr b) w) (lit 0) j, ⟨(tr b).take (min j w), by simp⟩) := by
    intro j
    induction j with
    | zero =>
      intro _
      simp [iter]
    | succ j ih =>
      intro hj
      show lstep stp w (tr b) j (iter (lstep stp w (tr b)) _ j) = (ATR.step (tr b) w j (iter (ATR.step (tr b) w) (lit 0) j), _)
      rw [ih (by omega), lstep_lt stp w (by omega)]
      have e1 : (if min j w + 1 < w then lit 0 else if min j w + 1 = w then smean ((tr b).take (min j w) ++ [(tr b)[j]])
          else ((iter (ATR.step (tr b) w) (lit 0) j *. natF (w - 1)) +. (tr b)[j]) /. natF w)
          = ATR.step (tr b) w j (iter (ATR.step (tr b) w) (lit 0) j) := by
        unfold ATR.step
        by_cases h1 : j + 1 < w
        · rw [if_pos h1, if_pos (by omega)]
        · rw [if_neg h1, if_neg (by omega)]
          by_cases h2 : j + 1 = w
          · rw [if_pos h2, if_pos (by omega), min_eq_left (by omega), ← List.take_succ_eq_append_getElem (by omega), h2]
          · rw [if_neg h2, if_neg (by omega), ix_lt (by omega)]
      have e2 : (if hl : ((tr b).take (min j w)).length < w then (⟨(tr b).take (min j w) ++ [(tr b)[j]], by simp at hl ⊢; omega⟩ : Upto F w)
          else ⟨(tr b).take (min j w), by simp⟩) = ⟨(tr b).take (min (j + 1) w), by simp⟩ := by
        have hlen : ((tr b).take (min j w)).length = min j w := by simp; omega
        by_cases h1 : j < w
        · rw [dif_pos (by omega)]
          apply Subtype.ext
          show (tr b).take (min j w) ++ [(tr b)[j]] = (tr b).take (min (j + 1) w)
          rw [min_eq_left (by omega), min_eq_left (by omega), List.take_succ_eq_append_getElem (by omega)]
        · rw [dif_neg (by omega)]
          apply Subtype.ext
          show (tr b).take (min j w) = (tr b).take (min (j + 1) w)
          rw [min_eq_right (by omega), min_eq_right (by omega)]
      exact Prod.ext e1 e2
  rw [key (i + 1) (by omega)]

/-! ### NVI -/

theorem live_nvi {cl v : List I → Series F} (hc : Live F c m (fun b => pctChange (cl b))) (hv : Live F c' m' v)
    (hl : ∀ b, (v b).length = (cl b).length) :
    Live F (c' * (1 + 2) * c' * c * (1 * (1 + 1))) (m' + (1 + 1) + m' + m + (1 + 0)) (fun b => NVI.run (cl b) (v b)) := by
  let stp : Nat → F → (F × F) × F → F := fun n s x =>
    if n = 0 then lit 1000 else if x.1.1 >. x.1.2 then s *. (lit 1 +. x.2) else s
  refine ((((hv.shift 1 nan).pair hv).pair hc).loop 1 (Fits.one F) nan stp (fun _ s => s)).congr fun b => ?_
  have h1 : ((TA.shift (v b) 1).zip (v b) |>.zip (pctChange (cl b))).length = (cl b).length := by
    simp [hl, pctChange, hc.len]
  unfold NVI.run
  refine tab_congr h1.symm fun i hi => ?_
  apply iter_congr
  intro k hk s
  rw [lstep_lt stp 1 (by omega)]
  simp only [List.getElem_zip, stp]
  unfold NVI.step
  have hkl : k < (cl b).length := by omega
  by_cases h0 : k = 0
  · rw [if_pos h0, if_pos (by omega)]
  · rw [if_neg (show ¬ k = 0 from h0), if_neg (show ¬ min k 1 = 0 by omega), ← ix_lt (s := TA.shift (v b) 1), ← ix_lt (s := v b), ← ix_lt (s := pctChange (cl b)),
      ix_shift (by rw [hl]; omega), if_neg (show ¬ k < 1 by omega)]

/-! ### cumulative return -/

theorem live_cr {cl : List I → Series F} (h : Live F c m cl) :
    Live F (c * (1 * 1 * (1 + 1))) (m + (1 + 1 + 0)) (fun b => CR.run (cl b)) := by
  let stp : Nat → F × F → F → F × F := fun n s x => (if n = 0 then x else s.1, x)
  refine (h.loop 1 ((Fits.one F).prod (Fits.one F)) (nan, nan) stp (fun _ s => ((s.2 /. s.1) -. lit 1) *. lit 100)).congr fun b => ?_
  have key : ∀ j, j < (cl b).length → iter (lstep stp 1 (cl b)) (nan, nan) (j + 1) = (ix (cl b) 0, ix (cl b) j) := by
    intro j
    induction j with
    | zero =>
      intro hj
      show lstep stp 1 (cl b) 0 _ = _
      rw [lstep_lt stp 1 hj, ix_lt hj]
      rfl
    | succ j ih =>
      intro hj
      show lstep stp 1 (cl b) (j + 1) (iter (lstep stp 1 (cl b)) (nan, nan) (j + 1)) = _
      rw [ih (by omega), lstep_lt stp 1 hj, ix_lt hj]
      simp only [stp]
      rw [if_neg (show ¬ min (j + 1) 1 = 0 by omega)]
  refine series_ext (by simp [CR.run]) fun i hi => ?_
  have hi : i < (cl b).length := by simpa [CR.run] using hi
  rw [ix_tab_lt hi, key i hi]
  unfold CR.run mulc subc divc
  rw [ix_map (by simpa using hi), ix_map (by simpa using hi), ix_map hi]

/-! ### PSAR -/

theorem Fits.pcore : Fits F (2 * (1 * (1 * (1 * 1)))) (0 + (1 + (1 + (1 + 1)))) (PCore F) :=
  ((Fits.bool F).prod ((Fits.one F).prod ((Fits.one F).prod ((Fits.one F).prod (Fits.one F))))).inj
    (fun p => (p.upTrend, p.af, p.high, p.low, p.val)) (by
      rintro ⟨a, b, c, d, e⟩ ⟨a', b', c', d', e'⟩ h
      simp only [Prod.mk.injEq] at h
      obtain ⟨rfl, rfl, rfl, rfl, rfl⟩ := h
      rfl)

/-- body of the loop on the highs and lows of the last three rows, and the close -/
def psarStp (s mx : F) (n : Nat) (p : PCore F) (x : (((((F × F) × F) × F) × F) × F) × F) : PCore F :=
  if n = 0 then ⟨true, s, x.1.1.1.1.1.1, x.1.1.1.1.1.2, x.2⟩
  else if n = 1 then ⟨p.upTrend, p.af, p.high, p.low, x.2⟩
  else pcore s mx p x.1.1.1.1.1.1 x.1.1.1.1.1.2 x.1.1.1.1.2 x.1.1.1.2 x.1.1.2 x.1.2

theorem live_psar {hi lo cl : List I → Series F} (hh : Live F c m hi) (hl : Live F c' m' lo) (hc : Live F c'' m'' cl)
    (s mx : F) (out : Nat → PCore F → H) :
    Live F (c * c' * (c * (1 + 2)) * (c' * (1 + 2)) * (c * (2 + 2)) * (c' * (2 + 2)) * c'' * (2 * (1 * (1 * (1 * 1))) * (3 + 1)))
      (m + m' + (m + (1 + 1)) + (m' + (1 + 1)) + (m + (2 + 1)) + (m' + (2 + 1)) + m'' + (0 + (1 + (1 + (1 + 1))) + 0))
      (fun b => tab b.length fun i => out (min (i + 1) 3)
        (if i = 0 then ⟨true, s, ix (hi b) 0, ix (lo b) 0, ix (cl b) 0⟩ else PSAR.cores (hi b) (lo b) (cl b) s mx (i - 1))) := by
  refine (((((((hh.pair hl).pair (hh.shift 1 nan)).pair (hl.shift 1 nan)).pair (hh.shift 2 nan)).pair (hl.shift 2 nan)).pair
    hc).loop 3 Fits.pcore ⟨true, s, nan, nan, nan⟩ (psarStp s mx) out).congr fun b => ?_
  let z := (((((((hi b).zip (lo b)).zip (TA.shift (hi b) 1 nan)).zip (TA.shift (lo b) 1 nan)).zip (TA.shift (hi b) 2 nan)).zip
    (TA.shift (lo b) 2 nan)).zip (cl b))
  have hz : z.length = b.length := by simp [z, hh.len, hl.len, hc.len]
  have e : ∀ k (hk : k < z.length), z[k] = ((((((ix (hi b) k, ix (lo b) k), ix (TA.shift (hi b) 1 nan) k), ix (TA.shift (lo b) 1 nan) k),
      ix (TA.shift (hi b) 2 nan) k), ix (TA.shift (lo b) 2 nan) k), ix (cl b) k) := by
    intro k hk
    have hk' : k < b.length := by omega
    simp only [z, List.getElem_zip]
    rw [ix_lt (s := hi b) (by rw [hh.len]; exact hk'), ix_lt (s := lo b) (by rw [hl.len]; exact hk'), ix_lt (s := cl b) (by rw [hc.len]; exact hk'),
      ix_lt (s := TA.shift (hi b) 1 nan) (by simp [hh.len]; exact hk'), ix_lt (s := TA.shift (lo b) 1 nan) (by simp [hl.len]; exact hk'),
      ix_lt (s := TA.shift (hi b) 2 nan) (by simp [hh.len]; exact hk'), ix_lt (s := TA.shift (lo b) 2 nan) (by simp [hl.len]; exact hk')]
  have key : ∀ i, i < b.length → iter (lstep (psarStp s mx) 3 z) ⟨true, s, nan, nan, nan⟩ (i + 1)
      = if i = 0 then ⟨true, s, ix (hi b) 0, ix (lo b) 0, ix (cl b) 0⟩ else PSAR.cores (hi b) (lo b) (cl b) s mx (i - 1) := by
    intro i
    induction i with
    | zero =>
      intro h0
      show lstep (psarStp s mx) 3 z 0 _ = _
      rw [lstep_lt _ 3 (by omega), e 0 (by omega)]
      rfl
    | succ i ih =>
      intro h0
      show lstep (psarStp s mx) 3 z (i + 1) (iter (lstep (psarStp s mx) 3 z) ⟨true, s, nan, nan, nan⟩ (i + 1)) = _
      rw [ih (by omega), lstep_lt _ 3 (by omega), e (i + 1) (by omega), if_neg (show ¬ i + 1 = 0 by omega)]
      by_cases h1 : i = 0
      · subst h1
        rfl
      · rw [if_neg h1]
        unfold psarStp
        rw [if_neg (show ¬ min (i + 1) 3 = 0 by omega), if_neg (show ¬ min (i + 1) 3 = 1 by omega)]
        obtain ⟨j, rfl⟩ : ∃ j, i = j + 1 := ⟨i - 1, by omega⟩
        show _ = PSAR.cstep (hi b) (lo b) s mx (j + 2) (PSAR.cores (hi b) (lo b) (cl b) s mx j)
        unfold PSAR.cstep
        rw [ix_shift (by rw [hh.len]; omega), ix_shift (by rw [hl.len]; omega), ix_shift (by rw [hh.len]; omega), ix_shift (by rw [hl.len]; omega)]
        rfl
  refine tab_congr (by rw [← hz]) fun i hi' => ?_
  show _ = out _ (iter (lstep (psarStp s mx) 3 z) _ (i + 1))
  rw [key i (by omega)]

end loops

section main

macro "live_ops" : tactic =>
  `(tactic| simp only [checkFillna, if_true, if_false, Bool.false_eq_true, clv, typicalPrice, pctChange, sdiff, RSI.up, RSI.down, trueRange, getMax, getMin, gtFlag, ltFlag, sma, ema,
    rollSum, rollMean, rollMax, rollMin, rollApply, rollStd, replaceInf, fillConst, fillSer, sadd, ssub, smul, sdiv, cmul, csub, cadd, cdiv, mulc, subc, divc,
    sabs, DLR.run])

theorem Live.shiftInt {F I : Type} [Flt F] {c m : Nat} {f : List I → Series F} (h : Live F c m f) (k : Int) (hk : 0 ≤ k) :
    Live F (c * (k.toNat + 2)) (m + (k.toNat + 1)) (fun b => shiftInt (f b) k) := by
  refine (h.shift k.toNat nan).congr fun b => tab_congr rfl fun i hi => ?_
  by_cases h1 : i < k.toNat
  · rw [if_pos h1, if_pos (by omega)]
  · rw [if_neg h1, if_neg (by omega)]
    congr 1
    omega

theorem Live.pos {F I G : Type} {c m : Nat} {f : List I → List G} (h : Live F c m f) : 0 < c := by
  obtain ⟨S, init, -, -, ⟨e, -⟩, -⟩ := h
  exact Fin.pos (e init).1

theorem live_atr {F I : Type} [Flt F] {c m c' m' c'' m'' : Nat} {hi lo cl : List I → Series F} (hh : Live F c m hi) (hl : Live F c' m' lo)
    (hc : Live F c'' m'' cl) (w : Nat) :
    Live F (c * c' * (c'' * (1 + 2)) * (1 * (w + 1) * (w + 1))) (m + m' + (m'' + (1 + 1)) + (1 + w + 0))
      (fun b => ATR.run (hi b) (lo b) (cl b) w) := by
  have h : Live F (c * c' * (c'' * (1 + 2))) (m + m' + (m'' + (1 + 1))) (fun b => trueRange (hi b) (lo b) (TA.shift (cl b) 1)) :=
    Live.zip3 hh hl (hc.shift 1 nan) _
  have h2 := live_atrLoop h w
  by_cases hw : w = 0
  · refine (live_replicate nan h2.pos).congr fun b => ?_
    unfold ATR.run
    rw [if_pos hw, hc.len]
  · refine h2.congr fun b => ?_
    unfold ATR.run
    rw [if_neg hw]
    exact tab_congr (by rw [h.len, hc.len]) fun i hi => rfl

theorem Live.psarFlag {F I : Type} [Flt F] {c m c' m' : Nat} {f g : List I → Series F} (hf : Live F c m f) (hg : Live F c' m' g) :
    Live F (c * c' * (c' * (1 + 2))) (m + m' + (m' + (1 + 1))) (fun b => PSAR.flag (f b) (g b)) :=
  (Live.zip3 hf hg (hg.shift 1 nan) (fun u x p =>
    if (if !Flt.isNaN x && Flt.isNaN p then u else lit 0) ==. lit 0 then (if !Flt.isNaN x && Flt.isNaN p then u else lit 0) else lit 1)).congr fun _ => rfl

theorem live_nviRun {F : Type} [Flt F] : Live F 18 11 (fun b : List (Bar F) => NVI.run (closes b) (volumes b)) :=
  live_nvi (Live.map (Live.zip2 (Live.ffill (live_col _)) (Live.shift (Live.ffill (live_col _)) 1 nan) _) _) (live_col _) (fun b => by simp)

theorem live_psarNew {F : Type} [Flt F] {c m : Nat} (s mx : F) (fillna : Bool) (g : PSAR F → Series F) (f : List (Bar F) → Series F) (hf : Live F c m f)
    (hg : ∀ b : List (Bar F), 0 < b.length → ∀ o, PSAR.new (highs b) (lows b) (closes b) .positional s mx fillna = .ok o → g o = f b) :
    LiveE F c m (fun b => (PSAR.new (highs b) (lows b) (closes b) .positional s mx fillna).map g) := by
  refine ⟨f, hf, fun b out ho => ?_⟩
  obtain ⟨o, ho', rfl⟩ := except_map_ok ho
  refine hg b ?_ o ho'
  by_contra hc
  unfold PSAR.new at ho'
  rw [if_pos (by rw [List.length_map]; omega)] at ho'
  cases ho'

/-- the three columns of the loop -/
def psarCol {F : Type} [Flt F] (out : Nat → PCore F → F) (s mx : F) (b : List (Bar F)) : Series F :=
  tab b.length fun i => out (min (i + 1) 3)
    (if i = 0 then ⟨true, s, ix (highs b) 0, ix (lows b) 0, ix (closes b) 0⟩ else PSAR.cores (highs b) (lows b) (closes b) s mx (i - 1))

theorem live_psarCol {F : Type} [Flt F] (out : Nat → PCore F → F) (s mx : F) : Live F 1152 21 (psarCol out s mx) :=
  live_psar (live_col _) (live_col _) (live_col _) s mx out

theorem psar_cols {F : Type} [Flt F] (s mx : F) (fillna : Bool) (b : List (Bar F)) (hb : 0 < b.length) (o : PSAR F)
    (ho : PSAR.new (highs b) (lows b) (closes b) .positional s mx fillna = .ok o) :
    o.psarS = psarCol (fun _ p => p.val) s mx b ∧
    o.up = psarCol (fun n p => if n = 3 ∧ p.upTrend = true then p.val else nan) s mx b ∧
    o.down = psarCol (fun n p => if n = 3 ∧ p.upTrend = false then p.val else nan) s mx b ∧ o.fillna = fillna := by
  rw [PSAR.new_eq _ _ _ _ _ _ (by simpa using hb)] at ho
  have ho := (Except.ok.inj ho).symm
  subst ho
  refine ⟨?_, ?_, ?_, rfl⟩
  · refine tab_congr (by simp) fun i hi => ?_
    by_cases h0 : i = 0
    · subst h0
      rfl
    · by_cases h1 : i = 1
      · subst h1
        rfl
      · rw [if_neg (show ¬ i < 2 by omega), if_neg h0]
  · refine tab_congr (by simp) fun i hi => ?_
    by_cases h2 : i < 2
    · rw [if_neg (by omega)]
      exact (if_neg (by omega)).symm
    · rw [if_neg (show ¬ i = 0 by omega), min_eq_right (show 3 ≤ i + 1 by omega)]
      simp only [show 2 ≤ i by omega, true_and]
  · refine tab_congr (by simp) fun i hi => ?_
    by_cases h2 : i < 2
    · rw [if_neg (by omega)]
      exact (if_neg (by omega)).symm
    · rw [if_neg (show ¬ i = 0 by omega), min_eq_right (show 3 ≤ i + 1 by omega)]
      simp only [show 2 ≤ i by omega, true_and]

macro "live_step" : tactic =>
  `(tactic| first
    | with_reducible exact live_col _
    | with_reducible apply Live.zip2
    | with_reducible apply Live.zip3
    | with_reducible apply Live.roll
    | with_reducible apply Live.ewm
    | with_reducible apply Live.shift
    | with_reducible apply Live.cumsum
    | with_reducible apply Live.ffill
    | with_reducible apply Live.map
    | with_reducible apply live_atr)

theorem live_all (sk : Ind Nat) (fillna : Bool) : ∃ c m, ∀ (F : Type) [FltFn F] (σ : Nat → F), (sk.fill σ).Plain →
    (fillna = true → ¬ (sk.fill σ).BackFill) → LiveE F c m (fun b => (sk.fill σ).eval fillna b) := by
  cases sk
  all_goals try exact ⟨0, 0, fun F _ σ hp _ => (hp : False).elim⟩
  all_goals cases fillna
  all_goals try exact ⟨0, 0, fun F _ σ _ hf => absurd trivial (hf rfl)⟩
  case psar.false =>
    exact ⟨_, _, fun F _ σ _ _ => live_psarNew _ _ _ _ _ (live_psarCol (fun _ p => p.val) _ _) fun b hb o ho => by
      obtain ⟨h1, h2, h3, h4⟩ := psar_cols _ _ _ b hb o ho
      unfold PSAR.psar
      rw [h4, h1]
      rfl⟩
  case psarUp.false =>
    exact ⟨_, _, fun F _ σ _ _ => live_psarNew _ _ _ _ _ (live_psarCol (fun n p => if n = 3 ∧ p.upTrend = true then p.val else nan) _ _) fun b hb o ho => by
      obtain ⟨h1, h2, h3, h4⟩ := psar_cols _ _ _ b hb o ho
      unfold PSAR.psarUp
      rw [h4, h2]
      rfl⟩
  case psarDown.false =>
    exact ⟨_, _, fun F _ σ _ _ => live_psarNew _ _ _ _ _ (live_psarCol (fun n p => if n = 3 ∧ p.upTrend = false then p.val else nan) _ _) fun b hb o ho => by
      obtain ⟨h1, h2, h3, h4⟩ := psar_cols _ _ _ b hb o ho
      unfold PSAR.psarDown
      rw [h4, h3]
      rfl⟩
  case psarUpInd.false | psarUpInd.true =>
    exact ⟨_, _, fun F _ σ _ _ => live_psarNew _ _ _ _ _ ((live_psarCol (fun n p => if n = 3 ∧ p.upTrend = true then p.val else nan) _ _).psarFlag (live_psarCol (fun n p => if n = 3 ∧ p.upTrend = true then p.val else nan) _ _)) fun b hb o ho => by
      obtain ⟨h1, h2, h3, h4⟩ := psar_cols _ _ _ b hb o ho
      unfold PSAR.psarUpIndicator
      rw [h2]⟩
  case psarDownInd.false | psarDownInd.true =>
    exact ⟨_, _, fun F _ σ _ _ => live_psarNew _ _ _ _ _ ((live_psarCol (fun n p => if n = 3 ∧ p.upTrend = true then p.val else nan) _ _).psarFlag (live_psarCol (fun n p => if n = 3 ∧ p.upTrend = false then p.val else nan) _ _)) fun b hb o ho => by
      obtain ⟨h1, h2, h3, h4⟩ := psar_cols _ _ _ b hb o ho
      unfold PSAR.psarDownIndicator
      rw [h2, h3]⟩
  case vpt.false sm | vpt.true sm =>
    rcases sm with _ | _ | k
    all_goals
      apply Exists.intro; apply Exists.intro; intro F _ σ _ _
      simp only [Ind.fill, Ind.eval, volumePriceTrend, VPT.run, Bool.false_eq_true, if_false]
      apply liveE_ok
      live_ops
      repeat' live_step
  case aroonUp.false w | aroonDown.false w | aroonInd.false w | aroonUp.true w | aroonDown.true w | aroonInd.true w =>
    by_cases h1 : 1 ≤ w
    · have hw : ∀ p : Prop, (w = 0 ∧ p) = False := fun p => eq_false (by rintro ⟨h1, -⟩; omega)
      apply Exists.intro; apply Exists.intro; intro F _ σ _ _
      simp only [Ind.fill, Ind.eval, Aroon.new, hw, if_false, Except.map]
      apply liveE_ok
      ind_defs
      live_ops
      repeat' live_step
    · exact ⟨0, 0, fun F _ σ hp _ => absurd hp h1⟩
  case kcMband.false w wa o k | kcHband.false w wa o k | kcLband.false w wa o k | kcWband.false w wa o k | kcPband.false w wa o k
     | kcHi.false w wa o k | kcLi.false w wa o k | kcWband.true w wa o k | kcPband.true w wa o k
     | kcHi.true w wa o k | kcLi.true w wa o k =>
    cases o
    all_goals
      apply Exists.intro; apply Exists.intro; intro F _ σ _ _
      simp only [Ind.fill, Ind.eval, Keltner.new_atr_eq, Keltner.new_original_eq, map_guard, apply_ite (Except.map _)]
      try simp only [Except.map]
      repeat with_reducible apply liveE_guard
      apply liveE_ok
      ind_defs
      live_ops
      repeat' live_step
  case dcHband.false w off | dcLband.false w off | dcMband.false w off | dcWband.false w off | dcPband.false w off | dcWband.true w off | dcPband.true w off =>
    by_cases h1 : 0 ≤ off
    · by_cases h2 : off = 0
      all_goals
        apply Exists.intro; apply Exists.intro; intro F _ σ _ _
        simp only [Ind.fill, Ind.eval, Donchian.new_eq, map_guard]
        apply liveE_guard
        apply liveE_ok
        ind_defs
        simp only [Donchian.off, h2, ne_eq, not_true_eq_false, not_false_eq_true, if_true, if_false]
        live_ops
        repeat' first | live_step | with_reducible apply Live.shiftInt (hk := h1)
    · exact ⟨0, 0, fun F _ σ hp _ => absurd hp h1⟩
  case atr.false w | atr.true w =>
    apply Exists.intro; apply Exists.intro; intro F _ σ _ _
    simp only [Ind.fill, Ind.eval, averageTrueRange]
    apply liveE_guard
    apply liveE_ok
    live_ops
    repeat' live_step
  case nvi.false | nvi.true =>
    apply Exists.intro; apply Exists.intro; intro F _ σ _ _
    simp only [Ind.fill, Ind.eval, negativeVolumeIndex]
    apply liveE_guard
    apply liveE_ok
    live_ops
    repeat' first | live_step | exact live_nviRun
  case cr.false =>
    exact ⟨_, _, fun F _ σ _ _ => liveE_guard (liveE_ok (live_cr (live_col _))) _ _⟩
  case ichimokuA.false vis | ichimokuB.false vis =>
    cases vis
    · apply Exists.intro; apply Exists.intro; intro F _ σ _ _
      simp only [Ind.fill, Ind.eval]
      apply liveE_ok
      ind_defs
      live_ops
      repeat' live_step
    · exact ⟨0, 0, fun F _ σ hp _ => absurd hp (by simp [Ind.fill, Ind.Plain])⟩
  all_goals
    apply Exists.intro; apply Exists.intro; intro F _ σ _ _
    simp only [Ind.fill, Ind.eval, rsi, tsi_eq, StochRSI.new_eq, PPO.new_eq, MACD.new_eq, emaIndicator_eq, trix_eq,
      massIndex_eq, stc_eq, ulcerIndex_eq, forceIndex_eq, map_guard]
    try apply liveE_guard
    apply liveE_ok
    try ind_defs
    live_ops
    repeat' live_step

/-! ## The outputs that pad with the mean of the column

DPO, TRIX and the Vortex indicator shift a column down and fill the vacated rows with the mean of the whole column.  Without `fillna` the filled rows
do not get through to the output. -/

theorem dpo_pad {F : Type} [Flt F] [NaNLaws F] (cl : Series F) {w : Nat} (hw : 3 ≤ w) :
    DPO.run cl w false = ssub (shift cl (w / 2 + 1)) (rollMean w (minp false w) cl) := by
  unfold DPO.run
  refine series_ext (by simp) fun i hi => ?_
  have hi : i < cl.length := by simpa using hi
  rw [ix_ssub (by simpa using hi), ix_ssub (by simpa using hi)]
  by_cases h : i < w / 2 + 1
  · have e : ix (rollMean w (minp false w) cl) i = nan := rollMean_short hi (by show i + 1 < w; omega)
    rw [e, NaNLaws.sub_nan, NaNLaws.sub_nan]
  · rw [ix_shift hi, ix_shift hi, if_neg h, if_neg h]

theorem trix_pad {F : Type} [Flt F] [NaNLaws F] (cl : Series F) {w : Nat} (hw : 2 ≤ w) :
    TRIX.run cl w false = mulc (sdiv (ssub (ema (ema (ema cl w false) w false) w false) (shift (ema (ema (ema cl w false) w false) w false) 1))
      (shift (ema (ema (ema cl w false) w false) w false) 1)) (lit 100) := by
  unfold TRIX.run
  generalize he : ema (ema (ema cl w false) w false) w false = e3
  refine series_ext (by simp) fun i hi => ?_
  simp only [length_mulc, length_sdiv, length_ssub] at hi
  rw [ix_mulc (by simpa using hi), ix_mulc (by simpa using hi), ix_sdiv (by simpa using hi),
    ix_sdiv (by simpa using hi), ix_ssub (by simpa using hi), ix_ssub (by simpa using hi),
    ix_shift hi, ix_shift hi]
  by_cases h0 : i < 1
  · have : i = 0 := by omega
    subst this
    have e : ix e3 0 = nan := by
      rw [← he]
      have hl : e3.length = cl.length := by rw [← he]; simp
      exact ewm_row0 (by simpa [hl] using hi) (by simpa [minp] using hw)
    simp only [e, NaNLaws.nan_sub, NaNLaws.nan_div]
  · rw [if_neg h0, if_neg h0]

theorem vortex_pad {F : Type} [Flt F] [NaNLaws F] {h l c x : Series F} {w : Nat} (hl : h.length = c.length)
    (hx : x.length = c.length) (hx0 : 0 < x.length → ix x 0 = nan) :
    sdiv (rollSum w (minp false w) x) (Vortex.trn h l c w false) =
      sdiv (rollSum w (minp false w) x) (rollSum w (minp false w) (trueRange h l (shift c 1))) := by
  refine series_ext (by simp) fun i hi => ?_
  simp only [length_sdiv, length_rollSum] at hi
  rw [ix_sdiv (by simpa using hi), ix_sdiv (by simpa using hi)]
  by_cases hiw : i < w
  · rw [rollSum_short hi hiw (hx0 (by omega)), NaNLaws.nan_div, NaNLaws.nan_div]
  · have ha : AgreeFrom w (Vortex.trn h l c w false) (rollSum w (minp false w) (trueRange h l (shift c 1))) := by
      unfold Vortex.trn rollSum
      refine AgreeFrom.mono (AgreeFrom.roll (k := 1) ?_) (by omega)
      refine ⟨by simp, fun i h1 h2 => ?_⟩
      simp only [length_trueRange] at h2
      unfold trueRange
      rw [ix_zip3 h2, ix_zip3 h2, ix_shift (by omega), ix_shift (by omega), if_neg (show ¬ i < 1 by omega), if_neg (show ¬ i < 1 by omega)]
    rw [ha.2 i (by omega) (by rw [ha.1]; simp; omega)]

/-- DPO with a window of at least 3, TRIX with a window of at least 2, and the Vortex lines -/
def Ind.Pads {F : Type} : Ind F → Prop
  | .dpo w => 3 ≤ w
  | .trix w => 2 ≤ w
  | .vortexPos _ | .vortexNeg _ | .vortexDiff _ => True
  | _ => False

theorem live_pads (sk : Ind Nat) : ∃ c m, ∀ (F : Type) [FltFn F] [NaNLaws F] (σ : Nat → F), (sk.fill σ).Pads →
    LiveE F c m (fun b => (sk.fill σ).eval false b) := by
  cases sk
  all_goals try exact ⟨0, 0, fun F _ _ σ hp => (hp : False).elim⟩
  case dpo w =>
    by_cases hw : 3 ≤ w
    · apply Exists.intro; apply Exists.intro; intro F _ _ σ _
      simp only [Ind.fill, Ind.eval, dpo, dpo_pad _ hw]
      apply liveE_ok
      live_ops
      repeat' live_step
    · exact ⟨0, 0, fun F _ _ σ hp => absurd hp hw⟩
  case trix w =>
    by_cases hw : 2 ≤ w
    · apply Exists.intro; apply Exists.intro; intro F _ _ σ _
      simp only [Ind.fill, Ind.eval, trix_eq, trix_pad _ hw]
      apply liveE_guard
      apply liveE_ok
      live_ops
      repeat' live_step
    · exact ⟨0, 0, fun F _ _ σ hp => absurd hp hw⟩
  case vortexPos w | vortexNeg w | vortexDiff w =>
    apply Exists.intro; apply Exists.intro; intro F _ _ σ _
    have e1 : ∀ b : List (Bar F), Vortex.vip (highs b) (lows b) (closes b) w false =
        sdiv (rollSum w (minp false w) (sabs (ssub (highs b) (shift (lows b) 1)))) (rollSum w (minp false w) (trueRange (highs b) (lows b) (shift (closes b) 1))) :=
      fun b => vortex_pad (by simp) (by simp) fun h => vortex_row0 h (by simp)
    have e2 : ∀ b : List (Bar F), Vortex.vin (highs b) (lows b) (closes b) w false =
        sdiv (rollSum w (minp false w) (sabs (ssub (lows b) (shift (highs b) 1)))) (rollSum w (minp false w) (trueRange (highs b) (lows b) (shift (closes b) 1))) :=
      fun b => vortex_pad (by simp) (by simp) fun h => vortex_row0 h (by simp)
    simp only [Ind.fill, Ind.eval, vortexPos, vortexNeg, vortexDiff, e1, e2]
    apply liveE_ok
    live_ops
    repeat' live_step

/-! ## What `Live` means -/

theorem Live.rows {F I G : Type} {c m : Nat} {f : List I → List G} (h : Live F c m f) :
    ∃ (S : Type) (st : List I → S) (later : S → List I → List G), Fits F c m S ∧ (∀ b x, (f (b ++ x)).drop b.length = later (st b) x) ∧
      (∀ b x, (f (b ++ x)).take b.length = f b) := by
  obtain ⟨S, init, step, out, hS, hf⟩ := h
  refine ⟨S, fun b => b.foldl step init, fun s x => tab x.length fun i => out ((x.take (i + 1)).foldl step s), hS, fun b x => ?_, fun b x => ?_⟩
  · rw [hf]
    apply List.ext_getElem
    · simp [tab]
    · intro i h1 h2
      simp only [tab, List.getElem_drop, List.getElem_map, List.getElem_range]
      rw [List.take_append, List.take_of_length_le (by omega), List.foldl_append, show b.length + i + 1 - b.length = i + 1 by omega]
  · rw [hf, hf, tab_take_min]
    refine tab_congr (by simp) fun i hi => ?_
    rw [List.take_append_of_le_length (by simp at hi; omega)]

/-- Among more than `c · |F|^m` histories there are two after which the column goes on in the same way, whatever the rows to come. -/
theorem live_forgets {F I G : Type} [Fintype F] {c m : Nat} {f : List I → List G} (h : Live F c m f)
    (hist : Fin (c * Fintype.card F ^ m + 1) → List I) :
    ∃ i j, i ≠ j ∧ ∀ x, (f (hist i ++ x)).drop (hist i).length = (f (hist j ++ x)).drop (hist j).length := by
  classical
  obtain ⟨S, st, later, ⟨e, he⟩, h1, -⟩ := h.rows
  obtain ⟨i, j, hij, hs⟩ := Fintype.exists_ne_map_eq_of_card_lt (fun i => e (st (hist i))) (by simp)
  exact ⟨i, j, hij, fun x => by rw [h1, h1, he hs]⟩

/-- what was returned stays when rows are appended -/
theorem liveE_causal {F I G : Type} {c m : Nat} {e : List I → Except PyErr (List G)} (h : LiveE F c m e) {b x : List I} {out out' : List G}
    (h1 : e b = .ok out) (h2 : e (b ++ x) = .ok out') : out'.take b.length = out := by
  obtain ⟨f, hf, he⟩ := h
  obtain ⟨S, st, later, -, -, h3⟩ := hf.rows
  rw [he _ _ h1, he _ _ h2, h3]

/-- has this value been there before? -/
def seenBefore {F : Type} [DecidableEq F] (l : List F) : List Bool := tab l.length fun i => decide (∃ x ∈ l[i]?, x ∈ l.take i)

theorem sq_lt_two_pow (k : Nat) (h : 5 ≤ k) : k * k < 2 ^ k := by
  induction k, h using Nat.le_induction with
  | base => norm_num
  | succ k hk ih =>
    rw [pow_succ]
    nlinarith

/-- Not every column that looks at earlier rows only is of this kind: to know which values have been there takes a memory that grows with the
number of values. -/
theorem seenBefore_not_live (c m : Nat) : ∃ N, ¬ Live (Fin N) c m (seenBefore (F := Fin N)) := by
  refine ⟨2 ^ (c + m + 5), fun h => ?_⟩
  obtain ⟨S, st, later, ⟨e, he⟩, h1, -⟩ := h.rows
  have inj : Function.Injective (fun s : Finset (Fin (2 ^ (c + m + 5))) => e (st s.toList)) := by
    intro s t hst
    have hst := he hst
    ext x
    have e1 := h1 s.toList [x]
    rw [hst, ← h1 t.toList [x]] at e1
    have key : ∀ u : Finset (Fin (2 ^ (c + m + 5))), ((seenBefore (u.toList ++ [x])).drop u.toList.length) = [decide (x ∈ u)] := by
      intro u
      unfold seenBefore
      apply List.ext_getElem
      · simp [tab]
      · intro i h1 h2
        simp at h2
        subst h2
        simp [tab]
    rw [key, key] at e1
    simpa using e1
  have hcard := Fintype.card_le_of_injective _ inj
  simp only [Fintype.card_finset, Fintype.card_fin, Fintype.card_prod, Fintype.card_fun] at hcard
  have h2 : c ≤ 2 ^ c := Nat.lt_two_pow_self.le
  have h3 : c + (c + m + 5) * m < 2 ^ (c + m + 5) := by
    refine lt_of_le_of_lt ?_ (sq_lt_two_pow (c + m + 5) (by omega))
    nlinarith
  have h4 : c * (2 ^ (c + m + 5)) ^ m < 2 ^ (2 ^ (c + m + 5)) := by
    calc c * (2 ^ (c + m + 5)) ^ m ≤ 2 ^ c * 2 ^ ((c + m + 5) * m) := by rw [← pow_mul]; exact Nat.mul_le_mul_right _ h2
      _ = 2 ^ (c + (c + m + 5) * m) := by rw [pow_add]
      _ < _ := Nat.pow_lt_pow_right (by norm_num) h3
  exact absurd hcard (not_le.mpr h4)

/-- Seen from outside: of more than `c · |F|^m` histories, two are followed by the same rows whatever comes next, `c` and `m` being fixed by the
output, its windows and `fillna`, not by the number type. -/
theorem eval_forgets (sk : Ind Nat) (fillna : Bool) : ∃ c m, ∀ (F : Type) [FltFn F] [Fintype F] (σ : Nat → F), (sk.fill σ).Plain →
    (fillna = true → ¬ (sk.fill σ).BackFill) → ∀ hist : Fin (c * Fintype.card F ^ m + 1) → List (Bar F), ∃ i j, i ≠ j ∧
      ∀ x out out', (sk.fill σ).eval fillna (hist i ++ x) = .ok out → (sk.fill σ).eval fillna (hist j ++ x) = .ok out' →
        out.drop (hist i).length = out'.drop (hist j).length := by
  obtain ⟨c, m, h⟩ := live_all sk fillna
  refine ⟨c, m, fun F _ _ σ hp hf hist => ?_⟩
  obtain ⟨f, hl, he⟩ := h F σ hp hf
  obtain ⟨i, j, hij, h1⟩ := live_forgets hl hist
  exact ⟨i, j, hij, fun x out out' h2 h3 => by rw [he _ _ h2, he _ _ h3, h1]⟩

/-- Three numbers are enough for an EMA, whatever its window; the counter is there for the rows that are still empty. -/
theorem live_ema {F : Type} [FltFn F] (w : Nat) : LiveE F (max w 1 + 1) 3 (fun b => (Ind.ema w : Ind F).eval false b) := by
  have h : Live F (1 * (1 * (1 * (max w 1 + 1)))) 3 (fun b : List (Bar F) => ema (closes b) w false) := (live_col Bar.close).ewm _ w
  simp only [Nat.one_mul] at h
  simp only [Ind.eval, emaIndicator_eq]
  exact liveE_guard (liveE_ok h) _ _

section witnesses
attribute [local instance] toyFn

/-- With `fillna` the first rows of DPO change with every row that comes in: no state of any size will do. -/
theorem dpo_fillna_not_live (c m : Nat) : ¬ LiveE (Val ℚ) c m (fun b => (Ind.dpo 20 : Ind (Val ℚ)).eval true b) := by
  intro h
  have h1 := liveE_causal (b := [qb 1]) (x := [qb 3]) h (out := [.fin 0]) (out' := [.fin 1, .fin 0]) (by decide +kernel) (by decide +kernel)
  exact absurd h1 (by decide +kernel)

/-- Rows filled backwards change as well: the first rows of `psar_up` wait for the third. -/
theorem backfill_not_live (c m : Nat) :
    ¬ LiveE (Val ℚ) c m (fun b => (Ind.psarUp (lit (1/50)) (lit (1/5)) : Ind (Val ℚ)).eval true b) := by
  intro h
  have h1 := liveE_causal (b := [qbar 3 1 2 1, qbar 4 3 3 1]) (x := [qbar 6 4 5 1]) h (out := [.nan, .nan]) (out' := [.fin 1, .fin 1, .fin 1])
    (by decide +kernel) (by decide +kernel)
  exact absurd h1 (by decide +kernel)

/-- an EMA, row by row and all at once -/
example : LiveE (Val ℚ) 3 3 (fun b => (Ind.ema 2 : Ind (Val ℚ)).eval false b) ∧
    (Ind.ema 2 : Ind (Val ℚ)).eval false [qb 1, qb 3, qb 5] = .ok [.nan, .fin (7/3), .fin (37/9)] :=
  ⟨live_ema 2, by decide +kernel⟩

/-- a parabolic SAR, and what it takes to keep it -/
example : ((Ind.psar 0 1).fill (fun n => .fin (1/(10 - 8 * n))) : Ind (Val ℚ)) = .psar (.fin (1/10)) (.fin (1/2)) ∧
    (Ind.psar (.fin (1/10)) (.fin (1/2)) : Ind (Val ℚ)).eval false [qb 1, qb 3, qb 5, qb 2] = .ok [.fin 1, .fin 3, .fin 1, .fin (9/5)] ∧
    Live (Val ℚ) 1152 21 (psarCol (fun _ p => p.val) (.fin (1/10)) (.fin (1/2) : Val ℚ)) :=
  ⟨by norm_num [Ind.fill], by decide +kernel, live_psarCol _ _ _⟩

end witnesses

end main

end TA
