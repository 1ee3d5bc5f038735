import Verif.Lemmas.Tail
import Verif.Props.C41

/-! # C66: finite memory -/

set_option linter.unusedSectionVars false
set_option linter.unusedSimpArgs false

namespace TA

/-- How many earlier rows an output row depends on, for the outputs without recursion or accumulation
(`none`: no such number is claimed). -/
def Ind.memory {F : Type} : Ind F → Option Nat
  | .sma w | .wma w | .stoch w | .williamsR w | .cci w _ | .cmf w | .vwap w => some (w - 1)
  | .bbMavg w _ | .bbHband w _ | .bbLband w _ | .bbWband w _ | .bbPband w _ | .bbHi w _ | .bbLi w _ => some (w - 1)
  | .kcMband w _ original _ | .kcHband w _ original _ | .kcLband w _ original _ | .kcWband w _ original _
  | .kcPband w _ original _ | .kcHi w _ original _ | .kcLi w _ original _ => if original then some (w - 1) else none
  | .dcHband w off | .dcLband w off | .dcMband w off | .dcWband w off | .dcPband w off =>
      if 0 ≤ off then some (w - 1 + off.toNat) else none
  | .ichimokuConv w | .ichimokuBase w => some (w - 1)
  | .ichimokuA w1 w2 visual => some (max w1 w2 - 1 + if visual then w2 else 0)
  | .ichimokuB w2 w3 visual => some (w3 - 1 + if visual then w2 else 0)
  | .ao w1 w2 => some (max w1 w2 - 1)
  | .stochSignal w smooth => some ((w - 1) + (smooth - 1))
  | .ulcer w => some (2 * (w - 1))
  | .roc w => some w
  | .aroonUp w | .aroonDown w | .aroonInd w => if 1 ≤ w then some w else none
  | .eom | .dr | .dlr => some 1
  | .uo w1 w2 w3 _ _ _ => some (max 1 (max w1 (max w2 w3)))
  | .mfi w | .smaEom w | .vortexPos w | .vortexNeg w | .vortexDiff w => some (max 1 w)
  | .dpo w => some (max (w / 2 + 1) (w - 1))
  | .kst p => some (max (max (p.r1 + (p.w1 - 1)) (p.r2 + (p.w2 - 1))) (max (p.r3 + (p.w3 - 1)) (p.r4 + (p.w4 - 1))))
  | .kstSig p nsig | .kstDiff p nsig =>
      some (max (max (p.r1 + (p.w1 - 1)) (p.r2 + (p.w2 - 1))) (max (p.r3 + (p.w3 - 1)) (p.r4 + (p.w4 - 1))) + (nsig - 1))
  | _ => none

section
variable {F : Type} [FltFn F]

theorem fm_of {m : Nat} {p : Prop} [Decidable p] {e : PyErr} {f : List (Bar F) → Except PyErr (Series F)}
    {g : List (Bar F) → Series F} (hf : ∀ b, f b = if p then .error e else .ok (g b))
    (h : ¬ p → ∀ old rec, Tail old.length m (g rec) (g (old ++ rec))) : FiniteMemory m f := by
  intro old rec out ho
  rw [hf] at ho
  split_ifs at ho with hp
  rw [← Except.ok.inj ho]
  exact ⟨_, by rw [hf, if_neg hp], (h hp old rec).drop⟩

theorem fm_ok {m : Nat} {f : List (Bar F) → Except PyErr (Series F)} {g : List (Bar F) → Series F}
    (hf : ∀ b, f b = .ok (g b)) (h : ∀ old rec, Tail old.length m (g rec) (g (old ++ rec))) : FiniteMemory m f :=
  fm_of (p := False) (e := .valueError) (fun b => by rw [hf, if_neg not_false]) fun _ => h

/-- the four columns -/
theorem mem_cols (old rec : List (Bar F)) (f : Bar F → F) : Tail old.length 0 (rec.map f) ((old ++ rec).map f) := by
  have := Tail.append (old.map f) (rec.map f)
  rwa [List.length_map, ← List.map_append] at this

theorem mem_cols4 (old rec : List (Bar F)) : Tail old.length 0 (highs rec) (highs (old ++ rec)) ∧
    Tail old.length 0 (lows rec) (lows (old ++ rec)) ∧ Tail old.length 0 (closes rec) (closes (old ++ rec)) ∧
    Tail old.length 0 (volumes rec) (volumes (old ++ rec)) ∧ (highs rec).length = (closes rec).length ∧
    (lows rec).length = (closes rec).length ∧ (volumes rec).length = (closes rec).length :=
  ⟨mem_cols old rec _, mem_cols old rec _, mem_cols old rec _, mem_cols old rec _, by simp, by simp, by simp⟩

variable {k m : Nat} {h l c v h' l' c' v' : Series F}

theorem mem_clv (hh : Tail k 0 h h') (hl : Tail k 0 l l') (hc : Tail k 0 c c') (e1 : l.length = c.length)
    (e2 : h.length = c.length) : Tail k 0 (clv h l c) (clv h' l' c') :=
  (((hc.ssub hl e1).ssub (hh.ssub hc e2.symm) (by simp [e2])).sdiv (hh.ssub hl (by omega)) (by simp [e2])).fillConst _
    |>.mono (by simp)

theorem mem_tp (hh : Tail k 0 h h') (hl : Tail k 0 l l') (hc : Tail k 0 c c') (e1 : l.length = c.length)
    (e2 : h.length = c.length) : Tail k 0 (typicalPrice h l c) (typicalPrice h' l' c') :=
  (((hh.sadd hl (by omega)).sadd hc (by simp [e2])).divc _).mono (by simp)

theorem mem_tr {x x' : F} (hh : Tail k 0 h h') (hl : Tail k 0 l l') (hc : Tail k 0 c c') (e1 : l.length = c.length)
    (e2 : h.length = c.length) : Tail k 1 (trueRange h l (shift c 1 x)) (trueRange h' l' (shift c' 1 x')) :=
  (Tail.zip3 hh hl (hc.shift 1 x x') (by omega) (by simp [e2]) _).mono (by simp)

theorem mem_mid (hh : Tail k 0 h h') (hl : Tail k 0 l l') (e : l.length = h.length) (w p : Nat) :
    Tail k (w - 1) (Ichimoku.mid h l w p) (Ichimoku.mid h' l' w p) :=
  (((hh.rollMax w p).sadd (hl.rollMin w p) (by simp [e])).cmul _).mono (by omega)

theorem mem_rocma (hc : Tail k 0 c c') (r w : Nat) : Tail k (r + (w - 1)) (KST.rocma c r w false) (KST.rocma c' r w false) := by
  have hp := hc.shift r (smean c) (smean c')
  exact (((hc.ssub hp (by simp)).sdiv hp (by simp)).rollMean w _).mono (by omega)

theorem mem_kst (hc : Tail k 0 c c') (r1 r2 r3 r4 w1 w2 w3 w4 : Nat) :
    Tail k (max (max (r1 + (w1 - 1)) (r2 + (w2 - 1))) (max (r3 + (w3 - 1)) (r4 + (w4 - 1))))
      (KST.run c r1 r2 r3 r4 w1 w2 w3 w4 false) (KST.run c' r1 r2 r3 r4 w1 w2 w3 w4 false) :=
  (((((mem_rocma hc r1 w1).sadd ((mem_rocma hc r2 w2).cmul _) (by simp [KST.rocma])).sadd
    ((mem_rocma hc r3 w3).cmul _) (by simp [KST.rocma])).sadd ((mem_rocma hc r4 w4).cmul _) (by simp [KST.rocma])).cmul _).mono
    (by omega)

theorem mem_flow (hh : Tail k 0 h h') (hl : Tail k 0 l l') (hc : Tail k 0 c c') (hv : Tail k 0 v v') (e1 : l.length = c.length)
    (e2 : h.length = c.length) (e3 : v.length = c.length) : Tail k 1 (MFI.flow h l c v) (MFI.flow h' l' c' v') := by
  have ht := mem_tp hh hl hc e1 e2
  have lt : (typicalPrice h l c).length = c.length := by simp [typicalPrice, e2]
  exact ((ht.smul hv (by omega)).smul (ht.zip2 (ht.shift 1 _ _) (by simp) _) (by simp)).mono (by omega)

theorem mem_vtrn (hh : Tail k 0 h h') (hl : Tail k 0 l l') (hc : Tail k 0 c c') (e1 : l.length = c.length)
    (e2 : h.length = c.length) (w : Nat) : Tail k (max 1 w) (Vortex.trn h l c w false) (Vortex.trn h' l' c' w false) :=
  ((mem_tr hh hl hc e1 e2).rollSum w _).mono (by omega)

theorem mem_vip (hh : Tail k 0 h h') (hl : Tail k 0 l l') (hc : Tail k 0 c c') (e1 : l.length = c.length)
    (e2 : h.length = c.length) (w : Nat) : Tail k (max 1 w) (Vortex.vip h l c w false) (Vortex.vip h' l' c' w false) :=
  ((((hh.ssub (hl.shift 1 _ _) (by simp [e1, e2])).sabs).rollSum w _).sdiv (mem_vtrn hh hl hc e1 e2 w)
    (by simp [Vortex.trn])).mono (by omega)

theorem mem_vin (hh : Tail k 0 h h') (hl : Tail k 0 l l') (hc : Tail k 0 c c') (e1 : l.length = c.length)
    (e2 : h.length = c.length) (w : Nat) : Tail k (max 1 w) (Vortex.vin h l c w false) (Vortex.vin h' l' c' w false) :=
  ((((hl.ssub (hh.shift 1 _ _) (by simp [e1, e2])).sabs).rollSum w _).sdiv (mem_vtrn hh hl hc e1 e2 w)
    (by simp [Vortex.trn, e1, e2])).mono (by omega)

theorem mem_eom (hh : Tail k 0 h h') (hl : Tail k 0 l l') (hv : Tail k 0 v v') (e1 : l.length = h.length)
    (e2 : v.length = h.length) : Tail k 1 (EOM.run h l v) (EOM.run h' l' v') :=
  ((((hh.sdiff.sadd hl.sdiff (by simp [e1])).smul (hh.ssub hl e1) (by simp)).sdiv (hv.cmul _) (by simp [e2])).mulc _).mono
    (by omega)

theorem mem_k (hh : Tail k 0 h h') (hl : Tail k 0 l l') (hc : Tail k 0 c c') (e1 : l.length = c.length)
    (e2 : h.length = c.length) (w : Nat) : Tail k (w - 1) (Stoch.k h l c w false) (Stoch.k h' l' c' w false) :=
  ((((hc.ssub (hl.rollMin w _) (by simp [e1])).cmul _).sdiv ((hh.rollMax w _).ssub (hl.rollMin w _) (by simp [e1, e2])))
    (by simp [e2])).mono (by omega)

theorem mem_uo (hh : Tail k 0 h h') (hl : Tail k 0 l l') (hc : Tail k 0 c c') (e1 : l.length = c.length)
    (e2 : h.length = c.length) (w1 w2 w3 : Nat) (a b d : F) : Tail k (max 1 (max w1 (max w2 w3)))
      (UO.run h l c w1 w2 w3 a b d false) (UO.run h' l' c' w1 w2 w3 a b d false) := by
  have ht := mem_tr (x := nan) (x' := nan) hh hl hc e1 e2
  have hb : Tail k 1 (UO.buyingPressure l c) (UO.buyingPressure l' c') :=
    (hc.ssub (hl.zip2 (hc.shift 1 _ _) (by simp [e1]) _) (by simp [e1])).mono (by omega)
  have hav : ∀ w, Tail k (max 1 w) (UO.avg (UO.buyingPressure l c) (trueRange h l (shift c 1)) w false)
      (UO.avg (UO.buyingPressure l' c') (trueRange h' l' (shift c' 1)) w false) := fun w =>
    ((hb.rollSum w _).sdiv (ht.rollSum w _) (by simp [UO.buyingPressure, e2])).mono (by omega)
  exact (((((hav w1).cmul a).sadd ((hav w2).cmul b) (by simp [UO.avg])).sadd ((hav w3).cmul d) (by simp [UO.avg])).cmul _
    |>.divc _).mono (by omega)

theorem mem_bb (hc : Tail k 0 c c') (w : Nat) (d : F) :
    Tail k (w - 1) (BB.new c w d false).mavg (BB.new c' w d false).mavg ∧
    Tail k (w - 1) (BB.new c w d false).hband (BB.new c' w d false).hband ∧
    Tail k (w - 1) (BB.new c w d false).lband (BB.new c' w d false).lband := by
  have h1 := hc.rollMean w (minp false w)
  have h2 := (hc.rollStd w (minp false w)).cmul d
  exact ⟨h1.mono (by omega), (h1.sadd h2 (by simp)).mono (by omega), (h1.ssub h2 (by simp)).mono (by omega)⟩

theorem mem_kc (hh : Tail k 0 h h') (hl : Tail k 0 l l') (hc : Tail k 0 c c') (e1 : l.length = c.length)
    (e2 : h.length = c.length) (w : Nat) :
    Tail k (w - 1) (Keltner.runOriginal h l c w false).tp (Keltner.runOriginal h' l' c' w false).tp ∧
    Tail k (w - 1) (Keltner.runOriginal h l c w false).tpHigh (Keltner.runOriginal h' l' c' w false).tpHigh ∧
    Tail k (w - 1) (Keltner.runOriginal h l c w false).tpLow (Keltner.runOriginal h' l' c' w false).tpLow := by
  refine ⟨((mem_tp hh hl hc e1 e2).rollMean w _).mono (by omega), ?_, ?_⟩
  · exact (((((hh.cmul _).ssub (hl.cmul _) (by simp [e1, e2])).sadd hc (by simp [e2])).divc _).rollMean w 0).mono (by omega)
  · exact (((((hh.cmul _).sadd (hl.cmul _) (by simp [e1, e2])).sadd hc (by simp [e2])).divc _).rollMean w 0).mono (by omega)

/-- an optional shift forward -/
theorem mem_off {s s' : Series F} (hs : Tail k m s s') (off : Int) (h0 : 0 ≤ off) {o o' : Donchian F}
    (ho : o.offset = off) (ho' : o'.offset = off) : Tail k (m + off.toNat) (o.off s) (o'.off s') := by
  unfold Donchian.off
  rw [ho, ho']
  split_ifs with h1
  · exact hs.shiftInt off h0
  · exact hs.mono (by omega)

/-- unfold an output down to the series operations (the common parts above stay folded) -/
macro "mem_defs" : tactic =>
  `(tactic| simp only [checkFillna, Bool.false_eq_true, if_false, roc, ROC.run, awesomeOscillator, AO.run, williamsR, WR.run,
    Aroon.aroonUp, Aroon.aroonDown, Aroon.aroonIndicator, Aroon.run, smaIndicator, sma, wma, kstDiff, kstSig, KST.sig, dpo,
    DPO.run, cci, CCI.run, vortexDiff, BB.bollingerWband, BB.bollingerPband, BB.bollingerHbandIndicator,
    BB.bollingerLbandIndicator, Ulcer.drawdown, chaikinMoneyFlow, CMF.run, smaEaseOfMovement, moneyFlowIndex, MFI.run,
    volumeWeightedAveragePrice, VWAP.run, dailyReturn, DR.run, dailyLogReturn, DLR.run, Keltner.wband, Keltner.pband,
    Keltner.hbandIndicator, Keltner.lbandIndicator, Donchian.hband, Donchian.lband, Donchian.mband, Donchian.wband,
    Donchian.pband, gtFlag, ltFlag, stochSignal])

set_option maxHeartbeats 1000000 in
/-- C66. Without filling, an output row of a windowed indicator depends on its own input row and the `memory` rows
before it: older rows can be removed, or replaced, without changing it.  Any arithmetic, any data. -/
theorem finite_memory (x : Ind F) {m : Nat} (hx : x.memory = some m) : FiniteMemory m (fun b => x.eval false b) := by
  cases x <;> simp only [Ind.memory, Option.some.injEq, reduceCtorEq, Ind.eval] at hx ⊢
  case uo =>
    subst hx
    refine fm_ok (fun b => rfl) fun old rec => ?_
    obtain ⟨hh, hl, hc, hv, e1, e2, e3⟩ := mem_cols4 old rec
    exact mem_uo hh hl hc e2 e1 ..
  case stoch =>
    subst hx
    refine fm_ok (fun b => rfl) fun old rec => ?_
    obtain ⟨hh, hl, hc, hv, e1, e2, e3⟩ := mem_cols4 old rec
    exact mem_k hh hl hc e2 e1 _
  case stochSignal w s =>
    subst hx
    refine fm_ok (fun b => rfl) fun old rec => ?_
    obtain ⟨hh, hl, hc, hv, e1, e2, e3⟩ := mem_cols4 old rec
    exact (mem_k hh hl hc e2 e1 w).rollMean s _
  case roc w =>
    subst hx
    refine fm_ok (fun b => rfl) fun old rec => ?_
    obtain ⟨hh, hl, hc, hv, e1, e2, e3⟩ := mem_cols4 old rec
    mem_defs
    refine Tail.mono (((hc.ssub (hc.shift w _ _) (by simp)).sdiv (hc.shift w _ _) (by simp)).mulc _) ?_
    omega
  case ao w1 w2 =>
    subst hx
    refine fm_ok (fun b => rfl) fun old rec => ?_
    obtain ⟨hh, hl, hc, hv, e1, e2, e3⟩ := mem_cols4 old rec
    have hm := (hh.sadd hl (by omega)).cmul (lit (1/2))
    mem_defs
    refine Tail.mono ((hm.rollMean w1 _).ssub (hm.rollMean w2 _) (by simp)) ?_
    omega
  case williamsR w =>
    subst hx
    refine fm_ok (fun b => rfl) fun old rec => ?_
    obtain ⟨hh, hl, hc, hv, e1, e2, e3⟩ := mem_cols4 old rec
    mem_defs
    refine Tail.mono ((((hh.rollMax w _).ssub hc (by simp [e1])).cmul _).sdiv ((hh.rollMax w _).ssub (hl.rollMin w _) (by simp [e1, e2]))
        (by simp)) ?_
    omega
  case aroonUp w =>
    split_ifs at hx with hw
    obtain rfl := Option.some.inj hx
    refine fm_ok (fun b => by simp only [Aroon.new]; rw [if_neg (by omega)]; rfl) fun old rec => ?_
    obtain ⟨hh, hl, hc, hv, e1, e2, e3⟩ := mem_cols4 old rec
    mem_defs
    refine Tail.mono (hh.rollApply _ (w + 1) _) ?_
    omega
  case aroonDown w =>
    split_ifs at hx with hw
    obtain rfl := Option.some.inj hx
    refine fm_ok (fun b => by simp only [Aroon.new]; rw [if_neg (by omega)]; rfl) fun old rec => ?_
    obtain ⟨hh, hl, hc, hv, e1, e2, e3⟩ := mem_cols4 old rec
    mem_defs
    refine Tail.mono (hl.rollApply _ (w + 1) _) ?_
    omega
  case aroonInd w =>
    split_ifs at hx with hw
    obtain rfl := Option.some.inj hx
    refine fm_ok (fun b => by simp only [Aroon.new]; rw [if_neg (by omega)]; rfl) fun old rec => ?_
    obtain ⟨hh, hl, hc, hv, e1, e2, e3⟩ := mem_cols4 old rec
    mem_defs
    refine Tail.mono ((hh.rollApply _ (w + 1) _).ssub (hl.rollApply _ (w + 1) _) (by simp [e1, e2])) ?_
    omega
  case sma w =>
    subst hx
    refine fm_ok (fun b => rfl) fun old rec => ?_
    obtain ⟨hh, hl, hc, hv, e1, e2, e3⟩ := mem_cols4 old rec
    mem_defs
    refine Tail.mono (hc.rollMean w _) ?_
    omega
  case wma w =>
    subst hx
    refine fm_ok (fun b => rfl) fun old rec => ?_
    obtain ⟨hh, hl, hc, hv, e1, e2, e3⟩ := mem_cols4 old rec
    mem_defs
    refine Tail.mono (hc.rollApply _ w _) ?_
    omega
  case ichimokuConv w =>
    subst hx
    refine fm_ok (fun b => rfl) fun old rec => ?_
    obtain ⟨hh, hl, hc, hv, e1, e2, e3⟩ := mem_cols4 old rec
    exact mem_mid hh hl (by omega) w _
  case ichimokuBase w =>
    subst hx
    refine fm_ok (fun b => rfl) fun old rec => ?_
    obtain ⟨hh, hl, hc, hv, e1, e2, e3⟩ := mem_cols4 old rec
    exact mem_mid hh hl (by omega) w _
  case ichimokuA w1 w2 vis =>
    subst hx
    refine fm_ok (fun b => rfl) fun old rec => ?_
    obtain ⟨hh, hl, hc, hv, e1, e2, e3⟩ := mem_cols4 old rec
    have hs : Tail old.length (max w1 w2 - 1) (Ichimoku.spanA (highs rec) (lows rec) w1 w2 false)
        (Ichimoku.spanA (highs (old ++ rec)) (lows (old ++ rec)) w1 w2 false) :=
      (((mem_mid hh hl (by omega) w1 _).sadd (mem_mid hh hl (by omega) w2 _) (by simp [Ichimoku.mid])).cmul _).mono (by omega)
    cases vis
    · exact hs.mono (by omega)
    · exact hs.shift w2 _ _
  case ichimokuB w2 w3 vis =>
    subst hx
    refine fm_ok (fun b => rfl) fun old rec => ?_
    obtain ⟨hh, hl, hc, hv, e1, e2, e3⟩ := mem_cols4 old rec
    have hs := mem_mid hh hl (by omega) w3 0
    cases vis
    · exact hs.mono (by omega)
    · exact hs.shift w2 _ _
  case kst p =>
    subst hx
    refine fm_ok (fun b => rfl) fun old rec => ?_
    obtain ⟨hh, hl, hc, hv, e1, e2, e3⟩ := mem_cols4 old rec
    exact mem_kst hc p.r1 p.r2 p.r3 p.r4 p.w1 p.w2 p.w3 p.w4
  case kstSig p n =>
    subst hx
    refine fm_ok (fun b => rfl) fun old rec => ?_
    obtain ⟨hh, hl, hc, hv, e1, e2, e3⟩ := mem_cols4 old rec
    have hk := mem_kst hc p.r1 p.r2 p.r3 p.r4 p.w1 p.w2 p.w3 p.w4
    exact hk.rollMean n 0
  case kstDiff p n =>
    subst hx
    refine fm_ok (fun b => rfl) fun old rec => ?_
    obtain ⟨hh, hl, hc, hv, e1, e2, e3⟩ := mem_cols4 old rec
    have hk := mem_kst hc p.r1 p.r2 p.r3 p.r4 p.w1 p.w2 p.w3 p.w4
    mem_defs
    refine Tail.mono (hk.ssub (hk.rollMean n 0) (by simp)) ?_
    omega
  case dpo w =>
    subst hx
    refine fm_ok (fun b => rfl) fun old rec => ?_
    obtain ⟨hh, hl, hc, hv, e1, e2, e3⟩ := mem_cols4 old rec
    mem_defs
    refine Tail.mono ((hc.shift (w / 2 + 1) _ _).ssub (hc.rollMean w _) (by simp)) ?_
    omega
  case cci w d =>
    subst hx
    refine fm_ok (fun b => rfl) fun old rec => ?_
    obtain ⟨hh, hl, hc, hv, e1, e2, e3⟩ := mem_cols4 old rec
    have ht := mem_tp hh hl hc e2 e1
    mem_defs
    refine Tail.mono ((ht.ssub (ht.rollMean w _) (by simp)).sdiv ((ht.rollApply _ w _).cmul d) (by simp)) ?_
    omega
  case vortexPos w =>
    subst hx
    refine fm_ok (fun b => rfl) fun old rec => ?_
    obtain ⟨hh, hl, hc, hv, e1, e2, e3⟩ := mem_cols4 old rec
    exact mem_vip hh hl hc e2 e1 w
  case vortexNeg w =>
    subst hx
    refine fm_ok (fun b => rfl) fun old rec => ?_
    obtain ⟨hh, hl, hc, hv, e1, e2, e3⟩ := mem_cols4 old rec
    exact mem_vin hh hl hc e2 e1 w
  case vortexDiff w =>
    subst hx
    refine fm_ok (fun b => rfl) fun old rec => ?_
    obtain ⟨hh, hl, hc, hv, e1, e2, e3⟩ := mem_cols4 old rec
    mem_defs
    refine Tail.mono ((mem_vip hh hl hc e2 e1 w).ssub (mem_vin hh hl hc e2 e1 w) (by simp [Vortex.vip, Vortex.vin, e1, e2])) ?_
    omega
  case bbMavg w d =>
    subst hx
    refine fm_ok (fun b => rfl) fun old rec => ?_
    obtain ⟨hh, hl, hc, hv, e1, e2, e3⟩ := mem_cols4 old rec
    exact (mem_bb hc w d).1
  case bbHband w d =>
    subst hx
    refine fm_ok (fun b => rfl) fun old rec => ?_
    obtain ⟨hh, hl, hc, hv, e1, e2, e3⟩ := mem_cols4 old rec
    exact (mem_bb hc w d).2.1
  case bbLband w d =>
    subst hx
    refine fm_ok (fun b => rfl) fun old rec => ?_
    obtain ⟨hh, hl, hc, hv, e1, e2, e3⟩ := mem_cols4 old rec
    exact (mem_bb hc w d).2.2
  case bbWband w d =>
    subst hx
    refine fm_ok (fun b => rfl) fun old rec => ?_
    obtain ⟨hh, hl, hc, hv, e1, e2, e3⟩ := mem_cols4 old rec
    obtain ⟨h1, h2, h3⟩ := mem_bb hc w d
    simp only [BB.new] at h1 h2 h3
    simp only [BB.bollingerWband, BB.bollingerPband, BB.bollingerHbandIndicator, BB.bollingerLbandIndicator, BB.new, checkFillna,
      Bool.false_eq_true, if_false, gtFlag, ltFlag]
    refine Tail.mono (((h2.ssub h3 (by simp)).sdiv h1 (by simp)).mulc _) ?_
    omega
  case bbPband w d =>
    subst hx
    refine fm_ok (fun b => rfl) fun old rec => ?_
    obtain ⟨hh, hl, hc, hv, e1, e2, e3⟩ := mem_cols4 old rec
    obtain ⟨h1, h2, h3⟩ := mem_bb hc w d
    simp only [BB.new] at h1 h2 h3
    simp only [BB.bollingerWband, BB.bollingerPband, BB.bollingerHbandIndicator, BB.bollingerLbandIndicator, BB.new, checkFillna,
      Bool.false_eq_true, if_false, gtFlag, ltFlag]
    refine Tail.mono ((hc.ssub h3 (by simp)).sdiv (h2.zip2 h3 (by simp) _) (by simp)) ?_
    omega
  case bbHi w d =>
    subst hx
    refine fm_ok (fun b => rfl) fun old rec => ?_
    obtain ⟨hh, hl, hc, hv, e1, e2, e3⟩ := mem_cols4 old rec
    obtain ⟨h1, h2, h3⟩ := mem_bb hc w d
    simp only [BB.new] at h1 h2 h3
    simp only [BB.bollingerWband, BB.bollingerPband, BB.bollingerHbandIndicator, BB.bollingerLbandIndicator, BB.new, checkFillna,
      Bool.false_eq_true, if_false, gtFlag, ltFlag]
    refine Tail.mono (hc.zip2 h2 (by simp) _) ?_
    omega
  case bbLi w d =>
    subst hx
    refine fm_ok (fun b => rfl) fun old rec => ?_
    obtain ⟨hh, hl, hc, hv, e1, e2, e3⟩ := mem_cols4 old rec
    obtain ⟨h1, h2, h3⟩ := mem_bb hc w d
    simp only [BB.new] at h1 h2 h3
    simp only [BB.bollingerWband, BB.bollingerPband, BB.bollingerHbandIndicator, BB.bollingerLbandIndicator, BB.new, checkFillna,
      Bool.false_eq_true, if_false, gtFlag, ltFlag]
    refine Tail.mono (hc.zip2 h3 (by simp) _) ?_
    omega
  case ulcer w =>
    subst hx
    refine fm_of (fun b => by exact ulcerIndex_eq _ _ _) fun hp old rec => ?_
    obtain ⟨hh, hl, hc, hv, e1, e2, e3⟩ := mem_cols4 old rec
    mem_defs
    refine Tail.mono ((((hc.ssub (hc.rollMax w 1) (by simp)).cmul _).sdiv (hc.rollMax w 1) (by simp)).rollApply _ w w) ?_
    omega
  case cmf w =>
    subst hx
    refine fm_ok (fun b => rfl) fun old rec => ?_
    obtain ⟨hh, hl, hc, hv, e1, e2, e3⟩ := mem_cols4 old rec
    have h1 := mem_clv hh hl hc e2 e1
    mem_defs
    refine Tail.mono (((h1.smul hv (by simp [clv, e3])).rollSum w _).sdiv (hv.rollSum w _) (by simp [clv, e3])) ?_
    omega
  case eom =>
    subst hx
    refine fm_ok (fun b => rfl) fun old rec => ?_
    obtain ⟨hh, hl, hc, hv, e1, e2, e3⟩ := mem_cols4 old rec
    exact mem_eom hh hl hv (by omega) (by omega)
  case smaEom w =>
    subst hx
    refine fm_ok (fun b => rfl) fun old rec => ?_
    obtain ⟨hh, hl, hc, hv, e1, e2, e3⟩ := mem_cols4 old rec
    mem_defs
    refine Tail.mono ((mem_eom hh hl hv (by omega) (by omega)).rollMean w _) ?_
    omega
  case mfi w =>
    subst hx
    refine fm_ok (fun b => rfl) fun old rec => ?_
    obtain ⟨hh, hl, hc, hv, e1, e2, e3⟩ := mem_cols4 old rec
    have hf := mem_flow hh hl hc hv e2 e1 e3
    mem_defs
    refine Tail.mono (((((hf.rollApply MFI.pos w _).sdiv (hf.rollApply MFI.neg w _).sabs (by simp)).cadd _).cdiv _).csub _) ?_
    omega
  case vwap w =>
    subst hx
    refine fm_ok (fun b => rfl) fun old rec => ?_
    obtain ⟨hh, hl, hc, hv, e1, e2, e3⟩ := mem_cols4 old rec
    have h1 := mem_tp hh hl hc e2 e1
    mem_defs
    refine Tail.mono (((h1.smul hv (by simp [typicalPrice, e1, e3])).rollSum w _).sdiv (hv.rollSum w _)
      (by simp [typicalPrice, e1, e3])) ?_
    omega
  case dr =>
    subst hx
    refine fm_ok (fun b => rfl) fun old rec => ?_
    obtain ⟨hh, hl, hc, hv, e1, e2, e3⟩ := mem_cols4 old rec
    mem_defs
    refine Tail.mono (((hc.sdiv (hc.shift 1 _ _) (by simp)).subc _).mulc _) ?_
    omega
  case dlr =>
    subst hx
    refine fm_ok (fun b => rfl) fun old rec => ?_
    obtain ⟨hh, hl, hc, hv, e1, e2, e3⟩ := mem_cols4 old rec
    mem_defs
    refine Tail.mono ((hc.map _).sdiff.mulc _) ?_
    omega
  case kcMband w wa o d =>
    split_ifs at hx with ho
    obtain rfl := Option.some.inj hx
    subst ho
    refine fm_of (fun b => by simp only [Keltner.new_original_eq, map_guard]; rfl) fun hp old rec => ?_
    obtain ⟨hh, hl, hc, hv, e1, e2, e3⟩ := mem_cols4 old rec
    exact (mem_kc hh hl hc e2 e1 w).1
  case kcHband w wa o d =>
    split_ifs at hx with ho
    obtain rfl := Option.some.inj hx
    subst ho
    refine fm_of (fun b => by simp only [Keltner.new_original_eq, map_guard]; rfl) fun hp old rec => ?_
    obtain ⟨hh, hl, hc, hv, e1, e2, e3⟩ := mem_cols4 old rec
    exact (mem_kc hh hl hc e2 e1 w).2.1
  case kcLband w wa o d =>
    split_ifs at hx with ho
    obtain rfl := Option.some.inj hx
    subst ho
    refine fm_of (fun b => by simp only [Keltner.new_original_eq, map_guard]; rfl) fun hp old rec => ?_
    obtain ⟨hh, hl, hc, hv, e1, e2, e3⟩ := mem_cols4 old rec
    exact (mem_kc hh hl hc e2 e1 w).2.2
  case kcWband w wa o d =>
    split_ifs at hx with ho
    obtain rfl := Option.some.inj hx
    subst ho
    refine fm_of (fun b => by simp only [Keltner.new_original_eq, map_guard]; rfl) fun hp old rec => ?_
    obtain ⟨hh, hl, hc, hv, e1, e2, e3⟩ := mem_cols4 old rec
    obtain ⟨h1, h2, h3⟩ := mem_kc hh hl hc e2 e1 w
    simp only [Keltner.runOriginal] at h1 h2 h3
    simp only [Keltner.wband, Keltner.pband, Keltner.hbandIndicator, Keltner.lbandIndicator, Keltner.runOriginal, checkFillna,
      Bool.false_eq_true, if_false, gtFlag, ltFlag]
    refine Tail.mono (((h2.ssub h3 (by simp)).sdiv h1 (by simp [typicalPrice])).mulc _) ?_
    omega
  case kcPband w wa o d =>
    split_ifs at hx with ho
    obtain rfl := Option.some.inj hx
    subst ho
    refine fm_of (fun b => by simp only [Keltner.new_original_eq, map_guard]; rfl) fun hp old rec => ?_
    obtain ⟨hh, hl, hc, hv, e1, e2, e3⟩ := mem_cols4 old rec
    obtain ⟨h1, h2, h3⟩ := mem_kc hh hl hc e2 e1 w
    simp only [Keltner.runOriginal] at h1 h2 h3
    simp only [Keltner.wband, Keltner.pband, Keltner.hbandIndicator, Keltner.lbandIndicator, Keltner.runOriginal, checkFillna,
      Bool.false_eq_true, if_false, gtFlag, ltFlag]
    refine Tail.mono ((hc.ssub h3 (by simp)).sdiv (h2.ssub h3 (by simp))
      (by simp)) ?_
    omega
  case kcHi w wa o d =>
    split_ifs at hx with ho
    obtain rfl := Option.some.inj hx
    subst ho
    refine fm_of (fun b => by simp only [Keltner.new_original_eq, map_guard]; rfl) fun hp old rec => ?_
    obtain ⟨hh, hl, hc, hv, e1, e2, e3⟩ := mem_cols4 old rec
    obtain ⟨h1, h2, h3⟩ := mem_kc hh hl hc e2 e1 w
    simp only [Keltner.runOriginal] at h1 h2 h3
    simp only [Keltner.wband, Keltner.pband, Keltner.hbandIndicator, Keltner.lbandIndicator, Keltner.runOriginal, checkFillna,
      Bool.false_eq_true, if_false, gtFlag, ltFlag]
    refine Tail.mono (hc.zip2 h2 (by simp) _) ?_
    omega
  case kcLi w wa o d =>
    split_ifs at hx with ho
    obtain rfl := Option.some.inj hx
    subst ho
    refine fm_of (fun b => by simp only [Keltner.new_original_eq, map_guard]; rfl) fun hp old rec => ?_
    obtain ⟨hh, hl, hc, hv, e1, e2, e3⟩ := mem_cols4 old rec
    obtain ⟨h1, h2, h3⟩ := mem_kc hh hl hc e2 e1 w
    simp only [Keltner.runOriginal] at h1 h2 h3
    simp only [Keltner.wband, Keltner.pband, Keltner.hbandIndicator, Keltner.lbandIndicator, Keltner.runOriginal, checkFillna,
      Bool.false_eq_true, if_false, gtFlag, ltFlag]
    refine Tail.mono (hc.zip2 h3 (by simp) _) ?_
    omega
  case dcHband w off =>
    split_ifs at hx with h0
    obtain rfl := Option.some.inj hx
    refine fm_of (fun b => by simp only [Donchian.new_eq, map_guard]; rfl) fun hp old rec => ?_
    obtain ⟨hh, hl, hc, hv, e1, e2, e3⟩ := mem_cols4 old rec
    mem_defs
    refine Tail.mono (mem_off (hh.rollMax w _) off h0 rfl rfl) ?_
    omega
  case dcLband w off =>
    split_ifs at hx with h0
    obtain rfl := Option.some.inj hx
    refine fm_of (fun b => by simp only [Donchian.new_eq, map_guard]; rfl) fun hp old rec => ?_
    obtain ⟨hh, hl, hc, hv, e1, e2, e3⟩ := mem_cols4 old rec
    mem_defs
    refine Tail.mono (mem_off (hl.rollMin w _) off h0 rfl rfl) ?_
    omega
  case dcMband w off =>
    split_ifs at hx with h0
    obtain rfl := Option.some.inj hx
    refine fm_of (fun b => by simp only [Donchian.new_eq, map_guard]; rfl) fun hp old rec => ?_
    obtain ⟨hh, hl, hc, hv, e1, e2, e3⟩ := mem_cols4 old rec
    mem_defs
    refine Tail.mono (mem_off ((((hh.rollMax w _).ssub (hl.rollMin w _) (by simp [e1, e2])).divc _).sadd (hl.rollMin w _)
      (by simp [e1, e2])) off h0 rfl rfl) ?_
    omega
  case dcWband w off =>
    split_ifs at hx with h0
    obtain rfl := Option.some.inj hx
    refine fm_of (fun b => by simp only [Donchian.new_eq, map_guard]; rfl) fun hp old rec => ?_
    obtain ⟨hh, hl, hc, hv, e1, e2, e3⟩ := mem_cols4 old rec
    mem_defs
    refine Tail.mono (mem_off ((((hh.rollMax w _).ssub (hl.rollMin w _) (by simp [e1, e2])).sdiv (hc.rollMean w _)
      (by simp [e1])).mulc _) off h0 rfl rfl) ?_
    omega
  case dcPband w off =>
    split_ifs at hx with h0
    obtain rfl := Option.some.inj hx
    refine fm_of (fun b => by simp only [Donchian.new_eq, map_guard]; rfl) fun hp old rec => ?_
    obtain ⟨hh, hl, hc, hv, e1, e2, e3⟩ := mem_cols4 old rec
    mem_defs
    refine Tail.mono (mem_off ((hc.ssub (hl.rollMin w _) (by simp [e2])).sdiv ((hh.rollMax w _).ssub (hl.rollMin w _) (by simp [e1, e2]))
      (by simp [e1])) off h0 rfl rfl) ?_
    omega

end

/-! ## the numbers in the table cannot be lowered -/

theorem FiniteMemory.row {A F : Type} [Flt F] {m : Nat} {f : List A → Except PyErr (List F)} (h : FiniteMemory m f)
    {old rec : List A} {out out' : List F} (h1 : f rec = .ok out) (h2 : f (old ++ rec) = .ok out') {i : Nat} (hi : m ≤ i) :
    ix out' (old.length + i) = ix out i := by
  obtain ⟨o, ho, e⟩ := h old rec out h1
  rw [h2] at ho
  rw [← Except.ok.inj ho] at e
  have := congrArg (fun s => ix s (i - m)) e
  simp only [ix_drop] at this
  rwa [show old.length + (m + (i - m)) = old.length + i by omega, show m + (i - m) = i by omega] at this

section
variable {K : Type}

/-- the bars with these four columns -/
def barsOf (n : Nat) (h l c v : Nat → K) : List (Bar (Val K)) := tab n fun i => ⟨.fin (h i), .fin (l i), .fin (c i), .fin (v i)⟩

theorem barsOf_append (k n : Nat) (h l c v : Nat → K) :
    barsOf (k + n) h l c v = barsOf k h l c v ++
      barsOf n (fun i => h (k + i)) (fun i => l (k + i)) (fun i => c (k + i)) (fun i => v (k + i)) := by
  unfold barsOf tab
  rw [List.range_add, List.map_append, List.map_map]
  rfl

theorem barsOf_cols (n : Nat) (h l c v : Nat → K) : highs (barsOf n h l c v) = ser n h ∧ lows (barsOf n h l c v) = ser n l ∧
    closes (barsOf n h l c v) = ser n c ∧ volumes (barsOf n h l c v) = ser n v := by
  simp [barsOf, ser, tab, Function.comp_def]

end

/-- the outputs with a finite memory return on all data, for reasonable parameters -/
theorem memory_ok (x : Ind (Val ℝ)) (hx : x.Sane) {m : Nat} (hm : x.memory = some m) (b : List (Bar (Val ℝ))) :
    ∃ out, x.eval false b = .ok out := by
  cases x <;> simp only [Ind.memory, reduceCtorEq] at hm <;> simp only [Ind.Sane] at hx <;> simp only [Ind.eval]
  all_goals first
    | exact ⟨_, rfl⟩
    | (rw [ulcerIndex_eq, if_neg (by omega)]; exact ⟨_, rfl⟩)
    | (unfold Aroon.new; rw [if_neg (by omega)]; exact ⟨_, rfl⟩)
    | (rw [Donchian.new_eq, if_neg (by simp)]; exact ⟨_, rfl⟩)
    | (split_ifs at hm with ho; subst ho; rw [Keltner.new_original_eq, if_neg (by simp)]; exact ⟨_, rfl⟩)

/-- C66, sharpness. Where the memory of the table is the warm-up of C41, it cannot be lowered: there are ordinary bars on
which a row changes when more history is put in front. -/
theorem memory_sharp (x : Ind (Val ℝ)) (hx : x.Sane) (ha : x.always) (hm : x.memory = some x.lookback) {m : Nat}
    (h : m < x.lookback) : ¬ FiniteMemory m (fun b => x.eval false b) := by
  intro hf
  set p := x.lookback with hp
  have pos : ∀ n, ∀ r ∈ barsOf n (fun _ => (2 : ℝ)) (fun _ => 1) (fun _ => 1) (fun _ => 1), PosBar r := by
    intro n r hr
    unfold barsOf tab at hr
    obtain ⟨i, _, rfl⟩ := List.mem_map.mp hr
    exact ⟨2, 1, 1, 1, rfl, by norm_num, by norm_num, by norm_num, by norm_num, by norm_num⟩
  obtain ⟨o1, h1⟩ := memory_ok x hx hm (barsOf p (fun _ => (2 : ℝ)) (fun _ => 1) (fun _ => 1) (fun _ => 1))
  obtain ⟨o2, h2⟩ := memory_ok x hx hm (barsOf (p + p) (fun _ => (2 : ℝ)) (fun _ => 1) (fun _ => 1) (fun _ => 1))
  obtain ⟨l1, w1, _⟩ := warmup x hx _ (pos _) h1
  obtain ⟨l2, _, w2⟩ := warmup x hx _ (pos _) h2
  have lb : ∀ n, (barsOf n (fun _ => (2 : ℝ)) (fun _ => 1) (fun _ => 1) (fun _ => 1)).length = n := fun n => by simp [barsOf]
  have e := hf.row h1 (old := barsOf p (fun _ => (2 : ℝ)) (fun _ => 1) (fun _ => 1) (fun _ => 1))
    (by rw [← barsOf_append]; exact h2) (i := p - 1) (by omega)
  rw [lb] at e w1 w2
  rw [w1 (p - 1) (by omega) (by omega)] at e
  obtain ⟨y, hy⟩ := w2 ha (p + (p - 1)) (by omega) (by omega)
  rw [hy] at e
  cases e

/-! ## outputs that never forget -/

/-- C66, the converse for recursive outputs: no number of earlier rows suffices for the EMA (spans from 2 on), the running
totals and the cumulative return. -/
theorem no_finite_memory (m : Nat) :
    (∀ w, 2 ≤ w → ¬ FiniteMemory m (fun b => (Ind.ema w : Ind (Val ℝ)).eval false b)) ∧
    ¬ FiniteMemory m (fun b => (Ind.obv : Ind (Val ℝ)).eval false b) ∧
    ¬ FiniteMemory m (fun b => (Ind.adi : Ind (Val ℝ)).eval false b) ∧
    ¬ FiniteMemory m (fun b => (Ind.cr : Ind (Val ℝ)).eval false b) := by
  refine ⟨fun w hw hf => ?_, fun hf => ?_, fun hf => ?_, fun hf => ?_⟩
  · let c : Nat → ℝ := fun i => if i = 0 then 1 else 0
    obtain ⟨o1, h1, d1⟩ := ema_closed_form (m + w) (fun i => c (1 + i)) w (by omega) false
    obtain ⟨o2, h2, d2⟩ := ema_closed_form (1 + (m + w)) c w (by omega) false
    have e := hf.row (old := barsOf 1 c c c c) (rec := barsOf (m + w) (fun i => c (1 + i)) (fun i => c (1 + i)) (fun i => c (1 + i)) (fun i => c (1 + i)))
      (by simp only [Ind.eval, (barsOf_cols _ _ _ _ _).2.2.1]; exact h1)
      (by simp only [← barsOf_append, Ind.eval, (barsOf_cols _ _ _ _ _).2.2.1]; exact h2) (i := m + w - 1) (by omega)
    rw [show (barsOf 1 c c c c).length = 1 by simp [barsOf], d1.val _ (by omega) (by simp; omega),
      d2.val _ (by omega) (by simp; omega)] at e
    have e := Val.fin.inj e
    rw [Finset.sum_eq_zero (fun j hj => by
        have : j ≠ 0 := by have := Finset.mem_Ico.mp hj; omega
        simp [c, this]), Finset.sum_eq_zero (fun j hj => by simp [c])] at e
    simp only [c, if_true, mul_one, add_zero, Nat.add_eq_zero_iff, one_ne_zero, false_and, if_false, mul_zero] at e
    have hw' : (2 : ℝ) ≤ w := by exact_mod_cast hw
    have : (0 : ℝ) < 1 - 2 / ((w : ℝ) + 1) := by
      rw [sub_pos, div_lt_one (by linarith)]; linarith
    exact absurd e (pow_pos this _).ne'
  · have d1 := obv_formula (m + 1) (fun _ => (1 : ℝ)) (fun _ => 1) false
    have d2 := obv_formula (1 + (m + 1)) (fun _ => (1 : ℝ)) (fun _ => 1) false
    have e := hf.row (old := barsOf 1 (fun _ => (1 : ℝ)) (fun _ => 1) (fun _ => 1) (fun _ => 1))
      (rec := barsOf (m + 1) (fun _ => (1 : ℝ)) (fun _ => 1) (fun _ => 1) (fun _ => 1)) rfl rfl (i := m) le_rfl
    rw [← barsOf_append] at e
    simp only [(barsOf_cols _ _ _ _ _).2.2.1, (barsOf_cols _ _ _ _ _).2.2.2] at e
    rw [show (barsOf 1 (fun _ => (1 : ℝ)) (fun _ => 1) (fun _ => 1) (fun _ => 1)).length = 1 by simp [barsOf],
      d1.val _ (by omega) (by omega), d2.val _ (by omega) (by omega)] at e
    have e := Val.fin.inj e
    simp at e
  · have d1 := adi_formula (m + 1) (fun _ => (2 : ℝ)) (fun _ => 1) (fun _ => 2) (fun _ => 1) (by norm_num) (by norm_num) false
    have d2 := adi_formula (1 + (m + 1)) (fun _ => (2 : ℝ)) (fun _ => 1) (fun _ => 2) (fun _ => 1) (by norm_num) (by norm_num) false
    have e := hf.row (old := barsOf 1 (fun _ => (2 : ℝ)) (fun _ => 1) (fun _ => 2) (fun _ => 1))
      (rec := barsOf (m + 1) (fun _ => (2 : ℝ)) (fun _ => 1) (fun _ => 2) (fun _ => 1)) rfl rfl (i := m) le_rfl
    rw [← barsOf_append] at e
    simp only [(barsOf_cols _ _ _ _ _).1, (barsOf_cols _ _ _ _ _).2.1, (barsOf_cols _ _ _ _ _).2.2.1, (barsOf_cols _ _ _ _ _).2.2.2] at e
    rw [show (barsOf 1 (fun _ => (2 : ℝ)) (fun _ => 1) (fun _ => 2) (fun _ => 1)).length = 1 by simp [barsOf],
      d1.val _ (by omega) (by omega), d2.val _ (by omega) (by omega)] at e
    have e := Val.fin.inj e
    norm_num at e
  · let c : Nat → ℝ := fun i => if i = 0 then 2 else 1
    have hc : ∀ i, 0 < c i := fun i => by simp only [c]; split_ifs <;> norm_num
    obtain ⟨_, C1, o1, _, _, c1, _, h1, d1, _⟩ := returns_compound (n := m + 1) (by omega) (fun i => hc (1 + i)) false
    obtain ⟨_, C2, o2, _, _, c2, _, h2, d2, _⟩ := returns_compound (n := 1 + (m + 1)) (by omega) hc false
    have e := hf.row (old := barsOf 1 c c c c) (rec := barsOf (m + 1) (fun i => c (1 + i)) (fun i => c (1 + i)) (fun i => c (1 + i)) (fun i => c (1 + i)))
      (by simp only [Ind.eval, (barsOf_cols _ _ _ _ _).2.2.1]; exact h1)
      (by simp only [← barsOf_append, Ind.eval, (barsOf_cols _ _ _ _ _).2.2.1]; exact h2) (i := m) le_rfl
    rw [show (barsOf 1 c c c c).length = 1 by simp [barsOf], d1.val _ (by omega) (by omega),
      d2.val _ (by omega) (by omega)] at e
    have e := Val.fin.inj e
    rw [c1, c2] at e
    norm_num [c] at e

section examples
attribute [local instance] toyFn

/-- a history of three bars in front of the data changes nothing from row 2 on (but row 1 does change) -/
example :
    let old := [qbar 9 8 8 1, qbar 7 5 6 9, qbar 30 25 26 2]
    let recent := [qbar 12 10 11 5, qbar 14 11 13 7, qbar 13 9 10 4, qbar 15 12 14 6]
    (Ind.stochSignal 2 2).memory (F := Val ℚ) = some 2 ∧
    ((Ind.stochSignal 2 2).eval false recent).map (·.drop 2) = .ok (qs [95/2, 155/3]) ∧
    ((Ind.stochSignal 2 2).eval false (old ++ recent)).map (·.drop 5) = .ok (qs [95/2, 155/3]) ∧
    ((Ind.stochSignal 2 2).eval false recent).map (fun s => Flt.isNaN (ix s 1)) = .ok true ∧
    ((Ind.stochSignal 2 2).eval false (old ++ recent)).map (fun s => Flt.isNaN (ix s 4)) = .ok false := by decide +kernel

end examples
end TA
