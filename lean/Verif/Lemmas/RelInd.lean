import Verif.Lemmas.Rel
import Verif.Model.Catalogue
import Verif.Lemmas.Psar

/-! # Affine changes of the prices through the indicators -/

set_option linter.unusedSectionVars false

namespace TA
variable {K : Type} [Field K] [LinearOrder K] [IsStrictOrderedRing K]

/-- the same exception, or related results -/
inductive ERel {α β : Type} (R : α → β → Prop) : Except PyErr α → Except PyErr β → Prop
  | error (e : PyErr) : ERel R (.error e) (.error e)
  | ok {a b} (h : R a b) : ERel R (.ok a) (.ok b)

theorem ERel.map {α β γ δ : Type} {R : α → β → Prop} {Q : γ → δ → Prop} {f : α → γ} {g : β → δ}
    {x : Except PyErr α} {y : Except PyErr β} (h : ERel R x y) (hf : ∀ a b, R a b → Q (f a) (g b)) :
    ERel Q (x.map f) (y.map g) := by
  cases h with
  | error e => exact .error e
  | ok h => exact .ok (hf _ _ h)

theorem ERel.bind {α β γ δ : Type} {R : α → β → Prop} {Q : γ → δ → Prop} {f : α → Except PyErr γ} {g : β → Except PyErr δ}
    {x : Except PyErr α} {y : Except PyErr β} (h : ERel R x y) (hf : ∀ a b, R a b → ERel Q (f a) (g b)) :
    ERel Q (x >>= f) (y >>= g) := by
  cases h with
  | error e => exact .error e
  | ok h => exact hf _ _ h

/-- a check that does not read the data -/
theorem ERel.guard {γ δ : Type} {Q : γ → δ → Prop} {w : Nat} {x : Except PyErr γ} {y : Except PyErr δ}
    (h : 1 ≤ w → ERel Q x y) : ERel Q (chkSpan w >>= fun _ => x) (chkSpan w >>= fun _ => y) := by
  unfold chkSpan
  split_ifs with h1
  · exact .error _
  · exact h (by omega)

theorem ERel.guardRoll {γ δ : Type} {Q : γ → δ → Prop} {w m : Nat} {x : Except PyErr γ} {y : Except PyErr δ}
    (h : ERel Q x y) : ERel Q (chkRoll w m >>= fun _ => x) (chkRoll w m >>= fun _ => y) := by
  unfold chkRoll
  split_ifs with h1
  · exact .error _
  · exact h

/-- unchanged series stay unchanged under any function of them -/
theorem SRel.map1 {s s' : Series (Val K)} (h : SA 1 0 s s') (f : Series (Val K) → Series (Val K)) :
    SA 1 0 (f s) (f s') := by rw [h.eq]; exact SRel.refl _

variable {k c : K} {h h' l l' s s' v v' : Series (Val K)}

section
variable (hk : 0 < k) (hs : SA k c s s')
include hk hs

/-! ## momentum -/

theorem rel_up : SA k 0 (RSI.up s) (RSI.up s') :=
  hs.sdiff.map fun a a' ha => by
    have h0 : VA k 0 (lit 0) (lit 0) := by rw [lit_fin, Rat.cast_zero]; exact VA.lit0 k
    rw [h0.lt hk ha]
    split_ifs
    · exact ha
    · exact h0

theorem rel_down : SA k 0 (RSI.down s) (RSI.down s') :=
  hs.sdiff.map fun a a' ha => by
    have h0 : VA k 0 (lit 0) (lit 0) := by rw [lit_fin, Rat.cast_zero]; exact VA.lit0 k
    rw [ha.lt hk h0]
    split_ifs
    · exact ha.neg
    · exact h0.neg

theorem rel_rsi (w : Nat) (b : Bool) : ERel (SA 1 0) (rsi s w b) (rsi s' w b) := by
  unfold rsi
  split_ifs with hw
  · exact .error _
  · refine .ok (SRel.fill1 ?_ _ b)
    unfold RSI.run
    have hw1 : 1 ≤ w := by omega
    rw [rsiAlpha_fin w hw1]
    have hu := ewm_rel (convex_Aff k 0) (wilder_pos w hw1) (wilder_le w hw1) (minp b w) (rel_up hk hs)
    have hd := ewm_rel (convex_Aff k 0) (wilder_pos w hw1) (wilder_le w hw1) (minp b w) (rel_down hk hs)
    refine hu.zip2 hd fun u u' d d' h1 h2 => ?_
    have h0 : VA k 0 (lit 0) (lit 0) := by rw [lit_fin, Rat.cast_zero]; exact VA.lit0 k
    have e := VA.eq ((VA.div hk hk h1 h2).cast (div_self hk.ne') rfl)
    rw [VA.eqv hk h2 h0, e]
    exact VA.refl _

theorem rel_tsi (slow fast : Nat) (b : Bool) : ERel (SA 1 0) (tsi s slow fast b) (tsi s' slow fast b) := by
  refine ERel.guard fun h1 => ERel.guard fun h2 => .ok (SRel.fill1 ?_ _ b)
  have hd := hs.ssub0 (hs.shiftNan 1)
  exact SRel.mulc one_pos _ (SRel.sdiv1 hk ((hd.ema slow h1 b).ema fast h2 b)
    ((hd.sabs hk |>.ema slow h1 b).ema fast h2 b))

theorem rel_kama (w p1 p2 : Nat) (b : Bool) : SA k c (kama s w p1 p2 b) (kama s' w p1 p2 b) := by
  refine SRel.fill ?_ b fun _ => .ser hs
  have h0 : VA k 0 (lit 0) (lit 0) := by rw [lit_fin, Rat.cast_zero]; exact VA.lit0 k
  have her : SA 1 0 (KAMA.er s w b) (KAMA.er s' w b) := by
    unfold KAMA.er
    refine SRel.zip2 ((hs.ssub0 (hs.npRoll w)).sabs hk)
      (((hs.ssub0 (hs.npRoll 1)).sabs hk).rollSum w (minp b w)) fun x x' y y' h1 h2 => ?_
    rw [h2.ne hk h0]
    split_ifs
    · exact (h1.div hk hk h2).cast (div_self hk.ne') rfl
    · exact VA.refl _
  have hsc : KAMA.sc s' w p1 p2 b = KAMA.sc s w p1 p2 b := by unfold KAMA.sc; rw [her.eq]
  unfold KAMA.run
  rw [hsc]
  refine SRel.tab hs.len fun i _ => ?_
  have main : ∀ m, VA k c (iter (KAMA.step (KAMA.sc s w p1 p2 b) s) (nan, true) m).1
      (iter (KAMA.step (KAMA.sc s w p1 p2 b) s') (nan, true) m).1 ∧
      (iter (KAMA.step (KAMA.sc s w p1 p2 b) s') (nan, true) m).2
        = (iter (KAMA.step (KAMA.sc s w p1 p2 b) s) (nan, true) m).2 := by
    intro m
    induction m with
    | zero => exact ⟨.nan, rfl⟩
    | succ m ih =>
      obtain ⟨ih1, ih2⟩ := ih
      simp only [iter]
      generalize iter (KAMA.step (KAMA.sc s w p1 p2 b) s) (nan, true) m = x at *
      generalize iter (KAMA.step (KAMA.sc s w p1 p2 b) s') (nan, true) m = y at *
      unfold KAMA.step
      rw [ih2]
      split_ifs
      · exact ⟨.nan, rfl⟩
      · exact ⟨hs.ix m, rfl⟩
      · refine ⟨?_, rfl⟩
        refine (ih1.add (((VA.sub (hs.ix m) ih1).cast rfl (sub_self c)).cmul hk _)).cast rfl (add_zero c)
  exact (main (i + 1)).1

theorem rel_stochRSI (w s1 s2 : Nat) (b : Bool) :
    ERel (fun o o' => o' = o) (StochRSI.new s w s1 s2 b) (StochRSI.new s' w s1 s2 b) := by
  refine (rel_rsi hk hs w b).bind fun r r' hr => ?_
  rw [hr.eq]
  exact .ok rfl

/-! ## trend -/

theorem rel_macd (slow fast sign : Nat) (b : Bool) :
    ERel (fun o o' => SA k 0 o.macd o'.macd ∧ SA k 0 o.macdSignal o'.macdSignal ∧ SA k 0 o.macdDiff o'.macdDiff)
      (MACD.new s slow fast sign b) (MACD.new s' slow fast sign b) := by
  refine ERel.guard fun h1 => ERel.guard fun h2 => ERel.guard fun h3 => .ok ?_
  have hl := (hs.ema fast h1 b).ssub0 (hs.ema slow h2 b)
  have hg := hl.ema sign h3 b
  exact ⟨hl.fill0 b, hg.fill0 b, (hl.ssub0 hg).fill0 b⟩

theorem rel_emaIndicator (w : Nat) (b : Bool) : ERel (SA k c) (emaIndicator s w b) (emaIndicator s' w b) :=
  ERel.guard fun h1 => .ok (hs.ema w h1 b)

theorem rel_sma (w : Nat) (b : Bool) : SA k c (smaIndicator s w b) (smaIndicator s' w b) := hs.rollMean _ _

theorem rel_dpo (w : Nat) (b : Bool) : SA k 0 (dpo s w b) (dpo s' w b) :=
  ((hs.shift _ hs.smean).ssub0 (hs.rollMean _ _)).fill0 b

theorem rel_stochOf (cy : Nat) : SA 1 0 (STC.stochOf s cy) (STC.stochOf s' cy) :=
  SRel.sdiv1 hk ((hs.ssub0 (hs.rollMin hk _ _)).cmul hk _) ((hs.rollMax hk _ _).ssub0 (hs.rollMin hk _ _))

theorem rel_stc (slow fast cy s1 s2 : Nat) (b : Bool) :
    ERel (SA 1 0) (stc s slow fast cy s1 s2 b) (stc s' slow fast cy s1 s2 b) := by
  refine ERel.guard fun h1 => ERel.guard fun h2 => ERel.guard fun h3 => ERel.guard fun h4 => .ok (SRel.fill1 ?_ _ b)
  have hm := (hs.ema fast h1 b).ssub0 (hs.ema slow h2 b)
  exact SRel.ema s2 h4 b (rel_stochOf one_pos (SRel.ema s1 h3 b (rel_stochOf hk hm cy)) cy)

end

section
variable (hk : 0 < k) (hs : SA k 0 s s')
include hk hs

theorem rel_roc (w : Nat) (b : Bool) : SA 1 0 (roc s w b) (roc s' w b) :=
  SRel.fill1 (SRel.mulc one_pos _ (SRel.sdiv1 hk (hs.ssub0 (hs.shiftNan w)) (hs.shiftNan w))) _ b

theorem rel_ppo (slow fast sign : Nat) (b : Bool) :
    ERel (fun o o' => o' = o) (PPO.new s slow fast sign b) (PPO.new s' slow fast sign b) := by
  refine ERel.guard fun h1 => ERel.guard fun h2 => ERel.guard fun h3 => .ok ?_
  have hl := SRel.mulc one_pos (lit 100)
    (SRel.sdiv1 hk ((hs.ema fast h1 b).ssub0 (hs.ema slow h2 b)) (hs.ema slow h2 b))
  unfold PPO.run
  simp only [hl.eq]

theorem rel_trix (w : Nat) (b : Bool) : ERel (SA 1 0) (trix s w b) (trix s' w b) := by
  refine ERel.guard fun h1 => .ok (SRel.fill1 ?_ _ b)
  have he := ((hs.ema w h1 b).ema w h1 b).ema w h1 b
  have hp := he.shift 1 he.smean
  exact SRel.mulc one_pos _ (SRel.sdiv1 hk (he.ssub0 hp) hp)

theorem rel_rocma (r w : Nat) (b : Bool) : SA 1 0 (KST.rocma s r w b) (KST.rocma s' r w b) := by
  have hp := hs.shift r hs.smean
  exact SRel.rollMean _ _ (SRel.sdiv1 hk (hs.ssub0 hp) hp)

theorem rel_kst_run (r1 r2 r3 r4 w1 w2 w3 w4 : Nat) (b : Bool) :
    KST.run s' r1 r2 r3 r4 w1 w2 w3 w4 b = KST.run s r1 r2 r3 r4 w1 w2 w3 w4 b := by
  unfold KST.run
  rw [(rel_rocma hk hs r1 w1 b).eq, (rel_rocma hk hs r2 w2 b).eq, (rel_rocma hk hs r3 w3 b).eq,
    (rel_rocma hk hs r4 w4 b).eq]

theorem rel_drawdown (w : Nat) : SA 1 0 (Ulcer.drawdown s w) (Ulcer.drawdown s' w) := by
  have hm := hs.rollMax hk w 1
  exact SRel.sdiv1 hk ((hs.ssub0 hm).cmul hk _) hm

theorem rel_vpt (sm : Option Nat) (d : Bool) (v : Series (Val K)) (b : Bool) :
    volumePriceTrend s' v b sm d = volumePriceTrend s v b sm d := by
  unfold volumePriceTrend VPT.run
  rw [(hs.pctChange hk).eq]

theorem rel_nvi (v : Series (Val K)) (b : Bool) : negativeVolumeIndex s' v b = negativeVolumeIndex s v b := by
  unfold negativeVolumeIndex NVI.run
  have : NVI.step s' v = NVI.step s v := by
    funext i p
    unfold NVI.step
    rw [(hs.pctChange hk).eq]
  rw [this, hs.len]

theorem rel_dr (b : Bool) : SA 1 0 (dailyReturn s b) (dailyReturn s' b) := by
  unfold dailyReturn DR.run
  rw [(SRel.sdiv1 hk hs (hs.shiftNan 1)).eq]
  exact SRel.refl _

theorem rel_cr (b : Bool) : cumulativeReturn s' b = cumulativeReturn s b := by
  unfold cumulativeReturn CR.run
  have : divc s' (ix s' 0) = divc s (ix s 0) :=
    SRel.eq (hs.map fun a a' ha => (ha.div hk hk (hs.ix 0)).cast (div_self hk.ne') rfl)
  rw [this, hs.len]

theorem rel_wma0 (w : Nat) (b : Bool) : SA k 0 (wma s w b) (wma s' w b) := by
  refine SRel.fill0 (hs.rollApply _ _ fun l l' hl => ?_) b
  unfold WMA.avg
  rw [← hl.length_eq]
  refine VA.cast (LA.sumL (c := 0) (SRel.toLA (SRel.tab rfl fun j _ => ?_))) rfl (mul_zero _)
  exact VA.cmul hk _ (hl.toSRel.ix j)
end

/-! ## two price columns -/

section
variable (hk : 0 < k) (hh : SA k c h h') (hl : SA k c l l')
include hk hh hl

theorem rel_ao (w1 w2 : Nat) (b : Bool) : SA k 0 (awesomeOscillator h l w1 w2 b) (awesomeOscillator h' l' w1 w2 b) := by
  have hm : SA k _ (cmul (lit (1/2)) (sadd h l)) (cmul (lit (1/2)) (sadd h' l')) :=
    SRel.cmulPos (d := ((1/2 : ℚ) : K)) (by norm_num) (hh.sadd hl)
  exact ((hm.rollMean _ _).ssub0 (hm.rollMean _ _)).fill0 b

theorem rel_aroon (w : Nat) (b : Bool) :
    ERel (fun o o' => o' = o) (Aroon.new h l w b) (Aroon.new h' l' w b) := by
  unfold Aroon.new
  rw [hh.replaceInf.toLA.valid.length_eq, hl.replaceInf.toLA.valid.length_eq]
  split_ifs
  · exact .error _
  · refine .ok ?_
    unfold Aroon.run
    have e1 : SA 1 0 (rollApply (fun x => natF (argmax x) /. natF w *. lit 100) (w + 1) (if b then 1 else w + 1) h)
        (rollApply (fun x => natF (argmax x) /. natF w *. lit 100) (w + 1) (if b then 1 else w + 1) h') :=
      hh.rollApply _ _ fun x x' hx => by rw [hx.argmax hk]; exact VA.refl _
    have e2 : SA 1 0 (rollApply (fun x => natF (argmin x) /. natF w *. lit 100) (w + 1) (if b then 1 else w + 1) l)
        (rollApply (fun x => natF (argmin x) /. natF w *. lit 100) (w + 1) (if b then 1 else w + 1) l') :=
      hl.rollApply _ _ fun x x' hx => by rw [hx.argmin hk]; exact VA.refl _
    simp only [e1.eq, e2.eq]

theorem rel_mass (fast slow : Nat) (b : Bool) : ERel (SA 1 0) (massIndex h l fast slow b) (massIndex h' l' fast slow b) := by
  refine ERel.guard fun h1 => .ok (SRel.fill1 ?_ _ b)
  have e1 := (hh.ssub0 hl).ema fast h1 b
  exact SRel.rollSum _ _ (SRel.sdiv1 hk e1 (e1.ema fast h1 b))

theorem rel_mid (w mp : Nat) : SA k c (Ichimoku.mid h l w mp) (Ichimoku.mid h' l' w mp) := by
  have := SRel.cmulPos (d := ((1/2 : ℚ) : K)) (by norm_num) ((hh.rollMax hk w mp).sadd (hl.rollMin hk w mp))
  refine SRel.cast this rfl ?_
  push_cast; ring

theorem rel_ichimokuConv (w : Nat) (b : Bool) :
    SA k c (ichimokuConversionLine h l w b) (ichimokuConversionLine h' l' w b) := (rel_mid hk hh hl _ _).fillBack b

theorem rel_ichimokuBase (w : Nat) (b : Bool) :
    SA k c (ichimokuBaseLine h l w b) (ichimokuBaseLine h' l' w b) := (rel_mid hk hh hl _ _).fillBack b

theorem rel_vis {x x' : Series (Val K)} (hx : SA k c x x') (vis : Bool) (w : Nat) :
    SA k c (Ichimoku.vis vis w x) (Ichimoku.vis vis w x') := by
  unfold Ichimoku.vis
  split_ifs
  · exact hx.shift _ hx.smean
  · exact hx

theorem rel_ichimokuA (w1 w2 : Nat) (vis b : Bool) : SA k c (ichimokuA h l w1 w2 vis b) (ichimokuA h' l' w1 w2 vis b) := by
  refine SRel.fillBack (rel_vis hk hh hl ?_ vis w2) b
  have := SRel.cmulPos (d := ((1/2 : ℚ) : K)) (by norm_num)
    ((rel_mid hk hh hl w1 (minp b w1)).sadd (rel_mid hk hh hl w2 (minp b w2)))
  refine SRel.cast this rfl ?_
  push_cast; ring

theorem rel_ichimokuB (w2 w3 : Nat) (vis b : Bool) : SA k c (ichimokuB h l w2 w3 vis b) (ichimokuB h' l' w2 w3 vis b) :=
  SRel.fillBack (rel_vis hk hh hl (rel_mid hk hh hl _ _) vis w2) b

theorem rel_dm {a a' d d' : Series (Val K)} (ha : SA k 0 a a') (hd : SA k 0 d d') : SA k 0 (ADX.dm a d) (ADX.dm a' d') :=
  ha.zip2 hd fun x x' y y' hx hy => by
    have h0 : VA k 0 (lit 0) (lit 0) := by rw [lit_fin, Rat.cast_zero]; exact VA.lit0 k
    rw [hy.lt hk hx, h0.lt hk hx]
    exact VA.abs hk (VA.cmul hk _ hx)

theorem rel_eom (v : Series (Val K)) : SA (k * k) 0 (EOM.run h l v) (EOM.run h' l' v) := by
  have hkk : 0 < k * k := mul_pos hk hk
  refine SRel.mulc hkk _ (SRel.cast (SRel.sdiv hkk one_pos (SRel.smul hk hk ?_ (hh.ssub0 hl)) (SRel.refl _)) (div_one _) rfl)
  exact SRel.cast (hh.sdiff.sadd hl.sdiff) rfl (add_zero 0)
end

/-! ## three price columns -/

theorem rel_wilderAt (hk : 0 < k) {x x' : Series (Val K)} (hx : SA k 0 x x') (w : Nat) (hw : 1 ≤ w) (i : Nat) :
    VA k 0 (ADX.wilderAt x w i) (ADX.wilderAt x' w i) := by
  have hw' : (0 : K) < w := by exact_mod_cast hw
  induction i with
  | zero => exact VA.cast ((hx.toLA.valid.take w).sumL) rfl (mul_zero _)
  | succ i ih =>
    unfold ADX.wilderAt
    rw [natF_fin]
    refine VA.cast (VA.add (VA.sub ih (ih.divFin hw')) (hx.ix _)) rfl ?_
    simp

theorem rel_wilder (hk : 0 < k) {x x' : Series (Val K)} (hx : SA k 0 x x') (w : Nat) (hw : 1 ≤ w) :
    SA k 0 (ADX.wilder x w) (ADX.wilder x' w) := by
  unfold ADX.wilder
  rw [← hx.len]
  refine SRel.tab rfl fun i _ => ?_
  split_ifs
  · exact rel_wilderAt hk hx w hw 0
  · exact rel_wilderAt hk hx w hw i
  · rw [lit_fin, Rat.cast_zero]; exact VA.lit0 k

theorem rel_di (hk : 0 < k) {t t' d d' : Val K} (ht : VA k 0 t t') (hd : VA k 0 d d') : ADX.di t' d' = ADX.di t d := by
  unfold ADX.di
  have h0 : VA k 0 (lit 0) (lit 0) := by rw [lit_fin, Rat.cast_zero]; exact VA.lit0 k
  rw [ht.ne hk h0, VA.eq ((hd.div hk hk ht).cast (div_self hk.ne') rfl)]

/-- the parts of an ADX object that its methods show -/
def ADX.shown (o : ADX (Val K)) : Except PyErr (Series (Val K)) × Series (Val K) × Series (Val K) :=
  (o.adx, o.adxPos, o.adxNeg)

section
variable (hk : 0 < k) (hh : SA k c h h') (hl : SA k c l l') (hs : SA k c s s')
include hk hh hl hs

theorem rel_uo (w1 w2 w3 : Nat) (a1 a2 a3 : Val K) (b : Bool) :
    ultimateOscillator h' l' s' w1 w2 w3 a1 a2 a3 b = ultimateOscillator h l s w1 w2 w3 a1 a2 a3 b := by
  have htr := SRel.trueRange hk hh hl (hs.shiftNan 1)
  have hbp : SA k 0 (UO.buyingPressure l s) (UO.buyingPressure l' s') :=
    hs.ssub0 (hl.zip2 (hs.shiftNan 1) fun _ _ _ _ => VA.npMin2 hk)
  have ha : ∀ w, UO.avg (UO.buyingPressure l' s') (trueRange h' l' (shift s' 1)) w b
      = UO.avg (UO.buyingPressure l s) (trueRange h l (shift s 1)) w b := fun w =>
    SRel.eq (SRel.sdiv1 hk (hbp.rollSum _ _) (htr.rollSum _ _))
  unfold ultimateOscillator UO.run
  simp only [ha]

theorem rel_stochK (w : Nat) (b : Bool) : SA 1 0 (Stoch.k h l s w b) (Stoch.k h' l' s' w b) := by
  have h1 := hl.rollMin hk w (minp b w)
  have h2 := hh.rollMax hk w (minp b w)
  exact SRel.sdiv1 hk ((hs.ssub0 h1).cmul hk _) (h2.ssub0 h1)

theorem rel_wr (w : Nat) (b : Bool) : SA 1 0 (williamsR h l s w b) (williamsR h' l' s' w b) := by
  have h1 := hl.rollMin hk w (minp b w)
  have h2 := hh.rollMax hk w (minp b w)
  exact SRel.fill1 (SRel.sdiv1 hk ((h2.ssub0 hs).cmul hk _) (h2.ssub0 h1)) _ b

theorem rel_cci (w : Nat) (d : Val K) (b : Bool) : SA 1 0 (cci h l s w d b) (cci h' l' s' w d b) := by
  have ht := hh.typicalPrice hl hs
  refine SRel.fill1 (SRel.sdiv1 hk (ht.ssub0 (ht.rollMean _ _)) (SRel.cmul hk _ (ht.rollApply _ _ fun x x' hx => ?_))) _ b
  unfold CCI.mad
  refine LA.npMean (hx.map fun a a' ha => ?_)
  exact ((ha.sub hx.npMean).cast rfl (sub_self c)).abs hk

theorem rel_adx (w : Nat) (b : Bool) :
    ERel (fun o o' => o'.adx = o.adx ∧ o'.adxPos = o.adxPos ∧ o'.adxNeg = o.adxNeg) (ADX.new h l s w b)
      (ADX.new h' l' s' w b) := by
  unfold ADX.new
  rw [← hs.len]
  split_ifs with h1 h2 h3
  · exact .error _
  · exact .error _
  · exact .error _
  · refine .ok ?_
    have hw : 1 ≤ w := by omega
    have hr : SA k 0 (ADX.range h l s) (ADX.range h' l' s') :=
      SRel.ssub0 (hh.zip2 (hs.shiftNan 1) fun _ _ _ _ => VA.npMax2 hk)
        (hl.zip2 (hs.shiftNan 1) fun _ _ _ _ => VA.npMin2 hk)
    have hup := hh.ssub0 (hh.shiftNan 1)
    have hdn := (hl.shiftNan 1).ssub0 hl
    have t := rel_wilder hk hr w hw
    have p := rel_wilder hk (rel_dm hk hh hl hup hdn) w hw
    have m := rel_wilder hk (rel_dm hk hh hl hdn hup) w hw
    have hdx : ADX.dx (ADX.run h' l' s' w b) = ADX.dx (ADX.run h l s w b) := by
      unfold ADX.dx
      refine tab_congr t.len.symm fun i _ => ?_
      have e1 := rel_di hk (t.ix i) (p.ix i)
      have e2 := rel_di hk (t.ix i) (m.ix i)
      have f1 : ADX.di (ix (ADX.run h' l' s' w b).trs i) (ix (ADX.run h' l' s' w b).dip i)
          = ADX.di (ix (ADX.run h l s w b).trs i) (ix (ADX.run h l s w b).dip i) := e1
      have f2 : ADX.di (ix (ADX.run h' l' s' w b).trs i) (ix (ADX.run h' l' s' w b).din i)
          = ADX.di (ix (ADX.run h l s w b).trs i) (ix (ADX.run h l s w b).din i) := e2
      simp only [f1, f2]
    refine ⟨?_, ?_, ?_⟩
    · unfold ADX.adx
      rw [hdx]
      have e : (ADX.run h' l' s' w b).trs.length = (ADX.run h l s w b).trs.length := t.len.symm
      rw [e]
      rfl
    · unfold ADX.adxPos
      have e : ADX.place (ADX.run h' l' s' w b).n (ADX.run h' l' s' w b).window (ADX.run h' l' s' w b).trs
          (ADX.run h' l' s' w b).dip = ADX.place (ADX.run h l s w b).n (ADX.run h l s w b).window (ADX.run h l s w b).trs
          (ADX.run h l s w b).dip := by
        unfold ADX.place
        refine tab_congr hs.len.symm fun i _ => ?_
        have e1 := rel_di hk (t.ix (i - w)) (p.ix (i - w))
        have f1 : ADX.di (ix (ADX.run h' l' s' w b).trs (i - (ADX.run h' l' s' w b).window))
              (ix (ADX.run h' l' s' w b).dip (i - (ADX.run h' l' s' w b).window))
            = ADX.di (ix (ADX.run h l s w b).trs (i - (ADX.run h l s w b).window))
              (ix (ADX.run h l s w b).dip (i - (ADX.run h l s w b).window)) := e1
        have f2 : (ADX.run h' l' s' w b).trs.length = (ADX.run h l s w b).trs.length := t.len.symm
        have f3 : (ADX.run h' l' s' w b).window = (ADX.run h l s w b).window := rfl
        rw [f1, f2, f3]
      rw [e]; rfl
    · unfold ADX.adxNeg
      have e : ADX.place (ADX.run h' l' s' w b).n (ADX.run h' l' s' w b).window (ADX.run h' l' s' w b).trs
          (ADX.run h' l' s' w b).din = ADX.place (ADX.run h l s w b).n (ADX.run h l s w b).window (ADX.run h l s w b).trs
          (ADX.run h l s w b).din := by
        unfold ADX.place
        refine tab_congr hs.len.symm fun i _ => ?_
        have e1 := rel_di hk (t.ix (i - w)) (m.ix (i - w))
        have f1 : ADX.di (ix (ADX.run h' l' s' w b).trs (i - (ADX.run h' l' s' w b).window))
              (ix (ADX.run h' l' s' w b).din (i - (ADX.run h' l' s' w b).window))
            = ADX.di (ix (ADX.run h l s w b).trs (i - (ADX.run h l s w b).window))
              (ix (ADX.run h l s w b).din (i - (ADX.run h l s w b).window)) := e1
        have f2 : (ADX.run h' l' s' w b).trs.length = (ADX.run h l s w b).trs.length := t.len.symm
        have f3 : (ADX.run h' l' s' w b).window = (ADX.run h l s w b).window := rfl
        rw [f1, f2, f3]
      rw [e]; rfl

theorem rel_trn (w : Nat) (b : Bool) : SA k 0 (Vortex.trn h l s w b) (Vortex.trn h' l' s' w b) :=
  (SRel.trueRange hk hh hl (hs.shift 1 hs.smean)).rollSum _ _

theorem rel_vip (w : Nat) (b : Bool) : SA 1 0 (Vortex.vip h l s w b) (Vortex.vip h' l' s' w b) :=
  SRel.sdiv1 hk (((hh.ssub0 (hl.shiftNan 1)).sabs hk).rollSum _ _) (rel_trn hk hh hl hs w b)

theorem rel_vin (w : Nat) (b : Bool) : SA 1 0 (Vortex.vin h l s w b) (Vortex.vin h' l' s' w b) :=
  SRel.sdiv1 hk (((hl.ssub0 (hh.shiftNan 1)).sabs hk).rollSum _ _) (rel_trn hk hh hl hs w b)

theorem rel_atr (w : Nat) (b : Bool) : ERel (SA k 0) (averageTrueRange h l s w b) (averageTrueRange h' l' s' w b) := by
  unfold averageTrueRange
  rw [← hs.len]
  split_ifs with h1
  · exact .error _
  · refine .ok (SRel.fill0 ?_ b)
    have htr := SRel.trueRange hk hh hl (hs.shiftNan 1)
    unfold ATR.run
    split_ifs with hw
    · rw [← hs.len]
      exact ⟨rfl, fun i hi => by rw [ix_replicate (by simpa using hi)]; exact .nan⟩
    · refine SRel.tab hs.len fun i _ => ?_
      have h0 : VA k 0 (lit 0) (lit 0) := by rw [lit_fin, Rat.cast_zero]; exact VA.lit0 k
      have hw' : (0 : K) < w := by exact_mod_cast (show 0 < w by omega)
      have main : ∀ m, VA k 0 (iter (ATR.step (trueRange h l (shift s 1)) w) (lit 0) m)
          (iter (ATR.step (trueRange h' l' (shift s' 1)) w) (lit 0) m) := by
        intro m
        induction m with
        | zero => exact h0
        | succ m ih =>
          simp only [iter]
          generalize iter (ATR.step (trueRange h l (shift s 1)) w) (lit 0) m = x at *
          generalize iter (ATR.step (trueRange h' l' (shift s' 1)) w) (lit 0) m = y at *
          unfold ATR.step
          split_ifs
          · exact h0
          · exact (htr.toLA.take w).toSRel.smean
          · rw [natF_fin w]
            refine VA.cast (VA.divFin hw' ((ih.mulc hk _).add (htr.ix m))) rfl ?_
            simp
      exact main (i + 1)

theorem rel_adi (v : Series (Val K)) (b : Bool) : accDistIndex h' l' s' v b = accDistIndex h l s v b := by
  unfold accDistIndex ADI.run
  rw [(hh.clv hk hl hs).eq]

theorem rel_cmf (v : Series (Val K)) (w : Nat) (b : Bool) :
    chaikinMoneyFlow h' l' s' v w b = chaikinMoneyFlow h l s v w b := by
  unfold chaikinMoneyFlow CMF.run
  rw [(hh.clv hk hl hs).eq]

theorem rel_donchian (w : Nat) (off : Int) (b : Bool) :
    ERel (fun o o' => SA k c o.hband o'.hband ∧ SA k c o.lband o'.lband ∧ SA k c o.mband o'.mband ∧
        SA 1 0 o.pband o'.pband ∧ (c = 0 → SA 1 0 o.wband o'.wband))
      (Donchian.new h l s w off b) (Donchian.new h' l' s' w off b) := by
  refine ERel.guardRoll (.ok ?_)
  have h1 := hh.rollMax hk w (if b then 1 else w)
  have h2 := hl.rollMin hk w (if b then 1 else w)
  have ho : ∀ {k₁ c₁ : K} {x x' : Series (Val K)} (o o' : Donchian (Val K)) (_ : o'.offset = o.offset)
      (_ : SA k₁ c₁ x x'), SA k₁ c₁ (o.off x) (o'.off x') := by
    intro k₁ c₁ x x' o o' e hx
    unfold Donchian.off
    rw [e]
    split_ifs
    · exact hx.shiftInt _
    · exact hx
  refine ⟨ho _ _ rfl (h1.fillBack b), ho _ _ rfl (h2.fillBack b), ho _ _ rfl (SRel.fillBack ?_ b),
    ho _ _ rfl (SRel.fill1 (SRel.sdiv1 hk (hs.ssub0 h2) (h1.ssub0 h2)) _ b), fun e => ?_⟩
  · have := SRel.sadd (SRel.divPos (d := ((2 : ℚ) : K)) (by norm_num) (h1.ssub0 h2)) h2
    refine SRel.cast this rfl ?_
    simp
  · refine ho _ _ rfl (SRel.fill1 (SRel.mulc one_pos _ (SRel.sdiv1 hk (h1.ssub0 h2) (SRel.cast (hs.rollMean _ _) rfl e))) _ b)

theorem rel_kc_orig (w : Nat) (b : Bool) :
    SA k c (Keltner.runOriginal h l s w b).tp (Keltner.runOriginal h' l' s' w b).tp ∧
    SA k c (Keltner.runOriginal h l s w b).tpHigh (Keltner.runOriginal h' l' s' w b).tpHigh ∧
    SA k c (Keltner.runOriginal h l s w b).tpLow (Keltner.runOriginal h' l' s' w b).tpLow := by
  refine ⟨(hh.typicalPrice hl hs).rollMean _ _, SRel.rollMean _ _ ?_, SRel.rollMean _ _ ?_⟩
  · have := SRel.divPos (d := ((3 : ℚ) : K)) (by norm_num)
      (((hh.cmulPos (d := ((4 : ℚ) : K)) (by norm_num)).ssub (hl.cmulPos (d := ((2 : ℚ) : K)) (by norm_num))).sadd hs)
    refine SRel.cast this rfl ?_
    push_cast; field_simp; ring
  · -- a negative factor: `-2 * high`
    have hneg : SA k (-2 * c) (cmul (lit (-2)) h) (cmul (lit (-2)) h') := hh.map fun a a' ha => by
      rw [lit_fin]
      cases ha with
      | nan => simp; exact .nan
      | pinf =>
        have : (.fin ((-2 : ℚ) : K) *. .pinf : Val K) = .ninf := by
          show Val.infMul (.fin _) = _
          simp [Val.infMul]
        rw [this]; exact .ninf
      | ninf =>
        have : (.fin ((-2 : ℚ) : K) *. .ninf : Val K) = .pinf := by
          show Val.neg (Val.infMul (.fin _)) = _
          simp [Val.infMul, Val.neg, show ¬ (2:K) < 0 by norm_num]
        rw [this]; exact .pinf
      | fin hx => exact .fin (by unfold Aff at *; rw [hx]; push_cast; ring)
    have := SRel.divPos (d := ((3 : ℚ) : K)) (by norm_num)
      ((hneg.sadd (hl.cmulPos (d := ((4 : ℚ) : K)) (by norm_num))).sadd hs)
    refine SRel.cast this rfl ?_
    push_cast; field_simp; ring

/-- what the Keltner methods show, given related bands -/
theorem rel_kc_shown {o o' : Keltner (Val K)} (e0 : o'.fillna = o.fillna) (ec : SA k c o.close o'.close)
    (e1 : SA k c o.tp o'.tp) (e2 : SA k c o.tpHigh o'.tpHigh) (e3 : SA k c o.tpLow o'.tpLow) :
    SA k c o.mband o'.mband ∧ SA k c o.hband o'.hband ∧ SA k c o.lband o'.lband ∧ SA 1 0 o.pband o'.pband ∧
      SA 1 0 o.hbandIndicator o'.hbandIndicator ∧ SA 1 0 o.lbandIndicator o'.lbandIndicator ∧
      (c = 0 → SA 1 0 o.wband o'.wband) := by
  unfold Keltner.mband Keltner.hband Keltner.lband Keltner.pband Keltner.hbandIndicator Keltner.lbandIndicator
    Keltner.wband
  rw [e0]
  refine ⟨e1.fillBack _, e2.fillBack _, e3.fillBack _, SRel.fill1 (SRel.sdiv1 hk (ec.ssub0 e3) (e2.ssub0 e3)) _ _,
    SRel.fill1 (ec.zip2 e2 fun a a' b b' ha hb => ?_) _ _, SRel.fill1 (ec.zip2 e3 fun a a' b b' ha hb => ?_) _ _,
    fun e => SRel.fill1 (SRel.mulc one_pos _ (SRel.sdiv1 hk (e2.ssub0 e3) (SRel.cast e1 rfl e))) _ _⟩
  · rw [hb.lt hk ha]; exact VA.refl _
  · rw [ha.lt hk hb]; exact VA.refl _

theorem rel_kc (w wa : Nat) (orig : Bool) (d : Val K) (b : Bool) :
    ERel (fun o o' => SA k c o.mband o'.mband ∧ SA k c o.hband o'.hband ∧ SA k c o.lband o'.lband ∧
      SA 1 0 o.pband o'.pband ∧ SA 1 0 o.hbandIndicator o'.hbandIndicator ∧
      SA 1 0 o.lbandIndicator o'.lbandIndicator ∧ (c = 0 → SA 1 0 o.wband o'.wband))
      (Keltner.new h l s w wa b orig d) (Keltner.new h' l' s' w wa b orig d) := by
  cases orig with
  | true =>
    obtain ⟨e1, e2, e3⟩ := rel_kc_orig hk hh hl hs w b
    refine ERel.guardRoll (.ok (rel_kc_shown hk hh hl hs rfl hs ?_ ?_ ?_))
    · exact e1
    · exact e2
    · exact e3
  | false =>
    refine ERel.guard fun hw => (rel_atr hk hh hl hs wa b).bind fun a a' ha => .ok ?_
    have e1 : ∀ mp, SA k c (ewm (alphaOfSpan w) mp s) (ewm (alphaOfSpan w) mp s') := fun mp => by
      rw [alphaOfSpan_fin]
      exact ewm_rel (convex_Aff k c) (span_pos w) (span_le w hw) _ hs
    refine rel_kc_shown hk hh hl hs rfl hs (e1 _) ?_ ?_
    · exact SRel.cast ((e1 _).sadd (ha.cmul hk d)) rfl (add_zero c)
    · exact SRel.cast ((e1 _).ssub (ha.cmul hk d)) rfl (sub_zero c)
end

/-! ## prices scaled (offset 0) with volume -/

section
variable (hk : 0 < k) (hh : SA k 0 h h') (hl : SA k 0 l l') (hs : SA k 0 s s')

theorem rel_fi (hk : 0 < k) (hs : SA k c s s') (v : Series (Val K)) (w : Nat) (b : Bool) :
    ERel (SA k 0) (forceIndex s v w b) (forceIndex s' v w b) := by
  refine ERel.guard fun h1 => .ok (SRel.fill0 (SRel.ema w h1 b ?_) b)
  exact SRel.cast (SRel.smul hk one_pos (hs.ssub0 (hs.shiftNan 1)) (SRel.refl v)) (mul_one k) rfl

include hk hh hl hs

theorem rel_mfi (v : Series (Val K)) (w : Nat) (b : Bool) :
    moneyFlowIndex h' l' s' v w b = moneyFlowIndex h l s v w b := by
  have h0 : VA k 0 (lit 0) (lit 0) := by rw [lit_fin, Rat.cast_zero]; exact VA.lit0 k
  have ht := hh.typicalPrice hl hs
  have hf : SA k 0 (MFI.flow h l s v) (MFI.flow h' l' s' v) := by
    refine SRel.cast (SRel.smul (mul_pos hk one_pos) one_pos (SRel.smul hk one_pos ht (SRel.refl v))
      (ht.zip2 (ht.shiftNan 1) fun a a' b b' ha hb => ?_)) (by ring) rfl
    rw [hb.lt hk ha, ha.lt hk hb]; exact VA.refl _
  have hp : SA k 0 (rollApply MFI.pos w (minp b w) (MFI.flow h l s v)) (rollApply MFI.pos w (minp b w) (MFI.flow h' l' s' v)) := by
    refine hf.rollApply _ _ fun x x' hx => ?_
    refine VA.cast (LA.sumL (c := 0) (hx.map fun a a' ha => ?_)) rfl (mul_zero _)
    rw [h0.le hk ha]
    split_ifs
    · exact ha
    · exact h0
  have hn : SA k 0 (rollApply MFI.neg w (minp b w) (MFI.flow h l s v)) (rollApply MFI.neg w (minp b w) (MFI.flow h' l' s' v)) := by
    refine hf.rollApply _ _ fun x x' hx => ?_
    refine VA.cast (LA.sumL (c := 0) (hx.map fun a a' ha => ?_)) rfl (mul_zero _)
    rw [ha.lt hk h0]
    split_ifs
    · exact ha
    · exact h0
  unfold moneyFlowIndex MFI.run
  simp only [(SRel.sdiv1 hk hp (hn.sabs hk)).eq]

theorem rel_vwap (v : Series (Val K)) (w : Nat) (b : Bool) :
    SA k 0 (volumeWeightedAveragePrice h l s v w b) (volumeWeightedAveragePrice h' l' s' v w b) := by
  refine SRel.fill0 (SRel.cast (SRel.sdiv hk one_pos (SRel.rollSum _ _ ?_) (SRel.refl _)) (div_one k) rfl) b
  exact SRel.cast (SRel.smul hk one_pos (hh.typicalPrice hl hs) (SRel.refl v)) (mul_one k) rfl
end

/-! ## OBV -/

theorem rel_obv (hk : 0 < k) (hs : SA k c s s') (v : Series (Val K)) (b : Bool) :
    onBalanceVolume s' v b = onBalanceVolume s v b := by
  unfold onBalanceVolume OBV.run
  have : SA 1 0 (OBV.signed s v) (OBV.signed s' v) :=
    hs.zip3 (hs.shiftNan 1) (SRel.refl v) fun a a' b b' d d' ha hb hd => by
      rw [ha.lt hk hb]
      split_ifs
      · exact hd.neg
      · exact hd
  rw [this.eq]

/-! ## PSAR -/

/-- related loop variables -/
structure PRel (k c : K) (p p' : PCore (Val K)) : Prop where
  trend : p'.upTrend = p.upTrend
  af : p'.af = p.af
  high : VA k c p.high p'.high
  low : VA k c p.low p'.low
  val : VA k c p.val p'.val

theorem rel_pcore (hk : 0 < k) (sp mx : Val K) {p p' : PCore (Val K)} (hp : PRel k c p p')
    {h0 h0' l0 l0' h1 h1' l1 l1' h2 h2' l2 l2' : Val K} (a0 : VA k c h0 h0') (b0 : VA k c l0 l0') (a1 : VA k c h1 h1')
    (b1 : VA k c l1 l1') (a2 : VA k c h2 h2') (b2 : VA k c l2 l2') :
    PRel k c (pcore sp mx p h0 l0 h1 l1 h2 l2) (pcore sp mx p' h0' l0' h1' l1' h2' l2') := by
  obtain ⟨ut, af, hi, lo, va⟩ := p
  obtain ⟨ut', af', hi', lo', va'⟩ := p'
  obtain ⟨e1, e2, hhi, hlo, hv⟩ := hp
  simp only at e1 e2 hhi hlo hv
  subst e1 e2
  cases ut' with
  | true =>
    have hp : VA k c (va +. af' *. (hi -. va)) (va' +. af' *. (hi' -. va')) :=
      VA.cast (VA.add hv (VA.cmul hk af' (VA.cast (VA.sub hhi hv) rfl (sub_self c)))) rfl (add_zero c)
    unfold pcore
    simp only [if_true]
    generalize va +. af' *. (hi -. va) = q at *
    generalize va' +. af' *. (hi' -. va') = q' at *
    rw [b0.lt hk hp, b2.lt hk hp, b1.lt hk hp, hhi.lt hk a0]
    have hq : VA k c (if l2 <. q then l2 else if l1 <. q then l1 else q) (if l2 <. q then l2' else if l1 <. q then l1' else q') := by
      split_ifs <;> assumption
    by_cases c1 : (l0 <. q) = true
    · rw [if_pos c1, if_pos c1]; exact ⟨rfl, rfl, hhi, b0, hhi⟩
    · rw [if_neg c1, if_neg c1]
      by_cases c2 : (h0 >. hi) = true
      · rw [if_pos c2, if_pos c2]; exact ⟨rfl, rfl, a0, hlo, hq⟩
      · rw [if_neg c2, if_neg c2]; exact ⟨rfl, rfl, hhi, hlo, hq⟩
  | false =>
    have hp : VA k c (va -. af' *. (va -. lo)) (va' -. af' *. (va' -. lo')) :=
      VA.cast (VA.sub hv (VA.cmul hk af' (VA.cast (VA.sub hv hlo) rfl (sub_self c)))) rfl (sub_zero c)
    unfold pcore
    simp only [Bool.false_eq_true, if_false]
    generalize va -. af' *. (va -. lo) = q at *
    generalize va' -. af' *. (va' -. lo') = q' at *
    rw [hp.lt hk a0, hp.lt hk a1, hp.lt hk a2, b0.lt hk hlo]
    have hq : VA k c (if h2 >. q then h2 else if h1 >. q then h1 else q) (if h2 >. q then h2' else if h1 >. q then h1' else q') := by
      split_ifs <;> assumption
    by_cases c1 : (h0 >. q) = true
    · rw [if_pos c1, if_pos c1]; exact ⟨rfl, rfl, a0, hlo, hlo⟩
    · rw [if_neg c1, if_neg c1]
      by_cases c2 : (l0 <. lo) = true
      · rw [if_pos c2, if_pos c2]; exact ⟨rfl, rfl, hhi, b0, hq⟩
      · rw [if_neg c2, if_neg c2]; exact ⟨rfl, rfl, hhi, hlo, hq⟩

theorem rel_cores (hk : 0 < k) (hh : SA k c h h') (hl : SA k c l l') (hs : SA k c s s') (sp mx : Val K) (m : Nat) :
    PRel k c (PSAR.cores h l s sp mx m) (PSAR.cores h' l' s' sp mx m) := by
  induction m with
  | zero => exact ⟨rfl, rfl, hh.ix 0, hl.ix 0, hs.ix 1⟩
  | succ m ih => exact rel_pcore hk sp mx ih (hh.ix _) (hl.ix _) (hh.ix _) (hl.ix _) (hh.ix _) (hl.ix _)

theorem rel_psar (hk : 0 < k) (hh : SA k c h h') (hl : SA k c l l') (hs : SA k c s s') (sp mx : Val K) (b : Bool) :
    ERel (fun o o' => o'.fillna = o.fillna ∧ SA k c o.psarS o'.psarS ∧ SA k c o.up o'.up ∧ SA k c o.down o'.down)
      (PSAR.new h l s .positional sp mx b) (PSAR.new h' l' s' .positional sp mx b) := by
  by_cases hn : 0 < s.length
  · rw [PSAR.new_eq _ _ _ _ _ _ hn, PSAR.new_eq _ _ _ _ _ _ (by rw [← hs.len]; exact hn)]
    have hc := rel_cores hk hh hl hs sp mx
    refine .ok ⟨rfl, SRel.tab hs.len fun i _ => ?_, SRel.tab hs.len fun i _ => ?_, SRel.tab hs.len fun i _ => ?_⟩
    · split_ifs
      · exact hs.ix i
      · exact (hc _).val
    · rw [(hc _).trend]
      split_ifs
      · exact (hc _).val
      · exact .nan
    · rw [(hc _).trend]
      split_ifs
      · exact (hc _).val
      · exact .nan
  · unfold PSAR.new
    rw [← hs.len, if_pos (by omega), if_pos (by omega)]
    exact .error _

theorem rel_flag (hk : 0 < k) {u u' x x' : Series (Val K)} (hu : SA k 0 u u') (hx : SA k c x x') :
    PSAR.flag u' x' = PSAR.flag u x := by
  unfold PSAR.flag
  refine tab_congr hu.len.symm fun i _ => ?_
  have h0 : VA k 0 (lit 0) (lit 0) := by rw [lit_fin, Rat.cast_zero]; exact VA.lit0 k
  rw [VA.isNaN (hx.ix i), VA.isNaN ((hx.shiftNan 1).ix i)]
  by_cases h1 : (!Flt.isNaN (ix x i) && Flt.isNaN (ix (shift x 1) i)) = true
  · rw [if_pos h1, if_pos h1]
    dsimp only
    rw [VA.eqv hk (hu.ix i) h0]
    by_cases h2 : (ix u i ==. (lit 0 : Val K)) = true
    · rw [if_pos h2, if_pos h2]
      have z : ∀ y : Val K, (y ==. (lit 0 : Val K)) = true → y = .fin 0 := by
        intro y hy
        cases y with
        | fin x => simp at hy; rw [hy]
        | nan => simp at hy
        | pinf => simp at hy
        | ninf => simp at hy
      have h4 := hu.ix i
      rw [z _ h2] at h4 ⊢
      generalize ix u' i = y at h4
      cases h4 with
      | fin h => unfold Aff at h; rw [h]; simp
    · rw [if_neg h2, if_neg h2]
  · rw [if_neg h1, if_neg h1]

/-- when the two series are never both present, the flag only depends on the one whose gaps it reads -/
theorem rel_flag_excl {u u' x x' : Series (Val K)} (hu : SA k c u u') (hx : SA k c x x')
    (he : ∀ i, (ix x i).isNaN = true ∨ (ix u i).isNaN = true) : PSAR.flag u' x' = PSAR.flag u x := by
  unfold PSAR.flag
  refine tab_congr hu.len.symm fun i _ => ?_
  rw [VA.isNaN (hx.ix i), VA.isNaN ((hx.shiftNan 1).ix i)]
  rcases he i with h | h
  · have h' : Flt.isNaN (ix x i) = true := h
    simp [h']
  · have e : ix u i = .nan := by
      revert h; generalize ix u i = y; cases y <;> simp [Val.isNaN]
    have e' : ix u' i = .nan := by
      have := hu.ix i
      rw [e] at this
      generalize ix u' i = y at this
      cases this; rfl
    rw [e, e']

end TA
