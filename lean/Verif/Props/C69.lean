import Verif.Lemmas.MirrorInd
import Verif.Props.C21
import Verif.Props.C30
import Verif.Props.C17
import Verif.Props.C20

/-! # C69 — turning the chart upside down

`Bar.mirror c` reflects the prices of a row about `c/2`: every price `p` becomes `c - p`, so that the reflected high is
the old low and the reflected low the old high.  The volume stays. -/

set_option linter.unusedSectionVars false
set_option linter.unusedSimpArgs false

namespace TA

/-- a row seen in a mirror -/
def Bar.mirror {K : Type} [Field K] [LinearOrder K] (c : K) (r : Bar (Val K)) : Bar (Val K) :=
  ⟨.fin c -. r.low, .fin c -. r.high, .fin c -. r.close, r.volume⟩

/-- what happens to the values of an output -/
inductive MirrorKind where
  /-- nothing -/
  | same
  /-- `v` becomes `-v` -/
  | negated
  /-- `v` becomes `c - v`, like a price -/
  | reflected
  /-- `v` becomes `q - v` -/
  | complement (q : ℚ)
  deriving DecidableEq, Repr

def MirrorKind.act {K : Type} [Field K] [LinearOrder K] (c : K) : MirrorKind → Val K → Val K
  | .same, v => v
  | .negated, v => Flt.neg v
  | .reflected, v => .fin c -. v
  | .complement q, v => lit q -. v

/-- Which output of the original prices the output of the mirrored prices is, and how its values change.  `none`: there is
no such law. -/
def Ind.mirror {K : Type} (fillna : Bool) : Ind (Val K) → Option (Ind (Val K) × MirrorKind)
  | .tsi a b => some (.tsi a b, .negated)
  | .stoch w => some (.stoch w, .complement 100)
  | .stochSignal w s => some (.stochSignal w s, .complement 100)
  | .kama w p q => some (.kama w p q, .reflected)
  | .ao a b => some (.ao a b, .negated)
  | .williamsR w => some (.williamsR w, .complement (-100))
  | .pvo a b d => some (.pvo a b d, .same)
  | .pvoSignal a b d => some (.pvoSignal a b d, .same)
  | .pvoHist a b d => some (.pvoHist a b d, .same)
  | .aroonUp w => some (.aroonDown w, .same)
  | .aroonDown w => some (.aroonUp w, .same)
  | .aroonInd w => some (.aroonInd w, .negated)
  | .macd a b d => some (.macd a b d, .negated)
  | .macdSignal a b d => some (.macdSignal a b d, .negated)
  | .macdDiff a b d => some (.macdDiff a b d, .negated)
  | .ema w => some (.ema w, .reflected)
  | .sma w => some (.sma w, .reflected)
  | .wma w => if fillna = false ∧ 1 ≤ w then some (.wma w, .reflected) else none
  | .massIndex a b => some (.massIndex a b, .same)
  | .ichimokuConv w => some (.ichimokuConv w, .reflected)
  | .ichimokuBase w => some (.ichimokuBase w, .reflected)
  | .ichimokuA a b v => some (.ichimokuA a b v, .reflected)
  | .ichimokuB a b v => some (.ichimokuB a b v, .reflected)
  | .dpo w => some (.dpo w, .negated)
  | .cci w k => some (.cci w k, .negated)
  | .adx w => some (.adx w, .same)
  | .adxPos w => some (.adxNeg w, .same)
  | .adxNeg w => some (.adxPos w, .same)
  | .vortexPos w => some (.vortexNeg w, .same)
  | .vortexNeg w => some (.vortexPos w, .same)
  | .vortexDiff w => some (.vortexDiff w, .negated)
  | .stc a b d e f => if fillna = false then some (.stc a b d e f, .complement 100) else none
  | .atr w => some (.atr w, .same)
  | .bbMavg w d => some (.bbMavg w d, .reflected)
  | .bbHband w d => some (.bbLband w d, .reflected)
  | .bbLband w d => some (.bbHband w d, .reflected)
  | .bbPband w (.fin d) => if fillna = false then some (.bbPband w (.fin d), .complement 1) else none
  | .bbHi w d => some (.bbLi w d, .same)
  | .bbLi w d => some (.bbHi w d, .same)
  | .kcMband w a o k => some (.kcMband w a o k, .reflected)
  | .kcHband w a o k => some (.kcLband w a o k, .reflected)
  | .kcLband w a o k => some (.kcHband w a o k, .reflected)
  | .kcPband w a true k => if fillna = false then some (.kcPband w a true k, .complement 1) else none
  | .kcHi w a o k => some (.kcLi w a o k, .same)
  | .kcLi w a o k => some (.kcHi w a o k, .same)
  | .dcHband w o => some (.dcLband w o, .reflected)
  | .dcLband w o => some (.dcHband w o, .reflected)
  | .dcMband w o => some (.dcMband w o, .reflected)
  | .dcPband w o => if fillna = false then some (.dcPband w o, .complement 1) else none
  | .adi => some (.adi, .negated)
  | .cmf w => some (.cmf w, .negated)
  | .fi w => some (.fi w, .negated)
  | .eom => some (.eom, .negated)
  | .smaEom w => some (.smaEom w, .negated)
  | .vwap w => if fillna = false then some (.vwap w, .reflected) else none
  | _ => none

section
variable {K : Type} [Field K] [LinearOrder K] [IsStrictOrderedRing K]

/-! ## complements -/

/-- `t - v` -/
abbrev compl (t : K) (v : Val K) : Val K := .fin t -. v

theorem compl_eq (t : K) (v : Val K) : compl t v = Flt.neg v +. .fin t := by
  unfold compl; rw [sub_def', vadd_comm]

theorem compl_compl (t : K) (v : Val K) : compl t (compl t v) = v := by
  cases v
  · rfl
  · rfl
  · rfl
  · simp

theorem VA.plus (t : K) (v : Val K) : VA 1 t v (v +. .fin t) := by
  cases v with
  | nan => exact .nan
  | pinf => exact .pinf
  | ninf => exact .ninf
  | fin x => exact .fin (by simp [Aff])

theorem map_compl (t : K) (s : Series (Val K)) : s.map (compl t) = (sneg s).map fun v => v +. .fin t := by
  unfold sneg
  rw [List.map_map]
  exact List.map_congr_left fun a _ => compl_eq t a

/-- an operation that follows a sign change and a change of origin follows a complement -/
theorem op_compl {op : Series (Val K) → Series (Val K)} (hn : ∀ s, op (sneg s) = sneg (op s)) {t : K}
    (hp : ∀ s s', SA 1 t s s' → SA 1 t (op s) (op s')) (s : Series (Val K)) :
    op (s.map (compl t)) = (op s).map (compl t) := by
  rw [map_compl, map_compl, ← hn]
  exact SA.det (hp _ _ (SA.map_of _ (VA.plus t) _)) (SA.map_of _ (VA.plus t) _)

theorem rollMean_compl (w mp : Nat) (t : K) (s : Series (Val K)) :
    rollMean w mp (s.map (compl t)) = (rollMean w mp s).map (compl t) :=
  op_compl (fun s => rollMean_neg s w mp) (fun _ _ h => h.rollMean w mp) s

theorem ema_compl (w : Nat) (hw : 1 ≤ w) (b : Bool) (t : K) (s : Series (Val K)) :
    ema (s.map (compl t)) w b = (ema s w b).map (compl t) :=
  op_compl (op := fun s => ema s w b) (fun s => ema_neg s w b) (fun _ _ h => h.ema w hw b) s

theorem shiftInt_compl (m : Int) (t : K) (s : Series (Val K)) :
    shiftInt (s.map (compl t)) m = (shiftInt s m).map (compl t) :=
  op_compl (op := fun s => shiftInt s m) (fun s => shiftInt_neg s m) (fun _ _ h => h.shiftInt m) s

theorem fill_compl (b : Bool) (t v : K) (s : Series (Val K)) :
    checkFillna b (.const (.fin (t - v))) (s.map (compl t)) = (checkFillna b (.const (.fin v)) s).map (compl t) := by
  rw [map_compl, map_compl]
  have h1 : checkFillna b (.const (Flt.neg (.fin v))) (sneg s) = sneg (checkFillna b (.const (.fin v)) s) := by
    unfold checkFillna
    split_ifs
    · dsimp only
      rw [replaceInf_neg, ffill_neg, fillConst_neg]
    · rfl
  rw [← h1]
  refine SA.det (SRel.fill (SA.map_of _ (VA.plus t) _) b fun _ => .const ?_) (SA.map_of _ (VA.plus t) _)
  exact VA.fin' (by ring)

/-- two parts of a whole -/
theorem div_compl {A B : Val K} {D q : K}
    (h : (∃ a b, A = .fin a ∧ B = .fin b ∧ a + b = q * D) ∨ (A = Flt.neg B ∧ ∀ x, B ≠ .fin x)) :
    A /. .fin D = compl q (B /. .fin D) := by
  rcases h with ⟨a, b, rfl, rfl, e⟩ | ⟨rfl, hB⟩
  · by_cases hD : D = 0
    · subst hD
      have : a = -b := by linear_combination e
      subst this
      rw [fin_div_zero, fin_div_zero]
      simp only [neg_eq_zero, Left.neg_pos_iff]
      split_ifs with h1 h2 h3 h3
      · rfl
      · exact absurd h3 (not_lt.mpr h2.le)
      · rfl
      · rfl
      · exact absurd (le_antisymm (not_lt.mp h3) (not_lt.mp h2)) h1
    · rw [fin_div _ _ hD, fin_div _ _ hD]
      unfold compl
      rw [fin_sub, fin_inj]
      field_simp
      linear_combination e
  · rw [neg_div']
    cases B with
    | fin x => exact absurd rfl (hB x)
    | nan => rfl
    | pinf =>
      show Val.neg (if 0 ≤ D then _ else _) = compl q (if 0 ≤ D then _ else _)
      split_ifs <;> rfl
    | ninf =>
      show Val.neg (if 0 ≤ D then _ else _) = compl q (if 0 ≤ D then _ else _)
      split_ifs <;> rfl

/-- NaN or a number -/
def Tame (v : Val K) : Prop := v = .nan ∨ ∃ x, v = .fin x

theorem ratio_compl (q : K) {x lo hi : Val K} (hl : Tame lo) (hh : Tame hi) :
    (.fin q *. (hi -. x)) /. (hi -. lo) = compl q ((.fin q *. (x -. lo)) /. (hi -. lo)) := by
  rcases hl with rfl | ⟨l, rfl⟩
  · simp
  rcases hh with rfl | ⟨h, rfl⟩
  · simp
  rw [fin_sub]
  refine div_compl ?_
  cases x with
  | fin x => exact .inl ⟨q * (h - x), q * (x - l), by simp, by simp, by ring⟩
  | nan => right; simp
  | pinf =>
    right
    have : (.fin h -. .pinf : Val K) = Flt.neg (.pinf -. .fin l) := rfl
    rw [this, mul_neg']
    refine ⟨rfl, fun y hy => ?_⟩
    change Val.infMul (.fin q) = .fin y at hy
    simp only [Val.infMul] at hy
    split_ifs at hy
  | ninf =>
    right
    have : (.fin h -. .ninf : Val K) = Flt.neg (.ninf -. .fin l) := rfl
    rw [this, mul_neg']
    refine ⟨rfl, fun y hy => ?_⟩
    change Val.neg (Val.infMul (.fin q)) = .fin y at hy
    simp only [Val.infMul] at hy
    split_ifs at hy <;> cases hy

theorem one_mul' (x : Val K) : .fin 1 *. x = x := by
  cases x with
  | nan => rfl
  | pinf => show Val.infMul (.fin 1) = _; simp [Val.infMul]
  | ninf => show Val.neg (Val.infMul (.fin 1)) = _; simp [Val.infMul, Val.neg]
  | fin x => simp

theorem ratio_compl_one {x lo hi : Val K} (hl : Tame lo) (hh : Tame hi) :
    (hi -. x) /. (hi -. lo) = compl 1 ((x -. lo) /. (hi -. lo)) := by
  have := ratio_compl 1 (x := x) hl hh
  rwa [one_mul', one_mul'] at this

/-! ## series without infinities -/

/-- every row is NaN or a number -/
def TameS (s : Series (Val K)) : Prop := ∀ i, Tame (ix s i)

theorem TameS.of {s : Series (Val K)} (h : ∀ i, i < s.length → Tame (ix s i)) : TameS s := fun i => by
  by_cases hi : i < s.length
  · exact h i hi
  · rw [ix_ge (Nat.not_lt.mp hi)]; exact .inl rfl

theorem tame_rollMax (w mp : Nat) (s : Series (Val K)) : TameS (rollMax w mp s) := .of fun i hi => by
  rcases rollMax_cases s w mp i (by simpa using hi) with e | ⟨m, e, _⟩
  · exact .inl e
  · exact .inr ⟨m, e⟩

theorem tame_rollMin (w mp : Nat) (s : Series (Val K)) : TameS (rollMin w mp s) := .of fun i hi => by
  rcases rollMin_cases s w mp i (by simpa using hi) with e | ⟨m, e, _⟩
  · exact .inl e
  · exact .inr ⟨m, e⟩

theorem tame_rollMean (w mp : Nat) (s : Series (Val K)) : TameS (rollMean w mp s) := .of fun i hi => by
  rw [ix_rollMean (by simpa using hi)]
  split_ifs
  · exact .inr ⟨_, rfl⟩
  · exact .inl rfl

/-- the position of `x` in the channel `lo`–`hi`, seen from the other side -/
theorem sratio (q : K) {x lo hi : Series (Val K)} (hl : TameS lo) (hh : TameS hi) (_el : lo.length = x.length)
    (eh : hi.length = x.length) : sdiv (cmul (.fin q) (ssub hi x)) (ssub hi lo)
      = (sdiv (cmul (.fin q) (ssub x lo)) (ssub hi lo)).map (compl q) := by
  refine series_ext (by simp [sdiv, cmul, ssub, zip2, eh]) fun i hi' => ?_
  have hi1 : i < x.length := by simpa [sdiv, cmul, ssub, zip2, eh] using hi'
  rw [ix_map (by simpa [sdiv, cmul, ssub, zip2] using hi1), ix_sdiv (by simpa [cmul, ssub, zip2, eh] using hi1),
    ix_sdiv (by simpa [cmul, ssub, zip2] using hi1), ix_cmul (by simpa [ssub, zip2, eh] using hi1),
    ix_cmul (by simpa [ssub, zip2] using hi1), ix_ssub (by rw [eh]; exact hi1), ix_ssub hi1,
    ix_ssub (by rw [eh]; exact hi1)]
  exact ratio_compl q (hl i) (hh i)

theorem sratio_one {x lo hi : Series (Val K)} (hl : TameS lo) (hh : TameS hi) (el : lo.length = x.length)
    (eh : hi.length = x.length) : sdiv (ssub hi x) (ssub hi lo)
      = (sdiv (ssub x lo) (ssub hi lo)).map (compl 1) := by
  have h := sratio (1 : K) hl hh el eh
  have e : ∀ s : Series (Val K), cmul (.fin 1) s = s := fun s =>
    (List.map_congr_left fun a _ => one_mul' a).trans (List.map_id s)
  rwa [e, e] at h

variable {h l s : Series (Val K)}

theorem neg_stochK (e : l.length = h.length) (es : s.length = h.length) (w : Nat) (b : Bool) :
    Stoch.k (sneg l) (sneg h) (sneg s) w b = (Stoch.k h l s w b).map (compl 100) := by
  unfold Stoch.k
  dsimp only
  rw [rollMin_neg, rollMax_neg, ssub_neg, ssub_neg, neg_ssub s _ (by simp [es]), neg_ssub _ _ (by simp [e])]
  have h100 : (lit 100 : Val K) = .fin 100 := by simp
  rw [h100]
  exact sratio 100 (tame_rollMin _ _ _) (tame_rollMax _ _ _) (by simp [e, es]) (by simp [es])

theorem neg_stoch (e : l.length = h.length) (es : s.length = h.length) (w : Nat) (b : Bool) :
    stoch (sneg l) (sneg h) (sneg s) w b = (stoch h l s w b).map (compl 100) := by
  unfold stoch
  have h50 : (lit 50 : Val K) = .fin 50 := by simp
  rw [neg_stochK e es, h50, ← fill_compl]
  norm_num

theorem neg_stochSignal (e : l.length = h.length) (es : s.length = h.length) (w sm : Nat) (b : Bool) :
    stochSignal (sneg l) (sneg h) (sneg s) w sm b = (stochSignal h l s w sm b).map (compl 100) := by
  unfold stochSignal
  have h50 : (lit 50 : Val K) = .fin 50 := by simp
  rw [neg_stochK e es, rollMean_compl, h50, ← fill_compl]
  norm_num

theorem map_compl_compl (t : K) (s : Series (Val K)) : (s.map (compl t)).map (compl t) = s := by
  rw [List.map_map]
  exact (List.map_congr_left fun a _ => compl_compl t a).trans (List.map_id s)

theorem neg_wr (e : l.length = h.length) (es : s.length = h.length) (w : Nat) (b : Bool) :
    williamsR (sneg l) (sneg h) (sneg s) w b = (williamsR h l s w b).map (compl (-100)) := by
  unfold williamsR
  have h50 : (lit (-50) : Val K) = .fin (-50) := by simp
  have hr : WR.run (sneg l) (sneg h) (sneg s) w b = (WR.run h l s w b).map (compl (-100)) := by
    unfold WR.run
    dsimp only
    rw [rollMin_neg, rollMax_neg, ssub_neg, ssub_neg, neg_ssub _ s (by simp [e, es]), neg_ssub _ _ (by simp [e])]
    have h100 : (lit (-100) : Val K) = .fin (-100) := by simp
    rw [h100, sratio (-100) (tame_rollMin _ _ _) (tame_rollMax _ _ _) (by simp [e, es]) (by simp [es]), map_compl_compl]
  rw [hr, h50, ← fill_compl]
  norm_num

theorem tame_ema (w : Nat) (hw : 1 ≤ w) (b : Bool) (s : Series (Val K)) : TameS (ema s w b) := .of fun i hi => by
  rcases ema_nanOr hw b i hi with e | ⟨x, e, _⟩
  · exact .inl e
  · exact .inr ⟨x, e⟩

theorem neg_stochOf (cy : Nat) (x : Series (Val K)) : STC.stochOf (sneg x) cy = (STC.stochOf x cy).map (compl 100) := by
  unfold STC.stochOf
  dsimp only
  rw [rollMin_neg, rollMax_neg, ssub_neg, ssub_neg, neg_ssub x _ (by simp), neg_ssub _ _ (by simp)]
  have h100 : (lit 100 : Val K) = .fin 100 := by simp
  rw [h100]
  exact sratio 100 (tame_rollMin _ _ _) (tame_rollMax _ _ _) (by simp) (by simp)

theorem stochOf_compl (cy : Nat) (t : K) (x : Series (Val K)) :
    STC.stochOf (x.map (compl t)) cy = (STC.stochOf x cy).map (compl 100) := by
  rw [map_compl, ← neg_stochOf]
  exact SRel.eq (rel_stochOf one_pos (SA.map_of _ (VA.plus t) _) cy)

theorem chk_map' {α β : Type} {w : Nat} {x : Except PyErr α} {y : Except PyErr β} {f : α → β}
    (h : 1 ≤ w → y = x.map f) : (chkSpan w >>= fun _ => y) = (chkSpan w >>= fun _ => x).map f := by
  unfold chkSpan
  split_ifs with hw
  · rfl
  · exact h (by omega)

theorem neg_stc (slow fast cy s1 s2 : Nat) :
    stc (sneg s) slow fast cy s1 s2 false = (stc s slow fast cy s1 s2 false).map (List.map (compl 100)) := by
  unfold stc
  refine chk_map (chk_map ?_)
  refine chk_map' fun h3 => chk_map' fun h4 => ?_
  refine congrArg Except.ok ?_
  unfold checkFillna STC.run
  simp only [Bool.false_eq_true, if_false]
  rw [ema_neg, ema_neg, ssub_neg, neg_stochOf, ema_compl s1 h3, stochOf_compl, ema_compl s2 h4]

/-! ## channels -/

theorem neg_dc_new (w : Nat) (off : Int) (b : Bool) :
    Donchian.new (sneg l) (sneg h) (sneg s) w off b = (Donchian.new h l s w off b).map fun o =>
      ⟨sneg o.close, sneg o.lb, sneg o.hb, o.window, o.minPeriods, o.offset, o.fillna⟩ := by
  unfold Donchian.new
  refine chkRoll_map (congrArg Except.ok ?_)
  dsimp only
  rw [rollMax_neg, rollMin_neg]

theorem off_neg (o : Donchian (Val K)) (x : Series (Val K)) : o.off (sneg x) = sneg (o.off x) := by
  unfold Donchian.off
  split_ifs
  · exact shiftInt_neg _ _
  · rfl

theorem off_compl (o : Donchian (Val K)) (t : K) (x : Series (Val K)) : o.off (x.map (compl t)) = (o.off x).map (compl t) := by
  unfold Donchian.off
  split_ifs
  · exact shiftInt_compl _ _ _
  · rfl

theorem dc_tame {w : Nat} {off : Int} {b : Bool} {o : Donchian (Val K)} (ho : Donchian.new h l s w off b = .ok o) :
    TameS o.hb ∧ TameS o.lb ∧ o.hb.length = h.length ∧ o.lb.length = l.length ∧ o.close = s ∧ o.fillna = b := by
  unfold Donchian.new at ho
  dsimp only at ho
  generalize (if b = true then 1 else w) = m at ho
  unfold chkRoll at ho
  by_cases hm : w < m
  · rw [if_pos hm] at ho; cases ho
  · rw [if_neg hm] at ho
    have e := Except.ok.inj ho
    rw [← e]
    exact ⟨tame_rollMax _ _ _, tame_rollMin _ _ _, by simp, by simp, rfl, rfl⟩

theorem neg_dc_mband (e : l.length = h.length) (w : Nat) (off : Int) (b : Bool) :
    (Donchian.new (sneg l) (sneg h) (sneg s) w off b).map (·.mband)
      = ((Donchian.new h l s w off b).map (·.mband)).map sneg := by
  rw [neg_dc_new]
  cases ho : Donchian.new h l s w off b with
  | error e => rfl
  | ok o =>
    obtain ⟨hh, hl, eh, el, _, _⟩ := dc_tame ho
    refine congrArg Except.ok ?_
    show Donchian.off ⟨_, _, _, _, _, _, _⟩ _ = sneg (Donchian.off o _)
    rw [← off_neg o, ← fillBack_neg]
    show o.off _ = o.off _
    congr 2
    rw [ssub_neg, neg_ssub _ _ (by rw [eh, el, e])]
    refine series_ext (by simp [sadd, divc, ssub, zip2]) fun i hi' => ?_
    have hi1 : i < o.hb.length := by simpa [sadd, divc, ssub, zip2] using hi'
    rw [ix_sneg, ix_sadd (by simpa [divc, ssub, zip2] using hi1), ix_sadd (by simpa [divc, ssub, zip2] using hi1), ix_sneg,
      ix_divc (by simpa [ssub, zip2] using hi1), ix_ssub hi1]
    rcases hh i with e1 | ⟨x, e1⟩
    · rw [e1]; simp
    rcases hl i with e2 | ⟨y, e2⟩
    · rw [e2]; simp
    rw [e1, e2]
    have h2 : (lit 2 : Val K) = .fin 2 := by simp
    rw [h2, fin_sub, fin_div _ _ (by norm_num)]
    simp only [fin_neg, fin_add, fin_inj]
    ring

theorem neg_dc_pband (e : l.length = h.length) (es : s.length = h.length) (w : Nat) (off : Int) :
    (Donchian.new (sneg l) (sneg h) (sneg s) w off false).map (·.pband)
      = ((Donchian.new h l s w off false).map (·.pband)).map (List.map (compl 1)) := by
  rw [neg_dc_new]
  cases ho : Donchian.new h l s w off false with
  | error e => rfl
  | ok o =>
    obtain ⟨hh, hl, eh, el, ec, ef⟩ := dc_tame ho
    refine congrArg Except.ok ?_
    show Donchian.off ⟨_, _, _, _, _, _, _⟩ _ = List.map _ (Donchian.off o _)
    rw [← off_compl o]
    show o.off _ = o.off _
    congr 1
    unfold checkFillna
    simp only [ef, Bool.false_eq_true, if_false]
    rw [ssub_neg, ssub_neg, neg_ssub _ _ (by rw [eh, ec, es]), neg_ssub _ _ (by rw [eh, el, e])]
    exact sratio_one hl hh (by rw [el, ec, e, es]) (by rw [eh, ec, es])

theorem neg_kc_pband (e : l.length = h.length) (es : s.length = h.length) (w wa : Nat) (k : Val K) :
    (Keltner.new (sneg l) (sneg h) (sneg s) w wa false true k).map (·.pband)
      = ((Keltner.new h l s w wa false true k).map (·.pband)).map (List.map (compl 1)) := by
  rw [neg_kc_new e]
  have hr : ∀ o, Keltner.new h l s w wa false true k = .ok o → o = Keltner.runOriginal h l s w false := by
    intro o ho
    unfold Keltner.new chkRoll at ho
    by_cases hw : w < if (false = true) then 1 else w
    · rw [if_pos rfl, if_pos hw] at ho; cases ho
    · rw [if_pos rfl, if_neg hw] at ho; exact (Except.ok.inj ho).symm
  generalize Keltner.new h l s w wa false true k = x at *
  cases x with
  | error e => rfl
  | ok o =>
    rw [hr o rfl]
    refine congrArg Except.ok ?_
    show sdiv (ssub (sneg s) _) _ = List.map (compl 1) (sdiv (ssub s _) _)
    rw [ssub_neg, ssub_neg, neg_ssub s, neg_ssub]
    · refine sratio_one (tame_rollMean _ _ _) (tame_rollMean _ _ _) ?_ ?_
      · simp [Keltner.runOriginal, divc, sadd, ssub, zip2, cmul, es]
      · simp [Keltner.runOriginal, divc, sadd, ssub, zip2, cmul, es]
    · simp [Keltner.runOriginal, divc, sadd, ssub, zip2, cmul]
    · simp [Keltner.runOriginal, divc, sadd, ssub, zip2, cmul, es]

theorem smul_neg_left (a c : Series (Val K)) : smul (sneg a) c = sneg (smul a c) := by
  unfold smul zip2
  rw [length_sneg, ← tab_neg]
  exact tab_congr rfl fun i _ => by rw [ix_sneg, neg_mul']

end

/-! ## Bollinger -/

theorem rollStd_neg (w mp : Nat) (s : Series (Val ℝ)) : rollStd w mp (sneg s) = rollStd w mp s := by
  unfold rollStd
  refine roll_even _ _ fun x => ?_
  unfold aggStd
  dsimp only
  rw [valid_neg, List.length_map, sumL_neg, neg_div', List.map_map]
  have : ∀ (m a : Val ℝ), (Flt.neg a -. Flt.neg m) *. (Flt.neg a -. Flt.neg m) = (a -. m) *. (a -. m) := fun m a => by
    rw [neg_sub_neg', mul_neg', neg_mul', neg_neg']
  simp only [Function.comp_def, this]

theorem neg_bb_new (s : Series (Val ℝ)) (w : Nat) (d : Val ℝ) (b : Bool) : BB.new (sneg s) w d b =
    ⟨sneg (BB.new s w d b).close, sneg (BB.new s w d b).mavg, sneg (BB.new s w d b).lband,
      sneg (BB.new s w d b).hband, (BB.new s w d b).fillna⟩ := by
  unfold BB.new
  dsimp only
  rw [rollMean_neg, rollStd_neg, sadd_neg_left, ssub_neg_left]

theorem tame_bb (s : Series (Val ℝ)) (w : Nat) (d : ℝ) (b : Bool) :
    TameS (BB.new s w (.fin d) b).hband ∧ TameS (BB.new s w (.fin d) b).lband := by
  have hm := tame_rollMean w (minp b w) s
  have hs : TameS (rollStd w (minp b w) s) := .of fun i hi => by
    rw [ix_rollStd (by simpa using hi)]
    split_ifs
    · exact .inr ⟨_, rfl⟩
    · exact .inl rfl
  constructor
  all_goals
    refine .of fun i hi => ?_
    have hi1 : i < s.length := by simpa [BB.new, sadd, ssub, zip2, cmul] using hi
    unfold BB.new
    dsimp only
    first
    | rw [ix_sadd (by simpa using hi1), ix_cmul (by simpa using hi1)]
    | rw [ix_ssub (by simpa using hi1), ix_cmul (by simpa using hi1)]
    rcases hm i with e | ⟨x, e⟩
    · rw [e]; exact .inl (by simp)
    rcases hs i with e' | ⟨y, e'⟩
    · rw [e']; exact .inl (by simp)
    rw [e, e']
    simp only [fin_mul, fin_add, fin_sub]
    exact .inr ⟨_, rfl⟩

theorem neg_bbPband (s : Series (Val ℝ)) (w : Nat) (d : ℝ) :
    (BB.new (sneg s) w (.fin d) false).bollingerPband = (BB.new s w (.fin d) false).bollingerPband.map (compl 1) := by
  obtain ⟨hh, hl⟩ := tame_bb s w d false
  rw [neg_bb_new]
  have e1 : (BB.new s w (.fin d) false).hband.length = s.length := by simp [BB.new, sadd, zip2]
  have e2 : (BB.new s w (.fin d) false).lband.length = s.length := by simp [BB.new, ssub, zip2]
  have e3 : (BB.new s w (.fin d) false).close = s := rfl
  have e4 : (BB.new s w (.fin d) false).fillna = false := rfl
  unfold BB.bollingerPband
  dsimp only
  generalize BB.new s w (.fin d) false = o at *
  rw [e4, e3]
  unfold checkFillna
  simp only [Bool.false_eq_true, if_false]
  rw [ssub_neg, neg_ssub s _ e1]
  refine series_ext (by simp [sdiv, ssub, zip2, e1]) fun i hi => ?_
  have hi1 : i < s.length := by simpa [sdiv, ssub, zip2, e1] using hi
  rw [ix_map (by simpa [sdiv, ssub, zip2] using hi1), ix_sdiv (by simpa [ssub, zip2, e1] using hi1),
    ix_sdiv (by simpa [ssub, zip2] using hi1), ix_zip2 (by simpa [e2] using hi1), ix_zip2 (by simpa [e1] using hi1),
    ix_ssub (by rw [e1]; exact hi1), ix_ssub hi1, ix_sneg, ix_sneg]
  rw [ne_neg_neg', ne_comm', neg_sub_neg', neg_sub']
  split_ifs
  · exact ratio_compl_one (hl i) (hh i)
  · simp

/-! ## the law -/

/-- a row with the signs of the prices changed -/
noncomputable def Bar.flip (r : Bar (Val ℝ)) : Bar (Val ℝ) := ⟨Flt.neg r.low, Flt.neg r.high, Flt.neg r.close, r.volume⟩

/-- `MirrorKind.act` at the origin -/
noncomputable def MirrorKind.act0 : MirrorKind → Val ℝ → Val ℝ
  | .same, v => v
  | .negated, v => Flt.neg v
  | .reflected, v => Flt.neg v
  | .complement q, v => compl (q : ℝ) v

section
variable (b : List (Bar (Val ℝ)))

theorem highs_flip : highs (b.map Bar.flip) = sneg (lows b) := by
  unfold highs lows sneg; rw [List.map_map, List.map_map]; rfl
theorem lows_flip : lows (b.map Bar.flip) = sneg (highs b) := by
  unfold highs lows sneg; rw [List.map_map, List.map_map]; rfl
theorem closes_flip : closes (b.map Bar.flip) = sneg (closes b) := by
  unfold closes sneg; rw [List.map_map, List.map_map]; rfl
theorem volumes_flip : volumes (b.map Bar.flip) = volumes b := by
  unfold volumes; rw [List.map_map]; rfl

theorem emap_id {x : Except PyErr (Series (Val ℝ))} : x.map (List.map fun v => v) = x := by
  cases x with
  | error e => rfl
  | ok s => exact congrArg Except.ok (List.map_id s)

theorem emap2 {α β γ : Type} {x : Except PyErr α} {f : α → β} {g : α → γ} {f' : β → γ} (h : ∀ a, f' (f a) = g a) :
    (x.map f).map f' = x.map g := by
  cases x with
  | error e => rfl
  | ok a => exact congrArg Except.ok (h a)

theorem neg_aroonInd (h l : Series (Val ℝ)) (e : l.length = h.length) (w : Nat) (b : Bool) :
    (Aroon.new (sneg l) (sneg h) w b).map (·.aroonIndicator) = ((Aroon.new h l w b).map (·.aroonIndicator)).map sneg := by
  rw [neg_aroon]
  unfold Aroon.new
  split_ifs
  · rfl
  · refine congrArg Except.ok ?_
    unfold Aroon.aroonIndicator
    dsimp only
    rw [← fill0_neg, neg_ssub]
    simp [Aroon.run, e]

theorem no_some {α : Type} {a : α} {P : Prop} (h : none = some a) : P := by cases h

theorem c100 {s : Series (Val ℝ)} : s.map (compl 100) = s.map (MirrorKind.act0 (.complement 100)) := by
  unfold MirrorKind.act0; norm_num

theorem cm100 {s : Series (Val ℝ)} : s.map (compl (-100)) = s.map (MirrorKind.act0 (.complement (-100))) := by
  unfold MirrorKind.act0; norm_num

theorem c1 {s : Series (Val ℝ)} : s.map (compl 1) = s.map (MirrorKind.act0 (.complement 1)) := by
  unfold MirrorKind.act0; norm_num

theorem flip_law (fillna : Bool) (ind i' : Ind (Val ℝ)) (k : MirrorKind) (hk : ind.mirror fillna = some (i', k)) :
    ind.eval fillna (b.map Bar.flip) = (i'.eval fillna b).map (List.map k.act0) := by
  have e : (lows b).length = (highs b).length := by simp [lows, highs]
  have es : (closes b).length = (highs b).length := by simp [closes, highs]
  have h1 := highs_flip b
  have h2 := lows_flip b
  have h3 := closes_flip b
  have h4 := volumes_flip b
  cases ind
  all_goals simp only [Ind.mirror] at hk
  all_goals try exact no_some hk
  case tsi =>
    obtain ⟨rfl, rfl⟩ := Prod.mk.inj (Option.some.inj hk)
    simp only [Ind.eval, h1, h2, h3, h4]
    exact neg_tsi _ _ _
  case stoch =>
    obtain ⟨rfl, rfl⟩ := Prod.mk.inj (Option.some.inj hk)
    simp only [Ind.eval, h1, h2, h3, h4]
    exact congrArg Except.ok ((neg_stoch e es _ _).trans c100)
  case stochSignal =>
    obtain ⟨rfl, rfl⟩ := Prod.mk.inj (Option.some.inj hk)
    simp only [Ind.eval, h1, h2, h3, h4]
    exact congrArg Except.ok ((neg_stochSignal e es _ _ _).trans c100)
  case kama =>
    obtain ⟨rfl, rfl⟩ := Prod.mk.inj (Option.some.inj hk)
    simp only [Ind.eval, h1, h2, h3, h4]
    exact congrArg Except.ok (neg_kama _ _ _ _)
  case ao =>
    obtain ⟨rfl, rfl⟩ := Prod.mk.inj (Option.some.inj hk)
    simp only [Ind.eval, h1, h2, h3, h4]
    exact congrArg Except.ok (neg_ao e _ _ _)
  case williamsR =>
    obtain ⟨rfl, rfl⟩ := Prod.mk.inj (Option.some.inj hk)
    simp only [Ind.eval, h1, h2, h3, h4]
    exact congrArg Except.ok ((neg_wr e es _ _).trans cm100)
  case pvo =>
    obtain ⟨rfl, rfl⟩ := Prod.mk.inj (Option.some.inj hk)
    simp only [Ind.eval, h1, h2, h3, h4]
    exact emap_id.symm
  case pvoSignal =>
    obtain ⟨rfl, rfl⟩ := Prod.mk.inj (Option.some.inj hk)
    simp only [Ind.eval, h1, h2, h3, h4]
    exact emap_id.symm
  case pvoHist =>
    obtain ⟨rfl, rfl⟩ := Prod.mk.inj (Option.some.inj hk)
    simp only [Ind.eval, h1, h2, h3, h4]
    exact emap_id.symm
  case aroonUp =>
    obtain ⟨rfl, rfl⟩ := Prod.mk.inj (Option.some.inj hk)
    simp only [Ind.eval, h1, h2, h3, h4]
    exact (congrArg (Except.map _) (neg_aroon _ _)).trans ((emap2 fun _ => rfl).trans emap_id.symm)
  case aroonDown =>
    obtain ⟨rfl, rfl⟩ := Prod.mk.inj (Option.some.inj hk)
    simp only [Ind.eval, h1, h2, h3, h4]
    exact (congrArg (Except.map _) (neg_aroon _ _)).trans ((emap2 fun _ => rfl).trans emap_id.symm)
  case aroonInd =>
    obtain ⟨rfl, rfl⟩ := Prod.mk.inj (Option.some.inj hk)
    simp only [Ind.eval, h1, h2, h3, h4]
    exact neg_aroonInd _ _ e _ _
  case macd =>
    obtain ⟨rfl, rfl⟩ := Prod.mk.inj (Option.some.inj hk)
    simp only [Ind.eval, h1, h2, h3, h4]
    exact neg_macd _ _ _ _ _ (.inl rfl)
  case macdSignal =>
    obtain ⟨rfl, rfl⟩ := Prod.mk.inj (Option.some.inj hk)
    simp only [Ind.eval, h1, h2, h3, h4]
    exact neg_macd _ _ _ _ _ (.inr (.inl rfl))
  case macdDiff =>
    obtain ⟨rfl, rfl⟩ := Prod.mk.inj (Option.some.inj hk)
    simp only [Ind.eval, h1, h2, h3, h4]
    exact neg_macd _ _ _ _ _ (.inr (.inr rfl))
  case ema =>
    obtain ⟨rfl, rfl⟩ := Prod.mk.inj (Option.some.inj hk)
    simp only [Ind.eval, h1, h2, h3, h4]
    exact neg_ema _ _
  case sma =>
    obtain ⟨rfl, rfl⟩ := Prod.mk.inj (Option.some.inj hk)
    simp only [Ind.eval, h1, h2, h3, h4]
    exact congrArg Except.ok (neg_sma _ _)
  case massIndex =>
    obtain ⟨rfl, rfl⟩ := Prod.mk.inj (Option.some.inj hk)
    simp only [Ind.eval, h1, h2, h3, h4]
    exact (neg_mass e _ _ _).trans emap_id.symm
  case ichimokuConv =>
    obtain ⟨rfl, rfl⟩ := Prod.mk.inj (Option.some.inj hk)
    simp only [Ind.eval, h1, h2, h3, h4]
    exact congrArg Except.ok (neg_ichimokuConv e _ _)
  case ichimokuBase =>
    obtain ⟨rfl, rfl⟩ := Prod.mk.inj (Option.some.inj hk)
    simp only [Ind.eval, h1, h2, h3, h4]
    exact congrArg Except.ok (neg_ichimokuBase e _ _)
  case ichimokuA =>
    obtain ⟨rfl, rfl⟩ := Prod.mk.inj (Option.some.inj hk)
    simp only [Ind.eval, h1, h2, h3, h4]
    exact congrArg Except.ok (neg_ichimokuA e _ _ _ _)
  case ichimokuB =>
    obtain ⟨rfl, rfl⟩ := Prod.mk.inj (Option.some.inj hk)
    simp only [Ind.eval, h1, h2, h3, h4]
    exact congrArg Except.ok (neg_ichimokuB e _ _ _ _)
  case dpo =>
    obtain ⟨rfl, rfl⟩ := Prod.mk.inj (Option.some.inj hk)
    simp only [Ind.eval, h1, h2, h3, h4]
    exact congrArg Except.ok (neg_dpo _ _)
  case cci =>
    obtain ⟨rfl, rfl⟩ := Prod.mk.inj (Option.some.inj hk)
    simp only [Ind.eval, h1, h2, h3, h4]
    exact congrArg Except.ok (neg_cci e _ _ _)
  case adxPos =>
    obtain ⟨rfl, rfl⟩ := Prod.mk.inj (Option.some.inj hk)
    simp only [Ind.eval, h1, h2, h3, h4]
    exact (congrArg (Except.map _) (neg_adx_new e _ _)).trans ((emap2 fun _ => rfl).trans emap_id.symm)
  case adxNeg =>
    obtain ⟨rfl, rfl⟩ := Prod.mk.inj (Option.some.inj hk)
    simp only [Ind.eval, h1, h2, h3, h4]
    exact (congrArg (Except.map _) (neg_adx_new e _ _)).trans ((emap2 fun _ => rfl).trans emap_id.symm)
  case vortexDiff =>
    obtain ⟨rfl, rfl⟩ := Prod.mk.inj (Option.some.inj hk)
    simp only [Ind.eval, h1, h2, h3, h4]
    exact congrArg Except.ok (neg_vortexDiff e _ _)
  case atr =>
    obtain ⟨rfl, rfl⟩ := Prod.mk.inj (Option.some.inj hk)
    simp only [Ind.eval, h1, h2, h3, h4]
    exact (neg_atr e _ _).trans emap_id.symm
  case fi =>
    obtain ⟨rfl, rfl⟩ := Prod.mk.inj (Option.some.inj hk)
    simp only [Ind.eval, h1, h2, h3, h4]
    exact neg_fi _ _ _
  case wma =>
    split_ifs at hk with hc
    obtain ⟨rfl, rfl⟩ := Prod.mk.inj (Option.some.inj hk)
    simp only [Ind.eval, h1, h2, h3, h4]
    exact congrArg Except.ok (neg_wma _ _)
  case adx =>
    obtain ⟨rfl, rfl⟩ := Prod.mk.inj (Option.some.inj hk)
    simp only [Ind.eval, h1, h2, h3, h4]
    rw [neg_adx_new e]
    refine Eq.trans ?_ emap_id.symm
    cases ADX.new (highs b) (lows b) (closes b) _ fillna with
    | error e => rfl
    | ok o => exact adx_swap o
  case vortexPos =>
    obtain ⟨rfl, rfl⟩ := Prod.mk.inj (Option.some.inj hk)
    simp only [Ind.eval, h1, h2, h3, h4]
    unfold vortexPos vortexNeg
    rw [neg_vip e]; exact (emap_id (x := .ok _)).symm
  case vortexNeg =>
    obtain ⟨rfl, rfl⟩ := Prod.mk.inj (Option.some.inj hk)
    simp only [Ind.eval, h1, h2, h3, h4]
    unfold vortexPos vortexNeg
    rw [neg_vin e]; exact (emap_id (x := .ok _)).symm
  case stc =>
    split_ifs at hk with hc
    obtain ⟨rfl, rfl⟩ := Prod.mk.inj (Option.some.inj hk)
    simp only [Ind.eval, h1, h2, h3, h4]
    rw [hc, neg_stc]; exact congrArg (fun f => Except.map f _) (funext fun _ => c100)
  case bbMavg =>
    obtain ⟨rfl, rfl⟩ := Prod.mk.inj (Option.some.inj hk)
    simp only [Ind.eval, h1, h2, h3, h4]
    rw [neg_bb_new]; exact congrArg Except.ok (fillBack_neg _ _)
  case bbHband =>
    obtain ⟨rfl, rfl⟩ := Prod.mk.inj (Option.some.inj hk)
    simp only [Ind.eval, h1, h2, h3, h4]
    rw [neg_bb_new]; exact congrArg Except.ok (fillBack_neg _ _)
  case bbLband =>
    obtain ⟨rfl, rfl⟩ := Prod.mk.inj (Option.some.inj hk)
    simp only [Ind.eval, h1, h2, h3, h4]
    rw [neg_bb_new]; exact congrArg Except.ok (fillBack_neg _ _)
  case bbPband w d =>
    cases d with
    | fin d =>
      simp only at hk
      split_ifs at hk with hc
      obtain ⟨rfl, rfl⟩ := Prod.mk.inj (Option.some.inj hk)
      simp only [Ind.eval, h3]
      rw [hc]
      exact congrArg Except.ok ((neg_bbPband _ _ _).trans c1)
    | nan => exact no_some hk
    | pinf => exact no_some hk
    | ninf => exact no_some hk
  case bbHi =>
    obtain ⟨rfl, rfl⟩ := Prod.mk.inj (Option.some.inj hk)
    simp only [Ind.eval, h1, h2, h3, h4]
    rw [neg_bb_new]
    unfold BB.bollingerHbandIndicator BB.bollingerLbandIndicator
    dsimp only
    rw [gtFlag_neg]; exact (emap_id (x := .ok _)).symm
  case bbLi =>
    obtain ⟨rfl, rfl⟩ := Prod.mk.inj (Option.some.inj hk)
    simp only [Ind.eval, h1, h2, h3, h4]
    rw [neg_bb_new]
    unfold BB.bollingerHbandIndicator BB.bollingerLbandIndicator
    dsimp only
    rw [ltFlag_neg]; exact (emap_id (x := .ok _)).symm
  case kcMband =>
    obtain ⟨rfl, rfl⟩ := Prod.mk.inj (Option.some.inj hk)
    simp only [Ind.eval, h1, h2, h3, h4]
    rw [neg_kc_new e]
    exact (emap2 (g := fun o => sneg (Keltner.mband o)) fun o => fillBack_neg _ _).trans (emap2 fun _ => rfl).symm
  case kcHband =>
    obtain ⟨rfl, rfl⟩ := Prod.mk.inj (Option.some.inj hk)
    simp only [Ind.eval, h1, h2, h3, h4]
    rw [neg_kc_new e]
    exact (emap2 (g := fun o => sneg (Keltner.lband o)) fun o => fillBack_neg _ _).trans (emap2 fun _ => rfl).symm
  case kcLband =>
    obtain ⟨rfl, rfl⟩ := Prod.mk.inj (Option.some.inj hk)
    simp only [Ind.eval, h1, h2, h3, h4]
    rw [neg_kc_new e]
    exact (emap2 (g := fun o => sneg (Keltner.hband o)) fun o => fillBack_neg _ _).trans (emap2 fun _ => rfl).symm
  case kcHi =>
    obtain ⟨rfl, rfl⟩ := Prod.mk.inj (Option.some.inj hk)
    simp only [Ind.eval, h1, h2, h3, h4]
    rw [neg_kc_new e]
    refine (emap2 (g := Keltner.lbandIndicator) fun o => ?_).trans emap_id.symm
    unfold Keltner.hbandIndicator Keltner.lbandIndicator
    dsimp only
    rw [gtFlag_neg]
  case kcLi =>
    obtain ⟨rfl, rfl⟩ := Prod.mk.inj (Option.some.inj hk)
    simp only [Ind.eval, h1, h2, h3, h4]
    rw [neg_kc_new e]
    refine (emap2 (g := Keltner.hbandIndicator) fun o => ?_).trans emap_id.symm
    unfold Keltner.hbandIndicator Keltner.lbandIndicator
    dsimp only
    rw [ltFlag_neg]
  case kcPband w wa o m =>
    cases o with
    | true =>
      simp only at hk
      split_ifs at hk with hc
      obtain ⟨rfl, rfl⟩ := Prod.mk.inj (Option.some.inj hk)
      simp only [Ind.eval, h1, h2, h3]
      rw [hc, neg_kc_pband e es]
      exact congrArg (fun f => Except.map f _) (funext fun _ => c1)
    | false => exact no_some hk
  case dcHband =>
    obtain ⟨rfl, rfl⟩ := Prod.mk.inj (Option.some.inj hk)
    simp only [Ind.eval, h1, h2, h3, h4]
    rw [neg_dc_new]
    refine (emap2 (g := fun o => sneg (Donchian.lband o)) fun o => ?_).trans (emap2 fun _ => rfl).symm
    show o.off _ = sneg (o.off _)
    rw [← off_neg, ← fillBack_neg]
  case dcLband =>
    obtain ⟨rfl, rfl⟩ := Prod.mk.inj (Option.some.inj hk)
    simp only [Ind.eval, h1, h2, h3, h4]
    rw [neg_dc_new]
    refine (emap2 (g := fun o => sneg (Donchian.hband o)) fun o => ?_).trans (emap2 fun _ => rfl).symm
    show o.off _ = sneg (o.off _)
    rw [← off_neg, ← fillBack_neg]
  case dcMband =>
    obtain ⟨rfl, rfl⟩ := Prod.mk.inj (Option.some.inj hk)
    simp only [Ind.eval, h1, h2, h3, h4]
    exact neg_dc_mband e _ _ _
  case dcPband =>
    split_ifs at hk with hc
    obtain ⟨rfl, rfl⟩ := Prod.mk.inj (Option.some.inj hk)
    simp only [Ind.eval, h1, h2, h3, h4]
    rw [hc, neg_dc_pband e es]; exact congrArg (fun f => Except.map f _) (funext fun _ => c1)
  case adi =>
    obtain ⟨rfl, rfl⟩ := Prod.mk.inj (Option.some.inj hk)
    simp only [Ind.eval, h1, h2, h3, h4]
    refine congrArg Except.ok ?_
    unfold accDistIndex ADI.run
    rw [neg_clv e es, smul_neg, cumsum_neg, fill0_neg]
    rfl
  case cmf =>
    obtain ⟨rfl, rfl⟩ := Prod.mk.inj (Option.some.inj hk)
    simp only [Ind.eval, h1, h2, h3, h4]
    refine congrArg Except.ok ?_
    unfold chaikinMoneyFlow CMF.run
    rw [neg_clv e es, smul_neg, rollSum_neg, sdiv_neg, fill0_neg]
    rfl
  case eom =>
    obtain ⟨rfl, rfl⟩ := Prod.mk.inj (Option.some.inj hk)
    simp only [Ind.eval, h1, h2, h3, h4]
    refine congrArg Except.ok ?_
    unfold easeOfMovement
    rw [neg_eom e, fill0_neg]
    rfl
  case smaEom =>
    obtain ⟨rfl, rfl⟩ := Prod.mk.inj (Option.some.inj hk)
    simp only [Ind.eval, h1, h2, h3, h4]
    refine congrArg Except.ok ?_
    unfold smaEaseOfMovement
    rw [neg_eom e, rollMean_neg, fill0_neg]
    rfl
  case vwap =>
    split_ifs at hk with hc
    obtain ⟨rfl, rfl⟩ := Prod.mk.inj (Option.some.inj hk)
    simp only [Ind.eval, h1, h2, h3, h4]
    exact congrArg Except.ok (neg_vwap e _ _ _)

theorem mirror_shiftKind (fillna : Bool) (ind i' : Ind (Val ℝ)) (k : MirrorKind) (hk : ind.mirror fillna = some (i', k)) :
    ind.shiftKind fillna = if k = .reflected then .moves else .fixed := by
  cases ind
  all_goals simp only [Ind.mirror] at hk
  all_goals try exact no_some hk
  case bbPband w d =>
    cases d
    all_goals simp only at hk
    all_goals try exact no_some hk
    split_ifs at hk
    obtain ⟨-, rfl⟩ := Prod.mk.inj (Option.some.inj hk)
    rfl
  case kcPband w wa o m =>
    cases o
    all_goals simp only at hk
    all_goals try exact no_some hk
    split_ifs at hk
    obtain ⟨-, rfl⟩ := Prod.mk.inj (Option.some.inj hk)
    rfl
  all_goals try
    obtain ⟨-, rfl⟩ := Prod.mk.inj (Option.some.inj hk)
    rfl
  all_goals
    split_ifs at hk with hc
    obtain ⟨-, rfl⟩ := Prod.mk.inj (Option.some.inj hk)
    simp [Ind.shiftKind, hc]

/-- C69.  For 55 of the 84 outputs: on prices turned upside down (`p` replaced by `c - p`, high and low exchanged), an
output is what the table says — itself, its negative, its reflection, its complement, or one of those of its
counterpart.  On any data, gaps and infinities included, errors included. -/
theorem mirror_law (c : ℝ) (fillna : Bool) (ind i' : Ind (Val ℝ)) (k : MirrorKind) (hk : ind.mirror fillna = some (i', k)) :
    ind.eval fillna (b.map (Bar.mirror c)) = (i'.eval fillna b).map (List.map (k.act c)) := by
  have e : b.map (Bar.mirror c) = (b.map Bar.flip).map (Bar.aff 1 c) := by
    rw [List.map_map]
    refine List.map_congr_left fun r _ => ?_
    show Bar.mk _ _ _ _ = Bar.mk _ _ _ _
    simp only [Bar.flip, price, one_mul', ← compl_eq]
  have hs := mirror_shiftKind fillna ind i' k hk
  have hf := flip_law b fillna ind i' k hk
  rw [e]
  cases k with
  | reflected =>
    rw [shift_moves c ind fillna hs, hf]
    exact emap2 fun a => by
      rw [List.map_map]
      exact List.map_congr_left fun v _ => (compl_eq c v).symm
  | same => rw [shift_fixed c ind fillna hs, hf]; rfl
  | negated => rw [shift_fixed c ind fillna hs, hf]; rfl
  | complement q => rw [shift_fixed c ind fillna hs, hf]; rfl
end

section
variable {K : Type} [Field K] [LinearOrder K] [IsStrictOrderedRing K]

/-- C69.  The RSI of mirrored closes is the complement to 100 once a close has changed; while the close has never moved both
are 100 (window at least 2; with window 1 only the last change counts). -/
theorem rsi_mirror (c : K) (n : Nat) (x : Nat → K) (w : Nat) (hw : 2 ≤ w) (fillna : Bool) :
    ∃ out out' f f', rsi (ser n x) w fillna = .ok out ∧ rsi (ser n fun i => c - x i) w fillna = .ok out' ∧
      Def out n (if fillna then 0 else w - 1) f ∧ Def out' n (if fillna then 0 else w - 1) f' ∧
      ∀ i, ((∃ j, j < i ∧ x (j + 1) ≠ x j) → f' i = 100 - f i) ∧
        ((∀ j, j < i → x (j + 1) = x j) → f i = 100 ∧ f' i = 100) := by
  obtain ⟨U, D, U0, D0, U1, D1, h0, out, ho, hd, _⟩ := rsi_formula n x w (by omega) fillna
  obtain ⟨U', D', U0', D0', U1', D1', _, out', ho', hd', _⟩ := rsi_formula n (fun i => c - x i) w (by omega) fillna
  have eU : ∀ i, U' i = D i := fun i => by
    induction i with
    | zero => rw [U0', D0]
    | succ i ih => rw [U1', D1, ih]; congr 3; ring
  have eD : ∀ i, D' i = U i := fun i => by
    induction i with
    | zero => rw [D0', U0]
    | succ i ih => rw [D1', U1, ih]; congr 3; ring
  have hw0 : (0 : K) < 1 / w := wilder_pos w (by omega)
  have hw1 : (0 : K) < 1 - 1 / w := by
    have h2 : (2 : K) ≤ w := by exact_mod_cast hw
    have : 1 / (w : K) < 1 := by rw [div_lt_one (by linarith)]; linarith
    linarith
  have hpos : ∀ j, x (j + 1) ≠ x j → ∀ i, j < i → 0 < U i + D i := by
    intro j hj i
    induction i with
    | zero => intro h; omega
    | succ i ih =>
      intro hi
      have e : U (i + 1) + D (i + 1) = (1 - 1 / (w : K)) * (U i + D i)
          + 1 / (w : K) * (max (x (i + 1) - x i) 0 + max (x i - x (i + 1)) 0) := by rw [U1, D1]; ring
      have m1 : 0 ≤ max (x (i + 1) - x i) 0 := le_max_right _ _
      have m2 : 0 ≤ max (x i - x (i + 1)) 0 := le_max_right _ _
      have hs := h0 i
      rw [e]
      by_cases hji : j = i
      · subst hji
        have : 0 < max (x (j + 1) - x j) 0 + max (x j - x (j + 1)) 0 := by
          rcases lt_or_gt_of_ne hj with h | h
          · have := le_max_left (x j - x (j + 1)) 0; linarith
          · have := le_max_left (x (j + 1) - x j) 0; linarith
        have h1 := mul_pos hw0 this
        have h2 := mul_nonneg hw1.le (add_nonneg hs.1 hs.2)
        linarith
      · have h1 := mul_pos hw1 (ih (by omega))
        have h2 := mul_nonneg hw0.le (add_nonneg m1 m2)
        linarith
  refine ⟨out, out', _, _, ho, ho', hd, hd', fun i => ⟨fun ⟨j, hj, hne⟩ => ?_, fun hall => ?_⟩⟩
  · have hp := hpos j hne i hj
    have hs := h0 i
    rw [eU, eD]
    by_cases hU : U i = 0
    · rw [if_pos hU, if_neg (by intro h; rw [hU, h] at hp; simp at hp), hU]
      ring
    · rw [if_neg hU]
      by_cases hD : D i = 0
      · rw [if_pos hD, hD]; simp
      · rw [if_neg hD]
        have : U i + D i ≠ 0 := hp.ne'
        rw [add_comm (D i)]
        field_simp
        ring
  · have z : ∀ j, j ≤ i → U j = 0 ∧ D j = 0 := fun j => by
      induction j with
      | zero => exact fun _ => ⟨U0, D0⟩
      | succ j ih =>
        intro hj
        obtain ⟨a, b⟩ := ih (by omega)
        rw [U1, D1, a, b, hall j (by omega)]
        simp
    obtain ⟨a, b⟩ := z i (le_refl _)
    rw [eU, eD, a, b]
    simp

/-- C69.  The ultimate oscillator of mirrored bars is the complement to 100, at every row whose three windows contain a
non-zero true range. -/
theorem uo_mirror (k : K) (n : Nat) (h l c : Nat → K) (hl : ∀ i, i < n → l i ≤ c i ∧ c i ≤ h i) (w1 w2 w3 : Nat)
    (p1 : 1 ≤ w1) (p2 : 1 ≤ w2) (p3 : 1 ≤ w3) (a b d : K) (hs : a + b + d ≠ 0) (i : Nat) (hi : i < n)
    (hm : max w1 (max w2 w3) ≤ i)
    (hne : ∀ w, w = w1 ∨ w = w2 ∨ w = w3 →
      ∑ j ∈ Finset.Ioc (i - w) i, (max (h j) (c (j - 1)) - min (l j) (c (j - 1))) ≠ 0) :
    ∃ v, ix (ultimateOscillator (ser n h) (ser n l) (ser n c) w1 w2 w3 (.fin a) (.fin b) (.fin d) false) i = .fin v ∧
      ix (ultimateOscillator (ser n fun i => k - l i) (ser n fun i => k - h i) (ser n fun i => k - c i)
        w1 w2 w3 (.fin a) (.fin b) (.fin d) false) i = .fin (100 - v) := by
  have f := (uo_formula n h l c hl w1 w2 w3 p1 p2 p3 a b d hs).2.2 i hi hm
  have f' := (uo_formula n (fun i => k - l i) (fun i => k - h i) (fun i => k - c i)
    (fun i hi => ⟨by linarith [(hl i hi).2], by linarith [(hl i hi).1]⟩) w1 w2 w3 p1 p2 p3 a b d hs).2.2 i hi hm
  dsimp only at f f'
  have emin : ∀ x y : K, min (k - x) (k - y) = k - max x y := fun x y => min_sub_sub_left k x y
  have emax : ∀ x y : K, max (k - x) (k - y) = k - min x y := fun x y => max_sub_sub_left k x y
  simp only [emin, emax] at f'
  have etr : ∀ x y : K, k - x - (k - y) = y - x := fun x y => by ring
  simp only [etr] at f'
  refine ⟨_, f hne, ?_⟩
  rw [f' hne, fin_inj]
  have key : ∀ w, w = w1 ∨ w = w2 ∨ w = w3 →
      (∑ j ∈ Finset.Ioc (i - w) i, (max (h j) (c (j - 1)) - c j))
        / (∑ j ∈ Finset.Ioc (i - w) i, (max (h j) (c (j - 1)) - min (l j) (c (j - 1))))
      = 1 - (∑ j ∈ Finset.Ioc (i - w) i, (c j - min (l j) (c (j - 1))))
        / (∑ j ∈ Finset.Ioc (i - w) i, (max (h j) (c (j - 1)) - min (l j) (c (j - 1)))) := fun w hw => by
    rw [eq_sub_iff_add_eq, ← add_div, ← Finset.sum_add_distrib]
    rw [show (fun j => max (h j) (c (j - 1)) - c j + (c j - min (l j) (c (j - 1))))
      = fun j => max (h j) (c (j - 1)) - min (l j) (c (j - 1)) from funext fun j => by ring]
    exact div_self (hne w hw)
  rw [key w1 (by simp), key w2 (by simp), key w3 (by simp)]
  field_simp
  ring

end
/-! ## Examples -/

attribute [local instance] toyFn

/-- five bars and their mirror images about 10 -/
def fiveMirrored : List (Bar (Val ℚ)) := fiveBars.map (Bar.mirror 20)

/-- the upper Donchian band of the mirror image against the lower band of the bars -/
example : (Ind.dcHband 2 0).eval false fiveMirrored = .ok [.nan, .fin 19, .fin 18, .fin 17, .fin 17] ∧
    (Ind.dcLband 2 0).eval false fiveBars = .ok [.nan, .fin 1, .fin 2, .fin 3, .fin 3] := by decide +kernel

/-- the stochastic: complements to 100 -/
example : (Ind.stoch 2).eval false fiveMirrored = .ok [.nan, .fin 25, .fin 25, .fin (200/3), .fin (50/3)] ∧
    (Ind.stoch 2).eval false fiveBars = .ok [.nan, .fin 75, .fin 75, .fin (100/3), .fin (250/3)] := by decide +kernel

/-- the MACD line: negatives -/
example : (Ind.macd 3 2 2).eval false fiveMirrored = .ok [.nan, .nan, .fin (-4/9), .fin (-4/27), .fin (-58/81)] ∧
    (Ind.macd 3 2 2).eval false fiveBars = .ok [.nan, .nan, .fin (4/9), .fin (4/27), .fin (58/81)] := by decide +kernel

/-- the RSI: complements to 100 -/
example : (Ind.rsi 2).eval false fiveMirrored = .ok [.nan, .fin 0, .fin 0, .fin 50, .fin 10] ∧
    (Ind.rsi 2).eval false fiveBars = .ok [.nan, .fin 100, .fin 100, .fin 50, .fin 90] := by decide +kernel

/-- the ultimate oscillator: complements to 100 -/
example : (Ind.uo 1 1 1 (lit 4) (lit 2) (lit 1)).eval false fiveMirrored
      = .ok [.nan, .fin (100/3), .fin 50, .fin (200/3), .fin 20] ∧
    (Ind.uo 1 1 1 (lit 4) (lit 2) (lit 1)).eval false fiveBars
      = .ok [.nan, .fin (200/3), .fin 50, .fin (100/3), .fin 80] := by decide +kernel

/-- C69.  Where there is no such law: the RSI of closes that have not moved is 100 on both sides; an unchanged close counts
as a rise for the OBV; the parabolic SAR always begins in an up trend, so it is not the reflection; with filling the
leading rows of the WMA are 0 on both sides. -/
theorem mirror_asymmetric :
    (Ind.rsi 2).eval false ([2, 2].map fun x => qbar x x x 1) = .ok [.nan, .fin 100] ∧
    (Ind.rsi 2).eval false (([2, 2].map fun x => qbar x x x 1).map (Bar.mirror 10)) = .ok [.nan, .fin 100] ∧
    Ind.obv.eval false [qbar 3 1 2 5, qbar 3 1 2 7] = .ok [.fin 5, .fin 12] ∧
    Ind.obv.eval false ([qbar 3 1 2 5, qbar 3 1 2 7].map (Bar.mirror 4)) = .ok [.fin 5, .fin 12] ∧
    (Ind.psar (lit (1/50)) (lit (1/5))).eval false fiveBars
      = .ok [.fin 2, .fin 4, .fin 1, .fin (6/5), .fin (174/125)] ∧
    (Ind.psar (lit (1/50)) (lit (1/5))).eval false fiveMirrored
      = .ok [.fin 18, .fin 16, .fin 19, .fin (189/10), .fin (9401/500)] ∧
    (Ind.wma 2).eval true (fiveBars.take 2) = .ok [.fin 0, .fin (10/3)] ∧
    (Ind.wma 2).eval true (fiveMirrored.take 2) = .ok [.fin 0, .fin (50/3)] := by decide +kernel

end TA
