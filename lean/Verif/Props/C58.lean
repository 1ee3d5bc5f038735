import Verif.Lemmas.Round
import Verif.Props.C27
import Verif.Props.C21
import Verif.Lemmas.Shape
import Verif.Lemmas.NewEq
import Verif.Lemmas.Toy

/-!
# C58: bounds under rounding

Every operation is computed exactly and then rounded by an arbitrary `Rounding`; `binary64` is IEEE double precision.
Sums of a window are taken left to right; the pandas rolling sum, mean and variance kernels and numpy's pairwise
summation add in another order, so only outputs that do not depend on the order are treated here.
-/

set_option linter.unusedSectionVars false

namespace TA
variable {K : Type} [Field K] [LinearOrder K] [IsStrictOrderedRing K] {R : Rounding K}

/-- Every row is NaN or a number between `a` and `b`; no infinity. -/
def Within (a b : K) (s : Series (Rval R)) : Prop := ∀ v ∈ s, v = Val.nan ∨ ∃ x : K, v = Val.fin x ∧ a ≤ x ∧ x ≤ b

/-- Every row is NaN, `+inf`, or a number that is at least 0. -/
def NonNeg (s : Series (Rval R)) : Prop := ∀ v ∈ s, v = Val.nan ∨ v = Val.pinf ∨ ∃ x : K, v = Val.fin x ∧ 0 ≤ x

theorem NonNeg.of {s : Series (Rval R)} (h : Every Nn s) : NonNeg s := by
  intro v hv
  have := h v hv
  cases v with
  | nan => exact .inl rfl
  | pinf => exact .inr (.inl rfl)
  | ninf => exact absurd this ge_ninf
  | fin x => exact .inr (.inr ⟨x, rfl, ge_fin.mp this⟩)

theorem lit_in {a b : K} (ha : R.rd a = .fin a) (hb : R.rd b = .fin b) {q : ℚ} (h1 : a ≤ q) (h2 : (q : K) ≤ b) :
    In a b (lit q : Rval R) := R.mem ha hb (v := .fin _) (.inr ⟨_, rfl, h1, h2⟩)

/-! ## RSI and MFI -/

theorem every_up (s : Series (Rval R)) : Every Nn (RSI.up s) := by
  refine Every.map (P := fun _ => True) (fun _ _ => trivial) fun v _ => ?_
  split_ifs with h
  · rw [lit0] at h
    change Val.lt (.fin 0) v = true at h
    show Ge 0 v
    cases v with
    | fin x => exact ge_fin.mpr (by simpa [Val.lt] using h : (0 : K) < x).le
    | _ => revert h; simp [Val.lt]
  · exact Nn.lit0

theorem every_down (s : Series (Rval R)) : Every Nn (RSI.down s) := by
  refine Every.map (P := fun _ => True) (fun _ _ => trivial) fun v _ => ?_
  split_ifs with h
  · rw [lit0] at h
    change Val.lt v (.fin 0) = true at h
    show Ge 0 (Val.neg v)
    cases v with
    | fin x =>
      have : x < 0 := by simpa [Val.lt] using h
      exact ge_fin.mpr (by linarith)
    | _ => revert h; simp [Val.lt, Val.neg]
  · rw [lit0]; exact ge_fin.mpr (by simp)

/-- C58: whatever the data, the rounding, the window and the flag, RSI is NaN or in [0, 100]. -/
theorem rsi_rounded (s : Series (Rval R)) (w : Nat) (fillna : Bool) {out : Series (Rval R)}
    (ho : rsi s w fillna = .ok out) : Within 0 100 out := by
  unfold rsi at ho
  split_ifs at ho with hw
  rw [← Except.ok.inj ho]
  have ha : In 0 1 (RSI.alpha w : Rval R) := wilderAlpha_mem (by omega)
  refine Every.fill (P := In 0 100) ?_ In.nan (lit_in R.zero R.hundred (by norm_num) (by norm_num)) fillna
  unfold RSI.run
  refine Every.zip2 ((every_up s).ewmNn ha _) ((every_down s).ewmNn ha _) Nn.nan Nn.nan fun u d hu hd => ?_
  split_ifs
  · rw [lit100]; exact .inr ⟨100, rfl, by norm_num, le_refl _⟩
  · exact squash (hu.div hd)

/-- C58: whatever the data, the rounding, the window and the flag, MFI is NaN or in [0, 100]. -/
theorem mfi_rounded (h l c v : Series (Rval R)) (w : Nat) (fillna : Bool) :
    Within 0 100 (moneyFlowIndex h l c v w fillna) := by
  unfold moneyFlowIndex
  refine Every.fill (P := In 0 100) ?_ In.nan (lit_in R.zero R.hundred (by norm_num) (by norm_num)) fillna
  unfold MFI.run
  generalize MFI.flow h l c v = f
  have hp : Every Nn (rollApply MFI.pos w (minp fillna w) f) := by
    refine Every.roll (P := fun _ => True) (fun _ _ => trivial) trivial (fun x _ => ?_) w
    unfold aggApply
    split_ifs
    · unfold MFI.pos
      refine Every.sumL (Every.map (P := fun _ => True) (fun _ _ => trivial) fun y _ => ?_) Nn.lit0
        fun a b ha hb => ha.add hb
      split_ifs with h1
      · rw [lit0] at h1; exact .inr h1
      · exact Nn.lit0
    · exact Nn.nan
  have hn : Every Nn (sabs (rollApply MFI.neg w (minp fillna w) f)) :=
    Every.map (P := fun _ => True) (fun _ _ => trivial) fun y _ => Nn.abs y
  have hr : Every Nn (sdiv (rollApply MFI.pos w (minp fillna w) f) (sabs (rollApply MFI.neg w (minp fillna w) f))) :=
    Every.zip2 hp hn Nn.nan Nn.nan fun a b ha hb => ha.div hb
  unfold csub cdiv cadd
  rw [List.map_map, List.map_map]
  exact hr.map fun r hr => squash hr

/-! ## Aroon -/

theorem aroon_line_rounded (g : List (Rval R) → Nat) (hg : ∀ l, g l < max 1 l.length) (s : Series (Rval R)) (w mp : Nat) :
    Every (In 0 100) (rollApply (fun x => natF (g x) /. natF w *. lit 100) (w + 1) mp s) := by
  refine Every.tab fun i _ => ?_
  unfold aggApply
  dsimp only
  split_ifs
  · generalize hl : lastN (w + 1) (List.take (i + 1) (s.map clean)) = l
    have hlen : l.length ≤ w + 1 := by rw [← hl]; unfold lastN; simp; omega
    have hk : g l ≤ w := by have := hg l; omega
    have h1 : In 0 1 ((natF (g l) : Rval R) /. natF w) := by
      refine R.mem R.zero R.one (vratio ?_ ?_)
      · have := R.mono (show (0 : K) ≤ ((g l : ℚ) : K) by positivity)
        rwa [R.zero] at this
      · exact R.mono (by exact_mod_cast hk)
    rw [lit100]
    refine R.mem R.zero R.hundred ?_
    rcases h1 with e | ⟨x, e, h2, h3⟩
    · rw [e]; exact .inl rfl
    · rw [e]; exact .inr ⟨x * 100, rfl, by positivity, by linarith⟩
  · exact In.nan

/-- C58: whatever the data and the rounding, the Aroon lines are NaN or in [0, 100], their difference NaN or in
[-100, 100]. -/
theorem aroon_rounded {h l : Series (Rval R)} {w : Nat} {fillna : Bool} {o : Aroon (Rval R)}
    (ho : Aroon.new h l w fillna = .ok o) :
    Within 0 100 o.aroonUp ∧ Within 0 100 o.aroonDown ∧ Within (-100) 100 o.aroonIndicator := by
  unfold Aroon.new at ho
  split_ifs at ho
  rw [← Except.ok.inj ho]
  have hz : In 0 100 (lit 0 : Rval R) := lit_in R.zero R.hundred (by norm_num) (by norm_num)
  have hu : Every (In 0 100) (Aroon.run h l w fillna).up :=
    aroon_line_rounded argmax (fun x => (argmax_lt x).1) h w _
  have hd : Every (In 0 100) (Aroon.run h l w fillna).down :=
    aroon_line_rounded argmin (fun x => (argmax_lt x).2) l w _
  have hm := R.rd_neg R.hundred
  refine ⟨hu.fill In.nan hz _, hd.fill In.nan hz _, ?_⟩
  refine Every.fill (P := In (-100) 100) (hu.zip2 hd In.nan In.nan fun a b ha hb => ?_) In.nan
    (lit_in hm R.hundred (by norm_num) (by norm_num)) _
  refine R.mem hm R.hundred ?_
  rcases ha with rfl | ⟨x, rfl, h1, h2⟩
  · exact .inl rfl
  rcases hb with rfl | ⟨y, rfl, h3, h4⟩
  · exact .inl rfl
  exact .inr ⟨x - y, by simp [Val.sub, Val.add, Val.neg, sub_eq_add_neg], by linarith, by linarith⟩

/-! ## positions in a range -/

/-- a number, as a rounded value -/
def rv (R : Rounding K) (x : K) : Rval R := Val.fin x

theorem rv_sub (x y : K) : (rv R x -. rv R y) = R.rd (x - y) := by
  show R.rnd (Val.sub (.fin x) (.fin y)) = _
  simp [Val.sub, Val.add, Val.neg, Rounding.rnd, sub_eq_add_neg]

/-- `(x - a) / (b - a)` with `a ≤ x ≤ b` -/
theorem position {a x b : K} (h1 : a ≤ x) (h2 : x ≤ b) : In 0 1 ((rv R x -. rv R a) /. (rv R b -. rv R a)) := by
  rw [rv_sub, rv_sub]
  refine R.mem R.zero R.one (vratio ?_ (R.mono (by linarith)))
  have := R.mono (show (0 : K) ≤ x - a by linarith)
  rwa [R.zero] at this

theorem position' {c m M : Rval R} (h : c = (Val.nan : Val K) ∨ m = (Val.nan : Val K) ∨ M = (Val.nan : Val K) ∨
    ∃ a z b : K, c = rv R z ∧ m = rv R a ∧ M = rv R b ∧ a ≤ z ∧ z ≤ b) : In 0 1 ((c -. m) /. (M -. m)) := by
  rcases h with h | h | h | ⟨a, z, b, rfl, rfl, rfl, h1, h2⟩
  · left
    show R.rnd (Val.div (R.rnd (Val.sub c m)) _) = _
    rw [h]; rfl
  · left
    show R.rnd (Val.div (R.rnd (Val.sub c m)) _) = _
    rw [h]; cases c <;> rfl
  · left
    show R.rnd (Val.div (R.rnd (Val.sub c m)) (R.rnd (Val.sub M m))) = _
    generalize R.rnd (Val.sub c m) = x
    rw [h]
    cases x <;> rfl
  · exact position h1 h2

/-- the position of `c` between the lowest low and the highest high of the last rows -/
theorem window_position {h l : Series (Rval R)} {w mp i : Nat} {c : Rval R} (hih : i < h.length)
    (hil : i < l.length) (hr : BarRow (K := K) (ix h i : Rval R) (ix l i : Rval R) c) :
    In 0 1 ((c -. ix (rollMin w mp l) i) /. (ix (rollMax w mp h) i -. ix (rollMin w mp l) i)) := by
  refine position' ?_
  rcases hr with ⟨_, _, hc⟩ | ⟨x, y, z, hx, hy, hc, h1, h2⟩
  · exact .inl hc
  rcases rollMin_cases (K := K) l w mp i hil with hm | ⟨a, hm, hma, ha⟩
  · exact .inr (.inl hm)
  rcases rollMax_cases (K := K) h w mp i hih with hM | ⟨b, hM, hMb, hb⟩
  · exact .inr (.inr (.inl hM))
  have hw1 : 1 ≤ w := by
    obtain ⟨j, q1, q2, _⟩ := mem_obs.mp hma
    omega
  exact .inr (.inr (.inr ⟨a, z, b, hc, hm, hM, (ha y (mem_obs.mpr ⟨i, le_refl _, by omega, hy⟩)).trans h1,
    h2.trans (hb x (mem_obs.mpr ⟨i, le_refl _, by omega, hx⟩))⟩))

/-- C58: whatever the data and the rounding, StochRSI is NaN or in [0, 1]. -/
theorem stochrsi_rounded (s : Series (Rval R)) (w s1 s2 : Nat) (fillna : Bool) {o : StochRSI (Rval R)}
    (ho : StochRSI.new s w s1 s2 fillna = .ok o) : Within 0 1 o.stochrsi := by
  unfold StochRSI.new at ho
  cases hr : rsi s w fillna with
  | error e => rw [hr] at ho; cases ho
  | ok r =>
    rw [hr] at ho
    have hrr := rsi_rounded s w fillna hr
    have e := Except.ok.inj ho
    have hw : 1 ≤ w := by
      unfold rsi at hr
      split_ifs at hr
      omega
    rw [← e]
    unfold StochRSI.stochrsi
    refine Every.fill (P := In 0 1) ?_ In.nan (lit_in R.zero R.one (by norm_num) (by norm_num)) fillna
    unfold StochRSI.ofRsi
    dsimp only
    refine Every.tab fun i hi => ?_
    rw [length_ssub] at hi
    rw [ix_ssub hi, ix_ssub (by simpa using hi)]
    refine window_position hi hi ?_
    rcases (Every.ix (P := In 0 100) hrr In.nan i) with e | ⟨x, e, _⟩
    · exact .inl ⟨e, e, e⟩
    · exact .inr ⟨x, x, x, e, e, e, le_refl _, le_refl _⟩

/-- bars, some of which may be missing -/
def BarsOk (b : List (Bar (Rval R))) : Prop := ∀ r ∈ b, BarRow (K := K) r.high r.low r.close

theorem BarsOk.row {b : List (Bar (Rval R))} (hb : BarsOk b) (i : Nat) :
    BarRow (K := K) (ix (highs b) i : Rval R) (ix (lows b) i : Rval R) (ix (closes b) i : Rval R) := by
  by_cases hi : i < b.length
  · rw [ix_lt (by simpa using hi), ix_lt (by simpa using hi), ix_lt (by simpa using hi)]
    simpa using hb _ (List.getElem_mem hi)
  · rw [ix_ge (by simpa using hi), ix_ge (by simpa using hi), ix_ge (by simpa using hi)]
    exact .inl ⟨rfl, rfl, rfl⟩

theorem Every.shiftInt {F : Type} [Flt F] {P : F → Prop} {s : Series F} (h : Every P s) (hn : P nan) (k : Int) :
    Every P (shiftInt s k) :=
  Every.tab fun i _ => by
    split_ifs
    · exact hn
    · exact h.ix hn _

/-- C58: for bars with low ≤ close ≤ high (or missing), Donchian %b is NaN or in [0, 1] under any rounding. -/
theorem donchian_pband_rounded {b : List (Bar (Rval R))} (hb : BarsOk b) {w : Nat} {off : Int}
    {fillna : Bool} {o : Donchian (Rval R)}
    (ho : Donchian.new (highs b) (lows b) (closes b) w off fillna = .ok o) : Within 0 1 o.pband := by
  rw [Donchian.new_eq] at ho
  generalize (if fillna = true then 1 else w) = mp at ho
  split_ifs at ho
  rw [← Except.ok.inj ho]
  have h0 : In 0 1 (lit 0 : Rval R) := lit_in R.zero R.one (by norm_num) (by norm_num)
  have key : Every (In 0 1) (sdiv (ssub (closes b) (rollMin w mp (lows b)))
      (ssub (rollMax w mp (highs b)) (rollMin w mp (lows b)))) := by
    refine Every.tab fun i hi => ?_
    have hi' : i < b.length := by simpa using hi
    rw [ix_ssub (by simpa using hi'), ix_ssub (by simpa using hi')]
    exact window_position (by simpa using hi') (by simpa using hi') (hb.row i)
  have := key.fill In.nan h0 fillna
  unfold Donchian.pband Donchian.off
  dsimp only
  split_ifs
  · exact this.shiftInt In.nan _
  · exact this

/-! ## true range, ATR, ADX -/

theorem sub_le_nn {x y : K} (h : x ≤ y) : Nn (rv R y -. rv R x) := by
  rw [rv_sub]
  have := R.mono (show (0 : K) ≤ y - x by linarith)
  rw [R.zero] at this
  exact .inr this

theorem Nn.sub_nan_right (a : Rval R) : Nn (a -. (Flt.nan : Rval R)) := by
  left
  show R.rnd (Val.sub a .nan) = _
  cases a <;> rfl

theorem Nn.sub_nan_left (a : Rval R) : Nn ((Flt.nan : Rval R) -. a) := .inl rfl

theorem range_nn {b : List (Bar (Rval R))} (hb : BarsOk b) (i : Nat) : Nn (ix (highs b) i -. ix (lows b) i) := by
  rcases hb.row i with ⟨h1, _, _⟩ | ⟨x, y, z, hx, hy, _, h1, h2⟩
  · rw [show ix (highs b) i = (Flt.nan : Rval R) from h1]; exact Nn.sub_nan_left _
  · rw [show ix (highs b) i = rv R x from hx, show ix (lows b) i = rv R y from hy]
    exact sub_le_nn (h1.trans h2)

theorem trueRange_nn {b : List (Bar (Rval R))} (hb : BarsOk b) (pc : Series (Rval R)) :
    Every Nn (trueRange (highs b) (lows b) pc) := by
  refine Every.tab fun i _ => Every.maxL (Every.valid fun v hv => ?_) Nn.nan
  simp only [List.mem_cons, List.not_mem_nil, or_false] at hv
  rcases hv with rfl | rfl | rfl
  · exact range_nn hb i
  · exact Nn.abs _
  · exact Nn.abs _

theorem atrRun_nn {b : List (Bar (Rval R))} (hb : BarsOk b) (w : Nat) :
    Every Nn (ATR.run (highs b) (lows b) (closes b) w) := by
  unfold ATR.run
  dsimp only
  have ht := trueRange_nn hb (shift (closes b) 1)
  generalize trueRange (highs b) (lows b) (shift (closes b) 1) = tr at ht
  split_ifs
  · intro v hv
    rw [List.eq_of_mem_replicate hv]; exact Nn.nan
  · refine Every.tab fun i _ => ?_
    have : ∀ k, Nn (iter (ATR.step tr w) (lit 0) k) := by
      intro k
      induction k with
      | zero => exact Nn.lit0
      | succ k ih =>
        rw [iter]
        unfold ATR.step
        split_ifs
        · exact Nn.lit0
        · unfold smean
          split_ifs
          · exact Nn.nan
          · exact (Every.sumL (ht.take w).valid Nn.lit0 fun a b ha hb => ha.add hb).div (Nn.natF _)
        · exact ((ih.mul (Nn.natF _)).add (ht.ix Nn.nan _)).div (Nn.natF _)
    exact this _

/-- C58: for bars with low ≤ close ≤ high (or missing), ATR is never negative under any rounding. -/
theorem atr_rounded {b : List (Bar (Rval R))} (hb : BarsOk b) {w : Nat} {fillna : Bool} {out : Series (Rval R)}
    (ho : averageTrueRange (highs b) (lows b) (closes b) w fillna = .ok out) : NonNeg out := by
  unfold averageTrueRange at ho
  split_ifs at ho
  rw [← Except.ok.inj ho]
  exact NonNeg.of ((atrRun_nn hb w).fill Nn.nan Nn.lit0 fillna)

/-- a value that the rounding keeps -/
def Rep (v : Rval R) : Prop := R.rnd v = v

theorem Rep.nan : Rep (Flt.nan : Rval R) := rfl
theorem Rep.lit0 : Rep (lit 0 : Rval R) := by rw [TA.lit0]; exact R.zero
theorem Rep.add (a b : Rval R) : Rep (a +. b) := R.rnd_idem _
theorem Rep.div (a b : Rval R) : Rep (a /. b) := R.rnd_idem _

theorem Rep.sumL (l : List (Rval R)) : Rep (sumL l) := by
  unfold TA.sumL
  have : ∀ (l : List (Rval R)) (a : Rval R), Rep a → Rep (l.foldl Flt.add a) := by
    intro l
    induction l with
    | nil => intro a h; exact h
    | cons x l ih => intro a _; exact ih _ (Rep.add _ _)
  exact this l _ Rep.lit0

/-- taking a `w`-th part away -/
theorem sub_part {p : Rval R} (hp : Nn p) (hr : Rep p) {w : Nat} (hw : 1 ≤ w) : Nn (p -. (p /. natF w)) := by
  have hW : Ge (K := K) 1 (natF w : Rval R) := by
    refine R.ge R.one (v := .fin _) ?_
    rw [ge_fin]
    exact_mod_cast hw
  revert hW
  generalize (natF w : Rval R) = W
  intro hW
  show Ge 0 (R.rnd (Val.sub p (R.rnd (Val.div p W))))
  change Ge 0 p at hp
  change R.rnd p = p at hr
  cases p with
  | nan => exact .inl rfl
  | ninf => simp at hp
  | pinf =>
    left
    cases W with
    | ninf => simp at hW
    | fin y =>
      have : 0 ≤ y := le_trans zero_le_one (ge_fin.mp hW)
      simp [Val.div, this, Rounding.rnd, Val.sub, Val.add, Val.neg]
    | _ => rfl
  | fin x =>
    exact R.ge R.zero (mem_iff.mp (sub_mem (R.mem R.zero hr (div_mem (ge_fin.mp hp) hW)))).1

theorem wilderAt_nn {x : Series (Rval R)} (hx : Every Nn x) {w : Nat} (hw : 1 ≤ w) (i : Nat) :
    Nn (ADX.wilderAt x w i) ∧ Rep (ADX.wilderAt x w i) := by
  induction i with
  | zero =>
    rw [ADX.wilderAt]
    refine ⟨Every.sumL (hx.valid.take w) Nn.lit0 fun a b ha hb => ha.add hb, ?_⟩
    exact Rep.sumL _
  | succ i ih =>
    rw [ADX.wilderAt]
    exact ⟨(sub_part ih.1 ih.2 hw).add (hx.ix Nn.nan _), Rep.add _ _⟩

theorem wilder_nn {x : Series (Rval R)} (hx : Every Nn x) {w : Nat} (hw : 1 ≤ w) : Every Nn (ADX.wilder x w) := by
  refine Every.tab fun i _ => ?_
  split_ifs
  · exact (wilderAt_nn hx hw 0).1
  · exact (wilderAt_nn hx hw i).1
  · exact Nn.lit0

theorem adxRange_nn {b : List (Bar (Rval R))} (hb : BarsOk b) :
    Every Nn (ADX.range (highs b) (lows b) (closes b)) := by
  unfold ADX.range getMax getMin
  refine Every.tab fun i hi => ?_
  have hi' : i < b.length := by simpa using hi
  rw [ix_zip2 (by simpa using hi'), ix_zip2 (by simpa using hi')]
  generalize ix (shift (closes b) 1) i = p
  have hN : ∀ a : Rval R, npMax2 (Flt.nan : Rval R) a = Flt.nan := fun a => rfl
  rcases hb.row i with ⟨h1, _, _⟩ | ⟨x, y, z, hx, hy, _, h1, h2⟩
  · rw [show ix (highs b) i = (Flt.nan : Rval R) from h1, hN]; exact Nn.sub_nan_left _
  · rw [show ix (highs b) i = rv R x from hx, show ix (lows b) i = rv R y from hy]
    have hyx := h1.trans h2
    show Ge 0 (R.rnd (Val.sub (npMax2 (F := Val K) (.fin x) p) (npMin2 (F := Val K) (.fin y) p)))
    refine R.ge R.zero ?_
    cases p with
    | nan => exact .inl rfl
    | pinf => simp [npMax2, npMin2, Flt.isNaN, Val.isNaN, Flt.lt, Val.lt, Val.sub, Val.add, Val.neg]
    | ninf => simp [npMax2, npMin2, Flt.isNaN, Val.isNaN, Flt.lt, Val.lt, Val.sub, Val.add, Val.neg]
    | fin p =>
      simp only [npMax2, npMin2, Flt.isNaN, Val.isNaN, Flt.lt, Val.lt, Bool.false_eq_true, if_false, decide_eq_true_eq]
      split_ifs <;> simp [Val.sub, Val.add, Val.neg] <;> linarith

theorem adxDm_nn (a b : Series (Rval R)) : Every Nn (ADX.dm a b) := Every.tab fun _ _ => Nn.abs _

/-- `(p - m) / (p + m)` for non-negative `p`, `m` -/
theorem dx_ratio {p m : Rval R} (hp : Nn p) (hm : Nn m) : In (-1) 1 ((p -. m) /. (p +. m)) := by
  refine R.mem (R.rd_neg R.one) R.one ?_
  show Mem (-1) 1 (Val.div (R.rnd (Val.sub p m)) (R.rnd (Val.add p m)))
  change Ge 0 p at hp
  change Ge 0 m at hm
  cases p with
  | nan => exact .inl rfl
  | ninf => simp at hp
  | pinf =>
    cases m with
    | ninf => simp at hm
    | _ => exact .inl rfl
  | fin x =>
    cases m with
    | ninf => simp at hm
    | nan => exact .inl rfl
    | pinf => exact .inl rfl
    | fin y =>
      have hx := ge_fin.mp hp
      have hy := ge_fin.mp hm
      have e1 : R.rnd (Val.sub (.fin x) (.fin y)) = R.rd (x - y) := by
        simp [Val.sub, Val.add, Val.neg, Rounding.rnd, sub_eq_add_neg]
      have e2 : R.rnd (Val.add (.fin x) (.fin y)) = R.rd (x + y) := rfl
      rw [e1, e2]
      refine vratio_abs ?_ (R.mono (by linarith))
      rw [← R.odd]
      exact R.mono (by linarith)

theorem di_nn {t d : Rval R} (ht : Nn t) (hd : Nn d) : Nn (ADX.di t d) := by
  unfold ADX.di
  split_ifs
  · refine Nn.mul ?_ (hd.div ht)
    rw [lit100]; exact ge_fin.mpr (by norm_num)
  · exact Nn.lit0

theorem dx_in {t d e : Series (Rval R)} (ht : Every Nn t) (hd : Every Nn d) (he : Every Nn e) (n w : Nat) (b : Bool) :
    Every (In 0 100) (ADX.dx ⟨n, w, t, d, e, b⟩) := by
  unfold ADX.dx
  refine Every.tab fun i _ => ?_
  dsimp only
  have hp := di_nn (ht.ix Nn.nan i) (hd.ix Nn.nan i)
  have hm := di_nn (ht.ix Nn.nan i) (he.ix Nn.nan i)
  generalize ADX.di (ix t i) (ix d i) = p at hp
  generalize ADX.di (ix t i) (ix e i) = m at hm
  split_ifs
  · have h := Mem.abs (dx_ratio hp hm)
    rw [lit100]
    refine R.mem R.zero R.hundred ?_
    show Mem 0 100 (Val.mul (.fin 100) (Val.abs ((p -. m) /. (p +. m) : Rval R)))
    rcases h with h | ⟨x, h, h1, h2⟩
    · left; rw [h]; rfl
    · right; exact ⟨100 * x, by rw [h]; rfl, by positivity, by linarith⟩
  · rw [lit0]; exact .inr ⟨0, rfl, le_refl _, by norm_num⟩

/-- the rounding keeps the integers `k` and `100 k` up to `w` -/
def KeepsInts (R : Rounding K) (w : Nat) : Prop :=
  ∀ k : ℕ, k ≤ w → R.rd (k : K) = .fin (k : K) ∧ R.rd (100 * k : K) = .fin (100 * k : K)

theorem natF_keep {w : Nat} (hk : KeepsInts R w) {k : Nat} (h : k ≤ w) : (natF k : Rval R) = Val.fin (k : K) := by
  show R.rd _ = _
  rw [← (hk k h).1]
  congr 1
  exact Rat.cast_natCast k

theorem In.add {a b c d : K} (h1 : R.rd (a + c) = .fin (a + c)) (h2 : R.rd (b + d) = .fin (b + d)) {u v : Rval R}
    (hu : In a b u) (hv : In c d v) : In (a + c) (b + d) (u +. v) := by
  refine R.mem h1 h2 ?_
  rcases hu with rfl | ⟨x, rfl, q1, q2⟩
  · exact .inl rfl
  rcases hv with rfl | ⟨y, rfl, q3, q4⟩
  · exact .inl rfl
  exact .inr ⟨x + y, rfl, by linarith, by linarith⟩

theorem sum100 {w : Nat} (hk : KeepsInts R w) : ∀ (l : List (Rval R)), Every (In 0 100) l → l.length ≤ w →
    In 0 (100 * (l.length : K)) (sumL l) := by
  intro l
  induction l using List.reverseRecOn with
  | nil =>
    intro _ _
    show In _ _ (lit 0 : Rval R)
    rw [lit0]; exact .inr ⟨0, rfl, le_refl _, by simp⟩
  | append_singleton l x ih =>
    intro h hl
    rw [List.length_append, List.length_singleton] at hl
    have h1 := ih (fun v hv => h v (by simp [hv])) (by omega)
    have h2 := h x (by simp)
    have e : sumL (l ++ [x]) = (sumL l +. x : Rval R) := by unfold sumL; rw [List.foldl_append]; rfl
    rw [e, List.length_append, List.length_singleton]
    have q := (hk (l.length + 1) hl).2
    push_cast at q ⊢
    have := In.add (R := R) (a := 0) (c := 0) (b := 100 * (l.length : K)) (d := 100) (by rw [add_zero, R.zero])
      (by rw [← mul_add_one]; exact q) h1 h2
    rwa [add_zero, ← mul_add_one] at this

theorem In.divNat {w : Nat} (hk : KeepsInts R w) (hw : 1 ≤ w) {u : Rval R} (hu : In 0 (100 * (w : K)) u) :
    In 0 100 (u /. natF w) := by
  rw [natF_keep hk (le_refl _)]
  refine R.mem R.zero R.hundred ?_
  have hp : (0 : K) < w := by exact_mod_cast hw
  rcases hu with rfl | ⟨x, rfl, q1, q2⟩
  · exact .inl rfl
  · refine .inr ⟨x / w, ?_, by positivity, by rw [div_le_iff₀ hp]; exact q2⟩
    show Val.div (.fin x) (.fin (w : K)) = _
    simp [Val.div, hp.ne']

theorem adxAt_in {dx : Series (Rval R)} (hd : Every (In 0 100) dx) {w : Nat} (hk : KeepsInts R w) (hw : 1 ≤ w)
    (hl : w ≤ dx.length) (i : Nat) : In 0 100 (ADX.adxAt dx w i) := by
  have hz : In 0 100 (lit 0 : Rval R) := lit_in R.zero R.hundred (by norm_num) (by norm_num)
  induction i with
  | zero => exact hz
  | succ i ih =>
    rw [ADX.adxAt]
    split_ifs
    · exact hz
    · unfold npMean
      have hlen : (dx.take w).length = w := by simp; omega
      have := sum100 hk (dx.take w) (hd.take w) (by omega)
      rw [hlen] at this ⊢
      exact In.divNat hk hw this
    · refine In.divNat hk hw ?_
      have h1 : In 0 (100 * ((w - 1 : ℕ) : K)) (ADX.adxAt dx w i *. natF (w - 1)) := by
        rw [natF_keep hk (by omega)]
        refine R.mem R.zero (hk _ (by omega)).2 ?_
        rcases ih with e | ⟨x, e, q1, q2⟩
        · rw [e]; exact .inl rfl
        · rw [e]
          have hp : (0 : K) ≤ ((w - 1 : ℕ) : K) := Nat.cast_nonneg _
          exact .inr ⟨x * ((w - 1 : ℕ) : K), rfl, by positivity, mul_le_mul_of_nonneg_right q2 hp⟩
      have ew : (100 : K) * ((w - 1 : ℕ) : K) + 100 = 100 * (w : K) := by
        rw [Nat.cast_sub hw]; push_cast; ring
      have := In.add (R := R) (a := 0) (c := 0) (b := 100 * ((w - 1 : ℕ) : K)) (d := 100) (by rw [add_zero, R.zero])
        (by rw [ew]; exact (hk w (le_refl _)).2) h1 (hd.ix In.nan i)
      rwa [add_zero, ew] at this

/-- C58: for bars with low ≤ close ≤ high (or missing), ADX is NaN or in [0, 100] and +DI, -DI are never negative, under
any rounding that keeps the integers `k` and `100 k` for `k` up to the window. -/
theorem adx_rounded {b : List (Bar (Rval R))} (hb : BarsOk b) {w : Nat} (hk : KeepsInts R w) {fillna : Bool}
    {o : ADX (Rval R)} (ho : ADX.new (highs b) (lows b) (closes b) w fillna = .ok o) :
    (∀ out, o.adx = .ok out → Within 0 100 out) ∧ NonNeg o.adxPos ∧ NonNeg o.adxNeg := by
  obtain ⟨hw, hn, rfl⟩ := ADX.new_ok ho
  have ht := wilder_nn (adxRange_nn hb) hw
  have hp := wilder_nn (adxDm_nn (ssub (highs b) (shift (highs b) 1)) (ssub (shift (lows b) 1) (lows b))) hw
  have hm := wilder_nn (adxDm_nn (ssub (shift (lows b) 1) (lows b)) (ssub (highs b) (shift (highs b) 1))) hw
  have h20 : In 0 100 (lit 20 : Rval R) := lit_in R.zero R.hundred (by norm_num) (by norm_num)
  have hz : In 0 100 (lit 0 : Rval R) := lit_in R.zero R.hundred (by norm_num) (by norm_num)
  have hdx : Every (In 0 100) (ADX.dx (ADX.run (highs b) (lows b) (closes b) w fillna)) := dx_in ht hp hm _ _ _
  refine ⟨fun out ho => ?_, ?_, ?_⟩
  · unfold ADX.adx at ho
    split_ifs at ho with hlen
    rw [← Except.ok.inj ho]
    refine Every.fill (P := In 0 100) (fun v hv => ?_) In.nan h20 _
    rw [List.mem_append] at hv
    rcases hv with hv | hv
    · rw [List.eq_of_mem_replicate hv]; exact hz
    · refine Every.tab (P := In 0 100) (fun i _ => ?_) v hv
      refine adxAt_in hdx hk hw ?_ i
      have e : (ADX.dx (ADX.run (highs b) (lows b) (closes b) w fillna)).length =
        (ADX.run (highs b) (lows b) (closes b) w fillna).trs.length := by unfold ADX.dx; rw [length_tab]
      rw [e]
      exact (not_le.mp hlen).le
  all_goals
    refine NonNeg.of (Every.fill (P := Nn) (Every.tab fun i _ => ?_) Nn.nan h20.nn _)
    split_ifs
    · first
      | exact di_nn (ht.ix Nn.nan _) (hp.ix Nn.nan _)
      | exact di_nn (ht.ix Nn.nan _) (hm.ix Nn.nan _)
    · exact Nn.lit0

/-! ## ordered bands -/

/-- `a ≤ b` as far as both are defined -/
def Below (a b : Rval R) : Prop := a = Val.nan ∨ b = Val.nan ∨ Val.le (K := K) a b = true

theorem band {t d : Rval R} (ht : Rep t) (hd : Nn d) : Below (t -. d) t ∧ Below t (t +. d) := by
  change R.rnd t = t at ht
  change Ge 0 d at hd
  show (R.rnd (Val.sub t d) = _ ∨ _ ∨ Val.le (R.rnd (Val.sub t d)) t = true) ∧
    (_ ∨ R.rnd (Val.add t d) = _ ∨ Val.le t (R.rnd (Val.add t d)) = true)
  cases d with
  | ninf => simp at hd
  | nan => exact ⟨.inl (by cases t <;> rfl), .inr (.inl (by cases t <;> rfl))⟩
  | pinf =>
    cases t <;> simp [Val.sub, Val.add, Val.neg, Rounding.rnd, Val.le]
  | fin y =>
    have hy := ge_fin.mp hd
    cases t with
    | fin x =>
      change R.rd x = _ at ht
      have e1 : R.rnd (Val.sub (.fin x) (.fin y)) = R.rd (x - y) := by
        simp [Val.sub, Val.add, Val.neg, Rounding.rnd, sub_eq_add_neg]
      have e2 : R.rnd (Val.add (.fin x) (.fin y)) = R.rd (x + y) := rfl
      rw [e1, e2]
      refine ⟨.inr (.inr ?_), .inr (.inr ?_)⟩
      · rw [← ht]; exact R.mono (by linarith)
      · rw [← ht]; exact R.mono (by linarith)
    | _ => simp [Val.sub, Val.add, Val.neg, Rounding.rnd, Val.le]

/-- C58: Keltner channel with ATR bands (`original_version=False`, `fillna=False`): the lower band is at most the middle,
the middle at most the upper band, under any rounding, for closes that are values of that arithmetic and a multiplier
that is not negative. -/
theorem keltner_order_rounded {b : List (Bar (Rval R))} (hb : BarsOk b) (hc : ∀ r ∈ b, R.rnd r.close = r.close)
    {w wa : Nat} {k : Rval R} (hk : Val.le (K := K) (.fin 0) k = true) {o : Keltner (Rval R)}
    (ho : Keltner.new (highs b) (lows b) (closes b) w wa false false k = .ok o) (i : Nat) :
    Below (ix o.lband i) (ix o.mband i) ∧ Below (ix o.mband i) (ix o.hband i) := by
  rw [Keltner.new_atr_eq] at ho
  split_ifs at ho
  rw [← Except.ok.inj ho]
  have ha := atrRun_nn hb wa
  have ht : Every Rep (ewm (alphaOfSpan w) w (closes b)) := by
    refine Every.ewm (P := Rep) (W := fun _ => True) (fun v hv => ?_) Rep.nan Rep.nan trivial (fun _ h => h)
      (fun _ _ => trivial) (fun _ _ _ _ _ _ => Rep.div _ _) _
    obtain ⟨r, hr, rfl⟩ := List.mem_map.mp hv
    exact hc r hr
  by_cases hi : i < b.length
  · show Below (ix (ssub (ewm (alphaOfSpan w) w (closes b)) (cmul k (ATR.run (highs b) (lows b) (closes b) wa))) i)
        (ix (ewm (alphaOfSpan w) w (closes b)) i) ∧
      Below (ix (ewm (alphaOfSpan w) w (closes b)) i)
        (ix (sadd (ewm (alphaOfSpan w) w (closes b)) (cmul k (ATR.run (highs b) (lows b) (closes b) wa))) i)
    rw [ix_ssub (by simpa using hi), ix_sadd (by simpa using hi)]
    exact band (ht.ix Rep.nan i)
      (Every.ix (ha.map fun v hv => Nn.mul (R := R) (a := k) (.inr hk) hv) Nn.nan i)
  · have hlen : ∀ s : Series (Rval R), s.length = b.length → ix s i = (Val.nan : Val K) := fun s hs => by
      rw [ix_ge (by omega)]; rfl
    exact ⟨.inr (.inl (hlen _ (by simp [Keltner.mband, Keltner.runAtr, checkFillna]))),
      .inl (hlen _ (by simp [Keltner.mband, Keltner.runAtr, checkFillna]))⟩

theorem sqrt_nn {R : Rounding ℝ} (v : Rval R) : Nn (FltFn.sqrt v) := by
  refine R.ge R.zero (v := Val.sqrt v) ?_
  cases v with
  | fin x =>
    unfold Val.sqrt
    dsimp only
    split_ifs
    · exact .inl rfl
    · exact ge_fin.mpr (Real.sqrt_nonneg x)
  | _ => simp [Val.sqrt]

/-- C58: Bollinger bands (`fillna=False`): the lower band is at most the average, the average at most the upper band,
under any rounding, for any data and any number of deviations that is not negative. -/
theorem bollinger_order_rounded {R : Rounding ℝ} (close : Series (Rval R)) (w : Nat) {dev : Rval R}
    (hd : Val.le (K := ℝ) (.fin 0) dev = true) (i : Nat) :
    let o := BB.new close w dev false
    Below (ix o.bollingerLband i) (ix o.bollingerMavg i) ∧ Below (ix o.bollingerMavg i) (ix o.bollingerHband i) := by
  intro o
  have hm : Every Rep (rollMean w w close) := by
    refine Every.roll (P := fun _ => True) (fun _ _ => trivial) trivial (fun l _ => ?_) w
    unfold aggMean
    split_ifs
    · exact Rep.div _ _
    · exact Rep.nan
  have hs : Every Nn (rollStd w w close) := by
    refine Every.roll (P := fun _ => True) (fun _ _ => trivial) trivial (fun l _ => ?_) w
    unfold aggStd
    dsimp only
    split_ifs
    · exact sqrt_nn _
    · exact Nn.nan
  by_cases hi : i < close.length
  · show Below (ix (ssub (rollMean w w close) (cmul dev (rollStd w w close))) i) (ix (rollMean w w close) i) ∧
      Below (ix (rollMean w w close) i) (ix (sadd (rollMean w w close) (cmul dev (rollStd w w close))) i)
    rw [ix_ssub (by simpa using hi), ix_sadd (by simpa using hi)]
    exact band (hm.ix Rep.nan i) (Every.ix (hs.map fun v hv => Nn.mul (R := R) (a := dev) (.inr hd) hv) Nn.nan i)
  · have hlen : ∀ s : Series (Rval R), s.length = close.length → ix s i = (Val.nan : Val ℝ) := fun s hs => by
      rw [ix_ge (by omega)]; rfl
    exact ⟨.inr (.inl (hlen _ (by simp [o, BB.new, BB.bollingerMavg, checkFillna]))),
      .inl (hlen _ (by simp [o, BB.new, BB.bollingerMavg, checkFillna]))⟩

/-- C58: the Ulcer index is never negative, for any data, under any rounding. -/
theorem ulcer_rounded {R : Rounding ℝ} (close : Series (Rval R)) (w : Nat) (fillna : Bool) {out : Series (Rval R)}
    (ho : ulcerIndex close w fillna = .ok out) : NonNeg out := by
  rw [ulcerIndex_eq] at ho
  split_ifs at ho
  rw [← Except.ok.inj ho]
  refine NonNeg.of (Every.fill (P := Nn) ?_ Nn.nan Nn.lit0 fillna)
  refine Every.roll (P := fun _ => True) (fun _ _ => trivial) trivial (fun l _ => ?_) w
  unfold aggApply
  split_ifs
  · exact sqrt_nn _
  · exact Nn.nan

/-! ## double precision -/

theorem binary64_keeps {w : Nat} (hw : 100 * w ≤ 2 ^ 53) : KeepsInts (binary64 : Rounding ℚ) w := by
  have key : ∀ k : ℕ, k ≤ 2 ^ 53 → b64rd (k : ℚ) = .fin (k : ℚ) := by
    intro k hk
    have := b64pos_exact (K := ℚ) (k := k) (e := 0) (by positivity) (by exact_mod_cast hk) (by norm_num)
    rw [zpow_zero, mul_one, Int.cast_natCast] at this
    rw [b64rd_nonneg (by positivity), this, if_neg]
    rw [not_le]
    refine lt_of_le_of_lt (by exact_mod_cast hk : (k : ℚ) ≤ 2 ^ (53 : ℤ)) ?_
    exact zpow_lt_zpow_right₀ (by norm_num) (by norm_num)
  intro k hk
  refine ⟨key k (by omega), ?_⟩
  have := key (100 * k) (by omega)
  push_cast at this
  exact this

/-- float64 values -/
abbrev F64 := Rval (binary64 : Rounding ℚ)
instance : DecidableEq F64 := inferInstanceAs (DecidableEq (Val ℚ))

/-- the float64 value nearest to `q` -/
def f64 (q : ℚ) : F64 := b64rd q

/-- C58: not so the stochastic oscillator: in double precision, one bar with low 1 and high = close = 1.11 shows
100 + 2^-46 with window 1. -/
theorem stoch_exceeds_100 : stoch [f64 1.11] [f64 1] [f64 1.11] 1 false = [rv binary64 (100 + 1 / 2 ^ 46)] := by
  decide +kernel

/-- C58: nor Williams %R: high 1.11, low = close = 1 shows -100 - 2^-46. -/
theorem williamsR_below : williamsR [f64 1.11] [f64 1] [f64 1] 1 false = [rv binary64 (-100 - 1 / 2 ^ 46)] := by
  decide +kernel

/-- C58: nor the exponential average: of the two closes 1.61 and 1.61 + 2^-51 (float64, span 10) it shows 1.61 - 2^-52,
which is below both. -/
theorem ema_leaves_range : emaIndicator [f64 1.61, f64 1.61 +. f64 (1 / 2 ^ 51)] 10 true =
      .ok [f64 1.61, f64 1.61 -. f64 (1 / 2 ^ 52)] ∧
    (f64 1.61 -. f64 (1 / 2 ^ 52) <. f64 1.61) = true ∧ (f64 1.61 <. (f64 1.61 +. f64 (1 / 2 ^ 51))) = true := by
  decide +kernel

/-! ## examples in double precision -/

/-- float64 values nearest to the given decimals -/
def fs (l : List ℚ) : Series F64 := l.map f64
/-- an exact float64 value -/
def fx (q : ℚ) : F64 := Val.fin q

def exHigh : Series F64 := fs [1.1, 1.2, 1.15, 1.3, 1.3, 1.25]
def exLow : Series F64 := fs [1, 1.1, 1.1, 1.1, 1.2, 1.1]
def exClose : Series F64 := fs [1.07, 1.11, 1.15, 1.3, 1.25, 1.15]

example : rsi exHigh 3 false = .ok [nan, nan, fx (8042142191733021 / 140737488355328),
    fx (6007087917605463 / 70368744177664), fx (6007087917605463 / 70368744177664),
    fx (2010535547933257 / 35184372088832)] := by decide +kernel

example : moneyFlowIndex exHigh exLow exHigh (fs [10, 11, 12, 13, 14, 15.7]) 3 false =
    [nan, nan, fx (53381081550285 / 1099511627776), fx (4783307100302749 / 70368744177664),
      fx (9797724128581 / 137438953472), fx (2258380998985351 / 35184372088832)] := by decide +kernel

example : (Aroon.new exHigh exLow 3 false).map Aroon.aroonUp = .ok [nan, nan, nan, fx 100,
    fx (2345624805922133 / 35184372088832), fx (2345624805922133 / 70368744177664)] := by decide +kernel

example : (StochRSI.new exHigh 2 1 1 false).map StochRSI.stochrsi = .ok [nan, nan, fx 0, fx 1, nan, fx 0] := by
  decide +kernel

example : (Donchian.new exHigh exLow exClose 2 0 false).map Donchian.pband = .ok [nan,
    fx (4953959590107551 / 9007199254740992), fx (2251799813685243 / 4503599627370496), fx 1,
    fx (6755399441055741 / 9007199254740992), fx (4503599627370481 / 18014398509481984)] := by decide +kernel

example : averageTrueRange exHigh exLow exClose 2 false = .ok [fx 0, fx (517913957147607 / 4503599627370496),
    fx (743093938516131 / 9007199254740992), fx (2544533789464329 / 18014398509481984),
    fx (4345973640412529 / 36028797018963968), fx (304696662289285 / 2251799813685248)] := by decide +kernel

example : (Keltner.new exHigh exLow exClose 2 2 false false (fx 2)).map Keltner.hband = .ok [nan,
    fx (2987387752822429 / 2251799813685248), fx (2921084758308363 / 2251799813685248),
    fx (1718769607788365 / 1125899906842624), fx (3353548472526155 / 2251799813685248),
    fx (3272540437562123 / 2251799813685248)] := by decide +kernel

example : (ADX.new exHigh exLow exClose 2 false).map ADX.adxPos = .ok [fx 0, fx 0, fx 0,
    fx (2426508419919451 / 35184372088832), fx (1436096819952327 / 35184372088832),
    fx (5164678471755159 / 281474976710656)] := by decide +kernel

example : ((ADX.new exHigh exLow exClose 2 false) >>= ADX.adx) = .ok [fx 0, fx 0, fx 0, fx 100, fx 100,
    fx (586406201480533 / 8796093022208)] := by decide +kernel

/-- the bars above are bars -/
example : BarsOk [⟨f64 1.1, f64 1, f64 1.07, nan⟩, ⟨nan, nan, nan, nan⟩, ⟨f64 1.2, f64 1.1, f64 1.11, nan⟩] := by
  intro r hr
  simp only [List.mem_cons, List.not_mem_nil, or_false] at hr
  rcases hr with rfl | rfl | rfl
  · refine .inr ⟨2476979795053773 / 2251799813685248, 1, 4818851601286431 / 4503599627370496,
      (by decide +kernel : f64 1.1 = fx _), (by decide +kernel : f64 1 = fx _), (by decide +kernel : f64 1.07 = fx _),
      by norm_num, by norm_num⟩
  · exact .inl ⟨rfl, rfl, rfl⟩
  · refine .inr ⟨5404319552844595 / 4503599627370496, 2476979795053773 / 2251799813685248,
      4998995586381251 / 4503599627370496, (by decide +kernel : f64 1.2 = fx _), (by decide +kernel : f64 1.1 = fx _),
      (by decide +kernel : f64 1.11 = fx _), by norm_num, by norm_num⟩

example : KeepsInts (binary64 : Rounding ℚ) 14 := binary64_keeps (by norm_num)

end TA
