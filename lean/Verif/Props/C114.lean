import Verif.Model.NumpySum
import Verif.Props.C111
import Verif.Props.C82
import Verif.Props.C13
import Mathlib.Data.Multiset.AddSub
import Mathlib.Algebra.BigOperators.Group.List.Basic

/-!
# C114 — In whatever order the numbers are added

numpy adds the entries of an array in an order of its own (`npSum`, Model/NumpySum.lean).  `AddsUp l a d` says that `a` is a sum of the entries of `l` in *some*
order and bracketing in which no entry takes part in more than `d` additions.  In exact arithmetic every such sum is the sum from left to right, whatever
the data, so the eleven functions that call numpy's sum give what the rest of the model says they give.  In double precision the error is at most
`1.1 d eps` times the size of the data, and numpy's order needs `26` additions for up to 128 numbers and one more for each doubling.
-/

set_option linter.unusedSectionVars false

namespace TA
open Finset

section any
variable {F : Type} [Flt F]

/-- `a` is a sum of `l` in some order, each entry being in at most `d` of the additions -/
inductive AddsUp : List F → F → Nat → Prop
  | nil (d : Nat) : AddsUp [] (lit 0) d
  | one (x : F) (d : Nat) : AddsUp [x] x d
  | add {l m : List F} {a b : F} {d : Nat} : AddsUp l a d → AddsUp m b d → AddsUp (l ++ m) (a +. b) (d + 1)
  | perm {l m : List F} {a : F} {d : Nat} : l.Perm m → AddsUp l a d → AddsUp m a d

theorem AddsUp.mono {l : List F} {a : F} {d e : Nat} (h : AddsUp l a d) (hd : d ≤ e) : AddsUp l a e := by
  induction h generalizing e with
  | nil d => exact .nil e
  | one x d => exact .one x e
  | add h1 h2 i1 i2 =>
    obtain ⟨e, rfl⟩ : ∃ k, e = k + 1 := ⟨e - 1, by omega⟩
    exact .add (i1 (by omega)) (i2 (by omega))
  | perm p h i => exact .perm p (i hd)

/-- what holds of the entries and is kept by addition holds of the sum -/
theorem AddsUp.closed {P : F → Prop} {l : List F} {a : F} {d : Nat} (h : AddsUp l a d) (h0 : P (lit 0)) (ha : ∀ a b, P a → P b → P (a +. b))
    (hl : ∀ x ∈ l, P x) : P a := by
  induction h with
  | nil d => exact h0
  | one x d => exact hl x (by simp)
  | add h1 h2 i1 i2 => exact ha _ _ (i1 fun x hx => hl x (by simp [hx])) (i2 fun x hx => hl x (by simp [hx]))
  | perm p h i => exact i fun x hx => hl x (p.mem_iff.mp hx)

theorem AddsUp.fold {m : List F} {a : F} {d : Nat} (h : AddsUp m a d) (l : List F) : AddsUp (m ++ l) (l.foldl Flt.add a) (d + l.length) := by
  induction l generalizing m a d with
  | nil => simpa using h
  | cons x l ih =>
    have := ih (h.add (.one x d))
    rw [List.append_assoc] at this
    exact this.mono (by simp; omega)

/-- from left to right -/
theorem AddsUp.sumL (l : List F) : AddsUp l (sumL l) l.length := by
  have := (AddsUp.nil (F := F) 0).fold l
  simpa [TA.sumL] using this

theorem eights_short (r0 r1 r2 r3 r4 r5 r6 r7 : F) {l : List F} (h : l.length < 8) :
    eights r0 r1 r2 r3 r4 r5 r6 r7 l = l.foldl Flt.add (((r0 +. r1) +. (r2 +. r3)) +. ((r4 +. r5) +. (r6 +. r7))) := by
  unfold eights
  split
  · simp only [List.length_cons] at h; omega
  · rfl

theorem eight_more {l : List F} (h : 8 ≤ l.length) : ∃ x0 x1 x2 x3 x4 x5 x6 x7 m, l = x0 :: x1 :: x2 :: x3 :: x4 :: x5 :: x6 :: x7 :: m := by
  match l, h with
  | x0 :: x1 :: x2 :: x3 :: x4 :: x5 :: x6 :: x7 :: m, _ => exact ⟨x0, x1, x2, x3, x4, x5, x6, x7, m, rfl⟩

theorem AddsUp.eights (k : Nat) : ∀ {l : List F} {r0 r1 r2 r3 r4 r5 r6 r7 : F} {l0 l1 l2 l3 l4 l5 l6 l7 : List F} {d : Nat}, l.length / 8 = k → AddsUp l0 r0 d →
    AddsUp l1 r1 d → AddsUp l2 r2 d → AddsUp l3 r3 d → AddsUp l4 r4 d → AddsUp l5 r5 d → AddsUp l6 r6 d → AddsUp l7 r7 d →
    AddsUp (l0 ++ l1 ++ (l2 ++ l3) ++ (l4 ++ l5 ++ (l6 ++ l7)) ++ l) (eights r0 r1 r2 r3 r4 r5 r6 r7 l) (d + 3 + k + l.length % 8) := by
  induction k with
  | zero =>
    intro l r0 r1 r2 r3 r4 r5 r6 r7 l0 l1 l2 l3 l4 l5 l6 l7 d hk h0 h1 h2 h3 h4 h5 h6 h7
    rw [eights_short _ _ _ _ _ _ _ _ (by omega)]
    exact ((((h0.add h1).add (h2.add h3)).add ((h4.add h5).add (h6.add h7))).fold l).mono (by omega)
  | succ k ih =>
    intro l r0 r1 r2 r3 r4 r5 r6 r7 l0 l1 l2 l3 l4 l5 l6 l7 d hk h0 h1 h2 h3 h4 h5 h6 h7
    obtain ⟨x0, x1, x2, x3, x4, x5, x6, x7, m, rfl⟩ := eight_more (l := l) (by omega)
    have hl : (x0 :: x1 :: x2 :: x3 :: x4 :: x5 :: x6 :: x7 :: m).length = m.length + 8 := rfl
    rw [hl] at hk
    have := ih (l := m) (by omega) (h0.add (.one x0 d)) (h1.add (.one x1 d)) (h2.add (.one x2 d)) (h3.add (.one x3 d)) (h4.add (.one x4 d)) (h5.add (.one x5 d))
      (h6.add (.one x6 d)) (h7.add (.one x7 d))
    rw [TA.eights, hl]
    refine (AddsUp.perm ?_ this).mono (by omega)
    rw [← Multiset.coe_eq_coe]
    simp only [← Multiset.coe_add, ← Multiset.cons_coe, ← Multiset.singleton_add, Multiset.coe_nil, add_zero]
    abel

theorem AddsUp.block {l : List F} (h : l.length ≤ 128) : AddsUp l (pairwiseBlock l) 25 := by
  by_cases g : l.length < 8
  · have : pairwiseBlock l = TA.sumL l := by
      unfold pairwiseBlock
      split
      · simp only [List.length_cons] at g; omega
      · rfl
    rw [this]
    exact (AddsUp.sumL l).mono (by omega)
  · obtain ⟨x0, x1, x2, x3, x4, x5, x6, x7, m, rfl⟩ := eight_more (l := l) (by omega)
    have hl : (x0 :: x1 :: x2 :: x3 :: x4 :: x5 :: x6 :: x7 :: m).length = m.length + 8 := rfl
    have := AddsUp.eights (l := m) _ rfl (.one x0 0) (.one x1 0) (.one x2 0) (.one x3 0) (.one x4 0) (.one x5 0) (.one x6 0) (.one x7 0)
    exact this.mono (by omega)

theorem AddsUp.pairwiseTo (s : Nat) : ∀ (k : Nat) (l : List F), l.length ≤ 112 * 2 ^ s + 16 → l.length ≤ 112 * (k + 1) + 16 → AddsUp l (pairwiseTo k l) (25 + s) := by
  induction s with
  | zero =>
    intro k l h _
    cases k with
    | zero => exact AddsUp.block (by simpa using h)
    | succ k => rw [TA.pairwiseTo, if_pos (by simpa using h)]; exact AddsUp.block (by simpa using h)
  | succ s ih =>
    intro k l h hk
    by_cases g : l.length ≤ 128
    · refine AddsUp.mono ?_ (by omega : 25 ≤ _)
      cases k with
      | zero => exact AddsUp.block g
      | succ k => rw [TA.pairwiseTo, if_pos g]; exact AddsUp.block g
    · cases k with
      | zero => omega
      | succ k =>
        rw [TA.pairwiseTo, if_neg g]
        have c1 : cutAt l.length ≤ l.length / 2 := Nat.sub_le _ _
        have c2 : l.length - cutAt l.length ≤ l.length / 2 + 8 := by unfold cutAt; omega
        have c3 : l.length % 2 = 0 → l.length - cutAt l.length ≤ l.length / 2 + 7 := by unfold cutAt; omega
        have p : 112 * 2 ^ (s + 1) = 2 * (112 * 2 ^ s) := by rw [pow_succ]; ring
        generalize 112 * 2 ^ s = q at *
        have A := ih k (l.take (cutAt l.length)) (by simp only [List.length_take]; omega) (by simp only [List.length_take]; omega)
        have B := ih k (l.drop (cutAt l.length)) (by simp only [List.length_drop]; omega) (by simp only [List.length_drop]; omega)
        have := A.add B
        rwa [List.take_append_drop] at this

/-- C114. **numpy's order adds up**: no entry takes part in more than 26 additions for up to 128 entries, and in one more for each doubling. -/
theorem npSum_addsUp (l : List F) {s : Nat} (h : l.length ≤ 112 * 2 ^ s + 16) : AddsUp l (npSum l) (26 + s) := by
  have := (AddsUp.nil (25 + s)).add (AddsUp.pairwiseTo s l.length l h (by omega))
  exact this.mono (by omega)

/-- up to seven numbers are added from left to right, in any arithmetic -/
theorem npSum_short {l : List F} (h : l.length < 8) : npSum l = lit 0 +. sumL l := by
  have : pairwiseTo l.length l = sumL l := by
    have e : pairwiseBlock l = TA.sumL l := by
      unfold pairwiseBlock
      split
      · simp only [List.length_cons] at h; omega
      · rfl
    cases g : l.length with
    | zero => exact e
    | succ k => rw [pairwiseTo, if_pos (by omega)]; exact e
  rw [npSum, this]

/-- the recursion of numpy above 128 numbers, in any arithmetic: the bound on the depth is never reached -/
theorem pairwiseTo_stable : ∀ (k j : Nat) (l : List F), l.length ≤ 112 * (k + 1) + 16 → l.length ≤ 112 * (j + 1) + 16 → pairwiseTo k l = pairwiseTo j l := by
  intro k
  induction k with
  | zero =>
    intro j l h1 _
    cases j with
    | zero => rfl
    | succ j => rw [pairwiseTo, pairwiseTo, if_pos (by omega)]
  | succ k ih =>
    intro j l h1 h2
    cases j with
    | zero => rw [pairwiseTo, pairwiseTo, if_pos (by omega)]
    | succ j =>
      rw [pairwiseTo, pairwiseTo]
      split_ifs with g
      · rfl
      · have c1 : cutAt l.length ≤ l.length / 2 := Nat.sub_le _ _
        have c2 : l.length - cutAt l.length ≤ l.length / 2 + 8 := by unfold cutAt; omega
        have c3 : l.length % 2 = 0 → l.length - cutAt l.length ≤ l.length / 2 + 7 := by unfold cutAt; omega
        rw [ih j _ (by simp only [List.length_take]; omega) (by simp only [List.length_take]; omega), ih j _ (by simp only [List.length_drop]; omega) (by simp only [List.length_drop]; omega)]

theorem npSum_split {l : List F} (h : 128 < l.length) :
    pairwiseTo l.length l = pairwiseTo (cutAt l.length) (l.take (cutAt l.length)) +. pairwiseTo (l.length - cutAt l.length) (l.drop (cutAt l.length)) := by
  obtain ⟨k, hk⟩ : ∃ k, l.length = k + 1 := ⟨l.length - 1, by omega⟩
  have c1 : cutAt l.length ≤ l.length / 2 := Nat.sub_le _ _
  have c2 : l.length - cutAt l.length ≤ l.length / 2 + 8 := by unfold cutAt; omega
  have e : pairwiseTo l.length l = pairwiseTo k (l.take (cutAt l.length)) +. pairwiseTo k (l.drop (cutAt l.length)) := by
    conv_lhs => rw [hk, pairwiseTo]
    rw [if_neg (by omega)]
  rw [e, pairwiseTo_stable k (cutAt l.length) _ (by simp only [List.length_take]; omega) (by simp only [List.length_take]; omega),
    pairwiseTo_stable k (l.length - cutAt l.length) _ (by simp only [List.length_drop]; omega) (by simp only [List.length_drop]; omega)]

end any

/-! ## exact arithmetic -/

section exact
variable {K : Type} [Field K] [LinearOrder K] [IsStrictOrderedRing K]

theorem val_add_comm (a b : Val K) : (a +. b) = (b +. a) := by
  show Val.add a b = Val.add b a
  cases a <;> cases b <;> simp [Val.add, add_comm]

theorem val_add_assoc (a b c : Val K) : ((a +. b) +. c) = (a +. (b +. c)) := by
  show Val.add (Val.add a b) c = Val.add a (Val.add b c)
  cases a <;> cases b <;> cases c <;> simp [Val.add, add_assoc]

theorem val_zero_add (a : Val K) : (lit 0 +. a) = a := by
  rw [lit_fin, Rat.cast_zero]
  show Val.add (.fin 0) a = a
  cases a <;> simp [Val.add]

theorem sumL_cons (x : Val K) (l : List (Val K)) : sumL (x :: l) = (x +. sumL l) := by
  have key : ∀ a : Val K, l.foldl Flt.add a = (a +. l.foldl Flt.add (lit 0)) := by
    induction l with
    | nil => intro a; rw [List.foldl_nil, List.foldl_nil, val_add_comm, val_zero_add]
    | cons y l ih =>
      intro a
      rw [List.foldl_cons, List.foldl_cons, ih, ih (lit 0 +. y), val_zero_add, val_add_assoc]
  unfold sumL
  rw [List.foldl_cons, val_zero_add, key]

theorem sumL_append' (l m : List (Val K)) : sumL (l ++ m) = (sumL l +. sumL m) := by
  induction l with
  | nil => rw [List.nil_append, show sumL ([] : List (Val K)) = lit 0 from rfl, val_zero_add]
  | cons x l ih => rw [List.cons_append, sumL_cons, sumL_cons, ih, val_add_assoc]

theorem sumL_perm {l m : List (Val K)} (h : l.Perm m) : sumL l = sumL m := by
  induction h with
  | nil => rfl
  | cons x _ ih => rw [sumL_cons, sumL_cons, ih]
  | swap x y l => rw [sumL_cons, sumL_cons, sumL_cons, sumL_cons, ← val_add_assoc, ← val_add_assoc, val_add_comm y x]
  | trans _ _ h1 h2 => exact h1.trans h2

/-- C114. In exact arithmetic every order gives the same sum, also of data with NaN and infinities. -/
theorem AddsUp.exact {l : List (Val K)} {a : Val K} {d : Nat} (h : AddsUp l a d) : a = TA.sumL l := by
  induction h with
  | nil d => rfl
  | one x d => rw [sumL_cons, show TA.sumL ([] : List (Val K)) = lit 0 from rfl, val_add_comm, val_zero_add]
  | add _ _ i1 i2 => rw [sumL_append', ← i1, ← i2]
  | perm p _ i => rw [i, sumL_perm p]

/-- a way of adding up lists -/
def Summing {F : Type} [Flt F] (σ : List F → F) : Prop := ∀ l, ∃ d, AddsUp l (σ l) d

theorem npSum_summing {F : Type} [Flt F] : Summing (npSum (F := F)) := fun l =>
  ⟨_, npSum_addsUp l (s := l.length) (by have := Nat.lt_two_pow_self (n := l.length); omega)⟩

theorem Summing.eq {σ : List (Val K) → Val K} (h : Summing σ) : σ = sumL := by
  funext l
  obtain ⟨d, hd⟩ := h l
  exact hd.exact

theorem sumL_zeros (l : List (Val K)) : sumL (l.map fun x => if Flt.isNaN x then lit 0 else x) = sumL (valid l) := by
  induction l with
  | nil => rfl
  | cons x l ih =>
    rw [List.map_cons, sumL_cons, ih]
    unfold valid
    rw [List.filter_cons]
    by_cases h : Flt.isNaN x = true
    · rw [if_pos h, val_zero_add, if_neg (by simp [h])]
    · rw [if_neg h, if_pos (by simp [h]), sumL_cons]

theorem smeanBy_eq (s : Series (Val K)) : smeanBy sumL s = smean s := by
  unfold smeanBy smean
  rw [sumL_zeros]

theorem smeanBy_fun : smeanBy (F := Val K) sumL = smean := funext smeanBy_eq

/-- C114. **The order in which numpy adds does not matter in exact arithmetic**: with any way `σ` of adding up — in particular numpy's — WMA, CCI, MFI, ATR, the three
ADX columns and the first rows that TRIX, KST, DPO, Vortex and the visual Ichimoku spans take from a mean are what the rest of the model says. -/
theorem numpy_order {σ : List (Val K) → Val K} (hσ : Summing σ) (h l c v : Series (Val K)) (w r : Nat) (k : Val K) (b vis : Bool) :
    wmaBy σ c w b = wma c w b ∧ cciBy σ h l c w k b = cci h l c w k b ∧ moneyFlowIndexBy σ h l c v w b = moneyFlowIndex h l c v w b ∧
      averageTrueRangeBy σ h l c w b = averageTrueRange h l c w b ∧ ADX.runBy σ h l c w b = ADX.run h l c w b ∧
      (∀ o : ADX (Val K), ADX.adxBy σ o = ADX.adx o) ∧ TRIX.runBy σ c w b = TRIX.run c w b ∧ KST.rocmaBy σ c r w b = KST.rocma c r w b ∧
      DPO.runBy σ c w b = DPO.run c w b ∧ Vortex.trnBy σ h l c w b = Vortex.trn h l c w b ∧ Ichimoku.visBy σ vis w c = Ichimoku.vis vis w c := by
  rw [hσ.eq]
  have W : ∀ x : Series (Val K), ∀ i, ADX.wilderAtBy sumL x w i = ADX.wilderAt x w i := by
    intro x i
    induction i with
    | zero => rfl
    | succ i ih => rw [ADX.wilderAtBy, ADX.wilderAt, ih]
  have A : ∀ (dx : Series (Val K)) (w i : Nat), ADX.adxAtBy sumL dx w i = ADX.adxAt dx w i := by
    intro dx w i
    induction i with
    | zero => rfl
    | succ i ih => rw [ADX.adxAtBy, ADX.adxAt, ih]; rfl
  have T : ∀ tr : Series (Val K), ATR.stepBy sumL tr w = ATR.step tr w := by
    intro tr
    funext i p
    rw [ATR.stepBy, ATR.step, smeanBy_eq]
  refine ⟨rfl, rfl, rfl, ?_, ?_, fun o => ?_, ?_, ?_, ?_, ?_, ?_⟩
  · unfold averageTrueRangeBy averageTrueRange ATR.run
    simp only [T]
  · unfold ADX.runBy ADX.run ADX.wilderBy ADX.wilder
    simp only [W]
  · unfold ADX.adxBy ADX.adx
    have : ADX.adxAtBy sumL (ADX.dx o) o.window = ADX.adxAt (ADX.dx o) o.window := funext fun i => A _ _ i
    dsimp only
    rw [this]
  · unfold TRIX.runBy TRIX.run; simp only [smeanBy_eq]
  · unfold KST.rocmaBy KST.rocma; simp only [smeanBy_eq]
  · unfold DPO.runBy DPO.run; simp only [smeanBy_eq]
  · unfold Vortex.trnBy Vortex.trn; simp only [smeanBy_eq]
  · unfold Ichimoku.visBy Ichimoku.vis; simp only [smeanBy_eq]

/-- C114. The same for the Ulcer index. -/
theorem numpy_order_ulcer {σ : List (Val ℝ) → Val ℝ} (hσ : Summing σ) (c : Series (Val ℝ)) (w : Nat) (b : Bool) : ulcerIndexBy σ c w b = ulcerIndex c w b := by
  rw [hσ.eq]; rfl

end exact

/-! ## rounded arithmetic -/

section rounded
variable {K : Type} [Field K] [LinearOrder K] [IsStrictOrderedRing K] {R : Rounding K}

/-- C114. **MFI stays in [0, 100] whatever the data, the rounding and the order of the sums.** -/
theorem mfi_any_order {σ : List (Rval R) → Rval R} (hσ : Summing σ) (h l c v : Series (Rval R)) (w : Nat) (fillna : Bool) :
    Within 0 100 (moneyFlowIndexBy σ h l c v w fillna) := by
  unfold moneyFlowIndexBy
  refine Every.fill (P := In 0 100) ?_ In.nan (lit_in R.zero R.hundred (by norm_num) (by norm_num)) fillna
  generalize MFI.flow h l c v = f
  have hp : Every Nn (rollApply (MFI.posBy σ) w (minp fillna w) f) := by
    refine Every.roll (P := fun _ => True) (fun _ _ => trivial) trivial (fun x _ => ?_) w
    unfold aggApply
    split_ifs
    · unfold MFI.posBy
      obtain ⟨d, hd⟩ := hσ (x.map (fun v => if v >=. lit 0 then v else lit 0))
      refine hd.closed (P := Nn) Nn.lit0 (fun a b ha hb => ha.add hb) fun y hy => ?_
      obtain ⟨z, -, rfl⟩ := List.mem_map.mp hy
      split_ifs with h1
      · rw [lit0] at h1; exact .inr h1
      · exact Nn.lit0
    · exact Nn.nan
  have hn : Every Nn (sabs (rollApply (MFI.negBy σ) w (minp fillna w) f)) :=
    Every.map (P := fun _ => True) (fun _ _ => trivial) fun y _ => Nn.abs y
  have hr : Every Nn (sdiv (rollApply (MFI.posBy σ) w (minp fillna w) f) (sabs (rollApply (MFI.negBy σ) w (minp fillna w) f))) :=
    Every.zip2 hp hn Nn.nan Nn.nan fun a b ha hb => ha.div hb
  unfold csub cdiv cadd
  rw [List.map_map, List.map_map]
  exact hr.map fun r hr => squash hr

/-- the number in a rounded value -/
def rnum (x : Rval R) : K := match (show Val K from x) with | .fin y => y | _ => 0

@[simp] theorem rnum_rk (x : K) : rnum (rk x : Rval R) = x := rfl

/-- **the error of a sum in any order**, with `d` additions for each entry -/
theorem AddsUp.near {u η Ω : K} (acc : R.Acc u η Ω) (hu : 0 ≤ u) (hη0 : 0 ≤ η) {N W D : K} (hN : 0 ≤ N) (hη : η ≤ u * N / 500) (hΩ : 2 * (N * W) ≤ Ω)
    (huD : 1000 * u * D ≤ 1) {l : List (Rval R)} {a : Rval R} {d : Nat} (h : AddsUp l a d) (hd : (d : K) ≤ D) (hl : ∀ x ∈ l, ∃ y : K, x = rk y ∧ |y| ≤ N)
    (hW : (l.length : K) ≤ W) : ∃ S : K, a = rk S ∧ |S - (l.map rnum).sum| ≤ d * (1.1 * u * (N * l.length)) ∧ |(l.map rnum).sum| ≤ N * l.length := by
  induction h with
  | nil d =>
    refine ⟨0, lit0, ?_, by simp⟩
    simp
  | one x d =>
    obtain ⟨y, rfl, hy⟩ := hl x (by simp)
    refine ⟨y, rfl, ?_, by simpa using hy⟩
    simp
    positivity
  | @add l m a b d h1 h2 i1 i2 =>
    have dn : (0 : K) ≤ d := Nat.cast_nonneg d
    have ln : (0 : K) ≤ l.length := Nat.cast_nonneg _
    have mn : (0 : K) ≤ m.length := Nat.cast_nonneg _
    rw [List.length_append] at hW ⊢
    push_cast at hW hd ⊢
    obtain ⟨S, e1, b1, c1⟩ := i1 (by linarith) (fun x hx => hl x (by simp [hx])) (by linarith)
    obtain ⟨T, e2, b2, c2⟩ := i2 (by linarith) (fun x hx => hl x (by simp [hx])) (by linarith)
    rw [List.map_append, List.sum_append]
    generalize (l.map rnum).sum = s at *
    generalize (m.map rnum).sum = t at *
    have cc : |s + t| ≤ N * (l.length + m.length) := (abs_add_le s t).trans (by rw [mul_add]; linarith)
    by_cases z : l.length + m.length = 0
    · have z1 : l = [] := List.eq_nil_of_length_eq_zero (by omega)
      have z2 : m = [] := List.eq_nil_of_length_eq_zero (by omega)
      subst z1 z2
      simp only [List.length_nil, Nat.cast_zero, mul_zero] at b1 b2 c1 c2 cc ⊢
      have s0 := abs_nonpos_iff.mp c1
      have t0 := abs_nonpos_iff.mp c2
      subst s0 t0
      rw [sub_zero] at b1 b2
      have S0 := abs_nonpos_iff.mp b1
      have T0 := abs_nonpos_iff.mp b2
      subst S0 T0
      refine ⟨0, ?_, by simp, by simp⟩
      rw [e1, e2]
      show R.rd (0 + 0) = _
      rw [add_zero]
      exact R.zero
    · have n1 : (1 : K) ≤ l.length + m.length := by exact_mod_cast Nat.one_le_iff_ne_zero.mpr z
      generalize hL : (l.length : K) + m.length = L at *
      have hNL : N ≤ N * L := le_mul_of_one_le_right hN n1
      have hNL0 : 0 ≤ N * L := mul_nonneg hN (by linarith)
      have st : |(S + T) - (s + t)| ≤ d * (1.1 * u * (N * L)) := by
        have q := abs_add_le (S - s) (T - t)
        rw [show S - s + (T - t) = S + T - (s + t) by ring] at q
        refine q.trans ((add_le_add b1 b2).trans (le_of_eq ?_))
        rw [← hL]; ring
      have du : (d : K) * (1.1 * u * (N * L)) ≤ 0.0011 * (N * L) := by
        have q := mul_le_mul_of_nonneg_left (by linarith : (d : K) ≤ D) (by positivity : (0 : K) ≤ 1000 * u)
        have q2 := mul_le_mul_of_nonneg_right (q.trans huD) hNL0
        linarith
      have ST : |S + T| ≤ 1.0011 * (N * L) := by
        have q := abs_add_le (S + T - (s + t)) (s + t)
        rw [sub_add_cancel] at q
        linarith
      have hLW : N * L ≤ N * W := mul_le_mul_of_nonneg_left hW hN
      obtain ⟨Z, Z1, Z2⟩ := acc_add acc (x := S) (y := T) (ST.trans (by linarith))
      refine ⟨Z, by rw [e1, e2, Z1], ?_, cc⟩
      have q := abs_add_le (Z - (S + T)) (S + T - (s + t))
      rw [show Z - (S + T) + (S + T - (s + t)) = Z - (s + t) by ring] at q
      have q2 := mul_le_mul_of_nonneg_left ST hu
      have q3 := mul_le_mul_of_nonneg_left hNL hu
      have : ((d : K) + 1) * (1.1 * u * (N * L)) = d * (1.1 * u * (N * L)) + 1.1 * (u * (N * L)) := by ring
      rw [this]
      have q4 : 0 ≤ u * (N * L) := mul_nonneg hu hNL0
      linarith
  | @perm l m a d p h i =>
    obtain ⟨S, e, b, c⟩ := i hd (fun x hx => hl x (p.mem_iff.mp hx)) (by rw [p.length_eq]; exact hW)
    rw [(p.map rnum).sum_eq, p.length_eq] at b
    rw [(p.map rnum).sum_eq, p.length_eq] at c
    exact ⟨S, e, b, c⟩

end rounded

/-! ## double precision -/

section double
variable {K : Type} [Field K] [LinearOrder K] [IsStrictOrderedRing K] [FloorRing K]

/-- C114. **Sums of doubles in any order**: `n` numbers of size at most `M`, each in at most `d` additions, are summed up to `1.1 d eps n M`. -/
theorem adds_double {x : List K} {a : Double K} {d : Nat} (h : AddsUp (x.map rk) a d) {M : K} (hM1 : tiny ≤ M) (hM2 : M ≤ huge) (hx : ∀ y ∈ x, |y| ≤ M)
    (hn : x.length ≤ 2 ^ 40) (hd : d ≤ 2 ^ 40) : ∃ S : K, a = Val.fin S ∧ |S - x.sum| ≤ d * (1.1 * eps * (M * x.length)) := by
  have hM : 0 < M := tiny_pos.trans_le hM1
  have hη := eta_le hM1
  have eM : 0 < eps * M := mul_pos eps_pos hM
  have cp : M * (x.length : K) ≤ cap := (mul_le_mul_of_nonneg_right hM2 (Nat.cast_nonneg _)).trans (huge_win hn)
  have hb := big_le cp
  have h0 : 0 ≤ M * (x.length : K) := mul_nonneg hM.le (Nat.cast_nonneg _)
  have hD := eps_win (K := K) hd
  have e0 := eps_pos (K := K)
  obtain ⟨S, h1, h2, -⟩ := h.near (b64_acc (K := K)) eps_pos.le (two_zpow_pos _).le (N := M) (W := x.length) (D := (d : K)) hM.le
    (by unfold eps at *; generalize (2 : K) ^ (-1075 : ℤ) = η at *; linarith)
    (by generalize (2 : K) ^ (1023 : ℤ) = Ω at *; linarith) (by have : 1000 * eps * ((d : K) + 1) = 1000 * eps * d + 1000 * eps := by ring
                                                                unfold eps at *; linarith) le_rfl
    (fun y hy => by obtain ⟨z, hz, rfl⟩ := List.mem_map.mp hy; exact ⟨z, rfl, hx z hz⟩) (by simp)
  refine ⟨S, h1, ?_⟩
  rw [List.map_map, List.length_map] at h2
  rwa [show (rnum ∘ (rk : K → Double K)) = id from rfl, List.map_id] at h2

/-- C114. Sums of integers of total size up to `2^52` are exact in any order. -/
theorem adds_int {l : List (Double K)} {a : Double K} {d : Nat} (h : AddsUp l a d) (hl : ∀ x ∈ l, ∃ k : ℤ, x = rk (k : K)) (hs : (l.map fun x => |rnum x|).sum ≤ 2 ^ 52) :
    a = rk (l.map rnum).sum ∧ ∃ k : ℤ, (l.map rnum).sum = k := by
  induction h with
  | nil d => exact ⟨lit0, 0, by simp⟩
  | one x d =>
    obtain ⟨k, rfl⟩ := hl x (by simp)
    exact ⟨by simp, k, by simp⟩
  | @add l m a b d h1 h2 i1 i2 =>
    have nn : ∀ m : List (Double K), 0 ≤ (m.map fun x => |rnum x|).sum := fun m => List.sum_nonneg (by simp)
    have tri : ∀ m : List (Double K), |(m.map rnum).sum| ≤ (m.map fun x => |rnum x|).sum := by
      intro m
      induction m with
      | nil => simp
      | cons y m ih => rw [List.map_cons, List.map_cons, List.sum_cons, List.sum_cons]; exact (abs_add_le _ _).trans (by linarith)
    have T := tri (l ++ m)
    rw [List.map_append, List.sum_append] at hs T ⊢
    rw [List.map_append, List.sum_append] at T
    obtain ⟨e1, k, hk⟩ := i1 (fun x hx => hl x (by simp [hx])) (by have := nn m; linarith)
    obtain ⟨e2, j, hj⟩ := i2 (fun x hx => hl x (by simp [hx])) (by have := nn l; linarith)
    rw [hk, hj] at T
    rw [e1, e2, hk, hj]
    refine ⟨?_, k + j, by push_cast; rfl⟩
    have B := b64_int (K := K) (k := k + j) (by
      have : |((k : K) + j)| ≤ 2 ^ 52 := T.trans hs
      exact_mod_cast this)
    push_cast at B
    exact B
  | @perm l m a d p h i =>
    have := i (fun x hx => hl x (p.mem_iff.mp hx)) (by rw [(p.map _).sum_eq]; exact hs)
    rwa [(p.map rnum).sum_eq] at this

/-- one term of WMA -/
theorem wma_term {w j : Nat} (hw : 1 ≤ w) (hw2 : w ≤ 2 ^ 25) (hj : j < w) {c M : K} (hM1 : 2 ^ (-800 : ℤ) ≤ M) (hM2 : M ≤ huge) (hc : |c| ≤ M) :
    ∃ p : K, ((natF ((j + 1) * 2) /. natF (w * (w + 1))) *. rk c : Double K) = rk p ∧
      |p - ((j : K) + 1) * 2 / (w * (w + 1)) * c| ≤ 2.01 * eps * (((j : K) + 1) * 2 / (w * (w + 1)) * M) ∧ |p| ≤ 2.01 / ((w : K) + 1) * M := by
  have wp : (1 : K) ≤ w := by exact_mod_cast hw
  have ww : w * (w + 1) ≤ 2 ^ 25 * (2 ^ 25 + 1) := Nat.mul_le_mul hw2 (by omega)
  have M0 : 0 < M := (two_zpow_pos _).trans_le hM1
  have e0 := eps_pos (K := K)
  have e1 := eps_small (K := K)
  rw [natF_double (by omega), natF_double (by omega)]
  have jn : (0 : K) ≤ j := Nat.cast_nonneg _
  have jw : (j : K) + 1 ≤ w := by exact_mod_cast hj
  have hne : ((w * (w + 1) : ℕ) : K) ≠ 0 := by positivity
  have eQ : (((j + 1) * 2 : ℕ) : K) / ((w * (w + 1) : ℕ) : K) = ((j : K) + 1) * 2 / (w * (w + 1)) := by push_cast; rfl
  obtain ⟨Q, hQ⟩ : ∃ Q : K, Q = ((j : K) + 1) * 2 / (w * (w + 1)) := ⟨_, rfl⟩
  have Q0 : 0 < Q := by rw [hQ]; positivity
  have Q1 : Q ≤ 2 / ((w : K) + 1) := by
    rw [hQ, div_le_div_iff₀ (by positivity) (by positivity)]
    have := mul_le_mul_of_nonneg_right jw (by positivity : (0 : K) ≤ 2 * (w + 1))
    linarith
  have Q2 : Q ≤ 1 := Q1.trans (by rw [div_le_one (by positivity)]; linarith)
  have Q3 : (2 : K) ^ (-52 : ℤ) ≤ Q := by
    have : (2 : K) ^ (-52 : ℤ) = 1 / 2 ^ 52 := by rw [zpow_neg]; norm_num
    rw [this, hQ, div_le_div_iff₀ (by positivity) (by positivity)]
    have h1 : (w : K) * (w + 1) ≤ 2 ^ 25 * (2 ^ 25 + 1) := by exact_mod_cast ww
    have h2 : (2 : K) ^ 52 * 1 ≤ 2 ^ 52 * ((j : K) + 1) := mul_le_mul_of_nonneg_left (by linarith) (by positivity)
    generalize (j : K) + 1 = J at *
    norm_num at *
    linarith
  have tQ : tiny ≤ Q := le_trans (zpow_le_zpow_right₀ (by norm_num) (by norm_num)) Q3
  have tQM : tiny ≤ Q * M := by
    refine le_trans ?_ (mul_le_mul Q3 hM1 (two_zpow_pos _).le Q0.le)
    rw [← zpow_add₀ (by norm_num)]
    exact zpow_le_zpow_right₀ (by norm_num) (by norm_num)
  have η1 := eta_le tQ
  have η2 := eta_le tQM
  have QM1 : Q * M ≤ M := by have := mul_le_mul_of_nonneg_right Q2 M0.le; linarith
  have hbM := big_le (hM2.trans (by have h1 := huge_cap (K := K); have h2 : (0 : K) < huge := two_zpow_pos _; linarith))
  have big := big4 (K := K)
  obtain ⟨q, q1, q2⟩ := acc_div (b64_acc (K := K)) (x := (((j + 1) * 2 : ℕ) : K)) (y := ((w * (w + 1) : ℕ) : K)) hne
    (by rw [eQ, ← hQ, abs_of_pos Q0]; generalize (2 : K) ^ (1023 : ℤ) = Ω at *; linarith)
  rw [eQ, ← hQ, abs_of_pos Q0] at q2
  change |q - Q| ≤ eps * Q + _ at q2
  have eQ0 : 0 < eps * Q := mul_pos e0 Q0
  have q3 : |q - Q| ≤ 1.001 * (eps * Q) := by generalize (2 : K) ^ (-1075 : ℤ) = η at *; linarith
  have eQ1 : eps * Q ≤ 0.001 * Q := by have := mul_le_mul_of_nonneg_right e1 Q0.le; linarith
  have q4 : |q| ≤ 1.0011 * Q := by
    have := abs_add_le (q - Q) Q
    rw [sub_add_cancel, abs_of_pos Q0] at this
    linarith
  have qc : |q * c| ≤ 1.0011 * (Q * M) := by
    rw [abs_mul]
    have := mul_le_mul q4 hc (abs_nonneg _) (by positivity)
    linarith
  obtain ⟨p, p1, p2⟩ := acc_mul (b64_acc (K := K)) (x := q) (y := c) (by
    have : 1000 * (Q * M) ≤ 1000 * M := by linarith
    generalize (2 : K) ^ (1023 : ℤ) = Ω at *
    have h3 := mul_pos Q0 M0
    linarith)
  change |p - q * c| ≤ eps * |q * c| + _ at p2
  have eqc := mul_le_mul_of_nonneg_left qc e0.le
  have eQM : 0 < eps * (Q * M) := by positivity
  have eQM1 : eps * (Q * M) ≤ 0.001 * (Q * M) := by have := mul_le_mul_of_nonneg_right e1 (by positivity : 0 ≤ Q * M); linarith
  have p3 : |p - q * c| ≤ 1.0022 * (eps * (Q * M)) := by generalize (2 : K) ^ (-1075 : ℤ) = η at *; linarith
  have p4 : |q * c - Q * c| ≤ 1.001 * (eps * (Q * M)) := by
    rw [← sub_mul, abs_mul]
    have := mul_le_mul q3 hc (abs_nonneg _) (by positivity)
    linarith
  have p5 := near_trans p3 p4
  refine ⟨p, by rw [q1, p1], ?_, ?_⟩
  · rw [← hQ]; linarith
  · have QM : Q * M ≤ 2 / ((w : K) + 1) * M := mul_le_mul_of_nonneg_right Q1 M0.le
    have Qc : |Q * c| ≤ Q * M := by rw [abs_mul, abs_of_pos Q0]; exact mul_le_mul_of_nonneg_left hc Q0.le
    have := near_abs p5 Qc
    have e : 2.01 / ((w : K) + 1) * M = 1.005 * (2 / ((w : K) + 1) * M) := by ring
    rw [e]
    linarith

/-- C114. **WMA in double precision**, with the products added in any order in which each takes part in at most `d` additions:
within `(2.3 d + 2.1) eps M` of the exact one for closes of size up to `M`. -/
theorem wma_any_order {n w : Nat} (hw : 1 ≤ w) (hw2 : w ≤ 2 ^ 25) {x : Nat → K} {M : K} (hM1 : 2 ^ (-800 : ℤ) ≤ M) (hM2 : M ≤ 2 ^ (800 : ℤ)) (hx : ∀ j, j < n → |x j| ≤ M)
    {σ : List (Double K) → Double K} {d : Nat} (hd : d ≤ 2 ^ 40) (hσ : ∀ l : List (Double K), l.length = w → AddsUp l (σ l) d) :
    CloseTo ((2.3 * d + 2.1) * eps * M) (wmaBy σ (dser n x) w false) (wma (ser n x) w false) := by
  have wp : (1 : K) ≤ w := by exact_mod_cast hw
  have hM3 : M ≤ huge := hM2.trans (zpow_le_zpow_right₀ (by norm_num) (by norm_num))
  have M0 : 0 < M := (two_zpow_pos _).trans_le hM1
  have e0 := eps_pos (K := K)
  have d0 : (0 : K) ≤ d := Nat.cast_nonneg _
  refine Approx.close (n := n) (p := w - 1) ⟨by simp [wmaBy, rser], fun i hi hp => ?_, fun i hi hp => ?_⟩ (wma_formula n x w hw)
  all_goals
    have row : ix (wmaBy σ (dser n x) w false) i = aggApply (WMA.avgBy σ w) w ((winIx w i).map fun j => (rk (x j) : Double K)) := by
      unfold wmaBy rollApply
      rw [show ∀ s : Series (Double K), checkFillna false (.const (lit 0)) s = s from fun _ => rfl, ix_roll' (by simpa [rser] using hi)]
      congr 1
      refine List.map_congr_left fun j hj => ?_
      rw [mem_winIx] at hj
      rw [show dser n x = tab n fun i => (rk (x i) : Double K) from rfl, ix_tab_lt (by omega)]
      rfl
    have vl : (valid ((winIx w i).map fun j => (rk (x j) : Double K))).length = min w (i + 1) := by
      unfold valid
      rw [List.filter_eq_self.mpr, List.length_map, length_winIx]
      intro y hy
      obtain ⟨j, -, rfl⟩ := List.mem_map.mp hy
      rfl
    rw [row]
    unfold aggApply
    rw [vl]
  · rw [if_neg (by omega)]
  · rw [if_pos (by omega)]
    unfold WMA.avgBy
    rw [List.length_map, length_winIx, min_eq_left (by omega)]
    have tm : ∀ j, j < w → ∃ p : K, ((natF ((j + 1) * 2) /. natF (w * (w + 1))) *. ix ((winIx w i).map fun j => (rk (x j) : Double K)) j : Double K) = rk p ∧
        |p - ((j : K) + 1) * 2 / (w * (w + 1)) * x (i + 1 - w + j)| ≤ 2.01 * eps * (((j : K) + 1) * 2 / (w * (w + 1)) * M) ∧ |p| ≤ 2.01 / ((w : K) + 1) * M := by
      intro j hj
      have e : ix ((winIx w i).map fun j => (rk (x j) : Double K)) j = rk (x (i + 1 - w + j)) := by
        rw [ix_lt (by rw [List.length_map, length_winIx]; omega)]
        simp [winIx]
      rw [e]
      exact wma_term hw hw2 hj hM1 hM3 (hx _ (by omega))
    choose! p p1 p2 p3 using tm
    have eL : (tab w fun j => ((natF ((j + 1) * 2) /. natF (w * (w + 1))) *. ix ((winIx w i).map fun j => (rk (x j) : Double K)) j : Double K)) = (tab w p).map rk := by
      rw [show (tab w p).map (rk : K → Double K) = tab w fun j => rk (p j) by simp [tab]]
      exact tab_congr rfl fun j hj => p1 j hj
    have A := hσ _ (by rw [length_tab] : (tab w fun j => ((natF ((j + 1) * 2) /. natF (w * (w + 1))) *. ix ((winIx w i).map fun j => (rk (x j) : Double K)) j : Double K)).length = w)
    rw [eL] at A ⊢
    have N1 : tiny ≤ 2.01 / ((w : K) + 1) * M := by
      have h1 : (2 : K) ^ (-52 : ℤ) ≤ 2.01 / ((w : K) + 1) := by
        have e : (2 : K) ^ (-52 : ℤ) = 1 / 2 ^ 52 := by rw [zpow_neg]; norm_num
        rw [e, div_le_div_iff₀ (by positivity) (by positivity)]
        have h2 : (w : K) ≤ 33554432 := by exact_mod_cast hw2
        norm_num only
        linarith
      refine le_trans ?_ (mul_le_mul h1 hM1 (two_zpow_pos _).le (by positivity))
      rw [← zpow_add₀ (by norm_num)]
      exact zpow_le_zpow_right₀ (by norm_num) (by norm_num)
    have N2 : 2.01 / ((w : K) + 1) * M ≤ 1.005 * M := by
      refine mul_le_mul_of_nonneg_right ?_ M0.le
      rw [div_le_iff₀ (by positivity)]
      linarith
    have N3 : 2.01 / ((w : K) + 1) * M ≤ huge := by
      refine N2.trans ?_
      have h1 : (huge : K) = 2 ^ (100 : ℤ) * 2 ^ (800 : ℤ) := by unfold huge; rw [← zpow_add₀ (by norm_num)]; norm_num only
      rw [h1]
      exact mul_le_mul (by norm_num) hM2 M0.le (by positivity)
    have lenp : (tab w p).length = w := by simp
    obtain ⟨S, S1, S2⟩ := adds_double A N1 N3 (fun y hy => by
      obtain ⟨j, hj, rfl⟩ : ∃ j, j < w ∧ p j = y := by simpa [tab] using hy
      exact p3 j hj) (by rw [lenp]; omega) hd
    refine ⟨S, S1, ?_⟩
    rw [lenp] at S2
    have sp : (tab w p).sum = ∑ j ∈ range w, p j := by
      have h1 := sumL_tab_fin w p
      rw [show (tab w fun j => Val.fin (p j)) = (tab w p).map Val.fin by simp [tab], sumL_fin] at h1
      exact Val.fin.inj h1
    rw [sp] at S2
    have tot : ∑ j ∈ range w, ((j : K) + 1) * 2 / (w * (w + 1)) = 1 := by
      have : ∀ m : Nat, ∑ j ∈ range m, ((j : K) + 1) * 2 = m * (m + 1) := by
        intro m
        induction m with
        | zero => simp
        | succ m ih => rw [sum_range_succ, ih]; push_cast; ring
      rw [← Finset.sum_div, this, div_self (by positivity)]
    have sum_near : |∑ j ∈ range w, p j - ∑ j ∈ range w, ((j : K) + 1) * 2 / (w * (w + 1)) * x (i + 1 - w + j)| ≤ 2.01 * eps * M := by
      rw [← Finset.sum_sub_distrib]
      refine (Finset.abs_sum_le_sum_abs _ _).trans ((Finset.sum_le_sum fun j hj => p2 j (Finset.mem_range.mp hj)).trans (le_of_eq ?_))
      rw [← Finset.mul_sum, ← Finset.sum_mul, tot, one_mul]
    have eF : (∑ k ∈ range w, ((k : K) + 1) * x (i + 1 - w + k)) / ((w : K) * (w + 1) / 2) = ∑ j ∈ range w, ((j : K) + 1) * 2 / (w * (w + 1)) * x (i + 1 - w + j) := by
      rw [Finset.sum_div]
      refine Finset.sum_congr rfl fun j _ => ?_
      field_simp
    rw [eF]
    refine (near_trans S2 sum_near).trans ?_
    have q : 2.01 / ((w : K) + 1) * M * w ≤ 2.01 * M := by
      have : 2.01 / ((w : K) + 1) * M * w = 2.01 * M * (w / (w + 1)) := by field_simp
      rw [this]
      refine mul_le_of_le_one_right (by positivity) ?_
      rw [div_le_one (by positivity)]
      linarith
    have q2 := mul_le_mul_of_nonneg_left q (by positivity : (0 : K) ≤ d * (1.1 * eps))
    have q3 : 0 ≤ (d : K) * eps * M := by positivity
    have q4 : 0 < eps * M := by positivity
    have e1 : (d : K) * (1.1 * eps * (2.01 / ((w : K) + 1) * M * w)) = d * (1.1 * eps) * (2.01 / ((w : K) + 1) * M * w) := by ring
    rw [e1]
    refine (add_le_add q2 le_rfl).trans ?_
    have e2 : (d : K) * (1.1 * eps) * (2.01 * M) = 2.211 * (d * eps * M) := by ring
    have e3 : (2.3 * (d : K) + 2.1) * eps * M = 2.3 * (d * eps * M) + 2.1 * (eps * M) := by ring
    rw [e2, e3]
    linarith

/-- C114. **WMA as numpy computes it**: for windows up to 128, within `62 eps M` of the exact one, whatever the window. -/
theorem wma_numpy {n w : Nat} (hw : 1 ≤ w) (hw2 : w ≤ 128) {x : Nat → K} {M : K} (hM1 : 2 ^ (-800 : ℤ) ≤ M) (hM2 : M ≤ 2 ^ (800 : ℤ)) (hx : ∀ j, j < n → |x j| ≤ M) :
    CloseTo (62 * eps * M) (wmaBy npSum (dser n x) w false) (wma (ser n x) w false) := by
  have h := wma_any_order (n := n) hw (by omega) hM1 hM2 hx (σ := npSum) (d := 26) (by norm_num) fun l hl => npSum_addsUp l (s := 0) (by omega)
  have M0 : 0 < M := (two_zpow_pos _).trans_le hM1
  have e : (62 : K) * eps * M = 62 * (eps * M) := by ring
  have q : 0 < (eps : K) * M := mul_pos eps_pos M0
  refine h.mono ?_
  push_cast
  have e2 : (2.3 * (26 : K) + 2.1) * eps * M = 61.9 * (eps * M) := by ring
  rw [e, e2]
  linarith

end double

/-! ## examples -/

/-- eight numbers in double precision: numpy gets 2^53 + 6, adding from left to right 2^53 (exact: 2^53 + 7) -/
example : (npSum (fs [9007199254740992, 1, 1, 1, 1, 1, 1, 1]), sumL (fs [9007199254740992, 1, 1, 1, 1, 1, 1, 1])) = (f64 9007199254740998, f64 9007199254740992) := by
  decide +kernel
/-- hence also WMA(8) differs -/
example : wmaBy npSum (fs [36028797018963968, 3, 5, 7, 9, 11, 13, 15]) 8 false ≠ wma (fs [36028797018963968, 3, 5, 7, 9, 11, 13, 15]) 8 false := by decide +kernel
example : npSum (qs [1, 2, 3, 4, 5, 6, 7, 8, 10]) = .fin 46 ∧ wmaBy npSum (qs [1, 2, 4]) 3 true = [.fin 0, .fin 0, .fin (17 / 6)] := by decide +kernel
/-- the middle of 300 numbers: numpy cuts at 144 -/
example : cutAt 300 = 144 ∧ cutAt 156 = 72 := by decide

end TA
