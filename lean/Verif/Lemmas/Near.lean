import Verif.Lemmas.RelReal

/-! # Small changes of the data through the pandas primitives

`Nr d x y` is `|x - y| ≤ d`; `VN d` relates values (NaN to NaN, infinities to themselves), `SN d` relates series row by row. -/

set_option linter.unusedSectionVars false

namespace TA
variable {K : Type} [Field K] [LinearOrder K] [IsStrictOrderedRing K]

def Nr (d x y : K) : Prop := |x - y| ≤ d

abbrev VN (d : K) : Val K → Val K → Prop := VRel (Nr d)
abbrev SN (d : K) : Series (Val K) → Series (Val K) → Prop := SRel (Nr d)
abbrev LN (d : K) : List (Val K) → List (Val K) → Prop := List.Forall₂ (VN d)

theorem convex_Nr (d : K) : Convex (Nr d) := by
  intro u v x x' y y' hu hv huv h1 h2
  unfold Nr at *
  rw [abs_le] at *
  have e : d = u * d + v * d := by rw [← add_mul, huv, one_mul]
  constructor
  · have := add_le_add (mul_le_mul_of_nonneg_left h1.1 hu) (mul_le_mul_of_nonneg_left h2.1 hv)
    linarith
  · have := add_le_add (mul_le_mul_of_nonneg_left h1.2 hu) (mul_le_mul_of_nonneg_left h2.2 hv)
    linarith

/-! ## values -/

section
variable {d e : K} {a a' b b' : Val K}

theorem VN.mono (h : VN d a a') (hde : d ≤ e) : VN e a a' := by
  cases h with
  | fin h => exact .fin (le_trans h hde)
  | nan => exact .nan
  | pinf => exact .pinf
  | ninf => exact .ninf

theorem VN.refl (hd : 0 ≤ d) (a : Val K) : VN d a a := by
  cases a with
  | fin x => exact .fin (by simp [Nr, hd])
  | nan => exact .nan
  | pinf => exact .pinf
  | ninf => exact .ninf

theorem VN.add (ha : VN d a a') (hb : VN e b b') : VN (d + e) (a +. b) (a' +. b') := by
  cases ha with
  | fin h1 =>
    cases hb with
    | fin h2 =>
      rw [fin_add, fin_add]
      refine .fin ?_
      unfold Nr at *
      rw [abs_le] at *
      constructor <;> linarith [h1.1, h1.2, h2.1, h2.2]
    | nan => exact .nan
    | pinf => exact .pinf
    | ninf => exact .ninf
  | nan => cases hb <;> exact .nan
  | pinf =>
    cases hb with
    | fin h2 => exact .pinf
    | nan => exact .nan
    | pinf => exact .pinf
    | ninf => exact .nan
  | ninf =>
    cases hb with
    | fin h2 => exact .ninf
    | nan => exact .nan
    | pinf => exact .nan
    | ninf => exact .ninf

theorem VN.neg (ha : VN d a a') : VN d (Flt.neg a) (Flt.neg a') := by
  cases ha with
  | @fin x y h1 =>
    refine .fin ?_
    unfold Nr at *
    rw [show -x - -y = -(x - y) from by ring, abs_neg]
    exact h1
  | nan => exact .nan
  | pinf => exact .ninf
  | ninf => exact .pinf

theorem VN.sub (ha : VN d a a') (hb : VN e b b') : VN (d + e) (a -. b) (a' -. b') := by
  cases ha with
  | fin h1 =>
    cases hb with
    | fin h2 =>
      rw [fin_sub, fin_sub]
      refine .fin ?_
      unfold Nr at *
      rw [abs_le] at *
      constructor <;> linarith [h1.1, h1.2, h2.1, h2.2]
    | nan => exact .nan
    | pinf => exact .ninf
    | ninf => exact .pinf
  | nan => cases hb <;> exact .nan
  | pinf =>
    cases hb with
    | fin h2 => exact .pinf
    | nan => exact .nan
    | pinf => exact .nan
    | ninf => exact .pinf
  | ninf =>
    cases hb with
    | fin h2 => exact .ninf
    | nan => exact .nan
    | pinf => exact .ninf
    | ninf => exact .nan

theorem VN.abs (ha : VN d a a') : VN d (Flt.abs a) (Flt.abs a') := by
  cases ha with
  | fin h1 =>
    rw [fin_abs, fin_abs]
    exact .fin (le_trans (abs_abs_sub_abs_le_abs_sub _ _) h1)
  | nan => exact .nan
  | pinf => exact .pinf
  | ninf => exact .pinf

theorem VRel.same {C D : K → K → Prop} {f : Val K → Val K} (h : VRel C a a')
    (hn : VRel D (f .nan) (f .nan)) (hp : VRel D (f .pinf) (f .pinf)) (hm : VRel D (f .ninf) (f .ninf))
    (hf : ∀ x y, C x y → VRel D (f (.fin x)) (f (.fin y))) : VRel D (f a) (f a') := by
  cases h with
  | fin h => exact hf _ _ h
  | nan => exact hn
  | pinf => exact hp
  | ninf => exact hm

theorem VN.cmul (hd : 0 ≤ d) (c : K) (ha : VN d a a') : VN (|c| * d) (.fin c *. a) (.fin c *. a') := by
  have h0 : 0 ≤ |c| * d := mul_nonneg (abs_nonneg c) hd
  refine VRel.same (f := fun x => .fin c *. x) ha (VN.refl h0 _) (VN.refl h0 _) (VN.refl h0 _) fun x y h => ?_
  show VN _ (.fin c *. .fin x) (.fin c *. .fin y)
  rw [fin_mul, fin_mul]
  refine .fin ?_
  unfold Nr at *
  rw [← mul_sub, abs_mul]
  exact mul_le_mul_of_nonneg_left h (abs_nonneg c)

theorem VN.mulc (hd : 0 ≤ d) (c : K) (ha : VN d a a') : VN (|c| * d) (a *. .fin c) (a' *. .fin c) := by
  have h0 : 0 ≤ |c| * d := mul_nonneg (abs_nonneg c) hd
  refine VRel.same (f := fun x => x *. .fin c) ha (VN.refl h0 _) (VN.refl h0 _) (VN.refl h0 _) fun x y h => ?_
  show VN _ (.fin x *. .fin c) (.fin y *. .fin c)
  rw [fin_mul, fin_mul]
  refine .fin ?_
  unfold Nr at *
  rw [← sub_mul, abs_mul, mul_comm]
  exact mul_le_mul_of_nonneg_left h (abs_nonneg c)

theorem VN.divFin (hd : 0 ≤ d) {c : K} (hc : 0 < c) (ha : VN d a a') : VN (d / c) (a /. .fin c) (a' /. .fin c) := by
  have h0 : 0 ≤ d / c := div_nonneg hd hc.le
  refine VRel.same (f := fun x => x /. .fin c) ha (VN.refl h0 _) (VN.refl h0 _) (VN.refl h0 _) fun x y h => ?_
  show VN _ (.fin x /. .fin c) (.fin y /. .fin c)
  rw [fin_div _ _ hc.ne', fin_div _ _ hc.ne']
  refine .fin ?_
  unfold Nr at *
  rw [← sub_div, abs_div, abs_of_pos hc]
  exact div_le_div_of_nonneg_right h hc.le

theorem lt_fin_iff (x y : K) : (Val.fin x <. Val.fin y) = decide (x < y) := rfl

/-- the larger of two values, as `max` of a window picks it -/
theorem VN.pickMax (ha : VN d a a') (hb : VN d b b') : VN d (if a <. b then b else a) (if a' <. b' then b' else a') := by
  cases ha with
  | fin h1 =>
    cases hb with
    | fin h2 =>
      rename_i x y u v
      simp only [lt_fin_iff, decide_eq_true_eq]
      unfold Nr at *
      rw [abs_le] at *
      split_ifs <;> refine .fin ?_ <;> unfold Nr <;> rw [abs_le] <;> constructor <;> linarith [h1.1, h1.2, h2.1, h2.2]
    | nan => exact .fin h1
    | pinf => exact .pinf
    | ninf => exact .fin h1
  | nan => cases hb <;> exact .nan
  | pinf => cases hb <;> exact .pinf
  | ninf =>
    cases hb with
    | fin h2 => exact .fin h2
    | nan => exact .ninf
    | pinf => exact .pinf
    | ninf => exact .ninf

theorem VN.pickMin (ha : VN d a a') (hb : VN d b b') : VN d (if b <. a then b else a) (if b' <. a' then b' else a') := by
  cases ha with
  | fin h1 =>
    cases hb with
    | fin h2 =>
      rename_i x y u v
      simp only [lt_fin_iff, decide_eq_true_eq]
      unfold Nr at *
      rw [abs_le] at *
      split_ifs <;> refine .fin ?_ <;> unfold Nr <;> rw [abs_le] <;> constructor <;> linarith [h1.1, h1.2, h2.1, h2.2]
    | nan => exact .fin h1
    | pinf => exact .fin h1
    | ninf => exact .ninf
  | nan => cases hb <;> exact .nan
  | ninf => cases hb <;> exact .ninf
  | pinf =>
    cases hb with
    | fin h2 => exact .fin h2
    | nan => exact .pinf
    | pinf => exact .pinf
    | ninf => exact .ninf

/-- the middle of a channel -/
theorem VN.middle (hd : 0 ≤ d) (ha : VN d a a') (hb : VN d b b') :
    VN d (((a -. b) /. .fin 2) +. b) (((a' -. b') /. .fin 2) +. b') := by
  cases ha with
  | fin h1 =>
    cases hb with
    | fin h2 =>
      rename_i x y u v
      have e : ∀ p q : K, ((Val.fin p -. .fin q) /. .fin 2) +. .fin q = .fin ((p + q) / 2) := fun p q => by
        rw [fin_sub, fin_div _ _ two_ne_zero, fin_add]; congr 1; ring
      rw [e, e]
      refine .fin ?_
      unfold Nr at *
      rw [abs_le] at *
      constructor <;> linarith [h1.1, h1.2, h2.1, h2.2]
    | nan => exact .nan
    | pinf => exact VN.refl hd _
    | ninf => exact VN.refl hd _
  | nan => cases hb <;> exact .nan
  | pinf =>
    cases hb with
    | fin h2 =>
      rename_i u v
      have e : ∀ q : K, ((Val.pinf -. .fin q) /. .fin 2) +. .fin q = ((Val.pinf -. .fin 0) /. .fin 2) +. .fin (0 : K) := fun q => by
        have h : ∀ q : K, (Val.pinf -. Val.fin q) = .pinf := fun _ => rfl
        rw [h, h]
        have : (Val.pinf /. (.fin 2 : Val K)) = .pinf := by
          show (if (0 : K) ≤ 2 then _ else _) = _
          rw [if_pos (by norm_num)]
        rw [this]; rfl
      rw [e, e v]
      exact VN.refl hd _
    | nan => exact .nan
    | pinf => exact VN.refl hd _
    | ninf => exact VN.refl hd _
  | ninf =>
    cases hb with
    | fin h2 =>
      rename_i u v
      have e : ∀ q : K, ((Val.ninf -. .fin q) /. .fin 2) +. .fin q = ((Val.ninf -. .fin 0) /. .fin 2) +. .fin (0 : K) := fun q => by
        have h : ∀ q : K, (Val.ninf -. Val.fin q) = .ninf := fun _ => rfl
        rw [h, h]
        have : (Val.ninf /. (.fin 2 : Val K)) = .ninf := by
          show (if (0 : K) ≤ 2 then _ else _) = _
          rw [if_pos (by norm_num)]
        rw [this]; rfl
      rw [e, e v]
      exact VN.refl hd _
    | nan => exact .nan
    | pinf => exact VN.refl hd _
    | ninf => exact VN.refl hd _

end

/-! ## lists -/

section
variable {d e : K} {l l' : List (Val K)}

theorem LN.valid (h : LN d l l') : LN d (valid l) (valid l') := by
  induction h with
  | nil => exact .nil
  | cons h1 h2 ih =>
    unfold TA.valid at *
    rw [List.filter_cons, List.filter_cons, VA.isNaN h1]
    split_ifs
    · exact .cons h1 ih
    · exact ih

theorem LN.foldAdd (h : LN d l l') {x x' : Val K} (hx : VN e x x') :
    VN (e + l.length * d) (l.foldl Flt.add x) (l'.foldl Flt.add x') := by
  induction h generalizing x x' e with
  | nil => simpa using hx
  | cons h1 h2 ih =>
    rw [List.foldl_cons, List.foldl_cons]
    refine (ih (hx.add h1)).mono (le_of_eq ?_)
    rw [List.length_cons]; push_cast; ring

theorem LN.sumL (h : LN d l l') : VN (l.length * d) (sumL l) (sumL l') := by
  unfold TA.sumL
  refine (h.foldAdd (VN.refl (le_refl 0) _)).mono (le_of_eq ?_)
  ring

theorem LN.maxL (h : LN d l l') : VN d (maxL l) (maxL l') := by
  cases h with
  | nil => exact .nan
  | cons h1 h2 =>
    unfold TA.maxL
    dsimp only
    rename_i x x' l l'
    induction h2 generalizing x x' with
    | nil => exact h1
    | cons h3 h4 ih =>
      rw [List.foldl_cons, List.foldl_cons]
      exact ih (VN.pickMax h1 h3)

theorem LN.minL (h : LN d l l') : VN d (minL l) (minL l') := by
  cases h with
  | nil => exact .nan
  | cons h1 h2 =>
    unfold TA.minL
    dsimp only
    rename_i x x' l l'
    induction h2 generalizing x x' with
    | nil => exact h1
    | cons h3 h4 ih =>
      rw [List.foldl_cons, List.foldl_cons]
      exact ih (VN.pickMin h1 h3)

theorem LN.mean (hd : 0 ≤ d) (h : LN d l l') (h0 : 0 < l.length) :
    VN d (TA.sumL l /. natF l.length) (TA.sumL l' /. natF l'.length) := by
  rw [← h.length_eq, natF_fin]
  have hp : (0 : K) < l.length := by exact_mod_cast h0
  refine (h.sumL.divFin (mul_nonneg hp.le hd) hp).mono (le_of_eq ?_)
  field_simp

theorem LN.getLast (h : LN d l l') : VN d (l.getLast?.getD nan) (l'.getLast?.getD nan) := by
  induction h with
  | nil => exact .nan
  | cons h1 h2 ih =>
    cases h2 with
    | nil => exact h1
    | cons h3 h4 => rw [List.getLast?_cons_cons, List.getLast?_cons_cons]; exact ih

theorem LN.head (h : LN d l l') : VN d (l.head?.getD nan) (l'.head?.getD nan) := by
  cases h with
  | nil => exact .nan
  | cons h1 _ => exact h1

theorem LN.take (h : LN d l l') (m : Nat) : LN d (l.take m) (l'.take m) := List.forall₂_take m h
theorem LN.drop (h : LN d l l') (m : Nat) : LN d (l.drop m) (l'.drop m) := List.forall₂_drop m h

theorem LN.map {f f' : Val K → Val K} (h : LN d l l') (hf : ∀ a a', VN d a a' → VN e (f a) (f' a')) :
    LN e (l.map f) (l'.map f') := by
  induction h with
  | nil => exact .nil
  | cons h1 h2 ih => exact .cons (hf _ _ h1) ih

end

/-! ## series -/

section
variable {d e d₁ d₂ d₃ : K} {s s' t t' u u' : Series (Val K)}

theorem SN.toLN (h : SN d s t) : LN d s t := by
  rw [LN, List.forall₂_iff_get]
  refine ⟨h.len, fun i h1 h2 => ?_⟩
  have := h.row i h1
  rw [ix_lt h1, ix_lt h2] at this
  exact this

theorem LN.toSN (h : LN d s t) : SN d s t := by
  rw [LN, List.forall₂_iff_get] at h
  refine ⟨h.1, fun i h1 => ?_⟩
  have h2 : i < t.length := by rw [← h.1]; exact h1
  rw [ix_lt h1, ix_lt h2]
  exact h.2 i h1 h2

theorem SN.tab {n m : Nat} {f g : Nat → Val K} (hn : n = m) (h : ∀ i, i < n → VN d (f i) (g i)) :
    SN d (tab n f) (tab m g) := by
  subst hn
  refine ⟨by simp, fun i hi => ?_⟩
  rw [length_tab] at hi
  rw [ix_tab_lt hi, ix_tab_lt hi]
  exact h i hi

theorem SN.mono (h : SN d s s') (hde : d ≤ e) : SN e s s' := ⟨h.len, fun i hi => VN.mono (h.row i hi) hde⟩

theorem SN.refl (hd : 0 ≤ d) (s : Series (Val K)) : SN d s s := ⟨rfl, fun _ _ => VN.refl hd _⟩

theorem SN.map {f f' : Val K → Val K} (h : SN d s s') (hf : ∀ a a', VN d a a' → VN e (f a) (f' a')) :
    SN e (s.map f) (s'.map f') := LN.toSN ((SN.toLN h).map hf)

theorem SN.zip2 {f f' : Val K → Val K → Val K} (h : SN d s s') (h₁ : SN d₁ t t')
    (hf : ∀ a a' b b', VN d a a' → VN d₁ b b' → VN e (f a b) (f' a' b')) :
    SN e (zip2 f s t) (zip2 f' s' t') :=
  SN.tab h.len fun i _ => hf _ _ _ _ (h.ix i) (h₁.ix i)

theorem SN.zip3 {f f' : Val K → Val K → Val K → Val K} (h : SN d s s') (h₁ : SN d₁ t t') (h₂ : SN d₂ u u')
    (hf : ∀ a a' b b' c c', VN d a a' → VN d₁ b b' → VN d₂ c c' → VN e (f a b c) (f' a' b' c')) :
    SN e (zip3 f s t u) (zip3 f' s' t' u') :=
  SN.tab h.len fun i _ => hf _ _ _ _ _ _ (h.ix i) (h₁.ix i) (h₂.ix i)

theorem SN.sadd (h : SN d s s') (h₁ : SN d₁ t t') : SN (d + d₁) (sadd s t) (sadd s' t') :=
  SN.zip2 h h₁ fun _ _ _ _ => VN.add
theorem SN.ssub (h : SN d s s') (h₁ : SN d₁ t t') : SN (d + d₁) (ssub s t) (ssub s' t') :=
  SN.zip2 h h₁ fun _ _ _ _ => VN.sub
theorem SN.sabs (h : SN d s s') : SN d (sabs s) (sabs s') := SN.map h fun _ _ => VN.abs
theorem SN.cmul (hd : 0 ≤ d) (c : K) (h : SN d s s') : SN (|c| * d) (cmul (.fin c) s) (cmul (.fin c) s') :=
  SN.map h fun _ _ => VN.cmul hd c
theorem SN.divPos (hd : 0 ≤ d) {c : K} (hc : 0 < c) (h : SN d s s') : SN (d / c) (divc s (.fin c)) (divc s' (.fin c)) :=
  SN.map h fun _ _ => VN.divFin hd hc

theorem SN.shift (h : SN d s s') (m : Nat) {v v' : Val K} (hv : VN d v v') : SN d (shift s m v) (shift s' m v') :=
  SN.tab h.len fun i _ => by
    split_ifs
    · exact hv
    · exact h.ix _

theorem SN.shiftInt (h : SN d s s') (m : Int) : SN d (shiftInt s m) (shiftInt s' m) :=
  SN.tab h.len fun i _ => by
    split_ifs
    · exact .nan
    · exact h.ix _

theorem SN.pre {g g' : List (Val K) → Val K} (h : SN d s s')
    (hg : ∀ l l', LN d l l' → VN e (g l) (g' l')) : SN e (pre g s) (pre g' s') :=
  SN.tab h.len fun i _ => hg _ _ ((SN.toLN h).take _)

theorem SN.clean (h : SN d s s') : SN d (s.map clean) (s'.map clean) := SN.map h fun _ _ ha => VRel.clean ha

theorem SN.roll {g g' : List (Val K) → Val K} (h : SN d s s') (w : Nat)
    (hg : ∀ l l', LN d l l' → VN e (g l) (g' l')) : SN e (roll w g s) (roll w g' s') := by
  unfold TA.roll
  refine SN.pre (SN.clean h) fun l l' hl => ?_
  apply hg
  unfold lastN
  rw [← hl.length_eq]
  exact hl.drop _

theorem SN.rollMean (hd : 0 ≤ d) (w mp : Nat) (h : SN d s s') : SN d (rollMean w mp s) (rollMean w mp s') := by
  refine SN.roll h w fun l l' hl => ?_
  unfold aggMean
  rw [← hl.valid.length_eq]
  split_ifs with h1
  · have := hl.valid.mean hd h1.2
    rwa [← hl.valid.length_eq] at this
  · exact .nan

theorem SN.rollMax (w mp : Nat) (h : SN d s s') : SN d (rollMax w mp s) (rollMax w mp s') := by
  refine SN.roll h w fun l l' hl => ?_
  unfold aggMax
  rw [hl.valid.length_eq]
  split_ifs
  · exact hl.valid.maxL
  · exact .nan

theorem SN.rollMin (w mp : Nat) (h : SN d s s') : SN d (rollMin w mp s) (rollMin w mp s') := by
  refine SN.roll h w fun l l' hl => ?_
  unfold aggMin
  rw [hl.valid.length_eq]
  split_ifs
  · exact hl.valid.minL
  · exact .nan

theorem SN.ema (w : Nat) (hw : 1 ≤ w) (b : Bool) (h : SN d s s') : SN d (ema s w b) (ema s' w b) := by
  unfold TA.ema
  rw [alphaOfSpan_fin]
  exact ewm_rel (convex_Nr d) (span_pos w) (span_le w hw) _ h

theorem SN.ffill (h : SN d s s') : SN d (ffill s) (ffill s') := SN.pre h fun _ _ hl => hl.valid.getLast

theorem SN.bfill (h : SN d s s') : SN d (bfill s) (bfill s') :=
  SN.tab h.len fun i _ => ((SN.toLN h).drop i).valid.head

theorem SN.fillConst (h : SN d s s') {v v' : Val K} (hv : VN d v v') : SN d (fillConst v s) (fillConst v' s') :=
  SN.map h fun a a' ha => by
    rw [VA.isNaN ha]
    split_ifs
    · exact hv
    · exact ha

theorem SN.smean (hd : 0 ≤ d) (h : SN d s s') : VN d (smean s) (smean s') := by
  unfold TA.smean
  rw [← (SN.toLN h).valid.length_eq]
  split_ifs with h0
  · exact .nan
  · have := (SN.toLN h).valid.mean hd (by omega)
    rwa [← (SN.toLN h).valid.length_eq] at this

/-- a fixed value for the gaps -/
theorem SN.fillC (hd : 0 ≤ d) (h : SN d s s') (v : Val K) (b : Bool) :
    SN d (checkFillna b (.const v) s) (checkFillna b (.const v) s') := by
  cases b with
  | false => exact h
  | true =>
    unfold checkFillna
    simp only [if_true]
    exact SN.fillConst (SN.ffill (SN.clean h)) (VN.refl hd v)

theorem SN.fillBack (h : SN d s s') (b : Bool) : SN d (checkFillna b .back s) (checkFillna b .back s') := by
  cases b with
  | false => exact h
  | true =>
    unfold checkFillna
    simp only [if_true]
    exact SN.bfill (SN.ffill (SN.clean h))

/-! ## shared pieces of the indicators -/

theorem SN.trueRange (h : SN d s s') (h₁ : SN d t t') (h₂ : SN d u u') :
    SN (2 * d) (trueRange s t u) (trueRange s' t' u') :=
  SN.zip3 h h₁ h₂ fun a a' b b' c c' ha hb hc => by
    refine LN.maxL (LN.valid ?_)
    have h2 : d + d ≤ 2 * d := by linarith
    exact .cons ((ha.sub hb).mono h2) (.cons (((ha.sub hc).mono h2).abs) (.cons (((hb.sub hc).mono h2).abs) .nil))

theorem SN.typicalPrice (hd : 0 ≤ d) (h : SN d s s') (h₁ : SN d t t') (h₂ : SN d u u') :
    SN d (typicalPrice s t u) (typicalPrice s' t' u') := by
  unfold TA.typicalPrice
  rw [lit_fin]
  refine SN.mono (SN.divPos (by linarith) (by norm_num) (SN.sadd (SN.sadd h h₁) h₂)) (le_of_eq ?_)
  push_cast
  field_simp
  ring

theorem near_sum_tab (n : Nat) (f f' : Nat → Val K) (e : Nat → K) (h : ∀ j, j < n → VN (e j) (f j) (f' j)) :
    VN (∑ j ∈ Finset.range n, e j) (TA.sumL (TA.tab n f)) (TA.sumL (TA.tab n f')) := by
  induction n with
  | zero => exact VN.refl (by simp) _
  | succ n ih =>
    rw [tab_succ, tab_succ, sumL_snoc, sumL_snoc, Finset.sum_range_succ]
    exact (ih fun j hj => h j (by omega)).add (h n (by omega))

theorem near_wma (hd : 0 ≤ d) (hs : SN d s s') (w : Nat) (hw : 1 ≤ w) (b : Bool) : SN d (wma s w b) (wma s' w b) := by
  have hwp : (0 : K) < w := by exact_mod_cast hw
  have hD : (0 : K) < ((w * (w + 1) : ℕ) : K) := by push_cast; positivity
  unfold wma
  refine SN.fillC hd ?_ _ b
  unfold rollApply TA.roll TA.pre
  have hc := SN.clean hs
  refine SN.tab (by simpa using hs.len) fun i hi => ?_
  dsimp only
  have hl : LN d (lastN w ((s.map TA.clean).take (i + 1))) (lastN w ((s'.map TA.clean).take (i + 1))) := by
    unfold lastN
    rw [← ((SN.toLN hc).take (i + 1)).length_eq]
    exact ((SN.toLN hc).take _).drop _
  have hle : (lastN w ((s.map TA.clean).take (i + 1))).length ≤ w := by
    unfold lastN; rw [List.length_drop]; omega
  generalize lastN w ((s.map TA.clean).take (i + 1)) = x at *
  generalize lastN w ((s'.map TA.clean).take (i + 1)) = x' at *
  unfold aggApply
  rw [← hl.valid.length_eq]
  split_ifs with h1
  · have hxl : x.length = w := le_antisymm hle (le_trans h1 (List.length_filter_le _ _))
    unfold WMA.avg
    rw [← hl.length_eq, hxl]
    refine VN.mono (near_sum_tab w _ _ (fun j => (((j + 1) * 2 : ℕ) : K) / ((w * (w + 1) : ℕ) : K) * d) fun j hj => ?_) (le_of_eq ?_)
    · have e : (natF ((j + 1) * 2) /. natF (w * (w + 1)) : Val K) = .fin ((((j + 1) * 2 : ℕ) : K) / ((w * (w + 1) : ℕ) : K)) := by
        rw [natF_fin, natF_fin, fin_div _ _ hD.ne']
      rw [e]
      refine VN.mono (VN.cmul hd _ ((LN.toSN hl).ix j)) (le_of_eq ?_)
      rw [abs_of_pos (div_pos (by positivity) hD)]
    · rw [← Finset.sum_mul, ← Finset.sum_div]
      have e2 : (∑ j ∈ Finset.range w, (((j + 1) * 2 : ℕ) : K)) = ((w * (w + 1) : ℕ) : K) := by
        have := sum_weights (K := K) w
        push_cast
        rw [← Finset.sum_mul, this]
        ring
      rw [e2, div_self hD.ne', one_mul]
  · exact .nan

theorem near_atr (hd : 0 ≤ d) {h h' l l' : Series (Val K)} (hh : SN d h h') (hl : SN d l l') (hs : SN d s s') (w : Nat) (b : Bool) :
    ERel (SN (2 * d)) (averageTrueRange h l s w b) (averageTrueRange h' l' s' w b) := by
  unfold averageTrueRange
  have h2 : (0 : K) ≤ 2 * d := by linarith
  rw [← hs.len]
  split_ifs with h1
  · exact .error _
  · refine .ok (SN.fillC h2 ?_ _ b)
    have htr := SN.trueRange hh hl (SN.shift hs 1 (v := nan) (v' := nan) .nan)
    unfold ATR.run
    split_ifs with hw
    · rw [← hs.len]
      exact ⟨rfl, fun i hi => by rw [ix_replicate (by simpa using hi)]; exact .nan⟩
    · refine SN.tab hs.len fun i _ => ?_
      have hw' : (0 : K) < w := by exact_mod_cast (show 0 < w by omega)
      have hw1 : (1 : K) ≤ w := by exact_mod_cast (show 1 ≤ w by omega)
      have main : ∀ m, VN (2 * d) (iter (ATR.step (TA.trueRange h l (TA.shift s 1)) w) (lit 0) m)
          (iter (ATR.step (TA.trueRange h' l' (TA.shift s' 1)) w) (lit 0) m) := by
        intro m
        induction m with
        | zero => exact VN.refl h2 _
        | succ m ih =>
          simp only [iter]
          generalize iter (ATR.step (TA.trueRange h l (TA.shift s 1)) w) (lit 0) m = x at *
          generalize iter (ATR.step (TA.trueRange h' l' (TA.shift s' 1)) w) (lit 0) m = y at *
          unfold ATR.step
          split_ifs
          · exact VN.refl h2 _
          · exact SN.smean h2 (LN.toSN ((SN.toLN htr).take w))
          · rw [natF_fin w, natF_fin (w - 1)]
            have e : ((w - 1 : ℕ) : K) = w - 1 := by rw [Nat.cast_sub (by omega)]; simp
            refine VN.mono (VN.divFin ?_ hw' ((VN.mulc h2 _ ih).add (htr.ix m))) (le_of_eq ?_)
            · positivity
            · rw [e, abs_of_nonneg (by linarith)]
              field_simp
              ring
      exact main (i + 1)

end
end TA
