import Verif.Lemmas.Bound
import Mathlib.Tactic.LinearCombination
import Mathlib.Tactic.Positivity

/-! # Affine changes of the data through the pandas primitives

`Aff k c x y` is `y = k x + c`; `VRel (Aff k c)` relates values (NaN to NaN, infinities to themselves), `SRel (Aff k c)`
relates series row by row. -/

set_option linter.unusedSectionVars false

namespace TA
variable {K : Type} [Field K] [LinearOrder K] [IsStrictOrderedRing K]

def Aff (k c : K) : K → K → Prop := fun x y => y = k * x + c

/-- related values -/
abbrev VA (k c : K) : Val K → Val K → Prop := VRel (Aff k c)
/-- related series -/
abbrev SA (k c : K) : Series (Val K) → Series (Val K) → Prop := SRel (Aff k c)

theorem VA.cast {k c k' c' : K} {a b : Val K} (h : VA k c a b) (hk : k = k') (hc : c = c') : VA k' c' a b := by
  subst hk hc; exact h

theorem SRel.cast {k c k' c' : K} {a b : Series (Val K)} (h : SA k c a b) (hk : k = k') (hc : c = c') : SA k' c' a b := by
  subst hk hc; exact h

theorem VA.refl (a : Val K) : VA 1 0 a a := by
  cases a
  · exact .nan
  · exact .pinf
  · exact .ninf
  · exact .fin (by simp [Aff])

theorem VA.eq {a b : Val K} (h : VA 1 0 a b) : b = a := by
  cases h with
  | fin h => rw [h]; simp
  | _ => rfl

theorem SRel.refl (s : Series (Val K)) : SA 1 0 s s := ⟨rfl, fun _ _ => VA.refl _⟩

theorem SRel.eq {s t : Series (Val K)} (h : SA 1 0 s t) : t = s :=
  series_ext h.len.symm fun i hi => VA.eq (h.row i (by rw [h.len]; exact hi))

/-- a constant of the program -/
theorem VA.lit0 (k : K) : VA k 0 (.fin 0) (.fin 0) := .fin (by simp [Aff])

theorem VA.fin' {k c x y : K} (h : y = k * x + c) : VA k c (.fin x) (.fin y) := .fin h

theorem VA.map (k c : K) (hk : 0 < k) (v : Val K) : VA k c v (.fin k *. v +. .fin c) := by
  cases v with
  | nan => simp; exact .nan
  | pinf =>
    have : (.fin k *. .pinf : Val K) = .pinf := by
      show Val.infMul (.fin k) = _; simp [Val.infMul, hk, hk.ne']
    rw [this]; exact .pinf
  | ninf =>
    have : (.fin k *. .ninf : Val K) = .ninf := by
      show Val.neg (Val.infMul (.fin k)) = _; simp [Val.infMul, hk, hk.ne', Val.neg]
    rw [this]; exact .ninf
  | fin x => simp; exact .fin rfl

/-! ## values -/

section
variable {k c c' k' : K} {a a' b b' : Val K}

theorem VA.isNaN {C : K → K → Prop} (h : VRel C a a') : Flt.isNaN a' = Flt.isNaN a := by cases h <;> rfl
theorem VA.isInf {C : K → K → Prop} (h : VRel C a a') : Flt.isInf a' = Flt.isInf a := by cases h <;> rfl

theorem VA.add (ha : VA k c a a') (hb : VA k c' b b') : VA k (c + c') (a +. b) (a' +. b') := by
  cases ha <;> cases hb
  all_goals first | exact .nan | exact .pinf | exact .ninf | skip
  rename_i h1 _ _ h2
  unfold Aff at h1 h2
  exact .fin (by unfold Aff; rw [h1, h2]; ring)

theorem VA.sub (ha : VA k c a a') (hb : VA k c' b b') : VA k (c - c') (a -. b) (a' -. b') := by
  cases ha <;> cases hb
  all_goals first | exact .nan | exact .pinf | exact .ninf | skip
  rename_i h1 _ _ h2
  unfold Aff at h1 h2
  simp only [fin_sub]
  exact .fin (by unfold Aff; rw [h1, h2]; ring)

theorem VA.neg (ha : VA k 0 a a') : VA k 0 (Flt.neg a) (Flt.neg a') := by
  cases ha
  all_goals first | exact .nan | exact .pinf | exact .ninf | skip
  rename_i h1
  exact .fin (by unfold Aff at *; rw [h1]; ring)

theorem VA.abs (hk : 0 < k) (ha : VA k 0 a a') : VA k 0 (Flt.abs a) (Flt.abs a') := by
  cases ha
  all_goals first | exact .nan | exact .pinf | exact .ninf | skip
  rename_i h1
  exact .fin (by unfold Aff at *; rw [h1, add_zero, abs_mul, abs_of_pos hk, add_zero])

theorem VA.infMul (hk : 0 < k) (ha : VA k 0 a a') : VA k' 0 (Val.infMul a) (Val.infMul a') := by
  cases ha
  all_goals first | exact .nan | exact .pinf | exact .ninf | skip
  rename_i x y h1
  unfold Aff at h1
  rw [add_zero] at h1
  subst h1
  unfold Val.infMul
  simp only [mul_eq_zero, hk.ne', false_or, mul_pos_iff_of_pos_left hk]
  split_ifs
  · exact .nan
  · exact .pinf
  · exact .ninf

theorem VA.mul (hk : 0 < k) (hk' : 0 < k') (ha : VA k 0 a a') (hb : VA k' 0 b b') :
    VA (k * k') 0 (a *. b) (a' *. b') := by
  cases ha <;> cases hb
  all_goals first | exact .nan | exact .pinf | exact .ninf | skip
  · exact VA.infMul hk' (.fin (by assumption))
  · exact (VA.infMul hk' (.fin (by assumption))).neg
  · exact VA.infMul hk (.fin (by assumption))
  · exact (VA.infMul hk (.fin (by assumption))).neg
  · rename_i h1 _ _ h2
    unfold Aff at h1 h2
    exact .fin (by unfold Aff; rw [h1, h2]; ring)

theorem VA.div (hk : 0 < k) (hk' : 0 < k') (ha : VA k 0 a a') (hb : VA k' 0 b b') :
    VA (k / k') 0 (a /. b) (a' /. b') := by
  cases ha <;> cases hb
  all_goals first | exact .nan | exact .pinf | exact .ninf | skip
  · rename_i x y h
    unfold Aff at h
    rw [add_zero] at h
    subst h
    show VA _ _ (if 0 ≤ x then _ else _) (if 0 ≤ k' * x then _ else _)
    simp only [mul_nonneg_iff_of_pos_left hk']
    split_ifs
    · exact .pinf
    · exact .ninf
  · rename_i x y h
    unfold Aff at h
    rw [add_zero] at h
    subst h
    show VA _ _ (if 0 ≤ x then _ else _) (if 0 ≤ k' * x then _ else _)
    simp only [mul_nonneg_iff_of_pos_left hk']
    split_ifs
    · exact .ninf
    · exact .pinf
  · exact .fin (by unfold Aff; simp)
  · exact .fin (by unfold Aff; simp)
  · rename_i x y h1 u v h2
    unfold Aff at h1 h2
    rw [add_zero] at h1 h2
    subst h1 h2
    by_cases hu : u = 0
    · subst hu
      rw [mul_zero, fin_div_zero, fin_div_zero]
      simp only [mul_eq_zero, hk.ne', false_or, mul_pos_iff_of_pos_left hk]
      split_ifs
      · exact .nan
      · exact .pinf
      · exact .ninf
    · rw [fin_div _ _ hu, fin_div _ _ (mul_ne_zero hk'.ne' hu)]
      exact .fin (by unfold Aff; rw [add_zero]; field_simp)

/-- division by a positive constant -/
theorem VA.divFin {d : K} (hd : 0 < d) (ha : VA k c a a') : VA k (c / d) (a /. .fin d) (a' /. .fin d) := by
  cases ha
  · exact .nan
  · show VA _ _ (if 0 ≤ d then _ else _) (if 0 ≤ d then _ else _)
    rw [if_pos hd.le]; exact .pinf
  · show VA _ _ (if 0 ≤ d then _ else _) (if 0 ≤ d then _ else _)
    rw [if_pos hd.le]; exact .ninf
  · rename_i h1
    rw [fin_div _ _ hd.ne', fin_div _ _ hd.ne']
    exact .fin (by unfold Aff at *; rw [h1]; field_simp)

/-- multiplication by a constant of the program -/
theorem VA.cmul (hk : 0 < k) (d : Val K) (ha : VA k 0 a a') : VA k 0 (d *. a) (d *. a') := by
  have := VA.mul one_pos hk (VA.refl d) ha
  rwa [one_mul] at this

theorem VA.mulc (hk : 0 < k) (d : Val K) (ha : VA k 0 a a') : VA k 0 (a *. d) (a' *. d) := by
  have := VA.mul hk one_pos ha (VA.refl d)
  rwa [mul_one] at this

/-- multiplication by a positive number moves the offset along -/
theorem VA.cmulPos {d : K} (hd : 0 < d) (ha : VA k c a a') : VA k (d * c) (.fin d *. a) (.fin d *. a') := by
  cases ha
  · simp; exact .nan
  · have : (.fin d *. .pinf : Val K) = .pinf := by
      show Val.infMul (.fin d) = _; simp [Val.infMul, hd, hd.ne']
    rw [this]; exact .pinf
  · have : (.fin d *. .ninf : Val K) = .ninf := by
      show Val.neg (Val.infMul (.fin d)) = _; simp [Val.infMul, hd, hd.ne', Val.neg]
    rw [this]; exact .ninf
  · rename_i h1
    exact .fin (by unfold Aff at *; rw [h1]; ring)

theorem VA.lt (hk : 0 < k) (ha : VA k c a a') (hb : VA k c b b') : (a' <. b') = (a <. b) := by
  cases ha <;> cases hb
  all_goals first | rfl | skip
  rename_i h1 _ _ h2
  unfold Aff at h1 h2
  simp only [fin_lt, h1, h2, add_lt_add_iff_right, mul_lt_mul_iff_right₀ hk]

theorem VA.le (hk : 0 < k) (ha : VA k c a a') (hb : VA k c b b') : (a' <=. b') = (a <=. b) := by
  cases ha <;> cases hb
  all_goals first | rfl | skip
  rename_i h1 _ _ h2
  unfold Aff at h1 h2
  simp only [fin_le, h1, h2, add_le_add_iff_right, mul_le_mul_iff_right₀ hk]

theorem VA.eqv (hk : 0 < k) (ha : VA k c a a') (hb : VA k c b b') : (a' ==. b') = (a ==. b) := by
  cases ha <;> cases hb
  all_goals first | rfl | skip
  rename_i h1 _ _ h2
  unfold Aff at h1 h2
  simp only [fin_eq, h1, h2, add_left_inj, mul_right_inj' hk.ne']

theorem VA.ne (hk : 0 < k) (ha : VA k c a a') (hb : VA k c b b') : (a' !=. b') = (a !=. b) := by
  unfold Flt.ne; rw [ha.eqv hk hb]

theorem VA.npMax2 (hk : 0 < k) (ha : VA k c a a') (hb : VA k c b b') : VA k c (npMax2 a b) (npMax2 a' b') := by
  unfold TA.npMax2
  rw [VA.isNaN ha, VA.isNaN hb, ha.lt hk hb]
  split_ifs
  · exact .nan
  · exact .nan
  · exact hb
  · exact ha

theorem VA.npMin2 (hk : 0 < k) (ha : VA k c a a') (hb : VA k c b b') : VA k c (npMin2 a b) (npMin2 a' b') := by
  unfold TA.npMin2
  rw [VA.isNaN ha, VA.isNaN hb, hb.lt hk ha]
  split_ifs
  · exact .nan
  · exact .nan
  · exact hb
  · exact ha
end

/-! ## lists -/

/-- related lists -/
abbrev LA (k c : K) : List (Val K) → List (Val K) → Prop := List.Forall₂ (VA k c)

section
variable {k c c' k' : K} {l l' : List (Val K)}

theorem LA.valid (h : LA k c l l') : LA k c (valid l) (valid l') := by
  induction h with
  | nil => exact .nil
  | cons h1 h2 ih =>
    unfold TA.valid at *
    rw [List.filter_cons, List.filter_cons, VA.isNaN h1]
    split_ifs
    · exact .cons h1 ih
    · exact ih

theorem LA.foldAdd (h : LA k c l l') {x x' : Val K} {d : K} (hx : VA k d x x') :
    VA k (d + l.length * c) (l.foldl Flt.add x) (l'.foldl Flt.add x') := by
  induction h generalizing x x' d with
  | nil => simpa using hx
  | cons h1 h2 ih =>
    rw [List.foldl_cons, List.foldl_cons]
    refine (ih (hx.add h1)).cast rfl ?_
    rw [List.length_cons]; push_cast; ring

theorem LA.sumL (h : LA k c l l') : VA k (l.length * c) (sumL l) (sumL l') := by
  unfold TA.sumL
  rw [lit_fin, Rat.cast_zero]
  refine (h.foldAdd (VA.lit0 k)).cast rfl ?_
  ring

theorem LA.maxL (hk : 0 < k) (h : LA k c l l') : VA k c (maxL l) (maxL l') := by
  cases h with
  | nil => exact .nan
  | cons h1 h2 =>
    unfold TA.maxL
    dsimp only
    rename_i x x' l l'
    induction h2 generalizing x x' with
    | nil => exact h1
    | cons h3 h4 ih =>
      rw [List.foldl_cons, List.foldl_cons, h1.lt hk h3]
      split_ifs
      · exact ih h3
      · exact ih h1

theorem LA.minL (hk : 0 < k) (h : LA k c l l') : VA k c (minL l) (minL l') := by
  cases h with
  | nil => exact .nan
  | cons h1 h2 =>
    unfold TA.minL
    dsimp only
    rename_i x x' l l'
    induction h2 generalizing x x' with
    | nil => exact h1
    | cons h3 h4 ih =>
      rw [List.foldl_cons, List.foldl_cons, h3.lt hk h1]
      split_ifs
      · exact ih h3
      · exact ih h1

theorem LA.mean (h : LA k c l l') (h0 : 0 < l.length) :
    VA k c (TA.sumL l /. natF l.length) (TA.sumL l' /. natF l'.length) := by
  rw [← h.length_eq, natF_fin]
  have hp : (0 : K) < l.length := by exact_mod_cast h0
  refine (h.sumL.divFin hp).cast rfl ?_
  field_simp

theorem LA.npMean (h : LA k c l l') : VA k c (npMean l) (npMean l') := by
  by_cases h0 : 0 < l.length
  · exact h.mean h0
  · have : l = [] := List.eq_nil_of_length_eq_zero (by omega)
    subst this
    cases h
    unfold TA.npMean
    have : (TA.sumL ([] : List (Val K)) /. natF (([] : List (Val K)).length)) = .nan := by
      simp [TA.sumL, fin_div_zero]
    rw [this]; exact .nan

theorem LA.map {k₁ c₁ : K} {f f' : Val K → Val K} (h : LA k c l l') (hf : ∀ a a', VA k c a a' → VA k₁ c₁ (f a) (f' a')) :
    LA k₁ c₁ (l.map f) (l'.map f') := by
  induction h with
  | nil => exact .nil
  | cons h1 h2 ih => exact .cons (hf _ _ h1) ih

theorem LA.find (h : LA k c l l') {p p' : Val K → Bool} (hp : ∀ a a', VA k c a a' → p' a' = p a) (m : Nat) :
    findFrom p' m l' = findFrom p m l := by
  induction h generalizing m with
  | nil => rfl
  | cons h1 h2 ih => unfold findFrom; rw [hp _ _ h1, ih]

theorem LA.argmax (hk : 0 < k) (h : LA k c l l') : argmax l' = argmax l := by
  unfold TA.argmax
  rw [h.find (p := Flt.isNaN) (fun a a' => VA.isNaN), h.find fun a a' ha => (h.maxL hk).eqv hk ha]

theorem LA.argmin (hk : 0 < k) (h : LA k c l l') : argmin l' = argmin l := by
  unfold TA.argmin
  rw [h.find (p := Flt.isNaN) (fun a a' => VA.isNaN), h.find fun a a' ha => (h.minL hk).eqv hk ha]

end

theorem LA.getLast {k c : K} {l l' : List (Val K)} (h : LA k c l l') :
    VA k c (l.getLast?.getD nan) (l'.getLast?.getD nan) := by
  induction h with
  | nil => exact .nan
  | cons h1 h2 ih =>
    cases h2 with
    | nil => simpa using h1
    | cons h3 h4 => simpa [List.getLast?_cons_cons] using ih

theorem LA.head {k c : K} {l l' : List (Val K)} (h : LA k c l l') : VA k c (l.head?.getD nan) (l'.head?.getD nan) := by
  cases h with
  | nil => exact .nan
  | cons h1 h2 => exact h1

theorem LA.take {k c : K} {l l' : List (Val K)} (h : LA k c l l') (m : Nat) : LA k c (l.take m) (l'.take m) :=
  List.forall₂_take m h

theorem LA.drop {k c : K} {l l' : List (Val K)} (h : LA k c l l') (m : Nat) : LA k c (l.drop m) (l'.drop m) :=
  List.forall₂_drop m h

/-! ## series -/

/-- related fills -/
inductive FillRel (k c : K) : Fill (Val K) → Fill (Val K) → Prop
  | const {v v'} (h : VA k c v v') : FillRel k c (.const v) (.const v')
  | back : FillRel k c .back .back
  | ser {s s'} (h : SA k c s s') : FillRel k c (.ser s) (.ser s')


theorem SRel.toLA {k c : K} {s t : Series (Val K)} (h : SA k c s t) : LA k c s t := by
  rw [LA, List.forall₂_iff_get]
  refine ⟨h.len, fun i h1 h2 => ?_⟩
  have := h.row i h1
  rw [ix_lt h1, ix_lt h2] at this
  exact this

theorem LA.toSRel {k c : K} {s t : Series (Val K)} (h : LA k c s t) : SA k c s t := by
  rw [LA, List.forall₂_iff_get] at h
  refine ⟨h.1, fun i h1 => ?_⟩
  have h2 : i < t.length := by rw [← h.1]; exact h1
  rw [ix_lt h1, ix_lt h2]
  exact h.2 i h1 h2

theorem SRel.tab {k c : K} {n m : Nat} {f g : Nat → Val K} (hn : n = m) (h : ∀ i, i < n → VA k c (f i) (g i)) :
    SA k c (tab n f) (tab m g) := by
  subst hn
  refine ⟨by simp, fun i hi => ?_⟩
  rw [length_tab] at hi
  rw [ix_tab_lt hi, ix_tab_lt hi]
  exact h i hi

section
variable {k c k₁ c₁ k₂ c₂ k₃ c₃ : K} {s s' t t' u u' : Series (Val K)}

theorem SRel.map {f f' : Val K → Val K} (h : SA k c s s') (hf : ∀ a a', VA k c a a' → VA k₁ c₁ (f a) (f' a')) :
    SA k₁ c₁ (s.map f) (s'.map f') := (h.toLA.map hf).toSRel

theorem SRel.zip2 {f f' : Val K → Val K → Val K} (h : SA k c s s') (h₁ : SA k₁ c₁ t t')
    (hf : ∀ a a' b b', VA k c a a' → VA k₁ c₁ b b' → VA k₂ c₂ (f a b) (f' a' b')) :
    SA k₂ c₂ (zip2 f s t) (zip2 f' s' t') :=
  SRel.tab h.len fun i _ => hf _ _ _ _ (h.ix i) (h₁.ix i)

theorem SRel.zip3 {f f' : Val K → Val K → Val K → Val K} (h : SA k c s s') (h₁ : SA k₁ c₁ t t') (h₂ : SA k₂ c₂ u u')
    (hf : ∀ a a' b b' d d', VA k c a a' → VA k₁ c₁ b b' → VA k₂ c₂ d d' → VA k₃ c₃ (f a b d) (f' a' b' d')) :
    SA k₃ c₃ (zip3 f s t u) (zip3 f' s' t' u') :=
  SRel.tab h.len fun i _ => hf _ _ _ _ _ _ (h.ix i) (h₁.ix i) (h₂.ix i)

theorem SRel.sadd (h : SA k c s s') (h₁ : SA k c₁ t t') : SA k (c + c₁) (sadd s t) (sadd s' t') :=
  h.zip2 h₁ fun _ _ _ _ => VA.add
theorem SRel.ssub (h : SA k c s s') (h₁ : SA k c₁ t t') : SA k (c - c₁) (ssub s t) (ssub s' t') :=
  h.zip2 h₁ fun _ _ _ _ => VA.sub
/-- differences of equally moved series -/
theorem SRel.ssub0 (h : SA k c s s') (h₁ : SA k c t t') : SA k 0 (TA.ssub s t) (TA.ssub s' t') :=
  (h.ssub h₁).cast rfl (sub_self c)
theorem SRel.smul (hk : 0 < k) (hk₁ : 0 < k₁) (h : SA k 0 s s') (h₁ : SA k₁ 0 t t') :
    SA (k * k₁) 0 (smul s t) (smul s' t') := h.zip2 h₁ fun _ _ _ _ => VA.mul hk hk₁
theorem SRel.sdiv (hk : 0 < k) (hk₁ : 0 < k₁) (h : SA k 0 s s') (h₁ : SA k₁ 0 t t') :
    SA (k / k₁) 0 (sdiv s t) (sdiv s' t') := h.zip2 h₁ fun _ _ _ _ => VA.div hk hk₁
/-- ratios of equally scaled series -/
theorem SRel.sdiv1 (hk : 0 < k) (h : SA k 0 s s') (h₁ : SA k 0 t t') : SA 1 0 (TA.sdiv s t) (TA.sdiv s' t') :=
  (h.sdiv hk hk h₁).cast (div_self hk.ne') rfl
theorem SRel.cmul (hk : 0 < k) (d : Val K) (h : SA k 0 s s') : SA k 0 (cmul d s) (cmul d s') :=
  h.map fun _ _ => VA.cmul hk d
theorem SRel.mulc (hk : 0 < k) (d : Val K) (h : SA k 0 s s') : SA k 0 (mulc s d) (mulc s' d) :=
  h.map fun _ _ => VA.mulc hk d
theorem SRel.cmulPos {d : K} (hd : 0 < d) (h : SA k c s s') : SA k (d * c) (TA.cmul (.fin d) s) (TA.cmul (.fin d) s') :=
  h.map fun _ _ => VA.cmulPos hd
theorem SRel.divPos {d : K} (hd : 0 < d) (h : SA k c s s') : SA k (c / d) (divc s (.fin d)) (divc s' (.fin d)) :=
  h.map fun _ _ => VA.divFin hd
theorem SRel.sabs (hk : 0 < k) (h : SA k 0 s s') : SA k 0 (sabs s) (sabs s') := h.map fun _ _ => VA.abs hk

theorem SRel.shift (h : SA k c s s') (m : Nat) {v v' : Val K} (hv : VA k c v v') : SA k c (shift s m v) (shift s' m v') :=
  SRel.tab h.len fun i _ => by
    split_ifs
    · exact hv
    · exact h.ix _

theorem SRel.shiftNan (h : SA k c s s') (m : Nat) : SA k c (TA.shift s m) (TA.shift s' m) := h.shift m .nan

theorem SRel.shiftInt (h : SA k c s s') (m : Int) : SA k c (shiftInt s m) (shiftInt s' m) :=
  SRel.tab h.len fun i _ => by
    split_ifs
    · exact .nan
    · exact h.ix _

theorem SRel.sdiff (h : SA k c s s') : SA k 0 (sdiff s) (sdiff s') := h.ssub0 (h.shiftNan 1)

theorem SRel.npRoll (h : SA k c s s') (m : Nat) : SA k c (npRoll s m) (npRoll s' m) := by
  unfold TA.npRoll
  rw [← h.len]
  exact SRel.tab rfl fun i _ => h.ix _

theorem SRel.pre {g g' : List (Val K) → Val K} (h : SA k c s s')
    (hg : ∀ l l', LA k c l l' → VA k₁ c₁ (g l) (g' l')) : SA k₁ c₁ (pre g s) (pre g' s') :=
  SRel.tab h.len fun i _ => hg _ _ (h.toLA.take _)

theorem SRel.roll {g g' : List (Val K) → Val K} (h : SA k c s s') (w : Nat)
    (hg : ∀ l l', LA k c l l' → VA k₁ c₁ (g l) (g' l')) : SA k₁ c₁ (roll w g s) (roll w g' s') := by
  unfold TA.roll
  refine (h.map (f := clean) (f' := clean) fun a a' ha => VRel.clean ha).pre fun l l' hl => ?_
  apply hg
  unfold lastN
  rw [← hl.length_eq]
  exact hl.drop _

theorem SRel.rollSum (w mp : Nat) (h : SA k 0 s s') : SA k 0 (rollSum w mp s) (rollSum w mp s') := by
  refine h.roll w fun l l' hl => ?_
  unfold aggSum
  rw [hl.valid.length_eq]
  split_ifs
  · rw [lit_fin, Rat.cast_zero]; exact VA.lit0 k
  · exact hl.valid.sumL.cast rfl (mul_zero _)
  · exact .nan

theorem SRel.rollMean (w mp : Nat) (h : SA k c s s') : SA k c (rollMean w mp s) (rollMean w mp s') := by
  refine h.roll w fun l l' hl => ?_
  unfold aggMean
  rw [← hl.valid.length_eq]
  split_ifs with h1
  · have := hl.valid.mean h1.2
    rwa [← hl.valid.length_eq] at this
  · exact .nan

theorem SRel.rollMax (hk : 0 < k) (w mp : Nat) (h : SA k c s s') : SA k c (rollMax w mp s) (rollMax w mp s') := by
  refine h.roll w fun l l' hl => ?_
  unfold aggMax
  rw [hl.valid.length_eq]
  split_ifs
  · exact hl.valid.maxL hk
  · exact .nan

theorem SRel.rollMin (hk : 0 < k) (w mp : Nat) (h : SA k c s s') : SA k c (rollMin w mp s) (rollMin w mp s') := by
  refine h.roll w fun l l' hl => ?_
  unfold aggMin
  rw [hl.valid.length_eq]
  split_ifs
  · exact hl.valid.minL hk
  · exact .nan

theorem SRel.rollApply {g : List (Val K) → Val K} (w mp : Nat) (h : SA k c s s')
    (hg : ∀ l l', LA k c l l' → VA k₁ c₁ (g l) (g l')) : SA k₁ c₁ (rollApply g w mp s) (rollApply g w mp s') := by
  refine h.roll w fun l l' hl => ?_
  unfold aggApply
  rw [hl.valid.length_eq]
  split_ifs
  · exact hg _ _ hl
  · exact .nan

theorem convex_Aff (k c : K) : Convex (Aff k c) := convex_affine k c

theorem SRel.ema (w : Nat) (hw : 1 ≤ w) (b : Bool) (h : SA k c s s') : SA k c (ema s w b) (ema s' w b) := by
  unfold TA.ema
  rw [alphaOfSpan_fin]
  exact ewm_rel (convex_Aff k c) (span_pos w) (span_le w hw) _ h

theorem SRel.cumsum (h : SA k 0 s s') : SA k 0 (cumsum s) (cumsum s') := by
  refine h.pre fun l l' hl => ?_
  have h1 := hl.toSRel.ix (l.length - 1)
  rw [← hl.length_eq, VA.isNaN h1]
  split_ifs
  · exact .nan
  · exact hl.valid.sumL.cast rfl (mul_zero _)

theorem SRel.ffill (h : SA k c s s') : SA k c (ffill s) (ffill s') := h.pre fun _ _ hl => hl.valid.getLast

theorem SRel.bfill (h : SA k c s s') : SA k c (bfill s) (bfill s') :=
  SRel.tab h.len fun i _ => (h.toLA.drop i).valid.head

theorem SRel.replaceInf (h : SA k c s s') : SA k c (replaceInf s) (replaceInf s') := h.map fun _ _ ha => VRel.clean ha

theorem SRel.fillConst (h : SA k c s s') {v v' : Val K} (hv : VA k c v v') : SA k c (fillConst v s) (fillConst v' s') :=
  h.map fun a a' ha => by
    rw [VA.isNaN ha]
    split_ifs
    · exact hv
    · exact ha

theorem SRel.fillSer (h : SA k c s s') (h₁ : SA k c t t') : SA k c (fillSer t s) (fillSer t' s') :=
  h.zip2 h₁ fun a a' b b' ha hb => by
    rw [VA.isNaN ha]
    split_ifs
    · exact hb
    · exact ha

theorem SRel.smean (h : SA k c s s') : VA k c (smean s) (smean s') := by
  unfold TA.smean
  rw [← h.toLA.valid.length_eq]
  split_ifs with h0
  · exact .nan
  · have := h.toLA.valid.mean (by omega)
    rwa [← h.toLA.valid.length_eq] at this

theorem SRel.fill (h : SA k c s s') {v v' : Fill (Val K)} (b : Bool) (hv : b = true → FillRel k c v v') :
    SA k c (checkFillna b v s) (checkFillna b v' s') := by
  cases b with
  | false => exact h
  | true =>
    unfold checkFillna
    simp only [if_true]
    have hv' := hv rfl
    clear hv
    cases hv' with
    | const hv => exact h.replaceInf.ffill.fillConst hv
    | back => exact h.replaceInf.ffill.bfill
    | ser hs => exact h.replaceInf.ffill.fillSer hs

theorem SRel.fill0 (h : SA k 0 s s') (b : Bool) :
    SA k 0 (checkFillna b (.const (lit 0)) s) (checkFillna b (.const (lit 0)) s') :=
  h.fill b fun _ => .const (by rw [lit_fin, Rat.cast_zero]; exact VA.lit0 k)

theorem SRel.fill1 (h : SA 1 0 s s') (v : Val K) (b : Bool) :
    SA 1 0 (checkFillna b (.const v) s) (checkFillna b (.const v) s') := h.fill b fun _ => .const (VA.refl v)

theorem SRel.fillBack (h : SA k c s s') (b : Bool) : SA k c (checkFillna b .back s) (checkFillna b .back s') :=
  h.fill b fun _ => .back

/-! ## shared pieces of the indicators -/

theorem SRel.trueRange (hk : 0 < k) (h : SA k c s s') (h₁ : SA k c t t') (h₂ : SA k c u u') :
    SA k 0 (trueRange s t u) (trueRange s' t' u') :=
  h.zip3 h₁ h₂ fun a a' b b' d d' ha hb hd => by
    refine LA.maxL hk (LA.valid ?_)
    refine .cons ((ha.sub hb).cast rfl (sub_self c)) (.cons (((ha.sub hd).cast rfl (sub_self c)).abs hk)
      (.cons (((hb.sub hd).cast rfl (sub_self c)).abs hk) .nil))

theorem SRel.typicalPrice (h : SA k c s s') (h₁ : SA k c t t') (h₂ : SA k c u u') :
    SA k c (typicalPrice s t u) (typicalPrice s' t' u') := by
  unfold TA.typicalPrice
  rw [lit_fin]
  refine (((h.sadd h₁).sadd h₂).divPos (by norm_num)).cast rfl ?_
  push_cast
  field_simp
  ring

theorem SRel.pctChange (hk : 0 < k) (h : SA k 0 s s') : SA 1 0 (pctChange s) (pctChange s') :=
  (h.ffill.sdiv1 hk (h.ffill.shiftNan 1)).map fun a a' ha => by
    refine (ha.sub (VA.refl _)).cast rfl (sub_self 0)

theorem SRel.clv (hk : 0 < k) (h : SA k c s s') (h₁ : SA k c t t') (h₂ : SA k c u u') :
    SA 1 0 (clv s t u) (clv s' t' u') := by
  refine SRel.fillConst ?_ (VA.refl _)
  exact (((h₂.ssub0 h₁).ssub (h.ssub0 h₂)).cast rfl (sub_self 0)).sdiv1 hk (h.ssub0 h₁)

end
end TA
