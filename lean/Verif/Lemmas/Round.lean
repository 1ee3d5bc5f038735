import Verif.Base.Round
import Verif.Lemmas.Bound

/-! # Bounds that survive rounding -/

set_option linter.unusedSectionVars false

namespace TA

/-! ## properties of all entries of a series, in any arithmetic -/

section general
variable {F : Type} [Flt F]

/-- every entry satisfies `P` -/
def Every (P : F → Prop) (s : Series F) : Prop := ∀ v ∈ s, P v

theorem Every.ix {P : F → Prop} {s : Series F} (h : Every P s) (hn : P nan) (i : Nat) : P (ix s i) := by
  by_cases hi : i < s.length
  · rw [ix_lt hi]; exact h _ (List.getElem_mem hi)
  · rw [ix_ge (by omega)]; exact hn

theorem Every.of_ix {P : F → Prop} {s : Series F} (h : ∀ i, i < s.length → P (TA.ix s i)) : Every P s := by
  intro v hv
  obtain ⟨i, hi, rfl⟩ := List.mem_iff_getElem.mp hv
  rw [← ix_lt hi]; exact h i hi

theorem Every.tab {P : F → Prop} {n : Nat} {f : Nat → F} (h : ∀ i, i < n → P (f i)) : Every P (tab n f) := by
  intro v hv
  obtain ⟨i, hi, rfl⟩ := List.mem_map.mp hv
  exact h i (List.mem_range.mp hi)

theorem Every.sub {P : F → Prop} {s t : Series F} (h : Every P s) (ht : ∀ v ∈ t, v ∈ s) : Every P t :=
  fun v hv => h v (ht v hv)

theorem Every.valid {P : F → Prop} {s : Series F} (h : Every P s) : Every P (valid s) :=
  h.sub fun _ hv => (List.mem_filter.mp hv).1

theorem Every.take {P : F → Prop} {s : Series F} (h : Every P s) (n : Nat) : Every P (s.take n) :=
  h.sub fun _ hv => List.mem_of_mem_take hv

theorem Every.drop {P : F → Prop} {s : Series F} (h : Every P s) (n : Nat) : Every P (s.drop n) :=
  h.sub fun _ hv => List.mem_of_mem_drop hv

theorem Every.map {P Q : F → Prop} {s : Series F} (h : Every P s) {f : F → F} (hf : ∀ v, P v → Q (f v)) :
    Every Q (s.map f) := by
  intro v hv
  obtain ⟨x, hx, rfl⟩ := List.mem_map.mp hv
  exact hf x (h x hx)

theorem Every.clean {P : F → Prop} {s : Series F} (h : Every P s) (hn : P nan) : Every P (s.map clean) :=
  h.map fun v hv => by unfold TA.clean; split_ifs <;> assumption

theorem Every.pre {P Q : F → Prop} {s : Series F} (h : Every P s) {g : List F → F} (hg : ∀ l, Every P l → Q (g l)) :
    Every Q (pre g s) := Every.tab fun _ _ => hg _ (h.take _)

theorem Every.roll {P Q : F → Prop} {s : Series F} (h : Every P s) (hn : P nan) {g : List F → F}
    (hg : ∀ l, Every P l → Q (g l)) (w : Nat) : Every Q (roll w g s) :=
  (h.clean hn).pre fun _ hl => hg _ (hl.drop _)

theorem Every.zip2 {P Q S : F → Prop} {s t : Series F} (hs : Every P s) (ht : Every Q t) (hp : P nan) (hq : Q nan)
    {f : F → F → F} (hf : ∀ a b, P a → Q b → S (f a b)) : Every S (zip2 f s t) :=
  Every.tab fun i _ => hf _ _ (hs.ix hp i) (ht.ix hq i)

theorem Every.shift {P : F → Prop} {s : Series F} (h : Every P s) (hn : P nan) (k : Nat) : Every P (shift s k) :=
  Every.tab fun i _ => by
    split_ifs
    · exact hn
    · exact h.ix hn _

theorem Every.ffill {P : F → Prop} {s : Series F} (h : Every P s) (hn : P nan) : Every P (ffill s) :=
  h.pre fun l hl => by
    cases e : (TA.valid l).getLast? with
    | none => exact hn
    | some v => exact hl.valid v (List.mem_of_getLast? e)

/-- filling in a constant keeps what holds of the series and the constant -/
theorem Every.fill {P : F → Prop} {s : Series F} (h : Every P s) (hn : P nan) {v : F} (hv : P v) (b : Bool) :
    Every P (checkFillna b (.const v) s) := by
  cases b with
  | false => exact h
  | true =>
    refine ((h.clean hn).ffill hn).map (Q := P) fun x hx => ?_
    split_ifs
    · exact hv
    · exact hx

theorem Every.fillBack {P : F → Prop} {s : Series F} (h : Every P s) (hn : P nan) (b : Bool) :
    Every P (checkFillna b .back s) := by
  cases b with
  | false => exact h
  | true =>
    refine Every.tab fun i _ => ?_
    have h2 := ((h.clean hn).ffill hn).drop i
    show P (((TA.valid ((TA.ffill (replaceInf s)).drop i)).head?).getD nan)
    cases e : (TA.valid ((TA.ffill (replaceInf s)).drop i)).head? with
    | none => exact hn
    | some v => exact h2.valid v (List.mem_of_head? e)

/-- an invariant of the smoothing -/
theorem Every.ewm {P Q W : F → Prop} {s : Series F} (h : Every P s) (hp : P nan) (hq : Q nan) (hw : W (lit 1)) {a : F}
    (h0 : ∀ x, P x → Q x)
    (h1 : ∀ w, W w → W (w *. (lit 1 -. a)))
    (h2 : ∀ w m x, W w → Q m → P x → Q (((w *. (lit 1 -. a) *. m) +. (a *. x)) /. (w *. (lit 1 -. a) +. a)))
    (mp : Nat) : Every Q (ewm a mp s) := by
  have key : ∀ (l : List F) (st : EwmSt F), Every P l → Q st.avg → W st.oldWt →
      Q (l.foldl (ewmStep a) st).avg ∧ W (l.foldl (ewmStep a) st).oldWt := by
    intro l
    induction l with
    | nil => intro st _ b c; exact ⟨b, c⟩
    | cons x l ih =>
      intro st hl b c
      have hx := hl x (by simp)
      refine ih _ (fun v hv => hl v (by simp [hv])) ?_ ?_
      · unfold ewmStep
        dsimp only
        split_ifs
        · exact h2 _ _ _ c b hx
        · exact b
        · exact b
        · exact h0 _ hx
        · exact b
      · unfold ewmStep
        dsimp only
        split_ifs
        · exact hw
        · exact hw
        · exact h1 _ c
        · exact c
        · exact c
  refine (h.clean hp).pre (Q := Q) fun l hl => ?_
  unfold ewmOut
  split_ifs
  · exact (key l ewmInit hl hq hw).1
  · exact hq

theorem Every.sumL {P : F → Prop} {l : List F} (h : Every P l) (h0 : P (lit 0)) (ha : ∀ a b, P a → P b → P (a +. b)) :
    P (sumL l) := by
  unfold TA.sumL
  have : ∀ (l : List F) (a : F), P a → Every P l → P (l.foldl Flt.add a) := by
    intro l
    induction l with
    | nil => intro a h _; exact h
    | cons x l ih => intro a h hl; exact ih _ (ha _ _ h (hl x (by simp))) fun v hv => hl v (by simp [hv])
  exact this l _ h0 h

theorem maxL_mem {l : List F} (h : l ≠ []) : maxL l ∈ l := by
  cases l with
  | nil => exact absurd rfl h
  | cons x l =>
    have : ∀ (l : List F) (a : F), l.foldl (fun a b => if a <. b then b else a) a ∈ a :: l := by
      intro l
      induction l with
      | nil => intro a; simp
      | cons y l ih =>
        intro a
        rw [List.foldl_cons]
        have := ih (if a <. y then y else a)
        rw [List.mem_cons] at this ⊢
        rcases this with h | h
        · rw [h]; split_ifs <;> simp
        · right; exact List.mem_cons_of_mem _ h
    exact this l x

theorem Every.maxL {P : F → Prop} {l : List F} (h : Every P l) (hn : P nan) : P (maxL l) := by
  by_cases h0 : l = []
  · subst h0; exact hn
  · exact h _ (maxL_mem h0)

end general

/-! ## one-sided bounds on values -/

section bounds
variable {K : Type} [Field K] [LinearOrder K] [IsStrictOrderedRing K]

/-- NaN or at least `c` (maybe `+inf`) -/
def Ge (c : K) (v : Val K) : Prop := v = .nan ∨ (Val.fin c).le v = true
/-- NaN or at most `c` (maybe `-inf`) -/
def Le (c : K) (v : Val K) : Prop := v = .nan ∨ v.le (.fin c) = true

/-- NaN or a number between the bounds; no infinity -/
def Mem (a b : K) (v : Val K) : Prop := v = .nan ∨ ∃ x, v = .fin x ∧ a ≤ x ∧ x ≤ b

@[simp] theorem Ge.nan (c : K) : Ge c .nan := .inl rfl
@[simp] theorem Le.nan (c : K) : Le c .nan := .inl rfl
@[simp] theorem ge_fin {c x : K} : Ge c (.fin x) ↔ c ≤ x := by simp [Ge, Val.le]
@[simp] theorem le_fin {c x : K} : Le c (.fin x) ↔ x ≤ c := by simp [Le, Val.le]
@[simp] theorem ge_pinf {c : K} : Ge c .pinf := by simp [Ge, Val.le]
@[simp] theorem le_pinf {c : K} : ¬ Le c .pinf := by simp [Le, Val.le]
@[simp] theorem ge_ninf {c : K} : ¬ Ge c .ninf := by simp [Ge, Val.le]
@[simp] theorem le_ninf {c : K} : Le c .ninf := by simp [Le, Val.le]

theorem mem_iff {a b : K} {v : Val K} : Mem a b v ↔ Ge a v ∧ Le b v := by
  cases v <;> simp [Mem]

theorem Rounding.ge (R : Rounding K) {c : K} (hc : R.rd c = .fin c) {v : Val K} (h : Ge c v) : Ge c (R.rnd v) := by
  cases v with
  | fin x =>
    have := R.mono (ge_fin.mp h)
    rw [hc] at this
    exact .inr this
  | _ => exact h

theorem Rounding.le (R : Rounding K) {c : K} (hc : R.rd c = .fin c) {v : Val K} (h : Le c v) : Le c (R.rnd v) := by
  cases v with
  | fin x =>
    have := R.mono (le_fin.mp h)
    rw [hc] at this
    exact .inr this
  | _ => exact h

theorem Rounding.mem (R : Rounding K) {a b : K} (ha : R.rd a = .fin a) (hb : R.rd b = .fin b) {v : Val K}
    (h : Mem a b v) : Mem a b (R.rnd v) := by
  rw [mem_iff] at *
  exact ⟨R.ge ha h.1, R.le hb h.2⟩

theorem Rounding.rd_neg (R : Rounding K) {c : K} (h : R.rd c = .fin c) : R.rd (-c) = .fin (-c) := by
  rw [R.odd, h]; rfl

theorem Rounding.rnd_idem (R : Rounding K) (v : Val K) : R.rnd (R.rnd v) = R.rnd v := by
  cases v with
  | fin x =>
    show R.rnd (R.rd x) = R.rd x
    cases e : R.rd x with
    | fin y => exact R.idem e
    | _ => rfl
  | _ => rfl

/-! exact operations -/

theorem Ge.add {a b : Val K} (ha : Ge 0 a) (hb : Ge 0 b) : Ge 0 (a.add b) := by
  cases a <;> cases b <;> simp_all [Val.add]
  linarith

theorem Ge.mul {a b : Val K} (ha : Ge 0 a) (hb : Ge 0 b) : Ge 0 (a.mul b) := by
  cases a <;> cases b <;> simp_all [Val.mul, Val.infMul]
  · split_ifs with h1 h2
    · simp
    · simp
    · exact absurd (lt_of_le_of_ne hb (Ne.symm h1)) h2
  · split_ifs with h1 h2
    · simp
    · simp
    · exact absurd (lt_of_le_of_ne ha (Ne.symm h1)) h2
  · exact mul_nonneg ha hb

theorem Ge.div {a b : Val K} (ha : Ge 0 a) (hb : Ge 0 b) : Ge 0 (a.div b) := by
  cases a <;> cases b <;> simp_all [Val.div]
  split_ifs with h1 h2 h3
  · simp
  · simp
  · exact absurd (lt_of_le_of_ne ha (Ne.symm h2)) h3
  · simpa using div_nonneg ha hb

theorem Ge.mul_self (a : Val K) : Ge 0 (a.mul a) := by
  cases a <;> simp [Val.mul, Val.infMul, Val.neg]
  exact mul_self_nonneg _

theorem Ge.abs (a : Val K) : Ge 0 a.abs := by cases a <;> simp [Val.abs]

theorem Mem.abs {c : K} {v : Val K} (h : Mem (-c) c v) : Mem 0 c v.abs := by
  rcases h with rfl | ⟨x, rfl, h1, h2⟩
  · exact .inl rfl
  · exact .inr ⟨|x|, rfl, abs_nonneg _, abs_le.mpr ⟨h1, h2⟩⟩

theorem Mem.mono {a b c d : K} {v : Val K} (h : Mem a b v) (h1 : c ≤ a) (h2 : b ≤ d) : Mem c d v := by
  rcases h with rfl | ⟨x, rfl, h3, h4⟩
  · exact .inl rfl
  · exact .inr ⟨x, rfl, h1.trans h3, h4.trans h2⟩

theorem Ge.one_add {r : Val K} (h : Ge 0 r) : Ge 1 (Val.add (.fin 1) r) := by
  cases r <;> simp_all [Val.add]

theorem div_mem {c : K} (hc : 0 ≤ c) {d : Val K} (h : Ge 1 d) : Mem 0 c (Val.div (.fin c) d) := by
  cases d with
  | nan => exact .inl rfl
  | pinf => exact .inr ⟨0, rfl, le_refl _, hc⟩
  | ninf => simp at h
  | fin x =>
    have h1 : 1 ≤ x := by simpa using h
    have h0 : 0 < x := by linarith
    refine .inr ⟨c / x, by simp [Val.div, h0.ne'], by positivity, ?_⟩
    rw [div_le_iff₀ h0]
    nlinarith

theorem sub_mem {c : K} {q : Val K} (h : Mem 0 c q) : Mem 0 c (Val.sub (.fin c) q) := by
  rcases h with rfl | ⟨x, rfl, h1, h2⟩
  · exact .inl rfl
  · exact .inr ⟨c - x, by simp [Val.sub, Val.add, Val.neg, sub_eq_add_neg], by linarith, by linarith⟩

/-- a number over a larger one -/
theorem vratio {a b : Val K} (h0 : (Val.fin 0).le a = true) (h : a.le b = true) : Mem 0 1 (a.div b) := by
  cases a <;> cases b <;> simp_all [Val.le, Val.div, Mem]
  rename_i x y
  split_ifs with h1 h2 h3
  · exact .inl rfl
  · exact absurd (le_antisymm (h1 ▸ h) h0) h2
  · exact absurd (le_antisymm (h1 ▸ h) h0) h2
  · have : 0 < y := lt_of_le_of_ne (h0.trans h) (Ne.symm h1)
    exact .inr ⟨_, rfl, by positivity, by rw [div_le_one this]; exact h⟩

/-- a number over one that is larger in absolute value -/
theorem vratio_abs {a b : Val K} (h0 : b.neg.le a = true) (h : a.le b = true) : Mem (-1) 1 (a.div b) := by
  cases a <;> cases b <;> simp_all [Val.le, Val.div, Mem, Val.neg]
  rename_i x y
  split_ifs with h1 h2 h3
  · exact .inl rfl
  · exact absurd (le_antisymm (h1 ▸ h) (by rw [h1] at h0; linarith)) h2
  · exact absurd (le_antisymm (h1 ▸ h) (by rw [h1] at h0; linarith)) h2
  · have : 0 < y := lt_of_le_of_ne (by linarith) (Ne.symm h1)
    exact .inr ⟨_, rfl, by rw [le_div_iff₀ this]; linarith, by rw [div_le_one this]; exact h⟩

theorem Val.le_trans' {a b c : Val K} (h1 : a.le b = true) (h2 : b.le c = true) : a.le c = true := by
  cases a <;> cases b <;> cases c <;> simp_all [Val.le]
  exact h1.trans h2

end bounds

/-! ## rounded operations -/

section rounded
variable {K : Type} [Field K] [LinearOrder K] [IsStrictOrderedRing K] {R : Rounding K}

/-- NaN or at least 0 -/
def Nn (v : Rval R) : Prop := Ge (K := K) 0 v
/-- NaN or a number between the bounds -/
def In (a b : K) (v : Rval R) : Prop := Mem a b v

theorem Nn.nan : Nn (Flt.nan : Rval R) := .inl rfl
theorem In.nan {a b : K} : In a b (Flt.nan : Rval R) := .inl rfl

theorem lit0 : (lit 0 : Rval R) = Val.fin 0 := by
  show R.rd _ = _
  rw [Rat.cast_zero, R.zero]
theorem lit1 : (lit 1 : Rval R) = Val.fin 1 := by
  show R.rd _ = _
  rw [Rat.cast_one, R.one]
theorem lit100 : (lit 100 : Rval R) = Val.fin 100 := by
  show R.rd _ = _
  rw [Rat.cast_ofNat, R.hundred]

theorem Nn.lit0 : Nn (lit 0 : Rval R) := by rw [TA.lit0]; exact .inr (by simp [Val.le])
theorem Nn.lit1 : Nn (lit 1 : Rval R) := by rw [TA.lit1]; exact .inr (by simp [Val.le])
theorem Nn.natF (n : Nat) : Nn (natF n : Rval R) := by
  refine R.ge R.zero (v := .fin _) ?_
  simp

theorem Nn.add {a b : Rval R} (ha : Nn a) (hb : Nn b) : Nn (a +. b) := R.ge R.zero (Ge.add ha hb)
theorem Nn.mul {a b : Rval R} (ha : Nn a) (hb : Nn b) : Nn (a *. b) := R.ge R.zero (Ge.mul ha hb)
theorem Nn.div {a b : Rval R} (ha : Nn a) (hb : Nn b) : Nn (a /. b) := R.ge R.zero (Ge.div ha hb)
theorem Nn.mul_self (a : Rval R) : Nn (a *. a) := R.ge R.zero (Ge.mul_self _)
theorem Nn.abs (a : Rval R) : Nn (Flt.abs a) := Ge.abs (K := K) a

theorem In.nn {a : K} {v : Rval R} (h : In 0 a v) : Nn v := (mem_iff.mp h).1

/-- `100 - 100 / (1 + r)` -/
theorem squash {r : Rval R} (h : Nn r) : In 0 100 (lit 100 -. (lit 100 /. (lit 1 +. r))) := by
  rw [lit1, lit100]
  refine R.mem R.zero R.hundred (sub_mem (R.mem R.zero R.hundred (div_mem (by norm_num) ?_)))
  exact R.ge R.one (Ge.one_add h)

/-- a smoothing factor -/
theorem alpha_mem {a : Rval R} (ha : In 0 1 a) : In 0 1 (alphaOfAlpha a) := by
  unfold alphaOfAlpha
  rw [lit1]
  refine R.mem R.zero R.one (div_mem (by norm_num) (R.ge R.one (Ge.one_add ?_)))
  exact Nn.div (R := R) (R.ge R.zero (mem_iff.mp (sub_mem ha)).1) ha.nn

theorem one_sub_nn {a : Rval R} (ha : In 0 1 a) : Nn (lit 1 -. a) := by
  rw [lit1]
  exact R.ge R.zero (mem_iff.mp (sub_mem ha)).1

/-- smoothing of non-negative data -/
theorem Every.ewmNn {s : Series (Rval R)} (h : Every Nn s) {a : Rval R} (ha : In 0 1 a) (mp : Nat) :
    Every Nn (TA.ewm a mp s) := by
  have h1 := one_sub_nn ha
  exact h.ewm (W := Nn) Nn.nan Nn.nan Nn.lit1 (fun _ h => h) (fun w hw => hw.mul h1)
    (fun w m x hw hm hx => ((((hw.mul h1).mul hm).add (ha.nn.mul hx)).div ((hw.mul h1).add ha.nn))) mp

theorem wilderAlpha_mem {w : Nat} (hw : 1 ≤ w) : In 0 1 (RSI.alpha w : Rval R) := by
  unfold RSI.alpha
  refine alpha_mem ?_
  rw [lit1]
  refine R.mem R.zero R.one (div_mem (by norm_num) ?_)
  refine R.ge R.one (v := .fin _) ?_
  rw [ge_fin]
  exact_mod_cast hw

theorem spanAlpha_mem {w : Nat} (hw : 1 ≤ w) : In 0 1 (alphaOfSpan w : Rval R) := by
  unfold alphaOfSpan
  have h2 : Nn (lit 2 : Rval R) := R.ge R.zero (v := .fin _) (by simp)
  have h3 : Nn ((natF w : Rval R) -. lit 1) := by
    rw [lit1]
    have h1 : Ge 1 (natF w : Rval R) := by
      refine R.ge R.one (v := .fin _) ?_
      rw [ge_fin]
      exact_mod_cast hw
    refine R.ge R.zero ?_
    revert h1
    generalize (natF w : Rval R) = v
    intro h1
    cases v <;> simp_all [Val.sub, Val.add, Val.neg]
  rw [lit1]
  refine R.mem R.zero R.one (div_mem (by norm_num) (R.ge R.one (Ge.one_add ?_)))
  rw [← lit1]
  exact h3.div h2

end rounded
end TA
