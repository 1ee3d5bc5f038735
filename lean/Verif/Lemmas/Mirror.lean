import Verif.Lemmas.RelInd

/-! # Negated prices through the pandas primitives

`sneg s` negates every value of a series.  Exact arithmetic commutes with the sign everywhere, infinities included. -/

set_option linter.unusedSectionVars false

namespace TA
variable {K : Type} [Field K] [LinearOrder K] [IsStrictOrderedRing K]

/-! ## values -/

theorem neg_neg' (a : Val K) : Flt.neg (Flt.neg a) = a := by
  cases a <;> first | rfl | (simp)

theorem vadd_comm (a b : Val K) : a +. b = b +. a := by
  cases a <;> cases b <;> first | rfl | (simp [add_comm])

theorem neg_add' (a b : Val K) : Flt.neg a +. Flt.neg b = Flt.neg (a +. b) := by
  cases a <;> cases b <;> first | rfl | (simp [add_comm])

theorem sub_def' (a b : Val K) : a -. b = a +. Flt.neg b := rfl

theorem neg_sub_neg' (a b : Val K) : Flt.neg a -. Flt.neg b = Flt.neg (a -. b) := by
  rw [sub_def', sub_def', neg_add']

theorem neg_sub' (a b : Val K) : Flt.neg (a -. b) = b -. a := by
  rw [sub_def', sub_def', ← neg_add', neg_neg', vadd_comm]

theorem infMul_neg (a : Val K) : Val.infMul (Flt.neg a) = Flt.neg (Val.infMul a) := by
  cases a with
  | fin x =>
    rw [fin_neg]
    unfold Val.infMul
    simp only [neg_eq_zero, Left.neg_pos_iff]
    split_ifs with h1 h2 h3 h3
    · rfl
    · exact absurd h3 (not_lt.mpr h2.le)
    · rfl
    · rfl
    · exact absurd (le_antisymm (not_lt.mp h3) (not_lt.mp h2)) h1
  | _ => rfl

theorem vmul_comm (a b : Val K) : a *. b = b *. a := by
  cases a <;> cases b
  all_goals first | rfl | skip
  rw [fin_mul, fin_mul, mul_comm]

theorem mul_neg' (a b : Val K) : a *. Flt.neg b = Flt.neg (a *. b) := by
  cases b with
  | nan => rw [nan_neg, mul_nan, nan_neg]
  | pinf =>
    cases a <;> rfl
  | ninf =>
    cases a
    · rfl
    · rfl
    · rfl
    · exact (neg_neg' _).symm
  | fin y =>
    cases a with
    | nan => rfl
    | pinf => exact infMul_neg (.fin y)
    | ninf => exact congrArg Val.neg (infMul_neg (.fin y))
    | fin x => simp

theorem neg_mul' (a b : Val K) : Flt.neg a *. b = Flt.neg (a *. b) := by
  rw [vmul_comm, mul_neg', vmul_comm]

theorem neg_div' (a b : Val K) : Flt.neg a /. b = Flt.neg (a /. b) := by
  cases a <;> cases b
  all_goals first | rfl | skip
  · rename_i x
    show (if 0 ≤ x then _ else _) = Val.neg (if 0 ≤ x then _ else _)
    split_ifs <;> rfl
  · rename_i x
    show (if 0 ≤ x then _ else _) = Val.neg (if 0 ≤ x then _ else _)
    split_ifs <;> rfl
  · show Val.fin 0 = Val.fin (-0); rw [neg_zero]
  · show Val.fin 0 = Val.fin (-0); rw [neg_zero]
  · rename_i x y
    by_cases hy : y = 0
    · subst hy
      rw [fin_neg, fin_div_zero, fin_div_zero]
      simp only [neg_eq_zero, Left.neg_pos_iff]
      split_ifs with h1 h2 h3 h3
      · rfl
      · exact absurd h3 (not_lt.mpr h2.le)
      · rfl
      · rfl
      · exact absurd (le_antisymm (not_lt.mp h3) (not_lt.mp h2)) h1
    · rw [fin_neg, fin_div _ _ hy, fin_div _ _ hy, fin_neg, neg_div]

theorem abs_neg' (a : Val K) : Flt.abs (Flt.neg a) = Flt.abs a := by
  cases a <;> first | rfl | (simp)

theorem lt_neg_neg' (a b : Val K) : (Flt.neg a <. Flt.neg b) = (b <. a) := by
  cases a <;> cases b <;> first | rfl | (simp)

theorem le_neg_neg' (a b : Val K) : (Flt.neg a <=. Flt.neg b) = (b <=. a) := by
  cases a <;> cases b <;> first | rfl | (simp)

theorem eq_neg_neg' (a b : Val K) : (Flt.neg a ==. Flt.neg b) = (a ==. b) := by
  cases a <;> cases b <;> first | rfl | (simp)

theorem ne_neg_neg' (a b : Val K) : (Flt.neg a !=. Flt.neg b) = (a !=. b) := by
  unfold Flt.ne; rw [eq_neg_neg']

theorem ne_comm' (a b : Val K) : (a !=. b) = (b !=. a) := by
  cases a <;> cases b <;> first | rfl | (simp [eq_comm])

@[simp] theorem isNaN_neg (a : Val K) : Flt.isNaN (Flt.neg a) = Flt.isNaN a := by cases a <;> rfl
@[simp] theorem isInf_neg (a : Val K) : Flt.isInf (Flt.neg a) = Flt.isInf a := by cases a <;> rfl

theorem neg_zero' : Flt.neg (lit 0 : Val K) = lit 0 := by simp
theorem neg_nan' : Flt.neg (nan : Val K) = nan := rfl

theorem clean_neg (a : Val K) : clean (Flt.neg a) = Flt.neg (clean a) := by cases a <;> rfl

theorem npMax2_neg (a b : Val K) : npMax2 (Flt.neg a) (Flt.neg b) = Flt.neg (npMin2 a b) := by
  unfold npMax2 npMin2
  rw [isNaN_neg, isNaN_neg, lt_neg_neg']
  split_ifs <;> rfl

theorem npMin2_neg (a b : Val K) : npMin2 (Flt.neg a) (Flt.neg b) = Flt.neg (npMax2 a b) := by
  unfold npMax2 npMin2
  rw [isNaN_neg, isNaN_neg, lt_neg_neg']
  split_ifs <;> rfl

/-! ## lists -/

/-- every value negated -/
abbrev sneg (s : Series (Val K)) : Series (Val K) := s.map Flt.neg

theorem sneg_sneg (s : Series (Val K)) : sneg (sneg s) = s := by
  unfold sneg
  rw [List.map_map]
  exact (List.map_congr_left fun a _ => neg_neg' a).trans (List.map_id s)

theorem length_sneg (s : Series (Val K)) : (sneg s).length = s.length := List.length_map ..

theorem ix_sneg (s : Series (Val K)) (i : Nat) : ix (sneg s) i = Flt.neg (ix s i) := by
  by_cases h : i < s.length
  · exact ix_map h
  · rw [ix_ge (by rw [length_sneg]; exact Nat.not_lt.mp h), ix_ge (Nat.not_lt.mp h)]; rfl

theorem valid_neg (l : List (Val K)) : valid (l.map Flt.neg) = (valid l).map Flt.neg := by
  unfold valid
  rw [List.filter_map]
  congr 1
  exact List.filter_congr fun a _ => by simp

theorem foldAdd_neg (l : List (Val K)) (x : Val K) :
    (l.map Flt.neg).foldl Flt.add (Flt.neg x) = Flt.neg (l.foldl Flt.add x) := by
  induction l generalizing x with
  | nil => rfl
  | cons a l ih => rw [List.map_cons, List.foldl_cons, List.foldl_cons, neg_add', ih]

theorem sumL_neg (l : List (Val K)) : sumL (l.map Flt.neg) = Flt.neg (sumL l) := by
  unfold sumL
  rw [← foldAdd_neg, neg_zero']

theorem maxL_neg (l : List (Val K)) : maxL (l.map Flt.neg) = Flt.neg (minL l) := by
  cases l with
  | nil => rfl
  | cons x l =>
    unfold maxL minL
    rw [List.map_cons]
    dsimp only
    induction l generalizing x with
    | nil => rfl
    | cons a l ih =>
      rw [List.map_cons, List.foldl_cons, List.foldl_cons, lt_neg_neg']
      split_ifs
      · exact ih a
      · exact ih x

theorem minL_neg (l : List (Val K)) : minL (l.map Flt.neg) = Flt.neg (maxL l) := by
  cases l with
  | nil => rfl
  | cons x l =>
    unfold maxL minL
    rw [List.map_cons]
    dsimp only
    induction l generalizing x with
    | nil => rfl
    | cons a l ih =>
      rw [List.map_cons, List.foldl_cons, List.foldl_cons, lt_neg_neg']
      split_ifs
      · exact ih a
      · exact ih x

theorem npMean_neg (l : List (Val K)) : npMean (l.map Flt.neg) = Flt.neg (npMean l) := by
  unfold npMean
  rw [sumL_neg, List.length_map, neg_div']

theorem find_neg {p p' : Val K → Bool} (hp : ∀ a, p' (Flt.neg a) = p a) (l : List (Val K)) (m : Nat) :
    findFrom p' m (l.map Flt.neg) = findFrom p m l := by
  induction l generalizing m with
  | nil => rfl
  | cons a l ih => rw [List.map_cons]; unfold findFrom; rw [hp, ih]

theorem argmax_neg (l : List (Val K)) : argmax (l.map Flt.neg) = argmin l := by
  unfold argmax argmin
  rw [find_neg isNaN_neg, find_neg fun a => by rw [maxL_neg, eq_neg_neg']]

theorem argmin_neg (l : List (Val K)) : argmin (l.map Flt.neg) = argmax l := by
  unfold argmax argmin
  rw [find_neg isNaN_neg, find_neg fun a => by rw [minL_neg, eq_neg_neg']]

/-! ## series -/

section
variable (s t u : Series (Val K))

theorem tab_neg (n : Nat) (f : Nat → Val K) : tab n (fun i => Flt.neg (f i)) = sneg (tab n f) := by
  unfold tab sneg; rw [List.map_map]; rfl

theorem zip2_neg {f g : Val K → Val K → Val K} (h : ∀ a b, f (Flt.neg a) (Flt.neg b) = Flt.neg (g a b)) :
    zip2 f (sneg s) (sneg t) = sneg (zip2 g s t) := by
  unfold zip2
  rw [length_sneg, ← tab_neg]
  exact tab_congr rfl fun i _ => by rw [ix_sneg, ix_sneg, h]

theorem zip2_swap {f g : Val K → Val K → Val K} (hl : t.length = s.length) (h : ∀ a b, f a b = g b a) :
    zip2 f s t = zip2 g t s := by
  unfold zip2
  exact tab_congr hl.symm fun i _ => h _ _

theorem sadd_neg : sadd (sneg s) (sneg t) = sneg (sadd s t) := zip2_neg s t neg_add'
theorem ssub_neg : ssub (sneg s) (sneg t) = sneg (ssub s t) := zip2_neg s t neg_sub_neg'
theorem neg_ssub (hl : t.length = s.length) : sneg (ssub s t) = ssub t s := by
  unfold ssub zip2
  rw [← tab_neg, hl]
  exact tab_congr rfl fun i _ => neg_sub' _ _
theorem sadd_comm' (hl : t.length = s.length) : sadd s t = sadd t s := zip2_swap s t hl vadd_comm
theorem smul_neg : smul (sneg s) t = sneg (smul s t) := by
  unfold smul zip2
  rw [length_sneg, ← tab_neg]
  exact tab_congr rfl fun i _ => by rw [ix_sneg, neg_mul']
theorem sdiv_neg : sdiv (sneg s) t = sneg (sdiv s t) := by
  unfold sdiv zip2
  rw [length_sneg, ← tab_neg]
  exact tab_congr rfl fun i _ => by rw [ix_sneg, neg_div']

theorem map_neg {f : Val K → Val K} (h : ∀ a, f (Flt.neg a) = Flt.neg (f a)) : (sneg s).map f = sneg (s.map f) := by
  unfold sneg
  rw [List.map_map, List.map_map]
  exact List.map_congr_left fun a _ => h a

theorem cmul_neg (c : Val K) : cmul c (sneg s) = sneg (cmul c s) := map_neg s fun a => mul_neg' c a
theorem mulc_neg (c : Val K) : mulc (sneg s) c = sneg (mulc s c) := map_neg s fun a => neg_mul' a c
theorem divc_neg (c : Val K) : divc (sneg s) c = sneg (divc s c) := map_neg s fun a => neg_div' a c
theorem sabs_neg : sabs (sneg s) = sabs s := by
  unfold sabs sneg
  rw [List.map_map]
  exact List.map_congr_left fun a _ => abs_neg' a

theorem shift_neg (m : Nat) (v : Val K) : shift (sneg s) m (Flt.neg v) = sneg (shift s m v) := by
  unfold shift
  rw [length_sneg, ← tab_neg]
  refine tab_congr rfl fun i _ => ?_
  split_ifs
  · rfl
  · exact ix_sneg _ _

theorem shiftNan_neg (m : Nat) : shift (sneg s) m = sneg (shift s m) := shift_neg s m nan

theorem shiftInt_neg (m : Int) : shiftInt (sneg s) m = sneg (shiftInt s m) := by
  unfold shiftInt
  rw [length_sneg, ← tab_neg]
  refine tab_congr rfl fun i _ => ?_
  split_ifs
  · rfl
  · exact ix_sneg _ _

theorem npRoll_neg (m : Nat) : npRoll (sneg s) m = sneg (npRoll s m) := by
  unfold npRoll
  rw [length_sneg, ← tab_neg]
  exact tab_congr rfl fun i _ => ix_sneg _ _

theorem sdiff_neg : sdiff (sneg s) = sneg (sdiff s) := by unfold sdiff; rw [shiftNan_neg, ssub_neg]

theorem pre_neg {g g' : List (Val K) → Val K} (h : ∀ l, g (l.map Flt.neg) = Flt.neg (g' l)) :
    pre g (sneg s) = sneg (pre g' s) := by
  unfold pre
  rw [length_sneg, ← tab_neg]
  exact tab_congr rfl fun i _ => by rw [← h, List.map_take]

theorem pre_even {g g' : List (Val K) → Val K} (h : ∀ l, g (l.map Flt.neg) = g' l) : pre g (sneg s) = pre g' s := by
  unfold pre
  rw [length_sneg]
  exact tab_congr rfl fun i _ => by rw [← h, List.map_take]

theorem clean_sneg : (sneg s).map clean = sneg (s.map clean) := map_neg s clean_neg

theorem lastN_neg (w : Nat) (l : List (Val K)) : lastN w (l.map Flt.neg) = (lastN w l).map Flt.neg := by
  unfold lastN; rw [List.length_map, List.map_drop]

theorem roll_neg (w : Nat) {g g' : List (Val K) → Val K} (h : ∀ l, g (l.map Flt.neg) = Flt.neg (g' l)) :
    roll w g (sneg s) = sneg (roll w g' s) := by
  unfold roll
  rw [clean_sneg]
  exact pre_neg _ fun l => by rw [lastN_neg, h]

theorem roll_even (w : Nat) {g g' : List (Val K) → Val K} (h : ∀ l, g (l.map Flt.neg) = g' l) :
    roll w g (sneg s) = roll w g' s := by
  unfold roll
  rw [clean_sneg]
  exact pre_even _ fun l => by rw [lastN_neg, h]

theorem rollSum_neg (w mp : Nat) : rollSum w mp (sneg s) = sneg (rollSum w mp s) :=
  roll_neg s w fun l => by
    unfold aggSum
    rw [valid_neg, List.length_map, sumL_neg]
    split_ifs
    · exact neg_zero'.symm
    · rfl
    · rfl

theorem rollMean_neg (w mp : Nat) : rollMean w mp (sneg s) = sneg (rollMean w mp s) :=
  roll_neg s w fun l => by
    unfold aggMean
    rw [valid_neg, List.length_map, sumL_neg, neg_div']
    split_ifs <;> rfl

theorem rollMax_neg (w mp : Nat) : rollMax w mp (sneg s) = sneg (rollMin w mp s) :=
  roll_neg s w fun l => by
    unfold aggMax aggMin
    rw [valid_neg, List.length_map, maxL_neg]
    split_ifs <;> rfl

theorem rollMin_neg (w mp : Nat) : rollMin w mp (sneg s) = sneg (rollMax w mp s) :=
  roll_neg s w fun l => by
    unfold aggMax aggMin
    rw [valid_neg, List.length_map, minL_neg]
    split_ifs <;> rfl

theorem rollApply_neg (w mp : Nat) {g g' : List (Val K) → Val K} (h : ∀ l, g (l.map Flt.neg) = Flt.neg (g' l)) :
    rollApply g w mp (sneg s) = sneg (rollApply g' w mp s) :=
  roll_neg s w fun l => by
    unfold aggApply
    rw [valid_neg, List.length_map, h]
    split_ifs <;> rfl

theorem rollApply_even (w mp : Nat) {g g' : List (Val K) → Val K} (h : ∀ l, g (l.map Flt.neg) = g' l) :
    rollApply g w mp (sneg s) = rollApply g' w mp s :=
  roll_even s w fun l => by
    unfold aggApply
    rw [valid_neg, List.length_map, h]

/-- the state of the exponential average on negated data -/
def EwmSt.negate (st : EwmSt (Val K)) : EwmSt (Val K) := ⟨Flt.neg st.avg, st.oldWt, st.nobs⟩

theorem ewmStep_neg (a : Val K) (st : EwmSt (Val K)) (x : Val K) :
    ewmStep a st.negate (Flt.neg x) = (ewmStep a st x).negate := by
  unfold ewmStep EwmSt.negate
  simp only [isNaN_neg, ne_neg_neg', mul_neg', neg_add', neg_div']
  split_ifs <;> rfl

theorem ewm_neg (a : Val K) (mp : Nat) : ewm a mp (sneg s) = sneg (ewm a mp s) := by
  unfold ewm
  rw [clean_sneg]
  refine pre_neg _ fun l => ?_
  have h : ∀ st : EwmSt (Val K), (l.map Flt.neg).foldl (ewmStep a) st.negate = (l.foldl (ewmStep a) st).negate := by
    induction l with
    | nil => intro st; rfl
    | cons x l ih => intro st; rw [List.map_cons, List.foldl_cons, List.foldl_cons, ewmStep_neg, ih]
  have := h ewmInit
  rw [show (ewmInit : EwmSt (Val K)).negate = ewmInit from rfl] at this
  rw [this]
  unfold ewmOut EwmSt.negate
  dsimp only
  split_ifs <;> rfl

theorem ema_neg (w : Nat) (b : Bool) : ema (sneg s) w b = sneg (ema s w b) := ewm_neg s _ _

theorem cumsum_neg : cumsum (sneg s) = sneg (cumsum s) :=
  pre_neg s fun l => by
    have := ix_sneg l (l.length - 1)
    unfold sneg at this
    rw [List.length_map, this, isNaN_neg, valid_neg, sumL_neg]
    split_ifs <;> rfl

theorem ffill_neg : ffill (sneg s) = sneg (ffill s) :=
  pre_neg s fun l => by
    rw [valid_neg, List.getLast?_map]
    cases (valid l).getLast? <;> rfl

theorem bfill_neg : bfill (sneg s) = sneg (bfill s) := by
  unfold bfill
  rw [length_sneg, ← tab_neg]
  refine tab_congr rfl fun i _ => ?_
  unfold sneg
  rw [← List.map_drop, valid_neg, List.head?_map]
  cases (valid (s.drop i)).head? <;> rfl

theorem replaceInf_neg : replaceInf (sneg s) = sneg (replaceInf s) := clean_sneg s

theorem fillConst_neg (v : Val K) : fillConst (Flt.neg v) (sneg s) = sneg (fillConst v s) :=  by
  unfold fillConst sneg
  rw [List.map_map, List.map_map]
  refine List.map_congr_left fun a _ => ?_
  simp only [Function.comp, isNaN_neg]
  split_ifs <;> rfl

theorem fillSer_neg : fillSer (sneg t) (sneg s) = sneg (fillSer t s) :=
  zip2_neg s t fun a b => by
    rw [isNaN_neg]
    split_ifs <;> rfl

theorem smean_neg : smean (sneg s) = Flt.neg (smean s) := by
  unfold smean sneg
  rw [valid_neg, List.length_map, sumL_neg, neg_div']
  split_ifs <;> rfl

theorem fill0_neg (b : Bool) : checkFillna b (.const (lit 0)) (sneg s) = sneg (checkFillna b (.const (lit 0)) s) := by
  unfold checkFillna
  split_ifs
  · dsimp only
    rw [replaceInf_neg, ffill_neg]
    conv_lhs => rw [← neg_zero']
    rw [fillConst_neg]
  · rfl

theorem fillBack_neg (b : Bool) : checkFillna b .back (sneg s) = sneg (checkFillna b .back s) := by
  unfold checkFillna
  split_ifs
  · dsimp only
    rw [replaceInf_neg, ffill_neg, bfill_neg]
  · rfl

theorem fillSer'_neg (b : Bool) : checkFillna b (.ser (sneg t)) (sneg s) = sneg (checkFillna b (.ser t) s) := by
  unfold checkFillna
  split_ifs
  · dsimp only
    rw [replaceInf_neg, ffill_neg, fillSer_neg]
  · rfl
end

/-! ## shared pieces of the indicators -/

theorem max_swap (a b c : Val K) : maxL (valid [a, b, c]) = maxL (valid [a, c, b]) := by
  cases a <;> cases b <;> cases c
  all_goals first | rfl | skip
  all_goals simp [valid, maxL, show ∀ x : K, (Val.fin x <. Val.pinf) = true from fun _ => rfl,
    show ∀ x : K, (Val.pinf <. Val.fin x) = false from fun _ => rfl,
    show ∀ x : K, (Val.ninf <. Val.fin x) = true from fun _ => rfl,
    show ∀ x : K, (Val.fin x <. Val.ninf) = false from fun _ => rfl]
  all_goals split_ifs <;> first | rfl | (exfalso; linarith) | skip
  all_goals try simp only [fin_lt, decide_eq_true_eq, fin_inj] at *
  all_goals first | linarith | exact fun hf => Bool.noConfusion hf

section
variable {h l s : Series (Val K)}

theorem trueRange_neg (p : Series (Val K)) (e : l.length = h.length) :
    trueRange (sneg l) (sneg h) (sneg p) = trueRange h l p := by
  unfold trueRange zip3
  rw [length_sneg, e]
  refine tab_congr rfl fun i _ => ?_
  rw [ix_sneg, ix_sneg, ix_sneg]
  dsimp only
  rw [neg_sub_neg', neg_sub', neg_sub_neg', abs_neg', neg_sub_neg', abs_neg', max_swap]

theorem typicalPrice_neg (e : l.length = h.length) :
    typicalPrice (sneg l) (sneg h) (sneg s) = sneg (typicalPrice h l s) := by
  unfold typicalPrice
  rw [sadd_neg, sadd_comm' l h e.symm, sadd_neg, divc_neg]

end
end TA
