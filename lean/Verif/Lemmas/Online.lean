import Verif.Base.Online
import Verif.Lemmas.Win
import Verif.Props.C30
import Mathlib.Tactic.FieldSimp
import Mathlib.Data.List.GetD
import Mathlib.Data.List.TakeWhile

/-! # pandas' window kernels in exact arithmetic -/

set_option linter.unusedSectionVars false
set_option linter.unusedSimpArgs false
set_option linter.unnecessarySeqFocus false

namespace TA
variable {K : Type} [Field K] [LinearOrder K] [IsStrictOrderedRing K]

/-! ## slices -/

theorem nums_append (a b : List (Val K)) : nums (a ++ b) = nums a ++ nums b := List.filterMap_append

theorem nums_clean (l : List (Val K)) : nums (l.map clean) = nums l := by
  unfold nums
  rw [List.filterMap_map]
  congr 1
  funext v
  cases v <;> rfl

theorem slice_split (s : List (Val K)) {a b c : Nat} (h : a ≤ b) (h' : b ≤ c) :
    slice s a c = slice s a b ++ slice s b c := by
  unfold slice
  have e : s.take c = s.take b ++ (s.take c).drop b := by
    conv_lhs => rw [← List.take_append_drop b (s.take c)]
    rw [List.take_take, min_eq_left h']
  rcases Nat.lt_or_ge s.length a with hl | hl
  · rw [List.drop_eq_nil_of_le (by simp; omega), List.drop_eq_nil_of_le (by simp; omega),
      List.drop_eq_nil_of_le (by simp; omega)]; rfl
  · conv_lhs => rw [e]
    rw [List.drop_append_of_le_length (by simp; omega)]

theorem slice_self (s : List (Val K)) (a : Nat) : slice s a a = [] := by
  unfold slice; exact List.drop_eq_nil_of_le (by simp)

/-- the numbers in the window of row `i` -/
theorem nums_slice {s : Series (Val K)} {w i : Nat} (h : i < s.length) :
    nums (slice (s.map clean) (winStart w i) (winEnd i)) = obs s w i := by
  have e : slice (s.map clean) (winStart w i) (winEnd i) = lastN w ((s.map clean).take (i + 1)) := by
    unfold slice winStart winEnd lastN
    rw [List.length_take, List.length_map, min_eq_left (by omega)]
  rw [e, lastN_take_ix s w i h]
  unfold obs
  rw [← nums_clean ((winIx w i).map (ix s)), List.map_map]
  rfl

/-- every value is NaN or a number -/
def NoInf (l : List (Val K)) : Prop := ∀ v ∈ l, v = .nan ∨ ∃ x, v = .fin x

theorem noInf_clean (s : List (Val K)) : NoInf (s.map clean) := by
  intro v hv
  obtain ⟨u, _, rfl⟩ := List.mem_map.mp hv
  cases u <;> simp

theorem NoInf.slice {s : List (Val K)} (h : NoInf s) (a b : Nat) : NoInf (slice s a b) :=
  fun v hv => h v (List.mem_of_mem_take (List.mem_of_mem_drop hv))

theorem NoInf.tail {v : Val K} {l : List (Val K)} (h : NoInf (v :: l)) : NoInf l := fun u hu => h u (List.mem_cons_of_mem _ hu)

/-! ## sum and mean -/

/-- how many are negative -/
def negs (l : List K) : Nat := l.countP (fun x => decide (x < 0))

def SumSt.mk' (σ : K) (n m : Int) : SumSt (Val K) := ⟨.fin σ, .fin 0, .fin 0, n, m⟩

theorem SumSt.fold_add {l : List (Val K)} (h : NoInf l) (σ : K) (n m : Int) :
    l.foldl SumSt.add (SumSt.mk' σ n m) = SumSt.mk' (σ + (nums l).sum) (n + (nums l).length) (m + negs (nums l)) := by
  induction l generalizing σ n m with
  | nil => simp [nums, negs]
  | cons v l ih =>
    rw [List.foldl_cons]
    rcases h v List.mem_cons_self with rfl | ⟨x, rfl⟩
    · have e : SumSt.add (SumSt.mk' σ n m) .nan = SumSt.mk' σ n m := by unfold SumSt.add; simp
      rw [e, ih h.tail]; rfl
    · have e : SumSt.add (SumSt.mk' σ n m) (.fin x) = SumSt.mk' (σ + x) (n + 1) (if x < 0 then m + 1 else m) := by
        unfold SumSt.add SumSt.mk'; simp
      rw [e, ih h.tail]
      have e' : nums (Val.fin x :: l) = x :: nums l := rfl
      rw [e']
      unfold negs
      rw [List.countP_cons, List.sum_cons, List.length_cons]
      congr 1
      · ring
      · push_cast; ring
      · by_cases hx : x < 0 <;> simp [hx] <;> ring

theorem SumSt.fold_rem {l : List (Val K)} (h : NoInf l) (σ : K) (n m : Int) :
    l.foldl SumSt.rem (SumSt.mk' σ n m) = SumSt.mk' (σ - (nums l).sum) (n - (nums l).length) (m - negs (nums l)) := by
  induction l generalizing σ n m with
  | nil => simp [nums, negs]
  | cons v l ih =>
    rw [List.foldl_cons]
    rcases h v List.mem_cons_self with rfl | ⟨x, rfl⟩
    · have e : SumSt.rem (SumSt.mk' σ n m) .nan = SumSt.mk' σ n m := by unfold SumSt.rem; simp
      rw [e, ih h.tail]; rfl
    · have e : SumSt.rem (SumSt.mk' σ n m) (.fin x) = SumSt.mk' (σ - x) (n - 1) (if x < 0 then m - 1 else m) := by
        unfold SumSt.rem SumSt.mk'; simp [sub_eq_add_neg]
      rw [e, ih h.tail]
      have e' : nums (Val.fin x :: l) = x :: nums l := rfl
      rw [e']
      unfold negs
      rw [List.countP_cons, List.sum_cons, List.length_cons]
      congr 1
      · ring
      · push_cast; ring
      · by_cases hx : x < 0 <;> simp [hx] <;> ring

/-- what the accumulator holds after adding the rows before `b` and removing the rows before `a` -/
def SumSt.between (s : List (Val K)) (a b : Nat) : SumSt (Val K) :=
  SumSt.mk' ((nums (s.take b)).sum - (nums (s.take a)).sum) ((nums (s.take b)).length - (nums (s.take a)).length : Int)
    (negs (nums (s.take b)) - negs (nums (s.take a)) : Int)

theorem nums_take_split (s : List (Val K)) {a b : Nat} (h : a ≤ b) :
    nums (s.take b) = nums (s.take a) ++ nums (slice s a b) := by
  rw [← nums_append]
  congr 1
  have := slice_split s (Nat.zero_le a) h
  unfold slice at this ⊢
  simpa using this

theorem negs_append (a b : List K) : negs (a ++ b) = negs a + negs b := by unfold negs; rw [List.countP_append]

theorem SumSt.between_add {s : List (Val K)} (hs : NoInf s) {a b c : Nat} (h : b ≤ c) :
    over SumSt.add s b c (SumSt.between s a b) = SumSt.between s a c := by
  unfold over SumSt.between
  rw [SumSt.fold_add (hs.slice _ _), nums_take_split s h, List.sum_append, List.length_append, negs_append]
  congr 1
  · ring
  · push_cast; ring
  · push_cast; ring

theorem SumSt.between_rem {s : List (Val K)} (hs : NoInf s) {a b c : Nat} (h : a ≤ b) :
    over SumSt.rem s a b (SumSt.between s a c) = SumSt.between s b c := by
  unfold over SumSt.between
  rw [SumSt.fold_rem (hs.slice _ _), nums_take_split s h, List.sum_append, List.length_append, negs_append]
  congr 1
  · ring
  · push_cast; ring
  · push_cast; ring

theorem SumSt.online_eq {s : List (Val K)} (hs : NoInf s) (o : Order) (w i : Nat) :
    online o SumSt.add SumSt.rem SumSt.init w s i = SumSt.between s (winStart w i) (winEnd i) := by
  induction i with
  | zero =>
    unfold online
    rcases Nat.eq_zero_or_pos w with rfl | hw
    · have e : (SumSt.init : SumSt (Val K)) = SumSt.between s (winStart 0 0) (winEnd 0) := by
        unfold SumSt.between winStart winEnd SumSt.init SumSt.mk'; simp
      have e' : winStart 0 0 = winEnd 0 := rfl
      conv_lhs => rw [e, e']
      rw [SumSt.between_add hs (le_refl _), e']
    · have e' : winStart w 0 = 0 := by unfold winStart; omega
      have e : (SumSt.init : SumSt (Val K)) = SumSt.between s 0 0 := by
        unfold SumSt.between SumSt.init SumSt.mk'; simp
      rw [e', e, SumSt.between_add hs (Nat.zero_le _)]
  | succ i ih =>
    have h1 : winStart w i ≤ winStart w (i + 1) := by unfold winStart; omega
    have h2 : winEnd i ≤ winEnd (i + 1) := by unfold winEnd; omega
    unfold online
    rw [ih]
    cases o
    · show over SumSt.add s _ _ (over SumSt.rem s _ _ _) = _
      rw [SumSt.between_rem hs h1, SumSt.between_add hs h2]
    · show over SumSt.rem s _ _ (over SumSt.add s _ _ _) = _
      rw [SumSt.between_add hs h2, SumSt.between_rem hs h1]

theorem SumSt.online_obs {s : Series (Val K)} {w i : Nat} (o : Order) (h : i < s.length) :
    online o SumSt.add SumSt.rem SumSt.init w (s.map clean) i
      = SumSt.mk' (obs s w i).sum (obs s w i).length (negs (obs s w i)) := by
  have hle : winStart w i ≤ winEnd i := by unfold winStart winEnd; omega
  rw [SumSt.online_eq (noInf_clean s), SumSt.between, nums_take_split _ hle, nums_slice h, List.sum_append,
    List.length_append, negs_append]
  congr 1
  · ring
  · push_cast; ring
  · push_cast; ring

/-! ## variance -/

/-- the accumulator of the values `l` -/
def VarSt.of (l : List K) : VarSt (Val K) :=
  ⟨l.length, .fin (l.sum / l.length), .fin ((l.map (· ^ 2)).sum - l.sum ^ 2 / l.length), .fin 0, .fin 0⟩

theorem VarSt.add_of (l : List K) (x : K) : VarSt.add (VarSt.of l) (.fin x) = VarSt.of (l ++ [x]) := by
  have hn : (l.length : K) + 1 ≠ 0 := by positivity
  have hz : (l.length : Int) + 1 ≠ 0 := by positivity
  unfold VarSt.add VarSt.of
  simp only [isNaN_fin, Bool.false_eq_true, if_false, hz, ne_eq, not_false_eq_true, if_true, fin_sub, lit_fin, fin_add,
    List.length_append, List.length_singleton, List.sum_append, List.sum_singleton, List.map_append, List.map_cons, List.map_nil,
    sub_zero, fin_mul]
  push_cast
  rw [fin_div _ _ hn]
  simp only [fin_add, fin_sub, fin_mul]
  rcases List.eq_nil_or_concat l with rfl | ⟨_, _, hl⟩
  · simp
  · have h0 : (l.length : K) ≠ 0 := by
      rw [hl]; simp; positivity
    congr 2
    · field_simp; ring
    · field_simp; ring
    · ring

theorem VarSt.rem_of (l : List K) (x : K) : VarSt.rem (VarSt.of (x :: l)) (.fin x) = VarSt.of l := by
  unfold VarSt.rem VarSt.of
  rcases List.eq_nil_or_concat l with rfl | ⟨_, _, hl⟩
  · simp
  · have h0 : (l.length : K) ≠ 0 := by
      rw [hl]; simp; positivity
    have hn : (l.length : K) + 1 ≠ 0 := by positivity
    have hz : (l.length : Int) ≠ 0 := by exact_mod_cast h0
    have e : (((l.length : Int) + 1 - 1 : Int) : ℚ) = (l.length : ℚ) := by push_cast; ring
    have hz' : ((l.length : Int) + 1 - 1) ≠ 0 := by simpa using hz
    simp only [isNaN_fin, Bool.false_eq_true, if_false, ne_eq, fin_sub, lit_fin, fin_add, List.length_cons,
      List.sum_cons, List.map_cons, sub_zero, fin_mul]
    push_cast
    rw [if_pos hz', fin_div _ _ (by simpa using h0)]
    simp only [fin_add, fin_sub, fin_mul, add_sub_cancel_right]
    congr 2
    · field_simp; ring
    · field_simp; ring
    · ring

theorem VarSt.nan_add (st : VarSt (Val K)) : VarSt.add st .nan = st := by unfold VarSt.add; simp
theorem VarSt.nan_rem (st : VarSt (Val K)) : VarSt.rem st .nan = st := by unfold VarSt.rem; simp

theorem VarSt.fold_add {l : List (Val K)} (h : NoInf l) (a : List K) :
    l.foldl VarSt.add (VarSt.of a) = VarSt.of (a ++ nums l) := by
  induction l generalizing a with
  | nil => simp [nums]
  | cons v l ih =>
    rw [List.foldl_cons]
    rcases h v List.mem_cons_self with rfl | ⟨x, rfl⟩
    · rw [VarSt.nan_add, ih h.tail]; rfl
    · rw [VarSt.add_of, ih h.tail, List.append_assoc]; rfl

theorem VarSt.fold_rem {l : List (Val K)} (h : NoInf l) (a : List K) :
    l.foldl VarSt.rem (VarSt.of (nums l ++ a)) = VarSt.of a := by
  induction l with
  | nil => simp [nums]
  | cons v l ih =>
    rw [List.foldl_cons]
    rcases h v List.mem_cons_self with rfl | ⟨x, rfl⟩
    · rw [VarSt.nan_rem]; exact ih h.tail
    · have e : nums (Val.fin x :: l) ++ a = x :: (nums l ++ a) := rfl
      rw [e, VarSt.rem_of, ih h.tail]

theorem VarSt.online_eq {s : List (Val K)} (hs : NoInf s) {o : Order} {w : Nat} (hw : 1 ≤ w ∨ o = .addFirst) (i : Nat) :
    online o VarSt.add VarSt.rem VarSt.init w s i = VarSt.of (nums (slice s (winStart w i) (winEnd i))) := by
  induction i with
  | zero =>
    have e : (VarSt.init : VarSt (Val K)) = VarSt.of [] := by unfold VarSt.init VarSt.of; simp
    unfold online over
    rw [e, VarSt.fold_add (hs.slice _ _)]; rfl
  | succ i ih =>
    have h1 : winStart w i ≤ winStart w (i + 1) := by unfold winStart; omega
    have h2 : winEnd i ≤ winEnd (i + 1) := by unfold winEnd; omega
    have h3 : winStart w (i + 1) ≤ winEnd (i + 1) := by unfold winStart winEnd; omega
    have h4 : winStart w i ≤ winEnd i := by unfold winStart winEnd; omega
    unfold online
    rw [ih]
    cases o
    · have h5 : winStart w (i + 1) ≤ winEnd i := by
        rcases hw with h | h
        · unfold winStart winEnd; omega
        · exact absurd h (by simp)
      show over VarSt.add s _ _ (over VarSt.rem s _ _ _) = _
      unfold over
      rw [slice_split s h1 h5, nums_append, VarSt.fold_rem (hs.slice _ _), VarSt.fold_add (hs.slice _ _), ← nums_append,
        ← slice_split s h5 h2]
    · show over VarSt.rem s _ _ (over VarSt.add s _ _ _) = _
      unfold over
      rw [VarSt.fold_add (hs.slice _ _), ← nums_append, ← slice_split s h4 h2, slice_split s h1 h3, nums_append,
        VarSt.fold_rem (hs.slice _ _)]

/-- sum of squares minus square of the sum -/
theorem pvar_eq (l : List ℝ) (h : l ≠ []) : pvar l = ((l.map (· ^ 2)).sum - l.sum ^ 2 / l.length) / l.length := by
  have aux : ∀ (m : ℝ) (l : List ℝ), (l.map (fun x => (x - m) ^ 2)).sum = (l.map (· ^ 2)).sum - 2 * m * l.sum + l.length * m ^ 2 := by
    intro m l
    induction l with
    | nil => simp
    | cons x l ih => simp only [List.map_cons, List.sum_cons, ih, List.length_cons]; push_cast; ring
  have h0 : (l.length : ℝ) ≠ 0 := by
    have := List.length_pos_iff.mpr h
    positivity
  unfold pvar
  rw [aux]
  congr 1
  field_simp
  ring

/-! ## the queue of candidates -/

theorem popBack_spec (p : Nat → Bool) (q : List Nat) :
    ∃ t, q = popBack p q ++ t ∧ (∀ x ∈ t, p x = true) ∧ ∀ x, (popBack p q).getLast? = some x → p x = false := by
  unfold popBack
  refine ⟨(q.reverse.takeWhile p).reverse, ?_, ?_, ?_⟩
  · rw [← List.reverse_append, List.takeWhile_append_dropWhile, List.reverse_reverse]
  · intro x hx
    exact List.mem_takeWhile_imp (List.mem_reverse.mp hx)
  · intro x hx
    rw [List.getLast?_reverse] at hx
    have := List.head?_dropWhile_not p q.reverse
    rw [hx] at this
    simpa using this

/-- what is needed of the comparison: `r x y` says that `y` is at least as good as `x` -/
structure Better (ge : Val K → Val K → Bool) (worst : Val K) (r : K → K → Prop) : Prop where
  num : ∀ a b, ge (.fin a) (.fin b) = true ↔ r b a
  worst : ∀ b, ge worst (.fin b) = false
  total : ∀ a b, r a b ∨ r b a
  trans : ∀ a b c, r a b → r b c → r a c
  anti : ∀ a b, r a b → r b a → a = b

/-- a number, as opposed to NaN -/
def isNum (s : List (Val K)) (k : Nat) : Bool := (ix s k).num?.isSome

/-- The queues describe the rows `a … b - 1`. -/
structure MaxInv (r : K → K → Prop) (s : List (Val K)) (a b : Nat) (st : MaxSt) : Prop where
  sorted : st.Q.Pairwise (· < ·)
  range : ∀ q ∈ st.Q, a ≤ q ∧ q < b
  dom : ∀ k, a ≤ k → k < b → ∃ q ∈ st.Q, k ≤ q ∧ ∀ x, ix s k = .fin x → ∃ y, ix s q = .fin y ∧ r x y
  order : st.Q.Pairwise (fun q q' => ∃ x, ix s q = .fin x ∧ ∀ y, ix s q' = .fin y → r y x)
  rows : st.W = List.range' a (b - a)
  count : st.nobs = st.W.countP (isNum s)

variable {ge : Val K → Val K → Bool} {worst : Val K} {r : K → K → Prop}

theorem ix_noInf {s : List (Val K)} (hs : NoInf s) (k : Nat) : ix s k = .nan ∨ ∃ x, ix s k = .fin x := by
  unfold ix
  rcases Nat.lt_or_ge k s.length with h | h
  · rw [List.getD_eq_getElem _ _ h]; exact hs _ (List.getElem_mem h)
  · rw [List.getD_eq_default _ _ h]; exact .inl rfl

theorem MaxInv.push (hb : Better ge worst r) {s : List (Val K)} (hs : NoInf s) {a b : Nat} (hab : a ≤ b) {st : MaxSt}
    (h : MaxInv r s a b st) : MaxInv r s a (b + 1) (st.push ge worst s b) := by
  obtain ⟨t, ht, htp, hlast⟩ := popBack_spec (fun q => ge (if ix s b ==. ix s b then ix s b else worst) (ix s q)
    || (ix s q !=. ix s q)) st.Q
  have hQ : (st.push ge worst s b).Q = popBack (fun q => ge (if ix s b ==. ix s b then ix s b else worst) (ix s q)
    || (ix s q !=. ix s q)) st.Q ++ [b] := rfl
  have hW : (st.push ge worst s b).W = st.W ++ [b] := rfl
  have hN : (st.push ge worst s b).nobs = if ix s b ==. ix s b then st.nobs + 1 else st.nobs := rfl
  generalize popBack _ st.Q = P at *
  have hsub : P.Sublist st.Q := by rw [ht]; exact List.sublist_append_left _ _
  have hmem : ∀ q ∈ P, q ∈ st.Q := fun q hq => hsub.subset hq
  have hPo := h.order.sublist hsub
  -- everything left in the queue beats the new row
  have hbeat : ∀ q ∈ P, ∃ x, ix s q = .fin x ∧ ∀ y, ix s b = .fin y → r y x := by
    rcases List.eq_nil_or_concat P with hP | ⟨P', l, hP⟩
    · intro q hq; rw [hP] at hq; simp at hq
    · rw [List.concat_eq_append] at hP
      have hl := hlast l (by rw [hP]; simp)
      rw [Bool.or_eq_false_iff] at hl
      obtain ⟨x, hx⟩ : ∃ x, ix s l = .fin x := by
        rcases ix_noInf hs l with e | e
        · rw [e] at hl; simp at hl
        · exact e
      have hlx : ∀ y, ix s b = .fin y → r y x := by
        intro y hy
        rw [hy, hx] at hl
        simp only [fin_eq, decide_true, if_true] at hl
        rcases hb.total y x with e | e
        · exact e
        · rw [(hb.num y x).mpr e] at hl; simp at hl
      intro q hq
      rw [hP, List.mem_append, List.mem_singleton] at hq
      rcases hq with hq | rfl
      · rw [hP, List.pairwise_append] at hPo
        obtain ⟨z, hz, hzz⟩ := hPo.2.2 q hq l (List.mem_singleton.mpr rfl)
        exact ⟨z, hz, fun y hy => hb.trans _ _ _ (hlx y hy) (hzz x hx)⟩
      · exact ⟨x, hx, hlx⟩
  refine ⟨?_, ?_, ?_, ?_, ?_, ?_⟩
  · rw [hQ, List.pairwise_append]
    refine ⟨h.sorted.sublist hsub, List.pairwise_singleton _ _, ?_⟩
    intro x hx y hy
    rw [List.mem_singleton.mp hy]
    exact (h.range x (hmem x hx)).2
  · intro q hq
    rw [hQ, List.mem_append, List.mem_singleton] at hq
    rcases hq with hq | rfl
    · have := h.range q (hmem q hq); omega
    · omega
  · intro k hk hkb
    rw [hQ]
    rcases Nat.lt_succ_iff_lt_or_eq.mp hkb with hkb | rfl
    · obtain ⟨q, hq, hkq, hx⟩ := h.dom k hk hkb
      rw [ht, List.mem_append] at hq
      rcases hq with hq | hq
      · exact ⟨q, List.mem_append_left _ hq, hkq, hx⟩
      · refine ⟨b, by simp, by omega, ?_⟩
        intro x hkx
        obtain ⟨y, hy, hxy⟩ := hx x hkx
        have hp := htp q hq
        rw [hy] at hp
        rcases ix_noInf hs b with e | ⟨z, e⟩
        · rw [e] at hp
          simp [hb.worst] at hp
        · rw [e] at hp
          simp only [fin_eq, decide_true, if_true, fin_ne, ne_eq, not_true_eq_false, decide_false, Bool.or_false] at hp
          exact ⟨z, e, hb.trans _ _ _ hxy ((hb.num z y).mp hp)⟩
    · refine ⟨k, by simp, le_refl _, fun x hx => ⟨x, hx, ?_⟩⟩
      rcases hb.total x x with e | e <;> exact e
  · rw [hQ, List.pairwise_append]
    refine ⟨hPo, List.pairwise_singleton _ _, ?_⟩
    intro q hq y hy
    rw [List.mem_singleton.mp hy]
    exact hbeat q hq
  · rw [hW, h.rows, show b + 1 - a = (b - a) + 1 by omega, List.range'_concat]
    congr 2; omega
  · rw [hN, hW, List.countP_append, h.count]
    unfold isNum
    rcases ix_noInf hs b with e | ⟨z, e⟩ <;> simp [e]

theorem foldl_removeMM {s : List (Val K)} (hs : NoInf s) (l : List Nat) (n : Int) :
    l.foldl (removeMM s) n = n - l.countP (isNum s) := by
  induction l generalizing n with
  | nil => simp
  | cons k l ih =>
    rw [List.foldl_cons, ih, List.countP_cons]
    unfold removeMM isNum
    rcases ix_noInf hs k with e | ⟨z, e⟩ <;> simp [e] <;> ring

theorem range'_dropWhile {a b c : Nat} (h : a ≤ b) (h' : b ≤ c) :
    (List.range' a (c - a)).dropWhile (fun q => decide (q < b)) = List.range' b (c - b) := by
  have e : List.range' a (c - a) = List.range' a (b - a) ++ List.range' b (c - b) := by
    have := List.range'_append (s := a) (m := b - a) (n := c - b) (step := 1)
    rw [show a + 1 * (b - a) = b by omega, show b - a + (c - b) = c - a by omega] at this
    exact this.symm
  rw [e, List.dropWhile_append_of_pos]
  · rcases Nat.eq_zero_or_pos (c - b) with h0 | h0
    · rw [h0]; rfl
    · obtain ⟨n, hn⟩ := Nat.exists_eq_succ_of_ne_zero h0.ne'
      rw [hn, List.range'_succ, List.dropWhile_cons_of_neg (by simp)]
  · intro x hx
    rw [List.mem_range'_1] at hx
    simp; omega

theorem MaxInv.pop {s : List (Val K)} (hs : NoInf s) {a a' b : Nat} (h1 : a ≤ a') (h2 : a' ≤ b) {st : MaxSt}
    (h : MaxInv r s a b st) : MaxInv r s a' b (st.pop s a') := by
  have hsub : (st.Q.dropWhile (fun q => decide (q < a'))).Sublist st.Q := List.dropWhile_sublist _
  have hso := h.sorted.sublist hsub
  refine ⟨hso, ?_, ?_, h.order.sublist hsub, ?_, ?_⟩
  · intro q hq
    refine ⟨?_, (h.range q (hsub.subset hq)).2⟩
    have hh := List.head?_dropWhile_not (fun q => decide (q < a')) st.Q
    change q ∈ st.Q.dropWhile (fun q => decide (q < a')) at hq
    generalize st.Q.dropWhile (fun q => decide (q < a')) = D at *
    cases D with
    | nil => simp at hq
    | cons d D =>
      simp at hh
      rcases List.mem_cons.mp hq with rfl | hq
      · exact hh
      · have := (List.pairwise_cons.mp hso).1 q hq
        omega
  · intro k hk hkb
    obtain ⟨q, hq, hkq, hx⟩ := h.dom k (h1.trans hk) hkb
    refine ⟨q, ?_, hkq, hx⟩
    rw [← List.takeWhile_append_dropWhile (p := fun q => decide (q < a')) (l := st.Q), List.mem_append] at hq
    rcases hq with hq | hq
    · have := List.mem_takeWhile_imp hq
      simp at this; omega
    · exact hq
  · show st.W.dropWhile _ = _
    rw [h.rows, range'_dropWhile h1 h2]
  · show (st.W.takeWhile _).foldl (removeMM s) st.nobs = ((st.W.dropWhile _).countP (isNum s) : Int)
    rw [foldl_removeMM hs, h.count]
    conv_lhs => rw [← List.takeWhile_append_dropWhile (p := fun q => decide (q < a')) (l := st.W)]
    rw [List.countP_append, List.takeWhile_append_dropWhile]
    push_cast; ring

theorem MaxInv.online (hb : Better ge worst r) {s : List (Val K)} (hs : NoInf s) (w i : Nat) :
    MaxInv r s (winStart w i) (winEnd i) (onlineMM ge worst w s i) := by
  have pushes : ∀ (n a b : Nat) (st : MaxSt), a ≤ b → MaxInv r s a b st →
      MaxInv r s a (b + n) ((List.range' b n).foldl (MaxSt.push ge worst s) st) := by
    intro n
    induction n with
    | zero => intro a b st _ h; simpa using h
    | succ n ih =>
      intro a b st hab h
      rw [List.range'_succ, List.foldl_cons, show b + (n + 1) = b + 1 + n by omega]
      exact ih a (b + 1) _ (by omega) (h.push hb hs hab)
  induction i with
  | zero =>
    unfold onlineMM
    have hi : MaxInv r s (winStart w 0) (winStart w 0) ⟨[], [], 0⟩ :=
      ⟨List.Pairwise.nil, by simp, by intro k _ _; omega, List.Pairwise.nil, by simp, by simp⟩
    have := pushes (winEnd 0 - winStart w 0) _ _ _ (le_refl _) hi
    have hle : winStart w 0 ≤ winEnd 0 := by unfold winStart winEnd; omega
    rw [Nat.add_sub_cancel' hle] at this
    exact this.pop hs (le_refl _) hle
  | succ i ih =>
    unfold onlineMM
    have := pushes (winEnd (i + 1) - winEnd i) _ _ _ (by unfold winStart winEnd; omega) ih
    rw [Nat.add_sub_cancel' (by unfold winEnd; omega)] at this
    exact this.pop hs (by unfold winStart; omega) (by unfold winStart winEnd; omega)

theorem countP_isNum (s : List (Val K)) (l : List Nat) : l.countP (isNum s) = (nums (l.map (ix s))).length := by
  unfold nums isNum
  induction l with
  | nil => rfl
  | cons k l ih =>
    rw [List.countP_cons, ih, List.map_cons]
    rw [List.filterMap_cons]
    cases e : ix s k <;> simp

theorem ix_clean (s : List (Val K)) (k : Nat) : ix (s.map clean) k = clean (ix s k) := by
  unfold ix
  rcases Nat.lt_or_ge k s.length with h | h
  · rw [List.getD_eq_getElem _ _ (by simpa using h), List.getD_eq_getElem _ _ h, List.getElem_map]
  · rw [List.getD_eq_default _ _ (by simpa using h), List.getD_eq_default _ _ h]; rfl

/-- the best number of the window -/
theorem online_calc (hb : Better ge worst r) (s : Series (Val K)) (w minp i : Nat) :
    (minp ≤ (obs s w i).length ∧ ∃ m ∈ obs s w i, (∀ y ∈ obs s w i, r y m) ∧
      (onlineMM ge worst w (s.map clean) i).calc (s.map clean) minp w i = .fin m) ∨
    ((minp ≤ (obs s w i).length → obs s w i = []) ∧
      (onlineMM ge worst w (s.map clean) i).calc (s.map clean) minp w i = .nan) := by
  have h := MaxInv.online hb (noInf_clean s) w i
  generalize onlineMM ge worst w (s.map clean) i = st at *
  have hc : st.nobs = (obs s w i).length := by
    rw [h.count, countP_isNum, h.rows]
    unfold obs
    rw [← nums_clean ((winIx w i).map (ix s)), List.map_map]
    congr 3
    refine List.map_congr_left fun k _ => ?_
    exact ix_clean s k
  have hcl : ∀ k x, ix (s.map clean) k = .fin x ↔ ix s k = .fin x := by
    intro k x
    rw [ix_clean]
    cases ix s k <;> simp
  unfold MaxSt.calc
  cases hQ : st.Q with
  | nil =>
    refine .inr ⟨fun _ => ?_, rfl⟩
    refine List.eq_nil_iff_forall_not_mem.mpr fun x hx => ?_
    obtain ⟨j, h1, h2, _⟩ := mem_obs.mp hx
    obtain ⟨q, hq, _⟩ := h.dom j (by unfold winStart; omega) (by unfold winEnd; omega)
    rw [hQ] at hq; simp at hq
  | cons q Q =>
    have hqr := h.range q (by rw [hQ]; simp)
    have hlt : 0 < winEnd i - winStart w i := by omega
    have hord := h.order
    rw [hQ, List.pairwise_cons] at hord
    dsimp only
    rw [if_pos hlt, hc]
    by_cases hm : minp ≤ (obs s w i).length
    · rw [if_pos (by exact_mod_cast hm)]
      have best : ∀ y ∈ obs s w i, ∃ m, ix (s.map clean) q = .fin m ∧ r y m := by
        intro y hy
        obtain ⟨j, h1, h2, h3⟩ := mem_obs.mp hy
        obtain ⟨q', hq', _, hd⟩ := h.dom j (by unfold winStart; omega) (by unfold winEnd; omega)
        obtain ⟨z, hz, hyz⟩ := hd y ((hcl j y).mpr h3)
        rw [hQ, List.mem_cons] at hq'
        rcases hq' with rfl | hq'
        · exact ⟨z, hz, hyz⟩
        · obtain ⟨m, hm, hmm⟩ := hord.1 q' hq'
          exact ⟨m, hm, hb.trans _ _ _ hyz (hmm z hz)⟩
      rcases ix_noInf (noInf_clean s) q with e | ⟨m, e⟩
      · refine .inr ⟨fun _ => ?_, e⟩
        refine List.eq_nil_iff_forall_not_mem.mpr fun x hx => ?_
        obtain ⟨m, hm, _⟩ := best x hx
        rw [e] at hm; simp at hm
      · refine .inl ⟨hm, m, ?_, ?_, e⟩
        · refine mem_obs.mpr ⟨q, ?_, ?_, (hcl q m).mp e⟩
          · unfold winEnd at hqr; omega
          · unfold winStart at hqr; omega
        · intro y hy
          obtain ⟨m', hm', hr⟩ := best y hy
          rw [e, fin_inj] at hm'
          rw [hm']; exact hr
    · rw [if_neg (by exact_mod_cast hm)]
      exact .inr ⟨fun h => absurd h hm, rfl⟩

theorem better_max : Better (K := K) (fun a b => a >=. b) (lit (-1) /. lit 0) (· ≤ ·) where
  num a b := by simp
  worst b := by
    simp only [lit_fin]
    rw [show (((0 : ℚ) : K)) = 0 by simp, fin_div_zero]
    simp
    rw [if_neg (by simp)]
    rfl
  total := le_total
  trans _ _ _ := le_trans
  anti _ _ := le_antisymm

theorem better_min : Better (K := K) (fun a b => a <=. b) (lit 1 /. lit 0) (fun x y => y ≤ x) where
  num a b := by simp
  worst b := by
    simp only [lit_fin]
    rw [show (((0 : ℚ) : K)) = 0 by simp, fin_div_zero]
    simp
    rfl
  total a b := le_total b a
  trans _ _ _ h h' := le_trans h' h
  anti _ _ h h' := le_antisymm h' h

end TA
