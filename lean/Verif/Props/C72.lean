import Verif.Lemmas.Online
import Verif.Lemmas.Toy
import Verif.Props.C58

/-!
# C72: what `rolling` computes

pandas does not evaluate each window anew: it moves along the series with an accumulator (`Base/Online.lean`).  In exact arithmetic
the rows are those of the window-by-window definition the other theorems use, for every series (gaps and infinities
included), window and `min_periods`.  Maximum and minimum agree also under rounding.
Sum, mean and standard deviation do not: in float64 what has left the window can still show.
-/

set_option linter.unusedSectionVars false

namespace TA
variable {K : Type} [Field K] [LinearOrder K] [IsStrictOrderedRing K]

/-- C72 (sum) -/
theorem online_sum (w minp : Nat) (s : Series (Val K)) : onlineSum w minp s = rollSum w minp s := by
  refine series_ext (by unfold onlineSum rollSum; rw [length_roll, length_tab]) fun i hi => ?_
  unfold onlineSum at hi ⊢
  rw [length_tab] at hi
  rw [ix_tab_lt hi, SumSt.online_obs _ hi, ix_rollSum hi]
  unfold SumSt.calcSum SumSt.mk'
  dsimp only
  by_cases h0 : (obs s w i).length = 0 ∧ minp = 0
  · rw [if_pos (by simpa using h0), if_pos (by omega), List.eq_nil_of_length_eq_zero h0.1]; simp
  · rw [if_neg (by simpa using h0)]
    by_cases h : minp ≤ (obs s w i).length
    · rw [if_pos (by exact_mod_cast h), if_pos h]
    · rw [if_neg (by exact_mod_cast h), if_neg h]; rfl

theorem negs_zero {l : List K} (h : negs l = 0) : 0 ≤ l.sum := by
  unfold negs at h
  rw [List.countP_eq_zero] at h
  exact List.sum_nonneg fun x hx => not_lt.mp (by simpa using h x hx)

theorem negs_all {l : List K} (h : negs l = l.length) : l.sum ≤ 0 := by
  unfold negs at h
  rw [List.countP_eq_length] at h
  induction l with
  | nil => simp
  | cons x l ih =>
    have h1 : x < 0 := by simpa using h x List.mem_cons_self
    have h2 := ih fun y hy => h y (List.mem_cons_of_mem _ hy)
    rw [List.sum_cons]; linarith

/-- C72 (mean); the clipping of `calc_mean` never acts -/
theorem online_mean (w minp : Nat) (s : Series (Val K)) : onlineMean w minp s = rollMean w minp s := by
  refine series_ext (by unfold onlineMean rollMean; rw [length_roll, length_tab]) fun i hi => ?_
  unfold onlineMean at hi ⊢
  rw [length_tab] at hi
  rw [ix_tab_lt hi, SumSt.online_obs _ hi, ix_rollMean hi]
  generalize obs s w i = l
  unfold SumSt.calcMean SumSt.mk'
  dsimp only
  by_cases h : minp ≤ l.length ∧ 0 < l.length
  · have hl : (0 : K) < l.length := by exact_mod_cast h.2
    rw [if_pos (by exact_mod_cast h), if_pos h]
    simp only [lit_fin]
    push_cast
    rw [fin_div _ _ hl.ne']
    simp only [fin_lt, decide_eq_true_eq]
    rw [if_neg, if_neg]
    · rintro ⟨h1, h2⟩
      have := negs_all (by exact_mod_cast h1)
      exact absurd h2 (not_lt.mpr (div_nonpos_of_nonpos_of_nonneg this hl.le))
    · rintro ⟨h1, h2⟩
      have := negs_zero (by exact_mod_cast h1)
      exact absurd h2 (not_lt.mpr (div_nonneg this hl.le))
  · rw [if_neg (by exact_mod_cast h), if_neg h]; rfl

/-- C72 (maximum) -/
theorem online_max (w minp : Nat) (s : Series (Val K)) : onlineMax w minp s = rollMax w minp s := by
  refine series_ext (by unfold onlineMax rollMax; rw [length_roll, length_tab]) fun i hi => ?_
  unfold onlineMax at hi ⊢
  rw [length_tab] at hi
  rw [ix_tab_lt hi, ix_rollMax hi]
  rcases online_calc better_max s w minp i with ⟨hm, m, h1, h2, e⟩ | ⟨hn, e⟩
  · obtain ⟨m', e', h1', h2'⟩ := maxL_spec (List.ne_nil_of_mem h1)
    rw [e, if_pos hm, e', le_antisymm (h2' m h1) (h2 m' h1')]
  · rw [e]
    split_ifs with h
    · rw [hn h]; rfl
    · rfl

/-- C72 (minimum) -/
theorem online_min (w minp : Nat) (s : Series (Val K)) : onlineMin w minp s = rollMin w minp s := by
  refine series_ext (by unfold onlineMin rollMin; rw [length_roll, length_tab]) fun i hi => ?_
  unfold onlineMin at hi ⊢
  rw [length_tab] at hi
  rw [ix_tab_lt hi, ix_rollMin hi]
  rcases online_calc better_min s w minp i with ⟨hm, m, h1, h2, e⟩ | ⟨hn, e⟩
  · obtain ⟨m', e', h1', h2'⟩ := minL_spec (List.ne_nil_of_mem h1)
    rw [e, if_pos hm, e', le_antisymm (h2 m' h1') (h2' m h1)]
  · rw [e]
    split_ifs with h
    · rw [hn h]; rfl
    · rfl

/-- C72 (standard deviation, `ddof=0`), whichever of the two inner loops comes first -/
theorem online_std (o : Order) (w minp : Nat) (hw : 1 ≤ w ∨ o = .addFirst) (s : Series (Val ℝ)) :
    onlineStd o w minp s = rollStd w minp s := by
  have hlen : (rollStd w minp s).length = s.length := by unfold rollStd roll pre; simp
  refine series_ext (by unfold onlineStd; rw [hlen, length_tab]) fun i hi => ?_
  unfold onlineStd at hi ⊢
  rw [length_tab] at hi
  rw [ix_tab_lt hi, ix_rollStd hi, VarSt.online_eq (noInf_clean s) hw, nums_slice hi]
  generalize obs s w i = l
  have hz : ∀ x : ℝ, 0 ≤ x → zsqrt (.fin x : Val ℝ) = .fin (Real.sqrt x) := by
    intro x hx
    unfold zsqrt
    rw [sqrt_fin hx]
    simp [hx]
  unfold VarSt.calcVar VarSt.of
  dsimp only
  by_cases h : minp ≤ l.length ∧ 0 < l.length
  · have hl : (0 : ℝ) < l.length := by exact_mod_cast h.2
    have hm : max minp 1 ≤ l.length := max_le h.1 h.2
    rw [if_pos ⟨by exact_mod_cast hm, by exact_mod_cast h.2⟩, if_pos h]
    have hp := pvar_eq l (List.ne_nil_of_length_pos h.2)
    by_cases h1 : (l.length : Int) = 1
    · rw [if_pos h1]
      obtain ⟨x, rfl⟩ := List.length_eq_one_iff.mp (by exact_mod_cast h1)
      have : pvar [x] = 0 := by rw [hp]; simp
      rw [this, lit_fin]
      simpa using hz 0 (le_refl 0)
    · rw [if_neg h1]
      simp only [lit_fin]
      push_cast
      rw [fin_div _ _ hl.ne', ← hp]
      simp only [fin_lt, decide_eq_true_eq]
      rw [if_neg (not_lt.mpr (pvar_nonneg l)), hz _ (pvar_nonneg l)]
  · rw [if_neg (by
      rintro ⟨h1, h2⟩
      have h1' : max minp 1 ≤ l.length := by exact_mod_cast h1
      exact h ⟨by omega, by omega⟩), if_neg h]
    unfold zsqrt
    rfl

/-! ## any arithmetic: no look-ahead -/

section causal
variable {F : Type} [Flt F]

theorem over_take {S : Type} (f : S → F → S) (s : List F) {a b n : Nat} (h : b ≤ n) (st : S) :
    over f (s.take n) a b st = over f s a b st := by
  unfold over slice
  rw [List.take_take, min_eq_left h]

theorem online_take {S : Type} (o : Order) (add rem : S → F → S) (init : S) (w : Nat) (s : List F) {i n : Nat} (h : i < n) :
    online o add rem init w (s.take n) i = online o add rem init w s i := by
  induction i with
  | zero => unfold online; rw [over_take _ _ (by unfold winEnd; omega)]
  | succ i ih =>
    unfold online
    rw [ih (by omega)]
    cases o
    · show over add _ _ _ (over rem _ _ _ _) = over add _ _ _ (over rem _ _ _ _)
      rw [over_take _ _ (by unfold winEnd; omega), over_take _ _ (by unfold winStart; omega)]
    · show over rem _ _ _ (over add _ _ _ _) = over rem _ _ _ (over add _ _ _ _)
      rw [over_take _ _ (by unfold winStart; omega), over_take _ _ (by unfold winEnd; omega)]

theorem tab_take {s : List F} {f g : Nat → F} (n : Nat) (h : ∀ i, i < n → i < s.length → f i = g i) :
    tab (s.take n).length f = (tab s.length g).take n := by
  rw [take_tab, List.length_take]
  exact tab_congr rfl fun i hi => h i (by omega) (by omega)

theorem popBack_congr {p p' : Nat → Bool} {q : List Nat} (h : ∀ x ∈ q, p x = p' x) : popBack p q = popBack p' q := by
  unfold popBack
  congr 1
  have h' : ∀ x ∈ q.reverse, p x = p' x := fun x hx => h x (List.mem_reverse.mp hx)
  generalize q.reverse = r at h'
  induction r with
  | nil => rfl
  | cons a r ih =>
    rw [List.dropWhile_cons, List.dropWhile_cons, h' a List.mem_cons_self, ih fun x hx => h' x (List.mem_cons_of_mem _ hx)]

/-- all rows in the queues come before `b` -/
def MaxSt.Below (b : Nat) (st : MaxSt) : Prop := (∀ q ∈ st.Q, q < b) ∧ ∀ q ∈ st.W, q < b

theorem MaxSt.push_take (ge : F → F → Bool) (worst : F) (s : List F) {b n : Nat} (h : b < n) {st : MaxSt} (hb : st.Below b) :
    st.push ge worst (s.take n) b = st.push ge worst s b ∧ (st.push ge worst s b).Below (b + 1) := by
  refine ⟨?_, ?_, ?_⟩
  · unfold MaxSt.push
    rw [ix_take_lt h]
    dsimp only
    congr 2
    refine popBack_congr fun q hq => ?_
    rw [ix_take_lt (by have := hb.1 q hq; omega)]
  · intro q hq
    change q ∈ popBack _ _ ++ [b] at hq
    rw [List.mem_append, List.mem_singleton] at hq
    rcases hq with hq | rfl
    · obtain ⟨t, ht, _⟩ := popBack_spec (fun q => ge (if ix s b ==. ix s b then ix s b else worst) (ix s q)
        || (ix s q !=. ix s q)) st.Q
      have := hb.1 q (by rw [ht]; exact List.mem_append_left _ hq)
      omega
    · omega
  · intro q hq
    change q ∈ st.W ++ [b] at hq
    rw [List.mem_append, List.mem_singleton] at hq
    rcases hq with hq | rfl
    · have := hb.2 q hq; omega
    · omega

theorem MaxSt.pop_take (s : List F) {a b n : Nat} (h : b ≤ n) {st : MaxSt} (hb : st.Below b) :
    st.pop (s.take n) a = st.pop s a ∧ (st.pop s a).Below b := by
  refine ⟨?_, fun q hq => hb.1 q ((List.dropWhile_sublist _).subset hq), fun q hq => hb.2 q ((List.dropWhile_sublist _).subset hq)⟩
  unfold MaxSt.pop
  congr 1
  have hmem : ∀ q ∈ st.W.takeWhile (fun q => decide (q < a)), q < n := fun q hq => by
    have := hb.2 q ((List.takeWhile_sublist _).subset hq); omega
  generalize st.W.takeWhile _ = l at hmem
  generalize st.nobs = m
  induction l generalizing m with
  | nil => rfl
  | cons k l ih =>
    rw [List.foldl_cons, List.foldl_cons, ih fun q hq => hmem q (List.mem_cons_of_mem _ hq)]
    unfold removeMM
    rw [ix_take_lt (hmem k List.mem_cons_self)]

theorem onlineMM_take (ge : F → F → Bool) (worst : F) (w : Nat) (s : List F) {i n : Nat} (h : i < n) :
    onlineMM ge worst w (s.take n) i = onlineMM ge worst w s i ∧ (onlineMM ge worst w s i).Below (winEnd i) := by
  have pushes : ∀ (m b : Nat) (st : MaxSt), b + m ≤ n → st.Below b →
      (List.range' b m).foldl (MaxSt.push ge worst (s.take n)) st = (List.range' b m).foldl (MaxSt.push ge worst s) st ∧
      ((List.range' b m).foldl (MaxSt.push ge worst s) st).Below (b + m) := by
    intro m
    induction m with
    | zero => intro b st _ hb; exact ⟨rfl, hb⟩
    | succ m ih =>
      intro b st hbn hb
      obtain ⟨h1, h2⟩ := MaxSt.push_take ge worst s (n := n) (by omega) hb
      obtain ⟨h3, h4⟩ := ih (b + 1) _ (by omega) h2
      rw [List.range'_succ, List.foldl_cons, List.foldl_cons, h1, h3, show b + (m + 1) = b + 1 + m by omega]
      exact ⟨rfl, h4⟩
  induction i with
  | zero =>
    have he : winStart w 0 + (winEnd 0 - winStart w 0) = winEnd 0 := by unfold winStart winEnd; omega
    obtain ⟨h1, h2⟩ := pushes (winEnd 0 - winStart w 0) (winStart w 0) ⟨[], [], 0⟩ (by rw [he]; unfold winEnd; omega)
      ⟨by simp, by simp⟩
    rw [he] at h2
    obtain ⟨h3, h4⟩ := MaxSt.pop_take s (a := winStart w 0) (n := n) (by unfold winEnd; omega) h2
    unfold onlineMM
    rw [h1, h3]
    exact ⟨rfl, h4⟩
  | succ i ih =>
    obtain ⟨e, hb⟩ := ih (by omega)
    have he : winEnd i + (winEnd (i + 1) - winEnd i) = winEnd (i + 1) := by unfold winEnd; omega
    obtain ⟨h1, h2⟩ := pushes (winEnd (i + 1) - winEnd i) (winEnd i) _ (by rw [he]; unfold winEnd; omega) hb
    rw [he] at h2
    obtain ⟨h3, h4⟩ := MaxSt.pop_take s (a := winStart w (i + 1)) (n := n) (by unfold winEnd; omega) h2
    unfold onlineMM
    rw [e, h1, h3]
    exact ⟨rfl, h4⟩

theorem onlineMM_calc_take (ge : F → F → Bool) (worst : F) (w minp : Nat) (s : List F) {i n : Nat} (h : i < n) :
    (onlineMM ge worst w (s.take n) i).calc (s.take n) minp w i = (onlineMM ge worst w s i).calc s minp w i := by
  obtain ⟨e, hb⟩ := onlineMM_take ge worst w s h
  rw [e]
  unfold MaxSt.calc
  cases hQ : (onlineMM ge worst w s i).Q with
  | nil => rfl
  | cons q Q =>
    have := hb.1 q (by rw [hQ]; simp)
    dsimp only
    rw [ix_take_lt (by unfold winEnd at this; omega)]

/-- C72: pandas' way of computing rolling sums, means, maxima and minima reads no later row, in any arithmetic: cutting the series
after `n` rows cuts the result after `n` rows. -/
theorem online_no_lookahead (w minp : Nat) (s : Series F) (n : Nat) :
    onlineSum w minp (s.take n) = (onlineSum w minp s).take n ∧
    onlineMean w minp (s.take n) = (onlineMean w minp s).take n ∧
    onlineMax w minp (s.take n) = (onlineMax w minp s).take n ∧
    onlineMin w minp (s.take n) = (onlineMin w minp s).take n := by
  refine ⟨?_, ?_, ?_, ?_⟩
  · unfold onlineSum
    exact tab_take n fun i hi _ => by rw [List.map_take, online_take _ _ _ _ _ _ hi]
  · unfold onlineMean
    exact tab_take n fun i hi _ => by rw [List.map_take, online_take _ _ _ _ _ _ hi]
  · unfold onlineMax
    exact tab_take n fun i hi _ => by rw [List.map_take, onlineMM_calc_take _ _ _ _ _ hi]
  · unfold onlineMin
    exact tab_take n fun i hi _ => by rw [List.map_take, onlineMM_calc_take _ _ _ _ _ hi]

/-- C72: nor do rolling standard deviations -/
theorem online_std_no_lookahead {F : Type} [FltFn F] (o : Order) (w minp : Nat) (s : Series F) (n : Nat) :
    onlineStd o w minp (s.take n) = (onlineStd o w minp s).take n := by
  unfold onlineStd
  exact tab_take n fun i hi _ => by rw [List.map_take, online_take _ _ _ _ _ _ hi]

end causal

/-! ## rounded arithmetic -/

theorem onlineMM_rval (R : Rounding K) (ge : Val K → Val K → Bool) (worst : Val K) (w : Nat) (s : List (Val K)) (i : Nat) :
    @onlineMM (Rval R) _ ge worst w s i = @onlineMM (Val K) _ ge worst w s i := by
  induction i with
  | zero => rfl
  | succ i ih =>
    exact congrArg (fun st => @MaxSt.pop (Val K) _ s (winStart w (i + 1))
      ((List.range' (winEnd i) (winEnd (i + 1) - winEnd i)).foldl (@MaxSt.push (Val K) _ ge worst s) st)) ih

/-- C72: the largest and the smallest value of each window come out the same in rounded arithmetic -/
theorem online_max_rounded (R : Rounding K) (w minp : Nat) (s : Series (Rval R)) : onlineMax w minp s = rollMax w minp s := by
  have e : (lit (-1) /. lit 0 : Rval R) = (lit (-1) /. lit 0 : Val K) := by
    show R.rnd (Val.div (R.rd ((-1 : ℚ) : K)) (R.rd ((0 : ℚ) : K))) = Val.div (Val.fin ((-1 : ℚ) : K)) (Val.fin ((0 : ℚ) : K))
    push_cast
    rw [R.odd, R.one, R.zero]
    show R.rnd (Val.div (Val.fin (-1)) (Val.fin 0)) = _
    have h : Val.div (Val.fin (-1 : K)) (Val.fin 0) = .ninf := by
      simp only [Val.div, if_true, neg_eq_zero, one_ne_zero, if_false]
      rw [if_neg (by simp)]
    rw [h]
    rfl
  have h := online_max (K := K) w minp s
  unfold onlineMax at h ⊢
  rw [e]
  refine Eq.trans ?_ h
  refine tab_congr rfl fun i _ => ?_
  exact congrArg (MaxSt.calc (s.map clean) minp w i) (onlineMM_rval R _ _ w (s.map clean) i)

theorem online_min_rounded (R : Rounding K) (w minp : Nat) (s : Series (Rval R)) : onlineMin w minp s = rollMin w minp s := by
  have e : (lit 1 /. lit 0 : Rval R) = (lit 1 /. lit 0 : Val K) := by
    show R.rnd (Val.div (R.rd ((1 : ℚ) : K)) (R.rd ((0 : ℚ) : K))) = Val.div (Val.fin ((1 : ℚ) : K)) (Val.fin ((0 : ℚ) : K))
    push_cast
    rw [R.one, R.zero]
    show R.rnd (Val.div (Val.fin 1) (Val.fin 0)) = _
    have h : Val.div (Val.fin (1 : K)) (Val.fin 0) = .pinf := by simp [Val.div]
    rw [h]
    rfl
  have h := online_min (K := K) w minp s
  unfold onlineMin at h ⊢
  rw [e]
  refine Eq.trans ?_ h
  refine tab_congr rfl fun i _ => ?_
  exact congrArg (MaxSt.calc (s.map clean) minp w i) (onlineMM_rval R _ _ w (s.map clean) i)

/-- C72: in float64 the moving average of the closes 3, 2^53, 1, 1 with window 2 ends with 3/2, although both closes of that window
are 1; started one row later it ends with 1. -/
theorem online_mean_float64 :
    onlineMean 2 2 [f64 3, f64 (2 ^ 53), f64 1, f64 1]
      = [nan, f64 (2 ^ 52 + 2), f64 (2 ^ 52), f64 (3 / 2)] ∧
    onlineMean 2 2 [f64 (2 ^ 53), f64 1, f64 1] = [nan, f64 (2 ^ 52), f64 1] ∧
    rollMean 2 2 [f64 3, f64 (2 ^ 53), f64 1, f64 1] = [nan, f64 (2 ^ 52 + 2), f64 (2 ^ 52), f64 1] := by
  decide +kernel

example : onlineMax 2 1 ([.fin 1, .nan, .fin 3, .fin 2, .pinf, .nan, .fin 0] : Series (Val ℚ))
    = [.fin 1, .fin 1, .fin 3, .fin 3, .fin 2, .nan, .fin 0] := by decide +kernel

example : onlineMean 2 1 ([.fin 1, .nan, .fin 3, .fin 2, .pinf, .nan, .fin (-1)] : Series (Val ℚ))
    = [.fin 1, .fin 1, .fin 3, .fin (5/2), .fin 2, .nan, .fin (-1)] := by decide +kernel

example : onlineSum 2 0 (qs [1, 5, 3]) = qs [1, 6, 8] := by decide +kernel

end TA
