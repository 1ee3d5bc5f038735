import Verif.Model.Wrapper
import Mathlib.Tactic.SplitIfs

/-! # Lengths and prefixes: every primitive commutes with `List.take` -/

set_option linter.unusedSectionVars false

namespace TA
variable {F : Type} [Flt F]

@[simp] theorem length_tab {α : Type} (n : Nat) (f : Nat → α) : (tab n f).length = n := by simp [tab]

theorem tab_congr {α : Type} {n m : Nat} {f g : Nat → α} (h : n = m) (hf : ∀ i, i < n → f i = g i) :
    tab n f = tab m g := by
  subst h
  unfold tab
  apply List.map_congr_left
  intro i hi
  exact hf i (List.mem_range.mp hi)

theorem take_tab {α : Type} (n m : Nat) (f : Nat → α) : (tab n f).take m = tab (min m n) f := by
  simp [tab, ← List.map_take, List.take_range]

@[simp] theorem getElem_tab {α : Type} (n : Nat) (f : Nat → α) (i : Nat) (h : i < (tab n f).length) :
    (tab n f)[i] = f i := by simp [tab]

theorem ix_tab (n : Nat) (f : Nat → F) (i : Nat) : ix (tab n f) i = if i < n then f i else nan := by
  unfold ix
  rw [List.getD_eq_getElem?_getD]
  split_ifs with h
  · rw [List.getElem?_eq_getElem (by simpa using h)]; simp
  · rw [List.getElem?_eq_none (by simpa using h)]; simp

theorem ix_tab_lt {n : Nat} {f : Nat → F} {i : Nat} (h : i < n) : ix (tab n f) i = f i := by
  rw [ix_tab, if_pos h]

theorem ix_ge {s : Series F} {i : Nat} (h : s.length ≤ i) : ix s i = nan := by
  unfold ix; rw [List.getD_eq_getElem?_getD, List.getElem?_eq_none h]; rfl

theorem ix_lt {s : Series F} {i : Nat} (h : i < s.length) : ix s i = s[i] := by
  unfold ix; rw [List.getD_eq_getElem?_getD, List.getElem?_eq_getElem h]; rfl

theorem tab_ix (s : Series F) : tab s.length (ix s) = s := by
  apply List.ext_getElem
  · simp
  · intro i h1 h2
    rw [getElem_tab, ix_lt h2]

theorem series_ext {s t : Series F} (hl : s.length = t.length) (h : ∀ i, i < s.length → ix s i = ix t i) :
    s = t := by
  rw [← tab_ix s, ← tab_ix t]
  exact tab_congr hl h

theorem ix_take (s : Series F) (m i : Nat) : ix (s.take m) i = if i < m then ix s i else nan := by
  unfold ix
  simp only [List.getD_eq_getElem?_getD, List.getElem?_take]
  split_ifs <;> simp

theorem ix_take_lt {s : Series F} {m i : Nat} (h : i < m) : ix (s.take m) i = ix s i := by
  rw [ix_take, if_pos h]

theorem ix_map {f : F → F} {s : Series F} {i : Nat} (h : i < s.length) : ix (s.map f) i = f (ix s i) := by
  rw [ix_lt (by simpa using h), ix_lt h]; simp

theorem ix_append_left {s t : Series F} {i : Nat} (h : i < s.length) : ix (s ++ t) i = ix s i := by
  rw [ix_lt (by simp; omega), ix_lt h, List.getElem_append_left h]

theorem ix_append_right {s t : Series F} {i : Nat} (h : s.length ≤ i) : ix (s ++ t) i = ix t (i - s.length) := by
  unfold ix
  simp only [List.getD_eq_getElem?_getD]
  rw [List.getElem?_append_right h]

theorem ix_replicate {n i : Nat} {v : F} (h : i < n) : ix (List.replicate n v) i = v := by
  rw [ix_lt (by simpa using h)]; simp

/-! ## lengths -/

@[simp] theorem length_pre (g : List F → F) (s : Series F) : (pre g s).length = s.length := by simp [pre]
@[simp] theorem length_zip2 (f : F → F → F) (a b : Series F) : (zip2 f a b).length = a.length := by simp [zip2]
@[simp] theorem length_zip3 (f : F → F → F → F) (a b c : Series F) : (zip3 f a b c).length = a.length := by
  simp [zip3]
@[simp] theorem length_sadd (a b : Series F) : (sadd a b).length = a.length := by simp [sadd]
@[simp] theorem length_ssub (a b : Series F) : (ssub a b).length = a.length := by simp [ssub]
@[simp] theorem length_smul (a b : Series F) : (smul a b).length = a.length := by simp [smul]
@[simp] theorem length_sdiv (a b : Series F) : (sdiv a b).length = a.length := by simp [sdiv]
@[simp] theorem length_cmul (c : F) (a : Series F) : (cmul c a).length = a.length := by simp [cmul]
@[simp] theorem length_csub (c : F) (a : Series F) : (csub c a).length = a.length := by simp [csub]
@[simp] theorem length_cadd (c : F) (a : Series F) : (cadd c a).length = a.length := by simp [cadd]
@[simp] theorem length_cdiv (c : F) (a : Series F) : (cdiv c a).length = a.length := by simp [cdiv]
@[simp] theorem length_mulc (a : Series F) (c : F) : (mulc a c).length = a.length := by simp [mulc]
@[simp] theorem length_subc (a : Series F) (c : F) : (subc a c).length = a.length := by simp [subc]
@[simp] theorem length_divc (a : Series F) (c : F) : (divc a c).length = a.length := by simp [divc]
@[simp] theorem length_sabs (a : Series F) : (sabs a).length = a.length := by simp [sabs]
@[simp] theorem length_shift (a : Series F) (k : Nat) (f : F) : (shift a k f).length = a.length := by simp [shift]
@[simp] theorem length_shiftInt (a : Series F) (k : Int) : (shiftInt a k).length = a.length := by simp [shiftInt]
@[simp] theorem length_sdiff (a : Series F) : (sdiff a).length = a.length := by simp [sdiff]
@[simp] theorem length_roll (w : Nat) (g : List F → F) (s : Series F) : (roll w g s).length = s.length := by
  simp [roll]
@[simp] theorem length_rollSum (w m : Nat) (s : Series F) : (rollSum w m s).length = s.length := by simp [rollSum]
@[simp] theorem length_rollMean (w m : Nat) (s : Series F) : (rollMean w m s).length = s.length := by
  simp [rollMean]
@[simp] theorem length_rollMax (w m : Nat) (s : Series F) : (rollMax w m s).length = s.length := by simp [rollMax]
@[simp] theorem length_rollMin (w m : Nat) (s : Series F) : (rollMin w m s).length = s.length := by simp [rollMin]
@[simp] theorem length_rollApply (f : List F → F) (w m : Nat) (s : Series F) :
    (rollApply f w m s).length = s.length := by simp [rollApply]
@[simp] theorem length_rollStd {F : Type} [FltFn F] (w m : Nat) (s : Series F) :
    (rollStd w m s).length = s.length := by simp [rollStd]
@[simp] theorem length_ewm (a : F) (m : Nat) (s : Series F) : (ewm a m s).length = s.length := by simp [ewm]
@[simp] theorem length_cumsum (s : Series F) : (cumsum s).length = s.length := by simp [cumsum]
@[simp] theorem length_ffill (s : Series F) : (ffill s).length = s.length := by simp [ffill]
@[simp] theorem length_bfill (s : Series F) : (bfill s).length = s.length := by simp [bfill]
@[simp] theorem length_fillConst (v : F) (s : Series F) : (fillConst v s).length = s.length := by simp [fillConst]
@[simp] theorem length_fillSer (t s : Series F) : (fillSer t s).length = s.length := by simp [fillSer]
@[simp] theorem length_replaceInf (s : Series F) : (replaceInf s).length = s.length := by simp [replaceInf]
@[simp] theorem length_pctChange (s : Series F) : (pctChange s).length = s.length := by simp [pctChange]
@[simp] theorem length_npRoll (s : Series F) (k : Nat) : (npRoll s k).length = s.length := by simp [npRoll]
@[simp] theorem length_sma (s : Series F) (w : Nat) (b : Bool) : (sma s w b).length = s.length := by simp [sma]
@[simp] theorem length_ema (s : Series F) (w : Nat) (b : Bool) : (ema s w b).length = s.length := by simp [ema]
@[simp] theorem length_getMax (a b : Series F) : (getMax a b).length = a.length := by simp [getMax]
@[simp] theorem length_getMin (a b : Series F) : (getMin a b).length = a.length := by simp [getMin]
@[simp] theorem length_trueRange (h l c : Series F) : (trueRange h l c).length = h.length := by simp [trueRange]
@[simp] theorem length_checkFillna (b : Bool) (v : Fill F) (s : Series F) :
    (checkFillna b v s).length = s.length := by
  unfold checkFillna
  cases b <;> cases v <;> simp
@[simp] theorem length_gtFlag (a b : Series F) : (gtFlag a b).length = a.length := by simp [gtFlag]
@[simp] theorem length_ltFlag (a b : Series F) : (ltFlag a b).length = a.length := by simp [ltFlag]

/-! ## `take` -/

theorem take_pre (g : List F → F) (s : Series F) (m : Nat) : (pre g s).take m = pre g (s.take m) := by
  unfold pre
  rw [take_tab]
  apply tab_congr
  · simp
  · intro i hi
    rw [List.take_take]
    congr 2
    omega

theorem take_zip2 (f : F → F → F) (a b : Series F) (m : Nat) :
    (zip2 f a b).take m = zip2 f (a.take m) (b.take m) := by
  unfold zip2
  rw [take_tab]
  apply tab_congr
  · simp
  · intro i hi
    rw [ix_take_lt (by omega), ix_take_lt (by omega)]

theorem take_zip3 (f : F → F → F → F) (a b c : Series F) (m : Nat) :
    (zip3 f a b c).take m = zip3 f (a.take m) (b.take m) (c.take m) := by
  unfold zip3
  rw [take_tab]
  apply tab_congr
  · simp
  · intro i hi
    rw [ix_take_lt (by omega), ix_take_lt (by omega), ix_take_lt (by omega)]

theorem take_shift (s : Series F) (k : Nat) (v : F) (m : Nat) :
    (shift s k v).take m = shift (s.take m) k v := by
  unfold shift
  rw [take_tab]
  apply tab_congr
  · simp
  · intro i hi
    rw [ix_take_lt (by omega)]

theorem take_shiftInt (s : Series F) (k : Int) (hk : 0 ≤ k) (m : Nat) :
    (shiftInt s k).take m = shiftInt (s.take m) k := by
  unfold shiftInt
  rw [take_tab]
  apply tab_congr
  · simp
  · intro i hi
    rw [ix_take_lt (by omega)]

theorem take_mapF (f : F → F) (s : Series F) (m : Nat) : (s.map f).take m = (s.take m).map f := by
  rw [List.map_take]

theorem take_sadd (a b : Series F) (m : Nat) : (sadd a b).take m = sadd (a.take m) (b.take m) := take_zip2 ..
theorem take_ssub (a b : Series F) (m : Nat) : (ssub a b).take m = ssub (a.take m) (b.take m) := take_zip2 ..
theorem take_smul (a b : Series F) (m : Nat) : (smul a b).take m = smul (a.take m) (b.take m) := take_zip2 ..
theorem take_sdiv (a b : Series F) (m : Nat) : (sdiv a b).take m = sdiv (a.take m) (b.take m) := take_zip2 ..
theorem take_cmul (c : F) (a : Series F) (m : Nat) : (cmul c a).take m = cmul c (a.take m) := take_mapF ..
theorem take_csub (c : F) (a : Series F) (m : Nat) : (csub c a).take m = csub c (a.take m) := take_mapF ..
theorem take_cadd (c : F) (a : Series F) (m : Nat) : (cadd c a).take m = cadd c (a.take m) := take_mapF ..
theorem take_cdiv (c : F) (a : Series F) (m : Nat) : (cdiv c a).take m = cdiv c (a.take m) := take_mapF ..
theorem take_mulc (a : Series F) (c : F) (m : Nat) : (mulc a c).take m = mulc (a.take m) c := take_mapF ..
theorem take_subc (a : Series F) (c : F) (m : Nat) : (subc a c).take m = subc (a.take m) c := take_mapF ..
theorem take_divc (a : Series F) (c : F) (m : Nat) : (divc a c).take m = divc (a.take m) c := take_mapF ..
theorem take_sabs (a : Series F) (m : Nat) : (sabs a).take m = sabs (a.take m) := take_mapF ..
theorem take_replaceInf (a : Series F) (m : Nat) : (replaceInf a).take m = replaceInf (a.take m) := take_mapF ..
theorem take_fillConst (v : F) (a : Series F) (m : Nat) : (fillConst v a).take m = fillConst v (a.take m) :=
  take_mapF ..
theorem take_fillSer (t s : Series F) (m : Nat) : (fillSer t s).take m = fillSer (t.take m) (s.take m) :=
  take_zip2 ..
theorem take_sdiff (a : Series F) (m : Nat) : (sdiff a).take m = sdiff (a.take m) := by
  unfold sdiff; rw [take_ssub, take_shift]
theorem take_roll (w : Nat) (g : List F → F) (s : Series F) (m : Nat) :
    (roll w g s).take m = roll w g (s.take m) := by
  unfold roll; rw [take_pre, take_mapF]
theorem take_rollSum (w k : Nat) (s : Series F) (m : Nat) : (rollSum w k s).take m = rollSum w k (s.take m) :=
  take_roll ..
theorem take_rollMean (w k : Nat) (s : Series F) (m : Nat) : (rollMean w k s).take m = rollMean w k (s.take m) :=
  take_roll ..
theorem take_rollMax (w k : Nat) (s : Series F) (m : Nat) : (rollMax w k s).take m = rollMax w k (s.take m) :=
  take_roll ..
theorem take_rollMin (w k : Nat) (s : Series F) (m : Nat) : (rollMin w k s).take m = rollMin w k (s.take m) :=
  take_roll ..
theorem take_rollApply (f : List F → F) (w k : Nat) (s : Series F) (m : Nat) :
    (rollApply f w k s).take m = rollApply f w k (s.take m) := take_roll ..
theorem take_rollStd {F : Type} [FltFn F] (w k : Nat) (s : Series F) (m : Nat) :
    (rollStd w k s).take m = rollStd w k (s.take m) := take_roll ..
theorem take_ewm (a : F) (k : Nat) (s : Series F) (m : Nat) : (ewm a k s).take m = ewm a k (s.take m) := by
  unfold ewm; rw [take_pre, take_mapF]
theorem take_sma (s : Series F) (w : Nat) (b : Bool) (m : Nat) : (sma s w b).take m = sma (s.take m) w b :=
  take_roll ..
theorem take_ema (s : Series F) (w : Nat) (b : Bool) (m : Nat) : (ema s w b).take m = ema (s.take m) w b :=
  take_ewm ..
theorem take_cumsum (s : Series F) (m : Nat) : (cumsum s).take m = cumsum (s.take m) := take_pre ..
theorem take_ffill (s : Series F) (m : Nat) : (ffill s).take m = ffill (s.take m) := take_pre ..
theorem take_pctChange (s : Series F) (m : Nat) : (pctChange s).take m = pctChange (s.take m) := by
  unfold pctChange; rw [take_subc, take_sdiv, take_shift, take_ffill]
theorem take_getMax (a b : Series F) (m : Nat) : (getMax a b).take m = getMax (a.take m) (b.take m) :=
  take_zip2 ..
theorem take_getMin (a b : Series F) (m : Nat) : (getMin a b).take m = getMin (a.take m) (b.take m) :=
  take_zip2 ..
theorem take_trueRange (h l c : Series F) (m : Nat) :
    (trueRange h l c).take m = trueRange (h.take m) (l.take m) (c.take m) := take_zip3 ..
theorem take_gtFlag (a b : Series F) (m : Nat) : (gtFlag a b).take m = gtFlag (a.take m) (b.take m) :=
  take_zip2 ..
theorem take_ltFlag (a b : Series F) (m : Nat) : (ltFlag a b).take m = ltFlag (a.take m) (b.take m) :=
  take_zip2 ..

theorem take_checkFillna_false (v : Fill F) (s : Series F) (m : Nat) :
    (checkFillna false v s).take m = checkFillna false v (s.take m) := by simp [checkFillna]

theorem take_checkFillna_const (b : Bool) (v : F) (s : Series F) (m : Nat) :
    (checkFillna b (.const v) s).take m = checkFillna b (.const v) (s.take m) := by
  unfold checkFillna
  cases b
  · rfl
  · simp only [if_true]
    rw [take_fillConst, take_ffill, take_replaceInf]

/-! ## loops -/

theorem iter_congr {S : Type} {f g : Nat → S → S} {init : S} :
    ∀ {n : Nat}, (∀ k, k < n → ∀ s, f k s = g k s) → iter f init n = iter g init n
  | 0, _ => rfl
  | n + 1, h => by
    show f n (iter f init n) = g n (iter g init n)
    rw [iter_congr (n := n) (fun k hk => h k (by omega)), h n (by omega)]

theorem iter_succ {S : Type} (f : Nat → S → S) (init : S) (n : Nat) :
    iter f init (n + 1) = f n (iter f init n) := rfl

end TA
