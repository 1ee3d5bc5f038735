import Verif.Lemmas.Take
import Verif.Model.Catalogue
import Verif.Spec.Memory

/-! # Removing old rows: every window primitive commutes with it, up to its memory

`Tail k m t s`: `t` is `s` without its first `k` rows, except possibly in the first `m` rows of `t`. -/

set_option linter.unusedSectionVars false

namespace TA
variable {F : Type} [Flt F]

structure Tail (k m : Nat) (t s : Series F) : Prop where
  len : s.length = k + t.length
  row : ∀ i, m ≤ i → i < t.length → ix t i = ix s (k + i)

variable {k m m' : Nat} {t s t' s' : Series F}

theorem Tail.mono (h : Tail k m t s) (hm : m ≤ m') : Tail k m' t s := ⟨h.len, fun i h1 h2 => h.row i (by omega) h2⟩

theorem Tail.append (old t : Series F) : Tail old.length 0 t (old ++ t) :=
  ⟨by simp, fun i _ hi => by rw [ix_append_right (by omega), Nat.add_sub_cancel_left]⟩

theorem Tail.map (h : Tail k m t s) (f : F → F) : Tail k m (t.map f) (s.map f) := by
  refine ⟨by simp [h.len], fun i h1 h2 => ?_⟩
  rw [List.length_map] at h2
  rw [ix_map h2, ix_map (by rw [h.len]; omega), h.row i h1 h2]

theorem Tail.tab {n n' : Nat} (hn : n = k + n') {f g : Nat → F} (h : ∀ i, m ≤ i → i < n' → f i = g (k + i)) :
    Tail k m (tab n' f) (tab n g) := by
  refine ⟨by simp [hn], fun i h1 h2 => ?_⟩
  rw [length_tab] at h2
  rw [ix_tab_lt h2, ix_tab_lt (by omega), h i h1 h2]

theorem Tail.zip2 (h : Tail k m t s) (h' : Tail k m' t' s') (hl : t'.length = t.length) (f : F → F → F) :
    Tail k (max m m') (zip2 f t t') (zip2 f s s') :=
  Tail.tab h.len fun i h1 h2 => by rw [h.row i (by omega) h2, h'.row i (by omega) (by omega)]

theorem Tail.zip3 {m'' : Nat} {t'' s'' : Series F} (h : Tail k m t s) (h' : Tail k m' t' s') (h'' : Tail k m'' t'' s'')
    (hl : t'.length = t.length) (hl' : t''.length = t.length) (f : F → F → F → F) :
    Tail k (max (max m m') m'') (zip3 f t t' t'') (zip3 f s s' s'') :=
  Tail.tab h.len fun i h1 h2 => by
    rw [h.row i (by omega) h2, h'.row i (by omega) (by omega), h''.row i (by omega) (by omega)]

/-- `shift` forward; the vacated rows may be filled differently -/
theorem Tail.shift (h : Tail k m t s) (j : Nat) (v v' : F) : Tail k (m + j) (shift t j v) (shift s j v') :=
  Tail.tab h.len fun i h1 h2 => by
    rw [if_neg (by omega), if_neg (by omega), h.row (i - j) (by omega) (by omega)]
    congr 1; omega

theorem Tail.shiftInt (h : Tail k m t s) (j : Int) (hj : 0 ≤ j) : Tail k (m + j.toNat) (shiftInt t j) (shiftInt s j) :=
  Tail.tab h.len fun i h1 h2 => by
    rw [if_neg (by omega), if_neg (by omega), h.row _ (by omega) (by omega)]
    congr 1; omega

theorem ix_drop (s : Series F) (j i : Nat) : ix (s.drop j) i = ix s (j + i) := by
  unfold ix; simp [List.getD_eq_getElem?_getD]

theorem lastN_eq (w i : Nat) (s : Series F) (hw : w ≤ i + 1) (hi : i < s.length) :
    lastN w (s.take (i + 1)) = tab w fun j => ix s (i + 1 - w + j) := by
  have hlen : (s.take (i + 1)).length = i + 1 := by simp; omega
  unfold lastN
  rw [hlen]
  refine series_ext (by simp [hlen]; omega) fun j hj => ?_
  rw [List.length_drop, hlen] at hj
  rw [ix_tab_lt (by omega), ix_drop, ix_take_lt (by omega)]

theorem Tail.roll (h : Tail k m t s) (w : Nat) (g : List F → F) : Tail k (m + (w - 1)) (roll w g t) (roll w g s) := by
  have hc := h.map clean
  unfold TA.roll TA.pre
  refine Tail.tab hc.len fun i h1 h2 => ?_
  show g (lastN w _) = g (lastN w _)
  rw [lastN_eq _ _ _ (by omega) h2, lastN_eq _ _ _ (by omega) (by rw [hc.len]; omega)]
  refine congrArg g (tab_congr rfl fun j hj => ?_)
  rw [hc.row _ (by omega) (by omega)]
  congr 1; omega

section
variable (h : Tail k m t s) (h' : Tail k m' t' s') (hl : t'.length = t.length)
include h

theorem Tail.rollSum (w p : Nat) : Tail k (m + (w - 1)) (rollSum w p t) (rollSum w p s) := h.roll w _
theorem Tail.rollMean (w p : Nat) : Tail k (m + (w - 1)) (rollMean w p t) (rollMean w p s) := h.roll w _
theorem Tail.rollMax (w p : Nat) : Tail k (m + (w - 1)) (rollMax w p t) (rollMax w p s) := h.roll w _
theorem Tail.rollMin (w p : Nat) : Tail k (m + (w - 1)) (rollMin w p t) (rollMin w p s) := h.roll w _
theorem Tail.rollApply (f : List F → F) (w p : Nat) :
    Tail k (m + (w - 1)) (rollApply f w p t) (rollApply f w p s) := h.roll w _

include h' hl
theorem Tail.sadd : Tail k (max m m') (sadd t t') (sadd s s') := h.zip2 h' hl _
theorem Tail.ssub : Tail k (max m m') (ssub t t') (ssub s s') := h.zip2 h' hl _
theorem Tail.smul : Tail k (max m m') (smul t t') (smul s s') := h.zip2 h' hl _
theorem Tail.sdiv : Tail k (max m m') (sdiv t t') (sdiv s s') := h.zip2 h' hl _
end

theorem Tail.rollStd {F : Type} [FltFn F] {t s : Series F} (h : Tail k m t s) (w p : Nat) :
    Tail k (m + (w - 1)) (rollStd w p t) (rollStd w p s) := h.roll w _

theorem Tail.cmul (h : Tail k m t s) (c : F) : Tail k m (cmul c t) (cmul c s) := h.map _
theorem Tail.csub (h : Tail k m t s) (c : F) : Tail k m (csub c t) (csub c s) := h.map _
theorem Tail.cadd (h : Tail k m t s) (c : F) : Tail k m (cadd c t) (cadd c s) := h.map _
theorem Tail.cdiv (h : Tail k m t s) (c : F) : Tail k m (cdiv c t) (cdiv c s) := h.map _
theorem Tail.mulc (h : Tail k m t s) (c : F) : Tail k m (mulc t c) (mulc s c) := h.map _
theorem Tail.subc (h : Tail k m t s) (c : F) : Tail k m (subc t c) (subc s c) := h.map _
theorem Tail.divc (h : Tail k m t s) (c : F) : Tail k m (divc t c) (divc s c) := h.map _
theorem Tail.sabs (h : Tail k m t s) : Tail k m (sabs t) (sabs s) := h.map _
theorem Tail.fillConst (h : Tail k m t s) (v : F) : Tail k m (fillConst v t) (fillConst v s) := h.map _
theorem Tail.sdiff (h : Tail k m t s) : Tail k (m + 1) (sdiff t) (sdiff s) :=
  (h.ssub (h.shift 1 nan nan) (by simp)).mono (by omega)

/-- from the relation to the two output columns -/
theorem Tail.drop (h : Tail k m t s) : (s.drop k).drop m = t.drop m := by
  refine series_ext (by simp [h.len]; omega) fun i hi => ?_
  simp only [List.length_drop, h.len] at hi
  rw [ix_drop, ix_drop, ix_drop, h.row (m + i) (by omega) (by omega)]

end TA
