import Verif.Lemmas.Shape
import Verif.Lemmas.NewEq

/-! # ADX and prefixes -/

set_option linter.unusedSectionVars false

namespace TA
variable {F : Type} [Flt F]

theorem valid_append (a b : List F) : valid (a ++ b) = valid a ++ valid b := by simp [valid]

theorem valid_take_le (s : List F) {k m : Nat} (h : k ≤ m) :
    (valid (s.take k)).length ≤ (valid (s.take m)).length := by
  have : s.take m = s.take k ++ (s.take m).drop k := by
    conv_lhs => rw [← List.take_append_drop k (s.take m)]
    rw [List.take_take, min_eq_left h]
  rw [this, valid_append, List.length_append]
  omega

/-- the seed reads only a prefix that contains `w` observations -/
theorem seed_take (x : Series F) (w m : Nat) (h : w ≤ (valid (x.take m)).length) :
    (sdropna (x.take m)).take w = (sdropna x).take w := by
  unfold sdropna
  conv_rhs => rw [← List.take_append_drop m x, valid_append]
  rw [List.take_append_of_le_length h]

theorem wilderAt_take (x : Series F) (w m : Nat) (h : w ≤ (valid (x.take (w + 1))).length) (hm : w + 1 ≤ m) :
    ∀ i, w + i < m → ADX.wilderAt (x.take m) w i = ADX.wilderAt x w i
  | 0, _ => by
    unfold ADX.wilderAt
    rw [seed_take x w m (le_trans h (valid_take_le x hm))]
  | i + 1, hi => by
    unfold ADX.wilderAt
    simp only [wilderAt_take x w m h hm i (by omega)]
    rw [ix_take_lt hi]

theorem take_eq_tab (s : List F) {w : Nat} (h : w ≤ s.length) : s.take w = tab w (ix s) := by
  conv_lhs => rw [← tab_ix s]
  rw [take_tab, min_eq_left h]

theorem adxAt_congr {dx dx' : Series F} {w : Nat} : ∀ {i : Nat}, (∀ j, j < i → ix dx j = ix dx' j) →
    i ≤ dx.length → i ≤ dx'.length → ADX.adxAt dx w i = ADX.adxAt dx' w i
  | 0, _, _, _ => rfl
  | i + 1, h, h1, h2 => by
    unfold ADX.adxAt
    split_ifs with h3 h4
    · rfl
    · rw [take_eq_tab _ (by omega), take_eq_tab _ (by omega)]
      congr 1
      exact tab_congr rfl (fun j hj => h j (by omega))
    · rw [adxAt_congr (fun j hj => h j (by omega)) (by omega) (by omega), h i (by omega)]

theorem take_range (h l c : Series F) (m : Nat) :
    (ADX.range h l c).take m = ADX.range (h.take m) (l.take m) (c.take m) := by
  unfold ADX.range; rw [take_ssub, take_getMax, take_getMin, take_shift]

theorem take_pos (h l : Series F) (m : Nat) : (ADX.pos h l).take m = ADX.pos (h.take m) (l.take m) := by
  unfold ADX.pos ADX.dm; rw [take_zip2, take_ssub, take_ssub, take_shift, take_shift]

theorem take_neg (h l : Series F) (m : Nat) : (ADX.neg h l).take m = ADX.neg (h.take m) (l.take m) := by
  unfold ADX.neg ADX.dm; rw [take_zip2, take_ssub, take_ssub, take_shift, take_shift]

theorem ix_wilder {x : Series F} {w i : Nat} (h : i < x.length - (w - 1) - 1) :
    ix (ADX.wilder x w) i = ADX.wilderAt x w i := by
  unfold ADX.wilder
  simp only
  rw [ix_tab_lt (by omega)]
  split_ifs with h1
  · rw [h1]
  · rfl

theorem length_pos (h l : Series F) : (ADX.pos h l).length = h.length := by simp [ADX.pos, ADX.dm]
theorem length_neg (h l : Series F) (hl : l.length = h.length) : (ADX.neg h l).length = h.length := by
  simp [ADX.neg, ADX.dm, hl]

/-- The first `w + 1` rows of `x` contain at least `w` observations. -/
def Seeded (w : Nat) (x : Series F) : Prop := w ≤ (valid (x.take (w + 1))).length

section
variable {h l c : Series F} {w m : Nat} {b : Bool}

theorem place_take (hw : 1 ≤ w) (hc : c.length = h.length) (hm : m ≤ h.length)
    (x : Series F) (hx : x.length = h.length)
    (hs : w + 1 < m → Seeded w ((ADX.range h l c).take m) ∧ Seeded w (x.take m)) :
    (ADX.place c.length w (ADX.wilder (ADX.range h l c) w) (ADX.wilder x w)).take m =
      ADX.place (c.take m).length w (ADX.wilder ((ADX.range h l c).take m) w) (ADX.wilder (x.take m) w) := by
  unfold ADX.place
  rw [take_tab]
  apply tab_congr
  · simp
  · intro k hk
    simp only [length_wilder, length_range, List.length_take]
    by_cases h1 : w + 1 ≤ k
    · have hs' := hs (by omega)
      unfold Seeded at hs'
      simp only [List.take_take, min_eq_left (show w + 1 ≤ m by omega)] at hs'
      rw [if_pos ⟨h1, by omega⟩, if_pos ⟨h1, by omega⟩]
      rw [ix_wilder (by simp; omega), ix_wilder (by omega), ix_wilder (by simp; omega),
        ix_wilder (by simp; omega), wilderAt_take _ _ _ hs'.1 (by omega) _ (by omega),
        wilderAt_take _ _ _ hs'.2 (by omega) _ (by omega)]
    · rw [if_neg (fun h => h1 h.1), if_neg (fun h => h1 h.1)]

/-- all three series of ADX are seeded -/
def ADX.Seeded (h l c : Series F) (w : Nat) : Prop :=
  TA.Seeded w (ADX.range h l c) ∧ TA.Seeded w (ADX.pos h l) ∧ TA.Seeded w (ADX.neg h l)

theorem dx_take (hl : l.length = h.length) (hm : m ≤ h.length)
    (hs : ADX.Seeded (h.take m) (l.take m) (c.take m) w) (i : Nat) (hi : i < m - (w - 1) - 1) (hw : w + 1 ≤ m) :
    ix (ADX.dx (ADX.run (h.take m) (l.take m) (c.take m) w b)) i = ix (ADX.dx (ADX.run h l c w b)) i := by
  obtain ⟨h1, h2, h3⟩ := hs
  rw [← take_range] at h1
  rw [← take_pos] at h2
  rw [← take_neg] at h3
  unfold TA.Seeded at h1 h2 h3
  simp only [List.take_take, min_eq_left hw] at h1 h2 h3
  unfold ADX.dx
  rw [ix_tab_lt (by simp [ADX.run]; omega), ix_tab_lt (by simp [ADX.run]; omega)]
  have hw0 : w + i < m := by omega
  have e1 : ix (ADX.run (h.take m) (l.take m) (c.take m) w b).trs i = ix (ADX.run h l c w b).trs i := by
    simp only [ADX.run, ← take_range]
    rw [ix_wilder (by simp; omega), ix_wilder (by simp; omega), wilderAt_take _ _ _ h1 hw _ hw0]
  have e2 : ix (ADX.run (h.take m) (l.take m) (c.take m) w b).dip i = ix (ADX.run h l c w b).dip i := by
    simp only [ADX.run, ← take_pos]
    rw [ix_wilder (by simp [length_pos]; omega), ix_wilder (by simp [length_pos]; omega),
      wilderAt_take _ _ _ h2 hw _ hw0]
  have e3 : ix (ADX.run (h.take m) (l.take m) (c.take m) w b).din i = ix (ADX.run h l c w b).din i := by
    simp only [ADX.run, ← take_neg]
    rw [ix_wilder (by simp [length_neg _ _ hl]; omega), ix_wilder (by simp [length_neg _ _ hl]; omega),
      wilderAt_take _ _ _ h3 hw _ hw0]
  simp only [e1, e2, e3]

theorem adx_take (hl : l.length = h.length) (hc : c.length = h.length) (hm : m ≤ h.length) (hw : 1 ≤ w)
    (hs : ADX.Seeded (h.take m) (l.take m) (c.take m) w) (out : Series F)
    (ho : (ADX.run (h.take m) (l.take m) (c.take m) w b).adx = .ok out) :
    ∃ out', (ADX.run h l c w b).adx = .ok out' ∧ out'.take m = out := by
  unfold ADX.adx at ho ⊢
  simp only [ADX.run, length_wilder, length_range, List.length_take, min_eq_left hm] at ho ⊢
  split_ifs at ho with h1
  rw [if_neg (by omega)]
  cases ho
  refine ⟨_, rfl, ?_⟩
  rw [take_checkFillna_const]
  congr 1
  apply series_ext
  · simp; omega
  · intro i hi
    have hi' : i < m := by simp at hi; omega
    rw [ix_take_lt hi']
    by_cases h2 : i < w - 1
    · rw [ix_append_left (by simpa using h2), ix_append_left (by simpa using h2)]
    · rw [ix_append_right (by simp; omega), ix_append_right (by simp; omega)]
      simp only [List.length_replicate]
      rw [ix_tab_lt (by omega), ix_tab_lt (by omega)]
      symm
      apply adxAt_congr
      · intro j hj
        exact dx_take (b := b) hl hm hs j (by omega) (by omega)
      · simp [ADX.dx]; omega
      · simp [ADX.dx]; omega

end

end TA
