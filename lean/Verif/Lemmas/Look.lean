import Verif.Lemmas.Shape
import Verif.Lemmas.NaN

/-! # Rows of a pipeline, one at a time -/

set_option linter.unusedSectionVars false

namespace TA

section
variable {F : Type} [Flt F]

theorem ix_zip2 {f : F → F → F} {a b : Series F} {i : Nat} (h : i < a.length) :
    ix (zip2 f a b) i = f (ix a i) (ix b i) := by
  unfold zip2; rw [ix_tab_lt h]

theorem ix_zip3 {f : F → F → F → F} {a b c : Series F} {i : Nat} (h : i < a.length) :
    ix (zip3 f a b c) i = f (ix a i) (ix b i) (ix c i) := by
  unfold zip3; rw [ix_tab_lt h]

theorem ix_sadd {a b : Series F} {i : Nat} (h : i < a.length) : ix (sadd a b) i = (ix a i +. ix b i) := ix_zip2 h
theorem ix_ssub {a b : Series F} {i : Nat} (h : i < a.length) : ix (ssub a b) i = (ix a i -. ix b i) := ix_zip2 h
theorem ix_smul {a b : Series F} {i : Nat} (h : i < a.length) : ix (smul a b) i = (ix a i *. ix b i) := ix_zip2 h
theorem ix_sdiv {a b : Series F} {i : Nat} (h : i < a.length) : ix (sdiv a b) i = (ix a i /. ix b i) := ix_zip2 h
theorem ix_cmul {c : F} {a : Series F} {i : Nat} (h : i < a.length) : ix (cmul c a) i = (c *. ix a i) := ix_map h
theorem ix_csub {c : F} {a : Series F} {i : Nat} (h : i < a.length) : ix (csub c a) i = (c -. ix a i) := ix_map h
theorem ix_cadd {c : F} {a : Series F} {i : Nat} (h : i < a.length) : ix (cadd c a) i = (c +. ix a i) := ix_map h
theorem ix_cdiv {c : F} {a : Series F} {i : Nat} (h : i < a.length) : ix (cdiv c a) i = (c /. ix a i) := ix_map h
theorem ix_mulc {c : F} {a : Series F} {i : Nat} (h : i < a.length) : ix (mulc a c) i = (ix a i *. c) := ix_map h
theorem ix_subc {c : F} {a : Series F} {i : Nat} (h : i < a.length) : ix (subc a c) i = (ix a i -. c) := ix_map h
theorem ix_divc {c : F} {a : Series F} {i : Nat} (h : i < a.length) : ix (divc a c) i = (ix a i /. c) := ix_map h
theorem ix_sabs {a : Series F} {i : Nat} (h : i < a.length) : ix (sabs a) i = Flt.abs (ix a i) := ix_map h

theorem ix_shift {a : Series F} {k : Nat} {v : F} {i : Nat} (h : i < a.length) :
    ix (shift a k v) i = if i < k then v else ix a (i - k) := by
  unfold shift; rw [ix_tab_lt h]

theorem ix_pre {g : List F → F} {s : Series F} {i : Nat} (h : i < s.length) : ix (pre g s) i = g (s.take (i + 1)) := by
  unfold pre; rw [ix_tab_lt h]

theorem ix_roll {w : Nat} {agg : List F → F} {s : Series F} {i : Nat} (h : i < s.length) :
    ix (roll w agg s) i = agg (lastN w ((s.map clean).take (i + 1))) := by
  unfold roll; rw [ix_pre (by simpa using h)]

theorem ix_ewm {a : F} {mp : Nat} {s : Series F} {i : Nat} (h : i < s.length) :
    ix (ewm a mp s) i = ewmOut mp (((s.map clean).take (i + 1)).foldl (ewmStep a) ewmInit) := by
  unfold ewm; rw [ix_pre (by simpa using h)]

theorem length_lastN (w : Nat) (l : List F) : (lastN w l).length = min w l.length := by
  unfold lastN; rw [List.length_drop]; omega

theorem valid_length_le (l : List F) : (valid l).length ≤ l.length := List.length_filter_le ..

/-- two series agree from row `k` on -/
def AgreeFrom (k : Nat) (s t : Series F) : Prop :=
  s.length = t.length ∧ ∀ i, k ≤ i → i < s.length → ix s i = ix t i

theorem AgreeFrom.refl (k : Nat) (s : Series F) : AgreeFrom k s s := ⟨rfl, fun _ _ _ => rfl⟩

theorem AgreeFrom.mono {k k' : Nat} {s t : Series F} (h : AgreeFrom k s t) (hk : k ≤ k') : AgreeFrom k' s t :=
  ⟨h.1, fun i h1 h2 => h.2 i (by omega) h2⟩

theorem AgreeFrom.zip2 {k : Nat} {f : F → F → F} {a b a' b' : Series F} (ha : AgreeFrom k a a')
    (hb : AgreeFrom k b b') (hl : a.length = b.length) : AgreeFrom k (TA.zip2 f a b) (TA.zip2 f a' b') := by
  refine ⟨by simp [ha.1], fun i h1 h2 => ?_⟩
  simp only [length_zip2] at h2
  rw [ix_zip2 h2, ix_zip2 (by rw [← ha.1]; exact h2), ha.2 i h1 h2, hb.2 i h1 (by omega)]

theorem AgreeFrom.map {k : Nat} {f : F → F} {a a' : Series F} (ha : AgreeFrom k a a') :
    AgreeFrom k (a.map f) (a'.map f) := by
  refine ⟨by simp [ha.1], fun i h1 h2 => ?_⟩
  simp only [List.length_map] at h2
  rw [ix_map h2, ix_map (by rw [← ha.1]; exact h2), ha.2 i h1 h2]

theorem AgreeFrom.shift_fill (s : Series F) (k : Nat) (v v' : F) : AgreeFrom k (shift s k v) (shift s k v') := by
  refine ⟨by simp, fun i h1 h2 => ?_⟩
  simp only [length_shift] at h2
  rw [ix_shift h2, ix_shift h2, if_neg (by omega), if_neg (by omega)]

theorem AgreeFrom.roll {k w : Nat} {agg : List F → F} {a a' : Series F} (ha : AgreeFrom k a a') :
    AgreeFrom (k + w - 1) (TA.roll w agg a) (TA.roll w agg a') := by
  refine ⟨by simp [ha.1], fun i h1 h2 => ?_⟩
  simp only [length_roll] at h2
  have h2' : i < a'.length := by rw [← ha.1]; exact h2
  rw [ix_roll h2, ix_roll h2']
  congr 1
  apply series_ext
  · rw [length_lastN, length_lastN]; simp; omega
  · intro j hj
    rw [length_lastN] at hj
    simp only [List.length_take, List.length_map] at hj
    have e : ∀ x : Series F, i < x.length → ix (lastN w ((x.map clean).take (i + 1))) j
        = clean (ix x (min (i + 1) x.length - w + j)) := by
      intro x hx
      unfold lastN
      unfold ix
      simp only [List.getD_eq_getElem?_getD, List.getElem?_drop, List.length_take, List.length_map]
      rw [List.getElem?_take_of_lt (by omega), List.getElem?_map]
      rw [List.getElem?_eq_getElem (by omega)]
      simp
    rw [e _ h2, e _ h2']
    congr 1
    rw [ha.1]
    exact ha.2 _ (by omega) (by omega)

theorem AgreeFrom.drop {k : Nat} {s t : Series F} (h : AgreeFrom k s t) : s.drop k = t.drop k := by
  apply List.ext_getElem
  · simp [h.1]
  · intro i h1 h2
    simp only [List.getElem_drop]
    simp only [List.length_drop] at h1 h2
    have := h.2 (k + i) (by omega) (by omega)
    rwa [ix_lt (by omega), ix_lt (by omega)] at this

/-- a mean over a window with too few observations is undefined -/
theorem rollMean_short {w mp : Nat} {s : Series F} {i : Nat} (h : i < s.length) (hi : i + 1 < mp) :
    ix (rollMean w mp s) i = nan := by
  unfold rollMean
  rw [ix_roll h]
  unfold aggMean
  rw [if_neg]
  have := valid_length_le (lastN w ((s.map clean).take (i + 1)))
  rw [length_lastN] at this
  simp only [List.length_take, List.length_map] at this
  omega

end
end TA
