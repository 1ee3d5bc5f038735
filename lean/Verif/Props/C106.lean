import Verif.Model.Negative
import Verif.Props.C27
import Verif.Props.C40
import Verif.Props.C42
import Verif.Lemmas.Toy

/-! # C106: negative windows -/

set_option linter.unusedSectionVars false

namespace TA

section loop
variable {F : Type} [Flt F]

theorem foldlM_tab {α : Type} (f : α → Int → Except PyErr α) (a : Int) (P : Nat → α) : ∀ m : Nat,
    (∀ j, j < m → f (P j) (a + (j : Int)) = .ok (P (j + 1))) → (tab m fun j => a + (j : Int)).foldlM f (P 0) = .ok (P m)
  | 0, _ => rfl
  | m + 1, h => by
    have ih := foldlM_tab f a P m fun j hj => h j (by omega)
    unfold tab at ih ⊢
    rw [List.range_succ, List.map_append, List.foldlM_append, ih]
    show (List.foldlM f (P m) [a + (m : Int)]) = _
    rw [List.foldlM_cons, h m (by omega)]
    rfl

theorem getAt_nat {a : List F} {i : Int} {k : Nat} (hi : i = k) (hk : k < a.length) : getAt a i = .ok (ix a k) := by
  subst hi
  have : pyAt a.length (k : Int) = some k := by
    unfold pyAt
    rw [if_pos (by omega), if_pos (by omega)]
    simp
  unfold getAt
  rw [this]

theorem getAt_neg {a : List F} {i : Int} {k : Nat} (h0 : i < 0) (hi : (a.length : Int) + i = k) : getAt a i = .ok (ix a k) := by
  have : pyAt a.length i = some k := by
    unfold pyAt
    rw [if_neg (by omega), if_pos (by omega), hi]
    simp
  unfold getAt
  rw [this]

theorem setAt_nat {a : List F} {i : Int} {k : Nat} (x : F) (hi : i = k) (hk : k < a.length) : setAt a i x = .ok (a.set k x) := by
  subst hi
  have : pyAt a.length (k : Int) = some k := by
    unfold pyAt
    rw [if_pos (by omega), if_pos (by omega)]
    simp
  unfold setAt
  rw [this]

theorem setAt_neg {a : List F} {i : Int} {k : Nat} (x : F) (h0 : i < 0) (hi : (a.length : Int) + i = k) :
    setAt a i x = .ok (a.set k x) := by
  have : pyAt a.length i = some k := by
    unfold pyAt
    rw [if_neg (by omega), if_pos (by omega), hi]
    simp
  unfold setAt
  rw [this]

theorem replicate_tab (n : Nat) (x : F) : List.replicate n x = tab n fun _ => x := by
  unfold tab
  simp

/-! ## ATR -/

theorem tabLen (n : Nat) (f : Nat → F) : (tab n f).length = n := by simp [tab]

/-- one step of the recurrence of the average true range with a window of any sign -/
def atrStep (w : Int) (x t : F) : F := ((x *. intF (w - 1)) +. t) /. intF w

/-- C106. The statement-by-statement model and the model of the other properties agree on positive windows. -/
theorem atrZ_pos (high low close : Series F) (hh : high.length = close.length) (w : Nat) (hw : 1 ≤ w) (fillna : Bool) :
    atrZ high low close (w : Int) fillna = averageTrueRange high low close w fillna := by
  have htr : (trueRange high low (shift close 1)).length = close.length := by simp [hh]
  unfold atrZ averageTrueRange ATR.run
  generalize trueRange high low (shift close 1) = tr at htr
  generalize hn : close.length = n at *
  rw [max_eq_left hw, if_neg (by omega : ¬ w = 0)]
  by_cases hlt : n < w
  · rw [if_pos hlt]
    have : setAt (List.replicate n (lit 0 : F)) ((w : Int) - 1) (smean (sliceTo tr w)) = .error .indexError := by
      unfold setAt pyAt
      rw [List.length_replicate, if_pos (by omega), if_neg (by omega)]
    dsimp only
    rw [this]
    rfl
  · rw [if_neg hlt]
    dsimp only
    set R : Nat → F := fun i => iter (ATR.step tr w) (lit 0) (i + 1) with hR
    set P : Nat → List F := fun j => tab n fun i => if i < w + j then R i else lit 0 with hP
    have hzero : ∀ i, i + 1 < w → R i = lit 0 := by
      intro i hi
      show ATR.step tr w i _ = _
      unfold ATR.step
      rw [if_pos hi]
    have hseed : R (w - 1) = smean (tr.take w) := by
      show ATR.step tr w (w - 1) _ = _
      unfold ATR.step
      rw [if_neg (by omega), if_pos (by omega)]
    have hrec : ∀ i, w ≤ i → R i = atrStep (w : Int) (R (i - 1)) (ix tr i) := by
      intro i hi
      obtain ⟨k, rfl⟩ : ∃ k, i = k + 1 := ⟨i - 1, by omega⟩
      show ATR.step tr w (k + 1) (R k) = _
      unfold ATR.step atrStep
      rw [if_neg (by omega), if_neg (by omega)]
      have e : ((w : Int) - 1) = ((w - 1 : Nat) : Int) := by omega
      rw [e]
      rfl
    have h0 : setAt (List.replicate n (lit 0 : F)) ((w : Int) - 1) (smean (sliceTo tr w)) = .ok (P 0) := by
      rw [setAt_nat _ (by omega : (w : Int) - 1 = (w - 1 : Nat)) (by simp; omega)]
      refine congrArg Except.ok ?_
      rw [replicate_tab, set_tab]
      refine series_ext (by simp [hP]) fun i hi => ?_
      have hi : i < n := by simpa using hi
      rw [ix_tab_lt hi]
      show _ = ix (tab n _) i
      rw [ix_tab_lt hi]
      have hs : sliceTo tr (w : Int) = tr.take w := by
        unfold sliceTo
        rw [if_pos (by omega)]
        simp
      rw [hs]
      by_cases h1 : i = w - 1
      · rw [if_pos h1, if_pos (by omega), h1, hseed]
      · rw [if_neg h1]
        split_ifs with h2
        · rw [hzero i (by omega)]
        · rfl
    have hlen : (P 0).length = n := tabLen _ _
    have hloop : (pyRange (w : Int) (P 0).length).foldlM (ATR.body tr (w : Int)) (P 0) = .ok (P (n - w)) := by
      unfold pyRange
      rw [hlen, show (((n : Int) - (w : Int)).toNat) = n - w by omega]
      refine foldlM_tab _ _ P (n - w) fun j hj => ?_
      have hl : (P j).length = n := tabLen _ _
      unfold ATR.body
      rw [getAt_nat (a := P j) (k := w + j - 1) (by omega) (by omega), getAt_nat (a := tr) (k := w + j) (by omega) (by omega)]
      show setAt (P j) _ _ = _
      rw [setAt_nat (k := w + j) _ (by omega) (by omega)]
      refine congrArg Except.ok ?_
      have hx : ix (P j) (w + j - 1) = R (w + j - 1) := by
        show ix (tab n _) _ = _
        rw [ix_tab_lt (by omega), if_pos (by omega)]
      rw [hx]
      show (tab n _).set _ _ = tab n _
      rw [set_tab]
      refine series_ext (by simp) fun i hi => ?_
      have hi : i < n := by simpa using hi
      rw [ix_tab_lt hi, ix_tab_lt hi]
      by_cases h1 : i = w + j
      · rw [if_pos h1, if_pos (by omega), h1, hrec (w + j) (by omega)]
        rfl
      · rw [if_neg h1]
        by_cases h2 : i < w + j
        · rw [if_pos h2, if_pos (by omega)]
        · rw [if_neg h2, if_neg (by omega)]
    rw [h0]
    show (do let atr ← (pyRange (w : Int) (P 0).length).foldlM (ATR.body tr (w : Int)) (P 0); return _) = _
    rw [hloop]
    show Except.ok _ = Except.ok _
    congr 2
    refine series_ext (by simp [hP]) fun i hi => ?_
    have hi : i < n := by simpa [hP] using hi
    show ix (tab n _) i = _
    rw [ix_tab_lt hi, ix_tab_lt hi, if_pos (by omega)]

theorem foldl_take_succ {g : F → F → F} (l : List F) (x : F) {j : Nat} (hj : j < l.length) :
    (l.take (j + 1)).foldl g x = g ((l.take j).foldl g x) (ix l j) := by
  rw [List.take_succ_eq_append_getElem hj, List.foldl_append, ix_lt hj]
  rfl

/-- C106. The average true range with a negative window `−k` and enough rows answers: it begins with the mean of all but the last `k` true
ranges, runs the recurrence over the last `k` rows and then over all rows from the start, and these second values are the answer.  With
`k` rows or fewer it raises IndexError. -/
theorem atrZ_neg (high low close : Series F) (hh : high.length = close.length) (k : Nat) (hk : 1 ≤ k) (fillna : Bool) :
    atrZ high low close (-(k : Int)) fillna =
      if close.length ≤ k then .error .indexError
      else .ok (checkFillna fillna (.const (lit 0)) (tab close.length fun i =>
        let tr := trueRange high low (shift close 1)
        (tr.drop (close.length - k) ++ tr.take (i + 1)).foldl (atrStep (-(k : Int))) (smean (tr.take (close.length - k))))) := by
  have htr : (trueRange high low (shift close 1)).length = close.length := by simp [hh]
  unfold atrZ
  generalize trueRange high low (shift close 1) = tr at htr
  generalize hn : close.length = n at *
  dsimp only
  by_cases hlt : n ≤ k
  · rw [if_pos hlt]
    have : setAt (List.replicate n (lit 0 : F)) (-(k : Int) - 1) (smean (sliceTo tr (-(k : Int)))) = .error .indexError := by
      unfold setAt pyAt
      rw [List.length_replicate, if_neg (by omega), if_neg (by omega)]
    rw [this]
    rfl
  · rw [if_neg hlt]
    set g : F → F → F := atrStep (-(k : Int)) with hg
    set seed : F := smean (tr.take (n - k)) with hseed
    set Y : Nat → F := fun p => ((tr.drop (n - k)).take (p + 1 + k - n)).foldl g seed with hY
    set X : Nat → F := fun i => (tr.take (i + 1)).foldl g (Y (n - 1)) with hX
    set P : Nat → List F := fun j => tab n fun p => if p < j - k then X p else if p + 1 + k < n then lit 0
      else if p + k < n + min j k then Y p else lit 0 with hP
    have hPl : ∀ j, (P j).length = n := fun j => tabLen _ _
    have hY0 : Y (n - k - 1) = seed := by
      show (List.take _ _).foldl g seed = _
      rw [show n - k - 1 + 1 + k - n = 0 by omega]
      rfl
    have hYs : ∀ p, n ≤ p + k → p < n → Y p = g (Y (p - 1)) (ix tr p) := by
      intro p h1 h2
      show (List.take _ _).foldl g seed = g ((List.take _ _).foldl g seed) _
      rw [show p + 1 + k - n = (p + k - n) + 1 by omega, show p - 1 + 1 + k - n = p + k - n by omega,
        foldl_take_succ _ _ (by simp; omega)]
      congr 1
      rw [ix_lt (by simp; omega), ix_lt (by omega), List.getElem_drop]
      congr 1
      omega
    have hX0 : X 0 = g (Y (n - 1)) (ix tr 0) := by
      show (tr.take 1).foldl g _ = _
      rw [foldl_take_succ _ _ (by omega)]
      rfl
    have hXs : ∀ m, m + 1 < n → X (m + 1) = g (X m) (ix tr (m + 1)) := fun m hm => foldl_take_succ _ _ (by omega)
    have h0 : setAt (List.replicate n (lit 0 : F)) (-(k : Int) - 1) (smean (sliceTo tr (-(k : Int)))) = .ok (P 0) := by
      rw [setAt_neg (k := n - k - 1) _ (by omega) (by simp; omega)]
      refine congrArg Except.ok ?_
      rw [replicate_tab, set_tab]
      refine series_ext (by simp [hP]) fun i hi => ?_
      have hi : i < n := by simpa using hi
      rw [ix_tab_lt hi]
      show _ = ix (tab n _) i
      rw [ix_tab_lt hi]
      have hs : sliceTo tr (-(k : Int)) = tr.take (n - k) := by
        unfold sliceTo
        rw [if_neg (by omega), htr]
        congr 1
        omega
      rw [hs]
      by_cases h1 : i = n - k - 1
      · rw [if_pos h1, if_neg (by omega), if_neg (by omega), if_pos (by omega), h1, hY0]
      · rw [if_neg h1, if_neg (by omega)]
        split_ifs with h2 h3
        · rfl
        · omega
        · rfl
    have hstep : ∀ j, j < n + k → ATR.body tr (-(k : Int)) (P j) (-(k : Int) + (j : Int)) = .ok (P (j + 1)) := by
      intro j hj
      unfold ATR.body
      by_cases hjk : j < k
      · rw [getAt_neg (a := P j) (k := n - k + j - 1) (by omega) (by rw [hPl]; omega),
          getAt_neg (a := tr) (k := n - k + j) (by omega) (by omega)]
        show setAt (P j) _ _ = _
        rw [setAt_neg (k := n - k + j) _ (by omega) (by rw [hPl]; omega)]
        refine congrArg Except.ok ?_
        have hx : ix (P j) (n - k + j - 1) = Y (n - k + j - 1) := by
          show ix (tab n _) _ = _
          rw [ix_tab_lt (by omega), if_neg (by omega), if_neg (by omega), if_pos (by omega)]
        rw [hx]
        show (tab n _).set _ _ = tab n _
        rw [set_tab]
        refine series_ext (by simp) fun i hi => ?_
        have hi : i < n := by simpa using hi
        rw [ix_tab_lt hi, ix_tab_lt hi]
        by_cases h1 : i = n - k + j
        · rw [if_pos h1, if_neg (by omega), if_neg (by omega), if_pos (by omega), h1,
            hYs (n - k + j) (by omega) (by omega)]
          rfl
        · rw [if_neg h1, if_neg (show ¬ i < j - k by omega), if_neg (show ¬ i < j + 1 - k by omega)]
          by_cases h2 : i + 1 + k < n
          · rw [if_pos h2, if_pos h2]
          · rw [if_neg h2, if_neg h2]
            by_cases h3 : i + k < n + min j k
            · rw [if_pos h3, if_pos (by omega)]
            · rw [if_neg h3, if_neg (by omega)]
      · obtain ⟨m, rfl⟩ : ∃ m, j = k + m := ⟨j - k, by omega⟩
        have hm : m < n := by omega
        have hx : getAt (P (k + m)) (-(k : Int) + ((k + m : Nat) : Int) - 1) = .ok (if m = 0 then Y (n - 1) else X (m - 1)) := by
          by_cases h0 : m = 0
          · rw [if_pos h0, getAt_neg (k := n - 1) (by omega) (by rw [hPl]; omega)]
            show Except.ok (ix (tab n _) _) = _
            rw [ix_tab_lt (by omega), if_neg (by omega), if_neg (by omega), if_pos (by omega)]
          · rw [if_neg h0, getAt_nat (k := m - 1) (by omega) (by rw [hPl]; omega)]
            show Except.ok (ix (tab n _) _) = _
            rw [ix_tab_lt (by omega), if_pos (by omega)]
        rw [hx, getAt_nat (a := tr) (k := m) (by omega) (by omega)]
        show setAt (P (k + m)) _ _ = _
        rw [setAt_nat (k := m) _ (by omega) (by rw [hPl]; omega)]
        refine congrArg Except.ok ?_
        have hv : X m = g (if m = 0 then Y (n - 1) else X (m - 1)) (ix tr m) := by
          by_cases h0 : m = 0
          · rw [if_pos h0, h0, hX0]
          · obtain ⟨q, rfl⟩ : ∃ q, m = q + 1 := ⟨m - 1, by omega⟩
            rw [if_neg h0, hXs q (by omega)]
            rfl
        show (tab n _).set _ _ = tab n _
        rw [set_tab]
        refine series_ext (by simp) fun i hi => ?_
        have hi : i < n := by simpa using hi
        rw [ix_tab_lt hi, ix_tab_lt hi]
        by_cases h1 : i = m
        · rw [if_pos h1, if_pos (show i < k + m + 1 - k by omega), h1, hv]
          rfl
        · rw [if_neg h1]
          by_cases h2 : i < m
          · rw [if_pos (show i < k + m - k by omega), if_pos (show i < k + m + 1 - k by omega)]
          · rw [if_neg (show ¬ i < k + m - k by omega), if_neg (show ¬ i < k + m + 1 - k by omega)]
            by_cases h3 : i + 1 + k < n
            · rw [if_pos h3, if_pos h3]
            · rw [if_neg h3, if_neg h3, if_pos (show i + k < n + min (k + m) k by omega),
                if_pos (show i + k < n + min (k + m + 1) k by omega)]
    have hloop : (pyRange (-(k : Int)) (P 0).length).foldlM (ATR.body tr (-(k : Int))) (P 0) = .ok (P (n + k)) := by
      unfold pyRange
      rw [hPl, show (((n : Int) - (-(k : Int))).toNat) = n + k by omega]
      exact foldlM_tab _ _ P (n + k) hstep
    rw [h0]
    show (do let atr ← (pyRange (-(k : Int)) (P 0).length).foldlM (ATR.body tr (-(k : Int))) (P 0); return _) = _
    rw [hloop]
    show Except.ok _ = Except.ok _
    congr 2
    refine series_ext (by simp [hP]) fun i hi => ?_
    have hi : i < n := by simpa [hP] using hi
    show ix (tab n _) i = _
    rw [ix_tab_lt hi, ix_tab_lt hi, if_pos (by omega), List.foldl_append]
    show (tr.take (i + 1)).foldl g (List.foldl g seed (List.take _ _)) = _
    rw [List.take_of_length_le (by simp; omega)]

end loop

section rational
open Finset
variable {K : Type} [Field K] [LinearOrder K] [IsStrictOrderedRing K]

theorem atrStep_fin {k : Nat} (hk : 1 ≤ k) (x t : K) :
    atrStep (-(k : Int)) (Val.fin x) (Val.fin t) = .fin (((k : K) + 1) / k * x - t / k) := by
  have hk' : (k : K) ≠ 0 := by exact_mod_cast (by omega : k ≠ 0)
  have hk2 : -(k : K) ≠ 0 := neg_ne_zero.mpr hk'
  have e1 : (intF (-(k : Int) - 1) : Val K) = .fin (-(k : K) - 1) := by
    unfold intF
    rw [lit_fin]
    push_cast
    rfl
  have e2 : (intF (-(k : Int)) : Val K) = .fin (-(k : K)) := by
    unfold intF
    rw [lit_fin]
    push_cast
    rfl
  unfold atrStep
  rw [e1, e2, fin_mul, fin_add, fin_div _ _ hk2]
  congr 1
  field_simp
  ring

theorem foldl_atrStep {k : Nat} (hk : 1 ≤ k) (f : Nat → K) (x : K) : ∀ m : Nat,
    (((List.range m).map f).map Val.fin).foldl (atrStep (-(k : Int))) (.fin x)
      = .fin ((((k : K) + 1) / k) ^ m * x - (∑ j ∈ range m, (((k : K) + 1) / k) ^ (m - 1 - j) * f j) / k)
  | 0 => by simp
  | m + 1 => by
    rw [List.range_succ, List.map_append, List.map_append, List.foldl_append, foldl_atrStep hk f x m]
    show atrStep _ (Val.fin _) (Val.fin (f m)) = _
    rw [atrStep_fin hk, sum_range_succ]
    have e : ∀ j ∈ range m, (((k : K) + 1) / k) ^ (m + 1 - 1 - j) * f j
        = (((k : K) + 1) / k) * ((((k : K) + 1) / k) ^ (m - 1 - j) * f j) := by
      intro j hj
      have hj : j < m := mem_range.mp hj
      rw [show m + 1 - 1 - j = (m - 1 - j) + 1 by omega, pow_succ]
      ring
    rw [sum_congr rfl e, ← mul_sum]
    congr 1
    rw [show m + 1 - 1 - m = 0 by omega, pow_zero, pow_succ]
    ring

/-- C106. The average true range with window `−k` on gap-free bars, in closed form: with `r = 1 + 1/k`, row `i` is `r^(k+i+1)` times the
mean of the first `n − k` true ranges, minus `1/k` times the last `k` true ranges and the first `i + 1`, weighted by powers of `r`. -/
theorem atr_negative_formula {n k : Nat} (hk : 1 ≤ k) {h l c : Nat → K} (hlh : ∀ i, i < n → l i ≤ h i) (fillna : Bool) :
    (n ≤ k → atrZ (ser n h) (ser n l) (ser n c) (-(k : Int)) fillna = .error .indexError) ∧
    (k < n → ∃ out, atrZ (ser n h) (ser n l) (ser n c) (-(k : Int)) fillna = .ok out ∧ Def out n 0 fun i =>
      (((k : K) + 1) / k) ^ (k + i + 1) * ((∑ j ∈ range (n - k), tr0 h l c j) / (n - k : ℕ))
        - (∑ j ∈ range k, (((k : K) + 1) / k) ^ (k - j + i) * tr0 h l c (n - k + j)
            + ∑ j ∈ range (i + 1), (((k : K) + 1) / k) ^ (i - j) * tr0 h l c j) / k) := by
  have hl : (ser n c).length = n := by simp [ser]
  have hlh' : (ser n h).length = (ser n c).length := by simp [ser]
  have key := atrZ_neg (ser n h) (ser n l) (ser n c) hlh' k hk fillna
  rw [hl] at key
  constructor
  · intro hnk
    rw [key, if_pos hnk]
  · intro hnk
    rw [if_neg (by omega)] at key
    refine ⟨_, key, Def.fill ?_ _ _⟩
    have htr : Def (trueRange (ser n h) (ser n l) (shift (ser n c) 1)) n 0 (tr0 h l c) := true_range_formula n h l c hlh
    dsimp only
    generalize trueRange (ser n h) (ser n l) (shift (ser n c) 1) = tr at htr
    refine ⟨by simp, fun i _ h2 => absurd h2 (Nat.not_lt_zero _), fun i hi _ => ?_⟩
    have hd : tr.drop (n - k) = ((List.range k).map fun j => tr0 h l c (n - k + j)).map Val.fin := by
      apply List.ext_getElem
      · simp [htr.len]
        omega
      · intro j h1 h2
        have hj : j < k := by simpa using h2
        have h3 : n - k + j < tr.length := by rw [htr.len]; omega
        rw [List.getElem_drop, ← ix_lt h3, htr.val _ (by omega) (Nat.zero_le _)]
        simp
    rw [ix_tab_lt hi, List.foldl_append, take_def htr (show n - k ≤ n by omega), take_def htr (show i + 1 ≤ n by omega), hd,
      smean_fin _ (by simp; omega), foldl_atrStep hk, foldl_atrStep hk, List.length_map, List.length_range]
    congr 1
    have es : ((List.range (n - k)).map (tr0 h l c)).sum = ∑ j ∈ range (n - k), tr0 h l c j := rfl
    rw [es]
    have e1 : ∀ j ∈ range k, (((k : K) + 1) / k) ^ (k - j + i) * tr0 h l c (n - k + j)
        = (((k : K) + 1) / k) ^ (i + 1) * ((((k : K) + 1) / k) ^ (k - 1 - j) * tr0 h l c (n - k + j)) := by
      intro j hj
      have hj : j < k := mem_range.mp hj
      rw [← mul_assoc, ← pow_add]
      congr 2
      omega
    have e2 : ∀ j ∈ range (i + 1), (((k : K) + 1) / k) ^ (i + 1 - 1 - j) * tr0 h l c j
        = (((k : K) + 1) / k) ^ (i - j) * tr0 h l c j := by
      intro j _
      rw [show i + 1 - 1 - j = i - j by omega]
    rw [sum_congr rfl e1, ← mul_sum, sum_congr rfl e2, show k + i + 1 = (i + 1) + k by omega, pow_add]
    ring

/-- C106. With window `−k` every row hangs on the last bar: a last bar whose true range is greater by `d` lowers row `i` before it by
`(1 + 1/k)^(i+1) d / k`. -/
theorem atr_negative_lookahead {n k : Nat} (hk : 1 ≤ k) (hkn : k < n) {h l c h' l' c' : Nat → K} (hlh : ∀ i, i < n → l i ≤ h i)
    (hlh' : ∀ i, i < n → l' i ≤ h' i) (same : ∀ j, j + 1 < n → h' j = h j ∧ l' j = l j ∧ c' j = c j) {d : K}
    (hd : tr0 h' l' c' (n - 1) = tr0 h l c (n - 1) + d) (fillna : Bool) {out out' : Series (Val K)}
    (ho : atrZ (ser n h) (ser n l) (ser n c) (-(k : Int)) fillna = .ok out)
    (ho' : atrZ (ser n h') (ser n l') (ser n c') (-(k : Int)) fillna = .ok out') {i : Nat} (hi : i + 1 < n) :
    ∃ x, ix out i = .fin x ∧ ix out' i = .fin (x - (((k : K) + 1) / k) ^ (i + 1) * d / k) := by
  obtain ⟨o, e, hD⟩ := (atr_negative_formula (c := c) hk hlh fillna).2 hkn
  obtain ⟨o', e', hD'⟩ := (atr_negative_formula (c := c') hk hlh' fillna).2 hkn
  rw [ho] at e
  rw [ho'] at e'
  rw [← Except.ok.inj e] at hD
  rw [← Except.ok.inj e'] at hD'
  refine ⟨_, hD.val i (by omega) (Nat.zero_le _), ?_⟩
  rw [hD'.val i (by omega) (Nat.zero_le _)]
  congr 1
  have ht : ∀ j, j + 1 < n → tr0 h' l' c' j = tr0 h l c j := by
    intro j hj
    unfold tr0
    obtain ⟨a, b, _⟩ := same j hj
    obtain ⟨a0, b0, _⟩ := same 0 (by omega)
    obtain ⟨_, _, c1⟩ := same (j - 1) (by omega)
    rw [a, b, a0, b0, c1]
  have s1 : ∑ j ∈ range (n - k), tr0 h' l' c' j = ∑ j ∈ range (n - k), tr0 h l c j :=
    sum_congr rfl fun j hj => ht j (by have := mem_range.mp hj; omega)
  have s3 : ∑ j ∈ range (i + 1), (((k : K) + 1) / k) ^ (i - j) * tr0 h' l' c' j
      = ∑ j ∈ range (i + 1), (((k : K) + 1) / k) ^ (i - j) * tr0 h l c j :=
    sum_congr rfl fun j hj => by rw [ht j (by have := mem_range.mp hj; omega)]
  obtain ⟨q, rfl⟩ : ∃ q, k = q + 1 := ⟨k - 1, by omega⟩
  have s2 : ∀ g : Nat → K, ∑ j ∈ range (q + 1), ((((q + 1 : ℕ) : K) + 1) / (q + 1 : ℕ)) ^ (q + 1 - j + i) * g (n - (q + 1) + j)
      = ∑ j ∈ range q, ((((q + 1 : ℕ) : K) + 1) / (q + 1 : ℕ)) ^ (q + 1 - j + i) * g (n - (q + 1) + j)
        + ((((q + 1 : ℕ) : K) + 1) / (q + 1 : ℕ)) ^ (i + 1) * g (n - 1) := by
    intro g
    rw [sum_range_succ, show n - (q + 1) + q = n - 1 by omega, show q + 1 - q + i = i + 1 by omega]
  have s4 : ∑ j ∈ range q, ((((q + 1 : ℕ) : K) + 1) / (q + 1 : ℕ)) ^ (q + 1 - j + i) * tr0 h' l' c' (n - (q + 1) + j)
      = ∑ j ∈ range q, ((((q + 1 : ℕ) : K) + 1) / (q + 1 : ℕ)) ^ (q + 1 - j + i) * tr0 h l c (n - (q + 1) + j) :=
    sum_congr rfl fun j hj => by rw [ht _ (by have := mem_range.mp hj; omega)]
  rw [s1, s3, s2, s2, s4, hd]
  ring

/-! ### Rate of change -/

theorem shiftZ_nat {F : Type} [Flt F] (s : Series F) (k : Nat) (v : F) : shiftZ s (k : Int) v = shift s k v := by
  refine series_ext (by simp [shiftZ, shift]) fun i hi => ?_
  have hi : i < s.length := by simpa [shiftZ] using hi
  unfold shiftZ shift
  rw [ix_tab_lt hi, ix_tab_lt hi]
  by_cases h : i < k
  · rw [if_pos h, if_neg (by omega)]
  · rw [if_neg h, if_pos (by omega)]
    congr 1
    omega

theorem rocZ_nat {F : Type} [Flt F] (s : Series F) (k : Nat) (fillna : Bool) : rocZ s (k : Int) fillna = roc s k fillna := by
  unfold rocZ roc ROC.run
  rw [shiftZ_nat]

theorem rocmaZ_nat {F : Type} [Flt F] (s : Series F) (k w : Nat) (fillna : Bool) :
    KST.rocmaZ s (k : Int) w fillna = KST.rocma s k w fillna := by
  unfold KST.rocmaZ KST.rocma
  rw [shiftZ_nat]

/-- C106. The rate of change with window `−k` compares each close with the close `k` rows later.  The last `k` rows are NaN; with fillna
they repeat the last value, 0 if there is none. -/
theorem roc_negative (n : Nat) {c : Nat → K} (hc : ∀ i, c i ≠ 0) (k : Nat) (fillna : Bool) :
    (rocZ (ser n c) (-(k : Int)) fillna).length = n ∧
    (∀ i, i + k < n → ix (rocZ (ser n c) (-(k : Int)) fillna) i = .fin (100 * (c i / c (i + k) - 1))) ∧
    (∀ i, i < n → n ≤ i + k → ix (rocZ (ser n c) (-(k : Int)) fillna) i =
      if fillna then .fin (if k < n then 100 * (c (n - k - 1) / c (n - 1) - 1) else 0) else .nan) := by
  have hl : (ser n c).length = n := by simp [ser]
  set s : Series (Val K) := mulc (sdiv (ssub (ser n c) (shiftZ (ser n c) (-(k : Int)))) (shiftZ (ser n c) (-(k : Int)))) (lit 100)
    with hs
  have hsl : s.length = n := by simp [hs, hl, shiftZ]
  have hz : ∀ i, i < n → ix (shiftZ (ser n c) (-(k : Int))) i = if i + k < n then .fin (c (i + k)) else .nan := by
    intro i hi
    unfold shiftZ
    rw [hl, ix_tab_lt hi]
    by_cases h : i + k < n
    · rw [if_pos h, if_pos (by omega), show ((i : Int) - -(k : Int)).toNat = i + k by omega]
      unfold ser
      rw [ix_tab_lt h]
    · rw [if_neg h, if_neg (by omega)]
      rfl
  have hrow : ∀ i, i < n → ix s i = if i + k < n then .fin (100 * (c i / c (i + k) - 1)) else .nan := by
    intro i hi
    have hci : ix (ser n c) i = .fin (c i) := by
      unfold ser
      rw [ix_tab_lt hi]
    rw [hs]
    unfold mulc sdiv ssub
    rw [ix_map (by simp [hl, shiftZ, hi]), ix_zip2 (by simp [hl, shiftZ, hi]), ix_zip2 (by simp [hl, hi]), hz i hi, hci]
    by_cases h : i + k < n
    · have := hc (i + k)
      rw [if_pos h, if_pos h, fin_sub, fin_div _ _ this, lit_fin, fin_mul]
      congr 1
      push_cast
      field_simp
    · rw [if_neg h, if_neg h]
      rfl
  have hnum : ∀ i, i < n → (Num (ix s i) ↔ i + k < n) := by
    intro i hi
    rw [hrow i hi]
    split_ifs with h
    · exact ⟨fun _ => h, fun _ => num_iff.mpr ⟨_, rfl⟩⟩
    · exact ⟨fun h' => absurd h' (by simp [Num]), fun h' => absurd h' h⟩
  show (checkFillna fillna _ s).length = n ∧ (∀ i, i + k < n → ix (checkFillna fillna _ s) i = _) ∧
    (∀ i, i < n → n ≤ i + k → ix (checkFillna fillna _ s) i = _)
  refine ⟨by rw [length_checkFillna, hsl], fun i hi => ?_, fun i hi hik => ?_⟩
  · cases fillna with
    | false => exact (hrow i (by omega)).trans (if_pos hi)
    | true => rw [checkFillna_keep (by rw [hsl]; omega) ((hnum i (by omega)).mpr hi), hrow i (by omega), if_pos hi]
  · cases fillna with
    | false => exact (hrow i hi).trans (if_neg (by omega))
    | true =>
      rw [if_pos rfl]
      by_cases hkn : k < n
      · rw [if_pos hkn, checkFillna_ffill (j := n - k - 1) (by omega) (by rw [hsl]; exact hi) ((hnum _ (by omega)).mpr (by omega))
          (fun m h1 h2 h3 => by have := (hnum m (by omega)).mp h3; omega), hrow _ (by omega), if_pos (by omega),
          show n - k - 1 + k = n - 1 by omega]
      · rw [if_neg hkn, checkFillna_const_none (by rw [hsl]; exact hi)
          (fun m h1 h3 => by have := (hnum m (by omega)).mp h3; omega), lit_fin]
        simp

/-- C106. Going forward and back: the growth factors of `ROC(−k)` on row `i` and of `ROC(k)` on row `i + k` are inverse to each other. -/
theorem roc_negative_inverse (n : Nat) {c : Nat → K} (hc : ∀ i, c i ≠ 0) (k : Nat) (fillna : Bool) {i : Nat} (hi : i + k < n) :
    ∃ x y, ix (rocZ (ser n c) (-(k : Int)) fillna) i = .fin x ∧ ix (roc (ser n c) k fillna) (i + k) = .fin y ∧
      (1 + x / 100) * (1 + y / 100) = 1 := by
  refine ⟨_, 100 * (c (i + k) / c i - 1), (roc_negative n hc k fillna).2.1 i hi, ?_, ?_⟩
  · obtain ⟨h1, h2⟩ := roc_formula n hc k
    cases fillna with
    | false => rw [h1.val (i + k) hi (by omega), show i + k - k = i by omega]
    | true => rw [h2.val (i + k) hi (by omega), if_neg (by omega), show i + k - k = i by omega]
  · have h1 := hc i
    have h2 := hc (i + k)
    field_simp
    ring

/-! ### KST -/

/-- the close `k` rows later, the mean of all closes on the last `k` rows -/
def nextOr (n : Nat) (c : Nat → K) (k i : Nat) : K := if i + k < n then c (i + k) else meanAll n c

/-- the smoothed rate of change for a lag of either sign -/
def rocMeanZ (n : Nat) (c : Nat → K) : Int → Nat → Nat → K
  | .ofNat r, w, i => rocMean n c r w i
  | .negSucc r, w, i => wmean (fun j => c j / nextOr n c (r + 1) j - 1) w i

theorem def_nextOr (n : Nat) (c : Nat → K) (k : Nat) :
    Def (shiftZ (ser n c) (-(k : Int)) (smean (ser n c))) n 0 (nextOr n c k) := by
  have hl : (ser n c).length = n := by simp [ser]
  refine ⟨by simp [shiftZ, hl], fun i _ h => absurd h (Nat.not_lt_zero _), fun i hi _ => ?_⟩
  unfold shiftZ nextOr
  rw [hl, ix_tab_lt hi]
  by_cases h : i + k < n
  · rw [if_pos h, if_pos (by omega), show ((i : Int) - -(k : Int)).toNat = i + k by omega]
    unfold ser
    rw [ix_tab_lt h]
  · rw [if_neg h, if_neg (by omega), smean_ser (by omega)]

theorem nextOr_pos {n : Nat} {c : Nat → K} (hc : ∀ i, 0 < c i) (k : Nat) {i : Nat} (hi : i < n) : 0 < nextOr n c k i := by
  unfold nextOr
  split_ifs
  · exact hc _
  · exact meanAll_pos (by omega) hc

theorem def_rocmaZ {n : Nat} {c : Nat → K} (hc : ∀ i, 0 < c i) (r : Int) {w : Nat} (hw : 1 ≤ w) (fillna : Bool) :
    Def (KST.rocmaZ (ser n c) r w fillna) n (if fillna then 0 else w - 1) (rocMeanZ n c r w) := by
  cases r with
  | ofNat r =>
    show Def (KST.rocmaZ (ser n c) (r : Int) w fillna) n _ (rocMean n c r w)
    rw [rocmaZ_nat]
    exact def_rocma hc r hw fillna
  | negSucc r =>
    have hp := def_nextOr n c (r + 1)
    rw [show -(((r + 1 : Nat)) : Int) = Int.negSucc r from rfl] at hp
    have h1 := ((def_ser n c).ssub hp).sdiv hp (fun i hi _ _ => (nextOr_pos hc (r + 1) hi).ne')
    have h2 : Def (sdiv (ssub (ser n c) (shiftZ (ser n c) (Int.negSucc r) (smean (ser n c))))
        (shiftZ (ser n c) (Int.negSucc r) (smean (ser n c)))) n 0 (fun j => c j / nextOr n c (r + 1) j - 1) := by
      refine (show Def _ n 0 _ from by simpa using h1).congr fun i hi _ => ?_
      have := (nextOr_pos hc (r + 1) hi).ne'
      field_simp
    have hm : minp fillna w ≤ w := by cases fillna <;> simp [minp]
    have h3 := h2.rollMeanP hw hm
    have e : minp fillna w - 1 = if fillna then 0 else w - 1 := by cases fillna <;> simp [minp]
    rw [e] at h3
    exact h3

/-- C106. The KST line for lags of either sign: a negative lag `−k` compares with the close `k` rows later, and with the mean of all closes on
the last `k` rows. -/
theorem kst_negative {n : Nat} {c : Nat → K} (hc : ∀ i, 0 < c i) (r1 r2 r3 r4 : Int) {w1 w2 w3 w4 : Nat}
    (h1 : 1 ≤ w1) (h2 : 1 ≤ w2) (h3 : 1 ≤ w3) (h4 : 1 ≤ w4) (fillna : Bool) :
    Def (kstZ (ser n c) r1 r2 r3 r4 w1 w2 w3 w4 fillna) n (if fillna then 0 else max (max (max w1 w2) w3) w4 - 1) fun i =>
      100 * (rocMeanZ n c r1 w1 i + 2 * rocMeanZ n c r2 w2 i + 3 * rocMeanZ n c r3 w3 i + 4 * rocMeanZ n c r4 w4 i) := by
  have hL := ((((def_rocmaZ (n := n) hc r1 h1 fillna).sadd ((def_rocmaZ hc r2 h2 fillna).cmul 2)).sadd
      ((def_rocmaZ hc r3 h3 fillna).cmul 3)).sadd ((def_rocmaZ hc r4 h4 fillna).cmul 4)).cmul 100
  unfold kstZ
  refine Def.fillOr ?_ (fun h => by rw [if_pos h]) _
  simp only [lit_fin]
  push_cast
  cases fillna with
  | true => simpa using hL
  | false =>
    simp only [Bool.false_eq_true, if_false] at hL ⊢
    have e : max (max (max (w1 - 1) (w2 - 1)) (w3 - 1)) (w4 - 1) = max (max (max w1 w2) w3) w4 - 1 := by omega
    rw [e] at hL
    exact hL

end rational

/-! The same five bars, then with a taller last bar: all rows change, and the average true range is negative. -/
example : atrZ (qs [3, 4, 6, 7, 9]) (qs [1, 2, 4, 5, 6]) (qs [2, 3, 5, 6, 8]) (-2) false
    = .ok [.fin (19 / 8), .fin (41 / 16), .fin (75 / 32), .fin (161 / 64), .fin (291 / 128)] := by decide +kernel
example : atrZ (qs [3, 4, 6, 7, 12]) (qs [1, 2, 4, 5, 6]) (qs [2, 3, 5, 6, 8]) (-2) false
    = .ok [.fin (1 / 8), .fin (-13 / 16), .fin (-87 / 32), .fin (-325 / 64), .fin (-1359 / 128)] := by decide +kernel
example : atrZ (qs [3, 4]) (qs [1, 2]) (qs [2, 3]) (-2) false = .error .indexError := by decide +kernel
example : rocZ (qs [4, 5, 8, 10]) (-1) false = [.fin (-20), .fin (-75 / 2), .fin (-20), .nan] := by decide +kernel
example : rocZ (qs [4, 5, 8, 10]) (-1) true = [.fin (-20), .fin (-75 / 2), .fin (-20), .fin (-20)] := by decide +kernel
example : kstZ (qs [4, 5, 8, 10]) (-1) 1 (-2) 2 1 1 1 2 false
    = [.nan, .fin (-1625 / 6), .fin (8200 / 27), .fin (17350 / 27)] := by decide +kernel

end TA
