import Verif.Props.C20
import Verif.Props.C40
import Verif.Props.C124

/-!
# C125 — the ultimate oscillator and the vortex lines in double precision

Both divide one rolling sum of price distances by another (`ta/momentum.py:176-205`, `ta/trend.py:893-903`).  Distances are never
negative, so no digits cancel in the sums, and the quotients keep their accuracy for every window and every number of rows.  The sums
are the ones of the model (each window added up from left to right).
-/

set_option linter.unusedSectionVars false

namespace TA
open Finset

section dbl
variable {K : Type} [Field K] [LinearOrder K] [IsStrictOrderedRing K] [FloorRing K]

/-! ## rolling sums of distances -/

/-- windows that reach the missing first row -/
theorem rollSum_first {s : Series (Double K)} {n : Nat} (hl : s.length = n) (h0 : ix s 0 = Val.nan) {w i : Nat} (hi : i < n)
    (hg : i < w) : ix (rollSum w w s) i = Val.nan := by
  unfold rollSum
  rw [ix_roll' (by rw [hl]; exact hi)]
  unfold aggSum
  have hj : 0 ∈ winIx w i := mem_winIx.mpr ⟨by omega, by omega⟩
  have lt : (valid ((winIx w i).map fun j => clean (ix s j))).length < w := by
    have : (valid ((winIx w i).map fun j => clean (ix s j))).length < ((winIx w i).map fun j => clean (ix s j)).length := by
      unfold valid
      rw [List.length_filter_lt_length_iff_exists]
      refine ⟨_, List.mem_map.mpr ⟨_, hj, rfl⟩, ?_⟩
      rw [h0]
      simp [clean]
      try rfl
    rw [List.length_map, length_winIx] at this
    omega
  rw [if_neg (fun q => by omega), if_neg (by omega)]
  rfl

/-- the sum over a full window of distances, each known to one rounding -/
theorem rollSum_rel {s : Series (Double K)} {n : Nat} (hl : s.length = n) {f : Nat → K} {T : K} {w i : Nat} (hw : 1 ≤ w) (hw2 : w ≤ 2 ^ 40)
    (hi : i < n) (hg : w ≤ i) (hf : ∀ j, j < n → 1 ≤ j → f j = 0 ∨ tiny ≤ f j) (hT : ∀ j, j < n → 1 ≤ j → f j ≤ T) (hT2 : 2 * T ≤ huge)
    (hx : ∀ j, j < n → 1 ≤ j → ∃ y, ix s j = rk y ∧ |y - f j| ≤ 1.001 * (eps * f j)) :
    ∃ y, ix (rollSum w w s) i = rk y ∧ |y - wsum f w i| ≤ 1.01 * (w + 1) * (eps * wsum f w i) := by
  have hx' : ∀ j, ∃ y : K, j < n → 1 ≤ j → ix s j = rk y ∧ |y - f j| ≤ 1.001 * (eps * f j) := fun j => by
    by_cases h : j < n ∧ 1 ≤ j
    · obtain ⟨y, hy⟩ := hx j h.1 h.2
      exact ⟨y, fun _ _ => hy⟩
    · exact ⟨0, fun a b => absurd ⟨a, b⟩ h⟩
  choose x hx'' using hx'
  have hm : ∀ j ∈ winIx w i, j < n ∧ 1 ≤ j := fun j hj => by rw [mem_winIx] at hj; omega
  have ev : ix (rollSum w w s) i = sumL ((winIx w i).map fun j => (rk (x j) : Double K)) := by
    unfold rollSum
    rw [ix_roll' (by rw [hl]; exact hi)]
    have e : ((winIx w i).map fun j => clean (ix s j)) = (winIx w i).map fun j => (rk (x j) : Double K) := by
      refine List.map_congr_left fun j hj => ?_
      rw [(hx'' j (hm j hj).1 (hm j hj).2).1]
      rfl
    have vl : valid ((winIx w i).map fun j => (rk (x j) : Double K)) = (winIx w i).map fun j => (rk (x j) : Double K) := by
      unfold valid
      rw [List.filter_eq_self]
      intro x hx
      obtain ⟨j, -, rfl⟩ := List.mem_map.mp hx
      rfl
    rw [e]
    unfold aggSum
    rw [vl, List.length_map, length_winIx, if_neg (by omega), if_pos (by omega)]
  rw [ev]
  have es : ((winIx w i).map f).sum = wsum f w i := sum_winIx _ _ _
  have le : wsum f w i ≤ w * T := by
    unfold wsum
    refine (Finset.sum_le_card_nsmul _ _ T fun j hj => hT j ?_ ?_).trans_eq ?_
    · rw [mem_Ico] at hj; omega
    · rw [mem_Ico] at hj; omega
    · rw [Nat.card_Ico, show i + 1 - (i + 1 - w) = w by omega, nsmul_eq_mul]
  obtain ⟨y, y1, y2⟩ := sum_rel (winIx w i) x f (fun j hj => hf j (hm j hj).1 (hm j hj).2) (fun j hj => (hx'' j (hm j hj).1 (hm j hj).2).2)
    (a := 0) (A := 0) (k := 0) (.inl rfl) (by simp) (by rw [length_winIx]; omega) (by
      rw [zero_add, es]
      have q2 := huge_win (K := K) hw2
      have q3 := mul_le_mul_of_nonneg_left hT2 (Nat.cast_nonneg (α := K) w)
      linarith)
  rw [zero_add, es, length_winIx, min_eq_left (by omega), zero_add] at y2
  refine ⟨y, ?_, y2⟩
  unfold sumL; rw [lit0k]; exact y1

/-! ## distances -/

/-- two prices are the same, or at least `2^-400` apart -/
def Tick (x y : K) : Prop := x = y ∨ petty ≤ |x - y|

/-- bars whose prices differ by at most `T` from each other and from the last close -/
structure Ticked (n : Nat) (h l c : Nat → K) (T : K) : Prop where
  lo : petty ≤ T
  hi : T ≤ grand
  order : ∀ i, i < n → l i ≤ c i ∧ c i ≤ h i
  bar : ∀ i, i < n → h i - l i ≤ T
  nearH : ∀ i, i + 1 < n → |h (i + 1) - c i| ≤ T
  nearL : ∀ i, i + 1 < n → |l (i + 1) - c i| ≤ T
  hl : ∀ i, i < n → Tick (h i) (l i)
  cl : ∀ i, i < n → Tick (c i) (l i)
  hp : ∀ i, i + 1 < n → Tick (h (i + 1)) (c i)
  lp : ∀ i, i + 1 < n → Tick (l (i + 1)) (c i)
  cp : ∀ i, i + 1 < n → Tick (c (i + 1)) (c i)

variable {n : Nat} {h l c : Nat → K} {T : K}

theorem Tick.zero_or {x y : K} (ht : Tick x y) : |x - y| = 0 ∨ tiny ≤ |x - y| := by
  rcases ht with rfl | ht
  · left; simp
  · right; exact tiny_petty.trans ht

/-- a difference, with its sign -/
theorem Tick.sub {x y : K} (ht : Tick x y) (hT : |x - y| ≤ cap) :
    ∃ v, (rk x -. rk y : Double K) = rk v ∧ |v - (x - y)| ≤ 1.001 * (eps * |x - y|) := by
  rcases ht with rfl | ht
  · exact ⟨0, sub_self_double _, by simp⟩
  · exact near_sub le_rfl (tiny_petty.trans ht) hT

theorem Tick.dist {x y : K} (ht : Tick x y) (hT : |x - y| ≤ cap) :
    ∃ v, (Flt.abs (rk x -. rk y) : Double K) = rk v ∧ |v - abs (x - y)| ≤ 1.001 * (eps * |x - y|) := by
  obtain ⟨v, v1, v2⟩ := ht.sub hT
  exact ⟨|v|, by rw [v1]; rfl, (abs_abs_sub_abs_le _ _).trans v2⟩

/-- the distance to the lowest price since the last close -/
def bpd (l c : Nat → K) (j : Nat) : K := c j - min (l j) (c (j - 1))

/-- the true range from the second row on -/
def trd (h l c : Nat → K) (j : Nat) : K := max (h j) (c (j - 1)) - min (l j) (c (j - 1))

theorem npMin2_rk (a b : K) : npMin2 (rk a : Double K) (rk b) = rk (min a b) := by
  show (if decide (b < a) = true then rk b else rk a : Double K) = _
  by_cases q : b < a
  · rw [if_pos (by simpa using q), min_eq_right q.le]
  · rw [if_neg (by simpa using q), min_eq_left (not_lt.mp q)]

theorem grand_le_cap : (grand : K) ≤ cap := by linarith [grand_cap (K := K), grand_pos (K := K)]

theorem Ticked.c_near (S : Ticked n h l c T) {j : Nat} (hj : j + 1 < n) : |c (j + 1) - c j| ≤ T := by
  have o := S.order (j + 1) hj
  have a := abs_le.mp (S.nearH j hj)
  have b := abs_le.mp (S.nearL j hj)
  rw [abs_le]
  constructor <;> linarith [o.1, o.2, a.1, a.2, b.1, b.2]

theorem Ticked.bp_row (S : Ticked n h l c T) {j : Nat} (hj : j < n) (h1 : 1 ≤ j) :
    ∃ y, ix (UO.buyingPressure (dser n l) (dser n c)) j = rk y ∧ |y - bpd l c j| ≤ 1.001 * (eps * bpd l c j) := by
  obtain ⟨k, rfl⟩ : ∃ k, j = k + 1 := ⟨j - 1, by omega⟩
  have o := S.order (k + 1) hj
  have Tc := S.hi.trans grand_le_cap
  unfold UO.buyingPressure bpd
  rw [ix_ssub (by simpa [rser] using hj), ix_zip2 (by simpa [rser] using hj), ix_shift (by simpa [rser] using hj), if_neg (by omega),
    ix_rk hj, ix_rk hj, show k + 1 - 1 = k by omega, ix_rk (show k < n by omega), npMin2_rk]
  rcases le_total (l (k + 1)) (c k) with q | q
  · rw [min_eq_left q]
    have e : |c (k + 1) - l (k + 1)| = c (k + 1) - l (k + 1) := abs_of_nonneg (by linarith [o.1])
    obtain ⟨v, v1, v2⟩ := (S.cl _ hj).sub (by rw [e]; linarith [S.bar _ hj, o.2])
    rw [e] at v2
    exact ⟨v, v1, v2⟩
  · rw [min_eq_right q]
    have e : |c (k + 1) - c k| = c (k + 1) - c k := abs_of_nonneg (by linarith [o.1])
    obtain ⟨v, v1, v2⟩ := (S.cp _ hj).sub ((S.c_near hj).trans Tc)
    rw [e] at v2
    exact ⟨v, v1, v2⟩

theorem Ticked.tr_row (S : Ticked n h l c T) {j : Nat} (hj : j < n) (h1 : 1 ≤ j) (v : Double K) :
    ∃ y, ix (trueRange (dser n h) (dser n l) (shift (dser n c) 1 v)) j = rk y ∧ |y - trd h l c j| ≤ 1.001 * (eps * trd h l c j) := by
  obtain ⟨k, rfl⟩ : ∃ k, j = k + 1 := ⟨j - 1, by omega⟩
  have o := S.order (k + 1) hj
  have he := eps_pos (K := K)
  have Tc := S.hi.trans grand_le_cap
  have hlh : l (k + 1) ≤ h (k + 1) := o.1.trans o.2
  unfold trueRange trd
  rw [ix_zip3 (by simpa [rser] using hj), ix_shift (by simpa [rser] using hj), if_neg (by omega), ix_rk hj, ix_rk hj,
    show k + 1 - 1 = k by omega, ix_rk (show k < n by omega), ← max3_eq _ _ _ hlh]
  have e : |h (k + 1) - l (k + 1)| = h (k + 1) - l (k + 1) := abs_of_nonneg (by linarith)
  obtain ⟨x, x1, x2⟩ := (S.hl _ hj).sub (by rw [e]; linarith [S.bar _ hj])
  obtain ⟨y, y1, y2⟩ := (S.hp _ hj).dist ((S.nearH _ hj).trans Tc)
  obtain ⟨z, z1, z2⟩ := (S.lp _ hj).dist ((S.nearL _ hj).trans Tc)
  rw [e] at x2
  refine ⟨max (max x y) z, ?_, ?_⟩
  · rw [x1, y1, z1]
    exact maxL3 _ _ _
  · set A := h (k + 1) - l (k + 1)
    set B := |h (k + 1) - c k|
    set C := |l (k + 1) - c k|
    have m1 : eps * A ≤ eps * max (max A B) C := mul_le_mul_of_nonneg_left ((le_max_left _ _).trans (le_max_left _ _)) he.le
    have m2 : eps * B ≤ eps * max (max A B) C := mul_le_mul_of_nonneg_left ((le_max_right _ _).trans (le_max_left _ _)) he.le
    have m3 : eps * C ≤ eps * max (max A B) C := mul_le_mul_of_nonneg_left (le_max_right _ _) he.le
    exact abs_max_sub (abs_max_sub (by linarith) (by linarith)) (by linarith)

theorem Ticked.bpd_mem (S : Ticked n h l c T) {j : Nat} (hj : j < n) (h1 : 1 ≤ j) :
    (bpd l c j = 0 ∨ petty ≤ bpd l c j) ∧ 0 ≤ bpd l c j ∧ bpd l c j ≤ trd h l c j := by
  obtain ⟨k, rfl⟩ : ∃ k, j = k + 1 := ⟨j - 1, by omega⟩
  have o := S.order (k + 1) hj
  unfold bpd trd
  rw [show k + 1 - 1 = k by omega]
  have m1 := le_max_left (h (k + 1)) (c k)
  have m2 := min_le_left (l (k + 1)) (c k)
  refine ⟨?_, by linarith [o.1], by linarith [o.2]⟩
  rcases le_total (l (k + 1)) (c k) with q | q
  · rw [min_eq_left q]
    rcases S.cl _ hj with t | t
    · left; rw [t, sub_self]
    · right; rwa [abs_of_nonneg (by linarith [o.1])] at t
  · rw [min_eq_right q]
    rcases S.cp _ hj with t | t
    · left; rw [t, sub_self]
    · right; rwa [abs_of_nonneg (by linarith [o.1])] at t

theorem Ticked.trd_mem (S : Ticked n h l c T) {j : Nat} (hj : j < n) (h1 : 1 ≤ j) :
    (trd h l c j = 0 ∨ petty ≤ trd h l c j) ∧ trd h l c j ≤ T := by
  obtain ⟨k, rfl⟩ : ∃ k, j = k + 1 := ⟨j - 1, by omega⟩
  have o := S.order (k + 1) hj
  have hlh : l (k + 1) ≤ h (k + 1) := o.1.trans o.2
  unfold trd
  rw [show k + 1 - 1 = k by omega, ← max3_eq _ _ _ hlh]
  refine ⟨?_, max_le (max_le (S.bar _ hj) (S.nearH _ hj)) (S.nearL _ hj)⟩
  have c1 : h (k + 1) - l (k + 1) = 0 ∨ petty ≤ h (k + 1) - l (k + 1) := by
    rcases S.hl _ hj with t | t
    · left; rw [t, sub_self]
    · right; rwa [abs_of_nonneg (by linarith)] at t
  have c2 : |h (k + 1) - c k| = 0 ∨ petty ≤ |h (k + 1) - c k| := (S.hp _ hj).imp (fun t => by rw [t, sub_self, abs_zero]) id
  have c3 : |l (k + 1) - c k| = 0 ∨ petty ≤ |l (k + 1) - c k| := (S.lp _ hj).imp (fun t => by rw [t, sub_self, abs_zero]) id
  have mx : ∀ a b : K, (a = 0 ∨ petty ≤ a) → (b = 0 ∨ petty ≤ b) → (max a b = 0 ∨ petty ≤ max a b) := by
    intro a b ha hb
    rcases max_choice a b with e | e <;> rw [e] <;> assumption
  exact mx _ _ (mx _ _ c1 c2) c3

/-! ## one average of the ultimate oscillator -/

theorem wsum_mono' {f g : Nat → K} {w i : Nat} (hg : w ≤ i) (hi : i < n) (hfg : ∀ j, j < n → 1 ≤ j → f j ≤ g j) : wsum f w i ≤ wsum g w i := by
  unfold wsum
  refine Finset.sum_le_sum fun j hj => ?_
  rw [mem_Ico] at hj
  exact hfg j (by omega) (by omega)

theorem two_grand : 2 * (grand : K) ≤ huge := by linarith [grand_le (K := K), grand_pos (K := K)]

theorem uoAvg_double (S : Ticked n h l c T) {w : Nat} (hw : 1 ≤ w) (hw2 : w ≤ 2 ^ 40) {i : Nat} (hi : i < n) :
    (ix (UO.avg (UO.buyingPressure (dser n l) (dser n c)) (trueRange (dser n h) (dser n l) (shift (dser n c) 1)) w false) i = Val.nan ∧
      ix (UO.avg (UO.buyingPressure (ser n l) (ser n c)) (trueRange (ser n h) (ser n l) (shift (ser n c) 1)) w false) i = .nan) ∨
    ∃ y z : K, ix (UO.avg (UO.buyingPressure (dser n l) (dser n c)) (trueRange (dser n h) (dser n l) (shift (dser n c) 1)) w false) i = rk y ∧
      ix (UO.avg (UO.buyingPressure (ser n l) (ser n c)) (trueRange (ser n h) (ser n l) (shift (ser n c) 1)) w false) i = .fin z ∧
      |y - z| ≤ (2.05 * w + 3.1) * eps ∧ 0 ≤ z ∧ z ≤ 1 := by
  have he := eps_pos (K := K)
  have hbp : Def (UO.buyingPressure (ser n l) (ser n c)) n 1 (bpd l c) := by
    refine ⟨by simp [UO.buyingPressure, ser], fun i hi h0 => ?_, fun i hi h0 => ?_⟩ <;>
    · unfold UO.buyingPressure
      rw [ix_ssub (by simpa [ser] using hi), ix_zip2 (by simpa [ser] using hi), ix_prev (by simpa [ser] using hi),
        (def_ser n l).val i hi (Nat.zero_le _), (def_ser n c).val i hi (Nat.zero_le _)]
      first
      | rw [if_pos (by omega)]; simp
      | rw [if_neg (by omega), (def_ser n c).val (i - 1) (by omega) (Nat.zero_le _), npMin2_fin, fin_sub]; rfl
  have htr := true_range_formula n h l c fun i hi => le_trans (S.order i hi).1 (S.order i hi).2
  have h1 := hbp.rollSum (w := w) (.inl hw)
  have h2 := htr.rollSum (w := w) (.inl hw)
  have lb : (UO.buyingPressure (dser n l) (dser n c)).length = n := by simp [UO.buyingPressure, rser]
  have lt : (trueRange (dser n h) (dser n l) (shift (dser n c) 1)).length = n := by simp [trueRange, rser]
  have D1 : ∀ s t : Series (Double K), s.length = n → t.length = n → ix (UO.avg s t w false) i = ix (rollSum w w s) i /. ix (rollSum w w t) i := by
    intro s t hs ht
    unfold UO.avg
    rw [ix_sdiv (by simpa [hs] using hi)]; rfl
  have E1 : ix (UO.avg (UO.buyingPressure (ser n l) (ser n c)) (trueRange (ser n h) (ser n l) (shift (ser n c) 1)) w false) i =
      ix (rollSum w w (UO.buyingPressure (ser n l) (ser n c))) i /. ix (rollSum w w (trueRange (ser n h) (ser n l) (shift (ser n c) 1))) i := by
    unfold UO.avg
    rw [ix_sdiv (by simpa [hbp.len] using hi)]; rfl
  rw [D1 _ _ lb lt, E1]
  rcases Nat.lt_or_ge i w with hiw | hiw
  · left
    have z : ix (UO.buyingPressure (dser n l) (dser n c)) 0 = Val.nan := by
      have h0 : 0 < n := by omega
      unfold UO.buyingPressure
      rw [ix_ssub (by simpa [rser] using h0), ix_zip2 (by simpa [rser] using h0), ix_shift (by simpa [rser] using h0), if_pos (by omega),
        ix_rk h0, ix_rk h0]
      rfl
    rw [rollSum_first lb z hi hiw, h1.gap i hi (by omega)]
    exact ⟨rfl, by simp⟩
  have Tg : 2 * T ≤ huge := by linarith [S.hi, two_grand (K := K)]
  have p0 := petty_pos (K := K)
  obtain ⟨a, a1, a2⟩ := rollSum_rel lb hw hw2 hi hiw (f := bpd l c) (T := T) (fun j q r => (S.bpd_mem q r).1.imp id tiny_petty.trans)
    (fun j q r => (S.bpd_mem q r).2.2.trans (S.trd_mem q r).2) Tg (fun j q r => S.bp_row q r)
  obtain ⟨b, b1, b2⟩ := rollSum_rel lt hw hw2 hi hiw (f := trd h l c) (T := T) (fun j q r => (S.trd_mem q r).1.imp id tiny_petty.trans)
    (fun j q r => (S.trd_mem q r).2) Tg (fun j q r => S.tr_row q r _)
  have eD : wsum (fun i => if i = 0 then h 0 - l 0 else max (h i) (c (i - 1)) - min (l i) (c (i - 1))) w i = wsum (trd h l c) w i := by
    unfold wsum
    refine Finset.sum_congr rfl fun j hj => ?_
    rw [mem_Ico] at hj
    dsimp only
    rw [if_neg (by omega)]; rfl
  rw [a1, b1, h1.val i hi (by omega), h2.val i hi (by omega), eD]
  have N0 : 0 ≤ wsum (bpd l c) w i := by
    unfold wsum
    refine Finset.sum_nonneg fun j hj => ?_
    rw [mem_Ico] at hj
    exact (S.bpd_mem (by omega) (by omega)).2.1
  have ND : wsum (bpd l c) w i ≤ wsum (trd h l c) w i := wsum_mono' hiw hi fun j q r => (S.bpd_mem q r).2.2
  generalize wsum (bpd l c) w i = N at *
  generalize wsum (trd h l c) w i = D at *
  rcases eq_or_lt_of_le (N0.trans ND) with hD | hD
  · left
    subst hD
    have n0 : N = 0 := le_antisymm ND N0
    subst n0
    rw [mul_zero, mul_zero, sub_zero, abs_nonpos_iff] at a2 b2
    subst a2; subst b2
    exact ⟨zero_div_zero_double, by rw [fin_div_zero]; simp⟩
  right
  have w0 : (0 : K) ≤ 1.01 * (w + 1) := by have : (0 : K) ≤ w := Nat.cast_nonneg _; linarith
  have w1 : 1.01 * ((w : K) + 1) * eps ≤ 0.003 := by have := eps_win (K := K) hw2; linarith
  have NDe : eps * N ≤ eps * D := mul_le_mul_of_nonneg_left ND he.le
  obtain ⟨y, y1, y2⟩ := wquot_near (b := 1) hD tiny_le_one (by linarith [thousand_le_cap (K := K)]) w0 w0 w1 w1 (by rw [abs_of_nonneg N0, one_mul]; exact ND)
    (by rw [one_mul]; exact a2.trans (mul_le_mul_of_nonneg_left NDe w0)) b2
  refine ⟨y, N / D, y1, fin_div _ _ hD.ne', y2.trans ?_, div_nonneg N0 hD.le, (div_le_one hD).mpr ND⟩
  have : (0 : K) ≤ w * eps := mul_nonneg (Nat.cast_nonneg _) he.le
  linarith

/-! ## the weighted mean of the three averages -/

theorem ix_uoRun' {F : Type} [Flt F] {h l c : Series F} (w1 w2 w3 : Nat) (a b d : F) (fillna : Bool) {i : Nat} (hi : i < c.length) :
    ix (UO.run h l c w1 w2 w3 a b d fillna) i =
      ((lit 100 *. ((a *. ix (UO.avg (UO.buyingPressure l c) (trueRange h l (shift c 1)) w1 fillna) i)
        +. (b *. ix (UO.avg (UO.buyingPressure l c) (trueRange h l (shift c 1)) w2 fillna) i)
        +. (d *. ix (UO.avg (UO.buyingPressure l c) (trueRange h l (shift c 1)) w3 fillna) i)))
        /. (a +. b +. d)) := by
  have hl : ∀ w, i < (UO.avg (UO.buyingPressure l c) (trueRange h l (shift c 1)) w fillna).length := fun w => by
    simpa [UO.avg, UO.buyingPressure] using hi
  unfold UO.run
  dsimp only
  rw [ix_divc (by simpa using hl w1), ix_cmul (by simpa using hl w1), ix_sadd (by simpa using hl w1),
    ix_sadd (by simpa using hl w1), ix_cmul (hl w1), ix_cmul (hl w2), ix_cmul (hl w3)]

theorem weigh_near {a x z κ : K} (ha : petty ≤ a) (ha2 : a ≤ grand) (hκ : κ ≤ 1 / 100) (hx : |x - z| ≤ κ) (hz : 0 ≤ z) (hz1 : z ≤ 1) :
    ∃ y, (rk a *. rk x : Double K) = rk y ∧ |y - a * z| ≤ a * (κ + 1.02 * eps) := by
  have he := eps_pos (K := K)
  have p0 := petty_pos (K := K)
  have a0 : 0 < a := p0.trans_le ha
  have gc := grand_cap (K := K)
  have hx1 : |x| ≤ 1.01 := by
    have := abs_le.mp hx
    rw [abs_le]; constructor <;> linarith [this.1, this.2]
  obtain ⟨y, y1, y2⟩ := near_mul (x := a) (y := x) (B := 1.01 * a) (by
    rw [abs_mul, abs_of_pos a0, mul_comm]; exact mul_le_mul_of_nonneg_right hx1 a0.le) (by linarith [tiny_petty (K := K)]) (by linarith [grand_pos (K := K)])
  refine ⟨y, y1, ?_⟩
  have e : |a * x - a * z| ≤ a * κ := by
    rw [← mul_sub, abs_mul, abs_of_pos a0]; exact mul_le_mul_of_nonneg_left hx a0.le
  have := near_trans y2 e
  have : 0 ≤ a * eps := (mul_pos a0 he).le
  linarith

theorem weigh_sum {S A B C u v t κ a b d : K} (ha : 0 ≤ A) (hb : 0 ≤ B) (hd : 0 ≤ C) (hA : A ≤ a) (hB : B ≤ b) (hC : C ≤ d) (hS : S = a + b + d) (hS1 : petty ≤ S) (hS2 : S ≤ 3 * grand)
    (hκ0 : 0 ≤ κ) (hκ : κ * eps ≤ 0.0025) (hu : |u - A| ≤ a * (κ * eps + 1.02 * eps)) (hv : |v - B| ≤ b * (κ * eps + 1.02 * eps)) (ht : |t - C| ≤ d * (κ * eps + 1.02 * eps)) :
    ∃ m, (rk 100 *. ((rk u +. rk v) +. rk t) : Double K) = rk m ∧ |m - 100 * (A + B + C)| ≤ (κ + 4.07) * (eps * (100 * S)) := by
  have he := eps_pos (K := K)
  have he1 := eps_tenth (K := K)
  have p0 := petty_pos (K := K)
  have g0 := grand_pos (K := K)
  have gc := grand_cap (K := K)
  have tp := tiny_petty (K := K)
  have S0 : 0 < S := p0.trans_le hS1
  have ce : κ * eps + 1.02 * eps ≤ 0.003 := by linarith
  have ua := mul_le_mul_of_nonneg_left ce (ha.trans hA)
  have ub := mul_le_mul_of_nonneg_left ce (hb.trans hB)
  have ud := mul_le_mul_of_nonneg_left ce (hd.trans hC)
  have eκ : a * (κ * eps + 1.02 * eps) + b * (κ * eps + 1.02 * eps) + d * (κ * eps + 1.02 * eps) = κ * (eps * S) + 1.02 * (eps * S) := by rw [hS]; ring
  have cS : κ * (eps * S) ≤ 0.0025 * S := by
    rw [← mul_assoc]
    exact mul_le_mul_of_nonneg_right hκ S0.le
  obtain ⟨x, hx⟩ : ∃ x, x = a * (κ * eps + 1.02 * eps) := ⟨_, rfl⟩
  obtain ⟨y, hy⟩ : ∃ y, y = b * (κ * eps + 1.02 * eps) := ⟨_, rfl⟩
  obtain ⟨z, hz⟩ : ∃ z, z = d * (κ * eps + 1.02 * eps) := ⟨_, rfl⟩
  rw [← hx] at hu ua eκ
  rw [← hy] at hv ub eκ
  rw [← hz] at ht ud eκ
  have eS : eps * S ≤ 1 / 100000 * S := mul_le_mul_of_nonneg_right he1 S0.le
  have eS0 : 0 < eps * S := mul_pos he S0
  have e1 : (κ + 4.07) * (eps * (100 * S)) = 100 * (κ * (eps * S)) + 407 * (eps * S) := by ring
  have e2 : ∀ r : K, eps * (r * S) = r * (eps * S) := fun r => by ring
  rw [e1]
  obtain ⟨E, hE⟩ : ∃ E, E = eps * S := ⟨_, rfl⟩
  obtain ⟨Q, hQ⟩ : ∃ Q, Q = κ * (eps * S) := ⟨_, rfl⟩
  have Q0 : 0 ≤ Q := by rw [hQ]; exact mul_nonneg hκ0 eS0.le
  rw [← hQ] at eκ cS
  rw [← hE] at eS eS0 eκ
  clear hx hy hz
  obtain ⟨u3, u4⟩ := abs_le.mp hu
  obtain ⟨v3, v4⟩ := abs_le.mp hv
  obtain ⟨t3, t4⟩ := abs_le.mp ht
  obtain ⟨r, r1, r2⟩ := near_add (x := u) (y := v) (B := 1.01 * S) (by rw [abs_le]; constructor <;> linarith) (by linarith) (by linarith)
  rw [e2, ← hE] at r2
  obtain ⟨r3, r4⟩ := abs_le.mp r2
  obtain ⟨q, q1, q2⟩ := near_add (x := r) (y := t) (B := 1.01 * S) (by rw [abs_le]; constructor <;> linarith) (by linarith) (by linarith)
  rw [e2, ← hE] at q2
  obtain ⟨q3, q4⟩ := abs_le.mp q2
  obtain ⟨m, m1, m2⟩ := near_mul (x := 100) (y := q) (B := 101 * S) (by rw [abs_le]; constructor <;> linarith) (by linarith) (by linarith)
  rw [e2, ← hE] at m2
  obtain ⟨m3, m4⟩ := abs_le.mp m2
  refine ⟨m, by rw [r1, q1, m1], ?_⟩
  rw [← hQ, ← hE, abs_le]
  constructor <;> linarith

theorem add3_near {a b d S : K} (ha : 0 < a) (hb : 0 < b) (hd : 0 < d) (hS : S = a + b + d) (hS1 : petty ≤ S) (hS2 : S ≤ 3 * grand) :
    ∃ f, ((rk a +. rk b) +. rk d : Double K) = rk f ∧ |f - S| ≤ 2.01 * (eps * S) := by
  have he := eps_pos (K := K)
  have he1 := eps_tenth (K := K)
  have p0 := petty_pos (K := K)
  have g0 := grand_pos (K := K)
  have gc := grand_cap (K := K)
  have tp := tiny_petty (K := K)
  have S0 : 0 < S := p0.trans_le hS1
  have eS : eps * S ≤ 1 / 100000 * S := mul_le_mul_of_nonneg_right he1 S0.le
  have eS0 : 0 < eps * S := mul_pos he S0
  obtain ⟨e, e1, e2⟩ := near_add (x := a) (y := b) (B := S) (by rw [abs_le]; constructor <;> linarith) (by linarith) (by linarith)
  obtain ⟨e3, e4⟩ := abs_le.mp e2
  obtain ⟨f, f1, f2⟩ := near_add (x := e) (y := d) (B := 1.001 * S) (by rw [abs_le]; constructor <;> linarith) (by linarith) (by linarith)
  rw [show eps * (1.001 * S) = 1.001 * (eps * S) by ring] at f2
  obtain ⟨f3, f4⟩ := abs_le.mp f2
  refine ⟨f, by rw [e1, f1], ?_⟩
  rw [abs_le]
  constructor <;> linarith

/-- C125, one row: three averages in `[0, 1]` known to `κ`, weighted -/
theorem uo_row {a b d x1 x2 x3 z1 z2 z3 κ : K} (ha : petty ≤ a) (ha2 : a ≤ grand) (hb : petty ≤ b) (hb2 : b ≤ grand) (hd : petty ≤ d) (hd2 : d ≤ grand)
    (hκ0 : 0 ≤ κ) (hκ : κ * eps ≤ 0.0025) (hx1 : |x1 - z1| ≤ κ * eps) (hx2 : |x2 - z2| ≤ κ * eps) (hx3 : |x3 - z3| ≤ κ * eps)
    (hz1 : 0 ≤ z1 ∧ z1 ≤ 1) (hz2 : 0 ≤ z2 ∧ z2 ≤ 1) (hz3 : 0 ≤ z3 ∧ z3 ≤ 1) :
    ∃ y, ((lit 100 *. ((rk a *. rk x1) +. (rk b *. rk x2) +. (rk d *. rk x3))) /. (rk a +. rk b +. rk d) : Double K) = rk y ∧
      |y - 100 * (a * z1 + b * z2 + d * z3) / (a + b + d)| ≤ 100 * (1.01 * κ + 7.3) * eps := by
  have he := eps_pos (K := K)
  have he1 := eps_tenth (K := K)
  have p0 := petty_pos (K := K)
  have t1 := tiny_le_one (K := K)
  have tc := thousand_le_cap (K := K)
  obtain ⟨u, u1, u2⟩ := weigh_near ha ha2 (by linarith) hx1 hz1.1 hz1.2
  obtain ⟨v, v1, v2⟩ := weigh_near hb hb2 (by linarith) hx2 hz2.1 hz2.2
  obtain ⟨t, t1', t2⟩ := weigh_near hd hd2 (by linarith) hx3 hz3.1 hz3.2
  have a0 : 0 < a := p0.trans_le ha
  have b0 : 0 < b := p0.trans_le hb
  have d0 : 0 < d := p0.trans_le hd
  have na := mul_le_of_le_one_right a0.le hz1.2
  have nb := mul_le_of_le_one_right b0.le hz2.2
  have nd := mul_le_of_le_one_right d0.le hz3.2
  have na0 := mul_nonneg a0.le hz1.1
  have nb0 := mul_nonneg b0.le hz2.1
  have nd0 := mul_nonneg d0.le hz3.1
  have S0 : 0 < a + b + d := by linarith
  obtain ⟨m, m1, m2⟩ := weigh_sum na0 nb0 nd0 na nb nd rfl (by linarith) (by linarith) hκ0 hκ u2 v2 t2
  obtain ⟨f, f1, f2⟩ := add3_near a0 b0 d0 rfl (by linarith) (by linarith)
  rw [lit100k, u1, v1, t1', m1, f1]
  obtain ⟨y, y1, y2⟩ := wquot_near (N := 100 * (a * z1 + b * z2 + d * z3)) (D := a + b + d) (N' := m) (D' := f) (b := 100) (α := κ + 4.07) (β := 2.01) S0
    (by linarith) (by linarith) (by linarith) (by norm_num) (by linarith) (by linarith) (by rw [abs_le]; constructor <;> linarith) m2 f2
  refine ⟨y, y1, y2.trans ?_⟩
  have : 0 ≤ κ * eps := mul_nonneg hκ0 he.le
  linarith

/-- C125. The ultimate oscillator: NaN exactly where exact arithmetic gives NaN, and otherwise within `100 (2.1 w + 11) 2^-53`, where
`w` is the longest of the three windows. -/
theorem uo_double (S : Ticked n h l c T) {w1 w2 w3 w : Nat} (h1 : 1 ≤ w1) (h2 : 1 ≤ w2) (h3 : 1 ≤ w3) (m1 : w1 ≤ w) (m2 : w2 ≤ w) (m3 : w3 ≤ w)
    (hw : w ≤ 2 ^ 40) {a b d : K} (ha : petty ≤ a) (ha2 : a ≤ grand) (hb : petty ≤ b) (hb2 : b ≤ grand) (hd : petty ≤ d) (hd2 : d ≤ grand) :
    CloseTo (100 * (2.1 * w + 11) * eps : K) (ultimateOscillator (dser n h) (dser n l) (dser n c) w1 w2 w3 (rk a) (rk b) (rk d) false)
      (ultimateOscillator (ser n h) (ser n l) (ser n c) w1 w2 w3 (.fin a) (.fin b) (.fin d) false) := by
  have he := eps_pos (K := K)
  have he1 := eps_tenth (K := K)
  have p0 := petty_pos (K := K)
  show CloseTo _ (UO.run (dser n h) (dser n l) (dser n c) w1 w2 w3 (rk a) (rk b) (rk d) false)
    (UO.run (ser n h) (ser n l) (ser n c) w1 w2 w3 (.fin a) (.fin b) (.fin d) false)
  refine ⟨by simp [UO.run, UO.avg, UO.buyingPressure, ser, rser], fun i hi => ?_⟩
  have hi : i < n := by simpa [UO.run, UO.avg, UO.buyingPressure, ser] using hi
  rw [ix_uoRun' _ _ _ _ _ _ _ (by simpa [rser] using hi), ix_uoRun' _ _ _ _ _ _ _ (by simpa [ser] using hi)]
  have nl : ∀ x : Double K, (Val.nan +. x : Double K) = Val.nan := fun x => by cases x <;> rfl
  have nr : ∀ x : Double K, (x +. Val.nan : Double K) = Val.nan := fun x => by cases x <;> rfl
  have mr : ∀ x : Double K, (x *. Val.nan : Double K) = Val.nan := fun x => by cases x <;> rfl
  have dl : ∀ x : Double K, (Val.nan /. x : Double K) = Val.nan := fun x => by cases x <;> rfl
  rcases uoAvg_double S h1 (m1.trans hw) hi with ⟨r1, s1⟩ | ⟨x1, z1, r1, s1, k1, o1⟩
  · left; rw [r1, s1, mr, nl, nl, mr, dl]; exact ⟨rfl, by simp⟩
  rcases uoAvg_double S h2 (m2.trans hw) hi with ⟨r2, s2⟩ | ⟨x2, z2, r2, s2, k2, o2⟩
  · left; rw [r2, s2, mr, nr, nl, mr, dl]; exact ⟨rfl, by simp⟩
  rcases uoAvg_double S h3 (m3.trans hw) hi with ⟨r3, s3⟩ | ⟨x3, z3, r3, s3, k3, o3⟩
  · left; rw [r3, s3, mr, nr, mr, dl]; exact ⟨rfl, by simp⟩
  right
  have W : ∀ v : Nat, v ≤ w → (2.05 * v + 3.1) * eps ≤ (2.05 * w + 3.1) * (eps : K) := fun v hv => by
    have : (v : K) ≤ w := by exact_mod_cast hv
    exact mul_le_mul_of_nonneg_right (by linarith) he.le
  have we := eps_win (K := K) hw
  have w0 : (0 : K) ≤ w := Nat.cast_nonneg _
  have we0 : (0 : K) ≤ w * eps := mul_nonneg w0 he.le
  obtain ⟨y, y1, y2⟩ := uo_row ha ha2 hb hb2 hd hd2 (κ := (2.05 * w + 3.1 : K)) (by linarith) (by linarith) (k1.trans (W _ m1)) (k2.trans (W _ m2))
    (k3.trans (W _ m3)) o1 o2 o3
  refine ⟨y, 100 * (a * z1 + b * z2 + d * z3) / (a + b + d), ?_, ?_, y2.trans ?_⟩
  · rw [r1, r2, r3]; exact y1
  · rw [s1, s2, s3]
    simp only [fin_mul, fin_add, lit_fin]
    rw [fin_div _ _ (show a + b + d ≠ 0 from (show 0 < a + b + d by linarith).ne')]
    push_cast
    rfl
  · linarith

/-! ## the vortex lines -/

/-- the way from the last low to the high, and from the last high to the low -/
def vup (h l : Nat → K) (j : Nat) : K := |h j - l (j - 1)|
def vdn (h l : Nat → K) (j : Nat) : K := |l j - h (j - 1)|

/-- real bars, with a tick between the extremes of neighbouring bars as well -/
structure Turning (n : Nat) (h l c : Nat → K) (T : K) : Prop extends Ticked n h l c T where
  open' : ∀ i, i < n → l i < h i
  up : ∀ i, i + 1 < n → Tick (h (i + 1)) (l i)
  dn : ∀ i, i + 1 < n → Tick (l (i + 1)) (h i)

theorem move_row {x p : Nat → K} {B : K} (hB : B ≤ cap) (ht : ∀ i, i + 1 < n → Tick (x (i + 1)) (p i)) (hb : ∀ i, i + 1 < n → |x (i + 1) - p i| ≤ B)
    {j : Nat} (hj : j < n) (h1 : 1 ≤ j) :
    ∃ y, ix (sabs (ssub (dser n x) (shift (dser n p) 1))) j = rk y ∧ |y - abs (x j - p (j - 1))| ≤ 1.001 * (eps * abs (x j - p (j - 1))) := by
  obtain ⟨k, rfl⟩ : ∃ k, j = k + 1 := ⟨j - 1, by omega⟩
  rw [show k + 1 - 1 = k by omega]
  obtain ⟨v, v1, v2⟩ := (ht k hj).dist ((hb k hj).trans hB)
  refine ⟨v, ?_, v2⟩
  rw [ix_sabs (by simpa [rser] using hj), ix_ssub (by simpa [rser] using hj), ix_shift (by simpa [rser] using hj), if_neg (by omega),
    show k + 1 - 1 = k by omega, ix_rk hj, ix_rk (show k < n by omega), v1]

theorem move_first {x p : Nat → K} (h0 : 0 < n) : ix (sabs (ssub (dser n x) (shift (dser n p) 1))) 0 = Val.nan := by
  rw [ix_sabs (by simpa [rser] using h0), ix_ssub (by simpa [rser] using h0), ix_shift (by simpa [rser] using h0), if_pos (by omega), ix_rk h0]
  rfl

theorem two_pow_grand {w : Nat} (hw : w ≤ 2 ^ 40) : (w * grand) / petty * 1024 ≤ (cap : K) ∧ tiny * (w * grand) ≤ (petty : K) := by
  have hw' : (w : K) ≤ 2 ^ (40 : ℤ) := by exact_mod_cast (by exact_mod_cast hw : (w : K) ≤ 2 ^ 40)
  have g0 := grand_pos (K := K)
  have p0 := petty_pos (K := K)
  have wg : (w : K) * grand ≤ 2 ^ (440 : ℤ) := by
    refine (mul_le_mul_of_nonneg_right hw' g0.le).trans_eq ?_
    unfold grand
    rw [← zpow_add₀ (by norm_num)]; norm_num only
  constructor
  · have : (2 : K) ^ (440 : ℤ) / petty * 1024 = 2 ^ (850 : ℤ) := by
      unfold petty
      rw [show (1024 : K) = 2 ^ (10 : ℤ) by norm_num, ← zpow_sub₀ (by norm_num), ← zpow_add₀ (by norm_num)]; norm_num only
    refine le_trans (mul_le_mul_of_nonneg_right (div_le_div_of_nonneg_right wg p0.le) (by norm_num)) (this.le.trans ?_)
    exact zpow_le_zpow_right₀ (by norm_num) (by norm_num)
  · refine (mul_le_mul_of_nonneg_left wg tiny_pos.le).trans ?_
    have : (tiny : K) * 2 ^ (440 : ℤ) = 2 ^ (-460 : ℤ) := by
      unfold tiny
      rw [← zpow_add₀ (by norm_num)]; norm_num only
    rw [this]
    exact zpow_le_zpow_right₀ (by norm_num) (by norm_num)

/-- one line: a sum of moves over the sum of the true ranges -/
theorem vline_double (S : Turning n h l c T) {x p : Nat → K} (ht : ∀ i, i + 1 < n → Tick (x (i + 1)) (p i))
    (hb : ∀ i, i + 1 < n → |x (i + 1) - p i| ≤ 2 * T) {w : Nat} (hw : 1 ≤ w) (hw2 : w ≤ 2 ^ 39) (m : Double K) {i : Nat} (hi : i < n) (hiw : w ≤ i) (hT : 4 * T ≤ grand) :
    ∃ y, (ix (rollSum w w (sabs (ssub (dser n x) (shift (dser n p) 1)))) i /.
        ix (rollSum w w (trueRange (dser n h) (dser n l) (shift (dser n c) 1 m))) i : Double K) = rk y ∧
      (wsum (fun j => |x j - p (j - 1)|) w i / wsum (trd h l c) w i = 0 ∨ tiny ≤ wsum (fun j => |x j - p (j - 1)|) w i / wsum (trd h l c) w i) ∧
      1000 * (wsum (fun j => |x j - p (j - 1)|) w i / wsum (trd h l c) w i) ≤ cap ∧
      |y - wsum (fun j => |x j - p (j - 1)|) w i / wsum (trd h l c) w i| ≤
        (2.05 * w + 3.1) * eps * (wsum (fun j => |x j - p (j - 1)|) w i / wsum (trd h l c) w i) := by
  have he := eps_pos (K := K)
  have p0 := petty_pos (K := K)
  have g0 := grand_pos (K := K)
  have w40 : w ≤ 2 ^ 40 := by omega
  have Tg : 2 * (2 * T) ≤ huge := by linarith [two_grand (K := K)]
  have T0 : 0 < T := p0.trans_le S.lo
  have hf : ∀ j, j < n → 1 ≤ j → |x j - p (j - 1)| = 0 ∨ petty ≤ |x j - p (j - 1)| := fun j q r => by
    obtain ⟨k, rfl⟩ : ∃ k, j = k + 1 := ⟨j - 1, by omega⟩
    exact (ht k q).imp (fun t => by rw [show k + 1 - 1 = k by omega, t, sub_self, abs_zero]) id
  have hfT : ∀ j, j < n → 1 ≤ j → |x j - p (j - 1)| ≤ 2 * T := fun j q r => by
    obtain ⟨k, rfl⟩ : ∃ k, j = k + 1 := ⟨j - 1, by omega⟩
    exact hb k q
  obtain ⟨a, a1, a2⟩ := rollSum_rel (s := sabs (ssub (dser n x) (shift (dser n p) 1))) (by simp [rser]) hw w40 hi hiw (f := fun j => |x j - p (j - 1)|) (T := 2 * T)
    (fun j q r => (hf j q r).imp id tiny_petty.trans) hfT Tg
    (fun j q r => move_row (by linarith [grand_le_cap (K := K)]) ht hb q r)
  obtain ⟨b, b1, b2⟩ := rollSum_rel (s := trueRange (dser n h) (dser n l) (shift (dser n c) 1 m)) (by simp [trueRange, rser]) hw w40 hi hiw (f := trd h l c) (T := T)
    (fun j q r => (S.trd_mem q r).1.imp id tiny_petty.trans) (fun j q r => (S.trd_mem q r).2) (by linarith) (fun j q r => S.tr_row q r m)
  rw [a1, b1]
  have card : ∀ (f : Nat → K) (B : K), (∀ j, j < n → 1 ≤ j → f j ≤ B) → wsum f w i ≤ w * B := by
    intro f B hB
    unfold wsum
    refine (Finset.sum_le_card_nsmul _ _ B fun j hj => hB j ?_ ?_).trans_eq ?_
    · rw [mem_Ico] at hj; omega
    · rw [mem_Ico] at hj; omega
    · rw [Nat.card_Ico, show i + 1 - (i + 1 - w) = w by omega, nsmul_eq_mul]
  have Nle := card _ _ hfT
  have Dle := card _ _ fun j q r => (S.trd_mem q r).2
  have N0 : 0 ≤ wsum (fun j => |x j - p (j - 1)|) w i := Finset.sum_nonneg fun j _ => abs_nonneg _
  have Nor : wsum (fun j => |x j - p (j - 1)|) w i = 0 ∨ petty ≤ wsum (fun j => |x j - p (j - 1)|) w i := by
    by_cases q : ∀ j ∈ Ico (i + 1 - w) (i + 1), |x j - p (j - 1)| = 0
    · left; exact Finset.sum_eq_zero q
    · right
      push Not at q
      obtain ⟨j, j1, j2⟩ := q
      have j3 := mem_Ico.mp j1
      exact ((hf j (by omega) (by omega)).resolve_left j2).trans (Finset.single_le_sum (f := fun j => |x j - p (j - 1)|) (fun j _ => abs_nonneg _) j1)
  have tpos : ∀ j, j < n → 1 ≤ j → petty ≤ trd h l c j := fun j q r => by
    refine (S.trd_mem q r).1.resolve_left ?_
    unfold trd
    have m1 := le_max_left (h j) (c (j - 1))
    have m2 := min_le_left (l j) (c (j - 1))
    have := S.open' j q
    intro z; linarith
  have Dge : petty ≤ wsum (trd h l c) w i := by
    refine (tpos i hi (by omega)).trans (Finset.single_le_sum (f := trd h l c) (fun j hj => ?_) (mem_Ico.mpr ⟨by omega, by omega⟩))
    rw [mem_Ico] at hj
    exact p0.le.trans (tpos j (by omega) (by omega))
  generalize wsum (fun j => |x j - p (j - 1)|) w i = N at *
  generalize wsum (trd h l c) w i = D at *
  have D0 : 0 < D := p0.trans_le Dge
  have w0 : (0 : K) ≤ 1.01 * (w + 1) := by have : (0 : K) ≤ w := Nat.cast_nonneg _; linarith
  have w1 : 1.01 * ((w : K) + 1) * eps ≤ 0.003 := by have := eps_win (K := K) w40; linarith
  rcases Nor with hN | hN
  · subst hN
    rw [mul_zero, mul_zero, sub_zero, abs_nonpos_iff] at a2
    subst a2
    have b0 : b ≠ 0 := by
      rintro rfl
      rw [zero_sub, abs_neg, abs_of_pos D0, ← mul_assoc] at b2
      have := mul_le_mul_of_nonneg_right w1 D0.le
      linarith
    exact ⟨0, zero_div_double b0, .inl (zero_div _), by rw [zero_div, mul_zero]; exact (two_zpow_pos _).le, by simp⟩
  obtain ⟨g1, g2⟩ := two_pow_grand (K := K) (w := w) w40
  have wT : (w : K) * (2 * T) ≤ w * grand := mul_le_mul_of_nonneg_left (by linarith) (Nat.cast_nonneg _)
  have wT' : (w : K) * T ≤ w * grand := mul_le_mul_of_nonneg_left (by linarith) (Nat.cast_nonneg _)
  have r1 : tiny ≤ N / D := by
    rw [le_div_iff₀ D0]
    refine le_trans ?_ hN
    exact (mul_le_mul_of_nonneg_left (Dle.trans wT') tiny_pos.le).trans g2
  have r2 : 1000 * (N / D) ≤ cap := by
    have : N / D ≤ (w * grand) / petty := div_le_div₀ (mul_nonneg (Nat.cast_nonneg _) g0.le) (Nle.trans wT) p0 Dge
    linarith [div_nonneg N0 D0.le]
  have q0 : N / D * D = N := div_mul_cancel₀ _ D0.ne'
  obtain ⟨y, y1, y2⟩ := wquot_near (b := N / D) (N := N) (D := D) (N' := a) (D' := b) D0
    r1 (by linarith [div_nonneg N0 D0.le])
    w0 w0 w1 w1 (by rw [q0, abs_of_nonneg N0]) (by rw [q0]; exact a2) b2
  refine ⟨y, y1, .inr r1, r2, y2.trans (mul_le_mul_of_nonneg_right ?_ (div_nonneg N0 D0.le))⟩
  have : (0 : K) ≤ w * eps := mul_nonneg (Nat.cast_nonneg _) he.le
  linarith

/-- the exact lines -/
theorem vortex_rows (S : Turning n h l c T) {w : Nat} (hw : 1 ≤ w) :
    Def (Vortex.vip (ser n h) (ser n l) (ser n c) w false) n w (fun i => wsum (vup h l) w i / wsum (trd h l c) w i) ∧
    Def (Vortex.vin (ser n h) (ser n l) (ser n c) w false) n w (fun i => wsum (vdn h l) w i / wsum (trd h l c) w i) := by
  rcases Nat.eq_zero_or_pos n with n0 | n0
  · subst n0
    refine ⟨⟨by simp [Vortex.vip, ser], fun i hi => by omega, fun i hi => by omega⟩, ⟨by simp [Vortex.vin, ser], fun i hi => by omega, fun i hi => by omega⟩⟩
  have hm : ∀ i, min i (n - 1) < n := fun i => by omega
  obtain ⟨P, M, e1, e2, d1, d2, -⟩ := vortex_formula (n := n) (h := fun i => h (min i (n - 1))) (l := fun i => l (min i (n - 1))) (c := fun i => c (min i (n - 1)))
    (fun i => S.open' _ (hm i)) hw false
  rw [ser_clamp, ser_clamp, ser_clamp] at d1 d2
  have den : ∀ i, i < n → w ≤ i → ∑ j ∈ Ico (i + 1 - w) (i + 1), trP (fun i => h (min i (n - 1))) (fun i => l (min i (n - 1))) (prevOr n (fun i => c (min i (n - 1))) 1) j = wsum (trd h l c) w i := by
    intro i hi hiw
    refine Finset.sum_congr rfl fun j hj => ?_
    rw [mem_Ico] at hj
    unfold trP prevOr trd
    dsimp only
    rw [if_neg (by omega), show min j (n - 1) = j by omega, show min (j - 1) (n - 1) = j - 1 by omega]
  refine ⟨d1.congr fun i hi hiw => ?_, d2.congr fun i hi hiw => ?_⟩
  · rw [e1, den i hi hiw, show max 1 (i + 1 - w) = i + 1 - w from max_eq_right (by simp only [Bool.false_eq_true, if_false] at hiw; omega)]
    refine congrArg (· / _) (Finset.sum_congr rfl fun j hj => ?_)
    rw [mem_Ico] at hj
    rw [show min j (n - 1) = j by omega, show min (j - 1) (n - 1) = j - 1 by omega]; rfl
  · rw [e2, den i hi hiw, show max 1 (i + 1 - w) = i + 1 - w from max_eq_right (by simp only [Bool.false_eq_true, if_false] at hiw; omega)]
    refine congrArg (· / _) (Finset.sum_congr rfl fun j hj => ?_)
    rw [mem_Ico] at hj
    rw [show min j (n - 1) = j by omega, show min (j - 1) (n - 1) = j - 1 by omega]; rfl

/-- each line in double precision, row by row -/
theorem vortex_lines (S : Turning n h l c T) (hT : 4 * T ≤ grand) {w : Nat} (hw : 1 ≤ w) (hw2 : w ≤ 2 ^ 39) {i : Nat} (hi : i < n) :
    (i < w → ix (Vortex.vip (dser n h) (dser n l) (dser n c) w false) i = Val.nan ∧ ix (Vortex.vin (dser n h) (dser n l) (dser n c) w false) i = Val.nan) ∧
    (w ≤ i → (∃ y, ix (Vortex.vip (dser n h) (dser n l) (dser n c) w false) i = rk y ∧
        (wsum (vup h l) w i / wsum (trd h l c) w i = 0 ∨ tiny ≤ wsum (vup h l) w i / wsum (trd h l c) w i) ∧
        1000 * (wsum (vup h l) w i / wsum (trd h l c) w i) ≤ cap ∧
        |y - wsum (vup h l) w i / wsum (trd h l c) w i| ≤ (2.05 * w + 3.1) * eps * (wsum (vup h l) w i / wsum (trd h l c) w i)) ∧
      ∃ y, ix (Vortex.vin (dser n h) (dser n l) (dser n c) w false) i = rk y ∧
        (wsum (vdn h l) w i / wsum (trd h l c) w i = 0 ∨ tiny ≤ wsum (vdn h l) w i / wsum (trd h l c) w i) ∧
        1000 * (wsum (vdn h l) w i / wsum (trd h l c) w i) ≤ cap ∧
        |y - wsum (vdn h l) w i / wsum (trd h l c) w i| ≤ (2.05 * w + 3.1) * eps * (wsum (vdn h l) w i / wsum (trd h l c) w i)) := by
  have bound : ∀ (x p : Nat → K), (∀ i, i + 1 < n → |x (i + 1) - c i| ≤ T) → (∀ i, i < n → |c i - p i| ≤ T) → ∀ i, i + 1 < n → |x (i + 1) - p i| ≤ 2 * T := by
    intro x p h1 h2 i hi
    have := near_trans (h1 i hi) (h2 i (by omega))
    linarith
  have bu := bound h l S.nearH fun i hi => by
    have := S.order i hi; have := S.bar i hi
    rw [abs_of_nonneg (by linarith)]; linarith
  have bd := bound l h S.nearL fun i hi => by
    have := S.order i hi; have := S.bar i hi
    rw [abs_sub_comm, abs_of_nonneg (by linarith)]; linarith
  have ev : ∀ x p : Nat → K, ix (sdiv (rollSum w (minp false w) (sabs (ssub (dser n x) (shift (dser n p) 1)))) (Vortex.trn (dser n h) (dser n l) (dser n c) w false)) i =
      (ix (rollSum w w (sabs (ssub (dser n x) (shift (dser n p) 1)))) i /.
        ix (rollSum w w (trueRange (dser n h) (dser n l) (shift (dser n c) 1 (smean (dser n c))))) i : Double K) := fun x p => by
    unfold Vortex.trn
    exact ix_sdiv (by simpa [rser] using hi)
  have gap : ∀ x p : Nat → K, i < w → ix (sdiv (rollSum w (minp false w) (sabs (ssub (dser n x) (shift (dser n p) 1)))) (Vortex.trn (dser n h) (dser n l) (dser n c) w false)) i = Val.nan :=
    fun x p q => by
    rw [ev, rollSum_first (by simp [rser]) (move_first (by omega)) hi q]; rfl
  refine ⟨fun q => ⟨gap h l q, gap l h q⟩, fun q => ⟨?_, ?_⟩⟩
  · obtain ⟨y, y1, y2⟩ := vline_double S S.up bu hw hw2 (smean (dser n c)) hi q hT
    exact ⟨y, (ev h l).trans y1, y2⟩
  · obtain ⟨y, y1, y2⟩ := vline_double S S.dn bd hw hw2 (smean (dser n c)) hi q hT
    exact ⟨y, (ev l h).trans y1, y2⟩

/-- C125. The vortex lines: NaN on the first `w` rows, then a relative error of `(2.05 w + 3.1) 2^-53` for each line; their difference is
within `(2.05 w + 4.2) 2^-53` of the exact one, relative to the sum of the lines. -/
theorem vortex_double (S : Turning n h l c T) (hT : 4 * T ≤ grand) {w : Nat} (hw : 1 ≤ w) (hw2 : w ≤ 2 ^ 39) :
    CloseBy (fun i => (2.05 * w + 3.1) * eps * (wsum (vup h l) w i / wsum (trd h l c) w i))
      (vortexPos (dser n h) (dser n l) (dser n c) w false) (vortexPos (ser n h) (ser n l) (ser n c) w false) ∧
    CloseBy (fun i => (2.05 * w + 3.1) * eps * (wsum (vdn h l) w i / wsum (trd h l c) w i))
      (vortexNeg (dser n h) (dser n l) (dser n c) w false) (vortexNeg (ser n h) (ser n l) (ser n c) w false) ∧
    CloseBy (fun i => (2.05 * w + 4.2) * eps * (wsum (vup h l) w i / wsum (trd h l c) w i + wsum (vdn h l) w i / wsum (trd h l c) w i))
      (vortexDiff (dser n h) (dser n l) (dser n c) w false) (vortexDiff (ser n h) (ser n l) (ser n c) w false) := by
  obtain ⟨d1, d2⟩ := vortex_rows S hw
  have he := eps_pos (K := K)
  have len : ∀ {F : Type} [Flt F] (h l c : Series F), (Vortex.vip h l c w false).length = h.length := fun h l c => by simp [Vortex.vip]
  have len' : ∀ {F : Type} [Flt F] (h l c : Series F), (Vortex.vin h l c w false).length = l.length := fun h l c => by simp [Vortex.vin]
  refine ⟨⟨?_, fun i hi => ?_⟩, ⟨?_, fun i hi => ?_⟩, ⟨?_, fun i hi => ?_⟩⟩
  · show (Vortex.vip _ _ _ w false).length = (Vortex.vip _ _ _ w false).length
    rw [len, len]; simp [ser, rser]
  · have hi : i < n := by
      have : i < (Vortex.vip (ser n h) (ser n l) (ser n c) w false).length := hi
      rwa [d1.len] at this
    have V := vortex_lines S hT hw hw2 hi
    rcases Nat.lt_or_ge i w with q | q
    · exact .inl ⟨(V.1 q).1, d1.gap i hi q⟩
    · obtain ⟨⟨y, y1, -, -, y2⟩, -⟩ := V.2 q
      exact .inr ⟨y, _, y1, d1.val i hi q, y2⟩
  · show (Vortex.vin _ _ _ w false).length = (Vortex.vin _ _ _ w false).length
    rw [len', len']; simp [ser, rser]
  · have hi : i < n := by
      have : i < (Vortex.vin (ser n h) (ser n l) (ser n c) w false).length := hi
      rwa [d2.len] at this
    have V := vortex_lines S hT hw hw2 hi
    rcases Nat.lt_or_ge i w with q | q
    · exact .inl ⟨(V.1 q).2, d2.gap i hi q⟩
    · obtain ⟨-, ⟨y, y1, -, -, y2⟩⟩ := V.2 q
      exact .inr ⟨y, _, y1, d2.val i hi q, y2⟩
  · show (ssub (Vortex.vip _ _ _ w false) (Vortex.vin _ _ _ w false)).length = (ssub (Vortex.vip _ _ _ w false) (Vortex.vin _ _ _ w false)).length
    simp [len, ser, rser]
  · have hi : i < n := by
      have : i < (ssub (Vortex.vip (ser n h) (ser n l) (ser n c) w false) (Vortex.vin (ser n h) (ser n l) (ser n c) w false)).length := hi
      simpa [len, ser] using this
    have V := vortex_lines S hT hw hw2 hi
    have e1 : ix (vortexDiff (dser n h) (dser n l) (dser n c) w false) i =
        (ix (Vortex.vip (dser n h) (dser n l) (dser n c) w false) i -. ix (Vortex.vin (dser n h) (dser n l) (dser n c) w false) i : Double K) :=
      ix_ssub (by rw [len]; simpa [rser] using hi)
    have e2 : ix (vortexDiff (ser n h) (ser n l) (ser n c) w false) i =
        (ix (Vortex.vip (ser n h) (ser n l) (ser n c) w false) i -. ix (Vortex.vin (ser n h) (ser n l) (ser n c) w false) i) :=
      ix_ssub (by rw [len]; simpa [ser] using hi)
    rw [e1, e2]
    rcases Nat.lt_or_ge i w with q | q
    · rw [(V.1 q).1, (V.1 q).2, d1.gap i hi q, d2.gap i hi q]
      exact .inl ⟨rfl, rfl⟩
    · obtain ⟨⟨y, y1, yor, ycap, y2⟩, ⟨z, z1, zor, zcap, z2⟩⟩ := V.2 q
      rw [y1, z1, d1.val i hi q, d2.val i hi q, fin_sub]
      right
      beta_reduce
      generalize wsum (vup h l) w i / wsum (trd h l c) w i = P at *
      generalize wsum (vdn h l) w i / wsum (trd h l c) w i = M at *
      have t0 := tiny_pos (K := K)
      have P0 : 0 ≤ P := by rcases yor with h | h <;> linarith
      have M0 : 0 ≤ M := by rcases zor with h | h <;> linarith
      obtain ⟨κ, hκ⟩ : ∃ κ : K, κ = (2.05 * w + 3.1) * eps := ⟨_, rfl⟩
      have κ1 : κ ≤ 1 / 100 := by
        have := eps_win (K := K) (w := w) (by omega)
        have w0 : (0 : K) ≤ w * eps := mul_nonneg (Nat.cast_nonneg _) he.le
        rw [hκ]; linarith
      rw [← hκ] at y2 z2
      have κP := mul_le_mul_of_nonneg_right κ1 P0
      have κM := mul_le_mul_of_nonneg_right κ1 M0
      obtain ⟨y3, y4⟩ := abs_le.mp y2
      obtain ⟨z3, z4⟩ := abs_le.mp z2
      by_cases PM : P = 0 ∧ M = 0
      · obtain ⟨rfl, rfl⟩ := PM
        have ey : y = 0 := by linarith
        have ez : z = 0 := by linarith
        subst ey; subst ez
        exact ⟨0, _, sub_self_double _, rfl, by simp⟩
      have tB : tiny ≤ 1.01 * (P + M) := by
        rcases yor with a | a
        · rcases zor with b | b
          · exact absurd ⟨a, b⟩ PM
          · linarith
        · linarith
      obtain ⟨u, u1, u2⟩ := near_sub (x := y) (y := z) (B := 1.01 * (P + M)) (by rw [abs_le]; constructor <;> linarith) tB (by linarith)
      rw [show eps * (1.01 * (P + M)) = 1.01 * (eps * (P + M)) by ring] at u2
      obtain ⟨u3, u4⟩ := abs_le.mp u2
      refine ⟨u, _, u1, rfl, ?_⟩
      have eB : (2.05 * w + 4.2) * eps * (P + M) = κ * P + κ * M + 1.1 * (eps * (P + M)) := by rw [hκ]; ring
      have e0 : 0 ≤ eps * (P + M) := mul_nonneg he.le (by linarith)
      show |u - (P - M)| ≤ (2.05 * w + 4.2) * eps * (P + M)
      rw [eB, abs_le]
      constructor <;> linarith

/-! ## concrete bars -/

end dbl

theorem tick_int {a b : ℤ} : Tick (a : ℚ) (b : ℚ) := by
  by_cases h : a = b
  · left; rw [h]
  · right
    have : (1 : ℚ) ≤ |(a : ℚ) - b| := by exact_mod_cast Int.one_le_abs (sub_ne_zero.mpr h)
    exact petty_one.trans this

def zigH : Nat → ℤ | 0 => 4 | 1 => 5 | _ => 6
def zigL : Nat → ℤ | 0 => 1 | 1 => 3 | _ => 2
def zigC : Nat → ℤ | 0 => 2 | 1 => 4 | _ => 3

/-- the hypotheses hold of three ordinary bars -/
example : Turning 3 (fun i => (zigH i : ℚ)) (fun i => (zigL i : ℚ)) (fun i => (zigC i : ℚ)) 4 := by
  refine { lo := petty_one.trans (by norm_num), hi := ?_, order := ?_, bar := ?_, nearH := ?_, nearL := ?_, hl := fun _ _ => tick_int, cl := fun _ _ => tick_int,
           hp := fun _ _ => tick_int, lp := fun _ _ => tick_int, cp := fun _ _ => tick_int, up := fun _ _ => tick_int, dn := fun _ _ => tick_int, open' := ?_ }
  · have : (2 : ℚ) ^ (2 : ℤ) ≤ 2 ^ (400 : ℤ) := zpow_le_zpow_right₀ (by norm_num) (by norm_num)
    exact le_trans (by norm_num) this
  all_goals
    intro i hi
    rcases i with _ | _ | _ | i <;> first | omega | norm_num [zigH, zigL, zigC]

example : ultimateOscillator (dser 3 (fun i => (zigH i : ℚ))) (dser 3 (fun i => (zigL i : ℚ))) (dser 3 (fun i => (zigC i : ℚ))) 1 2 2 (rk 4) (rk 2) (rk 1) =
    ([Val.nan, Val.nan, rk (4595509823847445 / 140737488355328)] : Series (Double ℚ)) ∧
    ultimateOscillator (ser 3 (fun i => (zigH i : ℚ))) (ser 3 (fun i => (zigL i : ℚ))) (ser 3 (fun i => (zigC i : ℚ))) 1 2 2 (.fin 4) (.fin 2) (.fin 1) =
    [.nan, .nan, .fin (1600 / 49)] := by decide +kernel

example : vortexNeg (dser 3 (fun i => (zigH i : ℚ))) (dser 3 (fun i => (zigL i : ℚ))) (dser 3 (fun i => (zigC i : ℚ))) 2 =
    ([Val.nan, Val.nan, rk (2573485501354569 / 4503599627370496)] : Series (Double ℚ)) ∧
    vortexNeg (ser 3 (fun i => (zigH i : ℚ))) (ser 3 (fun i => (zigL i : ℚ))) (ser 3 (fun i => (zigC i : ℚ))) 2 = [.nan, .nan, .fin (4 / 7)] := by decide +kernel

end TA
