import Verif.Props.C114
import Verif.Props.C122

/-!
# C123 — the money flow index in double precision

`ta/volume.py:387-421` gives every row the sign of the change of its typical price, so a rounding error in the typical price
can turn a flow round.  When the typical prices of neighbouring rows are either computed from the same three numbers or further
apart than their rounding errors, the index is accurate, in whatever order numpy adds the flows up; when they agree only as
exact numbers, the index can be anything.
-/

set_option linter.unusedSectionVars false

namespace TA
open Finset

section dbl
variable {K : Type} [Field K] [LinearOrder K] [IsStrictOrderedRing K] [FloorRing K]

/-! ## sums in any order, with a relative error -/

/-- **A sum in any order** is wrong by at most `d` roundings of the sum of the absolute values. -/
theorem AddsUp.rel {l : List (Double K)} {a : Double K} {d : Nat} (h : AddsUp l a d) (hd : d ≤ 2 ^ 40) (hl : ∀ x ∈ l, ∃ y : K, x = rk y ∧ (y = 0 ∨ tiny ≤ |y|))
    (hc : 2 * (l.map fun x => |rnum x|).sum ≤ cap) :
    ∃ S : K, a = rk S ∧ |S - (l.map rnum).sum| ≤ 1.01 * d * (eps * (l.map fun x => |rnum x|).sum) ∧ |(l.map rnum).sum| ≤ (l.map fun x => |rnum x|).sum ∧
      ((l.map fun x => |rnum x|).sum = 0 ∨ tiny ≤ (l.map fun x => |rnum x|).sum) := by
  induction h with
  | nil d => exact ⟨0, lit0, by simp, by simp, .inl (by simp)⟩
  | one x d =>
    obtain ⟨y, rfl, hy⟩ := hl x (by simp)
    refine ⟨y, rfl, ?_, by simp, ?_⟩
    · simp
      have := eps_pos (K := K)
      positivity
    · simpa using hy
  | @add l m a b d h1 h2 i1 i2 =>
    have nn : ∀ l : List (Double K), 0 ≤ (l.map fun x => |rnum x|).sum := fun l => List.sum_nonneg fun x hx => by
      obtain ⟨i, _, rfl⟩ := List.mem_map.mp hx
      exact abs_nonneg _
    have a0 := nn l
    have b0 := nn m
    rw [List.map_append, List.sum_append] at hc
    obtain ⟨S, e1, p1, q1, r1⟩ := i1 (by omega) (fun x hx => hl x (by simp [hx])) (by linarith)
    obtain ⟨T, e2, p2, q2, r2⟩ := i2 (by omega) (fun x hx => hl x (by simp [hx])) (by linarith)
    rw [List.map_append, List.sum_append, List.map_append, List.sum_append]
    generalize (l.map fun x => |rnum x|).sum = A at *
    generalize (m.map fun x => |rnum x|).sum = B at *
    generalize (l.map rnum).sum = s at *
    generalize (m.map rnum).sum = t at *
    have he := eps_pos (K := K)
    have k0 : (0 : K) ≤ d := Nat.cast_nonneg d
    have q : |s + t| ≤ A + B := (abs_add_le _ _).trans (by linarith)
    have r : A + B = 0 ∨ tiny ≤ A + B := by
      rcases r1 with r1 | r1
      · rcases r2 with r2 | r2
        · left; rw [r1, r2, add_zero]
        · right; linarith
      · right; linarith
    have st : |S + T - (s + t)| ≤ 1.01 * d * (eps * (A + B)) := by
      have := abs_add_le (S - s) (T - t)
      rw [show S - s + (T - t) = S + T - (s + t) by ring] at this
      linarith
    rcases r with r | r
    · refine ⟨0, ?_, ?_, q, .inl r⟩
      · have e : S + T = 0 := by
          rw [r] at q st
          rw [mul_zero, mul_zero, abs_nonpos_iff.mp q, sub_zero] at st
          exact abs_nonpos_iff.mp st
        rw [e1, e2]
        show (binary64 : Rounding K).rd (S + T) = _
        rw [e]
        exact (binary64 : Rounding K).zero
      · rw [r] at q ⊢
        rw [abs_nonpos_iff.mp q]
        simp
    · have sm : 1.01 * (d : K) * (eps * (A + B)) ≤ 0.002 * (A + B) := by
        have := mul_le_mul_of_nonneg_right (eps_win (K := K) (w := d) (by omega)) (add_nonneg a0 b0)
        have : 0 ≤ eps * (A + B) := by positivity
        linarith
      obtain ⟨z, z1, z2⟩ := near_add (x := S) (y := T) (B := 1.002 * (A + B))
        (by have := abs_add_le (S + T - (s + t)) (s + t)
            rw [sub_add_cancel] at this
            linarith) (by linarith) (by linarith)
      refine ⟨z, by rw [e1, e2, z1], ?_, q, .inr r⟩
      have := abs_add_le (z - (S + T)) (S + T - (s + t))
      rw [sub_add_sub_cancel] at this
      push_cast
      have : 0 ≤ eps * (A + B) := by positivity
      linarith
  | perm p h i =>
    have := i hd (fun x hx => hl x (p.subset hx)) (by rwa [(p.map _).sum_eq])
    rwa [(p.map rnum).sum_eq, (p.map fun x => |rnum x|).sum_eq] at this

/-! ## the flow of a row -/

/-- bars with positive prices; `sep` is about the typical prices of neighbouring rows -/
structure Flowing (n : Nat) (h l c v : Nat → K) : Prop where
  lo : ∀ i, i < n → petty ≤ h i ∧ petty ≤ l i ∧ petty ≤ c i
  hi : ∀ i, i < n → h i ≤ grand ∧ l i ≤ grand ∧ c i ≤ grand
  vol : ∀ i, i < n → v i = 0 ∨ petty ≤ v i ∧ v i ≤ grand
  sep : ∀ i, i + 1 < n → h (i + 1) = h i ∧ l (i + 1) = l i ∧ c (i + 1) = c i ∨
    4 * eps * ((h i + l i + c i) / 3 + (h (i + 1) + l (i + 1) + c (i + 1)) / 3) ≤ |(h (i + 1) + l (i + 1) + c (i + 1)) / 3 - (h i + l i + c i) / 3|

/-- the typical price of positive prices, with a relative error -/
theorem tp_rel {h l c : K} (hh : petty ≤ h) (hl : petty ≤ l) (hc : petty ≤ c) (hh2 : h ≤ grand) (hl2 : l ≤ grand) (hc2 : c ≤ grand) :
    ∃ t, (((rk h +. rk l) +. rk c) /. lit 3 : Double K) = rk t ∧ |t - (h + l + c) / 3| ≤ 3.02 * (eps * ((h + l + c) / 3)) := by
  have he := eps_pos (K := K)
  have he1 := eps_tenth (K := K)
  have p0 := petty_pos (K := K)
  have lo := tiny_petty (K := K)
  have hi : 1000 * grand ≤ (cap : K) := by linarith [grand_le (K := K), huge_cap' (K := K), p0]
  obtain ⟨a, a1, a2⟩ := near_add (x := h) (y := l) (B := h + l) (by rw [abs_of_pos (by linarith)]) (by linarith) (by linarith)
  have hs : 0 < h + l := by linarith
  have sm : eps * (h + l) ≤ 1 / 100000 * (h + l) := mul_le_mul_of_nonneg_right he1 hs.le
  have a3 := abs_le.mp a2
  obtain ⟨s, s1, s2⟩ := near_add (x := a) (y := c) (B := 1.0001 * (h + l + c)) (by rw [abs_of_pos (by linarith)]; linarith) (by linarith) (by linarith)
  set X := h + l + c with hX
  have X0 : 0 < X := by linarith
  have eX : eps * X ≤ 1 / 100000 * X := mul_le_mul_of_nonneg_right he1 X0.le
  have s3 : |s - X| ≤ 2.003 * (eps * X) := by
    have := abs_add_le (s - (a + c)) (a - (h + l))
    rw [show s - (a + c) + (a - (h + l)) = s - X by rw [hX]; ring] at this
    have : eps * (h + l) ≤ eps * X := mul_le_mul_of_nonneg_left (by linarith) he.le
    have : 0 < eps * X := by positivity
    linarith
  have s4 : |s / 3 - X / 3| ≤ 2.003 * (eps * (X / 3)) := by
    rw [← sub_div, abs_div, abs_of_pos (by norm_num : (0 : K) < 3), div_le_iff₀ (by norm_num)]
    linarith
  have s5 : |s / 3| ≤ 1.001 * (X / 3) := by
    have := abs_add_le (s / 3 - X / 3) (X / 3)
    rw [sub_add_cancel, abs_of_pos (by linarith : 0 < X / 3)] at this
    linarith
  obtain ⟨t, t1, t2⟩ := near_div (by norm_num : (3 : K) ≠ 0) s5 (by linarith) (by linarith)
  refine ⟨t, ?_, ?_⟩
  · rw [a1, s1, show (lit 3 : Double K) = rk 3 from lit_double (k := 3) (by norm_num) (by norm_num) (by norm_num), t1]
  · have := abs_add_le (t - s / 3) (s / 3 - X / 3)
    rw [sub_add_sub_cancel] at this
    have : 0 < eps * (X / 3) := by positivity
    linarith

/-- typical price times volume -/
theorem flow_rel {t T v : K} (hT : petty ≤ T) (hT2 : T ≤ grand) (hv : v = 0 ∨ petty ≤ v ∧ v ≤ grand) (ht : |t - T| ≤ 3.02 * (eps * T)) :
    ∃ z, (binary64 : Rounding K).rd (t * v) = Val.fin z ∧ |z - T * v| ≤ 4.03 * (eps * (T * v)) := by
  rcases hv with rfl | ⟨v1, v2⟩
  · exact ⟨0, by rw [mul_zero]; exact (binary64 : Rounding K).zero, by simp⟩
  · have he := eps_pos (K := K)
    have he1 := eps_tenth (K := K)
    have p0 := petty_pos (K := K)
    have v0 : 0 < v := p0.trans_le v1
    have T0 : 0 < T := p0.trans_le hT
    have lo : tiny ≤ T * v := petty_sq.trans (mul_le_mul hT v1 p0.le T0.le)
    have hi : 1000 * (T * v) ≤ huge := le_trans (by linarith [mul_le_mul hT2 v2 v0.le (T0.le.trans hT2)]) (grand_sq (K := K))
    have e : eps * T ≤ 1 / 100000 * T := mul_le_mul_of_nonneg_right he1 T0.le
    have q : |t * v - T * v| ≤ 3.02 * (eps * (T * v)) := by
      rw [← sub_mul, abs_mul, abs_of_pos v0]
      have := mul_le_mul_of_nonneg_right ht v0.le
      linarith
    have tv : 0 < T * v := mul_pos T0 v0
    have e2 : eps * (T * v) ≤ 1 / 100000 * (T * v) := mul_le_mul_of_nonneg_right he1 tv.le
    obtain ⟨z, z1, z2⟩ := near_mul (x := t) (y := v) (B := 1.0001 * (T * v))
      (by have := abs_add_le (t * v - T * v) (T * v)
          rw [sub_add_cancel, abs_of_pos tv] at this
          linarith) (by linarith) (by linarith [huge_cap' (K := K), tiny_pos (K := K)])
    refine ⟨z, z1, ?_⟩
    have := abs_add_le (z - t * v) (t * v - T * v)
    rw [sub_add_sub_cancel] at this
    have : 0 < eps * (T * v) := by positivity
    linarith

variable {n : Nat} {h l c v : Nat → K}

/-- **every flow has the right sign** and a small relative error -/
theorem mflow_rows (H : Flowing n h l c v) :
    ∃ m : Nat → K, MFI.flow (dser n h) (dser n l) (dser n c) (dser n v) = dser n m ∧
      ∀ i, i < n → |m i - mflow (fun i => (h i + l i + c i) / 3) v i| ≤ 4.03 * (eps * |mflow (fun i => (h i + l i + c i) / 3) v i|) := by
  have he := eps_pos (K := K)
  have p0 := petty_pos (K := K)
  have ext : ∀ i, i < n → ∃ t, (((rk (h i) +. rk (l i)) +. rk (c i)) /. lit 3 : Double K) = rk t ∧ |t - (h i + l i + c i) / 3| ≤ 3.02 * (eps * ((h i + l i + c i) / 3)) :=
    fun i hi => tp_rel (H.lo i hi).1 (H.lo i hi).2.1 (H.lo i hi).2.2 (H.hi i hi).1 (H.hi i hi).2.1 (H.hi i hi).2.2
  choose! t t1 t2 using ext
  have tp : typicalPrice (dser n h) (dser n l) (dser n c) = dser n t := by
    refine dser_of_rows (by simp [typicalPrice, rser]) fun i hi => ?_
    unfold typicalPrice
    rw [ix_divc (by simpa [rser] using hi), ix_sadd (by simpa [rser] using hi), ix_sadd (by simpa [rser] using hi), ix_rk hi, ix_rk hi, ix_rk hi]
    exact t1 i hi
  have ex : ∀ i, i < n → ∃ z, ix (MFI.flow (dser n h) (dser n l) (dser n c) (dser n v)) i = rk z ∧
      |z - mflow (fun i => (h i + l i + c i) / 3) v i| ≤ 4.03 * (eps * |mflow (fun i => (h i + l i + c i) / 3) v i|) := by
    intro i hi
    set T : Nat → K := fun i => (h i + l i + c i) / 3 with hT
    have Tlo : ∀ j, j < n → petty ≤ T j := fun j hj => by
      show petty ≤ (h j + l j + c j) / 3
      linarith [(H.lo j hj).1, (H.lo j hj).2.1, (H.lo j hj).2.2]
    have Thi : ∀ j, j < n → T j ≤ grand := fun j hj => by
      show (h j + l j + c j) / 3 ≤ grand
      linarith [(H.hi j hj).1, (H.hi j hj).2.1, (H.hi j hj).2.2]
    obtain ⟨z, z1, z2⟩ := flow_rel (Tlo i hi) (Thi i hi) (H.vol i hi) (t2 i hi)
    have zz : (binary64 : Rounding K).rd z = Val.fin z := (binary64 : Rounding K).idem z1
    have v0 : 0 ≤ v i := by
      rcases H.vol i hi with e | e
      · exact e.ge
      · exact p0.le.trans e.1
    have Tv : 0 ≤ T i * v i := mul_nonneg (p0.le.trans (Tlo i hi)) v0
    have prod : (rk (t i) *. rk (v i) : Double K) = rk z := z1
    have by0 : (rk z *. rk 0 : Double K) = rk 0 := by
      show (binary64 : Rounding K).rd (z * 0) = _
      rw [mul_zero]; exact (binary64 : Rounding K).zero
    have by1 : (rk z *. rk 1 : Double K) = rk z := by
      show (binary64 : Rounding K).rd (z * 1) = _
      rw [mul_one]; exact zz
    have bym : (rk z *. rk (-1) : Double K) = rk (-z) := by
      show (binary64 : Rounding K).rd (z * -1) = _
      rw [mul_neg_one, (binary64 : Rounding K).odd, zz]; rfl
    have l1 : (lit 1 : Double K) = rk 1 := lit1k
    have l0 : (lit 0 : Double K) = rk 0 := lit0k
    have lm : (lit (-1) : Double K) = rk (-1) := lit_double (k := -1) (by norm_num) (by norm_num) (by norm_num)
    unfold MFI.flow
    dsimp only
    rw [tp, ix_smul (by simpa [rser] using hi), ix_smul (by simpa [rser] using hi), ix_zip2 (by simpa [rser] using hi), ix_shift (by simpa [rser] using hi), ix_rk hi, ix_rk hi, prod, l1, l0, lm]
    by_cases i0 : i < 1
    · rw [if_pos i0]
      refine ⟨0, by0, ?_⟩
      unfold mflow
      rw [if_pos (by omega)]
      simp
    · obtain ⟨k, rfl⟩ : ∃ k, i = k + 1 := ⟨i - 1, by omega⟩
      have hk : k < n := by omega
      rw [if_neg i0, Nat.add_sub_cancel, ix_rk hk]
      have lt : ∀ a b : K, ((rk a : Double K) <. rk b) = decide (a < b) := fun a b => rfl
      rw [lt, lt]
      unfold mflow
      rw [if_neg (Nat.succ_ne_zero k), Nat.add_sub_cancel]
      have u1 := t2 k hk
      have u2 := t2 (k + 1) hi
      change |t k - T k| ≤ 3.02 * (eps * T k) at u1
      change |t (k + 1) - T (k + 1)| ≤ 3.02 * (eps * T (k + 1)) at u2
      have u3 := abs_le.mp u1
      have u4 := abs_le.mp u2
      have w1 : 0 < eps * T k := mul_pos he (p0.trans_le (Tlo k hk))
      have w2 : 0 < eps * T (k + 1) := mul_pos he (p0.trans_le (Tlo (k + 1) hi))
      rcases H.sep k hi with ⟨s1, s2, s3⟩ | s
      · have e : t (k + 1) = t k := by
          have a := t1 k hk
          have b := t1 (k + 1) hi
          rw [s1, s2, s3, a] at b
          have := Val.fin.inj b
          exact this.symm
        have e' : T (k + 1) = T k := by
          show (h (k + 1) + l (k + 1) + c (k + 1)) / 3 = (h k + l k + c k) / 3
          rw [s1, s2, s3]
        rw [e, e', if_neg (lt_irrefl _), if_neg (lt_irrefl _)]
        refine ⟨0, ?_, by simp⟩
        simp only [lt_irrefl, decide_false, Bool.false_eq_true, if_false]
        exact by0
      · change 4 * eps * (T k + T (k + 1)) ≤ |T (k + 1) - T k| at s
        have s' : 4 * (eps * T k) + 4 * (eps * T (k + 1)) ≤ |T (k + 1) - T k| := by linarith
        rcases abs_cases (T (k + 1) - T k) with ⟨q, q'⟩ | ⟨q, q'⟩
        · rw [q] at s'
          have a : t k < t (k + 1) := by linarith [u3.2, u4.1]
          rw [if_pos (by linarith : T k < T (k + 1)), abs_of_nonneg Tv]
          refine ⟨z, ?_, z2⟩
          simp only [a, decide_true, if_true]
          exact by1
        · rw [q] at s'
          have a : t (k + 1) < t k := by linarith [u3.1, u4.2]
          rw [if_neg (by linarith : ¬ T k < T (k + 1)), if_pos (by linarith : T (k + 1) < T k), abs_neg, abs_of_nonneg Tv]
          refine ⟨-z, ?_, ?_⟩
          · simp only [a, decide_true, if_true, not_lt.mpr a.le, decide_false, Bool.false_eq_true, if_false]
            exact bym
          · rw [show -z - -(T (k + 1) * v (k + 1)) = -(z - T (k + 1) * v (k + 1)) by ring, abs_neg]
            exact z2
  choose! m m1 m2 using ex
  exact ⟨m, dser_of_rows (by simp [MFI.flow, typicalPrice, rser]) m1, m2⟩

/-! ## the index -/

/-- the index of two sums with a small relative error -/
theorem mfi_sums {P N p q ρ : K} (hP : 0 ≤ P) (hN : 0 ≤ N) (hρ0 : 0 ≤ ρ) (hρ : ρ ≤ 1 / 100) (h1 : |p - P| ≤ ρ * P) (h2 : |q - N| ≤ ρ * N) :
    let out : Double K := lit 100 -. (lit 100 /. (lit 1 +. (rk p /. rk q)))
    if P + N = 0 then out = Val.nan else ∃ y, out = rk y ∧ |y - 100 * P / (P + N)| ≤ 100 * ρ + 600 * eps := by
  intro out
  have he := eps_pos (K := K)
  have p1 := abs_le.mp h1
  have q1 := abs_le.mp h2
  have p2 : 0.99 * P ≤ p := by have := mul_le_mul_of_nonneg_right hρ hP; linarith [p1.1]
  have q2 : 0.99 * N ≤ q := by have := mul_le_mul_of_nonneg_right hρ hN; linarith [q1.1]
  split_ifs with z
  · have a : P = 0 := by linarith
    have b : N = 0 := by linarith
    have a' : p = 0 := rel_zero a h1
    have b' : q = 0 := rel_zero b h2
    show (lit 100 -. (lit 100 /. (lit 1 +. (rk p /. rk q))) : Double K) = _
    rw [a', b', zero_div_zero_double, lit100k, lit1k]
    rfl
  · have s0 : 0 < P + N := lt_of_le_of_ne (add_nonneg hP hN) (Ne.symm z)
    rcases hN.eq_or_lt with n0 | n0
    · have b' : q = 0 := rel_zero n0.symm h2
      have P0 : 0 < P := by linarith
      have p0 : 0 < p := by linarith
      refine ⟨100, ?_, ?_⟩
      · have e : (rk p /. rk q : Double K) = (Val.pinf : Val K) := by
          rw [b']
          show (binary64 : Rounding K).rnd (Val.div (.fin p) (.fin 0)) = _
          have : Val.div (.fin p) (.fin 0) = (Val.pinf : Val K) := by simp [Val.div, p0, p0.ne']
          rw [this]; rfl
        show (lit 100 -. (lit 100 /. (lit 1 +. (rk p /. rk q))) : Double K) = _
        rw [e, lit100k, lit1k]
        show (rk 100 -. ((rk 100 : Double K) /. (Val.pinf : Val K))) = _
        have e1 : (rk 100 /. (Val.pinf : Val K) : Double K) = rk 0 := (binary64 : Rounding K).zero
        rw [e1]
        show (binary64 : Rounding K).rd (100 + -0) = _
        rw [neg_zero, add_zero]
        exact (binary64 : Rounding K).hundred
      · rw [← n0, add_zero, mul_div_assoc, div_self P0.ne', mul_one, sub_self, abs_zero]
        positivity
    · have q0 : 0 < q := lt_of_lt_of_le (by positivity) q2
      have p0 : 0 ≤ p := le_trans (by positivity) p2
      obtain ⟨y, y1, y2⟩ := squash_near p0 q0
      refine ⟨y, y1, ?_⟩
      have k := rsi_stable (U := P) (D := N) p0 q0.le (by linarith) (E := ρ * (P + N)) (h1.trans (by have := mul_nonneg hρ0 hN; linarith))
        (h2.trans (by have := mul_nonneg hρ0 hP; linarith)) s0 le_rfl
      rw [show 100 * (ρ * (P + N)) / (P + N) = 100 * ρ by field_simp] at k
      have := abs_add_le (y - 100 * p / (p + q)) (100 * p / (p + q) - 100 * P / (P + N))
      rw [sub_add_sub_cancel] at this
      linarith

/-- the two sums of a window -/
theorem flow_sums {m f : Nat → K} {w i : Nat} (hw : w ≤ 2 ^ 40) (hf : ∀ j, j ≤ i → f j = 0 ∨ 2 * tiny ≤ |f j| ∧ 500 * |f j| ≤ huge)
    (hm : ∀ j, j ≤ i → |m j - f j| ≤ 4.03 * (eps * |f j|)) (g : K → K) (hg0 : g 0 = 0) (hg : ∀ x y, |g x - g y| ≤ |x - y|)
    (hs : ∀ x y : K, |x - y| ≤ 4.03 * (eps * |y|) → g x = 0 ∧ g y = 0 ∨ |g y| = |y| ∧ |g x| = |x|)
    {a : Double K} {d : Nat} (hd : d ≤ 2 ^ 38) (ha : AddsUp ((winIx w i).map fun j => (rk (g (m j)) : Double K)) a d) :
    ∃ S, a = rk S ∧ |S - ((winIx w i).map fun j => g (f j)).sum| ≤ (1.02 * d + 4.03) * eps * ((winIx w i).map fun j => |g (f j)|).sum := by
  have he := eps_pos (K := K)
  have he1 := eps_tenth (K := K)
  have hj : ∀ j ∈ winIx w i, j ≤ i := fun j hj => by have := mem_winIx.mp hj; omega
  have gf : ∀ j ∈ winIx w i, |g (m j) - g (f j)| ≤ 4.03 * (eps * |g (f j)|) := fun j h => by
    rcases hs (m j) (f j) (hm j (hj j h)) with ⟨a, b⟩ | ⟨a, b⟩
    · rw [a, b]; simp
    · rw [a]; exact (hg _ _).trans (hm j (hj j h))
  have big : ∀ j ∈ winIx w i, |g (m j)| ≤ 1.001 * |g (f j)| := fun j h => by
    have := abs_add_le (g (m j) - g (f j)) (g (f j))
    rw [sub_add_cancel] at this
    have k := mul_le_mul_of_nonneg_right he1 (abs_nonneg (g (f j)))
    linarith [gf j h, abs_nonneg (g (f j))]
  have tn : ∀ j ∈ winIx w i, g (m j) = 0 ∨ tiny ≤ |g (m j)| := fun j h => by
    rcases hs (m j) (f j) (hm j (hj j h)) with ⟨a, b⟩ | ⟨a, b⟩
    · exact .inl a
    · rcases hf j (hj j h) with z | ⟨z, _⟩
      · have := hm j (hj j h)
        rw [z, abs_zero, mul_zero, mul_zero, sub_zero] at this
        rw [abs_nonpos_iff.mp this]
        exact .inl hg0
      · right
        rw [b]
        have := abs_add_le (f j - m j) (m j)
        rw [sub_add_cancel, abs_sub_comm] at this
        have k := mul_le_mul_of_nonneg_right he1 (abs_nonneg (f j))
        linarith [hm j (hj j h), tiny_pos (K := K)]
  have S1 : ((winIx w i).map fun j => |g (m j)|).sum ≤ 1.001 * ((winIx w i).map fun j => |g (f j)|).sum := by
    rw [← List.sum_map_mul_left]
    exact List.sum_le_sum big
  have len : ((winIx w i).length : K) ≤ w := by rw [length_winIx]; exact_mod_cast min_le_left _ _
  have S2 : 500 * ((winIx w i).map fun j => |g (f j)|).sum ≤ huge * w := by
    rw [← List.sum_map_mul_left]
    have : ((winIx w i).map fun j => 500 * |g (f j)|).sum ≤ ((winIx w i).map fun _ => (huge : K)).sum := by
      refine List.sum_le_sum fun j h => ?_
      have hh : |g (f j)| ≤ |f j| := by have := hg (f j) 0; rwa [hg0, sub_zero, sub_zero] at this
      rcases hf j (hj j h) with z | ⟨_, z⟩
      · rw [z, hg0, abs_zero, mul_zero]
        exact (two_zpow_pos _).le
      · linarith
    refine this.trans ?_
    rw [List.map_const', List.sum_replicate, nsmul_eq_mul, mul_comm]
    exact mul_le_mul_of_nonneg_left len (two_zpow_pos _).le
  have hcap := huge_win (K := K) hw
  obtain ⟨S, e, b, -, -⟩ := ha.rel (by omega) (fun x hx => by
      obtain ⟨j, h, rfl⟩ := List.mem_map.mp hx
      exact ⟨_, rfl, tn j h⟩) (by
      rw [List.map_map]
      show 2 * ((winIx w i).map fun j => |g (m j)|).sum ≤ cap
      have : 0 ≤ (huge : K) * w := mul_nonneg (two_zpow_pos _).le (Nat.cast_nonneg _)
      linarith)
  refine ⟨S, e, ?_⟩
  rw [List.map_map, List.map_map] at b
  change |S - ((winIx w i).map fun j => g (m j)).sum| ≤ 1.01 * d * (eps * ((winIx w i).map fun j => |g (m j)|).sum) at b
  have D : |((winIx w i).map fun j => g (m j)).sum - ((winIx w i).map fun j => g (f j)).sum| ≤ 4.03 * (eps * ((winIx w i).map fun j => |g (f j)|).sum) := by
    clear b S2 S1 tn big ha len
    generalize winIx w i = L at *
    induction L with
    | nil => simp
    | cons j L ih =>
      simp only [List.map_cons, List.sum_cons]
      have := ih (fun k hk => hj k (by simp [hk])) (fun k hk => gf k (by simp [hk]))
      have k := abs_add_le (g (m j) - g (f j)) ((L.map fun j => g (m j)).sum - (L.map fun j => g (f j)).sum)
      rw [show g (m j) - g (f j) + ((L.map fun j => g (m j)).sum - (L.map fun j => g (f j)).sum) = g (m j) + (L.map fun j => g (m j)).sum - (g (f j) + (L.map fun j => g (f j)).sum) by ring] at k
      linarith [gf j (by simp)]
  have := abs_add_le (S - ((winIx w i).map fun j => g (m j)).sum) (((winIx w i).map fun j => g (m j)).sum - ((winIx w i).map fun j => g (f j)).sum)
  rw [sub_add_sub_cancel] at this
  have d0 : (0 : K) ≤ d := Nat.cast_nonneg d
  have k := mul_le_mul_of_nonneg_left S1 (by positivity : 0 ≤ 1.01 * (d : K) * eps)
  have nn : 0 ≤ ((winIx w i).map fun j => |g (f j)|).sum := List.sum_nonneg fun x hx => by
    obtain ⟨j, _, rfl⟩ := List.mem_map.mp hx
    exact abs_nonneg _
  have k2 : 0 ≤ (d : K) * eps * ((winIx w i).map fun j => |g (f j)|).sum := by positivity
  linarith

theorem clean_window {m : Nat → K} {w i : Nat} (hi : i < n) :
    ((winIx w i).map fun j => clean (ix (dser n m) j)) = (winIx w i).map fun j => (rk (m j) : Double K) := by
  refine List.map_congr_left fun j hj => ?_
  rw [mem_winIx] at hj
  rw [show ix (dser n m) j = rk (m j) from ix_tab_lt (by omega)]
  rfl

theorem rollApply_rk {g : List (Double K) → Double K} {m : Nat → K} {w mp i : Nat} (hi : i < n) :
    ix (rollApply g w mp (dser n m)) i = if mp ≤ min w (i + 1) then g ((winIx w i).map fun j => (rk (m j) : Double K)) else nan := by
  unfold rollApply
  rw [ix_roll' (by simpa [rser] using hi), clean_window hi]
  have vl : valid ((winIx w i).map fun j => (rk (m j) : Double K)) = (winIx w i).map fun j => (rk (m j) : Double K) := by
    unfold valid
    rw [List.filter_eq_self]
    intro x hx
    obtain ⟨j, -, rfl⟩ := List.mem_map.mp hx
    rfl
  unfold aggApply
  rw [vl, List.length_map, length_winIx]

/-- the sizes of exact flows -/
theorem mflow_size (H : Flowing n h l c v) {j : Nat} (hj : j < n) :
    mflow (fun i => (h i + l i + c i) / 3) v j = 0 ∨
      2 * tiny ≤ |mflow (fun i => (h i + l i + c i) / 3) v j| ∧ 500 * |mflow (fun i => (h i + l i + c i) / 3) v j| ≤ huge := by
  have p0 := petty_pos (K := K)
  have key : v j = 0 ∨ 2 * tiny ≤ (h j + l j + c j) / 3 * v j ∧ 500 * ((h j + l j + c j) / 3 * v j) ≤ huge := by
    rcases H.vol j hj with z | ⟨v1, v2⟩
    · exact .inl z
    · right
      have a : petty ≤ (h j + l j + c j) / 3 := by linarith [(H.lo j hj).1, (H.lo j hj).2.1, (H.lo j hj).2.2]
      have b : (h j + l j + c j) / 3 ≤ grand := by linarith [(H.hi j hj).1, (H.hi j hj).2.1, (H.hi j hj).2.2]
      have v0 : 0 < v j := p0.trans_le v1
      have a0 := p0.trans_le a
      constructor
      · refine le_trans ?_ (mul_le_mul a v1 p0.le a0.le)
        have : (2 : K) * 2 ^ (-900 : ℤ) ≤ 2 ^ (-400 : ℤ) * 2 ^ (-400 : ℤ) := by
          rw [← zpow_add₀ (by norm_num), ← zpow_one_add₀ (by norm_num)]
          exact zpow_le_zpow_right₀ (by norm_num) (by norm_num)
        exact this
      · have := mul_le_mul b v2 v0.le (a0.le.trans b)
        have g := grand_sq (K := K)
        have : 0 < (h j + l j + c j) / 3 * v j := by positivity
        linarith
  rcases key with z | z
  · left; unfold mflow; rw [z]; simp
  · have pos : 0 < (h j + l j + c j) / 3 * v j := by linarith [tiny_pos (K := K), z.1]
    unfold mflow
    split_ifs
    · exact .inl rfl
    · right; rw [abs_of_pos pos]; exact z
    · right; rw [abs_neg, abs_of_pos pos]; exact z
    · exact .inl rfl

/-- positive and negative parts, added up over a window -/
theorem win_parts (f : Nat → K) (w i : Nat) :
    ((winIx w i).map fun j => max (f j) 0).sum = ∑ j ∈ Finset.Ico (i + 1 - w) (i + 1), max (f j) 0 ∧
    ((winIx w i).map fun j => |max (f j) 0|).sum = ∑ j ∈ Finset.Ico (i + 1 - w) (i + 1), max (f j) 0 ∧
    ((winIx w i).map fun j => min (f j) 0).sum = -∑ j ∈ Finset.Ico (i + 1 - w) (i + 1), max (-f j) 0 ∧
    ((winIx w i).map fun j => |min (f j) 0|).sum = ∑ j ∈ Finset.Ico (i + 1 - w) (i + 1), max (-f j) 0 := by
  have e : ∀ g : Nat → K, ∑ j ∈ Finset.Ico (i + 1 - w) (i + 1), g j = ((winIx w i).map g).sum := fun _ => rfl
  have mm : ∀ x : K, -max (-x) 0 = min x 0 := fun x => by
    rcases le_total x 0 with h | h
    · rw [min_eq_left h, max_eq_left (by linarith), neg_neg]
    · rw [min_eq_right h, max_eq_right (by linarith), neg_zero]
  rw [e, e]
  refine ⟨rfl, congrArg List.sum (List.map_congr_left fun j _ => abs_of_nonneg (le_max_right _ _)), ?_,
    congrArg List.sum (List.map_congr_left fun j _ => by rw [abs_of_nonpos (min_le_right _ _), ← mm, neg_neg])⟩
  generalize winIx w i = L
  induction L with
  | nil => simp
  | cons j L ih =>
    simp only [List.map_cons, List.sum_cons]
    rw [ih, neg_add, mm]

set_option maxHeartbeats 1000000 in
/-- **MFI in double precision, the flows being added in any order** in which no entry takes part in more than `d` additions. -/
theorem mfi_double_any (H : Flowing n h l c v) {w : Nat} (hw : 1 ≤ w) (hw2 : w ≤ 2 ^ 40) {d : Nat} (hd : d ≤ 2 ^ 38) {σ : List (Double K) → Double K}
    (hσ : ∀ l : List (Double K), l.length ≤ w → AddsUp l (σ l) d) (fillna : Bool) :
    CloseTo ((102 * d + 1003) * eps : K) (moneyFlowIndexBy σ (dser n h) (dser n l) (dser n c) (dser n v) w fillna)
      (moneyFlowIndex (ser n h) (ser n l) (ser n c) (ser n v) w fillna) := by
  have he := eps_pos (K := K)
  have d0 : (0 : K) ≤ d := Nat.cast_nonneg d
  have r0 : 0 ≤ (1.02 * (d : K) + 4.03) * eps := mul_nonneg (by linarith) he.le
  have r1 : (1.02 * (d : K) + 4.03) * eps ≤ 1 / 100 := by
    have := eps_win (K := K) (w := d) (by omega)
    have := eps_tenth (K := K)
    linarith
  obtain ⟨m, m1, m2⟩ := mflow_rows H
  obtain ⟨F1, F2, F3, F4⟩ := mfi_formula n h l c v w fillna hw
  rw [F1]
  unfold moneyFlowIndexBy
  dsimp only
  rw [m1]
  have l50 : (lit 50 : Double K) = rk 50 := lit_double (k := 50) (by norm_num) (by norm_num) (by norm_num)
  have b0 : (0 : K) ≤ (102 * d + 1003) * eps := mul_nonneg (by linarith) he.le
  refine CloseTo.const (y := 50) (z := 50) ?_ l50 rfl (by rw [sub_self, abs_zero]; exact b0) fillna
  set f := mflow (fun i => (h i + l i + c i) / 3) v with hf
  refine ⟨by rw [F2]; simp [rser], fun i hi => ?_⟩
  rw [F2] at hi
  rw [ix_csub (by simpa [rser] using hi), ix_cdiv (by simpa [rser] using hi), ix_cadd (by simpa [rser] using hi), ix_sdiv (by simpa [rser] using hi),
    ix_sabs (by simpa [rser] using hi), rollApply_rk hi, rollApply_rk hi]
  by_cases hm : minp fillna w ≤ min w (i + 1)
  · rw [if_pos hm, if_pos hm]
    have hor : fillna = true ∨ w - 1 ≤ i := by
      cases fillna with
      | true => exact .inl rfl
      | false => right; have : w ≤ min w (i + 1) := hm; omega
    rw [F4 i hi hor]
    have sz : ∀ j, j ≤ i → f j = 0 ∨ 2 * tiny ≤ |f j| ∧ 500 * |f j| ≤ huge := fun j hj => mflow_size H (by omega)
    have er : ∀ j, j ≤ i → |m j - f j| ≤ 4.03 * (eps * |f j|) := fun j hj => m2 j (by omega)
    have small : ∀ y : K, 4.03 * (eps * |y|) ≤ 0.5 * |y| := fun y => by
      have := mul_le_mul_of_nonneg_right (eps_tenth (K := K)) (abs_nonneg y)
      have := abs_nonneg y
      linarith
    have sgn : ∀ x y : K, |x - y| ≤ 4.03 * (eps * |y|) → (0 < y ∧ 0 < x) ∨ (y = 0 ∧ x = 0) ∨ (y < 0 ∧ x < 0) := by
      intro x y hxy
      have a := abs_le.mp (hxy.trans (small y))
      rcases lt_trichotomy y 0 with z | z | z
      · rw [abs_of_neg z] at a
        exact .inr (.inr ⟨z, by linarith [a.2]⟩)
      · rw [z, abs_zero, mul_zero, sub_zero, neg_zero] at a
        exact .inr (.inl ⟨z, le_antisymm a.2 a.1⟩)
      · rw [abs_of_pos z] at a
        exact .inl ⟨z, by linarith [a.1]⟩
    have ap : AddsUp ((winIx w i).map fun j => (rk (max (m j) 0) : Double K)) (MFI.posBy σ ((winIx w i).map fun j => (rk (m j) : Double K))) d := by
      have := hσ ((winIx w i).map fun j => (rk (max (m j) 0) : Double K)) (by rw [List.length_map, length_winIx]; omega)
      unfold MFI.posBy
      rw [List.map_map]
      convert this using 2
      refine List.map_congr_left fun j _ => ?_
      show (if (lit 0 : Double K) <=. rk (m j) then (rk (m j) : Double K) else lit 0) = rk (max (m j) 0)
      rw [lit0k]
      show (if decide (0 ≤ m j) = true then (rk (m j) : Double K) else rk 0) = rk (max (m j) 0)
      by_cases z : 0 ≤ m j
      · simp [z]
      · simp [z, max_eq_right (not_le.mp z).le]
    have an : AddsUp ((winIx w i).map fun j => (rk (min (m j) 0) : Double K)) (MFI.negBy σ ((winIx w i).map fun j => (rk (m j) : Double K))) d := by
      have := hσ ((winIx w i).map fun j => (rk (min (m j) 0) : Double K)) (by rw [List.length_map, length_winIx]; omega)
      unfold MFI.negBy
      rw [List.map_map]
      convert this using 2
      refine List.map_congr_left fun j _ => ?_
      show (if (rk (m j) : Double K) <. lit 0 then (rk (m j) : Double K) else lit 0) = rk (min (m j) 0)
      rw [lit0k]
      show (if decide (m j < 0) = true then (rk (m j) : Double K) else rk 0) = rk (min (m j) 0)
      by_cases z : m j < 0
      · simp [z, min_eq_left z.le]
      · simp [z, min_eq_right (not_lt.mp z)]
    obtain ⟨p, p1, p2⟩ := flow_sums hw2 sz er (fun x => max x 0) (max_self 0) (fun x y => by simpa using abs_max_sub_max_le_max x 0 y 0) (fun x y hxy => by
      rcases sgn x y hxy with ⟨a, b⟩ | ⟨a, b⟩ | ⟨a, b⟩
      · right; rw [max_eq_left a.le, max_eq_left b.le]; exact ⟨rfl, rfl⟩
      · left; rw [a, b, max_self]; exact ⟨rfl, rfl⟩
      · left; rw [max_eq_right a.le, max_eq_right b.le]; exact ⟨rfl, rfl⟩) hd ap
    obtain ⟨q, q1, q2⟩ := flow_sums hw2 sz er (fun x => min x 0) (min_self 0) (fun x y => by simpa using abs_min_sub_min_le_max x 0 y 0) (fun x y hxy => by
      rcases sgn x y hxy with ⟨a, b⟩ | ⟨a, b⟩ | ⟨a, b⟩
      · left; rw [min_eq_right a.le, min_eq_right b.le]; exact ⟨rfl, rfl⟩
      · left; rw [a, b, min_self]; exact ⟨rfl, rfl⟩
      · right; rw [min_eq_left a.le, min_eq_left b.le]; exact ⟨rfl, rfl⟩) hd an
    rw [p1, q1]
    set P := ∑ j ∈ Finset.Ico (i + 1 - w) (i + 1), max (f j) 0 with hP
    set N := ∑ j ∈ Finset.Ico (i + 1 - w) (i + 1), max (-f j) 0 with hN
    obtain ⟨eP, eP', eN, eN'⟩ := win_parts f w i
    rw [← hP] at eP eP'
    rw [← hN] at eN eN'
    have P0 : 0 ≤ P := Finset.sum_nonneg fun j _ => le_max_right _ _
    have N0 : 0 ≤ N := Finset.sum_nonneg fun j _ => le_max_right _ _
    rw [eP, eP'] at p2
    rw [eN, eN', sub_neg_eq_add] at q2
    have q3 : |(|q|) - N| ≤ (1.02 * d + 4.03) * eps * N := by
      have := abs_abs_sub_abs_le q (-N)
      rw [abs_neg, abs_of_nonneg N0, sub_neg_eq_add] at this
      exact this.trans q2
    have k := mfi_sums (ρ := (1.02 * (d : K) + 4.03) * eps) P0 N0 r0 r1 p2 q3
    rw [show (Flt.abs (rk q) : Double K) = rk |q| from rfl]
    change if P + N = 0 then (lit 100 -. (lit 100 /. (lit 1 +. (rk p /. rk |q|))) : Double K) = Val.nan else _ at k
    change _ ∧ (if P + N = 0 then Val.nan else Val.fin (100 * P / (P + N))) = _ ∨ _
    split_ifs at k ⊢ with z
    · exact .inl ⟨k, rfl⟩
    · obtain ⟨y, y1, y2⟩ := k
      exact .inr ⟨y, _, y1, rfl, y2.trans (by linarith)⟩
  · left
    rw [if_neg hm, if_neg hm]
    cases fillna with
    | true => exact absurd (Nat.zero_le _) hm
    | false =>
      refine ⟨by rw [lit100k, lit1k]; rfl, F3 i hi rfl ?_⟩
      have : ¬ w ≤ min w (i + 1) := hm
      omega

/-- C123. MFI, the flows being added from left to right. -/
theorem mfi_double (H : Flowing n h l c v) {w : Nat} (hw : 1 ≤ w) (hw2 : w ≤ 2 ^ 38) (fillna : Bool) :
    CloseTo ((102 * w + 1003) * eps : K) (moneyFlowIndex (dser n h) (dser n l) (dser n c) (dser n v) w fillna)
      (moneyFlowIndex (ser n h) (ser n l) (ser n c) (ser n v) w fillna) :=
  mfi_double_any H hw (by omega) hw2 (σ := sumL) (fun l hl => (AddsUp.sumL l).mono hl) fillna

/-- C123. MFI, the flows being added in numpy's order: 26 additions for windows of up to 128 rows, one more whenever the window doubles. -/
theorem mfi_numpy_double (H : Flowing n h l c v) {w : Nat} (hw : 1 ≤ w) (hw2 : w ≤ 2 ^ 40) {s : Nat} (hs : w ≤ 112 * 2 ^ s + 16) (hs2 : s ≤ 40) (fillna : Bool) :
    CloseTo ((102 * s + 3655) * eps : K) (moneyFlowIndexBy npSum (dser n h) (dser n l) (dser n c) (dser n v) w fillna)
      (moneyFlowIndex (ser n h) (ser n l) (ser n c) (ser n v) w fillna) := by
  refine (mfi_double_any H hw hw2 (d := 26 + s) (by omega) (σ := npSum) (fun l hl => npSum_addsUp l (hl.trans hs)) fillna).mono ?_
  push_cast
  have := eps_pos (K := K)
  linarith

end dbl

/-! ## without the separation -/

/-- the doubles nearest to 0.2, 0.3 and 0.4 -/
def fifth : ℚ := 3602879701896397 / 2 ^ 54
def threeTenths : ℚ := 5404319552844595 / 2 ^ 54
def twoFifths : ℚ := 3602879701896397 / 2 ^ 53

/-- three bars; the first two have the typical price (1 + 0.2 + 0.5) / 3 = (1 + 0.3 + 0.4) / 3 -/
def tieHigh : Nat → ℚ := fun _ => 1
def tieLow : Nat → ℚ := fun i => match i with | 0 => fifth | 1 => threeTenths | _ => 1/4
def tieClose : Nat → ℚ := fun i => match i with | 0 => 1/2 | 1 => twoFifths | _ => 1/4
def tieVol : Nat → ℚ := fun i => if i = 1 then 1000 else 1

/-- the data are doubles, and the typical price does not move from row 0 to row 1 -/
theorem tie_data : (lit (1/5) : Double ℚ) = rk fifth ∧ (lit (3/10) : Double ℚ) = rk threeTenths ∧ (lit (2/5) : Double ℚ) = rk twoFifths ∧
    tieHigh 0 + tieLow 0 + tieClose 0 = tieHigh 1 + tieLow 1 + tieClose 1 := by decide +kernel

/-- **A tie can turn the index round**: from the exact value 0 to 99.9. -/
theorem mfi_tie :
    moneyFlowIndex (ser 3 tieHigh) (ser 3 tieLow) (ser 3 tieClose) (ser 3 tieVol) 2 = ([.nan, .nan, .fin 0] : Series (Val ℚ)) ∧
    (∃ y : ℚ, ix (moneyFlowIndex (dser 3 tieHigh) (dser 3 tieLow) (dser 3 tieClose) (dser 3 tieVol) 2) 2 = rk y ∧ 99.9 ≤ y) ∧
    (∃ y : ℚ, ix (moneyFlowIndexBy npSum (dser 3 tieHigh) (dser 3 tieLow) (dser 3 tieClose) (dser 3 tieVol) 2 false) 2 = rk y ∧ 99.9 ≤ y) := by
  refine ⟨by decide +kernel, ?_, ?_⟩
  · exact ⟨1757667721158225 / 17592186044416, by decide +kernel, by norm_num⟩
  · exact ⟨1757667721158225 / 17592186044416, by decide +kernel, by norm_num⟩

/-- C123. So no bound below 99 holds without the separation of the typical prices. -/
theorem mfi_tie_far : ¬ CloseTo (99 : ℚ) (moneyFlowIndex (dser 3 tieHigh) (dser 3 tieLow) (dser 3 tieClose) (dser 3 tieVol) 2)
    (moneyFlowIndex (ser 3 tieHigh) (ser 3 tieLow) (ser 3 tieClose) (ser 3 tieVol) 2) := by
  rintro ⟨-, h⟩
  obtain ⟨e, ⟨y, y1, y2⟩, -⟩ := mfi_tie
  rw [e] at h
  rcases h 2 (by decide) with ⟨a, -⟩ | ⟨a, b, a1, b1, ab⟩
  · rw [y1] at a
    exact absurd a (by simp [rk])
  · rw [y1] at a1
    have := Val.fin.inj a1
    have b2 : b = 0 := (Val.fin.inj b1).symm
    rw [← this, b2, sub_zero, abs_of_nonneg (by linarith)] at ab
    linarith

/-- three rising bars with typical prices 2, 3, 4, then a fall to 3 -/
theorem flowing_bars : Flowing 4 (fun i => if i = 3 then 4 else (i : ℚ) + 3) (fun i => if i = 3 then 2 else (i : ℚ) + 1) (fun i => if i = 3 then 3 else (i : ℚ) + 2) (fun i => (i : ℚ)) := by
  have a := petty_one (K := ℚ)
  have b : (1000 : ℚ) ≤ grand := by
    have : (2 : ℚ) ^ (10 : ℤ) ≤ 2 ^ (400 : ℤ) := zpow_le_zpow_right₀ (by norm_num) (by norm_num)
    exact le_trans (by norm_num) this
  have e : (eps : ℚ) ≤ 1 / 100000 := eps_tenth
  refine ⟨fun i hi => ?_, fun i hi => ?_, fun i hi => ?_, fun i hi => ?_⟩
  · obtain rfl | rfl | rfl | rfl : i = 0 ∨ i = 1 ∨ i = 2 ∨ i = 3 := by omega
    all_goals norm_num; try refine ⟨?_, ?_, ?_⟩
    all_goals linarith
  · obtain rfl | rfl | rfl | rfl : i = 0 ∨ i = 1 ∨ i = 2 ∨ i = 3 := by omega
    all_goals norm_num; try refine ⟨?_, ?_, ?_⟩
    all_goals linarith
  · obtain rfl | rfl | rfl | rfl : i = 0 ∨ i = 1 ∨ i = 2 ∨ i = 3 := by omega
    · left; rfl
    all_goals right; norm_num; constructor
    all_goals linarith
  · obtain rfl | rfl | rfl : i = 0 ∨ i = 1 ∨ i = 2 := by omega
    all_goals right; norm_num; linarith

example : CloseTo ((102 * (2 : ℕ) + 1003) * eps : ℚ)
    (moneyFlowIndex (dser 4 fun i => if i = 3 then 4 else (i : ℚ) + 3) (dser 4 fun i => if i = 3 then 2 else (i : ℚ) + 1) (dser 4 fun i => if i = 3 then 3 else (i : ℚ) + 2)
      (dser 4 fun i => (i : ℚ)) 2 false)
    (moneyFlowIndex (ser 4 fun i => if i = 3 then 4 else (i : ℚ) + 3) (ser 4 fun i => if i = 3 then 2 else (i : ℚ) + 1) (ser 4 fun i => if i = 3 then 3 else (i : ℚ) + 2)
      (ser 4 fun i => (i : ℚ)) 2 false) := mfi_double flowing_bars (by norm_num) (by norm_num) false
example : moneyFlowIndex (ser 4 fun i => if i = 3 then 4 else (i : ℚ) + 3) (ser 4 fun i => if i = 3 then 2 else (i : ℚ) + 1) (ser 4 fun i => if i = 3 then 3 else (i : ℚ) + 2)
      (ser 4 fun i => (i : ℚ)) 2 false = [.nan, .fin 100, .fin 100, .fin (800/17)] := by decide +kernel
example : moneyFlowIndex (dser 4 fun i => if i = 3 then 4 else (i : ℚ) + 3) (dser 4 fun i => if i = 3 then 2 else (i : ℚ) + 1) (dser 4 fun i => if i = 3 then 3 else (i : ℚ) + 2)
      (dser 4 fun i => (i : ℚ)) 2 false = ([Val.nan, rk 100, rk 100, rk (6622940628486023/140737488355328)] : Series (Double ℚ)) := by decide +kernel

end TA
