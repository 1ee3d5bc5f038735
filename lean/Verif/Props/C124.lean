import Verif.Props.C34
import Verif.Props.C123

/-!
# C124 — totals that run through all rows, in double precision

The accumulation/distribution index (`ta/volume.py:42-62`) and the volume price trend (`ta/volume.py:289-306`) are cumulative sums,
the negative volume index (`ta/volume.py:326-347`) is a running product.  Their rounding errors grow with the rows passed; the bounds
below are stated row by row.  Ease of movement (`ta/volume.py:229-243`) looks at two rows only.
-/

set_option linter.unusedSectionVars false

namespace TA
open Finset

section dbl
variable {K : Type} [Field K] [LinearOrder K] [IsStrictOrderedRing K] [FloorRing K]

theorem grand_pos : (0 : K) < grand := two_zpow_pos _

theorem grand_cap : (1000000000 : K) * grand ≤ cap := by
  have a : (2 : K) ^ (30 : ℤ) * 2 ^ (400 : ℤ) ≤ 2 ^ (1000 : ℤ) := by
    rw [← zpow_add₀ (by norm_num)]
    exact zpow_le_zpow_right₀ (by norm_num) (by norm_num)
  refine le_trans (mul_le_mul_of_nonneg_right ?_ grand_pos.le) a
  norm_num

/-- NaN on the same rows, and row `i` within `B i` -/
def CloseBy (B : Nat → K) (s : Series (Double K)) (t : Series (Val K)) : Prop :=
  s.length = t.length ∧ ∀ i, i < t.length →
    (ix s i = Val.nan ∧ ix t i = .nan) ∨ ∃ y z : K, ix s i = Val.fin y ∧ ix t i = .fin z ∧ |y - z| ≤ B i

/-! ## cumulative sums -/

/-- numbers from row `p` on -/
structure From (s : Series (Double K)) (n p : Nat) (x : Nat → K) : Prop where
  len : s.length = n
  gap : ∀ i, i < n → i < p → ix s i = Val.nan
  val : ∀ i, i < n → p ≤ i → ix s i = rk (x i)

theorem From.valid_take {s : Series (Double K)} {n p : Nat} {x : Nat → K} (h : From s n p x) {k : Nat} (hk : k ≤ n) :
    valid (s.take k) = (List.range' p (k - p)).map fun j => (rk (x j) : Double K) := by
  induction k with
  | zero => simp [valid]
  | succ k ih =>
    have hk' : k < s.length := by rw [h.len]; omega
    have e : s.take (k + 1) = s.take k ++ [ix s k] := by
      rw [List.take_succ_eq_append_getElem hk', ix_lt hk']
    rw [e]
    unfold valid at ih ⊢
    rw [List.filter_append, ih (by omega)]
    by_cases hp : k < p
    · rw [h.gap k (by omega) hp]
      have e1 : k + 1 - p = 0 := by omega
      have e2 : k - p = 0 := by omega
      rw [e1, e2]; rfl
    · rw [h.val k (by omega) (by omega)]
      have e1 : k + 1 - p = (k - p) + 1 := by omega
      rw [e1, List.range'_concat]
      simp only [List.map_append, List.map_cons, List.map_nil]
      congr 1
      rw [one_mul, show p + (k - p) = k by omega]
      rfl

theorem From.cumsum {s : Series (Double K)} {n p : Nat} {x : Nat → K} (h : From s n p x) {i : Nat} (hi : i < n) :
    ix (TA.cumsum s) i = if i < p then (nan : Double K) else sumL ((List.range' p (i + 1 - p)).map fun j => (rk (x j) : Double K)) := by
  unfold TA.cumsum
  rw [ix_pre (by rw [h.len]; exact hi)]
  have e : (s.take (i + 1)).length - 1 = i := by
    rw [List.length_take, h.len]; omega
  rw [e]
  have e2 : ix (s.take (i + 1)) i = ix s i := by
    unfold ix
    simp [List.getD_eq_getElem?_getD]
  rw [e2, h.valid_take (by omega)]
  split_ifs with h1 h2 h2
  · rfl
  · rw [h.val i hi (by omega)] at h1; exact absurd h1 (by simp [rk, Flt.isNaN, Val.isNaN])
  · rw [h.gap i hi h2] at h1; exact absurd rfl h1
  · rfl

theorem sum_range' (f : Nat → K) (p k : Nat) : ((List.range' p k).map f).sum = ∑ j ∈ Ico p (p + k), f j := by
  induction k with
  | zero => simp
  | succ k ih =>
    rw [List.range'_concat, List.map_append, List.sum_append, ih, ← add_assoc, Finset.sum_Ico_succ_top (by omega)]
    simp

/-- **A running sum** of terms that are wrong by `δ` roundings of their weights: one more rounding of the total weight per row. -/
theorem cumsum_near {s : Series (Double K)} {n p : Nat} {x f g : Nat → K} {δ G : K} (hs : From s n p x) (hn : n ≤ 2 ^ 40) (hδ : δ ≤ 100)
    (hf : ∀ j, j < n → p ≤ j → |f j| ≤ g j) (hg : ∀ j, j < n → p ≤ j → tiny ≤ g j ∧ g j ≤ G) (hG : 2 * G ≤ huge)
    (hx : ∀ j, j < n → p ≤ j → |x j - f j| ≤ δ * (eps * g j)) {i : Nat} (hi : i < n) (hp : p ≤ i) :
    ∃ y, ix (TA.cumsum s) i = rk y ∧ |y - ∑ j ∈ Ico p (i + 1), f j| ≤ (1.02 * (i + 1 - p : Nat) + δ) * eps * ∑ j ∈ Ico p (i + 1), g j := by
  have mem : ∀ j ∈ List.range' p (i + 1 - p), j < n ∧ p ≤ j := fun j hj => by
    rw [List.mem_range'_1] at hj; omega
  have hc : 2 * (0 + ((List.range' p (i + 1 - p)).map g).sum) ≤ cap := by
    rw [zero_add, ← List.sum_map_mul_left]
    have : ((List.range' p (i + 1 - p)).map fun j => 2 * g j).sum ≤ ((List.range' p (i + 1 - p)).map fun _ => (huge : K)).sum :=
      List.sum_le_sum fun j hj => le_trans (by linarith [(hg j (mem j hj).1 (mem j hj).2).2]) hG
    refine this.trans ?_
    rw [List.map_const', List.sum_replicate, nsmul_eq_mul, mul_comm, List.length_range']
    exact huge_win (by omega)
  obtain ⟨y, y1, y2⟩ := sum_wt (List.range' p (i + 1 - p)) x f g hδ (fun j hj => hf j (mem j hj).1 (mem j hj).2) (fun j hj => (hg j (mem j hj).1 (mem j hj).2).1)
    (fun j hj => hx j (mem j hj).1 (mem j hj).2) (a := 0) (A := 0) (W := 0) (k := 0) (by simp) (by simp) (by rw [List.length_range']; omega) hc
  refine ⟨y, ?_, ?_⟩
  · rw [hs.cumsum hi, if_neg (by omega), ← y1]
    unfold sumL
    rw [lit0k]
  · rw [zero_add, zero_add, zero_add, sum_range', sum_range', List.length_range', show p + (i + 1 - p) = i + 1 by omega] at y2
    exact y2.trans (le_of_eq (by ring))

/-! ## the accumulation/distribution index -/

section cols
variable {n : Nat} {h l c v : Nat → K} {M : K}

theorem from_dser (x : Nat → K) : From (dser n x) n 0 x := ⟨by simp [rser], fun i _ h => by omega, fun i hi _ => ix_rk hi⟩

/-- C124. -/
theorem adi_double (H : Traded n h l c v M) (hn : n ≤ 2 ^ 40) (fillna : Bool) :
    CloseBy (fun i => (1.02 * i + 8) * eps * ∑ j ∈ range (i + 1), v j)
      (accDistIndex (dser n h) (dser n l) (dser n c) (dser n v) fillna) (accDistIndex (ser n h) (ser n l) (ser n c) (ser n v) fillna) := by
  obtain ⟨p, p1, p2⟩ := mfv_rows H
  have E : Def (accDistIndex (ser n h) (ser n l) (ser n c) (ser n v) fillna) n 0
      (fun i => ∑ j ∈ range (i + 1), (if h j = l j then 0 else ((c j - l j) - (h j - c j)) / (h j - l j)) * v j) := by
    rcases Nat.eq_zero_or_pos n with n0 | n0
    · subst n0
      refine ⟨?_, fun i hi _ => by omega, fun i hi _ => by omega⟩
      unfold accDistIndex
      rw [length_checkFillna]
      simp [ADI.run, clv, fillConst, ser]
    have hm : ∀ i, min i (n - 1) < n := fun i => by omega
    have := adi_formula n (fun i => h (min i (n - 1))) (fun i => l (min i (n - 1))) (fun i => c (min i (n - 1))) (fun i => v (min i (n - 1)))
      (fun i => (H.order _ (hm i)).1) (fun i => (H.order _ (hm i)).2) fillna
    rw [ser_clamp, ser_clamp, ser_clamp, ser_clamp] at this
    refine this.congr fun i hi _ => Finset.sum_congr rfl fun j hj => ?_
    rw [mem_range] at hj
    rw [show min j (n - 1) = j by omega]
  refine ⟨?_, fun i hi => ?_⟩
  · rw [E.len]; unfold accDistIndex; rw [length_checkFillna]; simp [ADI.run, clv, fillConst, rser]
  · rw [E.len] at hi
    right
    obtain ⟨y, y1, y2⟩ := cumsum_near (p := 0) (s := smul (clv (dser n h) (dser n l) (dser n c)) (dser n v)) (by rw [p1]; exact from_dser p) hn (δ := 6.22) (by norm_num)
      (f := fun j => (if h j = l j then 0 else ((c j - l j) - (h j - c j)) / (h j - l j)) * v j) (g := v) (G := grand)
      (fun j hj _ => by have := p2.size j hj; rwa [one_mul] at this) (fun j hj _ => ⟨tiny_petty.trans (H.vlo j hj), H.vhi j hj⟩)
      (by have := grand_le (K := K); have : (0 : K) < grand := two_zpow_pos _; linarith) (fun j hj _ => by have := p2.near j hj; rwa [one_mul] at this) hi (Nat.zero_le _)
    refine ⟨y, _, fill_rk (by simpa [ADI.run, clv, fillConst, rser] using hi) y1, E.val i hi (Nat.zero_le _), ?_⟩
    rw [← range_eq_Ico] at y2
    refine y2.trans ?_
    have v0 : 0 ≤ ∑ j ∈ range (i + 1), v j := Finset.sum_nonneg fun j hj => (petty_pos.trans_le (H.vlo j (by rw [mem_range] at hj; omega))).le
    have := eps_pos (K := K)
    refine mul_le_mul_of_nonneg_right (mul_le_mul_of_nonneg_right ?_ this.le) v0
    rw [Nat.sub_zero]
    push_cast
    linarith

/-! ## the volume price trend -/

/-- positive closes, none more than `R` times the one before -/
structure Steps (n : Nat) (c : Nat → K) (R : K) : Prop where
  pos : ∀ i, i < n → 0 < c i
  one : 1 ≤ R
  top : R ≤ grand
  up : ∀ i, i + 1 < n → c (i + 1) ≤ R * c i

theorem Steps.ratio {R : K} (S : Steps n c R) {i : Nat} (hi : i + 1 < n) : 0 < c (i + 1) / c i ∧ c (i + 1) / c i ≤ R :=
  ⟨div_pos (S.pos _ hi) (S.pos i (by omega)), by rw [div_le_iff₀ (S.pos i (by omega))]; exact S.up i hi⟩

/-- `close_j / close_{j-1} - 1` -/
theorem pct_near {x y : K} (hx : 0 < x) (hy : 0 < y) (hr : x / y ≤ grand) :
    ∃ z, ((rk x /. rk y) -. rk 1 : Double K) = rk z ∧ |z - (x / y - 1)| ≤ 2.01 * (eps * (x / y + 1)) := by
  have he := eps_pos (K := K)
  have he1 := eps_tenth (K := K)
  have r0 : 0 < x / y := div_pos hx hy
  have g1 := one_grand (K := K)
  have hc : 100 * (x / y + 1) ≤ cap := by linarith [grand_le (K := K), huge_cap' (K := K), two_zpow_pos (K := K) 900]
  have t1 := tiny_le_one (K := K)
  obtain ⟨q, q1, q2⟩ := near_div (x := x) (y := y) hy.ne' (B := x / y + 1) (by rw [abs_of_pos r0]; linarith) (by linarith) (by linarith)
  generalize x / y = r at *
  have q3 := abs_le.mp q2
  have e1 : eps * (r + 1) ≤ 1 / 100000 * (r + 1) := mul_le_mul_of_nonneg_right he1 (by linarith)
  obtain ⟨z, z1, z2⟩ := near_sub (x := q) (y := 1) (B := 1.001 * (r + 1)) (by rw [abs_le]; constructor <;> linarith [q3.1, q3.2]) (by linarith) (by linarith)
  refine ⟨z, by rw [q1, z1], ?_⟩
  have := abs_add_le (z - (q - 1)) (q - r)
  rw [show z - (q - 1) + (q - r) = z - (r - 1) by ring] at this
  have : 0 < eps * (r + 1) := by positivity
  linarith

theorem ffill_dser (x : Nat → K) : ffill (dser n x) = dser n x := ffill_ser n x

theorem pct_rows {R : K} (S : Steps n c R) :
    ∃ p, From (pctChange (dser n c)) n 1 p ∧ ∀ i, i < n → 1 ≤ i → |p i - (c i / c (i - 1) - 1)| ≤ 2.01 * (eps * (c i / c (i - 1) + 1)) := by
  have ex : ∀ i, i < n → 1 ≤ i → ∃ z, ix (pctChange (dser n c)) i = rk z ∧ |z - (c i / c (i - 1) - 1)| ≤ 2.01 * (eps * (c i / c (i - 1) + 1)) := by
    intro i hi h1
    obtain ⟨k, rfl⟩ : ∃ k, i = k + 1 := ⟨i - 1, by omega⟩
    rw [Nat.add_sub_cancel]
    obtain ⟨z, z1, z2⟩ := pct_near (S.pos _ hi) (S.pos k (by omega)) ((S.ratio hi).2.trans S.top)
    refine ⟨z, ?_, z2⟩
    unfold pctChange
    rw [ffill_dser, ix_subc (by simpa [rser] using hi), ix_sdiv (by simpa [rser] using hi), ix_shift (by simpa [rser] using hi), if_neg (by omega), Nat.add_sub_cancel, ix_rk hi,
      ix_rk (by omega), lit1k, z1]
  choose! p p1 p2 using ex
  refine ⟨p, ⟨by simp [pctChange, rser], fun i hi h1 => ?_, p1⟩, p2⟩
  unfold pctChange
  rw [ffill_dser, ix_subc (by simpa [rser] using hi), ix_sdiv (by simpa [rser] using hi), ix_shift (by simpa [rser] using hi), if_pos h1, ix_rk hi, lit1k]
  rfl

/-- C124. -/
theorem vpt_double {R : K} (S : Steps n c R) (hv : ∀ i, i < n → petty ≤ v i ∧ v i ≤ grand) (hn : n ≤ 2 ^ 40) :
    CloseBy (fun i => (1.02 * i + 4) * eps * ∑ j ∈ Ico 1 (i + 1), v j * (c j / c (j - 1) + 1))
      (volumePriceTrend (dser n c) (dser n v)) (volumePriceTrend (ser n c) (ser n v)) := by
  have he := eps_pos (K := K)
  have he1 := eps_tenth (K := K)
  have p0 := petty_pos (K := K)
  have E : Def (volumePriceTrend (ser n c) (ser n v)) n 1 (fun i => ∑ j ∈ Ico 1 (i + 1), v j * (c j / c (j - 1) - 1)) := by
    rcases Nat.eq_zero_or_pos n with n0 | n0
    · subst n0
      exact ⟨by simp [volumePriceTrend, VPT.run, checkFillna, pctChange, ser], fun i hi => by omega, fun i hi => by omega⟩
    have := vpt_formula n (c := fun i => c (min i (n - 1))) (fun i => v (min i (n - 1))) (fun i => (S.pos _ (by omega)).ne')
    rw [ser_clamp, ser_clamp] at this
    refine this.congr fun i hi _ => Finset.sum_congr rfl fun j hj => ?_
    rw [mem_Ico] at hj
    rw [show min j (n - 1) = j by omega, show min (j - 1) (n - 1) = j - 1 by omega]
  obtain ⟨p, P1, P2⟩ := pct_rows S
  have key : ∀ i, i < n → 1 ≤ i → 0 < c i / c (i - 1) ∧ c i / c (i - 1) ≤ R := fun i hi h1 => by
    obtain ⟨k, rfl⟩ : ∃ k, i = k + 1 := ⟨i - 1, by omega⟩
    exact S.ratio hi
  have glo : ∀ i, i < n → 1 ≤ i → petty ≤ v i * (c i / c (i - 1) + 1) := fun i hi h1 => by
    have := (hv i hi).1
    have k := (key i hi h1).1
    have := mul_pos (p0.trans_le this) k
    linarith
  have ghi : ∀ i, i < n → 1 ≤ i → v i * (c i / c (i - 1) + 1) ≤ 2 * (grand * grand) := fun i hi h1 => by
    have g1 := one_grand (K := K)
    have k := key i hi h1
    have : c i / c (i - 1) + 1 ≤ 2 * grand := by linarith [S.top, k.2]
    have := mul_le_mul (hv i hi).2 this (by linarith [k.1]) (by linarith)
    linarith
  have ex : ∀ i, i < n → 1 ≤ i → ∃ z, ix (smul (pctChange (dser n c)) (dser n v)) i = rk z ∧
      |z - v i * (c i / c (i - 1) - 1)| ≤ 3.02 * (eps * (v i * (c i / c (i - 1) + 1))) := by
    intro i hi h1
    have a := P2 i hi h1
    have g := glo i hi h1
    have g' := ghi i hi h1
    have k := (key i hi h1).1
    have v0 := p0.trans_le (hv i hi).1
    generalize c i / c (i - 1) = r at *
    have b : |p i * v i - v i * (r - 1)| ≤ 2.01 * (eps * (v i * (r + 1))) := by
      rw [show p i * v i - v i * (r - 1) = (p i - (r - 1)) * v i by ring, abs_mul, abs_of_pos v0]
      have := mul_le_mul_of_nonneg_right a v0.le
      linarith
    have b2 : |v i * (r - 1)| ≤ v i * (r + 1) := by
      rw [abs_mul, abs_of_pos v0]
      exact mul_le_mul_of_nonneg_left (by rw [abs_le]; constructor <;> linarith) v0.le
    generalize v i * (r + 1) = G at *
    have G0 : 0 < G := p0.trans_le g
    have e1 : eps * G ≤ 1 / 100000 * G := mul_le_mul_of_nonneg_right he1 G0.le
    have b3 : |p i * v i| ≤ 1.001 * G := by
      have := abs_add_le (p i * v i - v i * (r - 1)) (v i * (r - 1))
      rw [sub_add_cancel] at this
      linarith
    obtain ⟨z, z1, z2⟩ := near_mul b3 (by linarith [tiny_petty (K := K)]) (by linarith [grand_sq (K := K), huge_cap' (K := K), two_zpow_pos (K := K) 900])
    refine ⟨z, ?_, ?_⟩
    · rw [ix_smul (by simpa [pctChange, rser] using hi), P1.val i hi h1, ix_rk hi, z1]
    · have := abs_add_le (z - p i * v i) (p i * v i - v i * (r - 1))
      rw [sub_add_sub_cancel] at this
      have : 0 < eps * G := by positivity
      linarith
  choose! x x1 x2 using ex
  have F : From (smul (pctChange (dser n c)) (dser n v)) n 1 x :=
    ⟨by simp [pctChange, rser], fun i hi h1 => by rw [ix_smul (by simpa [pctChange, rser] using hi), P1.gap i hi h1]; rfl, x1⟩
  refine ⟨by rw [E.len]; simp [volumePriceTrend, VPT.run, checkFillna, pctChange, rser], fun i hi => ?_⟩
  rw [E.len] at hi
  by_cases h1 : 1 ≤ i
  · right
    obtain ⟨y, y1, y2⟩ := cumsum_near F hn (δ := 3.02) (by norm_num) (f := fun j => v j * (c j / c (j - 1) - 1)) (g := fun j => v j * (c j / c (j - 1) + 1)) (G := 2 * (grand * grand))
      (fun j hj h1 => by
        have v0 := p0.trans_le (hv j hj).1
        have k := (key j hj h1).1
        rw [abs_mul, abs_of_pos v0]
        exact mul_le_mul_of_nonneg_left (by rw [abs_le]; constructor <;> linarith) v0.le)
      (fun j hj h1 => ⟨tiny_petty.trans (glo j hj h1), ghi j hj h1⟩) (by linarith [grand_sq (K := K), mul_pos (grand_pos (K := K)) (grand_pos (K := K))]) x2 hi h1
    refine ⟨y, _, y1, E.val i hi h1, y2.trans ?_⟩
    have v0 : 0 ≤ ∑ j ∈ Ico 1 (i + 1), v j * (c j / c (j - 1) + 1) := Finset.sum_nonneg fun j hj => by
      rw [mem_Ico] at hj
      exact p0.le.trans (glo j (by omega) hj.1)
    refine mul_le_mul_of_nonneg_right (mul_le_mul_of_nonneg_right ?_ he.le) v0
    rw [Nat.add_sub_cancel]
    linarith
  · left
    refine ⟨?_, E.gap i hi (by omega)⟩
    show ix (TA.cumsum (smul (pctChange (dser n c)) (dser n v))) i = Val.nan
    rw [F.cumsum hi, if_pos (by omega)]
    rfl

/-! ## the negative volume index -/

/-- one step of the product -/
theorem nvi_turn {x X r z R κ ρ : K} (hX : petty ≤ X) (hXr : petty ≤ X * r) (hXr2 : X * r ≤ grand) (hr : 0 < r) (hR : 1 ≤ R) (hR2 : R ≤ grand) (hrR : r ≤ R) (hrR' : 1 ≤ R * r)
    (hz : |z - (r - 1)| ≤ 2.01 * (eps * (r + 1))) (hκ : κ = (3.1 * R + 4.2) * eps) (hκ1 : κ ≤ 1 / 100) (hρ : ρ ≤ 1 / 100) (hx : |x - X| ≤ ρ * X) :
    ∃ y, (rk x *. (rk 1 +. rk z) : Double K) = rk y ∧ |y - X * r| ≤ (ρ + κ) * (X * r) := by
  have he := eps_pos (K := K)
  have he1 := eps_tenth (K := K)
  have p0 := petty_pos (K := K)
  have g0 := grand_pos (K := K)
  have g1 := one_grand (K := K)
  have X0 : 0 < X := p0.trans_le hX
  have tp := tiny_petty (K := K)
  have t1 := tiny_le_one (K := K)
  have gc : 1000 * 1000 * (grand : K) ≤ cap := by linarith [grand_le (K := K), huge_cap' (K := K)]
  have er : eps * (r + 1) ≤ 1 / 100000 * (r + 1) := mul_le_mul_of_nonneg_right he1 (by linarith)
  obtain ⟨u, u1, u2⟩ := near_add (x := 1) (y := z) (B := 1.001 * (r + 1))
    (by have := abs_add_le (z - (r - 1)) r
        rw [show z - (r - 1) + r = 1 + z by ring, abs_of_pos hr] at this
        linarith) (by linarith) (by linarith)
  have er0 : 0 < eps * (r + 1) := mul_pos he (by linarith)
  have u3 : |u - r| ≤ 3.02 * (eps * (r + 1)) := by
    have := abs_add_le (u - (1 + z)) (z - (r - 1))
    rw [show u - (1 + z) + (z - (r - 1)) = u - r by ring] at this
    linarith
  have u4 : |u - r| ≤ 3.02 * (R + 1) * (eps * r) := by
    refine u3.trans ?_
    have : eps * (r + 1) ≤ eps * ((R + 1) * r) := mul_le_mul_of_nonneg_left (by linarith) he.le
    linarith
  have k0 : 3.02 * (R + 1) * eps ≤ 1 / 100 := by
    have : 0 < R * eps := by positivity
    linarith
  have u5 : |u| ≤ 1.01 * r := by
    have := abs_add_le (u - r) r
    rw [sub_add_cancel, abs_of_pos hr] at this
    have k := mul_le_mul_of_nonneg_right k0 hr.le
    linarith
  set P := X * r with hP
  have P0 : 0 < P := mul_pos X0 hr
  have w1 : |x * u - P| ≤ ρ * P + 1.01 * (3.02 * (R + 1) * (eps * P)) := by
    rw [show x * u - P = (x - X) * r + x * (u - r) by rw [hP]; ring]
    refine (abs_add_le _ _).trans ?_
    rw [abs_mul, abs_mul, abs_of_pos hr]
    have a1 := mul_le_mul_of_nonneg_right hx hr.le
    have a2 : |x| ≤ 1.01 * X := by
      have := abs_add_le (x - X) X
      rw [sub_add_cancel, abs_of_pos X0] at this
      have k := mul_le_mul_of_nonneg_right hρ X0.le
      linarith
    have a3 := mul_le_mul a2 u4 (abs_nonneg _) (by positivity)
    have e3 : 1.01 * X * (3.02 * (R + 1) * (eps * r)) = 1.01 * (3.02 * (R + 1) * (eps * P)) := by rw [hP]; ring
    have e4 : ρ * X * r = ρ * P := by rw [hP]; ring
    linarith
  have w2 : |x * u| ≤ 1.03 * P := by
    have := abs_add_le (x * u - P) P
    rw [sub_add_cancel, abs_of_pos P0] at this
    have k := mul_le_mul_of_nonneg_right k0 P0.le
    have k' := mul_le_mul_of_nonneg_right hρ P0.le
    linarith
  obtain ⟨y, y1, y2⟩ := near_mul w2 (by linarith) (by linarith)
  refine ⟨y, by rw [u1, y1], ?_⟩
  have := abs_add_le (y - x * u) (x * u - P)
  rw [sub_add_sub_cancel] at this
  have eP : 0 < eps * P := mul_pos he P0
  have eR : 0 < R * (eps * P) := by positivity
  rw [hκ]
  linarith

/-- C124. The relative error of NVI grows by less than `3.1 R + 4.2` roundings per row. -/
theorem nvi_double {R : K} (S : Steps n c R) (hd : ∀ i, i + 1 < n → c i ≤ R * c (i + 1)) (hn : 0 < n) (hX : ∀ i, i < n → petty ≤ nvi c v i ∧ nvi c v i ≤ grand)
    (hsm : n * ((3.1 * R + 4.2) * eps) ≤ 1 / 100) (fillna : Bool) :
    ∃ out out', negativeVolumeIndex (dser n c) (dser n v) fillna = .ok out ∧ negativeVolumeIndex (ser n c) (ser n v) fillna = .ok out' ∧
      CloseBy (fun i => i * ((3.1 * R + 4.2) * eps) * nvi c v i) out out' ∧ ∀ i, i < n → ix out' i = .fin (nvi c v i) := by
  have he := eps_pos (K := K)
  have R1 := S.one
  have E : ∃ out', negativeVolumeIndex (ser n c) (ser n v) fillna = .ok out' ∧ Def out' n 0 (nvi c v) := by
    obtain ⟨o, o1, o2⟩ := nvi_formula hn (c := fun i => c (min i (n - 1))) (fun i => v (min i (n - 1))) (fun i => (S.pos _ (by omega)).ne') fillna
    rw [ser_clamp, ser_clamp] at o1
    refine ⟨o, o1, o2.congr fun i hi _ => ?_⟩
    induction i with
    | zero => rfl
    | succ i ih =>
      show (if v (min (i + 1) (n - 1)) < v (min i (n - 1)) then nvi _ _ i * (c (min (i + 1) (n - 1)) / c (min i (n - 1))) else nvi _ _ i) =
        if v (i + 1) < v i then nvi c v i * (c (i + 1) / c i) else nvi c v i
      rw [ih (by omega) (Nat.zero_le _), show min (i + 1) (n - 1) = i + 1 by omega, show min i (n - 1) = i by omega]
  obtain ⟨o, o1, o2⟩ := E
  obtain ⟨p, P1, P2⟩ := pct_rows S
  set κ := (3.1 * R + 4.2) * eps with hκ
  have κ0 : 0 ≤ κ := by rw [hκ]; exact mul_nonneg (by linarith) he.le
  have row : ∀ i, i < n → ∃ y, iter (NVI.step (dser n c) (dser n v)) nan (i + 1) = rk y ∧ |y - nvi c v i| ≤ i * κ * nvi c v i := by
    intro i
    induction i with
    | zero =>
      intro _
      refine ⟨1000, ?_, ?_⟩
      · rw [iter_succ]
        show (lit 1000 : Double K) = _
        exact lit_double (k := 1000) (by norm_num) (by norm_num) (by norm_num)
      · show |(1000 : K) - 1000| ≤ _
        simp
    | succ i ih =>
      intro hi
      obtain ⟨x, x1, x2⟩ := ih (by omega)
      rw [iter_succ, x1]
      unfold NVI.step
      rw [if_neg (by omega), Nat.add_sub_cancel, ix_rk hi, ix_rk (show i < n by omega)]
      have lt : ((rk (v (i + 1)) : Double K) <. rk (v i)) = decide (v (i + 1) < v i) := rfl
      rw [lt]
      have nv : nvi c v (i + 1) = if v (i + 1) < v i then nvi c v i * (c (i + 1) / c i) else nvi c v i := rfl
      have hXi := hX i (by omega)
      have hXs := hX (i + 1) hi
      have X0 := petty_pos.trans_le hXi.1
      by_cases h : v (i + 1) < v i
      · rw [nv, if_pos h] at hXs ⊢
        simp only [h, decide_true, if_true]
        rw [P1.val (i + 1) hi (by omega), lit1k]
        have k1 : (1 : K) ≤ n := by exact_mod_cast hn
        have kκ : κ ≤ 1 / 100 := le_trans (le_mul_of_one_le_left κ0 k1) hsm
        have ki : (i : K) * κ ≤ 1 / 100 := le_trans (mul_le_mul_of_nonneg_right (by exact_mod_cast (by omega : i ≤ n)) κ0) hsm
        have dn := hd i hi
        obtain ⟨y, y1, y2⟩ := nvi_turn (R := R) hXi.1 hXs.1 hXs.2 (S.ratio hi).1 R1 S.top (S.ratio hi).2
          (by rw [← mul_div_assoc, le_div_iff₀ (S.pos i (by omega)), one_mul]; exact dn) (P2 (i + 1) hi (by omega)) hκ kκ ki x2
        refine ⟨y, y1, y2.trans (le_of_eq ?_)⟩
        push_cast
        ring
      · rw [nv, if_neg h]
        simp only [h, decide_false, Bool.false_eq_true, if_false]
        refine ⟨x, rfl, x2.trans ?_⟩
        push_cast
        have := mul_nonneg κ0 X0.le
        linarith
  refine ⟨_, o, by unfold negativeVolumeIndex; rw [if_neg (by simp [rser]; omega)], o1, ⟨?_, fun i hi => ?_⟩, fun i hi => o2.val i hi (Nat.zero_le _)⟩
  · rw [o2.len, length_checkFillna]; simp [NVI.run, rser]
  · rw [o2.len] at hi
    right
    obtain ⟨y, y1, y2⟩ := row i hi
    refine ⟨y, _, fill_rk (by simpa [NVI.run, rser] using hi) ?_, o2.val i hi (Nat.zero_le _), y2⟩
    unfold NVI.run
    rw [ix_tab_lt (by simpa [rser] using hi), y1]

/-! ## ease of movement -/

/-- C124. `A` bounds the moves of the high and the low into the row, `T` the range of the bar. -/
theorem eom_double {i : Nat} (hi : i + 1 < n) {A T : K} (hA : petty ≤ A) (hA2 : A ≤ grand) (hT : petty ≤ T) (hT2 : T ≤ grand)
    (h1 : |h (i + 1) - h i| ≤ A) (h2 : |l (i + 1) - l i| ≤ A) (h3 : |h (i + 1) - l (i + 1)| ≤ T) (hv : petty ≤ v (i + 1)) (hv2 : v (i + 1) ≤ grand)
    (hB : petty ≤ A * T / v (i + 1)) (hB2 : A * T / v (i + 1) ≤ grand) (fillna : Bool) :
    ∃ y z, ix (easeOfMovement (dser n h) (dser n l) (dser n v) fillna) (i + 1) = rk y ∧ ix (easeOfMovement (ser n h) (ser n l) (ser n v) fillna) (i + 1) = .fin z ∧
      |y - z| ≤ 7.2 * 10 ^ 8 * eps * (A * T / v (i + 1)) := by
  have he := eps_pos (K := K)
  have he1 := eps_tenth (K := K)
  have p0 := petty_pos (K := K)
  have g0 := grand_pos (K := K)
  have tp := tiny_petty (K := K)
  have v0 := p0.trans_le hv
  have A0 := p0.trans_le hA
  have T0 := p0.trans_le hT
  have gh := grand_sq (K := K)
  have hc := huge_cap' (K := K)
  have gl := grand_le (K := K)
  have ez : ix (EOM.run (ser n h) (ser n l) (ser n v)) (i + 1) =
      .fin (((h (i + 1) - h i) + (l (i + 1) - l i)) * (h (i + 1) - l (i + 1)) / (2 * v (i + 1)) * 100000000) := by
    have e : ∀ (x : Nat → K) j, j < n → ix (ser n x) j = .fin (x j) := fun x j hj => (def_ser n x).val j hj (Nat.zero_le _)
    unfold EOM.run sdiff
    rw [ix_mulc (by simpa [ser] using hi), ix_sdiv (by simpa [ser] using hi), ix_smul (by simpa [ser] using hi), ix_sadd (by simpa [ser] using hi), ix_ssub (by simpa [ser] using hi),
      ix_ssub (by simpa [ser] using hi), ix_ssub (by simpa [ser] using hi), ix_cmul (by simpa [ser] using hi), ix_prev (by simpa [ser] using hi), ix_prev (by simpa [ser] using hi),
      if_neg (Nat.succ_ne_zero i), if_neg (Nat.succ_ne_zero i), Nat.add_sub_cancel, e h _ hi, e l _ hi, e v _ hi, e h i (by omega), e l i (by omega), lit_fin, lit_fin]
    simp only [fin_sub, fin_add, fin_mul]
    rw [fin_div _ _ (by simp; exact v0.ne'), fin_mul]
    push_cast
    rfl
  obtain ⟨a, a1, a2⟩ := near_sub (x := h (i + 1)) (y := h i) h1 (by linarith) (by linarith)
  obtain ⟨b, b1, b2⟩ := near_sub (x := l (i + 1)) (y := l i) h2 (by linarith) (by linarith)
  obtain ⟨d, d1, d2⟩ := near_sub (x := h (i + 1)) (y := l (i + 1)) h3 (by linarith) (by linarith)
  have ey : ix (EOM.run (dser n h) (dser n l) (dser n v)) (i + 1) =
      ((((rk a +. rk b) *. rk d) /. (rk 2 *. rk (v (i + 1)))) *. rk 100000000 : Double K) := by
    unfold EOM.run sdiff
    rw [ix_mulc (by simpa [rser] using hi), ix_sdiv (by simpa [rser] using hi), ix_smul (by simpa [rser] using hi), ix_sadd (by simpa [rser] using hi), ix_ssub (by simpa [rser] using hi),
      ix_ssub (by simpa [rser] using hi), ix_ssub (by simpa [rser] using hi), ix_cmul (by simpa [rser] using hi), ix_shift (by simpa [rser] using hi), ix_shift (by simpa [rser] using hi),
      if_neg (show ¬ i + 1 < 1 by omega), if_neg (show ¬ i + 1 < 1 by omega), Nat.add_sub_cancel, ix_rk hi, ix_rk hi, ix_rk hi, ix_rk (show i < n by omega), ix_rk (show i < n by omega), a1, b1, d1,
      lit2k, show (lit 100000000 : Double K) = rk 100000000 from lit_double (k := 100000000) (by norm_num) (by norm_num) (by norm_num)]
  generalize h (i + 1) - h i = X at *
  generalize l (i + 1) - l i = Y at *
  generalize h (i + 1) - l (i + 1) = Z at *
  generalize v (i + 1) = w at *
  have eA : eps * A ≤ 1 / 100000 * A := mul_le_mul_of_nonneg_right he1 A0.le
  have eA0 : 0 < eps * A := mul_pos he A0
  have eT : eps * T ≤ 1 / 100000 * T := mul_le_mul_of_nonneg_right he1 T0.le
  have ab : |a + b - (X + Y)| ≤ 2.002 * (eps * A) := by
    have := abs_add_le (a - X) (b - Y)
    rw [show a - X + (b - Y) = a + b - (X + Y) by ring] at this
    linarith
  have XY : |X + Y| ≤ 2 * A := (abs_add_le _ _).trans (by linarith)
  obtain ⟨s, s1, s2⟩ := near_add (x := a) (y := b) (B := 2.001 * A)
    (by have := abs_add_le (a + b - (X + Y)) (X + Y); rw [sub_add_cancel] at this; linarith) (by linarith) (by linarith)
  have s3 : |s - (X + Y)| ≤ 4.01 * (eps * A) := by
    have := abs_add_le (s - (a + b)) (a + b - (X + Y))
    rw [sub_add_sub_cancel] at this
    linarith
  have s4 : |s| ≤ 2.001 * A := by
    have := abs_add_le (s - (X + Y)) (X + Y); rw [sub_add_cancel] at this; linarith
  set Q := A * T with hQ
  have Q0 : 0 < Q := mul_pos A0 T0
  have Qlo : tiny ≤ Q := petty_sq.trans (mul_le_mul hA hT p0.le A0.le)
  have Qhi : 1000 * Q ≤ huge := le_trans (by have := mul_le_mul hA2 hT2 T0.le g0.le; linarith) gh
  have eQ : eps * Q ≤ 1 / 100000 * Q := mul_le_mul_of_nonneg_right he1 Q0.le
  have eQ0 : 0 < eps * Q := mul_pos he Q0
  have sd : |s * d - (X + Y) * Z| ≤ 6.02 * (eps * Q) := by
    rw [show s * d - (X + Y) * Z = s * (d - Z) + (s - (X + Y)) * Z by ring]
    refine (abs_add_le _ _).trans ?_
    rw [abs_mul, abs_mul]
    have k1 := mul_le_mul s4 d2 (abs_nonneg _) (by positivity)
    have k2 := mul_le_mul s3 h3 (abs_nonneg _) (by positivity)
    have e1 : 2.001 * A * (1.001 * (eps * T)) = 2.001 * 1.001 * (eps * Q) := by rw [hQ]; ring
    have e2 : 4.01 * (eps * A) * T = 4.01 * (eps * Q) := by rw [hQ]; ring
    rw [e1] at k1
    rw [e2] at k2
    linarith
  have N2 : |(X + Y) * Z| ≤ 2 * Q := by
    rw [abs_mul]
    have := mul_le_mul XY h3 (abs_nonneg _) (by positivity)
    have e : 2 * A * T = 2 * Q := by rw [hQ]; ring
    linarith
  obtain ⟨m, m1, m2⟩ := near_mul (x := s) (y := d) (B := 2.001 * Q)
    (by have := abs_add_le (s * d - (X + Y) * Z) ((X + Y) * Z); rw [sub_add_cancel] at this; linarith) (by linarith) (by linarith)
  have m3 : |m - (X + Y) * Z| ≤ 8.04 * (eps * Q) := by
    have := abs_add_le (m - s * d) (s * d - (X + Y) * Z)
    rw [sub_add_sub_cancel] at this
    linarith
  obtain ⟨t, t1, t2⟩ := near_mul (x := 2) (y := w) (B := 2 * w) (by rw [abs_of_pos (by positivity)]) (by linarith) (by linarith)
  set B := Q / w with hB'
  have Bw : B * (2 * w) = 2 * Q := by rw [hB']; field_simp
  have B0 : 0 < B := p0.trans_le hB
  obtain ⟨q, q1, q2⟩ := wquot_near (N := (X + Y) * Z) (D := 2 * w) (N' := m) (D' := t) (b := B) (α := 4.02) (β := 1.001) (by positivity) (by linarith) (by linarith)
    (by norm_num) (by norm_num) (by linarith) (by linarith) (by rw [Bw]; exact N2) (by rw [Bw]; linarith) t2
  have q3 : |q| ≤ 1.001 * B := by
    have := abs_add_le (q - (X + Y) * Z / (2 * w)) ((X + Y) * Z / (2 * w))
    rw [sub_add_cancel] at this
    have r : |(X + Y) * Z / (2 * w)| ≤ B := by
      rw [abs_div, abs_of_pos (by positivity : 0 < 2 * w), div_le_iff₀ (by positivity), Bw]; exact N2
    have eB : eps * B ≤ 1 / 100000 * B := mul_le_mul_of_nonneg_right he1 B0.le
    linarith
  obtain ⟨y, y1, y2⟩ := near_mul (x := q) (y := 100000000) (B := 1.001 * B * 100000000)
    (by rw [abs_mul, abs_of_pos (by norm_num : (0 : K) < 100000000)]; exact mul_le_mul_of_nonneg_right q3 (by norm_num)) (by linarith) (by linarith [grand_cap (K := K)])
  refine ⟨y, (X + Y) * Z / (2 * w) * 100000000, ?_, ?_, ?_⟩
  · refine fill_rk (by simpa [EOM.run, rser] using hi) ?_
    rw [ey, s1, m1, t1, q1, y1]
  · exact fill_fin (by simpa [EOM.run, ser] using hi) ez
  · have := abs_add_le (y - q * 100000000) (q * 100000000 - (X + Y) * Z / (2 * w) * 100000000)
    rw [sub_add_sub_cancel, ← sub_mul, abs_mul (q - _), abs_of_pos (by norm_num : (0 : K) < 100000000)] at this
    have k := mul_le_mul_of_nonneg_right q2 (by norm_num : (0 : K) ≤ 100000000)
    have eB : 0 < eps * B := mul_pos he B0
    linarith

end cols

end dbl

/-! ## examples -/

theorem petty_thousand : ((petty : ℚ) ≤ 1 / 1000) ∧ (100000 : ℚ) ≤ grand := by
  have a : (2 : ℚ) ^ (-400 : ℤ) ≤ 2 ^ (-10 : ℤ) := zpow_le_zpow_right₀ (by norm_num) (by norm_num)
  have b : (2 : ℚ) ^ (17 : ℤ) ≤ 2 ^ (400 : ℤ) := zpow_le_zpow_right₀ (by norm_num) (by norm_num)
  exact ⟨a.trans (by norm_num), le_trans (by norm_num) b⟩

/-- closes 1, 2, 3, 4: none more than twice the one before -/
theorem four_steps : Steps 4 (fun i => (i : ℚ) + 1) 2 := by
  obtain ⟨_, b⟩ := petty_thousand
  refine ⟨fun i _ => by positivity, by norm_num, by linarith, fun i _ => ?_⟩
  have : (0 : ℚ) ≤ i := Nat.cast_nonneg i
  push_cast
  linarith

/-- volumes 4, 3, 2, 1 -/
def fallVol (i : Nat) : ℚ := 4 - i

theorem four_nvi : ∀ i, i < 4 → nvi (fun i => (i : ℚ) + 1) fallVol i = 1000 * (i + 1) := by
  intro i hi
  obtain rfl | rfl | rfl | rfl : i = 0 ∨ i = 1 ∨ i = 2 ∨ i = 3 := by omega
  all_goals norm_num [nvi, fallVol]

example : accDistIndex (dser 3 fun i => (i : ℚ) + 3) (dser 3 fun i => i) (dser 3 fun i => (i : ℚ) + 1) (dser 3 fun i => (i : ℚ) + 2) false
    = ([rk (-6004799503160661/9007199254740992), rk (-3752999689475413/2251799813685248), rk (-3)] : Series (Double ℚ)) := by decide +kernel
example : CloseBy (fun i => (1.02 * (i : ℚ) + 8) * eps * ∑ j ∈ range (i + 1), ((j : ℚ) + 2))
    (accDistIndex (dser 3 fun i => (i : ℚ) + 3) (dser 3 fun i => i) (dser 3 fun i => (i : ℚ) + 1) (dser 3 fun i => (i : ℚ) + 2) false)
    (accDistIndex (ser 3 fun i => (i : ℚ) + 3) (ser 3 fun i => i) (ser 3 fun i => (i : ℚ) + 1) (ser 3 fun i => (i : ℚ) + 2) false) :=
  adi_double threeBars (by norm_num) false
example : CloseBy (fun i => (1.02 * (i : ℚ) + 4) * eps * ∑ j ∈ Ico 1 (i + 1), fallVol j * (((j : ℚ) + 1) / ((j - 1 : ℕ) + 1) + 1))
    (volumePriceTrend (dser 4 fun i => (i : ℚ) + 1) (dser 4 fallVol)) (volumePriceTrend (ser 4 fun i => (i : ℚ) + 1) (ser 4 fallVol)) :=
  vpt_double four_steps (fun i hi => by
    obtain ⟨a, b⟩ := petty_thousand
    have h0 : (0 : ℚ) ≤ i := Nat.cast_nonneg i
    have h3 : (i : ℚ) ≤ 3 := by exact_mod_cast (by omega : i ≤ 3)
    unfold fallVol
    constructor <;> linarith) (by norm_num)
example : ∃ out out', negativeVolumeIndex (dser 4 fun i => (i : ℚ) + 1) (dser 4 fallVol) false = .ok out ∧
    negativeVolumeIndex (ser 4 fun i => (i : ℚ) + 1) (ser 4 fallVol) false = .ok out' ∧
    CloseBy (fun i => i * ((3.1 * 2 + 4.2) * eps) * nvi (fun i => (i : ℚ) + 1) fallVol i) out out' ∧ ∀ i, i < 4 → ix out' i = .fin (nvi (fun i => (i : ℚ) + 1) fallVol i) :=
  nvi_double four_steps (fun i hi => by
      have : (0 : ℚ) ≤ i := Nat.cast_nonneg i
      push_cast
      linarith) (by norm_num) (fun i hi => by
      obtain ⟨a, b⟩ := petty_thousand
      have h0 : (0 : ℚ) ≤ i := Nat.cast_nonneg i
      have h3 : (i : ℚ) ≤ 3 := by exact_mod_cast (by omega : i ≤ 3)
      rw [four_nvi i hi]
      constructor <;> linarith) (by unfold eps; norm_num) false
example : easeOfMovement (dser 2 fun i => (i : ℚ) + 3) (dser 2 fun i => i) (dser 2 fun _ => 7) = ([Val.nan, rk (5752188342857143/134217728)] : Series (Double ℚ)) := by decide +kernel
example : ∃ y z, ix (easeOfMovement (dser 2 fun i => (i : ℚ) + 3) (dser 2 fun i => i) (dser 2 fun _ => 7)) 1 = rk y ∧
    ix (easeOfMovement (ser 2 fun i => (i : ℚ) + 3) (ser 2 fun i => i) (ser 2 fun _ => 7)) 1 = .fin z ∧ |y - z| ≤ 7.2 * 10 ^ 8 * eps * (1 * 3 / 7) := by
  obtain ⟨a, b⟩ := petty_thousand
  exact eom_double (n := 2) (i := 0) (h := fun i => (i : ℚ) + 3) (l := fun i => (i : ℚ)) (v := fun _ => 7) (by norm_num) (A := 1) (T := 3) (by linarith) (by linarith) (by linarith) (by linarith)
    (by norm_num) (by norm_num) (by norm_num) (by linarith) (by linarith) (by linarith) (by linarith) false

end TA
