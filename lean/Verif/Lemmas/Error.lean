import Verif.Lemmas.Round
import Verif.Lemmas.Ewm
import Verif.Lemmas.NewEq
import Mathlib.Tactic.Ring
import Mathlib.Tactic.NormNum

/-!
# How far a rounded computation can be from the exact one

`R.Acc u η Ω`: below `Ω` the rounding stays finite and errs by at most `u |x| + η`.
`binary64` has `u = 2^-53`, `η = 2^-1075`, `Ω = 2^1023`.
`Approx s n p f δ`: the computed series `s` has `n` rows, NaN before row `p` and within `δ` of `f` from there on.
-/

set_option linter.unusedSectionVars false

namespace TA
variable {K : Type} [Field K] [LinearOrder K] [IsStrictOrderedRing K]

/-- below `Ω` the rounding error is at most `u |x| + η` and nothing overflows -/
def Rounding.Acc (R : Rounding K) (u η Ω : K) : Prop :=
  ∀ x, |x| ≤ Ω → ∃ y, R.rd x = .fin y ∧ |y - x| ≤ u * |x| + η

/-! ## binary64 -/

section b64
variable [FloorRing K]

theorem rhe_near (y : K) : |(rhe y : K) - y| ≤ 1 / 2 := by
  have h0 := Int.floor_le y
  have h1 := Int.lt_floor_add_one y
  unfold rhe
  rw [abs_le]
  split_ifs with a b c <;> push_cast <;> constructor <;> linarith

theorem b64pos_near {x : K} (hx : 0 ≤ x) : |b64pos x - x| ≤ 2 ^ (-53 : ℤ) * x + 2 ^ (-1075 : ℤ) := by
  rcases hx.eq_or_lt with e | hx
  · rw [← e, b64pos_zero]; simp
  have hp := two_zpow_pos (K := K) (lastBit x)
  have h1 : |b64pos x - x| ≤ 2 ^ (lastBit x - 1) := by
    have e : b64pos x - x = (rhe (x / 2 ^ lastBit x) - x / 2 ^ lastBit x) * 2 ^ lastBit x := by
      unfold b64pos
      rw [sub_mul, div_mul_cancel₀ _ hp.ne']
    rw [e, abs_mul, abs_of_pos hp, zpow_sub₀ (by norm_num), zpow_one]
    have := mul_le_mul_of_nonneg_right (rhe_near (x / 2 ^ lastBit x)) hp.le
    linarith
  refine h1.trans ?_
  have q1 := two_zpow_pos (K := K) (-53)
  have q2 := two_zpow_pos (K := K) (-1075)
  by_cases h : -1074 < lastBit x
  · have h2 := mul_le_mul_of_nonneg_left (ge_lastBit hx h) q1.le
    rw [← zpow_add₀ (by norm_num)] at h2
    rw [show (-53 : ℤ) + (lastBit x + 52) = lastBit x - 1 by ring] at h2
    linarith
  · have : lastBit x = -1074 := le_antisymm (not_lt.mp h) (le_max_right _ _)
    rw [this]
    norm_num only
    have := mul_nonneg q1.le hx.le
    linarith

/-- double precision: relative error `2^-53`, absolute error `2^-1075` near 0 -/
theorem b64_acc : (binary64 : Rounding K).Acc (2 ^ (-53 : ℤ)) (2 ^ (-1075 : ℤ)) (2 ^ (1023 : ℤ)) := by
  have key : ∀ x : K, 0 ≤ x → x ≤ 2 ^ (1023 : ℤ) →
      b64rd x = .fin (b64pos x) ∧ |b64pos x - x| ≤ 2 ^ (-53 : ℤ) * x + 2 ^ (-1075 : ℤ) := by
    intro x h0 h1
    refine ⟨?_, b64pos_near h0⟩
    rw [b64rd_nonneg h0, if_neg]
    rw [not_le]
    rcases h0.eq_or_lt with e | h0
    · rw [← e, b64pos_zero]; exact two_zpow_pos _
    have h2 : lastBit x ≤ 1023 := by
      by_contra hc
      have := ge_lastBit h0 (by omega)
      have h3 : (2 : K) ^ (1023 : ℤ) < 2 ^ (lastBit x + 52) := zpow_lt_zpow_right₀ (by norm_num) (by omega)
      linarith
    exact (b64pos_le_zpow h1 h2).trans_lt (zpow_lt_zpow_right₀ (by norm_num) (by norm_num))
  intro x hx
  rcases le_total 0 x with h | h
  · rw [abs_of_nonneg h] at hx ⊢
    exact ⟨_, key x h hx⟩
  · rw [abs_of_nonpos h] at hx ⊢
    obtain ⟨h1, h2⟩ := key (-x) (neg_nonneg.mpr h) hx
    refine ⟨-b64pos (-x), ?_, ?_⟩
    · have := congrArg Val.neg h1
      have e : b64rd x = (b64rd (-x)).neg := by rw [← b64rd_neg, neg_neg]
      show b64rd x = _
      rw [e, h1]; rfl
    · rw [show -b64pos (-x) - x = -(b64pos (-x) - -x) by ring, abs_neg]
      exact h2

/-- halves of integers up to `2^53` are exact -/
theorem b64_half {k : ℤ} (hk : |k| ≤ 2 ^ 53) : (binary64 : Rounding K).rd ((k : K) / 2) = .fin ((k : K) / 2) := by
  have key : ∀ k : ℤ, 0 ≤ k → k ≤ 2 ^ 53 → b64rd ((k : K) / 2) = .fin ((k : K) / 2) := by
    intro k h0 h1
    have hK : (0 : K) ≤ k := by exact_mod_cast h0
    have hK1 : (k : K) ≤ 2 ^ 53 := by exact_mod_cast h1
    have := b64pos_exact (K := K) (k := k) (e := -1) h0 h1 (by norm_num)
    rw [zpow_neg_one, ← div_eq_mul_inv] at this
    rw [b64rd_nonneg (by positivity), this, if_neg]
    rw [not_le]
    have : (2 : K) ^ (53 : ℤ) < 2 ^ (1024 : ℤ) := zpow_lt_zpow_right₀ (by norm_num) (by norm_num)
    have e : (2 : K) ^ (53 : ℤ) = 2 ^ 53 := by norm_cast
    rw [e] at this
    refine lt_of_le_of_lt ?_ this
    linarith
  show b64rd _ = _
  rcases le_total 0 k with h | h
  · rw [abs_of_nonneg h] at hk; exact key k h hk
  · rw [abs_of_nonpos h] at hk
    have := key (-k) (by omega) hk
    have e : ((k : ℤ) : K) / 2 = -(((-k : ℤ) : K) / 2) := by push_cast; ring
    rw [e, b64rd_neg, this]; rfl

theorem b64_int {k : ℤ} (hk : |k| ≤ 2 ^ 52) : (binary64 : Rounding K).rd (k : K) = .fin (k : K) := by
  have := b64_half (K := K) (k := 2 * k) (by rw [abs_mul]; norm_num; omega)
  rwa [show ((2 * k : ℤ) : K) / 2 = k by push_cast; ring] at this

end b64

/-! ## computed series near exact ones -/

variable {R : Rounding K}

/-- a number, as a value of the rounded arithmetic -/
def rk (x : K) : Rval R := Val.fin x

/-- computed series `s`: `n` rows, NaN before row `p`, within `δ` of `f` from row `p` on -/
structure Approx (s : Series (Rval R)) (n p : Nat) (f : Nat → K) (δ : K) : Prop where
  len : s.length = n
  gap : ∀ i, i < n → i < p → ix s i = nan
  val : ∀ i, i < n → p ≤ i → ∃ y, ix s i = rk y ∧ |y - f i| ≤ δ

theorem Approx.mono {s : Series (Rval R)} {n p : Nat} {f : Nat → K} {δ δ' : K} (h : Approx s n p f δ) (hd : δ ≤ δ') :
    Approx s n p f δ' :=
  ⟨h.len, h.gap, fun i h1 h2 => by
    obtain ⟨y, q1, q2⟩ := h.val i h1 h2
    exact ⟨y, q1, q2.trans hd⟩⟩

theorem Approx.congr {s : Series (Rval R)} {n p : Nat} {f g : Nat → K} {δ : K} (h : Approx s n p f δ)
    (hg : ∀ i, i < n → p ≤ i → f i = g i) : Approx s n p g δ :=
  ⟨h.len, h.gap, fun i h1 h2 => by rw [← hg i h1 h2]; exact h.val i h1 h2⟩

/-- gap-free data -/
def rser (n : Nat) (x : Nat → K) : Series (Rval R) := tab n fun i => rk (x i)

theorem approx_ser (n : Nat) (f : Nat → K) : Approx (R := R) (rser n f) n 0 f 0 :=
  ⟨by simp [rser], fun i _ h => by omega, fun i hi _ => ⟨f i, ix_tab_lt hi, by simp⟩⟩

theorem acc_add {u η Ω : K} (acc : R.Acc u η Ω) {x y : K} (h : |x + y| ≤ Ω) :
    ∃ z, (rk x +. rk y : Rval R) = rk z ∧ |z - (x + y)| ≤ u * |x + y| + η := acc _ h

theorem acc_sub {u η Ω : K} (acc : R.Acc u η Ω) {x y : K} (h : |x - y| ≤ Ω) :
    ∃ z, (rk x -. rk y : Rval R) = rk z ∧ (rk 1 *. rk z : Rval R) = rk z ∧ |z - (x - y)| ≤ u * |x - y| + η := by
  obtain ⟨z, h1, h2⟩ := acc _ h
  refine ⟨z, ?_, ?_, h2⟩
  · rw [sub_eq_add_neg] at h1; exact h1
  · show R.rd (1 * z) = _
    rw [one_mul]; exact R.idem h1

theorem acc_mul {u η Ω : K} (acc : R.Acc u η Ω) {x y : K} (h : |x * y| ≤ Ω) :
    ∃ z, (rk x *. rk y : Rval R) = rk z ∧ |z - x * y| ≤ u * |x * y| + η := acc _ h

theorem acc_div {u η Ω : K} (acc : R.Acc u η Ω) {x y : K} (hy : y ≠ 0) (h : |x / y| ≤ Ω) :
    ∃ z, (rk x /. rk y : Rval R) = rk z ∧ |z - x / y| ≤ u * |x / y| + η := by
  obtain ⟨z, h1, h2⟩ := acc _ h
  refine ⟨z, ?_, h2⟩
  have : Val.div (.fin x) (.fin y) = .fin (x / y) := fin_div _ _ hy
  show R.rnd (Val.div (.fin x) (.fin y)) = _
  rw [this]; exact h1

theorem rne (x y : K) : ((rk x : Rval R) !=. rk y) = !(decide (x = y)) := rfl

theorem Approx.ssub {u η Ω : K} (acc : R.Acc u η Ω) (hu : 0 ≤ u) {s t : Series (Rval R)} {n p q : Nat} {f g : Nat → K}
    {δ ε B : K} (hs : Approx s n p f δ) (ht : Approx t n q g ε)
    (hB : ∀ i, i < n → max p q ≤ i → |f i - g i| + δ + ε ≤ B) (hΩ : B ≤ Ω) :
    Approx (TA.ssub s t) n (max p q) (fun i => f i - g i) (δ + ε + u * B + η) := by
  have e : ∀ i, i < n → ix (TA.ssub s t) i = ix s i -. ix t i := fun i hi => ix_zip2 (by rw [hs.len]; exact hi)
  refine ⟨by unfold TA.ssub; simp [hs.len], fun i h1 h2 => ?_, fun i h1 h2 => ?_⟩
  · rw [e i h1]
    rcases lt_max_iff.mp h2 with h | h
    · rw [hs.gap i h1 h]; rfl
    · rw [ht.gap i h1 h]
      generalize ix s i = v
      show R.rnd (Val.sub v Val.nan) = Val.nan
      have : Val.sub v Val.nan = Val.nan := TA.sub_nan v
      rw [this]; rfl
  · obtain ⟨y, y1, y2⟩ := hs.val i h1 (le_of_max_le_left h2)
    obtain ⟨z, z1, z2⟩ := ht.val i h1 (le_of_max_le_right h2)
    rw [e i h1, y1, z1]
    have hyz : |y - z - (f i - g i)| ≤ δ + ε := by
      rw [show y - z - (f i - g i) = (y - f i) - (z - g i) by ring]
      exact (abs_sub _ _).trans (add_le_add y2 z2)
    have hyz2 : |y - z| ≤ B := by
      have := abs_add_le (y - z - (f i - g i)) (f i - g i)
      rw [sub_add_cancel] at this
      have := hB i h1 h2
      linarith
    obtain ⟨v, v1, _, v2⟩ := acc_sub acc (hyz2.trans hΩ)
    refine ⟨v, v1, ?_⟩
    have h3 : u * |y - z| ≤ u * B := mul_le_mul_of_nonneg_left hyz2 hu
    have := abs_add_le (v - (y - z)) (y - z - (f i - g i))
    rw [sub_add_sub_cancel] at this
    show |v - (f i - g i)| ≤ _
    linarith

/-! ## exponential smoothing -/

theorem ewmStep_obs {F : Type} [Flt F] (a w m x : F) (n : Nat) (hm : Flt.isNaN m = false) (hx : Flt.isNaN x = false) :
    ((m !=. x) = true → ewmStep a ⟨m, w, n⟩ x =
      ⟨((w *. (lit 1 -. a) *. m) +. (a *. x)) /. (w *. (lit 1 -. a) +. a), lit 1, n + 1⟩) ∧
    ((m !=. x) = false → ewmStep a ⟨m, w, n⟩ x = ⟨m, lit 1, n + 1⟩) := by
  unfold ewmStep
  dsimp only
  rw [hm, hx]
  refine ⟨fun h => ?_, fun h => ?_⟩ <;> rw [h] <;> rfl

theorem quot_near {u B s D : K} (hu : 0 ≤ u) (hB : 0 ≤ B) (hs : |s| ≤ 1.02 * B) (hd : |1 - D| ≤ 2.02 * u)
    (h : 0.99 ≤ D) : |s / D - s| ≤ 2.1 * (u * B) := by
  have D0 : (0 : K) < D := lt_of_lt_of_le (by norm_num) h
  have huB : 0 ≤ u * B := mul_nonneg hu hB
  rw [show s / D - s = s * (1 - D) / D by field_simp, abs_div, abs_mul, abs_of_pos D0, div_le_iff₀ D0]
  have k2 := mul_le_mul hs hd (abs_nonneg _) (mul_nonneg (by norm_num) hB)
  have k3 := mul_le_mul_of_nonneg_left h huB
  rw [show 1.02 * B * (2.02 * u) = 2.0604 * (u * B) by ring] at k2
  rw [mul_assoc]
  linarith

/-- one row of the smoothing: the error is at most `8 u B` -/
theorem acc_step {u η Ω : K} (acc : R.Acc u η Ω) (hu : 0 < u) (hu1 : u ≤ 1 / 1000) (hη : 0 ≤ η) {B : K}
    (hη1 : η ≤ u / 1000) (hηB : η ≤ u * B / 1000) (hΩ1 : 4 ≤ Ω) (hΩB : 4 * B ≤ Ω) {a' m x : K} (h0 : 0 ≤ a') (h1 : a' ≤ 1)
    (hm : |m| ≤ B) (hx : |x| ≤ B) (n : Nat) :
    ∃ y, ewmStep (rk a' : Rval R) ⟨rk m, rk 1, n⟩ (rk x) = ⟨rk y, rk 1, n + 1⟩ ∧
      |y - ((1 - a') * m + a' * x)| ≤ 8 * u * B := by
  have hB : 0 ≤ B := (abs_nonneg m).trans hm
  have hl1 : (lit 1 : Rval R) = rk 1 := lit1
  have i1 : Flt.isNaN (rk x : Rval R) = false := rfl
  have i2 : Flt.isNaN (rk m : Rval R) = false := rfl
  by_cases hmx : m = x
  · subst hmx
    refine ⟨m, ?_, ?_⟩
    · rw [(ewmStep_obs (F := Rval R) _ _ _ _ n i2 i1).2 (by rw [rne, decide_eq_true rfl]; rfl), hl1]
    · rw [show m - ((1 - a') * m + a' * m) = 0 by ring, abs_zero]; positivity
  rw [(ewmStep_obs (F := Rval R) _ _ _ _ n i2 i1).1 (by rw [rne, decide_eq_false hmx]; rfl), hl1]
  -- 1 - a
  have huB : 0 ≤ u * B := by positivity
  obtain ⟨b, b1, b1', b2⟩ := acc_sub acc (x := 1) (y := a') (by rw [abs_le]; constructor <;> linarith)
  rw [b1, b1']
  have ab : |1 - a'| ≤ 1 := by rw [abs_le]; constructor <;> linarith
  have b3 : |b - (1 - a')| ≤ 1.001 * u := by
    have := mul_le_mul_of_nonneg_left ab hu.le
    linarith
  rw [abs_le] at b3
  have bp : |b| ≤ 1.01 := by rw [abs_le]; constructor <;> linarith [b3.1, b3.2]
  have hbm : |b * m| ≤ 1.01 * B := by
    rw [abs_mul]; exact mul_le_mul bp hm (abs_nonneg _) (by norm_num)
  have hax : |a' * x| ≤ B := by
    rw [abs_mul, abs_of_nonneg h0]
    have := mul_le_mul h1 hx (abs_nonneg _) (by norm_num)
    linarith
  obtain ⟨t1, p1, p2⟩ := acc_mul acc (hbm.trans (by linarith))
  obtain ⟨t2, q1, q2⟩ := acc_mul acc (hax.trans (by linarith))
  rw [p1, q1]
  have p3 : |t1 - b * m| ≤ 1.012 * (u * B) := by
    have := mul_le_mul_of_nonneg_left hbm hu.le
    linarith
  have q3 : |t2 - a' * x| ≤ 1.001 * (u * B) := by
    have := mul_le_mul_of_nonneg_left hax hu.le
    linarith
  -- the ideal numerator
  have hid : |b * m + a' * x - ((1 - a') * m + a' * x)| ≤ 1.001 * (u * B) := by
    rw [show b * m + a' * x - ((1 - a') * m + a' * x) = (b - (1 - a')) * m by ring, abs_mul]
    have := mul_le_mul (abs_le.mpr b3) hm (abs_nonneg _) (by positivity)
    linarith
  have hconv : |(1 - a') * m + a' * x| ≤ B := by
    have := abs_add_le ((1 - a') * m) (a' * x)
    rw [abs_mul, abs_mul, abs_of_nonneg h0, abs_of_nonneg (by linarith : 0 ≤ 1 - a')] at this
    have k1 := mul_le_mul_of_nonneg_left hm (by linarith : 0 ≤ 1 - a')
    have k2 := mul_le_mul_of_nonneg_left hx h0
    linarith
  have huB2 : u * B ≤ 1 / 1000 * B := mul_le_mul_of_nonneg_right hu1 hB
  have hz : |t1 + t2 - ((1 - a') * m + a' * x)| ≤ 3.014 * (u * B) := by
    have k1 := abs_add_le (t1 - b * m) (t2 - a' * x)
    have k2 := abs_add_le ((t1 - b * m) + (t2 - a' * x)) (b * m + a' * x - ((1 - a') * m + a' * x))
    rw [show (t1 - b * m) + (t2 - a' * x) + (b * m + a' * x - ((1 - a') * m + a' * x))
      = t1 + t2 - ((1 - a') * m + a' * x) by ring] at k2
    linarith
  have hz2 : |t1 + t2| ≤ 1.01 * B := by
    have := abs_add_le (t1 + t2 - ((1 - a') * m + a' * x)) ((1 - a') * m + a' * x)
    rw [sub_add_cancel] at this
    linarith
  obtain ⟨s, s1, s2⟩ := acc_add acc (hz2.trans (by linarith))
  rw [s1]
  have s3 : |s - ((1 - a') * m + a' * x)| ≤ 4.03 * (u * B) := by
    have k := mul_le_mul_of_nonneg_left hz2 hu.le
    have := abs_add_le (s - (t1 + t2)) (t1 + t2 - ((1 - a') * m + a' * x))
    rw [sub_add_sub_cancel] at this
    linarith
  have s4 : |s| ≤ 1.02 * B := by
    have := abs_add_le (s - ((1 - a') * m + a' * x)) ((1 - a') * m + a' * x)
    rw [sub_add_cancel] at this
    linarith
  -- the denominator
  have hd0 : |b + a' - 1| ≤ 1.001 * u := by rw [abs_le]; constructor <;> linarith [b3.1, b3.2]
  have hd1 : |b + a'| ≤ 1.01 := by rw [abs_le] at hd0 ⊢; constructor <;> linarith [hd0.1, hd0.2]
  obtain ⟨D, D1, D2⟩ := acc_add acc (hd1.trans (by linarith))
  rw [D1]
  have D3 : |D - 1| ≤ 2.02 * u := by
    have k := mul_le_mul_of_nonneg_left hd1 hu.le
    have := abs_add_le (D - (b + a')) (b + a' - 1)
    rw [sub_add_sub_cancel] at this
    linarith
  rw [abs_le] at D3
  have Dp : 0.99 ≤ D := by linarith [D3.1]
  have D0 : (0 : K) < D := by linarith
  have hq : |s / D - s| ≤ 2.1 * (u * B) := by
    have k1 : |1 - D| ≤ 2.02 * u := by rw [abs_le]; constructor <;> linarith [D3.1, D3.2]
    exact quot_near hu.le hB s4 k1 Dp
  have hq2 : |s / D| ≤ 1.03 * B := by
    have := abs_add_le (s / D - s) s
    rw [sub_add_cancel] at this
    linarith
  obtain ⟨y, y1, y2⟩ := acc_div acc D0.ne' (hq2.trans (by linarith))
  rw [y1]
  refine ⟨y, rfl, ?_⟩
  have k := mul_le_mul_of_nonneg_left hq2 hu.le
  have k1 := abs_add_le (y - s / D) (s / D - s)
  have k2 := abs_add_le (y - s / D + (s / D - s)) (s - ((1 - a') * m + a' * x))
  rw [show y - s / D + (s / D - s) + (s - ((1 - a') * m + a' * x)) = y - ((1 - a') * m + a' * x) by ring] at k2
  linarith

theorem emaRec_abs {a : K} (ha : 0 ≤ a) (ha1 : a ≤ 1) {f : Nat → K} {M : K} {i : Nat} (h : ∀ j, j ≤ i → |f j| ≤ M) :
    |emaRec a f i| ≤ M := by
  induction i with
  | zero => exact h 0 (le_refl _)
  | succ i ih =>
    have h1 := ih fun j hj => h j (by omega)
    have h2 := h (i + 1) (le_refl _)
    rw [emaRec]
    have := abs_add_le ((1 - a) * emaRec a f i) (a * f (i + 1))
    rw [abs_mul, abs_mul, abs_of_nonneg ha, abs_of_nonneg (by linarith : 0 ≤ 1 - a)] at this
    have k1 := mul_le_mul_of_nonneg_left h1 (by linarith : 0 ≤ 1 - a)
    have k2 := mul_le_mul_of_nonneg_left h2 ha
    linarith

theorem ema_err_step {a a' u δ N m x y e g : K} (ha : 0 < a) (ha1 : a ≤ 1) (hN : 0 ≤ N) (hu : 0 < u)
    (haa : |a' - a| ≤ 6 * u) (hm : |m| ≤ 2 * N) (hx : |x| ≤ 2 * N)
    (hy : |y - ((1 - a') * m + a' * x)| ≤ 8 * u * (2 * N))
    (hme : |m - e| ≤ δ + 40 * u * N / a) (hxg : |x - g| ≤ δ) :
    |y - ((1 - a) * e + a * g)| ≤ δ + 40 * u * N / a := by
  have k1 : |(a - a') * m| ≤ 6 * u * (2 * N) := by
    rw [abs_mul, abs_sub_comm]; exact mul_le_mul haa hm (abs_nonneg _) (by positivity)
  have k2 : |(a' - a) * x| ≤ 6 * u * (2 * N) := by
    rw [abs_mul]; exact mul_le_mul haa hx (abs_nonneg _) (by positivity)
  have k3 : |(1 - a) * (m - e)| ≤ (1 - a) * (δ + 40 * u * N / a) := by
    rw [abs_mul, abs_of_nonneg (by linarith : 0 ≤ 1 - a)]
    exact mul_le_mul_of_nonneg_left hme (by linarith)
  have k4 : |a * (x - g)| ≤ a * δ := by
    rw [abs_mul, abs_of_pos ha]; exact mul_le_mul_of_nonneg_left hxg ha.le
  have e1 : y - ((1 - a) * e + a * g) = (y - ((1 - a') * m + a' * x)) + (a - a') * m + (a' - a) * x
      + (1 - a) * (m - e) + a * (x - g) := by ring
  have e2 : (1 - a) * (δ + 40 * u * N / a) = δ + 40 * u * N / a - a * δ - 40 * u * N := by field_simp; ring
  rw [e1]
  have t1 := abs_add_le ((y - ((1 - a') * m + a' * x)) + (a - a') * m + (a' - a) * x + (1 - a) * (m - e)) (a * (x - g))
  have t2 := abs_add_le ((y - ((1 - a') * m + a' * x)) + (a - a') * m + (a' - a) * x) ((1 - a) * (m - e))
  have t3 := abs_add_le ((y - ((1 - a') * m + a' * x)) + (a - a') * m) ((a' - a) * x)
  have t4 := abs_add_le (y - ((1 - a') * m + a' * x)) ((a - a') * m)
  have : (0 : K) ≤ u * N := by positivity
  linarith

section ewm
variable {u η Ω : K} (acc : R.Acc u η Ω) (hu : 0 < u) (hu1 : u ≤ 1 / 1000) (hη : 0 ≤ η) (hη1 : η ≤ u / 1000) (hΩ : 4 ≤ Ω)
include acc hu hu1 hη hη1 hΩ

theorem ewmAt_approx {a a' : K} (ha : 0 < a) (ha1 : a ≤ 1) (hau : 40 * u ≤ a) (h0 : 0 ≤ a') (h1 : a' ≤ 1)
    (haa : |a' - a| ≤ 6 * u) {s : Series (Rval R)} {n p : Nat} {f : Nat → K} {δ M : K} (hδ : 0 ≤ δ)
    (h : Approx s n p f δ) (hM0 : 0 ≤ M) (hf : ∀ i, i < n → p ≤ i → |f i| ≤ M) (hM : η ≤ u * (M + δ) / 500) (hMΩ : 8 * (M + δ) ≤ Ω)
    (k : Nat) (hk : k ≤ n) :
    (k ≤ p → ewmAt (rk a') s k = ⟨nan, rk 1, 0⟩) ∧
    (p < k → ∃ y, ewmAt (rk a') s k = ⟨rk y, rk 1, k - p⟩ ∧
      |y - emaRec a (fun j => f (p + j)) (k - 1 - p)| ≤ δ + 40 * u * (M + δ) / a) := by
  induction k with
  | zero =>
    refine ⟨fun _ => ?_, fun h => by omega⟩
    show (ewmInit : EwmSt (Rval R)) = _
    unfold ewmInit
    rw [show (lit 1 : Rval R) = rk 1 from lit1]
  | succ k ih =>
    obtain ⟨ih1, ih2⟩ := ih (by omega)
    have hE : 0 ≤ 40 * u * (M + δ) / a := by positivity
    have hE1 : 40 * u * (M + δ) / a ≤ M + δ := by
      rw [div_le_iff₀ ha, mul_comm (M + δ)]
      exact mul_le_mul_of_nonneg_right hau (by linarith)
    refine ⟨fun hp => ?_, fun hp => ?_⟩
    · show ewmStep (rk a') (ewmAt (rk a') s k) (clean (ix s k)) = _
      rw [ih1 (by omega), h.gap k (by omega) (by omega)]; rfl
    · obtain ⟨x, x1, x2⟩ := h.val k (by omega) (by omega)
      have hxM : |x| ≤ M + δ := by
        have := abs_add_le (x - f k) (f k)
        rw [sub_add_cancel] at this
        have := hf k (by omega) (by omega)
        linarith
      have e0 : ewmAt (rk a') s (k + 1) = ewmStep (rk a') (ewmAt (rk a') s k) (rk x) := by
        show ewmStep (rk a') (ewmAt (rk a') s k) (clean (ix s k)) = _
        rw [x1]; rfl
      rw [e0]
      by_cases hkp : k = p
      · subst hkp
        rw [ih1 (le_refl _)]
        refine ⟨x, ?_, ?_⟩
        · rw [show k + 1 - k = 1 by omega]; rfl
        · rw [show k + 1 - 1 - k = 0 by omega]
          show |x - f (k + 0)| ≤ _
          rw [Nat.add_zero]; linarith
      · obtain ⟨m, m1, m2⟩ := ih2 (by omega)
        rw [m1]
        have hmM : |emaRec a (fun j => f (p + j)) (k - 1 - p)| ≤ M :=
          emaRec_abs ha.le ha1 fun j hj => hf _ (by omega) (by omega)
        have hmB : |m| ≤ 2 * (M + δ) := by
          have := abs_add_le (m - emaRec a (fun j => f (p + j)) (k - 1 - p)) (emaRec a (fun j => f (p + j)) (k - 1 - p))
          rw [sub_add_cancel] at this
          linarith
        have hxB : |x| ≤ 2 * (M + δ) := by linarith
        obtain ⟨y, y1, y2⟩ := acc_step acc hu hu1 hη (B := 2 * (M + δ)) hη1 (by linarith) hΩ (by linarith) h0 h1 hmB hxB
          (k - p)
        refine ⟨y, ?_, ?_⟩
        · rw [y1, show k + 1 - p = k - p + 1 by omega]
        · rw [show k + 1 - 1 - p = (k - 1 - p) + 1 by omega, emaRec]
          refine ema_err_step ha ha1 (by linarith) hu haa hmB hxB y2 m2 ?_
          rw [show p + (k - 1 - p + 1) = k by omega]
          exact x2

theorem Approx.ewm {a a' : K} (ha : 0 < a) (ha1 : a ≤ 1) (hau : 40 * u ≤ a) (h0 : 0 ≤ a') (h1 : a' ≤ 1)
    (haa : |a' - a| ≤ 6 * u) {s : Series (Rval R)} {n p : Nat} {f : Nat → K} {δ M : K} (hδ : 0 ≤ δ)
    (h : Approx s n p f δ) (hM0 : 0 ≤ M) (hf : ∀ i, i < n → p ≤ i → |f i| ≤ M) (hM : η ≤ u * (M + δ) / 500) (hMΩ : 8 * (M + δ) ≤ Ω)
    (mp : Nat) :
    Approx (TA.ewm (rk a') mp s) n (p + max mp 1 - 1) (fun i => emaRec a (fun j => f (p + j)) (i - p))
      (δ + 40 * u * (M + δ) / a) := by
  have key := ewmAt_approx acc hu hu1 hη hη1 hΩ ha ha1 hau h0 h1 haa hδ h hM0 hf hM hMΩ
  refine ⟨by simp [h.len], fun i q1 q2 => ?_, fun i q1 q2 => ?_⟩
  · rw [ix_ewm' (by rw [h.len]; exact q1)]
    by_cases hp : i + 1 ≤ p
    · rw [(key (i + 1) (by omega)).1 hp]
      unfold ewmOut
      dsimp only
      rw [if_neg (by omega)]
    · obtain ⟨y, y1, _⟩ := (key (i + 1) (by omega)).2 (by omega)
      rw [y1]
      unfold ewmOut
      dsimp only
      rw [if_neg (by omega)]
  · obtain ⟨y, y1, y2⟩ := (key (i + 1) (by omega)).2 (by omega)
    rw [ix_ewm' (by rw [h.len]; exact q1), y1]
    refine ⟨y, ?_, ?_⟩
    · unfold ewmOut
      dsimp only
      rw [if_pos (by omega)]
    · rwa [show i + 1 - 1 - p = i - p by omega] at y2

end ewm

end TA
