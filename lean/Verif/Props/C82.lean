import Verif.Props.C80
import Verif.Props.C17
import Verif.Props.C19
import Mathlib.Algebra.Order.Ring.Pow

/-!
# C82: RSI and TSI in double precision

The same call is evaluated in double precision and exactly.  `M` bounds the size of the price changes from above, `m` from
below.  The two results differ by a multiple of `2^-53 M / m` that depends on the windows only, not on the number of rows.
-/

set_option linter.unusedSectionVars false

namespace TA
variable {K : Type} [Field K] [LinearOrder K] [IsStrictOrderedRing K] [FloorRing K]

/-! ## one operation -/

theorem tiny_le_one : (tiny : K) ≤ 1 := by
  have : (2 : K) ^ (-900 : ℤ) ≤ 2 ^ (0 : ℤ) := zpow_le_zpow_right₀ (by norm_num) (by norm_num)
  rwa [zpow_zero] at this

theorem thousand_le_cap : (1000 : K) ≤ cap := by
  have : (2 : K) ^ (10 : ℤ) ≤ 2 ^ (1000 : ℤ) := zpow_le_zpow_right₀ (by norm_num) (by norm_num)
  exact le_trans (by norm_num) this

theorem near_of_acc {x y B : K} (h : |y - x| ≤ 2 ^ (-53 : ℤ) * |x| + 2 ^ (-1075 : ℤ)) (hx : |x| ≤ B) (hB : tiny ≤ B) :
    |y - x| ≤ 1.001 * (eps * B) := by
  have k1 := mul_le_mul_of_nonneg_left hx (eps_pos (K := K)).le
  have k2 := eta_le hB
  change |y - x| ≤ eps * |x| + _ at h
  linarith

theorem cap_ok {B : K} (hB : tiny ≤ B) (hB2 : B ≤ cap) : B ≤ 2 ^ (1023 : ℤ) := by
  have := big_le hB2
  have h0 := tiny_pos (K := K)
  exact le_trans (by linarith) this

theorem near_add {x y B : K} (h : |x + y| ≤ B) (hB : tiny ≤ B) (hB2 : B ≤ cap) :
    ∃ z, (rk x +. rk y : Double K) = rk z ∧ |z - (x + y)| ≤ 1.001 * (eps * B) := by
  obtain ⟨z, z1, z2⟩ := acc_add (b64_acc (K := K)) (h.trans (cap_ok hB hB2))
  exact ⟨z, z1, near_of_acc z2 h hB⟩

theorem near_sub {x y B : K} (h : |x - y| ≤ B) (hB : tiny ≤ B) (hB2 : B ≤ cap) :
    ∃ z, (rk x -. rk y : Double K) = rk z ∧ |z - (x - y)| ≤ 1.001 * (eps * B) := by
  obtain ⟨z, z1, _, z2⟩ := acc_sub (b64_acc (K := K)) (h.trans (cap_ok hB hB2))
  exact ⟨z, z1, near_of_acc z2 h hB⟩

theorem near_mul {x y B : K} (h : |x * y| ≤ B) (hB : tiny ≤ B) (hB2 : B ≤ cap) :
    ∃ z, (rk x *. rk y : Double K) = rk z ∧ |z - x * y| ≤ 1.001 * (eps * B) := by
  obtain ⟨z, z1, z2⟩ := acc_mul (b64_acc (K := K)) (h.trans (cap_ok hB hB2))
  exact ⟨z, z1, near_of_acc z2 h hB⟩

theorem near_div {x y B : K} (hy : y ≠ 0) (h : |x / y| ≤ B) (hB : tiny ≤ B) (hB2 : B ≤ cap) :
    ∃ z, (rk x /. rk y : Double K) = rk z ∧ |z - x / y| ≤ 1.001 * (eps * B) := by
  obtain ⟨z, z1, z2⟩ := acc_div (b64_acc (K := K)) hy (h.trans (cap_ok hB hB2))
  exact ⟨z, z1, near_of_acc z2 h hB⟩

/-! ## Wilder's smoothing factor -/

theorem inv_near {u W d : K} (hW : 0 < W) (hu1 : u ≤ 1 / 1000) (h : |d - W| ≤ 4.07 * u * W) :
    0 < d ∧ |1 / d - 1 / W| * W ≤ 4.1 * u ∧ 1 / d ≤ 1.01 * (1 / W) := by
  have k0 : 4.07 * u * W ≤ 4.07 * (1 / 1000) * W := by
    have := mul_le_mul_of_nonneg_right hu1 hW.le
    linarith
  have k1 := abs_le.mp h
  have hd : 0.995 * W ≤ d := by linarith [k1.1]
  have hd0 : 0 < d := by linarith
  have hu0 : 0 ≤ u * W := by
    have := (abs_nonneg _).trans h
    linarith
  refine ⟨hd0, ?_, ?_⟩
  · rw [show 1 / d - 1 / W = -(d - W) / (d * W) by field_simp; ring, abs_div, abs_neg, abs_of_pos (mul_pos hd0 hW),
      div_mul_eq_mul_div, div_le_iff₀ (mul_pos hd0 hW)]
    have h2 := mul_le_mul_of_nonneg_right h hW.le
    have h3 := mul_le_mul_of_nonneg_right hd (mul_nonneg hu0 (by norm_num : (0 : K) ≤ 4.1))
    have h4 := mul_nonneg hu0 hW.le
    linarith
  · rw [mul_one_div, div_le_div_iff₀ hd0 hW]
    linarith

theorem wilder_double {w : Nat} (hw : 1 ≤ w) (hw2 : w ≤ 2 ^ 40) :
    ∃ a : K, (RSI.alpha w : Double K) = rk a ∧ 0 ≤ a ∧ a ≤ 1 ∧ |a - 1 / (w : K)| ≤ 6 * eps := by
  have hm : In 0 1 (RSI.alpha w : Double K) := wilderAlpha_mem hw
  have hW1 : (1 : K) ≤ w := by exact_mod_cast hw
  have hW : (0 : K) < w := by linarith
  have hu := eps_pos (K := K)
  have hu1 := eps_small (K := K)
  have hl1 : (lit 1 : Double K) = rk 1 := lit1
  have huW : 1000 * eps * (w : K) ≤ 1 := by
    have := eps_win (K := K) hw2
    linarith
  have hcap : (w : K) * 2 ≤ cap := by
    have h1 := huge_win (K := K) hw2
    have h2 : (2 : K) ≤ huge := by
      have : (2 : K) ^ (1 : ℤ) ≤ 2 ^ (900 : ℤ) := zpow_le_zpow_right₀ (by norm_num) (by norm_num)
      rwa [zpow_one] at this
    have := mul_le_mul_of_nonneg_right h2 hW.le
    linarith
  have hi1 : 1 / (w : K) ≤ 1 := by rw [div_le_one hW]; exact hW1
  have hi0 : 0 < 1 / (w : K) := by positivity
  have hti : tiny ≤ 1 / (w : K) := by
    rw [le_div_iff₀ hW]
    have h1 : (w : K) ≤ 2 ^ (40 : ℤ) := by
      have : (w : K) ≤ 2 ^ 40 := by exact_mod_cast hw2
      exact_mod_cast this
    have h2 : (tiny : K) * 2 ^ (40 : ℤ) ≤ 1 := by
      unfold tiny
      rw [← zpow_add₀ (by norm_num)]
      exact zpow_le_one_of_nonpos₀ (by norm_num) (by norm_num)
    exact (mul_le_mul_of_nonneg_left h1 tiny_pos.le).trans h2
  have h1c : (1 : K) ≤ cap := by linarith [thousand_le_cap (K := K)]
  -- 1 / w
  obtain ⟨a, a1, a2⟩ := near_div (x := 1) (y := (w : K)) hW.ne' (B := 1 / (w : K)) (by rw [abs_of_pos hi0]) hti (by linarith)
  have a3 := abs_le.mp a2
  have aW : |1 - a * w| ≤ 1.001 * eps := by
    have : 1 - a * w = -(a - 1 / (w : K)) * w := by field_simp; ring
    rw [this, abs_mul, abs_neg, abs_of_pos hW]
    have := mul_le_mul_of_nonneg_right a2 hW.le
    have e : 1.001 * (eps * (1 / (w : K))) * w = 1.001 * eps := by field_simp
    linarith
  have aW2 := abs_le.mp aW
  have apos : 0 < a := by
    have : 0 < a * w := by linarith [aW2.2]
    exact (pos_iff_pos_of_mul_pos this).mpr hW
  have ale : 0.99 ≤ a * w := by linarith [aW2.2]
  have ale1 : a ≤ 1.01 := by
    have : eps * (1 / (w : K)) ≤ 1 / 1000 * 1 := mul_le_mul hu1 hi1 hi0.le (by norm_num)
    linarith [a3.2]
  -- 1 - a
  obtain ⟨b, b1, b2⟩ := near_sub (x := 1) (y := a) (B := 1) (by rw [abs_le]; constructor <;> linarith) tiny_le_one (by linarith)
  -- (1 - a) / a
  have k1 : |b / a - ((w : K) - 1)| ≤ 2.03 * eps * w := by
    rw [show b / a - ((w : K) - 1) = ((b - (1 - a)) + (1 - a * w)) / a by field_simp; ring, abs_div, abs_of_pos apos,
      div_le_iff₀ apos]
    have q1 := abs_add_le (b - (1 - a)) (1 - a * w)
    have q2 := mul_le_mul_of_nonneg_left ale (by positivity : 0 ≤ 2.03 * (eps : K))
    linarith
  have k2 : |b / a| ≤ w := by
    have := abs_le.mp k1
    rw [abs_le]
    constructor
    · linarith [this.1]
    · linarith [this.2]
  obtain ⟨c, c1, c2⟩ := near_div (x := b) (y := a) apos.ne' (B := (w : K)) k2 (tiny_le_one.trans hW1) (by linarith)
  have hew : 0 ≤ eps * (w : K) := by positivity
  have k3 : |1 + c - w| ≤ 3.04 * eps * w := by
    have := abs_add_le (c - b / a) (b / a - ((w : K) - 1))
    rw [show c - b / a + (b / a - ((w : K) - 1)) = 1 + c - w by ring] at this
    linarith
  have k4 : |1 + c| ≤ 1.01 * w := by
    have := abs_le.mp k3
    rw [abs_le]
    constructor <;> linarith [this.1, this.2]
  obtain ⟨d, d1, d2⟩ := near_add (x := 1) (y := c) (B := 1.01 * (w : K)) k4 (by linarith [tiny_le_one (K := K)]) (by linarith)
  have k5 : |d - w| ≤ 4.07 * eps * w := by
    have := abs_add_le (d - (1 + c)) (1 + c - w)
    rw [sub_add_sub_cancel] at this
    have : 0 ≤ eps * (w : K) := by positivity
    linarith
  obtain ⟨dp, k6, k7⟩ := inv_near hW hu1 k5
  have k8 : |1 / d - 1 / (w : K)| ≤ 4.1 * eps := by
    refine le_trans ?_ k6
    exact le_mul_of_one_le_right (abs_nonneg _) hW1
  have k9 : |1 / d| ≤ 1.01 := by
    rw [abs_of_pos (by positivity)]
    linarith
  obtain ⟨z, z1, z2⟩ := near_div (x := 1) (y := d) dp.ne' (B := 1.01) k9 (by linarith [tiny_le_one (K := K)]) (by linarith [thousand_le_cap (K := K)])
  have hz : (RSI.alpha w : Double K) = rk z := by
    unfold RSI.alpha alphaOfAlpha
    rw [natF_double (by omega), hl1, a1, b1, c1, d1, z1]
  rw [hz] at hm
  obtain ⟨m1, m2⟩ := mem_iff.mp (show Mem 0 1 (Val.fin z) from hm)
  refine ⟨z, hz, ge_fin.mp m1, le_fin.mp m2, ?_⟩
  have := abs_add_le (z - 1 / d) (1 / d - 1 / (w : K))
  rw [sub_add_sub_cancel] at this
  linarith

/-- Wilder's smoothing (`ewm(alpha=1/w)`) of a computed series -/
theorem Approx.wilder {s : Series (Double K)} {n : Nat} {f : Nat → K} {δ M : K} {w : Nat} (hw : 1 ≤ w) (hw2 : w ≤ 2 ^ 40)
    (hδ : 0 ≤ δ) (h : Approx s n 0 f δ) (hf : ∀ i, i < n → |f i| ≤ M) (hM : tiny ≤ M)
    (hM2 : M + δ ≤ cap) (fillna : Bool) :
    Approx (TA.ewm (RSI.alpha w) (minp fillna w) s) n (if fillna then 0 else w - 1)
      (emaRec (1 / (w : K)) f) (δ + 40 * w * eps * (M + δ)) := by
  obtain ⟨a, a1, a2, a3, a4⟩ := wilder_double (K := K) hw hw2
  have hW1 : (1 : K) ≤ w := by exact_mod_cast hw
  have hp : (0 : K) < w := by linarith
  have hu := eps_pos (K := K)
  have hM0 : 0 ≤ M := tiny_pos.le.trans hM
  have hal1 : 1 / (w : K) ≤ 1 := by rw [div_le_one hp]; linarith
  have hal2 : 40 * eps ≤ 1 / (w : K) := by
    rw [le_div_iff₀ hp]
    have := eps_win (K := K) hw2
    have : 0 ≤ eps * (w : K) := by positivity
    linarith
  have hη := eta_le (K := K) (M := M + δ) (by linarith)
  have hb := big_le hM2
  have := Approx.ewm (b64_acc (K := K)) (show (0 : K) < 2 ^ (-53 : ℤ) from hu) eps_small (two_zpow_pos _).le eta_le1 big4
    (a := 1 / (w : K)) (by positivity) hal1 hal2 a2 a3 a4 hδ h hM0 (fun i hi _ => hf i hi)
    (hη.trans (by
      have : 0 ≤ eps * (M + δ) := by positivity
      show eps * (M + δ) / 1000 ≤ eps * (M + δ) / 500
      linarith)) (le_trans (by linarith : 8 * (M + δ) ≤ 1000 * (M + δ)) hb) (minp fillna w)
  rw [a1]
  have e1 : 0 + max (minp fillna w) 1 - 1 = if fillna then 0 else w - 1 := by
    unfold minp; cases fillna <;> simp; omega
  rw [e1] at this
  simp only [Nat.zero_add, Nat.sub_zero] at this
  refine this.mono (le_of_eq ?_)
  show δ + 40 * eps * (M + δ) / (1 / (w : K)) = _
  field_simp

/-! ## the last step of RSI -/

theorem huge_eps : 1000 ≤ (huge : K) * eps := by
  unfold huge eps
  rw [← zpow_add₀ (by norm_num)]
  have : (2 : K) ^ (10 : ℤ) ≤ 2 ^ (900 + -53 : ℤ) := zpow_le_zpow_right₀ (by norm_num) (by norm_num)
  exact le_trans (by norm_num) this

theorem rd_big {x X : K} (hX : tiny ≤ X) (hX2 : X ≤ cap) (h : X ≤ x) :
    (binary64 : Rounding K).rd x = .pinf ∨ ∃ y, (binary64 : Rounding K).rd x = .fin y ∧ X / 2 ≤ y := by
  have hX0 : 0 < X := tiny_pos.trans_le hX
  obtain ⟨z, z1, z2⟩ := b64_acc (K := K) X (by rw [abs_of_pos hX0]; exact cap_ok hX hX2)
  have z3 := near_of_acc z2 (by rw [abs_of_pos hX0]) hX
  have hz : X / 2 ≤ z := by
    have k := mul_le_mul_of_nonneg_right (eps_small (K := K)) hX0.le
    have := (abs_le.mp z3).1
    linarith
  have hm := (binary64 : Rounding K).mono h
  rw [z1] at hm
  generalize (binary64 : Rounding K).rd x = v at hm
  cases v with
  | nan => simp [Val.le] at hm
  | pinf => exact .inl rfl
  | ninf => simp [Val.le] at hm
  | fin y => exact .inr ⟨y, rfl, hz.trans (by simpa [Val.le] using hm)⟩

theorem lit100k : (lit 100 : Double K) = rk 100 := lit100
theorem lit1k : (lit 1 : Double K) = rk 1 := lit1
theorem lit0k : (lit 0 : Double K) = rk 0 := lit0

/-- `100 - 100 / t` for a denominator `t` that is near `1 + x`, or so large that the quotient vanishes -/
theorem sub_quot_near {t X : K} (h : 0.99 ≤ t) (hX : X = 100 - 100 / t) :
    ∃ y, (rk 100 -. (rk 100 /. rk t) : Double K) = rk y ∧ |y - X| ≤ 250 * eps := by
  have t0 : (0 : K) < t := by linarith
  have hc := thousand_le_cap (K := K)
  have ht1 := tiny_le_one (K := K)
  have hu := eps_pos (K := K)
  have hu1 := eps_small (K := K)
  have q0 : 0 ≤ 100 / t := by positivity
  have q1 : 100 / t ≤ 102 := by rw [div_le_iff₀ t0]; linarith
  obtain ⟨q, q2, q3⟩ := near_div (x := 100) (y := t) t0.ne' (B := 102) (by rw [abs_of_nonneg q0]; exact q1) (by linarith) (by linarith)
  have q4 := abs_le.mp q3
  obtain ⟨y, y1, y2⟩ := near_sub (x := 100) (y := q) (B := 102) (by rw [abs_le]; constructor <;> linarith [q4.1, q4.2]) (by linarith) (by linarith)
  refine ⟨y, by rw [q2, y1], ?_⟩
  have := abs_sub (y - (100 - q)) (q - 100 / t)
  rw [show y - (100 - q) - (q - 100 / t) = y - X by rw [hX]; ring] at this
  linarith

theorem squash_near {u d : K} (hu : 0 ≤ u) (hd : 0 < d) :
    ∃ y, (lit 100 -. (lit 100 /. (lit 1 +. (rk u /. rk d))) : Double K) = rk y ∧
      |y - 100 * u / (u + d)| ≤ 600 * eps := by
  rw [lit100k, lit1k]
  have hc := thousand_le_cap (K := K)
  have hhc := huge_cap (K := K)
  have ht1 := tiny_le_one (K := K)
  have he := eps_pos (K := K)
  have he1 := eps_small (K := K)
  have hhe := huge_eps (K := K)
  have hH : (1000 : K) ≤ huge := by
    have : huge * eps ≤ huge * (1 / 1000 : K) := mul_le_mul_of_nonneg_left he1 (two_zpow_pos _).le
    linarith
  have hH0 : (0 : K) < huge := by linarith
  have hud : 0 < u + d := by linarith
  set x := u / d with hx
  have hx0 : 0 ≤ x := div_nonneg hu hd.le
  have hex : 100 * u / (u + d) = 100 - 100 / (1 + x) := by
    rw [hx]; field_simp; ring
  rw [hex]
  have hdiv : (rk u /. rk d : Double K) = (binary64 : Rounding K).rd x := by
    have : Val.div (.fin u) (.fin d) = .fin (u / d) := fin_div _ _ hd.ne'
    show (binary64 : Rounding K).rnd (Val.div (.fin u) (.fin d)) = _
    rw [this]; rfl
  -- a large denominator
  have large : ∀ t : K, huge / 4 ≤ t → |100 - 100 / t - (100 - 100 / (1 + x))| ≤ eps + 100 / (1 + x) := by
    intro t ht
    have t0 : 0 < t := by linarith
    have k1 : 100 / t ≤ eps := by
      rw [div_le_iff₀ t0]
      have := mul_le_mul_of_nonneg_left ht he.le
      linarith
    have k2 : 0 ≤ 100 / t := by positivity
    have k3 : 0 ≤ 100 / (1 + x) := by positivity
    rw [abs_le]
    constructor <;> linarith
  by_cases hxh : x ≤ huge
  · -- everything stays finite
    obtain ⟨r, r1, r2⟩ := near_div (x := u) (y := d) hd.ne' (B := x + 1) (by rw [← hx, abs_of_nonneg hx0]; linarith)
      (by linarith) (by linarith)
    rw [← hx] at r2
    have q0 : eps * (x + 1) ≤ 1 / 1000 * (x + 1) := mul_le_mul_of_nonneg_right he1 (by linarith)
    have r3 := abs_le.mp r2
    obtain ⟨t, t1, t2⟩ := near_add (x := 1) (y := r) (B := 1.01 * (x + 1))
      (by rw [abs_le]; constructor <;> linarith [r3.1, r3.2]) (by linarith) (by linarith)
    have t3 : |t - (1 + x)| ≤ 2.02 * (eps * (x + 1)) := by
      have := abs_add_le (t - (1 + r)) (r - x)
      rw [show t - (1 + r) + (r - x) = t - (1 + x) by ring] at this
      have : 0 ≤ eps * (x + 1) := by positivity
      linarith
    have t4 := abs_le.mp t3
    have tle : 0.99 * (1 + x) ≤ t := by linarith [t4.1]
    have t0 : 0 < t := by linarith
    obtain ⟨y, y1, y2⟩ := sub_quot_near (t := t) (by linarith) rfl
    refine ⟨y, by rw [r1, t1, y1], ?_⟩
    have k : |100 - 100 / t - (100 - 100 / (1 + x))| ≤ 210 * eps := by
      have hx1 : 0 < 1 + x := by linarith
      rw [show 100 - 100 / t - (100 - 100 / (1 + x)) = 100 * (t - (1 + x)) / (t * (1 + x)) by field_simp; ring,
        abs_div, abs_mul, abs_of_pos (mul_pos t0 hx1), abs_of_pos (by norm_num : (0 : K) < 100), div_le_iff₀ (mul_pos t0 hx1)]
      have k1 := mul_le_mul_of_nonneg_left tle (by positivity : 0 ≤ 210 * (eps * (1 + x)))
      have k2 : eps * (1 + x) ≤ eps * (1 + x) * (1 + x) := le_mul_of_one_le_right (by positivity) (by linarith)
      linarith
    have := abs_add_le (y - (100 - 100 / t)) (100 - 100 / t - (100 - 100 / (1 + x)))
    rw [sub_add_sub_cancel] at this
    linarith
  · -- the ratio is huge, perhaps infinite
    rw [not_le] at hxh
    have hsm : 100 / (1 + x) ≤ eps := by
      rw [div_le_iff₀ (by linarith)]
      have := mul_le_mul_of_nonneg_left hxh.le he.le
      linarith
    have inf : ∃ y, (rk 100 -. (rk 100 /. (Val.pinf : Val K)) : Double K) = rk y ∧ |y - (100 - 100 / (1 + x))| ≤ 600 * eps := by
      refine ⟨100, ?_, ?_⟩
      · have e1 : (rk 100 /. (Val.pinf : Val K) : Double K) = rk 0 := (binary64 : Rounding K).zero
        rw [e1]
        show (binary64 : Rounding K).rd (100 + -0) = _
        rw [neg_zero, add_zero]
        exact (binary64 : Rounding K).hundred
      · have : 0 ≤ 100 / (1 + x) := by positivity
        rw [abs_le]
        constructor <;> linarith
    rcases rd_big (by linarith) (by linarith) hxh.le with h | ⟨r, h, hr⟩
    · have e : (rk 1 +. (rk u /. rk d) : Double K) = (Val.pinf : Val K) := by rw [hdiv, h]; rfl
      rw [e]; exact inf
    · have e : (rk 1 +. (rk u /. rk d) : Double K) = (binary64 : Rounding K).rd (1 + r) := by rw [hdiv, h]; rfl
      rw [e]
      rcases rd_big (x := 1 + r) (X := huge / 2) (by linarith) (by linarith) (by linarith) with g | ⟨t, g, ht⟩
      · rw [g]; exact inf
      · rw [g]
        obtain ⟨y, y1, y2⟩ := sub_quot_near (t := t) (by linarith) rfl
        refine ⟨y, y1, ?_⟩
        have k := large t (by linarith)
        have := abs_add_le (y - (100 - 100 / t)) (100 - 100 / t - (100 - 100 / (1 + x)))
        rw [sub_add_sub_cancel] at this
        linarith

/-- the exact RSI of slightly wrong averages -/
theorem rsi_stable {u d U D E g : K} (hu : 0 ≤ u) (hd : 0 ≤ d) (hp : 0 < u + d) (h1 : |u - U| ≤ E)
    (h2 : |d - D| ≤ E) (hg : 0 < g) (hs : g ≤ U + D) : |100 * u / (u + d) - 100 * U / (U + D)| ≤ 100 * E / g := by
  have hs0 : 0 < U + D := by linarith
  have hE : 0 ≤ E := (abs_nonneg _).trans h1
  have k : |100 * u / (u + d) - 100 * U / (U + D)| ≤ 100 * E / (U + D) := by
    rw [show 100 * u / (u + d) - 100 * U / (U + D) = 100 * (d * (u - U) - u * (d - D)) / ((u + d) * (U + D)) by
      field_simp; ring]
    rw [abs_div, abs_mul, abs_of_pos (mul_pos hp hs0), abs_of_pos (by norm_num : (0 : K) < 100), div_le_div_iff₀ (mul_pos hp hs0) hs0]
    have q1 := abs_sub (d * (u - U)) (u * (d - D))
    rw [abs_mul, abs_mul, abs_of_nonneg hu, abs_of_nonneg hd] at q1
    have q2 := mul_le_mul_of_nonneg_left h1 hd
    have q3 := mul_le_mul_of_nonneg_left h2 hu
    have q4 : |d * (u - U) - u * (d - D)| ≤ (u + d) * E := by linarith
    have q5 := mul_le_mul_of_nonneg_right q4 hs0.le
    linarith
  refine k.trans ?_
  exact div_le_div_of_nonneg_left (by positivity) hg hs

/-! ## RSI -/

theorem Approx.shift {s : Series (Double K)} {n p : Nat} {f : Nat → K} {δ : K} (h : Approx s n p f δ) (k : Nat) :
    Approx (TA.shift s k) n (p + k) (fun i => f (i - k)) δ := by
  refine ⟨by simp [h.len], fun i h1 h2 => ?_, fun i h1 h2 => ?_⟩
  · rw [ix_shift (by rw [h.len]; exact h1)]
    split_ifs with hk
    · rfl
    · exact h.gap _ (by omega) (by omega)
  · rw [ix_shift (by rw [h.len]; exact h1), if_neg (by omega)]
    exact h.val _ (by omega) (by omega)

theorem approx_sdiff (n : Nat) (x : Nat → K) {M : K} (hx : ∀ i, i + 1 < n → |x (i + 1) - x i| ≤ M) (hM : tiny ≤ M)
    (hM2 : M ≤ cap) : Approx (sdiff (dser n x)) n 1 (fun i => x i - x (i - 1)) (2 * eps * M) := by
  have h := (approx_ser (R := binary64) n x).sub ((approx_ser (R := binary64) n x).shift 1) (M := M) (fun i h1 h2 => by
    obtain ⟨j, rfl⟩ : ∃ j, i = j + 1 := ⟨i - 1, by simp at h2; omega⟩
    have := hx j h1
    simpa using this) hM hM2
  simpa [sdiff] using h

theorem gain_le {n : Nat} {x : Nat → K} {M : K} (hx : ∀ i, i + 1 < n → |x (i + 1) - x i| ≤ M) (hM : 0 ≤ M) (i : Nat)
    (hi : i < n) : |gain x i| ≤ M := by
  rw [abs_of_nonneg (gain_nonneg x i)]
  cases i with
  | zero => exact hM
  | succ i =>
    have := abs_le.mp (hx i hi)
    exact max_le this.2 hM

theorem loss_le {n : Nat} {x : Nat → K} {M : K} (hx : ∀ i, i + 1 < n → |x (i + 1) - x i| ≤ M) (hM : 0 ≤ M) (i : Nat)
    (hi : i < n) : |loss x i| ≤ M := by
  rw [abs_of_nonneg (loss_nonneg x i)]
  cases i with
  | zero => exact hM
  | succ i =>
    have := abs_le.mp (hx i hi)
    exact max_le (by linarith [this.1]) hM

theorem approx_up (n : Nat) (x : Nat → K) {M : K} (hx : ∀ i, i + 1 < n → |x (i + 1) - x i| ≤ M) (hM : tiny ≤ M)
    (hM2 : M ≤ cap) : Approx (RSI.up (dser n x)) n 0 (gain x) (2 * eps * M) := by
  have h := approx_sdiff n x hx hM hM2
  have h0 : 0 ≤ 2 * eps * M := mul_nonneg (mul_nonneg (by norm_num) eps_pos.le) (tiny_pos.le.trans hM)
  refine ⟨by simp [RSI.up, h.len], fun i _ h2 => by omega, fun i h1 _ => ?_⟩
  unfold RSI.up
  rw [ix_map (by rw [h.len]; exact h1), lit0k]
  cases i with
  | zero =>
    rw [h.gap 0 h1 (by omega)]
    exact ⟨0, rfl, by simpa [gain] using h0⟩
  | succ i =>
    obtain ⟨y, y1, y2⟩ := h.val _ h1 (by omega)
    rw [y1]
    refine ⟨max y 0, ?_, abs_max_sub y2 (by simpa using h0)⟩
    show (if decide (0 < y) = true then rk y else rk 0 : Double K) = _
    by_cases hy : 0 < y
    · rw [if_pos (by simpa using hy), max_eq_left hy.le]
    · rw [if_neg (by simpa using hy), max_eq_right (not_lt.mp hy)]

theorem approx_down (n : Nat) (x : Nat → K) {M : K} (hx : ∀ i, i + 1 < n → |x (i + 1) - x i| ≤ M) (hM : tiny ≤ M)
    (hM2 : M ≤ cap) : Approx (RSI.down (dser n x)) n 0 (loss x) (2 * eps * M) := by
  have h := approx_sdiff n x hx hM hM2
  have h0 : 0 ≤ 2 * eps * M := mul_nonneg (mul_nonneg (by norm_num) eps_pos.le) (tiny_pos.le.trans hM)
  have neg_rk : ∀ y : K, (Flt.neg (rk y) : Double K) = rk (-y) := fun _ => rfl
  refine ⟨by simp [RSI.down, h.len], fun i _ h2 => by omega, fun i h1 _ => ?_⟩
  unfold RSI.down
  rw [ix_map (by rw [h.len]; exact h1), lit0k]
  cases i with
  | zero =>
    rw [h.gap 0 h1 (by omega)]
    refine ⟨-0, rfl, by simpa [loss] using h0⟩
  | succ i =>
    obtain ⟨y, y1, y2⟩ := h.val _ h1 (by omega)
    rw [y1]
    refine ⟨max (-y) 0, ?_, abs_max_sub ?_ (by simpa using h0)⟩
    · have e : (if (rk y : Double K) <. rk 0 then rk y else rk 0 : Double K) = rk (min y 0) := by
        show (if decide (y < 0) = true then rk y else rk 0 : Double K) = _
        by_cases hy : y < 0
        · rw [if_pos (by simpa using hy), min_eq_left hy.le]
        · rw [if_neg (by simpa using hy), min_eq_right (not_lt.mp hy)]
      rw [e, neg_rk]
      congr 1
      rw [← neg_zero, max_neg_neg, neg_zero]
    · rw [show -y - (x i - x (i + 1)) = -(y - (x (i + 1) - x i)) by ring, abs_neg]
      exact y2

theorem changes_ge {n : Nat} {x : Nat → K} {m a : K} (ha : 0 ≤ a) (ha1 : a ≤ 1)
    (hx : ∀ i, i + 1 < n → m ≤ |x (i + 1) - x i|) (i : Nat) (hi : i < n) :
    m * (1 - (1 - a) ^ i) ≤ emaRec a (gain x) i + emaRec a (loss x) i := by
  induction i with
  | zero => simp [emaRec, gain, loss]
  | succ i ih =>
    have h1 := ih (by omega)
    have h2 : m ≤ gain x (i + 1) + loss x (i + 1) := by
      refine (hx i hi).trans ?_
      simp only [gain, loss]
      rw [abs_le']
      constructor
      · linarith [le_max_left (x (i + 1) - x i) 0, le_max_right (x i - x (i + 1)) 0]
      · linarith [le_max_right (x (i + 1) - x i) 0, le_max_left (x i - x (i + 1)) 0]
    rw [emaRec, emaRec]
    have k1 := mul_le_mul_of_nonneg_left h1 (by linarith : 0 ≤ 1 - a)
    have k2 := mul_le_mul_of_nonneg_left h2 ha
    rw [pow_succ]
    linarith

theorem half_of_pow {w : Nat} (hw : 2 ≤ w) {i : Nat} (hi : w - 1 ≤ i) : (1 - 1 / (w : K)) ^ i ≤ 1 / 2 := by
  obtain ⟨v, rfl⟩ : ∃ v, w = v + 2 := ⟨w - 2, by omega⟩
  have hv : (0 : K) ≤ v := Nat.cast_nonneg v
  push_cast
  have h0 : 1 - 1 / ((v : K) + 2) = ((v : K) + 1) / ((v : K) + 2) := by field_simp; ring
  have h1 : 0 ≤ 1 - 1 / ((v : K) + 2) := by rw [h0]; positivity
  have h2 : 1 - 1 / ((v : K) + 2) ≤ 1 := by
    have : 0 < 1 / ((v : K) + 2) := by positivity
    linarith
  refine (pow_le_pow_of_le_one h1 h2 (show v + 1 ≤ i by omega)).trans ?_
  have h3 : (2 : K) ≤ (1 + 1 / ((v : K) + 1)) ^ (v + 1) := by
    have := one_add_mul_le_pow (a := 1 / ((v : K) + 1)) (by
      have : (0 : K) ≤ 1 / ((v : K) + 1) := by positivity
      linarith) (v + 1)
    refine le_trans (le_of_eq ?_) this
    push_cast
    field_simp
    ring
  have h4 : (1 - 1 / ((v : K) + 2)) ^ (v + 1) * (1 + 1 / ((v : K) + 1)) ^ (v + 1) = 1 := by
    rw [← mul_pow, h0, show 1 + 1 / ((v : K) + 1) = ((v : K) + 2) / ((v : K) + 1) by field_simp; ring]
    rw [div_mul_div_cancel₀ (by positivity), div_self (by positivity), one_pow]
  have h5 := mul_le_mul_of_nonneg_left h3 (pow_nonneg h1 (v + 1))
  linarith

/-- C82: RSI in double precision. -/
theorem rsi_double (n : Nat) (x : Nat → K) {w : Nat} (hw : 2 ≤ w) (hw2 : w ≤ 2 ^ 40) {m M : K} (hm : 0 < m)
    (hx : ∀ i, i + 1 < n → m ≤ |x (i + 1) - x i| ∧ |x (i + 1) - x i| ≤ M) (hM : tiny ≤ M) (hM2 : M ≤ huge) :
    ∃ (out : Series (Double K)) (exact : Series (Val K)),
      rsi (dser n x) w false = .ok out ∧ rsi (ser n x) w false = .ok exact ∧
      CloseTo (10000 * w * eps * (M / m)) out exact := by
  have hu := eps_pos (K := K)
  have hM0 : 0 < M := tiny_pos.trans_le hM
  have hcap : 2 * M ≤ cap := by linarith [huge_cap (K := K)]
  have hxM : ∀ i, i + 1 < n → |x (i + 1) - x i| ≤ M := fun i hi => (hx i hi).2
  have hW : (2 : K) ≤ w := by exact_mod_cast hw
  have ha := wilder_pos (K := K) w (by omega)
  have ha1 := wilder_le (K := K) w (by omega)
  have huM : eps * M ≤ 1 / 1000 * M := mul_le_mul_of_nonneg_right eps_small hM0.le
  have hδ : 0 ≤ 2 * eps * M := by positivity
  have aU := (approx_up n x hxM hM (by linarith)).wilder (M := M) (by omega) hw2 hδ (gain_le hxM hM0.le) hM (by linarith) false
  have aD := (approx_down n x hxM hM (by linarith)).wilder (M := M) (by omega) hw2 hδ (loss_le hxM hM0.le) hM (by linarith) false
  have hE : 2 * eps * M + 40 * w * eps * (M + 2 * eps * M) ≤ 42 * w * eps * M := by
    have k1 : eps * M * 2 ≤ eps * M * w := mul_le_mul_of_nonneg_left hW (by positivity)
    have k2 := mul_le_mul_of_nonneg_left huM (by positivity : 0 ≤ 80 * (w : K) * eps)
    linarith
  have aU := aU.mono hE
  have aD := aD.mono hE
  have hnU : Every Nn (TA.ewm (RSI.alpha w) (minp false w) (RSI.up (dser n x))) :=
    Every.ewmNn (Every.of_ix fun i hi => by
      rw [(approx_up n x hxM hM (by linarith)).len] at hi
      unfold RSI.up
      rw [ix_map (by simpa [sdiff, TA.ssub, rser] using hi)]
      split_ifs with h
      · exact .inr (by
          revert h
          generalize ix (sdiff (dser n x)) i = v
          rw [lit0k]
          intro h
          change Val.lt (.fin 0) v = true at h
          cases v with
          | nan => simp [Val.lt] at h
          | pinf => rfl
          | ninf => simp [Val.lt] at h
          | fin y => simp only [Val.lt, decide_eq_true_eq] at h; simpa [Val.le] using h.le)
      · exact Nn.lit0) (wilderAlpha_mem (by omega)) _
  have hnD : Every Nn (TA.ewm (RSI.alpha w) (minp false w) (RSI.down (dser n x))) :=
    Every.ewmNn (Every.of_ix fun i hi => by
      rw [(approx_down n x hxM hM (by linarith)).len] at hi
      unfold RSI.down
      rw [ix_map (by simpa [sdiff, TA.ssub, rser] using hi)]
      split_ifs with h
      · exact .inr (by
          revert h
          generalize ix (sdiff (dser n x)) i = v
          rw [lit0k]
          intro h
          change Val.lt v (.fin 0) = true at h
          cases v with
          | nan => simp [Val.lt] at h
          | pinf => simp [Val.lt] at h
          | ninf => rfl
          | fin y =>
            simp only [Val.lt, decide_eq_true_eq] at h
            show Val.le (.fin 0) (.fin (-y)) = true
            simp only [Val.le, decide_eq_true_eq]
            linarith)
      · rw [lit0k]
        refine .inr ?_
        show Val.le (.fin 0) (.fin (-0)) = true
        simp [Val.le]) (wilderAlpha_mem (by omega)) _
  obtain ⟨exact', he, hd⟩ := rsi_of_changes (def_up n x) (def_down n x) (gain_nonneg x) (loss_nonneg x) w (by omega) false
  have hU := emaRec_nonneg ha ha1 (gain_nonneg x)
  have hD := emaRec_nonneg ha ha1 (loss_nonneg x)
  refine ⟨RSI.run (dser n x) w false, exact', ?_, he, ?_⟩
  · unfold rsi; rw [if_neg (by omega)]; rfl
  refine Approx.close (f := _) ⟨?_, fun i h1 h2 => ?_, fun i h1 h2 => ?_⟩ hd
  · unfold RSI.run; rw [length_zip2, aU.len]
  · unfold RSI.run
    rw [ix_zip2 (by rw [aU.len]; exact h1), aU.gap i h1 h2, aD.gap i h1 h2, lit0k, lit1k, lit100k]; rfl
  · unfold RSI.run
    rw [ix_zip2 (by rw [aU.len]; exact h1)]
    obtain ⟨p, p1, p2⟩ := aU.val i h1 h2
    obtain ⟨q, q1, q2⟩ := aD.val i h1 h2
    have p0 : 0 ≤ p := by
      have := hnU.ix Nn.nan i
      rw [p1] at this
      exact ge_fin.mp this
    have q0 : 0 ≤ q := by
      have := hnD.ix Nn.nan i
      rw [q1] at this
      exact ge_fin.mp this
    have hi : w - 1 ≤ i := by simpa using h2
    have hg : m / 2 ≤ emaRec (1 / (w : K)) (gain x) i + emaRec (1 / (w : K)) (loss x) i := by
      have k1 := changes_ge ha.le ha1 (fun i hi => (hx i hi).1) i h1
      have k2 := mul_le_mul_of_nonneg_left (half_of_pow (K := K) hw hi) hm.le
      linarith
    have hMm : 1 ≤ M / m := by
      rw [le_div_iff₀ hm, one_mul]
      have := hx 0 (by omega)
      exact this.1.trans this.2
    have hUi := hU i
    have hDi := hD i
    clear hU hD
    generalize emaRec (1 / (w : K)) (gain x) i = U at *
    generalize emaRec (1 / (w : K)) (loss x) i = D at *
    rw [p1, q1]
    have hEg : 100 * (42 * w * eps * M) / (m / 2) = 8400 * w * eps * (M / m) := by field_simp; ring
    have hb0 : 0 ≤ w * eps * (M / m) := by positivity
    have hex : (if D = 0 then 100 else 100 * U / (U + D)) = 100 * U / (U + D) := by
      split_ifs with h
      · rw [h, add_zero, mul_div_assoc, div_self, mul_one]
        intro h'
        rw [h, h'] at hg
        linarith
      · rfl
    rw [hex]
    by_cases hq : q = 0
    · refine ⟨100, ?_, ?_⟩
      · rw [hq, lit0k, lit100k, show ((rk 0 : Double K) ==. rk 0) = true from by
          show decide ((0 : K) = 0) = true
          simp]
        rfl
      · have k1 : 100 - 100 * U / (U + D) = 100 * D / (U + D) := by
          have : U + D ≠ 0 := by linarith
          field_simp
          ring
        have hDE : D ≤ 42 * w * eps * M := by
          rw [hq, zero_sub, abs_neg, abs_of_nonneg hDi] at q2
          exact q2
        rw [k1, abs_of_nonneg (by positivity)]
        refine (div_le_div_of_nonneg_left (by positivity) (by linarith) hg).trans ?_
        have k2 : 100 * D / (m / 2) ≤ 100 * (42 * w * eps * M) / (m / 2) :=
          div_le_div_of_nonneg_right (by linarith) (by linarith)
        linarith
    · have hq' : 0 < q := lt_of_le_of_ne q0 (Ne.symm hq)
      obtain ⟨y, y1, y2⟩ := squash_near p0 hq'
      refine ⟨y, ?_, ?_⟩
      · rw [lit0k, show ((rk q : Double K) ==. rk 0) = false from by
          show decide (q = 0) = false
          simpa using hq]
        exact y1
      · have k1 := rsi_stable p0 q0 (by linarith) p2 q2 (by linarith : 0 < m / 2) hg
        rw [hEg] at k1
        have k2 := abs_add_le (y - 100 * p / (p + q)) (100 * p / (p + q) - 100 * U / (U + D))
        rw [sub_add_sub_cancel] at k2
        have k3 : 2 * eps ≤ (w : K) * eps * (M / m) := by
          have q1 : 2 * eps ≤ (w : K) * eps := mul_le_mul_of_nonneg_right hW hu.le
          exact q1.trans (le_mul_of_one_le_right (by positivity) hMm)
        linarith
/-! ## TSI -/

theorem Approx.sabs {s : Series (Double K)} {n p : Nat} {f : Nat → K} {δ : K} (h : Approx s n p f δ) :
    Approx (TA.sabs s) n p (fun i => |f i|) δ := by
  refine ⟨by simp [TA.sabs, h.len], fun i h1 h2 => ?_, fun i h1 h2 => ?_⟩
  · unfold TA.sabs
    rw [ix_map (by rw [h.len]; exact h1), h.gap i h1 h2]; rfl
  · obtain ⟨y, y1, y2⟩ := h.val i h1 h2
    unfold TA.sabs
    rw [ix_map (by rw [h.len]; exact h1), y1]
    exact ⟨|y|, rfl, (abs_abs_sub_abs_le_abs_sub _ _).trans y2⟩

theorem quot_err {f g y z m δ ε Q : K} (hm : 0 < m) (hg : m ≤ |g|) (hε : 2 * ε ≤ m) (hy : |y - f| ≤ δ) (hz : |z - g| ≤ ε)
    (hQ : |f| ≤ Q * |g|) : z ≠ 0 ∧ |y / z - f / g| ≤ 2 * (δ + Q * ε) / m := by
  have hg0 : g ≠ 0 := by
    intro h
    rw [h, abs_zero] at hg
    linarith
  have hz2 : m / 2 ≤ |z| := by
    have := abs_sub_abs_le_abs_sub g z
    rw [abs_sub_comm] at this
    linarith
  have hz0 : z ≠ 0 := by
    intro h
    rw [h, abs_zero] at hz2
    linarith
  refine ⟨hz0, ?_⟩
  have hga : 0 < |g| := abs_pos.mpr hg0
  have hza : 0 < |z| := abs_pos.mpr hz0
  have hQ0 : 0 ≤ Q := by
    by_contra h
    have := mul_neg_of_neg_of_pos (not_le.mp h) hga
    linarith [abs_nonneg f]
  have e : y / z - f / g = (y - f) / z - f / g * ((z - g) / z) := by field_simp; ring
  have k1 : |(y - f) / z| ≤ δ / (m / 2) := by
    rw [abs_div]
    exact div_le_div₀ ((abs_nonneg _).trans hy) hy (by linarith) hz2
  have k2 : |(z - g) / z| ≤ ε / (m / 2) := by
    rw [abs_div]
    exact div_le_div₀ ((abs_nonneg _).trans hz) hz (by linarith) hz2
  have k3 : |f / g| ≤ Q := by rw [abs_div, div_le_iff₀ hga]; exact hQ
  have k4 : |f / g * ((z - g) / z)| ≤ Q * (ε / (m / 2)) := by
    rw [abs_mul]
    exact mul_le_mul k3 k2 (abs_nonneg _) hQ0
  rw [e]
  refine (abs_sub _ _).trans ((add_le_add k1 k4).trans (le_of_eq ?_))
  field_simp

theorem Approx.sdiv {s t : Series (Double K)} {n p q : Nat} {f g : Nat → K} {δ ε m Q B : K} (hs : Approx s n p f δ)
    (ht : Approx t n q g ε) (hm : 0 < m) (hg : ∀ i, i < n → max p q ≤ i → m ≤ |g i|) (hε : 2 * ε ≤ m)
    (hQ : ∀ i, i < n → max p q ≤ i → |f i| ≤ Q * |g i|) (hB : Q + 2 * (δ + Q * ε) / m ≤ B) (hB1 : tiny ≤ B) (hB2 : B ≤ cap) :
    Approx (TA.sdiv s t) n (max p q) (fun i => f i / g i) (2 * (δ + Q * ε) / m + 1.001 * (eps * B)) := by
  have e : ∀ i, i < n → ix (TA.sdiv s t) i = ix s i /. ix t i := fun i hi => ix_zip2 (by rw [hs.len]; exact hi)
  refine ⟨by unfold TA.sdiv; simp [hs.len], fun i h1 h2 => ?_, fun i h1 h2 => ?_⟩
  · rw [e i h1]
    rcases lt_max_iff.mp h2 with h | h
    · rw [hs.gap i h1 h]
      generalize ix t i = v
      show (binary64 : Rounding K).rnd (Val.div Val.nan v) = Val.nan
      have : Val.div Val.nan v = Val.nan := TA.nan_div v
      rw [this]; rfl
    · rw [ht.gap i h1 h]
      generalize ix s i = v
      show (binary64 : Rounding K).rnd (Val.div v Val.nan) = Val.nan
      have : Val.div v Val.nan = Val.nan := TA.div_nan v
      rw [this]; rfl
  · obtain ⟨y, y1, y2⟩ := hs.val i h1 (le_of_max_le_left h2)
    obtain ⟨z, z1, z2⟩ := ht.val i h1 (le_of_max_le_right h2)
    obtain ⟨k0, k1⟩ := quot_err hm (hg i h1 h2) hε y2 z2 (hQ i h1 h2)
    have hga : 0 < |g i| := hm.trans_le (hg i h1 h2)
    have k2 : |f i / g i| ≤ Q := by rw [abs_div, div_le_iff₀ hga]; exact hQ i h1 h2
    have k3 : |y / z| ≤ B := by
      have := abs_add_le (y / z - f i / g i) (f i / g i)
      rw [sub_add_cancel] at this
      linarith
    obtain ⟨v, v1, v2⟩ := near_div k0 k3 hB1 hB2
    rw [e i h1, y1, z1, v1]
    refine ⟨v, rfl, ?_⟩
    have := abs_add_le (v - y / z) (y / z - f i / g i)
    rw [sub_add_sub_cancel] at this
    show |v - f i / g i| ≤ _
    linarith

theorem Approx.mulc {s : Series (Double K)} {n p : Nat} {f : Nat → K} {δ B c : K} (h : Approx s n p f δ) {l : Double K}
    (hl : l = rk c) (hB : ∀ i, i < n → p ≤ i → (|f i| + δ) * |c| ≤ B) (hB1 : tiny ≤ B) (hB2 : B ≤ cap) :
    Approx (TA.mulc s l) n p (fun i => f i * c) (δ * |c| + 1.001 * (eps * B)) := by
  refine ⟨by simp [TA.mulc, h.len], fun i h1 h2 => ?_, fun i h1 h2 => ?_⟩
  · unfold TA.mulc
    rw [ix_map (by rw [h.len]; exact h1), h.gap i h1 h2, hl]; rfl
  · obtain ⟨y, y1, y2⟩ := h.val i h1 h2
    have k1 : |y| ≤ |f i| + δ := by
      have := abs_add_le (y - f i) (f i)
      rw [sub_add_cancel] at this
      linarith
    have k2 : |y * c| ≤ B := by
      rw [abs_mul]
      exact (mul_le_mul_of_nonneg_right k1 (abs_nonneg _)).trans (hB i h1 h2)
    obtain ⟨v, v1, v2⟩ := near_mul k2 hB1 hB2
    unfold TA.mulc
    rw [ix_map (by rw [h.len]; exact h1), y1, hl]
    refine ⟨v, v1, ?_⟩
    have k3 : |y * c - f i * c| ≤ δ * |c| := by
      rw [← sub_mul, abs_mul]
      exact mul_le_mul_of_nonneg_right y2 (abs_nonneg _)
    have := abs_add_le (v - y * c) (y * c - f i * c)
    rw [sub_add_sub_cancel] at this
    show |v - f i * c| ≤ _
    linarith

theorem CloseTo.mono {ε ε' : K} {s : Series (Double K)} {t : Series (Val K)} (h : CloseTo ε s t) (he : ε ≤ ε') :
    CloseTo ε' s t :=
  ⟨h.1, fun i hi => by
    rcases h.2 i hi with h | ⟨y, z, h1, h2, h3⟩
    · exact .inl h
    · exact .inr ⟨y, z, h1, h2, h3.trans he⟩⟩

theorem emaRec_lower {a : K} (ha : 0 ≤ a) (ha1 : a ≤ 1) {f : Nat → K} {m : K} {i : Nat} (h : ∀ j, j ≤ i → m ≤ f j) :
    m ≤ emaRec a f i := by
  induction i with
  | zero => exact h 0 (le_refl _)
  | succ i ih =>
    have k1 := mul_le_mul_of_nonneg_left (ih fun j hj => h j (by omega)) (by linarith : 0 ≤ 1 - a)
    have k2 := mul_le_mul_of_nonneg_left (h (i + 1) (le_refl _)) ha
    rw [emaRec]
    linarith

/-- C82: TSI in double precision. -/
theorem tsi_double (n : Nat) (x : Nat → K) {slow fast : Nat} (h1 : 1 ≤ slow) (h2 : 1 ≤ fast) (q1 : slow ≤ 2 ^ 40)
    (q2 : fast ≤ 2 ^ 40) {m M : K} (hm : 0 < m)
    (hx : ∀ i, i + 1 < n → m ≤ |x (i + 1) - x i| ∧ |x (i + 1) - x i| ≤ M) (hM : tiny ≤ M) (hM2 : M ≤ huge)
    (hmM : 50 * ((slow : K) + fast + 2) * eps * M ≤ m) :
    ∃ (out : Series (Double K)) (exact : Series (Val K)),
      tsi (dser n x) slow fast false = .ok out ∧ tsi (ser n x) slow fast false = .ok exact ∧
      CloseTo (9000 * ((slow : K) + fast + 2) * eps * (M / m)) out exact := by
  have hu := eps_pos (K := K)
  have hM0 : 0 < M := tiny_pos.trans_le hM
  have hcap := huge_cap (K := K)
  have hxM : ∀ i, i + 1 < n → |x (i + 1) - x i| ≤ M := fun i hi => (hx i hi).2
  have hS : (1 : K) ≤ slow := by exact_mod_cast h1
  have hF : (1 : K) ≤ fast := by exact_mod_cast h2
  have hs0 := span_pos (K := K) slow
  have hs1 := span_le (K := K) slow h1
  have hf0 := span_pos (K := K) fast
  have hf1 := span_le (K := K) fast h2
  have huM : eps * M ≤ 1 / 1000 * M := mul_le_mul_of_nonneg_right eps_small hM0.le
  have huM0 : 0 < eps * M := mul_pos hu hM0
  have w1 := mul_le_mul_of_nonneg_right (eps_win (K := K) q1) hM0.le
  have w2 := mul_le_mul_of_nonneg_right (eps_win (K := K) q2) hM0.le
  have hd := approx_sdiff n x hxM hM (by linarith)
  have bd : ∀ i, i < n → 1 ≤ i → m ≤ |x i - x (i - 1)| ∧ |x i - x (i - 1)| ≤ M := fun i hn hi => by
    obtain ⟨j, rfl⟩ : ∃ j, i = j + 1 := ⟨i - 1, by omega⟩
    exact hx j hn
  have e0 : (if false = true then 0 else slow - 1) = slow - 1 := rfl
  have e1 : (if false = true then 0 else fast - 1) = fast - 1 := rfl
  -- sizes of the exact averages
  set S : Nat → K := fun i => emaRec (2 / ((slow : K) + 1)) (fun j => x (1 + j) - x (1 + j - 1)) (i - 1) with hSd
  set A : Nat → K := fun i => emaRec (2 / ((slow : K) + 1)) (fun j => |x (1 + j) - x (1 + j - 1)|) (i - 1) with hAd
  have bS : ∀ i, i < n → 1 ≤ i → |S i| ≤ M := fun i hn hi => emaRec_abs hs0.le hs1 fun j hj => (bd _ (by omega) (by omega)).2
  have bA : ∀ i, i < n → 1 ≤ i → |A i| ≤ M := fun i hn hi => emaRec_abs hs0.le hs1 fun j hj => by
    rw [abs_abs]; exact (bd _ (by omega) (by omega)).2
  have bA' : ∀ i, i < n → 1 ≤ i → m ≤ A i := fun i hn hi => emaRec_lower hs0.le hs1 fun j hj => (bd _ (by omega) (by omega)).1
  have bSA : ∀ i, |S i| ≤ A i := fun i => emaRec_abs_le hs0 hs1 (fun j => le_refl _) _
  have k1 : 2 * eps * M + 20 * ((slow : K) + 1) * eps * (M + 2 * eps * M) ≤ 22 * ((slow : K) + 1) * eps * M := by
    have := mul_le_mul_of_nonneg_left huM (by positivity : 0 ≤ 40 * ((slow : K) + 1) * eps)
    have : eps * M ≤ (slow : K) * (eps * M) := le_mul_of_one_le_left huM0.le hS
    linarith
  have aS := (hd.ema h1 q1 (by positivity) (fun i hn hi => (bd i hn hi).2) hM (by linarith) false).mono k1
  have aA := (hd.sabs.ema h1 q1 (by positivity) (fun i hn hi => by rw [abs_abs]; exact (bd i hn hi).2) hM
    (by linarith) false).mono k1
  have k2 : 22 * ((slow : K) + 1) * eps * M + 20 * ((fast : K) + 1) * eps * (M + 22 * ((slow : K) + 1) * eps * M)
      ≤ 22 * ((slow : K) + fast + 2) * eps * M := by
    have := mul_le_mul_of_nonneg_left w1 (by positivity : 0 ≤ 20 * ((fast : K) + 1) * eps)
    have : 0 ≤ (fast : K) * (eps * M) := by positivity
    linarith
  have aE := (aS.ema h2 q2 (by positivity) (fun i hn hi => bS i hn (by rw [e0] at hi; omega)) hM (by linarith) false).mono k2
  have aB := (aA.ema h2 q2 (by positivity) (fun i hn hi => bA i hn (by rw [e0] at hi; omega)) hM (by linarith) false).mono k2
  have hd' := def_sdiff n x
  have dE := (hd'.ema h1 false).ema h2 false
  have dB := (hd'.sabs.ema h1 false).ema h2 false
  set p := 1 + (if false = true then 0 else slow - 1) with hp
  have hpe : p = slow := by rw [hp, e0]; omega
  set E : Nat → K := fun i => emaRec (2 / ((fast : K) + 1)) (fun j => S (p + j)) (i - p) with hEd
  set B : Nat → K := fun i => emaRec (2 / ((fast : K) + 1)) (fun j => A (p + j)) (i - p) with hBd
  change Approx _ n _ E _ at aE
  change Approx _ n _ B _ at aB
  change Def _ n _ E at dE
  change Def _ n _ B at dB
  have cB : ∀ i, i < n → p ≤ i → m ≤ B i := fun i hn hi => emaRec_lower hf0.le hf1 fun j hj => bA' _ (by omega) (by omega)
  have cE : ∀ i, |E i| ≤ B i := fun i => emaRec_abs_le hf0 hf1 (fun j => bSA _) _
  have hb : ∀ i, i < n → p + (if false = true then 0 else fast - 1) ≤ i → 0 < B i := fun i hn hi =>
    hm.trans_le (cB i hn (by omega))
  set ε := 22 * ((slow : K) + fast + 2) * eps * M with hε
  have hε0 : 0 < ε := by positivity
  have k3 : 2 * (ε + 1 * ε) / m ≤ 2 := by rw [div_le_iff₀ hm]; linarith
  have aQ := aE.sdiv aB hm (fun i hn hi => by
    rw [max_self] at hi
    rw [abs_of_pos (hb i hn hi)]; exact cB i hn (by omega)) (by linarith) (Q := 1) (B := 3) (fun i hn hi => by
    rw [max_self] at hi
    rw [abs_of_pos (hb i hn hi), one_mul]; exact cE i) (by linarith) (by linarith [tiny_le_one (K := K)])
    (by linarith [thousand_le_cap (K := K)])
  have aR := aQ.mulc lit100k (B := 305) (fun i hn hi => by
    rw [max_self] at hi
    have : |E i / B i| ≤ 1 := by
      rw [abs_div, abs_of_pos (hb i hn hi), div_le_one (hb i hn hi)]; exact cE i
    rw [abs_of_pos (by norm_num : (0 : K) < 100)]
    linarith [eps_small (K := K)]) (by linarith [tiny_le_one (K := K)]) (by linarith [thousand_le_cap (K := K)])
  have dR := (dE.sdiv dB (fun i hn hi _ => (hb i hn hi).ne')).mulc 100
  have hne : ¬ (slow < 1 ∨ fast < 1) := by omega
  refine ⟨_, _, by rw [tsi_eq, if_neg hne], by rw [tsi_eq, if_neg hne], ?_⟩
  have e : (Flt.lit 100 : Val K) = .fin 100 := by rw [lit_fin]; norm_num
  rw [← e] at dR
  refine Approx.close ⟨aR.len, aR.gap, fun i hn hi => ?_⟩ dR
  obtain ⟨y, y1, y2⟩ := aR.val i hn hi
  refine ⟨y, y1, y2.trans ?_⟩
  rw [max_self] at hi
  have hMm : 1 ≤ M / m := by
    rw [le_div_iff₀ hm, one_mul]
    have := hx 0 (by omega)
    exact this.1.trans this.2
  have k4 : 2 * (ε + 1 * ε) / m * 100 = 8800 * ((slow : K) + fast + 2) * eps * (M / m) := by
    rw [hε]; field_simp; ring
  have k5 : 4 * eps ≤ ((slow : K) + fast + 2) * eps * (M / m) := by
    have q1 : 4 * eps ≤ ((slow : K) + fast + 2) * eps := mul_le_mul_of_nonneg_right (by linarith) hu.le
    exact q1.trans (le_mul_of_one_le_right (by positivity) hMm)
  rw [abs_of_pos (by norm_num : (0 : K) < 100)]
  linarith

/-! ## examples -/

/-- closes with changes between 1/2 and 5/2 -/
def wavy (i : Nat) : ℚ := [10, 11, 21 / 2, 13, 25 / 2, 12].getD i 0

example : rsi (dser 6 wavy) 3 = .ok [nan, nan, rk (8042142191733029 / 140737488355328), rk (790157508774617 / 8796093022208),
    rk (2572098925114615 / 35184372088832), rk (8042142191733029 / 140737488355328)] := by decide +kernel
example : rsi (ser 6 wavy) 3 = .ok [.nan, .nan, .fin (400 / 7), .fin (5300 / 59), .fin (2120 / 29), .fin (400 / 7)] := by
  decide +kernel
/-- the last TSI is exactly 0; the computed one is `10^-14` -/
example : tsi (dser 6 wavy) 2 2 = .ok [nan, nan, nan, rk (5277655813324799 / 70368744177664),
    rk (6424972294482365 / 140737488355328), rk (6477123043625891 / 633825300114114700748351602688)] := by decide +kernel
example : tsi (ser 6 wavy) 2 2 = .ok [.nan, .nan, .nan, .fin 75, .fin (1050 / 23), .fin 0] := by decide +kernel

/-- the bound, for a million rows of `zigzag` and window 14: less than `10^-10` -/
example : ∃ (out : Series (Double ℚ)) (exact : Series (Val ℚ)),
    rsi (dser 1000000 zigzag) 14 = .ok out ∧ rsi (ser 1000000 zigzag) 14 = .ok exact ∧
    CloseTo (10000 * ((14 : ℕ) : ℚ) * eps * (1 / 1)) out exact ∧ 10000 * ((14 : ℕ) : ℚ) * eps * (1 / 1) < 1 / 10 ^ 10 := by
  have hu : (eps : ℚ) = 1 / 2 ^ 53 := by unfold eps; norm_num
  obtain ⟨out, exact, h1, h2, h3⟩ := rsi_double 1000000 zigzag (w := 14) (by norm_num) (by norm_num) (m := 1) (M := 1)
    (by norm_num) (fun i _ => by
      unfold zigzag
      split_ifs <;> first | omega | norm_num) tiny_le_one
    (by
      have : (2 : ℚ) ^ (0 : ℤ) ≤ 2 ^ (900 : ℤ) := zpow_le_zpow_right₀ (by norm_num) (by norm_num)
      rwa [zpow_zero] at this)
  exact ⟨out, exact, h1, h2, h3, by rw [hu]; norm_num⟩

end TA
