import Verif.Props.C130

/-!
# C131 — the ADX line in double precision

`adx` (`ta/trend.py:771-818`) divides the difference of +DI and -DI by their sum and smooths the result.  Where the two lines add up to at least
`q` the quotient is as accurate as C130 allows, divided by `q`, and the smoothing adds a multiple of the window.
-/

set_option linter.unusedSectionVars false

namespace TA
open Finset

section dbl
variable {K : Type} [Field K] [LinearOrder K] [IsStrictOrderedRing K] [FloorRing K]

/-! ## the directional index -/

theorem dx_rk {p m p' m' q D : K} (hp : 0 ≤ p) (hm : 0 ≤ m) (hs : p + m ≤ 100) (hq : 0 < q) (hqs : q ≤ p + m) (hD : 0 ≤ D) (hD1 : (2 * D + 102) / q * eps ≤ 0.003)
    (h1 : |p' - p| ≤ D * eps) (h2 : |m' - m| ≤ D * eps) :
    ∃ y, (if ((rk p' : Double K) +. rk m') !=. lit 0 then lit 100 *. Flt.abs (((rk p' : Double K) -. rk m') /. ((rk p' : Double K) +. rk m')) else lit 0) = (rk y : Double K) ∧
      |y - (if p + m = 0 then 0 else 100 * |p - m| / (p + m))| ≤ (202 * ((2 * D + 102) / q) + 204) * eps := by
  have he := eps_pos (K := K)
  have hes := eps_small (K := K)
  have s0 : 0 < p + m := hq.trans_le hqs
  have q100 : q ≤ 100 := hqs.trans hs
  set α : K := (2 * D + 102) / q with hα
  have α0 : 0 ≤ α := by positivity
  have αq : α * q = 2 * D + 102 := by rw [hα]; field_simp
  have De : 2 * (D * eps) + 102 * eps ≤ 0.3 := by
    have : α * eps * q ≤ 0.003 * q := mul_le_mul_of_nonneg_right hD1 hq.le
    have e : α * eps * q = 2 * (D * eps) + 102 * eps := by
      calc α * eps * q = α * q * eps := by ring
        _ = _ := by rw [αq]; ring
    linarith
  have cap1 := thousand_le_cap (K := K)
  have tiny1 := tiny_le_one (K := K)
  have k1 : |p' + m' - (p + m)| ≤ 2 * (D * eps) := by
    rw [show p' + m' - (p + m) = (p' - p) + (m' - m) by ring]
    exact (abs_add_le _ _).trans (by linarith)
  have k2 : |p' - m' - (p - m)| ≤ 2 * (D * eps) := by
    rw [show p' - m' - (p - m) = (p' - p) - (m' - m) by ring]
    exact (abs_sub _ _).trans (by linarith)
  have pm : |p - m| ≤ p + m := by rw [abs_le]; constructor <;> linarith
  have n1 : |p' + m'| ≤ 101 := by
    rw [abs_le] at k1 ⊢
    constructor <;> linarith [k1.1, k1.2]
  have n2 : |p' - m'| ≤ 101 := by
    rw [abs_le] at k2 pm ⊢
    constructor <;> linarith [k2.1, k2.2, pm.1, pm.2]
  obtain ⟨s, s1, s2⟩ := near_add (K := K) n1 (by linarith) (by linarith)
  obtain ⟨d, d1, d2⟩ := near_sub (K := K) n2 (by linarith) (by linarith)
  have sc : 2 * (D * eps) + 102 * eps ≤ α * (eps * (p + m)) := by
    calc 2 * (D * eps) + 102 * eps = α * q * eps := by rw [αq]; ring
      _ = α * (eps * q) := by ring
      _ ≤ _ := mul_le_mul_of_nonneg_left (mul_le_mul_of_nonneg_left hqs he.le) α0
  have s3 : |s - (p + m)| ≤ α * (eps * (p + m)) := by
    have := abs_add_le (s - (p' + m')) (p' + m' - (p + m))
    rw [sub_add_sub_cancel] at this
    linarith
  have d3 : |d - (p - m)| ≤ α * (eps * (p + m)) := by
    have := abs_add_le (d - (p' - m')) (p' - m' - (p - m))
    rw [sub_add_sub_cancel] at this
    linarith
  have sn : s ≠ 0 := by
    have : α * (eps * (p + m)) ≤ 0.003 * (p + m) := by rw [← mul_assoc]; exact mul_le_mul_of_nonneg_right hD1 s0.le
    intro e
    rw [e] at s3
    have := (abs_le.mp s3).1
    linarith
  obtain ⟨z, z1, z2⟩ := wquot_near (N := p - m) (D := p + m) (N' := d) (D' := s) (b := 1) s0 tiny1 (by linarith) α0 α0 hD1 hD1
    (by rw [one_mul]; exact pm) (by rw [one_mul]; exact d3) s3
  have z3 : |(|z|) - |p - m| / (p + m)| ≤ (2.02 * α + 1.02) * eps := by
    have := abs_abs_sub_abs_le z ((p - m) / (p + m))
    rw [abs_div (p - m), abs_of_pos s0] at this
    exact this.trans (z2.trans (le_of_eq (by ring)))
  have r0 : 0 ≤ |p - m| / (p + m) := by positivity
  have r1 : |p - m| / (p + m) ≤ 1 := (div_le_one s0).mpr pm
  have z4 : |100 * abs z| ≤ 101 := by
    have : (2.02 * α + 1.02) * eps ≤ 0.01 := by
      have e : (2.02 * α + 1.02) * eps = 2.02 * (α * eps) + 1.02 * eps := by ring
      rw [e]; linarith
    rw [abs_le] at z3 ⊢
    constructor <;> linarith [z3.1, z3.2]
  obtain ⟨y, y1, y2⟩ := near_mul (K := K) (x := 100) (y := |z|) (B := 101) z4 (by linarith) (by linarith)
  have h0 : (lit 0 : Double K) = rk 0 := lit_double (k := 0) (by norm_num) (by norm_num) (by norm_num)
  have h100 : (lit 100 : Double K) = rk 100 := lit_double (k := 100) (by norm_num) (by norm_num) (by norm_num)
  refine ⟨y, ?_, ?_⟩
  · rw [s1, d1, z1]
    have : ((rk s : Double K) !=. lit 0) = true := by
      rw [h0]
      show (!decide (s = 0)) = true
      simpa using sn
    rw [if_pos this, h100, ← y1]; rfl
  · rw [if_neg s0.ne']
    have : y - 100 * |p - m| / (p + m) = (y - 100 * |z|) + 100 * (|z| - |p - m| / (p + m)) := by ring
    rw [this]
    refine (abs_add_le _ _).trans ?_
    rw [abs_mul, abs_of_pos (by norm_num : (0 : K) < 100)]
    have e : (202 * α + 204) * eps = 100 * ((2.02 * α + 1.02) * eps) + 102 * eps := by ring
    rw [e]
    linarith

/-! ## the smoothing -/

/-- one step of Wilder's mean of numbers up to 100 -/
theorem wmean_step {w : Nat} (hw : 1 ≤ w) (hw2 : w ≤ 2 ^ 40) {E δ W x p y : K} (hδ : 0 ≤ δ) (hE : δ + 310 * w * eps ≤ E) (hE1 : E ≤ 1.5) (hW : |W| ≤ 100) (hx : |x| ≤ 100)
    (hp : |p - W| ≤ E) (hy : |y - x| ≤ δ) :
    ∃ z, ((rk p *. natF (w - 1)) +. rk y) /. natF w = (rk z : Double K) ∧ |z - (W * ((w - 1 : ℕ) : K) + x) / w| ≤ E := by
  have he := eps_pos (K := K)
  have hes := eps_small (K := K)
  have hew := eps_win (K := K) hw2
  have cap1 := thousand_le_cap (K := K)
  have tiny1 := tiny_le_one (K := K)
  have w1 : (1 : K) ≤ w := by exact_mod_cast hw
  have w0 : (0 : K) < w := by linarith
  have wc : 1000 * (w : K) ≤ cap := by
    have h1 : (1000 : K) ≤ huge := by
      have : (2 : K) ^ (10 : ℤ) ≤ huge := zpow_le_zpow_right₀ (by norm_num) (by norm_num)
      exact le_trans (by norm_num) this
    exact (mul_le_mul_of_nonneg_right h1 w0.le).trans (huge_win hw2)
  rw [natF_rk (by omega), natF_rk hw2, Nat.cast_sub hw, Nat.cast_one]
  have f0 : (0 : K) ≤ w - 1 := by linarith
  have pB : |p| ≤ 101.5 := by
    rw [abs_le] at hp hW ⊢
    constructor <;> linarith [hp.1, hp.2, hW.1, hW.2]
  have yB : |y| ≤ 101.5 := by
    have : (0 : K) ≤ 310 * w * eps := by positivity
    rw [abs_le] at hy hx ⊢
    constructor <;> linarith [hy.1, hy.2, hx.1, hx.2]
  have a1 : |p * (w - 1)| ≤ 101.5 * (w - 1) := by
    rw [abs_mul, abs_of_nonneg f0]
    exact mul_le_mul_of_nonneg_right pB f0
  obtain ⟨u, u1, u2⟩ := near_mul (K := K) (x := p) (y := w - 1) (B := 102 * (w : K)) (a1.trans (by linarith)) (by linarith) (by linarith)
  have ew : eps * (102 * (w : K)) = 0.102 * (1000 * eps * w) := by ring
  have ew' : 1000 * eps * (w : K) ≤ 1 := by linarith
  have ew0 : 0 ≤ eps * (w : K) := by positivity
  have a2 : |u + y| ≤ 102.5 * w := by
    rw [abs_le] at u2 a1 yB ⊢
    constructor <;> linarith [u2.1, u2.2, a1.1, a1.2, yB.1, yB.2]
  obtain ⟨v, v1, v2⟩ := near_add (K := K) (x := u) (y := y) (B := 102.5 * (w : K)) a2 (by linarith) (by linarith)
  have a3 : |v / w| ≤ 103 := by
    rw [abs_div, abs_of_pos w0, div_le_iff₀ w0]
    rw [abs_le] at v2 a2 ⊢
    constructor <;> linarith [v2.1, v2.2, a2.1, a2.2]
  obtain ⟨z, z1, z2⟩ := near_div (K := K) (x := v) (y := (w : K)) (B := 103) w0.ne' a3 (by linarith) (by linarith)
  refine ⟨z, by rw [u1, v1, z1], ?_⟩
  have b1 : |v - (W * (w - 1) + x)| ≤ E * (w - 1) + δ + 205 * (eps * w) := by
    have : v - (W * (w - 1) + x) = (v - (u + y)) + (u - p * (w - 1)) + ((p - W) * (w - 1) + (y - x)) := by ring
    rw [this]
    refine (abs_add_le _ _).trans ?_
    have q1 := abs_add_le (v - (u + y)) (u - p * (w - 1))
    have q2 := abs_add_le ((p - W) * (w - 1)) (y - x)
    rw [abs_mul, abs_of_nonneg f0] at q2
    have q3 := mul_le_mul_of_nonneg_right hp f0
    linarith
  have b2 : |v / w - (W * (w - 1) + x) / w| ≤ (E * (w - 1) + δ + 205 * (eps * w)) / w := by
    rw [← sub_div, abs_div, abs_of_pos w0]
    exact div_le_div_of_nonneg_right b1 w0.le
  have b3 : (E * (w - 1) + δ + 205 * (eps * w)) / w ≤ E - 104 * eps := by
    rw [div_le_iff₀ w0]
    have : (E - 104 * eps) * w = E * w - 104 * (eps * w) := by ring
    rw [this]
    linarith
  have := abs_add_le (z - v / w) (v / w - (W * (w - 1) + x) / w)
  rw [sub_add_sub_cancel] at this
  linarith

theorem adxAt_rk {σ : List (Double K) → Double K} {s : Series (Double K)} {N w a : Nat} {x : Nat → K} {δ : K} (hσ : SumsIn σ w a) (ha : a ≤ 2 ^ 40) (hw : 1 ≤ w) (hw2 : w ≤ 2 ^ 40)
    (hN : N ≤ s.length) (hs : ∀ i, i < N → ∃ y, ix s i = rk y ∧ |y - x i| ≤ δ) (hδ : 0 ≤ δ) (hδ1 : δ ≤ 1) (hx : ∀ i, i < N → |x i| ≤ 100) :
    ∀ i, w + i ≤ N → ∃ y, ADX.adxAtBy σ s w (w + i) = rk y ∧ |y - wilMean x w i| ≤ δ + (310 * w + 112 * (a + 1)) * eps := by
  have he := eps_pos (K := K)
  have hew := eps_win (K := K) hw2
  have hea := eps_win (K := K) ha
  have cap1 := thousand_le_cap (K := K)
  have tiny1 := tiny_le_one (K := K)
  have w1 : (1 : K) ≤ w := by exact_mod_cast hw
  have w0 : (0 : K) < w := by linarith
  have a0 : (0 : K) ≤ a := Nat.cast_nonneg _
  have hm : ∀ i, w + i ≤ N → |wilMean x w i| ≤ 100 := fun i hi =>
    abs_le.mpr (wilMean_mem hw i fun j hj => abs_le.mp (hx j (by omega)))
  have hval : ∀ i, ∃ y, i < N → ix s i = rk y ∧ |y - x i| ≤ δ := fun i => by
    by_cases hi : i < N
    · obtain ⟨y, y1, y2⟩ := hs i hi
      exact ⟨y, fun _ => ⟨y1, y2⟩⟩
    · exact ⟨0, fun h => absurd h hi⟩
  choose g hg using hval
  intro i
  induction i with
  | zero =>
    intro hi
    have e : s.take w = ((List.range w).map g).map (rk : K → Double K) := by
      apply List.ext_getElem
      · simp; omega
      · intro j h1 h2
        have hj : j < w := by simpa using h2
        rw [List.getElem_take, ← ix_lt (by omega), (hg j (by omega)).1]
        simp
    have mem : ∀ y ∈ (List.range w).map g, |y| ≤ 101 := by
      intro y hy
      obtain ⟨j, hj, rfl⟩ := List.mem_map.mp hy
      have hj : j < w := by simpa using hj
      have p := (hg j (by omega)).2
      have q := hx j (by omega)
      rw [abs_le] at p q ⊢
      constructor <;> linarith [p.1, p.2, q.1, q.2]
    have h101 : (101 : K) ≤ huge := by
      have : (2 : K) ^ (10 : ℤ) ≤ huge := zpow_le_zpow_right₀ (by norm_num) (by norm_num)
      exact le_trans (by norm_num) this
    obtain ⟨S, S1, S2⟩ := adds_double (hσ (((List.range w).map g).map (rk : K → Double K)) (by simp)) (M := 101) (by linarith) h101 mem (by simpa using hw2) ha
    have hsum : ((List.range w).map g).sum = ∑ j ∈ Finset.range w, g j := rfl
    rw [hsum, List.length_map, List.length_range] at S2
    have hgx : |∑ j ∈ Finset.range w, g j - ∑ j ∈ Finset.range w, x j| ≤ w * δ := by
      rw [← Finset.sum_sub_distrib]
      refine (Finset.abs_sum_le_sum_abs _ _).trans ?_
      have := Finset.sum_le_card_nsmul (Finset.range w) (fun j => |g j - x j|) δ
        fun j hj => (hg j (by have := Finset.mem_range.mp hj; omega)).2
      rwa [Finset.card_range, nsmul_eq_mul] at this
    have q : |S / w - wilMean x w 0| ≤ δ + 111.1 * a * eps := by
      show |S / w - (∑ j ∈ Finset.range w, x j) / w| ≤ _
      rw [← sub_div, abs_div, abs_of_pos w0, div_le_iff₀ w0]
      have := abs_add_le (S - ∑ j ∈ Finset.range w, g j) (∑ j ∈ Finset.range w, g j - ∑ j ∈ Finset.range w, x j)
      rw [sub_add_sub_cancel] at this
      have e2 : (δ + 111.1 * a * eps) * w = w * δ + a * (1.1 * eps * (101 * w)) := by ring
      rw [e2]
      linarith
    have q1 : |S / w| ≤ 102 := by
      have m0 := hm 0 hi
      have : 111.1 * (a : K) * eps ≤ 1 := by
        have : (0 : K) ≤ a * eps := by positivity
        linarith
      rw [abs_le] at q m0 ⊢
      constructor <;> linarith [q.1, q.2, m0.1, m0.2]
    obtain ⟨z, z1, z2⟩ := near_div (K := K) (x := S) (y := (w : K)) (B := 102) w0.ne' q1 (by linarith) (by linarith)
    refine ⟨z, ?_, ?_⟩
    · obtain ⟨v, rfl⟩ : ∃ v, w = v + 1 := ⟨w - 1, by omega⟩
      show ADX.adxAtBy σ s (v + 1) (v + 1) = _
      unfold ADX.adxAtBy npMeanBy
      rw [if_neg (by omega), if_pos rfl, e, S1]
      simp only [List.length_map, List.length_range]
      rw [natF_rk hw2]
      exact z1
    · have := abs_add_le (z - S / w) (S / w - wilMean x w 0)
      rw [sub_add_sub_cancel] at this
      have e3 : (310 * (w : K) + 112 * (a + 1)) * eps = 310 * (w * eps) + 112 * (a * eps) + 112 * eps := by ring
      have : (0 : K) ≤ w * eps := by positivity
      have : (0 : K) ≤ a * eps := by positivity
      rw [e3]
      linarith
  | succ i ih =>
    intro hi
    obtain ⟨p, p1, p2⟩ := ih (by omega)
    have aw : 0 ≤ 112 * ((a : K) + 1) * eps := by positivity
    have e3 : (310 * (w : K) + 112 * (a + 1)) * eps = 310 * w * eps + 112 * (a + 1) * eps := by ring
    obtain ⟨z, z1, z2⟩ := wmean_step hw hw2 (E := δ + (310 * w + 112 * (a + 1)) * eps) hδ (by rw [e3]; linarith)
      (by
        rw [e3]
        have : 0 ≤ eps * (w : K) := by positivity
        linarith) (hm i (by omega)) (hx (w + i) (by omega)) p2 (hg (w + i) (by omega)).2
    refine ⟨z, ?_, z2⟩
    show ADX.adxAtBy σ s w ((w + i) + 1) = _
    unfold ADX.adxAtBy
    rw [if_neg (by omega), if_neg (by omega), p1, (hg (w + i) (by omega)).1]
    exact z1

/-! ## the indicator -/

section rows
variable {n : Nat} {h l c : Nat → K}

/-- C131. **ADX in double precision**, where +DI and -DI add up to at least `q`. -/
theorem adx_double {σ : List (Double K) → Double K} {w a : Nat} {m r q : K} {fillna : Bool} {o : ADX (Val K)} {out : Series (Val K)} (S : Steady n h l c)
    (hlc : ∀ i, l i ≤ c i) (hch : ∀ i, c i ≤ h i) (hσ : SumsIn σ w a)
    (ha : a ≤ 2 ^ 40) (hw2 : w ≤ 2 ^ 40) (hm : tiny ≤ m) (hr : 1 ≤ r) (hm2 : 2 * (r * m) ≤ huge)
    (htr : ∀ j, 1 ≤ j → j < n → m ≤ trv h l c j ∧ trv h l c j ≤ r * m)
    (hq : 0 < q) (hqs : ∀ i, w + i < n → q ≤ plusDI h l c w i + minusDI h l c w i)
    (hrw : 2.2 * ((650 * w + 223 * a + 204) * r) / q * eps ≤ 0.003)
    (ho : ADX.new (ser n h) (ser n l) (ser n c) w fillna = .ok o) (hA : o.adx = .ok out) :
    ∃ out', ADX.adxBy σ (ADX.runBy σ (dser n h) (dser n l) (dser n c) w fillna) = .ok out' ∧
      CloseTo (530 * (650 * w + 223 * a + 204) * r / q * eps) out' out := by
  have he := eps_pos (K := K)
  have hes := eps_small (K := K)
  have hw := (adx_obj ho).1
  obtain ⟨hn, E⟩ := adx_formula hlc hch ho hA
  have w1 : (1 : K) ≤ w := by exact_mod_cast hw
  have a0 : (0 : K) ≤ a := Nat.cast_nonneg _
  have r0 : 0 < r := lt_of_lt_of_le one_pos hr
  have q100 : q ≤ 100 := (hqs 0 (by omega)).trans (plusDI_nonneg hlc hch hw 0).2.2
  set D : K := (650 * w + 223 * a + 204) * r with hDdef
  have hD854 : 854 ≤ D := by
    have : (854 : K) * 1 ≤ (650 * w + 223 * a + 204) * r := mul_le_mul (by linarith) hr (by norm_num) (by positivity)
    linarith
  have Dq : D / 100 ≤ D / q := div_le_div_of_nonneg_left (by linarith) hq q100
  have αle : (2 * D + 102) / q ≤ 2.2 * D / q := div_le_div_of_nonneg_right (by linarith) hq.le
  have hα : (2 * D + 102) / q * eps ≤ 0.003 := (mul_le_mul_of_nonneg_right αle he.le).trans hrw
  have hrw' : (3.2 * w + 1.1 * a) * r * eps ≤ 0.003 := by
    refine le_trans (mul_le_mul_of_nonneg_right ?_ he.le) hrw
    have e : 2.2 * D / q = 2.2 * (D / q) := by ring
    have e2 : D / 100 = (6.5 * (w * r) + 2.23 * (a * r) + 2.04 * r) := by rw [hDdef]; ring
    have : (0 : K) ≤ w * r := by positivity
    have : (0 : K) ≤ a * r := by positivity
    rw [e]
    linarith
  have le : (202 * ((3.2 * w + 1.1 * a) * r) + 204) * eps ≤ D * eps := by
    refine mul_le_mul_of_nonneg_right ?_ he.le
    have u : (0 : K) ≤ w * r := by positivity
    have v : (0 : K) ≤ a * r := by positivity
    rw [hDdef]
    linarith
  -- the directional index
  have lenT : (ADX.wilderBy σ (ADX.range (dser n h) (dser n l) (dser n c)) w).length = n - (w - 1) := by simp [ADX.wilderBy, S.from_range.len]
  have dxl : (ADX.dx (ADX.runBy σ (dser n h) (dser n l) (dser n c) w fillna)).length = n - (w - 1) := by
    unfold ADX.dx; rw [length_tab]; exact lenT
  have dx : ∀ i, i < n - w → ∃ y, ix (ADX.dx (ADX.runBy σ (dser n h) (dser n l) (dser n c) w fillna)) i = rk y ∧
      |y - dirIdx h l c w i| ≤ (202 * ((2 * D + 102) / q) + 204) * eps := fun i hi => by
    have hi' : w + i < n := by omega
    obtain ⟨p, p1, p2⟩ := di_at S.from_range S.from_pos hσ ha hw hw2 hm hr hm2 hrw' htr (fun j j1 j2 => ⟨dmUp_nonneg _ _ _, S.up_le j2 j1⟩) hi'
    obtain ⟨u, u1, u2⟩ := di_at S.from_range S.from_neg hσ ha hw hw2 hm hr hm2 hrw' htr (fun j j1 j2 => ⟨dmDown_nonneg _ _ _, S.down_le j2 j1⟩) hi'
    obtain ⟨b1, b2, b3⟩ := plusDI_nonneg hlc hch hw i
    obtain ⟨y, y1, y2⟩ := dx_rk b1 b2 b3 hq (hqs i hi') (by linarith : 0 ≤ D) hα (p2.trans le) (u2.trans le)
    refine ⟨y, ?_, y2⟩
    unfold ADX.dx ADX.runBy
    dsimp only
    rw [ix_tab_lt (by rw [lenT]; omega), p1, u1]
    exact y1
  have dE : (202 * ((2 * D + 102) / q) + 204) * eps ≤ 1 := by
    have e : (202 * ((2 * D + 102) / q) + 204) * eps = 202 * ((2 * D + 102) / q * eps) + 204 * eps := by ring
    rw [e]
    have : (eps : K) ≤ 1 / 2000 := by
      have := eps_win (K := K) (w := 1) (by norm_num)
      push_cast at this
      linarith
    linarith
  have d0 : 0 ≤ (202 * ((2 * D + 102) / q) + 204) * eps := by
    have : 0 ≤ 2 * D + 102 := by linarith
    positivity
  have row := adxAt_rk hσ ha hw hw2 (N := n - w) (by rw [dxl]; omega) dx d0 dE fun i _ => by
    have := dirIdx_mem hlc hch hw (h := h) (l := l) (c := c) i
    rw [abs_of_nonneg this.1]; exact this.2
  have fin : (202 * ((2 * D + 102) / q) + 204) * eps + (310 * w + 112 * (a + 1)) * eps ≤ 530 * (650 * w + 223 * a + 204) * r / q * eps := by
    rw [← add_mul]
    refine mul_le_mul_of_nonneg_right ?_ he.le
    have e1 : 530 * (650 * w + 223 * a + 204) * r / q = 530 * (D / q) := by rw [hDdef]; ring
    have e2 : 2.2 * D / q = 2.2 * (D / q) := by ring
    have e3 : 310 * (w : K) + 112 * (a + 1) + 204 ≤ 0.75 * D := by
      have h1 : (650 * w + 223 * a + 204) * 1 ≤ D := mul_le_mul_of_nonneg_left hr (by positivity)
      linarith
    rw [e1]
    rw [e2] at αle
    linarith
  unfold ADX.adxBy
  rw [show (ADX.runBy σ (dser n h) (dser n l) (dser n c) w fillna).trs.length = n - (w - 1) from lenT,
    show (ADX.runBy σ (dser n h) (dser n l) (dser n c) w fillna).window = w from rfl, if_neg (by omega)]
  refine ⟨_, rfl, ?_⟩
  generalize ADX.dx (ADX.runBy σ (dser n h) (dser n l) (dser n c) w fillna) = dxs at row dxl
  refine Approx.close (Approx.fill ?_ _ _) E
  have h0 : (lit 0 : Double K) = rk 0 := lit_double (k := 0) (by norm_num) (by norm_num) (by norm_num)
  have B0 : (0 : K) ≤ 530 * (650 * w + 223 * a + 204) * r / q * eps := by positivity
  have hzero : ∀ i, i < w → ADX.adxAtBy σ dxs w i = (rk 0 : Double K) := by
    intro i hi
    cases i with
    | zero => exact h0
    | succ i => unfold ADX.adxAtBy; rw [if_pos hi]; exact h0
  refine ⟨by rw [List.length_append, List.length_replicate, length_tab]; omega, fun i _ h2 => by omega, fun i hi _ => ?_⟩
  by_cases hk : i < w - 1
  · rw [if_pos (by omega)]
    refine ⟨0, ?_, by rw [sub_self, abs_zero]; exact B0⟩
    unfold ix
    rw [List.getD_eq_getElem?_getD, List.getElem?_append_left (by simpa using hk)]
    simp [hk, h0]
  · have e : ix (List.replicate (w - 1) (lit 0 : Double K) ++ tab (n - (w - 1)) (ADX.adxAtBy σ dxs w)) i
        = ADX.adxAtBy σ dxs w (i - (w - 1)) := by
      rw [← ix_tab_lt (f := ADX.adxAtBy σ dxs w) (n := n - (w - 1)) (by omega : i - (w - 1) < _)]
      unfold ix
      rw [List.getD_eq_getElem?_getD, List.getD_eq_getElem?_getD, List.getElem?_append_right (by simp; omega)]
      simp
    rw [e]
    by_cases hk2 : i < 2 * w - 1
    · rw [if_pos hk2, hzero _ (by omega)]
      exact ⟨0, rfl, by rw [sub_self, abs_zero]; exact B0⟩
    · rw [if_neg hk2, show i - (w - 1) = w + (i - (2 * w - 1)) by omega]
      obtain ⟨y, y1, y2⟩ := row (i - (2 * w - 1)) (by omega)
      exact ⟨y, y1, y2.trans fin⟩

end rows

/-- with the plain sum it is the model -/
theorem adxBy_sumL {F : Type} [Flt F] (o : ADX F) : ADX.adxBy sumL o = ADX.adx o := by
  have : ∀ (dx : Series F) (w i : Nat), ADX.adxAtBy sumL dx w i = ADX.adxAt dx w i := fun dx w i => by
    induction i with
    | zero => rfl
    | succ i ih => unfold ADX.adxAtBy ADX.adxAt; rw [ih]; rfl
  unfold ADX.adxBy ADX.adx
  have e : ADX.adxAtBy sumL (ADX.dx o) o.window = ADX.adxAt (ADX.dx o) o.window := funext (this _ _)
  dsimp only
  rw [e]

end dbl

/-- a steady climb: ADX is defined and close to its exact value after any number of rows -/
example {n : Nat} (hn : 28 ≤ n) (hn2 : n ≤ 2 ^ 50) (b : Bool) : ∃ out out',
    (ADX.run (ser n fun i => ((12 + i : ℕ) : ℚ)) (ser n fun i => ((10 + i : ℕ) : ℚ)) (ser n fun i => ((11 + i : ℕ) : ℚ)) 14 b).adx = .ok out ∧
    ADX.adxBy npSum (ADX.runBy npSum (dser n fun i => ((12 + i : ℕ) : ℚ)) (dser n fun i => ((10 + i : ℕ) : ℚ)) (dser n fun i => ((11 + i : ℕ) : ℚ)) 14 b) = .ok out' ∧
    CloseTo (160082 * eps) out' out := by
  have dbl : ∀ k : ℕ, k ≤ 2 ^ 51 → IsDouble ((k : ℕ) : ℚ) := fun k hk => by
    have := isDouble_int (k := k) (by rw [abs_of_nonneg (by omega)]; omega)
    simpa using this
  have hlc : ∀ i : ℕ, ((10 + i : ℕ) : ℚ) ≤ ((11 + i : ℕ) : ℚ) := fun i => by exact_mod_cast (by omega : 10 + i ≤ 11 + i)
  have hch : ∀ i : ℕ, ((11 + i : ℕ) : ℚ) ≤ ((12 + i : ℕ) : ℚ) := fun i => by exact_mod_cast (by omega : 11 + i ≤ 12 + i)
  have S : Steady n (fun i => ((12 + i : ℕ) : ℚ)) (fun i => ((10 + i : ℕ) : ℚ)) (fun i => ((11 + i : ℕ) : ℚ)) := by
    refine ⟨fun i _ => ⟨dbl _ (by omega), dbl _ (by omega), dbl _ (by omega)⟩, fun i _ => ⟨hlc i, hch i⟩, fun i _ => ?_⟩
    exact_mod_cast (by omega : max (12 + i) (12 + (i + 1)) ≤ 2 * min (10 + i) (10 + (i + 1)))
  have T : ∀ j, 1 ≤ j → trv (fun i => ((12 + i : ℕ) : ℚ)) (fun i => ((10 + i : ℕ) : ℚ)) (fun i => ((11 + i : ℕ) : ℚ)) j = 2 := fun j hj => by
    have : max (12 + j) (11 + (j - 1)) = min (10 + j) (11 + (j - 1)) + 2 := by omega
    have : max ((12 + j : ℕ) : ℚ) ((11 + (j - 1) : ℕ) : ℚ) = min ((10 + j : ℕ) : ℚ) ((11 + (j - 1) : ℕ) : ℚ) + 2 := by exact_mod_cast this
    unfold trv
    rw [this]; ring
  have U : ∀ j, 1 ≤ j → dmUp (fun i => ((12 + i : ℕ) : ℚ)) (fun i => ((10 + i : ℕ) : ℚ)) j = 1 := fun j hj => by
    obtain ⟨k, rfl⟩ : ∃ k, j = k + 1 := ⟨j - 1, by omega⟩
    unfold dmUp
    rw [Nat.add_sub_cancel, if_pos (by push_cast; constructor <;> linarith)]
    push_cast; ring
  have Q : ∀ i, 14 + i < n → (50 : ℚ) ≤ plusDI (fun i => ((12 + i : ℕ) : ℚ)) (fun i => ((10 + i : ℕ) : ℚ)) (fun i => ((11 + i : ℕ) : ℚ)) 14 i
      + minusDI (fun i => ((12 + i : ℕ) : ℚ)) (fun i => ((10 + i : ℕ) : ℚ)) (fun i => ((11 + i : ℕ) : ℚ)) 14 i := fun i _ => by
    have t : wil (trv (fun i => ((12 + i : ℕ) : ℚ)) (fun i => ((10 + i : ℕ) : ℚ)) (fun i => ((11 + i : ℕ) : ℚ))) 14 i = (14 : ℕ) * 2 := by
      rw [← wil_const (2 : ℚ) (by norm_num) i]
      exact le_antisymm (wil_le (by norm_num) fun j j1 _ => (T j j1).le) (wil_le (by norm_num) fun j j1 _ => (T j j1).ge)
    have u : wil (dmUp (fun i => ((12 + i : ℕ) : ℚ)) (fun i => ((10 + i : ℕ) : ℚ))) 14 i = (14 : ℕ) * 1 := by
      rw [← wil_const (1 : ℚ) (by norm_num) i]
      exact le_antisymm (wil_le (by norm_num) fun j j1 _ => (U j j1).le) (wil_le (by norm_num) fun j j1 _ => (U j j1).ge)
    have := (plusDI_nonneg hlc hch (w := 14) (by norm_num) i).2.1
    refine le_trans ?_ (le_add_of_nonneg_right this)
    unfold plusDI dirInd
    rw [t, u]; norm_num
  obtain ⟨out, hout⟩ : ∃ out, (ADX.run (ser n fun i => ((12 + i : ℕ) : ℚ)) (ser n fun i => ((10 + i : ℕ) : ℚ)) (ser n fun i => ((11 + i : ℕ) : ℚ)) 14 b).adx = .ok out := by
    unfold ADX.adx
    rw [if_neg]
    · exact ⟨_, rfl⟩
    · simp [ADX.run, ADX.wilder, (def_range n _ _ _).len]; omega
  obtain ⟨out', h1, h2⟩ := adx_double (σ := npSum) (w := 14) (a := 26) (m := 2) (r := 1) (q := 50) (fillna := b) S hlc hch (npSum_sumsIn (s := 0) (by norm_num)) (by norm_num) (by norm_num)
    (by have := tiny_le_one (K := ℚ); linarith) le_rfl (by
      have : (2 : ℚ) ^ (3 : ℤ) ≤ huge := zpow_le_zpow_right₀ (by norm_num) (by norm_num)
      exact le_trans (by norm_num) this) (fun j j1 _ => by rw [T j j1]; norm_num) (by norm_num) Q (by unfold eps; norm_num) (new_ok _ _ _ (by norm_num) (by omega) b) hout
  · refine ⟨out, out', hout, h1, ?_⟩
    refine ⟨h2.1, fun i hi => (h2.2 i hi).imp id ?_⟩
    rintro ⟨y, z, y1, z1, e⟩
    refine ⟨y, z, y1, z1, e.trans ?_⟩
    have := eps_pos (K := ℚ)
    push_cast
    linarith

end TA
