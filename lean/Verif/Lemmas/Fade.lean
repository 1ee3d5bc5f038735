import Verif.Props.C66
import Verif.Props.C61
import Verif.Props.C17
import Mathlib.Analysis.SpecificLimits.Basic

/-!
# Two runs that come together

`d.k` older rows are put in front of the data. `a d i` is what the run on the recent rows shows on row `i`, `b d j` what the run on all
rows shows on row `j`; `Fade` says that both are bounded and that `a d i - b d (k + i)` vanishes, uniformly over all data.
-/

set_option linter.unusedSectionVars false

namespace TA

/-- `k` old rows, followed by recent ones. -/
structure Hist where
  k : Nat
  h : Nat → ℝ
  l : Nat → ℝ
  c : Nat → ℝ
  v : Nat → ℝ

/-- ordinary bars with prices in `[lo, hi]`, ranges of at least `g`, and volumes in `[vlo, vhi]` -/
structure Hist.In (lo hi g vlo vhi : ℝ) (d : Hist) : Prop where
  lo : ∀ i, lo ≤ d.l i
  lc : ∀ i, d.l i ≤ d.c i
  ch : ∀ i, d.c i ≤ d.h i
  hi : ∀ i, d.h i ≤ hi
  gap : ∀ i, d.l i + g ≤ d.h i
  vlo : ∀ i, vlo ≤ d.v i
  vhi : ∀ i, d.v i ≤ vhi

structure Fade (Dom : Hist → Prop) (p : Nat) (a b : Hist → Nat → ℝ) : Prop where
  bdd : ∃ B, ∀ d, Dom d → ∀ i, p ≤ i → |a d i| ≤ B ∧ |b d i| ≤ B
  lim : ∀ ε, 0 < ε → ∃ N, ∀ d, Dom d → ∀ i, N ≤ i → |a d i - b d (d.k + i)| < ε

variable {Dom : Hist → Prop} {p q : Nat} {a b a' b' : Hist → Nat → ℝ}

theorem Fade.mono (h : Fade Dom p a b) (hq : p ≤ q) : Fade Dom q a b :=
  ⟨h.bdd.imp fun _ hB d hd i hi => hB d hd i (hq.trans hi), h.lim⟩

theorem Fade.congr' (h : Fade Dom p a b) (ha : ∀ d, Dom d → ∀ i, p ≤ i → a' d i = a d i)
    (hb : ∀ d, Dom d → ∀ i, p ≤ i → b' d i = b d i) : Fade Dom p a' b' := by
  obtain ⟨B, hB⟩ := h.bdd
  refine ⟨⟨B, fun d hd i hi => by rw [ha d hd i hi, hb d hd i hi]; exact hB d hd i hi⟩, fun ε hε => ?_⟩
  obtain ⟨N, hN⟩ := h.lim ε hε
  refine ⟨max N p, fun d hd i hi => ?_⟩
  rw [ha d hd i (by omega), hb d hd _ (by omega)]
  exact hN d hd i (by omega)

theorem Fade.congr (h : Fade Dom p a b) (ha : ∀ d i, p ≤ i → a' d i = a d i) (hb : ∀ d i, p ≤ i → b' d i = b d i) :
    Fade Dom p a' b' := h.congr' (fun d _ => ha d) (fun d _ => hb d)

theorem Fade.add (h : Fade Dom p a b) (h' : Fade Dom p a' b') :
    Fade Dom p (fun d i => a d i + a' d i) (fun d i => b d i + b' d i) := by
  obtain ⟨B, hB⟩ := h.bdd
  obtain ⟨B', hB'⟩ := h'.bdd
  refine ⟨⟨B + B', fun d hd i hi => ⟨?_, ?_⟩⟩, fun ε hε => ?_⟩
  · exact (abs_add_le _ _).trans (add_le_add (hB d hd i hi).1 (hB' d hd i hi).1)
  · exact (abs_add_le _ _).trans (add_le_add (hB d hd i hi).2 (hB' d hd i hi).2)
  · obtain ⟨N, hN⟩ := h.lim (ε / 2) (by linarith)
    obtain ⟨N', hN'⟩ := h'.lim (ε / 2) (by linarith)
    refine ⟨max N N', fun d hd i hi => ?_⟩
    have h1 := hN d hd i (by omega)
    have h2 := hN' d hd i (by omega)
    rw [abs_lt] at *
    constructor <;> linarith [h1.1, h1.2, h2.1, h2.2]

theorem Fade.cmul (h : Fade Dom p a b) (r : ℝ) : Fade Dom p (fun d i => r * a d i) (fun d i => r * b d i) := by
  obtain ⟨B, hB⟩ := h.bdd
  refine ⟨⟨|r| * B, fun d hd i hi => ?_⟩, fun ε hε => ?_⟩
  · rw [abs_mul, abs_mul]
    exact ⟨mul_le_mul_of_nonneg_left (hB d hd i hi).1 (abs_nonneg r), mul_le_mul_of_nonneg_left (hB d hd i hi).2 (abs_nonneg r)⟩
  · have hr : 0 < |r| + 1 := by positivity
    obtain ⟨N, hN⟩ := h.lim (ε / (|r| + 1)) (by positivity)
    refine ⟨N, fun d hd i hi => ?_⟩
    rw [← mul_sub, abs_mul]
    have := hN d hd i hi
    rw [lt_div_iff₀ hr] at this
    nlinarith [abs_nonneg r, abs_nonneg (a d i - b d (d.k + i))]

theorem Fade.sub (h : Fade Dom p a b) (h' : Fade Dom p a' b') :
    Fade Dom p (fun d i => a d i - a' d i) (fun d i => b d i - b' d i) :=
  (h.add (h'.cmul (-1))).congr (fun _ _ _ => by ring) (fun _ _ _ => by ring)

theorem Fade.addc (h : Fade Dom p a b) (r : ℝ) : Fade Dom p (fun d i => a d i + r) (fun d i => b d i + r) := by
  refine h.add (a' := fun _ _ => r) (b' := fun _ _ => r) ⟨⟨|r|, fun _ _ _ _ => ⟨le_refl _, le_refl _⟩⟩, fun ε hε => ⟨0, fun _ _ _ _ => ?_⟩⟩
  simpa using hε

/-- quotients, when the denominators stay away from 0 -/
theorem Fade.div (h : Fade Dom p a b) (h' : Fade Dom p a' b') {m : ℝ} (hm : 0 < m)
    (hpos : ∀ d, Dom d → ∀ i, p ≤ i → m ≤ a' d i ∧ m ≤ b' d i) :
    Fade Dom p (fun d i => a d i / a' d i) (fun d i => b d i / b' d i) := by
  obtain ⟨B, hB⟩ := h.bdd
  have hB0 : ∀ d, Dom d → 0 ≤ B := fun d hd => (abs_nonneg _).trans (hB d hd p (le_refl _)).1
  refine ⟨⟨B / m, fun d hd i hi => ?_⟩, fun ε hε => ?_⟩
  · obtain ⟨h1, h2⟩ := hpos d hd i hi
    rw [abs_div, abs_div, abs_of_pos (hm.trans_le h1), abs_of_pos (hm.trans_le h2)]
    exact ⟨div_le_div₀ (hB0 d hd) (hB d hd i hi).1 hm h1, div_le_div₀ (hB0 d hd) (hB d hd i hi).2 hm h2⟩
  · obtain ⟨N, hN⟩ := h.lim (ε * m / 2) (by positivity)
    obtain ⟨N', hN'⟩ := h'.lim (ε * m * m / (2 * (|B| + 1))) (by positivity)
    refine ⟨max (max N N') p, fun d hd i hi => ?_⟩
    obtain ⟨h1, -⟩ := hpos d hd i (by omega)
    obtain ⟨-, h2⟩ := hpos d hd (d.k + i) (by omega)
    have e1 := hN d hd i (by omega)
    have e2 := hN' d hd i (by omega)
    have e3 := (hB d hd (d.k + i) (by omega)).2
    have hB' := hB0 d hd
    rw [abs_of_nonneg hB'] at e2
    generalize a d i = x at *
    generalize b d (d.k + i) = y at *
    generalize a' d i = u at *
    generalize b' d (d.k + i) = w at *
    have hu := hm.trans_le h1
    have hw := hm.trans_le h2
    -- x/u - y/w = (x - y)/u + y (w - u)/(u w)
    have e : x / u - y / w = (x - y) / u - y * (u - w) / (u * w) := by field_simp; ring
    rw [e]
    have t1 : |(x - y) / u| < ε / 2 := by
      rw [abs_div, abs_of_pos hu, div_lt_iff₀ hu]
      nlinarith
    have t2 : |y * (u - w) / (u * w)| ≤ ε / 2 := by
      rw [abs_div, abs_mul, abs_of_pos (mul_pos hu hw), div_le_iff₀ (mul_pos hu hw)]
      rw [lt_div_iff₀ (by positivity)] at e2
      have huw : m * m ≤ u * w := mul_le_mul h1 h2 hm.le hu.le
      have : |y| * |u - w| ≤ B * |u - w| := mul_le_mul_of_nonneg_right e3 (abs_nonneg _)
      have h5 : B * |u - w| * 2 ≤ ε * m * m := by nlinarith [abs_nonneg (u - w)]
      nlinarith [mul_le_mul_of_nonneg_left huw hε.le]
    calc |(x - y) / u - y * (u - w) / (u * w)| ≤ |(x - y) / u| + |y * (u - w) / (u * w)| := abs_sub _ _
      _ < ε := by linarith

theorem Fade.mul (h : Fade Dom p a b) (h' : Fade Dom p a' b') :
    Fade Dom p (fun d i => a d i * a' d i) (fun d i => b d i * b' d i) := by
  obtain ⟨B, hB⟩ := h.bdd
  obtain ⟨B', hB'⟩ := h'.bdd
  refine ⟨⟨|B| * |B'|, fun d hd i hi => ?_⟩, fun ε hε => ?_⟩
  · rw [abs_mul, abs_mul]
    have h1 := hB d hd i hi
    have h2 := hB' d hd i hi
    exact ⟨mul_le_mul (h1.1.trans (le_abs_self B)) (h2.1.trans (le_abs_self B')) (abs_nonneg _) (abs_nonneg _),
      mul_le_mul (h1.2.trans (le_abs_self B)) (h2.2.trans (le_abs_self B')) (abs_nonneg _) (abs_nonneg _)⟩
  · obtain ⟨N, hN⟩ := h.lim (ε / (2 * (|B'| + 1))) (by positivity)
    obtain ⟨N', hN'⟩ := h'.lim (ε / (2 * (|B| + 1))) (by positivity)
    refine ⟨max (max N N') p, fun d hd i hi => ?_⟩
    have e1 := hN d hd i (by omega)
    have e2 := hN' d hd i (by omega)
    have e3 := ((hB d hd (d.k + i) (by omega)).2).trans (le_abs_self B)
    have e4 := ((hB' d hd i (by omega)).1).trans (le_abs_self B')
    generalize a d i = x at *
    generalize b d (d.k + i) = y at *
    generalize a' d i = u at *
    generalize b' d (d.k + i) = w at *
    have e : x * u - y * w = (x - y) * u + y * (u - w) := by ring
    rw [e]
    rw [lt_div_iff₀ (by positivity)] at e1 e2
    calc |(x - y) * u + y * (u - w)| ≤ |x - y| * |u| + |y| * |u - w| := by
          rw [← abs_mul, ← abs_mul]; exact abs_add_le _ _
      _ ≤ |x - y| * |B'| + |B| * |u - w| := add_le_add (mul_le_mul_of_nonneg_left e4 (abs_nonneg _))
          (mul_le_mul_of_nonneg_right e3 (abs_nonneg _))
      _ < ε := by nlinarith [abs_nonneg (x - y), abs_nonneg (u - w)]

/-- Exponential smoothing (with weights that may vary, but not below `α`) of runs that come together. -/
theorem Fade.smooth (h : Fade Dom p a b) {α : ℝ} (hα : 0 < α) (s t : Hist → Nat → ℝ)
    (hs : ∀ d, Dom d → ∀ i, p < i → α ≤ s d i ∧ s d i ≤ 1) (ht : ∀ d, Dom d → ∀ i, p < i → α ≤ t d i ∧ t d i ≤ 1)
    (hst : ∃ N, ∀ d, Dom d → ∀ i, N ≤ i → s d i = t d (d.k + i))
    (ha : ∀ d, Dom d → ∀ i, p ≤ i → a' d (i + 1) = (1 - s d (i + 1)) * a' d i + s d (i + 1) * a d (i + 1))
    (hb : ∀ d, Dom d → ∀ i, p ≤ i → b' d (i + 1) = (1 - t d (i + 1)) * b' d i + t d (i + 1) * b d (i + 1))
    (h0 : ∃ C, ∀ d, Dom d → |a' d p| ≤ C ∧ |b' d p| ≤ C) : Fade Dom p a' b' := by
  obtain ⟨B, hB⟩ := h.bdd
  obtain ⟨C, hC⟩ := h0
  obtain ⟨N0, hN0⟩ := hst
  have conv : ∀ {s x y M : ℝ}, 0 ≤ s → s ≤ 1 → |x| ≤ M → |y| ≤ M → |(1 - s) * x + s * y| ≤ M := by
    intro s x y M h1 h2 h3 h4
    calc |(1 - s) * x + s * y| ≤ |(1 - s) * x| + |s * y| := abs_add_le _ _
      _ = (1 - s) * |x| + s * |y| := by rw [abs_mul, abs_mul, abs_of_nonneg h1, abs_of_nonneg (by linarith : 0 ≤ 1 - s)]
      _ ≤ M := by nlinarith
  have bddA : ∀ d, Dom d → ∀ j, |a' d (p + j)| ≤ max B C ∧ |b' d (p + j)| ≤ max B C := by
    intro d hd j
    induction j with
    | zero => exact ⟨(hC d hd).1.trans (le_max_right _ _), (hC d hd).2.trans (le_max_right _ _)⟩
    | succ j ih =>
      rw [show p + (j + 1) = p + j + 1 by omega, ha d hd _ (by omega), hb d hd _ (by omega)]
      have h1 := hs d hd (p + j + 1) (by omega)
      have h2 := ht d hd (p + j + 1) (by omega)
      have h3 := hB d hd (p + j + 1) (by omega)
      exact ⟨conv (by linarith) h1.2 ih.1 (h3.1.trans (le_max_left _ _)),
        conv (by linarith) h2.2 ih.2 (h3.2.trans (le_max_left _ _))⟩
  have bdd' : ∀ d, Dom d → ∀ i, p ≤ i → |a' d i| ≤ max B C ∧ |b' d i| ≤ max B C := by
    intro d hd i hi
    have := bddA d hd (i - p)
    rwa [Nat.add_sub_cancel' hi] at this
  refine ⟨⟨max B C, bdd'⟩, fun ε hε => ?_⟩
  obtain ⟨N1, hN1⟩ := h.lim (ε / 2) (by linarith)
  by_cases hα1 : 1 < α
  · exact ⟨0, fun d hd i _ => absurd ((hs d hd (p + 1) (by omega)).1.trans (hs d hd (p + 1) (by omega)).2) (not_le.mpr hα1)⟩
  have hr0 : 0 ≤ 1 - α := by linarith
  obtain ⟨J, hJ⟩ := exists_pow_lt_of_lt_one (show 0 < ε / 2 / (2 * |max B C| + 1) by positivity) (by linarith : 1 - α < 1)
  set M := max (max N0 N1) p with hM
  have step : ∀ d, Dom d → ∀ j, |a' d (M + j) - b' d (d.k + (M + j))| ≤ (1 - α) ^ j * (2 * |max B C|) + ε / 2 := by
    intro d hd j
    induction j with
    | zero =>
      have h1 := (bdd' d hd M (by omega)).1.trans (le_abs_self _)
      have h2 := (bdd' d hd (d.k + M) (by omega)).2.trans (le_abs_self _)
      have := abs_sub (a' d M) (b' d (d.k + M))
      rw [pow_zero, one_mul, Nat.add_zero]
      linarith
    | succ j ih =>
      have e1 := ha d hd (M + j) (by omega)
      have e2 := hb d hd (d.k + (M + j)) (by omega)
      have e3 := hN0 d hd (M + j + 1) (by omega)
      have e4 := hN1 d hd (M + j + 1) (by omega)
      rw [show d.k + (M + j + 1) = d.k + (M + j) + 1 by omega] at e3 e4
      rw [show M + (j + 1) = M + j + 1 by omega, show d.k + (M + j + 1) = d.k + (M + j) + 1 by omega, e1, e2, ← e3]
      have h1 := hs d hd (M + j + 1) (by omega)
      generalize s d (M + j + 1) = σ at *
      generalize a' d (M + j) = x at *
      generalize b' d (d.k + (M + j)) = y at *
      generalize a d (M + j + 1) = u at *
      generalize b d (d.k + (M + j) + 1) = w at *
      have e : (1 - σ) * x + σ * u - ((1 - σ) * y + σ * w) = (1 - σ) * (x - y) + σ * (u - w) := by ring
      rw [e, pow_succ]
      have hP : 0 ≤ (1 - α) ^ j * (2 * |max B C|) := by positivity
      calc |(1 - σ) * (x - y) + σ * (u - w)| ≤ |(1 - σ) * (x - y)| + |σ * (u - w)| := abs_add_le _ _
        _ = (1 - σ) * |x - y| + σ * |u - w| := by
            rw [abs_mul, abs_mul, abs_of_nonneg (by linarith : 0 ≤ σ), abs_of_nonneg (by linarith : 0 ≤ 1 - σ)]
        _ ≤ (1 - σ) * ((1 - α) ^ j * (2 * |max B C|) + ε / 2) + σ * (ε / 2) := by
            have t1 : (1 - σ) * |x - y| ≤ (1 - σ) * ((1 - α) ^ j * (2 * |max B C|) + ε / 2) :=
              mul_le_mul_of_nonneg_left ih (by linarith)
            have t2 : σ * |u - w| ≤ σ * (ε / 2) := mul_le_mul_of_nonneg_left e4.le (by linarith)
            linarith
        _ ≤ (1 - α) ^ j * (1 - α) * (2 * |max B C|) + ε / 2 := by nlinarith
  refine ⟨M + J, fun d hd i hi => ?_⟩
  have h1 := step d hd (i - M)
  rw [Nat.add_sub_cancel' (by omega)] at h1
  have h2 : (1 - α) ^ (i - M) ≤ (1 - α) ^ J := pow_le_pow_of_le_one hr0 (by linarith) (by omega)
  have h3 : (1 - α) ^ J * (2 * |max B C|) < ε / 2 := by
    rw [lt_div_iff₀ (by positivity)] at hJ
    have : 0 ≤ (1 - α) ^ J := by positivity
    nlinarith
  have h4 : (1 - α) ^ (i - M) * (2 * |max B C|) ≤ (1 - α) ^ J * (2 * |max B C|) := mul_le_mul_of_nonneg_right h2 (by positivity)
  linarith

/-- an exponential average that starts at row `p` -/
theorem Fade.ema (h : Fade Dom p a b) {α : ℝ} (hα : 0 < α) (hα1 : α ≤ 1) :
    Fade Dom p (fun d i => emaRec α (fun j => a d (p + j)) (i - p)) (fun d i => emaRec α (fun j => b d (p + j)) (i - p)) := by
  obtain ⟨B, hB⟩ := h.bdd
  refine h.smooth hα (fun _ _ => α) (fun _ _ => α) (fun _ _ _ _ => ⟨le_refl _, hα1⟩) (fun _ _ _ _ => ⟨le_refl _, hα1⟩)
    ⟨0, fun _ _ _ _ => rfl⟩ ?_ ?_ ⟨B, fun d hd => ?_⟩
  · intro d _ i hi
    rw [show i + 1 - p = (i - p) + 1 by omega, emaRec, show p + (i - p + 1) = i + 1 by omega]
  · intro d _ i hi
    rw [show i + 1 - p = (i - p) + 1 by omega, emaRec, show p + (i - p + 1) = i + 1 by omega]
  · have := hB d hd p (le_refl _)
    simpa [emaRec] using this

theorem Fade.ema0 (h : Fade Dom 0 a b) {α : ℝ} (hα : 0 < α) (hα1 : α ≤ 1) :
    Fade Dom 0 (fun d i => emaRec α (a d) i) (fun d i => emaRec α (b d) i) :=
  (h.ema hα hα1).congr (fun d i _ => by simp) (fun d i _ => by simp)

/-- a column of the data -/
theorem Fade.col {x : Hist → Nat → ℝ} {lo hi : ℝ} (h : ∀ d, Dom d → ∀ i, lo ≤ x d i ∧ x d i ≤ hi) :
    Fade Dom 0 (fun d i => x d (d.k + i)) x := by
  refine ⟨⟨max |lo| |hi|, fun d hd i _ => ?_⟩, fun ε hε => ⟨0, fun _ _ _ _ => by simpa using hε⟩⟩
  have key : ∀ j, |x d j| ≤ max |lo| |hi| := fun j => abs_le_max_abs_abs (h d hd j).1 (h d hd j).2
  exact ⟨key _, key _⟩

/-- earlier rows -/
theorem Fade.lag (h : Fade Dom p a b) (t : Nat) : Fade Dom (p + t) (fun d i => a d (i - t)) (fun d i => b d (i - t)) := by
  obtain ⟨B, hB⟩ := h.bdd
  refine ⟨⟨B, fun d hd i hi => hB d hd (i - t) (by omega)⟩, fun ε hε => ?_⟩
  obtain ⟨N, hN⟩ := h.lim ε hε
  refine ⟨N + t, fun d hd i hi => ?_⟩
  rw [show d.k + i - t = d.k + (i - t) by omega]
  exact hN d hd (i - t) (by omega)

/-- sums over the last `w` rows -/
theorem Fade.wsum (h : Fade Dom p a b) {w : Nat} (hw : 1 ≤ w) :
    Fade Dom (p + (w - 1)) (fun d i => ∑ j ∈ Finset.Ico (i + 1 - w) (i + 1), a d j)
      (fun d i => ∑ j ∈ Finset.Ico (i + 1 - w) (i + 1), b d j) := by
  have key : ∀ w, Fade Dom (p + w) (fun d i => ∑ t ∈ Finset.range (w + 1), a d (i - t)) (fun d i => ∑ t ∈ Finset.range (w + 1), b d (i - t)) := by
    intro w
    induction w with
    | zero => simpa using h
    | succ w ih =>
      refine ((ih.mono (by omega : p + w ≤ p + (w + 1))).add (h.lag (w + 1))).congr ?_ ?_
      · intro d i _; rw [Finset.sum_range_succ _ (w + 1)]
      · intro d i _; rw [Finset.sum_range_succ _ (w + 1)]
  have flip : ∀ (x : Nat → ℝ) (i : Nat), p + (w - 1) ≤ i →
      ∑ j ∈ Finset.Ico (i + 1 - w) (i + 1), x j = ∑ t ∈ Finset.range (w - 1 + 1), x (i - t) := by
    intro x i hi
    rw [Finset.sum_Ico_eq_sum_range, ← Finset.sum_range_reflect, show i + 1 - (i + 1 - w) = w - 1 + 1 by omega]
    refine Finset.sum_congr rfl fun t ht => ?_
    rw [Finset.mem_range] at ht
    congr 1
    omega
  exact (key (w - 1)).congr (fun d i hi => flip _ i hi) (fun d i hi => flip _ i hi)

/-- Wilder's running sum -/
theorem Fade.wil (h : Fade Dom 1 a b) {w : Nat} (hw : 1 ≤ w) :
    Fade Dom w (fun d i => TA.wil (a d) w (i - w)) (fun d i => TA.wil (b d) w (i - w)) := by
  obtain ⟨B, hB⟩ := h.bdd
  have hp : (0 : ℝ) < w := by exact_mod_cast hw
  have hp1 : (1 : ℝ) ≤ w := by exact_mod_cast hw
  have h1 : (1 : ℝ) / w ≤ 1 := by rw [div_le_one hp]; exact hp1
  have hrec : ∀ (x : Nat → ℝ) (i : Nat), w ≤ i → TA.wil x w (i + 1 - w)
      = (1 - 1 / (w : ℝ)) * TA.wil x w (i - w) + 1 / (w : ℝ) * ((w : ℝ) * x (i + 1)) := by
    intro x i hi
    rw [show i + 1 - w = (i - w) + 1 by omega, TA.wil, show w + 1 + (i - w) = i + 1 by omega]
    field_simp
  refine ((h.mono hw).cmul (w : ℝ)).smooth (α := 1 / (w : ℝ)) (by positivity) (fun _ _ => 1 / (w : ℝ)) (fun _ _ => 1 / (w : ℝ))
    (fun _ _ _ _ => ⟨le_refl _, h1⟩) (fun _ _ _ _ => ⟨le_refl _, h1⟩) ⟨0, fun _ _ _ _ => rfl⟩
    (fun d _ i hi => hrec (a d) i hi) (fun d _ i hi => hrec (b d) i hi) ⟨w * B, fun d hd => ?_⟩
  rw [Nat.sub_self]
  have key : ∀ x : Nat → ℝ, (∀ i, 1 ≤ i → |x i| ≤ B) → |TA.wil x w 0| ≤ w * B := by
    intro x hx
    unfold TA.wil
    refine (Finset.abs_sum_le_sum_abs _ _).trans ?_
    have := Finset.sum_le_card_nsmul (Finset.Ico 1 (w + 1)) (fun j => |x j|) B fun j hj => hx j (Finset.mem_Ico.mp hj).1
    simpa using this
  exact ⟨key _ fun i hi => (hB d hd i hi).1, key _ fun i hi => (hB d hd i hi).2⟩

/-- Wilder's mean -/
theorem Fade.wilder (h : Fade Dom 0 a b) {w : Nat} (hw : 1 ≤ w) :
    Fade Dom (w - 1) (fun d i => wilMean (a d) w (i - (w - 1))) (fun d i => wilMean (b d) w (i - (w - 1))) := by
  obtain ⟨B, hB⟩ := h.bdd
  have hp : (0 : ℝ) < w := by exact_mod_cast hw
  have hp1 : (1 : ℝ) ≤ w := by exact_mod_cast hw
  have h1 : (1 : ℝ) / w ≤ 1 := by rw [div_le_one hp]; exact hp1
  have hrec : ∀ (x : Nat → ℝ) (i : Nat), w - 1 ≤ i → wilMean x w (i + 1 - (w - 1))
      = (1 - 1 / (w : ℝ)) * wilMean x w (i - (w - 1)) + 1 / (w : ℝ) * x (i + 1) := by
    intro x i hi
    rw [show i + 1 - (w - 1) = (i - (w - 1)) + 1 by omega, wilMean, show w + (i - (w - 1)) = i + 1 by omega, Nat.cast_sub hw]
    push_cast
    field_simp
  refine (h.mono (Nat.zero_le (w - 1))).smooth (α := 1 / (w : ℝ)) (by positivity) (fun _ _ => 1 / (w : ℝ)) (fun _ _ => 1 / (w : ℝ))
    (fun _ _ _ _ => ⟨le_refl _, h1⟩) (fun _ _ _ _ => ⟨le_refl _, h1⟩) ⟨0, fun _ _ _ _ => rfl⟩
    (fun d _ i hi => hrec (a d) i hi) (fun d _ i hi => hrec (b d) i hi) ⟨B, fun d hd => ?_⟩
  have m1 := wilMean_mem (x := a d) (lo := -B) (hi := B) hw 0 fun j _ => abs_le.mp (hB d hd j (Nat.zero_le _)).1
  have m2 := wilMean_mem (x := b d) (lo := -B) (hi := B) hw 0 fun j _ => abs_le.mp (hB d hd j (Nat.zero_le _)).2
  rw [Nat.sub_self]
  exact ⟨abs_le.mpr m1, abs_le.mpr m2⟩

/-- a bounded quantity that is the same in both runs from some row on -/
theorem Fade.eventually {p M : Nat} {B : ℝ} (hb : ∀ d, Dom d → ∀ i, p ≤ i → |a d i| ≤ B ∧ |b d i| ≤ B)
    (he : ∀ d, Dom d → ∀ i, M ≤ i → a d i = b d (d.k + i)) : Fade Dom p a b :=
  ⟨⟨B, hb⟩, fun ε hε => ⟨M, fun d hd i hi => by rw [he d hd i hi, sub_self, abs_zero]; exact hε⟩⟩

end TA
