import Verif.Props.C75
import Verif.Props.C114
import Verif.Props.C126

/-!
# C127 — shifts filled with the mean: KST, DPO and TRIX in double precision

KST, DPO and TRIX compare a row with an earlier one and, where there is none, with the mean of the whole column (`ta/trend.py:273`, `498`, `598`).
pandas takes that mean with numpy's sum; here `σ` is any way of summing in which no number takes part in more than `d` additions. The rolling means are pandas' own.
-/

set_option linter.unusedSectionVars false

namespace TA
open Finset

section any
variable {F : Type} [Flt F] (σ : List F → F)

/-- one `rocma*` with numpy's sum and pandas' rolling mean -/
def KST.rocmaPandas (close : Series F) (r w : Nat) (fillna : Bool) : Series F :=
  let prev := shift close r (smeanBy σ close)
  onlineMean w (minp fillna w) (sdiv (ssub close prev) prev)

/-- `self._kst` from these -/
def KST.runPandas (close : Series F) (r1 r2 r3 r4 w1 w2 w3 w4 : Nat) (fillna : Bool) : Series F :=
  cmul (lit 100) (sadd (sadd (sadd (KST.rocmaPandas σ close r1 w1 fillna)
    (cmul (lit 2) (KST.rocmaPandas σ close r2 w2 fillna)))
    (cmul (lit 3) (KST.rocmaPandas σ close r3 w3 fillna)))
    (cmul (lit 4) (KST.rocmaPandas σ close r4 w4 fillna)))

/-- `.kst()` -/
def kstPandas (close : Series F) (r1 r2 r3 r4 w1 w2 w3 w4 : Nat) (fillna : Bool) : Series F :=
  checkFillna fillna (.const (lit 0)) (KST.runPandas σ close r1 r2 r3 r4 w1 w2 w3 w4 fillna)

/-- `.kst_sig()` -/
def kstSigPandas (close : Series F) (r1 r2 r3 r4 w1 w2 w3 w4 nsig : Nat) (fillna : Bool) : Series F :=
  checkFillna fillna (.const (lit 0)) (onlineMean nsig 0 (KST.runPandas σ close r1 r2 r3 r4 w1 w2 w3 w4 fillna))

/-- `.kst_diff()` -/
def kstDiffPandas (close : Series F) (r1 r2 r3 r4 w1 w2 w3 w4 nsig : Nat) (fillna : Bool) : Series F :=
  let k := KST.runPandas σ close r1 r2 r3 r4 w1 w2 w3 w4 fillna
  checkFillna fillna (.const (lit 0)) (ssub k (onlineMean nsig 0 k))

/-- `.dpo()` with numpy's sum and pandas' rolling mean -/
def dpoNumpy (close : Series F) (window : Nat) (fillna : Bool) : Series F :=
  checkFillna fillna (.const (lit 0))
    (ssub (shift close (window / 2 + 1) (smeanBy σ close)) (onlineMean window (minp fillna window) close))

/-- `.trix()` with numpy's sum -/
def trixNumpy (close : Series F) (window : Nat) (fillna : Bool) : Series F :=
  checkFillna fillna (.const (lit 0)) (TRIX.runBy σ close window fillna)

end any

section dbl
variable {K : Type} [Field K] [LinearOrder K] [IsStrictOrderedRing K] [FloorRing K]

theorem summing_eq {σ : List (Val K) → Val K} (h : Summing σ) : σ = sumL := funext fun l => (h l).choose_spec.exact

/-- in exact arithmetic, the definitions above are those of the model -/
theorem meanfilled_exact {σ : List (Val K) → Val K} (h : Summing σ) (c : Series (Val K)) (r1 r2 r3 r4 w1 w2 w3 w4 nsig w : Nat) (fillna : Bool) :
    kstPandas σ c r1 r2 r3 r4 w1 w2 w3 w4 fillna = kst c r1 r2 r3 r4 w1 w2 w3 w4 fillna ∧
    kstSigPandas σ c r1 r2 r3 r4 w1 w2 w3 w4 nsig fillna = kstSig c r1 r2 r3 r4 w1 w2 w3 w4 nsig fillna ∧
    kstDiffPandas σ c r1 r2 r3 r4 w1 w2 w3 w4 nsig fillna = kstDiff c r1 r2 r3 r4 w1 w2 w3 w4 nsig fillna ∧
    dpoNumpy σ c w fillna = dpo c w fillna ∧ (1 ≤ w → trix c w fillna = .ok (trixNumpy σ c w fillna)) := by
  rw [summing_eq h]
  have k : KST.runPandas sumL c r1 r2 r3 r4 w1 w2 w3 w4 fillna = KST.run c r1 r2 r3 r4 w1 w2 w3 w4 fillna := by
    unfold KST.runPandas KST.rocmaPandas KST.run KST.rocma
    simp only [smeanBy_eq, online_mean]
  refine ⟨?_, ?_, ?_, ?_, fun hw => ?_⟩
  · unfold kstPandas kst; rw [k]
  · unfold kstSigPandas kstSig KST.sig; rw [k, online_mean]
  · unfold kstDiffPandas kstDiff KST.sig; dsimp only; rw [k, online_mean]
  · unfold dpoNumpy dpo DPO.run; rw [smeanBy_eq, online_mean]
  · unfold trix chkSpan trixNumpy TRIX.runBy TRIX.run
    rw [if_neg (by omega)]
    simp only [smeanBy_eq]
    rfl

/-! ## the mean of all rows -/

/-- `σ` adds up lists of at most `n` numbers, each in at most `d` additions -/
def SumsIn (σ : List (Double K) → Double K) (n d : Nat) : Prop := ∀ l : List (Double K), l.length ≤ n → AddsUp l (σ l) d

theorem npSum_sumsIn {n s : Nat} (h : n ≤ 112 * 2 ^ s + 16) : SumsIn (npSum : List (Double K) → Double K) n (26 + s) := fun l hl => npSum_addsUp l (hl.trans h)

theorem natF_rk {n : Nat} (h : n ≤ 2 ^ 40) : (natF n : Double K) = rk (n : K) := by
  unfold natF
  exact lit_double (k := n) (by exact_mod_cast h.trans (by norm_num)) (by norm_num) (by norm_num)

/-- the mean of a computed series -/
theorem Approx.mean {σ : List (Double K) → Double K} {s : Series (Double K)} {n d : Nat} {f : Nat → K} {δ M : K} (hσ : SumsIn σ n d) (hd : d ≤ 2 ^ 40) (hn0 : 0 < n) (hn : n ≤ 2 ^ 40)
    (h : Approx s n 0 f δ) (hδ : 0 ≤ δ) (hf : ∀ i, i < n → |f i| ≤ M) (hM : tiny ≤ M) (hM2 : M + δ ≤ huge) :
    ∃ μ : K, smeanBy σ s = rk μ ∧ |μ - meanAll n f| ≤ δ + 1.2 * ((d : K) + 1) * (eps * (M + δ)) := by
  obtain ⟨y, y1, y2, -⟩ := h.split
  simp only [Nat.sub_zero, Nat.zero_add, List.drop_zero] at y1 y2
  subst y2
  have he := eps_pos (K := K)
  have hM0 : 0 < M := tiny_pos.trans_le hM
  have hcap := huge_cap (K := K)
  obtain ⟨A, hA⟩ : ∃ A, A = M + δ := ⟨_, rfl⟩
  have A0 : 0 < A := by linarith
  have eA : 0 < eps * A := mul_pos he A0
  rw [← hA]
  have yb : ∀ j, j < n → |y j| ≤ A := fun j hj => by rw [hA]; exact near_of_err (y1 j hj) (hf j hj)
  have es : dser n y = ((List.range n).map y).map rk := by
    show (tab n fun i => (rk (y i) : Double K)) = _
    unfold tab; rw [List.map_map]; rfl
  have ev : valid (dser n y) = dser n y := by
    unfold valid
    rw [List.filter_eq_self]
    intro x hx
    rw [es] at hx
    obtain ⟨z, -, rfl⟩ := List.mem_map.mp hx
    rfl
  have ez : ((dser n y).map fun x : Double K => if Flt.isNaN x then lit 0 else x) = dser n y := by
    conv_rhs => rw [← List.map_id (dser n y)]
    refine List.map_congr_left fun x hx => ?_
    rw [es] at hx
    obtain ⟨z, -, rfl⟩ := List.mem_map.mp hx
    rfl
  have ln : (dser n y).length = n := by simp [rser]
  have np : (0 : K) < n := by exact_mod_cast hn0
  have au := hσ (dser n y) (by rw [ln])
  rw [es] at au
  obtain ⟨S, S1, S2⟩ := adds_double au (M := A) (by linarith) (by linarith) (fun z hz => by
    obtain ⟨j, hj, rfl⟩ := List.mem_map.mp hz
    exact yb j (List.mem_range.mp hj)) (by simpa using hn) hd
  rw [List.length_map, List.length_range, show ((List.range n).map y).sum = ∑ j ∈ range n, y j from rfl] at S2
  have hD := eps_win (K := K) hd
  have d0 : (0 : K) ≤ d := Nat.cast_nonneg _
  have q1 : |S / n - meanAll n y| ≤ d * (1.1 * (eps * A)) := by
    unfold meanAll
    rw [← sub_div, abs_div, abs_of_pos np, div_le_iff₀ np]
    refine S2.trans (le_of_eq (by ring))
  have q0 : d * (1.1 * (eps * A)) ≤ A / 100 := by
    have := mul_le_mul_of_nonneg_right hD A0.le
    have e : 1000 * eps * ((d : K) + 1) * A = 1000 * (d * (eps * A)) + 1000 * (eps * A) := by ring
    rw [e] at this
    linarith
  have q2 : |meanAll n y| ≤ A := by
    unfold meanAll
    rw [abs_div, abs_of_pos np, div_le_iff₀ np]
    refine (Finset.abs_sum_le_sum_abs _ _).trans ?_
    calc ∑ j ∈ range n, |y j| ≤ ∑ j ∈ range n, A := Finset.sum_le_sum fun j hj => yb j (Finset.mem_range.mp hj)
      _ = A * n := by simp [mul_comm]
  have q3 : |meanAll n y - meanAll n f| ≤ δ := by
    have e : meanAll n y - meanAll n f = (∑ j ∈ range n, (y j - f j)) / n := by
      unfold meanAll; rw [← sub_div, ← Finset.sum_sub_distrib]
    rw [e, abs_div, abs_of_pos np, div_le_iff₀ np]
    refine (Finset.abs_sum_le_sum_abs _ _).trans ?_
    calc ∑ j ∈ range n, |y j - f j| ≤ ∑ j ∈ range n, δ := Finset.sum_le_sum fun j hj => y1 j (Finset.mem_range.mp hj)
      _ = δ * n := by simp [mul_comm]
  obtain ⟨μ, m1, m2⟩ := near_div (x := S) (y := n) (B := 1.01 * A) np.ne' (by
    have := near_of_err q1 q2
    linarith) (by linarith) (by linarith)
  refine ⟨μ, ?_, ?_⟩
  · unfold smeanBy
    rw [ev, ez, ln, if_neg (by omega), natF_rk hn, es, S1]
    exact m1
  · rw [abs_le] at q1 q3 m2 ⊢
    have e : 1.2 * ((d : K) + 1) * (eps * A) = 1.2 * (d * (eps * A)) + 1.2 * (eps * A) := by ring
    have dA : 0 ≤ d * (eps * A) := mul_nonneg d0 eA.le
    rw [e]
    constructor <;> linarith [q1.1, q1.2, q3.1, q3.2, m2.1, m2.2]

/-- the shift filled with the mean -/
theorem Approx.shiftMean {σ : List (Double K) → Double K} {s : Series (Double K)} {n d : Nat} {f : Nat → K} {δ M : K} (hσ : SumsIn σ n d) (hd : d ≤ 2 ^ 40) (hn : n ≤ 2 ^ 40)
    (h : Approx s n 0 f δ) (hδ : 0 ≤ δ) (hf : ∀ i, i < n → |f i| ≤ M) (hM : tiny ≤ M) (hM2 : M + δ ≤ huge) (k : Nat) :
    Approx (TA.shift s k (smeanBy σ s)) n 0 (prevOr n f k) (δ + 1.2 * ((d : K) + 1) * (eps * (M + δ))) := by
  refine ⟨by simp [h.len], fun i _ g => absurd g (by omega), fun i hi _ => ?_⟩
  have d0 : (0 : K) ≤ d := Nat.cast_nonneg _
  have e0 : 0 ≤ 1.2 * ((d : K) + 1) * (eps * (M + δ)) := by
    have := tiny_pos.trans_le hM
    have := mul_pos (eps_pos (K := K)) (by linarith : 0 < M + δ)
    exact mul_nonneg (by linarith) this.le
  rw [ix_shift (by rw [h.len]; exact hi)]
  unfold prevOr
  by_cases g : i < k
  · rw [if_pos g, if_pos g]
    exact h.mean hσ hd (by omega) hn hδ hf hM hM2
  · rw [if_neg g, if_neg g]
    obtain ⟨y, y1, y2⟩ := h.val (i - k) (by omega) (by omega)
    exact ⟨y, y1, by linarith⟩

theorem prevOr_bounds {n : Nat} {c : Nat → K} {m M : K} (hc : ∀ i, i < n → m ≤ c i ∧ c i ≤ M) (k : Nat) {i : Nat} (hi : i < n) : m ≤ prevOr n c k i ∧ prevOr n c k i ≤ M := by
  have np : (0 : K) < n := by exact_mod_cast (by omega : 0 < n)
  unfold prevOr
  split_ifs
  · unfold meanAll
    rw [le_div_iff₀ np, div_le_iff₀ np]
    constructor
    · calc m * n = ∑ j ∈ range n, m := by simp [mul_comm]
        _ ≤ _ := Finset.sum_le_sum fun j hj => (hc j (Finset.mem_range.mp hj)).1
    · calc _ ≤ ∑ j ∈ range n, M := Finset.sum_le_sum fun j hj => (hc j (Finset.mem_range.mp hj)).2
        _ = _ := by simp [mul_comm]
  · exact hc _ (by omega)

/-! ## DPO -/

/-- C127: **DPO in double precision**, filled or not, for any window. -/
theorem dpo_double_any {σ : List (Double K) → Double K} {n d : Nat} (hσ : SumsIn σ n d) (hd : d ≤ 2 ^ 40) (hn : n ≤ 2 ^ 40) {c : Nat → K} {w : Nat} (hw : 1 ≤ w) {M : K}
    (hc : ∀ i, i < n → |c i| ≤ M) (hM : tiny ≤ M) (hM2 : M ≤ huge) (fillna : Bool) :
    CloseTo ((90 * n + 2 * d + 8) * eps * M) (dpoNumpy σ (dser n c) w fillna) (dpo (ser n c) w fillna) := by
  have he := eps_pos (K := K)
  have hM0 : 0 < M := tiny_pos.trans_le hM
  have hcap := huge_cap (K := K)
  have hn' : n ≤ 2 ^ 44 := hn.trans (by norm_num)
  have a := (approx_ser (R := binary64) n c).onlineMean (le_refl _) hc hM (by linarith) hn' hw (minp_le fillna w)
  have b := (approx_ser (R := binary64) n c).shiftMean hσ hd hn (le_refl _) hc hM (by linarith) (w / 2 + 1)
  simp only [zero_add, add_zero] at a b
  have eM : 0 < eps * M := mul_pos he hM0
  have d0 : (0 : K) ≤ d := Nat.cast_nonneg _
  have n0 : (0 : K) ≤ n := Nat.cast_nonneg _
  have nM : n * (eps * M) ≤ M / 100 := by
    have := mul_le_mul_of_nonneg_right (eps_rows (K := K) hn') hM0.le
    linarith
  have dM : ((d : K) + 1) * (eps * M) ≤ M / 1000 := by
    have := mul_le_mul_of_nonneg_right (eps_win (K := K) hd) hM0.le
    linarith
  have pa : ∀ i, i < n → |prevOr n c (w / 2 + 1) i| ≤ M := fun i hi =>
    abs_le.mpr (prevOr_bounds (fun j hj => abs_le.mp (hc j hj)) _ hi)
  have s := b.sub a (M := 3 * M) (fun i hi _ => by
    have h1 := pa i hi
    have h2 := abs_wmean hw hc hi hM0.le
    have h3 := abs_sub (prevOr n c (w / 2 + 1) i) (wmean c w i)
    linarith) (by linarith) (by linarith)
  have D := (def_prevOr n c (w / 2 + 1)).ssub ((def_ser n c).rollMeanP hw (minp_le fillna w))
  rw [minp_sub, Nat.zero_max] at s D
  refine ((s.fillOr (b := fillna) (by rintro rfl; rfl) _).close (D.fillOr (b := fillna) (by rintro rfl; rfl) _)).mono ?_
  have e : (90 * (n : K) + 2 * d + 8) * eps * M = 90 * (n * (eps * M)) + 2 * (d * (eps * M)) + 8 * (eps * M) := by ring
  have := mul_nonneg d0 eM.le
  have := mul_nonneg n0 eM.le
  rw [e]
  linarith

/-! ## TRIX -/

theorem Def.shiftMean {t : Series (Val K)} {n : Nat} {g : Nat → K} (h : Def t n 0 g) (k : Nat) : Def (TA.shift t k (smean t)) n 0 (prevOr n g k) := by
  rw [h.eq_ser]; exact def_prevOr n g k

/-- the relative change of a computed series against an earlier row or the mean -/
theorem Approx.change {σ : List (Double K) → Double K} {s : Series (Double K)} {n d : Nat} (hσ : SumsIn σ n d) (hd : d ≤ 2 ^ 40) (hn : n ≤ 2 ^ 40) {g : Nat → K} {m r E a : K}
    (h : Approx s n 0 g (a * (E * (r * m)))) (ha : 0 ≤ a) (ha2 : a ≤ 100) (hg : ∀ i, i < n → m ≤ g i ∧ g i ≤ r * m) (hm : tiny ≤ m) (hr : 1 ≤ r) (hM2 : 2 * (r * m) ≤ huge)
    (hE : ((d : K) + 1) * eps ≤ E) (hEr : 1000 * (E * r ^ 2) ≤ 1) (k : Nat) :
    Approx (TA.sdiv (TA.ssub s (TA.shift s k (smeanBy σ s))) (TA.shift s k (smeanBy σ s))) n 0 (fun i => (g i - prevOr n g k i) / prevOr n g k i) ((6 * a + 13) * (E * r ^ 2)) := by
  have he := eps_pos (K := K)
  have d0 : (0 : K) ≤ d := Nat.cast_nonneg _
  have eE : eps ≤ E := by
    have := mul_nonneg d0 he.le
    linarith
  have hE0 : 0 < E := he.trans_le eE
  have hm0 : 0 < m := tiny_pos.trans_le hm
  have hr0 : 0 < r := by linarith
  obtain ⟨M, hM⟩ : ∃ M, M = r * m := ⟨_, rfl⟩
  rw [← hM] at hM2 h hg
  have hmM : m ≤ M := by rw [hM]; exact le_mul_of_one_le_left hm0.le hr
  have hM0 : 0 < M := hm0.trans_le hmM
  have hM1 : tiny ≤ M := hm.trans hmM
  have hcap := huge_cap (K := K)
  have huge1 := huge_cap' (K := K)
  have rr : r ≤ r ^ 2 := by nlinarith
  have Er0 : 0 < E * r ^ 2 := by positivity
  have Er1 : E * r ≤ E * r ^ 2 := mul_le_mul_of_nonneg_left rr hE0.le
  have E1 : E ≤ E * r := le_mul_of_one_le_right hE0.le hr
  have EM : E * M ≤ M / 1000 := by
    have := mul_le_mul_of_nonneg_right (by linarith : E ≤ 1 / 1000) hM0.le
    linarith
  have EM0 : 0 < E * M := mul_pos hE0 hM0
  have aEM : a * (E * M) ≤ 100 * (E * M) := mul_le_mul_of_nonneg_right ha2 EM0.le
  have aEM0 : 0 ≤ a * (E * M) := mul_nonneg ha EM0.le
  have ag : ∀ i, i < n → |g i| ≤ M := fun i hi => by rw [abs_of_nonneg (hm0.le.trans (hg i hi).1)]; exact (hg i hi).2
  have hp := (h.shiftMean hσ hd hn aEM0 ag hM1 (by linarith) k).mono (δ' := (a + 1.32) * (E * M)) (by
    have e1 : eps * (M + a * (E * M)) ≤ 1.1 * (eps * M) := by
      have := mul_le_mul_of_nonneg_left (by linarith : M + a * (E * M) ≤ 1.1 * M) he.le
      linarith
    have e2 := mul_le_mul_of_nonneg_left e1 (by linarith : 0 ≤ 1.2 * ((d : K) + 1))
    have e3 := mul_le_mul_of_nonneg_right hE hM0.le
    linarith)
  obtain ⟨b, hb⟩ : ∃ b, b = a + 1.32 := ⟨_, rfl⟩
  rw [← hb] at hp
  have pb : ∀ i, i < n → m ≤ prevOr n g k i ∧ prevOr n g k i ≤ M := fun i hi => prevOr_bounds hg k hi
  have bEM : b * (E * M) ≤ 101.32 * (E * M) := mul_le_mul_of_nonneg_right (by linarith) EM0.le
  have hN := (h.sub hp (M := 1.3 * M) (fun i hi _ => by
    have : |g i - prevOr n g k i| ≤ M := by
      rw [abs_le]
      have h1 := hg i hi
      have h2 := pb i hi
      constructor <;> linarith [h1.1, h1.2, h2.1, h2.2]
    linarith) (by linarith) (by linarith)).mono (δ' := (2 * a + 4) * (E * M)) (by
    have := mul_le_mul_of_nonneg_right eE hM0.le
    rw [hb]
    linarith)
  have EMm : E * M = (E * r) * m := by rw [hM]; ring
  have bound : 2 * ((2 * a + 4) * (E * M) + r * (b * (E * M))) / m ≤ (6 * a + 10.64) * (E * r ^ 2) := by
    rw [div_le_iff₀ hm0, EMm]
    have e : 2 * ((2 * a + 4) * (E * r * m) + r * (b * (E * r * m))) = (2 * (2 * a + 4) * (E * r) + 2 * b * (E * r ^ 2)) * m := by ring
    rw [e]
    refine mul_le_mul_of_nonneg_right ?_ hm0.le
    have := mul_le_mul_of_nonneg_left Er1 (by linarith : 0 ≤ 2 * (2 * a + 4))
    rw [hb]
    linarith
  have c1 : (6 * a + 10.64) * (E * r ^ 2) ≤ 610.64 * (E * r ^ 2) := mul_le_mul_of_nonneg_right (by linarith) Er0.le
  have r1 : 1000 * r ≤ huge := ratio_huge (by
    have := mul_le_mul_of_nonneg_right eE hr0.le
    linarith)
  have res := hN.sdiv hp (m := m) (Q := r) (B := 2 * r) hm0 (fun i hi _ => by
      have := pb i hi
      rw [abs_of_nonneg (hm0.le.trans this.1)]; exact this.1)
    (by
      have : 203 * (E * M) ≤ m := by
        rw [EMm]
        have := mul_le_mul_of_nonneg_right (by linarith : 203 * (E * r) ≤ 1) hm0.le
        linarith
      linarith)
    (fun i hi _ => by
      have h1 := hg i hi
      have h2 := pb i hi
      have h3 : |g i - prevOr n g k i| ≤ M := by
        rw [abs_le]
        constructor <;> linarith [h1.1, h1.2, h2.1, h2.2]
      rw [abs_of_nonneg (hm0.le.trans h2.1)]
      refine h3.trans ?_
      rw [hM]
      exact mul_le_mul_of_nonneg_left h2.1 hr0.le)
    (by linarith) (by linarith [tiny_le_one (K := K)]) (by linarith)
  refine res.mono ?_
  have := mul_le_mul_of_nonneg_right eE hr0.le
  linarith

theorem change_def {t : Series (Val K)} {n : Nat} {g : Nat → K} {m M : K} (h : Def t n 0 g) (hm : 0 < m) (hg : ∀ i, i < n → m ≤ g i ∧ g i ≤ M) (k : Nat) :
    Def (sdiv (ssub t (shift t k (smean t))) (shift t k (smean t))) n 0 (fun i => (g i - prevOr n g k i) / prevOr n g k i) :=
  (h.ssub (h.shiftMean k)).sdiv (h.shiftMean k) fun _ hi _ _ => (hm.trans_le (prevOr_bounds hg k hi).1).ne'

theorem change_size {n : Nat} {g : Nat → K} {m r : K} (hm : 0 < m) (hr : 1 ≤ r) (hg : ∀ i, i < n → m ≤ g i ∧ g i ≤ r * m) (k : Nat) {i : Nat} (hi : i < n) :
    |(g i - prevOr n g k i) / prevOr n g k i| ≤ r := by
  have h1 := hg i hi
  have h2 := prevOr_bounds hg k hi
  have p0 := hm.trans_le h2.1
  rw [abs_div, abs_of_pos p0, div_le_iff₀ p0]
  have h3 : |g i - prevOr n g k i| ≤ r * m := by
    rw [abs_le]
    constructor <;> linarith [h1.1, h1.2, h2.1, h2.2]
  exact h3.trans (mul_le_mul_of_nonneg_left h2.1 (by linarith))

/-- C127: **TRIX in double precision**, filled or not, on closes between `m` and `r m`. -/
theorem trix_double_any {σ : List (Double K) → Double K} {n d : Nat} (hσ : SumsIn σ n d) (hd : d ≤ 2 ^ 40) (hn : n ≤ 2 ^ 40) {c : Nat → K} {w : Nat} (hw : 1 ≤ w) (hw2 : w ≤ 2 ^ 40)
    {m r : K} (hc : ∀ i, i < n → m ≤ c i ∧ c i ≤ r * m) (hm : tiny ≤ m) (hr : 1 ≤ r) (hM2 : 2 * (r * m) ≤ huge) (fillna : Bool)
    (hr2 : 1000 * ((w : K) + d + 2) * eps * r ^ 2 ≤ 1) :
    ∃ exact : Series (Val K), trix (ser n c) w fillna = .ok exact ∧ CloseTo (38500 * ((w : K) + d + 2) * eps * r ^ 2) (trixNumpy σ (dser n c) w fillna) exact := by
  have he := eps_pos (K := K)
  have hm0 : 0 < m := tiny_pos.trans_le hm
  have hM1 : tiny ≤ r * m := hm.trans (le_mul_of_one_le_left hm0.le hr)
  have hM0 : 0 < r * m := tiny_pos.trans_le hM1
  have d0 : (0 : K) ≤ d := Nat.cast_nonneg _
  have w0 : (1 : K) ≤ w := by exact_mod_cast hw
  have hr0 : 0 < r := by linarith
  obtain ⟨g1, a1, d1, b1⟩ := ema_between (d := 0) hw hw2 (le_refl _) (by norm_num)
    ((approx_ser (R := binary64) n c).mono (by rw [zero_mul])) (def_ser n c) (fun i hi _ => hc i hi) hm0.le hM1 (by linarith) fillna
  obtain ⟨g2, a2, d2, b2⟩ := ema_between (d := 20) hw hw2 (by norm_num) (by norm_num) (a1.mono (by rw [mul_zero, zero_add])) d1
    (fun i h1 h2 => b1 i h1 (by omega)) hm0.le hM1 (by linarith) fillna
  obtain ⟨g3, a3, d3, b3⟩ := ema_between (d := 40.4) hw hw2 (by norm_num) (by norm_num) (a2.mono (by norm_num)) d2
    (fun i h1 h2 => b2 i h1 (by omega)) hm0.le hM1 (by linarith) fillna
  refine ⟨checkFillna fillna (.const (lit 0)) (TRIX.run (ser n c) w fillna), ?_, ?_⟩
  · unfold trix chkSpan
    rw [if_neg (by omega)]; rfl
  obtain ⟨E, hE⟩ : ∃ E : K, E = ((w : K) + d + 2) * eps := ⟨_, rfl⟩
  have hE0 : 0 < E := by rw [hE]; exact mul_pos (by linarith) he
  have hEr : 1000 * (E * r ^ 2) ≤ 1 := by rw [hE]; linarith
  have eE : 4 * eps ≤ E + eps := by
    have := mul_le_mul_of_nonneg_right (by linarith : 3 ≤ (w : K) + d + 2) he.le
    linarith
  unfold trixNumpy TRIX.runBy TRIX.run
  dsimp only
  have a4 : Approx (ema (ema (ema (dser n c) w fillna) w fillna) w fillna) n _ g3 (61.208 * (E * (r * m))) := a3.mono (by
    have : ((w : K) + 1) * eps ≤ E := by rw [hE]; exact mul_le_mul_of_nonneg_right (by linarith) he.le
    have := mul_le_mul_of_nonneg_right this hM0.le
    norm_num only at this ⊢
    linarith)
  generalize ema (ema (ema (dser n c) w fillna) w fillna) w fillna = s at a4
  generalize ema (ema (ema (ser n c) w fillna) w fillna) w fillna = t at d3
  clear a1 d1 a2 d2 a3 b1 b2
  by_cases g : fillna = true ∨ w = 1
  · have z : (0 + (if fillna = true then 0 else w - 1) + (if fillna = true then 0 else w - 1) + if fillna = true then 0 else w - 1) = 0 := by
      rcases g with rfl | rfl
      · rfl
      · cases fillna <;> rfl
    rw [z] at a4 d3
    have b4 : ∀ i, i < n → m ≤ g3 i ∧ g3 i ≤ r * m := fun i hi => b3 i hi (by omega)
    have R := a4.change hσ hd hn (by norm_num) (by norm_num) b4 hm hr hM2 (by rw [hE]; exact mul_le_mul_of_nonneg_right (by linarith) he.le) hEr 1
    have D := change_def d3 hm0 b4 1
    have r1 : 1000 * r ≤ huge := ratio_huge (by
      have : eps * r ≤ E * r ^ 2 := mul_le_mul (by linarith) (by nlinarith) hr0.le hE0.le
      linarith)
    have er : eps * r ≤ E * r ^ 2 / 3 := by
      have : 3 * eps * r ≤ E * r ^ 2 := mul_le_mul (by linarith) (by nlinarith) hr0.le hE0.le
      linarith
    have P := R.mulc lit100k (B := 140 * r) (fun i hi _ => by
      have := change_size hm0 hr b4 1 hi
      rw [abs_of_pos (by norm_num : (0 : K) < 100)]
      norm_num only at hEr ⊢
      linarith) (by linarith [tiny_le_one (K := K)]) (by linarith [huge_cap (K := K)])
    have Q := D.mulc 100
    rw [show (Val.fin 100 : Val K) = lit 100 by simp] at Q
    refine ((P.fill fillna _).close (Q.fillOr (b := fillna) (fun _ => rfl) _)).mono ?_
    rw [abs_of_pos (by norm_num : (0 : K) < 100)]
    have : 0 < E * r ^ 2 := by positivity
    have e : 38500 * ((w : K) + d + 2) * eps * r ^ 2 = 38500 * (E * r ^ 2) := by rw [hE]; ring
    rw [e]
    norm_num only
    linarith
  · push Not at g
    obtain ⟨g, gw⟩ := g
    have f : fillna = false := by simpa using g
    subst f
    have := percent_near a4 d3 (by simp only [Bool.false_eq_true, if_false]; omega) (fun i h1 h2 => b3 i h1 (by omega)) hm hr (by linarith) (by linarith) hEr
      (smeanBy σ s) (smean t)
    refine CloseTo.mono this ?_
    have : 0 < E * r ^ 2 := by positivity
    have e : 38500 * ((w : K) + d + 2) * eps * r ^ 2 = 38500 * (E * r ^ 2) := by rw [hE]; ring
    rw [e]
    linarith

/-! ## KST -/

/-- pandas' running mean of a computed series, one observation sufficing -/
theorem Approx.onlineMean0 {s : Series (Double K)} {n p : Nat} {f : Nat → K} {δ M : K} (h : Approx s n p f δ) (hδ : 0 ≤ δ)
    (hf : ∀ i, i < n → p ≤ i → |f i| ≤ M) (hM : tiny ≤ M) (hM2 : M + δ ≤ huge) (hn : n ≤ 2 ^ 44) {w : Nat} (hw : 1 ≤ w) :
    Approx (TA.onlineMean w 0 s) n p (fun i => wsum f (min w (i + 1 - p)) i / (min w (i + 1 - p) : ℕ)) (δ + 85 * n * (eps * (M + δ))) := by
  obtain ⟨y, y1, y2, y3⟩ := h.split
  have hM0 : 0 < M := tiny_pos.trans_le hM
  have A := (approx_ser (R := binary64) (n - p) y).onlineMean (M := M + δ) (le_refl _) (fun i hi => near_of_err (y1 i hi) (hf _ (by omega) (by omega))) (hM.trans (by linarith))
    (by linarith) (by omega) hw (Nat.zero_le w)
  rw [show rser (n - p) y = dser (n - p) y from rfl, ← y2, zero_add] at A
  have len : (TA.onlineMean w 0 s).length = n := by unfold TA.onlineMean; rw [length_tab, h.len]
  have e : ∀ i, i < n → ix (TA.onlineMean w 0 s) i = (online .removeFirst SumSt.add SumSt.rem SumSt.init w (s.map clean) i).calcMean 0 := fun i hi => by
    unfold TA.onlineMean
    rw [ix_tab_lt (by rw [h.len]; exact hi)]
  refine ⟨len, fun i hi g => ?_, fun i hi g => ?_⟩
  · rw [e i hi, online_init hw (fun j hj => cleaned_nan (y3 j hj)) g (by simp [h.len, hi])]
    unfold SumSt.calcMean SumSt.init
    dsimp only
    rw [if_neg (by omega)]
  · obtain ⟨k, rfl⟩ : ∃ k, i = p + k := ⟨i - p, by omega⟩
    obtain ⟨t, t1, t2⟩ := A.val k (by omega) (by omega)
    refine ⟨t, ?_, ?_⟩
    · rw [← t1, e _ hi, online_skip hw (fun j hj => cleaned_nan (y3 j hj)) (by simp [h.len, hi]), clean_drop]
      unfold TA.onlineMean
      rw [ix_tab_lt (by simp [h.len]; omega)]
    · have ew : wsum f (min w (p + k + 1 - p)) (p + k) / (min w (p + k + 1 - p) : ℕ) = wmean (fun j => f (p + j)) w k := by
        unfold wsum wmean
        rw [show p + k + 1 - p = k + 1 by omega, Finset.sum_Ico_add (fun j => f j) (k + 1 - w) (k + 1) p,
          show p + k + 1 - min w (k + 1) = k + 1 - w + p by omega, show k + 1 + p = p + k + 1 by omega]
      rw [ew]
      have k1 : |wmean y w k - wmean (fun j => f (p + j)) w k| ≤ δ := by
        have : wmean y w k - wmean (fun j => f (p + j)) w k = wmean (fun j => y j - f (p + j)) w k := by
          unfold wmean
          rw [← sub_div, ← Finset.sum_sub_distrib]
        rw [this]
        exact abs_wmean hw y1 (by omega) hδ
      have k2 : 85 * ((n - p : ℕ) : K) * (eps * (M + δ)) ≤ 85 * n * (eps * (M + δ)) := by
        have a : ((n - p : ℕ) : K) ≤ n := by exact_mod_cast Nat.sub_le n p
        have e0 : 0 ≤ eps * (M + δ) := mul_nonneg eps_pos.le (by linarith)
        have := mul_le_mul_of_nonneg_right a e0
        linarith
      have := abs_add_le (t - wmean y w k) (wmean y w k - wmean (fun j => f (p + j)) w k)
      rw [sub_add_sub_cancel] at this
      linarith

section kst
variable {σ : List (Double K) → Double K} {n d : Nat} {c : Nat → K} {m r : K}

/-- one smoothed rate of change -/
theorem rocma_near (hσ : SumsIn σ n d) (hd : d ≤ 2 ^ 40) (hn : n ≤ 2 ^ 40) (hc : ∀ i, i < n → m ≤ c i ∧ c i ≤ r * m) (hm : tiny ≤ m) (hr : 1 ≤ r) (hM2 : 2 * (r * m) ≤ huge)
    (hr2 : 1000 * (((n : K) + d + 1) * eps * r ^ 2) ≤ 1) (k : Nat) {w : Nat} (hw : 1 ≤ w) (fillna : Bool) :
    ∃ f : Nat → K, Approx (KST.rocmaPandas σ (dser n c) k w fillna) n (if fillna then 0 else w - 1) f (87 * (((n : K) + d + 1) * eps * r ^ 2)) ∧
      Def (KST.rocma (ser n c) k w fillna) n (if fillna then 0 else w - 1) f ∧ ∀ i, i < n → |f i| ≤ r := by
  have he := eps_pos (K := K)
  have hm0 : 0 < m := tiny_pos.trans_le hm
  have d0 : (0 : K) ≤ d := Nat.cast_nonneg _
  have n0 : (0 : K) ≤ n := Nat.cast_nonneg _
  have hr0 : 0 < r := by linarith
  have rr : r ≤ r ^ 2 := by nlinarith
  obtain ⟨E, hE⟩ : ∃ E : K, E = ((d : K) + 1) * eps := ⟨_, rfl⟩
  have hE0 : 0 < E := by rw [hE]; exact mul_pos (by linarith) he
  have er0 : 0 < eps * r := mul_pos he hr0
  have er : eps * r ≤ eps * r ^ 2 := mul_le_mul_of_nonneg_left rr he.le
  have F : ((n : K) + d + 1) * eps * r ^ 2 = n * (eps * r ^ 2) + E * r ^ 2 := by rw [hE]; ring
  have ner := mul_le_mul_of_nonneg_left er n0
  have ner0 : 0 ≤ n * (eps * r) := mul_nonneg n0 er0.le
  have Er0 : 0 < E * r ^ 2 := by positivity
  rw [F] at hr2 ⊢
  have r1 : 1000 * r ≤ huge := ratio_huge (by
    have : eps * r ≤ E * r ^ 2 := mul_le_mul (by rw [hE]; nlinarith) rr hr0.le hE0.le
    linarith)
  have R := ((approx_ser (R := binary64) n c).mono (by rw [zero_mul] : (0 : K) ≤ 0 * (E * (r * m)))).change hσ hd hn (le_refl _) (by norm_num) hc hm hr hM2 (by rw [hE]) (by linarith) k
  rw [mul_zero, zero_add] at R
  have D := change_def (def_ser n c) hm0 hc k
  have sz : ∀ i, i < n → |(c i - prevOr n c k i) / prevOr n c k i| ≤ r := fun i hi => change_size hm0 hr hc k hi
  have A := R.onlineMean (by positivity) sz (by linarith [tiny_le_one (K := K)]) (by linarith) (hn.trans (by norm_num)) hw (minp_le fillna w)
  have B := D.rollMeanP hw (minp_le fillna w)
  rw [minp_sub] at A B
  refine ⟨_, A.mono ?_, B, fun i hi => abs_wmean hw sz hi hr0.le⟩
  have e1 : eps * (r + 13 * (E * r ^ 2)) ≤ 1.014 * (eps * r) := by
    have := mul_le_mul_of_nonneg_left (by linarith : r + 13 * (E * r ^ 2) ≤ 1.014 * r) he.le
    linarith
  have e2 := mul_le_mul_of_nonneg_left e1 (by linarith : 0 ≤ 85 * (n : K))
  linarith

theorem lit3k : (lit 3 : Double K) = rk 3 := lit_double (k := 3) (by norm_num) (by norm_num) (by norm_num)

theorem ratio_huge4 {r : K} (h : 1000 * eps * r ≤ 1) : 4000 * r ≤ huge := by
  have he := eps_pos (K := K)
  have e : (eps : K) * huge = 2 ^ (847 : ℤ) := by
    unfold eps huge; rw [← zpow_add₀ (by norm_num)]; norm_num only
  have e1 : (2 : K) ^ (2 : ℤ) ≤ eps * huge := by rw [e]; exact zpow_le_zpow_right₀ (by norm_num) (by norm_num)
  norm_num only at e1
  by_contra q
  push Not at q
  have := mul_lt_mul_of_pos_left q he
  clear e
  linarith

/-- the sum of the four -/
theorem kst_run_near (hσ : SumsIn σ n d) (hd : d ≤ 2 ^ 40) (hn : n ≤ 2 ^ 40) (hc : ∀ i, i < n → m ≤ c i ∧ c i ≤ r * m) (hm : tiny ≤ m) (hr : 1 ≤ r) (hM2 : 2 * (r * m) ≤ huge)
    (hr2 : 1000 * (((n : K) + d + 1) * eps * r ^ 2) ≤ 1) (r1 r2 r3 r4 : Nat) {w1 w2 w3 w4 : Nat} (h1 : 1 ≤ w1) (h2 : 1 ≤ w2) (h3 : 1 ≤ w3) (h4 : 1 ≤ w4) (fillna : Bool) :
    ∃ (p : Nat) (L : Nat → K), (fillna = true → p = 0) ∧ Approx (KST.runPandas σ (dser n c) r1 r2 r3 r4 w1 w2 w3 w4 fillna) n p L (93700 * (((n : K) + d + 1) * eps * r ^ 2)) ∧
      Def (KST.run (ser n c) r1 r2 r3 r4 w1 w2 w3 w4 fillna) n p L ∧ ∀ i, i < n → |L i| ≤ 1000 * r := by
  have he := eps_pos (K := K)
  have d0 : (0 : K) ≤ d := Nat.cast_nonneg _
  have n0 : (0 : K) ≤ n := Nat.cast_nonneg _
  have hr0 : 0 < r := by linarith
  obtain ⟨f1, a1, b1, c1⟩ := rocma_near hσ hd hn hc hm hr hM2 hr2 r1 h1 fillna
  obtain ⟨f2, a2, b2, c2⟩ := rocma_near hσ hd hn hc hm hr hM2 hr2 r2 h2 fillna
  obtain ⟨f3, a3, b3, c3⟩ := rocma_near hσ hd hn hc hm hr hM2 hr2 r3 h3 fillna
  obtain ⟨f4, a4, b4, c4⟩ := rocma_near hσ hd hn hc hm hr hM2 hr2 r4 h4 fillna
  have er : eps * r ≤ ((n : K) + d + 1) * eps * r ^ 2 := by
    have a : eps * r ≤ eps * r ^ 2 := mul_le_mul_of_nonneg_left (by nlinarith) he.le
    have b : 0 ≤ ((n : K) + d) * (eps * r ^ 2) := by positivity
    linarith
  have er0 : 0 < eps * r := mul_pos he hr0
  generalize ((n : K) + d + 1) * eps * r ^ 2 = G at *
  have t1 := tiny_le_one (K := K)
  have rh : 1000 * r ≤ huge := ratio_huge (by linarith)
  have hcap := huge_cap (K := K)
  have G0 : 0 < G := by linarith
  have a2' := (a2.cmul lit2k (B := 2.2 * r) (fun i hi _ => by rw [abs_of_pos (by norm_num : (0 : K) < 2)]; linarith [c2 i hi]) (by linarith) (by linarith)).mono (δ' := 177 * G)
    (by rw [abs_of_pos (by norm_num : (0 : K) < 2)]; linarith)
  have a3' := (a3.cmul lit3k (B := 3.3 * r) (fun i hi _ => by rw [abs_of_pos (by norm_num : (0 : K) < 3)]; linarith [c3 i hi]) (by linarith) (by linarith)).mono (δ' := 265 * G)
    (by rw [abs_of_pos (by norm_num : (0 : K) < 3)]; linarith)
  have a4' := (a4.cmul lit4k (B := 4.4 * r) (fun i hi _ => by rw [abs_of_pos (by norm_num : (0 : K) < 4)]; linarith [c4 i hi]) (by linarith) (by linarith)).mono (δ' := 353 * G)
    (by rw [abs_of_pos (by norm_num : (0 : K) < 4)]; linarith)
  have m2 : ∀ i, i < n → |f1 i + 2 * f2 i| ≤ 3 * r := fun i hi => by
    have x1 := abs_le.mp (c1 i hi)
    have x2 := abs_le.mp (c2 i hi)
    rw [abs_le]; constructor <;> linarith [x1.1, x1.2, x2.1, x2.2]
  have m3 : ∀ i, i < n → |f1 i + 2 * f2 i + 3 * f3 i| ≤ 6 * r := fun i hi => by
    have x1 := abs_le.mp (m2 i hi)
    have x2 := abs_le.mp (c3 i hi)
    rw [abs_le]; constructor <;> linarith [x1.1, x1.2, x2.1, x2.2]
  have m4 : ∀ i, i < n → |f1 i + 2 * f2 i + 3 * f3 i + 4 * f4 i| ≤ 10 * r := fun i hi => by
    have x1 := abs_le.mp (m3 i hi)
    have x2 := abs_le.mp (c4 i hi)
    rw [abs_le]; constructor <;> linarith [x1.1, x1.2, x2.1, x2.2]
  have s2 := (a1.sadd a2' (B := 3.3 * r) (fun i hi _ => by linarith [m2 i hi]) (by linarith) (by linarith)).mono (δ' := 271 * G) (by linarith)
  have s3 := (s2.sadd a3' (B := 6.6 * r) (fun i hi _ => by linarith [m3 i hi]) (by linarith) (by linarith)).mono (δ' := 550 * G) (by linarith)
  have s4 := (s3.sadd a4' (B := 11 * r) (fun i hi _ => by linarith [m4 i hi]) (by linarith) (by linarith)).mono (δ' := 925 * G) (by linarith)
  have s5 := (s4.cmul lit100k (B := 1100 * r) (fun i hi _ => by rw [abs_of_pos (by norm_num : (0 : K) < 100)]; linarith [m4 i hi]) (by linarith) (by linarith)).mono (δ' := 93700 * G)
    (by rw [abs_of_pos (by norm_num : (0 : K) < 100)]; linarith)
  have D := (((b1.sadd (b2.cmul 2)).sadd (b3.cmul 3)).sadd (b4.cmul 4)).cmul 100
  refine ⟨_, _, ?_, s5, ?_, fun i hi => ?_⟩
  · rintro rfl; rfl
  · unfold KST.run
    simp only [lit_fin]
    push_cast
    exact D
  · rw [abs_mul, abs_of_pos (by norm_num : (0 : K) < 100)]
    linarith [m4 i hi]

/-- C127: **KST in double precision**: line, signal and histogram, on closes between `m` and `r m`. -/
theorem kst_double (hσ : SumsIn σ n d) (hd : d ≤ 2 ^ 40) (hn : n ≤ 2 ^ 40) (hc : ∀ i, i < n → m ≤ c i ∧ c i ≤ r * m) (hm : tiny ≤ m) (hr : 1 ≤ r) (hM2 : 2 * (r * m) ≤ huge)
    (hr2 : 1000 * (((n : K) + d + 1) * eps * r ^ 2) ≤ 1) (r1 r2 r3 r4 : Nat) {w1 w2 w3 w4 nsig : Nat} (h1 : 1 ≤ w1) (h2 : 1 ≤ w2) (h3 : 1 ≤ w3) (h4 : 1 ≤ w4) (hs : 1 ≤ nsig)
    (fillna : Bool) :
    CloseTo (93700 * (((n : K) + d + 1) * eps * r ^ 2)) (kstPandas σ (dser n c) r1 r2 r3 r4 w1 w2 w3 w4 fillna) (kst (ser n c) r1 r2 r3 r4 w1 w2 w3 w4 fillna) ∧
    CloseTo (187000 * (((n : K) + d + 1) * eps * r ^ 2)) (kstSigPandas σ (dser n c) r1 r2 r3 r4 w1 w2 w3 w4 nsig fillna) (kstSig (ser n c) r1 r2 r3 r4 w1 w2 w3 w4 nsig fillna) ∧
    CloseTo (286000 * (((n : K) + d + 1) * eps * r ^ 2)) (kstDiffPandas σ (dser n c) r1 r2 r3 r4 w1 w2 w3 w4 nsig fillna) (kstDiff (ser n c) r1 r2 r3 r4 w1 w2 w3 w4 nsig fillna) := by
  obtain ⟨p, L, hp, A, D, hL⟩ := kst_run_near hσ hd hn hc hm hr hM2 hr2 r1 r2 r3 r4 h1 h2 h3 h4 fillna
  have he := eps_pos (K := K)
  have d0 : (0 : K) ≤ d := Nat.cast_nonneg _
  have n0 : (0 : K) ≤ n := Nat.cast_nonneg _
  have hr0 : 0 < r := by linarith
  have ner : n * (eps * r) + eps * r ≤ ((n : K) + d + 1) * eps * r ^ 2 := by
    have a : eps * r ≤ eps * r ^ 2 := mul_le_mul_of_nonneg_left (by nlinarith) he.le
    have a' := mul_le_mul_of_nonneg_left a n0
    have b : 0 ≤ (d : K) * (eps * r ^ 2) := by positivity
    linarith
  have er0 : 0 < eps * r := mul_pos he hr0
  have nr0 : 0 ≤ n * (eps * r) := mul_nonneg n0 er0.le
  unfold kstPandas kstSigPandas kstDiffPandas kst kstSig kstDiff KST.sig
  dsimp only
  generalize KST.runPandas σ (dser n c) r1 r2 r3 r4 w1 w2 w3 w4 fillna = s at A
  generalize KST.run (ser n c) r1 r2 r3 r4 w1 w2 w3 w4 fillna = t at D
  generalize ((n : K) + d + 1) * eps * r ^ 2 = G at *
  have t1 := tiny_le_one (K := K)
  have rc : 1000 * r ≤ huge := ratio_huge (by linarith)
  have hcap := huge_cap (K := K)
  have h2 : 4000 * r ≤ huge := ratio_huge4 (by linarith)
  have S := (A.onlineMean0 (M := 1000 * r) (by linarith) (fun i hi _ => hL i hi) (by linarith) (by linarith) (hn.trans (by norm_num)) hs).mono (δ' := 187000 * G) (by
    have e1 : eps * (1000 * r + 93700 * G) ≤ 1094 * (eps * r) := by
      have := mul_le_mul_of_nonneg_left (by linarith : 1000 * r + 93700 * G ≤ 1094 * r) he.le
      linarith
    have e2 := mul_le_mul_of_nonneg_left e1 (by linarith : 0 ≤ 85 * (n : K))
    linarith)
  have T := D.rollMean0 hs
  have hS : ∀ i, i < n → p ≤ i → |wsum L (min nsig (i + 1 - p)) i / (min nsig (i + 1 - p) : ℕ)| ≤ 1000 * r := fun i hi g => by
    have q : (0 : K) < (min nsig (i + 1 - p) : ℕ) := by exact_mod_cast (by omega : 0 < min nsig (i + 1 - p))
    rw [abs_div, abs_of_pos q, div_le_iff₀ q, mul_comm]
    unfold wsum
    exact abs_window (n := n) (fun j hj => hL j hj) (by omega) (by linarith) (by omega)
  have U := (A.sub S (M := 2300 * r) (fun i hi g => by
    have x1 := hL i hi
    have x2 := hS i hi (by omega)
    have x3 := abs_sub (L i) (wsum L (min nsig (i + 1 - p)) i / (min nsig (i + 1 - p) : ℕ))
    linarith) (by linarith) (by linarith)).mono (δ' := 286000 * G) (by linarith)
  have V := D.ssub T
  rw [max_self] at U V
  exact ⟨(A.fillOr hp _).close (D.fillOr hp _), (S.fillOr hp _).close (T.fillOr hp _), (U.fillOr hp _).close (V.fillOr hp _)⟩

end kst

end dbl

example : dpoNumpy npSum (dser 6 wavy) 3 true = ([rk (3 / 2), rk 1, rk (-1 / 2), rk (-1 / 2), rk (-3 / 2), rk (1 / 2)] : Series (Double ℚ)) := by decide +kernel
example : dpo (ser 6 wavy) 3 true = [.fin (3 / 2), .fin 1, .fin (-1 / 2), .fin (-1 / 2), .fin (-3 / 2), .fin (1 / 2)] := by decide +kernel
example : trixNumpy npSum (dser 4 wavy) 2 true = ([rk (-5298352502788841 / 1125899906842624), rk (208499982748635 / 70368744177664), rk (1619999865960617 / 1125899906842624),
    rk (4258723051886993 / 562949953421312)] : Series (Double ℚ)) := by decide +kernel
example : trix (ser 4 wavy) 2 true = .ok [.fin (-80 / 17), .fin (80 / 27), .fin (200 / 139), .fin (3200 / 423)] := by decide +kernel
example : kstPandas npSum (dser 4 wavy) 1 1 2 3 1 2 2 2 false
    = ([Val.nan, rk (-4143058645965835 / 140737488355328), rk (-7610462342728359 / 1125899906842624), rk (8909412405342491 / 70368744177664)] : Series (Double ℚ)) := by decide +kernel
example : kst (ser 4 wavy) 1 1 2 3 1 2 2 2 false = [.nan, .fin (-2620 / 89), .fin (-13235 / 1958), .fin (5205965 / 41118)] := by decide +kernel
example : kstDiffPandas npSum (dser 4 wavy) 1 1 2 3 1 2 2 2 2 false
    = ([Val.nan, rk 0, rk (1595875426562395 / 140737488355328), rk (4692533150881507 / 70368744177664)] : Series (Double ℚ)) := by decide +kernel
example : kstDiff (ser 4 wavy) 1 1 2 3 1 2 2 2 2 false = [.nan, .fin 0, .fin (44405 / 3916), .fin (1370975 / 20559)] := by decide +kernel

/-- the bound for KST with its default windows, for ten years of daily `zigzag`: less than `10^-6` for line, signal and histogram -/
example : CloseTo (1 / 10 ^ 6 : ℚ) (kstPandas npSum (dser 2520 zigzag) 10 15 20 30 10 10 10 15 false) (kst (ser 2520 zigzag) 10 15 20 30 10 10 10 15 false) ∧
    CloseTo (1 / 10 ^ 6 : ℚ) (kstSigPandas npSum (dser 2520 zigzag) 10 15 20 30 10 10 10 15 9 false) (kstSig (ser 2520 zigzag) 10 15 20 30 10 10 10 15 9 false) ∧
    CloseTo (1 / 10 ^ 6 : ℚ) (kstDiffPandas npSum (dser 2520 zigzag) 10 15 20 30 10 10 10 15 9 false) (kstDiff (ser 2520 zigzag) 10 15 20 30 10 10 10 15 9 false) := by
  have hu : (eps : ℚ) = 1 / 2 ^ 53 := by unfold eps; norm_num
  obtain ⟨a, b, c⟩ := kst_double (K := ℚ) (n := 2520) (c := zigzag) (m := 1) (r := 2) (npSum_sumsIn (s := 5) (by norm_num)) (by norm_num) (by norm_num)
    (fun i _ => by unfold zigzag; split_ifs <;> norm_num) tiny_le_one (by norm_num)
    (by
      have h1 : (2 : ℚ) ^ (2 : ℤ) ≤ 2 ^ (900 : ℤ) := zpow_le_zpow_right₀ (by norm_num) (by norm_num)
      unfold huge
      exact le_trans (by norm_num) h1) (by rw [hu]; norm_num) 10 15 20 30 (w1 := 10) (w2 := 10) (w3 := 10) (w4 := 15) (nsig := 9)
    (by norm_num) (by norm_num) (by norm_num) (by norm_num) (by norm_num) false
  exact ⟨a.mono (by rw [hu]; norm_num), b.mono (by rw [hu]; norm_num), c.mono (by rw [hu]; norm_num)⟩

end TA
