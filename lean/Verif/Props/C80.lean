import Verif.Lemmas.Error
import Verif.Props.C40
import Verif.Props.C27
import Verif.Lemmas.Toy

/-!
# C80: rounding errors of EMA, MACD and ATR do not build up

The same call is evaluated twice on the same data: with every operation rounded to double precision (`binary64`) and
exactly.  The two results differ by a multiple of `2^-53` that depends on the windows and on the size of the data, not on
the number of rows.  The loops of EMA (pandas' `ewma` kernel) and ATR (Python) are evaluated in the order the code uses;
the mean that starts ATR is summed left to right.
-/

set_option linter.unusedSectionVars false

namespace TA
variable {K : Type} [Field K] [LinearOrder K] [IsStrictOrderedRing K] [FloorRing K]

/-- double precision -/
abbrev Double (K : Type) [Field K] [LinearOrder K] [IsStrictOrderedRing K] [FloorRing K] : Type :=
  Rval (binary64 : Rounding K)

/-- the numbers `x 0 … x (n-1)` as a column of doubles -/
abbrev dser (n : Nat) (x : Nat → K) : Series (Double K) := rser n x

/-- Same rows; NaN in the same places, and elsewhere both are numbers at most `ε` apart. -/
def CloseTo (ε : K) (s : Series (Double K)) (t : Series (Val K)) : Prop :=
  s.length = t.length ∧ ∀ i, i < t.length →
    (ix s i = Val.nan ∧ ix t i = .nan) ∨ ∃ y z : K, ix s i = Val.fin y ∧ ix t i = .fin z ∧ |y - z| ≤ ε

theorem Approx.close {s : Series (Double K)} {n p : Nat} {f : Nat → K} {δ : K} (h : Approx s n p f δ)
    {t : Series (Val K)} (ht : Def t n p f) : CloseTo δ s t := by
  refine ⟨h.len.trans ht.len.symm, fun i hi => ?_⟩
  rw [ht.len] at hi
  by_cases hp : i < p
  · exact .inl ⟨h.gap i hi hp, ht.gap i hi hp⟩
  · obtain ⟨y, y1, y2⟩ := h.val i hi (by omega)
    exact .inr ⟨y, _, y1, ht.val i hi (by omega), y2⟩

theorem Approx.fill {s : Series (Double K)} {n : Nat} {f : Nat → K} {δ : K} (h : Approx s n 0 f δ) (b : Bool)
    (v : Fill (Double K)) : Approx (checkFillna b v s) n 0 f δ := by
  cases b with
  | false => exact h
  | true =>
    refine ⟨by simpa using h.len, fun i _ h2 => by omega, fun i hi h2 => ?_⟩
    obtain ⟨y, y1, y2⟩ := h.val i hi h2
    refine ⟨y, ?_, y2⟩
    have := checkFillna_keep (F := Val K) (s := s) (v := v) (i := i) (lt_of_lt_of_eq hi h.len.symm) (num_iff.mpr ⟨y, y1⟩)
    exact Eq.trans this y1

/-! ## constants -/

/-- unit roundoff of double precision, `2^-53` -/
def eps : K := 2 ^ (-53 : ℤ)

/-- `2^-900`; data may be smaller, bounds may not -/
def tiny : K := 2 ^ (-900 : ℤ)
/-- `2^900` -/
def huge : K := 2 ^ (900 : ℤ)
/-- `2^1000` -/
def cap : K := 2 ^ (1000 : ℤ)

theorem tiny_pos : (0 : K) < tiny := two_zpow_pos _

theorem huge_cap : 100 * (huge : K) ≤ cap := by
  have e : (cap : K) = 2 ^ (100 : ℤ) * huge := by
    unfold cap huge
    rw [← zpow_add₀ (by norm_num)]; norm_num only
  rw [e]
  refine mul_le_mul_of_nonneg_right ?_ (two_zpow_pos _).le
  have : (2 : K) ^ (7 : ℤ) ≤ 2 ^ (100 : ℤ) := zpow_le_zpow_right₀ (by norm_num) (by norm_num)
  exact le_trans (by norm_num) this

theorem eps_pos : (0 : K) < eps := two_zpow_pos _

theorem eps_small : (eps : K) ≤ 1 / 1000 := by
  have : (2 : K) ^ (-53 : ℤ) ≤ 2 ^ (-10 : ℤ) := zpow_le_zpow_right₀ (by norm_num) (by norm_num)
  refine this.trans ?_
  norm_num

theorem eta_le {M : K} (h1 : tiny ≤ M) : (2 : K) ^ (-1075 : ℤ) ≤ eps * M / 1000 := by
  unfold tiny at h1
  have h2 : (2 : K) ^ (-1075 : ℤ) = eps * 2 ^ (-900 : ℤ) * 2 ^ (-122 : ℤ) := by
    unfold eps
    rw [← zpow_add₀ (by norm_num), ← zpow_add₀ (by norm_num)]; norm_num only
  have h3 : (2 : K) ^ (-122 : ℤ) ≤ 1 / 1000 := by
    have : (2 : K) ^ (-122 : ℤ) ≤ 2 ^ (-10 : ℤ) := zpow_le_zpow_right₀ (by norm_num) (by norm_num)
    exact this.trans (by norm_num)
  have h4 : eps * 2 ^ (-900 : ℤ) ≤ eps * M := mul_le_mul_of_nonneg_left h1 eps_pos.le
  have hp := two_zpow_pos (K := K) (-900)
  have h0 := eps_pos (K := K)
  calc (2 : K) ^ (-1075 : ℤ) = eps * 2 ^ (-900 : ℤ) * 2 ^ (-122 : ℤ) := h2
    _ ≤ eps * M * (1 / 1000) := mul_le_mul h4 h3 (two_zpow_pos _).le ((mul_pos h0 hp).le.trans h4)
    _ = eps * M / 1000 := by ring

theorem eta_le1 : (2 : K) ^ (-1075 : ℤ) ≤ eps / 1000 := by
  have := eta_le (K := K) (M := 1) (by
    have : (2 : K) ^ (-900 : ℤ) ≤ 2 ^ (0 : ℤ) := zpow_le_zpow_right₀ (by norm_num) (by norm_num)
    rwa [zpow_zero] at this)
  rwa [mul_one] at this

theorem big_le {M : K} (hM : M ≤ cap) : 1000 * M ≤ (2 : K) ^ (1023 : ℤ) := by
  have h1 : (2 : K) ^ (1023 : ℤ) = 2 ^ (23 : ℤ) * 2 ^ (1000 : ℤ) := by
    rw [← zpow_add₀ (by norm_num)]; norm_num only
  have h2 : (1000 : K) ≤ 2 ^ (23 : ℤ) := by norm_num
  have hp := two_zpow_pos (K := K) 1000
  rw [h1]
  exact (mul_le_mul_of_nonneg_left hM (by norm_num)).trans (mul_le_mul_of_nonneg_right h2 hp.le)

theorem big4 : (4 : K) ≤ 2 ^ (1023 : ℤ) := by
  have : (2 : K) ^ (2 : ℤ) ≤ 2 ^ (1023 : ℤ) := zpow_le_zpow_right₀ (by norm_num) (by norm_num)
  refine le_trans ?_ this
  norm_num

theorem eps_win {w : Nat} (hw : w ≤ 2 ^ 40) : 1000 * eps * ((w : K) + 1) ≤ 1 := by
  have h1 : ((w : K) + 1) ≤ 2 ^ (41 : ℤ) := by
    have : (w : K) ≤ 2 ^ 40 := by exact_mod_cast hw
    have h1 : (1 : K) ≤ 2 ^ 40 := one_le_pow₀ (by norm_num)
    rw [show (2 : K) ^ (41 : ℤ) = 2 ^ 40 + 2 ^ 40 by norm_num]
    exact add_le_add this h1
  have h2 : (1000 : K) * eps * 2 ^ (41 : ℤ) ≤ 1 := by
    have e : (eps : K) * 2 ^ (41 : ℤ) = 2 ^ (-12 : ℤ) := by
      unfold eps; rw [← zpow_add₀ (by norm_num)]; norm_num only
    rw [mul_assoc, e]; norm_num
  have h0 := eps_pos (K := K)
  exact (mul_le_mul_of_nonneg_left h1 (by positivity)).trans h2

/-! ## EMA -/

theorem natF_double {w : Nat} (hw : w ≤ 2 ^ 52) : (natF w : Double K) = rk (w : K) := by
  have := b64_int (K := K) (k := (w : ℤ)) (by rw [abs_of_nonneg (by omega)]; exact_mod_cast hw)
  show (binary64 : Rounding K).rd (((w : ℚ)) : K) = Val.fin (w : K)
  simpa using this

/-- the smoothing factor of a span, in double precision -/
theorem alpha_double {w : Nat} (hw : 1 ≤ w) (hw2 : w ≤ 2 ^ 40) :
    ∃ a : K, (alphaOfSpan w : Double K) = rk a ∧ 0 ≤ a ∧ a ≤ 1 ∧ |a - 2 / ((w : K) + 1)| ≤ 2 * eps := by
  have hp : (0 : K) < (w : K) + 1 := by positivity
  have h1 : (lit 1 : Double K) = rk 1 := lit1
  have h2 : (lit 2 : Double K) = rk 2 := by
    have := natF_double (K := K) (w := 2) (by norm_num)
    unfold natF at this
    simpa using this
  have h3 : (rk (w : K) -. rk 1 : Double K) = rk ((w : K) - 1) := by
    have := b64_int (K := K) (k := (w : ℤ) - 1) (by rw [abs_of_nonneg (by omega)]; omega)
    show (binary64 : Rounding K).rd ((w : K) + -1) = Val.fin ((w : K) - 1)
    rw [← sub_eq_add_neg]
    simpa using this
  have h4 : (rk ((w : K) - 1) /. rk 2 : Double K) = rk (((w : K) - 1) / 2) := by
    have := b64_half (K := K) (k := (w : ℤ) - 1) (by rw [abs_of_nonneg (by omega)]; omega)
    have e : Val.div (.fin ((w : K) - 1)) (.fin 2) = .fin (((w : K) - 1) / 2) := fin_div _ _ (by norm_num)
    show (binary64 : Rounding K).rnd (Val.div (.fin ((w : K) - 1)) (.fin 2)) = _
    rw [e]
    show (binary64 : Rounding K).rd _ = Val.fin _
    simpa using this
  have h5 : (rk 1 +. rk (((w : K) - 1) / 2) : Double K) = rk (((w : K) + 1) / 2) := by
    have := b64_half (K := K) (k := (w : ℤ) + 1) (by rw [abs_of_nonneg (by omega)]; omega)
    show (binary64 : Rounding K).rd (1 + ((w : K) - 1) / 2) = Val.fin _
    rw [show 1 + ((w : K) - 1) / 2 = ((w : K) + 1) / 2 by ring]
    simpa using this
  have hal : 1 / (((w : K) + 1) / 2) = 2 / ((w : K) + 1) := by field_simp
  have ha1 : 2 / ((w : K) + 1) ≤ 1 := by
    rw [div_le_one hp]
    have : (1 : K) ≤ w := by exact_mod_cast hw
    linarith
  have ha0 : 0 ≤ 2 / ((w : K) + 1) := by positivity
  obtain ⟨z, z1, z2⟩ := acc_div (b64_acc (K := K)) (x := 1) (y := ((w : K) + 1) / 2) (by positivity)
    (by rw [hal, abs_of_nonneg ha0]; exact ha1.trans (le_trans (by norm_num) (big4 (K := K))))
  have hz : (alphaOfSpan w : Double K) = rk z := by
    unfold alphaOfSpan
    rw [natF_double (by omega), h1, h2, h3, h4, h5, z1]
  have hm : In 0 1 (alphaOfSpan w : Double K) := spanAlpha_mem hw
  rw [hz] at hm
  obtain ⟨m1, m2⟩ := mem_iff.mp (show Mem 0 1 (Val.fin z) from hm)
  refine ⟨z, hz, ge_fin.mp m1, le_fin.mp m2, ?_⟩
  rw [hal, abs_of_nonneg ha0] at z2
  refine z2.trans ?_
  have := mul_le_mul_of_nonneg_left ha1 (eps_pos (K := K)).le
  have := eta_le1 (K := K)
  have := eps_pos (K := K)
  unfold eps at *
  linarith

theorem Approx.ema {s : Series (Double K)} {n p : Nat} {f : Nat → K} {δ M : K} {w : Nat} (hw : 1 ≤ w) (hw2 : w ≤ 2 ^ 40)
    (hδ : 0 ≤ δ) (h : Approx s n p f δ) (hf : ∀ i, i < n → p ≤ i → |f i| ≤ M) (hM : tiny ≤ M)
    (hM2 : M + δ ≤ cap) (fillna : Bool) :
    Approx (TA.ema s w fillna) n (p + if fillna then 0 else w - 1)
      (fun i => emaRec (2 / ((w : K) + 1)) (fun j => f (p + j)) (i - p))
      (δ + 20 * ((w : K) + 1) * eps * (M + δ)) := by
  obtain ⟨a, a1, a2, a3, a4⟩ := alpha_double (K := K) hw hw2
  have hp : (0 : K) < (w : K) + 1 := by positivity
  have hw1 : (1 : K) ≤ w := by exact_mod_cast hw
  have hu := eps_pos (K := K)
  have hM0 : 0 ≤ M := tiny_pos.le.trans hM
  have hal1 : 2 / ((w : K) + 1) ≤ 1 := by rw [div_le_one hp]; linarith
  have hal2 : 40 * eps ≤ 2 / ((w : K) + 1) := by
    rw [le_div_iff₀ hp]
    have := eps_win (K := K) hw2
    have : 0 ≤ eps * ((w : K) + 1) := by positivity
    linarith
  have hη := eta_le (K := K) (M := M + δ) (by linarith)
  have hb := big_le hM2
  have := Approx.ewm (b64_acc (K := K)) (show (0 : K) < 2 ^ (-53 : ℤ) from hu) eps_small (two_zpow_pos _).le eta_le1 big4
    (a := 2 / ((w : K) + 1)) (by positivity) hal1 hal2 a2 a3
    (a4.trans (mul_le_mul_of_nonneg_right (by norm_num) hu.le)) hδ h hM0 hf
    (hη.trans (by
      have : 0 ≤ eps * (M + δ) := by positivity
      show eps * (M + δ) / 1000 ≤ eps * (M + δ) / 500
      linarith)) (le_trans (by linarith : 8 * (M + δ) ≤ 1000 * (M + δ)) hb) (minp fillna w)
  unfold TA.ema
  rw [a1]
  have e1 : p + max (minp fillna w) 1 - 1 = p + if fillna then 0 else w - 1 := by
    unfold minp; cases fillna <;> simp; omega
  rw [e1] at this
  refine this.mono (le_of_eq ?_)
  show δ + 40 * eps * (M + δ) / (2 / ((w : K) + 1)) = _
  field_simp
  ring

/-- C80: the EMA computed in double precision is within `20 (w+1) 2^-53 M` of the exact one, on every row and however
many rows there are; `M` bounds the data. -/
theorem ema_double (n : Nat) (x : Nat → K) {w : Nat} (hw : 1 ≤ w) (hw2 : w ≤ 2 ^ 40) (fillna : Bool) {M : K}
    (hx : ∀ i, i < n → |x i| ≤ M) (hM : tiny ≤ M) (hM2 : M ≤ huge) :
    ∃ (out : Series (Double K)) (exact : Series (Val K)),
      emaIndicator (dser n x) w fillna = .ok out ∧ emaIndicator (ser n x) w fillna = .ok exact ∧
      CloseTo (20 * ((w : K) + 1) * eps * M) out exact := by
  have h := (approx_ser (R := binary64) n x).ema hw hw2 (le_refl _) (fun i hi _ => hx i hi) hM (by linarith [huge_cap (K := K), tiny_pos (K := K)]) fillna
  have hd := (def_ser n x).ema0 hw fillna
  refine ⟨_, _, by rw [emaIndicator_eq, if_neg (by omega)], by rw [emaIndicator_eq, if_neg (by omega)], ?_⟩
  have := (h.congr (g := fun i => emaRec (2 / ((w : K) + 1)) x i) fun i _ _ => by simp).close
    (t := TA.ema (ser n x) w fillna) (by
      unfold emaW at hd
      simpa using hd)
  simpa using this

/-! ## MACD -/

theorem Approx.sub {s t : Series (Double K)} {n p q : Nat} {f g : Nat → K} {δ ε M : K} (hs : Approx s n p f δ)
    (ht : Approx t n q g ε) (hB : ∀ i, i < n → max p q ≤ i → |f i - g i| + δ + ε ≤ M) (hM : tiny ≤ M)
    (hM2 : M ≤ cap) :
    Approx (TA.ssub s t) n (max p q) (fun i => f i - g i) (δ + ε + 2 * eps * M) := by
  have hM0 : 0 ≤ M := tiny_pos.le.trans hM
  have hb := big_le hM2
  have hη := eta_le (K := K) hM
  have hu := eps_pos (K := K)
  have h0 : 0 ≤ eps * M := by positivity
  refine (hs.ssub b64_acc (show (0 : K) ≤ 2 ^ (-53 : ℤ) from hu.le) ht hB
    (le_trans (by linarith : M ≤ 1000 * M) hb)).mono ?_
  show δ + ε + eps * M + 2 ^ (-1075 : ℤ) ≤ _
  linarith

/-- C80: MACD in double precision; all three lines. -/
theorem macd_double (n : Nat) (x : Nat → K) {slow fast sign : Nat} (h1 : 1 ≤ slow) (h2 : 1 ≤ fast) (h3 : 1 ≤ sign)
    (q1 : slow ≤ 2 ^ 40) (q2 : fast ≤ 2 ^ 40) (q3 : sign ≤ 2 ^ 40) (fillna : Bool) {M : K}
    (hx : ∀ i, i < n → |x i| ≤ M) (hM : tiny ≤ M) (hM2 : M ≤ huge) :
    ∃ (o : MACD (Double K)) (e : MACD (Val K)),
      MACD.new (dser n x) slow fast sign fillna = .ok o ∧ MACD.new (ser n x) slow fast sign fillna = .ok e ∧
      CloseTo (20 * ((slow : K) + fast + 3) * eps * M) o.macd e.macd ∧
      CloseTo (20 * ((slow : K) + fast + 3 * sign + 6) * eps * M) o.macdSignal e.macdSignal ∧
      CloseTo (20 * (2 * slow + 2 * fast + 3 * sign + 10 : K) * eps * M) o.macdDiff e.macdDiff := by
  have hg : ∀ {w : Nat}, ¬ (w < 1) ↔ 1 ≤ w := by omega
  have hne : ¬ (slow < 1 ∨ fast < 1 ∨ sign < 1) := by omega
  have hMb := huge_cap (K := K)
  have hM0 : 0 < M := tiny_pos.trans_le hM
  have hu := eps_pos (K := K)
  have w1 := eps_win (K := K) q1
  have w2 := eps_win (K := K) q2
  have w3 := eps_win (K := K) q3
  have v1 : 20 * ((slow : K) + 1) * eps * M ≤ M / 50 := by
    have := mul_le_mul_of_nonneg_right w1 hM0.le
    linarith
  have v2 : 20 * ((fast : K) + 1) * eps * M ≤ M / 50 := by
    have := mul_le_mul_of_nonneg_right w2 hM0.le
    linarith
  have v3 : 60 * ((sign : K) + 1) * eps * M ≤ M / 10 := by
    have := mul_le_mul_of_nonneg_right w3 hM0.le
    linarith
  have v4 : 0 < eps * M := mul_pos hu hM0
  have v5 : 20 * eps * M ≤ M / 50 := by
    have := mul_le_mul_of_nonneg_right (eps_small (K := K)) hM0.le
    linarith
  have b1 : ∀ i, i < n → |emaW fast x i| ≤ M := fun i hi =>
    emaRec_abs (by positivity) (by rw [div_le_one (by positivity)]; exact_mod_cast (by omega)) fun j hj => hx j (by omega)
  have b2 : ∀ i, i < n → |emaW slow x i| ≤ M := fun i hi =>
    emaRec_abs (by positivity) (by rw [div_le_one (by positivity)]; exact_mod_cast (by omega)) fun j hj => hx j (by omega)
  have aF := ((approx_ser (R := binary64) n x).ema h2 q2 (le_refl _) (fun i hi _ => hx i hi) hM (by linarith) fillna).congr
    (g := emaW fast x) fun i _ _ => by unfold emaW; simp
  have aS := ((approx_ser (R := binary64) n x).ema h1 q1 (le_refl _) (fun i hi _ => hx i hi) hM (by linarith) fillna).congr
    (g := emaW slow x) fun i _ _ => by unfold emaW; simp
  rw [Nat.zero_add, zero_add, add_zero] at aF aS
  have bL : ∀ i, i < n → |emaW fast x i - emaW slow x i| ≤ 2 * M := fun i hi => by
    have := abs_sub (emaW fast x i) (emaW slow x i)
    linarith [b1 i hi, b2 i hi]
  have aL := (aF.sub aS (M := 3 * M) (fun i hi _ => by linarith [bL i hi]) (by linarith) (by linarith)).mono
    (δ' := 20 * ((slow : K) + fast + 3) * eps * M) (by linarith)
  have aG := ((aL.ema h3 q3 (by positivity) (fun i hi _ => bL i hi) (by linarith) (by linarith) fillna)).mono
    (δ' := 20 * ((slow : K) + fast + 3 * sign + 6) * eps * M) (by
      have k1 : 2 * M + 20 * ((slow : K) + fast + 3) * eps * M ≤ 3 * M := by linarith
      have k2 := mul_le_mul_of_nonneg_left k1 (by positivity : 0 ≤ 20 * ((sign : K) + 1) * eps)
      linarith)
  have aD := (aL.sub aG (M := 5 * M) (fun i hi hp => by
      have k1 := bL i hi
      have k2 : |emaW sign (fun j => emaW fast x (max (if fillna then 0 else fast - 1) (if fillna then 0 else slow - 1) + j)
          - emaW slow x (max (if fillna then 0 else fast - 1) (if fillna then 0 else slow - 1) + j))
          (i - max (if fillna then 0 else fast - 1) (if fillna then 0 else slow - 1))| ≤ 2 * M :=
        emaRec_abs (by positivity) (by rw [div_le_one (by positivity)]; exact_mod_cast (by omega))
          fun j hj => bL _ (by omega)
      have k3 := abs_sub (emaW fast x i - emaW slow x i) (emaW sign (fun j => emaW fast x (max (if fillna then 0 else fast - 1)
          (if fillna then 0 else slow - 1) + j) - emaW slow x (max (if fillna then 0 else fast - 1) (if fillna then 0 else
          slow - 1) + j)) (i - max (if fillna then 0 else fast - 1) (if fillna then 0 else slow - 1)))
      refine le_trans (add_le_add (add_le_add_left k3 _) (le_refl _)) ?_
      linarith) (by linarith) (by linarith)).mono
    (δ' := 20 * (2 * slow + 2 * fast + 3 * sign + 10 : K) * eps * M) (by linarith)
  have hF := (def_ser n x).ema0 h2 fillna
  have hS := (def_ser n x).ema0 h1 fillna
  have hL := hF.ssub hS
  have hG := hL.ema h3 fillna
  have hD := hL.ssub hG
  refine ⟨_, _, by rw [MACD.new_eq, if_neg hne], by rw [MACD.new_eq, if_neg hne], ?_⟩
  cases fillna with
  | true =>
    simp only [if_true, Nat.add_zero, max_self] at aL aG aD hL hG hD
    exact ⟨(aL.fill _ _).close (hL.fill _ _), (aG.fill _ _).close (hG.fill _ _), (aD.fill _ _).close (hD.fill _ _)⟩
  | false => exact ⟨aL.close hL, aG.close hG, aD.close hD⟩

/-! ## ATR -/

theorem abs_max_sub {a b c d e : K} (h1 : |a - c| ≤ e) (h2 : |b - d| ≤ e) : |max a b - max c d| ≤ e := by
  rw [abs_le] at *
  rcases max_cases a b with ⟨q, _⟩ | ⟨q, _⟩ <;> rcases max_cases c d with ⟨r, _⟩ | ⟨r, _⟩ <;> rw [q, r] <;>
    constructor <;> linarith [h1.1, h1.2, h2.1, h2.2]

theorem maxL3 (a b c : K) : (maxL [rk a, rk b, rk c] : Double K) = rk (max (max a b) c) := by
  have h : ∀ a b : K, (if ((rk a : Double K) <. rk b) then rk b else rk a : Double K) = rk (max a b) := by
    intro a b
    show (if decide (a < b) = true then rk b else rk a : Double K) = _
    by_cases hab : a < b
    · rw [if_pos (by simpa using hab), max_eq_right hab.le]
    · rw [if_neg (by simpa using hab), max_eq_left (not_lt.mp hab)]
  show (if (if ((rk a : Double K) <. rk b) then rk b else rk a : Double K) <. rk c then rk c
    else (if ((rk a : Double K) <. rk b) then rk b else rk a : Double K)) = _
  rw [h, h]

theorem max3_eq (h l p : K) (hl : l ≤ h) : max (max (h - l) |h - p|) |l - p| = max h p - min l p := by
  have := tr_fin h l p hl
  have e : valid [Val.fin h -. Val.fin l, Flt.abs (Val.fin h -. Val.fin p), Flt.abs (Val.fin l -. Val.fin p)]
      = ((h - l) :: [|h - p|, |l - p|]).map Val.fin := by
    simp [valid]
  rw [e, maxL_fin] at this
  exact Val.fin.inj this

theorem approx_tr (n : Nat) (h l c : Nat → K) (hlh : ∀ i, i < n → l i ≤ h i) {T : K} (hT : tiny ≤ T) (hT2 : T ≤ huge)
    (hb : ∀ i, i < n → tr0 h l c i ≤ T) :
    Approx (trueRange (dser n h) (dser n l) (shift (dser n c) 1)) n 0 (tr0 h l c) (2 * eps * T) := by
  have hΩ : T ≤ 2 ^ (1023 : ℤ) := by
    have h1 : T ≤ cap := by linarith [huge_cap (K := K), tiny_pos (K := K)]
    have h2 := big_le h1
    have : T ≤ 1000 * T := by linarith [tiny_pos (K := K)]
    exact this.trans h2
  have key : ∀ x y : K, |x - y| ≤ T → ∃ z, (rk x -. rk y : Double K) = rk z ∧ |z - (x - y)| ≤ 2 * eps * T := by
    intro x y hxy
    obtain ⟨z, z1, _, z2⟩ := acc_sub (b64_acc (K := K)) (hxy.trans hΩ)
    refine ⟨z, z1, z2.trans ?_⟩
    have k1 := mul_le_mul_of_nonneg_left hxy (eps_pos (K := K)).le
    have k2 := eta_le hT
    have k3 : 0 ≤ eps * T := mul_nonneg eps_pos.le (tiny_pos.le.trans hT)
    show eps * |x - y| + 2 ^ (-1075 : ℤ) ≤ _
    linarith
  have abs_rv : ∀ x : K, (Flt.abs (rk x) : Double K) = rk |x| := fun _ => rfl
  have num_rv : ∀ x : K, Flt.isNaN (rk x : Double K) = false := fun _ => rfl
  refine ⟨by simp [trueRange, rser], fun i _ h => by omega, fun i hi _ => ?_⟩
  have ht := hb i hi
  unfold tr0 at ht ⊢
  unfold trueRange
  rw [ix_zip3 (by simpa [rser] using hi)]
  have eh : ix (dser n h) i = rk (h i) := ix_tab_lt hi
  have el : ix (dser n l) i = rk (l i) := ix_tab_lt hi
  have ec : ix (shift (dser n c) 1) i = if i = 0 then nan else rk (c (i - 1)) := by
    rw [ix_shift (by simpa [rser] using hi)]
    by_cases h0 : i = 0
    · rw [if_pos (by omega), if_pos h0]
    · rw [if_neg (by omega), if_neg h0]
      exact ix_tab_lt (by omega)
  rw [eh, el, ec]
  have hlh := hlh i hi
  by_cases h0 : i = 0
  · rw [if_pos h0] at ht ⊢
    rw [if_pos h0]
    subst h0
    obtain ⟨z, z1, z2⟩ := key (h 0) (l 0) (by rw [abs_of_nonneg (by linarith)]; exact ht)
    refine ⟨z, ?_, z2⟩
    rw [z1]; rfl
  · rw [if_neg h0] at ht ⊢
    rw [if_neg h0]
    generalize c (i - 1) = p at *
    rw [← max3_eq _ _ _ hlh] at ht ⊢
    have q1 := (le_max_left _ _).trans ((le_max_left _ _).trans ht)
    have q2 := (le_max_right _ _).trans ((le_max_left _ _).trans ht)
    have q3 := (le_max_right _ _).trans ht
    obtain ⟨z, z1, z2⟩ := key (h i) (l i) (by rw [abs_of_nonneg (by linarith)]; exact q1)
    obtain ⟨y, y1, y2⟩ := key (h i) p q2
    obtain ⟨x, x1, x2⟩ := key (l i) p q3
    refine ⟨max (max z |y|) |x|, ?_, ?_⟩
    · rw [z1, y1, x1, abs_rv, abs_rv]
      exact maxL3 _ _ _
    · refine abs_max_sub (abs_max_sub z2 ?_) ?_
      · exact (abs_abs_sub_abs_le_abs_sub _ _).trans y2
      · exact (abs_abs_sub_abs_le_abs_sub _ _).trans x2

/-- one row of Wilder's smoothing, in numbers -/
theorem wilder_num {u η N W p x t s y : K} (hu : 0 < u) (hN : 0 ≤ N) (hη : η ≤ u * N / 500) (hW : 1 ≤ W)
    (hu1 : u ≤ 1 / 1000) (hp : |p| ≤ 2 * N) (hx : |x| ≤ 2 * N) (ht : |t - p * (W - 1)| ≤ u * |p * (W - 1)| + η)
    (hs : |s - (t + x)| ≤ u * |t + x| + η) (hy : |y - s / W| ≤ u * |s / W| + η) :
    |p * (W - 1)| ≤ 3 * (N * W) ∧ |t + x| ≤ 3 * (N * W) ∧ |s / W| ≤ 3 * N ∧ |y - (p * (W - 1) + x) / W| ≤ 7 * u * N := by
  have hW0 : 0 < W := by linarith
  have hNW : N ≤ N * W := le_mul_of_one_le_right hN hW
  have huN : 0 ≤ u * N := by positivity
  have huNW : u * N ≤ u * (N * W) := mul_le_mul_of_nonneg_left hNW hu.le
  have k0 : |p * (W - 1)| ≤ 2 * N * (W - 1) := by
    rw [abs_mul, abs_of_nonneg (by linarith : 0 ≤ W - 1)]
    exact mul_le_mul_of_nonneg_right hp (by linarith)
  have k1 : |t - p * (W - 1)| ≤ 2.01 * (u * (N * W)) := by
    have := mul_le_mul_of_nonneg_left k0 hu.le
    linarith
  have uNW : u * (N * W) ≤ 1 / 1000 * (N * W) := mul_le_mul_of_nonneg_right hu1 (by positivity)
  have k2 : |t + x - (p * (W - 1) + x)| ≤ 2.01 * (u * (N * W)) := by
    rwa [show t + x - (p * (W - 1) + x) = t - p * (W - 1) by ring]
  have k3 : |p * (W - 1) + x| ≤ 2 * (N * W) := by
    have := abs_add_le (p * (W - 1)) x
    linarith
  have k4 : |t + x| ≤ 2.01 * (N * W) := by
    have := abs_add_le (t + x - (p * (W - 1) + x)) (p * (W - 1) + x)
    rw [sub_add_cancel] at this
    linarith
  have k5 : |s - (p * (W - 1) + x)| ≤ 4.03 * (u * (N * W)) := by
    have a := mul_le_mul_of_nonneg_left k4 hu.le
    have := abs_add_le (s - (t + x)) (t + x - (p * (W - 1) + x))
    rw [sub_add_sub_cancel] at this
    linarith
  have k6 : |s / W - (p * (W - 1) + x) / W| ≤ 4.03 * (u * N) := by
    rw [← sub_div, abs_div, abs_of_pos hW0, div_le_iff₀ hW0]
    linarith
  have k7 : |(p * (W - 1) + x) / W| ≤ 2 * N := by
    rw [abs_div, abs_of_pos hW0, div_le_iff₀ hW0]
    linarith
  have uN : u * N ≤ 1 / 1000 * N := mul_le_mul_of_nonneg_right hu1 hN
  have k8 : |s / W| ≤ 2.01 * N := by
    have := abs_add_le (s / W - (p * (W - 1) + x) / W) ((p * (W - 1) + x) / W)
    rw [sub_add_cancel] at this
    linarith
  refine ⟨?_, by linarith, by linarith, ?_⟩
  · linarith
  · have a := mul_le_mul_of_nonneg_left k8 hu.le
    have := abs_add_le (y - s / W) (s / W - (p * (W - 1) + x) / W)
    rw [sub_add_sub_cancel] at this
    linarith

section atr
variable {R : Rounding K} {u η Ω : K} (acc : R.Acc u η Ω) (hu : 0 < u) (hu1 : u ≤ 1 / 1000)
include acc hu hu1

/-- Wilder's step in rounded arithmetic -/
theorem wilder_step {N W p x : K} (hN : 0 ≤ N) (hη : η ≤ u * N / 500) (hW : 1 ≤ W) (hΩ : 4 * (N * W) ≤ Ω) (hη0 : 0 ≤ η)
    (hp : |p| ≤ 2 * N) (hx : |x| ≤ 2 * N) :
    ∃ y, ((rk p *. rk (W - 1)) +. rk x) /. rk W = (rk y : Rval R) ∧ |y - (p * (W - 1) + x) / W| ≤ 7 * u * N := by
  have hW0 : 0 < W := by linarith
  have hNW : N ≤ N * W := le_mul_of_one_le_right hN hW
  -- sizes first, from the numeric lemma at exact intermediate values
  have z0 : ∀ a : K, |a - a| ≤ u * |a| + η := fun a => by rw [sub_self, abs_zero]; positivity
  obtain ⟨s1, _, _, _⟩ := wilder_num (t := p * (W - 1)) (s := p * (W - 1) + x) (y := (p * (W - 1) + x) / W) hu hN hη hW hu1
    hp hx (z0 _) (z0 _) (z0 _)
  obtain ⟨t, t1, t2⟩ := acc_mul acc (x := p) (y := W - 1) (s1.trans (by linarith))
  obtain ⟨_, s2, _, _⟩ := wilder_num (t := t) (s := t + x) (y := (t + x) / W) hu hN hη hW hu1 hp hx t2 (z0 _) (z0 _)
  obtain ⟨s, s3, s4⟩ := acc_add acc (x := t) (y := x) (s2.trans (by linarith))
  obtain ⟨_, _, s5, _⟩ := wilder_num (t := t) (s := s) (y := s / W) hu hN hη hW hu1 hp hx t2 s4 (z0 _)
  obtain ⟨y, y1, y2⟩ := acc_div acc (x := s) (y := W) hW0.ne' (s5.trans (by linarith))
  exact ⟨y, by rw [t1, s3, y1], (wilder_num hu hN hη hW hu1 hp hx t2 s4 y2).2.2.2⟩

/-- a sum, left to right -/
theorem sum_err {N W : K} (hN : 0 ≤ N) (hη : η ≤ u * N / 500) (hΩ : 4 * (N * W) ≤ Ω) (hη0 : 0 ≤ η)
    (huW : 1000 * u * W ≤ 1) (l : List K) (hl : ∀ x ∈ l, |x| ≤ N) :
    ∀ (k : Nat) (A A0 : K), (k : K) + l.length ≤ W → |A0| ≤ k * N → |A - A0| ≤ k * (1.1 * u * (N * W)) →
      ∃ S, (l.map rk).foldl Flt.add (rk A : Rval R) = rk S ∧
        |S - (A0 + l.sum)| ≤ ((k : K) + l.length) * (1.1 * u * (N * W)) := by
  induction l with
  | nil =>
    intro k A A0 _ _ h
    exact ⟨A, rfl, by simpa using h⟩
  | cons x l ih =>
    intro k A A0 hk h0 h
    have hx := hl x (by simp)
    have hk' : ((k + 1 : ℕ) : K) + l.length ≤ W := by
      rw [List.length_cons] at hk; push_cast at hk ⊢; linarith
    have hk1 : ((k : K) + 1) ≤ W := by
      push_cast at hk'
      have : (0 : K) ≤ l.length := Nat.cast_nonneg _
      linarith
    have hW1 : 1 ≤ W := by
      have : (0 : K) ≤ k := Nat.cast_nonneg _
      linarith
    have hNW : N ≤ N * W := le_mul_of_one_le_right hN hW1
    have huNW : u * N ≤ u * (N * W) := mul_le_mul_of_nonneg_left hNW hu.le
    have hkN : ((k : K) + 1) * N ≤ N * W := by rw [mul_comm]; exact mul_le_mul_of_nonneg_left hk1 hN
    have hke : (k : K) * (1.1 * u * (N * W)) ≤ 0.01 * (N * W) := by
      have q1 : (k : K) * (1.1 * u * (N * W)) ≤ W * (1.1 * u * (N * W)) :=
        mul_le_mul_of_nonneg_right (by linarith) (by positivity)
      have q2 := mul_le_mul_of_nonneg_right huW (by positivity : 0 ≤ N * W)
      linarith
    have hAx : |A + x| ≤ 1.01 * (N * W) := by
      have q1 := abs_add_le (A - A0) (A0 + x)
      have q2 := abs_add_le A0 x
      rw [show A - A0 + (A0 + x) = A + x by ring] at q1
      linarith
    obtain ⟨z, z1, z2⟩ := acc_add acc (x := A) (y := x) (hAx.trans (by linarith))
    have hz : |z - (A0 + x)| ≤ ((k + 1 : ℕ) : K) * (1.1 * u * (N * W)) := by
      have q1 := abs_add_le (z - (A + x)) (A - A0)
      rw [show z - (A + x) + (A - A0) = z - (A0 + x) by ring] at q1
      have q2 := mul_le_mul_of_nonneg_left hAx hu.le
      push_cast
      linarith
    have hA0 : |A0 + x| ≤ ((k + 1 : ℕ) : K) * N := by
      have := abs_add_le A0 x
      push_cast
      linarith
    obtain ⟨S, S1, S2⟩ := ih (fun y hy => hl y (by simp [hy])) (k + 1) z (A0 + x) hk' hA0 hz
    refine ⟨S, ?_, ?_⟩
    · rw [List.map_cons, List.foldl_cons, z1, S1]
    · rw [List.sum_cons, List.length_cons, show A0 + (x + l.sum) = A0 + x + l.sum by ring]
      refine S2.trans (le_of_eq ?_)
      push_cast; ring

end atr

theorem tr0_nonneg {n : Nat} {h l c : Nat → K} (hlh : ∀ i, i < n → l i ≤ h i) {i : Nat} (hi : i < n) : 0 ≤ tr0 h l c i := by
  have := hlh i hi
  unfold tr0
  split_ifs with h0
  · subst h0; linarith
  · have := le_max_left (h i) (c (i - 1))
    have := min_le_left (l i) (c (i - 1))
    linarith

theorem huge_win {w : Nat} (hw : w ≤ 2 ^ 40) : (huge : K) * w ≤ cap := by
  have e : (cap : K) = huge * 2 ^ (100 : ℤ) := by
    unfold cap huge
    rw [← zpow_add₀ (by norm_num)]; norm_num only
  rw [e]
  refine mul_le_mul_of_nonneg_left ?_ (two_zpow_pos _).le
  have h1 : (w : K) ≤ 2 ^ 40 := by exact_mod_cast hw
  have h2 : (2 : K) ^ 40 = 2 ^ (40 : ℤ) := by norm_cast
  rw [h2] at h1
  exact h1.trans (zpow_le_zpow_right₀ (by norm_num) (by norm_num))

/-- Wilder's smoothing of a computed series -/
theorem Approx.atr {tr : Series (Double K)} {n w : Nat} {x : Nat → K} {δ T : K} (h : Approx tr n 0 x δ) (hδ : 0 ≤ δ)
    (hδT : δ ≤ T) (hw : 1 ≤ w) (hw2 : w ≤ 2 ^ 40) (hn : w ≤ n) (hx : ∀ i, i < n → |x i| ≤ T) (hT : tiny ≤ T)
    (hT2 : T ≤ huge) :
    Approx (tab n fun i => iter (ATR.step tr w) (lit 0) (i + 1)) n 0
      (fun i => if i < w - 1 then 0 else wilMean x w (i - (w - 1))) (δ + 7 * eps * (T + δ) * w) := by
  have hT0 : 0 < T := tiny_pos.trans_le hT
  have hu := eps_pos (K := K)
  have hW : (1 : K) ≤ w := by exact_mod_cast hw
  have hW0 : (0 : K) < w := by linarith
  have huW : 1000 * eps * (w : K) ≤ 1 := by
    have := eps_win (K := K) hw2
    linarith
  have hη : (2 : K) ^ (-1075 : ℤ) ≤ eps * (T + δ) / 500 := by
    refine (eta_le (hT.trans (by linarith : T ≤ T + δ))).trans ?_
    have : 0 ≤ eps * (T + δ) := by positivity
    linarith
  have hΩ : 4 * ((T + δ) * w) ≤ (2 : K) ^ (1023 : ℤ) := by
    have h1 : T * w ≤ cap := (mul_le_mul_of_nonneg_right hT2 hW0.le).trans (huge_win hw2)
    refine le_trans ?_ (big_le h1)
    have := mul_le_mul_of_nonneg_right hδT hW0.le
    have : 0 ≤ T * w := by positivity
    linarith
  have hη0 : (0 : K) ≤ 2 ^ (-1075 : ℤ) := (two_zpow_pos _).le
  have acc := b64_acc (K := K)
  change (binary64 : Rounding K).Acc eps _ _ at acc
  generalize (2 : K) ^ (-1075 : ℤ) = η at *
  generalize (2 : K) ^ (1023 : ℤ) = Ω at *
  have hwN : (natF w : Double K) = rk (w : K) := natF_double (by omega)
  have hwN1 : (natF (w - 1) : Double K) = rk ((w : K) - 1) := by
    rw [natF_double (by omega), Nat.cast_sub hw, Nat.cast_one]
  have hval : ∀ i, ∃ y, i < n → ix tr i = rk y ∧ |y - x i| ≤ δ := fun i => by
    by_cases hi : i < n
    · obtain ⟨y, y1, y2⟩ := h.val i hi (Nat.zero_le _)
      exact ⟨y, fun _ => ⟨y1, y2⟩⟩
    · exact ⟨0, fun h => absurd h hi⟩
  choose g hg using hval
  have hgN : ∀ i, i < n → |g i| ≤ T + δ := fun i hi => by
    have := abs_add_le (g i - x i) (x i)
    rw [sub_add_cancel] at this
    linarith [hx i hi, (hg i hi).2]
  have hm : ∀ i, w + i ≤ n → |wilMean x w i| ≤ T := fun i hi =>
    abs_le.mpr (wilMean_mem hw i fun j hj => abs_le.mp (hx j (by omega)))
  have hE : 7 * eps * (T + δ) * w ≤ T + δ := by
    have := mul_le_mul_of_nonneg_left huW (by positivity : 0 ≤ T + δ)
    have : 0 ≤ (T + δ) * (eps * w) := by positivity
    linarith
  have hseed : ∃ y, iter (ATR.step tr w) (lit 0) w = rk y ∧ |y - wilMean x w 0| ≤ δ + 7 * eps * (T + δ) * w := by
    have htake : tr.take w = ((List.range w).map g).map rk := by
      apply List.ext_getElem
      · simp [h.len, hn]
      · intro i h1 h2
        have hi : i < w := by simpa using h2
        rw [List.getElem_take, ← ix_lt (by rw [h.len]; omega), (hg i (by omega)).1]
        simp
    have hvalid : valid (((List.range w).map g).map rk : List (Double K)) = ((List.range w).map g).map rk := by
      unfold valid
      rw [List.filter_eq_self]
      intro a ha
      obtain ⟨z, _, rfl⟩ := List.mem_map.mp ha
      rfl
    obtain ⟨S, S1, S2⟩ := sum_err acc hu eps_small (N := T + δ) (W := (w : K)) (by positivity) hη hΩ hη0 huW
      ((List.range w).map g) (by
        intro y hy
        obtain ⟨j, hj, rfl⟩ := List.mem_map.mp hy
        exact hgN j (by have := List.mem_range.mp hj; omega)) 0 0 0 (by simp) (by simp) (by simp)
    have hsum : ((List.range w).map g).sum = ∑ j ∈ Finset.range w, g j := rfl
    rw [zero_add, hsum, Nat.cast_zero, zero_add, List.length_map, List.length_range] at S2
    have hgs : |∑ j ∈ Finset.range w, g j| ≤ w * (T + δ) := by
      refine (Finset.abs_sum_le_sum_abs _ _).trans ?_
      have := Finset.sum_le_card_nsmul (Finset.range w) (fun j => |g j|) (T + δ)
        fun j hj => hgN j (by have := Finset.mem_range.mp hj; omega)
      rwa [Finset.card_range, nsmul_eq_mul] at this
    have hgx : |∑ j ∈ Finset.range w, g j - ∑ j ∈ Finset.range w, x j| ≤ w * δ := by
      rw [← Finset.sum_sub_distrib]
      refine (Finset.abs_sum_le_sum_abs _ _).trans ?_
      have := Finset.sum_le_card_nsmul (Finset.range w) (fun j => |g j - x j|) δ
        fun j hj => (hg j (by have := Finset.mem_range.mp hj; omega)).2
      rwa [Finset.card_range, nsmul_eq_mul] at this
    have hq : |S / w - (∑ j ∈ Finset.range w, g j) / w| ≤ 1.1 * eps * ((T + δ) * w) := by
      rw [← sub_div, abs_div, abs_of_pos hW0, div_le_iff₀ hW0, mul_comm _ (w : K)]
      exact S2
    have hq2 : |(∑ j ∈ Finset.range w, g j) / w - wilMean x w 0| ≤ δ := by
      show |(∑ j ∈ Finset.range w, g j) / w - (∑ j ∈ Finset.range w, x j) / w| ≤ δ
      rw [← sub_div, abs_div, abs_of_pos hW0, div_le_iff₀ hW0, mul_comm _ (w : K)]
      exact hgx
    have hq3 : |S / w| ≤ 1.01 * (T + δ) := by
      have q1 : |(∑ j ∈ Finset.range w, g j) / w| ≤ T + δ := by
        rw [abs_div, abs_of_pos hW0, div_le_iff₀ hW0, mul_comm _ (w : K)]
        exact hgs
      have := abs_add_le (S / w - (∑ j ∈ Finset.range w, g j) / w) ((∑ j ∈ Finset.range w, g j) / w)
      rw [sub_add_cancel] at this
      have := mul_le_mul_of_nonneg_left huW (by positivity : 0 ≤ T + δ)
      linarith
    have hNW : T + δ ≤ (T + δ) * w := le_mul_of_one_le_right (by positivity) hW
    obtain ⟨y, y1, y2⟩ := acc_div acc (x := S) (y := (w : K)) hW0.ne' (hq3.trans (by linarith))
    refine ⟨y, ?_, ?_⟩
    · obtain ⟨v, rfl⟩ : ∃ v, w = v + 1 := ⟨w - 1, by omega⟩
      show ATR.step tr (v + 1) v _ = _
      unfold ATR.step
      rw [if_neg (by omega), if_pos rfl, htake]
      unfold smean
      rw [hvalid, if_neg (by simp)]
      simp only [List.length_map, List.length_range]
      unfold sumL
      rw [show (lit 0 : Double K) = rk 0 from lit0, S1, hwN, y1]
    · have k1 := mul_le_mul_of_nonneg_left hq3 hu.le
      have k2 : eps * (T + δ) ≤ eps * ((T + δ) * w) := mul_le_mul_of_nonneg_left hNW hu.le
      have k3 := abs_add_le (y - S / w) (S / w - (∑ j ∈ Finset.range w, g j) / w)
      have k4 := abs_add_le (y - S / w + (S / w - (∑ j ∈ Finset.range w, g j) / w))
        ((∑ j ∈ Finset.range w, g j) / w - wilMean x w 0)
      rw [show y - S / w + (S / w - (∑ j ∈ Finset.range w, g j) / w) + ((∑ j ∈ Finset.range w, g j) / w - wilMean x w 0)
        = y - wilMean x w 0 by ring] at k4
      have : 0 ≤ eps * ((T + δ) * w) := by positivity
      linarith
  have hrec : ∀ i, w - 1 + i < n →
      ∃ y, iter (ATR.step tr w) (lit 0) (w + i) = rk y ∧ |y - wilMean x w i| ≤ δ + 7 * eps * (T + δ) * w := by
    intro i
    induction i with
    | zero => intro _; exact hseed
    | succ i ih =>
      intro hi
      obtain ⟨p, p1, p2⟩ := ih (by omega)
      have hgi := hg (w + i) (by omega)
      have hp : |p| ≤ 2 * (T + δ) := by
        have := abs_add_le (p - wilMean x w i) (wilMean x w i)
        rw [sub_add_cancel] at this
        linarith [hm i (by omega)]
      have hgi2 : |g (w + i)| ≤ 2 * (T + δ) := by linarith [hgN (w + i) (by omega)]
      obtain ⟨y, y1, y2⟩ := wilder_step acc hu eps_small (N := T + δ) (W := (w : K)) (by positivity) hη hW hΩ hη0 hp hgi2
      refine ⟨y, ?_, ?_⟩
      · show ATR.step tr w (w + i) (iter (ATR.step tr w) (lit 0) (w + i)) = _
        rw [p1]
        unfold ATR.step
        rw [if_neg (by omega), if_neg (by omega), hgi.1, hwN, hwN1, y1]
      · have e : wilMean x w (i + 1) = (wilMean x w i * ((w : K) - 1) + x (w + i)) / w := by
          show (wilMean x w i * ((w - 1 : ℕ) : K) + x (w + i)) / w = _
          rw [Nat.cast_sub hw, Nat.cast_one]
        rw [e]
        have k : |(p * ((w : K) - 1) + g (w + i)) / w - (wilMean x w i * ((w : K) - 1) + x (w + i)) / w|
            ≤ δ + 7 * eps * (T + δ) * w - 7 * eps * (T + δ) := by
          rw [← sub_div, abs_div, abs_of_pos hW0, div_le_iff₀ hW0]
          have q1 : |(p - wilMean x w i) * ((w : K) - 1)| ≤ (δ + 7 * eps * (T + δ) * w) * ((w : K) - 1) := by
            rw [abs_mul, abs_of_nonneg (by linarith : (0 : K) ≤ (w : K) - 1)]
            exact mul_le_mul_of_nonneg_right p2 (by linarith)
          have q2 := abs_add_le ((p - wilMean x w i) * ((w : K) - 1)) (g (w + i) - x (w + i))
          rw [show (p - wilMean x w i) * ((w : K) - 1) + (g (w + i) - x (w + i)) =
            p * ((w : K) - 1) + g (w + i) - (wilMean x w i * ((w : K) - 1) + x (w + i)) by ring] at q2
          linarith [hgi.2]
        have := abs_add_le (y - (p * ((w : K) - 1) + g (w + i)) / w)
          ((p * ((w : K) - 1) + g (w + i)) / w - (wilMean x w i * ((w : K) - 1) + x (w + i)) / w)
        rw [sub_add_sub_cancel] at this
        linarith
  refine ⟨by simp, fun i _ h2 => by omega, fun i hi _ => ?_⟩
  rw [ix_tab_lt hi]
  by_cases hk : i < w - 1
  · rw [if_pos hk]
    refine ⟨0, ?_, ?_⟩
    · show ATR.step tr w i _ = _
      unfold ATR.step
      rw [if_pos (by omega)]; exact lit0
    · rw [sub_self, abs_zero]; positivity
  · rw [if_neg hk, show i + 1 = w + (i - (w - 1)) by omega]
    exact hrec _ (by omega)

/-- C80: ATR in double precision is within `10 w 2^-53 T` of the exact one, on every row and however many rows there
are; `T` bounds the true ranges. -/
theorem atr_double (n : Nat) (h l c : Nat → K) (hlh : ∀ i, i < n → l i ≤ h i) {w : Nat} (hw : 1 ≤ w) (hw2 : w ≤ 2 ^ 40)
    (hn : w ≤ n) (fillna : Bool) {T : K} (hT : ∀ i, i < n → tr0 h l c i ≤ T) (hT1 : tiny ≤ T) (hT2 : T ≤ huge) :
    ∃ (out : Series (Double K)) (exact : Series (Val K)),
      averageTrueRange (dser n h) (dser n l) (dser n c) w fillna = .ok out ∧
      averageTrueRange (ser n h) (ser n l) (ser n c) w fillna = .ok exact ∧ CloseTo (10 * w * eps * T) out exact := by
  have hl : (dser n c).length = n := by simp [rser]
  have hl2 : (ser n c).length = n := by simp [ser]
  have hT0 : 0 < T := tiny_pos.trans_le hT1
  have hu := eps_pos (K := K)
  have hW : (1 : K) ≤ w := by exact_mod_cast hw
  have hex : averageTrueRange (ser n h) (ser n l) (ser n c) w fillna =
      .ok (checkFillna fillna (.const (lit 0)) (ATR.run (ser n h) (ser n l) (ser n c) w)) := by
    unfold averageTrueRange
    rw [hl2, max_eq_left hw, if_neg (by omega)]
  refine ⟨_, _, by unfold averageTrueRange; rw [hl, max_eq_left hw, if_neg (by omega)], hex, ?_⟩
  have h2 : 2 * eps * T ≤ T / 500 := by
    have := mul_le_mul_of_nonneg_right (eps_small (K := K)) hT0.le
    linarith
  have ha := (approx_tr n h l c hlh hT1 hT2 hT).atr (by positivity) (by linarith) hw hw2 hn
    (fun i hi => by rw [abs_of_nonneg (tr0_nonneg hlh hi)]; exact hT i hi) hT1 hT2
  have ha := (ha.mono (δ' := 10 * w * eps * T) (by
    have k0 : 0 ≤ eps * T := by positivity
    have k1 : eps * T ≤ eps * T * w := le_mul_of_one_le_right k0 hW
    have k2 := mul_le_mul_of_nonneg_left h2 (by positivity : 0 ≤ 7 * eps * (w : K))
    linarith)).fill fillna (.const (lit 0))
  have := ha.close (atr_formula hlh hw hex).2
  unfold ATR.run
  dsimp only
  rw [if_neg (by omega), hl]
  unfold ATR.run at this
  exact this

/-! ## examples -/

instance : DecidableEq (Double ℚ) := inferInstanceAs (DecidableEq (Val ℚ))

/-- closes 1, 2, 1, 2, … -/
def zigzag (i : Nat) : ℚ := if i % 2 = 0 then 1 else 2

example : emaIndicator (dser 4 zigzag) 2 true = .ok [rk 1, rk (3752999689475413 / 2251799813685248),
    rk (1376099886140985 / 1125899906842624), rk (7839599351348641 / 4503599627370496)] := by decide +kernel
example : emaIndicator (ser 4 zigzag) 2 true = .ok [.fin 1, .fin (5 / 3), .fin (11 / 9), .fin (47 / 27)] := by
  decide +kernel

/-- the bound, for a million rows of `zigzag` and window 9: less than `10^-12` -/
example : ∃ (out : Series (Double ℚ)) (exact : Series (Val ℚ)),
    emaIndicator (dser 1000000 zigzag) 9 = .ok out ∧ emaIndicator (ser 1000000 zigzag) 9 = .ok exact ∧
    CloseTo (20 * (((9 : ℕ) : ℚ) + 1) * eps * 2) out exact ∧ 20 * (((9 : ℕ) : ℚ) + 1) * eps * 2 < 1 / 10 ^ 12 := by
  have hu : (eps : ℚ) = 1 / 2 ^ 53 := by unfold eps; norm_num
  obtain ⟨out, exact, h1, h2, h3⟩ := ema_double 1000000 zigzag (w := 9) (by norm_num) (by norm_num) false (M := 2)
    (fun i _ => by unfold zigzag; split_ifs <;> norm_num)
    (by
      have : (2 : ℚ) ^ (-900 : ℤ) ≤ 2 ^ (0 : ℤ) := zpow_le_zpow_right₀ (by norm_num) (by norm_num)
      exact this.trans (by norm_num))
    (by
      have : (2 : ℚ) ^ (1 : ℤ) ≤ 2 ^ (900 : ℤ) := zpow_le_zpow_right₀ (by norm_num) (by norm_num)
      exact le_trans (by norm_num) this)
  exact ⟨out, exact, h1, h2, h3, by rw [hu]; norm_num⟩

example : averageTrueRange (dser 4 fun i => zigzag i + 3) (dser 4 zigzag) (dser 4 zigzag) 3 = .ok [rk 0, rk 0,
    rk (7505999378950827 / 2251799813685248), rk (8006399337547549 / 2251799813685248)] := by decide +kernel
example : averageTrueRange (ser 4 fun i => zigzag i + 3) (ser 4 zigzag) (ser 4 zigzag) 3 = .ok [.fin 0, .fin 0,
    .fin (10 / 3), .fin (32 / 9)] := by decide +kernel

example : (MACD.new (dser 4 zigzag) 3 2 2 true).map MACD.macdDiff = .ok [rk 0, rk (4003199668773771 / 72057594037927936),
    rk (-3335999723978141 / 72057594037927936), rk (583799951696175 / 18014398509481984)] := by decide +kernel

end TA
