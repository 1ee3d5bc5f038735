import Verif.Props.C83
import Verif.Props.C31
import Verif.Props.C34

/-!
# C84: PPO, PVO, force index and the ATR version of the Keltner channel in double precision

The calls are evaluated in double precision and exactly; the differences are bounded by multiples of `2^-53` that depend
on the windows and on bounds of the data, not on the number of rows.
-/

set_option linter.unusedSectionVars false

namespace TA
variable {K : Type} [Field K] [LinearOrder K] [IsStrictOrderedRing K] [FloorRing K]

/-! ## sums and products of computed series -/

theorem near_of_err {x y f δ : K} (h : |y - f| ≤ δ) (hf : |f| ≤ x) : |y| ≤ x + δ := by
  have := abs_add_le (y - f) f
  rw [sub_add_cancel] at this
  linarith

theorem rk_nan_mul (v : Double K) : (nan *. v : Double K) = nan := by
  have : Val.mul Val.nan v = (Val.nan : Val K) := TA.nan_mul (K := K) v
  show (binary64 : Rounding K).rnd (Val.mul Val.nan v) = Val.nan
  rw [this]; rfl
theorem rk_mul_nan (v : Double K) : (v *. nan : Double K) = nan := by
  have : Val.mul v Val.nan = (Val.nan : Val K) := TA.mul_nan (K := K) v
  show (binary64 : Rounding K).rnd (Val.mul v Val.nan) = Val.nan
  rw [this]; rfl
theorem rk_nan_add (v : Double K) : (nan +. v : Double K) = nan := by
  have : Val.add Val.nan v = (Val.nan : Val K) := TA.nan_add (K := K) v
  show (binary64 : Rounding K).rnd (Val.add Val.nan v) = Val.nan
  rw [this]; rfl
theorem rk_add_nan (v : Double K) : (v +. nan : Double K) = nan := by
  have : Val.add v Val.nan = (Val.nan : Val K) := TA.add_nan (K := K) v
  show (binary64 : Rounding K).rnd (Val.add v Val.nan) = Val.nan
  rw [this]; rfl

theorem Approx.smul {s t : Series (Double K)} {n p q : Nat} {f g : Nat → K} {δ ε A G B : K} (hs : Approx s n p f δ)
    (ht : Approx t n q g ε) (hA : 0 ≤ A) (hf : ∀ i, i < n → max p q ≤ i → |f i| ≤ A) (hg : ∀ i, i < n → max p q ≤ i → |g i| ≤ G)
    (hB : (A + δ) * (G + ε) ≤ B) (hB1 : tiny ≤ B) (hB2 : B ≤ cap) :
    Approx (TA.smul s t) n (max p q) (fun i => f i * g i) (δ * (G + ε) + A * ε + 1.001 * (eps * B)) := by
  have e : ∀ i, i < n → ix (TA.smul s t) i = ix s i *. ix t i := fun i hi => ix_zip2 (by rw [hs.len]; exact hi)
  refine ⟨by unfold TA.smul; simp [hs.len], fun i h1 h2 => ?_, fun i h1 h2 => ?_⟩
  · rw [e i h1]
    rcases lt_max_iff.mp h2 with h | h
    · rw [hs.gap i h1 h]; exact rk_nan_mul _
    · rw [ht.gap i h1 h]; exact rk_mul_nan _
  · obtain ⟨y, y1, y2⟩ := hs.val i h1 (le_of_max_le_left h2)
    obtain ⟨z, z1, z2⟩ := ht.val i h1 (le_of_max_le_right h2)
    have ky := near_of_err y2 (hf i h1 h2)
    have kz := near_of_err z2 (hg i h1 h2)
    have hyz : |y * z| ≤ B := by
      rw [abs_mul]
      exact (mul_le_mul ky kz (abs_nonneg _) ((abs_nonneg _).trans ky)).trans hB
    obtain ⟨v, v1, v2⟩ := near_mul hyz hB1 hB2
    rw [e i h1, y1, z1]
    refine ⟨v, v1, ?_⟩
    have k1 : |y * z - f i * g i| ≤ δ * (G + ε) + A * ε := by
      rw [show y * z - f i * g i = (y - f i) * z + f i * (z - g i) by ring]
      refine (abs_add_le _ _).trans ?_
      rw [abs_mul, abs_mul]
      exact add_le_add (mul_le_mul y2 kz (abs_nonneg _) ((abs_nonneg _).trans y2))
        (mul_le_mul (hf i h1 h2) z2 (abs_nonneg _) hA)
    have := abs_add_le (v - y * z) (y * z - f i * g i)
    rw [sub_add_sub_cancel] at this
    show |v - f i * g i| ≤ _
    linarith

theorem Approx.sadd {s t : Series (Double K)} {n p q : Nat} {f g : Nat → K} {δ ε B : K} (hs : Approx s n p f δ)
    (ht : Approx t n q g ε) (hB : ∀ i, i < n → max p q ≤ i → |f i + g i| + δ + ε ≤ B) (hB1 : tiny ≤ B) (hB2 : B ≤ cap) :
    Approx (TA.sadd s t) n (max p q) (fun i => f i + g i) (δ + ε + 2 * eps * B) := by
  have e : ∀ i, i < n → ix (TA.sadd s t) i = ix s i +. ix t i := fun i hi => ix_zip2 (by rw [hs.len]; exact hi)
  refine ⟨by unfold TA.sadd; simp [hs.len], fun i h1 h2 => ?_, fun i h1 h2 => ?_⟩
  · rw [e i h1]
    rcases lt_max_iff.mp h2 with h | h
    · rw [hs.gap i h1 h]; exact rk_nan_add _
    · rw [ht.gap i h1 h]; exact rk_add_nan _
  · obtain ⟨y, y1, y2⟩ := hs.val i h1 (le_of_max_le_left h2)
    obtain ⟨z, z1, z2⟩ := ht.val i h1 (le_of_max_le_right h2)
    have k1 : |y + z - (f i + g i)| ≤ δ + ε := by
      rw [show y + z - (f i + g i) = (y - f i) + (z - g i) by ring]
      exact (abs_add_le _ _).trans (add_le_add y2 z2)
    have k2 : |y + z| ≤ B := (near_of_err k1 (le_refl _)).trans (by rw [← add_assoc]; exact hB i h1 h2)
    obtain ⟨v, v1, v2⟩ := near_add k2 hB1 hB2
    rw [e i h1, y1, z1]
    refine ⟨v, v1, ?_⟩
    have := abs_add_le (v - (y + z)) (y + z - (f i + g i))
    rw [sub_add_sub_cancel] at this
    have h0 : 0 ≤ eps * B := mul_nonneg eps_pos.le (tiny_pos.le.trans hB1)
    show |v - (f i + g i)| ≤ _
    linarith

theorem Approx.cmul {s : Series (Double K)} {n p : Nat} {f : Nat → K} {δ B c : K} (h : Approx s n p f δ) {l : Double K}
    (hl : l = rk c) (hB : ∀ i, i < n → p ≤ i → |c| * (|f i| + δ) ≤ B) (hB1 : tiny ≤ B) (hB2 : B ≤ cap) :
    Approx (TA.cmul l s) n p (fun i => c * f i) (|c| * δ + 1.001 * (eps * B)) := by
  refine ⟨by simp [TA.cmul, h.len], fun i h1 h2 => ?_, fun i h1 h2 => ?_⟩
  · unfold TA.cmul
    rw [ix_map (by rw [h.len]; exact h1), h.gap i h1 h2, hl]; exact rk_mul_nan _
  · obtain ⟨y, y1, y2⟩ := h.val i h1 h2
    have k1 := near_of_err y2 (le_refl _)
    have k2 : |c * y| ≤ B := by
      rw [abs_mul]
      exact (mul_le_mul_of_nonneg_left k1 (abs_nonneg _)).trans (hB i h1 h2)
    obtain ⟨v, v1, v2⟩ := near_mul k2 hB1 hB2
    unfold TA.cmul
    rw [ix_map (by rw [h.len]; exact h1), y1, hl]
    refine ⟨v, v1, ?_⟩
    have k3 : |c * y - c * f i| ≤ |c| * δ := by
      rw [← mul_sub, abs_mul]
      exact mul_le_mul_of_nonneg_left y2 (abs_nonneg _)
    have := abs_add_le (v - c * y) (c * y - c * f i)
    rw [sub_add_sub_cancel] at this
    show |v - c * f i| ≤ _
    linarith

/-! ## force index -/

/-- C84: the force index in double precision is within `22 (w+1) 2^-53 D V` of the exact one; `D` bounds the price
changes and `V` the volumes. -/
theorem forceIndex_double (n : Nat) (c v : Nat → K) {w : Nat} (hw : 1 ≤ w) (hw2 : w ≤ 2 ^ 40) {D V : K}
    (hD : ∀ i, i + 1 < n → |c (i + 1) - c i| ≤ D) (hV : ∀ i, i < n → |v i| ≤ V) (hD1 : tiny ≤ D) (hD2 : D ≤ huge)
    (h1 : tiny ≤ D * V) (h2 : D * V ≤ huge) :
    ∃ (out : Series (Double K)) (exact : Series (Val K)),
      forceIndex (dser n c) (dser n v) w = .ok out ∧ forceIndex (ser n c) (ser n v) w = .ok exact ∧
      CloseTo (22 * ((w : K) + 1) * eps * (D * V)) out exact := by
  have hu := eps_pos (K := K)
  have hu1 := eps_small (K := K)
  have hcap := huge_cap (K := K)
  have ht := tiny_pos (K := K)
  have hD0 : 0 < D := ht.trans_le hD1
  have hP0 : 0 < D * V := ht.trans_le h1
  have huP : eps * (D * V) ≤ 1 / 1000 * (D * V) := mul_le_mul_of_nonneg_right hu1 hP0.le
  have huP0 : 0 < eps * (D * V) := mul_pos hu hP0
  have hd := approx_sdiff n c hD hD1 (by linarith)
  have bd : ∀ i, i < n → 1 ≤ i → |c i - c (i - 1)| ≤ D := fun i hn hi => by
    obtain ⟨j, rfl⟩ : ∃ j, i = j + 1 := ⟨i - 1, by omega⟩
    exact hD j hn
  have hp := hd.smul (approx_ser (R := binary64) n v) hD0.le (A := D) (G := V) (B := 1.01 * (D * V))
    (fun i hn hi => bd i hn (le_trans (le_max_left _ _) hi)) (fun i hn _ => hV i hn) (by
      rw [add_zero, add_mul]
      have : 2 * eps * D * V ≤ 0.002 * (D * V) := by linarith
      linarith) (by linarith) (by linarith)
  have hp := hp.mono (δ' := 3.1 * eps * (D * V)) (by rw [add_zero, mul_zero, add_zero]; linarith)
  have bp : ∀ i, i < n → max 1 0 ≤ i → |(c i - c (i - 1)) * v i| ≤ D * V := fun i hn hi => by
    rw [abs_mul]
    exact mul_le_mul (bd i hn (le_trans (le_max_left _ _) hi)) (hV i hn) (abs_nonneg _) hD0.le
  have he := (hp.ema hw hw2 (by positivity) bp h1 (by linarith) false).mono (δ' := 22 * ((w : K) + 1) * eps * (D * V)) (by
    have hW : (1 : K) ≤ w := by exact_mod_cast hw
    have k1 := mul_le_mul_of_nonneg_left huP (by positivity : 0 ≤ 20 * ((w : K) + 1) * eps * 3.1)
    have k2 : eps * (D * V) ≤ w * (eps * (D * V)) := le_mul_of_one_le_left huP0.le hW
    linarith)
  have hx := (((def_ser n c).ssub (def_prev n c)).smul (def_ser n v)).ema hw false
  refine ⟨_, _, by unfold forceIndex chkSpan; rw [if_neg (by omega)]; rfl,
    by unfold forceIndex chkSpan; rw [if_neg (by omega)]; rfl, ?_⟩
  refine he.close (t := FI.run (ser n c) (ser n v) w false) ?_
  unfold FI.run
  exact hx

/-! ## Keltner channel, ATR version -/

theorem approx_atr (n : Nat) (h l c : Nat → K) (hlh : ∀ i, i < n → l i ≤ h i) {w : Nat} (hw : 1 ≤ w) (hw2 : w ≤ 2 ^ 40)
    (hn : w ≤ n) (fillna : Bool) {T : K} (hT : ∀ i, i < n → tr0 h l c i ≤ T) (hT1 : tiny ≤ T) (hT2 : T ≤ huge) :
    Approx (checkFillna fillna (.const (lit 0)) (ATR.run (dser n h) (dser n l) (dser n c) w)) n 0
      (fun i => if i < w - 1 then 0 else wilMean (tr0 h l c) w (i - (w - 1))) (10 * w * eps * T) := by
  have hl : (dser n c).length = n := by simp [rser]
  have hT0 : 0 < T := tiny_pos.trans_le hT1
  have hu := eps_pos (K := K)
  have hW : (1 : K) ≤ w := by exact_mod_cast hw
  have h2 : 2 * eps * T ≤ T / 500 := by
    have := mul_le_mul_of_nonneg_right (eps_small (K := K)) hT0.le
    linarith
  have ha := (approx_tr n h l c hlh hT1 hT2 hT).atr (by positivity) (by linarith) hw hw2 hn
    (fun i hi => by rw [abs_of_nonneg (tr0_nonneg hlh hi)]; exact hT i hi) hT1 hT2
  have ha := (ha.mono (δ' := 10 * w * eps * T) (by
    have k0 : 0 ≤ eps * T := by positivity
    have k1 : eps * T ≤ eps * T * w := le_mul_of_one_le_right k0 hW
    have k2 := mul_le_mul_of_nonneg_left h2 (by positivity : 0 ≤ 7 * eps * (w : K))
    linarith)).fill fillna (.const (lit 0))
  unfold ATR.run
  dsimp only
  rw [if_neg (by omega), hl]
  exact ha

theorem Approx.fillOr {s : Series (Double K)} {n p : Nat} {f : Nat → K} {δ : K} (h : Approx s n p f δ) {b : Bool}
    (hb : b = true → p = 0) (v : Fill (Double K)) : Approx (checkFillna b v s) n p f δ := by
  cases b with
  | false => exact h
  | true => obtain rfl := hb rfl; exact h.fill true v

/-- with filling the channel asks for one observation, `_ema` for none: the same rows result -/
theorem ewm_keltner (s : Series (Double K)) (w : Nat) (b : Bool) :
    ewm (alphaOfSpan w) (if b then 1 else w) s = ema s w b := by
  cases b with
  | false => rfl
  | true => rfl

theorem run_atr_eq (c atr : Series (Double K)) (w : Nat) (b : Bool) (k : Double K) :
    (Keltner.runAtr c atr w b k).mband = checkFillna b .back (ema c w b) ∧
    (Keltner.runAtr c atr w b k).hband = checkFillna b .back (sadd (ema c w b) (cmul k atr)) ∧
    (Keltner.runAtr c atr w b k).lband = checkFillna b .back (ssub (ema c w b) (cmul k atr)) := by
  rw [← ewm_keltner]; exact ⟨rfl, rfl, rfl⟩

/-- C84: the three lines of the ATR version of the Keltner channel in double precision are within `20 (w+1) 2^-53 M`
(middle) and `2^-53 ((20 w + 24) M + (10 w_atr + 4) |k| T)` (outer) of the exact ones; `M` bounds the closes, `T` the true
ranges, `k` is the multiplier. -/
theorem keltner_double (n : Nat) (h l c : Nat → K) (hlh : ∀ i, i < n → l i ≤ h i) {w wa : Nat} (hw : 1 ≤ w)
    (hw2 : w ≤ 2 ^ 40) (hwa : 1 ≤ wa) (hwa2 : wa ≤ 2 ^ 40) (hn : wa ≤ n) (fillna : Bool) {M T k : K}
    (hM : ∀ i, i < n → |c i| ≤ M) (hM1 : tiny ≤ M) (hM2 : M ≤ huge) (hT : ∀ i, i < n → tr0 h l c i ≤ T) (hT1 : tiny ≤ T)
    (hT2 : T ≤ huge) (hk : |k| * T ≤ huge) :
    ∃ (o : Keltner (Double K)) (e : Keltner (Val K)),
      Keltner.new (dser n h) (dser n l) (dser n c) w wa fillna false (rk k) = .ok o ∧
      Keltner.new (ser n h) (ser n l) (ser n c) w wa fillna false (.fin k) = .ok e ∧
      CloseTo (20 * ((w : K) + 1) * eps * M) o.mband e.mband ∧
      CloseTo (eps * ((20 * w + 24) * M + (10 * wa + 4) * (|k| * T))) o.hband e.hband ∧
      CloseTo (eps * ((20 * w + 24) * M + (10 * wa + 4) * (|k| * T))) o.lband e.lband := by
  have hu := eps_pos (K := K)
  have hcap := huge_cap (K := K)
  have ht := tiny_pos (K := K)
  have hM0 : 0 < M := ht.trans_le hM1
  have hT0 : 0 < T := ht.trans_le hT1
  have hk0 : 0 ≤ |k| * T := by positivity
  have w1 := eps_win (K := K) hw2
  have w2 := eps_win (K := K) hwa2
  have v1 : 20 * ((w : K) + 1) * eps * M ≤ M / 50 := by
    have := mul_le_mul_of_nonneg_right w1 hM0.le
    linarith
  have v2 : 10 * (wa : K) * eps * (|k| * T) ≤ (|k| * T) / 100 := by
    have := mul_le_mul_of_nonneg_right w2 hk0
    have : 0 ≤ eps * (|k| * T) := by positivity
    linarith
  have v3 : eps * M ≤ M / 1000 := by
    have := mul_le_mul_of_nonneg_right (eps_small (K := K)) hM0.le
    linarith
  have v4 : eps * (|k| * T) ≤ |k| * T / 1000 := by
    have := mul_le_mul_of_nonneg_right (eps_small (K := K)) hk0
    linarith
  have v5 : 0 ≤ eps * M := by positivity
  have v6 : 0 ≤ eps * (|k| * T) := by positivity
  have bE : ∀ i, i < n → |emaRec (2 / ((w : K) + 1)) c i| ≤ M := fun i hi =>
    emaRec_abs (by positivity) (by rw [div_le_one (by positivity)]; exact_mod_cast (by omega)) fun j hj => hM j (by omega)
  have aE := ((approx_ser (R := binary64) n c).ema hw hw2 (le_refl _) (fun i hi _ => hM i hi) hM1 (by linarith) fillna).congr
    (g := emaRec (2 / ((w : K) + 1)) c) fun i _ _ => by simp
  rw [Nat.zero_add, zero_add, add_zero] at aE
  have aA := approx_atr n h l c hlh hwa hwa2 hn fillna hT hT1 hT2
  set A : Nat → K := fun i => if i < wa - 1 then 0 else wilMean (tr0 h l c) wa (i - (wa - 1)) with hA
  have bA : ∀ i, i < n → |A i| ≤ T := fun i hi => by
    rw [hA]
    dsimp only
    split_ifs
    · rw [abs_zero]; exact hT0.le
    · have := wilMean_mem (x := tr0 h l c) hwa (lo := 0) (hi := T) (i - (wa - 1))
        fun j hj => ⟨tr0_nonneg hlh (by omega), hT j (by omega)⟩
      rw [abs_of_nonneg this.1]; exact this.2
  have aK := aA.cmul (l := (rk k : Double K)) (c := k) rfl (B := 1.02 * (|k| * T) + M) (fun i hi _ => by
    have := mul_le_mul_of_nonneg_left (bA i hi) (abs_nonneg k)
    linarith) (by linarith) (by linarith)
  have bK : ∀ i, i < n → |k * A i| ≤ |k| * T := fun i hi => by
    rw [abs_mul]; exact mul_le_mul_of_nonneg_left (bA i hi) (abs_nonneg _)
  have aK := aK.mono (δ' := eps * (1.1 * M + (10 * wa + 1.1) * (|k| * T))) (by linarith)
  have hB : ∀ x y : K, |x| ≤ M → |y| ≤ |k| * T → ∀ z, |z| ≤ |x| + |y| →
      |z| + 20 * ((w : K) + 1) * eps * M + eps * (1.1 * M + (10 * wa + 1.1) * (|k| * T)) ≤ 1.1 * M + 1.1 * (|k| * T) :=
    fun x y hx hy z hz => by linarith
  have aH := (aE.sadd aK (B := 1.1 * M + 1.1 * (|k| * T)) (fun i hi _ => hB _ _ (bE i hi) (bK i hi) _ (abs_add_le _ _))
    (by linarith) (by linarith)).mono (δ' := eps * ((20 * w + 24) * M + (10 * wa + 4) * (|k| * T))) (by linarith)
  have aL := (aE.sub aK (M := 1.1 * M + 1.1 * (|k| * T)) (fun i hi _ => hB _ _ (bE i hi) (bK i hi) _ (abs_sub _ _))
    (by linarith) (by linarith)).mono (δ' := eps * ((20 * w + 24) * M + (10 * wa + 4) * (|k| * T))) (by linarith)
  rw [max_eq_left (Nat.zero_le _)] at aH aL
  have hl : (dser n c).length = n := by simp [rser]
  have hl2 : (ser n c).length = n := by simp [ser]
  have hex : averageTrueRange (ser n h) (ser n l) (ser n c) wa fillna =
      .ok (checkFillna fillna (.const (lit 0)) (ATR.run (ser n h) (ser n l) (ser n c) wa)) := by
    unfold averageTrueRange
    rw [hl2, max_eq_left hwa, if_neg (by omega)]
  have hk2 : Keltner.new (ser n h) (ser n l) (ser n c) w wa fillna false (.fin k) = .ok (Keltner.runAtr (ser n c)
      (checkFillna fillna (.const (lit 0)) (ATR.run (ser n h) (ser n l) (ser n c) wa)) w fillna (.fin k)) := by
    rw [Keltner.new_atr_eq, if_neg (by omega), hl2, max_eq_left hwa, if_neg (by omega)]
  obtain ⟨atr, ⟨out, o1, o2⟩, _, H⟩ := keltner_atr_formula hlh hw hwa hk2
  have hD := (atr_formula hlh hwa hex).2
  have hAA : ∀ i, i < n → atr i = A i := fun i hi => by
    have q1 := o2.val i hi (Nat.zero_le _)
    have q2 := hD.val i hi (Nat.zero_le _)
    rw [hex] at o1
    rw [← Except.ok.inj o1, q2] at q1
    exact (Val.fin.inj q1).symm
  have hp : fillna = true → (if fillna = true then 0 else w - 1) = 0 := fun hf => by rw [if_pos hf]
  refine ⟨_, _, by rw [Keltner.new_atr_eq, if_neg (by omega), hl, max_eq_left hwa, if_neg (by omega)], hk2, ?_, ?_, ?_⟩
  · rw [(run_atr_eq _ _ _ _ _).1]; exact (aE.fillOr hp _).close H.mband
  · rw [(run_atr_eq _ _ _ _ _).2.1]; exact (aH.fillOr hp _).close (H.hband.congr fun i hi _ => by rw [hAA i hi])
  · rw [(run_atr_eq _ _ _ _ _).2.2]; exact (aL.fillOr hp _).close (H.lband.congr fun i hi _ => by rw [hAA i hi])

/-! ## PPO and PVO -/

set_option maxHeartbeats 1000000 in
/-- C84: PPO (of closes) and PVO (of volumes) in double precision, on data between `m` and `r m`: the line is within
`4000 (2 slow + fast + 6) 2^-53 r^2` of the exact one, and similar bounds hold for signal and histogram. -/
theorem ppo_double (n : Nat) (x : Nat → K) {slow fast sign : Nat} (h1 : 1 ≤ slow) (h2 : 1 ≤ fast) (h3 : 1 ≤ sign)
    (q1 : slow ≤ 2 ^ 40) (q2 : fast ≤ 2 ^ 40) (q3 : sign ≤ 2 ^ 40) (fillna : Bool) {m r : K}
    (hx : ∀ i, i < n → m ≤ x i ∧ x i ≤ r * m) (hm : tiny ≤ m) (hr : 1 ≤ r) (hM2 : r * m ≤ huge)
    (hr2 : 1000 * ((slow : K) + fast + 3) * eps * r ≤ 1) :
    ∃ (o : PPO (Double K)) (e : PPO (Val K)),
      PPO.new (dser n x) slow fast sign fillna = .ok o ∧ PPO.new (ser n x) slow fast sign fillna = .ok e ∧
      CloseTo (4000 * (2 * (slow : K) + fast + 6) * eps * r ^ 2) o.ppo e.ppo ∧
      CloseTo (4000 * (2 * (slow : K) + fast + sign + 7) * eps * r ^ 2) o.ppoSignal e.ppoSignal ∧
      CloseTo (4000 * (4 * (slow : K) + 2 * fast + sign + 14) * eps * r ^ 2) o.ppoHist e.ppoHist := by
  have hne : ¬ (slow < 1 ∨ fast < 1 ∨ sign < 1) := by omega
  have hcap := huge_cap (K := K)
  have h1c := thousand_le_cap (K := K)
  have ht := tiny_pos (K := K)
  have ht1 := tiny_le_one (K := K)
  have hu := eps_pos (K := K)
  have hu1 := eps_small (K := K)
  have hm0 : 0 < m := ht.trans_le hm
  have hr0 : 0 < r := by linarith
  set M := r * m with hM
  have hmM : m ≤ M := le_mul_of_one_le_left hm0.le hr
  have hM0 : 0 < M := hm0.trans_le hmM
  have hM1 : tiny ≤ M := hm.trans hmM
  have w1 := eps_win (K := K) q1
  have w2 := eps_win (K := K) q2
  have w3 := eps_win (K := K) q3
  have v1 : 20 * ((slow : K) + 1) * eps * M ≤ M / 50 := by
    have := mul_le_mul_of_nonneg_right w1 hM0.le
    linarith
  have v2 : 20 * ((fast : K) + 1) * eps * M ≤ M / 50 := by
    have := mul_le_mul_of_nonneg_right w2 hM0.le
    linarith
  have v4 : 0 < eps * M := mul_pos hu hM0
  have ax : ∀ i, i < n → |x i| ≤ M := fun i hi => by rw [abs_of_pos (hm0.trans_le (hx i hi).1)]; exact (hx i hi).2
  have hmem : ∀ {w : Nat}, 1 ≤ w → ∀ i, i < n → m ≤ emaW w x i ∧ emaW w x i ≤ M := fun {w} hw i hi => by
    have p1 : (0 : K) ≤ 2 / ((w : K) + 1) := by positivity
    have p2 : 2 / ((w : K) + 1) ≤ 1 := by rw [div_le_one (by positivity)]; exact_mod_cast (by omega)
    exact ⟨emaRec_lower p1 p2 fun j hj => (hx j (by omega)).1,
      (le_abs_self _).trans (emaRec_abs p1 p2 fun j hj => ax j (by omega))⟩
  have aF := ((approx_ser (R := binary64) n x).ema h2 q2 (le_refl _) (fun i hi _ => ax i hi) hM1 (by linarith) fillna).congr
    (g := emaW fast x) fun i _ _ => by unfold emaW; simp
  have aS := ((approx_ser (R := binary64) n x).ema h1 q1 (le_refl _) (fun i hi _ => ax i hi) hM1 (by linarith) fillna).congr
    (g := emaW slow x) fun i _ _ => by unfold emaW; simp
  rw [Nat.zero_add, zero_add, add_zero] at aF aS
  have bD : ∀ i, i < n → |emaW fast x i - emaW slow x i| ≤ M := fun i hi => by
    have k1 := hmem h2 i hi
    have k2 := hmem h1 i hi
    rw [abs_le]; constructor <;> linarith
  have aD := (aF.sub aS (M := 2 * M) (fun i hi _ => by linarith [bD i hi]) (by linarith) (by linarith)).mono
    (δ' := 20 * ((slow : K) + fast + 3) * eps * M) (by linarith)
  have hS0 : (0 : K) ≤ slow := Nat.cast_nonneg _
  have hF0 : (0 : K) ≤ fast := Nat.cast_nonneg _
  have hG0 : (0 : K) ≤ sign := Nat.cast_nonneg _
  have hrcap : 1000 * r ≤ cap := by
    have k1 : (1 : K) ≤ eps * cap := by
      unfold eps cap
      rw [← zpow_add₀ (by norm_num)]
      exact one_le_zpow₀ (by norm_num) (by norm_num)
    have k2 : eps * (1000 * r) ≤ eps * cap := by
      have k3 : 0 ≤ (slow : K) * (eps * r) := by positivity
      have k4 : 0 ≤ (fast : K) * (eps * r) := by positivity
      have k5 : 0 ≤ eps * r := by positivity
      linarith
    exact le_of_mul_le_mul_left k2 hu
  have er : 0 < eps * r := mul_pos hu hr0
  have er2 : eps * r ≤ eps * r ^ 2 := by
    have := mul_le_mul_of_nonneg_left hr er.le
    linarith
  have ser : (slow : K) * (eps * r) ≤ slow * (eps * r ^ 2) := mul_le_mul_of_nonneg_left er2 hS0
  have fer : (fast : K) * (eps * r) ≤ fast * (eps * r ^ 2) := mul_le_mul_of_nonneg_left er2 hF0
  have ger : (sign : K) * (eps * r) ≤ sign * (eps * r ^ 2) := mul_le_mul_of_nonneg_left er2 hG0
  have ser0 : 0 ≤ (slow : K) * (eps * r) := by positivity
  have fer0 : 0 ≤ (fast : K) * (eps * r) := by positivity
  have hr3 : 1000 * ((slow : K) + fast + 3) * eps * r ^ 2 ≤ r := by
    have := mul_le_mul_of_nonneg_right hr2 hr0.le
    linarith
  have ser2 : 0 ≤ (slow : K) * (eps * r ^ 2) := by positivity
  have fer2 : 0 ≤ (fast : K) * (eps * r ^ 2) := by positivity
  have er3 : 0 < eps * r ^ 2 := by positivity
  have eq : 2 * (20 * ((slow : K) + fast + 3) * eps * M + r * (20 * ((slow : K) + 1) * eps * M)) / m
      = 40 * (((slow : K) + fast + 3) * (eps * r) + ((slow : K) + 1) * (eps * r ^ 2)) := by
    rw [hM]; field_simp; ring
  have hE : 2 * (20 * ((slow : K) + 1) * eps * M) ≤ m := by
    have := mul_le_mul_of_nonneg_right hr2 hm0.le
    have k : 40 * ((slow : K) * (eps * r)) * m + 40 * (eps * r) * m ≤ m := by
      have k1 : 0 ≤ (slow : K) * (eps * r) * m := by positivity
      have k2 : 0 ≤ (fast : K) * (eps * r) * m := by positivity
      have k3 : 0 ≤ (eps * r) * m := by positivity
      linarith
    rw [hM]; linarith
  have aQ := aD.sdiv aS hm0 (Q := r) (B := 1.1 * r) (fun i hi _ => (hmem h1 i hi).1.trans (le_abs_self _)) hE
    (fun i hi _ => (bD i hi).trans (mul_le_mul_of_nonneg_left ((hmem h1 i hi).1.trans (le_abs_self _)) hr0.le))
    (by rw [eq]; linarith) (by linarith) (by linarith)
  rw [eq, max_eq_left (le_max_right _ _)] at aQ
  have aQ := aQ.mono (δ' := 40 * (2 * (slow : K) + fast + 5) * (eps * r ^ 2)) (by linarith)
  set p := max (if fillna = true then 0 else fast - 1) (if fillna = true then 0 else slow - 1) with hp
  have bQ : ∀ i, i < n → |(emaW fast x i - emaW slow x i) / emaW slow x i| ≤ r := fun i hi => by
    have k := hmem h1 i hi
    have k0 : 0 < emaW slow x i := hm0.trans_le k.1
    rw [abs_div, abs_of_pos k0, div_le_iff₀ k0]
    exact (bD i hi).trans (mul_le_mul_of_nonneg_left k.1 hr0.le)
  have aL := (aQ.mulc lit100k (B := 120 * r) (fun i hi _ => by
    have := bQ i hi
    rw [abs_of_pos (by norm_num : (0 : K) < 100)]
    linarith) (by linarith) (by linarith)).mono (δ' := 4000 * (2 * (slow : K) + fast + 6) * eps * r ^ 2) (by
      rw [abs_of_pos (by norm_num : (0 : K) < 100)]
      linarith)
  set L : Nat → K := fun i => (emaW fast x i - emaW slow x i) / emaW slow x i * 100 with hL
  have bL : ∀ i, i < n → |L i| ≤ 100 * r := fun i hi => by
    rw [hL]
    dsimp only
    rw [abs_mul, abs_of_pos (by norm_num : (0 : K) < 100)]
    linarith [bQ i hi]
  have e8 : 4000 * (2 * (slow : K) + fast + 6) * eps * r ^ 2 ≤ 8 * r := by linarith
  have w4 : 20 * ((sign : K) + 1) * eps * (100 * r + 8 * r) ≤ 4 * r := by
    have := mul_le_mul_of_nonneg_right w3 hr0.le
    linarith
  have ger0 : 0 ≤ (sign : K) * (eps * r ^ 2) := by positivity
  have k2 := mul_le_mul_of_nonneg_left e8 (by positivity : 0 ≤ 20 * ((sign : K) + 1) * eps)
  have aG0 := aL.ema h3 q3 (by positivity) (fun i hi _ => bL i hi) (by linarith) (by linarith) fillna
  have aG := aG0.mono (δ' := 4000 * (2 * (slow : K) + fast + sign + 7) * eps * r ^ 2) (by linarith)
  have bG : ∀ i, i < n → p ≤ i → |emaW sign (fun j => L (p + j)) (i - p)| ≤ 100 * r := fun i hi hpi =>
    emaRec_abs (by positivity) (by rw [div_le_one (by positivity)]; exact_mod_cast (by omega)) fun j hj => bL _ (by omega)
  have aH := (aL.sub aG0 (M := 300 * r) (fun i hi hpi => by
      have k3 := bL i hi
      have k4 := bG i hi (le_of_max_le_left hpi)
      have k5 := abs_sub (L i) (emaW sign (fun j => L (p + j)) (i - p))
      refine le_trans (add_le_add (add_le_add_left k5 _) (le_refl _)) ?_
      linarith) (by linarith) (by linarith)).mono
    (δ' := 4000 * (4 * (slow : K) + 2 * fast + sign + 14) * eps * r ^ 2) (by linarith)
  have hF := (def_ser n x).ema0 h2 fillna
  have hS := (def_ser n x).ema0 h1 fillna
  have hLd := ((hF.ssub hS).sdiv hS (fun i hi _ _ => (hm0.trans_le (hmem h1 i hi).1).ne')).mulc 100
  rw [← hp, max_eq_left (le_max_right _ _)] at hLd
  have h100 : (Val.fin 100 : Val K) = lit 100 := by rw [lit_fin]; push_cast; rfl
  rw [h100] at hLd
  have hGd := hLd.ema h3 fillna
  have hHd := hLd.ssub hGd
  refine ⟨_, _, by rw [PPO.new_eq, if_neg hne], by rw [PPO.new_eq, if_neg hne], ?_⟩
  have hp0 : fillna = true → p = 0 := fun h => by rw [hp, if_pos h, if_pos h]; rfl
  have hp1 : fillna = true → p + (if fillna = true then 0 else sign - 1) = 0 := fun h => by rw [hp0 h, if_pos h]
  have hp2 : fillna = true → max p (p + (if fillna = true then 0 else sign - 1)) = 0 := fun h => by rw [hp1 h, hp0 h]; rfl
  exact ⟨(aL.fillOr hp0 _).close (hLd.fillOr hp0 _), (aG.fillOr hp1 _).close (hGd.fillOr hp1 _),
    (aH.fillOr hp2 _).close (hHd.fillOr hp2 _)⟩

/-! ## examples -/

example : forceIndex (ser 4 zigzag) (ser 4 fun _ => 3) 2 = .ok [.nan, .nan, .fin (-1), .fin (5 / 3)] := by decide +kernel
example : forceIndex (dser 4 zigzag) (dser 4 fun _ => 3) 2 = .ok [nan, nan, rk (-1),
    rk (3752999689475413 / 2251799813685248)] := by decide +kernel

example : (PPO.new (ser 4 zigzag) 3 1 2).map (fun o => (o.ppo, o.ppoSignal, o.ppoHist)) = .ok ([.nan, .nan, .fin (-20),
    .fin (300 / 13)], [.nan, .nan, .nan, .fin (340 / 39)], [.nan, .nan, .nan, .fin (560 / 39)]) := by decide +kernel
example : (PPO.new (dser 4 zigzag) 3 1 2).map (fun o => (o.ppo, o.ppoSignal, o.ppoHist)) = .ok ([nan, nan, rk (-20),
    rk (6495576385630523 / 281474976710656)], [nan, nan, nan, rk (613471103087327 / 70368744177664)],
    [nan, nan, nan, rk (4041691973281215 / 281474976710656)]) := by decide +kernel

/-- the bounds for a million rows of `zigzag` and the default windows: the PPO line is within `10^-9` -/
example : ∃ (o : PPO (Double ℚ)) (e : PPO (Val ℚ)),
    PPO.new (dser 1000000 zigzag) = .ok o ∧ PPO.new (ser 1000000 zigzag) = .ok e ∧
    CloseTo (1 / 10 ^ 9) o.ppo e.ppo := by
  have hu : (eps : ℚ) = 1 / 2 ^ 53 := by unfold eps; norm_num
  obtain ⟨o, e, h1, h2, h3, _⟩ := ppo_double 1000000 zigzag (slow := 26) (fast := 12) (sign := 9) (by norm_num)
    (by norm_num) (by norm_num) (by norm_num) (by norm_num) (by norm_num) false (m := 1) (r := 2)
    (fun i _ => by unfold zigzag; split_ifs <;> norm_num) tiny_le_one (by norm_num)
    (by
      have : (2 : ℚ) ^ (1 : ℤ) ≤ 2 ^ (900 : ℤ) := zpow_le_zpow_right₀ (by norm_num) (by norm_num)
      exact le_trans (by norm_num) this)
    (by rw [hu]; norm_num)
  exact ⟨o, e, h1, h2, h3.mono (by rw [hu]; norm_num)⟩

example : (Keltner.new (dser 4 fun i => zigzag i + 3) (dser 4 zigzag) (dser 4 zigzag) 2 3 false false (rk 2)).map
    (fun o => (o.mband, o.hband)) = .ok ([nan, rk (3752999689475413 / 2251799813685248),
      rk (1376099886140985 / 1125899906842624), rk (7839599351348641 / 4503599627370496)],
     [nan, rk (3752999689475413 / 2251799813685248), rk (2220524816272953 / 281474976710656),
      rk (4983149587692355 / 562949953421312)]) := by decide +kernel

end TA
