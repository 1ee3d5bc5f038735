import Verif.Props.C83
import Verif.Props.C116

/-!
# C117: highs and lows lose nothing to rounding

The running maximum and minimum compare and select, so in double precision they are exact.  What is computed from them
row by row — %K, Williams %R, the Donchian channel, the Ichimoku lines, Aroon — is a few roundings away from the exact
value, whatever the length of the history and the windows.
-/

set_option linter.unusedSectionVars false

namespace TA
variable {K : Type} [Field K] [LinearOrder K] [IsStrictOrderedRing K] [FloorRing K]

/-! ## filling and shifting preserve closeness -/

theorem close_num {ε : K} {s : Series (Double K)} {t : Series (Val K)} (h : CloseTo ε s t) {k : Nat} (hk : k < t.length) :
    Num (F := Val K) (ix s k) ↔ Num (ix t k) := by
  rcases h.2 k hk with ⟨a, b⟩ | ⟨y, z, a, b, _⟩
  · constructor
    · intro q
      obtain ⟨x, hx⟩ := num_iff.mp q
      exact absurd (a.symm.trans hx) (by simp)
    · intro q
      obtain ⟨x, hx⟩ := num_iff.mp q
      exact absurd (b.symm.trans hx) (by simp)
  · exact ⟨fun _ => num_iff.mpr ⟨z, b⟩, fun _ => num_iff.mpr ⟨y, a⟩⟩

theorem close_row {ε : K} {s : Series (Double K)} {t : Series (Val K)} (h : CloseTo ε s t) {k : Nat} (hk : k < t.length)
    (hn : Num (ix t k)) : ∃ y z : K, ix s k = Val.fin y ∧ ix t k = .fin z ∧ |y - z| ≤ ε := by
  rcases h.2 k hk with ⟨_, b⟩ | h
  · obtain ⟨x, hx⟩ := num_iff.mp hn
    exact absurd (b.symm.trans hx) (by simp)
  · exact h

theorem CloseTo.const {ε : K} {s : Series (Double K)} {t : Series (Val K)} (h : CloseTo ε s t) {v : Double K} {v' : Val K}
    {y z : K} (hv : v = rk y) (hv' : v' = .fin z) (hyz : |y - z| ≤ ε) (b : Bool) :
    CloseTo ε (checkFillna b (.const v) s) (checkFillna b (.const v') t) := by
  cases b with
  | false => exact h
  | true =>
    refine ⟨by simpa using h.1, fun i hi => .inr ?_⟩
    have hi' : i < t.length := by simpa using hi
    have his : i < s.length := h.1 ▸ hi'
    rcases latest (fun k => Num (ix t k)) i with ⟨j, h1, h2, h3⟩ | h1
    · obtain ⟨y', z', e1, e2, e3⟩ := close_row h (lt_of_le_of_lt h1 hi') h2
      refine ⟨y', z', Eq.trans (checkFillna_ffill (F := Val K) (s := s) (v := .const v) h1 his
        ((close_num h (lt_of_le_of_lt h1 hi')).mpr h2) fun k a b => fun q => h3 k a b ((close_num h (lt_of_le_of_lt b hi')).mp q)) e1,
        (checkFillna_ffill h1 hi' h2 h3).trans e2, e3⟩
    · exact ⟨y, z, Eq.trans (checkFillna_const_none (F := Val K) (s := s) his
        fun k a q => h1 k a ((close_num h (lt_of_le_of_lt a hi')).mp q)) hv, (checkFillna_const_none hi' h1).trans hv', hyz⟩

theorem CloseTo.back {ε : K} {s : Series (Double K)} {t : Series (Val K)} (h : CloseTo ε s t) (b : Bool) :
    CloseTo ε (checkFillna b .back s) (checkFillna b .back t) := by
  cases b with
  | false => exact h
  | true =>
    refine ⟨by simpa using h.1, fun i hi => ?_⟩
    have hi' : i < t.length := by simpa using hi
    have his : i < s.length := h.1 ▸ hi'
    rcases latest (fun k => Num (ix t k)) i with ⟨j, h1, h2, h3⟩ | h1
    · obtain ⟨y', z', e1, e2, e3⟩ := close_row h (lt_of_le_of_lt h1 hi') h2
      exact .inr ⟨y', z', Eq.trans (checkFillna_ffill (F := Val K) (s := s) (v := .back) h1 his
        ((close_num h (lt_of_le_of_lt h1 hi')).mpr h2) fun k a b => fun q => h3 k a b ((close_num h (lt_of_le_of_lt b hi')).mp q)) e1,
        (checkFillna_ffill h1 hi' h2 h3).trans e2, e3⟩
    · rcases earliest (fun k => Num (ix t k)) 0 t.length with ⟨j, _, h3, h4, h5⟩ | h2
      · have hij : i ≤ j := by
          by_contra hc
          exact h1 j (by omega) h4
        obtain ⟨y', z', e1, e2, e3⟩ := close_row h h3 h4
        exact .inr ⟨y', z', Eq.trans (checkFillna_back_later (F := Val K) (s := s) hij (h.1 ▸ h3) ((close_num h h3).mpr h4)
          fun k a q => h5 k (Nat.zero_le _) a ((close_num h (a.trans h3)).mp q)) e1,
          (checkFillna_back_later hij h3 h4 fun k a => h5 k (Nat.zero_le _) a).trans e2, e3⟩
      · exact .inl ⟨checkFillna_back_none (F := Val K) (s := s) his
          fun k a q => h2 k (Nat.zero_le _) (h.1 ▸ a) ((close_num h (h.1 ▸ a)).mp q),
          checkFillna_back_none hi' fun k a => h2 k (Nat.zero_le _) a⟩

theorem CloseTo.shiftInt {ε : K} {s : Series (Double K)} {t : Series (Val K)} (h : CloseTo ε s t) (k : Int) :
    CloseTo ε (TA.shiftInt s k) (TA.shiftInt t k) := by
  refine ⟨by simpa using h.1, fun i hi => ?_⟩
  have hi' : i < t.length := by simpa using hi
  unfold TA.shiftInt
  rw [ix_tab_lt hi', ix_tab_lt (h.1 ▸ hi' : i < s.length)]
  split_ifs with hk
  · exact .inl ⟨rfl, rfl⟩
  · by_cases hj : ((i : Int) - k).toNat < t.length
    · exact h.2 _ hj
    · refine .inl ⟨?_, ?_⟩
      · exact ix_ge (F := Val K) (s := s) (le_of_eq_of_le h.1 (by omega))
      · exact ix_ge (by omega)

/-! ## running extremes -/

theorem extremes (n : Nat) (h l : Nat → K) {w mp : Nat} (hw : 1 ≤ w) (hm : mp ≤ w) :
    Def (rollMax w mp (ser n h)) n (mp - 1) (wmax h w) ∧ Def (rollMin w mp (ser n l)) n (mp - 1) (wmin l w) := by
  have e : 0 + max mp 1 - 1 = mp - 1 := by omega
  refine ⟨?_, ?_⟩
  · have := (def_ser n h).rollMax' hw hm
    rw [e] at this
    refine this.congr fun i _ _ => ?_
    unfold wmax
    rw [show winIx (min w (i + 1 - 0)) i = winIx w i from by unfold winIx; congr 1 <;> omega]
  · have := (def_ser n l).rollMin' hw hm
    rw [e] at this
    refine this.congr fun i _ _ => ?_
    unfold wmin
    rw [show winIx (min w (i + 1 - 0)) i = winIx w i from by unfold winIx; congr 1 <;> omega]

/-- Bars a double can work with: the close within its bar, sizes up to `2^900`, and no high and low less than `2^-900`
apart unless they are equal. -/
structure Spread (n : Nat) (h l c : Nat → K) : Prop where
  order : ∀ i, i < n → l i ≤ c i ∧ c i ≤ h i
  bound : ∀ i, i < n → |h i| ≤ huge ∧ |l i| ≤ huge
  gap : ∀ i j, i < n → j < n → h i = l j ∨ tiny ≤ |h i - l j|

theorem Spread.range {n : Nat} {h l c : Nat → K} (hb : Spread n h l c) {w i : Nat} (hw : 1 ≤ w) (hi : i < n) :
    wmin l w i ≤ c i ∧ c i ≤ wmax h w i ∧ (wmax h w i = wmin l w i ∨ tiny ≤ wmax h w i - wmin l w i) ∧
      wmax h w i - wmin l w i ≤ 2 * huge := by
  obtain ⟨⟨j, j1, j2, j3⟩, jM⟩ := wmax_spec h (w := w) (i := i) hw
  obtain ⟨⟨k, k1, k2, k3⟩, km⟩ := wmin_spec l (w := w) (i := i) hw
  have h1 := jM i (le_refl _) (by omega)
  have h2 := km i (le_refl _) (by omega)
  have h3 := hb.order i hi
  refine ⟨h2.trans h3.1, h3.2.trans h1, ?_, ?_⟩
  · have := hb.gap j k (by omega) (by omega)
    rw [← j3, ← k3] at this
    rcases this with h4 | h4
    · exact .inl h4
    · rw [abs_of_nonneg (by linarith)] at h4
      exact .inr h4
  · have a := abs_le.mp (hb.bound j (by omega)).1
    have b := abs_le.mp (hb.bound k (by omega)).2
    rw [j3, k3]
    linarith

/-! ## one row -/

theorem huge_cap' : 1000 * (huge : K) ≤ cap := by
  have e : (cap : K) = 2 ^ (100 : ℤ) * huge := by
    unfold cap huge
    rw [← zpow_add₀ (by norm_num)]; norm_num only
  rw [e]
  refine mul_le_mul_of_nonneg_right ?_ (two_zpow_pos _).le
  have : (2 : K) ^ (10 : ℤ) ≤ 2 ^ (100 : ℤ) := zpow_le_zpow_right₀ (by norm_num) (by norm_num)
  exact le_trans (by norm_num) this

/-- a quotient whose numerator and denominator carry an error -/
theorem frac_near {p t d d' A B : K} (hd : tiny ≤ d) (h1 : |d' - d| ≤ 1.001 * (eps * d))
    (hp : |p - t| ≤ A * (eps * d)) (ht : |t| ≤ B * d) (hA0 : 0 ≤ A) (hA : A ≤ 400) (hB1 : 1 ≤ B) (hB : B ≤ 100) :
    ∃ y, (rk p /. rk d' : Double K) = rk y ∧ |y - t / d| ≤ (1.01 * A + 2.04 * B) * eps := by
  have hd0 : 0 < d := tiny_pos.trans_le hd
  have he := eps_pos (K := K)
  have he1 := eps_small (K := K)
  have ht1 := tiny_le_one (K := K)
  have hc := thousand_le_cap (K := K)
  have hed : eps * d ≤ 1 / 1000 * d := mul_le_mul_of_nonneg_right he1 hd0.le
  have hed0 : 0 < eps * d := mul_pos he hd0
  have h2 := abs_le.mp h1
  have hdd : 0.998 * d ≤ d' := by linarith
  have hd'0 : 0 < d' := by linarith
  -- the exact quotient of the two
  have key : |p / d' - t / d| ≤ (A * 1.003 + B * 1.004) * eps := by
    have e : p / d' - t / d = ((p - t) * d + t * (d - d')) / (d' * d) := by
      field_simp; ring
    rw [e, abs_div, abs_of_pos (mul_pos hd'0 hd0), div_le_iff₀ (mul_pos hd'0 hd0)]
    have k1 : |(p - t) * d + t * (d - d')| ≤ A * (eps * d) * d + B * d * (1.001 * (eps * d)) := by
      refine (abs_add_le _ _).trans (add_le_add ?_ ?_)
      · rw [abs_mul, abs_of_pos hd0]
        exact mul_le_mul_of_nonneg_right hp hd0.le
      · rw [abs_mul, abs_sub_comm d d']
        exact mul_le_mul ht h1 (abs_nonneg _) (by positivity)
    refine k1.trans ?_
    have k2 : (A * 1.003 + B * 1.004) * eps * (0.998 * d * d) ≤ (A * 1.003 + B * 1.004) * eps * (d' * d) := by
      refine mul_le_mul_of_nonneg_left (mul_le_mul_of_nonneg_right hdd hd0.le) ?_
      positivity
    refine le_trans ?_ k2
    have k3 : 0 ≤ A * (eps * d * d) := by positivity
    have k4 : 0 ≤ B * (eps * d * d) := by positivity
    have e1 : A * (eps * d) * d + B * d * (1.001 * (eps * d)) = A * (eps * d * d) + 1.001 * (B * (eps * d * d)) := by ring
    have e2 : (A * 1.003 + B * 1.004) * eps * (0.998 * d * d) =
        1.003 * 0.998 * (A * (eps * d * d)) + 1.004 * 0.998 * (B * (eps * d * d)) := by ring
    rw [e1, e2]
    norm_num
    linarith
  have hq : |p / d'| ≤ 1.01 * B + 0.005 * A := by
    have k1 : |t / d| ≤ B := by rw [abs_div, abs_of_pos hd0, div_le_iff₀ hd0]; exact ht
    have k2 := abs_add_le (p / d' - t / d) (t / d)
    rw [sub_add_cancel] at k2
    have k3 : (A * 1.003 + B * 1.004) * eps ≤ (A * 1.003 + B * 1.004) * (1 / 1000) :=
      mul_le_mul_of_nonneg_left he1 (by positivity)
    linarith
  obtain ⟨y, y1, y2⟩ := near_div (x := p) (y := d') hd'0.ne' hq (by linarith) (by linarith)
  refine ⟨y, y1, ?_⟩
  have := abs_add_le (y - p / d') (p / d' - t / d)
  rw [sub_add_sub_cancel] at this
  refine this.trans ((add_le_add y2 key).trans ?_)
  have e : 1.001 * (eps * (1.01 * B + 0.005 * A)) + (A * 1.003 + B * 1.004) * eps =
      (1.008005 * A + 2.01501 * B) * eps := by ring
  rw [e]
  refine mul_le_mul_of_nonneg_right ?_ he.le
  linarith

/-- `q * (a - b) / d` with `|a - b| ≤ d` -/
theorem scaled_near {q a b M m : K} (hd : tiny ≤ M - m) (hd2 : M - m ≤ 2 * huge) (h : |a - b| ≤ M - m)
    (hq : |q| ≤ 100) :
    ∃ y, ((rk q *. (rk a -. rk b)) /. (rk M -. rk m) : Double K) = rk y ∧
      |y - q * (a - b) / (M - m)| ≤ 410 * eps := by
  have he := eps_pos (K := K)
  have he1 := eps_small (K := K)
  have hhc := huge_cap' (K := K)
  have hd0 : 0 < M - m := tiny_pos.trans_le hd
  have hh0 : (0 : K) < huge := two_zpow_pos _
  generalize hdd : M - m = d at *
  have hed : eps * d ≤ 1 / 1000 * d := mul_le_mul_of_nonneg_right he1 hd0.le
  have hed0 : 0 < eps * d := mul_pos he hd0
  have hdc : d ≤ cap := by linarith
  obtain ⟨d', d1, d2⟩ := near_sub (x := M) (y := m) (B := d) (by rw [hdd, abs_of_pos hd0]) hd hdc
  rw [hdd] at d2
  obtain ⟨e', e1, e2⟩ := near_sub (x := a) (y := b) h hd hdc
  have e3 : |q * e'| ≤ 100.2 * d := by
    rw [abs_mul]
    have k := abs_add_le (e' - (a - b)) (a - b)
    rw [sub_add_cancel] at k
    have k1 : |e'| ≤ 1.002 * d := by linarith
    calc |q| * |e'| ≤ 100 * (1.002 * d) := mul_le_mul hq k1 (abs_nonneg _) (by norm_num)
      _ = 100.2 * d := by ring
  obtain ⟨p, p1, p2⟩ := near_mul (x := q) (y := e') e3 (by linarith) (by linarith)
  have p3 : |p - q * (a - b)| ≤ 200.5 * (eps * d) := by
    have k := abs_add_le (p - q * e') (q * e' - q * (a - b))
    rw [sub_add_sub_cancel] at k
    have k1 : |q * e' - q * (a - b)| ≤ 100 * (1.001 * (eps * d)) := by
      rw [← mul_sub, abs_mul]
      exact mul_le_mul hq e2 (abs_nonneg _) (by norm_num)
    refine k.trans ((add_le_add p2 k1).trans ?_)
    have : 1.001 * (eps * (100.2 * d)) + 100 * (1.001 * (eps * d)) = 200.4002 * (eps * d) := by ring
    rw [this]
    linarith
  obtain ⟨y, y1, y2⟩ := frac_near (t := q * (a - b)) (A := 200.5) (B := 100) hd d2 p3
    (by rw [abs_mul]; exact mul_le_mul hq h (abs_nonneg _) (by norm_num)) (by norm_num) (by norm_num) (by norm_num) (le_refl _)
  refine ⟨y, by rw [e1, d1, p1, y1], y2.trans ?_⟩
  refine mul_le_mul_of_nonneg_right ?_ he.le
  norm_num

/-- `(a - b) / d` -/
theorem share_near {a b M m : K} (hd : tiny ≤ M - m) (hd2 : M - m ≤ 2 * huge) (h : |a - b| ≤ M - m) :
    ∃ y, ((rk a -. rk b) /. (rk M -. rk m) : Double K) = rk y ∧ |y - (a - b) / (M - m)| ≤ 4 * eps := by
  have he := eps_pos (K := K)
  have hhc := huge_cap' (K := K)
  have hd0 : 0 < M - m := tiny_pos.trans_le hd
  have hh0 : (0 : K) < huge := two_zpow_pos _
  generalize hdd : M - m = d at *
  have hdc : d ≤ cap := by linarith
  obtain ⟨d', d1, d2⟩ := near_sub (x := M) (y := m) (B := d) (by rw [hdd, abs_of_pos hd0]) hd hdc
  rw [hdd] at d2
  obtain ⟨e', e1, e2⟩ := near_sub (x := a) (y := b) h hd hdc
  obtain ⟨y, y1, y2⟩ := frac_near (t := a - b) (A := 1.001) (B := 1) hd d2 e2 (by rw [one_mul]; exact h)
    (by norm_num) (by norm_num) (by norm_num) (by norm_num)
  refine ⟨y, by rw [e1, d1, y1], y2.trans ?_⟩
  refine mul_le_mul_of_nonneg_right ?_ he.le
  norm_num

theorem sub_self_double (a : K) : (rk a -. rk a : Double K) = rk 0 := by
  have e : (rk a -. rk a : Double K) = (binary64 : Rounding K).rd (a + -a) := rfl
  have := b64_int (K := K) (k := 0) (by norm_num)
  rw [Int.cast_zero] at this
  rw [e, add_neg_cancel]
  exact this

theorem mul_zero_double (a : K) : (rk a *. rk 0 : Double K) = rk 0 := by
  have e : (rk a *. rk 0 : Double K) = (binary64 : Rounding K).rd (a * 0) := rfl
  have := b64_int (K := K) (k := 0) (by norm_num)
  rw [Int.cast_zero] at this
  rw [e, mul_zero]
  exact this

theorem zero_div_zero_double : (rk 0 /. rk 0 : Double K) = Val.nan := by
  show (binary64 : Rounding K).rnd (Val.div (.fin 0) (.fin 0)) = _
  have : Val.div (.fin 0) (.fin 0) = (Val.nan : Val K) := by simp [Val.div]
  rw [this]; rfl

theorem lit_double {k : ℤ} (hk : |k| ≤ 2 ^ 52) {q : ℚ} {x : K} (hq : q = k) (hx : x = k) : (lit q : Double K) = rk x := by
  have := b64_int (K := K) hk
  subst hq hx
  show (binary64 : Rounding K).rd (((k : ℚ)) : K) = Val.fin (k : K)
  rw [Rat.cast_intCast]
  exact this

theorem lit_exact {k : ℤ} {q : ℚ} {x : K} (hq : q = k) (hx : x = k) : (lit q : Val K) = .fin x := by
  rw [lit_fin, hq, hx, Rat.cast_intCast]

/-! ## %K and Williams %R -/

/-- C117: %K in double precision is within `410 * 2^-53` of the exact value, in every row, for every window and however long
the history. -/
theorem stoch_double {n : Nat} {h l c : Nat → K} (hb : Spread n h l c) {w : Nat} (hw : 1 ≤ w) (fillna : Bool) :
    CloseTo (410 * eps) (stoch (dser n h) (dser n l) (dser n c) w fillna) (stoch (ser n h) (ser n l) (ser n c) w fillna) := by
  have he := eps_pos (K := K)
  unfold stoch
  refine CloseTo.const (y := 50) (z := 50) ?_ (lit_double (k := 50) (by norm_num) (by norm_num) (by norm_num))
    (lit_exact (k := 50) (by norm_num) (by norm_num)) (by rw [sub_self, abs_zero]; positivity) fillna
  obtain ⟨hM, hm⟩ := extremes n h l hw (minp_le fillna w)
  refine ⟨by simp [Stoch.k, ser, rser], fun i hi => ?_⟩
  replace hi : i < n := by simpa [Stoch.k, ser] using hi
  unfold Stoch.k
  dsimp only
  iterate 2 rw [ix_sdiv (by simpa [ser, rser] using hi), ix_cmul (by simpa [ser, rser] using hi),
    ix_ssub (by simpa [ser, rser] using hi), ix_ssub (by simpa [ser, rser] using hi)]
  rw [ix_rk hi, ix_num hi, lit100k, lit_fin]
  by_cases hp : i < minp fillna w - 1
  · left
    have e1 : ix (rollMin w (minp fillna w) (dser n l)) i = Val.nan := hm.gap i hi hp
    have e2 : ix (rollMax w (minp fillna w) (dser n h)) i = Val.nan := hM.gap i hi hp
    rw [hm.gap i hi hp, e1, e2]
    exact ⟨rfl, by simp⟩
  · have e1 : ix (rollMin w (minp fillna w) (dser n l)) i = rk (wmin l w i) := hm.val i hi (by omega)
    have e2 : ix (rollMax w (minp fillna w) (dser n h)) i = rk (wmax h w i) := hM.val i hi (by omega)
    rw [hm.val i hi (by omega), hM.val i hi (by omega), e1, e2]
    obtain ⟨r1, r2, r3, r4⟩ := hb.range hw hi
    rcases r3 with r3 | r3
    · left
      have : c i = wmin l w i := le_antisymm (r3 ▸ r2) r1
      rw [r3, this, sub_self_double, mul_zero_double, zero_div_zero_double, fin_sub, fin_mul, sub_self, mul_zero]
      exact ⟨rfl, by rw [fin_div_zero, if_pos rfl]⟩
    · right
      obtain ⟨y, y1, y2⟩ := scaled_near (q := 100) (a := c i) (b := wmin l w i) r3 r4 (by rw [abs_of_nonneg (by linarith)]; linarith)
        (by norm_num)
      refine ⟨y, _, y1, ?_, y2⟩
      rw [fin_sub, fin_sub, fin_mul, fin_div _ _ (tiny_pos.trans_le r3).ne']
      push_cast
      rfl

/-- C117: the same for Williams %R -/
theorem williamsR_double {n : Nat} {h l c : Nat → K} (hb : Spread n h l c) {w : Nat} (hw : 1 ≤ w) (fillna : Bool) :
    CloseTo (410 * eps) (williamsR (dser n h) (dser n l) (dser n c) w fillna)
      (williamsR (ser n h) (ser n l) (ser n c) w fillna) := by
  have he := eps_pos (K := K)
  unfold williamsR
  refine CloseTo.const (y := -50) (z := -50) ?_ (lit_double (k := -50) (by norm_num) (by norm_num) (by norm_num))
    (lit_exact (k := -50) (by norm_num) (by norm_num)) (by rw [sub_self, abs_zero]; positivity) fillna
  obtain ⟨hM, hm⟩ := extremes n h l hw (minp_le fillna w)
  refine ⟨by simp [WR.run, ser, rser], fun i hi => ?_⟩
  replace hi : i < n := by simpa [WR.run, ser] using hi
  unfold WR.run
  dsimp only
  iterate 2 rw [ix_sdiv (by simpa [ser, rser] using hi), ix_cmul (by simpa [ser, rser] using hi),
    ix_ssub (by simpa [ser, rser] using hi), ix_ssub (by simpa [ser, rser] using hi)]
  rw [ix_rk hi, ix_num hi, lit_double (k := -100) (x := -100) (by norm_num) (by norm_num) (by norm_num),
    lit_exact (k := -100) (x := -100) (by norm_num) (by norm_num)]
  by_cases hp : i < minp fillna w - 1
  · left
    have e1 : ix (rollMin w (minp fillna w) (dser n l)) i = Val.nan := hm.gap i hi hp
    have e2 : ix (rollMax w (minp fillna w) (dser n h)) i = Val.nan := hM.gap i hi hp
    rw [hM.gap i hi hp, hm.gap i hi hp, e1, e2]
    exact ⟨rfl, by simp⟩
  · have e1 : ix (rollMin w (minp fillna w) (dser n l)) i = rk (wmin l w i) := hm.val i hi (by omega)
    have e2 : ix (rollMax w (minp fillna w) (dser n h)) i = rk (wmax h w i) := hM.val i hi (by omega)
    rw [hm.val i hi (by omega), hM.val i hi (by omega), e1, e2]
    obtain ⟨r1, r2, r3, r4⟩ := hb.range hw hi
    rcases r3 with r3 | r3
    · left
      have : c i = wmin l w i := le_antisymm (r3 ▸ r2) r1
      rw [r3, this, sub_self_double, mul_zero_double, zero_div_zero_double, fin_sub, fin_mul, sub_self, mul_zero]
      exact ⟨rfl, by rw [fin_div_zero, if_pos rfl]⟩
    · right
      obtain ⟨y, y1, y2⟩ := scaled_near (q := -100) (a := wmax h w i) (b := c i) r3 r4 (by rw [abs_of_nonneg (by linarith)]; linarith)
        (by norm_num)
      refine ⟨y, _, y1, ?_, y2⟩
      rw [fin_sub, fin_sub, fin_mul, fin_div _ _ (tiny_pos.trans_le r3).ne']

/-! ## Donchian channel and Ichimoku lines -/

theorem Def.exact {t : Series (Val K)} {n p : Nat} {f : Nat → K} (h : Def t n p f) : CloseTo 0 (t : Series (Double K)) t := by
  refine ⟨rfl, fun i hi => ?_⟩
  rw [h.len] at hi
  by_cases hp : i < p
  · exact .inl ⟨h.gap i hi hp, h.gap i hi hp⟩
  · exact .inr ⟨_, _, h.val i hi (by omega), h.val i hi (by omega), by rw [sub_self, abs_zero]⟩

theorem lit_half : (lit (1 / 2) : Double K) = rk (1 / 2) := by
  have := b64_half (K := K) (k := 1) (by norm_num)
  show (binary64 : Rounding K).rd (((1 / 2 : ℚ)) : K) = Val.fin (1 / 2)
  rw [Int.cast_one] at this
  rw [← this]
  push_cast
  rfl

/-- `0.5 * (M + m)` with errors in `M` and `m` -/
theorem mid_near {M m a b P δ : K} (hP : tiny ≤ P) (hP2 : P ≤ huge) (ha : |a| ≤ P) (hb : |b| ≤ P) (hM : |M - a| ≤ δ * (eps * P))
    (hm : |m - b| ≤ δ * (eps * P)) (hδ2 : δ ≤ 10) :
    ∃ y, (rk (1 / 2) *. (rk M +. rk m) : Double K) = rk y ∧ |y - 1 / 2 * (a + b)| ≤ (δ + 2.1) * (eps * P) := by
  have he := eps_pos (K := K)
  have he1 := eps_small (K := K)
  have hhc := huge_cap' (K := K)
  have hP0 : 0 < P := tiny_pos.trans_le hP
  have hh0 : (0 : K) < huge := two_zpow_pos _
  have hed : eps * P ≤ 1 / 1000 * P := mul_le_mul_of_nonneg_right he1 hP0.le
  have hed0 : 0 < eps * P := mul_pos he hP0
  have hd1 : δ * (eps * P) ≤ 10 * (eps * P) := mul_le_mul_of_nonneg_right hδ2 hed0.le
  have a1 := abs_le.mp ha
  have b1 := abs_le.mp hb
  have M1 := abs_le.mp hM
  have m1 := abs_le.mp hm
  obtain ⟨s, s1, s2⟩ := near_add (x := M) (y := m) (B := 2.02 * P) (by rw [abs_le]; constructor <;> linarith) (by linarith) (by linarith)
  have s3 := abs_le.mp s2
  have e : 1.001 * (eps * (2.02 * P)) = 2.02202 * (eps * P) := by ring
  rw [e] at s3
  obtain ⟨y, y1, y2⟩ := near_mul (x := 1 / 2) (y := s) (B := 1.02 * P) (by rw [abs_le]; constructor <;> linarith) (by linarith) (by linarith)
  refine ⟨y, by rw [s1, y1], ?_⟩
  have y3 := abs_le.mp y2
  have e : 1.001 * (eps * (1.02 * P)) = 1.02102 * (eps * P) := by ring
  rw [e] at y3
  rw [abs_le]
  constructor <;> linarith

/-- `(M - m) / 2 + m` -/
theorem dcmid_near {M m P : K} (hP : tiny ≤ P) (hP2 : P ≤ huge) (ha : |M| ≤ P) (hb : |m| ≤ P) :
    ∃ y, (((rk M -. rk m) /. rk 2) +. rk m : Double K) = rk y ∧ |y - ((M - m) / 2 + m)| ≤ 4 * eps * P := by
  have he := eps_pos (K := K)
  have he1 := eps_small (K := K)
  have hhc := huge_cap' (K := K)
  have hP0 : 0 < P := tiny_pos.trans_le hP
  have hh0 : (0 : K) < huge := two_zpow_pos _
  have hed : eps * P ≤ 1 / 1000 * P := mul_le_mul_of_nonneg_right he1 hP0.le
  have hed0 : 0 < eps * P := mul_pos he hP0
  have a1 := abs_le.mp ha
  have b1 := abs_le.mp hb
  obtain ⟨s, s1, s2⟩ := near_sub (x := M) (y := m) (B := 2 * P) (by rw [abs_le]; constructor <;> linarith) (by linarith) (by linarith)
  have s3 := abs_le.mp s2
  have e : 1.001 * (eps * (2 * P)) = 2.002 * (eps * P) := by ring
  rw [e] at s3
  obtain ⟨q, q1, q2⟩ := near_div (x := s) (y := 2) two_ne_zero (B := 1.01 * P) (by rw [abs_le]; constructor <;> linarith) (by linarith) (by linarith)
  have q3 := abs_le.mp q2
  have e : 1.001 * (eps * (1.01 * P)) = 1.01101 * (eps * P) := by ring
  rw [e] at q3
  obtain ⟨y, y1, y2⟩ := near_add (x := q) (y := m) (B := 1.01 * P) (by rw [abs_le]; constructor <;> linarith) (by linarith) (by linarith)
  have y3 := abs_le.mp y2
  rw [e] at y3
  refine ⟨y, by rw [s1, q1, y1], ?_⟩
  rw [abs_le]
  constructor <;> linarith

/-- prices up to `P` -/
theorem wmax_bound {n : Nat} {h : Nat → K} {P : K} (hP : ∀ i, i < n → |h i| ≤ P) {w i : Nat} (hw : 1 ≤ w) (hi : i < n) :
    |wmax h w i| ≤ P := by
  obtain ⟨⟨j, j1, j2, j3⟩, -⟩ := wmax_spec h (w := w) (i := i) hw
  rw [j3]; exact hP j (by omega)

theorem wmin_bound {n : Nat} {h : Nat → K} {P : K} (hP : ∀ i, i < n → |h i| ≤ P) {w i : Nat} (hw : 1 ≤ w) (hi : i < n) :
    |wmin h w i| ≤ P := by
  obtain ⟨⟨j, j1, j2, j3⟩, -⟩ := wmin_spec h (w := w) (i := i) hw
  rw [j3]; exact hP j (by omega)

section lines
variable {n : Nat} {h l : Nat → K} {P : K}

theorem mid_approx (hP : tiny ≤ P) (hP2 : P ≤ huge) (hh : ∀ i, i < n → |h i| ≤ P) (hl : ∀ i, i < n → |l i| ≤ P)
    {w mp : Nat} (hw : 1 ≤ w) (hm : mp ≤ w) :
    Approx (Ichimoku.mid (dser n h) (dser n l) w mp) n (mp - 1) (fun i => 1 / 2 * (wmax h w i + wmin l w i)) (2.1 * (eps * P)) ∧
    Def (Ichimoku.mid (ser n h) (ser n l) w mp) n (mp - 1) (fun i => 1 / 2 * (wmax h w i + wmin l w i)) := by
  obtain ⟨eM, em⟩ := extremes n h l hw hm
  have he := eps_pos (K := K)
  have hP0 : 0 < P := tiny_pos.trans_le hP
  refine ⟨⟨by simp [Ichimoku.mid, rser], fun i hi hp => ?_, fun i hi hp => ?_⟩,
    ⟨by simp [Ichimoku.mid, ser], fun i hi hp => ?_, fun i hi hp => ?_⟩⟩ <;>
  unfold Ichimoku.mid <;>
  rw [ix_cmul (by simpa [ser, rser] using hi), ix_sadd (by simpa [ser, rser] using hi)]
  · have e1 : ix (rollMin w mp (dser n l)) i = Val.nan := em.gap i hi hp
    have e2 : ix (rollMax w mp (dser n h)) i = Val.nan := eM.gap i hi hp
    rw [e1, e2, lit_half]; rfl
  · have e1 : ix (rollMin w mp (dser n l)) i = rk (wmin l w i) := em.val i hi hp
    have e2 : ix (rollMax w mp (dser n h)) i = rk (wmax h w i) := eM.val i hi hp
    obtain ⟨y, y1, y2⟩ := mid_near (M := wmax h w i) (m := wmin l w i) (δ := 0) hP hP2 (wmax_bound hh hw hi) (wmin_bound hl hw hi)
      (by rw [sub_self, abs_zero, zero_mul]) (by rw [sub_self, abs_zero, zero_mul]) (by norm_num)
    rw [e1, e2, lit_half]
    exact ⟨y, y1, by rwa [zero_add] at y2⟩
  · rw [eM.gap i hi hp]; simp
  · rw [eM.val i hi hp, em.val i hi hp, lit_fin, fin_add, fin_mul]
    push_cast
    rfl

/-- C117: the conversion and the base line, within `2.1 * 2^-53` of the largest price -/
theorem ichimoku_lines_double (hP : tiny ≤ P) (hP2 : P ≤ huge) (hh : ∀ i, i < n → |h i| ≤ P) (hl : ∀ i, i < n → |l i| ≤ P)
    {w : Nat} (hw : 1 ≤ w) (fillna : Bool) :
    CloseTo (2.1 * (eps * P)) (ichimokuConversionLine (dser n h) (dser n l) w fillna)
      (ichimokuConversionLine (ser n h) (ser n l) w fillna) ∧
    CloseTo (2.1 * (eps * P)) (ichimokuBaseLine (dser n h) (dser n l) w fillna) (ichimokuBaseLine (ser n h) (ser n l) w fillna) := by
  obtain ⟨a, b⟩ := mid_approx hP hP2 hh hl hw (minp_le fillna w)
  exact ⟨(a.close b).back fillna, (a.close b).back fillna⟩

/-- C117: the two spans (not shifted) -/
theorem ichimoku_spans_double (hP : tiny ≤ P) (hP2 : P ≤ huge) (hh : ∀ i, i < n → |h i| ≤ P) (hl : ∀ i, i < n → |l i| ≤ P)
    {w1 w2 w3 : Nat} (hw1 : 1 ≤ w1) (hw2 : 1 ≤ w2) (hw3 : 1 ≤ w3) (fillna : Bool) :
    CloseTo (4.2 * (eps * P)) (ichimokuA (dser n h) (dser n l) w1 w2 false fillna) (ichimokuA (ser n h) (ser n l) w1 w2 false fillna) ∧
    CloseTo (2.1 * (eps * P)) (ichimokuB (dser n h) (dser n l) w2 w3 false fillna) (ichimokuB (ser n h) (ser n l) w2 w3 false fillna) := by
  have he := eps_pos (K := K)
  have hP0 : 0 < P := tiny_pos.trans_le hP
  refine ⟨?_, ?_⟩
  · obtain ⟨a1, b1⟩ := mid_approx hP hP2 hh hl hw1 (minp_le fillna w1)
    obtain ⟨a2, b2⟩ := mid_approx hP hP2 hh hl hw2 (minp_le fillna w2)
    refine CloseTo.back ?_ fillna
    show CloseTo _ (Ichimoku.spanA (dser n h) (dser n l) w1 w2 fillna) (Ichimoku.spanA (ser n h) (ser n l) w1 w2 fillna)
    have mb : ∀ {w i : Nat}, 1 ≤ w → i < n → |1 / 2 * (wmax h w i + wmin l w i)| ≤ P := by
      intro w i hw hi
      have x := abs_le.mp (wmax_bound hh hw hi)
      have y := abs_le.mp (wmin_bound hl hw hi)
      rw [abs_le]; constructor <;> linarith
    refine Approx.close (n := n) (p := max (minp fillna w1 - 1) (minp fillna w2 - 1))
      (f := fun i => 1 / 2 * (1 / 2 * (wmax h w1 i + wmin l w1 i) + 1 / 2 * (wmax h w2 i + wmin l w2 i)))
      ⟨by simp [Ichimoku.spanA, Ichimoku.mid, rser], fun i hi hp => ?_, fun i hi hp => ?_⟩
      ⟨by simp [Ichimoku.spanA, Ichimoku.mid, ser], fun i hi hp => ?_, fun i hi hp => ?_⟩ <;>
    unfold Ichimoku.spanA <;>
    rw [ix_cmul (by simpa [Ichimoku.mid, ser, rser] using hi), ix_sadd (by simpa [Ichimoku.mid, ser, rser] using hi)]
    · rw [lit_half]
      rcases lt_max_iff.mp hp with q | q
      · rw [a1.gap i hi q]; rfl
      · rw [a2.gap i hi q]
        by_cases q1 : i < minp fillna w1 - 1
        · rw [a1.gap i hi q1]; rfl
        · obtain ⟨y, y1, -⟩ := a1.val i hi (by omega)
          rw [y1]; rfl
    · obtain ⟨y1, e1, d1⟩ := a1.val i hi (by omega)
      obtain ⟨y2, e2, d2⟩ := a2.val i hi (by omega)
      obtain ⟨y, q1, q2⟩ := mid_near (δ := 2.1) hP hP2 (mb hw1 hi) (mb hw2 hi) d1 d2 (by norm_num)
      rw [e1, e2, lit_half]
      exact ⟨y, q1, q2.trans_eq (by norm_num)⟩
    · rcases lt_max_iff.mp hp with q | q
      · rw [b1.gap i hi q]; simp
      · rw [b2.gap i hi q]; simp
    · rw [b1.val i hi (by omega), b2.val i hi (by omega), lit_fin, fin_add, fin_mul]
      push_cast
      rfl
  · obtain ⟨a, b⟩ := mid_approx hP hP2 hh hl hw3 (Nat.zero_le w3)
    exact (a.close b).back fillna

end lines

/-- C117: the Donchian bands are exact, the middle line is within `4 * 2^-53` of the largest price, the position of the
close within `4 * 2^-53`. -/
theorem donchian_double {n : Nat} {h l c : Nat → K} (hb : Spread n h l c) {P : K} (hP : tiny ≤ P) (hP2 : P ≤ huge)
    (hh : ∀ i, i < n → |h i| ≤ P) (hl : ∀ i, i < n → |l i| ≤ P) {w : Nat} (hw : 1 ≤ w) (offset : Int) (fillna : Bool) :
    ∃ (o : Donchian (Double K)) (e : Donchian (Val K)),
      Donchian.new (dser n h) (dser n l) (dser n c) w offset fillna = .ok o ∧
      Donchian.new (ser n h) (ser n l) (ser n c) w offset fillna = .ok e ∧
      CloseTo 0 o.hband e.hband ∧ CloseTo 0 o.lband e.lband ∧ CloseTo (4 * eps * P) o.mband e.mband ∧
      CloseTo (4 * eps) o.pband e.pband := by
  have he := eps_pos (K := K)
  have hP0 : 0 < P := tiny_pos.trans_le hP
  obtain ⟨mp, hmp⟩ : ∃ mp, mp = if fillna then 1 else w := ⟨_, rfl⟩
  have hm : mp ≤ w := by rw [hmp]; split_ifs <;> omega
  obtain ⟨hM, hm'⟩ := extremes n h l hw hm
  refine ⟨⟨dser n c, rollMax w mp (dser n h), rollMin w mp (dser n l), w, mp, offset, fillna⟩,
    ⟨ser n c, rollMax w mp (ser n h), rollMin w mp (ser n l), w, mp, offset, fillna⟩, ?_, ?_, ?_, ?_, ?_, ?_⟩
  · unfold Donchian.new
    simp only [← hmp, chkRoll]
    rw [if_neg (by omega)]; rfl
  · unfold Donchian.new
    simp only [← hmp, chkRoll]
    rw [if_neg (by omega)]; rfl
  · unfold Donchian.hband Donchian.off
    dsimp only
    split_ifs
    · exact (hM.exact.back fillna).shiftInt offset
    · exact hM.exact.back fillna
  · unfold Donchian.lband Donchian.off
    dsimp only
    split_ifs
    · exact (hm'.exact.back fillna).shiftInt offset
    · exact hm'.exact.back fillna
  · have key : CloseTo (4 * eps * P)
        (sadd (divc (ssub (rollMax w mp (dser n h)) (rollMin w mp (dser n l))) (lit 2)) (rollMin w mp (dser n l)))
        (sadd (divc (ssub (rollMax w mp (ser n h)) (rollMin w mp (ser n l))) (lit 2)) (rollMin w mp (ser n l))) := by
      refine ⟨by simp [ser, rser], fun i hi => ?_⟩
      replace hi : i < n := by simpa [ser] using hi
      iterate 2 rw [ix_sadd (by simpa [ser, rser] using hi), ix_divc (by simpa [ser, rser] using hi),
        ix_ssub (by simpa [ser, rser] using hi)]
      rw [lit_double (k := 2) (x := 2) (by norm_num) (by norm_num) (by norm_num), lit_exact (k := 2) (x := 2) (by norm_num) (by norm_num)]
      by_cases hp : i < mp - 1
      · left
        have e1 : ix (rollMin w mp (dser n l)) i = Val.nan := hm'.gap i hi hp
        have e2 : ix (rollMax w mp (dser n h)) i = Val.nan := hM.gap i hi hp
        rw [hm'.gap i hi hp, e1, e2]
        exact ⟨rfl, by simp⟩
      · right
        have e1 : ix (rollMin w mp (dser n l)) i = rk (wmin l w i) := hm'.val i hi (by omega)
        have e2 : ix (rollMax w mp (dser n h)) i = rk (wmax h w i) := hM.val i hi (by omega)
        rw [hm'.val i hi (by omega), hM.val i hi (by omega), e1, e2]
        obtain ⟨y, y1, y2⟩ := dcmid_near hP hP2 (wmax_bound hh hw hi) (wmin_bound hl hw hi)
        exact ⟨y, _, y1, by rw [fin_sub, fin_div _ _ two_ne_zero, fin_add], y2⟩
    unfold Donchian.mband Donchian.off
    dsimp only
    split_ifs
    · exact (key.back fillna).shiftInt offset
    · exact key.back fillna
  · have key : CloseTo (4 * eps)
        (sdiv (ssub (dser n c) (rollMin w mp (dser n l))) (ssub (rollMax w mp (dser n h)) (rollMin w mp (dser n l))))
        (sdiv (ssub (ser n c) (rollMin w mp (ser n l))) (ssub (rollMax w mp (ser n h)) (rollMin w mp (ser n l)))) := by
      refine ⟨by simp [ser, rser], fun i hi => ?_⟩
      replace hi : i < n := by simpa [ser] using hi
      iterate 2 rw [ix_sdiv (by simpa [ser, rser] using hi), ix_ssub (by simpa [ser, rser] using hi),
        ix_ssub (by simpa [ser, rser] using hi)]
      rw [ix_rk hi, ix_num hi]
      by_cases hp : i < mp - 1
      · left
        have e1 : ix (rollMin w mp (dser n l)) i = Val.nan := hm'.gap i hi hp
        have e2 : ix (rollMax w mp (dser n h)) i = Val.nan := hM.gap i hi hp
        rw [hm'.gap i hi hp, e1, e2]
        exact ⟨rfl, by simp⟩
      · have e1 : ix (rollMin w mp (dser n l)) i = rk (wmin l w i) := hm'.val i hi (by omega)
        have e2 : ix (rollMax w mp (dser n h)) i = rk (wmax h w i) := hM.val i hi (by omega)
        rw [hm'.val i hi (by omega), hM.val i hi (by omega), e1, e2]
        obtain ⟨r1, r2, r3, r4⟩ := hb.range hw hi
        rcases r3 with r3 | r3
        · left
          have : c i = wmin l w i := le_antisymm (r3 ▸ r2) r1
          rw [r3, this, sub_self_double, zero_div_zero_double, fin_sub, sub_self]
          exact ⟨rfl, by rw [fin_div_zero, if_pos rfl]⟩
        · right
          obtain ⟨y, y1, y2⟩ := share_near (a := c i) (b := wmin l w i) r3 r4 (by rw [abs_of_nonneg (by linarith)]; linarith)
          exact ⟨y, _, y1, by rw [fin_sub, fin_sub, fin_div _ _ (tiny_pos.trans_le r3).ne'], y2⟩
    have key2 := key.const (y := 0) (z := 0) lit0k (lit_exact (k := 0) (q := 0) (by norm_num) (by norm_num))
      (by rw [sub_self, abs_zero]; positivity) fillna
    unfold Donchian.pband Donchian.off
    dsimp only
    split_ifs
    · exact key2.shiftInt offset
    · exact key2

/-! ## Aroon -/

/-- `k / w * 100` -/
theorem place_near {k w : Nat} (hw : 1 ≤ w) (hk : k ≤ w) :
    ∃ y, (rk (k : K) /. rk (w : K) *. rk 100 : Double K) = rk y ∧ |y - k / w * 100| ≤ 205 * eps := by
  have he := eps_pos (K := K)
  have he1 := eps_small (K := K)
  have hc := thousand_le_cap (K := K)
  have ht1 := tiny_le_one (K := K)
  have hw0 : (0 : K) < w := by exact_mod_cast hw
  have q0 : (0 : K) ≤ k / w := by positivity
  have q1 : (k : K) / w ≤ 1 := by rw [div_le_one hw0]; exact_mod_cast hk
  obtain ⟨q, q2, q3⟩ := near_div (x := (k : K)) (y := w) hw0.ne' (B := 1) (by rw [abs_of_nonneg q0]; exact q1) (by linarith) (by linarith)
  have q4 := abs_le.mp q3
  obtain ⟨y, y1, y2⟩ := near_mul (x := q) (y := 100) (B := 101) (by rw [abs_le]; constructor <;> linarith) (by linarith) (by linarith)
  have y3 := abs_le.mp y2
  refine ⟨y, by rw [q2, y1], ?_⟩
  rw [abs_le]
  constructor <;> linarith

theorem place_close {w : Nat} (hw : 1 ≤ w) (hw2 : w ≤ 2 ^ 40) (mp : Nat) (s : Series (Double K)) (g : List (Val K) → Nat)
    (hg : ∀ x : List (Val K), x.length ≤ w + 1 → g x ≤ w) {D : Series (Double K)} {V : Series (Val K)}
    (hD : D = rollApply (F := Double K) (fun x => (natF (g x) /. natF w *. lit 100 : Double K)) (w + 1) mp s)
    (hV : V = rollApply (F := Val K) (fun x => (natF (g x) /. natF w *. lit 100 : Val K)) (w + 1) mp s) :
    CloseTo (205 * eps) D V ∧ V.length = s.length ∧ ∀ i z, i < V.length → ix V i = .fin z → 0 ≤ z ∧ z ≤ 100 := by
  have hlen : V.length = s.length := by
    rw [hV]
    exact length_roll (F := Val K) _ _ s
  have hlen' : D.length = s.length := by
    rw [hD]
    exact length_roll (F := Double K) _ _ s
  suffices H : ∀ i, i < V.length → (ix D i = Val.nan ∧ ix V i = .nan) ∨
      ∃ y z : K, ix D i = Val.fin y ∧ ix V i = .fin z ∧ |y - z| ≤ 205 * eps ∧ 0 ≤ z ∧ z ≤ 100 by
    refine ⟨⟨hlen'.trans hlen.symm, fun i hi => ?_⟩, hlen, fun i z hi hz => ?_⟩
    · rcases H i hi with h | ⟨y, z, h1, h2, h3, -⟩
      · exact .inl h
      · exact .inr ⟨y, z, h1, h2, h3⟩
    · rcases H i hi with ⟨-, h⟩ | ⟨y, z', h1, h2, h3, h4⟩
      · exact absurd (h.symm.trans hz) (by simp)
      · have := h2.symm.trans hz
        rw [Val.fin.injEq] at this
        rwa [this] at h4
  intro i hi
  have hi' : i < List.length (α := Val K) s := hlen ▸ hi
  obtain ⟨win, hwin⟩ : ∃ win : List (Val K), win = (winIx (w + 1) i).map (fun j => clean (F := Val K) (ix (F := Val K) s j)) :=
    ⟨_, rfl⟩
  have hk : g win ≤ w := hg win (by rw [hwin, List.length_map, length_winIx]; exact min_le_left _ _)
  have e1 : ix D i = aggApply (F := Double K) (fun x => (natF (g x) /. natF w *. lit 100 : Double K)) mp win := by
    rw [hD, hwin]
    exact ix_roll' (F := Double K) (s := s) hi'
  have e2 : ix V i = aggApply (F := Val K) (fun x => (natF (g x) /. natF w *. lit 100 : Val K)) mp win := by
    rw [hV, hwin]
    exact ix_roll' (F := Val K) (s := s) hi'
  have hw0 : (w : K) ≠ 0 := by exact_mod_cast (by omega : w ≠ 0)
  by_cases hm : mp ≤ (valid (F := Val K) win).length
  · obtain ⟨y, y1, y2⟩ := place_near (K := K) hw hk
    refine .inr ⟨y, (g win : K) / w * 100, ?_, ?_, y2, by positivity, ?_⟩
    · rw [e1]
      refine (if_pos hm).trans ?_
      dsimp only
      rw [natF_double (by omega), natF_double (by omega), lit100k]; exact y1
    · rw [e2]
      refine (if_pos hm).trans ?_
      dsimp only
      rw [natF_fin, natF_fin, fin_div _ _ hw0, lit_exact (k := 100) (x := 100) (by norm_num) (by norm_num), fin_mul]
    · have : (g win : K) / w ≤ 1 := by
        rw [div_le_one (lt_of_le_of_ne (Nat.cast_nonneg _) hw0.symm)]
        exact_mod_cast hk
      linarith
  · exact .inl ⟨e1.trans (if_neg hm), e2.trans (if_neg hm)⟩

theorem CloseTo.sub {ε δ B : K} {s s' : Series (Double K)} {t t' : Series (Val K)} (h : CloseTo ε s t) (h' : CloseTo δ s' t')
    (hl : t.length = t'.length) (hB : tiny ≤ B) (hB2 : B ≤ cap)
    (hz : ∀ i z z', i < t.length → ix t i = .fin z → ix t' i = .fin z' → |z - z'| + ε + δ ≤ B) :
    CloseTo (ε + δ + 1.001 * (eps * B)) (TA.ssub s s') (TA.ssub t t') := by
  refine ⟨by simp [h.1], fun i hi => ?_⟩
  replace hi : i < t.length := by simpa [hl] using hi
  have his : i < s.length := h.1 ▸ hi
  rw [ix_ssub hi, ix_ssub his]
  rcases h.2 i hi with ⟨a1, a2⟩ | ⟨y, z, a1, a2, a3⟩ <;> rcases h'.2 i (hl ▸ hi) with ⟨b1, b2⟩ | ⟨y', z', b1, b2, b3⟩ <;>
    rw [a1, a2, b1, b2]
  · exact .inl ⟨rfl, by simp⟩
  · exact .inl ⟨rfl, by simp⟩
  · exact .inl ⟨rfl, by simp⟩
  · right
    have hb := hz i z z' hi a2 b2
    have c1 := abs_le.mp a3
    have c2 := abs_le.mp b3
    have c3 := le_abs_self (z - z')
    have c4 := neg_abs_le (z - z')
    obtain ⟨q, q1, q2⟩ := near_sub (x := y) (y := y') (B := B) (by rw [abs_le]; constructor <;> linarith) hB hB2
    have q3 := abs_le.mp q2
    exact ⟨q, z - z', q1, by rw [fin_sub], by rw [abs_le]; constructor <;> linarith⟩

/-- C117: Aroon Up and Down within `205 * 2^-53`, the indicator within `520 * 2^-53`, on any data (NaN and infinities
included). -/
theorem aroon_double (high low : Series (Double K)) (hlen : high.length = low.length) {w : Nat} (hw : 1 ≤ w) (hw2 : w ≤ 2 ^ 40)
    (fillna : Bool) :
    ∃ (o : Aroon (Double K)) (e : Aroon (Val K)),
      Aroon.new high low w fillna = .ok o ∧ Aroon.new (F := Val K) high low w fillna = .ok e ∧
      CloseTo (205 * eps) o.aroonUp e.aroonUp ∧ CloseTo (205 * eps) o.aroonDown e.aroonDown ∧
      CloseTo (520 * eps) o.aroonIndicator e.aroonIndicator := by
  have he := eps_pos (K := K)
  have he1 := eps_small (K := K)
  have hc := thousand_le_cap (K := K)
  have ht1 := tiny_le_one (K := K)
  have z0 : ∀ {C : K}, 0 ≤ C → |(0 : K) - 0| ≤ C * eps := fun h => by rw [sub_self, abs_zero]; positivity
  have lz : (lit 0 : Val K) = .fin 0 := lit_exact (k := 0) (q := 0) (by norm_num) (by norm_num)
  obtain ⟨mp, hmp⟩ : ∃ mp, mp = if fillna then 1 else w + 1 := ⟨_, rfl⟩
  obtain ⟨hu, lu, hu'⟩ := place_close hw hw2 mp high (fun x => argmax x) (fun x hx => by have := (argmax_lt x).1; omega)
    (D := (Aroon.run high low w fillna).up) (V := (Aroon.run (F := Val K) high low w fillna).up)
    (by rw [hmp]; rfl) (by rw [hmp]; rfl)
  obtain ⟨hd, ld, hd'⟩ := place_close hw hw2 mp low (fun x => argmin x) (fun x hx => by have := (argmax_lt x).2; omega)
    (D := (Aroon.run high low w fillna).down) (V := (Aroon.run (F := Val K) high low w fillna).down)
    (by rw [hmp]; rfl) (by rw [hmp]; rfl)
  have hl2 : (Aroon.run (F := Val K) high low w fillna).up.length = (Aroon.run (F := Val K) high low w fillna).down.length :=
    lu.trans (hlen.trans ld.symm)
  refine ⟨Aroon.run high low w fillna, Aroon.run (F := Val K) high low w fillna, ?_, ?_, ?_, ?_, ?_⟩
  · unfold Aroon.new; rw [if_neg (by omega)]
  · unfold Aroon.new; rw [if_neg (by omega)]
  · exact hu.const lit0k lz (z0 (by norm_num)) fillna
  · exact hd.const lit0k lz (z0 (by norm_num)) fillna
  · refine CloseTo.const ?_ lit0k lz (z0 (by norm_num)) fillna
    refine CloseTo.mono (hu.sub hd (B := 101) hl2 (by linarith) (by linarith) ?_) (by linarith)
    intro i z z' hi h1 h2
    obtain ⟨a1, a2⟩ := hu' i z hi h1
    obtain ⟨b1, b2⟩ := hd' i z' (hl2 ▸ hi) h2
    have : |z - z'| ≤ 100 := by rw [abs_le]; constructor <;> linarith
    linarith

/-! ## examples -/

/-- C117: outside these sizes the bound fails: with prices `±2^1023` the range overflows and %K is NaN where the exact value
is 100. -/
theorem stoch_double_overflow :
    stoch (dser 1 (fun _ => (2 ^ 1023 : ℚ))) (dser 1 fun _ => -2 ^ 1023) (dser 1 fun _ => 2 ^ 1023) 1 = [nan] ∧
    stoch (ser 1 (fun _ => (2 ^ 1023 : ℚ))) (ser 1 fun _ => -2 ^ 1023) (ser 1 fun _ => 2 ^ 1023) 1 = [.fin 100] := by
  decide +kernel

theorem third_spread : Spread (K := ℚ) 1 (fun _ => 3) (fun _ => 0) (fun _ => 1) := by
  have h1 : (3 : ℚ) ≤ huge := by
    have : (2 : ℚ) ^ (2 : ℤ) ≤ 2 ^ (900 : ℤ) := zpow_le_zpow_right₀ (by norm_num) (by norm_num)
    exact le_trans (by norm_num) this
  refine ⟨fun _ _ => by norm_num, fun _ _ => ⟨by rwa [abs_of_pos (by norm_num)], by rw [abs_zero]; linarith⟩, fun _ _ _ _ => .inr ?_⟩
  have := tiny_le_one (K := ℚ)
  norm_num
  linarith

/-- one bar from 0 to 3 closing at 1: %K is the double nearest to 100/3 -/
example : CloseTo (410 * eps) (stoch (dser 1 fun _ => (3 : ℚ)) (dser 1 fun _ => 0) (dser 1 fun _ => 1) 1)
      (stoch (ser 1 fun _ => (3 : ℚ)) (ser 1 fun _ => 0) (ser 1 fun _ => 1) 1) ∧
    stoch (dser 1 fun _ => (3 : ℚ)) (dser 1 fun _ => 0) (dser 1 fun _ => 1) 1 = [rk (4691249611844267 / 2 ^ 47)] ∧
    stoch (ser 1 fun _ => (3 : ℚ)) (ser 1 fun _ => 0) (ser 1 fun _ => 1) 1 = [.fin (100 / 3)] :=
  ⟨stoch_double third_spread (le_refl 1) false, by decide +kernel, by decide +kernel⟩

/-- Aroon divides before it multiplies: 100/3 comes out as the second nearest double -/
example : williamsR (dser 1 fun _ => (3 : ℚ)) (dser 1 fun _ => 0) (dser 1 fun _ => 1) 1 = [rk (-4691249611844267 / 2 ^ 46)] ∧
    (Aroon.new (dser 4 (fun i => ((i % 2 : ℕ) : ℚ))) (dser 4 fun i => -((i % 2 : ℕ) : ℚ)) 3).toOption.map (·.aroonUp) =
      some [nan, nan, nan, rk (4691249611844266 / 2 ^ 47)] := by
  decide +kernel

end TA
