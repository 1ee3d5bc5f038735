import Verif.Props.C41
import Verif.Props.C75

/-! # C88: what the parameters do

Wider windows and larger multipliers nest the channels; weights are only relative; the CCI constant is a unit; exchanging the
slow and the fast window turns an oscillator round; KAMA with equal speeds is an exponential average. -/

set_option linter.unusedSectionVars false

namespace TA

open Finset

section
variable {K : Type} [Field K] [LinearOrder K] [IsStrictOrderedRing K]

/-! ### channels -/

theorem flag_mono {p q : Prop} [Decidable p] [Decidable q] (h : p → q) (e : Val.fin (if p then (1 : K) else 0) = .fin 1) :
    Val.fin (if q then (1 : K) else 0) = .fin 1 := by
  by_cases hp : p
  · rw [if_pos (h hp)]
  · rw [if_neg hp] at e
    exact absurd (Val.fin.inj e) zero_ne_one

/-- C88. On any data, missing rows included: where the Donchian channel of the wider window has a value, so has the one of the
narrower window, and it lies inside. -/
theorem donchian_nested {h l c : Series (Val K)} {w w' : Nat} (hw : 1 ≤ w) (hww : w ≤ w') {o o' : Donchian (Val K)}
    (ho : Donchian.new h l c w = .ok o) (ho' : Donchian.new h l c w' = .ok o') (i : Nat) :
    (∀ a', ix o'.hband i = .fin a' → ∃ a, ix o.hband i = .fin a ∧ a ≤ a') ∧
    (∀ b', ix o'.lband i = .fin b' → ∃ b, ix o.lband i = .fin b ∧ b' ≤ b) := by
  rw [(donchian_new ho).2, (donchian_new ho').2]
  simp only [Donchian.hband, Donchian.lband, Donchian.off, ne_eq, not_true_eq_false, if_false, Bool.false_eq_true, noFill]
  have hsub : ∀ (s : Series (Val K)) x, x ∈ obs s w i → x ∈ obs s w' i := fun s x hx => by
    rw [mem_obs] at hx ⊢
    obtain ⟨j, h1, h2, h3⟩ := hx
    exact ⟨j, h1, by omega, h3⟩
  have hfull : ∀ s : Series (Val K), w' ≤ (obs s w' i).length → w ≤ (obs s w i).length := fun s hs => by
    obtain ⟨h1, h2⟩ := obs_full hs
    have e : ∀ j, j ≤ i → i < j + w → ∃ x, ix s j = .fin x := fun j j1 j2 => h2 j j1 (by omega)
    choose! f hf using e
    rw [obs_of_fin f hf, List.length_map, length_winIx]
    omega
  constructor
  · intro a' ha'
    have hi : i < h.length := by
      by_contra hi
      rw [ix_ge (by simpa using hi)] at ha'
      cases ha'
    have ha := ha'
    rw [ix_rollMax hi] at ha
    split_ifs at ha with hq
    rcases rollMax_cases h w w i hi with e | ⟨m, e, m1, _⟩
    · exfalso
      rw [ix_rollMax hi, if_pos (hfull h hq)] at e
      have hne : obs h w i ≠ [] := fun e0 => by
        have := hfull h hq
        rw [e0] at this
        simp at this
        omega
      obtain ⟨m, e', _⟩ := maxL_spec hne
      rw [e'] at e; cases e
    · refine ⟨m, e, ?_⟩
      rcases rollMax_cases h w' w' i hi with e2 | ⟨m2, e2, _, q⟩
      · rw [e2] at ha'; cases ha'
      · rw [e2] at ha'
        obtain rfl := Val.fin.inj ha'
        exact q m (hsub h m m1)
  · intro a' ha'
    have hi : i < l.length := by
      by_contra hi
      rw [ix_ge (by simpa using hi)] at ha'
      cases ha'
    have ha := ha'
    rw [ix_rollMin hi] at ha
    split_ifs at ha with hq
    rcases rollMin_cases l w w i hi with e | ⟨m, e, m1, _⟩
    · exfalso
      rw [ix_rollMin hi, if_pos (hfull l hq)] at e
      have hne : obs l w i ≠ [] := fun e0 => by
        have := hfull l hq
        rw [e0] at this
        simp at this
        omega
      obtain ⟨m, e', _⟩ := minL_spec hne
      rw [e'] at e; cases e
    · refine ⟨m, e, ?_⟩
      rcases rollMin_cases l w' w' i hi with e2 | ⟨m2, e2, _, q⟩
      · rw [e2] at ha'; cases ha'
      · rw [e2] at ha'
        obtain rfl := Val.fin.inj ha'
        exact q m (hsub l m m1)

example : (Donchian.new (qs [5, 9, 4, 6]) (qs [3, 7, 2, 5]) (qs [4, 8, 3, 6]) 2).map (fun o => (o.hband, o.lband))
      = .ok ([.nan, .fin 9, .fin 9, .fin 6], [.nan, .fin 3, .fin 2, .fin 2]) ∧
    (Donchian.new (qs [5, 9, 4, 6]) (qs [3, 7, 2, 5]) (qs [4, 8, 3, 6]) 3).map (fun o => (o.hband, o.lband))
      = .ok ([.nan, .nan, .fin 9, .fin 9], [.nan, .nan, .fin 2, .fin 2]) := by decide +kernel

/-- C88. The larger the multiplier of the ATR Keltner channel, the wider the channel, and the fewer the rows on which the close
is outside; the middle line stays. -/
theorem keltner_nested {n : Nat} {h l c : Nat → K} (hlh : ∀ i, l i ≤ h i) {w wa : Nat} (hw : 1 ≤ w) (hwa : 1 ≤ wa) {fillna : Bool}
    {k k' : K} (hk : k ≤ k') {o o' : Keltner (Val K)}
    (ho : Keltner.new (ser n h) (ser n l) (ser n c) w wa fillna false (.fin k) = .ok o)
    (ho' : Keltner.new (ser n h) (ser n l) (ser n c) w wa fillna false (.fin k') = .ok o') {i : Nat} (hi : i < n)
    (hp : (if fillna then 0 else w - 1) ≤ i) :
    (∃ m a a' b b', ix o.mband i = .fin m ∧ ix o'.mband i = .fin m ∧ ix o.hband i = .fin a ∧ ix o'.hband i = .fin a' ∧
      ix o.lband i = .fin b ∧ ix o'.lband i = .fin b' ∧ a ≤ a' ∧ b' ≤ b) ∧
    (ix o'.hbandIndicator i = .fin 1 → ix o.hbandIndicator i = .fin 1) ∧
    (ix o'.lbandIndicator i = .fin 1 → ix o.lbandIndicator i = .fin 1) := by
  obtain ⟨atr, ⟨r, hr, hd⟩, h0, S⟩ := keltner_atr_formula (fun i _ => hlh i) hw hwa ho
  obtain ⟨atr', ⟨r', hr', hd'⟩, _, S'⟩ := keltner_atr_formula (fun i _ => hlh i) hw hwa ho'
  have ea : atr' i = atr i := by
    rw [hr] at hr'
    rw [← Except.ok.inj hr'] at hd'
    have := hd'.val i hi (Nat.zero_le _)
    rw [hd.val i hi (Nat.zero_le _)] at this
    exact (Val.fin.inj this).symm
  have hm := mul_le_mul_of_nonneg_right hk (h0 i hi)
  refine ⟨⟨_, _, _, _, _, S.mband.val i hi hp, S'.mband.val i hi hp, S.hband.val i hi hp, S'.hband.val i hi hp,
    S.lband.val i hi hp, S'.lband.val i hi hp, ?_, ?_⟩, ?_, ?_⟩
  · rw [ea]; linarith
  · rw [ea]; linarith
  · rw [S.above.val i hi (Nat.zero_le _), S'.above.val i hi (Nat.zero_le _), ea]
    exact flag_mono fun hc => ⟨hp, by linarith [hc.2]⟩
  · rw [S.below.val i hi (Nat.zero_le _), S'.below.val i hi (Nat.zero_le _), ea]
    exact flag_mono fun hc => ⟨hp, by linarith [hc.2]⟩

end

/-- C88. The same for the number of standard deviations of the Bollinger bands. -/
theorem bollinger_nested {n : Nat} (c : Nat → ℝ) {w : Nat} (hw : 1 ≤ w) {d d' : ℝ} (hd : d ≤ d') (fillna : Bool) {i : Nat}
    (hi : i < n) (hp : (if fillna then 0 else w - 1) ≤ i) :
    let o := BB.new (ser n c) w (.fin d) fillna
    let o' := BB.new (ser n c) w (.fin d') fillna
    (∃ m a a' b b', ix o.bollingerMavg i = .fin m ∧ ix o'.bollingerMavg i = .fin m ∧ ix o.bollingerHband i = .fin a ∧
      ix o'.bollingerHband i = .fin a' ∧ ix o.bollingerLband i = .fin b ∧ ix o'.bollingerLband i = .fin b' ∧ a ≤ a' ∧ b' ≤ b) ∧
    (ix o'.bollingerHbandIndicator i = .fin 1 → ix o.bollingerHbandIndicator i = .fin 1) ∧
    (ix o'.bollingerLbandIndicator i = .fin 1 → ix o.bollingerLbandIndicator i = .fin 1) := by
  intro o o'
  have S := bollinger_formula (n := n) c hw d fillna
  have S' := bollinger_formula (n := n) c hw d' fillna
  have h0 : 0 ≤ wstd c w i := Real.sqrt_nonneg _
  have hm := mul_le_mul_of_nonneg_right hd h0
  refine ⟨⟨_, _, _, _, _, S.mavg.val i hi hp, S'.mavg.val i hi hp, S.hband.val i hi hp, S'.hband.val i hi hp,
    S.lband.val i hi hp, S'.lband.val i hi hp, ?_, ?_⟩, ?_, ?_⟩
  · linarith
  · linarith
  · rw [S.above.val i hi (Nat.zero_le _), S'.above.val i hi (Nat.zero_le _)]
    exact flag_mono fun hc => ⟨hp, by linarith [hc.2]⟩
  · rw [S.below.val i hi (Nat.zero_le _), S'.below.val i hi (Nat.zero_le _)]
    exact flag_mono fun hc => ⟨hp, by linarith [hc.2]⟩

section
variable {K : Type} [Field K] [LinearOrder K] [IsStrictOrderedRing K]

/-! ### units and weights -/

/-- C88. The CCI constant is a unit: CCI times its constant does not depend on it. -/
theorem cci_constant (n : Nat) (h l c : Nat → K) {w : Nat} (hw : 1 ≤ w) {k k' : K} (hk : k ≠ 0) (hk' : k' ≠ 0) {i : Nat} (hi : i < n)
    {x : K} (hx : ix (cci (ser n h) (ser n l) (ser n c) w (.fin k)) i = .fin x) :
    ix (cci (ser n h) (ser n l) (ser n c) w (.fin k')) i = .fin (x * k / k') := by
  obtain ⟨T, A, M, hT, hA, hM, _, q1, q2⟩ := cci_formula n h l c hw hk false
  obtain ⟨T', A', M', hT', hA', hM', _, q1', _⟩ := cci_formula n h l c hw hk' false
  obtain rfl : T' = T := funext fun j => by rw [hT, hT']
  obtain rfl : A' = A := funext fun j => by rw [hA, hA']
  obtain rfl : M' = M := funext fun j => by rw [hM, hM']
  by_cases hc : i < w - 1 ∨ M' i = 0
  · rw [q2 i hi rfl hc] at hx; cases hx
  · have hc1 : w - 1 ≤ i := by
      by_contra h
      exact hc (.inl (by omega))
    have hc2 : M' i ≠ 0 := fun h => hc (.inr h)
    rw [q1 i hi (.inr hc1) hc2] at hx
    obtain rfl := Val.fin.inj hx
    rw [q1' i hi (.inr hc1) hc2]
    congr 1
    field_simp

/-- C88. The ultimate oscillator does not see the order of its three (window, weight) pairs, nor the unit of the weights. -/
theorem uo_weights {n : Nat} {h l c : Nat → K} (hlh : ∀ i, l i < h i) (hlc : ∀ i, l i ≤ c i) (hch : ∀ i, c i ≤ h i)
    {w1 w2 w3 : Nat} (q1 : 1 ≤ w1) (q2 : 1 ≤ w2) (q3 : 1 ≤ w3) {x y z t : K} (hs : x + y + z ≠ 0) (ht : t ≠ 0) :
    let U := fun a b d p q r => ultimateOscillator (ser n h) (ser n l) (ser n c) a b d (.fin p) (.fin q) (.fin r) false
    U w1 w2 w3 x y z = U w2 w1 w3 y x z ∧ U w1 w2 w3 x y z = U w1 w3 w2 x z y ∧
    U w1 w2 w3 x y z = U w1 w2 w3 (t * x) (t * y) (t * z) := by
  intro U
  have key : ∀ {a b d : Nat} {p q r : K}, 1 ≤ a → 1 ≤ b → 1 ≤ d → p + q + r ≠ 0 → Def (U a b d p q r) n (max a (max b d)) _ :=
    fun {a b d p q r} ha hb hd hp => by
      obtain ⟨r1, r2, r3⟩ := uo_formula n h l c (fun i _ => ⟨hlc i, hch i⟩) a b d ha hb hd p q r hp
      refine ⟨r1, r2, fun i h1 h2 => r3 i h1 h2 fun w hw => ?_⟩
      refine ne_of_gt (Finset.sum_pos (fun j _ => ?_) ⟨i, by rw [Finset.mem_Ioc]; rcases hw with rfl | rfl | rfl <;> omega⟩)
      exact sub_pos.mpr ((min_le_left _ _).trans_lt ((hlh j).trans_le (le_max_left _ _)))
  have same : ∀ {s s' : Series (Val K)} {p p' : Nat} {f f' : Nat → K}, Def s n p f → Def s' n p' f' → p = p' → (∀ i, f i = f' i) →
      s = s' := fun {s s' p p' f f'} h1 h2 hp hf => by
    subst hp
    refine series_ext (by rw [h1.len, h2.len]) fun i hi => ?_
    have hi : i < n := by rw [← h1.len]; exact hi
    by_cases h : i < p
    · rw [h1.gap i hi h, h2.gap i hi h]
    · rw [h1.val i hi (by omega), h2.val i hi (by omega), hf]
  refine ⟨same (key q1 q2 q3 hs) (key q2 q1 q3 (by rwa [add_comm y x])) (by omega) fun i => ?_,
    same (key q1 q2 q3 hs) (key q1 q3 q2 (by rwa [add_right_comm])) (by omega) fun i => ?_,
    same (key q1 q2 q3 hs) (key q1 q2 q3 (by rw [← mul_add, ← mul_add]; exact mul_ne_zero ht hs)) rfl fun i => ?_⟩
  · beta_reduce
    congr 1 <;> ring
  · beta_reduce
    congr 1 <;> ring
  · beta_reduce
    rw [← mul_add, ← mul_add, mul_assoc t, mul_assoc t, mul_assoc t, ← mul_add, ← mul_add, mul_left_comm, mul_div_mul_left _ _ ht]

/-! ### exchanging the windows -/

theorem Def.neg_of {s s' : Series (Val K)} {n p p' : Nat} {f f' : Nat → K} (h1 : Def s n p f) (h2 : Def s' n p' f') (hp : p' = p)
    (hf : ∀ i, f' i = -f i) : s' = s.map Flt.neg := by
  subst hp
  refine series_ext (by simp [h1.len, h2.len]) fun i hi => ?_
  have hi : i < n := by rw [← h2.len]; exact hi
  rw [ix_map (by rw [h1.len]; exact hi)]
  by_cases h : i < p'
  · rw [h1.gap i hi h, h2.gap i hi h]; rfl
  · rw [h1.val i hi (by omega), h2.val i hi (by omega), hf]; rfl

/-- C88. Exchanging slow and fast turns the MACD line, its signal and their difference round. -/
theorem macd_swap {n : Nat} {c : Nat → K} {a b sign : Nat} {fillna : Bool} {o o' : MACD (Val K)}
    (ho : MACD.new (ser n c) a b sign fillna = .ok o) (ho' : MACD.new (ser n c) b a sign fillna = .ok o') :
    o'.macd = o.macd.map Flt.neg ∧ o'.macdSignal = o.macdSignal.map Flt.neg ∧ o'.macdDiff = o.macdDiff.map Flt.neg := by
  obtain ⟨L, S, hL, hS, d1, d2, d3⟩ := macd_formula ho
  obtain ⟨L', S', hL', hS', d1', d2', d3'⟩ := macd_formula ho'
  have e1 : ∀ i, L' i = -L i := fun i => by rw [hL, hL']; ring
  have e2 : ∀ i, S' i = -S i := fun i => by
    rw [hS, hS', max_comm b a, ← emaRec_neg]
    congr 1
    funext j
    exact e1 _
  refine ⟨d1.neg_of d1' (by rw [max_comm]) e1, d2.neg_of d2' (by rw [max_comm]) e2, d3.neg_of d3' (by rw [max_comm]) fun i => ?_⟩
  rw [e1, e2]; ring

/-- C88. Exchanging slow and fast turns the ratio behind the PPO line upside down. -/
theorem ppo_swap {n : Nat} {x : Nat → K} (hx : ∀ i, 0 < x i) {a b sign : Nat} (ha : 1 ≤ a) (hb : 1 ≤ b) {fillna : Bool} {o o' : PPO (Val K)}
    (ho : PPO.new (ser n x) a b sign fillna = .ok o) (ho' : PPO.new (ser n x) b a sign fillna = .ok o') {i : Nat} (hi : i < n)
    {p q : K} (hp : ix o.ppo i = .fin p) (hq : ix o'.ppo i = .fin q) : (1 + p / 100) * (1 + q / 100) = 1 := by
  obtain ⟨L, S, hL, hS, d1, d2, d3⟩ := ppo_formula hx ho
  obtain ⟨L', S', hL', hS', d1', d2', d3'⟩ := ppo_formula hx ho'
  have e1 : p = L i := by
    by_cases h : i < (if fillna then 0 else max a b - 1)
    · rw [d1.gap i hi h] at hp; cases hp
    · rw [d1.val i hi (by omega)] at hp; exact (Val.fin.inj hp).symm
  have e2 : q = L' i := by
    by_cases h : i < (if fillna then 0 else max b a - 1)
    · rw [d1'.gap i hi h] at hq; cases hq
    · rw [d1'.val i hi (by omega)] at hq; exact (Val.fin.inj hq).symm
  have f : ∀ w : Nat, 1 ≤ w → emaRec (2 / ((w : K) + 1)) x i ≠ 0 := fun w hw =>
    (emaW_pos hw (f := x) (i := i) (fun j _ => hx j)).ne'
  have fa := f a ha
  have fb := f b hb
  rw [e1, e2, hL, hL']
  field_simp
  ring

/-- C88. The awesome oscillator with exchanged windows. -/
theorem ao_swap (n : Nat) (h l : Nat → K) {w1 w2 : Nat} (h1 : 1 ≤ w1) (h2 : 1 ≤ w2) (fillna : Bool) :
    awesomeOscillator (ser n h) (ser n l) w2 w1 fillna = (awesomeOscillator (ser n h) (ser n l) w1 w2 fillna).map Flt.neg :=
  (ao_formula n h l h1 h2 fillna).neg_of (ao_formula n h l h2 h1 fillna) (by rw [max_comm]) fun i => by ring

/-- C88. KAMA with equal fast and slow constants does not adapt: it is the exponential average with the squared constant,
started on row `w - 1`. -/
theorem kama_equal (n : Nat) (c : Nat → K) {w : Nat} (hw : 1 ≤ w) (p : Nat) :
    Def (kama (ser n c) w p p false) n (w - 1) (fun i => emaRec ((2 / ((p : K) + 1)) ^ 2) (fun j => c (w - 1 + j)) (i - (w - 1))) := by
  obtain ⟨Y, y0, y1, hd⟩ := kama_formula n c hw p p
  refine hd.congr fun i _ h2 => ?_
  induction i, h2 using Nat.le_induction with
  | base => rw [y0, Nat.sub_self]; rfl
  | succ i h2 ih =>
    rw [y1 (i + 1) (by omega), Nat.add_sub_cancel, ih (by omega), show i + 1 - (w - 1) = (i - (w - 1)) + 1 by omega, emaRec,
      show w - 1 + (i - (w - 1) + 1) = i + 1 by omega]
    ring

/-- exchanged windows on four closes -/
example : (MACD.new (qs [1, 2, 4, 8]) 3 1 1).map (·.macd) = .ok [.nan, .nan, .fin (5 / 4), .fin (21 / 8)] ∧
    (MACD.new (qs [1, 2, 4, 8]) 1 3 1).map (·.macd) = .ok [.nan, .nan, .fin (-5 / 4), .fin (-21 / 8)] := by decide +kernel
/-- a constant twice as large halves the CCI -/
example : cci (qs [12, 14, 16]) (qs [9, 10, 8]) (qs [9, 12, 12]) 2 (.fin (3 / 200)) = [.nan, .fin (200 / 3), .nan] ∧
    cci (qs [12, 14, 16]) (qs [9, 10, 8]) (qs [9, 12, 12]) 2 (.fin (3 / 100)) = [.nan, .fin (100 / 3), .nan] := by decide +kernel
/-- KAMA with equal constants: an exponential average with factor 4/9 -/
example : kama (qs [9, 9, 18, 27]) 2 2 2 false = [.nan, .fin 9, .fin 13, .fin (173 / 9)] := by decide +kernel

/-- the three (window, weight) pairs in another order and in another unit -/
example : ultimateOscillator (qs [11, 13, 12]) (qs [9, 10, 8]) (qs [10, 12, 9]) 1 2 2 = [.nan, .nan, .fin (1600/49)] ∧
    ultimateOscillator (qs [11, 13, 12]) (qs [9, 10, 8]) (qs [10, 12, 9]) 2 1 2 (.fin 6) (.fin 12) (.fin 3) = [.nan, .nan, .fin (1600/49)] := by
  decide +kernel
example : awesomeOscillator (qs [12, 14, 16]) (qs [8, 10, 8]) 1 2 false = [.nan, .fin 1, .fin 0] ∧
    awesomeOscillator (qs [12, 14, 16]) (qs [8, 10, 8]) 2 1 false = [.nan, .fin (-1), .fin 0] := by decide +kernel
/-- 10/7 one way is 7/10 the other way -/
example : (PPO.new (qs [2, 6, 10]) 3 1 1).map (·.ppo) = .ok [.nan, .nan, .fin (300 / 7)] ∧
    (PPO.new (qs [2, 6, 10]) 1 3 1).map (·.ppo) = .ok [.nan, .nan, .fin (-30)] := by decide +kernel

end

end TA
