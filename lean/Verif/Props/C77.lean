import Verif.Props.C73
import Verif.Props.C76
import Verif.Lemmas.Round
import Verif.Lemmas.AdxTake

/-!
# C77: after a missing bar

Which outputs come back after missing bars, and after how many rows; which never do.
-/

set_option linter.unusedSectionVars false

namespace TA
open Finset

section
variable {K : Type} [Field K] [LinearOrder K] [IsStrictOrderedRing K]

/-- A row without data. -/
def Missing (r : Bar (Val K)) : Prop := r = ⟨.nan, .nan, .nan, .nan⟩

/-! ## Series that are numbers from some row on -/

/-- `n` rows, each NaN or a number satisfying `P`, and numbers from row `k` on -/
structure Heal (P : K → Prop) (s : Series (Val K)) (n k : Nat) : Prop where
  len : s.length = n
  each : ∀ i, i < n → ix s i = .nan ∨ ∃ x, ix s i = .fin x ∧ P x
  good : ∀ i, i < n → k ≤ i → (ix s i).IsFin

variable {P Q R : K → Prop} {s t : Series (Val K)} {n k : Nat}

theorem Heal.val (h : Heal P s n k) {i : Nat} (hi : i < n) (hk : k ≤ i) : ∃ x, ix s i = .fin x ∧ P x := by
  obtain ⟨y, hy⟩ := h.good i hi hk
  rcases h.each i hi with e | ⟨x, e, hx⟩
  · rw [e] at hy; cases hy
  · exact ⟨x, e, hx⟩

theorem Heal.weaken (h : Heal P s n k) (hpq : ∀ x, P x → Q x) {k' : Nat} (hk : k ≤ k') : Heal Q s n k' :=
  ⟨h.len, fun i hi => (h.each i hi).imp id fun ⟨x, e, hx⟩ => ⟨x, e, hpq x hx⟩, fun i hi h1 => h.good i hi (by omega)⟩

theorem Heal.noInf (h : Heal P s n k) : NoInfRow s := fun i => by
  by_cases hi : i < n
  · exact (h.each i hi).imp id fun ⟨x, e, _⟩ => ⟨x, e⟩
  · left; exact ix_ge (by rw [h.len]; omega)

theorem Heal.count (h : Heal P s n k) {i : Nat} (hi : i < n) : i + 1 - k ≤ count s 0 (i + 1) := by
  induction i with
  | zero =>
    by_cases h0 : k = 0
    · have := Val.isFin_iff.2 (h.good 0 hi (by omega))
      rw [TA.count, Finset.sum_Ico_succ_top (Nat.zero_le 0), if_pos this]
      omega
    · omega
  | succ i ih =>
    rw [count_succ]
    have := ih (by omega)
    by_cases hk : k ≤ i + 1
    · rw [if_pos (Val.isFin_iff.2 (h.good (i + 1) hi hk))]; omega
    · omega

theorem Heal.ewm (h : Heal P s n k) (hP : Convex fun x _ => P x) {a : K} (ha : 0 < a) (ha1 : a ≤ 1) (mp : Nat) :
    Heal P (ewm (.fin a) mp s) n (k + (mp - 1)) := by
  refine ⟨by simp [h.len], fun i hi => ?_, fun i hi hk => ?_⟩
  · refine ewm_mem hP ha ha1 mp (by rw [h.len]; exact hi) fun j x hj e => ?_
    rcases h.each j (by omega) with e' | ⟨y, e', hy⟩
    · rw [e'] at e; cases e
    · rw [e'] at e; cases e; exact hy
  · rw [ix_ewm' (by rw [h.len]; exact hi), ewmOut]
    have hc := h.count hi
    obtain ⟨h1, h2⟩ := ewmAt_gaps ha ha1 s (i + 1)
    have hm : max mp 1 ≤ TA.count s 0 (i + 1) := max_le (by omega) (by omega)
    rw [if_pos (by rw [h1]; exact hm)]
    rcases h2 with ⟨h3, _⟩ | ⟨_, j, _, _, _, h4, _⟩
    · omega
    · exact ⟨_, h4⟩

theorem Heal.ema (h : Heal P s n k) (hP : Convex fun x _ => P x) {w : Nat} (hw : 1 ≤ w) :
    Heal P (TA.ema s w false) n (k + (w - 1)) := by
  unfold TA.ema
  rw [alphaOfSpan_fin]
  exact h.ewm hP (span_pos w) (span_le w hw) _

theorem Heal.map {φ : Val K → Val K} (h : Heal P s n k) (h0 : φ .nan = .nan ∨ ∃ y, φ .nan = .fin y ∧ Q y)
    (hf : ∀ x, P x → ∃ y, φ (.fin x) = .fin y ∧ Q y) : Heal Q (s.map φ) n k := by
  refine ⟨by simp [h.len], fun i hi => ?_, fun i hi hk => ?_⟩
  · rw [ix_map (by rw [h.len]; exact hi)]
    rcases h.each i hi with e | ⟨x, e, hx⟩
    · rw [e]; exact h0
    · rw [e]; exact .inr (hf x hx)
  · rw [ix_map (by rw [h.len]; exact hi)]
    obtain ⟨x, e, hx⟩ := h.val hi hk
    rw [e]
    obtain ⟨y, e', _⟩ := hf x hx
    exact ⟨y, e'⟩

theorem Heal.zip2 {φ : Val K → Val K → Val K} (h : Heal P s n k) {k' : Nat} (h' : Heal Q t n k') (hl : ∀ v, φ .nan v = .nan)
    (hr : ∀ v, φ v .nan = .nan) (hf : ∀ x y, P x → Q y → ∃ z, φ (.fin x) (.fin y) = .fin z ∧ R z) :
    Heal R (zip2 φ s t) n (max k k') := by
  refine ⟨by simp [h.len], fun i hi => ?_, fun i hi hk => ?_⟩
  · rw [ix_zip2 (by rw [h.len]; exact hi)]
    rcases h.each i hi with e | ⟨x, e, hx⟩
    · rw [e, hl]; exact .inl rfl
    · rcases h'.each i hi with e' | ⟨y, e', hy⟩
      · rw [e', hr]; exact .inl rfl
      · rw [e, e']; exact .inr (hf x y hx hy)
  · rw [ix_zip2 (by rw [h.len]; exact hi)]
    obtain ⟨x, e, hx⟩ := h.val hi (by omega)
    obtain ⟨y, e', hy⟩ := h'.val hi (by omega)
    rw [e, e']
    obtain ⟨z, e'', _⟩ := hf x y hx hy
    exact ⟨z, e''⟩

theorem Heal.ssub (h : Heal P s n k) {k' : Nat} (h' : Heal Q t n k') : Heal (fun _ => True) (TA.ssub s t) n (max k k') :=
  h.zip2 h' nan_sub sub_nan fun _ _ _ _ => ⟨_, rfl, trivial⟩

theorem Heal.smul (h : Heal P s n k) {k' : Nat} (h' : Heal Q t n k') : Heal (fun _ => True) (TA.smul s t) n (max k k') :=
  h.zip2 h' nan_mul mul_nan fun _ _ _ _ => ⟨_, rfl, trivial⟩

theorem Heal.sdiv (h : Heal P s n k) {k' : Nat} (h' : Heal (fun x => 0 < x) t n k') :
    Heal (fun _ => True) (TA.sdiv s t) n (max k k') :=
  h.zip2 h' nan_div div_nan fun _ _ _ hy => ⟨_, fin_div _ _ hy.ne', trivial⟩

theorem Heal.mulc (h : Heal P s n k) (c : K) : Heal (fun _ => True) (TA.mulc s (.fin c)) n k :=
  h.map (.inl (nan_mul _)) fun _ _ => ⟨_, rfl, trivial⟩

theorem Heal.shift1 (h : Heal P s n k) {v : Val K} (hv : v = .nan ∨ ∃ x, v = .fin x ∧ P x) : Heal P (shift s 1 v) n (k + 1) := by
  refine ⟨by simp [h.len], fun i hi => ?_, fun i hi hk => ?_⟩
  · rw [ix_shift (by rw [h.len]; exact hi)]
    split_ifs
    · exact hv
    · exact h.each _ (by omega)
  · rw [ix_shift (by rw [h.len]; exact hi), if_neg (by omega)]
    exact h.good _ (by omega) (by omega)

theorem Heal.obs (h : Heal P s n k) {w i : Nat} (hi : i < n) (hk : k + (w - 1) ≤ i) : (obs s w i).length = w := by
  rw [obs_count]
  unfold TA.count
  rw [Finset.sum_congr rfl fun j hj => if_pos (Val.isFin_iff.2 (h.good j (by rw [mem_Ico] at hj; omega) (by rw [mem_Ico] at hj; omega)))]
  simp only [sum_const, Nat.card_Ico, smul_eq_mul, mul_one]
  omega

theorem Heal.rollSum (h : Heal P s n k) (w : Nat) : Heal (fun _ => True) (rollSum w w s) n (k + (w - 1)) := by
  refine ⟨by simp [h.len], fun i hi => ?_, fun i hi hk => ?_⟩
  · rw [ix_rollSum (by rw [h.len]; exact hi)]
    split_ifs
    · exact .inr ⟨_, rfl, trivial⟩
    · exact .inl rfl
  · rw [ix_rollSum (by rw [h.len]; exact hi), if_pos (by rw [h.obs hi hk])]
    exact ⟨_, rfl⟩

theorem Heal.rollMean (h : Heal P s n k) {w : Nat} (hw : 1 ≤ w) : Heal (fun _ => True) (rollMean w w s) n (k + (w - 1)) := by
  refine ⟨by simp [h.len], fun i hi => ?_, fun i hi hk => ?_⟩
  · rw [ix_rollMean (by rw [h.len]; exact hi)]
    split_ifs
    · exact .inr ⟨_, rfl, trivial⟩
    · exact .inl rfl
  · rw [ix_rollMean (by rw [h.len]; exact hi), if_pos (by rw [h.obs hi hk]; omega)]
    exact ⟨_, rfl⟩

theorem smean_pos (h : Heal (fun x => 0 < x) s n k) : smean s = .nan ∨ ∃ x : K, smean s = .fin x ∧ 0 < x := by
  have hc : s.map clean = s := by
    apply List.ext_getElem (by simp)
    intro i h1 h2
    rw [List.getElem_map]
    have e : s[i] = ix s i := (ix_lt h2).symm
    rw [e]
    rcases h.noInf i with e | ⟨x, e⟩ <;> rw [e] <;> simp
  have hv : valid s = (nums s).map Val.fin := by rw [← valid_clean, hc]
  unfold smean
  rw [hv, List.length_map, sumL_fin]
  split_ifs with h0
  · exact .inl rfl
  · right
    rw [natF_fin, fin_div _ _ (by exact_mod_cast h0)]
    refine ⟨_, rfl, div_pos ?_ (by exact_mod_cast Nat.pos_of_ne_zero h0)⟩
    refine List.sum_pos _ (fun x hx => ?_) (fun e => h0 (by rw [e]; rfl))
    rw [mem_nums] at hx
    obtain ⟨i, hi, e⟩ := List.getElem_of_mem hx
    have e' : ix s i = .fin x := by rw [ix_lt hi, e]
    rcases h.each i (by rw [← h.len]; exact hi) with e'' | ⟨y, e'', hy⟩
    · rw [e''] at e'; cases e'
    · rw [e''] at e'; cases e'; exact hy

theorem convex_pos : Convex fun x _ : K => 0 < x := by
  rintro u v x x' _ _ hu hv huv h1 h2
  rcases hu.lt_or_eq with h | h
  · exact add_pos_of_pos_of_nonneg (mul_pos h h1) (mul_nonneg hv h2.le)
  · rw [← h, zero_add] at huv
    rw [← h, huv, zero_mul, zero_add, one_mul]
    exact h2

/-! ## The columns of bars some of which are missing -/

theorem ix_field (b : List (Bar (Val K))) (f : Bar (Val K) → Val K) {i : Nat} (hi : i < b.length) : ix (b.map f) i = f b[i] := by
  rw [ix_lt (by simpa using hi), List.getElem_map]

theorem heal_col {old recent : List (Bar (Val K))} (ho : ∀ r ∈ old, PosBar r ∨ Missing r) (hr : ∀ r ∈ recent, PosBar r)
    {f : Bar (Val K) → Val K} (h0 : f ⟨.nan, .nan, .nan, .nan⟩ = .nan) (h1 : ∀ r, PosBar r → ∃ x, f r = .fin x ∧ P x) :
    Heal P ((old ++ recent).map f) (old ++ recent).length old.length := by
  refine ⟨by simp, fun i hi => ?_, fun i hi hk => ?_⟩
  · rw [ix_field _ _ hi]
    rcases List.mem_append.1 (List.getElem_mem hi) with h | h
    · rcases ho _ h with h | h
      · exact .inr (h1 _ h)
      · rw [h]; exact .inl h0
    · exact .inr (h1 _ (hr _ h))
  · rw [ix_field _ _ hi, List.getElem_append_right hk]
    obtain ⟨x, hx, _⟩ := h1 _ (hr _ (List.getElem_mem (l := recent) (n := i - old.length) (by rw [List.length_append] at hi; omega)))
    exact ⟨x, hx⟩

theorem heal_close {old recent : List (Bar (Val K))} (ho : ∀ r ∈ old, PosBar r ∨ Missing r) (hr : ∀ r ∈ recent, PosBar r) :
    Heal (fun x => 0 < x) (closes (old ++ recent)) (old ++ recent).length old.length :=
  heal_col ho hr rfl fun r ⟨h, l, c, v, e, h1, h2, h3, h4, h5⟩ => ⟨c, by rw [e], by linarith⟩

theorem heal_volume {old recent : List (Bar (Val K))} (ho : ∀ r ∈ old, PosBar r ∨ Missing r) (hr : ∀ r ∈ recent, PosBar r) :
    Heal (fun x => 0 < x) (volumes (old ++ recent)) (old ++ recent).length old.length :=
  heal_col ho hr rfl fun r ⟨h, l, c, v, e, h1, h2, h3, h4, h5⟩ => ⟨v, by rw [e], h5⟩

theorem heal_span {old recent : List (Bar (Val K))} (ho : ∀ r ∈ old, PosBar r ∨ Missing r) (hr : ∀ r ∈ recent, PosBar r) :
    Heal (fun x => 0 < x) (ssub (highs (old ++ recent)) (lows (old ++ recent))) (old ++ recent).length old.length := by
  have e : ssub (highs (old ++ recent)) (lows (old ++ recent)) = (old ++ recent).map fun r => r.high -. r.low := by
    apply series_ext (by simp [highs, ssub])
    intro i hi
    have hi' : i < (old ++ recent).length := by simpa [highs, ssub] using hi
    rw [ix_ssub (by simpa [highs] using hi'), highs, lows, ix_field _ _ hi', ix_field _ _ hi', ix_field _ _ hi']
  rw [e]
  exact heal_col ho hr rfl fun r ⟨h, l, c, v, e, h1, h2, h3, h4, h5⟩ => ⟨h - l, by rw [e]; exact fin_sub _ _, by linarith⟩

/-- padding forward keeps the numbers -/
theorem Heal.ffill (h : Heal P s n k) : Heal P (TA.ffill s) n k := by
  have he : Every (fun v : Val K => v = .nan ∨ ∃ x, v = .fin x ∧ P x) (TA.ffill s) := by
    refine Every.ffill (fun v hv => ?_) (.inl rfl)
    obtain ⟨i, hi, e⟩ := List.getElem_of_mem hv
    rw [← e, ← ix_lt hi]
    exact h.each i (by rw [← h.len]; exact hi)
  refine ⟨by simp [h.len], fun i hi => ?_, fun i hi hk => ?_⟩
  · have hi' : i < (TA.ffill s).length := by simpa [h.len] using hi
    rw [ix_lt hi']
    exact he _ (List.getElem_mem hi')
  · obtain ⟨x, e, _⟩ := h.val hi hk
    rw [ffill_at (le_refl i) (by rw [h.len]; exact hi) (by rw [e]; rfl) fun m h1 h2 => by omega]
    exact ⟨x, e⟩

theorem Heal.pct (h : Heal (fun x => 0 < x) s n k) : Heal (fun _ => True) (pctChange s) n (k + 1) := by
  have h1 := (h.ffill.sdiv (h.ffill.shift1 (v := .nan) (.inl rfl))).map (Q := fun _ => True) (φ := fun x => x -. lit 1)
    (.inl (nan_sub _)) fun x _ => ⟨x - 1, by simp, trivial⟩
  exact h1.weaken (fun _ h => h) (by omega)

theorem pct_fin (h : Heal (fun x => 0 < x) s n k) {i : Nat} (hi : i + 1 < n) (h0 : (ix s i).IsFin) (h1 : (ix s (i + 1)).IsFin) :
    (ix (pctChange s) (i + 1)).IsFin := by
  have key : ∀ j, j < n → (ix s j).IsFin → ∃ x, ix (TA.ffill s) j = .fin x ∧ 0 < x := by
    rintro j hj ⟨x, e⟩
    rw [ffill_at (le_refl j) (by rw [h.len]; exact hj) (by rw [e]; rfl) fun m h1 h2 => by omega]
    rcases h.each j hj with e' | ⟨y, e', hy⟩
    · rw [e'] at e; cases e
    · exact ⟨y, e', hy⟩
  obtain ⟨x, ex, px⟩ := key i (by omega) h0
  obtain ⟨y, ey, py⟩ := key (i + 1) hi h1
  unfold pctChange
  rw [ix_subc (by simp [h.len]; exact hi), ix_sdiv (by simp [h.len]; exact hi), ix_shift (by simp [h.len]; exact hi), if_neg (by omega),
    Nat.add_sub_cancel, ex, ey, fin_div _ _ px.ne']
  exact ⟨y / x - 1, by simp⟩

theorem nvi_fin {old recent : List (Bar (Val K))} (ho : ∀ r ∈ old, PosBar r ∨ Missing r) (hr : ∀ r ∈ recent, PosBar r) :
    ∀ i, i < (old ++ recent).length → (iter (NVI.step (closes (old ++ recent)) (volumes (old ++ recent))) nan (i + 1)).IsFin := by
  have hc := heal_close ho hr
  have both : ∀ i, i < (old ++ recent).length → (ix (volumes (old ++ recent)) i).IsFin → (ix (closes (old ++ recent)) i).IsFin := by
    intro i hi hv
    unfold volumes at hv
    unfold closes
    rw [ix_field _ _ hi] at hv ⊢
    have hcase : PosBar (old ++ recent)[i] ∨ Missing (old ++ recent)[i] := by
      rcases List.mem_append.1 (List.getElem_mem hi) with h | h
      · exact ho _ h
      · exact .inl (hr _ h)
    rcases hcase with ⟨_, _, c, _, e, _⟩ | h
    · rw [e]; exact ⟨c, rfl⟩
    · rw [h] at hv; obtain ⟨x, hx⟩ := hv; cases hx
  have hv := (heal_volume ho hr).noInf
  intro i
  induction i with
  | zero => intro _; exact ⟨1000, by simp [iter, NVI.step]⟩
  | succ i ih =>
    intro hi
    obtain ⟨x, hx⟩ := ih (by omega)
    show Val.IsFin (NVI.step _ _ (i + 1) (iter _ _ (i + 1)))
    rw [hx]
    unfold NVI.step
    rw [if_neg (by omega), Nat.add_sub_cancel]
    split_ifs with h
    · have h1 : (ix (volumes (old ++ recent)) i).IsFin := by
        rcases hv i with e | e
        · rw [e] at h; simp at h
        · exact e
      have h2 : (ix (volumes (old ++ recent)) (i + 1)).IsFin := by
        rcases hv (i + 1) with e | e
        · rw [e] at h; simp at h
        · exact e
      obtain ⟨y, hy⟩ := pct_fin hc (by simpa using hi) (both i (by omega) h1) (both (i + 1) hi h2)
      rw [hy]
      exact ⟨x * (1 + y), by simp⟩
    · exact ⟨x, rfl⟩

theorem good_rows {old recent : List (Bar (Val K))} (ho : ∀ r ∈ old, PosBar r ∨ Missing r) (hr : ∀ r ∈ recent, PosBar r) :
    GoodBars (highs (old ++ recent)) (lows (old ++ recent)) (closes (old ++ recent)) := by
  refine ⟨by simp [highs, lows], by simp [highs, closes], fun i hi => ?_⟩
  have hi' : i < (old ++ recent).length := by simpa [highs] using hi
  unfold highs lows closes
  rw [ix_field _ _ hi', ix_field _ _ hi', ix_field _ _ hi']
  have hcase : PosBar (old ++ recent)[i] ∨ Missing (old ++ recent)[i] := by
    rcases List.mem_append.1 (List.getElem_mem hi') with h | h
    · exact ho _ h
    · exact .inl (hr _ h)
  rcases hcase with ⟨h, l, c, v, e, _, _, h3, h4, _⟩ | h
  · rw [e]; exact .inr ⟨h, l, c, rfl, rfl, rfl, h3, h4⟩
  · rw [h]; exact .inl ⟨rfl, rfl, rfl⟩

theorem macd_heals {c : Series (Val K)} {slow fast sign : Nat} {o : MACD (Val K)} {P : K → Prop} {n k : Nat} (hc : Heal P c n k)
    (hn : MACD.new c slow fast sign false = .ok o) : 1 ≤ slow ∧ 1 ≤ fast ∧ 1 ≤ sign ∧ Heal (fun _ => True) o.macd n (k + (max slow fast - 1)) ∧
      Heal (fun _ => True) o.macdSignal n (k + (max slow fast + sign - 2)) ∧
      Heal (fun _ => True) o.macdDiff n (k + (max slow fast + sign - 2)) := by
  rw [MACD.new_eq] at hn
  split_ifs at hn with h
  have hc' := hc.weaken (Q := fun _ => True) (fun _ _ => trivial) (le_refl k)
  have h1 := (hc'.ema convex_true (w := fast) (by omega)).ssub (hc'.ema convex_true (w := slow) (by omega))
  have h2 := h1.ema convex_true (w := sign) (by omega)
  have h3 := h1.ssub h2
  rw [← Except.ok.inj hn]
  unfold MACD.macd MACD.macdSignal MACD.macdDiff MACD.run
  dsimp only
  simp only [noFill]
  exact ⟨by omega, by omega, by omega, h1.weaken (fun _ h => h) (by omega), h2.weaken (fun _ h => h) (by omega), h3.weaken (fun _ h => h) (by omega)⟩

theorem ppo_heals {c : Series (Val K)} {slow fast sign : Nat} {o : PPO (Val K)} {n k : Nat} (hc : Heal (fun x => 0 < x) c n k)
    (hn : PPO.new c slow fast sign false = .ok o) : 1 ≤ slow ∧ 1 ≤ fast ∧ 1 ≤ sign ∧ Heal (fun _ => True) o.ppo n (k + (max slow fast - 1)) ∧
      Heal (fun _ => True) o.ppoSignal n (k + (max slow fast + sign - 2)) ∧
      Heal (fun _ => True) o.ppoHist n (k + (max slow fast + sign - 2)) := by
  rw [PPO.new_eq] at hn
  split_ifs at hn with h
  have hs := hc.ema convex_pos (w := slow) (by omega)
  have h1 := (((hc.ema convex_pos (w := fast) (by omega)).ssub hs).sdiv hs).mulc 100
  have h2 := h1.ema convex_true (w := sign) (by omega)
  have h3 := h1.ssub h2
  have e : (lit 100 : Val K) = .fin 100 := by simp
  rw [← Except.ok.inj hn]
  unfold PPO.ppo PPO.ppoSignal PPO.ppoHist PPO.run
  dsimp only
  simp only [noFill, e]
  exact ⟨by omega, by omega, by omega, h1.weaken (fun _ h => h) (by omega), h2.weaken (fun _ h => h) (by omega), h3.weaken (fun _ h => h) (by omega)⟩

end

/-- Outputs that come back after missing bars. -/
def Ind.heals {F : Type} : Ind F → Prop
  | .rsi .. | .ema .. | .macd .. | .macdSignal .. | .macdDiff .. | .ppo .. | .ppoSignal .. | .ppoHist .. | .pvo .. | .pvoSignal ..
  | .pvoHist .. | .trix .. | .massIndex .. | .fi .. | .obv | .adi | .nvi | .vpt _ | .kcMband .. => True
  | x => x.memory.isSome ∧ x.always

/-- … after so many rows. -/
def Ind.delay {F : Type} (x : Ind F) : Nat := max (x.memory.getD 0) x.lookback

set_option maxHeartbeats 1000000 in
/-- C77: data with missing rows (all four columns NaN), ordinary bars from row `old.length` on. After `delay` rows of ordinary bars these outputs are
numbers again, on every row. -/
theorem recovers (x : Ind (Val ℝ)) (hx : x.Sane) (hh : x.heals) {old recent : List (Bar (Val ℝ))} (ho : ∀ r ∈ old, PosBar r ∨ Missing r)
    (hr : ∀ r ∈ recent, PosBar r) {out : Series (Val ℝ)} (he : x.eval false (old ++ recent) = .ok out) {i : Nat}
    (hi : i < (old ++ recent).length) (hd : old.length + x.delay ≤ i) : (ix out i).IsFin := by
  have hc := heal_close ho hr
  have hv := heal_volume ho hr
  have hs := heal_span ho hr
  have win : x.memory.isSome ∧ x.always → (ix out i).IsFin := by
    rintro ⟨h1, h2⟩
    obtain ⟨m, hm⟩ := Option.isSome_iff_exists.mp h1
    obtain ⟨out', ho'⟩ := memory_ok x hx hm recent
    have hw := warmup x hx recent hr ho'
    unfold Ind.delay at hd
    rw [hm, Option.getD_some] at hd
    have e := (finite_memory x hm).row ho' he (i := i - old.length) (by omega)
    rw [show old.length + (i - old.length) = i by omega] at e
    rw [e]
    exact hw.2.2 h2 _ (by rw [List.length_append] at hi; omega) (by omega)
  cases x
  case ema w =>
    simp only [Ind.Sane, Ind.eval, Ind.delay, Ind.memory, Ind.lookback, Option.getD_none] at hx he hd
    rw [emaIndicator_eq, if_neg (by omega)] at he
    rw [← Except.ok.inj he]
    exact (hc.ema convex_pos hx).good i hi (by omega)
  case rsi w =>
    simp only [Ind.Sane, Ind.eval, Ind.delay, Ind.memory, Ind.lookback, Option.getD_none] at hx he hd
    obtain ⟨U, D, _, _, _, _, o, h1, h2⟩ := rsi_gaps hc.noInf hx false
    rw [h1] at he
    rw [← Except.ok.inj he]
    refine ⟨_, h2.val i (by rw [hc.len]; exact hi) ?_⟩
    rw [if_neg (by simp)]
    omega
  case macd slow fast sign =>
    simp only [Ind.eval, Ind.delay, Ind.memory, Ind.lookback, Option.getD_none] at he hd
    obtain ⟨o, hn, rfl⟩ := except_map_ok he
    obtain ⟨p1, p2, p3, h1, h2, h3⟩ := macd_heals hc hn
    exact h1.good i hi (by omega)
  case macdSignal slow fast sign =>
    simp only [Ind.eval, Ind.delay, Ind.memory, Ind.lookback, Option.getD_none] at he hd
    obtain ⟨o, hn, rfl⟩ := except_map_ok he
    obtain ⟨p1, p2, p3, h1, h2, h3⟩ := macd_heals hc hn
    exact h2.good i hi (by omega)
  case macdDiff slow fast sign =>
    simp only [Ind.eval, Ind.delay, Ind.memory, Ind.lookback, Option.getD_none] at he hd
    obtain ⟨o, hn, rfl⟩ := except_map_ok he
    obtain ⟨p1, p2, p3, h1, h2, h3⟩ := macd_heals hc hn
    exact h3.good i hi (by omega)
  case ppo slow fast sign =>
    simp only [Ind.eval, Ind.delay, Ind.memory, Ind.lookback, Option.getD_none] at he hd
    obtain ⟨o, hn, rfl⟩ := except_map_ok he
    obtain ⟨p1, p2, p3, h1, h2, h3⟩ := ppo_heals hc hn
    exact h1.good i hi (by omega)
  case ppoSignal slow fast sign =>
    simp only [Ind.eval, Ind.delay, Ind.memory, Ind.lookback, Option.getD_none] at he hd
    obtain ⟨o, hn, rfl⟩ := except_map_ok he
    obtain ⟨p1, p2, p3, h1, h2, h3⟩ := ppo_heals hc hn
    exact h2.good i hi (by omega)
  case ppoHist slow fast sign =>
    simp only [Ind.eval, Ind.delay, Ind.memory, Ind.lookback, Option.getD_none] at he hd
    obtain ⟨o, hn, rfl⟩ := except_map_ok he
    obtain ⟨p1, p2, p3, h1, h2, h3⟩ := ppo_heals hc hn
    exact h3.good i hi (by omega)
  case pvo slow fast sign =>
    simp only [Ind.eval, Ind.delay, Ind.memory, Ind.lookback, Option.getD_none] at he hd
    obtain ⟨o, hn, rfl⟩ := except_map_ok he
    obtain ⟨p1, p2, p3, h1, h2, h3⟩ := ppo_heals hv hn
    exact h1.good i hi (by omega)
  case pvoSignal slow fast sign =>
    simp only [Ind.eval, Ind.delay, Ind.memory, Ind.lookback, Option.getD_none] at he hd
    obtain ⟨o, hn, rfl⟩ := except_map_ok he
    obtain ⟨p1, p2, p3, h1, h2, h3⟩ := ppo_heals hv hn
    exact h2.good i hi (by omega)
  case pvoHist slow fast sign =>
    simp only [Ind.eval, Ind.delay, Ind.memory, Ind.lookback, Option.getD_none] at he hd
    obtain ⟨o, hn, rfl⟩ := except_map_ok he
    obtain ⟨p1, p2, p3, h1, h2, h3⟩ := ppo_heals hv hn
    exact h3.good i hi (by omega)
  case trix w =>
    simp only [Ind.Sane, Ind.eval, Ind.delay, Ind.memory, Ind.lookback, Option.getD_none] at hx he hd
    rw [trix_eq, if_neg (by omega), noFill] at he
    rw [← Except.ok.inj he]
    have hw : 1 ≤ w := by omega
    have h3 := ((hc.ema convex_pos hw).ema convex_pos hw).ema convex_pos hw
    have h4 := h3.shift1 (smean_pos h3)
    have h5 := ((h3.ssub h4).sdiv h4).mulc 100
    have e : (lit 100 : Val ℝ) = .fin 100 := by simp
    unfold TRIX.run
    rw [e]
    exact h5.good i hi (by omega)
  case massIndex fast slow =>
    simp only [Ind.Sane, Ind.eval, Ind.delay, Ind.memory, Ind.lookback, Option.getD_none] at hx he hd
    rw [massIndex_eq, if_neg (by omega), noFill] at he
    rw [← Except.ok.inj he]
    have h1 := hs.ema convex_pos hx.1
    have h2 := (h1.sdiv (h1.ema convex_pos hx.1)).rollSum slow
    exact h2.good i hi (by omega)
  case fi w =>
    simp only [Ind.Sane, Ind.eval, Ind.delay, Ind.memory, Ind.lookback, Option.getD_none] at hx he hd
    rw [forceIndex_eq, if_neg (by omega), noFill] at he
    rw [← Except.ok.inj he]
    have h1 := ((hc.ssub (hc.shift1 (v := .nan) (.inl rfl))).smul hv).ema convex_true hx
    exact h1.good i hi (by omega)
  case obv =>
    simp only [Ind.eval, Ind.delay, Ind.memory, Ind.lookback, Option.getD_none] at he hd
    rw [← Except.ok.inj he, obv_gaps hv.noInf (by rw [hc.len, hv.len]) (by rw [hc.len]; exact hi),
      if_pos (Val.isFin_iff.2 (hv.good i hi (by omega)))]
    exact ⟨_, rfl⟩
  case adi =>
    simp only [Ind.eval, Ind.delay, Ind.memory, Ind.lookback, Option.getD_none] at he hd
    rw [← Except.ok.inj he, adi_gaps (good_rows ho hr) hv.noInf (by rw [hv.len]; simp [highs]) (by simpa [highs] using hi),
      if_pos (Val.isFin_iff.2 (hv.good i hi (by omega)))]
    exact ⟨_, rfl⟩
  case nvi =>
    simp only [Ind.eval] at he
    have hl : (closes (old ++ recent)).length = (old ++ recent).length := by simp [closes]
    unfold negativeVolumeIndex at he
    rw [if_neg (by omega), noFill] at he
    rw [← Except.ok.inj he, NVI.run, ix_tab_lt (by rw [hl]; exact hi)]
    exact nvi_fin ho hr i hi
  case vpt sm =>
    simp only [Ind.eval, Ind.delay, Ind.memory, Option.getD_none] at he hd
    have h1 := hc.pct.smul hv
    have h2 : Heal (fun _ => True) (cumsum (TA.smul (pctChange (closes (old ++ recent))) (volumes (old ++ recent))))
        (old ++ recent).length (old.length + 1) := by
      refine ⟨by rw [length_cumsum, h1.len], fun i hi => ?_, fun i hi hk => ?_⟩
      · rw [cumsum_gaps h1.noInf (by rw [h1.len]; exact hi)]
        split_ifs
        · exact .inr ⟨_, rfl, trivial⟩
        · exact .inl rfl
      · rw [cumsum_gaps h1.noInf (by rw [h1.len]; exact hi), if_pos (Val.isFin_iff.2 (h1.good i hi (by omega)))]
        exact ⟨_, rfl⟩
    rw [← Except.ok.inj he]
    unfold volumePriceTrend
    rw [noFill, if_neg (by simp)]
    rcases sm with _ | _ | m
    · simp only [Ind.lookback] at hd
      exact h2.good i hi (by omega)
    · simp only [Ind.Sane] at hx; omega
    · simp only [Ind.lookback] at hd
      exact (h2.rollMean (w := m + 1) (by omega)).good i hi (by omega)
  case kcMband w wa orig mult =>
    cases orig with
    | true => exact win ⟨rfl, trivial⟩
    | false =>
      simp only [Ind.Sane, Ind.eval, Ind.delay, Ind.memory, Ind.lookback, Option.getD_none, Bool.false_eq_true, if_false] at hx he hd
      obtain ⟨o, hn, rfl⟩ := except_map_ok he
      rw [Keltner.new_atr_eq, if_neg (by omega)] at hn
      split_ifs at hn with h1
      rw [← Except.ok.inj hn]
      unfold Keltner.mband Keltner.runAtr
      dsimp only
      rw [noFill]
      exact (hc.ema convex_pos hx.1).good i hi (by omega)
  all_goals exact win hh

/-! ## Outputs that do not come back -/

section
variable {K : Type} [Field K] [LinearOrder K] [IsStrictOrderedRing K]

/-- from row `k` on there is nothing -/
def DeadFrom (s : Series (Val K)) (k : Nat) : Prop := ∀ i, k ≤ i → ix s i = .nan

theorem dead_of {s : Series (Val K)} {k : Nat} (h : ∀ i, k ≤ i → i < s.length → ix s i = .nan) : DeadFrom s k := fun i hk => by
  by_cases hi : i < s.length
  · exact h i hk hi
  · exact ix_ge (by omega)

/-- a rowless true range: neither high nor low -/
theorem trueRange_missing {h l p : Series (Val K)} {k : Nat} (hh : ix h k = .nan) (hl : ix l k = .nan) : ix (trueRange h l p) k = .nan := by
  unfold trueRange
  by_cases hk : k < h.length
  · rw [ix_zip3 hk, hh, hl]
    simp [valid, maxL]
  · exact ix_ge (by simp; omega)

theorem atr_run_dead {h l c : Series (Val K)} {w k : Nat} (hk : w ≤ k) (hh : ix h k = .nan) (hl : ix l k = .nan) : DeadFrom (ATR.run h l c w) k := by
  refine dead_of fun i hi hlen => ?_
  unfold ATR.run at hlen ⊢
  have ht := trueRange_missing (p := shift c 1) hh hl
  split_ifs at hlen ⊢ with h0
  · rw [ix_lt hlen]; simp [nan]
  · rw [ix_tab_lt (by simpa using hlen)]
    clear hlen
    induction i, hi using Nat.le_induction with
    | base =>
      show ATR.step _ w k _ = _
      unfold ATR.step
      rw [if_neg (by omega), if_neg (by omega), ht]
      simp
    | succ i hi ih =>
      show ATR.step _ w (i + 1) (iter _ _ (i + 1)) = _
      rw [ih]
      unfold ATR.step
      rw [if_neg (by omega), if_neg (by omega)]
      simp

/-- C77: one bar without high and low, anywhere after the first `w` rows, and the ATR is gone for good: NaN on that row and every later one. -/
theorem atr_poison {h l c out : Series (Val K)} {w k : Nat} (ho : averageTrueRange h l c w false = .ok out) (hk : w ≤ k) (hh : ix h k = .nan)
    (hl : ix l k = .nan) : DeadFrom out k := by
  unfold averageTrueRange at ho
  split_ifs at ho
  rw [noFill] at ho
  rw [← Except.ok.inj ho]
  exact atr_run_dead hk hh hl

/-- C77: the same for the Keltner channel built on the ATR: bands, width and position are gone, and its crossing flags say 0 from then on. -/
theorem keltner_poison {h l c : Series (Val K)} {w wa k : Nat} {m : Val K} {o : Keltner (Val K)} (ho : Keltner.new h l c w wa false false m = .ok o)
    (hk : wa ≤ k) (hh : ix h k = .nan) (hl : ix l k = .nan) :
    DeadFrom o.hband k ∧ DeadFrom o.lband k ∧ DeadFrom o.wband k ∧ DeadFrom o.pband k ∧
      ∀ i, k ≤ i → i < c.length → ix o.hbandIndicator i = .fin 0 ∧ ix o.lbandIndicator i = .fin 0 := by
  rw [Keltner.new_atr_eq] at ho
  split_ifs at ho with h1 h2
  have hd := atr_run_dead (c := c) hk hh hl
  rw [noFill] at ho
  rw [← Except.ok.inj ho]
  have la : (ATR.run h l c wa).length = c.length := by unfold ATR.run; dsimp only; split_ifs <;> simp
  have e1 : DeadFrom (sadd (ewm (alphaOfSpan w) w c) (cmul m (ATR.run h l c wa))) k := dead_of fun i hi hl => by
    have hl' : i < c.length := by simpa using hl
    rw [ix_sadd (by simpa using hl'), ix_cmul (by rw [la]; exact hl'), hd i hi]; simp
  have e2 : DeadFrom (ssub (ewm (alphaOfSpan w) w c) (cmul m (ATR.run h l c wa))) k := dead_of fun i hi hl => by
    have hl' : i < c.length := by simpa using hl
    rw [ix_ssub (by simpa using hl'), ix_cmul (by rw [la]; exact hl'), hd i hi]; simp
  unfold Keltner.hband Keltner.lband Keltner.wband Keltner.pband Keltner.hbandIndicator Keltner.lbandIndicator Keltner.runAtr
  dsimp only
  simp only [noFill, Bool.false_eq_true, if_false]
  have lt : (ewm (alphaOfSpan w) w c).length = c.length := by simp
  generalize ewm (alphaOfSpan w) w c = t at e1 e2 lt ⊢
  refine ⟨e1, e2, dead_of fun i hi hl => ?_, dead_of fun i hi hl => ?_, fun i hi hl => ⟨?_, ?_⟩⟩
  · have hl' : i < t.length := by simpa [mulc, sdiv, TA.ssub, sadd] using hl
    rw [ix_mulc (by simpa [sdiv, TA.ssub, sadd] using hl'), ix_sdiv (by simpa [TA.ssub, sadd] using hl'), ix_ssub (by simpa [sadd] using hl'), e1 i hi]
    simp
  · have hl' : i < c.length := by simpa [sdiv, TA.ssub] using hl
    rw [ix_sdiv (by simpa [TA.ssub] using hl'), ix_ssub hl', e2 i hi]
    simp
  · unfold gtFlag
    rw [ix_zip2 hl, e1 i hi]
    simp
  · unfold ltFlag
    rw [ix_zip2 hl, e2 i hi]
    simp

/-- C77: KAMA. Once a value has been shown, one missing close and there is never another. -/
theorem kama_poison (c : Series (Val K)) {w p1 p2 j k : Nat} (hj : j < k) (hs : ix (kama c w p1 p2 false) j ≠ .nan) (hk : ix c k = .nan) :
    DeadFrom (kama c w p1 p2 false) k := by
  unfold kama at hs ⊢
  rw [noFill] at hs ⊢
  unfold KAMA.run at hs ⊢
  dsimp only at hs ⊢
  generalize KAMA.sc c w p1 p2 false = sc at hs ⊢
  have hjl : j < c.length := by
    by_contra hc
    exact hs (ix_ge (by simp; omega))
  rw [ix_tab_lt hjl] at hs
  have hfalse : ∀ i, j ≤ i → (iter (KAMA.step sc c) (nan, true) (i + 1)).2 = false := by
    intro i hi
    induction i, hi using Nat.le_induction with
    | base =>
      change (KAMA.step sc c j _).1 ≠ _ at hs
      show (KAMA.step sc c j _).2 = false
      unfold KAMA.step at hs ⊢
      split_ifs at hs ⊢
      · exact absurd rfl hs
      · rfl
      · rfl
    | succ i hi ih =>
      show (KAMA.step sc c (i + 1) (iter _ _ (i + 1))).2 = false
      generalize iter (KAMA.step sc c) (nan, true) (i + 1) = S at ih ⊢
      unfold KAMA.step
      rw [ih]
      split_ifs <;> rfl
  refine dead_of fun i hi hl => ?_
  rw [ix_tab_lt (by simpa using hl)]
  clear hl
  induction i, hi using Nat.le_induction with
  | base =>
    obtain ⟨k', rfl⟩ : ∃ k', k = k' + 1 := ⟨k - 1, by omega⟩
    show (KAMA.step sc c (k' + 1) (iter _ _ (k' + 1))).1 = _
    have h2 := hfalse k' (by omega)
    generalize iter (KAMA.step sc c) (nan, true) (k' + 1) = S at h2 ⊢
    unfold KAMA.step
    rw [h2, hk]
    split_ifs
    · rfl
    · simp_all
    · simp
  | succ i hi ih =>
    show (KAMA.step sc c (i + 1) (iter _ _ (i + 1))).1 = _
    have h2 := hfalse i (by omega)
    generalize iter (KAMA.step sc c) (nan, true) (i + 1) = S at h2 ih ⊢
    unfold KAMA.step
    rw [h2, ih]
    split_ifs
    · rfl
    · simp_all
    · simp

/-! ### Directional movement -/

theorem wilderAt_dead {x : Series (Val K)} {w j : Nat} (hj : 1 ≤ j) (hx : ix x (w + j) = .nan) : ∀ i, j ≤ i → ADX.wilderAt x w i = .nan := by
  intro i hi
  induction i, hi using Nat.le_induction with
  | base =>
    obtain ⟨j', rfl⟩ : ∃ j', j = j' + 1 := ⟨j - 1, by omega⟩
    simp only [ADX.wilderAt]
    rw [hx]
    simp
  | succ i hi ih =>
    simp only [ADX.wilderAt, ih]
    simp

theorem range_missing {h l c : Series (Val K)} {k : Nat} (hh : ix h k = .nan) : ix (ADX.range h l c) k = .nan := by
  unfold ADX.range getMax getMin
  by_cases hk : k < h.length
  · rw [ix_ssub (by simpa using hk), ix_zip2 hk, hh]
    simp [npMax2, nan]
  · exact ix_ge (by simp; omega)

theorem foldl_nan (l : List (Val K)) : l.foldl Flt.add (Val.nan : Val K) = .nan := by
  induction l with
  | nil => rfl
  | cons a l ih => rw [List.foldl_cons, nan_add]; exact ih

theorem sumL_nan {l : List (Val K)} {i : Nat} (h : l[i]? = some .nan) : sumL l = .nan := by
  unfold sumL
  generalize (lit 0 : Val K) = a
  induction l generalizing a i with
  | nil => simp at h
  | cons b l ih =>
    rw [List.foldl_cons]
    cases i with
    | zero =>
      simp only [List.getElem?_cons_zero, Option.some.injEq] at h
      rw [h, add_nan, foldl_nan]
    | succ i => exact ih (by simpa using h) _

theorem di_nan (d : Val K) : ADX.di .nan d = .nan := by
  unfold ADX.di
  simp

/-- C77: one bar without a high, anywhere after row `w`, and +DI, -DI and (from row `2w - 1` on) the ADX are gone for good. -/
theorem adx_poison {h l c : Series (Val K)} {w k : Nat} {o : ADX (Val K)} (ho : ADX.new h l c w false = .ok o) (hlen : h.length = c.length)
    (hlen' : l.length = c.length) (hk : w < k) (hh : ix h k = .nan) :
    DeadFrom o.adxPos k ∧ DeadFrom o.adxNeg k ∧ ∀ out, o.adx = .ok out → DeadFrom out (max k (2 * w - 1)) := by
  obtain ⟨hw, hn, rfl⟩ := ADX.new_ok ho
  have hx := range_missing (l := l) (c := c) hh
  obtain ⟨j, rfl⟩ : ∃ j, k = w + j := ⟨k - w, by omega⟩
  have hd := wilderAt_dead (by omega) hx
  have lr : (ADX.range h l c).length = c.length := by simp [ADX.range, getMax, hlen]
  have lw : (ADX.wilder (ADX.range h l c) w).length = c.length - (w - 1) := by simp [ADX.wilder, lr]
  have ht : ∀ i, j ≤ i → i < c.length - (w - 1) - 1 → ix (ADX.wilder (ADX.range h l c) w) i = .nan := by
    intro i hi hi'
    rw [ix_wilder (by rw [lr]; exact hi'), hd i hi]
  have hp : ∀ d, DeadFrom (ADX.place c.length w (ADX.wilder (ADX.range h l c) w) d) (w + j) := fun d => dead_of fun i hi hi' => by
    have hi'' : i < c.length := by simpa [ADX.place] using hi'
    unfold ADX.place
    rw [ix_tab_lt hi'', if_pos (by rw [lw]; omega), ht _ (by omega) (by omega), di_nan]
  refine ⟨?_, ?_, fun out hout => ?_⟩
  · unfold ADX.adxPos ADX.run
    dsimp only
    rw [noFill]
    exact hp _
  · unfold ADX.adxNeg ADX.run
    dsimp only
    rw [noFill]
    exact hp _
  · unfold ADX.adx at hout
    split_ifs at hout with hle
    dsimp only at hout
    rw [show (ADX.run h l c w false).fillna = false from rfl, noFill] at hout
    rw [← Except.ok.inj hout]
    have lt : (ADX.run h l c w false).trs.length = c.length - (w - 1) := lw
    have lwin : (ADX.run h l c w false).window = w := rfl
    rw [lt, lwin] at hle
    rw [lt, lwin]
    have ldx : (ADX.dx (ADX.run h l c w false)).length = c.length - (w - 1) := by unfold ADX.dx; simp [lt]
    have hdx : ∀ i, j ≤ i → i < c.length - (w - 1) - 1 → ix (ADX.dx (ADX.run h l c w false)) i = .nan := by
      intro i hi hi'
      unfold ADX.dx
      rw [ix_tab_lt (by rw [lt]; omega), show ix (ADX.run h l c w false).trs i = .nan from ht i hi hi']
      simp only [di_nan]
      simp
    generalize ADX.dx (ADX.run h l c w false) = dx at hdx ldx ⊢
    have hat : ∀ i, w ≤ i → j + 1 ≤ i → i < c.length - (w - 1) → ADX.adxAt dx w i = .nan := by
      intro i hi
      induction i, hi using Nat.le_induction with
      | base =>
        intro h1 h2
        obtain ⟨w', rfl⟩ : ∃ w', w = w' + 1 := ⟨w - 1, by omega⟩
        simp only [ADX.adxAt]
        rw [if_neg (by omega), if_pos trivial, npMean, sumL_nan (l := dx.take (w' + 1)) (i := j) ?_]
        · simp
        · rw [List.getElem?_take_of_lt (by omega), List.getElem?_eq_getElem (by omega), ← ix_lt, hdx j (le_refl j) (by omega)]
      | succ i hi ih =>
        intro h1 h2
        simp only [ADX.adxAt]
        rw [if_neg (by omega), if_neg (by omega)]
        by_cases h3 : i = j
        · rw [hdx i (by omega) (by omega)]; simp
        · rw [ih (by omega) (by omega)]; simp
    refine dead_of fun i hi hl => ?_
    simp only [List.length_append, List.length_replicate, length_tab] at hl
    rw [ix_append_right (by simp; omega), List.length_replicate, ix_tab_lt (by omega)]
    exact hat _ (by omega) (by omega) (by omega)

/-! ### Parabolic stop and reverse -/

theorem flag_dead {u x : Series (Val K)} (hx : ∀ i, ix x i = .nan) {i : Nat} (hi : i < u.length) : ix (PSAR.flag u x) i = .fin 0 := by
  unfold PSAR.flag
  rw [ix_tab_lt hi, hx i]
  simp

/-- C77: a missing first or second bar and the parabolic stop never starts: `psar` is NaN from row 2 on, the two one-sided lines are empty and the flags 0. -/
theorem psar_poison {h l c : Series (Val K)} {st mx : Val K} {o : PSAR (Val K)} (ho : PSAR.new h l c .positional st mx false = .ok o)
    (hm : ix h 0 = .nan ∨ ix c 1 = .nan) :
    DeadFrom o.psar 2 ∧ DeadFrom o.psarUp 0 ∧ DeadFrom o.psarDown 0 ∧
      ∀ i, i < c.length → ix o.psarUpIndicator i = .fin 0 ∧ ix o.psarDownIndicator i = .fin 0 := by
  have hl : 0 < c.length := by
    by_contra hc
    unfold PSAR.new at ho
    rw [if_pos (by omega)] at ho
    cases ho
  rw [PSAR.new_eq _ _ _ _ _ _ hl] at ho
  rw [← Except.ok.inj ho]
  have step : ∀ (q : PCore (Val K)) (h0 l0 h1 l1 h2 l2 : Val K), q.upTrend = true → q.val = .nan ∨ q.high = .nan →
      (pcore st mx q h0 l0 h1 l1 h2 l2).upTrend = true ∧ (pcore st mx q h0 l0 h1 l1 h2 l2).val = .nan := by
    intro q h0 l0 h1 l1 h2 l2 hu hv
    have hp : q.val +. (q.af *. (q.high -. q.val)) = .nan := by
      rcases hv with e | e <;> rw [e] <;> simp
    unfold pcore
    dsimp only
    rw [if_pos hu, hp]
    simp only [lt_nan, Bool.false_eq_true, if_false]
    split_ifs <;> exact ⟨rfl, rfl⟩
  have hc : ∀ k, 1 ≤ k → (PSAR.cores h l c st mx k).upTrend = true ∧ (PSAR.cores h l c st mx k).val = .nan := by
    intro k hk
    induction k, hk using Nat.le_induction with
    | base => exact step ⟨true, st, ix h 0, ix l 0, ix c 1⟩ (ix h 2) (ix l 2) (ix h 1) (ix l 1) (ix h 0) (ix l 0) rfl hm.symm
    | succ k hk ih => exact step _ (ix h (k + 2)) (ix l (k + 2)) (ix h (k + 1)) (ix l (k + 1)) (ix h k) (ix l k) ih.1 (.inl ih.2)
  have e1 : ∀ i, ix (tab c.length fun i => if 2 ≤ i ∧ (PSAR.cores h l c st mx (i - 1)).upTrend = true
      then (PSAR.cores h l c st mx (i - 1)).val else nan) i = .nan := by
    intro i
    by_cases hi : i < c.length
    · rw [ix_tab_lt hi]
      split_ifs with h2
      · exact (hc _ (by omega)).2
      · rfl
    · exact ix_ge (by simp; omega)
  have e2 : ∀ i, ix (tab c.length fun i => if 2 ≤ i ∧ (PSAR.cores h l c st mx (i - 1)).upTrend = false
      then (PSAR.cores h l c st mx (i - 1)).val else nan) i = .nan := by
    intro i
    by_cases hi : i < c.length
    · rw [ix_tab_lt hi]
      split_ifs with h2
      · exact (hc _ (by omega)).2
      · rfl
    · exact ix_ge (by simp; omega)
  unfold PSAR.psar PSAR.psarUp PSAR.psarDown PSAR.psarUpIndicator PSAR.psarDownIndicator
  dsimp only
  simp only [noFill]
  refine ⟨dead_of fun i hi hl => ?_, fun i _ => e1 i, fun i _ => e2 i, fun i hi => ?_⟩
  · rw [ix_tab_lt (by simpa using hl), if_neg (by omega)]
    exact (hc _ (by omega)).2
  · exact ⟨flag_dead e1 (by simpa using hi), flag_dead e2 (by simpa using hi)⟩

/-- C77: a missing first close and there is no cumulative return on any row. -/
theorem cr_poison {c out : Series (Val K)} (ho : cumulativeReturn c false = .ok out) (hm : ix c 0 = .nan) : DeadFrom out 0 := by
  unfold cumulativeReturn at ho
  split_ifs at ho with h0
  rw [noFill] at ho
  rw [← Except.ok.inj ho]
  refine dead_of fun i _ hl => ?_
  have hl' : i < c.length := by simpa [CR.run, mulc, subc, divc] using hl
  unfold CR.run
  rw [ix_mulc (by simpa [subc, divc] using hl'), ix_subc (by simpa [divc] using hl'), ix_divc hl', hm]
  simp

/-! ### With filling -/

/-- forward filling repeats the row before a missing one -/
theorem ffill_succ {s : Series (Val K)} {i : Nat} (hi : i + 1 < s.length) (hs : ix s (i + 1) = .nan) : ix (ffill s) (i + 1) = ix (ffill s) i := by
  unfold ffill
  rw [ix_pre hi, ix_pre (by omega)]
  have e : s.take (i + 1 + 1) = s.take (i + 1) ++ [.nan] := by
    rw [List.take_succ_eq_append_getElem hi, ← ix_lt hi, hs]
  rw [e, valid_append]
  simp [valid]

theorem fill_dead {s : Series (Val K)} {v : Val K} {k : Nat} (hk : 1 ≤ k) (hd : DeadFrom s k) {i : Nat} (hi : k ≤ i) (hl : i < s.length) :
    ix (checkFillna true (.const v) s) i = ix (checkFillna true (.const v) s) (k - 1) := by
  have key : ∀ i, k ≤ i → i < s.length → ix (ffill (replaceInf s)) i = ix (ffill (replaceInf s)) (k - 1) := by
    intro i hi
    induction i, hi using Nat.le_induction with
    | base =>
      intro hl
      obtain ⟨k', rfl⟩ : ∃ k', k = k' + 1 := ⟨k - 1, by omega⟩
      refine ffill_succ (by simpa using hl) ?_
      rw [replaceInf, ix_map hl, hd _ (le_refl _)]; simp
    | succ i hi ih =>
      intro hl
      rw [ffill_succ (by simpa using hl) (by rw [replaceInf, ix_map hl, hd _ (by omega)]; simp)]
      exact ih (by omega)
  show ix (fillConst v (ffill (replaceInf s))) i = ix (fillConst v (ffill (replaceInf s))) (k - 1)
  unfold fillConst
  rw [ix_map (by simpa using hl), ix_map (by simp; omega), key i hi hl]

/-- C77: with `fillna=True` the loss is not visible: the last ATR before the missing bar is repeated for ever. -/
theorem atr_frozen {h l c out : Series (Val K)} {w k : Nat} (ho : averageTrueRange h l c w true = .ok out) (hk : w ≤ k) (hk0 : 1 ≤ k)
    (hh : ix h k = .nan) (hl : ix l k = .nan) {i : Nat} (hi : k ≤ i) (hil : i < c.length) : ix out i = ix out (k - 1) := by
  have la : (ATR.run h l c w).length = c.length := by unfold ATR.run; dsimp only; split_ifs <;> simp
  unfold averageTrueRange at ho
  split_ifs at ho
  rw [← Except.ok.inj ho]
  exact fill_dead hk0 (atr_run_dead hk hh hl) hi (by rw [la]; exact hil)

end

/-- The outputs a missing bar can end (`atr_poison`, `keltner_poison`, `kama_poison`, `adx_poison`, `psar_poison`, `cr_poison`). -/
def Ind.mortal {F : Type} : Ind F → Prop
  | .atr _ | .kama .. | .adx _ | .adxPos _ | .adxNeg _ | .psar .. | .psarUpInd .. | .psarDownInd .. | .cr => True
  | .kcHband _ _ original _ | .kcLband _ _ original _ | .kcWband _ _ original _ | .kcHi _ _ original _ | .kcLi _ _ original _ => original = false
  | _ => False

/-- C77: of the outputs that are always numbers on ordinary data, every one is either among those that come back or among those a missing bar can end. -/
theorem heals_or_mortal {K : Type} [Field K] (x : Ind (Val K)) (hx : x.Sane) (ha : x.always) : x.heals ∨ x.mortal := by
  cases x <;> simp only [Ind.heals, Ind.mortal, Ind.memory, Ind.always, Ind.Sane, Option.isSome_some, Option.isSome_none, and_true, true_and,
    or_true, or_false, and_self, Bool.false_eq_true] at hx ha ⊢
  all_goals first
    | exact ha
    | rw [if_pos hx]; rfl
    | (rw [if_pos ha]; exact ⟨rfl, ha⟩)
    | (rename_i o _; cases o <;> simp at ha ⊢)

section examples

/-- two bars, one missing, two bars -/
def holed : List (Bar (Val ℚ)) := [qbar 3 1 2 5, qbar 4 2 3 6, ⟨.nan, .nan, .nan, .nan⟩, qbar 5 3 4 4, qbar 6 4 5 7]

/-- the average is back as soon as two rows are there; the true range never -/
example : smaIndicator (closes holed) 2 = [.nan, .fin (5/2), .nan, .nan, .fin (9/2)] ∧
    averageTrueRange (highs holed) (lows holed) (closes holed) 2 = .ok [.fin 0, .fin 2, .nan, .nan, .nan] ∧
    averageTrueRange (highs holed) (lows holed) (closes holed) 2 true = .ok [.fin 0, .fin 2, .fin 2, .fin 2, .fin 2] := by decide +kernel

/-- in the first `w` rows the hole is harmless to the ATR -/
example : averageTrueRange (highs holed) (lows holed) (closes holed) 3 = .ok [.fin 0, .fin 0, .fin 2, .fin 2, .fin 2] := by decide +kernel

example : kama (closes holed) 1 2 30 = [.fin 2, .fin (22/9), .nan, .nan, .nan] := by decide +kernel

example : (ADX.new (highs holed) (lows holed) (closes holed) 1).map (·.adxPos) = .ok [.fin 0, .fin 0, .nan, .nan, .nan] := by decide +kernel

/-- the stop copes with the hole in row 2 but not with one in the first two rows -/
example : (PSAR.new (highs holed) (lows holed) (closes holed)).map (·.psar) = .ok [.fin 2, .fin 3, .fin 1, .fin (26/25), .fin (749/625)] ∧
    (PSAR.new (highs (holed.drop 2)) (lows (holed.drop 2)) (closes (holed.drop 2))).map (·.psar) = .ok [.nan, .fin 4, .nan] := by decide +kernel

example : cumulativeReturn (closes (holed.drop 2)) = .ok [.nan, .nan, .nan] ∧ cumulativeReturn (closes holed) =
    .ok [.fin 0, .fin 50, .nan, .fin 100, .fin 150] := by decide +kernel

end examples

end TA
