import Verif.Model.Names
import Verif.Lemmas.NewEq
import Verif.Props.C18

/-!
# C78: the names of the outputs

When do two outputs carry the same `Series.name`?
-/

namespace TA

/-- The three texts that Bollinger bands and Keltner channel share. -/
def shares {F : Type} : Ind F → Ind F → Prop
  | .bbMavg .., .kcMband .. | .bbWband .., .kcWband .. | .bbPband .., .kcPband .. => True
  | .kcMband .., .bbMavg .. | .kcWband .., .bbWband .. | .kcPband .., .bbPband .. => True
  | _, _ => False

theorem toDigits_inj {a b : Nat} (h : Nat.toDigits 10 a = Nat.toDigits 10 b) : a = b := by
  rw [← Nat.ofDigitChars_toDigits (n := a) (b := 10) (by decide) (by decide), h, Nat.ofDigitChars_toDigits (by decide) (by decide)]

theorem append_split {p : Char → Bool} {s t s' t' : List Char} (hs : ∀ c ∈ s, p c = true) (hs' : ∀ c ∈ s', p c = true)
    (ht : ∀ c l, t = c :: l → p c = false) (ht' : ∀ c l, t' = c :: l → p c = false) (h : s ++ t = s' ++ t') : s = s' ∧ t = t' := by
  induction s generalizing s' with
  | nil =>
    cases s' with
    | nil => exact ⟨rfl, by simpa using h⟩
    | cons c l =>
      have := ht c (l ++ t') (by simpa using h)
      rw [hs' c (by simp)] at this; exact absurd this (by decide)
  | cons a s ih =>
    cases s' with
    | nil =>
      have := ht' a (s ++ t) (by simpa using h.symm)
      rw [hs a (by simp)] at this; exact absurd this (by decide)
    | cons c l =>
      simp only [List.cons_append, List.cons.injEq] at h
      obtain ⟨e1, e2⟩ := ih (s' := l) (fun c hc => hs c (by simp [hc])) (fun c hc => hs' c (by simp [hc])) h.2
      exact ⟨by rw [h.1, e1], e2⟩

/-- characters of a numeral -/
theorem nat_chars (n : Nat) : (toString n).toList = Nat.toDigits 10 n := Nat.toList_repr

theorem nat_digits (n : Nat) : ∀ c ∈ (toString n).toList, c.isDigit = true := by
  intro c hc
  rw [nat_chars] at hc
  exact Nat.isDigit_of_mem_toDigits (b := 10) (by decide) (by decide) hc

theorem nat_chars_ne (n : Nat) : (toString n).toList ≠ [] := by
  rw [nat_chars]
  exact Nat.toDigits_ne_nil

/-- What follows the first numeral. -/
def joinRest (l : List Nat) : List Char := if l = [] then [] else '_' :: (joinNats l).toList

theorem joinNats_cons (n : Nat) (l : List Nat) : (joinNats (n :: l)).toList = (toString n).toList ++ joinRest l := by
  cases l with
  | nil => simp [joinNats, joinRest]
  | cons m l => simp [joinNats, joinRest, String.toList_append]

theorem joinRest_head (l : List Nat) : ∀ c t, joinRest l = c :: t → c.isDigit = false := by
  intro c t h
  unfold joinRest at h
  split at h
  · cases h
  · simp only [List.cons.injEq] at h
    rw [← h.1]; decide

theorem joinNats_inj : ∀ {l m : List Nat}, joinNats l = joinNats m → l = m
  | [], [], _ => rfl
  | [], b :: m, h => by
    have := congrArg String.toList h
    rw [joinNats_cons] at this
    exact absurd (List.append_eq_nil_iff.1 this.symm).1 (nat_chars_ne b)
  | a :: l, [], h => by
    have := congrArg String.toList h
    rw [joinNats_cons] at this
    exact absurd (List.append_eq_nil_iff.1 this).1 (nat_chars_ne a)
  | a :: l, b :: m, h => by
    have := congrArg String.toList h
    rw [joinNats_cons, joinNats_cons] at this
    obtain ⟨e1, e2⟩ := append_split (nat_digits a) (nat_digits b) (joinRest_head l) (joinRest_head m) this
    rw [nat_chars, nat_chars] at e1
    rw [toDigits_inj e1]
    congr 1
    unfold joinRest at e2
    split at e2 <;> rename_i h1 <;> split at e2 <;> rename_i h2
    · rw [h1, h2]
    · cases e2
    · cases e2
    · exact joinNats_inj (String.toList_inj.1 (List.cons.inj e2).2)

theorem stem_char {F : Type} (x : Ind F) : ∀ c ∈ x.stem.toList, c.isDigit = false := by
  cases x <;> simp only [Ind.stem] <;> decide +kernel

theorem joinNats_head (l : List Nat) : ∀ c t, (joinNats l).toList = c :: t → c.isDigit = true := by
  intro c t h
  cases l with
  | nil => cases h
  | cons n l =>
    rw [joinNats_cons] at h
    cases e : (toString n).toList with
    | nil => exact absurd e (nat_chars_ne n)
    | cons d r =>
      rw [e] at h
      simp only [List.cons_append, List.cons.injEq] at h
      rw [← h.1]
      exact nat_digits n d (e ▸ List.mem_cons_self)

theorem name_split {F : Type} {x y : Ind F} {o p : Nat} : x.name o = y.name p ↔ x.stem = y.stem ∧ x.shown o = y.shown p := by
  constructor
  · intro h
    have := congrArg String.toList h
    simp only [Ind.name, String.toList_append] at this
    have := append_split (p := fun c => !c.isDigit) (fun c hc => by simp [stem_char x c hc]) (fun c hc => by simp [stem_char y c hc])
      (fun c t e => by simp [joinNats_head _ c t e]) (fun c t e => by simp [joinNats_head _ c t e]) this
    exact ⟨String.toList_inj.1 this.1, joinNats_inj (String.toList_inj.1 this.2)⟩
  · intro h
    simp only [Ind.name, h.1, h.2]

/-- the texts in the order of the outputs -/
def stems : List String := ["rsi", "tsi", "uo", "stoch_k", "stoch_k_signal", "kama", "roc", "ao", "wr", "stochrsi", "stochrsi_k", "stochrsi_d",
  "PPO_", "PPO_sign_", "PPO_hist_", "PVO_", "PVO_sign_", "PVO_hist_", "aroon_up_", "aroon_down_", "aroon_ind_", "MACD_", "MACD_sign_",
  "MACD_diff_", "ema_", "sma_", "wma_", "trix_", "mass_index_", "ichimoku_conv_", "ichimoku_base_", "ichimoku_a_", "ichimoku_b_", "kst",
  "kst_sig", "kst_diff", "dpo_", "cci", "adx", "adx_pos", "adx_neg", "vip", "vin", "vid", "psar", "psarup", "psardown", "psariup",
  "psaridown", "stc", "atr", "mavg", "hband", "lband", "bbiwband", "bbipband", "bbihband", "bbilband", "mavg", "kc_hband", "kc_lband",
  "bbiwband", "bbipband", "dcihband", "dcilband", "dchband", "dclband", "dcmband", "dcwband", "dcpband", "ui", "adi", "obv", "cmf", "fi_",
  "eom_", "sma_eom_", "vpt", "nvi", "mfi_", "vwap_", "d_ret", "d_logret", "cum_ret"]

theorem stem_idx {F : Type} (x : Ind F) : x.ctorIdx < 84 ∧ stems.getD x.ctorIdx "" = x.stem := by
  cases x <;> exact ⟨Nat.le_of_ble_eq_true rfl, rfl⟩

theorem stems_distinct : ∀ i j : Fin 84, i < j → stems.getD i "" = stems.getD j "" → (i.1, j.1) ∈ [(51, 58), (54, 61), (55, 62)] := by
  decide +kernel

theorem idx_bb {F : Type} {x : Ind F} :
    (x.ctorIdx = 51 → ∃ w d, x = .bbMavg w d) ∧ (x.ctorIdx = 54 → ∃ w d, x = .bbWband w d) ∧
    (x.ctorIdx = 55 → ∃ w d, x = .bbPband w d) := by
  refine ⟨fun h => ?_, fun h => ?_, fun h => ?_⟩ <;> cases x <;> first | exact ⟨_, _, rfl⟩ | exact Nat.noConfusion h | cases h

theorem idx_kc {F : Type} {x : Ind F} :
    (x.ctorIdx = 58 → ∃ w a o m, x = .kcMband w a o m) ∧ (x.ctorIdx = 61 → ∃ w a o m, x = .kcWband w a o m) ∧
    (x.ctorIdx = 62 → ∃ w a o m, x = .kcPband w a o m) := by
  refine ⟨fun h => ?_, fun h => ?_, fun h => ?_⟩ <;> cases x <;> first | exact ⟨_, _, _, _, rfl⟩ | cases h

theorem stem_lt {F : Type} {x y : Ind F} (h : x.stem = y.stem) (hl : x.ctorIdx < y.ctorIdx) : shares x y ∧ shares y x := by
  obtain ⟨hx, ex⟩ := stem_idx x
  obtain ⟨hy, ey⟩ := stem_idx y
  have := stems_distinct ⟨_, hx⟩ ⟨_, hy⟩ hl (by rw [ex, ey, h])
  simp only [List.mem_cons, Prod.mk.injEq, List.not_mem_nil, or_false] at this
  rcases this with ⟨a, b⟩ | ⟨a, b⟩ | ⟨a, b⟩
  · obtain ⟨_, _, rfl⟩ := idx_bb.1 a; obtain ⟨_, _, _, _, rfl⟩ := idx_kc.1 b; exact ⟨trivial, trivial⟩
  · obtain ⟨_, _, rfl⟩ := idx_bb.2.1 a; obtain ⟨_, _, _, _, rfl⟩ := idx_kc.2.1 b; exact ⟨trivial, trivial⟩
  · obtain ⟨_, _, rfl⟩ := idx_bb.2.2 a; obtain ⟨_, _, _, _, rfl⟩ := idx_kc.2.2 b; exact ⟨trivial, trivial⟩

theorem stem_eq {F : Type} {x y : Ind F} : x.stem = y.stem ↔ x.ctorIdx = y.ctorIdx ∨ shares x y := by
  constructor
  · intro h
    rcases lt_trichotomy x.ctorIdx y.ctorIdx with hl | he | hl
    · exact .inr (stem_lt h hl).1
    · exact .inl he
    · exact .inr (stem_lt h.symm hl).2
  · rintro (h | h)
    · rw [← (stem_idx x).2, ← (stem_idx y).2, h]
    · revert h
      unfold shares
      split <;> intro h <;> first | rfl | exact h.elim

/-- C78: two outputs have the same name exactly when they show the same windows and are the same method, or are the middle line, the
width or the percentage band of the Bollinger bands and of the Keltner channel. -/
theorem same_name {F : Type} (x y : Ind F) (o p : Nat) :
    x.name o = y.name p ↔ (x.ctorIdx = y.ctorIdx ∨ shares x y) ∧ x.shown o = y.shown p := by
  rw [name_split, stem_eq]

/-- The outputs whose name shows everything they depend on. -/
def Ind.told {F : Type} : Ind F → Bool
  | .aroonUp _ | .aroonDown _ | .aroonInd _ | .ema _ | .sma _ | .wma _ | .trix _ | .massIndex .. | .ichimokuConv _ | .ichimokuBase _
  | .dpo _ | .fi _ | .smaEom _ | .mfi _ | .vwap _ | .adi | .obv | .nvi | .eom | .dr | .dlr | .cr => true
  | _ => false

/-- C78: their name identifies them, among all outputs with all parameters. -/
theorem told_name {F : Type} (x y : Ind F) (o p : Nat) (hx : x.told = true) (h : x.name o = y.name p) : x = y := by
  rw [same_name] at h
  obtain ⟨h1 | h1, h2⟩ := h
  · cases x <;> first | (cases hx; done) | (cases y <;> first | (cases h1; done) | rfl |
      (simp only [Ind.shown, List.cons.injEq, and_true] at h2; first | rw [h2] | rw [h2.1, h2.2] | rw [h2.1] | rw [h2.2]))
  · revert hx h1
    unfold shares
    split <;> intro hx h1 <;> first | exact h1.elim | cases hx

variable {F : Type} [FltFn F] in
/-- C78: the main lines of MACD, PPO and PVO: the name omits the signal window, which they do not depend on. -/
theorem main_line_name (fillna : Bool) (b : List (Bar F)) (s f g s' f' g' : Nat) {u v : Series F} :
    ((Ind.macd s f g : Ind F).name = (Ind.macd s' f' g' : Ind F).name →
      (Ind.macd s f g).eval fillna b = .ok u → (Ind.macd s' f' g').eval fillna b = .ok v → u = v) ∧
    ((Ind.ppo s f g : Ind F).name = (Ind.ppo s' f' g' : Ind F).name →
      (Ind.ppo s f g).eval fillna b = .ok u → (Ind.ppo s' f' g').eval fillna b = .ok v → u = v) ∧
    ((Ind.pvo s f g : Ind F).name = (Ind.pvo s' f' g' : Ind F).name →
      (Ind.pvo s f g).eval fillna b = .ok u → (Ind.pvo s' f' g').eval fillna b = .ok v → u = v) := by
  refine ⟨fun h hu hv => ?_, fun h hu hv => ?_, fun h hu hv => ?_⟩ <;>
  · have h2 := ((same_name _ _ _ _).1 h).2
    simp only [Ind.shown, List.cons.injEq, and_true] at h2
    obtain ⟨rfl, rfl⟩ := h2
    simp only [Ind.eval, MACD.new_eq, PPO.new_eq] at hu hv
    split at hu <;> rename_i g1
    · cases hu
    split at hv <;> rename_i g2
    · cases hv
    rw [← Except.ok.inj hu, ← Except.ok.inj hv]
    rfl

attribute [local instance] toyFn

/-- Two closes with mean 3 and standard deviation 1 (the square root of 1 is all that is evaluated). -/
def twoBars : List (Bar (Val ℚ)) := [qb 2, qb 4]

/-- rising closes (only the square root of 0 is evaluated) -/
def upBars : List (Bar (Val ℚ)) := [qb 2, qb 4, qb 5]

/-- Pairs of parameters, and rows. -/
def pairs : List (Ind (Val ℚ) × Ind (Val ℚ) × List (Bar (Val ℚ))) :=
  [(.rsi 1, .rsi 2, fiveBars), (.tsi 1 2, .tsi 1 3, fiveBars), (.uo 1 2 3 (.fin 4) (.fin 2) (.fin 1), .uo 1 2 2 (.fin 4) (.fin 2) (.fin 1), fiveBars),
   (.stoch 1, .stoch 2, fiveBars), (.stochSignal 1 1, .stochSignal 1 2, fiveBars), (.kama 1 2 3, .kama 2 2 3, fiveBars), (.roc 1, .roc 2, fiveBars),
   (.ao 1 2, .ao 1 3, fiveBars), (.williamsR 1, .williamsR 2, fiveBars), (.stochrsi 1 1 1, .stochrsi 2 1 1, fiveBars),
   (.stochrsiK 2 1 1, .stochrsiK 2 2 1, fiveBars), (.stochrsiD 2 1 1, .stochrsiD 2 1 2, fiveBars),
   (.ppoSignal 2 1 1, .ppoSignal 2 1 2, fiveBars), (.ppoHist 2 1 1, .ppoHist 2 1 2, fiveBars),
   (.pvoSignal 2 1 1, .pvoSignal 2 1 2, fiveBars), (.pvoHist 2 1 1, .pvoHist 2 1 2, fiveBars),
   (.macdSignal 2 1 1, .macdSignal 2 1 2, fiveBars), (.macdDiff 2 1 1, .macdDiff 2 1 2, fiveBars),
   (.ichimokuA 1 2 true, .ichimokuA 1 2 false, fiveBars), (.ichimokuB 2 3 false, .ichimokuB 2 4 false, fiveBars),
   (.kst ⟨1,1,1,1,1,1,1,1⟩, .kst ⟨2,1,1,1,1,1,1,1⟩, fiveBars), (.kstSig ⟨1,1,1,1,1,1,1,1⟩ 1, .kstSig ⟨1,1,1,1,1,1,1,1⟩ 2, fiveBars),
   (.kstDiff ⟨1,1,1,1,1,1,1,1⟩ 1, .kstDiff ⟨1,1,1,1,1,1,1,1⟩ 2, fiveBars), (.cci 2 (.fin 1), .cci 2 (.fin 2), fiveBars),
   (.adx 1, .adx 2, fiveBars), (.adxPos 1, .adxPos 2, fiveBars), (.adxNeg 1, .adxNeg 2, fiveBars),
   (.vortexPos 1, .vortexPos 2, fiveBars), (.vortexNeg 1, .vortexNeg 2, fiveBars), (.vortexDiff 1, .vortexDiff 2, fiveBars),
   (.psar (.fin (1/50)) (.fin (1/5)), .psar (.fin (1/10)) (.fin (1/5)), fiveBars), (.psarUp (.fin (1/50)) (.fin (1/5)), .psarUp (.fin (1/10)) (.fin (1/5)), fiveBars),
   (.psarDown (.fin (1/50)) (.fin (1/5)), .psarDown (.fin 1) (.fin 1), fiveBars),
   (.psarUpInd (.fin (1/50)) (.fin (1/5)), .psarUpInd (.fin 1) (.fin 1), fiveBars),
   (.psarDownInd (.fin (1/50)) (.fin (1/5)), .psarDownInd (.fin 1) (.fin 1), fiveBars),
   (.stc 2 1 2 1 1, .stc 2 1 3 1 1, fiveBars), (.atr 1, .atr 2, fiveBars), (.bbMavg 1 (.fin 1), .bbMavg 2 (.fin 1), twoBars),
   (.bbHband 2 (.fin 1), .bbHband 2 (.fin 2), twoBars), (.bbLband 2 (.fin 1), .bbLband 2 (.fin 2), twoBars),
   (.bbWband 2 (.fin 1), .bbWband 2 (.fin 2), twoBars), (.bbPband 2 (.fin 1), .bbPband 2 (.fin 2), twoBars),
   (.bbHi 2 (.fin (1/2)), .bbHi 2 (.fin 2), twoBars), (.bbLi 2 (.fin (-2)), .bbLi 2 (.fin 2), twoBars),
   (.kcMband 1 1 true (.fin 2), .kcMband 2 1 true (.fin 2), fiveBars), (.kcHband 1 1 true (.fin 2), .kcHband 2 1 true (.fin 2), fiveBars),
   (.kcLband 1 1 true (.fin 2), .kcLband 2 1 true (.fin 2), fiveBars), (.kcWband 1 1 true (.fin 2), .kcWband 2 1 true (.fin 2), fiveBars),
   (.kcPband 1 1 true (.fin 2), .kcPband 2 1 true (.fin 2), fiveBars), (.kcHi 2 2 false (.fin 0), .kcHi 2 2 false (.fin 2), fiveBars),
   (.kcLi 2 2 false (.fin 0), .kcLi 2 2 false (.fin 2), fiveBars), (.dcHband 2 0, .dcHband 2 1, fiveBars), (.dcLband 2 0, .dcLband 2 1, fiveBars),
   (.dcMband 2 0, .dcMband 2 1, fiveBars), (.dcWband 2 0, .dcWband 2 1, fiveBars), (.dcPband 2 0, .dcPband 2 1, fiveBars),
   (.ulcer 1, .ulcer 2, upBars), (.cmf 1, .cmf 2, fiveBars), (.vpt none, .vpt (some 2), fiveBars)]

/-- MACD, PPO, PVO -/
def Ind.mainLine {F : Type} : Ind F → Bool
  | .macd .. | .ppo .. | .pvo .. => true
  | _ => false

/-- Every other output method. -/
theorem pairs_cover {F : Type} (x : Ind F) : x.told = true ∨ x.mainLine = true ∨ ∃ q ∈ pairs, q.1.ctorIdx = x.ctorIdx := by
  have key : ∀ n : Nat, (pairs.map (·.1.ctorIdx)).contains n = true → ∃ q ∈ pairs, q.1.ctorIdx = n := by
    intro n h
    simpa [List.contains_iff_mem, List.mem_map] using h
  cases x <;> first | exact .inl rfl | exact .inr (.inl rfl) | exact .inr (.inr (key _ rfl))

/-- C78: every other output method returns different values under the same name for some two choices of its arguments. -/
theorem names_ambiguous {F : Type} (x : Ind F) (hx : x.told = false) (hm : x.mainLine = false) :
    ∃ (y z : Ind (Val ℚ)) (b : List (Bar (Val ℚ))) (u v : Series (Val ℚ)), y.ctorIdx = x.ctorIdx ∧ z.ctorIdx = x.ctorIdx ∧
      y.name = z.name ∧ y.eval false b = .ok u ∧ z.eval false b = .ok v ∧ u ≠ v := by
  have key : ∀ q ∈ pairs, q.1.ctorIdx = q.2.1.ctorIdx ∧ q.1.name = q.2.1.name ∧ (q.1.eval false q.2.2).isOk = true ∧
      (q.2.1.eval false q.2.2).isOk = true ∧ q.1.eval false q.2.2 ≠ q.2.1.eval false q.2.2 := by decide +kernel
  rcases pairs_cover x with h | h | ⟨q, hq, h⟩
  · rw [hx] at h; cases h
  · rw [hm] at h; cases h
  obtain ⟨k1, k2, k3, k4, k5⟩ := key q hq
  cases e1 : q.1.eval false q.2.2 with
  | error => rw [e1] at k3; cases k3
  | ok u =>
    cases e2 : q.2.1.eval false q.2.2 with
    | error => rw [e2] at k4; cases k4
    | ok v => exact ⟨q.1, q.2.1, q.2.2, u, v, h, k1 ▸ h, k2, e1, e2, fun e => k5 (by rw [e1, e2, e])⟩

/-- C78: arguments that do not matter change the name: `window2` of the conversion line, `window1` of the base line and of span B,
`window` of the ease of movement. -/
theorem name_shows_unused {F : Type} (o p : Nat) (h : o ≠ p) (x : Ind F) :
    x.name o ≠ x.name p ↔ (∃ w, x = .ichimokuConv w) ∨ (∃ w, x = .ichimokuBase w) ∨ (∃ w1 w2 v, x = .ichimokuB w1 w2 v) ∨ x = .eom := by
  rw [Ne, same_name]
  cases x <;> simp [Ind.shown, h]

/-- C78 on names: a Keltner flag is called like a Donchian band -/
example : (Ind.ichimokuConv 9 : Ind ℚ).name 26 = "ichimoku_conv_9_26" ∧ (Ind.macdSignal 26 12 9 : Ind ℚ).name = "MACD_sign_12_26" ∧
    (Ind.kcHi 20 10 true 2 : Ind ℚ).name = "dcihband" ∧ (Ind.bbWband 20 2 : Ind ℚ).name = (Ind.kcWband 20 10 true 2 : Ind ℚ).name ∧
    (Ind.massIndex 1 23 : Ind ℚ).name ≠ (Ind.massIndex 12 3 : Ind ℚ).name := by decide +kernel

end TA
