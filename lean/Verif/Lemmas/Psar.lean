import Verif.Model.Psar
import Verif.Lemmas.Take

/-! # PSAR: the loop body as a function of scalars -/

set_option linter.unusedSectionVars false

namespace TA
variable {F : Type} [Flt F]

theorem ix_set_self {l : List F} {i : Nat} {v : F} (h : i < l.length) : ix (l.set i v) i = v := by
  rw [ix_lt (by simpa using h)]; simp

theorem ix_set_ne {l : List F} {i j : Nat} {v : F} (h : i ≠ j) : ix (l.set i v) j = ix l j := by
  unfold ix
  simp only [List.getD_eq_getElem?_getD, List.getElem?_set_ne h]

theorem iter_inv {S : Type} {P : S → Prop} {f : Nat → S → S} {init : S} (h0 : P init)
    (hs : ∀ k s, P s → P (f k s)) : ∀ n, P (iter f init n)
  | 0 => h0
  | n + 1 => hs n _ (iter_inv h0 hs n)

theorem iter_inv_idx {S : Type} {P : Nat → S → Prop} {f : Nat → S → S} {init : S} (h0 : P 0 init)
    (hs : ∀ k s, P k s → P (k + 1) (f k s)) : ∀ n, P n (iter f init n)
  | 0 => h0
  | n + 1 => hs n _ (iter_inv_idx h0 hs n)

theorem iter_inv_lt {S : Type} {P : Nat → S → Prop} {f : Nat → S → S} {init : S} {N : Nat} (h0 : P 0 init)
    (hs : ∀ k s, k < N → P k s → P (k + 1) (f k s)) : ∀ n, n ≤ N → P n (iter f init n)
  | 0, _ => h0
  | n + 1, h => hs n _ (by omega) (iter_inv_lt h0 hs n (by omega))

/-- Scalars the loop carries, and the value written to row `i`. -/
structure PCore (F : Type) where
  upTrend : Bool
  af : F
  high : F
  low : F
  val : F

/-- The loop body on scalars: `h0 l0` the current bar, `h1 l1` and `h2 l2` the two bars before. -/
def pcore (s mx : F) (c : PCore F) (h0 l0 h1 l1 h2 l2 : F) : PCore F :=
  if c.upTrend then
    let p := c.val +. (c.af *. (c.high -. c.val))
    if l0 <. p then ⟨false, s, c.high, l0, c.high⟩
    else
      let q := if l2 <. p then l2 else if l1 <. p then l1 else p
      if h0 >. c.high then ⟨true, pyMin (c.af +. s) mx, h0, c.low, q⟩
      else ⟨true, c.af, c.high, c.low, q⟩
  else
    let p := c.val -. (c.af *. (c.val -. c.low))
    if h0 >. p then ⟨true, s, h0, c.low, c.low⟩
    else
      let q := if h2 >. p then h2 else if h1 >. p then h1 else p
      if l0 <. c.low then ⟨false, pyMin (c.af +. s) mx, c.high, l0, q⟩
      else ⟨false, c.af, c.high, c.low, q⟩

/-- the scalars of a state, the last written value being that of row `i` -/
def PsarSt.core (st : PsarSt F) (i : Nat) : PCore F := ⟨st.upTrend, st.af, st.high, st.low, st.cur i⟩

/-- write the outcome of the scalar step -/
def PsarSt.put (st : PsarSt F) (i : Nat) (c : PCore F) : PsarSt F :=
  { upTrend := c.upTrend, af := c.af, high := c.high, low := c.low
    psar := ⟨.positional, st.psar.vals.set i c.val⟩
    up := if c.upTrend then st.up.set i c.val else st.up
    down := if c.upTrend then st.down else st.down.set i c.val }

/-- one scalar step at bar `i` -/
def PSAR.cstep (high low : Series F) (s mx : F) (i : Nat) (c : PCore F) : PCore F :=
  pcore s mx c (ix high i) (ix low i) (ix high (i - 1)) (ix low (i - 1)) (ix high (i - 2)) (ix low (i - 2))

theorem PSAR.step_eq (high low : Series F) (s mx : F) (i : Nat) (st : PsarSt F)
    (hp : st.psar.idx = .positional) (hi : i < st.psar.vals.length) :
    PSAR.step high low s mx i st = st.put i (PSAR.cstep high low s mx i (st.core (i - 1))) := by
  obtain ⟨ut, af, hh, ll, ⟨ix', vals⟩, up, dn⟩ := st
  simp only at hp hi
  subst hp
  unfold PSAR.step PSAR.cstep pcore PsarSt.core PsarSt.put
  simp only [LSeries.ilocSet, PsarSt.cur, LSeries.setItem]
  cases ut
  · simp only [Bool.false_eq_true, if_false]
    by_cases h1 : (ix high i >. (ix vals (i - 1) -. af *. (ix vals (i - 1) -. ll))) = true
    · simp [h1, ix_set_self hi, List.set_set]
    · by_cases h2 : (ix low i <. ll) = true <;>
      by_cases h3 : (ix high (i - 2) >. (ix vals (i - 1) -. af *. (ix vals (i - 1) -. ll))) = true <;>
      by_cases h4 : (ix high (i - 1) >. (ix vals (i - 1) -. af *. (ix vals (i - 1) -. ll))) = true <;>
      simp [h1, h2, h3, h4, ix_set_self hi, List.set_set]
  · simp only [if_true]
    by_cases h1 : (ix low i <. (ix vals (i - 1) +. af *. (hh -. ix vals (i - 1)))) = true
    · simp [h1, ix_set_self hi, List.set_set]
    · by_cases h2 : (ix high i >. hh) = true <;>
      by_cases h3 : (ix low (i - 2) <. (ix vals (i - 1) +. af *. (hh -. ix vals (i - 1)))) = true <;>
      by_cases h4 : (ix low (i - 1) <. (ix vals (i - 1) +. af *. (hh -. ix vals (i - 1)))) = true <;>
      simp [h1, h2, h3, h4, ix_set_self hi, List.set_set]

/-- The scalars after bar `k + 1` (that is, after `k` iterations). -/
def PSAR.cores (high low close : Series F) (s mx : F) (k : Nat) : PCore F :=
  iter (fun k => PSAR.cstep high low s mx (k + 2)) ⟨true, s, ix high 0, ix low 0, ix close 1⟩ k

/-- What the state is after `k` iterations, row by row. -/
def PSAR.Inv (high low close : Series F) (s mx : F) (k : Nat) (st : PsarSt F) : Prop :=
  st.psar.idx = .positional ∧
  st.core (k + 1) = PSAR.cores high low close s mx k ∧
  st.psar.vals = tab close.length (fun i => if i < 2 then ix close i else
    if i < k + 2 then (PSAR.cores high low close s mx (i - 1)).val else ix close i) ∧
  st.up = tab close.length (fun i => if 2 ≤ i ∧ i < k + 2 ∧ (PSAR.cores high low close s mx (i - 1)).upTrend = true
    then (PSAR.cores high low close s mx (i - 1)).val else nan) ∧
  st.down = tab close.length (fun i => if 2 ≤ i ∧ i < k + 2 ∧ (PSAR.cores high low close s mx (i - 1)).upTrend = false
    then (PSAR.cores high low close s mx (i - 1)).val else nan)

theorem set_tab {n i : Nat} {f : Nat → F} {v : F} :
    (tab n f).set i v = tab n (fun j => if j = i then v else f j) := by
  apply List.ext_getElem
  · simp
  · intro j h1 h2
    rw [List.getElem_set]
    simp only [getElem_tab]
    by_cases h : i = j
    · subst h; simp
    · rw [if_neg h, if_neg (fun e => h e.symm)]

theorem PSAR.inv_iter (high low close : Series F) (s mx : F) : ∀ k, k ≤ close.length - 2 →
    PSAR.Inv high low close s mx k
      (iter (fun k => PSAR.step high low s mx (k + 2)) (PSAR.init high low close .positional s) k) := by
  intro k hk
  refine iter_inv_lt (N := close.length - 2) ?_ ?_ k hk
  · refine ⟨rfl, rfl, ?_, ?_, ?_⟩
    · simp only [PSAR.init]
      conv_lhs => rw [← tab_ix close]
      apply tab_congr rfl
      intro i hi
      split_ifs <;> rfl
    · simp only [PSAR.init]
      rw [← tab_ix (List.replicate close.length nan)]
      simp only [List.length_replicate]
      apply tab_congr rfl
      intro i hi
      rw [ix_replicate hi, if_neg]
      omega
    · simp only [PSAR.init]
      rw [← tab_ix (List.replicate close.length nan)]
      simp only [List.length_replicate]
      apply tab_congr rfl
      intro i hi
      rw [ix_replicate hi, if_neg]
      omega
  · intro k st hk ⟨h1, h2, h3, h4, h5⟩
    have hl : k + 2 < st.psar.vals.length := by rw [h3]; simp; omega
    have hs := PSAR.step_eq high low s mx (k + 2) st h1 hl
    have hc : PSAR.cstep high low s mx (k + 2) (st.core (k + 2 - 1)) = PSAR.cores high low close s mx (k + 1) := by
      have : k + 2 - 1 = k + 1 := by omega
      rw [this, h2]; rfl
    rw [hc] at hs
    show PSAR.Inv high low close s mx (k + 1) (PSAR.step high low s mx (k + 2) st)
    rw [hs]
    generalize hC : PSAR.cores high low close s mx = C at *
    refine ⟨rfl, ?_, ?_, ?_, ?_⟩
    · simp only [PsarSt.core, PsarSt.put, PsarSt.cur, hC]
      rw [ix_set_self (by simpa using hl)]
    · simp only [PsarSt.put, hC]
      rw [h3, set_tab]
      apply tab_congr rfl
      intro i hi
      by_cases h : i = k + 2
      · subst h; simp
      · rw [if_neg h]
        split_ifs <;> first | rfl | omega
    · simp only [PsarSt.put, hC]
      rw [h4, set_tab]
      split_ifs with hu
      · apply tab_congr rfl
        intro i hi
        by_cases h : i = k + 2
        · subst h; simp [hu]
        · rw [if_neg h]
          apply if_congr _ rfl rfl
          constructor <;> (rintro ⟨a, b, c⟩; exact ⟨a, by omega, c⟩)
      · apply tab_congr rfl
        intro i hi
        by_cases h : i = k + 2
        · subst h; simp [hu]
        · apply if_congr _ rfl rfl
          constructor <;> (rintro ⟨a, b, c⟩; exact ⟨a, by omega, c⟩)
    · simp only [PsarSt.put, hC]
      rw [h5, set_tab]
      split_ifs with hu
      · apply tab_congr rfl
        intro i hi
        by_cases h : i = k + 2
        · subst h; simp [hu]
        · apply if_congr _ rfl rfl
          constructor <;> (rintro ⟨a, b, c⟩; exact ⟨a, by omega, c⟩)
      · apply tab_congr rfl
        intro i hi
        by_cases h : i = k + 2
        · subst h; simp [hu]
        · rw [if_neg h]
          apply if_congr _ rfl rfl
          constructor <;> (rintro ⟨a, b, c⟩; exact ⟨a, by omega, c⟩)

/-- The three series of the object, row by row. -/
theorem PSAR.new_eq (high low close : Series F) (s mx : F) (fillna : Bool) (h : 0 < close.length) :
    PSAR.new high low close .positional s mx fillna = .ok
      { psarS := tab close.length (fun i => if i < 2 then ix close i else
          (PSAR.cores high low close s mx (i - 1)).val)
        up := tab close.length (fun i => if 2 ≤ i ∧ (PSAR.cores high low close s mx (i - 1)).upTrend = true
          then (PSAR.cores high low close s mx (i - 1)).val else nan)
        down := tab close.length (fun i => if 2 ≤ i ∧ (PSAR.cores high low close s mx (i - 1)).upTrend = false
          then (PSAR.cores high low close s mx (i - 1)).val else nan)
        fillna := fillna } := by
  have hinv := PSAR.inv_iter high low close s mx (close.length - 2) (le_refl _)
  obtain ⟨-, -, h3, h4, h5⟩ := hinv
  unfold PSAR.new PSAR.run
  rw [if_neg (by omega)]
  simp only [Except.ok.injEq, PSAR.mk.injEq, and_true]
  refine ⟨?_, ?_, ?_⟩
  · rw [h3]
    apply tab_congr rfl
    intro i hi
    by_cases h2 : i < 2
    · simp [h2]
    · rw [if_neg h2, if_neg h2, if_pos (by omega)]
  · rw [h4]
    apply tab_congr rfl
    intro i hi
    apply if_congr _ rfl rfl
    constructor
    · rintro ⟨a, b, c⟩; exact ⟨a, c⟩
    · rintro ⟨a, c⟩; exact ⟨a, by omega, c⟩
  · rw [h5]
    apply tab_congr rfl
    intro i hi
    apply if_congr _ rfl rfl
    constructor
    · rintro ⟨a, b, c⟩; exact ⟨a, c⟩
    · rintro ⟨a, c⟩; exact ⟨a, by omega, c⟩

/-- The scalars only read the bars up to `k + 1`. -/
theorem PSAR.cores_take (high low close : Series F) (s mx : F) (m k : Nat) (hk : k + 1 < m) :
    PSAR.cores (high.take m) (low.take m) (close.take m) s mx k = PSAR.cores high low close s mx k := by
  unfold PSAR.cores
  rw [ix_take_lt (s := high) (by omega), ix_take_lt (s := low) (by omega), ix_take_lt (s := close) (by omega)]
  apply iter_congr
  intro j hj c
  unfold PSAR.cstep
  rw [ix_take_lt (s := high) (by omega), ix_take_lt (s := low) (by omega),
    ix_take_lt (s := high) (by omega), ix_take_lt (s := low) (by omega),
    ix_take_lt (s := high) (by omega), ix_take_lt (s := low) (by omega)]

end TA
