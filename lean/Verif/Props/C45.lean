import Verif.Props.C13
import Verif.Lemmas.Psar

/-! # C45-C48: parabolic SAR -/

set_option linter.unusedSectionVars false

namespace TA
open Finset
variable {K : Type} [Field K] [LinearOrder K] [IsStrictOrderedRing K]

/-! ## the indicator as a recursion over bars -/

/-- trend, acceleration factor, highest high and lowest low of the trend, and the stop -/
structure Sar (K : Type) where
  up : Bool
  af : K
  hi : K
  lo : K
  sar : K

/-- one bar -/
def Sar.next (h l : Nat → K) (step mx : K) (i : Nat) (s : Sar K) : Sar K :=
  if s.up then
    let p := s.sar + s.af * (s.hi - s.sar)
    if l i < p then ⟨false, step, s.hi, l i, s.hi⟩
    else ⟨true, if s.hi < h i then min (s.af + step) mx else s.af, max s.hi (h i), s.lo,
      if l (i - 2) < p then l (i - 2) else if l (i - 1) < p then l (i - 1) else p⟩
  else
    let p := s.sar - s.af * (s.sar - s.lo)
    if p < h i then ⟨true, step, h i, s.lo, s.lo⟩
    else ⟨false, if l i < s.lo then min (s.af + step) mx else s.af, s.hi, min s.lo (l i),
      if p < h (i - 2) then h (i - 2) else if p < h (i - 1) then h (i - 1) else p⟩

/-- the state after bar `i`; the first two bars only set the stop to the close -/
def sarAt (h l c : Nat → K) (step mx : K) : Nat → Sar K
  | 0 => ⟨true, step, h 0, l 0, c 0⟩
  | 1 => ⟨true, step, h 0, l 0, c 1⟩
  | i + 2 => Sar.next h l step mx (i + 2) (sarAt h l c step mx (i + 1))

/-- as scalars of the loop -/
def Sar.lift (s : Sar K) : PCore (Val K) := ⟨s.up, .fin s.af, .fin s.hi, .fin s.lo, .fin s.sar⟩

theorem pyMin_fin (a b : K) : pyMin (Val.fin a) (.fin b) = .fin (min a b) := by
  unfold pyMin
  rw [fin_lt]
  by_cases h : b < a
  · simp [h, min_eq_right h.le]
  · simp [h, min_eq_left (not_lt.mp h)]

theorem ite_fin {p : Prop} [Decidable p] (a b : K) : (if p then Val.fin a else Val.fin b) = Val.fin (if p then a else b) := by
  split_ifs <;> rfl

theorem pcore_lift (s : Sar K) (step mx h0 l0 h1 l1 h2 l2 : K) (h l : Nat → K) (i : Nat) (e1 : h i = h0) (e2 : l i = l0)
    (e3 : h (i - 1) = h1) (e4 : l (i - 1) = l1) (e5 : h (i - 2) = h2) (e6 : l (i - 2) = l2) :
    pcore (.fin step) (.fin mx) s.lift (.fin h0) (.fin l0) (.fin h1) (.fin l1) (.fin h2) (.fin l2)
      = (Sar.next h l step mx i s).lift := by
  obtain ⟨u, af, hi, lo, sar⟩ := s
  subst e1 e2 e3 e4 e5 e6
  unfold pcore Sar.next Sar.lift
  cases u
  · simp only [Bool.false_eq_true, if_false, fin_sub, fin_mul, fin_lt, decide_eq_true_eq]
    by_cases h1 : sar - af * (sar - lo) < h i
    · simp [h1]
    · simp only [h1, if_false, fin_add, pyMin_fin, ite_fin]
      by_cases h2 : l i < lo
      · simp [h2, min_eq_right h2.le]
      · simp [h2, min_eq_left (not_lt.mp h2)]
  · simp only [if_true, fin_add, fin_sub, fin_mul, fin_lt, decide_eq_true_eq]
    by_cases h1 : l i < sar + af * (hi - sar)
    · simp [h1]
    · simp only [h1, if_false, pyMin_fin, ite_fin]
      by_cases h2 : hi < h i
      · simp [h2, max_eq_right h2.le]
      · simp [h2, max_eq_left (not_lt.mp h2)]

theorem cores_lift (n : Nat) (h l c : Nat → K) (step mx : K) : ∀ k, k + 1 < n →
    PSAR.cores (ser n h) (ser n l) (ser n c) (.fin step) (.fin mx) k = (sarAt h l c step mx (k + 1)).lift
  | 0, hk => by
    unfold PSAR.cores iter
    rw [(def_ser n h).val 0 (by omega) (by omega), (def_ser n l).val 0 (by omega) (by omega),
      (def_ser n c).val 1 (by omega) (by omega)]
    rfl
  | k + 1, hk => by
    have ih := cores_lift n h l c step mx k (by omega)
    show PSAR.cstep _ _ _ _ (k + 2) (PSAR.cores _ _ _ _ _ k) = _
    rw [ih]
    unfold PSAR.cstep
    rw [(def_ser n h).val _ hk (by omega), (def_ser n l).val _ hk (by omega),
      (def_ser n h).val (k + 2 - 1) (by omega) (by omega), (def_ser n l).val (k + 2 - 1) (by omega) (by omega),
      (def_ser n h).val (k + 2 - 2) (by omega) (by omega), (def_ser n l).val (k + 2 - 2) (by omega) (by omega)]
    exact pcore_lift _ _ _ _ _ _ _ _ _ h l (k + 2) rfl rfl rfl rfl rfl rfl

/-- the three series on gap-free bars -/
theorem psar_rows {n : Nat} {h l c : Nat → K} {step mx : K} {o : PSAR (Val K)}
    (ho : PSAR.new (ser n h) (ser n l) (ser n c) .positional (.fin step) (.fin mx) = .ok o) :
    Def o.psar n 0 (fun i => (sarAt h l c step mx i).sar) ∧
    (o.psarUp.length = n ∧ ∀ i, i < n → ix o.psarUp i
      = if 2 ≤ i ∧ (sarAt h l c step mx i).up = true then .fin (sarAt h l c step mx i).sar else .nan) ∧
    (o.psarDown.length = n ∧ ∀ i, i < n → ix o.psarDown i
      = if 2 ≤ i ∧ (sarAt h l c step mx i).up = false then .fin (sarAt h l c step mx i).sar else .nan) := by
  have hl : (ser n c).length = n := (def_ser n c).len
  have hn : 0 < n := by
    by_contra h0
    unfold PSAR.new at ho
    rw [if_pos (by omega)] at ho
    cases ho
  rw [PSAR.new_eq _ _ _ _ _ _ (by omega)] at ho
  have e := Except.ok.inj ho
  subst e
  have key : ∀ i, 2 ≤ i → i < n → PSAR.cores (ser n h) (ser n l) (ser n c) (.fin step) (.fin mx) (i - 1)
      = (sarAt h l c step mx i).lift := by
    intro i h2 hi
    rw [cores_lift _ _ _ _ _ _ _ (by omega), show i - 1 + 1 = i by omega]
  refine ⟨⟨by simp [PSAR.psar, checkFillna, hl], fun i _ h0 => absurd h0 (Nat.not_lt_zero i), fun i hi _ => ?_⟩,
    ⟨by simp [PSAR.psarUp, checkFillna, hl], fun i hi => ?_⟩, ⟨by simp [PSAR.psarDown, checkFillna, hl], fun i hi => ?_⟩⟩
  · show ix (tab _ _) i = _
    rw [ix_tab_lt (by omega)]
    by_cases h2 : i < 2
    · rw [if_pos h2, (def_ser n c).val i hi (by omega)]
      obtain rfl | rfl : i = 0 ∨ i = 1 := by omega
      all_goals rfl
    · rw [if_neg h2, key i (by omega) hi]; rfl
  · show ix (tab _ _) i = _
    rw [ix_tab_lt (by omega)]
    by_cases h2 : 2 ≤ i
    · rw [key i h2 hi]; rfl
    · rw [if_neg (fun h => h2 h.1), if_neg (fun h => h2 h.1)]; rfl
  · show ix (tab _ _) i = _
    rw [ix_tab_lt (by omega)]
    by_cases h2 : 2 ≤ i
    · rw [key i h2 hi]; rfl
    · rw [if_neg (fun h => h2 h.1), if_neg (fun h => h2 h.1)]; rfl

/-! ## C45: the trend partition -/

/-- C45. On gap-free bars: `psar` is a number on every row, rows 0 and 1 carry neither `psar_up` nor `psar_down`, and on
every later row exactly one of the two is a number, and it is `psar`. -/
theorem psar_partition {n : Nat} {h l c : Nat → K} {step mx : K} {o : PSAR (Val K)}
    (ho : PSAR.new (ser n h) (ser n l) (ser n c) .positional (.fin step) (.fin mx) = .ok o) {i : Nat} (hi : i < n) :
    (ix o.psar i).IsFin ∧
    (i < 2 → ix o.psar i = .fin (c i) ∧ ix o.psarUp i = .nan ∧ ix o.psarDown i = .nan) ∧
    (2 ≤ i → (ix o.psarUp i = ix o.psar i ∧ ix o.psarDown i = .nan) ∨
      (ix o.psarDown i = ix o.psar i ∧ ix o.psarUp i = .nan)) := by
  obtain ⟨h1, ⟨-, h2⟩, ⟨-, h3⟩⟩ := psar_rows ho
  rw [h1.val i hi (by omega), h2 i hi, h3 i hi]
  refine ⟨⟨_, rfl⟩, fun h4 => ?_, fun h4 => ?_⟩
  · obtain rfl | rfl : i = 0 ∨ i = 1 := by omega
    all_goals exact ⟨rfl, by simp, by simp⟩
  · cases (sarAt h l c step mx i).up
    · right; simp [h4]
    · left; simp [h4]

example : (PSAR.new (qs [10, 12, 11, 13, 9]) (qs [8, 9, 9, 10, 5]) (qs [9, 11, 10, 12, 6])).map
    (fun o => (o.psar, o.psarUp, o.psarDown))
    = .ok ([.fin 9, .fin 11, .fin 10, .fin 9, .fin 13], [.nan, .nan, .nan, .fin 9, .nan],
      [.nan, .nan, .fin 10, .nan, .fin 13]) := by decide +kernel

/-! ## C46: the rules of the stop -/

/-- rows 0 and 1 belong to the initial up-trend although `psar_up` starts at row 2 -/
def UpRow (o : PSAR (Val K)) (i : Nat) : Prop := i < 2 ∨ (ix o.psarUp i).IsFin
def DownRow (o : PSAR (Val K)) (i : Nat) : Prop := (ix o.psarDown i).IsFin

/-- number of bars after `a`, up to `i`, with a value above all those from `a` on; bar 1 is not looked at -/
def newHighs {L : Type} [LinearOrder L] (x : Nat → L) (a i : Nat) : Nat :=
  #{j ∈ Ioc a i | j ≠ 1 ∧ ∀ k ∈ Ico a j, k ≠ 1 → x k < x j}

/-- number of bars after `a`, up to `i`, with a value below all those from `a` on; bar 1 is not looked at -/
def newLows (x : Nat → K) (a i : Nat) : Nat :=
  #{j ∈ Ioc a i | j ≠ 1 ∧ ∀ k ∈ Ico a j, k ≠ 1 → x j < x k}

/-- acceleration after `m` new extremes -/
def accel (step mx : K) (m : Nat) : K := if m = 0 then step else min (step * (1 + m)) mx

theorem accel_succ {step mx : K} (hs : 0 ≤ step) (m : Nat) :
    min (accel step mx m + step) mx = accel step mx (m + 1) := by
  unfold accel
  rw [if_neg (Nat.succ_ne_zero m)]
  by_cases hm : m = 0
  · subst hm; simp; ring_nf
  · rw [if_neg hm]
    push_cast
    have e : step * (1 + m) + step = step * (1 + ((m : K) + 1)) := by ring
    rcases le_total (step * (1 + (m : K))) mx with h | h
    · rw [min_eq_left h, e]
    · rw [min_eq_right h, min_eq_right (by linarith), min_eq_right (by linarith)]

theorem newHighs_succ {L : Type} [LinearOrder L] (x : Nat → L) {a i : Nat} (h : a ≤ i) {p : Prop} [Decidable p]
    (hp : (i + 1 ≠ 1 ∧ ∀ k ∈ Ico a (i + 1), k ≠ 1 → x k < x (i + 1)) ↔ p) :
    newHighs x a (i + 1) = newHighs x a i + if p then 1 else 0 := by
  unfold newHighs
  have e : Ioc a (i + 1) = insert (i + 1) (Ioc a i) := by
    ext j; simp only [Finset.mem_Ioc, Finset.mem_insert]; omega
  rw [e, Finset.filter_insert]
  by_cases h1 : p
  · rw [if_pos (hp.mpr h1), if_pos h1, Finset.card_insert_of_notMem (by simp)]
  · rw [if_neg (fun g => h1 (hp.mp g)), if_neg h1]; rfl

/-- tracking of the extreme value and the acceleration -/
theorem ext_track {L : Type} [LinearOrder L] (x e : Nat → L) (al : Nat → K) {step mx : K} (hs : 0 ≤ step) {a N : Nat}
    (ha : a ≠ 1) (h0 : e a = x a) (h1 : al a = step)
    (hone : a = 0 → 1 ≤ N → e 1 = e 0 ∧ al 1 = al 0)
    (hstep : ∀ j, a ≤ j → j < N → j ≠ 0 → e (j + 1) = max (e j) (x (j + 1)) ∧
      al (j + 1) = if e j < x (j + 1) then min (al j + step) mx else al j) :
    ∀ i, a ≤ i → i ≤ N → IsGreatest {y | ∃ j, a ≤ j ∧ j ≤ i ∧ j ≠ 1 ∧ y = x j} (e i) ∧
      al i = accel step mx (newHighs x a i) := by
  intro i hi
  induction i, hi using Nat.le_induction with
  | base =>
    intro _
    refine ⟨⟨⟨a, le_refl _, le_refl _, ha, h0⟩, ?_⟩, ?_⟩
    · rintro y ⟨j, h2, h3, _, rfl⟩
      obtain rfl : j = a := by omega
      rw [h0]
    · rw [h1]
      simp [newHighs, accel]
  | succ i hi ih =>
    intro hN
    obtain ⟨⟨⟨j0, j1, j2, j3, j4⟩, hub⟩, hal⟩ := ih (by omega)
    by_cases hz : i = 0
    · subst hz
      obtain rfl : a = 0 := by omega
      obtain ⟨e1, e2⟩ := hone rfl hN
      rw [e1, e2, hal]
      refine ⟨⟨⟨j0, j1, by omega, j3, j4⟩, ?_⟩, ?_⟩
      · rintro y ⟨j, k1, k2, k3, rfl⟩
        exact hub ⟨j, k1, by omega, k3, rfl⟩
      · rw [newHighs_succ x (le_refl _) (p := False) ⟨fun h => h.1 rfl, False.elim⟩, if_neg not_false, Nat.add_zero]
    · obtain ⟨e1, e2⟩ := hstep i hi (by omega) hz
      rw [e1, e2, hal]
      constructor
      · refine ⟨?_, ?_⟩
        · rcases le_total (e i) (x (i + 1)) with h | h
          · exact ⟨i + 1, by omega, le_refl _, by omega, max_eq_right h⟩
          · exact ⟨j0, j1, by omega, j3, by rw [max_eq_left h, j4]⟩
        · rintro y ⟨j, k1, k2, k3, rfl⟩
          rcases Nat.lt_or_ge j (i + 1) with h | h
          · exact le_trans (hub ⟨j, k1, by omega, k3, rfl⟩) (le_max_left _ _)
          · obtain rfl : j = i + 1 := by omega
            exact le_max_right _ _
      · have hiff : (i + 1 ≠ 1 ∧ ∀ k ∈ Ico a (i + 1), k ≠ 1 → x k < x (i + 1)) ↔ e i < x (i + 1) := by
          constructor
          · rintro ⟨_, h⟩
            rw [j4]
            exact h j0 (Finset.mem_Ico.mpr ⟨j1, by omega⟩) j3
          · intro h
            refine ⟨by omega, fun k hk hk1 => lt_of_le_of_lt (hub ⟨k, ?_, ?_, hk1, rfl⟩) h⟩
            · exact (Finset.mem_Ico.mp hk).1
            · have := (Finset.mem_Ico.mp hk).2; omega
        rw [newHighs_succ x hi hiff]
        by_cases h : e i < x (i + 1)
        · rw [if_pos h, if_pos h, accel_succ hs]
        · rw [if_neg h, if_neg h, Nat.add_zero]

section
variable {n : Nat} {h l c : Nat → K} {step mx : K}

theorem sarAt_up_step {i : Nat} (hi : 1 ≤ i) (h1 : (sarAt h l c step mx i).up = true) :
    sarAt h l c step mx (i + 1) = Sar.next h l step mx (i + 1) (sarAt h l c step mx i) := by
  obtain ⟨i, rfl⟩ : ∃ k, i = k + 1 := ⟨i - 1, by omega⟩
  rfl

theorem sarAt_succ {i : Nat} (hi : 1 ≤ i) :
    sarAt h l c step mx (i + 1) = Sar.next h l step mx (i + 1) (sarAt h l c step mx i) := by
  obtain ⟨i, rfl⟩ : ∃ k, i = k + 1 := ⟨i - 1, by omega⟩
  rfl

theorem sarAt_lt_two {i : Nat} (hi : i < 2) : (sarAt h l c step mx i).up = true := by
  obtain rfl | rfl : i = 0 ∨ i = 1 := by omega
  all_goals rfl

/-- continuing an up-trend -/
theorem Sar.next_up {s : Sar K} {i : Nat} (hs : s.up = true) (hn : (Sar.next h l step mx i s).up = true) :
    (Sar.next h l step mx i s).hi = max s.hi (h i) ∧
    (Sar.next h l step mx i s).af = (if s.hi < h i then min (s.af + step) mx else s.af) := by
  unfold Sar.next at hn ⊢
  rw [if_pos hs] at hn ⊢
  by_cases h1 : l i < s.sar + s.af * (s.hi - s.sar)
  · simp [h1] at hn
  · simp [h1]

/-- continuing a down-trend -/
theorem Sar.next_down {s : Sar K} {i : Nat} (hs : s.up = false) (hn : (Sar.next h l step mx i s).up = false) :
    (Sar.next h l step mx i s).lo = min s.lo (l i) ∧
    (Sar.next h l step mx i s).af = (if l i < s.lo then min (s.af + step) mx else s.af) := by
  unfold Sar.next at hn ⊢
  rw [if_neg (by simp [hs])] at hn ⊢
  by_cases h1 : s.sar - s.af * (s.sar - s.lo) < h i
  · simp [h1] at hn
  · simp [h1]

/-- starting an up-trend -/
theorem Sar.next_rev_up {s : Sar K} {i : Nat} (hs : s.up = false) (hn : (Sar.next h l step mx i s).up = true) :
    (Sar.next h l step mx i s).hi = h i ∧ (Sar.next h l step mx i s).af = step := by
  unfold Sar.next at hn ⊢
  rw [if_neg (by simp [hs])] at hn ⊢
  by_cases h1 : s.sar - s.af * (s.sar - s.lo) < h i
  · simp [h1]
  · simp [h1] at hn

/-- starting a down-trend -/
theorem Sar.next_rev_down {s : Sar K} {i : Nat} (hs : s.up = true) (hn : (Sar.next h l step mx i s).up = false) :
    (Sar.next h l step mx i s).lo = l i ∧ (Sar.next h l step mx i s).af = step := by
  unfold Sar.next at hn ⊢
  rw [if_pos hs] at hn ⊢
  by_cases h1 : l i < s.sar + s.af * (s.hi - s.sar)
  · simp [h1]
  · simp [h1] at hn

/-- extreme and acceleration of a run of up rows -/
theorem up_run (hs : 0 ≤ step) {a i : Nat} (hai : a ≤ i) (hrun : ∀ j, a ≤ j → j ≤ i → (sarAt h l c step mx j).up = true)
    (hstart : a = 0 ∨ (sarAt h l c step mx (a - 1)).up = false) :
    IsGreatest {y | ∃ j, a ≤ j ∧ j ≤ i ∧ j ≠ 1 ∧ y = h j} (sarAt h l c step mx i).hi ∧
      (sarAt h l c step mx i).af = accel step mx (newHighs h a i) := by
  have ha3 : a ≠ 0 → 3 ≤ a := by
    intro h0
    by_contra h3
    have h1 := hstart.resolve_left h0
    rw [sarAt_lt_two (by omega)] at h1
    cases h1
  refine ext_track h (fun j => (sarAt h l c step mx j).hi) (fun j => (sarAt h l c step mx j).af) hs (N := i) ?_ ?_ ?_ ?_ ?_
    i hai (le_refl _)
  · intro h1; have := ha3 (by omega); omega
  · by_cases h0 : a = 0
    · subst h0; rfl
    · have := ha3 h0
      have h1 := hrun a (le_refl _) hai
      rw [show a = a - 1 + 1 by omega, sarAt_succ (by omega)] at h1 ⊢
      exact (Sar.next_rev_up (hstart.resolve_left h0) h1).1
  · by_cases h0 : a = 0
    · subst h0; rfl
    · have := ha3 h0
      have h1 := hrun a (le_refl _) hai
      rw [show a = a - 1 + 1 by omega, sarAt_succ (by omega)] at h1
      show (sarAt h l c step mx a).af = _
      rw [show a = a - 1 + 1 by omega, sarAt_succ (by omega)]
      exact (Sar.next_rev_up (hstart.resolve_left h0) h1).2
  · intro _ _; exact ⟨rfl, rfl⟩
  · intro j hj1 hj2 hj3
    have h1 := hrun j hj1 (by omega)
    have h2 := hrun (j + 1) (by omega) (by omega)
    rw [sarAt_succ (by omega)] at h2 ⊢
    exact Sar.next_up h1 h2

/-- extreme and acceleration of a run of down rows -/
theorem down_run (hs : 0 ≤ step) {a i : Nat} (hai : a ≤ i) (hrun : ∀ j, a ≤ j → j ≤ i → (sarAt h l c step mx j).up = false)
    (hstart : (sarAt h l c step mx (a - 1)).up = true) :
    IsLeast {y | ∃ j, a ≤ j ∧ j ≤ i ∧ y = l j} (sarAt h l c step mx i).lo ∧
      (sarAt h l c step mx i).af = accel step mx (newLows l a i) := by
  have ha2 : 2 ≤ a := by
    by_contra h3
    have h1 := hrun a (le_refl _) hai
    rw [sarAt_lt_two (by omega)] at h1
    cases h1
  have := ext_track (L := Kᵒᵈ) l (fun j => (sarAt h l c step mx j).lo) (fun j => (sarAt h l c step mx j).af) hs
    (mx := mx) (a := a) (N := i) (by omega) ?_ ?_ (fun h0 => by omega) ?_ i hai (le_refl _)
  · obtain ⟨⟨⟨j, j1, j2, j3, j4⟩, g⟩, g2⟩ := this
    refine ⟨⟨⟨j, j1, j2, j4⟩, ?_⟩, g2⟩
    rintro y ⟨k, k1, k2, rfl⟩
    exact g ⟨k, k1, k2, by omega, rfl⟩
  · have h1 := hrun a (le_refl _) hai
    rw [show a = a - 1 + 1 by omega, sarAt_succ (by omega)] at h1 ⊢
    exact (Sar.next_rev_down hstart h1).1
  · have h1 := hrun a (le_refl _) hai
    rw [show a = a - 1 + 1 by omega, sarAt_succ (by omega)] at h1
    show (sarAt h l c step mx a).af = _
    rw [show a = a - 1 + 1 by omega, sarAt_succ (by omega)]
    exact (Sar.next_rev_down hstart h1).2
  · intro j hj1 hj2 hj3
    have h1 := hrun j hj1 (by omega)
    have h2 := hrun (j + 1) (by omega) (by omega)
    rw [sarAt_succ (by omega)] at h2
    have := Sar.next_down h1 h2
    rw [← sarAt_succ (by omega)] at this
    exact this

variable {o : PSAR (Val K)} (ho : PSAR.new (ser n h) (ser n l) (ser n c) .positional (.fin step) (.fin mx) = .ok o)
include ho

theorem upRow_iff {i : Nat} (hi : i < n) : UpRow o i ↔ (sarAt h l c step mx i).up = true := by
  obtain ⟨-, ⟨-, h2⟩, -⟩ := psar_rows ho
  unfold UpRow
  rw [h2 i hi]
  by_cases h3 : i < 2
  · simp [h3, sarAt_lt_two h3]
  · cases h4 : (sarAt h l c step mx i).up
    · simp [h3]; rintro ⟨x, hx⟩; cases hx
    · simp [show 2 ≤ i by omega]; right; exact ⟨_, rfl⟩

theorem downRow_iff {i : Nat} (hi : i < n) : DownRow o i ↔ (sarAt h l c step mx i).up = false := by
  obtain ⟨-, -, ⟨-, h2⟩⟩ := psar_rows ho
  unfold DownRow
  rw [h2 i hi]
  by_cases h3 : i < 2
  · simp [sarAt_lt_two h3]; rintro ⟨x, hx⟩; cases hx
  · cases h4 : (sarAt h l c step mx i).up
    · simp [show 2 ≤ i by omega]; exact ⟨_, rfl⟩
    · simp; rintro ⟨x, hx⟩; cases hx

/-- C46. Wilder's rules in an up-trend. Let rows `a..i` be the up-trend so far (it starts at row 0 or just after a down
row). With `E` its highest high (the high of bar 1 is never looked at), `m` the number of times that was raised,
`α = step` if `m = 0` and `min (step * (1 + m)) max_step` otherwise, `S` the stop of row `i` and `p = S + α (E - S)`: if
the next low is below `p`, the next row is a down row with stop `E`; otherwise it is an up row with stop `p`, lowered to
the low of row `i - 1` if that is smaller, otherwise to that of row `i` if that is smaller. -/
theorem psar_rule_up (hs : 0 ≤ step) {a i : Nat} (hai : a ≤ i) (hi1 : 1 ≤ i) (hi : i + 1 < n)
    (hrun : ∀ j, a ≤ j → j ≤ i → UpRow o j) (hstart : a = 0 ∨ DownRow o (a - 1)) :
    ∃ E al S p : K, IsGreatest {y | ∃ j, a ≤ j ∧ j ≤ i ∧ j ≠ 1 ∧ y = h j} E ∧
      al = (if newHighs h a i = 0 then step else min (step * (1 + newHighs h a i)) mx) ∧
      ix o.psar i = .fin S ∧ p = S + al * (E - S) ∧
      (l (i + 1) < p → ix o.psarDown (i + 1) = .fin E) ∧
      (p ≤ l (i + 1) → ix o.psarUp (i + 1)
        = .fin (if l (i - 1) < p then l (i - 1) else if l i < p then l i else p)) := by
  have hrun' : ∀ j, a ≤ j → j ≤ i → (sarAt h l c step mx j).up = true :=
    fun j h1 h2 => (upRow_iff ho (by omega)).mp (hrun j h1 h2)
  have hstart' : a = 0 ∨ (sarAt h l c step mx (a - 1)).up = false :=
    hstart.imp id fun g => (downRow_iff ho (by omega)).mp g
  obtain ⟨h1, h2⟩ := up_run hs hai hrun' hstart'
  obtain ⟨r1, ⟨-, r2⟩, ⟨-, r3⟩⟩ := psar_rows ho
  refine ⟨_, _, _, _, h1, rfl, r1.val i (by omega) (by omega), rfl, fun g => ?_, fun g => ?_⟩
  all_goals
    unfold accel at h2
    rw [← h2] at g
    have hu := hrun' i hai (le_refl _)
  · rw [r3 _ hi, sarAt_succ hi1]
    unfold Sar.next
    simp [hu, g, show 2 ≤ i + 1 by omega]
  · rw [r2 _ hi, sarAt_succ hi1, ← h2]
    unfold Sar.next
    rw [if_pos hu]
    simp only [not_lt.mpr g, if_false, show i + 1 - 2 = i - 1 by omega, show i + 1 - 1 = i by omega,
      show 2 ≤ i + 1 by omega, true_and, if_true]

/-- C46. Wilder's rules in a down-trend: rows `a..i` down, row `a - 1` up. -/
theorem psar_rule_down (hs : 0 ≤ step) {a i : Nat} (ha : 1 ≤ a) (hai : a ≤ i) (hi : i + 1 < n)
    (hrun : ∀ j, a ≤ j → j ≤ i → DownRow o j) (hstart : UpRow o (a - 1)) :
    ∃ E al S p : K, IsLeast {y | ∃ j, a ≤ j ∧ j ≤ i ∧ y = l j} E ∧
      al = (if newLows l a i = 0 then step else min (step * (1 + newLows l a i)) mx) ∧
      ix o.psar i = .fin S ∧ p = S - al * (S - E) ∧
      (p < h (i + 1) → ix o.psarUp (i + 1) = .fin E) ∧
      (h (i + 1) ≤ p → ix o.psarDown (i + 1)
        = .fin (if p < h (i - 1) then h (i - 1) else if p < h i then h i else p)) := by
  have hrun' : ∀ j, a ≤ j → j ≤ i → (sarAt h l c step mx j).up = false :=
    fun j h1 h2 => (downRow_iff ho (by omega)).mp (hrun j h1 h2)
  have hstart' := (upRow_iff ho (by omega)).mp hstart
  obtain ⟨h1, h2⟩ := down_run hs hai hrun' hstart'
  obtain ⟨r1, ⟨-, r2⟩, ⟨-, r3⟩⟩ := psar_rows ho
  refine ⟨_, _, _, _, h1, rfl, r1.val i (by omega) (by omega), rfl, fun g => ?_, fun g => ?_⟩
  all_goals
    unfold accel at h2
    rw [← h2] at g
    have hu := hrun' i hai (le_refl _)
  · rw [r2 _ hi, sarAt_succ (by omega)]
    unfold Sar.next
    simp [hu, g, show 2 ≤ i + 1 by omega]
  · rw [r3 _ hi, sarAt_succ (by omega), ← h2]
    unfold Sar.next
    rw [if_neg (c := (sarAt h l c step mx i).up = true) (by simp [hu])]
    simp only [not_lt.mpr g, if_false, show i + 1 - 2 = i - 1 by omega, show i + 1 - 1 = i by omega,
      show 2 ≤ i + 1 by omega, true_and, if_true]

/-- C46. While a trend continues, the stop is not beyond the bar's own low (high), nor beyond that of two bars before. -/
theorem psar_side {i : Nat} (hi2 : 2 ≤ i) (hi : i < n) {x : K} (hx : ix o.psar i = .fin x) :
    (UpRow o (i - 1) → UpRow o i → x ≤ l i ∧ x ≤ l (i - 2)) ∧
    (DownRow o (i - 1) → DownRow o i → h i ≤ x ∧ h (i - 2) ≤ x) := by
  obtain ⟨r1, -, -⟩ := psar_rows ho
  rw [r1.val i hi (by omega)] at hx
  obtain rfl := Val.fin.inj hx
  have e : sarAt h l c step mx i = Sar.next h l step mx i (sarAt h l c step mx (i - 1)) := by
    obtain ⟨i, rfl⟩ : ∃ k, i = k + 1 := ⟨i - 1, by omega⟩
    exact sarAt_succ (by omega)
  rw [upRow_iff ho (by omega), upRow_iff ho hi, downRow_iff ho (by omega), downRow_iff ho hi, e]
  generalize sarAt h l c step mx (i - 1) = s
  constructor
  · intro h1 h2
    unfold Sar.next at h2 ⊢
    rw [if_pos h1] at h2 ⊢
    by_cases h3 : l i < s.sar + s.af * (s.hi - s.sar)
    · simp [h3] at h2
    · simp only [h3, if_false]
      push Not at h3
      split_ifs with h4 h5
      · exact ⟨by linarith, le_refl _⟩
      · exact ⟨by linarith, by push Not at h4; linarith⟩
      · exact ⟨h3, not_lt.mp h4⟩
  · intro h1 h2
    unfold Sar.next at h2 ⊢
    rw [if_neg (by simp [h1])] at h2 ⊢
    by_cases h3 : s.sar - s.af * (s.sar - s.lo) < h i
    · simp [h3] at h2
    · simp only [h3, if_false]
      push Not at h3
      split_ifs with h4 h5
      · exact ⟨by linarith, le_refl _⟩
      · exact ⟨by linarith, by push Not at h4; linarith⟩
      · exact ⟨h3, not_lt.mp h4⟩

end

/-- C46. On a reversal the stop can be on the wrong side of the bar (row 2: down with stop 10 under a high of 11), in a
continuing trend beyond the previous low (stop 101/20, previous low 4), and inside an up-trend it can fall. -/
theorem psar_side_limits :
    ((PSAR.new (qs [10, 12, 11]) (qs [8, 9, 9]) (qs [9, 11, 10])).map (fun o => ix o.psarDown 2) = .ok (.fin 10)) ∧
    ((PSAR.new (qs [10, 6, 11]) (qs [101/20, 4, 8]) (qs [9, 5, 10])).map (fun o => ix o.psarUp 2) = .ok (.fin (101/20))) ∧
    ((PSAR.new (qs [10, 6, 11, 12]) (qs [101/20, 4, 8, 9]) (qs [9, 5, 10, 11])).map (fun o => (ix o.psarUp 2, ix o.psarUp 3))
      = .ok (.fin (101/20), .fin 4)) := by
  decide +kernel

/-! ## C48: flip indicators -/

/-- C48. `psar_down_indicator` is 1 exactly on the first row of each run of down rows, and 0 elsewhere. -/
theorem psar_down_flag {n : Nat} {h l c : Nat → K} {step mx : K} {o : PSAR (Val K)}
    (ho : PSAR.new (ser n h) (ser n l) (ser n c) .positional (.fin step) (.fin mx) = .ok o) :
    o.psarDownIndicator.length = n ∧ ∀ i, i < n →
      ((DownRow o i ∧ ¬ (1 ≤ i ∧ DownRow o (i - 1))) → ix o.psarDownIndicator i = .fin 1) ∧
      (¬ (DownRow o i ∧ ¬ (1 ≤ i ∧ DownRow o (i - 1))) → ix o.psarDownIndicator i = .fin 0) := by
  classical
  obtain ⟨-, ⟨hl, h2⟩, ⟨hl', h3⟩⟩ := psar_rows ho
  have hfn : o.fillna = false := by
    unfold PSAR.new at ho
    split_ifs at ho
    rw [← Except.ok.inj ho]
  have eu : o.psarUp = o.up := by unfold PSAR.psarUp; rw [hfn]; rfl
  have ed : o.psarDown = o.down := by unfold PSAR.psarDown; rw [hfn]; rfl
  unfold PSAR.psarDownIndicator DownRow
  rw [eu] at hl h2
  rw [ed] at hl' h3
  rw [ed]
  refine ⟨by simpa using hl, fun i hi => ?_⟩
  unfold PSAR.flag
  rw [ix_tab_lt (by omega)]
  have hsh : Flt.isNaN (ix (shift o.down 1) i) = !decide (1 ≤ i ∧ ∃ x, ix o.down (i - 1) = .fin x) := by
    rw [ix_shift (by omega)]
    by_cases h0 : i < 1
    · rw [if_pos h0]
      simp [show ¬ 1 ≤ i by omega]
    · rw [if_neg h0, h3 (i - 1) (by omega)]
      by_cases h4 : 2 ≤ i - 1 ∧ (sarAt h l c step mx (i - 1)).up = false
      · rw [if_pos h4]
        simp [show 1 ≤ i by omega]
      · rw [if_neg h4]
        simp
  rw [hsh]
  have hd := h3 i hi
  have hu := h2 i hi
  by_cases h4 : 2 ≤ i ∧ (sarAt h l c step mx i).up = false
  · rw [if_pos h4] at hd
    rw [if_neg (by rw [h4.2]; simp)] at hu
    rw [hd, hu]
    have hn : Flt.isNaN (Val.fin (sarAt h l c step mx i).sar) = false := rfl
    have hf : (Val.fin (sarAt h l c step mx i).sar).IsFin := ⟨_, rfl⟩
    rw [hn]
    constructor
    · rintro ⟨_, h5⟩
      have h5' : ¬ (1 ≤ i ∧ ∃ x, ix o.down (i - 1) = .fin x) := h5
      simp only [h5', decide_false, Bool.not_false, Bool.and_self, if_true, lit_fin]
      simp
    · intro h5
      have h5' : (1 ≤ i ∧ ∃ x, ix o.down (i - 1) = .fin x) := by
        by_contra h6; exact h5 ⟨hf, h6⟩
      simp [h5', lit_fin]
  · rw [if_neg h4] at hd
    rw [hd]
    have hn : Flt.isNaN (Val.nan : Val K) = true := rfl
    rw [hn]
    constructor
    · rintro ⟨⟨x, h5⟩, _⟩; cases h5
    · intro _
      simp [lit_fin]

/-- C48. `psar_up_indicator` is 1 exactly on the first row of each run of up rows (from row 2 on) whose stop is not 0, and
0 elsewhere. -/
theorem psar_up_flag {n : Nat} {h l c : Nat → K} {step mx : K} {o : PSAR (Val K)}
    (ho : PSAR.new (ser n h) (ser n l) (ser n c) .positional (.fin step) (.fin mx) = .ok o) :
    o.psarUpIndicator.length = n ∧ ∀ i, i < n →
      (((ix o.psarUp i).IsFin ∧ ix o.psarUp i ≠ .fin 0 ∧ ¬ (1 ≤ i ∧ (ix o.psarUp (i - 1)).IsFin)) →
        ix o.psarUpIndicator i = .fin 1) ∧
      (¬ ((ix o.psarUp i).IsFin ∧ ix o.psarUp i ≠ .fin 0 ∧ ¬ (1 ≤ i ∧ (ix o.psarUp (i - 1)).IsFin)) →
        ix o.psarUpIndicator i = .fin 0) := by
  classical
  obtain ⟨-, ⟨hl, h2⟩, -⟩ := psar_rows ho
  have hfn : o.fillna = false := by
    unfold PSAR.new at ho
    split_ifs at ho
    rw [← Except.ok.inj ho]
  have eu : o.psarUp = o.up := by unfold PSAR.psarUp; rw [hfn]; rfl
  unfold PSAR.psarUpIndicator
  rw [eu] at hl h2 ⊢
  refine ⟨by simpa using hl, fun i hi => ?_⟩
  unfold PSAR.flag
  rw [ix_tab_lt (by omega)]
  have hsh : Flt.isNaN (ix (shift o.up 1) i) = !decide (1 ≤ i ∧ ∃ x, ix o.up (i - 1) = .fin x) := by
    rw [ix_shift (by omega)]
    by_cases h0 : i < 1
    · rw [if_pos h0]
      simp [show ¬ 1 ≤ i by omega]
    · rw [if_neg h0, h2 (i - 1) (by omega)]
      by_cases h4 : 2 ≤ i - 1 ∧ (sarAt h l c step mx (i - 1)).up = true
      · rw [if_pos h4]
        simp [show 1 ≤ i by omega]
      · rw [if_neg h4]
        simp
  rw [hsh]
  have hu := h2 i hi
  by_cases h4 : 2 ≤ i ∧ (sarAt h l c step mx i).up = true
  · rw [if_pos h4] at hu
    rw [hu]
    have hn : Flt.isNaN (Val.fin (sarAt h l c step mx i).sar) = false := rfl
    have hf : (Val.fin (sarAt h l c step mx i).sar).IsFin := ⟨_, rfl⟩
    rw [hn]
    by_cases h5 : (1 ≤ i ∧ ∃ x, ix o.up (i - 1) = .fin x)
    · constructor
      · rintro ⟨_, _, h6⟩; exact absurd h5 h6
      · intro _; simp [h5, lit_fin]
    · simp only [h5, decide_false, Bool.not_false, Bool.and_self, if_true, lit_fin]
      by_cases h6 : (sarAt h l c step mx i).sar = 0
      · rw [h6]
        constructor
        · rintro ⟨_, h7, _⟩; exact absurd rfl h7
        · intro _; simp
      · constructor
        · intro _; simp [h6]
        · intro h7
          exact absurd ⟨hf, fun h8 => h6 (Val.fin.inj h8), h5⟩ h7
  · rw [if_neg h4] at hu
    rw [hu]
    have hn : Flt.isNaN (Val.nan : Val K) = true := rfl
    rw [hn]
    constructor
    · rintro ⟨⟨x, h5⟩, _⟩; cases h5
    · intro _
      simp [lit_fin]

example : (PSAR.new (qs [10, 12, 11, 13, 9, 8]) (qs [8, 9, 9, 10, 5, 4]) (qs [9, 11, 10, 12, 6, 5])).map
    (fun o => (o.psarUpIndicator, o.psarDownIndicator))
    = .ok (qs [0, 0, 0, 1, 0, 0], qs [0, 0, 1, 0, 1, 0]) := by decide +kernel

/-- C48. The exception: a run of up rows that starts with the stop 0 is not flagged. -/
theorem psar_up_flag_zero :
    (PSAR.new (qs [1, 1, 1, 2]) (qs [0, 0, 1/2, 1]) (qs [1, 0, 1, 2])).map (fun o => (o.psarUp, o.psarUpIndicator))
      = .ok ([.nan, .nan, .fin 0, .fin 0], qs [0, 0, 0, 0]) := by decide +kernel

/-! ## C47: row labels -/

section
variable {F : Type} [Flt F]

theorem PSAR.step_eq' (high low : Series F) (s mx : F) (i : Nat) (st : PsarSt F) (x : Idx) (hx : st.psar.idx = x)
    (hset : ∀ (vals : List F) (v : F), vals.length = st.psar.vals.length → LSeries.setItem ⟨x, vals⟩ i v = ⟨x, vals.set i v⟩)
    (hi : i < st.psar.vals.length) :
    PSAR.step high low s mx i st
      = { st.put i (PSAR.cstep high low s mx i (st.core (i - 1))) with
          psar := ⟨x, st.psar.vals.set i (PSAR.cstep high low s mx i (st.core (i - 1))).val⟩ } := by
  obtain ⟨ut, af, hh, ll, ⟨ix', vals⟩, up, dn⟩ := st
  simp only at hx hi hset
  subst hx
  unfold PSAR.step PSAR.cstep pcore PsarSt.core PsarSt.put
  have hset' : ∀ a v, LSeries.setItem ⟨ix', vals.set i a⟩ i v = ⟨ix', (vals.set i a).set i v⟩ :=
    fun a v => hset _ _ (by simp)
  simp only [LSeries.ilocSet, PsarSt.cur]
  cases ut
  · simp only [Bool.false_eq_true, if_false]
    by_cases h1 : (ix high i >. (ix vals (i - 1) -. af *. (ix vals (i - 1) -. ll))) = true
    · simp [h1, ix_set_self hi, List.set_set]
    · by_cases h2 : (ix low i <. ll) = true <;>
      by_cases h3 : (ix high (i - 2) >. (ix vals (i - 1) -. af *. (ix vals (i - 1) -. ll))) = true <;>
      by_cases h4 : (ix high (i - 1) >. (ix vals (i - 1) -. af *. (ix vals (i - 1) -. ll))) = true <;>
      simp [h1, h2, h3, h4, ix_set_self hi, List.set_set, hset']
  · simp only [if_true]
    by_cases h1 : (ix low i <. (ix vals (i - 1) +. af *. (hh -. ix vals (i - 1)))) = true
    · simp [h1, ix_set_self hi, List.set_set]
    · by_cases h2 : (ix high i >. hh) = true <;>
      by_cases h3 : (ix low (i - 2) <. (ix vals (i - 1) +. af *. (hh -. ix vals (i - 1)))) = true <;>
      by_cases h4 : (ix low (i - 1) <. (ix vals (i - 1) +. af *. (hh -. ix vals (i - 1)))) = true <;>
      simp [h1, h2, h3, h4, ix_set_self hi, List.set_set]

/-- two states that differ only in the index -/
def SameBut (x : Idx) (n : Nat) (st st' : PsarSt F) : Prop :=
  st.psar.idx = .positional ∧ st.psar.vals.length = n ∧ st' = { st with psar := ⟨x, st.psar.vals⟩ }

/-- An index on which the integer key `i` means row `i`, for every row from 2 on. -/
def KeyIsRow (ls : List Int) : Prop :=
  ∀ i k : Nat, 2 ≤ i → i < ls.length → k < ls.length → (ls[k]? = some (i : Int) ↔ k = i)

theorem setItem_row {ls : List Int} (hls : KeyIsRow ls) {i : Nat} (h2 : 2 ≤ i) (hi : i < ls.length) (vals : List F) (v : F)
    (hv : vals.length = ls.length) : LSeries.setItem ⟨.labels ls, vals⟩ i v = ⟨.labels ls, vals.set i v⟩ := by
  unfold LSeries.setItem
  have hm : (i : Int) ∈ ls := List.mem_of_getElem? ((hls i i h2 hi hi).mpr rfl)
  simp only [hm, if_true]
  congr 1
  conv_rhs => rw [← tab_ix vals, set_tab]
  apply tab_congr rfl
  intro k hk
  by_cases hki : k = i
  · rw [if_pos ((hls i k h2 hi (by omega)).mpr hki), if_pos hki]
  · rw [if_neg (fun g => hki ((hls i k h2 hi (by omega)).mp g)), if_neg hki]

/-- C47. The three PSAR series do not depend on the row labels when the index is an integer index whose labels from row 2
on are the row numbers, in any arithmetic and on any data: the result is that for a non-integer index. -/
theorem psar_index (high low close : Series F) (ls : List Int) (hlen : ls.length = close.length) (hls : KeyIsRow ls)
    (s mx : F) (fillna : Bool) :
    PSAR.new high low close (.labels ls) s mx fillna = PSAR.new high low close .positional s mx fillna := by
  unfold PSAR.new
  by_cases h0 : close.length = 0
  · rw [if_pos h0, if_pos h0]
  rw [if_neg h0, if_neg h0]
  have key : ∀ k, k ≤ close.length - 2 → SameBut (.labels ls) close.length
      (iter (fun k => PSAR.step high low s mx (k + 2)) (PSAR.init high low close .positional s) k)
      (iter (fun k => PSAR.step high low s mx (k + 2)) (PSAR.init high low close (.labels ls) s) k) := by
    intro k
    induction k with
    | zero => intro _; exact ⟨rfl, rfl, rfl⟩
    | succ k ih =>
      intro hk
      obtain ⟨h1, h2, h3⟩ := ih (by omega)
      rw [iter_succ, iter_succ, h3]
      generalize iter (fun k => PSAR.step high low s mx (k + 2)) (PSAR.init high low close .positional s) k = st at *
      rw [PSAR.step_eq' high low s mx (k + 2) st .positional h1 (fun _ _ _ => rfl) (by omega),
        PSAR.step_eq' high low s mx (k + 2) _ (.labels ls) rfl
          (fun vals v hv => setItem_row hls (by omega) (by omega) vals v (by rw [hv, hlen]; exact h2))
          (by show _ < st.psar.vals.length; omega)]
      exact ⟨rfl, by simpa using h2, rfl⟩
  obtain ⟨-, -, h3⟩ := key (close.length - 2) (le_refl _)
  unfold PSAR.run
  rw [h3]

/-- C47. The default index `0 .. n-1`. -/
theorem psar_index_range (high low close : Series F) (s mx : F) (fillna : Bool) :
    PSAR.new high low close (.range close.length) s mx fillna = PSAR.new high low close .positional s mx fillna := by
  apply psar_index
  · simp
  · intro i k _ hi hk
    simp only [length_tab] at hi hk
    rw [List.getElem?_eq_getElem (by simpa using hk), getElem_tab]
    simp

end

/-- C47. With the rows of an integer index starting at 1 (as after dropping row 0) the result is different: row 3's clamp is
written to row 2. With labels that do not occur, a row is added. -/
theorem psar_labels_matter :
    ((PSAR.new (qs [10, 12, 11, 9]) (qs [8, 9, 9, 7]) (qs [9, 11, 10, 8]) .positional).map (fun o => (o.psar, o.psarDown))
      = .ok (qs [9, 11, 10, 12], [.nan, .nan, .fin 10, .fin 12])) ∧
    ((PSAR.new (qs [10, 12, 11, 9]) (qs [8, 9, 9, 7]) (qs [9, 11, 10, 8]) (.labels [1, 2, 3, 4])).map
      (fun o => (o.psar, o.psarDown)) = .ok (qs [9, 11, 12, 499/50], [.nan, .nan, .fin 10, .fin (499/50)])) ∧
    ((PSAR.new (qs [10, 12, 11, 9]) (qs [8, 9, 9, 7]) (qs [9, 11, 10, 8]) (.labels [5, 6, 7, 8])).map
      (fun o => o.psar) = .ok (qs [9, 11, 10, 499/50, 12])) := by
  decide +kernel

end TA
