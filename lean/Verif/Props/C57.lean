import Verif.Model.Dropna
import Verif.Lemmas.Toy
import Verif.Lemmas.Take

/-! # C57: `dropna` -/

set_option linter.unusedSectionVars false

namespace TA
variable {K : Type} [Field K] [LinearOrder K] [IsStrictOrderedRing K]

/-- `exp(709)` as a number -/
def hugeK : K := ((8218407461554972 * 10 ^ 292 : ℚ) : K)

/-- a numeric cell that survives: a non-zero number below `exp(709)`, or minus infinity -/
def GoodNum (x : Val K) : Prop := x = .ninf ∨ ∃ q : K, x = .fin q ∧ q ≠ 0 ∧ q < hugeK

/-- all cells of row `i` survive -/
def GoodRow (t : Table (Val K)) (i : Nat) : Prop :=
  ∀ p ∈ t.cols, match p.2 with
    | .num s => GoodNum (ix s i)
    | .other m => ∃ v, m[i]? = some (some v)

/-- every column has a cell for every index label -/
def Table.Rect (t : Table (Val K)) : Prop :=
  ∀ p ∈ t.cols, match p.2 with
    | .num s => s.length = t.labels.length
    | .other m => m.length = t.labels.length

theorem lit_zero' : (lit 0 : Val K) = .fin 0 := by
  show Val.fin ((0 : ℚ) : K) = _
  simp

theorem mask_good (x : Val K) (h : GoodNum x) : maskZero (maskBig x) = x := by
  rcases h with rfl | ⟨q, rfl, h0, hb⟩
  · rfl
  · have h1 : ((Val.fin q : Val K) <. bigNumber) = true := by
      show decide (q < hugeK) = true
      simpa using hb
    have h2 : ((Val.fin q : Val K) !=. lit 0) = true := by
      rw [lit_zero']
      show (!(decide (q = 0))) = true
      simpa using h0
    unfold maskBig
    rw [if_pos h1]
    unfold maskZero
    rw [if_pos h2]

theorem mask_bad (x : Val K) (h : ¬ GoodNum x) : maskZero (maskBig x) = .nan := by
  cases x with
  | nan => rfl
  | ninf => exact absurd (.inl rfl) h
  | pinf => rfl
  | fin q =>
    by_cases hb : q < (hugeK : K)
    · have h0 : q = 0 := by
        by_contra h0
        exact h (.inr ⟨q, rfl, h0, hb⟩)
      have h1 : ((Val.fin q : Val K) <. bigNumber) = true := by
        show decide (q < hugeK) = true
        simpa using hb
      unfold maskBig
      rw [if_pos h1]
      unfold maskZero
      rw [lit_zero', h0, if_neg]
      · rfl
      · show ¬ (!(decide ((0 : K) = 0))) = true
        simp
    · have h1 : ¬ ((Val.fin q : Val K) <. bigNumber) = true := by
        show ¬ decide (q < hugeK) = true
        simpa using hb
      unfold maskBig
      rw [if_neg h1]
      rfl

theorem goodNum_not_nan (x : Val K) (h : GoodNum x) : Flt.isNaN x = false := by
  rcases h with rfl | ⟨q, rfl, _⟩ <;> rfl

open Classical in
/-- C57. `dropna` keeps exactly the rows all of whose cells are good, in order, with labels and values unchanged. -/
theorem dropna_spec (t : Table (Val K)) (hr : t.Rect) :
    dropna t = t.pick ((List.range t.labels.length).filter (fun i => decide (GoodRow t i))) := by
  have hrows : (List.range t.labels.length).filter
      (fun i => (t.cols.map (fun p => (p.1, p.2.mask))).all (fun p => !p.2.missing i))
      = (List.range t.labels.length).filter (fun i => decide (GoodRow t i)) := by
    refine List.filter_congr ?_
    intro i hi
    rw [List.mem_range] at hi
    rw [Bool.eq_iff_iff, decide_eq_true_iff, List.all_eq_true]
    constructor
    · intro h p hp
      have h1 := h (p.1, p.2.mask) (List.mem_map.mpr ⟨p, hp, rfl⟩)
      have h2 := hr p hp
      rcases p with ⟨nm, c⟩
      cases c with
      | num s =>
        simp only at h2
        show GoodNum (ix s i)
        by_contra hg
        simp only [Col.mask, Col.missing] at h1
        rw [ix_map (by simp; omega), ix_map (by omega), mask_bad _ hg] at h1
        exact absurd (show (false : Bool) = true from h1) (by decide)
      | other m =>
        simp only at h2
        show ∃ v, m[i]? = some (some v)
        simp only [Col.mask, Col.missing] at h1
        rw [List.getD_eq_getElem?_getD, List.getElem?_eq_getElem (by omega)] at h1
        rw [List.getElem?_eq_getElem (by omega)]
        cases hm : m[i]'(by omega) with
        | none => rw [hm] at h1; simp at h1
        | some v => exact ⟨v, rfl⟩
    · intro h q hq
      obtain ⟨p, hp, rfl⟩ := List.mem_map.mp hq
      have h1 := h p hp
      have h2 := hr p hp
      rcases p with ⟨nm, c⟩
      cases c with
      | num s =>
        simp only at h1 h2
        simp only [Col.mask, Col.missing]
        rw [ix_map (by simp; omega), ix_map (by omega), mask_good _ h1, goodNum_not_nan _ h1]
        rfl
      | other m =>
        simp only at h1 h2
        obtain ⟨v, hv⟩ := h1
        simp only [Col.mask, Col.missing]
        rw [List.getD_eq_getElem?_getD, hv]
        rfl
  unfold dropna Table.dropnaRows
  dsimp only
  rw [hrows]
  unfold Table.pick
  congr 1
  rw [List.map_map]
  refine List.map_congr_left ?_
  intro p hp
  have h2 := hr p hp
  rcases p with ⟨nm, c⟩
  cases c with
  | other m => rfl
  | num s =>
    simp only at h2
    show (nm, Col.num _) = (nm, Col.num _)
    congr 2
    refine List.map_congr_left ?_
    intro i hi
    rw [List.mem_filter, List.mem_range, decide_eq_true_iff] at hi
    rw [ix_map (by simp; omega), ix_map (by omega)]
    exact mask_good _ (hi.2 (nm, .num s) hp)

theorem pick_all (t : Table (Val K)) (hr : t.Rect) : t.pick (List.range t.labels.length) = t := by
  rcases t with ⟨labels, cols⟩
  unfold Table.pick
  congr 1
  · refine List.ext_getElem (by simp) ?_
    intro i h1 h2
    simp [h2]
  · conv_rhs => rw [← List.map_id cols]
    refine List.map_congr_left ?_
    intro p hp
    have h2 := hr p hp
    rcases p with ⟨nm, c⟩
    cases c with
    | num s =>
      simp only at h2
      show (nm, Col.num _) = (nm, Col.num s)
      congr 2
      refine List.ext_getElem (by simp [h2]) ?_
      intro i h3 h4
      rw [List.getElem_map, List.getElem_range, ix_lt h4]
    | other m =>
      simp only at h2
      show (nm, Col.other _) = (nm, Col.other m)
      congr 2
      refine List.ext_getElem (by simp [h2]) ?_
      intro i h3 h4
      simp [h4]

/-- C57. The result is a rectangle whose rows are all good. -/
theorem dropna_good (t : Table (Val K)) (hr : t.Rect) :
    (dropna t).Rect ∧ ∀ i < (dropna t).labels.length, GoodRow (dropna t) i := by
  classical
  rw [dropna_spec t hr]
  generalize hR : (List.range t.labels.length).filter (fun i => decide (GoodRow t i)) = R
  have hg : ∀ i ∈ R, i < t.labels.length ∧ GoodRow t i := by
    intro i hi
    rw [← hR, List.mem_filter, List.mem_range, decide_eq_true_iff] at hi
    exact hi
  constructor
  · intro q hq
    obtain ⟨p, hp, rfl⟩ := List.mem_map.mp hq
    rcases p with ⟨nm, c⟩
    cases c <;> simp [Col.pick, Table.pick]
  · intro i hi q hq
    obtain ⟨p, hp, rfl⟩ := List.mem_map.mp hq
    have hi' : i < R.length := by simpa [Table.pick] using hi
    have h1 := (hg R[i] (List.getElem_mem hi')).2 p hp
    rcases p with ⟨nm, c⟩
    cases c with
    | num s =>
      show GoodNum (ix (R.map (ix s)) i)
      rw [ix_lt (by simpa using hi'), List.getElem_map]
      exact h1
    | other m =>
      simp only at h1
      obtain ⟨v, hv⟩ := h1
      refine ⟨v, ?_⟩
      simp [hi', List.getD_eq_getElem?_getD, hv]

/-- C57. `dropna` is idempotent. -/
theorem dropna_idem (t : Table (Val K)) (hr : t.Rect) : dropna (dropna t) = dropna t := by
  classical
  obtain ⟨h1, h2⟩ := dropna_good t hr
  rw [dropna_spec _ h1]
  have : (List.range (dropna t).labels.length).filter (fun i => decide (GoodRow (dropna t) i)) = List.range (dropna t).labels.length := by
    rw [List.filter_eq_self]
    intro i hi
    simpa using h2 i (List.mem_range.mp hi)
  rw [this, pick_all _ h1]

/-- rows with `-inf` are kept, zero, `+inf`, NaN and missing strings are dropped -/
def dropT : Table (Val ℚ) :=
  { labels := ["a", "b", "c", "d", "e", "f"],
    cols := [("x", .num [.fin 1, .fin 0, .ninf, .pinf, .nan, .fin 5]),
             ("s", .other [some "u", some "v", some "w", some "y", some "z", none])] }

example : (dropna dropT).labels = ["a", "c"] ∧
    (dropna dropT).cols.map (fun p => match p.2 with | .num s => s | .other _ => []) = [[.fin 1, .ninf], []] := by decide +kernel

/-- C57. `dropna` does not remove minus infinity. -/
theorem dropna_keeps_ninf : ∃ t : Table (Val ℚ), t.Rect ∧ ∃ p ∈ (dropna t).cols, ∃ s, p.2 = .num s ∧ .ninf ∈ s := by
  refine ⟨⟨["a"], [("x", .num [.ninf])]⟩, ?_, ("x", .num [.ninf]), List.mem_singleton.mpr rfl, [.ninf], rfl, List.mem_singleton.mpr rfl⟩
  intro p hp
  rw [List.mem_singleton] at hp
  subst hp
  rfl

end TA
