import Verif.Props.C18
import Verif.Props.C30

/-!
# C59: the width of the Bollinger bands, the Ulcer index and the log return see the origin of the prices

The part of the witnesses of C59 that needs a square root or a logarithm, over the real numbers.
-/

namespace TA
open Finset

/-- a close of 4, then one of 2; the other fields do not matter -/
def fourTwo : List (Bar (Val ℝ)) := [⟨.fin 4, .fin 4, .fin 4, .fin 1⟩, ⟨.fin 2, .fin 2, .fin 2, .fin 1⟩]

/-- on `b`, adding `c` neither leaves the output alone nor moves it by `c` -/
def Breaks (c : ℝ) (ind : Ind (Val ℝ)) (b : List (Bar (Val ℝ))) : Prop :=
  ind.eval false (b.map (Bar.aff 1 c)) ≠ ind.eval false b ∧
  ind.eval false (b.map (Bar.aff 1 c)) ≠ (ind.eval false b).map (List.map fun v => v +. .fin c)

theorem breaks_of_row {c : ℝ} {ind : Ind (Val ℝ)} {b : List (Bar (Val ℝ))} {o o' : Series (Val ℝ)} {i : Nat} {x x' : ℝ}
    (h : ind.eval false b = .ok o) (h' : ind.eval false (b.map (Bar.aff 1 c)) = .ok o') (hi : i < o.length)
    (hx : ix o i = .fin x) (hx' : ix o' i = .fin x') (h1 : x' ≠ x) (h2 : x' ≠ x + c) : Breaks c ind b := by
  unfold Breaks
  rw [h, h']
  refine ⟨fun e => ?_, fun e => ?_⟩
  · rw [Except.ok.inj e, hx] at hx'
    exact h1 (Val.fin.inj hx').symm
  · have e : o' = o.map fun v => v +. .fin c := Except.ok.inj e
    rw [e, ix_map hi, hx, fin_add] at hx'
    exact h2 (Val.fin.inj hx').symm

theorem fourTwo_closes : closes fourTwo = ser 2 (fun i => if i = 0 then 4 else 2) := by
  simp [fourTwo, ser, tab, List.range_succ]

theorem fourTwo_up : closes (fourTwo.map (Bar.aff 1 2)) = ser 2 (fun i => if i = 0 then 6 else 4) := by
  simp [fourTwo, ser, tab, List.range_succ, Bar.aff, price]
  norm_num

theorem fourTwo_dd {x y : ℝ} (h : y < x) :
    ∑ j ∈ Ico (1 + 1 - 2) (1 + 1), drawdownPct (fun i => if i = 0 then x else y) 2 j ^ 2 = (100 * (y - x) / x) ^ 2 := by
  have m : ∀ k, k ≤ 1 → wmax (fun i => if i = 0 then x else y) 2 k = x := fun k hk => by
    obtain ⟨⟨j, b1, b2, b3⟩, a⟩ := wmax_spec (fun i => if i = 0 then x else y) (w := 2) (i := k) (by omega)
    have := a 0 (by omega) (by omega)
    rw [b3] at this ⊢
    by_cases hj : j = 0
    · simp [hj]
    · simp only [hj, if_true, if_false] at this; linarith
  rw [show (1 + 1 - 2 : Nat) = 0 from rfl, Finset.sum_Ico_succ_top (by omega), Finset.sum_Ico_succ_top (by omega)]
  simp [drawdownPct, m]

theorem fourTwo_width {x y : ℝ} (h : y < x) (hy : 0 < y) :
    ix (BB.new (ser 2 fun i => if i = 0 then x else y) 2 (.fin 2) false).bollingerWband 1 = .fin (400 * (x - y) / (x + y)) := by
  have B := (bollinger_formula (n := 2) (fun i => if i = 0 then x else y) (w := 2) (by omega) 2 false).wband 1 (by omega) (by simp)
  have m : wmean (fun i => if i = 0 then x else y) 2 1 = (x + y) / 2 := by
    unfold wmean
    rw [show (1 + 1 - 2 : Nat) = 0 from rfl, Finset.sum_Ico_succ_top (by omega), Finset.sum_Ico_succ_top (by omega)]
    simp
  have sd : wstd (fun i => if i = 0 then x else y) 2 1 = (x - y) / 2 := by
    unfold wstd
    rw [m, show (1 + 1 - 2 : Nat) = 0 from rfl, Finset.sum_Ico_succ_top (by omega), Finset.sum_Ico_succ_top (by omega)]
    rw [show (∑ j ∈ Ico 0 0, ((if j = 0 then x else y) - (x + y) / 2) ^ 2 + ((if 0 = 0 then x else y) - (x + y) / 2) ^ 2
      + ((if 1 = 0 then x else y) - (x + y) / 2) ^ 2) / ((min 2 (1 + 1) : ℕ) : ℝ) = ((x - y) / 2) ^ 2 by simp; ring]
    exact Real.sqrt_sq (by linarith)
  rw [B (by rw [m]; linarith)]
  simp only [m, sd]
  congr 1
  have : x + y ≠ 0 := by linarith
  field_simp
  ring

/-- C59. The Bollinger width, the Ulcer index and the daily log return are not carried over when all prices are shifted. -/
theorem shift_real_witness : Breaks 2 (.bbWband 2 (.fin 2)) fourTwo ∧ Breaks 2 (.ulcer 2) fourTwo ∧ Breaks 2 .dlr fourTwo := by
  refine ⟨?_, ?_, ?_⟩
  · refine breaks_of_row (i := 1) (x := 400 * (4 - 2) / (4 + 2)) (x' := 400 * (6 - 4) / (6 + 4)) rfl rfl ?_ ?_ ?_ (by norm_num) (by norm_num)
    · simp [fourTwo, BB.bollingerWband, BB.new, checkFillna]
    · rw [fourTwo_closes]; exact fourTwo_width (by norm_num) (by norm_num)
    · rw [fourTwo_up]; exact fourTwo_width (by norm_num) (by norm_num)
  · have e : ∀ c : Nat → ℝ, ∃ o, ulcerIndex (ser 2 c) 2 = .ok o := fun c => ⟨_, rfl⟩
    obtain ⟨o, ho⟩ := e (fun i => if i = 0 then 4 else 2)
    obtain ⟨o', ho'⟩ := e (fun i => if i = 0 then 6 else 4)
    have d := ulcer_formula (by intro i; split_ifs <;> norm_num) (by omega) ho
    have d' := ulcer_formula (by intro i; split_ifs <;> norm_num) (by omega) ho'
    have r := d.val 1 (by omega) (by omega)
    have r' := d'.val 1 (by omega) (by omega)
    rw [fourTwo_dd (by norm_num)] at r r'
    have hlt : Real.sqrt ((100 * ((4 : ℝ) - 6) / 6) ^ 2 / (2 : ℕ)) < Real.sqrt ((100 * ((2 : ℝ) - 4) / 4) ^ 2 / (2 : ℕ)) :=
      Real.sqrt_lt_sqrt (by norm_num) (by norm_num)
    refine breaks_of_row (i := 1) (o := o) (o' := o') ?_ ?_ (by rw [d.len]; omega) r r' hlt.ne (by linarith)
    · show ulcerIndex (closes fourTwo) 2 false = _
      rw [fourTwo_closes]; exact ho
    · show ulcerIndex (closes (fourTwo.map _)) 2 false = _
      rw [fourTwo_up]; exact ho'
  · have row : ∀ x y : ℝ, 0 < x → 0 < y →
        ix (dailyLogReturn (ser 2 fun i => if i = 0 then x else y)) 1 = .fin ((Real.log y - Real.log x) * 100) := fun x y hx hy => by
      have hl : (ser 2 fun i => if i = 0 then x else y).map (FltFn.log (F := Val ℝ)) = ser 2 fun i => if i = 0 then Real.log x else Real.log y := by
        simp [ser, tab, List.range_succ, FltFn.log, Val.log, hx.ne', hy.ne', hx.not_gt, hy.not_gt]
      unfold dailyLogReturn DLR.run
      rw [hl]
      simp [checkFillna, ser, tab, List.range_succ, sdiff, ix, mulc, ssub, shift, zip2, lit_fin]
    have h43 : Real.log 4 - Real.log 6 - (Real.log 2 - Real.log 4) = Real.log (4 / 3) := by
      rw [← Real.log_div (by norm_num) (by norm_num), ← Real.log_div (by norm_num) (by norm_num),
        ← Real.log_div (by norm_num) (by norm_num)]
      norm_num
    have hge : 1 / 4 ≤ Real.log (4 / 3) := by
      have := Real.one_sub_inv_le_log_of_pos (x := 4 / 3) (by norm_num)
      norm_num at this ⊢
      linarith
    refine breaks_of_row (i := 1) (x := (Real.log 2 - Real.log 4) * 100) (x' := (Real.log 4 - Real.log 6) * 100) rfl rfl ?_ ?_ ?_
      (fun h => by linarith) (fun h => by linarith)
    · simp [fourTwo, dailyLogReturn, DLR.run, checkFillna]
    · rw [fourTwo_closes]; exact row 4 2 (by norm_num) (by norm_num)
    · rw [fourTwo_up]; exact row 6 4 (by norm_num) (by norm_num)

end TA
