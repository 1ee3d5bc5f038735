import Verif.Lemmas.NaN
import Verif.Lemmas.Val
import Verif.Spec.Data

/-! # Finite results have finite arguments -/

set_option linter.unusedSectionVars false

namespace TA
variable {K : Type} [Field K] [LinearOrder K]

theorem num_iff {v : Val K} : Num v ↔ ∃ x, v = .fin x := by
  cases v with
  | fin x => exact ⟨fun _ => ⟨x, rfl⟩, fun _ => ⟨rfl, rfl⟩⟩
  | nan => exact ⟨fun h => absurd h.1 (by simp), fun ⟨x, h⟩ => by cases h⟩
  | pinf => exact ⟨fun h => absurd h.2 (by simp), fun ⟨x, h⟩ => by cases h⟩
  | ninf => exact ⟨fun h => absurd h.2 (by simp), fun ⟨x, h⟩ => by cases h⟩

theorem infMul_ne_fin (v : Val K) (z : K) : Val.infMul v ≠ .fin z := by
  cases v <;> simp only [Val.infMul, ne_eq, reduceCtorEq, not_false_eq_true]
  split_ifs <;> simp

theorem neg_ne_fin {v : Val K} (h : ∀ z, v ≠ .fin z) (z : K) : Val.neg v ≠ .fin z := by
  cases v with
  | fin x => exact absurd rfl (h x)
  | _ => simp [Val.neg]

theorem add_eq_fin {a b : Val K} {z : K} : (a +. b) = .fin z ↔ ∃ x y, a = .fin x ∧ b = .fin y ∧ z = x + y := by
  constructor
  · intro h
    cases a <;> cases b <;> first | (cases h; done) | exact ⟨_, _, rfl, rfl, (Val.fin.inj h).symm⟩
  · rintro ⟨x, y, rfl, rfl, rfl⟩; rfl

theorem sub_eq_fin {a b : Val K} {z : K} : (a -. b) = .fin z ↔ ∃ x y, a = .fin x ∧ b = .fin y ∧ z = x - y := by
  constructor
  · intro h
    cases a <;> cases b <;> first | (cases h; done) | skip
    rename_i x y
    refine ⟨x, y, rfl, rfl, ?_⟩
    rw [fin_sub] at h
    exact (Val.fin.inj h).symm
  · rintro ⟨x, y, rfl, rfl, rfl⟩; exact fin_sub _ _

theorem mul_eq_fin {a b : Val K} {z : K} : (a *. b) = .fin z ↔ ∃ x y, a = .fin x ∧ b = .fin y ∧ z = x * y := by
  constructor
  · intro h
    change Val.mul a b = _ at h
    cases a <;> cases b <;> unfold Val.mul at h <;> first
      | (cases h; done)
      | exact absurd h (infMul_ne_fin _ _)
      | exact absurd h (neg_ne_fin (infMul_ne_fin _) _)
      | exact ⟨_, _, rfl, rfl, (Val.fin.inj h).symm⟩
  · rintro ⟨x, y, rfl, rfl, rfl⟩; rfl

theorem div_eq_fin {a b : Val K} {z : K} (h : (a /. b) = .fin z) :
    ∃ x, a = .fin x ∧ ((∃ y, b = .fin y ∧ y ≠ 0 ∧ z = x / y) ∨ ((b = .pinf ∨ b = .ninf) ∧ z = 0)) := by
  change Val.div a b = _ at h
  cases a <;> cases b <;> unfold Val.div at h
  all_goals try (cases h; done)
  all_goals try (dsimp only at h; split_ifs at h; done)
  · exact ⟨_, rfl, .inr ⟨.inl rfl, (Val.fin.inj h).symm⟩⟩
  · exact ⟨_, rfl, .inr ⟨.inr rfl, (Val.fin.inj h).symm⟩⟩
  · dsimp only at h
    split_ifs at h with h1
    exact ⟨_, rfl, .inl ⟨_, rfl, h1, (Val.fin.inj h).symm⟩⟩

/-! comparisons with the infinities -/

@[simp] theorem pinf_lt (b : Val K) : (Val.pinf <. b) = false := by cases b <;> rfl
@[simp] theorem lt_ninf (a : Val K) : (a <. Val.ninf) = false := by cases a <;> rfl
@[simp] theorem fin_lt_pinf (a : K) : (Val.fin a <. Val.pinf) = true := rfl
@[simp] theorem ninf_lt_fin (a : K) : (Val.ninf <. Val.fin a) = true := rfl
@[simp] theorem ninf_lt_pinf : ((Val.ninf : Val K) <. Val.pinf) = true := rfl
@[simp] theorem pinf_eq_fin (a : K) : (Val.pinf ==. Val.fin a) = false := rfl
@[simp] theorem ninf_eq_fin (a : K) : (Val.ninf ==. Val.fin a) = false := rfl
@[simp] theorem fin_eq_pinf (a : K) : (Val.fin a ==. Val.pinf) = false := rfl
@[simp] theorem fin_eq_ninf (a : K) : (Val.fin a ==. Val.ninf) = false := rfl
@[simp] theorem neg_pinf : Flt.neg (Val.pinf : Val K) = Val.ninf := rfl
@[simp] theorem neg_ninf : Flt.neg (Val.ninf : Val K) = Val.pinf := rfl
@[simp] theorem abs_pinf : Flt.abs (Val.pinf : Val K) = Val.pinf := rfl
@[simp] theorem abs_ninf : Flt.abs (Val.ninf : Val K) = Val.pinf := rfl

end TA
