import Verif.Model.Catalogue
import Verif.Spec.Causal

/-! # A decidable arithmetic for the examples

`Val ℚ` with placeholder `sqrt` and `log`.  Used only in `example`s and witnesses about indicators that take neither
a square root nor a logarithm, or multiply it by zero, so that they can be evaluated by `decide`. -/

namespace TA

/-- placeholder `sqrt`/`log` (never evaluated in the examples) -/
@[reducible] def toyFn : FltFn (Val ℚ) where
  sqrt x := x
  log x := x

/-- a bar with finite values -/
def qbar (h l c v : ℚ) : Bar (Val ℚ) := ⟨.fin h, .fin l, .fin c, .fin v⟩

/-- a bar whose four values are all `x` -/
def qb (x : ℚ) : Bar (Val ℚ) := qbar x x x x

/-- a finite series -/
def qs (l : List ℚ) : Series (Val ℚ) := l.map Val.fin

deriving instance DecidableEq for Except

/-- Does appending `future` change (or lose) the output of `past`? -/
def changes {A F : Type} [DecidableEq F] (f : List A → Except PyErr (List F)) (past future : List A) : Bool :=
  match f past, f (past ++ future) with
  | .ok a, .ok b => b.take past.length != a
  | .ok _, .error _ => true
  | .error _, _ => false

theorem not_nla {A F : Type} [DecidableEq F] {f : List A → Except PyErr (List F)} (past future : List A)
    (h : changes f past future = true) : ¬ NoLookAhead f := by
  intro hn
  unfold changes at h
  cases h1 : f past with
  | error e => rw [h1] at h; simp at h
  | ok a =>
    obtain ⟨b, h2, h3⟩ := hn past future a h1
    rw [h1, h2] at h
    simp at h
    exact h h3

end TA
