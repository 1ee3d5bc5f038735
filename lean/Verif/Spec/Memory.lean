import Verif.Base.Series

/-!
# What "finite memory" means

Stated for any function from input rows to an output column that may raise.
-/

namespace TA
variable {A F : Type}

/-- Each output row depends on its own input row and the `m` before it: putting older rows in front of the data
changes no output row from row `m` of the data on. -/
def FiniteMemory (m : Nat) (f : List A → Except PyErr (List F)) : Prop :=
  ∀ old recent out, f recent = .ok out →
    ∃ out', f (old ++ recent) = .ok out' ∧ (out'.drop old.length).drop m = out.drop m

end TA
