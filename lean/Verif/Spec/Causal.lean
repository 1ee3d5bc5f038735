import Verif.Base.Series

/-!
# What "no look-ahead" means

Stated for any function from input rows to an output column that may raise.
-/

namespace TA
variable {A F : Type}

/-- Appending rows never changes (nor removes) an output row already produced. -/
def NoLookAhead (f : List A → Except PyErr (List F)) : Prop :=
  ∀ past future out, f past = .ok out →
    ∃ out', f (past ++ future) = .ok out' ∧ out'.take past.length = out

/-- The same, from row `k` on: the rows before `k` may change. -/
def NoLookAheadFrom (k : Nat) (f : List A → Except PyErr (List F)) : Prop :=
  ∀ past future out, f past = .ok out →
    ∃ out', f (past ++ future) = .ok out' ∧ (out'.take past.length).drop k = out.drop k

/-- One output row per input row. -/
def RowForRow (f : List A → Except PyErr (List F)) : Prop :=
  ∀ rows out, f rows = .ok out → out.length = rows.length

end TA
