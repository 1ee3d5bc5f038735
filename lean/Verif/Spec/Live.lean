import Verif.Base.Series
import Mathlib.Data.Fintype.Card

/-!
# Keeping a column up to date row by row

`Live F c m f`: the column `f b` can be kept up to date as the rows of `b` come in, with a state of at most `m` numbers and a counter with `c`
values.  For the claim to mean anything `c` and `m` must be fixed before the number type `F` (finite, for the floats of a computer).
-/

namespace TA

/-- the values of `S` can be told apart by `m` entries of type `F` and a counter below `c` -/
def Fits (F : Type) (c m : Nat) (S : Type) : Prop := ∃ e : S → Fin c × (Fin m → F), Function.Injective e

/-- row `i` of `f b` is read off the state after rows `0..i` -/
def Live (F : Type) (c m : Nat) {I G : Type} (f : List I → List G) : Prop :=
  ∃ (S : Type) (init : S) (step : S → I → S) (out : S → G), Fits F c m S ∧
    ∀ b, f b = tab b.length fun i => out ((b.take (i + 1)).foldl step init)

end TA
