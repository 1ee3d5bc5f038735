import Verif.Model.Catalogue

/-! # Vocabulary for the data a theorem is about -/

namespace TA
variable {K : Type}

/-- A value that is a number (not NaN, not ±inf). -/
def Val.IsFin (v : Val K) : Prop := ∃ x, v = Val.fin x

/-- The same in any arithmetic: neither NaN nor ±inf. -/
def Num {F : Type} [Flt F] (x : F) : Prop := Flt.isNaN x = false ∧ Flt.isInf x = false

/-- Every price of every row is a number; nothing is said about the volumes. -/
def FinitePrices (b : List (Bar (Val K))) : Prop :=
  ∀ r ∈ b, r.high.IsFin ∧ r.low.IsFin ∧ r.close.IsFin

/-- the series of the `n` numbers `x 0, …, x (n-1)` -/
def ser (n : Nat) (x : Nat → K) : Series (Val K) := tab n fun i => .fin (x i)

/-- `s` has `n` rows: NaN before row `p`, the number `f i` from row `p` on. -/
structure Def [Field K] [LinearOrder K] (s : Series (Val K)) (n p : Nat) (f : Nat → K) : Prop where
  len : s.length = n
  gap : ∀ i, i < n → i < p → ix s i = .nan
  val : ∀ i, i < n → p ≤ i → ix s i = .fin (f i)

/-- Every number in the series satisfies `P` (NaN and ±inf are allowed anywhere). -/
def AllFin [Field K] [LinearOrder K] (P : K → Prop) (s : Series (Val K)) : Prop := ∀ i x, ix s i = .fin x → P x

/-- Every row is NaN or a number that satisfies `P`; no infinity. -/
def NaNOr [Field K] [LinearOrder K] (P : K → Prop) (s : Series (Val K)) : Prop :=
  ∀ i, i < s.length → ix s i = .nan ∨ ∃ x, ix s i = .fin x ∧ P x

/-- One row of a price table: a missing bar (all three prices NaN), or three numbers with low ≤ close ≤ high. -/
def BarRow [LE K] (h l c : Val K) : Prop :=
  (h = .nan ∧ l = .nan ∧ c = .nan) ∨ ∃ x y z, h = .fin x ∧ l = .fin y ∧ c = .fin z ∧ y ≤ z ∧ z ≤ x

/-- A price table whose rows are bars, some of which may be missing. -/
structure GoodBars [Field K] [LinearOrder K] (h l c : Series (Val K)) : Prop where
  lenL : l.length = h.length
  lenC : c.length = h.length
  row : ∀ i, i < h.length → BarRow (ix h i) (ix l i) (ix c i)

end TA
