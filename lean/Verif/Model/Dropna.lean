import Verif.Base.Series

/-! # Model of `ta.utils.dropna` — ta/utils.py:49-56

A frame with numeric (float) columns and other columns, of which only "is it missing" matters; integer columns are
taken as already converted to float. -/

namespace TA
variable {F : Type} [Flt F]

/-- A column as `dropna` sees it. -/
inductive Col (F : Type) where
  | num (s : Series F)
  | other (cells : List (Option String))

/-- A frame with any kind of columns: index labels and named columns. -/
structure Table (F : Type) where
  labels : List String
  cols : List (String × Col F)

/-- `math.exp(709)`, the shortest decimal that reads back as that float64 -/
def bigNumber : F := lit (8218407461554972 * 10 ^ 292)

/-- `df[number_cols] < math.exp(709)` as a mask: cells that are not smaller become NaN — ta/utils.py:53 -/
def maskBig (x : F) : F := if x <. bigNumber then x else nan

/-- `df[number_cols] != 0.0` as a mask: zeros become NaN (NaN stays) — ta/utils.py:54 -/
def maskZero (x : F) : F := if x !=. lit 0 then x else nan

/-- the column after the two maskings; only numeric columns are masked -/
def Col.mask : Col F → Col F
  | .num s => .num ((s.map maskBig).map maskZero)
  | .other c => .other c

/-- is the cell in row `i` missing? -/
def Col.missing (c : Col F) (i : Nat) : Bool :=
  match c with
  | .num s => Flt.isNaN (ix s i)
  | .other m => (m.getD i none).isNone

/-- the cells in the given rows -/
def Col.pick (rows : List Nat) : Col F → Col F
  | .num s => .num (rows.map (ix s))
  | .other m => .other (rows.map (fun i => m.getD i none))

/-- the given rows of a frame -/
def Table.pick (rows : List Nat) (t : Table F) : Table F :=
  { labels := rows.map (fun i => t.labels.getD i ""), cols := t.cols.map (fun p => (p.1, p.2.pick rows)) }

/-- `DataFrame.dropna()`: drop the rows with a missing cell -/
def Table.dropnaRows (t : Table F) : Table F :=
  t.pick ((List.range t.labels.length).filter (fun i => t.cols.all (fun p => !p.2.missing i)))

/-- `dropna` — ta/utils.py:49-56 (works on a copy, 51) -/
def dropna (t : Table F) : Table F :=
  Table.dropnaRows { t with cols := t.cols.map (fun p => (p.1, p.2.mask)) }

end TA
