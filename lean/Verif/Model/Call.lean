import Verif.Model.Catalogue

/-! # Python calls

How a Python call binds its arguments to the parameters of a signature: positional arguments from the left, then
keyword arguments by name, then the defaults; a surplus, repeated, unknown or missing argument is a `TypeError`. -/

namespace TA

/-- a literal in the source -/
inductive Lit
  | int (n : Int)
  | num (q : Rat)
  | bool (b : Bool)
  | none
  deriving DecidableEq

/-- an argument value -/
inductive PyVal (F : Type)
  | ser (s : Series F)
  | int (n : Int)
  | num (x : F)
  | bool (b : Bool)
  | none
  deriving DecidableEq

/-- what a call raises -/
inductive CallErr
  | typeError
  | raised (e : PyErr)
  deriving DecidableEq

section
variable {F : Type} [Flt F]

/-- the value of a literal -/
def Lit.val : Lit → PyVal F
  | .int n => .int n
  | .num q => .num (lit q)
  | .bool b => .bool b
  | .none => .none

/-- a signature: parameters in order, with their defaults -/
abbrev Sig (P : Type) := List (P × Option Lit)

/-- the local variables after binding -/
abbrev Env (P F : Type) := P → Option (PyVal F)

variable {P : Type} [DecidableEq P]

/-- the names in a list of named things -/
def keys {α : Type} (l : List (P × α)) : List P := l.map Prod.fst

/-- the default of a parameter -/
def Sig.default (sig : Sig P) (p : P) : Option Lit := (sig.lookup p).join

/-- positional arguments take the keys of the first parameters -/
def named (sig : Sig P) (pos : List (PyVal F)) (kw : List (P × PyVal F)) : List (P × PyVal F) :=
  (keys sig).zip pos ++ kw

/-- is the call well formed? -/
def Sig.accepts (sig : Sig P) (pos : List (PyVal F)) (kw : List (P × PyVal F)) : Bool :=
  pos.length ≤ sig.length && decide (keys (named sig pos kw)).Nodup && (keys kw).all (keys sig).contains &&
    sig.all fun q => q.2.isSome || (keys (named sig pos kw)).contains q.1

/-- the value of every parameter -/
def bind (sig : Sig P) (pos : List (PyVal F)) (kw : List (P × PyVal F)) : Except CallErr (Env P F) :=
  if sig.accepts pos kw then
    .ok fun p => ((named sig pos kw).lookup p).or ((sig.default p).map Lit.val)
  else .error .typeError

/-- an argument of the call in the body of a function: a local variable or a literal -/
inductive Arg (P : Type)
  | var (p : P)
  | const (l : Lit)
  deriving DecidableEq

def Arg.val (env : Env P F) : Arg P → PyVal F
  | .var p => (env p).getD .none
  | .const l => l.val

/-! reading a local variable at the type the indicator needs; other types are outside the model -/

def Env.ser (env : Env P F) (p : P) : Except CallErr (Series F) :=
  match env p with | some (.ser s) => .ok s | _ => .error .typeError
def Env.nat (env : Env P F) (p : P) : Except CallErr Nat :=
  match env p with | some (.int (.ofNat n)) => .ok n | _ => .error .typeError
def Env.int (env : Env P F) (p : P) : Except CallErr Int :=
  match env p with | some (.int n) => .ok n | _ => .error .typeError
def Env.num (env : Env P F) (p : P) : Except CallErr F :=
  match env p with | some (.num x) => .ok x | some (.int n) => .ok (lit n) | _ => .error .typeError
def Env.bool (env : Env P F) (p : P) : Except CallErr Bool :=
  match env p with | some (.bool b) => .ok b | _ => .error .typeError
def Env.optNat (env : Env P F) (p : P) : Except CallErr (Option Nat) :=
  match env p with | some .none => .ok none | some (.int (.ofNat n)) => .ok (some n) | _ => .error .typeError

/-- an exception of the indicator -/
def lift {α : Type} (x : Except PyErr α) : Except CallErr α := x.mapError .raised

end

end TA
