import Mathlib.Algebra.Order.Field.Basic
import Mathlib.Algebra.Order.Group.Abs
import Mathlib.Algebra.Order.Ring.Abs
/-!
# Preconditioners and solver objects

Model of `include/l3ster/solve/{NativePreconditioners,PreconditionerInterface,Amesos2Solvers,BelosSolvers}.hpp`.
A multivector is a function from (row, column) to the scalars. Exact arithmetic; a division by zero
(which produces infinity or NaN in the code) is the outcome `none`. The linear solvers themselves
(Amesos2, Belos) are contracts.
-/
namespace Verif.Solve

section Precond
variable {K : Type} [Field K] [LinearOrder K]

/-- A multivector with rows `R` and columns `C`. (arguments of NativePreconditioners.hpp 20-24, 51-55) -/
abbrev MV (R C K : Type) := R → C → K

/-- `Tpetra::MultiVector::update(a, X, b)`: `Y := a X + b Y` (contract). (NativePreconditioners.hpp 27) -/
def update {R C : Type} (a : K) (x : MV R C K) (b : K) (y : MV R C K) : MV R C K := fun i j => a * x i j + b * y i j

/-- `Tpetra::MultiVector::elementWiseMultiply(a, d, X, b)`: `Y := a diag(d) X + b Y` (contract). (NativePreconditioners.hpp 59) -/
def elementWiseMultiply {R C : Type} (a : K) (d : R → K) (x : MV R C K) (b : K) (y : MV R C K) : MV R C K :=
  fun i j => a * (d i * x i j) + b * y i j

/-- `NativeRichardsonImpl::apply`, NativePreconditioners.hpp lines 20-28. -/
def richardsonApply {R C : Type} (damp : K) (x : MV R C K) (alpha beta : K) : Nat → MV R C K → MV R C K
  | 0, y => y
  | s + 1, y => richardsonApply damp x alpha beta s (update (damp * alpha) x beta y)

/-- Body of `diag_inv_kernel`, lines 85-93. -/
def diagInv (damping threshold val : K) : Option K :=
  if max |val| threshold = 0 then none else some ((if val < 0 then -1 else 1) * damping / max |val| threshold)

/-- `NativeJacobiImpl::init`, lines 71-96, for rows `0 … n-1`. -/
def jacobiInit (damping threshold : K) (diag : List K) : Option (List K) := diag.mapM (diagInv damping threshold)

/-- `NativeJacobiImpl::apply`, lines 51-61. -/
def jacobiApply {R C : Type} (d : R → K) (x : MV R C K) (alpha beta : K) : Nat → MV R C K → MV R C K
  | 0, y => y
  | s + 1, y => jacobiApply d x alpha beta s (elementWiseMultiply alpha d x beta y)

end Precond

/-- What a preconditioner can be built from, PreconditionerInterface.hpp lines 21-37. -/
structure PrecKind where
  matrixBased : Bool
  operatorBased : Bool
deriving DecidableEq, Repr

/-- Outcome of `initPreconditioner`. (PreconditionerInterface.hpp 60-73) -/
inductive PrecOut
  | fromMatrix
  | fromOperator
  | undefined
deriving DecidableEq, Repr

/-- `initPreconditioner`, lines 60-73; `isMatrix` tells whether the operator is a stored matrix.
Reaching `std::unreachable` is the outcome `undefined`. -/
def initPreconditioner (k : PrecKind) (isMatrix : Bool) : PrecOut :=
  if k.matrixBased && isMatrix then .fromMatrix else if k.operatorBased then .fromOperator else .undefined

/-! ### Solver objects -/

/-- Linear algebra objects, addressed by the handles (`Teuchos::RCP`) the caller passes. (arguments of Amesos2Solvers.hpp 18-20, BelosSolvers.hpp 102-104) -/
structure Heap (M V : Type) where
  mat : Nat → M
  vec : Nat → V

/-- Overwrite one vector. (Amesos2Solvers.hpp 30, BelosSolvers.hpp 94) -/
def Heap.write {M V : Type} (h : Heap M V) (i : Nat) (v : V) : Heap M V := ⟨h.mat, fun j => if j = i then v else h.vec j⟩

/-- The arguments of `solve`. (Amesos2Solvers.hpp 18-20, BelosSolvers.hpp 102-104) -/
structure Args where
  a : Nat
  b : Nat
  x : Nat
deriving DecidableEq, Repr

/-- The third-party solver: `numericFactorization().solve()` resp. `SolverManager::solve`, with the
data it is handed (`P` is the preconditioner). (Amesos2Solvers.hpp 30, BelosSolvers.hpp 94) -/
structure Lib (M V P : Type) where
  cols : V → Nat
  shapeOK : M → V → V → Bool
  prec : M → Option P
  solve : M → P → V → V → Option V

/-- Result of a call: new solver state, new heap, whether it returned normally. (Amesos2Solvers.hpp 31, BelosSolvers.hpp 86, 96, 99) -/
structure Res (S M V : Type) where
  st : S
  heap : Heap M V
  ok : Bool

variable {M V P : Type}

/-- `m_solver->numericFactorization().solve()` on the stored handles, Amesos2Solvers.hpp line 30. -/
def amesosRun (lib : Lib M V Unit) (c : Args) (h : Heap M V) : Res (Option Args) M V :=
  match lib.solve (h.mat c.a) () (h.vec c.b) (h.vec c.x) with
  | none => ⟨some c, h, false⟩
  | some v => ⟨some c, h.write c.x v, true⟩

/-- `Amesos2SolverInterface::solve`, Amesos2Solvers.hpp lines 18-32. `m_solver` is assigned before the
shape check. -/
def amesosSolve (lib : Lib M V Unit) (st : Option Args) (h : Heap M V) (p : Args) : Res (Option Args) M V :=
  if lib.cols (h.vec p.x) = lib.cols (h.vec p.b) then
    match st with
    | none => if lib.shapeOK (h.mat p.a) (h.vec p.b) (h.vec p.x) then amesosRun lib p h else ⟨some p, h, false⟩
    | some c => amesosRun lib c h
  else ⟨st, h, false⟩

/-- State of `BelosSolverInterface`: `m_solver` empty; set but without a problem (initialisation
threw); set up with the handles and preconditioner of the call that initialised it. (BelosSolvers.hpp 35-36, 81-88) -/
inductive BelosSt (P : Type)
  | fresh
  | broken
  | ready (c : Args) (p : P)

/-- `solveImpl`, BelosSolvers.hpp lines 89-100 (with `throw_on_fail`). -/
def belosRun (lib : Lib M V P) (c : Args) (p : P) (h : Heap M V) : Res (BelosSt P) M V :=
  match lib.solve (h.mat c.a) p (h.vec c.b) (h.vec c.x) with
  | none => ⟨.ready c p, h, false⟩
  | some v => ⟨.ready c p, h.write c.x v, true⟩

/-- `init`, lines 73-87, followed by `solveImpl`. -/
def belosInit (lib : Lib M V P) (h : Heap M V) (q : Args) : Res (BelosSt P) M V :=
  match lib.prec (h.mat q.a) with
  | none => ⟨.broken, h, false⟩
  | some p => if lib.shapeOK (h.mat q.a) (h.vec q.b) (h.vec q.x) then belosRun lib q p h else ⟨.broken, h, false⟩

/-- `BelosSolverInterface::solve`, lines 102-111. A solver without problem throws. -/
def belosSolve (lib : Lib M V P) (st : BelosSt P) (h : Heap M V) (q : Args) : Res (BelosSt P) M V :=
  if lib.cols (h.vec q.x) = lib.cols (h.vec q.b) then
    match st with
    | .fresh => belosInit lib h q
    | .broken => ⟨.broken, h, false⟩
    | .ready c p => belosRun lib c p h
  else ⟨st, h, false⟩

end Verif.Solve
