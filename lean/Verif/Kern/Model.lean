import Mathlib.Algebra.Field.Basic
import Mathlib.Data.List.Basic
import Mathlib.Logic.Function.Basic

/-!
# Model of the wrappers around user kernels

Sources: `/repo/include/l3ster/common/KernelInterface.hpp` lines 13-76 (parameters, result, initialisation), 100-177 (the four wrappers),
`/repo/include/l3ster/post/NormL2.hpp` lines 21-28 (`getNormSquareComputer`).

A result object is a memory: each of its scalars has a value or is indeterminate (`none`).  Eigen 3.4 has a user-provided default constructor that
does not touch the coefficients, so that `Rhs{}` and `Result{}` leave them indeterminate.  Reading an indeterminate scalar is undefined behaviour.
What the user's kernel does to the object for a given input is a list of assignments to scalars, each of which may read scalars of the object
(`out[i] = a`, `out[i] += a`, `out = vec`).  Scalars of a field.
-/
namespace Verif.Kern

/-- A scalar of `KernelInterface::Result`, 34-38: entry `(r, c)` of operator `d`, or of the right-hand side. -/
inductive Comp where
  | op (d r c : Nat)
  | rhs (r c : Nat)
  deriving DecidableEq

/-- `KernelParams`, 13-20. -/
structure Params where
  dim : Nat
  nEq : Nat
  nUnk : Nat
  nRhs : Nat

/-- The scalars of `Result`: `dim + 1` operators of `nEq × nUnk`, right-hand side of `nEq × nRhs`. -/
def Params.Has (p : Params) : Comp → Prop
  | .op d r c => d < p.dim + 1 ∧ r < p.nEq ∧ c < p.nUnk
  | .rhs r c => r < p.nEq ∧ c < p.nRhs

/-- The scalars of `Rhs`. (KernelInterface.hpp 33, 37) -/
def Params.rhsComps (p : Params) : List Comp :=
  (List.range p.nRhs).flatMap fun c => (List.range p.nEq).map fun r => .rhs r c

/-- The scalars of operator `d`. (KernelInterface.hpp 32, 36) -/
def Params.opComps (p : Params) (d : Nat) : List Comp :=
  (List.range p.nUnk).flatMap fun c => (List.range p.nEq).map fun r => .op d r c

/-- The memory of a result object (KernelInterface.hpp 29-43). -/
abbrev Mem (K : Type) := Comp → Option K

section
variable {K : Type} [Field K]

/-- An object that was created and not written. (KernelInterface.hpp 150, 169) -/
def indet : Mem K := fun _ => none

/-- `setZero()` of an Eigen matrix: all of its coefficients. (KernelInterface.hpp 59-75) -/
def setZero (cs : List Comp) (m : Mem K) : Mem K := cs.foldl (fun m c => Function.update m c (some 0)) m

/-- `initKernelResult`, 62-70. -/
def initKernelResult (p : Params) : Mem K :=
  setZero p.rhsComps ((List.range (p.dim + 1)).foldl (fun m d => setZero (p.opComps d) m) indet)

/-- `initResidualKernelResult`, 72-76. -/
def initResidualKernelResult (p : Params) : Mem K := setZero p.rhsComps indet

/-- One assignment of the kernel: destination, scalars of the object that are read, value. (what a kernel may do with the argument passed in KernelInterface.hpp 113, 132, 151, 170) -/
structure Stmt (K : Type) where
  dst : Comp
  reads : List Comp
  val : List K → K

/-- `none`: undefined behaviour. (KernelInterface.hpp 113, 132, 151, 170) -/
def Stmt.exec (s : Stmt K) (m : Mem K) : Option (Mem K) := (s.reads.mapM m).map fun vs => Function.update m s.dst (some (s.val vs))

/-- The kernel's assignments one after another. (KernelInterface.hpp 113, 132, 151, 170) -/
def invoke : List (Stmt K) → Mem K → Option (Mem K)
  | [], m => some m
  | s :: l, m => (s.exec m).bind (invoke l)

/-- `DomainEquationKernel::operator()`, 110-115, and `BoundaryEquationKernel::operator()`, 129-134. -/
def equation {I : Type} (p : Params) (kernel : I → List (Stmt K)) (input : I) : Option (Mem K) := invoke (kernel input) (initKernelResult p)

/-- `ResidualDomainKernel::operator()`, 148-153, and `ResidualBoundaryKernel::operator()`, 167-172. -/
def residual {I : Type} (kernel : I → List (Stmt K)) (input : I) : Option (Mem K) := invoke (kernel input) indet

/-- A caller that uses all scalars of the result. (KernelInterface.hpp 114, 133, 152, 171) -/
def readAll (cs : List Comp) (m : Mem K) : Option (List K) := cs.mapM m

/-- `out[c] = a`. (what a kernel may do with the argument passed in KernelInterface.hpp 113, 132, 151, 170) -/
def assign (c : Comp) (a : K) : Stmt K := ⟨c, [], fun _ => a⟩

/-- `out[c] += a`. (what a kernel may do with the argument passed in KernelInterface.hpp 113, 132, 151, 170; NormL2.hpp 21-28) -/
def addTo (c : Comp) (a : K) : Stmt K := ⟨c, [c], fun vs => vs.headD 0 + a⟩

/-- `getNormSquareComputer`, NormL2.hpp 21-28: `out = kernel(input)`, then every entry times itself (one right-hand side). -/
def normSquare {I : Type} (p : Params) (kernel : I → List (Stmt K)) (input : I) : Option (Mem K) :=
  ((residual kernel input).bind (readAll ((List.range p.nEq).map fun r => Comp.rhs r 0))).bind fun vs =>
    invoke (((List.range p.nEq).map fun r => assign (Comp.rhs r 0) (vs.getD r 0)) ++
      (List.range p.nEq).map fun r => ⟨Comp.rhs r 0, [Comp.rhs r 0], fun ws => ws.headD 0 * ws.headD 0⟩) indet

end

end Verif.Kern
