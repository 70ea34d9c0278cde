import Mathlib.Algebra.Group.Defs
import Mathlib.Algebra.Group.Prod
import Mathlib.Algebra.BigOperators.Group.List.Basic

/-!
# Model of the assembly session of `AssembledSystem` and `MatrixFreeSystem`

Sources: `/repo/include/l3ster/algsys/AssembledSystem.hpp` lines 289-461, `/repo/include/l3ster/algsys/MatrixFreeSystem.hpp`
lines 261-277, 727-885, 943-964.

`M`, `R`, `D` are the possible contents of the global matrix, of the global right-hand side and of the condensation data; a call of
`assembleProblem` adds a contribution to each.  What `endAssembly` computes from them (condensation, exchange between ranks, Dirichlet
conditions; see `Condense`, `Dirichlet`) is a function `fin`.  A failed `throwingAssert` is `Except.error`, which leaves the
object as it was.
-/
namespace Verif.Session

/-- Calls a user can make. (AssembledSystem.hpp 31-43, 289-310) -/
inductive Call (C : Type) where
  | begin
  | end_
  | assemble (c : C)
  | getMatrix
  | getRhs
  | getSolution

section Assembled
variable {M R D : Type}

/-- Members of `AssembledSystem` that matter: `m_state`, `m_matrix`, `m_rhs`, condensation data. (AssembledSystem.hpp 101-108) -/
structure Sys (M R D : Type) where
  isOpen : Bool
  mat : M
  rhs : R
  cond : D

/-- What a call returns. (AssembledSystem.hpp 289-310, 455-461) -/
inductive Res (M R : Type) where
  | unit
  | mat (m : M)
  | rhs (r : R)
  | sol

variable [AddCommMonoid M] [AddCommMonoid R] [AddCommMonoid D]

/-- Constructor, 316-357: new Tpetra objects hold zeros, `m_condensation_manager.beginAssembly()`, state open. -/
def new : Sys M R D := ⟨true, 0, 0, 0⟩

/-- `beginAssembly`, 360-371, `setToZero` 400-404, `beginAssemblyImpl` (StaticCondensationManager.hpp 311-319). -/
def begin' (s : Sys M R D) : Sys M R D := if s.isOpen then s else ⟨true, 0, 0, 0⟩

/-- `endAssembly`, 374-397. -/
def end' (fin : M → R → D → M × R) (s : Sys M R D) : Except Unit (Sys M R D) :=
  if s.isOpen then .ok ⟨false, (fin s.mat s.rhs s.cond).1, (fin s.mat s.rhs s.cond).2, s.cond⟩ else .error ()

/-- `assembleProblem`, 408-437 (`assembleGlobalSystem` adds to matrix, right-hand side and condensation data). -/
def assemble (s : Sys M R D) (c : M × R × D) : Except Unit (Sys M R D) :=
  if s.isOpen then .ok { s with mat := s.mat + c.1, rhs := s.rhs + c.2.1, cond := s.cond + c.2.2 } else .error ()

/-- `getMatrix`, `getRhs`, `getSolution`, 289-312. -/
def getter (s : Sys M R D) (r : Res M R) : Except Unit (Res M R) := if s.isOpen then .error () else .ok r

/-- One call: new state and result; a throwing call changes nothing. (AssembledSystem.hpp 288-436) -/
def call (fin : M → R → D → M × R) (s : Sys M R D) : Call (M × R × D) → Sys M R D × Except Unit (Res M R)
  | .begin => (begin' s, .ok .unit)
  | .end_ => match end' fin s with
    | .ok s' => (s', .ok .unit)
    | .error e => (s, .error e)
  | .assemble c => match assemble s c with
    | .ok s' => (s', .ok .unit)
    | .error e => (s, .error e)
  | .getMatrix => (s, getter s (.mat s.mat))
  | .getRhs => (s, getter s (.rhs s.rhs))
  | .getSolution => (s, getter s .sol)

/-- State after a history of calls (errors are caught by the user). (calls of AssembledSystem.hpp 288-436) -/
def run (fin : M → R → D → M × R) (s : Sys M R D) (h : List (Call (M × R × D))) : Sys M R D := h.foldl (fun s c => (call fin s c).1) s

end Assembled

section MatrixFree
variable {C : Type}

/-- Members of `MatrixFreeSystem` that matter: `m_state`, kernel lists (`m_kernel_maps`: initialisation and evaluation), and the
kernels from which `m_rhs` and `m_diagonal` were last computed. (members filled by MatrixFreeSystem.hpp 727-790) -/
structure MF (C : Type) where
  isOpen : Bool
  init : List C
  eval : List C
  rhsOf : List C

/-- Constructor, 983-1018. -/
def MF.new : MF C := ⟨true, [], [], []⟩
/-- `beginAssembly`, 866-874, `initKernelMaps`, 270-276. -/
def MF.begin (s : MF C) : MF C := if s.isOpen then s else { s with isOpen := true, init := [], eval := [] }
/-- `endAssembly`, 877-885: `computeDiagAndRhs` (887-941) zeroes the vectors and applies the initialisation kernels. -/
def MF.end (s : MF C) : Except Unit (MF C) := if s.isOpen then .ok { s with isOpen := false, rhsOf := s.init } else .error ()
/-- `assembleProblem`, 791-803: pushes both kernels; the state is not checked. -/
def MF.assemble (s : MF C) (c : C) : Except Unit (MF C) := .ok { s with init := s.init ++ [c], eval := s.eval ++ [c] }

/-- What the user sees of a matrix-free system: kernels summed by the operator and kernels of the right-hand side, `none` while open
(`getOperator`, `getRhs`, 943-956). -/
def MF.seen (s : MF C) : Option (List C × List C) := if s.isOpen then none else some (s.eval, s.rhsOf)

/-- One call: new state and whether it threw. (MatrixFreeSystem.hpp 727-885, 943-964) -/
def MF.call (s : MF C) : Call C → MF C × Bool
  | .begin => (s.begin, false)
  | .end_ => match s.end with
    | .ok s' => (s', false)
    | .error _ => (s, true)
  | .assemble c => match s.assemble c with
    | .ok s' => (s', false)
    | .error _ => (s, true)
  | .getMatrix | .getRhs | .getSolution => (s, s.isOpen)

/-- State after a history of calls. (calls of MatrixFreeSystem.hpp 727-885, 943-964) -/
def MF.run (s : MF C) (h : List (Call C)) : MF C := h.foldl (fun s c => (s.call c).1) s

end MatrixFree
end Verif.Session
