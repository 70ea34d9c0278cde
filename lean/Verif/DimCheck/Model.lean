import Verif.Mesh.Model

/-!
# Model of the check that a kernel fits the dimension of its domains

Sources: `/repo/include/l3ster/algsys/OperatorUtils.hpp` 12-47, `AssembleGlobalSystem.hpp` 34-52 and 76-95,
`MatrixFreeSystem.hpp` 602-631 and 649-700, `/repo/include/l3ster/post/Integral.hpp` 62-78.

The result of applying a kernel is here the list of elements (or parents with a side) it is applied to; `none` is the exception.
-/
namespace Verif.DimCheck
open Verif Verif.Elem Verif.Mesh

/-- `check_domain_dim`, OperatorUtils.hpp 17-27 and 36-46: a domain which is not there passes. -/
def checkOne (m : DomMap) (dim id : Nat) : Bool :=
  match m.lookup id with
  | none => true
  | some d => d.dim == some dim

/-- `checkDomainDimension`, OperatorUtils.hpp 12-28 and 31-47. -/
def checkDim (m : DomMap) (ids : List Nat) (dim : Nat) : Bool := ids.all (checkOne m dim)

/-- The elements `process_element` does not skip, AssembleGlobalSystem.hpp 37-52; the same in MatrixFreeSystem.hpp 609 and 659 and Integral.hpp 64, where
nothing is checked before. -/
def applied (m : DomMap) (ids : List Nat) (dim : Nat) : List Element := (visitIds m ids).filter fun e => dim = e.ty.dim

/-- `assembleGlobalSystem` with a kernel for domains, AssembleGlobalSystem.hpp 34-52. -/
def assemble (m : DomMap) (ids : List Nat) (dim : Nat) : Option (List Element) :=
  if checkDim m ids dim then some (applied m ids dim) else none

/-- The parents of boundary elements which are not skipped, AssembleGlobalSystem.hpp 79-95; the skipping is by the dimension of the parent, 81. -/
def appliedBnd (m : DomMap) (ids : List Nat) (dim : Nat) : List (Element × Nat) :=
  ((visitIds m ids).filterMap (viewOf m)).filter fun v => dim = v.1.ty.dim

/-- `assembleGlobalSystem` with a kernel for boundaries, AssembleGlobalSystem.hpp 76-95; `dim` is `params.dimension`, at least 1 (there is no normal
otherwise). -/
def assembleBnd (m : DomMap) (ids : List Nat) (dim : Nat) : Option (List (Element × Nat)) :=
  if checkDim m ids (dim - 1) then some (appliedBnd m ids dim) else none

end Verif.DimCheck
