import Mathlib.LinearAlgebra.Matrix.NonsingularInverse

/-!
# Model of static condensation

Source: `/repo/include/l3ster/algsys/StaticCondensationManager.hpp`.

## Index bookkeeping (`computeLocalDofInds`, 482-535)
-/
namespace Verif.Condense

/-- What the bookkeeping of one element depends on: number of nodes, which are on the boundary, dofs per node, dofs valid at boundary
node `v` (`dof_map(node).front()`), the internal dofs of the element (`getInternalDofInds`). (StaticCondensationManager.hpp 482-508) -/
structure ElInfo where
  n : Nat
  bnd : Nat → Bool
  nd : Nat
  valid : Nat → Nat → Bool
  internal : Nat → Bool

/-- Running state: `local_system_ind`, `primary_ind`, `cond_ind` and the index lists (source, destination). (StaticCondensationManager.hpp 500-501) -/
structure Loop where
  ls : Nat := 0
  pi : Nat := 0
  ci : Nat := 0
  prim : List (Nat × Nat) := []
  cond : List (Nat × Nat) := []
deriving DecidableEq, Repr

/-- Body of the inner loop for dof `i` of node `v` (505-531); `active` is `active_inds_bmp`. -/
def loopStep (E : ElInfo) (active : Nat → Bool) (st : Loop) (vi : Nat × Nat) : Loop :=
  if E.bnd vi.1 then
    if active vi.2 then { st with prim := st.prim ++ [(st.ls, st.pi)], ls := st.ls + 1, pi := st.pi + 1 }
    else if E.valid vi.1 vi.2 then { st with pi := st.pi + 1 } else st
  else
    if active vi.2 then { st with cond := st.cond ++ [(st.ls, st.ci)], ls := st.ls + 1, ci := st.ci + 1 }
    else if E.internal vi.2 then { st with ci := st.ci + 1 } else st

/-- All (node, dof) pairs in the order of the loops. (StaticCondensationManager.hpp 503-533) -/
def pairs (E : ElInfo) : List (Nat × Nat) := (List.range E.n).flatMap fun v => (List.range E.nd).map fun i => (v, i)

/-- `computeLocalDofInds` for the caller's list `fi` of field indices. (StaticCondensationManager.hpp 482-535) -/
def computeInds (E : ElInfo) (fi : List Nat) : Loop := (pairs E).foldl (loopStep E fun i => fi.contains i) {}

/-- The (node, dof) meant by every unknown of the kernel's local system, as without condensation
(`getDofsFromNodes`, DofsFromNodes.hpp 32-60: node by node, fields in the caller's order). -/
def unknowns (E : ElInfo) (fi : List Nat) : List (Nat × Nat) := (List.range E.n).flatMap fun v => fi.map fun i => (v, i)

/-- Rows of `upper_block`: all valid dofs of the boundary nodes (`getDofsFromNodes` without field list in `endAssemblyImpl`, 340-341). -/
def primaryDofs (E : ElInfo) : List (Nat × Nat) := (pairs E).filter fun q => E.bnd q.1 && E.valid q.1 q.2

/-- Rows of `diag_block`: internal dofs of the internal nodes (as read by `recoverSolutionImpl`, 439-469). -/
def condDofs (E : ElInfo) : List (Nat × Nat) := (pairs E).filter fun q => !E.bnd q.1 && E.internal q.2

/-! ## The condensed system

`P` indexes the primary dofs of the whole system, `E` the elements, `B e`/`I e` the rows of the upper/diagonal block of element `e`.
One column of the right-hand side.  Exact arithmetic in a field; `diag_block.inverse()` is the inverse matrix. -/

variable {R P E : Type} {B I : E → Type} [Field R] [Fintype P] [DecidableEq P] [Fintype E] [DecidableEq E]
  [∀ e, Fintype (B e)] [∀ e, DecidableEq (B e)] [∀ e, Fintype (I e)] [∀ e, DecidableEq (I e)]

/-- Everything assembled between `beginAssembly` and `endAssembly`: for element `e` the local systems (one per kernel applied to it)
with the place of every local unknown, and the primary dof of every row of the upper block. (StaticCondensationManager.hpp 311-319, 348-407) -/
structure Sys (R P E : Type) (B I : E → Type) where
  cnt : E → Nat
  size : (e : E) → Fin (cnt e) → Nat
  loc : (e : E) → (c : Fin (cnt e)) → Fin (size e c) → B e ⊕ I e
  mat : (e : E) → (c : Fin (cnt e)) → Fin (size e c) → Fin (size e c) → R
  rhs : (e : E) → (c : Fin (cnt e)) → Fin (size e c) → R
  dof : (e : E) → B e → P

namespace Sys

/-- `diag_block`, 385-392. -/
def diag (S : Sys R P E B I) (e : E) : Matrix (I e) (I e) R := fun a b =>
  ∑ c, ∑ i, ∑ j, if S.loc e c i = Sum.inr a ∧ S.loc e c j = Sum.inr b then S.mat e c i j else 0

/-- `upper_block`, 398-406. -/
def upper (S : Sys R P E B I) (e : E) : Matrix (B e) (I e) R := fun a b =>
  ∑ c, ∑ i, ∑ j, if S.loc e c i = Sum.inl a ∧ S.loc e c j = Sum.inr b then S.mat e c i j else 0

/-- Condensed part of the right-hand side, 393-394. -/
def rhsI (S : Sys R P E B I) (e : E) : I e → R := fun a => ∑ c, ∑ i, if S.loc e c i = Sum.inr a then S.rhs e c i else 0

/-- Position of a local unknown in the full system. (StaticCondensationManager.hpp 366-406) -/
def glob (S : Sys R P E B I) (e : E) (k : B e ⊕ I e) : P ⊕ (Σ e, I e) := Sum.map (S.dof e) (Sigma.mk e) k

/-- The primary block scattered by `condenseSystemImpl`, 366-382. -/
def prim (S : Sys R P E B I) : Matrix P P R := fun p q =>
  ∑ e, ∑ c, ∑ i, ∑ j, if S.glob e (S.loc e c i) = Sum.inl p ∧ S.glob e (S.loc e c j) = Sum.inl q then S.mat e c i j else 0

/-- StaticCondensationManager.hpp 374-382 -/
def primRhs (S : Sys R P E B I) : P → R := fun p => ∑ e, ∑ c, ∑ i, if S.glob e (S.loc e c i) = Sum.inl p then S.rhs e c i else 0

/-- The condensed matrix after `endAssemblyImpl`, 335-342. -/
noncomputable def condMat (S : Sys R P E B I) : Matrix P P R := fun p q =>
  S.prim p q + ∑ e, ∑ a, ∑ b, if S.dof e a = p ∧ S.dof e b = q then (-(S.upper e * (S.diag e)⁻¹ * (S.upper e).transpose)) a b else 0

/-- The condensed right-hand side after `endAssemblyImpl`. (StaticCondensationManager.hpp 339, 385-395) -/
noncomputable def condRhs (S : Sys R P E B I) : P → R := fun p =>
  S.primRhs p + ∑ e, ∑ a, if S.dof e a = p then (-((S.upper e * (S.diag e)⁻¹).mulVec (S.rhsI e))) a else 0

/-- `recoverSolutionImpl`, 439: internal values of element `e` from the primary solution. -/
noncomputable def recover (S : Sys R P E B I) (x : P → R) (e : E) : I e → R :=
  (S.diag e)⁻¹.mulVec (S.rhsI e - (S.upper e).transpose.mulVec fun b => x (S.dof e b))

/-! ### The system without condensation -/

/-- Matrix of the full system: every local system scattered as it is. (specification, what the policy `None` scatters; StaticCondensationManager.hpp 118-120) -/
def full (S : Sys R P E B I) : Matrix (P ⊕ (Σ e, I e)) (P ⊕ (Σ e, I e)) R := fun k l =>
  ∑ e, ∑ c, ∑ i, ∑ j, if S.glob e (S.loc e c i) = k ∧ S.glob e (S.loc e c j) = l then S.mat e c i j else 0

/-- specification, what the policy `None` scatters; StaticCondensationManager.hpp 118-120 -/
def fullRhs (S : Sys R P E B I) : P ⊕ (Σ e, I e) → R := fun k => ∑ e, ∑ c, ∑ i, if S.glob e (S.loc e c i) = k then S.rhs e c i else 0

end Sys
end Verif.Condense
