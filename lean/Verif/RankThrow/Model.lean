import Verif.Rounds.Model

/-!
# Model of exceptions on some ranks between communication rounds

Sources: `/repo/include/l3ster/comm/DistributeMesh.hpp` lines 229-248 (`distributeMesh`), 250-281 (`distributeMeshAndNodeMap`); exceptions come out of
`std::invoke(mesh_generator)` and `partitionMesh`, which only the first rank calls (242-243, 269-271; `throwingAssert` in
`/repo/include/l3ster/mesh/ReadMesh.hpp` 118-341 and `/repo/include/l3ster/mesh/PartitionMesh.hpp` 315, 346, 472, 510).

The communication is that of `Verif.Rounds`.  A rank which throws leaves the sequence of operations before one of them, and takes part in none afterwards: what it does with the exception
(`MPI_Finalize` in `~MpiScopeGuard`, `/repo/include/l3ster/util/ScopeGuards.hpp` 29-33, or ending the process without it) is not modelled.
-/
namespace Verif.RankThrow
open Verif.Rounds

variable {n : Nat}

/-- The operation before which a rank throws, if it does. (DistributeMesh.hpp 242-243, 269-271) -/
abbrev Halt (n : Nat) := Fin n → Option Nat

/-- Rank `r` has thrown. (stack unwinding out of DistributeMesh.hpp 242-243, 269-271; no line of /repo catches) -/
def Thrown (halt : Halt n) (s : St n) (r : Fin n) : Prop := halt r = some (s.pc r)

/-- A step of the ranks which have not thrown. (the steps of DistributeMesh.hpp 22-105, 155-204 on them) -/
def TStep (prog : List (Op n)) (env : Env n) (halt : Halt n) (s s' : St n) : Prop :=
  Step prog env s s' ∧ ∀ r, Thrown halt s r → s'.pc r = s.pc r ∧ s'.sub r = s.sub r

/-- The states that can come up. (interleavings of the ranks running DistributeMesh.hpp 229-281) -/
inductive TReach (prog : List (Op n)) (env : Env n) (halt : Halt n) : St n → Prop where
  | init : TReach prog env halt (St.init n)
  | step {s s'} : TReach prog env halt s → TStep prog env halt s s' → TReach prog env halt s'

/-- Is the call one which generates a mesh? (DistributeMesh.hpp 229-248, 250-281) -/
def generates : Call n → Bool
  | .distribute _ => true
  | .distributeNodes _ => true
  | _ => false

/-- The operation before which call `j` generates and partitions the mesh: the one after `gatherNodeThroughputs`. (DistributeMesh.hpp 241-244, 267-274) -/
def generatorAt (calls : List (Call n)) (j : Nat) : Nat := (program (calls.take j)).length + 1

/-- The first rank throws in the generator of call `j`, the others do not call it. (`comm.getRank() == 0 ? … : …`, DistributeMesh.hpp 242-243, 269-271) -/
def generatorThrows (calls : List (Call n)) (j : Nat) : Halt n := fun r => if r.val = 0 then some (generatorAt calls j) else none

end Verif.RankThrow
