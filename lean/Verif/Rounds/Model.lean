import Mathlib.Data.Fintype.BigOperators
import Mathlib.Logic.Equiv.Basic
import Mathlib.Logic.Function.Basic

/-!
# Model of the communication rounds of mesh distribution and of the objects built on it

Sources: `/repo/include/l3ster/comm/DistributeMesh.hpp` lines 21-31 (`invertPermutation`), 34-52, 54-68 (`sendRecvMesh`), 70-105
(`establishNewNodeIds`), 136-144 (`receiveMesh`), 155-204 (`scatterParts`, `scatterNodes`), 207-227 (`optimizeMeshDistribution`), 229-281;
`/repo/include/l3ster/comm/ImportExport.hpp` lines 250-262, 300-337; `/repo/include/l3ster/util/SegmentedOwnership.hpp` lines 53-110;
`/repo/include/l3ster/util/Algorithm.hpp` lines 284-293; `/repo/include/l3ster/algsys/SparsityGraph.hpp` lines 155-208;
`/repo/include/l3ster/comm/MpiComm.hpp` lines 137-172; `/repo/include/l3ster/comm/GatherNodeThroughputs.hpp`.

All ranks execute the same sequence of operations, each with its own parameters.  What MPI guarantees is in the transition relation: messages
of one sender, receiver and tag are received in the order in which they were sent; a receive may match any message with its source and tag, one with
`MPI_ANY_SOURCE` a message of any source.  When a send completes before it is received (buffering) and when a rank leaves a collective operation are up to the
implementation (`Env`), except that `allGather` and `allToAll` need data of every rank.  Contents of messages are C07, C38, C46; a message is
identified here by the operation in which it was sent.
-/
namespace Verif.Rounds

/-- An operation of the common sequence. (DistributeMesh.hpp 26-29, 61-66, 82-86, 101-103; ImportExport.hpp 300-337) -/
inductive Op (n : Nat) where
  /-- Each rank starts its sends and receives with given source (a triple: sender, receiver, tag), then waits for all of them.  `posted`: the receives are
  posted before the sends start (`receiveAsync` then `send`); otherwise they follow (`sendAsync`, then `probe` and `receive`). -/
  | round (posted : Bool) (msgs : Finset (Fin n × Fin n × Nat))
  /-- `sendAsync(data, dst, tag)`, `probe(MPI_ANY_SOURCE, tag)`, `receive` from the source found; the request is waited for when it is destroyed. -/
  | wild (tag : Nat) (dst : Fin n → Fin n)
  /-- A collective operation; `full`: no rank can leave before all have entered. -/
  | coll (full : Bool)

/-- The messages of an operation. (auxiliary; the arguments of `sendAsync` and `send`, DistributeMesh.hpp 26, 61, 85, 102) -/
def Op.has {n : Nat} : Op n → Fin n → Fin n → Nat → Prop
  | .round _ M, q, r, t => (q, r, t) ∈ M
  | .wild tag dst, q, r, t => dst q = r ∧ t = tag
  | .coll _, _, _, _ => False

/-- State: position of each rank, step within the operation, messages under way (numbers of the operations, by sender, receiver, tag), messages received (by
receiver, operation in which it was received, sender, tag). (what MPI keeps for the calls of MpiComm.hpp 137-172) -/
structure St (n : Nat) where
  pc : Fin n → Nat
  sub : Fin n → Nat
  chan : Fin n → Fin n → Nat → List Nat
  got : Fin n → Nat → Fin n → Nat → Option Nat

/-- Nothing sent yet, all ranks before their first operation (program start; no line of /repo has it). -/
def St.init (n : Nat) : St n := ⟨fun _ => 0, fun _ => 0, fun _ _ _ => [], fun _ _ _ _ => none⟩

section
variable {n : Nat}
open Classical

/-- Next step of rank `r`. (auxiliary; progress within an operation, e.g. DistributeMesh.hpp 26-29) -/
noncomputable def St.goto (s : St n) (r : Fin n) (v : Nat) : St n := { s with sub := Function.update s.sub r v }

/-- Rank `r` is done with its operation. (auxiliary; return from an operation, e.g. DistributeMesh.hpp 30) -/
noncomputable def St.next (s : St n) (r : Fin n) : St n :=
  { s with pc := Function.update s.pc r (s.pc r + 1), sub := Function.update s.sub r 0 }

/-- Rank `q` starts its sends. (`MPI_Isend` and `MPI_Send`, e.g. DistributeMesh.hpp 26, 61, 85, 102) -/
noncomputable def St.push (s : St n) (op : Op n) (q : Fin n) : St n :=
  { s with chan := fun a b t => if a = q ∧ op.has q b t then s.chan a b t ++ [s.pc q] else s.chan a b t }

/-- Rank `r` receives message `m`, the first of those from `q` with tag `t`. (`MPI_Recv` and `MPI_Irecv`, e.g. DistributeMesh.hpp 29, 66, 84, 101) -/
noncomputable def St.take (s : St n) (q r : Fin n) (t m : Nat) (rest : List Nat) : St n :=
  { s with
    chan := fun a b u => if a = q ∧ b = r ∧ u = t then rest else s.chan a b u
    got := fun a k b u => if a = r ∧ k = s.pc r ∧ b = q ∧ u = t then some m else s.got a k b u }

/-- The implementation of MPI: may the send (sender, receiver, tag, operation) be completed, may the rank leave its collective operation?  It may if the message was
received, or all ranks have entered. (MPI standard 3.4 and 5.1; `Request::wait`, DistributeMesh.hpp 86, 103, `~Request`, MpiComm.hpp 137-172) -/
structure Env (n : Nat) where
  sendDone : St n → Fin n → Fin n → Nat → Nat → Prop
  collDone : St n → Fin n → Prop
  sendDone_of : ∀ s q r t k, (∃ k', s.got r k' q t = some k) → sendDone s q r t k
  collDone_of : ∀ s r, (∀ q, s.pc r < s.pc q ∨ (s.pc q = s.pc r ∧ s.sub q = 1)) → collDone s r

/-- One step of one rank, or the delivery of one message. (DistributeMesh.hpp 22-31, 55-68, 70-105; ImportExport.hpp 300-337) -/
inductive Step (prog : List (Op n)) (env : Env n) : St n → St n → Prop where
  /-- receives are posted -/
  | post {s r p M} : prog[s.pc r]? = some (.round p M) → s.sub r = 0 → Step prog env s (s.goto r 1)
  /-- sends are started -/
  | send {s r p M} : prog[s.pc r]? = some (.round p M) → s.sub r = 1 → Step prog env s ((s.push (.round p M) r).goto r 2)
  /-- a receive matches -/
  | deliver {s r p M q t m rest} : prog[s.pc r]? = some (.round p M) → (s.sub r = 2 ∨ (p = true ∧ s.sub r = 1)) → (q, r, t) ∈ M →
      s.got r (s.pc r) q t = none → s.chan q r t = m :: rest → Step prog env s (s.take q r t m rest)
  /-- all sends and receives are complete -/
  | finish {s r p M} : prog[s.pc r]? = some (.round p M) → s.sub r = 2 → (∀ q t, (q, r, t) ∈ M → s.got r (s.pc r) q t ≠ none) →
      (∀ b t, (r, b, t) ∈ M → env.sendDone s r b t (s.pc r)) → Step prog env s (s.next r)
  /-- `sendAsync` -/
  | isend {s r tag dst} : prog[s.pc r]? = some (.wild tag dst) → s.sub r = 0 → Step prog env s ((s.push (.wild tag dst) r).goto r 1)
  /-- `probe(MPI_ANY_SOURCE, tag)` finds `q`, `receive` takes its first message -/
  | recvAny {s r tag dst q m rest} : prog[s.pc r]? = some (.wild tag dst) → s.sub r = 1 → s.chan q r tag = m :: rest →
      Step prog env s ((s.take q r tag m rest).goto r 2)
  /-- `~Request` of the send -/
  | finishWild {s r tag dst} : prog[s.pc r]? = some (.wild tag dst) → s.sub r = 2 → env.sendDone s r (dst r) tag (s.pc r) → Step prog env s (s.next r)
  | enter {s r f} : prog[s.pc r]? = some (.coll f) → s.sub r = 0 → Step prog env s (s.goto r 1)
  | leave {s r f} : prog[s.pc r]? = some (.coll f) → s.sub r = 1 → env.collDone s r →
      (f = true → ∀ q, s.pc r < s.pc q ∨ (s.pc q = s.pc r ∧ s.sub q = 1)) → Step prog env s (s.next r)

/-- The states that can come up in some execution. (interleavings of the ranks running DistributeMesh.hpp 229-281 and ImportExport.hpp 250-337) -/
inductive Reach (prog : List (Op n)) (env : Env n) : St n → Prop where
  | init : Reach prog env (St.init n)
  | step {s s'} : Reach prog env s → Step prog env s s' → Reach prog env s'

end

/-! ## The operations of the library -/

section
variable {n : Nat}

/-- Messages along the given pairs with one tag. (the pattern of ImportExport.hpp 300-337 for one vector, SegmentedOwnership.hpp 53-110) -/
def along (nbrs : Finset (Fin n × Fin n)) (tag : Nat) : Finset (Fin n × Fin n × Nat) := nbrs.image fun p => (p.1, p.2, tag)

/-- Messages along the given pairs, one per vector, with tags `base + vec`. (ImportExport.hpp 300-337) -/
def alongVecs (nbrs : Finset (Fin n × Fin n)) (base nVecs : Nat) : Finset (Fin n × Fin n × Nat) :=
  (Finset.range nVecs).biUnion fun v => along nbrs (base + v)

/-- From every rank to its image. (`dest_rank`, `src_rank`, DistributeMesh.hpp 85, 102) -/
def graphOf (f : Fin n → Fin n) : Finset (Fin n × Fin n) := Finset.univ.image fun r => (r, f r)

/-- From the first rank to all others. (DistributeMesh.hpp 155-204) -/
def fromRoot : Finset (Fin n × Fin n) := Finset.univ.filter fun p => p.1.val = 0 ∧ p.2.val ≠ 0

/-- `gatherNodeThroughputs`. (GatherNodeThroughputs.hpp 11-33) -/
def throughputsOps : List (Op n) := [.coll false]

/-- `scatterParts`, 156-178: tag 0. -/
def scatterPartsOps : List (Op n) := [.round false (along fromRoot 0)]

/-- `scatterNodes`, 178-204: tag 1. -/
def scatterNodesOps : List (Op n) := throughputsOps ++ [.round false (along fromRoot 1)]

/-- The constructor of `ImportExportContext`, ImportExport.hpp 250-262: `getOwnershipDist` (allGather), `computeInNbrInfo` (allToAll, then shared indices to
their owners with tag 0). -/
def contextOps (nbrs : Finset (Fin n × Fin n)) : List (Op n) := [.coll true, .coll true, .round false (along nbrs 0)]

/-- `doBlockingImport`/`doBlockingExport`: one message per vector and pair, ImportExport.hpp 300-337. -/
def importOps (nbrs : Finset (Fin n × Fin n)) (base nVecs : Nat) : List (Op n) := [.round true (alongVecs nbrs base nVecs)]

/-- `computeInNbrs` and `computeInNbrData`, SparsityGraph.hpp 155-208. -/
def graphOps (nbrs : Finset (Fin n × Fin n)) : List (Op n) := [.coll true, .round false (along nbrs 0)]

/-- `invertPermutation`, 21-31. -/
def invertOps (ρ : Fin n → Fin n) : List (Op n) := [.wild 101 ρ]

/-- `computeOptimizedRank`, 34-52: allGather, `MPI_Dist_graph_create`. -/
def optimizedRankOps : List (Op n) := [.coll true, .coll false]

/-- `establishNewNodeIds`, 70-105: scan, exchange of the first ids (`dest` is where the old part goes, `src` where the new one comes from), import of the new ids of the
old nodes, exchange of the shared ones. -/
def establishOps (dest src : Fin n → Fin n) (nbrs : Finset (Fin n × Fin n)) (base : Nat) : List (Op n) :=
  [.coll false, .round true (along (graphOf src) 1)] ++ contextOps nbrs ++ importOps (nbrs.image Prod.swap) base 1 ++ [.round true (along (graphOf dest) 1)]

/-- `optimizeMeshDistribution`, 207-227, with the permutation `ρ` that the reordering gives; with the node map also `util::shift` with tag 2. -/
def optimizeOps (ρ : Equiv.Perm (Fin n)) (nbrs : Finset (Fin n × Fin n)) (base : Nat) (nodes : Bool) : List (Op n) :=
  optimizedRankOps ++ invertOps ρ ++ [.wild 0 ρ.symm] ++ establishOps ρ.symm ρ nbrs base ++ if nodes then [.round false (along (graphOf ρ.symm) 2)] else []

/-- What a program may do with the library, in any order. (DistributeMesh.hpp 229-281, ImportExport.hpp 250-262 and 300-337, SparsityGraph.hpp 155-208) -/
inductive Call (n : Nat) where
  /-- `distributeMesh`, 229-248; with `opt`: permutation, neighbours, tag of the import -/
  | distribute (opt : Option (Equiv.Perm (Fin n) × Finset (Fin n × Fin n) × Nat))
  /-- `distributeMeshAndNodeMap`, 250-281 -/
  | distributeNodes (opt : Option (Equiv.Perm (Fin n) × Finset (Fin n × Fin n) × Nat))
  | context (nbrs : Finset (Fin n × Fin n))
  | imports (nbrs : Finset (Fin n × Fin n)) (base nVecs : Nat)
  | graph (nbrs : Finset (Fin n × Fin n))

/-- The operations of a call, in the order of DistributeMesh.hpp 229-248 and 250-281, ImportExport.hpp 250-262 and 300-337, SparsityGraph.hpp 155-208. -/
def Call.ops : Call n → List (Op n)
  | .distribute opt => throughputsOps ++ scatterPartsOps ++ opt.elim [] fun o => optimizeOps o.1 o.2.1 o.2.2 false
  | .distributeNodes opt => throughputsOps ++ scatterNodesOps ++ scatterPartsOps ++ opt.elim [] fun o => optimizeOps o.1 o.2.1 o.2.2 true
  | .context nbrs => contextOps nbrs
  | .imports nbrs base nVecs => importOps nbrs base nVecs
  | .graph nbrs => graphOps nbrs

/-- The program: its calls one after another. (user code; no line of /repo has it) -/
def program (calls : List (Call n)) : List (Op n) := calls.flatMap Call.ops

end

end Verif.Rounds
