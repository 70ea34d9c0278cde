import Mathlib.Algebra.Field.Defs
import Mathlib.Algebra.BigOperators.Group.List.Basic

/-!
# Model of `computeValuesAtNodes`

Source: `/repo/include/l3ster/algsys/ComputeValuesAtNodes.hpp` and `averageNodeVals` of
`/repo/include/l3ster/algsys/AssembledSystem.hpp`.

A rank numbers its dofs (or nodes) locally: owned ones first, then ghosts.  An *entry* is what a visitor does for one dof of one
element: the dof and the value of each right-hand side.  Visitors run in parallel and update with atomics, so the entries of a
mesh pass are performed in an arbitrary order; here a pass is a list of entries in the order in which they were performed.
`Export` adds the ghost values sent by each rank to the owner's entries (proved for the code in `ImpExp`, C47) and `Import`
copies the owner's entries to the ghosts (C46), so they are used here in that form.  `double` is replaced by a field; element
counts are kept in `std::uint16_t` (or, for the assembled system, in `double`, where they are exact).
-/
namespace Verif.NodeVals

variable {K : Type}

/-- What is done for one dof of one element: local dof, value for each right-hand side. (ComputeValuesAtNodes.hpp 273-285) -/
abbrev Entry (K : Type) := Nat × (Nat → K)

/-- A rank: number of owned dofs; for each ghost dof its owner and its local index there; entries of the border elements and of
the interior elements in the order of execution. (ComputeValuesAtNodes.hpp 268-311) -/
structure Rank (K : Type) where
  nOwned : Nat
  shared : List (Nat × Nat)
  border : List (Entry K)
  interior : List (Entry K)

/-- All entries. (ComputeValuesAtNodes.hpp 306-311) -/
def Rank.entries (r : Rank K) : List (Entry K) := r.border ++ r.interior

/-- Values (owned view and ghost view together, as seen through `BorderAccessor`, lines 21-50) and counts. -/
structure St (K : Type) where
  vals : Nat → Nat → K
  cnt : Nat → Nat

/-- `val` stored at position `d`. (ComputeValuesAtNodes.hpp 280-282) -/
def put {α : Type} (f : Nat → α) (d : Nat) (x : α) : Nat → α := fun i => if i = d then x else f i

/-- `init`, lines 399-411 (domain) and 536-551 (boundary): zero the values, increment the `uint16_t` count. -/
def initStep [Zero K] (s : St K) (e : Entry K) : St K := ⟨put s.vals e.1 fun _ => 0, put s.cnt e.1 ((s.cnt e.1 + 1) % 65536)⟩

/-- `visitor`, lines 412-435 (domain) and 552-580 (boundary): add the kernel's values. -/
def addStep [Add K] (s : St K) (e : Entry K) : St K := ⟨put s.vals e.1 fun c => s.vals e.1 c + e.2 c, s.cnt⟩

/-- `set_node_dofs`, lines 275-287: store the constant, store count 1. -/
def storeStep (s : St K) (e : Entry K) : St K := ⟨put s.vals e.1 e.2, put s.cnt e.1 1⟩

/-- A rank of the world. (auxiliary: lookup in the list of ranks taking part in ComputeValuesAtNodes.hpp 113-154) -/
def rank (w : List (Rank K)) (r : Nat) : Rank K := (w[r]?).getD ⟨0, [], [], []⟩

/-- Ghost slots of rank `r` which stand for dof `i` of rank `o`. (what `Export` does in ComputeValuesAtNodes.hpp 143, 148, 188-189) -/
def slots (w : List (Rank K)) (r o i : Nat) : List Nat :=
  (List.range (rank w r).shared.length).filter fun j => decide ((rank w r).shared[j]? = some (o, i))

/-- Sum of what the messages `msg r j` (rank `r`, ghost slot `j`) bring to dof `i` of rank `o`. (what `Export` does in ComputeValuesAtNodes.hpp 143, 148, 188-189) -/
def arrive {α : Type} [Add α] [Zero α] (w : List (Rank K)) (msg : Nat → Nat → α) (o i : Nat) : α :=
  ((List.range w.length).map fun r => ((slots w r o i).map (msg r)).sum).sum

/-- State at entry of `averageElementContributions` for the constant overload: `old` values of the owned dofs, ghost values zero
(a new view, line 272), counts zero (271). -/
def start [Zero K] (r : Rank K) (old : Nat → Nat → K) : St K :=
  ⟨fun d c => if d < r.nOwned then old d c else 0, fun _ => 0⟩

/-- The same for the kernel overloads: both `init` passes have run (443-444, 588-589), in the order `ord`. -/
def startKernel [Zero K] (r : Rank K) (old : Nat → Nat → K) (ord : List (Entry K)) : St K := ord.foldl initStep (start r old)

section
variable [Field K]

/-- State of rank `r` when `k` entries of `do_border` followed by `do_interior` have been performed. (ComputeValuesAtNodes.hpp 135-137) -/
def after (w : List (Rank K)) (step : St K → Entry K → St K) (s : Nat → St K) (r k : Nat) : St K :=
  (((rank w r).entries.take k).foldl step (s r))

/-- Count in the message for ghost slot `j` of rank `r`: `contrib_export.postSends` (132) hands the live array to MPI, which reads
it at an unspecified time before the send completes; `tc r j` is the number of entries performed by then. -/
def countMsg (w : List (Rank K)) (step : St K → Entry K → St K) (s : Nat → St K) (tc : Nat → Nat → Nat) (r j : Nat) : Nat :=
  (after w step s r (tc r j)).cnt ((rank w r).nOwned + j)

/-- Values in the message for ghost slot `j`: `exporter.postSends` (136) comes after `do_border`. -/
def valMsg (w : List (Rank K)) (step : St K → Entry K → St K) (s : Nat → St K) (tv : Nat → Nat → Nat) (c : Nat) (r j : Nat) : K :=
  (after w step s r ((rank w r).border.length + tv r j)).vals ((rank w r).nOwned + j) c

/-- State when both passes are done. (ComputeValuesAtNodes.hpp 135-137) -/
def done (w : List (Rank K)) (step : St K → Entry K → St K) (s : Nat → St K) (r : Nat) : St K :=
  after w step s r (rank w r).entries.length

/-- Count after `contrib_export.wait` (143), `uint16_t`. -/
def total (w : List (Rank K)) (step : St K → Entry K → St K) (s : Nat → St K) (tc : Nat → Nat → Nat) (o i : Nat) : Nat :=
  ((done w step s o).cnt i + arrive w (countMsg w step s tc) o i) % 65536

/-- Last loop of `averageElementContributions`, 150-153. -/
def divideBy (nc : Nat) (x : K) : K := if nc ≠ 0 then x / (nc : K) else x

/-- `averageElementContributions`, lines 112-154: value of owned dof `i` of rank `o`, right-hand side `c`, on return. -/
def average (w : List (Rank K)) (step : St K → Entry K → St K) (s : Nat → St K) (tc tv : Nat → Nat → Nat) (o i c : Nat) : K :=
  divideBy (total w step s tc o i)
    ((if 0 < total w step s tc o i ∧ ¬ 0 < (done w step s o).cnt i then 0 else (done w step s o).vals i c) +
      arrive w (valMsg w step s tv c) o i)

/-- The kernel overloads of the matrix-free system, 371-447 and 508-592; `ord r`: order of the `init` passes of rank `r`. -/
def kernelValues (w : List (Rank K)) (old : Nat → Nat → Nat → K) (ord : Nat → List (Entry K)) (tc tv : Nat → Nat → Nat) (o i c : Nat) : K :=
  average w addStep (fun r => startKernel (rank w r) (old r) (ord r)) tc tv o i c

/-- The overload for constants of the matrix-free system, 243-314. -/
def constValues (w : List (Rank K)) (old : Nat → Nat → Nat → K) (tc tv : Nat → Nat → Nat) (o i c : Nat) : K :=
  average w storeStep (fun r => start (rank w r) (old r)) tc tv o i c

/-! ### Assembled system -/

/-- `zeroOut`, 92-110. -/
def zeroStep (s : St K) (e : Entry K) : St K := ⟨put s.vals e.1 fun _ => 0, s.cnt⟩
/-- Loop body of the kernel overloads for the assembled system, 354-363 and 489-498 (count in `double`). -/
def addCountStep (s : St K) (e : Entry K) : St K := ⟨put s.vals e.1 fun c => s.vals e.1 c + e.2 c, put s.cnt e.1 (s.cnt e.1 + 1)⟩

/-- Count after `num_contribs.endAssembly()`, line 182. -/
def totalAssembled (w : List (Rank K)) (s : Nat → St K) (o i : Nat) : Nat :=
  (s o).cnt i + arrive w (fun r j => (s r).cnt ((rank w r).nOwned + j)) o i

/-- `averageNodeVals`, AssembledSystem.hpp 158-204, with `s r` the state of rank `r` after `compute`: `endAssembly` of the
Tpetra multivectors adds the ghost entries to their owners.  Value of owned dof `i`.  (`> .5` and `> 1.5` are `> 0` and `> 1`.) -/
def averageAssembled (w : List (Rank K)) (s : Nat → St K) (o i c : Nat) : K :=
  (fun x : K => if 1 < totalAssembled w s o i then x / (totalAssembled w s o i : K) else x)
    ((if ¬ 0 < (s o).cnt i ∧ 0 < totalAssembled w s o i then 0 else (s o).vals i c) +
      arrive w (fun r j => (s r).vals ((rank w r).nOwned + j) c) o i)

/-- `setValues`, `setDirichletBCValues` with a kernel (AssembledSystem.hpp 209-228, 242-263): `ord r` is the order of `zeroOut`. -/
def assembledKernel (w : List (Rank K)) (old : Nat → Nat → Nat → K) (ord : Nat → List (Entry K)) (o i c : Nat) : K :=
  averageAssembled w (fun r => (rank w r).entries.foldl addCountStep ((ord r).foldl zeroStep (start (rank w r) (old r)))) o i c

/-- `setDirichletBCValues` with constants (265-287), loop body 224-238 of ComputeValuesAtNodes.hpp. -/
def assembledConst (w : List (Rank K)) (old : Nat → Nat → Nat → K) (o i c : Nat) : K :=
  averageAssembled w (fun r => (rank w r).entries.foldl storeStep (start (rank w r) (old r))) o i c

/-! ### Values stored in node-indexed views -/

/-- Counting pass and value pass of 647-650 and 712-715 (`new_vals` and counts start at zero); `ord r` is the order of the counting pass. -/
def fieldState (w : List (Rank K)) (ord : Nat → List (Entry K)) (r : Nat) : St K :=
  ⟨((rank w r).entries.foldl addStep ⟨fun _ _ => 0, fun _ => 0⟩).vals, ((ord r).foldl initStep ⟨fun _ _ => 0, fun _ => 0⟩).cnt⟩

/-- `exchangeElementContributions`, 156-194: the sums at the owner, copied to the ghosts.  Counts of node `i` of rank `r`. -/
def exchCount (w : List (Rank K)) (ord : Nat → List (Entry K)) (r i : Nat) : Nat :=
  match (if i < (rank w r).nOwned then some (r, i) else (rank w r).shared[i - (rank w r).nOwned]?) with
  | some (o, l) => ((fieldState w ord o).cnt l + arrive w (fun r j => (fieldState w ord r).cnt ((rank w r).nOwned + j)) o l) % 65536
  | none => (fieldState w ord r).cnt i
/-- Values of node `i` of rank `r`, column `c`, after the exchange. (ComputeValuesAtNodes.hpp 183-193) -/
def exchVal (w : List (Rank K)) (ord : Nat → List (Entry K)) (r i c : Nat) : K :=
  match (if i < (rank w r).nOwned then some (r, i) else (rank w r).shared[i - (rank w r).nOwned]?) with
  | some (o, l) => (fieldState w ord o).vals l c + arrive w (fun r j => (fieldState w ord r).vals ((rank w r).nOwned + j) c) o l
  | none => (fieldState w ord r).vals i c

/-- `updateNodeVals`, 196-208: row `i` of the destination view. -/
def updateRow (nc : Nat) (new : Nat → K) (inds : List Nat) (row : Nat → K) : Nat → K :=
  if nc ≠ 0 then (inds.zipIdx).foldl (fun row q => put row q.1 (new q.2 / (nc : K))) row else row

/-- The overloads writing to a node view, 595-654 and 656-719: row of local node `i` of rank `r`. -/
def fieldValues (w : List (Rank K)) (ord : Nat → List (Entry K)) (inds : List Nat) (old : Nat → Nat → Nat → K) (r i : Nat) : Nat → K :=
  updateRow (exchCount w ord r i) (exchVal w ord r i) inds (old r i)

end
end Verif.NodeVals
