import Verif.Common.Std
import Mathlib.Logic.Function.Basic

/-!
# Model of the construction of the sparsity graph

Source: `/repo/include/l3ster/algsys/SparsityGraph.hpp`.

Global dofs are natural numbers.  An element is the list of its dofs as returned by `getDofsCopy` (sorted, without repetition and
without invalid dofs).  The counters are unbounded (`uint32_t` in the code).  The rows of the `CrsGraph` are separate arrays (C10).
-/
namespace Verif.Sparsity

/-- The work done for one dof of one element: local row and the element's dofs. (SparsityGraph.hpp 59-67) -/
structure Task where
  row : Nat
  dofs : List Nat
deriving DecidableEq, Repr

/-- All (element, dof) pairs, 37-46 and 53-66; `g2l` is `ownership.getLocalIndex`. -/
def tasks (g2l : Nat → Nat) (elems : List (List Nat)) : List Task := elems.flatMap fun el => el.map fun d => ⟨g2l d, el⟩

/-- First pass (37-50): `fetch_add` of the element size for every pair, in the given order. -/
def countRows (order : List Task) : Nat → Nat := order.foldl (fun s t => Function.update s t.row (s t.row + t.dofs.length)) fun _ => 0

/-- State of the second pass (51-68): remaining counters, the slot reserved by every task, contents of the rows (`none`:
uninitialised). -/
structure Fill where
  rem : Nat → Nat
  pos : Nat → Option Nat
  mem : Nat → Nat → Option Nat

/-- State at the start of the parallel loop (SparsityGraph.hpp 51, 71). -/
def Fill.init (size : Nat → Nat) : Fill := ⟨size, fun _ => none, fun _ _ => none⟩

/-- Steps of the worker threads: task `i` reserves its slot (`fetch_sub`, 62), task `i` copies its `k`-th entry (66). -/
inductive Ev where
  | reserve (i : Nat)
  | write (i k : Nat)
deriving DecidableEq, Repr

/-- One step; `none`: not possible, or undefined (counter below zero, slot outside of the row). (SparsityGraph.hpp 62-66) -/
def fstep (ts : List Task) (size : Nat → Nat) (s : Fill) : Ev → Option Fill
  | .reserve i =>
    match ts[i]? with
    | none => none
    | some t =>
      if s.pos i = none ∧ t.dofs.length ≤ s.rem t.row then
        some { s with rem := Function.update s.rem t.row (s.rem t.row - t.dofs.length),
                      pos := Function.update s.pos i (some (size t.row - s.rem t.row)) }
      else none
  | .write i k =>
    match ts[i]?, s.pos i with
    | some t, some p =>
      match t.dofs[k]? with
      | some v => if p + k < size t.row then some { s with mem := Function.update s.mem t.row (Function.update (s.mem t.row) (p + k) (some v)) } else none
      | none => none
    | _, _ => none

/-- An execution of the parallel loop (SparsityGraph.hpp 69-71). -/
def frun (ts : List Task) (size : Nat → Nat) (s : Fill) (es : List Ev) : Option Fill := es.foldlM (fstep ts size) s

/-- All tasks have reserved and copied everything (end of the parallel loop). (SparsityGraph.hpp 71-72) -/
def Complete (ts : List Task) (es : List Ev) : Prop := ∀ i t, ts[i]? = some t → .reserve i ∈ es ∧ ∀ k < t.dofs.length, .write i k ∈ es

/-- The row as an array; `none` if it contains an uninitialised entry. (SparsityGraph.hpp 74-75) -/
def readRow (size : Nat → Nat) (s : Fill) (r : Nat) : Option (List Nat) := (List.range (size r)).mapM (s.mem r)

/-- `sort_row_remove_dup`, 70-76. -/
def finishRow (row : List Nat) : List Nat := Std.sortUniq row

/-! ### Exchange of shared rows -/

/-- `serializeSharedGraph`, 83-105. -/
def serialize (rows : List Nat) (ent : Nat → List Nat) : List Nat :=
  (rows.length :: rows.map fun r => (ent r).length) ++ (rows ++ rows.flatMap ent)

/-- `std::exclusive_scan` with initial value. (SparsityGraph.hpp 119) -/
def exclScan : Nat → List Nat → List Nat
  | _, [] => []
  | a, n :: ns => a :: exclScan (a + n) ns

/-- `std::ranges::set_difference` of two ascending ranges. (SparsityGraph.hpp 136) -/
def setDiff : List Nat → List Nat → List Nat
  | [], _ => []
  | a :: as, [] => a :: as
  | a :: as, b :: bs => if a < b then a :: setDiff as (b :: bs) else if b < a then setDiff (a :: as) bs else setDiff as bs
termination_by as bs => as.length + bs.length

/-- Parsing in `appendSharedFromSerial`, 112-122, with its assertions. -/
def parse : List Nat → Option (List (Nat × List Nat))
  | [] => none
  | n :: rest =>
    if 2 * n ≤ rest.length ∧
        (List.zipWith (· + ·) (exclScan (2 * n + 1) (rest.take n)) (rest.take n)).all (fun b => decide (b ≤ rest.length + 1)) ∧
        ((rest.drop n).take n).Nodup then
      some (((rest.drop n).take n).zip
        ((List.zip (exclScan (2 * n + 1) (rest.take n)) (rest.take n)).map fun q => ((n :: rest).drop q.1).take q.2))
    else none

/-- The map from rows to entries inserted by neighbours; absent rows are empty. (SparsityGraph.hpp 16, 125, 134) -/
abbrev Extra := Nat → List Nat

/-- `insert_row`, 129-139. -/
def insertRow (loc : Nat → List Nat) (cur : Extra) (q : Nat × List Nat) : Extra :=
  Function.update cur q.1
    (if (cur q.1).length ≠ 0 then Std.sortUniq (cur q.1 ++ setDiff q.2 (loc q.1)) else cur q.1 ++ setDiff q.2 (loc q.1))

/-- `appendSharedFromSerial`, 107-141. -/
def append (loc : Nat → List Nat) (cur : Extra) (serial : List Nat) : Option Extra :=
  (parse serial).map fun qs => qs.foldl (insertRow loc) cur

/-- The distributed setting: elements of every rank, owner of every dof, shared dofs of every rank. (SparsityGraph.hpp 144-153, 173-178) -/
structure World where
  nr : Nat
  elems : Nat → List (List Nat)
  owner : Nat → Nat
  shared : Nat → List Nat

/-- `computeOwnerToSharedMap`, 144-153: rows rank `r` sends to `dest`. -/
def World.rowsFor (w : World) (r dest : Nat) : List Nat := (w.shared r).filter fun d => w.owner d == dest

/-- `computeInNbrs`, 156-170. -/
def World.inNbrs (w : World) (me : Nat) : List Nat := (List.range w.nr).filter fun r => !(w.rowsFor r me).isEmpty

/-- `computeInNbrData`, 172-212, receiving in the order `order`; `rows r d` is the row of dof `d` in the local graph of rank `r`. -/
def World.receive (w : World) (rows : Nat → Nat → List Nat) (me : Nat) (order : List Nat) : Option Extra :=
  order.foldlM (fun cur r => append (rows me) cur (serialize (w.rowsFor r me) (rows r))) fun _ => []

end Verif.Sparsity
