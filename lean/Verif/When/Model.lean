import Mathlib.Algebra.Group.Defs
import Mathlib.Algebra.Group.Prod
import Mathlib.Algebra.BigOperators.Group.List.Basic

/-!
# Model of when kernels read fields

Sources: `/repo/include/l3ster/post/FieldAccess.hpp` lines 10-54 (a `FieldAccess` is a pointer to the values of a solution manager, read when used),
`/repo/include/l3ster/algsys/AssembledSystem.hpp` lines 242-285, 289-310, 360-437, `/repo/include/l3ster/algsys/MatrixFreeSystem.hpp` lines 243, 261-296, 552-581,
585-711, 715-803, 866-941, 1185-1227.

`Φ` stands for what the fields hold, `M` and `R` for contents of the global matrix and right-hand side, `W` for prescribed values.  What elements add is modelled in
Batch, Lsq, MfInit and MatFree (C93, C94): here a kernel is a function from fields to what it adds altogether, and `op`, `rhs` impose the conditions (C43, C94).
-/
namespace Verif.When

/-- A kernel with its domains: with fields or without (`FieldAccess< 0 >`, FieldAccess.hpp 56-85). -/
inductive Kernel (Φ C : Type) where
  | plain (c : C)
  | reading (c : Φ → C)

/-- What a kernel gives, `none` if it reads the values of a destroyed solution manager. (FieldAccess.hpp 20-30) -/
def Kernel.eval {Φ C : Type} : Kernel Φ C → Option Φ → Option C
  | .plain c, _ => some c
  | .reading c, φ => φ.map c

/-- Things a program does: fields change (`none`: the manager is destroyed), values are prescribed, and the calls of assembly. (SolutionManager.hpp; AssembledSystem.hpp 31-52) -/
inductive Op (Φ M R W : Type) where
  | fields (φ : Option Φ)
  | dirichlet (k : Kernel Φ (W → W))
  | begin
  | assemble (k : Kernel Φ (M × R))
  | end_

/-- How conditions are imposed: on the operator, and on the right-hand side. (AssembledSystem.hpp 440-453; MatrixFreeSystem.hpp 450-483, 911-940) -/
structure Bc (M R W : Type) where
  op : M → M
  rhs : M → R → W → R

/-- What a user gets from a system: nothing while it is open, else operator and right-hand side; undefined behaviour if memory of a destroyed manager is read. (AssembledSystem.hpp 289-302, MatrixFreeSystem.hpp 943-956) -/
inductive Seen (M R : Type) where
  | none
  | ub
  | ok (op : M) (rhs : R)

variable {Φ M R W : Type} [AddCommMonoid M] [AddCommMonoid R]

/-- An assembled system and the fields. (members of AssembledSystem.hpp 99-109) -/
structure Asm (Φ M R W : Type) where
  fields : Option Φ
  isOpen : Bool
  mat : M
  rhs : R
  dir : W

/-- Something happens to the assembled system; `none` is undefined behaviour.  Calls which throw change nothing. (AssembledSystem.hpp 242-285, 360-437) -/
def Asm.step (bc : Bc M R W) (s : Asm Φ M R W) : Op Φ M R W → Option (Asm Φ M R W)
  | .fields φ => some { s with fields := φ }
  | .dirichlet k => (k.eval s.fields).map fun g => { s with dir := g s.dir }
  | .begin => some (if s.isOpen then s else { s with isOpen := true, mat := 0, rhs := 0 })
  | .assemble k => if s.isOpen then (k.eval s.fields).map fun c => { s with mat := s.mat + c.1, rhs := s.rhs + c.2 } else some s
  | .end_ => some (if s.isOpen then { s with isOpen := false, mat := bc.op s.mat, rhs := bc.rhs s.mat s.rhs s.dir } else s)

/-- What is seen of it. (`getMatrix`, `getRhs`, AssembledSystem.hpp 289-302) -/
def Asm.seen (s : Asm Φ M R W) : Seen M R := if s.isOpen then .none else .ok s.mat s.rhs

/-- A matrix-free system and the fields: kernels for the right-hand side and for the operator are kept, with their `FieldAccess`. (MatrixFreeSystem.hpp 225-250, 600, 651) -/
structure Mf (Φ M R W : Type) where
  fields : Option Φ
  isOpen : Bool
  init : List (Kernel Φ (M × R))
  eval : List (Kernel Φ (M × R))
  rhs : R
  dir : W

/-- All kernels applied to the fields. (MatrixFreeSystem.hpp 887-910, 1019-1060) -/
def total : List (Kernel Φ (M × R)) → Option Φ → Option (M × R)
  | [], _ => some 0
  | k :: ks, φ => (k.eval φ).bind fun c => (total ks φ).map fun d => c + d

/-- Something happens to the matrix-free system. (MatrixFreeSystem.hpp 791-803, 866-941, 1185-1227) -/
def Mf.step (bc : Bc M R W) (s : Mf Φ M R W) : Op Φ M R W → Option (Mf Φ M R W)
  | .fields φ => some { s with fields := φ }
  | .dirichlet k => (k.eval s.fields).map fun g => { s with dir := g s.dir }
  | .begin => some (if s.isOpen then s else { s with isOpen := true, init := [], eval := [] })
  | .assemble k => some { s with init := s.init ++ [k], eval := s.eval ++ [k] }
  | .end_ => if s.isOpen then (total s.init s.fields).map fun c => { s with isOpen := false, rhs := bc.rhs c.1 c.2 s.dir } else some s

/-- What is seen of it: the operator reads the fields whenever it is applied. (MatrixFreeSystem.hpp 654-711, 943-956) -/
def Mf.seen (bc : Bc M R W) (s : Mf Φ M R W) : Seen M R := if s.isOpen then .none else match total s.eval s.fields with
  | none => .ub
  | some c => .ok (bc.op c.1) s.rhs

/-- New systems. (AssembledSystem.hpp 316-357, MatrixFreeSystem.hpp 983-1018) -/
def Asm.new (φ : Option Φ) (w : W) : Asm Φ M R W := ⟨φ, true, 0, 0, w⟩
/-- (MatrixFreeSystem.hpp 983-1018) -/
def Mf.new (φ : Option Φ) (w : W) : Mf Φ M R W := ⟨φ, true, [], [], 0, w⟩

/-- A program, and what is seen at its end. (the user's program; AssembledSystem.hpp 31-52) -/
def Asm.run (bc : Bc M R W) (s : Asm Φ M R W) (h : List (Op Φ M R W)) : Option (Asm Φ M R W) := h.foldlM (fun s o => s.step bc o) s
/-- (MatrixFreeSystem.hpp 70-110) -/
def Mf.run (bc : Bc M R W) (s : Mf Φ M R W) (h : List (Op Φ M R W)) : Option (Mf Φ M R W) := h.foldlM (fun s o => s.step bc o) s

end Verif.When
