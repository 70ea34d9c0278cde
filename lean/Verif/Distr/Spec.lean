import Verif.Lsq.Props

/-!
# C112: the discrete problem before it is distributed

An element lists *what* its unknowns are (`keys`, such as a node of the original mesh and a component), not the numbers some rank
gave them.  Nothing here mentions ranks, partitions, local or global numbers.
-/
namespace Verif.Distr
open MatFree MfInit Lsq Finset

noncomputable section

/-- An (element, kernel) pair: the unknown at each local position, sizes and the data of the quadrature points. -/
structure KElem (κ : Type) where
  keys : List κ
  dims : Batch.Dims
  pts : List Batch.Upd

/-- The problem: elements, unknowns in use, which of them are identified (periodic nodes), which are prescribed and to what. -/
structure Problem (κ : Type) where
  elems : List (KElem κ)
  used : κ → Prop
  same : κ → κ → Prop
  dir : κ → Prop
  val : κ → Nat → ℝ

variable {κ : Type}

/-- Local coefficients of a field at an element. -/
def fieldAt (f : κ → ℝ) (e : KElem κ) (i : Nat) : ℝ := (e.keys[i]?).elim 0 f

/-- The quadrature of the squared residuals over all elements. -/
def Problem.J (P : Problem κ) (c : Nat) (f : κ → ℝ) : ℝ :=
  (P.elems.map fun e => (e.pts.map fun U => U.w * ∑ q ∈ range e.dims.us, Lsq.residual e.dims U (fieldAt f e) c q ^ 2).sum).sum

/-- A field with equal values at identified unknowns and the prescribed values at the prescribed ones. -/
def Problem.Admissible (P : Problem κ) (c : Nat) (f : κ → ℝ) : Prop :=
  (∀ k k', P.used k → P.used k' → P.same k k' → f k = f k') ∧ ∀ k, P.used k → P.dir k → f k = P.val k c

/-- The least-squares solutions. -/
def Problem.Minimises (P : Problem κ) (c : Nat) (f : κ → ℝ) : Prop :=
  P.Admissible c f ∧ ∀ h, P.Admissible c h → P.J c f ≤ P.J c h

/-- Elements have one unknown per local position, all in use, and no negative weight. -/
structure Problem.Ok (P : Problem κ) : Prop where
  sized : ∀ e ∈ P.elems, e.keys.length = e.dims.size
  used : ∀ e ∈ P.elems, ∀ k ∈ e.keys, P.used k
  weights : ∀ e ∈ P.elems, ∀ U ∈ e.pts, 0 ≤ U.w

/-- Element `a` of a rank is element `e` with numbers in place of keys. -/
structure Numbered (num : κ → Nat) (l2g : List Nat) (e : KElem κ) (a : LElem) : Prop where
  dofs : a.dofs.map (fun d => l2g.getD d 0) = e.keys.map num
  dims : a.dims = e.dims
  pts : a.pts = e.pts

/-- A distributed system (ranks, numbering `num`, constrained numbers `D` with values `v`) is one of the problem: every element is on
exactly one rank, unknowns have the same number exactly if they are identified, numbers fill `[0, N)`. -/
structure Represents (P : Problem κ) (N nr : Nat) (D : Nat → Prop) (ranks : Nat → LRank) (v : Nat → Nat → ℝ) (num : κ → Nat) : Prop where
  ok : MatFree.Ok N nr D fun q => (ranks q).toI.toRank
  parts : ∃ part : Nat → List (KElem κ), ((List.range nr).flatMap part).Perm P.elems ∧
    ∀ q < nr, List.Forall₂ (Numbered num (ranks q).l2g) (part q) (ranks q).elems
  inj : ∀ k k', P.used k → P.used k' → (num k = num k' ↔ P.same k k')
  lt : ∀ k, P.used k → num k < N
  surj : ∀ g < N, ∃ k, P.used k ∧ num k = g
  con : ∀ g < N, D g ↔ ∃ k, P.used k ∧ P.dir k ∧ num k = g
  val : ∀ k, P.used k → P.dir k → ∀ c, v (num k) c = P.val k c

end

end Verif.Distr
