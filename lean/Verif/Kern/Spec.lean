import Verif.Kern.Model

/-!
# C106: what a kernel may rely on
-/
namespace Verif.Kern
variable {K : Type} [Field K]

/-- Every scalar the kernel reads was assigned before, starting from those in `known`. -/
def ReadsKnown (known : List Comp) : List (Stmt K) → Prop
  | [] => True
  | s :: l => (∀ c ∈ s.reads, c ∈ known) ∧ ReadsKnown (s.dst :: known) l

/-- The kernel writes all of `cs`, and reads only what it has written. -/
def Definite (cs : List Comp) (l : List (Stmt K)) : Prop := ReadsKnown [] l ∧ ∀ c ∈ cs, ∃ s ∈ l, s.dst = c

/-- A kernel made of `+=` only: the contributions. -/
def additive (l : List (Comp × K)) : List (Stmt K) := l.map fun x => addTo x.1 x.2

/-- Total contribution to a scalar. -/
def contribution (l : List (Comp × K)) (c : Comp) : K := ((l.filter fun x => decide (x.1 = c)).map (·.2)).sum

/-- The full property of residual kernels: as for equation kernels, the object given to the kernel is zero. -/
def C106Statement (K : Type) [Field K] : Prop :=
  ∀ (I : Type) (p : Params) (kernel : I → List (Stmt K)) (input : I), (∀ s ∈ kernel input, p.Has s.dst ∧ ∃ r c, s.dst = .rhs r c) →
    (∀ s ∈ kernel input, ∀ x ∈ s.reads, x ∈ p.rhsComps) →
    ∃ vs, (residual kernel input).bind (readAll p.rhsComps) = some vs ∧ (invoke (kernel input) (initResidualKernelResult p)).bind (readAll p.rhsComps) = some vs

end Verif.Kern
