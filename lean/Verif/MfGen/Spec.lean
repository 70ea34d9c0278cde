import Verif.MfGen.Model

/-! # Nodes inside elements -/
namespace Verif.MfGen
open Verif Verif.Elem Verif.Mesh Verif.Partition Verif.Pipeline

/-- The nodes inside each element of a domain which is not a boundary have consecutive ids and belong to no other element. -/
structure Inner (m : DomMap) (bnds : List Nat) : Prop where
  consec : ∀ k e, k ∉ bnds → InDom m k e → ∃ M, ∀ j (hj : j < (internalInds e.ty e.n).length), e.nodes.getD (internalInds e.ty e.n)[j] 0 = M + j
  alone : ∀ k e, k ∉ bnds → InDom m k e → ∀ e', Holds m e' → e'.id ≠ e.id → ∀ x ∈ internalNodes e, x ∉ e'.nodes

end Verif.MfGen
