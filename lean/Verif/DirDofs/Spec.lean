import Verif.DirDofs.Model

/-!
# C105: which degrees of freedom are constrained

Nothing here refers to the functions of the model that search for the dofs.
-/
namespace Verif.DirDofs

/-- Some accepted call of `defineDirichlet` names boundary `d` and component `i`. -/
def Named (nd : Nat) (calls : List Call) (d i : Nat) : Prop :=
  ∃ doms inds, Call.dirichlet doms inds ∈ calls ∧ (∀ j ∈ inds, j < nd) ∧ d ∈ doms ∧ i ∈ inds

/-- Component `i` of node `n` on rank `r` of the assembled system. -/
def Rank.dofAt (r : Rank) (n i : Nat) : Option Nat := (r.map n).bind fun a => a.getD i none

/-- Rank `r` has an element of a named domain with node `n`, and component `i` is named for it. -/
def Asked (nd : Nat) (calls : List Call) (r : Rank) (n i : Nat) : Prop := ∃ e ∈ r.elems, n ∈ e.2 ∧ Named nd calls e.1 i

/-- The dof is asked for on some rank, or pinned for normalisation. -/
def Constrained (nd : Nat) (calls : List Call) (rs : List Rank) (g : Nat) : Prop :=
  ∃ r ∈ rs, (∃ n i, Asked nd calls r n i ∧ r.dofAt n i = some g) ∨ g ∈ r.norm

/-- The same for the matrix-free system, where boundaries are sides of elements. -/
def MfAsked (nd : Nat) (calls : List Call) (r : MfRank) (n i : Nat) : Prop := ∃ e ∈ r.elems, ∃ s ∈ e.sides, n ∈ s.1 ∧ Named nd calls s.2 i

def MfConstrained (nd : Nat) (calls : List Call) (rs : List MfRank) (g : Nat) : Prop :=
  ∃ r ∈ rs, ∃ l, r.l2g[l]? = some g ∧ ((∃ n i, MfAsked nd calls r n i ∧ (r.loc n).getD i none = some l) ∨ l ∈ r.norm)

/-- Dof maps of the assembled system: what is pinned is in the column map, and every dof of a column map is owned by some rank. -/
structure GoodRanks (rs : List Rank) : Prop where
  norm : ∀ r ∈ rs, ∀ g ∈ r.norm, g ∈ r.cols
  owned : ∀ r ∈ rs, ∀ g ∈ r.cols, ∃ q ∈ rs, g ∈ q.owned
  nodup : ∀ r ∈ rs, r.owned.Nodup ∧ r.cols.Nodup
  /-- The dofs of a node are in the column map. -/
  cols : ∀ r ∈ rs, ∀ n i g, r.dofAt n i = some g → g ∈ r.cols

/-- Dof maps of the matrix-free system. -/
structure GoodMf (rs : List MfRank) : Prop where
  sides : ∀ r ∈ rs, ∀ e ∈ r.elems, ∀ s ∈ e.sides, ∀ n ∈ s.1, n ∈ e.nodes
  le : ∀ r ∈ rs, r.nOwned ≤ r.l2g.length
  norm : ∀ r ∈ rs, ∀ l ∈ r.norm, l < r.l2g.length
  loc : ∀ r ∈ rs, ∀ n i l, (r.loc n).getD i none = some l → l < r.l2g.length
  /-- Every dof has an owner. -/
  owner : ∀ r ∈ rs, ∀ g ∈ r.l2g, ∃ q ∈ rs, ∃ j < q.nOwned, q.l2g[j]? = some g
  /-- And only one. -/
  unique : ∀ q ∈ rs, ∀ q' ∈ rs, ∀ j < q.nOwned, ∀ j' < q'.nOwned, ∀ g, q.l2g[j]? = some g → q'.l2g[j']? = some g → q = q' ∧ j = j'

/-- What the assembled system should find: on every rank the constrained dofs among the owned ones and among the columns. -/
def FoundAll (nd : Nat) (calls : List Call) (rs : List Rank) (res : List (List Nat × List Nat)) : Prop :=
  List.Forall₂ (fun (r : Rank) (p : List Nat × List Nat) =>
    p.1.Pairwise (· < ·) ∧ p.2.Pairwise (· < ·) ∧
    (∀ g, g ∈ p.1 ↔ g ∈ r.owned ∧ Constrained nd calls rs g) ∧ (∀ g, g ∈ p.2 ↔ g ∈ r.cols ∧ Constrained nd calls rs g)) rs res

/-- The full property of the assembled system: components which do not exist at a node of the boundary are passed over, so that
"all dofs" (the default argument) can be used whatever the boundary. -/
def C105Statement : Prop :=
  ∀ nd calls rs, GoodRanks rs → (∀ r ∈ rs, ∀ n i, Asked nd calls r n i → (r.map n).isSome) →
    ∃ res, getDirichletDofs (run nd calls) rs = .ok res ∧ FoundAll nd calls rs res

/-- The two systems describe the same problem: same components at the nodes of the named boundaries. -/
structure Same (nd : Nat) (calls : List Call) (rs : List Rank) (ms : List MfRank) : Prop where
  asked : ∀ n i g, (∃ r ∈ rs, Asked nd calls r n i ∧ r.dofAt n i = some g) ↔
    ∃ m ∈ ms, MfAsked nd calls m n i ∧ ∃ l, (m.loc n).getD i none = some l ∧ m.l2g[l]? = some g
  norm : ∀ g, (∃ r ∈ rs, g ∈ r.norm) ↔ ∃ m ∈ ms, ∃ l ∈ m.norm, m.l2g[l]? = some g

end Verif.DirDofs
