import Verif.Resume.Model
import Verif.Restart.Props

/-!
# Model of programs stopped any number of times

Sources: as for `Verif.Resume.Model`.
-/
namespace Verif.Resume
open Verif Verif.Elem Verif.Fields Verif.NativeIO Verif.Steps Verif.Pipeline Verif.Restart Verif.MfPipe Verif.Mesh

noncomputable section

/-- A program made in pieces: each is run on some parts, then mesh and fields are saved; both are loaded on any number of ranks, systems are made anew, and the next piece is run there.
`f` are the numbers which the nodes of the first mesh have. (NativeIO.hpp 14-58, 230-324; steps as in area Steps) -/
inductive Session (dec : List Byte → ℝ) (nF : Nat) (defs : Nat → SysDef) (kinds : List (ElType × Nat)) (bnds : List Nat) :
    List (List Step) → Nat → List Split.Part → (Nat → Nat) → State → Nat → List Split.Part → (Nat → Nat) → State → Prop
  | last (A : List Step) (nParts : Nat) (parts : List Split.Part) (f : Nat → Nat) (t u : State) (hfit : ∀ r < nParts, Fits bnds (part parts r))
      (hrun : Run false defs kinds bnds parts A t u) : Session dec nF defs kinds bnds [A] nParts parts f t nParts parts f u
  | stop (A : List Step) (rest : List (List Step)) (nParts : Nat) (parts : List Split.Part) (f : Nat → Nat) (t t1 : State) (hpos : 0 < nParts) (hfit : ∀ r < nParts, Fits bnds (part parts r))
      (hrun : Run false defs kinds bnds parts A t t1) (m' : DomMap) (nParts' : Nat) (parts' : List Split.Part) (g : Nat → Nat) (old : List (List Nat))
      (hread : Reread Monotone kinds bnds parts m' nParts' parts' g old) (u1 : State) (hload : Reloaded dec nF parts parts' old t1 u1)
      (nEnd : Nat) (partsEnd : List Split.Part) (fEnd : Nat → Nat) (u : State)
      (hrest : Session dec nF defs kinds bnds rest nParts' parts' (fun x => g (f x)) u1 nEnd partsEnd fEnd u) :
      Session dec nF defs kinds bnds (A :: rest) nParts parts f t nEnd partsEnd fEnd u

end
end Verif.Resume
