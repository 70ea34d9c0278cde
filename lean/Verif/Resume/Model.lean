import Verif.Steps.Model
import Verif.Restart.Model

/-!
# Model of a program stopped between two steps and gone on with from files

Sources: `/repo/include/l3ster/post/NativeIO.hpp` 14-58 and 230-324 (areas NativeIO and Restart), `/repo/include/l3ster/post/SolutionManager.hpp` 49-61.

Between the steps of a program (area Steps) the fields are saved, the program ends, and another one, on any number of ranks, loads the mesh and the fields, makes its systems
anew, and goes on.  A field value is the number which its eight bytes stand for.
-/
namespace Verif.Resume
open Verif Verif.Fields Verif.NativeIO Verif.Steps Verif.Pipeline Verif.Restart

noncomputable section

/-- The bytes of a solution manager (as NativeIO sees it) and its numbers (as kernels see them), `dec` being what eight bytes stand for. (NativeIO.hpp 51-54, 293-296; SolutionManager.hpp 49-53) -/
structure Encodes (dec : List Byte → ℝ) (sm : SolMan) (t : Sol ℝ) : Prop where
  nodes : sm.nNodes = t.own.localSize
  fields : sm.nFields = t.nFields
  data : sm.data.map dec = t.data

/-- Rank `r` of the new distribution after `loadResults` of all fields into its manager, which held anything before. (NativeIO.hpp 280-310) -/
def LoadedOn (dec : List Byte → ℝ) (nF : Nat) (own : Own.SegOwn) (old : Option (List Nat)) (file : List Byte) (t : Sol ℝ) : Prop :=
  t.own = own ∧ ∃ o s sm, old = some o ∧ s.nNodes = own.localSize ∧ s.nFields = nF ∧ s.data.length = s.nNodes * s.nFields ∧
    (Loader.fresh.loaded o).loadResults file (List.range nF) (List.range nF) s = some sm ∧ Encodes dec sm t

/-- The ranks of the old distribution in state `s` save all `nF` fields; those of the new one load them and make systems anew, which prescribe zeros until told otherwise: state `t`.
(NativeIO.hpp 14-58, 280-310; AssembledSystem.hpp 105, MatrixFreeSystem.hpp 243) -/
def Reloaded (dec : List Byte → ℝ) (nF : Nat) (parts parts' : List Split.Part) (old : List (List Nat)) (s t : State) : Prop :=
  (∃ comment prev sols ws ws', sols.length = parts.length ∧
    (∀ r (sm : SolMan), sols[r]? = some sm → Encodes dec sm (s.fields r) ∧ ∀ v ∈ sm.data, v.length = 8) ∧
    saveRes comment ((parts.zip sols).map fun q => (q.1.own.cnt, q.2)) (List.range nF) = some ws ∧ ws'.Perm ws ∧
    ∀ r < parts'.length, LoadedOn dec nF (part parts' r).own (old[r]?) (File.run prev ws') (t.fields r)) ∧
  ∀ i r d c, t.dir i r d c = 0

end
end Verif.Resume
