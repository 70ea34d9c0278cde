import Verif.Resume.Model
import Verif.Steps.Spec

/-! # What programs gone on with should meet -/
namespace Verif.Resume
open Verif Verif.Elem Verif.Mesh Verif.Pipeline Verif.Steps

/-- The step prescribes all values its system was made to take: each is at a node of a domain or boundary listed in one of the calls, for a component listed there. -/
def Sets (st : Step) (S : SysDef) (m : DomMap) : Prop :=
  ∀ k, S.prog.unknown m k → S.prog.prescribed m k → ∃ c ∈ st.calls, k.2 ∈ c.inds ∧ ∃ e ∈ visitIds m c.ids, k.1 ∈ e.nodes

/-- Prescribed values of the systems `live` are known to be right; a step may use one of these, or prescribe all values of its system itself. -/
def Ready (defs : Nat → SysDef) (m : DomMap) : (Nat → Prop) → List Step → Prop
  | _, [] => True
  | live, st :: sts => (live st.sys ∨ Sets st (defs st.sys) m) ∧ Ready defs m (fun i => live i ∨ i = st.sys) sts

/-- The same of a program made in pieces: after each stop only those systems are known to be right which are made as they were, `fresh`, and were not used before. -/
def ReadyAll (defs : Nat → SysDef) (m : DomMap) : (Nat → Prop) → (Nat → Prop) → List (List Step) → Prop
  | _, _, [] => True
  | live, fresh, A :: rest => Ready defs m live A ∧ ReadyAll defs m (fun i => fresh i ∧ ∀ st ∈ A, st.sys ≠ i) (fun i => fresh i ∧ ∀ st ∈ A, st.sys ≠ i) rest

end Verif.Resume
