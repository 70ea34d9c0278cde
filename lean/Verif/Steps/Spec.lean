import Verif.Steps.Model

/-! # What programs of many steps should do, in terms of the undistributed mesh -/
namespace Verif.Steps
open Verif Verif.Elem Verif.Mesh Verif.Dofs Verif.Fields Verif.SolUpd Verif.Pipeline Verif.Report Verif.SetVals

noncomputable section

/-- A solution manager of a rank with `nF` fields, after any history of use. -/
def Managed (own : Own.SegOwn) (nF : Nat) (s : Sol ℝ) : Prop := ∃ init ops, (∀ o ∈ ops, Op.InRange own.localSize nF o) ∧ run ops (new own nF init) = .ok s

/-- The ranks hold the fields `V` (by node and field) and the prescribed values `W` (by system, unknown and right-hand side). -/
structure Carries (defs : Nat → SysDef) (m : DomMap) (parts : List Split.Part) (f : Nat → Nat) (nF : Nat) (s : State) (V : Nat → Nat → ℝ) (W : Nat → Nat × Nat → Nat → ℝ) : Prop where
  man : ∀ r < parts.length, Managed (part parts r).own nF (s.fields r)
  vals : ∀ r < parts.length, ∀ n, NodeIn m n → NodeIn (part parts r).doms (f n) → ∀ fl < nF, s.reader r (f n) fl = .ok (V n fl)
  dir : ∀ i, Rep (defs i).prog m parts f (s.dir i) (W i)

/-- A sensible step for systems made as `S` and `nF` fields: whatever the kernels read, they make a sensible program, fields they read exist, equations are on domains; the calls are
sensible and touch no node too often; results go to distinct fields. -/
structure Step.Ok (st : Step) (S : SysDef) (m : DomMap) (bnds : List Nat) (nF : Nat) : Prop where
  prog : ∀ M rd, (st.prog S M rd).Ok m bnds
  doms : ∀ K ∈ st.kernels, ∀ k ∈ K.doms, k ∉ bnds
  calls : ∀ c ∈ st.calls, ∀ M rd, (c.at M rd).Ok S.prog m bnds
  count : ∀ c ∈ st.calls, ∀ M rd L, (c.at M rd).pts m = some L → ∀ k, (contribsAt L c.inds (c.at M rd).kern k).length < 65536
  reads : ∀ K ∈ st.kernels, ∀ fl ∈ K.reads, fl < nF
  breads : ∀ K ∈ st.bkernels, ∀ fl ∈ K.reads, fl < nF
  creads : ∀ c ∈ st.calls, ∀ fl ∈ c.reads, fl < nF
  nodup : st.dst.Nodup
  len : st.dst.length = st.src.length * S.nRhs

end
end Verif.Steps
