import Verif.Common.Bytes
import Verif.Common.ParWrite
import Verif.Common.Interleave
import Verif.Base64.Props
import Verif.Bitset.Props
import Verif.IntCast.Props
import Verif.StaticVec.Props
import Verif.Common.Std
import Verif.Algo.Props
import Verif.Grid.Props
import Verif.Ser.Props
import Verif.Own.Props
import Verif.Graph.Props
import Verif.Graph.Components
import Verif.Spatial.Props
import Verif.Gather.Props
import Verif.Guards.Props
import Verif.Erased.Props
import Verif.Common.Tensor
import Verif.Elem.Props
import Verif.Mesh.Props
import Verif.Prim.Props
import Verif.Prim.Square
import Verif.LocView.Reorder
import Verif.LocView.Props
import Verif.Mesh.Push
import Verif.Split.Props
import Verif.Partition.Model
import Verif.Partition.Nodes
import Verif.Partition.Number
import Verif.Partition.Elements
import Verif.Partition.Props
import Verif.Partition.Cond
import Verif.Merge.Model
import Verif.Merge.Count
import Verif.Merge.Copy
import Verif.Merge.Props
import Verif.Extrude.Model
import Verif.Extrude.Props
import Verif.Gmsh.Model
import Verif.Gmsh.Props
import Verif.Common.FileWrite
import Verif.NativeIO.Model
import Verif.NativeIO.Lemmas
import Verif.NativeIO.Props
import Verif.Permute.Model
import Verif.Permute.Props
import Verif.Dofs.Model
import Verif.Dofs.Number
import Verif.Dofs.Props
import Verif.Dofs.Periodic
import Verif.PerMatch.Model
import Verif.PerMatch.Props
import Verif.Dirichlet.Model
import Verif.Dirichlet.Lemmas
import Verif.Dirichlet.Props
import Verif.ImpExp.Model
import Verif.ImpExp.Lemmas
import Verif.ImpExp.Props
import Verif.TryRecv.Model
import Verif.TryRecv.Props
import Verif.ImpExp.Tags
import Verif.MatFree.Model
import Verif.MatFree.Props
import Verif.Sparsity.Model
import Verif.Sparsity.Lemmas
import Verif.Sparsity.Props
import Verif.Condense.Props
import Verif.Batch.Props
import Verif.SumFact.Props
import Verif.SumFact.OddEven
import Verif.SumFact.Points
import Verif.NodeVals.Model
import Verif.NodeVals.Lemmas
import Verif.NodeVals.Props
import Verif.Session.Model
import Verif.Session.Props
import Verif.Fields.Props
import Verif.Integral.Props
import Verif.Poly.Model
import Verif.Poly.Lemmas
import Verif.Poly.Props
import Verif.Poly.Lagrange
import Verif.Poly.Legendre
import Verif.Poly.Orth
import Verif.Poly.Lobatto
import Verif.Quad.Model
import Verif.Quad.Gauss
import Verif.Quad.Props
import Verif.Basis.Model
import Verif.Basis.Lemmas
import Verif.Basis.Props
import Verif.Mapping.Model
import Verif.Mapping.Props
import Verif.Mapping.Sides
import Verif.Mapping.Jacobi
import Verif.Vtk.Model
import Verif.Vtk.Spec
import Verif.Vtk.Lemmas
import Verif.Vtk.Props
import Verif.Vtk.Doc
import Verif.Vtk.DocSpec
import Verif.Vtk.DocLemmas
import Verif.Vtk.DocAttrs
import Verif.Vtk.DocProps
import Verif.Vtk.Pvtu
import Verif.Vtk.Path
import Verif.Solve.Model
import Verif.Solve.Props
import Verif.Convert.Model
import Verif.Convert.Faces
import Verif.Convert.Inter
import Verif.Convert.Step
import Verif.Convert.Fresh
import Verif.Convert.Loop
import Verif.Convert.Digits
import Verif.Convert.Geometry
import Verif.Convert.Props
import Verif.Convert.Example
import Verif.GmshText.Props
import Verif.NodeOrd.Props
import Verif.UniVec.Props
import Verif.Mapping.Box
import Verif.SumOp.Model
import Verif.SumOp.Lemmas
import Verif.SumOp.Quad2
import Verif.SumOp.Hex3
import Verif.SumOp.Props
import Verif.StatInit.Model
import Verif.StatInit.Props
import Verif.SumOp.Symm
import Verif.Lsq.Rows
import Verif.Lsq.Model
import Verif.Lsq.Props
import Verif.Lsq.Weights
import Verif.MfInit.Model
import Verif.MfInit.Props
import Verif.MfCols.Model
import Verif.MfCols.Props
import Verif.RobinHood.Props
import Verif.SolUpd.Props
import Verif.CondInit.Props
import Verif.Rot.Props
import Verif.Coll.Props
import Verif.Handles.Props
import Verif.AsmOrd.Props
import Verif.Cyl.Props
import Verif.DirDofs.Props
import Verif.Kern.Props
import Verif.Flux.Props
import Verif.Flux.Spec
import Verif.Rounds.Props
import Verif.Patch.Model
import Verif.Patch.Spec
import Verif.Patch.Lemmas
import Verif.Patch.Points
import Verif.Patch.Props
import Verif.Patch.Space
import Verif.Patch.Examples
import Verif.CVec.Props
import Verif.RefStable.Props
import Verif.Distr.Props
import Verif.Pipeline.Props
import Verif.Report.Model
import Verif.Report.Lemmas
import Verif.Report.Props
import Verif.CondRace.Model
import Verif.CondRace.Lemmas
import Verif.CondRace.Props
import Verif.CondDistr.Model
import Verif.CondDistr.Assemble
import Verif.CondDistr.Inds
import Verif.CondDistr.Number
import Verif.CondDistr.Rows
import Verif.CondDistr.Cond
import Verif.CondDistr.Props
import Verif.CondDistr.Examples
import Verif.PerPipe.Model
import Verif.PerPipe.Match
import Verif.PerPipe.Defs
import Verif.PerPipe.Number
import Verif.PerPipe.Run
import Verif.PerPipe.Props
import Verif.CondPipe.Model
import Verif.CondPipe.Elems
import Verif.CondPipe.Parts
import Verif.CondPipe.Okay
import Verif.CondPipe.Run
import Verif.CondPipe.Exam
import Verif.CondPipe.Props
import Verif.Gen.Props
import Verif.DimCheck.Model
import Verif.DimCheck.Props
import Verif.MfPipe.Model
import Verif.MfPipe.Views
import Verif.MfPipe.Evals
import Verif.MfPipe.Comb
import Verif.MfPipe.Rank
import Verif.MfPipe.Props
import Verif.MfGen.Model
import Verif.MfGen.Spec
import Verif.MfGen.Lemmas
import Verif.MfGen.Conv
import Verif.MfGen.Size
import Verif.MfGen.Grid
import Verif.MfGen.Props
import Verif.Convert.Internal
import Verif.Reach.Model
import Verif.Reach.Lemmas
import Verif.Reach.Filled
import Verif.Reach.Props
import Verif.SetVals.Model
import Verif.SetVals.Spec
import Verif.SetVals.Lemmas
import Verif.SetVals.Calls
import Verif.SetVals.Halves
import Verif.SetVals.Props
import Verif.Steps.Props
import Verif.When.Model
import Verif.When.Props
import Verif.ExtGen.Model
import Verif.ExtGen.Built
import Verif.ExtGen.Ready
import Verif.ExtGen.Geo
import Verif.ExtGen.Conv
import Verif.ExtGen.Props
import Verif.MergeGen.Model
import Verif.MergeGen.Two
import Verif.MergeGen.Match
import Verif.MergeGen.Many
import Verif.MergeGen.Quad
import Verif.MergeGen.Quads
import Verif.MergeGen.Region
import Verif.MergeGen.CylFit
import Verif.MergeGen.CylModel
import Verif.MergeGen.Cyl
import Verif.MergeGen.HalfCyl
import Verif.MergeGen.Result
import Verif.MergeGen.Outer
import Verif.MergeGen.Sample
import Verif.MergeGen.Props
import Verif.ArrOwn.Props
import Verif.WeakC.Props
import Verif.CrsFill.Props
import Verif.Restart.Model
import Verif.Restart.Renamed
import Verif.Restart.OldIds
import Verif.Restart.Unified
import Verif.Restart.Props
import Verif.Lookup.Props
import Verif.Lookup.GenProps
import Verif.Resume.Model
import Verif.Resume.Session
import Verif.Resume.Spec
import Verif.Resume.Lemmas
import Verif.Resume.Load
import Verif.Resume.Props
import Verif.SetVals.Spread
import Verif.Topo.Model
import Verif.Topo.Props
import Verif.Folded.Props
import Verif.Entry.Props
import Verif.Folded.Volume
import Verif.ExpRun.Model
import Verif.ExpRun.Spec
import Verif.ExpRun.Lemmas
import Verif.ExpRun.Props
import Verif.ExpRun.Read
import Verif.ExpRun.Ranks
import Verif.RankThrow.Model
import Verif.RankThrow.Spec
import Verif.RankThrow.Lemmas
import Verif.RankThrow.Props
import Verif.GmshGen.Model
import Verif.GmshGen.Spec
import Verif.GmshGen.Lemmas
import Verif.GmshGen.Props
import Verif.GmshGen.AnyOrder
import Verif.ParFor.Model
import Verif.ParFor.Lemmas
import Verif.ParFor.Props
import Verif.Dual.Model
import Verif.Dual.Spec
import Verif.Dual.Lemmas
import Verif.Dual.Props
import Verif.Dual.Grid
