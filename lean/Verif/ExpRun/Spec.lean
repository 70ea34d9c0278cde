import Verif.ExpRun.Model
/-!
# What the files should hold

The specification looks only at the calls, in their order, not at queues and completion events.
-/
namespace Verif.ExpRun.Spec
open Verif Verif.Vtk Verif.ExpRun

/-- The document of a piece file. -/
def document (e : Exporter) (fields : List FieldDef) (encoded : List (List Byte)) : List Byte :=
  description e fields (encoded.map List.length) ++ (e.encodedCoords ++ (e.encodedTopo ++ (encoded.flatten ++ vtuPostamble)))

/-- The files a call of `exportSolution` is to write, with their contents, for the mesh described by `e`:
nothing if an index is out of range, no piece file if a field cannot be encoded. -/
def exported (env : Env) (e : Exporter) : Call → List (List Byte × List Byte)
  | .exportSol name fields nFields sol =>
    if (fields.all fun f => f.inds.all (· < nFields)) = false then []
    else (if env.rank = 0 then [(pvtuName name, pvtuFile name env.nRanks fields)] else []) ++
      ((fields.mapM (encodeField env.avx sol)).map fun enc => (vtuName name env.rank, document e fields enc)).toList
  | _ => []

/-- The mesh after a call. -/
def meshAfter (e : Exporter) : Call → Exporter
  | .updateCoords text => { e with encodedCoords := text }
  | _ => e

/-- The files of all exports, in the order of the calls; coordinates as they are at the time of the call. -/
def exports (env : Env) : Exporter → List Event → List (List Byte × List Byte)
  | _, [] => []
  | e, .call c :: es => exported env e c ++ exports env (meshAfter e c) es
  | e, _ :: es => exports env e es

/-- A file after a document has been written over it from its beginning (a longer file keeps its tail). -/
def over (f T : List Byte) : List Byte := T ++ f.drop T.length

/-- The disk after writing the documents of `h` one after another, each completely before the next. -/
def settle (d0 : List Byte → List Byte) (h : List (List Byte × List Byte)) (p : List Byte) : List Byte :=
  h.foldl (fun f x => if x.1 = p then over f x.2 else f) (d0 p)

end Verif.ExpRun.Spec
