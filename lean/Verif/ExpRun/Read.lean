import Verif.ExpRun.Props
/-!
# C139: what a reader finds in the files of a simulation

`C139_files` put together with `C74_arrays`: reading the piece file after the program yields the coordinates
and field values of the time of the last export under its name.
-/
namespace Verif.ExpRun
open Verif Verif.Vtk Verif.Vtk.Spec Spec

/-- The mesh after a number of events. -/
def meshAt (e : Exporter) (evs : List Event) : Exporter := evs.foldl meshBy e

theorem exports_append (env : Env) (a b : List Event) : ∀ e, exports env e (a ++ b) = exports env e a ++ exports env (meshAt e a) b := by
  induction a with
  | nil => intro e; rfl
  | cons v a ih => intro e; rw [List.cons_append, exports_cons, exports_cons, ih, List.append_assoc]; rfl

/-- Only the coordinates change. -/
theorem meshAt_eq (evs : List Event) : ∀ e : Exporter, meshAt e evs = { e with encodedCoords := (meshAt e evs).encodedCoords } := by
  induction evs with
  | nil => intro e; rfl
  | cons v evs ih =>
    intro e
    have h := ih (meshBy e v)
    change meshAt (meshBy e v) evs = { e with encodedCoords := (meshAt (meshBy e v) evs).encodedCoords }
    rw [h]
    cases v with
    | call c => cases c <;> rfl
    | complete k => rfl
    | destroy => rfl

/-- Writing again what is there changes nothing. -/
theorem pwrite_same (f : List Byte) (w : Nat × List Byte) (h : ∀ j < w.2.length, f[w.1 + j]? = w.2[j]?) : File.pwrite f w = f := by
  by_cases hne : w.2 = []
  · unfold File.pwrite; rw [if_pos (by rw [hne]; rfl)]
  have hp : 0 < w.2.length := List.length_pos_iff.2 hne
  have hend : w.1 + w.2.length ≤ f.length := by
    have := h (w.2.length - 1) (by omega)
    rw [List.getElem?_eq_getElem (show w.2.length - 1 < w.2.length by omega)] at this
    have := (List.getElem?_eq_some_iff.1 this).1
    omega
  have hl : (File.pwrite f w).length = f.length := by
    unfold File.pwrite
    rw [if_neg (by simpa using hne)]
    simp only [List.length_append, List.length_take, List.length_replicate, List.length_drop]; omega
  apply List.ext_getElem?
  intro i
  by_cases hi : i < f.length
  · by_cases hin : w.1 ≤ i ∧ i < w.1 + w.2.length
    · obtain ⟨m, rfl⟩ := Nat.exists_eq_add_of_le hin.1
      rw [File.pwrite_in f w m (by omega), h m (by omega)]
    · rw [List.getElem?_eq_getElem hi]
      exact File.pwrite_out f w i _ (by omega) (List.getElem?_eq_getElem hi)
  · rw [List.getElem?_eq_none (by omega), List.getElem?_eq_none (by omega)]

theorem run_same (ws : List (Nat × List Byte)) (f : List Byte) (h : ∀ w ∈ ws, ∀ j < w.2.length, f[w.1 + j]? = w.2[j]?) : File.run f ws = f := by
  induction ws with
  | nil => rfl
  | cons w ws ih =>
    change File.run (File.pwrite f w) ws = f
    rw [pwrite_same f w (h w (by simp))]
    exact ih fun w' hw' => h w' (by simp [hw'])

/-- **C139** (readers): a program creates the exporter for a mesh, does anything with it, exports `fields` under `name`, and
goes on without exporting to that piece file again.  Reading the piece file afterwards, whatever has been in it before, yields the
coordinates of the time of the call (`coords`), the cells of the mesh, and the values the fields had at the call (`sol`). -/
theorem C139_read (env : Env) (toAligned nFields nNodes : Nat) (own : Own.SegOwn) (els : List El) (coords0 coords : List Base64.Val)
    (sol : Nat → List Base64.Val) (name : List Byte) (fields : List FieldDef)
    (hn : ∀ e ∈ els, e.nodes.length = e.n ^ e.t.dim) (hl : ∀ e ∈ els, ∀ i ∈ e.nodes, own.getLocal i < 2 ^ 32)
    (hb : (localTopoSize els).2 < 2 ^ 32) (hc : (localTopoSize els).1 < 2 ^ 32)
    (hcl : coords.length = 3 * nNodes) (hbn : 24 * nNodes < 2 ^ 64)
    (hname : ∀ f ∈ fields, 34#8 ∉ f.name) (hf : ∀ f ∈ fields, 1 ≤ f.inds.length ∧ f.inds.length ≤ 3)
    (hi : ∀ f ∈ fields, ∀ i ∈ f.inds, i < nFields) (hs : ∀ f ∈ fields, ∀ i ∈ f.inds, (sol i).length = nNodes)
    (ex : Exporter) (hex : mkExporter env.avx toAligned own els coords0 = some ex) (d0 : List Byte → List Byte) (before after : List Event) (s : St)
    (hco : coordsText env.avx coords = some (meshAt ex before).encodedCoords)
    (hrun : run env (start ex d0) (before ++ .call (.exportSol name fields nFields sol) :: after) = .done s) (ho : s.out = [])
    (hafter : ∀ x ∈ exports env (meshAt ex before) after, x.1 ≠ vtuName name env.rank) :
    ∃ topo hdr rest, buildTopo own els = some topo ∧ s.disk (vtuName name env.rank) = hdr ++ rest ∧ hdr.getLast? = some 95#8 ∧
      valuesOf (str "Name") hdr = [str "Position", str "connectivity", str "offsets", str "types"] ++ fields.map FieldDef.name ∧
      (valuesOf (str "offset") hdr).length = 4 + fields.length ∧
      ∀ (k : Nat) (off : List Byte), (valuesOf (str "offset") hdr)[k]? = some off →
        ∃ c, (contents nNodes coords topo sol fields)[k]? = some c ∧ readArray (rest.drop (number off)) = some c := by
  obtain ⟨topo, e, ws, h1, h2, h3, h4⟩ := C74_arrays env.avx toAligned nFields nNodes own els coords sol fields hn hl hb hc hcl hbn hname hf hi hs
  have he : e = meshAt ex before := by
    rw [meshAt_eq before ex]
    unfold mkExporter at hex h2
    rw [hco] at h2
    cases ht : serializeTopology env.avx toAligned own els with
    | none => rw [ht] at h2; cases h2
    | some t =>
      rw [ht] at h2 hex
      cases hc0 : coordsText env.avx coords0 with
      | none => rw [hc0] at hex; cases hex
      | some t0 =>
        rw [hc0] at hex
        cases h2
        cases hex
        rfl
  have hall : (fields.all fun f => f.inds.all (· < nFields)) = true := by
    simp only [List.all_eq_true, decide_eq_true_eq]; exact hi
  unfold exportPiece at h3
  rw [if_pos hall] at h3
  obtain ⟨enc, henc, rfl⟩ := Option.map_eq_some_iff.1 h3
  have hexp : exported env e (.exportSol name fields nFields sol) =
      (if env.rank = 0 then [(pvtuName name, pvtuFile name env.nRanks fields)] else []) ++ [(vtuName name env.rank, document e fields enc)] := by
    rw [exported_sol, if_neg (by rw [hall]; decide), henc]; rfl
  have hsplit : exports env ex (before ++ .call (.exportSol name fields nFields sol) :: after) =
      (exports env ex before ++ (if env.rank = 0 then [(pvtuName name, pvtuFile name env.nRanks fields)] else [])) ++
        (vtuName name env.rank, document e fields enc) :: exports env (meshAt ex before) after := by
    rw [exports_append, exports_cons, ← he]
    change _ ++ (exported env e (.exportSol name fields nFields sol) ++ exports env e after) = _
    rw [hexp]
    simp only [List.append_assoc, List.singleton_append]
  obtain ⟨⟨r, hr⟩, -⟩ := C139_content_partial env ex d0 _ s hrun ho _ _ _ _ hsplit fun U hU => hafter _ hU rfl
  have hsame : File.run (s.disk (vtuName name env.rank)) (vtuWrites e fields enc) = s.disk (vtuName name env.rank) := by
    refine run_same _ _ fun w hw j hj => ?_
    rw [vtuWrites_eq] at hw
    have := File.blocks_agree (pre := []) hw j hj
    rw [List.nil_append, doc_flatten] at this
    rw [List.getElem?_eq_getElem hj] at this ⊢
    rw [← hr, List.getElem?_append_left]
    · exact this
    · exact (List.getElem?_eq_some_iff.1 this).1
  obtain ⟨hdr, rest, h5, h6⟩ := h4 _ (s.disk (vtuName name env.rank)) (List.Perm.refl _)
  rw [hsame] at h5
  exact ⟨topo, hdr, rest, h1, h5, h6⟩

/-- A mesh with one quadrilateral: create, move the mesh, export two fields, and wait for all writes. -/
example : let own : Own.SegOwn := ⟨0, 4, []⟩
    let els : List El := [⟨.quad, 2, [0, 1, 2, 3]⟩]
    let fields : List FieldDef := [⟨str "p", [2]⟩, ⟨str "velocity", [0, 1]⟩]
    ∃ ex text s n, mkExporter false 0 own els (List.replicate 12 0#64) = some ex ∧
      coordsText false (List.replicate 12 1#64) = some (meshAt ex [.call (.updateCoords text)]).encodedCoords ∧
      run ⟨false, 0, 1⟩ (start ex fun _ => []) ([.call (.updateCoords text)] ++ .call (.exportSol (str "u") fields 3 fun _ => [1#64, 2#64, 3#64, 4#64]) ::
        List.replicate n (.complete 0)) = .done s ∧ s.out = [] ∧ 0 < n := by
  intro own els fields
  obtain ⟨topo, ex, ws, h1, h2, h3, h4⟩ := C74_arrays false 0 3 4 own els (List.replicate 12 0#64) (fun _ => [1#64, 2#64, 3#64, 4#64]) fields
    (by decide +kernel) (by decide +kernel) (by decide +kernel) (by decide +kernel) (by decide) (by decide) (by simp [fields, str])
    (by simp [fields]) (by simp [fields]) (by simp [fields])
  obtain ⟨_, _, _, _, h2', _⟩ := C74_arrays false 0 3 4 own els (List.replicate 12 1#64) (fun _ => [1#64, 2#64, 3#64, 4#64]) fields
    (by decide +kernel) (by decide +kernel) (by decide +kernel) (by decide +kernel) (by decide) (by decide) (by simp [fields, str])
    (by simp [fields]) (by simp [fields]) (by simp [fields])
  obtain ⟨text, htext⟩ : ∃ text, coordsText false (List.replicate 12 1#64) = some text := by
    unfold mkExporter at h2'
    cases hc : coordsText false (List.replicate 12 1#64) with
    | none => rw [hc] at h2'; cases h2'
    | some t => exact ⟨t, rfl⟩
  obtain ⟨enc, henc⟩ : ∃ enc, fields.mapM (encodeField false fun _ => [1#64, 2#64, 3#64, 4#64]) = some enc := by
    unfold exportPiece at h3
    rw [if_pos (by decide)] at h3
    obtain ⟨enc, henc, -⟩ := Option.map_eq_some_iff.1 h3
    exact ⟨enc, henc⟩
  have hstep : ∃ s1, run ⟨false, 0, 1⟩ (start ex fun _ => []) [.call (.updateCoords text), .call (.exportSol (str "u") fields 3 fun _ => [1#64, 2#64, 3#64, 4#64])] = .done s1 ∧
      0 < s1.out.length := by
    change ∃ s1, (ExpRun.exportSol ⟨false, 0, 1⟩ { start ex (fun _ => []) with ex := { ex with encodedCoords := text }, ver := 1 } (str "u") fields 3
      fun _ => [1#64, 2#64, 3#64, 4#64]).bind (fun s => .done s) = .done s1 ∧ _
    unfold ExpRun.exportSol
    rw [if_neg (by decide), if_neg (fun h => h rfl), henc]
    exact ⟨_, rfl, Nat.succ_pos _⟩
  obtain ⟨s1, hs1, hpos⟩ := hstep
  obtain ⟨s2, hs2, ho, -⟩ := drain ⟨false, 0, 1⟩ _ (run_inv _ _ (inv_start ex fun _ => []) hs1) rfl
  exact ⟨ex, text, s2, s1.out.length, h2, htext, (run_append _ _ _ hs1).trans hs2, ho, hpos⟩

end Verif.ExpRun
