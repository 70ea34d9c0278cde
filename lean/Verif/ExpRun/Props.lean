import Verif.ExpRun.Lemmas
/-!
# C139: results exported over time

A simulation creates one exporter, moves the mesh, exports again and again and goes on computing
while MPI still writes.
-/
namespace Verif.ExpRun
open Verif Verif.Vtk Spec

/-- **C139**, full statement: when nothing is outstanding, a file which did not exist before the program holds exactly the document
exported last under its name. -/
def C139Statement : Prop := ∀ (env : Env) (ex : Exporter) (d0 : List Byte → List Byte) (evs : List Event) (s : St),
  run env (start ex d0) evs = .done s → s.out = [] → ∀ (a b : List (List Byte × List Byte)) (p T : List Byte),
    exports env ex evs = a ++ (p, T) :: b → (∀ U, (p, U) ∉ b) → d0 p = [] → s.disk p = T

/-- **C139**: whatever the calls, the times at which MPI carries out the writes and their order, no byte
is read from a text which has been replaced or destroyed. -/
theorem C139_defined (env : Env) (ex : Exporter) (d0 : List Byte → List Byte) (evs : List Event) :
    run env (start ex d0) evs ≠ .undefined := run_defined env evs (inv_start ex d0)

/-- **C139**: the files are those of a program which writes every document, with coordinates and field values as they
were at the time of its call, completely before it goes on.  Files which are not exported keep their content. -/
theorem C139_files (env : Env) (ex : Exporter) (d0 : List Byte → List Byte) (evs : List Event) (s : St)
    (h : run env (start ex d0) evs = .done s) (ho : s.out = []) : s.disk = settle d0 (exports env ex evs) :=
  (run_inv env evs (inv_start ex d0) h).settled ho

/-- A program with one time step: export, move the mesh, export under the next name, destroy the exporter; MPI carries out some writes in
between, not in the order of the calls. -/
def sample : List Event :=
  [.call (.exportSol (str "u_0.pvtu") [⟨str "p", [0]⟩] 1 fun _ => []), .complete 3, .complete 0, .complete 2, .complete 1, .complete 1, .complete 0,
    .call (.updateCoords (str "moved")), .call (.exportSol (str "u_1.pvtu") [] 1 fun _ => []), .complete 4, .complete 3,
    .complete 2, .complete 1, .complete 0, .destroy]

example : ∃ s, run ⟨false, 0, 2⟩ (start ⟨0, 0, 0, 0, 0, str "topo", str "coords"⟩ fun _ => []) sample = .done s ∧ s.out = [] :=
  ⟨_, rfl, rfl⟩

/-- **C139**: the result does not depend on when and in which order MPI carries out the writes. -/
theorem C139_schedule (env : Env) (ex : Exporter) (d0 : List Byte → List Byte) (evs evs' : List Event) (s s' : St)
    (h : run env (start ex d0) evs = .done s) (ho : s.out = []) (h' : run env (start ex d0) evs' = .done s') (ho' : s'.out = [])
    (hc : evs.filter (fun e => match e with | .call _ => true | _ => false) = evs'.filter (fun e => match e with | .call _ => true | _ => false)) :
    s.disk = s'.disk := by
  have key : ∀ (evs : List Event) (e : Exporter), exports env e evs =
      exports env e (evs.filter (fun e => match e with | .call _ => true | _ => false)) := by
    intro evs
    induction evs with
    | nil => intro e; rfl
    | cons v evs ih =>
      intro e
      cases v with
      | call c =>
        rw [List.filter_cons_of_pos rfl]
        change _ ++ _ = _ ++ _
        rw [ih]
      | complete k => rw [List.filter_cons_of_neg (by simp)]; exact ih e
      | destroy => rw [List.filter_cons_of_neg (by simp)]; exact ih e
  rw [C139_files env ex d0 evs s h ho, C139_files env ex d0 evs' s' h' ho', key evs, key evs', hc]

example : (sample.filter (fun e => match e with | .call _ => true | _ => false)).length = 3 := rfl

/-- **C139**: a waiting call does not wait for ever: at any time every outstanding write can be carried out, and
after that many writes nothing is outstanding. -/
theorem C139_finishes (env : Env) (ex : Exporter) (d0 : List Byte → List Byte) (evs : List Event) (s : St)
    (h : run env (start ex d0) evs = .done s) :
    (∀ i < s.out.length, ∃ s', step env s (.complete i) = .done s' ∧ s'.out.length + 1 = s.out.length) ∧
    ∃ s', run env s (List.replicate s.out.length (.complete 0)) = .done s' ∧ s'.out = [] := by
  have i := run_inv env evs (inv_start ex d0) h
  refine ⟨fun k hk => ?_, ?_⟩
  · obtain ⟨w, t, _, _, h3⟩ := complete_ok env i hk
    refine ⟨_, h3, ?_⟩
    change (s.out.eraseIdx k).length + 1 = _
    rw [List.length_eraseIdx_of_lt hk]; omega
  · obtain ⟨s', h1, h2, _⟩ := drain env _ i rfl
    exact ⟨s', h1, h2⟩

example : ∃ s, run ⟨false, 0, 2⟩ (start ⟨0, 0, 0, 0, 0, str "topo", str "coords"⟩ fun _ => []) (sample.take 3) = .done s ∧ s.out.length = 4 :=
  ⟨_, rfl, rfl⟩

/-- **C139** (partial): the file starts with the document exported last under its name, and is that document if neither
an earlier document of that name nor the file before the program was longer. -/
theorem C139_content_partial (env : Env) (ex : Exporter) (d0 : List Byte → List Byte) (evs : List Event) (s : St)
    (h : run env (start ex d0) evs = .done s) (ho : s.out = []) (a b : List (List Byte × List Byte)) (p T : List Byte)
    (he : exports env ex evs = a ++ (p, T) :: b) (hb : ∀ U, (p, U) ∉ b) :
    T <+: s.disk p ∧ ((d0 p).length ≤ T.length → (∀ U, (p, U) ∈ a → U.length ≤ T.length) → s.disk p = T) := by
  have e : s.disk p = over (settle d0 a p) T := by
    rw [C139_files env ex d0 evs s h ho, he, settle_append, show (p, T) :: b = [(p, T)] ++ b from rfl, settle_append, settle_none _ b p hb]
    unfold settle
    rw [List.foldl_cons, List.foldl_nil, if_pos rfl]
  refine ⟨⟨_, e.symm⟩, fun h1 h2 => ?_⟩
  have hl : ∀ (a : List (List Byte × List Byte)) (f : List Byte), f.length ≤ T.length → (∀ U, (p, U) ∈ a → U.length ≤ T.length) →
      (a.foldl (fun f x => if x.1 = p then over f x.2 else f) f).length ≤ T.length := by
    intro a
    induction a with
    | nil => intro f hf _; exact hf
    | cons x a ih =>
      intro f hf hx
      rw [List.foldl_cons]
      refine ih _ ?_ fun U hU => hx U (List.mem_cons_of_mem _ hU)
      split
      · rename_i hp
        have := hx x.2 (by rw [← hp]; exact List.mem_cons_self)
        unfold over
        rw [List.length_append, List.length_drop]; omega
      · exact hf
  rw [e]
  unfold over
  rw [List.drop_of_length_le (show (settle d0 a p).length ≤ T.length from hl a (d0 p) h1 h2), List.append_nil]

example : ∃ a T b, exports ⟨false, 1, 2⟩ ⟨0, 0, 0, 0, 0, str "topo", str "coords"⟩ sample = a ++ (vtuName (str "u_1.pvtu") 1, T) :: b ∧ b = [] :=
  ⟨[_], _, [], rfl, rfl⟩

/-- **C139** fails: exporting fewer fields under the same name leaves the end of the longer document behind the new one. -/
theorem C139_violated : ¬ C139Statement := by
  intro h
  let env : Env := ⟨false, 1, 2⟩
  let ex : Exporter := ⟨0, 0, 0, 0, 0, [], []⟩
  let e1 : Event := .call (.exportSol (str "u") [⟨str "p", [0]⟩] 1 fun _ => [])
  let e2 : Event := .call (.exportSol (str "u") [] 1 fun _ => [])
  obtain ⟨enc, henc⟩ : ∃ enc, [FieldDef.mk (str "p") [0]].mapM (encodeField false fun _ => []) = some enc := ⟨_, rfl⟩
  obtain ⟨s, hs, ho⟩ : ∃ s, run env (start ex fun _ => []) ([e1] ++ List.replicate 5 (.complete 0) ++ [e2] ++ List.replicate 4 (.complete 0)) = .done s ∧ s.out = [] :=
    ⟨_, rfl, rfl⟩
  have hx : exports env ex ([e1] ++ List.replicate 5 (.complete 0) ++ [e2] ++ List.replicate 4 (.complete 0)) =
      [(vtuName (str "u") 1, document ex [⟨str "p", [0]⟩] enc)] ++ (vtuName (str "u") 1, document ex [] []) :: [] := by
    have h1 : exported env ex (.exportSol (str "u") [⟨str "p", [0]⟩] 1 fun _ => []) = [(vtuName (str "u") 1, document ex [⟨str "p", [0]⟩] enc)] := by
      rw [exported_sol, if_neg (by decide), henc]; rfl
    have h2 : exported env ex (.exportSol (str "u") [] 1 fun _ => []) = [(vtuName (str "u") 1, document ex [] [])] := rfl
    rw [← h1, ← h2]; rfl
  have h3 := h env ex _ _ s hs ho _ _ _ _ hx (by simp) rfl
  have h4 := congrFun (C139_files env ex _ _ s hs ho) (vtuName (str "u") 1)
  rw [h3, hx] at h4
  have h5 := congrArg List.length h4
  unfold settle at h5
  rw [List.cons_append, List.nil_append, List.foldl_cons, List.foldl_cons, List.foldl_nil, if_pos rfl, if_pos rfl] at h5
  unfold over at h5
  rw [List.length_append, List.length_drop, List.length_append] at h5
  dsimp only at h5
  have hlt : (document ex [] []).length < (document ex [⟨str "p", [0]⟩] enc).length := by
    obtain ⟨b, rfl⟩ : ∃ b, enc = [b] := by
      have := henc
      cases this
      exact ⟨_, rfl⟩
    unfold document description
    simp only [List.map_cons, List.map_nil, List.zip_nil_right, List.foldl_nil, List.zip_cons_cons, List.foldl_cons, appendDataArray, List.length_append,
      List.flatten_cons, List.flatten_nil, List.length_nil]
    have hv : (vectorsAttr []).length = 0 := rfl
    have hsc : (scalarsAttr []).length = 0 := rfl
    have hd : 0 < (dataArray (str "Float64") (str "p") (numComps ⟨str "p", [0]⟩) (describeMesh ex).2).length := by
      unfold dataArray
      rw [List.length_append]
      have : 0 < (str "  </DataArray>\n").length := by decide
      omega
    omega
  omega

/-- **C139** (exceptions), full statement: an export which throws changes no file. -/
def C139ThrowStatement : Prop := ∀ (env : Env) (ex : Exporter) (d0 : List Byte → List Byte) (evs : List Event) (s t u : St) (c : Call) (k : List Nat),
  run env (start ex d0) evs = .done s → s.out = [] → step env s (.call c) = .threw t →
    run env t (k.map .complete) = .done u → u.disk = s.disk

/-- **C139** (exceptions, partial): with a field index out of range the call throws and leaves exporter and files as
they are; on ranks other than 0 no file changes in any case. -/
theorem C139_throw_partial (env : Env) (s : St) (hal : s.alive = true) (name : List Byte) (fields : List FieldDef) (nFields : Nat)
    (sol : Nat → List Base64.Val) :
    ((∃ f ∈ fields, ∃ i ∈ f.inds, nFields ≤ i) → step env s (.call (.exportSol name fields nFields sol)) = .threw s) ∧
    (env.rank ≠ 0 → s.out = [] → ∀ t, step env s (.call (.exportSol name fields nFields sol)) = .threw t → t = s) := by
  have hstep : step env s (.call (.exportSol name fields nFields sol)) = ExpRun.exportSol env s name fields nFields sol := by
    rw [step_call, if_neg (by rw [hal]; decide)]; rfl
  rw [hstep]
  constructor
  · rintro ⟨f, hf, i, hi, hn⟩
    unfold ExpRun.exportSol
    rw [if_pos]
    rw [List.all_eq_false]
    refine ⟨f, hf, ?_⟩
    rw [Bool.not_eq_true, List.all_eq_false]
    exact ⟨i, hi, by simpa using hn⟩
  · intro hr ho t ht
    unfold ExpRun.exportSol at ht
    split at ht
    · cases ht; rfl
    · rw [if_neg (not_not.2 ho)] at ht
      cases he : fields.mapM (encodeField env.avx sol) with
      | none =>
        rw [he] at ht
        cases ht
        rw [pvtuPending, if_neg hr, ← ho]
      | some enc => rw [he] at ht; cases ht

example : ∃ f ∈ [FieldDef.mk (str "p") [0], FieldDef.mk (str "v") [1, 5]], ∃ i ∈ f.inds, 3 ≤ i := by simp

/-- **C139** (exceptions) fails: a group of fields which is neither a scalar nor a vector is found out after the parallel file
has been sent on its way: rank 0 replaces it, no piece file is written. -/
theorem C139_throw_violated : ¬ C139ThrowStatement := by
  intro h
  let env : Env := ⟨false, 0, 2⟩
  let ex : Exporter := ⟨0, 0, 0, 0, 0, [], []⟩
  let c : Call := .exportSol (str "u") [⟨str "p", []⟩] 1 fun _ => []
  obtain ⟨t, ht⟩ : ∃ t, step env (start ex fun _ => []) (.call c) = .threw t := ⟨_, rfl⟩
  obtain ⟨u, hu, ho⟩ : ∃ u, run env (start ex fun _ => []) [.call c, .complete 0] = .done u ∧ u.out = [] := ⟨_, rfl, rfl⟩
  have hu' : run env t ([0].map .complete) = .done u := by
    rw [run, ht] at hu; exact hu
  have h1 := h env ex (fun _ => []) [] _ t u c [0] rfl rfl ht hu'
  have h2 := C139_files env ex (fun _ => []) _ u hu ho
  have hx : exports env ex [.call c, .complete 0] = [(pvtuName (str "u"), pvtuFile (str "u") 2 [⟨str "p", []⟩])] := rfl
  rw [h1, hx] at h2
  have h3 := congrArg List.length (congrFun h2 (pvtuName (str "u")))
  unfold settle at h3
  rw [List.foldl_cons, List.foldl_nil, if_pos rfl] at h3
  unfold over at h3
  rw [List.length_append] at h3
  change 0 = _ at h3
  dsimp only at h3
  have hp : 0 < (pvtuFile (str "u") 2 [⟨str "p", []⟩]).length := by
    unfold pvtuFile pvtuContents
    rw [List.length_append]
    have : 0 < pvtuPostamble.length := by decide
    omega
  omega

end Verif.ExpRun
