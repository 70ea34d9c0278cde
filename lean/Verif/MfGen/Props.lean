import Verif.MfGen.Grid
import Verif.MfPipe.Props
import Verif.Convert.Example

/-!
# C122: meshes of any order made by the library can be used matrix-free

A local view (C85) exists for an element if the nodes inside it have consecutive numbers on the rank.  Conversion to higher order numbers them so, and partitioning
and reordering keep it, whatever METIS returns.
-/
namespace Verif.MfGen
open Verif Verif.Elem Verif.Split Verif.Mesh Verif.Partition Verif.Pipeline Verif.LocView Verif.Convert Verif.Gen Verif.MfPipe Verif.Prim Verif.Basis Verif.Poly Verif.Lsq Verif.MatFree Verif.MfInit

noncomputable section

/-- Full statement of **C122**, for meshes meeting `P`: on every rank the views of a matrix-free system can be built, provided numbers fit into 32 bits. -/
def C122Statement (P : DomMap → List Nat → Prop) : Prop :=
  ∀ (kinds : List (ElType × Nat)) (m : DomMap) (bnds : List Nat) (D N : Nat), MeshOk kinds m bnds D → OneSided m bnds → MfMesh m bnds → (∀ x, NodeIn m x ↔ x < N) → Small m N →
    P m bnds → ∀ p : Prog, p.Ok m bnds → (∀ K ∈ p.kernels, ∀ k ∈ K.doms, k ∉ bnds) → ∀ nParts parts f, Run Monotone kinds m bnds N nParts parts f → ∀ r < nParts,
    (rankEvals kinds p parts bnds r (fun _ => id) (fun _ _ => id) (fun _ _ _ => (id, id))).isSome = true

variable {kinds : List (ElType × Nat)} {m : DomMap} {bnds : List Nat} {D N nParts : Nat} {parts : List Split.Part} {f : Nat → Nat}

/-- **C122** (labels).  Whatever labels METIS returns for the condensed mesh, every node of the whole mesh gets a valid label - no entry of the result
array is left as it was allocated - and the nodes inside an element get its label. -/
theorem C122_labels (hm : MeshOk kinds m bnds D) (hI : Inner m bnds) (hN : ∀ x, NodeIn m x ↔ x < N) {init epart npartCond perm : List Nat}
    (hl : MetisOut m bnds N nParts init epart npartCond perm) :
    Labels m bnds nParts epart (nodeLabels m bnds N init epart npartCond) perm ∧
    ∀ (j : Nat) e, (visitIds m (domainIds m bnds))[j]? = some e → ∀ x ∈ internalNodes e, (nodeLabels m bnds N init epart npartCond)[x]? = epart[j]? :=
  have h := labels_of_metis hm hI hN hl
  ⟨h.1, h.2.2⟩

/-- **C122** (partitioning).  Partitioning succeeds for whatever METIS returns; the result is one of the outcomes for which C113 and C121 are stated. -/
theorem C122_partitions_partial (hm : MeshOk kinds m bnds D) (hone : OneSided m bnds) (hI : Inner m bnds) (hN : ∀ x, NodeIn m x ↔ x < N) {init epart npartCond perm : List Nat}
    (hl : MetisOut m bnds N nParts init epart npartCond perm) {shuffle : List (Nat × Nat × Element) → List (Nat × Nat × Element)} {ord : Nat → Nat → List Element → List Element}
    (hshuf : ∀ l, (shuffle l).Perm l) (hord : ∀ i k l, (ord i k l).Perm l) :
    ∃ parts φ, partitionImpl kinds m bnds nParts epart (nodeLabels m bnds N init epart npartCond) perm shuffle ord = some (parts, φ) ∧
      Outcome Monotone kinds m bnds nParts parts fun x => (φ.find x).getD 0 := by
  have hlab := (labels_of_metis hm hI hN hl).1
  obtain ⟨parts, φ, _, _, h, _⟩ := partition_more hm hone hlab shuffle ord hshuf hord
  exact ⟨parts, φ, h, .parts nParts epart _ perm hlab shuffle ord hshuf hord parts φ h⟩

/-- **C122** (nodes inside elements).  On every rank, the nodes inside each element of a domain have consecutive local indices, in element order, and are owned by the rank. -/
theorem C122_internal_nodes_partial (hm : MeshOk kinds m bnds D) (hone : OneSided m bnds) (hI : Inner m bnds) (hN : ∀ x, NodeIn m x ↔ x < N)
    (hr : Run Monotone kinds m bnds N nParts parts f) {r k : Nat} (hk : k ∉ bnds) {e : Element} (he : InDom (part parts r).doms k e) :
    InternalContiguous (part parts r).own e ∧ ∀ x ∈ internalNodes e, (part parts r).own.isOwned x = true := by
  obtain ⟨maps, R, hB⟩ := run_blocks hm hone hI hN hr
  refine ⟨contiguous_of_blocks R hB hk he, ?_⟩
  rw [part_doms R, inDom_mapDoms] at he
  obtain ⟨e0, he0, rfl⟩ := he
  obtain ⟨M, hM⟩ := hB r k e0 hk he0
  intro x hx
  obtain ⟨i, hi, rfl⟩ := List.mem_map.1 hx
  change i ∈ internalInds e0.ty e0.n at hi
  obtain ⟨j, hj, rfl⟩ := List.mem_iff_getElem.1 hi
  have hlt := internal_lt (R.els e0 (inDom_holds (inDom_mapAt R he0).2.2)) hi
  change (part parts r).own.isOwned ((e0.nodes.map f).getD (internalInds e0.ty e0.n)[j] 0) = true
  rw [List.getD_eq_getElem?_getD, List.getElem?_map, List.getElem?_eq_getElem hlt]
  have := hM j hj
  rw [getElem_getD hlt] at this
  change (part parts r).own.isOwned (f e0.nodes[(internalInds e0.ty e0.n)[j]]) = true
  rw [this.1]
  exact this.2

/-- **C122** (sizes).  What C121 asks of every rank follows from the size of the whole mesh. -/
theorem C122_fits_partial (hm : MeshOk kinds m bnds D) (hone : OneSided m bnds) (hI : Inner m bnds) (hN : ∀ x, NodeIn m x ↔ x < N) (hs : Small m N)
    (hr : Run Monotone kinds m bnds N nParts parts f) {r : Nat} (hrn : r < nParts) : Fits bnds (part parts r) := by
  obtain ⟨maps, R, hB⟩ := run_blocks hm hone hI hN hr
  exact fits_of_mesh R hrn hs.1 hs.2 fun k e hk he => contiguous_of_blocks R hB hk he

/-- **C122** (views).  `C122Statement` for meshes in which nodes inside elements are numbered consecutively and are not shared. -/
theorem C122_views_partial : C122Statement Inner := by
  intro kinds m bnds D N hm hone hmf hN hs hI p hp hk nParts parts f hr r hrn
  obtain ⟨a, b, h, _⟩ := C121_evaluations_partial hm hone hmf hp hk (run_outcome hm hI hN hr) hrn (C122_fits_partial hm hone hI hN hs hr hrn) (ordM := fun _ => id)
    (fun _ _ => List.Perm.refl _) (ord := fun _ _ => id) (fun _ _ _ => List.Perm.refl _) (ords := fun _ _ _ => (id, id)) (fun _ _ _ _ => List.Perm.refl _)
  rw [h]; rfl

/-- What can be done matrix-free with a mesh of order `n - 1`, `N` nodes: any program, on any run of `distributeMesh`, evaluates on every rank what is assembled there. -/
def Usable (n : Nat) (m : DomMap) (bnds : List Nat) (N : Nat) : Prop :=
  ∀ p : Prog, p.Ok m bnds → (∀ K ∈ p.kernels, ∀ k ∈ K.doms, k ∉ bnds) → ∀ nParts parts f, Run Monotone (kindsOf n) m bnds N nParts parts f → ∀ r < nParts,
    ∀ ordM ord ords, (∀ k l, (ordM k l).Perm l) → (∀ s k l, (ord s k l).Perm l) → (∀ s j k l, ((ords s j k).2 l).Perm l) →
    ∃ a b, rankEvals (kindsOf n) p parts bnds r ordM ord ords = some (a, b) ∧ (a ++ b).Perm (p.rankElems parts r) ∧ ∀ el ∈ a, ∀ d ∈ el.dofs, d < (p.setup parts).numOwned r

theorem usable_of {n : Nat} (R : Ready n m bnds D N) (hI : Inner m bnds) (hmf : MfMesh m bnds) (hs : Small m N) : Usable n m bnds N := by
  intro p hp hk nParts parts f hr r hrn ordM ord ords h1 h2 h3
  exact C121_evaluations_partial R.ok R.one hmf hp hk (run_outcome R.ok hI R.nodes hr) hrn (C122_fits_partial R.ok R.one hI R.nodes hs hr hrn) h1 h2 h3

/-- Distribute the mesh in one way and solve matrix-free, distribute it in any other way and assemble: the systems can be set up, and have the same solutions. -/
def MfAnswer (n : Nat) (m : DomMap) (bnds : List Nat) (N : Nat) : Prop :=
  ∀ p : Prog, p.Ok m bnds → (∀ K ∈ p.kernels, ∀ k ∈ K.doms, k ∉ bnds) → ∀ nParts parts f, Run Monotone (kindsOf n) m bnds N nParts parts f →
    ∀ nParts' parts' f', Run Monotone (kindsOf n) m bnds N nParts' parts' f' → ∀ (ordM : Nat → Nat → List Element → List Element)
    (ord : Nat → Bool → Nat → List Element → List Element) (ords : Nat → Bool → Nat → Orders), (∀ r k l, (ordM r k l).Perm l) → (∀ r s k l, (ord r s k l).Perm l) →
    (∀ r s j k l, ((ords r s j k).2 l).Perm l) →
    ∃ a b : Nat → List LElem, (∀ r < nParts, rankEvals (kindsOf n) p parts bnds r (ordM r) (ord r) (ords r) = some (a r, b r)) ∧
      ∀ els' : Nat → List LElem, (∀ r, (els' r).Perm (p.rankElems parts' r)) → ∀ (vals vals' : Nat → Nat → Nat → ℝ) (v v' : Nat → Nat → ℝ),
      p.Values m parts f v → p.Values m parts' f' v' → ∀ nc c : Nat, c < nc →
      (∀ q < nParts, ∀ d < (p.l2g parts q).length, p.constrained parts ((p.l2g parts q).getD d 0) → vals q d c = v ((p.l2g parts q).getD d 0) c) →
      ∀ (x y : Nat → Nat → ℝ) (x' : Nat → ℝ) (ups ups' : Nat → List ((Nat × Nat) × ℝ)),
      (∀ q < nParts, IsOrder (p.rank parts (fun r => a r ++ b r) vals q).toI.toRank x nc 1 (ups q)) →
      (∀ q < nParts, (ups' q).Perm (rhsIncs (p.rank parts (fun r => a r ++ b r) vals q).toI nc)) →
      (∀ k, p.unknown m k → x (p.dof parts (f k.1, k.2)) c = x' (p.dof parts' (f' k.1, k.2))) →
      ((∀ me < nParts, ∀ loc < (p.setup parts).numOwned me,
        result nParts (fun q => (p.rank parts (fun r => a r ++ b r) vals q).toI.toRank)
            (fun q => rankMem (p.rank parts (fun r => a r ++ b r) vals q).toI.toRank y 0 (ups q)) me loc c =
          finalRhs nParts (fun q => (p.rank parts (fun r => a r ++ b r) vals q).toI) ups' me loc c) ↔
        Solution p parts' els' vals' v' c x')

theorem answer_of {n : Nat} (R : Ready n m bnds D N) (hI : Inner m bnds) (hmf : MfMesh m bnds) (hs : Small m N) : MfAnswer n m bnds N := by
  classical
  intro p hp hk nParts parts f hr nParts' parts' f' hr' ordM ord ords h1 h2 h3
  have hu := usable_of R hI hmf hs p hp hk nParts parts f hr
  have hab : ∀ r, ∃ ab : List LElem × List LElem, if r < nParts then rankEvals (kindsOf n) p parts bnds r (ordM r) (ord r) (ords r) = some ab else ab = ([], []) := by
    intro r
    by_cases h : r < nParts
    · obtain ⟨a, b, h4, _⟩ := hu r h (ordM r) (ord r) (ords r) (h1 r) (h2 r) (h3 r)
      exact ⟨(a, b), by rw [if_pos h]; exact h4⟩
    · exact ⟨([], []), by rw [if_neg h]⟩
  choose ab hab using hab
  refine ⟨fun r => (ab r).1, fun r => (ab r).2, fun r h => by have := hab r; rwa [if_pos h] at this, ?_⟩
  intro els' hels' vals vals' v v' hv hv' nc c hc hvals x y x' ups ups' hups hups' hx
  exact C121_same_answer_partial R.ok R.one hmf hp hk (run_outcome R.ok hI R.nodes hr) (run_outcome R.ok hI R.nodes hr')
    (fun r h => C122_fits_partial R.ok R.one hI R.nodes hs hr h) h1 h2 h3 (fun r h => by have := hab r; rwa [if_pos h] at this)
    (fun r h => by have := hab r; rw [if_neg (by omega)] at this; simp [this]) hels' vals vals' hv hv' nc c hc hvals x y x' ups ups' hups hups' hx

/-- **C122** (any mesh).  Converting a valid conforming mesh, in which only boundaries have elements of lower dimension, to any order gives a mesh that can be used matrix-free. -/
theorem C122_conversion {n : Nat} {roots : List ℂ} {adj : Nat → List Nat} {nOld : Nat} {X : Nat → Nat → ℝ} {M : DMap VData} {dim : Nat}
    (W : Convert.WfMesh M) (G : GeoMesh n roots adj nOld X ((visit M).map (·.2))) (R : Ready 2 (toMesh 2 M) bnds dim nOld)
    (htop : ∀ q ∈ visit M, q.1 ∉ bnds → ∀ q' ∈ visit M, q'.2.ty.dim ≤ q.2.ty.dim) (hb : ∀ b ∈ bnds, b < invalidDom) :
    ∃ M' N, generate n (physLoc roots) closeTol adj nOld M = some (M', N) ∧ Ready n (toMesh n M') bnds dim N ∧ Inner (toMesh n M') bnds ∧ 
      (Small (toMesh n M') N → Usable n (toMesh n M') bnds N ∧ MfAnswer n (toMesh n M') bnds N) := by
  obtain ⟨M', N, h1, h2, h3, h4, _⟩ := mf_conversion W G R htop hb
  exact ⟨M', N, h1, h2, h3, fun hs => ⟨usable_of h2 h3 h4 hs, answer_of h2 h3 h4 hs⟩⟩

variable {n : Nat} {roots : List ℂ} {adj : Nat → List Nat} {nx ny nz : Nat} {dx dy dz : Nat → ℝ}

/-- **C122** (line).  Every line mesh, of any order, can be used matrix-free on any number of ranks. -/
theorem C122_line (ho : OrderOk n roots 1) (hx : AxisOk n roots nx dx) (dom : Nat)
    (hadj : ∀ m, makeLine nx dx dom = some m → DualOf adj (withData (coordsOf (lineEmits nx dx dom)) m)) (hsz : n * (nx - 1) < 2 ^ 32 - 1) :
    ∃ M N, lineOfOrder n (physLoc roots) closeTol adj nx dx dom = some (M, N) ∧ Ready n (toMesh n M) [] 0 N ∧ Usable n (toMesh n M) [] N ∧ MfAnswer n (toMesh n M) [] N := by
  have hg := line_grid hx.size dom
  have he := lineEmits_eq nx dx dom
  obtain ⟨m, h1, h2⟩ := built_of (P := ![dx, fun _ => 0, fun _ => 0]) hg [dom]
  have hm : makeLine nx dx dom = some m := by rw [makeLine, he]; exact h1
  have := mf_grid (N := n) (roots := roots) (adj := adj) (bnds := []) hg h2 ?_ ho.two ho.bound ho.eig ?_ ?_ List.Pairwise.nil (fun _ h => absurd h List.not_mem_nil) ?_
    (fun _ h => absurd h List.not_mem_nil)
  · obtain ⟨M, N, h3, h4, h5, h6, h7⟩ := this
    have hs := h7 (by
      have : n ^ (axes wx).length * (lineBoxes nx dom).length = n * (nx - 1) := by
        rw [show (axes wx).length = 1 by decide]; simp [lineBoxes]
      rw [this]; exact hsz)
    refine ⟨M, N, ?_, h4, usable_of h4 h5 h6 hs, answer_of h4 h5 h6 hs⟩
    rw [lineOfOrder, hm, Option.bind_some, he]
    simpa using h3
  · intro c i hi
    fin_cases c
    · exact hx.inc i hi
    · exact absurd hi (by simp)
    · exact absurd hi (by simp)
  · intro c
    fin_cases c
    · exact hx.sep
    · exact zero_sep n roots
    · exact zero_sep n roots
  · have := hadj m hm
    rw [he] at this
    exact this
  · intro q hq
    obtain ⟨i, _, rfl⟩ := List.mem_map.1 hq
    exact .inl rfl

/-- **C122** (square).  Every square mesh, of any order, can be used matrix-free on any number of ranks. -/
theorem C122_square (ho : OrderOk n roots 2) (hx : AxisOk n roots nx dx) (hy : AxisOk n roots ny dy) {ids : SquareIds}
    (hd : ids.domain ∉ [ids.bottom, ids.top, ids.left, ids.right]) (hv : ∀ b ∈ squareBnds ids, b < invalidDom)
    (hadj : ∀ m, makeSquare nx ny dx dy ids = some m → DualOf adj (withData (coordsOf (squareEmits nx ny dx dy ids)) m))
    (hsz : n ^ 2 * ((nx - 1) * (ny - 1) + 2 * (nx - 1) + 2 * (ny - 1)) < 2 ^ 32 - 1) :
    ∃ M N, squareOfOrder n (physLoc roots) closeTol adj nx ny dx dy ids = some (M, N) ∧ Ready n (toMesh n M) (squareBnds ids) 1 N ∧
      Usable n (toMesh n M) (squareBnds ids) N ∧ MfAnswer n (toMesh n M) (squareBnds ids) N := by
  have hg := square_grid hx.size hy.size hd
  have he := squareEmits_eq nx ny dx dy ids
  obtain ⟨m, h1, h2⟩ := built_of (P := ![dx, dy, fun _ => 0]) hg ids.list
  have hm : makeSquare nx ny dx dy ids = some m := by rw [makeSquare, he]; exact h1
  have hmem := (C119_boundaries (nx := nx) (ny := ny) (nz := 2) (dx := dx) (dy := dy) (dz := fun _ => 0) ids ⟨0, 0, 0, 0, 0, 0, 0⟩)
  have := mf_grid (N := n) (roots := roots) (adj := adj) (bnds := squareBnds ids) hg h2 ?_ ho.two ho.bound ho.eig ?_ ?_ (Std.sortUniq_strict _) ?_ ?_ hv
  · obtain ⟨M, N, h3, h4, h5, h6, h7⟩ := this
    have hs := h7 (by rw [squareBoxes_length]; exact hsz)
    refine ⟨M, N, ?_, h4, usable_of h4 h5 h6 hs, answer_of h4 h5 h6 hs⟩
    rw [squareOfOrder, hm, Option.bind_some, he]
    simpa using h3
  · intro c i hi
    fin_cases c
    · exact hx.inc i hi
    · exact hy.inc i hi
    · exact absurd hi (by simp)
  · intro c
    fin_cases c
    · exact hx.sep
    · exact hy.sep
    · exact zero_sep n roots
  · have := hadj m hm
    rw [he] at this
    exact this
  · intro b hb
    refine ⟨fun h => hd (h ▸ Std.mem_sortUniq.1 hb), ?_⟩
    obtain ⟨ev, hev, rfl⟩ := hmem.2.2.1 hx.size hy.size b hb
    rw [he] at hev
    obtain ⟨q, hq, rfl⟩ := List.mem_map.1 hev
    exact ⟨q.2, hq⟩
  · intro q hq
    rw [hmem.1]
    rcases (mem_squareBoxes q).1 hq with ⟨_, _, _, _, rfl⟩ | ⟨_, _, rfl | rfl⟩ | ⟨_, _, rfl | rfl⟩ <;> simp

/-- **C122** (cube).  Every cube mesh, of any order, can be used matrix-free on any number of ranks. -/
theorem C122_cube (ho : OrderOk n roots 3) (hx : AxisOk n roots nx dx) (hy : AxisOk n roots ny dy) (hz : AxisOk n roots nz dz) {ids : CubeIds}
    (hd : ids.domain ∉ [ids.back, ids.front, ids.bottom, ids.top, ids.left, ids.right]) (hv : ∀ b ∈ cubeBnds ids, b < invalidDom)
    (hadj : ∀ m, makeCube nx ny nz dx dy dz ids = some m → DualOf adj (withData (coordsOf (cubeEmits nx ny nz dx dy dz ids)) m))
    (hsz : n ^ 3 * ((nx - 1) * (ny - 1) * (nz - 1) + 2 * ((nx - 1) * (ny - 1)) + 2 * ((nx - 1) * (nz - 1)) + 2 * ((ny - 1) * (nz - 1))) < 2 ^ 32 - 1) :
    ∃ M N, cubeOfOrder n (physLoc roots) closeTol adj nx ny nz dx dy dz ids = some (M, N) ∧ Ready n (toMesh n M) (cubeBnds ids) 2 N ∧
      Usable n (toMesh n M) (cubeBnds ids) N ∧ MfAnswer n (toMesh n M) (cubeBnds ids) N := by
  have hg := cube_grid hx.size hy.size hz.size hd
  have he := cubeEmits_eq nx ny nz dx dy dz ids
  obtain ⟨m, h1, h2⟩ := built_of (P := ![dx, dy, dz]) hg ids.list
  have hm : makeCube nx ny nz dx dy dz ids = some m := by rw [makeCube, he]; exact h1
  have hmem := (C119_boundaries (nx := nx) (ny := ny) (nz := nz) (dx := dx) (dy := dy) (dz := dz) ⟨0, 0, 0, 0, 0⟩ ids)
  have := mf_grid (N := n) (roots := roots) (adj := adj) (bnds := cubeBnds ids) hg h2 ?_ ho.two ho.bound ho.eig ?_ ?_ (Std.sortUniq_strict _) ?_ ?_ hv
  · obtain ⟨M, N, h3, h4, h5, h6, h7⟩ := this
    have hs := h7 (by rw [cubeBoxes_length]; exact hsz)
    refine ⟨M, N, ?_, h4, usable_of h4 h5 h6 hs, answer_of h4 h5 h6 hs⟩
    rw [cubeOfOrder, hm, Option.bind_some, he]
    simpa using h3
  · intro c i hi
    fin_cases c
    · exact hx.inc i hi
    · exact hy.inc i hi
    · exact hz.inc i hi
  · intro c
    fin_cases c
    · exact hx.sep
    · exact hy.sep
    · exact hz.sep
  · have := hadj m hm
    rw [he] at this
    exact this
  · intro b hb
    refine ⟨fun h => hd (h ▸ Std.mem_sortUniq.1 hb), ?_⟩
    obtain ⟨ev, hev, rfl⟩ := hmem.2.2.2 hx.size hy.size hz.size b hb
    rw [he] at hev
    obtain ⟨q, hq, rfl⟩ := List.mem_map.1 hev
    exact ⟨q.2, hq⟩
  · intro q hq
    rw [hmem.2.1]
    rcases (mem_cubeBoxes q).1 hq with ⟨_, _, _, _, _, _, rfl⟩ | ⟨_, _, _, _, rfl | rfl⟩ | ⟨_, _, _, _, rfl | rfl⟩ | ⟨_, _, _, _, rfl | rfl⟩ <;> simp

/-! ## Concrete cases -/

/-- A square of 3 by 2 quadratic elements can be used matrix-free. -/
example : ∃ M N, squareOfOrder 3 (physLoc []) closeTol (fun _ => List.range (squareBoxes 4 3 ⟨0, 1, 2, 3, 4⟩).length) 4 3 (fun i => (i : ℝ)) (fun i => (i : ℝ)) ⟨0, 1, 2, 3, 4⟩ = some (M, N) ∧
    Ready 3 (toMesh 3 M) (squareBnds ⟨0, 1, 2, 3, 4⟩) 1 N ∧ Usable 3 (toMesh 3 M) (squareBnds ⟨0, 1, 2, 3, 4⟩) N ∧ MfAnswer 3 (toMesh 3 M) (squareBnds ⟨0, 1, 2, 3, 4⟩) N := by
  have hg : IsGrid ![4, 3, 1] wxy 0 (squareBoxes 4 3 ⟨0, 1, 2, 3, 4⟩) := square_grid (nx := 4) (ny := 3) (ids := ⟨0, 1, 2, 3, 4⟩) (by decide) (by decide) (by unfold SquareIds.Ok; decide)
  exact C122_square (n := 3) (roots := []) (adj := fun _ => List.range (squareBoxes 4 3 ⟨0, 1, 2, 3, 4⟩).length) (ids := ⟨0, 1, 2, 3, 4⟩)
    ⟨by decide, by decide, fun h => absurd h (by decide)⟩ (ex_axis (k := 4) (by decide)) (ex_axis (k := 3) (by decide)) (by decide) (by decide +kernel) (fun m hm => by
      rw [makeSquare, squareEmits_eq] at hm
      rw [squareEmits_eq]
      exact ex_dual hg hm) (by decide)

/-- A cube of 2 by 1 by 1 quadratic elements; front and back are one boundary. -/
example : ∃ M N, cubeOfOrder 3 (physLoc []) closeTol (fun _ => List.range (cubeBoxes 3 2 2 ⟨7, 1, 1, 3, 4, 5, 6⟩).length) 3 2 2 (fun i => (i : ℝ)) (fun i => (i : ℝ)) (fun i => (i : ℝ)) ⟨7, 1, 1, 3, 4, 5, 6⟩ = some (M, N) ∧
    Ready 3 (toMesh 3 M) (cubeBnds ⟨7, 1, 1, 3, 4, 5, 6⟩) 2 N ∧ Usable 3 (toMesh 3 M) (cubeBnds ⟨7, 1, 1, 3, 4, 5, 6⟩) N ∧ MfAnswer 3 (toMesh 3 M) (cubeBnds ⟨7, 1, 1, 3, 4, 5, 6⟩) N := by
  have hg : IsGrid ![3, 2, 2] wxyz 7 (cubeBoxes 3 2 2 ⟨7, 1, 1, 3, 4, 5, 6⟩) := cube_grid (nx := 3) (ny := 2) (nz := 2) (ids := ⟨7, 1, 1, 3, 4, 5, 6⟩) (by decide) (by decide) (by decide) (by unfold CubeIds.Ok; decide)
  exact C122_cube (n := 3) (roots := []) (adj := fun _ => List.range (cubeBoxes 3 2 2 ⟨7, 1, 1, 3, 4, 5, 6⟩).length) (ids := ⟨7, 1, 1, 3, 4, 5, 6⟩)
    ⟨by decide, by decide, fun h => absurd h (by decide)⟩ (ex_axis (k := 3) (by decide)) (ex_axis (k := 2) (by decide)) (ex_axis (k := 2) (by decide)) (by decide) (by decide +kernel) (fun m hm => by
      rw [makeCube, cubeEmits_eq] at hm
      rw [cubeEmits_eq]
      exact ex_dual hg hm) (by decide)

/-- A line of 4 quadratic elements. -/
example : ∃ M N, lineOfOrder 3 (physLoc []) closeTol (fun _ => List.range (lineBoxes 5 2).length) 5 (fun i => (i : ℝ)) 2 = some (M, N) ∧ Ready 3 (toMesh 3 M) [] 0 N ∧
    Usable 3 (toMesh 3 M) [] N ∧ MfAnswer 3 (toMesh 3 M) [] N :=
  C122_line ⟨by decide, by decide, fun h => absurd h (by decide)⟩ (ex_axis (k := 5) (by decide)) 2 (fun m hm => by
    rw [makeLine, lineEmits_eq] at hm
    rw [lineEmits_eq]
    exact ex_dual (line_grid (by decide) 2) hm) (by decide)

/-- Two quadrilaterals of order 3 and an edge of the second one, as conversion numbers their nodes. -/
def cubicMesh : DomMap :=
  [(0, ⟨some 2, [[], [⟨.quad, 4, 0, [0, 6, 7, 1, 8, 14, 15, 9, 10, 16, 17, 11, 2, 12, 13, 3]⟩,
      ⟨.quad, 4, 1, [1, 18, 19, 4, 9, 24, 25, 20, 11, 26, 27, 21, 3, 22, 23, 5]⟩], []]⟩), (7, ⟨some 1, [[], [], [⟨.line, 4, 2, [4, 20, 21, 5]⟩]]⟩)]

/-- Integer positions of nodes of order up to 3. -/
def cubicLoc : Loc (Nat × Nat) (Nat × Nat)
  | .quad, n, p => (List.range (n * n)).map fun i => (6 * p.1 + 6 / (n - 1) * (i % n), 6 * p.2 + 6 / (n - 1) * (i / n))
  | .line, n, p => (List.range n).map fun i => (6 * p.1, 6 * p.2 + 6 / (n - 1) * i)
  | .hex, _, _ => []

/-- Conversion gives `cubicMesh`. -/
example : (convert 4 cubicLoc latClose Ex.adj 6
      [(0, ⟨some 2, [[], [⟨.quad, 0, [0, 1, 2, 3], (0, 0)⟩, ⟨.quad, 1, [1, 4, 3, 5], (1, 0)⟩], []]⟩), (7, ⟨some 1, [[], [], [⟨.line, 2, [4, 5], (2, 0)⟩]]⟩)]).map
      (fun r => (toMesh 4 r.1, r.2)) = some (cubicMesh, 28) := by decide +kernel

theorem cubic_ok : MeshOk (kindsOf 4) cubicMesh [7] 1 :=
  meshOk_of_all (wf_of_all (by decide) (by simp [OMap.Sorted, cubicMesh]) (by decide)) (by decide) (by decide) (by decide)
    (by decide) (by decide +kernel)

theorem cubic_one : OneSided cubicMesh [7] := oneSided_of_all cubic_ok.wf (by decide +kernel)

theorem cubic_nodes (x : Nat) : NodeIn cubicMesh x ↔ x < 28 := nodes_of_all (N := 28) (by decide) (by decide) x

theorem inner_of_all {m : DomMap} {bnds : List Nat}
    (h1 : ∀ d ∈ m, d.1 ∉ bnds → ∀ e ∈ d.2.elems, ∀ j ∈ List.range (internalInds e.ty e.n).length,
      e.nodes.getD ((internalInds e.ty e.n).getD j 0) 0 = e.nodes.getD ((internalInds e.ty e.n).getD 0 0) 0 + j)
    (h2 : ∀ d ∈ m, d.1 ∉ bnds → ∀ e ∈ d.2.elems, ∀ d' ∈ m, ∀ v ∈ d'.2.vecs, ∀ e' ∈ v, e'.id ≠ e.id → ∀ x ∈ internalNodes e, x ∉ e'.nodes) : Inner m bnds := by
  constructor
  · rintro k e hk ⟨d, hd, he⟩
    refine ⟨e.nodes.getD ((internalInds e.ty e.n).getD 0 0) 0, fun j hj => ?_⟩
    have := h1 _ (Mesh.mem_of_lookup hd) hk e he j (List.mem_range.2 hj)
    rwa [getElem_getD hj] at this
  · rintro k e hk ⟨d, hd, he⟩ e' ⟨d', hd', v, hv, he'⟩ hid
    exact h2 _ (Mesh.mem_of_lookup hd) hk e he d' hd' v hv e' he' hid

theorem cubic_inner : Inner cubicMesh [7] := inner_of_all (by decide +kernel) (by decide +kernel)

/-- Labels METIS might return for two ranks: the left half of the nodes of the condensed mesh goes to rank 1. -/
theorem cubic_metis : MetisOut cubicMesh [7] 28 2 (List.replicate 28 99) [1, 0] [1, 1, 1, 0, 0, 0, 1, 1, 1, 1, 1, 0, 1, 1, 0, 0, 0, 0, 0, 0] [0, 1] :=
  ⟨by decide +kernel, by decide, by decide +kernel, by decide, by decide, ⟨by decide, by decide +kernel⟩⟩

theorem cubic_mf : MfMesh cubicMesh [7] := by
  have h1 : ∀ d ∈ cubicMesh, ∀ v ∈ d.2.vecs, ∀ e ∈ v, 2 ≤ e.n ∧ e.nodes.Nodup := by decide
  have h : ∀ x ∈ visitIds cubicMesh [7], ∀ d ∈ cubicMesh, ∀ e ∈ d.2.elems, ∀ s < nSides e, (∃ l, sideNodes e s = some l ∧ l.Perm x.nodes) →
      ∀ d' ∈ cubicMesh, ∀ e' ∈ d'.2.elems, ∀ s' < nSides e', (∃ l, sideNodes e' s' = some l ∧ l.Perm x.nodes) → e = e' ∧ s = s' := by decide +kernel
  have lt : ∀ {e s l}, sideNodes e s = some l → s < nSides e := by
    intro e s l hl
    obtain ⟨inds, hi, _⟩ := Option.map_eq_some_iff.1 hl
    exact (List.getElem?_eq_some_iff.1 hi).1
  refine ⟨?_, by decide, ?_, ?_⟩
  · rintro e ⟨d, hd, v, hv, he⟩
    exact h1 d hd v hv e he
  · intro b hb x hx e s e' s' h1 h2
    obtain ⟨⟨d, hd, _, v, hv, he⟩, l, hl, hp⟩ := h1
    obtain ⟨⟨d', hd', _, v', hv', he'⟩, l', hl', hp'⟩ := h2
    exact h x (mem_visitIds.2 ⟨b, hb, hx⟩) d hd e (List.mem_flatten.2 ⟨v, hv, he⟩) s (lt hl) ⟨l, hl, hp⟩ d' hd' e' (List.mem_flatten.2 ⟨v', hv', he'⟩) s' (lt hl') ⟨l', hl', hp'⟩
  · intro b hb b' hb' x x' hx hx' _
    have h2 : ∀ x ∈ visitIds cubicMesh [7], ∀ x' ∈ visitIds cubicMesh [7], x = x' := by decide +kernel
    exact ⟨(List.mem_singleton.1 hb).trans (List.mem_singleton.1 hb').symm, h2 x (mem_visitIds.2 ⟨b, hb, hx⟩) x' (mem_visitIds.2 ⟨b', hb', hx'⟩)⟩

theorem small_of_all {m : DomMap} {N : Nat} (hN : N < 2 ^ 32) (h : ∀ d ∈ m, ∀ e ∈ d.2.elems, e.nodes.length * (domEls m d.1).length < 2 ^ 32 - 1) : Small m N :=
  ⟨hN, fun _ e ⟨_, hd, he⟩ => h _ (Mesh.mem_of_lookup hd) e he⟩

/-- Hypotheses of the theorems: two quadrilaterals of order 3 on two ranks. -/
example : ∃ parts f, Run Monotone (kindsOf 4) cubicMesh [7] 28 2 parts f ∧ MeshOk (kindsOf 4) cubicMesh [7] 1 ∧ OneSided cubicMesh [7] ∧ Inner cubicMesh [7] ∧
    MfMesh cubicMesh [7] ∧ Small cubicMesh 28 ∧ (∀ r < 2, Fits [7] (part parts r)) ∧
    nodeLabels cubicMesh [7] 28 (List.replicate 28 99) [1, 0] [1, 1, 1, 0, 0, 0, 1, 1, 1, 1, 1, 0, 1, 1, 0, 0, 0, 0, 0, 0] =
      [1, 1, 1, 0, 0, 0, 1, 1, 1, 1, 1, 0, 1, 1, 1, 1, 1, 1, 0, 0, 0, 0, 0, 0, 0, 0, 0, 0] := by
  obtain ⟨parts, φ, h, _⟩ := C122_partitions_partial cubic_ok cubic_one cubic_inner cubic_nodes cubic_metis (shuffle := id) (ord := fun _ _ => id)
    (fun _ => List.Perm.refl _) (fun _ _ _ => List.Perm.refl _)
  have hr : Run Monotone (kindsOf 4) cubicMesh [7] 28 2 parts _ := .parts 2 _ _ _ _ cubic_metis id (fun _ _ => id) (fun _ => List.Perm.refl _) (fun _ _ _ => List.Perm.refl _) _ φ h
  have hs : Small cubicMesh 28 := small_of_all (by decide) (by decide +kernel)
  exact ⟨parts, _, hr, cubic_ok, cubic_one, cubic_inner, cubic_mf, hs, fun r h => C122_fits_partial cubic_ok cubic_one cubic_inner cubic_nodes hs hr h, by decide +kernel⟩

/-- A quadrilateral of order 3; its left edge is a domain of its own, for example one with equations posed on it, and not a boundary. -/
def edgeMesh : DomMap :=
  [(0, ⟨some 2, [[], [⟨.quad, 4, 0, [0, 4, 5, 1, 6, 12, 13, 7, 8, 14, 15, 9, 2, 10, 11, 3]⟩], []]⟩), (1, ⟨some 1, [[], [], [⟨.line, 4, 1, [0, 6, 8, 2]⟩]]⟩)]

/-- Conversion gives `edgeMesh`. -/
example : (convert 4 cubicLoc latClose (fun i => if i = 0 then [1] else [0]) 4
      [(0, ⟨some 2, [[], [⟨.quad, 0, [0, 1, 2, 3], (0, 0)⟩], []]⟩), (1, ⟨some 1, [[], [], [⟨.line, 1, [0, 2], (0, 0)⟩]]⟩)]).map
      (fun r => (toMesh 4 r.1, r.2)) = some (edgeMesh, 16) := by decide +kernel

theorem edge_ok : MeshOk (kindsOf 4) edgeMesh [] 0 :=
  meshOk_of_all (wf_of_all (by decide) (by simp [OMap.Sorted, edgeMesh]) (by decide)) (by decide) (by decide) (by decide)
    (by decide) (by decide +kernel)

/-- One unknown in both domains, no kernels. -/
def edgeProg : Prog := ⟨1, [([0, 1], [0])], [], [], [], fun _ _ => 0⟩

/-- **C122** fails if a domain of lower dimension is not a boundary: the nodes inside its elements lie on sides of elements of higher dimension, are not
numbered consecutively, and no matrix-free system can be constructed, even on one rank, although an assembled one can. -/
theorem C122_lower_domain_violated : ¬ C122Statement fun _ _ => True := by
  intro h
  have h1 := h (kindsOf 4) edgeMesh [] 0 16 edge_ok (fun b hb => absurd hb List.not_mem_nil) ?_ (fun x => nodes_of_all (N := 16) (by decide) (by decide) x)
    (small_of_all (by decide) (by decide +kernel)) trivial edgeProg ?_ (fun K hK => absurd hK List.not_mem_nil) 1 _ id (.whole []) 0 (by decide)
  · have h2 : (rankEvals (kindsOf 4) edgeProg [⟨edgeMesh, ⟨0, 16, []⟩, []⟩] [] 0 (fun _ => id) (fun _ _ => id) (fun _ _ _ => (id, id))).isSome = false := by decide +kernel
    rw [h2] at h1
    exact absurd h1 (by decide)
  · have h2 : ∀ d ∈ edgeMesh, ∀ v ∈ d.2.vecs, ∀ e ∈ v, 2 ≤ e.n ∧ e.nodes.Nodup := by decide
    refine ⟨?_, fun b hb => absurd hb List.not_mem_nil, fun b hb => absurd hb List.not_mem_nil, fun b hb => absurd hb List.not_mem_nil⟩
    rintro e ⟨d, hd, v, hv, he⟩
    exact h2 d hd v hv e he
  · refine ⟨?_, fun K hK => absurd hK List.not_mem_nil, fun K hK => absurd hK List.not_mem_nil, fun K hK => absurd hK List.not_mem_nil,
      fun K hK => absurd hK List.not_mem_nil, fun K hK => absurd hK List.not_mem_nil, fun K hK => absurd hK List.not_mem_nil, fun K hK => absurd hK List.not_mem_nil⟩
    intro d hd j hj
    simp only [edgeProg, List.mem_cons, List.not_mem_nil, or_false] at hd
    subst hd
    obtain rfl := List.mem_singleton.1 hj
    exact Nat.one_pos

end
end Verif.MfGen
