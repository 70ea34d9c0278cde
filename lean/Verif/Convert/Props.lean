import Verif.Convert.Internal
import Verif.Convert.Geometry
/-! # Property C34: converting a mesh to higher order keeps it conforming -/
namespace Verif.Convert
open Verif Verif.Elem Verif.Mapping Verif.Basis Verif.Poly

noncomputable section

/-- Two elements have no point in common, or exactly the points of a common face: the faces have the same
vertices, and their edges correspond. The common face is not an entire element unless that element has the
lower dimension. -/
def Meets (e e' : El VData) : Prop :=
  (∀ ξ ξ', InCell e.ty ξ → InCell e'.ty ξ' → image e.ty e.data ξ ≠ image e'.ty e'.data ξ') ∨
  ∃ F F' ax flip, Glue e.ty e'.ty F F' ax ∧ free F ≤ highestDim e.ty e'.ty ∧
    (∀ k, k < 2 ^ e.ty.dim → onFace 2 F k = true → e.nodes.getD k 0 = e'.nodes.getD (glue 2 F' ax flip k) 0) ∧
    ∀ ξ ξ', InCell e.ty ξ → InCell e'.ty ξ' → image e.ty e.data ξ = image e'.ty e'.data ξ' → OnFaceR F ξ ∧ OnFaceR F' ξ'

/-- A valid conforming mesh of first-order elements: `nOld` is the number of its nodes, `X` their coordinates,
`adj` the dual graph; `n` is the target order plus one. -/
structure GeoMesh (n : Nat) (roots : List ℂ) (adj : Nat → List Nat) (nOld : Nat) (X : Nat → Nat → ℝ) (els : List (El VData)) : Prop where
  /-- Order at least 1; node indices fit `el_locind_t`. -/
  two : 2 ≤ n
  bound : ∀ e ∈ els, n ^ e.ty.dim < 2 ^ 16
  /-- The eigenvalue solver computes the Lobatto points (C65). -/
  eig : 4 ≤ n → LobattoRoots n roots
  wf : ∀ e ∈ els, WfEl e
  old : ∀ e ∈ els, ∀ v ∈ e.nodes, v < nOld
  ids : (els.map (·.id)).Nodup
  coords : ∀ e ∈ els, ∀ k, k < 2 ^ e.ty.dim → ∀ c, c < 3 → e.data k c = X (e.nodes.getD k 0) c
  /-- No element is folded onto itself. -/
  inj : ∀ e ∈ els, ∀ ξ ξ', InCell e.ty ξ → InCell e.ty ξ' → image e.ty e.data ξ = image e.ty e.data ξ' → ∀ a, a < e.ty.dim → ξ a = ξ' a
  meets : ∀ e ∈ els, ∀ e' ∈ els, e.id ≠ e'.id → Meets e e'
  /-- METIS: elements with two common nodes are adjacent. -/
  adj : ∀ e ∈ els, ∀ e' ∈ els, e.id ≠ e'.id → ShareTwo e e' → e'.id ∈ adj e.id
  /-- Different node positions are farther apart than the tolerance. -/
  sep : ∀ e ∈ els, ∀ e' ∈ els, ∀ p ∈ physLoc roots e.ty n e.data, ∀ q ∈ physLoc roots e'.ty n e'.data, closeTol p q = true → p = q

theorem closeTol_self (p : Pt) : closeTol p p = true := by
  simp [closeTol]; norm_num

section
variable {n : Nat} {roots : List ℂ} {adj : Nat → List Nat} {nOld : Nat} {X : Nat → Nat → ℝ} {els : List (El VData)}

theorem lob_two (roots : List ℂ) : Lob 2 (lobattoAbsc 2 roots) := lob_of 2 (by omega) roots (by omega)

theorem geo_of (G : GeoMesh n roots adj nOld X els) : Geo n (physLoc roots) closeTol adj nOld els := by
  have hn := G.two
  have L := lob_of n hn roots G.eig
  have L2 := lob_two roots
  have hpos := fun (e : El VData) {i : Nat} (hi : i < n ^ e.ty.dim) => pos_eq roots n L e hi
  have hin := fun (e : El VData) (i : Nat) => refPt_in (n := n) e.ty L (by omega) i
  -- the vertex of the reference cell
  have hvert : ∀ e ∈ els, ∀ k, k < 2 ^ e.ty.dim → ∀ c : Fin 3, image e.ty e.data (refPt e.ty 2 (lobattoAbsc 2 roots) k) c = X (e.nodes.getD k 0) c := by
    intro e he k hk c
    rw [← G.coords e he k hk c c.2]
    have := C81_vertices e.ty e.data k (by rw [nVerts_eq]; exact hk) c
    rw [nodePhysicalLocation] at this
    rw [← this]
    refine congrFun (image_congr e.ty e.data (ξ' := fun c => absc1 (k / 2 ^ c % 2)) fun a ha => ?_) c
    rw [refPt, if_pos ha]
    rcases Nat.mod_two_eq_zero_or_one (k / 2 ^ a) with h | h <;> rw [h]
    · rw [L2.getD_zero]; simp [absc1]
    · rw [show (1 : Nat) = 2 - 1 from rfl, L2.getD_last]; simp [absc1]
  have hcor : ∀ e ∈ els, ∀ k, k < 2 ^ e.ty.dim → ∀ c : Fin 3, image e.ty e.data (refPt e.ty n (lobattoAbsc n roots) (corner n k)) c = X (e.nodes.getD k 0) c := by
    intro e he k hk c
    rw [← hvert e he k hk c]
    exact congrFun (image_congr _ _ (refPt_corner L L2 hn k)) c
  have hcl := fun (e : El VData) (k : Nat) (hk : k < 2 ^ e.ty.dim) => corner_lt e.ty n k (by omega) hk
  have hinj : ∀ e ∈ els, ∀ i j, i < n ^ e.ty.dim → j < n ^ e.ty.dim →
      image e.ty e.data (refPt e.ty n (lobattoAbsc n roots) i) = image e.ty e.data (refPt e.ty n (lobattoAbsc n roots) j) → i = j := by
    intro e he i j hi hj h
    exact refPt_inj L (by omega) hi hj (G.inj e he _ _ (hin e i) (hin e j) h)
  -- nodes opposite to each other
  have hglue : ∀ e ∈ els, ∀ e' ∈ els, ∀ F F' ax flip, Glue e.ty e'.ty F F' ax →
      (∀ k, k < 2 ^ e.ty.dim → onFace 2 F k = true → e.nodes.getD k 0 = e'.nodes.getD (glue 2 F' ax flip k) 0) →
      ∀ i, onFace n F i = true →
        image e.ty e.data (refPt e.ty n (lobattoAbsc n roots) i) = image e'.ty e'.data (refPt e'.ty n (lobattoAbsc n roots) (glue n F' ax flip i)) := by
    intro e he e' he' F F' ax flip g hid i hi
    rw [image_glue (flip := flip) g (vert' := e'.data) ?_ ((refPt_on L hn g.mem1 i).2 hi)]
    · exact image_congr _ _ (glue_refPt L (by omega) g i)
    · intro k hk ok c hc
      rw [G.coords e he k hk c hc, G.coords e' he' _ (glue_lt g (by omega) k) c hc, hid k hk ok]
  have hvpos : ∀ e ∈ els, ∀ e' ∈ els, ∀ k l, k < 2 ^ e.ty.dim → l < 2 ^ e'.ty.dim → e.nodes.getD k 0 = e'.nodes.getD l 0 →
      image e.ty e.data (refPt e.ty n (lobattoAbsc n roots) (corner n k)) = image e'.ty e'.data (refPt e'.ty n (lobattoAbsc n roots) (corner n l)) := by
    intro e he e' he' k l hk hl h
    funext c
    rw [hcor e he k hk c, hcor e' he' l hl c, h]
  refine ⟨hn, G.bound, G.wf, G.old, G.ids, fun e _ => physLoc_length roots e.ty n e.data L, fun e _ => physLoc_length roots e.ty 2 e.data L2, ?_, ?_, ?_, ?_, ?_, ?_, G.adj⟩
  · intro e he k hk
    rw [pos_eq roots 2 L2 e hk, hpos e (hcl e k hk)]
    exact congrArg some (image_congr _ _ fun a ha => (refPt_corner L L2 hn k a ha).symm)
  · intro e he i j hi hj h
    rw [hpos e hi, hpos e hj] at h
    exact hinj e he i j hi hj (Option.some.inj h)
  · intro e he e' he' p hp q hq
    exact ⟨G.sep e he e' he' p hp q hq, fun h => by rw [h]; exact closeTol_self q⟩
  · intro e he e' he' k l hk hl h
    rw [hpos e (hcl e k hk), hpos e' (hcl e' l hl), hvpos e he e' he' k l hk hl h]
  · intro e he e' he' k j hk hj h
    rw [hpos e (hcl e k hk), hpos e' hj] at h
    have h := Option.some.inj h
    by_cases hid : e.id = e'.id
    · have hee : e = e' := List.inj_on_of_nodup_map G.ids he he' hid
      subst hee
      exact ⟨k, hk, (hinj e he _ _ (hcl e k hk) hj h).symm, rfl⟩
    · rcases G.meets e he e' he' hid with hno | ⟨F, F', ax, flip, g, _, hids, honly⟩
      · exact absurd h (hno _ _ (hin e _) (hin e' _))
      · have hon := (honly _ _ (hin e _) (hin e' _) h).1
        rw [refPt_on L hn g.mem1] at hon
        have := hglue e he e' he' F F' ax flip g hids _ hon
        rw [h, glue_corner g hn k] at this
        have hlt : glue 2 F' ax flip k < 2 ^ e'.ty.dim := glue_lt g (by omega) k
        refine ⟨_, hlt, hinj e' he' _ _ hj (hcl e' _ hlt) this, hids k hk ?_⟩
        rwa [onFace_corner g.mem1 hn] at hon
  · intro e he e' he' hid
    rcases G.meets e he e' he' hid with hno | ⟨F, F', ax, flip, g, hdim, hids, honly⟩
    · left
      constructor
      · intro k l hk hl h
        exact hno _ _ (hin e _) (hin e' _) (hvpos e he e' he' k l hk hl h)
      · intro i j hi hj h
        rw [hpos e hi, hpos e' hj] at h
        exact hno _ _ (hin e _) (hin e' _) (Option.some.inj h)
    · right
      have only : ∀ i j, image e.ty e.data (refPt e.ty n (lobattoAbsc n roots) i) = image e'.ty e'.data (refPt e'.ty n (lobattoAbsc n roots) j) →
          onFace n F i = true ∧ onFace n F' j = true := by
        intro i j h
        have := honly _ _ (hin e i) (hin e' j) h
        rwa [refPt_on L hn g.mem1, refPt_on L hn g.mem2] at this
      refine ⟨F, F', ⟨g.mem1, g.mem2, g.dim, ?_, ?_, ?_⟩, hdim, ?_, ?_⟩
      · intro k l hk hl h
        have := only _ _ (hvpos e he e' he' k l hk hl h)
        rwa [onFace_corner g.mem1 hn, onFace_corner g.mem2 hn] at this
      · intro k hk ok
        exact ⟨_, glue_lt g (by omega) k, glue_on g (by omega) k, hids k hk ok⟩
      · intro l hl ol
        obtain ⟨k, hk, ok, e1⟩ := glue_surj (flip := flip) g (by omega) hl ol
        exact ⟨k, hk, ok, by rw [← e1]; exact hids k hk ok⟩
      · intro i j hi hj h
        rw [hpos e hi, hpos e' hj] at h
        exact only i j (Option.some.inj h)
      · intro j hj oj
        obtain ⟨i, hi, oi, e1⟩ := glue_surj (flip := flip) g (by omega) hj oj
        refine ⟨i, hi, oi, ?_⟩
        rw [hpos e hi, hpos e' hj, ← e1, hglue e he e' he' F F' ax flip g hids i oi]

/-- Position of node `i` of an element of order `n - 1`. -/
def nodePos (roots : List ℂ) (n : Nat) (e : El VData) (i : Nat) : Pt := image e.ty e.data (refPt e.ty n (lobattoAbsc n roots) i)

/-- **C34** (conversion): for every valid conforming mesh and every order, the conversion succeeds. The result
is the same mesh — domains, elements, their order, ids and coordinates — with new node lists `ν`, in which the
vertices keep their ids; two nodes anywhere in the mesh have the same id exactly if they are at the same
position; and the ids are consecutive: all below the number of nodes `N`, and each one not belonging to the old
mesh is in use. The nodes inside an element of the highest dimension of the mesh are numbered consecutively. -/
theorem C34_conversion {m : DMap VData} (W : WfMesh m) (G : GeoMesh n roots adj nOld X ((visit m).map (·.2))) :
    ∃ ν N, convert n (physLoc roots) closeTol adj nOld m = some (relabel ν m, N) ∧
      (∀ q ∈ visit m, (ν q.2.id).length = n ^ q.2.ty.dim) ∧
      (∀ q ∈ visit m, ∀ k, k < 2 ^ q.2.ty.dim → (ν q.2.id).getD (corner n k) 0 = q.2.nodes.getD k 0) ∧
      (∀ q ∈ visit m, ∀ q' ∈ visit m, ∀ i j, i < n ^ q.2.ty.dim → j < n ^ q'.2.ty.dim →
        ((ν q.2.id).getD i 0 = (ν q'.2.id).getD j 0 ↔ nodePos roots n q.2 i = nodePos roots n q'.2 j)) ∧
      nOld ≤ N ∧ (∀ q ∈ visit m, ∀ v ∈ ν q.2.id, v < N) ∧
      (∀ v, nOld ≤ v → v < N → ∃ q ∈ visit m, v ∈ ν q.2.id) ∧
      ∀ q ∈ visit m, (∀ q' ∈ visit m, q'.2.ty.dim ≤ q.2.ty.dim) →
        ∃ M, ∀ k (hk : k < (internalInds q.2.ty n).length), (ν q.2.id).getD (internalInds q.2.ty n)[k] 0 = M + k := by
  obtain ⟨ν, N, h, I⟩ := convert_spec W (geo_of G)
  have L := lob_of n G.two roots G.eig
  have hm : ∀ q ∈ visit m, q.2 ∈ (visit m).map (·.2) := fun q hq => List.mem_map.2 ⟨q, hq, rfl⟩
  refine ⟨ν, N, h, fun q hq => I.len _ (hm q hq), fun q hq => I.corner _ (hm q hq), ?_, I.le, ?_, ?_, ?_⟩
  · intro q hq q' hq' i j hi hj
    rw [I.iff _ (hm q hq) _ (hm q' hq') i j hi hj, pos_eq roots n L _ hi, pos_eq roots n L _ hj, nodePos, nodePos, Option.some.injEq]
  · intro q hq v hv
    obtain ⟨j, hj⟩ := List.mem_iff_getElem?.1 hv
    have hlt : j < n ^ q.2.ty.dim := by
      obtain ⟨h, _⟩ := List.getElem?_eq_some_iff.1 hj
      rwa [I.len _ (hm q hq)] at h
    have := I.lt _ (hm q hq) j hlt
    rwa [List.getD_eq_getElem?_getD, hj] at this
  · intro v h1 h2
    obtain ⟨e, he, hv⟩ := I.used v h1 h2
    obtain ⟨q, hq, rfl⟩ := List.mem_map.1 he
    exact ⟨q, hq, hv⟩
  · intro q hq htop
    refine internal_consec (geo_of G) I (hm q hq) fun e' he' => ?_
    obtain ⟨q', hq', rfl⟩ := List.mem_map.1 he'
    exact htop q' hq'
end

end

end Verif.Convert
