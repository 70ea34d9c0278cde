import Verif.NativeIO.Lemmas
import Verif.Extrude.Props

/-! # Properties C35, C36, C37: native mesh and results files -/
namespace Verif.NativeIO
open Verif Verif.Elem Verif.Mesh Verif.Ser Verif.File

/-! ## C35 -/

/-- What survives the file: a part owning nothing has its first node reset. -/
def norm (p : SPart) : SPart := (p.1, (if p.2.2.1 = 0 then 0 else p.2.1), p.2.2.1, p.2.2.2)

/-- Contents within the limits of the C++ types. -/
structure FitsFile (kinds : List (ElType × Nat)) (parts : List SPart) : Prop where
  count : parts.length < 2 ^ 64
  fits : ∀ p ∈ parts, (partCodec kinds).Fits (norm p)
  size : ∀ p ∈ parts, (serializeMesh kinds p).length < 2 ^ 64

theorem saveMesh_blocks (kinds : List (ElType × Nat)) (c : List Byte) (parts : List SPart) :
    saveMesh kinds c parts = blocks 0 (meshHeader c ((parts.map (serializeMesh kinds)).map List.length) :: parts.map (serializeMesh kinds)) := by
  rw [blocks, blocks_eq, Nat.zero_add]; rfl

theorem partInfo_run {kinds : List (ElType × Nat)} {parts : List SPart} (h : FitsFile kinds parts) (c old : List Byte)
    {ws : List (Nat × List Byte)} (hws : ws.Perm (saveMesh kinds c parts)) :
    ∃ rest, partInfo (run old ws) = some ((parts.map (serializeMesh kinds)).map List.length, (parts.map (serializeMesh kinds)).flatten ++ rest) := by
  rw [saveMesh_blocks] at hws
  obtain ⟨rest, hr⟩ := run_blocks hws old
  refine ⟨rest, ?_⟩
  set sizes := (parts.map (serializeMesh kinds)).map List.length with hsz
  have hlen : sizes.length = parts.length := by simp [hsz]
  rw [hr, List.flatten_cons]
  unfold meshHeader partInfo
  rw [List.append_assoc, List.append_assoc, skip3_preamble _ (by decide), Option.bind_some]
  rw [if_pos (by simp only [List.length_append, leBytes_length]; omega)]
  rw [List.append_assoc, List.take_left' (leBytes_length 8 _), List.drop_left' (leBytes_length 8 _),
    ofLe_leBytes_of_lt _ _ (by rw [hlen]; have := h.count; simpa using this)]
  simp only
  rw [if_pos (by simp only [List.length_append, flatten_le_length]; omega), List.drop_left' (flatten_le_length sizes), readU64s_ser]
  intro x hx
  obtain ⟨s, hs, rfl⟩ := List.mem_map.1 hx
  obtain ⟨p, hp, rfl⟩ := List.mem_map.1 hs
  exact h.size p hp

theorem partText_eq {kinds : List (ElType × Nat)} {parts : List SPart} (rest : List Byte) (r : Nat) (hr : r < parts.length) :
    partText ((parts.map (serializeMesh kinds)).map List.length, (parts.map (serializeMesh kinds)).flatten ++ rest) r = some (serializeMesh kinds parts[r]) := by
  unfold partText
  obtain ⟨h1, h2⟩ := flatten_part (parts.map (serializeMesh kinds)) rest r (serializeMesh kinds parts[r]) (by simp [hr])
  rw [show ((parts.map (serializeMesh kinds)).map List.length)[r]? = some (serializeMesh kinds parts[r]).length by simp [hr], Option.bind_some]
  simp only
  rw [if_pos h1, h2]

theorem deserialize_serialize {kinds : List (ElType × Nat)} {p : SPart} (h : (partCodec kinds).Fits (norm p)) :
    deserializeMesh kinds (serializeMesh kinds p) = some (norm p) := by
  unfold deserializeMesh
  rw [show serializeMesh kinds p = (partCodec kinds).ser (norm p) from rfl, ← List.append_nil ((partCodec kinds).ser (norm p)),
    (lawful_part kinds).des_ser (norm p) [] h, Option.map_some]

/-- **C35** (file).  Whatever the number of ranks, the contents of the parts, the comment (also with line breaks), the
previous content of the file and the order in which the ranks write, rank `r` reads back its own part; with another
number of ranks loading is refused. -/
theorem C35_load {kinds : List (ElType × Nat)} {parts : List SPart} (h : FitsFile kinds parts) (comment old : List Byte)
    {ws : List (Nat × List Byte)} (hws : ws.Perm (saveMesh kinds comment parts)) :
    (∀ r (hr : r < parts.length), loadPart kinds parts.length r (run old ws) = some (norm parts[r])) ∧
      ∀ n r, n ≠ parts.length → loadPart kinds n r (run old ws) = none := by
  obtain ⟨rest, hi⟩ := partInfo_run h comment old hws
  constructor
  · intro r hr
    unfold loadPart
    rw [hi, Option.bind_some, if_pos (by simp), partText_eq rest r hr, Option.bind_some, deserialize_serialize (h.fits _ (List.getElem_mem hr))]
  · intro n r hn
    unfold loadPart
    rw [hi, Option.bind_some, if_neg (by simpa using Ne.symm hn)]

/-- **C35** (concurrent writers): the byte ranges written by the ranks are disjoint. -/
theorem C35_disjoint (kinds : List (ElType × Nat)) (comment : List Byte) (parts : List SPart) : (saveMesh kinds comment parts).Pairwise File.Disjoint := by
  rw [saveMesh_blocks]; exact blocks_disjoint _ _

/-- **C35** (mesh).  The mesh built from the part read back has the domains of the saved one — ids, dimensions, elements and
their order —, its boundary ids, and a node ownership answering every query as before. -/
theorem C35_mesh {kinds : List (ElType × Nat)} {p : SPart} {doms : DomMap} (hw : WfMesh kinds doms) (hc : Clean doms) (hd : Describes p.1 doms)
    {o : Own.SegOwn} (ho : ownershipRange doms p.2.1 p.2.2.1 = some o) :
    ∃ o', buildPart kinds (norm p) = some (doms, o', p.2.2.2) ∧ o'.cnt = o.cnt ∧ (o.cnt ≠ 0 → o' = o) ∧ o'.shared = o.shared ∧
      (∀ i, o'.isOwned i = o.isOwned i) ∧ (∀ i, o'.isShared i = o.isShared i) ∧
      (∀ l, o'.getGlobal l = o.getGlobal l) := by
  have hmk := makeDomains_spec hw hc hd
  unfold buildPart norm
  simp only
  rw [hmk, Option.bind_some]
  by_cases h0 : p.2.2.1 = 0
  · rw [if_pos h0]
    rw [h0] at ho ⊢
    unfold ownershipRange at ho ⊢
    obtain ⟨rfl, h2⟩ := Own.make_some ho
    have hg : ∀ b : Nat, (nodeSet doms).filter (fun x => decide (x < b ∨ b + 0 ≤ x)) = nodeSet doms := by
      intro b
      rw [List.filter_eq_self]; intro a _; simp only [decide_eq_true_eq]; omega
    rw [hg] at h2
    rw [hg, hg]
    refine ⟨⟨0, 0, Std.sort (nodeSet doms)⟩, ?_, rfl, fun hne => absurd rfl hne, rfl, fun i => ?_, fun i => rfl, fun l => rfl⟩
    · unfold Own.SegOwn.make
      rw [if_neg]
      · rfl
      · simp [Own.SegOwn.isOwned]
    · simp only [Own.SegOwn.isOwned, decide_eq_decide]; omega
  · rw [if_neg h0, ho]
    exact ⟨o, rfl, rfl, fun _ => rfl, rfl, fun _ => rfl, fun _ => rfl, fun _ => rfl⟩

/-! ## C36 -/

/-- Solution managers within the limits of the C++ types: values have 8 bytes, every rank stores its owned nodes first. -/
structure RanksOk (ranks : List (Nat × SolMan)) : Prop where
  owned : ∀ r ∈ ranks, r.1 ≤ r.2.nNodes
  size : ∀ r ∈ ranks, r.2.data.length = r.2.nNodes * r.2.nFields
  val : ∀ r ∈ ranks, ∀ v ∈ r.2.data, v.length = 8

/-- First node of rank `r`: the nodes are numbered rank after rank. -/
def nodeBegin (ranks : List (Nat × SolMan)) (r : Nat) : Nat := ((ranks.map (·.1)).take r).sum

theorem field_length {s : SolMan} (h : s.data.length = s.nNodes * s.nFields) {i : Nat} (hi : i < s.nFields) : (s.field i).length = s.nNodes := by
  unfold SolMan.field
  rw [List.length_take, List.length_drop, h]
  have : (i + 1) * s.nNodes ≤ s.nFields * s.nNodes := Nat.mul_le_mul_right _ hi
  rw [Nat.add_mul, Nat.one_mul] at this
  rw [Nat.mul_comm s.nNodes]
  omega

/-- The values of field `i` owned by rank `r`. -/
def ownVals (i : Nat) (r : Nat × SolMan) : List (List Byte) := (r.2.field i).take r.1

theorem ownVals_length {ranks : List (Nat × SolMan)} (h : RanksOk ranks) {i : Nat} (hi : ∀ r ∈ ranks, i < r.2.nFields) {r : Nat × SolMan} (hr : r ∈ ranks) :
    (ownVals i r).length = r.1 := by
  unfold ownVals
  rw [List.length_take, field_length (h.size r hr) (hi r hr), Nat.min_eq_left (h.owned r hr)]

theorem ownVals_val {ranks : List (Nat × SolMan)} (h : RanksOk ranks) {i : Nat} {r : Nat × SolMan} (hr : r ∈ ranks) :
    ∀ v ∈ ownVals i r, v.length = 8 := fun v hv =>
  h.val r hr v (List.mem_of_mem_drop (List.mem_of_mem_take (List.mem_of_mem_take hv)))

theorem flatten_length8 {V : List (List Byte)} (h : ∀ v ∈ V, v.length = 8) : V.flatten.length = 8 * V.length := by
  induction V with
  | nil => rfl
  | cons v V ih =>
    rw [List.flatten_cons, List.length_append, ih fun x hx => h x (by simp [hx]), h v (by simp), List.length_cons]; omega

theorem sum_map_mul8 {α : Type} (l : List α) (f : α → Nat) : (l.map fun a => 8 * f a).sum = 8 * (l.map f).sum := by
  induction l with
  | nil => rfl
  | cons a l ih => simp only [List.map_cons, List.sum_cons, ih]; omega

/-- All values of the file: field by field, rank by rank. -/
def allVals (ranks : List (Nat × SolMan)) (inds : List Nat) : List (List Byte) := inds.flatMap fun i => ranks.flatMap (ownVals i)

theorem saveRes_blocks {ranks : List (Nat × SolMan)} (h : RanksOk ranks) (c : List Byte) {inds : List Nat} {ws : List (Nat × List Byte)}
    (hs : saveRes c ranks inds = some ws) : (inds ≠ [] ∧ ∀ i ∈ inds, ∀ r ∈ ranks, i < r.2.nFields) ∧
      ws.Perm (blocks 0 (resHeader c inds.length (ranks.map (·.1)).sum :: inds.flatMap fun i => ranks.map fun r => (ownVals i r).flatten)) := by
  unfold saveRes at hs
  simp only at hs
  split at hs
  · cases hs
  rename_i hne
  split at hs
  · cases hs
  rename_i hany
  have hlt : ∀ i ∈ inds, ∀ r ∈ ranks, i < r.2.nFields := by
    intro i hi r hr
    by_contra hc
    apply hany
    rw [List.any_eq_true]
    refine ⟨r, hr, ?_⟩
    rw [List.any_eq_true]
    exact ⟨i, hi, by simpa using hc⟩
  refine ⟨⟨by simpa using hne, hlt⟩, ?_⟩
  rw [← Option.some.inj hs, blocks, Nat.zero_add]
  refine List.Perm.cons _ ?_
  refine (flatMap_map_swap _ _ _).trans ?_
  set H := (resHeader c inds.length (ranks.map (·.1)).sum).length with hH
  have hlen : ∀ i ∈ inds, (ranks.map fun r => (ownVals i r).flatten).flatten.length = 8 * (ranks.map (·.1)).sum := by
    intro i hi
    rw [List.length_flatten, List.map_map, List.map_congr_left (g := fun r => 8 * r.1), sum_map_mul8]
    intro r hr
    simp only [Function.comp]
    rw [flatten_length8 (ownVals_val h hr), ownVals_length h (hlt i hi) hr]
  rw [List.flatMap_def (l := inds), blocks_groups _ (8 * (ranks.map (·.1)).sum)]
  · rw [List.zipIdx_map, List.flatMap_map]
    apply List.Perm.of_eq
    rw [List.flatMap_congr]
    rintro ⟨i, k⟩ hik
    have hi : i ∈ inds := by simpa using List.fst_mem_of_mem_zipIdx hik
    simp only [Prod.map, id]
    rw [blocks_eq, List.zipIdx_map, List.map_map]
    apply List.map_congr_left
    rintro ⟨r, m⟩ hrm
    simp only [Function.comp, Prod.map, id, Prod.mk.injEq]
    refine ⟨?_, rfl⟩
    have : (((ranks.map fun r => (ownVals i r).flatten).take m).map List.length).sum = 8 * ((ranks.map (·.1)).take m).sum := by
      rw [← List.map_take, ← List.map_take, List.map_map, List.map_congr_left (g := fun r => 8 * r.1), sum_map_mul8]
      intro r hr
      have hr' := List.mem_of_mem_take hr
      simp only [Function.comp]
      rw [flatten_length8 (ownVals_val h hr'), ownVals_length h (hlt i hi) hr']
    rw [this, Nat.mul_add, ← Nat.mul_assoc, ← Nat.add_assoc]
  · intro g hg
    obtain ⟨i, hi, rfl⟩ := List.mem_map.1 hg
    exact hlen i hi

/-- **C36** (concurrent writers): for every distribution of nodes, the byte ranges of all writes are disjoint. -/
theorem C36_disjoint {ranks : List (Nat × SolMan)} (h : RanksOk ranks) (comment : List Byte) {inds : List Nat} {ws : List (Nat × List Byte)}
    (hs : saveRes comment ranks inds = some ws) : ws.Pairwise File.Disjoint := by
  obtain ⟨_, hp⟩ := saveRes_blocks h comment hs
  exact hp.symm.pairwise (blocks_disjoint _ _) fun hxy => hxy.symm

theorem allVals_flatten (ranks : List (Nat × SolMan)) (inds : List Nat) :
    (inds.flatMap fun i => ranks.map fun r => (ownVals i r).flatten).flatten = (allVals ranks inds).flatten := by
  unfold allVals
  induction inds with
  | nil => rfl
  | cons i inds ih =>
    rw [List.flatMap_cons, List.flatten_append, ih, List.flatMap_cons, List.flatten_append, List.flatMap_def (l := ranks), List.flatten_flatten, List.map_map]
    rfl

theorem openRes_run {ranks : List (Nat × SolMan)} (h : RanksOk ranks) (c old : List Byte) {inds : List Nat} {ws ws' : List (Nat × List Byte)}
    (hs : saveRes c ranks inds = some ws) (hw : ws'.Perm ws) (hn : inds.length < 2 ^ 64) (hg : (ranks.map (·.1)).sum < 2 ^ 64) :
    ∃ rest, openRes (run old ws') = some (inds.length, (ranks.map (·.1)).sum, (allVals ranks inds).flatten ++ rest) := by
  obtain ⟨_, hp⟩ := saveRes_blocks h c hs
  obtain ⟨rest, hr⟩ := run_blocks (hw.trans hp) old
  refine ⟨rest, ?_⟩
  rw [hr, List.flatten_cons, allVals_flatten]
  unfold resHeader openRes
  rw [List.append_assoc, List.append_assoc, skip3_preamble _ (by decide), Option.bind_some, List.append_assoc]
  rw [if_pos (by simp only [List.length_append, leBytes_length]; omega), List.take_left' (leBytes_length 8 _), List.drop_left' (leBytes_length 8 _),
    List.take_left' (leBytes_length 8 _), show (16 : Nat) = 8 + 8 from rfl, ← List.drop_drop, List.drop_left' (leBytes_length 8 _), List.drop_left' (leBytes_length 8 _),
    ofLe_leBytes_of_lt _ _ (by simpa using hn), ofLe_leBytes_of_lt _ _ (by simpa using hg)]

theorem allVals_getElem {ranks : List (Nat × SolMan)} (h : RanksOk ranks) {inds : List Nat} (hlt : ∀ i ∈ inds, ∀ r ∈ ranks, i < r.2.nFields)
    {k fld : Nat} (hk : inds[k]? = some fld) {r : Nat} {rk : Nat × SolMan} (hr : ranks[r]? = some rk) {j : Nat} (hj : j < rk.1) :
    (allVals ranks inds)[(ranks.map (·.1)).sum * k + (nodeBegin ranks r + j)]? = (rk.2.field fld)[j]? := by
  have hfld : fld ∈ inds := List.mem_of_getElem? hk
  have hrk : rk ∈ ranks := List.mem_of_getElem? hr
  have hlen : ∀ i ∈ inds, (ranks.flatMap (ownVals i)).length = (ranks.map (·.1)).sum := by
    intro i hi
    rw [List.length_flatMap]
    congr 1
    exact List.map_congr_left fun r hr => ownVals_length h (hlt i hi) hr
  have h1 := flatMap_getElem? ranks (ownVals fld) r j rk hr (by rw [ownVals_length h (hlt fld hfld) hrk]; exact hj)
  have hb : ((ranks.take r).map fun a => (ownVals fld a).length).sum = nodeBegin ranks r := by
    unfold nodeBegin
    rw [← List.map_take]
    congr 1
    exact List.map_congr_left fun r hr => ownVals_length h (hlt fld hfld) (List.mem_of_mem_take hr)
  rw [hb] at h1
  have hval : (ownVals fld rk)[j]? = (rk.2.field fld)[j]? := List.getElem?_take_of_lt hj
  have hlt2 : nodeBegin ranks r + j < (ranks.flatMap (ownVals fld)).length := by
    have : j < (ownVals fld rk).length := by rw [ownVals_length h (hlt fld hfld) hrk]; exact hj
    rw [List.getElem?_eq_getElem this] at h1
    exact (List.getElem?_eq_some_iff.1 h1).1
  have h2 := flatMap_getElem? inds (fun i => ranks.flatMap (ownVals i)) k (nodeBegin ranks r + j) fld hk hlt2
  have hs : ((inds.take k).map fun i => (ranks.flatMap (ownVals i)).length).sum = (ranks.map (·.1)).sum * k := by
    rw [List.map_congr_left (g := fun _ => (ranks.map (·.1)).sum) fun i hi => hlen i (List.mem_of_mem_take hi)]
    have hkl := (List.getElem?_eq_some_iff.1 hk).1
    simp only [List.map_const', List.sum_replicate, List.length_take, Nat.min_eq_left (Nat.le_of_lt hkl)]
    exact Nat.mul_comm _ _
  rw [hs] at h2
  unfold allVals
  rw [h2, h1, hval]

/-- **C36** (save/read).  For every number of ranks, distribution of nodes, choice of fields, comment, previous file content and
order of the writes, reading (node, field position) from the file gives the value that the node's owner had. -/
theorem C36_saved {ranks : List (Nat × SolMan)} (h : RanksOk ranks) (comment old : List Byte) {inds : List Nat} {ws ws' : List (Nat × List Byte)}
    (hs : saveRes comment ranks inds = some ws) (hw : ws'.Perm ws) (hn : inds.length < 2 ^ 64) (hg : (ranks.map (·.1)).sum < 2 ^ 64) :
    ∃ res, openRes (run old ws') = some res ∧ res.1 = inds.length ∧ res.2.1 = (ranks.map (·.1)).sum ∧
      ∀ (r : Nat) (rk : Nat × SolMan) (k fld j : Nat), ranks[r]? = some rk → inds[k]? = some fld → j < rk.1 →
        readVal res (nodeBegin ranks r + j) k = (rk.2.field fld)[j]? ∧ ((rk.2.field fld)[j]?).isSome = true := by
  obtain ⟨rest, ho⟩ := openRes_run h comment old hs hw hn hg
  obtain ⟨⟨_, hlt⟩, _⟩ := saveRes_blocks h comment hs
  refine ⟨_, ho, rfl, rfl, fun r rk k fld j hr hk hj => ?_⟩
  have hrk : rk ∈ ranks := List.mem_of_getElem? hr
  have hget := allVals_getElem h hlt hk hr hj
  have hjl : j < (rk.2.field fld).length := by
    rw [field_length (h.size rk hrk) (hlt fld (List.mem_of_getElem? hk) rk hrk)]
    exact Nat.lt_of_lt_of_le hj (h.owned rk hrk)
  rw [List.getElem?_eq_getElem hjl] at hget ⊢
  refine ⟨?_, rfl⟩
  obtain ⟨h1, h2⟩ := flatten_take8 (allVals ranks inds) (fun v hv => by
    obtain ⟨i, _, hv⟩ := List.mem_flatMap.1 hv
    obtain ⟨r, hr, hv⟩ := List.mem_flatMap.1 hv
    exact ownVals_val h hr v hv) rest _ _ hget
  unfold readVal
  simp only
  rw [if_pos h1, h2]

/-- Every global node is a local node of exactly one rank. -/
theorem node_owner (ranks : List (Nat × SolMan)) (g : Nat) (hg : g < (ranks.map (·.1)).sum) :
    ∃ (r : Nat) (rk : Nat × SolMan) (j : Nat), ranks[r]? = some rk ∧ j < rk.1 ∧ g = nodeBegin ranks r + j := by
  induction ranks generalizing g with
  | nil => simp at hg
  | cons x ranks ih =>
    by_cases hx : g < x.1
    · exact ⟨0, x, g, rfl, hx, by simp [nodeBegin]⟩
    · simp only [List.map_cons, List.sum_cons] at hg
      obtain ⟨r, rk, j, h1, h2, h3⟩ := ih (g - x.1) (by omega)
      refine ⟨r + 1, rk, j, by simpa using h1, h2, ?_⟩
      simp only [nodeBegin, List.map_cons, List.take_succ_cons, List.sum_cons] at h3 ⊢
      omega

/-- Value of local node `n`, field `f`. -/
def SolMan.get (s : SolMan) (n f : Nat) : Option (List Byte) := (s.field f)[n]?

theorem get_eq {s : SolMan} {n f : Nat} (hn : n < s.nNodes) : s.get n f = s.data[f * s.nNodes + n]? := by
  unfold SolMan.get SolMan.field
  rw [List.getElem?_take_of_lt hn, List.getElem?_drop]

theorem copy_spec (r : Nat × Nat × List Byte) (V : Nat → Nat → List Byte) (l : List ((Nat × Nat) × (Nat × Nat)))
    (hread : ∀ x ∈ l, readVal r x.2.1 x.1.1 = some (V x.2.1 x.1.1)) (s : SolMan)
    (hpos : ∀ x ∈ l, x.2.2 < s.nNodes ∧ x.1.2 * s.nNodes + x.2.2 < s.data.length)
    (hnd : l.Pairwise fun x y => ¬ (x.1.2 = y.1.2 ∧ x.2.2 = y.2.2)) :
    ∃ s', l.foldlM (fun s x => (readVal r x.2.1 x.1.1).map fun v => s.set x.2.2 x.1.2 v) s = some s' ∧ s'.nNodes = s.nNodes ∧ s'.nFields = s.nFields ∧
      s'.data.length = s.data.length ∧ (∀ x ∈ l, s'.get x.2.2 x.1.2 = some (V x.2.1 x.1.1)) ∧
      ∀ n f, n < s.nNodes → (∀ x ∈ l, ¬ (x.1.2 = f ∧ x.2.2 = n)) → s'.get n f = s.get n f := by
  induction l generalizing s with
  | nil => exact ⟨s, rfl, rfl, rfl, rfl, by simp, fun _ _ _ _ => rfl⟩
  | cons x l ih =>
    rw [List.pairwise_cons] at hnd
    obtain ⟨hx1, hx2⟩ := hpos x (by simp)
    obtain ⟨s', h1, h2, h3, h4, h5, h6⟩ := ih (fun y hy => hread y (by simp [hy])) (s.set x.2.2 x.1.2 (V x.2.1 x.1.1))
      (fun y hy => by simpa [SolMan.set] using hpos y (by simp [hy])) hnd.2
    have hget : ∀ n f, n < s.nNodes → (s.set x.2.2 x.1.2 (V x.2.1 x.1.1)).get n f =
        if x.1.2 = f ∧ x.2.2 = n then some (V x.2.1 x.1.1) else s.get n f := by
      intro n f hn
      rw [get_eq (by simpa [SolMan.set] using hn), get_eq hn]
      simp only [SolMan.set, List.getElem?_set]
      by_cases he : x.1.2 = f ∧ x.2.2 = n
      · rw [if_pos he, if_pos (by rw [he.1, he.2]), if_pos]
        exact hx2
      · rw [if_neg he, if_neg]
        intro hc
        apply he
        have hm1 : (x.1.2 * s.nNodes + x.2.2) / s.nNodes = x.1.2 := by
          rw [Nat.mul_comm, Nat.mul_add_div (by omega), Nat.div_eq_of_lt hx1, Nat.add_zero]
        have hm2 : (f * s.nNodes + n) / s.nNodes = f := by
          rw [Nat.mul_comm, Nat.mul_add_div (by omega), Nat.div_eq_of_lt hn, Nat.add_zero]
        rw [hc, hm2] at hm1
        refine ⟨hm1.symm, ?_⟩
        rw [hm1] at hc; omega
    refine ⟨s', ?_, h2, h3, by simpa [SolMan.set] using h4, ?_, ?_⟩
    · rw [List.foldlM_cons, hread x (by simp)]
      exact h1
    · intro y hy
      rcases List.mem_cons.1 hy with rfl | hy
      · rw [h6 _ _ (by simpa [SolMan.set] using hx1) fun z hz hc => hnd.1 z hz ⟨hc.1.symm, hc.2.symm⟩, hget _ _ hx1, if_pos ⟨rfl, rfl⟩]
      · exact h5 y hy
    · intro n f hn hno
      rw [h6 n f (by simpa [SolMan.set] using hn) fun z hz => hno z (by simp [hz]), hget n f hn, if_neg (hno x (by simp))]

theorem foldl_max_lt {l : List Nat} {N : Nat} (h : ∀ x ∈ l, x < N) (hN : 0 < N) : l.foldl max 0 < N := by
  have : ∀ (l : List Nat) (a : Nat), a < N → (∀ x ∈ l, x < N) → l.foldl max a < N := by
    intro l
    induction l with
    | nil => intro a ha _; exact ha
    | cons x l ih => intro a ha hl; exact ih _ (by have := hl x (by simp); omega) fun y hy => hl y (by simp [hy])
  exact this l 0 hN h

/-- **C36** (load).  Loading a saved file on any other distribution — local node `n` having been node `oldNodes[n]` of the saved
mesh — gives each local node, in each requested field, the value that the node had on its owner when saved; everything else in
the solution manager is left alone. -/
theorem C36_loaded {ranks : List (Nat × SolMan)} (h : RanksOk ranks) (comment old : List Byte) {inds : List Nat} {ws ws' : List (Nat × List Byte)}
    (hs : saveRes comment ranks inds = some ws) (hw : ws'.Perm ws) (hn : inds.length < 2 ^ 64) (hg : (ranks.map (·.1)).sum < 2 ^ 64)
    (hpos : 0 < (ranks.map (·.1)).sum) (s : SolMan) (hsz : s.data.length = s.nNodes * s.nFields) {oldNodes src dst : List Nat}
    (hold : ∀ g ∈ oldNodes, g < (ranks.map (·.1)).sum) (holdl : oldNodes.length ≤ s.nNodes) (hlen : src.length = dst.length) (hne : src ≠ [])
    (hsrc : ∀ i ∈ src, i < inds.length) (hdst : ∀ i ∈ dst, i < s.nFields) (hdnd : dst.Nodup) :
    ∃ s', loadRes (run old ws') oldNodes src dst s = some s' ∧ s'.nNodes = s.nNodes ∧ s'.nFields = s.nFields ∧
      (∀ (q k d n g r j : Nat) (rk : Nat × SolMan) (fld : Nat), src[q]? = some k → dst[q]? = some d → oldNodes[n]? = some g → ranks[r]? = some rk → j < rk.1 →
        g = nodeBegin ranks r + j → inds[k]? = some fld → s'.get n d = rk.2.get j fld) ∧
      ∀ n f, n < s.nNodes → (f ∉ dst ∨ oldNodes.length ≤ n) → s'.get n f = s.get n f := by
  obtain ⟨res, ho, r1, r2, hread⟩ := C36_saved h comment old hs hw hn hg
  unfold loadRes
  rw [ho, Option.bind_some, if_neg (by simp [hlen, hne]), if_neg, if_neg (by rw [r2]; exact Nat.not_le.2 (foldl_max_lt hold hpos))]
  rotate_left
  · simp only [Bool.or_eq_true, List.any_eq_true, decide_eq_true_eq, not_or, not_exists, not_and, Nat.not_le]
    exact ⟨fun i hi => by rw [r1]; exact hsrc i hi, hdst⟩
  have hreadable : ∀ g < (ranks.map (·.1)).sum, ∀ k < inds.length, readVal res g k = some ((readVal res g k).getD []) := by
    intro g hg k hk
    obtain ⟨r, rk, j, h1, h2, rfl⟩ := node_owner ranks g hg
    obtain ⟨h3, h4⟩ := hread r rk k inds[k] j h1 (by simp [hk]) h2
    rw [← h3] at h4
    obtain ⟨v, hv⟩ := Option.isSome_iff_exists.1 h4
    rw [hv]; rfl
  have hmem : ∀ x ∈ ((src.zip dst).flatMap fun p => oldNodes.zipIdx.map fun n => (p, n)),
      x.1.1 ∈ src ∧ x.1.2 ∈ dst ∧ oldNodes[x.2.2]? = some x.2.1 := by
    intro x hx
    obtain ⟨p, hp, hx⟩ := List.mem_flatMap.1 hx
    obtain ⟨n, hn, rfl⟩ := List.mem_map.1 hx
    exact ⟨(List.of_mem_zip hp).1, (List.of_mem_zip hp).2, List.mem_zipIdx_iff_getElem?.1 hn⟩
  obtain ⟨s', h1, h2, h3, _, h5, h6⟩ := copy_spec res (fun g k => (readVal res g k).getD []) ((src.zip dst).flatMap fun p => oldNodes.zipIdx.map fun n => (p, n))
    (fun x hx => by
      obtain ⟨m1, m2, m3⟩ := hmem x hx
      exact hreadable _ (hold _ (List.mem_of_getElem? m3)) _ (hsrc _ m1)) s
    (fun x hx => by
      obtain ⟨m1, m2, m3⟩ := hmem x hx
      have hl := (List.getElem?_eq_some_iff.1 m3).1
      have : (x.1.2 + 1) * s.nNodes ≤ s.nFields * s.nNodes := Nat.mul_le_mul_right _ (hdst _ m2)
      rw [Nat.add_mul, Nat.one_mul] at this
      rw [hsz, Nat.mul_comm s.nNodes]
      omega)
    (by
      rw [List.pairwise_flatMap]
      refine ⟨fun p _ => ?_, ?_⟩
      · rw [List.pairwise_map]
        have : (oldNodes.zipIdx.map (·.2)).Nodup := by
          rw [List.zipIdx_map_snd]; exact List.nodup_range'
        rw [List.Nodup, List.pairwise_map] at this
        exact this.imp fun hne hc => hne hc.2
      · have : ((src.zip dst).map (·.2)).Nodup := by
          rw [List.map_snd_zip (by omega)]; exact hdnd
        rw [List.Nodup, List.pairwise_map] at this
        refine this.imp fun {p p'} hne x hx y hy hc => ?_
        obtain ⟨_, _, rfl⟩ := List.mem_map.1 hx
        obtain ⟨_, _, rfl⟩ := List.mem_map.1 hy
        exact hne hc.1)
  refine ⟨s', h1, h2, h3, ?_, ?_⟩
  · intro q k d n g r j rk fld hq1 hq2 hng hr hj hgg hk
    have hz : (k, d) ∈ src.zip dst := by
      have : (src.zip dst)[q]? = some (k, d) := by rw [List.getElem?_zip_eq_some]; exact ⟨hq1, hq2⟩
      exact List.mem_of_getElem? this
    have := h5 ((k, d), (g, n)) (List.mem_flatMap.2 ⟨(k, d), hz, List.mem_map.2 ⟨(g, n), List.mem_zipIdx_iff_getElem?.2 hng, rfl⟩⟩)
    simp only at this
    rw [this, hgg]
    obtain ⟨h7, h8⟩ := hread r rk k fld j hr hk hj
    rw [h7]
    obtain ⟨v, hv⟩ := Option.isSome_iff_exists.1 h8
    unfold SolMan.get
    rw [hv]; rfl
  · intro n f hn hor
    refine h6 n f hn fun x hx hc => ?_
    obtain ⟨m1, m2, m3⟩ := hmem x hx
    rcases hor with hf | hl
    · exact hf (hc.1 ▸ m2)
    · have := (List.getElem?_eq_some_iff.1 m3).1
      omega

/-! ## C37 -/

/-- The parts of a file describe the meshes `dms`. -/
def PartsOk (kinds : List (ElType × Nat)) (parts : List SPart) (dms : List DomMap) : Prop :=
  List.Forall₂ (fun p dm => WfMesh kinds dm ∧ Clean dm ∧ Describes p.1 dm) parts dms

/-- Elements of a domain have one dimension, also across parts. -/
def SameDims (dms : List DomMap) : Prop :=
  ∀ dm ∈ dms, ∀ dm' ∈ dms, ∀ k d d', dm.lookup k = some d → dm'.lookup k = some d' → ∀ e ∈ d.elems, ∀ e' ∈ d'.elems, e.ty.dim = e'.ty.dim

theorem init_spec (kinds : List (ElType × Nat)) (l : DomMap) :
    OMap.Sorted (l.foldl (fun m d => OMap.upd m d.1 fun o => o.getD (emptyDom kinds)) []) ∧
      ∀ k, (l.foldl (fun m d => OMap.upd m d.1 fun o => o.getD (emptyDom kinds)) ([] : DomMap)).lookup k = if k ∈ l.map (·.1) then some (emptyDom kinds) else none := by
  induction l using List.reverseRecOn with
  | nil => exact ⟨by simp [OMap.Sorted], by simp⟩
  | append_singleton l d ih =>
    rw [List.foldl_append, List.foldl_cons, List.foldl_nil]
    refine ⟨OMap.sorted_upd ih.1 _ _, fun k => ?_⟩
    rw [OMap.lookup_upd ih.1, ih.2, ih.2]
    by_cases hk : k = d.1
    · subst hk
      have hin : d.1 ∈ (l ++ [d]).map (·.1) := by simp
      rw [if_pos rfl, if_pos hin]
      split <;> rfl
    · rw [if_neg hk]
      refine if_congr ?_ rfl rfl
      simp [hk]

theorem mem_partEvents {dm : DomMap} {ev : Nat × Element} (hk : KeysNodup dm) :
    ev ∈ partEvents dm ↔ ∃ d, dm.lookup ev.1 = some d ∧ ev.2 ∈ d.elems := by
  unfold partEvents
  constructor
  · intro h
    obtain ⟨d, hd, h⟩ := List.mem_flatMap.1 h
    obtain ⟨e, he, rfl⟩ := List.mem_map.1 h
    exact ⟨d.2, lookup_of_mem hk hd, he⟩
  · rintro ⟨d, hd, he⟩
    exact List.mem_flatMap.2 ⟨(ev.1, d), mem_of_lookup hd, List.mem_map.2 ⟨ev.2, he, rfl⟩⟩

theorem sel_partEvents {dm : DomMap} (hs : OMap.Sorted dm) (k : Nat) : sel k (partEvents dm) = ((dm.lookup k).map Domain.elems).getD [] := by
  induction dm with
  | nil => rfl
  | cons d dm ih =>
    obtain ⟨h1, h2⟩ := List.pairwise_cons.1 hs
    have hc : partEvents (d :: dm) = d.2.elems.map (fun e => (d.1, e)) ++ partEvents dm := rfl
    rw [hc, sel_append, ih h2, List.lookup_cons]
    by_cases hk : k = d.1
    · subst hk
      have hn : dm.lookup d.1 = none := OMap.lookup_none_of_lt _ h1
      rw [hn]
      have : sel d.1 (d.2.elems.map fun e => (d.1, e)) = d.2.elems := by
        unfold sel
        rw [List.filter_eq_self.2 (by simp), List.map_map]
        exact List.map_id _
      simp [this]
    · have : sel k (d.2.elems.map fun e => (d.1, e)) = [] := by
        unfold sel
        rw [List.filter_eq_nil_iff.2 (by simp; intro _ _; exact Ne.symm hk)]; rfl
      rw [this, List.nil_append, show (k == d.1) = false by simpa using hk]

theorem sorted_keys {dm : DomMap} (h : OMap.Sorted dm) : KeysNodup dm := by
  unfold KeysNodup List.Nodup
  rw [List.pairwise_map]
  exact h.imp fun h => Nat.ne_of_lt h

theorem sel_flatMap' (k : Nat) (dms : List DomMap) : sel k (dms.flatMap partEvents) = dms.flatMap fun dm => sel k (partEvents dm) := by
  induction dms with
  | nil => rfl
  | cons dm dms ih => rw [List.flatMap_cons, sel_append, ih, List.flatMap_cons]

/-- **C37** (contents).  The unified mesh has exactly the domains occurring in some part, and each of its element vectors is
the concatenation of the corresponding vectors of the parts. -/
theorem C37_contents {kinds : List (ElType × Nat)} (hk : kinds.Nodup) {parts : List SPart} {dms : List DomMap} (h : PartsOk kinds parts dms)
    (hd : SameDims dms) : ∃ m, unify kinds parts = some (m, unifiedBnds parts) ∧ OMap.Sorted m ∧
      (∀ k, (m.lookup k).isSome ↔ ∃ dm ∈ dms, (dm.lookup k).isSome) ∧
      (∀ k d, m.lookup k = some d → d.vecs = kinds.zipIdx.map fun q => dms.flatMap fun dm => ((dm.lookup k).map fun d' => d'.vecs.getD q.2 []).getD []) ∧
      (visitAll m).Perm (dms.flatMap visitAll) := by
  have hall : ∀ dm ∈ dms, WfMesh kinds dm := by
    intro dm hdm
    obtain ⟨p, _, hp⟩ := Extrude.forall2_mem_right h hdm
    exact hp.1
  have hmk : (parts.mapM fun p => makeDomains kinds p.1) = some dms := by
    clear hd hall
    unfold PartsOk at h
    induction h with
    | nil => rfl
    | @cons p dm ps ds h1 _ ih => rw [List.mapM_cons, makeDomains_spec h1.1 h1.2.1 h1.2.2, ih]; rfl
  obtain ⟨i1, i2⟩ := init_spec kinds dms.flatten
  set m0 : DomMap := dms.flatten.foldl (fun m d => OMap.upd m d.1 fun o => o.getD (emptyDom kinds)) [] with hm0
  have hev : ∀ ev ∈ dms.flatMap partEvents, ∃ dm ∈ dms, ∃ d, dm.lookup ev.1 = some d ∧ ev.2 ∈ d.elems := by
    intro ev hev
    obtain ⟨dm, hdm, hev⟩ := List.mem_flatMap.1 hev
    exact ⟨dm, hdm, (mem_partEvents (sorted_keys (hall dm hdm).sorted)).1 hev⟩
  have hok : PushOk kinds m0 (dms.flatMap partEvents) := by
    refine ⟨hk, i1, fun k d hl => ?_, fun ev he => ?_, fun a ha b hb hab => ?_, fun ev _ d x hl hx => ?_⟩
    · rw [i2] at hl
      split at hl
      · rw [← Option.some.inj hl]; simp [emptyDom]
      · cases hl
    · obtain ⟨dm, hdm, d, h1, h2⟩ := hev ev he
      exact ((hall dm hdm).dom _ _ h1).mem_kind h2
    · obtain ⟨dm, hdm, d, h1, h2⟩ := hev a ha
      obtain ⟨dm', hdm', d', h1', h2'⟩ := hev b hb
      exact hd dm hdm dm' hdm' a.1 d d' h1 (hab ▸ h1') _ h2 _ h2'
    · rw [i2] at hl
      split at hl
      · rw [← Option.some.inj hl] at hx; simp [emptyDom] at hx
      · cases hl
  obtain ⟨m, p1, p2, p3⟩ := pushAll_spec hok
  have hdef : ∀ k, (m0.lookup k).getD (emptyDom kinds) = emptyDom kinds := by
    intro k; rw [i2]; split <;> rfl
  have hkey : ∀ k, k ∈ dms.flatten.map (·.1) ↔ ∃ dm ∈ dms, (dm.lookup k).isSome := by
    intro k
    constructor
    · intro hkm
      obtain ⟨d, hd', rfl⟩ := List.mem_map.1 hkm
      obtain ⟨dm, hdm, hd'⟩ := List.mem_flatten.1 hd'
      exact ⟨dm, hdm, by rw [lookup_of_mem (sorted_keys (hall dm hdm).sorted) hd']; rfl⟩
    · rintro ⟨dm, hdm, hs⟩
      obtain ⟨d, hd'⟩ := Option.isSome_iff_exists.1 hs
      exact List.mem_map.2 ⟨(k, d), List.mem_flatten.2 ⟨dm, hdm, mem_of_lookup hd'⟩, rfl⟩
  have hlook : ∀ k, m.lookup k = if ∃ dm ∈ dms, (dm.lookup k).isSome then some (grow kinds (emptyDom kinds) (sel k (dms.flatMap partEvents))) else none := by
    intro k
    rw [p3, hdef]
    refine if_congr ?_ rfl rfl
    rw [i2]
    constructor
    · rintro (h1 | h1)
      · obtain ⟨ev, he, rfl⟩ := List.mem_map.1 h1
        obtain ⟨dm, hdm, d, h1, _⟩ := hev ev he
        exact ⟨dm, hdm, by rw [h1]; rfl⟩
      · split at h1
        · rename_i hh; exact (hkey k).1 hh
        · cases h1
    · intro h1
      right
      rw [if_pos ((hkey k).2 h1)]; rfl
  have hvecs : ∀ k d, m.lookup k = some d → d.vecs = kinds.zipIdx.map fun q => dms.flatMap fun dm => ((dm.lookup k).map fun d' => d'.vecs.getD q.2 []).getD [] := by
    intro k d hl
    rw [hlook] at hl
    split at hl
    · rw [← Option.some.inj hl, sel_flatMap']
      simp only [grow, emptyDom]
      apply List.ext_getElem (by simp)
      intro i h1 h2
      simp only [List.length_map, List.length_zipIdx] at h2
      simp only [List.getElem_zipWith, List.getElem_map, List.nil_append, List.getElem_zipIdx, Nat.zero_add]
      rw [List.filter_flatMap]
      refine List.flatMap_congr fun dm hdm => ?_
      have hw := hall dm hdm
      rw [sel_partEvents hw.sorted]
      cases hlk : dm.lookup k with
      | none => rfl
      | some d' =>
        have hwd := hw.dom k d' hlk
        have := filter_kind hk hwd (fun _ => true) i (by rw [hwd.len]; exact h2)
        rw [List.filter_true, List.filter_true] at this
        simp only [Option.map_some, Option.getD_some]
        rw [this, List.getD_eq_getElem?_getD, List.getElem?_eq_getElem (by rw [hwd.len]; exact h2)]
        rfl
    · cases hl
  refine ⟨m, ?_, p2, fun k => ?_, hvecs, ?_⟩
  · unfold unify
    rw [hmk, Option.bind_some, ← List.foldl_flatten, p1]; rfl
  · rw [hlook]; split <;> simp_all
  · have hels : ∀ k, (Merge.els m k).Perm (sel k (dms.flatMap partEvents)) := by
      intro k
      by_cases hh : ∃ dm ∈ dms, (dm.lookup k).isSome
      · rw [Merge.els_some (d := grow kinds (emptyDom kinds) (sel k (dms.flatMap partEvents))) (by rw [hlook, if_pos hh])]
        exact Partition.grow_perm hk _ fun e he => hok.kind (k, e) (mem_sel.1 he)
      · rw [Merge.els_none (by rw [hlook, if_neg hh])]
        have : sel k (dms.flatMap partEvents) = [] := by
          rw [List.eq_nil_iff_forall_not_mem]
          intro e he
          obtain ⟨dm, hdm, d, h1, _⟩ := hev _ (mem_sel.1 he)
          exact hh ⟨dm, hdm, by rw [h1]; rfl⟩
        rw [this]
    have := Extrude.visitAll_perm (sorted_keys p2) hels fun ev he => by
      obtain ⟨dm, hdm, d, h1, _⟩ := hev ev he
      rw [← OMap.lookup_isSome_iff, hlook, if_pos ⟨dm, hdm, by rw [h1]; rfl⟩]; rfl
    refine this.trans (List.Perm.of_eq ?_)
    rw [List.map_flatMap]
    refine List.flatMap_congr fun dm hdm => ?_
    rw [Extrude.visitAll_flatMap, List.flatMap_map]
    unfold partEvents
    rw [List.map_flatMap]
    refine List.flatMap_congr fun d hd' => ?_
    rw [Merge.els_some (lookup_of_mem (sorted_keys (hall dm hdm).sorted) hd'), List.map_map]
    exact List.map_id _

/-- C37 (queries) as one would like it: an element of the unified mesh is found by its id, if ids are unique. -/
def C37Statement : Prop :=
  ∀ (kinds : List (ElType × Nat)) (parts : List SPart) (dms : List DomMap) (m : DomMap) (b : List Nat), kinds.Nodup → PartsOk kinds parts dms → SameDims dms →
    ((dms.flatMap visitAll).map (·.id)).Nodup → (∀ e ∈ dms.flatMap visitAll, e.id < 2 ^ 64) → unify kinds parts = some (m, b) →
    ∀ e, Holds m e → findId m e.id = some e

/-- Four line elements `0..3`; elements 0 and 2 on the first rank, 1 and 3 on the second. -/
def linePart (a b : Nat) : List (Nat × List (List SEl)) :=
  [(7, [[(⟨.line, 2, a, [a, a + 1]⟩, List.replicate 48 0), (⟨.line, 2, b, [b, b + 1]⟩, List.replicate 48 0)]])]

def lineMesh (a b : Nat) : DomMap := [(7, ⟨some 1, [[⟨.line, 2, a, [a, a + 1]⟩, ⟨.line, 2, b, [b, b + 1]⟩]]⟩)]

def exParts : List SPart := [(linePart 0 2, 0, 3, []), (linePart 1 3, 3, 2, [])]

theorem line_ok (a b : Nat) : WfMesh [(.line, 2)] (lineMesh a b) ∧ Clean (lineMesh a b) ∧ Describes (linePart a b) (lineMesh a b) := by
  refine ⟨⟨by decide, by simp [OMap.Sorted, lineMesh], ?_⟩, ?_, ?_⟩
  · intro k d hl
    have := mem_of_lookup hl
    simp only [lineMesh, List.mem_singleton, Prod.mk.injEq] at this
    obtain ⟨rfl, rfl⟩ := this
    refine ⟨rfl, ?_, ?_⟩
    · intro i hi e he
      obtain rfl : i = 0 := by simp at hi; omega
      simp only [List.getElem_cons_zero, List.mem_cons, List.not_mem_nil, or_false] at he
      rcases he with rfl | rfl <;> rfl
    · intro e he
      simp only [Domain.elems, List.flatten_cons, List.flatten_nil, List.append_nil, List.mem_cons, List.not_mem_nil, or_false] at he
      rcases he with rfl | rfl <;> rfl
  · intro d hd
    simp only [lineMesh, List.mem_singleton] at hd
    subst hd
    simp [Domain.elems]
  · exact .cons ⟨rfl, rfl⟩ .nil

theorem ex_parts : PartsOk [(.line, 2)] exParts [lineMesh 0 2, lineMesh 1 3] := .cons (line_ok 0 2) (.cons (line_ok 1 3) .nil)

theorem ex_dims : SameDims [lineMesh 0 2, lineMesh 1 3] := by
  have key : ∀ dm ∈ [lineMesh 0 2, lineMesh 1 3], ∀ k d, dm.lookup k = some d → ∀ e ∈ d.elems, e.ty.dim = 1 := by
    intro dm hdm k d hl e he
    have hm := mem_of_lookup hl
    simp only [List.mem_cons, List.not_mem_nil, or_false] at hdm
    rcases hdm with rfl | rfl <;>
    · simp only [lineMesh, List.mem_singleton, Prod.mk.injEq] at hm
      obtain ⟨rfl, rfl⟩ := hm
      simp only [Domain.elems, List.flatten_cons, List.flatten_nil, List.append_nil, List.mem_cons, List.not_mem_nil, or_false] at he
      rcases he with rfl | rfl <;> rfl
  intro dm hdm dm' hdm' k d d' h1 h2 e he e' he'
  rw [key dm hdm k d h1 e he, key dm' hdm' k d' h2 e' he']

/-- **C37** (queries) fails: after unifying, asking for element 1 returns element 2. -/
theorem C37_find_violated : ¬ C37Statement := fun h => by
  have := h [(.line, 2)] exParts [lineMesh 0 2, lineMesh 1 3] [(7, ⟨some 1, [[⟨.line, 2, 0, [0, 1]⟩, ⟨.line, 2, 2, [2, 3]⟩, ⟨.line, 2, 1, [1, 2]⟩, ⟨.line, 2, 3, [3, 4]⟩]]⟩)] []
    (by decide) ex_parts ex_dims (by decide) (by decide) (by decide +kernel) ⟨.line, 2, 1, [1, 2]⟩ ⟨_, List.mem_singleton.2 rfl, _, List.mem_singleton.2 rfl, by simp⟩
  exact absurd this (by decide)

/-- **C37** (queries), if in every domain and for every element type the ids increase from each part to the next: an id is found
exactly if some part contains it, and the element returned is one of that id. -/
theorem C37_find_partial {kinds : List (ElType × Nat)} (hk : kinds.Nodup) {parts : List SPart} {dms : List DomMap} (h : PartsOk kinds parts dms)
    (hd : SameDims dms) (hb : ∀ e ∈ dms.flatMap visitAll, e.id < 2 ^ 64)
    (hs : ∀ k i, ((dms.flatMap fun dm => ((dm.lookup k).map fun d' => d'.vecs.getD i []).getD []).map (·.id)).Pairwise (· < ·)) :
    ∃ m, unify kinds parts = some (m, unifiedBnds parts) ∧ ∀ id,
      (∀ e, findId m id = some e → e ∈ dms.flatMap visitAll ∧ e.id = id) ∧ (findId m id = none ↔ ¬ ∃ e ∈ dms.flatMap visitAll, e.id = id) := by
  obtain ⟨m, h1, h2, _, h4, h5⟩ := C37_contents hk h hd
  refine ⟨m, h1, fun id => ?_⟩
  have hmem : ∀ e, Holds m e ↔ e ∈ dms.flatMap visitAll := fun e => (mem_visitAll (sorted_keys h2)).symm.trans h5.mem_iff
  have := C21_find_id_partial m (fun d hdm v hv => by
    rw [h4 d.1 d.2 (lookup_of_mem (sorted_keys h2) hdm)] at hv
    obtain ⟨q, _, rfl⟩ := List.mem_map.1 hv
    exact hs d.1 q.2) (fun e he => hb e ((hmem e).1 he)) id
  simpa only [hmem] using this

/-- **C37** (boundaries): if the parts which name boundary domains all name the same ones, the unified mesh has these boundary domains; it has
none if no part names any. -/
theorem C37_boundaries {kinds : List (ElType × Nat)} (hk : kinds.Nodup) {parts : List SPart} {dms : List DomMap} (h : PartsOk kinds parts dms)
    (hd : SameDims dms) (B : List Nat) (hB : ∀ p ∈ parts, p.2.2.2 = [] ∨ p.2.2.2 = B) :
    ∃ m, unify kinds parts = some (m, if ∃ p ∈ parts, p.2.2.2 ≠ [] then B else []) := by
  obtain ⟨m, h1, _⟩ := C37_contents hk h hd
  refine ⟨m, h1.trans ?_⟩
  congr 2
  unfold unifiedBnds
  by_cases he : ∃ p ∈ parts, p.2.2.2 ≠ []
  · rw [if_pos he]
    cases hf : parts.find? fun p => !p.2.2.2.isEmpty with
    | none =>
      obtain ⟨p, hp, hne⟩ := he
      have := List.find?_eq_none.1 hf p hp
      simp only [Bool.not_eq_true', List.isEmpty_eq_false_iff] at this
      exact absurd hne this
    | some p =>
      have hp := List.mem_of_find?_eq_some hf
      have hs := List.find?_some hf
      simp only [Bool.not_eq_true', List.isEmpty_eq_false_iff] at hs
      exact (hB p hp).resolve_left hs
  · rw [if_neg he]
    have : (parts.find? fun p => !p.2.2.2.isEmpty) = none := by
      rw [List.find?_eq_none]
      intro p hp hs
      simp only [Bool.not_eq_true', List.isEmpty_eq_false_iff] at hs
      exact he ⟨p, hp, hs⟩
    rw [this]; rfl

/-! ## Concrete cases -/

example : (loadPart [(.line, 2)] 2 1 (run [1, 2, 3] (saveMesh [(.line, 2)] (txt "two\nlines") exParts).reverse)).map (·.2.1) = some 3 := by
  decide +kernel

theorem ex_fits : FitsFile [(.line, 2)] exParts := by
  refine ⟨by decide, ?_, by decide +kernel⟩
  intro p hp
  have key : ∀ a b c d : Nat, a + 1 < 65535 → b + 1 < 65535 → c < 65535 → d < 65535 → d ≠ 0 → (partCodec [(.line, 2)]).Fits (norm (linePart a b, c, d, [])) := by
    intro a b c d ha hb hc hd hd0
    refine ⟨⟨by simp [norm, linePart], fun x hx => ?_⟩, ?_, ?_, by simp [norm], by simp [norm]⟩
    · simp only [norm, linePart, List.mem_singleton] at hx
      subst hx
      refine ⟨by simp [uintCodec], by simp, ⟨by simp, fun v hv => ?_⟩, rfl⟩
      simp only [List.headD_cons, List.mem_cons, List.not_mem_nil, or_false] at hv
      rcases hv with rfl | rfl <;> refine ⟨rfl, rfl, ?_, rfl, ?_⟩ <;> simp only [List.mem_cons, List.not_mem_nil, or_false, forall_eq_or_imp, forall_eq] <;> omega
    · simp only [norm, uintCodec, if_neg hd0]; omega
    · simp only [norm, uintCodec]; omega
  simp only [exParts, List.mem_cons, List.not_mem_nil, or_false] at hp
  rcases hp with rfl | rfl
  · exact key 0 2 0 3 (by decide) (by decide) (by decide) (by decide) (by decide)
  · exact key 1 3 3 2 (by decide) (by decide) (by decide) (by decide) (by decide)

example : loadPart [(.line, 2)] 2 1 (run [1, 2, 3] (saveMesh [(.line, 2)] (txt "two\nlines") exParts).reverse) = some (norm exParts[1]) :=
  (C35_load ex_fits (txt "two\nlines") [1, 2, 3] (List.reverse_perm _)).1 1 (by decide)

example : ∃ o, ownershipRange (lineMesh 1 3) 3 2 = some o ∧ o.shared = [1, 2] := ⟨_, rfl, by decide +kernel⟩

/-- Two ranks with 2 and 1 owned nodes (the first also stores a ghost), two fields. -/
def exRanks : List (Nat × SolMan) :=
  [(2, ⟨3, 2, [leBytes 8 10, leBytes 8 11, leBytes 8 12, leBytes 8 20, leBytes 8 21, leBytes 8 22]⟩), (1, ⟨1, 2, [leBytes 8 12, leBytes 8 22]⟩)]

theorem exRanks_ok : RanksOk exRanks := by
  refine ⟨?_, ?_, ?_⟩ <;> decide +kernel

/-- Saved with both fields swapped, loaded on one rank with the nodes in reverse order: field 1 of the file is field 0 of the saved data. -/
example : ((saveRes (txt "c") exRanks [1, 0]).bind fun ws => loadRes (run [] ws.reverse) [2, 1, 0] [1] [0] ⟨3, 1, List.replicate 3 (leBytes 8 0)⟩).map
    (·.data.map ofLe) = some [12, 11, 10] := by decide +kernel

end Verif.NativeIO
