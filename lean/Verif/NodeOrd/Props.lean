import Verif.NodeOrd.Lemmas

/-! # Properties C88, C89: node ordering, node weights -/
namespace Verif.NodeOrd
open Verif Verif.Mesh Verif.Own

/-- **C88**: when it succeeds, the order lists every local node of the mesh part (owned and shared) exactly
as often as the ownership does, the owned nodes interior to no element first, in ascending order, then the
interior ones, then the shared ones. -/
theorem C88_node_order (m : DomMap) (o : SegOwn) (r : List Nat) (h : computeNodeOrder m o = some r) :
    r.Perm (List.range' o.first o.cnt ++ o.shared) ∧
    ∃ front int, r = front ++ int ++ o.shared ∧ front.Pairwise (· < ·) ∧ int.Nodup ∧
      (∀ x, x ∈ int ↔ ∃ e, TopDim m e ∧ Interior e x) ∧
      (∀ x, x ∈ front ↔ o.isOwned x = true ∧ ¬ ∃ e, TopDim m e ∧ Interior e x) := by
  have hint : ∀ x, x ∈ (topElems m).flatMap internalNodes ↔ ∃ e, TopDim m e ∧ Interior e x := by
    intro x
    simp only [List.mem_flatMap, mem_topElems, mem_internalNodes]
  simp only [computeNodeOrder, internalVec_eq] at h
  by_cases hn : ((topElems m).flatMap internalNodes).Nodup
  · rw [if_pos hn, Option.bind_some] at h
    simp only [assemble] at h
    by_cases hc : (owned o).countP (fun x => !decide (x ∈ (topElems m).flatMap internalNodes)) +
        ((topElems m).flatMap internalNodes).length + o.shared.length = o.localSize
    · rw [if_pos hc] at h
      obtain rfl := Option.some.inj h
      refine ⟨order_perm o _ hn ((count_iff o _ hn).mp hc), _, _, rfl, ?_, hn, hint, ?_⟩
      · exact List.Pairwise.filter _ List.pairwise_lt_range'
      · intro x
        rw [List.mem_filter, mem_owned, ← hint]
        simp
    · rw [if_neg hc] at h; simp at h
  · rw [if_neg hn] at h; simp at h

/-- **C88**: it succeeds exactly when no interior node occurs twice and all interior nodes are owned;
in all other cases it throws. -/
theorem C88_throws_iff (m : DomMap) (o : SegOwn) :
    (computeNodeOrder m o).isSome = true ↔
      (interiorOccurrences m).Nodup ∧ ∀ e x, TopDim m e → Interior e x → o.isOwned x = true := by
  have hint : ∀ x, x ∈ (topElems m).flatMap internalNodes ↔ ∃ e, TopDim m e ∧ Interior e x := by
    intro x
    simp only [List.mem_flatMap, mem_topElems, mem_internalNodes]
  rw [← occurrences_eq]
  simp only [computeNodeOrder, internalVec_eq]
  by_cases hn : ((topElems m).flatMap internalNodes).Nodup
  · rw [if_pos hn, Option.bind_some]
    simp only [assemble]
    have hc := count_iff o _ hn
    have hf : (∀ x ∈ (topElems m).flatMap internalNodes, x ∈ owned o) ↔
        ∀ e x, TopDim m e → Interior e x → o.isOwned x = true := by
      constructor
      · intro h e x he hx
        exact (mem_owned o x).mp (h x ((hint x).mpr ⟨e, he, hx⟩))
      · intro h x hx
        obtain ⟨e, he, hi⟩ := (hint x).mp hx
        exact (mem_owned o x).mpr (h e x he hi)
    rw [← hf, ← hc]
    split <;> rename_i hs
    · exact ⟨fun _ => ⟨hn, hs⟩, fun _ => rfl⟩
    · exact ⟨fun h => by simp at h, fun h => absurd h.2 hs⟩
  · rw [if_neg hn]
    exact ⟨fun h => by simp at h, fun h => absurd h.1 hn⟩

/-- Two quadratic lines sharing node 2, one of the end points a ghost. -/
def twoLines : DomMap := [(7, ⟨some 1, [[⟨.line, 3, 0, [0, 1, 2]⟩, ⟨.line, 3, 1, [2, 3, 9]⟩]]⟩), (8, ⟨some 0, []⟩)]

example : computeNodeOrder twoLines ⟨0, 4, [9]⟩ = some [0, 2, 1, 3, 9] := by decide +kernel
example : computeNodeOrder twoLines ⟨0, 3, [3, 9]⟩ = none := by decide +kernel

/-- **C89**: on a mesh whose nodes are numbered from zero without gaps the weight of a node is the number of
degrees of freedom defined at it, however the definitions overlap. -/
theorem C89_weights (nd : Nat) (m : DomMap) (o : SegOwn) (defs : List DomDef) (hne : defs ≠ [])
    (hd : ∀ df ∈ defs, df.dofs.length = nd)
    (hm : ∀ p ∈ m, ∀ e ∈ p.2.elems, ∀ x ∈ e.nodes, x < o.cnt) (h0 : o.first = 0) (hs : o.shared = []) :
    computeNodeWeights nd m o defs =
      some ((List.range o.cnt).map fun x => {d | ActiveAt m defs x d}.ncard) := by
  classical
  have hsz : o.localSize = o.cnt := by simp [SegOwn.localSize, hs]
  have hnode : ∀ x d, ActiveAt m defs x d → x < o.cnt ∧ d < nd := by
    rintro x d ⟨df, hdf, hb, dom, -, D, hD, e, he, hx⟩
    refine ⟨hm (dom, D) ?_ e he x hx, ?_⟩
    · obtain ⟨l1, l2, e, -⟩ := List.lookup_eq_some_iff.mp hD
      rw [e]; simp
    · have := (List.getElem?_eq_some_iff.mp hb).1
      rw [hd df hdf] at this; exact this
  have hpos : ∀ x d, x < o.cnt → d < nd → d + x * nd < nd * o.cnt := by
    intro x d hx hd
    calc d + x * nd < nd + x * nd := by omega
      _ = (x + 1) * nd := by ring
      _ ≤ o.cnt * nd := Nat.mul_le_mul_right _ hx
      _ = nd * o.cnt := Nat.mul_comm _ _
  obtain ⟨b, hb, hlen, htest⟩ := run_sets (nd * o.cnt) (weightOps nd m defs) (by
    intro op ho
    obtain ⟨x, k, ha, rfl⟩ := (mem_weightOps nd m defs op).mp ho
    exact ⟨_, hpos x k (hnode x k ha).1 (hnode x k ha).2, rfl⟩)
  simp only [computeNodeWeights, hne, if_false, hsz, hb, Option.bind_some, hs, List.append_nil, owned, h0]
  rw [← List.range_eq_range']
  apply mapM_some
  intro x hx
  rw [List.mem_range] at hx
  have hle : (x + 1) * nd ≤ 64 * b.data.length :=
    le_trans (by rw [Nat.mul_comm nd]; exact Nat.mul_le_mul_right _ hx) hlen
  rw [Bitset.subCount_eq b _ _ (Nat.mul_le_mul_right _ (Nat.le_succ x)) hle]
  have hw : (x + 1) * nd - x * nd = nd := by rw [Nat.add_mul, Nat.one_mul]; omega
  rw [hw]
  congr 1
  apply countP_eq_ncard (x * nd) nd (fun d => ActiveAt m defs x d)
  · intro d hdn
    have h1 := hpos x d hx hdn
    have h2 := htest (d + x * nd) h1
    rw [Bitset.test_eq b _ (by omega)] at h2
    rw [Nat.add_comm (x * nd) d]
    have h3 : Bitset.bit b.data (d + x * nd) = true ↔ Bitset.Op.set (d + x * nd) ∈ weightOps nd m defs := by
      rw [← h2]; simp
    rw [h3, mem_weightOps]
    constructor
    · rintro ⟨y, k, ha, he⟩
      have he' : d + x * nd = k + y * nd := by injection he
      obtain ⟨-, hk⟩ := hnode y k ha
      have e1 : d = k := by
        have := congrArg (· % nd) he'
        simpa [Nat.add_mul_mod_self_right, Nat.mod_eq_of_lt hdn, Nat.mod_eq_of_lt hk] using this
      have e2 : x = y := by
        subst e1
        have : x * nd = y * nd := by omega
        exact Nat.eq_of_mul_eq_mul_right (by omega) this
      subst e1 e2; exact ha
    · intro ha; exact ⟨x, d, ha, rfl⟩
  · intro d ha; exact (hnode x d ha).2

/-- **C89**: without definitions no weights are passed on. -/
theorem C89_no_definitions (nd : Nat) (m : DomMap) (o : SegOwn) : computeNodeWeights nd m o [] = some [] := by
  simp [computeNodeWeights]

/-- **C89**: definitions are recorded bit by bit, and an index that is too large is refused. -/
theorem C89_define (nd : Nat) (defs : List DomDef) (domains inds : List Nat) :
    ((∃ i ∈ inds, nd ≤ i) ∧ define nd defs domains inds = none) ∨
    ((∀ i ∈ inds, i < nd) ∧ ∃ df, define nd defs domains inds = some (defs ++ [df]) ∧ df.domains = domains ∧
      df.dofs.length = nd ∧ ∀ d, df.dofs[d]? = some true ↔ d ∈ inds) := by
  by_cases h : inds.all (fun i => decide (i < nd)) = true
  · right
    have h' : ∀ i ∈ inds, i < nd := by simpa using h
    refine ⟨h', _, by simp only [define]; rw [if_pos h], rfl, ?_⟩
    have gen : ∀ (l : List Nat) (b : List Bool), (∀ i ∈ l, i < b.length) →
        (l.foldl (fun b i => b.set i true) b).length = b.length ∧
          ∀ d : Nat, (l.foldl (fun b i => b.set i true) b)[d]? = some true ↔ b[d]? = some true ∨ d ∈ l := by
      intro l
      induction l with
      | nil => intro b _; simp
      | cons i l ih =>
        intro b hb
        obtain ⟨h1, h2⟩ := ih (b.set i true) fun j hj => by
          rw [List.length_set]; exact hb j (List.mem_cons_of_mem _ hj)
        refine ⟨by rw [List.foldl_cons, h1, List.length_set], ?_⟩
        intro d
        rw [List.foldl_cons, h2, List.getElem?_set, List.mem_cons]
        have hi := hb i List.mem_cons_self
        by_cases hd : i = d
        · subst hd; simp [hi]
        · simp [hd, Ne.symm hd]
    obtain ⟨h1, h2⟩ := gen inds (List.replicate nd false) (by simpa using h')
    refine ⟨by rw [h1]; simp, ?_⟩
    intro d
    rw [h2 d]
    simp [List.getElem?_replicate]
  · left
    refine ⟨by simpa using h, ?_⟩
    simp only [define]; rw [if_neg h]

/-- A line and a point domain over three nodes; the first dof on the line, both dofs on the point. -/
def weighted : DomMap := [(1, ⟨some 1, [[⟨.line, 3, 0, [0, 1, 2]⟩]]⟩), (2, ⟨some 1, [[⟨.line, 2, 1, [1, 2]⟩]]⟩)]

example : computeNodeWeights 2 weighted ⟨0, 3, []⟩ [⟨[1], [true, false]⟩, ⟨[2, 2], [true, true]⟩] =
    some [1, 2, 2] := by decide +kernel
example : define 2 [] [1, 2] [1] = some [⟨[1, 2], [false, true]⟩] := by decide +kernel

/-- **C89**: on a part of a distributed mesh (ids not starting at zero) the function reads outside its bitset. -/
theorem C89_outside : computeNodeWeights 64 [(1, ⟨some 1, [[⟨.line, 2, 0, [5, 6]⟩]]⟩)] ⟨5, 2, []⟩
    [⟨[1], List.replicate 64 true⟩] = none := by decide +kernel

end Verif.NodeOrd
