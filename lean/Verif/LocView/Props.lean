import Verif.LocView.Reorder

/-! # Properties C25 and C26: local mesh views -/
namespace Verif.LocView
open Verif Verif.Elem Verif.Mesh

/-! ## C26: nodes -/

theorem assign_length (init : List Nat) (w : List (Nat × Nat)) : (assign init w).length = init.length := by
  induction w generalizing init with
  | nil => rfl
  | cons p w ih => rw [assign, List.foldl_cons, ← assign, ih, List.length_set]

theorem assign_map (f : Nat → Nat) (init inds : List Nat) (k : Nat) :
    (assign init (inds.map fun i => (i, f i)))[k]? = if k < init.length ∧ k ∈ inds then some (f k) else init[k]? := by
  induction inds generalizing init with
  | nil => simp [assign]
  | cons i inds ih =>
    rw [List.map_cons, assign, List.foldl_cons, ← assign, ih, List.length_set]
    simp only [List.mem_cons]
    by_cases h1 : k < init.length
    · by_cases h2 : k ∈ inds
      · simp [h1, h2]
      · by_cases h3 : k = i
        · subst h3; simp [h1]
        · rw [List.getElem?_set_ne (by omega)]; simp [h2, h3]
    · have e : init[k]? = none := List.getElem?_eq_none (by omega)
      simp [h1, e]

theorem isSorted_iff (l : List Nat) : isSorted l = true ↔ l.Pairwise (· ≤ ·) := by
  induction l with
  | nil => simp [isSorted]
  | cons a l ih =>
    cases l with
    | nil => simp [isSorted]
    | cons b l =>
      rw [isSorted, Bool.and_eq_true, ih, decide_eq_true_eq, List.pairwise_cons (a := a)]
      constructor
      · rintro ⟨h1, h2⟩
        refine ⟨fun c hc => ?_, h2⟩
        rcases List.mem_cons.1 hc with rfl | hc
        · exact h1
        · exact Nat.le_trans h1 ((List.pairwise_cons.1 h2).1 c hc)
      · rintro ⟨h1, h2⟩; exact ⟨h1 b (by simp), h2⟩

/-- What a caller knows about the mesh: `o` is the node ownership of the full mesh, every node of the
element belongs to it, and local indices fit into 32 bits. -/
structure NodesOk (o : Own.SegOwn) (e : Element) : Prop where
  len : e.nodes.length = nNodes e.ty e.n
  nodup : e.nodes.Nodup
  sharedStrict : o.shared.Pairwise (· < ·)
  disj : ∀ x ∈ o.shared, ¬ (o.first ≤ x ∧ x < o.first + o.cnt)
  known : ∀ x ∈ e.nodes, (o.first ≤ x ∧ x < o.first + o.cnt) ∨ x ∈ o.shared
  size : o.localSize ≤ 2 ^ 32

/-- The local index of a node: position among the owned nodes followed by the ghosts. -/
def localPos (o : Own.SegOwn) (x : Nat) : Nat := ((List.range o.cnt).map (o.first + ·) ++ o.shared).idxOf x

theorem own_make {o : Own.SegOwn} (hs : o.shared.Pairwise (· < ·))
    (hd : ∀ x ∈ o.shared, ¬ (o.first ≤ x ∧ x < o.first + o.cnt)) : Own.SegOwn.make o.first o.cnt o.shared = some o := by
  unfold Own.SegOwn.make
  rw [if_neg, Std.sort_eq_of_sorted (hs.imp le_of_lt)]
  rw [List.any_eq_true]
  rintro ⟨x, hx, h⟩
  exact hd x hx (by simpa [Own.SegOwn.isOwned] using h)

theorem getLocal_lt {o : Own.SegOwn} {e : Element} (h : NodesOk o e) {x : Nat} (hx : x ∈ e.nodes) : o.getLocal x < o.localSize :=
  (Own.C08_global_local_global o.first o.cnt o.shared (Std.nodup_of_strict h.sharedStrict) o (own_make h.sharedStrict h.disj) x (h.known x hx)).2.1

theorem getLocal_pos {o : Own.SegOwn} {e : Element} (h : NodesOk o e) {x : Nat} (hx : x ∈ e.nodes) : o.getLocal x = localPos o x := by
  unfold localPos Own.SegOwn.getLocal Own.SegOwn.isOwned
  by_cases ho : o.first ≤ x ∧ x < o.first + o.cnt
  · rw [if_pos (by simpa using ho), List.idxOf_append_of_mem (List.mem_map.2 ⟨x - o.first, List.mem_range.2 (by omega), by omega⟩)]
    have hn : ((List.range o.cnt).map (o.first + ·)).Nodup := List.Nodup.map (fun a b hab => by simpa using hab) List.nodup_range
    have hl : x - o.first < ((List.range o.cnt).map (o.first + ·)).length := by simp; omega
    have := hn.idxOf_getElem (x - o.first) hl
    rw [show ((List.range o.cnt).map (o.first + ·))[x - o.first] = x by simp; omega] at this
    exact this.symm
  · have hx' : x ∈ o.shared := (h.known x hx).resolve_left ho
    rw [if_neg (by simpa using ho), List.idxOf_append_of_notMem (fun hc => ho (by
      obtain ⟨i, hi, rfl⟩ := List.mem_map.1 hc
      rw [List.mem_range] at hi; omega))]
    simp only [List.length_map, List.length_range]
    congr 1
    obtain ⟨i, hi, rfl⟩ := List.mem_iff_getElem.1 hx'
    rw [Std.lowerBound_getElem h.sharedStrict hi, (Std.nodup_of_strict h.sharedStrict).idxOf_getElem i hi]

theorem g2l_eq {o : Own.SegOwn} {e : Element} (h : NodesOk o e) {x : Nat} (hx : x ∈ e.nodes) : g2l o x = localPos o x := by
  rw [g2l, u32, Nat.mod_eq_of_lt (Nat.lt_of_lt_of_le (getLocal_lt h hx) h.size), getLocal_pos h hx]

theorem getLocal_inj {o : Own.SegOwn} {e : Element} (h : NodesOk o e) {x y : Nat} (hx : x ∈ e.nodes) (hy : y ∈ e.nodes)
    (hxy : localPos o x = localPos o y) : x = y := by
  rw [← getLocal_pos h hx, ← getLocal_pos h hy] at hxy
  have hg := fun z hz => (Own.C08_global_local_global o.first o.cnt o.shared (Std.nodup_of_strict h.sharedStrict) o (own_make h.sharedStrict h.disj) z (h.known z hz)).1
  have h1 := hg x hx
  rw [hxy, hg y hy] at h1
  simpa using h1.symm

/-- The internal nodes carry consecutive local indices, in element order. -/
def InternalContiguous (o : Own.SegOwn) (e : Element) : Prop :=
  ∀ k (hk : k < (internalInds e.ty e.n).length), localPos o (e.nodes.getD (internalInds e.ty e.n)[k] 0) =
    localPos o (e.nodes.getD ((internalInds e.ty e.n).getD 0 0) 0) + k

theorem internal_mem {o : Own.SegOwn} {e : Element} (h : NodesOk o e) {i : Nat} (hi : i ∈ internalInds e.ty e.n) :
    i < e.nodes.length := by
  rw [h.len]; exact List.mem_range.1 (List.mem_filter.1 hi).1

theorem getD_mem {l : List Nat} {i : Nat} (hi : i < l.length) : l.getD i 0 ∈ l := by
  rw [List.getD_eq_getElem?_getD, List.getElem?_eq_getElem hi]; exact List.getElem_mem hi

theorem boundary_lt {t : ElType} {n i : Nat} (hn : 2 ≤ n) (hb : n ^ t.dim < 2 ^ 16) (hi : i ∈ boundaryInds t n) : i < nNodes t n := by
  rw [boundaryInds, Std.mem_sortUniq, List.mem_flatten] at hi
  obtain ⟨l, hl, hi⟩ := hi
  obtain ⟨s, hs, rfl⟩ := List.mem_iff_getElem.1 hl
  rw [table_length] at hs
  have e := side_eq_layer t n s (by omega) hb hs
  rw [sideNodeInds, List.getElem?_eq_getElem (by rw [table_length]; exact hs), Option.some.injEq] at e
  rw [e, mem_layer] at hi
  rw [nNodes, u16_id hb]; exact hi.1

theorem strict_consec {l : List Nat} (hs : l.Pairwise (· < ·)) (hl : 0 < l.length)
    (hc : l.headD 0 + l.length - 1 = l.getLastD 0) (k : Nat) (hk : k < l.length) : l[k] = l.headD 0 + k := by
  cases l with
  | nil => simp at hl
  | cons a l =>
    have hlast : (a :: l).getLastD 0 = (a :: l)[(a :: l).length - 1] := by
      rw [List.getLastD_eq_getLast?, List.getLast?_eq_getElem?, List.getElem?_eq_getElem (by simp)]; rfl
    have mono : ∀ i j (hi : i < (a :: l).length) (hj : j < (a :: l).length), i ≤ j → (a :: l)[i] + (j - i) ≤ (a :: l)[j] := by
      intro i j hi hj hij
      induction j with
      | zero => have : i = 0 := by omega
                subst this; simp
      | succ j ih =>
        rcases Nat.eq_or_lt_of_le hij with rfl | h1
        · simp
        · have h2 := ih (by omega) (by omega)
          have h3 := List.pairwise_iff_getElem.1 hs j (j + 1) (by omega) hj (by omega)
          omega
    have h1 := mono 0 k (by simp) hk (by omega)
    have h2 := mono k ((a :: l).length - 1) hk (by simp) (by omega)
    rw [hlast] at hc
    simp only [List.headD_cons, List.getElem_cons_zero] at *
    omega

theorem zip_map_append (l : List Nat) (f : Nat → Nat) (r : List Nat) : l.zip (l.map f ++ r) = l.map fun i => (i, f i) := by
  induction l with
  | nil => simp
  | cons a l ih => simp [ih]

/-- **C26** (nodes): for an element with distinct nodes, the constructor accepts exactly the elements
whose internal nodes are consecutive in the local numbering (or which have at most one), and then
`getLocalNodes` gives the local index of each node, in element order. -/
theorem C26_local_nodes (o : Own.SegOwn) (e : Element) (hn : 2 ≤ e.n) (hb : e.n ^ e.ty.dim < 2 ^ 16) (h : NodesOk o e)
    (sides : List (Nat × Nat)) (hsides : ∀ p ∈ sides, p.1 < Elem.nSides e.ty) :
    (∀ v, LocElem.make o e sides = some v → v.nodes = e.nodes.map (localPos o)) ∧
    ((∃ v, LocElem.make o e sides = some v) ↔ InternalContiguous o e) := by
  set ii := internalInds e.ty e.n with hii
  have hiinodup : ii.Nodup := (List.nodup_range.filter _)
  have hsd : ∃ sd, storeSides (Mesh.nSides e) sides = some sd := by
    rw [show Mesh.nSides e = Elem.nSides e.ty from table_length _ _]
    unfold storeSides
    generalize List.replicate (Elem.nSides e.ty) invalidDom = a
    induction sides generalizing a with
    | nil => exact ⟨a, rfl⟩
    | cons p l ih =>
      rw [List.foldlM_cons, if_pos (hsides p (by simp))]
      exact ih (fun q hq => hsides q (by simp [hq])) _
  obtain ⟨sd, hsd⟩ := hsd
  have hmk : LocElem.make o e sides = (storeNodes o e).map fun st => ⟨e.ty, e.n, st, sd⟩ := by
    unfold LocElem.make; rw [hsd]; cases storeNodes o e <;> rfl
  have hf : ∀ i ∈ ii, g2l o (e.nodes.getD i 0) = localPos o (e.nodes.getD i 0) := fun i hi =>
    g2l_eq h (getD_mem (internal_mem h hi))
  by_cases hone : 1 < ii.length
  · set L := ii.map fun i => g2l o (e.nodes.getD i 0) with hL
    have hLlen : L.length = ii.length := by simp [hL]
    have hLget : ∀ k (hk : k < ii.length), L[k]'(by omega) = localPos o (e.nodes.getD ii[k] 0) := by
      intro k hk
      simp only [hL, List.getElem_map]
      exact hf _ (List.getElem_mem hk)
    have hLnodup : L.Nodup := by
      refine List.Nodup.map_on ?_ hiinodup
      intro i hi j hj hij
      rw [hf i hi, hf j hj] at hij
      have := getLocal_inj h (getD_mem (internal_mem h hi)) (getD_mem (internal_mem h hj)) hij
      rw [List.getD_eq_getElem?_getD, List.getD_eq_getElem?_getD, List.getElem?_eq_getElem (internal_mem h hi),
        List.getElem?_eq_getElem (internal_mem h hj)] at this
      exact (List.Nodup.getElem_inj_iff h.nodup).1 this
    have hhead : L.headD 0 = L[0]'(by omega) := by
      rw [List.headD_eq_head?_getD, List.head?_eq_getElem?, List.getElem?_eq_getElem (by omega)]; rfl
    have hlast : L.getLastD 0 = L[L.length - 1]'(by omega) := by
      rw [List.getLastD_eq_getLast?, List.getLast?_eq_getElem?, List.getElem?_eq_getElem (by omega)]; rfl
    have hi0 : ii.getD 0 0 = ii[0]'(by omega) := by
      rw [List.getD_eq_getElem?_getD, List.getElem?_eq_getElem (by omega)]; rfl
    have hst : storeNodes o e = if isSorted L && decide (L.headD 0 + L.length - 1 = L.getLastD 0) then
        some ((boundaryInds e.ty e.n).map (fun i => g2l o (e.nodes.getD i 0)) ++ [L.headD 0]) else none := by
      unfold storeNodes; simp only [← hii]; rw [if_pos hone]
    have hiff : (isSorted L && decide (L.headD 0 + L.length - 1 = L.getLastD 0)) = true ↔ InternalContiguous o e := by
      rw [Bool.and_eq_true, decide_eq_true_eq, isSorted_iff]
      constructor
      · rintro ⟨h1, h2⟩ k hk
        have hk : k < ii.length := hk
        have h3 := strict_consec (Std.lt_of_le_nodup h1 hLnodup) (by omega) h2 k (by omega)
        rw [hhead] at h3
        have e1 := hLget k hk
        have e2 := hLget 0 (by omega)
        simp only [← hii]
        rw [hi0, ← e1, ← e2, h3]
      · intro hc
        have hcon : ∀ k (hk : k < ii.length), L[k]'(by omega) = L[0]'(by omega) + k := by
          intro k hk
          have := hc k hk
          simp only [← hii] at this
          rw [hi0] at this
          rw [hLget k hk, hLget 0 (by omega), this]
        refine ⟨List.pairwise_iff_getElem.2 fun i j hi hj hij => ?_, ?_⟩
        · rw [hcon i (by omega), hcon j (by omega)]; omega
        · rw [hhead, hlast, hcon (L.length - 1) (by omega)]; omega
    constructor
    · intro v hv
      rw [hmk, hst] at hv
      by_cases hc : (isSorted L && decide (L.headD 0 + L.length - 1 = L.getLastD 0)) = true
      · rw [if_pos hc] at hv
        simp only [Option.map_some, Option.some.injEq] at hv
        subst hv
        have hcon := hiff.1 hc
        have hbz : (boundaryInds e.ty e.n).zip ((boundaryInds e.ty e.n).map (fun i => g2l o (e.nodes.getD i 0)) ++ [L.headD 0]) =
            (boundaryInds e.ty e.n).map fun i => (i, localPos o (e.nodes.getD i 0)) := by
          rw [zip_map_append]
          refine List.map_congr_left fun i hi => ?_
          rw [g2l_eq h (getD_mem (by rw [h.len]; exact boundary_lt hn hb hi))]
        have hiz : ii.zip ((List.range ii.length).map fun k => u32 (L.headD 0 + k)) =
            ii.map fun i => (i, localPos o (e.nodes.getD i 0)) := by
          apply List.ext_getElem (by simp)
          intro k hk1 hk2
          have hk : k < ii.length := by simpa using hk2
          have h3 := strict_consec (Std.lt_of_le_nodup ((isSorted_iff L).1 (Bool.and_eq_true _ _ ▸ hc).1) hLnodup) (by omega)
            (of_decide_eq_true (Bool.and_eq_true _ _ ▸ hc).2) k (by omega)
          rw [hLget k hk] at h3
          simp only [List.getElem_zip, List.getElem_map, List.getElem_range, Prod.mk.injEq, true_and]
          rw [← h3, u32, Nat.mod_eq_of_lt]
          have hmem := getD_mem (internal_mem h (List.getElem_mem hk))
          rw [← getLocal_pos h hmem]
          exact Nat.lt_of_lt_of_le (getLocal_lt h hmem) h.size
        unfold LocElem.nodes
        simp only [← hii]
        rw [if_pos hone, hbz]
        rw [show ((boundaryInds e.ty e.n).map (fun i => g2l o (e.nodes.getD i 0)) ++ [L.headD 0]).getLastD 0 = L.headD 0 by simp [List.getLastD_eq_getLast?]]
        rw [hiz]
        apply List.ext_getElem?
        intro k
        rw [assign_map, assign_map, assign_length, List.length_replicate, List.getElem?_map]
        by_cases hk : k < nNodes e.ty e.n
        · have hv : e.nodes.getD k 0 = e.nodes[k]'(by rw [h.len]; exact hk) := by
            rw [List.getD_eq_getElem?_getD, List.getElem?_eq_getElem (by rw [h.len]; exact hk)]; rfl
          rw [List.getElem?_eq_getElem (l := e.nodes) (by rw [h.len]; exact hk), Option.map_some, ← hv]
          by_cases hki : k ∈ ii
          · rw [if_pos ⟨hk, hki⟩]
          · rw [if_neg (fun hc => hki hc.2), if_pos]
            refine ⟨hk, ?_⟩
            by_contra hkb
            apply hki
            rw [hii, internalInds, List.mem_filter]
            refine ⟨List.mem_range.2 hk, ?_⟩
            rw [Bool.not_eq_true', ← Bool.not_eq_true]
            exact fun hh => hkb ((Std.binarySearch_iff ((Std.sortUniq_strict _).imp le_of_lt) k).1 hh)
        · rw [if_neg (fun hc => hk hc.1), if_neg (fun hc => hk hc.1), List.getElem?_eq_none (by simpa using hk),
            List.getElem?_eq_none (by rw [h.len]; omega)]; rfl
      · rw [if_neg hc] at hv; simp at hv
    · rw [hmk, hst, ← hiff]
      constructor
      · rintro ⟨v, hv⟩
        by_contra hc
        rw [if_neg hc] at hv; simp at hv
      · intro hc; rw [if_pos hc]; exact ⟨_, rfl⟩
  · have hst : storeNodes o e = some (e.nodes.map (g2l o)) := by
      unfold storeNodes; simp only [← hii]; rw [if_neg hone]
    constructor
    · intro v hv
      rw [hmk, hst] at hv
      simp only [Option.map_some, Option.some.injEq] at hv
      subst hv
      unfold LocElem.nodes
      simp only [← hii]
      rw [if_neg hone]
      exact List.map_congr_left fun x hx => g2l_eq h hx
    · rw [hmk, hst]
      refine ⟨fun _ k hk => ?_, fun _ => ⟨_, rfl⟩⟩
      have hk : k < ii.length := hk
      have hk0 : k = 0 := by omega
      subst hk0
      simp only [← hii]
      rw [List.getD_eq_getElem?_getD (l := ii), List.getElem?_eq_getElem hk]; rfl

/-- An order-2 quadrilateral has one internal node, an order-3 one four; the latter with consecutive
internal nodes. -/
def quad4 (internal : List Nat) : Element :=
  ⟨.quad, 4, 7, [0, 1, 2, 3, 4, internal.getD 0 0, internal.getD 1 0, 5, 6, internal.getD 2 0, internal.getD 3 0, 7, 20, 21, 22, 23]⟩

example : NodesOk ⟨0, 12, [20, 21, 22, 23]⟩ (quad4 [8, 9, 10, 11]) :=
  ⟨by decide, by decide, by decide, by decide, by decide, by decide⟩

example : (LocElem.make ⟨0, 12, [20, 21, 22, 23]⟩ (quad4 [8, 9, 10, 11]) [(2, 5)]).map (fun v => (v.stored, v.nodes, v.boundaries)) =
    some ([0, 1, 2, 3, 4, 5, 6, 7, 12, 13, 14, 15, 8], [0, 1, 2, 3, 4, 8, 9, 5, 6, 10, 11, 7, 12, 13, 14, 15], [(2, 5)]) := by
  decide +kernel

example : LocElem.make ⟨0, 12, [20, 21, 22, 23]⟩ (quad4 [8, 10, 9, 11]) [] = none := by decide +kernel

/-! ## C26: sides -/

theorem sidesFold (qs : List (Nat × Nat × Nat)) (m : List (Nat × List (Nat × Nat))) (hm : OMap.Sorted m) (x : Nat) :
    ((qs.foldl (fun m q => OMap.upd m q.1 fun l => l.getD [] ++ [q.2]) m).lookup x).getD [] =
      (m.lookup x).getD [] ++ (qs.filter fun q => q.1 = x).map (·.2) := by
  induction qs generalizing m with
  | nil => simp
  | cons q qs ih =>
    rw [List.foldl_cons, ih _ (OMap.sorted_upd hm _ _), OMap.lookup_upd hm]
    by_cases h : x = q.1
    · subst h; simp
    · rw [if_neg h, List.filter_cons_of_neg (by simpa using fun hc => h hc.symm)]

/-- The sides recorded for an element id: each boundary view whose parent has that id, with its
boundary id. -/
theorem mem_sidesMap (bv : BndViews) (x s b : Nat) :
    (s, b) ∈ ((sidesMap bv).lookup x).getD [] ↔ ∃ l, (b, l) ∈ bv ∧ ∃ e, (e, s) ∈ l ∧ e.id = x := by
  unfold sidesMap
  rw [sidesFold _ _ (by simp [OMap.Sorted])]
  simp only [List.lookup_nil, Option.getD_none, List.nil_append, List.mem_map, List.mem_filter, List.mem_flatMap, decide_eq_true_eq]
  constructor
  · rintro ⟨q, ⟨⟨p, hp, v, hv, rfl⟩, rfl⟩, h⟩
    simp only [Prod.mk.injEq] at h
    obtain ⟨rfl, rfl⟩ := h
    exact ⟨p.2, hp, v.1, hv, rfl⟩
  · rintro ⟨l, hl, e, he, rfl⟩
    exact ⟨(e.id, s, b), ⟨⟨(b, l), hl, (e, s), he, rfl⟩, rfl⟩, rfl⟩

theorem storeSides_spec (nS : Nat) (sides : List (Nat × Nat)) (sd : List Nat) (h : storeSides nS sides = some sd) :
    sd.length = nS ∧ (∀ p ∈ sides, p.1 < nS) ∧
    ∀ s, s < nS → (∀ p ∈ sides, ∀ q ∈ sides, p.1 = s → q.1 = s → p.2 = q.2) →
      ∀ b, b ≠ invalidDom → (sd[s]? = some b ↔ (s, b) ∈ sides) := by
  suffices H : ∀ (l : List (Nat × Nat)) (a sd : List Nat), a.length = nS →
      l.foldlM (fun a p => if p.1 < nS then some (a.set p.1 p.2) else none) a = some sd →
      sd.length = nS ∧ (∀ p ∈ l, p.1 < nS) ∧ ∀ s, s < nS →
        ((∀ p ∈ l, p.1 ≠ s) → sd[s]? = a[s]?) ∧ (∀ p ∈ l, p.1 = s → (∀ q ∈ l, q.1 = s → q.2 = p.2) → sd[s]? = some p.2) by
    obtain ⟨h1, h2, h3⟩ := H sides _ sd (by simp) h
    refine ⟨h1, h2, fun s hs hc b hb => ⟨fun e => ?_, fun hm => ?_⟩⟩
    · by_cases hex : ∃ p ∈ sides, p.1 = s
      · obtain ⟨p, hp, rfl⟩ := hex
        rw [(h3 p.1 hs).2 p hp rfl fun q hq hqs => hc q hq p hp hqs rfl] at e
        simp only [Option.some.injEq] at e
        subst e; exact hp
      · rw [(h3 s hs).1 fun p hp hps => hex ⟨p, hp, hps⟩, List.getElem?_replicate, if_pos hs] at e
        simp only [Option.some.injEq] at e
        exact absurd e.symm hb
    · exact (h3 s hs).2 (s, b) hm rfl fun q hq hqs => hc q hq (s, b) hm hqs rfl
  intro l
  induction l with
  | nil =>
    intro a sd ha h
    simp only [List.foldlM_nil, Option.pure_def, Option.some.injEq] at h
    subst h
    exact ⟨ha, by simp, fun s hs => ⟨fun _ => rfl, by simp⟩⟩
  | cons p l ih =>
    intro a sd ha h
    rw [List.foldlM_cons] at h
    split at h
    · rename_i hp
      obtain ⟨h1, h2, h3⟩ := ih (a.set p.1 p.2) sd (by simpa using ha) h
      refine ⟨h1, by simpa using ⟨hp, fun a b hab => h2 (a, b) hab⟩, fun s hs => ⟨fun hn => ?_, fun q hq hqs hall => ?_⟩⟩
      · rw [(h3 s hs).1 fun q hq => hn q (by simp [hq]), List.getElem?_set_ne (hn p (by simp))]
      · by_cases hex : ∃ q' ∈ l, q'.1 = s
        · obtain ⟨q', hq', hqs'⟩ := hex
          have e1 := (h3 s hs).2 q' hq' hqs' fun r hr hrs => (hall r (by simp [hr]) hrs).trans (hall q' (by simp [hq']) hqs').symm
          rw [e1, hall q' (by simp [hq']) hqs']
        · rw [(h3 s hs).1 fun r hr hrs => hex ⟨r, hr, hrs⟩]
          rcases List.mem_cons.1 hq with rfl | hq
          · subst hqs; rw [List.getElem?_set_self (by omega)]
          · exact absurd ⟨q, hq, hqs⟩ hex
    · simp at h

theorem mem_boundaries (v : LocElem) (s b : Nat) : (s, b) ∈ v.boundaries ↔ v.sides[s]? = some b ∧ b ≠ invalidDom := by
  unfold LocElem.boundaries
  simp only [List.mem_map, List.mem_filter, decide_eq_true_eq, Prod.mk.injEq]
  constructor
  · rintro ⟨p, ⟨hp, hn⟩, rfl, rfl⟩
    exact ⟨List.mem_zipIdx_iff_getElem?.1 hp, hn⟩
  · rintro ⟨h, hb⟩
    exact ⟨(b, s), ⟨List.mem_zipIdx_iff_getElem?.2 h, hb⟩, rfl, rfl⟩

/-- Side `s` of the element with id `x` is on boundary `b` (according to the boundary views). -/
def OnBoundary (bv : BndViews) (x s b : Nat) : Prop := ∃ l, (b, l) ∈ bv ∧ ∃ e, (e, s) ∈ l ∧ e.id = x

/-- C26 (sides) as one would like it. -/
def C26SidesStatement : Prop :=
  ∀ (o : Own.SegOwn) (bv : BndViews) (e : Element) (v : LocElem), (bv.map (·.1)).Pairwise (· < ·) →
    (∀ b ∈ bv.map (·.1), b < invalidDom) → toLocal o (sidesMap bv) e = some v →
    ∀ s b, (s, b) ∈ v.boundaries ↔ OnBoundary bv e.id s b

/-- **C26** (sides) fails when a side belongs to two boundaries: only the one with the larger id is
reported. -/
theorem C26_shared_side_violated : ¬ C26SidesStatement := fun h => by
  have := (h ⟨0, 2, []⟩ [(3, [(⟨.line, 2, 0, [0, 1]⟩, 1)]), (4, [(⟨.line, 2, 0, [0, 1]⟩, 1)])] ⟨.line, 2, 0, [0, 1]⟩
    ⟨.line, 2, [0, 1], [65535, 4]⟩ (by decide) (by decide) (by decide +kernel) 1 3).2
    ⟨_, List.mem_cons_self .., ⟨.line, 2, 0, [0, 1]⟩, by simp, rfl⟩
  revert this
  decide +kernel

/-- **C26** (sides), provided no side of the element is on two boundaries: the reported sides are
exactly those on a boundary, each with its boundary id, each once, and a side number which is not a
side of the element is refused.  (For a side on several boundaries see `C26_shared_side_violated`.) -/
theorem C26_sides_partial (o : Own.SegOwn) (bv : BndViews) (e : Element) (v : LocElem)
    (hids : ∀ b ∈ bv.map (·.1), b < invalidDom) (hv : toLocal o (sidesMap bv) e = some v)
    (huniq : ∀ s b b', OnBoundary bv e.id s b → OnBoundary bv e.id s b' → b = b') :
    (∀ s b, (s, b) ∈ v.boundaries ↔ OnBoundary bv e.id s b) ∧ v.boundaries.Pairwise (·.1 < ·.1) ∧
      (∀ s b, OnBoundary bv e.id s b → s < Elem.nSides e.ty) ∧ (v.hasBoundaries = true ↔ ∃ s b, OnBoundary bv e.id s b) := by
  unfold toLocal LocElem.make at hv
  simp only [Option.bind_eq_some_iff, Option.map_eq_some_iff] at hv
  obtain ⟨st, hst, sd, hsd, rfl⟩ := hv
  obtain ⟨h1, h2, h3⟩ := storeSides_spec _ _ _ hsd
  have hnS : Mesh.nSides e = Elem.nSides e.ty := table_length _ _
  have hmem : ∀ s b, (s, b) ∈ LocElem.boundaries ⟨e.ty, e.n, st, sd⟩ ↔ OnBoundary bv e.id s b := by
    intro s b
    rw [mem_boundaries]
    constructor
    · rintro ⟨hs, hb⟩
      have hlt : s < Mesh.nSides e := by rw [← h1]; exact (List.getElem?_eq_some_iff.1 hs).1
      refine (mem_sidesMap bv e.id s b).1 ((h3 s hlt ?_ b hb).1 hs)
      rintro ⟨ps, pb⟩ hp ⟨qs, qb⟩ hq rfl rfl
      exact huniq _ _ _ ((mem_sidesMap ..).1 hp) ((mem_sidesMap ..).1 hq)
    · intro hob
      have hm := (mem_sidesMap bv e.id s b).2 hob
      have hb : b ≠ invalidDom := by
        obtain ⟨l, hl, _⟩ := hob
        have := hids b (List.mem_map.2 ⟨_, hl, rfl⟩); omega
      refine ⟨(h3 s (h2 _ hm) ?_ b hb).2 hm, hb⟩
      rintro ⟨ps, pb⟩ hp ⟨qs, qb⟩ hq rfl rfl
      exact huniq _ _ _ ((mem_sidesMap ..).1 hp) ((mem_sidesMap ..).1 hq)
  refine ⟨hmem, ?_, fun s b hob => ?_, ?_⟩
  · unfold LocElem.boundaries
    rw [List.pairwise_map]
    refine List.Pairwise.filter _ ?_
    rw [List.pairwise_iff_getElem]
    intro i j hi hj hij
    simpa using hij
  · rw [← hnS]; exact h2 _ ((mem_sidesMap bv e.id s b).2 hob)
  · unfold LocElem.hasBoundaries
    rw [List.any_eq_true]
    constructor
    · rintro ⟨b, hb, hn⟩
      obtain ⟨s, hs, rfl⟩ := List.mem_iff_getElem.1 hb
      exact ⟨s, sd[s], (hmem _ _).1 ((mem_boundaries _ _ _).2 ⟨List.getElem?_eq_getElem hs, by simpa using hn⟩)⟩
    · rintro ⟨s, b, hob⟩
      have := (mem_boundaries _ _ _).1 ((hmem s b).2 hob)
      exact ⟨b, List.mem_of_getElem? this.1, by simpa using this.2⟩

example : toLocal ⟨0, 2, []⟩ (sidesMap [(3, [(⟨.line, 2, 0, [0, 1]⟩, 1)]), (4, [(⟨.line, 2, 0, [0, 1]⟩, 0)])])
    ⟨.line, 2, 0, [0, 1]⟩ = some ⟨.line, 2, [0, 1], [4, 3]⟩ := by decide +kernel

/-! ## C25 for whole views -/

/-- The preconditions of the reordering for one vector of local elements. -/
def VecOk (lv : List LocElem) : Prop :=
  (∀ a ∈ lv, ∀ x ∈ a.nodes, x < 2 ^ 32 - 1) ∧ ∀ a ∈ lv, incidences LocElem.nodes lv a < 2 ^ 32 - 1

theorem viewVecs_spec (o : Own.SegOwn) (sm : List (Nat × List (Nat × Nat))) (ord : Nat → Orders)
    (hord : ∀ j k l, ((ord j k).2 l).Perm l) (vs : List (List Element)) (k : Nat) (c : Cache)
    (hv : ∀ v ∈ vs, ∃ lv, v.mapM (toLocal o sm) = some lv ∧ VecOk lv) :
    ∃ out k' c', viewVecs o sm ord vs k c = some (out, k', c') ∧
      List.Forall₂ (fun v l => ∃ lv, v.mapM (toLocal o sm) = some lv ∧ l.Perm lv) vs out := by
  induction vs generalizing k c with
  | nil => exact ⟨[], k, c, rfl, .nil⟩
  | cons v vs ih =>
    obtain ⟨lv, hlv, hok⟩ := hv v (by simp)
    have hr : ∃ r c', (if v = [] then some ([], c) else reorder LocElem.nodes (ord k) lv c) = some (r, c') ∧ r.Perm lv := by
      by_cases hnil : v = []
      · subst hnil
        rw [if_pos rfl]
        refine ⟨[], c, rfl, ?_⟩
        simp at hlv; subst hlv; rfl
      · rw [if_neg hnil]
        exact C25_reorder_perm LocElem.nodes (ord k) (hord k) lv c hok.1 hok.2
    obtain ⟨r, c', hr, hp⟩ := hr
    obtain ⟨out, k', c'', h1, h2⟩ := ih (k + 1) c' fun w hw => hv w (by simp [hw])
    exact ⟨r :: out, k', c'', by rw [viewVecs, hlv, Option.bind_some, hr, Option.bind_some, h1]; rfl, .cons ⟨lv, hlv, hp⟩ h2⟩

/-- **C25** for the view: if every element has a local form, the constructor succeeds and the view
contains, for each domain which is not a boundary, the local forms of exactly its elements (vector by
vector, in some order) and no other domains, for all hash-table iteration orders. -/
theorem C25_view_elements (full : Own.SegOwn) (part : DomMap) (bv : BndViews) (hbv : (bv.map (·.1)).Pairwise (· < ·))
    (ord : Nat → Orders) (hord : ∀ j k l, ((ord j k).2 l).Perm l)
    (hok : ∀ d ∈ part, d.1 ∉ bv.map (·.1) → ∀ v ∈ d.2.vecs, ∃ lv, v.mapM (toLocal full (sidesMap bv)) = some lv ∧ VecOk lv) :
    ∃ view, makeView full part bv ord = some view ∧
      List.Forall₂ (fun d w => w.1 = d.1 ∧
          List.Forall₂ (fun v l => ∃ lv, v.mapM (toLocal full (sidesMap bv)) = some lv ∧ l.Perm lv) d.2.vecs w.2)
        (part.filter fun d => d.1 ∉ bv.map (·.1)) view := by
  unfold makeView
  generalize (0 : Nat) = k
  generalize ([] : Cache) = c
  have hbs : ∀ x, Std.binarySearch (bv.map (·.1)) x = true ↔ x ∈ bv.map (·.1) := Std.binarySearch_iff (hbv.imp le_of_lt)
  induction part generalizing k c with
  | nil => exact ⟨[], rfl, .nil⟩
  | cons d ds ih =>
    have ih' := fun k c => ih (fun d' hd' => hok d' (by simp [hd'])) k c
    rw [viewDomains]
    by_cases hd : d.1 ∈ bv.map (·.1)
    · rw [if_pos ((hbs _).2 hd), List.filter_cons_of_neg (by simpa using hd)]
      exact ih' k c
    · rw [if_neg (fun hc => hd ((hbs _).1 hc)), List.filter_cons_of_pos (by simpa using hd)]
      obtain ⟨out, k', c', h1, h2⟩ := viewVecs_spec full (sidesMap bv) ord hord d.2.vecs k c (hok d (by simp) hd)
      obtain ⟨view, h3, h4⟩ := ih' k' c'
      exact ⟨(d.1, out) :: view, by rw [h1, Option.bind_some, h3]; rfl, .cons ⟨rfl, h2⟩ h4⟩

/-- Two line elements and the right end point's boundary domain. -/
example : (makeView ⟨0, 3, []⟩ [(0, ⟨some 1, [[⟨.line, 2, 0, [0, 1]⟩, ⟨.line, 2, 1, [1, 2]⟩]]⟩), (5, ⟨some 0, []⟩)]
    [(5, [(⟨.line, 2, 1, [1, 2]⟩, 1)])] (fun _ _ => (id, id))) =
    some [(0, [[⟨.line, 2, [0, 1], [65535, 65535]⟩, ⟨.line, 2, [1, 2], [65535, 5]⟩]])] := by decide +kernel

/-- **C26** (boundary traversal): `visitBoundaries(visitor, ids)` visits exactly the sides whose
recorded boundary is among `ids`. -/
theorem C26_visit_boundaries (view : List (Nat × List (List LocElem))) (ids : List Nat) (v : LocElem) (s : Nat) :
    (v, s) ∈ visitBnd view ids ↔ (∃ d ∈ view, ∃ l ∈ d.2, v ∈ l) ∧ ∃ b ∈ ids, (s, b) ∈ v.boundaries := by
  unfold visitBnd
  simp only [List.mem_flatMap, List.mem_flatten]
  constructor
  · rintro ⟨w, ⟨d, hd, l, hl, hw⟩, h⟩
    split at h
    · obtain ⟨p, hp, hpe⟩ := List.mem_map.1 h
      simp only [Prod.mk.injEq] at hpe
      obtain ⟨rfl, rfl⟩ := hpe
      rw [List.mem_filter] at hp
      exact ⟨⟨d, hd, l, hl, hw⟩, p.2, by simpa using hp.2, hp.1⟩
    · simp at h
  · rintro ⟨⟨d, hd, l, hl, hw⟩, b, hb, hs⟩
    refine ⟨v, ⟨d, hd, l, hl, hw⟩, ?_⟩
    have hh : v.hasBoundaries = true := by
      unfold LocElem.hasBoundaries
      rw [List.any_eq_true]
      have := (mem_boundaries _ _ _).1 hs
      exact ⟨b, List.mem_of_getElem? this.1, by simpa using this.2⟩
    rw [if_pos hh]
    exact List.mem_map.2 ⟨(s, b), List.mem_filter.2 ⟨hs, by simpa using hb⟩, rfl⟩

end Verif.LocView
