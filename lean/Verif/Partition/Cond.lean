import Verif.Partition.Model

/-! # Property C30: condensation of the nodes for the graph partitioner -/
namespace Verif.Partition
open Verif Verif.Elem Verif.Mesh

theorem getElem?_markNodes (nodes f : List Nat) (i : Nat) :
    (markNodes nodes f)[i]? = if i ∈ nodes ∧ i < f.length then some 1 else f[i]? := by
  unfold markNodes
  induction nodes generalizing f with
  | nil => simp
  | cons x xs ih =>
    rw [List.foldl_cons, ih, List.length_set, List.getElem?_set]
    by_cases h1 : i < f.length <;> by_cases h2 : i ∈ xs <;> by_cases h3 : x = i
    all_goals simp [h1, h2, h3, eq_comm]
    all_goals (try (subst h3; simp [h1]))
    all_goals (try omega)

theorem length_markNodes (nodes f : List Nat) : (markNodes nodes f).length = f.length := by
  unfold markNodes
  induction nodes generalizing f with
  | nil => rfl
  | cons x xs ih => rw [List.foldl_cons, ih, List.length_set]

/-- Indices of the marked entries, increasing, from `full`. -/
theorem condLoop_snd (f : List Nat) (full cond : Nat) :
    (condLoop f full cond).2 = ((List.range f.length).filter fun i => decide (f[i]?.getD 0 ≠ 0)).map (full + ·) := by
  induction f generalizing full cond with
  | nil => rfl
  | cons a f ih =>
    rw [List.length_cons, List.range_succ_eq_map, List.filter_cons, List.filter_map]
    simp only [List.getElem?_cons_zero, Option.getD_some]
    have hrest : List.map (full + ·) (List.map Nat.succ ((List.range f.length).filter ((fun i => decide ((a :: f)[i]?.getD 0 ≠ 0)) ∘ Nat.succ)))
        = ((List.range f.length).filter fun i => decide (f[i]?.getD 0 ≠ 0)).map (full + 1 + ·) := by
      rw [List.map_map]
      have : ((fun i => decide ((a :: f)[i]?.getD 0 ≠ 0)) ∘ Nat.succ) = fun i => decide (f[i]?.getD 0 ≠ 0) := by
        funext i; simp
      rw [this]
      apply List.map_congr_left
      intro i _; simp only [Function.comp]; omega
    by_cases h : a = 0
    · subst h
      simp only [condLoop, ne_eq, not_true_eq_false, if_false, decide_false, Bool.false_eq_true]
      rw [ih]; exact hrest.symm
    · simp only [condLoop, ne_eq, h, not_false_eq_true, if_true, decide_true]
      rw [List.map_cons, ih]
      simp only [Nat.add_zero]
      congr 1
      exact hrest.symm

theorem condLoop_fst (f : List Nat) (full cond : Nat) :
    (condLoop f full cond).1.length = f.length ∧ ∀ i (hi : i < f.length),
      (condLoop f full cond).1[i]? = some (if f[i] = 0 then 0 else cond + ((List.range i).filter fun j => decide (f[j]?.getD 0 ≠ 0)).length) := by
  induction f generalizing full cond with
  | nil => exact ⟨rfl, fun i hi => absurd hi (by simp)⟩
  | cons a f ih =>
    have hcount : ∀ i, ((List.range (i + 1)).filter fun j => decide ((a :: f)[j]?.getD 0 ≠ 0)).length =
        (if a = 0 then 0 else 1) + ((List.range i).filter fun j => decide (f[j]?.getD 0 ≠ 0)).length := by
      intro i
      rw [List.range_succ_eq_map, List.filter_cons, List.filter_map]
      have : ((fun i => decide ((a :: f)[i]?.getD 0 ≠ 0)) ∘ Nat.succ) = fun i => decide (f[i]?.getD 0 ≠ 0) := by
        funext i; simp
      rw [this]
      by_cases h : a = 0 <;> simp [h]
      omega
    by_cases h : a = 0
    · subst h
      simp only [condLoop, ne_eq, not_true_eq_false, if_false]
      obtain ⟨h1, h2⟩ := ih (full + 1) cond
      refine ⟨by simp [h1], fun i hi => ?_⟩
      cases i with
      | zero => simp
      | succ i =>
        have := hcount i
        simp only [if_true, Nat.zero_add] at this
        rw [this]
        simpa using h2 i (by simpa using hi)
    · simp only [condLoop, ne_eq, h, not_false_eq_true, if_true]
      obtain ⟨h1, h2⟩ := ih (full + 1) (cond + 1)
      refine ⟨by simp [h1], fun i hi => ?_⟩
      cases i with
      | zero => simp [h]
      | succ i =>
        have := hcount i
        rw [if_neg h] at this
        rw [this]
        have h3 := h2 i (by simpa using hi)
        simp only [List.getElem?_cons_succ, List.getElem_cons_succ]
        rw [h3, Nat.add_assoc]

/-- The nodes some element has on its boundary. -/
def IsBoundaryNode (m : DomMap) (x : Nat) : Prop := ∃ e, Holds m e ∧ x ∈ boundaryNodes e

theorem filter_range_index (q : Nat → Bool) (N x : Nat) (hx : x < N) (hq : q x = true) :
    ((List.range N).filter q)[((List.range x).filter q).length]? = some x := by
  have : List.range N = List.range x ++ List.range' x (N - x) := by
    rw [List.range_eq_range', List.range_eq_range']
    have := List.range'_append (s := 0) (m := x) (n := N - x) (step := 1)
    simp only [Nat.one_mul, Nat.zero_add] at this
    rw [this]; congr 1; omega
  rw [this, List.filter_append, List.getElem?_append_right (Nat.le_refl _), Nat.sub_self]
  obtain ⟨k, hk⟩ : ∃ k, N - x = k + 1 := ⟨N - x - 1, by omega⟩
  rw [hk, List.range'_succ, List.filter_cons_of_pos hq]
  rfl

/-- **C30** (condensation maps): the reverse map lists exactly the nodes lying on the boundary of some
element, in increasing order; the two maps are inverse to each other between those nodes and
`0..n-1`. -/
theorem C30_condensation_maps (m : DomMap) (hk : KeysNodup m) (N : Nat) (hN : ∀ x, IsBoundaryNode m x → x < N) :
    let r := condMaps m N
    r.1.length = N ∧ r.2.Pairwise (· < ·) ∧ (∀ x, x ∈ r.2 ↔ IsBoundaryNode m x) ∧
    (∀ x, IsBoundaryNode m x → ∃ i, r.1[x]? = some i ∧ r.2[i]? = some x) ∧
    (∀ (i x : Nat), r.2[i]? = some x → r.1[x]? = some i) := by
  simp only []
  set bn := (visitAll m).flatMap boundaryNodes with hbn
  have hmem : ∀ x, x ∈ bn ↔ IsBoundaryNode m x := by
    intro x
    rw [hbn, List.mem_flatMap]
    exact exists_congr fun e => and_congr_left fun _ => mem_visitAll hk
  set f := markNodes bn (List.replicate N 0) with hf
  have hlen : f.length = N := by rw [hf, length_markNodes, List.length_replicate]
  have hmark : ∀ i, f[i]?.getD 0 ≠ 0 ↔ IsBoundaryNode m i := by
    intro i
    rw [hf, getElem?_markNodes, List.length_replicate, ← hmem]
    constructor
    · intro h
      by_contra hc
      rw [if_neg (fun h => hc h.1)] at h
      by_cases hi : i < N
      · rw [List.getElem?_eq_getElem (by simpa using hi)] at h; simp at h
      · rw [List.getElem?_eq_none (by simpa using hi)] at h; simp at h
    · intro h
      rw [if_pos ⟨h, hN i ((hmem i).1 h)⟩]; simp
  have hr1 : condMaps m N = condLoop f 0 0 := rfl
  rw [hr1]
  have hsnd := condLoop_snd f 0 0
  have hid : ((0 : Nat) + ·) = id := by funext x; simp
  rw [hid, List.map_id, hlen] at hsnd
  obtain ⟨hl, hfst⟩ := condLoop_fst f 0 0
  rw [hsnd]
  have hstrict : ((List.range N).filter fun i => decide (f[i]?.getD 0 ≠ 0)).Pairwise (· < ·) := List.Pairwise.filter _ List.pairwise_lt_range
  have hmemr : ∀ x, x ∈ ((List.range N).filter fun i => decide (f[i]?.getD 0 ≠ 0)) ↔ IsBoundaryNode m x := by
    intro x
    rw [List.mem_filter, List.mem_range, decide_eq_true_eq, hmark]
    exact ⟨fun h => h.2, fun h => ⟨hN x h, h⟩⟩
  have hfwd : ∀ x, IsBoundaryNode m x → (condLoop f 0 0).1[x]? = some (((List.range x).filter fun j => decide (f[j]?.getD 0 ≠ 0)).length) := by
    intro x hx
    have hxN := hN x hx
    rw [hfst x (by omega)]
    have : f[x]'(by omega) ≠ 0 := by
      have := (hmark x).2 hx
      rwa [List.getElem?_eq_getElem (by omega), Option.getD_some] at this
    rw [if_neg this, Nat.zero_add]
  have hix : ∀ x, IsBoundaryNode m x → ((List.range N).filter fun i => decide (f[i]?.getD 0 ≠ 0))[((List.range x).filter fun j => decide (f[j]?.getD 0 ≠ 0)).length]? = some x :=
    fun x hx => filter_range_index _ N x (hN x hx) (by rw [decide_eq_true_eq]; exact (hmark x).2 hx)
  refine ⟨by rw [hl, hlen], hstrict, hmemr, fun x hx => ⟨_, hfwd x hx, hix x hx⟩, fun i x hi => ?_⟩
  have hx := (hmemr x).1 (List.mem_of_getElem? hi)
  rw [hfwd x hx]
  have h2 := hix x hx
  obtain ⟨h3, h4⟩ := List.getElem?_eq_some_iff.1 hi
  obtain ⟨h5, h6⟩ := List.getElem?_eq_some_iff.1 h2
  congr 1
  exact (List.Nodup.getElem_inj_iff (Std.nodup_of_strict hstrict)).1 (h6.trans h4.symm)

/-- Two third-order lines `0-1-2-3` and `3-4-5-6`: the end points are kept. -/
example : condMaps [(0, ⟨some 1, [[⟨.line, 4, 0, [0, 1, 2, 3]⟩, ⟨.line, 4, 1, [3, 4, 5, 6]⟩]]⟩)] 7 = ([0, 0, 0, 1, 0, 0, 2], [0, 3, 6]) := by
  decide +kernel

theorem strict_ge {r : List Nat} (h : r.Pairwise (· < ·)) (i : Nat) (hi : i < r.length) : i ≤ r[i] := by
  induction i with
  | zero => omega
  | succ i ih =>
    have := List.pairwise_iff_getElem.1 h i (i + 1) (by omega) hi (by omega)
    have := ih (by omega); omega

theorem condense_fold (w0 r w : List Nat) (k : Nat) (hs : r.Pairwise (· < ·)) (hb : ∀ x ∈ r, k ≤ x)
    (hge : ∀ i (hi : i < r.length), k + i ≤ r[i]) (hlt : ∀ x ∈ r, x < w.length)
    (hsame : ∀ j, k ≤ j → w[j]? = w0[j]?) :
    let res := (r.foldl (fun (st : List Nat × Nat) x => (st.1.set st.2 (st.1.getD x 0), st.2 + 1)) (w, k)).1
    res.length = w.length ∧ (∀ j, j < k → res[j]? = w[j]?) ∧ (∀ i (hi : i < r.length), res[k + i]? = w0[r[i]]?) ∧
      ∀ j, k + r.length ≤ j → res[j]? = w0[j]? := by
  induction r generalizing w k with
  | nil => exact ⟨rfl, fun _ _ => rfl, fun i hi => absurd hi (by simp), fun j hj => hsame j (by simpa using hj)⟩
  | cons x r ih =>
    simp only [List.foldl_cons]
    have hx : x < w.length := hlt x (by simp)
    have hkx : k ≤ x := hb x (by simp)
    obtain ⟨h1, h2, h3, h4⟩ := ih (w.set k (w.getD x 0)) (k + 1) hs.of_cons
      (fun y hy => by have := List.rel_of_pairwise_cons hs hy; omega)
      (fun i hi => by have := hge (i + 1) (by simpa using hi); simp only [List.getElem_cons_succ] at this; omega)
      (fun y hy => by rw [List.length_set]; exact hlt y (by simp [hy]))
      (fun j hj => by rw [List.getElem?_set_ne (by omega)]; exact hsame j (by omega))
    refine ⟨by rw [h1, List.length_set], fun j hj => ?_, fun i hi => ?_, fun j hj => ?_⟩
    · rw [h2 j (by omega), List.getElem?_set_ne (by omega)]
    · cases i with
      | zero =>
        have := h2 k (by omega)
        rw [List.getElem?_set_self (by omega)] at this
        refine Eq.trans this ?_
        simp only [List.getElem_cons_zero]
        rw [← hsame x hkx, List.getD_eq_getElem?_getD, List.getElem?_eq_getElem hx, Option.getD_some]
      | succ i =>
        have := h3 i (by simpa using hi)
        rw [Nat.add_assoc, Nat.add_comm 1 i] at this
        exact this
    · rw [List.length_cons] at hj
      exact h4 j (by omega)

/-- **C30** (weights): the in-place condensation puts the weight of the `i`-th condensed node at
position `i`. -/
theorem C30_condensed_weights (w reverse : List Nat) (hs : reverse.Pairwise (· < ·)) (hb : ∀ x ∈ reverse, x < w.length)
    (i x : Nat) (hi : reverse[i]? = some x) : (condenseWeights w reverse)[i]? = w[x]? := by
  obtain ⟨h1, h2⟩ := List.getElem?_eq_some_iff.1 hi
  unfold condenseWeights
  have hw : w.isEmpty = false := by
    have := hb x (List.mem_of_getElem? hi)
    cases w with
    | nil => simp at this
    | cons a t => rfl
  rw [if_neg (by simp [hw])]
  obtain ⟨_, _, h, _⟩ := condense_fold w reverse w 0 hs (by simp) (fun i hi => by have := strict_ge hs i hi; omega) hb (fun _ _ => rfl)
  have := h i h1
  rw [Nat.zero_add] at this
  rw [this, h2]

/-- Three of five nodes are kept. -/
example : condenseWeights [10, 11, 12, 13, 14] [0, 2, 4] = [10, 12, 14, 13, 14] := by decide

/-- **C30** (partitioner input): the compressed rows handed to the partitioner are, element by element,
the condensed numbers of its boundary nodes. -/
theorem C30_metis_input (els : List Element) (fwd : List Nat) :
    let r := metisInput els fwd
    r.2.length = els.length + 1 ∧ r.2[0]? = some 0 ∧ r.2.getLast? = some r.1.length ∧
    ∀ k (hk : k < els.length), ∃ a b, r.2[k]? = some a ∧ r.2[k + 1]? = some b ∧ a ≤ b ∧ b ≤ r.1.length ∧
      (r.1.take b).drop a = (boundaryNodes els[k]).map fun x => fwd.getD x 0 := by
  simp only [metisInput]
  induction els using List.reverseRecOn with
  | nil => exact ⟨rfl, rfl, rfl, fun k hk => absurd hk (by simp)⟩
  | append_singleton els e ih =>
    rw [List.foldl_append, List.foldl_cons, List.foldl_nil]
    set r := els.foldl (fun (st : List Nat × List Nat) e => (st.1 ++ (boundaryNodes e).map (fun x => fwd.getD x 0), st.2 ++ [st.2.getLastD 0 + (boundaryNodes e).length])) ([], [0]) with hr
    obtain ⟨h1, h2, h3, h4⟩ := ih
    have hlast : r.2.getLastD 0 = r.1.length := by rw [List.getLastD_eq_getLast?, h3]; rfl
    refine ⟨by simp [h1], ?_, ?_, fun k hk => ?_⟩
    · rw [List.getElem?_append_left (by omega)]; exact h2
    · rw [List.getLast?_append]; simp [← hlast]
    · rw [List.length_append, List.length_singleton] at hk
      by_cases hke : k < els.length
      · obtain ⟨a, b, ha, hb, hab, hble, hrow⟩ := h4 k hke
        refine ⟨a, b, ?_, ?_, hab, by rw [List.length_append]; omega, ?_⟩
        · rw [List.getElem?_append_left (by omega)]; exact ha
        · rw [List.getElem?_append_left (by omega)]; exact hb
        · rw [List.take_append_of_le_length hble, List.getElem_append_left hke]
          exact hrow
      · have hk' : k = els.length := by omega
        subst hk'
        refine ⟨r.1.length, r.1.length + (boundaryNodes e).length, ?_, ?_, by omega, by simp, ?_⟩
        · rw [List.getElem?_append_left (by omega)]
          rw [List.getLast?_eq_getElem?, h1] at h3
          simpa using h3
        · rw [List.getElem?_append_right (by omega), h1, Nat.sub_self, hlast]; rfl
        · rw [List.take_of_length_le (by simp)]; simp [List.getElem_append_right]

example : metisInput [⟨.quad, 2, 0, [0, 2, 5, 7]⟩, ⟨.line, 3, 1, [2, 3, 7]⟩] [0, 0, 1, 0, 0, 2, 0, 3] = ([0, 1, 2, 3, 1, 3], [0, 4, 6]) := by decide +kernel

theorem getElem?_setAll (xs r : List Nat) (v y : Nat) :
    (xs.foldl (fun r x => r.set x v) r)[y]? = if y ∈ xs ∧ y < r.length then some v else r[y]? := by
  induction xs generalizing r with
  | nil => simp
  | cons x xs ih =>
    rw [List.foldl_cons, ih, List.length_set, List.getElem?_set]
    by_cases h1 : y < r.length <;> by_cases h2 : y ∈ xs <;> by_cases h3 : x = y
    all_goals simp [h1, h2, h3, eq_comm]
    all_goals (try (subst h3; simp [h1]))
    all_goals (try omega)

theorem length_setAll (xs r : List Nat) (v : Nat) : (xs.foldl (fun r x => r.set x v) r).length = r.length := by
  induction xs generalizing r with
  | nil => rfl
  | cons x xs ih => rw [List.foldl_cons, ih, List.length_set]

/-- Successive block writes: with every node in at most one block, each node gets its block's value. -/
theorem blocks_fold (ws : List (List Nat × Nat)) (r : List Nat) :
    let res := ws.foldl (fun r p => p.1.foldl (fun r x => r.set x p.2) r) r
    res.length = r.length ∧ (∀ y, (∀ p ∈ ws, y ∉ p.1) → res[y]? = r[y]?) ∧
    (ws.Pairwise (fun p q => ∀ x ∈ p.1, x ∉ q.1) → ∀ p ∈ ws, ∀ y ∈ p.1, y < r.length → res[y]? = some p.2) := by
  induction ws generalizing r with
  | nil => exact ⟨rfl, fun _ _ => rfl, fun _ p hp => absurd hp (by simp)⟩
  | cons w ws ih =>
    simp only [List.foldl_cons]
    obtain ⟨h1, h2, h3⟩ := ih (w.1.foldl (fun r x => r.set x w.2) r)
    refine ⟨by rw [h1, length_setAll], fun y hy => ?_, fun hd p hp y hy hlt => ?_⟩
    · rw [h2 y fun p hp => hy p (by simp [hp]), getElem?_setAll, if_neg (fun h => hy w (by simp) h.1)]
    · rcases List.mem_cons.1 hp with rfl | hp
      · rw [h2 y fun q hq => List.rel_of_pairwise_cons hd hq y hy, getElem?_setAll, if_pos ⟨hy, hlt⟩]
      · exact h3 hd.of_cons p hp y hy (by rw [length_setAll]; exact hlt)

/-- **C30** (labels): when the labels are expanded to all nodes, internal nodes of an element get the
element's label, and the other condensed nodes the label the partitioner gave them.  (`init` is the
uninitialised result array.) -/
theorem C30_uncondensed_labels (init epart npartCond reverse : List Nat) (els : List Element)
    (hr : reverse.Pairwise (· < ·)) (hb : ∀ x ∈ reverse, x < init.length) (hlen : npartCond.length = reverse.length) (hel : epart.length = els.length)
    (hdis : els.Pairwise fun e e' => ∀ x ∈ internalNodes e, x ∉ internalNodes e')
    (hint : ∀ e ∈ els, ∀ x ∈ internalNodes e, x < init.length) :
    let res := uncondense init epart npartCond reverse els
    res.length = init.length ∧
    (∀ (k : Nat) (e : Element), els[k]? = some e → ∀ x ∈ internalNodes e, res[x]? = epart[k]?) ∧
    (∀ (i x : Nat), reverse[i]? = some x → (∀ e ∈ els, x ∉ internalNodes e) → res[x]? = npartCond[i]?) := by
  simp only [uncondense]
  have h1 : reverse.zipIdx.foldl (fun r p => r.set p.1 (npartCond.getD p.2 0)) init =
      (reverse.zipIdx.map fun p => ([p.1], npartCond.getD p.2 0)).foldl (fun r p => p.1.foldl (fun r x => r.set x p.2) r) init := by
    rw [List.foldl_map]; rfl
  rw [h1]
  set r0 := (reverse.zipIdx.map fun p => ([p.1], npartCond.getD p.2 0)).foldl (fun r p => p.1.foldl (fun r x => r.set x p.2) r) init with hr0
  have h2 : els.zipIdx.foldl (fun r p => (internalNodes p.1).foldl (fun r x => r.set x (epart.getD p.2 0)) r) r0 =
      (els.zipIdx.map fun p => (internalNodes p.1, epart.getD p.2 0)).foldl (fun r p => p.1.foldl (fun r x => r.set x p.2) r) r0 := by
    rw [List.foldl_map]
  rw [h2]
  obtain ⟨a1, a2, a3⟩ := blocks_fold (reverse.zipIdx.map fun p => ([p.1], npartCond.getD p.2 0)) init
  obtain ⟨b1, b2, b3⟩ := blocks_fold (els.zipIdx.map fun p => (internalNodes p.1, epart.getD p.2 0)) r0
  rw [← hr0] at a1 a2 a3
  have hpw : ∀ {α : Type} {R : α → α → Prop} {l : List α} (n : Nat), l.Pairwise R → (l.zipIdx n).Pairwise fun a b => R a.1 b.1 := by
    intro α R l n h
    rw [List.pairwise_iff_getElem] at h ⊢
    intro i j hi hj hij
    simp only [List.getElem_zipIdx]
    exact h i j (by simpa using hi) (by simpa using hj) hij
  refine ⟨by rw [b1, a1], fun k e hk x hx => ?_, fun i x hi hx => ?_⟩
  · have hmem : (internalNodes e, epart.getD k 0) ∈ els.zipIdx.map fun p => (internalNodes p.1, epart.getD p.2 0) :=
      List.mem_map.2 ⟨(e, k), by rw [List.mem_zipIdx_iff_getElem?]; exact hk, rfl⟩
    rw [b3 (List.pairwise_map.2 (hpw 0 hdis)) _ hmem x hx (by rw [a1]; exact hint e (List.mem_of_getElem? hk) x hx)]
    have : k < epart.length := by rw [hel]; exact (List.getElem?_eq_some_iff.1 hk).1
    rw [List.getD_eq_getElem?_getD, List.getElem?_eq_getElem this]; rfl
  · rw [b2 x (fun p hp => by
      obtain ⟨q, hq, rfl⟩ := List.mem_map.1 hp
      exact hx q.1 (List.mem_of_getElem? (List.mem_zipIdx_iff_getElem?.1 hq)))]
    have hmem : ([x], npartCond.getD i 0) ∈ reverse.zipIdx.map fun p => ([p.1], npartCond.getD p.2 0) :=
      List.mem_map.2 ⟨(x, i), by rw [List.mem_zipIdx_iff_getElem?]; exact hi, rfl⟩
    rw [a3 (List.pairwise_map.2 ((hpw 0 hr).imp fun h => by simp; omega)) _ hmem x (by simp) (hb x (List.mem_of_getElem? hi))]
    have : i < npartCond.length := by rw [hlen]; exact (List.getElem?_eq_some_iff.1 hi).1
    rw [List.getD_eq_getElem?_getD, List.getElem?_eq_getElem this]; rfl

/-- A third-order line next to a second-order one: two internal nodes and one. -/
example : uncondense (List.replicate 6 99) [1, 0] [5, 6, 7] [0, 3, 5] [⟨.line, 4, 0, [0, 1, 2, 3]⟩, ⟨.line, 3, 1, [3, 4, 5]⟩] =
    [5, 1, 1, 6, 0, 7] := by decide +kernel

end Verif.Partition
