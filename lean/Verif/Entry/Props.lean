import Verif.Entry.Model
import Verif.NodeOrd.Props
import Verif.Pipeline.Lemmas

/-! # Property C138: which meshes can be partitioned -/
namespace Verif.Entry
open Verif Verif.Elem Verif.Mesh Verif.Split Verif.Partition Verif.Pipeline

/-- **C138** (the check): a mesh passes exactly if it has no ghosts, owns a node, and the first node it owns is 0; with neither owned nodes nor ghosts, the behaviour is undefined; all others are refused. -/
theorem C138_check (o : Own.SegOwn) :
    (check o = .ret () ↔ o.shared = [] ∧ 0 < o.cnt ∧ o.first = 0) ∧ (check o = .fails ↔ o.shared = [] ∧ o.cnt = 0) ∧
    (check o = .refused ↔ o.shared ≠ [] ∨ (0 < o.cnt ∧ o.first ≠ 0)) := by
  unfold check
  by_cases h1 : o.shared = []
  · by_cases h2 : o.cnt = 0
    · simp [h1, h2]
    · by_cases h3 : o.first = 0
      · simp [h1, h2, h3]; omega
      · have : o.first + o.cnt - 1 ≠ o.cnt - 1 := by omega
        simp [h1, h2, h3, this]; omega
  · simp [h1]

theorem viewsOk_of {kinds : List (ElType × Nat)} {m : DomMap} {bnds : List Nat} {D : Nat} (h : MeshOk kinds m bnds D) : ViewsOk m bnds := by
  intro b hb d hd
  obtain ⟨d', hd', -, hne⟩ := h.bnd b hb
  rw [hd] at hd'
  obtain rfl : d = d' := by simpa using hd'
  exact ⟨hne, fun x hx => ((h.wf.dom b d hd).dim x hx).symm, h.parent b hb d hd⟩

theorem own_eq {o : Own.SegOwn} {N : Nat} (hN : 0 < N) (h1 : ∀ x, o.isOwned x = true ↔ 0 ≤ x ∧ x < 0 + N) (h2 : o.shared = []) : o = ⟨0, N, []⟩ := by
  have a := h1 0
  have b := h1 (N - 1)
  have c := h1 N
  have d := h1 (o.first + o.cnt - 1)
  simp only [Own.SegOwn.isOwned, decide_eq_true_eq] at a b c d
  cases o
  simp only at a b c d h2
  subst h2
  simp only [Own.SegOwn.mk.injEq, and_true]
  omega

/-- **C138** (whole meshes): a mesh which owns all its nodes, numbered from zero on, is refused for less than one part; for one part it is copied, domains, nodes and boundaries being the same; for more,
both overloads return the same parts, among which each element is found once, up to the numbers of nodes in the returned map. -/
theorem C138_whole {kinds : List (ElType × Nat)} {p : Part} {D N : Nat} (h : MeshOk kinds p.doms (p.bnds.map (·.1)) D) (hone : OneSided p.doms (p.bnds.map (·.1)))
    (hown : p.own = ⟨0, N, []⟩) (hN : 0 < N) (hn : ∀ x, NodeIn p.doms x ↔ x < N) (nd : Nat) (defs : List NodeOrd.DomDef) (hd : ∀ df ∈ defs, df.dofs.length = nd)
    (nParts : Int) (a : Answer) (hshuf : ∀ l, (a.shuffle l).Perm l) (hord : ∀ i k l, (a.ord i k l).Perm l) :
    (nParts < 1 → partitionMesh kinds nd defs p nParts a = .refused) ∧ (nParts ≤ 1 → partitionMeshMap kinds nd defs p nParts a = .refused) ∧
    (nParts = 1 → ∃ q, partitionMesh kinds nd defs p nParts a = .ret [q] ∧ q.doms = p.doms ∧ q.own = p.own ∧ q.bnds.map (·.1) = p.bnds.map (·.1)) ∧
    (1 < nParts → Labels p.doms (p.bnds.map (·.1)) nParts.toNat a.epart a.npart a.perm →
      ∃ parts φ f, partitionMesh kinds nd defs p nParts a = .ret parts ∧ partitionMeshMap kinds nd defs p nParts a = .ret (parts, φ) ∧ (parts.length : Int) = nParts ∧
        Set.BijOn f (Set.Iio N) (Set.Iio N) ∧ (∀ x, φ.find x = if x < N then some (f x) else none) ∧
        ∀ k e, InDom p.doms k e → ∃! i : Nat, ∃ part : Part, parts[i]? = some part ∧ InDom part.doms k (mapEl f e)) := by
  have hk := wf_keys h.wf
  have hc : check p.own = .ret () := (C138_check p.own).1.2 (by rw [hown]; exact ⟨rfl, hN, rfl⟩)
  have hb : ∀ {β : Type} (f : Unit → Out β), (check p.own).bind f = f () := fun f => by rw [hc]; rfl
  refine ⟨fun h1 => ?_, fun h1 => ?_, fun h1 => ?_, fun h1 hl => ?_⟩
  · unfold partitionMesh; rw [hb, if_pos h1]
  · unfold partitionMeshMap; rw [hb, if_pos h1]
  · obtain ⟨vs, hv1, hv2⟩ := initViews_ok hk (viewsOk_of h) (a.ord 0) (hord 0)
    obtain ⟨o, ho, ho1, -, ho2⟩ := C22_explicit_range p.doms hk 0 N
    have hsh : o.shared = [] := List.eq_nil_iff_forall_not_mem.2 fun x hx => by
      obtain ⟨hx1, hx2⟩ := (ho2 x).1 hx
      exact hx2 ⟨Nat.zero_le _, by rw [Nat.zero_add]; exact (hn x).1 hx1⟩
    have hoe := own_eq hN ho1 hsh
    refine ⟨⟨p.doms, o, vs⟩, ?_, rfl, by rw [hown]; exact hoe, hv2⟩
    have hcopy : copy p (a.ord 0) = some ⟨p.doms, o, vs⟩ := by
      unfold copy
      rw [hv1, Option.bind_some, hown]
      have : (if N = 0 then 0 else 0) = 0 := by split <;> rfl
      simp only [this, ho, Option.map_some]
    unfold partitionMesh
    rw [hb, if_neg (by omega), if_pos h1, hcopy]
    rfl
  · have hlen : a.npart.length = N := by
      have h2 : ∀ x, x < a.npart.length ↔ x < N := fun x => (hl.nodes x).symm.trans (hn x)
      have := h2 N
      have := h2 a.npart.length
      omega
    obtain ⟨parts, φ, f, heq, hpl, hbij, hφ, huniq, -⟩ := C29_elements_partial h hone hl a.shuffle a.ord hshuf hord
    rw [hlen] at hbij hφ
    have hw : ∃ w, NodeOrd.computeNodeWeights nd p.doms p.own defs = some w := by
      by_cases hne : defs = []
      · exact ⟨[], by rw [hne]; exact NodeOrd.C89_no_definitions nd _ _⟩
      · refine ⟨_, NodeOrd.C89_weights nd p.doms p.own defs hne hd ?_ (by rw [hown]) (by rw [hown])⟩
        intro q hq e he x hx
        rw [hown]
        obtain ⟨v, hv, hev⟩ := List.mem_flatten.1 he
        exact (hn x).1 ⟨e, ⟨q, hq, v, hv, hev⟩, hx⟩
    obtain ⟨w, hw⟩ := hw
    have himpl : impl kinds nd defs p nParts a = .ret (parts, φ) := by
      unfold impl; rw [hw, heq]; rfl
    refine ⟨parts, φ, f, ?_, ?_, by rw [hpl]; omega, hbij, hφ, huniq⟩
    · unfold partitionMesh
      rw [hb, if_neg (by omega), if_neg (by omega), himpl]; rfl
    · unfold partitionMeshMap
      rw [hb, if_neg (by omega), himpl]

/-- **C138** (copies): the copy of any mesh part, whole or not, has the same domains, owned nodes, ghosts and boundaries; a part which owns nothing
has ghosts only. -/
theorem C138_copy {p : Part} {first cnt : Nat} (hk : KeysNodup p.doms) (hv : ViewsOk p.doms (p.bnds.map (·.1))) (hown : ownershipRange p.doms first cnt = some p.own)
    (ord : Nat → List Element → List Element) (hord : ∀ k l, (ord k l).Perm l) :
    ∃ q, copy p ord = some q ∧ q.doms = p.doms ∧ q.bnds.map (·.1) = p.bnds.map (·.1) ∧ q.own.shared = p.own.shared ∧ ∀ x, q.own.isOwned x = p.own.isOwned x := by
  obtain ⟨vs, hv1, hv2⟩ := initViews_ok hk hv ord hord
  have he : p.own = ⟨first, cnt, Std.sort ((nodeSet p.doms).filter fun x => decide (x < first ∨ first + cnt ≤ x))⟩ := by
    unfold ownershipRange Own.SegOwn.make at hown
    split at hown
    · cases hown
    · exact (Option.some.inj hown).symm
  by_cases h0 : cnt = 0
  · subst h0
    obtain ⟨o, ho, -, -⟩ := C22_explicit_range p.doms hk 0 0
    have hoe : o = ⟨0, 0, Std.sort ((nodeSet p.doms).filter fun x => decide (x < 0 ∨ 0 + 0 ≤ x))⟩ := by
      have := ho
      unfold ownershipRange Own.SegOwn.make at this
      split at this
      · cases this
      · exact (Option.some.inj this).symm
    refine ⟨⟨p.doms, o, vs⟩, ?_, rfl, hv2, ?_, fun x => ?_⟩
    · unfold copy
      rw [hv1, Option.bind_some, he]
      simp only [if_true, ho, Option.map_some]
    · rw [he, hoe]
      refine congrArg Std.sort (List.filter_congr fun x _ => ?_)
      rw [decide_eq_decide]; omega
    · rw [he, hoe]
      unfold Own.SegOwn.isOwned
      rw [decide_eq_decide]
      dsimp only
      omega
  · refine ⟨⟨p.doms, p.own, vs⟩, ?_, rfl, hv2, rfl, fun x => rfl⟩
    unfold copy
    have hf : (if p.own.cnt = 0 then 0 else p.own.first) = first := by rw [he]; exact if_neg h0
    have hc : p.own.cnt = cnt := by rw [he]
    rw [hv1, Option.bind_some, hf, hc, hown, Option.map_some]

/-- The right half of two lines: owns one of its nodes, the other is a ghost. -/
example : let p : Part := ⟨[(1, ⟨some 1, [[⟨.line, 2, 5, [1, 2]⟩]]⟩)], ⟨2, 1, [1]⟩, []⟩
    KeysNodup p.doms ∧ ViewsOk p.doms (p.bnds.map (·.1)) ∧ ownershipRange p.doms 2 1 = some p.own := by
  refine ⟨by unfold KeysNodup; decide, fun b hb => by simp at hb, by decide +kernel⟩

theorem before_zero {parts : List Part} {i : Nat} : before parts i = 0 ↔ ∀ (j : Nat) q, j < i → parts[j]? = some q → q.own.cnt = 0 := by
  unfold before
  rw [List.sum_eq_zero_iff]
  constructor
  · intro h j q hj hq
    refine h _ (List.mem_map.2 ⟨q, List.mem_iff_getElem?.2 ⟨j, ?_⟩, rfl⟩)
    rw [List.getElem?_take, if_pos hj]; exact hq
  · intro h x hx
    obtain ⟨q, hq, rfl⟩ := List.mem_map.1 hx
    obtain ⟨j, hj⟩ := List.mem_iff_getElem?.1 hq
    rw [List.getElem?_take] at hj
    split at hj
    · rename_i hji; exact h j q hji hj
    · simp at hj

/-- Full statement of **C138** for parts: whatever a whole mesh was divided into, if at least two parts got elements, no part can be divided again. -/
def C138Statement : Prop :=
  ∀ (kinds : List (ElType × Nat)) (m : DomMap) (bnds : List Nat) (D : Nat), MeshOk kinds m bnds D → OneSided m bnds →
    ∀ (nParts : Nat) (a : Answer), Labels m bnds nParts a.epart a.npart a.perm → (∀ l, (a.shuffle l).Perm l) → (∀ i k l, (a.ord i k l).Perm l) →
    ∀ parts φ, partitionImpl kinds m bnds nParts a.epart a.npart a.perm a.shuffle a.ord = some (parts, φ) →
    (∃ (i j : Nat) (p q : Part), i ≠ j ∧ parts[i]? = some p ∧ parts[j]? = some q ∧ (∃ e, Holds p.doms e) ∧ ∃ e, Holds q.doms e) →
    ∀ p ∈ parts, check p.own = .refused

/-- **C138** (parts): a part passes exactly if it has nodes, owns all of them, and no part before it owns any; with no nodes the behaviour is undefined; all other parts are refused. At most one part passes. -/
theorem C138_parts_partial {kinds : List (ElType × Nat)} {m : DomMap} {bnds : List Nat} {D : Nat} (h : MeshOk kinds m bnds D) (hone : OneSided m bnds) {nParts : Nat} {a : Answer}
    (hl : Labels m bnds nParts a.epart a.npart a.perm) (hshuf : ∀ l, (a.shuffle l).Perm l) (hord : ∀ i k l, (a.ord i k l).Perm l) {parts : List Part} {φ : Algo.AMap Nat Nat}
    (hp : partitionImpl kinds m bnds nParts a.epart a.npart a.perm a.shuffle a.ord = some (parts, φ)) :
    (∀ (i : Nat) (p : Part), parts[i]? = some p →
      (check p.own = .ret () ↔ (∃ y, NodeIn p.doms y) ∧ (∀ y, NodeIn p.doms y → p.own.isOwned y = true) ∧
        ∀ (j : Nat) q, j < i → parts[j]? = some q → ∀ y, q.own.isOwned y = false) ∧
      (check p.own = .fails ↔ ∀ y, ¬ NodeIn p.doms y)) ∧
    ∀ (i j : Nat) (p q : Part), parts[i]? = some p → parts[j]? = some q → check p.own = .ret () → check q.own = .ret () → i = j := by
  obtain ⟨parts', φ', f, maps, heq, -, R⟩ := partition_result h hone hl a.shuffle a.ord hshuf hord
  rw [hp] at heq
  obtain ⟨rfl, rfl⟩ : parts = parts' ∧ φ = φ' := by simpa using heq
  have hsh : ∀ (i : Nat) p, parts[i]? = some p → (p.own.shared = [] ↔ ∀ y, NodeIn p.doms y → p.own.isOwned y = true) := by
    intro i p hi
    obtain ⟨-, -, h3⟩ := R.own i p hi
    rw [List.eq_nil_iff_forall_not_mem]
    refine forall_congr' fun y => ?_
    rw [h3]
    tauto
  have hcnt : ∀ o : Own.SegOwn, o.cnt = 0 ↔ ∀ y, o.isOwned y = false := by
    intro o
    simp only [Own.SegOwn.isOwned, decide_eq_false_iff_not]
    exact ⟨fun h y => by omega, fun h => by have := h o.first; omega⟩
  have hnode : ∀ (i : Nat) p, parts[i]? = some p → p.own.shared = [] → (p.own.cnt = 0 ↔ ∀ y, ¬ NodeIn p.doms y) := by
    intro i p hi hs
    rw [hcnt]
    refine forall_congr' fun y => ?_
    constructor
    · intro ho hy
      have := (hsh i p hi).1 hs y hy
      rw [ho] at this; simp at this
    · intro hy
      by_contra ho
      exact hy (R.seen i p hi y (by simpa using ho))
  have hfirst : ∀ (i : Nat) p, parts[i]? = some p → 0 < p.own.cnt → p.own.first = before parts i := by
    intro i p hi hc
    obtain ⟨h1, -⟩ := R.own i p hi
    have a1 := h1 p.own.first
    have a2 := h1 (before parts i)
    simp only [Own.SegOwn.isOwned, decide_eq_true_eq] at a1 a2
    omega
  have hmain : ∀ (i : Nat) (p : Part), parts[i]? = some p → (check p.own = .ret () ↔ (∃ y, NodeIn p.doms y) ∧ (∀ y, NodeIn p.doms y → p.own.isOwned y = true) ∧
        ∀ (j : Nat) q, j < i → parts[j]? = some q → ∀ y, q.own.isOwned y = false) := by
    intro i p hi
    rw [(C138_check p.own).1]
    constructor
    · rintro ⟨h1, h2, h3⟩
      refine ⟨?_, (hsh i p hi).1 h1, fun j q hj hq => ?_⟩
      · by_contra hc
        have := (hnode i p hi h1).2 (not_exists.1 hc)
        omega
      · rw [← hcnt]
        exact before_zero.1 (by rw [← hfirst i p hi h2]; exact h3) j q hj hq
    · rintro ⟨⟨y, hy⟩, h2, h3⟩
      have hs := (hsh i p hi).2 h2
      have hc : 0 < p.own.cnt := by
        by_contra hc
        exact (hnode i p hi hs).1 (by omega) y hy
      exact ⟨hs, hc, by rw [hfirst i p hi hc]; exact before_zero.2 fun j q hj hq => (hcnt _).2 (h3 j q hj hq)⟩
  refine ⟨fun i p hi => ⟨hmain i p hi, ?_⟩, fun i j p q hi hj hp hq => ?_⟩
  · rw [(C138_check p.own).2.1]
    constructor
    · rintro ⟨h1, h2⟩
      exact (hnode i p hi h1).1 h2
    · intro hy
      have hs := (hsh i p hi).2 fun y h => absurd h (hy y)
      exact ⟨hs, (hnode i p hi hs).2 hy⟩
  · have key : ∀ (i j : Nat) (p q : Part), parts[i]? = some p → parts[j]? = some q → check p.own = .ret () → check q.own = .ret () → ¬ i < j := by
      intro i j p q hi hj hp hq hij
      have h1 := ((hmain j q hj).1 hq).2.2 i p hij hi
      have h2 := ((C138_check p.own).1.1 hp).2.1
      rw [← hcnt] at h1
      omega
    have h1 := key i j p q hi hj hp hq
    have h2 := key j i q p hj hi hq hp
    omega

/-- **C138** (meshes made of elements alone): the mesh passes exactly if the smallest node number is 0; whether numbers are missing is not looked at. -/
theorem C138_made (m : DomMap) (hk : KeysNodup m) : ∃ o, ownershipAll m = some o ∧ (check o = .ret () ↔ NodeIn m 0) ∧ (check o = .fails ↔ ∀ y, ¬ NodeIn m y) := by
  refine ⟨_, ownershipAll_eq m, ?_, ?_⟩
  · rw [(C138_check _).1, ← mem_nodeSet hk]
    have hs : (nodeSet m).Pairwise (· < ·) := Std.sortUniq_strict _
    generalize nodeSet m = l at hs
    cases l with
    | nil => simp
    | cons x l =>
      simp only [List.head?_cons, Option.getD_some, List.length_cons, List.mem_cons]
      constructor
      · rintro ⟨-, -, rfl⟩; exact Or.inl rfl
      · rintro (h | h)
        · exact ⟨trivial, by omega, h.symm⟩
        · have := (List.pairwise_cons.1 hs).1 0 h
          omega
  · rw [(C138_check _).2.1]
    simp only [← mem_nodeSet hk, true_and]
    rw [List.length_eq_zero_iff, List.eq_nil_iff_forall_not_mem]

/-! ## Concrete cases -/

/-- Two quadrilaterals, the nodes between them going to part 0: both nodes and elements are as after `partitionMesh`. -/
def exAnswer : Answer := ⟨[1, 0], [1, 0, 0, 1, 0, 0], [0, 1], id, fun _ _ => id⟩

theorem exLabels : Labels twoQuads.doms [7] 2 exAnswer.epart exAnswer.npart exAnswer.perm :=
  ⟨by decide, by decide, fun x => nodes_of_all (N := 6) (by decide) (by decide) x, by decide, ⟨by decide, by decide⟩⟩

theorem exOne : OneSided twoQuads.doms [7] := oneSided_of_all twoQuads_meshOk.wf (by decide +kernel)

/-- The hypotheses of `C138_whole` hold for the two quadrilaterals, with two degrees of freedom in their domain. -/
example : MeshOk lineKinds twoQuads.doms (twoQuads.bnds.map (·.1)) 1 ∧ OneSided twoQuads.doms (twoQuads.bnds.map (·.1)) ∧ twoQuads.own = ⟨0, 6, []⟩ ∧ (∀ x, NodeIn twoQuads.doms x ↔ x < 6) ∧
    Labels twoQuads.doms (twoQuads.bnds.map (·.1)) (2 : Int).toNat exAnswer.epart exAnswer.npart exAnswer.perm ∧ ∀ df ∈ [(⟨[0], [true, true]⟩ : NodeOrd.DomDef)], df.dofs.length = 2 :=
  ⟨twoQuads_meshOk, exOne, rfl, fun x => nodes_of_all (N := 6) (by decide) (by decide) x, exLabels, by decide⟩

deriving instance DecidableEq for Split.Part

/-- The two parts. -/
def exParts : List Part :=
  [⟨[(0, ⟨some 2, [[], [⟨.quad, 2, 1, [0, 1, 2, 3]⟩], []]⟩), (7, ⟨some 1, [[], [], [⟨.line, 2, 3, [1, 3]⟩]]⟩)], ⟨0, 4, []⟩, [(7, [(⟨.quad, 2, 1, [0, 1, 2, 3]⟩, 3)])]⟩,
   ⟨[(0, ⟨some 2, [[], [⟨.quad, 2, 0, [4, 0, 5, 2]⟩], []]⟩), (7, ⟨some 1, [[], [], [⟨.line, 2, 2, [4, 5]⟩]]⟩)], ⟨4, 2, [0, 2]⟩, [(7, [(⟨.quad, 2, 0, [4, 0, 5, 2]⟩, 2)])]⟩]

theorem exParts_eq : (partitionImpl lineKinds twoQuads.doms [7] 2 exAnswer.epart exAnswer.npart exAnswer.perm exAnswer.shuffle exAnswer.ord).map (·.1) = some exParts := by
  have h1 : distribute lineKinds twoQuads.doms [7] 2 [1, 0] [0, 1] id = some twoParts := by decide +kernel
  have h2 : assignNodes [1, 0, 0, 1, 0, 0] twoParts = some [([1, 2, 4, 5], []), ([0, 3], [1, 4])] := by
    have hog : twoParts.zipIdx.map (fun m => ownGhost [1, 0, 0, 1, 0, 0] m.1 m.2) = [([1, 2, 4, 5], []), ([0, 3], [1, 4])] := by decide +kernel
    have hdis : (([([1, 2, 4, 5], []), ([0, 3], [1, 4])] : List (List Nat × List Nat)).zipIdx.map fun p => disjointOf [1, 0, 0, 1, 0, 0] p.1.1 p.2).flatten = [] := by decide +kernel
    unfold assignNodes
    simp only [hog, hdis]
    simp [reassign, claim, Std.sort]
  change (partitionImpl lineKinds twoQuads.doms [7] 2 [1, 0] [1, 0, 0, 1, 0, 0] [0, 1] id (fun _ _ => id)).map (·.1) = some exParts
  unfold partitionImpl
  rw [h1, Option.bind_some]
  unfold finish
  rw [h2, Option.bind_some]
  decide +kernel

/-- **C138** fails for parts: of two neighbouring quadrilaterals the first part owns all its nodes; it passes the check. -/
theorem C138_parts_violated : ¬ C138Statement := fun h => by
  obtain ⟨r, hr, hr2⟩ := Option.map_eq_some_iff.1 exParts_eq
  have := h lineKinds twoQuads.doms [7] 1 twoQuads_meshOk exOne 2 exAnswer exLabels (fun _ => List.Perm.refl _) (fun _ _ _ => List.Perm.refl _) r.1 r.2 hr
    (by
      rw [hr2]
      exact ⟨0, 1, _, _, by decide, rfl, rfl, ⟨⟨.quad, 2, 1, [0, 1, 2, 3]⟩, by unfold Holds; decide⟩, ⟨⟨.quad, 2, 0, [4, 0, 5, 2]⟩, by unfold Holds; decide⟩⟩)
    ⟨_, ⟨0, 4, []⟩, _⟩ (by rw [hr2]; exact List.mem_cons_self)
  revert this
  decide

/-- Asked for three parts again, the first of these parts passes as if it were a whole mesh of four nodes, while the other ranks throw. -/
example : (exParts.map fun p => check p.own) = [.ret (), .refused] := by decide

/-- A mesh with nodes 0 and 5 only passes, and is taken to own the nodes 0 and 1. -/
theorem C138_gap_violated : ¬ ∀ m : DomMap, KeysNodup m → ∀ o, ownershipAll m = some o → check o = .ret () → ∀ x, NodeIn m x → o.isOwned x = true := fun h => by
  have hk : KeysNodup [(0, (⟨some 1, [[⟨.line, 2, 0, [0, 5]⟩]]⟩ : Domain))] := by decide
  have h2 := h [(0, ⟨some 1, [[⟨.line, 2, 0, [0, 5]⟩]]⟩)] hk ⟨0, 2, []⟩ (by rw [ownershipAll_eq]; decide +kernel) (by decide) 5
    ((mem_nodeSet hk).1 (by decide +kernel))
  revert h2
  decide

end Verif.Entry
