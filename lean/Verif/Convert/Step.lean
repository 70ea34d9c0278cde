import Verif.Convert.Inter
/-! # Conversion of one element -/
namespace Verif.Convert
open Verif Verif.Elem

variable {P D : Type}

/-- Position of node `i` of the element with `n` nodes per edge. -/
def pos (n : Nat) (loc : Loc P D) (e : El D) (i : Nat) : Option P := (loc e.ty n e.data)[i]?

/-- Two elements have no vertex and no node position in common, or exactly the vertices and node positions of
a common face. -/
def Conform (n : Nat) (loc : Loc P D) (e e' : El D) : Prop :=
  ((∀ k l, k < 2 ^ e.ty.dim → l < 2 ^ e'.ty.dim → e.nodes.getD k 0 ≠ e'.nodes.getD l 0) ∧
    ∀ i j, i < n ^ e.ty.dim → j < n ^ e'.ty.dim → pos n loc e i ≠ pos n loc e' j) ∨
  ∃ F F', VMeet e e' F F' ∧ free F ≤ highestDim e.ty e'.ty ∧
    (∀ i j, i < n ^ e.ty.dim → j < n ^ e'.ty.dim → pos n loc e i = pos n loc e' j → onFace n F i ∧ onFace n F' j) ∧
    (∀ j, j < n ^ e'.ty.dim → onFace n F' j → ∃ i, i < n ^ e.ty.dim ∧ onFace n F i ∧ pos n loc e i = pos n loc e' j)

/-- Two distinct vertices in common. -/
def ShareTwo (e e' : El D) : Prop :=
  ∃ k k' l l', k < 2 ^ e.ty.dim ∧ k' < 2 ^ e.ty.dim ∧ k ≠ k' ∧ l < 2 ^ e'.ty.dim ∧ l' < 2 ^ e'.ty.dim ∧
    e.nodes.getD k 0 = e'.nodes.getD l 0 ∧ e.nodes.getD k' 0 = e'.nodes.getD l' 0

/-- What the conversion relies on, in terms of node positions. -/
structure Geo (n : Nat) (loc : Loc P D) (close : P → P → Bool) (adj : Nat → List Nat) (nOld : Nat) (els : List (El D)) : Prop where
  two : 2 ≤ n
  bound : ∀ e ∈ els, n ^ e.ty.dim < 2 ^ 16
  wf : ∀ e ∈ els, WfEl e
  old : ∀ e ∈ els, ∀ v ∈ e.nodes, v < nOld
  ids : (els.map (·.id)).Nodup
  len : ∀ e ∈ els, (loc e.ty n e.data).length = n ^ e.ty.dim
  len2 : ∀ e ∈ els, (loc e.ty 2 e.data).length = 2 ^ e.ty.dim
  verts : ∀ e ∈ els, ∀ k, k < 2 ^ e.ty.dim → pos 2 loc e k = pos n loc e (corner n k)
  inj : ∀ e ∈ els, ∀ i j, i < n ^ e.ty.dim → j < n ^ e.ty.dim → pos n loc e i = pos n loc e j → i = j
  close_iff : ∀ e ∈ els, ∀ e' ∈ els, ∀ p ∈ loc e.ty n e.data, ∀ q ∈ loc e'.ty n e'.data, close p q = true ↔ p = q
  vpos : ∀ e ∈ els, ∀ e' ∈ els, ∀ k l, k < 2 ^ e.ty.dim → l < 2 ^ e'.ty.dim → e.nodes.getD k 0 = e'.nodes.getD l 0 →
    pos n loc e (corner n k) = pos n loc e' (corner n l)
  vcorner : ∀ e ∈ els, ∀ e' ∈ els, ∀ k j, k < 2 ^ e.ty.dim → j < n ^ e'.ty.dim → pos n loc e (corner n k) = pos n loc e' j →
    ∃ l, l < 2 ^ e'.ty.dim ∧ j = corner n l ∧ e.nodes.getD k 0 = e'.nodes.getD l 0
  conform : ∀ e ∈ els, ∀ e' ∈ els, e.id ≠ e'.id → Conform n loc e e'
  adj : ∀ e ∈ els, ∀ e' ∈ els, e.id ≠ e'.id → ShareTwo e e' → e'.id ∈ adj e.id

theorem pos_lt {n : Nat} {loc : Loc P D} {e : El D} (h : (loc e.ty n e.data).length = n ^ e.ty.dim) {i : Nat} (hi : i < n ^ e.ty.dim) :
    ∃ p, pos n loc e i = some p ∧ p ∈ loc e.ty n e.data := by
  rw [← h] at hi
  exact ⟨_, List.getElem?_eq_getElem hi, List.getElem_mem hi⟩

/-- A face without free axes has one node. -/
theorem point_unique {t : ElType} {n : Nat} {F : Face} (hF : F ∈ allFaces t) (h0 : free F = 0) {i j : Nat} (hi : i < n ^ t.dim)
    (hj : j < n ^ t.dim) (oi : onFace n F i = true) (oj : onFace n F j = true) : i = j := by
  have hlen := length_allFaces hF
  have hdig : ∀ a, a < t.dim → i / n ^ a % n = j / n ^ a % n := by
    intro a ha
    rw [← hlen] at ha
    have hm : (F[a], a) ∈ F.zipIdx := by
      rw [List.mem_zipIdx_iff_getElem?]; exact List.getElem?_eq_getElem ha
    have c1 := List.all_eq_true.1 oi _ hm
    have c2 := List.all_eq_true.1 oj _ hm
    have hne : F[a] ≠ none := by
      intro e
      have : none ∈ F := by rw [← e]; exact List.getElem_mem ha
      have := List.count_pos_iff.2 this
      rw [free] at h0; omega
    obtain ⟨b, hb⟩ := Option.ne_none_iff_exists'.1 hne
    simp only [hb, coordOk, beq_iff_eq] at c1 c2
    rw [c1, c2]
  cases t with
  | line =>
    have := hdig 0 (by decide)
    simp only [ElType.dim, pow_one] at hi hj
    simpa [Nat.mod_eq_of_lt hi, Nat.mod_eq_of_lt hj] using this
  | quad =>
    have h0 := hdig 0 (by decide)
    have h1 := hdig 1 (by decide)
    simp only [ElType.dim, pow_two] at hi hj
    simp only [pow_zero, Nat.div_one, pow_one] at h0 h1
    rw [Nat.mod_eq_of_lt (Nat.div_lt_of_lt_mul hi), Nat.mod_eq_of_lt (Nat.div_lt_of_lt_mul hj)] at h1
    rw [Tensor.eq_digits n i, Tensor.eq_digits n j, h0, h1]
  | hex =>
    have h0 := hdig 0 (by decide)
    have h1 := hdig 1 (by decide)
    have h2 := hdig 2 (by decide)
    have e3 : n ^ 3 = n * n * n := by ring
    simp only [ElType.dim, e3] at hi hj
    simp only [pow_zero, Nat.div_one, pow_one, pow_two] at h0 h1 h2
    rw [Nat.mod_eq_of_lt (Nat.div_lt_of_lt_mul hi), Nat.mod_eq_of_lt (Nat.div_lt_of_lt_mul hj), ← Nat.div_div_eq_div_mul, ← Nat.div_div_eq_div_mul] at h2
    have hq : i / n = j / n := by rw [Tensor.eq_digits n (i / n), Tensor.eq_digits n (j / n), h1, h2]
    rw [Tensor.eq_digits n i, Tensor.eq_digits n j, h0, hq]

/-! ### Setting several slots -/

theorem foldlM_set {α : Type} (g : List (Option Nat) → α → Option (List (Option Nat))) (f : α → Option (Nat × Nat)) (l : List α)
    (s0 : List (Option Nat)) (hg : ∀ s a, a ∈ l → g s a = (f a).map fun p => s.set p.1 (some p.2))
    (hf : ∀ a ∈ l, ∃ p, f a = some p ∧ p.1 < s0.length)
    (hc : ∀ a ∈ l, ∀ b ∈ l, ∀ i v w, f a = some (i, v) → f b = some (i, w) → v = w) :
    ∃ s', l.foldlM g s0 = some s' ∧ s'.length = s0.length ∧
      (∀ i v, (∃ a ∈ l, f a = some (i, v)) → s'[i]? = some (some v)) ∧
      (∀ i, (∀ a ∈ l, ∀ v, f a ≠ some (i, v)) → s'[i]? = s0[i]?) := by
  induction l generalizing s0 with
  | nil => exact ⟨s0, rfl, rfl, by simp, by simp⟩
  | cons a l ih =>
    obtain ⟨⟨i0, v0⟩, hp, hlt⟩ := hf a (by simp)
    obtain ⟨s', h1, h2, h3, h4⟩ := ih (s0.set i0 (some v0)) (fun s b hb => hg s b (by simp [hb]))
      (fun b hb => by simpa using hf b (by simp [hb])) (fun b hb c hc' => hc b (by simp [hb]) c (by simp [hc']))
    refine ⟨s', ?_, by simpa using h2, ?_, ?_⟩
    · rw [List.foldlM_cons, hg s0 a (by simp), hp]
      exact h1
    · rintro i v ⟨b, hb, e⟩
      by_cases hex : ∃ c ∈ l, ∃ w, f c = some (i, w)
      · obtain ⟨c, hcl, w, hw⟩ := hex
        rw [h3 i w ⟨c, hcl, hw⟩, hc b hb c (by simp [hcl]) i v w e hw]
      · have hba : b = a := by
          rcases List.mem_cons.1 hb with h | h
          · exact h
          · exact absurd ⟨b, h, v, e⟩ hex
        subst hba
        rw [hp] at e
        simp only [Option.some.injEq, Prod.mk.injEq] at e
        obtain ⟨rfl, rfl⟩ := e
        rw [h4 i0 (fun c hcl w hw => hex ⟨c, hcl, w, hw⟩)]
        simp only at hlt
        rw [List.getElem?_set_self hlt]
    · intro i hi
      rw [h4 i (fun b hb => hi b (by simp [hb]))]
      have : i0 ≠ i := by
        rintro rfl
        exact hi a (by simp) v0 hp
      rw [List.getElem?_set_ne this]

theorem findClose_of {close : P → P → Bool} {pat : List P} {p : P} (hcl : ∀ q ∈ pat, close q p = true ↔ q = p) (hp : p ∈ pat) :
    ∃ k, findClose close pat p = some k ∧ pat[k]? = some p := by
  have hs : (findClose close pat p).isSome := by
    rw [findClose, List.findIdx?_isSome, List.any_eq_true]
    exact ⟨p, hp, (hcl p hp).2 rfl⟩
  obtain ⟨k, hk⟩ := Option.isSome_iff_exists.1 hs
  refine ⟨k, hk, ?_⟩
  rw [findClose, List.findIdx?_eq_some_iff_getElem] at hk
  obtain ⟨h, hc, _⟩ := hk
  rw [List.getElem?_eq_getElem h, (hcl _ (List.getElem_mem h)).1 hc]

section
variable {n : Nat} {loc : Loc P D} {close : P → P → Bool} {adj : Nat → List Nat} {nOld : Nat} {els : List (El D)}

/-- After the vertices have been matched, exactly the corner slots are filled, with the old ids. -/
theorem matchVerts_spec (G : Geo n loc close adj nOld els) {el : El D} (hel : el ∈ els) :
    ∃ s, matchVerts n loc close el = some s ∧ s.length = n ^ el.ty.dim ∧
      (∀ k, k < 2 ^ el.ty.dim → s[corner n k]? = some (some (el.nodes.getD k 0))) ∧
      (∀ i, i < n ^ el.ty.dim → (∀ k, k < 2 ^ el.ty.dim → i ≠ corner n k) → s[i]? = some none) := by
  have hdim : 2 ^ el.ty.dim ≤ 8 := by cases el.ty <;> decide
  have hn := G.two
  have hfind : ∀ pk ∈ (loc el.ty 2 el.data).zipIdx, pk.2 < 2 ^ el.ty.dim ∧ findClose close (loc el.ty n el.data) pk.1 = some (corner n pk.2) := by
    intro pk hpk
    rw [List.mem_zipIdx_iff_getElem?] at hpk
    have hk : pk.2 < 2 ^ el.ty.dim := by
      obtain ⟨h, _⟩ := List.getElem?_eq_some_iff.1 hpk
      rw [G.len2 el hel] at h; exact h
    have hv := G.verts el hel pk.2 hk
    rw [pos, hpk] at hv
    have hcl := corner_lt el.ty n pk.2 (by omega) hk
    have hmem : pk.1 ∈ loc el.ty n el.data := List.mem_of_getElem? hv.symm
    obtain ⟨k, h1, h2⟩ := findClose_of (close := close) (pat := loc el.ty n el.data) (p := pk.1) (fun q hq => G.close_iff el hel el hel q hq _ hmem) hmem
    have hlt : k < n ^ el.ty.dim := by
      obtain ⟨h, _⟩ := List.getElem?_eq_some_iff.1 h2
      rw [G.len el hel] at h; exact h
    have : k = corner n pk.2 := G.inj el hel k _ hlt hcl (by rw [← hv]; exact h2)
    exact ⟨hk, by rw [h1, this]⟩
  obtain ⟨s, h1, h2, h3, h4⟩ := foldlM_set (fun slots (pk : P × Nat) =>
      (findClose close (loc el.ty n el.data) pk.1).map fun ind => slots.set ind (some (el.nodes.getD pk.2 0)))
    (fun pk => some (corner n pk.2, el.nodes.getD pk.2 0)) (loc el.ty 2 el.data).zipIdx (List.replicate (nNodes el.ty n) none)
    (fun s pk hpk => by rw [(hfind pk hpk).2]; rfl)
    (fun pk hpk => ⟨_, rfl, by
      rw [List.length_replicate, nNodes_eq _ _ (G.bound el hel)]
      exact corner_lt el.ty n pk.2 (by omega) (hfind pk hpk).1⟩)
    (fun a ha b hb i v w e1 e2 => by
      simp only [Option.some.injEq, Prod.mk.injEq] at e1 e2
      obtain ⟨e1, rfl⟩ := e1
      obtain ⟨e2, rfl⟩ := e2
      have ha' := (hfind a ha).1
      have hb' := (hfind b hb).1
      rw [corner_inj hn (by omega) (by omega) (e1.trans e2.symm)])
  rw [List.length_replicate, nNodes_eq _ _ (G.bound el hel)] at h2
  refine ⟨s, h1, h2, ?_, ?_⟩
  · intro k hk
    apply h3
    have hk2 : k < (loc el.ty 2 el.data).length := by rw [G.len2 el hel]; exact hk
    refine ⟨((loc el.ty 2 el.data)[k], k), ?_, rfl⟩
    rw [List.mem_zipIdx_iff_getElem?]
    exact List.getElem?_eq_getElem hk2
  · intro i hi hne
    rw [h4 i]
    · rw [List.getElem?_replicate, nNodes_eq _ _ (G.bound el hel), if_pos hi]
    · intro pk hpk v e
      simp only [Option.some.injEq, Prod.mk.injEq] at e
      exact hne pk.2 (hfind pk hpk).1 e.1.symm

/-- Matching with a converted neighbour: filled slots stay, new values are those of the neighbour's node at the
same position, and every node shared with the neighbour gets filled. -/
theorem matchNbr_spec (G : Geo n loc close adj nOld els) {el nbr : El D} (hel : el ∈ els) (hnbr : nbr ∈ els) (hne : nbr.id ≠ el.id)
    {ns : List Nat} (hns : ns.length = n ^ nbr.ty.dim) {s : List (Option Nat)} (hs : s.length = n ^ el.ty.dim)
    (hcor : ∀ k, k < 2 ^ el.ty.dim → ∃ v, s[corner n k]? = some (some v)) :
    ∃ s', matchNbr n loc close nbr ⟨nbr.ty, nbr.id, ns, nbr.data⟩ el s = some s' ∧ s'.length = n ^ el.ty.dim ∧
      (∀ (i : Nat) (v : Nat), s[i]? = some (some v) → s'[i]? = some (some v)) ∧
      (∀ (i : Nat) (v : Nat), s'[i]? = some (some v) → s[i]? = some (some v) ∨ ∃ j, j < n ^ nbr.ty.dim ∧ pos n loc el i = pos n loc nbr j ∧ v = ns.getD j 0) ∧
      (∀ (i j : Nat), i < n ^ el.ty.dim → j < n ^ nbr.ty.dim → pos n loc el i = pos n loc nbr j → ∃ v, s'[i]? = some (some v)) := by
  have hn := G.two
  have hb1 := G.bound nbr hnbr
  have hb2 := G.bound el hel
  have triv : inter n nbr el = ([], []) → matchNbr n loc close nbr ⟨nbr.ty, nbr.id, ns, nbr.data⟩ el s = some s := by
    intro h
    simp [matchNbr, h]
  rcases G.conform nbr hnbr el hel hne with ⟨hv, hp⟩ | ⟨F, F', vm, hd, honly, hall⟩
  · refine ⟨s, triv (inter_disjoint hn hb1 hb2 hv), hs, fun i v h => h, fun i v h => Or.inl h, fun i j hi hj e => ?_⟩
    exact absurd e.symm (hp j i hj hi)
  · by_cases hd0 : free F = 0
    · refine ⟨s, triv (inter_point hn hb1 hb2 vm hd0), hs, fun i v h => h, fun i v h => Or.inl h, fun i j hi hj e => ?_⟩
      -- a point: the only shared node is a corner
      obtain ⟨k, hk, ok⟩ := face_vert _ _ vm.mem2
      rw [List.mem_range] at hk
      have hon := (honly j i hj hi e.symm).2
      have : i = corner n k := by
        have hfree : free F' = 0 := by rw [← vm.dim]; exact hd0
        have ok' : onFace n F' (corner n k) = true := by rw [onFace_corner vm.mem2 hn]; exact ok
        exact point_unique vm.mem2 hfree hi (corner_lt _ _ _ (by omega) hk) hon ok'
      rw [this]
      exact hcor k hk
    · have hi := inter_found hn hb1 hb2 (G.wf nbr hnbr) (G.wf el hel) vm (by omega) hd
      have hall' : (((faceInds nbr.ty n F).map fun i => (i, (loc nbr.ty n nbr.data)[i]?)).all fun q => q.2.isSome) = true := by
        rw [List.all_eq_true]
        intro q hq
        obtain ⟨i, hi', rfl⟩ := List.mem_map.1 hq
        obtain ⟨p, hp, _⟩ := pos_lt (G.len nbr hnbr) (mem_faceInds.1 hi').1
        show (pos n loc nbr i).isSome
        rw [hp]; rfl
      -- what one index receives
      have hone : ∀ i ∈ faceInds el.ty n F', ∃ j p, j < n ^ nbr.ty.dim ∧ pos n loc el i = some p ∧ pos n loc nbr j = some p ∧
          matchOne close (((faceInds nbr.ty n F).map fun i => (i, (loc nbr.ty n nbr.data)[i]?)).filterMap fun q => q.2.map fun x => (q.1, x)) ns p = some (ns.getD j 0) := by
        intro i hi'
        obtain ⟨hil, hon⟩ := mem_faceInds.1 hi'
        obtain ⟨j, hj, onj, e⟩ := hall i hil hon
        obtain ⟨p, hp, hpm⟩ := pos_lt (G.len el hel) hil
        have hmemfm : ∀ j' q, (j', q) ∈ (((faceInds nbr.ty n F).map fun i => (i, (loc nbr.ty n nbr.data)[i]?)).filterMap fun q => q.2.map fun x => (q.1, x)) ↔
            j' ∈ faceInds nbr.ty n F ∧ pos n loc nbr j' = some q := by
          intro j' q
          simp only [List.mem_filterMap, List.mem_map, Option.map_eq_some_iff]
          constructor
          · rintro ⟨x, ⟨a, ha, rfl⟩, y, hy, e⟩
            simp only [Prod.mk.injEq] at e
            obtain ⟨rfl, rfl⟩ := e
            exact ⟨ha, hy⟩
          · rintro ⟨ha, hq⟩
            exact ⟨_, ⟨j', ha, rfl⟩, q, hq, rfl⟩
        have hjp : pos n loc nbr j = some p := by rw [e, hp]
        obtain ⟨k, h1, h2⟩ := findClose_of (close := close)
          (pat := ((((faceInds nbr.ty n F).map fun i => (i, (loc nbr.ty n nbr.data)[i]?)).filterMap fun q => q.2.map fun x => (q.1, x))).map (·.2)) (p := p)
          (fun q hq => by
            obtain ⟨⟨j', q'⟩, hq', rfl⟩ := List.mem_map.1 hq
            have := ((hmemfm j' q').1 hq').2
            exact G.close_iff nbr hnbr el hel q' (List.mem_of_getElem? this) p hpm)
          (List.mem_map.2 ⟨(j, p), (hmemfm j p).2 ⟨mem_faceInds.2 ⟨hj, onj⟩, hjp⟩, rfl⟩)
        refine ⟨j, p, hj, hp, hjp, ?_⟩
        rw [List.getElem?_map] at h2
        obtain ⟨⟨j', q⟩, hq, he⟩ := Option.map_eq_some_iff.1 h2
        simp only at he
        subst he
        obtain ⟨hj', hjq⟩ := (hmemfm j' q).1 (List.mem_of_getElem? hq)
        have hjj : j' = j := G.inj nbr hnbr j' j (mem_faceInds.1 hj').1 hj (by rw [hjq, hjp])
        subst hjj
        rw [matchOne, h1]
        simp only [Option.bind_some, hq]
        rw [← hns] at hj
        rw [List.getElem?_eq_getElem hj, List.getD_eq_getElem?_getD, List.getElem?_eq_getElem hj]
        rfl
      obtain ⟨s', h1, h2, h3, h4⟩ := foldlM_set (fun s i =>
          ((loc el.ty n el.data)[i]?).bind fun p =>
            (matchOne close (((faceInds nbr.ty n F).map fun i => (i, (loc nbr.ty n nbr.data)[i]?)).filterMap fun q => q.2.map fun x => (q.1, x)) ns p).map fun id => s.set i (some id))
        (fun i => ((loc el.ty n el.data)[i]?).bind fun p =>
            (matchOne close (((faceInds nbr.ty n F).map fun i => (i, (loc nbr.ty n nbr.data)[i]?)).filterMap fun q => q.2.map fun x => (q.1, x)) ns p).map fun id => (i, id))
        ((faceInds el.ty n F').filter fun i => s.getD i none = none) s
        (fun s i hi => by
          obtain ⟨j, p, _, hp, _, hm⟩ := hone i (List.mem_filter.1 hi).1
          rw [pos] at hp
          rw [hp, Option.bind_some, Option.bind_some, hm]
          rfl)
        (fun i hi => by
          obtain ⟨j, p, _, hp, _, hm⟩ := hone i (List.mem_filter.1 hi).1
          rw [pos] at hp
          refine ⟨(i, ns.getD j 0), by rw [hp, Option.bind_some, hm]; rfl, ?_⟩
          rw [hs]; exact (mem_faceInds.1 (List.mem_filter.1 hi).1).1)
        (fun a ha b hb i v w e1 e2 => by
          obtain ⟨_, p, _, hp, _, hm⟩ := hone a (List.mem_filter.1 ha).1
          obtain ⟨_, p', _, hp', _, hm'⟩ := hone b (List.mem_filter.1 hb).1
          rw [pos] at hp hp'
          rw [hp, Option.bind_some, hm] at e1
          rw [hp', Option.bind_some, hm'] at e2
          simp only [Option.map_some, Option.some.injEq, Prod.mk.injEq] at e1 e2
          obtain ⟨rfl, rfl⟩ := e1
          obtain ⟨rfl, rfl⟩ := e2
          rw [hp] at hp'
          simp only [Option.some.injEq] at hp'
          subst hp'
          rw [hm] at hm'
          simpa using hm')
      have hset : ∀ i ∈ (faceInds el.ty n F').filter (fun i => s.getD i none = none), ∃ j, j < n ^ nbr.ty.dim ∧ pos n loc el i = pos n loc nbr j ∧
          s'[i]? = some (some (ns.getD j 0)) := by
        intro i hi
        obtain ⟨j, p, hj, hp, hjp, hm⟩ := hone i (List.mem_filter.1 hi).1
        refine ⟨j, hj, by rw [hp, hjp], h3 i _ ⟨i, hi, ?_⟩⟩
        rw [pos] at hp
        rw [hp, Option.bind_some, hm]; rfl
      have hunset : ∀ i, i ∉ (faceInds el.ty n F').filter (fun i => s.getD i none = none) → s'[i]? = s[i]? := by
        intro i hi
        apply h4
        intro a ha v e
        obtain ⟨j, p, hj, hp, hjp, hm⟩ := hone a (List.mem_filter.1 ha).1
        rw [pos] at hp
        rw [hp, Option.bind_some, hm] at e
        simp only [Option.map_some, Option.some.injEq, Prod.mk.injEq] at e
        obtain ⟨rfl, _⟩ := e
        exact hi ha
      refine ⟨s', ?_, by rw [h2, hs], ?_, ?_, ?_⟩
      · simp only [matchNbr, hi]
        rw [if_pos hall']
        exact h1
      · intro i v hv
        rw [hunset i, hv]
        intro hi
        have := (List.mem_filter.1 hi).2
        rw [List.getD_eq_getElem?_getD, hv] at this
        simp at this
      · intro i v hv
        by_cases hmem : i ∈ (faceInds el.ty n F').filter (fun i => s.getD i none = none)
        · obtain ⟨j, hj, e, hx⟩ := hset i hmem
          right
          rw [hv] at hx
          simp only [Option.some.injEq] at hx
          exact ⟨j, hj, e, hx⟩
        · left; rw [← hunset i hmem]; exact hv
      · intro i j hi hj e
        have hon := (honly j i hj hi e.symm).2
        by_cases hmem : i ∈ (faceInds el.ty n F').filter (fun i => s.getD i none = none)
        · obtain ⟨j, hj, e, hx⟩ := hset i hmem
          exact ⟨_, hx⟩
        · rw [hunset i hmem]
          have : ¬ s.getD i none = none := by
            intro h
            exact hmem (List.mem_filter.2 ⟨mem_faceInds.2 ⟨hi, hon⟩, by simpa using h⟩)
          have hil : i < s.length := by rw [hs]; exact hi
          rw [List.getD_eq_getElem?_getD, List.getElem?_eq_getElem hil, Option.getD_some] at this
          obtain ⟨v, hv⟩ := Option.ne_none_iff_exists'.1 this
          exact ⟨v, by rw [List.getElem?_eq_getElem hil, hv]⟩
end

end Verif.Convert
