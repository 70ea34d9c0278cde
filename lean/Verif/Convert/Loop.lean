import Verif.Convert.Fresh
/-! # The conversion loop -/
namespace Verif.Convert
open Verif Verif.Elem

variable {P D : Type}

/-- The container: domains in order of their ids; three vectors, each with elements of one type in ascending
order of ids; the dimension of the domain is that of its elements. -/
structure WfMesh (m : DMap D) : Prop where
  sorted : OMap.Sorted m
  len3 : ∀ d ∈ m, d.2.vecs.length = 3
  typed : ∀ d ∈ m, ∀ t, ∀ e ∈ d.2.vecs.getD (tyIdx t) [], e.ty = t
  asc : ∀ d ∈ m, ∀ t, (d.2.vecs.getD (tyIdx t) []).Pairwise fun a b => a.id < b.id
  dims : ∀ d ∈ m, ∀ e ∈ d.2.vecs.flatten, d.2.dim = some e.ty.dim

/-- The element with the node ids `ν`. -/
def relab (ν : Nat → List Nat) (e : El D) : El D := ⟨e.ty, e.id, ν e.id, e.data⟩

/-- The mesh with the node ids `ν`. -/
def relabel (ν : Nat → List Nat) (m : DMap D) : DMap D := m.map fun d => (d.1, ⟨d.2.dim, d.2.vecs.map fun v => v.map (relab ν)⟩)

/-- Converted elements of a domain and type. -/
def bv (done : List (Nat × El D)) (ν : Nat → List Nat) (k : Nat) (t : ElType) : List (El D) :=
  (done.filter fun q => q.1 = k ∧ q.2.ty = t).map fun q => relab ν q.2

def domsOf (m : DMap D) (done : List (Nat × El D)) (ν : Nat → List Nat) : DMap D :=
  m.map fun d => (d.1, ⟨d.2.dim, [bv done ν d.1 .hex, bv done ν d.1 .quad, bv done ν d.1 .line]⟩)

theorem map_sorted {β γ : Type} {m : List (Nat × β)} (h : OMap.Sorted m) (f : Nat × β → γ) : OMap.Sorted (m.map fun d => (d.1, f d)) := by
  unfold OMap.Sorted at h ⊢
  rw [List.pairwise_map]
  exact h

theorem map_lookup {β γ : Type} {m : List (Nat × β)} (h : OMap.Sorted m) (f : Nat × β → γ) {d : Nat × β} (hd : d ∈ m) :
    (m.map fun d => (d.1, f d)).lookup d.1 = some (f d) := by
  rw [← OMap.mem_iff_lookup (map_sorted h f)]
  exact List.mem_map.2 ⟨d, hd, rfl⟩

theorem map_upd {β γ : Type} {m : List (Nat × β)} (h : OMap.Sorted m) (f g : Nat × β → γ) {d : Nat × β} (hd : d ∈ m)
    (hg : ∀ d' ∈ m, d'.1 ≠ d.1 → g d' = f d') :
    OMap.upd (m.map fun d => (d.1, f d)) d.1 (fun _ => g d) = m.map fun d => (d.1, g d) := by
  induction m with
  | nil => simp at hd
  | cons p m ih =>
    obtain ⟨hp, hs⟩ := List.pairwise_cons.1 h
    rw [List.map_cons, List.map_cons]
    rcases List.mem_cons.1 hd with rfl | hd
    · simp only [OMap.upd, Nat.lt_irrefl, if_false]
      rw [if_pos trivial]
      congr 1
      refine List.map_congr_left fun d' hd' => ?_
      have := hp d' hd'
      rw [hg d' (by simp [hd']) (by omega)]
    · have hlt := hp d hd
      simp only [OMap.upd]
      rw [if_neg (by omega), if_neg (by omega), hg p (by simp) (by omega), ih hs hd (fun d' hd' => hg d' (by simp [hd']))]

theorem vecs_three {d : Nat × Dom D} (h : d.2.vecs.length = 3) :
    d.2.vecs = [d.2.vecs.getD (tyIdx .hex) [], d.2.vecs.getD (tyIdx .quad) [], d.2.vecs.getD (tyIdx .line) []] := by
  match hv : d.2.vecs, h with
  | [a, b, c], _ => rfl

/-- Elements of a domain and type in visiting order. -/
theorem visit_filter {m : DMap D} (h : WfMesh m) {d : Nat × Dom D} (hd : d ∈ m) (t : ElType) :
    ((visit m).filter fun q => q.1 = d.1 ∧ q.2.ty = t) = (d.2.vecs.getD (tyIdx t) []).map fun e => (d.1, e) := by
  have one : ∀ d ∈ m, ((d.2.vecs.flatten.map fun e => (d.1, e)).filter fun q => q.1 = d.1 ∧ q.2.ty = t) = (d.2.vecs.getD (tyIdx t) []).map fun e => (d.1, e) := by
    intro d hd
    rw [List.filter_map]
    congr 1
    have hf : ∀ t', (d.2.vecs.getD (tyIdx t') []).filter ((fun q : Nat × El D => decide (q.1 = d.1 ∧ q.2.ty = t)) ∘ fun e => (d.1, e)) =
        if t' = t then d.2.vecs.getD (tyIdx t') [] else [] := by
      intro t'
      by_cases ht : t' = t
      · rw [if_pos ht, List.filter_eq_self.2]
        intro e he
        simp [h.typed d hd t' e he, ht]
      · rw [if_neg ht, List.filter_eq_nil_iff]
        intro e he
        simp [h.typed d hd t' e he, ht]
    rw [vecs_three (h.len3 d hd)]
    simp only [List.flatten_cons, List.flatten_nil, List.append_nil, List.filter_append]
    rw [hf, hf, hf]
    cases t <;> simp [tyIdx]
  have other : ∀ (m : DMap D), (∀ d' ∈ m, d'.1 ≠ d.1) → ((visit m).filter fun q => q.1 = d.1 ∧ q.2.ty = t) = [] := by
    intro m hm
    rw [List.filter_eq_nil_iff]
    intro q hq
    rw [visit, List.mem_flatMap] at hq
    obtain ⟨d', hd', hq⟩ := hq
    obtain ⟨e, _, rfl⟩ := List.mem_map.1 hq
    simp [hm d' hd']
  obtain ⟨m1, m2, rfl⟩ := List.append_of_mem hd
  have hs := h.sorted
  unfold OMap.Sorted at hs
  rw [List.pairwise_append, List.pairwise_cons] at hs
  have e : visit (m1 ++ d :: m2) = visit m1 ++ ((d.2.vecs.flatten.map fun e => (d.1, e)) ++ visit m2) := by
    simp [visit, List.flatMap_append, List.flatMap_cons]
  rw [e, List.filter_append, List.filter_append, one d hd, other m1, other m2]
  · simp
  · intro d' hd'
    have := hs.2.1.1 d' hd'
    omega
  · intro d' hd'
    have := hs.2.2 d' hd' d (by simp)
    omega

theorem mem_visit {m : DMap D} {q : Nat × El D} : q ∈ visit m ↔ ∃ d ∈ m, q.1 = d.1 ∧ q.2 ∈ d.2.vecs.flatten := by
  rw [visit, List.mem_flatMap]
  constructor
  · rintro ⟨d, hd, h⟩
    obtain ⟨e, he, rfl⟩ := List.mem_map.1 h
    exact ⟨d, hd, rfl, he⟩
  · rintro ⟨d, hd, h1, h2⟩
    exact ⟨d, hd, List.mem_map.2 ⟨q.2, h2, by rw [← h1]⟩⟩

theorem domsOf_end {m : DMap D} (h : WfMesh m) (ν : Nat → List Nat) : domsOf m (visit m) ν = relabel ν m := by
  refine List.map_congr_left fun d hd => ?_
  have hb : ∀ t, bv (visit m) ν d.1 t = (d.2.vecs.getD (tyIdx t) []).map (relab ν) := by
    intro t
    rw [bv, visit_filter h hd, List.map_map]
    rfl
  rw [hb, hb, hb]
  conv => rhs; rw [vecs_three (h.len3 d hd)]
  rfl

section
variable {n : Nat} {loc : Loc P D} {close : P → P → Bool} {adj : Nat → List Nat} {nOld : Nat} {m : DMap D}

/-- The converted neighbour is found. -/
theorem lookup_converted (W : WfMesh m) (hids : ((visit m).map fun q => q.2.id).Nodup) {done rest : List (Nat × El D)} (hv : visit m = done ++ rest)
    (ν : Nat → List Nat) {q : Nat × El D} (hq : q ∈ done) :
    ((visit m).find? fun x => x.2.id = q.2.id) = some q ∧
    ∃ dom, (domsOf m done ν).lookup q.1 = some dom ∧
      ((dom.vecs.getD (tyIdx q.2.ty) []).find? fun c => ¬ c.id < q.2.id) = some (relab ν q.2) := by
  have hqv : q ∈ visit m := by rw [hv]; exact List.mem_append_left _ hq
  have huniq : ∀ x ∈ visit m, x.2.id = q.2.id → x = q := by
    intro x hx e
    exact List.inj_on_of_nodup_map hids hx hqv e
  constructor
  · have hs : ((visit m).find? fun x => x.2.id = q.2.id).isSome := by
      rw [List.find?_isSome]; exact ⟨q, hqv, by simp⟩
    obtain ⟨x, hx⟩ := Option.isSome_iff_exists.1 hs
    have h1 := List.mem_of_find?_eq_some hx
    have h2 := List.find?_some hx
    rw [hx, huniq x h1 (by simpa using h2)]
  · obtain ⟨d, hd, hk, he⟩ := mem_visit.1 hqv
    refine ⟨_, by rw [hk]; exact map_lookup W.sorted (fun d => (⟨d.2.dim, [bv done ν d.1 .hex, bv done ν d.1 .quad, bv done ν d.1 .line]⟩ : Dom D)) hd, ?_⟩
    have hvec : ([bv done ν d.1 .hex, bv done ν d.1 .quad, bv done ν d.1 .line] : List (List (El D))).getD (tyIdx q.2.ty) [] = bv done ν d.1 q.2.ty := by
      cases q.2.ty <;> rfl
    simp only [hvec]
    -- ascending ids
    have hasc : (bv done ν d.1 q.2.ty).Pairwise fun a b => a.id < b.id := by
      have hall : (bv (visit m) ν d.1 q.2.ty).Pairwise fun a b => a.id < b.id := by
        rw [bv, visit_filter W hd, List.map_map, List.pairwise_map]
        exact W.asc d hd q.2.ty
      refine hall.sublist ?_
      rw [bv, bv, hv]
      exact ((List.sublist_append_left _ _).filter _).map _
    have hmem : relab ν q.2 ∈ bv done ν d.1 q.2.ty := List.mem_map.2 ⟨q, List.mem_filter.2 ⟨hq, by simp [hk]⟩, rfl⟩
    have hs : ((bv done ν d.1 q.2.ty).find? fun c => ¬ c.id < q.2.id).isSome := by
      rw [List.find?_isSome]; exact ⟨_, hmem, by simp [relab]⟩
    obtain ⟨x, hx⟩ := Option.isSome_iff_exists.1 hs
    rw [hx]
    obtain ⟨hge, as, bs, hsplit, hlow⟩ := List.find?_eq_some_iff_append.1 hx
    rw [hsplit] at hmem hasc
    have hxin : ∀ y ∈ as, y.id < q.2.id := fun y hy => by simpa using hlow y hy
    rcases List.mem_append.1 hmem with h | h
    · have := hxin _ h; simp [relab] at this
    · rcases List.mem_cons.1 h with h | h
      · rw [h]
      · exfalso
        have hxlt := (List.pairwise_cons.1 (List.pairwise_append.1 hasc).2.1).1 _ h
        have hge' : ¬ x.id < q.2.id := by simpa using hge
        exact hge' hxlt

/-- State of the loop. -/
structure SInv (m : DMap D) (done : List (Nat × El D)) (ν : Nat → List Nat) (st : St D) : Prop where
  doms : st.doms = domsOf m done ν
  conv : st.converted = done.map fun q => q.2.id

theorem nbrs_spec (W : WfMesh m) (G : Geo n loc close adj nOld ((visit m).map (·.2))) {done rest : List (Nat × El D)}
    {q : Nat × El D} (hv : visit m = done ++ q :: rest) {ν : Nat → List Nat} {st : St D} (S : SInv m done ν st) {N : Nat}
    (I : PInv n loc nOld (done.map (·.2)) ν N) (l : List Nat) {s : List (Option Nat)} (hs : s.length = n ^ q.2.ty.dim)
    (hcor : ∀ k, k < 2 ^ q.2.ty.dim → ∃ v, s[corner n k]? = some (some v))
    (hok : ∀ (i v : Nat), s[i]? = some (some v) → Correct n loc (done.map (·.2)) ν q.2 i v) :
    ∃ s', l.foldlM (useNbr n loc close m st q.2) s = some s' ∧ s'.length = n ^ q.2.ty.dim ∧
      (∀ (i v : Nat), s[i]? = some (some v) → s'[i]? = some (some v)) ∧
      (∀ (i v : Nat), s'[i]? = some (some v) → Correct n loc (done.map (·.2)) ν q.2 i v) ∧
      (∀ e ∈ done, e.2.id ∈ l → ∀ (i j : Nat), i < n ^ q.2.ty.dim → j < n ^ e.2.ty.dim → pos n loc q.2 i = pos n loc e.2 j → ∃ v, s'[i]? = some (some v)) := by
  have hids : ((visit m).map fun q => q.2.id).Nodup := by
    have := G.ids
    rwa [List.map_map] at this
  have hq : q.2 ∈ (visit m).map (·.2) := List.mem_map.2 ⟨q, by rw [hv]; simp, rfl⟩
  have hdm : ∀ e ∈ done, e.2 ∈ (visit m).map (·.2) := fun e he => List.mem_map.2 ⟨e, by rw [hv]; exact List.mem_append_left _ he, rfl⟩
  have hne : ∀ e ∈ done, e.2.id ≠ q.2.id := by
    intro e he heq
    rw [hv, List.map_append, List.nodup_append] at hids
    exact hids.2.2 _ (List.mem_map.2 ⟨e, he, rfl⟩) q.2.id (by simp) heq
  induction l generalizing s with
  | nil => exact ⟨s, rfl, hs, fun i v h => h, hok, by simp⟩
  | cons a l ih =>
    by_cases ha : a ∈ st.converted
    · rw [S.conv, List.mem_map] at ha
      obtain ⟨e, he, rfl⟩ := ha
      obtain ⟨f1, dom, f2, f3⟩ := lookup_converted W hids (rest := q :: rest) hv ν he
      obtain ⟨s1, g1, g2, g3, g4, g5⟩ := matchNbr_spec G hq (hdm e he) (hne e he)
        (I.len e.2 (List.mem_map.2 ⟨e, he, rfl⟩)) hs hcor
      have hstep : useNbr n loc close m st q.2 s e.2.id = some s1 := by
        rw [useNbr, if_pos (by rw [S.conv]; exact List.mem_map.2 ⟨e, he, rfl⟩), f1, Option.bind_some, S.doms, f2, Option.bind_some, f3, Option.bind_some]
        exact g1
      have hok1 : ∀ (i v : Nat), s1[i]? = some (some v) → Correct n loc (done.map (·.2)) ν q.2 i v := by
        intro i v hv'
        rcases g4 i v hv' with h | ⟨j, hj, hp, rfl⟩
        · exact hok i v h
        · exact Or.inr ⟨e.2, List.mem_map.2 ⟨e, he, rfl⟩, j, hj, hp, rfl⟩
      obtain ⟨s', h1, h2, h3, h4, h5⟩ := ih g2 (fun k hk => by
        obtain ⟨v, hv'⟩ := hcor k hk
        exact ⟨v, g3 _ _ hv'⟩) hok1
      refine ⟨s', ?_, h2, fun i v hv' => h3 i v (g3 i v hv'), h4, ?_⟩
      · rw [List.foldlM_cons, hstep]; exact h1
      · intro e' he' hmem i j hi hj hp
        rcases List.mem_cons.1 hmem with heq | hmem
        · have : e' = e := List.inj_on_of_nodup_map hids (by rw [hv]; exact List.mem_append_left _ he') (by rw [hv]; exact List.mem_append_left _ he) heq
          subst this
          obtain ⟨v, hv'⟩ := g5 i j hi hj hp
          exact ⟨v, h3 _ _ hv'⟩
        · exact h5 e' he' hmem i j hi hj hp
    · have hstep : useNbr n loc close m st q.2 s a = some s := by rw [useNbr, if_neg ha]
      obtain ⟨s', h1, h2, h3, h4, h5⟩ := ih hs hcor hok
      refine ⟨s', ?_, h2, h3, h4, ?_⟩
      · rw [List.foldlM_cons, hstep]; exact h1
      · intro e' he' hmem i j hi hj hp
        rcases List.mem_cons.1 hmem with heq | hmem
        · exact absurd (by rw [S.conv, ← heq]; exact List.mem_map.2 ⟨e', he', rfl⟩) ha
        · exact h5 e' he' hmem i j hi hj hp

/-- A face with at least one free axis has two vertices. -/
theorem face_two (t : ElType) : ∀ F ∈ allFaces t, 1 ≤ free F → ∃ k ∈ List.range (2 ^ t.dim), ∃ l ∈ List.range (2 ^ t.dim), k ≠ l ∧ onFace 2 F k ∧ onFace 2 F l := by
  cases t <;> decide +kernel

theorem step_spec (W : WfMesh m) (G : Geo n loc close adj nOld ((visit m).map (·.2))) {done rest : List (Nat × El D)}
    {q : Nat × El D} (hv : visit m = done ++ q :: rest) {ν : Nat → List Nat} {st : St D} (S : SInv m done ν st)
    (I : PInv n loc nOld (done.map (·.2)) ν st.maxNode) :
    ∃ st' ν', convertElement n loc close m adj st q = some st' ∧ SInv m (done ++ [q]) ν' st' ∧
      PInv n loc nOld ((done ++ [q]).map (·.2)) ν' st'.maxNode := by
  have hids : ((visit m).map fun q => q.2.id).Nodup := by
    have := G.ids
    rwa [List.map_map] at this
  have hq : q.2 ∈ (visit m).map (·.2) := List.mem_map.2 ⟨q, by rw [hv]; simp, rfl⟩
  have hqv : q ∈ visit m := by rw [hv]; simp
  have hdm : ∀ e ∈ done, e.2 ∈ (visit m).map (·.2) := fun e he => List.mem_map.2 ⟨e, by rw [hv]; exact List.mem_append_left _ he, rfl⟩
  have hne : ∀ e ∈ done, e.2.id ≠ q.2.id := by
    intro e he heq
    rw [hv, List.map_append, List.nodup_append] at hids
    exact hids.2.2 _ (List.mem_map.2 ⟨e, he, rfl⟩) q.2.id (by simp) heq
  obtain ⟨s0, a1, a2, a3, a4⟩ := matchVerts_spec G hq
  have hcor0 : ∀ k, k < 2 ^ q.2.ty.dim → ∃ v, s0[corner n k]? = some (some v) := fun k hk => ⟨_, a3 k hk⟩
  have hok0 : ∀ (i v : Nat), s0[i]? = some (some v) → Correct n loc (done.map (·.2)) ν q.2 i v := by
    intro i v hv'
    by_cases hc : ∃ k, k < 2 ^ q.2.ty.dim ∧ i = corner n k
    · obtain ⟨k, hk, rfl⟩ := hc
      rw [a3 k hk] at hv'
      simp only [Option.some.injEq] at hv'
      exact Or.inl ⟨k, hk, rfl, hv'.symm⟩
    · exfalso
      have hi : i < n ^ q.2.ty.dim := by
        obtain ⟨h, _⟩ := List.getElem?_eq_some_iff.1 hv'
        rwa [a2] at h
      rw [a4 i hi (fun k hk e => hc ⟨k, hk, e⟩)] at hv'
      simp at hv'
  obtain ⟨s1, b1, b2, b3, b4, b5⟩ := nbrs_spec W G hv S I (adj q.2.id) a2 hcor0 hok0
  have hcor1 : ∀ k, k < 2 ^ q.2.ty.dim → ∃ v, s1[corner n k]? = some (some v) := fun k hk => by
    obtain ⟨v, hv'⟩ := hcor0 k hk
    exact ⟨v, b3 _ _ hv'⟩
  have hn := G.two
  have hfill : ∀ e ∈ done.map (·.2), ∀ (i j : Nat), i < n ^ q.2.ty.dim → j < n ^ e.ty.dim → pos n loc q.2 i = pos n loc e j → ∃ v, s1[i]? = some (some v) := by
    intro e he i j hi hj hp
    obtain ⟨e, he', rfl⟩ := List.mem_map.1 he
    by_cases hadj : e.2.id ∈ adj q.2.id
    · exact b5 e he' hadj i j hi hj hp
    · -- not a neighbour: only a corner can be shared
      rcases G.conform q.2 hq e.2 (hdm e he') (fun h => hne e he' h.symm) with ⟨_, hno⟩ | ⟨F, F', vm, hd, honly, hall⟩
      · exact absurd hp (hno i j hi hj)
      · by_cases h0 : free F = 0
        · obtain ⟨k, hk, ok⟩ := face_vert _ _ vm.mem1
          rw [List.mem_range] at hk
          have hon := (honly i j hi hj hp).1
          have : i = corner n k := point_unique vm.mem1 h0 hi (corner_lt _ _ _ (by omega) hk) hon (by rw [onFace_corner vm.mem1 hn]; exact ok)
          rw [this]; exact hcor1 k hk
        · exfalso
          apply hadj
          apply G.adj q.2 hq e.2 (hdm e he') (fun h => hne e he' h.symm)
          obtain ⟨k, hk, k', hk', hkk, ok, ok'⟩ := face_two _ _ vm.mem1 (by omega)
          rw [List.mem_range] at hk hk'
          obtain ⟨l, hl, _, e1⟩ := vm.fwd k hk ok
          obtain ⟨l', hl', _, e2⟩ := vm.fwd k' hk' ok'
          exact ⟨k, k', l, l', hk, hk', hkk, hl, hl', e1, e2⟩
  obtain ⟨s', N', c1, c2⟩ := number_step G (done := done.map (·.2)) (fun e he => by
      obtain ⟨e, he', rfl⟩ := List.mem_map.1 he
      exact hdm e he') hq (fun e he => by
      obtain ⟨e, he', rfl⟩ := List.mem_map.1 he
      exact hne e he') I b2 hcor1 b4 hfill
  have hnew : newNodes n loc close m adj st q.2 = some (s'.map (·.getD 0), N') := by
    rw [newNodes, a1, Option.bind_some, b1]
    simp only [Option.map_some, c1]
  obtain ⟨d, hd, hk, he⟩ := mem_visit.1 hqv
  have hlook : st.doms.lookup q.1 = some ⟨d.2.dim, [bv done ν d.1 .hex, bv done ν d.1 .quad, bv done ν d.1 .line]⟩ := by
    rw [S.doms, hk]
    exact map_lookup W.sorted (fun d => (⟨d.2.dim, [bv done ν d.1 .hex, bv done ν d.1 .quad, bv done ν d.1 .line]⟩ : Dom D)) hd
  have hdim := W.dims d hd q.2 he
  set ns := s'.map (·.getD 0) with hns
  have hbvold : ∀ k t, bv done (Function.update ν q.2.id ns) k t = bv done ν k t := by
    intro k t
    rw [bv, bv]
    refine List.map_congr_left fun x hx => ?_
    rw [relab, relab, Function.update_of_ne (hne x (List.mem_filter.1 hx).1)]
  have hbvnew : ∀ k t, bv (done ++ [q]) (Function.update ν q.2.id ns) k t =
      bv done ν k t ++ if q.1 = k ∧ q.2.ty = t then [⟨q.2.ty, q.2.id, ns, q.2.data⟩] else [] := by
    intro k t
    have h1 := hbvold k t
    rw [bv] at h1
    rw [bv, List.filter_append, List.map_append, h1]
    congr 1
    by_cases h : q.1 = k ∧ q.2.ty = t
    · rw [if_pos h, List.filter_cons_of_pos (by simpa using h)]
      simp [relab]
    · rw [if_neg h, List.filter_cons_of_neg (by simpa using h)]
      rfl
  have hemp : emplace (⟨d.2.dim, [bv done ν d.1 .hex, bv done ν d.1 .quad, bv done ν d.1 .line]⟩ : Dom D) ⟨q.2.ty, q.2.id, ns, q.2.data⟩ =
      some ⟨d.2.dim, [bv (done ++ [q]) (Function.update ν q.2.id ns) d.1 .hex, bv (done ++ [q]) (Function.update ν q.2.id ns) d.1 .quad,
        bv (done ++ [q]) (Function.update ν q.2.id ns) d.1 .line]⟩ := by
    rw [emplace, if_neg (by simp [hdim]), hbvnew, hbvnew, hbvnew]
    simp only [hk, true_and]
    cases hty : q.2.ty <;> simp [tyIdx, hdim, hty]
  refine ⟨⟨OMap.upd st.doms q.1 fun _ => ⟨d.2.dim, [bv (done ++ [q]) (Function.update ν q.2.id ns) d.1 .hex, bv (done ++ [q]) (Function.update ν q.2.id ns) d.1 .quad,
        bv (done ++ [q]) (Function.update ν q.2.id ns) d.1 .line]⟩, N', st.converted ++ [q.2.id]⟩, Function.update ν q.2.id ns, ?_, ⟨?_, ?_⟩, ?_⟩
  · rw [convertElement, hnew, Option.bind_some, hlook, Option.bind_some, hemp]
    rfl
  · simp only [S.doms, hk]
    refine map_upd W.sorted (fun d => (⟨d.2.dim, [bv done ν d.1 .hex, bv done ν d.1 .quad, bv done ν d.1 .line]⟩ : Dom D))
      (fun d => (⟨d.2.dim, [bv (done ++ [q]) (Function.update ν q.2.id ns) d.1 .hex, bv (done ++ [q]) (Function.update ν q.2.id ns) d.1 .quad,
        bv (done ++ [q]) (Function.update ν q.2.id ns) d.1 .line]⟩ : Dom D)) hd ?_
    intro d' _ hne'
    have : ∀ t, bv (done ++ [q]) (Function.update ν q.2.id ns) d'.1 t = bv done ν d'.1 t := by
      intro t
      rw [hbvnew, if_neg (by rintro ⟨h, _⟩; exact hne' (by rw [← h, hk])), List.append_nil]
    simp only [this]
  · simp [S.conv]
  · rw [List.map_append]
    exact c2 ns rfl

theorem loop_spec (W : WfMesh m) (G : Geo n loc close adj nOld ((visit m).map (·.2))) (rest done : List (Nat × El D))
    (hv : visit m = done ++ rest) (ν : Nat → List Nat) (st : St D) (S : SInv m done ν st) (I : PInv n loc nOld (done.map (·.2)) ν st.maxNode) :
    ∃ st' ν', rest.foldlM (convertElement n loc close m adj) st = some st' ∧ SInv m (visit m) ν' st' ∧
      PInv n loc nOld ((visit m).map (·.2)) ν' st'.maxNode := by
  induction rest generalizing done ν st with
  | nil =>
    rw [List.append_nil] at hv
    subst hv
    exact ⟨st, ν, rfl, S, I⟩
  | cons q rest ih =>
    obtain ⟨st1, ν1, h1, h2, h3⟩ := step_spec W G hv S I
    obtain ⟨st', ν', g1, g2, g3⟩ := ih (done ++ [q]) (by rw [hv]; simp) ν1 st1 h2 h3
    exact ⟨st', ν', by rw [List.foldlM_cons, h1]; exact g1, g2, g3⟩

/-- The conversion succeeds; the result is the old mesh with node ids `ν`. -/
theorem convert_spec (W : WfMesh m) (G : Geo n loc close adj nOld ((visit m).map (·.2))) :
    ∃ ν N, convert n loc close adj nOld m = some (relabel ν m, N) ∧ PInv n loc nOld ((visit m).map (·.2)) ν N := by
  obtain ⟨st', ν', h1, h2, h3⟩ := loop_spec W G (visit m) [] rfl (fun _ => []) ⟨initDomains m, nOld, []⟩
    ⟨by simp [initDomains, domsOf, bv], rfl⟩ ⟨Nat.le_refl _, by simp, by simp, by simp, by simp, by simp, fun v h1 h2 => absurd h2 (Nat.not_lt.2 h1), by simp⟩
  refine ⟨ν', st'.maxNode, ?_, h3⟩
  rw [convert, h1, Option.map_some, h2.doms, domsOf_end W]
end

end Verif.Convert
