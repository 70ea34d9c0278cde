import Verif.Convert.Step
/-! # Fresh numbers and the node ids of one element -/
namespace Verif.Convert
open Verif Verif.Elem

variable {P D : Type}

theorem fresh_spec (l : List Nat) (s : List (Option Nat)) (N : Nat) (hl : ∀ i ∈ l, i < s.length) :
    ∃ s' N', l.foldl assignFresh (s, N) = (s', N') ∧ s'.length = s.length ∧ N ≤ N' ∧
      (∀ (i v : Nat), s[i]? = some (some v) → s'[i]? = some (some v)) ∧
      (∀ (i : Nat), i ∈ l → ∃ v, s'[i]? = some (some v)) ∧
      (∀ (i v : Nat), s'[i]? = some (some v) → s[i]? = some (some v) ∨ (s[i]? = some none ∧ N ≤ v ∧ v < N')) ∧
      (∀ (i j v : Nat), s[i]? = some none → s[j]? = some none → s'[i]? = some (some v) → s'[j]? = some (some v) → i = j) ∧
      (∀ v, N ≤ v → v < N' → ∃ i : Nat, s[i]? = some none ∧ s'[i]? = some (some v)) := by
  induction l generalizing s N with
  | nil =>
    refine ⟨s, N, rfl, rfl, Nat.le_refl _, fun i v h => h, by simp, fun i v h => Or.inl h, ?_, fun v h1 h2 => by omega⟩
    intro i j v h1 _ h3
    rw [h1] at h3; simp at h3
  | cons a l ih =>
    have ha := hl a (by simp)
    rw [List.foldl_cons]
    by_cases hsa : s.getD a none = none
    · have hsa' : s[a]? = some none := by
        rw [List.getD_eq_getElem?_getD, List.getElem?_eq_getElem ha, Option.getD_some] at hsa
        rw [List.getElem?_eq_getElem ha, hsa]
      have e : assignFresh (s, N) a = (s.set a (some N), N + 1) := by simp only [assignFresh]; rw [if_pos hsa]
      rw [e]
      obtain ⟨s', N', h1, h2, h3, h4, h5, h6, h7, h8⟩ := ih (s.set a (some N)) (N + 1) (fun i hi => by simpa using hl i (by simp [hi]))
      have hset : (s.set a (some N))[a]? = some (some N) := List.getElem?_set_self ha
      have hoth : ∀ i, a ≠ i → (s.set a (some N))[i]? = s[i]? := fun i hi => List.getElem?_set_ne hi
      have hs'a := h4 a N hset
      refine ⟨s', N', h1, by simpa using h2, by omega, ?_, ?_, ?_, ?_, ?_⟩
      · intro i v hv
        apply h4
        rw [hoth i, hv]
        rintro rfl
        rw [hsa'] at hv; simp at hv
      · intro i hi
        rcases List.mem_cons.1 hi with rfl | hi
        · exact ⟨N, hs'a⟩
        · exact h5 i hi
      · intro i v hv
        by_cases hai : a = i
        · subst hai
          rw [hs'a] at hv
          simp only [Option.some.injEq] at hv
          subst hv
          exact Or.inr ⟨hsa', by omega, by omega⟩
        · have := h6 i v hv
          rw [hoth i hai] at this
          rcases this with h | ⟨h, hh, hhh⟩
          · exact Or.inl h
          · exact Or.inr ⟨h, by omega, hhh⟩
      · intro i j v hi hj hvi hvj
        by_cases hai : a = i
        · subst hai
          by_cases haj : a = j
          · exact haj
          · exfalso
            rw [hs'a] at hvi
            simp only [Option.some.injEq] at hvi
            subst hvi
            rcases h6 j _ hvj with h | ⟨_, h, _⟩
            · rw [hoth j haj, hj] at h; simp at h
            · omega
        · by_cases haj : a = j
          · subst haj
            exfalso
            rw [hs'a] at hvj
            simp only [Option.some.injEq] at hvj
            subst hvj
            rcases h6 i _ hvi with h | ⟨_, h, _⟩
            · rw [hoth i hai, hi] at h; simp at h
            · omega
          · exact h7 i j v (by rw [hoth i hai, hi]) (by rw [hoth j haj, hj]) hvi hvj
      · intro v hv1 hv2
        by_cases hvN : v = N
        · subst hvN; exact ⟨a, hsa', hs'a⟩
        · obtain ⟨i, hi, hvi⟩ := h8 v (by omega) hv2
          have hai : a ≠ i := by
            rintro rfl
            rw [hset] at hi; simp at hi
          rw [hoth i hai] at hi
          exact ⟨i, hi, hvi⟩
    · have e : assignFresh (s, N) a = (s, N) := by simp only [assignFresh]; rw [if_neg hsa]
      rw [e]
      obtain ⟨s', N', h1, h2, h3, h4, h5, h6, h7, h8⟩ := ih s N (fun i hi => hl i (by simp [hi]))
      refine ⟨s', N', h1, h2, h3, h4, ?_, h6, h7, h8⟩
      intro i hi
      rcases List.mem_cons.1 hi with rfl | hi
      · rw [List.getD_eq_getElem?_getD, List.getElem?_eq_getElem ha, Option.getD_some] at hsa
        obtain ⟨v, hv⟩ := Option.ne_none_iff_exists'.1 hsa
        exact ⟨v, h4 i v (by rw [List.getElem?_eq_getElem ha, hv])⟩
      · exact h5 i hi

/-- Every node index occurs among the boundary or the internal ones. -/
theorem fresh_other (l : List Nat) (s : List (Option Nat)) (N i : Nat) (hi : i ∉ l) : (l.foldl assignFresh (s, N)).1[i]? = s[i]? := by
  induction l generalizing s N with
  | nil => rfl
  | cons a l ih =>
    simp only [List.mem_cons, not_or] at hi
    rw [List.foldl_cons]
    by_cases hc : s.getD a none = none
    · rw [show assignFresh (s, N) a = (s.set a (some N), N + 1) from if_pos hc, ih _ _ hi.2, List.getElem?_set_ne (Ne.symm hi.1)]
    · rw [show assignFresh (s, N) a = (s, N) from if_neg hc]
      exact ih _ _ hi.2

theorem fresh_consec (l : List Nat) (s : List (Option Nat)) (N : Nat) (hnd : l.Nodup) (hs : ∀ i ∈ l, s[i]? = some none) :
    ∀ k (hk : k < l.length), (l.foldl assignFresh (s, N)).1[l[k]]? = some (some (N + k)) := by
  induction l generalizing s N with
  | nil => intro k hk; simp at hk
  | cons a l ih =>
    rw [List.nodup_cons] at hnd
    have ha := hs a (by simp)
    have hstep : assignFresh (s, N) a = (s.set a (some N), N + 1) := by
      unfold assignFresh
      rw [if_pos (by simp [List.getD_eq_getElem?_getD, ha])]
    intro k hk
    rw [List.foldl_cons, hstep]
    cases k with
    | zero =>
      rw [List.getElem_cons_zero, fresh_other _ _ _ _ hnd.1, List.getElem?_set_self (List.getElem?_eq_some_iff.1 ha).1]
      rfl
    | succ k =>
      rw [List.getElem_cons_succ]
      rw [ih _ _ hnd.2 (fun i hi => ?_) k (by simpa using hk)]
      · congr 2; omega
      · rw [List.getElem?_set_ne (fun h => hnd.1 (by rw [h]; exact hi))]
        exact hs i (by simp [hi])

theorem inds_cover (t : ElType) (n i : Nat) (hb : n ^ t.dim < 2 ^ 16) (hi : i < n ^ t.dim) : i ∈ boundaryInds t n ∨ i ∈ internalInds t n := by
  by_cases h : i ∈ boundaryInds t n
  · exact Or.inl h
  · right
    rw [internalInds, List.mem_filter, List.mem_range, nNodes_eq t n hb]
    refine ⟨hi, ?_⟩
    have hs : (boundaryInds t n).Pairwise (· ≤ ·) := (Std.sortUniq_strict _).imp (fun {a b} h => Nat.le_of_lt h)
    have := Std.binarySearch_iff hs i
    cases hc : Std.binarySearch (boundaryInds t n) i
    · rfl
    · exact absurd (this.1 hc) h

theorem inds_lt (t : ElType) (n i : Nat) (hn : 1 ≤ n) (hb : n ^ t.dim < 2 ^ 16) (hi : i ∈ boundaryInds t n ∨ i ∈ internalInds t n) : i < n ^ t.dim := by
  rcases hi with h | h
  · rw [boundaryInds, Std.mem_sortUniq, List.mem_flatten] at h
    obtain ⟨l, hl, hil⟩ := h
    obtain ⟨s, hs⟩ := List.mem_iff_getElem?.1 hl
    have hslt : s < nSides t := by
      obtain ⟨h, _⟩ := List.getElem?_eq_some_iff.1 hs
      rwa [table_length] at h
    have := side_eq_layer t n s hn hb hslt
    rw [sideNodeInds, hs] at this
    simp only [Option.some.injEq] at this
    rw [this] at hil
    exact (mem_layer.1 hil).1
  · rw [internalInds, List.mem_filter, List.mem_range, nNodes_eq t n hb] at h
    exact h.1

/-- State of the numbering after the elements `done` have been converted; `ν id` are the node ids of the
element. -/
structure PInv (n : Nat) (loc : Loc P D) (nOld : Nat) (done : List (El D)) (ν : Nat → List Nat) (N : Nat) : Prop where
  le : nOld ≤ N
  len : ∀ e ∈ done, (ν e.id).length = n ^ e.ty.dim
  corner : ∀ e ∈ done, ∀ k, k < 2 ^ e.ty.dim → (ν e.id).getD (corner n k) 0 = e.nodes.getD k 0
  ge : ∀ e ∈ done, ∀ j, j < n ^ e.ty.dim → (ν e.id).getD j 0 < nOld → ∃ k, k < 2 ^ e.ty.dim ∧ j = Convert.corner n k
  lt : ∀ e ∈ done, ∀ j, j < n ^ e.ty.dim → (ν e.id).getD j 0 < N
  iff : ∀ e ∈ done, ∀ e' ∈ done, ∀ i j, i < n ^ e.ty.dim → j < n ^ e'.ty.dim →
    ((ν e.id).getD i 0 = (ν e'.id).getD j 0 ↔ pos n loc e i = pos n loc e' j)
  used : ∀ v, nOld ≤ v → v < N → ∃ e ∈ done, v ∈ ν e.id
  cons : ∀ e ∈ done, (∀ i ∈ internalInds e.ty n, (∀ k, k < 2 ^ e.ty.dim → i ≠ Convert.corner n k) ∧
    ∀ e' ∈ done, e'.id ≠ e.id → ∀ j, j < n ^ e'.ty.dim → pos n loc e i ≠ pos n loc e' j) →
    ∃ M, ∀ k (hk : k < (internalInds e.ty n).length), (ν e.id).getD (internalInds e.ty n)[k] 0 = M + k

/-- Slots of element `el` hold correct values: old ids at corners, ids of converted elements at the same
position elsewhere. -/
def Correct (n : Nat) (loc : Loc P D) (done : List (El D)) (ν : Nat → List Nat) (el : El D) (i v : Nat) : Prop :=
  (∃ k, k < 2 ^ el.ty.dim ∧ i = corner n k ∧ v = el.nodes.getD k 0) ∨
  (∃ e ∈ done, ∃ j, j < n ^ e.ty.dim ∧ pos n loc el i = pos n loc e j ∧ v = (ν e.id).getD j 0)

section
variable {n : Nat} {loc : Loc P D} {close : P → P → Bool} {adj : Nat → List Nat} {nOld : Nat} {els : List (El D)}

/-- Numbering one more element: given correct slots in which the corners and every position shared with a
converted element are filled. -/
theorem number_step (G : Geo n loc close adj nOld els) {done : List (El D)} (hdone : ∀ e ∈ done, e ∈ els) {el : El D} (hel : el ∈ els)
    (hnew : ∀ e ∈ done, e.id ≠ el.id) {ν : Nat → List Nat} {N : Nat} (I : PInv n loc nOld done ν N)
    {s : List (Option Nat)} (hs : s.length = n ^ el.ty.dim) (hcor : ∀ k, k < 2 ^ el.ty.dim → ∃ v, s[corner n k]? = some (some v))
    (hok : ∀ (i v : Nat), s[i]? = some (some v) → Correct n loc done ν el i v)
    (hfill : ∀ e ∈ done, ∀ (i j : Nat), i < n ^ el.ty.dim → j < n ^ e.ty.dim → pos n loc el i = pos n loc e j → ∃ v, s[i]? = some (some v)) :
    ∃ s' N', (internalInds el.ty n).foldl assignFresh ((boundaryInds el.ty n).foldl assignFresh (s, N)) = (s', N') ∧
      ∀ ns, ns = s'.map (·.getD 0) → PInv n loc nOld (done ++ [el]) (Function.update ν el.id ns) N' := by
  have hn := G.two
  have hb := G.bound el hel
  have hw := G.wf el hel
  have hdim8 : ∀ e : El D, 2 ^ e.ty.dim ≤ 8 := fun e => by cases e.ty <;> decide
  obtain ⟨s', N', h1, h2, h3, h4, h5, h6, h7, h8⟩ := fresh_spec (boundaryInds el.ty n ++ internalInds el.ty n) s N
    (fun i hi => by rw [hs]; exact inds_lt _ _ _ (by omega) hb (List.mem_append.1 hi))
  rw [List.foldl_append] at h1
  refine ⟨s', N', h1, fun ns hns => ?_⟩
  have hlen : ns.length = n ^ el.ty.dim := by rw [hns, List.length_map, h2, hs]
  have hget : ∀ i, i < n ^ el.ty.dim → s'[i]? = some (some (ns.getD i 0)) := by
    intro i hi
    obtain ⟨v, hv⟩ := h5 i (List.mem_append.2 (inds_cover _ _ _ hb hi))
    rw [hv, hns, List.getD_eq_getElem?_getD, List.getElem?_map, hv]
    rfl
  have hcase : ∀ i, i < n ^ el.ty.dim → (s[i]? = some (some (ns.getD i 0)) ∧ Correct n loc done ν el i (ns.getD i 0)) ∨
      (s[i]? = some none ∧ N ≤ ns.getD i 0 ∧ ns.getD i 0 < N') := by
    intro i hi
    rcases h6 i _ (hget i hi) with h | h
    · exact Or.inl ⟨h, hok i _ h⟩
    · exact Or.inr h
  have holdk : ∀ e ∈ els, ∀ k, k < 2 ^ e.ty.dim → e.nodes.getD k 0 < nOld := by
    intro e he k hk
    rw [← (G.wf e he).len] at hk
    rw [List.getD_eq_getElem?_getD, List.getElem?_eq_getElem hk]
    exact G.old e he _ (List.getElem_mem hk)
  have hcorner : ∀ k, k < 2 ^ el.ty.dim → ns.getD (Convert.corner n k) 0 = el.nodes.getD k 0 := by
    intro k hk
    have hlt := corner_lt el.ty n k (by omega) hk
    obtain ⟨v, hv⟩ := hcor k hk
    have := h4 _ _ hv
    rw [hget _ hlt] at this
    simp only [Option.some.injEq] at this
    rw [this]
    rcases hok _ _ hv with ⟨k', hk', e, rfl⟩ | ⟨e, he, j, hj, hp, rfl⟩
    · have h8' := hdim8 el
      rw [corner_inj hn (by omega) (by omega) e]
    · obtain ⟨l, hl, rfl, hid⟩ := G.vcorner el hel e (hdone e he) k j hk hj hp
      rw [I.corner e he l hl, hid]
  -- equal ids iff equal positions, against a converted element
  have hiff : ∀ e ∈ done, ∀ i j, i < n ^ el.ty.dim → j < n ^ e.ty.dim → (ns.getD i 0 = (ν e.id).getD j 0 ↔ pos n loc el i = pos n loc e j) := by
    intro e he i j hi hj
    constructor
    · intro heq
      rcases hcase i hi with ⟨_, hc⟩ | ⟨_, hge, _⟩
      · rcases hc with ⟨k, hk, rfl, hv⟩ | ⟨e', he', j', hj', hp, hv⟩
        · have hlt := holdk el hel k hk
          rw [← hv, heq] at hlt
          obtain ⟨l, hl, rfl⟩ := I.ge e he j hj hlt
          apply G.vpos el hel e (hdone e he) k l hk hl
          rw [← hv, heq, I.corner e he l hl]
        · rw [hp]
          rw [heq] at hv
          exact (I.iff e' he' e he j' j hj' hj).1 hv.symm
      · have := I.lt e he j hj
        omega
    · intro hp
      obtain ⟨v, hv⟩ := hfill e he i j hi hj hp
      rcases hcase i hi with ⟨_, hc⟩ | ⟨hnone, _⟩
      · rcases hc with ⟨k, hk, rfl, hv⟩ | ⟨e', he', j', hj', hp', hv⟩
        · obtain ⟨l, hl, rfl, hid⟩ := G.vcorner el hel e (hdone e he) k j hk hj hp
          rw [hv, I.corner e he l hl, hid]
        · rw [hv]
          exact (I.iff e' he' e he j' j hj' hj).2 (by rw [← hp', hp])
      · rw [hv] at hnone; simp at hnone
  have hltN' : ∀ i, i < n ^ el.ty.dim → ns.getD i 0 < N' := by
    intro i hi
    rcases hcase i hi with ⟨_, hc⟩ | ⟨_, _, h⟩
    · rcases hc with ⟨k, hk, rfl, hv⟩ | ⟨e', he', j', hj', hp', hv⟩
      · have := holdk el hel k hk; have := I.le; omega
      · have := I.lt e' he' j' hj'; omega
    · exact h
  have hself : ∀ i j, i < n ^ el.ty.dim → j < n ^ el.ty.dim → ns.getD i 0 = ns.getD j 0 → i = j := by
    intro i j hi hj heq
    have viaDone : ∀ i j, i < n ^ el.ty.dim → j < n ^ el.ty.dim → ns.getD i 0 = ns.getD j 0 →
        (∃ e ∈ done, ∃ j', j' < n ^ e.ty.dim ∧ pos n loc el j = pos n loc e j' ∧ ns.getD j 0 = (ν e.id).getD j' 0) → i = j := by
      rintro i j hi hj heq ⟨e, he, j', hj', hp, hv⟩
      apply G.inj el hel i j hi hj
      rw [hp]
      exact (hiff e he i j' hi hj').1 (by rw [heq, hv])
    rcases hcase i hi with ⟨hsi, hc⟩ | ⟨hsi, hgi, _⟩
    · rcases hc with ⟨k, hk, rfl, hv⟩ | hd
      · rcases hcase j hj with ⟨hsj, hc'⟩ | ⟨hsj, hgj, _⟩
        · rcases hc' with ⟨k', hk', rfl, hv'⟩ | hd
          · rw [hw.inj hk hk' (by rw [← hv, ← hv', heq])]
          · exact viaDone _ _ hi hj heq hd
        · have := holdk el hel k hk; have := I.le; omega
      · exact (viaDone _ _ hj hi heq.symm hd).symm
    · rcases hcase j hj with ⟨hsj, hc'⟩ | ⟨hsj, hgj, _⟩
      · rcases hc' with ⟨k', hk', rfl, hv'⟩ | ⟨e, he, j', hj', hp, hv⟩
        · have := holdk el hel k' hk'; have := I.le; omega
        · have := I.lt e he j' hj'; omega
      · exact h7 i j _ hsi hsj (hget i hi) (by rw [hget j hj, heq])
  have hup : ∀ e ∈ done, Function.update ν el.id ns e.id = ν e.id := fun e he => Function.update_of_ne (hnew e he) _ _
  have hupel : Function.update ν el.id ns el.id = ns := Function.update_self _ _ _
  refine ⟨by have := I.le; omega, ?_, ?_, ?_, ?_, ?_, ?_, ?_⟩
  · intro e he
    rcases List.mem_append.1 he with he | he
    · rw [hup e he]; exact I.len e he
    · rw [List.mem_singleton.1 he, hupel]; exact hlen
  · intro e he
    rcases List.mem_append.1 he with he | he
    · rw [hup e he]; exact I.corner e he
    · rw [List.mem_singleton.1 he, hupel]; exact hcorner
  · intro e he j hj hlt
    rcases List.mem_append.1 he with he | he
    · rw [hup e he] at hlt; exact I.ge e he j hj hlt
    · rw [List.mem_singleton.1 he] at hj ⊢
      rw [List.mem_singleton.1 he, hupel] at hlt
      rcases hcase j hj with ⟨_, hc⟩ | ⟨_, hge, _⟩
      · rcases hc with ⟨k, hk, rfl, hv⟩ | ⟨e', he', j', hj', hp', hv⟩
        · exact ⟨k, hk, rfl⟩
        · rw [hv] at hlt
          obtain ⟨l, hl, rfl⟩ := I.ge e' he' j' hj' hlt
          obtain ⟨k, hk, e, _⟩ := G.vcorner e' (hdone e' he') el hel l j hl hj hp'.symm
          exact ⟨k, hk, e⟩
      · have := I.le; omega
  · intro e he j hj
    rcases List.mem_append.1 he with he | he
    · rw [hup e he]; have := I.lt e he j hj; omega
    · rw [List.mem_singleton.1 he] at hj ⊢
      rw [hupel]; exact hltN' j hj
  · intro e he e' he' i j hi hj
    rcases List.mem_append.1 he with he | he <;> rcases List.mem_append.1 he' with he' | he'
    · rw [hup e he, hup e' he']; exact I.iff e he e' he' i j hi hj
    · rw [List.mem_singleton.1 he'] at hj ⊢
      rw [hup e he, hupel, eq_comm, hiff e he j i hj hi, eq_comm]
    · rw [List.mem_singleton.1 he] at hi ⊢
      rw [hup e' he', hupel, hiff e' he' i j hi hj]
    · rw [List.mem_singleton.1 he] at hi ⊢
      rw [List.mem_singleton.1 he'] at hj ⊢
      rw [hupel]
      constructor
      · intro h; rw [hself i j hi hj h]
      · intro h; rw [G.inj el hel i j hi hj h]
  · intro v hv1 hv2
    rcases Nat.lt_or_ge v N with h | h
    · obtain ⟨e, he, hm⟩ := I.used v hv1 h
      exact ⟨e, List.mem_append_left _ he, by rw [hup e he]; exact hm⟩
    · obtain ⟨i, _, hi⟩ := h8 v h hv2
      refine ⟨el, by simp, ?_⟩
      rw [hupel, hns, List.mem_map]
      exact ⟨some v, List.mem_of_getElem? hi, rfl⟩
  · intro e he hfree
    rcases List.mem_append.1 he with he | he
    · rw [hup e he]
      exact I.cons e he fun i hi => ⟨(hfree i hi).1, fun e' he' => (hfree i hi).2 e' (List.mem_append_left _ he')⟩
    · obtain rfl := List.mem_singleton.1 he
      rw [hupel]
      have hnone : ∀ i ∈ internalInds e.ty n, s[i]? = some none := by
        intro i hi
        have hlt := inds_lt _ _ _ (by omega) hb (Or.inr hi)
        have hg : s[i]? = some (s[i]'(by rw [hs]; exact hlt)) := List.getElem?_eq_getElem _
        cases hv : s[i]'(by rw [hs]; exact hlt) with
        | none => rw [hg, hv]
        | some v =>
          rw [hv] at hg
          rcases hok i v hg with ⟨k, hk, e1, _⟩ | ⟨e', he', j, hj, hp, _⟩
          · exact absurd e1 ((hfree i hi).1 k hk)
          · exact absurd hp ((hfree i hi).2 e' (List.mem_append_left _ he') (hnew e' he') j hj)
      have hdis : ∀ i ∈ internalInds e.ty n, i ∉ boundaryInds e.ty n := by
        intro i hi hbi
        have hss : (boundaryInds e.ty n).Pairwise (· ≤ ·) := (Std.sortUniq_strict _).imp (fun {a b} h => Nat.le_of_lt h)
        have h1 := (List.mem_filter.1 hi).2
        rw [(Std.binarySearch_iff hss i).2 hbi] at h1
        simp at h1
      have hcons := fresh_consec (internalInds e.ty n) ((boundaryInds e.ty n).foldl assignFresh (s, N)).1 ((boundaryInds e.ty n).foldl assignFresh (s, N)).2
        (List.nodup_range.filter _) (fun i hi => by rw [fresh_other _ _ _ _ (hdis i hi)]; exact hnone i hi)
      refine ⟨((boundaryInds e.ty n).foldl assignFresh (s, N)).2, fun k hk => ?_⟩
      have := hcons k hk
      rw [show (((boundaryInds e.ty n).foldl assignFresh (s, N)).1, ((boundaryInds e.ty n).foldl assignFresh (s, N)).2) = (boundaryInds e.ty n).foldl assignFresh (s, N) from rfl, h1] at this
      rw [hns, List.getD_eq_getElem?_getD, List.getElem?_map, this]
      rfl
end

end Verif.Convert
