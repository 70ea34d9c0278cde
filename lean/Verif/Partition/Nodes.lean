import Verif.Partition.Model
import Verif.Algo.Props
import Verif.Split.Props

/-! # Property C28: owners of the nodes and new node numbers -/
namespace Verif.Partition
open Verif Verif.Elem Verif.Mesh

/-! ## Claiming -/

theorem tryClaim_fold (d : List Nat) (hd : d.Nodup) (g c r : List Nat) (hg : g.Pairwise (· < ·)) :
    d.foldl tryClaim (g, c, r) =
      (g.filter fun x => decide (x ∉ d), c ++ d.filter fun x => decide (x ∈ g), r ++ d.filter fun x => decide (x ∉ g)) := by
  induction d generalizing g c r with
  | nil => simp
  | cons x d ih =>
    rw [List.nodup_cons] at hd
    rw [List.foldl_cons, show tryClaim (g, c, r) x = if g[Std.lowerBound g x]? = some x then (g.eraseIdx (Std.lowerBound g x), c ++ [x], r)
      else (g, c, r ++ [x]) from rfl]
    have hiff := Std.mem_iff_lowerBound hg x
    by_cases hx : x ∈ g
    · rw [if_pos (hiff.1 hx)]
      have her : g.eraseIdx (Std.lowerBound g x) = g.filter fun y => decide (y ≠ x) := by
        obtain ⟨hlt, heq⟩ := List.getElem?_eq_some_iff.1 (hiff.1 hx)
        have h1 := List.Nodup.erase_eq_filter (Std.nodup_of_strict hg) x
        have h2 : g.erase x = g.eraseIdx (Std.lowerBound g x) := by
          have := List.Nodup.erase_getElem (l := g) (Std.nodup_of_strict hg) (Std.lowerBound g x) hlt
          rw [heq] at this; exact this
        rw [← h2, h1]
        exact List.filter_congr fun y _ => by by_cases h : y = x <;> simp [h]
      rw [her, ih hd.2 _ _ _ (hg.filter _)]
      refine Prod.ext ?_ (Prod.ext ?_ ?_)
      · simp only [List.filter_filter]
        exact List.filter_congr fun y _ => by simp [not_or, Bool.and_comm]
      · simp only [List.filter_cons, hx, decide_true, if_true, List.append_assoc, List.singleton_append]
        congr 2
        refine List.filter_congr fun y hy => ?_
        have : y ≠ x := fun h => hd.1 (h ▸ hy)
        simp [this]
      · simp only [List.filter_cons, hx, not_true_eq_false, decide_false, Bool.false_eq_true, if_false]
        congr 1
        refine List.filter_congr fun y hy => ?_
        have : y ≠ x := fun h => hd.1 (h ▸ hy)
        simp [this]
    · rw [if_neg (fun h => hx (hiff.2 h)), ih hd.2 _ _ _ hg]
      refine Prod.ext ?_ (Prod.ext ?_ ?_)
      · simp only
        refine List.filter_congr fun y hy => ?_
        have : y ≠ x := fun h => hx (h ▸ hy)
        simp [this]
      · simp [List.filter_cons, hx]
      · simp [List.filter_cons, hx]

theorem claim_spec (o g d : List Nat) (hd : d.Nodup) (ho : o.Pairwise (· < ·)) (hg : g.Pairwise (· < ·)) (hog : ∀ x ∈ o, x ∉ g) :
    let r := claim (o, g) d
    r.1.1.Pairwise (· < ·) ∧ r.1.2.Pairwise (· < ·) ∧ (∀ x, x ∈ r.1.1 ↔ x ∈ o ∨ (x ∈ d ∧ x ∈ g)) ∧
    (∀ x, x ∈ r.1.2 ↔ x ∈ g ∧ x ∉ d) ∧ r.2 = d.filter fun x => decide (x ∉ g) := by
  have hf := tryClaim_fold d hd g [] [] hg
  simp only [List.nil_append] at hf
  simp only [claim, hf]
  have hc : (d.filter fun x => decide (x ∈ g)).Nodup := hd.filter _
  have hperm := List.merge_perm_append (le := fun a b : Nat => decide (a ≤ b)) (xs := o) (ys := Std.sort (d.filter fun x => decide (x ∈ g)))
  have hmem : ∀ x, x ∈ List.merge o (Std.sort (d.filter fun x => decide (x ∈ g))) ↔ x ∈ o ∨ (x ∈ d ∧ x ∈ g) := by
    intro x
    rw [hperm.mem_iff, List.mem_append, Std.mem_sort, List.mem_filter, decide_eq_true_eq]
  refine ⟨?_, hg.filter _, hmem, fun x => by simp [List.mem_filter], trivial⟩
  have hnd : (List.merge o (Std.sort (d.filter fun x => decide (x ∈ g)))).Nodup := by
    rw [hperm.nodup_iff, List.nodup_append]
    refine ⟨Std.nodup_of_strict ho, Std.sort_nodup hc, fun a ha b hb hab => ?_⟩
    rw [Std.mem_sort, List.mem_filter, decide_eq_true_eq] at hb
    exact hog a ha (hab ▸ hb.2)
  have hs := List.pairwise_merge (le := fun a b : Nat => decide (a ≤ b)) (l₁ := o) (l₂ := Std.sort (d.filter fun x => decide (x ∈ g)))
    (fun a b c h1 h2 => by simp only [decide_eq_true_eq] at *; omega)
    (fun a b => by simp only [Bool.or_eq_true, decide_eq_true_eq]; omega)
    (ho.imp fun h => by simpa using le_of_lt h) ((Std.sort_sorted _).imp fun h => by simpa using h)
  exact Std.lt_of_le_nodup (hs.imp fun h => by simpa using h) hnd

/-- What is assumed about the first assignment: sorted, owned and ghost disjoint. -/
structure Good (p : List Nat × List Nat) : Prop where
  owned : p.1.Pairwise (· < ·)
  ghost : p.2.Pairwise (· < ·)
  disj : ∀ x ∈ p.1, x ∉ p.2

theorem reassign_spec (ps : List (List Nat × List Nat)) (d : List Nat) (hd : d.Nodup) (hg : ∀ p ∈ ps, Good p) :
    let r := reassign ps d
    r.1.length = ps.length ∧ r.2 = d.filter (fun x => decide (∀ p ∈ ps, x ∉ p.2)) ∧
    ∀ (i : Nat) (p q : List Nat × List Nat), ps[i]? = some p → r.1[i]? = some q →
      q.1.Pairwise (· < ·) ∧ q.2.Pairwise (· < ·) ∧
      (∀ x, x ∈ q.1 ↔ x ∈ p.1 ∨ (x ∈ d ∧ x ∈ p.2 ∧ ∀ (j : Nat) (p' : List Nat × List Nat), j < i → ps[j]? = some p' → x ∉ p'.2)) ∧
      (∀ x, x ∈ q.2 ↔ x ∈ p.2 ∧ ¬ (x ∈ d ∧ ∀ (j : Nat) (p' : List Nat × List Nat), j < i → ps[j]? = some p' → x ∉ p'.2)) := by
  induction ps generalizing d with
  | nil =>
    refine ⟨rfl, ?_, fun i p q hp => by simp at hp⟩
    simp [reassign]
  | cons p0 ps ih =>
    obtain ⟨g1, g2, g3⟩ := hg p0 (by simp)
    obtain ⟨c1, c2, c3, c4, c5⟩ := claim_spec p0.1 p0.2 d hd g1 g2 g3
    rw [show (p0.1, p0.2) = p0 from rfl] at c1 c2 c3 c4 c5
    obtain ⟨h1, h2, h3⟩ := ih (claim p0 d).2 (by rw [c5]; exact hd.filter _) (fun p hp => hg p (by simp [hp]))
    simp only [reassign]
    refine ⟨by simp [h1], ?_, fun i p q hp hq => ?_⟩
    · rw [h2, c5, List.filter_filter]
      refine List.filter_congr fun x _ => ?_
      rw [Bool.eq_iff_iff]
      simp only [Bool.and_eq_true, decide_eq_true_eq, List.mem_cons, forall_eq_or_imp]
      tauto
    · cases i with
      | zero =>
        simp only [List.getElem?_cons_zero, Option.some.injEq] at hp hq
        subst hp; subst hq
        refine ⟨c1, c2, fun x => ?_, fun x => ?_⟩
        · rw [c3]; simp
        · rw [c4]; simp
      | succ i =>
        simp only [List.getElem?_cons_succ] at hp hq
        obtain ⟨a1, a2, a3, a4⟩ := h3 i p q hp hq
        have hj : ∀ x, (x ∈ (claim p0 d).2 ∧ ∀ (j : Nat) (p' : List Nat × List Nat), j < i → ps[j]? = some p' → x ∉ p'.2) ↔
            (x ∈ d ∧ ∀ (j : Nat) (p' : List Nat × List Nat), j < i + 1 → (p0 :: ps)[j]? = some p' → x ∉ p'.2) := by
          intro x
          rw [c5, List.mem_filter, decide_eq_true_eq]
          constructor
          · rintro ⟨⟨h1, h2⟩, h3⟩
            refine ⟨h1, fun j p' hj hp' => ?_⟩
            cases j with
            | zero => simp only [List.getElem?_cons_zero, Option.some.injEq] at hp'; subst hp'; exact h2
            | succ j => exact h3 j p' (by omega) (by simpa using hp')
          · rintro ⟨h1, h2⟩
            exact ⟨⟨h1, h2 0 p0 (by omega) rfl⟩, fun j p' hj hp' => h2 (j + 1) p' (by omega) (by simpa using hp')⟩
        refine ⟨a1, a2, fun x => ?_, fun x => ?_⟩
        · rw [a3 x]
          have := hj x
          constructor
          · rintro (h | ⟨h, h', h''⟩)
            · exact Or.inl h
            · have := this.1 ⟨h, h''⟩; exact Or.inr ⟨this.1, h', this.2⟩
          · rintro (h | ⟨h, h', h''⟩)
            · exact Or.inl h
            · have := this.2 ⟨h, h''⟩; exact Or.inr ⟨this.1, h', this.2⟩
        · rw [a4 x, hj x]

/-- What the code relies on: the labels are part numbers, one per node, and every node is in some
element. -/
structure NodesOk (npart : List Nat) (maps : List DomMap) : Prop where
  label : ∀ p ∈ npart, p < maps.length
  bound : ∀ m ∈ maps, ∀ x ∈ partNodes m, x < npart.length
  cover : ∀ x, x < npart.length → ∃ m ∈ maps, x ∈ partNodes m

theorem mem_partNodes {m : DomMap} {x : Nat} : x ∈ partNodes m ↔ NodeIn m x := by
  unfold partNodes NodeIn Holds Domain.elems
  simp only [List.mem_flatMap, List.mem_flatten]
  constructor
  · rintro ⟨d, hd, e, ⟨v, hv, he⟩, hx⟩; exact ⟨e, ⟨d, hd, v, hv, he⟩, hx⟩
  · rintro ⟨e, ⟨d, hd, v, hv, he⟩, hx⟩; exact ⟨d, hd, e, ⟨v, hv, he⟩, hx⟩

theorem ownGhost_good (npart : List Nat) (m : DomMap) (p : Nat) : Good (ownGhost npart m p) := by
  refine ⟨Std.sortUniq_strict _, Std.sortUniq_strict _, fun x hx hx' => ?_⟩
  unfold ownGhost at hx hx'
  simp only [Std.mem_sortUniq, List.mem_filter] at hx hx'
  rw [hx.2] at hx'; simp at hx'

theorem assignNodes_spec {npart : List Nat} {maps : List DomMap} (h : NodesOk npart maps) :
    ∃ L, assignNodes npart maps = some L ∧ L.length = maps.length ∧
      (∀ q ∈ L, q.1.Pairwise (· < ·) ∧ q.2.Pairwise (· < ·)) ∧
      (∀ x, x < npart.length → ∃ (i : Nat) (q : List Nat × List Nat), L[i]? = some q ∧ x ∈ q.1) ∧
      (∀ (i j : Nat) (q q' : List Nat × List Nat) x, L[i]? = some q → L[j]? = some q' → x ∈ q.1 → x ∈ q'.1 → i = j) ∧
      (∀ (i : Nat) (q : List Nat × List Nat) (m : DomMap), L[i]? = some q → maps[i]? = some m →
        (∀ x ∈ q.1, x ∈ partNodes m) ∧ (∀ x, x ∈ q.2 ↔ x ∈ partNodes m ∧ x ∉ q.1) ∧
        (∀ x ∈ partNodes m, npart[x]? = some i → x ∈ q.1)) := by
  set og := maps.zipIdx.map fun m => ownGhost npart m.1 m.2 with hog
  have hogl : og.length = maps.length := by simp [hog]
  have hogi : ∀ (i : Nat) (m : DomMap), maps[i]? = some m → og[i]? = some (ownGhost npart m i) := by
    intro i m hm
    rw [hog, List.getElem?_map, List.getElem?_zipIdx, hm]; simp
  set dis := (og.zipIdx.map fun p => disjointOf npart p.1.1 p.2).flatten with hdis
  have hmdis : ∀ x, x ∈ dis ↔ ∃ (i : Nat) (m : DomMap), maps[i]? = some m ∧ npart[x]? = some i ∧ x ∉ partNodes m := by
    intro x
    rw [hdis, List.mem_flatten]
    constructor
    · rintro ⟨l, hl, hx⟩
      obtain ⟨⟨q, i⟩, hp, rfl⟩ := List.mem_map.1 hl
      rw [List.mem_zipIdx_iff_getElem?] at hp
      simp only at hp
      have hi : i < maps.length := by rw [← hogl]; exact (List.getElem?_eq_some_iff.1 hp).1
      have hmi : maps[i]? = some maps[i] := List.getElem?_eq_getElem hi
      have := hogi i _ hmi
      rw [hp] at this
      simp only [Option.some.injEq] at this
      subst this
      simp only [disjointOf, ownGhost, List.mem_filter, List.mem_range, Bool.and_eq_true, beq_iff_eq, Bool.not_eq_true', decide_eq_false_iff_not,
        Std.mem_sortUniq, not_and] at hx
      exact ⟨i, _, hmi, hx.2.1, fun h => hx.2.2 h hx.2.1⟩
    · rintro ⟨i, m, hm, hx, hn⟩
      refine ⟨disjointOf npart (ownGhost npart m i).1 i, List.mem_map.2 ⟨(ownGhost npart m i, i), ?_, rfl⟩, ?_⟩
      · rw [List.mem_zipIdx_iff_getElem?]; exact hogi i m hm
      · simp only [disjointOf, ownGhost, List.mem_filter, List.mem_range, Bool.and_eq_true, beq_iff_eq, Bool.not_eq_true', decide_eq_false_iff_not,
          Std.mem_sortUniq, not_and]
        exact ⟨(List.getElem?_eq_some_iff.1 hx).1, hx, fun h => absurd h hn⟩
  have hdnd : dis.Nodup := by
    rw [hdis, List.nodup_flatten]
    constructor
    · intro l hl
      obtain ⟨p, _, rfl⟩ := List.mem_map.1 hl
      exact List.Nodup.filter _ List.nodup_range
    · rw [List.pairwise_map, List.pairwise_iff_getElem]
      intro i j hi hj hij x hx hx'
      simp only [List.getElem_zipIdx, disjointOf, List.mem_filter, Bool.and_eq_true, beq_iff_eq] at hx hx'
      have := hx.2.1.symm.trans hx'.2.1
      simp at this; omega
  have hgood : ∀ p ∈ og, Good p := by
    intro p hp
    obtain ⟨m, _, rfl⟩ := List.mem_map.1 hp
    exact ownGhost_good _ _ _
  obtain ⟨r1, r2, r3⟩ := reassign_spec og dis hdnd hgood
  -- membership in the initial lists
  have mo : ∀ (m : DomMap) i x, x ∈ (ownGhost npart m i).1 ↔ x ∈ partNodes m ∧ npart[x]? = some i := by
    intro m i x; simp [ownGhost, Std.mem_sortUniq, List.mem_filter]
  have mg : ∀ (m : DomMap) i x, x ∈ (ownGhost npart m i).2 ↔ x ∈ partNodes m ∧ npart[x]? ≠ some i := by
    intro m i x; simp [ownGhost, Std.mem_sortUniq, List.mem_filter]
  have hlab : ∀ x, x < npart.length → ∃ (i : Nat) (m : DomMap), npart[x]? = some i ∧ maps[i]? = some m := by
    intro x hx
    have hi := h.label npart[x] (List.getElem_mem _)
    exact ⟨npart[x], maps[npart[x]], List.getElem?_eq_getElem hx, List.getElem?_eq_getElem hi⟩
  have hempty : (reassign og dis).2 = [] := by
    rw [r2, List.filter_eq_nil_iff]
    intro x hx hall
    rw [decide_eq_true_eq] at hall
    obtain ⟨i, m, hm, hl, hn⟩ := (hmdis x).1 hx
    obtain ⟨m', hm', hx'⟩ := h.cover x (List.getElem?_eq_some_iff.1 hl).1
    obtain ⟨j, hj, rfl⟩ := List.mem_iff_getElem.1 hm'
    have hmj : maps[j]? = some maps[j] := List.getElem?_eq_getElem hj
    refine hall _ (List.mem_of_getElem? (hogi j _ hmj)) ((mg _ _ _).2 ⟨hx', fun hc => ?_⟩)
    rw [hl] at hc
    simp only [Option.some.injEq] at hc
    subst hc
    rw [hmj] at hm
    simp only [Option.some.injEq] at hm
    exact hn (hm ▸ hx')
  have hL : assignNodes npart maps = some (reassign og dis).1 := by
    unfold assignNodes
    simp only
    rw [if_pos hempty]
  -- characterisation per part
  have key : ∀ (i : Nat) (q : List Nat × List Nat), (reassign og dis).1[i]? = some q → ∃ m, maps[i]? = some m ∧ q.1.Pairwise (· < ·) ∧ q.2.Pairwise (· < ·) ∧
      (∀ x, x ∈ q.1 ↔ x ∈ partNodes m ∧ (npart[x]? = some i ∨ (npart[x]? ≠ some i ∧ x ∈ dis ∧
        ∀ (j : Nat) (m' : DomMap), j < i → maps[j]? = some m' → npart[x]? ≠ some j → x ∉ partNodes m'))) ∧
      (∀ x, x ∈ q.2 ↔ x ∈ partNodes m ∧ x ∉ q.1) := by
    intro i q hq
    have hi : i < maps.length := by rw [← hogl, ← r1]; exact (List.getElem?_eq_some_iff.1 hq).1
    have hmi : maps[i]? = some maps[i] := List.getElem?_eq_getElem hi
    obtain ⟨a1, a2, a3, a4⟩ := r3 i _ q (hogi i _ hmi) hq
    have hP : ∀ x, (∀ (j : Nat) (p' : List Nat × List Nat), j < i → og[j]? = some p' → x ∉ p'.2) ↔
        ∀ (j : Nat) (m' : DomMap), j < i → maps[j]? = some m' → npart[x]? ≠ some j → x ∉ partNodes m' := by
      intro x
      constructor
      · intro hh j m' hj hm' hne hx
        exact hh j _ hj (hogi j m' hm') ((mg _ _ _).2 ⟨hx, hne⟩)
      · intro hh j p' hj hp' hx
        have hjl : j < maps.length := by omega
        have hmj : maps[j]? = some maps[j] := List.getElem?_eq_getElem hjl
        have := hogi j _ hmj
        rw [hp'] at this
        simp only [Option.some.injEq] at this
        subst this
        obtain ⟨b1, b2⟩ := (mg _ _ _).1 hx
        exact hh j _ hj hmj b2 b1
    have h1 : ∀ x, x ∈ q.1 ↔ x ∈ partNodes maps[i] ∧ (npart[x]? = some i ∨ (npart[x]? ≠ some i ∧ x ∈ dis ∧
        ∀ (j : Nat) (m' : DomMap), j < i → maps[j]? = some m' → npart[x]? ≠ some j → x ∉ partNodes m')) := by
      intro x; rw [a3 x, mo, mg, hP]; tauto
    refine ⟨_, hmi, a1, a2, h1, fun x => ?_⟩
    rw [a4 x, h1 x, mg, hP]; tauto
  refine ⟨_, hL, by rw [r1, hogl], fun q hq => ?_, fun x hx => ?_, fun i j q q' x hi hj hx hx' => ?_, fun i q m hq hm => ?_⟩
  · obtain ⟨i, hi, rfl⟩ := List.mem_iff_getElem.1 hq
    obtain ⟨m, _, h1, h2, _⟩ := key i _ (List.getElem?_eq_getElem hi)
    exact ⟨h1, h2⟩
  · obtain ⟨i, m, hl, hm⟩ := hlab x hx
    by_cases hxm : x ∈ partNodes m
    · have hi : i < (reassign og dis).1.length := by rw [r1, hogl]; exact (List.getElem?_eq_some_iff.1 hm).1
      obtain ⟨m', hm', _, _, h3, _⟩ := key i _ (List.getElem?_eq_getElem hi)
      rw [hm] at hm'; simp only [Option.some.injEq] at hm'; subst hm'
      exact ⟨i, _, List.getElem?_eq_getElem hi, (h3 x).2 ⟨hxm, Or.inl hl⟩⟩
    · -- the first part containing the node claims it
      have hxd : x ∈ dis := (hmdis x).2 ⟨i, m, hm, hl, hxm⟩
      have hex : ∃ j : Nat, ∃ m', maps[j]? = some m' ∧ x ∈ partNodes m' := by
        obtain ⟨m', hm', hx'⟩ := h.cover x hx
        obtain ⟨j, hj, rfl⟩ := List.mem_iff_getElem.1 hm'
        exact ⟨j, _, List.getElem?_eq_getElem hj, hx'⟩
      classical
      obtain ⟨m', hm', hx'⟩ := Nat.find_spec hex
      have hmin := fun k hk => Nat.find_min hex (m := k) hk
      set j := Nat.find hex
      have hj : j < (reassign og dis).1.length := by rw [r1, hogl]; exact (List.getElem?_eq_some_iff.1 hm').1
      obtain ⟨m'', hm'', _, _, h3, _⟩ := key j _ (List.getElem?_eq_getElem hj)
      rw [hm'] at hm''; simp only [Option.some.injEq] at hm''; subst hm''
      refine ⟨j, _, List.getElem?_eq_getElem hj, (h3 x).2 ⟨hx', Or.inr ⟨fun hc => ?_, hxd, fun k mk hk hmk _ hxk => hmin k hk ⟨mk, hmk, hxk⟩⟩⟩⟩
      rw [hl] at hc; simp only [Option.some.injEq] at hc
      rw [← hc] at hm'; rw [hm] at hm'; simp only [Option.some.injEq] at hm'
      exact hxm (hm' ▸ hx')
  · obtain ⟨m, hm, _, _, h3, _⟩ := key i q hi
    obtain ⟨m', hm', _, _, h3', _⟩ := key j q' hj
    obtain ⟨b1, b2⟩ := (h3 x).1 hx
    obtain ⟨c1, c2⟩ := (h3' x).1 hx'
    have nodis : ∀ (k : Nat) (mk : DomMap), maps[k]? = some mk → npart[x]? = some k → x ∈ partNodes mk → x ∉ dis := by
      intro k mk hk hxk hxm hd
      obtain ⟨i', m'', h1, h2, h3⟩ := (hmdis x).1 hd
      rw [hxk] at h2; simp only [Option.some.injEq] at h2; subst h2
      rw [hk] at h1; simp only [Option.some.injEq] at h1
      exact h3 (h1 ▸ hxm)
    rcases b2 with b2 | ⟨b2, b3, b4⟩ <;> rcases c2 with c2 | ⟨c2, c3, c4⟩
    · rw [b2] at c2; simpa using c2
    · exact absurd c3 (nodis i m hm b2 b1)
    · exact absurd b3 (nodis j m' hm' c2 c1)
    · rcases Nat.lt_trichotomy i j with hlt | heq | hgt
      · exact absurd b1 (c4 i m hlt hm b2)
      · exact heq
      · exact absurd c1 (b4 j m' hgt hm' c2)
  · obtain ⟨m', hm', _, _, h3, h4⟩ := key i q hq
    rw [hm] at hm'; simp only [Option.some.injEq] at hm'; subst hm'
    exact ⟨fun x hx => ((h3 x).1 hx).1, h4, fun x hx hl => (h3 x).2 ⟨hx, Or.inl hl⟩⟩

end Verif.Partition
