import Verif.Restart.Model
import Verif.Restart.Renamed
import Verif.Algo.Props

/-! # The numbers which local nodes had before -/
namespace Verif.Restart
open Verif Verif.Elem Verif.Mesh Verif.Split Verif.Partition Verif.Pipeline Verif.Own

/-- `o` lists the nodes of part `p` under the names they had before the renaming `g`. -/
def Names (p : Part) (g : Nat → Nat) (N : Nat) (o : List Nat) : Prop :=
  o.length = p.own.localSize ∧ ∀ i y, p.own.getGlobal i = some y → ∃ x < N, g x = y ∧ o[i]? = some x

theorem getGlobal_eq (o : SegOwn) (i : Nat) : o.getGlobal i = (localNodes o)[i]? := by
  unfold SegOwn.getGlobal localNodes
  by_cases hi : i < o.cnt
  · rw [if_pos hi, List.getElem?_append_left (by simpa using hi)]
    simp [hi]
  · rw [if_neg hi, List.getElem?_append_right (by simpa using hi)]
    simp

theorem localNodes_length (o : SegOwn) : (localNodes o).length = o.localSize := by simp [localNodes, SegOwn.localSize]

variable {bnds : List Nat} {m : DomMap} {N nParts : Nat} {parts : List Part} {f : Nat → Nat} {maps : List DomMap}

theorem before_le (R : Result bnds m N nParts parts f maps) {r : Nat} {p : Part} (hr : parts[r]? = some p) : before parts r + p.own.cnt ≤ N := by
  have h := R.total
  obtain ⟨hlt, rfl⟩ := List.getElem?_eq_some_iff.1 hr
  unfold before at *
  have h1 := Std.sum_take_succ (parts.map fun p => p.own.cnt) (i := r) (by simpa using hlt)
  have h2 := Std.sum_take_le_sum (parts.map fun p => p.own.cnt) (r + 1)
  rw [List.take_length] at h
  simp only [List.getElem_map] at h1
  rw [← List.map_take] at h1 h2
  rw [← List.map_take] at h1
  omega

theorem first_eq (R : Result bnds m N nParts parts f maps) {r : Nat} {p : Part} (hr : parts[r]? = some p) (hc : 0 < p.own.cnt) : p.own.first = before parts r := by
  have h1 := ((R.own r p hr).1 p.own.first).1 (by simp [SegOwn.isOwned]; omega)
  have h2 := ((R.own r p hr).1 (before parts r)).2 ⟨le_rfl, by omega⟩
  simp only [SegOwn.isOwned, decide_eq_true_eq] at h2
  omega

theorem known_lt (R : Result bnds m N nParts parts f maps) {r : Nat} {p : Part} (hr : parts[r]? = some p) {i y : Nat} (h : p.own.getGlobal i = some y) : y < N := by
  unfold SegOwn.getGlobal at h
  by_cases hi : i < p.own.cnt
  · rw [if_pos hi] at h
    have h1 := first_eq R hr (by omega)
    have h2 := before_le R hr
    have := Option.some.inj h
    omega
  · rw [if_neg hi] at h
    have h1 := ((R.own r p hr).2.2 y).1 (List.mem_of_getElem? h)
    refine nodeIn_lt R (p := r) ?_
    unfold part
    rw [hr]; exact h1.1

theorem emplace_nodup {φ : Algo.AMap Nat Nat} (h : (φ.map (·.1)).Nodup) (k v : Nat) : ((φ.emplace k v).map (·.1)).Nodup := by
  unfold Algo.AMap.emplace
  cases hl : φ.lookup k with
  | some _ => exact h
  | none =>
    simp only [List.map_cons, List.nodup_cons]
    refine ⟨fun hk => ?_, h⟩
    obtain ⟨a, ha, rfl⟩ := List.mem_map.1 hk
    rw [List.lookup_eq_none_iff] at hl
    simpa using hl a ha

theorem nodeMap_nodup (owned : List (List Nat)) : ((nodeMap owned).map (·.1)).Nodup := by
  have inner : ∀ (o : List Nat) (st : Algo.AMap Nat Nat × Nat), (st.1.map (·.1)).Nodup → ((numberLoop o st).1.map (·.1)).Nodup := by
    intro o
    unfold numberLoop
    induction o with
    | nil => intro st h; exact h
    | cons x o ih => intro st h; exact ih _ (emplace_nodup h x st.2)
  have outer : ∀ (os : List (List Nat)) (st : Algo.AMap Nat Nat × Nat), (st.1.map (·.1)).Nodup → ((os.foldl (fun st o => numberLoop o st) st).1.map (·.1)).Nodup := by
    intro os
    induction os with
    | nil => intro st h; exact h
    | cons o os ih => intro st h; exact ih _ (inner o st h)
  exact outer owned ([], 0) List.nodup_nil

theorem partition_keys {kinds : List (ElType × Nat)} {epart npart perm : List Nat} {shuffle : List (Nat × Nat × Element) → List (Nat × Nat × Element)}
    {ord : Nat → Nat → List Element → List Element} {φ : Algo.AMap Nat Nat} (h : partitionImpl kinds m bnds nParts epart npart perm shuffle ord = some (parts, φ)) :
    (φ.map (·.1)).Nodup := by
  unfold partitionImpl finish at h
  obtain ⟨maps, _, h⟩ := Option.bind_eq_some_iff.1 h
  obtain ⟨nodes, _, h⟩ := Option.bind_eq_some_iff.1 h
  obtain ⟨_, _, h⟩ := Option.bind_eq_some_iff.1 h
  obtain ⟨_, _, h⟩ := Option.bind_eq_some_iff.1 h
  obtain ⟨ps, _, h⟩ := Option.map_eq_some_iff.1 h
  rw [← (Prod.mk.inj h).2]
  exact nodeMap_nodup _

theorem invert_find {φ : Algo.AMap Nat Nat} (hk : (φ.map (·.1)).Nodup) {g : Nat → Nat} (hφ : ∀ x, φ.find x = if x < N then some (g x) else none)
    (hg : Set.InjOn g (Set.Iio N)) {x : Nat} (hx : x < N) : (Algo.invertMap φ).lookup (g x) = some x := by
  have hmem : ∀ k v, (k, v) ∈ φ ↔ φ.find k = some v := by
    intro k v
    constructor
    · intro h
      unfold Algo.AMap.find
      clear hφ
      induction φ with
      | nil => simp at h
      | cons a φ ih =>
        rw [List.map_cons, List.nodup_cons] at hk
        rw [List.lookup_cons]
        rcases List.mem_cons.1 h with rfl | h'
        · simp
        · have : (k == a.1) = false := by
            rw [beq_eq_false_iff_ne]
            rintro rfl
            exact hk.1 (List.mem_map.2 ⟨_, h', rfl⟩)
          rw [this]
          exact ih hk.2 h'
    · intro h
      unfold Algo.AMap.find at h
      clear hφ hk
      induction φ with
      | nil => simp at h
      | cons a φ ih =>
        rw [List.lookup_cons] at h
        cases hka : k == a.1 with
        | true =>
          rw [hka] at h
          have hv := Option.some.inj h
          rw [beq_iff_eq] at hka
          subst hka; subst hv
          exact List.mem_cons_self
        | false =>
          rw [hka] at h
          exact List.mem_cons_of_mem _ (ih h)
  have hval : ∀ k v, (k, v) ∈ φ → k < N ∧ v = g k := by
    intro k v h
    rw [hmem, hφ] at h
    split at h
    · exact ⟨by assumption, (Option.some.inj h).symm⟩
    · cases h
  refine (Algo.C15_invert_map φ ?_ x (g x)).2 ((hmem _ _).2 (by rw [hφ, if_pos hx]))
  refine List.Nodup.map_on ?_ (List.Nodup.of_map _ hk)
  rintro ⟨a, b⟩ ha ⟨c, d⟩ hc hbd
  obtain ⟨h1, rfl⟩ := hval a b ha
  obtain ⟨h2, rfl⟩ := hval c d hc
  obtain rfl := hg h1 h2 hbd
  rfl

/-- `getOldNodeIds` succeeds on the parts of a partitioned mesh and gives the old names. -/
theorem oldNodeIds_spec (R : Result bnds m N nParts parts f maps) {φ : Algo.AMap Nat Nat} (hk : (φ.map (·.1)).Nodup)
    (hφ : ∀ x, φ.find x = if x < N then some (f x) else none) {r : Nat} {p : Part} (hr : parts[r]? = some p) :
    ∃ o, Permute.oldNodeIds p.own (Algo.invertMap φ) = some o ∧ Names p f N o := by
  have hlook : ∀ y ∈ localNodes p.own, (Algo.invertMap φ).lookup y = some (inv f N y) ∧ y < N := by
    intro y hy
    obtain ⟨i, hi⟩ := List.getElem?_of_mem hy
    have hlt := known_lt R hr ((getGlobal_eq p.own i).trans hi)
    have := invert_find hk hφ R.bij.injOn (inv_lt R.bij hlt)
    rw [inv_right R.bij hlt] at this
    exact ⟨this, hlt⟩
  refine ⟨(localNodes p.own).map (inv f N), ?_, by rw [List.length_map, localNodes_length], fun i y hy => ?_⟩
  · exact mapM_map fun y hy => (hlook y hy).1
  · rw [getGlobal_eq] at hy
    have hlt := (hlook y (List.mem_of_getElem? hy)).2
    exact ⟨inv f N y, inv_lt R.bij hlt, inv_right R.bij hlt, by rw [List.getElem?_map, hy]; rfl⟩

/-- Reordering ranks renames local nodes in place. -/
theorem reindexed_global (R : Result bnds m N nParts parts f maps) {src : List Nat} (hsrc : src.Perm (List.range nParts)) (hmono : Monotone parts src)
    {p : Nat} {P : Part} (hp : parts[p]? = some P) {o : SegOwn} (ho : Permute.reindexedOwn (world parts) src p = some o) :
    o.localSize = P.own.localSize ∧ ∀ i, o.getGlobal i = (P.own.getGlobal i).map (Permute.newId (world parts) src) := by
  have hlt : p < parts.length := (List.getElem?_eq_some_iff.1 hp).1
  have hP : part parts p = P := by unfold part; rw [hp]; rfl
  obtain ⟨o', ho', hc, hs, hown, hsh⟩ := reindexed_own R hsrc hlt
  obtain rfl := Option.some.inj (ho.symm.trans ho')
  rw [hP] at hc hsh
  have hshared : o.shared = P.own.shared.map (Permute.newId (world parts) src) := by
    have hm := hmono p hlt
    rw [hP] at hm
    refine List.Perm.eq_of_pairwise (le := (· < ·)) (fun a b _ _ h1 h2 => absurd (Nat.lt_trans h1 h2) (Nat.lt_irrefl _)) hs hm ?_
    rw [List.perm_ext_iff_of_nodup (hs.imp fun h => Nat.ne_of_lt h) (hm.imp fun h => Nat.ne_of_lt h)]
    intro n
    rw [hsh, List.mem_map]
  refine ⟨by simp [SegOwn.localSize, hc, hshared], fun i => ?_⟩
  unfold SegOwn.getGlobal
  rw [hc, hshared]
  by_cases hi : i < P.own.cnt
  · rw [if_pos hi, if_pos hi, Option.map_some, Option.some.injEq]
    have hfirst := first_eq R hp (by omega)
    have hnew : ∀ j < P.own.cnt, Permute.newId (world parts) src (P.own.first + j) = Permute.newBegin (world parts) src p + j := by
      intro j hj
      have hO : Permute.Owns (world parts) p (P.own.first + j) := by
        rw [world_owns R hlt, hP]; simp [SegOwn.isOwned]; omega
      rw [Permute.newId_owned hO, world_begin, hfirst]
      omega
    have h1 : ∀ n, (o.first ≤ n ∧ n < o.first + P.own.cnt) ↔ (Permute.newBegin (world parts) src p ≤ n ∧ n < Permute.newBegin (world parts) src p + P.own.cnt) := by
      intro n
      have := hown n
      simp only [SegOwn.isOwned, decide_eq_true_eq, hc] at this
      rw [this]
      constructor
      · rintro ⟨g, hg, rfl⟩
        rw [world_owns R hlt, hP] at hg
        simp only [SegOwn.isOwned, decide_eq_true_eq] at hg
        have := hnew (g - P.own.first) (by omega)
        rw [show P.own.first + (g - P.own.first) = g by omega] at this
        omega
      · rintro ⟨h1, h2⟩
        refine ⟨P.own.first + (n - Permute.newBegin (world parts) src p), ?_, ?_⟩
        · rw [world_owns R hlt, hP]; simp [SegOwn.isOwned]; omega
        · rw [hnew _ (by omega)]; omega
    rw [hnew i hi]
    have h2 := (h1 o.first).1 ⟨le_rfl, by omega⟩
    have h3 := (h1 (Permute.newBegin (world parts) src p)).2 ⟨le_rfl, by omega⟩
    omega
  · rw [if_neg hi, if_neg hi, List.getElem?_map]

theorem Repart.outcome {Q : List Part → List Nat → Prop} {kinds : List (ElType × Nat)} {old : List (List Nat)} (h : Repart Q kinds m bnds nParts parts f old) :
    Outcome Q kinds m bnds nParts parts f := by
  induction h with
  | one N hN views => exact .whole N hN views
  | many nParts epart npart perm hl shuffle ord hshuf hord parts φ h old hold => exact .parts nParts epart npart perm hl shuffle ord hshuf hord parts φ h
  | optimized nParts parts f old _ src hsrc hQ parts' h' ih => exact .reordered nParts parts f ih src hsrc hQ parts' h'

theorem partition_result' {kinds : List (ElType × Nat)} {D : Nat} (h : MeshOk kinds m bnds D) (hone : OneSided m bnds) {epart npart perm : List Nat}
    (hl : Labels m bnds nParts epart npart perm) {shuffle : List (Nat × Nat × Element) → List (Nat × Nat × Element)} {ord : Nat → Nat → List Element → List Element}
    (hshuf : ∀ l, (shuffle l).Perm l) (hord : ∀ i k l, (ord i k l).Perm l) {φ : Algo.AMap Nat Nat}
    (hp : partitionImpl kinds m bnds nParts epart npart perm shuffle ord = some (parts, φ)) :
    ∃ maps, Result bnds m npart.length nParts parts (fun x => (φ.find x).getD 0) maps ∧
      ∀ x, φ.find x = if x < npart.length then some ((φ.find x).getD 0) else none := by
  obtain ⟨N, maps, R⟩ := outcome_result h hone (.parts nParts epart npart perm hl shuffle ord hshuf hord parts φ hp)
  obtain ⟨parts', φ', f', maps', h1, h2, R'⟩ := partition_result h hone hl shuffle ord hshuf hord
  rw [h1] at hp
  obtain ⟨rfl, rfl⟩ := Prod.mk.inj (Option.some.inj hp)
  have hN : N = npart.length := by
    have h : ∀ x, x < N ↔ x < npart.length := fun x => (R.nodes x).symm.trans (R'.nodes x)
    have a := h N
    have b := h npart.length
    omega
  subst hN
  refine ⟨maps, R, fun x => ?_⟩
  rw [h2]
  split <;> simp

/-- Old names are attached to the right nodes however the mesh read is distributed. -/
theorem Repart.names {kinds : List (ElType × Nat)} {D : Nat} (hm : MeshOk kinds m bnds D) (hone : OneSided m bnds) {old : List (List Nat)}
    (h : Repart Monotone kinds m bnds nParts parts f old) :
    ∃ N maps, Result bnds m N nParts parts f maps ∧ old.length = nParts ∧
      ∀ (r : Nat) p, parts[r]? = some p → ∃ o, old[r]? = some o ∧ Names p f N o := by
  induction h with
  | one N hN views =>
    obtain ⟨N', maps, R⟩ := outcome_result hm hone (.whole N hN views)
    have hNN : N' = N := by
      have h : ∀ x, x < N' ↔ x < N := fun x => (R.nodes x).symm.trans (hN x)
      have a := h N
      have b := h N'
      omega
    subst hNN
    refine ⟨N', maps, R, rfl, fun r p hp => ?_⟩
    cases r with
    | succ r => simp at hp
    | zero =>
      obtain rfl : (⟨m, ⟨0, N', []⟩, views⟩ : Part) = p := by simpa using hp
      refine ⟨List.range N', rfl, by simp [SegOwn.localSize], fun i y hy => ?_⟩
      unfold SegOwn.getGlobal at hy
      by_cases hi : i < N'
      · simp only at hy
        rw [if_pos hi] at hy
        have := Option.some.inj hy
        exact ⟨i, hi, by simpa using this, by simp [hi]⟩
      · simp [hi] at hy
  | many nParts epart npart perm hl shuffle ord hshuf hord parts φ h old hold =>
    obtain ⟨maps, R, hφ⟩ := partition_result' hm hone hl hshuf hord h
    have hf := mapM_forall₂ _ _ _ hold
    refine ⟨npart.length, maps, R, by rw [← hf.length_eq, R.plen], fun r p hp => ?_⟩
    obtain ⟨o, ho, hn⟩ := oldNodeIds_spec R (partition_keys h) hφ hp
    obtain ⟨hr, rfl⟩ := List.getElem?_eq_some_iff.1 hp
    have := hf.get (i := r) hr (by rw [← hf.length_eq]; exact hr)
    simp only [List.get_eq_getElem] at this
    rw [ho] at this
    refine ⟨o, ?_, hn⟩
    rw [List.getElem?_eq_getElem (by rw [← hf.length_eq]; exact hr), ← Option.some.inj this]
  | optimized nParts parts f old _ src hsrc hQ parts' h' ih =>
    obtain ⟨N, maps, R, hlen, hn⟩ := ih
    have hslen : src.length = nParts := by rw [hsrc.length_eq, List.length_range]
    refine ⟨N, _, reorder_result R hsrc hQ h', by rw [List.length_map, hslen], fun q P' hP' => ?_⟩
    have hf := mapM_forall₂ _ _ _ h'
    obtain ⟨hq', rfl⟩ := List.getElem?_eq_some_iff.1 hP'
    have hq : q < src.length := by rw [hf.length_eq]; exact hq'
    have := hf.get (i := q) hq hq'
    simp only [List.get_eq_getElem] at this
    unfold reindexed at this
    obtain ⟨o, ho, hPo⟩ := Option.map_eq_some_iff.1 this
    have hp : src[q] < parts.length := by
      rw [R.plen]; exact List.mem_range.1 (hsrc.subset (List.getElem_mem hq))
    obtain ⟨l, hl, hnl, hnames⟩ := hn src[q] parts[src[q]] (List.getElem?_eq_getElem hp)
    obtain ⟨g1, g2⟩ := reindexed_global R hsrc hQ (List.getElem?_eq_getElem hp) ho
    refine ⟨l, by rw [List.getElem?_map, List.getElem?_eq_getElem hq, Option.map_some, hl]; rfl, ?_, fun i y hy => ?_⟩
    · rw [hnl, ← hPo, g1]
    · rw [← hPo, g2] at hy
      obtain ⟨y0, hy0, rfl⟩ := Option.map_eq_some_iff.1 hy
      obtain ⟨x, hx, rfl, hix⟩ := hnames i y0 hy0
      exact ⟨x, hx, rfl, hix⟩

/-- Loading never fails for want of an old number: every distribution of the mesh has its lists. -/
theorem repart_exists {Q : List Part → List Nat → Prop} {kinds : List (ElType × Nat)} {D : Nat}
    (hm : MeshOk kinds m bnds D) (hone : OneSided m bnds) (h : Outcome Q kinds m bnds nParts parts f) : ∃ old, Repart Q kinds m bnds nParts parts f old := by
  induction h with
  | whole N hN views => exact ⟨_, .one N hN views⟩
  | parts nParts epart npart perm hl shuffle ord hshuf hord parts φ h =>
    obtain ⟨maps, R, hφ⟩ := partition_result' hm hone hl hshuf hord h
    obtain ⟨old, ho⟩ := mapM_isSome (f := fun p => Permute.oldNodeIds p.own (Algo.invertMap φ)) (l := parts) fun p hp => by
      obtain ⟨r, hr⟩ := List.getElem?_of_mem hp
      obtain ⟨o, ho, _⟩ := oldNodeIds_spec R (partition_keys h) hφ hr
      exact ⟨o, ho⟩
    exact ⟨old, .many nParts epart npart perm hl shuffle ord hshuf hord parts φ h old ho⟩
  | reordered nParts parts f _ src hsrc hQ' parts' h' ih =>
    obtain ⟨old, ho⟩ := ih
    exact ⟨_, .optimized nParts parts f old ho src hsrc hQ' parts' h'⟩

end Verif.Restart
