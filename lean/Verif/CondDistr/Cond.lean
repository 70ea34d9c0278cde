import Verif.CondDistr.Rows

/-! # Rows of the condensed system -/
namespace Verif.CondDistr
open Verif Verif.Dofs Verif.Lsq Verif.Distr Verif.Condense Verif.CondInit Verif.CondRace Finset

noncomputable section

variable {C : CProblem} {Q : CRun}

/-- A local system with the unknowns it is scattered at. -/
structure KEv where
  keys : List (Nat × Nat)
  mat : Nat → Nat → ℝ
  rhs : Nat → Nat → ℝ

/-- The primary part of a kernel. -/
def CRun.kerEv (Q : CRun) (p : Nat × CEl) (k : CKer) : KEv :=
  ⟨p.2.el.bndNodes.flatMap fun n => k.inds.map fun j => (n, j), fun i j => Batch.directMat k.dims k.pts (Q.src p.1 p.2 k i) (Q.src p.1 p.2 k j),
    fun i c => Batch.directRhs k.dims k.pts (Q.src p.1 p.2 k i) c⟩

/-- The update at the end. -/
def CRun.finEv (Q : CRun) (nc : Nat) (p : Nat × CEl) : KEv :=
  ⟨(primaryDofs (Q.info p.1 p.2)).map p.2.key,
    fun i j => if h : i < Q.nB p.1 p.2 ∧ j < Q.nB p.1 p.2 then Q.updMat nc p.1 p.2 ⟨i, h.1⟩ ⟨j, h.2⟩ else 0,
    fun i c => if h : i < Q.nB p.1 p.2 then Q.updRhs nc p.1 p.2 c ⟨i, h⟩ else 0⟩

def CRun.kevs (Q : CRun) (nc : Nat) (p : Nat × CEl) : List KEv := p.2.kernels.map (Q.kerEv p) ++ [Q.finEv nc p]

theorem events_eq (nc r : Nat) : Q.events nc r = (Q.parts r).flatMap fun e => (Q.kevs nc (r, e)).map fun t => Q.scat r t.keys t.mat t.rhs := by
  unfold CRun.events CRun.kevs
  congr 1
  funext e
  rw [List.map_append, List.map_map]
  rfl

theorem kev_keys (hC : C.Ok) (h : Q.Of C) {nc : Nat} {p : Nat × CEl} (hp : p ∈ Q.all) {t : KEv} (ht : t ∈ Q.kevs nc p) {k : Nat × Nat} (hk : k ∈ t.keys) :
    k.1 ∈ p.2.el.bndNodes ∧ C.prim.toProblem.used k := by
  have hr := (mem_all.1 hp).1
  have he := (mem_all.1 hp).2
  rcases List.mem_append.1 ht with ht | ht
  · obtain ⟨kk, hkk, rfl⟩ := List.mem_map.1 ht
    obtain ⟨n, hn, hk⟩ := List.mem_flatMap.1 hk
    obtain ⟨j, hj, rfl⟩ := List.mem_map.1 hk
    exact ⟨hn, bnd_used hC (mem_els h hr he) hn ((hC.inds p.2 (mem_els h hr he) kk hkk).1 hj)⟩
  · rw [List.mem_singleton.1 ht] at hk
    obtain ⟨q, hq, rfl⟩ := List.mem_map.1 hk
    exact primary_key hC h hr he hq

theorem key_held (hC : C.Ok) (h : Q.Of C) {nc : Nat} {p : Nat × CEl} (hp : p ∈ Q.all) {t : KEv} (ht : t ∈ Q.kevs nc p) {k : Nat × Nat} (hk : k ∈ t.keys) :
    Q.gdof p.1 k = Q.R.num k ∧ Q.R.num k ∈ Q.rowM p.1 ∧ Q.R.num k ∈ Q.colM p.1 ∧ Q.R.num k ∈ Q.vecM p.1 := by
  obtain ⟨hn, hu⟩ := kev_keys hC h hp ht hk
  have hr := (mem_all.1 hp).1
  have he := (mem_all.1 hp).2
  refine ⟨gdof_eq h hr he hn, h.held p.1 hr p.2 he k.1 hn k.2 _ ?_⟩
  rw [bnd_dofs h hr he hn]
  exact used_num (prim_ok hC) h.run h.marked hu

theorem getD_idxOf {l : List Nat} {g : Nat} (hg : g ∈ l) : l.getD (l.idxOf g) 0 = g := by
  rw [List.getD_eq_getElem?_getD, List.getElem?_eq_getElem (List.idxOf_lt_length_of_mem hg)]
  simp

theorem map_getD {α : Type} (l : List (Nat × Nat)) (f : Nat × Nat → α) (d : α) {i : Nat} (hi : i < l.length) : (l.map f).getD i d = f (l.getD i (0, 0)) := by
  rw [List.getD_eq_getElem?_getD, List.getD_eq_getElem?_getD, List.getElem?_map, List.getElem?_eq_getElem hi]; rfl

theorem getD_mem' {l : List (Nat × Nat)} {i : Nat} (h : i < l.length) : l.getD i (0, 0) ∈ l := by
  rw [List.getD_eq_getElem?_getD, List.getElem?_eq_getElem h]
  exact List.getElem_mem h

theorem sum_all (F : Nat → CEl → ℝ) : ∑ q ∈ range Q.R.nr, ((Q.parts q).map (F q)).sum = (Q.all.map fun p => F p.1 p.2).sum := by
  unfold CRun.all
  rw [Lsq.sum_flatMap, sum_range_list]
  simp only [List.map_map, Function.comp_def]

/-- Everything that is scattered, with the rank. -/
def CRun.evs (Q : CRun) (nc : Nat) : List ((Nat × CEl) × KEv) := Q.all.flatMap fun p => (Q.kevs nc p).map fun t => (p, t)

theorem mem_evs {nc : Nat} {w : (Nat × CEl) × KEv} : w ∈ Q.evs nc ↔ w.1 ∈ Q.all ∧ w.2 ∈ Q.kevs nc w.1 := by
  unfold CRun.evs
  simp only [List.mem_flatMap, List.mem_map]
  constructor
  · rintro ⟨p, hp, t, ht, rfl⟩; exact ⟨hp, ht⟩
  · rintro ⟨hp, ht⟩; exact ⟨w.1, hp, w.2, ht, rfl⟩

theorem sum_evs (nc : Nat) (F : (Nat × CEl) × KEv → ℝ) : ((Q.evs nc).map F).sum = (Q.all.map fun p => ((Q.kevs nc p).map fun t => F (p, t)).sum).sum := by
  unfold CRun.evs
  rw [Lsq.sum_flatMap]
  simp only [List.map_map, Function.comp_def]

theorem sum_events (nc : Nat) (F : Nat → AElem → ℝ) :
    ∑ q ∈ range Q.R.nr, ((Q.events nc q).map (F q)).sum = ((Q.evs nc).map fun w => F w.1.1 (Q.scat w.1.1 w.2.keys w.2.mat w.2.rhs)).sum := by
  rw [sum_evs, ← sum_all (Q := Q) fun r e => ((Q.kevs nc (r, e)).map fun t => F r (Q.scat r t.keys t.mat t.rhs)).sum]
  refine sum_congr rfl fun q _ => ?_
  rw [events_eq, Lsq.sum_flatMap]
  simp only [List.map_map, Function.comp_def]

theorem mem_events {nc q : Nat} (hq : q < Q.R.nr) {a : AElem} (ha : a ∈ Q.events nc q) :
    ∃ p ∈ Q.all, p.1 = q ∧ ∃ t ∈ Q.kevs nc p, a = Q.scat q t.keys t.mat t.rhs := by
  rw [events_eq] at ha
  obtain ⟨e, he, ha⟩ := List.mem_flatMap.1 ha
  obtain ⟨t, ht, rfl⟩ := List.mem_map.1 ha
  exact ⟨(q, e), mem_all.2 ⟨hq, he⟩, rfl, t, ht, rfl⟩

/-- The condensed system, row by row. -/
theorem cond_assembled (hC : C.Ok) (h : Q.Of C) {nc c : Nat} (hc : c < nc) {um uv : Nat → List ((Nat × Nat) × ℝ)}
    (hm : ∀ q < Q.R.nr, (um q).Perm ((Q.events nc q).flatMap scatterMat)) (hv : ∀ q < Q.R.nr, (uv q).Perm ((Q.events nc q).flatMap (scatterVec nc)))
    (x : Nat → ℝ) (g : Nat) :
    ∑ l ∈ range Q.R.s.total, Q.mat um g l * x l - Q.rhs uv g c =
      ((Q.evs nc).map fun w => resid w.2.keys.length (fun i => Q.R.num (w.2.keys.getD i (0, 0))) w.2.mat (fun i => w.2.rhs i c) x g).sum := by
  have hmem : ∀ q < Q.R.nr, ∀ a ∈ Q.events nc q, (∀ i < a.row.length, a.row.getD i 0 ∈ List.range (Q.rowM q).length) ∧
      (∀ i < a.row.length, a.col.getD i 0 ∈ List.range (Q.colM q).length) ∧ ∀ i < a.row.length, a.vec.getD i 0 ∈ List.range (Q.vecM q).length := by
    intro q hq a ha
    obtain ⟨p, hp, rfl, t, ht, rfl⟩ := mem_events hq ha
    have hlen : (Q.scat p.1 t.keys t.mat t.rhs).row.length = t.keys.length := List.length_map _
    rw [hlen]
    refine ⟨fun i hi => ?_, fun i hi => ?_, fun i hi => ?_⟩ <;>
    · obtain ⟨h0, h1, h2, h3⟩ := key_held hC h hp ht (getD_mem' hi)
      unfold CRun.scat
      rw [List.mem_range, map_getD _ _ _ hi, h0]
      first
        | exact List.idxOf_lt_length_of_mem h1
        | exact List.idxOf_lt_length_of_mem h2
        | exact List.idxOf_lt_length_of_mem h3
  have hA : ∀ l, Q.mat um g l = ((Q.evs nc).map fun w => ∑ i ∈ range w.2.keys.length, ∑ j ∈ range w.2.keys.length,
      if Q.R.num (w.2.keys.getD i (0, 0)) = g ∧ Q.R.num (w.2.keys.getD j (0, 0)) = l then w.2.mat i j else 0).sum := by
    intro l
    unfold CRun.mat
    rw [globalMat_eq Q.maps (Q.events nc) _ _ (fun q hq => ⟨List.nodup_range, List.nodup_range⟩) ?_ (fun q hq a ha => ⟨(hmem q hq a ha).1, (hmem q hq a ha).2.1⟩) um hm,
      sum_events nc fun q a => ∑ i ∈ range a.row.length, ∑ j ∈ range a.row.length,
        if (Q.maps q).row (a.row.getD i 0) = g ∧ (Q.maps q).col (a.col.getD j 0) = l then a.mat i j else 0]
    · congr 1
      refine List.map_congr_left fun w hw => ?_
      obtain ⟨hp, ht⟩ := mem_evs.1 hw
      have hlen : (Q.scat w.1.1 w.2.keys w.2.mat w.2.rhs).row.length = w.2.keys.length := List.length_map _
      rw [hlen]
      refine sum_congr rfl fun i hi => sum_congr rfl fun j hj => ?_
      have hi := mem_range.1 hi
      have hj := mem_range.1 hj
      have k1 := key_held hC h hp ht (getD_mem' hi)
      have k2 := key_held hC h hp ht (getD_mem' hj)
      have e1 : (Q.maps w.1.1).row ((Q.scat w.1.1 w.2.keys w.2.mat w.2.rhs).row.getD i 0) = Q.R.num (w.2.keys.getD i (0, 0)) := by
        change (Q.rowM w.1.1).getD ((w.2.keys.map fun k => (Q.rowM w.1.1).idxOf (Q.gdof w.1.1 k)).getD i 0) 0 = _
        rw [map_getD _ _ _ hi, k1.1, getD_idxOf k1.2.1]
      have e2 : (Q.maps w.1.1).col ((Q.scat w.1.1 w.2.keys w.2.mat w.2.rhs).col.getD j 0) = Q.R.num (w.2.keys.getD j (0, 0)) := by
        change (Q.colM w.1.1).getD ((w.2.keys.map fun k => (Q.colM w.1.1).idxOf (Q.gdof w.1.1 k)).getD j 0) 0 = _
        rw [map_getD _ _ _ hj, k2.1, getD_idxOf k2.2.2.1]
      rw [e1, e2]
      rfl
    · intro q hq a ha
      obtain ⟨p, hp, rfl, t, ht, rfl⟩ := mem_events hq ha
      unfold CRun.scat
      simp
  have hB : Q.rhs uv g c = ((Q.evs nc).map fun w => ∑ i ∈ range w.2.keys.length, if Q.R.num (w.2.keys.getD i (0, 0)) = g then w.2.rhs i c else 0).sum := by
    unfold CRun.rhs
    rw [globalVec_eq Q.maps (Q.events nc) _ (fun q hq => List.nodup_range) (fun q hq a ha => (hmem q hq a ha).2.2) nc uv hv g c hc,
      sum_events nc fun q a => ∑ i ∈ range a.row.length, if (Q.maps q).vec (a.vec.getD i 0) = g then a.rhs i c else 0]
    congr 1
    refine List.map_congr_left fun w hw => ?_
    obtain ⟨hp, ht⟩ := mem_evs.1 hw
    have hlen : (Q.scat w.1.1 w.2.keys w.2.mat w.2.rhs).row.length = w.2.keys.length := List.length_map _
    rw [hlen]
    refine sum_congr rfl fun i hi => ?_
    have hi := mem_range.1 hi
    have k1 := key_held hC h hp ht (getD_mem' hi)
    have e1 : (Q.maps w.1.1).vec ((Q.scat w.1.1 w.2.keys w.2.mat w.2.rhs).vec.getD i 0) = Q.R.num (w.2.keys.getD i (0, 0)) := by
      change (Q.vecM w.1.1).getD ((w.2.keys.map fun k => (Q.vecM w.1.1).idxOf (Q.gdof w.1.1 k)).getD i 0) 0 = _
      rw [map_getD _ _ _ hi, k1.1, getD_idxOf k1.2.2.2]
    rw [e1]
    rfl
  simp only [hA]
  rw [hB, list_row (Q.evs nc) (fun w => w.2.keys.length) (fun w i => Q.R.num (w.2.keys.getD i (0, 0))) (fun w i => Q.R.num (w.2.keys.getD i (0, 0)))
    (fun w => w.2.mat) x ?_ g, list_map_sub]
  · congr 1
    refine List.map_congr_left fun w _ => ?_
    exact resid_split _ _ _ _ _ _ _ _ (fun _ _ => rfl) fun _ _ => rfl
  · intro w hw j hj
    obtain ⟨hp, ht⟩ := mem_evs.1 hw
    exact num_lt (prim_ok hC) h.run h.marked (kev_keys hC h hp ht (getD_mem' hj)).2

/-! ### The parts of an element -/

theorem bnd_keys (h : Q.Of C) (p : Nat × CEl) (k : CKer) (hs : k.inds.Pairwise (· < ·)) (hlt : ∀ i ∈ k.inds, i < C.dpn) :
    (p.2.el.bndNodes.flatMap fun n => k.inds.map fun j => (n, j)) = ((pairs (Q.info p.1 p.2)).filter fun q => (Q.info p.1 p.2).bnd q.1 && k.inds.contains q.2).map p.2.key := by
  have hnd := info_nd h p.1 p.2
  unfold pairs El.bndNodes El.bndPos
  rw [List.filter_flatMap, List.map_flatMap, List.flatMap_map]
  change _ = (List.range p.2.el.nodes.length).flatMap _
  induction List.range p.2.el.nodes.length with
  | nil => rfl
  | cons v l ih =>
    rw [List.flatMap_cons, ← ih]
    have hb : (Q.info p.1 p.2).bnd v = p.2.el.bnd v := rfl
    have hf := filter_eq C.dpn k.inds hs hlt
    cases hbv : p.2.el.bnd v
    · have : (((List.range (Q.info p.1 p.2).nd).map fun i => (v, i)).filter fun q => (Q.info p.1 p.2).bnd q.1 && k.inds.contains q.2) = [] := by
        rw [List.filter_eq_nil_iff]
        intro q hq
        obtain ⟨i, _, rfl⟩ := List.mem_map.1 hq
        simp [hb, hbv]
      rw [this]
      simp [hbv]
    · have : (((List.range (Q.info p.1 p.2).nd).map fun i => (v, i)).filter fun q => (Q.info p.1 p.2).bnd q.1 && k.inds.contains q.2) = k.inds.map fun i => (v, i) := by
        rw [List.filter_map, hnd]
        congr 1
        refine Eq.trans ?_ hf
        refine List.filter_congr fun i _ => ?_
        simp [hb, hbv]
      rw [this]
      simp only [List.filter_cons, hbv, if_true, List.flatMap_cons, List.map_map]
      rfl

theorem ker_keys (hC : C.Ok) (h : Q.Of C) {p : Nat × CEl} (hp : p ∈ Q.all) {k : CKer} (hk : k ∈ p.2.kernels) :
    (p.2.el.bndNodes.flatMap fun n => k.inds.map fun j => (n, j)) = (computeInds (Q.info p.1 p.2) k.inds).prim.map fun q => Q.bd p q.2 := by
  have he := mem_els h (mem_all.1 hp).1 (mem_all.1 hp).2
  have hin := hC.inds p.2 he k hk
  have hlt : ∀ i ∈ k.inds, i < C.dpn := fun i hi => hC.active p.2 he i (hin.1 hi)
  rw [bnd_keys h p k hin.2 hlt]
  have h1 := prim_unknowns (Q.info p.1 p.2) k.inds hin.2 (by rw [info_nd h]; exact hlt)
  have h2 := congrArg (List.map (Option.map p.2.key)) h1
  rw [List.map_map, List.map_map] at h2
  refine List.map_injective_iff.2 (Option.some_injective _) ?_
  rw [List.map_map, List.map_map]
  refine Eq.trans ?_ (h2.symm.trans ?_)
  · rfl
  · refine List.map_congr_left fun q hq => ?_
    obtain ⟨d, g1, g2⟩ := (honours hC h (mem_all.1 hp).1 (mem_all.1 hp).2 hk).1 q hq
    simp only [Function.comp, CRun.bd]
    rw [g1, List.getD_eq_getElem?_getD, g2]
    rfl

theorem sum_getD (l : List (Nat × Nat)) (F : Nat × Nat → ℝ) : ∑ i ∈ range l.length, F (l.getD i (0, 0)) = (l.map F).sum := by
  rw [← sum_range_list]
  congr 1
  refine List.ext_getElem (by simp) fun i h1 h2 => ?_
  rw [List.getElem_map, List.getElem_map, List.getElem_range, List.getD_eq_getElem?_getD, List.getElem?_eq_getElem (by simpa using h2)]
  rfl

/-- A kernel's primary part. -/
theorem ker_part (hC : C.Ok) (h : Q.Of C) (c : Nat) (x : Nat → ℝ) (g : Nat) {p : Nat × CEl} (hp : p ∈ Q.all) {k : CKer} (hk : k ∈ p.2.kernels) :
    resid (Q.kerEv p k).keys.length (fun i => Q.R.num ((Q.kerEv p k).keys.getD i (0, 0))) (Q.kerEv p k).mat (fun i => (Q.kerEv p k).rhs i c) x g =
      ((Q.blk c p k).prim.map fun q => if Q.R.num (Q.bd p q.2) = g then
        ((Q.blk c p k).prim.map fun q' => (Q.blk c p k).mat q.1 q'.1 * x (Q.R.num (Q.bd p q'.2))).sum - (Q.blk c p k).rhs q.1 else 0).sum := by
  unfold resid CRun.kerEv CRun.src
  simp only [ker_keys hC h hp hk, List.length_map]
  unfold CRun.blk
  simp only
  generalize (computeInds (Q.info p.1 p.2) k.inds).prim = l
  rw [← sum_getD]
  refine sum_congr rfl fun i hi => ?_
  rw [map_getD _ _ _ (mem_range.1 hi), ← sum_getD]
  refine if_congr Iff.rfl ?_ rfl
  congr 1
  refine sum_congr rfl fun j hj => ?_
  rw [map_getD _ _ _ (mem_range.1 hj)]

/-- The update of an element. -/
theorem fin_part (nc c : Nat) (x : Nat → ℝ) (g : Nat) (p : Nat × CEl) :
    resid (Q.finEv nc p).keys.length (fun i => Q.R.num ((Q.finEv nc p).keys.getD i (0, 0))) (Q.finEv nc p).mat (fun i => (Q.finEv nc p).rhs i c) x g =
      ∑ b : Fin (Q.nB p.1 p.2), if Q.R.num (Q.bd p b) = g then
        (Q.updMat nc p.1 p.2).mulVec (fun b' => x (Q.R.num (Q.bd p b'))) b - Q.updRhs nc p.1 p.2 c b else 0 := by
  have hl : (Q.finEv nc p).keys.length = Q.nB p.1 p.2 := List.length_map _
  have hk : ∀ i < Q.nB p.1 p.2, (Q.finEv nc p).keys.getD i (0, 0) = Q.bd p i := fun i hi => map_getD _ _ _ hi
  unfold resid
  rw [hl, Finset.sum_range]
  refine sum_congr rfl fun b _ => ?_
  beta_reduce
  rw [hk b b.2]
  refine if_congr Iff.rfl ?_ rfl
  unfold Matrix.mulVec dotProduct
  rw [Finset.sum_range]
  congr 1
  · refine sum_congr rfl fun b' _ => ?_
    rw [hk b' b'.2]
    congr 1
    exact dif_pos ⟨b.2, b'.2⟩
  · exact dif_pos b.2

/-- Row of the condensed system. -/
theorem cond_row (hC : C.Ok) (h : Q.Of C) {nc c : Nat} (hc : c < nc) {um uv : Nat → List ((Nat × Nat) × ℝ)}
    (hm : ∀ q < Q.R.nr, (um q).Perm ((Q.events nc q).flatMap scatterMat)) (hv : ∀ q < Q.R.nr, (uv q).Perm ((Q.events nc q).flatMap (scatterVec nc)))
    (x : Nat → ℝ) (g : Nat) :
    ∑ l ∈ range Q.R.s.total, Q.mat um g l * x l - Q.rhs uv g c =
      (Q.all.map fun p => condPrim (Q.blks c p) (fun b => Q.R.num (Q.bd p b)) (fun b => x (Q.R.num (Q.bd p b))) g +
        ∑ b : Fin (Q.nB p.1 p.2), if Q.R.num (Q.bd p b) = g then
          (Q.updMat nc p.1 p.2).mulVec (fun b' => x (Q.R.num (Q.bd p b'))) b - Q.updRhs nc p.1 p.2 c b else 0).sum := by
  rw [cond_assembled hC h hc hm hv, sum_evs]
  congr 1
  refine List.map_congr_left fun p hp => ?_
  unfold CRun.kevs condPrim CRun.blks
  rw [List.map_append, List.sum_append, List.map_map, List.map_map, List.map_cons, List.map_nil, List.sum_singleton, fin_part]
  congr 1
  congr 1
  refine List.map_congr_left fun k hk => ?_
  exact ker_part hC h c x g hp hk

/-- With the recovered internal values, primary rows of both systems have one residual. -/
theorem rows_agree (hC : C.Ok) (h : Q.Of C) {nc c : Nat} (hc : c < nc) {um uv : Nat → List ((Nat × Nat) × ℝ)}
    (hm : ∀ q < Q.R.nr, (um q).Perm ((Q.events nc q).flatMap scatterMat)) (hv : ∀ q < Q.R.nr, (uv q).Perm ((Q.events nc q).flatMap (scatterVec nc)))
    (x z : Nat → ℝ) (hz : ∀ g < Q.R.s.total, z g = x g)
    (hy : ∀ p ∈ Q.all, ∀ a : Fin (Q.nI p.1 p.2), z (Q.num' (Q.ik p a)) = Q.recover nc p.1 p.2 c x a) {g : Nat} (hg : g < Q.R.s.total) :
    (C.full.elems.map (kres Q c z g)).sum = ∑ l ∈ range Q.R.s.total, Q.mat um g l * x l - Q.rhs uv g c := by
  rw [prim_row hC h c z hg, cond_row hC h hc hm hv]
  congr 1
  refine List.map_congr_left fun p hp => ?_
  have hX : ∀ b < Q.nB p.1 p.2, z (Q.num' (Q.bd p b)) = x (Q.R.num (Q.bd p b)) := by
    intro b hb
    have hu := (bd_used hC h hp hb).2
    rw [num'_prim hC h hu]
    exact hz _ (num_lt (prim_ok hC) h.run h.marked hu)
  rw [fullPrim_eq (blks_ok hC h c hp)]
  congr 1
  · unfold condPrim
    congr 1
    refine List.map_congr_left fun k hk => ?_
    congr 1
    refine List.map_congr_left fun q _ => ?_
    refine if_congr Iff.rfl ?_ rfl
    congr 2
    refine List.map_congr_left fun q' hq' => ?_
    beta_reduce
    rw [hX _ ((blks_ok hC h c hp k hk).prim q' hq')]
  · refine sum_congr rfl fun b _ => ?_
    refine if_congr Iff.rfl ?_ rfl
    have hY : (fun a : Fin (Q.nI p.1 p.2) => z (Q.num' (Q.ik p a))) = Q.recover nc p.1 p.2 c x := funext fun a => hy p hp a
    have hXb : (fun b : Fin (Q.nB p.1 p.2) => x (Q.gdof p.1 (p.2.key ((primaryDofs (Q.info p.1 p.2)).get b)))) = fun b : Fin (Q.nB p.1 p.2) => x (Q.R.num (Q.bd p b)) := by
      funext b
      have hb : p.2.key ((primaryDofs (Q.info p.1 p.2)).get b) = Q.bd p b := by
        unfold CRun.bd
        rw [List.getD_eq_getElem?_getD, List.getElem?_eq_getElem b.2]
        rfl
      rw [hb, gdof_eq h (mem_all.1 hp).1 (mem_all.1 hp).2 (bd_used hC h hp b.2).1]
    rw [hY, ← upper_eq c nc p]
    unfold CRun.recover CRun.updMat CRun.updRhs
    rw [hXb]
    simp only [Matrix.mulVec_sub, Matrix.mulVec_mulVec, Matrix.neg_mulVec, Pi.sub_apply, Pi.neg_apply, Matrix.mul_assoc]
    ring

end

end Verif.CondDistr
