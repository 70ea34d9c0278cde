import Verif.MfPipe.Evals

/-! # Lemmas for C121: evaluated by elements, assembled by kernels -/
namespace Verif.MfPipe
open Verif Verif.Elem Verif.Mesh Verif.Dofs Verif.Lsq Verif.LocView Verif.Pipeline Verif.Partition

noncomputable section

variable {kinds : List (ElType × Nat)} {q : Split.Part} {D : Nat}

theorem collapse {A B : Type} [DecidableEq A] {l : List A} (h : l.Nodup) (j : A) (F : A → List B) :
    (l.flatMap fun k => if j = k then F k else []) = if j ∈ l then F j else [] := by
  induction l with
  | nil => simp
  | cons a l ih =>
    obtain ⟨h1, h2⟩ := List.nodup_cons.1 h
    rw [List.flatMap_cons, ih h2]
    by_cases hj : j = a
    · subst hj; simp [h1]
    · simp [hj]

theorem flatMap_single {A B : Type} (l : List A) (P : Prop) [Decidable P] (g : A → B) :
    (l.flatMap fun e => if P then [g e] else []) = if P then l.map g else [] := by
  by_cases h : P
  · simp only [if_pos h]; exact List.flatMap_pure_eq_map g l
  · simp [h]

theorem map_kernels {K B : Type} (l : List K) (idsOf : K → List Nat) (k : Nat) (F : K → B) :
    (l.flatMap fun a => ((idsOf a).filter (· == k)).map fun _ => a).map F = l.flatMap fun a => (idsOf a).flatMap fun j => if j = k then [F a] else [] := by
  rw [List.map_flatMap]
  congr 1
  funext a
  rw [List.map_map]
  induction idsOf a with
  | nil => rfl
  | cons j t ih =>
    rw [List.filter_cons, List.flatMap_cons, ← ih]
    by_cases h : j = k
    · simp [h]
    · simp [h]

theorem domPairs_snd_nodup (h : RankOk kinds q D) : ((domPairs q).map (·.2)).Nodup := by
  have hs : (domPairs q).Sublist (Split.tagged q.doms (q.doms.map (·.1))) := by
    unfold domPairs Split.tagged
    generalize q.doms.map (·.1) = keys
    induction keys with
    | nil => exact List.Sublist.refl _
    | cons k keys ih =>
      rw [List.flatMap_cons, List.filter_cons, Split.visitIds_single]
      by_cases hk : decide (k ∉ q.bnds.map (·.1)) = true
      · rw [if_pos hk, List.flatMap_cons]
        exact List.Sublist.append (List.Sublist.refl _) ih
      · rw [if_neg hk]
        exact ih.trans (List.sublist_append_right _ _)
  have := h.split.ids.sublist (hs.map _)
  have h2 : ((domPairs q).map (·.2.id)) = ((domPairs q).map (·.2)).map (·.id) := by rw [List.map_map]; rfl
  rw [h2] at this
  exact List.Nodup.of_map _ this

theorem parent_mem (h : RankOk kinds q D) {b : Nat} (hb : b ∈ q.bnds.map (·.1)) {v : Element × Nat} (hv : v ∈ bviews q b) : v.1 ∈ (domPairs q).map (·.2) := by
  obtain ⟨x, hx, hxv⟩ := List.mem_filterMap.1 hv
  obtain ⟨dx, hdx, hxe⟩ := mem_domEls.1 hx
  obtain ⟨⟨d, hd, hdim, w, hw, he⟩, _⟩ := viewOf_some (e := v.1) (s := v.2) h.keys hxv
  have hlk := Mesh.lookup_of_mem h.keys hd
  have hnb : d.1 ∉ q.bnds.map (·.1) := by
    intro hc
    have h1 := h.split.bndDim d.1 hc d.2 hlk
    have h2 := h.split.bndDim b hb dx hdx
    have h3 := (h.split.wf.dom b dx hdx).dim x hxe
    rw [h1] at hdim
    rw [h2] at h3
    have := Option.some.inj hdim
    have := Option.some.inj h3
    omega
  refine List.mem_map.2 ⟨(d.1, v.1), List.mem_flatMap.2 ⟨d.1, List.mem_filter.2 ⟨List.mem_map.2 ⟨d, hd, rfl⟩, by simpa using hnb⟩, ?_⟩, rfl⟩
  exact List.mem_map.2 ⟨v.1, mem_domEls.2 ⟨d.2, hlk, List.mem_flatten.2 ⟨w, hw, he⟩⟩, rfl⟩

/-- What assembly does on the rank's mesh, kernel by kernel. -/
def asmEvals (p : Prog) (q : Split.Part) (ldm : Nat → Nat → Option Nat) : List LElem :=
  (p.kernels.flatMap fun K => (visitIds q.doms K.doms).map fun e => eE q ldm e K) ++
    p.bkernels.flatMap fun K => ((visitIds q.doms K.bnds).filterMap (viewOf q.doms)).map fun v => eS q ldm v.1 v.2 K

theorem pairs_dom (h : RankOk kinds q D) {B : Type} (g : Element → B) {j : Nat} (hj : j ∉ q.bnds.map (·.1)) :
    ((domPairs q).flatMap fun ke => if j = ke.1 then [g ke.2] else []) = (domEls q.doms j).map g := by
  unfold domPairs
  rw [List.flatMap_assoc]
  simp only [List.flatMap_map, flatMap_single]
  have hn : ((q.doms.map (·.1)).filter fun k => k ∉ q.bnds.map (·.1)).Nodup := List.Nodup.filter _ h.keys
  rw [collapse hn]
  by_cases hk : j ∈ q.doms.map (·.1)
  · rw [if_pos (List.mem_filter.2 ⟨hk, by simpa using hj⟩)]
  · rw [if_neg fun hc => hk (List.mem_filter.1 hc).1]
    unfold domEls
    cases hc : q.doms.lookup j with
    | none => rfl
    | some d => exact absurd (List.mem_map.2 ⟨_, Mesh.mem_of_lookup hc, rfl⟩) hk

theorem pairs_side (h : RankOk kinds q D) {B : Type} (F : Element → List B) {e : Element} (he : e ∈ (domPairs q).map (·.2)) :
    ((domPairs q).flatMap fun ke => if e = ke.2 then F ke.2 else []) = F e := by
  have := collapse (domPairs_snd_nodup h) e F
  rw [List.flatMap_map, if_pos he] at this
  exact this

theorem elEvals_asm (h : RankOk kinds q D) {p : Prog} (hd : ∀ K ∈ p.kernels, ∀ k ∈ K.doms, k ∉ q.bnds.map (·.1))
    (hb : ∀ K ∈ p.bkernels, K.bnds ⊆ q.bnds.map (·.1)) (ldm : Nat → Nat → Option Nat) :
    ((domPairs q).flatMap fun ke => elEvals p q ldm ke.1 ke.2).Perm (asmEvals p q ldm) := by
  unfold elEvals asmEvals
  refine (flatMap_append_perm _ _ _).trans (List.Perm.append ?_ ?_)
  · unfold domKernels
    simp only [map_kernels]
    refine (flatMap_swap _ _ _).trans (flatMap_perm_congr fun K hK => ?_)
    refine (flatMap_swap _ _ _).trans ?_
    rw [visitIds_domEls, List.map_flatMap]
    refine flatMap_perm_congr fun j hj => ?_
    rw [pairs_dom h (fun e => eE q ldm e K) (hd K hK j hj)]
  · have e1 : ∀ ke : Nat × Element, ((bsides q ke.2).flatMap fun sb => (bndKernels p sb.2).map (eS q ldm ke.2 sb.1)) =
        (q.bnds.map (·.1)).flatMap fun b => (bviews q b).flatMap fun v => if v.1 = ke.2 then (bndKernels p b).map (eS q ldm ke.2 v.2) else [] := by
      intro ke
      unfold bsides
      rw [List.flatMap_assoc]
      congr 1
      funext b
      rw [List.flatMap_assoc]
      congr 1
      funext v
      split <;> simp
    simp only [e1]
    refine (flatMap_swap _ _ _).trans ?_
    have e2 : ((q.bnds.map (·.1)).flatMap fun b => (domPairs q).flatMap fun ke => (bviews q b).flatMap fun v =>
        if v.1 = ke.2 then (bndKernels p b).map (eS q ldm ke.2 v.2) else []).Perm
        ((q.bnds.map (·.1)).flatMap fun b => p.bkernels.flatMap fun K => K.bnds.flatMap fun j => (bviews q b).flatMap fun v => if j = b then [eS q ldm v.1 v.2 K] else []) := by
      refine flatMap_perm_congr fun b hbb => ?_
      refine (flatMap_swap _ _ _).trans ?_
      have e3 : ((bviews q b).flatMap fun v => (domPairs q).flatMap fun ke => if v.1 = ke.2 then (bndKernels p b).map (eS q ldm ke.2 v.2) else []) =
          (bviews q b).flatMap fun v => p.bkernels.flatMap fun K => K.bnds.flatMap fun j => if j = b then [eS q ldm v.1 v.2 K] else [] := by
        refine List.flatMap_congr fun v hv => ?_
        rw [pairs_side h (fun e => (bndKernels p b).map (eS q ldm e v.2)) (parent_mem h hbb hv)]
        unfold bndKernels
        rw [map_kernels]
      rw [e3]
      exact (flatMap_swap _ _ _).trans (flatMap_perm_congr fun K _ => flatMap_swap _ _ _)
    refine e2.trans ((flatMap_swap _ _ _).trans (flatMap_perm_congr fun K hK => (flatMap_swap _ _ _).trans ?_))
    rw [visitIds_domEls, List.filterMap_flatMap, List.map_flatMap]
    refine flatMap_perm_congr fun j hj => ?_
    simp only [flatMap_single]
    rw [collapse (h.split.bndSorted.imp Nat.ne_of_lt) j fun b => (bviews q b).map fun v => eS q ldm v.1 v.2 K, if_pos (hb K hK hj)]
    exact List.Perm.refl _

theorem filter_not_perm {A B : Type} (l : List A) (c : A → Bool) (F : A → List B) :
    (((l.filter c).flatMap F) ++ (l.filter fun a => !c a).flatMap F).Perm (l.flatMap F) := by
  rw [← List.flatMap_append]
  exact (List.filter_append_perm c l).flatMap_right F

end

end Verif.MfPipe
