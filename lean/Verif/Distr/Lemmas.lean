import Verif.Distr.Spec

/-! # Lemmas for C112: the functional of a distributed system is the one of the problem -/
namespace Verif.Distr
open MatFree MfInit Lsq Finset

noncomputable section

variable {κ : Type} {P : Problem κ} {N nr : Nat} {D : Nat → Prop} {ranks : Nat → LRank} {v : Nat → Nat → ℝ} {num : κ → Nat}

theorem residual_congr (d : Batch.Dims) (U : Batch.Upd) (y y' : Nat → ℝ) (c q : Nat) (h : ∀ i < d.size, y i = y' i) :
    Lsq.residual d U y c q = Lsq.residual d U y' c q := by
  have hi : ∀ b ∈ range d.nb, ∀ w ∈ range d.nu, y (b * d.nu + w) = y' (b * d.nu + w) := by
    intro b hb w hw
    have hb := mem_range.1 hb
    have hw := mem_range.1 hw
    refine h _ ?_
    unfold Batch.Dims.size
    calc b * d.nu + w < b * d.nu + d.nu := by omega
      _ = (b + 1) * d.nu := by ring
      _ ≤ d.nb * d.nu := Nat.mul_le_mul_right _ hb
  have h1 : ∀ w ∈ range d.nu, uVal d U y w = uVal d U y' w := fun w hw => by
    unfold uVal; exact sum_congr rfl fun b hb => by rw [hi b hb w hw]
  have h2 : ∀ k, ∀ w ∈ range d.nu, uDer d U y k w = uDer d U y' k w := fun k w hw => by
    unfold uDer; exact sum_congr rfl fun b hb => by rw [hi b hb w hw]
  unfold Lsq.residual
  rw [sum_congr rfl fun w hw => by rw [h1 w hw], sum_congr rfl fun k _ => sum_congr rfl fun w hw => by rw [h2 k w hw]]

/-- Contribution of one element. -/
def KElem.J (c : Nat) (f : κ → ℝ) (e : KElem κ) : ℝ :=
  (e.pts.map fun U => U.w * ∑ q ∈ range e.dims.us, Lsq.residual e.dims U (fieldAt f e) c q ^ 2).sum

theorem numbered_get {l2g : List Nat} {e : KElem κ} {a : LElem} (h : Numbered num l2g e a) (u : Nat → ℝ) {i : Nat} (hi : i < e.keys.length) :
    u (l2g.getD (a.dofs.getD i 0) 0) = fieldAt (fun k => u (num k)) e i := by
  have hl : a.dofs.length = e.keys.length := by simpa using congrArg List.length h.dofs
  have h1 : (a.dofs.map (fun d => l2g.getD d 0))[i]? = (e.keys.map num)[i]? := by rw [h.dofs]
  rw [List.getElem?_map, List.getElem?_map, List.getElem?_eq_getElem hi, List.getElem?_eq_getElem (by omega)] at h1
  have h2 : l2g.getD a.dofs[i] 0 = num e.keys[i] := by simpa using h1
  unfold fieldAt
  rw [List.getElem?_eq_getElem hi, List.getD_eq_getElem?_getD (l := a.dofs), List.getElem?_eq_getElem (by omega)]
  simp only [Option.getD_some, Option.elim_some]
  rw [h2]

theorem elem_eq {l2g : List Nat} {e : KElem κ} {a : LElem} (h : Numbered num l2g e a) (hs : e.keys.length = e.dims.size) (u : Nat → ℝ) (c : Nat) :
    elemJ a (fun i => u (l2g.getD (a.dofs.getD i 0) 0)) c = e.J c fun k => u (num k) := by
  unfold elemJ KElem.J
  rw [h.pts, h.dims]
  congr 1
  refine List.map_congr_left fun U _ => ?_
  congr 1
  refine sum_congr rfl fun q _ => ?_
  rw [residual_congr]
  intro i hi
  exact numbered_get h u (by omega)

theorem forall₂_sum {A B : Type} {R : A → B → Prop} {l : List A} {m : List B} (h : List.Forall₂ R l m) (f : A → ℝ) (g : B → ℝ)
    (hf : ∀ a ∈ l, ∀ b ∈ m, R a b → g b = f a) : (m.map g).sum = (l.map f).sum := by
  induction h with
  | nil => rfl
  | cons hab _ ih =>
    rw [List.map_cons, List.map_cons, List.sum_cons, List.sum_cons, hf _ (by simp) _ (by simp) hab,
      ih fun a ha b hb => hf a (by simp [ha]) b (by simp [hb])]

theorem functional_intrinsic (hP : P.Ok) (h : Represents P N nr D ranks v num) (c : Nat) (u : Nat → ℝ) :
    functional nr ranks c u = P.J c fun k => u (num k) := by
  obtain ⟨part, hperm, hpart⟩ := h.parts
  have h1 : P.J c (fun k => u (num k)) = (((List.range nr).flatMap part).map (KElem.J c fun k => u (num k))).sum :=
    ((hperm.map _).sum_eq).symm
  rw [h1, Lsq.sum_flatMap, sum_range_list]
  unfold functional
  refine sum_congr rfl fun q hq => ?_
  refine forall₂_sum (hpart q (mem_range.1 hq)) _ _ fun e he a _ hea => ?_
  refine elem_eq hea (hP.sized e (hperm.subset ?_)) u c
  exact List.mem_flatMap.2 ⟨q, List.mem_range.2 (mem_range.1 hq), he⟩

theorem forall₂_right {A B : Type} {R : A → B → Prop} {l : List A} {m : List B} (h : List.Forall₂ R l m) : ∀ b ∈ m, ∃ a ∈ l, R a b := by
  induction h with
  | nil => intro b hb; cases hb
  | cons hab _ ih =>
    intro b hb
    rcases List.mem_cons.1 hb with rfl | hb
    · exact ⟨_, by simp, hab⟩
    · obtain ⟨a, ha, hr⟩ := ih b hb
      exact ⟨a, by simp [ha], hr⟩

theorem rank_elem (h : Represents P N nr D ranks v num) {q : Nat} (hq : q < nr) {a : LElem} (ha : a ∈ (ranks q).elems) :
    ∃ e ∈ P.elems, Numbered num (ranks q).l2g e a := by
  obtain ⟨part, hperm, hpart⟩ := h.parts
  obtain ⟨e, he, hr⟩ := forall₂_right (hpart q hq) a ha
  exact ⟨e, hperm.subset (List.mem_flatMap.2 ⟨q, List.mem_range.2 hq, he⟩), hr⟩

theorem sized (hP : P.Ok) (h : Represents P N nr D ranks v num) : Sized nr ranks := by
  intro q hq a ha
  obtain ⟨e, he, hr⟩ := rank_elem h hq ha
  have : a.dofs.length = e.keys.length := by simpa using congrArg List.length hr.dofs
  rw [this, hr.dims, hP.sized e he]

theorem weighted (hP : P.Ok) (h : Represents P N nr D ranks v num) : Weighted nr ranks := by
  intro q hq a ha U hU
  obtain ⟨e, he, hr⟩ := rank_elem h hq ha
  rw [hr.pts] at hU
  exact hP.weights e he U hU

theorem fieldAt_congr {f g : κ → ℝ} {e : KElem κ} (h : ∀ k ∈ e.keys, f k = g k) : fieldAt f e = fieldAt g e := by
  funext i
  unfold fieldAt
  cases hk : e.keys[i]? with
  | none => rfl
  | some k => exact h k (List.mem_of_getElem? hk)

theorem J_congr (hP : P.Ok) {c : Nat} {f g : κ → ℝ} (h : ∀ k, P.used k → f k = g k) : P.J c f = P.J c g := by
  unfold Problem.J
  congr 1
  refine List.map_congr_left fun e he => ?_
  rw [fieldAt_congr fun k hk => h k (hP.used e he k hk)]

theorem admissible_congr {c : Nat} {f g : κ → ℝ} (h : ∀ k, P.used k → f k = g k) : P.Admissible c f ↔ P.Admissible c g := by
  unfold Problem.Admissible
  constructor
  · rintro ⟨h1, h2⟩
    exact ⟨fun k k' hk hk' hs => by rw [← h k hk, ← h k' hk']; exact h1 k k' hk hk' hs, fun k hk hd => by rw [← h k hk]; exact h2 k hk hd⟩
  · rintro ⟨h1, h2⟩
    exact ⟨fun k k' hk hk' hs => by rw [h k hk, h k' hk']; exact h1 k k' hk hk' hs, fun k hk hd => by rw [h k hk]; exact h2 k hk hd⟩

theorem minimises_congr (hP : P.Ok) {c : Nat} {f g : κ → ℝ} (h : ∀ k, P.used k → f k = g k) : P.Minimises c f ↔ P.Minimises c g := by
  unfold Problem.Minimises
  rw [admissible_congr h, J_congr hP h]

theorem admissible_iff (h : Represents P N nr D ranks v num) (c : Nat) (x : Nat → ℝ) :
    P.Admissible c (fun k => x (num k)) ↔ ∀ g < N, D g → x g = v g c := by
  constructor
  · rintro ⟨_, h2⟩ g hg hD
    obtain ⟨k, hk, hd, rfl⟩ := (h.con g hg).1 hD
    exact (h2 k hk hd).trans (h.val k hk hd c).symm
  · intro hx
    refine ⟨fun k k' hk hk' hs => ?_, fun k hk hd => ?_⟩
    · change x (num k) = x (num k'); rw [(h.inj k k' hk hk').2 hs]
    · change x (num k) = _
      rw [hx _ (h.lt k hk) ((h.con _ (h.lt k hk)).2 ⟨k, hk, hd, rfl⟩), h.val k hk hd]

/-- Every field with equal values at identified unknowns is represented by a vector. -/
theorem exists_vector (h : Represents P N nr D ranks v num) (f : κ → ℝ) (hf : ∀ k k', P.used k → P.used k' → P.same k k' → f k = f k') :
    ∃ x : Nat → ℝ, ∀ k, P.used k → x (num k) = f k := by
  classical
  refine ⟨fun g => if hg : ∃ k, P.used k ∧ num k = g then f hg.choose else 0, fun k hk => ?_⟩
  have hg : ∃ k', P.used k' ∧ num k' = num k := ⟨k, hk, rfl⟩
  beta_reduce
  rw [dif_pos hg]
  exact hf _ _ hg.choose_spec.1 hk ((h.inj _ _ hg.choose_spec.1 hk).1 hg.choose_spec.2)

theorem minimises_iff (hP : P.Ok) (h : Represents P N nr D ranks v num) (c : Nat) (x : Nat → ℝ) :
    P.Minimises c (fun k => x (num k)) ↔ (∀ g < N, D g → x g = v g c) ∧
      ∀ z : Nat → ℝ, (∀ g < N, D g → z g = v g c) → functional nr ranks c x ≤ functional nr ranks c z := by
  unfold Problem.Minimises
  rw [admissible_iff h]
  refine and_congr_right fun _ => ?_
  constructor
  · intro hm z hz
    rw [functional_intrinsic hP h, functional_intrinsic hP h]
    exact hm _ ((admissible_iff h c z).2 hz)
  · intro hm f hf
    obtain ⟨z, hz⟩ := exists_vector h f hf.1
    have := hm z ((admissible_iff h c z).1 ((admissible_congr hz).2 hf))
    rw [functional_intrinsic hP h, functional_intrinsic hP h, J_congr hP hz] at this
    exact this

end

end Verif.Distr
