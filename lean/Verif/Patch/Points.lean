import Verif.Patch.Lemmas

/-! # The quadrature points of a pair -/
namespace Verif.Patch
open Verif.Elem Verif.Mapping Verif.Quad Verif.Basis Finset

theorem mapM_mem {A B : Type} {f : A → Option B} : ∀ {l : List A} {r : List B}, l.mapM f = some r → ∀ y ∈ r, ∃ a ∈ l, f a = some y
  | [], r, h, y, hy => by
    rw [List.mapM_nil] at h
    cases h
    cases hy
  | a :: l, r, h, y, hy => by
    rw [List.mapM_cons] at h
    obtain ⟨b, hb, h⟩ := Option.bind_eq_some_iff.1 h
    obtain ⟨bs, hbs, h⟩ := Option.bind_eq_some_iff.1 h
    cases h
    rcases List.mem_cons.1 hy with rfl | hy
    · exact ⟨a, List.mem_cons_self, hb⟩
    · obtain ⟨a', ha', h'⟩ := mapM_mem hbs y hy
      exact ⟨a', List.mem_cons_of_mem _ ha', h'⟩

variable {t : ElType}

theorem physDer_congr (t : ElType) (n : Nat) (x : Nat → ℝ) (vert : Nat → Nat → ℝ) {p q : Nat → ℝ} (h : ∀ k, k < t.dim → p k = q k) (d b : Nat) :
    SumOp.physDer t n x vert p d b = SumOp.physDer t n x vert q d b := by
  unfold SumOp.physDer
  rw [Flux.jac_congr t vert h]
  have : refBasisDers t n x p = refBasisDers t n x q := by
    funext d i
    exact Flux.basisDer_congr t n x d i h
  rw [this]

theorem eval_congr (e : PElem t) {p q : Nat → ℝ} (h : ∀ k, k < t.dim → p k = q k) (normal : Option (Fin t.dim → ℝ)) :
    e.eval p normal = e.eval q normal := by
  unfold PElem.eval
  congr 2
  · funext i
    exact sum_congr rfl fun b _ => by rw [basisFun_congr t _ _ b h]
  · funext d i
    exact sum_congr rfl fun b _ => by rw [physDer_congr t _ _ _ h]
  · funext k
    exact phys_congr t _ h _

theorem upd_congr (e : PElem t) {p q : Nat → ℝ} (h : ∀ k, k < t.dim → p k = q k) (normal : Option (Fin t.dim → ℝ)) (w : ℝ) :
    e.upd p normal w = e.upd q normal w := by
  unfold PElem.upd
  rw [eval_congr e h]
  congr 1
  · funext b; exact basisFun_congr t _ _ b h
  · funext d b; exact physDer_congr t _ _ _ h d b

theorem rule_cube {qo : Nat} {r : Rule1} (hr : IsReferenceRule qo r) (pw : (Nat → ℝ) × ℝ) (h : pw ∈ AsmOrd.elemRule t r) :
    (fun k : Fin t.dim => pw.1 k) ∈ cube t.dim ∧ 0 < pw.2 := by
  have hp := (C66_points qo r hr).2.1
  cases t with
  | line =>
    obtain ⟨a, ha, rfl⟩ := List.mem_map.1 h
    have := hp a ha
    exact ⟨⟨fun _ => this.1.le, fun _ => this.2.1.le⟩, this.2.2.1⟩
  | quad =>
    obtain ⟨ab, hab, rfl⟩ := List.mem_map.1 h
    obtain ⟨a, ha, hab⟩ := List.mem_flatMap.1 hab
    obtain ⟨b, hb, rfl⟩ := List.mem_map.1 hab
    have h1 := hp a ha
    have h2 := hp b hb
    refine ⟨⟨fun k => ?_, fun k => ?_⟩, mul_pos h1.2.2.1 h2.2.2.1⟩
    · show -1 ≤ if (k : Nat) = 0 then a.1 else b.1
      split
      · exact h1.1.le
      · exact h2.1.le
    · show (if (k : Nat) = 0 then a.1 else b.1) ≤ 1
      split
      · exact h1.2.1.le
      · exact h2.2.1.le
  | hex =>
    obtain ⟨ab, hab, rfl⟩ := List.mem_map.1 h
    obtain ⟨a, ha, hab⟩ := List.mem_flatMap.1 hab
    obtain ⟨b, hb, hab⟩ := List.mem_flatMap.1 hab
    obtain ⟨c, hc, rfl⟩ := List.mem_map.1 hab
    have h1 := hp a ha
    have h2 := hp b hb
    have h3 := hp c hc
    refine ⟨⟨fun k => ?_, fun k => ?_⟩, mul_pos (mul_pos h1.2.2.1 h2.2.2.1) h3.2.2.1⟩
    · show -1 ≤ if (k : Nat) = 0 then a.1 else if (k : Nat) = 1 then b.1 else c.1
      split
      · exact h1.1.le
      · split
        · exact h2.1.le
        · exact h3.1.le
    · show (if (k : Nat) = 0 then a.1 else if (k : Nat) = 1 then b.1 else c.1) ≤ 1
      split
      · exact h1.2.1.le
      · split
        · exact h2.2.1.le
        · exact h3.2.1.le

theorem sideRule_ref {qo : Nat} {r : Rule1} (hr : IsReferenceRule qo r) (uw : (Fin (t.dim - 1) → ℝ) × ℝ) (h : uw ∈ Flux.sideRule t r) :
    InRef _ uw.1 ∧ 0 < uw.2 := by
  have hp := (C66_points qo r hr).2.1
  cases t with
  | line =>
    cases List.mem_singleton.1 h
    exact ⟨fun k => k.elim0, one_pos⟩
  | quad =>
    obtain ⟨a, ha, rfl⟩ := List.mem_map.1 h
    have := hp a ha
    exact ⟨fun _ => ⟨this.1.le, this.2.1.le⟩, this.2.2.1⟩
  | hex =>
    obtain ⟨ab, hab, rfl⟩ := List.mem_map.1 h
    obtain ⟨a, ha, hab⟩ := List.mem_flatMap.1 hab
    obtain ⟨b, hb, rfl⟩ := List.mem_map.1 hab
    have h1 := hp a ha
    have h2 := hp b hb
    refine ⟨fun k => ?_, mul_pos h1.2.2.1 h2.2.2.1⟩
    change Fin 2 at k
    show -1 ≤ (if k = (0 : Fin 2) then a.1 else b.1) ∧ (if k = (0 : Fin 2) then a.1 else b.1) ≤ 1
    split
    · exact ⟨h1.1.le, h1.2.1.le⟩
    · exact ⟨h2.1.le, h2.2.1.le⟩

theorem side_lt {s : Nat} {u : Fin (t.dim - 1) → ℝ} {p : Fin t.dim → ℝ} (h : sidePoint t s u = some p) : s < nSides t := by
  unfold sidePoint at h
  obtain ⟨m, hm, _⟩ := Option.map_eq_some_iff.1 h
  have := (List.getElem?_eq_some_iff.1 hm).1
  cases t <;> simpa [nSides, table, lineTable, quadTable, hexTable, sideTable] using this

theorem bjac_nonneg {s : Nat} {J : Matrix (Fin t.dim) (Fin t.dim) ℝ} {m : ℝ} (h : boundaryJacobian t s J = some m) : 0 ≤ m := by
  cases t with
  | line => cases h; exact le_refl _
  | quad =>
    obtain ⟨_, _, rfl⟩ := Option.map_eq_some_iff.1 h
    exact Real.sqrt_nonneg _
  | hex =>
    obtain ⟨_, _, rfl⟩ := Option.map_eq_some_iff.1 h
    exact Real.sqrt_nonneg _

/-- Every update belongs to a quadrature point of the element. -/
theorem point_of_upd (e : PElem t) {qo : Nat} (hr : IsReferenceRule qo e.rule) {L : Lsq.LElem} (hL : e.toL = some L) (U : Batch.Upd) (hU : U ∈ L.pts) :
    ∃ q normal w, IsPoint e q normal ∧ q ∈ cube t.dim ∧ U = e.upd (emb q) normal w ∧ 0 ≤ w ∧
      (e.side = none → 0 < (jacobiMat t e.vert (emb q)).det) := by
  obtain ⟨pts, hp, rfl⟩ := Option.map_eq_some_iff.1 hL
  unfold PElem.pts at hp
  cases hs : e.side with
  | none =>
    rw [hs] at hp
    obtain ⟨pw, hpw, h⟩ := mapM_mem hp U hU
    have hk : ∀ k, k < t.dim → pw.1 k = emb (fun k : Fin t.dim => pw.1 k) k := fun k hk => by simp [emb, hk]
    unfold PElem.domainPt at h
    split at h
    · rename_i hd
      cases h
      refine ⟨fun k => pw.1 k, none, _, ?_, (rule_cube hr pw hpw).1, upd_congr e hk _ _, ?_, fun _ => ?_⟩
      · unfold IsPoint
        rw [hs]
        exact ⟨rfl, pw, hpw, fun _ => rfl⟩
      · exact (mul_pos hd (rule_cube hr pw hpw).2).le
      · rw [← Flux.jac_congr t e.vert hk]; exact hd
    · cases h
  | some s =>
    rw [hs] at hp
    obtain ⟨uw, huw, h⟩ := mapM_mem hp U hU
    unfold PElem.sidePt at h
    obtain ⟨p, hp', h⟩ := Option.bind_eq_some_iff.1 h
    obtain ⟨v, hv, h⟩ := Option.bind_eq_some_iff.1 h
    obtain ⟨m, hm, rfl⟩ := Option.map_eq_some_iff.1 h
    have href := sideRule_ref hr uw huw
    obtain ⟨p', _, h1, _, _, h2, _⟩ := C70_side_point t s (side_lt hp') uw.1 uw.1
    rw [hp'] at h1
    cases h1
    refine ⟨p, some v, _, ?_, ⟨fun k => (h2 href.1 k).1, fun k => (h2 href.1 k).2⟩, rfl, mul_nonneg (bjac_nonneg hm) href.2.le, fun h => by cases h⟩
    unfold IsPoint
    rw [hs]
    exact ⟨uw, huw, hp', v, hv, rfl⟩

end Verif.Patch
