import Verif.Reach.Filled
import Verif.MfPipe.Props

/-! # C123: setting values reaches exactly the nodes of the listed domains or boundaries -/
namespace Verif.Reach
open Verif Verif.Elem Verif.Mesh Verif.LocView Verif.MfPipe Verif.Pipeline Verif.Partition
open Verif.Split (lineKinds twoQuads)

noncomputable section

variable {kinds : List (ElType × Nat)} {q : Split.Part} {D : Nat}

theorem flatMap_filter_ite {A B : Type} (l : List A) (c : A → Prop) [DecidablePred c] (F : A → List B) :
    (l.filter fun a => decide (c a)).flatMap F = l.flatMap fun a => if c a then F a else [] := by
  induction l with
  | nil => rfl
  | cons a l ih =>
    rw [List.filter_cons, List.flatMap_cons, ← ih]
    by_cases h : c a <;> simp [h]

theorem mk_check {sel : Element → Bool} {t : Split.Part} (h : RankOk kinds q D) (ht : Half q sel t) (hf : Filled t.doms) {ord : Nat → Orders} {v : View}
    (hv : mkView q.own t ord = some v) (ids : List Nat) (dim : Nat) : v.check ids dim = true ↔ ∀ k ∈ ids, ∀ e, InDom t.doms k e → e.ty.dim = dim := by
  unfold View.check
  rw [List.all_eq_true]
  refine forall₂_congr fun k _ => ?_
  rw [beq_iff_eq]
  cases hd : v.dim k with
  | none =>
    refine ⟨fun _ e he => ?_, fun _ => rfl⟩
    rw [(dim_iff h ht hf hv k _).2 ⟨e, he, rfl⟩] at hd
    simp at hd
  | some x =>
    obtain ⟨e, he, rfl⟩ := (dim_iff h ht hf hv k x).1 hd
    refine ⟨fun hx e' he' => ?_, fun hall => hall e he⟩
    rw [(dim_iff h ht hf hv k _).2 ⟨e', he', rfl⟩] at hd
    rw [Option.some.inj hd]; exact hx

theorem elem_half (h : RankOk kinds q D) {p : Element → Bool} {t f : Split.Part} (ht : Half q p t) (hf : Half q (fun e => !p e) f) (k : Nat) (e : Element) :
    InDom q.doms k e ↔ InDom t.doms k e ∨ InDom f.doms k e := by
  refine ⟨fun he => ?_, fun he => he.elim (Half.sub ht) (Half.sub hf)⟩
  by_cases hk : k ∈ q.bnds.map (·.1)
  · obtain ⟨⟨e', s⟩, hv⟩ := bnd_view h hk he
    cases hp : p e' with
    | true => exact Or.inl ((ht.bdoms k hk e).2 ⟨he, e', s, hv, hp⟩)
    | false => exact Or.inr ((hf.bdoms k hk e).2 ⟨he, e', s, hv, by simp [hp]⟩)
  · cases hp : p e with
    | true => exact Or.inl ((inDom_restrict (ht.doms k hk) e).2 ⟨he, hp⟩)
    | false => exact Or.inr ((inDom_restrict (hf.doms k hk) e).2 ⟨he, by simp [hp]⟩)

theorem asm_check (h : RankOk kinds q D) (hfill : Filled q.doms) (ids : List Nat) (dim : Nat) :
    DimCheck.checkDim q.doms ids dim = true ↔ ∀ k ∈ ids, ∀ e, InDom q.doms k e → e.ty.dim = dim := by
  unfold DimCheck.checkDim DimCheck.checkOne
  rw [List.all_eq_true]
  refine forall₂_congr fun k _ => ?_
  cases hd : q.doms.lookup k with
  | none =>
    refine ⟨fun _ e he => ?_, fun _ => rfl⟩
    obtain ⟨d, hd', _⟩ := he
    rw [hd] at hd'; simp at hd'
  | some d =>
    have key := (h.split.wf.dom _ _ hd).dim
    obtain ⟨e, he⟩ := List.exists_mem_of_ne_nil _ (hfill k d hd)
    simp only [beq_iff_eq]
    refine ⟨fun hx e' he' => ?_, fun hall => ?_⟩
    · obtain ⟨d', hd', hm⟩ := he'
      rw [hd] at hd'; obtain rfl := Option.some.inj hd'
      rw [key e' hm] at hx; exact Option.some.inj hx
    · rw [key e he, hall e ⟨d, hd, he⟩]

theorem asm_check_imp (h : RankOk kinds q D) (ids : List Nat) (dim : Nat) (hc : DimCheck.checkDim q.doms ids dim = true) : ∀ k ∈ ids, ∀ e, InDom q.doms k e → e.ty.dim = dim := by
  rintro k hk e ⟨d, hd, he⟩
  have h1 := List.all_eq_true.1 hc k hk
  unfold DimCheck.checkOne at h1
  rw [hd] at h1
  simp only [beq_iff_eq] at h1
  rw [(h.split.wf.dom _ _ hd).dim e he] at h1
  exact Option.some.inj h1

theorem check_imp (h : RankOk kinds q D) {p : Element → Bool} {t f : Split.Part} (ht : Half q p t) (hf : Half q (fun e => !p e) f)
    (ft : Filled t.doms) (ff : Filled f.doms) {o1 o2 : Nat → Orders} {vi vb : View} (hi : mkView q.own t o1 = some vi) (hb : mkView q.own f o2 = some vb) {ids : List Nat} {dim : Nat}
    (hc : DimCheck.checkDim q.doms ids dim = true) : (vi.check ids dim && vb.check ids dim) = true := by
  have hx := asm_check_imp h ids dim hc
  rw [Bool.and_eq_true, mk_check h ht ft hi, mk_check h hf ff hb]
  exact ⟨fun k hk e he => hx k hk e (Half.sub ht he), fun k hk e he => hx k hk e (Half.sub hf he)⟩

/-- The checks made by the two kinds of system are the same. -/
theorem check_iff (h : RankOk kinds q D) (hfill : Filled q.doms) {p : Element → Bool} {t f : Split.Part} (ht : Half q p t) (hf : Half q (fun e => !p e) f)
    (ft : Filled t.doms) (ff : Filled f.doms) {o1 o2 : Nat → Orders} {vi vb : View} (hi : mkView q.own t o1 = some vi) (hb : mkView q.own f o2 = some vb) (ids : List Nat) (dim : Nat) :
    (vi.check ids dim && vb.check ids dim) = DimCheck.checkDim q.doms ids dim := by
  rw [Bool.eq_iff_iff, Bool.and_eq_true, mk_check h ht ft hi, mk_check h hf ff hb, asm_check h hfill]
  refine ⟨fun hx k hk e he => ?_, fun hx => ⟨fun k hk e he => hx k hk e (Half.sub ht he), fun k hk e he => hx k hk e (Half.sub hf he)⟩⟩
  rcases (elem_half h ht hf k e).1 he with he | he
  · exact hx.1 k hk e he
  · exact hx.2 k hk e he

theorem doms_perm (h : RankOk kinds q D) {p : Element → Bool} {t f : Split.Part} (ht : Half q p t) (hf : Half q (fun e => !p e) f)
    {o1 o2 : Nat → Orders} (ho1 : ∀ j k l, ((o1 j k).2 l).Perm l) (ho2 : ∀ j k l, ((o2 j k).2 l).Perm l) {vi vb : View} (hi : mkView q.own t o1 = some vi) (hb : mkView q.own f o2 = some vb)
    {ids : List Nat} (hids : ∀ k ∈ ids, k ∉ q.bnds.map (·.1)) (c : ElType → Prop) [DecidablePred c] :
    (((vi.visit ids).flatMap fun a => if c a.loc.ty then VElem.pts a else []) ++ ((vb.visit ids).flatMap fun a => if c a.loc.ty then VElem.pts a else [])).Perm
      (((visitIds q.doms ids).flatMap fun e => if c e.ty then gEl e else []).map (Pt.at q.own)) := by
  have hF : ∀ (a : VElem) e, a.id = e.id → a.loc.ty = e.ty → a.loc.n = e.n → a.loc.nodes = e.nodes.map (localPos q.own) → Holds q.doms e →
      (if c a.loc.ty then VElem.pts a else []) = if c e.ty then (gEl e).map (Pt.at q.own) else [] := by
    intro a e g1 g2 g3 g4 _
    unfold VElem.pts
    rw [g1, g2, g3, g4, elPts_at]
  refine ((visit_perm' h ht ho1 hi hids _ _ hF).append (visit_perm' h hf ho2 hb hids _ _ hF)).trans ((filter_not_perm _ _ _).trans ?_)
  rw [List.map_flatMap]
  refine flatMap_perm_congr fun e _ => ?_
  by_cases hc : c e.ty <;> simp [hc]

theorem bnds_perm (h : RankOk kinds q D) {p : Element → Bool} {t f : Split.Part} (ht : Half q p t) (hf : Half q (fun e => !p e) f)
    {o1 o2 : Nat → Orders} (ho1 : ∀ j k l, ((o1 j k).2 l).Perm l) (ho2 : ∀ j k l, ((o2 j k).2 l).Perm l) {vi vb : View} (hi : mkView q.own t o1 = some vi) (hb : mkView q.own f o2 = some vb)
    (ids : List Nat) (c : ElType → Prop) [DecidablePred c] :
    (((vi.visitBnd ids).flatMap fun a => if c a.1.loc.ty then vSide a else []) ++ ((vb.visitBnd ids).flatMap fun a => if c a.1.loc.ty then vSide a else [])).Perm
      ((domPairs q).flatMap fun ke => ((bsides q ke.2).filter fun sb => decide (sb.2 ∈ ids)).flatMap fun sb => if c ke.2.ty then (gSide (ke.2, sb.1)).map (Pt.at q.own) else []) := by
  have hF : ∀ (a : VElem) (e : Element) (s b : Nat), a.id = e.id → a.loc.ty = e.ty → a.loc.n = e.n → a.loc.nodes = e.nodes.map (localPos q.own) → Holds q.doms e → OnSide q e s b →
      (fun a : VElem × Nat => if c a.1.loc.ty then vSide a else []) (a, s) = (fun v : Element × Nat => if c v.1.ty then (gSide v).map (Pt.at q.own) else []) (e, s) := by
    intro a e s b g1 g2 g3 g4 he _
    beta_reduce
    unfold vSide
    simp only
    rw [g1, g2, g3, g4, sidePts_at (h.els e he).1]
  refine ((visitBnd_perm h ht ho1 hi ids (fun a : VElem × Nat => if c a.1.loc.ty then vSide a else [])
    (fun v : Element × Nat => if c v.1.ty then (gSide v).map (Pt.at q.own) else []) hF).append (visitBnd_perm h hf ho2 hb ids (fun a : VElem × Nat => if c a.1.loc.ty then vSide a else [])
    (fun v : Element × Nat => if c v.1.ty then (gSide v).map (Pt.at q.own) else []) hF)).trans ?_
  exact filter_not_perm (domPairs q) (fun ke => p ke.2) _

/-- **C123** (kernels on domains).  A kernel setting values on domains is evaluated on a rank of the matrix-free system at the same nodes of the same elements as in the assembled one,
once each, interior and border elements taken together; if no domain of the rank is empty it throws when the other does. -/
theorem C123_domain_kernel (h : RankOk kinds q D) (interior : Element → Bool) {ord : Bool → Nat → List Element → List Element} (hord : ∀ s k l, (ord s k l).Perm l)
    {ords : Bool → Nat → Orders} (hords : ∀ s j k l, ((ords s j k).2 l).Perm l) {ids : List Nat} (hids : ∀ k ∈ ids, k ∉ q.bnds.map (·.1)) (dim : Nat) :
    ∃ vi vb, views kinds q interior ord ords = some (vi, vb) ∧
      (∀ L, asmDom q.doms ids dim = some L → ∃ a b, mfDom vi vb ids dim = some (a, b) ∧ (a ++ b).Perm (L.map (Pt.at q.own))) ∧
      (Filled q.doms → asmDom q.doms ids dim = none → mfDom vi vb ids dim = none) := by
  obtain ⟨t, f, vi, vb, hs, hv, ht, hf, h1, h2⟩ := views_spec h interior ord hord ords hords
  obtain ⟨ft, ff⟩ := split_filled h hord hs
  refine ⟨vi, vb, hv, fun L hL => ?_, fun hfill hn => ?_⟩
  · unfold asmDom DimCheck.assemble at hL
    by_cases hx : DimCheck.checkDim q.doms ids dim = true
    · rw [if_pos hx, Option.map_some] at hL
      obtain rfl := Option.some.inj hL
      refine ⟨_, _, by unfold mfDom; rw [if_pos (check_imp h ht hf ft ff h1 h2 hx)], ?_⟩
      unfold mfDomPts DimCheck.applied
      rw [flatMap_filter_ite, flatMap_filter_ite, flatMap_filter_ite]
      exact doms_perm h ht hf (hords true) (hords false) h1 h2 hids (fun ty => dim = ty.dim)
    · rw [if_neg hx] at hL; simp at hL
  · unfold asmDom DimCheck.assemble at hn
    unfold mfDom
    rw [check_iff h hfill ht hf ft ff h1 h2]
    by_cases hx : DimCheck.checkDim q.doms ids dim = true
    · rw [if_pos hx] at hn; simp at hn
    · rw [if_neg hx]

/-- **C123** (kernels on boundaries).  The same for a kernel on boundaries: the same nodes of the same sides. -/
theorem C123_boundary_kernel (h : RankOk kinds q D) (interior : Element → Bool) {ord : Bool → Nat → List Element → List Element} (hord : ∀ s k l, (ord s k l).Perm l)
    {ords : Bool → Nat → Orders} (hords : ∀ s j k l, ((ords s j k).2 l).Perm l) {ids : List Nat} (hids : ids ⊆ q.bnds.map (·.1)) (hnd : ids.Nodup) (dim : Nat) :
    ∃ vi vb, views kinds q interior ord ords = some (vi, vb) ∧
      (∀ L, asmBnd q.doms ids dim = some L → ∃ a b, mfBnd vi vb ids dim = some (a, b) ∧ (a ++ b).Perm (L.map (Pt.at q.own))) ∧
      (Filled q.doms → asmBnd q.doms ids dim = none → mfBnd vi vb ids dim = none) := by
  obtain ⟨t, f, vi, vb, hs, hv, ht, hf, h1, h2⟩ := views_spec h interior ord hord ords hords
  obtain ⟨ft, ff⟩ := split_filled h hord hs
  refine ⟨vi, vb, hv, fun L hL => ?_, fun hfill hn => ?_⟩
  · unfold asmBnd DimCheck.assembleBnd at hL
    by_cases hx : DimCheck.checkDim q.doms ids (dim - 1) = true
    · rw [if_pos hx, Option.map_some] at hL
      obtain rfl := Option.some.inj hL
      refine ⟨_, _, by unfold mfBnd; rw [if_pos (check_imp h ht hf ft ff h1 h2 hx)], ?_⟩
      unfold mfBndPts DimCheck.appliedBnd
      rw [flatMap_filter_ite, flatMap_filter_ite, flatMap_filter_ite]
      refine (bnds_perm h ht hf (hords true) (hords false) h1 h2 ids (fun ty => dim = ty.dim)).trans ?_
      refine (sides_perm h hids hnd (fun v => if dim = v.1.ty.dim then (gSide v).map (Pt.at q.own) else [])).trans ?_
      rw [List.map_flatMap]
      refine flatMap_perm_congr fun v _ => ?_
      by_cases hd : dim = v.1.ty.dim <;> simp [hd]
    · rw [if_neg hx] at hL; simp at hL
  · unfold asmBnd DimCheck.assembleBnd at hn
    unfold mfBnd
    rw [check_iff h hfill ht hf ft ff h1 h2]
    by_cases hx : DimCheck.checkDim q.doms ids (dim - 1) = true
    · rw [if_pos hx] at hn; simp at hn
    · rw [if_neg hx]

/-! ### Constants -/

theorem full_small (hfull : Full q D) {sel : Element → Bool} (ha : Any q sel) : D + 1 ≤ 3 := by
  obtain ⟨k, e, hk, he, _⟩ := ha
  rw [← hfull k e hk he]
  cases e.ty <;> decide

/-- With an empty half, ids are taken for domains whatever they are. -/
theorem mode_empty (h : RankOk kinds q D) {p : Element → Bool} {t f : Split.Part} (ht : Half q p t) (hf : Half q (fun e => !p e) f)
    (ft : Filled t.doms) (ff : Filled f.doms) (hfull : Full q D) {o1 o2 : Nat → Orders} {vi vb : View} (hi : mkView q.own t o1 = some vi) (hb : mkView q.own f o2 = some vb)
    (he : ¬ (Any q p ∧ Any q fun e => !p e)) {ids : List Nat} (hne : ids ≠ []) : mode vi vb ids = some true := by
  have key : maxDim vi vb = invalidDim ∧ ((∀ k, vi.dim k = none) ∨ ∀ k, vb.dim k = none) := by
    unfold maxDim
    by_cases h1 : Any q p
    · have h2 : ¬ Any q fun e => !p e := fun h2 => he ⟨h1, h2⟩
      obtain ⟨m2, d2⟩ := maxDim_none h hf ff hb h2
      rw [m2, maxDim_some h hfull ht ft hi h1]
      have := full_small hfull h1
      exact ⟨by unfold invalidDim; omega, Or.inr d2⟩
    · obtain ⟨m1, d1⟩ := maxDim_none h ht ft hi h1
      rw [m1]
      refine ⟨?_, Or.inl d1⟩
      by_cases h2 : Any q fun e => !p e
      · have := full_small hfull h2
        rw [maxDim_some h hfull hf ff hb h2]; unfold invalidDim; omega
      · rw [(maxDim_none h hf ff hb h2).1]; rfl
  obtain ⟨hm, hd⟩ := key
  have ha : ids.all (hasMax vi vb) = true := by
    rw [List.all_eq_true]
    intro k _
    unfold hasMax
    rcases hd with hd | hd <;> rw [hd k] <;> simp
  have hn : ids.all (notMax vi vb) = false := by
    obtain ⟨k, l, rfl⟩ := List.exists_cons_of_ne_nil hne
    rw [List.all_cons]
    have : notMax vi vb k = false := by
      unfold notMax
      rw [hm]
      rcases hd with hd | hd <;> rw [hd k] <;> simp
    rw [this]; rfl
  unfold mode
  rw [ha, hn]; rfl

/-- With both halves, ids are told apart by their dimension where there are elements. -/
theorem mode_both (h : RankOk kinds q D) {p : Element → Bool} {t f : Split.Part} (ht : Half q p t) (hf : Half q (fun e => !p e) f)
    (ft : Filled t.doms) (ff : Filled f.doms) (hfull : Full q D) {o1 o2 : Nat → Orders} {vi vb : View} (hi : mkView q.own t o1 = some vi) (hb : mkView q.own f o2 = some vb)
    (h1 : Any q p) (h2 : Any q fun e => !p e) (k : Nat) :
    (k ∉ q.bnds.map (·.1) → hasMax vi vb k = true ∧ (notMax vi vb k = false ↔ ∃ e, InDom q.doms k e)) ∧
    (k ∈ q.bnds.map (·.1) → notMax vi vb k = true ∧ (hasMax vi vb k = false ↔ (∃ e, InDom t.doms k e) ∧ ∃ e, InDom f.doms k e)) := by
  have hm : maxDim vi vb = D + 1 := by
    unfold maxDim
    rw [maxDim_some h hfull ht ft hi h1, maxDim_some h hfull hf ff hb h2]; omega
  have h3 := full_small hfull h1
  have hi' := dim_iff h ht ft hi k
  have hb' := dim_iff h hf ff hb k
  unfold hasMax notMax
  rw [hm]
  constructor
  · intro hk
    have val : ∀ {s : Element → Bool} {w : Split.Part} {v : View}, Half q s w → (∀ x, v.dim k = some x ↔ ∃ e, InDom w.doms k e ∧ e.ty.dim = x) →
        (v.dim k = some (D + 1) ∧ ∃ e, InDom w.doms k e) ∨ (v.dim k = none ∧ ¬ ∃ e, InDom w.doms k e) := by
      intro s w v hw hv
      by_cases hx : ∃ e, InDom w.doms k e
      · obtain ⟨e, he⟩ := hx
        exact Or.inl ⟨(hv _).2 ⟨e, he, hfull k e hk (Half.sub hw he)⟩, e, he⟩
      · refine Or.inr ⟨?_, hx⟩
        cases hd : v.dim k with
        | none => rfl
        | some x =>
          obtain ⟨e, he, _⟩ := (hv x).1 hd
          exact absurd ⟨e, he⟩ hx
    have hq : (∃ e, InDom q.doms k e) ↔ (∃ e, InDom t.doms k e) ∨ ∃ e, InDom f.doms k e := by
      simp only [elem_half h ht hf, exists_or]
    rw [hq]
    rcases val ht hi' with ⟨a1, a2⟩ | ⟨a1, a2⟩ <;> rcases val hf hb' with ⟨b1, b2⟩ | ⟨b1, b2⟩ <;> rw [a1, b1] <;> simp [a2, b2, invalidDim] <;> omega
  · intro hk
    have val : ∀ {s : Element → Bool} {w : Split.Part} {v : View}, Half q s w → (∀ x, v.dim k = some x ↔ ∃ e, InDom w.doms k e ∧ e.ty.dim = x) →
        (v.dim k = some D ∧ ∃ e, InDom w.doms k e) ∨ (v.dim k = none ∧ ¬ ∃ e, InDom w.doms k e) := by
      intro s w v hw hv
      by_cases hx : ∃ e, InDom w.doms k e
      · obtain ⟨e, he⟩ := hx
        exact Or.inl ⟨(hv _).2 ⟨e, he, bnd_dim h hk (Half.sub hw he)⟩, e, he⟩
      · refine Or.inr ⟨?_, hx⟩
        cases hd : v.dim k with
        | none => rfl
        | some x =>
          obtain ⟨e, he, _⟩ := (hv x).1 hd
          exact absurd ⟨e, he⟩ hx
    rcases val ht hi' with ⟨a1, a2⟩ | ⟨a1, a2⟩ <;> rcases val hf hb' with ⟨b1, b2⟩ | ⟨b1, b2⟩ <;> rw [a1, b1] <;> simp [a2, b2, invalidDim] <;> omega

/-- Boundary `b` is touched by elements of both halves. -/
def Both (q : Split.Part) (interior : Element → Bool) (b : Nat) : Prop := (∃ e s, OnSide q e s b ∧ interior e = true) ∧ ∃ e s, OnSide q e s b ∧ interior e = false

theorem half_bnd {sel : Element → Bool} {t : Split.Part} (ht : Half q sel t) {b : Nat} (hb : b ∈ q.bnds.map (·.1)) :
    (∃ x, InDom t.doms b x) ↔ ∃ e s, OnSide q e s b ∧ sel e = true := by
  constructor
  · rintro ⟨x, hx⟩
    obtain ⟨h1, e, s, h2, h3⟩ := (ht.bdoms b hb x).1 hx
    exact ⟨e, s, ⟨hb, x, h1, h2⟩, h3⟩
  · rintro ⟨e, s, ⟨_, x, h1, h2⟩, h3⟩
    exact ⟨x, (ht.bdoms b hb x).2 ⟨h1, e, s, h2, h3⟩⟩

/-- **C123** (constants on domains).  Where a listed domain has elements on the rank, or one of the halves is empty, the nodes given a constant are those of the assembled system.
What is missing: otherwise it throws, see below. -/
theorem C123_constant_domains_partial (h : RankOk kinds q D) (hfull : Full q D) (interior : Element → Bool) {ord : Bool → Nat → List Element → List Element} (hord : ∀ s k l, (ord s k l).Perm l)
    {ords : Bool → Nat → Orders} (hords : ∀ s j k l, ((ords s j k).2 l).Perm l) {ids : List Nat} (hids : ∀ k ∈ ids, k ∉ q.bnds.map (·.1)) (hne : ids ≠ [])
    (hhere : (∃ k ∈ ids, ∃ e, InDom q.doms k e) ∨ ¬ (Any q interior ∧ Any q fun e => !interior e)) :
    ∃ vi vb a b, views kinds q interior ord ords = some (vi, vb) ∧ mfConst vi vb ids = some (a, b) ∧ (a ++ b).Perm ((asmConst q.doms ids).map (Pt.at q.own)) := by
  obtain ⟨t, f, vi, vb, hs, hv, ht, hf, h1, h2⟩ := views_spec h interior ord hord ords hords
  obtain ⟨ft, ff⟩ := split_filled h hord hs
  have hmode : mode vi vb ids = some true := by
    by_cases hb : Any q interior ∧ Any q fun e => !interior e
    · obtain ⟨k, hk, hke⟩ : ∃ k ∈ ids, ∃ e, InDom q.doms k e := hhere.resolve_right (fun hc => hc hb)
      have key := fun k => mode_both h ht hf ft ff hfull h1 h2 hb.1 hb.2 k
      have ha : ids.all (hasMax vi vb) = true := List.all_eq_true.2 fun j hj => ((key j).1 (hids j hj)).1
      have hn : ids.all (notMax vi vb) = false := by
        rw [List.all_eq_false]
        exact ⟨k, hk, by rw [((key k).1 (hids k hk)).2.2 hke]; simp⟩
      unfold mode
      rw [ha, hn]; rfl
    · exact mode_empty h ht hf ft ff hfull h1 h2 hb hne
  refine ⟨vi, vb, _, _, hv, by unfold mfConst; rw [hmode]; rfl, ?_⟩
  have := doms_perm h ht hf (hords true) (hords false) h1 h2 hids (fun _ => True)
  simpa [doMesh, asmConst] using this

/-- **C123** (constants on domains, failure).  A rank with interior and border elements, none of them in the listed domains, throws. -/
theorem C123_constant_domains_throws (h : RankOk kinds q D) (hfull : Full q D) (interior : Element → Bool) {ord : Bool → Nat → List Element → List Element} (hord : ∀ s k l, (ord s k l).Perm l)
    {ords : Bool → Nat → Orders} (hords : ∀ s j k l, ((ords s j k).2 l).Perm l) {ids : List Nat} (hids : ∀ k ∈ ids, k ∉ q.bnds.map (·.1))
    (hnone : ¬ ∃ k ∈ ids, ∃ e, InDom q.doms k e) (hi : Any q interior) (hb : Any q fun e => !interior e) :
    ∃ vi vb, views kinds q interior ord ords = some (vi, vb) ∧ mfConst vi vb ids = none ∧ asmConst q.doms ids = [] := by
  obtain ⟨t, f, vi, vb, hs, hv, ht, hf, h1, h2⟩ := views_spec h interior ord hord ords hords
  obtain ⟨ft, ff⟩ := split_filled h hord hs
  have key := fun k => mode_both h ht hf ft ff hfull h1 h2 hi hb k
  have ha : ids.all (hasMax vi vb) = true := List.all_eq_true.2 fun j hj => ((key j).1 (hids j hj)).1
  have hn : ids.all (notMax vi vb) = true := List.all_eq_true.2 fun j hj => by
    have := ((key j).1 (hids j hj)).2
    cases hx : notMax vi vb j with
    | true => rfl
    | false => exact absurd ⟨j, hj, this.1 hx⟩ hnone
  refine ⟨vi, vb, hv, ?_, ?_⟩
  · unfold mfConst mode
    rw [ha, hn]; rfl
  · unfold asmConst
    have : visitIds q.doms ids = [] := by
      rw [List.eq_nil_iff_forall_not_mem]
      intro e he
      obtain ⟨k, hk, hke⟩ := mem_visitIds.1 he
      exact hnone ⟨k, hk, e, hke⟩
    rw [this]; rfl

/-- **C123** (constants on boundaries).  If a listed boundary is touched by both interior and border elements of the rank, the nodes given a constant are those of the listed boundaries.
What is missing: all other cases, see below. -/
theorem C123_constant_boundaries_partial (h : RankOk kinds q D) (hfull : Full q D) (interior : Element → Bool) {ord : Bool → Nat → List Element → List Element}
    (hord : ∀ s k l, (ord s k l).Perm l) {ords : Bool → Nat → Orders} (hords : ∀ s j k l, ((ords s j k).2 l).Perm l) {ids : List Nat} (hids : ids ⊆ q.bnds.map (·.1))
    (hboth : ∃ b ∈ ids, Both q interior b) :
    ∃ vi vb a b, views kinds q interior ord ords = some (vi, vb) ∧ mfConst vi vb ids = some (a, b) ∧
      ∀ l, (∃ p ∈ a ++ b, p.node = l) ↔ ∃ p ∈ asmConst q.doms ids, localPos q.own p.node = l := by
  obtain ⟨t, f, vi, vb, hs, hv, ht, hf, h1, h2⟩ := views_spec h interior ord hord ords hords
  obtain ⟨ft, ff⟩ := split_filled h hord hs
  obtain ⟨b, hbi, ⟨e1, s1, o1, p1⟩, ⟨e2, s2, o2, p2⟩⟩ := hboth
  have mkAny : ∀ {sel : Element → Bool} {e : Element} {s : Nat}, OnSide q e s b → sel e = true → Any q sel := by
    rintro sel e s ⟨hb, x, hx, hxv⟩ hsel
    obtain ⟨k, hk, hke⟩ := parent_dom h hb hx hxv
    exact ⟨k, e, hk, hke, hsel⟩
  have hA : Any q interior := mkAny o1 p1
  have hB : Any q fun e => !interior e := mkAny o2 (by simp [p2])
  have key := fun k => mode_both h ht hf ft ff hfull h1 h2 hA hB k
  have hn : ids.all (notMax vi vb) = true := List.all_eq_true.2 fun j hj => ((key j).2 (hids hj)).1
  have ha : ids.all (hasMax vi vb) = false := by
    rw [List.all_eq_false]
    refine ⟨b, hbi, ?_⟩
    rw [((key b).2 (hids hbi)).2.2 ⟨(half_bnd ht (hids hbi)).2 ⟨e1, s1, o1, p1⟩, (half_bnd hf (hids hbi)).2 ⟨e2, s2, o2, by simp [p2]⟩⟩]
    simp
  have hmode : mode vi vb ids = some false := by unfold mode; rw [ha, hn]; rfl
  refine ⟨vi, vb, _, _, hv, by unfold mfConst; rw [hmode]; rfl, ?_⟩
  intro l
  have hp := bnds_perm h ht hf (hords true) (hords false) h1 h2 ids (fun _ => True)
  simp only [if_true] at hp
  have hm : ∀ pt, pt ∈ doMesh false vi ids ++ doMesh false vb ids ↔ ∃ k e s b', (k, e) ∈ domPairs q ∧ OnSide q e s b' ∧ b' ∈ ids ∧ ∃ pt' ∈ gSide (e, s), Pt.at q.own pt' = pt := by
    intro pt
    have := hp.mem_iff (a := pt)
    unfold doMesh
    simp only [Bool.false_eq_true, if_false]
    rw [this]
    simp only [List.mem_flatMap, List.mem_filter, List.mem_map, decide_eq_true_eq]
    constructor
    · rintro ⟨⟨k, e⟩, hke, ⟨s, b'⟩, ⟨hsb, hb'⟩, pt', hpt, rfl⟩
      exact ⟨k, e, s, b', hke, mem_bsides.1 hsb, hb', pt', hpt, rfl⟩
    · rintro ⟨k, e, s, b', hke, hsb, hb', pt', hpt, rfl⟩
      exact ⟨(k, e), hke, (s, b'), ⟨mem_bsides.2 hsb, hb'⟩, pt', hpt, rfl⟩
  have hside : ∀ {x e : Element} {s : Nat}, viewOf q.doms x = some (e, s) → ∀ n, n ∈ x.nodes ↔ ∃ pt ∈ gSide (e, s), pt.node = n := by
    intro x e s hx n
    obtain ⟨_, l, hl, hpm⟩ := viewOf_some h.keys hx
    rw [← hpm.mem_iff]
    unfold sideNodes at hl
    obtain ⟨inds, hin, rfl⟩ := Option.map_eq_some_iff.1 hl
    unfold gSide sidePts
    simp only [hin, Option.getD_some, List.mem_map]
    constructor
    · rintro ⟨i, hi, rfl⟩
      exact ⟨_, ⟨i, hi, rfl⟩, rfl⟩
    · rintro ⟨_, ⟨i, hi, rfl⟩, rfl⟩
      exact ⟨i, hi, rfl⟩
  constructor
  · rintro ⟨pt, hpt, rfl⟩
    obtain ⟨k, e, s, b', _, ⟨hb', x, hx, hxv⟩, hbi', pt', hpt', rfl⟩ := (hm pt).1 hpt
    have hn := (hside hxv pt'.node).2 ⟨pt', hpt', rfl⟩
    obtain ⟨i, hi, hie⟩ := List.mem_iff_getElem.1 hn
    refine ⟨⟨pt'.node, x.ty, x.n, x.id, none, i⟩, ?_, rfl⟩
    refine List.mem_flatMap.2 ⟨x, mem_visitIds.2 ⟨b', hbi', hx⟩, ?_⟩
    unfold gEl elPts
    refine List.mem_map.2 ⟨(pt'.node, i), ?_, rfl⟩
    rw [List.mk_mem_zipIdx_iff_getElem?, List.getElem?_eq_getElem hi, hie]
  · rintro ⟨pt, hpt, rfl⟩
    obtain ⟨x, hx, hpx⟩ := List.mem_flatMap.1 hpt
    obtain ⟨b', hbi', hxb⟩ := mem_visitIds.1 hx
    obtain ⟨⟨e, s⟩, hxv⟩ := bnd_view h (hids hbi') hxb
    obtain ⟨k, hk, hke⟩ := parent_dom h (hids hbi') hxb hxv
    have hnode : pt.node ∈ x.nodes := by
      unfold gEl elPts at hpx
      obtain ⟨⟨n, i⟩, hni, rfl⟩ := List.mem_map.1 hpx
      exact (List.mem_zipIdx_iff_getElem?.1 hni) |> List.mem_of_getElem?
    obtain ⟨pt', hpt', hn⟩ := (hside hxv pt.node).1 hnode
    exact ⟨Pt.at q.own pt', (hm _).2 ⟨k, e, s, b', mem_pairs.2 ⟨hk, hke⟩, ⟨hids hbi', x, hxb, hxv⟩, hbi', pt', hpt', rfl⟩, by rw [← hn]; rfl⟩

/-- **C123** (constants on boundaries, failure).  If the rank has interior and border elements and no listed boundary is touched by both, it throws. -/
theorem C123_constant_boundaries_throws (h : RankOk kinds q D) (hfull : Full q D) (interior : Element → Bool) {ord : Bool → Nat → List Element → List Element}
    (hord : ∀ s k l, (ord s k l).Perm l) {ords : Bool → Nat → Orders} (hords : ∀ s j k l, ((ords s j k).2 l).Perm l) {ids : List Nat} (hids : ids ⊆ q.bnds.map (·.1))
    (hi : Any q interior) (hb : Any q fun e => !interior e) (hnone : ¬ ∃ b ∈ ids, Both q interior b) :
    ∃ vi vb, views kinds q interior ord ords = some (vi, vb) ∧ mfConst vi vb ids = none := by
  obtain ⟨t, f, vi, vb, hs, hv, ht, hf, h1, h2⟩ := views_spec h interior ord hord ords hords
  obtain ⟨ft, ff⟩ := split_filled h hord hs
  have key := fun k => mode_both h ht hf ft ff hfull h1 h2 hi hb k
  have hn : ids.all (notMax vi vb) = true := List.all_eq_true.2 fun j hj => ((key j).2 (hids hj)).1
  have ha : ids.all (hasMax vi vb) = true := List.all_eq_true.2 fun j hj => by
    cases hx : hasMax vi vb j with
    | true => rfl
    | false =>
      obtain ⟨y1, y2⟩ := ((key j).2 (hids hj)).2.1 hx
      obtain ⟨e1, s1, o1, p1⟩ := (half_bnd ht (hids hj)).1 y1
      obtain ⟨e2, s2, o2, p2⟩ := (half_bnd hf (hids hj)).1 y2
      exact absurd ⟨j, hj, ⟨e1, s1, o1, p1⟩, e2, s2, o2, by simpa using p2⟩ hnone
  refine ⟨vi, vb, hv, ?_⟩
  unfold mfConst mode
  rw [ha, hn]; rfl

/-- **C123** (constants on boundaries, ignored).  If all elements of the rank are interior, or all are at the border, nothing is written and nothing is reported. -/
theorem C123_constant_boundaries_ignored (h : RankOk kinds q D) (hfull : Full q D) (interior : Element → Bool) {ord : Bool → Nat → List Element → List Element}
    (hord : ∀ s k l, (ord s k l).Perm l) {ords : Bool → Nat → Orders} (hords : ∀ s j k l, ((ords s j k).2 l).Perm l) {ids : List Nat} (hids : ids ⊆ q.bnds.map (·.1)) (hne : ids ≠ [])
    (hhalf : ¬ (Any q interior ∧ Any q fun e => !interior e)) :
    ∃ vi vb, views kinds q interior ord ords = some (vi, vb) ∧ mfConst vi vb ids = some ([], []) := by
  obtain ⟨t, f, vi, vb, hs, hv, ht, hf, h1, h2⟩ := views_spec h interior ord hord ords hords
  obtain ⟨ft, ff⟩ := split_filled h hord hs
  have hmode := mode_empty h ht hf ft ff hfull h1 h2 hhalf hne
  have hnil : ∀ {sel : Element → Bool} {w : Split.Part} {o : Nat → Orders} {v : View}, Half q sel w → (∀ j k l, ((o j k).2 l).Perm l) → mkView q.own w o = some v → v.visit ids = [] := by
    intro sel w o v hw ho hv
    obtain ⟨view, G, g1, g2, _⟩ := Half.view h hw o ho
    unfold mkView at hv
    rw [g1, Option.map_some] at hv
    obtain rfl := Option.some.inj hv
    unfold View.visit
    rw [List.flatMap_eq_nil_iff]
    intro k hk
    have := g2 k
    rw [if_pos (hids hk)] at this
    exact this.eq_nil
  refine ⟨vi, vb, hv, ?_⟩
  unfold mfConst doMesh
  rw [hmode, hnil ht (hords true) h1, hnil hf (hords false) h2]
  rfl

/-! ### The whole mesh -/

variable {m : DomMap} {bnds : List Nat} {nParts : Nat} {parts : List Split.Part} {f : Nat → Nat}

/-- **C123** (all ranks, kernels on domains).  However the mesh is distributed, a domain kernel which fits its domains throws on no rank of either system; each system evaluates it
at the same points of every rank, and these together are the points of the elements of the listed domains of the mesh, with nodes renamed. -/
theorem C123_mesh_domain (hm : MeshOk kinds m bnds D) (hone : OneSided m bnds) (hmf : MfMesh m bnds) (hfill : Filled m)
    (ho : Outcome Monotone kinds m bnds nParts parts f) (hfit : ∀ r < nParts, Fits bnds (part parts r)) {ids : List Nat} (hids : ∀ k ∈ ids, k ∉ bnds) {dim : Nat} {L : List Pt}
    (hL : asmDom m ids dim = some L) :
    ∃ Ls : Nat → List Pt, ((List.range nParts).flatMap Ls).Perm (L.map (Pt.map f)) ∧
      ∀ r < nParts, asmDom (part parts r).doms ids dim = some (Ls r) ∧
        ∀ (ordM : Nat → List Element → List Element), (∀ k l, (ordM k l).Perm l) → ∀ (interior : Element → Bool) (ord : Bool → Nat → List Element → List Element), (∀ s k l, (ord s k l).Perm l) →
          ∀ (ords : Bool → Nat → Orders), (∀ s j k l, ((ords s j k).2 l).Perm l) →
            ∃ q vi vb a b, rankMesh parts bnds ordM r = some q ∧ views kinds q interior ord ords = some (vi, vb) ∧ mfDom vi vb ids dim = some (a, b) ∧
              (a ++ b).Perm ((Ls r).map (Pt.at (part parts r).own)) := by
  obtain ⟨N, maps, R⟩ := outcome_result hm hone ho
  have hw := outcome_wf hm hone ho
  obtain ⟨Ls, h1, h2⟩ := ranks_domain hm R hw (outcome_filled hm hone hfill ho) hL
  refine ⟨Ls, h2, fun r hr => ⟨h1 r hr, ?_⟩⟩
  intro ordM hordM interior ord hord ords hords
  obtain ⟨v, g1, g2, g3⟩ := rankMesh_some R hr hordM
  have hq := rank_ok hm hmf R hw hr (hfit r hr) hordM g2 g3
  obtain ⟨vi, vb, k1, k2, _⟩ := C123_domain_kernel hq interior hord hords (ids := ids) (fun k hk => by change k ∉ v.map (·.1); rw [g2]; exact hids k hk) dim
  obtain ⟨a, b, k3, k4⟩ := k2 _ (h1 r hr)
  exact ⟨_, vi, vb, a, b, g1, k1, k3, k4⟩

/-- **C123** (all ranks, kernels on boundaries).  The same for boundary kernels and the sides of the listed boundaries. -/
theorem C123_mesh_boundary (hm : MeshOk kinds m bnds D) (hone : OneSided m bnds) (hmf : MfMesh m bnds) (hfill : Filled m)
    (ho : Outcome Monotone kinds m bnds nParts parts f) (hfit : ∀ r < nParts, Fits bnds (part parts r)) {ids : List Nat} (hids : ids ⊆ bnds) (hnd : ids.Nodup) {dim : Nat} {L : List Pt}
    (hL : asmBnd m ids dim = some L) :
    ∃ Ls : Nat → List Pt, ((List.range nParts).flatMap Ls).Perm (L.map (Pt.map f)) ∧
      ∀ r < nParts, asmBnd (part parts r).doms ids dim = some (Ls r) ∧
        ∀ (ordM : Nat → List Element → List Element), (∀ k l, (ordM k l).Perm l) → ∀ (interior : Element → Bool) (ord : Bool → Nat → List Element → List Element), (∀ s k l, (ord s k l).Perm l) →
          ∀ (ords : Bool → Nat → Orders), (∀ s j k l, ((ords s j k).2 l).Perm l) →
            ∃ q vi vb a b, rankMesh parts bnds ordM r = some q ∧ views kinds q interior ord ords = some (vi, vb) ∧ mfBnd vi vb ids dim = some (a, b) ∧
              (a ++ b).Perm ((Ls r).map (Pt.at (part parts r).own)) := by
  obtain ⟨N, maps, R⟩ := outcome_result hm hone ho
  have hw := outcome_wf hm hone ho
  obtain ⟨Ls, h1, h2⟩ := ranks_boundary hm hmf.uniq R hw (outcome_filled hm hone hfill ho) hids hL
  refine ⟨Ls, h2, fun r hr => ⟨h1 r hr, ?_⟩⟩
  intro ordM hordM interior ord hord ords hords
  obtain ⟨v, g1, g2, g3⟩ := rankMesh_some R hr hordM
  have hq := rank_ok hm hmf R hw hr (hfit r hr) hordM g2 g3
  obtain ⟨vi, vb, k1, k2, _⟩ := C123_boundary_kernel hq interior hord hords (ids := ids) (by change _ ⊆ v.map (·.1); rw [g2]; exact hids) hnd dim
  obtain ⟨a, b, k3, k4⟩ := k2 _ (h1 r hr)
  exact ⟨_, vi, vb, a, b, g1, k1, k3, k4⟩

/-- On one rank every element is interior. -/
theorem one_rank_interior {N : Nat} {maps : List DomMap} {p : Prog} (hp : p.Ok m bnds) (R : Result bnds m N 1 parts f maps) {e : Element} (he : Holds (part parts 0).doms e) :
    isInterior (p.setup parts) 0 e = true := by
  have hlen := setup_length p R
  unfold isInterior
  refine List.all_eq_true.2 fun n hn => List.all_eq_true.2 fun j hj => ?_
  cases hg : (p.setup parts).dofs 0 n j with
  | none => rfl
  | some g =>
    have hkn := nodeIn_knows p R Nat.one_pos ⟨e, he, hn⟩
    have := (Dofs.C39_fill (setup_ok hp R) g).2 ⟨0, by rw [hlen]; exact Nat.one_pos, n, j, hkn, List.mem_range.1 hj, hg⟩
    have ht : (p.setup parts).total = (p.setup parts).numOwned 0 := by
      unfold Dofs.Setup.total
      rw [hlen]; simp
    rw [ht] at this
    have hb : (p.setup parts).base 0 = 0 := rfl
    simp only [Option.map_some, Option.getD_some, decide_eq_true_eq, hb]
    omega

/-- **C123** (one rank).  A program run on one rank sets no constant on any boundary: the call returns having written nothing. -/
theorem C123_one_rank (hm : MeshOk kinds m bnds D) (hone : OneSided m bnds) (hmf : MfMesh m bnds) (hfull : ∀ k e, k ∉ bnds → InDom m k e → e.ty.dim = D + 1)
    {p : Prog} (hp : p.Ok m bnds) (ho : Outcome Monotone kinds m bnds 1 parts f) (hfit : Fits bnds (part parts 0)) {ids : List Nat} (hids : ids ⊆ bnds) (hne : ids ≠ [])
    {ordM : Nat → List Element → List Element} (hordM : ∀ k l, (ordM k l).Perm l) {ord : Bool → Nat → List Element → List Element} (hord : ∀ s k l, (ord s k l).Perm l)
    {ords : Bool → Nat → Orders} (hords : ∀ s j k l, ((ords s j k).2 l).Perm l) :
    ∃ q vi vb, rankMesh parts bnds ordM 0 = some q ∧ views kinds q (isInterior (p.setup parts) 0) ord ords = some (vi, vb) ∧ mfConst vi vb ids = some ([], []) := by
  obtain ⟨N, maps, R⟩ := outcome_result hm hone ho
  have hw := outcome_wf hm hone ho
  obtain ⟨v, g1, g2, g3⟩ := rankMesh_some R Nat.one_pos hordM
  have hq := rank_ok hm hmf R hw Nat.one_pos hfit hordM g2 g3
  have hF : Full ⟨(part parts 0).doms, (part parts 0).own, v⟩ D := by
    intro k e' hk he'
    change k ∉ v.map (·.1) at hk
    rw [g2] at hk
    obtain ⟨e, _, h1, rfl⟩ := inDom_part R he'
    exact hfull k e hk h1
  obtain ⟨vi, vb, k1, k2⟩ := C123_constant_boundaries_ignored hq hF (isInterior (p.setup parts) 0) hord hords (ids := ids) (by change _ ⊆ v.map (·.1); rw [g2]; exact hids) hne
    (by
      rintro ⟨_, k, e, _, he, hi⟩
      simp [one_rank_interior hp R (inDom_holds he)] at hi)
  exact ⟨_, vi, vb, g1, k1, k2⟩

/-- C123 for constants on boundaries: the call succeeds and writes to the nodes of the listed boundaries. -/
def C123Statement : Prop :=
  ∀ (kinds : List (ElType × Nat)) (m : DomMap) (bnds : List Nat) (D nParts : Nat) (parts : List Split.Part) (f : Nat → Nat), MeshOk kinds m bnds D → OneSided m bnds → MfMesh m bnds →
    (∀ k e, k ∉ bnds → InDom m k e → e.ty.dim = D + 1) → ∀ p : Prog, p.Ok m bnds → Outcome Monotone kinds m bnds nParts parts f → ∀ r < nParts, Fits bnds (part parts r) →
    ∀ ids ⊆ bnds, ids ≠ [] → ∃ q vi vb a b, rankMesh parts bnds (fun _ => id) r = some q ∧
      views kinds q (isInterior (p.setup parts) r) (fun _ _ => id) (fun _ _ _ => (id, id)) = some (vi, vb) ∧ mfConst vi vb ids = some (a, b) ∧
      ∀ l, (∃ pt ∈ a ++ b, pt.node = l) ↔ ∃ pt ∈ asmConst (part parts r).doms ids, localPos (part parts r).own pt.node = l

theorem twoQuads_full : ∀ k e, k ∉ [7] → InDom twoQuads.doms k e → e.ty.dim = 1 + 1 := by
  rintro k e hk ⟨d, hd, he⟩
  have h1 : ∀ d ∈ twoQuads.doms, d.1 ∉ [7] → ∀ e ∈ d.2.elems, e.ty.dim = 2 := by decide
  exact h1 _ (Mesh.mem_of_lookup hd) hk e he

theorem twoQuads_filled : Filled twoQuads.doms := by
  intro k d hd
  have h1 : ∀ d ∈ twoQuads.doms, d.2.elems ≠ [] := by decide
  exact h1 _ (Mesh.mem_of_lookup hd)

theorem twoQuads_whole : Outcome Monotone lineKinds twoQuads.doms [7] 1 [⟨twoQuads.doms, ⟨0, 6, []⟩, []⟩] id :=
  .whole 6 (fun x => nodes_of_all (N := 6) (by decide) (by decide) x) []

theorem twoQuads_one : OneSided twoQuads.doms [7] := oneSided_of_all twoQuads_meshOk.wf (by decide +kernel)

/-- Hypotheses of `C123_one_rank`, `C123_mesh_domain` and `C123_mesh_boundary`: two quadrilaterals on one rank. -/
example : MeshOk lineKinds twoQuads.doms [7] 1 ∧ OneSided twoQuads.doms [7] ∧ MfMesh twoQuads.doms [7] ∧ Filled twoQuads.doms ∧ exProg.Ok twoQuads.doms [7] ∧
    Outcome Monotone lineKinds twoQuads.doms [7] 1 [⟨twoQuads.doms, ⟨0, 6, []⟩, []⟩] id ∧ Fits [7] ⟨twoQuads.doms, ⟨0, 6, []⟩, []⟩ ∧
    (asmDom twoQuads.doms [0] 2).map (·.map (·.node)) = some [0, 1, 3, 4, 1, 2, 4, 5] ∧ (asmBnd twoQuads.doms [7] 2).isSome = true :=
  ⟨twoQuads_meshOk, twoQuads_one, twoQuads_mf, twoQuads_filled, exProg_ok, twoQuads_whole, fits_whole (by decide) (by decide), by decide +kernel, by decide +kernel⟩

/-- **C123** fails for constants on boundaries in a matrix-free system: on one rank the largest dimension is taken to be `invalid_dim` because there are no border elements,
so the ids are taken for domains. -/
theorem C123_violated : ¬ C123Statement := by
  intro h
  obtain ⟨q, vi, vb, a, b, h1, h2, h3, h4⟩ := h lineKinds twoQuads.doms [7] 1 1 _ _ twoQuads_meshOk twoQuads_one twoQuads_mf twoQuads_full exProg exProg_ok twoQuads_whole 0 Nat.one_pos
    (fits_whole (by decide) (by decide)) [7] (fun _ h => h) (by decide)
  obtain ⟨q', vi', vb', g1, g2, g3⟩ := C123_one_rank twoQuads_meshOk twoQuads_one twoQuads_mf twoQuads_full exProg_ok twoQuads_whole (fits_whole (by decide) (by decide))
    (ids := [7]) (fun _ h => h) (by decide) (ordM := fun _ => id) (fun _ _ => List.Perm.refl _) (ord := fun _ _ => id) (fun _ _ _ => List.Perm.refl _)
    (ords := fun _ _ _ => (id, id)) (fun _ _ _ _ => List.Perm.refl _)
  rw [h1] at g1; obtain rfl := Option.some.inj g1
  rw [h2] at g2; obtain ⟨rfl, rfl⟩ := Prod.mk.inj (Option.some.inj g2)
  rw [h3] at g3; obtain ⟨rfl, rfl⟩ := Prod.mk.inj (Option.some.inj g3)
  have hne : asmConst twoQuads.doms [7] ≠ [] := by decide +kernel
  obtain ⟨pt, hpt⟩ := List.exists_mem_of_ne_nil _ hne
  obtain ⟨_, hc, _⟩ := (h4 _).2 ⟨pt, hpt, rfl⟩
  simp at hc

/-- A mesh which is not distributed is fine if it is to begin with. -/
theorem rankOk_whole (hm : MeshOk kinds m bnds D) (hone : OneSided m bnds) (hmf : MfMesh m bnds) {N : Nat} (hN : ∀ x, NodeIn m x ↔ x < N) (hfit : Fits bnds ⟨m, ⟨0, N, []⟩, []⟩)
    {v : List (Nat × List (Element × Nat))} (hk : v.map (·.1) = bnds) (hv : Split.initViews m bnds (fun _ => id) = some v) : RankOk kinds ⟨m, ⟨0, N, []⟩, v⟩ D := by
  have ho : Outcome Monotone kinds m bnds 1 [⟨m, ⟨0, N, []⟩, []⟩] id := .whole N hN []
  obtain ⟨N', maps, R⟩ := outcome_result hm hone ho
  exact rank_ok hm hmf R (outcome_wf hm hone ho) Nat.one_pos hfit (ord := fun _ => id) (fun _ _ => List.Perm.refl _) hk hv

theorem twoQuads_rank : RankOk lineKinds twoQuads 1 :=
  rankOk_whole twoQuads_meshOk twoQuads_one twoQuads_mf (fun x => nodes_of_all (N := 6) (by decide) (by decide) x) (fits_whole (by decide) (by decide)) rfl (by decide +kernel)

/-- Hypotheses of `C123_domain_kernel`, `C123_boundary_kernel`, `C123_constant_domains_partial`, `C123_constant_boundaries_partial`: the first quadrilateral is interior, the second
at the border; boundary 7 touches both. -/
example : RankOk lineKinds twoQuads 1 ∧ Full twoQuads 1 ∧ (∃ k ∈ [0], ∃ e, InDom twoQuads.doms k e) ∧ ∃ b ∈ [7], Both twoQuads (fun e => e.id == 0) b := by
  refine ⟨twoQuads_rank, twoQuads_full, ⟨0, by simp, _, _, rfl, List.mem_cons_self⟩, 7, by simp, ⟨⟨.quad, 2, 0, [0, 1, 3, 4]⟩, 2, ⟨by decide, ⟨.line, 2, 2, [0, 3]⟩, ?_, by decide +kernel⟩, rfl⟩,
    ⟨.quad, 2, 1, [1, 2, 4, 5]⟩, 3, ⟨by decide, ⟨.line, 2, 3, [2, 5]⟩, ?_, by decide +kernel⟩, rfl⟩
  · exact ⟨⟨some 1, [[], [], [⟨.line, 2, 2, [0, 3]⟩, ⟨.line, 2, 3, [2, 5]⟩]]⟩, by decide, by decide⟩
  · exact ⟨⟨some 1, [[], [], [⟨.line, 2, 2, [0, 3]⟩, ⟨.line, 2, 3, [2, 5]⟩]]⟩, by decide, by decide⟩

/-- What the call writes to in this case; what it does if all elements are interior; what it does for a domain the rank does not have. -/
example : ((views lineKinds twoQuads (fun e => e.id == 0) (fun _ _ => id) fun _ _ _ => (id, id)).map fun v => ((mfConst v.1 v.2 [7]).map fun ab => (ab.1.map (·.node), ab.2.map (·.node)))) =
      some (some ([0, 3], [2, 5])) ∧
    ((views lineKinds twoQuads (fun _ => true) (fun _ _ => id) fun _ _ _ => (id, id)).map fun v => mfConst v.1 v.2 [7]) = some (some ([], [])) ∧
    ((views lineKinds twoQuads (fun e => e.id == 0) (fun _ _ => id) fun _ _ _ => (id, id)).map fun v => mfConst v.1 v.2 [5]) = some none := by decide +kernel

/-- The same two quadrilaterals with an edge on boundary 7 and one on boundary 8. -/
def exEnds : Split.Part :=
  ⟨[(0, ⟨some 2, [[], [⟨.quad, 2, 0, [0, 1, 3, 4]⟩, ⟨.quad, 2, 1, [1, 2, 4, 5]⟩], []]⟩), (7, ⟨some 1, [[], [], [⟨.line, 2, 2, [0, 3]⟩]]⟩),
    (8, ⟨some 1, [[], [], [⟨.line, 2, 3, [2, 5]⟩]]⟩)], ⟨0, 6, []⟩,
   [(7, [(⟨.quad, 2, 0, [0, 1, 3, 4]⟩, 2)]), (8, [(⟨.quad, 2, 1, [1, 2, 4, 5]⟩, 3)])]⟩

theorem exEnds_ok : MeshOk lineKinds exEnds.doms [7, 8] 1 :=
  meshOk_of_all (wf_of_all (by decide) (by simp [OMap.Sorted, exEnds]) (by decide)) (by decide) (by decide) (by decide) (by decide) (by decide +kernel)

theorem exEnds_mf : MfMesh exEnds.doms [7, 8] := by
  have h1 : ∀ d ∈ exEnds.doms, ∀ v ∈ d.2.vecs, ∀ e ∈ v, 2 ≤ e.n ∧ e.nodes.Nodup := by decide
  have h : ∀ x ∈ visitIds exEnds.doms [7, 8], ∀ d ∈ exEnds.doms, ∀ e ∈ d.2.elems, ∀ s < nSides e, (∃ l, sideNodes e s = some l ∧ l.Perm x.nodes) →
      ∀ d' ∈ exEnds.doms, ∀ e' ∈ d'.2.elems, ∀ s' < nSides e', (∃ l, sideNodes e' s' = some l ∧ l.Perm x.nodes) → e = e' ∧ s = s' := by decide +kernel
  have h2 : ∀ b ∈ [7, 8], ∀ x ∈ visitIds exEnds.doms [b], ∀ b' ∈ [7, 8], ∀ x' ∈ visitIds exEnds.doms [b'], viewOf exEnds.doms x = viewOf exEnds.doms x' → b = b' ∧ x = x' := by
    decide +kernel
  have lt : ∀ {e s l}, sideNodes e s = some l → s < nSides e := by
    intro e s l hl
    obtain ⟨inds, hi, _⟩ := Option.map_eq_some_iff.1 hl
    exact (List.getElem?_eq_some_iff.1 hi).1
  refine ⟨?_, by decide, ?_, ?_⟩
  · rintro e ⟨d, hd, v, hv, he⟩
    exact h1 d hd v hv e he
  · intro b hb x hx e s e' s' h1 h2
    obtain ⟨⟨d, hd, _, v, hv, he⟩, l, hl, hp⟩ := h1
    obtain ⟨⟨d', hd', _, v', hv', he'⟩, l', hl', hp'⟩ := h2
    exact h x (mem_visitIds.2 ⟨b, hb, hx⟩) d hd e (List.mem_flatten.2 ⟨v, hv, he⟩) s (lt hl) ⟨l, hl, hp⟩ d' hd' e' (List.mem_flatten.2 ⟨v', hv', he'⟩) s' (lt hl') ⟨l', hl', hp'⟩
  · intro b hb b' hb' x x' hx hx' hv
    exact h2 b hb x (mem_visitIds.2 ⟨b, List.mem_singleton.2 rfl, hx⟩) b' hb' x' (mem_visitIds.2 ⟨b', List.mem_singleton.2 rfl, hx'⟩) hv

theorem exEnds_views : ∀ b ∈ [7, 8], ∀ x ∈ visitIds exEnds.doms [b], ∀ v, viewOf exEnds.doms x = some v → (b = 7 ∧ v.1.id = 0) ∨ (b = 8 ∧ v.1.id = 1) := by
  have : ∀ b ∈ [7, 8], ∀ x ∈ visitIds exEnds.doms [b], (viewOf exEnds.doms x).all fun v => (b = 7 ∧ v.1.id = 0) ∨ (b = 8 ∧ v.1.id = 1) := by decide +kernel
  intro b hb x hx v hv
  have h := this b hb x hx
  rw [hv] at h
  simpa using h

/-- Hypotheses of `C123_constant_boundaries_throws`, `C123_constant_domains_throws` (for domain 5): here both boundaries together cannot be given a constant either. -/
example : RankOk lineKinds exEnds 1 ∧ Full exEnds 1 ∧ (Any exEnds fun e => e.id == 0) ∧ (Any exEnds fun e => !(e.id == 0)) ∧
    (¬ ∃ b ∈ [7, 8], Both exEnds (fun e => e.id == 0) b) ∧ (¬ ∃ k ∈ [5], ∃ e, InDom exEnds.doms k e) ∧
    ((views lineKinds exEnds (fun e => e.id == 0) (fun _ _ => id) fun _ _ _ => (id, id)).map fun v => mfConst v.1 v.2 [7, 8]) = some none := by
  have h1 : ∀ d ∈ exEnds.doms, d.1 ∉ [7, 8] → ∀ e ∈ d.2.elems, e.ty.dim = 2 := by decide
  refine ⟨rankOk_whole exEnds_ok (oneSided_of_all exEnds_ok.wf (by decide +kernel)) exEnds_mf (fun x => nodes_of_all (N := 6) (by decide) (by decide) x) (fits_whole (by decide) (by decide)) rfl
    (by decide +kernel), ?_, ?_, ?_, ?_, ?_, by decide +kernel⟩
  · rintro k e hk ⟨d, hd, he⟩
    exact h1 _ (Mesh.mem_of_lookup hd) hk e he
  · exact ⟨0, ⟨.quad, 2, 0, [0, 1, 3, 4]⟩, by decide, ⟨⟨some 2, [[], [⟨.quad, 2, 0, [0, 1, 3, 4]⟩, ⟨.quad, 2, 1, [1, 2, 4, 5]⟩], []]⟩, by decide, by decide⟩, rfl⟩
  · exact ⟨0, ⟨.quad, 2, 1, [1, 2, 4, 5]⟩, by decide, ⟨⟨some 2, [[], [⟨.quad, 2, 0, [0, 1, 3, 4]⟩, ⟨.quad, 2, 1, [1, 2, 4, 5]⟩], []]⟩, by decide, by decide⟩, rfl⟩
  · rintro ⟨b, hb, ⟨e1, s1, ⟨_, x1, hx1, hv1⟩, p1⟩, e2, s2, ⟨_, x2, hx2, hv2⟩, p2⟩
    have k1 := exEnds_views b hb x1 (mem_visitIds.2 ⟨b, List.mem_singleton.2 rfl, hx1⟩) _ hv1
    have k2 := exEnds_views b hb x2 (mem_visitIds.2 ⟨b, List.mem_singleton.2 rfl, hx2⟩) _ hv2
    simp only [beq_iff_eq, beq_eq_false_iff_ne] at p1 p2
    simp only at k1 k2
    omega
  · rintro ⟨k, hk, e, d, hd, _⟩
    obtain rfl := List.mem_singleton.1 hk
    have : exEnds.doms.lookup 5 = none := by decide
    rw [this] at hd
    simp at hd

end

end Verif.Reach
