import Verif.MfPipe.Views

/-! # Lemmas for C121: what is evaluated -/
namespace Verif.MfPipe
open Verif Verif.Elem Verif.Mesh Verif.Dofs Verif.Lsq Verif.LocView Verif.Pipeline Verif.Partition

noncomputable section

variable {kinds : List (ElType × Nat)} {q : Split.Part} {D : Nat}

/-- Local dofs of an element of the rank's mesh. -/
def elDofs (q : Split.Part) (ldm : Nat → Nat → Option Nat) (e : Element) (inds : List Nat) : List Nat :=
  e.nodes.flatMap fun n => inds.map fun j => (ldm (localPos q.own n) j).getD 0

/-- A domain kernel at an element of the rank's mesh. -/
def eE (q : Split.Part) (ldm : Nat → Nat → Option Nat) (e : Element) (K : Kernel) : LElem := ⟨elDofs q ldm e K.inds, K.dims e.ty e.n, K.pts e.ty e.n e.id⟩

/-- A boundary kernel at a side of an element of the rank's mesh. -/
def eS (q : Split.Part) (ldm : Nat → Nat → Option Nat) (e : Element) (s : Nat) (K : BKernel) : LElem :=
  ⟨elDofs q ldm e K.inds, K.dims e.ty e.n, K.pts e.ty e.n e.id s⟩

/-- Parents and sides of the elements of boundary `b`. -/
def bviews (q : Split.Part) (b : Nat) : List (Element × Nat) := (domEls q.doms b).filterMap (viewOf q.doms)

/-- The sides of `e` on boundaries, boundary by boundary. -/
def bsides (q : Split.Part) (e : Element) : List (Nat × Nat) :=
  (q.bnds.map (·.1)).flatMap fun b => (bviews q b).flatMap fun v => if v.1 = e then [(v.2, b)] else []

/-- Everything evaluated at an element of domain `k`. -/
def elEvals (p : Prog) (q : Split.Part) (ldm : Nat → Nat → Option Nat) (k : Nat) (e : Element) : List LElem :=
  (domKernels p k).map (eE q ldm e) ++ (bsides q e).flatMap fun sb => (bndKernels p sb.2).map (eS q ldm e sb.1)

theorem mem_bsides {e : Element} {s b : Nat} : (s, b) ∈ bsides q e ↔ OnSide q e s b := by
  unfold bsides bviews OnSide
  simp only [List.mem_flatMap, List.mem_filterMap, mem_domEls]
  constructor
  · rintro ⟨b', hb', v, ⟨x, hx, hv⟩, hm⟩
    split at hm
    · next he =>
      simp only [List.mem_singleton, Prod.mk.injEq] at hm
      obtain ⟨rfl, rfl⟩ := hm
      exact ⟨hb', x, hx, by rw [hv, ← he]⟩
    · simp at hm
  · rintro ⟨hb, x, hx, hv⟩
    exact ⟨b, hb, (e, s), ⟨x, hx, hv⟩, by simp⟩

theorem dom_nodup (h : RankOk kinds q D) (k : Nat) : (domEls q.doms k).Nodup := by
  by_cases hk : k ∈ q.doms.map (·.1)
  · have h1 : ((Split.tagged q.doms [k]).map (·.2.id)).Nodup := by
      have hsub : ∀ ids : List Nat, k ∈ ids → (Split.tagged q.doms [k]).Sublist (Split.tagged q.doms ids) := by
        intro ids hk
        induction ids with
        | nil => simp at hk
        | cons a ids ih =>
          unfold Split.tagged at ih ⊢
          rw [List.flatMap_cons, List.flatMap_cons, List.flatMap_nil, List.append_nil]
          rcases List.mem_cons.1 hk with rfl | hk
          · exact List.sublist_append_left _ _
          · have := ih hk
            rw [List.flatMap_cons, List.flatMap_nil, List.append_nil] at this
            exact this.trans (List.sublist_append_right _ _)
      exact h.split.ids.sublist ((hsub _ hk).map _)
    unfold Split.tagged at h1
    rw [List.flatMap_cons, List.flatMap_nil, List.append_nil, List.map_map, Split.visitIds_single] at h1
    exact List.Nodup.of_map _ h1
  · unfold domEls
    rw [show q.doms.lookup k = none from by
      cases hc : q.doms.lookup k with
      | none => rfl
      | some d => exact absurd (List.mem_map.2 ⟨_, Mesh.mem_of_lookup hc, rfl⟩) hk]
    exact List.nodup_nil

theorem bviews_nodup (h : RankOk kinds q D) {b : Nat} (hb : b ∈ q.bnds.map (·.1)) : (bviews q b).Nodup := by
  unfold bviews List.Nodup
  rw [List.pairwise_filterMap]
  refine List.Pairwise.imp_of_mem ?_ (dom_nodup h b)
  intro x x' hx hx' hne v hv v' hv' hvv
  subst hvv
  exact hne (h.single b hb b hb x x' (mem_domEls.1 hx) (mem_domEls.1 hx') (hv.trans hv'.symm)).2

theorem bsides_nodup (h : RankOk kinds q D) (e : Element) : (bsides q e).Nodup := by
  unfold bsides
  rw [List.nodup_flatMap]
  refine ⟨fun b hb => ?_, ?_⟩
  · rw [List.nodup_flatMap]
    refine ⟨fun v _ => by split <;> simp, List.Pairwise.imp_of_mem ?_ (bviews_nodup h hb)⟩
    intro v v' _ _ hne a ha ha'
    beta_reduce at ha ha'
    split at ha
    · next h1 =>
      split at ha'
      · next h2 =>
        simp only [List.mem_singleton] at ha ha'
        rw [ha'] at ha
        exact hne (Prod.ext (h1.trans h2.symm) (congrArg Prod.fst ha).symm)
      · simp at ha'
    · simp at ha
  · refine h.split.bndSorted.imp ?_
    intro b b' hbb a ha ha'
    have key : ∀ b'', (a ∈ (bviews q b'').flatMap fun v => if v.1 = e then [(v.2, b'')] else []) → a.2 = b'' := by
      intro b'' ha
      obtain ⟨v, _, hv⟩ := List.mem_flatMap.1 ha
      split at hv
      · simp only [List.mem_singleton] at hv; rw [hv]
      · simp at hv
    have h1 := key b ha
    have h2 := key b' ha'
    omega

theorem localPos_lt (h : RankOk kinds q D) {e : Element} (he : Holds q.doms e) {x : Nat} (hx : x ∈ e.nodes) : localPos q.own x < 2 ^ 32 - 1 := by
  have h1 := getLocal_lt (h.nodesOk he) hx
  rw [getLocal_pos (h.nodesOk he) hx] at h1
  have := h.size
  omega

/-- The view of a half: every element of the domains in it, once, with the right nodes and sides. -/
theorem Half.view {sel : Element → Bool} {t : Split.Part} (h : RankOk kinds q D) (ht : Half q sel t) (ord : Nat → Orders)
    (hord : ∀ j k l, ((ord j k).2 l).Perm l) :
    ∃ (view : List (Nat × List (List VElem))) (G : Element → VElem), makeView q.own t ord = some view ∧
      (∀ k, (visitView view k).Perm (if k ∈ q.bnds.map (·.1) then [] else ((domEls q.doms k).filter sel).map G)) ∧
      ∀ k e, k ∉ q.bnds.map (·.1) → InDom q.doms k e → sel e = true → (G e).id = e.id ∧ (G e).loc.ty = e.ty ∧ (G e).loc.n = e.n ∧
        (G e).loc.nodes = e.nodes.map (localPos q.own) ∧ (G e).loc.boundaries.Perm (bsides q e) := by
  let G : Element → VElem := fun e => ⟨(toLocal q.own (sidesMap t.bnds) e).getD default, e.id⟩
  have hG : ∀ k e, k ∉ q.bnds.map (·.1) → InDom t.doms k e → toView q.own (sidesMap t.bnds) e = some (G e) ∧ (G e).id = e.id ∧ (G e).loc.ty = e.ty ∧
      (G e).loc.n = e.n ∧ (G e).loc.nodes = e.nodes.map (localPos q.own) ∧ (G e).loc.boundaries.Perm (bsides q e) := by
    intro k e hk he
    obtain ⟨v, hv, h1, h2, h3, h4, h5⟩ := Half.local h ht hk he
    have hGe : (G e).loc = v := by simp [G, hv]
    refine ⟨by simp [toView, G, hv], rfl, by rw [hGe, h1], by rw [hGe, h2], by rw [hGe, h3], ?_⟩
    rw [hGe, List.perm_ext_iff_of_nodup (h5.imp fun hlt heq => by rw [heq] at hlt; exact lt_irrefl _ hlt) (bsides_nodup h e)]
    rintro ⟨s, b⟩
    rw [h4, mem_bsides]
  have hin : ∀ d ∈ t.doms, ∀ v ∈ d.2.vecs, ∀ e ∈ v, InDom t.doms d.1 e := fun d hd v hv e he => Pipeline.inDom_of_mem ht.kn hd hv he
  obtain ⟨view, h1, h2⟩ := viewDomains_perm q.own (sidesMap t.bnds) (q.bnds.map (·.1)) h.split.bndSorted ord hord G t.doms 0 []
    (fun d hd hb v hv e he => (hG d.1 e hb (hin d hd v hv e he)).1) (fun d hd hb v hv => by
      have hlk := Mesh.lookup_of_mem ht.kn hd
      rw [ht.doms d.1 hb, Option.bind_eq_some_iff] at hlk
      obtain ⟨d', hd', hr⟩ := hlk
      have hvs : d.2.vecs = d'.vecs.map (List.filter sel) := by
        unfold Split.restrict at hr
        split at hr
        · simp at hr
        · rw [← Option.some.inj hr]
      rw [hvs] at hv
      obtain ⟨v', hv', rfl⟩ := List.mem_map.1 hv
      have hv0 : v'.filter sel ∈ d.2.vecs := by rw [hvs]; exact List.mem_map.2 ⟨v', hv', rfl⟩
      refine ⟨fun e he x hx => ?_, fun e he => ?_⟩
      · have hie := hin d hd _ hv0 e he
        rw [(hG d.1 e hb hie).2.2.2.2.1] at hx
        obtain ⟨y, hy, rfl⟩ := List.mem_map.1 hx
        exact localPos_lt h (Pipeline.inDom_holds ((inDom_restrict (ht.doms d.1 hb) e).1 hie).1) hy
      · rw [(hG d.1 e hb (hin d hd _ hv0 e he)).2.2.2.2.1, List.length_map]
        refine lt_of_le_of_lt (Nat.mul_le_mul_left _ (List.length_filter_le sel v')) ?_
        exact h.small (d.1, d') (Mesh.mem_of_lookup hd') v' hv' e (List.mem_filter.1 he).1)
  refine ⟨view, G, by unfold makeView; rw [ht.keys]; exact h1, fun k => ?_, fun k e hk he hsel => ?_⟩
  · by_cases hk : k ∈ q.bnds.map (·.1)
    · have := h2 k; rw [if_pos hk] at this ⊢; exact this
    · have := h2 k
      rw [if_neg hk] at this ⊢
      rw [← domEls_restrict (ht.doms k hk)]; exact this
  · exact (hG k e hk ((inDom_restrict (ht.doms k hk) e).2 ⟨he, hsel⟩)).2

theorem flatMap_perm_of {A B : Type} {l k : List A} (h : l.Perm k) (f : A → List B) : (l.flatMap f).Perm (k.flatMap f) := h.flatMap_right f

theorem locDofs_eq {ldm : Nat → Nat → Option Nat} {v : VElem} {e : Element} (h : v.loc.nodes = e.nodes.map (localPos q.own)) (inds : List Nat) :
    locDofs ldm v inds = elDofs q ldm e inds := by
  unfold locDofs elDofs
  rw [h, List.flatMap_map]

/-- The kernels evaluated at an element of a view. -/
theorem evals_perm (h : RankOk kinds q D) (p : Prog) (ldm : Nat → Nat → Option Nat) (k : Nat) {e : Element} {v : VElem} (h1 : v.id = e.id)
    (h2 : v.loc.ty = e.ty) (h3 : v.loc.n = e.n) (h4 : v.loc.nodes = e.nodes.map (localPos q.own)) (h5 : v.loc.boundaries.Perm (bsides q e)) :
    ∃ L, evals p q.doms ldm k v = some L ∧ L.Perm (elEvals p q ldm k e) := by
  have hs : ∀ sb ∈ v.loc.boundaries, sideEvals p q.doms ldm v sb = some ((bndKernels p sb.2).map (eS q ldm e sb.1)) := by
    rintro ⟨s, b⟩ hsb
    obtain ⟨_, x, ⟨d, hd, _⟩, _⟩ := mem_bsides.1 (h5.mem_iff.1 hsb)
    unfold sideEvals
    have hmem : b ∈ bndKeys p q.doms := List.mem_append_left _ (List.mem_map.2 ⟨_, Mesh.mem_of_lookup hd, rfl⟩)
    rw [if_pos hmem]
    congr 1
    refine List.map_congr_left fun K _ => ?_
    unfold atSide eS
    rw [locDofs_eq h4, h1, h2, h3]
  refine ⟨_, by unfold evals; rw [mapM_of hs]; rfl, ?_⟩
  unfold elEvals
  rw [show atElem ldm v = eE q ldm e from by
    funext K
    unfold atElem eE
    rw [locDofs_eq h4, h1, h2, h3]]
  refine List.Perm.append (List.Perm.refl _) ?_
  rw [← List.flatMap_def]
  exact h5.flatMap_right _

theorem mapM_perm {A B : Type} {f : A → Option (List B)} {g : A → List B} {l : List A} (h : ∀ a ∈ l, ∃ L, f a = some L ∧ L.Perm (g a)) :
    ∃ Ls, l.mapM f = some Ls ∧ Ls.flatten.Perm (l.flatMap g) := by
  induction l with
  | nil => exact ⟨[], rfl, List.Perm.refl _⟩
  | cons a l ih =>
    obtain ⟨L, h1, h2⟩ := h a (by simp)
    obtain ⟨Ls, h3, h4⟩ := ih fun b hb => h b (by simp [hb])
    exact ⟨L :: Ls, by rw [List.mapM_cons, h1, h3]; rfl, by rw [List.flatten_cons, List.flatMap_cons]; exact h2.append h4⟩

/-- The elements of the domains which are not boundaries, with their domain. -/
def domPairs (q : Split.Part) : List (Nat × Element) :=
  ((q.doms.map (·.1)).filter fun k => k ∉ q.bnds.map (·.1)).flatMap fun k => (domEls q.doms k).map fun e => (k, e)

theorem evalView_perm (h : RankOk kinds q D) (p : Prog) (ldm : Nat → Nat → Option Nat) {sel : Element → Bool} {t : Split.Part} (ht : Half q sel t)
    (ord : Nat → Orders) (hord : ∀ j k l, ((ord j k).2 l).Perm l) :
    ∃ view L, makeView q.own t ord = some view ∧ evalView p q.doms ldm view = some L ∧
      L.Perm (((domPairs q).filter fun ke => sel ke.2).flatMap fun ke => elEvals p q ldm ke.1 ke.2) := by
  obtain ⟨view, G, hv, hp, hG⟩ := Half.view h ht ord hord
  have hdom : ∀ k ∈ q.doms.map (·.1), ∃ L, evalDomain p q.doms ldm view k = some L ∧
      L.Perm (if k ∈ q.bnds.map (·.1) then [] else ((domEls q.doms k).filter sel).flatMap (elEvals p q ldm k)) := by
    intro k _
    have hpk := hp k
    by_cases hk : k ∈ q.bnds.map (·.1)
    · rw [if_pos hk] at hpk ⊢
      exact ⟨[], by unfold evalDomain; rw [List.Perm.eq_nil hpk]; rfl, List.Perm.refl _⟩
    · rw [if_neg hk] at hpk ⊢
      have hex : ∀ v ∈ visitView view k, ∃ e ∈ (domEls q.doms k).filter sel, G e = v := fun v hv => by
        simpa using hpk.mem_iff.1 hv
      obtain ⟨g, hg⟩ : ∃ g : VElem → List LElem, ∀ v ∈ visitView view k, ∃ L, evals p q.doms ldm k v = some L ∧ L.Perm (g v) :=
        ⟨fun v => (evals p q.doms ldm k v).getD [], fun v hv => by
          obtain ⟨e, he, rfl⟩ := hex v hv
          obtain ⟨he1, he2⟩ := List.mem_filter.1 he
          obtain ⟨g1, g2, g3, g4, g5⟩ := hG k e hk (mem_domEls.1 he1) he2
          obtain ⟨L, hL, _⟩ := evals_perm h p ldm k g1 g2 g3 g4 g5
          exact ⟨L, hL, by beta_reduce; rw [hL]; exact List.Perm.refl _⟩⟩
      obtain ⟨Ls, hLs, hperm⟩ := mapM_perm hg
      refine ⟨Ls.flatten, by unfold evalDomain; rw [hLs]; rfl, hperm.trans ((hpk.flatMap_right g).trans ?_)⟩
      rw [List.flatMap_map]
      refine flatMap_perm_congr fun e he => ?_
      obtain ⟨he1, he2⟩ := List.mem_filter.1 he
      obtain ⟨g1, g2, g3, g4, g5⟩ := hG k e hk (mem_domEls.1 he1) he2
      obtain ⟨L, hL, hLp⟩ := evals_perm h p ldm k g1 g2 g3 g4 g5
      obtain ⟨L', hL', hLg⟩ := hg (G e) (hpk.mem_iff.2 (List.mem_map.2 ⟨e, he, rfl⟩))
      rw [hL] at hL'
      obtain rfl := Option.some.inj hL'
      exact hLg.symm.trans hLp
  obtain ⟨Ls, hLs, hperm⟩ := mapM_perm hdom
  refine ⟨view, Ls.flatten, hv, by unfold evalView; rw [hLs]; rfl, hperm.trans ?_⟩
  unfold domPairs
  generalize q.doms.map (·.1) = keys
  induction keys with
  | nil => exact List.Perm.refl _
  | cons k keys ih =>
    rw [List.flatMap_cons, List.filter_cons]
    by_cases hk : k ∈ q.bnds.map (·.1)
    · rw [if_pos hk, if_neg (by simpa using hk)]; exact ih
    · rw [if_neg hk, if_pos (by simpa using hk), List.flatMap_cons, List.filter_append, List.flatMap_append]
      refine List.Perm.append ?_ ih
      rw [List.filter_map, List.flatMap_map]
      exact List.Perm.refl _

theorem mfEvals_perm (h : RankOk kinds q D) (p : Prog) (ldm : Nat → Nat → Option Nat) (interior : Element → Bool)
    (ord : Bool → Nat → List Element → List Element) (hord : ∀ s k l, (ord s k l).Perm l) (ords : Bool → Nat → Orders)
    (hords : ∀ s j k l, ((ords s j k).2 l).Perm l) :
    ∃ a b, mfEvals kinds p q interior ldm ord ords = some (a, b) ∧
      a.Perm (((domPairs q).filter fun ke => interior ke.2).flatMap fun ke => elEvals p q ldm ke.1 ke.2) ∧
      b.Perm (((domPairs q).filter fun ke => !interior ke.2).flatMap fun ke => elEvals p q ldm ke.1 ke.2) := by
  obtain ⟨t, f, hs, ht, hf⟩ := split_halves h interior ord hord
  obtain ⟨vi, a, h1, h2, h3⟩ := evalView_perm h p ldm ht (ords true) (hords true)
  obtain ⟨vb, b, h4, h5, h6⟩ := evalView_perm h p ldm hf (ords false) (hords false)
  refine ⟨a, b, ?_, h3, h6⟩
  unfold mfEvals
  rw [hs, Option.bind_some, h1, Option.bind_some, h4, Option.bind_some, h2, Option.bind_some, h5]; rfl

end

end Verif.MfPipe
