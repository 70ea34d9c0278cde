import Verif.Reach.Model
import Verif.MfPipe.Comb

/-! # Lemmas for C123 -/
namespace Verif.Reach
open Verif Verif.Elem Verif.Mesh Verif.LocView Verif.MfPipe Verif.Pipeline Verif.Partition

noncomputable section

variable {kinds : List (ElType × Nat)} {q : Split.Part} {D : Nat}

/-- The same point with the node renamed. -/
def Pt.map (g : Nat → Nat) (p : Pt) : Pt := { p with node := g p.node }

/-- The same point by local number. -/
def Pt.at (o : Own.SegOwn) : Pt → Pt := Pt.map (localPos o)

/-- Keys of a view: the domains which are not boundaries. -/
theorem viewDomains_keys (o : Own.SegOwn) (sm : List (Nat × List (Nat × Nat))) (bnds : List Nat) (hb : bnds.Pairwise (· < ·)) (ord : Nat → Orders) :
    ∀ (ds : DomMap) (k : Nat) (c : Cache) view, MfPipe.viewDomains o sm bnds ord ds k c = some view → view.map (·.1) = (ds.map (·.1)).filter fun k => k ∉ bnds
  | [], _, _, view, h => by
    unfold MfPipe.viewDomains at h
    rw [← Option.some.inj h]; rfl
  | d :: ds, k, c, view, h => by
    unfold MfPipe.viewDomains at h
    have hbs : Std.binarySearch bnds d.1 = true ↔ d.1 ∈ bnds := Std.binarySearch_iff (hb.imp le_of_lt) d.1
    rw [List.map_cons, List.filter_cons]
    by_cases hd : d.1 ∈ bnds
    · rw [if_pos (hbs.2 hd)] at h
      rw [if_neg (by simpa using hd)]
      exact viewDomains_keys o sm bnds hb ord ds k c view h
    · rw [if_neg (fun hc => hd (hbs.1 hc))] at h
      obtain ⟨r, _, h2⟩ := Option.bind_eq_some_iff.1 h
      obtain ⟨t, ht, rfl⟩ := Option.map_eq_some_iff.1 h2
      rw [if_pos (by simpa using hd), List.map_cons, viewDomains_keys o sm bnds hb ord ds _ _ t ht]

theorem flatMap_filter_nil {A B : Type} (l : List A) (c : A → Bool) (F : A → List B) (h : ∀ a ∈ l, c a = false → F a = []) : (l.filter c).flatMap F = l.flatMap F := by
  induction l with
  | nil => rfl
  | cons a l ih =>
    have ih := ih fun b hb => h b (by simp [hb])
    rw [List.filter_cons]
    by_cases hc : c a = true
    · rw [if_pos hc, List.flatMap_cons, List.flatMap_cons, ih]
    · rw [if_neg hc, List.flatMap_cons, h a (by simp) (by simpa using hc), ih]; rfl

theorem flatMap_keys {A B : Type} [DecidableEq A] {l l' : List A} (h : l.Nodup) (h' : l'.Nodup) (hs : ∀ a ∈ l, a ∈ l') (F : A → List B)
    (hn : ∀ a ∈ l', a ∉ l → F a = []) : (l.flatMap F).Perm (l'.flatMap F) := by
  have hp : l.Perm (l'.filter fun a => decide (a ∈ l)) := by
    rw [List.perm_ext_iff_of_nodup h (h'.filter _)]
    intro a
    rw [List.mem_filter, decide_eq_true_eq]
    exact ⟨fun ha => ⟨hs a ha, ha⟩, fun ha => ha.2⟩
  refine (hp.flatMap_right F).trans ?_
  rw [flatMap_filter_nil]
  intro a ha hc
  exact hn a ha (by simpa using hc)

/-- Both views of a rank, with what they visit. -/
theorem views_spec (h : RankOk kinds q D) (interior : Element → Bool) (ord : Bool → Nat → List Element → List Element) (hord : ∀ s k l, (ord s k l).Perm l)
    (ords : Bool → Nat → Orders) (hords : ∀ s j k l, ((ords s j k).2 l).Perm l) :
    ∃ t f vi vb, Split.split kinds q interior ord = some (t, f) ∧ views kinds q interior ord ords = some (vi, vb) ∧ Half q interior t ∧ Half q (fun e => !interior e) f ∧
      mkView q.own t (ords true) = some vi ∧ mkView q.own f (ords false) = some vb := by
  obtain ⟨t, f, hs, ht, hf⟩ := split_halves h interior ord hord
  obtain ⟨v1, _, h1, _⟩ := Half.view h ht (ords true) (hords true)
  obtain ⟨v2, _, h2, _⟩ := Half.view h hf (ords false) (hords false)
  refine ⟨t, f, ⟨_, v1⟩, ⟨_, v2⟩, hs, ?_, ht, hf, by unfold mkView; rw [h1]; rfl, by unfold mkView; rw [h2]; rfl⟩
  unfold views mkView
  rw [hs, Option.bind_some, h1, h2]; rfl

/-- What a view of a half visits in the listed domains. -/
theorem visit_perm' {sel : Element → Bool} {t : Split.Part} (h : RankOk kinds q D) (ht : Half q sel t) {ord : Nat → Orders}
    (hord : ∀ j k l, ((ord j k).2 l).Perm l) {v : View} (hv : mkView q.own t ord = some v) {ids : List Nat} (hids : ∀ k ∈ ids, k ∉ q.bnds.map (·.1)) {B : Type}
    (F : VElem → List B) (F' : Element → List B)
    (hF : ∀ a e, a.id = e.id → a.loc.ty = e.ty → a.loc.n = e.n → a.loc.nodes = e.nodes.map (localPos q.own) → Holds q.doms e → F a = F' e) :
    ((v.visit ids).flatMap F).Perm (((visitIds q.doms ids).filter sel).flatMap F') := by
  obtain ⟨view, G, h1, h2, h3⟩ := Half.view h ht ord hord
  unfold mkView at hv
  rw [h1, Option.map_some] at hv
  obtain rfl := Option.some.inj hv
  unfold View.visit
  rw [visitIds_domEls, List.filter_flatMap, List.flatMap_assoc, List.flatMap_assoc]
  refine flatMap_perm_congr fun k hk => ?_
  have hp := h2 k
  rw [if_neg (hids k hk)] at hp
  refine (hp.flatMap_right F).trans ?_
  rw [List.flatMap_map]
  refine flatMap_perm_congr fun e he => ?_
  obtain ⟨he1, he2⟩ := List.mem_filter.1 he
  obtain ⟨g1, g2, g3, g4, _⟩ := h3 k e (hids k hk) (mem_domEls.1 he1) he2
  rw [hF _ e g1 g2 g3 g4 (inDom_holds (mem_domEls.1 he1))]

/-- What a view of a half visits on boundaries: element by element. -/
theorem visitBnd_perm {sel : Element → Bool} {t : Split.Part} (h : RankOk kinds q D) (ht : Half q sel t) {ord : Nat → Orders}
    (hord : ∀ j k l, ((ord j k).2 l).Perm l) {v : View} (hv : mkView q.own t ord = some v) (ids : List Nat) {B : Type}
    (F : VElem × Nat → List B) (F' : Element × Nat → List B)
    (hF : ∀ (a : VElem) (e : Element) (s b : Nat), a.id = e.id → a.loc.ty = e.ty → a.loc.n = e.n → a.loc.nodes = e.nodes.map (localPos q.own) → Holds q.doms e → OnSide q e s b →
      F (a, s) = F' (e, s)) :
    ((v.visitBnd ids).flatMap F).Perm (((domPairs q).filter fun ke => sel ke.2).flatMap fun ke =>
      ((bsides q ke.2).filter fun sb => decide (sb.2 ∈ ids)).flatMap fun sb => F' (ke.2, sb.1)) := by
  obtain ⟨view, G, h1, h2, h3⟩ := Half.view h ht ord hord
  unfold mkView at hv
  rw [h1, Option.map_some] at hv
  obtain rfl := Option.some.inj hv
  unfold View.visitBnd View.visit
  change (List.flatMap F (List.flatMap _ (List.flatMap (visitView view) (view.map (·.1))))).Perm _
  have hkeys : view.map (·.1) = (t.doms.map (·.1)).filter fun k => k ∉ q.bnds.map (·.1) := by
    unfold MfPipe.makeView at h1
    rw [ht.keys] at h1
    exact viewDomains_keys _ _ _ h.split.bndSorted _ _ _ _ _ h1
  rw [List.flatMap_assoc, List.flatMap_assoc]
  have hone : ∀ k, k ∉ q.bnds.map (·.1) → ((visitView view k).flatMap fun a => (List.map (fun sb => (a, sb.1)) (a.loc.boundaries.filter fun sb => decide (sb.2 ∈ ids))).flatMap F).Perm
      (((domEls q.doms k).filter sel).flatMap fun e => ((bsides q e).filter fun sb => decide (sb.2 ∈ ids)).flatMap fun sb => F' (e, sb.1)) := by
    intro k hk
    have hp := h2 k
    rw [if_neg hk] at hp
    refine (hp.flatMap_right _).trans ?_
    rw [List.flatMap_map]
    refine flatMap_perm_congr fun e he => ?_
    obtain ⟨he1, he2⟩ := List.mem_filter.1 he
    obtain ⟨g1, g2, g3, g4, g5⟩ := h3 k e hk (mem_domEls.1 he1) he2
    rw [List.flatMap_map]
    refine ((g5.filter _).flatMap_right _).trans ?_
    refine flatMap_perm_congr fun sb hsb => ?_
    rw [hF _ e sb.1 sb.2 g1 g2 g3 g4 (inDom_holds (mem_domEls.1 he1)) (mem_bsides.1 (List.mem_filter.1 hsb).1)]
  have hsub : ∀ k ∈ view.map (·.1), k ∈ (q.doms.map (·.1)).filter fun k => k ∉ q.bnds.map (·.1) := by
    intro k hk
    rw [hkeys] at hk
    obtain ⟨hk1, hk2⟩ := List.mem_filter.1 hk
    obtain ⟨d, hd, rfl⟩ := List.mem_map.1 hk1
    obtain ⟨d', hd', _⟩ := ht.dim d hd
    exact List.mem_filter.2 ⟨List.mem_map.2 ⟨_, Mesh.mem_of_lookup hd', rfl⟩, hk2⟩
  refine (flatMap_perm_congr (g := fun k => ((domEls q.doms k).filter sel).flatMap fun e => ((bsides q e).filter fun sb => decide (sb.2 ∈ ids)).flatMap fun sb => F' (e, sb.1))
    fun k hk => ?_).trans ?_
  · exact hone k (by simpa using (List.mem_filter.1 (hsub k hk)).2)
  · refine (flatMap_keys (l' := (q.doms.map (·.1)).filter fun k => k ∉ q.bnds.map (·.1)) ?_ (List.Nodup.filter _ h.keys) hsub _ ?_).trans ?_
    · rw [hkeys]; exact List.Nodup.filter _ ht.kn
    · intro k hk hn
      have hkb : k ∉ q.bnds.map (·.1) := by simpa using (List.mem_filter.1 hk).2
      have : k ∉ t.doms.map (·.1) := fun hc => hn (by rw [hkeys]; exact List.mem_filter.2 ⟨hc, by simpa using hkb⟩)
      have hl : t.doms.lookup k = none := by
        cases hc : t.doms.lookup k with
        | none => rfl
        | some d => exact absurd (List.mem_map.2 ⟨_, Mesh.mem_of_lookup hc, rfl⟩) this
      have he := domEls_restrict (ht.doms k hkb)
      have : domEls t.doms k = [] := by unfold domEls; rw [hl]; rfl
      rw [← he, this]; rfl
    · unfold domPairs
      rw [List.filter_flatMap, List.flatMap_assoc]
      refine flatMap_perm_congr fun k _ => ?_
      rw [List.filter_map, List.flatMap_map]
      exact List.Perm.refl _

/-- Element by element and boundary by boundary is the same. -/
theorem sides_perm (h : RankOk kinds q D) {ids : List Nat} (hids : ids ⊆ q.bnds.map (·.1)) (hnd : ids.Nodup) {B : Type} (F' : Element × Nat → List B) :
    ((domPairs q).flatMap fun ke => ((bsides q ke.2).filter fun sb => decide (sb.2 ∈ ids)).flatMap fun sb => F' (ke.2, sb.1)).Perm
      (((visitIds q.doms ids).filterMap (viewOf q.doms)).flatMap F') := by
  have e1 : ∀ ke : Nat × Element, (((bsides q ke.2).filter fun sb => decide (sb.2 ∈ ids)).flatMap fun sb => F' (ke.2, sb.1)) =
      (q.bnds.map (·.1)).flatMap fun b => (bviews q b).flatMap fun v => if v.1 = ke.2 then (if b ∈ ids then F' (ke.2, v.2) else []) else [] := by
    intro ke
    unfold bsides
    rw [List.filter_flatMap, List.flatMap_assoc]
    congr 1
    funext b
    rw [List.filter_flatMap, List.flatMap_assoc]
    congr 1
    funext v
    split
    · by_cases hb : b ∈ ids <;> simp [hb]
    · rfl
  simp only [e1]
  refine (flatMap_swap _ _ _).trans ?_
  have e2 : ((q.bnds.map (·.1)).flatMap fun b => (domPairs q).flatMap fun ke => (bviews q b).flatMap fun v =>
      if v.1 = ke.2 then (if b ∈ ids then F' (ke.2, v.2) else []) else []).Perm
      ((q.bnds.map (·.1)).flatMap fun b => if b ∈ ids then (bviews q b).flatMap F' else []) := by
    refine flatMap_perm_congr fun b hbb => ?_
    refine (flatMap_swap _ _ _).trans ?_
    have e3 : ((bviews q b).flatMap fun v => (domPairs q).flatMap fun ke => if v.1 = ke.2 then (if b ∈ ids then F' (ke.2, v.2) else []) else []) =
        (bviews q b).flatMap fun v => if b ∈ ids then F' v else [] := by
      refine List.flatMap_congr fun v hv => ?_
      rw [pairs_side h (fun e => if b ∈ ids then F' (e, v.2) else []) (parent_mem h hbb hv)]
    rw [e3]
    by_cases hb : b ∈ ids
    · simp only [if_pos hb]; exact List.Perm.refl _
    · simp [hb]
  refine e2.trans ?_
  rw [visitIds_domEls, List.filterMap_flatMap, List.flatMap_assoc]
  have hf := flatMap_filter_nil (q.bnds.map (·.1)) (fun b => decide (b ∈ ids)) (fun b => if b ∈ ids then (bviews q b).flatMap F' else []) (fun b _ hb => by
    rw [decide_eq_false_iff_not] at hb
    beta_reduce
    rw [if_neg hb])
  rw [← hf]
  have hp : ((q.bnds.map (·.1)).filter fun b => decide (b ∈ ids)).Perm ids := by
    rw [List.perm_ext_iff_of_nodup ((h.split.bndSorted.imp Nat.ne_of_lt : (q.bnds.map (·.1)).Nodup).filter _) hnd]
    intro b
    rw [List.mem_filter, decide_eq_true_eq]
    exact ⟨fun hb => hb.2, fun hb => ⟨hids hb, hb⟩⟩
  refine (hp.flatMap_right _).trans (flatMap_perm_congr fun b hb => ?_)
  rw [if_pos hb]; exact List.Perm.refl _

/-- No domain of a part of a split mesh is empty. -/
def Filled (m : DomMap) : Prop := ∀ k d, m.lookup k = some d → d.elems ≠ []

theorem restrict_filled {d d' : Domain} {sel : Element → Bool} (h : Split.restrict d sel = some d') : d'.elems ≠ [] := by
  have h1 := (restrict_elems h).1
  unfold Split.restrict at h
  by_cases hc : d.elems.filter sel = []
  · rw [if_pos hc] at h; simp at h
  · rw [h1]; exact hc

theorem split_filled (h : RankOk kinds q D) {p : Element → Bool} {ord : Bool → Nat → List Element → List Element} (hord : ∀ s k l, (ord s k l).Perm l) {t f : Split.Part}
    (hs : Split.split kinds q p ord = some (t, f)) : Filled t.doms ∧ Filled f.doms := by
  obtain ⟨t', f', hs', h1, h2, _⟩ := Split.C27_elements kinds q D h.split p ord hord
  rw [hs] at hs'
  obtain ⟨rfl, rfl⟩ := Prod.mk.inj (Option.some.inj hs')
  have key : ∀ {m : DomMap} {k : Nat} {d : Domain} {sel : Element → Bool}, m.lookup k = some d → (m.lookup k = (q.doms.lookup k).bind fun d => Split.restrict d sel) → d.elems ≠ [] := by
    intro m k d sel hd hr
    rw [hd] at hr
    obtain ⟨d', _, hr'⟩ := Option.bind_eq_some_iff.1 hr.symm
    exact restrict_filled hr'
  constructor
  · intro k d hd
    by_cases hk : k ∈ q.bnds.map (·.1)
    · exact key hd (h2 k hk).1
    · exact key hd (h1 k hk).1
  · intro k d hd
    by_cases hk : k ∈ q.bnds.map (·.1)
    · exact key hd (h2 k hk).2
    · exact key hd (h1 k hk).2

theorem mkView_dims {o : Own.SegOwn} {t : Split.Part} {ord : Nat → Orders} {v : View} (hv : mkView o t ord = some v) :
    v.dims = t.doms.map fun d => (d.1, d.2.dim.getD invalidDim) := by
  unfold mkView at hv
  obtain ⟨w, _, rfl⟩ := Option.map_eq_some_iff.1 hv
  rfl

theorem lookup_map_snd {B C : Type} (l : List (Nat × B)) (g : B → C) (k : Nat) : (l.map fun d => (d.1, g d.2)).lookup k = (l.lookup k).map g := by
  induction l with
  | nil => rfl
  | cons d l ih =>
    obtain ⟨a, d⟩ := d
    by_cases h : k = a
    · subst h; simp
    · have : (k == a) = false := by simpa using h
      simp [List.lookup_cons, this, ih]

/-- The dimension of a domain is known to the view of a half which has elements of it. -/
theorem dim_iff {sel : Element → Bool} {t : Split.Part} (h : RankOk kinds q D) (ht : Half q sel t) (hf : Filled t.doms) {ord : Nat → Orders} {v : View}
    (hv : mkView q.own t ord = some v) (k x : Nat) : v.dim k = some x ↔ ∃ e, InDom t.doms k e ∧ e.ty.dim = x := by
  unfold View.dim
  rw [mkView_dims hv, lookup_map_snd t.doms (fun d => d.dim.getD invalidDim)]
  have key : ∀ d, t.doms.lookup k = some d → ∀ e ∈ d.elems, d.dim.getD invalidDim = e.ty.dim := by
    intro d hd e he
    obtain ⟨d', h1, h2, h3⟩ := ht.dim _ (Mesh.mem_of_lookup hd)
    rw [← h2, (h.split.wf.dom _ _ h1).dim e (h3 e he)]; rfl
  constructor
  · intro hx
    obtain ⟨d, hd, rfl⟩ := Option.map_eq_some_iff.1 hx
    obtain ⟨e, he⟩ := List.exists_mem_of_ne_nil _ (hf k d hd)
    exact ⟨e, ⟨d, hd, he⟩, (key d hd e he).symm⟩
  · rintro ⟨e, ⟨d, hd, he⟩, rfl⟩
    rw [hd, Option.map_some, key d hd e he]

theorem bnd_view (h : RankOk kinds q D) {b : Nat} (hb : b ∈ q.bnds.map (·.1)) {x : Element} (hx : InDom q.doms b x) : ∃ v, viewOf q.doms x = some v := by
  obtain ⟨ord, hord, hv⟩ := h.split.views
  exact (initViews_mem hord hv).2 b hb x hx

theorem mem_pairs {k : Nat} {e : Element} : (k, e) ∈ domPairs q ↔ k ∉ q.bnds.map (·.1) ∧ InDom q.doms k e := by
  unfold domPairs
  simp only [List.mem_flatMap, List.mem_map, Prod.mk.injEq, List.mem_filter, mem_domEls]
  constructor
  · rintro ⟨k', ⟨_, hk⟩, e', he, rfl, rfl⟩
    exact ⟨by simpa using hk, he⟩
  · rintro ⟨hk, he⟩
    obtain ⟨d, hd, hed⟩ := he
    exact ⟨k, ⟨⟨_, Mesh.mem_of_lookup hd, rfl⟩, by simpa using hk⟩, e, ⟨d, hd, hed⟩, rfl, rfl⟩

/-- The parent of a boundary element is in a domain which is not a boundary. -/
theorem parent_dom (h : RankOk kinds q D) {b : Nat} (hb : b ∈ q.bnds.map (·.1)) {x e : Element} {s : Nat} (hx : InDom q.doms b x) (hv : viewOf q.doms x = some (e, s)) :
    ∃ k, k ∉ q.bnds.map (·.1) ∧ InDom q.doms k e := by
  have : (e, s) ∈ bviews q b := List.mem_filterMap.2 ⟨x, mem_domEls.2 hx, hv⟩
  obtain ⟨⟨k, e'⟩, hke, rfl⟩ := List.mem_map.1 (parent_mem h hb this)
  exact ⟨k, mem_pairs.1 hke⟩

/-- The half has an element of a domain which is not a boundary. -/
def Any (q : Split.Part) (sel : Element → Bool) : Prop := ∃ k e, k ∉ q.bnds.map (·.1) ∧ InDom q.doms k e ∧ sel e = true

/-- Domains other than boundaries are one dimension up. -/
def Full (q : Split.Part) (D : Nat) : Prop := ∀ k e, k ∉ q.bnds.map (·.1) → InDom q.doms k e → e.ty.dim = D + 1

theorem foldl_max (l : List Nat) (a M : Nat) (h : ∀ x ∈ l, x ≤ M) (ha : a ≤ M) (hm : a = M ∨ M ∈ l) : l.foldl max a = M := by
  induction l generalizing a with
  | nil => simpa using hm
  | cons x l ih =>
    have hx := h x (by simp)
    refine ih (max a x) (fun y hy => h y (by simp [hy])) (by omega) ?_
    rcases hm with rfl | hm
    · left; omega
    · rcases List.mem_cons.1 hm with rfl | hm
      · left; omega
      · right; exact hm

theorem bnd_dim (h : RankOk kinds q D) {b : Nat} (hb : b ∈ q.bnds.map (·.1)) {x : Element} (hx : InDom q.doms b x) : x.ty.dim = D := by
  obtain ⟨d, hd, hxe⟩ := hx
  have h1 := h.split.bndDim b hb d hd
  rw [(h.split.wf.dom _ _ hd).dim x hxe] at h1
  exact Option.some.inj h1

theorem Half.sub {sel : Element → Bool} {t : Split.Part} (ht : Half q sel t) {k : Nat} {e : Element} (he : InDom t.doms k e) : InDom q.doms k e := by
  obtain ⟨d, hd, hed⟩ := he
  obtain ⟨d', h1, _, h3⟩ := ht.dim _ (Mesh.mem_of_lookup hd)
  exact ⟨d', h1, h3 e hed⟩

theorem any_of_elem {sel : Element → Bool} {t : Split.Part} (h : RankOk kinds q D) (ht : Half q sel t) {k : Nat} {e : Element} (he : InDom t.doms k e) : Any q sel := by
  by_cases hk : k ∈ q.bnds.map (·.1)
  · obtain ⟨hx, p, s, hv, hp⟩ := (ht.bdoms k hk e).1 he
    obtain ⟨k', h1, h2⟩ := parent_dom h hk hx hv
    exact ⟨k', p, h1, h2, hp⟩
  · obtain ⟨h1, h2⟩ := (inDom_restrict (ht.doms k hk) e).1 he
    exact ⟨k, e, hk, h1, h2⟩

theorem maxDim_some {sel : Element → Bool} {t : Split.Part} (h : RankOk kinds q D) (hfull : Full q D) (ht : Half q sel t) (hf : Filled t.doms) {ord : Nat → Orders} {v : View}
    (hv : mkView q.own t ord = some v) (ha : Any q sel) : v.maxDim = D + 1 := by
  obtain ⟨k, e, hk, he, hs⟩ := ha
  have hd : v.dim k = some (D + 1) := (dim_iff h ht hf hv k _).2 ⟨e, (inDom_restrict (ht.doms k hk) e).2 ⟨he, hs⟩, hfull k e hk he⟩
  have hmem : (k, D + 1) ∈ v.dims := by
    unfold View.dim at hd
    generalize v.dims = l at hd
    induction l with
    | nil => simp at hd
    | cons a l ih =>
      obtain ⟨a, c⟩ := a
      by_cases hka : k = a
      · subst hka
        rw [List.lookup_cons_self] at hd
        rw [Option.some.inj hd]; simp
      · have : (k == a) = false := by simpa using hka
        rw [List.lookup_cons, this] at hd
        exact List.mem_cons_of_mem _ (ih hd)
  unfold View.maxDim
  rw [if_neg (List.ne_nil_of_mem hmem)]
  refine foldl_max _ 0 _ ?_ (Nat.zero_le _) (Or.inr (List.mem_map.2 ⟨_, hmem, rfl⟩))
  intro x hx
  rw [mkView_dims hv, List.map_map] at hx
  obtain ⟨d, hd', rfl⟩ := List.mem_map.1 hx
  have hl := Mesh.lookup_of_mem ht.kn hd'
  obtain ⟨e', he'⟩ := List.exists_mem_of_ne_nil _ (hf _ _ hl)
  have hq : InDom q.doms d.1 e' := Half.sub ht ⟨_, hl, he'⟩
  obtain ⟨d', h1, h2, h3⟩ := ht.dim d hd'
  have h4 := (h.split.wf.dom _ _ h1).dim e' (h3 e' he')
  simp only [Function.comp_apply, ← h2, h4, Option.getD_some]
  by_cases hb : d.1 ∈ q.bnds.map (·.1)
  · rw [bnd_dim h hb hq]; omega
  · rw [hfull _ _ hb hq]

theorem maxDim_none {sel : Element → Bool} {t : Split.Part} (h : RankOk kinds q D) (ht : Half q sel t) (hf : Filled t.doms) {ord : Nat → Orders} {v : View}
    (hv : mkView q.own t ord = some v) (ha : ¬ Any q sel) : v.maxDim = invalidDim ∧ ∀ k, v.dim k = none := by
  have hnil : t.doms = [] := by
    rw [List.eq_nil_iff_forall_not_mem]
    intro d hd
    have hl := Mesh.lookup_of_mem ht.kn hd
    obtain ⟨e, he⟩ := List.exists_mem_of_ne_nil _ (hf _ _ hl)
    exact ha (any_of_elem h ht ⟨_, hl, he⟩)
  have hd := mkView_dims hv
  rw [hnil] at hd
  refine ⟨?_, fun k => ?_⟩
  · unfold View.maxDim; rw [hd]; rfl
  · unfold View.dim; rw [hd]; rfl

theorem elPts_map (g : Nat → Nat) (e : Element) : elPts (e.nodes.map g) e.ty e.n e.id = (gEl e).map (Pt.map g) := by
  unfold elPts gEl elPts
  rw [List.map_map, List.zipIdx_map, List.map_map]
  rfl

theorem sidePts_map (g : Nat → Nat) {e : Element} (hw : WfElement e) (s : Nat) :
    sidePts (e.nodes.map g) e.ty e.n e.id s = (gSide (e, s)).map (Pt.map g) := by
  unfold gSide sidePts
  rw [List.map_map]
  cases hs : sideNodeInds e.ty e.n s with
  | none => rfl
  | some inds =>
    refine List.map_congr_left fun i hi => ?_
    have := Partition.sideInds_lt hw hs i hi
    simp only [Function.comp_apply, Pt.map, Pt.mk.injEq, and_true, true_and]
    rw [List.getD_eq_getElem?_getD, List.getD_eq_getElem?_getD, List.getElem?_map, List.getElem?_eq_getElem this]
    rfl

theorem elPts_at (o : Own.SegOwn) (e : Element) : elPts (e.nodes.map (localPos o)) e.ty e.n e.id = (gEl e).map (Pt.at o) := elPts_map _ e

theorem sidePts_at {o : Own.SegOwn} {e : Element} (hw : WfElement e) (s : Nat) :
    sidePts (e.nodes.map (localPos o)) e.ty e.n e.id s = (gSide (e, s)).map (Pt.at o) := sidePts_map _ hw s

end

end Verif.Reach
