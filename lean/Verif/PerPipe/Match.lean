import Verif.PerPipe.Model

/-! # What is matched, in terms of the mesh before distribution -/
namespace Verif.PerPipe
open Verif Verif.Elem Verif.Mesh Verif.Dofs Verif.Lsq Verif.Distr Verif.Pipeline Verif.Partition Verif.Split

variable {bnds : List Nat} {m : DomMap} {N nParts : Nat} {parts : List Part} {f : Nat → Nat} {maps : List DomMap}

/-! ### The table of nodes -/

theorem proximate_sub (c : PerMatch.Consts ℝ) {d : List (List ℝ × Nat)} {q : List ℝ} (hq : q.length = 3) {p : List ℝ × Nat}
    (h : p ∈ (PerMatch.spaceMap c d).proximate q) : p ∈ d := by
  unfold PerMatch.spaceMap at h
  by_cases he : d = []
  · rw [if_pos he] at h
    have := (Spatial.C12_proximate_exact c.minDx (List.replicate 3 c.minDx) (List.replicate 3 0) (by simp) ([] : List (List ℝ × Nat)) q (by simp [hq])).mem_iff (a := p)
    simp only [List.filter_nil, List.not_mem_nil, iff_false] at this
    exact absurd h this
  · rw [if_neg he, (Spatial.C12_proximate_exact c.minDx _ _ (by simp [PerMatch.spacing_length, PerMatch.origin]) d q (by rw [PerMatch.spacing_length, hq])).mem_iff, List.mem_filter] at h
    exact h.1

theorem proximate_self (c : PerMatch.Consts ℝ) {d : List (List ℝ × Nat)} {q : List ℝ} (hq : q.length = 3) {b : Nat} (h : (q, b) ∈ d) :
    (q, b) ∈ (PerMatch.spaceMap c d).proximate q := by
  unfold PerMatch.spaceMap
  have he : d ≠ [] := fun h' => by rw [h'] at h; simp at h
  rw [if_neg he, (Spatial.C12_proximate_exact c.minDx _ _ (by simp [PerMatch.spacing_length, PerMatch.origin]) d q (by rw [PerMatch.spacing_length, hq])).mem_iff, List.mem_filter]
  refine ⟨h, ?_⟩
  rw [decide_eq_true_iff]
  unfold Spatial.Near
  exact List.forall₂_same.2 fun a _ => by simp

theorem shift_length {dx x : List ℝ} (h1 : dx.length = 3) (h2 : x.length = 3) : (shift dx x).length = 3 := by
  unfold shift; simp [h1, h2]

theorem translate_eq (dx : List ℝ) (n : List ℝ × Nat) : PerMatch.translate dx n = (shift dx n.1, n.2) := rfl

theorem sqDist_self (a : List ℝ) : PerMatch.sqDist a a = 0 := by unfold PerMatch.sqDist; simp

theorem shift_ne {dx x : List ℝ} (h1 : dx.length = 3) (h2 : x.length = 3) (h : ∃ i < 3, dx.getD i 0 ≠ 0) : shift dx x ≠ x := by
  intro he
  obtain ⟨i, hi, hne⟩ := h
  apply hne
  have h3 : (shift dx x).getD i 0 = x.getD i 0 := by rw [he]
  have e1 : (shift dx x).getD i 0 = x.getD i 0 + dx.getD i 0 := by
    unfold shift
    rw [List.getD_eq_getElem?_getD, List.getD_eq_getElem?_getD, List.getD_eq_getElem?_getD, List.getElem?_eq_getElem (by simp; omega),
      List.getElem?_eq_getElem (by omega), List.getElem?_eq_getElem (by omega)]
    simp
  linarith

/-! ### Nodes of boundaries -/

theorem keys_mapDoms {f : Nat → Nat} {m : DomMap} (h : KeysNodup m) : KeysNodup (mapDoms f m) := by
  unfold KeysNodup mapDoms at *
  rw [List.map_map]
  exact h

theorem mem_bndNodes (R : Result bnds m N nParts parts f maps) (hu : UniqueParent m bnds) {ids : List Nat} (hids : ids ⊆ bnds) {r : Nat} (hr : r < nParts) (y : Nat) :
    y ∈ bndNodes (part parts r).doms ids ↔ ∃ x, OnBnd (mapAt maps r) ids x ∧ f x = y := by
  have hk := keys_mapDoms (f := f) (R.wf _ (mapAt_mem R hr))
  unfold bndNodes OnBnd
  rw [part_doms R]
  simp only [List.mem_flatMap, List.mem_filterMap]
  constructor
  · rintro ⟨v, ⟨b, hb, hv⟩, hy⟩
    rw [visit_mapDoms] at hb
    obtain ⟨e, he, rfl⟩ := List.mem_map.1 hb
    obtain ⟨_, l, hl, hp⟩ := viewOf_some hk hv
    rw [hl] at hy
    have hy' : y ∈ e.nodes.map f := hp.subset hy
    obtain ⟨x, hx, rfl⟩ := List.mem_map.1 hy'
    exact ⟨x, ⟨e, he, hx⟩, rfl⟩
  · rintro ⟨x, ⟨e, he, hx⟩, rfl⟩
    obtain ⟨b, hb, hin⟩ := mem_visitIds.1 he
    obtain ⟨e', s, h1, _, _⟩ := viewOf_part R hu (hids hb) hin
    have hv := viewOf_renamed R hu (hids hb) hin
    rw [h1] at hv
    refine ⟨_, ⟨mapEl f e, by rw [visit_mapDoms]; exact List.mem_map.2 ⟨e, he, rfl⟩, hv⟩, ?_⟩
    obtain ⟨_, l, hl, hp⟩ := viewOf_some hk hv
    rw [hl]
    exact hp.symm.subset (List.mem_map.2 ⟨x, hx, rfl⟩)

theorem onBnd_part (R : Result bnds m N nParts parts f maps) {ids : List Nat} {r x : Nat} (h : OnBnd (mapAt maps r) ids x) : OnBnd m ids x := by
  obtain ⟨e, he, hx⟩ := h
  obtain ⟨b, hb, hin⟩ := mem_visitIds.1 he
  exact ⟨e, mem_visitIds.2 ⟨b, hb, (inDom_mapAt R hin).2.2⟩, hx⟩

theorem onBnd_some (R : Result bnds m N nParts parts f maps) {ids : List Nat} {x : Nat} (h : OnBnd m ids x) : ∃ r < nParts, OnBnd (mapAt maps r) ids x := by
  obtain ⟨e, he, hx⟩ := h
  obtain ⟨b, hb, hin⟩ := mem_visitIds.1 he
  obtain ⟨r, ⟨m', hm', hin'⟩, _⟩ := R.uniq b e hin
  have hr : r < nParts := by rw [← R.len]; exact (List.getElem?_eq_some_iff.1 hm').1
  exact ⟨r, hr, e, mem_visitIds.2 ⟨b, hb, by unfold mapAt; rw [hm']; exact hin'⟩, hx⟩

theorem onBnd_node {ids : List Nat} {x : Nat} (h : OnBnd m ids x) : NodeIn m x := by
  obtain ⟨e, he, hx⟩ := h
  obtain ⟨b, _, hin⟩ := mem_visitIds.1 he
  exact ⟨e, inDom_holds hin, hx⟩

/-! ### Matches -/

/-- The definitions of one group satisfy what `Exact` says of all. -/
structure ExactG (τ : ℝ) (m : DomMap) (bnds : List Nat) (pos : Nat → List ℝ) (gs : List BGroup) : Prop where
  bnd : ∀ g ∈ gs, g.src ⊆ bnds ∧ g.dst ⊆ bnds
  tol : 0 < τ
  dim : ∀ x, (pos x).length = 3
  inj : ∀ x y, NodeIn m x → NodeIn m y → pos x = pos y → x = y
  dx : ∀ g ∈ gs, g.dx.length = 3 ∧ ∃ i < 3, g.dx.getD i 0 ≠ 0
  near : ∀ g ∈ gs, ∀ g' ∈ gs, ∀ a b, OnBnd m g.src a → OnBnd m g'.dst b →
    PerMatch.sqDist (pos b) (shift g.dx (pos a)) < τ ^ 2 → pos b = shift g.dx (pos a) ∧ OnBnd m g.dst b

/-- Image under one of the definitions of a group. -/
def ImageG (m : DomMap) (pos : Nat → List ℝ) (gs : List BGroup) (a b : Nat) : Prop :=
  ∃ g ∈ gs, OnBnd m g.src a ∧ OnBnd m g.dst b ∧ pos b = shift g.dx (pos a)

theorem mem_nodeData {pos : Nat → List ℝ} {ord : List Nat → List Nat} (ho : ∀ l, (ord l).Perm l) {m : DomMap} {ids : List Nat} {q : List ℝ × Nat} :
    q ∈ nodeData pos ord m ids ↔ q.2 ∈ bndNodes m ids ∧ q.1 = pos q.2 := by
  unfold nodeData
  rw [List.mem_map]
  constructor
  · rintro ⟨n, hn, rfl⟩
    exact ⟨List.mem_dedup.1 ((ho _).subset hn), rfl⟩
  · rintro ⟨h1, h2⟩
    exact ⟨q.2, (ho _).symm.subset (List.mem_dedup.2 h1), Prod.ext h2.symm rfl⟩

variable {pos npos : Nat → List ℝ} {o : Orders} {gs : List BGroup}

theorem mem_srcData (R : Result bnds m N nParts parts f maps) (hu : UniqueParent m bnds) (ho : o.Ok) (hl : Located m pos npos f) {p : ℝ} (hx : ExactG p m bnds pos gs)
    {r : Nat} (hr : r < nParts) {q : List ℝ × Nat} :
    q ∈ srcData npos (o.node r) (part parts r).doms gs ↔ ∃ g ∈ gs, ∃ a, OnBnd (mapAt maps r) g.src a ∧ q = (shift g.dx (pos a), f a) := by
  unfold srcData
  simp only [List.mem_flatMap, List.mem_map]
  constructor
  · rintro ⟨g, hg, n, hn, rfl⟩
    obtain ⟨h1, h2⟩ := (mem_nodeData (ho.node r)).1 hn
    obtain ⟨a, ha, he⟩ := (mem_bndNodes R hu (hx.bnd g hg).1 hr _).1 h1
    refine ⟨g, hg, a, ha, ?_⟩
    rw [translate_eq, h2, ← he, hl.2 a (onBnd_node (onBnd_part R ha))]
  · rintro ⟨g, hg, a, ha, rfl⟩
    refine ⟨g, hg, (npos (f a), f a), (mem_nodeData (ho.node r)).2 ⟨(mem_bndNodes R hu (hx.bnd g hg).1 hr _).2 ⟨a, ha, rfl⟩, rfl⟩, ?_⟩
    rw [translate_eq, hl.2 a (onBnd_node (onBnd_part R ha))]

theorem onBnd_flat {gs : List BGroup} {x : Nat} : OnBnd m (gs.flatMap BGroup.dst).dedup x ↔ ∃ g ∈ gs, OnBnd m g.dst x := by
  unfold OnBnd
  constructor
  · rintro ⟨e, he, hx⟩
    obtain ⟨b, hb, hin⟩ := mem_visitIds.1 he
    obtain ⟨g, hg, hb⟩ := List.mem_flatMap.1 (List.mem_dedup.1 hb)
    exact ⟨g, hg, e, mem_visitIds.2 ⟨b, hb, hin⟩, hx⟩
  · rintro ⟨g, hg, e, he, hx⟩
    obtain ⟨b, hb, hin⟩ := mem_visitIds.1 he
    exact ⟨e, mem_visitIds.2 ⟨b, List.mem_dedup.2 (List.mem_flatMap.2 ⟨g, hg, hb⟩), hin⟩, hx⟩

theorem mem_destData (R : Result bnds m N nParts parts f maps) (hu : UniqueParent m bnds) (ho : o.Ok) (hl : Located m pos npos f) {p : ℝ} (hx : ExactG p m bnds pos gs)
    {r : Nat} (hr : r < nParts) {q : List ℝ × Nat} :
    q ∈ destData npos (o.node r) (part parts r).doms gs ↔ ∃ g ∈ gs, ∃ b, OnBnd (mapAt maps r) g.dst b ∧ q = (pos b, f b) := by
  have hsub : (gs.flatMap BGroup.dst).dedup ⊆ bnds := by
    intro b hb
    obtain ⟨g, hg, hb⟩ := List.mem_flatMap.1 (List.mem_dedup.1 hb)
    exact (hx.bnd g hg).2 hb
  unfold destData
  rw [mem_nodeData (ho.node r), mem_bndNodes R hu hsub hr]
  constructor
  · rintro ⟨⟨b, hb, he⟩, h2⟩
    obtain ⟨g, hg, hb'⟩ := onBnd_flat.1 hb
    refine ⟨g, hg, b, hb', Prod.ext ?_ he.symm⟩
    rw [h2, ← he, hl.2 b (onBnd_node (onBnd_part R hb'))]
  · rintro ⟨g, hg, b, hb, rfl⟩
    exact ⟨⟨b, onBnd_flat.2 ⟨g, hg, hb⟩, rfl⟩, (hl.2 b (onBnd_node (onBnd_part R hb))).symm⟩

/-- Exactly the images are matched. -/
theorem mem_matches (R : Result bnds m N nParts parts f maps) (hu : UniqueParent m bnds) (ho : o.Ok) (hl : Located m pos npos f) {p : PProg} (hx : ExactG p.tol m bnds pos gs)
    (y y' : Nat) : (y, y') ∈ p.matches o npos parts gs ↔ ∃ a b, ImageG m pos gs a b ∧ f a = y ∧ f b = y' := by
  unfold PProg.matches PerMatch.matchAll
  have hlen : ∀ {r}, r ∈ List.range parts.length ↔ r < nParts := fun {r} => by rw [List.mem_range, R.plen]
  simp only [List.mem_flatMap, List.mem_map]
  constructor
  · rintro ⟨_, ⟨r', hr', rfl⟩, _, ⟨r, hr, rfl⟩, h⟩
    rw [hlen] at hr hr'
    unfold PerMatch.matchNodes PerMatch.matchOne at h
    obtain ⟨n, hn, hf⟩ := List.mem_filterMap.1 h
    obtain ⟨q, hq, he⟩ := Option.map_eq_some_iff.1 hf
    obtain ⟨g, hg, a, ha, rfl⟩ := (mem_srcData R hu ho hl hx hr).1 hn
    have hal := shift_length (hx.dx g hg).1 (hx.dim a)
    have hmem := proximate_sub _ hal (List.mem_of_find?_eq_some hq)
    have hcl := List.find?_some hq
    obtain ⟨g', hg', b, hb, rfl⟩ := (mem_destData R hu ho hl hx hr').1 hmem
    rw [PerMatch.closer_iff] at hcl
    obtain ⟨h1, h2⟩ := hx.near g hg g' hg' a b (onBnd_part R ha) (onBnd_part R hb) hcl.2
    obtain ⟨e1, e2⟩ := Prod.mk.inj he
    exact ⟨a, b, ⟨g, hg, onBnd_part R ha, h2, h1⟩, e1, e2⟩
  · rintro ⟨a, b, ⟨g, hg, ha, hb, hpos⟩, rfl, rfl⟩
    obtain ⟨r, hr, ha'⟩ := onBnd_some R ha
    obtain ⟨r', hr', hb'⟩ := onBnd_some R hb
    refine ⟨_, ⟨r', hlen.2 hr', rfl⟩, _, ⟨r, hlen.2 hr, rfl⟩, ?_⟩
    unfold PerMatch.matchNodes
    refine List.mem_filterMap.2 ⟨(shift g.dx (pos a), f a), (mem_srcData R hu ho hl hx hr).2 ⟨g, hg, a, ha', rfl⟩, ?_⟩
    unfold PerMatch.matchOne
    have hal := shift_length (hx.dx g hg).1 (hx.dim a)
    have hd : (shift g.dx (pos a), f b) ∈ destData npos (o.node r') (part parts r').doms gs :=
      (mem_destData R hu ho hl hx hr').2 ⟨g, hg, b, hb', by rw [hpos]⟩
    have hprox := proximate_self p.consts hal hd
    have hcl : PerMatch.closer p.tol (shift g.dx (pos a)) (shift g.dx (pos a)) = true := by
      rw [PerMatch.closer_iff, sqDist_self]
      exact ⟨hx.tol, by have := hx.tol; positivity⟩
    cases hf : ((PerMatch.spaceMap p.consts (destData npos (o.node r') (part parts r').doms gs)).proximate (shift g.dx (pos a))).find?
        fun q => PerMatch.closer p.tol q.1 (shift g.dx (pos a)) with
    | none => 
      have := List.find?_eq_none.1 hf _ hprox
      exact absurd hcl this
    | some q =>
      have hmem := proximate_sub _ hal (List.mem_of_find?_eq_some hf)
      have hcl := List.find?_some hf
      obtain ⟨g', hg', b', hb'', rfl⟩ := (mem_destData R hu ho hl hx hr').1 hmem
      rw [PerMatch.closer_iff] at hcl
      obtain ⟨h1, _⟩ := hx.near g hg g' hg' a b' ha (onBnd_part R hb'') hcl.2
      have : b' = b := hx.inj b' b (onBnd_node (onBnd_part R hb'')) (onBnd_node hb) (h1.trans hpos.symm)
      rw [this]; rfl

/-- No node is its own image. -/
theorem image_ne {tol : ℝ} (hx : ExactG tol m bnds pos gs) {a b : Nat} (h : ImageG m pos gs a b) : a ≠ b := by
  rintro rfl
  obtain ⟨g, hg, _, _, hpos⟩ := h
  exact shift_ne (hx.dx g hg).1 (hx.dim a) (hx.dx g hg).2 hpos.symm

theorem image_node {a b : Nat} (h : ImageG m pos gs a b) : NodeIn m a ∧ NodeIn m b := by
  obtain ⟨g, _, ha, hb, _⟩ := h
  exact ⟨onBnd_node ha, onBnd_node hb⟩

theorem zip_map {A B : Type} (l : List (A × B)) : (l.map (·.1)).zip (l.map (·.2)) = l := by
  induction l with
  | nil => rfl
  | cons a l ih => rw [List.map_cons, List.map_cons, List.zip_cons_cons, ih]

/-- Chains of matches are chains of images. -/
theorem linked_iff (R : Result bnds m N nParts parts f maps) (hu : UniqueParent m bnds) (ho : o.Ok) (hl : Located m pos npos f) {p : PProg} (hx : ExactG p.tol m bnds pos gs)
    {a b : Nat} (ha : a < N) (hb : b < N) :
    Linked ((p.matches o npos parts gs).map (·.1)) ((p.matches o npos parts gs).map (·.2)) (f a) (f b) ↔ Relation.EqvGen (ImageG m pos gs) a b := by
  constructor
  · intro h
    have key : ∀ y, Linked ((p.matches o npos parts gs).map (·.1)) ((p.matches o npos parts gs).map (·.2)) (f a) y →
        ∃ b, b < N ∧ f b = y ∧ Relation.EqvGen (ImageG m pos gs) a b := by
      intro y h
      unfold Linked at h
      rw [zip_map] at h
      induction h with
      | refl => exact ⟨a, ha, rfl, .refl a⟩
      | tail _ hs ih =>
        obtain ⟨b, hb, rfl, hab⟩ := ih
        rcases hs with hs | ⟨_, hs⟩
        · obtain ⟨a', b', hi, e1, e2⟩ := (mem_matches R hu ho hl hx _ _).1 hs
          obtain ⟨n1, n2⟩ := image_node hi
          obtain rfl := R.bij.2.1 (show a' ∈ Set.Iio N from (R.nodes a').1 n1) (show b ∈ Set.Iio N from hb) e1
          exact ⟨b', (R.nodes b').1 n2, e2, .trans _ _ _ hab (.rel _ _ hi)⟩
        · obtain ⟨a', b', hi, e1, e2⟩ := (mem_matches R hu ho hl hx _ _).1 hs
          obtain ⟨n1, n2⟩ := image_node hi
          obtain rfl := R.bij.2.1 (show b' ∈ Set.Iio N from (R.nodes b').1 n2) (show b ∈ Set.Iio N from hb) e2
          exact ⟨a', (R.nodes a').1 n1, e1, .trans _ _ _ hab (.symm _ _ (.rel _ _ hi))⟩
    obtain ⟨b', hb', he, hab⟩ := key _ h
    obtain rfl := R.bij.2.1 (show b' ∈ Set.Iio N from hb') (show b ∈ Set.Iio N from hb) he
    exact hab
  · intro h
    clear ha hb
    induction h with
    | rel a b hi =>
      refine Relation.ReflTransGen.single (Or.inl ?_)
      rw [zip_map]
      exact (mem_matches R hu ho hl hx _ _).2 ⟨a, b, hi, rfl, rfl⟩
    | refl a => exact .refl
    | symm a b _ ih => exact linked_symm ih
    | trans a b c _ _ ih1 ih2 => exact Relation.ReflTransGen.trans ih1 ih2

end Verif.PerPipe
