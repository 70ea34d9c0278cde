import Verif.PerPipe.Match
import Verif.PerPipe.Defs

/-! # Periodic information and numbering -/
namespace Verif.PerPipe
open Verif Verif.Elem Verif.Mesh Verif.Dofs Verif.Lsq Verif.Distr Verif.Pipeline Verif.Partition Verif.Split

variable {bnds : List Nat} {m : DomMap} {N nParts : Nat} {parts : List Part} {f : Nat → Nat} {maps : List DomMap}
variable {pos npos : Nat → List ℝ} {o : Orders}

theorem exactG {p : PProg} (h : p.Exact m bnds pos) {g : List Nat × List BGroup} (hg : g ∈ processDef p.dpn p.defs) : ExactG p.tol m bnds pos g.2 := by
  obtain ⟨i, hi, hmem⟩ := mem_processDef hg
  refine ⟨?_, h.tol, h.dim, h.inj, ?_, ?_⟩
  · intro b hb
    obtain ⟨d, hd, rfl, _⟩ := (hmem b).1 hb
    exact h.bnd d hd
  · intro b hb
    obtain ⟨d, hd, rfl, _⟩ := (hmem b).1 hb
    exact h.dx d hd
  · intro b hb b' hb'
    obtain ⟨d, hd, rfl, hj⟩ := (hmem b).1 hb
    obtain ⟨d', hd', rfl, hj'⟩ := (hmem b').1 hb'
    exact h.near i d hd hj d' hd' hj'

theorem imageG_iff {p : PProg} {j : Nat} (hj : j < p.dpn) {gs : List BGroup} (hmem : ∀ b, b ∈ gs ↔ ∃ d ∈ p.defs, d.1 = b ∧ j ∈ d.2) :
    p.Image m pos j = ImageG m pos gs := by
  funext a b
  apply propext
  constructor
  · rintro ⟨_, d, hd, hjd, h⟩
    exact ⟨d.1, (hmem _).2 ⟨d, hd, rfl, hjd⟩, h⟩
  · rintro ⟨g, hg, h⟩
    obtain ⟨d, hd, rfl, hjd⟩ := (hmem g).1 hg
    exact ⟨hj, d, hd, hjd, h⟩

/-- Periodic information of one group can always be built. -/
theorem group_some (R : Result bnds m N nParts parts f maps) (hu : UniqueParent m bnds) (ho : o.Ok) (hl : Located m pos npos f) {p : PProg} {g : List Nat × List BGroup}
    (hx : ExactG p.tol m bnds pos g.2) :
    ∃ ps, p.group o npos parts g = some (g.1, (p.matches o npos parts g.2).map (·.1), (p.matches o npos parts g.2).map (·.2), ps) ∧
      Pairs ((p.matches o npos parts g.2).map (·.1)) ((p.matches o npos parts g.2).map (·.2)) ps := by
  obtain ⟨ms, hms⟩ : ∃ ms, ms = p.matches o npos parts g.2 := ⟨_, rfl⟩
  rw [← hms]
  have hlen : (ms.map (·.1)).length = (ms.map (·.2)).length := by simp
  obtain ⟨cs, hcs, _⟩ := C41_components (ms.map (·.1)) (ms.map (·.2)) hlen p.junk o.iter ho.iter
  obtain ⟨h1, h2⟩ := C41_pairs (ms.map (·.1)) (ms.map (·.2)) hlen p.junk o.iter ho.iter hcs
  have hsome : matched cs ≠ none := by
    intro hn
    obtain ⟨n, hn, hall⟩ := h1.1 hn
    have step : ∀ q ∈ ms, q.1 ≠ q.2 := by
      intro q hq
      obtain ⟨a, b, hi, e1, e2⟩ := (mem_matches R hu ho hl hx q.1 q.2).1 (hms ▸ hq)
      intro he
      refine image_ne hx hi (R.bij.2.1 (show a ∈ Set.Iio N from (R.nodes a).1 (image_node hi).1) (show b ∈ Set.Iio N from (R.nodes b).1 (image_node hi).2) ?_)
      rw [e1, e2, he]
    rcases List.mem_append.1 hn with hn | hn
    · obtain ⟨q, hq, rfl⟩ := List.mem_map.1 hn
      have : q.2 = q.1 := hall q.2 (Relation.ReflTransGen.single (Or.inl (by rw [zip_map]; exact hq)))
      exact step q hq this.symm
    · obtain ⟨q, hq, rfl⟩ := List.mem_map.1 hn
      have : q.1 = q.2 := hall q.1 (Relation.ReflTransGen.single (Or.inr ⟨rfl, by rw [zip_map]; exact hq⟩))
      exact step q hq this
  obtain ⟨ps, hps⟩ := Option.ne_none_iff_exists'.1 hsome
  refine ⟨ps, ?_, h2 ps hps⟩
  unfold PProg.group
  rw [← hms, hcs, Option.bind_some, hps]
  rfl

theorem mapM_some {A B : Type} (F : A → Option B) : ∀ (l : List A), (∀ a ∈ l, ∃ b, F a = some b) → ∃ k, l.mapM F = some k
  | [], _ => ⟨[], rfl⟩
  | a :: l, h => by
    obtain ⟨b, hb⟩ := h a (by simp)
    obtain ⟨k, hk⟩ := mapM_some F l fun a' ha' => h a' (by simp [ha'])
    exact ⟨b :: k, by rw [List.mapM_cons, hb, hk]; rfl⟩

/-- What the groups are. -/
theorem groups_spec (R : Result bnds m N nParts parts f maps) (hu : UniqueParent m bnds) (ho : o.Ok) (hl : Located m pos npos f) {p : PProg} (hx : p.Exact m bnds pos) :
    ∃ gs, p.groups o npos parts = some gs ∧ Periodic (p.toProg.setup parts) gs ∧
      ∀ G ∈ gs, ∃ g ∈ processDef p.dpn p.defs, G.1 = g.1 ∧ G.2.1 = (p.matches o npos parts g.2).map (·.1) ∧ G.2.2.1 = (p.matches o npos parts g.2).map (·.2) := by
  obtain ⟨gs, hgs⟩ := mapM_some (p.group o npos parts) (processDef p.dpn p.defs) fun g hg => by
    obtain ⟨ps, h, _⟩ := group_some R hu ho hl (exactG hx hg)
    exact ⟨_, h⟩
  have hf := mapM_forall₂ _ _ _ hgs
  have hspec : ∀ G ∈ gs, ∃ g ∈ processDef p.dpn p.defs, p.group o npos parts g = some G := by
    intro G hG
    obtain ⟨i, hi, rfl⟩ := List.mem_iff_getElem.1 hG
    have hi' : i < (processDef p.dpn p.defs).length := by rw [hf.length_eq]; exact hi
    exact ⟨_, List.getElem_mem hi', hf.get (i := i) hi' hi⟩
  have hval : ∀ G ∈ gs, ∃ g ∈ processDef p.dpn p.defs, G.1 = g.1 ∧ G.2.1 = (p.matches o npos parts g.2).map (·.1) ∧ G.2.2.1 = (p.matches o npos parts g.2).map (·.2) ∧
      Pairs G.2.1 G.2.2.1 G.2.2.2 := by
    intro G hG
    obtain ⟨g, hg, he⟩ := hspec G hG
    obtain ⟨ps, h, hp⟩ := group_some R hu ho hl (exactG hx hg)
    rw [h] at he
    obtain rfl := Option.some.inj he
    exact ⟨g, hg, rfl, rfl, rfl, hp⟩
  obtain ⟨_, c2, c3⟩ := C41_groups p.dpn p.defs
  refine ⟨gs, hgs, ⟨?_, ?_, ?_, ?_⟩, ?_⟩
  · intro G hG
    obtain ⟨g, hg, _, _, _, h⟩ := hval G hG
    exact h
  · intro G hG n hn
    obtain ⟨g, hg, _, e1, e2, _⟩ := hval G hG
    rw [setup_sum p.toProg R]
    rw [e1, e2] at hn
    have key : ∀ q ∈ p.matches o npos parts g.2, q.1 < N ∧ q.2 < N := by
      intro q hq
      obtain ⟨a, b, hi, h1, h2⟩ := (mem_matches R hu ho hl (exactG hx hg) q.1 q.2).1 hq
      rw [← h1, ← h2]
      exact ⟨R.bij.1 ((R.nodes a).1 (image_node hi).1), R.bij.1 ((R.nodes b).1 (image_node hi).2)⟩
    rcases List.mem_append.1 hn with hn | hn
    · obtain ⟨q, hq, rfl⟩ := List.mem_map.1 hn; exact (key q hq).1
    · obtain ⟨q, hq, rfl⟩ := List.mem_map.1 hn; exact (key q hq).2
  · rw [List.pairwise_iff_getElem]
    intro i j hi hj hij
    have hi' : i < (processDef p.dpn p.defs).length := by rw [hf.length_eq]; exact hi
    have hj' : j < (processDef p.dpn p.defs).length := by rw [hf.length_eq]; exact hj
    have fst : ∀ k (hk : k < gs.length) (hk' : k < (processDef p.dpn p.defs).length), gs[k].1 = (processDef p.dpn p.defs)[k].1 := by
      intro k hk hk'
      have h1 : p.group o npos parts (processDef p.dpn p.defs)[k] = some gs[k] := hf.get (i := k) hk' hk
      obtain ⟨ps, h, _⟩ := group_some R hu ho hl (exactG hx (List.getElem_mem hk'))
      rw [h] at h1
      rw [← Option.some.inj h1]
    rw [fst i hi hi', fst j hj hj']
    exact List.pairwise_iff_getElem.1 c2 i j hi' hj' hij
  · intro G hG i hi
    obtain ⟨g, hg, e, _⟩ := hval G hG
    rw [e] at hi
    exact c3 g hg i hi
  · intro G hG
    obtain ⟨g, hg, e, e1, e2, _⟩ := hval G hG
    exact ⟨g, hg, e, e1, e2⟩

theorem meshOk_setup {p : Prog} (hp : p.Ok m bnds) (R : Result bnds m N nParts parts f maps) : (p.setup parts).MeshOk := by
  have h := setup_ok hp R
  refine ⟨fun r hr => ?_, h.visits⟩
  have := h.ghosts r hr
  have e : (p.setup parts).ghosts r ++ (p.setup parts).pghosts r = (p.setup parts).ghosts r := List.append_nil _
  rw [e] at this
  exact this

/-- The group of a component. -/
theorem group_of (R : Result bnds m N nParts parts f maps) (hu : UniqueParent m bnds) (ho : o.Ok) (hl : Located m pos npos f) {p : PProg} (hx : p.Exact m bnds pos)
    {gs : List (List Nat × List Nat × List Nat × List (Nat × Nat))} (hgs : p.groups o npos parts = some gs) {j : Nat} (hj : j < p.dpn) :
    ∃ G ∈ gs, j ∈ G.1 ∧ ∀ a b, a < N → b < N → (Linked G.2.1 G.2.2.1 (f a) (f b) ↔ p.ident m pos j a b) := by
  obtain ⟨g, hg, hjg, hmem⟩ := (C41_groups p.dpn p.defs).1 j hj
  have hf := mapM_forall₂ _ _ _ hgs
  obtain ⟨i, hi, rfl⟩ := List.mem_iff_getElem.1 hg
  have hi' : i < gs.length := by rw [← hf.length_eq]; exact hi
  have h1 : p.group o npos parts (processDef p.dpn p.defs)[i] = some gs[i] := hf.get (i := i) hi hi'
  obtain ⟨ps, h, _⟩ := group_some R hu ho hl (exactG hx hg)
  rw [h] at h1
  refine ⟨gs[i], List.getElem_mem hi', ?_, ?_⟩
  · rw [← Option.some.inj h1]; exact hjg
  · intro a b ha hb
    rw [← Option.some.inj h1]
    unfold PProg.ident
    rw [imageG_iff hj hmem]
    exact linked_iff R hu ho hl (exactG hx hg) ha hb

/-- Nodes have one representative exactly if they are identified. -/
theorem rep_iff (R : Result bnds m N nParts parts f maps) (hu : UniqueParent m bnds) (ho : o.Ok) (hl : Located m pos npos f) {p : PProg} (hx : p.Exact m bnds pos)
    {gs : List (List Nat × List Nat × List Nat × List (Nat × Nat))} (hgs : p.groups o npos parts = some gs) (hper : Periodic (p.toProg.setup parts) gs) (j n n' : Nat)
    (hn : n < N) (hn' : n' < N) :
    ((p.toProg.setup parts).withPeriodic (strip gs)).rep (f n) j = ((p.toProg.setup parts).withPeriodic (strip gs)).rep (f n') j ↔ p.ident m pos j n n' := by
  by_cases hj : j < p.dpn
  · obtain ⟨G, hG, hjG, hlink⟩ := group_of R hu ho hl hx hgs hj
    rw [← hlink n n' hn hn']
    obtain ⟨a1, a2⟩ := rep_spec hper hG hjG (f n)
    obtain ⟨b1, b2⟩ := rep_spec hper hG hjG (f n')
    constructor
    · intro he
      rw [he] at a1
      exact a1.trans (linked_symm b1)
    · intro h
      exact Nat.le_antisymm (a2 _ (h.trans b1)) (b2 _ ((linked_symm h).trans a1))
  · have hno : ∀ x, ((p.toProg.setup parts).withPeriodic (strip gs)).rep x j = x := fun x =>
      C41_unaffected hper x j fun G hG hjG => absurd (hper.comps G hG j hjG) hj
    rw [hno, hno]
    constructor
    · intro h
      rw [R.bij.2.1 (show n ∈ Set.Iio N from hn) (show n' ∈ Set.Iio N from hn') h]
      exact .refl _
    · intro h
      have : n = n' := by
        clear hn hn'
        induction h with
        | rel a b h => exact absurd h.1 hj
        | refl => rfl
        | symm _ _ _ ih => exact ih.symm
        | trans _ _ _ _ _ ih1 ih2 => exact ih1.trans ih2
      rw [this]

/-- A redirected component is named in a definition. -/
theorem lookup_named (R : Result bnds m N nParts parts f maps) (hu : UniqueParent m bnds) (ho : o.Ok) (hl : Located m pos npos f) {p : PProg} (hx : p.Exact m bnds pos)
    {gs : List (List Nat × List Nat × List Nat × List (Nat × Nat))} (hgs : p.groups o npos parts = some gs) (hper : Periodic (p.toProg.setup parts) gs) {r y j a : Nat}
    (h : ((p.toProg.setup parts).withPeriodic (strip gs)).lookup r y j = some a) : j < p.dpn ∧ ∃ d ∈ p.defs, j ∈ d.2 := by
  obtain ⟨_, G, hG, hjG, hm⟩ := (lookup_spec hper r y j a).1 h
  have hj : j < p.dpn := hper.comps G hG j hjG
  refine ⟨hj, ?_⟩
  obtain ⟨G', hG', hjG', hlink⟩ := group_of R hu ho hl hx hgs hj
  obtain rfl := same_group hper hG hG' hjG hjG'
  obtain ⟨h1, h2, _⟩ := ((hper.pairs G hG).mem y a).1 hm
  obtain ⟨m1, m2⟩ := linked_mem h2 h1
  have n1 := hper.nodes G hG y m1
  have n2 := hper.nodes G hG a m2
  rw [setup_sum p.toProg R] at n1 n2
  obtain ⟨x, hx1, rfl⟩ := R.bij.2.2 (show y ∈ Set.Iio N from n1)
  obtain ⟨z, hz1, rfl⟩ := R.bij.2.2 (show a ∈ Set.Iio N from n2)
  have hid := (hlink x z hx1 hz1).1 h2
  by_contra hno
  apply h1
  have : x = z := by
    clear * - hid hno
    induction hid with
    | rel a b h => obtain ⟨_, d, hd, hjd, _⟩ := h; exact absurd ⟨d, hd, hjd⟩ hno
    | refl => rfl
    | symm _ _ _ ih => exact ih.symm
    | trans _ _ _ _ _ ih1 ih2 => exact ih1.trans ih2
  rw [this]

theorem sideNodes_sub {e : Element} (h : WfElement e) {s : Nat} {l : List Nat} (hl : sideNodes e s = some l) : ∀ x ∈ l, x ∈ e.nodes := by
  unfold sideNodes at hl
  obtain ⟨inds, hi, rfl⟩ := Option.map_eq_some_iff.1 hl
  intro x hx
  obtain ⟨i, hi', rfl⟩ := List.mem_map.1 hx
  have := sideInds_lt h hi i hi'
  rw [List.getD_eq_getElem?_getD, List.getElem?_eq_getElem this]
  exact List.getElem_mem this

/-- Every owned node is in an element of its owner's part which does not lie in a boundary. -/
theorem seen_inside {kinds : List (ElType × Nat)} {D : Nat} (hm : MeshOk kinds m bnds D) (R : Result bnds m N nParts parts f maps) {r : Nat} (hr : r < nParts) {y : Nat}
    (hy : (part parts r).own.isOwned y = true) : ∃ k ∉ bnds, ∃ e, InDom (mapAt maps r) k e ∧ ∃ x ∈ e.nodes, f x = y := by
  have h1 : r < parts.length := by rw [R.plen]; exact hr
  obtain ⟨e, he, hye⟩ := R.seen r _ (part_get h1) y hy
  rw [part_doms R] at he
  obtain ⟨e, he', rfl⟩ := of_holds_mapDoms he
  obtain ⟨x, hx, rfl⟩ := List.mem_map.1 hye
  have hmem := mapAt_mem R hr
  have hwf := R.wf _ hmem
  obtain ⟨dd, hdd, v, hv, hev⟩ := he'
  have hin := inDom_of_mem hwf hdd hv hev
  by_cases hb : dd.1 ∈ bnds
  · obtain ⟨d, hd, hed⟩ := hin
    obtain ⟨_, _, hpar⟩ := R.views _ hmem dd.1 hb d hd
    obtain ⟨e', s, hes⟩ := hpar e hed
    obtain ⟨hpm, k', hk'⟩ := isParent_of_part R hr hes
    have hin' := (inDom_mapAt R hk').2.2
    refine ⟨k', ?_, e', hk', x, ?_, rfl⟩
    · intro hkb
      -- dimensions
      obtain ⟨d1, hd1, hdim1, _⟩ := hm.bnd dd.1 hb
      obtain ⟨d2, hd2, hdim2, _⟩ := hm.bnd k' hkb
      obtain ⟨d1', hd1', he1⟩ := (inDom_mapAt R ⟨d, hd, hed⟩).2.2
      obtain ⟨d2', hd2', he2⟩ := hin'
      obtain rfl : d1' = d1 := Option.some.inj (hd1'.symm.trans hd1)
      obtain rfl : d2' = d2 := Option.some.inj (hd2'.symm.trans hd2)
      have x1 := R.mdims _ (Mesh.mem_of_lookup hd1) e he1
      have x2 := R.mdims _ (Mesh.mem_of_lookup hd2) e' he2
      obtain ⟨⟨dq, hdq, hdim, v', hv', he'⟩, _⟩ := hes
      have x3 := R.dims _ hmem dq hdq e' (List.mem_flatten.2 ⟨v', hv', he'⟩)
      simp only at x1 x2
      rw [hdim1] at x1
      rw [hdim2] at x2
      rw [hdim] at x3
      have y1 := Option.some.inj x1
      have y2 := Option.some.inj x2
      have y3 := Option.some.inj x3
      omega
    · obtain ⟨_, l, hl, hp⟩ := hes
      have hxl : x ∈ l := hp.symm.subset hx
      exact sideNodes_sub (R.els e' (inDom_holds hin')) hl x hxl
  · exact ⟨dd.1, hb, e, hin, x, hx, rfl⟩

end Verif.PerPipe
