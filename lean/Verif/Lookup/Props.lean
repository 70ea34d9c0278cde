import Verif.Lookup.Spec
import Verif.Restart.Props

/-! # C134: elements looked up by id on the rank which has them -/

namespace Verif.Lookup

open Verif Verif.Elem Verif.Mesh Verif.Split Verif.Partition Verif.Pipeline Verif.Restart Verif.NativeIO

variable {kinds : List (ElType × Nat)} {m : DomMap} {bnds : List Nat} {D nParts : Nat} {parts : List Part} {f : Nat → Nat}

/-- **C134**, if the vectors of elements of the mesh are sorted by id and ids of boundary elements lie apart from those of other elements: after any
distribution (any labels, order of insertions, reordering of ranks) each rank finds by their ids exactly those elements which it has. -/
theorem C134_found_partial {Q : List Part → List Nat → Prop} (hm : MeshOk kinds m bnds D) (hone : OneSided m bnds) (hs : SortedIds m bnds) (ha : Apart m bnds)
    (ho : Outcome Q kinds m bnds nParts parts f) {r : Nat} {p : Part} (hr : parts[r]? = some p) :
    (∀ k e, k ∉ bnds → InDom p.doms k e → findId p.doms e.id = some e) ∧
    ∀ k e, k ∉ bnds → InDom m k e → ((findId p.doms e.id).isSome = true ↔ ∃ e', InDom p.doms k e' ∧ e'.id = e.id) := by
  have hg := outcome_good hm hone hs ho p (List.mem_of_getElem? hr)
  have hfind : ∀ k e, k ∉ bnds → InDom p.doms k e → findId p.doms e.id = some e := by
    intro k e hk he
    obtain ⟨e0, he0, hid⟩ := hg.from_ k e he
    obtain ⟨h1, h2⟩ := find_good hg ha hk he0
    rw [hid] at h1 h2
    cases hf : findId p.doms e.id with
    | none => exact absurd rfl (h2 hf k e he hk)
    | some e' =>
      obtain ⟨h3, k', _, h4⟩ := h1 e' hf
      rw [(hg.inj k' k e' e h4 he h3).2]
  refine ⟨hfind, fun k e hk he => ⟨fun h => ?_, ?_⟩⟩
  · obtain ⟨e', hf⟩ := Option.isSome_iff_exists.1 h
    obtain ⟨h3, k', _, h4⟩ := (find_good hg ha hk he).1 e' hf
    obtain ⟨e1, h5, h6⟩ := hg.from_ k' e' h4
    obtain ⟨rfl, rfl⟩ := id_inj hm h5 he (h6.trans h3)
    exact ⟨e', h4, h3⟩
  · rintro ⟨e', he', hid⟩
    rw [← hid, hfind k e' hk he']; rfl

/-- **C134** (who finds it), under the same conditions and unless a reordering of the ranks changes the order of a rank's ghosts: the id of an element of a domain is found on exactly one rank, and there the
element has the type, order and (renumbered) nodes which it has in the mesh. -/
theorem C134_one_rank_partial (hm : MeshOk kinds m bnds D) (hone : OneSided m bnds) (hs : SortedIds m bnds) (ha : Apart m bnds)
    (ho : Outcome Monotone kinds m bnds nParts parts f) {k : Nat} {e : Element} (hk : k ∉ bnds) (he : InDom m k e) :
    ∃! r : Nat, ∃ p, parts[r]? = some p ∧ findId p.doms e.id = some { e with nodes := e.nodes.map f } := by
  obtain ⟨N, maps, R⟩ := outcome_result hm hone ho
  obtain ⟨r, ⟨m', hr, hin⟩, huni⟩ := R.uniq k e he
  have hrl : r < parts.length := by rw [R.plen, ← R.len]; exact (List.getElem?_eq_some_iff.1 hr).1
  have hin' : InDom parts[r].doms k (mapEl f e) := by
    rw [R.doms r m' _ hr (List.getElem?_eq_getElem hrl)]
    exact inDom_mapDoms.2 ⟨e, hin, rfl⟩
  refine ⟨r, ⟨parts[r], List.getElem?_eq_getElem hrl, (C134_found_partial hm hone hs ha ho (List.getElem?_eq_getElem hrl)).1 k _ hk hin'⟩, ?_⟩
  rintro r' ⟨p, hp, hfind⟩
  obtain ⟨e', he', hid⟩ := ((C134_found_partial hm hone hs ha ho hp).2 k e hk he).1 (by rw [hfind]; rfl)
  have hrl' : r' < maps.length := by rw [R.len, ← R.plen]; exact (List.getElem?_eq_some_iff.1 hp).1
  have hmr := List.getElem?_eq_getElem hrl'
  rw [R.doms r' _ p hmr hp] at he'
  obtain ⟨e1, he1, rfl⟩ := inDom_mapDoms.1 he'
  obtain ⟨d, hd, hed⟩ := he1
  obtain ⟨_, rfl⟩ := id_inj hm ((R.nodup r' _ k d hmr hd).2 e1 hed) he hid
  exact huni r' ⟨_, hmr, d, hd, hed⟩

theorem sorted_of_all {m : DomMap} (bnds : List Nat) (h : ∀ d ∈ m, ∀ v ∈ d.2.vecs, (v.map (·.id)).Pairwise (· < ·) ∧ ∀ e ∈ v, e.id < 2 ^ 64) : SortedIds m bnds :=
  fun _ _ _ hd v hv => h _ (mem_of_lookup hd) v hv

/-- Four lines on three ranks: the line with id 3 is found on the third rank with its nodes there, and not on the second. -/
example : (∃ f, Outcome Monotone lineKinds exLines [] 3 Pipeline.exParts f) ∧ MeshOk lineKinds exLines [] 0 ∧ SortedIds exLines [] ∧ Apart exLines [] ∧
    (∃! r : Nat, ∃ p, Pipeline.exParts[r]? = some p ∧ (findId p.doms 3).isSome = true) ∧ (Pipeline.exParts[2]?.bind fun p => findId p.doms 3) = some ⟨.line, 2, 3, [4, 2]⟩ := by
  refine ⟨ex_outcome Monotone, exLines_ok, sorted_of_all _ (by decide), fun b hb => absurd hb List.not_mem_nil, ?_, by decide⟩
  refine ⟨2, ⟨(Pipeline.exParts)[2], rfl, by decide⟩, ?_⟩
  rintro r ⟨p, hp, h⟩
  match r with
  | 0 => obtain rfl := Option.some.inj hp; exact absurd h (by decide)
  | 1 => obtain rfl := Option.some.inj hp; exact absurd h (by decide)
  | 2 => rfl
  | (n + 3) => exact absurd hp (by simp [Pipeline.exParts])

/-! ## Interleaved ids -/

/-- Two squares (ids 2 and 4) and a boundary of three lines (ids 1, 3 and 5) around the first. -/
def inter : DomMap :=
  [(0, ⟨some 1, [[], [], [⟨.line, 2, 1, [0, 1]⟩, ⟨.line, 2, 3, [0, 3]⟩, ⟨.line, 2, 5, [3, 4]⟩]]⟩),
   (7, ⟨some 2, [[], [⟨.quad, 2, 2, [0, 1, 3, 4]⟩, ⟨.quad, 2, 4, [1, 2, 4, 5]⟩], []]⟩)]

/-- The order of insertions: the second comes last. -/
def lastly {α : Type} : List α → List α
  | [] => []
  | [a] => [a]
  | a :: b :: l => a :: (l ++ [b])

theorem lastly_perm {α : Type} (l : List α) : (lastly l).Perm l := by
  match l with
  | [] => exact List.Perm.refl _
  | [a] => exact List.Perm.refl _
  | a :: b :: l => exact List.Perm.cons a (List.perm_append_singleton b l)

theorem inter_wf : WfMesh lineKinds inter := wf_of_all (by decide) (by simp [OMap.Sorted, inter]) (by decide)

theorem inter_ok : MeshOk lineKinds inter [0] 1 := meshOk_of_all inter_wf (by decide) (by decide) (by decide) (by decide) (by decide +kernel)

theorem inter_one : OneSided inter [0] := oneSided_of_all inter_wf (by decide +kernel)

theorem inter_labels : Labels inter [0] 2 [0, 1] [0, 0, 1, 0, 0, 1] [0, 1] :=
  ⟨by decide, by decide, fun x => nodes_of_all (N := 6) (by decide) (by decide) x, by decide, ⟨by decide, by decide⟩⟩

/-- Looking up the squares and lines of both parts. -/
theorem inter_found : ((distribute lineKinds inter [0] 2 [0, 1] [0, 1] lastly).map fun maps => maps.map fun d => ((findId d 2).map (·.id), (findId d 3).map (·.id))) =
    some [(some 5, some 3), (none, none)] := by decide +kernel

/-- Full statement: any distributed mesh with sorted vectors of elements. -/
def C134Statement : Prop :=
  ∀ (kinds : List (ElType × Nat)) (m : DomMap) (bnds : List Nat) (D : Nat), MeshOk kinds m bnds D → OneSided m bnds → SortedIds m [] →
    ∀ nParts parts f, Outcome NoReorder kinds m bnds nParts parts f → ∀ p ∈ parts, ∀ k e, k ∉ bnds → InDom p.doms k e → findId p.doms e.id = some e

/-- A distribution without reordering, given the parts of the elements. -/
theorem outcome_of (hm : MeshOk kinds m bnds D) (hone : OneSided m bnds) {epart npart perm : List Nat} (hl : Labels m bnds nParts epart npart perm)
    {shuffle : List (Nat × Nat × Element) → List (Nat × Nat × Element)} (hshuf : ∀ l, (shuffle l).Perm l) {maps : List DomMap} (hd : distribute kinds m bnds nParts epart perm shuffle = some maps) :
    ∃ parts f g, Outcome NoReorder kinds m bnds nParts parts f ∧ ∀ (i : Nat) m', maps[i]? = some m' → ∃ p, parts[i]? = some p ∧ p.doms = mapDoms g m' := by
  obtain ⟨parts, φ, g, maps', h1, _, R, _, _, _, _, hdist⟩ := partition_more hm hone hl shuffle (fun _ _ => id) hshuf (fun _ _ _ => List.Perm.refl _)
  obtain rfl : maps' = maps := Option.some.inj (hdist.symm.trans hd)
  refine ⟨parts, _, g, .parts nParts epart npart perm hl shuffle _ hshuf (fun _ _ _ => List.Perm.refl _) parts φ h1, fun i m' hi => ?_⟩
  have hil : i < parts.length := by rw [R.plen, ← R.len]; exact (List.getElem?_eq_some_iff.1 hi).1
  exact ⟨parts[i], List.getElem?_eq_getElem hil, R.doms i m' _ hi (List.getElem?_eq_getElem hil)⟩

/-- **C134** fails if ids of the boundary lie on both sides of the id of another element: with the second of three boundary elements inserted last, the lookup of a square
returns a line. -/
theorem C134_interleaved_violated : ¬ C134Statement := by
  intro h
  obtain ⟨maps, hd, hf⟩ := Option.map_eq_some_iff.1 inter_found
  obtain ⟨parts, f, g, ho, hp⟩ := outcome_of inter_ok inter_one inter_labels (fun l => lastly_perm l) hd
  obtain ⟨a, b, rfl⟩ : ∃ a b, maps = [a, b] := by
    match maps, hf with
    | [a, b], _ => exact ⟨a, b, rfl⟩
  obtain ⟨p, hpi, hpd⟩ := hp 0 a rfl
  have hid := (Prod.mk.inj (List.cons.inj hf).1).1
  have hin : InDom p.doms 7 (mapEl g ⟨.quad, 2, 2, [0, 1, 3, 4]⟩) := by
    rw [hpd]
    refine inDom_mapDoms.2 ⟨_, ?_, rfl⟩
    have : (distribute lineKinds inter [0] 2 [0, 1] [0, 1] lastly).map (fun maps => (maps[0]?.bind fun d => d.lookup 7).map fun d => decide ((⟨.quad, 2, 2, [0, 1, 3, 4]⟩ : Element) ∈ d.elems)) =
        some (some true) := by decide +kernel
    rw [hd] at this
    obtain ⟨d, h1, h2⟩ := Option.map_eq_some_iff.1 (Option.some.inj this)
    exact ⟨d, h1, of_decide_eq_true h2⟩
  have := h lineKinds inter [0] 1 inter_ok inter_one (sorted_of_all _ (by decide)) 2 parts f ho p (List.mem_of_getElem? hpi) 7 _ (by decide) hin
  rw [hpd, findId_mapDoms] at this
  obtain ⟨e, he, hee⟩ := Option.map_eq_some_iff.1 this
  have h2 : e.id = 2 := by
    have := congrArg Element.id hee
    exact this
  rw [show (mapEl g ⟨.quad, 2, 2, [0, 1, 3, 4]⟩).id = 2 from rfl] at he
  rw [he] at hid
  simp only [Option.map_some, Option.some.injEq] at hid
  omega

/-- Statement for all elements, those of boundaries included, also when the ids of boundaries lie apart. -/
def C134BoundaryStatement : Prop :=
  ∀ (kinds : List (ElType × Nat)) (m : DomMap) (bnds : List Nat) (D : Nat), MeshOk kinds m bnds D → OneSided m bnds → SortedIds m [] → Apart m bnds →
    ∀ nParts parts f, Outcome NoReorder kinds m bnds nParts parts f → ∀ p ∈ parts, ∀ k e, InDom p.doms k e → findId p.doms e.id = some e

/-- As `inter`, with the ids of the squares after those of the lines. -/
def apart : DomMap :=
  [(0, ⟨some 1, [[], [], [⟨.line, 2, 1, [0, 1]⟩, ⟨.line, 2, 3, [0, 3]⟩, ⟨.line, 2, 5, [3, 4]⟩]]⟩),
   (7, ⟨some 2, [[], [⟨.quad, 2, 6, [0, 1, 3, 4]⟩, ⟨.quad, 2, 7, [1, 2, 4, 5]⟩], []]⟩)]

theorem apart_wf : WfMesh lineKinds apart := wf_of_all (by decide) (by simp [OMap.Sorted, apart]) (by decide)

theorem apart_ok : MeshOk lineKinds apart [0] 1 := meshOk_of_all apart_wf (by decide) (by decide) (by decide) (by decide) (by decide +kernel)

theorem apart_one : OneSided apart [0] := oneSided_of_all apart_wf (by decide +kernel)

theorem apart_labels : Labels apart [0] 2 [0, 1] [0, 0, 1, 0, 0, 1] [0, 1] :=
  ⟨by decide, by decide, fun x => nodes_of_all (N := 6) (by decide) (by decide) x, by decide, ⟨by decide, by decide⟩⟩

theorem apart_apart : Apart apart [0] := by
  intro b hb k hk x y e hx hy he h
  rw [List.mem_singleton] at hb hk
  subst hb
  have h1 : ∀ z ∈ visitIds apart [0], z.id ≤ 5 := by decide
  have h2 : ∀ d ∈ apart, d.1 ≠ 0 → ∀ z ∈ d.2.elems, 6 ≤ z.id := by decide
  have h3 := h1 y (mem_visit_single.2 hy)
  obtain ⟨d, hd, hed⟩ := he
  have h4 := h2 _ (mem_of_lookup hd) hk e hed
  omega

/-- **C134** fails for boundary elements: inserted out of order, the last of them is not found. -/
theorem C134_boundary_violated : ¬ C134BoundaryStatement := by
  intro h
  have hfound : ((distribute lineKinds apart [0] 2 [0, 1] [0, 1] lastly).map fun maps => maps[0]?.map fun d =>
      (findId d 5, (d.lookup 0).map fun d => decide ((⟨.line, 2, 5, [3, 4]⟩ : Element) ∈ d.elems))) = some (some (none, some true)) := by decide +kernel
  obtain ⟨maps, hd, hf⟩ := Option.map_eq_some_iff.1 hfound
  obtain ⟨parts, f, g, ho, hp⟩ := outcome_of apart_ok apart_one apart_labels (fun l => lastly_perm l) hd
  obtain ⟨a, ha, hf⟩ := Option.map_eq_some_iff.1 hf
  obtain ⟨hf1, hf2⟩ := Prod.mk.inj hf
  obtain ⟨d, hd0, hde⟩ := Option.map_eq_some_iff.1 hf2
  obtain ⟨p, hpi, hpd⟩ := hp 0 a ha
  have := h lineKinds apart [0] 1 apart_ok apart_one (sorted_of_all _ (by decide)) apart_apart 2 parts f ho p (List.mem_of_getElem? hpi) 0 (mapEl g ⟨.line, 2, 5, [3, 4]⟩)
    (by rw [hpd]; exact inDom_mapDoms.2 ⟨_, ⟨d, hd0, of_decide_eq_true hde⟩, rfl⟩)
  rw [hpd, findId_mapDoms, show (mapEl g ⟨.line, 2, 5, [3, 4]⟩).id = 5 from rfl, hf1] at this
  simp at this

/-- The mesh with ids apart meets the conditions of the theorems: its squares are found on whichever rank has them. -/
example (parts : List Part) (f : Nat → Nat) (ho : Outcome Monotone lineKinds apart [0] 2 parts f) :
    ∃! r : Nat, ∃ p, parts[r]? = some p ∧ findId p.doms 6 = some ⟨.quad, 2, 6, [f 0, f 1, f 3, f 4]⟩ :=
  C134_one_rank_partial apart_ok apart_one (sorted_of_all _ (by decide)) apart_apart ho (k := 7) (e := ⟨.quad, 2, 6, [0, 1, 3, 4]⟩) (by decide) ⟨_, rfl, by decide⟩

/-! ## After a restart -/

/-- Two parts of the four lines, the first line in the second part. -/
def crossed : List Part :=
  [⟨[(1, ⟨some 1, [[], [], [⟨.line, 2, 2, [0, 3]⟩]]⟩), (2, ⟨some 1, [[], [], [⟨.line, 2, 1, [1, 2]⟩, ⟨.line, 2, 3, [3, 1]⟩]]⟩)], ⟨0, 4, []⟩, []⟩,
   ⟨[(1, ⟨some 1, [[], [], [⟨.line, 2, 0, [4, 0]⟩]]⟩)], ⟨4, 1, [0]⟩, []⟩]

theorem crossed_labels : Labels exLines [] 2 [1, 0, 0, 0] [1, 0, 0, 0, 0] [0, 2, 1, 3] :=
  ⟨by decide, by decide, fun x => nodes_of_all (N := 5) (by decide) (by decide) x, by decide, ⟨by decide, by decide⟩⟩

theorem crossed_eq : (partitionImpl lineKinds exLines [] 2 [1, 0, 0, 0] [1, 0, 0, 0, 0] [0, 2, 1, 3] id (fun _ _ => id)).map (·.1) = some crossed := by
  obtain ⟨maps, h1⟩ : ∃ maps, maps = [[(1, (⟨some 1, [[], [], [⟨.line, 2, 2, [1, 4]⟩]]⟩ : Domain)), (2, ⟨some 1, [[], [], [⟨.line, 2, 1, [2, 3]⟩, ⟨.line, 2, 3, [4, 2]⟩]]⟩)], [(1, ⟨some 1, [[], [], [⟨.line, 2, 0, [0, 1]⟩]]⟩)]] := ⟨_, rfl⟩
  have h2 : distribute lineKinds exLines [] 2 [1, 0, 0, 0] [0, 2, 1, 3] id = some maps := by subst h1; decide +kernel
  have h3 : assignNodes [1, 0, 0, 0, 0] maps = some [([1, 2, 3, 4], []), ([0], [1])] := by
    have hog : maps.zipIdx.map (fun m => ownGhost [1, 0, 0, 0, 0] m.1 m.2) = [([1, 2, 3, 4], []), ([0], [1])] := by subst h1; decide +kernel
    have hdis : (([([1, 2, 3, 4], []), ([0], [1])] : List (List Nat × List Nat)).zipIdx.map fun p => disjointOf [1, 0, 0, 0, 0] p.1.1 p.2).flatten = [] := by decide +kernel
    unfold assignNodes
    simp only [hog, hdis]
    simp [reassign, claim, Std.sort]
  unfold partitionImpl
  rw [h2, Option.bind_some]
  unfold finish
  rw [h3, Option.bind_some]
  subst h1
  decide +kernel

theorem crossed_fits : FitsFile lineKinds (crossed.map (savedPart exBytes [])) := by
  have h : ∀ p ∈ crossed.map (savedPart exBytes []), (partCodec lineKinds).des ((partCodec lineKinds).ser (norm p)) = some (norm p, []) := by decide +kernel
  exact ⟨by decide, fun p hp => ((lawful_part lineKinds).ser_des _ _ _ (h p hp)).2, by decide +kernel⟩

/-- Statement for runs which save and load their mesh. -/
def C134RestartStatement : Prop :=
  ∀ (kinds : List (ElType × Nat)) (m : DomMap) (bnds : List Nat) (D : Nat), MeshOk kinds m bnds D → OneSided m bnds → SortedIds m [] → Apart m bnds →
    ∀ nParts parts f m' nParts' parts' g old, Restarted NoReorder kinds m bnds nParts parts f m' nParts' parts' g old → ∀ p ∈ parts', ∀ k e, k ∉ bnds → InDom p.doms k e → findId p.doms e.id = some e

/-- **C134** fails after a restart: the elements of each domain are read part by part, so the first line comes after the third and is not found. -/
theorem C134_restart_violated : ¬ C134RestartStatement := by
  intro h
  obtain ⟨⟨parts, φ⟩, hp, he⟩ := Option.map_eq_some_iff.1 crossed_eq
  obtain rfl : parts = crossed := he
  have hone : OneSided exLines [] := fun b hb => absurd hb List.not_mem_nil
  have ho : Outcome Monotone lineKinds exLines [] 2 crossed _ := .parts 2 _ _ _ crossed_labels id (fun _ _ => id) (fun _ => List.Perm.refl _) (fun _ _ _ => List.Perm.refl _) _ φ hp
  obtain ⟨m', h1, h2, ⟨N, h3, h4, _⟩, h5, h6, _⟩ := C133_mesh exLines_ok hone (by decide) ho exBytes crossed_fits (txt "c") [] (List.Perm.refl _)
  have hread : loadUnified lineKinds (File.run [] (saveParts lineKinds exBytes [] (txt "c") crossed)) =
      some ([(1, ⟨some 1, [[], [], [⟨.line, 2, 2, [0, 3]⟩, ⟨.line, 2, 0, [4, 0]⟩]]⟩), (2, ⟨some 1, [[], [], [⟨.line, 2, 1, [1, 2]⟩, ⟨.line, 2, 3, [3, 1]⟩]]⟩)], []) := by decide +kernel
  obtain rfl := (Prod.mk.inj (Option.some.inj (h1.symm.trans hread))).1
  have := h lineKinds exLines [] 0 exLines_ok hone (sorted_of_all _ (by decide)) (fun b hb => absurd hb List.not_mem_nil) 2 crossed _ _ 1 _ id _
    ⟨ho, by decide, exBytes, txt "c", [], _, [], crossed_fits, List.Perm.refl _, h1, .one N h4 []⟩ _ (List.mem_singleton.2 rfl) 1 ⟨.line, 2, 0, [4, 0]⟩ List.not_mem_nil ⟨_, rfl, by decide⟩
  have hnone : findId [(1, (⟨some 1, [[], [], [⟨.line, 2, 2, [0, 3]⟩, ⟨.line, 2, 0, [4, 0]⟩]]⟩ : Domain)), (2, ⟨some 1, [[], [], [⟨.line, 2, 1, [1, 2]⟩, ⟨.line, 2, 3, [3, 1]⟩]]⟩)] 0 = none := by decide
  exact absurd (hnone.symm.trans this) (by simp)

end Verif.Lookup
