import Verif.Own.Model

/-! # Properties C08, C09: segmented ownership -/
namespace Verif.Own

theorem make_some {first cnt : Nat} {sh : List Nat} {o : SegOwn} (h : SegOwn.make first cnt sh = some o) :
    o = ⟨first, cnt, Std.sort sh⟩ ∧ ∀ s ∈ sh, ¬ (first ≤ s ∧ s < first + cnt) := by
  unfold SegOwn.make at h
  split at h
  · cases h
  · rename_i hn
    refine ⟨(Option.some.inj h).symm, fun s hs hc => hn ?_⟩
    rw [List.any_eq_true]
    exact ⟨s, hs, by simpa [SegOwn.isOwned] using hc⟩

/-- **C08** (constructor): construction fails exactly if a ghost id lies in the owned range. -/
theorem C08_constructor (first cnt : Nat) (sh : List Nat) :
    SegOwn.make first cnt sh = none ↔ ∃ s ∈ sh, first ≤ s ∧ s < first + cnt := by
  unfold SegOwn.make
  split
  · rename_i h
    rw [List.any_eq_true] at h
    obtain ⟨s, hs, hc⟩ := h
    simp only [true_iff]
    exact ⟨s, hs, by simpa [SegOwn.isOwned] using hc⟩
  · rename_i h
    simp only [reduceCtorEq, false_iff]
    rintro ⟨s, hs, hc⟩
    apply h
    rw [List.any_eq_true]
    exact ⟨s, hs, by simpa [SegOwn.isOwned] using hc⟩

/-- **C08** (local → global → local): for duplicate-free ghosts every local index below the local
size has a global id that maps back to it. -/
theorem C08_local_global_local (first cnt : Nat) (sh : List Nat) (hsh : sh.Nodup) (o : SegOwn)
    (h : SegOwn.make first cnt sh = some o) (lid : Nat) (hl : lid < o.localSize) :
    ∃ gid, o.getGlobal lid = some gid ∧ o.getLocal gid = lid ∧
      (lid < cnt → first ≤ gid ∧ gid < first + cnt) ∧ (cnt ≤ lid → gid ∈ sh) := by
  obtain ⟨rfl, hno⟩ := make_some h
  simp only [SegOwn.localSize, Std.length_sort] at hl
  unfold SegOwn.getGlobal SegOwn.getLocal SegOwn.isOwned
  simp only
  by_cases hc : lid < cnt
  · refine ⟨first + lid, by simp [hc], ?_, fun _ => ⟨by omega, by omega⟩, fun hh => absurd hc (by omega)⟩
    rw [if_pos (by simp; omega)]; omega
  · have hi : lid - cnt < (Std.sort sh).length := by rw [Std.length_sort]; omega
    have hmem : (Std.sort sh)[lid - cnt] ∈ sh := Std.mem_sort.1 (List.getElem_mem _)
    refine ⟨(Std.sort sh)[lid - cnt], ?_, ?_, fun hh => absurd hh hc, fun _ => hmem⟩
    · rw [if_neg hc, List.getElem?_eq_getElem hi]
    · rw [if_neg (by simpa using fun h1 => Nat.le_of_not_lt fun h2 => hno _ hmem ⟨h1, h2⟩),
        Std.lowerBound_getElem (Std.sort_strict hsh) hi]
      omega

/-- **C08** (global → local → global): every known id (owned or ghost) has a local index below the
local size which maps back to it; owned ids come first, in order. -/
theorem C08_global_local_global (first cnt : Nat) (sh : List Nat) (hsh : sh.Nodup) (o : SegOwn)
    (h : SegOwn.make first cnt sh = some o) (gid : Nat)
    (hk : (first ≤ gid ∧ gid < first + cnt) ∨ gid ∈ sh) :
    o.getGlobal (o.getLocal gid) = some gid ∧ o.getLocal gid < o.localSize ∧
      (o.getLocal gid < cnt ↔ first ≤ gid ∧ gid < first + cnt) := by
  obtain ⟨rfl, hno⟩ := make_some h
  by_cases hc : first ≤ gid ∧ gid < first + cnt
  · have e : SegOwn.getLocal ⟨first, cnt, Std.sort sh⟩ gid = gid - first := by
      unfold SegOwn.getLocal SegOwn.isOwned
      rw [if_pos (by simpa using hc)]
    rw [e]
    unfold SegOwn.getGlobal SegOwn.localSize
    simp only
    refine ⟨?_, by omega, by omega⟩
    rw [if_pos (by omega)]; congr 1; omega
  · have hm : gid ∈ sh := hk.resolve_left hc
    have e : SegOwn.getLocal ⟨first, cnt, Std.sort sh⟩ gid = cnt + Std.lowerBound (Std.sort sh) gid := by
      unfold SegOwn.getLocal SegOwn.isOwned
      rw [if_neg (by simpa using hc)]
    rw [e]
    unfold SegOwn.getGlobal SegOwn.localSize
    simp only
    have hm' : gid ∈ Std.sort sh := Std.mem_sort.2 hm
    refine ⟨?_, ?_, by omega⟩
    · rw [if_neg (by omega), show cnt + Std.lowerBound (Std.sort sh) gid - cnt = Std.lowerBound (Std.sort sh) gid by omega,
        Std.getElem_lowerBound (Std.sort_strict hsh) hm']
    · have := Std.lowerBound_lt (Std.sort_strict hsh) hm'; omega

/-- **C08**: `isOwned`/`isShared` answer membership, and `localSize` counts the known ids. -/
theorem C08_membership (first cnt : Nat) (sh : List Nat) (o : SegOwn)
    (h : SegOwn.make first cnt sh = some o) (gid : Nat) :
    (o.isOwned gid = true ↔ first ≤ gid ∧ gid < first + cnt) ∧ (o.isShared gid = true ↔ gid ∈ sh) ∧
      ¬ (o.isOwned gid = true ∧ o.isShared gid = true) ∧ o.localSize = cnt + sh.length := by
  obtain ⟨rfl, hno⟩ := make_some h
  have h1 : SegOwn.isOwned ⟨first, cnt, Std.sort sh⟩ gid = true ↔ first ≤ gid ∧ gid < first + cnt := by
    simp [SegOwn.isOwned]
  have h2 : SegOwn.isShared ⟨first, cnt, Std.sort sh⟩ gid = true ↔ gid ∈ sh := by
    rw [SegOwn.isShared, Std.binarySearch_iff (Std.sort_sorted sh), Std.mem_sort]
  refine ⟨h1, h2, fun hc => hno gid (h2.1 hc.2) (h1.1 hc.1), by simp [SegOwn.localSize, Std.length_sort]⟩

example : ∃ o, SegOwn.make 10 3 [20, 4, 15] = some o ∧ o.getLocal 4 = 3 ∧ o.getLocal 20 = 5 ∧
    o.getGlobal 4 = some 15 ∧ [20, 4, 15].Nodup := ⟨⟨10, 3, [4, 15, 20]⟩, by decide⟩

/-! ## C09 -/

theorem inclusiveScan_getElem (l : List Nat) (i : Nat) (h : i < (Std.inclusiveScan l).length) :
    (Std.inclusiveScan l)[i] = (l.take (i + 1)).sum := by
  simp [Std.inclusiveScan]

/-- **C09** (owner lookup): for every id below the total count, the computed owner is a rank of
the communicator, its block contains the id, and no other rank's block does. -/
theorem C09_owner_unique (counts : List Nat) (i : Nat) (hi : i < counts.sum) :
    let r := getOwner (ownDist counts) i
    ∃ h : r < counts.length, (counts.take r).sum ≤ i ∧ i < (counts.take r).sum + counts[r] ∧
      ∀ r' (h' : r' < counts.length), (counts.take r').sum ≤ i → i < (counts.take r').sum + counts[r'] → r' = r := by
  intro r
  have hlen := Std.length_inclusiveScan counts
  have hr : r < counts.length := by
    show Std.upperBound _ _ < _
    rw [← hlen]
    apply List.findIdx_lt_length_of_exists
    have hpos : counts ≠ [] := by rintro rfl; simp at hi
    have hlt : counts.length - 1 < (Std.inclusiveScan counts).length := by
      rw [hlen]; have := List.length_pos_iff.2 hpos; omega
    refine ⟨(Std.inclusiveScan counts)[counts.length - 1], List.getElem_mem _, ?_⟩
    rw [inclusiveScan_getElem, show counts.length - 1 + 1 = counts.length by
      have := List.length_pos_iff.2 hpos; omega, List.take_length]
    simpa using hi
  have hub : i < (counts.take (r + 1)).sum := by
    have hlt : List.findIdx (fun a => decide (i < a)) (Std.inclusiveScan counts) < (Std.inclusiveScan counts).length := by
      rw [hlen]; exact hr
    have := List.findIdx_getElem (p := fun a => decide (i < a)) (w := hlt)
    rw [inclusiveScan_getElem] at this
    exact of_decide_eq_true this
  have hlb : (counts.take r).sum ≤ i := by
    rcases Nat.eq_zero_or_pos r with h0 | h0
    · rw [h0]; simp
    · have hlt : r - 1 < List.findIdx (fun a => decide (i < a)) (Std.inclusiveScan counts) := by
        show r - 1 < r; omega
      have := List.not_of_lt_findIdx hlt
      rw [inclusiveScan_getElem] at this
      rw [show r - 1 + 1 = r by omega] at this
      simpa using this
  rw [Std.sum_take_succ _ hr] at hub
  refine ⟨hr, hlb, hub, fun r' h' a b => ?_⟩
  rw [← Std.sum_take_succ _ h'] at b
  rw [← Std.sum_take_succ _ hr] at hub
  rcases Nat.lt_trichotomy r' r with hlt | heq | hgt
  · have := Std.sum_take_le counts (show r' + 1 ≤ r by omega); omega
  · exact heq
  · have := Std.sum_take_le counts (show r + 1 ≤ r' by omega); omega

example : getOwner (ownDist [3, 0, 2, 4]) 3 = 2 ∧ getOwner (ownDist [3, 0, 2, 4]) 8 = 3 := by decide

/-- The ids of rank `a`'s ghost list that belong to rank `b`'s block, in increasing order:
what rank `a` needs from `b`. -/
def World.needs (w : World) (a b : Nat) : List Nat :=
  (Std.sort ((w.shared[a]?).getD [])).filter fun i =>
    decide (w.begin b ≤ i ∧ i < w.begin b + (w.counts[b]?).getD 0)

/-- The situation on a communicator: every rank has a ghost list, whose ids exist, none of them its
own. -/
structure World.Valid (w : World) : Prop where
  len : w.shared.length = w.counts.length
  exist : ∀ l ∈ w.shared, ∀ i ∈ l, i < w.counts.sum
  notOwn : ∀ r (h : r < w.shared.length), ∀ i ∈ w.shared[r], ¬ (w.begin r ≤ i ∧ i < w.begin r + (w.counts[r]?).getD 0)

theorem outNbrInfo_fold (dist : List Nat) (l : List Nat) (m : NbrInfo) (hm : OMap.Sorted m) :
    OMap.Sorted (l.foldl (fun m s => OMap.upd m (getOwner dist s) fun l => l.getD [] ++ [s]) m) ∧
    ∀ b, (l.foldl (fun m s => OMap.upd m (getOwner dist s) fun l => l.getD [] ++ [s]) m).lookup b =
      match m.lookup b, l.filter (fun s => decide (getOwner dist s = b)) with
      | none, [] => none
      | none, xs => some xs
      | some ys, xs => some (ys ++ xs) := by
  induction l generalizing m with
  | nil =>
    refine ⟨hm, fun b => ?_⟩
    cases h : m.lookup b <;> simp [h]
  | cons s l ih =>
    rw [List.foldl_cons]
    obtain ⟨h1, h2⟩ := ih _ (OMap.sorted_upd hm (getOwner dist s) _)
    refine ⟨h1, fun b => ?_⟩
    rw [h2, OMap.lookup_upd hm]
    by_cases hb : b = getOwner dist s
    · subst hb
      rw [if_pos rfl]
      simp only [List.filter_cons, decide_true, if_true]
      cases hl : m.lookup (getOwner dist s) with
      | none => simp
      | some ys => simp
    · rw [if_neg hb]
      have : ¬ getOwner dist s = b := fun e => hb e.symm
      simp [this]

theorem World.owner_iff (w : World) (i : Nat) (hi : i < w.counts.sum) (b : Nat) :
    getOwner (ownDist w.counts) i = b ↔ w.begin b ≤ i ∧ i < w.begin b + (w.counts[b]?).getD 0 := by
  obtain ⟨h, h1, h2, h3⟩ := C09_owner_unique w.counts i hi
  constructor
  · rintro rfl
    rw [List.getElem?_eq_getElem h]
    exact ⟨h1, h2⟩
  · rintro ⟨a1, a2⟩
    by_cases hb : b < w.counts.length
    · rw [List.getElem?_eq_getElem hb] at a2
      exact (h3 b hb a1 a2).symm
    · rw [List.getElem?_eq_none (by omega)] at a2
      simp at a2; omega

/-- **C09** (out neighbours): rank `a` has an entry for `b` exactly if it needs something from `b`,
and the entry lists exactly those ids in increasing order. -/
theorem C09_out_neighbours (w : World) (hw : w.Valid) (a : Nat) (ha : a < w.counts.length) (o : SegOwn)
    (ho : w.own a = some o) (b : Nat) :
    (outNbrInfo (ownDist w.counts) o).lookup b = if w.needs a b = [] then none else some (w.needs a b) := by
  obtain ⟨rfl, _⟩ := make_some ho
  have e := (outNbrInfo_fold (ownDist w.counts) (Std.sort ((w.shared[a]?).getD [])) [] List.Pairwise.nil).2 b
  have hf : (Std.sort ((w.shared[a]?).getD [])).filter (fun s => decide (getOwner (ownDist w.counts) s = b)) = w.needs a b := by
    unfold World.needs
    apply List.filter_congr
    intro i hi
    rw [Std.mem_sort] at hi
    have hal : a < w.shared.length := by rw [hw.len]; exact ha
    rw [List.getElem?_eq_getElem hal] at hi
    have := w.owner_iff i (hw.exist _ (List.getElem_mem hal) i hi) b
    simp [this]
  rw [hf] at e
  unfold outNbrInfo
  rw [e]
  simp only [List.lookup_nil]
  cases w.needs a b <;> simp

/-- The out-neighbour maps of all ranks. -/
def World.outInfos (w : World) : Option (List NbrInfo) :=
  (List.range w.counts.length).mapM fun r => (w.own r).map (outNbrInfo (ownDist w.counts))

theorem World.own_isSome (w : World) (hw : w.Valid) (r : Nat) (hr : r < w.counts.length) :
    ∃ o, w.own r = some o := by
  have hrl : r < w.shared.length := by rw [hw.len]; exact hr
  cases h : w.own r with
  | some o => exact ⟨o, rfl⟩
  | none =>
    unfold World.own at h
    rw [C08_constructor] at h
    obtain ⟨s, hs, hc⟩ := h
    rw [List.getElem?_eq_getElem hrl] at hs
    exact absurd hc (hw.notOwn r hrl s hs)

theorem outBmp_spec (n : Nat) (info : NbrInfo) (h : ∀ p ∈ info, p.1 < n) :
    ∃ b, outBmp n info = some b ∧ b.length = n ∧
      ∀ x < n, b[x]? = some (decide (x ∈ info.map (·.1))) := by
  unfold outBmp
  suffices H : ∀ (info : NbrInfo) (bmp : List Bool), bmp.length = n → (∀ p ∈ info, p.1 < n) →
      ∃ b, info.foldlM (fun bmp p => if p.1 < n then some (bmp.set p.1 true) else none) bmp = some b ∧
        b.length = n ∧ ∀ x < n, b[x]? = if x ∈ info.map (·.1) then some true else bmp[x]? by
    obtain ⟨b, e, hl, hx⟩ := H info (List.replicate n false) (by simp) h
    refine ⟨b, e, hl, fun x hxn => ?_⟩
    rw [hx x hxn]
    by_cases hm : x ∈ info.map (·.1)
    · simp only [hm, if_true, decide_true]
    · simp only [hm, if_false, decide_false, List.getElem?_replicate, if_pos hxn]
  intro info
  induction info with
  | nil => intro bmp hl _; exact ⟨bmp, rfl, hl, by simp⟩
  | cons p info ih =>
    intro bmp hl hp
    rw [List.foldlM_cons, if_pos (hp p (by simp))]
    obtain ⟨b, e, hbl, hx⟩ := ih (bmp.set p.1 true) (by simp [hl]) (fun q hq => hp q (by simp [hq]))
    refine ⟨b, e, hbl, fun x hxn => ?_⟩
    rw [hx x hxn, List.getElem?_set, List.map_cons]
    by_cases h1 : x ∈ info.map (·.1)
    · simp [h1]
    · by_cases h2 : p.1 = x
      · subst h2; simp [hl, hxn]
      · have : ¬ x = p.1 := fun e => h2 e.symm
        simp [h1, h2, this]

theorem mapM_some {α β} (f : α → Option β) (g : α → β) (l : List α) (h : ∀ a ∈ l, f a = some (g a)) :
    l.mapM f = some (l.map g) := by
  induction l with
  | nil => rfl
  | cons a l ih =>
    rw [List.mapM_cons, h a (by simp), ih fun b hb => h b (by simp [hb])]; rfl

/-- **C09** (in neighbours): after the exchange, whatever the order in which messages arrive, rank
`b` lists `a` with exactly the ids `a` needs from `b`, in the same order as `a` lists them, and
lists no other rank.  `arrivals` is any sequence of successful probes that covers all
announcing ranks (the loop's exit condition), each being one of them. -/
theorem C09_in_neighbours (w : World) (hw : w.Valid) (infos : List NbrInfo) (hinfos : w.outInfos = some infos)
    (bmps : List (List Bool)) (hb : infos.mapM (outBmp w.counts.length) = some bmps)
    (b : Nat) (hbr : b < w.counts.length) (arrivals : List Nat)
    (hcover : ∀ a, a ∈ arrivals ↔ a < w.counts.length ∧ w.needs a b ≠ []) :
    ∃ info, inNbrInfo infos bmps b arrivals = some info ∧ OMap.Sorted info ∧
      ∀ a, info.lookup a = if a < w.counts.length ∧ w.needs a b ≠ [] then some (w.needs a b) else none := by
  -- the out infos
  have hgI : ∀ r, r < w.counts.length → ∃ I, infos[r]? = some I ∧ (∃ o, w.own r = some o ∧ I = outNbrInfo (ownDist w.counts) o) := by
    choose! own hown using fun r hr => w.own_isSome hw r hr
    have : infos = (List.range w.counts.length).map fun r => outNbrInfo (ownDist w.counts) (own r) := by
      have := mapM_some (fun r => (w.own r).map (outNbrInfo (ownDist w.counts)))
        (fun r => outNbrInfo (ownDist w.counts) (own r)) (List.range w.counts.length) (by
          intro r hr; rw [hown r (List.mem_range.1 hr)]; rfl)
      unfold World.outInfos at hinfos
      rw [this] at hinfos
      exact (Option.some.inj hinfos).symm
    intro r hr
    refine ⟨_, ?_, own r, hown r hr, rfl⟩
    rw [this]; simp [List.getElem?_range hr]
  have hlenI : infos.length = w.counts.length := by
    choose! own hown using fun r hr => w.own_isSome hw r hr
    have := mapM_some (fun r => (w.own r).map (outNbrInfo (ownDist w.counts)))
        (fun r => outNbrInfo (ownDist w.counts) (own r)) (List.range w.counts.length) (by
          intro r hr; rw [hown r (List.mem_range.1 hr)]; rfl)
    unfold World.outInfos at hinfos
    rw [this] at hinfos
    rw [← Option.some.inj hinfos]; simp
  have hlook : ∀ a, a < w.counts.length → (infos[a]?).bind (fun I => I.lookup b) =
      if w.needs a b = [] then none else some (w.needs a b) := by
    intro a ha
    obtain ⟨I, hI, o, ho, rfl⟩ := hgI a ha
    rw [hI, Option.bind_some]
    exact C09_out_neighbours w hw a ha o ho b
  -- the bitmaps
  have hkeys : ∀ I ∈ infos, ∀ p ∈ I, p.1 < w.counts.length := by
    intro I hI p hp
    obtain ⟨a, ha, rfl⟩ := List.mem_iff_getElem.1 hI
    obtain ⟨I', hI', o, ho, e⟩ := hgI a (by omega)
    rw [List.getElem?_eq_getElem ha] at hI'
    have e' : infos[a] = outNbrInfo (ownDist w.counts) o := by rw [← e]; exact Option.some.inj hI'
    have h2 := C09_out_neighbours w hw a (by omega) o ho p.1
    rw [e'] at hp
    have hsome : ((outNbrInfo (ownDist w.counts) o).lookup p.1).isSome := by
      rw [OMap.lookup_isSome_iff]; exact List.mem_map_of_mem hp
    rw [h2] at hsome
    by_contra hc
    have : w.needs a p.1 = [] := by
      unfold World.needs
      rw [List.filter_eq_nil_iff]
      intro i _ hi
      simp only [decide_eq_true_eq] at hi
      rw [List.getElem?_eq_none (by omega)] at hi
      simp at hi; omega
    simp [this] at hsome
  choose! bm hbm using fun I (hI : I ∈ infos) => outBmp_spec w.counts.length I (hkeys I hI)
  have hbmps : bmps = infos.map bm := by
    have := mapM_some (outBmp w.counts.length) bm infos (fun I hI => (hbm I hI).1)
    rw [this] at hb; exact (Option.some.inj hb).symm
  have hcol : ∀ a, a < w.counts.length → (((bmps[a]?).bind fun r => r[b]?) = some true ↔ w.needs a b ≠ []) := by
    intro a ha
    have hal : a < infos.length := by omega
    rw [hbmps, List.getElem?_map, List.getElem?_eq_getElem hal, Option.map_some, Option.bind_some,
      (hbm _ (List.getElem_mem hal)).2.2 b hbr]
    have := hlook a ha
    rw [List.getElem?_eq_getElem hal, Option.bind_some] at this
    simp only [Option.some.injEq, decide_eq_true_eq]
    rw [← OMap.lookup_isSome_iff, this]
    by_cases hn : w.needs a b = [] <;> simp [hn]
  have hlenB : bmps.length = w.counts.length := by rw [hbmps]; simp [hlenI]
  -- initial map
  unfold inNbrInfo
  simp only
  generalize hinit : (((List.range bmps.length).filter fun a => ((bmps[a]?).bind fun r => r[b]?) = some true).map
    fun a => (a, ([] : List Nat))) = init
  have hmemI : ∀ a, a ∈ init.map (·.1) ↔ a < w.counts.length ∧ w.needs a b ≠ [] := by
    intro a
    rw [← hinit]
    simp only [List.map_map, List.mem_map, List.mem_filter, List.mem_range, Function.comp_apply, hlenB]
    constructor
    · rintro ⟨x, ⟨hx, hx2⟩, rfl⟩
      exact ⟨hx, (hcol x hx).1 (by simpa using hx2)⟩
    · rintro ⟨h1, h2⟩
      exact ⟨a, ⟨h1, by simpa using (hcol a h1).2 h2⟩, rfl⟩
  have hsort : OMap.Sorted init := by
    rw [← hinit]
    unfold OMap.Sorted
    rw [List.pairwise_map]
    exact List.Pairwise.filter _ List.pairwise_lt_range
  -- the receive loop
  have loop : ∀ (arr : List Nat) (m : NbrInfo), OMap.Sorted m →
      (∀ a, a ∈ m.map (·.1) ↔ a < w.counts.length ∧ w.needs a b ≠ []) →
      (∀ a ∈ arr, a < w.counts.length ∧ w.needs a b ≠ []) →
      ∃ m', arr.foldlM (fun m a => match (infos[a]?).bind (fun info => info.lookup b) with
        | some inds => if (m.lookup a).isSome then some (OMap.upd m a fun _ => inds) else none
        | none => none) m = some m' ∧ OMap.Sorted m' ∧
        ∀ a, m'.lookup a = if a ∈ arr then some (w.needs a b) else m.lookup a := by
    intro arr
    induction arr with
    | nil => intro m hs _ _; exact ⟨m, rfl, hs, by simp⟩
    | cons x arr ih =>
      intro m hs hk hall
      have hx := hall x (by simp)
      rw [List.foldlM_cons, hlook x hx.1, if_neg hx.2]
      simp only
      rw [if_pos (by rw [OMap.lookup_isSome_iff]; exact (hk x).2 hx)]
      obtain ⟨m', e, hs', hl⟩ := ih (OMap.upd m x fun _ => w.needs x b) (OMap.sorted_upd hs _ _)
        (fun a => by
          rw [OMap.mem_keys_upd, hk a]
          constructor
          · rintro (rfl | h)
            · exact hx
            · exact h
          · exact .inr)
        (fun a ha => hall a (by simp [ha]))
      refine ⟨m', e, hs', fun a => ?_⟩
      rw [hl a, OMap.lookup_upd hs]
      by_cases h1 : a ∈ arr
      · simp [h1]
      · by_cases h2 : a = x
        · subst h2; simp
        · simp [h1, h2]
  obtain ⟨m', e, hs', hl⟩ := loop arrivals init hsort hmemI (fun a ha => (hcover a).1 ha)
  refine ⟨m', e, hs', fun a => ?_⟩
  rw [hl a]
  by_cases h : a < w.counts.length ∧ w.needs a b ≠ []
  · rw [if_pos h, if_pos ((hcover a).2 h)]
  · rw [if_neg h, if_neg (fun hh => h ((hcover a).1 hh))]
    cases hn : init.lookup a with
    | none => rfl
    | some v =>
      exfalso; apply h
      rw [← hmemI a, ← OMap.lookup_isSome_iff, hn]; rfl

/-- **C09** (mutual consistency): rank `a`'s entry for `b` among the out-neighbours equals rank `b`'s
entry for `a` among the in-neighbours, for all pairs of ranks. -/
theorem C09_neighbours_consistent (w : World) (hw : w.Valid) (infos : List NbrInfo) (hinfos : w.outInfos = some infos)
    (bmps : List (List Bool)) (hb : infos.mapM (outBmp w.counts.length) = some bmps)
    (a b : Nat) (ha : a < w.counts.length) (hbr : b < w.counts.length) (arrivals : List Nat)
    (hcover : ∀ a, a ∈ arrivals ↔ a < w.counts.length ∧ w.needs a b ≠ []) (o : SegOwn) (ho : w.own a = some o)
    (info : NbrInfo) (hi : inNbrInfo infos bmps b arrivals = some info) :
    (outNbrInfo (ownDist w.counts) o).lookup b = info.lookup a := by
  obtain ⟨info', e, _, hl⟩ := C09_in_neighbours w hw infos hinfos bmps hb b hbr arrivals hcover
  rw [e] at hi
  obtain rfl := Option.some.inj hi
  rw [C09_out_neighbours w hw a ha o ho b, hl a]
  by_cases h : w.needs a b = [] <;> simp [h, ha]

/-- Three ranks owning 0-2, 3-4, 5-6 with ghosts. -/
example : let w : World := ⟨[3, 2, 2], [[3, 6], [2, 5, 0], [4]]⟩
    w.Valid ∧ w.outInfos = some [[(1, [3]), (2, [6])], [(0, [0, 2]), (2, [5])], [(1, [4])]] ∧
    inNbrInfo [[(1, [3]), (2, [6])], [(0, [0, 2]), (2, [5])], [(1, [4])]]
      [[false, true, true], [true, false, true], [false, true, false]] 1 [2, 0] = some [(0, [3]), (2, [4])] := by
  refine ⟨⟨rfl, by decide, ?_⟩, by decide, by decide⟩
  decide

end Verif.Own
