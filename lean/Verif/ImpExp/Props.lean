import Verif.ImpExp.Lemmas

/-! # C46: imports; C47: exports -/
namespace Verif.ImpExp
open Verif Own

variable {V : Type}

/-- A communicator: distribution of ids, contexts, and per rank its memory with the owned and the shared view; number of vectors
and object id. -/
structure Net (V : Type) where
  w : World
  ctx : Nat → Ctx
  mem : Nat → List V
  own : Nat → View
  sh : Nat → View
  nv : Nat
  id : Nat

/-- Contexts are those computed by the constructors; fewer than 4096 vectors (asserted, line 110); views pass the size checks,
lie in memory, and a vector fits in the stride. -/
structure Net.Ok (t : Net V) : Prop where
  valid : t.w.Valid
  ctx : ∀ r < t.w.counts.length, IsCtx t.w r (t.ctx r)
  nv : t.nv < 4096
  own : ∀ r < t.w.counts.length, sufficient (t.ctx r).numOwned t.nv (t.own r) = true ∧ (t.ctx r).numOwned ≤ (t.own r).stride ∧
    (t.own r).base + (t.own r).size ≤ (t.mem r).length
  sh : ∀ r < t.w.counts.length, sufficient (t.ctx r).numShared t.nv (t.sh r) = true ∧ (ghosts t.w r).length ≤ (t.sh r).stride ∧
    (t.sh r).base + (t.sh r).size ≤ (t.mem r).length

variable {t : Net V}

theorem Net.Ok.numShared (h : t.Ok) {r : Nat} (hr : r < t.w.counts.length) : (t.ctx r).numShared = (ghosts t.w r).length := by
  unfold Ctx.numShared
  rw [(ctxSpec h.valid hr (h.ctx r hr)).shared, blk_last _ _ _ (fun _ => rfl), ghosts_eq h.valid, Nat.zero_add]

/-- Element `l` of vector `v` of a view. -/
def View.at (vw : View) (v l : Nat) : Nat := vw.base + v * vw.stride + l

theorem at_own (h : t.Ok) {r v l : Nat} (hr : r < t.w.counts.length) (hv : v < t.nv) (hl : l ∈ (t.ctx r).ownedInds) :
    (t.own r).at v l < (t.mem r).length ∧ l < (t.own r).stride := by
  obtain ⟨h1, h2, h3⟩ := h.own r hr
  have hn := lt_numOwned hl
  have := sufficient_pos h1 hn hv
  unfold View.at; omega

theorem at_sh (h : t.Ok) {r v l : Nat} (hr : r < t.w.counts.length) (hv : v < t.nv) (hl : l < (ghosts t.w r).length) :
    (t.sh r).at v l < (t.mem r).length ∧ l < (t.sh r).stride := by
  obtain ⟨h1, h2, h3⟩ := h.sh r hr
  have := sufficient_pos h1 (by rw [h.numShared hr]; exact hl) hv
  unfold View.at; omega

/-- Blocks of messages: vector, neighbour, indices. -/
def pieces (c : Ctx) (nv : Nat) : List (Nat × Nat × List Nat) := (List.range nv).flatMap fun vec => c.owned.map fun p => (vec, p)

theorem mem_pieces {c : Ctx} {nv : Nat} {q : Nat × Nat × List Nat} : q ∈ pieces c nv ↔ q.1 < nv ∧ q.2 ∈ c.owned := by
  unfold pieces
  simp only [List.mem_flatMap, List.mem_range, List.mem_map]
  constructor
  · rintro ⟨v, hv, p, hp, rfl⟩; exact ⟨hv, hp⟩
  · rintro ⟨h1, h2⟩; exact ⟨q.1, h1, q.2, h2, rfl⟩

theorem tags_eq (id : Nat) (c : Ctx) (nv : Nat) :
    ((List.range nv).flatMap fun vec => c.owned.map fun p => (p.1, makeTag id vec)) = (pieces c nv).map fun q => (q.2.1, makeTag id q.1) := by
  unfold pieces; rw [List.map_flatMap]; simp [List.map_map, Function.comp_def]

theorem sizes_eq (c : Ctx) (nv : Nat) :
    ((List.range nv).flatMap fun _ => c.owned.map (·.2.length)) = (pieces c nv).map fun q => q.2.2.length := by
  unfold pieces; rw [List.map_flatMap]; simp [List.map_map, Function.comp_def]

theorem mem_ownedInds {c : Ctx} {p : Nat × List Nat} (hp : p ∈ c.owned) {l : Nat} (hl : l ∈ p.2) : l ∈ c.ownedInds :=
  List.mem_flatMap.2 ⟨p, hp, hl⟩

theorem flatten_flatMap {α β} (l : List α) (f : α → List (List β)) : (l.flatMap f).flatten = l.flatMap fun x => (f x).flatten := by
  induction l with
  | nil => rfl
  | cons a t ih => rw [List.flatMap_cons, List.flatten_append, ih, List.flatMap_cons]

variable [Inhabited V]

theorem importOut_eq (h : t.Ok) {r : Nat} (hr : r < t.w.counts.length) :
    importOut t.id (t.ctx r) t.nv (t.mem r) (t.own r) = some ((pieces (t.ctx r) t.nv).map fun q =>
      ⟨q.2.1, makeTag t.id q.1, q.2.2.map fun l => ((t.mem r)[(t.own r).at q.1 l]?).getD default⟩) := by
  unfold importOut
  rw [if_pos (h.own r hr).1]
  have hp : packSends (t.ctx r) t.nv (t.mem r) (t.own r) = some (((pieces (t.ctx r) t.nv).map fun q =>
      q.2.2.map fun l => ((t.mem r)[(t.own r).at q.1 l]?).getD default).flatten) := by
    unfold packSends
    rw [Permute.mapM_eq_some (g := fun p => ((t.mem r)[(t.own r).at p.1 p.2]?).getD default)]
    · congr 1
      unfold pieces Ctx.ownedInds
      rw [List.map_flatMap, List.map_flatMap, flatten_flatMap]
      apply List.flatMap_congr
      intro v _
      rw [List.map_map, List.map_map, List.map_flatMap, ← List.flatMap_def]
      rfl
    · rintro ⟨v, l⟩ hq
      simp only [List.mem_flatMap, List.mem_range, List.mem_map, Prod.mk.injEq] at hq
      obtain ⟨v', hv, l', hl, rfl, rfl⟩ := hq
      obtain ⟨h1, h2⟩ := at_own h hr hv hl
      simp only
      rw [if_pos h2]
      unfold View.at at h1 ⊢
      rw [List.getElem?_eq_getElem h1]; rfl
  rw [hp, Option.map_some]
  congr 1
  unfold importSends
  rw [tags_eq, sizes_eq]
  have := subspans_flatten ([] : List V) ((pieces (t.ctx r) t.nv).map fun q => q.2.2.map fun l => ((t.mem r)[(t.own r).at q.1 l]?).getD default) []
  rw [List.map_map, List.nil_append, List.append_nil] at this
  rw [show ((pieces (t.ctx r) t.nv).map fun q => q.2.2.length) = (pieces (t.ctx r) t.nv).map
    (List.length ∘ fun q => q.2.2.map fun l => ((t.mem r)[(t.own r).at q.1 l]?).getD default) from by simp [Function.comp_def]]
  rw [show (0 : Nat) = ([] : List V).length from rfl, this, List.zip_map, List.map_map, List.zip_eq_zipWith, List.zipWith_self, List.map_map]
  rfl

theorem div_mod_at {vw : View} {v l : Nat} (hl : l < vw.stride) : (vw.at v l - vw.base) / vw.stride = v ∧ (vw.at v l - vw.base) % vw.stride = l := by
  have : vw.at v l - vw.base = l + vw.stride * v := by unfold View.at; rw [Nat.mul_comm]; omega
  rw [this]
  constructor
  · rw [Nat.add_mul_div_left _ _ (by omega), Nat.div_eq_of_lt hl, Nat.zero_add]
  · rw [Nat.add_mul_mod_self_left, Nat.mod_eq_of_lt hl]

/-- The owner's value of id `g` in vector `v`. -/
def ownerVal (t : Net V) (v g : Nat) : Option V :=
  (t.mem (getOwner (ownDist t.w.counts) g))[(t.own (getOwner (ownDist t.w.counts) g)).at v (g - t.w.begin (getOwner (ownDist t.w.counts) g))]?

/-- The value a ghost position must receive. -/
def target (t : Net V) (a : Nat) (i : Nat) : Option V :=
  ownerVal t ((i - (t.sh a).base) / (t.sh a).stride) (((ghosts t.w a)[(i - (t.sh a).base) % (t.sh a).stride]?).getD 0)

/-- C46: all sends succeed, and whatever the order in which rank `a`'s receives complete, afterwards every ghost entry of every
vector holds the value its owner had, and every other element of the rank's memory (the owned view in particular, when it does
not overlap the ghosts) is unchanged. -/
theorem C46_import (h : t.Ok) :
    ∃ sends : Nat → List (Msg V), (∀ r < t.w.counts.length, importOut t.id (t.ctx r) t.nv (t.mem r) (t.own r) = some (sends r)) ∧
      ∀ a < t.w.counts.length, ∀ order, order.Perm (importRecvs t.id (t.ctx a) t.nv (t.sh a)) →
        ∃ mem', importIn sends a (t.ctx a) t.nv (t.mem a) (t.sh a) order = some mem' ∧ mem'.length = (t.mem a).length ∧
          (∀ v < t.nv, ∀ j (hj : j < (ghosts t.w a).length), ∀ b,
            t.w.begin b ≤ (ghosts t.w a)[j] → (ghosts t.w a)[j] < t.w.begin b + (t.w.counts[b]?).getD 0 →
            ∃ x, (t.mem b)[(t.own b).at v ((ghosts t.w a)[j] - t.w.begin b)]? = some x ∧ mem'[(t.sh a).at v j]? = some x) ∧
          (∀ i, (∀ v < t.nv, ∀ j < (ghosts t.w a).length, i ≠ (t.sh a).at v j) → mem'[i]? = (t.mem a)[i]?) := by
  refine ⟨fun r => (pieces (t.ctx r) t.nv).map fun q =>
      ⟨q.2.1, makeTag t.id q.1, q.2.2.map fun l => ((t.mem r)[(t.own r).at q.1 l]?).getD default⟩,
    fun r hr => importOut_eq h hr, ?_⟩
  intro a ha order hperm
  have hspec := ctxSpec h.valid ha (h.ctx a ha)
  obtain ⟨hs1, hs2, hs3⟩ := h.sh a ha
  have hG := ghosts_eq h.valid a
  -- properties of a posted receive
  have hrecv : ∀ r ∈ order, ∃ v < t.nv, ∃ s ∈ (t.ctx a).shared, r = ⟨s.1, makeTag t.id v, (t.sh a).at v s.2.1, s.2.2⟩ := by
    intro r hr
    have := hperm.mem_iff.1 hr
    simp only [importRecvs, List.mem_flatMap, List.mem_range, List.mem_map] at this
    obtain ⟨v, hv, s, hs, rfl⟩ := this
    exact ⟨v, hv, s, hs, rfl⟩
  have hshared : ∀ s ∈ (t.ctx a).shared, t.w.needs a s.1 ≠ [] ∧ s.2.2 = (t.w.needs a s.1).length ∧
      s.2.1 + s.2.2 ≤ (ghosts t.w a).length ∧ ∀ j < s.2.2, (ghosts t.w a)[s.2.1 + j]? = (t.w.needs a s.1)[j]? := by
    intro s hs
    rw [hspec.shared] at hs
    obtain ⟨p, hp, h1, h2, -, h4, h5⟩ := blk_mem hs
    rw [hG] at h4 h5
    obtain ⟨b, hb, rfl⟩ := List.mem_map.1 hp
    obtain ⟨-, hb⟩ := List.mem_filter.1 hb
    simp only at h1 h2 h5
    rw [h1]
    refine ⟨by simpa using hb, h2, by omega, ?_⟩
    rw [h2]
    simpa using h5
  have hkey := deliver_fold (fun r => (pieces (t.ctx r) t.nv).map fun q =>
      (⟨q.2.1, makeTag t.id q.1, q.2.2.map fun l => ((t.mem r)[(t.own r).at q.1 l]?).getD default⟩ : Msg V)) a (target t a) order (t.mem a) (by
    intro r hr
    obtain ⟨v, hv, s, hs, rfl⟩ := hrecv r hr
    obtain ⟨hne, hlen, hle, hget⟩ := hshared s hs
    have hb := needs_lt hne
    have hbspec := ctxSpec h.valid hb (h.ctx s.1 hb)
    have hpos : 0 < s.2.2 := by rw [hlen]; exact List.length_pos_iff.2 hne
    have hpc : (v, a, (t.w.needs a s.1).map (· - t.w.begin s.1)) ∈ pieces (t.ctx s.1) t.nv := by
      rw [mem_pieces]
      refine ⟨hv, ?_⟩
      rw [hbspec.owned]
      exact List.mem_map.2 ⟨a, List.mem_filter.2 ⟨List.mem_range.2 ha, by simpa using hne⟩, rfl⟩
    refine ⟨?_, ?_⟩
    · have := (at_sh h ha hv (l := s.2.1 + s.2.2 - 1) (by omega)).1
      simp only [View.at] at this ⊢; omega
    refine ⟨_, find_unique (List.mem_map.2 ⟨_, hpc, rfl⟩) rfl rfl ?_, ?_, ?_⟩
    · rintro m' hm' hd ht
      obtain ⟨q, hq, rfl⟩ := List.mem_map.1 hm'
      obtain ⟨hq1, hq2⟩ := mem_pieces.1 hq
      rw [hbspec.owned] at hq2
      obtain ⟨a', ha', he⟩ := List.mem_map.1 hq2
      have hv' := makeTag_inj t.id (by have := h.nv; omega) (by have := h.nv; omega) ht
      obtain ⟨q1, q2, q3⟩ := q
      simp only [Prod.mk.injEq] at he hd hv'
      obtain ⟨rfl, rfl⟩ := he
      subst hd hv'
      rfl
    · simp [hlen]
    · intro j hj
      have hjn : j < (t.w.needs a s.1).length := by simp only at hj; omega
      have hgj := hget j (by simpa using hj)
      rw [List.getElem?_eq_getElem hjn] at hgj
      have hmem := mem_needs.1 (List.getElem_mem hjn)
      have hown : getOwner (ownDist t.w.counts) ((t.w.needs a s.1)[j]) = s.1 := by
        rw [t.w.owner_iff _ (ghost_lt h.valid (r := a) (List.mem_of_getElem? hgj))]; exact hmem.2
      have hat : (t.sh a).at v s.2.1 + j = (t.sh a).at v (s.2.1 + j) := by unfold View.at; omega
      simp only at hj ⊢
      rw [hat]
      unfold target
      obtain ⟨e1, e2⟩ := div_mod_at (vw := t.sh a) (v := v) (l := s.2.1 + j) (by omega)
      rw [e1, e2, hgj, Option.getD_some]; unfold ownerVal
      rw [hown, List.getElem?_map, List.getElem?_map, List.getElem?_eq_getElem hjn]
      simp only [Option.map_some]
      have hin : (t.w.needs a s.1)[j] - t.w.begin s.1 ∈ (t.ctx s.1).ownedInds := by
        refine mem_ownedInds (p := (a, (t.w.needs a s.1).map (· - t.w.begin s.1))) (mem_pieces.1 hpc).2 ?_
        exact List.mem_map.2 ⟨_, List.getElem_mem hjn, rfl⟩
      rw [List.getElem?_eq_getElem (at_own h hb hv hin).1]; rfl)
  obtain ⟨mem', e, h1, h2, h3⟩ := hkey
  refine ⟨mem', ?_, h1, ?_, ?_⟩
  · unfold importIn
    rw [if_pos ⟨hs1, fun s hs => by have := (hshared s hs).2.2.1; omega⟩]
    exact e
  · intro v hv j hj b hb1 hb2
    have hcov : ∃ r ∈ order, r.pos ≤ (t.sh a).at v j ∧ (t.sh a).at v j < r.pos + r.size := by
      obtain ⟨s, hs, hc1, hc2⟩ := blk_cover (o := 0) (j := j) (L := ((List.range t.w.counts.length).filter fun b => decide (t.w.needs a b ≠ [])).map fun b => (b, t.w.needs a b))
        (by rw [hG]; exact hj)
      refine ⟨⟨s.1, makeTag t.id v, (t.sh a).at v s.2.1, s.2.2⟩, hperm.mem_iff.2 ?_, ?_⟩
      · simp only [importRecvs, List.mem_flatMap, List.mem_range, List.mem_map]
        exact ⟨v, hv, s, by rw [hspec.shared]; exact hs, rfl⟩
      · simp only [View.at]; omega
    obtain ⟨hat1, hat2⟩ := at_sh h ha hv hj
    have hT := h2 _ hcov
    have hlt : (t.sh a).at v j < mem'.length := by omega
    obtain ⟨e1, e2⟩ := div_mod_at (vw := t.sh a) (v := v) (l := j) hat2
    have hown : getOwner (ownDist t.w.counts) (ghosts t.w a)[j] = b := by
      rw [t.w.owner_iff _ (ghost_lt h.valid (List.getElem_mem hj))]; exact ⟨hb1, hb2⟩
    unfold target at hT
    rw [e1, e2, List.getElem?_eq_getElem hj, Option.getD_some] at hT
    unfold ownerVal at hT
    rw [hown, List.getElem?_eq_getElem hlt] at hT
    exact ⟨_, hT.symm, List.getElem?_eq_getElem hlt⟩
  · intro i hi
    apply h3
    rintro ⟨r, hr, hr1, hr2⟩
    obtain ⟨v, hv, s, hs, rfl⟩ := hrecv r hr
    obtain ⟨-, -, hle, -⟩ := hshared s hs
    simp only at hr1 hr2
    apply hi v hv (s.2.1 + (i - (t.sh a).at v s.2.1)) (by omega)
    unfold View.at at *; omega

/-! ### Export -/

omit [Inhabited V] in
theorem zip_running {α β} (L : List (α × List β)) (d : Nat) :
    (L.map (·.1)).zip ((running d (L.map (·.2.length))).zip (L.map (·.2.length))) = blk d L := by
  induction L generalizing d with
  | nil => rfl
  | cons a t ih => simp only [List.map_cons, running, List.zip_cons_cons, ih, blk]

/-- Contribution of rank `a` to id `g` in vector `v`. -/
def contrib (t : Net V) (a v g : Nat) : V := ((t.mem a)[(t.sh a).at v ((ghosts t.w a).idxOf g)]?).getD default

/-- Keys and data of the messages rank `b` receives in an export. -/
def blocksIn (t : Net V) (b : Nat) : List ((Nat × Nat) × List V) :=
  (pieces (t.ctx b) t.nv).map fun q => ((q.2.1, makeTag t.id q.1), q.2.2.map fun l => contrib t q.2.1 q.1 (l + t.w.begin b))

theorem exportRecvs_eq (t : Net V) (b : Nat) :
    exportRecvs t.id (t.ctx b) t.nv = (blk 0 (blocksIn t b)).map fun s => ⟨s.1.1, s.1.2, s.2.1, s.2.2⟩ := by
  unfold exportRecvs
  rw [← zip_running, tags_eq, sizes_eq]
  have e1 : (blocksIn t b).map (·.1) = (pieces (t.ctx b) t.nv).map fun q => (q.2.1, makeTag t.id q.1) := by
    unfold blocksIn; rw [List.map_map]; rfl
  have e2 : ((blocksIn t b).map fun x => x.2.length) = (pieces (t.ctx b) t.nv).map fun q => q.2.2.length := by
    unfold blocksIn; rw [List.map_map]; simp [Function.comp_def]
  rw [e1, e2]

/-- What rank `a` sends in an export. -/
def msgsOut (t : Net V) (a : Nat) : List (Msg V) :=
  ((List.range t.nv).flatMap fun vec => (t.ctx a).shared.map fun s => (vec, s)).map fun q =>
    ⟨q.2.1, makeTag t.id q.1, ((t.mem a).drop ((t.sh a).at q.1 q.2.2.1)).take q.2.2.2⟩

omit [Inhabited V] in
theorem shared_spec (h : t.Ok) {a : Nat} (ha : a < t.w.counts.length) : ∀ s ∈ (t.ctx a).shared, t.w.needs a s.1 ≠ [] ∧
    s.2.2 = (t.w.needs a s.1).length ∧ s.2.1 + s.2.2 ≤ (ghosts t.w a).length ∧
    ∀ j < s.2.2, (ghosts t.w a)[s.2.1 + j]? = (t.w.needs a s.1)[j]? := by
  intro s hs
  have hG := ghosts_eq h.valid a
  rw [(ctxSpec h.valid ha (h.ctx a ha)).shared] at hs
  obtain ⟨p, hp, h1, h2, -, h4, h5⟩ := blk_mem hs
  rw [hG] at h4 h5
  obtain ⟨b, hb, rfl⟩ := List.mem_map.1 hp
  obtain ⟨-, hb⟩ := List.mem_filter.1 hb
  simp only at h1 h2 h5
  rw [h1]
  refine ⟨by simpa using hb, h2, by omega, ?_⟩
  rw [h2]
  simpa using h5

omit [Inhabited V] in
theorem exportOut_eq (h : t.Ok) {a : Nat} (ha : a < t.w.counts.length) :
    exportOut t.id (t.ctx a) t.nv (t.mem a) (t.sh a) = some (msgsOut t a) := by
  unfold exportOut
  rw [if_pos (h.sh a ha).1]
  apply Permute.mapM_eq_some
  rintro ⟨v, s⟩ hq
  simp only [List.mem_flatMap, List.mem_range, List.mem_map, Prod.mk.injEq] at hq
  obtain ⟨v', hv, s', hs, rfl, rfl⟩ := hq
  obtain ⟨hne, hlen, hle, -⟩ := shared_spec h ha s' hs
  have hpos : 0 < s'.2.2 := by rw [hlen]; exact List.length_pos_iff.2 hne
  obtain ⟨h1, h2⟩ := at_sh h ha hv (l := s'.2.1 + s'.2.2 - 1) (by omega)
  unfold vecSpan
  simp only [View.at] at h1 ⊢
  rw [if_pos ⟨by omega, by omega⟩]
  rfl

theorem msg_found (h : t.Ok) (hnd : ∀ l ∈ t.w.shared, l.Nodup) {b v : Nat} {q : Nat × List Nat} (hb : b < t.w.counts.length) (hv : v < t.nv)
    (hq : q ∈ (t.ctx b).owned) :
    ((msgsOut t q.1).find? fun m => decide (m.dest = b ∧ m.tag = makeTag t.id v)) =
      some ⟨b, makeTag t.id v, q.2.map fun l => contrib t q.1 v (l + t.w.begin b)⟩ := by
  rw [(ctxSpec h.valid hb (h.ctx b hb)).owned] at hq
  obtain ⟨a, ha', rfl⟩ := List.mem_map.1 hq
  obtain ⟨ha, hne⟩ := List.mem_filter.1 ha'
  rw [List.mem_range] at ha
  have hne : t.w.needs a b ≠ [] := by simpa using hne
  have hcs := ctxSpec h.valid ha (h.ctx a ha)
  -- contents of any message to b with this tag
  have hcont : ∀ s ∈ (t.ctx a).shared, s.1 = b → ((t.mem a).drop ((t.sh a).at v s.2.1)).take s.2.2 =
      ((t.w.needs a b).map (· - t.w.begin b)).map fun l => contrib t a v (l + t.w.begin b) := by
    rintro s hs rfl
    obtain ⟨-, hlen, hle, hget⟩ := shared_spec h ha s hs
    have hpos : 0 < s.2.2 := by rw [hlen]; exact List.length_pos_iff.2 hne
    have hin := (at_sh h ha hv (l := s.2.1 + s.2.2 - 1) (by omega)).1
    have hin' : (t.sh a).at v s.2.1 + s.2.2 ≤ (t.mem a).length := by simp only [View.at] at hin ⊢; omega
    apply List.ext_getElem
    · simp; omega
    · intro j h1 h2
      have hj : j < s.2.2 := by simp at h1; omega
      have hjn : j < (t.w.needs a s.1).length := by omega
      have hgj := hget j hj
      rw [List.getElem?_eq_getElem hjn] at hgj
      have hge := (mem_needs.1 (List.getElem_mem hjn)).2.1
      simp only [List.getElem_take, List.getElem_drop, List.getElem_map]
      rw [Nat.sub_add_cancel hge]
      unfold contrib
      obtain ⟨hk, hgj'⟩ := List.getElem?_eq_some_iff.1 hgj
      have hidx : (ghosts t.w a).idxOf (t.w.needs a s.1)[j] = s.2.1 + j := by
        rw [← hgj']
        apply List.Nodup.idxOf_getElem
        apply Std.sort_nodup
        have hal : a < t.w.shared.length := by rw [h.valid.len]; exact ha
        rw [List.getElem?_eq_getElem hal]
        exact hnd _ (List.getElem_mem hal)
      rw [hidx, List.getElem?_eq_getElem (by unfold View.at at *; omega)]
      simp only [Option.getD_some]
      congr 1
      unfold View.at; omega
  obtain ⟨s, hs, hsb⟩ : ∃ s ∈ (t.ctx a).shared, s.1 = b := by
    have hbm : (b, t.w.needs a b) ∈ ((List.range t.w.counts.length).filter fun b => decide (t.w.needs a b ≠ [])).map fun b => (b, t.w.needs a b) :=
      List.mem_map.2 ⟨b, List.mem_filter.2 ⟨List.mem_range.2 hb, by simpa using hne⟩, rfl⟩
    rw [hcs.shared]
    generalize 0 = d
    generalize ((List.range t.w.counts.length).filter fun b => decide (t.w.needs a b ≠ [])).map (fun b => (b, t.w.needs a b)) = L at hbm
    induction L generalizing d with
    | nil => simp at hbm
    | cons p L ih =>
      rcases List.mem_cons.1 hbm with rfl | hbm
      · exact ⟨_, List.mem_cons_self, rfl⟩
      · obtain ⟨s, hs, h1⟩ := ih (d + p.2.length) hbm
        exact ⟨s, List.mem_cons_of_mem _ hs, h1⟩
  apply find_unique
  · unfold msgsOut
    refine List.mem_map.2 ⟨(v, s), ?_, ?_⟩
    · simp only [List.mem_flatMap, List.mem_range, List.mem_map]
      exact ⟨v, hv, s, hs, rfl⟩
    · simp only [hsb]; rw [hcont s hs hsb]
  · rfl
  · rfl
  · rintro m' hm' hd ht
    unfold msgsOut at hm'
    obtain ⟨⟨v', s'⟩, hm1, rfl⟩ := List.mem_map.1 hm'
    simp only [List.mem_flatMap, List.mem_range, List.mem_map, Prod.mk.injEq] at hm1
    obtain ⟨v'', hv'', s'', hs'', rfl, rfl⟩ := hm1
    have hvv := makeTag_inj t.id (by have := h.nv; omega) (by have := h.nv; omega) ht
    simp only at hd hvv
    subst hvv
    simp only [hd]
    rw [hcont s'' hs'' hd]

omit [Inhabited V] in
theorem modify_fold (f : V → V → V) (ps : List (Nat × V)) (mem : List V) (i : Nat) :
    (ps.foldl (fun m p => m.modify p.1 (f · p.2)) mem)[i]? =
      (mem[i]?).map fun y => ((ps.filter fun p => decide (p.1 = i)).map (·.2)).foldl f y := by
  induction ps generalizing mem with
  | nil => simp
  | cons p ps ih =>
    rw [List.foldl_cons, ih, List.getElem?_modify]
    by_cases hp : p.1 = i
    · rw [List.filter_cons_of_pos (by simpa using hp)]
      rcases mem[i]? with _ | y <;> simp [hp]
    · rw [List.filter_cons_of_neg (by simpa using hp)]
      rcases mem[i]? with _ | y <;> simp [hp]

/-- Position and value of an unpacking task. -/
def pairOf (c : Ctx) (buf : List V) (vw : View) (q : Nat × Nat) : Option (Nat × V) :=
  (c.ownedInds[q.2]?).bind fun l => (buf[c.ownedInds.length * q.1 + q.2]?).map fun x => (vw.at q.1 l, x)

omit [Inhabited V] in
theorem unpack_fold (f : V → V → V) (c : Ctx) (buf : List V) (vw : View) (ts : List (Nat × Nat)) (mem : List V)
    (h : ∀ q ∈ ts, ∃ l x, c.ownedInds[q.2]? = some l ∧ buf[c.ownedInds.length * q.1 + q.2]? = some x ∧ l < vw.stride ∧ vw.at q.1 l < mem.length) :
    ts.foldlM (unpackOne f c buf vw) mem = some ((ts.filterMap (pairOf c buf vw)).foldl (fun m p => m.modify p.1 (f · p.2)) mem) := by
  induction ts generalizing mem with
  | nil => rfl
  | cons q ts ih =>
    obtain ⟨l, x, h1, h2, h3, h4⟩ := h q (by simp)
    have e1 : unpackOne f c buf vw mem q = some (mem.modify (vw.at q.1 l) (f · x)) := by
      unfold unpackOne; rw [h1, h2]; simp only [View.at] at h4 ⊢; rw [if_pos ⟨h3, h4⟩]
    have e2 : pairOf c buf vw q = some (vw.at q.1 l, x) := by unfold pairOf; rw [h1, h2]; rfl
    rw [List.foldlM_cons, e1, List.filterMap_cons_some e2, List.foldl_cons]
    exact ih _ (fun q' hq' => by
      obtain ⟨l', x', g1, g2, g3, g4⟩ := h q' (List.mem_cons_of_mem _ hq')
      exact ⟨l', x', g1, g2, g3, by simpa using g4⟩)

omit [Inhabited V] in
theorem filterMap_range {α β : Type} (A : List α) (B : List β) (g : α → β → Nat × β) (h : A.length = B.length) :
    (List.range A.length).filterMap (fun i => (A[i]?).bind fun l => (B[i]?).map (g l)) = List.zipWith g A B := by
  induction A generalizing B with
  | nil => simp
  | cons a t ih =>
    cases B with
    | nil => simp at h
    | cons b B =>
      rw [List.length_cons, List.range_succ_eq_map, List.filterMap_cons_some (b := g a b) (by simp), List.filterMap_map, List.zipWith_cons_cons]
      congr 1
      rw [← ih B (by simpa using h)]
      apply List.filterMap_congr
      intro i _
      simp [Function.comp]

/-- The contributions rank `b` is sent for its entry `l` in vector `v`: those of all ranks that have the id as a ghost. -/
def contributions (t : Net V) (b v l : Nat) : List V :=
  (List.range t.w.counts.length).filterMap fun a =>
    if t.w.begin b + l ∈ ghosts t.w a then (t.mem a)[(t.sh a).at v ((ghosts t.w a).idxOf (t.w.begin b + l))]? else none

/-- Values for one vector. -/
def dataVec (t : Net V) (b v : Nat) : List V :=
  (t.ctx b).owned.flatMap fun p => p.2.map fun l => contrib t p.1 v (l + t.w.begin b)

theorem dataVec_length (t : Net V) (b v : Nat) : (dataVec t b v).length = (t.ctx b).ownedInds.length := by
  unfold dataVec Ctx.ownedInds
  simp [List.length_flatMap]

theorem blocksIn_flat (t : Net V) (b : Nat) : (blocksIn t b).flatMap (·.2) = (List.range t.nv).flatMap (dataVec t b) := by
  unfold blocksIn pieces dataVec
  rw [List.flatMap_map, List.flatMap_assoc]
  apply List.flatMap_congr
  intro v _
  rw [List.flatMap_map]

/-- The contributions to one entry, from the packed values. -/
theorem vec_contributions (h : t.Ok) (hnd : ∀ l ∈ t.w.shared, l.Nodup) {b v l : Nat} (hb : b < t.w.counts.length) (hv : v < t.nv)
    (hl : l < (t.w.counts[b]?).getD 0) :
    ((((t.ctx b).ownedInds.zip (dataVec t b v)).filter fun p => decide (p.1 = l)).map (·.2)) = contributions t b v l := by
  have hgn : ∀ a, (ghosts t.w a).Nodup := by
    intro a
    apply Std.sort_nodup
    by_cases ha : a < t.w.shared.length
    · rw [List.getElem?_eq_getElem ha]; exact hnd _ (List.getElem_mem ha)
    · rw [List.getElem?_eq_none (by omega)]; exact List.nodup_nil
  have e1 : (t.ctx b).ownedInds = ((t.ctx b).owned.flatMap fun p => p.2.map fun l => (p.1, l)).map (·.2) := by
    unfold Ctx.ownedInds
    rw [List.map_flatMap]
    apply List.flatMap_congr; intro p _; rw [List.map_map]; simp [Function.comp_def]
  have e2 : dataVec t b v = ((t.ctx b).owned.flatMap fun p => p.2.map fun l => (p.1, l)).map fun q => contrib t q.1 v (q.2 + t.w.begin b) := by
    unfold dataVec
    rw [List.map_flatMap]
    apply List.flatMap_congr; intro p _; rw [List.map_map]; rfl
  rw [e2]
  conv_lhs => rw [e1]
  rw [List.zip_map, List.zip_eq_zipWith, List.zipWith_self, List.map_map, List.filter_map, List.map_map]
  rw [(ctxSpec h.valid hb (h.ctx b hb)).owned, List.flatMap_map, List.filter_flatMap, List.map_flatMap]
  unfold contributions
  -- rank by rank
  have key : ∀ (R : List Nat), (∀ a ∈ R, a < t.w.counts.length) →
      (R.filter fun a => decide (t.w.needs a b ≠ [])).flatMap (fun a => ((((t.w.needs a b).map (· - t.w.begin b)).map fun l => (a, l)).filter
        ((fun p : Nat × V => decide (p.1 = l)) ∘ (Prod.map (·.2) (fun q : Nat × Nat => contrib t q.1 v (q.2 + t.w.begin b))) ∘ fun a => (a, a))).map
        ((·.2) ∘ (Prod.map (fun x : Nat × Nat => x.2) (fun q : Nat × Nat => contrib t q.1 v (q.2 + t.w.begin b))) ∘ fun a => (a, a))) =
      R.filterMap fun a => if t.w.begin b + l ∈ ghosts t.w a then (t.mem a)[(t.sh a).at v ((ghosts t.w a).idxOf (t.w.begin b + l))]? else none := by
    intro R hR
    induction R with
    | nil => rfl
    | cons a R ih =>
      have ih' := ih fun a' ha' => hR a' (List.mem_cons_of_mem _ ha')
      have ha := hR a (by simp)
      by_cases hg : t.w.begin b + l ∈ ghosts t.w a
      · have hgm : t.w.begin b + l ∈ t.w.needs a b := by
          rw [mem_needs]; refine ⟨?_, by omega, by omega⟩
          unfold ghosts at hg; rwa [Std.mem_sort] at hg
        have hne : t.w.needs a b ≠ [] := List.ne_nil_of_mem hgm
        have hlt := (at_sh h ha hv (List.idxOf_lt_length_of_mem hg)).1
        rw [List.filter_cons_of_pos (by simpa using hne), List.flatMap_cons, ih',
          List.filterMap_cons_some (b := contrib t a v (t.w.begin b + l))]
        · have hone : ((((t.w.needs a b).map (· - t.w.begin b)).map fun l => (a, l)).filter
              ((fun p : Nat × V => decide (p.1 = l)) ∘ (Prod.map (·.2) (fun q : Nat × Nat => contrib t q.1 v (q.2 + t.w.begin b))) ∘ fun a => (a, a))) =
              [(a, l)] := by
            rw [List.filter_map, List.filter_map, List.map_map]
            have hfil : (t.w.needs a b).filter ((((fun p : Nat × V => decide (p.1 = l)) ∘
                (Prod.map (·.2) (fun q : Nat × Nat => contrib t q.1 v (q.2 + t.w.begin b))) ∘ fun a => (a, a)) ∘ fun l => (a, l)) ∘ (· - t.w.begin b)) =
                [t.w.begin b + l] := by
              have : (t.w.needs a b).filter ((((fun p : Nat × V => decide (p.1 = l)) ∘
                (Prod.map (·.2) (fun q : Nat × Nat => contrib t q.1 v (q.2 + t.w.begin b))) ∘ fun a => (a, a)) ∘ fun l => (a, l)) ∘ (· - t.w.begin b)) =
                (t.w.needs a b).filter (· == t.w.begin b + l) := by
                apply List.filter_congr
                intro g hgm'
                have := (mem_needs.1 hgm').2.1
                simp only [Function.comp, Prod.map]
                rw [show (g == t.w.begin b + l) = decide (g = t.w.begin b + l) from by rw [Bool.eq_iff_iff]; simp, decide_eq_decide]
                omega
              rw [this, List.filter_beq]
              have hnn : (t.w.needs a b).Nodup := (hgn a).filter _
              rw [List.count_eq_one_of_mem hnn hgm]; rfl
            rw [hfil]
            simp
          rw [hone]
          simp [Nat.add_comm]
        · rw [if_pos hg]
          unfold contrib
          rw [List.getElem?_eq_getElem hlt]; rfl
      · rw [List.filterMap_cons_none (by rw [if_neg hg]), ← ih']
        by_cases hne : t.w.needs a b = []
        · rw [List.filter_cons_of_neg (by simpa using hne)]
        · rw [List.filter_cons_of_pos (by simpa using hne), List.flatMap_cons]
          have hnil : ((((t.w.needs a b).map (· - t.w.begin b)).map fun l => (a, l)).filter
              ((fun p : Nat × V => decide (p.1 = l)) ∘ (Prod.map (·.2) (fun q : Nat × Nat => contrib t q.1 v (q.2 + t.w.begin b))) ∘ fun a => (a, a))) = [] := by
            rw [List.filter_eq_nil_iff]
            intro q hq
            simp only [List.map_map, List.mem_map, Function.comp] at hq
            obtain ⟨g, hgm, rfl⟩ := hq
            simp only [Function.comp, Prod.map, decide_eq_true_eq]
            intro hgl
            obtain ⟨g1, g2, g3⟩ := mem_needs.1 hgm
            apply hg
            unfold ghosts
            rw [Std.mem_sort, ← hgl, Nat.add_sub_cancel' g2]
            exact g1
          rw [hnil]; rfl
  exact key _ fun a ha => List.mem_range.1 ha

/-- C47: all sends succeed, and whatever the order in which rank `b`'s receives complete and the combine calls run, every owned
entry ends as its previous value combined with the contribution of every rank that has the id as a ghost, once each; elements of
the rank's memory that are not owned entries are unchanged.  The combine function may be applied in any order. -/
theorem C47_export (h : t.Ok) (hnd : ∀ l ∈ t.w.shared, l.Nodup) (f : V → V → V) (hf : ∀ x y z, f (f x y) z = f (f x z) y) :
    ∃ sends : Nat → List (Msg V), (∀ r < t.w.counts.length, exportOut t.id (t.ctx r) t.nv (t.mem r) (t.sh r) = some (sends r)) ∧
      ∀ b < t.w.counts.length, ∀ (buf : List V), t.nv * (t.ctx b).ownedInds.length ≤ buf.length →
      ∀ order, order.Perm (exportRecvs t.id (t.ctx b) t.nv) → ∀ tasks, tasks.Perm (unpackTasks (t.ctx b) t.nv) →
        ∃ mem', exportIn f sends b (t.ctx b) t.nv (t.mem b) buf (t.own b) order tasks = some mem' ∧
          (∀ v < t.nv, ∀ l < (t.w.counts[b]?).getD 0, l < (t.own b).stride →
            mem'[(t.own b).at v l]? = ((t.mem b)[(t.own b).at v l]?).map fun y => (contributions t b v l).foldl f y) ∧
          (∀ i, (∀ v < t.nv, ∀ l < (t.w.counts[b]?).getD 0, i ≠ (t.own b).at v l) → mem'[i]? = (t.mem b)[i]?) := by
  refine ⟨msgsOut t, fun r hr => exportOut_eq h hr, ?_⟩
  intro b hb buf hbuf order hperm tasks htasks
  obtain ⟨ho1, ho2, ho3⟩ := h.own b hb
  have hP : ((List.range t.nv).flatMap (dataVec t b)).length = t.nv * (t.ctx b).ownedInds.length := by
    rw [List.length_flatMap]
    simp [dataVec_length]
  -- the receives
  obtain ⟨buf', e, hbl, hin, -⟩ := deliver_fold (msgsOut t) b (fun i => ((blocksIn t b).flatMap (·.2))[i]?) order buf (by
    intro r hr
    have hr' := hperm.mem_iff.1 hr
    rw [exportRecvs_eq] at hr'
    obtain ⟨s, hs, rfl⟩ := List.mem_map.1 hr'
    obtain ⟨p, hp, h1, h2, -, h4, h5⟩ := blk_mem hs
    unfold blocksIn at hp
    obtain ⟨q, hq, rfl⟩ := List.mem_map.1 hp
    obtain ⟨hq1, hq2⟩ := mem_pieces.1 hq
    rw [blocksIn_flat, hP] at h4
    refine ⟨by simp only; omega, ?_⟩
    refine ⟨⟨b, makeTag t.id q.1, q.2.2.map fun l => contrib t q.2.1 q.1 (l + t.w.begin b)⟩, ?_, ?_, ?_⟩
    · simp only [h1]; exact msg_found h hnd hb hq1 hq2
    · simp only [h2]
    · intro j hj
      simp only at hj ⊢
      rw [h2] at hj
      have := h5 j hj
      rw [Nat.sub_zero] at this
      exact this.symm)
  have hbufv : ∀ i < t.nv * (t.ctx b).ownedInds.length, buf'[i]? = ((List.range t.nv).flatMap (dataVec t b))[i]? := by
    intro i hi
    rw [← blocksIn_flat]
    apply hin
    obtain ⟨s, hs, h1, h2⟩ := blk_cover (o := 0) (j := i) (L := blocksIn t b) (by rw [blocksIn_flat, hP]; exact hi)
    refine ⟨⟨s.1.1, s.1.2, s.2.1, s.2.2⟩, hperm.mem_iff.2 ?_, by simp only; omega, by simp only; omega⟩
    rw [exportRecvs_eq]
    exact List.mem_map.2 ⟨s, hs, rfl⟩
  have hbufvi : ∀ v < t.nv, ∀ i < (t.ctx b).ownedInds.length, buf'[(t.ctx b).ownedInds.length * v + i]? = (dataVec t b v)[i]? := by
    intro v hv i hi
    have hlt : (t.ctx b).ownedInds.length * v + i < t.nv * (t.ctx b).ownedInds.length := by
      calc (t.ctx b).ownedInds.length * v + i < (t.ctx b).ownedInds.length * (v + 1) := by rw [Nat.mul_add, Nat.mul_one]; omega
        _ ≤ (t.ctx b).ownedInds.length * t.nv := Nat.mul_le_mul_left _ hv
        _ = _ := Nat.mul_comm _ _
    rw [hbufv _ hlt, (flatMap_range_getElem? (t.ctx b).ownedInds.length (by omega) (dataVec t b) t.nv (fun k _ => dataVec_length t b k)).2 _
      (by rw [Nat.mul_comm _ t.nv]; exact hlt)]
    rw [Nat.mul_add_div (by omega), Nat.div_eq_of_lt hi, Nat.add_zero, Nat.mul_add_mod, Nat.mod_eq_of_lt hi]
  have hvalid : ∀ q ∈ tasks, ∃ l x, (t.ctx b).ownedInds[q.2]? = some l ∧ buf'[(t.ctx b).ownedInds.length * q.1 + q.2]? = some x ∧
      l < (t.own b).stride ∧ (t.own b).at q.1 l < (t.mem b).length := by
    intro q hq
    have := htasks.mem_iff.1 hq
    simp only [unpackTasks, List.mem_flatMap, List.mem_range, List.mem_map] at this
    obtain ⟨v, hv, i, hi, rfl⟩ := this
    have hd : i < (dataVec t b v).length := by rw [dataVec_length]; exact hi
    have := at_own h hb hv (List.getElem_mem hi)
    exact ⟨_, _, List.getElem?_eq_getElem hi, by rw [hbufvi v hv i hi, List.getElem?_eq_getElem hd], this.2, this.1⟩
  have hcanon : (unpackTasks (t.ctx b) t.nv).filterMap (pairOf (t.ctx b) buf' (t.own b)) =
      (List.range t.nv).flatMap fun v => ((t.ctx b).ownedInds.zip (dataVec t b v)).map fun p => ((t.own b).at v p.1, p.2) := by
    unfold unpackTasks
    rw [List.filterMap_flatMap]
    apply List.flatMap_congr
    intro v hv
    rw [List.mem_range] at hv
    rw [List.filterMap_map, List.zip_eq_zipWith, List.map_zipWith]
    rw [← filterMap_range (t.ctx b).ownedInds (dataVec t b v) (fun l x => ((t.own b).at v l, x)) (dataVec_length t b v).symm]
    apply List.filterMap_congr
    intro i hi
    rw [List.mem_range] at hi
    simp only [Function.comp, pairOf]
    rw [hbufvi v hv i hi]
  have hrc : RightCommutative f := ⟨hf⟩
  refine ⟨(tasks.filterMap (pairOf (t.ctx b) buf' (t.own b))).foldl (fun m p => m.modify p.1 (f · p.2)) (t.mem b), ?_, ?_, ?_⟩
  · unfold exportIn
    rw [if_pos ho1, e, Option.bind_some]
    exact unpack_fold f _ _ _ _ _ hvalid
  · intro v hv l hl hls
    rw [modify_fold]
    congr 1
    funext y
    have hp : List.Perm (((tasks.filterMap (pairOf (t.ctx b) buf' (t.own b))).filter fun p => decide (p.1 = (t.own b).at v l)).map (·.2))
        ((((unpackTasks (t.ctx b) t.nv).filterMap (pairOf (t.ctx b) buf' (t.own b))).filter fun p => decide (p.1 = (t.own b).at v l)).map (·.2)) :=
      ((htasks.filterMap _).filter _).map _
    rw [hp.foldl_eq, hcanon, List.filter_flatMap, List.map_flatMap]
    congr 1
    rw [← vec_contributions h hnd hb hv hl]
    have hflat : ∀ (n : Nat), v < n → ((List.range n).flatMap fun a => ((((t.ctx b).ownedInds.zip (dataVec t b a)).map fun p =>
        ((t.own b).at a p.1, p.2)).filter fun p => decide (p.1 = (t.own b).at v l)).map (·.2)) =
        (((t.ctx b).ownedInds.zip (dataVec t b v)).filter fun p => decide (p.1 = l)).map (·.2) := by
      intro n hn
      have hz : ∀ a, a ≠ v → ((((t.ctx b).ownedInds.zip (dataVec t b a)).map fun p =>
        ((t.own b).at a p.1, p.2)).filter fun p => decide (p.1 = (t.own b).at v l)).map (·.2) = ([] : List V) := by
        intro a hav
        rw [List.map_eq_nil_iff, List.filter_eq_nil_iff]
        intro p hp
        obtain ⟨q, hq, rfl⟩ := List.mem_map.1 hp
        have hq1 : q.1 ∈ (t.ctx b).ownedInds := (List.of_mem_zip hq).1
        have hlt : q.1 < (t.own b).stride := by have := lt_numOwned hq1; omega
        simp only [decide_eq_true_eq]
        intro heq
        have d1 := (div_mod_at (vw := t.own b) (v := a) hlt).1
        have d2 := (div_mod_at (vw := t.own b) (v := v) hls).1
        rw [heq] at d1
        exact hav (d1.symm.trans d2)
      have hvv : ((((t.ctx b).ownedInds.zip (dataVec t b v)).map fun p =>
        ((t.own b).at v p.1, p.2)).filter fun p => decide (p.1 = (t.own b).at v l)).map (·.2) =
        (((t.ctx b).ownedInds.zip (dataVec t b v)).filter fun p => decide (p.1 = l)).map (·.2) := by
        rw [List.filter_map, List.map_map]
        have : ((t.ctx b).ownedInds.zip (dataVec t b v)).filter ((fun p : Nat × V => decide (p.1 = (t.own b).at v l)) ∘ fun p => ((t.own b).at v p.1, p.2)) =
            ((t.ctx b).ownedInds.zip (dataVec t b v)).filter fun p => decide (p.1 = l) := by
          apply List.filter_congr
          intro p _
          simp only [Function.comp, View.at]; exact decide_eq_decide.2 Nat.add_left_cancel_iff
        rw [this]; rfl
      induction n with
      | zero => omega
      | succ n ih =>
        rw [List.range_succ, List.flatMap_append, List.flatMap_singleton]
        by_cases hvn : v = n
        · subst hvn
          rw [hvv]
          have : (List.range v).flatMap (fun a => ((((t.ctx b).ownedInds.zip (dataVec t b a)).map fun p =>
            ((t.own b).at a p.1, p.2)).filter fun p => decide (p.1 = (t.own b).at v l)).map (·.2)) = [] := by
            rw [List.flatMap_eq_nil_iff]
            intro a ha
            exact hz a (by have := List.mem_range.1 ha; omega)
          rw [this, List.nil_append]
        · rw [ih (by omega), hz n (fun h => hvn h.symm), List.append_nil]
    exact hflat t.nv hv
  · intro i hi
    rw [modify_fold]
    have : (tasks.filterMap (pairOf (t.ctx b) buf' (t.own b))).filter (fun p => decide (p.1 = i)) = [] := by
      rw [List.filter_eq_nil_iff]
      intro p hp
      obtain ⟨q, hq, hpq⟩ := List.mem_filterMap.1 hp
      have := htasks.mem_iff.1 hq
      simp only [unpackTasks, List.mem_flatMap, List.mem_range, List.mem_map] at this
      obtain ⟨v, hv, k, hk, rfl⟩ := this
      unfold pairOf at hpq
      simp only [List.getElem?_eq_getElem hk, Option.bind_some, Option.map_eq_some_iff] at hpq
      obtain ⟨x, -, rfl⟩ := hpq
      simp only [decide_eq_true_eq]
      intro heq
      refine hi v hv _ ?_ heq.symm
      have hmem := List.getElem_mem hk
      unfold Ctx.ownedInds at hmem
      obtain ⟨p', hp', hl'⟩ := List.mem_flatMap.1 hmem
      rw [(ctxSpec h.valid hb (h.ctx b hb)).owned] at hp'
      obtain ⟨a, -, rfl⟩ := List.mem_map.1 hp'
      obtain ⟨g, hg, hgl⟩ := List.mem_map.1 hl'
      have := (mem_needs.1 hg).2
      unfold Ctx.ownedInds
      rw [← hgl]; omega
    rw [this]
    simp

/-! Two ranks owning ids 0-1 and 2; rank 0 has ghost 2, rank 1 ghosts 0 and 1; two vectors, stride 4, owned entries first. -/

def exW : World := ⟨[2, 1], [[2], [1, 0]]⟩
def exCtx (r : Nat) : Ctx := if r = 0 then ⟨[(1, [0, 1])], [(1, 0, 1)]⟩ else ⟨[(0, [0])], [(0, 0, 2)]⟩
def exNet : Net Int where
  w := exW
  ctx := exCtx
  mem r := if r = 0 then [10, 11, 0, 0, 20, 21, 0, 0] else [12, 0, 0, 0, 22, 0, 0, 0]
  own _ := ⟨0, 8, 4⟩
  sh r := if r = 0 then ⟨2, 6, 4⟩ else ⟨1, 7, 4⟩
  nv := 2
  id := 3

theorem exNet_ok : exNet.Ok := by
  have hv : exW.Valid := ⟨rfl, by decide, by
    intro r h i hi
    have h2 : r < 2 := h
    match r, h2 with
    | 0, _ => have : i ∈ [2] := hi
              simp at this; subst this; decide
    | 1, _ => have : i ∈ [1, 0] := hi
              simp at this; rcases this with rfl | rfl <;> decide⟩
  have hcover : ∀ r < 2, ∀ a, a ∈ [1 - r] ↔ a < exW.counts.length ∧ exW.needs a r ≠ [] := by
    intro r hr a
    constructor
    · intro h
      obtain rfl : a = 1 - r := by simpa using h
      match r, hr with
      | 0, _ => decide
      | 1, _ => decide
    · rintro ⟨h1, h2⟩
      have ha : a < 2 := h1
      match r, hr, a, ha with
      | 0, _, 0, _ => exact absurd (by decide) h2
      | 0, _, 1, _ => decide
      | 1, _, 0, _ => decide
      | 1, _, 1, _ => exact absurd (by decide) h2
  refine ⟨hv, ?_, by decide, ?_, ?_⟩
  · intro r hr
    have hr2 : r < 2 := hr
    have hc := hcover r hr2
    match r, hr2 with
    | 0, _ => exact ⟨⟨0, 2, [2]⟩, [[(1, [2])], [(0, [0, 1])]], [[false, true], [true, false]], [1], [(1, [0, 1])], by decide, by decide, by decide, hc, by decide, by decide⟩
    | 1, _ => exact ⟨⟨2, 1, [0, 1]⟩, [[(1, [2])], [(0, [0, 1])]], [[false, true], [true, false]], [0], [(0, [2])], by decide, by decide, by decide, hc, by decide, by decide⟩
  · intro r hr
    have hr2 : r < 2 := hr
    match r, hr2 with
    | 0, _ => decide
    | 1, _ => decide
  · intro r hr
    have hr2 : r < 2 := hr
    match r, hr2 with
    | 0, _ => decide
    | 1, _ => decide

example : exNet.Ok ∧ (∀ l ∈ exNet.w.shared, l.Nodup) ∧ ∀ x y z : Int, x + y + z = x + z + y :=
  ⟨exNet_ok, by decide, fun x y z => by omega⟩

example : (importOut 3 (exCtx 0) 2 (exNet.mem 0) ⟨0, 8, 4⟩).bind (fun s0 => importIn (fun _ => s0) 1 (exCtx 1) 2 (exNet.mem 1) ⟨1, 7, 4⟩
    (importRecvs 3 (exCtx 1) 2 ⟨1, 7, 4⟩).reverse) = some [12, 10, 11, 0, 22, 20, 21, 0] := by decide

end Verif.ImpExp
