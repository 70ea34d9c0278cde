import Verif.ImpExp.Model
import Verif.Own.Props
import Verif.Permute.Props
import Mathlib.Data.List.Perm.Basic

namespace Verif.ImpExp
open Verif Own

variable {V : Type}

/-! ### Contexts -/

theorem canon {β} {m : List (Nat × β)} (hs : OMap.Sorted m) (n : Nat) (P : Nat → Prop) [DecidablePred P] (f : Nat → β)
    (h : ∀ a, m.lookup a = if P a then some (f a) else none) (hP : ∀ a, P a → a < n) :
    m = ((List.range n).filter fun a => decide (P a)).map fun a => (a, f a) := by
  have hk : m.map (·.1) = (List.range n).filter fun a => decide (P a) := by
    apply Std.eq_of_mem_of_strict
    · exact List.pairwise_map.2 hs
    · exact List.pairwise_lt_range.filter _
    · intro a
      rw [← OMap.lookup_isSome_iff, h a]
      by_cases hp : P a
      · simp [hp, hP a hp]
      · simp [hp]
  rw [← hk, List.map_map]
  conv_lhs => rw [← List.map_id m]
  apply List.map_congr_left
  rintro ⟨a, v⟩ hm
  have := (OMap.mem_iff_lookup hs a v).1 hm
  rw [h a] at this
  split at this
  · simp only [id, Function.comp, Prod.mk.injEq, true_and]; exact (Option.some.inj this).symm
  · cases this

/-- Consecutive blocks: key, offset, length. -/
def blk {α β} : Nat → List (α × List β) → List (α × Nat × Nat)
  | _, [] => []
  | o, p :: t => (p.1, o, p.2.length) :: blk (o + p.2.length) t

theorem blk_mem {α β} {L : List (α × List β)} {o : Nat} {s : α × Nat × Nat} (h : s ∈ blk o L) :
    ∃ p ∈ L, s.1 = p.1 ∧ s.2.2 = p.2.length ∧ o ≤ s.2.1 ∧ s.2.1 + s.2.2 ≤ o + (L.flatMap (·.2)).length ∧
      ∀ j < p.2.length, (L.flatMap (·.2))[s.2.1 - o + j]? = p.2[j]? := by
  induction L generalizing o with
  | nil => simp [blk] at h
  | cons a t ih =>
    rcases List.mem_cons.1 h with rfl | h
    · refine ⟨a, by simp, rfl, rfl, le_rfl, by simp, fun j hj => ?_⟩
      rw [Nat.sub_self, Nat.zero_add, List.flatMap_cons, List.getElem?_append_left hj]
    · obtain ⟨p, hp, h1, h2, h3, h4, h5⟩ := ih h
      refine ⟨p, by simp [hp], h1, h2, by omega, by simp at h4 ⊢; omega, fun j hj => ?_⟩
      rw [List.flatMap_cons, List.getElem?_append_right (by omega), ← h5 j hj]
      congr 1; omega

theorem blk_cover {α β} {L : List (α × List β)} {o j : Nat} (h : j < (L.flatMap (·.2)).length) :
    ∃ s ∈ blk o L, s.2.1 ≤ o + j ∧ o + j < s.2.1 + s.2.2 := by
  induction L generalizing o j with
  | nil => simp at h
  | cons a t ih =>
    by_cases hj : j < a.2.length
    · exact ⟨_, List.mem_cons_self, by simp, by simp; omega⟩
    · rw [List.flatMap_cons, List.length_append] at h
      obtain ⟨s, hs, h1, h2⟩ := ih (o := o + a.2.length) (j := j - a.2.length) (by omega)
      exact ⟨s, List.mem_cons_of_mem _ hs, by omega, by omega⟩

theorem offs_cons (n : Nat) (ns : List Nat) (d : Nat) :
    (0 :: Std.inclusiveScan (n :: ns)).map (d + ·) = d :: (0 :: Std.inclusiveScan ns).map (d + n + ·) := by
  unfold Std.inclusiveScan
  simp only [List.length_cons, List.range_succ_eq_map, List.map_cons, List.map_map]
  simp [Function.comp_def, Nat.add_assoc]

theorem zip_blk {α β} (L : List (α × List β)) (d : Nat) :
    (L.map (·.1)).zip (((0 :: Std.inclusiveScan (L.map (·.2.length))).map (d + ·)).zip (L.map (·.2.length))) = blk d L := by
  induction L generalizing d with
  | nil => rfl
  | cons a t ih =>
    rw [show (a :: t).map (fun x => x.2.length) = a.2.length :: t.map (fun x => x.2.length) from rfl, offs_cons,
      show (a :: t).map (fun x => x.1) = a.1 :: t.map (fun x => x.1) from rfl, List.zip_cons_cons, List.zip_cons_cons, ih]; rfl

theorem shared_blk (o : SegOwn) (out inn : NbrInfo) : (makeCtx o out inn).shared = blk 0 out := by
  rw [← zip_blk out 0]
  simp [makeCtx]

theorem blk_last {α β} (L : List (α × List β)) (d e : Nat) (he : L = [] → e = d) :
    ((blk d L).map fun s => s.2.1 + s.2.2).getLastD e = d + (L.flatMap (·.2)).length := by
  induction L generalizing d e with
  | nil => simp [blk, he]
  | cons a t ih =>
    rw [blk, List.map_cons, List.getLastD_cons, ih _ _ (fun _ => rfl)]
    simp; omega

/-- The canonical description of a rank's context. -/
structure CtxSpec (w : World) (r : Nat) (c : Ctx) : Prop where
  owned : c.owned = ((List.range w.counts.length).filter fun a => decide (w.needs a r ≠ [])).map
    fun a => (a, (w.needs a r).map (· - w.begin r))
  shared : c.shared = blk 0 (((List.range w.counts.length).filter fun b => decide (w.needs r b ≠ [])).map fun b => (b, w.needs r b))

/-- What the constructor computes on rank `r` of a communicator: `own` is the rank's ownership, `infos` and `bmps` what the
ranks exchange, `arrivals` the order of messages in `computeInNbrInfo`. -/
def IsCtx (w : World) (r : Nat) (c : Ctx) : Prop :=
  ∃ o infos bmps arrivals inn, w.own r = some o ∧ w.outInfos = some infos ∧ infos.mapM (outBmp w.counts.length) = some bmps ∧
    (∀ a, a ∈ arrivals ↔ a < w.counts.length ∧ w.needs a r ≠ []) ∧ inNbrInfo infos bmps r arrivals = some inn ∧
    c = makeCtx o (outNbrInfo (ownDist w.counts) o) inn

theorem mem_needs {w : World} {a b g : Nat} :
    g ∈ w.needs a b ↔ g ∈ (w.shared[a]?).getD [] ∧ w.begin b ≤ g ∧ g < w.begin b + (w.counts[b]?).getD 0 := by
  unfold World.needs
  rw [List.mem_filter, Std.mem_sort]; simp

theorem needs_lt {w : World} {a b : Nat} (h : w.needs a b ≠ []) : b < w.counts.length := by
  obtain ⟨g, hg⟩ := List.exists_mem_of_ne_nil _ h
  obtain ⟨-, h1, h2⟩ := mem_needs.1 hg
  by_contra hb
  rw [List.getElem?_eq_none (by omega)] at h2
  simp at h2; omega

theorem ctxSpec {w : World} (hw : w.Valid) {r : Nat} (hr : r < w.counts.length) {c : Ctx} (h : IsCtx w r c) : CtxSpec w r c := by
  obtain ⟨o, infos, bmps, arr, inn, ho, hi, hb, hc, hinn, rfl⟩ := h
  obtain ⟨inn', e, hs, hl⟩ := C09_in_neighbours w hw infos hi bmps hb r hr arr hc
  rw [e] at hinn
  obtain rfl := Option.some.inj hinn
  have hout := canon (m := outNbrInfo (ownDist w.counts) o) (outNbrInfo_fold _ _ [] List.Pairwise.nil).1 w.counts.length
    (fun b => w.needs r b ≠ []) (w.needs r) (fun b => by rw [C09_out_neighbours w hw r hr o ho b]; simp only [ne_eq, ite_not])
    (fun b hb => needs_lt hb)
  have hin := canon hs w.counts.length (fun a => a < w.counts.length ∧ w.needs a r ≠ []) (fun a => w.needs a r) hl (fun a ha => ha.1)
  constructor
  · show inn'.map _ = _
    rw [hin, List.map_map]
    have hf : (List.range w.counts.length).filter (fun a => decide (a < w.counts.length ∧ w.needs a r ≠ [])) =
        (List.range w.counts.length).filter fun a => decide (w.needs a r ≠ []) := by
      apply List.filter_congr
      intro a ha
      rw [List.mem_range] at ha
      simp [ha]
    rw [hf]
    apply List.map_congr_left
    intro a _
    simp only [Function.comp, Prod.mk.injEq, true_and]
    apply List.map_congr_left
    intro g hg
    obtain ⟨-, h1, h2⟩ := mem_needs.1 hg
    obtain ⟨rfl, -⟩ := make_some ho
    unfold SegOwn.getLocal SegOwn.isOwned
    rw [if_pos (by simpa using ⟨h1, h2⟩)]
  · rw [shared_blk, ← hout]

/-- Splitting a list sorted by key. -/
theorem split_key {α} (k : α → Nat) (l : List α) (hs : l.Pairwise (fun x y => k x ≤ k y)) (b : Nat) (hb : ∀ x ∈ l, b ≤ k x) :
    l = l.filter (fun x => decide (k x = b)) ++ l.filter (fun x => decide (k x ≠ b)) := by
  induction l with
  | nil => rfl
  | cons a t ih =>
    rw [List.pairwise_cons] at hs
    by_cases h : k a = b
    · rw [List.filter_cons_of_pos (by simpa using h), List.filter_cons_of_neg (by simpa using h), List.cons_append,
        ← ih hs.2 fun x hx => hb x (by simp [hx])]
    · have hlt : b < k a := lt_of_le_of_ne (hb a (by simp)) (fun h' => h h'.symm)
      have h1 : (a :: t).filter (fun x => decide (k x = b)) = [] := by
        rw [List.filter_eq_nil_iff]
        intro x hx
        rcases List.mem_cons.1 hx with rfl | hx
        · simpa using h
        · have := hs.1 x hx; simp; omega
      have h2 : (a :: t).filter (fun x => decide (k x ≠ b)) = a :: t := by
        rw [List.filter_eq_self]
        intro x hx
        rcases List.mem_cons.1 hx with rfl | hx
        · simpa using h
        · have := hs.1 x hx; simp; omega
      rw [h1, h2]; rfl

theorem flatMap_key {α} (k : α → Nat) (ks : List Nat) (hks : ks.Pairwise (· < ·)) (l : List α)
    (hs : l.Pairwise (fun x y => k x ≤ k y)) (hm : ∀ x ∈ l, k x ∈ ks) :
    (ks.flatMap fun b => l.filter fun x => decide (k x = b)) = l := by
  induction ks generalizing l with
  | nil => cases l with
    | nil => rfl
    | cons a t => exact absurd (hm a (by simp)) (by simp)
  | cons b t ih =>
    rw [List.pairwise_cons] at hks
    rw [List.flatMap_cons]
    have hsp := split_key k l hs b (fun x hx => by
      rcases List.mem_cons.1 (hm x hx) with h | h
      · omega
      · exact le_of_lt (hks.1 _ h))
    conv_rhs => rw [hsp]
    congr 1
    rw [← ih hks.2 (l.filter fun x => decide (k x ≠ b)) (hs.filter _) ?_]
    · apply List.flatMap_congr
      intro b' hb'
      rw [List.filter_filter]
      apply List.filter_congr
      intro x hx
      have : b < b' := hks.1 b' hb'
      by_cases h : k x = b'
      · simp [h]; omega
      · simp [h]
    · intro x hx
      obtain ⟨h1, h2⟩ := List.mem_filter.1 hx
      rcases List.mem_cons.1 (hm x h1) with h | h
      · simp [h] at h2
      · exact h

/-- A rank's sorted ghost ids. -/
def ghosts (w : World) (r : Nat) : List Nat := Std.sort ((w.shared[r]?).getD [])

theorem ghost_lt {w : World} (hw : w.Valid) {r g : Nat} (hg : g ∈ ghosts w r) : g < w.counts.sum := by
  unfold ghosts at hg
  rw [Std.mem_sort] at hg
  by_cases hr : r < w.shared.length
  · rw [List.getElem?_eq_getElem hr] at hg
    exact hw.exist _ (List.getElem_mem hr) g hg
  · rw [List.getElem?_eq_none (by omega)] at hg; simp at hg

theorem owner_mono {w : World} {i j : Nat} (h : i ≤ j) : getOwner (ownDist w.counts) i ≤ getOwner (ownDist w.counts) j := by
  unfold getOwner Std.upperBound
  by_contra hlt
  push Not at hlt
  have h1 := List.not_of_lt_findIdx hlt
  have hl : (ownDist w.counts).findIdx (fun y => decide (j < y)) < (ownDist w.counts).length := hlt.trans_le List.findIdx_le_length
  have h2 := List.findIdx_getElem (w := hl)
  simp only [decide_eq_true_eq, decide_eq_false_iff_not] at h1 h2
  omega

theorem ghosts_eq {w : World} (hw : w.Valid) (r : Nat) :
    (((List.range w.counts.length).filter fun b => decide (w.needs r b ≠ [])).map fun b => (b, w.needs r b)).flatMap (·.2) = ghosts w r := by
  rw [List.flatMap_map]
  have hmem : ∀ b, w.needs r b = (ghosts w r).filter fun x => decide (getOwner (ownDist w.counts) x = b) := by
    intro b
    unfold World.needs ghosts
    apply List.filter_congr
    intro x hx
    rw [decide_eq_decide]
    exact (w.owner_iff x (ghost_lt hw (r := r) hx) b).symm
  conv_rhs => rw [← flatMap_key (getOwner (ownDist w.counts)) ((List.range w.counts.length).filter fun b => decide (w.needs r b ≠ []))
    (List.pairwise_lt_range.filter _) (ghosts w r) ((Std.sort_sorted _).imp fun h => owner_mono h) (by
      intro x hx
      have hlt : getOwner (ownDist w.counts) x < w.counts.length := by
        obtain ⟨h, -⟩ := C09_owner_unique w.counts x (ghost_lt hw hx)
        exact h
      rw [List.mem_filter]
      refine ⟨List.mem_range.2 hlt, ?_⟩
      simp only [ne_eq, decide_not, Bool.not_eq_true', decide_eq_false_iff_not]
      intro he
      have : x ∈ w.needs r (getOwner (ownDist w.counts) x) := by rw [hmem]; exact List.mem_filter.2 ⟨hx, by simp⟩
      rw [he] at this; simp at this)]
  apply List.flatMap_congr
  intro b _
  exact hmem b

/-! ### Messages -/

theorem and_mask (v : Nat) (h : v < 4096) : v &&& 0xfff = v := by
  have : (0xfff : Nat) = 2 ^ 12 - 1 := rfl
  rw [this, Nat.and_two_pow_sub_one_eq_mod]; exact Nat.mod_eq_of_lt h

theorem makeTag_eq (id v : Nat) (h : v < 4096) : makeTag id v = (id % 256) * 4096 + v := by
  unfold makeTag
  rw [and_mask v h]
  have h255 : id &&& 0xff = id % 256 := by
    have : (0xff : Nat) = 2 ^ 8 - 1 := rfl
    rw [this, Nat.and_two_pow_sub_one_eq_mod]
  rw [h255, Nat.or_comm, ← Nat.shiftLeft_add_eq_or_of_lt (by simpa using h), Nat.shiftLeft_eq]

theorem makeTag_inj (id : Nat) {v v' : Nat} (h : v < 4096) (h' : v' < 4096) (e : makeTag id v = makeTag id v') : v = v' := by
  rw [makeTag_eq id v h, makeTag_eq id v' h'] at e; omega

theorem subspans_flatten (pre : List V) (Ls : List (List V)) (post : List V) :
    subspans (pre ++ Ls.flatten ++ post) pre.length (Ls.map List.length) = Ls := by
  induction Ls generalizing pre with
  | nil => rfl
  | cons a t ih =>
    rw [List.map_cons, subspans]
    congr 1
    · rw [List.append_assoc, List.drop_left', List.flatten_cons, List.append_assoc, List.take_left'] <;> rfl
    · have := ih (pre ++ a)
      rw [List.length_append] at this
      rw [List.flatten_cons, ← List.append_assoc pre a]; exact this

theorem deliver_fold (sends : Nat → List (Msg V)) (me : Nat) (T : Nat → Option V) (order : List Recv) (mem : List V)
    (h : ∀ r ∈ order, r.pos + r.size ≤ mem.length ∧ ∃ m, ((sends r.src).find? fun m => decide (m.dest = me ∧ m.tag = r.tag)) = some m ∧
      m.data.length = r.size ∧ ∀ j < r.size, m.data[j]? = T (r.pos + j)) :
    ∃ mem', order.foldlM (deliver sends me) mem = some mem' ∧ mem'.length = mem.length ∧
      (∀ i, (∃ r ∈ order, r.pos ≤ i ∧ i < r.pos + r.size) → mem'[i]? = T i) ∧
      (∀ i, (¬ ∃ r ∈ order, r.pos ≤ i ∧ i < r.pos + r.size) → mem'[i]? = mem[i]?) := by
  induction order generalizing mem with
  | nil => exact ⟨mem, rfl, rfl, by simp, by simp⟩
  | cons r t ih =>
    obtain ⟨hb, m, hm, hl, hT⟩ := h r (by simp)
    have hd : deliver sends me mem r = some (writeAt mem r.pos m.data) := by
      unfold deliver; rw [hm]; simp only; rw [if_pos ⟨hl, hb⟩]
    have hwl : (writeAt mem r.pos m.data).length = mem.length := writeAt_length _ _ _ (by omega)
    obtain ⟨mem', e, h1, h2, h3⟩ := ih (writeAt mem r.pos m.data) (fun q hq => by
      rw [hwl]; exact h q (List.mem_cons_of_mem _ hq))
    refine ⟨mem', by rw [List.foldlM_cons, hd]; exact e, by rw [h1, hwl], ?_, ?_⟩
    · intro i hi
      by_cases ht : ∃ r ∈ t, r.pos ≤ i ∧ i < r.pos + r.size
      · exact h2 i ht
      · rw [h3 i ht, writeAt_getElem? _ _ _ (by omega)]
        obtain ⟨q, hq, hq1, hq2⟩ := hi
        rcases List.mem_cons.1 hq with rfl | hq
        · rw [if_pos (by omega), hT _ (by omega)]; congr 1; omega
        · exact absurd ⟨q, hq, hq1, hq2⟩ ht
    · intro i hi
      have ht : ¬ ∃ r ∈ t, r.pos ≤ i ∧ i < r.pos + r.size := fun ⟨q, hq, h⟩ => hi ⟨q, List.mem_cons_of_mem _ hq, h⟩
      rw [h3 i ht, writeAt_getElem? _ _ _ (by omega), if_neg]
      intro hc
      exact hi ⟨r, by simp, by omega, by omega⟩

/-- A message that is the only one with its destination and tag is found. -/
theorem find_unique {l : List (Msg V)} {d t : Nat} {m : Msg V} (hm : m ∈ l) (hd : m.dest = d) (ht : m.tag = t)
    (hu : ∀ m' ∈ l, m'.dest = d → m'.tag = t → m' = m) : (l.find? fun m => decide (m.dest = d ∧ m.tag = t)) = some m := by
  generalize hf : (l.find? fun m => decide (m.dest = d ∧ m.tag = t)) = q
  rcases q with _ | m'
  · have := List.find?_eq_none.1 hf m hm
    simp [hd, ht] at this
  · have h1 := List.mem_of_find?_eq_some hf
    have h2 := List.find?_some hf
    simp only [decide_eq_true_eq] at h2
    exact congrArg some (hu m' h1 h2.1 h2.2)

theorem foldl_max_ge (l : List Nat) (m : Nat) : m ≤ l.foldl max m ∧ ∀ x ∈ l, x ≤ l.foldl max m := by
  induction l generalizing m with
  | nil => simp
  | cons a t ih =>
    obtain ⟨h1, h2⟩ := ih (max m a)
    refine ⟨(le_max_left _ _).trans h1, fun x hx => ?_⟩
    rcases List.mem_cons.1 hx with rfl | hx
    · exact (le_max_right _ _).trans h1
    · exact h2 x hx

theorem lt_numOwned {c : Ctx} {l : Nat} (h : l ∈ c.ownedInds) : l < c.numOwned := by
  have := (foldl_max_ge (c.ownedInds.map (· + 1)) 0).2 (l + 1) (List.mem_map.2 ⟨l, h, rfl⟩)
  unfold Ctx.numOwned; omega

theorem sufficient_pos {num nv : Nat} {v : View} (h : sufficient num nv v = true) {l vec : Nat} (hl : l < num) (hv : vec < nv) :
    vec * v.stride + l < v.size := by
  unfold sufficient at h
  rw [if_pos (by omega)] at h
  simp only [decide_eq_true_eq] at h
  have : vec * v.stride ≤ (nv - 1) * v.stride := Nat.mul_le_mul_right _ (by omega)
  omega

end Verif.ImpExp
