import Verif.Graph.Model
import Mathlib.Logic.Relation
import Mathlib.Tactic.IntervalCases
import Mathlib.Algebra.BigOperators.Group.List.Basic

/-! # Properties C10, C11: CRS graphs, depth-first search, components -/
namespace Verif.Graph

/-! ## C10 -/

/-- The graph stores exactly the given rows. -/
structure Rep {α} (g : Crs α) (rs : List (List α)) : Prop where
  offs : g.offsets = Std.offsets (rs.map List.length)
  adj : g.adj = rs.flatten

theorem Rep.rows {α} {g : Crs α} {rs : List (List α)} (h : Rep g rs) (b e : Nat) :
    g.rows b e = if b ≤ rs.length ∧ e ≤ rs.length then some ((rs.take e).drop b).flatten else none := by
  unfold Crs.rows
  rw [h.offs, Std.offsets_getElem?, Std.offsets_getElem?, List.length_map]
  by_cases hb : b ≤ rs.length
  · by_cases he : e ≤ rs.length
    · simp only [hb, he, if_true, and_self]
      rw [h.adj]
      congr 1
      have hd := List.drop_sum_flatten rs b
      rw [hd]
      by_cases hbe : b ≤ e
      · have hs : ((List.map List.length rs).take e).sum - ((List.map List.length rs).take b).sum =
            (((rs.drop b).map List.length).take (e - b)).sum := by
          obtain ⟨k, rfl⟩ := Nat.exists_eq_add_of_le hbe
          rw [List.take_add, List.sum_append, Nat.add_sub_cancel_left, Nat.add_sub_cancel_left, List.map_drop]
        rw [hs, List.take_sum_flatten, List.drop_take]
      · have hs : ((List.map List.length rs).take e).sum - ((List.map List.length rs).take b).sum = 0 := by
          have := Std.sum_take_le (rs.map List.length) (show e ≤ b by omega); omega
        have : (rs.take e).drop b = [] := List.drop_eq_nil_of_le (by simp; omega)
        rw [hs, this]; rfl
    · simp [he]
  · simp [hb]

theorem Rep.row {α} {g : Crs α} {rs : List (List α)} (h : Rep g rs) (i : Nat) : g.row i = rs[i]? := by
  unfold Crs.row
  rw [h.rows]
  by_cases hi : i < rs.length
  · rw [if_pos (by omega), List.getElem?_eq_getElem hi, List.drop_take, Nat.add_sub_cancel_left]
    congr 1
    rw [List.drop_eq_getElem_cons hi, List.take_succ_cons]
    simp
  · rw [if_neg (by omega), List.getElem?_eq_none (by omega)]

theorem Rep.writeRow {α} {g : Crs α} {rs : List (List α)} (h : Rep g rs) (i : Nat) (hi : i < rs.length)
    (xs : List α) (hl : xs.length = rs[i].length) :
    ∃ g', g.writeRow i xs = some g' ∧ Rep g' (rs.set i xs) := by
  unfold Crs.writeRow
  rw [h.offs, Std.offsets_getElem?, Std.offsets_getElem?, List.length_map, if_pos (by omega), if_pos (by omega)]
  simp only
  have hs : ((rs.map List.length).take (i + 1)).sum - ((rs.map List.length).take i).sum = xs.length := by
    rw [Std.sum_take_succ _ (by simpa using hi)]; simp [hl]
  rw [hs, if_pos (le_refl _)]
  refine ⟨_, rfl, ⟨?_, ?_⟩⟩
  · show Std.offsets _ = _
    congr 1
    apply List.ext_getElem (by simp)
    intro n h1 h2
    simp only [List.getElem_map, List.getElem_set]
    split
    · subst_vars; exact hl.symm
    · rfl
  · show Verif.writeAt g.adj _ xs = _
    rw [h.adj]
    unfold Verif.writeAt
    have htot : ((rs.map List.length).take i).sum + xs.length ≤ rs.flatten.length := by
      have := Std.sum_take_le_sum (rs.map List.length) (i + 1)
      rw [Std.sum_take_succ _ (by simpa using hi)] at this
      rw [List.length_flatten]; simp at this; omega
    rw [List.take_of_length_le (show xs.length ≤ _ by omega)]
    have e1 := List.take_sum_flatten rs i
    have e2 := List.drop_sum_flatten rs (i + 1)
    rw [Std.sum_take_succ _ (by simpa using hi)] at e2
    simp only [List.getElem_map] at e2
    rw [← hl] at e2
    rw [e1, e2, List.set_eq_take_append_cons_drop, if_pos hi]
    simp [List.append_assoc]

/-- **C10** (rows): writing a list of the declared length into each row, in any order and whatever
the array held before, and reading row `i` back gives the `i`-th list; rows outside the range
throw. -/
theorem C10_rows_roundtrip {α} (junk : Nat → α) (rs : List (List α)) (order : List Nat)
    (hord : ∀ i, i ∈ order ↔ i < rs.length) :
    ∃ g, order.foldlM (fun g i => g.writeRow i ((rs[i]?).getD [])) (Crs.ofSizes junk (rs.map List.length)) = some g ∧
      g.nRows = rs.length ∧ g.nEntries = rs.flatten.length ∧ (∀ i, g.row i = rs[i]?) ∧
      (∀ b e, g.rows b e = if b ≤ rs.length ∧ e ≤ rs.length then some ((rs.take e).drop b).flatten else none) ∧
      Rep g rs := by
  -- initial rows
  have init : ∃ rs0 : List (List α), Rep (Crs.ofSizes junk (rs.map List.length)) rs0 ∧ rs0.map List.length = rs.map List.length := by
    have key : ∀ (sz : List Nat) (l : List α), l.length = sz.sum → ∃ rs0 : List (List α), rs0.flatten = l ∧ rs0.map List.length = sz := by
      intro sz
      induction sz with
      | nil => intro l hl; exact ⟨[], by simp at hl; simp [hl], rfl⟩
      | cons a sz ih =>
        intro l hl
        obtain ⟨r, hr, hr2⟩ := ih (l.drop a) (by simp [hl])
        refine ⟨l.take a :: r, by simp [hr], ?_⟩
        simp only [List.map_cons, hr2, List.length_take]
        congr 1; simp at hl; omega
    obtain ⟨r, h1, h2⟩ := key (rs.map List.length) ((List.range (rs.map List.length).sum).map junk) (by simp)
    exact ⟨r, ⟨by rw [h2]; rfl, h1.symm⟩, h2⟩
  obtain ⟨rs0, hrep, hlen⟩ := init
  suffices H : ∀ (order : List Nat) (g : Crs α) (rs0 : List (List α)), Rep g rs0 → rs0.map List.length = rs.map List.length →
      (∀ i ∈ order, i < rs.length) →
      ∃ g' rs', order.foldlM (fun g i => g.writeRow i ((rs[i]?).getD [])) g = some g' ∧ Rep g' rs' ∧
        rs'.length = rs.length ∧ ∀ i, rs'[i]? = if i ∈ order then rs[i]? else rs0[i]? by
    obtain ⟨g', rs', e, hr, hl, hi⟩ := H order _ rs0 hrep hlen (fun i hi => (hord i).1 hi)
    have : rs' = rs := by
      apply List.ext_getElem?
      intro i
      rw [hi i]
      split
      · rfl
      · rename_i hn
        rw [hord] at hn
        have := congrArg List.length hlen
        simp only [List.length_map] at this
        rw [List.getElem?_eq_none (by omega), List.getElem?_eq_none (by omega)]
    subst this
    refine ⟨g', e, ?_, ?_, hr.row, hr.rows, hr⟩
    · unfold Crs.nRows; rw [hr.offs, Std.length_offsets]; simp
    · unfold Crs.nEntries; rw [hr.adj]
  intro order
  induction order with
  | nil =>
    intro g rs0 hr hl _
    exact ⟨g, rs0, rfl, hr, by have := congrArg List.length hl; simpa using this, by simp⟩
  | cons k order ih =>
    intro g rs0 hr hl hk
    have hlen0 : rs0.length = rs.length := by have := congrArg List.length hl; simpa using this
    have hkr := hk k (by simp)
    have hk0 : k < rs0.length := by omega
    have hkl : rs0[k].length = rs[k].length := by
      have := congrArg (fun l : List Nat => l[k]?) hl
      simpa [List.getElem?_map, List.getElem?_eq_getElem hk0, List.getElem?_eq_getElem hkr] using this
    obtain ⟨g1, e1, hr1⟩ := hr.writeRow k hk0 rs[k] hkl.symm
    rw [List.foldlM_cons, List.getElem?_eq_getElem hkr, Option.getD_some, e1]
    obtain ⟨g', rs', e, hr', hl', hi⟩ := ih g1 (rs0.set k rs[k]) hr1 (by
      apply List.ext_getElem (by simp [hlen0])
      intro n h1 h2
      simp only [List.getElem_map, List.getElem_set]
      split
      · subst_vars; rfl
      · have := congrArg (fun l : List Nat => l[n]?) hl
        simp only [List.length_map, List.length_set] at h1 h2
        simpa [List.getElem?_map, List.getElem?_eq_getElem (show n < rs0.length by omega), List.getElem?_eq_getElem (show n < rs.length by omega)] using this)
      (fun i hi => hk i (by simp [hi]))
    refine ⟨g', rs', e, hr', hl', fun i => ?_⟩
    rw [hi i]
    by_cases h1 : i ∈ order
    · simp [h1]
    · rw [if_neg h1, List.getElem?_set]
      by_cases h2 : i = k
      · subst h2; simp [hk0, List.getElem?_eq_getElem hkr]
      · have : ¬ k = i := fun e => h2 e.symm
        simp [this, h1, h2]

example : ∃ g, [2, 0, 1].foldlM (fun g i => Crs.writeRow g i (([[7], [], [5, 6]][i]?).getD []))
    (Crs.ofSizes (fun _ => 0) [1, 0, 2]) = some g ∧ g.row 2 = some [5, 6] ∧ g.row 1 = some [] ∧ g.row 3 = none :=
  ⟨⟨[0, 1, 1, 3], [7, 5, 6]⟩, by decide⟩

/-! ### `makeCrsGraph` -/

theorem insertEdge_keys (m : List (Nat × List Nat)) (v w x : Nat) :
    x ∈ (insertEdge m v w).map (·.1) ↔ x = v ∨ x ∈ m.map (·.1) := by
  induction m with
  | nil => simp [insertEdge]
  | cons p m ih =>
    obtain ⟨k, s⟩ := p
    simp only [insertEdge]
    split
    · subst_vars; simp
    · simp only [List.map_cons, List.mem_cons, ih]; tauto

theorem insertEdge_nodup {m : List (Nat × List Nat)} (h : (m.map (·.1)).Nodup) (v w : Nat) :
    ((insertEdge m v w).map (·.1)).Nodup := by
  induction m with
  | nil => simp [insertEdge]
  | cons p m ih =>
    obtain ⟨k, s⟩ := p
    rw [List.map_cons, List.nodup_cons] at h
    simp only [insertEdge]
    split
    · rw [List.map_cons, List.nodup_cons]; exact h
    · rw [List.map_cons, List.nodup_cons, insertEdge_keys]
      rename_i hk
      exact ⟨fun hh => hh.elim (fun e => hk e) h.1, ih h.2⟩

theorem lookup_insertEdge (m : List (Nat × List Nat)) (v w x : Nat) :
    (insertEdge m v w).lookup x = if x = v then
      some (if w ∈ (m.lookup v).getD [] then (m.lookup v).getD [] else w :: (m.lookup v).getD []) else m.lookup x := by
  induction m with
  | nil =>
    simp only [insertEdge, List.lookup_cons, List.lookup_nil]
    by_cases hx : x = v
    · simp [hx]
    · have : (x == v) = false := by simpa using hx
      simp [this, hx]
  | cons p m ih =>
    obtain ⟨k, s⟩ := p
    simp only [insertEdge]
    split
    · rename_i hk; subst hk
      by_cases hx : x = k
      · subst hx; simp
      · have : (x == k) = false := by simpa using hx
        simp [List.lookup_cons, this, hx]
    · rename_i hk
      have hvk : (v == k) = false := by simpa using fun e => hk e.symm
      by_cases hx : x = k
      · subst hx
        simp [List.lookup_cons, hk]
      · have : (x == k) = false := by simpa using hx
        simp only [List.lookup_cons, this, hvk, ih]

/-- Neighbour relation of the input edge list. -/
def Adj (undirected : Bool) (edges : List (Nat × Nat)) (v w : Nat) : Prop :=
  (v, w) ∈ edges ∨ (undirected = true ∧ (w, v) ∈ edges)

theorem edgeMap_spec (und : Bool) (edges : List (Nat × Nat)) :
    ((edgeMap und edges).map (·.1)).Nodup ∧ (∀ v, (((edgeMap und edges).lookup v).getD []).Nodup) ∧
    ∀ v w, w ∈ ((edgeMap und edges).lookup v).getD [] ↔ Adj und edges v w := by
  unfold edgeMap
  suffices H : ∀ (es : List (Nat × Nat)) (m : List (Nat × List Nat)) (P : Nat → Nat → Prop),
      (m.map (·.1)).Nodup → (∀ v, ((m.lookup v).getD []).Nodup) → (∀ v w, w ∈ (m.lookup v).getD [] ↔ P v w) →
      let r := es.foldl (fun m e => let m := insertEdge m e.1 e.2; if und then insertEdge m e.2 e.1 else m) m
      (r.map (·.1)).Nodup ∧ (∀ v, ((r.lookup v).getD []).Nodup) ∧ ∀ v w, w ∈ (r.lookup v).getD [] ↔ P v w ∨ Adj und es v w by
    have := H edges [] (fun _ _ => False) (by simp) (by simp) (by simp)
    simpa using this
  intro es
  induction es with
  | nil =>
    intro m P h1 h2 h3
    refine ⟨h1, h2, fun v w => ?_⟩
    rw [List.foldl_nil, h3]; simp [Adj]
  | cons e es ih =>
    intro m P h1 h2 h3
    obtain ⟨a, b⟩ := e
    have ins : ∀ (m : List (Nat × List Nat)) (P : Nat → Nat → Prop) (a b : Nat), (m.map (·.1)).Nodup →
        (∀ v, ((m.lookup v).getD []).Nodup) → (∀ v w, w ∈ (m.lookup v).getD [] ↔ P v w) →
        ((insertEdge m a b).map (·.1)).Nodup ∧ (∀ v, (((insertEdge m a b).lookup v).getD []).Nodup) ∧
        ∀ v w, w ∈ ((insertEdge m a b).lookup v).getD [] ↔ P v w ∨ (v = a ∧ w = b) := by
      intro m P a b h1 h2 h3
      refine ⟨insertEdge_nodup h1 a b, fun v => ?_, fun v w => ?_⟩
      · rw [lookup_insertEdge]
        split
        · rw [Option.getD_some]
          split
          · exact h2 a
          · rename_i hn; exact List.nodup_cons.2 ⟨hn, h2 a⟩
        · exact h2 v
      · rw [lookup_insertEdge]
        by_cases hv : v = a
        · subst hv
          rw [if_pos rfl, Option.getD_some]
          split
          · rename_i hm
            rw [h3 v w]
            rw [h3 v b] at hm
            constructor
            · exact .inl
            · rintro (h | ⟨_, rfl⟩)
              · exact h
              · exact hm
          · rw [List.mem_cons, h3 v w]; tauto
        · rw [if_neg hv, h3 v w]; simp [hv]
    rw [List.foldl_cons]
    obtain ⟨i1, i2, i3⟩ := ins m P a b h1 h2 h3
    cases und with
    | false =>
      obtain ⟨r1, r2, r3⟩ := ih (insertEdge m a b) _ i1 i2 i3
      refine ⟨r1, r2, fun v w => ?_⟩
      have := r3 v w
      simp only [Bool.false_eq_true, if_false] at this ⊢
      rw [this]
      simp only [Adj, List.mem_cons, Prod.mk.injEq, Bool.false_eq_true, false_and, or_false]
      tauto
    | true =>
      obtain ⟨j1, j2, j3⟩ := ins (insertEdge m a b) _ b a i1 i2 i3
      obtain ⟨r1, r2, r3⟩ := ih (insertEdge (insertEdge m a b) b a) _ j1 j2 j3
      refine ⟨r1, r2, fun v w => ?_⟩
      have := r3 v w
      simp only [if_true] at this ⊢
      rw [this]
      simp only [Adj, List.mem_cons, Prod.mk.injEq, true_and]
      tauto

theorem maxVert_ge (edges : List (Nat × Nat)) : ∀ e ∈ edges, e.1 ≤ maxVert edges ∧ e.2 ≤ maxVert edges := by
  unfold maxVert
  suffices H : ∀ (es : List (Nat × Nat)) (a : Nat), a ≤ es.foldl (fun a e => max (max a e.1) e.2) a ∧
      ∀ e ∈ es, e.1 ≤ es.foldl (fun a e => max (max a e.1) e.2) a ∧ e.2 ≤ es.foldl (fun a e => max (max a e.1) e.2) a from
    (H edges 0).2
  intro es
  induction es with
  | nil => simp
  | cons x es ih =>
    intro a
    rw [List.foldl_cons]
    obtain ⟨h1, h2⟩ := ih (max (max a x.1) x.2)
    refine ⟨by omega, fun e he => ?_⟩
    rcases List.mem_cons.1 he with rfl | he
    · omega
    · exact h2 e he

theorem lookup_of_mem {m : List (Nat × List Nat)} (h : (m.map (·.1)).Nodup) {p : Nat × List Nat} (hp : p ∈ m) :
    m.lookup p.1 = some p.2 := by
  induction m with
  | nil => simp at hp
  | cons q m ih =>
    obtain ⟨k, s⟩ := q
    rw [List.map_cons, List.nodup_cons] at h
    rcases List.mem_cons.1 hp with rfl | hp
    · simp
    · have : (p.1 == k) = false := by
        simp only [beq_eq_false_iff_ne]
        intro e
        exact h.1 (e ▸ List.mem_map_of_mem (f := (·.1)) hp)
      rw [List.lookup_cons, this]; exact ih h.2 hp

theorem mem_of_lookup {m : List (Nat × List Nat)} {k : Nat} {s : List Nat} (h : m.lookup k = some s) : (k, s) ∈ m := by
  induction m with
  | nil => simp at h
  | cons q m ih =>
    obtain ⟨k', s'⟩ := q
    rw [List.lookup_cons] at h
    split at h
    · rename_i e; simp at e h; subst e; subst h; simp
    · exact List.mem_cons_of_mem _ (ih h)

/-- **C10** (`makeCrsGraph`): for every list of edges, and whatever order the hash containers are
enumerated in, the graph has one row per vertex up to the largest one mentioned, each row is
strictly increasing and contains exactly the vertex' neighbours; other rows throw. -/
theorem C10_make_crs_graph (und : Bool) (frm dst : List Nat) (hlen : frm.length = dst.length) (junk : Nat → Nat)
    (iter : List (Nat × List Nat) → List (Nat × List Nat))
    (hiter : ∀ m, ∃ m', m'.Perm m ∧ List.Forall₂ (fun a b => a.1 = b.1 ∧ a.2.Perm b.2) (iter m) m') :
    ∃ g, makeCrsGraph und frm dst junk iter = some g ∧
      (∀ v, v < g.nRows ↔ ∃ e ∈ frm.zip dst, v ≤ e.1 ∨ v ≤ e.2) ∧
      (∀ v, g.row v = none ↔ g.nRows ≤ v) ∧
      (∀ v r, g.row v = some r → r.Pairwise (· < ·) ∧ ∀ w, w ∈ r ↔ Adj und (frm.zip dst) v w) ∧
      ∃ rs, Rep g rs := by
  unfold makeCrsGraph
  split
  · rename_i h; subst h
    refine ⟨Crs.empty, rfl, by simp [Crs.empty, Crs.nRows], ?_, ?_, [], ⟨rfl, rfl⟩⟩
    · intro v; simp [Crs.empty, Crs.nRows, Crs.row, Crs.rows]
    · intro v r hr; simp [Crs.empty, Crs.row, Crs.rows] at hr
  · rename_i hne
    simp only
    generalize hE : frm.zip dst = edges
    have hEne : edges ≠ [] := by
      rw [← hE]; intro h0
      have := congrArg List.length h0
      rw [List.length_zip, List.length_nil] at this
      apply hne; rw [← List.length_eq_zero_iff]; omega
    obtain ⟨hk, hnd, hmem⟩ := edgeMap_spec und edges
    generalize hm : edgeMap und edges = m at *
    generalize hn : maxVert edges + 1 = n
    have hrange : ∀ v s, m.lookup v = some s → s ≠ [] → v < n := by
      intro v s hv hs
      obtain ⟨w, hw⟩ := List.exists_mem_of_ne_nil s hs
      have : Adj und edges v w := by rw [← hmem, hv]; exact hw
      rcases this with h | ⟨_, h⟩
      · have := (maxVert_ge edges _ h).1; simp at this; omega
      · have := (maxVert_ge edges _ h).2; simp at this; omega
    -- all keys have a non-empty set, hence are in range
    have hkeys : ∀ p ∈ m, p.1 < n := by
      have : ∀ p ∈ edgeMap und edges, p.2 ≠ [] := by
        have hh : ∀ (m : List (Nat × List Nat)) (a b : Nat), (∀ p ∈ m, p.2 ≠ []) → ∀ p ∈ insertEdge m a b, p.2 ≠ [] := by
          intro m a b h0
          induction m with
          | nil => intro p hp; simp [insertEdge] at hp; simp [hp]
          | cons q m ih =>
            obtain ⟨k, s⟩ := q
            intro p hp
            simp only [insertEdge] at hp
            split at hp
            · rcases List.mem_cons.1 hp with rfl | hp
              · show (if b ∈ s then s else b :: s) ≠ []
                split
                · exact h0 (k, s) (by simp)
                · simp
              · exact h0 p (by simp [hp])
            · rcases List.mem_cons.1 hp with rfl | hp
              · exact h0 (k, s) (by simp)
              · exact ih (fun p hp => h0 p (by simp [hp])) p hp
        unfold edgeMap
        suffices H : ∀ (es : List (Nat × Nat)) (m : List (Nat × List Nat)), (∀ p ∈ m, p.2 ≠ []) →
            ∀ p ∈ es.foldl (fun m e => let m := insertEdge m e.1 e.2; if und then insertEdge m e.2 e.1 else m) m, p.2 ≠ [] from
          H edges [] (by simp)
        intro es
        induction es with
        | nil => intro m h0; exact h0
        | cons e es ih =>
          intro m h0
          rw [List.foldl_cons]
          apply ih
          cases und
          · exact hh m _ _ h0
          · exact hh _ _ _ (hh m _ _ h0)
      rw [hm] at this
      intro p hp
      exact hrange p.1 p.2 (lookup_of_mem hk hp) (this p hp)
    -- the target rows
    let rs : List (List Nat) := (List.range n).map fun v => Std.sort ((m.lookup v).getD [])
    have hrsl : rs.length = n := by simp [rs]
    have hdeg : (List.range n).map (fun v => ((m.lookup v).getD []).length) = rs.map List.length := by
      simp [rs, Std.length_sort]
    rw [hdeg]
    obtain ⟨m', hperm, hf⟩ := hiter m
    -- rewrite the fold over the enumeration as a fold over keys, rows without entry are empty
    have hwrite : ∀ (it m'' : List (Nat × List Nat)) (g : Crs Nat), (∀ p ∈ m'', p ∈ m) →
        List.Forall₂ (fun a b => a.1 = b.1 ∧ a.2.Perm b.2) it m'' →
        it.foldlM (fun g p => g.writeRow p.1 (Std.sort p.2)) g =
          (m''.map (·.1)).foldlM (fun g i => g.writeRow i ((rs[i]?).getD [])) g := by
      intro it
      induction it with
      | nil => intro m'' g _ hf; cases hf; rfl
      | cons p it ih =>
        intro m'' g hsub hf
        cases hf with
        | cons h1 h2 =>
          rename_i q m''
          rw [List.map_cons, List.foldlM_cons, List.foldlM_cons]
          have hq := hsub q (by simp)
          have : (rs[q.1]?).getD [] = Std.sort p.2 := by
            rw [List.getElem?_map, List.getElem?_range (hkeys q hq), Option.map_some, Option.getD_some,
              lookup_of_mem hk hq, Option.getD_some]
            exact (Std.sort_congr h1.2).symm
          rw [h1.1, this]
          congr 1
          funext g'
          exact ih m'' g' (fun p hp => hsub p (by simp [hp])) h2
    rw [hwrite _ _ _ (fun p hp => hperm.mem_iff.1 hp) hf]
    -- append the missing (empty) rows to the order
    let miss := (List.range n).filter fun v => v ∉ m'.map (·.1)
    obtain ⟨g2, e2, hn2, _, hrow, _, hrep⟩ := C10_rows_roundtrip junk rs (m'.map (·.1) ++ miss) (by
      intro i
      rw [List.mem_append, hrsl]
      constructor
      · rintro (h | h)
        · obtain ⟨p, hp, rfl⟩ := List.mem_map.1 h
          exact hkeys p (hperm.mem_iff.1 hp)
        · exact List.mem_range.1 (List.mem_filter.1 h).1
      · intro h
        by_cases hi : i ∈ m'.map (·.1)
        · exact .inl hi
        · exact .inr (List.mem_filter.2 ⟨List.mem_range.2 h, by simpa using hi⟩))
    rw [List.foldlM_append] at e2
    obtain ⟨g1, e1, e2⟩ := Option.bind_eq_some_iff.1 e2
    have hsame : g1 = g2 := by
      have hwe : ∀ (ms : List Nat) (g g' : Crs Nat), (∀ i ∈ ms, (rs[i]?).getD [] = []) →
          ms.foldlM (fun g i => g.writeRow i ((rs[i]?).getD [])) g = some g' → g = g' := by
        intro ms
        induction ms with
        | nil => intro g g' _ h; exact Option.some.inj h
        | cons i ms ih =>
          intro g g' h0 h
          rw [List.foldlM_cons, h0 i (by simp)] at h
          obtain ⟨g'', h1, h2⟩ := Option.bind_eq_some_iff.1 h
          have : g = g'' := by
            unfold Crs.writeRow at h1
            split at h1
            · rw [if_pos (by simp)] at h1
              have := Option.some.inj h1
              rw [← this]
              simp [Verif.writeAt]
            · cases h1
          subst this
          exact ih g g' (fun i hi => h0 i (by simp [hi])) h2
      apply hwe miss g1 g2 _ e2
      intro i hi
      have hi' := List.mem_filter.1 hi
      have hnone : m.lookup i = none := by
        cases h : m.lookup i with
        | none => rfl
        | some s =>
          exfalso
          have : i ∈ m'.map (·.1) := List.mem_map.2 ⟨(i, s), hperm.mem_iff.2 (mem_of_lookup h), rfl⟩
          simp at hi'
          obtain ⟨p, hp, e⟩ := List.mem_map.1 this
          exact hi'.2 p.2 (by rw [← e]; exact hp)
      simp [rs, List.getElem?_range (List.mem_range.1 hi'.1), hnone, Std.sort]
    subst hsame
    refine ⟨g1, e1, ?_, ?_, ?_, rs, hrep⟩
    · intro v
      rw [hn2, hrsl, ← hn]
      constructor
      · intro hv
        -- the maximum is attained
        have : ∀ (es : List (Nat × Nat)) (a : Nat), es.foldl (fun a e => max (max a e.1) e.2) a = a ∨
            ∃ e ∈ es, es.foldl (fun a e => max (max a e.1) e.2) a = e.1 ∨ es.foldl (fun a e => max (max a e.1) e.2) a = e.2 := by
          intro es
          induction es with
          | nil => intro a; exact .inl rfl
          | cons x es ih =>
            intro a
            rw [List.foldl_cons]
            rcases ih (max (max a x.1) x.2) with h | ⟨e, he, h⟩
            · rw [h]
              rcases Nat.le_total (max a x.1) x.2 with h1 | h1
              · exact .inr ⟨x, by simp, .inr (by omega)⟩
              · rcases Nat.le_total a x.1 with h2 | h2
                · exact .inr ⟨x, by simp, .inl (by omega)⟩
                · exact .inl (by omega)
            · exact .inr ⟨e, by simp [he], h⟩
        rcases this edges 0 with h | ⟨e, he, h⟩
        · have h : maxVert edges = 0 := h
          obtain ⟨e, he⟩ := List.exists_mem_of_ne_nil edges hEne
          exact ⟨e, he, .inl (by omega)⟩
        · have hv' : v ≤ maxVert edges := by omega
          refine ⟨e, he, ?_⟩
          rcases h with h | h
          · left; rw [← h]; exact hv'
          · right; rw [← h]; exact hv'
      · rintro ⟨e, he, h⟩
        have := maxVert_ge edges e he
        omega
    · intro v
      rw [hrow v, hn2, List.getElem?_eq_none_iff]
    · intro v r hr
      rw [hrow v] at hr
      simp only [rs] at hr
      rw [List.getElem?_map] at hr
      obtain ⟨v', hv', rfl⟩ := Option.map_eq_some_iff.1 hr
      have : v' = v := by
        have hlt := (List.getElem?_eq_some_iff.1 hv').1
        rw [List.length_range] at hlt
        rw [List.getElem?_range hlt] at hv'
        exact (Option.some.inj hv').symm
      subst this
      refine ⟨Std.sort_strict (hnd v'), fun w => ?_⟩
      rw [Std.mem_sort]
      exact hmem v' w

/-- **C10** (symmetry): an undirected graph lists `w` among the neighbours of `v` exactly if it lists
`v` among those of `w`. -/
theorem C10_undirected_symmetric (frm dst : List Nat) (hlen : frm.length = dst.length) (junk : Nat → Nat)
    (iter : List (Nat × List Nat) → List (Nat × List Nat))
    (hiter : ∀ m, ∃ m', m'.Perm m ∧ List.Forall₂ (fun a b => a.1 = b.1 ∧ a.2.Perm b.2) (iter m) m')
    (g : Crs Nat) (hg : makeCrsGraph true frm dst junk iter = some g) (v w : Nat) (rv rw : List Nat)
    (hv : g.row v = some rv) (hw : g.row w = some rw) : w ∈ rv ↔ v ∈ rw := by
  obtain ⟨g', e, _, _, h, _⟩ := C10_make_crs_graph true frm dst hlen junk iter hiter
  rw [hg] at e
  obtain rfl := Option.some.inj e
  rw [(h v rv hv).2 w, (h w rw hw).2 v]
  simp only [Adj, true_and]
  tauto

/-- A hash map enumerated backwards, sets enumerated backwards. -/
example : let iter := fun m : List (Nat × List Nat) => m.reverse.map fun p => (p.1, p.2.reverse)
    (∀ m, ∃ m', m'.Perm m ∧ List.Forall₂ (fun a b => a.1 = b.1 ∧ a.2.Perm b.2) (iter m) m') ∧
    makeCrsGraph true [0, 3, 0, 3] [3, 1, 3, 3] (fun _ => 99) iter = some ⟨[0, 1, 2, 2, 5], [3, 3, 0, 1, 3]⟩ := by
  refine ⟨fun m => ⟨m.reverse, List.reverse_perm m, ?_⟩, by decide⟩
  rw [List.forall₂_map_left_iff]
  exact List.forall₂_same.2 fun p _ => ⟨rfl, List.reverse_perm _⟩

end Verif.Graph
