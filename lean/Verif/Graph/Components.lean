import Verif.Graph.Props

/-! # Property C11: depth-first search and connected components -/
namespace Verif.Graph

/-- Edge relation of a graph. -/
def Edge (g : Crs Nat) (a b : Nat) : Prop := ∃ r, g.row a = some r ∧ b ∈ r

/-- A path of edges leads from `a` to `b`. -/
def Reach (g : Crs Nat) : Nat → Nat → Prop := Relation.ReflTransGen (Edge g)

/-- A well-formed graph: it stores a list of rows whose entries are vertices. -/
structure Valid (g : Crs Nat) (rs : List (List Nat)) : Prop where
  rep : Rep g rs
  inRange : ∀ r ∈ rs, ∀ w ∈ r, w < rs.length

theorem Valid.nRows {g rs} (h : Valid g rs) : g.nRows = rs.length := by
  unfold Crs.nRows; rw [h.rep.offs, Std.length_offsets]; simp

theorem Valid.nEntries {g rs} (h : Valid g rs) : g.nEntries = (rs.map List.length).sum := by
  unfold Crs.nEntries; rw [h.rep.adj, List.length_flatten]

theorem Valid.edge_lt {g rs} (h : Valid g rs) {a b : Nat} (e : Edge g a b) : b < rs.length := by
  obtain ⟨r, hr, hb⟩ := e
  rw [h.rep.row] at hr
  exact h.inRange r (List.mem_of_getElem? hr) b hb

theorem Valid.reach_lt {g rs} (h : Valid g rs) {a b : Nat} (e : Reach g a b) (ha : a < rs.length) : b < rs.length := by
  induction e with
  | refl => exact ha
  | tail _ e _ => exact h.edge_lt e

/-- Out-degrees of the vertices not yet visited. -/
def potential (rs : List (List Nat)) (visited : List Nat) : Nat :=
  ((List.range rs.length).map fun v => if v ∈ visited then 0 else ((rs[v]?).getD []).length).sum

theorem potential_nil (rs : List (List Nat)) : potential rs [] = (rs.map List.length).sum := by
  unfold potential
  congr 1
  apply List.ext_getElem (by simp)
  intro n h1 h2
  simp at h1 h2
  simp [List.getElem?_eq_getElem h1]

theorem potential_visit (rs : List (List Nat)) (visited : List Nat) (c : Nat) (hc : c < rs.length) (hv : c ∉ visited) :
    potential rs (visited ++ [c]) + rs[c].length = potential rs visited := by
  unfold potential
  have : ∀ n, ((List.range n).map fun v => if v ∈ visited ++ [c] then 0 else ((rs[v]?).getD []).length).sum +
      (if c < n then rs[c].length else 0) = ((List.range n).map fun v => if v ∈ visited then 0 else ((rs[v]?).getD []).length).sum := by
    intro n
    induction n with
    | zero => simp
    | succ n ih =>
      rw [List.range_succ, List.map_append, List.sum_append, List.map_append, List.sum_append, ← ih]
      simp only [List.map_cons, List.map_nil, List.sum_cons, List.sum_nil, Nat.add_zero]
      generalize ((List.range n).map fun v => if v ∈ visited ++ [c] then 0 else ((rs[v]?).getD []).length).sum = A
      by_cases h : n = c
      · subst h
        have h1 : (if n ∈ visited ++ [n] then 0 else ((rs[n]?).getD []).length) = 0 := if_pos (by simp)
        have h2 : (if n < n then rs[n].length else 0) = 0 := if_neg (by omega)
        have h3 : (if n < n + 1 then rs[n].length else 0) = rs[n].length := if_pos (by omega)
        have h4 : (if n ∈ visited then 0 else ((rs[n]?).getD []).length) = rs[n].length := by
          rw [if_neg hv, List.getElem?_eq_getElem hc]; rfl
        rw [h1, h2, h3, h4]
      · have h1 : (n ∈ visited ++ [c]) ↔ n ∈ visited := by simp [h]
        have h2 : (c < n + 1) ↔ c < n := by omega
        simp only [h1, h2]; omega
  have := this rs.length
  rw [if_pos hc] at this
  exact this

/-- Loop invariant of the search. -/
structure Inv (g : Crs Nat) (start : Nat) (visited stack : List Nat) : Prop where
  nodup : visited.Nodup
  reachV : ∀ v ∈ visited, Reach g start v
  reachS : ∀ v ∈ stack, Reach g start v
  closed : ∀ v ∈ visited, ∀ w, Edge g v w → w ∈ visited ∨ w ∈ stack
  hasStart : start ∈ visited ∨ start ∈ stack
  head : ∀ v, visited.head? = some v → v = start
  first : visited = [] → stack = [start]

theorem dfsLoop_spec {g rs} (hg : Valid g rs) (start : Nat) (hs : start < rs.length) (fuel : Nat) :
    ∀ visited stack, Inv g start visited stack → stack.length + potential rs visited ≤ fuel →
    ∃ out, dfsLoop g fuel visited stack = some out ∧ Inv g start out [] := by
  induction fuel with
  | zero =>
    intro visited stack hi hf
    cases stack with
    | nil => exact ⟨visited, rfl, hi⟩
    | cons c rest => simp at hf
  | succ fuel ih =>
    intro visited stack hi hf
    cases stack with
    | nil => exact ⟨visited, rfl, hi⟩
    | cons c rest =>
      simp only [dfsLoop, dfsStep]
      by_cases hc : c ∈ visited
      · rw [if_pos hc]
        simp only
        apply ih visited rest
        · refine ⟨hi.nodup, hi.reachV, fun v hv => hi.reachS v (by simp [hv]), ?_, ?_, hi.head, ?_⟩
          · intro v hv w e
            rcases hi.closed v hv w e with h | h
            · exact .inl h
            · rcases List.mem_cons.1 h with rfl | h
              · exact .inl hc
              · exact .inr h
          · rcases hi.hasStart with h | h
            · exact .inl h
            · rcases List.mem_cons.1 h with rfl | h
              · exact .inl hc
              · exact .inr h
          · rintro rfl; simp at hc
        · simp at hf; omega
      · rw [if_neg hc]
        have hrc := hi.reachS c (by simp)
        have hcl := hg.reach_lt hrc hs
        have hrow : g.row c = some rs[c] := by rw [hg.rep.row, List.getElem?_eq_getElem hcl]
        rw [hrow]
        simp only
        apply ih
        · refine ⟨?_, ?_, ?_, ?_, ?_, ?_, by simp⟩
          · rw [List.nodup_append]
            refine ⟨hi.nodup, by simp, ?_⟩
            intro a ha b hb; simp at hb; subst hb; rintro rfl; exact hc ha
          · intro v hv
            rcases List.mem_append.1 hv with h | h
            · exact hi.reachV v h
            · simp at h; subst h; exact hrc
          · intro v hv
            rcases List.mem_append.1 hv with h | h
            · exact hrc.tail ⟨_, hrow, (List.mem_filter.1 h).1⟩
            · exact hi.reachS v (by simp [h])
          · intro v hv w e
            rcases List.mem_append.1 hv with h | h
            · rcases hi.closed v h w e with h' | h'
              · exact .inl (by simp [h'])
              · rcases List.mem_cons.1 h' with rfl | h'
                · exact .inl (by simp)
                · exact .inr (by simp [h'])
            · simp at h; subst h
              obtain ⟨r, hr, hw⟩ := e
              rw [hrow] at hr
              obtain rfl := Option.some.inj hr
              by_cases hwv : w ∈ visited ++ [v]
              · exact .inl hwv
              · exact .inr (List.mem_append.2 (.inl (List.mem_filter.2 ⟨hw, by simpa using hwv⟩)))
          · rcases hi.hasStart with h | h
            · exact .inl (by simp [h])
            · rcases List.mem_cons.1 h with rfl | h
              · exact .inl (by simp)
              · exact .inr (by simp [h])
          · intro v hv
            cases visited with
            | nil =>
              have := hi.first rfl
              simp at hv this
              rw [← hv]; exact this.1
            | cons a l => exact hi.head v (by simpa using hv)
        · have hp := potential_visit rs visited c hcl hc
          have hfl : (rs[c].filter fun w => decide (w ∉ visited ++ [c])).length ≤ rs[c].length := List.length_filter_le _ _
          simp only [List.length_append, List.length_cons] at hf ⊢
          omega

/-- **C11** (depth-first search): for every valid graph and start vertex the search terminates
without an out-of-range access, calls `op` first on the start vertex, exactly once on every
vertex reachable from it, and on no other. -/
theorem C11_depth_first_search (g : Crs Nat) (rs : List (List Nat)) (hg : Valid g rs) (start : Nat)
    (hs : start < rs.length) :
    ∃ out, depthFirstSearch g start = some out ∧ out.Nodup ∧ out.head? = some start ∧
      ∀ v, v ∈ out ↔ Reach g start v := by
  have hinit : Inv g start [] [start] :=
    ⟨List.nodup_nil, by simp, fun v hv => by simp at hv; subst hv; exact .refl, by simp, .inr (by simp), by simp, fun _ => rfl⟩
  obtain ⟨out, e, hi⟩ := dfsLoop_spec hg start hs (g.nEntries + 1) [] [start] hinit (by
    rw [potential_nil, hg.nEntries]; simp; omega)
  have hstart : start ∈ out := by simpa using hi.hasStart
  refine ⟨out, e, hi.nodup, ?_, fun v => ⟨hi.reachV v, fun hr => ?_⟩⟩
  · cases out with
    | nil => simp at hstart
    | cons a l => rw [hi.head a rfl]; rfl
  · induction hr with
    | refl => exact hstart
    | tail _ e ih => simpa using hi.closed _ ih _ e

/-- **C11** (out of range): a start vertex that is not a vertex of the graph throws. -/
theorem C11_invalid_start (g : Crs Nat) (rs : List (List Nat)) (hg : Valid g rs) (start : Nat)
    (hs : rs.length ≤ start) : depthFirstSearch g start = none := by
  have : g.row start = none := by rw [hg.rep.row, List.getElem?_eq_none hs]
  unfold depthFirstSearch dfsLoop dfsStep
  simp [this]

/-- A path-like graph with a cycle and an isolated vertex. -/
example : Valid (⟨[0, 2, 4, 6, 6], [1, 2, 0, 2, 0, 1]⟩ : Crs Nat) [[1, 2], [0, 2], [0, 1], []] ∧
    depthFirstSearch ⟨[0, 2, 4, 6, 6], [1, 2, 0, 2, 0, 1]⟩ 1 = some [1, 0, 2] :=
  ⟨⟨⟨by decide, by decide⟩, by decide⟩, by decide⟩

/-! ## Components -/

/-- The graph is undirected. -/
def Symm (g : Crs Nat) : Prop := ∀ a b, Edge g a b → Edge g b a

theorem Reach.symm {g} (h : Symm g) {a b : Nat} (e : Reach g a b) : Reach g b a := by
  induction e with
  | refl => exact .refl
  | tail _ e ih => exact Relation.ReflTransGen.head (h _ _ e) ih

theorem compLoop_spec {g rs} (hg : Valid g rs) (hsym : Symm g) (vs : List Nat) :
    ∀ (done visited : List Nat) (acc : List (List Nat)), done ++ vs = List.range rs.length →
    (∀ v, v ∈ visited ↔ ∃ c ∈ acc, v ∈ c) → (∀ v ∈ done, v ∈ visited) →
    (∀ c ∈ acc, ∃ v ∈ done, (∀ w, w ∈ c ↔ Reach g v w) ∧ c.Pairwise (· < ·) ∧ c.head? = some v) →
    (acc.map (·.head?)).Pairwise (fun a b => ∀ x y, a = some x → b = some y → x < y) →
    ∃ out, compLoop g vs visited acc = some out ∧
      (∀ v < rs.length, ∃ c ∈ out, v ∈ c) ∧
      (∀ c ∈ out, ∃ v, v < rs.length ∧ (∀ w, w ∈ c ↔ Reach g v w) ∧ c.Pairwise (· < ·) ∧ c.head? = some v) ∧
      (out.map (·.head?)).Pairwise (fun a b => ∀ x y, a = some x → b = some y → x < y) := by
  induction vs with
  | nil =>
    intro done visited acc hd hv hdone hacc hpw
    rw [List.append_nil] at hd
    refine ⟨acc, rfl, fun v hlt => ?_, fun c hc => ?_, hpw⟩
    · exact (hv v).1 (hdone v (by rw [hd]; exact List.mem_range.2 hlt))
    · obtain ⟨v, hv1, h⟩ := hacc c hc
      exact ⟨v, List.mem_range.1 (hd ▸ hv1), h⟩
  | cons v vs ih =>
    intro done visited acc hd hv hdone hacc hpw
    have hsplit : (done ++ [v]) ++ vs = List.range rs.length := by simp [← hd]
    have hvlt : v < rs.length := by
      rw [← List.mem_range, ← hd]; simp
    have hdv : ∀ d ∈ done, d < v := by
      have hp : (done ++ v :: vs).Pairwise (· < ·) := by rw [hd]; exact List.pairwise_lt_range
      intro d hdm
      exact (List.pairwise_append.1 hp).2.2 d hdm v (by simp)
    have hall : ∀ u, u < v → u ∈ done := by
      intro u hu
      have hp : (done ++ v :: vs).Pairwise (· < ·) := by rw [hd]; exact List.pairwise_lt_range
      have : u ∈ done ++ v :: vs := by rw [hd]; exact List.mem_range.2 (by omega)
      rcases List.mem_append.1 this with h | h
      · exact h
      · rcases List.mem_cons.1 h with rfl | h
        · omega
        · have := (List.pairwise_cons.1 (List.pairwise_append.1 hp).2.1).1 u h; omega
    simp only [compLoop]
    by_cases hvis : v ∈ visited
    · rw [if_pos hvis]
      apply ih (done ++ [v]) visited acc hsplit hv
      · intro w hw
        rcases List.mem_append.1 hw with h | h
        · exact hdone w h
        · simp at h; subst h; exact hvis
      · intro c hc
        obtain ⟨w, hw, h⟩ := hacc c hc
        exact ⟨w, by simp [hw], h⟩
      · exact hpw
    · rw [if_neg hvis]
      obtain ⟨c, e, hnd, _, hm⟩ := C11_depth_first_search g rs hg v hvlt
      rw [e]
      simp only
      have hhead : (Std.sort c).head? = some v := by
        have hvc : v ∈ Std.sort c := Std.mem_sort.2 ((hm v).2 .refl)
        cases hsc : Std.sort c with
        | nil => rw [hsc] at hvc; simp at hvc
        | cons x l =>
          have hstr := Std.sort_strict hnd
          rw [hsc] at hstr hvc
          rcases List.mem_cons.1 hvc with rfl | h
          · rfl
          · -- x < v would be visited already
            exfalso
            have hxv := (List.pairwise_cons.1 hstr).1 v h
            have hxd := hall x hxv
            obtain ⟨c', hc', hxc'⟩ := (hv x).1 (hdone x hxd)
            have hx : x ∈ c := by
              rw [← Std.mem_sort, hsc]; simp
            obtain ⟨u, _, hu, _⟩ := hacc c' hc'
            have : Reach g u v := ((hu x).1 hxc').trans (Reach.symm hsym ((hm x).1 hx))
            exact hvis ((hv v).2 ⟨c', hc', (hu v).2 this⟩)
      apply ih (done ++ [v]) (visited ++ c) (acc ++ [Std.sort c]) hsplit
      · intro w
        rw [List.mem_append, hv w]
        constructor
        · rintro (⟨c', h1, h2⟩ | h)
          · exact ⟨c', by simp [h1], h2⟩
          · exact ⟨Std.sort c, by simp, Std.mem_sort.2 h⟩
        · rintro ⟨c', h1, h2⟩
          rcases List.mem_append.1 h1 with h1 | h1
          · exact .inl ⟨c', h1, h2⟩
          · simp at h1; subst h1; exact .inr (Std.mem_sort.1 h2)
      · intro w hw
        rcases List.mem_append.1 hw with h | h
        · exact List.mem_append.2 (.inl (hdone w h))
        · simp at h; subst h; exact List.mem_append.2 (.inr ((hm w).2 .refl))
      · intro c' hc'
        rcases List.mem_append.1 hc' with h | h
        · obtain ⟨w, hw, h⟩ := hacc c' h
          exact ⟨w, by simp [hw], h⟩
        · simp at h; subst h
          exact ⟨v, by simp, fun w => by rw [Std.mem_sort]; exact hm w, Std.sort_strict hnd, hhead⟩
      · rw [List.map_append, List.pairwise_append]
        refine ⟨hpw, by simp, ?_⟩
        intro a ha b hb x y hax hby
        simp at hb
        rw [hb, hhead] at hby
        obtain rfl := Option.some.inj hby
        obtain ⟨c', hc', rfl⟩ := List.mem_map.1 ha
        obtain ⟨w, hw, _, _, hh⟩ := hacc c' hc'
        rw [hh] at hax
        obtain rfl := Option.some.inj hax
        exact hdv _ hw

/-- **C11** (components): for every undirected graph the classes are sorted and duplicate-free, every
vertex lies in exactly one of them, two vertices lie in the same class exactly if a path joins
them, and the classes are ordered by their least vertex. -/
theorem C11_components (g : Crs Nat) (rs : List (List Nat)) (hg : Valid g rs) (hsym : Symm g) :
    ∃ out, getComponents g = some out ∧
      (∀ c ∈ out, c ≠ [] ∧ c.Pairwise (· < ·) ∧ ∀ v ∈ c, v < rs.length) ∧
      (∀ v < rs.length, ∃! i, ∃ h : i < out.length, v ∈ out[i]) ∧
      (∀ c ∈ out, ∀ a ∈ c, ∀ b, b ∈ c ↔ Reach g a b) ∧
      out.Pairwise (fun c d => ∀ x y, c.head? = some x → d.head? = some y → x < y) := by
  obtain ⟨out, e, hcov, hcls, hpw⟩ := compLoop_spec hg hsym (List.range rs.length) [] [] [] (by simp) (by simp) (by simp)
    (by simp) (by simp)
  have hclass : ∀ c ∈ out, ∀ a ∈ c, ∀ b, b ∈ c ↔ Reach g a b := by
    intro c hc a ha b
    obtain ⟨v, _, hm, _, _⟩ := hcls c hc
    rw [hm b]
    have hva := (hm a).1 ha
    exact ⟨fun h => (Reach.symm hsym hva).trans h, fun h => hva.trans h⟩
  have hpw' : out.Pairwise (fun c d => ∀ x y, c.head? = some x → d.head? = some y → x < y) := by
    rw [List.pairwise_map] at hpw; exact hpw
  refine ⟨out, by unfold getComponents; rw [hg.nRows]; exact e, fun c hc => ?_, fun v hv => ?_, hclass, hpw'⟩
  · obtain ⟨v, hvlt, hm, hp, hh⟩ := hcls c hc
    refine ⟨by rintro rfl; simp at hh, hp, fun w hw => hg.reach_lt ((hm w).1 hw) hvlt⟩
  · obtain ⟨c, hc, hvc⟩ := hcov v hv
    obtain ⟨i, hi, rfl⟩ := List.mem_iff_getElem.1 hc
    refine ⟨i, ⟨hi, hvc⟩, ?_⟩
    rintro j ⟨hj, hvj⟩
    -- both classes have the same head, and heads are strictly increasing
    obtain ⟨u, _, hm, hpu, hu⟩ := hcls _ (List.getElem_mem hi)
    obtain ⟨w, _, hm', hpw2, hw⟩ := hcls _ (List.getElem_mem hj)
    have heq : out[i] = out[j] := by
      apply Std.eq_of_mem_of_strict hpu hpw2
      intro x
      rw [hclass _ (List.getElem_mem hi) v hvc x, hclass _ (List.getElem_mem hj) v hvj x]
    have : u = w := by rw [heq, hw] at hu; exact (Option.some.inj hu).symm
    rcases Nat.lt_trichotomy i j with hlt | heq' | hgt
    · have := List.pairwise_iff_getElem.1 hpw' i j hi hj hlt u w hu hw; omega
    · exact heq'.symm
    · have := List.pairwise_iff_getElem.1 hpw' j i hj hi hgt w u hw hu; omega

example : Symm (⟨[0, 1, 2, 3, 4], [2, 3, 0, 1]⟩ : Crs Nat) ∧
    getComponents ⟨[0, 1, 2, 3, 4], [2, 3, 0, 1]⟩ = some [[0, 2], [1, 3]] := by
  refine ⟨?_, by decide⟩
  have hr : Rep (⟨[0, 1, 2, 3, 4], [2, 3, 0, 1]⟩ : Crs Nat) [[2], [3], [0], [1]] := ⟨by decide, by decide⟩
  rintro a b ⟨r, h1, h2⟩
  unfold Edge
  rw [hr.row] at h1 ⊢
  have ha : a < 4 := by
    have := (List.getElem?_eq_some_iff.1 h1).1; simpa using this
  interval_cases a <;> simp at h1 <;> subst h1 <;> simp at h2 <;> subst h2 <;> simp

/-- **C11** for graphs made by the library: the components of an undirected graph built from an edge
list are its connected components. -/
theorem C11_components_of_edges (frm dst : List Nat) (hlen : frm.length = dst.length) (junk : Nat → Nat)
    (iter : List (Nat × List Nat) → List (Nat × List Nat))
    (hiter : ∀ m, ∃ m', m'.Perm m ∧ List.Forall₂ (fun a b => a.1 = b.1 ∧ a.2.Perm b.2) (iter m) m')
    (g : Crs Nat) (hg : makeCrsGraph true frm dst junk iter = some g) :
    ∃ out, getComponents g = some out ∧
      (∀ v, (∃ c ∈ out, v ∈ c) ↔ ∃ e ∈ frm.zip dst, v ≤ e.1 ∨ v ≤ e.2) ∧
      (∀ c ∈ out, ∀ a ∈ c, ∀ b, b ∈ c ↔ Relation.ReflTransGen (Adj true (frm.zip dst)) a b) ∧
      ∀ c ∈ out, c ≠ [] ∧ c.Pairwise (· < ·) := by
  obtain ⟨g', e, hn, hnone, hrow, rs, hrep⟩ := C10_make_crs_graph true frm dst hlen junk iter hiter
  rw [hg] at e
  obtain rfl := Option.some.inj e
  have hnr : g.nRows = rs.length := by
    unfold Crs.nRows; rw [hrep.offs, Std.length_offsets]; simp
  have hedge : ∀ a b, Edge g a b ↔ Adj true (frm.zip dst) a b := by
    intro a b
    constructor
    · rintro ⟨r, hr, hb⟩; exact ((hrow a r hr).2 b).1 hb
    · intro h
      have ha : a < g.nRows := by
        rw [hn]
        rcases h with h | ⟨_, h⟩
        · exact ⟨_, h, .inl (le_refl _)⟩
        · exact ⟨_, h, .inr (le_refl _)⟩
      cases hr : g.row a with
      | none => rw [hnone] at hr; omega
      | some r => exact ⟨r, hr, ((hrow a r hr).2 b).2 h⟩
  have hv : Valid g rs := by
    refine ⟨hrep, fun r hr w hw => ?_⟩
    obtain ⟨a, ha, rfl⟩ := List.mem_iff_getElem.1 hr
    have : Adj true (frm.zip dst) a w := (hedge a w).1 ⟨_, by rw [hrep.row, List.getElem?_eq_getElem ha], hw⟩
    rw [← hnr, hn]
    rcases this with h | ⟨_, h⟩
    · exact ⟨_, h, .inr (le_refl _)⟩
    · exact ⟨_, h, .inl (le_refl _)⟩
  have hsym : Symm g := by
    intro a b h
    rw [hedge] at h ⊢
    rcases h with h | ⟨_, h⟩
    · exact .inr ⟨rfl, h⟩
    · exact .inl h
  obtain ⟨out, e, h1, h2, h3, _⟩ := C11_components g rs hv hsym
  refine ⟨out, e, fun v => ?_, fun c hc a ha b => ?_, fun c hc => ⟨(h1 c hc).1, (h1 c hc).2.1⟩⟩
  · rw [← hn, hnr]
    constructor
    · rintro ⟨c, hc, hvc⟩; exact (h1 c hc).2.2 v hvc
    · intro h
      obtain ⟨i, ⟨hi, hvi⟩, _⟩ := h2 v h
      exact ⟨_, List.getElem_mem hi, hvi⟩
  · rw [h3 c hc a ha b]
    unfold Reach
    have : Edge g = Adj true (frm.zip dst) := by
      funext x y; exact propext (hedge x y)
    rw [this]

end Verif.Graph
