import Verif.Dual.Lemmas
import Verif.Gen.Props

/-! # Property C143: the dual graph of a mesh -/
namespace Verif.Dual
open Verif Verif.Elem Verif.Mesh Verif.Convert Verif.Gen Verif.Pipeline

variable {maxId N : Nat} {metis : Nat → Int → List Nat → List Nat → Option (List Nat × List Nat)} {m : DomMap} {owned shared : List Nat}

/-- **C143**.  For a mesh with nodes, not more than the greatest `idx_t`, METIS is given valid input, the graph is computed, reading the neighbours of an element stays within the arrays, and elements with two common nodes are neighbours. -/
theorem C143_dual_partial (hM : MetisOk maxId metis) (h : Whole maxId m N) (hN : 0 < N) (hmax : N ≤ maxId) : ∃ g, computeDual maxId metis m (List.range N) [] = .ok g ∧ IsDual m g := by
  obtain ⟨xadj, adjncy, h1, O⟩ := hM _ _ _ _ (h.metisIn hmax)
  obtain ⟨u1, u2⟩ := unpartitioned_range hN
  have ht : toMetis (findId m) (allEls m).length = _ := toMetis_eq (ns := nodesOf m) _ fun i hi => by
    obtain ⟨e, he, rfl⟩ := h.at hi
    exact ⟨e, h.find he, (h.nodesOf he).symm⟩
  refine ⟨⟨xadj, adjncy, (allEls m).length⟩, ?_, ?_⟩
  · unfold computeDual
    rw [if_pos u1, u2]
    dsimp only
    rw [if_pos ⟨h.els, by have := h.nodes; omega, h.topo⟩, ht]
    dsimp only
    rw [List.length_range, idxCast, if_pos hmax, h1]
  · intro e he
    have hi := h.id_lt he
    refine ⟨_, adjacent_eq O.csr hi, ?_, ?_⟩
    · intro j hj
      exact h.at (O.range j (List.mem_of_mem_drop (List.mem_of_mem_take hj)))
    · rintro e' he' hne ⟨u, v, huv, c1, c2, c3, c4⟩
      refine O.common _ _ hi (h.id_lt he') (Ne.symm hne) ⟨u, v, huv, ?_⟩
      rw [seg_offs _ hi, seg_offs _ (h.id_lt he'), h.nodesOf he, h.nodesOf he']
      exact ⟨c1, c2, c3, c4⟩

/-- **C143** (refused).  Parts of meshes, numbers beyond the range of METIS' integers, and missing element ids end in exceptions. -/
theorem C143_refused (hne : owned ≠ []) :
    ((shared ≠ [] ∨ owned.getLast? ≠ some (owned.length - 1)) → computeDual maxId metis m owned shared = .throw) ∧
      ((maxId < (allEls m).length + 1 ∨ (∃ l, owned.getLast? = some l ∧ maxId < l) ∨ maxId < ((allEls m).map fun e => e.nodes.length).sum) → computeDual maxId metis m owned shared = .throw) ∧
      ((∃ i, i < (allEls m).length ∧ findId m i = none) → computeDual maxId metis m owned shared = .throw) := by
  obtain ⟨l, hl⟩ : ∃ l, owned.getLast? = some l := ⟨_, List.getLast?_eq_some_getLast hne⟩
  have hlen : 0 < owned.length := List.length_pos_iff.2 hne
  refine ⟨fun h => ?_, fun h => ?_, ?_⟩
  · unfold computeDual
    rw [if_neg]
    unfold isUnpartitioned
    rw [hl] at h ⊢
    rcases h with h | h
    · have : shared.isEmpty = false := by cases shared with | nil => exact absurd rfl h | cons _ _ => rfl
      rw [this]
      simp [hne]
    · have : l + 1 ≠ owned.length := fun he => h (by rw [← he]; rfl)
      simp [this, hne]
  · unfold computeDual
    split
    · rw [hl]
      dsimp only
      rw [if_neg]
      rintro ⟨a1, a2, a3⟩
      rcases h with h | ⟨l', h, h'⟩ | h
      · omega
      · rw [hl] at h; cases h; omega
      · omega
    · rfl
  · rintro ⟨i, hi, hf⟩
    have ht : ∀ n, i < n → toMetis (findId m) n = none := by
      intro n
      induction n with
      | zero => intro h; omega
      | succ n ih =>
        intro hin
        unfold toMetis at ih ⊢
        rw [List.range_succ, List.foldlM_append]
        rcases Nat.lt_or_ge i n with hlt | hge
        · rw [ih hlt]; rfl
        · obtain rfl : i = n := by omega
          cases (List.range i).foldlM (m := Option) _ (([0], []) : List Nat × List Nat) with
          | none => rfl
          | some acc =>
            change Option.bind (some acc) _ = _
            rw [Option.bind_some, List.foldlM_cons, hf]; rfl
    unfold computeDual
    split
    · rw [hl]
      dsimp only
      split
      · rw [ht _ hi]
      · rfl
    · rfl

/-- A function keeping METIS' promise: elements with two common nodes. -/
def exMetis (ne : Nat) (_nn : Int) (eptr eind : List Nat) : Option (List Nat × List Nat) :=
  let ns := fun i => (List.range ne).filter fun j => decide (i ≠ j ∧ ∃ u ∈ seg eptr eind i, ∃ v ∈ seg eptr eind i, u ≠ v ∧ u ∈ seg eptr eind j ∧ v ∈ seg eptr eind j)
  some ((List.range (ne + 1)).map (offs ns), (List.range ne).flatMap ns)

theorem exMetis_ok (maxId : Nat) : MetisOk maxId exMetis := by
  intro ne nn eptr eind _
  refine ⟨_, _, rfl, isCsr_offs _ _, ?_, ?_⟩
  · intro j hj
    obtain ⟨i, -, hj⟩ := List.mem_flatMap.1 hj
    exact List.mem_range.1 (List.mem_filter.1 hj).1
  · rintro i j hi hj hne ⟨u, v, huv, c1, c2, c3, c4⟩
    rw [seg_offs _ hi]
    exact List.mem_filter.2 ⟨List.mem_range.2 hj, by simpa using ⟨hne, u, c1, v, c3, huv, c2, c4⟩⟩

/-- **C143** is false: a mesh without elements passes the check for whole meshes, and then the last of no nodes is read. -/
theorem C143_violated : ¬ C143Statement ∧ ∀ maxId metis, computeDual maxId metis [] [] [] = .ub := by
  refine ⟨fun h => ?_, fun _ _ => rfl⟩
  obtain ⟨g, h1, -⟩ := h 100 exMetis [] 0 (exMetis_ok _) ⟨by simp, List.Perm.refl _, fun e he => absurd he List.not_mem_nil, by decide, by decide, by decide, by decide⟩
  cases h1

/-- One line among `N` nodes. -/
def lineMesh : DomMap := [(0, ⟨some 1, [[], [], [⟨.line, 2, 0, [0, 1]⟩]]⟩)]

/-- **C143** is false also at the upper limit: with one node more than the greatest `idx_t` the checks pass, the number of nodes becomes negative in the conversion, and METIS may refuse. -/
theorem C143_overflow (h2 : 2 ≤ maxId) (hmax : maxId < 2 ^ 63) :
    Whole maxId lineMesh (maxId + 1) ∧
      (∀ metis, computeDual maxId metis lineMesh (List.range (maxId + 1)) [] = match metis 1 (-(maxId + 1 : Int)) [0, 2] [0, 1] with | none => .throw | some (xadj, adjncy) => .ok ⟨xadj, adjncy, 1⟩) ∧
      ∃ metis, MetisOk maxId metis ∧ computeDual maxId metis lineMesh (List.range (maxId + 1)) [] = .throw := by
  have key : ∀ metis, computeDual maxId metis lineMesh (List.range (maxId + 1)) [] = match metis 1 (-(maxId + 1 : Int)) [0, 2] [0, 1] with | none => .throw | some (xadj, adjncy) => .ok ⟨xadj, adjncy, 1⟩ := by
    intro metis
    obtain ⟨u1, u2⟩ := unpartitioned_range (Nat.succ_pos maxId)
    have hc : idxCast maxId (maxId + 1) = -(maxId + 1 : Int) := by
      unfold idxCast; rw [if_neg (by omega)]; push_cast; ring
    have ht : toMetis (findId lineMesh) (allEls lineMesh).length = some ([0, 2], [0, 1]) := by rfl
    have hl : (allEls lineMesh).length = 1 := rfl
    have hs : ((allEls lineMesh).map fun e => e.nodes.length).sum = 2 := rfl
    unfold computeDual
    rw [if_pos u1, u2]
    dsimp only
    rw [if_pos ⟨by rw [hl]; omega, by omega, by rw [hs]; omega⟩, ht]
    dsimp only
    rw [List.length_range, hc, hl]
    cases metis 1 (-(maxId + 1 : Int)) [0, 2] [0, 1] <;> rfl
  refine ⟨⟨by decide, by decide, ?_, hmax, ?_, le_refl _, ?_⟩, key, fun ne nn eptr eind => if nn < 0 then none else exMetis ne nn eptr eind, ?_, ?_⟩
  · intro e he v hv
    have he : e ∈ [(⟨.line, 2, 0, [0, 1]⟩ : Element)] := he
    obtain rfl := List.mem_singleton.1 he
    have hv : v ∈ [0, 1] := hv
    simp only [List.mem_cons, List.not_mem_nil, or_false] at hv
    omega
  · change 1 + 1 ≤ maxId; omega
  · change 2 ≤ maxId; omega
  · intro ne nn eptr eind hin
    have := hin.fits.2.1
    simp only [if_neg (not_lt.2 this)]
    exact exMetis_ok maxId ne nn eptr eind hin
  · rw [key, if_pos (by omega)]

/-- With 32-bit METIS. -/
example : ∃ metis, MetisOk (2 ^ 31 - 1) metis ∧ computeDual (2 ^ 31 - 1) metis lineMesh (List.range (2 ^ 31 - 1 + 1)) [] = .throw :=
  (C143_overflow (by norm_num) (by norm_num)).2.2

/-! ## Use in the conversion to higher order -/

theorem allEls_toMesh {D : Type} (M : DMap D) : allEls (toMesh 2 M) = (visit M).map fun q => elemOf 2 q.2 := by
  unfold allEls toMesh visit
  rw [List.flatMap_map, List.map_flatMap]
  refine List.flatMap_congr fun d _ => ?_
  rw [List.map_map, ← List.map_flatten]
  rfl

theorem has_elem {D : Type} {M : DMap D} {e : El D} (he : e ∈ (visit M).map (·.2)) : Has (toMesh 2 M) (elemOf 2 e) := by
  obtain ⟨q, hq, rfl⟩ := List.mem_map.1 he
  unfold Has
  rw [allEls_toMesh]
  exact List.mem_map.2 ⟨q, hq, rfl⟩

/-- The graph is what the conversion expects. -/
theorem dualOf {M : DMap VData} {g : Graph} (wfel : ∀ e ∈ (visit M).map (·.2), WfEl e) (h2 : IsDual (toMesh 2 M) g) : DualOf (fun i => (g.adjacent i).getD []) M := by
  have mem : ∀ e : El VData, WfEl e → ∀ k, k < 2 ^ e.ty.dim → e.nodes.getD k 0 ∈ e.nodes := by
    intro e he k hk
    rw [← he.len] at hk
    rw [List.getD_eq_getElem?_getD, List.getElem?_eq_getElem hk]
    exact List.getElem_mem hk
  rintro e he e' he' hne ⟨k, k', l, l', k1, k2, k3, l1, l2, c1, c2⟩
  obtain ⟨L, hL, -, h4⟩ := h2 _ (has_elem he)
  change g.adjacent e.id = some L at hL
  change e'.id ∈ (g.adjacent e.id).getD []
  rw [hL]
  refine h4 _ (has_elem he') (Ne.symm hne) ⟨e.nodes.getD k 0, e.nodes.getD k' 0, fun hh => k3 ((wfel e he).inj k1 k2 hh), mem e (wfel e he) k k1, ?_, mem e (wfel e he) k' k2, ?_⟩
  · rw [c1]; exact mem e' (wfel e' he') l l1
  · rw [c2]; exact mem e' (wfel e' he') l' l2

/-- **C143** (conversion).  With the graph computed by the library, a valid conforming mesh ready for distribution is converted to a mesh ready for distribution. -/
theorem C143_conversion {n : Nat} {roots : List ℂ} {X : Nat → Nat → ℝ} {M : DMap VData} {bnds : List Nat} {dim : Nat} (hM : MetisOk maxId metis) (hN : 0 < N) (hmax : N ≤ maxId) (hw : Whole maxId (toMesh 2 M) N)
    (W : Convert.WfMesh M) (G : ∀ adj, DualOf adj M → GeoMesh n roots adj N X ((visit M).map (·.2))) (R : Ready 2 (toMesh 2 M) bnds dim N) :
    ∃ g, computeDual maxId metis (toMesh 2 M) (List.range N) [] = .ok g ∧
      ∃ M' N', generate n (physLoc roots) closeTol (fun i => (g.adjacent i).getD []) N M = some (M', N') ∧ Ready n (toMesh n M') bnds dim N' := by
  obtain ⟨g, h1, h2⟩ := C143_dual_partial hM hw hN hmax
  have wfel : ∀ e ∈ (visit M).map (·.2), WfEl e := by
    refine (G (fun _ => (visit M).map (·.2.id)) ?_).wf
    intro e _ e' he' _ _
    obtain ⟨q, hq, rfl⟩ := List.mem_map.1 he'
    exact List.mem_map.2 ⟨q, hq, rfl⟩
  exact ⟨g, h1, C119_conversion W (G _ (dualOf wfel h2)) R⟩

/-! ## Examples -/

/-- Two squares side by side with a boundary line. -/
def exMesh : DomMap := [(0, ⟨some 2, [[], [⟨.quad, 2, 0, [0, 1, 3, 4]⟩, ⟨.quad, 2, 2, [1, 2, 4, 5]⟩], []]⟩), (1, ⟨some 1, [[], [], [⟨.line, 2, 1, [0, 1]⟩]]⟩)]

theorem ex_whole : Whole 100 exMesh 6 := ⟨by decide, by decide, by unfold Has; decide, by decide, by decide, by decide, by decide⟩

example : ∃ g, computeDual 100 exMetis exMesh (List.range 6) [] = .ok g ∧ g.adjacent 0 = some [1, 2] ∧ g.adjacent 1 = some [0] ∧ IsDual exMesh g := by
  obtain ⟨g, h1, h2⟩ := C143_dual_partial (exMetis_ok 100) ex_whole (by decide) (by decide)
  refine ⟨g, h1, ?_, ?_, h2⟩
  all_goals
    have : computeDual 100 exMetis exMesh (List.range 6) [] = .ok ⟨[0, 2, 3, 4], [1, 2, 0, 0], 3⟩ := by rfl
    rw [this] at h1
    cases h1
    rfl

example : computeDual 100 exMetis exMesh [3, 4, 5] [0, 1, 2] = .throw ∧ computeDual 5 exMetis exMesh (List.range 6) [] = .throw :=
  ⟨(C143_refused (by decide)).1 (.inl (by decide)), (C143_refused (by decide)).2.1 (.inr (.inr (by decide)))⟩

/-- The mesh of one square with its sides. -/
def exSq : DomMap := [(0, ⟨some 2, [[], [⟨.quad, 2, 0, [0, 1, 2, 3]⟩], []]⟩), (1, ⟨some 1, [[], [], [⟨.line, 2, 1, [0, 1]⟩]]⟩), (2, ⟨some 1, [[], [], [⟨.line, 2, 2, [2, 3]⟩]]⟩),
  (3, ⟨some 1, [[], [], [⟨.line, 2, 3, [0, 2]⟩]]⟩), (4, ⟨some 1, [[], [], [⟨.line, 2, 4, [1, 3]⟩]]⟩)]

noncomputable abbrev exSqM : DMap VData := withData (coordsOf (Prim.squareEmits 2 2 (fun i => (i : ℝ)) (fun i => (i : ℝ)) ⟨0, 1, 2, 3, 4⟩)) exSq

/-- The square, made quadratic with its own graph. -/
example : ∃ g, computeDual 100 exMetis (toMesh 2 exSqM) (List.range 4) [] = .ok g ∧
    ∃ M' N', generate 3 (physLoc []) closeTol (fun i => (g.adjacent i).getD []) 4 exSqM = some (M', N') ∧ Ready 3 (toMesh 3 M') (squareBnds ⟨0, 1, 2, 3, 4⟩) 1 N' := by
  have hg : IsGrid ![2, 2, 1] wxy 0 (squareBoxes 2 2 ⟨0, 1, 2, 3, 4⟩) := square_grid (nx := 2) (ny := 2) (ids := ⟨0, 1, 2, 3, 4⟩) (by decide) (by decide) (by unfold Gen.SquareIds.Ok; decide)
  obtain ⟨m, h1, h2⟩ := built_of (P := ![fun i => (i : ℝ), fun i => (i : ℝ), fun _ => 0]) hg (Prim.SquareIds.list ⟨0, 1, 2, 3, 4⟩)
  have ax := ex_axis (k := 2) (by decide)
  have hm : Prim.makeSquare 2 2 (fun i => (i : ℝ)) (fun i => (i : ℝ)) ⟨0, 1, 2, 3, 4⟩ = some m := by rw [Prim.makeSquare, squareEmits_eq]; exact h1
  have hs : Prim.makeSquare 2 2 (fun i => (i : ℝ)) (fun i => (i : ℝ)) ⟨0, 1, 2, 3, 4⟩ = some exSq := rfl
  obtain rfl : exSq = m := Option.some.inj (hs.symm.trans hm)
  have hT : toMesh 2 exSqM = exSq := rfl
  have hinc : Increasing ![2, 2, 1] ![fun i => (i : ℝ), fun i => (i : ℝ), fun _ => 0] := by
    intro c i hi
    fin_cases c
    · exact ax.inc i hi
    · exact ax.inc i hi
    · exact absurd hi (by simp)
  have hsep : Separated 3 [] ![2, 2, 1] ![fun i => (i : ℝ), fun i => (i : ℝ), fun _ => 0] := by
    intro c
    fin_cases c
    · exact ax.sep
    · exact ax.sep
    · exact zero_sep 3 []
  have R : Ready 2 exSq (squareBnds ⟨0, 1, 2, 3, 4⟩) 1 4 := by
    refine ready_grid hg h2 (Std.sortUniq_strict _) ?_
    intro b hb
    have hb := Std.mem_sortUniq.1 hb
    simp only [List.mem_cons, List.not_mem_nil, or_false] at hb
    rcases hb with rfl | rfl | rfl | rfl
    · exact ⟨by decide, _, (mem_squareBoxes _).2 (.inr (.inl ⟨0, by omega, .inl rfl⟩))⟩
    · exact ⟨by decide, _, (mem_squareBoxes _).2 (.inr (.inl ⟨0, by omega, .inr rfl⟩))⟩
    · exact ⟨by decide, _, (mem_squareBoxes _).2 (.inr (.inr ⟨0, by omega, .inl rfl⟩))⟩
    · exact ⟨by decide, _, (mem_squareBoxes _).2 (.inr (.inr ⟨0, by omega, .inr rfl⟩))⟩
  have W := wf_meshOf hg h2
  have G := fun adj hadj => geo_grid (N := 3) (roots := []) (adj := adj) hg h2 hinc (by decide) (by decide) (fun h => absurd h (by decide)) hsep hadj
  rw [meshOf, ← squareEmits_eq] at W
  simp only [meshOf, ← squareEmits_eq] at G
  exact C143_conversion (exMetis_ok 100) (by decide) (by decide) (by rw [hT]; exact ⟨by decide, by decide, by unfold Has; decide, by decide, by decide, by decide, by decide⟩) W G (by rw [hT]; exact R)

end Verif.Dual
