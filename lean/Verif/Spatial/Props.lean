import Verif.Spatial.Model
import Mathlib.Tactic.Linarith
import Mathlib.Tactic.FieldSimp
import Mathlib.Tactic.NormNum
import Mathlib.Tactic.Ring
import Mathlib.Data.List.Perm.Subperm

/-! # Property C12: spatial hash table -/
namespace Verif.Spatial

variable {K : Type} [Field K] [LinearOrder K] [IsStrictOrderedRing K] [FloorRing K]
set_option linter.unusedSectionVars false

theorem lround_near (x : K) : |(lround x : K) - x| ≤ 1 / 2 := by
  unfold lround
  split
  · have h1 := Int.floor_le (x + 1 / 2); have h2 := Int.lt_floor_add_one (x + 1 / 2)
    rw [abs_le]; constructor <;> linarith
  · have h1 := Int.floor_le (-x + 1 / 2); have h2 := Int.lt_floor_add_one (-x + 1 / 2)
    push_cast
    rw [abs_le]; constructor <;> linarith

theorem lround_close {x y : K} (h : |x - y| < 1) : |lround x - lround y| ≤ 1 := by
  have h1 := abs_le.1 (lround_near x); have h2 := abs_le.1 (lround_near y); have h3 := abs_lt.1 h
  have ha : ((lround x - lround y : Int) : K) < 2 := by push_cast; linarith
  have hb : (-2 : K) < ((lround x - lround y : Int) : K) := by push_cast; linarith
  have ha' : lround x - lround y < 2 := by exact_mod_cast ha
  have hb' : -2 < lround x - lround y := by exact_mod_cast hb
  rw [abs_le]; omega

/-- Two keys are in neighbouring (or equal) cells. -/
def Near (k k' : List Int) : Prop := List.Forall₂ (fun a b => |a - b| ≤ 1) k k'

instance (k k' : List Int) : Decidable (Near k k') := by unfold Near; infer_instance

theorem offsetsND_mem (n : Nat) (o : List Int) :
    o ∈ offsetsND n ↔ o.length = n ∧ ∀ x ∈ o, |x| ≤ 1 := by
  induction n generalizing o with
  | zero => simp [offsetsND]; rintro rfl; simp
  | succ n ih =>
    simp only [offsetsND, List.mem_flatMap, List.mem_map]
    constructor
    · rintro ⟨a, ha, b, hb, rfl⟩
      rw [ih] at hb
      refine ⟨by simp [hb.1], fun x hx => ?_⟩
      rcases List.mem_cons.1 hx with rfl | hx
      · simp at ha; rcases ha with rfl | rfl | rfl <;> decide
      · exact hb.2 x hx
    · rintro ⟨hl, hx⟩
      cases o with
      | nil => simp at hl
      | cons a b =>
        have := abs_le.1 (hx a (by simp))
        exact ⟨a, by simp; omega, b, (ih b).2 ⟨by simpa using hl, fun x hxb => hx x (by simp [hxb])⟩, rfl⟩

theorem offsetsND_nodup (n : Nat) : (offsetsND n).Nodup := by
  induction n with
  | zero => simp [offsetsND]
  | succ n ih =>
    rw [offsetsND, List.Nodup, List.flatMap_def, List.pairwise_flatten, List.pairwise_map]
    simp only [List.mem_map, forall_exists_index, and_imp, forall_apply_eq_imp_iff₂]
    refine ⟨fun a _ => List.pairwise_map.2 (ih.imp fun h e => h (by simpa using e)), ?_⟩
    refine List.Pairwise.imp_of_mem ?_ (show ([-1, 0, 1] : List Int).Pairwise (· ≠ ·) by decide)
    intro a b _ _ hab u _ w _ e
    simp at e; exact hab e.1

theorem lookup_pushCell {τ} (m : List (List Int × List (List K × τ))) (k : List Int) (x : List K × τ) (q : List Int) :
    (pushCell m k x).lookup q = if q = k then some ((m.lookup k).getD [] ++ [x]) else m.lookup q := by
  induction m with
  | nil =>
    simp only [pushCell, List.lookup_cons, List.lookup_nil]
    by_cases h : q = k
    · simp [h]
    · have : (q == k) = false := by simpa using h
      simp [this, h]
  | cons p m ih =>
    obtain ⟨k', l⟩ := p
    simp only [pushCell]
    split
    · rename_i h; subst h
      by_cases h : q = k'
      · subst h; simp
      · have : (q == k') = false := by simpa using h
        simp [List.lookup_cons, this, h]
    · rename_i hk
      have hk' : (k == k') = false := by simpa using fun e => hk e.symm
      by_cases h : q = k'
      · subst h; simp [List.lookup_cons, hk]
      · have : (q == k') = false := by simpa using h
        simp only [List.lookup_cons, this, hk', ih]

theorem fill_fixed {τ} (t : Table K τ) (xs : List (List K × τ)) :
    (t.fill xs).origin = t.origin ∧ (t.fill xs).dx = t.dx ∧ (t.fill xs).size = t.size + xs.length ∧
    ∀ k, (((t.fill xs).cells.lookup k).getD []) = ((t.cells.lookup k).getD []) ++ xs.filter (fun x => decide (t.snap x.1 = k)) := by
  induction xs generalizing t with
  | nil => simp [Table.fill]
  | cons x xs ih =>
    obtain ⟨h1, h2, h3, h4⟩ := ih (t.insert x.1 x.2)
    have e : t.fill (x :: xs) = (t.insert x.1 x.2).fill xs := rfl
    rw [e]
    refine ⟨h1, h2, by rw [h3]; simp [Table.insert]; omega, fun k => ?_⟩
    rw [h4 k]
    have hs : ∀ p, (t.insert x.1 x.2).snap p = t.snap p := fun p => rfl
    simp only [hs]
    have hc : (t.insert x.1 x.2).cells = pushCell t.cells (t.snap x.1) (x.1, x.2) := rfl
    rw [hc, lookup_pushCell, List.filter_cons]
    by_cases hk : k = t.snap x.1
    · subst hk; simp
    · have : ¬ t.snap x.1 = k := fun e => hk e.symm
      simp [hk, this]

theorem zip_add_offset (a o : List Int) (h : a.length = o.length) (k : List Int) :
    (a.zip o).map (fun q => q.1 + q.2) = k ↔ k.length = a.length ∧ o = (k.zip a).map fun q => q.1 - q.2 := by
  induction a generalizing o k with
  | nil =>
    cases o with
    | nil => simp [eq_comm]
    | cons => simp at h
  | cons x a ih =>
    cases o with
    | nil => simp at h
    | cons y o =>
      cases k with
      | nil => simp
      | cons z k =>
        simp only [List.zip_cons_cons, List.map_cons, List.cons.injEq, List.length_cons]
        rw [ih o (by simpa using h) k]
        constructor
        · rintro ⟨h1, h2, h3⟩; exact ⟨by omega, by omega, h3⟩
        · rintro ⟨h1, h2, h3⟩; exact ⟨by omega, by omega, h3⟩

theorem near_iff (a k : List Int) : Near a k ↔ k.length = a.length ∧ ∀ x ∈ (k.zip a).map (fun q => q.1 - q.2), |x| ≤ 1 := by
  unfold Near
  induction a generalizing k with
  | nil => cases k <;> simp
  | cons x a ih =>
    cases k with
    | nil => simp
    | cons y k =>
      rw [List.forall₂_cons, ih]
      simp only [List.zip_cons_cons, List.map_cons, List.length_cons, List.mem_cons, forall_eq_or_imp, abs_sub_comm x y]
      constructor
      · rintro ⟨h1, h2, h3⟩; exact ⟨by omega, h1, h3⟩
      · rintro ⟨h1, h2, h3⟩; exact ⟨h2, by omega, h3⟩

/-- **C12** (exact content): the query returns, up to order, exactly the inserted pairs whose cell
is equal or adjacent (also diagonally) to the query's cell, each as often as it was inserted. -/
theorem C12_proximate_exact {τ} [DecidableEq τ] (minDx : K) (dx origin : List K) (hd : dx.length = origin.length)
    (xs : List (List K × τ)) (q : List K) (hq : q.length = dx.length) :
    let t : Table K τ := Table.new minDx dx origin
    ((t.fill xs).proximate q).Perm (xs.filter fun x => decide (Near (t.snap q) (t.snap x.1))) := by
  intro t
  obtain ⟨ho, hdx, _, hl⟩ := fill_fixed t xs
  have hsnap : ∀ p, (t.fill xs).snap p = t.snap p := by
    intro p; unfold Table.snap; rw [ho, hdx]
  have hlen : (t.snap q).length = dx.length := by
    simp [Table.snap, t, Table.new, hq, hd]
  have hprox : (t.fill xs).proximate q = (offsetsND dx.length).flatMap fun ofs =>
      xs.filter fun x => decide (t.snap x.1 = ((t.snap q).zip ofs).map fun q => q.1 + q.2) := by
    unfold Table.proximate
    rw [hdx]
    have : t.dx.length = dx.length := by simp [t, Table.new]
    rw [this]
    congr 1
    funext ofs
    rw [hsnap, hl]
    simp [t, Table.new]
  rw [hprox, List.perm_iff_count]
  intro x
  rw [List.count_flatMap]
  have hcount : ∀ ofs ∈ offsetsND dx.length,
      List.count x (xs.filter fun y => decide (t.snap y.1 = ((t.snap q).zip ofs).map fun q => q.1 + q.2)) =
      if ofs = ((t.snap x.1).zip (t.snap q)).map (fun q => q.1 - q.2) ∧ (t.snap x.1).length = (t.snap q).length then List.count x xs else 0 := by
    intro ofs hofs
    have hol := ((offsetsND_mem _ _).1 hofs).1
    have hz := zip_add_offset (t.snap q) ofs (by rw [hlen, hol]) (t.snap x.1)
    by_cases hc : t.snap x.1 = ((t.snap q).zip ofs).map fun q => q.1 + q.2
    · have := hz.1 hc.symm
      rw [if_pos ⟨this.2, this.1⟩, List.count_filter (by simpa using hc)]
    · rw [if_neg (fun h => hc (hz.2 ⟨h.2, h.1⟩).symm), List.count_eq_zero]
      intro hm
      have := (List.mem_filter.1 hm).2
      exact hc (by simpa using this)
  have hsum : ((offsetsND dx.length).map (List.count x ∘ fun ofs =>
      xs.filter fun y => decide (t.snap y.1 = ((t.snap q).zip ofs).map fun q => q.1 + q.2))) =
      (offsetsND dx.length).map fun ofs => if ofs = ((t.snap x.1).zip (t.snap q)).map (fun q => q.1 - q.2) ∧
        (t.snap x.1).length = (t.snap q).length then List.count x xs else 0 :=
    List.map_congr_left hcount
  rw [hsum]
  have hone : ∀ (os : List (List Int)) (o : List Int) (P : Prop) [Decidable P] (c : Nat), os.Nodup →
      (os.map fun ofs => if ofs = o ∧ P then c else 0).sum = if o ∈ os ∧ P then c else 0 := by
    intro os o P _ c
    induction os with
    | nil => simp
    | cons a os ih =>
      intro hn
      rw [List.nodup_cons] at hn
      rw [List.map_cons, List.sum_cons, ih hn.2]
      by_cases hP : P
      · by_cases ha : a = o
        · subst ha; simp [hP, hn.1]
        · have : ¬ o = a := fun e => ha e.symm
          simp [ha, this, hP]
      · simp [hP]
  rw [hone _ _ _ _ (offsetsND_nodup _)]
  by_cases hn : Near (t.snap q) (t.snap x.1)
  · obtain ⟨h1, h2⟩ := (near_iff _ _).1 hn
    rw [if_pos ⟨(offsetsND_mem _ _).2 ⟨by simp [h1, hlen], h2⟩, h1⟩, List.count_filter (by simpa using hn)]
  · rw [if_neg, eq_comm, List.count_eq_zero]
    · intro hm
      exact hn (by simpa using (List.mem_filter.1 hm).2)
    · rintro ⟨h1, h2⟩
      exact hn ((near_iff _ _).2 ⟨h2, ((offsetsND_mem _ _).1 h1).2⟩)

/-- **C12** (nothing close is missed): every stored point closer than the spacing in each coordinate
is returned, for any origin and signs. -/
theorem C12_proximate_complete {τ} [DecidableEq τ] (minDx : K) (hmin : 0 < minDx) (dx origin : List K)
    (hd : dx.length = origin.length) (xs : List (List K × τ)) (q : List K) (hq : q.length = dx.length)
    (p : List K) (v : τ) (hp : (p, v) ∈ xs) (hpl : p.length = dx.length)
    (hclose : ∀ i (h1 : i < p.length) (h2 : i < q.length) (h3 : i < dx.length), |p[i] - q[i]| < max |dx[i]| minDx) :
    (p, v) ∈ ((Table.new minDx dx origin).fill xs).proximate q := by
  rw [(C12_proximate_exact minDx dx origin hd xs q hq).mem_iff, List.mem_filter]
  refine ⟨hp, ?_⟩
  simp only [decide_eq_true_eq]
  unfold Near
  rw [List.forall₂_iff_get]
  have hl1 : ((Table.new minDx dx origin : Table K τ).snap q).length = dx.length := by simp [Table.snap, Table.new, hq, hd]
  have hl2 : ((Table.new minDx dx origin : Table K τ).snap p).length = dx.length := by simp [Table.snap, Table.new, hpl, hd]
  refine ⟨by rw [hl1, hl2], fun i h1 h2 => ?_⟩
  rw [hl1] at h1
  simp only [List.get_eq_getElem, Table.snap, Table.new, List.getElem_map, List.getElem_zip]
  apply lround_close
  have hpos : (0 : K) < max |dx[i]| minDx := lt_max_of_lt_right hmin
  rw [← sub_div, abs_div, abs_of_pos hpos, div_lt_one hpos]
  have := hclose i (by omega) (by omega) h1
  rw [abs_sub_comm] at this
  have e : q[i] - origin[i] - (p[i] - origin[i]) = q[i] - p[i] := by ring
  rw [e]; exact this

/-- **C12** (no inventions, no repetitions): the result is contained in the inserted pairs with
multiplicity; `size` counts the insertions. -/
theorem C12_proximate_sound {τ} [DecidableEq τ] (minDx : K) (dx origin : List K) (hd : dx.length = origin.length)
    (xs : List (List K × τ)) (q : List K) (hq : q.length = dx.length) :
    (((Table.new minDx dx origin : Table K τ).fill xs).proximate q).Subperm xs ∧
    ((Table.new minDx dx origin : Table K τ).fill xs).size = xs.length := by
  refine ⟨(C12_proximate_exact minDx dx origin hd xs q hq).subperm.trans List.filter_sublist.subperm, ?_⟩
  rw [(fill_fixed _ _).2.2.1]; simp [Table.new]

theorem all_pushCell {τ} (m : List (List Int × List (List K × τ))) (k : List Int) (x : List K × τ) :
    ((pushCell m k x).flatMap (·.2)).Perm (x :: m.flatMap (·.2)) := by
  induction m with
  | nil => simp [pushCell]
  | cons p m ih =>
    obtain ⟨k', l⟩ := p
    simp only [pushCell]
    split
    · simp only [List.flatMap_cons, List.append_assoc, List.singleton_append]
      exact List.perm_middle
    · simp only [List.flatMap_cons]
      exact (ih.append_left l).trans List.perm_middle

/-- **C12** (`all`): enumerating the table gives back everything inserted, each once. -/
theorem C12_all {τ} (minDx : K) (dx origin : List K) (xs : List (List K × τ)) :
    (((Table.new minDx dx origin : Table K τ).fill xs).all).Perm xs := by
  have : ∀ (xs : List (List K × τ)) (t : Table K τ), ((t.fill xs).all).Perm (t.all ++ xs) := by
    intro xs
    induction xs with
    | nil => intro t; simp [Table.fill]
    | cons x xs ih =>
      intro t
      have e : t.fill (x :: xs) = (t.insert x.1 x.2).fill xs := rfl
      rw [e]
      refine (ih _).trans ?_
      refine ((all_pushCell t.cells (t.snap x.1) x).append_right xs).trans ?_
      rw [List.cons_append]
      exact List.perm_middle.symm
  have := this xs (Table.new minDx dx origin)
  simpa [Table.new, Table.all] using this

/-- Two points straddling a cell border and the origin. -/
example : (([-(9/20), 1/10], 7) : List ℚ × Nat) ∈
    ((Table.new (1/1000) [1, -1] [0, 1/3]).fill [([-(9/20), 1/10], 7), ([5, 5], 8)]).proximate [1/2, -(4/5)] :=
  C12_proximate_complete (K := ℚ) (1/1000) (by norm_num) [1, -1] [0, 1/3] rfl [([-(9/20), 1/10], 7), ([5, 5], 8)] [1/2, -(4/5)] rfl [-(9/20), 1/10] 7 (by simp) rfl (by
    intro i h1 h2 h3
    simp at h3
    rcases i with _ | _ | i
    · norm_num [abs_lt]
    · norm_num [abs_lt]
    · omega)

/-- The bound is sharp: at distance exactly the spacing a point can be missed (cells -1 and 1). -/
theorem C12_exact_spacing_not_covered :
    ∃ (p q dx : ℚ), |p - q| = dx ∧ 0 < dx ∧
      ((Table.new (1/1000) [dx] [0] : Table ℚ Nat).fill [([p], 0)]).proximate [q] = [] := by
  refine ⟨-(1/2), 1/2, 1, by norm_num [abs], by norm_num, ?_⟩
  have h := C12_proximate_exact (K := ℚ) (τ := Nat) (1/1000) [1] [0] rfl [([-(1/2)], 0)] [1/2] rfl
  have : ¬ Near ((Table.new (1/1000) [1] [0] : Table ℚ Nat).snap [1/2]) ((Table.new (1/1000) [1] [0] : Table ℚ Nat).snap [-(1/2)]) := by
    have hm : max |(1 : ℚ)| (1/1000) = 1 := by norm_num
    have e1 : lround (((1/2 : ℚ) - 0) / 1) = 1 := by
      unfold lround; norm_num
    have e2 : lround ((-(1/2) - 0 : ℚ) / 1) = -1 := by
      unfold lround; norm_num
    simp only [Table.snap, Table.new, List.map_cons, List.map_nil, List.zip_cons_cons, List.zip_nil_right, hm, e1, e2, Near]
    decide
  simp only [List.filter_cons, this, decide_false, Bool.false_eq_true, if_false, List.filter_nil] at h
  exact h.eq_nil

end Verif.Spatial
