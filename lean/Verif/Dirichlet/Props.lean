import Verif.Dirichlet.Lemmas
import Verif.Permute.Props
import Mathlib.Data.Rat.Defs
import Mathlib.Algebra.Field.Rat
import Mathlib.Tactic.NormNum

/-! # C43: Dirichlet elimination; C44: normalisation -/
namespace Verif.Dirichlet
open Verif

variable {K : Type} [Field K]

/-- A square system with the sparsity the code relies on: a row stores a column once, all columns are rows, constrained rows
store their diagonal; `sub` holds the constrained columns of the other rows, in any order. -/
structure Wf (bc : Nat → Bool) (sub : Nat → List Nat) (rows : List (Row K)) : Prop where
  nodup : ∀ r (h : r < rows.length), (rows[r].map (·.1)).Nodup
  cols : ∀ r (h : r < rows.length), ∀ c ∈ rows[r].map (·.1), c < rows.length
  diag : ∀ r (h : r < rows.length), bc r = true → r ∈ rows[r].map (·.1)
  sub : ∀ r (h : r < rows.length), (sub r).Perm (subCols bc r rows[r])

theorem apply_eq {bc : Nat → Bool} {sub : Nat → List Nat} {rows : List (Row K)} (hw : Wf bc sub rows) (g rhs : Nat → Nat → K) :
    apply bc sub g rows rhs = some (rows.zipIdx.map fun q => newRow bc g rhs q.2 q.1) := by
  unfold apply
  apply Permute.mapM_eq_some
  rintro ⟨row, r⟩ hq
  obtain ⟨hr, hrow⟩ : ∃ h : r < rows.length, rows[r] = row := by
    have := List.mem_zipIdx_iff_getElem?.1 hq
    exact List.getElem?_eq_some_iff.1 this
  subst hrow
  have hn := hw.nodup r hr
  simp only [processRow, newRow]
  by_cases hb : bc r = true
  · rw [if_pos ((owned_iff bc sub rows hr).2 hb), if_pos hb, dbcRow_eq hn (hw.diag r hr hb)]
    simp [dot]
  · have hs : (sub r).Perm ((rows[r].map (·.1)).filter bc) := by
      have := hw.sub r hr; unfold subCols at this; rwa [if_neg hb] at this
    have hmem : ∀ c ∈ sub r, c ∈ rows[r].map (·.1) := fun c hc => (List.mem_filter.1 (hs.mem_iff.1 hc)).1
    rw [if_neg (fun h => hb ((owned_iff bc sub rows hr).1 h)), if_neg hb, colInds_eq bc sub rows hr]
    simp only [posOf, if_neg hb, Option.map_some]
    rw [zeroCols_eq hmem, subRow_eq hn hmem]
    congr 2
    · apply List.map_congr_left
      intro e he
      refine if_congr ?_ rfl rfl
      rw [hs.mem_iff, List.mem_filter]
      exact ⟨fun h => h.2, fun h => ⟨List.mem_map_of_mem he, h⟩⟩
    · funext k
      rw [dot_perm (hs.map fun c => (c, entry rows[r] c)), dot_sub hn]

theorem out_eq {bc : Nat → Bool} {sub : Nat → List Nat} {rows : List (Row K)} (hw : Wf bc sub rows) {g rhs : Nat → Nat → K}
    {out} (ho : apply bc sub g rows rhs = some out) {r : Nat} (hr : r < rows.length) (hr' : r < out.length) :
    out[r] = newRow bc g rhs r rows[r] := by
  rw [apply_eq hw] at ho
  obtain rfl := Option.some.inj ho
  simp

/-- C43: applying the conditions succeeds and gives one row and right-hand side per row, with unchanged sparsity. -/
theorem C43_defined {bc : Nat → Bool} {sub : Nat → List Nat} {rows : List (Row K)} (hw : Wf bc sub rows) (g rhs : Nat → Nat → K) :
    ∃ out, apply bc sub g rows rhs = some out ∧ out.length = rows.length ∧
      ∀ r (hr : r < rows.length) (hr' : r < out.length), out[r].1.map (·.1) = rows[r].map (·.1) := by
  refine ⟨_, apply_eq hw g rhs, by simp, ?_⟩
  intro r hr hr'
  rw [out_eq hw (apply_eq hw g rhs) hr hr']
  unfold newRow
  split
  · simp [Function.comp_def]
  · simp only [List.map_map]
    apply List.map_congr_left
    intro e he
    simp only [Function.comp]
    split <;> rfl

theorem dot_unit {row : Row K} {r : Nat} (hn : (row.map (·.1)).Nodup) (h : r ∈ row.map (·.1)) (x : Nat → K) :
    dot (row.map fun e => (e.1, if e.1 = r then 1 else 0)) x = x r := by
  induction row with
  | nil => simp at h
  | cons a t ih =>
    rw [List.map_cons, List.nodup_cons] at hn
    rw [List.map_cons, dot_cons]
    by_cases ha : a.1 = r
    · have : dot (t.map fun e => (e.1, if e.1 = r then (1 : K) else 0)) x = 0 := by
        unfold dot
        apply List.sum_eq_zero
        intro y hy
        simp only [List.map_map, List.mem_map, Function.comp] at hy
        obtain ⟨e, he, rfl⟩ := hy
        rw [if_neg, zero_mul]
        rintro rfl
        exact hn.1 (ha ▸ List.mem_map_of_mem he)
      rw [this]; simp [ha]
    · rcases List.mem_cons.1 h with h | h
      · exact absurd h.symm ha
      · rw [ih hn.2 h]; simp [ha]

/-- C43: the solutions of the resulting system are exactly the vectors that take the prescribed values on constrained dofs and
satisfy the original equations of the other dofs, for each right-hand side. -/
theorem C43_solutions {bc : Nat → Bool} {sub : Nat → List Nat} {rows : List (Row K)} (hw : Wf bc sub rows) {g rhs : Nat → Nat → K}
    {out} (ho : apply bc sub g rows rhs = some out) (x : Nat → K) (k : Nat) :
    (∀ r (h : r < out.length), dot out[r].1 x = out[r].2 k) ↔
      (∀ r < rows.length, bc r = true → x r = g r k) ∧
      (∀ r (h : r < rows.length), bc r ≠ true → dot rows[r] x = rhs r k) := by
  have hlen : out.length = rows.length := by
    obtain ⟨o, h1, h2, -⟩ := C43_defined hw g rhs
    rw [ho] at h1; rw [Option.some.inj h1, h2]
  have hrow : ∀ r (hr : r < rows.length) (hr' : r < out.length), bc r = true → (dot out[r].1 x = out[r].2 k ↔ x r = g r k) := by
    intro r hr hr' hb
    rw [out_eq hw ho hr hr']
    unfold newRow
    rw [if_pos hb]
    simp only
    rw [dot_unit (hw.nodup r hr) (hw.diag r hr hb)]
  have hrow' : ∀ r (hr : r < rows.length) (hr' : r < out.length), bc r ≠ true → (∀ r < rows.length, bc r = true → x r = g r k) →
      (dot out[r].1 x = out[r].2 k ↔ dot rows[r] x = rhs r k) := by
    intro r hr hr' hb hx
    rw [out_eq hw ho hr hr']
    unfold newRow
    rw [if_neg hb]
    simp only
    have hsplit := dot_zero_split rows[r] bc x
    have hg : (dot (rows[r].filter fun e => bc e.1) fun c => g c k) = dot (rows[r].filter fun e => bc e.1) x := by
      unfold dot
      congr 1
      apply List.map_congr_left
      intro e he
      obtain ⟨he1, he2⟩ := List.mem_filter.1 he
      rw [hx e.1 (hw.cols r hr e.1 (List.mem_map_of_mem he1)) he2]
    rw [hg, ← hsplit, eq_sub_iff_add_eq]
  constructor
  · intro h
    have hx : ∀ r < rows.length, bc r = true → x r = g r k := fun r hr hb => (hrow r hr (hlen ▸ hr) hb).1 (h r (hlen ▸ hr))
    exact ⟨hx, fun r hr hb => (hrow' r hr (hlen ▸ hr) hb hx).1 (h r (hlen ▸ hr))⟩
  · rintro ⟨hx, h⟩ r hr
    by_cases hb : bc r = true
    · exact (hrow r (hlen ▸ hr) hr hb).2 (hx r (hlen ▸ hr) hb)
    · exact (hrow' r (hlen ▸ hr) hr hb hx).2 (h r (hlen ▸ hr) hb)

omit [Field K] in
theorem nodup_out {row row' : Row K} (h : row'.map (·.1) = row.map (·.1)) (hn : (row.map (·.1)).Nodup) : (row'.map (·.1)).Nodup := h ▸ hn

/-- C43: every entry of the resulting matrix. -/
theorem C43_entries {bc : Nat → Bool} {sub : Nat → List Nat} {rows : List (Row K)} (hw : Wf bc sub rows) {g rhs : Nat → Nat → K}
    {out} (ho : apply bc sub g rows rhs = some out) (r : Nat) (hr : r < rows.length) (hr' : r < out.length) (c : Nat) :
    entry out[r].1 c = if bc r = true then (if c = r then 1 else 0) else if bc c = true then 0 else entry rows[r] c := by
  have hn := hw.nodup r hr
  have hcols : out[r].1.map (·.1) = rows[r].map (·.1) := by
    obtain ⟨o, h1, h2, h3⟩ := C43_defined hw g rhs
    rw [ho] at h1; obtain rfl := Option.some.inj h1
    exact h3 r hr hr'
  have hn' := nodup_out hcols hn
  by_cases hc : c ∈ rows[r].map (·.1)
  · obtain ⟨e, he, rfl⟩ := List.mem_map.1 hc
    have hout := out_eq hw ho hr hr'
    unfold newRow at hout
    by_cases hb : bc r = true
    · rw [if_pos hb] at hout
      rw [if_pos hb]
      have hm : (e.1, if e.1 = r then (1 : K) else 0) ∈ out[r].1 := by
        rw [hout]; exact List.mem_map.2 ⟨e, he, rfl⟩
      exact entry_of_mem hn' hm
    · rw [if_neg hb] at hout
      rw [if_neg hb]
      have hm : (if bc e.1 = true then (e.1, 0) else e) ∈ out[r].1 := by
        rw [hout]; exact List.mem_map.2 ⟨e, he, rfl⟩
      by_cases hbe : bc e.1 = true
      · rw [if_pos hbe] at hm ⊢
        exact entry_of_mem hn' hm
      · rw [if_neg hbe] at hm ⊢
        rw [entry_of_mem hn' hm, entry_of_mem hn he]
  · rw [entry_of_not_mem (hcols ▸ hc), entry_of_not_mem hc]
    by_cases hb : bc r = true
    · rw [if_pos hb, if_neg]
      rintro rfl
      exact hc (hw.diag c hr hb)
    · rw [if_neg hb]; split <;> rfl

/-- C43: a symmetric matrix stays symmetric. -/
theorem C43_symmetric {bc : Nat → Bool} {sub : Nat → List Nat} {rows : List (Row K)} (hw : Wf bc sub rows) {g rhs : Nat → Nat → K}
    {out} (ho : apply bc sub g rows rhs = some out) (hlen : out.length = rows.length)
    (hsym : ∀ r c (hr : r < rows.length) (hc : c < rows.length), entry rows[r] c = entry rows[c] r)
    (r c : Nat) (hr : r < out.length) (hc : c < out.length) : entry out[r].1 c = entry out[c].1 r := by
  rw [C43_entries hw ho r (hlen ▸ hr) hr c, C43_entries hw ho c (hlen ▸ hc) hc r, hsym r c (hlen ▸ hr) (hlen ▸ hc)]
  by_cases h1 : bc r = true <;> by_cases h2 : bc c = true
  · simp only [h1, h2, if_true, eq_comm]
  · have : c ≠ r := by rintro rfl; exact h2 h1
    simp [h1, h2, this]
  · have : r ≠ c := by rintro rfl; exact h1 h2
    simp [h1, h2, this]
  · simp [h1, h2]

/-- C43: a constrained row whose diagonal is not stored is undefined behaviour. -/
theorem C43_no_diagonal (r : Nat) (row : Row K) : dbcRow r row = none ↔ r ∉ row.map (·.1) := by
  unfold dbcRow
  constructor
  · intro h hm
    obtain ⟨hl, -⟩ := getElem_findIdx hm
    rw [if_pos hl] at h; simp at h
  · intro h
    rw [if_neg]
    intro hl
    obtain ⟨e, he, hc⟩ := List.findIdx_lt_length.1 hl
    exact h (List.mem_map.2 ⟨e, he, by simpa using hc⟩)

/-- A 3 by 3 symmetric system with the middle dof constrained. -/
def exRows : List (Row Rat) := [[(0, 2), (1, -1)], [(0, -1), (1, 2), (2, -1)], [(1, -1), (2, 2)]]

example : Wf (fun r => r == 1) (fun r => if r = 1 then [] else [1]) exRows := by
  constructor <;> · intro r h; have h3 : r < 3 := h; match r, h3 with
    | 0, _ => simp [exRows, subCols]
    | 1, _ => simp [exRows, subCols]
    | 2, _ => simp [exRows, subCols]

example : (apply (fun r => r == 1) (fun r => if r = 1 then [] else [1]) (fun _ _ => 5) exRows (fun _ _ => 1)).map
    (fun o => o.map fun q => (q.1, q.2 0)) =
    some [([(0, 2), (1, 0)], 6), ([(0, 0), (1, 1), (2, 0)], 5), ([(1, 0), (2, 2)], 6)] := by decide +kernel

/-! ### C44 -/

theorem runMin_eq (c : Nat) (rows : List (List (Option Nat))) :
    runMin c rows = (rows.filterMap fun row => (row[c]?).join).min? := by
  have key : ∀ (rows : List (List (Option Nat))) (cur : Option Nat),
      rows.foldl (fun cur row => minStep cur (row[c]?).join) cur = (cur.toList ++ rows.filterMap fun row => (row[c]?).join).min? := by
    intro rows
    induction rows with
    | nil => intro cur; cases cur <;> simp
    | cons a t ih =>
      intro cur
      rw [List.foldl_cons, ih]
      rcases h : (a[c]?).join with _ | e
      · simp only [minStep]; rw [List.filterMap_cons_none (f := fun row : List (Option Nat) => (row[c]?).join) h]
      · rw [List.filterMap_cons_some (f := fun row : List (Option Nat) => (row[c]?).join) h]
        cases cur with
        | none => simp [minStep]
        | some m => simp [minStep]; cases (List.filterMap (fun row : List (Option Nat) => (row[c]?).join) t).min? <;> simp [min_assoc]
  have := key rows none
  rw [Option.toList_none, List.nil_append] at this
  exact this

theorem mem_vals {c : Nat} {rows : List (List (Option Nat))} {v : Nat} :
    v ∈ rows.filterMap (fun row => (row[c]?).join) ↔ ∃ row ∈ rows, row[c]? = some (some v) := by
  simp [List.mem_filterMap, Option.join_eq_some_iff]

theorem runMin_some {c : Nat} {rows : List (List (Option Nat))} {v : Nat} :
    runMin c rows = some v ↔ (∃ row ∈ rows, row[c]? = some (some v)) ∧ ∀ row ∈ rows, ∀ w, row[c]? = some (some w) → v ≤ w := by
  rw [runMin_eq, List.min?_eq_some_iff, mem_vals]
  constructor
  · rintro ⟨h1, h2⟩; exact ⟨h1, fun row hr w hw => h2 w (mem_vals.2 ⟨row, hr, hw⟩)⟩
  · rintro ⟨h1, h2⟩; refine ⟨h1, fun w hw => ?_⟩
    obtain ⟨row, hr, hw⟩ := mem_vals.1 hw
    exact h2 row hr w hw

theorem runMin_none {c : Nat} {rows : List (List (Option Nat))} :
    runMin c rows = none ↔ ¬ ∃ row ∈ rows, ∃ v, row[c]? = some (some v) := by
  rw [runMin_eq, List.min?_eq_none_iff, List.eq_nil_iff_forall_not_mem]
  constructor
  · rintro h ⟨row, hr, v, hv⟩; exact h v (mem_vals.2 ⟨row, hr, hv⟩)
  · rintro h v hv; obtain ⟨row, hr, hv⟩ := mem_vals.1 hv; exact h ⟨row, hr, v, hv⟩

/-- The dofs of component `c` in the tables of all ranks. -/
def IsDof (tabs : List (List (List (Option Nat)))) (c v : Nat) : Prop := ∃ t ∈ tabs, ∃ row ∈ t, row[c]? = some (some v)

theorem foldl_min (l : List Nat) (m : Nat) : (∀ x ∈ l, l.foldl min m ≤ x) ∧ l.foldl min m ≤ m ∧ (l.foldl min m = m ∨ l.foldl min m ∈ l) := by
  induction l generalizing m with
  | nil => simp
  | cons a t ih =>
    rw [List.foldl_cons]
    obtain ⟨h1, h2, h3⟩ := ih (min m a)
    refine ⟨?_, h2.trans (min_le_left _ _), ?_⟩
    · intro x hx
      rcases List.mem_cons.1 hx with rfl | hx
      · exact h2.trans (min_le_right _ _)
      · exact h1 x hx
    · rcases h3 with h3 | h3
      · rcases min_choice m a with h | h
        · left; rw [h3, h]
        · right; rw [h3, h]; simp
      · right; exact List.mem_cons_of_mem _ h3

theorem glob_spec (tabs : List (List (List (Option Nat)))) (c : Nat) (hb : ∀ v, IsDof tabs c v → v < maxDof) (v : Nat) (hv : IsDof tabs c v) :
    IsDof tabs c ((tabs.map fun t => (runMin c t).getD maxDof).foldl min maxDof) ∧
    ∀ w, IsDof tabs c w → (tabs.map fun t => (runMin c t).getD maxDof).foldl min maxDof ≤ w := by
  obtain ⟨h1, h2, h3⟩ := foldl_min (tabs.map fun t => (runMin c t).getD maxDof) maxDof
  have hle : ∀ w, IsDof tabs c w → (tabs.map fun t => (runMin c t).getD maxDof).foldl min maxDof ≤ w := by
    rintro w ⟨t, ht, row, hr, hw⟩
    rcases hm : runMin c t with _ | m
    · exact absurd ⟨row, hr, w, hw⟩ (runMin_none.1 hm)
    · have := h1 m (List.mem_map.2 ⟨t, ht, by rw [hm]; rfl⟩)
      exact this.trans ((runMin_some.1 hm).2 row hr w hw)
  refine ⟨?_, hle⟩
  have hlt := (hle v hv).trans_lt (hb v hv)
  rcases h3 with h3 | h3
  · omega
  · obtain ⟨t, ht, he⟩ := List.mem_map.1 h3
    rcases hm : runMin c t with _ | m
    · rw [hm] at he; simp at he; omega
    · rw [hm] at he
      simp only [Option.getD_some] at he
      rw [← he]
      obtain ⟨row, hr, hw⟩ := (runMin_some.1 hm).1
      exact ⟨t, ht, row, hr, hw⟩

/-- The dofs constrained to normalise component `c` in the assembled system, over all ranks. -/
def Pinned (tabs : List (List (List (Option Nat)))) (c v : Nat) : Prop := ∃ r < tabs.length, normGlobal tabs c r = some v

/-- C44, assembled system: if the component has a dof, exactly one dof is constrained over all ranks: its least dof. -/
theorem C44_assembled_one (tabs : List (List (List (Option Nat)))) (c : Nat) (hb : ∀ v, IsDof tabs c v → v < maxDof)
    (hex : ∃ v, IsDof tabs c v) :
    ∃ v, IsDof tabs c v ∧ (∀ w, IsDof tabs c w → v ≤ w) ∧ ∀ w, Pinned tabs c w ↔ w = v := by
  obtain ⟨v, hv⟩ := hex
  obtain ⟨h1, h2⟩ := glob_spec tabs c hb v hv
  refine ⟨_, h1, h2, ?_⟩
  intro w
  constructor
  · rintro ⟨r, hr, h⟩
    unfold normGlobal at h
    simp only at h
    split at h
    · exact (Option.some.inj h).symm
    · simp at h
  · rintro rfl
    obtain ⟨t, ht, row, hrow, hval⟩ := h1
    obtain ⟨r, hr, rfl⟩ := List.getElem_of_mem ht
    refine ⟨r, hr, ?_⟩
    unfold normGlobal
    simp only
    rw [if_pos]
    rw [List.getElem?_map, List.getElem?_eq_getElem hr]
    simp only [Option.map_some, Option.getD_some]
    rcases hm : runMin c tabs[r] with _ | m
    · exact absurd ⟨row, hrow, _, hval⟩ (runMin_none.1 hm)
    · simp only [Option.getD_some]
      obtain ⟨⟨row', hr', hv'⟩, hmin⟩ := runMin_some.1 hm
      exact le_antisymm (hmin row hrow _ hval) (h2 m ⟨_, List.getElem_mem hr, row', hr', hv'⟩)

/-- C44, assembled system, violated: a component without any dof gives no error; every rank constrains the number `2^63 - 1`. -/
theorem C44_assembled_missing_violated (tabs : List (List (List (Option Nat)))) (c : Nat) (hno : ¬ ∃ v, IsDof tabs c v) (r : Nat) (hr : r < tabs.length) :
    normGlobal tabs c r = some maxDof := by
  have hall : ∀ t ∈ tabs, runMin c t = none := by
    intro t ht
    rw [runMin_none]
    rintro ⟨row, hrow, v, hv⟩
    exact hno ⟨v, t, ht, row, hrow, hv⟩
  have hmine : (tabs.map fun t => (runMin c t).getD maxDof) = tabs.map fun _ => maxDof :=
    List.map_congr_left fun t ht => by rw [hall t ht]; rfl
  have hg : (tabs.map fun t => (runMin c t).getD maxDof).foldl min maxDof = maxDof := by
    rw [hmine]
    clear hmine hall hr hno
    induction tabs with
    | nil => rfl
    | cons a t ih => simpa using ih
  unfold normGlobal
  simp only
  rw [if_pos, hg]
  rw [hg, hmine, List.getElem?_map, List.getElem?_eq_getElem hr]
  rfl

example : ∃ v, IsDof [[[some 4, none]], [], [[none, some 1], [some 7, none]]] 0 v := ⟨4, _, List.mem_cons_self, _, List.mem_cons_self, rfl⟩
example : ∃ tabs : List (List (List (Option Nat))), tabs.length = 2 ∧ ¬ ∃ v, IsDof tabs 1 v := by
  refine ⟨[[[some 0, none]], [[some 1, none]]], rfl, ?_⟩
  rintro ⟨v, t, ht, row, hr, hv⟩
  simp at ht
  rcases ht with rfl | rfl <;> · simp at hr; subst hr; simp at hv

theorem findIdx_least {α} (l : List α) (p : α → Bool) (r : Nat) (h : r < l.length) (hp : p l[r] = true) : l.findIdx p ≤ r := by
  by_contra hlt
  push Not at hlt
  have := List.not_of_lt_findIdx hlt
  rw [hp] at this; cases this

/-- C44, matrix-free system: whatever number of rows each rank looks at, the construction throws exactly if no rank sees a dof of
the component; otherwise exactly one rank constrains exactly one dof, which it sees. -/
theorem C44_matrix_free_one (tabs : List (Nat × List (List (Option Nat)))) (c : Nat) :
    (normLocal tabs c = none ↔ ¬ ∃ t ∈ tabs, ∃ row ∈ t.2.take t.1, ∃ v, row[c]? = some (some v)) ∧
    ∀ out, normLocal tabs c = some out → out.length = tabs.length ∧
      ∃ r v, r < tabs.length ∧ (∀ i, out[i]? = some (some v) ↔ i = r) ∧ (∀ i w, out[i]? = some (some w) → i = r ∧ w = v) ∧
        ∃ (h : r < tabs.length), ∃ row ∈ tabs[r].2.take tabs[r].1, row[c]? = some (some v) := by
  have hlt : ((tabs.map fun t => runMin c (t.2.take t.1)).findIdx fun m => m.isSome) < tabs.length ↔
      ∃ t ∈ tabs, ∃ row ∈ t.2.take t.1, ∃ v, row[c]? = some (some v) := by
    conv_lhs => rhs; rw [← List.length_map (as := tabs) (f := fun t => runMin c (t.2.take t.1))]
    rw [List.findIdx_lt_length]
    simp only [List.mem_map, exists_exists_and_eq_and]
    refine exists_congr fun t => and_congr_right fun _ => ?_
    rw [← not_iff_not, ← runMin_none]
    simp
  unfold normLocal
  simp only
  by_cases h : ((tabs.map fun t => runMin c (t.2.take t.1)).findIdx fun m => m.isSome) < tabs.length
  · rw [if_pos h]
    refine ⟨?_, ?_⟩
    · simp only [reduceCtorEq, false_iff, not_not]; exact hlt.1 h
    intro out ho
    obtain rfl := Option.some.inj ho
    refine ⟨by simp, ?_⟩
    set mine := tabs.map fun t => runMin c (t.2.take t.1) with hmine
    set k := mine.findIdx fun m => m.isSome with hk
    have hk' : k < mine.length := by rw [hmine, List.length_map]; exact h
    have hsome : (mine[k]).isSome = true := List.findIdx_getElem (w := hk')
    obtain ⟨v, hv⟩ := Option.isSome_iff_exists.1 hsome
    have hget : ∀ i, (mine.zipIdx.map fun m => if m.2 = k then m.1 else none)[i]? =
        if i < mine.length then some (if i = k then some v else none) else none := by
      intro i
      rw [List.getElem?_map, List.getElem?_zipIdx]
      by_cases hi : i < mine.length
      · rw [List.getElem?_eq_getElem hi, if_pos hi]
        simp only [Option.map_some, Nat.zero_add]
        by_cases hik : i = k
        · subst hik; simp [hv]
        · simp [hik]
      · rw [if_neg hi, List.getElem?_eq_none (by omega)]; rfl
    refine ⟨k, v, h, ?_, ?_, h, ?_⟩
    · intro i
      rw [hget]
      constructor
      · intro hh; split at hh
        · split at hh
          · assumption
          · simp at hh
        · simp at hh
      · rintro rfl; simp [hk']
    · intro i w hw
      rw [hget] at hw
      split at hw
      · split at hw
        · rename_i h2; simp at hw; exact ⟨h2, hw.symm⟩
        · simp at hw
      · simp at hw
    · have : mine[k] = runMin c (tabs[k].2.take tabs[k].1) := by simp [hmine]
      rw [this] at hv
      exact (runMin_some.1 hv).1
  · rw [if_neg h]
    refine ⟨?_, by simp⟩
    simp only [true_iff]
    exact fun hh => h (hlt.2 hh)

/-- A rank of the matrix-free system: its dof table (owned nodes first) and its numbers of owned nodes and owned dofs. -/
structure RankTab where
  table : List (List (Option Nat))
  ownedNodes : Nat
  ownedDofs : Nat

/-- The constructor's call, LocalDirichletBC.hpp 111-113: the number of owned *dofs* is passed as the number of nodes to look at. -/
def RankTab.passed (t : RankTab) : Nat × List (List (Option Nat)) := (t.ownedDofs, t.table)

/-- The full property for the matrix-free system: a normalised component with a dof on an owned node is accepted. -/
def C44Statement : Prop := ∀ (ranks : List RankTab) (c : Nat),
  (∀ t ∈ ranks, t.ownedDofs = (((t.table.take t.ownedNodes).flatten.filterMap id).length)) →
  (∃ t ∈ ranks, ∃ row ∈ t.table.take t.ownedNodes, ∃ v, row[c]? = some (some v)) → (normLocal (ranks.map RankTab.passed) c).isSome

/-- C44, matrix-free system, violated: two owned nodes, the only dof at the second one; the constructor looks at one node and
throws. -/
theorem C44_matrix_free_violated : ¬ C44Statement := by
  intro h
  have := h [⟨[[none], [some 0]], 2, 1⟩] 0 (by decide) ⟨_, List.mem_singleton_self _, [some 0], by decide, 0, rfl⟩
  revert this; decide

/-- C44, matrix-free system: with at least as many owned dofs as owned nodes on every rank, a component with a dof anywhere is
accepted, and exactly one dof is constrained. -/
theorem C44_matrix_free_partial (ranks : List RankTab) (c : Nat) (hge : ∀ t ∈ ranks, t.ownedNodes ≤ t.ownedDofs)
    (hex : ∃ t ∈ ranks, ∃ row ∈ t.table.take t.ownedNodes, ∃ v, row[c]? = some (some v)) :
    ∃ out, normLocal (ranks.map RankTab.passed) c = some out ∧ ∃ r v : Nat, ∀ i w : Nat, out[i]? = some (some w) ↔ i = r ∧ w = v := by
  obtain ⟨h1, h2⟩ := C44_matrix_free_one (ranks.map RankTab.passed) c
  rcases ho : normLocal (ranks.map RankTab.passed) c with _ | out
  · exfalso
    apply h1.1 ho
    obtain ⟨t, ht, row, hr, v, hv⟩ := hex
    refine ⟨t.passed, List.mem_map_of_mem ht, row, ?_, v, hv⟩
    exact (List.take_subset_take_left _ (hge t ht)) hr
  · obtain ⟨-, r, v, -, ha, hb, -⟩ := h2 out ho
    refine ⟨out, rfl, r, v, fun i w => ⟨hb i w, ?_⟩⟩
    rintro ⟨rfl, rfl⟩
    exact (ha i).2 rfl

example : ∃ ranks : List RankTab, (∀ t ∈ ranks, t.ownedNodes ≤ t.ownedDofs) ∧ ranks.length = 2 ∧
    (∃ t ∈ ranks, ∃ row ∈ t.table.take t.ownedNodes, ∃ v, row[1]? = some (some v)) :=
  ⟨[⟨[[some 0, none], [some 1, none]], 2, 2⟩, ⟨[[some 0, some 1], [some 2, none]], 1, 2⟩], by decide, rfl, ⟨[[some 0, some 1], [some 2, none]], 1, 2⟩, by simp, [some 0, some 1], by simp, 1, rfl⟩

end Verif.Dirichlet
