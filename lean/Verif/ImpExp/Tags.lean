import Verif.ImpExp.Lemmas
import Mathlib.Logic.Function.Basic

/-! # C48: message tags of import/export objects

Source: `/repo/include/l3ster/comm/ImportExport.hpp` lines 75-112.  Scalar types are numbered; `id_counter` (line 81) is a static
member of a class template, i.e. there is one per scalar type, shared by `Import` and `Export`. -/
namespace Verif.ImpExp

/-- The values of `id_counter` (`unsigned short`, initially 1), by scalar type. -/
abbrev Counters := Nat → Nat

def Counters.init : Counters := fun _ => 1

/-- What creation of an object fixes: scalar type, `id_mask & id_counter` and number of vectors. -/
structure Obj where
  ty : Nat
  id : Nat
  nv : Nat
deriving DecidableEq, Repr

/-- The constructor, 102-112: `id_counter++` wraps at 2¹⁶; `tagUb` is `getMaxMpiTag()`.  The counter is advanced before the
assertions are checked, so also by a throwing constructor (`none`). -/
def create (c : Counters) (ty nv tagUb : Nat) : Counters × Option Obj :=
  (Function.update c ty ((c ty + 1) % 65536),
    if nv < 4096 ∧ makeTag (c ty) 4095 ≤ tagUb then some ⟨ty, (c ty) % 256, nv⟩ else none)

/-- All objects of a history of creations (scalar type, number of vectors), with one MPI limit. -/
def history (tagUb : Nat) : Counters → List (Nat × Nat) → List (Option Obj)
  | _, [] => []
  | c, (ty, nv) :: es => (create c ty nv tagUb).2 :: history tagUb (create c ty nv tagUb).1 es

/-- Tag of vector `v` of an object. -/
def Obj.tag (o : Obj) (v : Nat) : Nat := makeTag o.id v

theorem makeTag_mod (id v : Nat) (h : v < 4096) : makeTag (id % 256) v = makeTag id v := by
  rw [makeTag_eq _ _ h, makeTag_eq _ _ h]; omega

/-- Number of creations of type `t`. -/
def countTy (t : Nat) (es : List (Nat × Nat)) : Nat := (es.filter fun e => e.1 == t).length

theorem history_get (ub : Nat) : ∀ (es : List (Nat × Nat)) (c : Counters) (k : Nat) (o : Obj), (history ub c es)[k]? = some (some o) →
    ∃ e, es[k]? = some e ∧ o.ty = e.1 ∧ o.nv = e.2 ∧ o.nv < 4096 ∧ o.id = (c o.ty + countTy o.ty (es.take k)) % 256 ∧ makeTag o.id 4095 ≤ ub := by
  intro es
  induction es with
  | nil => intro c k o h; simp [history] at h
  | cons e es ih =>
    intro c k o h
    obtain ⟨ty, nv⟩ := e
    cases k with
    | zero =>
      simp only [history, List.getElem?_cons_zero, Option.some.injEq, create] at h
      split at h
      · rename_i hc
        obtain rfl := Option.some.inj h
        refine ⟨(ty, nv), rfl, rfl, rfl, hc.1, by simp [countTy], ?_⟩
        rw [makeTag_mod _ _ (by omega)]; exact hc.2
      · cases h
    | succ k =>
      simp only [history, List.getElem?_cons_succ] at h
      obtain ⟨e, h1, h2, h3, h4, h5, h6⟩ := ih _ k o h
      refine ⟨e, by simpa using h1, h2, h3, h4, ?_, h6⟩
      rw [h5]
      simp only [create, Function.update_apply, List.take_succ_cons, countTy, List.filter_cons]
      by_cases ht : o.ty = ty
      · simp [ht]; omega
      · rw [if_neg ht, if_neg (by simpa using Ne.symm ht)]

/-- C48 (within one object): in every creation history, the vectors of an object use different tags and every tag is within the
limit reported by MPI. -/
theorem C48_within {ub : Nat} {es : List (Nat × Nat)} {k : Nat} {o : Obj} (h : (history ub .init es)[k]? = some (some o)) :
    (∀ v < o.nv, o.tag v ≤ ub) ∧ ∀ v < o.nv, ∀ v' < o.nv, o.tag v = o.tag v' → v = v' := by
  obtain ⟨e, h1, h2, h3, h4, h5, h6⟩ := history_get ub es _ k o h
  refine ⟨fun v hv => ?_, fun v hv v' hv' e => makeTag_inj o.id (by omega) (by omega) e⟩
  refine le_trans ?_ h6
  unfold Obj.tag
  rw [makeTag_eq _ _ (by omega), makeTag_eq _ _ (by omega)]; omega

/-- C48, as documented: any two objects ever created differ in all tags. -/
def C48Statement : Prop :=
  ∀ (ub : Nat) (es : List (Nat × Nat)) (i j : Nat) (o o' : Obj), i ≠ j → (history ub .init es)[i]? = some (some o) →
    (history ub .init es)[j]? = some (some o') → ∀ v < o.nv, ∀ v' < o'.nv, o.tag v ≠ o'.tag v'

/-- C48: two objects use a common tag exactly if the numbers of earlier objects of their own scalar types are congruent modulo 256. -/
theorem C48_collide_iff {ub : Nat} {es : List (Nat × Nat)} {i j : Nat} {o o' : Obj} (h : (history ub .init es)[i]? = some (some o))
    (h' : (history ub .init es)[j]? = some (some o')) (v v' : Nat) (hv : v < o.nv) (hv' : v' < o'.nv) :
    o.tag v = o'.tag v' ↔ v = v' ∧ countTy o.ty (es.take i) % 256 = countTy o'.ty (es.take j) % 256 := by
  obtain ⟨e, h1, h2, h3, h4, h5, h6⟩ := history_get ub es _ i o h
  obtain ⟨e', g1, g2, g3, g4, g5, g6⟩ := history_get ub es _ j o' h'
  unfold Obj.tag
  rw [makeTag_eq _ _ (by omega), makeTag_eq _ _ (by omega), h5, g5]
  simp only [Counters.init]
  omega

theorem countTy_take_succ {es : List (Nat × Nat)} {i : Nat} {e : Nat × Nat} (h : es[i]? = some e) :
    countTy e.1 (es.take (i + 1)) = countTy e.1 (es.take i) + 1 := by
  obtain ⟨hi, rfl⟩ := List.getElem?_eq_some_iff.1 h
  unfold countTy
  rw [List.take_succ_eq_append_getElem hi, List.filter_append, List.length_append]
  congr 1
  rw [List.filter_cons, if_pos (by simp)]
  rfl

theorem countTy_mono (t : Nat) (es : List (Nat × Nat)) {i j : Nat} (h : i ≤ j) : countTy t (es.take i) ≤ countTy t (es.take j) := by
  obtain ⟨d, rfl⟩ := Nat.exists_eq_add_of_le h
  rw [List.take_add]
  simp [countTy]

/-- C48 (partial): objects of the same scalar type between whose creations fewer than 256 objects of that type are created never
share a tag.  Missing: objects of different scalar types, and objects further apart (both false, see below). -/
theorem C48_partial {ub : Nat} {es : List (Nat × Nat)} {i j : Nat} {o o' : Obj} (hij : i < j) (h : (history ub .init es)[i]? = some (some o))
    (h' : (history ub .init es)[j]? = some (some o')) (ht : o.ty = o'.ty)
    (hd : countTy o.ty (es.take j) < countTy o.ty (es.take i) + 256) (v v' : Nat) (hv : v < o.nv) (hv' : v' < o'.nv) : o.tag v ≠ o'.tag v' := by
  intro e
  obtain ⟨-, hc⟩ := (C48_collide_iff h h' v v' hv hv').1 e
  rw [← ht] at hc
  obtain ⟨e, h1, h2, -⟩ := history_get ub es _ i o h
  have := countTy_take_succ h1
  have := countTy_mono o.ty es (show i + 1 ≤ j by omega)
  rw [← h2] at *
  omega

/-- C48 fails: the first object with scalar type 0 (say `double`) and the first with type 1 (say `int`) use the same tags. -/
theorem C48_violated : ¬ C48Statement := by
  intro h
  exact h (2 ^ 20) [(0, 1), (1, 1)] 0 1 ⟨0, 1, 1⟩ ⟨1, 1, 1⟩ (by decide) (by decide) (by decide) 0 (by decide) 0 (by decide) (by decide)

/-- C48 fails also for one scalar type: the 257th object uses the tags of the first. -/
theorem C48_same_type_violated : ∃ (ub : Nat) (es : List (Nat × Nat)) (i j : Nat) (o o' : Obj), i ≠ j ∧ (∀ e ∈ es, e.1 = 0) ∧
    (history ub .init es)[i]? = some (some o) ∧ (history ub .init es)[j]? = some (some o') ∧ o.tag 0 = o'.tag 0 ∧ 0 < o.nv ∧ 0 < o'.nv :=
  ⟨2 ^ 20, List.replicate 257 (0, 1), 0, 256, ⟨0, 1, 1⟩, ⟨0, 1, 1⟩, by decide, fun e he => by rw [List.eq_of_mem_replicate he], by decide +kernel, by decide +kernel, rfl, by decide, by decide⟩

/-- Five objects of two types: the third and the fifth differ. -/
example : ∃ o o', (history (2 ^ 20) .init [(0, 1), (1, 2), (0, 3), (1, 1), (0, 2)])[2]? = some (some o) ∧
    (history (2 ^ 20) .init [(0, 1), (1, 2), (0, 3), (1, 1), (0, 2)])[4]? = some (some o') ∧ o.ty = o'.ty ∧ o.tag 1 ≠ o'.tag 1 :=
  ⟨⟨0, 2, 3⟩, ⟨0, 3, 2⟩, by decide, by decide, rfl, by decide⟩

end Verif.ImpExp
