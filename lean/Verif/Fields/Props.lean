import Verif.Fields.Model
import Verif.Own.Props
import Verif.IntCast.Props

/-!
# C61: field storage
-/
namespace Verif.Fields
open Verif Verif.Own

variable {V : Type}

/-! ## Specification, free of the memory layout -/

/-- One operation on the table of values `node → field → value`. -/
def Op.apply : Op V → (Nat → Nat → V) → Nat → Nat → V
  | .const fs v, t => fun n f => if f ∈ fs then v else t n f
  | .view f' n' v, t => fun n f => if n = n' ∧ f = f' then v else t n f
  | .raw n' f' v, t => fun n f => if n = n' ∧ f = f' then v else t n f

/-- The table after a history: the last value written to each (node, field). -/
def table (init : V) (ops : List (Op V)) : Nat → Nat → V :=
  ops.foldl (fun t o => o.apply t) fun _ _ => init

/-- The operation addresses existing nodes and fields. -/
def Op.InRange (nNodes nFields : Nat) : Op V → Prop
  | .const fs _ => ∀ f ∈ fs, f < nFields
  | .view f n _ => n < nNodes ∧ f < nFields
  | .raw n f _ => n < nNodes ∧ f < nFields

/-! ## Lemmas -/

theorem fill_length (v : V) : ∀ (k p : Nat) (d : List V), (fill v p k d).length = d.length
  | 0, _, _ => rfl
  | k + 1, p, d => by rw [fill, fill_length v k]; simp

theorem fill_get (v : V) : ∀ (k p : Nat) (d : List V) (i : Nat), i < d.length →
    (fill v p k d)[i]? = if p ≤ i ∧ i < p + k then some v else d[i]?
  | 0, p, d, i, _ => by rw [if_neg (by omega)]; rfl
  | k + 1, p, d, i, h => by
    rw [fill, fill_get v k (p + 1) _ i (by simpa using h)]
    by_cases h1 : i = p
    · subst h1
      rw [if_neg (by omega), if_pos (by omega), List.getElem?_set_self h]
    · rw [List.getElem?_set_ne (Ne.symm h1)]
      exact if_congr (by omega) rfl rfl

theorem no_alias {N n n' f f' : Nat} (h : n < N) (h' : n' < N) (e : n + f * N = n' + f' * N) :
    n = n' ∧ f = f' := by
  have h1 : (n + f * N) % N = n := by rw [Nat.add_mul_mod_self_right, Nat.mod_eq_of_lt h]
  have h2 : (n' + f' * N) % N = n' := by rw [Nat.add_mul_mod_self_right, Nat.mod_eq_of_lt h']
  have h3 : (n + f * N) / N = f := by
    rw [Nat.add_mul_div_right _ _ (by omega), Nat.div_eq_of_lt h]; omega
  have h4 : (n' + f' * N) / N = f' := by
    rw [Nat.add_mul_div_right _ _ (by omega), Nat.div_eq_of_lt h']; omega
  exact ⟨by rw [← h1, ← h2, e], by rw [← h3, ← h4, e]⟩

theorem in_span {N n f f' : Nat} (h : n < N) :
    (f * N ≤ n + f' * N ∧ n + f' * N < f * N + N) ↔ f' = f := by
  constructor
  · rintro ⟨h1, h2⟩
    have e : n + f' * N = (n + f' * N - f * N) + f * N := by omega
    exact (no_alias h (by omega) e).2
  · rintro rfl; omega

theorem pos_lt {N F n f : Nat} (h : n < N) (hf : f < F) : n + f * N < N * F := by
  have : (f + 1) * N ≤ F * N := Nat.mul_le_mul_right _ hf
  rw [Nat.add_mul, Nat.one_mul] at this
  rw [Nat.mul_comm N F]; omega

/-- The memory holds the table. -/
def Holds (s : Sol V) (t : Nat → Nat → V) : Prop :=
  s.data.length = s.nNodes * s.nFields ∧
    ∀ n < s.nNodes, ∀ f < s.nFields, s.data[n + f * s.nNodes]? = some (t n f)

theorem holds_new (own : SegOwn) (F : Nat) (init : V) : Holds (new own F init) fun _ _ => init := by
  refine ⟨by simp [new, Sol.nNodes], fun n hn f hf => ?_⟩
  simp only [new, Sol.nNodes] at *
  rw [List.getElem?_replicate, if_pos (pos_lt hn hf)]

theorem fieldView_ok {s : Sol V} {t : Nat → Nat → V} (h : Holds s t) {f : Nat} (hf : f < s.nFields) :
    fieldView s f = .ok (f * s.nNodes) := by
  unfold fieldView
  rw [if_pos]
  have : (f + 1) * s.nNodes ≤ s.nFields * s.nNodes := Nat.mul_le_mul_right _ hf
  rw [Nat.add_mul, Nat.one_mul] at this
  rw [h.1, Nat.mul_comm s.nNodes]; exact this

theorem fieldView_ub {s : Sol V} {t : Nat → Nat → V} (h : Holds s t) {f : Nat} (hf : s.nFields ≤ f)
    (hN : 0 < s.nNodes) : fieldView s f = .ub := by
  unfold fieldView
  rw [if_neg]
  have : s.nFields * s.nNodes ≤ f * s.nNodes := Nat.mul_le_mul_right _ hf
  rw [h.1, Nat.mul_comm s.nNodes]; omega

theorem write_holds {s : Sol V} {t : Nat → Nat → V} (h : Holds s t) {n f : Nat} (hn : n < s.nNodes)
    (_hf : f < s.nFields) (v : V) :
    Holds { s with data := s.data.set (n + f * s.nNodes) v }
      fun n' f' => if n' = n ∧ f' = f then v else t n' f' := by
  refine ⟨by simpa [Sol.nNodes] using h.1, fun n' hn' f' hf' => ?_⟩
  have hn'' : n' < s.nNodes := hn'
  have hf'' : f' < s.nFields := hf'
  change (s.data.set (n + f * s.nNodes) v)[n' + f' * s.nNodes]? =
    some (if n' = n ∧ f' = f then v else t n' f')
  by_cases c : n' = n ∧ f' = f
  · obtain ⟨rfl, rfl⟩ := c
    rw [if_pos ⟨rfl, rfl⟩, List.getElem?_set_self (by rw [h.1]; exact pos_lt hn'' hf'')]
  · rw [if_neg c, List.getElem?_set_ne, h.2 n' hn'' f' hf'']
    intro e
    exact c ((no_alias hn hn'' e).imp Eq.symm Eq.symm)

theorem fill_holds {s : Sol V} {t : Nat → Nat → V} (h : Holds s t) (f : Nat) (v : V) :
    Holds { s with data := fill v (f * s.nNodes) s.nNodes s.data }
      fun n' f' => if f' = f then v else t n' f' := by
  refine ⟨by simpa [Sol.nNodes, fill_length] using h.1, fun n' hn' f' hf' => ?_⟩
  have hn'' : n' < s.nNodes := hn'
  have hf'' : f' < s.nFields := hf'
  change (fill v (f * s.nNodes) s.nNodes s.data)[n' + f' * s.nNodes]? =
    some (if f' = f then v else t n' f')
  rw [fill_get _ _ _ _ _ (by rw [h.1]; exact pos_lt hn'' hf'')]
  by_cases c : f' = f
  · rw [if_pos ((in_span hn'').2 c), if_pos c]
  · rw [if_neg (fun hh => c ((in_span hn'').1 hh)), if_neg c, h.2 n' hn'' f' hf'']

theorem setFields_holds (v : V) : ∀ (fs : List Nat) (s : Sol V) (t : Nat → Nat → V), Holds s t →
    (∀ f ∈ fs, f < s.nFields) →
    ∃ s', setFields v fs s = .ok s' ∧ s'.own = s.own ∧ s'.nFields = s.nFields ∧
      Holds s' fun n f => if f ∈ fs then v else t n f
  | [], s, t, h, _ => ⟨s, rfl, rfl, rfl, by simpa using h⟩
  | g :: fs, s, t, h, hr => by
    have hg := fieldView_ok h (hr g (by simp))
    obtain ⟨s', e, ho, hF, hh⟩ := setFields_holds v fs
      { s with data := fill v (g * s.nNodes) s.nNodes s.data } _ (fill_holds h g v)
      (fun f hf => hr f (by simp [hf]))
    refine ⟨s', ?_, ho, hF, hh.1, fun n hn f hf => ?_⟩
    · rw [setFields, setField, hg]; exact e
    · rw [hh.2 n hn f hf]
      beta_reduce
      by_cases c1 : f ∈ fs
      · rw [if_pos c1, if_pos (by simp [c1])]
      · rw [if_neg c1]
        exact congrArg some (if_congr (by simp [c1]) rfl rfl)

theorem step_holds {s : Sol V} {t : Nat → Nat → V} (h : Holds s t) (o : Op V)
    (ho : o.InRange s.nNodes s.nFields) :
    ∃ s', step s o = .ok s' ∧ s'.own = s.own ∧ s'.nFields = s.nFields ∧ Holds s' (o.apply t) := by
  cases o with
  | const fs v => exact setFields_holds v fs s t h ho
  | view f n v =>
    obtain ⟨hn, hf⟩ := ho
    refine ⟨{ s with data := s.data.set (n + f * s.nNodes) v }, ?_, rfl, rfl, write_holds h hn hf v⟩
    simp only [step, viewWrite, if_pos hn, fieldView_ok h hf, Out.bind, store]
    rw [if_pos (by rw [h.1, Nat.add_comm]; exact pos_lt hn hf), Nat.add_comm]
  | raw n f v =>
    obtain ⟨hn, hf⟩ := ho
    refine ⟨{ s with data := s.data.set (n + f * s.nNodes) v }, ?_, rfl, rfl, write_holds h hn hf v⟩
    simp only [step, rawWrite, if_pos (show n < s.nNodes ∧ f < s.nFields from ⟨hn, hf⟩), store]
    rw [if_pos (by rw [h.1]; exact pos_lt hn hf)]
    rfl

theorem run_holds (ops : List (Op V)) (s : Sol V) (t : Nat → Nat → V) (h : Holds s t)
    (hr : ∀ o ∈ ops, o.InRange s.nNodes s.nFields) :
    ∃ s', run ops s = .ok s' ∧ s'.own = s.own ∧ s'.nFields = s.nFields ∧
      Holds s' (ops.foldl (fun t o => o.apply t) t) := by
  induction ops generalizing s t with
  | nil => exact ⟨s, rfl, rfl, rfl, h⟩
  | cons o os ih =>
    obtain ⟨s1, e1, o1, f1, h1⟩ := step_holds h o (hr o (by simp))
    obtain ⟨s2, e2, o2, f2, h2⟩ := ih s1 _ h1 (fun o' ho' => by
      have := hr o' (by simp [ho'])
      rw [f1]; simpa [Sol.nNodes, o1] using this)
    exact ⟨s2, by rw [run, e1]; exact e2, o2.trans o1, f2.trans f1, h2⟩

theorem castIndex_ok (src : IntCast.IntTy) (hs : src.Valid) (f : Nat) (hr : IntCast.Representable src f)
    (hf : f < 2 ^ 32) : castIndex src f = .ok f := by
  unfold castIndex
  rw [IntCast.C06_exact_cast_partial src u32 hs ⟨by decide, by decide⟩ f hr (Or.inl (by omega)), if_pos]
  · simp
  · simp [IntCast.Representable, u32]; omega

/-! ## Theorems -/

/-- **C61** (reader agrees with writer).  For every node ownership, number of fields, initial value
and history of in-range writes — constant fills of several fields, writes through field views and
through the raw view — the history runs without error, and afterwards every way of reading (node, field)
returns the last value written there: field view, raw view, the node value getters, and `FieldAccess`
with local or global node indices and any integer index type. -/
theorem C61_last_write (own : SegOwn) (F : Nat) (init : V) (ops : List (Op V))
    (hr : ∀ o ∈ ops, o.InRange own.localSize F) :
    ∃ s, run ops (new own F init) = .ok s ∧
      ∀ n < own.localSize, ∀ f < F,
        viewRead s f n = .ok (table init ops n f) ∧ rawRead s n f = .ok (table init ops n f) ∧
        nodeValueLocal s n f = .ok (table init ops n f) ∧
        (∀ src : IntCast.IntTy, src.Valid → IntCast.Representable src f → f < 2 ^ 32 →
          accessLocal src s f n = .ok (table init ops n f)) ∧
        (f < 2 ^ 32 → getterLocal s f n = .ok (table init ops n f)) := by
  obtain ⟨s, e, ho, hF, h⟩ := run_holds ops (new own F init) _ (holds_new own F init) hr
  have hN : s.nNodes = own.localSize := by simp [Sol.nNodes, ho, new]
  have hF' : s.nFields = F := hF
  refine ⟨s, e, fun n hn f hf => ?_⟩
  have hn' : n < s.nNodes := by rw [hN]; exact hn
  have hf' : f < s.nFields := by rw [hF']; exact hf
  have hd : s.data[n + f * s.nNodes]? = some (table init ops n f) := h.2 n hn' f hf'
  have hv : viewRead s f n = .ok (table init ops n f) := by
    simp only [viewRead, if_pos hn', fieldView_ok h hf', Out.bind, load]
    rw [Nat.add_comm, hd]
  have ha : accessRead s f n = .ok (table init ops n f) := by
    have hd' : s.data[n + f * s.own.localSize]? = some (table init ops n f) := hd
    simp only [accessRead, load, hd']
  have hl : ∀ src : IntCast.IntTy, src.Valid → IntCast.Representable src f → f < 2 ^ 32 →
      accessLocal src s f n = .ok (table init ops n f) := fun src hs hr hlt => by
    rw [accessLocal, castIndex_ok src hs f hr hlt]; exact ha
  refine ⟨hv, ?_, hv, hl, fun hlt => ?_⟩
  · simp only [rawRead, if_pos (show n < s.nNodes ∧ f < s.nFields from ⟨hn', hf'⟩), load, hd]
  · rw [getterLocal, Nat.mod_eq_of_lt hlt]
    exact hl u32 ⟨by decide, by decide⟩ (by simp [IntCast.Representable, u32]; omega) hlt

/-- **C61** (global node ids): for an ownership built from a contiguous range and duplicate-free
ghosts, reading by global node id returns the value of that node: two known ids share a value slot only
when they are the same node. -/
theorem C61_global (first cnt : Nat) (sh : List Nat) (hsh : sh.Nodup) (own : SegOwn)
    (hm : SegOwn.make first cnt sh = some own) (F : Nat) (init : V) (ops : List (Op V))
    (hr : ∀ o ∈ ops, o.InRange own.localSize F) :
    ∃ s, run ops (new own F init) = .ok s ∧
      (∀ g, (first ≤ g ∧ g < first + cnt) ∨ g ∈ sh → ∀ f < F,
        nodeValueGlobal s g f = .ok (table init ops (own.getLocal g) f) ∧
        ∀ src : IntCast.IntTy, src.Valid → IntCast.Representable src f → f < 2 ^ 32 →
          accessGlobal src s f g = .ok (table init ops (own.getLocal g) f)) ∧
      ∀ g g', ((first ≤ g ∧ g < first + cnt) ∨ g ∈ sh) → ((first ≤ g' ∧ g' < first + cnt) ∨ g' ∈ sh) →
        own.getLocal g = own.getLocal g' → g = g' := by
  obtain ⟨s, e, hs⟩ := C61_last_write own F init ops hr
  have ho : s.own = own := by
    obtain ⟨s', e', ho, _⟩ := run_holds ops (new own F init) _ (holds_new own F init) hr
    rw [e] at e'; injection e' with e'; rw [e', ho]; rfl
  refine ⟨s, e, fun g hg f hf => ?_, fun g g' hg hg' ee => ?_⟩
  · have hl := (C08_global_local_global first cnt sh hsh own hm g hg).2.1
    have := hs _ hl f hf
    refine ⟨?_, fun src h1 h2 h3 => ?_⟩
    · rw [nodeValueGlobal, ho]; exact this.1
    · rw [accessGlobal, ho]; exact this.2.2.2.1 src h1 h2 h3
  · have h1 := (C08_global_local_global first cnt sh hsh own hm g hg).1
    have h2 := (C08_global_local_global first cnt sh hsh own hm g' hg').1
    rw [ee, h2] at h1
    exact (Option.some.inj h1).symm

/-- **C61** (no aliasing): a write to one (node, field) changes what is read at no other pair. -/
theorem C61_no_alias (own : SegOwn) (F : Nat) (init : V) (ops : List (Op V))
    (hr : ∀ o ∈ ops, o.InRange own.localSize F) (n f n' f' : Nat) (hn : n < own.localSize) (hf : f < F)
    (hn' : n' < own.localSize) (hf' : f' < F) (hne : (n, f) ≠ (n', f')) (v : V) :
    ∃ s s', run ops (new own F init) = .ok s ∧ run (ops ++ [.view f n v]) (new own F init) = .ok s' ∧
      viewRead s' f n = .ok v ∧ viewRead s' f' n' = viewRead s f' n' := by
  obtain ⟨s, e, hs⟩ := C61_last_write own F init ops hr
  obtain ⟨s', e', hs'⟩ := C61_last_write own F init (ops ++ [.view f n v]) (fun o ho => by
    rw [List.mem_append, List.mem_singleton] at ho
    rcases ho with ho | rfl
    · exact hr o ho
    · exact ⟨hn, hf⟩)
  refine ⟨s, s', e, e', ?_, ?_⟩
  · rw [(hs' n hn f hf).1]; simp [table, Op.apply]
  · rw [(hs' n' hn' f' hf').1, (hs n' hn' f' hf').1]
    simp only [table, List.foldl_append, List.foldl_cons, List.foldl_nil, Op.apply]
    rw [if_neg]
    rintro ⟨rfl, rfl⟩; exact hne rfl

/-- The statement's last part: out-of-range fields throw, whichever function they are passed to. -/
def C61Statement : Prop :=
  ∀ (own : SegOwn) (F : Nat) (init : Nat) (f n : Nat), F ≤ f → n < own.localSize →
    viewRead (new own F init) f n = .throws ∧
    setFields init [f] (new own F init) = .throws ∧
    accessLocal IntCast.uintmax (new own F init) f n = .throws ∧ getterLocal (new own F init) f n = .throws

/-- **C61**: out-of-range fields do not throw.  What happens instead, for every size: field views and
constant fills leave the allocation (undefined behaviour), and so does a field access unless the index
fails to fit 32 bits. -/
theorem C61_out_of_range (own : SegOwn) (F : Nat) (init v : V) (f n : Nat) (hf : F ≤ f)
    (hn : n < own.localSize) :
    viewRead (new own F init) f n = .ub ∧ setFields v [f] (new own F init) = .ub ∧
    (f < 2 ^ 32 → accessLocal IntCast.uintmax (new own F init) f n = .ub) ∧
    (2 ^ 32 ≤ f → f < 2 ^ 64 → accessLocal IntCast.uintmax (new own F init) f n = .throws) := by
  have hh := holds_new own F init
  have hN : 0 < (new own F init).nNodes := by simp only [Sol.nNodes, new]; omega
  have hub := fieldView_ub hh (show (new own F init).nFields ≤ f from hf) hN
  refine ⟨?_, ?_, fun hlt => ?_, fun h1 h2 => ?_⟩
  · rw [viewRead, if_pos (show n < (new own F init).nNodes from hn), hub]; rfl
  · rw [setFields, setField, hub]; rfl
  · rw [accessLocal, castIndex_ok _ ⟨by decide, by decide⟩ f
      (by simp [IntCast.Representable, IntCast.uintmax]; omega) hlt]
    change load _ _ = _
    unfold load
    rw [List.getElem?_eq_none]
    have : F * own.localSize ≤ f * own.localSize := Nat.mul_le_mul_right _ hf
    simp only [new, List.length_replicate]
    rw [Nat.mul_comm own.localSize]; omega
  · have hr : IntCast.Representable IntCast.uintmax (f : Int) := by
      simp [IntCast.Representable, IntCast.uintmax]; omega
    have : castIndex IntCast.uintmax (f : Int) = .throws := by
      unfold castIndex
      rw [IntCast.C06_exact_cast_partial _ u32 ⟨by decide, by decide⟩ ⟨by decide, by decide⟩ _ hr
        (Or.inl (by omega)), if_neg]
      simp [IntCast.Representable, u32]; omega
    rw [accessLocal, this]; rfl

/-- **C61** fails as stated: with one node and one field, field 1 is undefined behaviour, not an
exception; and the range overload of `makeFieldValueGetter` silently returns field 0 for index 2^32. -/
theorem C61_violated : ¬ C61Statement ∧
    getterLocal (new ⟨0, 1, []⟩ 1 (7 : Nat)) (2 ^ 32) 0 = .ok 7 := by
  refine ⟨fun h => ?_, by decide⟩
  have h1 := (h ⟨0, 1, []⟩ 1 7 1 0 (by decide) (by decide)).1
  rw [(C61_out_of_range ⟨0, 1, []⟩ 1 7 7 1 0 (by decide) (by decide)).1] at h1
  cases h1

/-- **C61**, the part that holds: everything about in-range fields, in one statement.  Missing: the
exception for out-of-range fields. -/
theorem C61_partial (own : SegOwn) (F : Nat) (init : V) (ops : List (Op V))
    (hr : ∀ o ∈ ops, o.InRange own.localSize F) :
    ∃ s, run ops (new own F init) = .ok s ∧
      ∀ n < own.localSize, ∀ f < F, f < 2 ^ 32 → ∀ src : IntCast.IntTy, src.Valid →
        IntCast.Representable src f → accessLocal src s f n = .ok (table init ops n f) := by
  obtain ⟨s, e, h⟩ := C61_last_write own F init ops hr
  exact ⟨s, e, fun n hn f hf h1 src h2 h3 => (h n hn f hf).2.2.2.1 src h2 h3 h1⟩

/-! ## Examples -/

/-- Two owned nodes and one ghost, two fields, a history with fills and single writes. -/
def exOwn : SegOwn := ⟨10, 2, [4]⟩
def exOps : List (Op Nat) := [.const [0, 1] 5, .view 1 2 8, .raw 0 0 3, .const [1] 6, .view 1 0 9]

example : ∀ o ∈ exOps, o.InRange exOwn.localSize 2 := by
  intro o ho
  simp only [exOps, List.mem_cons, List.not_mem_nil, or_false] at ho
  rcases ho with rfl | rfl | rfl | rfl | rfl <;> simp [Op.InRange, exOwn, SegOwn.localSize]
example : SegOwn.make 10 2 [4] = some exOwn := by decide
example : (run exOps (new exOwn 2 0)).bind (fun s => .ok s.data) = .ok [3, 5, 5, 9, 6, 6] := by decide
example : (run exOps (new exOwn 2 0)).bind (fun s => accessGlobal IntCast.uintmax s 1 4) = .ok 6 := by decide

end Verif.Fields
