import Verif.Coll.Lemmas
import Mathlib.Algebra.BigOperators.Field
import Mathlib.Algebra.BigOperators.Group.List.Basic
import Mathlib.Tactic.FieldSimp
import Mathlib.Data.Fin.VecNotation

/-!
# C101: typed communication moves whole elements

Properties of `MpiComm` (comm/MpiComm.hpp) at the level of elements.  `units` is injective
(`units_injective`), so equality of memories is equality of lists of elements.
-/

namespace Verif.Coll

variable {U : Type}

/-- C101, point to point: a message of `n` elements received into a buffer of at least `n` elements
overwrites the first `n` of them and nothing else, whatever the element type; the number of elements
reported by a probe is `n`. -/
theorem C101_send_receive {w : Nat} (hw : 0 < w) (data recv : List (Elem U w))
    (hr : data.length ≤ recv.length) (hs : recv.length * w < 2147483648) :
    sendRecv data recv = .ok (units (data ++ recv.drop data.length)) ∧
    numElems (w := w) (parse data) = data.length := by
  have hle : data.length * w ≤ recv.length * w := Nat.mul_le_mul_right w hr
  have hd : data.length * w < 2147483648 := by omega
  refine ⟨?_, ?_⟩
  · unfold sendRecv mpiSendRecv
    rw [parse_count hd, parse_count hs]
    rw [if_neg (by omega), if_neg (by simp only [parse, units_length, Int.toNat_natCast]; omega)]
    simp only [parse, Int.toNat_natCast, units_append, units_drop]
    rw [List.take_of_length_le (by simp)]
  · unfold numElems
    rw [parse_count hd, ← Int.ofNat_tdiv, Nat.mul_div_cancel _ hw]

example : sendRecv (w := 2) [![1, 2], ![3, 4]] [![0, 0], ![0, 0], ![7, 8]] = .ok [1, 2, 3, 4, 7, 8] := by
  decide

/-- C101, a receive buffer that is too small is reported. -/
theorem C101_truncation {w : Nat} (hw : 0 < w) (data recv : List (Elem U w))
    (hr : recv.length < data.length) (hs : data.length * w < 2147483648) :
    sendRecv data recv = .error := by
  have hlt : recv.length * w < data.length * w := Nat.mul_lt_mul_of_pos_right hr hw
  unfold sendRecv mpiSendRecv
  rw [parse_count hs, parse_count (by omega), if_pos (by omega)]

example : sendRecv (w := 2) [![1, 2], ![3, 4]] [![0, 0]] = .error := by decide

/-- C101, gather: when every rank contributes `n` elements, the root receives the contributions of
all ranks, in the order of the ranks, and the rest of its buffer is left alone. -/
theorem C101_gather {w : Nat} (datas : List (List (Elem U w))) (outs : List (Option (List (Elem U w))))
    (root n : Nat) (out : List (Elem U w))
    (hroot : root < datas.length) (hn : ∀ d ∈ datas, d.length = n) (hsz : n * w < 2147483648)
    (houts : ∀ o ∈ outs, ∃ x l, o = some (x :: l)) (hout : outs[root]? = some (some out))
    (hfit : datas.length * n ≤ out.length) :
    gather datas outs root = .ok (units (datas.flatten ++ out.drop (datas.length * n))) := by
  unfold gather
  rw [any_not_derefable houts, if_neg (by simp)]
  have hc : ∀ d ∈ datas, (parse d).count = ((n * w : Nat) : Int) := by
    intro d hd
    rw [parse_count (by rw [hn d hd]; exact hsz), hn d hd]
  rw [hc _ (getD_mem' datas [] hroot)]
  have ho : (outs.getD root none).getD [] = out := by
    rw [List.getD_eq_getElem?_getD, hout]; rfl
  rw [ho]
  have hlen : datas.length * (n * w) = datas.length * n * w := by ring
  unfold mpiGather
  rw [if_neg (by
    rintro (h | ⟨v, hv, h⟩)
    · omega
    · obtain ⟨d, hd, rfl⟩ := List.mem_map.1 hv
      exact h (hc d hd))]
  rw [if_neg (by
    rintro (h | ⟨v, hv, h⟩)
    · have hm := Nat.mul_le_mul_right w hfit
      simp only [units_length, Int.toNat_natCast, List.length_map, hlen] at h
      omega
    · obtain ⟨d, hd, rfl⟩ := List.mem_map.1 hv
      simp only [parse, units_length, Int.toNat_natCast, hn d hd] at h
      omega)]
  congr 1
  rw [units_append, units_flatten, units_drop, List.map_map, List.length_map, Int.toNat_natCast, hlen]
  congr 2
  refine List.map_congr_left fun d hd => ?_
  show (units d).take (n * w) = units d
  rw [List.take_of_length_le (by rw [units_length, hn d hd])]

example : gather (w := 2) [[![1, 2]], [![3, 4]]]
    [some [![0, 0], ![0, 0], ![9, 9]], some [![0, 0]]] 0 = .ok [1, 2, 3, 4, 9, 9] := by decide

/-- C101, all-gather: every rank obtains the contributions of all ranks in the order of the ranks. -/
theorem C101_all_gather {w : Nat} (datas : List (List (Elem U w)))
    (outs : List (List (Elem U w))) (n : Nat) (hn : ∀ d ∈ datas, d.length = n)
    (hsz : n * w < 2147483648) (hlen : outs.length = datas.length)
    (hne : ∀ o ∈ outs, o ≠ []) (hfit : ∀ o ∈ outs, datas.length * n ≤ o.length) (r : Nat)
    (hr : r < datas.length) :
    allGather datas (outs.map some) r =
      .ok (units (datas.flatten ++ (outs.getD r []).drop (datas.length * n))) := by
  refine C101_gather datas _ r n (outs.getD r []) hr hn hsz ?_ ?_ ?_
  · intro o ho
    obtain ⟨l, hl, rfl⟩ := List.mem_map.1 ho
    cases l with
    | nil => exact absurd rfl (hne _ hl)
    | cons x l => exact ⟨x, l, rfl⟩
  · rw [List.getElem?_map, List.getD_eq_getElem?_getD, List.getElem?_eq_getElem (by omega)]
    rfl
  · exact hfit _ (getD_mem' outs [] (by omega))

example : allGather (w := 1) [[![1]], [![3]]] [some [![0], ![0]], some [![0], ![5]]] 1 = .ok [1, 3] := by
  decide

/-- C101, broadcast: when all ranks pass buffers of the same size, all of them end up with the
elements of the root. -/
theorem C101_broadcast {w : Nat} (bufs : List (List (Elem U w))) (root n : Nat)
    (hroot : root < bufs.length) (hn : ∀ d ∈ bufs, d.length = n) (hsz : n * w < 2147483648) :
    broadcast bufs root = .ok (bufs.map fun _ => units (bufs.getD root [])) := by
  have hc : ∀ d ∈ bufs, (parse d).count = ((n * w : Nat) : Int) := by
    intro d hd
    rw [parse_count (by rw [hn d hd]; exact hsz), hn d hd]
  have hg := getD_mem' bufs [] hroot
  unfold broadcast mpiBcast
  rw [hc _ hg]
  rw [if_neg (by
    rintro (h | ⟨v, hv, h⟩)
    · omega
    · obtain ⟨d, hd, rfl⟩ := List.mem_map.1 hv
      exact h (hc d hd))]
  rw [if_neg (by
    rintro ⟨v, hv, h⟩
    obtain ⟨d, hd, rfl⟩ := List.mem_map.1 hv
    simp only [parse, units_length, Int.toNat_natCast, hn d hd] at h
    omega)]
  congr 1
  rw [List.map_map]
  refine List.map_congr_left fun d hd => ?_
  show (units _).take _ ++ (units d).drop _ = _
  rw [Int.toNat_natCast, List.take_of_length_le (by rw [units_length, hn _ hg]),
    List.drop_of_length_le (by rw [units_length, hn d hd]), List.append_nil]

example : broadcast (w := 2) [[![1, 2]], [![3, 4]]] 1 = .ok [[3, 4], [3, 4]] := by decide

/-- C101, full statement for `scatter`, for elements of `w` units: if the root passes `k` elements for
each rank and every rank an output span of `k` elements, then rank `i` obtains the `i`-th block. -/
def ScatterStatement (U : Type) (w : Nat) : Prop :=
  ∀ (data : List (Elem U w)) (outs : List (List (Elem U w))) (k : Nat),
    outs ≠ [] → (∀ o ∈ outs, o.length = k) → data.length = outs.length * k →
    data.length * w < 2147483648 →
    scatter data outs = .ok (outs.mapIdx fun i _ => units (block data k i))

theorem mapM_scatterRecv {w : Nat} (outs : List (List (Elem U w))) (k : Nat)
    (h : ∀ o ∈ outs, o.length = k) (hk : k < 2147483648) :
    outs.mapM scatterRecv = some (outs.map fun o => ⟨units o, (k : Int)⟩) := by
  induction outs with
  | nil => rfl
  | cons o outs ih =>
    rw [List.mapM_cons, ih (fun x hx => h x (by simp [hx]))]
    simp [scatterRecv, exactInt, h o (by simp), hk]

/-- C101, scatter of elements with a built-in MPI datatype. -/
theorem C101_scatter_partial : ScatterStatement U 1 := by
  intro data outs k hne hk hd hsz
  have hP : 0 < outs.length := List.length_pos_of_ne_nil hne
  have hkb : k < 2147483648 := by
    have := Nat.le_mul_of_pos_left k hP
    omega
  have hc : (parse data).count = ((outs.length * k : Nat) : Int) := by
    rw [parse_count hsz, hd, Nat.mul_one]
  unfold scatter
  rw [hc, if_neg (by rw [← Int.ofNat_tmod, Nat.mul_mod_right]; simp), mapM_scatterRecv outs k hk hkb]
  simp only [← Int.ofNat_tdiv, Nat.mul_div_cancel_left k hP]
  unfold mpiScatter
  rw [if_neg (by
    rintro (h | ⟨v, hv, h⟩)
    · omega
    · obtain ⟨d, hd, rfl⟩ := List.mem_map.1 hv
      exact h rfl)]
  rw [if_neg (by
    rintro (h | ⟨v, hv, h⟩)
    · simp only [units_length, Int.toNat_natCast, List.length_map] at h
      omega
    · obtain ⟨d, hd, rfl⟩ := List.mem_map.1 hv
      simp only [units_length, Int.toNat_natCast, hk d hd] at h
      omega)]
  refine congrArg Out.ok ?_
  apply List.ext_getElem (by simp)
  intro i h1 h2
  simp only [List.getElem_mapIdx, List.getElem_map, Int.toNat_natCast]
  have := block_units data k i
  rw [Nat.mul_one] at this
  rw [this, List.drop_of_length_le (by rw [units_length, hk _ (List.getElem_mem _)]; omega), List.append_nil]

example : scatter (w := 1) [![1], ![2], ![3], ![4]] [[![0], ![0]], [![0], ![0]]] = .ok [[1, 2], [3, 4]] := by
  rw [C101_scatter_partial _ _ 2 (by simp) (by simp) rfl (by decide)]
  rfl

/-- C101 fails for `scatter` of any other element type: the number of *elements* of the output span is
passed where the number of bytes is expected, so the call is erroneous on every rank as soon as each
rank is to receive at least one element. -/
theorem C101_scatter_violated {w : Nat} (hw : 1 < w) :
    ∀ (data : List (Elem U w)) (outs : List (List (Elem U w))) (k : Nat),
      outs ≠ [] → (∀ o ∈ outs, o.length = k) → data.length = outs.length * k → 0 < k →
      data.length * w < 2147483648 → scatter data outs = .error := by
  intro data outs k hne hk hd hk0 hsz
  have hP : 0 < outs.length := List.length_pos_of_ne_nil hne
  have hkb : k < 2147483648 := by
    have := Nat.le_mul_of_pos_left k hP
    have := Nat.le_mul_of_pos_right data.length (show 0 < w by omega)
    omega
  have hc : (parse data).count = ((outs.length * (k * w) : Nat) : Int) := by
    rw [parse_count hsz, hd, Nat.mul_assoc]
  unfold scatter
  rw [hc, if_neg (by rw [← Int.ofNat_tmod, Nat.mul_mod_right]; simp), mapM_scatterRecv outs k hk hkb]
  simp only [← Int.ofNat_tdiv, Nat.mul_div_cancel_left _ hP]
  unfold mpiScatter
  rw [if_pos]
  right
  obtain ⟨o, ho⟩ := List.exists_mem_of_ne_nil _ hne
  refine ⟨⟨units o, (k : Int)⟩, List.mem_map.2 ⟨o, ho, rfl⟩, ?_⟩
  have : k < k * w := by
    calc k = k * 1 := (Nat.mul_one k).symm
      _ < k * w := Nat.mul_lt_mul_of_pos_left hw hk0
  simp only [ne_eq, Int.natCast_inj]
  omega

/-- One 16-byte element per rank. -/
example : scatter (U := Nat) (w := 16) [fun _ => 1, fun _ => 2] [[fun _ => 0], [fun _ => 0]] = .error :=
  C101_scatter_violated (by decide) _ _ 1 (by simp) (by simp) rfl (by decide) (by decide)

theorem C101_scatter_statement_violated : ¬ ScatterStatement Nat 16 := by
  intro h
  have h1 := h [fun _ => 1, fun _ => 2] [[fun _ => 0], [fun _ => 0]] 1 (by simp) (by simp) rfl (by decide)
  rw [C101_scatter_violated (by decide) _ _ 1 (by simp) (by simp) rfl (by decide) (by decide)] at h1
  cases h1

/-- C101, full statement for the all-to-all exchange: buffers of the same size on all ranks are either
exchanged block by block or the call reports an error. -/
def AllToAllStatement (U : Type) (w : Nat) : Prop :=
  ∀ (sends recvs : List (List (Elem U w))) (n : Nat), sends ≠ [] → recvs.length = sends.length →
    (∀ b ∈ sends ++ recvs, b.length = n) → n * w < 2147483648 →
    allToAll sends recvs = .error ∨
    (sends.length ∣ n ∧ allToAll sends recvs =
      .ok (recvs.mapIdx fun i _ => units (sends.map fun s => block s (n / sends.length) i).flatten))

theorem block_length {α : Type} (l : List α) (c i : Nat) (h : (i + 1) * c ≤ l.length) :
    (block l c i).length = c := by
  unfold block
  rw [List.length_take, List.length_drop]
  have : (i + 1) * c = i * c + c := by ring
  omega

/-- What `allToAllAsync` does in general: blocks of `n * w / P` units. -/
theorem allToAll_eq {w : Nat} (sends recvs : List (List (Elem U w))) (n : Nat) (hne : sends ≠ [])
    (hn : ∀ b ∈ sends ++ recvs, b.length = n) (hsz : n * w < 2147483648) :
    allToAll sends recvs = .ok (recvs.mapIdx fun i r =>
      (sends.map fun s => block (units s) (n * w / sends.length) i).flatten ++
        (units r).drop (sends.length * (n * w / sends.length))) := by
  have hP : 0 < sends.length := List.length_pos_of_ne_nil hne
  have hc : ∀ d ∈ sends ++ recvs, (parse d).count = ((n * w : Nat) : Int) := by
    intro d hd
    rw [parse_count (by rw [hn d hd]; exact hsz), hn d hd]
  unfold allToAll
  rw [if_neg (by
    simp only [List.any_eq_true, not_exists, not_and]
    intro p hp
    have h1 := List.of_mem_zip hp
    rw [hc _ (by simp [h1.1]), hc _ (by simp [h1.2])]
    simp)]
  rw [hc _ (List.mem_append_left _ (getD_mem' sends [] hP))]
  have hcount : ∀ s ∈ sends, (parse s).count.tdiv sends.length = ((n * w / sends.length : Nat) : Int) := by
    intro s hs
    rw [hc _ (by simp [hs]), ← Int.ofNat_tdiv]
  unfold mpiAlltoall
  rw [← Int.ofNat_tdiv, if_neg (by
    rintro (h | ⟨v, hv, h⟩)
    · exact absurd h (Int.not_lt.2 (Int.natCast_nonneg _))
    · obtain ⟨d, hd, rfl⟩ := List.mem_map.1 hv
      exact h (hcount d hd))]
  have hle : sends.length * (n * w / sends.length) ≤ n * w := Nat.mul_div_le _ _
  rw [if_neg (by
    rintro ⟨b, hb, h⟩
    rw [← List.map_append] at hb
    obtain ⟨d, hd, rfl⟩ := List.mem_map.1 hb
    simp only [units_length, hn d hd, Int.toNat_natCast, List.length_map] at h
    omega)]
  refine congrArg Out.ok ?_
  apply List.ext_getElem (by simp)
  intro i h1 h2
  simp only [List.getElem_mapIdx, List.getElem_map, Int.toNat_natCast, List.map_map, List.length_map]
  rfl

/-- C101, all-to-all, when the number of elements is a multiple of the number of ranks: rank `i`
obtains, from every rank in order, the `i`-th block of the elements that rank passed. -/
theorem C101_all_to_all_partial {w : Nat} (sends recvs : List (List (Elem U w))) (k : Nat)
    (hne : sends ≠ []) (hn : ∀ b ∈ sends ++ recvs, b.length = sends.length * k)
    (hsz : sends.length * k * w < 2147483648) :
    allToAll sends recvs =
      .ok (recvs.mapIdx fun i _ => units (sends.map fun s => block s k i).flatten) := by
  have hP : 0 < sends.length := List.length_pos_of_ne_nil hne
  rw [allToAll_eq sends recvs _ hne hn hsz]
  have hdiv : sends.length * k * w / sends.length = k * w := by
    rw [Nat.mul_assoc, Nat.mul_div_cancel_left _ hP]
  rw [hdiv]
  refine congrArg Out.ok ?_
  apply List.ext_getElem (by simp)
  intro i h1 h2
  simp only [List.getElem_mapIdx]
  rw [List.drop_of_length_le (by
    rw [units_length, hn _ (List.mem_append_right _ (List.getElem_mem _)), Nat.mul_assoc]),
    List.append_nil, units_flatten, List.map_map]
  congr 1
  exact List.map_congr_left fun s _ => block_units s k i

example : allToAll (w := 2) [[![1, 1], ![2, 2]], [![3, 3], ![4, 4]]]
    [[![0, 0], ![0, 0]], [![0, 0], ![0, 0]]] = .ok [[1, 1, 3, 3], [2, 2, 4, 4]] := by decide

/-- C101 fails for the all-to-all exchange: a number of elements that is not a multiple of the number
of ranks is not reported.  For built-in types the trailing elements are not sent: with three elements
on each of two ranks, the third is dropped.  For other types elements are torn: with one two-byte
element on each of two ranks, every rank ends up with one byte of either. -/
theorem C101_all_to_all_violated :
    allToAll (w := 1) [[![1], ![2], ![3]], [![4], ![5], ![6]]] [[![0], ![0], ![0]], [![0], ![0], ![0]]] =
      .ok [[1, 4, 0], [2, 5, 0]] ∧
    allToAll (w := 2) [[![1, 2]], [![3, 4]]] [[![0, 0]], [![0, 0]]] = .ok [[1, 3], [2, 4]] ∧
    ¬ AllToAllStatement Nat 1 ∧ ¬ AllToAllStatement Nat 2 := by
  have h1 : allToAll (w := 1) [[![1], ![2], ![3]], [![4], ![5], ![6]]]
      [[![0], ![0], ![0]], [![0], ![0], ![0]]] = .ok [[1, 4, 0], [2, 5, 0]] := by decide
  have h2 : allToAll (w := 2) [[![1, 2]], [![3, 4]]] [[![0, 0]], [![0, 0]]] = .ok [[1, 3], [2, 4]] := by
    decide
  refine ⟨h1, h2, fun h => ?_, fun h => ?_⟩
  · have := h [[![1], ![2], ![3]], [![4], ![5], ![6]]] [[![0], ![0], ![0]], [![0], ![0], ![0]]] 3
      (by simp) rfl (by simp) (by decide)
    rw [h1] at this
    rcases this with h | ⟨h, -⟩
    · cases h
    · exact absurd h (by decide)
  · have := h [[![1, 2]], [![3, 4]]] [[![0, 0]], [![0, 0]]] 1 (by simp) rfl (by simp) (by decide)
    rw [h2] at this
    rcases this with h | ⟨h, -⟩
    · cases h
    · exact absurd h (by decide)

/-- C101 fails for large buffers: the number of units is converted to `int` without a check.  A
broadcast of `2^32` built-in elements (or of any number of elements whose size in bytes is a multiple
of `2^32`) succeeds without moving anything; with a number of units between `2^31` and `2^32` it is
refused by MPI. -/
theorem C101_large_buffers_violated {w : Nat} (bufs : List (List (Elem U w))) (root n : Nat)
    (hroot : root < bufs.length) (hn : ∀ d ∈ bufs, d.length = n) :
    (n * w % 4294967296 = 0 → broadcast bufs root = .ok (bufs.map units)) ∧
    (2147483648 ≤ n * w → n * w < 4294967296 → broadcast bufs root = .error) := by
  have hg := getD_mem' bufs [] hroot
  have hcnt : ∀ d ∈ bufs, (parse d).count = cInt (n * w) := by
    intro d hd; simp only [parse, units_length, hn d hd]
  constructor
  · intro h0
    have hz : cInt (n * w) = 0 := by unfold cInt; omega
    unfold broadcast mpiBcast
    rw [hcnt _ hg, hz, if_neg (by
      rintro (h | ⟨v, hv, h⟩)
      · omega
      · obtain ⟨d, hd, rfl⟩ := List.mem_map.1 hv
        exact h (by rw [hcnt d hd, hz]))]
    rw [if_neg (by rintro ⟨v, -, h⟩; simp at h)]
    simp [parse, Function.comp_def]
  · intro h1 h2
    have hz : cInt (n * w) < 0 := by unfold cInt; omega
    unfold broadcast mpiBcast
    rw [hcnt _ hg, if_pos (Or.inl hz)]

/-- Two ranks, `2^32` elements each: the second rank keeps its own. -/
example (N : Nat) (hN : N = 4294967296) : broadcast (U := Bool) (w := 1)
      [List.replicate N fun _ => true, List.replicate N fun _ => false] 0 =
    .ok [units (w := 1) (List.replicate N fun _ => true), units (w := 1) (List.replicate N fun _ => false)] :=
  (C101_large_buffers_violated _ 0 N (by simp) (by simp)).1 (by omega)

/-- C101, node throughputs (the relative speeds of the ranks used to distribute a mesh), on a single
rank: the vector is `[1]`. -/
theorem C101_throughputs_partial (t : Nat) (ht : 0 < t) : nodeThroughputs [t] = .ok [1] := by
  have h : gather (w := 1) [[fun _ => t]] [some [fun _ => 0]] 0 = .ok [t] := by
    rw [C101_gather _ _ 0 1 [fun _ => 0] (by simp) (by simp) (by decide) (by simp) rfl (by simp)]
    simp [units]
  unfold nodeThroughputs
  simp only [List.map_cons, List.map_nil, List.length_cons, List.length_nil, Nat.zero_add,
    List.replicate_one, Nat.sub_self, List.replicate_zero]
  rw [h]
  have : (t : ℝ) ≠ 0 := by exact_mod_cast ht.ne'
  simp [shares, this]

/-- C101, the shares computed at the root from the numbers of threads it gathered: one for each rank, in
the order of the ranks, proportional to the number of threads, positive and adding up to one. -/
theorem C101_shares (tp : List Nat) (hne : tp ≠ []) (hpos : ∀ t ∈ tp, 0 < t) :
    (shares tp).length = tp.length ∧ (shares tp).sum = 1 ∧ (∀ x ∈ shares tp, 0 < x ∧ x ≤ 1) ∧
    ∀ (i j : Nat) (hi : i < tp.length) (hj : j < tp.length),
      (shares tp).getD i 0 * tp[j] = (shares tp).getD j 0 * tp[i] := by
  have hs : 0 < tp.sum := by
    cases tp with
    | nil => exact absurd rfl hne
    | cons a l => have := hpos a (by simp); simp; omega
  have hsr : (0 : ℝ) < ((tp.sum : Nat) : ℝ) := by exact_mod_cast hs
  refine ⟨by simp [shares], ?_, ?_, ?_⟩
  · have key : ∀ (l : List Nat) (c : ℝ), (l.map fun (t : Nat) => (t : ℝ) / c).sum = ((l.sum : Nat) : ℝ) / c := by
      intro l c
      induction l with
      | nil => simp
      | cons a l ih => simp only [List.map_cons, List.sum_cons, ih, Nat.cast_add, add_div]
    unfold shares
    rw [key, div_self hsr.ne']
  · intro x hx
    obtain ⟨t, ht, rfl⟩ := List.mem_map.1 hx
    refine ⟨div_pos (by exact_mod_cast hpos t ht) hsr, ?_⟩
    rw [div_le_one hsr]
    exact_mod_cast le_sum_of_mem' ht
  · intro i j hi hj
    have hg : ∀ (i : Nat) (hi : i < tp.length), (shares tp).getD i 0 = (tp[i] : ℝ) / ((tp.sum : Nat) : ℝ) := by
      intro i hi
      rw [List.getD_eq_getElem?_getD]
      simp [shares, hi]
    rw [hg i hi, hg j hj]
    ring

example : shares [1, 3] = [1 / 4, 3 / 4] := by norm_num [shares]

/-- C101 fails for the node throughputs on several ranks: the ranks other than the root pass a null
pointer, which `gather` dereferences to form the address of the output (comm/MpiComm.hpp:465,
comm/GatherNodeThroughputs.hpp:30). -/
theorem C101_throughputs_violated (tp : List Nat) (h : 1 < tp.length) : nodeThroughputs tp = .ub := by
  obtain ⟨m, hm⟩ : ∃ m, tp.length - 1 = m + 1 := ⟨tp.length - 2, by omega⟩
  have : gather (w := 1) (tp.map fun t => [fun _ => t])
      (some (List.replicate tp.length fun _ => 0) :: List.replicate (tp.length - 1) none) 0 = Out.ub := by
    unfold gather
    rw [if_pos]
    rw [hm, List.replicate_succ]
    simp [derefable]
  unfold nodeThroughputs
  rw [this]

example : nodeThroughputs [4, 8] = .ub := C101_throughputs_violated _ (by simp)

end Verif.Coll
