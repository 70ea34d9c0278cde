import Verif.Bitset.Lemmas

/-! # Properties C04, C05: DynamicBitset -/
namespace Verif.Bitset

/-- The full statement of **C04**: after any in-range history, `test` and `count` agree with
the abstract set. -/
def C04Statement : Prop :=
  ∀ (n : Nat) (ops : List Op), (ASet.new n).allInRange ops →
    ∃ b, (Bits.new n).run ops = some b ∧ b.size = ((ASet.new n).run ops).size ∧
      (∀ p < b.size, b.test p = some (((ASet.new n).run ops).mem p)) ∧
      b.count = ((ASet.new n).run ops).countIn 0 b.size

/-- **C04** for every history that never shrinks while a bit is set in the discarded part of the
last retained word (in particular every history without `resize`, or with growing resizes
only).  Missing for the full statement: lossy shrinks, for which it is false
(`C04_shrink_violated`). -/
theorem C04_bitset_refines_set_partial (n : Nat) (ops : List Op) (hin : (ASet.new n).allInRange ops)
    (hsh : (ASet.new n).noLossyShrink ops) :
    ∃ b, (Bits.new n).run ops = some b ∧ b.size = ((ASet.new n).run ops).size ∧
      (∀ p < b.size, b.test p = some (((ASet.new n).run ops).mem p)) ∧
      b.count = ((ASet.new n).run ops).countIn 0 b.size := by
  obtain ⟨b, e, h⟩ := (Rel.new n).run ops hin hsh
  refine ⟨b, e, h.size, fun p hp => ?_, ?_⟩
  · rw [test_eq b p (h.word_lt (by rw [← h.size]; exact hp)), h.bits]
  · rw [count_eq, ASet.countIn, Nat.sub_zero]
    have hle : b.size ≤ 64 * b.data.length := by
      rw [h.alloc, allocUls_eq, ← h.size]; omega
    rw [show 64 * b.data.length = b.size + (64 * b.data.length - b.size) by omega, countP_range'_add]
    have z : (List.range' (0 + b.size) (64 * b.data.length - b.size)).countP (bit b.data) = 0 := by
      rw [List.countP_eq_zero]
      intro i hi; rw [List.mem_range'_1] at hi
      rw [h.bits, h.clean i (by rw [← h.size]; omega)]; simp
    rw [z, Nat.add_zero]
    apply List.countP_congr
    intro i _; rw [h.bits]

example : (ASet.new 70).allInRange [.set 3, .set 69, .flip 3, .assign 65 true, .resize 200, .set 199] ∧
    (ASet.new 70).noLossyShrink [.set 3, .set 69, .flip 3, .assign 65 true, .resize 200, .set 199] := by
  constructor
  · simp [ASet.allInRange, ASet.inRange, ASet.step, ASet.new]
  · simp [ASet.noLossyShrink, ASet.step, ASet.new]; omega

/-- **C04** is false of the code: shrinking keeps stale bits in the last word, so `count`
counts positions beyond the size, and growing again resurrects them. -/
theorem C04_shrink_violated : ¬ C04Statement := by
  intro h
  obtain ⟨b, e, hs, ht, hc⟩ := h 10 [.set 5, .resize 3]
    (by simp [ASet.allInRange, ASet.inRange, ASet.new, ASet.step])
  have hb : (Bits.new 10).run [.set 5, .resize 3] = some ⟨[32#64], 3⟩ := by decide +kernel
  rw [hb] at e
  obtain rfl := Option.some.inj e
  have h1 : (⟨[32#64], 3⟩ : Bits).count = 1 := by decide +kernel
  rw [h1] at hc
  have h2 : ((ASet.new 10).run [.set 5, .resize 3]).countIn 0 3 = 0 := by decide +kernel
  rw [h2] at hc
  exact absurd hc (by decide)

/-- **C04**: the stale bit is visible through `test` after growing again. -/
theorem C04_regrow_violated :
    ∃ b, (Bits.new 10).run [.set 5, .resize 3, .resize 10] = some b ∧ b.test 5 = some true ∧
      ((ASet.new 10).run [.set 5, .resize 3, .resize 10]).mem 5 = false :=
  ⟨⟨[32#64], 10⟩, by decide +kernel, by decide +kernel, by decide⟩

/-- **C04**: word accesses never leave the allocation for in-range positions (no undefined
behaviour), while a position beyond the allocated words is undefined. -/
theorem C04_no_ub_iff (b : Bits) (pos : Nat) : (b.test pos).isSome ↔ pos < 64 * b.data.length := by
  simp only [Bits.test, Option.isSome_map]
  rw [Option.isSome_iff_ne_none, ne_eq, List.getElem?_eq_none_iff]
  omega

/-- **C05**: for any number of threads that only set bits, every interleaving of their atomic
updates yields exactly the union of the initial and all requested bits. -/
theorem C05_atomic_set_union (b : Bits) (threads : List (List Nat)) (tr : List AOp)
    (h : Interleaves (threads.map fun t => t.map AOp.set) tr)
    (hr : ∀ t ∈ threads, ∀ p ∈ t, p < 64 * b.data.length) :
    ∃ b', b.arun tr = some b' ∧ b'.size = b.size ∧
      ∀ p < 64 * b.data.length, ∃ v, b.test p = some v ∧
        b'.test p = some (v || decide (∃ t ∈ threads, p ∈ t)) := by
  have hmem : ∀ op, op ∈ tr ↔ ∃ t ∈ threads, ∃ p ∈ t, op = AOp.set p := by
    intro op
    rw [h.perm.mem_iff]
    constructor
    · intro ho
      obtain ⟨l, hl, ho⟩ := List.mem_flatten.1 ho
      obtain ⟨t, ht, rfl⟩ := List.mem_map.1 hl
      obtain ⟨p, hp, rfl⟩ := List.mem_map.1 ho
      exact ⟨t, ht, p, hp, rfl⟩
    · rintro ⟨t, ht, p, hp, rfl⟩
      exact List.mem_flatten.2 ⟨_, List.mem_map.2 ⟨t, ht, rfl⟩, List.mem_map.2 ⟨p, hp, rfl⟩⟩
  obtain ⟨b', e, hs, hl, hb⟩ := arun_spec tr b (by
    intro op ho
    obtain ⟨t, ht, p, hp, rfl⟩ := (hmem op).1 ho
    have := hr t ht p hp
    show p / 64 < _
    omega)
  refine ⟨b', e, hs, fun p hp => ⟨bit b.data p, test_eq _ _ (by omega), ?_⟩⟩
  rw [test_eq _ _ (by omega), hb]
  congr 1
  have key : ∀ (l : List AOp) (x : Bool), (∀ op ∈ l, ∃ q, op = AOp.set q) →
      l.foldl (fun x op => op.app x) x = (x || !l.isEmpty) := by
    intro l
    induction l with
    | nil => simp
    | cons a l ih =>
      intro x hx
      obtain ⟨q, rfl⟩ := hx a (by simp)
      rw [List.foldl_cons, ih _ (fun op ho => hx op (by simp [ho]))]
      simp [AOp.app]
  rw [key _ _ (by
    intro op ho
    obtain ⟨t, _, q, _, e⟩ := (hmem op).1 (List.mem_of_mem_filter ho)
    exact ⟨q, e⟩)]
  congr 1
  by_cases hex : ∃ t ∈ threads, p ∈ t
  · obtain ⟨t, ht, hpt⟩ := hex
    have hin : AOp.set p ∈ tr.filter fun op => op.pos = p := by
      rw [List.mem_filter]
      exact ⟨(hmem _).2 ⟨t, ht, p, hpt, rfl⟩, by simp [AOp.pos]⟩
    rw [decide_eq_true (⟨t, ht, hpt⟩ : ∃ t ∈ threads, p ∈ t)]
    simp only [Bool.not_eq_true', List.isEmpty_eq_false_iff]
    exact List.ne_nil_of_mem hin
  · rw [decide_eq_false hex]
    simp only [Bool.not_eq_false', List.isEmpty_iff]
    rw [List.filter_eq_nil_iff]
    intro op ho
    obtain ⟨t, ht, q, hq, rfl⟩ := (hmem op).1 ho
    intro hqp
    have : q = p := of_decide_eq_true hqp
    subst this
    exact hex ⟨t, ht, hq⟩

example : Interleaves ([[1, 2], [2, 100]].map fun t => t.map AOp.set)
    [AOp.set 2, AOp.set 1, AOp.set 100, AOp.set 2] := by
  refine Interleaves.step [[AOp.set 1, AOp.set 2]] [] (AOp.set 2) [AOp.set 100] _ ?_
  refine Interleaves.step [] [[AOp.set 100]] (AOp.set 1) [AOp.set 2] _ ?_
  refine Interleaves.step [[AOp.set 2]] [] (AOp.set 100) [] _ ?_
  refine Interleaves.step [] [[]] (AOp.set 2) [] _ ?_
  exact Interleaves.done _ (by simp)

/-- **C05**: more generally, if any two operations on the same bit are of the same kind
(set/reset/flip), the final bitset does not depend on the schedule. -/
theorem C05_atomic_schedule_independent (b : Bits) (threads : List (List AOp)) (tr tr' : List AOp)
    (h : Interleaves threads tr) (h' : Interleaves threads tr')
    (hr : ∀ t ∈ threads, ∀ op ∈ t, op.pos < 64 * b.data.length)
    (hk : ∀ t ∈ threads, ∀ op ∈ t, ∀ t' ∈ threads, ∀ op' ∈ t', op.pos = op'.pos →
      op.sameKind op' = true) :
    (b.arun tr).isSome ∧ b.arun tr = b.arun tr' := by
  have hp : tr.Perm tr' := h.perm.trans h'.perm.symm
  have hin : ∀ op ∈ tr, ∃ t ∈ threads, op ∈ t := by
    intro op ho
    obtain ⟨t, ht, ho⟩ := List.mem_flatten.1 (h.perm.mem_iff.1 ho)
    exact ⟨t, ht, ho⟩
  have hb : ∀ op ∈ tr, op.pos / 64 < b.data.length := by
    intro op ho
    obtain ⟨t, ht, ho⟩ := hin op ho
    have := hr t ht op ho; omega
  obtain ⟨b1, e1, s1, l1, h1⟩ := arun_spec tr b hb
  obtain ⟨b2, e2, s2, l2, h2⟩ := arun_spec tr' b (fun op ho => hb op (hp.mem_iff.2 ho))
  refine ⟨by rw [e1]; rfl, ?_⟩
  rw [e1, e2]
  congr 1
  apply bits_ext _ _ (by omega) (by omega)
  intro i
  rw [h1, h2]
  apply (hp.filter _).foldl_eq'
  intro x hx y hy z
  rw [List.mem_filter] at hx hy
  obtain ⟨t, ht, hxt⟩ := hin x hx.1
  obtain ⟨t', ht', hyt⟩ := hin y hy.1
  have := hk t ht x hxt t' ht' y hyt (by
    have h1 := hx.2; have h2 := hy.2; simp at h1 h2; omega)
  cases x <;> cases y <;> simp_all [AOp.sameKind, AOp.app]

/-- **C05**: `SubView::count` over `[lo, hi)` is the number of positions of the window whose
`test` is true. -/
theorem C05_subview_count (b : Bits) (lo hi : Nat) (h1 : lo ≤ hi) (h2 : hi ≤ 64 * b.data.length) :
    b.subCount lo hi = some ((List.range' lo (hi - lo)).countP fun p => b.test p == some true) := by
  rw [subCount_eq b lo hi h1 h2]
  congr 1
  apply List.countP_congr
  intro p hp
  rw [List.mem_range'_1] at hp
  rw [test_eq b p (by omega)]
  simp

example : (⟨[0xff00ff00ff00ff00#64, 0x1#64, 0xf#64], 150⟩ : Bits).subCount 10 131 =
    some ((List.range' 10 121).countP fun p =>
      (⟨[0xff00ff00ff00ff00#64, 0x1#64, 0xf#64], 150⟩ : Bits).test p == some true) := by decide +kernel

end Verif.Bitset
