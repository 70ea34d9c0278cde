import Verif.Bitset.Spec
import Verif.Common.Interleave
import Mathlib.Data.List.Perm.Lattice
import Mathlib.Algebra.BigOperators.Group.List.Basic

/-! # Auxiliary lemmas for the bitset -/
namespace Verif.Bitset

/-- Bit `i` of a word list. -/
def bit (d : List (BitVec 64)) (i : Nat) : Bool := (d.getD (i / 64) 0#64).getLsbD (i % 64)

theorem mask_getLsbD (p j : Nat) : (mask p).getLsbD j = (decide (j < 64) && decide (j = p)) := by
  simp only [mask, BitVec.getLsbD_shiftLeft]
  by_cases h : j < p
  · simp [h]; omega
  · by_cases h2 : j = p
    · subst h2; simp
    · have : (1#64).getLsbD (j - p) = false := by
        rw [BitVec.getLsbD_one]; simp; omega
      simp [this, h2]

theorem allocUls_eq (n : Nat) : allocUls n = (n + 63) / 64 := by
  unfold allocUls; split <;> omega

theorem test_eq (b : Bits) (pos : Nat) (h : pos / 64 < b.data.length) :
    b.test pos = some (bit b.data pos) := by
  simp only [Bits.test, bit, List.getElem?_eq_getElem h, Option.map_some, List.getD_eq_getElem?_getD,
    Option.getD_some, Option.some.injEq]
  generalize b.data[pos / 64] = w
  have hp : pos % 64 < 64 := Nat.mod_lt _ (by decide)
  cases hw : w.getLsbD (pos % 64)
  · simp only [bne_eq_false_iff_eq]
    apply BitVec.eq_of_getLsbD_eq
    intro i hi
    rw [BitVec.getLsbD_and, mask_getLsbD]
    by_cases h : i = pos % 64
    · subst h; simp [hw]
    · simp [h]
  · simp only [bne_iff_ne, ne_eq]
    intro hz
    have : (w &&& mask (pos % 64)).getLsbD (pos % 64) = true := by
      rw [BitVec.getLsbD_and, mask_getLsbD]; simp [hw, hp]
    rw [hz] at this
    simp at this

theorem bit_modify (d : List (BitVec 64)) (k : Nat) (hk : k < d.length) (f : BitVec 64 → BitVec 64)
    (i : Nat) :
    bit (d.modify k f) i =
      if i / 64 = k then (f (d.getD k 0#64)).getLsbD (i % 64) else bit d i := by
  simp only [bit, List.getD_eq_getElem?_getD, List.getElem?_modify]
  by_cases h : i / 64 = k
  · subst h; simp [List.getElem?_eq_getElem hk]
  · have h2 : ¬ k = i / 64 := fun h' => h h'.symm
    simp [h, h2]

/-- Effect on bits of a word operation that touches only the addressed bit. -/
theorem modifyWord_spec (b : Bits) (pos : Nat) (h : pos / 64 < b.data.length)
    (f : BitVec 64 → BitVec 64) (g : Bool → Bool)
    (hf : ∀ w j, j < 64 → (f w).getLsbD j = if j = pos % 64 then g (w.getLsbD j) else w.getLsbD j) :
    ∃ b', b.modifyWord pos f = some b' ∧ b'.size = b.size ∧ b'.data.length = b.data.length ∧
      ∀ i, bit b'.data i = if i = pos then g (bit b.data i) else bit b.data i := by
  refine ⟨_, if_pos h, rfl, by simp, fun i => ?_⟩
  rw [bit_modify _ _ h]
  by_cases hi : i / 64 = pos / 64
  · rw [if_pos hi, hf _ _ (Nat.mod_lt _ (by decide))]
    by_cases hm : i % 64 = pos % 64
    · have : i = pos := by omega
      subst this; simp [bit]
    · rw [if_neg hm, if_neg (by intro h'; subst h'; exact hm rfl)]
      simp [bit, hi]
  · rw [if_neg hi, if_neg (by intro h'; subst h'; exact hi rfl)]

theorem set_bits (p : Nat) (w : BitVec 64) (j : Nat) (hj : j < 64) :
    (w ||| mask (p % 64)).getLsbD j = if j = p % 64 then true else w.getLsbD j := by
  rw [BitVec.getLsbD_or, mask_getLsbD]; by_cases h : j = p % 64 <;> simp [h]
  omega

theorem reset_bits (p : Nat) (w : BitVec 64) (j : Nat) (hj : j < 64) :
    (w &&& ~~~(mask (p % 64))).getLsbD j = if j = p % 64 then false else w.getLsbD j := by
  rw [BitVec.getLsbD_and, BitVec.getLsbD_not, mask_getLsbD]
  by_cases h : j = p % 64
  · simp [h]
  · simp [h, hj]

theorem flip_bits (p : Nat) (w : BitVec 64) (j : Nat) (hj : j < 64) :
    (w ^^^ mask (p % 64)).getLsbD j = if j = p % 64 then !(w.getLsbD j) else w.getLsbD j := by
  rw [BitVec.getLsbD_xor, mask_getLsbD]
  by_cases h : j = p % 64
  · rw [← h]; simp [hj]
  · simp [h]

theorem assign_bits (p : Nat) (v : Bool) (w : BitVec 64) (j : Nat) (hj : j < 64) :
    ((w &&& ~~~(mask (p % 64))) ||| ((if v then 1#64 else 0#64) <<< (p % 64))).getLsbD j =
      if j = p % 64 then v else w.getLsbD j := by
  rw [BitVec.getLsbD_or, reset_bits p w j hj]
  have hm := mask_getLsbD (p % 64) j
  unfold mask at hm
  cases v
  · by_cases h : j = p % 64 <;> simp [h]
  · simp only [if_true, hm]
    by_cases h : j = p % 64 <;> simp [h]
    omega

theorem bit_oob (d : List (BitVec 64)) (i : Nat) (h : 64 * d.length ≤ i) : bit d i = false := by
  have : d.length ≤ i / 64 := (Nat.le_div_iff_mul_le (by decide)).2 (by omega)
  simp [bit, List.getElem?_eq_none this]

/-- Abstraction relation: same size, exact allocation, and every bit (including the padding
bits of the last word) agrees with the abstract set. -/
structure Rel (b : Bits) (s : ASet) : Prop where
  size : b.size = s.size
  alloc : b.data.length = allocUls s.size
  bits : ∀ i, bit b.data i = s.mem i
  clean : ∀ i, s.size ≤ i → s.mem i = false

theorem Rel.new (n : Nat) : Rel (Bits.new n) (ASet.new n) where
  size := rfl
  alloc := by simp [Bits.new, ASet.new]
  bits i := by
    simp only [bit, Bits.new, ASet.new, List.getD_eq_getElem?_getD, List.getElem?_replicate]
    split <;> simp
  clean _ _ := rfl

theorem Rel.word_lt {b : Bits} {s : ASet} (h : Rel b s) {p : Nat} (hp : p < s.size) :
    p / 64 < b.data.length := by
  rw [h.alloc, allocUls_eq]; omega

theorem Rel.step {b : Bits} {s : ASet} (h : Rel b s) (op : Op) (hin : s.inRange op)
    (hshrink : ∀ n, op = .resize n →
      ∀ i, n ≤ i → i < s.size → i < 64 * ((n + 63) / 64) → s.mem i = false) :
    ∃ b', b.step op = some b' ∧ Rel b' (s.step op) := by
  have lift : ∀ (p : Nat) (hp : p < s.size) (f : BitVec 64 → BitVec 64) (g : Bool → Bool)
      (hf : ∀ w j, j < 64 → (f w).getLsbD j = if j = p % 64 then g (w.getLsbD j) else w.getLsbD j),
      ∃ b', b.modifyWord p f = some b' ∧
        Rel b' ⟨s.size, fun i => if i = p then g (s.mem i) else s.mem i⟩ := by
    intro p hp f g hf
    obtain ⟨b', e, hs, hl, hb⟩ := modifyWord_spec b p (h.word_lt hp) f g hf
    refine ⟨b', e, ⟨by rw [hs, h.size], by rw [hl, h.alloc], fun i => by rw [hb, h.bits], ?_⟩⟩
    intro i hi
    have hi : s.size ≤ i := hi
    show (if i = p then g (s.mem i) else s.mem i) = false
    rw [if_neg (by omega), h.clean i hi]
  cases op with
  | set p => exact lift p hin _ (fun _ => true) (fun w j hj => set_bits p w j hj)
  | reset p => exact lift p hin _ (fun _ => false) (fun w j hj => reset_bits p w j hj)
  | flip p => exact lift p hin _ (fun x => !x) (fun w j hj => flip_bits p w j hj)
  | assign p v => exact lift p hin _ (fun _ => v) (fun w j hj => assign_bits p v w j hj)
  | clear =>
    refine ⟨_, rfl, ⟨h.size, by simpa [ASet.step] using h.alloc, fun i => ?_, fun _ _ => rfl⟩⟩
    simp only [bit, List.getD_eq_getElem?_getD, List.getElem?_map, ASet.step]
    cases b.data[i / 64]? <;> simp
  | resize n =>
    refine ⟨_, rfl, ⟨rfl, ?_, fun i => ?_, fun i hi => ?_⟩⟩
    · simp only [Bits.resize, ASet.step, List.length_append, List.length_take, List.length_replicate]
      omega
    · simp only [Bits.resize, ASet.step]
      have hi64 := Nat.div_add_mod i 64
      by_cases hn : i < n
      · rw [if_pos hn, ← h.bits]
        have hw : i / 64 < allocUls n := by rw [allocUls_eq]; omega
        simp only [bit, List.getD_eq_getElem?_getD]
        by_cases hd : i / 64 < b.data.length
        · rw [List.getElem?_append_left (by simp; omega), List.getElem?_take_of_lt hw]
        · rw [List.getElem?_append_right (by simp; omega), List.getElem?_replicate,
            List.getElem?_eq_none (by omega)]
          split <;> simp
      · rw [if_neg hn]
        by_cases hw : i / 64 < allocUls n
        · by_cases hd : i / 64 < b.data.length
          · simp only [bit, List.getD_eq_getElem?_getD]
            rw [List.getElem?_append_left (by simp; omega), List.getElem?_take_of_lt hw]
            have e := h.bits i
            simp only [bit, List.getD_eq_getElem?_getD] at e
            rw [e]
            by_cases hsz : i < s.size
            · refine hshrink n rfl i (by omega) hsz ?_
              rw [allocUls_eq] at hw; omega
            · exact h.clean i (by omega)
          · simp only [bit, List.getD_eq_getElem?_getD]
            rw [List.getElem?_append_right (by simp; omega), List.getElem?_replicate]
            split <;> simp
        · apply bit_oob
          simp only [List.length_append, List.length_take, List.length_replicate]
          omega
    · simp only [ASet.step] at hi ⊢
      rw [if_neg (by omega)]

theorem Rel.run {b : Bits} {s : ASet} (h : Rel b s) (ops : List Op) (hin : s.allInRange ops)
    (hsh : s.noLossyShrink ops) : ∃ b', b.run ops = some b' ∧ Rel b' (s.run ops) := by
  induction ops generalizing b s with
  | nil => exact ⟨b, rfl, h⟩
  | cons op ops ih =>
    obtain ⟨b', e, h'⟩ := h.step op hin.1 (by
      intro n hn; have := hsh.1; subst hn; exact this)
    obtain ⟨b'', e', h''⟩ := ih h' hin.2 hsh.2
    exact ⟨b'', by simp [Bits.run, e, e'], h''⟩

/-! ### Counting -/

theorem countP_range'_add (p : Nat → Bool) (s m n : Nat) :
    (List.range' s (m + n)).countP p = (List.range' s m).countP p + (List.range' (s + m) n).countP p := by
  rw [← List.range'_append_1, List.countP_append]

theorem countP_shift (p : Nat → Bool) (s n : Nat) :
    (List.range' s n).countP p = (List.range n).countP fun i => p (s + i) := by
  rw [List.range_eq_range']
  have : List.range' s n = (List.range' 0 n).map (s + ·) := by
    rw [List.map_add_range']; simp
  rw [this, List.countP_map]; rfl

theorem popcount_window (d : List (BitVec 64)) (k : Nat) :
    popcount (d.getD k 0#64) = (List.range' (64 * k) 64).countP (bit d) := by
  rw [countP_shift, popcount]
  apply List.countP_congr
  intro i hi
  have : i < 64 := List.mem_range.1 hi
  have e1 : (64 * k + i) / 64 = k := by omega
  have e2 : (64 * k + i) % 64 = i := by omega
  simp only [bit, e1, e2]

theorem sum_popcount (d : List (BitVec 64)) (s n : Nat) :
    ((List.range' s n).map fun k => popcount (d.getD k 0#64)).sum =
      (List.range' (64 * s) (64 * n)).countP (bit d) := by
  induction n generalizing s with
  | zero => simp
  | succ n ih =>
    rw [List.range'_succ, List.map_cons, List.sum_cons, ih, popcount_window,
      show 64 * (n + 1) = 64 + 64 * n by omega, countP_range'_add]
    rfl

theorem map_eq_range' (d : List (BitVec 64)) :
    d.map popcount = (List.range' 0 d.length).map fun k => popcount (d.getD k 0#64) := by
  apply List.ext_getElem
  · simp
  · intro i h1 h2
    have : i < d.length := by simpa using h1
    simp [List.getElem?_eq_getElem this]

theorem count_eq (b : Bits) : b.count = (List.range' 0 (64 * b.data.length)).countP (bit b.data) := by
  rw [Bits.count, map_eq_range', sum_popcount]

theorem maskRange_getLsbD (lo hi j : Nat) (hj : j < 64) :
    (maskRange lo hi).getLsbD j = (decide (lo ≤ j) && decide (j ≤ hi)) := by
  have key : ∀ (l : List Nat) (m : BitVec 64),
      (l.foldl (fun m i => m ||| mask i) m).getLsbD j = (m.getLsbD j || decide (j ∈ l)) := by
    intro l
    induction l with
    | nil => simp
    | cons a l ih =>
      intro m
      rw [List.foldl_cons, ih, BitVec.getLsbD_or, mask_getLsbD]
      simp [hj, Bool.or_assoc]
  rw [maskRange, key]
  simp only [BitVec.getLsbD_zero, Bool.false_or, List.mem_range'_1]
  rw [← Bool.decide_and]
  congr 1
  apply propext; omega

theorem popcount_mask (d : List (BitVec 64)) (k lo hi : Nat) (hlo : lo ≤ hi) (hhi : hi < 64) :
    popcount (d.getD k 0#64 &&& maskRange lo hi) =
      (List.range' (64 * k + lo) (hi + 1 - lo)).countP (bit d) := by
  have h1 : popcount (d.getD k 0#64 &&& maskRange lo hi) =
      (List.range' 0 64).countP fun i =>
        bit d (64 * k + i) && (decide (lo ≤ i) && decide (i ≤ hi)) := by
    rw [popcount, List.range_eq_range']
    apply List.countP_congr
    intro i hi'
    have hi64 : i < 64 := by rw [List.mem_range'_1] at hi'; omega
    have e1 : (64 * k + i) / 64 = k := by omega
    have e2 : (64 * k + i) % 64 = i := by omega
    rw [BitVec.getLsbD_and, maskRange_getLsbD _ _ _ hi64]
    simp only [bit, e1, e2]
  rw [h1, show 64 = lo + ((hi + 1 - lo) + (63 - hi)) by omega, countP_range'_add, countP_range'_add]
  have z1 : (List.range' 0 lo).countP (fun i =>
      bit d ((lo + ((hi + 1 - lo) + (63 - hi))) * k + i) && (decide (lo ≤ i) && decide (i ≤ hi))) = 0 := by
    rw [List.countP_eq_zero]
    intro i hi'; rw [List.mem_range'_1] at hi'; simp; omega
  have z3 : (List.range' (0 + lo + (hi + 1 - lo)) (63 - hi)).countP (fun i =>
      bit d ((lo + ((hi + 1 - lo) + (63 - hi))) * k + i) && (decide (lo ≤ i) && decide (i ≤ hi))) = 0 := by
    rw [List.countP_eq_zero]
    intro i hi'; rw [List.mem_range'_1] at hi'; simp; omega
  rw [z1, z3, Nat.zero_add, Nat.add_zero, countP_shift, countP_shift]
  rw [show lo + ((hi + 1 - lo) + (63 - hi)) = 64 by omega]
  apply List.countP_congr
  intro i hi'
  have : i < hi + 1 - lo := List.mem_range.1 hi'
  rw [show 64 * k + lo + i = 64 * k + (0 + lo + i) by omega]
  simp; omega

theorem subCount_eq (b : Bits) (lo hi : Nat) (h1 : lo ≤ hi) (h2 : hi ≤ 64 * b.data.length) :
    b.subCount lo hi = some ((List.range' lo (hi - lo)).countP (bit b.data)) := by
  unfold Bits.subCount
  by_cases he : lo = hi
  · subst he; simp
  · rw [if_neg he]
    have hlo := Nat.div_add_mod lo 64
    have hhi := Nat.div_add_mod (hi - 1) 64
    have g : ∀ k, k < b.data.length → b.data[k]? = some (b.data.getD k 0#64) := by
      intro k hk; simp [List.getElem?_eq_getElem hk]
    by_cases hw : lo / 64 = (hi - 1) / 64
    · simp only [if_pos hw]
      rw [g _ (by omega), Option.map_some, popcount_mask _ _ _ _ (by omega) (by omega)]
      congr 2
      rw [show 64 * (lo / 64) + lo % 64 = lo by omega,
        show (hi - 1) % 64 + 1 - lo % 64 = hi - lo by omega]
    · simp only [if_neg hw]
      rw [g _ (by omega), g _ (by omega)]
      have hm : ∀ l : List Nat, (∀ k ∈ l, k < b.data.length) →
          (l.mapM fun i => b.data[i]?.map popcount) =
            some (l.map fun k => popcount (b.data.getD k 0#64)) := by
        intro l
        induction l with
        | nil => intro _; rfl
        | cons k ks ih =>
          intro hk
          rw [List.mapM_cons, g k (hk k (by simp)), ih (fun k' h' => hk k' (by simp [h']))]; rfl
      rw [hm _ (by intro k hk; rw [List.mem_range'_1] at hk; omega)]
      simp only [Option.bind_eq_bind, Option.bind_some]
      rw [popcount_mask _ _ _ _ (by omega) (by omega), popcount_mask _ _ _ _ (by omega) (by omega),
        sum_popcount]
      have e : hi - lo = (63 + 1 - lo % 64) + (64 * ((hi - 1) / 64 - (lo / 64 + 1)) +
          ((hi - 1) % 64 + 1 - 0)) := by omega
      rw [e, countP_range'_add, countP_range'_add, Nat.add_assoc,
        show 64 * (lo / 64) + lo % 64 = lo by omega,
        show lo + (63 + 1 - lo % 64) = 64 * (lo / 64 + 1) by omega,
        show 64 * (lo / 64 + 1) + 64 * ((hi - 1) / 64 - (lo / 64 + 1)) = 64 * ((hi - 1) / 64) + 0 by omega]
      rfl

/-! ### Atomic updates -/

/-- Meaning of an atomic operation on one bit. -/
def AOp.app : AOp → Bool → Bool
  | .set _, _ => true
  | .reset _, _ => false
  | .flip _, x => !x

theorem astep_spec (b : Bits) (op : AOp) (h : op.pos / 64 < b.data.length) :
    ∃ b', b.astep op = some b' ∧ b'.size = b.size ∧ b'.data.length = b.data.length ∧
      ∀ i, bit b'.data i = if i = op.pos then op.app (bit b.data i) else bit b.data i := by
  cases op with
  | set p => exact modifyWord_spec b p h _ (fun _ => true) (fun w j hj => set_bits p w j hj)
  | reset p => exact modifyWord_spec b p h _ (fun _ => false) (fun w j hj => reset_bits p w j hj)
  | flip p => exact modifyWord_spec b p h _ (fun x => !x) (fun w j hj => flip_bits p w j hj)

theorem arun_spec (ops : List AOp) (b : Bits) (h : ∀ op ∈ ops, op.pos / 64 < b.data.length) :
    ∃ b', b.arun ops = some b' ∧ b'.size = b.size ∧ b'.data.length = b.data.length ∧
      ∀ i, bit b'.data i =
        (ops.filter fun op => op.pos = i).foldl (fun x op => op.app x) (bit b.data i) := by
  induction ops generalizing b with
  | nil => exact ⟨b, rfl, rfl, rfl, fun i => rfl⟩
  | cons op ops ih =>
    obtain ⟨b1, e1, s1, l1, h1⟩ := astep_spec b op (h op (by simp))
    obtain ⟨b2, e2, s2, l2, h2⟩ := ih b1 (fun o ho => by rw [l1]; exact h o (by simp [ho]))
    refine ⟨b2, by simp [Bits.arun, e1, e2], by omega, by omega, fun i => ?_⟩
    rw [h2, h1, List.filter_cons]
    by_cases hi : i = op.pos
    · subst hi; simp
    · have : ¬ op.pos = i := fun h' => hi h'.symm
      simp [hi, this]

theorem bits_ext (b c : Bits) (hs : b.size = c.size) (hl : b.data.length = c.data.length)
    (h : ∀ i, bit b.data i = bit c.data i) : b = c := by
  cases b with | mk bd bs => cases c with | mk cd cs =>
  simp only [Bits.mk.injEq]
  refine ⟨?_, hs⟩
  apply List.ext_getElem hl
  intro k h1 h2
  apply BitVec.eq_of_getLsbD_eq
  intro j hj
  have := h (64 * k + j)
  have e1 : (64 * k + j) / 64 = k := by omega
  have e2 : (64 * k + j) % 64 = j := by omega
  simpa [bit, e1, e2, List.getElem?_eq_getElem h1, List.getElem?_eq_getElem h2] using this

end Verif.Bitset
