/-!
# Bytes

Shared byte type and little-endian integer encoding.  `std::byte` / `char` are modelled
by `BitVec 8`; the object representation of an `n`-byte trivially copyable value is its
list of `n` bytes in little-endian order (x86-64).
-/
namespace Verif

/-- A byte (`std::byte`, `char`). -/
abbrev Byte := BitVec 8

/-- The `n` lowest bytes of `x`, least significant first. -/
def leBytes : Nat → Nat → List Byte
  | 0, _ => []
  | n + 1, x => BitVec.ofNat 8 x :: leBytes n (x / 256)

/-- The number with the given little-endian bytes. -/
def ofLe : List Byte → Nat
  | [] => 0
  | b :: bs => b.toNat + 256 * ofLe bs

@[simp] theorem leBytes_length (n x : Nat) : (leBytes n x).length = n := by
  induction n generalizing x with
  | zero => rfl
  | succ n ih => simp [leBytes, ih]

theorem ofLe_leBytes (n x : Nat) : ofLe (leBytes n x) = x % 256 ^ n := by
  induction n generalizing x with
  | zero => simp [leBytes, ofLe, Nat.mod_one]
  | succ n ih =>
    simp only [leBytes, ofLe, ih, BitVec.toNat_ofNat]
    rw [Nat.pow_succ 256 n, Nat.mul_comm (256 ^ n) 256, Nat.mod_mul]

theorem ofLe_leBytes_of_lt (n x : Nat) (h : x < 256 ^ n) : ofLe (leBytes n x) = x := by
  rw [ofLe_leBytes, Nat.mod_eq_of_lt h]

theorem ofLe_lt (l : List Byte) : ofLe l < 256 ^ l.length := by
  induction l with
  | nil => simp [ofLe]
  | cons b bs ih =>
    have : b.toNat < 256 := b.isLt
    simp only [ofLe, List.length_cons, Nat.pow_succ]
    omega

theorem leBytes_ofLe (l : List Byte) : leBytes l.length (ofLe l) = l := by
  induction l with
  | nil => rfl
  | cons b bs ih =>
    have hb : b.toNat < 256 := b.isLt
    simp only [List.length_cons, leBytes, ofLe, List.cons.injEq]
    constructor
    · apply BitVec.eq_of_toNat_eq; rw [BitVec.toNat_ofNat]; omega
    · rw [show (b.toNat + 256 * ofLe bs) / 256 = ofLe bs by omega]; exact ih

end Verif
