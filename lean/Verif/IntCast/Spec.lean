import Verif.IntCast.Model
/-! # Specification for integer conversions -/
namespace Verif.IntCast

/-- The value set of a two's complement type, stated without the model's `min`/`max`. -/
def Representable (t : IntTy) (x : Int) : Prop :=
  if t.signed then -(2 : Int) ^ (t.bits - 1) ≤ x ∧ x < 2 ^ (t.bits - 1) else 0 ≤ x ∧ x < 2 ^ t.bits

instance (t : IntTy) (x : Int) : Decidable (Representable t x) := by
  unfold Representable; split <;> infer_instance

/-- Types C++ offers here: between 1 and 64 bits, signed ones at least 8 bits. -/
def IntTy.Valid (t : IntTy) : Prop := 1 ≤ t.bits ∧ t.bits ≤ 64

/-- The full statement of C06. -/
def C06Statement : Prop :=
  ∀ (src dst : IntTy), src.Valid → dst.Valid → ∀ v, Representable src v →
    exactCast src dst v = if Representable dst v then some v else none

/-- The standard fixed width types, narrowest first. -/
def fixedWidth (signed : Bool) : List IntTy := [8, 16, 32, 64].map (⟨signed, ·⟩)

end Verif.IntCast
