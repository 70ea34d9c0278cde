/-!
# Model of `exactIntegerCast`, `integralPower` and `smallest_integral_t`

Source: `/repo/include/l3ster/util/Common.hpp`, lines 56-128.

A C++ integer type is described by its signedness and width (`bool` is the unsigned type of
width 1).  Values are mathematical integers; conversions wrap modulo `2^width` as C++20
prescribes.  `uintmax_t`/`intmax_t` have 64 bits.  A thrown exception is `none`.
-/
namespace Verif.IntCast

/-- An integer type: signedness and width in bits. (the integral types of Common.hpp 56-58) -/
structure IntTy where
  signed : Bool
  bits : Nat
deriving DecidableEq, Repr

/-- `std::numeric_limits<T>::max()`. (Common.hpp 60, 62) -/
def IntTy.max (t : IntTy) : Int := if t.signed then 2 ^ (t.bits - 1) - 1 else 2 ^ t.bits - 1
/-- `std::numeric_limits<T>::min()`. (Common.hpp 61, 63) -/
def IntTy.min (t : IntTy) : Int := if t.signed then -2 ^ (t.bits - 1) else 0

/-- `static_cast<T>(x)`: the value congruent to `x` modulo `2^bits` representable in `T`. -/
def IntTy.wrap (t : IntTy) (x : Int) : Int :=
  let r := x % 2 ^ t.bits
  if t.signed ∧ r ≥ 2 ^ (t.bits - 1) then r - 2 ^ t.bits else r

/-- `std::uintmax_t`. (Common.hpp 60, 62, 67) -/
def uintmax : IntTy := ⟨false, 64⟩
/-- `std::intmax_t`. (Common.hpp 61, 63, 73) -/
def intmax : IntTy := ⟨true, 64⟩

/-- `exactIntegerCast<To>(from)`, Common.hpp 56-78.  The two assertions are compiled in only if
the range of the source type exceeds that of the target (`if constexpr`). -/
def exactCast (src dst : IntTy) (v : Int) : Option Int :=
  let maxFrom := uintmax.wrap src.max
  let minFrom := intmax.wrap src.min
  let maxTo := uintmax.wrap dst.max
  let minTo := intmax.wrap dst.min
  if maxFrom > maxTo ∧ ¬ uintmax.wrap v ≤ maxTo then none
  else if minFrom < minTo ∧ ¬ intmax.wrap v ≥ minTo then none
  else some (dst.wrap v)

/-- `integralPower(base, exponent)`, Common.hpp 80-87: repeated multiplication in the base type
(unsigned wrap-around; for signed bases overflow is undefined in C++, the model wraps and the
theorem asks for the exact result to be representable). -/
def intPower (t : IntTy) (base : Int) (e : Nat) : Int :=
  (List.range e).foldl (fun r _ => t.wrap (r * base)) 1

/-- `smallest_integral_t<max, min>`, Common.hpp 89-128: `none` if the constraint on line 126
rejects the arguments (no type fits). -/
def smallestIntegral (mx mn : Int) : Option IntTy :=
  if mn < 0 then
    if mx ≤ IntTy.max ⟨true, 8⟩ ∧ mn ≥ IntTy.min ⟨true, 8⟩ then some ⟨true, 8⟩
    else if mx ≤ IntTy.max ⟨true, 16⟩ ∧ mn ≥ IntTy.min ⟨true, 16⟩ then some ⟨true, 16⟩
    else if mx ≤ IntTy.max ⟨true, 32⟩ ∧ mn ≥ IntTy.min ⟨true, 32⟩ then some ⟨true, 32⟩
    else if mx ≤ IntTy.max ⟨true, 64⟩ ∧ mn ≥ IntTy.min ⟨true, 64⟩ then some ⟨true, 64⟩
    else none
  else
    if mx ≤ IntTy.max ⟨false, 8⟩ then some ⟨false, 8⟩
    else if mx ≤ IntTy.max ⟨false, 16⟩ then some ⟨false, 16⟩
    else if mx ≤ IntTy.max ⟨false, 32⟩ then some ⟨false, 32⟩
    else if mx ≤ IntTy.max ⟨false, 64⟩ then some ⟨false, 64⟩
    else none

end Verif.IntCast
