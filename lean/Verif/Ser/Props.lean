import Verif.Ser.Lemmas

/-! # Property C07: serialisation round trip -/
namespace Verif.Ser

/-- **C07** (round trip): for every type shape and value, deserialising the serialised bytes
returns the value, also when other data follow, and exactly the bytes of the value are read. -/
theorem C07_roundtrip (t : Ty) (v : t.Val) (rest : List Byte) (h : t.codec.Fits v) :
    deserialize t (serialize t v ++ rest) = some v ∧
      (t.codec.des (serialize t v ++ rest)).map (·.2) = some rest := by
  have := (lawful t).des_ser v rest h
  simp [deserialize, serialize, this]

/-- **C07** (truncation): every proper prefix of a serialised value is rejected. -/
theorem C07_truncation_rejected (t : Ty) (v : t.Val) (h : t.codec.Fits v) (p q : List Byte)
    (e : serialize t v = p ++ q) (hq : q ≠ []) : deserialize t p = none := by
  unfold deserialize
  rw [(lawful t).truncated v h p q e hq]; rfl

/-- **C07** (no information invented): any accepted input starts with the serialisation of the
returned value. -/
theorem C07_canonical (t : Ty) (s : List Byte) (v : t.Val) (h : deserialize t s = some v) :
    ∃ rest, s = serialize t v ++ rest := by
  unfold deserialize at h
  rw [Option.map_eq_some_iff] at h
  obtain ⟨⟨w, rest⟩, e, rfl⟩ := h
  exact ⟨rest, ((lawful t).ser_des s w rest e).1⟩

/-- **C07**: serialisation is injective. -/
theorem C07_injective (t : Ty) (v w : t.Val) (hv : t.codec.Fits v) (hw : t.codec.Fits w)
    (h : serialize t v = serialize t w) : v = w := by
  have h1 := (C07_roundtrip t v [] hv).1
  have h2 := (C07_roundtrip t w [] hw).1
  rw [h] at h1
  exact Option.some.inj (h1.symm.trans h2)

/-- A concrete nested value: a pair of a 2-byte object and a range of ranges of bytes. -/
def sample : (Ty.pair (.raw 2) (.seq (.seq (.raw 1)))).Val :=
  (⟨[1, 2], rfl⟩, ([[⟨[3], rfl⟩], [], [⟨[4], rfl⟩, ⟨[5], rfl⟩]] : List (List { l : List Byte // l.length = 1 })))

example : (serialize _ sample).length = 2 + 8 + 3 * 8 + 3 := by decide +kernel

example : (Ty.codec (.pair (.raw 2) (.seq (.seq (.raw 1))))).Fits sample := by
  refine ⟨trivial, by decide +kernel, fun x hx => ?_⟩
  have all : ∀ x ∈ ([[⟨[3], rfl⟩], [], [⟨[4], rfl⟩, ⟨[5], rfl⟩]] : List (List { l : List Byte // l.length = 1 })),
      x.length < 2 ^ 64 := by simp
  have this := all x hx
  exact ⟨this, fun _ _ => trivial⟩

end Verif.Ser
