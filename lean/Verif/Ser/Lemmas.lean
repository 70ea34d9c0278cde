import Verif.Ser.Model

/-! # Codec laws -/
namespace Verif.Ser

/-- A codec is lawful if reading back a serialised value followed by any bytes returns the value
and exactly those bytes, and whatever is accepted is the serialisation of the result. -/
structure Lawful {α} (c : Codec α) : Prop where
  des_ser : ∀ v rest, c.Fits v → c.des (c.ser v ++ rest) = some (v, rest)
  ser_des : ∀ s v rest, c.des s = some (v, rest) → s = c.ser v ++ rest ∧ c.Fits v

theorem lawful_raw (n : Nat) : Lawful (rawCodec n) where
  des_ser v rest _ := by
    obtain ⟨l, rfl⟩ := v
    simp [rawCodec]
  ser_des s v rest h := by
    simp only [rawCodec] at h ⊢
    split at h
    · simp only [Option.some.injEq, Prod.mk.injEq] at h
      obtain ⟨rfl, rfl⟩ := h
      simp
    · cases h

theorem lawful_uint (n : Nat) : Lawful (uintCodec n) where
  des_ser v rest h := by
    simp only [uintCodec] at h ⊢
    rw [if_pos (by simp), List.take_left' (leBytes_length n v), List.drop_left' (leBytes_length n v),
      ofLe_leBytes_of_lt _ _ h]
  ser_des s v rest h := by
    simp only [uintCodec] at h ⊢
    split at h
    · rename_i hn
      simp only [Option.some.injEq, Prod.mk.injEq] at h
      obtain ⟨rfl, rfl⟩ := h
      have e := leBytes_ofLe (s.take n)
      have l := ofLe_lt (s.take n)
      rw [List.length_take, Nat.min_eq_left hn] at e l
      rw [e, List.take_append_drop]
      exact ⟨rfl, l⟩
    · cases h

theorem lawful_seq {α} {c : Codec α} (hc : Lawful c) : Lawful (seqCodec c) where
  des_ser v rest hf := by
    obtain ⟨hlen, hall⟩ := hf
    simp only [seqCodec]
    have h8 : ∀ x, (leBytes 8 x).length = 8 := leBytes_length 8
    rw [if_pos (by simp [h8]), List.append_assoc, List.take_left' (h8 _), List.drop_left' (h8 _),
      ofLe_leBytes_of_lt _ _ (by simpa using hlen)]
    clear hlen
    induction v with
    | nil => simp [desSeq]
    | cons x xs ih =>
      simp only [List.map_cons, List.flatten_cons, List.length_cons, desSeq, List.append_assoc]
      rw [hc.des_ser x _ (hall x (by simp))]
      simp only
      rw [ih (fun y hy => hall y (by simp [hy]))]
  ser_des s v rest h := by
    simp only [seqCodec] at h ⊢
    split at h
    · rename_i h8
      have key : ∀ (n : Nat) (s : List Byte) (v : List α) (rest : List Byte),
          desSeq c.des n s = some (v, rest) →
            s = (v.map c.ser).flatten ++ rest ∧ v.length = n ∧ ∀ x ∈ v, c.Fits x := by
        intro n
        induction n with
        | zero =>
          intro s v rest h
          simp only [desSeq, Option.some.injEq, Prod.mk.injEq] at h
          obtain ⟨rfl, rfl⟩ := h
          simp
        | succ n ihn =>
          intro s v rest h
          simp only [desSeq] at h
          split at h
          · cases h
          · rename_i x s' e1
            split at h
            · cases h
            · rename_i xs s'' e2
              simp only [Option.some.injEq, Prod.mk.injEq] at h
              obtain ⟨rfl, rfl⟩ := h
              obtain ⟨a1, a2⟩ := hc.ser_des _ _ _ e1
              obtain ⟨b1, b2, b3⟩ := ihn _ _ _ e2
              refine ⟨?_, by simp [b2], ?_⟩
              · rw [a1, b1]; simp
              · intro y hy
                rcases List.mem_cons.1 hy with rfl | hy
                · exact a2
                · exact b3 y hy
      obtain ⟨a1, a2, a3⟩ := key _ _ _ _ h
      have hlt : ofLe (s.take 8) < 2 ^ 64 := by
        have := ofLe_lt (s.take 8)
        rw [List.length_take, Nat.min_eq_left h8] at this
        simpa using this
      refine ⟨?_, by rw [a2]; exact hlt, a3⟩
      rw [a2, List.append_assoc, ← a1]
      have e : leBytes 8 (ofLe (s.take 8)) = s.take 8 := by
        have := leBytes_ofLe (s.take 8)
        rwa [List.length_take, Nat.min_eq_left h8] at this
      rw [e, List.take_append_drop]
    · cases h

theorem lawful_pair {α β} {c : Codec α} {d : Codec β} (hc : Lawful c) (hd : Lawful d) :
    Lawful (pairCodec c d) where
  des_ser v rest hf := by
    simp only [pairCodec, List.append_assoc]
    rw [hc.des_ser _ _ hf.1]
    simp only
    rw [hd.des_ser _ _ hf.2]
  ser_des s v rest h := by
    simp only [pairCodec] at h ⊢
    split at h
    · cases h
    · rename_i x s' e1
      split at h
      · cases h
      · rename_i y s'' e2
        simp only [Option.some.injEq, Prod.mk.injEq] at h
        obtain ⟨rfl, rfl⟩ := h
        obtain ⟨a1, a2⟩ := hc.ser_des _ _ _ e1
        obtain ⟨b1, b2⟩ := hd.ser_des _ _ _ e2
        exact ⟨by rw [a1, b1]; simp, a2, b2⟩

theorem lawful_unit : Lawful unitCodec where
  des_ser v rest _ := rfl
  ser_des s v rest h := by
    simp only [unitCodec, Option.some.injEq, Prod.mk.injEq] at h ⊢
    exact ⟨h.2, trivial⟩

theorem lawful (t : Ty) : Lawful t.codec := by
  induction t with
  | raw n => exact lawful_raw n
  | seq t ih => exact lawful_seq ih
  | pair a b iha ihb => exact lawful_pair iha ihb
  | unit => exact lawful_unit

/-- A proper prefix of a serialised value is rejected by a lawful codec. -/
theorem Lawful.truncated {α} {c : Codec α} (hc : Lawful c) (v : α) (h : c.Fits v) (p q : List Byte)
    (e : c.ser v = p ++ q) (hq : q ≠ []) : c.des p = none := by
  cases hd : c.des p with
  | none => rfl
  | some r =>
    obtain ⟨w, rest⟩ := r
    obtain ⟨h1, h2⟩ := hc.ser_des p w rest hd
    rw [h1, List.append_assoc] at e
    have e1 := hc.des_ser v [] h
    rw [List.append_nil, e, hc.des_ser w _ h2] at e1
    simp at e1
    exact absurd e1.2.2 hq

end Verif.Ser
