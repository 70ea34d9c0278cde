import Verif.Vtk.Doc
import Verif.Vtk.DocSpec
import Verif.Base64.Props
import Mathlib.Data.List.Basic
/-! Helper lemmas for the exported documents. -/
namespace Verif.Vtk
open Verif Spec

/-- No quotation mark. -/
abbrev Noq (l : List Byte) : Prop := 34#8 ∉ l

theorem splitQuotes_noq (l : List Byte) (h : Noq l) : splitQuotes l = [l] := by
  induction l with
  | nil => rfl
  | cons c l ih =>
    rw [splitQuotes, if_neg (fun e => h (by simp [e])), ih (fun e => h (by simp [e]))]; rfl

theorem splitQuotes_append (l r : List Byte) (h : Noq l) : splitQuotes (l ++ 34#8 :: r) = l :: splitQuotes r := by
  induction l with
  | nil => rw [List.nil_append, splitQuotes, if_pos rfl]
  | cons c l ih =>
    rw [List.cons_append, splitQuotes, if_neg (fun e => h (by simp [e])), ih (fun e => h (by simp [e]))]; rfl

/-- A piece of text which, wherever it is inserted outside quotation marks, contributes the
attributes `A`. -/
def Seg (x : List Byte) (A : List (List Byte × List Byte)) : Prop :=
  ∀ p, Noq p → ∃ p', Noq p' ∧ ∀ r, attributes (p ++ (x ++ r)) = A ++ attributes (p' ++ r)

theorem Seg.append {x y : List Byte} {A B : List (List Byte × List Byte)} (hx : Seg x A) (hy : Seg y B) : Seg (x ++ y) (A ++ B) := by
  intro p hp
  obtain ⟨p1, h1, e1⟩ := hx p hp
  obtain ⟨p2, h2, e2⟩ := hy p1 h1
  exact ⟨p2, h2, fun r => by rw [List.append_assoc, e1, e2, List.append_assoc]⟩

theorem Seg.noq {x : List Byte} (hx : Noq x) : Seg x [] := fun p hp =>
  ⟨p ++ x, by simp only [Noq, List.mem_append, not_or]; exact ⟨hp, hx⟩, fun r => by rw [List.append_assoc]; rfl⟩

theorem Seg.attributes_eq {x : List Byte} {A : List (List Byte × List Byte)} (h : Seg x A) : attributes x = A := by
  obtain ⟨p, hp, e⟩ := h [] (by simp [Noq])
  have := e []
  rw [List.nil_append, List.append_nil, List.append_nil, attributes, attributes, splitQuotes_noq p hp] at this
  rw [attributes, this, pairUp, List.append_nil]
  intro o v r e; simp at e

/-- An attribute with some text in front of its name. -/
def att (a k v : List Byte) : List Byte := a ++ 32#8 :: (k ++ 61#8 :: 34#8 :: (v ++ [34#8]))

theorem Seg.att {a k v : List Byte} (ha : Noq a) (hk : Noq k ∧ 32#8 ∉ k) (hv : Noq v) : Seg (att a k v) [(k, v)] := by
  intro p hp
  refine ⟨[], by simp [Noq], fun r => ?_⟩
  have e : p ++ (Vtk.att a k v ++ r) = (p ++ (a ++ 32#8 :: (k ++ [61#8]))) ++ 34#8 :: (v ++ 34#8 :: r) := by
    simp [Vtk.att]
  rw [e, attributes, splitQuotes_append _ _ (by simpa [Noq] using ⟨hp, ha, hk.1⟩), splitQuotes_append _ _ hv, pairUp]
  have : attrName (p ++ (a ++ 32#8 :: (k ++ [61#8]))) = k := by
    have hr : (p ++ (a ++ 32#8 :: (k ++ [61#8]))).reverse = 61#8 :: (k.reverse ++ 32#8 :: (a.reverse ++ p.reverse)) := by simp
    rw [attrName, hr, List.drop_succ_cons, List.drop_zero, List.takeWhile_append_of_pos, List.takeWhile_cons_of_neg (by simp)]
    · simp
    · intro c hc
      simp only [decide_eq_true_eq]
      intro e; subst e; exact hk.2 (List.mem_reverse.1 hc)
  rw [this]; rfl

/-- Lists of segments. -/
theorem Seg.flatMap {α : Type} {l : List α} {f : α → List Byte} {A : α → List (List Byte × List Byte)}
    (h : ∀ x ∈ l, Seg (f x) (A x)) : Seg (l.flatMap f) (l.flatMap A) := by
  induction l with
  | nil => exact Seg.noq (by simp [Noq])
  | cons a l ih =>
    rw [List.flatMap_cons, List.flatMap_cons]
    exact (h a (by simp)).append (ih fun x hx => h x (by simp [hx]))

/-! ### Numbers -/

theorem decimal_mem (n : Nat) : ∀ c ∈ decimal n, 48 ≤ c.toNat ∧ c.toNat ≤ 57 := by
  induction n using decimal.induct with
  | case1 n h =>
    rw [decimal, if_pos h]
    intro c hc
    obtain rfl := List.mem_singleton.1 hc
    rw [BitVec.toNat_ofNat]; omega
  | case2 n h ih =>
    rw [decimal, if_neg h]
    intro c hc
    rcases List.mem_append.1 hc with hc | hc
    · exact ih c hc
    · obtain rfl := List.mem_singleton.1 hc
      rw [BitVec.toNat_ofNat]; omega

theorem decimal_noq (n : Nat) : Noq (decimal n) := by
  intro h
  have := decimal_mem n _ h
  simp at this

theorem number_append (a : List Byte) (c : Byte) : number (a ++ [c]) = 10 * number a + (c.toNat - 48) := by
  simp [number]

theorem number_decimal (n : Nat) : number (decimal n) = n := by
  induction n using decimal.induct with
  | case1 n h =>
    rw [decimal, if_pos h]
    simp only [number, List.foldl_cons, List.foldl_nil, BitVec.toNat_ofNat]; omega
  | case2 n h ih =>
    rw [decimal, if_neg h, number_append, ih, BitVec.toNat_ofNat]; omega

theorem decimal_injective {m n : Nat} (h : decimal m = decimal n) : m = n := by
  rw [← number_decimal m, h, number_decimal]

/-! ### Base64 text -/

open Base64 in
theorem value_inv (c : Byte) (v : Nat) (h : Base64.Spec.value c = some v) : v < 64 ∧ c = tab v := by
  have : ∀ c : Byte, ∀ v, Base64.Spec.value c = some v → v < 64 ∧ c = tab v := by
    have h : ∀ i : Fin 256, ∀ v ∈ Base64.Spec.value (BitVec.ofFin i), v < 64 ∧ BitVec.ofFin i = tab v := by
      decide +kernel
    intro c v hv
    exact h c.toFin v hv
  exact this c v h

/-- Strict decoding accepts only the canonical encoding. -/
theorem enc_decode (text d : List Byte) (h : Base64.Spec.decode text = some d) : text = Base64.enc d := by
  induction text using Base64.Spec.decode.induct generalizing d with
  | case1 => simp only [Base64.Spec.decode, Option.some.injEq] at h; subst h; rfl
  | case2 a b c e rest ih =>
    rw [Base64.Spec.decode] at h
    simp only [Option.bind_eq_bind, Option.bind_eq_some_iff] at h
    obtain ⟨v0, h0, v1, h1, h⟩ := h
    obtain ⟨l0, e0⟩ := value_inv a v0 h0
    obtain ⟨l1, e1⟩ := value_inv b v1 h1
    by_cases hc : c.toNat = 61
    · rw [if_pos hc] at h
      by_cases hd : e.toNat = 61 ∧ rest = [] ∧ v1 % 16 = 0
      · rw [if_pos hd] at h
        obtain ⟨hd, rfl, hv⟩ := hd
        have hc' : c = Base64.pad := BitVec.eq_of_toNat_eq (by rw [hc]; rfl)
        have hd' : e = Base64.pad := BitVec.eq_of_toNat_eq (by rw [hd]; rfl)
        simp only [Base64.Spec.bytesOf, List.take_succ_cons, List.take_zero] at h
        obtain rfl := Option.some.inj h
        simp only [Base64.enc, BitVec.toNat_ofNat, e0, e1, hc', hd', List.cons.injEq, and_true]
        constructor <;> congr 1 <;> omega
      · rw [if_neg hd] at h; simp at h
    · rw [if_neg hc] at h
      simp only [Option.bind_eq_some_iff] at h
      obtain ⟨v2, h2, h⟩ := h
      obtain ⟨l2, e2⟩ := value_inv c v2 h2
      by_cases hd : e.toNat = 61
      · rw [if_pos hd] at h
        by_cases hr : rest = [] ∧ v2 % 4 = 0
        · rw [if_pos hr] at h
          obtain ⟨rfl, hv⟩ := hr
          have hd' : e = Base64.pad := BitVec.eq_of_toNat_eq (by rw [hd]; rfl)
          simp only [Base64.Spec.bytesOf, List.take_succ_cons, List.take_zero] at h
          obtain rfl := Option.some.inj h
          simp only [Base64.enc, BitVec.toNat_ofNat, e0, e1, e2, hd', List.cons.injEq, and_true]
          refine ⟨?_, ?_, ?_⟩ <;> congr 1 <;> omega
        · rw [if_neg hr] at h; simp at h
      · rw [if_neg hd] at h
        simp only [Option.bind_eq_some_iff] at h
        obtain ⟨v3, h3, tail, ht, h⟩ := h
        obtain ⟨l3, e3⟩ := value_inv e v3 h3
        obtain rfl := Option.some.inj h
        have := ih tail ht
        simp only [Base64.Spec.bytesOf, List.cons_append, List.nil_append, Base64.enc, Base64.tri, BitVec.toNat_ofNat, ← this,
          List.cons.injEq, and_true, e0, e1, e2, e3]
        refine ⟨?_, ?_, ?_, ?_⟩ <;> congr 1 <;> omega
  | case3 text h1 h2 =>
    exfalso
    match text, h1, h2, h with
    | [], h1, _, _ => exact h1 rfl
    | [_], _, _, h => simp [Base64.Spec.decode] at h
    | [_, _], _, _, h => simp [Base64.Spec.decode] at h
    | [_, _, _], _, _, h => simp [Base64.Spec.decode] at h
    | _ :: _ :: _ :: _ :: _, _, h2, _ => exact h2 _ _ _ _ _ rfl

/-- Reading an encoded array gives back its contents, whatever follows. -/
theorem readArray_enc (d rest : List Byte) (h : d.length < 2 ^ 64) :
    readArray (Base64.enc (leBytes 8 d.length ++ d) ++ rest) = some d := by
  have h12 : (Base64.enc (leBytes 8 d.length ++ d) ++ rest).take 12 = Base64.enc ((leBytes 8 d.length ++ d).take 9) := by
    have e : Base64.enc (leBytes 8 d.length ++ d) =
        Base64.enc ((leBytes 8 d.length ++ d).take 9) ++ Base64.enc ((leBytes 8 d.length ++ d).drop 9) := by
      by_cases hd : d = []
      · subst hd
        have : (leBytes 8 ([] : List Byte).length ++ []).drop 9 = ([] : List Byte) := by
          apply List.drop_eq_nil_of_le; simp
        rw [this, List.take_of_length_le (by simp)]; simp [Base64.enc]
      · have : 0 < d.length := List.length_pos_iff.2 hd
        rw [← Base64.enc_append _ _ (by rw [List.length_take]; simp; omega), List.take_append_drop]
    have l : (Base64.enc ((leBytes 8 d.length ++ d).take 9)).length = 12 := by
      rw [Base64.enc_length, List.length_take, List.length_append, leBytes_length]
      rcases Nat.eq_zero_or_pos d.length with h0 | h0
      · rw [h0]; rfl
      · rw [Nat.min_eq_left (by omega)]; rfl
    rw [e, List.append_assoc, List.take_left' l]
  rw [readArray, h12, Base64.decode_enc]
  simp only
  have h8 : ((leBytes 8 d.length ++ d).take 9).take 8 = leBytes 8 d.length := by
    rw [List.take_take, List.take_left' (by simp)]
  rw [h8, ofLe_leBytes_of_lt 8 _ (by simpa using h)]
  have hl : (Base64.enc (leBytes 8 d.length ++ d)).length = (8 + d.length + 2) / 3 * 4 := by
    rw [Base64.enc_length, List.length_append, leBytes_length]
    congr 1
    split <;> omega
  rw [List.take_left' hl, Base64.decode_enc]
  simp only [Option.map_some, Option.some.injEq]
  exact List.drop_left' (by simp)

end Verif.Vtk
