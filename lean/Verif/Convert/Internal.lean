import Verif.Convert.Loop
/-! # Internal nodes of converted elements are numbered consecutively -/
namespace Verif.Convert
open Verif Verif.Elem

theorem side_of_axis (t : ElType) : ∀ a < t.dim, ∀ b < 2, ∃ s < nSides t, sideAxis t s = a ∧ s % 2 = b := by
  cases t <;> decide

theorem internal_digit {t : ElType} {n i : Nat} (hn : 2 ≤ n) (hb : n ^ t.dim < 2 ^ 16) (hi : i ∈ internalInds t n) {a : Nat} (ha : a < t.dim) :
    i / n ^ a % n ≠ 0 ∧ i / n ^ a % n ≠ n - 1 := by
  have hlt := inds_lt t n i (by omega) hb (Or.inr hi)
  have hnb : i ∉ boundaryInds t n := by
    intro hbi
    have hss : (boundaryInds t n).Pairwise (· ≤ ·) := (Std.sortUniq_strict _).imp (fun {a b} h => Nat.le_of_lt h)
    have h1 := (List.mem_filter.1 hi).2
    rw [(Std.binarySearch_iff hss i).2 hbi] at h1
    simp at h1
  have key : ∀ b < 2, i / n ^ a % n ≠ if b = 0 then 0 else n - 1 := by
    intro b hb2 he
    obtain ⟨s, hs, rfl, rfl⟩ := side_of_axis t a ha b hb2
    have h1 := side_eq_layer t n s (by omega) hb hs
    refine hnb ?_
    rw [boundaryInds, Std.mem_sortUniq, List.mem_flatten]
    refine ⟨_, List.mem_of_getElem? (by rw [sideNodeInds] at h1; exact h1), mem_layer.2 ⟨hlt, he⟩⟩
  exact ⟨key 0 (by omega), by simpa using key 1 (by omega)⟩

theorem internal_off {t : ElType} {n i : Nat} (hn : 2 ≤ n) (hb : n ^ t.dim < 2 ^ 16) (hi : i ∈ internalInds t n) {F : Face} (hF : F ∈ allFaces t)
    (hfree : free F < t.dim) : onFace n F i = false := by
  by_contra hc
  have hon : onFace n F i = true := by simpa using hc
  have hlen := length_allFaces hF
  have hex : ∃ c ∈ F, c ≠ none := by
    by_contra h
    have hall : ∀ c ∈ F, none = c := fun c hc => by
      by_contra hne
      exact h ⟨c, hc, fun he => hne he.symm⟩
    have := List.count_eq_length.2 hall
    unfold free at hfree
    omega
  obtain ⟨c, hc, hne⟩ := hex
  obtain ⟨a, ha, rfl⟩ := List.mem_iff_getElem.1 hc
  have hm : (F[a], a) ∈ F.zipIdx := by
    rw [List.mem_zipIdx_iff_getElem?]; exact List.getElem?_eq_getElem ha
  have h1 := List.all_eq_true.1 hon _ hm
  have hd := internal_digit hn hb hi (a := a) (by omega)
  cases hFa : F[a] with
  | none => exact hne hFa
  | some b =>
    rw [hFa] at h1
    unfold coordOk at h1
    simp only [beq_iff_eq] at h1
    cases b <;> simp at h1 <;> omega

theorem internal_not_corner {t : ElType} {n i : Nat} (hn : 2 ≤ n) (hb : n ^ t.dim < 2 ^ 16) (hi : i ∈ internalInds t n) (k : Nat) : i ≠ corner n k := by
  rintro rfl
  have hd := internal_digit hn hb hi (a := 0) (by cases t <;> decide)
  rw [corner_digit n k 0 (by omega) (by omega)] at hd
  rcases Nat.mod_two_eq_zero_or_one (k / 2 ^ 0) with h | h <;> rw [h] at hd <;> omega

theorem highest_lt (t t' : ElType) (h : t'.dim ≤ t.dim) : highestDim t t' < t.dim := by
  revert h; cases t <;> cases t' <;> decide

section
variable {P D : Type} {n : Nat} {loc : Loc P D} {close : P → P → Bool} {adj : Nat → List Nat} {nOld : Nat} {els : List (El D)}

/-- A position inside an element of the highest dimension belongs to no other element. -/
theorem internal_alone (G : Geo n loc close adj nOld els) {e e' : El D} (he : e ∈ els) (he' : e' ∈ els) (hid : e'.id ≠ e.id)
    (hdim : e'.ty.dim ≤ e.ty.dim) {i j : Nat} (hi : i ∈ internalInds e.ty n) (hj : j < n ^ e'.ty.dim) : pos n loc e i ≠ pos n loc e' j := by
  intro hp
  have hn := G.two
  have hb := G.bound e he
  have hlt := inds_lt e.ty n i (by omega) hb (Or.inr hi)
  rcases G.conform e he e' he' (Ne.symm hid) with h | ⟨F, F', V, hfree, honly, _⟩
  · exact h.2 i j hlt hj hp
  · have h1 := (honly i j hlt hj hp).1
    rw [internal_off hn hb hi V.mem1 (lt_of_le_of_lt hfree (highest_lt _ _ hdim))] at h1
    simp at h1

theorem internal_consec (G : Geo n loc close adj nOld els) {ν : Nat → List Nat} {N : Nat} (I : PInv n loc nOld els ν N) {e : El D} (he : e ∈ els)
    (htop : ∀ e' ∈ els, e'.ty.dim ≤ e.ty.dim) :
    ∃ M, ∀ k (hk : k < (internalInds e.ty n).length), (ν e.id).getD (internalInds e.ty n)[k] 0 = M + k :=
  I.cons e he fun _ hi => ⟨fun k _ => internal_not_corner G.two (G.bound e he) hi k, fun e' he' hne _ hj => internal_alone G he he' hne (htop e' he') hi hj⟩

end

end Verif.Convert
