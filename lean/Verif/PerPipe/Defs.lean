import Verif.Dofs.Periodic

/-! # Groups of components -/
namespace Verif.PerPipe
open Verif Verif.Dofs

/-- Every group holds the boundaries of the definitions naming some component. -/
theorem mem_processDef {β : Type} [LinearOrder β] {dpn : Nat} {defs : List (β × List Nat)} {g : List Nat × List β} (hg : g ∈ processDef dpn defs) :
    ∃ i < dpn, ∀ b, b ∈ g.2 ↔ ∃ d ∈ defs, d.1 = b ∧ i ∈ d.2 := by
  unfold processDef at hg
  obtain ⟨k, hk, rfl⟩ := List.mem_map.1 hg
  obtain ⟨i, hi, rfl⟩ := List.mem_map.1 (List.mem_dedup.1 hk)
  refine ⟨i, List.mem_range.1 hi, fun b => ?_⟩
  unfold dofGroup
  rw [Std.mem_sort]
  simp only [List.mem_map, List.mem_filter, decide_eq_true_eq]
  constructor
  · rintro ⟨d, ⟨h1, h2⟩, h3⟩; exact ⟨d, h1, h3, h2⟩
  · rintro ⟨d, h1, h3, h2⟩; exact ⟨d, ⟨h1, h2⟩, h3⟩

end Verif.PerPipe
