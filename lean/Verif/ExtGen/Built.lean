import Verif.ExtGen.Model

/-! # Contents of an extruded mesh -/
namespace Verif.ExtGen
open Verif Verif.Elem Verif.Mesh Verif.Split Verif.Partition Verif.Merge Verif.Extrude

theorem grow_domOf (k : Nat) (A B : List (Nat × Element)) : grow Extrude.kinds1 (Prim.domOf k A) (Mesh.sel k B) = Prim.domOf k (A ++ B) := by
  have h : Prim.sel k (A ++ B) = Prim.sel k A ++ Mesh.sel k B := Prim.sel_append k A B
  unfold grow Prim.domOf
  rw [h]
  congr 1
  · cases Prim.sel k A <;> simp
  · simp [Extrude.kinds1, Prim.kinds1, List.filter_append, Element.kind]

theorem step_built {V Z : Type} (evs : Nat → List (Ev V Z)) (δ : Nat → Nat) (ks : List Nat) (hk : ∀ k ∈ ks, ∀ ev ∈ evs k, ev.2.1.kind ∈ Extrude.kinds1)
    (hd : ∀ k ∈ ks, ∀ ev ∈ evs k, ev.2.1.ty.dim = δ ev.1) :
    ∃ st, ks.foldlM (step evs) ([], 0) = some (st, (ks.flatMap evs).length) ∧ Prim.Built ks (number 0 (ks.flatMap evs)) st := by
  induction ks using List.reverseRecOn with
  | nil => exact ⟨[], rfl, List.Pairwise.nil, fun k => by simp [number]⟩
  | append_singleton ks a ih =>
    obtain ⟨st, h1, h2⟩ := ih (fun k h => hk k (by simp [h])) (fun k h => hd k (by simp [h]))
    set A := number 0 (ks.flatMap evs) with hA
    set c := (ks.flatMap evs).length
    set B := number c (evs a) with hB
    have hmem : ∀ (l : List (Ev V Z)) c, ∀ ev ∈ number c l, ∃ x ∈ l, ev.1 = x.1 ∧ ev.2.kind = x.2.1.kind ∧ ev.2.ty = x.2.1.ty := by
      intro l c ev hev
      obtain ⟨⟨x, i⟩, hx, rfl⟩ := List.mem_map.1 hev
      exact ⟨x, (List.mem_zipIdx hx).2.2 ▸ List.getElem_mem _, rfl, rfl, rfl⟩
    have hδA : ∀ ev ∈ A, ev.2.ty.dim = δ ev.1 := by
      intro ev hev
      obtain ⟨x, hx, e1, _, e3⟩ := hmem _ _ ev hev
      obtain ⟨k, hk', hx⟩ := List.mem_flatMap.1 hx
      rw [e1, e3]; exact hd k (by simp [hk']) x hx
    have hδB : ∀ ev ∈ B, ev.2.ty.dim = δ ev.1 := by
      intro ev hev
      obtain ⟨x, hx, e1, _, e3⟩ := hmem _ _ ev hev
      rw [e1, e3]; exact hd a (by simp) x hx
    have ht : ∀ k, (touch Extrude.kinds1 st a).lookup k = if k = a then some ((st.lookup a).getD (emptyDom Extrude.kinds1)) else st.lookup k := by
      intro k; unfold touch; rw [OMap.lookup_upd h2.sorted]
    have hempty : ∀ k, k ∉ A.map (·.1) → Prim.domOf k A = emptyDom Extrude.kinds1 := by
      intro k hk'
      have : Prim.sel k A = [] := by
        rw [List.eq_nil_iff_forall_not_mem]
        intro e he
        exact hk' (List.mem_map.2 ⟨_, Prim.mem_sel.1 he, rfl⟩)
      simp [Prim.domOf, this, emptyDom, Prim.kinds1, Extrude.kinds1]
    have hlook : ∀ k, (touch Extrude.kinds1 st a).lookup k = if k ∈ ks ++ [a] ∨ k ∈ A.map (·.1) then some (Prim.domOf k A) else none := by
      intro k
      rw [ht]
      by_cases hka : k = a
      · subst hka
        rw [if_pos rfl, if_pos (by simp), h2.look]
        split
        · rfl
        · rename_i hne
          rw [hempty k (fun hc => hne (.inr hc))]; rfl
      · rw [if_neg hka, h2.look]
        refine if_congr ?_ rfl rfl
        simp [hka]
    have hok : PushOk Extrude.kinds1 (touch Extrude.kinds1 st a) B := by
      refine ⟨by decide, OMap.sorted_upd h2.sorted _ _, ?_, ?_, fun x hx y hy hxy => by rw [hδB x hx, hδB y hy, hxy], ?_⟩
      · intro k d hd'
        rw [hlook] at hd'
        split at hd'
        · rw [← Option.some.inj hd']; simp [Prim.domOf, Prim.kinds1, Extrude.kinds1]
        · cases hd'
      · intro ev hev
        obtain ⟨x, hx, _, e2, _⟩ := hmem _ _ ev hev
        rw [e2]; exact hk a (by simp) x hx
      · intro ev hev d x hl hx
        rw [hlook] at hl
        split at hl
        · rw [← Option.some.inj hl] at hx
          simp only [Prim.domOf, Option.map_eq_some_iff] at hx
          obtain ⟨e, he, rfl⟩ := hx
          have := hδA _ (Prim.mem_sel.1 (List.mem_of_mem_head? he))
          simp only at this
          rw [this, hδB ev hev]
        · cases hl
    obtain ⟨st', p1, p2, p3⟩ := pushAll_spec hok
    have hall : number 0 ((ks ++ [a]).flatMap evs) = A ++ B := by
      rw [List.flatMap_append, List.flatMap_singleton, number_append, Nat.zero_add]
    refine ⟨st', ?_, p2, fun k => ?_⟩
    · rw [List.foldlM_append, h1]
      simp only [Option.bind_eq_bind, Option.bind_some, List.foldlM_cons, List.foldlM_nil]
      have : step evs (st, c) a = some (st', c + (evs a).length) := by
        unfold step; simp only; rw [p1]; rfl
      rw [this, List.flatMap_append, List.flatMap_singleton, List.length_append]
      rfl
    · rw [p3, hall]
      have hgrow : (((touch Extrude.kinds1 st a).lookup k).getD (emptyDom Extrude.kinds1)) = Prim.domOf k A := by
        rw [hlook]
        split
        · rfl
        · rename_i hne
          rw [hempty k (fun hc => hne (.inr hc))]; rfl
      rw [hgrow, grow_domOf]
      refine if_congr ?_ rfl rfl
      rw [hlook, List.map_append, show (k ∈ A.map (·.1) ++ B.map (·.1) ↔ k ∈ A.map (·.1) ∨ k ∈ B.map (·.1)) from List.mem_append]
      by_cases hc : k ∈ ks ++ [a] ∨ k ∈ A.map (·.1)
      · rw [if_pos hc]; simp only [Option.isSome_some, or_true, true_iff]; tauto
      · rw [if_neg hc]; simp only [Option.isSome_none, Bool.false_eq_true, or_false]; tauto

/-! ## Where the new elements come from -/

/-- A layer between two heights, or a height. -/
inductive Cell
  | lay (l : Nat)
  | lev (l : Nat)
  deriving DecidableEq

def Cell.lift : Cell → ElType → ElType
  | .lay _, t => liftTy t
  | .lev _, t => t

/-- The lower height. -/
def Cell.base : Cell → Nat
  | .lay l => l
  | .lev l => l

def Cell.dim : Cell → Nat
  | .lay _ => 1
  | .lev _ => 0

def Cell.nodes (N : Nat) (e : Element) : Cell → List Nat
  | .lay l => prismNodes N e l
  | .lev l => e.nodes.map (· + l * N)

/-- Domain of the new element, element it is a copy of, layer or height. -/
abbrev Src := Nat × Element × Cell

def domSrc (L back front : Nat) (m : DomMap) (k : Nat) : List Src :=
  ((els m k).flatMap fun e => (List.range (L - 1)).map fun l => (k, e, .lay l)) ++
    (els m k).flatMap fun e => if e.ty = .line then [] else [(back, e, .lev 0), (front, e, .lev (L - 1))]

def sources (L back front : Nat) (m : DomMap) : List Src := (m.map (·.1)).flatMap (domSrc L back front m)

def evOf {V : Type} (N : Nat) (zs : List ℝ) (verts : Element → List (V × ℝ)) : Src → Ev V ℝ
  | (k, e, .lay l) => (k, ⟨liftTy e.ty, e.n, 0, prismNodes N e l⟩, (verts e).map (fun v => (v.1, zs.getD l 0)) ++ (verts e).map fun v => (v.1, zs.getD (l + 1) 0))
  | (k, e, .lev l) => (k, { e with id := 0, nodes := e.nodes.map (· + l * N) }, (verts e).map fun v => (v.1, zs.getD l 0))

/-- The new element with number `i`. -/
def elS (N i : Nat) (s : Src) : Element := ⟨s.2.2.lift s.2.1.ty, 2, i, s.2.2.nodes N s.2.1⟩

section
variable {V : Type} {N : Nat} {zs : List ℝ} {verts : Element → List (V × ℝ)} {m : DomMap} {back front : Nat}

theorem prisms_src (k : Nat) (e : Element) : prisms N zs verts k e = ((List.range (zs.length - 1)).map fun l => ((k, e, .lay l) : Src)).map (evOf N zs verts) := by
  unfold prisms
  apply List.ext_getElem
  · simp
  intro i h1 h2
  simp only [List.length_map, List.length_zipIdx, List.length_zip, List.length_tail] at h1
  have e1 : zs.getD i 0 = zs[i]'(by omega) := by rw [List.getD_eq_getElem?_getD, List.getElem?_eq_getElem (by omega)]; rfl
  have e2 : zs.getD (i + 1) 0 = zs[i + 1]'(by omega) := by rw [List.getD_eq_getElem?_getD, List.getElem?_eq_getElem (by omega)]; rfl
  simp only [List.getElem_map, List.getElem_zipIdx, List.getElem_zip, List.getElem_tail, List.getElem_range, evOf, e1, e2, Nat.zero_add]

theorem faces_src (hz : 1 < zs.length) (e : Element) : faces N zs verts back front e =
    (if e.ty = .line then [] else [((back, e, .lev 0) : Src), (front, e, .lev (zs.length - 1))]).map (evOf N zs verts) := by
  have h1 : zs.head? = some (zs.getD 0 0) := by
    rw [List.head?_eq_getElem?, List.getD_eq_getElem?_getD, List.getElem?_eq_getElem (by omega)]; rfl
  have h2 : zs.getLast? = some (zs.getD (zs.length - 1) 0) := by
    rw [List.getLast?_eq_getElem?, List.getD_eq_getElem?_getD, List.getElem?_eq_getElem (by omega)]; rfl
  unfold faces
  rw [h1, h2]
  cases ht : e.ty with
  | line => rfl
  | quad | hex => simp [face, evOf, ht, Nat.mul_comm]

theorem events_src (hz : 1 < zs.length) : allEvents N zs verts back front m = (sources zs.length back front m).map (evOf N zs verts) := by
  unfold allEvents sources
  rw [List.map_flatMap]
  refine List.flatMap_congr fun k _ => ?_
  unfold Extrude.domainEvents domSrc
  rw [List.map_append, List.map_flatMap, List.map_flatMap]
  congr 1
  · exact List.flatMap_congr fun e _ => prisms_src k e
  · exact List.flatMap_congr fun e _ => faces_src hz e

theorem mem_domSrc {L k : Nat} {s : Src} : s ∈ domSrc L back front m k ↔
    (∃ e ∈ els m k, ∃ l < L - 1, s = (k, e, .lay l)) ∨ ∃ e ∈ els m k, e.ty ≠ .line ∧ (s = (back, e, .lev 0) ∨ s = (front, e, .lev (L - 1))) := by
  unfold domSrc
  rw [List.mem_append]
  refine or_congr ?_ ?_
  · simp only [List.mem_flatMap, List.mem_map, List.mem_range]
    constructor
    · rintro ⟨e, he, l, hl, rfl⟩; exact ⟨e, he, l, hl, rfl⟩
    · rintro ⟨e, he, l, hl, rfl⟩; exact ⟨e, he, l, hl, rfl⟩
  · simp only [List.mem_flatMap]
    refine exists_congr fun e => and_congr_right fun _ => ?_
    by_cases ht : e.ty = .line <;> simp [ht]

theorem mem_sources {L : Nat} {s : Src} : s ∈ sources L back front m ↔
    (∃ k, ∃ e ∈ els m k, ∃ l < L - 1, s = (k, e, .lay l)) ∨ ∃ k, ∃ e ∈ els m k, e.ty ≠ .line ∧ (s = (back, e, .lev 0) ∨ s = (front, e, .lev (L - 1))) := by
  unfold sources
  simp only [List.mem_flatMap, mem_domSrc]
  constructor
  · rintro ⟨k, hk, h | h⟩
    · exact .inl ⟨k, h⟩
    · exact .inr ⟨k, h⟩
  · rintro (⟨k, e, he, h⟩ | ⟨k, e, he, h⟩)
    · exact ⟨k, els_key he, .inl ⟨e, he, h⟩⟩
    · exact ⟨k, els_key he, .inr ⟨e, he, h⟩⟩

theorem nodup_sources (h : ((visitAll m).map (·.id)).Nodup) {L : Nat} (hL : 2 ≤ L) : (sources L back front m).Nodup := by
  have hv := List.Nodup.of_map _ h
  rw [visitAll_flatMap, List.nodup_flatMap] at hv
  obtain ⟨h1, h2⟩ := hv
  unfold sources
  rw [List.nodup_flatMap]
  refine ⟨fun k hk => ?_, h2.imp fun {a b} hab => ?_⟩
  · unfold domSrc
    have hk1 : (els m k).Pairwise (· ≠ ·) := h1 k hk
    rw [List.nodup_append]
    refine ⟨?_, ?_, ?_⟩
    · rw [List.nodup_flatMap]
      refine ⟨fun e _ => List.Nodup.map (fun a b hab => by simpa using hab) List.nodup_range, hk1.imp fun {a b} hab => ?_⟩
      intro s hs hs'
      obtain ⟨l, _, rfl⟩ := List.mem_map.1 hs
      obtain ⟨l', _, h⟩ := List.mem_map.1 hs'
      simp only [Prod.mk.injEq] at h
      exact hab h.2.1.symm
    · rw [List.nodup_flatMap]
      refine ⟨fun e _ => ?_, hk1.imp fun {a b} hab => ?_⟩
      · by_cases ht : e.ty = .line
        · rw [if_pos ht]; exact List.nodup_nil
        · rw [if_neg ht, List.nodup_cons]
          refine ⟨?_, List.nodup_singleton _⟩
          simp only [List.mem_singleton, Prod.mk.injEq, Cell.lev.injEq, not_and]
          omega
      · intro s hs hs'
        have : ∀ (e : Element), s ∈ (if e.ty = .line then [] else [((back, e, .lev 0) : Src), (front, e, .lev (L - 1))]) → s.2.1 = e := by
          intro e hs
          by_cases ht : e.ty = .line
          · rw [if_pos ht] at hs; simp at hs
          · rw [if_neg ht] at hs
            simp only [List.mem_cons, List.not_mem_nil, or_false] at hs
            rcases hs with rfl | rfl <;> rfl
        exact hab ((this _ hs).symm.trans (this _ hs'))
    · intro s hs s' hs' hss
      subst hss
      obtain ⟨e, _, hs⟩ := List.mem_flatMap.1 hs
      obtain ⟨l, _, rfl⟩ := List.mem_map.1 hs
      obtain ⟨e', _, hs'⟩ := List.mem_flatMap.1 hs'
      by_cases ht : e'.ty = .line
      · rw [if_pos ht] at hs'; simp at hs'
      · rw [if_neg ht] at hs'; simp at hs'
  · intro s hs hs'
    have : ∀ k, s ∈ domSrc L back front m k → s.2.1 ∈ els m k := by
      intro k hs
      rcases mem_domSrc.1 hs with ⟨e, he, l, _, rfl⟩ | ⟨e, he, _, rfl | rfl⟩ <;> exact he
    exact hab (this _ hs) (this _ hs')

end

end Verif.ExtGen
