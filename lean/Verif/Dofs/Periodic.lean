import Verif.Dofs.Props
import Verif.Extrude.Props

/-! # Property C41: periodic nodes share one set of degrees of freedom -/
namespace Verif.Dofs
open Verif Verif.Own

/-- Nodes joined by a chain of matches. -/
def Linked (src dst : List Nat) : Nat → Nat → Prop := Relation.ReflTransGen (Graph.Adj true (src.zip dst))

/-- **C41** (groups): every component belongs to exactly one group, and the boundaries of its group are those of the definitions
naming it. -/
theorem C41_groups {β : Type} [LinearOrder β] (dpn : Nat) (defs : List (β × List Nat)) :
    (∀ i < dpn, ∃ g ∈ processDef dpn defs, i ∈ g.1 ∧ ∀ b, b ∈ g.2 ↔ ∃ d ∈ defs, d.1 = b ∧ i ∈ d.2) ∧
    (processDef dpn defs).Pairwise (fun g g' => ∀ i, ¬ (i ∈ g.1 ∧ i ∈ g'.1)) ∧ ∀ g ∈ processDef dpn defs, ∀ i ∈ g.1, i < dpn := by
  unfold processDef
  refine ⟨fun i hi => ?_, ?_, ?_⟩
  · refine ⟨_, List.mem_map.2 ⟨dofGroup defs i, List.mem_dedup.2 (List.mem_map.2 ⟨i, by simpa using hi, rfl⟩), rfl⟩, by simp [hi], fun b => ?_⟩
    unfold dofGroup
    rw [Std.mem_sort]
    simp only [List.mem_map, List.mem_filter, decide_eq_true_eq]
    constructor
    · rintro ⟨d, ⟨h1, h2⟩, h3⟩; exact ⟨d, h1, h3, h2⟩
    · rintro ⟨d, h1, h3, h2⟩; exact ⟨d, ⟨h1, h2⟩, h3⟩
  · rw [List.pairwise_map]
    refine (List.nodup_dedup _).imp fun {a b} hab i h => ?_
    simp only [List.mem_filter, decide_eq_true_eq] at h
    exact hab (h.1.2.symm.trans h.2.2)
  · intro g hg i hi
    obtain ⟨k, _, rfl⟩ := List.mem_map.1 hg
    exact List.mem_range.1 (List.mem_filter.1 hi).1

theorem linked_symm {src dst : List Nat} {a b : Nat} (h : Linked src dst a b) : Linked src dst b a := by
  unfold Linked at h ⊢
  induction h with
  | refl => exact .refl
  | tail _ h ih =>
    refine Relation.ReflTransGen.head ?_ ih
    rcases h with h | ⟨_, h⟩
    · exact Or.inr ⟨rfl, h⟩
    · exact Or.inl h

/-- Nodes linked to another one occur in the matches. -/
theorem linked_mem {src dst : List Nat} {a b : Nat} (h : Linked src dst a b) (hne : a ≠ b) : a ∈ src ++ dst ∧ b ∈ src ++ dst := by
  have key : ∀ {a b}, Graph.Adj true (src.zip dst) a b → a ∈ src ++ dst ∧ b ∈ src ++ dst := by
    intro a b h
    rcases h with h | ⟨_, h⟩
    · have := List.of_mem_zip h; exact ⟨List.mem_append_left _ this.1, List.mem_append_right _ this.2⟩
    · have := List.of_mem_zip h; exact ⟨List.mem_append_right _ this.2, List.mem_append_left _ this.1⟩
  unfold Linked at h
  constructor
  · rcases Relation.ReflTransGen.cases_head h with rfl | ⟨c, h1, _⟩
    · exact absurd rfl hne
    · exact (key h1).1
  · rcases Relation.ReflTransGen.cases_tail h with rfl | ⟨c, _, h1⟩
    · exact absurd rfl hne
    · exact (key h1).2

/-- **C41** (classes): the sets of periodic nodes are the classes of nodes joined by chains of matches, ascending. -/
theorem C41_components (src dst : List Nat) (hlen : src.length = dst.length) (junk : Nat → Nat)
    (iter : List (Nat × List Nat) → List (Nat × List Nat))
    (hiter : ∀ m, ∃ m', m'.Perm m ∧ List.Forall₂ (fun a b => a.1 = b.1 ∧ a.2.Perm b.2) (iter m) m') :
    ∃ cs, components junk iter src dst = some cs ∧ (∀ n, (∃ c ∈ cs, n ∈ c) ↔ n ∈ src ++ dst) ∧
      ∀ c ∈ cs, c ≠ [] ∧ c.Pairwise (· < ·) ∧ ∀ a ∈ c, ∀ b, b ∈ c ↔ Linked src dst a b := by
  set nodes := Std.sortUniq (src ++ dst) with hnodes
  have hnd : nodes.Nodup := Std.sortUniq_nodup _
  have hstrict : nodes.Pairwise (· < ·) := Std.sortUniq_strict _
  have hmem : ∀ n, n ∈ nodes ↔ n ∈ src ++ dst := fun n => Std.mem_sortUniq
  have hidx : ∀ n ∈ nodes, nodes[nodes.idxOf n]? = some n := fun n hn => by
    rw [List.getElem?_eq_getElem (List.idxOf_lt_length_of_mem hn), List.getElem_idxOf]
  obtain ⟨g, hg, _⟩ := Graph.C10_make_crs_graph true (src.map nodes.idxOf) (dst.map nodes.idxOf) (by simpa using hlen) junk iter hiter
  obtain ⟨out, ho, hcov, hcls, hsrt⟩ := Graph.C11_components_of_edges (src.map nodes.idxOf) (dst.map nodes.idxOf) (by simpa using hlen) junk iter hiter g hg
  have hzip : (src.map nodes.idxOf).zip (dst.map nodes.idxOf) = (src.zip dst).map fun e => (nodes.idxOf e.1, nodes.idxOf e.2) := by
    rw [List.zip_map]; rfl
  rw [hzip] at hcov hcls
  -- indices in use
  have hrange : ∀ v, (∃ c ∈ out, v ∈ c) ↔ v < nodes.length := by
    intro v
    rw [hcov v]
    constructor
    · rintro ⟨e, he, h⟩
      obtain ⟨⟨a, b⟩, hab, rfl⟩ := List.mem_map.1 he
      have h1 := List.of_mem_zip hab
      have ha := List.idxOf_lt_length_of_mem ((hmem a).2 (List.mem_append_left _ h1.1))
      have hb := List.idxOf_lt_length_of_mem ((hmem b).2 (List.mem_append_right _ h1.2))
      simp only at h
      omega
    · intro hv
      have hin := (hmem _).1 (List.getElem_mem hv)
      have hi : nodes.idxOf nodes[v] = v := hnd.idxOf_getElem v hv
      rcases List.mem_append.1 hin with h | h
      · obtain ⟨i, hil, hie⟩ := List.mem_iff_getElem.1 h
        refine ⟨(nodes.idxOf src[i], nodes.idxOf (dst[i]'(hlen ▸ hil))), List.mem_map.2 ⟨(src[i], dst[i]'(hlen ▸ hil)), ?_, rfl⟩, Or.inl ?_⟩
        · rw [← List.getElem_zip (h := by simp; omega)]; exact List.getElem_mem _
        · simp only; rw [hie, hi]
      · obtain ⟨i, hil, hie⟩ := List.mem_iff_getElem.1 h
        refine ⟨(nodes.idxOf (src[i]'(hlen ▸ hil)), nodes.idxOf dst[i]), List.mem_map.2 ⟨(src[i]'(hlen ▸ hil), dst[i]), ?_, rfl⟩, Or.inr ?_⟩
        · rw [← List.getElem_zip (h := by simp; omega)]; exact List.getElem_mem _
        · simp only; rw [hie, hi]
  have hmapM : out.mapM (fun c => c.mapM fun i => nodes[i]?) = some (out.map fun c => c.map fun i => (nodes[i]?).getD 0) := by
    refine Permute.mapM_eq_some fun c hc => Permute.mapM_eq_some fun i hi => ?_
    rw [List.getElem?_eq_getElem ((hrange i).1 ⟨c, hc, hi⟩)]; rfl
  refine ⟨out.map fun c => c.map fun i => (nodes[i]?).getD 0, ?_, ?_, ?_⟩
  · unfold components
    simp only
    rw [← hnodes, hg, Option.bind_some, ho, Option.bind_some, hmapM]
  · intro n
    rw [← hmem]
    constructor
    · rintro ⟨c, hc, hn⟩
      obtain ⟨c', hc', rfl⟩ := List.mem_map.1 hc
      obtain ⟨i, hi, rfl⟩ := List.mem_map.1 hn
      rw [List.getElem?_eq_getElem ((hrange i).1 ⟨c', hc', hi⟩)]
      exact List.getElem_mem _
    · intro hn
      obtain ⟨c, hc, hi⟩ := (hrange (nodes.idxOf n)).2 (List.idxOf_lt_length_of_mem hn)
      exact ⟨_, List.mem_map.2 ⟨c, hc, rfl⟩, List.mem_map.2 ⟨_, hi, by rw [hidx n hn]; rfl⟩⟩
  · intro c hc
    obtain ⟨c', hc', rfl⟩ := List.mem_map.1 hc
    obtain ⟨hne, hs⟩ := hsrt c' hc'
    refine ⟨by simpa using hne, ?_, ?_⟩
    · rw [List.pairwise_map]
      refine List.Pairwise.imp_of_mem (fun {i j} hi hj hij => ?_) hs
      have h1 := (hrange i).1 ⟨c', hc', hi⟩
      have h2 := (hrange j).1 ⟨c', hc', hj⟩
      rw [List.getElem?_eq_getElem h1, List.getElem?_eq_getElem h2]
      exact List.pairwise_iff_getElem.1 hstrict i j h1 h2 hij
    · intro a ha b
      obtain ⟨i, hi, rfl⟩ := List.mem_map.1 ha
      have hil := (hrange i).1 ⟨c', hc', hi⟩
      rw [List.getElem?_eq_getElem hil, Option.getD_some]
      have hback : ∀ i j, Relation.ReflTransGen (Graph.Adj true ((src.zip dst).map fun e => (nodes.idxOf e.1, nodes.idxOf e.2))) i j →
          Linked src dst ((nodes[i]?).getD 0) ((nodes[j]?).getD 0) := by
        intro i j h
        refine Relation.ReflTransGen.lift (fun i => (nodes[i]?).getD 0) ?_ _ _ h
        have key : ∀ x y, (x, y) ∈ (src.zip dst).map (fun e => (nodes.idxOf e.1, nodes.idxOf e.2)) → ((nodes[x]?).getD 0, (nodes[y]?).getD 0) ∈ src.zip dst := by
          intro x y h
          obtain ⟨⟨a, b⟩, hab, he⟩ := List.mem_map.1 h
          simp only [Prod.mk.injEq] at he
          obtain ⟨rfl, rfl⟩ := he
          have h1 := List.of_mem_zip hab
          rw [hidx a ((hmem a).2 (List.mem_append_left _ h1.1)), hidx b ((hmem b).2 (List.mem_append_right _ h1.2))]
          exact hab
        rintro x y (h | ⟨_, h⟩)
        · exact Or.inl (key _ _ h)
        · exact Or.inr ⟨rfl, key _ _ h⟩
      constructor
      · intro hb
        obtain ⟨j, hj, rfl⟩ := List.mem_map.1 hb
        have := hback i j ((hcls c' hc' i hi j).1 hj)
        rw [List.getElem?_eq_getElem hil, Option.getD_some] at this
        exact this
      · intro h
        have h2 : Relation.ReflTransGen (Graph.Adj true ((src.zip dst).map fun e => (nodes.idxOf e.1, nodes.idxOf e.2))) (nodes.idxOf nodes[i]) (nodes.idxOf b) := Relation.ReflTransGen.lift (r := Graph.Adj true (src.zip dst)) (p := Graph.Adj true ((src.zip dst).map fun e => (nodes.idxOf e.1, nodes.idxOf e.2)))
          nodes.idxOf (by
            rintro x y (h | ⟨_, h⟩)
            · exact Or.inl (List.mem_map.2 ⟨_, h, rfl⟩)
            · exact Or.inr ⟨rfl, List.mem_map.2 ⟨_, h, rfl⟩⟩) _ _ h
        rw [hnd.idxOf_getElem i hil] at h2
        have hj := (hcls c' hc' i hi _).2 h2
        have hbn : b ∈ nodes := by
          by_cases he : nodes[i] = b
          · rw [← he]; exact List.getElem_mem _
          · exact (hmem b).2 (linked_mem h he).2
        exact List.mem_map.2 ⟨_, hj, by rw [hidx b hbn]; rfl⟩

/-- What the classes give: every node of a class except its least one is redirected to the latter. -/
structure Pairs (src dst : List Nat) (ps : List (Nat × Nat)) : Prop where
  mem : ∀ p a, (p, a) ∈ ps ↔ p ≠ a ∧ Linked src dst p a ∧ ∀ b, Linked src dst p b → a ≤ b

/-- **C41** (representatives): if every class has at least two nodes, node `p` is redirected to `a` exactly if `a ≠ p` is
the least node in the class of `p`. -/
theorem C41_pairs (src dst : List Nat) (hlen : src.length = dst.length) (junk : Nat → Nat)
    (iter : List (Nat × List Nat) → List (Nat × List Nat))
    (hiter : ∀ m, ∃ m', m'.Perm m ∧ List.Forall₂ (fun a b => a.1 = b.1 ∧ a.2.Perm b.2) (iter m) m')
    {cs : List (List Nat)} (hcs : components junk iter src dst = some cs) :
    (matched cs = none ↔ ∃ n ∈ src ++ dst, ∀ b, Linked src dst n b → b = n) ∧ ∀ ps, matched cs = some ps → Pairs src dst ps := by
  obtain ⟨cs', h1, hcov, hcls⟩ := C41_components src dst hlen junk iter hiter
  rw [hcs] at h1
  obtain rfl := Option.some.inj h1
  have hpairs : ∀ c ∈ cs, (compPairs c = none ∧ ∃ a, c = [a]) ∨ ∃ a t, t ≠ [] ∧ c = a :: t ∧ compPairs c = some (t.map fun q => (q, a)) := by
    intro c hc
    obtain ⟨hne, _⟩ := hcls c hc
    match c with
    | [] => exact absurd rfl hne
    | [a] => exact Or.inl ⟨rfl, a, rfl⟩
    | a :: b :: t => exact Or.inr ⟨a, b :: t, by simp, rfl, rfl⟩
  constructor
  · unfold matched
    rw [Option.map_eq_none_iff]
    constructor
    · intro h
      by_contra hno
      simp only [not_exists, not_and] at hno
      have : cs.mapM compPairs = some (cs.map fun c => (compPairs c).getD []) := by
        refine Permute.mapM_eq_some fun c hc => ?_
        rcases hpairs c hc with ⟨_, a, rfl⟩ | ⟨a, t, _, rfl, he⟩
        · exfalso
          refine hno a ((hcov a).1 ⟨_, hc, by simp⟩) fun b hb => ?_
          have := ((hcls _ hc).2.2 a (by simp) b).2 hb
          simpa using this
        · rw [he]; rfl
      rw [this] at h; simp at h
    · rintro ⟨n, hn, hall⟩
      obtain ⟨c, hc, hnc⟩ := (hcov n).2 hn
      have hc1 : compPairs c = none := by
        rcases hpairs c hc with ⟨he, _⟩ | ⟨a, t, hne, rfl, he⟩
        · exact he
        · exfalso
          have hcl := (hcls _ hc).2.2 n hnc
          have ha := hall a ((hcl a).1 (by simp))
          obtain ⟨b, hb⟩ := List.exists_mem_of_ne_nil t hne
          have hb' := hall b ((hcl b).1 (by simp [hb]))
          have := (List.pairwise_cons.1 (hcls _ hc).2.1).1 b hb
          omega
      cases hm : cs.mapM compPairs with
      | none => rfl
      | some l =>
        have := Mesh.mapM_forall₂ _ _ _ hm
        obtain ⟨y, _, hy⟩ := Extrude.forall2_mem_left this hc
        rw [hc1] at hy; simp at hy
  · intro ps hps
    unfold matched at hps
    rw [Option.map_eq_some_iff] at hps
    obtain ⟨l, hl, rfl⟩ := hps
    have hf := Mesh.mapM_forall₂ _ _ _ hl
    constructor
    intro p a
    rw [List.mem_flatten]
    constructor
    · rintro ⟨q, hq, hm⟩
      obtain ⟨c, hc, hce⟩ := Extrude.forall2_mem_right hf hq
      rcases hpairs c hc with ⟨he, _⟩ | ⟨a', t, hne, rfl, he⟩
      · rw [he] at hce; simp at hce
      · rw [he] at hce
        obtain rfl := Option.some.inj hce
        obtain ⟨p', hp', hpe⟩ := List.mem_map.1 hm
        simp only [Prod.mk.injEq] at hpe
        obtain ⟨rfl, rfl⟩ := hpe
        have hlt := (List.pairwise_cons.1 (hcls _ hc).2.1).1
        have hcl := (hcls _ hc).2.2 p' (by simp [hp'])
        refine ⟨by have := hlt p' hp'; omega, (hcl a').1 (by simp), fun b hb => ?_⟩
        rcases List.mem_cons.1 ((hcl b).2 hb) with rfl | hbt
        · exact le_refl _
        · exact Nat.le_of_lt (hlt b hbt)
    · rintro ⟨hne, hlk, hmin⟩
      obtain ⟨c, hc, hpc⟩ := (hcov p).2 (linked_mem hlk hne).1
      have hcl := (hcls _ hc).2.2 p hpc
      obtain ⟨y, hy, hye⟩ := Extrude.forall2_mem_left hf hc
      rcases hpairs c hc with ⟨_, b, rfl⟩ | ⟨a', t, _, rfl, he⟩
      · exfalso
        have h1 := (hcl a).2 hlk
        simp only [List.mem_singleton] at h1 hpc
        exact hne (hpc.trans h1.symm)
      · rw [he] at hye
        obtain rfl := Option.some.inj hye
        have hlt := (List.pairwise_cons.1 (hcls _ hc).2.1).1
        have haa : a' = a := by
          have h1 := hmin a' ((hcl a').1 (by simp))
          rcases List.mem_cons.1 ((hcl a).2 hlk) with h2 | h2
          · exact h2.symm
          · have := hlt a h2; omega
        subst haa
        refine ⟨_, hy, List.mem_map.2 ⟨p, ?_, rfl⟩⟩
        rcases List.mem_cons.1 hpc with h2 | h2
        · exact absurd h2 hne
        · exact h2

/-! ### The information stored on the ranks -/

/-- Entry `j` stored for node `n`. -/
def ent (m : List (Nat × List (Option Nat))) (n j : Nat) : Option Nat := (m.lookup n).bind fun d => (d[j]?).join

theorem foldl_set (a : Nat) (comps : List Nat) : ∀ (v : List (Option Nat)) (j : Nat),
    ((comps.foldl (fun v i => v.set i (some a)) v)[j]?).join = if j ∈ comps ∧ j < v.length then some a else (v[j]?).join := by
  induction comps with
  | nil => intro v j; simp
  | cons i comps ih =>
    intro v j
    rw [List.foldl_cons, ih, List.length_set]
    by_cases h1 : j ∈ comps ∧ j < v.length
    · rw [if_pos h1, if_pos ⟨by simp [h1.1], h1.2⟩]
    · rw [if_neg h1, List.getElem?_set]
      by_cases h2 : i = j
      · subst h2
        by_cases h3 : i < v.length
        · rw [if_pos rfl, if_pos h3, if_pos ⟨by simp, h3⟩]; rfl
        · rw [if_pos rfl, if_neg h3, if_neg (fun h => h3 h.2), List.getElem?_eq_none (by omega)]
      · rw [if_neg h2]
        have : ¬ (j ∈ i :: comps ∧ j < v.length) := fun h => h1 ⟨by
          rcases List.mem_cons.1 h.1 with rfl | h'
          · exact absurd rfl h2
          · exact h', h.2⟩
        rw [if_neg this]

theorem length_foldl_set (a : Nat) (comps : List Nat) : ∀ v : List (Option Nat), (comps.foldl (fun v i => v.set i (some a)) v).length = v.length := by
  induction comps with
  | nil => intro v; rfl
  | cons i comps ih => intro v; rw [List.foldl_cons, ih, List.length_set]

/-- Invariant of the information under construction. -/
structure Good (dpn : Nat) (own : Nat → Prop) (m : List (Nat × List (Option Nat))) : Prop where
  sorted : OMap.Sorted m
  rows : ∀ n d, m.lookup n = some d → d.length = dpn ∧ own n

theorem setPer_good {dpn : Nat} {own : Nat → Prop} {comps : List Nat} {m : List (Nat × List (Option Nat))} {p : Nat × Nat} (h : Good dpn own m) (hp : own p.1) :
    Good dpn own (setPer dpn comps m p) ∧ ∀ n j, ent (setPer dpn comps m p) n j = if n = p.1 ∧ j ∈ comps ∧ j < dpn then some p.2 else ent m n j := by
  have hlen : ((m.lookup p.1).getD (List.replicate dpn none)).length = dpn := by
    cases hl : m.lookup p.1 with
    | none => simp
    | some d => exact (h.rows _ _ hl).1
  constructor
  · constructor
    · exact OMap.sorted_upd h.sorted _ _
    · intro n d hd
      unfold setPer at hd
      rw [OMap.lookup_upd h.sorted] at hd
      split at hd
      · next he =>
        obtain rfl := Option.some.inj hd
        rw [length_foldl_set, hlen, he]; exact ⟨rfl, hp⟩
      · exact h.rows _ _ hd
  · intro n j
    unfold ent setPer
    rw [OMap.lookup_upd h.sorted]
    by_cases hn : n = p.1
    · subst hn
      rw [if_pos rfl, Option.bind_some, foldl_set, hlen]
      by_cases hj : j ∈ comps ∧ j < dpn
      · rw [if_pos hj, if_pos ⟨rfl, hj⟩]
      · rw [if_neg hj, if_neg (fun h => hj h.2)]
        cases hl : m.lookup p.1 with
        | none => simp only [Option.getD_none, Option.bind_none, List.getElem?_replicate]; split <;> rfl
        | some d => rfl
    · rw [if_neg hn, if_neg (fun h => hn h.1)]

/-- The assignments made on rank `r`: components, node, representative. -/
def ops (counts : List Nat) (r : Nat) (groups : List (List Nat × List (Nat × Nat))) : List (List Nat × Nat × Nat) :=
  groups.flatMap fun g => (received counts r g.2).map fun p => (g.1, p)

theorem perInfo_eq (dpn : Nat) (counts : List Nat) (r : Nat) (groups : List (List Nat × List (Nat × Nat))) :
    perInfo dpn counts r groups = (ops counts r groups).foldl (fun m o => setPer dpn o.1 m o.2) [] := by
  unfold perInfo ops
  rw [List.foldl_flatMap]
  congr 1
  funext m g
  rw [List.foldl_map]

theorem ops_spec {dpn : Nat} {own : Nat → Prop} : ∀ (os : List (List Nat × Nat × Nat)) (m : List (Nat × List (Option Nat))), Good dpn own m → (∀ o ∈ os, own o.2.1) →
    (∀ o ∈ os, ∀ o' ∈ os, ∀ j, j ∈ o.1 → j ∈ o'.1 → o.2.1 = o'.2.1 → o.2.2 = o'.2.2) →
    Good dpn own (os.foldl (fun m o => setPer dpn o.1 m o.2) m) ∧ ∀ n j a, ent (os.foldl (fun m o => setPer dpn o.1 m o.2) m) n j = some a ↔
      (∃ o ∈ os, o.2 = (n, a) ∧ j ∈ o.1 ∧ j < dpn) ∨ ((∀ o ∈ os, ¬ (o.2.1 = n ∧ j ∈ o.1 ∧ j < dpn)) ∧ ent m n j = some a)
  | [], m, hm, _, _ => ⟨hm, fun n j a => by simp⟩
  | o :: os, m, hm, hown, hfun => by
    obtain ⟨g1, g2⟩ := setPer_good (comps := o.1) hm (hown o (by simp))
    obtain ⟨h1, h2⟩ := ops_spec os _ g1 (fun o' ho' => hown o' (by simp [ho'])) (fun a ha b hb => hfun a (by simp [ha]) b (by simp [hb]))
    refine ⟨h1, fun n j a => ?_⟩
    rw [List.foldl_cons, h2 n j a, g2]
    constructor
    · rintro (⟨o', ho', h⟩ | ⟨hno, h⟩)
      · exact Or.inl ⟨o', by simp [ho'], h⟩
      · by_cases hc : n = o.2.1 ∧ j ∈ o.1 ∧ j < dpn
        · rw [if_pos hc] at h
          refine Or.inl ⟨o, by simp, ?_, hc.2⟩
          rw [hc.1, ← Option.some.inj h]
        · rw [if_neg hc] at h
          refine Or.inr ⟨fun o' ho' hh => ?_, h⟩
          rcases List.mem_cons.1 ho' with rfl | ho''
          · exact hc ⟨hh.1.symm, hh.2⟩
          · exact hno o' ho'' hh
    · rintro (⟨o', ho', he, hj, hlt⟩ | ⟨hno, h⟩)
      · by_cases hex : ∃ o'' ∈ os, o''.2.1 = n ∧ j ∈ o''.1 ∧ j < dpn
        · obtain ⟨o'', ho'', hn'', hj'', _⟩ := hex
          refine Or.inl ⟨o'', ho'', ?_, hj'', hlt⟩
          have := hfun o' ho' o'' (by simp [ho'']) j hj hj'' (by rw [he]; exact hn''.symm)
          rw [he] at this
          exact Prod.ext hn'' this.symm
        · simp only [not_exists, not_and] at hex
          rcases List.mem_cons.1 ho' with rfl | ho''
          · refine Or.inr ⟨fun o'' ho'' hh => hex o'' ho'' hh.1 hh.2.1 hh.2.2, ?_⟩
            rw [if_pos ⟨by rw [he], hj, hlt⟩, he]
          · exact absurd hlt (hex o' ho'' (by rw [he]) hj)
      · refine Or.inr ⟨fun o' ho' => hno o' (by simp [ho']), ?_⟩
        rw [if_neg fun hc => hno o (by simp) ⟨hc.1.symm, hc.2⟩]
        exact h

/-- A periodic problem: for every group of components the matches found and the resulting pairs; the groups have no common
component. -/
structure Periodic (s : Setup) (gs : List (List Nat × List Nat × List Nat × List (Nat × Nat))) : Prop where
  pairs : ∀ g ∈ gs, Pairs g.2.1 g.2.2.1 g.2.2.2
  nodes : ∀ g ∈ gs, ∀ n ∈ g.2.1 ++ g.2.2.1, n < s.counts.sum
  disj : gs.Pairwise fun g g' => ∀ i, ¬ (i ∈ g.1 ∧ i ∈ g'.1)
  comps : ∀ g ∈ gs, ∀ i ∈ g.1, i < s.dpn

/-- Consistent data of the mesh alone. -/
structure Setup.MeshOk (s : Setup) : Prop where
  ghosts : ∀ r < s.counts.length, (s.ghosts r).Nodup ∧ ∀ n ∈ s.ghosts r, n < s.counts.sum ∧ s.owns r n = false
  visits : ∀ r < s.counts.length, ∀ v ∈ s.visits r, (∀ n ∈ v.nodes, s.Knows r n) ∧ ∀ j ∈ v.active, j < s.dpn

/-- The groups as the constructor of `PeriodicBC` sees them: components and pairs. -/
def strip (gs : List (List Nat × List Nat × List Nat × List (Nat × Nat))) : List (List Nat × List (Nat × Nat)) := gs.map fun g => (g.1, g.2.2.2)

theorem same_group {s : Setup} {gs : List (List Nat × List Nat × List Nat × List (Nat × Nat))} (hp : Periodic s gs) {g g' : List Nat × List Nat × List Nat × List (Nat × Nat)}
    (hg : g ∈ gs) (hg' : g' ∈ gs) {j : Nat} (h : j ∈ g.1) (h' : j ∈ g'.1) : g = g' := by
  obtain ⟨a, ha, rfl⟩ := List.mem_iff_getElem.1 hg
  obtain ⟨b, hb, rfl⟩ := List.mem_iff_getElem.1 hg'
  rcases Nat.lt_trichotomy a b with hlt | rfl | hlt
  · exact absurd ⟨h, h'⟩ (List.pairwise_iff_getElem.1 hp.disj a b ha hb hlt j)
  · rfl
  · exact absurd ⟨h', h⟩ (List.pairwise_iff_getElem.1 hp.disj b a hb ha hlt j)

theorem mem_ops {counts : List Nat} {r : Nat} {gs : List (List Nat × List Nat × List Nat × List (Nat × Nat))} {o : List Nat × Nat × Nat} :
    o ∈ ops counts r (strip gs) ↔ ∃ g ∈ gs, o.1 = g.1 ∧ o.2 ∈ g.2.2.2 ∧ getOwner (ownDist counts) o.2.1 = r := by
  unfold ops strip received
  simp only [List.mem_flatMap, List.mem_map, List.mem_filter, decide_eq_true_eq]
  constructor
  · rintro ⟨_, ⟨g, hg, rfl⟩, p, ⟨hp, ho⟩, rfl⟩; exact ⟨g, hg, rfl, hp, ho⟩
  · rintro ⟨g, hg, h1, h2, h3⟩; exact ⟨_, ⟨g, hg, rfl⟩, o.2, ⟨h2, h3⟩, Prod.ext h1.symm rfl⟩

theorem withPeriodic_owns (s : Setup) (G : List (List Nat × List (Nat × Nat))) (r n : Nat) : (s.withPeriodic G).owns r n = s.owns r n := rfl

theorem perInfo_spec {s : Setup} {gs : List (List Nat × List Nat × List Nat × List (Nat × Nat))} (hp : Periodic s gs) (r : Nat) :
    Good s.dpn (fun n => n < s.counts.sum ∧ s.owner n = r) (perInfo s.dpn s.counts r (strip gs)) ∧
      ∀ n j a, ent (perInfo s.dpn s.counts r (strip gs)) n j = some a ↔ s.owner n = r ∧ ∃ g ∈ gs, j ∈ g.1 ∧ (n, a) ∈ g.2.2.2 := by
  have hlt : ∀ g ∈ gs, ∀ p a, (p, a) ∈ g.2.2.2 → p < s.counts.sum := by
    intro g hg p a h
    obtain ⟨h1, h2, _⟩ := ((hp.pairs g hg).mem p a).1 h
    exact hp.nodes g hg p (linked_mem h2 h1).1
  have h := ops_spec (dpn := s.dpn) (own := fun n => n < s.counts.sum ∧ s.owner n = r) (ops s.counts r (strip gs)) []
    ⟨by simp [OMap.Sorted], by simp⟩
    (fun o ho => by
      obtain ⟨g, hg, _, h2, h3⟩ := mem_ops.1 ho
      exact ⟨hlt g hg _ _ h2, h3⟩)
    (fun o ho o' ho' j hj hj' hn => by
      obtain ⟨g, hg, h1, h2, h3⟩ := mem_ops.1 ho
      obtain ⟨g', hg', h1', h2', h3'⟩ := mem_ops.1 ho'
      obtain rfl := same_group hp hg hg' (h1 ▸ hj) (h1' ▸ hj')
      obtain ⟨_, k1, k2⟩ := ((hp.pairs g hg).mem o.2.1 o.2.2).1 h2
      obtain ⟨_, k1', k2'⟩ := ((hp.pairs g hg).mem o'.2.1 o'.2.2).1 h2'
      rw [hn] at k1 k2
      exact Nat.le_antisymm (k2 _ k1') (k2' _ k1))
  rw [perInfo_eq]
  refine ⟨h.1, fun n j a => ?_⟩
  rw [h.2 n j a]
  constructor
  · rintro (⟨o, ho, he, hj, _⟩ | ⟨_, h⟩)
    · obtain ⟨g, hg, h1, h2, h3⟩ := mem_ops.1 ho
      rw [he] at h2 h3
      exact ⟨h3, g, hg, h1 ▸ hj, h2⟩
    · simp [ent] at h
  · rintro ⟨ho, g, hg, hj, hm⟩
    exact Or.inl ⟨(g.1, n, a), mem_ops.2 ⟨g, hg, rfl, hm, ho⟩, rfl, hj, hp.comps g hg j hj⟩

theorem lookup_spec {s : Setup} {gs : List (List Nat × List Nat × List Nat × List (Nat × Nat))} (hp : Periodic s gs) (r n j a : Nat) :
    (s.withPeriodic (strip gs)).lookup r n j = some a ↔ s.owner n = r ∧ ∃ g ∈ gs, j ∈ g.1 ∧ (n, a) ∈ g.2.2.2 := (perInfo_spec hp r).2 n j a

/-- The least node of a class is not redirected. -/
theorem pairs_root {src dst : List Nat} {ps : List (Nat × Nat)} (h : Pairs src dst ps) {p a b : Nat} (h1 : (p, a) ∈ ps) : (a, b) ∉ ps := by
  intro h2
  obtain ⟨_, k1, k2⟩ := (h.mem p a).1 h1
  obtain ⟨k3, k4, k5⟩ := (h.mem a b).1 h2
  exact k3 (Nat.le_antisymm (k2 b (Relation.ReflTransGen.trans k1 k4)) (k5 a .refl))

/-- **C41** (consistency): the information built from any matches satisfies everything the numbering relies on; in particular the
representative is never itself redirected and is known to the rank. -/
theorem C41_consistent {s : Setup} (h : s.MeshOk) {gs : List (List Nat × List Nat × List Nat × List (Nat × Nat))} (hp : Periodic s gs) :
    (s.withPeriodic (strip gs)).Ok := by
  have hlt : ∀ g ∈ gs, ∀ p a, (p, a) ∈ g.2.2.2 → a < s.counts.sum := by
    intro g hg p a hm
    obtain ⟨h1, h2, _⟩ := ((hp.pairs g hg).mem p a).1 hm
    exact hp.nodes g hg a (linked_mem h2 h1).2
  have hpg : ∀ r a, a ∈ (s.withPeriodic (strip gs)).pghosts r ↔ (∃ g ∈ gs, ∃ p, (p, a) ∈ g.2.2.2 ∧ s.owner p = r) ∧ ¬ (s.owns r a = true ∨ a ∈ s.ghosts r) := by
    intro r a
    show a ∈ perGhosts _ _ _ _ ↔ _
    unfold perGhosts strip received
    rw [Std.mem_sortUniq]
    simp only [List.mem_flatMap, List.mem_map, List.mem_filter, decide_eq_true_eq, Bool.not_eq_true', Bool.or_eq_false_iff, decide_eq_false_iff_not, not_or, Bool.not_eq_true]
    constructor
    · rintro ⟨_, ⟨g, hg, rfl⟩, ⟨⟨p, a'⟩, ⟨h1, h2⟩, rfl⟩, h3⟩; exact ⟨⟨g, hg, p, h1, h2⟩, h3⟩
    · rintro ⟨⟨g, hg, p, h1, h2⟩, h3⟩; exact ⟨_, ⟨g, hg, rfl⟩, ⟨(p, a), ⟨h1, h2⟩, rfl⟩, h3⟩
  refine ⟨?_, h.visits, ?_, ?_, ?_⟩
  · intro r hr
    obtain ⟨h1, h2⟩ := h.ghosts r hr
    refine ⟨List.nodup_append.2 ⟨h1, Std.sortUniq_nodup _, ?_⟩, ?_⟩
    · rintro a ha _ hb rfl
      exact ((hpg r a).1 hb).2 (Or.inr ha)
    · intro n hn
      rcases List.mem_append.1 hn with hn | hn
      · exact h2 n hn
      · obtain ⟨⟨g, hg, p, hm, _⟩, hno⟩ := (hpg r n).1 hn
        exact ⟨hlt g hg p n hm, by rw [withPeriodic_owns]; simpa using fun hc => hno (Or.inl hc)⟩
  · intro r hr
    obtain ⟨hgood, _⟩ := perInfo_spec hp r
    have hnd : ((perInfo s.dpn s.counts r (strip gs)).map (·.1)).Nodup := (List.pairwise_map.2 hgood.sorted).imp fun h => Nat.ne_of_lt h
    refine ⟨hnd, fun e he => ?_⟩
    obtain ⟨h1, h2, h3⟩ := hgood.rows e.1 e.2 (lookup_of_mem hnd he)
    exact ⟨by rw [withPeriodic_owns, ← h3]; exact (owns_owner h2).2, h1⟩
  · intro r hr n j a hl
    obtain ⟨ho, g, hg, hj, hm⟩ := (lookup_spec hp r n j a).1 hl
    by_cases hc : s.owns r a = true ∨ a ∈ s.ghosts r
    · exact hc.imp id fun h => List.mem_append_left _ h
    · exact Or.inr (List.mem_append_right _ ((hpg r a).2 ⟨⟨g, hg, n, hm, ho⟩, hc⟩))
  · intro r hr n j a hl
    obtain ⟨ho, g, hg, hj, hm⟩ := (lookup_spec hp r n j a).1 hl
    cases hc : (s.withPeriodic (strip gs)).lookup ((s.withPeriodic (strip gs)).owner a) a j with
    | none => rfl
    | some b =>
      obtain ⟨_, g', hg', hj', hm'⟩ := (lookup_spec hp _ a j b).1 hc
      obtain rfl := same_group hp hg hg' hj hj'
      exact absurd hm' (pairs_root (hp.pairs g hg) hm)

theorem rep_spec {s : Setup} {gs : List (List Nat × List Nat × List Nat × List (Nat × Nat))} (hp : Periodic s gs) {g : List Nat × List Nat × List Nat × List (Nat × Nat)}
    (hg : g ∈ gs) {j : Nat} (hj : j ∈ g.1) (n : Nat) :
    Linked g.2.1 g.2.2.1 n ((s.withPeriodic (strip gs)).rep n j) ∧ ∀ b, Linked g.2.1 g.2.2.1 n b → (s.withPeriodic (strip gs)).rep n j ≤ b := by
  unfold Setup.rep
  cases hc : (s.withPeriodic (strip gs)).lookup ((s.withPeriodic (strip gs)).owner n) n j with
  | some a =>
    obtain ⟨_, g', hg', hj', hm⟩ := (lookup_spec hp _ n j a).1 hc
    obtain rfl := same_group hp hg hg' hj hj'
    exact (((hp.pairs g hg).mem n a).1 hm).2
  | none =>
    refine ⟨.refl, fun b hb => ?_⟩
    simp only [Option.getD_none]
    -- the least node linked to `n`
    have hex : ∃ m, Linked g.2.1 g.2.2.1 n m := ⟨n, .refl⟩
    classical
    have hmin : ∀ {b}, Linked g.2.1 g.2.2.1 n b → Nat.find hex ≤ b := fun h => Nat.find_min' hex h
    have hfs := Nat.find_spec hex
    by_cases hne : n = Nat.find hex
    · rw [hne]; exact hmin hb
    · have hm : (n, Nat.find hex) ∈ g.2.2.2 := ((hp.pairs g hg).mem _ _).2 ⟨hne, hfs, fun b hb => hmin hb⟩
      have := (lookup_spec hp _ n j (Nat.find hex)).2 ⟨rfl, g, hg, hj, hm⟩
      rw [show (s.withPeriodic (strip gs)).owner n = s.owner n from rfl] at hc
      rw [this] at hc
      simp at hc

/-- **C41** (sharing): in a component of the group, nodes joined by any chain of matches have the same numbers on all
ranks, and nodes with a common number are joined by a chain; the representative is the least node of the class. -/
theorem C41_shared {s : Setup} (h : s.MeshOk) {gs : List (List Nat × List Nat × List Nat × List (Nat × Nat))} (hp : Periodic s gs)
    {g : List Nat × List Nat × List Nat × List (Nat × Nat)} (hg : g ∈ gs) {j : Nat} (hj : j ∈ g.1) {r r' n n' : Nat} (hr : r < s.counts.length) (hr' : r' < s.counts.length)
    (hn : s.Knows r n) (hn' : s.Knows r' n') :
    (Linked g.2.1 g.2.2.1 n n' → (s.withPeriodic (strip gs)).dofs r n j = (s.withPeriodic (strip gs)).dofs r' n' j) ∧
      ∀ k, (s.withPeriodic (strip gs)).dofs r n j = some k → (s.withPeriodic (strip gs)).dofs r' n' j = some k → Linked g.2.1 g.2.2.1 n n' := by
  have hok := C41_consistent h hp
  constructor
  · intro hl
    have he : (s.withPeriodic (strip gs)).rep n j = (s.withPeriodic (strip gs)).rep n' j := by
      obtain ⟨a1, a2⟩ := rep_spec hp hg hj n
      obtain ⟨b1, b2⟩ := rep_spec hp hg hj n'
      exact Nat.le_antisymm (a2 _ (hl.trans b1)) (b2 _ ((linked_symm hl).trans a1))
    rw [dofs_spec hok hr j (knows_local (s := s.withPeriodic (strip gs)) hn), dofs_spec hok hr' j (knows_local (s := s.withPeriodic (strip gs)) hn'), he]
  · intro k hk hk'
    obtain ⟨_, he⟩ := C39_unique hok hr hr' hn hn' hk hk'
    obtain ⟨a1, _⟩ := rep_spec hp hg hj n
    obtain ⟨b1, _⟩ := rep_spec hp hg hj n'
    rw [he] at a1
    exact a1.trans (linked_symm b1)

/-- **C41** (others): nodes without a match keep their own numbers, and so do all nodes in components which are not periodic. -/
theorem C41_unaffected {s : Setup} {gs : List (List Nat × List Nat × List Nat × List (Nat × Nat))} (hp : Periodic s gs) (n j : Nat)
    (hno : ∀ g ∈ gs, j ∈ g.1 → n ∉ g.2.1 ++ g.2.2.1) : (s.withPeriodic (strip gs)).rep n j = n := by
  unfold Setup.rep
  cases hc : (s.withPeriodic (strip gs)).lookup ((s.withPeriodic (strip gs)).owner n) n j with
  | none => rfl
  | some a =>
    obtain ⟨_, g, hg, hj, hm⟩ := (lookup_spec hp _ n j a).1 hc
    obtain ⟨h1, h2, _⟩ := ((hp.pairs g hg).mem n a).1 hm
    exact absurd (linked_mem h2 h1).1 (hno g hg hj)

/-- The corner chain 0–2, 1–3, 0–1, 2–3 on two ranks: one class with representative 0. -/
example : components (fun _ => 0) id [0, 1, 0, 2] [2, 3, 1, 3] = some [[0, 1, 2, 3]] ∧
    matched [[0, 1, 2, 3]] = some [(1, 0), (2, 0), (3, 0)] ∧
    perInfo 2 [2, 2] 1 [([1], [(1, 0), (2, 0), (3, 0)])] = [(2, [none, some 0]), (3, [none, some 0])] ∧
    perGhosts [2, 2] 1 (fun n => decide (n = 2 ∨ n = 3)) [([1], [(1, 0), (2, 0), (3, 0)])] = [0] := by decide +kernel

/-- The three-node mesh of `exPlain` with its ends identified in component 0: a consistent periodic problem, whose ends share
number 0. -/
example : exPlain.MeshOk ∧ Periodic exPlain [([0], [0], [2], [(2, 0)])] ∧ Linked [0] [2] 0 2 ∧
    (exPlain.withPeriodic (strip [([0], [0], [2], [(2, 0)])])).map 1 2 = some [some 0, some 3] := by
  refine ⟨⟨by decide, ?_⟩, ⟨?_, by decide, by simp, by decide⟩, .single (Or.inl (by simp)), by decide +kernel⟩
  · intro r hr
    have : ∀ r < 2, ∀ v ∈ exPlain.visits r, (∀ n ∈ v.nodes, exPlain.owns r n = true ∨ n ∈ exPlain.ghosts r) ∧ ∀ j ∈ v.active, j < exPlain.dpn := by
      intro r hr
      interval_cases r <;> simp [exPlain] <;> decide
    exact this r hr
  · intro g hg
    obtain rfl := List.mem_singleton.1 hg
    exact (C41_pairs [0] [2] rfl (fun _ => 0) id (fun m => ⟨m, List.Perm.refl _, List.forall₂_same.2 fun _ _ => ⟨rfl, List.Perm.refl _⟩⟩)
      (cs := [[0, 2]]) (by decide +kernel)).2 _ (by decide)

example : processDef 3 [(5, [0, 1]), (4, [0, 1]), (6, [2])] = [([0, 1], [4, 5]), ([2], [6])] := by decide +kernel

end Verif.Dofs
