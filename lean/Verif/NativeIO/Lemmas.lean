import Verif.NativeIO.Model
import Verif.Ser.Lemmas
import Verif.Common.Std
import Mathlib.Data.List.Flatten
import Mathlib.Algebra.BigOperators.Group.List.Basic

/-! # Lemmas on file contents -/
namespace Verif.NativeIO
open Verif Verif.Elem Verif.Mesh Verif.Ser Verif.File

theorem flatten_le_length (l : List Nat) : ((l.map (leBytes 8)).flatten).length = 8 * l.length := by
  induction l with
  | nil => rfl
  | cons a l ih => simp only [List.map_cons, List.flatten_cons, List.length_append, leBytes_length, ih, List.length_cons]; omega

theorem readU64s_ser (l : List Nat) (hl : ∀ x ∈ l, x < 2 ^ 64) (rest : List Byte) :
    readU64s l.length ((l.map (leBytes 8)).flatten ++ rest) = l := by
  induction l with
  | nil => rfl
  | cons a l ih =>
    rw [List.map_cons, List.flatten_cons, List.append_assoc, List.length_cons, readU64s, List.take_left' (leBytes_length 8 a),
      List.drop_left' (leBytes_length 8 a), ofLe_leBytes_of_lt 8 a (by have := hl a (by simp); simpa using this), ih fun x hx => hl x (by simp [hx])]

theorem readU64s_des (n : Nat) (s : List Byte) (h : 8 * n ≤ s.length) :
    ((readU64s n s).map (leBytes 8)).flatten = s.take (8 * n) ∧ (readU64s n s).length = n ∧ ∀ x ∈ readU64s n s, x < 2 ^ 64 := by
  induction n generalizing s with
  | zero => simp [readU64s]
  | succ n ih =>
    obtain ⟨h1, h2, h3⟩ := ih (s.drop 8) (by simp; omega)
    have e : leBytes 8 (ofLe (s.take 8)) = s.take 8 := by
      have := leBytes_ofLe (s.take 8)
      rwa [List.length_take, Nat.min_eq_left (by omega)] at this
    have hlt : ofLe (s.take 8) < 2 ^ 64 := by
      have := ofLe_lt (s.take 8)
      rw [List.length_take, Nat.min_eq_left (by omega)] at this
      simpa using this
    refine ⟨?_, by simp [readU64s, h2], ?_⟩
    · rw [readU64s, List.map_cons, List.flatten_cons, h1, e, show 8 * (n + 1) = 8 + 8 * n by omega, List.take_add]
    · intro x hx
      rw [readU64s] at hx
      rcases List.mem_cons.1 hx with rfl | hx
      · exact hlt
      · exact h3 x hx

theorem lawful_el (kd : ElType × Nat) : Lawful (elCodec kd) where
  des_ser v rest hf := by
    obtain ⟨⟨ty, n, id, nodes⟩, dat⟩ := v
    obtain ⟨h1, h2, h3, h4, h5⟩ := hf
    simp only [Element.kind] at h1 h2 h3 h4 h5
    obtain rfl : (ty, n) = kd := h1
    have hlen : ((nodes.map (leBytes 8)).flatten).length = 8 * nNodes (ty, n) := by rw [flatten_le_length, h2]
    simp only [elCodec]
    rw [if_pos (by simp only [List.length_append, leBytes_length, hlen, h4]; omega)]
    have hd : ((nodes.map (leBytes 8)).flatten ++ (dat ++ leBytes 8 id) ++ rest).drop (8 * nNodes (ty, n)) = dat ++ (leBytes 8 id ++ rest) := by
      rw [List.append_assoc, List.drop_left' hlen, List.append_assoc]
    rw [hd, List.take_left' h4, List.drop_left' h4, List.take_left' (leBytes_length 8 id), List.drop_left' (leBytes_length 8 id),
      ofLe_leBytes_of_lt 8 id (by simpa using h5), List.append_assoc, ← h2, readU64s_ser nodes h3]
  ser_des s v rest h := by
    simp only [elCodec] at h ⊢
    split at h
    · rename_i hs
      simp only [Option.some.injEq, Prod.mk.injEq] at h
      obtain ⟨rfl, rfl⟩ := h
      obtain ⟨h1, h2, h3⟩ := readU64s_des (nNodes kd) s (by omega)
      set t := s.drop (8 * nNodes kd) with ht
      have htl : t.length = s.length - 8 * nNodes kd := by simp [ht]
      have hul : (t.drop (dataSize kd)).length = s.length - 8 * nNodes kd - dataSize kd := by simp [htl]
      have e : leBytes 8 (ofLe ((t.drop (dataSize kd)).take 8)) = (t.drop (dataSize kd)).take 8 := by
        have := leBytes_ofLe ((t.drop (dataSize kd)).take 8)
        rwa [List.length_take, Nat.min_eq_left (by omega)] at this
      have hlt : ofLe ((t.drop (dataSize kd)).take 8) < 2 ^ 64 := by
        have := ofLe_lt ((t.drop (dataSize kd)).take 8)
        rw [List.length_take, Nat.min_eq_left (by omega)] at this
        simpa using this
      refine ⟨?_, rfl, h2, h3, by simp only [List.length_take]; omega, hlt⟩
      rw [h1, e, List.append_assoc, List.append_assoc, List.take_append_drop, List.take_append_drop, ht, List.take_append_drop]
    · cases h

theorem lawful_tup (kinds : List (ElType × Nat)) : Lawful (tupCodec kinds) := by
  induction kinds with
  | nil =>
    refine ⟨fun v rest hf => ?_, fun s v rest h => ?_⟩
    · obtain rfl : v = [] := hf
      rfl
    · simp only [tupCodec, Option.some.injEq, Prod.mk.injEq] at h ⊢
      exact ⟨h.2, h.1.symm⟩
  | cons kd ks ih =>
    refine ⟨fun v rest hf => ?_, fun s v rest h => ?_⟩
    · obtain ⟨h1, h2, h3⟩ := hf
      cases v with
      | nil => exact absurd rfl h1
      | cons x xs =>
        simp only [tupCodec, List.headD_cons, List.tail_cons, List.append_assoc] at h2 h3 ⊢
        rw [(lawful_seq (lawful_el kd)).des_ser _ _ h2, Option.bind_some, ih.des_ser _ _ h3]
        rfl
    · simp only [tupCodec] at h ⊢
      rw [Option.bind_eq_some_iff] at h
      obtain ⟨⟨x, s'⟩, h1, h2⟩ := h
      rw [Option.map_eq_some_iff] at h2
      obtain ⟨⟨xs, s''⟩, h2, h3⟩ := h2
      simp only [Prod.mk.injEq] at h3
      obtain ⟨rfl, rfl⟩ := h3
      obtain ⟨a1, a2⟩ := (lawful_seq (lawful_el kd)).ser_des _ _ _ h1
      obtain ⟨b1, b2⟩ := ih.ser_des _ _ _ h2
      simp only at b1
      refine ⟨by rw [a1, b1]; simp, by simp, by simpa using a2, by simpa using b2⟩

theorem lawful_part (kinds : List (ElType × Nat)) : Lawful (partCodec kinds) :=
  lawful_pair (lawful_seq (lawful_pair (lawful_uint 2) (lawful_tup kinds)))
    (lawful_pair (lawful_uint 8) (lawful_pair (lawful_uint 8) (lawful_seq (lawful_uint 2))))

/-! ## Lines -/

theorem skipLine_eq (a rest : List Byte) (h : nl ∉ a) : skipLine (a ++ (nl :: rest)) = some rest := by
  unfold skipLine
  rw [if_pos (by simp), List.dropWhile_append_of_pos (by intro x hx; simp; rintro rfl; exact h hx)]
  simp [List.dropWhile_cons]

theorem nl_not_mem_oneLine (c : List Byte) : nl ∉ oneLine c := by
  unfold oneLine
  intro h
  obtain ⟨b, _, hb⟩ := List.mem_map.1 h
  split at hb
  · exact absurd hb (by decide)
  · rename_i hne; exact hne hb

theorem skip3_preamble (what : String) (hw : nl ∉ txt what) (c rest : List Byte) : skip3 (preamble what c ++ rest) = some rest := by
  unfold skip3 preamble
  rw [List.append_assoc, List.cons_append, skipLine_eq _ _ hw, Option.bind_some, List.append_assoc, List.cons_append,
    skipLine_eq _ _ (by decide), Option.bind_some, List.append_assoc, List.singleton_append, skipLine_eq]
  rw [List.mem_append, not_or]
  exact ⟨by decide, nl_not_mem_oneLine c⟩

/-! ## Blocks -/

theorem blocks_append (o : Nat) (a b : List (List Byte)) : blocks o (a ++ b) = blocks o a ++ blocks (o + a.flatten.length) b := by
  induction a generalizing o with
  | nil => simp [blocks]
  | cons x a ih =>
    rw [List.cons_append, blocks, ih, blocks, List.cons_append, List.flatten_cons, List.length_append, Nat.add_assoc]

theorem blocks_groups (o N : Nat) (gs : List (List (List Byte))) (h : ∀ g ∈ gs, g.flatten.length = N) :
    blocks o gs.flatten = gs.zipIdx.flatMap fun p => blocks (o + N * p.2) p.1 := by
  induction gs generalizing o with
  | nil => rfl
  | cons g gs ih =>
    rw [List.flatten_cons, blocks_append, ih _ fun g' hg' => h g' (by simp [hg']), List.zipIdx_cons, List.flatMap_cons, h g (by simp)]
    rw [List.zipIdx_succ, List.flatMap_map]
    simp only [Nat.mul_zero, Nat.add_zero]
    congr 1
    congr 1
    funext p
    congr 1
    rw [Nat.mul_add]; omega

theorem flatMap_map_swap {α β γ : Type} (l : List α) (m : List β) (f : α → β → γ) :
    (l.flatMap fun a => m.map (f a)).Perm (m.flatMap fun b => l.map fun a => f a b) := by
  induction l with
  | nil => simp
  | cons a l ih =>
    rw [List.flatMap_cons]
    exact (ih.append_left _).trans (List.map_append_flatMap_perm m (f a) fun b => l.map fun a => f a b)

theorem flatMap_getElem? {α β : Type} (l : List α) (g : α → List β) (r j : Nat) (a : α) (ha : l[r]? = some a) (hj : j < (g a).length) :
    (l.flatMap g)[((l.take r).map fun a => (g a).length).sum + j]? = (g a)[j]? := by
  induction l generalizing r with
  | nil => simp at ha
  | cons x l ih =>
    cases r with
    | zero =>
      simp only [List.getElem?_cons_zero, Option.some.injEq] at ha
      subst ha
      simp only [List.take_zero, List.map_nil, List.sum_nil, Nat.zero_add, List.flatMap_cons]
      exact List.getElem?_append_left hj
    | succ r =>
      rw [List.getElem?_cons_succ] at ha
      rw [List.take_succ_cons, List.map_cons, List.sum_cons, List.flatMap_cons, List.getElem?_append_right (by omega)]
      rw [show (g x).length + ((l.take r).map fun a => (g a).length).sum + j - (g x).length = ((l.take r).map fun a => (g a).length).sum + j by omega]
      exact ih r ha

theorem flatten_take8 (V : List (List Byte)) (hV : ∀ v ∈ V, v.length = 8) (rest : List Byte) (k : Nat) (v : List Byte) (h : V[k]? = some v) :
    8 * k + 8 ≤ (V.flatten ++ rest).length ∧ ((V.flatten ++ rest).drop (8 * k)).take 8 = v := by
  induction V generalizing k with
  | nil => simp at h
  | cons x V ih =>
    have hx := hV x (by simp)
    cases k with
    | zero =>
      simp only [List.getElem?_cons_zero, Option.some.injEq] at h
      subst h
      refine ⟨by simp [hx], ?_⟩
      rw [Nat.mul_zero, List.drop_zero, List.flatten_cons, List.append_assoc, List.take_left' hx]
    | succ k =>
      rw [List.getElem?_cons_succ] at h
      obtain ⟨h1, h2⟩ := ih (fun v hv => hV v (by simp [hv])) k h
      rw [List.flatten_cons, List.append_assoc]
      refine ⟨by rw [List.length_append, hx]; omega, ?_⟩
      rw [show 8 * (k + 1) = 8 + 8 * k by omega, ← List.drop_drop, List.drop_left' hx, h2]

/-- The text of part `r` in the concatenation of all parts. -/
theorem flatten_part (bs : List (List Byte)) (rest : List Byte) (r : Nat) (b : List Byte) (h : bs[r]? = some b) :
    ((bs.map List.length).take r).sum ≤ (bs.flatten ++ rest).length ∧
      ((bs.flatten ++ rest).drop ((bs.map List.length).take r).sum).take b.length = b := by
  induction bs generalizing r with
  | nil => simp at h
  | cons x bs ih =>
    cases r with
    | zero =>
      simp only [List.getElem?_cons_zero, Option.some.injEq] at h
      subst h
      simp
    | succ r =>
      rw [List.getElem?_cons_succ] at h
      obtain ⟨h1, h2⟩ := ih r h
      simp only [List.map_cons, List.take_succ_cons, List.sum_cons, List.flatten_cons, List.append_assoc]
      refine ⟨by rw [List.length_append]; omega, ?_⟩
      rw [← List.drop_drop, List.drop_left' rfl, h2]

/-! ## Domains -/

theorem foldlM_push {kinds : List (ElType × Nat)} (hk : kinds.Nodup) (l : List Element) (hl : ∀ e ∈ l, e.kind ∈ kinds)
    (hd : ∀ a ∈ l, ∀ b ∈ l, a.ty.dim = b.ty.dim) : l.foldlM (Domain.push kinds) (emptyDom kinds) = some (grow kinds (emptyDom kinds) l) := by
  induction l using List.reverseRecOn with
  | nil => rw [grow_nil _ _ (by simp [emptyDom])]; rfl
  | append_singleton l e ih =>
    rw [List.foldlM_append, ih (fun x hx => hl x (by simp [hx])) fun a ha b hb => hd a (by simp [ha]) b (by simp [hb])]
    simp only [Option.bind_eq_bind, Option.bind_some, List.foldlM_cons, List.foldlM_nil]
    rw [push_grow hk (by simp [emptyDom]) (hl e (by simp))]
    · rfl
    · intro x hx
      simp only [grow, emptyDom, Option.none_or, Option.map_eq_some_iff] at hx
      obtain ⟨y, hy, rfl⟩ := hx
      exact hd y (by simp [List.mem_of_mem_head? hy]) e (by simp)

theorem toMap_sorted (l : DomMap) (h : OMap.Sorted l) : toMap l = l := by
  have upd_end : ∀ (m : DomMap) (p : Nat × Domain) (f : Option Domain → Domain), (∀ q ∈ m, q.1 < p.1) → f none = p.2 →
      OMap.upd m p.1 f = m ++ [p] := by
    intro m p f
    induction m with
    | nil => intro _ hf; rw [OMap.upd, hf, List.nil_append]
    | cons q m ih =>
      intro hm hf
      have hq := hm q (by simp)
      rw [OMap.upd, if_neg (by omega), if_neg (by omega), ih (fun q hq => hm q (by simp [hq])) hf]
      rfl
  have key : ∀ (l m : DomMap), OMap.Sorted (m ++ l) → l.foldl (fun m p => OMap.upd m p.1 fun o => o.getD p.2) m = m ++ l := by
    intro l
    induction l with
    | nil => intro m _; simp
    | cons p l ih =>
      intro m hm
      have := (List.pairwise_append.1 hm).2.2
      rw [List.foldl_cons, upd_end m p _ (fun q hq => this q hq p (by simp)) rfl, ih _ (by rw [List.append_assoc]; exact hm), List.append_assoc]
      rfl
  have := key l [] (by simpa using h)
  simpa [toMap] using this

/-- The serialised vectors `vs` are those of the domains `doms`. -/
def Describes (l : List (Nat × List (List SEl))) (doms : DomMap) : Prop :=
  List.Forall₂ (fun p d => p.1 = d.1 ∧ p.2.map (fun v => v.map (·.1)) = d.2.vecs) l doms

/-- Domains as the library builds them: the dimension is recorded exactly when there are elements. -/
def Clean (doms : DomMap) : Prop := ∀ d ∈ doms, d.2.elems = [] → d.2.dim = none

theorem makeDomain_spec {kinds : List (ElType × Nat)} (hk : kinds.Nodup) {d : Domain} (hw : WfDomain kinds d) (hc : d.elems = [] → d.dim = none)
    {vs : List (List SEl)} (hv : vs.map (fun v => v.map (·.1)) = d.vecs) : makeDomain kinds vs = some d := by
  unfold makeDomain
  have he : vs.flatten.map (·.1) = d.elems := by unfold Domain.elems; rw [← hv, List.map_flatten]
  rw [he, foldlM_push hk _ (fun e h => hw.mem_kind h) (fun a ha b hb => Option.some.inj ((hw.dim a ha).symm.trans (hw.dim b hb)))]
  congr 1
  by_cases hne : d.elems = []
  · rw [hne, grow_nil _ _ (by simp [emptyDom])]
    have hdim := hc hne
    cases d with
    | mk dim vecs =>
      simp only at hdim
      subst hdim
      unfold emptyDom
      congr 1
      apply List.ext_getElem (by simpa using hw.len.symm)
      intro i h1 h2
      simp only [List.getElem_map]
      have : vecs[i] ∈ vecs := List.getElem_mem h2
      exact ((List.flatten_eq_nil_iff.1 hne) _ this).symm
  · have := grow_filter hk hw (fun _ => true) (by simpa using hne)
    rw [List.filter_true] at this
    rw [this, show d.vecs.map (List.filter fun _ => true) = d.vecs from (List.map_congr_left fun v _ => List.filter_true v).trans (List.map_id _)]

theorem makeDomains_spec {kinds : List (ElType × Nat)} {doms : DomMap} (hw : WfMesh kinds doms) (hc : Clean doms)
    {l : List (Nat × List (List SEl))} (h : Describes l doms) : makeDomains kinds l = some doms := by
  unfold makeDomains
  have hk : KeysNodup doms := by
    unfold KeysNodup List.Nodup
    rw [List.pairwise_map]
    exact hw.sorted.imp fun h => Nat.ne_of_lt h
  have : (l.mapM fun p => (makeDomain kinds p.2).map fun d => (p.1, d)) = some doms := by
    have hall : ∀ d ∈ doms, WfDomain kinds d.2 ∧ (d.2.elems = [] → d.2.dim = none) := fun d hd =>
      ⟨hw.dom d.1 d.2 (lookup_of_mem hk hd), hc d hd⟩
    clear hc
    unfold Describes at h
    have hnd := hw.nodup
    clear hw hk
    induction h with
    | nil => rfl
    | @cons p d l doms h1 _ ih =>
      rw [List.mapM_cons, makeDomain_spec hnd (hall d (by simp)).1 (hall d (by simp)).2 h1.2, ih fun d hd => hall d (by simp [hd])]
      simp [h1.1]
  rw [this, Option.map_some, toMap_sorted _ hw.sorted]

end Verif.NativeIO
