import Verif.Rounds.Lemmas
import Mathlib.Data.Finset.Max
import Mathlib.Data.Fintype.Lattice
import Mathlib.Algebra.Order.BigOperators.Group.Finset

/-! # Progress and termination of the communication rounds -/
namespace Verif.Rounds
open Finset

variable {n : Nat} {prog : List (Op n)} {env : Env n} {s s' : St n}

theorem chan_cons (h : Inv prog s) {q r : Fin n} {t k : Nat} (hs : SentMsg prog s q r t k) (hg : s.got r k q t = none) : ∃ m rest, s.chan q r t = m :: rest := by
  have := (h.mem q r t k).2 ⟨hs, hg⟩
  exact List.exists_cons_of_ne_nil (List.ne_nil_of_mem this)

theorem got_self (h : Inv prog s) {q r : Fin n} {t k : Nat} (hg : s.got r k q t ≠ none) : s.got r k q t = some k := by
  cases hx : s.got r k q t with
  | none => exact absurd hx hg
  | some m => rw [(h.got _ _ _ _ _ hx).1]

/-- Only ranks at operation `k` have moved. -/
def OnlyAt (k : Nat) (s s' : St n) : Prop := ∀ x, s.pc x ≠ k → s'.pc x = s.pc x ∧ s'.sub x = s.sub x

theorem onlyAt_goto {k : Nat} {x : Fin n} {s1 : St n} (v : Nat) (hp : s1.pc = s.pc) (hs : s1.sub = s.sub) (hx : s.pc x = k) : OnlyAt k s (s1.goto x v) := by
  intro y hy
  have hne : y ≠ x := by rintro rfl; exact hy hx
  refine ⟨congrFun hp y, ?_⟩
  rw [goto_sub, if_neg hne, hs]

theorem onlyAt_next {k : Nat} {x : Fin n} (hx : s.pc x = k) : OnlyAt k s (s.next x) := by
  intro y hy
  have hne : y ≠ x := by rintro rfl; exact hy hx
  exact ⟨by rw [next_pc, if_neg hne], by rw [next_sub, if_neg hne]⟩

/-- A rank behind all others, or one level with it for which it waits, can go on. -/
theorem step_of_min_only (hperm : Permuting prog) (h : Inv prog s) {r : Fin n} (hmin : ∀ x, s.pc r ≤ s.pc x) (hlt : s.pc r < prog.length) :
    ∃ s', Step prog env s s' ∧ OnlyAt (s.pc r) s s' := by
  obtain ⟨op, hop⟩ : ∃ op, prog[s.pc r]? = some op := ⟨_, List.getElem?_eq_getElem hlt⟩
  have at_ : ∀ {x}, s.pc x = s.pc r → prog[s.pc x]? = some op := fun hx => by rw [hx]; exact hop
  cases op with
  | coll f =>
    by_cases h0 : ∃ x, s.pc x = s.pc r ∧ s.sub x = 0
    · obtain ⟨x, hx, hx0⟩ := h0
      exact ⟨_, .enter (at_ hx) hx0, onlyAt_goto _ rfl rfl hx⟩
    · have hall : ∀ q, s.pc r < s.pc q ∨ (s.pc q = s.pc r ∧ s.sub q = 1) := by
        intro q
        rcases Nat.eq_or_lt_of_le (hmin q) with he | he
        · right
          refine ⟨he.symm, ?_⟩
          have h1 := h.collSub q f (at_ he.symm)
          have h2 : s.sub q ≠ 0 := fun hz => h0 ⟨q, he.symm, hz⟩
          omega
        · exact Or.inl he
      have hr : s.sub r = 1 := by rcases hall r with h1 | h1 <;> omega
      exact ⟨_, .leave hop hr (env.collDone_of s r hall) fun _ => hall, onlyAt_next rfl⟩
  | wild tag dst =>
    by_cases h0 : ∃ x, s.pc x = s.pc r ∧ s.sub x = 0
    · obtain ⟨x, hx, hx0⟩ := h0
      exact ⟨_, .isend (at_ hx) hx0, onlyAt_goto _ rfl rfl hx⟩
    have sent : ∀ q, SentMsg prog s q (dst q) tag (s.pc r) := by
      intro q
      refine ⟨_, hop, ⟨rfl, rfl⟩, ?_⟩
      rcases Nat.eq_or_lt_of_le (hmin q) with he | he
      · right
        refine ⟨he, ?_⟩
        have : s.sub q ≠ 0 := fun hz => h0 ⟨q, he.symm, hz⟩
        show 1 ≤ s.sub q
        omega
      · exact Or.inl he
    by_cases h1 : ∃ x, s.pc x = s.pc r ∧ s.sub x = 1
    · obtain ⟨x, hx, hx1⟩ := h1
      obtain ⟨q, rfl⟩ := (hperm _ tag dst hop).2 x
      obtain ⟨m, rest, hc⟩ := chan_cons h (sent q) (by rw [← hx]; exact h.wildNot _ tag dst (at_ hx) (by omega) q tag)
      exact ⟨_, .recvAny (at_ hx) hx1 hc, onlyAt_goto _ rfl rfl hx⟩
    · have h2 : ∀ x, s.pc x = s.pc r → s.sub x = 2 := by
        intro x hx
        have := h.sub2 x
        have : s.sub x ≠ 0 := fun hz => h0 ⟨x, hx, hz⟩
        have : s.sub x ≠ 1 := fun hz => h1 ⟨x, hx, hz⟩
        omega
      refine ⟨_, .finishWild hop (h2 r rfl) (env.sendDone_of s r (dst r) tag _ ⟨s.pc r, got_self h ?_⟩), onlyAt_next rfl⟩
      rcases Nat.eq_or_lt_of_le (hmin (dst r)) with he | he
      · have := h.wildDone (dst r) tag dst (at_ he.symm) (h2 _ he.symm) r rfl
        rwa [← he] at this
      · exact h.done (dst r) (s.pc r) r tag _ he hop ⟨rfl, rfl⟩
  | round p M =>
    by_cases h0 : ∃ x, s.pc x = s.pc r ∧ s.sub x = 0
    · obtain ⟨x, hx, hx0⟩ := h0
      exact ⟨_, .post (at_ hx) hx0, onlyAt_goto _ rfl rfl hx⟩
    by_cases h1 : ∃ x, s.pc x = s.pc r ∧ s.sub x = 1
    · obtain ⟨x, hx, hx1⟩ := h1
      exact ⟨_, .send (at_ hx) hx1, onlyAt_goto _ rfl rfl hx⟩
    have h2 : ∀ x, s.pc x = s.pc r → s.sub x = 2 := by
      intro x hx
      have := h.sub2 x
      have : s.sub x ≠ 0 := fun hz => h0 ⟨x, hx, hz⟩
      have : s.sub x ≠ 1 := fun hz => h1 ⟨x, hx, hz⟩
      omega
    by_cases h3 : ∃ x q t, s.pc x = s.pc r ∧ (q, x, t) ∈ M ∧ s.got x (s.pc x) q t = none
    · obtain ⟨x, q, t, hx, hm, hg⟩ := h3
      have hs : SentMsg prog s q x t (s.pc x) := by
        refine ⟨_, at_ hx, hm, ?_⟩
        rw [hx]
        rcases Nat.eq_or_lt_of_le (hmin q) with he | he
        · right; exact ⟨he, by show 2 ≤ s.sub q; rw [h2 q he.symm]⟩
        · exact Or.inl he
      obtain ⟨m, rest, hc⟩ := chan_cons h hs hg
      exact ⟨_, .deliver (at_ hx) (Or.inl (h2 x hx)) hm hg hc, fun _ _ => ⟨rfl, rfl⟩⟩
    · have hgot : ∀ x q t, s.pc x = s.pc r → (q, x, t) ∈ M → s.got x (s.pc x) q t ≠ none := fun x q t hx hm hg => h3 ⟨x, q, t, hx, hm, hg⟩
      refine ⟨_, .finish hop (h2 r rfl) (fun q t hm => hgot r q t rfl hm) fun b t hm => env.sendDone_of s r b t _ ⟨s.pc r, got_self h ?_⟩, onlyAt_next rfl⟩
      rcases Nat.eq_or_lt_of_le (hmin b) with he | he
      · rw [he]; exact hgot b r t he.symm hm
      · exact h.done b (s.pc r) r t _ he hop hm

theorem step_of_min (hperm : Permuting prog) (h : Inv prog s) {r : Fin n} (hmin : ∀ x, s.pc r ≤ s.pc x) (hlt : s.pc r < prog.length) : ∃ s', Step prog env s s' :=
  let ⟨s', hs, _⟩ := step_of_min_only hperm h hmin hlt
  ⟨s', hs⟩

theorem progress (hperm : Permuting prog) (h : Inv prog s) : Done prog s ∨ ∃ s', Step prog env s s' := by
  by_cases hd : Done prog s
  · exact Or.inl hd
  · right
    unfold Done at hd
    push Not at hd
    obtain ⟨r0, hr0⟩ := hd
    obtain ⟨r, -, hmin⟩ := Finset.exists_min_image Finset.univ s.pc ⟨r0, Finset.mem_univ r0⟩
    refine step_of_min hperm h (r := r) (fun x => hmin x (Finset.mem_univ x)) ?_
    have h1 := hmin r0 (Finset.mem_univ r0)
    have h2 := h.len r0
    omega

/-! ## Termination -/

open Classical in
/-- Messages of round `k` that were not received. -/
noncomputable def missing (prog : List (Op n)) (s : St n) (k : Nat) : Nat :=
  match prog[k]? with
  | some (.round _ M) => (M.filter fun x => s.got x.2.1 k x.1 x.2.2 = none).card
  | _ => 0

noncomputable def measure (prog : List (Op n)) (s : St n) : Nat :=
  (∑ r, (3 * (prog.length - s.pc r) + (2 - s.sub r))) + ∑ k ∈ range prog.length, missing prog s k

theorem missing_mono (hg : ∀ r k q t, s.got r k q t ≠ none → s'.got r k q t ≠ none) (k : Nat) : missing prog s' k ≤ missing prog s k := by
  classical
  unfold missing
  split
  · refine Finset.card_le_card fun x hx => ?_
    rw [Finset.mem_filter] at hx ⊢
    refine ⟨hx.1, ?_⟩
    by_contra hn
    exact hg _ _ _ _ hn hx.2
  · exact le_refl _

theorem measure_of (hg : ∀ r k q t, s.got r k q t ≠ none → s'.got r k q t ≠ none) {r : Fin n} (hpc : ∀ x, x ≠ r → s'.pc x = s.pc x) (hsub : ∀ x, x ≠ r → s'.sub x = s.sub x)
    (hr : 3 * (prog.length - s'.pc r) + (2 - s'.sub r) < 3 * (prog.length - s.pc r) + (2 - s.sub r)) : measure prog s' < measure prog s := by
  unfold measure
  refine Nat.add_lt_add_of_lt_of_le ?_ (Finset.sum_le_sum fun k _ => missing_mono hg k)
  refine Finset.sum_lt_sum (fun x _ => ?_) ⟨r, Finset.mem_univ r, hr⟩
  by_cases hx : x = r
  · subst hx; exact le_of_lt hr
  · rw [hpc x hx, hsub x hx]

theorem lt_of_some {k : Nat} {op : Op n} (h : prog[k]? = some op) : k < prog.length := by
  by_contra hn
  rw [List.getElem?_eq_none (by omega)] at h; cases h

theorem measure_goto {r : Fin n} {v : Nat} (hv : s.sub r < v) (h2 : v ≤ 2) (hg : ∀ r k q t, s.got r k q t ≠ none → s'.got r k q t ≠ none)
    (hpc : s'.pc = s.pc) (hsub : s'.sub = Function.update s.sub r v) : measure prog s' < measure prog s := by
  refine measure_of hg (r := r) (fun x _ => by rw [hpc]) (fun x hx => by rw [hsub, Function.update_of_ne hx]) ?_
  rw [hpc, hsub, Function.update_self]
  omega

theorem measure_next (h : Inv prog s) {r : Fin n} {op : Op n} (hop : prog[s.pc r]? = some op) : measure prog (s.next r) < measure prog s := by
  refine measure_of (fun _ _ _ _ hg => hg) (r := r) (fun x hx => by rw [next_pc, if_neg hx]) (fun x hx => by rw [next_sub, if_neg hx]) ?_
  rw [next_pc, next_sub, if_pos rfl, if_pos rfl]
  have := lt_of_some hop
  have := h.sub2 r
  omega

theorem take_got_mono (q r : Fin n) (t m : Nat) (rest : List Nat) : ∀ a k b u, s.got a k b u ≠ none → (s.take q r t m rest).got a k b u ≠ none := by
  intro a k b u hg
  rw [take_got]; split
  · simp
  · exact hg

theorem measure_step (h : Inv prog s) (hst : Step prog env s s') : measure prog s' < measure prog s := by
  cases hst with
  | @post r p M hop h0 => exact measure_goto (v := 1) (r := r) (by omega) (by omega) (fun _ _ _ _ hg => hg) rfl rfl
  | @send r p M hop h0 => exact measure_goto (v := 2) (r := r) (by omega) (by omega) (fun _ _ _ _ hg => hg) rfl rfl
  | @finish r p M hop h0 hd _ => exact measure_next h hop
  | @isend r tag dst hop h0 => exact measure_goto (v := 1) (r := r) (by omega) (by omega) (fun _ _ _ _ hg => hg) rfl rfl
  | @recvAny r tag dst q m rest hop h0 hc => exact measure_goto (v := 2) (r := r) (by omega) (by omega) (take_got_mono q r tag m rest) rfl rfl
  | @finishWild r tag dst hop h0 _ => exact measure_next h hop
  | @enter r f hop h0 => exact measure_goto (v := 1) (r := r) (by omega) (by omega) (fun _ _ _ _ hg => hg) rfl rfl
  | @leave r f hop h0 _ hf => exact measure_next h hop
  | @deliver r p M q t m rest hop h0 hm hg hc =>
    unfold measure
    refine Nat.add_lt_add_of_le_of_lt (le_refl _) ?_
    refine Finset.sum_lt_sum (fun k _ => missing_mono (take_got_mono q r t m rest) k) ⟨s.pc r, Finset.mem_range.2 (lt_of_some hop), ?_⟩
    classical
    unfold missing
    rw [hop]
    refine Finset.card_lt_card ?_
    rw [Finset.ssubset_iff_of_subset]
    · refine ⟨(q, r, t), Finset.mem_filter.2 ⟨hm, hg⟩, ?_⟩
      rw [Finset.mem_filter]
      rintro ⟨-, hx⟩
      rw [take_got, if_pos ⟨rfl, rfl, rfl, rfl⟩] at hx
      cases hx
    · intro x hx
      rw [Finset.mem_filter] at hx ⊢
      refine ⟨hx.1, ?_⟩
      by_contra hn
      exact take_got_mono q r t m rest _ _ _ _ hn hx.2

theorem no_infinite (hsep : Separated prog) (hperm : Permuting prog) (f : Nat → St n) (h0 : Reach prog env (f 0)) (hf : ∀ i, Step prog env (f i) (f (i + 1))) : False := by
  have hr : ∀ i, Reach prog env (f i) := by
    intro i
    induction i with
    | zero => exact h0
    | succ i ih => exact .step ih (hf i)
  have hm : ∀ i, measure prog (f i) + i ≤ measure prog (f 0) := by
    intro i
    induction i with
    | zero => exact le_refl _
    | succ i ih =>
      have := measure_step (Inv.reach hsep hperm (hr i)) (hf i)
      omega
  have := hm (measure prog (f 0) + 1)
  omega

end Verif.Rounds
