import Verif.Rounds.Spec

/-! # Invariant of the communication rounds -/
namespace Verif.Rounds

variable {n : Nat}

/-- The step from which on the sends of an operation have been started. -/
def Op.ready : Op n → Nat
  | .round _ _ => 2
  | .wild _ _ => 1
  | .coll _ => 0

theorem ready_pos {op : Op n} {q r : Fin n} {t : Nat} (h : op.has q r t) : 0 < op.ready := by
  cases op with
  | coll f => exact h.elim
  | round p M => exact Nat.zero_lt_two
  | wild t d => exact Nat.zero_lt_one

/-- `q` has sent the message of operation `k` to `r` with tag `t`. -/
def SentMsg (prog : List (Op n)) (s : St n) (q r : Fin n) (t k : Nat) : Prop :=
  ∃ op, prog[k]? = some op ∧ op.has q r t ∧ (k < s.pc q ∨ (k = s.pc q ∧ op.ready ≤ s.sub q))

structure Inv (prog : List (Op n)) (s : St n) : Prop where
  sub2 : ∀ r, s.sub r ≤ 2
  len : ∀ r, s.pc r ≤ prog.length
  sorted : ∀ q r t, (s.chan q r t).Pairwise (· < ·)
  mem : ∀ q r t k, k ∈ s.chan q r t ↔ SentMsg prog s q r t k ∧ s.got r k q t = none
  got : ∀ r k q t m, s.got r k q t = some m → m = k ∧ SentMsg prog s q r t k ∧ k ≤ s.pc r
  done : ∀ r k q t op, k < s.pc r → prog[k]? = some op → op.has q r t → s.got r k q t ≠ none
  wildDone : ∀ r tag dst, prog[s.pc r]? = some (.wild tag dst) → s.sub r = 2 → ∀ q, dst q = r → s.got r (s.pc r) q tag ≠ none
  wildNot : ∀ r tag dst, prog[s.pc r]? = some (.wild tag dst) → s.sub r ≤ 1 → ∀ q t, s.got r (s.pc r) q t = none
  collSub : ∀ r f, prog[s.pc r]? = some (.coll f) → s.sub r ≤ 1
  coll : ∀ b q r, prog[b]? = some (.coll true) → b < s.pc q → b < s.pc r ∨ (s.pc r = b ∧ s.sub r = 1)

variable {prog : List (Op n)} {env : Env n} {s s' : St n}

/-! ## Components of the successors -/

theorem goto_sub (s : St n) (r q : Fin n) (v : Nat) : (s.goto r v).sub q = if q = r then v else s.sub q := by
  unfold St.goto; simp only [Function.update_apply]

theorem next_sub (s : St n) (r q : Fin n) : (s.next r).sub q = if q = r then 0 else s.sub q := by
  unfold St.next; simp only [Function.update_apply]

theorem next_pc (s : St n) (r q : Fin n) : (s.next r).pc q = if q = r then s.pc r + 1 else s.pc q := by
  unfold St.next; simp only [Function.update_apply]

theorem sent_goto {r : Fin n} {v : Nat} (hop : ∀ op, prog[s.pc r]? = some op → (op.ready ≤ v ↔ op.ready ≤ s.sub r) ∨ ∀ q t, ¬ op.has r q t) (q b : Fin n) (t k : Nat) :
    SentMsg prog (s.goto r v) q b t k ↔ SentMsg prog s q b t k := by
  unfold SentMsg
  refine exists_congr fun op => and_congr_right fun h1 => and_congr_right fun h2 => ?_
  rw [goto_sub]
  show (k < s.pc q ∨ (k = s.pc q ∧ _)) ↔ _
  by_cases hq : q = r
  · subst hq
    rw [if_pos rfl]
    refine or_congr_right (and_congr_right fun hk => ?_)
    rw [hk] at h1
    rcases hop op h1 with h | h
    · exact h
    · exact absurd h2 (h b t)
  · rw [if_neg hq]

theorem sent_next {r : Fin n} (hop : ∀ op, prog[s.pc r]? = some op → op.ready ≤ s.sub r) (q b : Fin n) (t k : Nat) :
    SentMsg prog (s.next r) q b t k ↔ SentMsg prog s q b t k := by
  unfold SentMsg
  refine exists_congr fun op => and_congr_right fun h1 => and_congr_right fun h2 => ?_
  rw [next_sub, next_pc]
  by_cases hq : q = r
  · subst hq
    rw [if_pos rfl, if_pos rfl]
    have := ready_pos h2
    constructor
    · rintro (h | h)
      · rcases Nat.lt_succ_iff_lt_or_eq.1 h with h | h
        · exact Or.inl h
        · right
          refine ⟨h, hop op ?_⟩
          rw [← h]; exact h1
      · omega
    · rintro (h | h)
      · left; omega
      · left; omega
  · rw [if_neg hq, if_neg hq]

/-! ## Consequences -/

/-- The message a receive with given source finds first is the one of its own operation. -/
theorem head_eq (h : Inv prog s) {q r : Fin n} {t m : Nat} {rest : List Nat} {op : Op n} (hop : prog[s.pc r]? = some op) (hh : op.has q r t)
    (hg : s.got r (s.pc r) q t = none) (hc : s.chan q r t = m :: rest) : m = s.pc r := by
  obtain ⟨⟨op', h1, h2, h3⟩, h4⟩ := (h.mem q r t m).1 (by rw [hc]; simp)
  have hle : s.pc r ≤ m := by
    by_contra hlt
    exact h.done r m q t op' (by omega) h1 h2 h4
  rcases Nat.eq_or_lt_of_le hle with he | hlt
  · exact he.symm
  · have hmem : s.pc r ∈ s.chan q r t := (h.mem q r t _).2 ⟨⟨op, hop, hh, Or.inl (by omega)⟩, hg⟩
    have hs := h.sorted q r t
    rw [hc] at hs hmem
    rcases List.mem_cons.1 hmem with he | hm
    · exact he.symm
    · have := (List.pairwise_cons.1 hs).1 _ hm
      omega

/-- So is the one that a receive with wildcard finds. -/
theorem wild_eq (hsep : Separated prog) (h : Inv prog s) {q r : Fin n} {tag m : Nat} {dst : Fin n → Fin n} {rest : List Nat}
    (hop : prog[s.pc r]? = some (.wild tag dst)) (hc : s.chan q r tag = m :: rest) : m = s.pc r ∧ dst q = r := by
  obtain ⟨⟨op', h1, h2, h3⟩, h4⟩ := (h.mem q r tag m).1 (by rw [hc]; simp)
  have hle : s.pc r ≤ m := by
    by_contra hlt
    exact h.done r m q tag op' (by omega) h1 h2 h4
  rcases Nat.eq_or_lt_of_le hle with he | hlt
  · subst he
    rw [hop] at h1
    cases h1
    exact ⟨rfl, h2.1⟩
  · obtain ⟨b, hb1, hb2, hb3⟩ := hsep _ m tag dst op' hlt hop h1 ⟨q, r, h2⟩
    have := h.coll b q r hb3 (by omega)
    omega

/-! ## Preservation -/

theorem Inv.init : Inv prog (St.init n) := by
  refine ⟨fun _ => Nat.zero_le _, fun _ => Nat.zero_le _, fun _ _ _ => List.Pairwise.nil, ?_, ?_, ?_, ?_, fun _ _ _ _ _ _ _ => rfl, fun _ _ _ => Nat.zero_le _, ?_⟩
  · intro q r t k
    refine ⟨fun h => absurd h (by simp [St.init]), ?_⟩
    rintro ⟨⟨op, _, h2, h3⟩, _⟩
    have := ready_pos h2
    simp only [St.init] at h3
    omega
  · intro r k q t m h; cases h
  · intro r k q t op h; exact absurd h (Nat.not_lt_zero _)
  · intro r tag dst _ h; simp [St.init] at h
  · intro b q r _ h; exact absurd h (Nat.not_lt_zero _)

/-- Steps that neither send nor receive, within an operation. -/
theorem Inv.goto (h : Inv prog s) {r : Fin n} {v : Nat} (hv : v ≤ 1)
    (hop : ∀ op, prog[s.pc r]? = some op → (op.ready ≤ v ↔ op.ready ≤ s.sub r) ∨ ∀ q t, ¬ op.has r q t)
    (h2 : ∀ tag dst, prog[s.pc r]? ≠ some (.wild tag dst)) (hc : s.sub r = 1 → v = 1) : Inv prog (s.goto r v) := by
  have hs := sent_goto hop
  refine ⟨?_, h.len, h.sorted, ?_, ?_, h.done, ?_, ?_, ?_, ?_⟩
  · intro q; rw [goto_sub]; split
    · omega
    · exact h.sub2 q
  · intro q b t k; rw [hs]; exact h.mem q b t k
  · intro b k q t m hg; rw [hs]; exact h.got b k q t m hg
  · intro q tag dst h1 h3
    by_cases hq : q = r
    · subst hq; exact absurd h1 (h2 tag dst)
    · rw [goto_sub, if_neg hq] at h3; exact h.wildDone q tag dst h1 h3
  · intro q tag dst h1 h3
    by_cases hq : q = r
    · subst hq; exact absurd h1 (h2 tag dst)
    · rw [goto_sub, if_neg hq] at h3; exact h.wildNot q tag dst h1 h3
  · intro q f h1
    rw [goto_sub]; split
    · exact hv
    · exact h.collSub q f h1
  · intro b q x h1 h3
    rcases h.coll b q x h1 h3 with h4 | h4
    · exact Or.inl h4
    · right
      refine ⟨h4.1, ?_⟩
      rw [goto_sub]
      split
      · rename_i hx; subst hx; exact hc h4.2
      · exact h4.2

/-- The end of an operation. -/
theorem Inv.next (h : Inv prog s) {r : Fin n} {op : Op n} (hop : prog[s.pc r]? = some op) (hr : op.ready ≤ s.sub r)
    (hd : ∀ q t, op.has q r t → s.got r (s.pc r) q t ≠ none)
    (hc : op = .coll true → ∀ q, s.pc r < s.pc q ∨ (s.pc q = s.pc r ∧ s.sub q = 1)) : Inv prog (s.next r) := by
  have hs := sent_next (prog := prog) (s := s) (r := r) fun op' h' => by rw [hop] at h'; cases h'; exact hr
  have hlt : s.pc r < prog.length := by
    by_contra hn
    rw [List.getElem?_eq_none (by omega)] at hop; cases hop
  refine ⟨?_, ?_, h.sorted, ?_, ?_, ?_, ?_, ?_, ?_, ?_⟩
  · intro q; rw [next_sub]; split
    · omega
    · exact h.sub2 q
  · intro q; rw [next_pc]; split
    · omega
    · exact h.len q
  · intro q b t k; rw [hs]; exact h.mem q b t k
  · intro b k q t m hg
    obtain ⟨h1, h2, h3⟩ := h.got b k q t m hg
    refine ⟨h1, (hs _ _ _ _).2 h2, ?_⟩
    rw [next_pc]; split
    · rename_i hb; subst hb; omega
    · exact h3
  · intro b k q t op' hk h1 h2
    show s.got b k q t ≠ none
    rw [next_pc] at hk
    by_cases hb : b = r
    · subst hb
      rw [if_pos rfl] at hk
      by_cases hk' : k = s.pc b
      · subst hk'
        rw [hop] at h1; cases h1
        exact hd q t h2
      · exact h.done b k q t op' (by omega) h1 h2
    · rw [if_neg hb] at hk; exact h.done b k q t op' hk h1 h2
  · intro q tag dst h1 h3
    rw [next_sub] at h3
    rw [next_pc] at h1 ⊢
    by_cases hq : q = r
    · rw [if_pos hq] at h3; omega
    · rw [if_neg hq] at h1 h3 ⊢; exact h.wildDone q tag dst h1 h3
  · intro q tag dst h1 h3 x t
    rw [next_sub] at h3
    rw [next_pc] at h1 ⊢
    by_cases hq : q = r
    · subst hq
      rw [if_pos rfl] at h1 ⊢
      show s.got q (s.pc q + 1) x t = none
      cases hg : s.got q (s.pc q + 1) x t with
      | none => rfl
      | some m => have := (h.got _ _ _ _ _ hg).2.2; omega
    · rw [if_neg hq] at h1 h3 ⊢; exact h.wildNot q tag dst h1 h3 x t
  · intro q f h1
    rw [next_sub]
    rw [next_pc] at h1
    by_cases hq : q = r
    · rw [if_pos hq]; omega
    · rw [if_neg hq] at h1 ⊢; exact h.collSub q f h1
  · intro b q x h1 h3
    rw [next_pc] at h3 ⊢
    rw [next_sub]
    have key : b < s.pc q ∨ (q = r ∧ b = s.pc r) := by
      by_cases hq : q = r
      · subst hq; rw [if_pos rfl] at h3; omega
      · rw [if_neg hq] at h3; exact Or.inl h3
    have key2 : b < s.pc x ∨ (s.pc x = b ∧ s.sub x = 1) := by
      rcases key with hk | ⟨rfl, rfl⟩
      · exact h.coll b q x h1 hk
      · rw [hop] at h1
        cases h1
        rcases hc rfl x with h4 | h4
        · exact Or.inl h4
        · exact Or.inr h4
    by_cases hx : x = r
    · subst hx; rw [if_pos rfl, if_pos rfl]; left; rcases key2 with h4 | h4 <;> omega
    · rw [if_neg hx, if_neg hx]; exact key2

/-- The start of the sends. -/
theorem Inv.push (h : Inv prog s) {r : Fin n} {op : Op n} {v : Nat} (hop : prog[s.pc r]? = some op) (hlt : s.sub r < op.ready) (hv : op.ready ≤ v) (hv2 : v ≤ 2)
    (hw : ∀ tag dst, op = .wild tag dst → v = 1) : Inv prog ((s.push op r).goto r v) := by
  classical
  have hch : ∀ a b t, ((s.push op r).goto r v).chan a b t = if a = r ∧ op.has r b t then s.chan a b t ++ [s.pc r] else s.chan a b t := by
    intro a b t
    show (s.push op r).chan a b t = _
    unfold St.push
    simp only
  have hs : ∀ q b t k, SentMsg prog ((s.push op r).goto r v) q b t k ↔ SentMsg prog s q b t k ∨ (q = r ∧ k = s.pc r ∧ op.has r b t) := by
    intro q b t k
    unfold SentMsg
    rw [goto_sub]
    show (∃ op', prog[k]? = some op' ∧ op'.has q b t ∧ (k < s.pc q ∨ (k = s.pc q ∧ op'.ready ≤ if q = r then v else s.sub q))) ↔ _
    by_cases hq : q = r
    · subst hq
      simp only [if_true, true_and]
      constructor
      · rintro ⟨op', h1, h2, h3 | h3⟩
        · exact Or.inl ⟨op', h1, h2, Or.inl h3⟩
        · rw [h3.1, hop] at h1; cases h1
          exact Or.inr ⟨h3.1, h2⟩
      · rintro (⟨op', h1, h2, h3⟩ | h3)
        · refine ⟨op', h1, h2, ?_⟩
          rcases h3 with h3 | h3
          · exact Or.inl h3
          · right
            refine ⟨h3.1, ?_⟩
            rw [h3.1, hop] at h1; cases h1
            exact hv
        · exact ⟨op, by rw [h3.1]; exact hop, h3.2, Or.inr ⟨h3.1, hv⟩⟩
    · simp [hq]
  have hnew : ∀ b t, op.has r b t → s.got b (s.pc r) r t = none := by
    intro b t hh
    cases hg : s.got b (s.pc r) r t with
    | none => rfl
    | some m =>
      obtain ⟨-, ⟨op', h1, h2, h3⟩, -⟩ := h.got _ _ _ _ _ hg
      rw [hop] at h1; cases h1
      omega
  refine ⟨?_, h.len, ?_, ?_, ?_, h.done, ?_, ?_, ?_, ?_⟩
  · intro q; rw [goto_sub]; split
    · exact hv2
    · exact h.sub2 q
  · intro a b t
    rw [hch]
    split
    · rename_i hab
      rw [List.pairwise_append]
      refine ⟨h.sorted a b t, List.pairwise_singleton _ _, ?_⟩
      intro x hx y hy
      rw [List.mem_singleton.1 hy]
      obtain ⟨⟨op', h1, h2, h3⟩, -⟩ := (h.mem a b t x).1 hx
      rw [hab.1] at h3
      rcases h3 with h3 | h3
      · exact h3
      · rw [h3.1, hop] at h1; cases h1
        omega
    · exact h.sorted a b t
  · intro q b t k
    rw [hch, hs]
    show _ ↔ _ ∧ s.got b k q t = none
    by_cases hq : q = r ∧ op.has r b t
    · obtain ⟨rfl, hh⟩ := hq
      rw [if_pos ⟨rfl, hh⟩, List.mem_append, List.mem_singleton, h.mem]
      constructor
      · rintro (h1 | h1)
        · exact ⟨Or.inl h1.1, h1.2⟩
        · rw [h1]; exact ⟨Or.inr ⟨rfl, rfl, hh⟩, hnew b t hh⟩
      · rintro ⟨h1 | h1, h2⟩
        · exact Or.inl ⟨h1, h2⟩
        · exact Or.inr h1.2.1
    · rw [if_neg hq, h.mem]
      refine and_congr_left fun _ => ?_
      constructor
      · exact Or.inl
      · rintro (h1 | h1)
        · exact h1
        · exact absurd ⟨h1.1, h1.2.2⟩ hq
  · intro b k q t m hg
    obtain ⟨h1, h2, h3⟩ := h.got b k q t m hg
    exact ⟨h1, (hs _ _ _ _).2 (Or.inl h2), h3⟩
  · intro q tag dst h1 h3
    rw [goto_sub] at h3
    by_cases hq : q = r
    · subst hq
      rw [if_pos rfl] at h3
      have h1' : prog[s.pc q]? = some (.wild tag dst) := h1
      rw [hop] at h1'; cases h1'
      have := hw tag dst rfl; omega
    · rw [if_neg hq] at h3; exact h.wildDone q tag dst h1 h3
  · intro q tag dst h1 h3
    rw [goto_sub] at h3
    by_cases hq : q = r
    · subst hq
      have h1' : prog[s.pc q]? = some (.wild tag dst) := h1
      rw [hop] at h1'; cases h1'
      exact h.wildNot q tag dst hop (by simp only [Op.ready] at hlt; omega)
    · rw [if_neg hq] at h3; exact h.wildNot q tag dst h1 h3
  · intro q f h1
    rw [goto_sub]
    by_cases hq : q = r
    · subst hq
      have h1' : prog[s.pc q]? = some (.coll f) := h1
      rw [hop] at h1'; cases h1'
      simp only [Op.ready] at hlt; omega
    · rw [if_neg hq]; exact h.collSub q f h1
  · intro b q x h1 h3
    rcases h.coll b q x h1 h3 with h4 | h4
    · exact Or.inl h4
    · right
      refine ⟨h4.1, ?_⟩
      rw [goto_sub]
      split
      · rename_i hx
        subst hx
        rw [← h4.1, hop] at h1
        cases h1
        simp only [Op.ready] at hlt; omega
      · exact h4.2

theorem take_chan (s : St n) (q r : Fin n) (t m : Nat) (rest : List Nat) (a b : Fin n) (u : Nat) :
    (s.take q r t m rest).chan a b u = if a = q ∧ b = r ∧ u = t then rest else s.chan a b u := by
  unfold St.take; simp only

theorem take_got (s : St n) (q r : Fin n) (t m : Nat) (rest : List Nat) (a : Fin n) (k : Nat) (b : Fin n) (u : Nat) :
    (s.take q r t m rest).got a k b u = if a = r ∧ k = s.pc r ∧ b = q ∧ u = t then some m else s.got a k b u := by
  unfold St.take; simp only

/-- A receive. -/
theorem Inv.take (h : Inv prog s) {q r : Fin n} {t : Nat} {rest : List Nat} {op : Op n} {v : Nat} (hop : prog[s.pc r]? = some op)
    (hc : s.chan q r t = s.pc r :: rest) (hv : v ≤ 2) (hcase : ((∀ tag dst, op ≠ .wild tag dst) ∧ v = s.sub r) ∨
      (∃ tag dst, op = .wild tag dst ∧ tag = t ∧ Function.Injective dst ∧ dst q = r ∧ s.sub r = 1 ∧ v = 2)) : Inv prog ((s.take q r t (s.pc r) rest).goto r v) := by
  obtain ⟨hsent, hnone⟩ := (h.mem q r t (s.pc r)).1 (by rw [hc]; simp)
  have hs : ∀ a b u k, SentMsg prog ((s.take q r t (s.pc r) rest).goto r v) a b u k ↔ SentMsg prog s a b u k := by
    intro a b u k
    refine (sent_goto (s := s.take q r t (s.pc r) rest) ?_ a b u k).trans Iff.rfl
    intro op' h'
    have h'' : prog[s.pc r]? = some op' := h'
    rw [hop] at h''; cases h''
    left
    show op.ready ≤ v ↔ op.ready ≤ s.sub r
    rcases hcase with hh | ⟨tag, dst, rfl, -, -, -, h5, h6⟩
    · rw [hh.2]
    · rw [h5, h6]; simp [Op.ready]
  have hgot : ∀ a k b u, ((s.take q r t (s.pc r) rest).goto r v).got a k b u = if a = r ∧ k = s.pc r ∧ b = q ∧ u = t then some (s.pc r) else s.got a k b u :=
    fun a k b u => take_got s q r t (s.pc r) rest a k b u
  have hch : ∀ a b u, ((s.take q r t (s.pc r) rest).goto r v).chan a b u = if a = q ∧ b = r ∧ u = t then rest else s.chan a b u :=
    fun a b u => take_chan s q r t (s.pc r) rest a b u
  have hsub : ∀ x, ((s.take q r t (s.pc r) rest).goto r v).sub x = if x = r then v else s.sub x := fun x => goto_sub _ r x v
  have hmono : ∀ a k b u, s.got a k b u ≠ none → ((s.take q r t (s.pc r) rest).goto r v).got a k b u ≠ none := by
    intro a k b u hg
    rw [hgot]; split
    · simp
    · exact hg
  refine ⟨?_, h.len, ?_, ?_, ?_, ?_, ?_, ?_, ?_, ?_⟩
  · intro x; rw [hsub]; split
    · exact hv
    · exact h.sub2 x
  · intro a b u
    rw [hch]
    split
    · have := h.sorted q r t
      rw [hc] at this
      exact (List.pairwise_cons.1 this).2
    · exact h.sorted a b u
  · intro a b u k
    rw [hch, hs, hgot]
    by_cases hab : a = q ∧ b = r ∧ u = t
    · obtain ⟨rfl, rfl, rfl⟩ := hab
      rw [if_pos ⟨rfl, rfl, rfl⟩]
      have hp := h.sorted a b u
      have hm := h.mem a b u k
      rw [hc] at hp hm
      by_cases hk : k = s.pc b
      · subst hk
        rw [if_pos ⟨rfl, rfl, rfl, rfl⟩]
        refine ⟨fun hmem => ?_, fun hx => absurd hx.2 (by simp)⟩
        exact absurd ((List.pairwise_cons.1 hp).1 _ hmem) (lt_irrefl _)
      · rw [if_neg (by tauto), ← hm, List.mem_cons]
        exact ⟨Or.inr, fun hx => hx.resolve_left hk⟩
    · rw [if_neg hab, if_neg (by tauto)]
      exact h.mem a b u k
  · intro a k b u m hg
    rw [hs]
    rw [hgot] at hg
    show _ ∧ _ ∧ k ≤ s.pc a
    split at hg
    · rename_i hx
      obtain ⟨rfl, rfl, rfl, rfl⟩ := hx
      cases hg
      exact ⟨rfl, hsent, le_refl _⟩
    · exact h.got a k b u m hg
  · intro a k b u op' hk h1 h2
    exact hmono a k b u (h.done a k b u op' hk h1 h2)
  · intro x tag dst h1 h3 y hy
    rw [hsub] at h3
    by_cases hx : x = r
    · subst hx
      have h1' : prog[s.pc x]? = some (.wild tag dst) := h1
      rw [hop] at h1'; cases h1'
      rcases hcase with hh | ⟨tag', dst', he, rfl, hinj, hd, -⟩
      · exact absurd rfl (hh.1 tag dst)
      · cases he
        have : y = q := hinj (hy.trans hd.symm)
        subst this
        rw [hgot, if_pos ⟨rfl, rfl, rfl, rfl⟩]; simp
    · rw [if_neg hx] at h3
      exact hmono _ _ _ _ (h.wildDone x tag dst h1 h3 y hy)
  · intro x tag dst h1 h3 y u
    rw [hsub] at h3
    by_cases hx : x = r
    · subst hx
      rw [if_pos rfl] at h3
      have h1' : prog[s.pc x]? = some (.wild tag dst) := h1
      rw [hop] at h1'; cases h1'
      rcases hcase with hh | ⟨tag', dst', -, -, -, -, -, h6⟩
      · exact absurd rfl (hh.1 tag dst)
      · omega
    · rw [if_neg hx] at h3
      rw [hgot, if_neg (by tauto)]
      exact h.wildNot x tag dst h1 h3 y u
  · intro x f h1
    rw [hsub]
    by_cases hx : x = r
    · subst hx
      have h1' : prog[s.pc x]? = some (.coll f) := h1
      rw [hop] at h1'; cases h1'
      rcases hcase with hh | ⟨tag', dst', he, -⟩
      · rw [if_pos rfl, hh.2]; exact h.collSub x f hop
      · cases he
    · rw [if_neg hx]; exact h.collSub x f h1
  · intro b y x h1 h3
    rcases h.coll b y x h1 h3 with h4 | h4
    · exact Or.inl h4
    · right
      refine ⟨h4.1, ?_⟩
      rw [hsub]
      split
      · rename_i hx
        subst hx
        rcases hcase with hh | ⟨tag', dst', rfl, -⟩
        · rw [hh.2]; exact h4.2
        · rw [← h4.1, hop] at h1; cases h1
      · exact h4.2

theorem goto_self (s : St n) (r : Fin n) : s.goto r (s.sub r) = s := by
  unfold St.goto
  rw [Function.update_eq_self]

theorem Inv.step (hsep : Separated prog) (hperm : Permuting prog) (h : Inv prog s) (hst : Step prog env s s') : Inv prog s' := by
  cases hst with
  | @post r p M hop h0 =>
    refine h.goto (by omega) ?_ ?_ (fun _ => rfl)
    · intro op h'; rw [hop] at h'; cases h'; left; simp [Op.ready, h0]
    · intro tag dst h'; rw [hop] at h'; cases h'
  | @send r p M hop h0 =>
    exact h.push hop (by simp [Op.ready, h0]) (by simp [Op.ready]) (by omega) (fun _ _ he => by cases he)
  | @deliver r p M q t m rest hop h0 hm hg hc =>
    have := head_eq h hop hm hg hc
    subst this
    have := h.take (v := s.sub r) hop hc (h.sub2 r) (Or.inl ⟨fun _ _ => by simp, rfl⟩)
    rwa [show s.sub r = (s.take q r t (s.pc r) rest).sub r from rfl, goto_self] at this
  | @finish r p M hop h0 hd _ =>
    exact h.next hop (by simp [Op.ready, h0]) hd (fun he => by cases he)
  | @isend r tag dst hop h0 =>
    exact h.push hop (by simp [Op.ready, h0]) (by simp [Op.ready]) (by omega) (fun _ _ _ => rfl)
  | @recvAny r tag dst q m rest hop h0 hc =>
    obtain ⟨rfl, hd⟩ := wild_eq hsep h hop hc
    exact h.take (v := 2) hop hc (le_refl _) (Or.inr ⟨tag, dst, rfl, rfl, (hperm _ tag dst hop).1, hd, h0, rfl⟩)
  | @finishWild r tag dst hop h0 _ =>
    refine h.next hop (by simp [Op.ready, h0]) ?_ (fun he => by cases he)
    rintro q t ⟨hd, rfl⟩
    exact h.wildDone r t dst hop h0 q hd
  | @enter r f hop h0 =>
    refine h.goto (by omega) ?_ ?_ (fun _ => rfl)
    · intro op h'; rw [hop] at h'; cases h'; right; intro q t hh; exact hh.elim
    · intro tag dst h'; rw [hop] at h'; cases h'
  | @leave r f hop h0 _ hf =>
    refine h.next hop (by simp [Op.ready]) (fun q t hh => hh.elim) ?_
    intro he; cases he; exact hf rfl

theorem Inv.reach (hsep : Separated prog) (hperm : Permuting prog) (h : Reach prog env s) : Inv prog s := by
  induction h with
  | init => exact Inv.init
  | step _ hs ih => exact ih.step hsep hperm hs

end Verif.Rounds
