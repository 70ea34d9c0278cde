import Verif.RobinHood.Ops

/-!
# Iteration and comparison
-/
namespace Verif.RobinHood

variable {K V : Type} {hash : K → Nat} {t : Tab K V}

theorem Good.fastForward_spec (g : Good hash t) : ∀ (f i : Nat), i ≤ t.cap → t.cap < f * 8 + i → 0 < f →
    ∃ j, fastForward t f i = .ok j ∧ i ≤ j ∧ j ≤ t.cap ∧ t.info j ≠ 0 ∧ ∀ k, i ≤ k → k < j → t.info k = 0 := by
  intro f
  induction f with
  | zero => intro i _ _ h; omega
  | succ f ih =>
    intro i hi hf _
    rw [fastForward, load8, if_pos (by omega), Res.bind_ok]
    by_cases h : bytesAt t.info i 8 = 0
    · rw [if_pos h]
      have hz := (bytesAt_eq_zero t.info 8 i).1 h
      have hcap : i + 8 ≤ t.cap := by
        by_contra hc
        have := hz (t.cap - i) (by omega)
        rw [show i + (t.cap - i) = t.cap by omega, g.sent] at this
        omega
      obtain ⟨j, h1, h2, h3, h4, h5⟩ := ih (i + 8) hcap (by omega) (by
        rcases Nat.eq_zero_or_pos f with h0 | h0
        · subst h0; omega
        · exact h0)
      refine ⟨j, h1, by omega, h3, h4, fun k hk1 hk2 => ?_⟩
      by_cases hk : k < i + 8
      · have := hz (k - i) (by omega)
        rwa [show i + (k - i) = k by omega] at this
      · exact h5 k (by omega) hk2
    · rw [if_neg h]
      obtain ⟨h1, h2, h3⟩ := ctz_bytes t.info g.byte_all i h
      refine ⟨_, rfl, by omega, ?_, h2, fun k hk1 hk2 => ?_⟩
      · by_contra hc
        have := h3 (t.cap - i) (by omega)
        rw [show i + (t.cap - i) = t.cap by omega, g.sent] at this
        omega
      · have := h3 (k - i) (by omega)
        rwa [show i + (k - i) = k by omega] at this

/-- What a traversal from slot `i` on must deliver. -/
structure ListsFrom (t : Tab K V) (i : Nat) (l : List (K × V)) : Prop where
  mem : ∀ x w, (x, w) ∈ l ↔ ∃ j, i ≤ j ∧ t.cells j = .live x w
  nodup : (l.map Prod.fst).Nodup
  len : l.length + (occTo t i).card = (occ t).card

theorem Good.iterFrom_spec (g : Good hash t) : ∀ (f i : Nat), i ≤ t.cap → t.cap < f + i → t.info i ≠ 0 →
    ∃ l, iterFrom t f i = .ok l ∧ ListsFrom t i l := by
  intro f
  induction f with
  | zero => intro i hi h; omega
  | succ f ih =>
    intro i hi hf hne
    rw [iterFrom]
    by_cases h : i = t.cap
    · rw [if_pos h]
      refine ⟨[], rfl, fun x w => ?_, by simp, by rw [h, occTo_cap]; simp⟩
      constructor
      · intro h; simp at h
      · rintro ⟨j, hj1, hj2⟩
        have := g.live_lt hj2
        omega
    · rw [if_neg h]
      obtain ⟨k, v, hk⟩ := g.live_iff.2 ⟨show i < t.cap by omega, hne⟩
      rw [hk]
      obtain ⟨j, h1, h2, h3, h4, h5⟩ := g.fastForward_spec (t.cap + 9) (i + 1) (by omega) (by omega) (by omega)
      obtain ⟨l, h6, h7⟩ := ih j h3 (by omega) h4
      simp only [h1, Res.bind_ok, h6]
      have hgap : ∀ m x w, i < m → m < j → t.cells m ≠ .live x w := by
        intro m x w hm1 hm2 hm3
        exact (g.live_iff.1 ⟨x, w, hm3⟩).2 (h5 m (by omega) hm2)
      have hocc : ∀ d, i + 1 + d ≤ j → (occTo t (i + 1 + d)).card = (occTo t i).card + 1 := by
        intro d
        induction d with
        | zero => intro _; rw [Nat.add_zero, occTo_succ, if_pos ⟨by omega, hne⟩]
        | succ d ihd =>
          intro hd
          rw [show i + 1 + (d + 1) = i + 1 + d + 1 by omega, occTo_succ, ihd (by omega),
            if_neg (fun h => h.2 (h5 _ (by omega) (by omega)))]
      have hj := hocc (j - (i + 1)) (by omega)
      rw [show i + 1 + (j - (i + 1)) = j by omega] at hj
      refine ⟨(k, v) :: l, rfl, fun x w => ?_, ?_, ?_⟩
      · rw [List.mem_cons, h7.mem]
        constructor
        · rintro (he | ⟨m, hm1, hm2⟩)
          · cases he; exact ⟨i, le_rfl, hk⟩
          · exact ⟨m, by omega, hm2⟩
        · rintro ⟨m, hm1, hm2⟩
          by_cases hmi : m = i
          · rw [hmi, hk] at hm2; cases hm2; exact .inl rfl
          · by_cases hmj : m < j
            · exact absurd hm2 (hgap m x w (by omega) hmj)
            · exact .inr ⟨m, by omega, hm2⟩
      · rw [List.map_cons, List.nodup_cons]
        refine ⟨fun hmem => ?_, h7.nodup⟩
        rw [List.mem_map] at hmem
        obtain ⟨⟨x, w⟩, hx, hxk⟩ := hmem
        simp only at hxk
        subst hxk
        obtain ⟨m, hm1, hm2⟩ := (h7.mem _ _).1 hx
        have := g.inj _ _ _ _ _ hm2 hk
        omega
      · have := h7.len
        rw [List.length_cons]; omega

theorem Ok.items_spec (o : Ok hash t) :
    ∃ l, items t = .ok l ∧ (∀ x w, (x, w) ∈ l ↔ Has t x w) ∧ (l.map Prod.fst).Nodup ∧ l.length = t.num := by
  rcases o with g | f
  · by_cases h : t.num = 0
    · rw [items, if_pos h]
      refine ⟨[], rfl, fun x w => ⟨fun h => by simp at h, ?_⟩, by simp, by rw [h]; rfl⟩
      rintro ⟨i, hi⟩
      have h2 := g.num
      rw [h] at h2
      have h3 := Finset.card_eq_zero.1 h2.symm
      have : i ∈ occ t := by
        rw [occ, Finset.mem_filter, Finset.mem_range]; exact g.live_iff.1 ⟨x, w, hi⟩
      rw [h3] at this
      simp at this
    · rw [items, if_neg h]
      obtain ⟨j, h1, h2, h3, h4, h5⟩ := g.fastForward_spec (t.cap + 9) 0 (by omega) (by omega) (by omega)
      obtain ⟨l, h6, h7⟩ := g.iterFrom_spec (t.cap + 9) j h3 (by omega) h4
      rw [h1, Res.bind_ok, h6]
      refine ⟨l, rfl, fun x w => ?_, h7.nodup, ?_⟩
      · rw [h7.mem]
        constructor
        · rintro ⟨m, _, hm⟩; exact ⟨m, hm⟩
        · rintro ⟨m, hm⟩
          refine ⟨m, ?_, hm⟩
          by_contra hc
          exact (g.live_iff.1 ⟨x, w, hm⟩).2 (h5 m (by omega) (by omega))
      · have h8 := h7.len
        have : (occTo t j).card = 0 := by
          rw [Finset.card_eq_zero, Finset.eq_empty_iff_forall_notMem]
          intro m hm
          rw [occTo, Finset.mem_filter, Finset.mem_range] at hm
          exact hm.2.2 (h5 m (by omega) hm.1)
        rw [g.num]; omega
  · rw [items, if_pos f.num]
    exact ⟨[], rfl, fun x w => ⟨fun h => by simp at h, fun h => absurd h (f.not_has x w)⟩, by simp, by
      rw [f.num]; rfl⟩

theorem Ok.has_unique (o : Ok hash t) {x : K} {v w : V} (h1 : Has t x v) (h2 : Has t x w) : v = w := by
  rcases o with g | f
  · obtain ⟨i, hi⟩ := h1
    obtain ⟨j, hj⟩ := h2
    have := g.inj _ _ _ _ _ hi hj
    subst this
    rw [hi] at hj
    cases hj; rfl
  · exact absurd h1 (f.not_has x v)

theorem Ok.find_spec [DecidableEq K] (o : Ok hash t) (k : K) :
    (∃ v, find hash t k = .ok (some v) ∧ Has t k v) ∨ (find hash t k = .ok none ∧ ∀ v, ¬ Has t k v) := by
  rcases o with g | f
  · exact g.find_spec k
  · exact .inr ⟨(f.find_eq k).1, f.not_has k⟩

theorem Ok.allHas_spec [DecidableEq K] [DecidableEq V] (o : Ok hash t) : ∀ l : List (K × V),
    ∃ b, allHas hash t l = .ok b ∧ (b = true ↔ ∀ e ∈ l, Has t e.1 e.2) := by
  intro l
  induction l with
  | nil => exact ⟨true, rfl, by simp⟩
  | cons e l ih =>
    obtain ⟨b, h1, h2⟩ := ih
    rw [allHas]
    rcases o.find_spec e.1 with ⟨v, h3, h4⟩ | ⟨h3, h4⟩
    · rw [h3, Res.bind_ok]
      by_cases hv : v = e.2
      · rw [if_pos (by rw [hv])]
        refine ⟨b, h1, ?_⟩
        rw [h2, List.forall_mem_cons]
        exact ⟨fun h => ⟨hv ▸ h4, h⟩, fun h => h.2⟩
      · rw [if_neg (by simpa using hv)]
        refine ⟨false, rfl, ?_⟩
        rw [List.forall_mem_cons]
        exact ⟨fun h => by simp at h, fun h => absurd (o.has_unique h4 h.1) hv⟩
    · rw [h3, Res.bind_ok, if_neg (by simp)]
      refine ⟨false, rfl, ?_⟩
      rw [List.forall_mem_cons]
      exact ⟨fun h => by simp at h, fun h => absurd h.1 (h4 _)⟩

end Verif.RobinHood
