import Mathlib.Data.Fintype.Card
import Mathlib.Algebra.Order.Group.Nat
import Verif.RobinHood.Iter
import Verif.RobinHood.Spec

/-!
# The table refines the reference map
-/
namespace Verif.RobinHood

variable {K V : Type} {hash : K → Nat} {t : Tab K V}

/-- The table `t` stores the map `m`. -/
def Rep (t : Tab K V) (m : K → Option V) : Prop := ∀ x w, Has t x w ↔ m x = some w

theorem Rep.none {m : K → Option V} (r : Rep t m) {x : K} (h : ∀ w, ¬ Has t x w) : m x = none := by
  cases hm : m x with
  | none => rfl
  | some w => exact absurd ((r x w).2 hm) (h w)

theorem setCell_good (g : Good hash t) {i : Nat} {k : K} {u v : V} (h : t.cells i = .live k u) :
    Good hash (setCell t i (.live k v)) ∧
      ∀ x w, Has (setCell t i (.live k v)) x w ↔ (x = k ∧ w = v) ∨ (x ≠ k ∧ Has t x w) := by
  have hc : ∀ j, (setCell t i (.live k v)).cells j = if j = i then (Cell.live k v) else t.cells j := fun _ => rfl
  have hkey : ∀ j x w, (setCell t i (.live k v)).cells j = .live x w → ∃ w', t.cells j = .live x w' := by
    intro j x w hj
    rw [hc] at hj
    by_cases hji : j = i
    · rw [if_pos hji] at hj; cases hj; exact ⟨u, by rw [hji]; exact h⟩
    · rw [if_neg hji] at hj; exact ⟨w, hj⟩
  have hli := g.live_iff.1 ⟨k, u, h⟩
  refine ⟨⟨g.odd, g.mask, g.incShift, g.inc2, g.cap, g.sent, g.pad, ?_, ?_, g.byte, g.slack, g.ord, ?_, g.num, g.numLe,
    g.allowed⟩, ?_⟩
  · intro j hj
    rw [hc]
    by_cases hji : j = i
    · subst hji
      exact absurd hj (by rintro (h1 | h1); · exact absurd hli.1 (not_lt.2 h1)
                          · exact hli.2 h1)
    · rw [if_neg hji]; exact g.dead j hj
  · intro j hj1 hj2
    rw [hc]
    obtain ⟨x, w, h1, h2, h3⟩ := g.ent j hj1 hj2
    by_cases hji : j = i
    · subst hji
      rw [h] at h1
      cases h1
      exact ⟨k, v, by rw [if_pos rfl], h2, h3⟩
    · exact ⟨x, w, by rw [if_neg hji]; exact h1, h2, h3⟩
  · intro a b x w w' ha hb
    obtain ⟨_, ha'⟩ := hkey a x w ha
    obtain ⟨_, hb'⟩ := hkey b x w' hb
    exact g.inj _ _ _ _ _ ha' hb'
  · intro x w
    constructor
    · rintro ⟨j, hj⟩
      rw [hc] at hj
      by_cases hji : j = i
      · rw [if_pos hji] at hj; cases hj; exact .inl ⟨rfl, rfl⟩
      · rw [if_neg hji] at hj
        refine .inr ⟨fun hx => ?_, j, hj⟩
        subst hx
        exact hji (g.inj _ _ _ _ _ hj h)
    · rintro (⟨rfl, rfl⟩ | ⟨hx, j, hj⟩)
      · exact ⟨i, by rw [hc, if_pos rfl]⟩
      · refine ⟨j, ?_⟩
        rw [hc, if_neg (fun hji => ?_)]
        · exact hj
        · rw [hji, h] at hj; cases hj; exact hx rfl

section
variable [DecidableEq K]

theorem Ok.insert_spec (o : Ok hash t) {m : K → Option V} (r : Rep t m) (k : K) (v : V) :
    (insert hash t k v = .overflow ∧ 126 < t.num) ∨
    ∃ t', insert hash t k v = .ok (t', (m k).isNone) ∧ Ok hash t' ∧ Rep t' (nextMap m (.insert k v)) ∧
      t'.num ≤ t.num + 1 := by
  obtain ⟨h, hno⟩ := o.insertLoop_spec k v
  unfold insert
  rcases h with ⟨t', i, w, h1, h2, h3, h4, h5⟩ | ⟨t', i, h1, h2, h3, h4, h5⟩ | ⟨h1, h2⟩
  · right
    have hm : m k = some w := (r k w).1 ((h4 k w).1 ⟨i, h3⟩)
    rw [h1]
    refine ⟨t', by simp [hm], .inl h2, fun x u => ?_, by omega⟩
    rw [h4, r]
    simp [nextMap, hm]
  · right
    have hm : m k = none := r.none h3
    rw [h1]
    refine ⟨t', by simp [hm], .inl h2, fun x u => ?_, by omega⟩
    rw [h4, r]
    simp only [nextMap, hm, and_true]
    by_cases hx : x = k
    · subst hx; simp [hm, eq_comm]
    · simp [hx]
  · left
    refine ⟨by rw [h1]; rfl, ?_⟩
    by_contra hc
    exact hno (by omega) h1

theorem Ok.assign_spec (o : Ok hash t) {m : K → Option V} (r : Rep t m) (k : K) (v : V) :
    (insertOrAssign hash t k v = .overflow ∧ 126 < t.num) ∨
    ∃ t', insertOrAssign hash t k v = .ok (t', (m k).isNone) ∧ Ok hash t' ∧ Rep t' (nextMap m (.assign k v)) ∧
      t'.num ≤ t.num + 1 := by
  obtain ⟨h, hno⟩ := o.insertLoop_spec k v
  unfold insertOrAssign
  rcases h with ⟨t', i, w, h1, h2, h3, h4, h5⟩ | ⟨t', i, h1, h2, h3, h4, h5⟩ | ⟨h1, h2⟩
  · right
    have hm : m k = some w := (r k w).1 ((h4 k w).1 ⟨i, h3⟩)
    rw [h1, Res.bind_ok]
    simp only [if_true, h3]
    obtain ⟨g', hh⟩ := setCell_good h2 h3 (v := v)
    refine ⟨_, by simp [hm], .inl g', fun x u => ?_, by show t'.num ≤ _; omega⟩
    rw [hh, h4, r]
    simp only [nextMap]
    by_cases hx : x = k
    · subst hx; simp [eq_comm]
    · simp [hx]
  · right
    have hm : m k = none := r.none h3
    rw [h1]
    refine ⟨t', by simp [hm], .inl h2, fun x u => ?_, by omega⟩
    rw [h4, r]
    simp only [nextMap]
    by_cases hx : x = k
    · subst hx; simp [hm, eq_comm]
    · simp [hx]
  · left
    refine ⟨by rw [h1]; rfl, ?_⟩
    by_contra hc
    exact hno (by omega) h1

theorem growSize_ok (want : Nat) : ∀ (f n : Nat), 8 ≤ n → want ≤ calcMax (n * 2 ^ f) →
    ∃ m, growSize want (f + 1) n = .ok m := by
  intro f
  induction f with
  | zero =>
    intro n _ h
    rw [pow_zero, Nat.mul_one] at h
    exact ⟨n, by rw [growSize, if_neg (by omega)]⟩
  | succ f ih =>
    intro n hn h
    rw [growSize]
    by_cases h1 : calcMax n < want
    · rw [if_pos h1]
      exact ih (n * 2) (by omega) (by rw [pow_succ] at h; rwa [show n * 2 * 2 ^ f = n * (2 ^ f * 2) by ring])
    · rw [if_neg h1]; exact ⟨n, rfl⟩

theorem growSize_modest {want : Nat} (h : want ≤ 2 ^ 60) : ∃ m, growSize want 61 8 = .ok m :=
  growSize_ok want 60 8 le_rfl (le_trans h (by norm_num [calcMax]))

theorem Ok.step_spec (o : Ok hash t) {m : K → Option V} (r : Rep t m) (op : Op K V) :
    (step hash t op = .overflow ∧ (127 < t.num + additions [op] ∨ ¬ ModestReserve [op])) ∨
    ∃ t' out, step hash t op = .ok (t', out) ∧ Ok hash t' ∧ Rep t' (nextMap m op) ∧ Reports m op out ∧
      t'.num ≤ t.num + additions [op] := by
  cases op with
  | insert k v =>
    rcases o.insert_spec r k v with ⟨h1, h2⟩ | ⟨t', h1, h2, h3, h4⟩
    · exact .inl ⟨by rw [step, h1]; rfl, .inl (by simp only [additions]; omega)⟩
    · exact .inr ⟨t', .flag (m k).isNone, by rw [step, h1, Res.bind_ok], h2, h3, rfl, h4⟩
  | assign k v =>
    rcases o.assign_spec r k v with ⟨h1, h2⟩ | ⟨t', h1, h2, h3, h4⟩
    · exact .inl ⟨by rw [step, h1]; rfl, .inl (by simp only [additions]; omega)⟩
    · exact .inr ⟨t', .flag (m k).isNone, by rw [step, h1, Res.bind_ok], h2, h3, rfl, h4⟩
  | erase k =>
    right
    rcases o with g | f
    · rcases g.erase_spec k with ⟨t', v, h1, h2, h3, h4, h5⟩ | ⟨h1, h2⟩
      · refine ⟨t', _, by rw [step, h1, Res.bind_ok], .inl h3, fun x u => ?_, ?_, by omega⟩
        · rw [h4, r]
          by_cases hx : x = k <;> simp [nextMap, hx]
        · simp [Reports, (r k v).1 h2]
      · have hm : m k = none := r.none h2
        refine ⟨t, _, by rw [step, h1, Res.bind_ok], .inl g, fun x u => ?_, ?_, by omega⟩
        · rw [r]
          by_cases hx : x = k <;> simp [nextMap, hx, hm]
        · simp [Reports, hm]
    · have hm : m k = none := r.none (f.not_has k)
      refine ⟨t, _, by rw [step, (f.find_eq k).2, Res.bind_ok], .inr f, fun x u => ?_, ?_, by omega⟩
      · rw [r]
        by_cases hx : x = k <;> simp [nextMap, hx, hm]
      · simp [Reports, hm]
  | find k =>
    right
    rcases o.find_spec k with ⟨v, h1, h2⟩ | ⟨h1, h2⟩
    · exact ⟨t, .value (some v), by rw [step, h1, Res.bind_ok], o, r, ((r k v).1 h2).symm, by omega⟩
    · exact ⟨t, .value none, by rw [step, h1, Res.bind_ok], o, r, (r.none h2).symm, by omega⟩
  | clear =>
    right
    obtain ⟨h1, h2, h3⟩ := o.clear_spec
    refine ⟨_, _, rfl, h1, fun x u => ?_, trivial, by rw [h3]; omega⟩
    exact ⟨fun h => absurd h (h2 x u), fun h => by simp [nextMap] at h⟩
  | reserve c b =>
    rw [step, reserve]
    cases h : growSize (max c t.num) 61 8 with
    | ub => exact absurd h (growSize_ne_ub _ _ _)
    | overflow =>
      left
      refine ⟨rfl, ?_⟩
      by_contra hc
      push Not at hc
      obtain ⟨h1, h2, _⟩ := hc
      simp only [additions] at h1
      obtain ⟨n, hn⟩ := growSize_modest (want := max c t.num) (by
        have : (127 : Nat) ≤ 2 ^ 60 := by norm_num
        exact max_le h2 (le_trans h1 this))
      rw [hn] at h; cases h
    | ok n =>
      obtain ⟨h1, h2⟩ := growSize_spec _ _ _ _ le_rfl h
      rw [Res.bind_ok]
      split
      · rcases o.rehash_spec h1 (by omega) with ⟨h3, h4⟩ | ⟨t', h3, h4, h5, h6⟩
        · rw [h3]; exact .inl ⟨rfl, .inl (by omega)⟩
        · rw [h3, Res.bind_ok]
          exact .inr ⟨t', _, rfl, h4, fun x u => by rw [h5, r]; rfl, trivial, by omega⟩
      · exact .inr ⟨t, _, rfl, o, r, trivial, by omega⟩
  | compact =>
    rw [step, compact]
    cases h : growSize t.num 61 8 with
    | ub => exact absurd h (growSize_ne_ub _ _ _)
    | overflow =>
      left
      refine ⟨rfl, .inl ?_⟩
      by_contra hc
      simp only [additions] at hc
      obtain ⟨n, hn⟩ := growSize_modest (want := t.num) (by
        have : (127 : Nat) ≤ 2 ^ 60 := by norm_num
        exact le_trans (by omega) this)
      rw [hn] at h; cases h
    | ok n =>
      obtain ⟨h1, h2⟩ := growSize_spec _ _ _ _ le_rfl h
      rw [Res.bind_ok]
      split
      · rcases o.rehash_spec h1 h2 with ⟨h3, h4⟩ | ⟨t', h3, h4, h5, h6⟩
        · rw [h3]; exact .inl ⟨rfl, .inl (by omega)⟩
        · rw [h3, Res.bind_ok]
          exact .inr ⟨t', _, rfl, h4, fun x u => by rw [h5, r]; rfl, trivial, by omega⟩
      · exact .inr ⟨t, _, rfl, o, r, trivial, by omega⟩
  | size =>
    right
    obtain ⟨l, _, h2, h3, h4⟩ := o.items_spec
    refine ⟨t, _, rfl, o, r, ⟨l.map Prod.fst, h3, fun k => ?_, by simpa using h4⟩, by omega⟩
    rw [List.mem_map]
    constructor
    · rintro ⟨⟨x, w⟩, hx, rfl⟩
      rw [(r x w).1 ((h2 x w).1 hx)]; simp
    · intro hk
      cases hm : m k with
      | none => exact absurd hm hk
      | some w => exact ⟨(k, w), (h2 k w).2 ((r k w).2 hm), rfl⟩
  | items =>
    right
    obtain ⟨l, h1, h2, h3, _⟩ := o.items_spec
    exact ⟨t, .list l, by rw [step, h1, Res.bind_ok], o, r, ⟨h3, fun k v => by rw [h2, r]⟩, by omega⟩

omit [DecidableEq K] in
theorem additions_cons (op : Op K V) (ops : List (Op K V)) :
    additions (op :: ops) = additions [op] + additions ops := by
  cases op <;> simp [additions, Nat.add_comm]

omit [DecidableEq K] in
theorem modest_cons (op : Op K V) (ops : List (Op K V)) :
    ModestReserve (op :: ops) ↔ ModestReserve [op] ∧ ModestReserve ops := by
  cases op <;> simp [ModestReserve]

theorem run_spec : ∀ (ops : List (Op K V)) (t : Tab K V) (m : K → Option V), Ok hash t → Rep t m →
    (run hash ops t = .overflow ∧ (127 < t.num + additions ops ∨ ¬ ModestReserve ops)) ∨
    ∃ t' outs, run hash ops t = .ok (t', outs) ∧ Trace m ops outs ∧ Ok hash t' ∧ Rep t' (ops.foldl nextMap m) ∧
      t'.num ≤ t.num + additions ops := by
  intro ops
  induction ops with
  | nil => intro t m o r; exact .inr ⟨t, [], rfl, trivial, o, r, by omega⟩
  | cons op ops ih =>
    intro t m o r
    have ha := additions_cons op ops
    have hmod := modest_cons op ops
    rcases o.step_spec r op with ⟨h1, h2⟩ | ⟨t', out, h1, h2, h3, h4, h5⟩
    · left
      refine ⟨by rw [run, h1]; rfl, ?_⟩
      rcases h2 with h2 | h2
      · exact .inl (by omega)
      · exact .inr (fun h => h2 (hmod.1 h).1)
    · rw [run, h1, Res.bind_ok]
      rcases ih t' _ h2 h3 with ⟨k1, k2⟩ | ⟨t'', outs, k1, k2, k3, k4, k5⟩
      · left
        refine ⟨by rw [k1]; rfl, ?_⟩
        rcases k2 with k2 | k2
        · exact .inl (by omega)
        · exact .inr (fun h => k2 (hmod.1 h).2)
      · right
        exact ⟨t'', out :: outs, by rw [k1]; rfl, ⟨h4, k2⟩, k3, k4, by omega⟩

end
end Verif.RobinHood
