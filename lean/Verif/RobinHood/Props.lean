import Mathlib.Data.Nat.ModEq
import Mathlib.Data.Nat.Prime.Basic
import Mathlib.Data.Finset.Card
import Verif.RobinHood.Refine

/-!
# C96, C97: the hash table is a finite map
-/
namespace Verif.RobinHood

variable {K V : Type} {hash : K → Nat}

theorem rep_new : Rep (Tab.new K V) (fun _ => none) := fun x w =>
  ⟨fun h => absurd h ((Fresh.new K V).not_has x w), fun h => by simp at h⟩

/-- **C96.** Any session on an initially empty table, with any hash function, is a session a finite map could have had,
unless a call throws.  No call reads, writes, constructs or destroys anything outside its lifetime (`Res.ub`). -/
theorem C96_hash_table_is_map [DecidableEq K] (hash : K → Nat) (ops : List (Op K V)) :
    run hash ops (Tab.new K V) = .overflow ∨
    ∃ t outs, run hash ops (Tab.new K V) = .ok (t, outs) ∧ Trace (fun _ => none) ops outs := by
  rcases run_spec (hash := hash) ops _ _ (.inr (Fresh.new K V)) rep_new with ⟨h, _⟩ | ⟨t, outs, h1, h2, _⟩
  · exact .inl h
  · exact .inr ⟨t, outs, h1, h2⟩

/-- **C96.** A session with at most 127 insertions throws nothing, whatever the hash function. -/
theorem C96_small_tables_never_throw [DecidableEq K] (hash : K → Nat) (ops : List (Op K V))
    (h : additions ops ≤ 127) (hr : ModestReserve ops) : run hash ops (Tab.new K V) ≠ .overflow := by
  rcases run_spec (hash := hash) ops _ _ (.inr (Fresh.new K V)) rep_new with ⟨_, h2 | h2⟩ | ⟨t, outs, h1, _⟩
  · exact absurd h2 (by show ¬ 127 < 0 + _; omega)
  · exact absurd hr h2
  · rw [h1]; simp

section
variable {m : K → Option V} {outs : List (Out K V)} {o : Out K V} {k : K} {v : V}

theorem trace_nil [DecidableEq K] : Trace m [] outs ↔ outs = [] := by cases outs <;> simp [Trace]

theorem trace_cons [DecidableEq K] {op : Op K V} {ops : List (Op K V)} :
    Trace m (op :: ops) outs ↔ ∃ o os, outs = o :: os ∧ Reports m op o ∧ Trace (nextMap m op) ops os := by
  cases outs <;> simp [Trace]

theorem reports_insert : Reports m (.insert k v) o ↔ o = .flag (m k).isNone := by cases o <;> simp [Reports]

theorem reports_assign : Reports m (.assign k v) o ↔ o = .flag (m k).isNone := by cases o <;> simp [Reports]

theorem reports_erase : Reports m (.erase k) o ↔ o = .flag (m k).isSome := by cases o <;> simp [Reports]

theorem reports_find : Reports m (.find k) o ↔ o = .value (m k) := by cases o <;> simp [Reports]

end

/-- Keys which collide, an erasure in front of a colliding key and a look-up behind it: the only answers possible. -/
example : ∃ t, run (fun k : Nat => k % 3)
    [.insert 1 10, .insert 4 40, .insert 4 0, .erase 1, .find 4, .find 1, .assign 4 7, .find 4] (Tab.new Nat Nat) =
      .ok (t, [.flag true, .flag true, .flag false, .flag true, .value (some 40), .value none, .flag false,
        .value (some 7)]) := by
  rcases C96_hash_table_is_map (V := Nat) (fun k : Nat => k % 3)
    [.insert 1 10, .insert 4 40, .insert 4 0, .erase 1, .find 4, .find 1, .assign 4 7, .find 4] with h | ⟨t, outs, h, tr⟩
  · exact absurd h (C96_small_tables_never_throw _ _ (by simp [additions]) (by simp [ModestReserve]))
  · refine ⟨t, h.trans ?_⟩
    simp only [trace_cons, trace_nil, reports_insert, reports_assign, reports_erase, reports_find] at tr
    obtain ⟨_, _, rfl, rfl, _, _, rfl, rfl, _, _, rfl, rfl, _, _, rfl, rfl, _, _, rfl, rfl, _, _, rfl, rfl, _, _, rfl, rfl,
      _, _, rfl, rfl, rfl⟩ := tr
    rfl

example : additions ([.insert 1 2, .reserve 100 false, .erase 1, .assign 1 3] : List (Op Nat Nat)) ≤ 127 ∧
    ModestReserve ([.insert 1 2, .reserve 100 false, .erase 1, .assign 1 3] : List (Op Nat Nat)) := by
  simp [additions, ModestReserve]

/-- No table holds 128 keys with one hash value. -/
theorem Ok.few_equal_hashes {t : Tab K V} (o : Ok hash t) (l : List K) (hn : l.Nodup) (c : Nat)
    (hc : ∀ k ∈ l, hash k = c) (hl : ∀ k ∈ l, ∃ v, Has t k v) : l.length ≤ 127 := by
  rcases o with g | f
  · by_contra hcon
    cases l with
    | nil => simp at hcon
    | cons k0 l0 =>
      have hs : ∀ k ∈ k0 :: l0, startIdx hash t k = startIdx hash t k0 ∧ startInfo hash t k = startInfo hash t k0 := by
        intro k hk
        have e : hash k = hash k0 := by rw [hc k hk, hc k0 (by simp)]
        exact ⟨by unfold startIdx; rw [e], by unfold startInfo; rw [e]⟩
      have hpos : ∀ k ∈ k0 :: l0, ∃ i, startIdx hash t k0 ≤ i ∧ i < startIdx hash t k0 + 127 ∧
          ∃ v, t.cells i = .live k v := by
        intro k hk
        obtain ⟨v, i, hi⟩ := hl k hk
        have h1 := g.live_iff.1 ⟨k, v, hi⟩
        obtain ⟨k', v', h2, h3, h4⟩ := g.ent i h1.1 h1.2
        rw [hi] at h2
        cases h2
        rw [(hs k hk).1] at h3
        refine ⟨i, h3, ?_, v, hi⟩
        have h5 := g.byte i h1.1
        have h6 := g.inc2
        unfold need at h4
        rw [(hs k hk).1, (hs k hk).2] at h4
        have h7 : t.inc ≤ startInfo hash t k0 := by unfold startInfo; exact Nat.le_add_right _ _
        by_contra h8
        have h9 : 127 ≤ i - startIdx hash t k0 := by omega
        have h10 : 2 * 127 ≤ t.inc * (i - startIdx hash t k0) := Nat.mul_le_mul h6 h9
        omega
      choose! f hf using hpos
      have hinj : ∀ a ∈ k0 :: l0, ∀ b ∈ k0 :: l0, f a = f b → a = b := by
        intro a ha b hb e
        obtain ⟨_, _, v, h1⟩ := hf a ha
        obtain ⟨_, _, w, h2⟩ := hf b hb
        rw [e, h2] at h1
        cases h1; rfl
      have hnd : ((k0 :: l0).map f).Nodup := by
        rw [List.nodup_map_iff_inj_on hn]; exact hinj
      have hsub : ((k0 :: l0).map f).toFinset ⊆ Finset.Ico (startIdx hash t k0) (startIdx hash t k0 + 127) := by
        intro i hi
        rw [List.mem_toFinset, List.mem_map] at hi
        obtain ⟨k, hk, rfl⟩ := hi
        obtain ⟨h1, h2, _⟩ := hf k hk
        rw [Finset.mem_Ico]; exact ⟨h1, h2⟩
      have hcard := Finset.card_le_card hsub
      rw [List.toFinset_card_of_nodup hnd, List.length_map, Nat.card_Ico] at hcard
      omega
  · cases l with
    | nil => simp
    | cons k l => obtain ⟨v, hv⟩ := hl k (by simp); exact absurd hv (f.not_has k v)

theorem foldl_insert [DecidableEq K] (v : V) : ∀ (l : List K) (m : K → Option V) (k : K),
    ((l.map fun k => Op.insert k v).foldl nextMap m) k = if m k = none ∧ k ∈ l then some v else m k := by
  intro l
  induction l with
  | nil => intro m k; simp
  | cons a l ih =>
    intro m k
    rw [List.map_cons, List.foldl_cons, ih]
    by_cases hk : k = a
    · subst hk
      cases hm : m k <;> simp [nextMap, hm]
    · simp [nextMap, hk]

/-- **C96.** The bound is sharp and a throwing insertion is not limited to huge tables: putting 128 keys with one hash value
into a table always throws. -/
theorem C96_equal_hashes_throw [DecidableEq K] (hash : K → Nat) (l : List K) (hn : l.Nodup) (c : Nat)
    (hc : ∀ k ∈ l, hash k = c) (hl : 128 ≤ l.length) (v : V) :
    run hash (l.map fun k => .insert k v) (Tab.new K V) = .overflow := by
  rcases run_spec (hash := hash) (l.map fun k => Op.insert k v) _ _ (.inr (Fresh.new K V)) rep_new with
    ⟨h, _⟩ | ⟨t, outs, _, _, h3, h4, _⟩
  · exact h
  · have := h3.few_equal_hashes l hn c hc (fun k hk => ⟨v, (h4 k v).2 (by rw [foldl_insert]; simp [hk])⟩)
    omega

example : ((List.range 128).map fun k => 3 * k).Nodup ∧ (∀ k ∈ (List.range 128).map fun k => 3 * k, k % 3 = 0) ∧
    128 ≤ ((List.range 128).map fun k => 3 * k).length := by decide +kernel

/-- A table somebody could hold: the result of a session on an empty table. -/
def Reachable [DecidableEq K] (hash : K → Nat) (t : Tab K V) : Prop :=
  ∃ ops outs, run hash ops (Tab.new K V) = .ok (t, outs)

theorem Reachable.ok [DecidableEq K] {t : Tab K V} (h : Reachable hash t) : Ok hash t := by
  obtain ⟨ops, outs, h⟩ := h
  rcases run_spec (hash := hash) ops _ _ (.inr (Fresh.new K V)) rep_new with ⟨h1, _⟩ | ⟨t', outs', h1, _, h2, _⟩
  · rw [h1] at h; cases h
  · rw [h1] at h; cases h; exact h2

/-- **C96.** `operator==` on two tables, possibly with different histories, bucket counts and hash multipliers, holds
exactly when every key has the same value in both. -/
theorem C96_equality_is_extensional [DecidableEq K] [DecidableEq V] (hash : K → Nat) (t u : Tab K V)
    (ht : Reachable hash t) (hu : Reachable hash u) :
    ∃ b, eqTab hash t u = .ok b ∧ (b = true ↔ ∀ k, find hash t k = find hash u k) := by
  have ot := ht.ok
  have ou := hu.ok
  have hfind : (∀ k, find hash t k = find hash u k) ↔ ∀ k v, Has t k v ↔ Has u k v := by
    constructor
    · intro h k v
      have hk := h k
      rcases ot.find_spec k with ⟨a, h1, h2⟩ | ⟨h1, h2⟩ <;> rcases ou.find_spec k with ⟨b, h3, h4⟩ | ⟨h3, h4⟩ <;>
        rw [h1, h3] at hk
      · cases hk
        exact ⟨fun h => by rw [ot.has_unique h h2]; exact h4, fun h => by rw [ou.has_unique h h4]; exact h2⟩
      · cases hk
      · cases hk
      · exact ⟨fun h => absurd h (h2 v), fun h => absurd h (h4 v)⟩
    · intro h k
      rcases ot.find_spec k with ⟨a, h1, h2⟩ | ⟨h1, h2⟩ <;> rcases ou.find_spec k with ⟨b, h3, h4⟩ | ⟨h3, h4⟩ <;>
        rw [h1, h3]
      · rw [ou.has_unique h4 ((h k a).1 h2)]
      · exact absurd ((h k a).1 h2) (h4 a)
      · exact absurd ((h k b).2 h4) (h2 b)
  rw [hfind]
  obtain ⟨lt, _, t2, t3, t4⟩ := ot.items_spec
  obtain ⟨lu, u1, u2, u3, u4⟩ := ou.items_spec
  have ndt := List.Nodup.of_map _ t3
  have ndu := List.Nodup.of_map _ u3
  unfold eqTab
  by_cases hn : u.num = t.num
  · rw [if_pos hn, u1, Res.bind_ok]
    obtain ⟨b, h1, h2⟩ := ot.allHas_spec lu
    refine ⟨b, h1, ?_⟩
    rw [h2]
    constructor
    · intro h k v
      have hsub : lu ⊆ lt := fun e he => (t2 e.1 e.2).2 (h e he)
      have hperm : lu.Perm lt :=
        (List.subperm_of_subset ndu hsub).perm_of_length_le (by omega)
      rw [← t2, ← u2]
      exact (hperm.mem_iff).symm
    · intro h e he
      exact (h e.1 e.2).2 ((u2 e.1 e.2).1 he)
  · rw [if_neg hn]
    refine ⟨false, rfl, ?_⟩
    simp only [Bool.false_eq_true, false_iff]
    intro h
    have hperm : lu.Perm lt := (List.perm_ext_iff_of_nodup ndu ndt).2 fun e => by
      obtain ⟨k, v⟩ := e
      rw [t2, u2, h]
    exact hn (by rw [← u4, ← t4, hperm.length_eq])

/-- An empty table and one which had memory reserved are equal. -/
example : ∃ t u : Tab Nat Nat, Reachable id t ∧ Reachable id u ∧ t.mask ≠ u.mask ∧ eqTab id t u = .ok true :=
  ⟨Tab.new Nat Nat, initData initialMult 8, ⟨[], [], rfl⟩, ⟨[.reserve 0 true], [.unit], rfl⟩, by decide, rfl⟩

/-! ## C97 -/

theorem xorShift_inj {x y : Nat} (h : x ^^^ (x >>> 33) = y ^^^ (y >>> 33)) : x = y := by
  have e : (x ^^^ y) = (x ^^^ y) >>> 33 := by
    rw [Nat.shiftRight_xor_distrib]
    calc x ^^^ y = (x ^^^ (x >>> 33)) ^^^ (x >>> 33) ^^^ y := by rw [Nat.xor_assoc x, Nat.xor_self, Nat.xor_zero]
      _ = (y ^^^ (y >>> 33)) ^^^ (x >>> 33) ^^^ y := by rw [h]
      _ = (x >>> 33) ^^^ (y >>> 33) := by
        rw [Nat.xor_comm y, Nat.xor_assoc (y >>> 33), Nat.xor_comm y (x >>> 33), ← Nat.xor_assoc,
          Nat.xor_assoc _ y y, Nat.xor_self, Nat.xor_zero, Nat.xor_comm]
  rw [Nat.shiftRight_eq_div_pow] at e
  have : x ^^^ y = 0 := by
    by_contra hz
    have := Nat.div_lt_self (Nat.pos_of_ne_zero hz) (show 1 < 2 ^ 33 by norm_num)
    omega
  exact Nat.xor_eq_zero_iff.1 this

theorem mulOdd_inj {m x y : Nat} (hm : m % 2 = 1) (hx : x < 2 ^ 64) (hy : y < 2 ^ 64)
    (h : x * m % 2 ^ 64 = y * m % 2 ^ 64) : x = y := by
  have hc : Nat.gcd (2 ^ 64) m = 1 :=
    Nat.Coprime.pow_left 64 (Nat.coprime_two_left.2 (Nat.odd_iff.2 hm))
  have := Nat.ModEq.cancel_right_of_coprime hc h
  exact Nat.ModEq.eq_of_lt_of_lt this hx hy

theorem xorShift_lt {x : Nat} (h : x < 2 ^ 64) : x ^^^ (x >>> 33) < 2 ^ 64 :=
  Nat.xor_lt_two_pow h (lt_of_le_of_lt (Nat.shiftRight_le _ _) h)

/-- **C97.** Two different 64-bit integers never get the same 64-bit hash, neither from `hash_int` nor after the mixing with
the table's multiplier; the multiplier in use is the one of any table a session can produce. -/
theorem C97_integer_hash_injective [DecidableEq K] (hash : K → Nat) (t : Tab K V) (ht : Reachable hash t) (x y : Nat)
    (hx : x < 2 ^ 64) (hy : y < 2 ^ 64) (hne : x ≠ y) :
    hashInt x ≠ hashInt y ∧ mix t.mult (hashInt x) ≠ mix t.mult (hashInt y) := by
  have hodd : t.mult % 2 = 1 := by
    rcases ht.ok with g | f
    · exact g.odd
    · exact f.odd
  have hlt : ∀ z, hashInt z < 2 ^ 64 := fun z => xorShift_lt (Nat.mod_lt _ (by norm_num))
  have h1 : hashInt x ≠ hashInt y := fun h =>
    hne (xorShift_inj (mulOdd_inj (by norm_num) (xorShift_lt hx) (xorShift_lt hy) (xorShift_inj h)))
  refine ⟨h1, fun h => h1 ?_⟩
  have h2 := xorShift_inj h
  rw [Nat.mod_eq_of_lt (hlt x), Nat.mod_eq_of_lt (hlt y)] at h2
  exact mulOdd_inj hodd (hlt x) (hlt y) h2

example : Reachable hashInt (Tab.new Nat Nat) ∧ hashInt 1 ≠ hashInt 2 := ⟨⟨[], [], rfl⟩, by decide +kernel⟩

end Verif.RobinHood
