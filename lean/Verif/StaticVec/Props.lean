import Verif.StaticVec.Spec

/-! # Property C13: StaticVector; C80: element life times -/
namespace Verif.StaticVec

theorem moveRange_spec {α} (d : List α) (i j : Nat) (hij : i ≤ j) (n : Nat) (hn : j + n ≤ d.length) :
    (moveRange d i j n).length = d.length ∧
    ∀ p : Nat, (moveRange d i j n)[p]? = if i ≤ p ∧ p < i + n then d[p + (j - i)]? else d[p]? := by
  induction n with
  | zero =>
    refine ⟨rfl, fun p => ?_⟩
    rw [if_neg (by omega)]; rfl
  | succ n ih =>
    obtain ⟨hl, hp⟩ := ih (by omega)
    have e : moveRange d i j (n + 1) = (moveRange d i j n).set (i + n) (d[j + n]'(by omega)) := by
      unfold moveRange at hp ⊢
      rw [List.range_succ, List.foldl_append]
      simp only [List.foldl_cons, List.foldl_nil]
      rw [hp, if_neg (by omega), List.getElem?_eq_getElem (by omega)]
    rw [e]
    refine ⟨by rw [List.length_set, hl], fun p => ?_⟩
    rw [List.getElem?_set, hl, hp]
    by_cases h : i + n = p
    · subst h
      rw [if_pos rfl, if_pos (by omega), if_pos (by omega), show i + n + (j - i) = j + n by omega,
        List.getElem?_eq_getElem (by omega)]
    · rw [if_neg h]
      by_cases h2 : i ≤ p ∧ p < i + n
      · rw [if_pos h2, if_pos (by omega)]
      · rw [if_neg h2, if_neg (by omega)]

theorem fillRange_spec {α} (d : List α) (lo : Nat) (x : α) (n : Nat) (hn : lo + n ≤ d.length) :
    (fillRange d lo (lo + n) x).length = d.length ∧
    ∀ p : Nat, (fillRange d lo (lo + n) x)[p]? = if lo ≤ p ∧ p < lo + n then some x else d[p]? := by
  induction n with
  | zero =>
    refine ⟨by simp [fillRange], fun p => ?_⟩
    rw [if_neg (by omega)]; simp [fillRange]
  | succ n ih =>
    obtain ⟨hl, hp⟩ := ih (by omega)
    have e : fillRange d lo (lo + (n + 1)) x = (fillRange d lo (lo + n) x).set (lo + n) x := by
      unfold fillRange
      rw [show lo + (n + 1) - lo = n + 1 by omega, show lo + n - lo = n by omega, List.range_succ,
        List.foldl_append]
      rfl
    rw [e]
    refine ⟨by rw [List.length_set, hl], fun p => ?_⟩
    rw [List.getElem?_set, hl, hp]
    by_cases h : lo + n = p
    · subst h; rw [if_pos rfl, if_pos (by omega), if_pos (by omega)]
    · rw [if_neg h]
      by_cases h2 : lo ≤ p ∧ p < lo + n
      · rw [if_pos h2, if_pos (by omega)]
      · rw [if_neg h2, if_neg (by omega)]

/-- The vector `v` of capacity `cap` represents the list `l`. -/
structure Holds {α} (cap : Nat) (v : SV α) (l : List α) : Prop where
  capEq : v.data.length = cap
  fits : v.size ≤ cap
  content : v.content = l

theorem Holds.len {α} {cap : Nat} {v : SV α} {l : List α} (h : Holds cap v l) : l.length = v.size := by
  rw [← h.content, SV.content, List.length_take, h.capEq]
  have := h.fits; omega

theorem take_eq_iff {α} (d l : List α) (n : Nat) (hn : n ≤ d.length) (hl : l.length = n)
    (h : ∀ p < n, d[p]? = l[p]?) : d.take n = l := by
  apply List.ext_getElem?
  intro p
  rw [List.getElem?_take]
  split
  · exact h p ‹_›
  · rw [List.getElem?_eq_none (by omega)]

theorem Holds.get {α} {cap : Nat} {v : SV α} {l : List α} (h : Holds cap v l) {p : Nat} (hp : p < v.size) :
    v.data[p]? = l[p]? := by
  rw [← h.content, SV.content, List.getElem?_take, if_pos hp]

theorem Holds.erase {α} {cap : Nat} {v : SV α} {l : List α} (h : Holds cap v l) {i j : Nat}
    (hij : i ≤ j) (hj : j ≤ v.size) :
    Holds cap ⟨moveRange v.data i j (v.size - j), v.size - (j - i)⟩ (l.take i ++ l.drop j) := by
  have hf := h.fits
  have hc := h.capEq
  have hl := h.len
  obtain ⟨hlen, hget⟩ := moveRange_spec v.data i j hij (v.size - j) (by omega)
  refine ⟨by rw [hlen, hc], by simp only []; omega, ?_⟩
  simp only [SV.content]
  apply take_eq_iff
  · rw [hlen]; omega
  · rw [List.length_append, List.length_take, List.length_drop]; omega
  · intro p hp
    simp only [hget]
    rw [List.getElem?_append, List.length_take]
    by_cases hpi : p < i
    · rw [if_neg (by omega), if_pos (by omega), List.getElem?_take, if_pos hpi, h.get (by omega)]
    · rw [if_pos (by omega), if_neg (by omega), List.getElem?_drop, h.get (by omega)]
      congr 1; omega

/-- One step of a valid operation: the outcome is `threw` exactly if the specification says
failure, undefined behaviour does not occur, and the new content is the specified one. -/
theorem Holds.step {α} {cap : Nat} {v : SV α} {l : List α} (h : Holds cap v l) (op : Op α)
    (hp : op.Pre cap l.length) :
    match op.spec cap l with
    | some l' => ∃ v' r, v.step op = .ok v' r ∧ Holds cap v' l'
    | none => v.step op = .threw := by
  have hf := h.fits
  have hc := h.capEq
  have hl := h.len
  cases op with
  | push x =>
    simp only [Op.spec, SV.step, SV.push]
    by_cases hs : l.length < cap
    · rw [if_pos hs, if_pos (by omega)]
      refine ⟨_, _, rfl, by simp [hc], by simp only []; omega, ?_⟩
      simp only [SV.content]
      apply take_eq_iff
      · rw [List.length_set]; omega
      · simp [hl]
      · intro p hp
        rw [List.getElem?_set, List.getElem?_append]
        by_cases hpe : v.size = p
        · rw [if_pos hpe, if_pos (by omega), if_neg (by omega)]
          simp [show p - l.length = 0 by omega]
        · rw [if_neg hpe, if_pos (by omega), h.get (by omega)]
    · rw [if_neg hs, if_neg (by omega)]
  | pop =>
    simp only [Op.Pre] at hp
    simp only [Op.spec, SV.step, SV.pop]
    rw [if_neg (by omega)]
    refine ⟨_, _, rfl, hc, by simp only []; omega, ?_⟩
    simp only [SV.content]
    apply take_eq_iff
    · omega
    · rw [List.length_dropLast]; omega
    · intro p hp
      rw [List.getElem?_dropLast, if_pos (by omega), h.get (by omega)]
  | erase i j =>
    simp only [Op.Pre] at hp
    simp only [Op.spec, SV.step, SV.erase]
    rw [if_pos (by omega)]
    exact ⟨_, _, rfl, h.erase hp.1 (by omega)⟩
  | resize n x =>
    simp only [Op.Pre] at hp
    simp only [Op.spec, SV.step, SV.resize]
    by_cases hn : n ≤ v.size
    · rw [if_pos hn]
      simp only [SV.erase]
      rw [if_pos (by omega)]
      refine ⟨_, _, rfl, ?_⟩
      have := h.erase hn (Nat.le_refl _)
      rw [show l.drop v.size = [] by rw [List.drop_eq_nil_iff]; omega] at this
      rw [show n - l.length = 0 by omega]
      exact this
    · rw [if_neg hn, if_pos (by omega)]
      refine ⟨_, _, rfl, ?_⟩
      obtain ⟨k, rfl⟩ : ∃ k, n = v.size + k := ⟨n - v.size, by omega⟩
      obtain ⟨hlen, hget⟩ := fillRange_spec v.data v.size x k (by omega)
      refine ⟨by rw [hlen, hc], by simp only []; omega, ?_⟩
      simp only [SV.content]
      apply take_eq_iff
      · rw [hlen]; omega
      · simp [hl]
      · intro p hp
        simp only [hget]
        rw [List.getElem?_append, List.length_take]
        by_cases hpi : p < v.size
        · rw [if_neg (by omega), if_pos (by omega), List.getElem?_take, if_pos (by omega), h.get hpi]
        · rw [if_pos (by omega), if_neg (by omega), List.getElem?_replicate, if_pos (by omega)]

/-- The full statement of **C13**: for each operation meeting its preconditions the content and
the result of `erase` are as for a list (position of the element after the removed ones). -/
def C13Statement : Prop :=
  ∀ (α : Type) (cap : Nat) (v : SV α) (l : List α) (i j : Nat), Holds cap v l → i ≤ j → j ≤ l.length →
    ∃ v', v.erase i j = .ok v' i ∧ Holds cap v' (l.take i ++ l.drop j)

/-- **C13** for contents and errors: any history of operations meeting their preconditions has
the effect of the list operations; a push on a full vector throws and changes nothing, and no
undefined behaviour occurs.  Missing for the full statement: the position returned by `erase`
(`C13_erase_result_violated`). -/
theorem C13_refines_list_partial {α} (d : List α) (ops : List (Op α)) (hp : PreAll d.length [] ops) :
    ∃ v, (SV.new d).run ops = some (v, (specRun d.length [] ops).2) ∧
      v.content = (specRun d.length [] ops).1 ∧ v.size = (specRun d.length [] ops).1.length := by
  suffices H : ∀ (ops : List (Op α)) (v : SV α) (l : List α), Holds d.length v l → PreAll d.length l ops →
      ∃ v', v.run ops = some (v', (specRun d.length l ops).2) ∧ Holds d.length v' (specRun d.length l ops).1 by
    obtain ⟨v, e, h⟩ := H ops (SV.new d) [] ⟨rfl, Nat.zero_le _, by simp [SV.content, SV.new]⟩ hp
    exact ⟨v, e, h.content, h.len.symm⟩
  intro ops
  induction ops with
  | nil => intro v l h _; exact ⟨v, rfl, h⟩
  | cons op ops ih =>
    intro v l h hpre
    have hs := h.step op hpre.1
    have hrest := hpre.2
    simp only [SV.run, specRun]
    cases hop : op.spec d.length l with
    | some l' =>
      rw [hop] at hs hrest
      obtain ⟨v', r, e, hr⟩ := hs
      rw [e]
      exact ih v' l' hr hrest
    | none =>
      rw [hop] at hs hrest
      simp only at hs
      rw [hs]
      obtain ⟨v', e, hr⟩ := ih v l h hrest
      exact ⟨v', by simp only [e, Option.map_some], hr⟩

example : PreAll 3 [] [Op.push 1, .push 2, .push 3, .push 4, .erase 0 1, .resize 3 9, .pop] := by
  simp [PreAll, Op.Pre, Op.spec]

/-- **C13**: what `erase` does return: the old position `last`, and the removed elements are
gone. -/
theorem C13_erase_content {α} {cap : Nat} {v : SV α} {l : List α} (h : Holds cap v l) (i j : Nat)
    (hij : i ≤ j) (hj : j ≤ l.length) :
    ∃ v', v.erase i j = .ok v' j ∧ v'.content = l.take i ++ l.drop j := by
  rw [h.len] at hj
  exact ⟨_, if_pos ⟨hij, hj⟩, (h.erase hij hj).content⟩

example : Holds 4 ⟨[1, 2, 3, 0], 3⟩ [1, 2, 3] := ⟨rfl, by decide, rfl⟩

/-- **C13** is false of the code: `erase` returns the old `last`, not the position following the
removed elements; erasing the only element even returns a pointer beyond the new end. -/
theorem C13_erase_result_violated : ¬ C13Statement := by
  intro h
  obtain ⟨v', e, _⟩ := h Nat 1 ⟨[7], 1⟩ [7] 0 1 ⟨rfl, by decide, rfl⟩ (by decide) (by decide)
  have : (⟨[7], 1⟩ : SV Nat).erase 0 1 = .ok ⟨[7], 0⟩ 1 := by decide
  rw [this] at e
  injection e with _ e2
  exact absurd e2 (by decide)

/-- **C13**: the unchecked constructor from a sized range is safe exactly for ranges that fit. -/
theorem C13_sized_ctor {α} (d l : List α) :
    (l.length ≤ d.length → ∃ v, SV.ofSized d l = .ok v () ∧ v.content = l) ∧
    (d.length < l.length → SV.ofSized d l = .ub) := by
  constructor
  · intro h
    refine ⟨_, if_pos h, ?_⟩
    simp [SV.content]
  · intro h; exact if_neg (by omega)

example : SV.ofSized [0, 0] [1, 2, 3] = .ub := by decide

/-- The full statement of **C80** (restricted to pushes and pops within range): no element is
assigned to or destroyed outside its life time. -/
def C80Statement : Prop :=
  ∀ (cap : Nat) (ops : List Bool), (∀ k ≤ ops.length, (ops.take k).count false ≤ (ops.take k).count true) →
    Life.badRun cap ops = false

theorem Life.finish_ok (l : Life) (h : ∀ b ∈ l.alive, b = true) (hb : l.bad = false) :
    l.finish.bad = false := by
  suffices H : ∀ n ≤ l.alive.length, ((List.range n).foldl Life.kill l).bad = false ∧
      ((List.range n).foldl Life.kill l).alive.length = l.alive.length ∧
      ∀ p, n ≤ p → ((List.range n).foldl Life.kill l).alive[p]? = l.alive[p]? from
    (H _ (Nat.le_refl _)).1
  intro n
  induction n with
  | zero => intro _; exact ⟨hb, rfl, fun _ _ => rfl⟩
  | succ n ih =>
    intro hn
    obtain ⟨h1, h2, h3⟩ := ih (by omega)
    rw [List.range_succ, List.foldl_append]
    simp only [List.foldl_cons, List.foldl_nil]
    revert h1 h2 h3
    generalize (List.range n).foldl Life.kill l = m
    intro h1 h2 h3
    have hal : l.alive[n]? = some true := by
      rw [List.getElem?_eq_getElem (by omega), h _ (List.getElem_mem _)]
    unfold Life.kill
    rw [if_pos (by rw [h3 n (Nat.le_refl _), hal])]
    refine ⟨h1, by simp [h2], fun p hp => ?_⟩
    simp only
    rw [List.getElem?_set, if_neg (by omega), h3 p (by omega)]

/-- **C80** for vectors that are only ever filled.  Missing for the full statement: histories
with `pop_back`, for which it is false (`C80_pop_violated`). -/
theorem C80_push_only_partial (cap : Nat) (n : Nat) : Life.badRun cap (List.replicate n true) = false := by
  unfold Life.badRun
  suffices H : ∀ l : Life, (∀ b ∈ l.alive, b = true) → l.bad = false → l.size ≤ l.alive.length →
      let r := (List.replicate n true).foldl (fun (l : Life) b => if b then l.push else l.pop) l
      (∀ b ∈ r.alive, b = true) ∧ r.bad = false by
    obtain ⟨h1, h2⟩ := H ⟨List.replicate cap true, 0, false⟩ (by simp) rfl (by simp)
    exact Life.finish_ok _ h1 h2
  induction n with
  | zero => intro l h1 h2 _; exact ⟨h1, h2⟩
  | succ n ih =>
    intro l h1 h2 h3
    rw [List.replicate_succ, List.foldl_cons, if_pos rfl]
    unfold Life.push
    split
    · rename_i hs
      have hu : l.use l.size = l := by
        unfold Life.use
        rw [if_pos]
        rw [List.getElem?_eq_getElem hs, h1 _ (List.getElem_mem _)]
      rw [hu]
      exact ih _ h1 h2 hs
    · exact ih _ h1 h2 h3

example : Life.badRun 3 [true, true, true, true] = false := by decide

/-- **C80** is false of the code: after `push_back; pop_back` the array destructor destroys the
popped element a second time. -/
theorem C80_pop_violated : ¬ C80Statement := by
  intro h
  have := h 2 [true, false] (by decide)
  revert this; decide

end Verif.StaticVec
