import Verif.GmshText.Spec
import Mathlib.Data.List.TakeWhile
import Mathlib.Tactic.Ring

/-! # Helper lemmas for C86 -/
namespace Verif.GmshText
open Verif Verif.Elem Verif.Mesh Verif.Split Verif.Partition Verif.Merge Verif.Extrude Verif.Gmsh

/-! ## Steps -/

theorem bind_ok {α β : Type} {x : P α} {f : α → P β} {s s' : Stream} {a : α} (h : x s = .ok (a, s')) : (x >>= f) s = f a s' := by
  show (match x s with | .ok (a, s') => f a s' | .throws => .throws | .ub => .ub) = _
  rw [h]

theorem bind_throws {α β : Type} {x : P α} {f : α → P β} {s : Stream} (h : x s = .throws) : (x >>= f) s = .throws := by
  show (match x s with | .ok (a, s') => f a s' | .throws => .throws | .ub => .ub) = _
  rw [h]

theorem pure_run {α : Type} (a : α) (s : Stream) : (pure a : P α) s = .ok (a, s) := rfl

/-! ## Characters -/

theorem isDig_not_ws {c : Char} (h : isDig c = true) : isWs c = false := by
  unfold isDig at h
  simp only [ge_iff_le, Bool.and_eq_true, decide_eq_true_eq] at h
  unfold isWs
  simp only [Bool.or_eq_false_iff, decide_eq_false_iff_not]
  refine ⟨⟨⟨⟨⟨?_, ?_⟩, ?_⟩, ?_⟩, ?_⟩, ?_⟩ <;> (rintro rfl; revert h; decide)

theorem ws_not_dig {c : Char} (h : isWs c = true) : isDig c = false := by
  cases hd : isDig c with
  | false => rfl
  | true => rw [isDig_not_ws hd] at h; cases h

theorem dig_of : ∀ c : Char, Digit c → isDig c = true ∧ c.toNat - 48 = "0123456789".toList.idxOf c := by
  unfold Digit; decide

theorem ws_of : ∀ c : Char, Blank c → isWs c = true := by
  unfold Blank; decide

theorem blank_of {c : Char} (h : isWs c = true) : Blank c := by
  unfold isWs at h
  simp only [Bool.or_eq_true, decide_eq_true_eq] at h
  unfold Blank
  rcases h with ((((rfl | rfl) | rfl) | rfl) | rfl) | rfl <;> decide

theorem notWs_of {c : Char} (h : ¬ Blank c) : isWs c = false := by
  cases hc : isWs c with
  | false => rfl
  | true => exact absurd (blank_of hc) h

theorem digs_of {l : List Char} (h : ∀ c ∈ l, Digit c) : ∀ c ∈ l, isDig c = true := fun c hc => (dig_of c (h c hc)).1

/-- Horner's scheme gives the value of the places. -/
theorem decVal_eq {l : List Char} (h : ∀ c ∈ l, Digit c) : decVal l = value l := by
  have key : ∀ (l : List Char) (a : Nat), (∀ c ∈ l, Digit c) → l.foldl (fun v c => 10 * v + (c.toNat - 48)) a = a * 10 ^ l.length + value l := by
    intro l
    induction l with
    | nil => intro a _; simp [value]
    | cons c l ih =>
      intro a h
      rw [List.foldl_cons, ih _ fun x hx => h x (by simp [hx]), (dig_of c (h c (by simp))).2, value, List.length_cons]
      ring
  unfold decVal
  rw [key l 0 h]; simp

theorem sign_dig {c : Char} {l : List Char} (h : isDig c = true) : sign (c :: l) = (false, c :: l) := by
  unfold sign
  split
  · rename_i heq; cases heq; exact absurd h (by decide)
  · rename_i heq; cases heq; exact absurd h (by decide)
  · rfl

/-- The list starts with white space. -/
def StartsWs (l : List Char) : Prop := ∃ c t, l = c :: t ∧ isWs c = true

theorem takeWhile_pre {p : Char → Bool} {a b : List Char} (ha : ∀ c ∈ a, p c = true) (hb : ∀ c t, b = c :: t → p c = false) :
    (a ++ b).takeWhile p = a ∧ (a ++ b).dropWhile p = b := by
  induction a with
  | nil =>
    cases b with
    | nil => simp
    | cons c t => simp [List.takeWhile_cons, List.dropWhile_cons, hb c t rfl]
  | cons c a ih =>
    have := ih (fun x hx => ha x (by simp [hx]))
    simp [List.takeWhile_cons, List.dropWhile_cons, ha c (by simp), this.1, this.2]

theorem drop_ws {ws cs : List Char} (hw : ∀ c ∈ ws, isWs c = true) (hc : ∀ c t, cs = c :: t → isWs c = false) : (ws ++ cs).dropWhile isWs = cs :=
  (takeWhile_pre hw hc).2

theorem flatMap_single {α β : Type} (g : α → β) (l : List α) : l.flatMap (fun x => [g x]) = l.map g := by induction l <;> simp_all

section
variable {K : Type} {dec : List Char → Option K}

theorem writes_ne {cs : List Char} {v : Val K} (h : Writes dec cs v) : cs ≠ [] := by
  cases v with
  | nat v => exact h.1
  | real x => exact h.1
  | int v => obtain ⟨ds, h1, _, h | h⟩ := h <;> simp [h.1, h1]

theorem writes_head {cs : List Char} {v : Val K} (h : Writes dec cs v) : ∀ c ∈ cs, isWs c = false := by
  cases v with
  | nat v => exact fun c hc => isDig_not_ws (digs_of h.2.1 c hc)
  | real x => exact fun c hc => notWs_of (h.2.1 c hc)
  | int v =>
    obtain ⟨ds, _, hd, h | h⟩ := h
    · rw [h.1]; exact fun c hc => isDig_not_ws (digs_of hd c hc)
    · rw [h.1]
      intro c hc
      rcases List.mem_cons.1 hc with rfl | hc
      · decide
      · exact isDig_not_ws (digs_of hd c hc)

theorem spells_starts {text : List Char} {vs : List (Val K)} {tail : List Char} (h : Spells dec text vs) (ht : StartsWs tail) : StartsWs (text ++ tail) := by
  cases h with
  | nil => exact ht
  | cons hw hws _ _ =>
    rename_i ws cs rest v vs _ _
    cases ws with
    | nil => exact absurd rfl hw
    | cons c t => exact ⟨c, t ++ (cs ++ rest) ++ tail, by simp, ws_of c (hws c (by simp))⟩

/-- The stream is in good state and its text consists of the numbers `vs` followed by `tail`. -/
def At (dec : List Char → Option K) (tail : List Char) (s : Stream) (vs : List (Val K)) : Prop :=
  s.fail = false ∧ s.eof = false ∧ ∃ text, s.rest = text ++ tail ∧ Spells dec text vs

/-- `x` consumes `vs` and gives `r` (`none` = it throws). -/
def Reads {α : Type} (dec : List Char → Option K) (tail : List Char) (x : P α) (vs : List (Val K)) (r : Option α) : Prop :=
  ∀ (rest : List (Val K)) (s : Stream), At dec tail s (vs ++ rest) →
    match r with
    | some a => ∃ s', x s = .ok (a, s') ∧ At dec tail s' rest
    | none => x s = .throws

variable {tail : List Char}

theorem Reads.bind {α β : Type} {x : P α} {f : α → P β} {vs vs' : List (Val K)} {a : α} {r : Option β} (h : Reads dec tail x vs (some a))
    (h' : Reads dec tail (f a) vs' r) : Reads dec tail (x >>= f) (vs ++ vs') r := by
  intro rest s hs
  rw [List.append_assoc] at hs
  obtain ⟨s', h1, h2⟩ := h _ s hs
  have := h' rest s' h2
  rw [bind_ok h1]; exact this

theorem Reads.bindEx {α β : Type} {x : P α} {f : α → P β} {vs vs' : List (Val K)} {r : Option β} (h : ∃ a, Reads dec tail x vs (some a) ∧ Reads dec tail (f a) vs' r) :
    Reads dec tail (x >>= f) (vs ++ vs') r := by
  obtain ⟨a, h1, h2⟩ := h
  exact h1.bind h2

theorem Reads.bind_throws {α β : Type} {x : P α} {f : α → P β} {vs vs' : List (Val K)} (h : Reads dec tail x vs none) :
    Reads dec tail (x >>= f) (vs ++ vs') (none : Option β) := by
  intro rest s hs
  rw [List.append_assoc] at hs
  exact GmshText.bind_throws (h _ s hs)

theorem Reads.pure {α : Type} (a : α) : Reads dec tail (Pure.pure a : P α) [] (some a) := fun _ s hs => ⟨s, rfl, hs⟩

theorem Reads.raise {α : Type} : Reads dec tail (raise : P α) [] (none : Option α) := fun _ _ _ => rfl

theorem Reads.orThrow {α : Type} (o : Option α) : Reads dec tail (orThrow o) [] o := by
  cases o with
  | none => exact Reads.raise
  | some a => exact Reads.pure a

theorem Reads.need {α : Type} (a : α) : Reads dec tail (need (some a)) [] (some a) := Reads.pure a

/-- Binding where the first step may throw. -/
theorem Reads.bindOpt {α β : Type} {x : P α} {f : α → P β} {vs vs' : List (Val K)} {o : Option α} {g : α → Option β} (h : Reads dec tail x vs o)
    (h' : ∀ a, o = some a → Reads dec tail (f a) vs' (g a)) : Reads dec tail (x >>= f) (vs ++ vs') (o.bind g) := by
  cases o with
  | none => exact h.bind_throws
  | some a => exact h.bind (h' a rfl)

theorem Reads.seq0 {α β : Type} {x : P α} {f : α → P β} {vs : List (Val K)} {o : Option α} {g : α → Option β} (h : Reads dec tail x vs o)
    (h' : ∀ a, o = some a → Reads dec tail (f a) [] (g a)) : Reads dec tail (x >>= f) vs (o.bind g) := by
  have := h.bindOpt h'
  rwa [List.append_nil] at this

theorem Reads.rep {α β : Type} {x : P α} (l : List β) {vs : β → List (Val K)} {g : β → Option α} (h : ∀ b ∈ l, Reads dec tail x (vs b) (g b)) :
    Reads dec tail (rep l.length x) (l.flatMap vs) (l.mapM g) := by
  induction l with
  | nil => exact Reads.pure []
  | cons b l ih =>
    rw [List.flatMap_cons, List.mapM_cons]
    exact (h b (by simp)).bindOpt fun a _ => (ih fun c hc => h c (by simp [hc])).seq0 fun as _ => Reads.pure _

theorem mapM_some {α β : Type} (l : List β) (g : β → α) : l.mapM (fun b => some (g b)) = some (l.map g) := by
  induction l with
  | nil => rfl
  | cons b l ih => rw [List.mapM_cons, ih]; rfl

theorem Reads.repSome {α β : Type} {x : P α} (l : List β) {vs : β → List (Val K)} {g : β → α} (h : ∀ b ∈ l, Reads dec tail x (vs b) (some (g b))) :
    Reads dec tail (GmshText.rep l.length x) (l.flatMap vs) (some (l.map g)) := by
  rw [← mapM_some]
  exact Reads.rep l h

/-! ## Numbers -/

/-- What the sentry sees in front of a number. -/
theorem at_cons (ht : StartsWs tail) {s : Stream} {v : Val K} {vs : List (Val K)} (h : At dec tail s (v :: vs)) :
    ∃ cs rest, sentry s = some (cs ++ (rest ++ tail)) ∧ Writes dec cs v ∧ Spells dec rest vs ∧ StartsWs (rest ++ tail) := by
  obtain ⟨h1, h2, text, h3, h4⟩ := h
  cases h4 with
  | cons hw hws hc hr =>
    rename_i ws cs rest
    refine ⟨cs, rest, ?_, hc, hr, spells_starts hr ht⟩
    have hd : s.rest.dropWhile isWs = cs ++ (rest ++ tail) := by
      rw [h3, List.append_assoc, List.append_assoc]
      refine drop_ws (fun c hc => ws_of c (hws c hc)) fun c t he => ?_
      cases cs with
      | nil => exact absurd rfl (writes_ne hc)
      | cons d cs =>
        simp only [List.cons_append, List.cons.injEq] at he
        rw [← he.1]; exact writes_head hc d (by simp)
    unfold sentry
    rw [h1, h2, hd, if_neg (by simp), if_neg]
    intro h0
    exact writes_ne hc (List.append_eq_nil_iff.1 h0).1

theorem at_after {rest : List Char} {vs : List (Val K)} (ht : StartsWs (rest ++ tail)) (h : Spells dec rest vs) : At dec tail (after (rest ++ tail) false) vs := by
  obtain ⟨c, t, hc, _⟩ := ht
  refine ⟨rfl, ?_, rest, rfl, h⟩
  unfold after
  rw [hc]; rfl

theorem digits_nat {cs l : List Char} (h0 : cs ≠ []) (hd : ∀ c ∈ cs, isDig c = true) (hl : StartsWs l) :
    digits (cs ++ l) = (cs, l) ∧ (sign (cs ++ l)).1 = false := by
  obtain ⟨c, t, rfl⟩ := List.exists_cons_of_ne_nil h0
  have hs : sign (c :: t ++ l) = (false, c :: t ++ l) := sign_dig (hd c (by simp))
  obtain ⟨d, t', rfl, hw⟩ := hl
  have := takeWhile_pre (p := isDig) hd (b := d :: t') (fun c t he => by cases he; exact ws_not_dig hw)
  unfold digits
  rw [hs]
  exact ⟨Prod.ext this.1 this.2, rfl⟩

theorem digits_neg {cs l : List Char} (hd : ∀ c ∈ cs, isDig c = true) (hl : StartsWs l) :
    digits ('-' :: cs ++ l) = (cs, l) ∧ (sign ('-' :: cs ++ l)).1 = true := by
  have hs : sign ('-' :: cs ++ l) = (true, cs ++ l) := rfl
  obtain ⟨d, t', rfl, hw⟩ := hl
  have := takeWhile_pre (p := isDig) hd (b := d :: t') (fun c t he => by cases he; exact ws_not_dig hw)
  unfold digits
  rw [hs]
  exact ⟨Prod.ext this.1 this.2, rfl⟩

theorem readU_at (ht : StartsWs tail) {s : Stream} {v max : Nat} {vs : List (Val K)} (hv : v ≤ max) (h : At dec tail s (.nat v :: vs)) :
    ∃ s', readU max s = (some v, s') ∧ At dec tail s' vs := by
  obtain ⟨cs, rest, h1, ⟨h2, h3, h4⟩, h5, h6⟩ := at_cons ht h
  obtain ⟨d1, d2⟩ := digits_nat h2 (digs_of h3) h6
  refine ⟨_, ?_, at_after h6 h5⟩
  unfold readU
  rw [h1]
  simp only [d1, d2]
  rw [if_neg h2, decVal_eq h3, h4, if_neg (by omega)]
  simp

theorem readI_nat (ht : StartsWs tail) {s : Stream} {v lim : Nat} {vs : List (Val K)} (hv : v ≤ lim) (h : At dec tail s (.nat v :: vs)) :
    ∃ s', readI lim s = (some (v : Int), s') ∧ At dec tail s' vs := by
  obtain ⟨cs, rest, h1, ⟨h2, h3, h4⟩, h5, h6⟩ := at_cons ht h
  obtain ⟨d1, d2⟩ := digits_nat h2 (digs_of h3) h6
  refine ⟨_, ?_, at_after h6 h5⟩
  unfold readI
  rw [h1]
  simp only [d1, d2]
  rw [if_neg h2, decVal_eq h3, h4, if_neg (by simp), if_neg (by omega)]

theorem readI_int (ht : StartsWs tail) {s : Stream} {v : Int} {lim : Nat} {vs : List (Val K)} (hv : -(lim : Int) - 1 ≤ v ∧ v ≤ lim) (h : At dec tail s (.int v :: vs)) :
    ∃ s', readI lim s = (some v, s') ∧ At dec tail s' vs := by
  obtain ⟨cs, rest, h1, ⟨ds, h2, h3, h4⟩, h5, h6⟩ := at_cons ht h
  refine ⟨_, ?_, at_after h6 h5⟩
  unfold readI
  rw [h1]
  rcases h4 with ⟨rfl, h4⟩ | ⟨rfl, h4⟩
  · obtain ⟨d1, d2⟩ := digits_nat h2 (digs_of h3) h6
    simp only [d1, d2]
    rw [if_neg h2, if_neg (by simp), decVal_eq h3, if_neg (by omega), h4]
  · obtain ⟨d1, d2⟩ := digits_neg (digs_of h3) h6
    simp only [d1, d2]
    rw [if_neg h2, if_pos trivial, decVal_eq h3, if_neg (by omega), h4]

theorem readB_zero (ht : StartsWs tail) {s : Stream} {vs : List (Val K)} (h : At dec tail s (.nat 0 :: vs)) :
    ∃ s', readB s = (some false, s') ∧ At dec tail s' vs := by
  obtain ⟨s', h1, h2⟩ := readI_nat ht (lim := 2 ^ 63 - 1) (by omega) h
  refine ⟨s', ?_, h2⟩
  unfold readB
  rw [h1]
  simp [h2.1]

theorem readB_at (ht : StartsWs tail) {s : Stream} {b : Nat} (hb : b ≤ 1) {vs : List (Val K)} (h : At dec tail s (.nat b :: vs)) :
    ∃ s', readB s = (some (decide (b = 1)), s') ∧ At dec tail s' vs := by
  obtain ⟨s', h1, h2⟩ := readI_nat ht (lim := 2 ^ 63 - 1) (by omega) h
  refine ⟨s', ?_, h2⟩
  unfold readB
  rw [h1]
  rcases Nat.le_one_iff_eq_zero_or_eq_one.1 hb with rfl | rfl <;> simp [h2.1]

theorem readR_at [Zero K] (ht : StartsWs tail) {s : Stream} {x : K} {vs : List (Val K)} (h : At dec tail s (.real x :: vs)) :
    ∃ s', readR dec s = (some x, s') ∧ At dec tail s' vs := by
  obtain ⟨cs, rest, h1, ⟨h2, h3, h4⟩, h5, h6⟩ := at_cons ht h
  refine ⟨_, ?_, at_after h6 h5⟩
  have hp := takeWhile_pre (p := fun c => !isWs c) (a := cs) (b := rest ++ tail) (fun c hc => by simp [notWs_of (h3 c hc)])
    (fun c t he => by obtain ⟨d, t', hd, hw⟩ := h6; rw [hd] at he; cases he; simp [hw])
  unfold readR
  rw [h1]
  simp only [hp.1, hp.2, h4]

theorem Reads.ofRead {α : Type} {f : Stream → Option α × Stream} {v : Val K} {a : α} (h : ∀ s vs, At dec tail s (v :: vs) → ∃ s', f s = (some a, s') ∧ At dec tail s' vs) :
    Reads dec tail (var f) [v] (some (some a)) ∧ Reads dec tail (extract f) [v] (some a) ∧ Reads dec tail (iterRead f) [v] (some a) := by
  have h1 : Reads dec tail (var f) [v] (some (some a)) := by
    intro rest s hs
    obtain ⟨s', e, hs'⟩ := h s rest hs
    exact ⟨s', by unfold var; rw [e], hs'⟩
  refine ⟨h1, ?_, ?_⟩
  · have := h1.bind (f := GmshText.need) (Reads.need a)
    exact this
  · intro rest s hs
    obtain ⟨s', e, hs'⟩ := h s rest hs
    refine ⟨s', ?_, hs'⟩
    unfold iterRead
    rw [e]
    simp only
    rw [hs'.1, if_neg (by simp)]; rfl

theorem rU (ht : StartsWs tail) {v max : Nat} (hv : v ≤ max) : Reads dec tail (var (readU max)) [.nat v] (some (some v)) ∧
    Reads dec tail (extract (readU max)) [.nat v] (some v) ∧ Reads dec tail (iterRead (readU max)) [.nat v] (some v) :=
  Reads.ofRead fun _ _ h => readU_at ht hv h

theorem rI (ht : StartsWs tail) {v lim : Nat} (hv : v ≤ lim) : Reads dec tail (var (readI lim)) [.nat v] (some (some (v : Int))) ∧
    Reads dec tail (extract (readI lim)) [.nat v] (some (v : Int)) ∧ Reads dec tail (iterRead (readI lim)) [.nat v] (some (v : Int)) :=
  Reads.ofRead fun _ _ h => readI_nat ht hv h

theorem rInt (ht : StartsWs tail) {v : Int} {lim : Nat} (hv : -(lim : Int) - 1 ≤ v ∧ v ≤ lim) : Reads dec tail (var (readI lim)) [.int v] (some (some v)) :=
  (Reads.ofRead fun _ _ h => readI_int ht hv h).1

theorem rB (ht : StartsWs tail) : Reads dec tail (var readB) [.nat 0] (some (some false)) := (Reads.ofRead fun _ _ h => readB_zero ht h).1

theorem rBool (ht : StartsWs tail) {b : Nat} (hb : b ≤ 1) : Reads dec tail (var readB) [.nat b] (some (some (decide (b = 1)))) :=
  (Reads.ofRead fun _ _ h => readB_at ht hb h).1

theorem rR [Zero K] (ht : StartsWs tail) (x : K) : Reads dec tail (var (readR dec)) [.real x] (some (some x)) ∧
    Reads dec tail (extract (readR dec)) [.real x] (some x) ∧ Reads dec tail (iterRead (readR dec)) [.real x] (some x) :=
  Reads.ofRead fun _ _ h => readR_at ht h

theorem r0 (ht : StartsWs tail) {v max : Nat} (hv : v ≤ max) : Reads dec tail (extract0 max) [.nat v] (some v) :=
  (rU ht hv).1.bind (Reads.pure v)

theorem rIgnoreR [Zero K] (ht : StartsWs tail) (xs : List K) : Reads dec tail (ignore (readR dec) xs.length) (xs.map .real) (some ()) := by
  have := Reads.repSome (dec := dec) (tail := tail) (x := var (readR dec)) xs (vs := fun x => [.real x]) (g := some) fun x _ => (rR ht x).1
  have := this.bind (f := fun _ => (pure () : P Unit)) (Reads.pure ())
  rw [List.append_nil] at this
  rwa [flatMap_single] at this

theorem rIgnoreI (ht : StartsWs tail) (xs : List Int) (hx : ∀ b ∈ xs, -2 ^ 31 ≤ b ∧ b < 2 ^ 31) :
    Reads dec tail (ignore (readI i32) xs.length) (xs.map .int) (some ()) := by
  have := Reads.repSome (dec := dec) (tail := tail) (x := var (readI i32)) xs (vs := fun x => [.int x]) (g := some)
    fun x hb => rInt ht (by have := hx x hb; unfold i32; omega)
  have := this.bind (f := fun _ => (pure () : P Unit)) (Reads.pure ())
  rw [List.append_nil] at this
  rwa [flatMap_single] at this

theorem rCopyU (ht : StartsWs tail) (xs : List Nat) (hx : ∀ b ∈ xs, b < 2 ^ 64) (h0 : xs ≠ []) :
    Reads dec tail (copyN (readU u64) xs.length) (xs.map .nat) (some xs) := by
  have := Reads.repSome (dec := dec) (tail := tail) (x := iterRead (readU u64)) xs (vs := fun x => [.nat x]) (g := id)
    fun x hb => (rU ht (by have := hx x hb; unfold u64; omega)).2.2
  rw [List.map_id] at this
  unfold copyN
  rw [if_neg (by simpa using h0)]
  rwa [flatMap_single] at this

end

end Verif.GmshText
