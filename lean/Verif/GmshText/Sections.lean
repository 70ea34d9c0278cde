import Verif.GmshText.Lemmas
import Mathlib.Tactic.IntervalCases

/-! # Reading the four sections -/
namespace Verif.GmshText
open Verif Verif.Elem Verif.Mesh Verif.Split Verif.Partition Verif.Merge Verif.Extrude Verif.Gmsh

/-! ## Finding a keyword -/

theorem search_before {key : List Char} (h0 : key ≠ []) (l : List Char) : ∀ g : List Char, (∀ g1 g2, g = g1 ++ g2 → g2 ≠ [] → ¬ key <+: g2 ++ key) →
    search key (g ++ (key ++ l)) = some l := by
  intro g
  induction g with
  | nil =>
    intro _
    obtain ⟨c, t, rfl⟩ := List.exists_cons_of_ne_nil h0
    rw [List.nil_append, List.cons_append, search, if_pos]
    · rw [← List.cons_append, List.drop_left']; rfl
    · rw [List.isPrefixOf_iff_prefix, ← List.cons_append]; exact List.prefix_append _ _
  | cons c g ih =>
    intro h
    rw [List.cons_append, search, if_neg, ih]
    · intro g1 g2 hg; exact h (c :: g1) g2 (by rw [hg]; rfl)
    · rw [List.isPrefixOf_iff_prefix]
      intro hp
      refine h [] (c :: g) rfl (by simp) ?_
      refine List.prefix_of_prefix_length_le (l₃ := (c :: g) ++ key ++ l) ?_ (List.prefix_append _ _) (by simp; omega)
      rw [List.append_assoc]; exact hp

theorem skip_before {key : String} (h0 : key.toList ≠ []) {g l : List Char} (h : Before g key) (f e : Bool) :
    skip key ⟨g ++ (key.toList ++ l), f, e⟩ = .ok ((), ⟨l, f, e⟩) := by
  unfold skip
  simp only
  rw [search_before h0 l g h]

theorem before_ws {key : String} {t : List Char} (hk : key.toList = '$' :: t) {ws : List Char} (hw : ∀ c ∈ ws, isWs c = true) : Before ws key := by
  intro g1 g2 hg h2 hp
  obtain ⟨c, u, rfl⟩ := List.exists_cons_of_ne_nil h2
  rw [hk, List.cons_append, List.cons_prefix_cons] at hp
  have := hw c (by rw [hg]; simp)
  rw [← hp.1] at this
  exact absurd this (by decide)

theorem starts_ws {ws l : List Char} (h0 : ws ≠ []) (hw : ∀ c ∈ ws, isWs c = true) : StartsWs (ws ++ l) := by
  obtain ⟨c, u, rfl⟩ := List.exists_cons_of_ne_nil h0
  exact ⟨c, u ++ l, rfl, hw c (by simp)⟩

section
variable {K : Type} {dec : List Char → Option K}

/-- The outcome: a value with the stream in front of `l`, or an exception. -/
def outcome {α : Type} (l : List Char) : Option α → Res (α × Stream)
  | some a => .ok (a, ⟨l, false, false⟩)
  | none => .throws

/-- `x`, started in front of the numbers `vs`, ends in front of `l`. -/
def Ends {α : Type} (dec : List Char → Option K) (tail l : List Char) (x : P α) (vs : List (Val K)) (r : Option α) : Prop :=
  ∀ s : Stream, At dec tail s vs → x s = outcome l r

variable {tail l : List Char}

theorem Ends.bind {α β : Type} {x : P α} {f : α → P β} {vs vs' : List (Val K)} {o : Option α} {g : α → Option β} (h : Reads dec tail x vs o)
    (h' : ∀ a, o = some a → Ends dec tail l (f a) vs' (g a)) : Ends dec tail l (x >>= f) (vs ++ vs') (o.bind g) := by
  intro s hs
  have := h vs' s hs
  cases o with
  | none => rw [bind_throws this]; rfl
  | some a =>
    obtain ⟨s', h1, h2⟩ := this
    rw [bind_ok h1, h' a rfl s' h2]; rfl

theorem Ends.bindSome {α β : Type} {x : P α} {f : α → P β} {vs vs' : List (Val K)} {a : α} {r : Option β} (h : Reads dec tail x vs (some a))
    (h' : Ends dec tail l (f a) vs' r) : Ends dec tail l (x >>= f) (vs ++ vs') r :=
  Ends.bind (g := fun _ => r) h fun b hb => by cases hb; exact h'

/-- The closing keyword. -/
theorem Ends.skip {β : Type} {key : String} {t ws : List Char} (hk : key.toList = '$' :: t) (hw : ∀ c ∈ ws, isWs c = true) {f : Unit → P β} {b : β}
    (hf : f () ⟨l, false, false⟩ = .ok (b, ⟨l, false, false⟩)) : Ends dec (ws ++ (key.toList ++ l)) l (GmshText.skip key >>= f) [] (some b) := by
  intro s hs
  obtain ⟨h1, h2, text, h3, h4⟩ := hs
  cases h4
  have : s = ⟨ws ++ (key.toList ++ l), false, false⟩ := by cases s; simp_all
  rw [this, bind_ok (skip_before (by rw [hk]; simp) (before_ws hk hw) _ _), hf]; rfl

theorem Ends.skipTo {β : Type} {key : String} {t ws : List Char} (hk : key.toList = '$' :: t) (hw : ∀ c ∈ ws, isWs c = true) {f : Unit → P β} {r : Option β}
    (hf : f () ⟨l, false, false⟩ = outcome l r) : Ends dec (ws ++ (key.toList ++ l)) l (GmshText.skip key >>= f) [] r := by
  intro s hs
  obtain ⟨h1, h2, text, h3, h4⟩ := hs
  cases h4
  have : s = ⟨ws ++ (key.toList ++ l), false, false⟩ := by cases s; simp_all
  rw [this, bind_ok (skip_before (by rw [hk]; simp) (before_ws hk hw) _ _), hf]

/-- A whole section. -/
theorem section_run {α : Type} {first last : String} {t1 t2 : List Char} (h1 : first.toList = '$' :: t1) (h2 : last.toList = '$' :: t2) {vs : List (Val K)} {text g : List Char}
    (hs : IsSection dec first last vs text) (hg : Before g first) {x : P α} {r : Option α} (l : List Char)
    (hx : ∀ ws, StartsWs (ws ++ (last.toList ++ l)) → (∀ c ∈ ws, isWs c = true) → Ends dec (ws ++ (last.toList ++ l)) l x vs r) :
    (GmshText.skip first >>= fun _ => x) ⟨g ++ (text ++ l), false, false⟩ = outcome l r := by
  obtain ⟨nums, ws, rfl, hn, hw0, hb⟩ := hs
  have hw : ∀ c ∈ ws, isWs c = true := fun c hc => ws_of c (hb c hc)
  have hst := starts_ws (l := last.toList ++ l) hw0 hw
  rw [List.append_assoc, bind_ok (skip_before (by rw [h1]; simp) hg _ _)]
  rw [show (nums ++ (ws ++ last.toList)) ++ l = nums ++ (ws ++ (last.toList ++ l)) from by simp [List.append_assoc]]
  exact hx ws hst hw ⟨nums ++ (ws ++ (last.toList ++ l)), false, false⟩ ⟨rfl, rfl, nums, rfl, hn⟩

end

section
set_option linter.unusedSectionVars false
variable {K : Type} [Field K] [LinearOrder K] {dec : List Char → Option K} {D : MeshFile K}

/-! ## Format -/

theorem format_run (h : D.InRange) {text g : List Char} (hs : IsSection dec "$MeshFormat" "$EndMeshFormat" D.formatVals text) (hg : Before g "$MeshFormat") (l : List Char) :
    parseFormat dec ⟨g ++ (text ++ l), false, false⟩ = .ok ((), ⟨l, false, false⟩) := by
  refine section_run (r := some ()) rfl rfl hs hg l fun ws hst hw => ?_
  refine Ends.bindSome (vs := [_]) (rR hst D.version).1 ?_
  refine Ends.bindSome (vs := [_]) (rB hst) ?_
  refine Ends.bindSome (vs := [_]) (vs' := []) (rU hst (v := D.dataSize) (by have := h.size; unfold u64; omega)).1 ?_
  refine Ends.skip rfl hw ?_
  rw [show need (some D.version) = pure D.version from rfl, bind_ok (pure_run _ _)]
  unfold checkFormat
  rw [if_pos (Or.inl h.version), show need (some false) = pure false from rfl, bind_ok (pure_run _ _), if_neg (by simp), if_pos h.version.1]
  rfl

/-- A format section of another version, or of a binary file. -/
theorem format_refused [IsStrictOrderedRing K] {v : K} {b size : Nat} (hb : b ≤ 1) (hsz : size < 2 ^ 64) (h : b = 1 ∨ ¬ (4 ≤ v ∧ v < 5)) {text g : List Char}
    (hs : IsSection dec "$MeshFormat" "$EndMeshFormat" [.real v, .nat b, .nat size] text) (hg : Before g "$MeshFormat") (l : List Char) :
    parseFormat dec ⟨g ++ (text ++ l), false, false⟩ = .throws := by
  refine section_run (r := (none : Option Unit)) rfl rfl hs hg l fun ws hst hw => ?_
  refine Ends.bindSome (vs := [_]) (rR hst v).1 ?_
  refine Ends.bindSome (vs := [_]) (rBool hst hb) ?_
  refine Ends.bindSome (vs := [_]) (vs' := []) (rU hst (v := size) (by unfold u64; omega)).1 ?_
  refine Ends.skipTo rfl hw ?_
  rw [show need (some v) = pure v from rfl, bind_ok (pure_run _ _)]
  unfold checkFormat
  by_cases hv : (4 ≤ v ∧ v < 5) ∨ (2 ≤ v ∧ v < 3)
  · rw [if_pos hv, show need (some (decide (b = 1))) = pure (decide (b = 1)) from rfl, bind_ok (pure_run _ _)]
    by_cases h1 : b = 1
    · rw [if_pos (by simpa using h1), show need (some size) = pure size from rfl, bind_ok (pure_run _ _)]; rfl
    · rw [if_neg (by simpa using h1), if_neg]
      · rfl
      · intro h4
        rcases h with h | h
        · exact h1 h
        · rcases hv with hv | hv
          · exact h hv
          · exact h ⟨h4, lt_trans hv.2 (by norm_num)⟩
  · rw [if_neg hv]; rfl

/-! ## Entities -/

/-- The map after the entities of one dimension. -/
def extend (d : Nat) (m : EntMap) (es : List (Ent K)) : EntMap :=
  es.foldl (fun m e => (e.phys.toList.map fun p => ((d, (e.tag : Int)), p)) ++ m) m

theorem phys_reads {tail : List Char} (ht : StartsWs tail) (m : EntMap) (d : Nat) (tag : Int) (ph : Option Nat) (h3 : ∀ p, ph = some p → p < 2 ^ 16) :
    Reads dec tail (readPhys m d tag ph.toList.length) (ph.toList.map .nat) (some ((ph.toList.map fun p => ((d, tag), p)) ++ m)) := by
  cases ph with
  | none => exact Reads.pure m
  | some p => exact (rU ht (v := p) (by have := h3 p rfl; unfold u16; omega)).2.1.bind (vs' := []) (Reads.pure _)

theorem entity_reads {tail : List Char} (ht : StartsWs tail) (h : D.InRange) {d : Nat} (hd : d < 4) {e : Ent K} (he : e ∈ D.ents d) (m : EntMap) :
    Reads dec tail (parseEntity dec d m) (Ent.vals d e) (some ((e.phys.toList.map fun p => ((d, (e.tag : Int)), p)) ++ m)) := by
  obtain ⟨h1, h2, h3, h4, h5⟩ := h.ents d hd e he
  unfold parseEntity Ent.vals
  simp only [List.append_assoc]
  refine (rI ht (v := e.tag) (by unfold i32; omega)).2.1.bind ?_
  rw [← h2]
  refine (rIgnoreR ht e.box).bind ?_
  refine (rU ht (v := e.phys.toList.length) (by unfold u64; cases e.phys <;> simp)).2.1.bind ?_
  refine Reads.bind (a := (e.phys.toList.map fun p => ((d, (e.tag : Int)), p)) ++ m) ?_ ?_
  · exact phys_reads ht m d e.tag e.phys h3
  · unfold skipBounding
    by_cases h0 : d = 0
    · rw [if_pos h0, if_pos h0]
      exact (Reads.pure ()).bind (vs := []) (vs' := []) (Reads.pure _)
    · rw [if_neg h0, if_neg h0]
      have := ((rU (dec := dec) ht (v := e.bounding.length) (max := u64) (by unfold u64; omega)).2.1.bind (rIgnoreI ht e.bounding h5)).bind
        (f := fun _ => (pure ((e.phys.toList.map fun p => ((d, (e.tag : Int)), p)) ++ m) : P EntMap)) (Reads.pure _)
      rwa [List.append_nil] at this

theorem dim_reads {tail : List Char} (ht : StartsWs tail) (h : D.InRange) {d : Nat} (hd : d < 4) : ∀ (es : List (Ent K)) (m : EntMap), (∀ e ∈ es, e ∈ D.ents d) →
    Reads dec tail (parseDim dec d es.length m) (es.flatMap (Ent.vals d)) (some (extend d m es)) := by
  intro es
  induction es with
  | nil => intro m _; exact Reads.pure m
  | cons e es ih =>
    intro m he
    rw [List.flatMap_cons]
    exact (entity_reads ht h hd (he e (by simp)) m).bind (ih _ fun x hx => he x (by simp [hx]))

/-- The map after all entities. -/
def entMap (D : MeshFile K) : EntMap := extend 3 (extend 2 (extend 1 (extend 0 [] (D.ents 0)) (D.ents 1)) (D.ents 2)) (D.ents 3)

theorem entities_run (h : D.InRange) {text g : List Char} (hs : IsSection dec "$Entities" "$EndEntities" D.entVals text) (hg : Before g "$Entities") (l : List Char) :
    parseEntities dec ⟨g ++ (text ++ l), false, false⟩ = .ok (entMap D, ⟨l, false, false⟩) := by
  refine section_run (r := some (entMap D)) rfl rfl hs hg l fun ws hst hw => ?_
  have hv : D.entVals = [.nat (D.ents 0).length] ++ ([.nat (D.ents 1).length] ++ ([.nat (D.ents 2).length] ++ ([.nat (D.ents 3).length] ++
      ((D.ents 0).flatMap (Ent.vals 0) ++ ((D.ents 1).flatMap (Ent.vals 1) ++ ((D.ents 2).flatMap (Ent.vals 2) ++ ((D.ents 3).flatMap (Ent.vals 3) ++ []))))))) := by
    simp [MeshFile.entVals, List.range_succ]
  have hn : ∀ d < 4, (D.ents d).length ≤ u64 := fun d hd => by have := h.numEnts d hd; unfold u64; omega
  rw [hv]
  refine Ends.bindSome (r0 hst (hn 0 (by omega))) ?_
  refine Ends.bindSome (r0 hst (hn 1 (by omega))) ?_
  refine Ends.bindSome (r0 hst (hn 2 (by omega))) ?_
  refine Ends.bindSome (r0 hst (hn 3 (by omega))) ?_
  refine Ends.bindSome (dim_reads hst h (by omega) (D.ents 0) _ fun e he => he) ?_
  refine Ends.bindSome (dim_reads hst h (by omega) (D.ents 1) _ fun e he => he) ?_
  refine Ends.bindSome (dim_reads hst h (by omega) (D.ents 2) _ fun e he => he) ?_
  refine Ends.bindSome (dim_reads hst h (by omega) (D.ents 3) _ fun e he => he) ?_
  exact Ends.skip rfl hw rfl

/-- Entities of one dimension of which one has several physical tags. -/
theorem dim_refused {tail : List Char} (ht : StartsWs tail) (h : D.InRange) {d : Nat} (hd : d < 4) {tag n : Nat} {box : List K} (htag : tag < 2 ^ 31)
    (hbox : box.length = if d = 0 then 3 else 6) (hn : 1 < n) (hn' : n < 2 ^ 64) : ∀ (es : List (Ent K)) (c : Nat) (m : EntMap), (∀ e ∈ es, e ∈ D.ents d) → es.length < c →
    Reads dec tail (parseDim dec d c m) (es.flatMap (Ent.vals d) ++ ([.nat tag] ++ (box.map .real ++ [.nat n]))) none := by
  intro es
  induction es with
  | nil =>
    intro c m _ hc
    obtain ⟨c, rfl⟩ : ∃ c', c = c' + 1 := ⟨c - 1, by simp at hc; omega⟩
    rw [List.flatMap_nil, List.nil_append, parseDim]
    have : Reads dec tail (parseEntity dec d m) ([.nat tag] ++ (box.map .real ++ [.nat n])) none := by
      unfold parseEntity
      refine (rI ht (v := tag) (by unfold i32; omega)).2.1.bind ?_
      rw [← hbox]
      refine (rIgnoreR ht box).bind ?_
      refine (rU ht (v := n) (by unfold u64; omega)).2.1.bind (vs' := []) ?_
      refine Reads.bind_throws (vs := []) (vs' := []) ?_
      unfold readPhys
      rw [if_pos hn]
      exact Reads.raise
    have := this.bind_throws (f := parseDim dec d c) (vs' := [])
    rwa [List.append_nil] at this
  | cons e es ih =>
    intro c m he hc
    obtain ⟨c, rfl⟩ : ∃ c', c = c' + 1 := ⟨c - 1, by simp at hc; omega⟩
    rw [List.flatMap_cons, List.append_assoc, parseDim]
    exact (entity_reads ht h hd (he e (by simp)) m).bind (ih c _ (fun x hx => he x (by simp [hx])) (by simp at hc; omega))

theorem entities_refused (h : D.InRange) {d : Nat} (hd : d < 4) {tag n : Nat} {box : List K} (htag : tag < 2 ^ 31)
    (hbox : box.length = if d = 0 then 3 else 6) (hn : 1 < n) (hn' : n < 2 ^ 64) (c : Nat → Nat) (hc : ∀ j < 4, c j < 2 ^ 64) (hc1 : ∀ j < d, c j = (D.ents j).length)
    (hc2 : (D.ents d).length < c d) (more : List (Val K)) {text g : List Char}
    (hs : IsSection dec "$Entities" "$EndEntities" ((List.range 4).map (fun j => .nat (c j)) ++ ((List.range (d + 1)).flatMap (fun j => (D.ents j).flatMap (Ent.vals j)) ++
      ([.nat tag] ++ (box.map .real ++ ([.nat n] ++ more))))) text) (hg : Before g "$Entities") (l : List Char) :
    parseEntities dec ⟨g ++ (text ++ l), false, false⟩ = .throws := by
  refine section_run (r := (none : Option EntMap)) rfl rfl hs hg l fun ws hst hw => ?_
  rw [show (List.range 4).map (fun j => (Val.nat (c j) : Val K)) = [.nat (c 0)] ++ ([.nat (c 1)] ++ ([.nat (c 2)] ++ [.nat (c 3)])) from rfl]
  simp only [List.append_assoc]
  have hn : ∀ d < 4, c d ≤ u64 := fun d hd => by have := hc d hd; unfold u64; omega
  refine Ends.bindSome (r0 hst (hn 0 (by omega))) ?_
  refine Ends.bindSome (r0 hst (hn 1 (by omega))) ?_
  refine Ends.bindSome (r0 hst (hn 2 (by omega))) ?_
  refine Ends.bindSome (r0 hst (hn 3 (by omega))) ?_
  have bad := fun m => dim_refused (dec := dec) hst h hd htag hbox (by assumption) hn' (D.ents d) (c d) m (fun e he => he) hc2
  have fin : ∀ {β : Type} (m : EntMap) (f : EntMap → P β), Ends dec (ws ++ ("$EndEntities".toList ++ l)) l (parseDim dec d (c d) m >>= f)
      ((D.ents d).flatMap (Ent.vals d) ++ ([.nat tag] ++ (box.map .real ++ ([.nat n] ++ more)))) (none : Option β) := by
    intro β m f
    have := Ends.bind (l := l) (vs' := more) (g := fun _ => (none : Option β)) (f := f) (bad m) (by simp)
    simp only [List.append_assoc] at this
    exact this
  have pre := fun (j : Nat) (hj : j < 4) (m : EntMap) => dim_reads (dec := dec) hst h hj (D.ents j) m fun e he => he
  interval_cases d
  · rw [show (List.range (0 + 1)).flatMap (fun j => (D.ents j).flatMap (Ent.vals j)) = (D.ents 0).flatMap (Ent.vals 0) from by simp [List.range_succ]]
    exact fin _ _
  · rw [show (List.range (1 + 1)).flatMap (fun j => (D.ents j).flatMap (Ent.vals j)) = (D.ents 0).flatMap (Ent.vals 0) ++ (D.ents 1).flatMap (Ent.vals 1) from by
      simp [List.range_succ], hc1 0 (by omega), List.append_assoc]
    exact Ends.bindSome (pre 0 (by omega) _) (fin _ _)
  · rw [show (List.range (2 + 1)).flatMap (fun j => (D.ents j).flatMap (Ent.vals j)) = (D.ents 0).flatMap (Ent.vals 0) ++ ((D.ents 1).flatMap (Ent.vals 1) ++
      (D.ents 2).flatMap (Ent.vals 2)) from by simp [List.range_succ], hc1 0 (by omega), hc1 1 (by omega), List.append_assoc, List.append_assoc]
    exact Ends.bindSome (pre 0 (by omega) _) (Ends.bindSome (pre 1 (by omega) _) (fin _ _))
  · rw [show (List.range (3 + 1)).flatMap (fun j => (D.ents j).flatMap (Ent.vals j)) = (D.ents 0).flatMap (Ent.vals 0) ++ ((D.ents 1).flatMap (Ent.vals 1) ++
      ((D.ents 2).flatMap (Ent.vals 2) ++ (D.ents 3).flatMap (Ent.vals 3))) from by simp [List.range_succ], hc1 0 (by omega), hc1 1 (by omega), hc1 2 (by omega),
      List.append_assoc, List.append_assoc, List.append_assoc]
    exact Ends.bindSome (pre 0 (by omega) _) (Ends.bindSome (pre 1 (by omega) _) (Ends.bindSome (pre 2 (by omega) _) (fin _ _)))

/-! ## Nodes -/

theorem pt_reads {tail : List Char} (ht : StartsWs tail) (p : Pt K) : Reads dec tail (readPt dec) [.real p.x, .real p.y, .real p.z] (some p) :=
  (rR ht p.x).2.2.bind (vs' := [_, _]) ((rR ht p.y).2.2.bind (vs' := [_]) ((rR ht p.z).2.2.bind (vs' := []) (Reads.pure _)))

theorem nodeBlock_reads {tail : List Char} (ht : StartsWs tail) (h : D.InRange) {b : NodeBlock K} (hb : b ∈ D.nodeBlocks) (h0 : b.nodes ≠ []) :
    Reads dec tail (parseNodeBlock dec) b.vals (some b.nodes) := by
  obtain ⟨h1, h2, h3, h4⟩ := h.nodes b hb
  unfold parseNodeBlock NodeBlock.vals
  simp only [List.cons_append, List.nil_append]
  refine (rI ht (v := b.dim) (lim := i32) (by unfold i32; omega)).1.bind ?_
  refine (rI ht (v := b.tag) (lim := i32) (by unfold i32; omega)).1.bind ?_
  refine (rB ht).bind ?_
  refine (rU ht (v := b.nodes.length) (max := u64) (by unfold u64; omega)).1.bind ?_
  refine (Reads.need false).bind (vs := []) ?_
  rw [if_neg (by simp)]
  refine (Reads.need b.nodes.length).bind (vs := []) ?_
  have hc := rCopyU (dec := dec) ht (b.nodes.map (·.1)) (by intro x hx; obtain ⟨n, hn, rfl⟩ := List.mem_map.1 hx; exact h4 n hn) (by simpa using h0)
  rw [List.length_map, List.map_map] at hc
  refine hc.bind ?_
  have hp := Reads.repSome (x := readPt dec) b.nodes (vs := fun n => [.real n.2.x, .real n.2.y, .real n.2.z]) (g := (·.2)) fun n _ => pt_reads (dec := dec) ht n.2
  have := hp.bind (f := fun pts => (pure ((b.nodes.map (·.1)).zip pts) : P (List (Nat × Pt K)))) (Reads.pure _)
  rw [List.append_nil, List.zip_map'] at this
  simpa using this

theorem nodes_run (h : D.InRange) (h0 : ∀ b ∈ D.nodeBlocks, b.nodes ≠ []) {text g : List Char} (hs : IsSection dec "$Nodes" "$EndNodes" D.nodeVals text) (hg : Before g "$Nodes") (l : List Char) :
    parseNodeSection dec ⟨g ++ (text ++ l), false, false⟩ = .ok (D.nodes, ⟨l, false, false⟩) := by
  refine section_run (r := some D.nodes) rfl rfl hs hg l fun ws hst hw => ?_
  obtain ⟨n1, n2, n3, n4⟩ := h.nodeHdr
  unfold MeshFile.nodeVals
  refine Ends.bindSome (vs := [_]) (r0 hst (v := D.nodeBlocks.length) (by unfold u64; omega)) ?_
  refine Ends.bindSome (vs := [_]) (r0 hst (v := D.nodeHdr.1) (by unfold u64; omega)) ?_
  refine Ends.bindSome (vs := [_]) (r0 hst (v := D.nodeHdr.2.1) (by unfold u64; omega)) ?_
  refine Ends.bindSome (vs := [_]) (r0 hst (v := D.nodeHdr.2.2) (by unfold u64; omega)) ?_
  have := Reads.repSome (x := parseNodeBlock dec) D.nodeBlocks (vs := NodeBlock.vals) (g := (·.nodes)) fun b hb => nodeBlock_reads (dec := dec) hst h hb (h0 b hb)
  rw [← List.append_nil (D.nodeBlocks.flatMap _)]
  refine Ends.bindSome this (Ends.skip rfl hw ?_)
  rw [← List.flatMap_def]; rfl

/-! ## Elements -/

theorem lookup_nodup {α β : Type} [BEq α] [LawfulBEq α] {l : List (α × β)} (hk : (l.map (·.1)).Nodup) (a : α) (b : β) : l.lookup a = some b ↔ (a, b) ∈ l := by
  induction l with
  | nil => simp
  | cons p l ih =>
    obtain ⟨x, y⟩ := p
    rw [List.map_cons, List.nodup_cons] at hk
    rw [List.lookup_cons]
    by_cases h : a = x
    · subst h
      simp only [beq_self_eq_true, Option.some.injEq, List.mem_cons, Prod.mk.injEq, true_and]
      constructor
      · exact fun h => Or.inl h.symm
      · rintro (h | h)
        · exact h.symm
        · exact absurd (List.mem_map.2 ⟨_, h, rfl⟩) hk.1
    · rw [show (a == x) = false from by simpa using h]
      simp only [List.mem_cons, Prod.mk.injEq, h, false_and, false_or]
      exact ih hk.2

theorem extend_mem (d : Nat) (es : List (Ent K)) : ∀ (m : EntMap) (x : (Nat × Int) × Nat), x ∈ extend d m es ↔ x ∈ m ∨ ∃ e ∈ es, ∃ p, e.phys = some p ∧ x = ((d, (e.tag : Int)), p) := by
  unfold extend
  induction es with
  | nil => intro m x; simp
  | cons e es ih =>
    intro m x
    rw [List.foldl_cons, ih]
    simp only [List.mem_append, List.mem_map, Option.mem_toList, List.mem_cons]
    constructor
    · rintro ((⟨p, hp, rfl⟩ | h) | ⟨e', he, p, hp, hx⟩)
      · exact Or.inr ⟨e, Or.inl rfl, p, hp, rfl⟩
      · exact Or.inl h
      · exact Or.inr ⟨e', Or.inr he, p, hp, hx⟩
    · rintro (h | ⟨e', rfl | he, p, hp, hx⟩)
      · exact Or.inl (Or.inr h)
      · exact Or.inl (Or.inl ⟨p, hp, hx.symm⟩)
      · exact Or.inr ⟨e', he, p, hp, hx⟩

theorem extend_keys (d : Nat) (es : List (Ent K)) : ∀ m : EntMap, (es.map (·.tag)).Nodup → (m.map (·.1)).Nodup → (∀ x ∈ m, ∀ e ∈ es, x.1 ≠ (d, (e.tag : Int))) →
    ((extend d m es).map (·.1)).Nodup := by
  unfold extend
  induction es with
  | nil => intro m _ h _; exact h
  | cons e es ih =>
    intro m ht hm hx
    rw [List.map_cons, List.nodup_cons] at ht
    rw [List.foldl_cons]
    refine ih _ ht.2 ?_ ?_
    · cases hp : e.phys with
      | none => simpa using hm
      | some p =>
        simp only [Option.toList_some, List.map_cons, List.map_nil, List.cons_append, List.nil_append, List.nodup_cons]
        refine ⟨fun h => ?_, hm⟩
        obtain ⟨x, h1, h2⟩ := List.mem_map.1 h
        exact hx x h1 e (by simp) h2
    · intro x h e' he' hc
      rcases List.mem_append.1 h with h | h
      · obtain ⟨p, _, rfl⟩ := List.mem_map.1 h
        simp only [Prod.mk.injEq, true_and, Nat.cast_inj] at hc
        exact ht.1 (hc ▸ List.mem_map.2 ⟨e', he', rfl⟩)
      · exact hx x h e' (by simp [he']) hc

theorem entMap_mem (D : MeshFile K) (x : (Nat × Int) × Nat) : x ∈ entMap D ↔ ∃ d < 4, ∃ e ∈ D.ents d, ∃ p, e.phys = some p ∧ x = ((d, (e.tag : Int)), p) := by
  unfold entMap
  simp only [extend_mem, List.not_mem_nil, false_or]
  constructor
  · rintro (((h | h) | h) | h)
    · exact ⟨0, by omega, h⟩
    · exact ⟨1, by omega, h⟩
    · exact ⟨2, by omega, h⟩
    · exact ⟨3, by omega, h⟩
  · rintro ⟨d, hd, h⟩
    interval_cases d
    · exact Or.inl (Or.inl (Or.inl h))
    · exact Or.inl (Or.inl (Or.inr h))
    · exact Or.inl (Or.inr h)
    · exact Or.inr h

theorem entMap_keys (h : D.InRange) : ((entMap D).map (·.1)).Nodup := by
  unfold entMap
  have key : ∀ (d : Nat) (m : EntMap), d < 4 → (m.map (·.1)).Nodup → (∀ x ∈ m, x.1.1 < d) → ((extend d m (D.ents d)).map (·.1)).Nodup ∧ ∀ x ∈ extend d m (D.ents d), x.1.1 < d + 1 := by
    intro d m hd hm hx
    refine ⟨extend_keys d _ m (h.tags d hd) hm fun x hxm e _ hc => ?_, fun x hxm => ?_⟩
    · have := hx x hxm
      rw [hc] at this
      exact absurd this (by simp)
    · rw [extend_mem] at hxm
      rcases hxm with h | ⟨e, _, p, _, rfl⟩
      · have := hx x h; omega
      · simp
  have k0 := key 0 [] (by omega) (by simp) (by simp)
  have k1 := key 1 _ (by omega) k0.1 k0.2
  have k2 := key 2 _ (by omega) k1.1 k1.2
  exact (key 3 _ (by omega) k2.1 k2.2).1

theorem physical_mem (D : MeshFile K) (x : (Nat × Nat) × Nat) : x ∈ D.physical ↔ ∃ d < 4, ∃ e ∈ D.ents d, ∃ p, e.phys = some p ∧ x = ((d, e.tag), p) := by
  unfold MeshFile.physical
  simp only [List.mem_flatMap, List.mem_range, List.mem_map, Option.mem_toList]
  constructor
  · rintro ⟨d, hd, e, he, p, hp, rfl⟩; exact ⟨d, hd, e, he, p, hp, rfl⟩
  · rintro ⟨d, hd, e, he, p, hp, rfl⟩; exact ⟨d, hd, e, he, p, hp, rfl⟩

theorem flatMap_nodup {α β : Type} {l : List α} {f : α → List β} (hl : l.Nodup) (hf : ∀ a ∈ l, (f a).Nodup) (hd : ∀ a ∈ l, ∀ b ∈ l, ∀ x, x ∈ f a → x ∈ f b → a = b) :
    (l.flatMap f).Nodup := by
  rw [List.nodup_flatMap]
  refine ⟨hf, ?_⟩
  rw [List.pairwise_iff_forall_sublist]
  intro a b hab
  have hm := hab.subset
  have hne : a ≠ b := by have := hl.sublist hab; simpa using this
  intro x hx hx'
  exact hne (hd a (hm (by simp)) b (hm (by simp)) x hx hx')

theorem physical_keys (h : D.InRange) : (D.physical.map (·.1)).Nodup := by
  unfold MeshFile.physical
  rw [List.map_flatMap]
  refine flatMap_nodup List.nodup_range (fun d hd => ?_) ?_
  · rw [List.map_flatMap]
    have ht := h.tags d (List.mem_range.1 hd)
    refine flatMap_nodup (List.Nodup.of_map _ ht) (fun e _ => by cases e.phys <;> simp) ?_
    intro a ha b hb x hx hx'
    simp only [List.map_map, List.mem_map, Option.mem_toList, Function.comp] at hx hx'
    obtain ⟨p, _, rfl⟩ := hx
    obtain ⟨q, _, hq⟩ := hx'
    simp only [Prod.mk.injEq, true_and] at hq
    exact List.inj_on_of_nodup_map ht ha hb hq.symm
  · intro a _ b _ x hx hx'
    simp only [List.map_flatMap, List.mem_flatMap, List.map_map, List.mem_map, Function.comp] at hx hx'
    obtain ⟨e, _, p, _, rfl⟩ := hx
    obtain ⟨e', _, q, _, hq⟩ := hx'
    simp only [Prod.mk.injEq] at hq
    exact hq.1.symm

theorem domain_lookup (h : D.InRange) (d t : Nat) : (entMap D).lookup (d, (t : Int)) = D.physical.lookup (d, t) := by
  apply Option.ext
  intro p
  rw [lookup_nodup (entMap_keys h), lookup_nodup (physical_keys h), entMap_mem, physical_mem]
  constructor
  · rintro ⟨d', hd, e, he, p', hp, hx⟩
    simp only [Prod.mk.injEq, Nat.cast_inj] at hx
    obtain ⟨⟨rfl, rfl⟩, rfl⟩ := hx
    exact ⟨d, hd, e, he, p, hp, rfl⟩
  · rintro ⟨d', hd, e, he, p', hp, hx⟩
    simp only [Prod.mk.injEq] at hx
    obtain ⟨⟨rfl, rfl⟩, rfl⟩ := hx
    exact ⟨d, hd, e, he, p, hp, rfl⟩

theorem element_reads {tail : List Char} (ht : StartsWs tail) (eps : K) (nodes : Algo.AMap Nat (Nat × Pt K)) (dom : Nat) (ty : ElType) (e : Nat × List Nat)
    (h1 : e.1 < 2 ^ 64) (h2 : ∀ n ∈ e.2, n < 2 ^ 64) (h3 : e.2.length = 2 ^ ty.dim) :
    Reads dec tail (readElement eps nodes dom ty) (.nat e.1 :: e.2.map .nat) ((e.2.mapM fun t => nodes.find t).map fun info =>
      (dom, ⟨ty, 2, 0, (arrange eps ty info).map (·.1)⟩, (arrange eps ty info).map (·.2))) := by
  unfold readElement
  refine (rU ht (v := e.1) (max := u64) (by unfold u64; omega)).1.bind (vs := [_]) ?_
  rw [← h3, ← List.append_nil (e.2.map _)]
  refine (rCopyU ht e.2 h2 ?_).bind ?_
  · intro h0
    rw [h0] at h3
    have := Nat.two_pow_pos ty.dim
    simp at h3; omega
  · rw [Option.map_eq_bind]
    exact (Reads.orThrow _).seq0 (vs := []) fun info _ => Reads.pure _

theorem block_reads {tail : List Char} (ht : StartsWs tail) (h : D.InRange) (eps : K) (nodes : Algo.AMap Nat (Nat × Pt K)) {b : ElBlock} (hb : b ∈ D.elBlocks) :
    Reads dec tail (parseBlock eps (entMap D) nodes) b.vals (blockEvents eps D.physical nodes ⟨b.dim, b.tag, b.type, b.els.map (·.2)⟩) := by
  obtain ⟨h1, h2, h3, h4, h5⟩ := h.els b hb
  unfold parseBlock ElBlock.vals
  simp only [List.cons_append, List.nil_append]
  refine (rI ht (v := b.dim) (lim := i32) (by unfold i32; omega)).1.bind (vs := [_]) ?_
  refine (rI ht (v := b.tag) (lim := i32) (by unfold i32; omega)).1.bind (vs := [_]) ?_
  refine (rI ht (v := b.type) (lim := i32) (by unfold i32; omega)).1.bind (vs := [_]) ?_
  refine (rU ht (v := b.els.length) (max := u64) (by unfold u64; omega)).1.bind (vs := [_]) ?_
  refine (Reads.need (b.dim : Int)).bind (vs := []) ?_
  refine (Reads.need (b.tag : Int)).bind (vs := []) ?_
  unfold blockEvents
  simp only
  have hdom : Reads dec tail (domainOf (entMap D) b.dim b.tag) [] (D.physical.lookup (b.dim, b.tag)) := by
    unfold domainOf
    rw [if_neg (by omega), Int.toNat_natCast, domain_lookup h]
    exact Reads.orThrow _
  refine hdom.bindOpt (vs := []) fun dom _ => ?_
  refine (Reads.need (b.type : Int)).bind (vs := []) ?_
  have hty : elTypeI b.type = elType b.type := by
    unfold elTypeI
    rw [if_neg (by omega), Int.toNat_natCast]
  rw [hty]
  refine (Reads.orThrow (elType b.type)).bindOpt (vs := []) fun ty hty => ?_
  refine (Reads.need b.els.length).bind (vs := []) ?_
  have := Reads.rep (x := readElement eps nodes dom ty) b.els (vs := fun e => .nat e.1 :: e.2.map .nat) fun e he =>
    element_reads (dec := dec) ht eps nodes dom ty e (h5 e he).1 (h5 e he).2.1 ((h5 e he).2.2 ty hty)
  rwa [List.mapM_map]

theorem elements_run (h : D.InRange) (eps : K) (nodes : Algo.AMap Nat (Nat × Pt K)) {text g : List Char} (hs : IsSection dec "$Elements" "$EndElements" D.elVals text)
    (hg : Before g "$Elements") (l : List Char) :
    parseElements eps (entMap D) nodes ⟨g ++ (text ++ l), false, false⟩ = outcome l ((D.blocks.mapM (blockEvents eps D.physical nodes)).map List.flatten) := by
  refine section_run rfl rfl hs hg l fun ws hst hw => ?_
  obtain ⟨n1, n2, n3, n4⟩ := h.elHdr
  unfold MeshFile.elVals
  refine Ends.bindSome (vs := [_]) (rU hst (v := D.elBlocks.length) (max := u64) (by unfold u64; omega)).1 ?_
  refine Ends.bindSome (vs := [_]) (rU hst (v := D.elHdr.1) (max := u64) (by unfold u64; omega)).1 ?_
  refine Ends.bindSome (vs := [_]) (rU hst (v := D.elHdr.2.1) (max := u64) (by unfold u64; omega)).1 ?_
  refine Ends.bindSome (vs := [_]) (rU hst (v := D.elHdr.2.2) (max := u64) (by unfold u64; omega)).1 ?_
  refine Ends.bindSome (vs := []) (Reads.need D.elBlocks.length) ?_
  have := Reads.rep (x := parseBlock eps (entMap D) nodes) D.elBlocks (vs := ElBlock.vals) fun b hb => block_reads (dec := dec) hst h eps nodes hb
  rw [← List.flatMap_def, ← List.append_nil (D.elBlocks.flatMap _)]
  have e := Ends.bind (l := l) (f := fun bs : List (List (Nat × Element × List (Pt K))) => (GmshText.skip "$EndElements" >>= fun _ => pure bs.flatten : P _)) this
    (vs' := []) (g := fun bs => some bs.flatten) fun bs _ => Ends.skip rfl hw rfl
  unfold MeshFile.blocks
  rw [List.mapM_map, Option.map_eq_bind]
  exact e

end

end Verif.GmshText
