import Verif.ExpRun.Spec
/-! # The invariant of an exporter in use -/
namespace Verif.ExpRun
open Verif Verif.Vtk Spec

theorem names_differ (name : List Byte) (r : Nat) : vtuName name r ≠ pvtuName name := by
  by_cases h : fileName name = []
  · have hx : extText (str "vtu") = str ".vtu" := by decide
    have hp : extText (str "pvtu") = str ".pvtu" := by decide
    have hj := split_join (dirPart name) (str ".vtu") (dirPart_shape name) (by decide)
    have hs : stemOf (str ".vtu") = str ".vtu" := by decide
    have h0 : stemOf [] = [] := by decide
    have he : extText [] = [] := by decide
    unfold vtuName makeVtuFileName pvtuName replaceExt
    rw [h, h0, hx, hp, he, List.append_nil, List.append_nil, hj.1, hj.2, hs]
    simp only [List.append_assoc]
    intro e
    have e := List.append_cancel_left e
    rw [show str ".vtu" = 46#8 :: 118#8 :: str "tu" by decide, show str ".pvtu" = 46#8 :: 112#8 :: str "vtu" by decide,
      List.cons_append, List.cons_append, List.cons.injEq, List.cons.injEq] at e
    exact absurd e.2.1 (by decide)
  · exact (C76_distinct name h r 0).2

/-! ### Documents written one after another -/

theorem settle_append (d0 : List Byte → List Byte) (h n : List (List Byte × List Byte)) (p : List Byte) :
    settle d0 (h ++ n) p = settle (settle d0 h) n p := by
  unfold settle; rw [List.foldl_append]

theorem settle_none (d0 : List Byte → List Byte) (n : List (List Byte × List Byte)) (p : List Byte) (h : ∀ T, (p, T) ∉ n) :
    settle d0 n p = d0 p := by
  unfold settle
  generalize d0 p = f
  induction n generalizing f with
  | nil => rfl
  | cons x n ih =>
    obtain ⟨q, U⟩ := x
    have hq : q ≠ p := by rintro rfl; exact h U (by simp)
    rw [List.foldl_cons, if_neg hq]
    exact ih (fun T hT => h T (List.mem_cons_of_mem _ hT)) f

theorem over_over (f T : List Byte) : over (over f T) T = over f T := by
  unfold over; rw [List.drop_left]

/-- In a list with one entry per path. -/
theorem settle_unique (d0 : List Byte → List Byte) {n : List (List Byte × List Byte)} (hd : ∀ a ∈ n, ∀ b ∈ n, a.1 = b.1 → a = b)
    {p T : List Byte} (m : (p, T) ∈ n) : settle d0 n p = over (d0 p) T := by
  have key : ∀ (n : List (List Byte × List Byte)) (f : List Byte), (∀ a ∈ n, a.1 = p → a = (p, T)) →
      (f = over (d0 p) T ∨ (f = d0 p ∧ (p, T) ∈ n)) → n.foldl (fun f x => if x.1 = p then over f x.2 else f) f = over (d0 p) T := by
    intro n
    induction n with
    | nil => intro f _ h; simpa using h
    | cons x n ih =>
      intro f ha h
      rw [List.foldl_cons]
      refine ih _ (fun a ha' => ha a (List.mem_cons_of_mem _ ha')) ?_
      by_cases hx : x.1 = p
      · have hx' := ha x List.mem_cons_self hx
        subst hx'
        left
        rw [if_pos hx]
        rcases h with rfl | ⟨rfl, _⟩
        · exact over_over _ _
        · rfl
      · rw [if_neg hx]
        rcases h with h | ⟨h, hm⟩
        · exact Or.inl h
        · rcases List.mem_cons.1 hm with e | hm
          · rw [← e] at hx; exact absurd rfl hx
          · exact Or.inr ⟨h, hm⟩
  exact key n (d0 p) (fun a ha e => hd a ha _ m e) (Or.inr ⟨rfl, m⟩)

theorem over_in (f T : List Byte) (i : Nat) (h : i < T.length) : (over f T)[i]? = T[i]? := by
  unfold over; rw [List.getElem?_append_left h]

theorem over_out (f T : List Byte) (i : Nat) (h : T.length ≤ i) : (over f T)[i]? = f[i]? := by
  unfold over
  rw [List.getElem?_append_right h, List.getElem?_drop, Nat.add_sub_cancel' h]

/-! ### The invariant -/

/-- `h`: files exported so far. -/
structure Inv (d0 : List Byte → List Byte) (h : List (List Byte × List Byte)) (s : St) : Prop where
  agree : ∀ w ∈ s.out, ∃ t, bytesOf s w.buf = some t ∧ t.length = w.len ∧ ∀ j < t.length, (settle d0 h w.path)[w.off + j]? = t[j]?
  cover : ∀ p i, (s.disk p)[i]? = (settle d0 h p)[i]? ∨ ∃ w ∈ s.out, w.path = p ∧ w.off ≤ i ∧ i < w.off + w.len

theorem inv_start (ex : Exporter) (d0 : List Byte → List Byte) : Inv d0 [] (start ex d0) where
  agree := by simp [start]
  cover := fun _ _ => Or.inl rfl

/-- With nothing outstanding the disk is settled. -/
theorem Inv.settled {d0 h s} (i : Inv d0 h s) (ho : s.out = []) : s.disk = settle d0 h := by
  funext p
  apply List.ext_getElem?
  intro k
  rcases i.cover p k with hc | ⟨w, hw, _⟩
  · exact hc
  · rw [ho] at hw; simp at hw

theorem mem_eraseIdx_or {α : Type} {l : List α} {i : Nat} {w x : α} (hi : l[i]? = some w) (hx : x ∈ l) : x = w ∨ x ∈ l.eraseIdx i := by
  obtain ⟨j, hj, rfl⟩ := List.getElem_of_mem hx
  by_cases e : j = i
  · subst e; left
    rw [List.getElem?_eq_getElem hj] at hi; exact Option.some.inj hi
  · right
    exact List.mem_eraseIdx_iff_getElem.2 ⟨j, hj, e, rfl⟩

/-- A write reaches the file. -/
theorem Inv.store {d0 h s} (i : Inv d0 h s) {k : Nat} {w : Pending} (hk : s.out[k]? = some w) {t : List Byte} (ht : bytesOf s w.buf = some t) :
    Inv d0 h (store s k w t) := by
  have hw : w ∈ s.out := List.mem_of_getElem? hk
  obtain ⟨t', ht', hlen, hag⟩ := i.agree w hw
  rw [ht] at ht'
  cases ht'
  have htake : t.take w.len = t := List.take_of_length_le (by omega)
  have hend : t ≠ [] → w.off + t.length ≤ (settle d0 h w.path).length := by
    intro hne
    have hp : 0 < t.length := List.length_pos_iff.2 hne
    have := hag (t.length - 1) (by omega)
    rw [List.getElem?_eq_getElem (show t.length - 1 < t.length by omega)] at this
    obtain ⟨h1, _⟩ := List.getElem?_eq_some_iff.1 this
    omega
  have hsame : (ExpRun.store s k w t).disk w.path = File.pwrite (s.disk w.path) (w.off, t) := by
    simp [ExpRun.store, htake]
  have hoth : ∀ p, p ≠ w.path → (ExpRun.store s k w t).disk p = s.disk p := fun p hp => by
    simp [ExpRun.store, Function.update_of_ne hp]
  constructor
  · intro x hx
    exact i.agree x (List.mem_of_mem_eraseIdx hx)
  · intro p j
    by_cases hp : p = w.path
    · subst hp
      rw [hsame]
      by_cases hin : w.off ≤ j ∧ j < w.off + t.length
      · left
        obtain ⟨m, rfl⟩ := Nat.exists_eq_add_of_le hin.1
        rw [File.pwrite_in _ (w.off, t) m (show m < t.length by omega), hag m (by omega)]
      · rcases i.cover w.path j with hc | ⟨x, hx, h1, h2, h3⟩
        · left
          cases hd : (s.disk w.path)[j]? with
          | some b =>
            rw [← hc, hd]
            exact File.pwrite_out _ _ j _ (by simp only; omega) hd
          | none =>
            rw [← hc, hd]
            rw [hd] at hc
            have h1 := List.getElem?_eq_none_iff.1 hd
            have h2 := List.getElem?_eq_none_iff.1 hc.symm
            apply List.getElem?_eq_none
            unfold File.pwrite
            split
            · exact h1
            · rename_i hne
              have := hend (by simpa using hne)
              simp only [List.length_append, List.length_take, List.length_replicate, List.length_drop]
              omega
        · rcases mem_eraseIdx_or hk hx with rfl | hx'
          · exact absurd ⟨h2, by omega⟩ hin
          · exact Or.inr ⟨x, hx', h1, h2, h3⟩
    · rw [hoth p hp]
      rcases i.cover p j with hc | ⟨x, hx, h1, h2, h3⟩
      · exact Or.inl hc
      · rcases mem_eraseIdx_or hk hx with rfl | hx'
        · exact absurd h1.symm hp
        · exact Or.inr ⟨x, hx', h1, h2, h3⟩

/-- New writes are started while nothing is outstanding. -/
theorem Inv.batch {d0 h s} (i : Inv d0 h s) (ho : s.out = []) {n : List (List Byte × List Byte)} {q : List Pending}
    (hd : ∀ a ∈ n, ∀ b ∈ n, a.1 = b.1 → a = b)
    (ha : ∀ w ∈ q, ∃ T t, (w.path, T) ∈ n ∧ bytesOf s w.buf = some t ∧ t.length = w.len ∧ ∀ j < t.length, T[w.off + j]? = t[j]?)
    (hc : ∀ p T, (p, T) ∈ n → ∀ k < T.length, ∃ w ∈ q, w.path = p ∧ w.off ≤ k ∧ k < w.off + w.len) :
    Inv d0 (h ++ n) { s with out := q } := by
  have hb : ∀ b, bytesOf { s with out := q } b = bytesOf s b := fun b => by cases b <;> rfl
  constructor
  · intro w hw
    obtain ⟨T, t, h1, h2, h3, h4⟩ := ha w hw
    refine ⟨t, (hb _).trans h2, h3, fun j hj => ?_⟩
    have h5 := h4 j hj
    rw [settle_append, settle_unique _ hd h1]
    rw [List.getElem?_eq_getElem hj] at h5
    rw [over_in _ _ _ (List.getElem?_eq_some_iff.1 h5).1, h4 j hj]
  · intro p k
    rw [settle_append]
    by_cases hm : ∃ T, (p, T) ∈ n
    · obtain ⟨T, m⟩ := hm
      by_cases hk : k < T.length
      · exact Or.inr (hc p T m k hk)
      · left
        rw [settle_unique _ hd m, over_out _ _ _ (by omega)]
        change (s.disk p)[k]? = _
        rw [i.settled ho]
    · left
      rw [settle_none _ _ _ fun T hT => hm ⟨T, hT⟩]
      change (s.disk p)[k]? = _
      rw [i.settled ho]

/-! ### Writes of one file -/

/-- Bytes of consecutive texts. -/
theorem enqueue_spec (s : St) (path : List Byte) (l : List (Buf × Nat)) (bs : List (List Byte))
    (hl : List.Forall₂ (fun b t => bytesOf s b.1 = some t ∧ t.length = b.2) l bs) (pre : List Byte) :
    (∀ w ∈ enqueue path pre.length l, w.path = path ∧ ∃ t, bytesOf s w.buf = some t ∧ t.length = w.len ∧
      ∀ j < t.length, (pre ++ bs.flatten)[w.off + j]? = t[j]?) ∧
    ∀ k, pre.length ≤ k → k < pre.length + bs.flatten.length → ∃ w ∈ enqueue path pre.length l, w.path = path ∧ w.off ≤ k ∧ k < w.off + w.len := by
  induction hl generalizing pre with
  | nil => exact ⟨by simp [enqueue], fun k h1 h2 => by simp at h2; omega⟩
  | @cons b t l bs hb _ ih =>
    obtain ⟨b, n⟩ := b
    obtain ⟨h1, rfl⟩ := hb
    have ih' := ih (pre ++ t)
    rw [List.length_append] at ih'
    constructor
    · intro w hw
      rcases List.mem_cons.1 hw with rfl | hw
      · refine ⟨rfl, t, h1, rfl, fun j hj => ?_⟩
        rw [List.getElem?_append_right (by simp), List.flatten_cons, List.getElem?_append_left (by simpa using hj)]
        simp
      · have := ih'.1 w hw
        rwa [List.append_assoc] at this
    · intro k h2 h3
      rw [List.flatten_cons, List.length_append] at h3
      by_cases hk : k < pre.length + t.length
      · exact ⟨_, List.mem_cons_self, rfl, h2, hk⟩
      · obtain ⟨w, hw, h4⟩ := ih'.2 k (by omega) (by omega)
        exact ⟨w, List.mem_cons_of_mem _ hw, h4⟩

theorem forall2_own (s : St) (l : List (List Byte)) : List.Forall₂ (fun b t => bytesOf s b.1 = some t ∧ t.length = b.2) (l.map own) l := by
  induction l with
  | nil => exact .nil
  | cons a l ih => exact .cons ⟨rfl, rfl⟩ ih

theorem pvtu_spec (env : Env) (s : St) (name : List Byte) (fields : List FieldDef) :
    let n := if env.rank = 0 then [(pvtuName name, pvtuFile name env.nRanks fields)] else []
    (∀ w ∈ pvtuPending env name fields, ∃ T t, (w.path, T) ∈ n ∧ bytesOf s w.buf = some t ∧ t.length = w.len ∧ ∀ j < t.length, T[w.off + j]? = t[j]?) ∧
    ∀ p T, (p, T) ∈ n → ∀ k < T.length, ∃ w ∈ pvtuPending env name fields, w.path = p ∧ w.off ≤ k ∧ k < w.off + w.len := by
  intro n
  by_cases hr : env.rank = 0
  · have hn : n = [(pvtuName name, pvtuFile name env.nRanks fields)] := if_pos hr
    have := enqueue_spec s (pvtuName name) [own (pvtuFile name env.nRanks fields)] [pvtuFile name env.nRanks fields]
      (forall2_own s [_]) []
    rw [List.length_nil, List.nil_append, List.flatten_singleton] at this
    rw [hn, pvtuPending, if_pos hr]
    constructor
    · intro w hw
      obtain ⟨h1, t, h2⟩ := this.1 w hw
      exact ⟨_, t, by rw [h1]; simp, h2⟩
    · intro p T hm k hk
      simp only [List.mem_singleton, Prod.mk.injEq] at hm
      obtain ⟨rfl, rfl⟩ := hm
      exact this.2 k (Nat.zero_le _) (by omega)
  · have hn : n = [] := if_neg hr
    rw [hn, pvtuPending, if_neg hr]
    simp

theorem vtu_spec (env : Env) (s : St) (hal : s.alive = true) (name : List Byte) (fields : List FieldDef) (enc : List (List Byte)) :
    (∀ w ∈ vtuPending env s name fields enc, w.path = vtuName name env.rank ∧ ∃ t, bytesOf s w.buf = some t ∧ t.length = w.len ∧
      ∀ j < t.length, (document s.ex fields enc)[w.off + j]? = t[j]?) ∧
    ∀ k < (document s.ex fields enc).length, ∃ w ∈ vtuPending env s name fields enc, w.path = vtuName name env.rank ∧ w.off ≤ k ∧ k < w.off + w.len := by
  have hf : List.Forall₂ (fun b t => bytesOf s b.1 = some t ∧ t.length = b.2) (vtuTexts s fields enc)
      ([description s.ex fields (enc.map List.length), s.ex.encodedCoords, s.ex.encodedTopo] ++ enc ++ [vtuPostamble]) := by
    refine List.rel_append (List.rel_append ?_ (forall2_own s enc)) (forall2_own s [_])
    exact .cons ⟨rfl, rfl⟩ (.cons ⟨by simp [bytesOf, hal], rfl⟩ (.cons ⟨by simp [bytesOf, hal], rfl⟩ .nil))
  have := enqueue_spec s (vtuName name env.rank) _ _ hf []
  rw [List.length_nil, List.nil_append, doc_flatten] at this
  exact ⟨this.1, fun k hk => this.2 k (Nat.zero_le _) (by unfold document at hk; omega)⟩

/-! ### Events -/

theorem step_call (env : Env) (s : St) (c : Call) : step env s (.call c) = if s.alive = false then .misuse else call env s c := rfl

theorem step_complete (env : Env) (s : St) (k : Nat) : step env s (.complete k) = s.out[k]?.elim .blocked (carryOut s k) := rfl

theorem step_destroy (env : Env) (s : St) : step env s .destroy =
    if s.alive = false then .misuse else if s.out ≠ [] then .blocked else .done { s with alive := false } := rfl

theorem call_flush (env : Env) (s : St) : call env s .flush = if s.out ≠ [] then .blocked else .done s := rfl

theorem exported_sol (env : Env) (e : Exporter) (name : List Byte) (fields : List FieldDef) (nFields : Nat) (sol : Nat → List Base64.Val) :
    exported env e (.exportSol name fields nFields sol) =
      if (fields.all fun f => f.inds.all (· < nFields)) = false then []
      else (if env.rank = 0 then [(pvtuName name, pvtuFile name env.nRanks fields)] else []) ++
        ((fields.mapM (encodeField env.avx sol)).map fun enc => (vtuName name env.rank, document e fields enc)).toList := rfl

/-- The state an outcome leaves. -/
def Leaves (o : Outcome) (s : St) : Prop := o = .done s ∨ o = .threw s

theorem exported_unique (env : Env) (e : Exporter) (c : Call) : ∀ a ∈ exported env e c, ∀ b ∈ exported env e c, a.1 = b.1 → a = b := by
  cases c with
  | exportSol name fields nFields sol =>
    rw [exported_sol]
    split
    · simp
    · have hne := names_differ name env.rank
      intro a ha b hb hab
      have hcase : ∀ x ∈ (if env.rank = 0 then [(pvtuName name, pvtuFile name env.nRanks fields)] else []) ++
          ((fields.mapM (encodeField env.avx sol)).map fun enc => (vtuName name env.rank, document e fields enc)).toList,
          x = (pvtuName name, pvtuFile name env.nRanks fields) ∨
          (x.1 = vtuName name env.rank ∧ (fields.mapM (encodeField env.avx sol)).map (fun enc => (vtuName name env.rank, document e fields enc)) = some x) := by
        intro x hx
        rcases List.mem_append.1 hx with h | h
        · left; split at h <;> simp at h; exact h
        · right
          rw [Option.mem_toList] at h
          refine ⟨?_, h⟩
          obtain ⟨_, _, rfl⟩ := Option.map_eq_some_iff.1 h
          rfl
      rcases hcase a ha with rfl | ⟨h1, h2⟩ <;> rcases hcase b hb with rfl | ⟨h3, h4⟩
      · rfl
      · exact absurd (h3.symm.trans hab.symm) hne
      · exact absurd (h1.symm.trans hab) hne
      · rw [h2] at h4; exact Option.some.inj h4
  | updateCoords _ => simp [exported]
  | flush => simp [exported]

/-- Files exported by one event. -/
def exportedBy (env : Env) (e : Exporter) : Event → List (List Byte × List Byte)
  | .call c => exported env e c
  | _ => []

/-- Mesh after one event. -/
def meshBy (e : Exporter) : Event → Exporter
  | .call c => meshAfter e c
  | _ => e

theorem exports_cons (env : Env) (e : Exporter) (ev : Event) (es : List Event) :
    exports env e (ev :: es) = exportedBy env e ev ++ exports env (meshBy e ev) es := by
  cases ev <;> rfl

theorem Inv.dead {d0 h s} (i : Inv d0 h s) (ho : s.out = []) : Inv d0 h { s with alive := false } :=
  ⟨by intro w hw; change w ∈ s.out at hw; rw [ho] at hw; simp at hw, i.cover⟩

theorem Inv.moved {d0 h s} (i : Inv d0 h s) (ho : s.out = []) (x : Exporter) (v : Nat) : Inv d0 h { s with ex := x, ver := v } :=
  ⟨by intro w hw; change w ∈ s.out at hw; rw [ho] at hw; simp at hw, i.cover⟩

theorem step_inv (env : Env) {d0 h s s'} (i : Inv d0 h s) (ev : Event) (hs : Leaves (step env s ev) s') :
    Inv d0 (h ++ exportedBy env s.ex ev) s' ∧ s'.ex = meshBy s.ex ev := by
  cases ev with
  | complete k =>
    rw [step_complete] at hs
    cases hk : s.out[k]? with
    | none => rw [hk] at hs; rcases hs with hs | hs <;> cases hs
    | some w =>
      rw [hk] at hs
      obtain ⟨t, ht, _⟩ := i.agree w (List.mem_of_getElem? hk)
      change Leaves (carryOut s k w) s' at hs
      unfold carryOut at hs
      rw [ht] at hs
      rcases hs with hs | hs <;> cases hs
      refine ⟨?_, rfl⟩
      change Inv d0 (h ++ []) _
      rw [List.append_nil]
      exact i.store hk ht
  | destroy =>
    rw [step_destroy] at hs
    split at hs
    · rcases hs with hs | hs <;> cases hs
    · split at hs
      · rcases hs with hs | hs <;> cases hs
      · rename_i ho
        rcases hs with hs | hs <;> cases hs
        refine ⟨?_, rfl⟩
        change Inv d0 (h ++ []) _
        rw [List.append_nil]
        exact i.dead (not_not.1 ho)
  | call c =>
    rw [step_call] at hs
    split at hs
    · rcases hs with hs | hs <;> cases hs
    rename_i hal
    rw [Bool.not_eq_false] at hal
    cases c with
    | flush =>
      rw [call_flush] at hs
      split at hs
      · rcases hs with hs | hs <;> cases hs
      · rcases hs with hs | hs <;> cases hs
        refine ⟨?_, rfl⟩
        change Inv d0 (h ++ []) _
        rw [List.append_nil]
        exact i
    | updateCoords text =>
      change Leaves (updateCoords s text) s' at hs
      unfold updateCoords at hs
      split at hs
      · rcases hs with hs | hs <;> cases hs
      · rename_i ho
        rcases hs with hs | hs <;> cases hs
        refine ⟨?_, rfl⟩
        change Inv d0 (h ++ []) _
        rw [List.append_nil]
        exact i.moved (not_not.1 ho) _ _
    | exportSol name fields nFields sol =>
      change Leaves (ExpRun.exportSol env s name fields nFields sol) s' at hs
      have hu := exported_unique env s.ex (.exportSol name fields nFields sol)
      change Inv d0 (h ++ exported env s.ex (.exportSol name fields nFields sol)) s' ∧ s'.ex = s.ex
      rw [exported_sol] at hu ⊢
      unfold ExpRun.exportSol at hs
      split at hs
      · rename_i hr
        rw [if_pos hr, List.append_nil]
        rcases hs with hs | hs <;> cases hs
        exact ⟨i, rfl⟩
      · rename_i hr
        rw [if_neg hr] at hu ⊢
        split at hs
        · rcases hs with hs | hs <;> cases hs
        · rename_i ho
          have ho := not_not.1 ho
          have hp := pvtu_spec env s name fields
          cases he : fields.mapM (encodeField env.avx sol) with
          | none =>
            rw [he] at hs hu
            rcases hs with hs | hs <;> cases hs
            refine ⟨i.batch ho hu ?_ ?_, rfl⟩
            · intro w hw
              obtain ⟨T, t, h1, h2⟩ := hp.1 w hw
              exact ⟨T, t, List.mem_append_left _ h1, h2⟩
            · intro p T hm
              exact hp.2 p T (by simpa using hm)
          | some enc =>
            rw [he] at hs hu
            have hv := vtu_spec env s hal name fields enc
            rcases hs with hs | hs <;> cases hs
            refine ⟨i.batch ho hu ?_ ?_, rfl⟩
            · intro w hw
              rcases List.mem_append.1 hw with hw | hw
              · obtain ⟨T, t, h1, h2⟩ := hp.1 w hw
                exact ⟨T, t, List.mem_append_left _ h1, h2⟩
              · obtain ⟨h1, t, h2⟩ := hv.1 w hw
                exact ⟨document s.ex fields enc, t, List.mem_append_right _ (by rw [h1]; simp), h2⟩
            · intro p T hm k hk
              rcases List.mem_append.1 hm with hm | hm
              · obtain ⟨w, hw, h1⟩ := hp.2 p T hm k hk
                exact ⟨w, List.mem_append_left _ hw, h1⟩
              · simp only [Option.map_some, Option.toList_some, List.mem_singleton, Prod.mk.injEq] at hm
                obtain ⟨rfl, rfl⟩ := hm
                obtain ⟨w, hw, h1⟩ := hv.2 k hk
                exact ⟨w, List.mem_append_right _ hw, h1⟩

theorem step_defined (env : Env) {s : St} (hb : ∀ w ∈ s.out, ∃ t, bytesOf s w.buf = some t) (ev : Event) : step env s ev ≠ .undefined := by
  cases ev with
  | complete k =>
    rw [step_complete]
    cases hk : s.out[k]? with
    | none => exact fun e => by cases e
    | some w =>
      obtain ⟨t, ht⟩ := hb w (List.mem_of_getElem? hk)
      change carryOut s k w ≠ _
      unfold carryOut
      rw [ht]
      exact fun e => by cases e
  | destroy =>
    rw [step_destroy]
    split
    · exact fun e => by cases e
    · split <;> exact fun e => by cases e
  | call c =>
    rw [step_call]
    split
    · exact fun e => by cases e
    · cases c with
      | flush => rw [call_flush]; split <;> exact fun e => by cases e
      | updateCoords t =>
        change updateCoords s t ≠ _
        unfold updateCoords
        split <;> exact fun e => by cases e
      | exportSol name fields nFields sol =>
        change ExpRun.exportSol env s name fields nFields sol ≠ _
        unfold ExpRun.exportSol
        split
        · exact fun e => by cases e
        · split
          · exact fun e => by cases e
          · cases fields.mapM (encodeField env.avx sol) <;> exact fun e => by cases e

theorem run_inv (env : Env) (es : List Event) : ∀ {d0 h s s'}, Inv d0 h s → run env s es = .done s' →
    Inv d0 (h ++ exports env s.ex es) s' := by
  induction es with
  | nil => intro d0 h s s' i hr; cases hr; rw [exports, List.append_nil]; exact i
  | cons e es ih =>
    intro d0 h s s' i hr
    unfold run at hr
    obtain ⟨s1, h1, h2⟩ : ∃ s1, Leaves (step env s e) s1 ∧ run env s1 es = .done s' := by
      cases hst : step env s e <;> rw [hst] at hr
      · cases hr
      · cases hr
      · cases hr
      · exact ⟨_, Or.inr rfl, hr⟩
      · exact ⟨_, Or.inl rfl, hr⟩
    obtain ⟨i1, hx⟩ := step_inv env i e h1
    have := ih i1 h2
    rwa [hx, List.append_assoc, ← exports_cons] at this

theorem run_defined (env : Env) (es : List Event) : ∀ {d0 h s}, Inv d0 h s → run env s es ≠ .undefined := by
  induction es with
  | nil => intro d0 h s i e; cases e
  | cons e es ih =>
    intro d0 h s i hr
    unfold run at hr
    cases hst : step env s e <;> rw [hst] at hr
    · cases hr
    · exact step_defined env (fun w hw => (i.agree w hw).imp fun _ h => h.1) e hst
    · cases hr
    · exact ih (step_inv env i e (Or.inr hst)).1 hr
    · exact ih (step_inv env i e (Or.inl hst)).1 hr

/-! ### Waiting -/

/-- Any outstanding write can be carried out. -/
theorem complete_ok (env : Env) {d0 h s} (i : Inv d0 h s) {k : Nat} (hk : k < s.out.length) :
    ∃ w t, s.out[k]? = some w ∧ bytesOf s w.buf = some t ∧ step env s (.complete k) = .done (store s k w t) := by
  have e : s.out[k]? = some s.out[k] := List.getElem?_eq_getElem hk
  obtain ⟨t, ht, _⟩ := i.agree _ (List.mem_of_getElem? e)
  refine ⟨_, t, e, ht, ?_⟩
  rw [step_complete, e]
  change carryOut s k _ = _
  unfold carryOut
  rw [ht]; rfl

theorem drain (env : Env) {d0 h} (n : Nat) : ∀ {s : St}, Inv d0 h s → s.out.length = n →
    ∃ s', run env s (List.replicate n (.complete 0)) = .done s' ∧ s'.out = [] ∧ s'.alive = s.alive ∧ s'.ex = s.ex := by
  induction n with
  | zero => intro s i hn; exact ⟨s, rfl, List.length_eq_zero_iff.1 hn, rfl, rfl⟩
  | succ n ih =>
    intro s i hn
    obtain ⟨w, t, h1, h2, h3⟩ := complete_ok env i (k := 0) (by omega)
    obtain ⟨s', h4, h5, h6, h7⟩ := ih (i.store h1 h2) (by
      change (s.out.eraseIdx 0).length = n
      rw [List.length_eraseIdx_of_lt (by omega)]; omega)
    refine ⟨s', ?_, h5, h6, h7⟩
    rw [List.replicate_succ, run, h3]
    exact h4

theorem run_append (env : Env) (a b : List Event) : ∀ {s s' : St}, run env s a = .done s' → run env s (a ++ b) = run env s' b := by
  induction a with
  | nil => intro s s' h; cases h; rfl
  | cons e a ih =>
    intro s s' h
    rw [List.cons_append]
    change (step env s e).bind (fun s'' => run env s'' (a ++ b)) = run env s' b
    change (step env s e).bind (fun s'' => run env s'' a) = .done s' at h
    cases hst : step env s e <;> rw [hst] at h
    · cases h
    · cases h
    · cases h
    · exact ih h
    · exact ih h

end Verif.ExpRun
