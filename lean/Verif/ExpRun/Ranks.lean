import Verif.ExpRun.Read
/-!
# C139: all ranks on one file system

Model: every rank has its exporter and its outstanding writes; the disk is common (a parallel file system, as
`std::filesystem` and `MPI_File_open` on `MPI_COMM_SELF` use it, VtkExport.hpp 491-496, 507-510).  Events of the ranks
are interleaved in any way.
-/
namespace Verif.ExpRun
open Verif Verif.Vtk Verif.Vtk.Spec Spec

/-- The ranks (the `disk` of their states is not used) and the common disk. (VtkExport.hpp 92-96) -/
structure World where
  st : Nat → St
  disk : List Byte → List Byte

/-- The state rank `r` works on. (VtkExport.hpp 92-96) -/
def view (W : World) (r : Nat) : St := { W.st r with disk := W.disk }

/-- The rank has taken a step. (VtkExport.hpp 532-549, 566-571) -/
def put (W : World) (r : Nat) (s : St) : World := ⟨Function.update W.st r s, s.disk⟩

/-- The world an outcome leads to; `none`: the event is not possible at this time. (VtkExport.hpp 532-549, 566-571) -/
def after (W : World) (r : Nat) : Outcome → Option World
  | .done s => some (put W r s)
  | .threw s => some (put W r s)
  | _ => none

/-- Rank `r` of `nRanks` ranks. (VtkExport.hpp 546-548) -/
def envOf (avx : Bool) (nRanks r : Nat) : Env := ⟨avx, r, nRanks⟩

/-- Events of the ranks, interleaved. (VtkExport.hpp 532-549, 566-571) -/
def wrun (avx : Bool) (nRanks : Nat) : World → List (Nat × Event) → Option World
  | W, [] => some W
  | W, (r, e) :: es => (after W r (step (envOf avx nRanks r) (view W r) e)).bind fun W' => wrun avx nRanks W' es

/-- The exporters have been created. (VtkExport.hpp 523-530) -/
def wstart (ex : Nat → Exporter) (d0 : List Byte → List Byte) : World := ⟨fun r => start (ex r) d0, d0⟩

/-- The events of one rank. -/
def eventsOf (r : Nat) (evs : List (Nat × Event)) : List Event := (evs.filter fun x => x.1 = r).map Prod.snd

/-! ### Names -/

/-- Files rank `r` may write. -/
def Owned (r : Nat) (p : List Byte) : Prop := (∃ name, p = vtuName name r) ∨ (r = 0 ∧ ∃ name, p = pvtuName name)

theorem decimal_digits (n : Nat) : ∀ c ∈ decimal n, c ≠ 95#8 := by
  induction n using Nat.strongRecOn with
  | ind n ih =>
    intro c hc
    rw [decimal] at hc
    have hd : ∀ k < 10, BitVec.ofNat 8 (48 + k) ≠ 95#8 := by decide
    split at hc
    · rename_i h
      simp only [List.mem_singleton] at hc
      rw [hc]; exact hd n h
    · rcases List.mem_append.1 hc with h | h
      · exact ih (n / 10) (by omega) c h
      · simp only [List.mem_singleton] at h
        rw [h]; exact hd (n % 10) (by omega)

theorem last_sep {a b x y : List Byte} (hx : 95#8 ∉ x) (hy : 95#8 ∉ y) (h : a ++ 95#8 :: x = b ++ 95#8 :: y) : x = y := by
  have h' := congrArg List.reverse h
  simp only [List.reverse_append, List.reverse_cons, List.append_assoc, List.singleton_append] at h'
  have key : ∀ (u v s t : List Byte), 95#8 ∉ u → 95#8 ∉ v → u ++ 95#8 :: s = v ++ 95#8 :: t → u = v := by
    intro u
    induction u with
    | nil =>
      intro v s t _ hv e
      cases v with
      | nil => rfl
      | cons c v => rw [List.nil_append, List.cons_append, List.cons.injEq] at e; exact absurd (e.1 ▸ List.mem_cons_self) hv
    | cons c u ih =>
      intro v s t hu hv e
      cases v with
      | nil => rw [List.nil_append, List.cons_append, List.cons.injEq] at e; exact absurd (e.1 ▸ List.mem_cons_self) hu
      | cons d v =>
        rw [List.cons_append, List.cons_append, List.cons.injEq] at e
        rw [e.1, ih v s t (fun m => hu (List.mem_cons_of_mem _ m)) (fun m => hv (List.mem_cons_of_mem _ m)) e.2]
  have := key _ _ _ _ (by simpa using hx) (by simpa using hy) h'
  exact List.reverse_injective this

theorem vtu_rank {a b : List Byte} {r s : Nat} (h : vtuName a r = vtuName b s) : r = s := by
  unfold vtuName makeVtuFileName at h
  have h := List.append_cancel_right h
  rw [show str "_" = [95#8] by decide, List.append_assoc, List.append_assoc, List.singleton_append, List.singleton_append] at h
  exact decimal_injective (last_sep (fun m => decimal_digits r _ m rfl) (fun m => decimal_digits s _ m rfl) h)

theorem vtu_pvtu (a b : List Byte) (r : Nat) : vtuName a r ≠ pvtuName b := by
  intro h
  unfold vtuName makeVtuFileName pvtuName replaceExt at h
  rw [show extText (str "pvtu") = str ".p" ++ str "vtu" by decide, show str ".vtu" = str "." ++ str "vtu" by decide, ← List.append_assoc, ← List.append_assoc] at h
  have h := List.append_cancel_right h
  have h := congrArg List.getLast? h
  rw [List.getLast?_append, List.getLast?_append, List.getLast?_append (l := _ ++ _) (l' := str ".p"), show (str ".").getLast? = some 46#8 by decide, show (str ".p").getLast? = some 112#8 by decide] at h
  revert h; simp

theorem owned_unique {r s : Nat} {p : List Byte} (h1 : Owned r p) (h2 : Owned s p) : r = s := by
  rcases h1 with ⟨a, rfl⟩ | ⟨rfl, a, rfl⟩ <;> rcases h2 with ⟨b, h⟩ | ⟨rfl, b, h⟩
  · exact vtu_rank h
  · exact absurd h (vtu_pvtu a b r)
  · exact absurd h.symm (vtu_pvtu b a s)
  · rfl

/-! ### One rank alone -/

/-- Rank `r` working alone is in state `s`, in the world its state is `t`. -/
structure Same (r : Nat) (s t : St) : Prop where
  ex : s.ex = t.ex
  ver : s.ver = t.ver
  alive : s.alive = t.alive
  out : s.out = t.out
  disk : ∀ p, Owned r p → s.disk p = t.disk p
  owned : ∀ w ∈ s.out, Owned r w.path

theorem enqueue_path {path : List Byte} {l : List (Buf × Nat)} {pos : Nat} {w : Pending} (h : w ∈ enqueue path pos l) : w.path = path := by
  induction l generalizing pos with
  | nil => simp [enqueue] at h
  | cons b l ih =>
    obtain ⟨b, n⟩ := b
    rcases List.mem_cons.1 h with rfl | h
    · rfl
    · exact ih h

theorem pvtu_owned {avx : Bool} {nRanks r : Nat} {name : List Byte} {fields : List FieldDef} {w : Pending}
    (h : w ∈ pvtuPending (envOf avx nRanks r) name fields) : Owned r w.path := by
  unfold pvtuPending at h
  split at h
  · rename_i hr
    exact Or.inr ⟨hr, name, enqueue_path h⟩
  · simp at h

theorem step_same {avx : Bool} {nRanks r : Nat} {s t t' : St} (h : Same r s t) (e : Event) (ht : Leaves (step (envOf avx nRanks r) t e) t') :
    ∃ s', Leaves (step (envOf avx nRanks r) s e) s' ∧ Same r s' t' ∧ ∀ p, ¬ Owned r p → t'.disk p = t.disk p := by
  obtain ⟨sx, sv, sa, so, sd⟩ := s
  obtain ⟨tx, tv, ta, tq, td⟩ := t
  obtain ⟨h1, h2, h3, h4, h5, h6⟩ := h
  dsimp only at h1 h2 h3 h4 h5 h6
  subst h1 h2 h3 h4
  have hb : ∀ b, bytesOf ⟨sx, sv, sa, so, sd⟩ b = bytesOf ⟨sx, sv, sa, so, td⟩ b := fun b => by cases b <;> rfl
  cases e with
  | complete k =>
    rw [step_complete] at ht
    cases hk : so[k]? with
    | none =>
      change Leaves (so[k]?.elim .blocked _) t' at ht
      rw [hk] at ht; rcases ht with ht | ht <;> cases ht
    | some w =>
      change Leaves (so[k]?.elim .blocked _) t' at ht
      rw [hk] at ht
      change Leaves (carryOut _ k w) t' at ht
      unfold carryOut at ht
      cases hbb : bytesOf ⟨sx, sv, sa, so, td⟩ w.buf with
      | none => rw [hbb] at ht; rcases ht with ht | ht <;> cases ht
      | some x =>
        rw [hbb] at ht
        have hw := h6 w (List.mem_of_getElem? hk)
        rcases ht with ht | ht <;> cases ht
        refine ⟨store ⟨sx, sv, sa, so, sd⟩ k w x, Or.inl ?_, ⟨rfl, rfl, rfl, rfl, fun p hp => ?_, fun y hy => h6 y (List.mem_of_mem_eraseIdx hy)⟩, fun p hp => ?_⟩
        · rw [step_complete]
          change so[k]?.elim Outcome.blocked _ = _
          rw [hk]
          change carryOut _ k w = _
          unfold carryOut
          rw [hb, hbb]; rfl
        · unfold store
          dsimp only
          by_cases hpw : p = w.path
          · subst hpw; rw [Function.update_self, Function.update_self, h5 _ hw]
          · rw [Function.update_of_ne hpw, Function.update_of_ne hpw, h5 p hp]
        · unfold store
          dsimp only
          rw [Function.update_of_ne (by rintro rfl; exact hp hw)]
  | destroy =>
    rw [step_destroy] at ht
    split at ht
    · rcases ht with ht | ht <;> cases ht
    · rename_i hal
      split at ht
      · rcases ht with ht | ht <;> cases ht
      · rename_i ho
        rcases ht with ht | ht <;> cases ht
        refine ⟨⟨sx, sv, false, so, sd⟩, Or.inl ?_, ⟨rfl, rfl, rfl, rfl, h5, h6⟩, fun p _ => rfl⟩
        rw [step_destroy, if_neg hal, if_neg ho]
  | call c =>
    rw [step_call] at ht
    split at ht
    · rcases ht with ht | ht <;> cases ht
    rename_i hal
    rw [step_call, if_neg hal]
    cases c with
    | flush =>
      rw [call_flush] at ht ⊢
      split at ht
      · rcases ht with ht | ht <;> cases ht
      · rename_i ho
        rcases ht with ht | ht <;> cases ht
        exact ⟨⟨sx, sv, sa, so, sd⟩, Or.inl (if_neg ho), ⟨rfl, rfl, rfl, rfl, h5, h6⟩, fun p _ => rfl⟩
    | updateCoords text =>
      change Leaves (updateCoords _ text) t' at ht
      change ∃ s', Leaves (updateCoords _ text) s' ∧ _
      unfold updateCoords at ht ⊢
      split at ht
      · rcases ht with ht | ht <;> cases ht
      · rename_i ho
        rcases ht with ht | ht <;> cases ht
        exact ⟨_, Or.inl (if_neg ho), ⟨rfl, rfl, rfl, rfl, h5, h6⟩, fun p _ => rfl⟩
    | exportSol name fields nFields sol =>
      change Leaves (ExpRun.exportSol _ _ name fields nFields sol) t' at ht
      change ∃ s', Leaves (ExpRun.exportSol _ _ name fields nFields sol) s' ∧ _
      unfold ExpRun.exportSol at ht ⊢
      split at ht
      · rename_i hr
        rcases ht with ht | ht <;> cases ht
        exact ⟨⟨sx, sv, sa, so, sd⟩, Or.inr (if_pos hr), ⟨rfl, rfl, rfl, rfl, h5, h6⟩, fun p _ => rfl⟩
      · rename_i hr
        rw [if_neg hr]
        split at ht
        · rcases ht with ht | ht <;> cases ht
        · rename_i ho
          rw [if_neg ho]
          cases he : fields.mapM (encodeField (envOf avx nRanks r).avx sol) with
          | none =>
            rw [he] at ht
            rcases ht with ht | ht <;> cases ht
            exact ⟨⟨sx, sv, sa, _, sd⟩, Or.inr rfl, ⟨rfl, rfl, rfl, rfl, h5, fun w hw => pvtu_owned hw⟩, fun p _ => rfl⟩
          | some enc =>
            rw [he] at ht
            rcases ht with ht | ht <;> cases ht
            refine ⟨⟨sx, sv, sa, _, sd⟩, Or.inl rfl, ⟨rfl, rfl, rfl, rfl, h5, fun w hw => ?_⟩, fun p _ => rfl⟩
            rcases List.mem_append.1 hw with hw | hw
            · exact pvtu_owned hw
            · exact Or.inl ⟨name, enqueue_path hw⟩

/-! ### The world -/

/-- Every rank is where it would be alone after its own events, and only owned files have changed. -/
structure WInv (avx : Bool) (nRanks : Nat) (ex : Nat → Exporter) (d0 : List Byte → List Byte) (evs : List (Nat × Event)) (W : World) : Prop where
  alone : ∀ r, ∃ s, run (envOf avx nRanks r) (start (ex r) d0) (eventsOf r evs) = .done s ∧ Same r s (view W r)
  other : ∀ p, (∀ r, ¬ Owned r p) → W.disk p = d0 p

theorem eventsOf_append (r : Nat) (a b : List (Nat × Event)) : eventsOf r (a ++ b) = eventsOf r a ++ eventsOf r b := by
  unfold eventsOf; rw [List.filter_append, List.map_append]

theorem after_leaves {W W' : World} {r : Nat} {o : Outcome} (h : after W r o = some W') : ∃ s, Leaves o s ∧ W' = put W r s := by
  cases o with
  | done s => exact ⟨s, Or.inl rfl, (Option.some.inj h).symm⟩
  | threw s => exact ⟨s, Or.inr rfl, (Option.some.inj h).symm⟩
  | blocked => cases h
  | undefined => cases h
  | misuse => cases h

theorem run_one (env : Env) {s s' : St} {e : Event} (h : Leaves (step env s e) s') : run env s [e] = .done s' := by
  rw [run]
  rcases h with h | h <;> rw [h] <;> rfl

theorem WInv.step {avx nRanks ex d0 evs W} (i : WInv avx nRanks ex d0 evs W) (r : Nat) (e : Event) {W' : World}
    (h : after W r (ExpRun.step (envOf avx nRanks r) (view W r) e) = some W') : WInv avx nRanks ex d0 (evs ++ [(r, e)]) W' := by
  obtain ⟨t', ht, rfl⟩ := after_leaves h
  obtain ⟨s, hs, hsame⟩ := i.alone r
  obtain ⟨s', hs', hsame', hoth⟩ := step_same hsame e ht
  constructor
  · intro q
    rw [eventsOf_append]
    by_cases hq : q = r
    · subst hq
      refine ⟨s', ?_, ?_⟩
      · rw [run_append _ _ _ hs]
        have : eventsOf q [(q, e)] = [e] := by unfold eventsOf; simp
        rw [this]; exact run_one _ hs'
      · have : view (put W q t') q = t' := by
          unfold view put
          dsimp only
          rw [Function.update_self]
        rw [this]; exact hsame'
    · obtain ⟨u, hu, husame⟩ := i.alone q
      have : eventsOf q [(r, e)] = [] := by unfold eventsOf; simp [Ne.symm hq]
      refine ⟨u, by rw [this, List.append_nil]; exact hu, ?_⟩
      have hv : view (put W r t') q = { W.st q with disk := t'.disk } := by
        unfold view put
        dsimp only
        rw [Function.update_of_ne hq]
      rw [hv]
      refine ⟨husame.ex, husame.ver, husame.alive, husame.out, fun p hp => ?_, husame.owned⟩
      rw [husame.disk p hp]
      exact (hoth p fun hp' => hq (owned_unique hp hp')).symm
  · intro p hp
    exact (hoth p (hp r)).trans (i.other p hp)

theorem wrun_inv {avx nRanks ex d0} (es : List (Nat × Event)) : ∀ {evs W W'}, WInv avx nRanks ex d0 evs W → wrun avx nRanks W es = some W' →
    WInv avx nRanks ex d0 (evs ++ es) W' := by
  induction es with
  | nil => intro evs W W' i h; cases h; rw [List.append_nil]; exact i
  | cons x es ih =>
    intro evs W W' i h
    obtain ⟨r, e⟩ := x
    change (after W r (ExpRun.step (envOf avx nRanks r) (view W r) e)).bind (fun W' => wrun avx nRanks W' es) = some W' at h
    obtain ⟨W1, h1, h2⟩ := Option.bind_eq_some_iff.1 h
    have := ih (i.step r e h1) h2
    rwa [List.append_assoc, List.singleton_append] at this

theorem winv_start (avx : Bool) (nRanks : Nat) (ex : Nat → Exporter) (d0 : List Byte → List Byte) : WInv avx nRanks ex d0 [] (wstart ex d0) where
  alone := fun r => ⟨start (ex r) d0, rfl, rfl, rfl, rfl, rfl, fun _ _ => rfl, by simp [start]⟩
  other := fun _ _ => rfl

/-! ### C139 -/

/-- **C139** (all ranks): however the events of the ranks are interleaved, no write of any rank reads a text which is gone; and once nothing is outstanding
the piece files of each rank, and on rank 0 the parallel files, are as if that rank had worked alone, writing each document at its call.
No other file has changed. -/
theorem C139_ranks (avx : Bool) (nRanks : Nat) (ex : Nat → Exporter) (d0 : List Byte → List Byte) (evs : List (Nat × Event)) (W : World)
    (h : wrun avx nRanks (wstart ex d0) evs = some W) :
    (∀ r e, step (envOf avx nRanks r) (view W r) e ≠ .undefined) ∧
    ((∀ r, (W.st r).out = []) → (∀ r name, W.disk (vtuName name r) = settle d0 (exports (envOf avx nRanks r) (ex r) (eventsOf r evs)) (vtuName name r)) ∧
      (∀ name, W.disk (pvtuName name) = settle d0 (exports (envOf avx nRanks 0) (ex 0) (eventsOf 0 evs)) (pvtuName name)) ∧
      ∀ p, (∀ r name, p ≠ vtuName name r) → (∀ name, p ≠ pvtuName name) → W.disk p = d0 p) := by
  have i := wrun_inv evs (winv_start avx nRanks ex d0) h
  rw [List.nil_append] at i
  refine ⟨fun r e he => ?_, fun ho => ?_⟩
  · obtain ⟨s, hs, hsame⟩ := i.alone r
    have hi := run_inv _ _ (inv_start (ex r) d0) hs
    refine step_defined (envOf avx nRanks r) (s := view W r) (fun w hw => ?_) e he
    rw [← hsame.out] at hw
    obtain ⟨t, ht, -⟩ := hi.agree w hw
    refine ⟨t, ?_⟩
    rw [← ht]
    cases w.buf with
    | owned x => rfl
    | coords v => unfold bytesOf; rw [hsame.alive, hsame.ver, hsame.ex]
    | topo => unfold bytesOf; rw [hsame.alive, hsame.ex]
  · have key : ∀ r p, Owned r p → W.disk p = settle d0 (exports (envOf avx nRanks r) (ex r) (eventsOf r evs)) p := by
      intro r p hp
      obtain ⟨s, hs, hsame⟩ := i.alone r
      have := congrFun (C139_files _ _ _ _ s hs (hsame.out.trans (ho r))) p
      rw [← this]
      exact (hsame.disk p hp).symm
    refine ⟨fun r name => key r _ (Or.inl ⟨name, rfl⟩), fun name => key 0 _ (Or.inr ⟨rfl, name, rfl⟩), fun p h1 h2 => i.other p fun r hp => ?_⟩
    rcases hp with ⟨name, rfl⟩ | ⟨-, name, rfl⟩
    · exact h1 r name rfl
    · exact h2 name rfl

/-- Two ranks export once each; the events are interleaved, and rank 1 is still writing when rank 0 has been destroyed. -/
def twoRanks : List (Nat × Event) :=
  [(0, .call (.exportSol (str "u.pvtu") [] 1 fun _ => [])), (1, .call (.exportSol (str "u.pvtu") [] 1 fun _ => [])), (0, .complete 4), (1, .complete 0), (0, .complete 0),
    (0, .complete 2), (1, .complete 2), (0, .complete 0), (0, .complete 0), (0, .destroy), (1, .complete 1), (1, .complete 0), (1, .call .flush)]

example : ∃ W, wrun false 2 (wstart (fun r => ⟨0, 0, 0, 0, 0, str "topo", decimal r⟩) fun _ => []) twoRanks = some W ∧ ∀ r, (W.st r).out = [] :=
  ⟨_, rfl, fun r => by
    by_cases h1 : r = 1
    · subst h1; rfl
    · by_cases h0 : r = 0
      · subst h0; rfl
      · simp [put, view, store, wstart, start, Function.update_of_ne h1, Function.update_of_ne h0]⟩

/-- **C139** (the parallel file and its pieces): all ranks export under the same name, at whatever times, and nothing is exported to these files later.
Then the parallel file starts with the header rank 0 made, and the sources it lists, resolved in its directory, are the piece files of the ranks in order,
each of which starts with the document of that very call on its rank. -/
theorem C139_collection_partial (avx : Bool) (nRanks : Nat) (ex : Nat → Exporter) (d0 : List Byte → List Byte) (evs : List (Nat × Event)) (W : World)
    (h : wrun avx nRanks (wstart ex d0) evs = some W) (ho : ∀ r, (W.st r).out = []) (name : List Byte) (fields : List FieldDef) (nFields : Nat)
    (sol : Nat → Nat → List Base64.Val) (before after : Nat → List Event) (enc : Nat → List (List Byte)) (hpos : 0 < nRanks)
    (hev : ∀ r < nRanks, eventsOf r evs = before r ++ .call (.exportSol name fields nFields (sol r)) :: after r)
    (hlast : ∀ r < nRanks, ∀ x ∈ exports (envOf avx nRanks r) (meshAt (ex r) (before r)) (after r), x.1 ≠ vtuName name r ∧ x.1 ≠ pvtuName name)
    (hi : ∀ f ∈ fields, ∀ i ∈ f.inds, i < nFields) (henc : ∀ r < nRanks, fields.mapM (encodeField avx (sol r)) = some (enc r))
    (hfn : fileName name ≠ []) (hq : 34#8 ∉ name) (hn : ∀ f ∈ fields, 34#8 ∉ f.name) :
    pvtuFile name nRanks fields <+: W.disk (pvtuName name) ∧
    (valuesOf (str "Source") (pvtuFile name nRanks fields)).map (dirPart (pvtuName name) ++ ·) = (List.range nRanks).map (vtuName name) ∧
    ∀ r < nRanks, document (meshAt (ex r) (before r)) fields (enc r) <+: W.disk (vtuName name r) := by
  obtain ⟨-, hd⟩ := C139_ranks avx nRanks ex d0 evs W h
  obtain ⟨hv, hp, -⟩ := hd ho
  have hall : (fields.all fun f => f.inds.all (· < nFields)) = true := by
    simp only [List.all_eq_true, decide_eq_true_eq]; exact hi
  have hexp : ∀ r < nRanks, exports (envOf avx nRanks r) (ex r) (eventsOf r evs) =
      exports (envOf avx nRanks r) (ex r) (before r) ++ ((if r = 0 then [(pvtuName name, pvtuFile name nRanks fields)] else []) ++
        ((vtuName name r, document (meshAt (ex r) (before r)) fields (enc r)) :: exports (envOf avx nRanks r) (meshAt (ex r) (before r)) (after r))) := by
    intro r hr
    rw [hev r hr, exports_append, exports_cons]
    congr 1
    have h1 : exportedBy (envOf avx nRanks r) (meshAt (ex r) (before r)) (.call (.exportSol name fields nFields (sol r))) =
        (if r = 0 then [(pvtuName name, pvtuFile name nRanks fields)] else []) ++ [(vtuName name r, document (meshAt (ex r) (before r)) fields (enc r))] := by
      change exported (envOf avx nRanks r) (meshAt (ex r) (before r)) (.exportSol name fields nFields (sol r)) = _
      rw [exported_sol, if_neg (by rw [hall]; decide)]
      change _ ++ ((fields.mapM (encodeField avx (sol r))).map _).toList = _
      rw [henc r hr]; rfl
    rw [h1, List.append_assoc, List.singleton_append]
    rfl
  have hset : ∀ (d : List Byte → List Byte) (a b : List (List Byte × List Byte)) (p T : List Byte), (∀ U, (p, U) ∉ b) → T <+: settle d (a ++ (p, T) :: b) p := by
    intro d a b p T hb
    rw [settle_append, show (p, T) :: b = [(p, T)] ++ b from rfl, settle_append, settle_none _ b p hb]
    unfold settle
    rw [List.foldl_cons, List.foldl_nil, if_pos rfl]
    exact ⟨_, rfl⟩
  refine ⟨?_, C76_sources name nRanks fields hfn hq hn, fun r hr => ?_⟩
  · rw [hp name, hexp 0 hpos, if_pos rfl, List.singleton_append]
    refine hset _ _ _ _ _ fun U hU => ?_
    rcases List.mem_cons.1 hU with e | hU
    · exact names_differ name 0 (Prod.mk.inj e).1.symm
    · exact (hlast 0 hpos _ hU).2 rfl
  · rw [hv r name, hexp r hr, ← List.append_assoc]
    exact hset _ _ _ _ _ fun U hU => (hlast r hr _ hU).1 rfl

example : ∀ r < 2, ∃ a, eventsOf r twoRanks = [] ++ .call (.exportSol (str "u.pvtu") [] 1 fun _ => []) :: a ∧
    ∀ x ∈ exports (envOf false 2 r) (meshAt ⟨0, 0, 0, 0, 0, str "topo", decimal r⟩ []) a, x.1 ≠ vtuName (str "u.pvtu") r ∧ x.1 ≠ pvtuName (str "u.pvtu") := by
  intro r hr
  obtain rfl | rfl : r = 0 ∨ r = 1 := by omega
  · exact ⟨_, rfl, fun x hx => by simp [exports] at hx⟩
  · exact ⟨_, rfl, fun x hx => by simp [exports, exported] at hx⟩

end Verif.ExpRun
