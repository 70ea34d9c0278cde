import Verif.Resume.Load
import Verif.Resume.Session

/-! # C135: programs gone on with from files -/
namespace Verif.Resume
open Verif Verif.Elem Verif.Mesh Verif.Dofs Verif.Fields Verif.SolUpd Verif.Pipeline Verif.Report Verif.SetVals Verif.Partition Verif.MfPipe Verif.Reach Verif.Steps Verif.Restart
  Verif.NativeIO Verif.Own

noncomputable section

variable {kinds : List (ElType × Nat)} {m m' : DomMap} {bnds : List Nat} {D nParts₀ nParts nParts' nF : Nat} {parts₀ parts parts' : List Split.Part} {f₀ f g : Nat → Nat} {old : List (List Nat)}
  {defs : Nat → SysDef} {V : Nat → Nat → ℝ} {W : Nat → Nat × Nat → Nat → ℝ} {dec : List Byte → ℝ}

/-- **C135** (fields come back).  Fields saved by the ranks of one distribution and loaded by those of another are what they were, at every node, on every rank which has it; prescribed values are
not. -/
theorem C135_fields (hm : MeshOk kinds m bnds D) (hone : OneSided m bnds) (hx : ∃ x, NodeIn m x) (hsmall : ∀ x, NodeIn m x → x < 2 ^ 63) (hF : 0 < nF) (hF' : nF < 2 ^ 64)
    (h : Restarted Monotone kinds m bnds nParts parts f m' nParts' parts' g old) {s t : State} (hs : Carries defs m parts f nF s V W) (hr : Reloaded dec nF parts parts' old s t) :
    Carries defs m parts' (fun x => g (f x)) nF t V fun _ _ _ => 0 :=
  reloaded_carries hm hone hx hsmall hF hF' h hs hr

/-- **C135** (loading does not fail).  If the numbers can be written in eight bytes each, they can be saved by the old ranks and loaded by the new ones. -/
theorem C135_loads (hm : MeshOk kinds m bnds D) (hone : OneSided m bnds) (hx : ∃ x, NodeIn m x) (hsmall : ∀ x, NodeIn m x → x < 2 ^ 63) (hF : 0 < nF) (hF' : nF < 2 ^ 64)
    (h : Restarted Monotone kinds m bnds nParts parts f m' nParts' parts' g old) {s : State} (hs : Carries defs m parts f nF s V W)
    (hdec : ∀ r < parts.length, ∀ y ∈ (s.fields r).data, ∃ b, b.length = 8 ∧ dec b = y) : ∃ t, Reloaded dec nF parts parts' old s t := by
  classical
  obtain ⟨N, maps, maps', R, hren, R', hnames⟩ := h.results hm hone
  let enc : ℝ → List Byte := fun y => if h : ∃ b : List Byte, b.length = 8 ∧ dec b = y then h.choose else []
  have henc : ∀ {y}, (∃ b : List Byte, b.length = 8 ∧ dec b = y) → (enc y).length = 8 ∧ dec (enc y) = y := by
    intro y hy
    have : enc y = hy.choose := dif_pos hy
    rw [this]; exact hy.choose_spec
  let sols : List SolMan := (List.range parts.length).map fun r => ⟨(s.fields r).own.localSize, (s.fields r).nFields, (s.fields r).data.map enc⟩
  have hlen : sols.length = parts.length := by simp [sols]
  have hsol : ∀ (r : Nat) sm, sols[r]? = some sm → Encodes dec sm (s.fields r) ∧ ∀ v ∈ sm.data, v.length = 8 := by
    intro r sm hr
    obtain ⟨hlt, rfl⟩ := List.getElem?_eq_some_iff.1 hr
    have hlt' : r < parts.length := hlen ▸ hlt
    simp only [sols, List.getElem_map, List.getElem_range]
    refine ⟨⟨rfl, rfl, ?_⟩, fun v hv => ?_⟩
    · rw [List.map_map]
      conv_rhs => rw [← List.map_id (s.fields r).data]
      exact List.map_congr_left fun y hy => (henc (hdec r hlt' y hy)).2
    · obtain ⟨y, hy, rfl⟩ := List.mem_map.1 hv
      exact (henc (hdec r hlt' y hy)).1
  obtain ⟨w, hst, _⟩ := state_of R hs hlen hsol
  have hsf : ∀ sm ∈ sols, sm.nFields = nF := by
    intro sm hsm
    obtain ⟨r, hr⟩ := List.getElem?_of_mem hsm
    have hr' : r < parts.length := hlen ▸ (List.getElem?_eq_some_iff.1 hr).1
    rw [(hsol r sm hr).1.fields, (managed_fields (hs.man r hr')).2]
  have hsv : ∃ ws, saveRes [] (ranksOf parts sols) (List.range nF) = some ws := by
    unfold saveRes
    dsimp only
    rw [if_neg (by simp; omega), if_neg]
    · exact ⟨_, rfl⟩
    · simp only [List.any_eq_true, decide_eq_true_eq, not_exists, not_and]
      intro q hq i hi
      obtain ⟨r, hr⟩ := List.getElem?_of_mem hq
      obtain ⟨p, _, p2, _⟩ := ranksOf_get hr
      rw [hsf q.2 (List.mem_of_getElem? p2)]
      simpa using hi
  obtain ⟨ws, hws⟩ := hsv
  have key : ∀ r, ∃ t : Sol ℝ, r < parts'.length → LoadedOn dec nF (part parts' r).own (old[r]?) (File.run [] ws) t := by
    intro r
    by_cases hr : r < parts'.length
    · have hp : parts'[r]? = some (part parts' r) := by unfold part; rw [List.getElem?_eq_getElem hr]; rfl
      obtain ⟨o, s', q1, q2, q3, q4, _⟩ := C133_values_partial hm hone hx h hsmall hst [] [] hws (List.Perm.refl _) (by simpa using hF')
        (fun i hi sm hsm => by rw [hsf sm hsm]; simpa using hi) hp ⟨(part parts' r).own.localSize, nF, List.replicate ((part parts' r).own.localSize * nF) []⟩ rfl (by simp)
        (src := List.range nF) (dst := List.range nF) rfl (by simp; omega) (by simp) (by simp) List.nodup_range
      exact ⟨⟨(part parts' r).own, nF, s'.data.map dec⟩, fun _ => ⟨rfl, o, _, s', q1, rfl, rfl, by simp, q2, q3, q4, rfl⟩⟩
    · exact ⟨s.fields r, fun h => absurd h hr⟩
  choose t ht using key
  exact ⟨⟨t, fun _ _ _ _ => 0⟩, ⟨[], [], sols, ws, ws, hlen, hsol, hws, List.Perm.refl _, ht⟩, fun _ _ _ _ => rfl⟩

/-- **C135** (going on never fails).  On the ranks of the new distribution every sensible program can be run to its end. -/
theorem C135_runs (hm : MeshOk kinds m bnds D) (hone : OneSided m bnds) (hmf : MfMesh m bnds) (hfill : Filled m) (h : Restarted Monotone kinds m bnds nParts parts f m' nParts' parts' g old)
    {sts : List Step} (hst : ∀ st ∈ sts, st.Ok (defs st.sys) m bnds nF) (hsrc : ∀ st ∈ sts, ∀ j ∈ st.src, j < (defs st.sys).dpn) (hdst : ∀ st ∈ sts, ∀ fl ∈ st.dst, fl < nF)
    {t : State} (ht : Carries defs m parts' (fun x => g (f x)) nF t V W) :
    ∃ t1 V1 W1, Run false defs kinds bnds parts' sts t t1 ∧ Carries defs m parts' (fun x => g (f x)) nF t1 V1 W1 := by
  have ho := restarted_spread hm hone hfill h
  induction sts generalizing t V W with
  | nil => exact ⟨t, V, W, rfl, ht⟩
  | cons st sts ih =>
    have hst0 := hst st List.mem_cons_self
    obtain ⟨v, hv, h⟩ := step_exists hm hmf ho hst0 (hsrc st List.mem_cons_self) (hdst st List.mem_cons_self) ht
    have hx := fun c => solution_exists hm hmf.uniq (prog_ok hst0 m (canon V) (newDir m V st (W st.sys))) ho (els := fun r => (st.prog (defs st.sys) m (canon V)).rankElems parts' r)
      (fun _ => List.Perm.refl _) (fun _ _ _ => 0) hv c
    choose x hx using hx
    obtain ⟨t1, h1, h2⟩ := h false (fun _ _ _ => 0) (fun g c => x c g) (fun c _ => hx c) fun h => Bool.noConfusion h
    obtain ⟨t2, V1, W1, e1, e2⟩ := ih (fun st h => hst st (List.mem_cons_of_mem _ h)) (fun st h => hsrc st (List.mem_cons_of_mem _ h)) (fun st h => hdst st (List.mem_cons_of_mem _ h)) h2
    exact ⟨t2, V1, W1, ⟨t1, h1, e1⟩, e2⟩

/-- **C135** (stopped and gone on with), for programs which after the stop prescribe again whatever they had prescribed.  A program made of `A` and then `B`, with one solution at every step on some
distribution, is run on another one, stopped after `A`, saved, loaded on any number of ranks, and gone on with; systems of either kind, element kernels and reports in any order everywhere.  It ends with
the same fields at every node, on every rank which has it, as the one never stopped. -/
theorem C135_resume_partial (hm : MeshOk kinds m bnds D) (hone : OneSided m bnds) (hmf : MfMesh m bnds) (hfill : Filled m) (hx : ∃ x, NodeIn m x) (hsmall : ∀ x, NodeIn m x → x < 2 ^ 63)
    (hF : 0 < nF) (hF' : nF < 2 ^ 64) (ho : Outcome Monotone kinds m bnds nParts₀ parts₀ f₀) (h : Restarted Monotone kinds m bnds nParts parts f m' nParts' parts' g old)
    (hfit₀ : ∀ r < nParts₀, Fits bnds (part parts₀ r)) (hfit : ∀ r < nParts, Fits bnds (part parts r)) (hfit' : ∀ r < nParts', Fits bnds (part parts' r))
    {A B : List Step} (hst : ∀ st ∈ A ++ B, st.Ok (defs st.sys) m bnds nF)
    (hready : Ready defs m (fun i => (∀ st ∈ A, st.sys ≠ i) ∧ ∀ k, (defs i).prog.unknown m k → (defs i).prog.prescribed m k → W i k = 0) B)
    {s s2 t t1 u1 u2 : State} (hs : Carries defs m parts₀ f₀ nF s V W) (ht : Carries defs m parts f nF t V W)
    (hrun : Run true defs kinds bnds parts₀ (A ++ B) s s2)
    (hA : Run false defs kinds bnds parts A t t1) (hload : Reloaded dec nF parts parts' old t1 u1) (hB : Run false defs kinds bnds parts' B u1 u2)
    {n : Nat} (hn : NodeIn m n) {fl : Nat} (hfl : fl < nF) {r r' : Nat} (hr : r < parts₀.length) (hr' : r' < parts'.length) (hnr : NodeIn (part parts₀ r).doms (f₀ n))
    (hnr' : NodeIn (part parts' r').doms (g (f n))) : ∃ a, s2.reader r (f₀ n) fl = .ok a ∧ u2.reader r' (g (f n)) fl = .ok a := by
  obtain ⟨s1, hs1, hs2⟩ := run_split hrun
  obtain ⟨V1, W1, W1', c1, c2, _, hkeep⟩ := program_agree hm hone hmf hfill ho (outcome_spread hm hone hfill h.before) hfit₀ hfit (fun st h => hst st (List.mem_append_left _ h)) (ready_all A) hs ht
    (fun _ _ _ _ _ => rfl) hs1 hA
  have c3 := reloaded_carries hm hone hx hsmall hF hF' h c2 hload
  obtain ⟨V2, W2, W2', e1, e2, _⟩ := program_agree hm hone hmf hfill ho (restarted_spread hm hone hfill h) hfit₀ hfit' (fun st h => hst st (List.mem_append_right _ h)) hready c1 c3
    (fun i hi k hk hp => by rw [hkeep i hi.1, hi.2 k hk hp]; rfl) hs2 hB
  exact ⟨_, e1.vals r hr n hn hnr fl hfl, e2.vals r' hr' n hn hnr' fl hfl⟩

theorem session_agree (hm : MeshOk kinds m bnds D) (hone : OneSided m bnds) (hmf : MfMesh m bnds) (hfill : Filled m) (hx : ∃ x, NodeIn m x) (hsmall : ∀ x, NodeIn m x → x < 2 ^ 63)
    (hF : 0 < nF) (hF' : nF < 2 ^ 64) (ho : Outcome Monotone kinds m bnds nParts₀ parts₀ f₀) (hfit₀ : ∀ r < nParts₀, Fits bnds (part parts₀ r)) {As : List (List Step)}
    {nP nE : Nat} {ps pe : List Split.Part} {φ φe : Nat → Nat} {t u : State} (h : Session dec nF defs kinds bnds As nP ps φ t nE pe φe u) :
    ∀ {V : Nat → Nat → ℝ} {W W' : Nat → Nat × Nat → Nat → ℝ} {live fresh : Nat → Prop} {s s2 : State}, Spread kinds m bnds nP ps φ → (∀ A ∈ As, ∀ st ∈ A, st.Ok (defs st.sys) m bnds nF) →
      ReadyAll defs m live fresh As → (∀ i, fresh i → ∀ k, (defs i).prog.unknown m k → (defs i).prog.prescribed m k → W i k = 0) → Agree defs m live W W' →
      Carries defs m parts₀ f₀ nF s V W → Carries defs m ps φ nF t V W' → Run true defs kinds bnds parts₀ As.flatten s s2 →
      ∃ V1 W1 W1', Carries defs m parts₀ f₀ nF s2 V1 W1 ∧ Carries defs m pe φe nF u V1 W1' := by
  induction h with
  | last A nParts parts f t u hfit hrun =>
    intro V W W' live fresh s s2 hsp hst hready hfresh hag hs ht hrun0
    rw [List.flatten_cons, List.flatten_nil, List.append_nil] at hrun0
    obtain ⟨V1, W1, W1', c1, c2, _⟩ := program_agree hm hone hmf hfill ho hsp hfit₀ hfit (hst A List.mem_cons_self) hready.1 hs ht hag hrun0 hrun
    exact ⟨V1, W1, W1', c1, c2⟩
  | stop A rest nParts parts f t t1 hpos hfit hrun m' nParts' parts' g old hread u1 hload nEnd partsEnd fEnd u hrest ih =>
    intro V W W' live fresh s s2 hsp hst hready hfresh hag hs ht hrun0
    rw [List.flatten_cons] at hrun0
    obtain ⟨s1, hs1, hs2⟩ := run_split hrun0
    obtain ⟨V1, W1, W1', c1, c2, _, hkeep⟩ := program_agree hm hone hmf hfill ho hsp hfit₀ hfit (hst A List.mem_cons_self) hready.1 hs ht hag hs1 hrun
    have c3 := reread_carries hm hone hx hsmall hF hF' hsp hpos hread c2 hload
    have hz : ∀ i, (fresh i ∧ ∀ st ∈ A, st.sys ≠ i) → ∀ k, (defs i).prog.unknown m k → (defs i).prog.prescribed m k → W1 i k = 0 :=
      fun i hi k hk hp => by rw [hkeep i hi.2, hfresh i hi.1 k hk hp]
    exact ih (reread_spread hm hone hsp hpos hread) (fun B hB => hst B (List.mem_cons_of_mem _ hB)) hready.2 hz (fun i hi k hk hp => hz i hi k hk hp) c1 c3 hs2

/-- **C135** (any number of stops), under the same condition.  A program is made in pieces, each on a distribution of its own with files in between; it ends with the same fields at every node,
on every rank which has it, as when it is run without a stop on one distribution, with one solution at every step. -/
theorem C135_session_partial (hm : MeshOk kinds m bnds D) (hone : OneSided m bnds) (hmf : MfMesh m bnds) (hfill : Filled m) (hx : ∃ x, NodeIn m x) (hsmall : ∀ x, NodeIn m x → x < 2 ^ 63)
    (hF : 0 < nF) (hF' : nF < 2 ^ 64) (ho : Outcome Monotone kinds m bnds nParts₀ parts₀ f₀) (hfit₀ : ∀ r < nParts₀, Fits bnds (part parts₀ r))
    (ho' : Outcome Monotone kinds m bnds nParts parts f) {As : List (List Step)} (hst : ∀ A ∈ As, ∀ st ∈ A, st.Ok (defs st.sys) m bnds nF)
    (hready : ReadyAll defs m (fun _ => True) (fun i => ∀ k, (defs i).prog.unknown m k → (defs i).prog.prescribed m k → W i k = 0) As)
    {s s2 t u : State} (hs : Carries defs m parts₀ f₀ nF s V W) (ht : Carries defs m parts f nF t V W) (hrun : Run true defs kinds bnds parts₀ As.flatten s s2)
    {nEnd : Nat} {partsEnd : List Split.Part} {fEnd : Nat → Nat} (h : Session dec nF defs kinds bnds As nParts parts f t nEnd partsEnd fEnd u)
    {n : Nat} (hn : NodeIn m n) {fl : Nat} (hfl : fl < nF) {r r' : Nat} (hr : r < parts₀.length) (hr' : r' < partsEnd.length) (hnr : NodeIn (part parts₀ r).doms (f₀ n))
    (hnr' : NodeIn (part partsEnd r').doms (fEnd n)) : ∃ a, s2.reader r (f₀ n) fl = .ok a ∧ u.reader r' (fEnd n) fl = .ok a := by
  obtain ⟨V1, W1, W1', e1, e2⟩ := session_agree hm hone hmf hfill hx hsmall hF hF' ho hfit₀ h (outcome_spread hm hone hfill ho') hst hready (fun _ hi => hi) (fun _ _ _ _ _ => rfl) hs ht hrun
  exact ⟨_, e1.vals r hr n hn hnr fl hfl, e2.vals r' hr' n hn hnr' fl hfl⟩

theorem stepRun_any {parts : List Split.Part} {st : Step} {s s1 : State} (h : StepRun true defs kinds bnds parts st s s1) : StepRun false defs kinds bnds parts st s s1 := by
  cases h with
  | assembled els vals x d a b c _ e f => exact .assembled els vals x d a b c (fun h => Bool.noConfusion h) e f
  | matrixFree a b vals x y d o1 o2 o3 c1 c2 c3 c4 c5 c6 c7 ups ups' c8 c9 c10 _ c12 c13 =>
    exact .matrixFree a b vals x y d o1 o2 o3 c1 c2 c3 c4 c5 c6 c7 ups ups' c8 c9 c10 (fun h => Bool.noConfusion h) c12 c13

theorem run_any {parts : List Split.Part} {sts : List Step} {s s1 : State} (h : Run true defs kinds bnds parts sts s s1) : Run false defs kinds bnds parts sts s s1 := by
  induction sts generalizing s with
  | nil => exact h
  | cons st sts ih =>
    obtain ⟨a, ha, h⟩ := h
    exact ⟨a, stepRun_any ha, ih h⟩

theorem run_append {u : Bool} {parts : List Split.Part} {A B : List Step} {s s1 s2 : State} (h : Run u defs kinds bnds parts A s s1) (h' : Run u defs kinds bnds parts B s1 s2) :
    Run u defs kinds bnds parts (A ++ B) s s2 := by
  induction A generalizing s with
  | nil => obtain rfl : s1 = s := h; exact h'
  | cons st A ih =>
    obtain ⟨a, ha, h⟩ := h
    exact ⟨a, ha, ih h⟩

/-- Full statement: whatever steps are made before and after the stop, the systems being made before the first of them and made again after loading. -/
def C135Statement : Prop :=
  ∀ (kinds : List (ElType × Nat)) (m m' : DomMap) (bnds : List Nat) (D nParts₀ nParts nParts' nF : Nat) (parts₀ parts parts' : List Split.Part) (f₀ f g : Nat → Nat) (old : List (List Nat))
    (defs : Nat → SysDef) (V : Nat → Nat → ℝ) (dec : List Byte → ℝ), MeshOk kinds m bnds D → OneSided m bnds → MfMesh m bnds → Filled m → (∃ x, NodeIn m x) → (∀ x, NodeIn m x → x < 2 ^ 63) →
    0 < nF → nF < 2 ^ 64 → Outcome Monotone kinds m bnds nParts₀ parts₀ f₀ → Restarted Monotone kinds m bnds nParts parts f m' nParts' parts' g old →
    (∀ r < nParts₀, Fits bnds (part parts₀ r)) → (∀ r < nParts, Fits bnds (part parts r)) → (∀ r < nParts', Fits bnds (part parts' r)) →
    ∀ A B : List Step, (∀ st ∈ A ++ B, st.Ok (defs st.sys) m bnds nF) →
    ∀ s s2 t t1 u1 u2 : State, Carries defs m parts₀ f₀ nF s V (fun _ _ _ => 0) → Carries defs m parts f nF t V (fun _ _ _ => 0) → Run true defs kinds bnds parts₀ (A ++ B) s s2 →
    Run false defs kinds bnds parts A t t1 → Reloaded dec nF parts parts' old t1 u1 → Run false defs kinds bnds parts' B u1 u2 →
    ∀ n, NodeIn m n → ∀ fl < nF, ∀ r r', r < parts₀.length → r' < parts'.length → NodeIn (part parts₀ r).doms (f₀ n) → NodeIn (part parts' r').doms (g (f n)) →
      ∃ a, s2.reader r (f₀ n) fl = .ok a ∧ u2.reader r' (g (f n)) fl = .ok a

/-! ### Examples -/
open Verif.Split (lineKinds twoQuads)

/-- The two quadrilaterals on one rank. -/
def exWhole : List Split.Part := [⟨twoQuads.doms, ⟨0, 6, []⟩, []⟩]

/-- Eight bytes stand for a natural number. -/
def exDec (b : List Byte) : ℝ := (ofLe b : ℝ)

theorem exWhole_fits : FitsFile lineKinds (exWhole.map (savedPart exBytes [7])) := by
  have h : ∀ p ∈ exWhole.map (savedPart exBytes [7]), (partCodec lineKinds).des ((partCodec lineKinds).ser (norm p)) = some (norm p, []) := by decide +kernel
  exact ⟨by decide, fun p hp => ((lawful_part lineKinds).ser_des _ _ _ (h p hp)).2, by decide +kernel⟩

theorem exWhole_read : loadUnified lineKinds (File.run [] (saveParts lineKinds exBytes [7] (txt "c") exWhole)) = some (twoQuads.doms, [7]) := by decide +kernel

/-- Saved by one rank, loaded on any number. -/
theorem ex_restarted {nParts' : Nat} {parts' : List Split.Part} {g : Nat → Nat} (h : Outcome Monotone lineKinds twoQuads.doms [7] nParts' parts' g) :
    ∃ old, Restarted Monotone lineKinds twoQuads.doms [7] 1 exWhole id twoQuads.doms nParts' parts' g old := by
  obtain ⟨old, ho, _⟩ := C133_loads twoQuads_meshOk twoQuads_one h
  exact ⟨old, twoQuads_whole, by decide, exBytes, txt "c", [], _, [7], exWhole_fits, List.Perm.refl _, exWhole_read, ho⟩

theorem exWhole_mf : ∀ r < 1, Fits [7] (part exWhole r) := by
  intro r hr
  obtain rfl : r = 0 := by omega
  exact fits_whole (by decide) (by decide)

/-- Natural numbers below `2 ^ 64` can be written. -/
theorem exDec_nat {k : Nat} (hk : k < 2 ^ 64) : ∃ b : List Byte, b.length = 8 ∧ exDec b = k :=
  ⟨leBytes 8 k, by simp, by unfold exDec; rw [Verif.ofLe_leBytes_of_lt 8 k (by norm_num at hk ⊢; exact hk)]⟩

/-- A manager on the one rank holds what it carries. -/
theorem exWhole_data {defs : Nat → SysDef} {nF : Nat} {s : State} {V : Nat → Nat → ℝ} {W : Nat → Nat × Nat → Nat → ℝ} (hs : Carries defs twoQuads.doms exWhole id nF s V W) :
    ∀ r < exWhole.length, ∀ y ∈ (s.fields r).data, ∃ n < 6, ∃ fl < nF, y = V n fl := by
  intro r hr y hy
  obtain rfl : r = 0 := by have : exWhole.length = 1 := rfl; omega
  have hm := hs.man 0 hr
  have hl := managed_length hm
  obtain ⟨h1, h2⟩ := managed_fields hm
  have h6 : (part exWhole 0).own.localSize = 6 := rfl
  rw [h6] at hl
  obtain ⟨i, hi, rfl⟩ := List.getElem_of_mem hy
  rw [hl] at hi
  have hv := hs.vals 0 hr (i % 6) ((ex_nodes _).2 (Nat.mod_lt _ (by decide))) ((ex_nodes _).2 (Nat.mod_lt _ (by decide))) (i / 6) (Nat.div_lt_of_lt_mul hi)
  have hloc : (part exWhole 0).own.getLocal (i % 6) = i % 6 := by
    have : ∀ k < 6, (part exWhole 0).own.getLocal k = k := by decide
    exact this _ (Nat.mod_lt _ (by decide))
  unfold State.reader accessRead load at hv
  rw [h1, id_eq, hloc, h6, show i % 6 + i / 6 * 6 = i by omega, List.getElem?_eq_getElem (by omega)] at hv
  exact ⟨i % 6, Nat.mod_lt _ (by decide), i / 6, Nat.div_lt_of_lt_mul hi, Out.ok.inj hv⟩

/-- A system all of whose values are prescribed. -/
def exAll (_ : Nat) : SysDef := ⟨1, [([0], [0])], [([0], [0])], 1⟩

/-- Prescribe 1 everywhere, and put it in field 0. -/
def exOne : Step := ⟨0, [⟨false, [0], [0], 2, [], fun _ _ _ _ _ _ _ _ => 1⟩], [], [], [0], [0]⟩

/-- Put what is prescribed in field 0. -/
def exAgain : Step := ⟨0, [], [], [], [0], [0]⟩

theorem exAgain_ok : exAgain.Ok (exAll exAgain.sys) twoQuads.doms [7] 1 := by
  refine ⟨fun M rd => ⟨?_, ?_, ?_, ?_, ?_, ?_, ?_, ?_⟩, ?_, ?_, ?_, ?_, ?_, ?_, by decide, rfl⟩
  · intro d hd j hj
    obtain rfl : d = ([0], [0]) := by simpa [Step.prog, exAgain, exAll] using hd
    obtain rfl : j = 0 := by simpa using hj
    exact Nat.one_pos
  all_goals intro K hK; exact absurd hK List.not_mem_nil

theorem exOne_ok : exOne.Ok (exAll exOne.sys) twoQuads.doms [7] 1 := by
  refine ⟨fun M rd => ⟨?_, ?_, ?_, ?_, ?_, ?_, ?_, ?_⟩, ?_, ?_, ?_, ?_, ?_, ?_, by decide, rfl⟩
  · intro d hd j hj
    obtain rfl : d = ([0], [0]) := by simpa [Step.prog, exOne, exAll] using hd
    obtain rfl : j = 0 := by simpa using hj
    exact Nat.one_pos
  any_goals first | (intro K hK; exact absurd hK List.not_mem_nil)
  · intro c hc M rd
    obtain rfl := List.mem_singleton.1 hc
    refine ⟨?_, ?_, fun _ k hk => ⟨([0], [0]), by simp [SysDef.prog, exAll], hk, fun _ h => h⟩, fun h => Bool.noConfusion h⟩
    · change (asmDom twoQuads.doms [0] 2).isSome = true
      decide +kernel
    · change ∀ k ∈ [0], k ∉ [7]
      decide
  · intro c hc M rd
    obtain rfl := List.mem_singleton.1 hc
    refine count_of_length fun L hL => ?_
    have hL : asmDom twoQuads.doms [0] 2 = some L := hL
    have : ∀ l, asmDom twoQuads.doms [0] 2 = some l → l.length < 100 := by decide +kernel
    have := this L hL
    change L.length * 1 < _
    omega
  · intro c hc fl hfl
    obtain rfl := List.mem_singleton.1 hc
    exact absurd hfl List.not_mem_nil

theorem exAll_unknown (n : Nat) : ((exAll 0).prog.unknown twoQuads.doms (n, 0) ↔ n < 6) ∧ ((exAll 0).prog.prescribed twoQuads.doms (n, 0) ↔ n < 6) := by
  have h1 : ∀ e ∈ visitIds twoQuads.doms [0], ∀ n ∈ e.nodes, n < 6 := by decide
  have h2 : ∀ n < 6, ∃ e ∈ visitIds twoQuads.doms [0], n ∈ e.nodes := by decide
  constructor <;> constructor
  · rintro ⟨d, hd, _, e, he, hn⟩
    obtain rfl : d = ([0], [0]) := by simpa [exAll, SysDef.prog] using hd
    exact h1 e he n hn
  · intro hn
    exact ⟨([0], [0]), by simp [exAll, SysDef.prog], by simp, h2 n hn⟩
  · rintro ⟨d, hd, _, e, he, hn⟩
    obtain rfl : d = ([0], [0]) := by simpa [exAll, SysDef.prog] using hd
    exact h1 e he n hn
  · intro hn
    exact ⟨([0], [0]), by simp [exAll, SysDef.prog], by simp, h2 n hn⟩

/-- On one rank, all unknowns of the system are constrained. -/
theorem exAll_constrained : ∀ g < ((exAll 0).prog.setup exWhole).total, (exAll 0).prog.constrained exWhole g := by
  have ht : ((exAll 0).prog.setup exWhole).total = 6 := by decide +kernel
  have hd : ∀ g < 6, ∃ e ∈ visitIds (part exWhole 0).doms [0], ∃ n ∈ e.nodes, ((exAll 0).prog.setup exWhole).dofs 0 n 0 = some g := by decide +kernel
  intro g hg
  obtain ⟨e, he, n, hn, h⟩ := hd g (ht ▸ hg)
  exact ⟨0, by decide, ([0], [0]), by simp [exAll, SysDef.prog], e, he, n, hn, 0, by simp, h⟩

theorem exAll_dof : ∀ n < 6, (exAll 0).prog.dof exWhole (n, 0) < ((exAll 0).prog.setup exWhole).total := by
  have ht : ((exAll 0).prog.setup exWhole).total = 6 := by decide +kernel
  rw [ht]
  decide +kernel

/-- Steps with this system put in field 0 what is prescribed. -/
theorem exAll_run {st : Step} (hst : st.Ok (exAll st.sys) twoQuads.doms [7] 1) (h0 : st.sys = 0) (hsrc : st.src = [0]) (hdst : st.dst = [0]) {s : State} {V : Nat → Nat → ℝ}
    {W : Nat → Nat × Nat → Nat → ℝ} (hs : Carries exAll twoQuads.doms exWhole id 1 s V W) :
    ∃ s' V', StepRun true exAll lineKinds [7] exWhole st s s' ∧ Carries exAll twoQuads.doms exWhole id 1 s' V' (Function.update W 0 (newDir twoQuads.doms V st (W 0))) ∧
      ∀ n < 6, V' n 0 = newDir twoQuads.doms V st (W 0) (n, 0) 0 := by
  classical
  have hspread := outcome_spread twoQuads_meshOk twoQuads_one twoQuads_filled twoQuads_whole
  obtain ⟨v, hv, h⟩ := step_exists twoQuads_meshOk twoQuads_mf hspread hst (by rw [hsrc]; simp [exAll]) (by rw [hdst]; simp) hs
  have hx := fun c => solution_exists twoQuads_meshOk twoQuads_unique (prog_ok hst twoQuads.doms (Steps.canon V) (newDir twoQuads.doms V st (W st.sys))) hspread
    (els := fun r => (st.prog (exAll st.sys) twoQuads.doms (Steps.canon V)).rankElems exWhole r) (fun _ => List.Perm.refl _) (fun _ _ _ => 0) hv c
  choose x hx using hx
  have hval : ∀ {c : Nat} {y : Nat → ℝ}, Solution (exAll st.sys).prog exWhole (fun r => (st.prog (exAll st.sys) twoQuads.doms (Steps.canon V)).rankElems exWhole r) (fun _ _ _ => 0) v c y →
      ∀ g < ((exAll st.sys).prog.setup exWhole).total, y g = v g c := by
    intro c y hy g hg
    exact ((Lsq.solves_iff _ _ _).1 hy).1 g hg (exAll_constrained g hg)
  obtain ⟨s', h1, h2⟩ := h true (fun _ _ _ => 0) (fun g c => x c g) (fun c _ => hx c) fun _ c _ y z hy hz g hg => by rw [hval hy g hg, hval hz g hg]
  rw [h0] at h2
  refine ⟨s', _, h1, h2, fun n hn => ?_⟩
  unfold newVals
  have hc : comp (st.query (exAll 0)) 0 = 0 := by unfold comp Step.query; rw [hsrc, hdst]; rfl
  have hr : Report.rhs (st.query (exAll 0)) 0 = 0 := by unfold Report.rhs Step.query; rw [hdst]; rfl
  rw [hc, if_pos ⟨by rw [hdst]; simp, (exAll_unknown n).1.2 hn⟩]
  unfold valueOf
  rw [hc, hr, id_eq]
  refine (hval (hx 0) ((exAll 0).prog.dof exWhole (n, 0)) (exAll_dof n hn)).trans ?_
  have hv0 := hv (n, 0) ((exAll_unknown n).1.2 hn) ((exAll_unknown n).2.2 hn) 0
  rw [h0] at hv0
  exact hv0

theorem expected_const (a : ℝ) {L : List (Nat → ℝ)} (hne : L ≠ []) (h : ∀ F ∈ L, F 0 = 1) : NodeVals.expected a L 0 = 1 := by
  have hsum : (L.map fun F => F 0).sum = L.length := by
    rw [List.map_congr_left h]; simp
  unfold NodeVals.expected
  rw [if_neg hne, hsum]
  exact div_self (Nat.cast_ne_zero.2 fun h => hne (List.length_eq_zero_iff.1 h))

/-- **C135** fails: prescribed values are not in the files, and a system made again prescribes zeros.  A program sets 1 in one step and relies on it in the next; stopped between the two, it ends with 0. -/
theorem C135_violated : ¬ C135Statement := by
  intro H
  obtain ⟨old, hre⟩ := ex_restarted twoQuads_whole
  have hs := C125_start (defs := exAll) (nF := 1) twoQuads_meshOk twoQuads_one twoQuads_whole 0
  obtain ⟨s1, V1, a1, a2, a3⟩ := exAll_run exOne_ok rfl rfl rfl hs
  have hone : ∀ n < 6, ∀ w, newDir twoQuads.doms (fun _ _ => 0) exOne w (n, 0) 0 = 1 := by
    intro n hn w
    refine expected_const _ ?_ ?_
    · refine contribs_ne (List.mem_singleton.2 rfl) ?_
      have : ∀ n < 6, ∃ pt ∈ (asmDom twoQuads.doms [0] 2).getD [], pt.node = n := by decide +kernel
      exact this n hn
    · intro F hF
      obtain ⟨pt, _, hF⟩ := List.mem_flatMap.1 hF
      obtain ⟨q, _, rfl⟩ := List.mem_map.1 hF
      rfl
  obtain ⟨s2, V2, b1, b2, b3⟩ := exAll_run exAgain_ok rfl rfl rfl a2
  have hx : ∃ x, NodeIn twoQuads.doms x := ⟨0, (ex_nodes 0).2 (by decide)⟩
  have hsmall : ∀ x, NodeIn twoQuads.doms x → x < 2 ^ 63 := fun x h => by have := (ex_nodes x).1 h; omega
  obtain ⟨u1, hu⟩ := C135_loads (dec := exDec) twoQuads_meshOk twoQuads_one hx hsmall (by decide) (by decide) hre a2 fun r hr y hy => by
    obtain ⟨n, hn, fl, hfl, rfl⟩ := exWhole_data a2 r hr y hy
    obtain rfl : fl = 0 := by omega
    rw [a3 n hn, hone n hn]
    exact_mod_cast exDec_nat (k := 1) (by decide)
  have c2 := C135_fields twoQuads_meshOk twoQuads_one hx hsmall (by decide) (by decide) hre a2 hu
  obtain ⟨u2, V3, d1, d2, d3⟩ := exAll_run exAgain_ok rfl rfl rfl c2
  have h0 : NodeIn twoQuads.doms 0 := (ex_nodes 0).2 (by decide)
  obtain ⟨a, e1, e2⟩ := H lineKinds twoQuads.doms twoQuads.doms [7] 1 1 1 1 1 exWhole exWhole exWhole id id id old exAll _ exDec twoQuads_meshOk twoQuads_one twoQuads_mf twoQuads_filled hx hsmall
    (by decide) (by decide) twoQuads_whole hre exWhole_mf exWhole_mf exWhole_mf [exOne] [exAgain] (by
      intro st hst
      simp only [List.cons_append, List.nil_append, List.mem_cons, List.not_mem_nil, or_false] at hst
      rcases hst with rfl | rfl
      exacts [exOne_ok, exAgain_ok]) _ s2 _ s1 u1 u2 hs hs ⟨s1, a1, s2, b1, rfl⟩ ⟨s1, stepRun_any a1, rfl⟩ hu ⟨u2, stepRun_any d1, rfl⟩ 0 h0 0 (by decide) 0 0 (by decide) (by decide) h0 h0
  have f1 := b2.vals 0 (by decide) 0 h0 h0 0 (by decide)
  have f2 := d2.vals 0 (by decide) 0 h0 h0 0 (by decide)
  rw [b3 0 (by decide)] at f1
  rw [d3 0 (by decide)] at f2
  have g1 := Out.ok.inj (e1.symm.trans f1)
  have g2 := Out.ok.inj (e2.symm.trans f2)
  have : newDir twoQuads.doms V1 exAgain (Function.update (fun _ _ _ => (0 : ℝ)) 0 (newDir twoQuads.doms (fun _ _ => 0) exOne fun _ _ => 0) 0) (0, 0) 0 = 1 := by
    have e := hone 0 (by decide) fun _ _ => 0
    rw [← e]
    change Function.update (fun (_ : Nat) (_ : Nat × Nat) (_ : Nat) => (0 : ℝ)) 0 (newDir twoQuads.doms (fun _ _ => 0) exOne fun _ _ => 0) 0 (0, 0) 0 = _
    rw [Function.update_self]
  rw [g2] at g1
  exact absurd (g1.trans this) (by change (0 : ℝ) ≠ 1; exact zero_ne_one)

/-- Hypotheses of the theorems: a hundred steps, made without a stop on one rank; forty of them made on one rank, the fields saved, loaded on two, and sixty more made there.  However this goes, field 0
ends with 100 at every node. -/
example : ∃ parts f old s t1, Restarted Monotone lineKinds twoQuads.doms [7] 1 exWhole id twoQuads.doms 2 parts f old ∧ Carries exDefs twoQuads.doms exWhole id 2 s (fun _ _ => 0) (fun _ _ _ => 0) ∧
    (∃ s2, Run true exDefs lineKinds [7] exWhole (List.replicate 40 exStep ++ List.replicate 60 exStep) s s2) ∧ Run false exDefs lineKinds [7] exWhole (List.replicate 40 exStep) s t1 ∧
    (∃ u1, Reloaded exDec 2 exWhole parts old t1 u1) ∧ (∀ u1, Reloaded exDec 2 exWhole parts old t1 u1 → ∃ u2, Run false exDefs lineKinds [7] parts (List.replicate 60 exStep) u1 u2) ∧
    (∀ r < 2, Fits [7] (part parts r)) ∧ Ready exDefs twoQuads.doms (fun i => (∀ st ∈ List.replicate 40 exStep, st.sys ≠ i) ∧ ∀ k, (exDefs i).prog.unknown twoQuads.doms k →
      (exDefs i).prog.prescribed twoQuads.doms k → (fun (_ : Nat) (_ : Nat × Nat) (_ : Nat) => (0 : ℝ)) i k = 0) (List.replicate 60 exStep) ∧
    ∀ u1 u2, Reloaded exDec 2 exWhole parts old t1 u1 → Run false exDefs lineKinds [7] parts (List.replicate 60 exStep) u1 u2 →
      ∀ n < 6, ∀ r < 2, NodeIn (part parts r).doms (f n) → u2.reader r (f n) 0 = .ok 100 := by
  have hl : Labels twoQuads.doms [7] 2 [1, 0] [1, 0, 0, 1, 0, 0] [0, 1] := ⟨by decide, by decide, ex_nodes, by decide, ⟨by decide, by decide⟩⟩
  obtain ⟨parts, φ, f, maps, h1, _, _⟩ := partition_result twoQuads_meshOk twoQuads_one hl id (fun _ _ => id) (fun _ => List.Perm.refl _) (fun _ _ _ => List.Perm.refl _)
  have ho : Outcome Monotone lineKinds twoQuads.doms [7] 2 parts _ := .parts 2 _ _ _ hl id (fun _ _ => id) (fun _ => List.Perm.refl _) (fun _ _ _ => List.Perm.refl _) _ φ h1
  obtain ⟨N, maps, R⟩ := outcome_result twoQuads_meshOk twoQuads_one ho
  obtain ⟨old, hre⟩ := ex_restarted ho
  have hs := C125_start (defs := exDefs) (nF := 2) twoQuads_meshOk twoQuads_one twoQuads_whole 0
  have hok : ∀ k, ∀ st ∈ List.replicate k exStep, st.Ok (exDefs st.sys) twoQuads.doms [7] 2 := fun k st h => by
    obtain rfl := (List.mem_replicate.1 h).2
    exact exStep_ok
  have hsz : ∀ d ∈ twoQuads.doms, ∀ v ∈ d.2.vecs, ∀ e ∈ v, e.nodes.length ≤ 4 ∧ e.n = 2 := by decide
  have hln : ∀ d ∈ twoQuads.doms, (domEls twoQuads.doms d.1).length ≤ 2 := by decide +kernel
  have hf : ∀ r < 2, Fits [7] (part parts r) := by
    intro r hr
    refine C121_fits twoQuads_meshOk twoQuads_one ho ex_nodes (by decide) ?_ ?_ hr
    · rintro k e ⟨d, hd, he⟩
      obtain ⟨v, hv, hev⟩ := List.mem_flatten.1 he
      have h1 := (hsz _ (Mesh.mem_of_lookup hd) v hv e hev).1
      have h2 := hln _ (Mesh.mem_of_lookup hd)
      have h3 := Nat.mul_le_mul h1 h2
      simp only at h3
      omega
    · rintro e ⟨d, hd, v, hv, he⟩
      exact (hsz d hd v hv e he).2
  have hx : ∃ x, NodeIn twoQuads.doms x := ⟨0, (ex_nodes 0).2 (by decide)⟩
  have hsmall : ∀ x, NodeIn twoQuads.doms x → x < 2 ^ 63 := fun x h => by have := (ex_nodes x).1 h; omega
  obtain ⟨t1, V1, W1, e1, e2, e3⟩ := ex_runs twoQuads_whole 40 hs
  obtain ⟨s2, V2, W2, e4, e5, e6⟩ := ex_runs twoQuads_whole 60 e2
  have hrun := run_append e1 e4
  have hready : ∀ k live, Ready exDefs twoQuads.doms live (List.replicate k exStep) := by
    intro k
    induction k with
    | zero => intro _; trivial
    | succ k ih => exact fun live => ⟨Or.inr fun k _ hp => by obtain ⟨d, hd, _⟩ := hp; exact absurd hd List.not_mem_nil, ih _⟩
  refine ⟨parts, _, old, _, t1, hre, hs, ⟨s2, hrun⟩, run_any e1, ?_, fun u1 hu => ?_, hf, hready _ _, fun u1 u2 hu hrun' n hn r hr hnr => ?_⟩
  · refine C135_loads (dec := exDec) twoQuads_meshOk twoQuads_one hx hsmall (by decide) (by decide) hre e2 fun r hr y hy => ?_
    obtain ⟨n, hn, fl, hfl, rfl⟩ := exWhole_data e2 r hr y hy
    match fl, hfl with
    | 0, _ =>
      rw [(e3 n hn).1]
      obtain ⟨b, hb, hd⟩ := exDec_nat (k := 40) (by decide)
      exact ⟨b, hb, by rw [hd]; simp⟩
    | 1, _ =>
      rw [(e3 n hn).2]
      obtain ⟨b, hb, hd⟩ := exDec_nat (k := 0) (by decide)
      exact ⟨b, hb, by rw [hd]; simp⟩
  · have c := C135_fields twoQuads_meshOk twoQuads_one hx hsmall (by decide) (by decide) hre e2 hu
    obtain ⟨u2, _, _, h, _⟩ := C135_runs twoQuads_meshOk twoQuads_one twoQuads_mf twoQuads_filled hre (hok 60) (fun st h => by obtain rfl := (List.mem_replicate.1 h).2; decide)
      (fun st h => by obtain rfl := (List.mem_replicate.1 h).2; decide) c
    exact ⟨u2, h⟩
  · have hin : NodeIn (part exWhole 0).doms (id n) := (ex_nodes n).2 hn
    obtain ⟨a, ha, hb⟩ := C135_resume_partial (dec := exDec) twoQuads_meshOk twoQuads_one twoQuads_mf twoQuads_filled hx hsmall (by decide) (by decide) twoQuads_whole hre exWhole_mf exWhole_mf hf
      (fun st h => (List.mem_append.1 h).elim (hok _ st) (hok _ st)) (hready 60 _) hs hs hrun (run_any e1) hu hrun' ((ex_nodes n).2 hn) (fl := 0) (by decide)
      (r := 0) (r' := r) (by decide) (by rw [R.plen]; exact hr) hin hnr
    have hv := e5.vals 0 (by decide) n ((ex_nodes n).2 hn) hin 0 (by decide)
    rw [(e6 n hn).1, (e3 n hn).1] at hv
    have : Out.ok a = Out.ok ((0 : ℝ) + (40 : Nat) + (60 : Nat)) := ha.symm.trans hv
    rw [id_eq] at hb
    rw [hb, this]
    norm_num

/-- Small whole numbers on the one rank can be saved and loaded anywhere. -/
theorem ex_loads {nParts' : Nat} {parts' : List Split.Part} {g : Nat → Nat} {old : List (List Nat)} (hre : Restarted Monotone lineKinds twoQuads.doms [7] 1 exWhole id twoQuads.doms nParts' parts' g old)
    {s : State} {V : Nat → Nat → ℝ} {W : Nat → Nat × Nat → Nat → ℝ} (hs : Carries exDefs twoQuads.doms exWhole id 2 s V W) {k : Nat} (hk : k < 2 ^ 64)
    (hV : ∀ n < 6, V n 0 = k ∧ V n 1 = 0) : ∃ t, Reloaded exDec 2 exWhole parts' old s t := by
  refine C135_loads (dec := exDec) twoQuads_meshOk twoQuads_one ⟨0, (ex_nodes 0).2 (by decide)⟩ (fun x h => by have := (ex_nodes x).1 h; omega) (by decide) (by decide) hre hs fun r hr y hy => ?_
  obtain ⟨n, hn, fl, hfl, rfl⟩ := exWhole_data hs r hr y hy
  match fl, hfl with
  | 0, _ => rw [(hV n hn).1]; exact exDec_nat hk
  | 1, _ =>
    rw [(hV n hn).2]
    obtain ⟨b, hb, hd⟩ := exDec_nat (k := 0) (by decide)
    exact ⟨b, hb, by rw [hd]; simp⟩

/-- Hypotheses of `C135_session_partial`: a hundred steps, made without a stop on one rank, and made in three pieces, the first two on one rank and the last one on two. -/
example : ∃ parts f s s2 u, Carries exDefs twoQuads.doms exWhole id 2 s (fun _ _ => 0) (fun _ _ _ => 0) ∧
    Run true exDefs lineKinds [7] exWhole [List.replicate 40 exStep, List.replicate 30 exStep, List.replicate 30 exStep].flatten s s2 ∧
    Session exDec 2 exDefs lineKinds [7] [List.replicate 40 exStep, List.replicate 30 exStep, List.replicate 30 exStep] 1 exWhole id s 2 parts f u ∧
    ReadyAll exDefs twoQuads.doms (fun _ => True) (fun i => ∀ k, (exDefs i).prog.unknown twoQuads.doms k → (exDefs i).prog.prescribed twoQuads.doms k →
      (fun (_ : Nat) (_ : Nat × Nat) (_ : Nat) => (0 : ℝ)) i k = 0) [List.replicate 40 exStep, List.replicate 30 exStep, List.replicate 30 exStep] ∧
    ∀ n < 6, ∀ r < 2, NodeIn (part parts r).doms (f n) → u.reader r (f n) 0 = .ok 100 := by
  have hl : Labels twoQuads.doms [7] 2 [1, 0] [1, 0, 0, 1, 0, 0] [0, 1] := ⟨by decide, by decide, ex_nodes, by decide, ⟨by decide, by decide⟩⟩
  obtain ⟨parts, φ, f, maps, h1, _, _⟩ := partition_result twoQuads_meshOk twoQuads_one hl id (fun _ _ => id) (fun _ => List.Perm.refl _) (fun _ _ _ => List.Perm.refl _)
  obtain ⟨ψ, ho⟩ : ∃ ψ, Outcome Monotone lineKinds twoQuads.doms [7] 2 parts ψ := ⟨_, .parts 2 _ _ _ hl id (fun _ _ => id) (fun _ => List.Perm.refl _) (fun _ _ _ => List.Perm.refl _) _ φ h1⟩
  obtain ⟨N, maps, R⟩ := outcome_result twoQuads_meshOk twoQuads_one ho
  obtain ⟨old, hre⟩ := ex_restarted ho
  obtain ⟨old1, hre1⟩ := ex_restarted twoQuads_whole
  obtain ⟨s, hs⟩ : ∃ s, Carries exDefs twoQuads.doms exWhole id 2 s (fun _ _ => 0) fun _ _ _ => 0 := ⟨_, C125_start twoQuads_meshOk twoQuads_one twoQuads_whole 0⟩
  have hok : ∀ k, ∀ st ∈ List.replicate k exStep, st.Ok (exDefs st.sys) twoQuads.doms [7] 2 := fun k st h => by
    obtain rfl := (List.mem_replicate.1 h).2
    exact exStep_ok
  have hsz : ∀ d ∈ twoQuads.doms, ∀ v ∈ d.2.vecs, ∀ e ∈ v, e.nodes.length ≤ 4 ∧ e.n = 2 := by decide
  have hln : ∀ d ∈ twoQuads.doms, (domEls twoQuads.doms d.1).length ≤ 2 := by decide +kernel
  have hf : ∀ r < 2, Fits [7] (part parts r) := by
    intro r hr
    refine C121_fits twoQuads_meshOk twoQuads_one ho ex_nodes (by decide) ?_ ?_ hr
    · rintro k e ⟨d, hd, he⟩
      obtain ⟨v, hv, hev⟩ := List.mem_flatten.1 he
      have h1 := (hsz _ (Mesh.mem_of_lookup hd) v hv e hev).1
      have h2 := hln _ (Mesh.mem_of_lookup hd)
      have h3 := Nat.mul_le_mul h1 h2
      simp only at h3
      omega
    · rintro e ⟨d, hd, v, hv, he⟩
      exact (hsz d hd v hv e he).2
  have hx : ∃ x, NodeIn twoQuads.doms x := ⟨0, (ex_nodes 0).2 (by decide)⟩
  have hsmall : ∀ x, NodeIn twoQuads.doms x → x < 2 ^ 63 := fun x h => by have := (ex_nodes x).1 h; omega
  have hready : ∀ k live, Ready exDefs twoQuads.doms live (List.replicate k exStep) := by
    intro k
    induction k with
    | zero => intro _; trivial
    | succ k ih => exact fun live => ⟨Or.inr fun k _ hp => by obtain ⟨d, hd, _⟩ := hp; exact absurd hd List.not_mem_nil, ih _⟩
  obtain ⟨t1, V1, W1, e1, e2, e3⟩ := ex_runs twoQuads_whole 40 hs
  obtain ⟨s2, V2, W2, e4, e5, e6⟩ := ex_runs twoQuads_whole (30 + 30) e2
  have hrun : Run true exDefs lineKinds [7] exWhole [List.replicate 40 exStep, List.replicate 30 exStep, List.replicate 30 exStep].flatten s s2 := by
    have := run_append e1 e4
    rw [List.replicate_add 30 30] at this
    rw [List.flatten_cons, List.flatten_cons, List.flatten_cons, List.flatten_nil, List.append_nil]
    exact this
  obtain ⟨u1, hu1⟩ := ex_loads hre1 e2 (k := 40) (by decide) fun n hn => ⟨by rw [(e3 n hn).1]; simp, by rw [(e3 n hn).2]⟩
  have c1 : Carries exDefs twoQuads.doms exWhole id 2 u1 V1 fun _ _ _ => 0 := C135_fields twoQuads_meshOk twoQuads_one hx hsmall (by decide) (by decide) hre1 e2 hu1
  obtain ⟨u2, V3, W3, g1, g2, g3⟩ := ex_runs twoQuads_whole 30 c1
  obtain ⟨u3, hu3⟩ := ex_loads hre g2 (k := 70) (by decide) fun n hn => ⟨by rw [(g3 n hn).1, (e3 n hn).1]; norm_num, by rw [(g3 n hn).2, (e3 n hn).2]⟩
  have c3 := C135_fields twoQuads_meshOk twoQuads_one hx hsmall (by decide) (by decide) hre g2 hu3
  obtain ⟨u4, _, _, k1, _⟩ := C135_runs twoQuads_meshOk twoQuads_one twoQuads_mf twoQuads_filled hre (hok 30) (fun st h => by obtain rfl := (List.mem_replicate.1 h).2; decide)
    (fun st h => by obtain rfl := (List.mem_replicate.1 h).2; decide) c3
  have hse : Session exDec 2 exDefs lineKinds [7] [List.replicate 40 exStep, List.replicate 30 exStep, List.replicate 30 exStep] 1 exWhole id s 2 parts ψ u4 :=
    .stop _ _ 1 exWhole id _ t1 (by decide) exWhole_mf (run_any e1) twoQuads.doms 1 exWhole id old1 hre1.read u1 hu1 2 parts _ u4
      (.stop _ _ 1 exWhole _ _ u2 (by decide) exWhole_mf (run_any g1) twoQuads.doms 2 parts _ old hre.read u3 hu3 2 parts _ u4 (.last _ 2 parts _ _ u4 hf k1))
  have hall : ReadyAll exDefs twoQuads.doms (fun _ => True) (fun i => ∀ k, (exDefs i).prog.unknown twoQuads.doms k → (exDefs i).prog.prescribed twoQuads.doms k →
      (fun (_ : Nat) (_ : Nat × Nat) (_ : Nat) => (0 : ℝ)) i k = 0) [List.replicate 40 exStep, List.replicate 30 exStep, List.replicate 30 exStep] := ⟨hready _ _, hready _ _, hready _ _, trivial⟩
  refine ⟨parts, ψ, s, s2, u4, hs, hrun, hse, hall, fun n hn r hr hnr => ?_⟩
  have hin : NodeIn (part exWhole 0).doms (id n) := (ex_nodes n).2 hn
  obtain ⟨a, ha, hb⟩ := C135_session_partial (dec := exDec) twoQuads_meshOk twoQuads_one twoQuads_mf twoQuads_filled hx hsmall (by decide) (by decide) twoQuads_whole exWhole_mf twoQuads_whole
    (As := [List.replicate 40 exStep, List.replicate 30 exStep, List.replicate 30 exStep]) (fun A hA st hst => by
      simp only [List.mem_cons, List.not_mem_nil, or_false] at hA
      rcases hA with rfl | rfl | rfl <;> exact hok _ st hst) hall hs hs hrun hse ((ex_nodes n).2 hn) (fl := 0) (by decide)
    (r := 0) (r' := r) (by decide) (by rw [R.plen]; exact hr) hin hnr
  have hv := e5.vals 0 (by decide) n ((ex_nodes n).2 hn) hin 0 (by decide)
  rw [(e6 n hn).1, (e3 n hn).1] at hv
  have : Out.ok a = Out.ok ((0 : ℝ) + (40 : Nat) + (30 + 30 : Nat)) := ha.symm.trans hv
  rw [hb, this]
  norm_num

end
end Verif.Resume
