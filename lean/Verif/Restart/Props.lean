import Verif.Restart.Unified
import Verif.Pipeline.Props

/-! # C133: stop, save, load on any number of ranks, go on -/
namespace Verif.Restart
open Verif Verif.Elem Verif.Mesh Verif.Split Verif.Partition Verif.Pipeline Verif.Own Verif.NativeIO Verif.Lsq Verif.Distr

/-- Field values at the nodes of the mesh as the ranks hold them: `w x fld` at node `x`, on the owner of the node (numbered `f x`). -/
structure State (m : DomMap) (parts : List Part) (f : Nat → Nat) (sols : List SolMan) (w : Nat → Nat → List Byte) : Prop where
  len : sols.length = parts.length
  shape : ∀ (r : Nat) p s, parts[r]? = some p → sols[r]? = some s → s.nNodes = p.own.localSize ∧ s.data.length = s.nNodes * s.nFields ∧ ∀ v ∈ s.data, v.length = 8
  vals : ∀ (r : Nat) p s, parts[r]? = some p → sols[r]? = some s → ∀ i < p.own.cnt, ∀ x, NodeIn m x → p.own.getGlobal i = some (f x) →
    ∀ fld < s.nFields, s.get i fld = some (w x fld)

/-- What the ranks hand to `save(results)`. -/
def ranksOf (parts : List Part) (sols : List SolMan) : List (Nat × SolMan) := (parts.zip sols).map fun q => (q.1.own.cnt, q.2)

variable {kinds : List (ElType × Nat)} {bnds : List Nat} {m : DomMap} {D N nParts : Nat} {parts : List Part} {f : Nat → Nat} {maps : List DomMap}

theorem ranksOf_fst {sols : List SolMan} (h : sols.length = parts.length) : (ranksOf parts sols).map (·.1) = parts.map fun q => q.own.cnt := by
  unfold ranksOf
  rw [List.map_map]
  have : ((·.1) ∘ fun q : Part × SolMan => (q.1.own.cnt, q.2)) = (fun q : Part => q.own.cnt) ∘ Prod.fst := rfl
  rw [this, ← List.map_map, List.map_fst_zip (by omega)]

theorem ranksOf_get {sols : List SolMan} {r : Nat} {rk : Nat × SolMan} (h : (ranksOf parts sols)[r]? = some rk) :
    ∃ p, parts[r]? = some p ∧ sols[r]? = some rk.2 ∧ rk.1 = p.own.cnt := by
  unfold ranksOf at h
  rw [List.getElem?_map, Option.map_eq_some_iff] at h
  obtain ⟨⟨p, s⟩, hq, rfl⟩ := h
  rw [List.getElem?_zip_eq_some] at hq
  exact ⟨p, hq.1, hq.2, rfl⟩

theorem State.ranksOk {sols : List SolMan} {w : Nat → Nat → List Byte} (h : State m parts f sols w) : RanksOk (ranksOf parts sols) := by
  refine ⟨fun q hq => ?_, fun q hq => ?_, fun q hq => ?_⟩ <;> obtain ⟨r, hr⟩ := List.getElem?_of_mem hq <;> obtain ⟨p, h1, h2, h3⟩ := ranksOf_get hr <;>
    obtain ⟨a, b, c⟩ := h.shape r p q.2 h1 h2
  · rw [h3, a]; unfold SegOwn.localSize; omega
  · exact b
  · exact c

theorem nodeBegin_before {sols : List SolMan} (h : sols.length = parts.length) (r : Nat) : nodeBegin (ranksOf parts sols) r = before parts r := by
  unfold nodeBegin before
  rw [ranksOf_fst h, List.map_take]

theorem sum_ranks {sols : List SolMan} (R : Result bnds m N nParts parts f maps) (h : sols.length = parts.length) : ((ranksOf parts sols).map (·.1)).sum = N := by
  rw [ranksOf_fst h, ← R.total, before, List.take_length]

theorem result_pos (R : Result bnds m N nParts parts f maps) (hx : ∃ x, NodeIn m x) : 0 < N := by
  obtain ⟨x, hx⟩ := hx
  have := (R.nodes x).1 hx
  omega

/-- Values loaded with the numbers `o` which local nodes had in the saved distribution. -/
theorem load_values (R : Result bnds m N nParts parts f maps) (hx : ∃ x, NodeIn m x) {sols : List SolMan} {w : Nat → Nat → List Byte} (hs : State m parts f sols w)
    (comment prev : List Byte) {inds : List Nat} {ws ws' : List (Nat × List Byte)} (hsave : saveRes comment (ranksOf parts sols) inds = some ws) (hw : ws'.Perm ws)
    (hn : inds.length < 2 ^ 64) (hg : N < 2 ^ 64) (hinds : ∀ i ∈ inds, ∀ s ∈ sols, i < s.nFields) {o : List Nat} (ho : ∀ y ∈ o, y < N) (s : SolMan)
    (hsz : s.data.length = s.nNodes * s.nFields) (hol : o.length ≤ s.nNodes) {src dst : List Nat} (hlen : src.length = dst.length) (hne : src ≠ [])
    (hsrc : ∀ i ∈ src, i < inds.length) (hdst : ∀ i ∈ dst, i < s.nFields) (hdnd : dst.Nodup) :
    ∃ s', (Loader.fresh.loaded o).loadResults (File.run prev ws') src dst s = some s' ∧ s'.nNodes = s.nNodes ∧ s'.nFields = s.nFields ∧
      (∀ (i x q k d fld : Nat), NodeIn m x → o[i]? = some (f x) → src[q]? = some k → dst[q]? = some d → inds[k]? = some fld → s'.get i d = some (w x fld)) ∧
      ∀ n d, n < s.nNodes → (d ∉ dst ∨ o.length ≤ n) → s'.get n d = s.get n d := by
  have hsum := sum_ranks R hs.len
  obtain ⟨s', h1, h2, h3, h4, h5⟩ := C36_loaded hs.ranksOk comment prev hsave hw hn (by rw [hsum]; exact hg) (by rw [hsum]; exact result_pos R hx) s hsz (oldNodes := o)
    (by rw [hsum]; exact ho) hol hlen hne hsrc hdst hdnd
  refine ⟨s', h1, h2, h3, fun i x q k d fld hxm hi hq hd hk => ?_, h5⟩
  have hlt : f x < N := R.bij.mapsTo ((R.nodes x).1 hxm)
  obtain ⟨r, rk, j, g1, g2, g3⟩ := node_owner (ranksOf parts sols) (f x) (by rw [hsum]; exact hlt)
  rw [h4 q k d i (f x) r j rk fld hq hd hi g1 g2 g3 hk]
  obtain ⟨p, p1, p2, p3⟩ := ranksOf_get g1
  refine hs.vals r p rk.2 p1 p2 j (by omega) x hxm ?_ fld (hinds fld (List.mem_of_getElem? hk) _ (List.mem_of_getElem? p2))
  unfold SegOwn.getGlobal
  rw [if_pos (by omega), first_eq R p1 (by omega), g3, nodeBegin_before hs.len]

/-- **C133** (mesh).  Saving a distributed mesh and reading the file on one rank gives the mesh which was distributed: its domains hold the same elements under the
node numbers of the distribution, the boundaries are the same, and the mesh meets every condition for being distributed again. -/
theorem C133_mesh (hm : MeshOk kinds m bnds D) (hone : OneSided m bnds) (hpos : 0 < nParts) (ho : Outcome Monotone kinds m bnds nParts parts f) (bytes : Element → List Byte)
    (hfit : FitsFile kinds (parts.map (savedPart bytes bnds))) (comment prev : List Byte) {ws : List (Nat × List Byte)} (hws : ws.Perm (saveParts kinds bytes bnds comment parts)) :
    ∃ m', loadUnified kinds (File.run prev ws) = some (m', bnds) ∧ (∀ k, (visitIds m' [k]).Perm ((visitIds m [k]).map (mapEl f))) ∧
      (∃ N, (∀ x, NodeIn m x ↔ x < N) ∧ (∀ x, NodeIn m' x ↔ x < N) ∧ Set.BijOn f (Set.Iio N) (Set.Iio N)) ∧
      MeshOk kinds m' bnds D ∧ OneSided m' bnds ∧ (UniqueParent m bnds → UniqueParent m' bnds) := by
  obtain ⟨N, maps, R⟩ := outcome_result hm hone ho
  obtain ⟨m', h1, h2, _⟩ := unified hm R (MfPipe.outcome_wf hm hone ho) bytes hpos
  refine ⟨m', ?_, h2.perm, ⟨N, R.nodes, h2.nodes', R.bij⟩, h2.meshOk hm, h2.oneSided hone, h2.uniqueParent⟩
  unfold loadUnified
  rw [loadParts_saved hfit comment prev hws, Option.bind_some, h1]

/-- **C133** (loading does not fail).  However the mesh read is cut and its parts placed, the numbers its nodes had in the file are known on every rank. -/
theorem C133_loads (hm : MeshOk kinds m bnds D) (hone : OneSided m bnds) (ho : Outcome Monotone kinds m bnds nParts parts f) :
    ∃ old, Repart Monotone kinds m bnds nParts parts f old ∧ old.length = parts.length := by
  obtain ⟨old, h⟩ := repart_exists hm hone ho
  obtain ⟨_, _, R, h2, _⟩ := h.names hm hone
  exact ⟨old, h, by rw [h2, R.plen]⟩

/-- The files of the parts are written, read as the mesh `m'`, and this is distributed on `nParts'` ranks (numbers `g`), with reorderings of the ranks allowed by `Q`. -/
def Reread (Q : List Part → List Nat → Prop) (kinds : List (ElType × Nat)) (bnds : List Nat) (parts : List Part) (m' : DomMap) (nParts' : Nat) (parts' : List Part) (g : Nat → Nat)
    (old : List (List Nat)) : Prop :=
  ∃ bytes comment prev ws bnds', FitsFile kinds (parts.map (savedPart bytes bnds)) ∧ ws.Perm (saveParts kinds bytes bnds comment parts) ∧
    loadUnified kinds (File.run prev ws) = some (m', bnds') ∧ Repart Q kinds m' bnds' nParts' parts' g old

/-- Everything about a restart: `m` was distributed on `nParts` ranks (numbers `f`), saved, read as `m'`, and distributed again on `nParts'` ranks (numbers `g`),
with reorderings of the ranks allowed by `Q`. -/
structure Restarted (Q : List Part → List Nat → Prop) (kinds : List (ElType × Nat)) (m : DomMap) (bnds : List Nat) (nParts : Nat) (parts : List Part) (f : Nat → Nat)
    (m' : DomMap) (nParts' : Nat) (parts' : List Part) (g : Nat → Nat) (old : List (List Nat)) : Prop where
  before : Outcome Monotone kinds m bnds nParts parts f
  pos : 0 < nParts
  read : Reread Q kinds bnds parts m' nParts' parts' g old

theorem reread_results {m' : DomMap} {nParts' : Nat} {parts' : List Part} {g : Nat → Nat} {old : List (List Nat)} (hm : MeshOk kinds m bnds D) (hone : OneSided m bnds)
    {N : Nat} {maps : List DomMap} (R : Result bnds m N nParts parts f maps) (hw : ∀ q ∈ parts, WfMesh kinds q.doms) (hpos : 0 < nParts)
    (h : Reread Monotone kinds bnds parts m' nParts' parts' g old) :
    ∃ maps', Renamed kinds f N m m' ∧ Result bnds m N nParts' parts' (fun x => g (f x)) maps' ∧
      (∀ (r : Nat) p, parts'[r]? = some p → ∃ o, old[r]? = some o ∧ Names p g N o) ∧ Outcome Monotone kinds m' bnds nParts' parts' g ∧
      ((∀ q ∈ parts, ∀ k d, q.doms.lookup k = some d → d.elems ≠ []) → ∀ k d, m'.lookup k = some d → d.elems ≠ []) := by
  obtain ⟨bytes, comment, prev, ws, bnds', hfit, hws, hload, hrep⟩ := h
  obtain ⟨m1, h1, h2, h3⟩ := unified hm R hw bytes hpos
  unfold loadUnified at hload
  rw [loadParts_saved hfit comment prev hws, Option.bind_some, h1] at hload
  obtain ⟨rfl, rfl⟩ := Prod.mk.inj (Option.some.inj hload)
  obtain ⟨N', maps', R', _, hn⟩ := hrep.names (h2.meshOk hm) (h2.oneSided hone)
  have hNN : N' = N := by
    have h : ∀ x, x < N' ↔ x < N := fun x => (R'.nodes x).symm.trans (h2.nodes' x)
    have a := h N
    have b := h N'
    omega
  subst hNN
  exact ⟨_, h2, h2.result R', hn, hrep.outcome, h3⟩

theorem Restarted.results {m' : DomMap} {nParts' : Nat} {parts' : List Part} {g : Nat → Nat} {old : List (List Nat)} (hm : MeshOk kinds m bnds D) (hone : OneSided m bnds)
    (h : Restarted Monotone kinds m bnds nParts parts f m' nParts' parts' g old) :
    ∃ N maps maps', Result bnds m N nParts parts f maps ∧ Renamed kinds f N m m' ∧ Result bnds m N nParts' parts' (fun x => g (f x)) maps' ∧
      ∀ (r : Nat) p, parts'[r]? = some p → ∃ o, old[r]? = some o ∧ Names p g N o := by
  obtain ⟨N, maps, R⟩ := outcome_result hm hone h.before
  obtain ⟨maps', h1, h2, h3, _⟩ := reread_results hm hone R (MfPipe.outcome_wf hm hone h.before) h.pos h.read
  exact ⟨N, maps, maps', R, h1, h2, h3⟩

theorem values_of {N : Nat} {maps maps' : List DomMap} {nParts' : Nat} {parts' : List Part} {g : Nat → Nat} {old : List (List Nat)} (R : Result bnds m N nParts parts f maps)
    (R' : Result bnds m N nParts' parts' (fun x => g (f x)) maps') (hnames : ∀ (r : Nat) p, parts'[r]? = some p → ∃ o, old[r]? = some o ∧ Names p g N o) (hx : ∃ x, NodeIn m x)
    (hsmall : ∀ x, NodeIn m x → x < 2 ^ 63) {sols : List SolMan} {w : Nat → Nat → List Byte} (hs : State m parts f sols w)
    (comment prev : List Byte) {inds : List Nat} {ws ws' : List (Nat × List Byte)} (hsave : saveRes comment (ranksOf parts sols) inds = some ws) (hw : ws'.Perm ws)
    (hn : inds.length < 2 ^ 64) (hinds : ∀ i ∈ inds, ∀ s ∈ sols, i < s.nFields)
    {r : Nat} {p : Part} (hr : parts'[r]? = some p) (s : SolMan) (hsn : s.nNodes = p.own.localSize)
    (hsz : s.data.length = s.nNodes * s.nFields) {src dst : List Nat} (hlen : src.length = dst.length) (hne : src ≠ [])
    (hsrc : ∀ i ∈ src, i < inds.length) (hdst : ∀ i ∈ dst, i < s.nFields) (hdnd : dst.Nodup) :
    ∃ o s', old[r]? = some o ∧ (Loader.fresh.loaded o).loadResults (File.run prev ws') src dst s = some s' ∧ s'.nNodes = s.nNodes ∧ s'.nFields = s.nFields ∧
      (∀ i y, p.own.getGlobal i = some y → ∃! x, NodeIn m x ∧ g (f x) = y) ∧
      (∀ (i x q k d fld : Nat), NodeIn m x → p.own.getGlobal i = some (g (f x)) → src[q]? = some k → dst[q]? = some d → inds[k]? = some fld → s'.get i d = some (w x fld)) ∧
      ∀ n d, n < s.nNodes → d ∉ dst → s'.get n d = s.get n d := by
  obtain ⟨o, ho, hol, hon⟩ := hnames r p hr
  have hN : N < 2 ^ 64 := by
    rcases Nat.eq_zero_or_pos N with h0 | h0
    · omega
    · have := hsmall (N - 1) ((R.nodes _).2 (by omega))
      omega
  have hlt : ∀ y ∈ o, y < N := by
    intro y hy
    obtain ⟨i, hi⟩ := List.getElem?_of_mem hy
    have hil : i < (localNodes p.own).length := by rw [localNodes_length, ← hol]; exact (List.getElem?_eq_some_iff.1 hi).1
    obtain ⟨x, hx, _, hix⟩ := hon i _ ((getGlobal_eq p.own i).trans (List.getElem?_eq_getElem hil))
    rw [← Option.some.inj (hix.symm.trans hi)]; exact hx
  obtain ⟨s', h1, h2, h3, h4, h5⟩ := load_values R hx hs comment prev hsave hw hn hN hinds hlt s hsz (by rw [hol, hsn]) hlen hne hsrc hdst hdnd
  refine ⟨o, s', ho, h1, h2, h3, fun i y hy => ?_, fun i x q k d fld hxm hi hq hd hk => ?_, fun n d hn hd => h5 n d hn (Or.inl hd)⟩
  · have hy := known_lt R' hr hy
    refine ⟨inv (fun x => g (f x)) N y, ⟨(R.nodes _).2 (inv_lt R'.bij hy), inv_right R'.bij hy⟩, ?_⟩
    rintro x ⟨hxm, rfl⟩
    exact (inv_left R'.bij ((R.nodes x).1 hxm)).symm
  · refine h4 i x q k d fld hxm ?_ hq hd hk
    obtain ⟨x', hx', he, hix⟩ := hon i _ hi
    rw [hix]
    have hfx : f x < N := R.bij.mapsTo ((R.nodes x).1 hxm)
    congr 1
    -- `g` is one-to-one since `g ∘ f` and `f` are
    have e1 : f (inv f N x') = x' := inv_right R.bij hx'
    rw [← e1] at he ⊢
    exact congrArg f (R'.bij.injOn (Set.mem_Iio.2 (inv_lt R.bij hx')) (Set.mem_Iio.2 ((R.nodes x).1 hxm)) he)

/-- **C133** (values).  Results saved by the ranks of the old distribution and loaded by those of the new one: on every rank, every local node — owned or ghost — is a node of the
original mesh and gets, in each field asked for, the value this node had; nothing else changes.  The numbers of ranks need not agree. -/
theorem C133_values_partial (hm : MeshOk kinds m bnds D) (hone : OneSided m bnds) (hx : ∃ x, NodeIn m x) {m' : DomMap} {nParts' : Nat} {parts' : List Part} {g : Nat → Nat} {old : List (List Nat)}
    (h : Restarted Monotone kinds m bnds nParts parts f m' nParts' parts' g old) (hsmall : ∀ x, NodeIn m x → x < 2 ^ 63) {sols : List SolMan} {w : Nat → Nat → List Byte} (hs : State m parts f sols w)
    (comment prev : List Byte) {inds : List Nat} {ws ws' : List (Nat × List Byte)} (hsave : saveRes comment (ranksOf parts sols) inds = some ws) (hw : ws'.Perm ws)
    (hn : inds.length < 2 ^ 64) (hinds : ∀ i ∈ inds, ∀ s ∈ sols, i < s.nFields)
    {r : Nat} {p : Part} (hr : parts'[r]? = some p) (s : SolMan) (hsn : s.nNodes = p.own.localSize)
    (hsz : s.data.length = s.nNodes * s.nFields) {src dst : List Nat} (hlen : src.length = dst.length) (hne : src ≠ [])
    (hsrc : ∀ i ∈ src, i < inds.length) (hdst : ∀ i ∈ dst, i < s.nFields) (hdnd : dst.Nodup) :
    ∃ o s', old[r]? = some o ∧ (Loader.fresh.loaded o).loadResults (File.run prev ws') src dst s = some s' ∧ s'.nNodes = s.nNodes ∧ s'.nFields = s.nFields ∧
      (∀ i y, p.own.getGlobal i = some y → ∃! x, NodeIn m x ∧ g (f x) = y) ∧
      (∀ (i x q k d fld : Nat), NodeIn m x → p.own.getGlobal i = some (g (f x)) → src[q]? = some k → dst[q]? = some d → inds[k]? = some fld → s'.get i d = some (w x fld)) ∧
      ∀ n d, n < s.nNodes → d ∉ dst → s'.get n d = s.get n d := by
  obtain ⟨N, maps, maps', R, hren, R', hnames⟩ := h.results hm hone
  exact values_of R R' hnames hx hsmall hs comment prev hsave hw hn hinds hr s hsn hsz hlen hne hsrc hdst hdnd

/-- **C133** (all fields).  Without field numbers, `loadResults` fills field `i` from saved field `i` if the numbers of fields agree, and throws otherwise. -/
theorem C133_all_fields (L : Loader) {file : List Byte} {r : Nat × Nat × List Byte} (h : openRes file = some r) (s : SolMan) :
    (r.1 = s.nFields → L.loadAll file s = L.loadResults file (List.range s.nFields) (List.range s.nFields) s) ∧ (r.1 ≠ s.nFields → L.loadAll file s = none) := by
  unfold Loader.loadAll
  rw [h, Option.bind_some]
  refine ⟨fun he => by rw [he], fun hne => ?_⟩
  unfold Loader.loadResults
  cases L.old with
  | none => rfl
  | some o =>
    rw [Option.bind_some]
    unfold loadRes
    rw [h, Option.bind_some, if_pos (Or.inl (by simpa using hne))]

/-- **C133** (order of calls): results cannot be loaded before the mesh. -/
theorem C133_order (file : List Byte) (src dst : List Nat) (s : SolMan) : Loader.fresh.loadResults file src dst s = none ∧ Loader.fresh.loadAll file s = none := by
  refine ⟨rfl, ?_⟩
  unfold Loader.loadAll
  cases openRes file <;> rfl

/-- **C133** (answer).  The program assembled and solved after the restart gives the answer it gives on any distribution of the original mesh: the same number of unknowns, the same
solutions unknown by unknown, and, if there is at most one, the same values at every node. -/
theorem C133_answer_partial (hm : MeshOk kinds m bnds D) (hone : OneSided m bnds) (huni : UniqueParent m bnds) {p : Prog} (hp : p.Ok m bnds) {n₀ : Nat} {parts₀ : List Part} {f₀ : Nat → Nat}
    (ho : Outcome Monotone kinds m bnds n₀ parts₀ f₀) {m' : DomMap} {nParts' : Nat} {parts' : List Part} {g : Nat → Nat} {old : List (List Nat)}
    (h : Restarted Monotone kinds m bnds nParts parts f m' nParts' parts' g old) {els els' : Nat → List LElem} (hels : ∀ r, (els r).Perm (p.rankElems parts₀ r))
    (hels' : ∀ r, (els' r).Perm (p.rankElems parts' r)) (vals vals' : Nat → Nat → Nat → ℝ) {v v' : Nat → Nat → ℝ} (hv : p.Values m parts₀ f₀ v) (hv' : p.Values m parts' (fun x => g (f x)) v') (c : Nat) :
    (p.setup parts₀).total = (p.setup parts').total ∧
    (∀ x, Solution p parts₀ els vals v c x → ∃ x', Solution p parts' els' vals' v' c x' ∧
      ∀ k, p.unknown m k → x (p.dof parts₀ (f₀ k.1, k.2)) = x' (p.dof parts' (g (f k.1), k.2))) ∧
    (∀ x', Solution p parts' els' vals' v' c x' → ∃ x, Solution p parts₀ els vals v c x ∧
      ∀ k, p.unknown m k → x (p.dof parts₀ (f₀ k.1, k.2)) = x' (p.dof parts' (g (f k.1), k.2))) ∧
    ((∀ x y, Solution p parts₀ els vals v c x → Solution p parts₀ els vals v c y → ∀ g < (p.setup parts₀).total, x g = y g) →
      ∀ x x', Solution p parts₀ els vals v c x → Solution p parts' els' vals' v' c x' →
        ∀ k, p.unknown m k → x (p.dof parts₀ (f₀ k.1, k.2)) = x' (p.dof parts' (g (f k.1), k.2))) := by
  classical
  obtain ⟨N, maps, R⟩ := outcome_result hm hone ho
  obtain ⟨N', _, maps', R₁, _, R', _⟩ := h.results hm hone
  have hNN : N = N' := by
    have h : ∀ x, x < N ↔ x < N' := fun x => (R.nodes x).symm.trans (R'.nodes x)
    have h1 := h N
    have h2 := h N'
    omega
  subst hNN
  obtain ⟨sel, hs⟩ := order_exists R huni hp hels
  obtain ⟨sel', hs'⟩ := order_exists R' huni hp hels'
  have h1 := outcome_represents hm hp R huni hs vals hv
  have h2 := outcome_represents hm hp R' huni hs' vals' hv'
  obtain ⟨t1, t2, t3⟩ := C112_runs_partial (problem_ok' hp R.keys R.nodes) h1 h2 (run_marked hp R vals v) (run_marked hp R' vals' v') c
  obtain ⟨_, u2, _⟩ := C112_runs_partial (problem_ok' hp R.keys R.nodes) h2 h1 (run_marked hp R' vals' v') (run_marked hp R vals v) c
  refine ⟨t1, ?_, ?_, ?_⟩
  · intro x hx
    obtain ⟨x', hx', he⟩ := t2 x ((solution_iff hm hp R huni hs vals v c x).1 hx)
    exact ⟨x', (solution_iff hm hp R' huni hs' vals' v' c x').2 hx', fun k hk => he k ((unknown_iff hp R.nodes k).2 hk)⟩
  · intro x hx
    obtain ⟨x', hx', he⟩ := u2 x ((solution_iff hm hp R' huni hs' vals' v' c x).1 hx)
    exact ⟨x', (solution_iff hm hp R huni hs vals v c x').2 hx', fun k hk => (he k ((unknown_iff hp R.nodes k).2 hk)).symm⟩
  · intro hu x x' hx hx' k hk
    exact t3 (fun x y hx hy => hu x y ((solution_iff hm hp R huni hs vals v c x).2 hx) ((solution_iff hm hp R huni hs vals v c y).2 hy)) x x'
      ((solution_iff hm hp R huni hs vals v c x).1 hx) ((solution_iff hm hp R' huni hs' vals' v' c x').1 hx') k ((unknown_iff hp R.nodes k).2 hk)

theorem scrub_nodeIn {m : DomMap} (h : WfMesh kinds m) (x : Nat) : NodeIn (scrub m) x ↔ NodeIn m x := by
  unfold NodeIn
  refine exists_congr fun e => and_congr_left fun _ => ?_
  rw [holds_iff_inDom (scrub_wf h), holds_iff_inDom h]
  refine exists_congr fun k => ?_
  rw [← mem_visit_single, ← mem_visit_single, scrub_visit]

/-- **C133** (same ranks).  Loaded on as many ranks without repartitioning, every rank gets its part back: the same elements domain by domain in the same order, the same answers about nodes,
and its results. -/
theorem C133_direct (hm : MeshOk kinds m bnds D) (hone : OneSided m bnds) (hx : ∃ x, NodeIn m x) (hsmall : ∀ x, NodeIn m x → x < 2 ^ 63)
    (hout : Outcome Monotone kinds m bnds nParts parts f) (bytes : Element → List Byte)
    (hfit : FitsFile kinds (parts.map (savedPart bytes bnds))) (cm prevm : List Byte) {wsm : List (Nat × List Byte)} (hwsm : wsm.Perm (saveParts kinds bytes bnds cm parts))
    {sols : List SolMan} {w : Nat → Nat → List Byte} (hs : State m parts f sols w) (comment prev : List Byte) {inds : List Nat} {ws ws' : List (Nat × List Byte)}
    (hsave : saveRes comment (ranksOf parts sols) inds = some ws) (hw : ws'.Perm ws) (hn : inds.length < 2 ^ 64) (hinds : ∀ i ∈ inds, ∀ s ∈ sols, i < s.nFields)
    {r : Nat} {p : Part} (hr : parts[r]? = some p) (s : SolMan) (hsn : s.nNodes = p.own.localSize)
    (hsz : s.data.length = s.nNodes * s.nFields) {src dst : List Nat} (hlen : src.length = dst.length) (hne : src ≠ [])
    (hsrc : ∀ i ∈ src, i < inds.length) (hdst : ∀ i ∈ dst, i < s.nFields) (hdnd : dst.Nodup) :
    ∃ doms o old s', loadDirect kinds nParts r (File.run prevm wsm) = some (doms, o, bnds, old) ∧ (∀ k, visitIds doms [k] = visitIds p.doms [k]) ∧
      o.cnt = p.own.cnt ∧ o.shared = p.own.shared ∧ (∀ i, o.isOwned i = p.own.isOwned i) ∧ (∀ i, o.getGlobal i = p.own.getGlobal i) ∧
      (Loader.fresh.loaded old).loadResults (File.run prev ws') src dst s = some s' ∧
      (∀ (i x q k d fld : Nat), NodeIn m x → o.getGlobal i = some (f x) → src[q]? = some k → dst[q]? = some d → inds[k]? = some fld → s'.get i d = some (w x fld)) ∧
      ∀ n d, n < s.nNodes → d ∉ dst → s'.get n d = s.get n d := by
  obtain ⟨N, maps, R⟩ := outcome_result hm hone hout
  have hwf := MfPipe.outcome_wf hm hone hout
  have hmem := List.mem_of_getElem? hr
  have hN : N < 2 ^ 64 := by
    rcases Nat.eq_zero_or_pos N with h0 | h0
    · omega
    · have := hsmall (N - 1) ((R.nodes _).2 (by omega))
      omega
  have hown : ownershipRange (scrub p.doms) p.own.first p.own.cnt = some p.own := by
    have hkn : KeysNodup (scrub p.doms) := NativeIO.sorted_keys (scrub_wf (hwf p hmem)).sorted
    obtain ⟨o, h1, h2, h3, h4⟩ := C22_explicit_range (scrub p.doms) hkn p.own.first p.own.cnt
    have hmk := Own.make_some h1
    rw [h1]
    obtain ⟨-, s2, s3⟩ := R.own r p hr
    have : o.shared = p.own.shared := Std.eq_of_mem_of_strict h3 s2 fun x => by
      rw [h4, s3, scrub_nodeIn (hwf p hmem)]
      simp [SegOwn.isOwned]
    congr 1
    obtain ⟨a, b, c⟩ := o
    have e := hmk.1
    simp only [SegOwn.mk.injEq] at e
    obtain ⟨rfl, rfl, _⟩ := e
    simp only at this
    subst this
    rfl
  obtain ⟨o', b1, b2, _, b4, b5, _, b7⟩ := C35_mesh (p := savedPart bytes bnds p) (scrub_wf (hwf p hmem)) (scrub_clean _) (saved_describes bytes bnds p) hown
  have hrl : r < (parts.map (savedPart bytes bnds)).length := by rw [List.length_map]; exact (List.getElem?_eq_some_iff.1 hr).1
  have hload := (C35_load hfit cm prevm hwsm).1 r hrl
  have hpr : (parts.map (savedPart bytes bnds))[r] = savedPart bytes bnds p := by
    obtain ⟨h1, rfl⟩ := List.getElem?_eq_some_iff.1 hr
    simp
  rw [hpr, List.length_map, R.plen] at hload
  have hlocal : localNodes o' = localNodes p.own := by
    apply List.ext_getElem?
    intro i
    rw [← getGlobal_eq, ← getGlobal_eq, b7]
  have hlt : ∀ y ∈ localNodes o', y < N := by
    intro y hy
    rw [hlocal] at hy
    obtain ⟨i, hi⟩ := List.getElem?_of_mem hy
    exact known_lt R hr ((getGlobal_eq p.own i).trans hi)
  obtain ⟨s', h1, h2, h3, h4, h5⟩ := load_values R hx hs comment prev hsave hw hn hN hinds hlt s hsz (by rw [hlocal, localNodes_length, hsn]) hlen hne hsrc hdst hdnd
  refine ⟨_, o', localNodes o', s', ?_, fun k => scrub_visit _ k, b2, b4, b5, b7, h1, fun i x q k d fld hxm hi hq hd hk => ?_, fun n d hn hd => h5 n d hn (Or.inl hd)⟩
  · unfold loadDirect
    rw [hload, Option.bind_some, b1]
    rfl
  · exact h4 i x q k d fld hxm (by rw [← getGlobal_eq]; exact hi) hq hd hk

/-! ## Concrete cases -/

/-- Vertex data of the example: all zero. -/
def exBytes (e : Element) : List Byte := List.replicate (dataSize e.kind) 0

instance : DecidableEq (List (Nat × List (List SEl))) := fun a b => List.hasDecEq a b

theorem ex_fits : FitsFile lineKinds (Pipeline.exParts.map (savedPart exBytes [])) := by
  have h : ∀ p ∈ Pipeline.exParts.map (savedPart exBytes []), (partCodec lineKinds).des ((partCodec lineKinds).ser (norm p)) = some (norm p, []) := by decide +kernel
  exact ⟨by decide, fun p hp => ((lawful_part lineKinds).ser_des _ _ _ (h p hp)).2, by decide +kernel⟩

/-- Values of one field on the three ranks: ten times the number of the node. -/
def exSols : List SolMan := [⟨2, 1, [leBytes 8 0, leBytes 8 10]⟩, ⟨2, 1, [leBytes 8 20, leBytes 8 30]⟩, ⟨3, 1, [leBytes 8 40, leBytes 8 0, leBytes 8 0]⟩]

theorem ex_state (f : Nat → Nat) : State exLines Pipeline.exParts f exSols fun x _ => leBytes 8 (10 * f x) := by
  have hall : ∀ r < 3, ∀ p, Pipeline.exParts[r]? = some p → ∀ s, exSols[r]? = some s →
      (s.nNodes = p.own.localSize ∧ s.data.length = s.nNodes * s.nFields ∧ ∀ v ∈ s.data, v.length = 8) ∧ s.nFields = 1 ∧
      ∀ i < p.own.cnt, ∀ y, p.own.getGlobal i = some y → s.get i 0 = some (leBytes 8 (10 * y)) := by
    intro r hr p hp s hs
    have : (s.nNodes = p.own.localSize ∧ s.data.length = s.nNodes * s.nFields ∧ ∀ v ∈ s.data, v.length = 8) ∧ s.nFields = 1 ∧
        ∀ i < p.own.cnt, s.get i 0 = (p.own.getGlobal i).map fun y => leBytes 8 (10 * y) := by
      match r, hr with
      | 0, _ => obtain rfl := Option.some.inj hp; obtain rfl := Option.some.inj hs; decide +kernel
      | 1, _ => obtain rfl := Option.some.inj hp; obtain rfl := Option.some.inj hs; decide +kernel
      | 2, _ => obtain rfl := Option.some.inj hp; obtain rfl := Option.some.inj hs; decide +kernel
    exact ⟨this.1, this.2.1, fun i hi y hy => by rw [this.2.2 i hi, hy]; rfl⟩
  refine ⟨rfl, fun r p s hp hs => (hall r (List.getElem?_eq_some_iff.1 hp).1 p hp s hs).1, fun r p s hp hs i hi x _ hy fld hf => ?_⟩
  obtain ⟨_, h2, h3⟩ := hall r (List.getElem?_eq_some_iff.1 hp).1 p hp s hs
  obtain rfl : fld = 0 := by omega
  exact h3 i hi _ hy

/-- Four lines on three ranks, saved, and read on one. -/
theorem ex_restarted : ∃ f m' parts' old, Restarted Monotone lineKinds exLines [] 3 Pipeline.exParts f m' 1 parts' id old ∧
    (parts'.map fun p => p.own.localSize) = [5] ∧ m' = [(1, ⟨some 1, [[], [], [⟨.line, 2, 0, [0, 1]⟩, ⟨.line, 2, 2, [1, 4]⟩]]⟩), (2, ⟨some 1, [[], [], [⟨.line, 2, 1, [2, 3]⟩, ⟨.line, 2, 3, [4, 2]⟩]]⟩)] := by
  obtain ⟨f, ho⟩ := ex_outcome Monotone
  have hone : OneSided exLines [] := fun b hb => absurd hb List.not_mem_nil
  obtain ⟨m', h1, h2, ⟨N, h3, h4, _⟩, h5, h6, _⟩ := C133_mesh exLines_ok hone (by decide) ho exBytes ex_fits (txt "c") [] (List.Perm.refl _)
  have hN : N = 5 := by
    have h : ∀ x, x < N ↔ x < 5 := fun x => (h3 x).symm.trans (exLines_labels.nodes x)
    have a := h N
    have b := h 5
    omega
  subst hN
  refine ⟨f, m', [⟨m', ⟨0, 5, []⟩, []⟩], _, ⟨ho, by decide, exBytes, txt "c", [], _, [], ex_fits, List.Perm.refl _, h1, .one 5 h4 []⟩, rfl, ?_⟩
  have : loadUnified lineKinds (File.run [] (saveParts lineKinds exBytes [] (txt "c") Pipeline.exParts)) = some ([(1, ⟨some 1, [[], [], [⟨.line, 2, 0, [0, 1]⟩, ⟨.line, 2, 2, [1, 4]⟩]]⟩), (2, ⟨some 1, [[], [], [⟨.line, 2, 1, [2, 3]⟩, ⟨.line, 2, 3, [4, 2]⟩]]⟩)], []) := by
    decide +kernel
  exact (Prod.mk.inj (Option.some.inj (h1.symm.trans this))).1

/-- The values are found on the one rank: node 3 of the file has 30. -/
example : ((saveRes (txt "c") (ranksOf Pipeline.exParts exSols) [0]).bind fun ws => (Loader.fresh.loaded (List.range 5)).loadAll (File.run [] ws.reverse) ⟨5, 1, List.replicate 5 (leBytes 8 7)⟩).map
    (·.data.map ofLe) = some [0, 10, 20, 30, 40] := by decide +kernel

/-- With two fields to fill and one saved, loading is refused. -/
example : ((saveRes (txt "c") (ranksOf Pipeline.exParts exSols) [0]).bind fun ws => (Loader.fresh.loaded (List.range 5)).loadAll (File.run [] ws.reverse) ⟨5, 2, List.replicate 10 (leBytes 8 7)⟩).isNone = true := by
  decide +kernel

/-- Full statement, with any reordering of the ranks on loading, for the number of unknowns alone. -/
def C133Statement : Prop :=
  ∀ (kinds : List (ElType × Nat)) (m : DomMap) (bnds : List Nat) (D : Nat), MeshOk kinds m bnds D → OneSided m bnds → UniqueParent m bnds → ∀ p : Prog, p.Ok m bnds →
    ∀ nParts nParts' parts parts' f g m' old, Restarted AnyReorder kinds m bnds nParts parts f m' nParts' parts' g old → (p.setup parts).total = (p.setup parts').total

/-- **C133** fails when loading asks for reordered ranks: a program with three unknowns has four after the restart. -/
theorem C133_reordering_violated : ¬ C133Statement := by
  intro h
  obtain ⟨f, ho⟩ := ex_outcome Monotone
  obtain ⟨⟨parts, φ⟩, hp, he⟩ := Option.map_eq_some_iff.1 exParts_eq
  obtain rfl : parts = Pipeline.exParts := he
  have hone : OneSided exLines [] := fun b hb => absurd hb List.not_mem_nil
  obtain ⟨maps, R, hφ⟩ := partition_result' exLines_ok hone exLines_labels (fun _ => List.Perm.refl _) (fun _ _ _ => List.Perm.refl _) hp
  obtain ⟨old, hold⟩ := mapM_isSome (f := fun p => Permute.oldNodeIds p.own (Algo.invertMap φ)) (l := Pipeline.exParts) fun p hp' => by
    obtain ⟨r, hr⟩ := List.getElem?_of_mem hp'
    obtain ⟨o, ho, _⟩ := oldNodeIds_spec R (partition_keys hp) hφ hr
    exact ⟨o, ho⟩
  have hread : loadUnified lineKinds (File.run [] (saveParts lineKinds exBytes [] (txt "c") Pipeline.exParts)) = some (exLines, []) := by decide +kernel
  have hrep : Repart AnyReorder lineKinds exLines [] 3 Pipeline.exParts _ old :=
    .many 3 _ _ _ exLines_labels id (fun _ _ => id) (fun _ => List.Perm.refl _) (fun _ _ _ => List.Perm.refl _) _ φ hp old hold
  have := h lineKinds exLines [] 0 exLines_ok hone (fun b hb => absurd hb List.not_mem_nil) exBare exBare_ok 3 3 Pipeline.exParts exSwapped f _ exLines _
    ⟨ho, by decide, exBytes, txt "c", [], _, [], ex_fits, List.Perm.refl _, hread, .optimized 3 _ _ old hrep [1, 0, 2] (by decide) trivial exSwapped exSwapped_eq⟩
  revert this
  decide +kernel

/-- Hypotheses of `C133_answer_partial`. -/
example : ∃ f m' parts' old, Restarted Monotone lineKinds exLines [] 3 Pipeline.exParts f m' 1 parts' id old ∧ (exBare.setup parts').total = 3 := by
  obtain ⟨f, m', parts', old, h, _, _⟩ := ex_restarted
  refine ⟨f, m', parts', old, h, ?_⟩
  rw [← (C133_answer_partial exLines_ok (fun b hb => absurd hb List.not_mem_nil) (fun b hb => absurd hb List.not_mem_nil) exBare_ok h.before h
    (fun _ => List.Perm.refl _) (fun _ => List.Perm.refl _) (fun _ _ _ => 0) (fun _ _ _ => 0)
    (v := fun _ _ => 0) (v' := fun _ _ => 0) (fun _ _ h => absurd h (by rintro ⟨d, hd, _⟩; exact absurd hd List.not_mem_nil))
    (fun _ _ h => absurd h (by rintro ⟨d, hd, _⟩; exact absurd hd List.not_mem_nil)) 0).1]
  decide +kernel

/-- Hypotheses of `C133_values_partial` and `C133_direct`: distribution, file, values, and fields. -/
example : ∃ f, Outcome Monotone lineKinds exLines [] 3 Pipeline.exParts f ∧ State exLines Pipeline.exParts f exSols (fun x _ => leBytes 8 (10 * f x)) ∧ (∃ x, NodeIn exLines x) ∧
    (∃ ws, saveRes (txt "c") (ranksOf Pipeline.exParts exSols) [0] = some ws) ∧ ∀ s ∈ exSols, 0 < s.nFields := by
  obtain ⟨f, ho⟩ := ex_outcome Monotone
  refine ⟨f, ho, ex_state f, ⟨0, (exLines_labels.nodes 0).2 (by decide)⟩, ?_, by decide⟩
  exact Option.isSome_iff_exists.1 (by decide +kernel)

end Verif.Restart
