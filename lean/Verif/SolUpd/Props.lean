import Verif.SolUpd.Model
import Verif.Fields.Props

/-!
# C98: a solution copied to nodal fields arrives where it belongs
-/
namespace Verif.SolUpd
open Verif Verif.Own Verif.Fields

variable {V : Type}

/-! ## Specification -/

/-- The node ownership is built by its constructor. -/
def Sys.NodeOk (u : Sys) : Prop := ∃ first cnt sh, sh.Nodup ∧ SegOwn.make first cnt sh = some u.nodeOwn

/-- The ownerships are built by their constructors, elements consist of nodes of the partition, dofs of these nodes are known to the
rank, and the vectors are small enough for 32-bit positions. -/
structure Sys.Valid (u : Sys) : Prop where
  node : u.NodeOk
  dof : ∃ first cnt sh, sh.Nodup ∧ SegOwn.make first cnt sh = some u.dofOwn
  elem : ∀ e ∈ u.elems, ∀ n ∈ e, n ∈ u.nodes
  known : ∀ n ∈ u.nodes, ∀ j d, u.gdof n j = some d → u.dofOwn.isOwned d = true ∨ d ∈ u.dofOwn.shared
  small : u.nRhs * u.dofOwn.cnt ≤ 2 ^ 31 ∧ u.nRhs * u.dofOwn.shared.length ≤ 2 ^ 31

/-- Field `f` of global node `n` is the target of component `src[i]`, right-hand side `rhs`, and the node has that component,
with global dof `d`. -/
def Target (u : Sys) (src dst : List Nat) (n f d rhs : Nat) : Prop :=
  ∃ i, i < src.length ∧ rhs < u.nRhs ∧ u.gdof n (src.getD i 0) = some d ∧ dst.getD (i * u.nRhs + rhs) 0 = f

/-- `s'` is `s` with the values of the global solution `x` copied to their targets at the nodes `P`. -/
def Copied (u : Sys) (x : Nat → Nat → V) (src dst : List Nat) (P : Nat → Prop) (s s' : Sol V) : Prop :=
  s'.own = s.own ∧ s'.nFields = s.nFields ∧
  ∀ n ∈ u.nodes, ∀ f < s.nFields,
    (∀ d rhs, P n → Target u src dst n f d rhs → nodeValueGlobal s' n f = .ok (x d rhs)) ∧
    ((¬ ∃ d rhs, P n ∧ Target u src dst n f d rhs) → nodeValueGlobal s' n f = nodeValueGlobal s n f)

/-! ## Lemmas -/

/-- A store of `v` at (node, field). -/
def IsStore (o : Op V) (n f : Nat) (v : V) : Prop := o = .raw n f v ∨ o = .view f n v

theorem IsStore.apply {o : Op V} {n f : Nat} {v : V} (h : IsStore o n f v) (t : Nat → Nat → V) :
    o.apply t = fun n' f' => if n' = n ∧ f' = f then v else t n' f' := by
  rcases h with rfl | rfl <;> rfl

theorem IsStore.inRange {o : Op V} {n f : Nat} {v : V} (h : IsStore o n f v) {N F : Nat} (hn : n < N) (hf : f < F) :
    o.InRange N F := by
  rcases h with rfl | rfl <;> exact ⟨hn, hf⟩

/-- A store list behaves: every entry is a store in range, and entries to the same place carry the value `val`. -/
def Fine (N F : Nat) (val : Nat → Nat → V) (l : List (Option (Op V))) : Prop :=
  ∀ o ∈ l, ∃ p n f, o = some p ∧ n < N ∧ f < F ∧ IsStore p n f (val n f)

theorem runStores_spec (val : Nat → Nat → V) : ∀ (l : List (Option (Op V))) (s : Sol V) (t : Nat → Nat → V), Holds s t →
    Fine s.nNodes s.nFields val l →
    ∃ s' t', runStores l s = .ok s' ∧ s'.own = s.own ∧ s'.nFields = s.nFields ∧ Holds s' t' ∧
      ∀ n f, ((∃ p, some p ∈ l ∧ IsStore p n f (val n f)) → t' n f = val n f) ∧
        ((¬ ∃ p, some p ∈ l ∧ IsStore p n f (val n f)) → t' n f = t n f) := by
  intro l
  induction l with
  | nil => intro s t h _; exact ⟨s, t, rfl, rfl, rfl, h, fun n f => ⟨fun ⟨p, hp, _⟩ => by simp at hp, fun _ => rfl⟩⟩
  | cons o l ih =>
    intro s t h hf
    obtain ⟨p, n0, f0, rfl, hn0, hf0, hp⟩ := hf o (by simp)
    obtain ⟨s1, h1, h2, h3, h4⟩ := step_holds h p (hp.inRange hn0 hf0)
    have hN : s1.nNodes = s.nNodes := by unfold Sol.nNodes; rw [h2]
    obtain ⟨s', t', k1, k2, k3, k4, k5⟩ := ih s1 _ h4 (by rw [hN, h3]; exact fun o ho => hf o (by simp [ho]))
    refine ⟨s', t', by rw [runStores, h1]; exact k1, k2.trans h2, k3.trans h3, k4, fun n f => ?_⟩
    obtain ⟨k6, k7⟩ := k5 n f
    rw [hp.apply] at k7
    by_cases hex : ∃ p, some p ∈ l ∧ IsStore p n f (val n f)
    · refine ⟨fun _ => k6 hex, fun hno => absurd ?_ hno⟩
      obtain ⟨q, hq, hq2⟩ := hex
      exact ⟨q, by simp [hq], hq2⟩
    · rw [k7 hex]
      by_cases hnf : n = n0 ∧ f = f0
      · obtain ⟨rfl, rfl⟩ := hnf
        simp only [and_self, if_true]
        exact ⟨fun _ => trivial, fun hno => absurd ⟨p, by simp, hp⟩ hno⟩
      · simp only [if_neg hnf]
        refine ⟨fun ⟨q, hq, hq2⟩ => ?_, fun _ => trivial⟩
        rw [List.mem_cons] at hq
        rcases hq with hq | hq
        · cases hq
          exfalso; apply hnf
          rcases hp with rfl | rfl <;> rcases hq2 with hq2 | hq2 <;> cases hq2 <;> exact ⟨rfl, rfl⟩
        · exact absurd ⟨q, hq, hq2⟩ hex

namespace Sys.Valid
variable {u : Sys}

theorem _root_.Verif.SolUpd.Sys.mem_nodes {n : Nat} : n ∈ u.nodes ↔ u.nodeOwn.isOwned n = true ∨ n ∈ u.nodeOwn.shared := by
  unfold Sys.nodes SegOwn.isOwned
  rw [List.mem_append, List.mem_map]
  simp only [List.mem_range, decide_eq_true_eq]
  refine or_congr_left ⟨?_, ?_⟩
  · rintro ⟨a, ha, rfl⟩; omega
  · rintro ⟨h1, h2⟩; exact ⟨n - u.nodeOwn.first, by omega, by omega⟩

theorem own_known {o : SegOwn} (h : ∃ first cnt sh, sh.Nodup ∧ SegOwn.make first cnt sh = some o) {g : Nat}
    (hg : o.isOwned g = true ∨ g ∈ o.shared) :
    o.getGlobal (o.getLocal g) = some g ∧ o.getLocal g < o.localSize ∧ (o.getLocal g < o.cnt ↔ o.isOwned g = true) := by
  obtain ⟨first, cnt, sh, hn, hm⟩ := h
  obtain ⟨rfl, _⟩ := make_some hm
  have hk : (first ≤ g ∧ g < first + cnt) ∨ g ∈ sh := by
    rcases hg with hg | hg
    · left; simpa [SegOwn.isOwned] using hg
    · right; exact Std.mem_sort.1 hg
  obtain ⟨h1, h2, h3⟩ := C08_global_local_global first cnt sh hn _ hm g hk
  refine ⟨h1, h2, h3.trans ?_⟩
  simp [SegOwn.isOwned]

theorem _root_.Verif.SolUpd.Sys.NodeOk.node_known (hv : u.NodeOk) {n : Nat} (h : n ∈ u.nodes) :
    u.nodeOwn.getGlobal (u.nodeOwn.getLocal n) = some n ∧ u.nodeOwn.getLocal n < u.nodeOwn.localSize := by
  have := own_known hv (Sys.mem_nodes.1 h)
  exact ⟨this.1, this.2.1⟩

theorem _root_.Verif.SolUpd.Sys.NodeOk.getLocal_inj (hv : u.NodeOk) {n m : Nat} (hn : n ∈ u.nodes) (hm : m ∈ u.nodes)
    (h : u.nodeOwn.getLocal n = u.nodeOwn.getLocal m) : n = m := by
  have h1 := (hv.node_known hn).1
  rw [h, (hv.node_known hm).1] at h1
  exact (Option.some.inj h1).symm

theorem node_known (hv : u.Valid) {n : Nat} (h : n ∈ u.nodes) :
    u.nodeOwn.getGlobal (u.nodeOwn.getLocal n) = some n ∧ u.nodeOwn.getLocal n < u.nodeOwn.localSize := hv.node.node_known h

theorem getLocal_inj (hv : u.Valid) {n m : Nat} (hn : n ∈ u.nodes) (hm : m ∈ u.nodes)
    (h : u.nodeOwn.getLocal n = u.nodeOwn.getLocal m) : n = m := hv.node.getLocal_inj hn hm h

theorem foldl_set (hv : u.Valid) : ∀ (l : List Nat), (∀ n ∈ l, n ∈ u.nodes) → ∀ (m : List (Nat → Option Nat)),
    m.length = u.nodeOwn.localSize →
    (l.foldl (fun m n => m.set (u.nodeOwn.getLocal n) (u.row n)) m).length = u.nodeOwn.localSize ∧
    ∀ n ∈ u.nodes, (l.foldl (fun m n => m.set (u.nodeOwn.getLocal n) (u.row n)) m)[u.nodeOwn.getLocal n]? =
      if n ∈ l then some (u.row n) else m[u.nodeOwn.getLocal n]? := by
  intro l
  induction l with
  | nil => intro _ m hm; exact ⟨hm, fun n _ => by simp⟩
  | cons a l ih =>
    intro hl m hm
    obtain ⟨h1, h2⟩ := ih (fun n hn => hl n (by simp [hn])) (m.set (u.nodeOwn.getLocal a) (u.row a)) (by simpa using hm)
    refine ⟨h1, fun n hn => ?_⟩
    rw [List.foldl_cons, h2 n hn]
    by_cases hnl : n ∈ l
    · simp [hnl]
    · rw [if_neg hnl]
      by_cases hna : n = a
      · subst hna
        rw [if_pos (by simp), List.getElem?_set_self (by rw [hm]; exact (hv.node_known hn).2)]
      · rw [if_neg (by simp [hna, hnl]), List.getElem?_set_ne]
        exact fun h => hna (hv.getLocal_inj (hl a (by simp)) hn h).symm

/-- The local dof map holds the line of every node at its local index. -/
theorem localDofs_get (hv : u.Valid) {n : Nat} (hn : n ∈ u.nodes) :
    u.localDofs.getD (u.nodeOwn.getLocal n) (fun _ => none) = u.row n := by
  obtain ⟨_, h⟩ := hv.foldl_set u.nodes (fun _ h => h) (List.replicate u.nodeOwn.localSize fun _ => none) (by simp)
  have := h n hn
  rw [if_pos hn] at this
  unfold Sys.localDofs
  rw [List.getD_eq_getElem?_getD, this]; rfl

end Sys.Valid

theorem mem_nodeStores {u : Sys} {acc : Nat → Nat → Option V} {src dst : List Nat} {line : Nat → Option Nat} {lid : Nat}
    {o : Option (Op V)} : o ∈ nodeStores u acc src dst line lid ↔
      ∃ i dof rhs, i < src.length ∧ rhs < u.nRhs ∧ line (src.getD i 0) = some dof ∧
        o = rawStore lid (dst.getD (i * u.nRhs + rhs) 0) (acc dof rhs) := by
  unfold nodeStores
  simp only [List.mem_flatMap, List.mem_range, List.mem_map, Option.mem_toList]
  constructor
  · rintro ⟨i, hi, dof, hd, rhs, hr, rfl⟩; exact ⟨i, dof, rhs, hi, hr, hd, rfl⟩
  · rintro ⟨i, dof, rhs, hi, hr, hd, rfl⟩; exact ⟨i, hi, dof, hd, rhs, hr, rfl⟩

theorem mem_entryStores {u : Sys} {sol : Nat → Nat → V} {src dst : List Nat} {n : Nat} {o : Option (Op V)} :
    o ∈ entryStores u sol src dst n ↔
      ∃ i dof rhs, i < src.length ∧ rhs < u.nRhs ∧ u.row n (src.getD i 0) = some dof ∧
        o = some (Op.view (dst.getD (i * u.nRhs + rhs) 0) (u.nodeOwn.getLocal n) (sol dof rhs)) := by
  unfold entryStores
  simp only [List.mem_flatMap, List.mem_range, List.mem_map, Option.mem_toList]
  constructor
  · rintro ⟨i, hi, rhs, hr, dof, hd, rfl⟩; exact ⟨i, dof, rhs, hi, hr, hd, rfl⟩
  · rintro ⟨i, dof, rhs, hi, hr, hd, rfl⟩; exact ⟨i, hi, rhs, hr, dof, hd, rfl⟩

theorem row_some {u : Sys} {n j dof : Nat} : u.row n j = some dof ↔ ∃ d, u.gdof n j = some d ∧ u.dofOwn.getLocal d = dof := by
  unfold Sys.row; rw [Option.map_eq_some_iff]

/-- The vectors hold the global solution. -/
structure Vectors (u : Sys) (x : Nat → Nat → V) (own fresh : Nat → Nat → V) : Prop where
  own : ∀ r < u.dofOwn.cnt, ∀ c, own r c = x (u.dofOwn.first + r) c
  fresh : ∀ r, ∀ h : r < u.dofOwn.shared.length, ∀ c, fresh r c = x (u.dofOwn.shared[r]) c

theorem access_owned {u : Sys} (hv : u.Valid) {x own fresh : Nat → Nat → V} (hx : Vectors u x own fresh) (buf : Nat → Nat → V)
    {d rhs : Nat} (hd : u.dofOwn.isOwned d = true) (hr : rhs < u.nRhs) :
    access u own buf (u.dofOwn.getLocal d) rhs = some (x d rhs) := by
  obtain ⟨h1, h2, h3⟩ := Sys.Valid.own_known hv.dof (.inl hd)
  have hlt := h3.2 hd
  have : rhs * u.dofOwn.cnt + u.dofOwn.getLocal d < u.nRhs * u.dofOwn.cnt := by
    have := Nat.mul_le_mul_right u.dofOwn.cnt (show rhs + 1 ≤ u.nRhs from hr)
    rw [Nat.add_mul, Nat.one_mul] at this
    omega
  unfold access
  rw [if_pos hlt, if_pos (lt_of_lt_of_le this hv.small.1), hx.own _ hlt]
  unfold SegOwn.getGlobal at h1
  rw [if_pos hlt] at h1
  rw [Option.some.inj h1]

theorem access_fresh {u : Sys} (hv : u.Valid) {x own fresh : Nat → Nat → V} (hx : Vectors u x own fresh)
    {d rhs : Nat} (hd : u.dofOwn.isOwned d = true ∨ d ∈ u.dofOwn.shared) (hr : rhs < u.nRhs) :
    access u own fresh (u.dofOwn.getLocal d) rhs = some (x d rhs) := by
  by_cases ho : u.dofOwn.isOwned d = true
  · exact access_owned hv hx fresh ho hr
  · obtain ⟨h1, h2, h3⟩ := Sys.Valid.own_known hv.dof hd
    have hge : ¬ u.dofOwn.getLocal d < u.dofOwn.cnt := fun h => ho (h3.1 h)
    unfold SegOwn.localSize at h2
    have hlt : u.dofOwn.getLocal d - u.dofOwn.cnt < u.dofOwn.shared.length := by omega
    have : rhs * u.dofOwn.shared.length + (u.dofOwn.getLocal d - u.dofOwn.cnt) < u.nRhs * u.dofOwn.shared.length := by
      have := Nat.mul_le_mul_right u.dofOwn.shared.length (show rhs + 1 ≤ u.nRhs from hr)
      rw [Nat.add_mul, Nat.one_mul] at this
      omega
    unfold access
    rw [if_neg hge, if_pos (lt_of_lt_of_le this hv.small.2), hx.fresh _ hlt]
    unfold SegOwn.getGlobal at h1
    rw [if_neg hge, List.getElem?_eq_getElem hlt] at h1
    rw [Option.some.inj h1]

/-- Targets determine the value: distinct destination fields. -/
theorem Target.unique {u : Sys} {src dst : List Nat} (hlen : dst.length = src.length * u.nRhs) (hnd : dst.Nodup)
    {n f d rhs d' rhs' : Nat} (h : Target u src dst n f d rhs) (h' : Target u src dst n f d' rhs') : d = d' ∧ rhs = rhs' := by
  obtain ⟨i, hi, hr, hg, hf⟩ := h
  obtain ⟨i', hi', hr', hg', hf'⟩ := h'
  have key : ∀ {i r : Nat}, i < src.length → r < u.nRhs → i * u.nRhs + r < dst.length := fun {i r} h1 h2 => by
    have := Nat.mul_le_mul_right u.nRhs (show i + 1 ≤ src.length from h1)
    rw [Nat.add_mul, Nat.one_mul] at this
    omega
  have h1 := key hi hr
  have h2 := key hi' hr'
  rw [List.getD_eq_getElem?_getD, List.getElem?_eq_getElem h1] at hf
  rw [List.getD_eq_getElem?_getD, List.getElem?_eq_getElem h2] at hf'
  have he : i * u.nRhs + rhs = i' * u.nRhs + rhs' := (List.Nodup.getElem_inj_iff hnd).1 (by
    simp only [Option.getD_some] at hf hf'; rw [hf, hf'])
  have := no_alias hr hr' (by rw [Nat.add_comm, he, Nat.add_comm])
  obtain ⟨e1, e2⟩ := this
  subst e2; subst e1
  rw [hg] at hg'
  exact ⟨Option.some.inj hg', rfl⟩

open Classical in
/-- The value a field receives at a local node. -/
noncomputable def tval (u : Sys) (x : Nat → Nat → V) (src dst : List Nat) (dflt : V) (lid f : Nat) : V :=
  if h : ∃ v, ∃ n d rhs, n ∈ u.nodes ∧ u.nodeOwn.getLocal n = lid ∧ Target u src dst n f d rhs ∧ v = x d rhs then h.choose
  else dflt

theorem tval_eq {u : Sys} (hv : u.NodeOk) {x : Nat → Nat → V} {src dst : List Nat} (hlen : dst.length = src.length * u.nRhs)
    (hnd : dst.Nodup) (dflt : V) {n f d rhs : Nat} (hn : n ∈ u.nodes) (ht : Target u src dst n f d rhs) :
    tval u x src dst dflt (u.nodeOwn.getLocal n) f = x d rhs := by
  have h : ∃ v, ∃ m d rhs, m ∈ u.nodes ∧ u.nodeOwn.getLocal m = u.nodeOwn.getLocal n ∧ Target u src dst m f d rhs ∧
      v = x d rhs := ⟨_, n, d, rhs, hn, rfl, ht, rfl⟩
  unfold tval
  rw [dif_pos h]
  obtain ⟨m, d', rhs', hm, e, ht', he⟩ := h.choose_spec
  have e := hv.getLocal_inj hm hn e
  subst e
  obtain ⟨rfl, rfl⟩ := Target.unique hlen hnd ht' ht
  exact he

/-- What the stores of a loop have to look like. -/
def Covers (u : Sys) (x : Nat → Nat → V) (src dst : List Nat) (P : Nat → Prop) (l : List (Option (Op V))) : Prop :=
  (∀ o ∈ l, ∃ p n f d rhs, o = some p ∧ n ∈ u.nodes ∧ P n ∧ Target u src dst n f d rhs ∧
    IsStore p (u.nodeOwn.getLocal n) f (x d rhs)) ∧
  ∀ n f d rhs, n ∈ u.nodes → P n → Target u src dst n f d rhs → ∃ p, some p ∈ l ∧ IsStore p (u.nodeOwn.getLocal n) f (x d rhs)

theorem Covers.perm {u : Sys} {x : Nat → Nat → V} {src dst : List Nat} {P : Nat → Prop} {l l' : List (Option (Op V))}
    (h : Covers u x src dst P l) (hp : l'.Perm l) : Covers u x src dst P l' :=
  ⟨fun o ho => h.1 o (hp.mem_iff.1 ho), fun n f d rhs hn hP ht => by
    obtain ⟨p, hp1, hp2⟩ := h.2 n f d rhs hn hP ht
    exact ⟨p, hp.mem_iff.2 hp1, hp2⟩⟩

theorem Target.field_lt {u : Sys} {src dst : List Nat} {F : Nat} (hc : checks u F src dst = true) {n f d rhs : Nat}
    (h : Target u src dst n f d rhs) : f < F := by
  obtain ⟨i, hi, hr, _, rfl⟩ := h
  simp only [checks, Bool.and_eq_true, beq_iff_eq, List.all_eq_true, decide_eq_true_eq] at hc
  have h1 : i * u.nRhs + rhs < dst.length := by
    have := Nat.mul_le_mul_right u.nRhs (show i + 1 ≤ src.length from hi)
    rw [Nat.add_mul, Nat.one_mul] at this
    omega
  rw [List.getD_eq_getElem?_getD, List.getElem?_eq_getElem h1]
  exact hc.2 _ (List.getElem_mem h1)

/-- Running such a list copies the values. -/
theorem Covers.run {u : Sys} (hv : u.NodeOk) {x : Nat → Nat → V} {src dst : List Nat} (hnd : dst.Nodup) {P : Nat → Prop}
    {l : List (Option (Op V))} (h : Covers u x src dst P l) {s : Sol V} {t : Nat → Nat → V} (hs : Holds s t)
    (hown : s.own = u.nodeOwn) (hc : checks u s.nFields src dst = true) :
    ∃ s', runStores l s = .ok s' ∧ Copied u x src dst P s s' := by
  have hlen : dst.length = src.length * u.nRhs := by
    simp only [checks, Bool.and_eq_true, beq_iff_eq] at hc; exact hc.1.1
  by_cases hl : l = []
  · subst hl
    refine ⟨s, rfl, rfl, rfl, fun n hn f _ => ⟨fun d rhs hP ht => ?_, fun _ => rfl⟩⟩
    obtain ⟨p, hp, _⟩ := h.2 n f d rhs hn hP ht
    simp at hp
  · obtain ⟨o0, ho0⟩ := List.exists_mem_of_ne_nil l hl
    obtain ⟨_, _, _, d0, r0, _⟩ := h.1 o0 ho0
    have hN : s.nNodes = u.nodeOwn.localSize := by unfold Sol.nNodes; rw [hown]
    obtain ⟨s', t', h1, h2, h3, h4, h5⟩ := runStores_spec (tval u x src dst (x d0 r0)) l s t hs (by
      intro o ho
      obtain ⟨p, n, f, d, rhs, rfl, hn, _, ht, hp⟩ := h.1 o ho
      refine ⟨p, _, f, rfl, by rw [hN]; exact (hv.node_known hn).2, ht.field_lt hc, ?_⟩
      rw [tval_eq hv hlen hnd _ hn ht]; exact hp)
    have hN' : s'.nNodes = s.nNodes := by unfold Sol.nNodes; rw [h2]
    have hread : ∀ {q : Sol V} {tq : Nat → Nat → V}, Holds q tq → q.own = u.nodeOwn → q.nFields = s.nFields → ∀ n ∈ u.nodes,
        ∀ f < s.nFields, nodeValueGlobal q n f = .ok (tq (u.nodeOwn.getLocal n) f) := by
      intro q tq hq ho hF n hn f hf
      have hqN : q.nNodes = u.nodeOwn.localSize := by unfold Sol.nNodes; rw [ho]
      have hlt : u.nodeOwn.getLocal n < q.nNodes := by rw [hqN]; exact (hv.node_known hn).2
      unfold nodeValueGlobal viewRead
      rw [ho, if_pos hlt, fieldView_ok hq (by rw [hF]; exact hf)]
      show load q.data _ = _
      unfold load
      rw [Nat.add_comm, hq.2 _ hlt f (by rw [hF]; exact hf)]
    refine ⟨s', h1, h2, h3, fun n hn f hf => ⟨fun d rhs hP ht => ?_, fun hno => ?_⟩⟩
    · rw [hread h4 (h2.trans hown) h3 n hn f hf, ← tval_eq hv (x := x) hlen hnd (x d0 r0) hn ht]
      rw [(h5 (u.nodeOwn.getLocal n) f).1]
      obtain ⟨p, hp1, hp2⟩ := h.2 n f d rhs hn hP ht
      exact ⟨p, hp1, by rw [tval_eq hv hlen hnd _ hn ht]; exact hp2⟩
    · rw [hread h4 (h2.trans hown) h3 n hn f hf, hread hs hown rfl n hn f hf, (h5 (u.nodeOwn.getLocal n) f).2]
      rintro ⟨p, hp1, hp2⟩
      obtain ⟨p', m, g, d, rhs, he, hm, hP, ht, hp3⟩ := h.1 _ hp1
      cases he
      have : m = n ∧ g = f := by
        rcases hp2 with hp2 | hp2 <;> rcases hp3 with hp3 | hp3 <;> rw [hp2] at hp3
        · injection hp3 with h6 h7
          exact ⟨(hv.getLocal_inj hn hm h6).symm, h7.symm⟩
        · cases hp3
        · cases hp3
        · injection hp3 with h6 h7
          first
          | exact ⟨(hv.getLocal_inj hn hm h6).symm, h7.symm⟩
          | exact ⟨(hv.getLocal_inj hn hm h7).symm, h6.symm⟩
      obtain ⟨rfl, rfl⟩ := this
      exact hno ⟨d, rhs, hP, ht⟩

/-- Interior stores read owned dofs only: the state of the import buffer does not matter. -/
theorem interior_covers {u : Sys} (hv : u.Valid) {x own fresh : Nat → Nat → V} (hx : Vectors u x own fresh)
    (stale : Nat → Nat → V) {src dst : List Nat} (hsrc : ∀ i ∈ src, i < u.nd) :
    Covers u x src dst (fun n => ∃ e ∈ u.elems, isInterior u e = true ∧ n ∈ e) (interiorStores u own stale src dst) := by
  have hacc : ∀ e ∈ u.elems, isInterior u e = true → ∀ n ∈ e, ∀ i d rhs, i < src.length → rhs < u.nRhs →
      u.gdof n (src.getD i 0) = some d → access u own stale (u.dofOwn.getLocal d) rhs = some (x d rhs) := by
    intro e he hi n hn i d rhs hil hr hd
    unfold isInterior at hi
    rw [List.all_eq_true] at hi
    have h1 := hi n hn
    rw [List.all_eq_true] at h1
    have hlt : src.getD i 0 < u.nd := by
      rw [List.getD_eq_getElem?_getD, List.getElem?_eq_getElem hil]
      exact hsrc _ (List.getElem_mem hil)
    have h2 := h1 (src.getD i 0) (List.mem_range.2 hlt)
    rw [hd] at h2
    exact access_owned hv hx stale h2 hr
  constructor
  · intro o ho
    unfold interiorStores elemStores at ho
    simp only [List.mem_flatMap, List.mem_filter] at ho
    obtain ⟨e, ⟨he, hi⟩, n, hn, ho⟩ := ho
    have hnn := hv.elem e he n hn
    rw [hv.localDofs_get hnn, mem_nodeStores] at ho
    obtain ⟨i, dof, rhs, hil, hr, hrow, rfl⟩ := ho
    obtain ⟨d, hd, rfl⟩ := row_some.1 hrow
    rw [hacc e he hi n hn i d rhs hil hr hd]
    exact ⟨_, n, _, d, rhs, rfl, hnn, ⟨e, he, hi, hn⟩, ⟨i, hil, hr, hd, rfl⟩, .inl rfl⟩
  · rintro n f d rhs hnn ⟨e, he, hi, hn⟩ ⟨i, hil, hr, hd, rfl⟩
    refine ⟨.raw (u.nodeOwn.getLocal n) (dst.getD (i * u.nRhs + rhs) 0) (x d rhs), ?_, .inl rfl⟩
    unfold interiorStores elemStores
    simp only [List.mem_flatMap, List.mem_filter]
    refine ⟨e, ⟨he, hi⟩, n, hn, ?_⟩
    rw [hv.localDofs_get hnn, mem_nodeStores]
    exact ⟨i, _, rhs, hil, hr, row_some.2 ⟨d, hd, rfl⟩, by rw [hacc e he hi n hn i d rhs hil hr hd]; rfl⟩

theorem border_covers {u : Sys} (hv : u.Valid) {x own fresh : Nat → Nat → V} (hx : Vectors u x own fresh) {src dst : List Nat} :
    Covers u x src dst (fun n => ∃ e ∈ u.elems, isInterior u e = false ∧ n ∈ e) (borderStores u own fresh src dst) := by
  constructor
  · intro o ho
    unfold borderStores elemStores at ho
    simp only [List.mem_flatMap, List.mem_filter, Bool.not_eq_true'] at ho
    obtain ⟨e, ⟨he, hi⟩, n, hn, ho⟩ := ho
    have hnn := hv.elem e he n hn
    rw [hv.localDofs_get hnn, mem_nodeStores] at ho
    obtain ⟨i, dof, rhs, hil, hr, hrow, rfl⟩ := ho
    obtain ⟨d, hd, rfl⟩ := row_some.1 hrow
    rw [access_fresh hv hx (hv.known n hnn _ _ hd) hr]
    exact ⟨_, n, _, d, rhs, rfl, hnn, ⟨e, he, hi, hn⟩, ⟨i, hil, hr, hd, rfl⟩, .inl rfl⟩
  · rintro n f d rhs hnn ⟨e, he, hi, hn⟩ ⟨i, hil, hr, hd, rfl⟩
    refine ⟨.raw (u.nodeOwn.getLocal n) (dst.getD (i * u.nRhs + rhs) 0) (x d rhs), ?_, .inl rfl⟩
    unfold borderStores elemStores
    simp only [List.mem_flatMap, List.mem_filter, Bool.not_eq_true']
    refine ⟨e, ⟨he, hi⟩, n, hn, ?_⟩
    rw [hv.localDofs_get hnn, mem_nodeStores]
    exact ⟨i, _, rhs, hil, hr, row_some.2 ⟨d, hd, rfl⟩, by rw [access_fresh hv hx (hv.known n hnn _ _ hd) hr]; rfl⟩

theorem assembled_covers {u : Sys} {x sol : Nat → Nat → V}
    (hx : ∀ n ∈ u.nodes, ∀ j d, u.gdof n j = some d → ∀ rhs < u.nRhs, sol (u.dofOwn.getLocal d) rhs = x d rhs)
    {src dst : List Nat} : Covers u x src dst (fun _ => True) (assembledStores u sol src dst) := by
  constructor
  · intro o ho
    unfold assembledStores at ho
    rw [List.mem_flatMap] at ho
    obtain ⟨n, hn, ho⟩ := ho
    rw [mem_entryStores] at ho
    obtain ⟨i, dof, rhs, hil, hr, hrow, rfl⟩ := ho
    obtain ⟨d, hd, rfl⟩ := row_some.1 hrow
    rw [hx n hn _ d hd rhs hr]
    exact ⟨_, n, _, d, rhs, rfl, hn, trivial, ⟨i, hil, hr, hd, rfl⟩, .inr rfl⟩
  · rintro n f d rhs hn _ ⟨i, hil, hr, hd, rfl⟩
    refine ⟨_, ?_, .inr rfl⟩
    unfold assembledStores
    rw [List.mem_flatMap]
    refine ⟨n, hn, ?_⟩
    rw [mem_entryStores]
    exact ⟨i, _, rhs, hil, hr, row_some.2 ⟨d, hd, rfl⟩, by rw [hx n hn _ d hd rhs hr]⟩

theorem Covers.append {u : Sys} {x : Nat → Nat → V} {src dst : List Nat} {P Q : Nat → Prop} {l l' : List (Option (Op V))}
    (h : Covers u x src dst P l) (h' : Covers u x src dst Q l') : Covers u x src dst (fun n => P n ∨ Q n) (l ++ l') := by
  constructor
  · intro o ho
    rcases List.mem_append.1 ho with ho | ho
    · obtain ⟨p, n, f, d, rhs, a, b, c, e⟩ := h.1 o ho
      exact ⟨p, n, f, d, rhs, a, b, .inl c, e⟩
    · obtain ⟨p, n, f, d, rhs, a, b, c, e⟩ := h'.1 o ho
      exact ⟨p, n, f, d, rhs, a, b, .inr c, e⟩
  · rintro n f d rhs hn (hP | hP) ht
    · obtain ⟨p, a, b⟩ := h.2 n f d rhs hn hP ht
      exact ⟨p, List.mem_append.2 (.inl a), b⟩
    · obtain ⟨p, a, b⟩ := h'.2 n f d rhs hn hP ht
      exact ⟨p, List.mem_append.2 (.inr a), b⟩

theorem runStores_append : ∀ (l l' : List (Option (Op V))) (s : Sol V),
    runStores (l ++ l') s = (runStores l s).bind (runStores l') := by
  intro l
  induction l with
  | nil => intro l' s; rfl
  | cons o l ih =>
    intro l' s
    cases o with
    | none => rfl
    | some o =>
      rw [List.cons_append, runStores, runStores]
      cases step s o with
      | ok a => exact ih l' a
      | throws => rfl
      | ub => rfl

/-! ## C98 -/

/-- A solution manager for the mesh of the system, after any history of use. -/
def Manager (u : Sys) (s : Sol V) : Prop :=
  ∃ F init ops, (∀ o ∈ ops, Op.InRange u.nodeOwn.localSize F o) ∧ run ops (new u.nodeOwn F init) = .ok s

theorem Manager.holds {u : Sys} {s : Sol V} (h : Manager u s) : s.own = u.nodeOwn ∧ ∃ t, Holds s t := by
  obtain ⟨F, init, ops, hr, h⟩ := h
  obtain ⟨s', h1, h2, h3, h4⟩ := run_holds ops (new u.nodeOwn F init) _ (holds_new _ _ _) hr
  rw [h] at h1
  cases h1
  exact ⟨h2, _, h4⟩

/-- **C98.** Matrix-free: whatever the order of the stores in the two parallel loops and whatever the import buffer holds while the
interior is processed, afterwards each requested field has, at every node of every element, the value of the global solution at that
node's dof; nodes without the component and all other fields keep their values. -/
theorem C98_matrix_free_update_partial (u : Sys) (hv : u.Valid) (x own stale fresh : Nat → Nat → V) (hx : Vectors u x own fresh)
    (src dst : List Nat) (hnd : dst.Nodup) (s : Sol V) (hs : Manager u s) (hc : checks u s.nFields src dst = true)
    (ordI ordB : List (Option (Op V))) (hI : ordI.Perm (interiorStores u own stale src dst))
    (hB : ordB.Perm (borderStores u own fresh src dst)) :
    ∃ s', mfUpdate u src dst ordI ordB s = .ok s' ∧ Copied u x src dst (fun n => ∃ e ∈ u.elems, n ∈ e) s s' := by
  obtain ⟨hown, t, ht⟩ := hs.holds
  have hsrc : ∀ i ∈ src, i < u.nd := by
    simp only [checks, Bool.and_eq_true, List.all_eq_true, decide_eq_true_eq] at hc; exact hc.1.2
  have cov := ((interior_covers hv hx stale hsrc).perm hI).append ((border_covers hv hx).perm hB)
  obtain ⟨s', h1, h2, h3, h4⟩ := cov.run hv.node hnd ht hown hc
  refine ⟨s', by rw [mfUpdate, if_pos hc, ← runStores_append]; exact h1, h2, h3, fun n hn f hf => ?_⟩
  have hiff : (∃ e ∈ u.elems, n ∈ e) ↔
      ((∃ e ∈ u.elems, isInterior u e = true ∧ n ∈ e) ∨ ∃ e ∈ u.elems, isInterior u e = false ∧ n ∈ e) := by
    constructor
    · rintro ⟨e, he, hne⟩
      cases hi : isInterior u e
      · exact .inr ⟨e, he, hi, hne⟩
      · exact .inl ⟨e, he, hi, hne⟩
    · rintro (⟨e, he, _, hne⟩ | ⟨e, he, _, hne⟩) <;> exact ⟨e, he, hne⟩
  obtain ⟨h5, h6⟩ := h4 n hn f hf
  exact ⟨fun d rhs hP => h5 d rhs (hiff.1 hP), fun hno => h6 fun ⟨d, rhs, hP, htt⟩ => hno ⟨d, rhs, hiff.2 hP, htt⟩⟩

/-- **C98.** Assembled, without condensation: the same, at all nodes of the partition. -/
theorem C98_assembled_update (u : Sys) (hv : u.NodeOk) (x sol : Nat → Nat → V)
    (hx : ∀ n ∈ u.nodes, ∀ j d, u.gdof n j = some d → ∀ rhs < u.nRhs, sol (u.dofOwn.getLocal d) rhs = x d rhs)
    (src dst : List Nat) (hnd : dst.Nodup) (s : Sol V) (hs : Manager u s) (hc : checks u s.nFields src dst = true)
    (ord : List (Option (Op V))) (ho : ord.Perm (assembledStores u sol src dst)) :
    ∃ s', asmUpdate u src dst ord s = .ok s' ∧ Copied u x src dst (fun _ => True) s s' := by
  obtain ⟨hown, t, ht⟩ := hs.holds
  obtain ⟨s', h1, h2⟩ := ((assembled_covers hx).perm ho).run hv hnd ht hown hc
  exact ⟨s', by rw [asmUpdate, if_pos hc]; exact h1, h2⟩

/-- **C98.** Wrong numbers of indices, components which do not exist and fields which do not exist are rejected before anything is
written. -/
theorem C98_bad_indices_throw (u : Sys) (src dst : List Nat) (s : Sol V) (ordI ordB : List (Option (Op V)))
    (h : dst.length ≠ src.length * u.nRhs ∨ (∃ i ∈ src, u.nd ≤ i) ∨ ∃ f ∈ dst, s.nFields ≤ f) :
    mfUpdate u src dst ordI ordB s = .throws ∧ asmUpdate u src dst ordI s = .throws := by
  have hc : checks u s.nFields src dst = false := by
    rw [Bool.eq_false_iff]
    intro hc
    simp only [checks, Bool.and_eq_true, List.all_eq_true, decide_eq_true_eq, beq_iff_eq] at hc
    obtain ⟨⟨h1, h2⟩, h3⟩ := hc
    rcases h with h | ⟨i, hi, hle⟩ | ⟨f, hf, hle⟩
    · exact h h1
    · exact absurd (h2 i hi) (by omega)
    · exact absurd (h3 f hf) (by omega)
  exact ⟨by rw [mfUpdate, if_neg (by simp [hc])], by rw [asmUpdate, if_neg (by simp [hc])]⟩

/-- **C98.** Every node of the partition lies in an element: the two kinds of systems leave the same fields behind. -/
theorem C98_same_fields (u : Sys) (hv : u.Valid) (x own stale fresh sol : Nat → Nat → V) (hx : Vectors u x own fresh)
    (hsol : ∀ n ∈ u.nodes, ∀ j d, u.gdof n j = some d → ∀ rhs < u.nRhs, sol (u.dofOwn.getLocal d) rhs = x d rhs)
    (hcov : ∀ n ∈ u.nodes, ∃ e ∈ u.elems, n ∈ e)
    (src dst : List Nat) (hnd : dst.Nodup) (s : Sol V) (hs : Manager u s) (hc : checks u s.nFields src dst = true)
    (ordI ordB ord : List (Option (Op V))) (hI : ordI.Perm (interiorStores u own stale src dst))
    (hB : ordB.Perm (borderStores u own fresh src dst)) (ho : ord.Perm (assembledStores u sol src dst)) :
    ∃ a b, mfUpdate u src dst ordI ordB s = .ok a ∧ asmUpdate u src dst ord s = .ok b ∧
      ∀ n ∈ u.nodes, ∀ f < s.nFields, nodeValueGlobal a n f = nodeValueGlobal b n f := by
  obtain ⟨a, ha, _, _, ha2⟩ := C98_matrix_free_update_partial u hv x own stale fresh hx src dst hnd s hs hc ordI ordB hI hB
  obtain ⟨b, hb, _, _, hb2⟩ := C98_assembled_update u hv.node x sol hsol src dst hnd s hs hc ord ho
  refine ⟨a, b, ha, hb, fun n hn f hf => ?_⟩
  obtain ⟨h1, h2⟩ := ha2 n hn f hf
  obtain ⟨h3, h4⟩ := hb2 n hn f hf
  by_cases h : ∃ d rhs, Target u src dst n f d rhs
  · obtain ⟨d, rhs, ht⟩ := h
    rw [h1 d rhs (hcov n hn) ht, h3 d rhs trivial ht]
  · rw [h2 fun ⟨d, rhs, _, ht⟩ => h ⟨d, rhs, ht⟩, h4 fun ⟨d, rhs, _, ht⟩ => h ⟨d, rhs, ht⟩]

/-- Two elements on one rank: nodes 0, 1, 2 are owned, node 7 is a ghost; the second element is on the border.  Component 1 exists at
nodes 1, 2 and 7 only. -/
def exSys : Sys where
  nodeOwn := ⟨0, 3, [7]⟩
  dofOwn := ⟨0, 5, [11, 12]⟩
  nd := 2
  nRhs := 2
  gdof := fun n j => ([((0, 0), 0), ((1, 0), 1), ((1, 1), 2), ((2, 0), 3), ((2, 1), 4), ((7, 0), 11), ((7, 1), 12)] :
    List ((Nat × Nat) × Nat)).lookup (n, j)
  elems := [[0, 1], [1, 2, 7]]

theorem exSys_valid : exSys.Valid where
  node := ⟨0, 3, [7], by decide, by decide⟩
  dof := ⟨0, 5, [11, 12], by decide, by decide⟩
  elem := by decide
  known := by
    intro n hn j d h
    have : n ∈ [0, 1, 2, 7] := hn
    obtain ⟨l1, l2, h', _⟩ := List.lookup_eq_some_iff.1 h
    have h2 : ((n, j), d) ∈ l1 ++ ((n, j), d) :: l2 := by simp
    rw [← h'] at h2
    have h3 : d ∈ [0, 1, 2, 3, 4, 11, 12] := by
      simp only [List.mem_cons, Prod.mk.injEq, List.not_mem_nil, or_false] at h2 ⊢
      omega
    have h4 : ∀ d ∈ [0, 1, 2, 3, 4, 11, 12], exSys.dofOwn.isOwned d = true ∨ d ∈ exSys.dofOwn.shared := by decide
    exact h4 d h3
  small := by decide

example : exSys.Valid ∧ Vectors exSys (fun d r => 10 * d + r) (fun r c => 10 * r + c) (fun r c => 110 + 10 * r + c) ∧
    Manager exSys (new exSys.nodeOwn 5 0) ∧ checks exSys 5 [1, 0] [4, 2, 0, 1] = true ∧ [4, 2, 0, 1].Nodup ∧
    isInterior exSys [0, 1] = true ∧ isInterior exSys [1, 2, 7] = false ∧ (∀ n ∈ exSys.nodes, ∃ e ∈ exSys.elems, n ∈ e) :=
  ⟨exSys_valid, ⟨fun r _ c => by show _ = 10 * (0 + r) + c; omega, fun r h c => by
    have : r < 2 := h
    rcases (show r = 0 ∨ r = 1 by omega) with rfl | rfl <;> (show _ = 10 * _ + c; simp [exSys])⟩,
    ⟨5, 0, [], by simp, rfl⟩, by decide, by decide, by decide, by decide, by decide⟩

/-- **C98** does not hold with repeated destination fields, which are accepted: the outcome then depends on the order of the stores. -/
theorem C98_repeated_fields_violated : ∃ (src dst : List Nat) (s : Sol Nat) (l l' : List (Option (Op Nat))),
    Manager exSys s ∧ checks exSys s.nFields src dst = true ∧
    l.Perm (assembledStores exSys (fun d r => 10 * d + r) src dst) ∧ l'.Perm (assembledStores exSys (fun d r => 10 * d + r) src dst) ∧
    ∃ a b, asmUpdate exSys src dst l s = .ok a ∧ asmUpdate exSys src dst l' s = .ok b ∧
      nodeValueGlobal a 0 0 ≠ nodeValueGlobal b 0 0 := by
  refine ⟨[0], [0, 0], new exSys.nodeOwn 1 0, _, _, ⟨1, 0, [], by simp, rfl⟩, by decide, List.Perm.refl _,
    List.reverse_perm _, ?_⟩
  exact ⟨_, _, rfl, rfl, by decide⟩

/-- Positions in large vectors do not fit `local_dof_t`: with two right-hand sides and `2^30 + 1` owned dofs on a rank the second column
cannot be read. -/
theorem C98_large_vectors_violated : ∃ (u : Sys) (row col : Nat), row < u.dofOwn.cnt ∧ col < u.nRhs ∧ u.dofOwn.cnt < 2 ^ 31 ∧
    ∀ own buf : Nat → Nat → Nat, access u own buf row col = none :=
  ⟨⟨⟨0, 1, []⟩, ⟨0, 2 ^ 30 + 1, []⟩, 1, 2, fun _ _ => none, []⟩, 2 ^ 30, 1, by decide, by decide, by decide, fun own buf => by
    unfold access
    rw [if_pos (by decide), if_neg (by decide)]⟩

end Verif.SolUpd
