import Verif.MfPipe.Model
import Verif.LocView.Props
import Verif.Split.Props
import Verif.Pipeline.Lemmas

/-! # Lemmas for C121: the views of a rank's mesh -/
namespace Verif.MfPipe
open Verif Verif.Elem Verif.Mesh Verif.Dofs Verif.Lsq Verif.LocView Verif.Pipeline Verif.Partition

theorem mapM_of {A B : Type} {f : A → Option B} {g : A → B} {l : List A} (h : ∀ a ∈ l, f a = some (g a)) : l.mapM f = some (l.map g) := by
  induction l with
  | nil => rfl
  | cons a l ih =>
    rw [List.mapM_cons, h a (by simp), ih fun b hb => h b (by simp [hb])]; rfl

/-- Elements of domain `k`. -/
def domEls (m : DomMap) (k : Nat) : List Element := ((m.lookup k).map Domain.elems).getD []

theorem mem_domEls {m : DomMap} {k : Nat} {e : Element} : e ∈ domEls m k ↔ InDom m k e := by
  unfold domEls InDom
  cases m.lookup k <;> simp

theorem visitIds_domEls (m : DomMap) (ids : List Nat) : visitIds m ids = ids.flatMap (domEls m) := by
  induction ids with
  | nil => rfl
  | cons k ids ih =>
    rw [List.flatMap_cons, ← ih]
    unfold visitIds existing domEls
    cases h : m.lookup k <;> simp [h]

theorem domEls_cons (d : Nat × Domain) (ds : DomMap) (j : Nat) : domEls (d :: ds) j = if j = d.1 then d.2.elems else domEls ds j := by
  obtain ⟨a, d⟩ := d
  unfold domEls
  by_cases h : j = a
  · subst h; simp
  · have : (j == a) = false := by simpa using h
    rw [List.lookup_cons, this, if_neg h]

/-- Sizes for which the reordering works. -/
def SmallVec (G : Element → VElem) (v : List Element) : Prop :=
  (∀ e ∈ v, ∀ x ∈ (G e).loc.nodes, x < 2 ^ 32 - 1) ∧ ∀ e ∈ v, (G e).loc.nodes.length * v.length < 2 ^ 32 - 1

theorem incidences_le {A : Type} (nodesOf : A → List Nat) (els : List A) (a : A) : incidences nodesOf els a ≤ (nodesOf a).length * els.length := by
  unfold incidences
  generalize nodesOf a = l
  induction l with
  | nil => simp
  | cons x l ih =>
    rw [List.map_cons, List.sum_cons, List.length_cons, Nat.succ_mul]
    have : els.countP (fun b => decide (x ∈ nodesOf b)) ≤ els.length := List.countP_le_length
    omega

theorem viewVecs_perm (o : Own.SegOwn) (sm : List (Nat × List (Nat × Nat))) (ord : Nat → Orders) (hord : ∀ j k l, ((ord j k).2 l).Perm l)
    (G : Element → VElem) (vs : List (List Element)) (k : Nat) (c : Cache) (hG : ∀ v ∈ vs, ∀ e ∈ v, toView o sm e = some (G e))
    (hs : ∀ v ∈ vs, SmallVec G v) : ∃ out k' c', viewVecs o sm ord vs k c = some (out, k', c') ∧ out.flatten.Perm (vs.flatten.map G) := by
  induction vs generalizing k c with
  | nil => exact ⟨[], k, c, rfl, List.Perm.refl _⟩
  | cons v vs ih =>
    have hlv := mapM_of (hG v (by simp))
    have hr : ∃ r c', (if v = [] then some ([], c) else reorder (fun a : VElem => a.loc.nodes) (ord k) (v.map G) c) = some (r, c') ∧ r.Perm (v.map G) := by
      by_cases hnil : v = []
      · subst hnil; exact ⟨[], c, by rw [if_pos rfl], List.Perm.refl _⟩
      · rw [if_neg hnil]
        obtain ⟨h1, h2⟩ := hs v (by simp)
        refine C25_reorder_perm _ (ord k) (hord k) _ c (fun a ha x hx => ?_) fun a ha => ?_
        · obtain ⟨e, he, rfl⟩ := List.mem_map.1 ha
          exact h1 e he x hx
        · obtain ⟨e, he, rfl⟩ := List.mem_map.1 ha
          refine lt_of_le_of_lt (incidences_le _ _ _) ?_
          rw [List.length_map]; exact h2 e he
    obtain ⟨r, c', hr, hp⟩ := hr
    obtain ⟨out, k', c'', h1, h2⟩ := ih (k + 1) c' (fun w hw => hG w (by simp [hw])) fun w hw => hs w (by simp [hw])
    refine ⟨r :: out, k', c'', by rw [viewVecs, hlv, Option.bind_some, hr, Option.bind_some, h1]; rfl, ?_⟩
    rw [List.flatten_cons, List.flatten_cons, List.map_append]
    exact hp.append h2

theorem viewDomains_perm (o : Own.SegOwn) (sm : List (Nat × List (Nat × Nat))) (bnds : List Nat) (hb : bnds.Pairwise (· < ·)) (ord : Nat → Orders)
    (hord : ∀ j k l, ((ord j k).2 l).Perm l) (G : Element → VElem) (ds : DomMap) (k : Nat) (c : Cache)
    (hG : ∀ d ∈ ds, d.1 ∉ bnds → ∀ v ∈ d.2.vecs, ∀ e ∈ v, toView o sm e = some (G e))
    (hs : ∀ d ∈ ds, d.1 ∉ bnds → ∀ v ∈ d.2.vecs, SmallVec G v) :
    ∃ view, viewDomains o sm bnds ord ds k c = some view ∧ ∀ j, (visitView view j).Perm (if j ∈ bnds then [] else (domEls ds j).map G) := by
  have hbs : ∀ x, Std.binarySearch bnds x = true ↔ x ∈ bnds := Std.binarySearch_iff (hb.imp le_of_lt)
  induction ds generalizing k c with
  | nil => exact ⟨[], rfl, fun j => by simp [visitView, domEls]⟩
  | cons d ds ih =>
    have hG' := fun d' hd' => hG d' (List.mem_cons_of_mem _ hd')
    have hs' := fun d' hd' => hs d' (List.mem_cons_of_mem _ hd')
    by_cases hd : d.1 ∈ bnds
    · obtain ⟨view, h1, h2⟩ := ih k c hG' hs'
      refine ⟨view, by rw [viewDomains, if_pos ((hbs _).2 hd), h1], fun j => ?_⟩
      by_cases hj : j ∈ bnds
      · have := h2 j; rw [if_pos hj] at this; rw [if_pos hj]; exact this
      · have := h2 j
        rw [if_neg hj] at this ⊢
        have hne : (j == d.1) = false := by simpa using fun h : j = d.1 => hj (h ▸ hd)
        rw [domEls, List.lookup_cons, hne]; exact this
    · obtain ⟨out, k', c', h1, h2⟩ := viewVecs_perm o sm ord hord G d.2.vecs k c (hG d (by simp) hd) (hs d (by simp) hd)
      obtain ⟨view, h3, h4⟩ := ih k' c' hG' hs'
      refine ⟨(d.1, out) :: view, by rw [viewDomains, if_neg (by rw [hbs]; exact hd), h1, Option.bind_some, h3]; rfl, fun j => ?_⟩
      by_cases hjd : j = d.1
      · subst hjd
        rw [if_neg hd]
        rw [domEls_cons, if_pos rfl]
        simp only [visitView, List.lookup_cons, BEq.rfl, Option.map_some, Option.getD_some]
        exact h2
      · have hne : (j == d.1) = false := by simpa using hjd
        have := h4 j
        rw [domEls_cons, if_neg hjd]
        simp only [visitView, List.lookup_cons, hne] at this ⊢
        exact this

/-! ### The mesh of a rank -/

/-- A mesh partition on which a matrix-free system can work: what `Split.Ok` asks for; well-formed elements with distinct nodes, known to
the node ownership; sizes that fit into 32 bits; the internal nodes of every element of a domain have consecutive local numbers; boundary
elements are sides of one element; no side carries two boundary elements. -/
structure RankOk (kinds : List (ElType × Nat)) (q : Split.Part) (D : Nat) : Prop where
  split : Split.Ok kinds q D
  els : ∀ e, Holds q.doms e → WfElement e ∧ 2 ≤ e.n ∧ e.nodes.Nodup
  shared : q.own.shared.Pairwise (· < ·)
  disj : ∀ x ∈ q.own.shared, ¬ (q.own.first ≤ x ∧ x < q.own.first + q.own.cnt)
  known : ∀ x, NodeIn q.doms x → (q.own.first ≤ x ∧ x < q.own.first + q.own.cnt) ∨ x ∈ q.own.shared
  size : q.own.localSize < 2 ^ 32
  small : ∀ d ∈ q.doms, ∀ v ∈ d.2.vecs, ∀ e ∈ v, e.nodes.length * v.length < 2 ^ 32 - 1
  cont : ∀ k e, k ∉ q.bnds.map (·.1) → InDom q.doms k e → InternalContiguous q.own e
  bids : ∀ b ∈ q.bnds.map (·.1), b < invalidDom
  uniq : UniqueParent q.doms (q.bnds.map (·.1))
  single : ∀ b ∈ q.bnds.map (·.1), ∀ b' ∈ q.bnds.map (·.1), ∀ x x', InDom q.doms b x → InDom q.doms b' x' → viewOf q.doms x = viewOf q.doms x' → b = b' ∧ x = x'

variable {kinds : List (ElType × Nat)} {q : Split.Part} {D : Nat}

theorem RankOk.keys (h : RankOk kinds q D) : KeysNodup q.doms := Split.wf_keys h.split.wf

theorem RankOk.nodesOk (h : RankOk kinds q D) {e : Element} (he : Holds q.doms e) : LocView.NodesOk q.own e where
  len := by rw [(h.els e he).1.len, nNodes, u16_id (h.els e he).1.small]
  nodup := (h.els e he).2.2
  sharedStrict := h.shared
  disj := h.disj
  known x hx := h.known x ⟨e, he, hx⟩
  size := le_of_lt h.size

theorem inDom_unique (h : RankOk kinds q D) {k k' : Nat} {e e' : Element} (hk : InDom q.doms k e) (hk' : InDom q.doms k' e') (hid : e.id = e'.id) :
    k = k' ∧ e = e' := by
  have h1 : (k, e) ∈ Split.tagged q.doms (q.doms.map (·.1)) := Split.mem_tagged.2 ⟨by
    obtain ⟨d, hd, _⟩ := hk
    exact List.mem_map.2 ⟨_, Mesh.mem_of_lookup hd, rfl⟩, hk⟩
  have h2 : (k', e') ∈ Split.tagged q.doms (q.doms.map (·.1)) := Split.mem_tagged.2 ⟨by
    obtain ⟨d, hd, _⟩ := hk'
    exact List.mem_map.2 ⟨_, Mesh.mem_of_lookup hd, rfl⟩, hk'⟩
  have := List.inj_on_of_nodup_map h.split.ids h1 h2 hid
  exact ⟨congrArg Prod.fst this, congrArg Prod.snd this⟩

/-- Side `s` of element `e` is on boundary `b`. -/
def OnSide (q : Split.Part) (e : Element) (s b : Nat) : Prop := b ∈ q.bnds.map (·.1) ∧ ∃ x, InDom q.doms b x ∧ viewOf q.doms x = some (e, s)

/-- What is known of the two halves of the mesh. -/
structure Half (q : Split.Part) (sel : Element → Bool) (t : Split.Part) : Prop where
  doms : ∀ k, k ∉ q.bnds.map (·.1) → t.doms.lookup k = (q.doms.lookup k).bind fun d => Split.restrict d sel
  bdoms : ∀ k ∈ q.bnds.map (·.1), ∀ x, InDom t.doms k x ↔ InDom q.doms k x ∧ ∃ e s, viewOf q.doms x = some (e, s) ∧ sel e = true
  dim : ∀ d ∈ t.doms, ∃ d', q.doms.lookup d.1 = some d' ∧ d'.dim = d.2.dim ∧ ∀ e ∈ d.2.elems, e ∈ d'.elems
  keys : t.bnds.map (·.1) = q.bnds.map (·.1)
  kn : KeysNodup t.doms
  views : ∃ ord : Nat → List Element → List Element, (∀ k l, (ord k l).Perm l) ∧ Split.initViews t.doms (q.bnds.map (·.1)) ord = some t.bnds

theorem restrict_elems {d d' : Domain} {sel : Element → Bool} (h : Split.restrict d sel = some d') : d'.elems = d.elems.filter sel ∧ d'.dim = d.dim := by
  unfold Split.restrict at h
  by_cases hc : d.elems.filter sel = []
  · rw [if_pos hc] at h; simp at h
  · rw [if_neg hc] at h
    obtain rfl := Option.some.inj h
    refine ⟨?_, rfl⟩
    unfold Domain.elems
    rw [List.filter_flatten]

theorem domEls_restrict {m m' : DomMap} {k : Nat} {sel : Element → Bool} (h : m'.lookup k = (m.lookup k).bind fun d => Split.restrict d sel) :
    domEls m' k = (domEls m k).filter sel := by
  unfold domEls
  rw [h]
  cases hd : m.lookup k with
  | none => simp
  | some d =>
    simp only [Option.bind_some, Option.map_some, Option.getD_some]
    cases hr : Split.restrict d sel with
    | none =>
      unfold Split.restrict at hr
      by_cases hc : d.elems.filter sel = []
      · simp [hc]
      · rw [if_neg hc] at hr; simp at hr
    | some d' => simp [(restrict_elems hr).1]

theorem mapM_mem {A B : Type} {f : A → Option B} {l : List A} {k : List B} (h : l.mapM f = some k) :
    (∀ a ∈ l, ∃ b ∈ k, f a = some b) ∧ ∀ b ∈ k, ∃ a ∈ l, f a = some b := by
  induction l generalizing k with
  | nil =>
    rw [List.mapM_nil] at h
    obtain rfl := Option.some.inj h
    simp
  | cons a l ih =>
    rw [List.mapM_cons] at h
    simp only [Option.bind_eq_bind, Option.bind_eq_some_iff, Option.pure_def, Option.some.injEq] at h
    obtain ⟨b, hb, k', hk', rfl⟩ := h
    obtain ⟨h1, h2⟩ := ih hk'
    refine ⟨fun x hx => ?_, fun y hy => ?_⟩
    · rcases List.mem_cons.1 hx with rfl | hx
      · exact ⟨b, by simp, hb⟩
      · obtain ⟨y, hy, h⟩ := h1 x hx
        exact ⟨y, by simp [hy], h⟩
    · rcases List.mem_cons.1 hy with rfl | hy
      · exact ⟨a, by simp, hb⟩
      · obtain ⟨x, hx, h⟩ := h2 y hy
        exact ⟨x, by simp [hx], h⟩

/-- What the stored boundary views contain. -/
theorem initViews_mem {m : DomMap} {bnds : List Nat} {ord : Nat → List Element → List Element} (hord : ∀ k l, (ord k l).Perm l)
    {bv : List (Nat × List (Element × Nat))} (h : Split.initViews m bnds ord = some bv) :
    (∀ b e s, (∃ l, (b, l) ∈ bv ∧ (e, s) ∈ l) ↔ b ∈ bnds ∧ ∃ x, InDom m b x ∧ viewOf m x = some (e, s)) ∧
    ∀ b ∈ bnds, ∀ x, InDom m b x → ∃ v, viewOf m x = some v := by
  obtain ⟨h1, h2⟩ := mapM_mem h
  have key : ∀ b l, boundaryViews m b (ord b) = some l → (∀ v, v ∈ l ↔ ∃ x, InDom m b x ∧ viewOf m x = some v) ∧ ∀ x, InDom m b x → ∃ v, viewOf m x = some v := by
    intro b l hl
    unfold boundaryViews at hl
    cases hd : m.lookup b with
    | none =>
      rw [hd] at hl
      obtain rfl := Option.some.inj hl
      refine ⟨fun v => ⟨fun hv => by simp at hv, ?_⟩, ?_⟩
      · rintro ⟨x, ⟨d, hd', _⟩, _⟩; rw [hd] at hd'; simp at hd'
      · rintro x ⟨d, hd', _⟩; rw [hd] at hd'; simp at hd'
    | some d =>
      rw [hd] at hl
      simp only at hl
      split at hl
      · simp at hl
      · obtain ⟨k1, k2⟩ := mapM_mem hl
        have hin : ∀ x, InDom m b x ↔ x ∈ ord b d.elems := by
          intro x
          rw [(hord b d.elems).mem_iff]
          constructor
          · rintro ⟨d', hd', hx⟩; rw [hd] at hd'; obtain rfl := Option.some.inj hd'; exact hx
          · intro hx; exact ⟨d, hd, hx⟩
        refine ⟨fun v => ⟨fun hv => ?_, ?_⟩, fun x hx => ?_⟩
        · obtain ⟨x, hx, hxv⟩ := k2 v hv
          exact ⟨x, (hin x).2 hx, hxv⟩
        · rintro ⟨x, hx, hxv⟩
          obtain ⟨v', hv', hxv'⟩ := k1 x ((hin x).1 hx)
          rw [hxv] at hxv'; obtain rfl := Option.some.inj hxv'; exact hv'
        · obtain ⟨v, _, hv⟩ := k1 x ((hin x).1 hx)
          exact ⟨v, hv⟩
  refine ⟨fun b e s => ⟨?_, ?_⟩, fun b hb x hx => ?_⟩
  · rintro ⟨l, hl, hes⟩
    obtain ⟨b', hb', hbl⟩ := h2 _ hl
    obtain ⟨l', hl', heq⟩ := Option.map_eq_some_iff.1 hbl
    obtain ⟨rfl, rfl⟩ := Prod.mk.inj heq
    exact ⟨hb', ((key _ _ hl').1 _).1 hes⟩
  · rintro ⟨hb, hx⟩
    obtain ⟨y, hy, hyb⟩ := h1 b hb
    obtain ⟨l', hl', rfl⟩ := Option.map_eq_some_iff.1 hyb
    exact ⟨l', hy, ((key _ _ hl').1 _).2 hx⟩
  · obtain ⟨y, hy, hyb⟩ := h1 b hb
    obtain ⟨l', hl', rfl⟩ := Option.map_eq_some_iff.1 hyb
    exact (key _ _ hl').2 x hx

theorem inDom_restrict {m m' : DomMap} {k : Nat} {sel : Element → Bool} (h : m'.lookup k = (m.lookup k).bind fun d => Split.restrict d sel) (e : Element) :
    InDom m' k e ↔ InDom m k e ∧ sel e = true := by
  rw [← mem_domEls, ← mem_domEls, domEls_restrict h, List.mem_filter]

theorem split_halves (h : RankOk kinds q D) (p : Element → Bool) (ord : Bool → Nat → List Element → List Element) (hord : ∀ s k l, (ord s k l).Perm l) :
    ∃ t f, Split.split kinds q p ord = some (t, f) ∧ Half q p t ∧ Half q (fun e => !p e) f := by
  obtain ⟨t, f, hs, h1, h2, h3, h4⟩ := Split.C27_elements kinds q D h.split p ord hord
  obtain ⟨ordv, hordv, hv⟩ := h.split.views
  have hex := (initViews_mem hordv hv).2
  refine ⟨t, f, hs, ?_⟩
  have hsp := hs
  unfold Split.split at hsp
  simp only [Option.bind_eq_some_iff, Option.map_eq_some_iff, Prod.mk.injEq] at hsp
  obtain ⟨dt, hdt, df, hdf, t', ht', f', hf', rfl, rfl⟩ := hsp
  obtain ⟨dt', a1, a2, a3⟩ := Split.domainMap_belongs h.split p true
  obtain ⟨df', b1, b2, b3⟩ := Split.domainMap_belongs h.split p false
  rw [hdt] at a1; obtain rfl := Option.some.inj a1
  rw [hdf] at b1; obtain rfl := Option.some.inj b1
  have hmk : ∀ {m' : DomMap} {o : Nat → List Element → List Element} {part : Split.Part}, Split.makeMesh q m' o = some part →
      part.doms = m' ∧ Split.initViews m' (q.bnds.map (·.1)) o = some part.bnds := by
    intro m' o part hm
    unfold Split.makeMesh at hm
    simp only [Option.bind_eq_some_iff, Option.map_eq_some_iff] at hm
    obtain ⟨v, hv, ow, _, rfl⟩ := hm
    exact ⟨rfl, hv⟩
  obtain ⟨rfl, htv⟩ := hmk ht'
  obtain ⟨rfl, hfv⟩ := hmk hf'
  have hkt : KeysNodup t'.doms := (Split.sorted_keys a2).imp fun h => Nat.ne_of_lt h
  have hkf : KeysNodup f'.doms := (Split.sorted_keys b2).imp fun h => Nat.ne_of_lt h
  have hdim : ∀ (part : Split.Part) (g : Nat → Element → Bool), KeysNodup part.doms → (∀ k, part.doms.lookup k = (q.doms.lookup k).bind fun d => Split.restrict d (g k)) →
      ∀ d ∈ part.doms, ∃ d', q.doms.lookup d.1 = some d' ∧ d'.dim = d.2.dim ∧ ∀ e ∈ d.2.elems, e ∈ d'.elems := by
    intro part g hk hg d hd
    have := Mesh.lookup_of_mem hk hd
    rw [hg, Option.bind_eq_some_iff] at this
    obtain ⟨d', hd', hr⟩ := this
    obtain ⟨r1, r2⟩ := restrict_elems hr
    exact ⟨d', hd', r2.symm, fun e he => by rw [r1] at he; exact (List.mem_filter.1 he).1⟩
  constructor
  · refine ⟨fun k hk => (h1 k hk).1, fun k hk x => ?_, hdim t' _ hkt a3, h3, hkt, ord true, hord true, htv⟩
    rw [inDom_restrict (h2 k hk).1]
    refine and_congr_right fun hx => ?_
    obtain ⟨⟨e, s⟩, hv⟩ := hex k hk x hx
    simp [Split.parentSat, hv]
  · refine ⟨fun k hk => (h1 k hk).2, fun k hk x => ?_, hdim f' _ hkf b3, h4, hkf, ord false, hord false, hfv⟩
    rw [inDom_restrict (h2 k hk).2]
    refine and_congr_right fun hx => ?_
    obtain ⟨⟨e, s⟩, hv⟩ := hex k hk x hx
    simp [Split.parentSat, hv]

/-- Sides on boundaries are the same in the half as in the whole. -/
theorem Half.onBoundary {sel : Element → Bool} {t : Split.Part} (h : RankOk kinds q D) (ht : Half q sel t) (e : Element) (s b : Nat) :
    (∃ l, (b, l) ∈ t.bnds ∧ (e, s) ∈ l) ↔ OnSide q e s b ∧ sel e = true := by
  obtain ⟨ord, hord, hv⟩ := ht.views
  obtain ⟨h1, h2⟩ := initViews_mem hord hv
  have hpar : ∀ x e s, IsParent t.doms x e s → IsParent q.doms x e s := by
    rintro x e s ⟨⟨d, hd, hdim, v, hv, he⟩, hl⟩
    obtain ⟨d', hd', hdim', hsub⟩ := ht.dim d hd
    have := hsub e (List.mem_flatten.2 ⟨v, hv, he⟩)
    obtain ⟨v', hv', he'⟩ := List.mem_flatten.1 this
    exact ⟨⟨_, Mesh.mem_of_lookup hd', by rw [hdim', hdim], v', hv', he'⟩, hl⟩
  rw [h1]
  constructor
  · rintro ⟨hb, x, hx, hxv⟩
    obtain ⟨hxq, e', s', hv', hsel⟩ := (ht.bdoms b hb x).1 hx
    obtain ⟨rfl, rfl⟩ := h.uniq b hb x hxq _ _ _ _ (hpar _ _ _ (viewOf_some ht.kn hxv)) (viewOf_some h.keys hv')
    exact ⟨⟨hb, x, hxq, hv'⟩, hsel⟩
  · rintro ⟨⟨hb, x, hx, hxv⟩, hsel⟩
    have hxt := (ht.bdoms b hb x).2 ⟨hx, e, s, hxv, hsel⟩
    refine ⟨hb, x, hxt, ?_⟩
    obtain ⟨v, hv'⟩ := h2 b hb x hxt
    obtain ⟨h3, h4⟩ := h.uniq b hb x hx _ _ _ _ (hpar _ _ _ (viewOf_some (e := v.1) (s := v.2) ht.kn hv')) (viewOf_some h.keys hxv)
    rw [hv', ← h3, ← h4]

theorem onSide_holds (h : RankOk kinds q D) {e : Element} {s b : Nat} (hs : OnSide q e s b) : Holds q.doms e ∧ s < Elem.nSides e.ty := by
  obtain ⟨_, x, _, hv⟩ := hs
  obtain ⟨⟨d, hd, _, v, hv, he⟩, l, hl, _⟩ := viewOf_some h.keys hv
  refine ⟨⟨d, hd, v, hv, he⟩, ?_⟩
  by_contra hc
  unfold sideNodes sideNodeInds at hl
  rw [List.getElem?_eq_none (by rw [table_length]; omega)] at hl
  simp at hl

/-- The local form of every element of a domain exists, in either half; its nodes are the local numbers of the element's nodes, its sides on
boundaries those of the element. -/
theorem Half.local {sel : Element → Bool} {t : Split.Part} (h : RankOk kinds q D) (ht : Half q sel t) {k : Nat} {e : Element}
    (hk : k ∉ q.bnds.map (·.1)) (he : InDom t.doms k e) :
    ∃ v, toLocal q.own (sidesMap t.bnds) e = some v ∧ v.ty = e.ty ∧ v.n = e.n ∧ v.nodes = e.nodes.map (localPos q.own) ∧
      (∀ s b, (s, b) ∈ v.boundaries ↔ OnSide q e s b) ∧ v.boundaries.Pairwise (·.1 < ·.1) := by
  obtain ⟨heq, hsel⟩ := (inDom_restrict (ht.doms k hk) e).1 he
  have hhold := Pipeline.inDom_holds heq
  have hon : ∀ s b, OnBoundary t.bnds e.id s b ↔ OnSide q e s b := by
    intro s b
    unfold OnBoundary
    constructor
    · rintro ⟨l, hl, e', he', hid⟩
      obtain ⟨hos, _⟩ := (Half.onBoundary h ht e' s b).1 ⟨l, hl, he'⟩
      obtain ⟨k', hk'⟩ := (holds_iff_inDom h.split.wf).1 (onSide_holds h hos).1
      obtain ⟨_, rfl⟩ := inDom_unique h hk' heq hid
      exact hos
    · intro hos
      obtain ⟨l, hl, hel⟩ := (Half.onBoundary h ht e s b).2 ⟨hos, hsel⟩
      exact ⟨l, hl, e, hel, rfl⟩
  have hsides : ∀ p ∈ ((sidesMap t.bnds).lookup e.id).getD [], p.1 < Elem.nSides e.ty := by
    rintro ⟨s, b⟩ hp
    exact (onSide_holds h ((hon s b).1 ((mem_sidesMap _ _ _ _).1 hp))).2
  obtain ⟨hw, hn, _⟩ := h.els e hhold
  obtain ⟨c1, c2⟩ := C26_local_nodes q.own e hn hw.small (h.nodesOk hhold) _ hsides
  obtain ⟨v, hv⟩ := c2.2 (h.cont k e hk heq)
  have htl : toLocal q.own (sidesMap t.bnds) e = some v := hv
  have hty : v.ty = e.ty ∧ v.n = e.n := by
    unfold LocElem.make at hv
    simp only [Option.bind_eq_some_iff, Option.map_eq_some_iff] at hv
    obtain ⟨_, _, _, _, rfl⟩ := hv
    exact ⟨rfl, rfl⟩
  obtain ⟨d1, d2, _, _⟩ := C26_sides_partial q.own t.bnds e v (by rw [ht.keys]; exact h.bids) htl (by
    intro s b b' hb hb'
    obtain ⟨m1, x, hx, hxv⟩ := (hon s b).1 hb
    obtain ⟨m2, x', hx', hxv'⟩ := (hon s b').1 hb'
    exact (h.single b m1 b' m2 x x' hx hx' (hxv.trans hxv'.symm)).1)
  exact ⟨v, htl, hty.1, hty.2, c1 v hv, fun s b => (d1 s b).trans (hon s b), d2⟩

end Verif.MfPipe
