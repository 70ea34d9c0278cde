import Verif.Merge.Count

/-! # Copying elements into the merged mesh -/
namespace Verif.Merge
open Verif Verif.Elem Verif.Mesh Verif.Split Verif.Partition

/-- Elements of domain `k` (empty if there is none). -/
abbrev els (m : DomMap) (k : Nat) : List Element := visitIds m [k]

theorem mem_els {m : DomMap} {k : Nat} {e : Element} : e ∈ els m k ↔ InDom m k e := mem_visit_single

theorem els_some {m : DomMap} {k : Nat} {d : Domain} (h : m.lookup k = some d) : els m k = d.elems := by
  unfold els; rw [visitIds_single, h]; rfl

theorem els_none {m : DomMap} {k : Nat} (h : m.lookup k = none) : els m k = [] := by
  unfold els; rw [visitIds_single, h]; rfl

theorem flatten_zipWith_perm {α : Type} (as bs : List (List α)) (h : as.length = bs.length) :
    (List.zipWith (· ++ ·) as bs).flatten.Perm (as.flatten ++ bs.flatten) := by
  induction as generalizing bs with
  | nil => cases bs with
    | nil => simp
    | cons => simp at h
  | cons a as ih =>
    cases bs with
    | nil => simp at h
    | cons b bs =>
      simp only [List.zipWith_cons_cons, List.flatten_cons]
      have := ih bs (by simpa using h)
      calc a ++ b ++ (List.zipWith (· ++ ·) as bs).flatten
          |>.Perm (a ++ b ++ (as.flatten ++ bs.flatten)) := this.append_left _
        _ |>.Perm (a ++ (as.flatten ++ (b ++ bs.flatten))) := by
            rw [List.append_assoc]
            refine List.Perm.append_left a ?_
            rw [← List.append_assoc, ← List.append_assoc]
            exact List.perm_append_comm.append_right _
        _ = a ++ as.flatten ++ (b ++ bs.flatten) := by simp

theorem grow_perm' {kinds : List (ElType × Nat)} (hk : kinds.Nodup) {d : Domain} (hd : d.vecs.length = kinds.length) (l : List Element)
    (hl : ∀ e ∈ l, e.kind ∈ kinds) : (grow kinds d l).elems.Perm (d.elems ++ l) := by
  have h1 : (grow kinds d l).vecs = List.zipWith (· ++ ·) d.vecs (grow kinds (emptyDom kinds) l).vecs := by
    apply List.ext_getElem (by simp [grow, emptyDom])
    intro i h1 h2
    simp [grow, emptyDom]
  have h2 : (grow kinds d l).elems = (List.zipWith (· ++ ·) d.vecs (grow kinds (emptyDom kinds) l).vecs).flatten := by
    unfold Domain.elems; rw [h1]
  rw [h2]
  refine (flatten_zipWith_perm _ _ (by simp [grow, emptyDom, hd])).trans ?_
  exact (grow_perm hk l hl).append_left _

theorem wf_grow' {kinds : List (ElType × Nat)} {d : Domain} (hd : WfDomain kinds d) (hf : d.elems = [] → d.dim = none) (l : List Element)
    (hdim : ∀ a ∈ d.elems ++ l, ∀ b ∈ d.elems ++ l, a.ty.dim = b.ty.dim) : WfDomain kinds (grow kinds d l) := by
  have hlen := hd.len
  have hkind : ∀ i (h : i < (grow kinds d l).vecs.length), ∀ e ∈ (grow kinds d l).vecs[i],
      e ∈ d.elems ++ l ∧ e.kind = kinds[i]'(by simp [grow] at h; omega) := by
    intro i h e he
    have h' : i < d.vecs.length := by simp [grow] at h; omega
    simp only [grow, List.getElem_zipWith, List.mem_append, List.mem_filter, beq_iff_eq] at he
    rcases he with he | he
    · exact ⟨List.mem_append_left _ (List.mem_flatten.2 ⟨_, List.getElem_mem h', he⟩), hd.kind i h' e he⟩
    · exact ⟨List.mem_append_right _ he.1, he.2⟩
  refine ⟨by simp [grow, hlen], fun i h e he => (hkind i h e he).2, fun e he => ?_⟩
  obtain ⟨v, hv, hev⟩ := List.mem_flatten.1 he
  obtain ⟨i, hi, rfl⟩ := List.mem_iff_getElem.1 hv
  have hel := (hkind i hi e hev).1
  simp only [grow]
  cases hde : d.elems with
  | nil =>
    rw [hf hde, Option.none_or]
    rw [hde, List.nil_append] at hel hdim
    cases l with
    | nil => simp at hel
    | cons a l => simp only [List.head?_cons, Option.map_some, Option.some.injEq]; exact hdim a (by simp) e hel
  | cons a as =>
    have ha : a ∈ d.elems := by rw [hde]; simp
    rw [hd.dim a ha, Option.some_or, Option.some.injEq]
    exact hdim a (List.mem_append_left _ ha) e hel

/-- What holds of the merged domains while they are being filled. -/
structure Inv (kinds : List (ElType × Nat)) (st : DomMap) : Prop where
  wf : WfMesh kinds st
  fresh : ∀ k d, st.lookup k = some d → d.elems = [] → d.dim = none

theorem inv_nil {kinds : List (ElType × Nat)} (h : kinds.Nodup) : Inv kinds [] :=
  ⟨⟨h, by simp [OMap.Sorted], by simp⟩, by simp⟩

/-- `domains[k]` followed by pushes into that domain. -/
theorem push_step {kinds : List (ElType × Nat)} {st : DomMap} (h : Inv kinds st) (k : Nat) (es : List Element) (hk : ∀ e ∈ es, e.kind ∈ kinds)
    (hdim : ∀ a ∈ els st k ++ es, ∀ b ∈ els st k ++ es, a.ty.dim = b.ty.dim) :
    ∃ st', pushAll kinds (touch kinds st k) (es.map fun e => (k, e)) = some st' ∧ Inv kinds st' ∧
      (∀ k', (els st' k').Perm (els st k' ++ if k' = k then es else [])) ∧
      ∀ k', (st'.lookup k').isSome = true ↔ (st.lookup k').isSome = true ∨ k' = k := by
  have ht : ∀ k', (touch kinds st k).lookup k' = if k' = k then some ((st.lookup k).getD (emptyDom kinds)) else st.lookup k' := by
    intro k'
    unfold touch
    rw [OMap.lookup_upd h.wf.sorted]
  have hwfd : WfDomain kinds ((st.lookup k).getD (emptyDom kinds)) := by
    cases hl : st.lookup k with
    | some d => exact h.wf.dom k d hl
    | none => exact ⟨by simp [emptyDom], fun i hi e he => by simp [emptyDom] at he, fun e he => by simp [emptyDom, Domain.elems] at he⟩
  have hels : ((st.lookup k).getD (emptyDom kinds)).elems = els st k := by
    cases hl : st.lookup k with
    | some d => rw [els_some hl]; rfl
    | none => rw [els_none hl]; simp [emptyDom, Domain.elems]
  have hfr : ((st.lookup k).getD (emptyDom kinds)).elems = [] → ((st.lookup k).getD (emptyDom kinds)).dim = none := by
    intro he
    cases hl : st.lookup k with
    | some d => rw [hl] at he; exact h.fresh k d hl he
    | none => rfl
  have hmemk : ∀ ev ∈ es.map fun e => (k, e), ev.1 = k ∧ ev.2 ∈ es := by
    intro ev hev
    obtain ⟨e, he, rfl⟩ := List.mem_map.1 hev
    exact ⟨rfl, he⟩
  have hok : PushOk kinds (touch kinds st k) (es.map fun e => (k, e)) := by
    refine ⟨h.wf.nodup, OMap.sorted_upd h.wf.sorted _ _, fun k' d hd => ?_, fun ev hev => hk _ (hmemk ev hev).2, fun a ha b hb _ => ?_, fun ev hev d x hd hx => ?_⟩
    · rw [ht] at hd
      split at hd
      · simp only [Option.some.injEq] at hd; subst hd; exact hwfd.len
      · exact (h.wf.dom k' d hd).len
    · exact hdim _ (List.mem_append_right _ (hmemk a ha).2) _ (List.mem_append_right _ (hmemk b hb).2)
    · rw [ht, if_pos (hmemk ev hev).1] at hd
      simp only [Option.some.injEq] at hd; subst hd
      cases hde : ((st.lookup k).getD (emptyDom kinds)).elems with
      | nil => rw [hfr hde] at hx; simp at hx
      | cons a as =>
        have ha : a ∈ ((st.lookup k).getD (emptyDom kinds)).elems := by rw [hde]; simp
        have h1 := hwfd.dim a ha
        rw [hx] at h1
        simp only [Option.some.injEq] at h1
        rw [h1]
        exact hdim _ (List.mem_append_left _ (hels ▸ ha)) _ (List.mem_append_right _ (hmemk ev hev).2)
  obtain ⟨st', h1, h2, h3⟩ := pushAll_spec hok
  have hsel : sel k (es.map fun e => (k, e)) = es := by
    unfold sel
    rw [List.filter_eq_self.2 (by intro a ha; simpa using (hmemk a ha).1), List.map_map]
    exact List.map_id _
  have hselne : ∀ k', k' ≠ k → sel k' (es.map fun e => (k, e)) = [] := by
    intro k' hne
    rw [List.eq_nil_iff_forall_not_mem]
    intro e he
    exact hne (hmemk _ (mem_sel.1 he)).1
  have hlk : st'.lookup k = some (grow kinds ((st.lookup k).getD (emptyDom kinds)) es) := by
    rw [h3, ht, if_pos rfl, hsel]; simp
  have hlne : ∀ k', k' ≠ k → st'.lookup k' = st.lookup k' := by
    intro k' hne
    rw [h3, ht, if_neg hne, hselne k' hne]
    have hnm : k' ∉ (es.map fun e => (k, e)).map (·.1) := by
      intro hc
      obtain ⟨ev, hev, rfl⟩ := List.mem_map.1 hc
      exact hne (hmemk ev hev).1
    cases hl : st.lookup k' with
    | none => rw [if_neg (by simpa using fun _ => hne)]
    | some d =>
      rw [if_pos (Or.inr (by simp))]
      simp only [Option.getD_some]
      rw [grow_nil _ _ (h.wf.dom k' d hl).len]
  refine ⟨st', h1, ⟨⟨h.wf.nodup, h2, fun k' d hd => ?_⟩, fun k' d hd he => ?_⟩, fun k' => ?_, fun k' => ?_⟩
  · by_cases hkk : k' = k
    · subst hkk
      rw [hlk] at hd; simp only [Option.some.injEq] at hd; subst hd
      exact wf_grow' hwfd hfr es (by rw [hels]; exact hdim)
    · rw [hlne k' hkk] at hd; exact h.wf.dom k' d hd
  · by_cases hkk : k' = k
    · subst hkk
      rw [hlk] at hd; simp only [Option.some.injEq] at hd; subst hd
      have hp := grow_perm' h.wf.nodup hwfd.len es hk
      rw [he] at hp
      have := hp.symm.eq_nil
      rw [List.append_eq_nil_iff] at this
      simp only [grow]
      rw [hfr this.1, this.2]; rfl
    · rw [hlne k' hkk] at hd; exact h.fresh k' d hd he
  · by_cases hkk : k' = k
    · subst hkk
      rw [if_pos rfl, els_some hlk, ← hels]
      exact grow_perm' h.wf.nodup hwfd.len es hk
    · rw [if_neg hkk, List.append_nil]
      unfold els
      rw [visitIds_single, visitIds_single, hlne k' hkk]
  · by_cases hkk : k' = k
    · subst hkk; rw [hlk]; simp
    · rw [hlne k' hkk]; simp [hkk]

/-- Same element type and order. -/
def KeepsKind (proj : Element → Element) : Prop := ∀ e, (proj e).ty = e.ty ∧ (proj e).n = e.n

theorem KeepsKind.kind {proj : Element → Element} (h : KeepsKind proj) (e : Element) : (proj e).kind = e.kind := by
  unfold Element.kind; rw [(h e).1, (h e).2]

/-- Elements of the same domain have the same dimension in both meshes. -/
def Compat (st m : DomMap) : Prop := ∀ k, ∀ a ∈ els st k, ∀ b ∈ els m k, a.ty.dim = b.ty.dim

theorem els_dim {kinds : List (ElType × Nat)} {m : DomMap} (h : WfMesh kinds m) {k : Nat} {a b : Element} (ha : a ∈ els m k) (hb : b ∈ els m k) :
    a.ty.dim = b.ty.dim := by
  obtain ⟨d, hd, had⟩ := mem_els.1 ha
  obtain ⟨d', hd', hbd⟩ := mem_els.1 hb
  rw [hd] at hd'; simp only [Option.some.injEq] at hd'; subst hd'
  have h1 := (h.dom k d hd).dim a had
  have h2 := (h.dom k d hd).dim b hbd
  rw [h1] at h2; simpa using h2

theorem els_kind {kinds : List (ElType × Nat)} {m : DomMap} (h : WfMesh kinds m) {k : Nat} {a : Element} (ha : a ∈ els m k) : a.kind ∈ kinds := by
  obtain ⟨d, hd, had⟩ := mem_els.1 ha
  exact (h.dom k d hd).mem_kind had

theorem step_dim {kinds : List (ElType × Nat)} {st m : DomMap} (hst : WfMesh kinds st) (hm : WfMesh kinds m) {proj : Element → Element} (hp : KeepsKind proj)
    (hc : Compat st m) (k : Nat) (q : Element → Bool) : ∀ a ∈ els st k ++ ((els m k).filter q).map proj, ∀ b ∈ els st k ++ ((els m k).filter q).map proj, a.ty.dim = b.ty.dim := by
  have key : ∀ a ∈ ((els m k).filter q).map proj, ∃ a' ∈ els m k, a.ty = a'.ty := by
    intro a ha
    obtain ⟨a', ha', rfl⟩ := List.mem_map.1 ha
    exact ⟨a', (List.mem_filter.1 ha').1, (hp a').1⟩
  intro a ha b hb
  rcases List.mem_append.1 ha with ha | ha <;> rcases List.mem_append.1 hb with hb | hb
  · exact els_dim hst ha hb
  · obtain ⟨b', hb', e⟩ := key b hb
    rw [e]; exact hc k a ha b' hb'
  · obtain ⟨a', ha', e⟩ := key a ha
    rw [e]; exact (hc k b hb a' ha').symm
  · obtain ⟨a', ha', e⟩ := key a ha
    obtain ⟨b', hb', e'⟩ := key b hb
    rw [e, e']; exact els_dim hm ha' hb'

theorem compat_step {kinds : List (ElType × Nat)} {st st' m : DomMap} (hm : WfMesh kinds m) {proj : Element → Element} (hp : KeepsKind proj) (hc : Compat st m) (k : Nat) (q : Element → Bool)
    (h : ∀ k', ∀ a ∈ els st' k', a ∈ els st k' ∨ k' = k ∧ a ∈ ((els m k).filter q).map proj) : Compat st' m := by
  intro k' a ha b hb
  rcases h k' a ha with h1 | ⟨rfl, h1⟩
  · exact hc k' a h1 b hb
  · obtain ⟨a', ha', rfl⟩ := List.mem_map.1 h1
    rw [(hp a').1]
    exact els_dim hm (List.mem_filter.1 ha').1 hb

theorem copyDomains_spec {kinds : List (ElType × Nat)} {m : DomMap} (hm : WfMesh kinds m) {proj : Element → Element} (hp : KeepsKind proj) (ks : List Nat) (hks : ks.Nodup)
    {st : DomMap} (h : Inv kinds st) (hc : Compat st m) :
    ∃ st', ks.foldlM (copyDomain kinds m proj) st = some st' ∧ Inv kinds st' ∧ Compat st' m ∧
      (∀ k', (els st' k').Perm (els st k' ++ if k' ∈ ks then (els m k').map proj else [])) ∧
      ∀ k', (st'.lookup k').isSome = true ↔ (st.lookup k').isSome = true ∨ k' ∈ ks := by
  induction ks generalizing st with
  | nil => exact ⟨st, rfl, h, hc, fun k' => by simp, fun k' => by simp⟩
  | cons k ks ih =>
    rw [List.nodup_cons] at hks
    have hf : (els m k).filter (fun _ => true) = els m k := List.filter_eq_self.2 fun _ _ => rfl
    have hd := step_dim h.wf hm hp hc k fun _ => true
    rw [hf] at hd
    obtain ⟨st1, h1, h2, h3, h4⟩ := push_step h k ((els m k).map proj) (fun e he => by
      obtain ⟨e', he', rfl⟩ := List.mem_map.1 he
      rw [hp.kind]; exact els_kind hm he') hd
    have hc1 : Compat st1 m := compat_step hm hp hc k (fun _ => true) fun k' a ha => by
      rw [hf]
      rcases List.mem_append.1 ((h3 k').mem_iff.1 ha) with h5 | h5
      · exact Or.inl h5
      · split at h5
        · rename_i hkk; subst hkk; exact Or.inr ⟨rfl, h5⟩
        · simp at h5
    obtain ⟨st', g1, g2, g3, g4, g5⟩ := ih hks.2 h2 hc1
    refine ⟨st', ?_, g2, g3, fun k' => ?_, fun k' => ?_⟩
    · rw [List.foldlM_cons, show copyDomain kinds m proj st k = some st1 from by
        unfold copyDomain; rw [← h1, List.map_map]; rfl]
      exact g1
    · refine (g4 k').trans (((h3 k').append_right _).trans ?_)
      rw [List.append_assoc]
      refine List.Perm.append_left _ ?_
      by_cases hkk : k' = k
      · subst hkk; simp [hks.1]
      · simp [hkk]
    · rw [g5, h4]; simp [or_assoc]

theorem els_eraseEmpty {st : DomMap} (k k' : Nat) : els (eraseEmpty st k) k' = els st k' := by
  unfold eraseEmpty
  split
  · rename_i he
    by_cases hkk : k' = k
    · subst hkk
      rw [show els st k' = [] from he]
      refine els_none ?_
      cases hl : (st.filter fun d => d.1 != k').lookup k' with
      | none => rfl
      | some d =>
        have := mem_of_lookup hl
        rw [List.mem_filter] at this
        simp at this
    · unfold els
      rw [visitIds_single, visitIds_single]
      congr 2
      clear he
      induction st with
      | nil => rfl
      | cons a st ih =>
        rw [List.filter_cons]
        by_cases ha : a.1 = k
        · rw [if_neg (by simp [ha]), ih, List.lookup_cons]
          have : (k' == a.1) = false := by rw [ha]; simpa using hkk
          rw [this]
        · rw [if_pos (by simpa using ha), List.lookup_cons, List.lookup_cons, ih]
  · rfl

theorem lookup_eraseEmpty {st : DomMap} (k k' : Nat) : (eraseEmpty st k).lookup k' = if k' = k ∧ els st k = [] then none else st.lookup k' := by
  unfold eraseEmpty
  split
  · rename_i he
    by_cases hkk : k' = k
    · subst hkk
      rw [if_pos ⟨rfl, he⟩]
      cases hl : (st.filter fun d => d.1 != k').lookup k' with
      | none => rfl
      | some d =>
        have := mem_of_lookup hl
        rw [List.mem_filter] at this
        simp at this
    · rw [if_neg fun hc => hkk hc.1]
      clear he
      induction st with
      | nil => rfl
      | cons a st ih =>
        rw [List.filter_cons]
        by_cases ha : a.1 = k
        · rw [if_neg (by simp [ha]), ih, List.lookup_cons]
          have : (k' == a.1) = false := by rw [ha]; simpa using hkk
          rw [this]
        · rw [if_pos (by simpa using ha), List.lookup_cons, List.lookup_cons, ih]
  · rename_i he
    rw [if_neg fun hc => he hc.2]

theorem inv_eraseEmpty {kinds : List (ElType × Nat)} {st : DomMap} (h : Inv kinds st) (k : Nat) : Inv kinds (eraseEmpty st k) := by
  have hl : ∀ k' d, (eraseEmpty st k).lookup k' = some d → st.lookup k' = some d := by
    intro k' d hd
    rw [lookup_eraseEmpty] at hd
    split at hd
    · simp at hd
    · exact hd
  refine ⟨⟨h.wf.nodup, ?_, fun k' d hd => h.wf.dom k' d (hl k' d hd)⟩, fun k' d hd => h.fresh k' d (hl k' d hd)⟩
  unfold eraseEmpty
  split
  · exact h.wf.sorted.filter _
  · exact h.wf.sorted

theorem copyBoundaries_spec {kinds : List (ElType × Nat)} {m : DomMap} (hm : WfMesh kinds m) {proj : Element → Element} (hp : KeepsKind proj) (del : List (List Nat))
    (ks : List Nat) (hks : ks.Nodup) {st : DomMap} (h : Inv kinds st) (hc : Compat st m) (acc : List Nat) :
    ∃ st', ks.foldlM (copyBoundary kinds m del proj) (st, acc) =
        some (st', acc ++ ks.flatMap fun k => ((els m k).filter (isDeleted del)).map fun e => (proj e).id) ∧ Inv kinds st' ∧ Compat st' m ∧
      (∀ k', (els st' k').Perm (els st k' ++ if k' ∈ ks then ((els m k').filter fun e => !isDeleted del e).map proj else [])) ∧
      ∀ k', (st'.lookup k').isSome = true ↔ if k' ∈ ks then els st' k' ≠ [] else (st.lookup k').isSome = true := by
  induction ks generalizing st acc with
  | nil => exact ⟨st, by simp, h, hc, fun k' => by simp, fun k' => by simp⟩
  | cons k ks ih =>
    rw [List.nodup_cons] at hks
    have hd := step_dim h.wf hm hp hc k fun e => !isDeleted del e
    obtain ⟨st1, h1, h2, h3, h4⟩ := push_step h k (((els m k).filter fun e => !isDeleted del e).map proj) (fun e he => by
      obtain ⟨e', he', rfl⟩ := List.mem_map.1 he
      rw [hp.kind]; exact els_kind hm (List.mem_filter.1 he').1) hd
    have hc1 : Compat (eraseEmpty st1 k) m := compat_step hm hp hc k (fun e => !isDeleted del e) fun k' a ha => by
      rw [els_eraseEmpty] at ha
      rcases List.mem_append.1 ((h3 k').mem_iff.1 ha) with h5 | h5
      · exact Or.inl h5
      · split at h5
        · rename_i hkk; subst hkk; exact Or.inr ⟨rfl, h5⟩
        · simp at h5
    obtain ⟨st', g1, g2, g3, g4, g5⟩ := ih hks.2 (inv_eraseEmpty h2 k) hc1 (acc ++ ((els m k).filter (isDeleted del)).map fun e => (proj e).id)
    refine ⟨st', ?_, g2, g3, fun k' => ?_, fun k' => ?_⟩
    · rw [List.foldlM_cons, show copyBoundary kinds m del proj (st, acc) k =
          some (eraseEmpty st1 k, acc ++ ((els m k).filter (isDeleted del)).map fun e => (proj e).id) from by
        unfold copyBoundary
        rw [List.map_map] at h1
        simp only
        rw [show pushAll kinds (touch kinds st k) (((visitIds m [k]).filter fun e => !isDeleted del e).map fun e => (k, proj e)) = some st1 from h1]
        rfl]
      rw [List.flatMap_cons, ← List.append_assoc]
      exact g1
    · refine (g4 k').trans ?_
      rw [els_eraseEmpty]
      refine ((h3 k').append_right _).trans ?_
      rw [List.append_assoc]
      refine List.Perm.append_left _ ?_
      by_cases hkk : k' = k
      · subst hkk; simp [hks.1]
      · simp [hkk]
    · rw [g5]
      by_cases hkk : k' = k
      · subst hkk
        rw [if_neg hks.1, if_pos (by simp), lookup_eraseEmpty]
        have he : els st' k' = [] ↔ els st1 k' = [] := by
          have := g4 k'
          rw [if_neg hks.1, List.append_nil, els_eraseEmpty] at this
          exact ⟨fun e => (e ▸ this).symm.eq_nil, fun e => (e ▸ this).eq_nil⟩
        by_cases hn : els st1 k' = []
        · simp [hn, he.2 hn]
        · rw [if_neg (fun hh => hn hh.2)]
          simp only [ne_eq, he, hn, not_false_eq_true, iff_true]
          exact (h4 k').2 (Or.inr rfl)
      · by_cases hkm : k' ∈ ks
        · rw [if_pos hkm, if_pos (by simp [hkm])]
        · rw [if_neg hkm, if_neg (by simp [hkm, hkk]), lookup_eraseEmpty, if_neg (fun hh => hkk hh.1), h4]
          simp [hkk]

/-- Element of a boundary domain whose face is to be deleted. -/
def gone (bnds : List Nat) (del : List (List Nat)) (k : Nat) (e : Element) : Bool := decide (k ∈ bnds) && isDeleted del e

theorem copyElements_spec {kinds : List (ElType × Nat)} {mesh : Part} (hm : WfMesh kinds mesh.doms) (hb : (mesh.bnds.map (·.1)).Nodup)
    {proj : Element → Element} (hp : KeepsKind proj) (del : List (List Nat)) {st : DomMap} (h : Inv kinds st) (hc : Compat st mesh.doms) :
    ∃ st', copyElements kinds st mesh del proj = some (st', Std.sort ((mesh.bnds.map (·.1)).flatMap fun k => ((els mesh.doms k).filter (isDeleted del)).map fun e => (proj e).id)) ∧
      Inv kinds st' ∧
      (∀ k, (els st' k).Perm (els st k ++ ((els mesh.doms k).filter fun e => !gone (mesh.bnds.map (·.1)) del k e).map proj)) ∧
      ∀ k, (st'.lookup k).isSome = true ↔ if k ∈ mesh.bnds.map (·.1) then els st' k ≠ [] else (st.lookup k).isSome = true ∨ k ∈ mesh.doms.map (·.1) := by
  set bnds := mesh.bnds.map (·.1) with hbnds
  have hdn : (domainIds mesh.doms bnds).Nodup := (wf_keys hm).filter _
  have hmd : ∀ k, k ∈ domainIds mesh.doms bnds ↔ k ∈ mesh.doms.map (·.1) ∧ k ∉ bnds := by
    intro k; unfold domainIds; rw [List.mem_filter, decide_eq_true_eq]
  obtain ⟨st1, a1, a2, a3, a4, a5⟩ := copyDomains_spec hm hp _ hdn h hc
  obtain ⟨st2, b1, b2, b3, b4, b5⟩ := copyBoundaries_spec hm hp del bnds hb a2 a3 []
  refine ⟨st2, ?_, b2, fun k => ?_, fun k => ?_⟩
  · unfold copyElements
    rw [← hbnds, a1, Option.bind_some, b1, Option.map_some, List.nil_append]
  · refine (b4 k).trans (((a4 k).append_right _).trans ?_)
    rw [List.append_assoc]
    refine List.Perm.append_left _ ?_
    have hnone : k ∉ mesh.doms.map (·.1) → els mesh.doms k = [] := fun hk => by
      refine els_none ?_
      cases hl : mesh.doms.lookup k with
      | none => rfl
      | some d => exact absurd (List.mem_map.2 ⟨_, mem_of_lookup hl, rfl⟩) hk
    by_cases hkb : k ∈ bnds
    · have hnd : k ∉ domainIds mesh.doms bnds := fun hh => ((hmd k).1 hh).2 hkb
      rw [if_neg hnd, if_pos hkb, List.nil_append]
      have : ((els mesh.doms k).filter fun e => !isDeleted del e) = (els mesh.doms k).filter fun e => !gone bnds del k e :=
        List.filter_congr fun e _ => by simp [gone, hkb]
      rw [this]
    · rw [if_neg hkb, List.append_nil]
      have : ((els mesh.doms k).filter fun e => !gone bnds del k e) = els mesh.doms k :=
        List.filter_eq_self.2 fun e _ => by simp [gone, hkb]
      rw [this]
      by_cases hkd : k ∈ mesh.doms.map (·.1)
      · rw [if_pos ((hmd k).2 ⟨hkd, hkb⟩)]
      · rw [if_neg (fun hh => hkd ((hmd k).1 hh).1), hnone hkd]; exact List.Perm.refl _
  · rw [b5, a5]
    by_cases hkb : k ∈ bnds
    · rw [if_pos hkb, if_pos hkb]
    · rw [if_neg hkb, if_neg hkb, hmd]
      simp [hkb]

end Verif.Merge
