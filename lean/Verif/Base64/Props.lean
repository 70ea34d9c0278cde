import Verif.Base64.Lemmas
import Verif.Base64.VtkField
import Verif.Common.ParWrite

/-! # Properties C01-C03: base64 and VTK field encoding -/
namespace Verif.Base64

/-- **C01**: for every buffer, build variant and alignment, encoding succeeds (no table
access out of range) and an RFC 4648 decoder recovers the buffer. -/
theorem C01_base64_roundtrip (avx align1 : Bool) (toAligned : Nat) (data : List Byte) :
    ∃ text, encode avx align1 toAligned data = some text ∧ Spec.decode text = some data :=
  ⟨enc data, encode_eq_enc _ _ _ _, decode_enc data⟩

/-- **C01**: the number of characters written is exactly the announced size, for a buffer of
`size` elements of `sizeofT` bytes. -/
theorem C01_base64_size (avx align1 : Bool) (toAligned sizeofT size : Nat) (data : List Byte)
    (h : data.length = size * sizeofT) :
    ∃ text, encode avx align1 toAligned data = some text ∧
      text.length = encodingSize sizeofT size := by
  refine ⟨enc data, encode_eq_enc _ _ _ _, ?_⟩
  rw [enc_length, h]; rfl

/-- **C01**: only alphabet characters and at most two trailing `=` are written. -/
theorem C01_base64_alphabet (avx align1 : Bool) (toAligned : Nat) (data : List Byte) :
    ∃ body pads, encode avx align1 toAligned data = some (body ++ pads) ∧
      (∀ c ∈ body, (Spec.value c).isSome) ∧ (∀ c ∈ pads, c.toNat = 61) ∧ pads.length ≤ 2 ∧
      (body ++ pads).length % 4 = 0 := by
  rw [encode_eq_enc]
  suffices h : ∃ body pads, enc data = body ++ pads ∧
      (∀ c ∈ body, (Spec.value c).isSome) ∧ (∀ c ∈ pads, c.toNat = 61) ∧ pads.length ≤ 2 ∧
      (body ++ pads).length % 4 = 0 by
    obtain ⟨b, p, h, h'⟩ := h
    exact ⟨b, p, by rw [h], h'⟩
  induction data using enc.induct with
  | case1 b0 b1 b2 rest ih =>
    obtain ⟨body, pads, e, hb, hp, hl, hm⟩ := ih
    have h0 : b0.toNat < 256 := b0.isLt
    have h1 : b1.toNat < 256 := b1.isLt
    have h2 : b2.toNat < 256 := b2.isLt
    refine ⟨tri b0 b1 b2 ++ body, pads, by rw [enc, e, List.append_assoc], ?_, hp, hl, ?_⟩
    · intro c hc
      rcases List.mem_append.1 hc with hc | hc
      · simp only [tri, List.mem_cons, List.not_mem_nil, or_false] at hc
        rcases hc with rfl | rfl | rfl | rfl <;> rw [value_tab _ (by omega)] <;> rfl
      · exact hb c hc
    · simp only [List.length_append, tri, List.length_cons, List.length_nil] at hm ⊢; omega
  | case2 b0 b1 =>
    have h0 : b0.toNat < 256 := b0.isLt
    have h1 : b1.toNat < 256 := b1.isLt
    refine ⟨[_, _, _], [pad], rfl, ?_, by simp [pad], by simp, by simp⟩
    intro c hc
    simp only [List.mem_cons, List.not_mem_nil, or_false] at hc
    rcases hc with rfl | rfl | rfl <;> rw [value_tab _ (by omega)] <;> rfl
  | case3 b0 =>
    have h0 : b0.toNat < 256 := b0.isLt
    refine ⟨[_, _], [pad, pad], rfl, ?_, by simp [pad], by simp, by simp⟩
    intro c hc
    simp only [List.mem_cons, List.not_mem_nil, or_false] at hc
    rcases hc with rfl | rfl <;> rw [value_tab _ (by omega)] <;> rfl
  | case4 => exact ⟨[], [], rfl, by simp, by simp, by simp, rfl⟩

-- 25 bytes exercise the vector block, and the padded remainder: "hello, base64, h\xffllo!.."
example : (encode true true 1 (List.replicate 25 0xa5#8)).isSome = true := by decide +kernel
example : encode false false 0 [0x4d#8, 0x61#8, 0x6e#8] = some [0x54#8, 0x57#8, 0x46#8, 0x75#8] := by
  decide +kernel
example : encodingSize 8 3 = 32 ∧ encodingSize 1 4 = 8 := by decide

/-- **C02**: the text does not depend on the build variant, on the element alignment or on
the buffer address. -/
theorem C02_base64_path_independent (avx avx' align1 align1' : Bool) (m m' : Nat) (data : List Byte) :
    encode avx align1 m data = encode avx' align1' m' data := by
  rw [encode_eq_enc, encode_eq_enc]

/-- **C02**: the parallel loop over 24-byte blocks writes the same text for every completion
order of the blocks: each order of the slice writes into the 32-character slices yields the
sequential result. -/
theorem C02_block_order_irrelevant (data : List Byte) (buf : List Byte) (sched : List Nat)
    (hb : buf.length = 32 * (data.length / 24)) (hs : ∀ k, k ∈ sched ↔ k < data.length / 24) :
    runSlices 32 (fun k => simdBlock ((data.drop (24 * k)).take 24)) buf sched =
      (encSimdAvx data).2 := by
  have hlen : ∀ k, k < data.length / 24 → (simdBlock ((data.drop (24 * k)).take 24)).length = 32 := by
    intro k hk
    have : ((data.drop (24 * k)).take 24).length = 24 := by simp; omega
    rw [simdBlock_eq _ this, enc_length, this]; rfl
  exact runSlices_eq_flatMap 32 _ (by decide) _ hlen buf hb sched hs

example : ∀ k, k ∈ [1, 0] ↔ k < (List.replicate 50 0x41#8).length / 24 := by
  simp only [List.length_replicate, List.mem_cons, List.not_mem_nil, or_false]; omega

/-- **C02**, side finding: the alignment pass does not do what its comment promises.  For a
buffer one or two bytes before a 4-byte boundary the bytes consumed by the pass leave the
vector loop on a misaligned address (only the output is unaffected). -/
theorem C02_alignment_pass_violated :
    ∃ toAligned < 4, ∃ data : List Byte, ∃ n out,
      alignForSimd toAligned data = some (n, out) ∧ 0 < n ∧ (n + (4 - toAligned)) % 4 ≠ 0 :=
  ⟨1, by decide, List.replicate 40 0#8, 3, [65#8, 65#8, 65#8, 65#8], by decide +kernel, by decide,
    by decide⟩

theorem valBytes_length (vs : List Val) : (valBytes vs).length = 8 * vs.length := by
  induction vs with
  | nil => rfl
  | cons v vs ih =>
    have : valBytes (v :: vs) = leBytes 8 v.toNat ++ valBytes vs := rfl
    rw [this, List.length_append, leBytes_length, ih, List.length_cons]; omega

theorem valBytes_append (a b : List Val) : valBytes (a ++ b) = valBytes a ++ valBytes b := by
  simp [valBytes]

/-- **C03** (scalar field): the text written decodes to the 8-byte size header followed by all
values, and it fills the allocated buffer exactly. -/
theorem C03_scalar_field (avx : Bool) (vals : List Val) :
    ∃ text, encodeScalarField avx vals = some (text.length, text) ∧
      Spec.decode text =
        some (leBytes 8 (8 * vals.length % 2 ^ 64) ++ vals.flatMap fun v => leBytes 8 v.toNat) := by
  have key : enc (valBytes ((BitVec.ofNat 64 (8 * vals.length) :: (vals ++ [0#64, 0#64]).take 2).take
      (vals.length + 1))) ++ enc (valBytes (vals.drop 2)) =
      enc (valBytes (BitVec.ofNat 64 (8 * vals.length) :: vals)) := by
    match vals with
    | [] => simp [valBytes, enc]
    | [a] => simp [valBytes, enc]
    | a :: b :: rest =>
      rw [← enc_append]
      · congr 1
        simp only [List.cons_append, List.take_succ_cons, List.take_zero, List.drop_succ_cons,
          List.drop_zero, List.take_nil]
        simp [valBytes]
      · simp [valBytes_length]
  refine ⟨enc (valBytes (BitVec.ofNat 64 (8 * vals.length) :: vals)), ?_, ?_⟩
  · simp only [encodeScalarField, encode_eq_enc, Option.bind_eq_bind, Option.bind_some]
    rw [key, enc_length, valBytes_length, List.length_cons]
    simp only [encodingSize]
    rw [Nat.mul_comm (vals.length + 1) 8]; rfl
  · rw [decode_enc]
    simp [valBytes, BitVec.toNat_ofNat]

example : (encodeScalarField true [1#64]).isSome ∧ (encodeScalarField true []).isSome ∧
    (encodeScalarField false [1#64, 2#64, 3#64]).isSome := by decide +kernel

/-- **C03** (vector field with 2 or 3 components of equal length): the text decodes to the
header and the node-interleaved values, 2D values padded with zero. -/
theorem C03_vector_field (avx : Bool) (n : Nat) (fields : List (List Val))
    (hk : fields.length = 2 ∨ fields.length = 3) (hn : ∀ f ∈ fields, f.length = n) :
    ∃ text, encodeVectorField avx fields = some (text.length, text) ∧
      Spec.decode text =
        some (leBytes 8 (24 * n % 2 ^ 64) ++ (List.range n).flatMap fun node =>
          (List.range 3).flatMap fun c =>
            leBytes 8 (((fields.getD c (List.replicate n 0#64)).getD node 0#64).toNat)) := by
  have hnode : ∀ node < n, nodeVals fields node =
      some ((List.range 3).map fun c => (fields.getD c (List.replicate n 0#64)).getD node 0#64) := by
    intro node hnode
    have hget : ∀ f ∈ fields, f[node]? = some (f.getD node 0#64) := by
      intro f hf
      have : node < f.length := by rw [hn f hf]; exact hnode
      rw [List.getElem?_eq_getElem this, List.getD_eq_getElem?_getD, List.getElem?_eq_getElem this]; rfl
    rcases hk with hk | hk
    · match fields, hk with
      | [f, g], _ =>
        simp only [nodeVals, List.mapM_cons, List.mapM_nil, hget f (by simp), hget g (by simp)]
        simp [List.range_succ, hnode]
    · match fields, hk with
      | [f, g, h], _ =>
        simp only [nodeVals, List.mapM_cons, List.mapM_nil, hget f (by simp), hget g (by simp),
          hget h (by simp)]
        simp [List.range_succ]
  have hmap : ∀ l : List Nat, (∀ k ∈ l, k < n) → l.mapM (nodeVals fields) =
      some (l.map fun node => (List.range 3).map fun c =>
        (fields.getD c (List.replicate n 0#64)).getD node 0#64) := by
    intro l
    induction l with
    | nil => intro _; rfl
    | cons k ks ih =>
      intro hks
      rw [List.mapM_cons, hnode k (hks k (by simp)), ih (fun k' h' => hks k' (by simp [h']))]; rfl
  have hfirst : ∃ f, fields.head? = some f ∧ f.length = n := by
    rcases hk with hk | hk <;> match fields, hk with
    | f :: _, _ => exact ⟨f, rfl, hn f (by simp)⟩
  obtain ⟨f, hf, hfl⟩ := hfirst
  refine ⟨enc (valBytes (BitVec.ofNat 64 (8 * (3 * n)) :: ((List.range n).map fun node =>
    (List.range 3).map fun c => (fields.getD c (List.replicate n 0#64)).getD node 0#64).flatten)), ?_, ?_⟩
  · simp only [encodeVectorField, hf, hfl, Option.bind_eq_bind, Option.bind_some,
      hmap (List.range n) (by simp), encode_eq_enc]
    rw [enc_length, valBytes_length, List.length_cons, List.length_flatten, List.map_map]
    have hsum : (List.map (List.length ∘ fun node => List.map (fun c =>
        (fields.getD c (List.replicate n 0#64)).getD node 0#64) (List.range 3)) (List.range n)).sum =
        3 * n := by
      have : (List.length ∘ fun node => List.map (fun c =>
        (fields.getD c (List.replicate n 0#64)).getD node 0#64) (List.range 3)) = fun _ => 3 := by
        funext; simp
      rw [this, List.map_const', List.sum_replicate_nat, List.length_range, Nat.mul_comm]
    rw [hsum]
    simp only [encodingSize, Nat.mul_comm (3 * n + 1) 8]; rfl
  · rw [decode_enc]
    simp only [valBytes, List.flatMap_cons, BitVec.toNat_ofNat]
    rw [show 8 * (3 * n) = 24 * n by omega]
    simp only [List.flatMap_def, List.map_flatten, List.map_map, List.flatten_flatten]
    rfl

example : (encodeVectorField true [[1#64, 2#64], [3#64, 4#64]]).isSome = true := by decide +kernel
-- components of different length: undefined behaviour is reported, not hidden
example : encodeVectorField true [[1#64, 2#64], [3#64]] = none := by decide +kernel

end Verif.Base64
