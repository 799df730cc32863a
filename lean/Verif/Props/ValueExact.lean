import Verif.Props.Value
import Verif.Props.ValueLoop
import Verif.Lemmas.Format

/-!
# C26 for each string and each piece of binary data

Text and binary data are lost only by the length of their codes, and exactly then.
-/

namespace Souris

open Value

namespace Value

/-- What `deser` makes of a value that is neither an array nor a map nor wrapped. -/
theorem deser_prim {env : Env} {h : Option (Huffman Char)} {c c' : Cursor UInt8} {v : Value}
    (hv : ∀ r c1, parsePrimitive env h c = .ok (r, c1) → ∃ w, r = .value w)
    (e : deser env h c = .ok (v, c')) : parsePrimitive env h c = .ok (.value v, c') := by
  have hs : ∀ stack, step env h .valueNeeded stack c = (parsePrimitive env h c).bind (fun p =>
      match p.1 with
      | .value w => .ok (.inr (.foundValue w :: stack), p.2)
      | _ => step env h .valueNeeded stack c) := by
    intro stack
    cases hp : parsePrimitive env h c with
    | err x => simp only [step, Parser.bind_apply, hp]; rfl
    | panic x => simp only [step, Parser.bind_apply, hp]; rfl
    | ok p =>
      obtain ⟨r, c1⟩ := p
      obtain ⟨w, rfl⟩ := hv r c1 hp
      simp only [step, Parser.bind_apply, hp]
      rfl
  cases hp : parsePrimitive env h c with
  | err x =>
    have := deser_of_loops (c := c) (o := .err x) (.err (env := env) (h := h) (stack := []) (by rw [hs, hp]; rfl))
    rw [e] at this
    cases this
  | panic x =>
    have := deser_of_loops (c := c) (o := .panic x) (.panic (env := env) (h := h) (stack := []) (by rw [hs, hp]; rfl))
    rw [e] at this
    cases this
  | ok p =>
    obtain ⟨r, c1⟩ := p
    obtain ⟨w, rfl⟩ := hv r c1 hp
    have h2 : Loops env h 1 [.foundValue w] c1 (.ok (w, c1)) := .done rfl
    have := deser_of_loops (c := c) (.more (env := env) (h := h) (stack := []) (by rw [hs, hp]; rfl) h2)
    rw [e] at this
    cases this
    rfl

/-- A value whose type byte is followed by what `body` reads. -/
theorem deser_body {env : Env} {h : Option (Huffman Char)} {t : ValueTy} {f : UInt8} (hf : f < 16) {bs : List UInt8}
    {v : Value} {c' : Cursor UInt8}
    (hv : ∀ c r c1, primBody env h (tyByte t f) t c = .ok (r, c1) → ∃ w, r = .value w)
    (e : deser env h (Cursor.new (tyByte t f :: bs)) = .ok (v, c')) :
    primBody env h (tyByte t f) t (Cursor.At [tyByte t f] bs) = .ok (.value v, c') := by
  have key : parsePrimitive env h (Cursor.new (tyByte t f :: bs)) =
      primBody env h (tyByte t f) t (Cursor.At [tyByte t f] bs) := by
    rw [parsePrimitive_eq, Parser.bind_apply]
    have : Parser.next ValueSerError.notEnoughBytes (Cursor.new (tyByte t f :: bs)) =
        .ok (tyByte t f, Cursor.At [tyByte t f] bs) := rfl
    rw [this]
    simp only [Out.ok_bind]
    rw [Parser.bind_apply, tyByte_ty t f hf, ValueTy.ofU8_toU8]
    rfl
  rw [← key]
  refine deser_prim (fun r c1 h1 => ?_) e
  rw [key] at h1
  exact hv _ _ _ h1

end Value

theorem Bits.deser_stops {n : Nat} (hn : n < 2 ^ 64) {pre rest : List UInt8} {bits : Bits} {c' : Cursor UInt8}
    (hlen : (pre ++ (Integer.ofUnsigned 8 n).ser.2 ++ rest).length < 2 ^ 64)
    (h : Bits.deser (Cursor.At pre ((Integer.ofUnsigned 8 n).ser.2 ++ rest)) = .ok (bits, c')) :
    c'.pos = pre.length + (Integer.ofUnsigned 8 n).ser.2.length + Bits.bytesToRead n := by
  have hpre := Bits.usize_reads' hn (k := fun n => (pure n : Parser IntegerSerError Nat)) (bs := []) (y := n) (Reads.pure _)
  rw [List.append_nil] at hpre
  have hrun := hpre pre rest (by simpa [usizeMod] using hlen)
  generalize Cursor.At pre ((Integer.ofUnsigned 8 n).ser.2 ++ rest) = c at hrun h
  rw [Parser.bind_apply, Out.bind_eq_ok] at hrun
  obtain ⟨⟨a1, c1⟩, r1, hrun⟩ := hrun
  simp only at hrun
  rw [Parser.bind_apply, Out.bind_eq_ok] at hrun
  obtain ⟨⟨a2, c2⟩, r2, hrun⟩ := hrun
  simp only [Parser.pure_apply, Out.ok.injEq, Prod.mk.injEq] at hrun
  obtain ⟨rfl, hc2⟩ := hrun
  unfold Bits.deser at h
  rw [Parser.bind_apply, r1] at h
  simp only [Out.ok_bind] at h
  rw [Parser.bind_apply, r2] at h
  simp only [Out.ok_bind] at h
  rw [Parser.bind_apply, Out.bind_eq_ok] at h
  obtain ⟨⟨bk, c6⟩, r6, h⟩ := h
  simp only [Parser.pure_apply, Out.ok.injEq, Prod.mk.injEq] at h
  rw [← h.2, Parser.read_pos r6, hc2]
  simp [Cursor.At]

/-- C26 for each text (whose code has up to an exbibyte), alone: coded by a coder with at least two symbols,
it comes back if and only if its code has a length that C15 tells. -/
theorem C26_string_exact {env : Env} {l r : Node Char} {s : List Char} {bits : Bits}
    (eb : (Huffman.ofRoot (.branch l r)).encode s = .ok bits) (hl : bits.len ≤ 2 ^ 60) (hu : (utf8 s).length < 2 ^ 64) :
    ∃ bytes, ser env (some (Huffman.ofRoot (.branch l r))) (.string s) = .ok bytes ∧
      (Inverts (deser env (some (Huffman.ofRoot (.branch l r)))) bytes (.string s) ↔ KeptLength bits.len) := by
  have hall : ∀ x ∈ s, x ∈ (Node.branch l r).leaves := by
    by_contra hc
    push Not at hc
    rw [Huffman.encode_err _ hc] at eb
    cases eb
  obtain ⟨cs, hcs⟩ := Huffman.exists_codes _ s hall
  have he := Huffman.encode_ok _ hcs
  rw [he] at eb
  cases eb
  have hl : cs.flatten.length ≤ 2 ^ 60 := hl
  have es : ser env (some (Huffman.ofRoot (.branch l r))) (.string s) =
      .ok (tyByte .string 1 :: ((Integer.ofUnsigned 8 cs.flatten.length).ser.2 ++ Bits.pack cs.flatten)) := by
    simp only [ser, serString, he, Bits.ser, Bits.properBytes_ofList, Out.ok_bind]
    rfl
  refine ⟨_, es, fun hinv => ?_, fun hk => ?_⟩
  · have hw : Width 8 := by unfold Width; decide
    have hu8 : IsUnsigned 8 cs.flatten.length := by unfold IsUnsigned; omega
    have h9 : (Integer.ofUnsigned 8 cs.flatten.length).ser.2.length ≤ 9 := (C07_size_le hw).1 _ hu8
    have hlen : ([tyByte .string 1] ++ (Integer.ofUnsigned 8 cs.flatten.length).ser.2 ++
        Bits.pack cs.flatten).length < 2 ^ 64 := by
      simp only [List.length_cons, List.length_append, List.length_nil, Bits.pack_length]
      omega
    have h0 := hinv [] [] (by simpa using hlen)
    simp only [List.nil_append, List.append_nil, List.length_nil] at h0
    have hbody : ∀ c x c1, primBody env (some (Huffman.ofRoot (.branch l r))) (tyByte .string 1) .string c = .ok (x, c1) →
        ∃ y b, x = .value (.string y) ∧ Bits.deser c = .ok (b, c1) := by
      intro c x c1 hp
      simp only [primBody] at hp
      rw [Parser.bind_apply, Out.bind_eq_ok] at hp
      obtain ⟨⟨y, c2⟩, h1, h2⟩ := hp
      simp only [Parser.pure_apply, Out.ok.injEq, Prod.mk.injEq] at h2
      unfold parseString at h1
      rw [if_pos (by decide)] at h1
      simp only at h1
      rw [Parser.bind_apply, Out.bind_eq_ok] at h1
      obtain ⟨⟨b, c3⟩, h3, h4⟩ := h1
      rw [Parser.mapErr_apply, Out.mapErr_eq_ok] at h3
      rw [Parser.mapErr_apply, Out.mapErr_eq_ok] at h4
      have hc : c2 = c3 := by
        unfold Parser.lift at h4
        dsimp only at h4
        split at h4
        · simp only [Out.ok.injEq, Prod.mk.injEq] at h4; exact h4.2.symm
        · cases h4
        · cases h4
      refine ⟨y, b, h2.1.symm, ?_⟩
      rw [← h2.2, hc]
      exact h3
    have h1 := deser_body (by decide) (fun c x c1 hp => by
      obtain ⟨y, _, hy, _⟩ := hbody c x c1 hp
      exact ⟨_, hy⟩) h0
    obtain ⟨y, b, _, hy⟩ := hbody _ _ _ h1
    have h3 := Bits.deser_stops (by omega) hlen hy
    simp only [List.length_nil, List.length_cons, List.length_append, Bits.pack_length] at h3
    refine (keptLength_iff (show cs.flatten.length < 2 ^ 64 by omega)).mpr ?_
    omega
  · have hst : StringStorable (some (Huffman.ofRoot (.branch l r))) s := by
      refine ⟨hu, fun coder hc => ?_⟩
      cases hc
      refine ⟨⟨l, r, rfl⟩, fun b hb => ?_⟩
      rw [he] at hb
      cases hb
      exact hk
    obtain ⟨bytes, e, hr⟩ := serString_reads hst env
    have : ser env (some (Huffman.ofRoot (.branch l r))) (.string s) = .ok bytes := by simp only [ser, e]
    rw [es] at this
    cases this
    exact inverts_of_parsed (parsed_value hr)

/-- C26 for each piece of binary data (up to an exbibyte), alone: it comes back if and only if it is kept,
that is unless it is stored under a tree with a code of one of the lengths that C15 tells. -/
theorem C26_binary_exact {env : Env} (h : Option (Huffman Char)) (hlz : env.lz.Lossless)
    (hord : HashOrder env.byteOrd) (b : List UInt8) (hb : b.length ≤ 2 ^ 60) :
    ∃ bytes, ser env h (.binary b) = .ok bytes ∧ (Inverts (deser env h) bytes (.binary b) ↔ BinaryKept env b) := by
  obtain ⟨ct, x, ex, _⟩ := C25_exact env.lz hlz hord b hb
  have es : ser env h (.binary b) = .ok (tyByte .binary ct.toByte :: x) := by simp only [ser, ex]; rfl
  refine ⟨_, es, fun hinv => ⟨hb, fun h2 hx coder bits en => ?_⟩, fun hk => ?_⟩
  · have hct : ct = .huffman := by
      obtain ⟨y, ey⟩ := hx
      rw [ex] at ey
      cases ey
      rfl
    subst hct
    obtain ⟨root, cs, _, hnd, hmem, _, hn, hh⟩ := Binary.huffman_two hord b h2
    rw [hn] at en
    cases en
    obtain ⟨c2, b2, s2, o2, _⟩ := Binary.ser_spec env.lz hh
    rw [ex] at s2
    cases s2
    simp only [Prod.mk.injEq, reduceCtorEq, false_and, true_and, false_or] at o2
    subst o2
    have hne : b ≠ [] := by
      obtain ⟨z, hz, _⟩ := h2
      exact List.ne_nil_of_mem hz
    obtain ⟨h', bits', e', hle⟩ := C24_no_longer hord b hne
    rw [hn] at e'
    simp only [Out.ok.injEq, Prod.mk.injEq] at e'
    rw [← e'.2] at hle
    have hle : cs.flatten.length ≤ 8 * b.length := hle
    have htree : root.ser8.length ≤ 3 * b.length := by
      have h1 := Binary.ser8_length root
      have h2 : root.leaves.length ≤ b.length := (hnd.subperm hmem).length_le
      omega
    have hw : Width 8 := by unfold Width; decide
    have hu : IsUnsigned 8 cs.flatten.length := by unfold IsUnsigned; omega
    have h9 : (Binary.usizeSer cs.flatten.length).length ≤ 9 := (C07_size_le hw).1 _ hu
    have hlen : ([tyByte .binary BinaryCompression.huffman.toByte] ++
        2 :: (root.ser8 ++ (Binary.usizeSer cs.flatten.length ++ Bits.pack cs.flatten))).length < 2 ^ 64 := by
      simp only [List.length_cons, List.length_append, List.length_nil, Bits.pack_length]
      omega
    have h0 := hinv [] [] (by simpa using hlen)
    simp only [List.nil_append, List.append_nil, List.length_nil] at h0
    have hbody : ∀ c r c1, primBody env h (tyByte .binary BinaryCompression.huffman.toByte) .binary c = .ok (r, c1) →
        ∃ y, r = .value (.binary y) ∧ Binary.unHuffman c = .ok (y, c1) := by
      intro c r c1 hp
      simp only [primBody] at hp
      rw [Parser.bind_apply, tyByte_and15 _ _ (by decide)] at hp
      have hof : BinaryCompression.ofByte BinaryCompression.huffman.toByte = .ok .huffman := rfl
      rw [hof] at hp
      simp only [Parser.mapErr_apply, Parser.lift_ok, Out.mapErr, Out.ok_bind] at hp
      rw [Parser.bind_apply, Out.bind_eq_ok] at hp
      obtain ⟨⟨y, c2⟩, h1, h2⟩ := hp
      simp only [Parser.pure_apply, Out.ok.injEq, Prod.mk.injEq] at h2
      rw [Parser.mapErr_apply, Out.mapErr_eq_ok] at h1
      simp only [Binary.deser] at h1
      rw [Parser.mapErr_apply, Out.mapErr_eq_ok] at h1
      exact ⟨y, h2.1.symm, by rw [← h2.2]; exact h1⟩
    have h1 := deser_body (by decide) (fun c r c1 hp => by
      obtain ⟨y, hy, _⟩ := hbody c r c1 hp
      exact ⟨_, hy⟩) h0
    obtain ⟨y, _, hy⟩ := hbody _ _ _ h1
    have h3 := huffman_two_stops (by omega) hlen hy
    simp only [List.length_nil, List.length_cons, List.length_append, Bits.pack_length] at h3
    refine (keptLength_iff (show cs.flatten.length < 2 ^ 64 by omega)).mpr ?_
    omega
  · obtain ⟨bytes, v', e, hs, hi⟩ := C26_roundtrip_partial (h := h) hlz hord (.binary hk)
    rw [es] at e
    cases e
    cases hs
    exact hi

theorem KeptLength.not_short : ¬ KeptLength (2 ^ 24 + 1) := by
  rw [keptLength_iff (by norm_num)]
  have : Bits.bytesToRead (2 ^ 24 + 1) = 2097152 := by decide +kernel
  rw [this]
  decide

/-- C26 is violated by every text of `2^24 + 1` letters under a coder with exactly these two letters: its bytes do
not give the text back and stop behind it. -/
theorem C26_refuted_long_text (env : Env) {x y : Char} (s : List Char) (hs : ∀ z ∈ s, z = x ∨ z = y)
    (hl : s.length = 2 ^ 24 + 1) :
    ∃ bytes, ser env (some (Huffman.ofRoot (.branch (.leaf x) (.leaf y)))) (.string s) = .ok bytes ∧
      ¬ Inverts (deser env (some (Huffman.ofRoot (.branch (.leaf x) (.leaf y))))) bytes (.string s) := by
  obtain ⟨cs, hcs⟩ := Huffman.exists_codes (.branch (.leaf x) (.leaf y)) s (by simpa [Node.leaves] using hs)
  have h1 : ∀ c ∈ cs, c.length = 1 := by
    intro c hc
    have : some c ∈ s.map (Huffman.codeOf (.branch (.leaf x) (.leaf y))) := by
      rw [hcs]
      exact List.mem_map_of_mem hc
    obtain ⟨z, _, hz⟩ := List.mem_map.mp this
    simp only [Huffman.codeOf] at hz
    split_ifs at hz <;> simp_all <;> subst hz <;> rfl
  have hlen : cs.flatten.length = 2 ^ 24 + 1 := by
    have h2 : cs.length = 2 ^ 24 + 1 := by
      have := congrArg List.length hcs
      simpa [hl] using this.symm
    rw [List.length_flatten, List.map_congr_left (g := fun _ => 1) h1, List.map_const', List.sum_replicate, h2]
    rfl
  have hu : (utf8 s).length < 2 ^ 64 := by
    have := Fixed.utf8_length s
    omega
  obtain ⟨bytes, e, hi⟩ := C26_string_exact (env := env) (Huffman.encode_ok _ hcs)
    (show cs.flatten.length ≤ 2 ^ 60 by omega) hu
  refine ⟨bytes, e, fun hinv => KeptLength.not_short ?_⟩
  have := hi.mp hinv
  rwa [show (Bits.ofList cs.flatten).len = 2 ^ 24 + 1 from hlen] at this

example : ∃ s : List Char, (∀ z ∈ s, z = 'a' ∨ z = 'b') ∧ s.length = 2 ^ 24 + 1 :=
  ⟨List.replicate (2 ^ 24 + 1) 'b', fun _ hz => .inr (List.eq_of_mem_replicate hz), List.length_replicate⟩

/-- A text whose code is one of the many lengths above 2 MiB that are kept. -/
example : KeptLength (2 ^ 24 + 3) :=
  (keptLength_iff (by norm_num)).mpr (by decide +kernel)

/-- Binary data that comes back. -/
example : BinaryKept sampleEnv [1, 2, 1, 3] := binaryKept_small (fun l => .refl l) (by decide)

end Souris
