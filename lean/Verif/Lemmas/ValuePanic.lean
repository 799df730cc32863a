import Verif.Lemmas.Value

/-! # Which panics deserialisation can end in -/

namespace Souris

variable {ε ε' α β : Type}

/-- Inside its buffer, a run of `p` panics only with the panics that `S` allows for the buffer's
length. -/
def Safe (S : Nat → Panic → Prop) (p : Parser ε α) : Prop :=
  ∀ c : Cursor UInt8, c.pos ≤ c.backing.length → ∀ r, p c = .panic r → S c.backing.length r

namespace Safe

variable {S : Nat → Panic → Prop}

theorem of_noPanic {p : Parser ε α} (h : ∀ r, NoPanic r p) : Safe S p :=
  fun c _ r e => absurd e (h r c)

theorem pure (x : α) : Safe S (Pure.pure x : Parser ε α) := of_noPanic (fun _ => NoPanic.pure x)

theorem bind {k : Nat} {p : Parser ε α} {f : α → Parser ε β} (ha : Adv k p) (hp : Safe S p)
    (hf : ∀ x, Safe S (f x)) : Safe S (p >>= f) := by
  intro c hc r e
  rw [Parser.bind_apply, Out.bind_eq_panic] at e
  rcases e with e | ⟨⟨x, c1⟩, e1, e2⟩
  · exact hp c hc r e
  · obtain ⟨h1, _, h3⟩ := ha c x c1 e1
    have := hf x c1 (by rw [h1]; exact h3 hc) r e2
    rwa [h1] at this

theorem mapErr {p : Parser ε α} (f : ε → ε') (h : Safe S p) : Safe S (p.mapErr f) := by
  intro c hc r e
  rw [Parser.mapErr_apply, Out.mapErr_eq_panic] at e
  exact h c hc r e

theorem lift {x : Out ε α} (h : ∀ r, x ≠ .panic r) : Safe S (Parser.lift x) :=
  of_noPanic (fun r => NoPanic.lift (h r))

theorem ite {P : Prop} [Decidable P] {p q : Parser ε α} (hp : P → Safe S p) (hq : ¬ P → Safe S q) :
    Safe S (if P then p else q) := by
  by_cases h : P
  · rw [if_pos h]; exact hp h
  · rw [if_neg h]; exact hq h

end Safe

/-! ## Bits -/

namespace Bits

theorem drain_noPanic (n : Nat) : ∀ (b : Bits) (acc : List Bool), b.backing.length = (b.valid + 7) / 8 →
    ∀ r, drain n b acc ≠ .panic r := by
  induction n with
  | zero => intro b acc _ r; simp [drain]
  | succ n ih =>
    intro b acc hb r
    unfold drain pop
    by_cases h0 : b.valid = 0
    · rw [if_pos h0]; simp
    · rw [if_neg h0]
      simp only
      by_cases h8 : (b.valid - 1) % 8 = 0
      · rw [if_pos h8]
        cases hl : b.backing.getLast? with
        | none =>
          rw [List.getLast?_eq_none_iff] at hl
          rw [hl] at hb
          simp only [List.length_nil] at hb
          omega
        | some x =>
          simp only
          refine ih _ _ ?_ r
          simp only [List.length_dropLast, hb]
          omega
      · rw [if_neg h8]
        have hlt : (b.valid - 1) / 8 < b.backing.length := by omega
        rw [List.getElem?_eq_getElem hlt]
        simp only
        refine ih _ _ ?_ r
        simp only [List.length_set, hb]
        omega

theorem roundF32_ge {n : Nat} (h : 2 ^ 24 ≤ n) : 2 ^ 24 ≤ roundF32 n := by
  unfold roundF32
  rw [if_neg (by omega)]
  simp only
  have hl : 24 ≤ Nat.log2 n := (Nat.le_log2 (by omega)).mpr h
  have hq : 2 ^ 23 ≤ n / 2 ^ (Nat.log2 n - 23) := by
    rw [Nat.le_div_iff_mul_le (by positivity), ← pow_add]
    have h1 : 23 + (Nat.log2 n - 23) = Nat.log2 n := by omega
    rw [h1]
    exact Nat.log2_self_le (by omega)
  have he : 2 ≤ 2 ^ (Nat.log2 n - 23) := by
    calc 2 = 2 ^ 1 := rfl
      _ ≤ _ := Nat.pow_le_pow_right (by decide) (by omega)
  have hm : ∀ q', 2 ^ 23 ≤ q' → 2 ^ 24 ≤ q' * 2 ^ (Nat.log2 n - 23) := by
    intro q' h'
    calc (2 : Nat) ^ 24 = 2 ^ 23 * 2 := by norm_num
      _ ≤ _ := Nat.mul_le_mul h' he
  split
  · exact hm _ (by omega)
  · exact hm _ hq

/-- Bits that were read from a buffer of less than 2 MiB have the right number of bytes. -/
theorem deser_backing {c c' : Cursor UInt8} {b : Bits} (hc : c.backing.length < 2 ^ 21)
    (hp : c.pos ≤ c.backing.length) (e : deser c = .ok (b, c')) :
    b.backing.length = (b.valid + 7) / 8 := by
  unfold deser at e
  rw [Parser.bind_apply, Out.bind_eq_ok] at e
  obtain ⟨⟨i, c1⟩, e1, e2⟩ := e
  obtain ⟨h1, h1', h1''⟩ := Integer.deser_adv _ c i c1 e1
  rw [Parser.bind_apply, Out.bind_eq_ok] at e2
  obtain ⟨⟨v, c2⟩, e2, e3⟩ := e2
  obtain ⟨h2, h2', h2''⟩ := Adv.lift _ c1 v c2 e2
  rw [Parser.bind_apply, Out.bind_eq_ok] at e3
  obtain ⟨⟨bs, c3⟩, e3, e4⟩ := e3
  change Parser.read _ (bytesToRead v) c2 = _ at e3
  obtain ⟨h3, h3', h3''⟩ := Adv.read _ _ c2 bs c3 e3
  simp only [Parser.pure_apply, Out.ok.injEq, Prod.mk.injEq] at e4
  rw [← e4.1]
  have hb2 : c2.backing = c.backing := h2.trans h1
  have hc2 : c2.pos ≤ c2.backing.length := by rw [h2]; apply h2''; rw [h1]; exact h1'' hp
  have hc3 := h3'' hc2
  have hlen : bs.length = bytesToRead v := by
    simp only [Parser.read, Cursor.read] at e3
    cases ha : checkedAdd c2.pos (bytesToRead v) with
    | none => rw [ha] at e3; cases e3
    | some stop =>
      rw [ha] at e3
      simp only at e3
      have hs : stop = c2.pos + bytesToRead v := by
        unfold checkedAdd at ha
        split at ha
        · simpa using ha.symm
        · cases ha
      by_cases hcc : stop > c2.backing.length
      · rw [if_pos hcc] at e3; cases e3
      · rw [if_neg hcc] at e3
        simp only [Out.ok.injEq, Prod.mk.injEq] at e3
        rw [← e3.1, Cursor.slice, List.length_take, List.length_drop]
        omega
  show bs.length = (v + 7) / 8
  rw [hlen]
  by_cases hv : v ≤ 2 ^ 24
  · rw [bytesToRead_small hv]
  · have := roundF32_ge (n := v) (by omega)
    have h4 : 2 ^ 21 ≤ bytesToRead v := by unfold bytesToRead; omega
    rw [hb2] at hc3
    omega

/-- `pop` panics only by these two. -/
theorem drain_panic (n : Nat) : ∀ (b : Bits) (acc : List Bool) (r : Panic), drain n b acc = .panic r →
    r = .index ∨ r = .unwrapNone := by
  induction n with
  | zero => intro b acc r h; simp [drain] at h
  | succ n ih =>
    intro b acc r h
    unfold drain pop at h
    by_cases h0 : b.valid = 0
    · rw [if_pos h0] at h; simp at h
    · rw [if_neg h0] at h
      simp only at h
      by_cases h8 : (b.valid - 1) % 8 = 0
      · rw [if_pos h8] at h
        cases hl : b.backing.getLast? with
        | none => rw [hl] at h; simp only [Out.panic.injEq] at h; exact .inr h.symm
        | some x => rw [hl] at h; exact ih _ _ _ h
      · rw [if_neg h8] at h
        cases hl : b.backing[(b.valid - 1) / 8]? with
        | none => rw [hl] at h; simp only [Out.panic.injEq] at h; exact .inl h.symm
        | some x => rw [hl] at h; exact ih _ _ _ h

end Bits

namespace Huffman

theorem decodeAux_panic {T : Type} [DecidableEq T] (root : Node T) (bs : List Bool) :
    ∀ (cur : Node T) (acc : List T) (r : Panic), decodeAux root cur acc bs = .panic r → r = .unreachable := by
  induction bs with
  | nil => intro cur acc r h; unfold decodeAux at h; split at h <;> simp at h
  | cons b bs ih =>
    intro cur acc r h
    cases cur with
    | leaf t => simp only [decodeAux, Out.panic.injEq] at h; exact h.symm
    | branch x y =>
      simp only [decodeAux] at h
      split at h
      · exact ih _ _ _ h
      · exact ih _ _ _ h

/-- Below a branch root decoding does not panic. -/
theorem decodeAux_branch {T : Type} [DecidableEq T] {l r : Node T} (bs : List Bool) :
    ∀ (x y : Node T) (acc : List T) (p : Panic),
      decodeAux (.branch l r) (.branch x y) acc bs ≠ .panic p := by
  induction bs with
  | nil => intro x y acc p h; unfold decodeAux at h; split at h <;> simp at h
  | cons b bs ih =>
    intro x y acc p h
    simp only [decodeAux] at h
    cases hn : (if b then x else y) with
    | leaf t => rw [hn] at h; exact ih _ _ _ _ h
    | branch x' y' => rw [hn] at h; exact ih _ _ _ _ h

end Huffman

/-! ## Binary data and values -/

/-- The panics that are possible when deserialising a value from `len` bytes. -/
inductive ValuePanic (lz : Lz) (len : Nat) : Panic → Prop
  | capacity : ValuePanic lz len .capacityOverflow
  | leafRoot : ValuePanic lz len .unreachable
  | bitsIndex (h : 2 ^ 21 ≤ len) : ValuePanic lz len .index
  | bitsEmpty (h : 2 ^ 21 ≤ len) : ValuePanic lz len .unwrapNone
  | lz {r : Panic} {b : List UInt8} {n : Nat} (h : lz.decompress b n = .panic r) : ValuePanic lz len r

/-- Bits followed by decoding. -/
theorem decode_safe {T : Type} [DecidableEq T] (lz : Lz) (h : Huffman T) (f : IntegerSerError → ε)
    (g : HuffmanSerError → ε) :
    Safe (ValuePanic lz) (Bits.deser.mapErr f >>= fun bits => (Parser.lift (h.decode bits)).mapErr g) := by
  intro c hc r e
  rw [Parser.bind_apply, Out.bind_eq_panic] at e
  rcases e with e | ⟨⟨bits, c1⟩, e1, e2⟩
  · exact absurd e ((Bits.deser_noPanic r).mapErr f c)
  · rw [Parser.mapErr_apply, Out.mapErr_eq_ok] at e1
    rw [Parser.mapErr_apply, Out.mapErr_eq_panic] at e2
    have e3 : h.decode bits = .panic r := by
      cases hd : h.decode bits <;> rw [hd] at e2 <;> simp at e2
      rw [e2]
    unfold Huffman.decode at e3
    rw [Out.bind_eq_panic] at e3
    rcases e3 with e3 | ⟨bools, _, e3⟩
    · rw [Out.mapErr_eq_panic] at e3
      by_cases hl : c.backing.length < 2 ^ 21
      · exact absurd e3 (Bits.drain_noPanic _ _ _ (Bits.deser_backing hl hc e1) r)
      · rcases Bits.drain_panic _ _ _ _ e3 with rfl | rfl
        · exact .bitsIndex (by omega)
        · exact .bitsEmpty (by omega)
    · rw [Huffman.decodeAux_panic _ _ _ _ _ e3]
      exact .leafRoot

namespace Binary

theorem usizeDeser_noPanic (r : Panic) : NoPanic r usizeDeser :=
  NoPanic.bind ((Integer.deser_noPanic _ _).mapErr _)
    (fun _ => (NoPanic.lift (Integer.toUnsigned_noPanic _ _ _)).mapErr _)

theorem deser_safe (z : Lz) (ct : BinaryCompression) : Safe (ValuePanic z) (deser z ct) := by
  cases ct with
  | nothing =>
    exact Safe.of_noPanic (fun r => NoPanic.bind (usizeDeser_noPanic r) (fun _ => NoPanic.read _ _))
  | runLengthEncoding =>
    exact Safe.of_noPanic (fun r => NoPanic.bind (usizeDeser_noPanic r) (fun _ =>
      NoPanic.ite (fun _ => NoPanic.pure _) (fun _ => NoPanic.bind (NoPanic.read _ _) (fun _ => NoPanic.pure _))))
  | lempelZiv =>
    refine Safe.bind usizeDeser_adv (Safe.of_noPanic usizeDeser_noPanic) (fun n => Safe.ite
      (fun _ => Safe.pure _) (fun _ => ?_))
    refine Safe.bind usizeDeser_adv (Safe.of_noPanic usizeDeser_noPanic) (fun m => ?_)
    refine Safe.bind (Adv.read _ _) (Safe.of_noPanic (fun r => NoPanic.read _ _)) (fun bs => ?_)
    refine Safe.mapErr _ ?_
    intro c _ r e
    cases hd : z.decompress bs n with
    | ok x => rw [hd] at e; simp at e
    | err x => rw [hd] at e; simp at e
    | panic q =>
      rw [hd] at e
      simp only [Parser.lift_panic, Out.panic.injEq] at e
      exact .lz (e ▸ hd)
  | huffman =>
    refine Safe.mapErr _ ?_
    unfold unHuffman
    refine Safe.bind (Adv.next _) (Safe.of_noPanic (fun _ => NoPanic.next _)) (fun first => ?_)
    refine Safe.ite (fun _ => Safe.pure _) (fun _ => Safe.ite (fun _ => ?_) (fun _ => ?_))
    · refine Safe.bind ((Integer.deser_adv _).mapErr _)
        (Safe.of_noPanic (fun r => (Integer.deser_noPanic _ r).mapErr _)) (fun i => ?_)
      refine Safe.bind ((Adv.lift _).mapErr _)
        (Safe.of_noPanic (fun r => (NoPanic.lift (Integer.toUnsigned_noPanic _ _ r)).mapErr _)) (fun n => ?_)
      refine Safe.bind (Adv.next _) (Safe.of_noPanic (fun _ => NoPanic.next _)) (fun el => ?_)
      intro c _ r e
      unfold vecRepeat at e
      split at e
      · simp at e
      · simp only [Parser.lift_panic, Out.panic.injEq] at e
        rw [← e]; exact .capacity
    · refine Safe.bind (Adv.bind0 Node.deser8_adv (fun _ => Adv.pure _)) ?_ (fun h => ?_)
      · exact Safe.bind Node.deser8_adv (fun c hc r e => absurd e (Node.deser8_noPanic c hc r))
          (fun _ => Safe.pure _)
      · have := decode_safe z h HuffmanSerError.integer id
        intro c hc r e
        refine this c hc r ?_
        rw [Parser.bind_apply, Out.bind_eq_panic] at e ⊢
        rcases e with e | ⟨⟨bits, c1⟩, e1, e2⟩
        · exact .inl e
        · refine .inr ⟨⟨bits, c1⟩, e1, ?_⟩
          rw [Parser.mapErr_apply, Out.mapErr_eq_panic]
          exact e2

end Binary

namespace Value

variable {lz : Lz}

theorem intP_noPanic (ss : SignedState) (r : Panic) : NoPanic r (intP ss) :=
  (Integer.deser_noPanic ss r).mapErr _

theorem uintP_noPanic (k : Nat) (r : Panic) : NoPanic r (uintP k) :=
  NoPanic.bind (intP_noPanic _ r) (fun _ => (NoPanic.lift (Integer.toUnsigned_noPanic _ _ r)).mapErr _)

theorem ofOption_noPanic {ε α : Type} (e : ε) (x : Option α) (r : Panic) : Out.ofOption e x ≠ .panic r := by
  cases x <;> simp [Out.ofOption]

theorem parseString_safe (h : Option (Huffman Char)) (byte : UInt8) :
    Safe (ValuePanic lz) (parseString h byte) := by
  unfold parseString
  refine Safe.ite (fun _ => ?_) (fun _ => ?_)
  · cases h with
    | none => exact Safe.of_noPanic (fun r => NoPanic.fail _)
    | some h => exact decode_safe lz h _ _
  · exact Safe.of_noPanic (fun r => NoPanic.bind (uintP_noPanic 8 r) (fun _ =>
      NoPanic.bind (NoPanic.read _ _) (fun _ => NoPanic.lift (ofOption_noPanic _ _ r))))

theorem signedOfU8_noPanic (b : UInt8) (r : Panic) : SignedState.ofU8 b ≠ .panic r := by
  unfold SignedState.ofU8; split_ifs <;> simp

theorem toSigned_noPanic (i : Integer) (k : Nat) (r : Panic) : i.toSigned k ≠ .panic r := by
  unfold Integer.toSigned; split_ifs <;> simp

theorem timestampP_noPanic (byte : UInt8) (r : Panic) : NoPanic r (timestampP byte) := by
  unfold timestampP
  refine NoPanic.bind ((NoPanic.lift (signedOfU8_noPanic _ r)).mapErr _) (fun ss => ?_)
  refine NoPanic.bind (intP_noPanic ss r) (fun yi => ?_)
  refine NoPanic.bind ((NoPanic.lift (toSigned_noPanic _ _ r)).mapErr _) (fun year => ?_)
  refine NoPanic.bind (uintP_noPanic 4 r) (fun month => ?_)
  refine NoPanic.bind (uintP_noPanic 4 r) (fun day => ?_)
  refine NoPanic.ite (fun _ => NoPanic.fail _) (fun _ => ?_)
  refine NoPanic.bind (uintP_noPanic 4 r) (fun _ => NoPanic.bind (uintP_noPanic 4 r) (fun _ =>
    NoPanic.bind (uintP_noPanic 4 r) (fun _ => NoPanic.bind (uintP_noPanic 4 r) (fun _ => ?_))))
  exact NoPanic.ite (fun _ => NoPanic.fail _) (fun _ => NoPanic.pure _)

theorem lenP_noPanic (byte : UInt8) (t : ValueTy) (r : Panic) : NoPanic r (lenP byte t) := by
  unfold lenP
  exact NoPanic.bind (NoPanic.lift (ValueTy.ofU8_noPanic _ r)) (fun ty => NoPanic.ite (fun _ =>
    NoPanic.ite (fun _ => uintP_noPanic 8 r) (fun _ => NoPanic.pure _)) (fun _ => NoPanic.fail _))

theorem charOf_noPanic (n : Nat) (r : Panic) : charOf n ≠ .panic r := by
  unfold charOf; split <;> simp

theorem ofByte_noPanic (b : UInt8) (r : Panic) : BinaryCompression.ofByte b ≠ .panic r := by
  unfold BinaryCompression.ofByte; split_ifs <;> simp

theorem parsePrimitive_safe (env : Env) (h : Option (Huffman Char)) :
    Safe (ValuePanic env.lz) (parsePrimitive env h) := by
  unfold parsePrimitive
  refine Safe.bind (Adv.next _) (Safe.of_noPanic (fun _ => NoPanic.next _)) (fun byte => ?_)
  refine Safe.bind (Adv.lift _) (Safe.lift (ValueTy.ofU8_noPanic _)) (fun ty => ?_)
  cases ty with
  | integer =>
    exact Safe.of_noPanic (fun r => NoPanic.bind ((NoPanic.lift (signedOfU8_noPanic _ r)).mapErr _)
      (fun ss => NoPanic.bind (intP_noPanic ss r) (fun _ => NoPanic.pure _)))
  | imaginary =>
    exact Safe.of_noPanic (fun r => NoPanic.bind ((Imaginary.deser_noPanic _ r).mapErr _)
      (fun _ => NoPanic.pure _))
  | character =>
    exact Safe.of_noPanic (fun r => NoPanic.bind (uintP_noPanic 4 r) (fun _ =>
      NoPanic.bind (NoPanic.lift (charOf_noPanic _ r)) (fun _ => NoPanic.pure _)))
  | timestamp =>
    exact Safe.of_noPanic (fun r => NoPanic.bind (timestampP_noPanic _ r) (fun _ => NoPanic.pure _))
  | string => exact Safe.bind (parseString_adv h byte) (parseString_safe h byte) (fun _ => Safe.pure _)
  | json => exact Safe.pure _
  | binary =>
    refine Safe.bind ((Adv.lift _).mapErr _) ((Safe.lift (ofByte_noPanic _)).mapErr _) (fun ct => ?_)
    exact Safe.bind ((Binary.deser_adv _ ct).mapErr _) ((Binary.deser_safe _ ct).mapErr _) (fun _ => Safe.pure _)
  | boolean => exact Safe.pure _
  | null => exact Safe.pure _
  | singleFloat => exact Safe.of_noPanic (fun r => NoPanic.bind (NoPanic.read _ _) (fun _ => NoPanic.pure _))
  | doubleFloat => exact Safe.of_noPanic (fun r => NoPanic.bind (NoPanic.read _ _) (fun _ => NoPanic.pure _))
  | map => exact Safe.of_noPanic (fun r => NoPanic.bind (lenP_noPanic _ _ r) (fun _ => NoPanic.pure _))
  | array => exact Safe.of_noPanic (fun r => NoPanic.bind (lenP_noPanic _ _ r) (fun _ => NoPanic.pure _))
  | timezone => exact Safe.pure _
  | ipv4Addr => exact Safe.of_noPanic (fun r => NoPanic.bind (NoPanic.read _ _) (fun _ => NoPanic.pure _))
  | ipv6Addr => exact Safe.of_noPanic (fun r => NoPanic.bind (NoPanic.read _ _) (fun _ => NoPanic.pure _))

theorem afterValue_noPanic (env : Env) (v : Value) (stack : List DState) (r : Panic) :
    afterValue env v stack ≠ .panic r := by
  intro h
  unfold afterValue at h
  repeat' split at h
  all_goals simp at h

theorem step_safe (env : Env) (h : Option (Huffman Char)) (st : DState) (stack : List DState) :
    Safe (ValuePanic env.lz) (step env h st stack) := by
  cases st with
  | valueNeeded =>
    simp only [step]
    refine Safe.bind (parsePrimitive_adv env h) (parsePrimitive_safe env h) (fun r => ?_)
    cases r with
    | value v => exact Safe.pure _
    | newArray len =>
      refine Safe.ite (fun _ => Safe.pure _) (fun _ => ?_)
      intro c _ r e
      simp only [Parser.crash_apply, Out.panic.injEq] at e
      rw [← e]; exact .capacity
    | newMap len byte =>
      refine Safe.ite (fun _ => Safe.pure _) (fun _ => ?_)
      intro c _ r e
      simp only [Parser.crash_apply, Out.panic.injEq] at e
      rw [← e]; exact .capacity
    | json => exact Safe.pure _
    | timezone => exact Safe.pure _
  | foundValue v => exact Safe.lift (afterValue_noPanic env v stack)
  | array soFar left => exact Safe.pure _
  | map soFar left byte => exact Safe.bind (parseString_adv h byte) (parseString_safe h byte) (fun _ => Safe.pure _)
  | foundKeyValue k v =>
    refine Safe.of_noPanic (fun r c e => ?_)
    simp only [step] at e
    split at e
    · split at e <;> simp at e
    · simp at e
  | foundKey k => exact Safe.of_noPanic (fun r => NoPanic.fail _)
  | jsonNeeded => exact Safe.of_noPanic (fun r => NoPanic.fail _)
  | timezoneNeeded => exact Safe.of_noPanic (fun r => NoPanic.fail _)

theorem Loops.safe {env : Env} {h : Option (Huffman Char)} {n : Nat} {stack : List DState}
    {c : Cursor UInt8} {o : Out ValueSerError (Value × Cursor UInt8)} (hl : Loops env h n stack c o)
    (hc : c.pos ≤ c.backing.length) {r : Panic} (ho : o = .panic r) :
    ValuePanic env.lz c.backing.length r := by
  induction hl with
  | empty c => cases ho
  | done e => cases ho
  | err e => cases ho
  | panic e =>
    simp only [Out.panic.injEq] at ho
    rw [← ho]
    exact step_safe env h _ _ _ hc _ e
  | more e hn ih =>
    obtain ⟨h1, h2, _⟩ := step_inv hc e
    have := ih h2 ho
    rwa [h1] at this

end Value

end Souris
