import Verif.Spec.Cut
import Verif.Lemmas.Parser
import Verif.Props.ValueLoop

/-! # What more bytes at the end change about the outcome of a parser -/

namespace Souris

variable {ε ε' α β : Type}

/-- What `q` does with more bytes at the end compared to what `p` does without them: the same, unless `p` fails with one of the
errors `S`, and then `q` does not succeed before it has passed the end of what `p` was given, or `p` panics in one of the
ways `P`. -/
def Streams (S : ε → Prop) (P : Panic → Prop) (p q : Parser ε α) : Prop :=
  Adv 0 q ∧ ∀ (b tail : List UInt8) (i : Nat), i ≤ b.length →
    match p ⟨b, i⟩ with
    | .ok (x, c) => c.backing = b ∧ i ≤ c.pos ∧ c.pos ≤ b.length ∧ q ⟨b ++ tail, i⟩ = .ok (x, ⟨b ++ tail, c.pos⟩)
    | .err e => (S e ∧ ∀ x c, q ⟨b ++ tail, i⟩ = .ok (x, c) → b.length < c.pos) ∨ q ⟨b ++ tail, i⟩ = .err e
    | .panic r => P r ∨ q ⟨b ++ tail, i⟩ = .panic r

namespace Streams

variable {S : ε → Prop} {P : Panic → Prop}

theorem ret (x : α) : Streams S P (pure x : Parser ε α) (pure x) :=
  ⟨Adv.pure x, fun _ _ _ hi => ⟨rfl, le_refl _, hi, rfl⟩⟩

theorem fail (e : ε) : Streams S P (Parser.fail e : Parser ε α) (Parser.fail e) :=
  ⟨Adv.fail 0 e, fun _ _ _ _ => .inr rfl⟩

theorem crash (r : Panic) : Streams S P (Parser.crash r : Parser ε α) (Parser.crash r) :=
  ⟨Adv.crash 0 r, fun _ _ _ _ => .inr rfl⟩

theorem lift (o : Out ε α) : Streams S P (Parser.lift o) (Parser.lift o) := by
  cases o with
  | ok x => exact ret x
  | err e => exact fail e
  | panic r => exact crash r

theorem mapErr {S' : ε' → Prop} {p q : Parser ε α} (f : ε → ε') (h : Streams S P p q) (hS : ∀ e, S e → S' (f e)) :
    Streams S' P (p.mapErr f) (q.mapErr f) := by
  refine ⟨h.1.mapErr f, fun b tail i hi => ?_⟩
  have := h.2 b tail i hi
  simp only [Parser.mapErr_apply]
  cases e : p ⟨b, i⟩ with
  | ok y =>
    rw [e] at this
    obtain ⟨h1, h2, h3, h4⟩ := this
    simp only [Out.mapErr]
    exact ⟨h1, h2, h3, by rw [h4]⟩
  | err y =>
    rw [e] at this
    rcases this with h | h
    · exact .inl ⟨hS _ h.1, fun x c hx => h.2 x c (Out.mapErr_eq_ok.mp hx)⟩
    · exact .inr (by rw [h]; rfl)
  | panic r =>
    rw [e] at this
    rcases this with h | h
    · exact .inl h
    · exact .inr (by rw [h]; rfl)

theorem bind {p q : Parser ε α} {f g : α → Parser ε β} (hp : Streams S P p q) (hf : ∀ x, Streams S P (f x) (g x)) :
    Streams S P (p >>= f) (q >>= g) := by
  refine ⟨hp.1.bind0 fun x => (hf x).1, fun b tail i hi => ?_⟩
  have := hp.2 b tail i hi
  simp only [Parser.bind_apply]
  cases e : p ⟨b, i⟩ with
  | ok y =>
    obtain ⟨x, b', j⟩ := y
    rw [e] at this
    obtain ⟨h1, h2, h3, h4⟩ := this
    simp only at h1 h2 h3 h4
    subst h1
    rw [h4]
    simp only [Out.ok_bind]
    have := (hf x).2 b' tail j h3
    cases e' : f x ⟨b', j⟩ with
    | ok z =>
      rw [e'] at this
      obtain ⟨g1, g2, g3, g4⟩ := this
      exact ⟨g1, by omega, g3, g4⟩
    | err z => rw [e'] at this; exact this
    | panic r => rw [e'] at this; exact this
  | err y =>
    rw [e] at this
    rcases this with h | h
    · refine .inl ⟨h.1, fun x c hx => ?_⟩
      rw [Out.bind_eq_ok] at hx
      obtain ⟨⟨y, c1⟩, e1, e2⟩ := hx
      have h1 := h.2 y c1 e1
      have h2 := ((hf y).1 c1 x c e2).2.1
      omega
    · exact .inr (by rw [h]; rfl)
  | panic r =>
    rw [e] at this
    rcases this with h | h
    · exact .inl h
    · exact .inr (by rw [h]; rfl)

theorem ite {c : Prop} [Decidable c] {p q p' q' : Parser ε α} (h : c → Streams S P p q) (h' : ¬ c → Streams S P p' q') :
    Streams S P (if c then p else p') (if c then q else q') := by
  split
  · exact h ‹_›
  · exact h' ‹_›

theorem next {e : ε} (he : S e) : Streams S P (Parser.next e) (Parser.next e) := by
  refine ⟨(Adv.next e).mono (Nat.zero_le _), fun b tail i hi => ?_⟩
  by_cases hc : i ≥ b.length
  · have hp : Parser.next e ⟨b, i⟩ = .err e := by simp only [Parser.next, Cursor.next, if_pos hc]
    rw [hp]
    refine .inl ⟨he, fun x c hx => ?_⟩
    have := (Adv.next e _ x c hx).2.1
    simp only at this
    omega
  · have h1 : i < b.length := by omega
    have h2 : ¬ i ≥ (b ++ tail).length := by rw [List.length_append]; omega
    simp only [Parser.next, Cursor.next, if_neg hc, if_neg h2, List.getElem?_eq_getElem h1,
      List.getElem?_append_left h1]
    exact ⟨trivial, by omega, by omega, trivial⟩

theorem read {e : ε} (he : S e) (n : Nat) : Streams S P (Parser.read e n) (Parser.read e n) := by
  refine ⟨(Adv.read e n).mono (Nat.zero_le _), fun b tail i hi => ?_⟩
  have ha := Adv.read e n ⟨b ++ tail, i⟩
  simp only [Parser.read, Cursor.read] at ha ⊢
  cases hs : checkedAdd i n with
  | none => exact .inr rfl
  | some stop =>
    rw [hs] at ha
    have hstop : stop = i + n := by unfold checkedAdd at hs; split at hs <;> simp_all
    by_cases hc : stop > b.length
    · simp only [if_pos hc]
      refine .inl ⟨he, fun x c hx => ?_⟩
      have := (ha x c hx).2.1
      omega
    · have h2 : ¬ stop > (b ++ tail).length := by rw [List.length_append]; omega
      simp only [if_neg hc, if_neg h2]
      refine ⟨trivial, by omega, by omega, ?_⟩
      have : Cursor.slice (b ++ tail) i stop = Cursor.slice b i stop := by
        unfold Cursor.slice
        rw [List.drop_append_of_le_length hi, List.take_append_of_le_length (by rw [List.length_drop]; omega)]
      rw [this]

theorem noticesCut {p : Parser ε α} (h : Streams S (fun _ => False) p p) : NoticesCut S p := by
  intro b tail x c e
  have := h.2 b tail 0 (Nat.zero_le _)
  rw [Cursor.new] at e ⊢
  cases o : p ⟨b, 0⟩ with
  | ok y =>
    obtain ⟨y, b', j⟩ := y
    rw [o] at this
    obtain ⟨h1, _, h2, h3⟩ := this
    simp only at h1 h2 h3
    rw [e, Out.ok.injEq, Prod.mk.injEq] at h3
    obtain ⟨rfl, rfl⟩ := h3
    subst h1
    rw [if_pos h2]
  | err y =>
    rw [o] at this
    rcases this with h | h
    · rw [if_neg (by have := h.2 x c e; omega)]
      exact ⟨y, rfl, h.1⟩
    · rw [e] at h; cases h
  | panic r =>
    rw [o] at this
    rcases this with h | h
    · exact h.elim
    · rw [e] at h; cases h

end Streams

variable {P : Panic → Prop}

theorem integer_short : IntegerSerError.Short .notEnoughBytes := rfl

theorem Integer.deser_streams (ss : SignedState) : Streams IntegerSerError.Short P (Integer.deser ss) (Integer.deser ss) := by
  unfold Integer.deser
  refine .bind (.next integer_short) fun n => ?_
  split
  · exact Streams.ret _
  · dsimp only
    generalize n.toNat - oneByteMaxSize = used
    exact Streams.bind (Streams.read integer_short used) fun _ => Streams.ret _

theorem Bits.deser_streams : Streams IntegerSerError.Short P Bits.deser Bits.deser := by
  unfold Bits.deser
  exact .bind (Integer.deser_streams _) fun _ => .bind (.lift _) fun _ => .bind (.read integer_short _) fun _ => .ret _

theorem Node.deser8Aux_streams (k k' : Nat) (hk : k ≤ k') :
    Streams HuffmanSerError.Short (fun _ => True) (Node.deser8Aux k) (Node.deser8Aux k') := by
  induction k generalizing k' with
  | zero => exact ⟨(Node.deser8Aux_adv k').mono (Nat.zero_le _), fun _ _ _ _ => .inl trivial⟩
  | succ k ih =>
    obtain ⟨k', rfl⟩ : ∃ m, k' = m + 1 := ⟨k' - 1, by omega⟩
    unfold Node.deser8Aux
    refine .bind (.next trivial) fun _ => .ite (fun _ => ?_) fun _ => .ite (fun _ => ?_) fun _ => .fail _
    · exact .bind (ih k' (by omega)) fun _ => .bind (ih k' (by omega)) fun _ => .ret _
    · exact .bind (.next trivial) fun _ => .ret _

theorem Node.deser8_streams : Streams HuffmanSerError.Short P Node.deser8 Node.deser8 := by
  refine ⟨Node.deser8_adv.mono (Nat.zero_le _), fun b tail i hi => ?_⟩
  have := (Node.deser8Aux_streams (b.length - i + 1) ((b ++ tail).length - i + 1)
    (by rw [List.length_append]; omega)).2 b tail i hi
  have hn := Node.deser8_noPanic ⟨b, i⟩ hi
  unfold Node.deser8 at hn ⊢
  simp only at hn this ⊢
  cases e : Node.deser8Aux (b.length - i + 1) ⟨b, i⟩ with
  | ok y => rw [e] at this; exact this
  | err y => rw [e] at this; exact this
  | panic r => exact absurd e (hn r)

theorem Node.charTail_streams : Streams HuffmanSerError.Short P Node.charTail Node.charTail :=
  .bind ((Integer.deser_streams _).mapErr _ fun _ h => h) fun _ =>
    .bind (.mapErr _ (S := fun _ => False) (.lift _) fun _ h => h.elim) fun _ => .lift _

theorem Node.deserCharAux_streams (k k' : Nat) (hk : k ≤ k') :
    Streams HuffmanSerError.Short (fun r => r ≠ .arith) (Node.deserCharAux k) (Node.deserCharAux k') := by
  induction k generalizing k' with
  | zero => exact ⟨(Node.deserCharAux_adv k').mono (Nat.zero_le _), fun _ _ _ _ => .inl (by decide)⟩
  | succ k ih =>
    obtain ⟨k', rfl⟩ : ∃ m, k' = m + 1 := ⟨k' - 1, by omega⟩
    have ha := Node.deserCharAux_adv (k' + 1)
    refine ⟨ha.mono (Nat.zero_le _), fun b tail i hi => ?_⟩
    have ha := ha ⟨b ++ tail, i⟩
    rw [Node.deserCharAux_succ] at ha ⊢
    rw [Node.deserCharAux_succ]
    simp only at ha ⊢
    by_cases hc : i < b.length
    · rw [List.getElem?_append_left hc, List.getElem?_eq_getElem hc]
      simp only
      by_cases h0 : b[i] = 0
      · simp only [if_pos h0]
        have := (Streams.bind (ih k' (by omega)) fun l => Streams.bind (ih k' (by omega)) fun r =>
          Streams.ret (Node.branch l r)).2 b tail (i + 1) hc
        revert this
        split
        · rintro ⟨h1, h2, h3, h4⟩
          exact ⟨h1, by omega, h3, h4⟩
        · exact id
        · exact id
      · simp only [if_neg h0]
        exact Node.charTail_streams.2 b tail i hi
    · rw [List.getElem?_eq_none (by omega)]
      refine .inl ⟨trivial, fun x c hx => ?_⟩
      have := (ha x c hx).2.1
      omega

theorem Node.deserChar_streams : Streams HuffmanSerError.Short P Node.deserChar Node.deserChar := by
  refine ⟨Node.deserChar_adv.mono (Nat.zero_le _), fun b tail i hi => ?_⟩
  have := (Node.deserCharAux_streams (b.length - i + 1) ((b ++ tail).length - i + 1)
    (by rw [List.length_append]; omega)).2 b tail i hi
  have hn := Node.deserChar_noPanic ⟨b, i⟩ hi
  unfold Node.deserChar at hn ⊢
  simp only at hn this ⊢
  cases e : Node.deserCharAux (b.length - i + 1) ⟨b, i⟩ with
  | ok y => rw [e] at this; exact this
  | err y => rw [e] at this; exact this
  | panic r =>
    rw [e] at this
    rcases this with h | h
    · exact absurd e (hn r h)
    · exact .inr h

theorem Huffman.deserChar_streams : Streams HuffmanSerError.Short P Huffman.deserChar Huffman.deserChar :=
  .bind Node.deserChar_streams fun _ => .ret _

theorem Huffman.deser8_streams : Streams HuffmanSerError.Short P Huffman.deser8 Huffman.deser8 :=
  .bind Node.deser8_streams fun _ => .ret _

namespace Binary

theorem usizeDeser_streams : Streams BinarySerError.Short P usizeDeser usizeDeser :=
  .bind ((Integer.deser_streams _).mapErr _ fun _ h => h) fun _ => .mapErr _ (S := fun _ => False) (.lift _) fun _ h => h.elim

theorem unRle_streams : Streams BinarySerError.Short P unRle unRle :=
  .bind usizeDeser_streams fun _ => .ite (fun _ => .ret _) fun _ => .bind (.read trivial _) fun _ => .ret _

theorem unLz_streams (z : Lz) : Streams BinarySerError.Short P (unLz z) (unLz z) :=
  .bind usizeDeser_streams fun _ => .ite (fun _ => .ret _) fun _ => .bind usizeDeser_streams fun _ =>
    .bind (.read trivial _) fun _ => .mapErr _ (S := fun _ => False) (.lift _) fun _ h => h.elim

theorem unHuffman_streams : Streams HuffmanSerError.Short P unHuffman unHuffman := by
  refine .bind (.next trivial) fun _ => .ite (fun _ => .ret _) fun _ => .ite (fun _ => ?_) fun _ => ?_
  · exact .bind ((Integer.deser_streams _).mapErr _ fun _ h => h) fun _ =>
      .bind (.mapErr _ (S := fun _ => False) (.lift _) fun _ h => h.elim) fun _ => .bind (.next trivial) fun _ => .lift _
  · exact .bind Huffman.deser8_streams fun _ => .bind (Bits.deser_streams.mapErr _ fun _ h => h) fun _ => .lift _

theorem deser_streams (z : Lz) (ct : BinaryCompression) :
    Streams BinarySerError.Short P (Binary.deser z ct) (Binary.deser z ct) := by
  cases ct with
  | nothing => exact .bind usizeDeser_streams fun _ => .read trivial _
  | runLengthEncoding => exact unRle_streams
  | lempelZiv => exact unLz_streams z
  | huffman => exact unHuffman_streams.mapErr _ fun _ h => h

end Binary

theorem Imaginary.deser_streams (m : UInt8) : Streams IntegerSerError.Short P (Imaginary.deser m) (Imaginary.deser m) := by
  have hf : Streams IntegerSerError.Short P Imaginary.readF64 Imaginary.readF64 := .bind (.read integer_short _) fun _ => .ret _
  unfold Imaginary.deser
  refine .ite (fun _ => .bind (.lift _) fun ss => ?_) fun _ => .bind hf fun _ => .bind hf fun _ => .ret _
  obtain ⟨s1, s2⟩ := ss
  exact .bind (Integer.deser_streams _) fun _ => .bind (Integer.deser_streams _) fun _ => .ret _

namespace Value

theorem lift_streams {ε ε' : Type} {S' : ε' → Prop} {α : Type} (o : Out ε α) (f : ε → ε') :
    Streams S' P ((Parser.lift o).mapErr f) ((Parser.lift o).mapErr f) :=
  .mapErr f (S := fun _ => False) (.lift o) fun _ h => h.elim

theorem intP_streams (ss : SignedState) : Streams ValueSerError.Short P (intP ss) (intP ss) :=
  (Integer.deser_streams ss).mapErr _ fun _ h => h

theorem uintP_streams (k : Nat) : Streams ValueSerError.Short P (uintP k) (uintP k) :=
  .bind (intP_streams _) fun _ => lift_streams _ _

theorem lenP_streams (b : UInt8) (t : ValueTy) : Streams ValueSerError.Short P (lenP b t) (lenP b t) :=
  .bind (.lift _) fun _ => .ite (fun _ => .ite (fun _ => uintP_streams 8) fun _ => .ret _) fun _ => .fail _

theorem parseString_streams (h : Option (Huffman Char)) (b : UInt8) :
    Streams ValueSerError.Short P (parseString h b) (parseString h b) := by
  unfold parseString
  refine .ite (fun _ => ?_) fun _ => .bind (uintP_streams 8) fun _ => .bind (.read trivial _) fun _ => .lift _
  cases h with
  | none => exact .fail _
  | some h => exact .bind (Bits.deser_streams.mapErr _ fun _ h => h) fun _ => lift_streams _ _

theorem timestampP_streams (b : UInt8) : Streams ValueSerError.Short P (timestampP b) (timestampP b) := by
  unfold timestampP
  exact .bind (lift_streams _ _) fun _ => .bind (intP_streams _) fun _ => .bind (lift_streams _ _) fun _ =>
    .bind (uintP_streams _) fun _ => .bind (uintP_streams _) fun _ => .ite (fun _ => .fail _) fun _ =>
    .bind (uintP_streams _) fun _ => .bind (uintP_streams _) fun _ => .bind (uintP_streams _) fun _ =>
    .bind (uintP_streams _) fun _ => .ite (fun _ => .fail _) fun _ => .ret _

theorem parsePrimitive_streams (env : Env) (h : Option (Huffman Char)) :
    Streams ValueSerError.Short P (parsePrimitive env h) (parsePrimitive env h) := by
  unfold parsePrimitive
  refine .bind (.next trivial) fun byte => .bind (.lift _) fun ty => ?_
  cases ty with
  | integer => exact .bind (lift_streams _ _) fun _ => .bind (intP_streams _) fun _ => .ret _
  | imaginary => exact .bind ((Imaginary.deser_streams _).mapErr _ fun _ h => h) fun _ => .ret _
  | character => exact .bind (uintP_streams _) fun _ => .bind (.lift _) fun _ => .ret _
  | timestamp => exact .bind (timestampP_streams _) fun _ => .ret _
  | string => exact .bind (parseString_streams _ _) fun _ => .ret _
  | json => exact .ret _
  | binary => exact .bind (lift_streams _ _) fun _ => .bind ((Binary.deser_streams _ _).mapErr _ fun _ h => h) fun _ => .ret _
  | boolean => exact .ret _
  | null => exact .ret _
  | singleFloat => exact .bind (.read trivial _) fun _ => .ret _
  | doubleFloat => exact .bind (.read trivial _) fun _ => .ret _
  | map => exact .bind (lenP_streams _ _) fun _ => .ret _
  | array => exact .bind (lenP_streams _ _) fun _ => .ret _
  | timezone => exact .ret _
  | ipv4Addr => exact .bind (.read trivial _) fun _ => .ret _
  | ipv6Addr => exact .bind (.read trivial _) fun _ => .ret _

theorem step_streams (env : Env) (h : Option (Huffman Char)) (st : DState) (stack : List DState) :
    Streams ValueSerError.Short P (step env h st stack) (step env h st stack) := by
  cases st with
  | valueNeeded =>
    refine .bind (parsePrimitive_streams env h) fun r => ?_
    cases r with
    | value v => exact .ret _
    | newArray len => exact .ite (fun _ => .ret _) fun _ => .crash _
    | newMap len byte => exact .ite (fun _ => .ret _) fun _ => .crash _
    | json => exact .ret _
    | timezone => exact .ret _
  | foundValue v => exact .lift _
  | array soFar left => exact .ret _
  | map soFar left byte => exact .bind (parseString_streams _ _) fun _ => .ret _
  | foundKeyValue key val =>
    cases stack with
    | nil => exact .fail _
    | cons s stack =>
      cases s with
      | map soFar left byte => exact .ite (fun _ => .ret _) fun _ => .ret _
      | _ => exact .fail _
  | foundKey key => exact .fail _
  | jsonNeeded => exact .fail _
  | timezoneNeeded => exact .fail _

theorem loops_adv {env : Env} {h : Option (Huffman Char)} {n : Nat} {stack : List DState} {c : Cursor UInt8} {v : Value}
    {c' : Cursor UInt8} (hl : Loops env h n stack c (.ok (v, c'))) : c.pos ≤ c'.pos := by
  generalize ho : (Out.ok (v, c') : Out ValueSerError (Value × Cursor UInt8)) = o at hl
  induction hl with
  | empty c => cases ho
  | @done st stack c c2 v e =>
    rw [Out.ok.injEq, Prod.mk.injEq] at ho
    obtain ⟨rfl, rfl⟩ := ho
    exact ((step_streams (P := fun _ => False) env h st stack).1 _ _ _ e).2.1
  | err e => cases ho
  | panic e => cases ho
  | @more n st stack stack' c c2 o e hn ih =>
    have := ((step_streams (P := fun _ => False) env h st stack).1 _ _ _ e).2.1
    have := ih ho
    omega

theorem loops_streams {env : Env} {h : Option (Huffman Char)} {n : Nat} {stack : List DState} {c : Cursor UInt8}
    {o : Out ValueSerError (Value × Cursor UInt8)} (hl : Loops env h n stack c o) (hc : c.pos ≤ c.backing.length)
    (tail : List UInt8) :
    match o with
    | .ok (v, c') => c'.backing = c.backing ∧ c.pos ≤ c'.pos ∧ c'.pos ≤ c.backing.length ∧
        Loops env h n stack ⟨c.backing ++ tail, c.pos⟩ (.ok (v, ⟨c.backing ++ tail, c'.pos⟩))
    | .err e => (e.Short ∧ ∀ m v c', Loops env h m stack ⟨c.backing ++ tail, c.pos⟩ (.ok (v, c')) → c.backing.length < c'.pos) ∨
        Loops env h n stack ⟨c.backing ++ tail, c.pos⟩ (.err e)
    | .panic r => Loops env h n stack ⟨c.backing ++ tail, c.pos⟩ (.panic r) := by
  induction hl with
  | empty c => exact .inr (.empty _)
  | @done st stack c c' v e =>
    have := (step_streams (P := fun _ => False) env h st stack).2 c.backing tail c.pos hc
    rw [show (⟨c.backing, c.pos⟩ : Cursor UInt8) = c from rfl, e] at this
    obtain ⟨h1, h2, h3, h4⟩ := this
    exact ⟨h1, h2, h3, .done h4⟩
  | @err st stack c e he =>
    have := (step_streams (P := fun _ => False) env h st stack).2 c.backing tail c.pos hc
    rw [show (⟨c.backing, c.pos⟩ : Cursor UInt8) = c from rfl, he] at this
    refine this.imp (fun hs => ⟨hs.1, fun m v c' hl => ?_⟩) .err
    cases hl with
    | done e1 => exact hs.2 _ _ e1
    | more e1 hl =>
      have := hs.2 _ _ e1
      have := loops_adv hl
      omega
  | @panic st stack c p hp =>
    have := (step_streams (P := fun _ => False) env h st stack).2 c.backing tail c.pos hc
    rw [show (⟨c.backing, c.pos⟩ : Cursor UInt8) = c from rfl, hp] at this
    exact .panic (this.resolve_left id)
  | @more n st stack stack' c c' o e hn ih =>
    have := (step_streams (P := fun _ => False) env h st stack).2 c.backing tail c.pos hc
    rw [show (⟨c.backing, c.pos⟩ : Cursor UInt8) = c from rfl, e] at this
    obtain ⟨h1, h2, h3, h4⟩ := this
    have ih := ih (by rw [h1]; exact h3)
    rw [h1] at ih
    cases o with
    | ok y =>
      obtain ⟨g1, g2, g3, g4⟩ := ih
      exact ⟨g1, by omega, g3, .more h4 g4⟩
    | err y =>
      refine ih.imp (fun hs => ⟨hs.1, fun m v c2 hl => ?_⟩) (.more h4)
      cases hl with
      | done e1 => rw [h4] at e1; cases e1
      | more e1 hl =>
        rw [h4, Out.ok.injEq, Prod.mk.injEq, Sum.inr.injEq] at e1
        obtain ⟨rfl, rfl⟩ := e1
        exact hs.2 _ _ _ hl
    | panic r => exact .more h4 ih

end Value

end Souris
