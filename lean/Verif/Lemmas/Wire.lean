import Verif.Spec.Wire
import Verif.Lemmas.ValueYields
import Verif.Lemmas.Format
import Mathlib.Data.Nat.Bitwise

/-! # Lemmas about the byte format -/

namespace Souris

namespace Wire

/-! ## Reading parsers as grammars -/

/-- Whatever the parser reads, from less than 2 MiB, is in the relation with what it returns. -/
def Eats {ε α : Type} (p : Parser ε α) (G : α → List UInt8 → Prop) : Prop :=
  ∀ pre rest x c', rest.length < 2 ^ 21 → p (Cursor.At pre rest) = .ok (x, c') →
    ∃ w tail, rest = w ++ tail ∧ c' = Cursor.At (pre ++ w) tail ∧ G x w

namespace Eats

variable {ε ε' α β : Type}

theorem ret {G : α → List UInt8 → Prop} {x : α} (h : G x []) : Eats (Pure.pure x : Parser ε α) G := by
  intro pre rest y c' _ e
  simp only [Parser.pure_apply, Out.ok.injEq, Prod.mk.injEq] at e
  exact ⟨[], rest, rfl, by rw [← e.2, List.append_nil], e.1 ▸ h⟩

theorem bind {p : Parser ε α} {f : α → Parser ε β} {G : α → List UInt8 → Prop} {K : β → List UInt8 → Prop}
    (hp : Eats p G) (hf : ∀ x w, G x w → Eats (f x) fun y w' => K y (w ++ w')) : Eats (p >>= f) K := by
  intro pre rest y c' hl e
  rw [Parser.bind_apply, Out.bind_eq_ok] at e
  obtain ⟨⟨x, c1⟩, e1, e2⟩ := e
  obtain ⟨w, tail, rfl, rfl, hg⟩ := hp pre rest x c1 hl e1
  obtain ⟨w', tail', rfl, rfl, hk⟩ := hf x w hg (pre ++ w) tail y c' (by simp at hl; omega) e2
  exact ⟨w ++ w', tail', by simp, by simp, hk⟩

theorem mono {p : Parser ε α} {G K : α → List UInt8 → Prop} (hp : Eats p G) (h : ∀ x w, G x w → K x w) : Eats p K := by
  intro pre rest y c' hl e
  obtain ⟨w, tail, h1, h2, hg⟩ := hp pre rest y c' hl e
  exact ⟨w, tail, h1, h2, h _ _ hg⟩

theorem mapErr {p : Parser ε α} {G : α → List UInt8 → Prop} (f : ε → ε') (h : Eats p G) : Eats (p.mapErr f) G := by
  intro pre rest x c' hl e
  rw [Parser.mapErr_apply, Out.mapErr_eq_ok] at e
  exact h _ _ _ _ hl e

theorem fail {G : α → List UInt8 → Prop} (e : ε) : Eats (Parser.fail e : Parser ε α) G := by
  intro pre rest x c' _ h; simp at h

theorem lift {G : α → List UInt8 → Prop} {o : Out ε α} (h : ∀ x, o = .ok x → G x []) : Eats (Parser.lift o) G := by
  intro pre rest x c' _ e
  cases o with
  | ok y =>
    simp only [Parser.lift_ok, Out.ok.injEq, Prod.mk.injEq] at e
    exact ⟨[], rest, rfl, by rw [← e.2, List.append_nil], h x (by rw [e.1])⟩
  | err _ => simp at e
  | panic _ => simp at e

theorem next (e : ε) : Eats (Parser.next e) fun b w => w = [b] := by
  intro pre rest x c' _ h
  cases rest with
  | nil => simp [Parser.next, Cursor.next, Cursor.At] at h
  | cons b rest =>
    have hlt : ¬ pre.length ≥ pre.length + (rest.length + 1) := by omega
    simp only [Parser.next, Cursor.next, Cursor.At, List.length_append, List.length_cons, if_neg hlt,
      List.getElem?_append_right (Nat.le_refl _), Nat.sub_self, List.getElem?_cons_zero, Out.ok.injEq,
      Prod.mk.injEq] at h
    obtain ⟨rfl, rfl⟩ := h
    exact ⟨[b], rest, rfl, by simp [Cursor.At], rfl⟩

theorem read (e : ε) (n : Nat) : Eats (Parser.read e n) fun bs w => w = bs ∧ bs.length = n ∧ n < 2 ^ 21 := by
  intro pre rest x c' hr h
  unfold Parser.read Cursor.read Cursor.At checkedAdd at h
  simp only at h
  by_cases hn : pre.length + n < usizeMod
  · rw [if_pos hn] at h
    simp only [List.length_append] at h
    by_cases hl : n ≤ rest.length
    · rw [if_neg (by omega)] at h
      simp only [Cursor.slice, Nat.add_sub_cancel_left, List.drop_append_of_le_length (Nat.le_refl _), List.drop_length,
        List.nil_append, Out.ok.injEq, Prod.mk.injEq] at h
      obtain ⟨rfl, rfl⟩ := h
      refine ⟨rest.take n, rest.drop n, (List.take_append_drop _ _).symm, ?_, rfl, by simp [hl], by omega⟩
      simp [Cursor.At, Nat.min_eq_left hl]
    · rw [if_pos (by omega)] at h
      simp at h
  · rw [if_neg hn] at h
    simp at h

theorem ite {G : α → List UInt8 → Prop} {P : Prop} [Decidable P] {p q : Parser ε α} (hp : P → Eats p G)
    (hq : ¬ P → Eats q G) : Eats (if P then p else q) G := by
  split
  · exact hp (by assumption)
  · exact hq (by assumption)

end Eats

/-! ## Numbers -/

theorem number_aux (bs : List UInt8) (k : Nat) :
    (bs.mapIdx fun i b => b.toNat * 256 ^ (i + k)).sum = 256 ^ k * ofLe bs := by
  induction bs generalizing k with
  | nil => simp [ofLe]
  | cons b bs ih =>
    rw [List.mapIdx_cons, List.sum_cons]
    have := ih (k + 1)
    simp only [show ∀ i, i + 1 + k = i + (k + 1) from fun i => by omega, this, ofLe, Nat.zero_add]
    ring

theorem number_eq (bs : List UInt8) : number bs = ofLe bs := by
  have := number_aux bs 0
  simpa [number] using this

theorem content_eq (ss : SignedState) {bs : List UInt8} (h : bs.length ≤ 16) :
    copyPrefix (Integer.fillArray ss) bs = bs ++ List.replicate (16 - bs.length) (Integer.fillOf ss) := by
  rw [Integer.fillArray_eq, copyPrefix_eq (by simpa using h), List.drop_replicate]

theorem signed_eq (ss : SignedState) {bs : List UInt8} (h : bs.length ≤ 16) (u : Nat) :
    Integer.value ⟨ss, copyPrefix (Integer.fillArray ss) bs, u⟩ = signed ss bs := by
  unfold Integer.value signed
  rw [content_eq ss h, ofLe_append, number_eq]
  have hp : (256 : Nat) ^ bs.length * 256 ^ (16 - bs.length) = 2 ^ 128 := by
    rw [← Nat.pow_add, Nat.add_sub_cancel' h]; decide
  cases ss with
  | signedNegative =>
    simp only [Integer.fillOf, if_true]
    have := ofLe_replicate_255 (16 - bs.length)
    have h2 : 256 ^ bs.length * ofLe (List.replicate (16 - bs.length) 255) + 256 ^ bs.length = 2 ^ 128 := by
      rw [← hp, ← this]; ring
    have h3 : ((256 ^ bs.length * ofLe (List.replicate (16 - bs.length) 255) + 256 ^ bs.length : Nat) : Int)
        = 2 ^ 128 := by rw [h2]; norm_num
    push_cast at h3 ⊢
    linarith
  | unsigned => simp [Integer.fillOf, ofLe_replicate_zero]
  | signedPositive => simp [Integer.fillOf, ofLe_replicate_zero]

theorem IntWord.wider {w w' : Nat} {ss : SignedState} {n : Int} {bs : List UInt8} (h : IntWord w ss n bs) (hw : w ≤ w') :
    IntWord w' ss n bs := by
  cases h with
  | short h => exact .short h
  | long hb h1 h2 => exact .long hb h1 (by omega)

/-- Reading an integer. -/
theorem int_eats (ss : SignedState) : Eats (Integer.deser ss) fun i w =>
    i.signedState = ss ∧ i.WF ∧ IntWord (max 1 i.used) ss i.value w := by
  intro pre rest x c' hl e
  have hser := Integer.deser_serialisable e
  suffices h : ∃ w tail, rest = w ++ tail ∧ c' = Cursor.At (pre ++ w) tail ∧ IntWord (max 1 x.used) ss x.value w by
    obtain ⟨w, tail, h1, h2, h3⟩ := h
    exact ⟨w, tail, h1, h2, hser.2, hser.1.toWF, h3⟩
  have : Eats (Integer.deser ss) fun i w => IntWord (max 1 i.used) ss i.value w := by
    unfold Integer.deser
    refine Eats.bind (Eats.next _) fun b w hw => ?_
    subst hw
    refine Eats.ite (fun hb => ?_) fun hb => ?_
    · refine Eats.ret ?_
      rw [signed_eq ss (by simp)]
      exact .short hb
    · refine Eats.bind (Eats.read _ _) fun bs w hw => Eats.ret ?_
      obtain ⟨rfl, hl, -⟩ := hw
      have := b.toNat_lt
      have h239 : oneByteMaxSize = 239 := rfl
      rw [signed_eq ss (by omega)]
      rw [List.append_nil]
      exact .long (by omega) (by omega) (by simp only; omega)
  exact this pre rest x c' hl e

/-- An integer is read as what it says. -/
theorem int_reads {w : Nat} (hw : 1 ≤ w) (hw' : w ≤ 16) {ss : SignedState} {n : Int} {bs : List UInt8}
    (h : IntWord w ss n bs) : ∃ i : Integer, Reads (Integer.deser ss) bs i ∧ i.signedState = ss ∧ i.value = n ∧ i.WF ∧
      i.used ≤ w := by
  have key : ∃ i : Integer, Reads (Integer.deser ss) bs i ∧ i.signedState = ss ∧ i.value = n ∧ i.used ≤ w := by
    unfold Integer.deser
    cases h with
    | @short b hb =>
      refine ⟨⟨ss, copyPrefix (Integer.fillArray ss) [b], if ss = .signedNegative ∨ b ≠ 0 then 1 else 0⟩,
        Reads.bind' (b2 := []) (by simp) (Reads.next _ b) ?_, rfl, signed_eq ss (by simp) _, ?_⟩
      · rw [if_pos (show b.toNat ≤ oneByteMaxSize from hb)]; exact Reads.pure _
      · simp only; split <;> omega
    | @long b bs hb h1 h2 =>
      have h239 : oneByteMaxSize = 239 := rfl
      refine ⟨⟨ss, copyPrefix (Integer.fillArray ss) bs, b.toNat - oneByteMaxSize⟩,
        Reads.bind' (b2 := bs) (by simp) (Reads.next _ b) ?_, rfl, signed_eq ss (by omega) _, ?_⟩
      · rw [if_neg (by omega)]
        refine Reads.bind' (b1 := bs) (b2 := []) (by simp) (Reads.read _ (by omega)) ?_
        exact Reads.pure _
      · simp only; omega
  obtain ⟨i, hr, h1, h2, h3⟩ := key
  refine ⟨i, hr, h1, h2, ?_, h3⟩
  by_cases hb : bs.length < usizeMod
  · exact (Integer.deser_serialisable (hr.run hb)).1.toWF
  · cases h with
    | short => simp [usizeMod] at hb
    | @long b bs hb' h1' h2' => simp [usizeMod] at hb; omega

theorem nat_reads {w n : Nat} (hw : 1 ≤ w) (hw' : w ≤ 16) {bs : List UInt8} (h : NatWord w n bs) {ε : Type}
    (f : IntegerSerError → ε) : Reads (do
      let i ← (Integer.deser .unsigned).mapErr f
      (Parser.lift (i.toUnsigned w)).mapErr f) bs n := by
  obtain ⟨i, hr, h1, h2, h3, h4⟩ := int_reads hw hw' h
  refine Reads.bind' (b2 := []) (by simp) (hr.mapErr f) ?_
  have := h3.toUnsigned_eq (k := w) hw'
  rw [if_neg (by omega), if_neg (by rw [h1]; simp), h2] at this
  rw [this]
  exact (Reads.lift n).mapErr f

theorem nat_of {w n : Nat} (hw : 1 ≤ w) (hw' : w ≤ 16) {i : Integer} {b : List UInt8} (h1 : i.signedState = .unsigned)
    (h2 : i.WF) (h3 : IntWord (max 1 i.used) .unsigned i.value b) (hn : i.toUnsigned w = .ok n) : NatWord w n b := by
  have := h2.toUnsigned_eq (k := w) hw'
  rw [hn] at this
  by_cases hu : i.used > w
  · rw [if_pos hu] at this; cases this
  · rw [if_neg hu, if_neg (by rw [h1]; simp)] at this
    simp only [Out.ok.injEq] at this
    have hv : (n : Int) = i.value := by
      have hnn : 0 ≤ i.value := by
        unfold Integer.value; rw [h1]; simp
      omega
    show IntWord w .unsigned (n : Int) b
    rw [hv]
    exact h3.wider (by omega)

theorem nat_eats {w : Nat} (hw : 1 ≤ w) (hw' : w ≤ 16) {ε : Type} (f : IntegerSerError → ε) : Eats (do
      let i ← (Integer.deser .unsigned).mapErr f
      (Parser.lift (i.toUnsigned w)).mapErr f) fun n bs => NatWord w n bs := by
  refine Eats.bind ((int_eats _).mapErr f) fun i b h => ?_
  obtain ⟨h1, h2, h3⟩ := h
  refine (Eats.lift fun n hn => ?_).mapErr f
  rw [List.append_nil]
  exact nat_of hw hw' h1 h2 h3 hn

theorem Eats.of_reads {ε α : Type} {p : Parser ε α} {G : α → List UInt8 → Prop} (h : Eats p G) {bs : List UInt8} {x : α}
    (hr : Reads p bs x) (hl : bs.length < 2 ^ 21) : G x bs := by
  obtain ⟨w, tail, h1, h2, hg⟩ := h [] bs x _ hl (by
    have := hr [] [] (by simp [usizeMod]; omega)
    simpa using this)
  have : bs.length = w.length := by
    have := congrArg Cursor.pos h2
    simpa [Cursor.At] using this
  have ht : tail = [] := by
    have := congrArg List.length h1
    simp only [List.length_append] at this
    exact List.length_eq_zero_iff.mp (by omega)
  rw [h1, ht, List.append_nil]
  exact hg

/-- An integer is written in the format. -/
theorem int_written {i : Integer} (h : i.Serialisable) : IntWord (max 1 i.used) i.signedState i.value i.ser.2 := by
  have hl := Fixed.ser_length_any h.len
  have := (int_eats i.signedState).of_reads h.reads (by omega)
  have hv : i.normUsed.value = i.value := rfl
  rw [hv] at this
  refine this.2.2.wider ?_
  unfold Integer.normUsed
  simp only
  split
  · split <;> omega
  · omega

theorem nat_written {w n : Nat} (hw : Width w) (hn : IsUnsigned w n) : NatWord w n (Integer.ofUnsigned w n).ser.2 := by
  have h := int_written (Integer.Native.unsigned hw hn).serialisable
  rw [Integer.ofUnsigned_value hw.le hn.lt] at h
  have hu := (Integer.ofUnsigned_used hn.lt (u := w) hw.pos).mpr hn.lt
  have := hw.pos
  exact IntWord.wider h (by omega)

/-! ## Bits -/

theorem and_bit (x : UInt8) {k : Nat} (hk : k < 8) : (x &&& Bits.bit k > 0) ↔ x.toNat.testBit k = true := by
  have hb : (Bits.bit k).toNat = 2 ^ k := by
    have : ∀ k : Fin 8, (Bits.bit k.val).toNat = 2 ^ k.val := by decide
    exact this ⟨k, hk⟩
  rw [gt_iff_lt, UInt8.lt_iff_toNat_lt, UInt8.toNat_and, hb, Nat.and_two_pow]
  have := Nat.two_pow_pos k
  cases x.toNat.testBit k <;> simp

theorem clear_bit (x : UInt8) {k j : Nat} (hk : k < 8) (hj : j < 8) :
    (x &&& (255 - Bits.bit k)).toNat.testBit j = (x.toNat.testBit j && decide (j ≠ k)) := by
  rw [UInt8.toNat_and, Nat.testBit_and]
  congr 1
  have : ∀ k j : Fin 8, (255 - Bits.bit k.val).toNat.testBit j.val = decide (j.val ≠ k.val) := by decide
  exact this ⟨k, hk⟩ ⟨j, hj⟩

theorem bitAt_beyond {bytes : List UInt8} {j : Nat} (h : bytes.length ≤ j / 8) : bitAt bytes j = false := by
  unfold bitAt
  rw [List.getD_eq_getElem?_getD, List.getElem?_eq_none h]
  simp

theorem pos_iff_bit (x : UInt8) : x > 0 ↔ ∃ k < 8, x.toNat.testBit k = true := by
  rw [gt_iff_lt, UInt8.lt_iff_toNat_lt]
  constructor
  · intro h
    have hne : x.toNat ≠ 0 := by simp at h; omega
    obtain ⟨k, hk⟩ := Nat.exists_testBit_of_ne_zero hne
    refine ⟨k, ?_, hk⟩
    by_contra hc
    rw [Nat.testBit_lt_two_pow (Nat.lt_of_lt_of_le x.toNat_lt (Nat.pow_le_pow_right (by omega) (by omega : 8 ≤ k)))] at hk
    cases hk
  · rintro ⟨k, _, hk⟩
    by_contra hc
    have : x.toNat = 0 := by simp at hc ⊢; omega
    rw [this] at hk
    simp at hk

/-- What popping all bits gives. -/
theorem drain_bits (v : Nat) : ∀ (bytes : List UInt8) (acc : List Bool), bytes.length = (v + 7) / 8 →
    ∃ l : List Bool, Bits.drain v ⟨bytes, v⟩ acc = .ok (l ++ acc) ∧ l.length = v ∧
      ∀ i < v, l[i]? = some true ↔ bitAt bytes i = true ∨ i % 8 = 0 ∧ v < i + 8 ∧ Padded bytes v := by
  induction v with
  | zero => exact fun bytes acc _ => ⟨[], rfl, rfl, fun i hi => absurd hi (by omega)⟩
  | succ v ih =>
    intro bytes acc hl
    have hl' : bytes.length = v / 8 + 1 := by omega
    by_cases hv : v % 8 = 0
    · obtain ⟨init, x, rfl⟩ : ∃ init x, bytes = init ++ [x] :=
        ⟨_, _, (List.dropLast_append_getLast (by intro h; rw [h] at hl'; simp at hl')).symm⟩
      simp only [List.length_append, List.length_cons, List.length_nil] at hl'
      obtain ⟨l, e, hll, hi⟩ := ih init (decide (x > 0) :: acc) (by omega)
      refine ⟨l ++ [decide (x > 0)], ?_, by simp [hll], ?_⟩
      · simp only [Bits.drain, Bits.pop, if_neg (show ¬ v + 1 = 0 by omega), Nat.add_sub_cancel, if_pos hv,
          List.getLast?_append, List.getLast?_singleton, Option.some_or, List.dropLast_concat, e]
        simp
      · intro i hlt
        by_cases hiv : i < v
        · rw [List.getElem?_append_left (by omega), hi i hiv]
          have : bitAt (init ++ [x]) i = bitAt init i := by
            unfold bitAt
            rw [List.getD_eq_getElem?_getD, List.getD_eq_getElem?_getD, List.getElem?_append_left (by omega)]
          rw [this]
          constructor
          · rintro (h | h)
            · exact .inl h
            · omega
          · rintro (h | h)
            · exact .inl h
            · omega
        · obtain rfl : i = v := by omega
          rw [List.getElem?_append_right (by omega), hll, Nat.sub_self]
          simp only [List.getElem?_cons_zero, Option.some.injEq, decide_eq_true_eq]
          have hx : ∀ k < 8, bitAt (init ++ [x]) (i + k) = x.toNat.testBit k := by
            intro k hk
            unfold bitAt
            rw [show (i + k) / 8 = init.length by omega, show (i + k) % 8 = k by omega]
            simp
          rw [pos_iff_bit]
          constructor
          · rintro ⟨k, hk, hb⟩
            rcases Nat.eq_zero_or_pos k with rfl | h0
            · left; simpa using (hx 0 (by omega)).trans hb
            · exact .inr ⟨hv, by omega, i + k, by omega, (hx k hk).trans hb⟩
          · rintro (h | ⟨-, -, j, hj, hb⟩)
            · exact ⟨0, by omega, (hx 0 (by omega)).symm.trans h⟩
            · by_cases hj8 : j < i + 8
              · exact ⟨j - i, by omega, by rw [← hx (j - i) (by omega), Nat.add_sub_cancel' (by omega)]; exact hb⟩
              · rw [bitAt_beyond (by simp; omega)] at hb; cases hb
    · have hlt : v / 8 < bytes.length := by omega
      have hx : bytes[v / 8]? = some bytes[v / 8] := List.getElem?_eq_getElem hlt
      generalize bytes[v / 8] = x at hx
      have hnew : ∀ j, bitAt (bytes.set (v / 8) (x &&& (255 - Bits.bit (v % 8)))) j = (bitAt bytes j && decide (j ≠ v)) := by
        intro j
        unfold bitAt
        simp only [List.getD_eq_getElem?_getD, List.getElem?_set]
        by_cases hj : v / 8 = j / 8
        · rw [if_pos hj, if_pos (by omega), ← hj, hx]
          simp only [Option.getD_some]
          rw [clear_bit x (by omega) (by omega)]
          congr 1
          rw [decide_eq_decide]
          omega
        · rw [if_neg hj]
          have : decide (j ≠ v) = true := by simp; rintro rfl; exact hj rfl
          rw [this, Bool.and_true]
      obtain ⟨l, e, hll, hi⟩ := ih (bytes.set (v / 8) (x &&& (255 - Bits.bit (v % 8))))
        (decide (x &&& Bits.bit (v % 8) > 0) :: acc) (by simp; omega)
      refine ⟨l ++ [decide (x &&& Bits.bit (v % 8) > 0)], ?_, by simp [hll], ?_⟩
      · simp only [Bits.drain, Bits.pop, if_neg (show ¬ v + 1 = 0 by omega), Nat.add_sub_cancel, if_neg hv, hx, e]
        simp
      · intro i hlt'
        by_cases hiv : i < v
        · rw [List.getElem?_append_left (by omega), hi i hiv, hnew i]
          have hd : decide (i ≠ v) = true := by simp; omega
          rw [hd, Bool.and_true]
          have hpad : Padded (bytes.set (v / 8) (x &&& (255 - Bits.bit (v % 8)))) v ↔ Padded bytes (v + 1) := by
            constructor
            · rintro ⟨j, hj, hb⟩
              rw [hnew j, Bool.and_eq_true, decide_eq_true_eq] at hb
              exact ⟨j, by omega, hb.1⟩
            · rintro ⟨j, hj, hb⟩
              refine ⟨j, by omega, ?_⟩
              rw [hnew j, hb, Bool.true_and, decide_eq_true_eq]
              omega
          rw [hpad]
          constructor
          · rintro (h | ⟨h1, h2, h3⟩)
            · exact .inl h
            · refine .inr ⟨h1, ?_, h3⟩
              by_contra hc
              obtain ⟨j, hj, hb⟩ := h3
              rw [bitAt_beyond (by omega)] at hb
              cases hb
          · rintro (h | ⟨h1, h2, h3⟩)
            · exact .inl h
            · exact .inr ⟨h1, by omega, h3⟩
        · obtain rfl : i = v := by omega
          rw [List.getElem?_append_right (by omega), hll, Nat.sub_self]
          simp only [List.getElem?_cons_zero, Option.some.injEq, decide_eq_true_eq]
          rw [and_bit x (by omega)]
          have : bitAt bytes i = x.toNat.testBit (i % 8) := by
            unfold bitAt
            rw [List.getD_eq_getElem?_getD, hx]
            rfl
          rw [this]
          constructor
          · exact .inl
          · rintro (h | h)
            · exact h
            · omega

theorem list_ext_true {l l' : List Bool} (hl : l.length = l'.length)
    (h : ∀ i < l.length, l[i]? = some true ↔ l'[i]? = some true) : l = l' := by
  apply List.ext_getElem hl
  intro i h1 h2
  have := h i h1
  rw [List.getElem?_eq_getElem h1, List.getElem?_eq_getElem h2, Option.some.injEq, Option.some.injEq] at this
  exact Bool.eq_iff_iff.mpr this

theorem toBools_bits {l : List Bool} {bytes : List UInt8} (hb : bytes.length = (l.length + 7) / 8)
    (hs : ∀ i < l.length, l[i]? = some true ↔
      bitAt bytes i = true ∨ i % 8 = 0 ∧ l.length < i + 8 ∧ Padded bytes l.length) :
    Bits.toBools ⟨bytes, l.length⟩ = .ok l := by
  obtain ⟨l', e, hl, hi⟩ := drain_bits l.length bytes [] hb
  unfold Bits.toBools
  rw [e, List.append_nil, list_ext_true hl fun i h => by rw [hi i (by omega), hs i (by omega)]]

theorem bytesToRead_le {v : Nat} (h : Bits.bytesToRead v < 2 ^ 21) : v < 2 ^ 24 := by
  by_contra hc
  have hlt : 2 ^ 24 ≤ v := by omega
  unfold Bits.bytesToRead Bits.roundF32 at h
  rw [if_neg (by omega)] at h
  simp only at h
  have hlog : 24 ≤ Nat.log2 v := (Nat.le_log2 (by omega)).mpr (by omega)
  have hv : 2 ^ Nat.log2 v ≤ v := Nat.log2_self_le (by omega)
  have hq : 2 ^ 23 ≤ v / 2 ^ (Nat.log2 v - 23) := by
    rw [Nat.le_div_iff_mul_le (Nat.two_pow_pos _), ← Nat.pow_add]
    rwa [show 23 + (Nat.log2 v - 23) = Nat.log2 v by omega]
  have h1 : 2 ^ 1 ≤ 2 ^ (Nat.log2 v - 23) := Nat.pow_le_pow_right (by omega) (by omega)
  generalize hr : (if v % 2 ^ (Nat.log2 v - 23) > 2 ^ (Nat.log2 v - 23 - 1) ∨
    v % 2 ^ (Nat.log2 v - 23) = 2 ^ (Nat.log2 v - 23 - 1) ∧ v / 2 ^ (Nat.log2 v - 23) % 2 = 1 then
    v / 2 ^ (Nat.log2 v - 23) + 1 else v / 2 ^ (Nat.log2 v - 23)) = q at h
  have hq' : 2 ^ 23 ≤ q := by rw [← hr]; split <;> omega
  have := Nat.mul_le_mul hq' h1
  omega

theorem bits_eats : Eats Bits.deser fun b w => ∃ l, b.toBools = .ok l ∧ BitWord false l w := by
  unfold Bits.deser
  refine Eats.bind (int_eats _) fun i len h => ?_
  obtain ⟨h1, h2, h3⟩ := h
  refine Eats.bind (Eats.lift (G := fun n w => w = [] ∧ NatWord 8 n len) fun n hn =>
    ⟨rfl, nat_of (by omega) (by omega) h1 h2 h3 hn⟩) fun n w hw => ?_
  obtain ⟨rfl, hn⟩ := hw
  refine Eats.bind (Eats.read _ _) fun bytes w hw => Eats.ret ?_
  obtain ⟨rfl, hb, hlt⟩ := hw
  have hle := bytesToRead_le hlt
  rw [Bits.bytesToRead_small (by omega)] at hb
  obtain ⟨l, e, rfl, hi⟩ := drain_bits n w [] hb
  rw [List.append_nil] at e
  refine ⟨l, e, ?_⟩
  simp only [List.nil_append, List.append_nil]
  exact ⟨hn, hb, by simp, hi⟩

theorem bits_reads {l : List Bool} {w : List UInt8} (h : BitWord false l w) (hw : w.length ≤ 2 ^ 21) :
    ∃ b, Reads Bits.deser w b ∧ b.toBools = .ok l := by
  obtain ⟨hl, hb, -, hs⟩ := h
  rename_i len bytes
  refine ⟨⟨bytes, l.length⟩, ?_, toBools_bits hb hs⟩
  obtain ⟨i, hr, h1, h2, h3, h4⟩ := int_reads (w := 8) (by omega) (by omega) hl
  unfold Bits.deser
  refine hr.bind ?_
  have := h3.toUnsigned_eq (k := 8) (by omega)
  rw [if_neg (by omega), if_neg (by rw [h1]; simp), h2] at this
  simp only [Int.toNat_natCast] at this
  refine Reads.bind' (b1 := []) (b2 := bytes) (by simp) (by rw [this]; exact Reads.lift _) ?_
  refine Reads.bind' (b1 := bytes) (b2 := []) (by simp) (Reads.read _ ?_) (Reads.pure _)
  rw [Bits.bytesToRead_small, hb]
  simp only [List.length_append] at hw
  omega

theorem packByte_bit (l : List Bool) (k : Nat) : (Bits.packByte l).testBit k = l.getD k false := by
  induction l generalizing k with
  | nil => simp [Bits.packByte]
  | cons b l ih =>
    cases k with
    | zero => cases b <;> simp [Bits.packByte, Nat.testBit_zero]
    | succ k =>
      rw [Nat.testBit_succ, Bits.packByte, show (b.toNat + 2 * Bits.packByte l) / 2 = Bits.packByte l by
        have := Bool.toNat_le b; omega, ih]
      simp

theorem pack_bit (l : List Bool) (i : Nat) : bitAt (Bits.pack l) i = l.getD i false := by
  have hbyte : ∀ (l : List Bool), l.length ≤ 8 → ∀ k, (UInt8.ofNat (Bits.packByte l)).toNat.testBit k = l.getD k false := by
    intro l hl k
    have h1 := Bits.packByte_lt l
    have h2 : 2 ^ l.length ≤ 2 ^ 8 := Nat.pow_le_pow_right (by omega) hl
    rw [UInt8.toNat_ofNat', Nat.mod_eq_of_lt (by omega), packByte_bit]
  induction hn : l.length using Nat.strong_induction_on generalizing l i with
  | _ n ih =>
    by_cases h8 : l.length ≤ 8
    · by_cases h0 : l = []
      · subst h0; simp [Bits.pack, bitAt]
      · rw [Bits.pack_short h0 h8]
        by_cases hi : i < 8
        · unfold bitAt
          rw [show i / 8 = 0 by omega, show i % 8 = i by omega]
          simp only [List.getD_cons_zero]
          exact hbyte l h8 i
        · rw [bitAt_beyond (by simp; omega), List.getD_eq_getElem?_getD, List.getElem?_eq_none (by omega)]
          rfl
    · obtain ⟨l1, l2, rfl, h1⟩ : ∃ l1 l2, l = l1 ++ l2 ∧ l1.length = 8 :=
        ⟨l.take 8, l.drop 8, (List.take_append_drop _ _).symm, by simp; omega⟩
      rw [Bits.pack_append (q := 1) (by omega), Bits.pack_short (by rintro rfl; simp at h1) (by omega)]
      by_cases hi : i < 8
      · unfold bitAt
        rw [show i / 8 = 0 by omega, show i % 8 = i by omega]
        simp only [List.singleton_append, List.getD_cons_zero]
        rw [hbyte l1 (by omega) i, List.getD_eq_getElem?_getD, List.getD_eq_getElem?_getD,
          List.getElem?_append_left (by omega)]
      · obtain ⟨j, rfl⟩ : ∃ j, i = j + 8 := ⟨i - 8, by omega⟩
        have := ih l2.length (by simp at hn; omega) l2 j rfl
        unfold bitAt at this ⊢
        rw [show (j + 8) / 8 = j / 8 + 1 by omega, show (j + 8) % 8 = j % 8 by omega]
        simp only [List.singleton_append, List.getD_cons_succ]
        rw [this, List.getD_eq_getElem?_getD, List.getD_eq_getElem?_getD, List.getElem?_append_right (by omega)]
        congr 2
        omega

theorem bits_written {l : List Bool} (hl : l.length < 2 ^ 64) {w : List UInt8} (e : (Bits.ofList l).ser = .ok w) :
    BitWord true l w := by
  unfold Bits.ser at e
  rw [Bits.properBytes_ofList] at e
  simp only [Out.ok.injEq] at e
  have hp : ¬ Padded (Bits.pack l) l.length := by
    rintro ⟨j, hj, hb⟩
    rw [pack_bit, List.getD_eq_getElem?_getD, List.getElem?_eq_none hj] at hb
    cases hb
  rw [← e]
  refine ⟨nat_written (by unfold Width; omega) (by unfold IsUnsigned; exact hl), Bits.pack_length l, fun _ => hp, ?_⟩
  intro i hi
  rw [pack_bit, List.getD_eq_getElem?_getD]
  constructor
  · intro h; left; rw [h]; rfl
  · rintro (h | ⟨-, -, h⟩)
    · rw [List.getElem?_eq_getElem hi] at h ⊢
      rw [Option.getD_some] at h; rw [h]
    · exact absurd h hp

end Wire

end Souris
