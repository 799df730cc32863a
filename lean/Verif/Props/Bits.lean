import Verif.Lemmas.Bits
import Verif.Spec.Bits
import Verif.Props.Integer
import Mathlib.Tactic.IntervalCases
import Mathlib.Tactic.NormNum

/-! # Properties of `Bits`: C14, C15, C16 -/

namespace Souris

open Bits

/-! ## Helper facts -/

theorem Bits.pack_getElem {l : List Bool} {q : Nat} (h : 8 * q < l.length) :
    (pack l)[q]? = some (UInt8.ofNat (packByte ((l.drop (8 * q)).take 8))) := by
  have h1 : (l.take (8 * q)).length = 8 * q := by simp; omega
  have hq := pack_length_of h1
  have hne : l.drop (8 * q) ≠ [] := by
    intro h0
    have := congrArg List.length h0
    simp at this; omega
  conv_lhs => rw [← List.take_append_drop (8 * q) l, pack_append h1]
  rw [List.getElem?_append_right (by omega), hq, Nat.sub_self]
  by_cases h8 : (l.drop (8 * q)).length ≤ 8
  · rw [pack_short hne h8, List.take_of_length_le h8]; rfl
  · have h2 : ((l.drop (8 * q)).take 8).length = 8 * 1 := by simp at *; omega
    have hne2 : (l.drop (8 * q)).take 8 ≠ [] := by
      intro h0; rw [h0] at h2; simp at h2
    conv_lhs => rw [← List.take_append_drop 8 (l.drop (8 * q)), pack_append h2]
    rw [pack_short hne2 (by omega)]
    rfl

theorem Bits.byte_get (l : List Bool) (h8 : l.length ≤ 8) (j : Nat) (hj : j < l.length) :
    decide (UInt8.ofNat (packByte l) &&& bit j > 0) = l[j] := by
  match l, h8 with
  | [], _ => simp at hj
  | [a], _ =>
    simp only [List.length_cons, List.length_nil] at hj
    interval_cases j <;> (simp only [List.getElem_cons_zero, List.getElem_cons_succ]; revert a; decide +kernel)
  | [a, b], _ =>
    simp only [List.length_cons, List.length_nil] at hj
    interval_cases j <;> (simp only [List.getElem_cons_zero, List.getElem_cons_succ]; revert a b; decide +kernel)
  | [a, b, c], _ =>
    simp only [List.length_cons, List.length_nil] at hj
    interval_cases j <;> (simp only [List.getElem_cons_zero, List.getElem_cons_succ]; revert a b c; decide +kernel)
  | [a, b, c, d], _ =>
    simp only [List.length_cons, List.length_nil] at hj
    interval_cases j <;> (simp only [List.getElem_cons_zero, List.getElem_cons_succ]; revert a b c d; decide +kernel)
  | [a, b, c, d, e], _ =>
    simp only [List.length_cons, List.length_nil] at hj
    interval_cases j <;> (simp only [List.getElem_cons_zero, List.getElem_cons_succ]; revert a b c d e; decide +kernel)
  | [a, b, c, d, e, f], _ =>
    simp only [List.length_cons, List.length_nil] at hj
    interval_cases j <;> (simp only [List.getElem_cons_zero, List.getElem_cons_succ]; revert a b c d e f; decide +kernel)
  | [a, b, c, d, e, f, g], _ =>
    simp only [List.length_cons, List.length_nil] at hj
    interval_cases j <;> (simp only [List.getElem_cons_zero, List.getElem_cons_succ]; revert a b c d e f g; decide +kernel)
  | [a, b, c, d, e, f, g, k], _ =>
    simp only [List.length_cons, List.length_nil] at hj
    interval_cases j <;> (simp only [List.getElem_cons_zero, List.getElem_cons_succ]; revert a b c d e f g k; decide +kernel)

theorem Bits.index_ofList (l : List Bool) (i : Nat) (hi : i < l.length) :
    (ofList l).index i = .ok l[i] := by
  have hq : 8 * (i / 8) < l.length := by omega
  have hg := pack_getElem hq
  have hlen : ((l.drop (8 * (i / 8))).take 8).length ≤ 8 := by simp
  have hj : i % 8 < ((l.drop (8 * (i / 8))).take 8).length := by simp; omega
  have hb := byte_get _ hlen (i % 8) hj
  unfold index
  have hv : (ofList l).valid = l.length := rfl
  have hbk : (ofList l).backing = pack l := rfl
  rw [hv, if_pos hi, hbk, hg]
  simp only [hb]
  congr 1
  simp only [List.getElem_take, List.getElem_drop]
  congr 1
  omega

theorem Bits.displayBit_ofList (l : List Bool) (i : Nat) (hi : i < l.length) :
    (ofList l).displayBit i = .ok (if l[i] then '1' else '0') := by
  have h := index_ofList l i hi
  have hv : (ofList l).valid = l.length := rfl
  unfold index at h
  rw [hv, if_pos hi] at h
  unfold displayBit
  split at h
  · rename_i x hx
    simp only [Out.ok.injEq] at h
    simp only [← h, decide_eq_true_eq]
  · cases h

theorem Bits.mapM_ok {α β : Type} (f : α → Out Empty β) (g : α → β) (l : List α)
    (h : ∀ a ∈ l, f a = .ok (g a)) : l.mapM f = .ok (l.map g) := by
  induction l with
  | nil => rfl
  | cons a l ih =>
    rw [List.mapM_cons, h a (by simp), ih (fun b hb => h b (by simp [hb]))]
    rfl

theorem Bits.display_ofList (l : List Bool) :
    (ofList l).display = .ok (l.map (fun b => if b then '1' else '0')) := by
  unfold display
  have hv : (ofList l).valid = l.length := rfl
  rw [hv]
  by_cases h0 : l = []
  · subst h0; rfl
  · have hpos : 0 < l.length := List.length_pos_iff.mpr h0
    rw [if_neg (by omega)]
    rw [mapM_ok _ (fun i => if l.getD i false then '1' else '0')]
    · rw [displayBit_ofList l (l.length - 1) (by omega)]
      simp only [Out.ok_bind, Out.pure_eq, Out.ok.injEq]
      apply List.ext_getElem
      · simp; omega
      · intro i h1 h2
        simp only [List.length_map] at h2
        by_cases hi : i < l.length - 1
        · rw [List.getElem_append_left (by simpa using hi)]
          simp [List.getElem?_eq_getElem h2]
        · have : i = l.length - 1 := by omega
          subst this
          rw [List.getElem_append_right (by simp)]
          simp
    · intro i hi
      simp only [List.mem_range] at hi
      rw [displayBit_ofList l i (by omega)]
      simp [List.getD_eq_getElem?_getD, List.getElem?_eq_getElem (show i < l.length by omega)]

theorem Bits.byteBools_length (b : UInt8) : (byteBools b).length = 8 := by simp [byteBools]

theorem Bits.packByte_byteBools (b : UInt8) : UInt8.ofNat (packByte (byteBools b)) = b := by
  have h : ∀ n : Fin 256, UInt8.ofNat (packByte (byteBools (UInt8.ofNat n.val))) = UInt8.ofNat n.val := by
    decide +kernel
  have := h ⟨b.toNat, b.toNat_lt⟩
  simpa using this

theorem Bits.pack_bytes (bytes : List UInt8) :
    pack (bytes.flatMap byteBools) = bytes ∧ (bytes.flatMap byteBools).length = bytes.length * 8 := by
  induction bytes with
  | nil => exact ⟨rfl, rfl⟩
  | cons b bs ih =>
    have h8 := byteBools_length b
    constructor
    · rw [List.flatMap_cons, pack_append (q := 1) (by omega), ih.1,
        pack_short (by intro h; rw [h] at h8; simp at h8) (by omega), packByte_byteBools]
      rfl
    · rw [List.flatMap_cons, List.length_append, ih.2, h8, List.length_cons]; omega

theorem Bits.fromBinary_eq (bytes : List UInt8) :
    fromBinary bytes = ofList (bytes.flatMap byteBools) := by
  obtain ⟨h1, h2⟩ := pack_bytes bytes
  simp [fromBinary, ofList, h1, h2]

theorem Bits.implStep_ofList (l : List Bool) (op : Op) :
    implStep (ofList l) op = .ok ((specStep l op).1, ofList (specStep l op).2) := by
  cases op with
  | push x => simp [implStep, specStep, push_ofList]
  | pop =>
    rcases List.eq_nil_or_concat l with h | ⟨l', x, h⟩
    · subst h; rfl
    · subst h
      simp only [List.concat_eq_append, implStep, pop_ofList, specStep, Out.ok_bind, Out.pure_eq,
        List.getLast?_append, List.getLast?_singleton, Option.some_or, List.dropLast_concat]
  | extend l' => simp [implStep, specStep, ofBools_eq, pushMany_ofList]
  | clear => rfl
  | fromList l' => simp [implStep, specStep, ofBools_eq]
  | fromBytes bytes => simp [implStep, specStep, fromBinary_eq]

theorem Bits.implRun_ofList (ops : List Op) (l : List Bool) :
    implRun ops (ofList l) = .ok ((specRun ops l).1, ofList (specRun ops l).2) := by
  induction ops generalizing l with
  | nil => rfl
  | cons op ops ih =>
    simp [implRun, specRun, implStep_ofList, ih]

/-! ## C14: `Bits` behaves as a sequence of booleans -/

/-- C14: for every history of operations starting from an empty `Bits`, no operation panics, every
`pop` returns what the list of booleans would, and at the end the length, iteration, indexing and
display agree with that list. -/
theorem C14_bits_refine (ops : List Op) :
    ∃ b, implRun ops Bits.empty = .ok ((specRun ops []).1, b) ∧
      b.len = (specRun ops []).2.length ∧
      b.isEmpty = (specRun ops []).2.isEmpty ∧
      b.toBools = .ok (specRun ops []).2 ∧
      (∀ i (h : i < (specRun ops []).2.length), b.index i = .ok (specRun ops []).2[i]) ∧
      (∀ i, (specRun ops []).2.length ≤ i → b.index i = .panic .explicit) ∧
      b.display = .ok ((specRun ops []).2.map (fun x => if x then '1' else '0')) := by
  refine ⟨ofList (specRun ops []).2, ?_, rfl, ?_, toBools_ofList _, fun i h => index_ofList _ i h, ?_,
    display_ofList _⟩
  · rw [empty_eq, implRun_ofList]
  · cases h : (specRun ops []).2 <;> simp [Bits.isEmpty, ofList]
  · intro i hi
    unfold index
    rw [if_neg]
    show ¬ i < (specRun ops []).2.length
    omega

/-- C14: the array index used by `push` is in range in every state reached by a history (so the
total function `push` is faithful to the panicking Rust one). -/
theorem C14_push_in_range (ops : List Op) {out : List (Option Bool)} {b : Bits}
    (h : implRun ops Bits.empty = .ok (out, b)) :
    b.valid / 8 < (if b.valid % 8 = 0 then b.backing ++ [0] else b.backing).length := by
  rw [empty_eq, implRun_ofList] at h
  simp only [Out.ok.injEq, Prod.mk.injEq] at h
  rw [← h.2]
  have := pack_length (specRun ops []).2
  show (specRun ops []).2.length / 8 <
    (if (specRun ops []).2.length % 8 = 0 then pack (specRun ops []).2 ++ [0]
      else pack (specRun ops []).2).length
  split
  · simp only [List.length_append, List.length_singleton]; omega
  · omega

example : implRun [.push true, .extend [false, true, true, true, true, true, true, true], .pop, .pop,
    .push false, .pop] Bits.empty = .ok ([some true, some true, some false], ofBools
      [true, false, true, true, true, true, true]) := by decide

/-! ## C15: `Bits` byte format -/

/-- C15 exactly: a `Bits` of `n` bits round-trips if and only if the floating-point byte count equals
the true byte count. -/
theorem C15_roundtrip_iff (l : List Bool) (hl : l.length < 2 ^ 64) :
    ∃ bytes, (ofBools l).ser = .ok bytes ∧
      ((∀ pre tail : List UInt8, (pre ++ bytes ++ tail).length < 2 ^ 64 →
        Bits.deser ⟨pre ++ bytes ++ tail, pre.length⟩
          = .ok (ofBools l, ⟨pre ++ bytes ++ tail, (pre ++ bytes).length⟩)) ↔
        (bytesToRead l.length = (l.length + 7) / 8 ∨ 2 ^ 64 ≤ bytes.length)) := by
  refine ⟨(Integer.ofUnsigned 8 l.length).ser.2 ++ pack l,
    by rw [ofBools_eq]; simp [ser, properBytes_ofList]; rfl, ?_⟩
  have key : bytesToRead l.length = (l.length + 7) / 8 →
      Reads Bits.deser ((Integer.ofUnsigned 8 l.length).ser.2 ++ pack l) (ofList l) := by
    intro h
    unfold Bits.deser
    refine usize_reads' (n := l.length) hl ?_
    rw [show pack l = pack l ++ [] by simp]
    refine Reads.bind (Reads.read _ ?_) ?_
    · rw [h, pack_length]
    · exact Reads.pure _
  constructor
  · intro h
    by_cases hb : 2 ^ 64 ≤ ((Integer.ofUnsigned 8 l.length).ser.2 ++ pack l).length
    · exact .inr hb
    · left
      have h0 := h [] [] (by simpa using hb)
      have hrun : ∀ n, Bits.deser ⟨[] ++ ((Integer.ofUnsigned 8 l.length).ser.2 ++ pack l) ++ [], 0⟩
          = .ok (ofBools l, n) → bytesToRead l.length = (l.length + 7) / 8 := by
        intro n hd
        have hr := usize_reads' (n := l.length) hl (k := fun m => (fun c =>
            ((do
              let backing ← Parser.read .notEnoughBytes (bytesToRead m)
              return (⟨backing, m⟩ : Bits)) : Parser IntegerSerError Bits) c))
          (bs := []) (y := ofBools l)
        unfold Bits.deser at hd
        rw [Parser.bind_apply, Out.bind_eq_ok] at hd
        obtain ⟨⟨i, c1⟩, hi, hd⟩ := hd
        simp only at hd
        rw [Parser.bind_apply, Out.bind_eq_ok] at hd
        obtain ⟨⟨v, c2⟩, hv, hd⟩ := hd
        simp only at hd
        rw [Parser.bind_apply, Out.bind_eq_ok] at hd
        obtain ⟨⟨bk, c3⟩, hbk, hd⟩ := hd
        simp only [Parser.pure_apply, Out.ok.injEq, Prod.mk.injEq] at hd
        obtain ⟨hd, _⟩ := hd
        rw [ofBools_eq] at hd
        have hval : v = l.length := congrArg Bits.valid hd
        have hback : bk = pack l := congrArg Bits.backing hd
        have hlen : bk.length = bytesToRead v := by
          unfold Parser.read Cursor.read at hbk
          simp only [checkedAdd] at hbk
          split at hbk
          · rename_i heq
            split at heq
            · cases heq
            · rename_i heq1
              split at heq
              · cases heq
              · simp only [Prod.mk.injEq, Option.some.injEq] at heq
                split at heq1
                · simp only [Option.some.injEq] at heq1
                  simp only [Out.ok.injEq, Prod.mk.injEq] at hbk
                  rw [← hbk.1, ← heq.1]
                  simp only [Cursor.slice, List.length_take, List.length_drop]
                  omega
                · cases heq1
          · cases hbk
        rw [← hval, ← hlen, hback, pack_length, hval]
      exact hrun _ h0
  · rintro (h | h)
    · intro pre tail hlen
      have := key h pre tail hlen
      rw [ofBools_eq]
      simpa [Cursor.At] using this
    · intro pre tail hlen
      simp only [List.length_append] at hlen h
      omega

/-- C15, partial: round trip up to `2^24` bits (2 MiB). Missing: longer bit strings. -/
theorem C15_bits_roundtrip_partial (l : List Bool) (hl : l.length ≤ 2 ^ 24) :
    ∃ bytes, (ofBools l).ser = .ok bytes ∧
      ∀ pre tail : List UInt8, (pre ++ bytes ++ tail).length < 2 ^ 64 →
        Bits.deser ⟨pre ++ bytes ++ tail, pre.length⟩
          = .ok (ofBools l, ⟨pre ++ bytes ++ tail, (pre ++ bytes).length⟩) := by
  obtain ⟨bytes, h1, h2⟩ := C15_roundtrip_iff l (by omega)
  exact ⟨bytes, h1, h2.mpr (.inl (bytesToRead_small hl))⟩

/-- What happens to the bytes of `2^24 + 1` bits. -/
theorem Bits.long_bits (l : List Bool) (hl : l.length = 2 ^ 24 + 1) :
    ∃ front last, (ofBools l).ser = .ok ((Integer.ofUnsigned 8 l.length).ser.2 ++ front ++ [last]) ∧
      front.length = 2097152 ∧
      Reads Bits.deser ((Integer.ofUnsigned 8 l.length).ser.2 ++ front) ⟨front, l.length⟩ ∧
      Bits.toBools ⟨front, l.length⟩ = .panic .index := by
  have hbr : bytesToRead (2 ^ 24 + 1) = 2097152 := by decide +kernel
  have hpl : (pack l).length = 2097153 := by rw [pack_length, hl]; norm_num
  obtain ⟨front, last, hsplit⟩ : ∃ front last, pack l = front ++ [last] := by
    rcases List.eq_nil_or_concat (pack l) with h | ⟨a, b, h⟩
    · rw [h] at hpl; simp at hpl
    · exact ⟨a, b, by simpa using h⟩
  have hfl : front.length = 2097152 := by
    have := congrArg List.length hsplit
    simp at this; omega
  have hreads : Reads Bits.deser ((Integer.ofUnsigned 8 l.length).ser.2 ++ front) ⟨front, l.length⟩ := by
    unfold Bits.deser
    refine usize_reads' (n := l.length) (by omega) ?_
    rw [show front = front ++ [] by simp]
    refine Reads.bind (Reads.read _ ?_) ?_
    · rw [hl, hbr, hfl]
    · simp only [List.append_nil]; exact Reads.pure _
  refine ⟨front, last, ?_, hfl, hreads, ?_⟩
  · rw [ofBools_eq]; simp only [ser, properBytes_ofList, hsplit, List.append_assoc]; rfl
  · unfold toBools
    simp only [hl]
    obtain ⟨front', x, hf⟩ : ∃ f x, front = f ++ [x] := by
      rcases List.eq_nil_or_concat front with h | ⟨a, b, h⟩
      · rw [h] at hfl; simp at hfl
      · exact ⟨a, b, by simpa using h⟩
    have hf' : front'.length = 2097151 := by
      have := congrArg List.length hf
      simp at this; omega
    obtain ⟨n, hn, hn'⟩ : ∃ n, (2 : Nat) ^ 24 + 1 = n + 1 + 1 ∧ n = 16777215 :=
      ⟨16777215, by norm_num, rfl⟩
    rw [hn]
    have p1 : Bits.pop ⟨front, n + 1 + 1⟩ = .ok (some (decide (x > 0)), ⟨front', n + 1⟩) := by
      have h0 : (n + 1) % 8 = 0 := by omega
      unfold pop
      simp only [h0, if_true, hf, List.getLast?_concat, List.dropLast_concat, Nat.add_one_sub_one]
      simp
    have p2 : Bits.pop ⟨front', n + 1⟩ = .panic .index := by
      have h0 : ¬ n % 8 = 0 := by omega
      have h1 : front'[n / 8]? = none := List.getElem?_eq_none (by omega)
      unfold pop
      simp [h0, h1]
    clear hn hn'
    rw [drain, p1]
    simp only
    rw [drain, p2]

/-- C15 is violated by every `Bits` of `2^24 + 1` bits: deserialisation leaves one byte unread, and
reading the bits of the result panics. -/
theorem C15_refuted (l : List Bool) (hl : l.length = 2 ^ 24 + 1) :
    ∃ bytes b c, (ofBools l).ser = .ok bytes ∧ Bits.deser (Cursor.new bytes) = .ok (b, c) ∧
      c.pos + 1 = bytes.length ∧ b.toBools = .panic .index := by
  obtain ⟨front, last, hser, hfl, hreads, hpanic⟩ := Bits.long_bits l hl
  have hw : Width 8 := by unfold Width; decide
  have hn : IsUnsigned 8 l.length := by unfold IsUnsigned; rw [hl]; decide
  have hisz := (C07_size_le hw).1 _ hn
  have hrun := hreads [] [last] (by
    simp only [List.length_append, List.length_nil, List.length_singleton, hfl, usizeMod]; omega)
  refine ⟨_, ⟨front, l.length⟩,
    Cursor.At ([] ++ ((Integer.ofUnsigned 8 l.length).ser.2 ++ front)) [last], hser, ?_, ?_, hpanic⟩
  · simpa [Cursor.At, Cursor.new] using hrun
  · simp [Cursor.At]; omega

example : ∃ l : List Bool, l.length = 2 ^ 24 + 1 := ⟨List.replicate _ true, List.length_replicate⟩

/-! ## C16: equality and hash of `Bits` -/

/-- C16 for API-built `Bits` (partial): equal iff same booleans, and then same hash data. -/
theorem C16_eq_partial (ops ops' : List Op) {o o' : List (Option Bool)} {b b' : Bits}
    (h : implRun ops Bits.empty = .ok (o, b)) (h' : implRun ops' Bits.empty = .ok (o', b')) :
    b.eq b' = .ok (decide (b.toBools = b'.toBools)) ∧
    (b.eq b' = .ok true → b.hashData = b'.hashData) := by
  rw [empty_eq, implRun_ofList] at h h'
  simp only [Out.ok.injEq, Prod.mk.injEq] at h h'
  rw [← h.2, ← h'.2]
  simp only [eq_ofList, toBools_ofList, Out.ok.injEq, decide_eq_true_eq, hashData,
    properBytes_ofList]
  exact ⟨trivial, fun h => by rw [h]⟩

/-- C16 is violated for deserialised `Bits`: the bytes `[1, 4]` and `[1, 0]` give `Bits` that compare
`==` and hash alike but iterate differently. -/
theorem C16_refuted_eq_iter :
    ∃ a b ca cb, Bits.deser (Cursor.new [1, 4]) = .ok (a, ca) ∧
      Bits.deser (Cursor.new [1, 0]) = .ok (b, cb) ∧
      a.eq b = .ok true ∧ a.toBools = .ok [true] ∧ b.toBools = .ok [false] :=
  ⟨⟨[4], 1⟩, ⟨[0], 1⟩, ⟨[1, 4], 2⟩, ⟨[1, 0], 2⟩, by decide, by decide, by decide, by decide, by decide⟩

/-- C16 is violated: `[1, 2]` gives a `Bits` whose only bit is 0 by indexing but 1 by iteration, and it
differs by `==` from the `Bits` of `[1, 0]` although indexing sees the same bit. -/
theorem C16_refuted_index_iter :
    ∃ a b ca cb, Bits.deser (Cursor.new [1, 2]) = .ok (a, ca) ∧
      Bits.deser (Cursor.new [1, 0]) = .ok (b, cb) ∧
      a.index 0 = .ok false ∧ a.toBools = .ok [true] ∧ b.index 0 = .ok false ∧
      a.len = b.len ∧ a.eq b = .ok false :=
  ⟨⟨[2], 1⟩, ⟨[0], 1⟩, ⟨[1, 2], 2⟩, ⟨[1, 0], 2⟩, by decide, by decide, by decide, by decide,
    by decide, by decide, by decide⟩

end Souris
