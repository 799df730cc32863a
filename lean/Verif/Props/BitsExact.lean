import Verif.Props.Bits

/-! # What deserialised `Bits` look like (C16) -/

namespace Souris

open Bits

/-! ## Iterating -/

theorem modify_behind {α : Type} (a b : List α) (f : α → α) : (a ++ b).modify a.length f = a ++ b.modify 0 f := by
  induction a with
  | nil => rfl
  | cons x a ih => simp [ih]

theorem head_take_one {α : Type} (l : List α) : (l.take 1).head? = l.head? := by cases l <;> rfl

/-- Bytes in front do not change how the bits behind them are popped. -/
theorem Bits.drain_front (front : List UInt8) : ∀ (i : Nat) (back : List UInt8) (acc : List Bool), back.length = (i + 7) / 8 →
    drain (8 * front.length + i) ⟨front ++ back, 8 * front.length + i⟩ acc =
      (match drain i ⟨back, i⟩ acc with
        | .ok l => drain (8 * front.length) ⟨front, 8 * front.length⟩ l
        | .err e => .err e
        | .panic p => .panic p) := by
  intro i
  induction i with
  | zero =>
    intro back acc h
    have : back = [] := List.length_eq_zero_iff.mp (by omega)
    subst this
    simp [drain]
  | succ i ih =>
    intro back acc h
    have e1 : 8 * front.length + (i + 1) = (8 * front.length + i) + 1 := by omega
    rw [e1, drain, drain]
    have hm : (8 * front.length + i) % 8 = i % 8 := by omega
    have hd : (8 * front.length + i) / 8 = front.length + i / 8 := by omega
    unfold pop
    simp only [Nat.add_one_sub_one, hm, hd, Nat.add_eq_zero_iff, Nat.one_ne_zero, and_false, if_false]
    by_cases h0 : i % 8 = 0
    · simp only [h0, if_true]
      obtain ⟨b', x, rfl⟩ : ∃ b' x, back = b' ++ [x] := by
        rcases List.eq_nil_or_concat back with h' | ⟨a, b, h'⟩
        · rw [h'] at h; simp at h; omega
        · exact ⟨a, b, by simpa using h'⟩
      rw [← List.append_assoc, List.getLast?_concat, List.getLast?_concat, List.dropLast_concat, List.dropLast_concat]
      simp only
      exact ih b' _ (by simp at h; omega)
    · simp only [h0, if_false]
      have hlt : i / 8 < back.length := by omega
      rw [List.getElem?_append_right (by omega), Nat.add_sub_cancel_left, List.getElem?_eq_getElem hlt]
      simp only
      rw [List.set_append_right _ _ (by omega), Nat.add_sub_cancel_left]
      exact ih _ _ (by simp; omega)

/-- The bits of a last byte that is not full. -/
theorem Bits.drain_last (y : UInt8) {i : Nat} (h0 : 0 < i) (h8 : i < 8) :
    drain i ⟨[y], i⟩ [] = .ok (((byteBools y).take i).modify 0 (· || ((byteBools y).drop i).any id)) := by
  have h : ∀ n : Fin 256, ∀ i : Fin 8, 0 < i.val → drain i.val ⟨[UInt8.ofNat n.val], i.val⟩ [] =
      .ok (((byteBools (UInt8.ofNat n.val)).take i.val).modify 0 (· || ((byteBools (UInt8.ofNat n.val)).drop i.val).any id)) := by
    decide +kernel
  have := h ⟨y.toNat, y.toNat_lt⟩ ⟨i, h8⟩ h0
  simpa using this

theorem Bits.mask_last (y : UInt8) {i : Nat} (h0 : 0 < i) (h8 : i < 8) :
    byteBools (y &&& maskOf i) = (byteBools y).take (i + 1) ++ List.replicate (7 - i) false := by
  have h : ∀ n : Fin 256, ∀ i : Fin 8, 0 < i.val → byteBools (UInt8.ofNat n.val &&& maskOf i.val) =
      (byteBools (UInt8.ofNat n.val)).take (i.val + 1) ++ List.replicate (7 - i.val) false := by
    decide +kernel
  have := h ⟨y.toNat, y.toNat_lt⟩ ⟨i, h8⟩ h0
  simpa using this

theorem Bits.byteBools_inj {x y : UInt8} (h : byteBools x = byteBools y) : x = y := by
  rw [← packByte_byteBools x, ← packByte_byteBools y, h]

/-- The bits that are counted, and those that only fill up the last byte. -/
def Bits.Split (b : Bits) (l pad : List Bool) : Prop :=
  b.backing.flatMap byteBools = l ++ pad ∧ l.length = b.valid ∧ pad.length < 8

theorem Bits.split_of {b : Bits} (h : b.backing.length = (b.valid + 7) / 8) : ∃ l pad, b.Split l pad := by
  have hl := (pack_bytes b.backing).2
  refine ⟨(b.backing.flatMap byteBools).take b.valid, (b.backing.flatMap byteBools).drop b.valid, ?_, ?_, ?_⟩
  · rw [List.take_append_drop]
  · rw [List.length_take]; omega
  · rw [List.length_drop]; omega

/-- The bytes in front of the last one that is not full, and that one. -/
theorem Bits.Split.last {b : Bits} {l pad : List Bool} (h : b.Split l pad) :
    (b.valid % 8 = 0 ∧ pad = [] ∧ b = ofList l) ∨
    (∃ front y, 0 < b.valid % 8 ∧ b.backing = front ++ [y] ∧ b.valid = 8 * front.length + b.valid % 8 ∧
      l = front.flatMap byteBools ++ (byteBools y).take (b.valid % 8) ∧ pad = (byteBools y).drop (b.valid % 8)) := by
  obtain ⟨h1, h2, h3⟩ := h
  obtain ⟨hp, hl⟩ := pack_bytes b.backing
  have hlen := congrArg List.length h1
  rw [hl, List.length_append] at hlen
  rcases Nat.eq_zero_or_pos (b.valid % 8) with h0 | h0
  · left
    have hpad : pad = [] := List.length_eq_zero_iff.mp (by omega)
    refine ⟨h0, hpad, ?_⟩
    rw [hpad, List.append_nil] at h1
    rw [h1] at hp
    obtain ⟨bk, v⟩ := b
    unfold ofList
    simp only [Bits.mk.injEq]
    exact ⟨hp.symm, h2.symm⟩
  · right
    obtain ⟨front, y, hb⟩ : ∃ front y, b.backing = front ++ [y] := by
      rcases List.eq_nil_or_concat b.backing with h' | ⟨a, x, h'⟩
      · rw [h'] at hlen; simp at hlen; omega
      · exact ⟨a, x, by simpa using h'⟩
    have hf := (pack_bytes front).2
    have hb8 := byteBools_length y
    have hv : b.valid = 8 * front.length + b.valid % 8 := by
      rw [hb] at hlen
      simp at hlen
      omega
    rw [hb, List.flatMap_append, List.flatMap_singleton] at h1
    have e : (front.flatMap byteBools ++ (byteBools y).take (b.valid % 8)) ++ (byteBools y).drop (b.valid % 8) = l ++ pad := by
      rw [List.append_assoc, List.take_append_drop, h1]
    obtain ⟨e1, e2⟩ := List.append_inj e (by rw [List.length_append, List.length_take, hf, hb8, h2]; omega)
    exact ⟨front, y, h0, hb, hv, e1.symm, e2.symm⟩

/-- Iterating yields the bits; only if a bit is set behind the last one, then the first bit of the last byte is taken for
set. -/
theorem Bits.Split.toBools {b : Bits} {l pad : List Bool} (h : b.Split l pad) :
    b.toBools = .ok (l.modify (8 * (b.valid / 8)) (· || pad.any id)) := by
  have hl := h.2.1
  rcases h.last with ⟨h0, rfl, rfl⟩ | ⟨front, y, h0, hb, hv, rfl, rfl⟩
  · rw [toBools_ofList, List.modify_eq_self]
    rw [hl]
    omega
  · obtain ⟨bk, v⟩ := b
    simp only at h0 hb hv hl ⊢
    subst hb
    generalize hi : v % 8 = i at *
    have h8 : i < 8 := by omega
    have hd : 8 * (v / 8) = (front.flatMap byteBools).length := by rw [(pack_bytes front).2]; omega
    rw [hd]
    unfold Bits.toBools
    simp only
    rw [hv, drain_front front i [y] [] (by simp; omega), drain_last y h0 h8]
    simp only
    have := drain_ofList (front.flatMap byteBools) (((byteBools y).take i).modify 0 (· || ((byteBools y).drop i).any id))
    rw [← fromBinary_eq, (pack_bytes front).2, Nat.mul_comm, fromBinary, Nat.mul_comm front.length 8] at this
    rw [this]
    congr 1
    rw [modify_behind]

/-- Indexing yields the bits. -/
theorem Bits.Split.index {b : Bits} {l pad : List Bool} (h : b.Split l pad) (i : Nat) :
    b.index i = if hi : i < l.length then .ok l[i] else .panic .explicit := by
  obtain ⟨h1, h2, h3⟩ := h
  split
  · rename_i hi
    have := index_ofList (b.backing.flatMap byteBools) i (by rw [h1, List.length_append]; omega)
    rw [← fromBinary_eq] at this
    unfold Bits.index at this ⊢
    rw [if_pos (by simp only [fromBinary]; rw [← (pack_bytes b.backing).2, h1, List.length_append]; omega)] at this
    rw [if_pos (by omega)]
    simp only [fromBinary] at this
    rw [this]
    congr 1
    rw [List.getElem_of_eq h1, List.getElem_append_left hi]
  · unfold Bits.index
    rw [if_neg (by omega)]

theorem Bits.Split.display {b : Bits} {l pad : List Bool} (h : b.Split l pad) :
    b.display = .ok (l.map fun x => if x then '1' else '0') := by
  have hbit : ∀ i (hi : i < l.length), b.displayBit i = .ok (if l[i] then '1' else '0') := by
    intro i hi
    have := h.index i
    rw [dif_pos hi] at this
    unfold Bits.index at this
    rw [if_pos (by rw [← h.2.1]; exact hi)] at this
    unfold displayBit
    split at this
    · rename_i x hx
      simp only [Out.ok.injEq] at this
      rw [← this]
      simp
    · cases this
  unfold Bits.display
  rw [← h.2.1]
  rcases Nat.eq_zero_or_pos l.length with h0 | h0
  · rw [if_pos h0, List.length_eq_zero_iff.mp h0]
    rfl
  · rw [if_neg (by omega), hbit _ (by omega)]
    rw [mapM_ok (b.displayBit) (fun i => if l.getD i false then '1' else '0')]
    · have hsplit : l = l.dropLast ++ [l[l.length - 1]] := by
        have hne : l ≠ [] := by rintro rfl; simp at h0
        rw [← List.getLast_eq_getElem hne, List.dropLast_concat_getLast]
      have e : (List.range (l.length - 1)).map (fun i => if l.getD i false then '1' else '0') =
          l.dropLast.map (fun x => if x then '1' else '0') := by
        refine List.ext_getElem (by simp) fun i h1 h2 => ?_
        simp only [List.length_map, List.length_range] at h1
        simp [List.getElem?_eq_getElem (show i < l.length by omega)]
      have e2 : l.map (fun x => if x then '1' else '0') =
          l.dropLast.map (fun x => if x then '1' else '0') ++ [if l[l.length - 1] then '1' else '0'] := by
        conv_lhs => rw [hsplit]
        simp
      rw [e, e2]
      rfl
    · intro i hi
      rw [List.mem_range] at hi
      rw [hbit i (by omega)]
      simp [List.getElem?_eq_getElem (show i < l.length by omega)]

/-- What is compared and hashed: the bits, and the one behind the last. -/
theorem Bits.Split.properBytes {b : Bits} {l pad : List Bool} (h : b.Split l pad) :
    ∃ bytes, b.properBytes = .ok bytes ∧
      bytes.flatMap byteBools = l ++ pad.take 1 ++ List.replicate (pad.length - 1) false := by
  rcases h.last with ⟨h0, rfl, rfl⟩ | ⟨front, y, h0, hb, hv, rfl, rfl⟩
  · refine ⟨pack l, properBytes_ofList l, ?_⟩
    have := h.1
    simpa [ofList] using this
  · have h8 : b.valid % 8 < 8 := by omega
    refine ⟨front ++ [y &&& maskOf (b.valid % 8)], ?_, ?_⟩
    · unfold Bits.properBytes
      simp only
      rw [if_neg (by omega), if_neg (by rw [hb]; simp), hb, modify_concat front y _ (by simp)]
      rfl
    · rw [List.flatMap_append, List.flatMap_singleton, mask_last y h0 h8]
      have hlen := byteBools_length y
      rw [List.length_drop, hlen, show 8 - b.valid % 8 - 1 = 7 - b.valid % 8 by omega, List.append_assoc, List.append_assoc]
      congr 1
      rw [← List.append_assoc]
      congr 1
      rw [List.take_add]

theorem flatMap_byteBools_inj {x y : List UInt8} (h : x.flatMap byteBools = y.flatMap byteBools) : x = y := by
  rw [← (pack_bytes x).1, ← (pack_bytes y).1, h]

/-- Two `Bits` are equal if their bits are, and the one behind the last. -/
theorem Bits.Split.eq {a b : Bits} {l pad l' pad' : List Bool} (h : a.Split l pad) (h' : b.Split l' pad') :
    a.eq b = .ok (decide (l = l' ∧ pad.head? = pad'.head?)) := by
  unfold Bits.eq
  obtain ⟨x, hx, hx'⟩ := h.properBytes
  obtain ⟨y, hy, hy'⟩ := h'.properBytes
  split
  · rename_i hv
    rw [hx, hy]
    simp only [Out.ok.injEq, decide_eq_decide]
    have hll : l.length = l'.length := by rw [h.2.1, h'.2.1, hv]
    have hpl : pad.length = pad'.length := by
      have h1 := congrArg List.length h.1
      have h2 := congrArg List.length h'.1
      rw [(pack_bytes _).2, List.length_append] at h1 h2
      have := h.2.2
      have := h'.2.2
      omega
    constructor
    · intro e
      rw [e, hy'] at hx'
      rw [List.append_assoc, List.append_assoc] at hx'
      obtain ⟨e1, e2⟩ := List.append_inj hx' hll.symm
      obtain ⟨e3, _⟩ := List.append_inj e2 (by simp [hpl])
      refine ⟨e1.symm, ?_⟩
      have := congrArg List.head? e3
      rw [head_take_one, head_take_one] at this
      exact this.symm
    · rintro ⟨rfl, e⟩
      refine flatMap_byteBools_inj ?_
      rw [hx', hy', hpl]
      congr 2
      cases pad <;> cases pad' <;> simp_all
  · rename_i hv
    simp only [Out.ok.injEq]
    symm
    rw [decide_eq_false_iff_not]
    rintro ⟨rfl, _⟩
    exact hv (by rw [← h.2.1, ← h'.2.1])

/-! ## Deserialised -/

theorem read_length {ε : Type} {e : ε} {n : Nat} {c c' : Cursor UInt8} {bs : List UInt8}
    (h : Parser.read e n c = .ok (bs, c')) : bs.length = n := by
  unfold Parser.read Cursor.read at h
  simp only [checkedAdd] at h
  split at h
  · rename_i heq
    split at heq
    · cases heq
    · rename_i heq1
      split at heq
      · cases heq
      · simp only [Prod.mk.injEq, Option.some.injEq] at heq
        split at heq1
        · simp only [Option.some.injEq] at heq1
          simp only [Out.ok.injEq, Prod.mk.injEq] at h
          rw [← h.1, ← heq.1]
          simp only [Cursor.slice, List.length_take, List.length_drop]
          omega
        · cases heq1
  · cases h

theorem Bits.deser_length {c c' : Cursor UInt8} {b : Bits} (h : Bits.deser c = .ok (b, c')) :
    b.backing.length = bytesToRead b.valid := by
  unfold Bits.deser at h
  rw [Parser.bind_apply, Out.bind_eq_ok] at h
  obtain ⟨⟨i, c1⟩, hi, h⟩ := h
  simp only at h
  rw [Parser.bind_apply, Out.bind_eq_ok] at h
  obtain ⟨⟨v, c2⟩, hv, h⟩ := h
  simp only at h
  rw [Parser.bind_apply, Out.bind_eq_ok] at h
  obtain ⟨⟨bk, c3⟩, hbk, h⟩ := h
  simp only [Parser.pure_apply, Out.ok.injEq, Prod.mk.injEq] at h
  obtain ⟨rfl, _⟩ := h
  exact read_length hbk

/-- **C16**, in part: what bytes that were read as `Bits` look like. They are the bits `l` and the bits `pad` that fill
up the last byte. Indexing and printing show `l`. Iterating shows `l` too, only that the first bit of a last byte that is
not full is also shown as set if any bit of `pad` is. Missing: lengths that C15 does not keep. -/
theorem C16_views_partial {c c' : Cursor UInt8} {b : Bits} (h : Bits.deser c = .ok (b, c'))
    (hk : bytesToRead b.len = (b.len + 7) / 8) :
    ∃ l pad, b.backing.flatMap byteBools = l ++ pad ∧ l.length = b.len ∧ pad.length < 8 ∧
      (∀ i, b.index i = if hi : i < l.length then .ok l[i] else .panic .explicit) ∧
      b.display = .ok (l.map fun x => if x then '1' else '0') ∧
      b.toBools = .ok (l.modify (8 * (b.len / 8)) (· || pad.any id)) := by
  obtain ⟨l, pad, hs⟩ := split_of (b := b) (by rw [deser_length h]; exact hk)
  exact ⟨l, pad, hs.1, hs.2.1, hs.2.2, hs.index, hs.display, hs.toBools⟩

/-- **C16**, in part: exactly which `Bits` are equal after they were read: those with the same bits, if the first one of
the bits that fill up the last byte is also the same. Then they are hashed alike. -/
theorem C16_eq_exact_partial {c c' d d' : Cursor UInt8} {a b : Bits} (ha : Bits.deser c = .ok (a, c'))
    (hb : Bits.deser d = .ok (b, d')) (hka : bytesToRead a.len = (a.len + 7) / 8) (hkb : bytesToRead b.len = (b.len + 7) / 8) :
    a.eq b = .ok (decide (a.len = b.len ∧
      ((a.backing.flatMap byteBools).take (a.len + 1)) = ((b.backing.flatMap byteBools).take (b.len + 1)))) ∧
    (a.eq b = .ok true → a.hashData = b.hashData) := by
  obtain ⟨l, pad, hs⟩ := split_of (b := a) (by rw [deser_length ha]; exact hka)
  obtain ⟨l', pad', hs'⟩ := split_of (b := b) (by rw [deser_length hb]; exact hkb)
  constructor
  · rw [hs.eq hs', hs.1, hs'.1]
    congr 1
    rw [decide_eq_decide]
    unfold Bits.len
    rw [← hs.2.1, ← hs'.2.1, List.take_length_add_append, List.take_length_add_append]
    constructor
    · rintro ⟨rfl, e⟩
      refine ⟨rfl, ?_⟩
      cases pad <;> cases pad' <;> simp_all
    · rintro ⟨hl, e⟩
      obtain ⟨rfl, e2⟩ := List.append_inj e hl
      refine ⟨rfl, ?_⟩
      have := congrArg List.head? e2
      rw [head_take_one, head_take_one] at this
      exact this
  · intro e
    unfold Bits.eq at e
    unfold hashData
    split at e
    · split at e
      · rename_i x y hx hy
        simp only [Out.ok.injEq, decide_eq_true_eq] at e
        rw [hx, hy, e]
      · cases e
    · cases e

/-- **C16**, in part: among `Bits` that were read and whose last bytes are filled up with zeros, as the writer does, `==` is
to have the same bits, by indexing and by iterating. Otherwise this is false (`C16_refuted_eq_iter`,
`C16_refuted_index_iter`). -/
theorem C16_zeros_partial {c c' d d' : Cursor UInt8} {a b : Bits} (ha : Bits.deser c = .ok (a, c'))
    (hb : Bits.deser d = .ok (b, d')) (hka : bytesToRead a.len = (a.len + 7) / 8) (hkb : bytesToRead b.len = (b.len + 7) / 8)
    (hza : ∀ x ∈ (a.backing.flatMap byteBools).drop a.len, x = false)
    (hzb : ∀ x ∈ (b.backing.flatMap byteBools).drop b.len, x = false) :
    (a.eq b = .ok true ↔ a.toBools = b.toBools) ∧
    (a.eq b = .ok true ↔ a.len = b.len ∧ ∀ i, a.index i = b.index i) ∧
    (a.eq b = .ok true → a.hashData = b.hashData) := by
  obtain ⟨l, pad, hs⟩ := split_of (b := a) (by rw [deser_length ha]; exact hka)
  obtain ⟨l', pad', hs'⟩ := split_of (b := b) (by rw [deser_length hb]; exact hkb)
  unfold Bits.len at hza hzb
  rw [hs.1, ← hs.2.1, List.drop_left] at hza
  rw [hs'.1, ← hs'.2.1, List.drop_left] at hzb
  have plain : ∀ {b : Bits} {l pad : List Bool}, b.Split l pad → (∀ x ∈ pad, x = false) → b.toBools = .ok l := by
    intro b l pad h hz
    rw [h.toBools]
    have : pad.any id = false := by
      rw [List.any_eq_false]
      intro x hx
      simp [hz x hx]
    rw [this]
    congr 1
    simp only [Bool.or_false]
    exact List.modify_id _ _
  have hpad : l = l' → pad.head? = pad'.head? := by
    rintro rfl
    have h1 := congrArg List.length hs.1
    have h2 := congrArg List.length hs'.1
    rw [(pack_bytes _).2, List.length_append] at h1 h2
    have := hs.2.2
    have := hs'.2.2
    cases pad with
    | nil => cases pad' with
      | nil => rfl
      | cons x xs => simp at h1 h2 ; simp at *; omega
    | cons x xs => cases pad' with
      | nil => simp at *; omega
      | cons y ys =>
        rw [hza x (by simp), hzb y (by simp)]
        rfl
  have key : a.eq b = .ok true ↔ l = l' := by
    rw [hs.eq hs']
    simp only [Out.ok.injEq, decide_eq_true_eq]
    exact ⟨fun h => h.1, fun h => ⟨h, hpad h⟩⟩
  refine ⟨?_, ?_, (C16_eq_exact_partial ha hb hka hkb).2⟩
  · rw [key, plain hs hza, plain hs' hzb, Out.ok.injEq]
  · rw [key]
    unfold Bits.len
    rw [← hs.2.1, ← hs'.2.1]
    constructor
    · rintro rfl
      exact ⟨rfl, fun i => by rw [hs.index, hs'.index]⟩
    · rintro ⟨hl, hi⟩
      refine List.ext_getElem hl fun i h1 h2 => ?_
      have := hi i
      rw [hs.index, hs'.index, dif_pos h1, dif_pos h2] at this
      exact Out.ok.inj this

/-- Three bits, with and without others behind them. -/
example : ∃ a b c d c1 c2 c3 c4, Bits.deser (Cursor.new [3, 5]) = .ok (a, c1) ∧ Bits.deser (Cursor.new [3, 21]) = .ok (b, c2) ∧
    Bits.deser (Cursor.new [3, 13]) = .ok (c, c3) ∧ Bits.deser (Cursor.new [3, 20]) = .ok (d, c4) ∧
    a.eq b = .ok true ∧ a.eq c = .ok false ∧ a.toBools = c.toBools ∧ d.toBools = a.toBools ∧ d.index 0 = .ok false ∧
    bytesToRead a.len = (a.len + 7) / 8 :=
  ⟨⟨[5], 3⟩, ⟨[21], 3⟩, ⟨[13], 3⟩, ⟨[20], 3⟩, ⟨[3, 5], 2⟩, ⟨[3, 21], 2⟩, ⟨[3, 13], 2⟩, ⟨[3, 20], 2⟩, by decide, by decide,
    by decide, by decide, by decide, by decide, by decide, by decide, by decide, by decide⟩

end Souris
