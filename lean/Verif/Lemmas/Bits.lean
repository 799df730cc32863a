import Verif.Model.Bits
import Verif.Lemmas.Integer2
import Mathlib.Data.List.Induction

/-! # Lemmas about `Bits`: representation by packed lists of booleans -/

namespace Souris

namespace Bits

/-- Little-endian packing of at most 8 booleans in a byte. -/
def packByte : List Bool → Nat
  | [] => 0
  | b :: bs => b.toNat + 2 * packByte bs

/-- Pack a list of booleans, 8 per byte, first boolean in the lowest bit, zero padding. -/
def pack : List Bool → List UInt8
  | [] => []
  | b0 :: b1 :: b2 :: b3 :: b4 :: b5 :: b6 :: b7 :: rest =>
    UInt8.ofNat (packByte [b0, b1, b2, b3, b4, b5, b6, b7]) :: pack rest
  | l => [UInt8.ofNat (packByte l)]

/-- The canonical `Bits` holding a list of booleans. -/
def ofList (l : List Bool) : Bits := ⟨pack l, l.length⟩

theorem pack_short {l : List Bool} (h0 : l ≠ []) (h : l.length ≤ 8) :
    pack l = [UInt8.ofNat (packByte l)] := by
  match l, h0, h with
  | [_], _, _ | [_, _], _, _ | [_, _, _], _, _ | [_, _, _, _], _, _ | [_, _, _, _, _], _, _
  | [_, _, _, _, _, _], _, _ | [_, _, _, _, _, _, _], _, _ | [_, _, _, _, _, _, _, _], _, _ => rfl

theorem pack_append {l1 l2 : List Bool} {q : Nat} (h : l1.length = 8 * q) :
    pack (l1 ++ l2) = pack l1 ++ pack l2 := by
  induction q generalizing l1 with
  | zero =>
    have : l1 = [] := List.length_eq_zero_iff.mp (by omega)
    subst this; rfl
  | succ q ih =>
    match l1, h with
    | b0 :: b1 :: b2 :: b3 :: b4 :: b5 :: b6 :: b7 :: rest, h =>
      simp only [List.length_cons] at h
      have := ih (l1 := rest) (by omega)
      simp only [List.cons_append, pack, this]

theorem pack_length_of {l1 : List Bool} {q : Nat} (h : l1.length = 8 * q) :
    (pack l1).length = q := by
  induction q generalizing l1 with
  | zero =>
    have : l1 = [] := List.length_eq_zero_iff.mp (by omega)
    subst this; rfl
  | succ q ih =>
    match l1, h with
    | b0 :: b1 :: b2 :: b3 :: b4 :: b5 :: b6 :: b7 :: rest, h =>
      simp only [List.length_cons] at h
      simp only [pack, List.length_cons]
      rw [ih]; omega

/-- Split off the bits of the last, incomplete byte. -/
theorem split8 (l : List Bool) : ∃ l1 l2, l = l1 ++ l2 ∧ l1.length = 8 * (l.length / 8) ∧
    l2.length = l.length % 8 := by
  refine ⟨l.take (8 * (l.length / 8)), l.drop (8 * (l.length / 8)), by simp, ?_, ?_⟩
  · simp; omega
  · simp; omega

theorem pack_length (l : List Bool) : (pack l).length = (l.length + 7) / 8 := by
  obtain ⟨l1, l2, h, h1, h2⟩ := split8 l
  have hl : l.length = l1.length + l2.length := by rw [h]; simp
  have hq := pack_length_of h1
  conv_lhs => rw [h, pack_append h1, List.length_append, hq]
  by_cases h0 : l2 = []
  · subst h0; simp [pack] at *; omega
  · rw [pack_short h0 (by omega)]
    have : l2.length ≠ 0 := fun h => h0 (List.length_eq_zero_iff.mp h)
    simp; omega

/-! ### Facts about single bytes, by finite enumeration -/

theorem byte_push (l : List Bool) (x : Bool) (h : l.length < 8) :
    UInt8.ofNat (packByte l) ||| (if x then bit l.length else 0) = UInt8.ofNat (packByte (l ++ [x])) := by
  match l, h with
  | [], _ => revert x; decide +kernel
  | [a], _ => revert a x; decide +kernel
  | [a, b], _ => revert a b x; decide +kernel
  | [a, b, c], _ => revert a b c x; decide +kernel
  | [a, b, c, d], _ => revert a b c d x; decide +kernel
  | [a, b, c, d, e], _ => revert a b c d e x; decide +kernel
  | [a, b, c, d, e, f], _ => revert a b c d e f x; decide +kernel
  | [a, b, c, d, e, f, g], _ => revert a b c d e f g x; decide +kernel

theorem byte_pop_bit (l : List Bool) (x : Bool) (h : l.length < 8) :
    decide (UInt8.ofNat (packByte (l ++ [x])) &&& bit l.length > 0) = x := by
  match l, h with
  | [], _ => revert x; decide +kernel
  | [a], _ => revert a x; decide +kernel
  | [a, b], _ => revert a b x; decide +kernel
  | [a, b, c], _ => revert a b c x; decide +kernel
  | [a, b, c, d], _ => revert a b c d x; decide +kernel
  | [a, b, c, d, e], _ => revert a b c d e x; decide +kernel
  | [a, b, c, d, e, f], _ => revert a b c d e f x; decide +kernel
  | [a, b, c, d, e, f, g], _ => revert a b c d e f g x; decide +kernel

theorem byte_pop_rest (l : List Bool) (x : Bool) (h : l.length < 8) :
    UInt8.ofNat (packByte (l ++ [x])) &&& (255 - bit l.length) = UInt8.ofNat (packByte l) := by
  match l, h with
  | [], _ => revert x; decide +kernel
  | [a], _ => revert a x; decide +kernel
  | [a, b], _ => revert a b x; decide +kernel
  | [a, b, c], _ => revert a b c x; decide +kernel
  | [a, b, c, d], _ => revert a b c d x; decide +kernel
  | [a, b, c, d, e], _ => revert a b c d e x; decide +kernel
  | [a, b, c, d, e, f], _ => revert a b c d e f x; decide +kernel
  | [a, b, c, d, e, f, g], _ => revert a b c d e f g x; decide +kernel

theorem byte_single (x : Bool) : decide (UInt8.ofNat (packByte [x]) > 0) = x := by
  cases x <;> decide

/-- The mask of bits.rs L121. -/
def maskOf (i : Nat) : UInt8 := (List.range (i + 1)).foldl (fun acc j => acc ||| bit j) 0

theorem byte_mask (l : List Bool) (h : l.length < 8) :
    UInt8.ofNat (packByte l) &&& maskOf l.length = UInt8.ofNat (packByte l) := by
  match l, h with
  | [], _ => decide +kernel
  | [a], _ => revert a; decide +kernel
  | [a, b], _ => revert a b; decide +kernel
  | [a, b, c], _ => revert a b c; decide +kernel
  | [a, b, c, d], _ => revert a b c d; decide +kernel
  | [a, b, c, d, e], _ => revert a b c d e; decide +kernel
  | [a, b, c, d, e, f], _ => revert a b c d e f; decide +kernel
  | [a, b, c, d, e, f, g], _ => revert a b c d e f g; decide +kernel

theorem packByte_lt (l : List Bool) : packByte l < 2 ^ l.length := by
  induction l with
  | nil => simp [packByte]
  | cons b l ih =>
    have : b.toNat ≤ 1 := Bool.toNat_le b
    simp only [packByte, List.length_cons, Nat.pow_succ]
    omega

theorem packByte_inj {l l' : List Bool} (hl : l.length = l'.length)
    (h : packByte l = packByte l') : l = l' := by
  induction l generalizing l' with
  | nil => exact (List.length_eq_zero_iff.mp hl.symm).symm
  | cons b l ih =>
    cases l' with
    | nil => simp at hl
    | cons b' l' =>
      simp only [packByte] at h
      have h1 : b.toNat ≤ 1 := Bool.toNat_le b
      have h2 : b'.toNat ≤ 1 := Bool.toNat_le b'
      have : b = b' := by
        cases b <;> cases b' <;> simp at * <;> omega
      subst this
      rw [ih (by simpa using hl) (by omega)]

theorem packByte_inj8 {l l' : List Bool} (hl : l.length = l'.length) (h8 : l.length ≤ 8)
    (h : UInt8.ofNat (packByte l) = UInt8.ofNat (packByte l')) : l = l' := by
  apply packByte_inj hl
  have h1 := packByte_lt l
  have h2 := packByte_lt l'
  have hp : 2 ^ l.length ≤ 2 ^ 8 := Nat.pow_le_pow_right (by decide) h8
  rw [← hl] at h2
  have := congrArg UInt8.toNat h
  simp only [UInt8.toNat_ofNat', Nat.reducePow] at this hp
  rw [Nat.mod_eq_of_lt (by omega), Nat.mod_eq_of_lt (by omega)] at this
  exact this

theorem pack_inj_aux (n : Nat) : ∀ {l l' : List Bool}, l.length ≤ n → l.length = l'.length →
    pack l = pack l' → l = l' := by
  induction n with
  | zero =>
    intro l l' hn hl _
    have h1 : l = [] := List.length_eq_zero_iff.mp (by omega)
    have h2 : l' = [] := List.length_eq_zero_iff.mp (by omega)
    rw [h1, h2]
  | succ n ih =>
    intro l l' hn hl h
    by_cases h8 : l.length ≤ 8
    · by_cases h0 : l = []
      · subst h0
        exact (List.length_eq_zero_iff.mp hl.symm).symm
      · have h0' : l' ≠ [] := fun h' => by subst h'; exact h0 (List.length_eq_zero_iff.mp hl)
        rw [pack_short h0 h8, pack_short h0' (by omega)] at h
        simp only [List.cons.injEq, and_true] at h
        exact packByte_inj8 hl h8 h
    · have h8' : 8 < l.length := by omega
      clear h8
      match l, l', hl, h8', h, hn with
      | a0 :: a1 :: a2 :: a3 :: a4 :: a5 :: a6 :: a7 :: rest,
        b0 :: b1 :: b2 :: b3 :: b4 :: b5 :: b6 :: b7 :: rest', hl, _, h, hn =>
        simp only [pack, List.cons.injEq] at h
        have h1 := packByte_inj8 (by simp) (by simp) h.1
        simp only [List.length_cons] at hn
        have h2 := ih (l := rest) (l' := rest') (by omega) (by simpa using hl) h.2
        simp only [List.cons.injEq, and_true] at h1
        simp [h1, h2]

theorem pack_inj {l l' : List Bool} (hl : l.length = l'.length) (h : pack l = pack l') : l = l' :=
  pack_inj_aux l.length (le_refl _) hl h

theorem modify_concat {α : Type} (l : List α) (a : α) (f : α → α) {n : Nat} (hn : n = l.length) :
    (l ++ [a]).modify n f = l ++ [f a] := by
  subst hn
  induction l with
  | nil => rfl
  | cons x l ih => simp [ih]

/-! ### Operations on canonical bits -/

theorem empty_eq : empty = ofList [] := rfl

theorem push_ofList (l : List Bool) (x : Bool) : (ofList l).push x = ofList (l ++ [x]) := by
  obtain ⟨l1, l2, h, h1, h2⟩ := split8 l
  have hq := pack_length_of h1
  have hlt : l2.length < 8 := by omega
  have e1 : pack (l ++ [x]) = pack l1 ++ [UInt8.ofNat (packByte (l2 ++ [x]))] := by
    rw [h, List.append_assoc, pack_append h1,
      pack_short (l := l2 ++ [x]) (by simp) (by simp; omega)]
  have e2 : (if l.length % 8 = 0 then pack l ++ [0] else pack l)
      = pack l1 ++ [UInt8.ofNat (packByte l2)] := by
    split
    · have : l2 = [] := List.length_eq_zero_iff.mp (by omega)
      conv_lhs => rw [h, this]
      rw [this]; simp [packByte]
    · have : l2 ≠ [] := fun h0 => by subst h0; simp at h2; omega
      conv_lhs => rw [h, pack_append h1, pack_short this (by omega)]
  show (⟨(if l.length % 8 = 0 then pack l ++ [0] else pack l).modify (l.length / 8)
    (fun y => y ||| (if x then bit (l.length % 8) else 0)), l.length + 1⟩ : Bits) = _
  rw [e2, modify_concat _ _ _ hq.symm, ← h2, byte_push l2 x hlt, ← e1]
  simp [ofList]

theorem pop_ofList_nil : (ofList []).pop = .ok (none, ofList []) := rfl

theorem pop_ofList (l : List Bool) (x : Bool) :
    (ofList (l ++ [x])).pop = .ok (some x, ofList l) := by
  obtain ⟨l1, l2, h, h1, h2⟩ := split8 l
  have hq := pack_length_of h1
  have hlt : l2.length < 8 := by omega
  have e1 : pack (l ++ [x]) = pack l1 ++ [UInt8.ofNat (packByte (l2 ++ [x]))] := by
    rw [h, List.append_assoc, pack_append h1,
      pack_short (l := l2 ++ [x]) (by simp) (by simp; omega)]
  simp only [pop, ofList, List.length_append, List.length_singleton, Nat.add_sub_cancel]
  rw [if_neg (by omega), e1]
  split
  · rename_i h0
    have hl2 : l2 = [] := List.length_eq_zero_iff.mp (by omega)
    subst hl2
    simp only [List.nil_append, List.getLast?_append, List.getLast?_singleton, Option.some_or,
      List.dropLast_concat, byte_single]
    rw [h]; simp
  · rename_i h0
    have hne : l2 ≠ [] := fun h0 => by subst h0; simp at h2; omega
    rw [List.getElem?_append_right (by omega), hq, Nat.sub_self]
    simp only [List.getElem?_cons_zero]
    rw [← h2, byte_pop_bit l2 x hlt, byte_pop_rest l2 x hlt]
    rw [List.set_append_right _ _ (by omega), hq, Nat.sub_self]
    simp only [List.set_cons_zero]
    conv_rhs => rw [h, pack_append h1, pack_short hne (by omega)]
    rw [h]

theorem drain_ofList (l acc : List Bool) : drain l.length (ofList l) acc = .ok (l ++ acc) := by
  induction l using List.reverseRecOn generalizing acc with
  | nil => rfl
  | append_singleton l x ih =>
    simp only [List.length_append, List.length_singleton, drain, pop_ofList]
    rw [ih]; simp

theorem toBools_ofList (l : List Bool) : (ofList l).toBools = .ok l := by
  have := drain_ofList l []
  simpa [toBools, ofList] using this

theorem foldl_push (l l' : List Bool) : l'.foldl push (ofList l) = ofList (l ++ l') := by
  induction l' generalizing l with
  | nil => simp
  | cons x l' ih =>
    simp only [List.foldl_cons, push_ofList, ih]
    simp

theorem ofBools_eq (l : List Bool) : ofBools l = ofList l := by
  have := foldl_push [] l
  simpa [ofBools, empty_eq] using this

theorem pushMany_ofList (l l' : List Bool) :
    (ofList l).pushMany (ofList l') = .ok (ofList (l ++ l')) := by
  simp [pushMany, toBools_ofList, foldl_push]

theorem properBytes_ofList (l : List Bool) : (ofList l).properBytes = .ok (pack l) := by
  obtain ⟨l1, l2, h, h1, h2⟩ := split8 l
  have hq := pack_length_of h1
  have hlt : l2.length < 8 := by omega
  unfold properBytes
  simp only
  by_cases h0 : (ofList l).valid % 8 = 0
  · rw [if_pos h0]; rfl
  · rw [if_neg h0]
    replace h0 : ¬ l.length % 8 = 0 := h0
    show (if pack l = [] then Out.panic Panic.arith
      else Out.ok ((pack l).modify ((pack l).length - 1) (fun y => y &&& maskOf (l.length % 8)))) = _
    have hne : l2 ≠ [] := fun h0 => by subst h0; simp at h2; omega
    have e : pack l = pack l1 ++ [UInt8.ofNat (packByte l2)] := by
      conv_lhs => rw [h, pack_append h1, pack_short hne (by omega)]
    rw [e, if_neg (by simp)]
    congr 1
    have := byte_mask l2 hlt
    rw [modify_concat _ _ _ (by simp), ← h2, this]

theorem eq_ofList (l l' : List Bool) : (ofList l).eq (ofList l') = .ok (decide (l = l')) := by
  unfold eq
  simp only [properBytes_ofList]
  by_cases h : l = l'
  · subst h; simp
  · simp only [h, decide_false]
    by_cases hl : (ofList l).valid = (ofList l').valid
    · rw [if_pos hl]
      have : pack l ≠ pack l' := fun hp => h (pack_inj hl hp)
      simp [this]
    · rw [if_neg hl]

/-! ### Serialisation -/

theorem bytesToRead_small {n : Nat} (h : n ≤ 2 ^ 24) : bytesToRead n = (n + 7) / 8 := by
  unfold bytesToRead roundF32
  split
  · rfl
  · have : n = 2 ^ 24 := by omega
    subst this
    decide +kernel

/-- Reading a `w`-byte unsigned number and continuing with it. -/
theorem uint_reads {w n : Nat} (hw : Width w) (hn : IsUnsigned w n) {ε : Type} (f : IntegerSerError → ε) {β : Type}
    {k' : Nat → Parser ε β} {bs : List UInt8} {y : β} (hk : Reads (k' n) bs y) :
    Reads (do
      let i ← (Integer.deser .unsigned).mapErr f
      let m ← (Parser.lift (i.toUnsigned w)).mapErr f
      k' m) ((Integer.ofUnsigned w n).ser.2 ++ bs) y := by
  have hi : (Integer.ofUnsigned w n).Native := .unsigned hw hn
  have hr := hi.serialisable.reads
  have hs : (Integer.ofUnsigned w n).signedState = .unsigned := rfl
  rw [hs] at hr
  refine Reads.bind (hr.mapErr f) ?_
  have hto : (Integer.ofUnsigned w n).normUsed.toUnsigned w = .ok n := by
    have hwf := hi.serialisable.toWF
    have h1 := hwf.toUnsigned_eq (k := w) hw.le
    have hval := Integer.ofUnsigned_value (k := w) hw.le hn.lt
    have hused := (Integer.ofUnsigned_used hn.lt (u := w) hw.pos).mpr hn.lt
    rw [if_neg (by omega), if_neg (by simp [Integer.ofUnsigned]), hval] at h1
    unfold Integer.toUnsigned at h1 ⊢
    rw [if_neg (by omega)] at h1
    have hu' : (Integer.ofUnsigned w n).normUsed.used ≤ w := by
      unfold Integer.normUsed
      simp only
      split
      · have := hw.pos
        split <;> omega
      · exact hused
    rw [if_neg (by omega)]
    simpa [Integer.normUsed, Integer.ofUnsigned] using h1
  refine Reads.bind' (List.nil_append _).symm (x := n) ?_ hk
  rw [hto]
  exact Reads.mapErr f (Reads.lift n)

/-- Reading a `usize` and continuing with it. -/
theorem usize_reads {n : Nat} (h : n < 2 ^ 64) {ε : Type} (f : IntegerSerError → ε) {β : Type}
    {k : Nat → Parser ε β} {bs : List UInt8} {y : β} (hk : Reads (k n) bs y) :
    Reads (do
      let i ← (Integer.deser .unsigned).mapErr f
      let m ← (Parser.lift (i.toUnsigned 8)).mapErr f
      k m) ((Integer.ofUnsigned 8 n).ser.2 ++ bs) y :=
  uint_reads (w := 8) (by unfold Width; decide) (show IsUnsigned 8 n from h) f hk

/-- Same without error conversion. -/
theorem usize_reads' {n : Nat} (h : n < 2 ^ 64) {β : Type}
    {k : Nat → Parser IntegerSerError β} {bs : List UInt8} {y : β} (hk : Reads (k n) bs y) :
    Reads (do
      let i ← Integer.deser .unsigned
      let m ← Parser.lift (i.toUnsigned 8)
      k m) ((Integer.ofUnsigned 8 n).ser.2 ++ bs) y := by
  have hid : ∀ {α : Type} (p : Parser IntegerSerError α), p.mapErr id = p := by
    intro α p; funext c; simp only [Parser.mapErr_apply]; cases p c <;> rfl
  have := usize_reads h id hk
  simpa only [hid] using this

theorem reads_kept {l : List Bool} (hl : l.length < 2 ^ 64) (h : bytesToRead l.length = (l.length + 7) / 8) :
    ∃ bytes, (ofList l).ser = .ok bytes ∧ Reads deser bytes (ofList l) := by
  refine ⟨_, by simp [ser, properBytes_ofList]; rfl, ?_⟩
  unfold deser
  refine usize_reads' (n := l.length) hl ?_
  rw [show pack l = pack l ++ [] by simp]
  refine Reads.bind (Reads.read _ ?_) ?_
  · rw [h, pack_length]
  · exact Reads.pure _

theorem reads_ofList {l : List Bool} (h : l.length ≤ 2 ^ 24) :
    ∃ bytes, (ofList l).ser = .ok bytes ∧ Reads deser bytes (ofList l) :=
  reads_kept (by omega) (bytesToRead_small h)

end Bits

end Souris
