import Verif.Model.Huffman
import Verif.Lemmas.Cursor
import Verif.Lemmas.Integer2
import Verif.Lemmas.Bits
import Mathlib.Tactic.SplitIfs

/-! # How far parsers advance and whether they panic -/

namespace Souris

variable {ε ε' α β : Type}

/-- A successful run keeps the slice, moves at least `k` bytes and stays inside the slice. -/
def Adv (k : Nat) (p : Parser ε α) : Prop :=
  ∀ c x c', p c = .ok (x, c') → c'.backing = c.backing ∧ c.pos + k ≤ c'.pos ∧
    (c.pos ≤ c.backing.length → c'.pos ≤ c.backing.length)

/-- No run panics with `r`. -/
def NoPanic (r : Panic) (p : Parser ε α) : Prop := ∀ c, p c ≠ .panic r

namespace Adv

theorem mono {k m : Nat} {p : Parser ε α} (h : Adv k p) (hm : m ≤ k) : Adv m p := by
  intro c x c' e
  obtain ⟨h1, h2, h3⟩ := h c x c' e
  exact ⟨h1, by omega, h3⟩

theorem pure (x : α) : Adv 0 (Pure.pure x : Parser ε α) := by
  intro c y c' e
  simp only [Parser.pure_apply, Out.ok.injEq, Prod.mk.injEq] at e
  rw [← e.2]
  exact ⟨rfl, Nat.le_refl _, fun h => h⟩

theorem bind {k m : Nat} {p : Parser ε α} {f : α → Parser ε β} (hp : Adv k p)
    (hf : ∀ x, Adv m (f x)) : Adv (k + m) (p >>= f) := by
  intro c y c' e
  rw [Parser.bind_apply, Out.bind_eq_ok] at e
  obtain ⟨⟨x, c1⟩, e1, e2⟩ := e
  obtain ⟨h1, h2, h3⟩ := hp c x c1 e1
  obtain ⟨h4, h5, h6⟩ := hf x c1 y c' e2
  refine ⟨h4.trans h1, by omega, fun h => ?_⟩
  rw [h1] at h6
  exact h6 (h3 h)

theorem bind0 {k : Nat} {p : Parser ε α} {f : α → Parser ε β} (hp : Adv k p)
    (hf : ∀ x, Adv 0 (f x)) : Adv k (p >>= f) := bind (m := 0) hp hf

theorem mapErr {k : Nat} {p : Parser ε α} (f : ε → ε') (h : Adv k p) : Adv k (p.mapErr f) := by
  intro c x c' e
  rw [Parser.mapErr_apply, Out.mapErr_eq_ok] at e
  exact h c x c' e

theorem lift (x : Out ε α) : Adv 0 (Parser.lift x) := by
  intro c y c' e
  cases x <;> simp at e
  rw [← e.2]
  exact ⟨rfl, Nat.le_refl _, fun h => h⟩

theorem fail (k : Nat) (e : ε) : Adv k (Parser.fail e : Parser ε α) := by
  intro c y c' h; simp at h

theorem crash (k : Nat) (r : Panic) : Adv k (Parser.crash r : Parser ε α) := by
  intro c y c' h; simp at h

theorem next (e : ε) : Adv 1 (Parser.next e) := by
  intro c x c' h
  simp only [Parser.next, Cursor.next] at h
  by_cases hc : c.pos ≥ c.backing.length
  · rw [if_pos hc] at h; cases h
  · rw [if_neg hc, List.getElem?_eq_getElem (by omega)] at h
    simp only [Out.ok.injEq, Prod.mk.injEq] at h
    rw [← h.2]
    exact ⟨rfl, Nat.le_refl _, fun _ => by simp only; omega⟩

theorem read (e : ε) (n : Nat) : Adv n (Parser.read e n) := by
  intro c x c' h
  simp only [Parser.read, Cursor.read] at h
  cases ha : checkedAdd c.pos n with
  | none => rw [ha] at h; cases h
  | some stop =>
    rw [ha] at h
    simp only at h
    by_cases hc : stop > c.backing.length
    · rw [if_pos hc] at h; cases h
    · rw [if_neg hc] at h
      simp only [Out.ok.injEq, Prod.mk.injEq] at h
      have hs : stop = c.pos + n := by
        unfold checkedAdd at ha
        split at ha
        · simpa using ha.symm
        · cases ha
      rw [← h.2]
      exact ⟨rfl, by simp only; omega, fun _ => by simp only; omega⟩

theorem ite {k : Nat} {P : Prop} [Decidable P] {p q : Parser ε α} (hp : P → Adv k p)
    (hq : ¬ P → Adv k q) : Adv k (if P then p else q) := by
  by_cases h : P
  · rw [if_pos h]; exact hp h
  · rw [if_neg h]; exact hq h

end Adv

namespace NoPanic

variable {r : Panic}

theorem pure (x : α) : NoPanic r (Pure.pure x : Parser ε α) := by intro c; simp

theorem bind {p : Parser ε α} {f : α → Parser ε β} (hp : NoPanic r p)
    (hf : ∀ x, NoPanic r (f x)) : NoPanic r (p >>= f) := by
  intro c h
  rw [Parser.bind_apply, Out.bind_eq_panic] at h
  rcases h with h | ⟨⟨x, c1⟩, _, h⟩
  · exact hp c h
  · exact hf x c1 h

theorem mapErr {p : Parser ε α} (f : ε → ε') (h : NoPanic r p) : NoPanic r (p.mapErr f) := by
  intro c e
  rw [Parser.mapErr_apply, Out.mapErr_eq_panic] at e
  exact h c e

theorem lift {x : Out ε α} (h : x ≠ .panic r) : NoPanic r (Parser.lift x) := by
  intro c e
  cases x with
  | ok a => simp at e
  | err a => simp at e
  | panic q => simp at e; exact h (by rw [e])

theorem fail (e : ε) : NoPanic r (Parser.fail e : Parser ε α) := by intro c; simp

theorem next (e : ε) : NoPanic r (Parser.next e) := by
  intro c h
  simp only [Parser.next] at h
  split at h <;> cases h

theorem read (e : ε) (n : Nat) : NoPanic r (Parser.read e n) := by
  intro c h
  simp only [Parser.read] at h
  split at h <;> cases h

theorem ite {P : Prop} [Decidable P] {p q : Parser ε α} (hp : P → NoPanic r p)
    (hq : ¬ P → NoPanic r q) : NoPanic r (if P then p else q) := by
  by_cases h : P
  · rw [if_pos h]; exact hp h
  · rw [if_neg h]; exact hq h

end NoPanic

/-! ## `Integer` -/

theorem Integer.deser_adv (ss : SignedState) : Adv 1 (Integer.deser ss) := by
  unfold Integer.deser
  refine Adv.bind0 (Adv.next _) (fun first => Adv.ite (fun _ => Adv.pure _) (fun _ => ?_))
  exact (Adv.bind (Adv.read _ _) (fun _ => Adv.pure _)).mono (Nat.zero_le _)

theorem Integer.deser_noPanic (ss : SignedState) (r : Panic) : NoPanic r (Integer.deser ss) := by
  unfold Integer.deser
  exact NoPanic.bind (NoPanic.next _) (fun first => NoPanic.ite (fun _ => NoPanic.pure _)
    (fun _ => NoPanic.bind (NoPanic.read _ _) (fun _ => NoPanic.pure _)))

theorem Integer.toUnsigned_noPanic (i : Integer) (k : Nat) (r : Panic) : i.toUnsigned k ≠ .panic r := by
  unfold Integer.toUnsigned
  split_ifs <;> simp

/-! ## `Bits` -/

theorem Bits.deser_adv : Adv 1 Bits.deser := by
  unfold Bits.deser
  refine Adv.bind0 (Integer.deser_adv _) (fun i => ?_)
  refine Adv.bind0 (Adv.lift _) (fun m => ?_)
  exact (Adv.bind0 (Adv.read _ _) (fun _ => Adv.pure _)).mono (Nat.zero_le _)

theorem Bits.deser_noPanic (r : Panic) : NoPanic r Bits.deser := by
  unfold Bits.deser
  exact NoPanic.bind (Integer.deser_noPanic _ _) (fun i =>
    NoPanic.bind (NoPanic.lift (Integer.toUnsigned_noPanic _ _ _))
      (fun _ => NoPanic.bind (NoPanic.read _ _) (fun _ => NoPanic.pure _)))

/-! ## Huffman trees -/

namespace Node

theorem deser8Aux_adv (fuel : Nat) : Adv 1 (deser8Aux fuel) := by
  induction fuel with
  | zero => exact Adv.crash _ _
  | succ fuel ih =>
    unfold deser8Aux
    refine Adv.bind0 (Adv.next _) (fun start => Adv.ite (fun _ => ?_) (fun _ => Adv.ite (fun _ => ?_)
      (fun _ => Adv.fail _ _)))
    · exact (Adv.bind ih (fun _ => Adv.bind ih (fun _ => Adv.pure _))).mono (Nat.zero_le _)
    · exact (Adv.bind (Adv.next _) (fun _ => Adv.pure _)).mono (Nat.zero_le _)

theorem _root_.Souris.Parser.next_cases {ε : Type} (e : ε) (c : Cursor UInt8) :
    Parser.next e c = .err e ∨
    ∃ b, c.pos < c.backing.length ∧ c.backing[c.pos]? = some b ∧
      Parser.next e c = .ok (b, ⟨c.backing, c.pos + 1⟩) := by
  simp only [Parser.next, Cursor.next]
  by_cases hc : c.pos ≥ c.backing.length
  · left; rw [if_pos hc]
  · right
    have hlt : c.pos < c.backing.length := by omega
    rw [if_neg hc, List.getElem?_eq_getElem hlt]
    exact ⟨_, hlt, rfl, rfl⟩

/-- With more fuel than bytes ahead, `deser8Aux` does not panic at all. -/
theorem deser8Aux_noPanic (fuel : Nat) (c : Cursor UInt8) (hp : c.pos ≤ c.backing.length)
    (h : c.backing.length < c.pos + fuel) : ∀ r, deser8Aux fuel c ≠ .panic r := by
  induction fuel generalizing c with
  | zero => omega
  | succ fuel ih =>
    intro r
    unfold deser8Aux
    rw [Parser.bind_apply]
    rcases Parser.next_cases HuffmanSerError.notEnoughBytes c with e | ⟨b, hlt, _, e⟩
    · rw [e]; simp
    · rw [e]
      simp only [Out.ok_bind]
      have ih1 := ih ⟨c.backing, c.pos + 1⟩ (by simp only; omega) (by simp only; omega)
      split_ifs
      · rw [Parser.bind_apply]
        cases h1 : deser8Aux fuel ⟨c.backing, c.pos + 1⟩ with
        | err e => simp
        | panic q => exact absurd h1 (ih1 q)
        | ok y =>
          obtain ⟨l, c2⟩ := y
          obtain ⟨a1, a2, a3⟩ := deser8Aux_adv fuel _ _ _ h1
          simp only at a1 a2 a3
          have ih2 := ih c2 (by rw [a1]; exact a3 (by omega)) (by rw [a1]; omega)
          simp only [Out.ok_bind]
          rw [Parser.bind_apply]
          cases h2 : deser8Aux fuel c2 with
          | err e => simp
          | panic q => exact absurd h2 (ih2 q)
          | ok y => simp
      · exact NoPanic.bind (NoPanic.next _) (fun _ => NoPanic.pure _) _
      · simp

theorem deser8_noPanic (c : Cursor UInt8) (hp : c.pos ≤ c.backing.length) (r : Panic) :
    deser8 c ≠ .panic r :=
  deser8Aux_noPanic _ c hp (by omega) r

theorem deser8_adv : Adv 1 deser8 := fun c x c' h => deser8Aux_adv _ c x c' h

/-! ### Trees of characters -/

/-- The non-branch case of `deserCharAux`. -/
def charTail : Parser HuffmanSerError (Node Char) := do
  let i ← (Integer.deser .unsigned).mapErr .integer
  let n ← (Parser.lift (i.toUnsigned 4)).mapErr .integer
  Parser.lift (charLeaf n)

theorem charTail_adv : Adv 1 charTail := by
  unfold charTail
  exact Adv.bind0 ((Integer.deser_adv _).mapErr _) (fun _ =>
    Adv.bind0 ((Adv.lift _).mapErr _) (fun _ => Adv.lift _))

theorem charLeaf_ne {r : Panic} (hr : r ≠ .arith) (n : Nat) : charLeaf n ≠ .panic r := by
  unfold charLeaf
  split_ifs
  · simpa using hr.symm
  · simp
  · simp

theorem charTail_noPanic {r : Panic} (hr : r ≠ .arith) : NoPanic r charTail := by
  unfold charTail
  exact NoPanic.bind ((Integer.deser_noPanic _ _).mapErr _) (fun _ =>
    NoPanic.bind ((NoPanic.lift (Integer.toUnsigned_noPanic _ _ _)).mapErr _)
      (fun _ => NoPanic.lift (charLeaf_ne hr _)))

/-- `deserCharAux`, one step: at a zero byte a branch, at any other byte a leaf read from the same
position. -/
theorem deserCharAux_succ (fuel : Nat) (c : Cursor UInt8) :
    deserCharAux (fuel + 1) c =
      match c.backing[c.pos]? with
      | none => .err .notEnoughBytes
      | some b =>
        if b = 0 then
          ((do
            let left ← deserCharAux fuel
            let right ← deserCharAux fuel
            return .branch left right) : Parser HuffmanSerError (Node Char)) ⟨c.backing, c.pos + 1⟩
        else charTail c := by
  rw [deserCharAux]
  rw [Parser.bind_apply]
  rcases Parser.next_cases HuffmanSerError.notEnoughBytes c with e | ⟨b, hlt, hb, e⟩
  · rw [e]
    have : c.backing[c.pos]? = none := by
      by_contra hc
      obtain ⟨b, hb⟩ := Option.ne_none_iff_exists'.mp hc
      have hlt : c.pos < c.backing.length := (List.getElem?_eq_some_iff.mp hb).1
      simp only [Parser.next, Cursor.next] at e
      rw [if_neg (by omega), hb] at e
      cases e
    rw [this]; rfl
  · rw [e, hb]
    simp only [Out.ok_bind]
    by_cases h0 : b = 0
    · simp only [if_pos h0]
    · simp only [if_neg h0]
      rw [Parser.bind_apply]
      have : stepBack ⟨c.backing, c.pos + 1⟩ = .ok ((), c) := by
        simp [stepBack, Cursor.moveBackwards, checkedSub]
      rw [this]
      rfl

theorem deserCharAux_adv (fuel : Nat) : Adv 1 (deserCharAux fuel) := by
  induction fuel with
  | zero => exact Adv.crash _ _
  | succ fuel ih =>
    intro c x c' h
    rw [deserCharAux_succ] at h
    cases hb : c.backing[c.pos]? with
    | none => rw [hb] at h; cases h
    | some b =>
      have hlt : c.pos < c.backing.length := (List.getElem?_eq_some_iff.mp hb).1
      rw [hb] at h
      simp only at h
      split_ifs at h
      · have ha : Adv 0 ((do
            let left ← deserCharAux fuel
            let right ← deserCharAux fuel
            return .branch left right) : Parser HuffmanSerError (Node Char)) :=
          (Adv.bind0 ih (fun _ => (Adv.bind0 ih (fun _ => Adv.pure _)).mono (Nat.zero_le _))).mono
            (Nat.zero_le _)
        obtain ⟨h1, h2, h3⟩ := ha _ _ _ h
        exact ⟨h1, h2, fun _ => h3 (by simp only; omega)⟩
      · exact charTail_adv _ _ _ h

/-- With more fuel than bytes ahead, the only panic of `deserCharAux` is the arithmetic one. -/
theorem deserCharAux_noPanic (fuel : Nat) (c : Cursor UInt8) (hp : c.pos ≤ c.backing.length)
    (h : c.backing.length < c.pos + fuel) : ∀ r, r ≠ .arith → deserCharAux fuel c ≠ .panic r := by
  induction fuel generalizing c with
  | zero => omega
  | succ fuel ih =>
    intro r hr
    rw [deserCharAux_succ]
    cases hb : c.backing[c.pos]? with
    | none => simp
    | some b =>
      have hlt : c.pos < c.backing.length := (List.getElem?_eq_some_iff.mp hb).1
      simp only
      split_ifs
      · have ih1 := ih ⟨c.backing, c.pos + 1⟩ (by simp only; omega) (by simp only; omega)
        intro hpan
        rw [Parser.bind_apply, Out.bind_eq_panic] at hpan
        rcases hpan with hpan | ⟨⟨l, c2⟩, h1, hpan⟩
        · exact ih1 r hr hpan
        · obtain ⟨a1, a2, a3⟩ := deserCharAux_adv fuel _ _ _ h1
          simp only at a1 a2 a3 hpan
          rw [Parser.bind_apply, Out.bind_eq_panic] at hpan
          rcases hpan with hpan | ⟨⟨l, c3⟩, _, hpan⟩
          · exact ih c2 (by rw [a1]; exact a3 (by omega)) (by rw [a1]; omega) r hr hpan
          · simp at hpan
      · exact charTail_noPanic hr c

theorem deserChar_noPanic (c : Cursor UInt8) (hp : c.pos ≤ c.backing.length) (r : Panic)
    (hr : r ≠ .arith) : deserChar c ≠ .panic r :=
  deserCharAux_noPanic _ c hp (by omega) r hr

theorem deserChar_adv : Adv 1 deserChar := fun c x c' h => deserCharAux_adv _ c x c' h

/-! ### Round trips -/

theorem ser8_pos (n : Node UInt8) : 0 < n.ser8.length := by cases n <;> simp [ser8]

theorem deser8Aux_reads (n : Node UInt8) (fuel : Nat) (h : n.ser8.length ≤ fuel) :
    Reads (deser8Aux fuel) n.ser8 n := by
  induction n generalizing fuel with
  | leaf b =>
    cases fuel with
    | zero => simp [ser8] at h
    | succ fuel =>
      unfold deser8Aux
      refine Reads.bind' (b1 := [1]) (b2 := [b]) rfl (Reads.next _ 1) ?_
      rw [if_neg (by decide), if_pos rfl]
      exact Reads.bind' (b1 := [b]) (b2 := []) rfl (Reads.next _ b) (Reads.pure _)
  | branch l r ihl ihr =>
    cases fuel with
    | zero => simp [ser8] at h
    | succ fuel =>
      simp only [ser8, List.length_cons, List.length_append] at h
      unfold deser8Aux
      refine Reads.bind' (b1 := [0]) (b2 := ser8 l ++ ser8 r) rfl (Reads.next _ 0) ?_
      rw [if_pos rfl]
      refine Reads.bind (ihl fuel (by omega)) ?_
      exact Reads.bind' (b2 := []) (by simp) (ihr fuel (by omega)) (Reads.pure _)

theorem deser8_reads (n : Node UInt8) : Reads deser8 n.ser8 n := by
  intro pre tail hlen
  exact deser8Aux_reads n _ (by simp [Cursor.At]; omega) pre tail hlen

/-- The bytes of a positive `u32` do not start with 0. -/
theorem ser_head_ne_zero {n : Nat} (h0 : 0 < n) (h : n < 2 ^ 32) :
    ∃ b bs, (Integer.ofUnsigned 4 n).ser.2 = b :: bs ∧ b ≠ 0 := by
  have hn : n < 256 ^ 4 := by simpa using h
  have hwf := Integer.ofUnsigned_wf (k := 4) (n := n) (by decide) (by decide)
  have hv := Integer.ofUnsigned_value (k := 4) (by decide) hn
  have hu4 := (Integer.ofUnsigned_used hn (u := 4) (by decide)).mpr hn
  have hss : (Integer.ofUnsigned 4 n).signedState = .unsigned := rfl
  unfold Integer.ser
  simp only
  split_ifs with hc
  · refine ⟨_, _, rfl, ?_⟩
    intro hz
    have := hwf.value_of_used_le_one hc.1
    rw [hv, hz, hss] at this
    simp at this
    omega
  all_goals
    refine ⟨_, _, rfl, ?_⟩
    intro hz
    have := congrArg UInt8.toNat hz
    simp [oneByteMaxSize] at this
    omega

theorem charTail_reads (ch : Char) :
    Reads charTail (Integer.ofUnsigned 4 (ch.toNat + 1)).ser.2 (.leaf ch) := by
  have hlt : ch.toNat < 1114112 := by
    have := ch.valid
    unfold UInt32.isValidChar Nat.isValidChar at this
    show ch.val.toNat < _
    omega
  have hw : Width 4 := by unfold Width; decide
  have hn : IsUnsigned 4 (ch.toNat + 1) := by unfold IsUnsigned; omega
  have hv : (ch.toNat + 1 - 1).isValidChar := ch.valid
  have hl : charLeaf (ch.toNat + 1) = .ok (.leaf ch) := by
    unfold charLeaf
    rw [if_neg (by omega), dif_pos hv]
    rfl
  unfold charTail
  have := Bits.uint_reads hw hn HuffmanSerError.integer (k' := fun n => Parser.lift (charLeaf n))
    (bs := []) (y := .leaf ch) (by rw [hl]; exact Reads.lift _)
  simpa using this

theorem deserCharAux_reads (n : Node Char) (fuel : Nat) (h : n.serChar.length ≤ fuel) :
    Reads (deserCharAux fuel) n.serChar n := by
  induction n generalizing fuel with
  | leaf ch =>
    have hlt : ch.toNat < 1114112 := by
      have := ch.valid
      unfold UInt32.isValidChar Nat.isValidChar at this
      show ch.val.toNat < _
      omega
    obtain ⟨b, bs, hb, hne⟩ := ser_head_ne_zero (n := ch.toNat + 1) (by omega) (by omega)
    have hr := charTail_reads ch
    simp only [serChar] at h ⊢
    rw [hb] at h hr ⊢
    cases fuel with
    | zero => simp at h
    | succ fuel =>
      intro pre tail hlen
      rw [deserCharAux_succ]
      have : (Cursor.At pre (b :: bs ++ tail)).backing[(Cursor.At pre (b :: bs ++ tail)).pos]? = some b := by
        simp [Cursor.At]
      rw [this]
      simp only
      rw [if_neg hne]
      exact hr pre tail hlen
  | branch l r ihl ihr =>
    simp only [serChar, List.length_cons, List.length_append] at h
    cases fuel with
    | zero => omega
    | succ fuel =>
      unfold deserCharAux
      refine Reads.bind' (b1 := [0]) (b2 := serChar l ++ serChar r) rfl (Reads.next _ 0) ?_
      rw [if_pos rfl]
      refine Reads.bind (ihl fuel (by omega)) ?_
      exact Reads.bind' (b2 := []) (by simp) (ihr fuel (by omega)) (Reads.pure _)

theorem deserChar_reads (n : Node Char) : Reads deserChar n.serChar n := by
  intro pre tail hlen
  exact deserCharAux_reads n _ (by simp [Cursor.At]; omega) pre tail hlen

end Node

end Souris
