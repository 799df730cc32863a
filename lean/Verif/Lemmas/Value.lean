import Verif.Spec.Value
import Verif.Lemmas.Imaginary
import Verif.Lemmas.Huffman
import Verif.Lemmas.Binary

/-! # Lemmas about deserialising values: advancing, termination -/

namespace Souris

/-! ## UTF-8 -/

theorem utf8Decode_utf8 (s : List Char) : utf8Decode (utf8 s) = some s := by
  have h : ByteArray.mk (utf8 s).toArray = s.utf8Encode := by
    apply ByteArray.ext
    simp [utf8, List.utf8Encode]
  unfold utf8Decode
  rw [h, List.utf8Decode?_utf8Encode]
  simp

theorem utf8_utf8Decode {bs : List UInt8} {s : List Char} (h : utf8Decode bs = some s) : utf8 s = bs := by
  unfold utf8Decode at h
  obtain ⟨a, ha, hs⟩ := Option.map_eq_some_iff.mp h
  have h1 := ByteArray.utf8Encode_get_utf8Decode? (b := ByteArray.mk bs.toArray) (h := by simp [ha])
  simp only [ha, Option.get_some] at h1
  have h2 := congrArg (fun x : ByteArray => x.data.toList) h1
  simp only [List.utf8Encode] at h2
  rw [← hs]
  simpa [utf8] using h2

/-! ## The type byte -/

namespace ValueTy

theorem ofU8_toU8 (t : ValueTy) : ofU8 t.toU8 = .ok t := by cases t <;> rfl

theorem toU8_lt (t : ValueTy) : t.toU8 < 16 := by cases t <;> decide

theorem ofU8_noPanic (b : UInt8) (r : Panic) : ofU8 b ≠ .panic r := by
  have key : ∀ (P : Prop) [Decidable P] (t : ValueTy) (x : Out ValueSerError ValueTy), x ≠ .panic r →
      (if P then .ok t else x) ≠ .panic r := by
    intro P _ t x hx
    by_cases hP : P
    · rw [if_pos hP]; exact nofun
    · rw [if_neg hP]; exact hx
  unfold ofU8
  repeat refine key _ _ _ ?_
  exact nofun

end ValueTy

theorem forall_lt16 {P : UInt8 → Prop} (h : ∀ n : Fin 16, P (UInt8.ofNat n.val)) (f : UInt8) (hf : f < 16) :
    P f := by
  have h1 : f.toNat < 16 := hf
  have := h ⟨f.toNat, h1⟩
  simpa using this

namespace Value

theorem tyByte_ty (t : ValueTy) (f : UInt8) (hf : f < 16) :
    (tyByte t f &&& 0b11110000) >>> 4 = t.toU8 := by
  revert f; cases t <;> exact forall_lt16 (by decide +kernel)

theorem tyByte_and15 (t : ValueTy) (f : UInt8) (hf : f < 16) : tyByte t f &&& 0b1111 = f := by
  revert f; cases t <;> exact forall_lt16 (by decide +kernel)

theorem tyByte_and3 (t : ValueTy) (f : UInt8) (hf : f < 16) : tyByte t f &&& 3 = f &&& 3 := by
  revert f; cases t <;> exact forall_lt16 (by decide +kernel)

theorem tyByte_and1 (t : ValueTy) (f : UInt8) (hf : f < 16) : tyByte t f &&& 1 = f &&& 1 := by
  revert f; cases t <;> exact forall_lt16 (by decide +kernel)

theorem tyByte_and14 (t : ValueTy) (f : UInt8) (hf : f < 16) :
    tyByte t f &&& 0b00001110 = f &&& 0b00001110 := by
  revert f; cases t <;> exact forall_lt16 (by decide +kernel)

/-! ## Advancing -/

theorem intP_adv (ss : SignedState) : Adv 1 (intP ss) := (Integer.deser_adv ss).mapErr _

theorem uintP_adv (k : Nat) : Adv 1 (uintP k) :=
  Adv.bind0 (intP_adv _) (fun _ => (Adv.lift _).mapErr _)

theorem parseString_adv (h : Option (Huffman Char)) (byte : UInt8) : Adv 1 (parseString h byte) := by
  unfold parseString
  refine Adv.ite (fun _ => ?_) (fun _ => ?_)
  · cases h with
    | none => exact Adv.fail _ _
    | some h => exact Adv.bind0 (Bits.deser_adv.mapErr _) (fun _ => (Adv.lift _).mapErr _)
  · exact Adv.bind0 (uintP_adv 8) (fun len => ((Adv.bind0 (Adv.read _ len)
      (fun _ => Adv.lift _)).mono (Nat.zero_le _)))

theorem timestampP_adv (byte : UInt8) : Adv 0 (timestampP byte) := by
  unfold timestampP
  refine Adv.bind0 ((Adv.lift _).mapErr _) (fun ss => ?_)
  refine Adv.bind0 ((intP_adv ss).mono (Nat.zero_le _)) (fun yi => ?_)
  refine Adv.bind0 ((Adv.lift _).mapErr _) (fun year => ?_)
  refine Adv.bind0 ((uintP_adv 4).mono (Nat.zero_le _)) (fun month => ?_)
  refine Adv.bind0 ((uintP_adv 4).mono (Nat.zero_le _)) (fun day => ?_)
  refine Adv.ite (fun _ => Adv.fail _ _) (fun _ => ?_)
  refine Adv.bind0 ((uintP_adv 4).mono (Nat.zero_le _)) (fun hour => ?_)
  refine Adv.bind0 ((uintP_adv 4).mono (Nat.zero_le _)) (fun minute => ?_)
  refine Adv.bind0 ((uintP_adv 4).mono (Nat.zero_le _)) (fun sec => ?_)
  refine Adv.bind0 ((uintP_adv 4).mono (Nat.zero_le _)) (fun nano => ?_)
  exact Adv.ite (fun _ => Adv.fail _ _) (fun _ => Adv.pure _)

end Value

namespace Binary

theorem usizeDeser_adv : Adv 1 usizeDeser :=
  Adv.bind0 ((Integer.deser_adv _).mapErr _) (fun _ => (Adv.lift _).mapErr _)

theorem deser_adv (z : Lz) (ct : BinaryCompression) : Adv 0 (deser z ct) := by
  cases ct with
  | nothing =>
    exact Adv.bind0 (usizeDeser_adv.mono (Nat.zero_le _)) (fun len => (Adv.read _ len).mono (Nat.zero_le _))
  | runLengthEncoding =>
    exact Adv.bind0 (usizeDeser_adv.mono (Nat.zero_le _)) (fun len => Adv.ite (fun _ => Adv.pure _)
      (fun _ => Adv.bind0 ((Adv.read _ len).mono (Nat.zero_le _)) (fun _ => Adv.pure _)))
  | lempelZiv =>
    exact Adv.bind0 (usizeDeser_adv.mono (Nat.zero_le _)) (fun len => Adv.ite (fun _ => Adv.pure _)
      (fun _ => Adv.bind0 (usizeDeser_adv.mono (Nat.zero_le _)) (fun len2 =>
        Adv.bind0 ((Adv.read _ len2).mono (Nat.zero_le _)) (fun _ => (Adv.lift _).mapErr _))))
  | huffman =>
    refine Adv.mapErr _ ?_
    unfold unHuffman
    refine Adv.bind0 ((Adv.next _).mono (Nat.zero_le _)) (fun first => ?_)
    refine Adv.ite (fun _ => Adv.pure _) (fun _ => Adv.ite (fun _ => ?_) (fun _ => ?_))
    · refine Adv.bind0 (((Integer.deser_adv _).mapErr _).mono (Nat.zero_le _)) (fun i => ?_)
      refine Adv.bind0 ((Adv.lift _).mapErr _) (fun count => ?_)
      exact Adv.bind0 ((Adv.next _).mono (Nat.zero_le _)) (fun el => Adv.lift _)
    · refine Adv.bind0 ((Adv.bind0 Node.deser8_adv (fun _ => Adv.pure _)).mono (Nat.zero_le _)) (fun h => ?_)
      exact Adv.bind0 ((Bits.deser_adv.mapErr _).mono (Nat.zero_le _)) (fun _ => Adv.lift _)

end Binary

namespace Value

theorem parsePrimitive_adv (env : Env) (h : Option (Huffman Char)) : Adv 1 (parsePrimitive env h) := by
  unfold parsePrimitive
  refine Adv.bind0 (Adv.next _) (fun byte => ?_)
  refine Adv.bind0 (Adv.lift _) (fun ty => ?_)
  cases ty with
  | integer =>
    exact Adv.bind0 ((Adv.lift _).mapErr _) (fun ss => Adv.bind0 ((intP_adv ss).mono (Nat.zero_le _))
      (fun _ => Adv.pure _))
  | imaginary =>
    exact Adv.bind0 (((Imaginary.deser_adv _).mapErr _).mono (Nat.zero_le _)) (fun _ => Adv.pure _)
  | character =>
    exact Adv.bind0 ((uintP_adv 4).mono (Nat.zero_le _)) (fun _ => Adv.bind0 (Adv.lift _)
      (fun _ => Adv.pure _))
  | timestamp => exact Adv.bind0 (timestampP_adv _) (fun _ => Adv.pure _)
  | string => exact Adv.bind0 ((parseString_adv h byte).mono (Nat.zero_le _)) (fun _ => Adv.pure _)
  | json => exact Adv.pure _
  | binary =>
    exact Adv.bind0 ((Adv.lift _).mapErr _) (fun ct => Adv.bind0 ((Binary.deser_adv _ ct).mapErr _)
      (fun _ => Adv.pure _))
  | boolean => exact Adv.pure _
  | null => exact Adv.pure _
  | singleFloat => exact Adv.bind0 ((Adv.read _ _).mono (Nat.zero_le _)) (fun _ => Adv.pure _)
  | doubleFloat => exact Adv.bind0 ((Adv.read _ _).mono (Nat.zero_le _)) (fun _ => Adv.pure _)
  | map =>
    refine Adv.bind0 ?_ (fun _ => Adv.pure _)
    refine Adv.bind0 (Adv.lift _) (fun ty => Adv.ite (fun _ => Adv.ite (fun _ => ?_) (fun _ => ?_))
      (fun _ => Adv.fail _ _))
    · exact (uintP_adv 8).mono (Nat.zero_le _)
    · exact Adv.pure _
  | array =>
    refine Adv.bind0 ?_ (fun _ => Adv.pure _)
    refine Adv.bind0 (Adv.lift _) (fun ty => Adv.ite (fun _ => Adv.ite (fun _ => ?_) (fun _ => ?_))
      (fun _ => Adv.fail _ _))
    · exact (uintP_adv 8).mono (Nat.zero_le _)
    · exact Adv.pure _
  | timezone => exact Adv.pure _
  | ipv4Addr => exact Adv.bind0 ((Adv.read _ _).mono (Nat.zero_le _)) (fun _ => Adv.pure _)
  | ipv6Addr => exact Adv.bind0 ((Adv.read _ _).mono (Nat.zero_le _)) (fun _ => Adv.pure _)

/-! ## The measure that every iteration decreases -/

/-- Weight of the state on top of the stack. -/
def topW : DState → Nat
  | .foundValue _ => 2
  | .array .. => 2
  | .map .. => 2
  | .foundKeyValue .. => 2
  | _ => 0

/-- Weight of a state below the top. -/
def covW : DState → Nat
  | .array .. => 1
  | .map .. => 1
  | .foundKey _ => 1
  | .jsonNeeded => 1
  | .timezoneNeeded => 1
  | _ => 0

def weight : List DState → Nat
  | [] => 0
  | st :: stack => topW st + (stack.map covW).sum

def measure (stack : List DState) (c : Cursor UInt8) : Nat :=
  4 * (c.backing.length - c.pos) + weight stack

theorem step_inv {env : Env} {h : Option (Huffman Char)} {st : DState} {stack stack' : List DState}
    {c c' : Cursor UInt8} (hc : c.pos ≤ c.backing.length)
    (e : step env h st stack c = .ok (.inr stack', c')) :
    c'.backing = c.backing ∧ c'.pos ≤ c'.backing.length ∧ measure stack' c' < measure (st :: stack) c := by
  cases st with
  | valueNeeded =>
    simp only [step] at e
    rw [Parser.bind_apply, Out.bind_eq_ok] at e
    obtain ⟨⟨r, c1⟩, e1, e2⟩ := e
    obtain ⟨h1, h2, h3⟩ := parsePrimitive_adv env h c r c1 e1
    have h3 := h3 hc
    have key : ∀ s, stack' = s → c' = c1 → weight s ≤ 3 + (stack.map covW).sum →
        c'.backing = c.backing ∧ c'.pos ≤ c'.backing.length ∧
        measure stack' c' < measure (.valueNeeded :: stack) c := by
      rintro s rfl rfl hw
      refine ⟨h1, by rw [h1]; exact h3, ?_⟩
      have hm : measure (.valueNeeded :: stack) c = 4 * (c.backing.length - c.pos) + (stack.map covW).sum := by
        simp [measure, weight, topW]
      rw [hm]
      show 4 * (c'.backing.length - c'.pos) + weight stack' < _
      rw [h1]
      omega
    cases r with
    | value v =>
      simp only [Parser.pure_apply, Out.ok.injEq, Prod.mk.injEq, Sum.inr.injEq] at e2
      exact key _ e2.1.symm e2.2.symm (by simp [weight, topW])
    | newArray len =>
      simp only at e2
      split at e2
      · simp only [Parser.pure_apply, Out.ok.injEq, Prod.mk.injEq, Sum.inr.injEq] at e2
        exact key _ e2.1.symm e2.2.symm (by simp [weight, topW])
      · simp at e2
    | newMap len byte =>
      simp only at e2
      split at e2
      · simp only [Parser.pure_apply, Out.ok.injEq, Prod.mk.injEq, Sum.inr.injEq] at e2
        exact key _ e2.1.symm e2.2.symm (by simp [weight, topW])
      · simp at e2
    | json =>
      simp only [Parser.pure_apply, Out.ok.injEq, Prod.mk.injEq, Sum.inr.injEq] at e2
      exact key _ e2.1.symm e2.2.symm (by simp [weight, topW, covW])
    | timezone =>
      simp only [Parser.pure_apply, Out.ok.injEq, Prod.mk.injEq, Sum.inr.injEq] at e2
      exact key _ e2.1.symm e2.2.symm (by simp [weight, topW, covW])
  | foundValue v =>
    simp only [step] at e
    have hlift : ∀ s, afterValue env v stack = .ok (.inr s) → stack' = s ∧ c' = c := by
      intro s hs
      rw [hs] at e
      simp only [Parser.lift_ok, Out.ok.injEq, Prod.mk.injEq, Sum.inr.injEq] at e
      exact ⟨e.1.symm, e.2.symm⟩
    have key : ∀ s, afterValue env v stack = .ok (.inr s) → weight s ≤ 1 + (stack.map covW).sum →
        c'.backing = c.backing ∧ c'.pos ≤ c'.backing.length ∧
        measure stack' c' < measure (.foundValue v :: stack) c := by
      intro s hs hw
      obtain ⟨rfl, rfl⟩ := hlift s hs
      refine ⟨rfl, hc, ?_⟩
      have hm : measure (.foundValue v :: stack) c' =
          4 * (c'.backing.length - c'.pos) + (2 + (stack.map covW).sum) := by
        simp [measure, weight, topW]
      rw [hm]
      show 4 * (c'.backing.length - c'.pos) + weight stack' < _
      omega
    have hne : ∀ s, afterValue env v stack ≠ .ok (.inr s) → stack' ≠ s := by
      rintro s hs rfl
      cases ha : afterValue env v stack with
      | ok r =>
        rw [ha] at e
        simp only [Parser.lift_ok, Out.ok.injEq, Prod.mk.injEq] at e
        exact hs (by rw [ha, e.1])
      | err x => rw [ha] at e; simp at e
      | panic x => rw [ha] at e; simp at e
    have hst : afterValue env v stack = .ok (.inr stack') := by
      by_contra hx
      exact hne _ hx rfl
    refine key stack' hst ?_
    cases stack with
    | nil => simp [afterValue] at hst
    | cons s rest =>
      cases s with
      | foundKey k =>
        simp only [afterValue, Out.ok.injEq, Sum.inr.injEq] at hst
        subst hst
        simp [weight, topW, covW]; omega
      | array soFar left =>
        simp only [afterValue] at hst
        split at hst <;> (simp only [Out.ok.injEq, Sum.inr.injEq] at hst; subst hst;
                          simp [weight, topW, covW]; omega)
      | jsonNeeded =>
        simp only [afterValue] at hst
        cases v <;> simp only [reduceCtorEq] at hst
        split at hst
        · simp only [Out.ok.injEq, Sum.inr.injEq] at hst; subst hst
          simp [weight, topW, covW]; omega
        · simp at hst
      | timezoneNeeded =>
        simp only [afterValue] at hst
        cases v <;> simp only [reduceCtorEq] at hst
        split at hst
        · simp only [Out.ok.injEq, Sum.inr.injEq] at hst; subst hst
          simp [weight, topW, covW]; omega
        · simp at hst
      | valueNeeded => simp [afterValue] at hst
      | foundValue => simp [afterValue] at hst
      | map => simp [afterValue] at hst
      | foundKeyValue => simp [afterValue] at hst
  | array soFar left =>
    simp only [step, Parser.pure_apply, Out.ok.injEq, Prod.mk.injEq, Sum.inr.injEq] at e
    obtain ⟨rfl, rfl⟩ := e
    refine ⟨rfl, hc, ?_⟩
    simp [measure, weight, topW, covW]
  | map soFar left byte =>
    simp only [step] at e
    rw [Parser.bind_apply, Out.bind_eq_ok] at e
    obtain ⟨⟨r, c1⟩, e1, e2⟩ := e
    obtain ⟨h1, h2, h3⟩ := parseString_adv h byte c r c1 e1
    have h3 := h3 hc
    simp only [Parser.pure_apply, Out.ok.injEq, Prod.mk.injEq, Sum.inr.injEq] at e2
    obtain ⟨rfl, rfl⟩ := e2
    refine ⟨h1, by rw [h1]; exact h3, ?_⟩
    simp [measure, weight, topW, covW, h1]
    omega
  | foundKeyValue k v =>
    simp only [step] at e
    cases stack with
    | nil => simp at e
    | cons s rest =>
      cases s with
      | map soFar left byte =>
        simp only at e
        split at e <;> (simp only [Parser.pure_apply, Out.ok.injEq, Prod.mk.injEq, Sum.inr.injEq] at e
                        obtain ⟨rfl, rfl⟩ := e
                        refine ⟨rfl, hc, ?_⟩
                        simp [measure, weight, topW, covW])
      | _ => simp at e
  | foundKey k => simp [step] at e
  | jsonNeeded => simp [step] at e
  | timezoneNeeded => simp [step] at e

/-- No iteration moves backwards; reading a value moves forwards. -/
theorem step_moves {env : Env} {h : Option (Huffman Char)} {st : DState} {stack stack' : List DState}
    {c c' : Cursor UInt8} (_hc : c.pos ≤ c.backing.length)
    (e : step env h st stack c = .ok (.inr stack', c')) :
    c.pos ≤ c'.pos ∧ (st = .valueNeeded → c.pos < c'.pos) := by
  have key : ∀ {k : Nat} {r : Value ⊕ List DState}, Adv k (step env h st stack) →
      step env h st stack c = .ok (r, c') → c.pos + k ≤ c'.pos := fun ha e => (ha c _ c' e).2.1
  cases st with
  | valueNeeded =>
    have : Adv 1 (step env h .valueNeeded stack) := by
      simp only [step]
      refine Adv.bind0 (parsePrimitive_adv env h) (fun r => ?_)
      cases r with
      | value v => exact Adv.pure _
      | newArray len => exact Adv.ite (fun _ => Adv.pure _) (fun _ => Adv.crash _ _)
      | newMap len byte => exact Adv.ite (fun _ => Adv.pure _) (fun _ => Adv.crash _ _)
      | json => exact Adv.pure _
      | timezone => exact Adv.pure _
    have := key this e
    exact ⟨by omega, fun _ => by omega⟩
  | foundValue v => exact ⟨by have := key (k := 0) (Adv.lift _) e; omega, by simp⟩
  | array soFar left => exact ⟨by have := key (k := 0) (Adv.pure _) e; omega, by simp⟩
  | map soFar left byte =>
    exact ⟨by have := key (k := 1) (Adv.bind0 (parseString_adv h byte) (fun _ => Adv.pure _)) e; omega, by simp⟩
  | foundKeyValue k v =>
    refine ⟨?_, by simp⟩
    simp only [step] at e
    split at e
    · split at e <;> (simp only [Parser.pure_apply, Out.ok.injEq, Prod.mk.injEq] at e; rw [e.2])
    · simp at e
  | foundKey k => simp [step] at e
  | jsonNeeded => simp [step] at e
  | timezoneNeeded => simp [step] at e

/-- With more fuel than the measure, the loop reaches its end. -/
theorem loops_of_measure (env : Env) (h : Option (Huffman Char)) (n : Nat) :
    ∀ (stack : List DState) (c : Cursor UInt8), c.pos ≤ c.backing.length → measure stack c < n →
      ∃ k ≤ measure stack c + 1, ∃ o, Loops env h k stack c o ∧ run env h n stack c = o := by
  induction n with
  | zero => intro stack c _ hm; omega
  | succ n ih =>
    intro stack c hc hm
    cases stack with
    | nil => exact ⟨1, by omega, _, .empty c, rfl⟩
    | cons st stack =>
      have hrun : run env h (n + 1) (st :: stack) c = step env h st stack c >>= fun x =>
          (match x.1 with
            | .inl v => (pure v : Parser ValueSerError Value)
            | .inr stack' => run env h n stack') x.2 := by
        show (step env h st stack >>= _) c = _
        rw [Parser.bind_apply]
        congr 1
      cases hs : step env h st stack c with
      | err e => exact ⟨1, by omega, _, .err hs, by rw [hrun, hs]; rfl⟩
      | panic p => exact ⟨1, by omega, _, .panic hs, by rw [hrun, hs]; rfl⟩
      | ok r =>
        obtain ⟨r, c'⟩ := r
        cases r with
        | inl v => exact ⟨1, by omega, _, .done hs, by rw [hrun, hs]; rfl⟩
        | inr stack' =>
          obtain ⟨_, h2, h3⟩ := step_inv hc hs
          obtain ⟨k, hk, o, hl, hr⟩ := ih stack' c' h2 (by omega)
          exact ⟨k + 1, by omega, o, .more hs hl, by rw [hrun, hs]; exact hr⟩

theorem Loops.det {env : Env} {h : Option (Huffman Char)} {n m : Nat} {stack : List DState}
    {c : Cursor UInt8} {o o' : Out ValueSerError (Value × Cursor UInt8)}
    (h1 : Loops env h n stack c o) (h2 : Loops env h m stack c o') : n = m ∧ o = o' := by
  induction h1 generalizing m with
  | empty c => cases h2; exact ⟨rfl, rfl⟩
  | done e => cases h2 <;> simp_all
  | err e => cases h2 <;> simp_all
  | panic e => cases h2 <;> simp_all
  | more e hn ih =>
    cases h2 with
    | more e' hn' =>
      rw [e] at e'
      simp only [Out.ok.injEq, Prod.mk.injEq, Sum.inr.injEq] at e'
      obtain ⟨rfl, rfl⟩ := e'
      obtain ⟨h3, h4⟩ := ih hn'
      exact ⟨by omega, h4⟩
    | done e' => rw [e] at e'; simp at e'
    | err e' => rw [e] at e'; simp at e'
    | panic e' => rw [e] at e'; simp at e'

end Value

end Souris
