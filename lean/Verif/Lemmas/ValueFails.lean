import Verif.Props.Value

/-!
# What the loop does with values that do not come back

An empty array takes the next value for its element. So after a value that contains one the loop wants
more values than the writer wrote, and at the end of the bytes it fails. `Want n` are the stacks that want
`n` more values.
-/

namespace Souris

namespace Value

/-- From here the loop does not succeed. -/
def Fails (env : Env) (h : Option (Huffman Char)) (stack : List DState) (c : Cursor UInt8) : Prop :=
  ∀ n o, Loops env h n stack c o → ∀ x, o ≠ .ok x

theorem Fails.head {env : Env} {h : Option (Huffman Char)} {st : DState} {stack s1 : List DState}
    {c c1 : Cursor UInt8} (e : step env h st stack c = .ok (.inr s1, c1)) (hf : Fails env h s1 c1) :
    Fails env h (st :: stack) c := by
  intro n o hl x
  cases hl with
  | done e1 => rw [e] at e1; cases e1
  | err e1 => rw [e] at e1; cases e1
  | panic e1 => rw [e] at e1; cases e1
  | more e1 hn =>
    rw [e] at e1
    cases e1
    exact hf _ _ hn x

theorem Fails.of_steps {env : Env} {h : Option (Huffman Char)} {s1 s2 : List DState} {c1 c2 : Cursor UInt8}
    (hs : Steps env h s1 c1 s2 c2) (hf : Fails env h s2 c2) : Fails env h s1 c1 := by
  induction hs with
  | refl => exact hf
  | head e _ ih => exact .head e (ih hf)

theorem Fails.err {env : Env} {h : Option (Huffman Char)} {st : DState} {stack : List DState}
    {c : Cursor UInt8} {x : ValueSerError} (e : step env h st stack c = .err x) : Fails env h (st :: stack) c := by
  intro n o hl y
  cases hl with
  | done e1 => rw [e] at e1; cases e1
  | err e1 => intro h; cases h
  | panic e1 => intro h; cases h
  | more e1 hn => rw [e] at e1; cases e1

theorem Fails.panic {env : Env} {h : Option (Huffman Char)} {st : DState} {stack : List DState}
    {c : Cursor UInt8} {x : Panic} (e : step env h st stack c = .panic x) : Fails env h (st :: stack) c := by
  intro n o hl y
  cases hl with
  | done e1 => rw [e] at e1; cases e1
  | err e1 => intro h; cases h
  | panic e1 => intro h; cases h
  | more e1 hn => rw [e] at e1; cases e1

/-- A stack of unfinished arrays that want `p` values besides the one being read. -/
inductive Frames : List DState → Nat → Prop
  | nil : Frames [] 0
  | cons (soFar : List Value) (left : Nat) {s : List DState} {p : Nat} (h : Frames s p) :
      Frames (.array soFar left :: s) (left - 1 + p)

/-- A stack that wants `n` values. -/
inductive Want : Nat → List DState → Prop
  | done (v : Value) : Want 0 [.foundValue v]
  | more {s : List DState} {p : Nat} (h : Frames s p) : Want (p + 1) (.valueNeeded :: s)

theorem found_want {env : Env} {h : Option (Huffman Char)} {s : List DState} {p : Nat} (hf : Frames s p)
    (v : Value) (c : Cursor UInt8) : ∃ st, Steps env h (.foundValue v :: s) c st c ∧ Want p st := by
  induction hf generalizing v with
  | nil => exact ⟨_, .refl _ _, .done v⟩
  | @cons soFar left s p hs ih =>
    by_cases hl : left ≤ 1
    · obtain ⟨st, h1, h2⟩ := ih (.array (soFar ++ [v]))
      refine ⟨st, .head (s1 := .foundValue (.array (soFar ++ [v])) :: s) (c1 := c) ?_ h1, ?_⟩
      · simp [step, afterValue, hl]
      · rwa [show left - 1 + p = p by omega]
    · refine ⟨.valueNeeded :: .array (soFar ++ [v]) (left - 1) :: s,
        .head (s1 := .array (soFar ++ [v]) (left - 1) :: s) (c1 := c) ?_ (.one rfl), ?_⟩
      · simp [step, afterValue, hl]
      · have := Want.more (Frames.cons (soFar ++ [v]) (left - 1) hs)
        rwa [show left - 1 - 1 + p + 1 = left - 1 + p by omega] at this

/-- A value that is wanted when the bytes have run out. -/
theorem want_fails {env : Env} {h : Option (Huffman Char)} {n : Nat} {st : List DState} (hw : Want (n + 1) st)
    (pre : List UInt8) : Fails env h st (Cursor.At pre []) := by
  cases hw with
  | more hf =>
    refine .err (x := .notEnoughBytes) ?_
    simp only [step]
    rw [Parser.bind_apply, parsePrimitive_eq, Parser.bind_apply]
    have : Parser.next ValueSerError.notEnoughBytes (Cursor.At pre []) = .err .notEnoughBytes := by
      simp [Parser.next, Cursor.next, Cursor.At]
    rw [this]
    rfl

/-- A map. -/
theorem map_fails {env : Env} {h : Option (Huffman Char)} {m : List (List Char × Value)} {bytes : List UInt8}
    (e : ser env h (.map m) = .ok bytes) (pre tail : List UInt8) (s : List DState) :
    Fails env h (.valueNeeded :: s) (Cursor.At pre (bytes ++ tail)) := by
  obtain ⟨b, rest, rfl, hb⟩ := C32_type_byte e
  have hty : ValueTy.ofU8 ((b &&& 0b11110000) >>> 4) = .ok .map := by
    rw [C32_valueTy]
    have hall : ∀ k : Fin 256, (UInt8.ofNat k.val).toNat / 16 = 8 →
        (UInt8.ofNat k.val &&& 0b11110000) >>> 4 = ValueTy.map.toU8 := by decide +kernel
    have := hall ⟨b.toNat, b.toNat_lt⟩
    simp only [show UInt8.ofNat b.toNat = b by simp] at this
    exact this hb
  have hnext : ∃ c1, Parser.next ValueSerError.notEnoughBytes (Cursor.At pre (b :: rest ++ tail)) = .ok (b, c1) := by
    refine ⟨⟨pre ++ (b :: rest ++ tail), pre.length + 1⟩, ?_⟩
    simp [Parser.next, Cursor.next, Cursor.At]
  obtain ⟨c0, hnext⟩ := hnext
  have hstep : ∀ r c1, step env h .valueNeeded s (Cursor.At pre (b :: rest ++ tail)) = .ok (r, c1) →
      ∃ sf l by', r = .inr (.map sf l by' :: s) := by
    intro r c1 hs
    simp only [step] at hs
    rw [Parser.bind_apply, Out.bind_eq_ok] at hs
    obtain ⟨⟨r, c2⟩, e1, e2⟩ := hs
    rw [parsePrimitive_eq, Parser.bind_apply, hnext] at e1
    simp only [Out.ok_bind] at e1
    rw [hty, Parser.bind_apply] at e1
    simp only [Parser.lift_ok, Out.ok_bind, primBody] at e1
    rw [Parser.bind_apply, Out.bind_eq_ok] at e1
    obtain ⟨⟨len, c3⟩, _, e3⟩ := e1
    simp only [Parser.pure_apply, Out.ok.injEq, Prod.mk.injEq] at e3
    obtain ⟨rfl, rfl⟩ := e3
    simp only at e2
    split at e2
    · simp only [Parser.pure_apply, Out.ok.injEq, Prod.mk.injEq] at e2
      exact ⟨_, _, _, e2.1.symm⟩
    · simp at e2
  cases e0 : step env h .valueNeeded s (Cursor.At pre (b :: rest ++ tail)) with
  | err x => exact .err e0
  | panic x => exact .panic e0
  | ok x =>
    obtain ⟨r, c1⟩ := x
    obtain ⟨sf, l, by', rfl⟩ := hstep r c1 e0
    exact .head e0 fun n o hl => map_doomed hl

/-- A parser that fails on bytes, wherever they are. -/
def Refuses {ε α : Type} (p : Parser ε α) (bs : List UInt8) : Prop :=
  ∀ pre tail : List UInt8, (pre ++ bs ++ tail).length < usizeMod → ∃ e, p (Cursor.At pre (bs ++ tail)) = .err e

theorem Refuses.bind {ε α β : Type} {p : Parser ε α} {f : α → Parser ε β} {b1 b2 : List UInt8} {x : α}
    (h1 : Reads p b1 x) (h2 : Refuses (f x) b2) : Refuses (p >>= f) (b1 ++ b2) := by
  intro pre tail hlen
  rw [Parser.bind_apply, List.append_assoc, h1 pre (b2 ++ tail) (by simpa using hlen)]
  simp only [Out.ok_bind]
  exact h2 (pre ++ b1) tail (by simpa using hlen)

theorem Refuses.bind' {ε α β : Type} {p : Parser ε α} {f : α → Parser ε β} {b b1 b2 : List UInt8} {x : α}
    (hb : b = b1 ++ b2) (h1 : Reads p b1 x) (h2 : Refuses (f x) b2) : Refuses (p >>= f) b := hb ▸ .bind h1 h2

theorem Refuses.first {ε α β : Type} {p : Parser ε α} {f : α → Parser ε β} {b : List UInt8}
    (h1 : Refuses p b) : Refuses (p >>= f) b := by
  intro pre tail hlen
  obtain ⟨e, he⟩ := h1 pre tail hlen
  exact ⟨e, by rw [Parser.bind_apply, he]; rfl⟩

theorem prim_refuses {env : Env} {h : Option (Huffman Char)} {t : ValueTy} {f : UInt8} (hf : f < 16)
    {bs : List UInt8} (hk : Refuses (primBody env h (tyByte t f) t) bs) :
    Refuses (parsePrimitive env h) (tyByte t f :: bs) := by
  rw [parsePrimitive_eq]
  refine Refuses.bind' (b1 := [tyByte t f]) (b2 := bs) rfl (Reads.next _ _) ?_
  refine Refuses.bind' (b1 := []) (b2 := bs) rfl (x := t) ?_ hk
  rw [tyByte_ty t f hf, ValueTy.ofU8_toU8]
  exact Reads.lift t

theorem timestamp_refuses {t : Timestamp} (hv : t.Valid) (hl : ¬ t.LeapAt59) (env : Env)
    (h : Option (Huffman Char)) : Refuses (parsePrimitive env h) (serTimestamp t) := by
  obtain ⟨⟨⟨hy1, hy2⟩, ⟨hm1, hm2⟩, ⟨hd1, hd2⟩⟩, hh, hmi, hs, hn⟩ := hv
  have hdays := monthDays_le t.year t.month
  have w4 : Width 4 := by unfold Width; decide
  have hu : ∀ n, n < 2 ^ 32 → IsUnsigned 4 n := fun n h => h
  have hys : IsSigned 4 t.year := by
    constructor
    · calc (-(2 ^ (8 * 4 - 1)) : Int) ≤ -262143 := by norm_num
        _ ≤ _ := hy1
    · calc t.year ≤ 262142 := hy2
        _ < (2 ^ (8 * 4 - 1) : Int) := by norm_num
  have hi : (Integer.ofSigned 4 t.year).Native := .signed w4 hys
  have hst : (Integer.ofSigned 4 t.year).signedState ≠ .unsigned := by
    unfold Integer.ofSigned; split_ifs <;> simp
  have hnorm : (Integer.ofSigned 4 t.year).normUsed = Integer.ofSigned 4 t.year :=
    hi.normUsed_eq (fun h => hst h.1)
  have hstate : (Integer.ofSigned 4 t.year).ser.1 = (Integer.ofSigned 4 t.year).signedState :=
    Integer.WF.ser_state _
  unfold serTimestamp
  refine prim_refuses (by rw [hstate]; exact stateByte_lt _) ?_
  refine Refuses.first ?_
  rw [hstate]
  unfold timestampP
  refine Refuses.bind' (b1 := []) rfl (x := (Integer.ofSigned 4 t.year).signedState) ?_ ?_
  · rw [stateByte, signedOfU8_toU8]; exact (Reads.lift _).mapErr _
  refine Refuses.bind (intP_reads hi.serialisable) ?_
  refine Refuses.bind' (b1 := []) rfl (x := t.year) ?_ ?_
  · rw [hnorm, C01_signed_roundtrip w4 hys]; exact (Reads.lift _).mapErr _
  refine Refuses.bind (uintP_reads w4 (hu _ (by omega))) ?_
  refine Refuses.bind (uintP_reads w4 (hu _ (by omega))) ?_
  have hdate : Timestamp.dateOk t.year t.month t.day = true :=
    dateOk_iff.mpr ⟨⟨hy1, hy2⟩, ⟨hm1, hm2⟩, hd1, hd2⟩
  rw [if_neg (by rw [hdate]; simp)]
  refine Refuses.bind (uintP_reads w4 (hu _ (by omega))) ?_
  refine Refuses.bind (uintP_reads w4 (hu _ (by omega))) ?_
  refine Refuses.bind (uintP_reads w4 (hu _ (by omega))) ?_
  refine Refuses.bind' (b2 := []) (by simp) (uintP_reads (n := t.nano) w4 (hu _ (by omega))) ?_
  have htime : ¬ Timestamp.timeOk t.hour t.minute t.sec t.nano = true := by
    simp only [Timestamp.timeOk, decide_eq_true_eq]
    exact fun h => hl h.2.2.2.2
  rw [if_pos htime]
  intro pre tail _
  exact ⟨_, rfl⟩

theorem serList_length {env : Env} {h : Option (Huffman Char)} :
    ∀ {a : List Value} {bytes : List UInt8}, serList env h a = .ok bytes → a.length ≤ bytes.length
  | [], bytes, _ => Nat.zero_le _
  | v :: a, bytes, e => by
    simp only [serList] at e
    rw [Out.bind_eq_ok] at e
    obtain ⟨b1, e1, e⟩ := e
    rw [Out.bind_eq_ok] at e
    obtain ⟨b2, e2, e⟩ := e
    simp only [Out.pure_eq, Out.ok.injEq] at e
    obtain ⟨b, rest, rfl, _⟩ := C32_type_byte e1
    have := serList_length e2
    rw [← e]
    simp only [List.length_cons, List.length_append]
    omega

/-- What the loop does with the bytes of a value when it wants `n + 1` values. It wants more if the value is none
of those that come back. -/
def Meets (S : Value → Prop) (env : Env) (h : Option (Huffman Char)) (v : Value) : Prop :=
  ∀ (bytes : List UInt8), ser env h v = .ok bytes → ∀ (pre tail : List UInt8) (n : Nat) (st : List DState),
    Want (n + 1) st → (pre ++ bytes ++ tail).length < usizeMod →
    Fails env h st (Cursor.At pre (bytes ++ tail)) ∨
    ∃ n' st', Want n' st' ∧ Steps env h st (Cursor.At pre (bytes ++ tail)) st' (Cursor.At (pre ++ bytes) tail) ∧
      n ≤ n' ∧ (¬ S v → n + 1 ≤ n')

theorem Meets.mono {S S' : Value → Prop} {env : Env} {h : Option (Huffman Char)} {v : Value} (hS : S v → S' v)
    (hm : Meets S env h v) : Meets S' env h v := by
  intro bytes e pre tail n st hw hlen
  rcases hm bytes e pre tail n st hw hlen with h1 | ⟨n', st', h1, h2, h3, h4⟩
  · exact .inl h1
  · exact .inr ⟨n', st', h1, h2, h3, fun hn => h4 fun h => hn (hS h)⟩

theorem meets_list {S : Value → Prop} {env : Env} {h : Option (Huffman Char)} (a : List Value) (ha : ∀ v ∈ a, Meets S env h v) :
    ∀ (bytes : List UInt8), serList env h a = .ok bytes → ∀ (pre tail : List UInt8) (n : Nat) (st : List DState),
      Want (n + a.length) st → (pre ++ bytes ++ tail).length < usizeMod →
      Fails env h st (Cursor.At pre (bytes ++ tail)) ∨
      ∃ n' st', Want n' st' ∧ Steps env h st (Cursor.At pre (bytes ++ tail)) st' (Cursor.At (pre ++ bytes) tail) ∧
        n ≤ n' ∧ ((∃ v ∈ a, ¬ S v) → n + 1 ≤ n') := by
  induction a with
  | nil =>
    intro bytes e pre tail n st hw _
    simp only [serList, Out.ok.injEq] at e
    subst e
    refine .inr ⟨n, st, hw, ?_, Nat.le_refl n, by simp⟩
    simpa using Steps.refl (env := env) (h := h) st (Cursor.At pre tail)
  | cons v a ih =>
    intro bytes e pre tail n st hw hlen
    simp only [serList] at e
    rw [Out.bind_eq_ok] at e
    obtain ⟨b1, e1, e⟩ := e
    rw [Out.bind_eq_ok] at e
    obtain ⟨b2, e2, e⟩ := e
    simp only [Out.pure_eq, Out.ok.injEq] at e
    subst e
    have hw' : Want (n + a.length + 1) st := by simpa [Nat.add_assoc] using hw
    have h1 := ha v (by simp) b1 e1 pre (b2 ++ tail) (n + a.length) st hw' (by simpa using hlen)
    rw [List.append_assoc]
    rcases h1 with h1 | ⟨n1, st1, hw1, s1, hn1, hs1⟩
    · exact .inl h1
    · obtain ⟨m, rfl⟩ : ∃ m, n1 = m + a.length := ⟨n1 - a.length, by omega⟩
      have h2 := ih (fun w hw => ha w (by simp [hw])) b2 e2 (pre ++ b1) tail m st1 hw1 (by simpa using hlen)
      rcases h2 with h2 | ⟨n2, st2, hw2, s2, hn2, hs2⟩
      · exact .inl (.of_steps s1 h2)
      · refine .inr ⟨n2, st2, hw2, ?_, by omega, ?_⟩
        · rw [← List.append_assoc pre]
          exact s1.trans s2
        · rintro ⟨w, hw, hns⟩
          rcases List.mem_cons.mp hw with rfl | hw
          · have := hs1 hns; omega
          · have := hs2 ⟨w, hw, hns⟩; omega

theorem meets_storable {env : Env} {h : Option (Huffman Char)} (hlz : env.lz.Lossless)
    (hord : HashOrder env.byteOrd) {v : Value} (hv : Storable env h v) : Meets (Storable env h) env h v := by
  intro bytes e pre tail n st hw hlen
  obtain ⟨bytes', v', e', _, hp⟩ := ser_parsed hlz hord hv
  rw [e, Out.ok.injEq] at e'
  subst e'
  cases hw with
  | more hf =>
    obtain ⟨st', h1, h2⟩ := found_want (env := env) (h := h) hf v' (Cursor.At (pre ++ bytes) tail)
    exact .inr ⟨n, st', h2, (hp pre tail _ hlen).trans h1, Nat.le_refl n, fun hn => absurd hv hn⟩

theorem meets_array {S : Value → Prop} {env : Env} {h : Option (Huffman Char)} {a : List Value}
    (hS : a ≠ [] → a.length < 2 ^ 64 → a.length ≤ env.arrayCapMax → (∀ v ∈ a, S v) → S (.array a))
    (ih : ∀ v ∈ a, Meets S env h v) : Meets S env h (.array a) := by
  intro bytes e pre tail n st hw hlen
  simp only [ser] at e
  rw [Out.bind_eq_ok] at e
  obtain ⟨bs, e1, e⟩ := e
  simp only [Out.pure_eq, Out.ok.injEq] at e
  subst e
  have hal := serList_length e1
  have hl64 : a.length < 2 ^ 64 := by
    have : usizeMod = 2 ^ 64 := rfl
    simp only [List.length_append] at hlen
    omega
  cases hw with
  | @more s p hf =>
    obtain ⟨_, hr⟩ := lenP_reads (env := env) (h := h) (t := .array) hl64
      (mk := fun n _ => .newArray n) (fun b => rfl)
    have e2 := hr pre (bs ++ tail) (by simpa using hlen)
    rw [List.append_assoc]
    by_cases hc : a.length ≤ env.arrayCapMax
    · have hs1 : Steps env h (.valueNeeded :: s) (Cursor.At pre (serLen .array a.length ++ (bs ++ tail)))
          (.valueNeeded :: .array [] a.length :: s) (Cursor.At (pre ++ serLen .array a.length) (bs ++ tail)) := by
        refine .head (s1 := .array [] a.length :: s)
          (c1 := Cursor.At (pre ++ serLen .array a.length) (bs ++ tail)) ?_ (.one rfl)
        simp only [step]
        rw [Parser.bind_apply, e2]
        simp only [Out.ok_bind]
        rw [if_pos hc]
        rfl
      have hw1 := Want.more (Frames.cons [] a.length hf)
      by_cases h0 : a = []
      · subst h0
        simp only [serList, Out.ok.injEq] at e1
        subst e1
        refine .inr ⟨n + 1, .valueNeeded :: .array [] 0 :: s, ?_, ?_, by omega, fun _ => Nat.le_refl _⟩
        rotate_left
        · simpa using hs1
        · simpa using hw1
      · have hpos : 0 < a.length := List.length_pos_iff.mpr h0
        rw [show a.length - 1 + n + 1 = n + a.length by omega] at hw1
        have h2 := meets_list a ih bs e1 (pre ++ serLen .array a.length) tail n _ hw1 (by simpa using hlen)
        rcases h2 with h2 | ⟨n2, st2, hw2, s2, hn2, hs2⟩
        · exact .inl (.of_steps hs1 h2)
        · refine .inr ⟨n2, st2, hw2, ?_, hn2, fun hns => hs2 ?_⟩
          · rw [← List.append_assoc pre]
            exact hs1.trans s2
          · by_contra hno
            push Not at hno
            exact hns (hS h0 hl64 hc hno)
    · refine .inl (.panic (x := .capacityOverflow) ?_)
      simp only [step]
      rw [Parser.bind_apply, e2]
      simp only [Out.ok_bind]
      rw [if_neg hc]
      rfl

theorem meets {env : Env} {h : Option (Huffman Char)} (hlz : env.lz.Lossless)
    (hord : HashOrder env.byteOrd) {v : Value} (hv : Faithful env h v) : Meets (Storable env h) env h v := by
  induction hv with
  | character c => exact meets_storable hlz hord (.character c)
  | string hs => exact meets_storable hlz hord (.string hs)
  | binary hb => exact meets_storable hlz hord (.binary hb)
  | boolean b => exact meets_storable hlz hord (.boolean b)
  | integer hi => exact meets_storable hlz hord (.integer hi)
  | imaginary hz => exact meets_storable hlz hord (.imaginary hz)
  | @timestamp t hv =>
    by_cases hl : t.LeapAt59
    · exact meets_storable hlz hord (.timestamp hv hl)
    · intro bytes e pre tail n st hw hlen
      simp only [ser, Out.ok.injEq] at e
      subst e
      obtain ⟨x, hx⟩ := timestamp_refuses hv hl env h pre tail hlen
      cases hw with
      | more hf =>
        refine .inl (.err (x := x) ?_)
        simp only [step]
        rw [Parser.bind_apply, hx]
        rfl
  | json hs hj => exact meets_storable hlz hord (.json hs hj)
  | null => exact meets_storable hlz hord .null
  | single x => exact meets_storable hlz hord (.single x)
  | double x => exact meets_storable hlz hord (.double x)
  | timezone hs hn => exact meets_storable hlz hord (.timezone hs hn)
  | ipv4 a b c d => exact meets_storable hlz hord (.ipv4 a b c d)
  | ipv6 a b c d e f g i => exact meets_storable hlz hord (.ipv6 a b c d e f g i)
  | map m =>
    intro bytes e pre tail n st hw hlen
    cases hw with
    | more hf => exact .inl (map_fails e pre tail _)
  | @array a ha ih => exact meets_array (fun h0 hl64 hc hno => .array h0 hl64 hc hno) ih

end Value

end Souris
