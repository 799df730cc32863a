import Verif.Lemmas.WireBinary
import Verif.Props.ValueLoop

/-! # Lemmas about the byte format of values -/

namespace Souris

namespace Wire

open Value

/-! ## Type bytes -/

theorem byte_forall {P : UInt8 → Prop} (h : ∀ n : Fin 256, P (UInt8.ofNat n.val)) (b : UInt8) : P b := by
  have := h ⟨b.toNat, b.toNat_lt⟩
  simpa using this

theorem high_half (b : UInt8) : (b &&& 0b11110000) >>> 4 = UInt8.ofNat (b.toNat / 16) :=
  byte_forall (P := fun b => (b &&& 0b11110000) >>> 4 = UInt8.ofNat (b.toNat / 16)) (by decide +kernel) b

theorem low_two (b : UInt8) : b &&& 3 = UInt8.ofNat (b.toNat % 4) :=
  byte_forall (P := fun b => b &&& 3 = UInt8.ofNat (b.toNat % 4)) (by decide +kernel) b

theorem low_half (b : UInt8) : b &&& 0b1111 = UInt8.ofNat (b.toNat % 16) :=
  byte_forall (P := fun b => b &&& 0b1111 = UInt8.ofNat (b.toNat % 16)) (by decide +kernel) b

theorem low_one (b : UInt8) : b &&& 1 > 0 ↔ b.toNat % 2 = 1 :=
  byte_forall (P := fun b => b &&& 1 > 0 ↔ b.toNat % 2 = 1) (by decide +kernel) b

theorem low_three (b : UInt8) : ((b &&& 0b00001110) >>> 1).toNat = b.toNat % 16 / 2 :=
  byte_forall (P := fun b => ((b &&& 0b00001110) >>> 1).toNat = b.toNat % 16 / 2) (by decide +kernel) b

theorem ofU8_eq {x : UInt8} {ty : ValueTy} (h : ValueTy.ofU8 x = .ok ty) : x = ty.toU8 := by
  have := byte_forall (P := fun b => (match ValueTy.ofU8 b with
    | .ok ty => decide (b = ty.toU8)
    | _ => true) = true) (by decide +kernel) x
  rw [h] at this
  simpa using this

theorem ty_iff {b : UInt8} {ty : ValueTy} :
    ValueTy.ofU8 ((b &&& 0b11110000) >>> 4) = .ok ty ↔ b.toNat / 16 = ty.toU8.toNat := by
  have hb := b.toNat_lt
  rw [high_half]
  constructor
  · intro h
    have := congrArg UInt8.toNat (ofU8_eq h)
    rw [UInt8.toNat_ofNat', Nat.mod_eq_of_lt (by omega)] at this
    exact this
  · intro h
    rw [h]
    simp [ValueTy.ofU8_toU8]

theorem sign_toU8 (ss : SignedState) : ss.toU8.toNat = signCode ss := by cases ss <;> rfl

theorem sign_iff {b : UInt8} {ss : SignedState} :
    SignedState.ofU8 (b &&& 3) = .ok ss ↔ b.toNat % 4 = signCode ss := by
  rw [low_two]
  constructor
  · intro h
    have h' : UInt8.ofNat (b.toNat % 4) = ss.toU8 := by
      unfold SignedState.ofU8 at h
      split_ifs at h <;> (simp only [Out.ok.injEq] at h; subst h; assumption)
    have := congrArg UInt8.toNat h'
    rw [UInt8.toNat_ofNat', Nat.mod_eq_of_lt (by omega)] at this
    rw [this]; exact sign_toU8 ss
  · intro h
    rw [h, ← sign_toU8]
    simp [signedOfU8_toU8]

theorem comp_iff {b : UInt8} {ct : BinaryCompression} :
    BinaryCompression.ofByte (b &&& 0b1111) = .ok ct ↔ b.toNat % 16 = ct.toByte.toNat := by
  rw [low_half]
  constructor
  · intro h
    have h' : UInt8.ofNat (b.toNat % 16) = ct.toByte := by
      unfold BinaryCompression.ofByte at h
      split_ifs at h <;> (simp only [Out.ok.injEq] at h; subst h; assumption)
    have := congrArg UInt8.toNat h'
    rw [UInt8.toNat_ofNat', Nat.mod_eq_of_lt (by omega)] at this
    exact this
  · intro h
    rw [h]
    cases ct <;> rfl

theorem magic_iff {m : UInt8} {s1 s2 : SignedState} : Imaginary.unMagic m = .ok (s1, s2) ↔ SignPair s1 s2 m.toNat := by
  constructor
  · intro h
    unfold Imaginary.unMagic at h
    split_ifs at h <;> (simp only [Out.ok.injEq, Prod.mk.injEq] at h; obtain ⟨rfl, rfl⟩ := h; subst m; constructor)
  · intro h
    generalize hn : m.toNat = n at h
    have : m = UInt8.ofNat n := by rw [← hn]; simp
    subst this
    cases h <;> rfl

/-! ## Pieces -/

/-- The coder of a tree. -/
abbrev coderOf (co : Option (Node Char)) : Option (Huffman Char) := co.map Huffman.ofRoot

theorem intP_eats (ss : SignedState) : Eats (intP ss) fun i w =>
    i.signedState = ss ∧ i.WF ∧ IntWord (max 1 i.used) ss i.value w := (int_eats ss).mapErr _

theorem uintP_eats {k : Nat} (h1 : 1 ≤ k) (h2 : k ≤ 16) : Eats (uintP k) fun n w => NatWord k n w :=
  nat_eats h1 h2 ValueSerError.integer

theorem int_used {i : Integer} (h : i.WF) : i.used ≤ 16 := by
  have := h.used_le
  omega

theorem string_eats (co : Option (Node Char)) (b : UInt8) (hb : b.toNat / 16 = 1) :
    Eats (parseString (coderOf co) b) fun s w => StrWord false co s (b :: w) := by
  unfold parseString
  refine Eats.ite (fun h => ?_) fun h => ?_
  · cases co with
    | none => exact Eats.fail _
    | some root =>
      refine Eats.bind (bits_eats.mapErr _) fun bits w hw => ?_
      obtain ⟨l, e, hw⟩ := hw
      refine (Eats.lift fun s hs => ?_).mapErr _
      unfold Huffman.decode at hs
      rw [e] at hs
      have hs' : Huffman.decodeAux root root [] l = .ok s := hs
      rw [List.append_nil]
      exact .coded ⟨hb, (low_one b).mp h, by simp⟩ rfl (decode_coded.mp hs').1 hw
  · refine Eats.bind (uintP_eats (by omega) (by omega)) fun n len hn => Eats.bind (Eats.read _ _) fun bs w hw => ?_
    obtain ⟨rfl, rfl, -⟩ := hw
    refine Eats.lift fun s hs => ?_
    rw [List.append_nil]
    have : utf8 s = w := by
      refine utf8_utf8Decode ?_
      cases hd : utf8Decode w with
      | none => rw [hd] at hs; cases hs
      | some s' => rw [hd] at hs; simp only [Out.ofOption, Out.ok.injEq] at hs; rw [hs]
    subst this
    refine .plain ⟨hb, ?_, by simp⟩ hn
    have := mt (low_one b).mpr h
    omega

theorem string_reads {co : Option (Node Char)} (hco : ∀ root, co = some root → ∃ l r, root = .branch l r)
    {s : List Char} {b : UInt8} {w : List UInt8} (h : StrWord false co s (b :: w)) (hw : w.length ≤ 2 ^ 21) :
    b.toNat / 16 = 1 ∧ Reads (parseString (coderOf co) b) w s := by
  cases h with
  | plain hf hl =>
    refine ⟨hf.1, ?_⟩
    unfold parseString
    rw [if_neg (by rw [low_one]; have := hf.2.1; omega)]
    refine Reads.bind (nat_reads (by omega) (by omega) hl ValueSerError.integer) ?_
    refine Reads.bind' (b1 := utf8 s) (b2 := []) (by simp [utf8]) (Reads.read _ rfl) ?_
    rw [utf8Decode_utf8]
    exact Reads.lift s
  | coded hf hr hc hb =>
    rename_i root bits
    refine ⟨hf.1, ?_⟩
    unfold parseString
    rw [if_pos (by rw [low_one]; exact hf.2.1), hr]
    obtain ⟨b, hrb, hbo⟩ := bits_reads hb hw
    refine Reads.bind' (b2 := []) (by simp) (hrb.mapErr _) ?_
    have : (Huffman.ofRoot root).decode b = .ok s := by
      unfold Huffman.decode
      rw [hbo]
      exact decode_coded.mpr ⟨hc, .inl (hco root hr)⟩
    rw [this]
    exact (Reads.lift s).mapErr _

theorem len_eats {t : ValueTy} (b : UInt8) (hb : b.toNat / 16 = t.toU8.toNat) :
    Eats (lenP b t) fun n w => LenWord false t.toU8.toNat n (b :: w) := by
  unfold lenP
  refine Eats.bind (Eats.lift (G := fun _ w => w = []) fun _ _ => rfl) fun ty w hw => ?_
  subst hw
  refine Eats.ite (fun _ => Eats.ite (fun h => ?_) fun h => Eats.ret ?_) fun _ => Eats.fail _
  · exact (uintP_eats (by omega) (by omega)).mono fun n w hn => .long ⟨hb, (low_one b).mp h, by simp⟩ (by simp) hn
  · have := mt (low_one b).mpr h
    refine .short hb ?_ (by simp)
    rw [low_three]
    omega

theorem len_reads {t : ValueTy} {n : Nat} {w : List UInt8} (h : LenWord false t.toU8.toNat n w) :
    ∃ b w', w = b :: w' ∧ b.toNat / 16 = t.toU8.toNat ∧ Reads (lenP b t) w' n := by
  have key : ∀ {b : UInt8} {w' : List UInt8}, b.toNat / 16 = t.toU8.toNat →
      Reads (if b &&& 1 > 0 then uintP 8
        else (pure ((b &&& 0b00001110) >>> 1).toNat : Parser ValueSerError Nat)) w' n → Reads (lenP b t) w' n := by
    intro b w' hb hr
    unfold lenP
    rw [ty_iff.mpr hb]
    refine Reads.bind' (b1 := []) (b2 := w') (by simp) (Reads.lift t) ?_
    rw [if_pos rfl]
    exact hr
  cases h with
  | @short f hf hn _ =>
    refine ⟨f, [], rfl, hf, key hf ?_⟩
    rw [if_neg (by rw [low_one]; omega), low_three, hn, show 2 * n / 2 = n by omega]
    exact Reads.pure n
  | @long f len hf _ hl =>
    refine ⟨f, len, rfl, hf.1, key hf.1 ?_⟩
    rw [if_pos (by rw [low_one]; exact hf.2.1)]
    exact nat_reads (by omega) (by omega) hl ValueSerError.integer

theorem fixed_of {k : Nat} {bs : List UInt8} (h : bs.length = k) : FixedWord k (ofLe bs) bs := ⟨h, number_eq bs⟩

theorem fixed_eq {k n : Nat} {bs : List UInt8} (h : FixedWord k n bs) : ofLe bs = n := by
  rw [← number_eq]; exact h.2

theorem fixed_written {k n : Nat} (h : n < 256 ^ k) : FixedWord k n (leBytes k n) :=
  ⟨by simp, by rw [number_eq, ofLe_leBytes_of_lt h]⟩

theorem u16_fixed {bs : List UInt8} (h : bs.length = 2) : FixedWord 2 (UInt16.ofNat (ofLe bs)).toNat bs := by
  have := ofLe_lt bs
  rw [h] at this
  have e : (UInt16.ofNat (ofLe bs)).toNat = ofLe bs := by
    rw [UInt16.toNat_ofNat', Nat.mod_eq_of_lt (by norm_num at this ⊢; omega)]
  rw [e]; exact fixed_of h

theorem u32_fixed {bs : List UInt8} (h : bs.length = 4) : FixedWord 4 (UInt32.ofNat (ofLe bs)).toNat bs := by
  have := ofLe_lt bs
  rw [h] at this
  have e : (UInt32.ofNat (ofLe bs)).toNat = ofLe bs := by
    rw [UInt32.toNat_ofNat', Nat.mod_eq_of_lt (by norm_num at this ⊢; omega)]
  rw [e]; exact fixed_of h

theorem u64_fixed {bs : List UInt8} (h : bs.length = 8) : FixedWord 8 (UInt64.ofNat (ofLe bs)).toNat bs := by
  have := ofLe_lt bs
  rw [h] at this
  have e : (UInt64.ofNat (ofLe bs)).toNat = ofLe bs := by
    rw [UInt64.toNat_ofNat', Nat.mod_eq_of_lt (by norm_num at this ⊢; omega)]
  rw [e]; exact fixed_of h

theorem readF64_eats : Eats Imaginary.readF64 fun x w => FixedWord 8 x.toNat w := by
  unfold Imaginary.readF64
  refine Eats.bind (Eats.read _ _) fun bs w hw => Eats.ret ?_
  obtain ⟨rfl, hl, -⟩ := hw
  rw [List.append_nil]
  exact u64_fixed hl

theorem readF64_reads {x : UInt64} {w : List UInt8} (h : FixedWord 8 x.toNat w) : Reads Imaginary.readF64 w x := by
  unfold Imaginary.readF64
  refine Reads.bind' (b1 := w) (b2 := []) (by simp) (Reads.read _ h.1) ?_
  rw [fixed_eq h, UInt64.ofNat_toNat]
  exact Reads.pure x

theorem wrap_mod (y : Int) : (y - ofPattern 4 (toPattern 4 y)) % 2 ^ 32 = 0 := by
  unfold ofPattern toPattern
  split <;> (norm_num at *; omega)

theorem wrap_eq {y t : Int} (h : (y - t) % 2 ^ 32 = 0) (h1 : -2 ^ 31 ≤ t) (h2 : t < 2 ^ 31) :
    ofPattern 4 (toPattern 4 y) = t := by
  unfold ofPattern toPattern
  split <;> (norm_num at *; omega)

/-! ## Reading: what was read is in the format -/

variable {env : Env} {co : Option (Node Char)}

/-- Words as they are understood. -/
abbrev Lax (env : Env) (co : Option (Node Char)) : Value → List UInt8 → Prop := Word false (Reading env.lz) env co

/-- What the first step of reading a value has read. -/
def PrimG (env : Env) (co : Option (Node Char)) : ParseResult → List UInt8 → Prop
  | .value v, w => Lax env co v w
  | .newArray n, w => LenWord false 11 n w
  | .newMap _ _, _ => True
  | .json, w => ∃ f, w = [f] ∧ Tag false 7 1 0 f
  | .timezone, w => ∃ f, w = [f] ∧ Tag false 12 1 0 f

theorem tag_one {code : Nat} {b : UInt8} (h : b.toNat / 16 = code) : Tag false code 1 0 b :=
  ⟨h, Nat.mod_one _, by simp⟩

theorem timestamp_eats (b : UInt8) (hb : b.toNat / 16 = 6) :
    Eats (timestampP b) fun t w => Lax env co (.timestamp t) (b :: w) := by
  have hy := timestampP_yields b
  suffices h : Eats (timestampP b) fun t w => t.Valid ∧ t.LeapAt59 → Lax env co (.timestamp t) (b :: w) by
    intro pre rest x c' hl e
    obtain ⟨w, tail, h1, h2, h3⟩ := h pre rest x c' hl e
    exact ⟨w, tail, h1, h2, h3 (hy _ _ _ e)⟩
  clear hy
  unfold timestampP
  refine Eats.bind ((Eats.lift (G := fun ss w => w = [] ∧ b.toNat % 4 = signCode ss) fun ss hs =>
    ⟨rfl, sign_iff.mp hs⟩).mapErr _) fun ss w hw => ?_
  obtain ⟨rfl, hss⟩ := hw
  refine Eats.bind (intP_eats ss) fun yi wy hyi => ?_
  obtain ⟨h1, h2, h3⟩ := hyi
  refine Eats.bind ((Eats.lift (G := fun y w => w = [] ∧ yi.used ≤ 4 ∧ (yi.value - y) % 2 ^ 32 = 0) fun y hy => by
    rw [h2.toSigned_eq (by omega)] at hy
    by_cases hu : yi.used > 4
    · rw [if_pos hu] at hy; cases hy
    · rw [if_neg hu, Out.ok.injEq] at hy
      exact ⟨rfl, by omega, by rw [← hy]; exact wrap_mod _⟩).mapErr _) fun year w hw => ?_
  obtain ⟨rfl, hu, hmod⟩ := hw
  refine Eats.bind (uintP_eats (by omega) (by omega)) fun month wmo hmo => ?_
  refine Eats.bind (uintP_eats (by omega) (by omega)) fun day wd hd => Eats.ite (fun _ => Eats.fail _) fun _ => ?_
  refine Eats.bind (uintP_eats (by omega) (by omega)) fun hour wh hh => ?_
  refine Eats.bind (uintP_eats (by omega) (by omega)) fun minute wmi hmi => ?_
  refine Eats.bind (uintP_eats (by omega) (by omega)) fun sec ws hs => ?_
  refine Eats.bind (uintP_eats (by omega) (by omega)) fun nano wn hn => Eats.ite (fun _ => Eats.fail _) fun _ => ?_
  refine Eats.ret fun hv => ?_
  simp only [List.nil_append, List.append_nil]
  exact .timestamp (t := ⟨year, month, day, hour, minute, sec, nano⟩) (ss := ss) (y := yi.value)
    ⟨hb, hss, by simp⟩ (h3.wider (by omega)) hmod (by simp) hmo hd hh hmi hs hn fun _ => hv

theorem imaginary_eats (b : UInt8) (hb : b.toNat / 16 = 5) :
    Eats (Imaginary.deser (b &&& 0b1111)) fun z w => Lax env co (.imaginary z) (b :: w) := by
  have hm : (b &&& 0b1111).toNat = b.toNat % 16 := by
    rw [low_half, UInt8.toNat_ofNat', Nat.mod_eq_of_lt (by omega)]
  unfold Imaginary.deser
  refine Eats.ite (fun _ => ?_) fun h => ?_
  · refine Eats.bind (Eats.lift (G := fun s w => w = [] ∧ SignPair s.1 s.2 (b.toNat % 16)) fun s hs =>
      ⟨rfl, by rw [← hm]; exact magic_iff.mp hs⟩) fun s w hw => ?_
    obtain ⟨rfl, hs⟩ := hw
    obtain ⟨s1, s2⟩ := s
    refine Eats.bind (int_eats s1) fun re wr hr => Eats.bind (int_eats s2) fun im wi hi => Eats.ret ?_
    obtain ⟨r1, r2, r3⟩ := hr
    obtain ⟨i1, i2, i3⟩ := hi
    simp only [List.nil_append, List.append_nil]
    have := int_used r2
    have := int_used i2
    subst r1 i1
    exact .cartesian ⟨hb, rfl, by simp⟩ hs (r3.wider (by omega)) (i3.wider (by omega))
  · refine Eats.bind readF64_eats fun m wm hwm => Eats.bind readF64_eats fun a wa hwa => Eats.ret ?_
    rw [List.append_nil]
    refine .polar ⟨hb, ?_, by simp⟩ hwm hwa
    have h0 : (b &&& 0b1111).toNat = 0 := by
      by_contra hc
      exact h (by rw [gt_iff_lt, UInt8.lt_iff_toNat_lt]; exact Nat.pos_of_ne_zero hc)
    omega

theorem primBody_eats (b : UInt8) (ty : ValueTy) (hb : b.toNat / 16 = ty.toU8.toNat) :
    Eats (primBody env (coderOf co) b ty) fun r w => PrimG env co r (b :: w) := by
  cases ty with
  | integer =>
    refine Eats.bind ((Eats.lift (G := fun ss w => w = [] ∧ b.toNat % 4 = signCode ss) fun ss hs =>
      ⟨rfl, sign_iff.mp hs⟩).mapErr _) fun ss w hw => ?_
    obtain ⟨rfl, hss⟩ := hw
    refine Eats.bind (intP_eats ss) fun i w hi => Eats.ret ?_
    obtain ⟨h1, h2, h3⟩ := hi
    have := int_used h2
    subst h1
    simp only [List.nil_append, List.append_nil]
    exact Word.integer ⟨hb, hss, by simp⟩ (h3.wider (by omega))
  | imaginary =>
    refine Eats.bind ((imaginary_eats (env := env) (co := co) b hb).mapErr _) fun z w hz => Eats.ret ?_
    rw [List.append_nil]; exact hz
  | character =>
    refine Eats.bind (uintP_eats (by omega) (by omega)) fun n w hn => ?_
    refine Eats.bind (Eats.lift (G := fun (c : Char) w => w = [] ∧ c.toNat = n) fun c hc => ?_) fun c w' hw => ?_
    · unfold charOf at hc
      split at hc
      · simp only [Out.ok.injEq] at hc; rw [← hc]; exact ⟨rfl, rfl⟩
      · cases hc
    · obtain ⟨rfl, rfl⟩ := hw
      refine Eats.ret ?_
      simp only [List.append_nil]
      exact Word.character (tag_one hb) hn
  | timestamp =>
    refine Eats.bind (timestamp_eats (env := env) (co := co) b hb) fun z w hz => Eats.ret ?_
    rw [List.append_nil]; exact hz
  | string =>
    refine Eats.bind (string_eats co b hb) fun z w hz => Eats.ret ?_
    rw [List.append_nil]; exact Word.string hz
  | json => exact Eats.ret ⟨b, rfl, tag_one hb⟩
  | binary =>
    refine Eats.bind ((Eats.lift (G := fun ct w => w = [] ∧ b.toNat % 16 = ct.toByte.toNat) fun ct hs =>
      ⟨rfl, comp_iff.mp hs⟩).mapErr _) fun ct w hw => ?_
    obtain ⟨rfl, hct⟩ := hw
    refine Eats.bind ((binary_eats env.lz ct).mapErr _) fun d w hd => Eats.ret ?_
    simp only [List.nil_append, List.append_nil]
    exact Word.binary ⟨hb, hct, by simp⟩ hd
  | boolean =>
    refine Eats.ret ?_
    refine Word.boolean ⟨hb, ?_, by simp⟩
    by_cases h : b &&& 1 > 0
    · rw [(low_one b).mp h, decide_eq_true h]; rfl
    · rw [decide_eq_false h]
      have := mt (low_one b).mpr h
      show _ = 0
      omega
  | null => exact Eats.ret (Word.null (tag_one hb))
  | singleFloat =>
    refine Eats.bind (Eats.read _ _) fun bs w hw => Eats.ret ?_
    obtain ⟨rfl, hl, -⟩ := hw
    rw [List.append_nil]
    exact Word.single (tag_one hb) (u32_fixed hl)
  | doubleFloat =>
    refine Eats.bind (Eats.read _ _) fun bs w hw => Eats.ret ?_
    obtain ⟨rfl, hl, -⟩ := hw
    rw [List.append_nil]
    exact Word.double (tag_one hb) (u64_fixed hl)
  | map => exact Eats.bind (len_eats b hb) fun n w hn => Eats.ret trivial
  | array =>
    refine Eats.bind (len_eats b hb) fun n w hn => Eats.ret ?_
    rw [List.append_nil]; exact hn
  | timezone => exact Eats.ret ⟨b, rfl, tag_one hb⟩
  | ipv4Addr =>
    refine Eats.bind (Eats.read _ _) fun bs w hw => Eats.ret ?_
    obtain ⟨rfl, hl, -⟩ := hw
    match w, hl with
    | [a1, a2, a3, a4], _ => exact Word.ipv4 (tag_one hb)
  | ipv6Addr =>
    refine Eats.bind (Eats.read _ _) fun bs w hw => Eats.ret ?_
    obtain ⟨rfl, hl, -⟩ := hw
    match w, hl with
    | [a1, a2, a3, a4, a5, a6, a7, a8, a9, a10, a11, a12, a13, a14, a15, a16], _ =>
      show Lax env co _ (b :: ([a1, a2] ++ ([a3, a4] ++ ([a5, a6] ++ ([a7, a8] ++ ([a9, a10] ++ ([a11, a12] ++
        ([a13, a14] ++ [a15, a16]))))))))
      exact Word.ipv6 (tag_one hb) (u16_fixed rfl) (u16_fixed rfl) (u16_fixed rfl) (u16_fixed rfl) (u16_fixed rfl)
        (u16_fixed rfl) (u16_fixed rfl) (u16_fixed rfl)

theorem prim_eats : Eats (parsePrimitive env (coderOf co)) (PrimG env co) := by
  rw [parsePrimitive_eq]
  refine Eats.bind (Eats.next _) fun b w hw => ?_
  subst hw
  refine Eats.bind (Eats.lift (G := fun (ty : ValueTy) w => w = [] ∧ b.toNat / 16 = ty.toU8.toNat) fun ty hty =>
    ⟨rfl, ty_iff.mp hty⟩) fun ty w hw => ?_
  obtain ⟨rfl, hty⟩ := hw
  exact (primBody_eats b ty hty).mono fun r w h => h

/-- What becomes of a value that was found, on a stack, with the bytes that follow it. -/
def Ends (env : Env) (co : Option (Node Char)) : List DState → Value → List UInt8 → Value → Prop
  | [], x, w, v => w = [] ∧ v = x
  | .array soFar left :: st, x, w, v => ∃ (xs : List Value) (parts : List (List UInt8)) (w' : List UInt8),
      List.Forall₂ (Lax env co) xs parts ∧ xs.length = left - 1 ∧ w = parts.flatten ++ w' ∧
      Ends env co st (.array (soFar ++ x :: xs)) w' v
  | .jsonNeeded :: st, x, w, v => ∃ s j, x = .string s ∧ env.jsonParse s = some j ∧ Ends env co st (.json j) w v
  | .timezoneNeeded :: st, x, w, v => ∃ s, x = .string s ∧ s ∈ env.tzNames ∧ Ends env co st (.timezone s) w v
  | _ :: _, _, _, _ => False

/-- What becomes of a stack, with the bytes that follow. -/
def Goes (env : Env) (co : Option (Node Char)) : List DState → List UInt8 → Value → Prop
  | .valueNeeded :: st, w, v => ∃ x w1 w2, w = w1 ++ w2 ∧ Lax env co x w1 ∧ Ends env co st x w2 v
  | .foundValue x :: st, w, v => Ends env co st x w v
  | .array soFar left :: st, w, v => ∃ (xs : List Value) (parts : List (List UInt8)) (w' : List UInt8),
      List.Forall₂ (Lax env co) xs parts ∧ xs.length = max left 1 ∧ w = parts.flatten ++ w' ∧
      Ends env co st (.array (soFar ++ xs)) w' v
  | _, _, _ => False

theorem forall2_get {α β : Type} {R : α → β → Prop} {l : List α} {m : List β} (h : List.Forall₂ R l m) :
    ∀ (i : Nat) (a : α) (b : β), l[i]? = some a → m[i]? = some b → R a b := by
  induction h with
  | nil => intro i a b h; simp at h
  | cons h1 _ ih =>
    intro i a b ha hb
    cases i with
    | zero => simp at ha hb; rw [← ha, ← hb]; exact h1
    | succ i => exact ih i a b (by simpa using ha) (by simpa using hb)

theorem lift_at {ε α : Type} {o : Out ε α} {c c' : Cursor UInt8} {x : α} (h : Parser.lift o c = .ok (x, c')) :
    o = .ok x ∧ c' = c := by
  cases o with
  | ok y => simp only [Parser.lift_ok, Out.ok.injEq, Prod.mk.injEq] at h; exact ⟨by rw [h.1], h.2.symm⟩
  | err _ => simp at h
  | panic _ => simp at h

/-- States without maps. -/
def Mapless : DState → Prop
  | .map .. => False
  | .foundKey _ => False
  | .foundKeyValue .. => False
  | _ => True

theorem loops_goes {n : Nat} {stack : List DState} {c : Cursor UInt8} {o : Out ValueSerError (Value × Cursor UInt8)}
    (hl : Loops env (coderOf co) n stack c o) : (∀ st ∈ stack, Mapless st) →
      ∀ pre rest v c', c = Cursor.At pre rest → rest.length < 2 ^ 21 →
      o = .ok (v, c') → ∃ w tail, rest = w ++ tail ∧ c' = Cursor.At (pre ++ w) tail ∧ Goes env co stack w v := by
  induction hl with
  | empty c => intro _ pre rest v c' _ _ h; cases h
  | err e => intro _ pre rest v c' _ _ h; cases h
  | panic e => intro _ pre rest v c' _ _ h; cases h
  | @done st stack c c1 v0 e =>
    rintro hg pre rest v c' rfl hlt h
    simp only [Out.ok.injEq, Prod.mk.injEq] at h
    obtain ⟨rfl, rfl⟩ := h
    cases st with
    | foundValue x =>
      simp only [step] at e
      obtain ⟨ha, rfl⟩ := lift_at e
      refine ⟨[], rest, rfl, by simp, ?_⟩
      unfold afterValue at ha
      repeat' split at ha
      all_goals first
        | (simp only [Out.ok.injEq, Sum.inl.injEq] at ha; exact ⟨rfl, ha.symm⟩)
        | simp at ha
    | valueNeeded =>
      simp only [step] at e
      rw [Parser.bind_apply, Out.bind_eq_ok] at e
      obtain ⟨⟨r, c2⟩, e2, e3⟩ := e
      cases r with
      | value v => simp at e3
      | newArray len => simp only at e3; split at e3 <;> simp at e3
      | newMap len byte => simp only at e3; split at e3 <;> simp at e3
      | json => simp at e3
      | timezone => simp at e3
    | array soFar left => simp [step] at e
    | map soFar left byte => exact (hg _ (by simp) : Mapless (.map soFar left byte)).elim
    | foundKeyValue k w => exact (hg _ (by simp) : Mapless (.foundKeyValue k w)).elim
    | foundKey k => exact (hg _ (by simp) : Mapless (.foundKey k)).elim
    | jsonNeeded => simp [step] at e
    | timezoneNeeded => simp [step] at e
  | @more n st stack stack' c c1 o e hn ih =>
    rintro hg pre rest v c' rfl hlt rfl
    have hrest : ∀ s ∈ stack, Mapless s := fun s hs => hg s (by simp [hs])
    have hcons : ∀ {st : DState}, Mapless st → ∀ s ∈ st :: stack, Mapless s := by
      intro st h s hs
      rcases List.mem_cons.mp hs with rfl | hs
      · exact h
      · exact hrest s hs
    cases st with
    | valueNeeded =>
      simp only [step] at e
      rw [Parser.bind_apply, Out.bind_eq_ok] at e
      obtain ⟨⟨r, c2⟩, e2, e3⟩ := e
      obtain ⟨w1, tail1, rfl, rfl, hp⟩ := prim_eats pre rest r c2 hlt e2
      simp only [List.length_append] at hlt
      cases r with
      | value x =>
        simp only [Parser.pure_apply, Out.ok.injEq, Prod.mk.injEq, Sum.inr.injEq] at e3
        obtain ⟨rfl, rfl⟩ := e3
        obtain ⟨w2, tail2, rfl, rfl, hg2⟩ := ih (hcons trivial) (pre ++ w1) tail1 v c' rfl (by omega) rfl
        exact ⟨w1 ++ w2, tail2, by simp, by simp, x, w1, w2, rfl, hp, hg2⟩
      | newArray len =>
        simp only at e3
        split at e3
        · simp only [Parser.pure_apply, Out.ok.injEq, Prod.mk.injEq, Sum.inr.injEq] at e3
          obtain ⟨rfl, rfl⟩ := e3
          obtain ⟨w2, tail2, rfl, rfl, xs, parts, w', hf, hx, rfl, he⟩ :=
            ih (hcons trivial) (pre ++ w1) tail1 v c' rfl (by omega) rfl
          refine ⟨w1 ++ (parts.flatten ++ w'), tail2, by simp, by simp, .array xs, w1 ++ parts.flatten, w', by simp, ?_, ?_⟩
          · exact Word.array hp (by simp; omega) hf.length_eq.symm (forall2_get hf)
          · simpa using he
        · simp at e3
      | newMap len byte =>
        simp only at e3
        split at e3
        · simp only [Parser.pure_apply, Out.ok.injEq, Prod.mk.injEq, Sum.inr.injEq] at e3
          obtain ⟨rfl, rfl⟩ := e3
          exact absurd rfl (map_doomed hn _)
        · simp at e3
      | json =>
        simp only [Parser.pure_apply, Out.ok.injEq, Prod.mk.injEq, Sum.inr.injEq] at e3
        obtain ⟨rfl, rfl⟩ := e3
        obtain ⟨w2, tail2, rfl, rfl, x, wa, wb, rfl, hx, s, j, rfl, hj, he⟩ :=
          ih (by
            intro s hs
            rcases List.mem_cons.mp hs with rfl | hs
            · trivial
            · exact hcons (st := .jsonNeeded) trivial s hs) (pre ++ w1) tail1 v c' rfl (by omega) rfl
        obtain ⟨f, rfl, hf⟩ := hp
        cases hx with
        | string hs =>
          exact ⟨[f] ++ (wa ++ wb), tail2, by simp, by simp, .json j, f :: wa, wb, rfl,
            Word.json hf (by simpa using hj) hs, he⟩
      | timezone =>
        simp only [Parser.pure_apply, Out.ok.injEq, Prod.mk.injEq, Sum.inr.injEq] at e3
        obtain ⟨rfl, rfl⟩ := e3
        obtain ⟨w2, tail2, rfl, rfl, x, wa, wb, rfl, hx, s, rfl, hj, he⟩ :=
          ih (by
            intro s hs
            rcases List.mem_cons.mp hs with rfl | hs
            · trivial
            · exact hcons (st := .timezoneNeeded) trivial s hs) (pre ++ w1) tail1 v c' rfl (by omega) rfl
        obtain ⟨f, rfl, hf⟩ := hp
        cases hx with
        | string hs =>
          exact ⟨[f] ++ (wa ++ wb), tail2, by simp, by simp, .timezone s, f :: wa, wb, rfl,
            Word.timezone hf (fun _ => hj) hs, he⟩
    | foundValue x =>
      simp only [step] at e
      obtain ⟨ha, rfl⟩ := lift_at e
      cases stack with
      | nil => simp [afterValue] at ha
      | cons st stack =>
        have hrest' : ∀ s ∈ stack, Mapless s := fun s hs => hrest s (by simp [hs])
        have hcons' : ∀ {st : DState}, Mapless st → ∀ s ∈ st :: stack, Mapless s := by
          intro st h s hs
          rcases List.mem_cons.mp hs with rfl | hs
          · exact h
          · exact hrest' s hs
        cases st with
        | foundKey k => exact (hrest _ (by simp) : Mapless (.foundKey k)).elim
        | array soFar left =>
          simp only [afterValue] at ha
          split at ha
          · simp only [Out.ok.injEq, Sum.inr.injEq] at ha
            subst ha
            obtain ⟨w, tail, rfl, rfl, he⟩ := ih (hcons' trivial) pre rest v c' rfl hlt rfl
            exact ⟨w, tail, rfl, rfl, [], [], w, .nil, by simp; omega, by simp, he⟩
          · simp only [Out.ok.injEq, Sum.inr.injEq] at ha
            subst ha
            obtain ⟨w, tail, rfl, rfl, xs, parts, w', hf, hx, rfl, he⟩ := ih (hcons' trivial) pre rest v c' rfl hlt rfl
            exact ⟨_, tail, rfl, rfl, xs, parts, w', hf, by omega, rfl, by simpa using he⟩
        | jsonNeeded =>
          simp only [afterValue] at ha
          repeat' split at ha
          all_goals try (simp at ha; done)
          rename_i s _ j hj
          simp only [Out.ok.injEq, Sum.inr.injEq] at ha
          subst ha
          obtain ⟨w, tail, rfl, rfl, he⟩ := ih (hcons' trivial) pre rest v c' rfl hlt rfl
          exact ⟨w, tail, rfl, rfl, s, j, rfl, hj, he⟩
        | timezoneNeeded =>
          simp only [afterValue] at ha
          repeat' split at ha
          all_goals try (simp at ha; done)
          rename_i s hj
          simp only [Out.ok.injEq, Sum.inr.injEq] at ha
          subst ha
          obtain ⟨w, tail, rfl, rfl, he⟩ := ih (hcons' trivial) pre rest v c' rfl hlt rfl
          exact ⟨w, tail, rfl, rfl, s, rfl, hj, he⟩
        | valueNeeded => simp [afterValue] at ha
        | foundValue _ => simp [afterValue] at ha
        | map _ _ _ => simp [afterValue] at ha
        | foundKeyValue _ _ => simp [afterValue] at ha
    | array soFar left =>
      simp only [step, Parser.pure_apply, Out.ok.injEq, Prod.mk.injEq, Sum.inr.injEq] at e
      obtain ⟨rfl, rfl⟩ := e
      obtain ⟨w, tail, rfl, rfl, x, w1, w2, rfl, hx, xs, parts, w', hf, hxl, rfl, he⟩ :=
        ih (by
          intro s hs
          rcases List.mem_cons.mp hs with rfl | hs
          · trivial
          · exact hg s hs) pre rest v c' rfl hlt rfl
      exact ⟨_, tail, rfl, rfl, x :: xs, w1 :: parts, w', .cons hx hf, by simp; omega, by simp, he⟩
    | map soFar left byte => exact (hg _ (by simp) : Mapless (.map soFar left byte)).elim
    | foundKeyValue k w => exact (hg _ (by simp) : Mapless (.foundKeyValue k w)).elim
    | foundKey k => exact (hg _ (by simp) : Mapless (.foundKey k)).elim
    | jsonNeeded => simp [step] at e
    | timezoneNeeded => simp [step] at e

theorem deser_eats : Eats (deser env (coderOf co)) (Lax env co) := by
  intro pre rest v c' hlt e
  obtain ⟨n, hl⟩ : ∃ n, Loops env (coderOf co) n [.valueNeeded] (Cursor.At pre rest) (.ok (v, c')) := by
    obtain ⟨n, _, o, hl, ho⟩ := C27_terminates env (coderOf co) (Cursor.At pre rest)
    rw [← ho, e] at hl
    exact ⟨n, hl⟩
  obtain ⟨w, tail, rfl, rfl, x, w1, w2, rfl, hx, rfl, rfl⟩ := loops_goes hl (by simp [Mapless]) pre rest v c' rfl hlt rfl
  exact ⟨_, tail, rfl, rfl, by rw [List.append_nil]; exact hx⟩

end Wire

end Souris
