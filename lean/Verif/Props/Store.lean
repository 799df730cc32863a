import Verif.Lemmas.Store
import Verif.Props.ValueJson

/-! # Stores: C33 (round trip), C34 (magic), C35 (text coder), C36 (JSON) -/

namespace Souris

open Value

/-! ## C33 -/

theorem deser_not_map (env : Env) (h : Option (Huffman Char)) (c c' : Cursor UInt8) (m : List (List Char × Value)) :
    Value.deser env h c ≠ .ok (.map m, c') := by
  intro e
  obtain ⟨n, _, o, hl, ho⟩ := C27_terminates env h c
  rw [ho] at e
  exact (loops_clean hl (by intro st hst; rw [List.mem_singleton.mp hst]; trivial) _ c' e).1 (.map m)

theorem deserValue_not_map (env : Env) (b : Bool) (bs : List UInt8) (m : List (List Char × Value)) :
    Store.deserValue env b bs ≠ .ok (.map m) := by
  intro e
  unfold Store.deserValue at e
  simp only at e
  rw [Out.bind_eq_ok] at e
  obtain ⟨⟨h, c⟩, _, e⟩ := e
  simp only at e
  rw [Out.bind_eq_ok] at e
  obtain ⟨⟨v, c'⟩, e1, e2⟩ := e
  rw [Out.mapErr_eq_ok] at e1
  simp only [Out.pure_eq, Out.ok.injEq] at e2
  subst e2
  exact deser_not_map _ _ _ _ _ e1

/-- C33 is violated by every store: `Store::deser` returns a store for no input at all, whatever the
external libraries do. -/
theorem C33_refuted (env : Env) (bytes : List UInt8) (s : Store) : Store.deser env bytes ≠ .ok s := by
  intro e
  unfold Store.deser at e
  split at e
  · cases e
  · split at e
    · cases e
    · split at e
      · rename_i c _ s' c' e1
        unfold Store.deserRest at e1
        rw [Parser.bind_apply, Out.bind_eq_ok] at e1
        obtain ⟨⟨b, c1⟩, _, e1⟩ := e1
        simp only at e1
        rw [Parser.bind_apply, Out.bind_eq_ok] at e1
        obtain ⟨⟨ty, c2⟩, _, e1⟩ := e1
        simp only at e1
        rw [Parser.bind_apply, Out.bind_eq_ok] at e1
        obtain ⟨⟨bs, c3⟩, _, e1⟩ := e1
        simp only at e1
        rw [Parser.bind_apply, Out.bind_eq_ok] at e1
        obtain ⟨⟨val, c4⟩, e2, e1⟩ := e1
        simp only at e1
        have e3 : Store.deserValue env (decide (b &&& 0b10000000 ≠ 0)) bs = .ok val := by
          revert e2
          generalize Store.deserValue env (decide (b &&& 0b10000000 ≠ 0)) bs = o
          intro e2
          cases o with
          | ok x => simp only [Parser.lift_ok, Out.ok.injEq, Prod.mk.injEq] at e2; rw [e2.1]
          | err x => cases e2
          | panic x => cases e2
        cases val with
        | map m => exact deserValue_not_map _ _ _ _ e3
        | _ => cases e1
      · cases e
      · cases e

/-- C33, partial: everything around the map is lossless. Whatever the store, `deser` of the bytes written
by `ser` does exactly what `Value::deser` does on the bytes that `Value::ser` wrote for the map, with the
coder it was given there. Missing: that this is the map (it never is, `C33_refuted`), and contents whose
code is of a length that is lost (`C25_exact`), of which there are none up to 2 MiB (`binaryKept_small`). -/
theorem C33_envelope_partial {env : Env} (hlz : env.lz.Lossless) (hb : HashOrder env.byteOrd)
    (hc : HashOrder env.charOrd) (s : Store) :
    ∃ (coder : Option (Huffman Char)) (mb bytes : List UInt8), Value.ser env coder (.map s) = .ok mb ∧
      Store.ser env s = .ok bytes ∧
      (BinaryKept env (coder.elim [] Huffman.serChar ++ mb) →
        Store.deser env bytes = (Value.deser env coder (Cursor.new mb)).mapErr .value >>= fun x =>
          Store.ofValue x.1) := by
  obtain ⟨h, mb, ct, comp, e1, e2, e3, hg, _, _⟩ := ser_shape env hb hc s
  refine ⟨h, mb, _, e2, e1, fun hkept => ?_⟩
  generalize hdata : h.elim [] Huffman.serChar ++ mb = data at hkept e3
  have hlen := hkept.1
  obtain ⟨ct', comp', e4, hinv⟩ := C25_exact env.lz hlz hb data hlen
  obtain ⟨ct'', comp'', e5, _, hcl, _⟩ := C25_never_expands env.lz hb data (by omega)
  rw [e3, Out.ok.injEq, Prod.mk.injEq] at e4 e5
  obtain ⟨rfl, rfl⟩ := e4
  obtain ⟨rfl, rfl⟩ := e5
  replace hinv := hinv.mpr fun hct h2 h' bits m en hm => (hkept.2 h2 ⟨comp, by rw [e3, hct]⟩ h' bits en).2 m hm
  generalize hflag : (((if h.isSome then (1 : UInt8) else 0) <<< 7) ||| ct.toByte) = flag at *
  have hread : (Cursor.new (Store.magic ++ flag :: comp)).read 8
      = (some Store.magic, ⟨Store.magic ++ flag :: comp, 8⟩) := by
    simp [Cursor.read, Cursor.new, checkedAdd, usizeMod, Store.magic, Cursor.slice]
  have hnext : Parser.next StoreSerError.notEnoughBytes ⟨Store.magic ++ flag :: comp, 8⟩
      = .ok (flag, ⟨Store.magic ++ flag :: comp, 9⟩) := by
    simp [Parser.next, Cursor.next, Store.magic]
  have hlow : BinaryCompression.ofByte (flag &&& 0b01111111) = .ok ct := by
    rw [← hflag]
    cases h.isSome <;> cases ct <;> rfl
  have hhigh : decide (flag &&& 0b10000000 ≠ 0) = h.isSome := by
    rw [← hflag]
    cases h.isSome <;> cases ct <;> rfl
  have hbin : Binary.deser env.lz ct ⟨Store.magic ++ flag :: comp, 9⟩
      = .ok (data, ⟨Store.magic ++ flag :: comp, (Store.magic ++ flag :: comp).length⟩) := by
    have := hinv (Store.magic ++ [flag]) [] (by simp [Store.magic]; omega)
    simpa [Store.magic] using this
  have hval : Store.deserValue env h.isSome data = (Value.deser env h (Cursor.new mb)).mapErr .value >>= fun x =>
      pure x.1 := by
    unfold Store.deserValue Store.deserCoder
    rcases hg with rfl | ⟨root, rfl⟩
    · have : (Cursor.new data).asRef = mb := by
        rw [← hdata]
        cases mb <;> simp [Cursor.asRef, Cursor.new]
      simp only [Option.isSome_none, Bool.false_eq_true, if_false, Parser.pure_apply, Out.ok_bind, this]
    · have h1 : Reads Huffman.deserChar root.serChar (Huffman.ofRoot root) :=
        Reads.bind' (b2 := []) (by simp) (Node.deserChar_reads root) (Reads.pure _)
      have hd : data = root.serChar ++ mb := by rw [← hdata]; rfl
      have h2 := h1 [] mb (by rw [List.nil_append, ← hd]; exact lt_of_le_of_lt hlen (by norm_num [usizeMod]))
      have h3 : Huffman.deserChar (Cursor.new data)
          = .ok (Huffman.ofRoot root, ⟨data, root.serChar.length⟩) := by
        rw [hd]
        simpa [Cursor.At, Cursor.new] using h2
      have h4 : (⟨data, root.serChar.length⟩ : Cursor UInt8).asRef = mb := by
        rw [hd]
        cases mb <;> simp [Cursor.asRef]
      simp only [Option.isSome_some, if_true, Parser.bind_apply, Parser.mapErr_apply, h3, Out.mapErr_ok,
        Parser.pure_apply, Out.ok_bind, h4]
  unfold Store.deser
  rw [hread]
  simp only [ne_eq, not_true_eq_false, if_false]
  unfold Store.deserRest
  rw [Parser.bind_apply, hnext]
  simp only [Out.ok_bind]
  rw [Parser.bind_apply, hlow]
  simp only [Parser.mapErr_apply, Parser.lift_ok, Out.mapErr_ok, Out.ok_bind]
  rw [Parser.bind_apply, Parser.mapErr_apply, hbin]
  simp only [Out.mapErr_ok, Out.ok_bind]
  rw [Parser.bind_apply, hhigh, hval]
  cases Value.deser env h (Cursor.new mb) with
  | ok x =>
    simp only [Out.mapErr_ok, Out.pure_eq, Parser.lift_ok, Out.ok_bind]
    cases x.1 <;> rfl
  | err e => rfl
  | panic p => rfl

/-! ## C34 -/

/-- The eight magic bytes. -/
def sourisdb : List UInt8 := "SOURISDB".toList.map fun c => UInt8.ofNat c.toNat

/-- C34: every store is written, and what is written starts with `SOURISDB` and a byte that is, below its
highest bit, the code of a compression. -/
theorem C34_written (env : Env) (hb : HashOrder env.byteOrd) (hc : HashOrder env.charOrd) (s : Store) :
    ∃ b rest, Store.ser env s = .ok (sourisdb ++ b :: rest) ∧ b.toNat % 128 < 4 := by
  obtain ⟨h, mb, ct, comp, e1, _⟩ := ser_shape env hb hc s
  refine ⟨_, comp, e1, ?_⟩
  cases h <;> cases ct <;> simp <;> decide

/-- C34: inputs of fewer than nine bytes, without the magic, or with an unknown compression code are
refused with an error. -/
theorem C34_required (env : Env) (bytes : List UInt8) :
    (bytes.length < 8 → Store.deser env bytes = .err .notEnoughBytes) ∧
    (8 ≤ bytes.length → bytes.take 8 ≠ sourisdb → Store.deser env bytes = .err .expectedMagicBytes) ∧
    (bytes = sourisdb → Store.deser env bytes = .err .notEnoughBytes) ∧
    (∀ b rest, bytes = sourisdb ++ b :: rest → 4 ≤ b.toNat % 128 →
      Store.deser env bytes = .err (.binary (.noCompressionTypeFound (UInt8.ofNat (b.toNat % 128))))) := by
  have hm : sourisdb = Store.magic := by decide
  have hread : 8 ≤ bytes.length → (Cursor.new bytes).read 8 = (some (bytes.take 8), ⟨bytes, 8⟩) := by
    intro h
    simp [Cursor.read, Cursor.new, checkedAdd, usizeMod, Cursor.slice, Nat.not_lt.mpr h]
  refine ⟨fun h => ?_, fun h h' => ?_, ?_, ?_⟩
  · have : (Cursor.new bytes).read 8 = (none, Cursor.new bytes) := by
      simp [Cursor.read, Cursor.new, checkedAdd, usizeMod, h]
    simp only [Store.deser, this]
  · simp only [Store.deser, hread h]
    rw [hm] at h'
    rw [if_pos h']
  · rintro rfl; rfl
  · rintro b rest rfl hb
    simp only [Store.deser, hread (by rw [hm]; simp [Store.magic])]
    rw [if_neg (by rw [hm]; simp [Store.magic])]
    have hnext : Parser.next StoreSerError.notEnoughBytes ⟨sourisdb ++ b :: rest, 8⟩
        = .ok (b, ⟨sourisdb ++ b :: rest, 9⟩) := by
      rw [hm]; simp [Parser.next, Cursor.next, Store.magic]
    unfold Store.deserRest
    rw [Parser.bind_apply, hnext]
    simp only [Out.ok_bind]
    have hall : ∀ k : Fin 256, 4 ≤ k.val % 128 →
        BinaryCompression.ofByte (UInt8.ofNat k.val &&& 0b01111111)
          = .err (.noCompressionTypeFound (UInt8.ofNat (k.val % 128))) := by decide +kernel
    have h1 := hall ⟨b.toNat, b.toNat_lt⟩ hb
    simp only [show UInt8.ofNat b.toNat = b by simp] at h1
    rw [Parser.bind_apply, h1]
    rfl

example : Store.deser sampleEnv (sourisdb ++ [0x84, 1]) = .err (.binary (.noCompressionTypeFound 4)) :=
  (C34_required sampleEnv _).2.2.2 0x84 [1] rfl (by decide)

/-! ## C35 -/

/-- C35: as soon as some text of the store is not empty, the store is written with a coder, and every text
in the store at any depth is written in the coded form (type byte `0x11`), which is the whole of what
`Value::ser` writes for it. -/
theorem C35_covers (env : Env) (hb : HashOrder env.byteOrd) (hc : HashOrder env.charOrd) (s : Store)
    (htext : ∃ t, Text env t (.map s) ∧ t ≠ []) :
    ∃ (coder : Huffman Char) (mb : List UInt8) (ct : BinaryCompression) (b : UInt8) (comp : List UInt8),
      Store.ser env s = .ok (sourisdb ++ b :: comp) ∧ 128 ≤ b.toNat ∧
      Binary.ser env.lz env.byteOrd (coder.serChar ++ mb) = .ok (ct, comp) ∧
      Value.ser env (some coder) (.map s) = .ok mb ∧
      ∀ t, Text env t (.map s) → ∃ bits sb, coder.encode t = .ok bits ∧ bits.ser = .ok sb ∧
        Value.ser env (some coder) (.string t) = .ok (0x11 :: sb) := by
  obtain ⟨h, mb, ct, comp, e1, e2, e3, _, hnone, hsome⟩ := ser_shape env hb hc s
  cases h with
  | none =>
    obtain ⟨t, ht, hne⟩ := htext
    exact absurd (hnone rfl t ht) hne
  | some coder =>
    obtain ⟨_, root, rfl, _, hl⟩ := hsome coder rfl
    refine ⟨_, mb, ct, _, comp, e1, ?_, e3, e2, fun t ht => ?_⟩
    · simp only [Option.isSome_some, if_true]; cases ct <;> decide
    · obtain ⟨cs, hcs⟩ := Huffman.exists_codes root t (hl t ht)
      have he := Huffman.encode_ok root hcs
      have hs : (Bits.ofList cs.flatten).ser = .ok ((Integer.ofUnsigned 8 (Bits.ofList cs.flatten).valid).ser.2 ++
          Bits.pack cs.flatten) := by simp only [Bits.ser, Bits.properBytes_ofList]
      refine ⟨_, _, he, hs, ?_⟩
      simp only [Value.ser, serString, he, hs]
      rfl

/-- C35: without text there is no coder. -/
theorem C35_no_text (env : Env) (hb : HashOrder env.byteOrd) (hc : HashOrder env.charOrd) (s : Store)
    (htext : ∀ t, Text env t (.map s) → t = []) :
    ∃ (mb : List UInt8) (ct : BinaryCompression) (b : UInt8) (comp : List UInt8),
      Store.ser env s = .ok (sourisdb ++ b :: comp) ∧ b.toNat < 128 ∧
      Binary.ser env.lz env.byteOrd mb = .ok (ct, comp) ∧ Value.ser env none (.map s) = .ok mb := by
  obtain ⟨h, mb, ct, comp, e1, e2, e3, _, hnone, hsome⟩ := ser_shape env hb hc s
  cases h with
  | some coder =>
    obtain ⟨⟨t, ht, hne⟩, _⟩ := hsome coder rfl
    exact absurd (htext t ht) hne
  | none => exact ⟨mb, ct, _, comp, e1, by cases ct <;> decide, e3, e2⟩

example : Text sampleEnv ['x'] (.map [(['k'], .array [.null, .map [(['x'], .boolean true)]])]) :=
  .map (k := ['k']) (v := .array [.null, .map [(['x'], .boolean true)]]) (by simp)
    (.array (v := .map [(['x'], .boolean true)]) (by simp) (.key (v := .boolean true) (by simp)))

/-! ## C36 -/

theorem number_back {n : SJNumber} (h : n.Ok) (hc : SJValue.Canonical (.number n)) (env : Env) (types : Bool) :
    ∃ w, Value.fromJson env (.number n) = .ok w ∧ Value.toJson env types w = some (.number n) := by
  have hw : Width 8 := by unfold Width; decide
  cases n with
  | posInt n =>
    have hu : IsUnsigned 8 n := h
    have hi : (Integer.ofUnsigned 8 n).Native := .unsigned hw hu
    have hin : (Integer.ofUnsigned 8 n).isNegative = false := by simp [Integer.isNegative, Integer.ofUnsigned]
    refine ⟨.integer (Integer.ofUnsigned 8 n), rfl, ?_⟩
    simp [Value.toJson, Integer.toJson, hin, C01_unsigned_roundtrip hw hu, SJNumber.ofU64]
  | negInt n =>
    obtain ⟨h1, h2⟩ := h
    have hs : IsSigned 8 n := by
      unfold IsSigned
      have : (0 : Int) < 2 ^ (8 * 8 - 1) := by decide
      exact ⟨h1, by omega⟩
    have hi : (Integer.ofSigned 8 n).Native := .signed hw hs
    have hin : (Integer.ofSigned 8 n).isNegative = true := by
      simp only [Integer.isNegative, hi.neg_iff.mpr (by rw [(C01_value hw).2 n hs]; exact h2)]
      rfl
    refine ⟨.integer (Integer.ofSigned 8 n), rfl, ?_⟩
    simp [Value.toJson, Integer.toJson, hin, C01_signed_roundtrip hw hs, SJNumber.ofI64, h2]
  | float x =>
    refine ⟨.double x, rfl, ?_⟩
    cases hc with
    | float hf => simp [Value.toJson, SJValue.ofF64, hf]

/-- C36, partial: JSON of any depth without marked objects becomes a value and, from there, the very same
JSON, with or without type markers. -/
theorem C36_value_partial {env : Env} (hord : HashOrder env.mapOrd) (types : Bool) {j : SJValue}
    (hp : j.Plain) (hc : j.Canonical) :
    ∃ w, Value.fromJson env j = .ok w ∧ Value.toJson env types w = some j := by
  induction hp with
  | null => exact ⟨_, rfl, rfl⟩
  | bool b => exact ⟨_, rfl, rfl⟩
  | number h => exact number_back h hc env types
  | string s => exact ⟨_, rfl, rfl⟩
  | @array a _ ih =>
    have hca : ∀ j ∈ a, j.Canonical := by cases hc with | array h => exact h
    have : ∃ ws, Value.fromJsonList env a = .ok ws ∧ Value.toJsonList env types ws = some a := by
      clear hc
      induction a with
      | nil => exact ⟨[], rfl, rfl⟩
      | cons x xs ih2 =>
        rename_i hx
        obtain ⟨w, e1, e2⟩ := ih x (by simp) (hca x (by simp))
        obtain ⟨ws, e3, e4⟩ := ih2 (fun j hj => hx j (by simp [hj])) (fun j hj => ih j (by simp [hj]))
          (fun j hj => hca j (by simp [hj]))
        exact ⟨w :: ws, by simp only [Value.fromJsonList, e1, e3]; rfl, by simp [Value.toJsonList, e2, e4]⟩
    obtain ⟨ws, e1, e2⟩ := this
    exact ⟨.array ws, by simp only [Value.fromJson, e1]; rfl, by simp [Value.toJson, e2]⟩
  | @object m hk hm _ ih =>
    have hcm : ∀ k j, (k, j) ∈ m → j.Canonical := by cases hc with | object _ h => exact h
    have hs : m.Pairwise fun x y => x.1 < y.1 := by cases hc with | object h _ => exact h
    obtain ⟨b, e1, hb⟩ := fromJsonEntries_of (env := env) (R := fun j w => Value.toJson env types w = some j) m
      (fun k j hj => ih k j hj (hcm k j hj))
    have hkb := forall₂_keys (R := fun j w => Value.toJson env types w = some j) hb
    refine ⟨.map (env.mapOrd b), ?_, ?_⟩
    · simp only [Value.fromJson, marker_none hm, e1]
      show Out.ok (Value.map (env.mapOrd (Value.collectMap b))) = _
      rw [collectMap_eq (hkb ▸ hk)]
    · have hentries : ∀ b' : List (List Char × Value), (∀ x ∈ b', x ∈ b) →
          ∃ es, Value.toJsonEntries env types b' = some es ∧
            es.map (fun x => (x.1, some x.2)) = b'.map (fun x => (x.1, Value.toJson env types x.2)) := by
        intro b'
        induction b' with
        | nil => intro _; exact ⟨[], rfl, rfl⟩
        | cons x xs ih2 =>
          obtain ⟨k, w⟩ := x
          intro hsub
          obtain ⟨es, e3, e4⟩ := ih2 fun x hx => hsub x (by simp [hx])
          obtain ⟨j, _, hj⟩ := forall₂_partner (R := fun j w => Value.toJson env types w = some j) hb k w
            (hsub _ (by simp))
          exact ⟨(k, j) :: es, by simp [Value.toJsonEntries, hj, e3], by simp [e4, hj]⟩
      obtain ⟨es, e3, e4⟩ := hentries (env.mapOrd b) fun x hx => (hord b).mem_iff.mp hx
      have hmb : b.map (fun x => (x.1, Value.toJson env types x.2)) = m.map fun x => (x.1, some x.2) := by
        clear e1 e3 e4 hentries hkb ih hcm hs hm hc hk
        induction hb with
        | nil => rfl
        | cons h _ ih2 =>
          rename_i hpl
          simp only [List.map_cons, h.1, h.2, ih2 fun k j hj => hpl k j (by simp [hj])]
      have hperm : es.Perm m := by
        have h1 : (es.map fun x => (x.1, some x.2)).Perm (m.map fun x => (x.1, some x.2)) := by
          rw [e4, ← hmb]
          exact (hord b).map _
        exact (List.map_perm_map_iff (fun a b h => by
          simp only [Prod.mk.injEq, Option.some.injEq] at h
          exact Prod.ext h.1 h.2)).mp h1
      simp only [Value.toJson, e3, Option.map_some]
      rw [collect_eq hs hperm]

/-- C36, partial: a JSON value that is not an object, without marked objects inside, becomes a store with the
one key `JSON`, and from there the same JSON value again. -/
theorem C36_wrap_partial {env : Env} (hord : HashOrder env.mapOrd) (types : Bool) {j : SJValue}
    (hp : j.Plain) (hc : j.Canonical) (hno : ∀ m, j ≠ .object m) :
    ∃ s, Store.fromJson env j = .ok s ∧ s.map Prod.fst = ["JSON".toList] ∧ Store.toJson env types s = some j := by
  obtain ⟨w, e1, e2⟩ := C36_value_partial hord types hp hc
  have hw : ∀ m, w ≠ .map m := by
    rintro m rfl
    obtain ⟨w', e3, hcon⟩ := fromJson_plain hord hp
    rw [e1, Out.ok.injEq] at e3
    subst e3
    cases hcon with
    | object _ _ _ => exact hno _ rfl
  refine ⟨[(Store.kJson, w)], ?_, rfl, ?_⟩
  · unfold Store.fromJson
    rw [e1]
    cases w with
    | map m => exact absurd rfl (hw m)
    | _ => rfl
  · simp [Store.toJson, SJValue.get, e2]

/-- C36, partial: an object without marked objects becomes a store with the same keys, and the same object
again, unless it is the wrapper itself. -/
theorem C36_object_partial {env : Env} (hord : HashOrder env.mapOrd) (types : Bool) {m : List (List Char × SJValue)}
    (hp : SJValue.Plain (.object m)) (hc : SJValue.Canonical (.object m)) (hno : m.map Prod.fst ≠ ["JSON".toList]) :
    ∃ s, Store.fromJson env (.object m) = .ok s ∧ (s.map Prod.fst).Perm (m.map Prod.fst) ∧
      Store.toJson env types s = some (.object m) := by
  obtain ⟨w, e1, e2⟩ := C36_value_partial hord types hp hc
  obtain ⟨w', e3, hcon⟩ := fromJson_plain hord hp
  rw [e1, Out.ok.injEq] at e3
  subst e3
  cases hcon with
  | @object _ b hl hk h =>
    have hnd : (m.map Prod.fst).Nodup := by cases hp with | object hk _ _ => exact hk
    have hperm : (b.map Prod.fst).Perm (m.map Prod.fst) := by
      refine List.Perm.symm (List.Subperm.perm_of_length_le ?_ (by simp [hl]))
      refine List.subperm_of_subset hnd fun k hkm => ?_
      obtain ⟨x, hx, rfl⟩ := List.mem_map.mp hkm
      obtain ⟨v, hv⟩ := (hk x.1).mp ⟨x.2, hx⟩
      exact List.mem_map.mpr ⟨_, hv, rfl⟩
    refine ⟨b, by simp only [Store.fromJson, e1], hperm, ?_⟩
    have hnone : (if b.length = 1 then SJValue.get Store.kJson b else none) = none := by
      split_ifs with h1
      · obtain ⟨⟨k, v⟩, rfl⟩ := List.length_eq_one_iff.mp h1
        simp only [SJValue.get]
        rw [if_neg]
        intro hkk
        apply hno
        have := hperm.symm
        simp only [List.map_cons, List.map_nil, List.perm_singleton] at this
        rw [this, ← hkk]
        rfl
      · rfl
    unfold Store.toJson
    rw [hnone]
    exact e2

/-- C36, partial: for every store in the domain of C31, at any depth, converting to JSON and back gives a
store with the same keys and the same values up to widening, unless it is `{"JSON": v}` where `v` is a map
or a JSON object. -/
theorem C36_store_partial {env : Env} (hord : HashOrder env.mapOrd) {s : Store} (hs : Jsonable env (.map s))
    (hno : ∀ v, s = [("JSON".toList, v)] → (∀ m, v ≠ .map m) ∧ ∀ m, v ≠ .json (.object m)) :
    ∃ j s', Store.toJson env true s = some j ∧ Store.fromJson env j = .ok s' ∧ Widened (.map s) (.map s') := by
  by_cases h1 : ∃ v, s = [("JSON".toList, v)]
  · obtain ⟨v, rfl⟩ := h1
    obtain ⟨hm, hj⟩ := hno v rfl
    have hv : Jsonable env v := by
      cases hs with
      | map _ _ h => exact h "JSON".toList v (by simp)
    obtain ⟨j, w, e1, e2, hw⟩ := C31_roundtrip_partial hord hv
    refine ⟨j, [("JSON".toList, w)], ?_, ?_, .map (by simp) ?_ ?_⟩
    · simp [Store.toJson, SJValue.get, Store.kJson, e1]
    · have hwm : ∀ m, w ≠ .map m := by
        rintro m rfl
        cases hw with
        | map _ _ _ => exact hm _ rfl
        | json hcon => cases hcon with | object _ _ _ => exact hj _ rfl
      unfold Store.fromJson
      rw [e2]
      cases w with
      | map m => exact absurd rfl (hwm m)
      | _ => rfl
    · intro k; simp
    · intro k a b ha hb
      simp only [List.mem_singleton, Prod.mk.injEq] at ha hb
      rw [ha.2, hb.2]
      exact hw
  · obtain ⟨j, w, e1, e2, hw⟩ := C31_roundtrip_partial hord hs
    have hnone : (if s.length = 1 then SJValue.get Store.kJson s else none) = none := by
      split_ifs with h2
      · obtain ⟨⟨k, v⟩, rfl⟩ := List.length_eq_one_iff.mp h2
        simp only [SJValue.get]
        rw [if_neg]
        intro hkk
        exact h1 ⟨v, by rw [← hkk]; rfl⟩
      · rfl
    cases hw with
    | @map _ b hl hk h =>
      refine ⟨j, b, ?_, by simp only [Store.fromJson, e2], .map hl hk h⟩
      unfold Store.toJson
      rw [hnone]
      exact e1

/-- C36 is violated: the store `{"JSON": {"a": null}}` comes back as `{"a": null}`. -/
theorem C36_refuted_wrapper (env : Env) (hord : HashOrder env.mapOrd) :
    ∃ j s', Store.toJson env true [("JSON".toList, .map [(['a'], .null)])] = some j ∧
      Store.fromJson env j = .ok s' ∧ s'.map Prod.fst = [['a']] := by
  refine ⟨.object [(['a'], .null)], env.mapOrd [(['a'], .null)], rfl, rfl, ?_⟩
  rw [List.perm_singleton.mp (hord _)]
  rfl

/-- C36 is violated: the store `{"souris_type": 13, "octets": [127, 0, 0, 1]}` comes back under the key
`JSON`. -/
theorem C36_refuted_marker (env : Env) :
    ∃ j s', Store.toJson env true [("souris_type".toList, .integer (Integer.ofUnsigned 1 13)),
        ("octets".toList, .array [.integer (Integer.ofUnsigned 1 127), .integer (Integer.ofUnsigned 1 0),
          .integer (Integer.ofUnsigned 1 0), .integer (Integer.ofUnsigned 1 1)])] = some j ∧
      Store.fromJson env j = .ok s' ∧ s'.map Prod.fst = ["JSON".toList] := by
  obtain ⟨j, e1, e2⟩ := C31_refuted_marker_address env
  refine ⟨j, [(Store.kJson, .ipv4 127 0 0 1)], ?_, ?_, rfl⟩
  · rw [← e1]; rfl
  · simp only [Store.fromJson, e2]

/-- C36 is violated: a JSON array that holds a marked object with an extra member loses that member. -/
theorem C36_refuted_array (env : Env) (types : Bool) (ht : types = true) :
    ∃ s, Store.fromJson env (.array [.object [("extra".toList, .null), ("octets".toList, .array
        [.number (.posInt 127), .number (.posInt 0), .number (.posInt 0), .number (.posInt 1)]),
        ("souris_type".toList, .number (.posInt 13))]]) = .ok s ∧
      Store.toJson env types s = some (.array [.object [("octets".toList, .array
        [.number (.posInt 127), .number (.posInt 0), .number (.posInt 0), .number (.posInt 1)]),
        ("souris_type".toList, .number (.posInt 13))]]) := by
  subst ht
  exact ⟨[(Store.kJson, .array [.ipv4 127 0 0 1])], rfl, rfl⟩

/-- A nested JSON array in the domain of `C36_wrap_partial`. -/
example : SJValue.Plain (.array [.object [(['a'], .null), (['b'], .number (.negInt (-3)))]]) ∧
    SJValue.Canonical (.array [.object [(['a'], .null), (['b'], .number (.negInt (-3)))]]) := by
  constructor
  · refine .array fun j hj => ?_
    rw [List.mem_singleton.mp hj]
    refine .object (by decide) ?_ ?_
    · rintro ⟨n, _, h⟩
      simp at h
    · intro k j hj
      simp only [List.mem_cons, Prod.mk.injEq, List.not_mem_nil, or_false] at hj
      rcases hj with ⟨_, rfl⟩ | ⟨_, rfl⟩
      · exact .null
      · exact .number (by simp [SJNumber.Ok])
  · refine .array fun j hj => ?_
    rw [List.mem_singleton.mp hj]
    refine .object (by simp; decide) ?_
    intro k j hj
    simp only [List.mem_cons, Prod.mk.injEq, List.not_mem_nil, or_false] at hj
    rcases hj with ⟨_, rfl⟩ | ⟨_, rfl⟩
    · exact .null
    · exact .negInt _

/-! ## C28, for stores -/

/-- The panics possible while reading the value of a store from its decompressed bytes. -/
theorem deserValue_panics (env : Env) (hlz : env.lz.Allocates) (b : Bool)
    (bs : List UInt8) (r : Panic) (e : Store.deserValue env b bs = .panic r) :
    (b = true ∧ r = .arith) ∨ r = .capacityOverflow ∨ r = .unreachable ∨
      (2 ^ 21 ≤ bs.length ∧ (r = .index ∨ r = .unwrapNone)) := by
  unfold Store.deserValue at e
  rw [Out.bind_eq_panic] at e
  rcases e with e | ⟨⟨h, c⟩, e1, e⟩
  · left
    unfold Store.deserCoder at e
    cases b with
    | false => cases e
    | true =>
      refine ⟨rfl, ?_⟩
      by_contra hr
      rw [if_pos rfl, Parser.bind_apply, Out.bind_eq_panic] at e
      rcases e with e | ⟨x, _, e⟩
      · rw [Parser.mapErr_apply, Out.mapErr_eq_panic] at e
        unfold Huffman.deserChar at e
        rw [Parser.bind_apply, Out.bind_eq_panic] at e
        rcases e with e | ⟨x, _, e⟩
        · exact Node.deserChar_noPanic _ (by simp [Cursor.new]) r hr e
        · cases e
      · cases e
  · right
    simp only at e
    rw [Out.bind_eq_panic] at e
    rcases e with e | ⟨⟨v, c'⟩, _, e⟩
    · rw [Out.mapErr_eq_panic] at e
      have hc : c.backing = bs := by
        unfold Store.deserCoder at e1
        cases b with
        | false => simp [Parser.pure_apply] at e1; rw [← e1.2]; rfl
        | true =>
          rw [if_pos rfl, Parser.bind_apply, Out.bind_eq_ok] at e1
          obtain ⟨⟨x, c2⟩, e1, e2⟩ := e1
          rw [Parser.mapErr_apply, Out.mapErr_eq_ok] at e1
          unfold Huffman.deserChar at e1
          rw [Parser.bind_apply, Out.bind_eq_ok] at e1
          obtain ⟨⟨y, c3⟩, e1, e3⟩ := e1
          simp only [Parser.pure_apply, Out.ok.injEq, Prod.mk.injEq] at e2 e3
          have := (Node.deserChar_adv _ _ _ e1).1
          rw [← e2.2, ← e3.2, this]; rfl
      have hl : (Cursor.new c.asRef).backing.length ≤ bs.length := by
        have : (Cursor.new c.asRef).backing = c.asRef := rfl
        rw [this, ← hc]
        unfold Cursor.asRef
        split <;> simp
      rcases C28_panics_partial env hlz h _ r e with h | h | ⟨h1, h⟩
      · exact .inl h
      · exact .inr (.inl h)
      · exact .inr (.inr ⟨by omega, h⟩)
    · cases e

/-- C28, partial, for `Store::deser`: besides the panics of values (with no bound on the size of the
input, since the contents may be compressed) the only one is the underflow of a character in the coder's
tree, and that one only when the flag byte announces a coder; provided that lz4_flex panics
only because of a capacity (`C89_panics`). Missing: these panics do occur, see `C28_refuted_*`. -/
theorem C28_store_panics_partial (env : Env) (hlz : env.lz.Allocates)
    (bytes : List UInt8) (r : Panic) (e : Store.deser env bytes = .panic r) :
    (r = .arith ∧ ∃ b, bytes[8]? = some b ∧ b &&& 0x80 ≠ 0) ∨ r = .capacityOverflow ∨ r = .unreachable ∨
      r = .index ∨ r = .unwrapNone := by
  have hread : 8 ≤ bytes.length → (Cursor.new bytes).read 8 = (some (bytes.take 8), ⟨bytes, 8⟩) := by
    intro h
    simp [Cursor.read, Cursor.new, checkedAdd, usizeMod, Cursor.slice, Nat.not_lt.mpr h]
  unfold Store.deser at e
  split at e
  · cases e
  · rename_i mb c hr
    split at e
    · cases e
    · split at e
      · cases e
      · cases e
      · rename_i p e1
        cases e
        have hc : c = ⟨bytes, 8⟩ ∧ 8 ≤ bytes.length := by
          by_cases h8 : 8 ≤ bytes.length
          · rw [hread h8] at hr
            simp only [Prod.mk.injEq] at hr
            exact ⟨hr.2.symm, h8⟩
          · have : (Cursor.new bytes).read 8 = (none, Cursor.new bytes) := by
              simp [Cursor.read, Cursor.new, checkedAdd, usizeMod, Nat.not_le.mp h8]
            rw [this] at hr
            cases hr
        obtain ⟨rfl, h8⟩ := hc
        unfold Store.deserRest at e1
        rw [Parser.bind_apply] at e1
        rcases Parser.next_cases StoreSerError.notEnoughBytes (⟨bytes, 8⟩ : Cursor UInt8) with en | ⟨b, hlt, hb, en⟩
        · rw [en] at e1; cases e1
        · rw [en, Out.ok_bind] at e1
          simp only at e1 hb hlt
          rw [Parser.bind_apply, Out.bind_eq_panic] at e1
          rcases e1 with e1 | ⟨⟨ct, c2⟩, e2, e1⟩
          · exact absurd e1 ((NoPanic.lift (ofByte_noPanic _ _)).mapErr _ _)
          · have hc2 : c2 = ⟨bytes, 9⟩ := by
              rw [Parser.mapErr_apply, Out.mapErr_eq_ok] at e2
              cases h : BinaryCompression.ofByte (b &&& 0b01111111) with
              | ok x => rw [h, Parser.lift_ok] at e2; cases e2; rfl
              | err x => rw [h] at e2; cases e2
              | panic x => rw [h] at e2; cases e2
            subst hc2
            simp only at e1
            rw [Parser.bind_apply, Out.bind_eq_panic] at e1
            rcases e1 with e1 | ⟨⟨bs, c3⟩, _, e1⟩
            · rw [Parser.mapErr_apply, Out.mapErr_eq_panic] at e1
              cases Binary.deser_safe env.lz ct _ (by show 9 ≤ bytes.length; omega) _ e1 with
              | capacity => exact .inr (.inl rfl)
              | leafRoot => exact .inr (.inr (.inl rfl))
              | bitsIndex h => exact .inr (.inr (.inr (.inl rfl)))
              | bitsEmpty h => exact .inr (.inr (.inr (.inr rfl)))
              | lz h => exact .inr (.inl (hlz _ _ _ h).1)
            · simp only at e1
              rw [Parser.bind_apply, Out.bind_eq_panic] at e1
              rcases e1 with e1 | ⟨⟨v, c4⟩, _, e1⟩
              · have e3 : Store.deserValue env (decide (b &&& 0b10000000 ≠ 0)) bs = .panic r := by
                  revert e1
                  generalize Store.deserValue env (decide (b &&& 0b10000000 ≠ 0)) bs = o
                  intro e1
                  cases o with
                  | ok x => cases e1
                  | err x => cases e1
                  | panic x => simpa using e1
                rcases deserValue_panics env hlz _ _ _ e3 with ⟨h1, h2⟩ | h | h | ⟨_, h | h⟩
                · exact .inl ⟨h2, b, hb, of_decide_eq_true h1⟩
                · exact .inr (.inl h)
                · exact .inr (.inr (.inl h))
                · exact .inr (.inr (.inr (.inl h)))
                · exact .inr (.inr (.inr (.inr h)))
              · cases v <;> cases e1

/-- C28 is violated: twelve bytes hold a store whose coder has a character leaf for 0; computing the
character underflows. -/
theorem C28_refuted_store_underflow (env : Env) :
    Store.deser env (sourisdb ++ [0x80, 2, 240, 0]) = .panic .arith := rfl

/-- C28 is violated: a store whose coder is one leaf, and whose value is a string. -/
theorem C28_refuted_store_leaf (env : Env) :
    Store.deser env (sourisdb ++ [0x80, 4, 98, 0x11, 1, 1]) = .panic .unreachable := rfl

end Souris
