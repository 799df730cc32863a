import Verif.Lemmas.WireAccept
import Verif.Lemmas.Size

/-! # Lemmas about the byte format: what is written is in the format -/

namespace Souris

namespace Wire

open Value

variable {env : Env} {co : Option (Node Char)}

theorem tyByte_div (t : ValueTy) {f : UInt8} (hf : f.toNat < 16) : (tyByte t f).toNat / 16 = t.toU8.toNat ∧
    (tyByte t f).toNat % 16 = f.toNat := by
  have key : ∀ n : Fin 16, (tyByte t (UInt8.ofNat n.val)).toNat / 16 = t.toU8.toNat ∧
      (tyByte t (UInt8.ofNat n.val)).toNat % 16 = n.val := by
    cases t <;> decide +kernel
  have := key ⟨f.toNat, hf⟩
  simpa using this

theorem tag_written {t : ValueTy} {f : UInt8} {code m flags : Nat} (hc : t.toU8.toNat = code) (hf : f.toNat = flags)
    (hm : m ∣ 16) (hl : flags < m) : Tag true code m flags (tyByte t f) := by
  have h16 : flags < 16 := lt_of_lt_of_le hl (Nat.le_of_dvd (by omega) hm)
  obtain ⟨h1, h2⟩ := tyByte_div t (f := f) (by omega)
  refine ⟨by rw [h1, hc], ?_, fun _ => by rw [h2, hf]⟩
  have := Nat.mod_mod_of_dvd (tyByte t f).toNat hm
  rw [h2, hf, Nat.mod_eq_of_lt hl] at this
  exact this.symm

theorem tag_zero (t : ValueTy) {code : Nat} (hc : t.toU8.toNat = code) : Tag true code 1 0 (tyByte t 0) :=
  tag_written hc rfl (by omega) (by omega)

theorem w8 : Width 8 := by unfold Width; decide
theorem w4 : Width 4 := by unfold Width; decide

theorem str_written {s : List Char} {b : List UInt8} (e : serString (coderOf co) s = .ok b) (hb : b.length < 2 ^ 60) :
    StrWord true co s b := by
  have plain : ∀ {b : List UInt8}, tyByte .string 0 :: ((Integer.ofUnsigned 8 (utf8 s).length).ser.2 ++ utf8 s) = b →
      b.length < 2 ^ 60 → StrWord true co s b := by
    rintro b rfl hb
    simp only [List.length_cons, List.length_append] at hb
    exact .plain (tag_written (t := .string) rfl rfl (by omega) (by omega)) (nat_written w8 (by
      show (utf8 s).length < 2 ^ 64
      omega))
  cases co with
  | none =>
    simp only [coderOf, Option.map_none, serString, Out.ok.injEq] at e
    exact plain e hb
  | some root =>
    simp only [coderOf, Option.map_some, serString] at e
    cases he : (Huffman.ofRoot root).encode s with
    | ok bits =>
      rw [he] at e
      simp only at e
      rw [Out.bind_eq_ok] at e
      obtain ⟨w, ew, e⟩ := e
      simp only [Out.pure_eq, Out.ok.injEq] at e
      subst e
      obtain ⟨l, rfl, hc⟩ := encode_coded he
      refine .coded (tag_written (t := .string) rfl rfl (by omega) (by omega)) rfl hc (bits_written ?_ ew)
      have hw := ew
      unfold Bits.ser at hw
      rw [Bits.properBytes_ofList] at hw
      simp only [Out.ok.injEq] at hw
      have := Bits.pack_length l
      rw [← hw] at hb
      simp only [List.length_cons, List.length_append] at hb
      omega
    | err x =>
      rw [he] at e
      simp only [Out.ok.injEq] at e
      exact plain e hb
    | panic p => rw [he] at e; cases e

theorem len_written {t : ValueTy} {code n : Nat} (hc : t.toU8.toNat = code) (hn : n < 2 ^ 64) :
    LenWord true code n (serLen t n) := by
  unfold serLen
  split
  · rename_i h7
    have hf : (UInt8.ofNat n <<< 1).toNat = 2 * n := by
      have key : ∀ m : Fin 7, (UInt8.ofNat m.val <<< 1).toNat = 2 * m.val := by decide +kernel
      exact key ⟨n, h7⟩
    obtain ⟨h1, h2⟩ := tyByte_div t (f := UInt8.ofNat n <<< 1) (by omega)
    exact .short (by rw [h1, hc]) (by rw [h2, hf]) fun _ => h7
  · exact .long (tag_written hc rfl (by omega) (by omega)) (fun _ => by omega) (nat_written w8 hn)

theorem year_signed {t : Timestamp} (h : t.Valid) : IsSigned 4 t.year := by
  obtain ⟨⟨⟨hy1, hy2⟩, -⟩, -⟩ := h
  constructor
  · calc (-(2 ^ (8 * 4 - 1)) : Int) ≤ -262143 := by norm_num
      _ ≤ _ := hy1
  · calc t.year ≤ 262142 := hy2
      _ < (2 ^ (8 * 4 - 1) : Int) := by norm_num

theorem used_four {n : Int} (h : IsSigned 4 n) : (Integer.ofSigned 4 n).used ≤ 4 := by
  by_contra hc
  have := C01_signed_roundtrip w4 h
  unfold Integer.toSigned at this
  rw [if_pos (by omega)] at this
  cases this

theorem timestamp_written {B : Nat → List UInt8 → List UInt8 → Prop} {t : Timestamp} (h : t.Valid) :
    Word true B env co (.timestamp t) (serTimestamp t) := by
  have hys := year_signed h
  obtain ⟨⟨⟨hy1, hy2⟩, ⟨hm1, hm2⟩, ⟨hd1, hd2⟩⟩, hh, hmi, hs, hn⟩ := h
  have hdays := monthDays_le t.year t.month
  have hu : ∀ n, n < 2 ^ 32 → IsUnsigned 4 n := fun n h => h
  have hi : (Integer.ofSigned 4 t.year).Native := .signed w4 hys
  have hstate : (Integer.ofSigned 4 t.year).ser.1 = (Integer.ofSigned 4 t.year).signedState := Integer.WF.ser_state _
  have hss : (Integer.ofSigned 4 t.year).signedState = if t.year < 0 then .signedNegative else .signedPositive :=
    Integer.ofSigned_state _ _
  have hval : (Integer.ofSigned 4 t.year).value = t.year := Integer.ofSigned_value w4.le (by norm_num; omega) (by norm_num; omega)
  have hy := int_written hi.serialisable
  rw [hval] at hy
  unfold serTimestamp
  simp only
  rw [hstate]
  refine .timestamp (y := t.year) (ss := (Integer.ofSigned 4 t.year).signedState) ?_ (hy.wider ?_) (by simp) ?_
    (nat_written w4 (hu _ (by omega))) (nat_written w4 (hu _ (by omega))) (nat_written w4 (hu _ (by omega)))
    (nat_written w4 (hu _ (by omega))) (nat_written w4 (hu _ (by omega))) (nat_written w4 (hu _ (by omega))) (by simp)
  · refine tag_written (t := .timestamp) rfl (sign_toU8 _) (by omega) ?_
    rw [hss]; split <;> decide
  · have := used_four hys; omega
  · intro _
    refine ⟨rfl, ?_, ?_⟩ <;> rw [hss] <;> split <;> simp_all

theorem magic_written (s1 s2 : SignedState) : SignPair s1 s2 (Imaginary.magic s1 s2).toNat := by
  cases s1 <;> cases s2 <;> constructor

theorem list_written {P : Value → List UInt8 → Prop} {h : Option (Huffman Char)} : ∀ {a : List Value} {bs : List UInt8},
    serList env h a = .ok bs → bs.length < 2 ^ 60 →
    (∀ v ∈ a, ∀ b : List UInt8, ser env h v = .ok b → b.length < 2 ^ 60 → P v b ∧ b ≠ []) →
    ∃ parts : List (List UInt8), List.Forall₂ P a parts ∧ bs = parts.flatten ∧ a.length ≤ bs.length
  | [], bs, e, _, _ => by
    simp only [serList, Out.ok.injEq] at e
    exact ⟨[], .nil, by rw [← e]; rfl, by simp⟩
  | v :: a, bs, e, hl, ih => by
    simp only [serList] at e
    rw [Out.bind_eq_ok] at e
    obtain ⟨b1, e1, e⟩ := e
    rw [Out.bind_eq_ok] at e
    obtain ⟨b2, e2, e⟩ := e
    simp only [Out.pure_eq, Out.ok.injEq] at e
    subst e
    rw [List.length_append] at hl
    obtain ⟨h1, hne⟩ := ih v (by simp) b1 e1 (by omega)
    obtain ⟨parts, hp, rfl, hlen⟩ := list_written e2 (by omega) fun w hw => ih w (by simp [hw])
    refine ⟨b1 :: parts, .cons h1 hp, rfl, ?_⟩
    have := List.length_pos_iff.mpr hne
    rw [List.length_append, List.length_cons]
    omega

theorem entries_written {P : Value → List UInt8 → Prop} : ∀ {m : List (List Char × Value)} {bs : List UInt8},
    serEntries env (coderOf co) m = .ok bs → bs.length < 2 ^ 60 →
    (∀ k v, (k, v) ∈ m → ∀ b : List UInt8, ser env (coderOf co) v = .ok b → b.length < 2 ^ 60 → P v b ∧ b ≠ []) →
    ∃ parts : List (List UInt8 × List UInt8), List.Forall₂ (fun x p => StrWord true co x.1 p.1 ∧ P x.2 p.2) m parts ∧
      bs = parts.flatMap (fun p => p.1 ++ p.2) ∧ m.length ≤ bs.length
  | [], bs, e, _, _ => by
    simp only [serEntries, Out.ok.injEq] at e
    exact ⟨[], .nil, by rw [← e]; rfl, by simp⟩
  | (k, v) :: m, bs, e, hl, ih => by
    simp only [serEntries] at e
    rw [Out.bind_eq_ok] at e
    obtain ⟨kb, ek, e⟩ := e
    rw [Out.bind_eq_ok] at e
    obtain ⟨b1, e1, e⟩ := e
    rw [Out.bind_eq_ok] at e
    obtain ⟨b2, e2, e⟩ := e
    simp only [Out.pure_eq, Out.ok.injEq] at e
    subst e
    simp only [List.length_append] at hl
    obtain ⟨h1, hne⟩ := ih k v (by simp) b1 e1 (by omega)
    obtain ⟨parts, hp, rfl, hlen⟩ := entries_written e2 (by omega) fun k w hw => ih k w (by simp [hw])
    have hk := str_written ek (by omega)
    refine ⟨(kb, b1) :: parts, .cons ⟨hk, h1⟩ hp, by simp, ?_⟩
    have := List.length_pos_iff.mpr hne
    simp only [List.length_append, List.length_cons]
    omega

/-- What is written is in the format. -/
theorem ser_written (hord : HashOrder env.byteOrd) {B : Nat → List UInt8 → List UInt8 → Prop} (v : Value) :
    (∀ d, Sub (.binary d) v → d.length ≤ isizeMax ∧ (d ≠ [] → B d.length (env.lz.compress d) d)) → Dated v →
    ∀ b : List UInt8, ser env (coderOf co) v = .ok b → b.length < 2 ^ 60 → Word true B env co v b := by
  induction v using Value.induct with
  | h v iha ihm =>
    intro hB hv b e hb
    cases v with
    | character c =>
      simp only [ser, Out.ok.injEq] at e
      rw [← e]
      exact .character (tag_zero .character rfl) (nat_written w4 (Value.char_lt c))
    | string s => exact .string (str_written (by simpa only [ser] using e) hb)
    | binary d =>
      simp only [ser] at e
      rw [Out.bind_eq_ok] at e
      obtain ⟨⟨ct, bs⟩, e1, e⟩ := e
      simp only [Out.pure_eq, Out.ok.injEq] at e
      subst e
      obtain ⟨hd, hB⟩ := hB d (.refl _)
      refine .binary (tag_written (t := .binary) rfl rfl (by omega) (by cases ct <;> decide))
        (binary_written hord hB hd (by simp at hb; omega) e1)
    | boolean x =>
      simp only [ser, Out.ok.injEq] at e
      rw [← e]
      exact .boolean (tag_written (t := .boolean) rfl (by cases x <;> rfl) (by omega) (by cases x <;> decide))
    | integer i =>
      simp only [ser, Out.ok.injEq] at e
      have hi := (hv.1.1 i (.refl _)).serialisable
      rw [← e, Integer.WF.ser_state i]
      have := int_used hi.toWF
      exact .integer (tag_written (t := .integer) rfl (sign_toU8 _) (by omega) (by cases i.signedState <;> decide))
        ((int_written hi).wider (by omega))
    | imaginary z =>
      simp only [ser, Out.ok.injEq] at e
      rw [← e]
      cases hv.1.2.1 z (.refl _) with
      | @cartesian a b h1 h2 =>
        have ua := int_used h1.serialisable.toWF
        have ub := int_used h2.serialisable.toWF
        show Word true B env co _ (tyByte .imaginary (Imaginary.magic a.ser.1 b.ser.1) :: (a.ser.2 ++ b.ser.2))
        rw [Integer.WF.ser_state a, Integer.WF.ser_state b]
        exact .cartesian (tag_written (t := .imaginary) rfl rfl (by omega)
          (by cases a.signedState <;> cases b.signedState <;> decide)) (magic_written _ _)
          ((int_written h1.serialisable).wider (by omega)) ((int_written h2.serialisable).wider (by omega))
      | polar m a =>
        exact .polar (tag_written (t := .imaginary) rfl rfl (by omega) (by omega))
          (fixed_written m.toNat_lt) (fixed_written a.toNat_lt)
    | timestamp t =>
      simp only [ser, Out.ok.injEq] at e
      rw [← e]
      exact timestamp_written (hv.2 t (.refl _))
    | json j =>
      simp only [ser] at e
      rw [Out.bind_eq_ok] at e
      obtain ⟨bs, e1, e⟩ := e
      simp only [Out.pure_eq, Out.ok.injEq] at e
      subst e
      exact .json (tag_zero .json rfl) (by simp) (str_written e1 (by simp at hb; omega))
    | null => simp only [ser, Out.ok.injEq] at e; rw [← e]; exact .null (tag_zero .null rfl)
    | single x =>
      simp only [ser, Out.ok.injEq] at e
      rw [← e]; exact .single (tag_zero .singleFloat rfl) (fixed_written x.toNat_lt)
    | double x =>
      simp only [ser, Out.ok.injEq] at e
      rw [← e]; exact .double (tag_zero .doubleFloat rfl) (fixed_written x.toNat_lt)
    | array a =>
      simp only [ser] at e
      rw [Out.bind_eq_ok] at e
      obtain ⟨bs, e1, e⟩ := e
      simp only [Out.pure_eq, Out.ok.injEq] at e
      subst e
      rw [List.length_append] at hb
      obtain ⟨parts, hp, rfl, hlen⟩ := list_written (P := Word true B env co) e1 (by omega) fun w hw b' e' hl =>
        have := iha a rfl w hw (fun d hd => hB d (.array hw hd)) (Fixed.Dated.array hv hw) b' e' hl
        ⟨this, word_ne this⟩
      exact .array (len_written (t := .array) rfl (by omega)) (.inl rfl) hp.length_eq.symm (forall2_get hp)
    | map m =>
      simp only [ser] at e
      rw [Out.bind_eq_ok] at e
      obtain ⟨bs, e1, e⟩ := e
      simp only [Out.pure_eq, Out.ok.injEq] at e
      subst e
      rw [List.length_append] at hb
      obtain ⟨parts, hp, rfl, hlen⟩ := entries_written (P := Word true B env co) e1 (by omega) fun k w hw b' e' hl =>
        have := ihm m rfl k w hw (fun d hd => hB d (.map hw hd)) (Fixed.Dated.map hv hw) b' e' hl
        ⟨this, word_ne this⟩
      exact .map (len_written (t := .map) rfl (by omega)) hp.length_eq.symm
        (fun i k v p h1 h2 => (forall2_get hp i _ p h1 h2).1) (fun i k v p h1 h2 => (forall2_get hp i _ p h1 h2).2)
    | timezone n =>
      simp only [ser] at e
      rw [Out.bind_eq_ok] at e
      obtain ⟨bs, e1, e⟩ := e
      simp only [Out.pure_eq, Out.ok.injEq] at e
      subst e
      exact .timezone (tag_zero .timezone rfl) (by simp) (str_written e1 (by simp at hb; omega))
    | ipv4 a b c d => simp only [ser, Out.ok.injEq] at e; rw [← e]; exact .ipv4 (tag_zero .ipv4Addr rfl)
    | ipv6 a b c d x f g i =>
      simp only [ser, Out.ok.injEq] at e
      rw [← e]
      have h2 : ∀ y : UInt16, FixedWord 2 y.toNat (le16 y) := fun y => fixed_written y.toNat_lt
      exact .ipv6 (tag_zero .ipv6Addr rfl) (h2 _) (h2 _) (h2 _) (h2 _) (h2 _) (h2 _) (h2 _) (h2 _)

/-! ## Blocks -/

theorem BinWord.block {strict : Bool} {B C : Nat → List UInt8 → List UInt8 → Prop} (hBC : ∀ n b d, B n b d → C n b d)
    {ct : Nat} {d w : List UInt8} (h : BinWord strict B ct d w) : BinWord strict C ct d w := by
  cases h with
  | plain hl => exact .plain hl
  | runs hl hr => exact .runs hl hr
  | lzNil hl => exact .lzNil hl
  | lz hn hl hl' hb => exact .lz hn hl hl' (hBC _ _ _ hb)
  | treeNil => exact .treeNil
  | treeOne hn hl x => exact .treeOne hn hl x
  | tree hf hs ht hb hc hr => exact .tree hf hs ht hb hc hr

theorem Word.block {strict : Bool} {B C : Nat → List UInt8 → List UInt8 → Prop} (hBC : ∀ n b d, B n b d → C n b d)
    {v : Value} {w : List UInt8} (h : Word strict B env co v w) : Word strict C env co v w := by
  induction h with
  | character hf h => exact .character hf h
  | string h => exact .string h
  | binary hf h => exact .binary hf (h.block hBC)
  | boolean hf => exact .boolean hf
  | integer hf h => exact .integer hf h
  | cartesian hf hm ha hb => exact .cartesian hf hm ha hb
  | polar hf hm ha => exact .polar hf hm ha
  | timestamp hf hy hm hs hmo hd hh hmi hse hn hv => exact .timestamp hf hy hm hs hmo hd hh hmi hse hn hv
  | json hf hj h => exact .json hf hj h
  | map hh hl hk _ ih => exact .map hh hl hk ih
  | null hf => exact .null hf
  | double hf h => exact .double hf h
  | array hh hn hl _ ih => exact .array hh hn hl ih
  | timezone hf hn h => exact .timezone hf hn h
  | ipv4 hf => exact .ipv4 hf
  | ipv6 hf ha hb hc hd he hg hh hi => exact .ipv6 hf ha hb hc hd he hg hh hi
  | single hf h => exact .single hf h

end Wire

end Souris
