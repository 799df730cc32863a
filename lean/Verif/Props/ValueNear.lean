import Verif.Spec.ValueNear
import Verif.Props.JsonNear
import Verif.Props.Client

/-! # Values with any floats in their JSON (C26, C52, C58) -/

namespace Souris

open SerdeJson Value Client

namespace Value

theorem sameUpTo_array {R : SJValue → SJValue → Prop} {a a' : List Value} (h : List.Forall₂ (SameUpTo R) a a') :
    SameUpTo R (.array a) (.array a') := by
  refine .array h.length_eq ?_
  intro i v v' hv hv'
  induction h generalizing i with
  | nil => simp at hv
  | cons h1 _ ih =>
    cases i with
    | zero => simp only [List.getElem?_cons_zero, Option.some.injEq] at hv hv'; rw [← hv, ← hv']; exact h1
    | succ i => exact ih i (by simpa using hv) (by simpa using hv')

/-- A value whose JSON is read as something related to it. -/
theorem ser_parsed_with {J : SJValue → Prop} {R : SJValue → SJValue → Prop} {env : Env} {h : Option (Huffman Char)}
    (hlz : env.lz.Lossless) (hord : HashOrder env.byteOrd)
    (hJ : ∀ j, J j → ∃ j', R j j' ∧ env.jsonParse (env.jsonPrint j) = some j') {v : Value} (hv : StorableWith J env h v) :
    ∃ bytes v', ser env h v = .ok bytes ∧ SameUpTo R v v' ∧ Parsed env h bytes v' := by
  have leaf : ∀ {w : Value}, Storable env h w → ∃ bytes v', ser env h w = .ok bytes ∧ SameUpTo R w v' ∧ Parsed env h bytes v' := by
    intro w hw
    obtain ⟨bytes, v', h1, h2, h3⟩ := ser_parsed hlz hord hw
    exact ⟨bytes, v', h1, .same h2.1, h3⟩
  induction hv with
  | character c => exact leaf (.character c)
  | string hs => exact leaf (.string hs)
  | binary hb => exact leaf (.binary hb)
  | boolean b => exact leaf (.boolean b)
  | integer hi => exact leaf (.integer hi)
  | imaginary hz => exact leaf (.imaginary hz)
  | timestamp hv hl => exact leaf (.timestamp hv hl)
  | json hs hj =>
    obtain ⟨j', h1, h2⟩ := hJ _ hj
    obtain ⟨bytes, h3, h4⟩ := parsed_json hs h2
    exact ⟨bytes, _, h3, .json h1, h4⟩
  | null => exact leaf .null
  | single x => exact leaf (.single x)
  | double x => exact leaf (.double x)
  | array hne hl hc ha ih =>
    obtain ⟨bytes, a', h1, h2, h3⟩ := parsed_array hne hl hc ih
    exact ⟨bytes, _, h1, sameUpTo_array h2, h3⟩
  | timezone hs hn => exact leaf (.timezone hs hn)
  | ipv4 a b c d => exact leaf (.ipv4 a b c d)
  | ipv6 a b c d e f g i => exact leaf (.ipv6 a b c d e f g i)

theorem meets_with {J : SJValue → Prop} {env : Env} {h : Option (Huffman Char)} (hlz : env.lz.Lossless)
    (hord : HashOrder env.byteOrd) (hJ : ∀ j, J j → ∃ j', env.jsonParse (env.jsonPrint j) = some j') {v : Value}
    (hv : FaithfulWith J env h v) : Meets (StorableWith J env h) env h v := by
  have stored : ∀ {w : Value}, StorableWith J env h w → Meets (StorableWith J env h) env h w := by
    intro w hw bytes e pre tail n st hwant hlen
    obtain ⟨bytes', v', e', _, hp⟩ := ser_parsed_with (R := fun _ _ => True) hlz hord
      (fun j hj => by obtain ⟨j', h⟩ := hJ j hj; exact ⟨j', trivial, h⟩) hw
    rw [e, Out.ok.injEq] at e'
    subst e'
    cases hwant with
    | more hf =>
      obtain ⟨st', h1, h2⟩ := found_want (env := env) (h := h) hf v' (Cursor.At (pre ++ bytes) tail)
      exact .inr ⟨n, st', h2, (hp pre tail _ hlen).trans h1, Nat.le_refl n, fun hn => absurd hw hn⟩
  induction hv with
  | character c => exact stored (.character c)
  | string hs => exact stored (.string hs)
  | binary hb => exact stored (.binary hb)
  | boolean b => exact stored (.boolean b)
  | integer hi => exact stored (.integer hi)
  | imaginary hz => exact stored (.imaginary hz)
  | @timestamp t hv =>
    refine Meets.mono (S := Storable env h) (fun h => ?_) (meets hlz hord (.timestamp hv))
    cases h with
    | timestamp h1 h2 => exact .timestamp h1 h2
  | json hs hj => exact stored (.json hs hj)
  | null => exact stored .null
  | single x => exact stored (.single x)
  | double x => exact stored (.double x)
  | array ha ih => exact meets_array (fun h0 hl64 hc hno => .array h0 hl64 hc hno) ih
  | map m => exact Meets.mono (S := Storable env h) (fun h => by cases h) (meets hlz hord (.map m))
  | timezone hs hn => exact stored (.timezone hs hn)
  | ipv4 a b c d => exact stored (.ipv4 a b c d)
  | ipv6 a b c d e f g i => exact stored (.ipv6 a b c d e f g i)

end Value

theorem made_mono {P Q : UInt64 → Prop} {j : SJValue} (h : j.Made P) (hq : ∀ b, P b → Q b) : j.Made Q := by
  induction h with
  | null => exact .null
  | bool b => exact .bool b
  | posInt h => exact .posInt h
  | negInt h h0 => exact .negInt h h0
  | float h hp => exact .float h (hq _ hp)
  | string s => exact .string s
  | array _ ih => exact .array ih
  | object ho _ ih => exact .object ho ih

theorem upTo_reads {env : Env} (hs : env.Serde) {B : ℚ} (hB : B ≤ 17975 * 10 ^ 304) (j : SJValue) (h : JsonUpTo B j) :
    ∃ j', JsonNear j j' ∧ env.jsonParse (env.jsonPrint j) = some j' := by
  obtain ⟨j', h1, h2, _⟩ := C83_near_partial (made_mono h.1 fun b hb => hb.trans hB) h.2
  exact ⟨j', h1, by rw [hs.print, hs.parse]; exact h2⟩

/-- **C26** with serde_json, in part: a value of any depth, in which there may be JSON with any floats, only not too
close to the largest one, comes back from its bytes with the same contents, except that floats in its JSON may have
changed by at most two parts in 10¹⁵. Otherwise as `C26_roundtrip_partial`. -/
theorem C26_near_partial {env : Env} (hs : env.Serde) (hlz : env.lz.Lossless) (hord : HashOrder env.byteOrd)
    {h : Option (Huffman Char)} {v : Value} (hv : StorableWith (JsonUpTo (17975 * 10 ^ 304)) env h v) :
    ∃ bytes v', ser env h v = .ok bytes ∧ SameUpTo JsonNear v v' ∧ Inverts (deser env h) bytes v' := by
  obtain ⟨bytes, v', h1, h2, h3⟩ := ser_parsed_with hlz hord (upTo_reads hs le_rfl) hv
  exact ⟨bytes, v', h1, h2, inverts_of_parsed h3⟩

/-- A list of JSON with the float nearest to -1/3, and a string. -/
def thirdValue : Value := .array [.json (.array [.number (.float 0xBFD5555555555555)]), .string ['a']]

theorem third_json : JsonUpTo (17974 * 10 ^ 304) (.array [.number (.float 0xBFD5555555555555)]) := by
  refine ⟨.array fun x hx => ?_, by decide⟩
  rw [List.mem_singleton] at hx
  subst hx
  refine .float (by unfold F64Finite; decide) ?_
  have h1 : |f64Value 0xBFD5555555555555| ≤ 1 := by decide +kernel
  have h2 : (1 : ℚ) * 1 ≤ 17974 * 10 ^ 304 := mul_le_mul (by norm_num) (one_le_pow₀ (by norm_num)) (by norm_num) (by norm_num)
  rw [one_mul] at h2
  exact h1.trans h2

theorem third_text : (utf8 (print (.array [.number (.float 0xBFD5555555555555)]))).length < 2 ^ 64 := by decide +kernel

theorem third_storable {B : ℚ} (hB : 17974 * 10 ^ 304 ≤ B) : StorableWith (JsonUpTo B) serdeEnv none thirdValue := by
  refine .array (by decide) (by decide) (by decide) fun v hv => ?_
  simp only [List.mem_cons, List.not_mem_nil, or_false] at hv
  rcases hv with rfl | rfl
  · exact .json ⟨third_text, by simp⟩ ⟨made_mono third_json.1 fun b hb => hb.trans hB, third_json.2⟩
  · exact .string ⟨by decide, by simp⟩

theorem bounds_le : (17974 * 10 ^ 304 : ℚ) ≤ 17975 * 10 ^ 304 := mul_le_mul_of_nonneg_right (by norm_num) (by positivity)

example : ∃ bytes v', ser serdeEnv none thirdValue = .ok bytes ∧ SameUpTo JsonNear thirdValue v' ∧
    Inverts (deser serdeEnv none) bytes v' :=
  C26_near_partial serdeEnv_serde (fun _ _ => rfl) (fun _ => .refl _) (third_storable bounds_le)

/-- **C26** with serde_json, in part: what is read is the value that was written, up to the last digits of floats in
its JSON, or nothing. Otherwise as `C26_never_wrong_partial`. -/
theorem C26_near_never_wrong_partial {env : Env} (hs : env.Serde) (hlz : env.lz.Lossless) (hord : HashOrder env.byteOrd)
    {B : ℚ} (hB : B ≤ 17975 * 10 ^ 304) {h : Option (Huffman Char)} {v : Value} (hv : FaithfulWith (JsonUpTo B) env h v)
    {bytes : List UInt8} (e : ser env h v = .ok bytes) (hlen : bytes.length < 2 ^ 64) :
    ((∃ v' c', deser env h (Cursor.new bytes) = .ok (v', c')) ↔ StorableWith (JsonUpTo B) env h v) ∧
    ∀ v' c', deser env h (Cursor.new bytes) = .ok (v', c') → SameUpTo JsonNear v v' ∧ c'.pos = bytes.length := by
  by_cases hst : StorableWith (JsonUpTo B) env h v
  · obtain ⟨bytes', v', e', h1, hp⟩ := ser_parsed_with hlz hord (upTo_reads hs hB) hst
    rw [e, Out.ok.injEq] at e'
    subst e'
    have h4 := inverts_of_parsed hp [] [] (by simpa using hlen)
    simp only [List.nil_append, List.append_nil, List.length_nil] at h4
    refine ⟨⟨fun _ => hst, fun _ => ⟨_, _, h4⟩⟩, fun w c' hw => ?_⟩
    have hw' : deser env h ⟨bytes, 0⟩ = .ok (w, c') := hw
    rw [h4, Out.ok.injEq, Prod.mk.injEq] at hw'
    obtain ⟨rfl, rfl⟩ := hw'
    exact ⟨h1, rfl⟩
  · have hno : ∀ x, deser env h (Cursor.new bytes) ≠ .ok x := by
      obtain ⟨n, _, o, hl, ho⟩ := C27_terminates env h (Cursor.new bytes)
      rw [ho]
      have hm := meets_with hlz hord (fun j hj => by obtain ⟨j', _, h⟩ := upTo_reads hs hB j hj; exact ⟨j', h⟩) hv bytes e [] [] 0
        [.valueNeeded] (.more .nil) (by simpa [usizeMod] using hlen)
      have hc : Cursor.At [] (bytes ++ []) = Cursor.new bytes := by simp [Cursor.At, Cursor.new]
      rw [hc] at hm
      rcases hm with hm | ⟨n', st', hw, hst', _, hn'⟩
      · exact hm n o hl
      · obtain ⟨m, rfl⟩ : ∃ m, n' = m + 1 := ⟨n' - 1, by have := hn' hst; omega⟩
        exact Fails.of_steps hst' (want_fails hw _) n o hl
    exact ⟨⟨fun ⟨v', c', h⟩ => absurd h (hno _), fun h => absurd h hst⟩, fun v' c' h => absurd h (hno _)⟩

theorem third_faithful : FaithfulWith (JsonUpTo (17974 * 10 ^ 304)) serdeEnv none thirdValue := by
  refine .array fun v hv => ?_
  simp only [List.mem_cons, List.not_mem_nil, or_false] at hv
  rcases hv with rfl | rfl
  · exact .json ⟨third_text, by simp⟩ third_json
  · exact .string ⟨by decide, by simp⟩

theorem third_length : ∀ bytes, ser serdeEnv none thirdValue = .ok bytes → bytes.length < 2 ^ 64 := by
  have h : (match ser serdeEnv none thirdValue with | .ok b => decide (b.length < 2 ^ 64) | _ => false) = true := by
    decide +kernel
  intro bytes e
  rw [e] at h
  exact of_decide_eq_true h

example : ∃ bytes v' c', ser serdeEnv none thirdValue = .ok bytes ∧ deser serdeEnv none (Cursor.new bytes) = .ok (v', c') := by
  obtain ⟨bytes, v', e, _⟩ := C26_near_partial serdeEnv_serde (fun _ _ => rfl) (fun _ => .refl _) (third_storable bounds_le)
  obtain ⟨w, c', h⟩ := (C26_near_never_wrong_partial serdeEnv_serde (fun _ _ => rfl) (fun _ => .refl _) bounds_le
    third_faithful e (third_length _ e)).1.mpr (third_storable le_rfl)
  exact ⟨bytes, w, c', e, h⟩

/-- The bytes of a part are among the bytes of the whole. -/
theorem ser_sub {env : Env} {h : Option (Huffman Char)} {w v : Value} (hs : Sub w v) : ∀ bytes, ser env h v = .ok bytes →
    ∃ b, ser env h w = .ok b ∧ b.length ≤ bytes.length := by
  induction hs with
  | refl v => exact fun bytes e => ⟨bytes, e, le_rfl⟩
  | @array a w v hv _ ih =>
    intro bytes e
    simp only [ser] at e
    rw [Out.bind_eq_ok] at e
    obtain ⟨bs, e1, e⟩ := e
    simp only [Out.pure_eq, Out.ok.injEq] at e
    have : ∀ (l : List Value) (bs : List UInt8), serList env h l = .ok bs → v ∈ l → ∃ b, ser env h v = .ok b ∧ b.length ≤ bs.length := by
      intro l
      induction l with
      | nil => intro bs _ hm; cases hm
      | cons x l ihl =>
        intro bs e hm
        simp only [serList] at e
        rw [Out.bind_eq_ok] at e
        obtain ⟨b1, e1, e⟩ := e
        rw [Out.bind_eq_ok] at e
        obtain ⟨b2, e2, e⟩ := e
        simp only [Out.pure_eq, Out.ok.injEq] at e
        subst e
        rcases List.mem_cons.mp hm with rfl | hm
        · exact ⟨b1, e1, by simp⟩
        · obtain ⟨b, h1, h2⟩ := ihl b2 e2 hm
          exact ⟨b, h1, by simp; omega⟩
    obtain ⟨b, h1, h2⟩ := this a bs e1 hv
    obtain ⟨b', h3, h4⟩ := ih b h1
    refine ⟨b', h3, ?_⟩
    rw [← e]
    simp only [List.length_append]
    omega
  | @map m k w v hv _ ih =>
    intro bytes e
    simp only [ser] at e
    rw [Out.bind_eq_ok] at e
    obtain ⟨bs, e1, e⟩ := e
    simp only [Out.pure_eq, Out.ok.injEq] at e
    have : ∀ (l : List (List Char × Value)) (bs : List UInt8), serEntries env h l = .ok bs → (k, v) ∈ l →
        ∃ b, ser env h v = .ok b ∧ b.length ≤ bs.length := by
      intro l
      induction l with
      | nil => intro bs _ hm; cases hm
      | cons x l ihl =>
        obtain ⟨k', x⟩ := x
        intro bs e hm
        simp only [serEntries] at e
        rw [Out.bind_eq_ok] at e
        obtain ⟨b0, e0, e⟩ := e
        rw [Out.bind_eq_ok] at e
        obtain ⟨b1, e1, e⟩ := e
        rw [Out.bind_eq_ok] at e
        obtain ⟨b2, e2, e⟩ := e
        simp only [Out.pure_eq, Out.ok.injEq] at e
        subst e
        rcases List.mem_cons.mp hm with hm | hm
        · cases hm
          exact ⟨b1, e1, by simp; omega⟩
        · obtain ⟨b, h1, h2⟩ := ihl b2 e2 hm
          exact ⟨b, h1, by simp; omega⟩
    obtain ⟨b, h1, h2⟩ := this m bs e1 hv
    obtain ⟨b', h3, h4⟩ := ih b h1
    refine ⟨b', h3, ?_⟩
    rw [← e]
    simp only [List.length_append]
    omega

/-- The text of JSON is among the bytes of the value. -/
theorem json_sub_length {env : Env} {j : SJValue} {v : Value} (hs : Sub (.json j) v) {bytes : List UInt8}
    (e : ser env none v = .ok bytes) : (utf8 (env.jsonPrint j)).length ≤ bytes.length := by
  obtain ⟨b, h1, h2⟩ := ser_sub hs bytes e
  refine le_trans ?_ h2
  simp only [ser, serString] at h1
  cases h1
  simp
  omega

/-- **C58** with serde_json, in part: whatever the bytes were, a value that was read from them can be written and
read again, up to the last digits of the floats in its JSON, if its binary data is kept and no float in its JSON is too
close to the largest one. -/
theorem C58_near_partial {env : Env} (hs : env.Serde) (hlz : env.lz.Lossless) (hord : HashOrder env.byteOrd)
    (hcap : 1 ≤ env.arrayCapMax) {c c' : Cursor UInt8} {v : Value} (e : deser env none c = .ok (v, c'))
    (hb : ∀ b, Sub (.binary b) v → BinaryKept env b)
    (hf : ∀ j b, Sub (.json j) v → SJValue.Sub (.number (.float b)) j → |f64Value b| ≤ 17975 * 10 ^ 304)
    {bytes : List UInt8} (ew : ser env none v = .ok bytes) (hl : bytes.length < 2 ^ 64) :
    ∃ v', SameUpTo JsonNear v v' ∧ Inverts (deser env none) bytes v' := by
  obtain ⟨n, _, o, hlo, ho⟩ := C27_terminates env none c
  rw [ho] at e
  have hk := loops_keeps hcap hlo (by intro st hst; rw [List.mem_singleton.mp hst]; trivial) v c' e
  obtain ⟨bytes', v', h1, h2, h3⟩ := C26_near_partial hs hlz hord (hk (JsonUpTo (17975 * 10 ^ 304)) hb fun j hj ⟨s, hp⟩ => by
    rw [hs.parse] at hp
    obtain ⟨h1, h2⟩ := C84_made hp
    exact ⟨(json_sub_length hj ew).trans_lt hl, made_of_sub h1 fun b hb => hf j b hj hb, h2⟩)
  rw [ew, Out.ok.injEq] at h1
  subst h1
  exact ⟨v', h2, h3⟩

/-- Bytes with the JSON `[ 0.1]`, with a space, are read, and what was read is written as other bytes and read again. -/
example : ∃ v c' bytes v', deser serdeEnv none (Cursor.new (0x70 :: 0x10 :: 6 :: utf8 ['[', ' ', '0', '.', '1', ']'])) = .ok (v, c') ∧
    ser serdeEnv none v = .ok bytes ∧ SameUpTo JsonNear v v' ∧ Inverts (deser serdeEnv none) bytes v' := by
  have h : (match deser serdeEnv none (Cursor.new (0x70 :: 0x10 :: 6 :: utf8 ['[', ' ', '0', '.', '1', ']'])) with
      | .ok (.json (.array [.number (.float b)]), _) => decide (b = 0x3FB999999999999A)
      | _ => false) = true := by decide +kernel
  have hw : (match ser serdeEnv none (.json (.array [.number (.float 0x3FB999999999999A)])) with
      | .ok bytes => decide (bytes.length < 2 ^ 64)
      | _ => false) = true := by decide +kernel
  split at h
  · rename_i b c' e
    have hb := of_decide_eq_true h
    subst hb
    split at hw
    · rename_i bytes ew
      obtain ⟨v', h1, h2⟩ := C58_near_partial serdeEnv_serde (fun _ _ => rfl) (fun _ => .refl _) (by decide) e
        (fun b hb => by cases hb) (fun j d hj hd => by
          cases hj
          cases hd with
          | array hx hd =>
            rw [List.mem_singleton] at hx
            subst hx
            cases hd
            have h1 : |f64Value 0x3FB999999999999A| ≤ 1 := by decide +kernel
            have h2 : (1 : ℚ) * 1 ≤ 17975 * 10 ^ 304 :=
              mul_le_mul (by norm_num) (one_le_pow₀ (by norm_num)) (by norm_num) (by norm_num)
            rw [one_mul] at h2
            exact h1.trans h2) ew (of_decide_eq_true hw)
      exact ⟨_, c', bytes, v', e, ew, h1, h2⟩
    · cases hw
  · cases h

/-- Floats in JSON that comes back stay below a slightly larger bound. -/
theorem near_bound {j j' : SJValue} (h : JsonNear j j') (hm : j.Made fun b => |f64Value b| ≤ 17974 * 10 ^ 304) :
    ∀ b, SJValue.Sub (.number (.float b)) j' → |f64Value b| ≤ 17975 * 10 ^ 304 := by
  induction h with
  | null => intro b hb; cases hb
  | bool => intro b hb; cases hb
  | posInt => intro b hb; cases hb
  | negInt => intro b hb; cases hb
  | @float b b' h =>
    intro b2 hb
    cases hb
    cases hm with
    | float _ hp =>
      have hT : (10 : ℚ) ≤ 10 ^ 304 := le_self_pow₀ (by norm_num) (by norm_num)
      have hS : (2 : ℚ) / 10 ^ 323 ≤ 2 := div_le_self (by norm_num) (one_le_pow₀ (by norm_num))
      have h3 := h.2.2
      generalize (10 : ℚ) ^ 304 = T at *
      generalize (2 : ℚ) / 10 ^ 323 = S at *
      have h4 := abs_add_le (f64Value b' - f64Value b) (f64Value b)
      rw [sub_add_cancel] at h4
      have h5 : |f64Value b| * 2 / 10 ^ 15 ≤ 17974 * T * 2 / 10 ^ 15 := by gcongr
      linarith
  | string => intro b hb; cases hb
  | @array a a' hl h ih =>
    intro b hb
    cases hb with
    | @array _ _ x hx hb =>
      obtain ⟨i, hi, rfl⟩ := List.getElem_of_mem hx
      have hz : (a[i], a'[i]) ∈ a.zip a' := by
        rw [List.mem_iff_getElem]
        exact ⟨i, by simp; omega, by simp⟩
      cases hm with
      | array hm => exact ih _ hz (hm _ (List.getElem_mem _)) b hb
  | @object m m' hk h ih =>
    intro b hb
    cases hb with
    | @object _ k _ x hx hb =>
      obtain ⟨i, hi, hxe⟩ := List.getElem_of_mem hx
      have hl : m.length = m'.length := by simpa using congrArg List.length hk
      have hz : (m[i], m'[i]) ∈ m.zip m' := by
        rw [List.mem_iff_getElem]
        exact ⟨i, by simp; omega, by simp⟩
      cases hm with
      | object _ hm =>
        refine ih _ hz (hm m[i].1 _ (List.getElem_mem _)) b ?_
        simp only [hxe]
        exact hb

/-- Parts of values with the same contents. -/
theorem sameAs_sub {v v' w' : Value} (h : SameAs v v') (hs : Sub w' v') : ∃ w, Sub w v ∧ SameAs w w' := by
  induction hs generalizing v with
  | refl _ => exact ⟨v, .refl _, h⟩
  | @array a' w' x' hx _ ih =>
    cases h with
    | @array a _ hl h =>
      obtain ⟨i, hi, rfl⟩ := List.getElem_of_mem hx
      obtain ⟨w, h1, h2⟩ := ih (h i a[i] a'[i] (by simp) (by simp [hi]))
      exact ⟨w, .array (List.getElem_mem _) h1, h2⟩
  | @map m' k w' x' hx _ ih =>
    cases h with
    | @map m _ hl hk h =>
      obtain ⟨x, hxm⟩ := (hk k).mpr ⟨x', hx⟩
      obtain ⟨w, h1, h2⟩ := ih (h k x x' hxm hx)
      exact ⟨w, .map hxm h1, h2⟩

theorem sameUpTo_sub {R : SJValue → SJValue → Prop} {v v' w' : Value} (h : SameUpTo R v v') (hs : Sub w' v') :
    ∃ w, Sub w v ∧ SameUpTo R w w' := by
  induction hs generalizing v with
  | refl _ => exact ⟨v, .refl _, h⟩
  | @array a' w' x' hx hw ih =>
    cases h with
    | same h =>
      obtain ⟨w, h1, h2⟩ := sameAs_sub h (.array hx hw)
      exact ⟨w, h1, .same h2⟩
    | @array a _ hl h =>
      obtain ⟨i, hi, rfl⟩ := List.getElem_of_mem hx
      obtain ⟨w, h1, h2⟩ := ih (h i a[i] a'[i] (by simp) (by simp [hi]))
      exact ⟨w, .array (List.getElem_mem _) h1, h2⟩
  | @map m' k w' x' hx hw ih =>
    cases h with
    | same h =>
      obtain ⟨w, h1, h2⟩ := sameAs_sub h (.map hx hw)
      exact ⟨w, h1, .same h2⟩

/-- The parts of a storable value are storable. -/
theorem StorableWith.sub {J : SJValue → Prop} {env : Env} {h : Option (Huffman Char)} {w v : Value} (hs : Sub w v)
    (hv : StorableWith J env h v) : StorableWith J env h w := by
  induction hs with
  | refl _ => exact hv
  | array hm _ ih =>
    cases hv with
    | array _ _ _ ha => exact ih (ha _ hm)
  | map => cases hv

theorem made_sub {P : UInt64 → Prop} {j : SJValue} (h : j.Made P) : ∀ b, SJValue.Sub (.number (.float b)) j → P b := by
  induction h with
  | null => intro b hb; cases hb
  | bool => intro b hb; cases hb
  | posInt => intro b hb; cases hb
  | negInt => intro b hb; cases hb
  | float _ hp => intro b hb; cases hb; exact hp
  | string => intro b hb; cases hb
  | array _ ih => intro b hb; cases hb with | array hm hb => exact ih _ hm b hb
  | object _ _ ih => intro b hb; cases hb with | object hm hb => exact ih _ _ hm b hb

/-- **C52** with serde_json, in part: when the client is told that a value was written, the daemon holds a value of
the same contents, up to the last digits of floats in its JSON, and every later `get_value` whose answer fits into
memory fetches that, again up to the last digits. This holds for all values in which no float in JSON is too close to
the largest one and JSON is nested at most 127 deep. Otherwise as `C52_write_read_partial`. -/
theorem C52_near_partial {env : Env} (hs : env.Serde) (hlz : env.lz.Lossless) (hb : HashOrder env.byteOrd)
    (hord : HashOrder env.mapOrd) (hcap : 1 ≤ env.arrayCapMax) (before : List Happening) (n k : List Char)
    (create overwrite : Bool) (v : Value) (hv : FaithfulWith (JsonUpTo (17974 * 10 ^ 304)) env none v)
    (hlen : ∀ bytes, Value.ser env none v = .ok bytes → bytes.length < 2 ^ 64) {c : CreationResult}
    (e : (Async.addEntryToDb env n create overwrite k v (Daemon.history env {} before)).1 = .ok c) (hc : c.Wrote)
    (since : List Happening) (hno : ∀ x ∈ since, ¬ x.Touches n k) :
    ∃ v', (((Async.addEntryToDb env n create overwrite k v (Daemon.history env {} before)).2.history env since).handle env
        (.getValue n k)).1 = .value v' ∧ SameUpTo JsonNear v v' ∧
      ∀ bytes, Value.ser env none v' = .ok bytes → bytes.length < 2 ^ 64 →
        ∃ w, ((Async.addEntryToDb env n create overwrite k v (Daemon.history env {} before)).2.history env since).Fetches
          env n k w ∧ SameUpTo JsonNear v' w := by
  obtain ⟨bytes, v', c', e1, e2, e3⟩ := write_stored hord before n k create overwrite v e hc since hno
  obtain ⟨h1, h2⟩ := C26_near_never_wrong_partial hs hlz hb
    (mul_le_mul_of_nonneg_right (by norm_num) (by positivity)) hv e1 (hlen _ e1)
  have hst := h1.mp ⟨v', c', e2⟩
  obtain ⟨hsame, _⟩ := h2 v' c' e2
  refine ⟨v', e3, hsame, fun b eb hbl => ?_⟩
  obtain ⟨w, h3, h4⟩ := C58_near_partial hs hlz hb hcap e2 (fun d hd => by
      obtain ⟨x, hx, hxs⟩ := sameUpTo_sub hsame hd
      have hx2 := StorableWith.sub hx hst
      cases hxs with
      | same hxs =>
        cases hxs
        cases hx2 with
        | binary hk => exact hk)
    (fun j d hj hd => by
      obtain ⟨x, hx, hxs⟩ := sameUpTo_sub hsame hj
      have hx2 := StorableWith.sub hx hst
      cases hxs with
      | same hxs =>
        cases hxs
        cases hx2 with
        | json _ hk => exact (made_sub hk.1 d hd).trans (mul_le_mul_of_nonneg_right (by norm_num) (by positivity))
      | json hxs =>
        cases hx2 with
        | json _ hk => exact near_bound hxs hk.1 d hd) eb hbl
  have h5 := h4 [] [] (by simpa using hbl)
  simp only [List.nil_append, List.append_nil] at h5
  exact ⟨w, ⟨v', b, _, e3, eb, h5⟩, h3⟩

/-- The same for the synchronous client. -/
theorem C52_near_sync_partial {env : Env} (hs : env.Serde) (hlz : env.lz.Lossless) (hb : HashOrder env.byteOrd)
    (hord : HashOrder env.mapOrd) (hcap : 1 ≤ env.arrayCapMax) (before : List Happening) (n k : List Char)
    (create overwrite : Bool) (v : Value) (hv : FaithfulWith (JsonUpTo (17974 * 10 ^ 304)) env none v)
    (hlen : ∀ bytes, Value.ser env none v = .ok bytes → bytes.length < 2 ^ 64) {c : CreationResult}
    (e : (Sync.addEntryToDb env n create overwrite k v (Daemon.history env {} before)).1 = .ok c) (hc : c.Wrote)
    (since : List Happening) (hno : ∀ x ∈ since, ¬ x.Touches n k) :
    ∃ v', (((Sync.addEntryToDb env n create overwrite k v (Daemon.history env {} before)).2.history env since).handle env
        (.getValue n k)).1 = .value v' ∧ SameUpTo JsonNear v v' ∧
      ∀ bytes, Value.ser env none v' = .ok bytes → bytes.length < 2 ^ 64 →
        ∃ w, ((Sync.addEntryToDb env n create overwrite k v (Daemon.history env {} before)).2.history env since).Fetches
          env n k w ∧ SameUpTo JsonNear v' w := by
  rw [← (C57_agree_partial env).2.2.2.2.1] at e ⊢
  exact C52_near_partial hs hlz hb hord hcap before n k create overwrite v hv hlen e hc since hno

-- A write, followed by a request for another key.
example : ∃ v', (((Async.addEntryToDb serdeEnv ['d'] true false ['k'] thirdValue {}).2.history serdeEnv
    [.request (.addKv ['d'] ['j'] true true [0x90])]).handle serdeEnv (.getValue ['d'] ['k'])).1 = .value v' ∧
    SameUpTo JsonNear thirdValue v' := by
  have h : (match (Async.addEntryToDb serdeEnv ['d'] true false ['k'] thirdValue {}).1 with
      | .ok .insertedKeyIntoNewDB => true | _ => false) = true := by decide +kernel
  split at h
  · rename_i e
    obtain ⟨v', h1, h2, _⟩ := C52_near_partial serdeEnv_serde (fun _ _ => rfl) (fun _ => .refl _) (fun _ => .refl _) (by decide) []
      ['d'] ['k'] true false thirdValue third_faithful third_length e trivial
      [.request (.addKv ['d'] ['j'] true true [0x90])] (by
        intro x hx
        rw [List.mem_singleton] at hx
        subst hx
        simp [Happening.Touches])
    exact ⟨v', h1, h2⟩
  · cases h

end Souris
