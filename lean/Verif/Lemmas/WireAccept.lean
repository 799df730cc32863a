import Verif.Lemmas.WireValue

/-! # Lemmas about the byte format: what is in the format is read -/

namespace Souris

namespace Wire

open Value

variable {env : Env} {co : Option (Node Char)}

theorem prim_any {h : Option (Huffman Char)} {t : ValueTy} {b : UInt8} (hb : b.toNat / 16 = t.toU8.toNat)
    {bs : List UInt8} {r : ParseResult} (hk : Reads (primBody env h b t) bs r) :
    Reads (parsePrimitive env h) (b :: bs) r := by
  rw [parsePrimitive_eq]
  refine Reads.bind' (b1 := [b]) (b2 := bs) rfl (Reads.next _ _) ?_
  refine Reads.bind' (b1 := []) (b2 := bs) rfl (x := t) ?_ hk
  rw [ty_iff.mpr hb]
  exact Reads.lift t

theorem wrapped_any {h : Option (Huffman Char)} {bytes : List UInt8} {s : List Char} {v : Value} {f : UInt8}
    {t : ValueTy} {r : ParseResult} {need : DState} (hf : f.toNat / 16 = t.toU8.toNat)
    (hp : ∀ b, primBody env h b t = pure r)
    (hstep : ∀ stack c c', parsePrimitive env h c = .ok (r, c') →
      step env h .valueNeeded stack c = .ok (.inr (.valueNeeded :: need :: stack), c'))
    (hafter : ∀ stack, afterValue env (.string s) (need :: stack) = .ok (.inr (.foundValue v :: stack)))
    (hs : Reads (parsePrimitive env h) bytes (.value (.string s))) :
    Parsed env h (f :: bytes) v := by
  intro pre tail stack hlen
  have h1 : Reads (parsePrimitive env h) [f] r := by
    refine prim_any hf ?_
    rw [hp]
    exact Reads.pure r
  have e1 := h1 pre (bytes ++ tail) (by simpa using hlen)
  have e2 := hstep stack _ _ e1
  refine .head (by simpa using e2) ?_
  have hl2 : (pre ++ [f] ++ bytes ++ tail).length < usizeMod := by simpa using hlen
  refine Steps.trans (parsed_value hs (pre ++ [f]) tail (need :: stack) hl2) ?_
  have e3 : step env h (.foundValue (.string s)) (need :: stack) (Cursor.At (pre ++ [f] ++ bytes) tail)
      = .ok (.inr (.foundValue v :: stack), Cursor.At (pre ++ [f] ++ bytes) tail) := by
    simp only [step, hafter stack, Parser.lift_ok]
  have := Steps.one e3
  simpa using this

theorem uint_any {k n : Nat} (h1 : 1 ≤ k) (h2 : k ≤ 16) {w : List UInt8} (h : NatWord k n w) : Reads (uintP k) w n :=
  nat_reads h1 h2 h ValueSerError.integer

/-- A string, wherever a value is needed. -/
theorem str_any (hco : ∀ root, co = some root → ∃ l r, root = .branch l r) {s : List Char} {w : List UInt8}
    (h : StrWord false co s w) (hw : w.length ≤ 2 ^ 21) :
    Reads (parsePrimitive env (coderOf co)) w (.value (.string s)) := by
  have hne : ∃ b w', w = b :: w' := by cases h <;> exact ⟨_, _, rfl⟩
  obtain ⟨b, w', rfl⟩ := hne
  obtain ⟨hb, hr⟩ := string_reads hco h (by simp at hw; omega)
  exact prim_any (t := .string) hb (ret_reads (fun s => ParseResult.value (.string s)) hr)

theorem timestamp_any {t : Timestamp} {f : UInt8} {ss : SignedState} {y : Int} {wy wmo wd wh wmi ws wn : List UInt8}
    (hf : Tag false 6 4 (signCode ss) f) (hy : IntWord 4 ss y wy) (hm : (y - t.year) % 2 ^ 32 = 0)
    (hmo : NatWord 4 t.month wmo) (hd : NatWord 4 t.day wd) (hh : NatWord 4 t.hour wh) (hmi : NatWord 4 t.minute wmi)
    (hse : NatWord 4 t.sec ws) (hn : NatWord 4 t.nano wn) (hv : t.Valid) (hl : t.LeapAt59) :
    Reads (timestampP f) (wy ++ (wmo ++ (wd ++ (wh ++ (wmi ++ (ws ++ wn)))))) t := by
  obtain ⟨i, hr, i1, i2, i3, i4⟩ := int_reads (by omega) (by omega) hy
  obtain ⟨⟨⟨hy1, hy2⟩, ⟨hm1, hm2⟩, ⟨hd1, hd2⟩⟩, hvh, hvmi, hvs, hvn⟩ := hv
  unfold timestampP
  refine Reads.bind' (b1 := []) rfl (x := ss) ?_ ?_
  · rw [sign_iff.mpr hf.2.1]; exact (Reads.lift _).mapErr _
  refine Reads.bind (hr.mapErr _) ?_
  refine Reads.bind' (b1 := []) rfl (x := t.year) ?_ ?_
  · rw [i3.toSigned_eq (by omega), if_neg (by omega), i2, wrap_eq hm (by omega) (by omega)]
    exact (Reads.lift _).mapErr _
  refine Reads.bind (uint_any (by omega) (by omega) hmo) ?_
  refine Reads.bind (uint_any (by omega) (by omega) hd) ?_
  have hdate : Timestamp.dateOk t.year t.month t.day = true :=
    dateOk_iff.mpr ⟨⟨hy1, hy2⟩, ⟨hm1, hm2⟩, hd1, hd2⟩
  rw [if_neg (by rw [hdate]; simp)]
  refine Reads.bind (uint_any (by omega) (by omega) hh) ?_
  refine Reads.bind (uint_any (by omega) (by omega) hmi) ?_
  refine Reads.bind (uint_any (by omega) (by omega) hse) ?_
  refine Reads.bind' (b2 := []) (by simp) (uint_any (by omega) (by omega) hn) ?_
  have htime : Timestamp.timeOk t.hour t.minute t.sec t.nano = true := by
    simp only [Timestamp.timeOk, decide_eq_true_eq]
    exact ⟨hvh, hvmi, hvs, hvn, hl⟩
  rw [if_neg (by rw [htime]; simp)]
  exact Reads.pure t

theorem pair_pos {s1 s2 : SignedState} {m : Nat} (h : SignPair s1 s2 m) : 0 < m := by
  cases h <;> decide

theorem flatten_part {α : Type} {parts : List (List α)} {p : List α} (h : p ∈ parts) : p.length ≤ parts.flatten.length := by
  induction parts with
  | nil => cases h
  | cons q parts ih =>
    rw [List.flatten_cons, List.length_append]
    rcases List.mem_cons.mp h with rfl | h
    · omega
    · have := ih h; omega

theorem flatten_long {α : Type} {parts : List (List α)} (h : ∀ p ∈ parts, p ≠ []) : parts.length ≤ parts.flatten.length := by
  induction parts with
  | nil => simp
  | cons q parts ih =>
    rw [List.flatten_cons, List.length_append, List.length_cons]
    have := ih fun p hp => h p (by simp [hp])
    have := List.length_pos_iff.mpr (h q (by simp))
    omega

theorem lenWord_ne {strict : Bool} {code n : Nat} {w : List UInt8} (h : LenWord strict code n w) : w ≠ [] := by
  cases h <;> simp

theorem word_ne {strict : Bool} {B : Nat → List UInt8 → List UInt8 → Prop} {v : Value} {w : List UInt8}
    (h : Word strict B env co v w) : w ≠ [] := by
  cases h with
  | string h => cases h <;> simp
  | map hh => simp [lenWord_ne hh]
  | array hh => simp [lenWord_ne hh]
  | _ => simp

/-- The elements of an array. -/
theorem elements_any {h : Option (Huffman Char)} (a : List Value) (parts : List (List UInt8))
    (ih : List.Forall₂ (fun v p => ∃ v', SameAs v v' ∧ Parsed env h p v') a parts) :
    ∃ a', List.Forall₂ SameAs a a' ∧
      ∀ (pre tail : List UInt8) (stack : List DState) (soFar : List Value) (n : Nat), a ≠ [] →
        max n 1 = a.length → (pre ++ parts.flatten ++ tail).length < usizeMod →
        Steps env h (.array soFar n :: stack) (Cursor.At pre (parts.flatten ++ tail))
          (.foundValue (.array (soFar ++ a')) :: stack) (Cursor.At (pre ++ parts.flatten) tail) := by
  induction ih with
  | nil => exact ⟨[], .nil, fun _ _ _ _ _ hne => absurd rfl hne⟩
  | @cons v p a parts h1 hrest iha =>
    obtain ⟨v', s1, p1⟩ := h1
    obtain ⟨a', s2, p2⟩ := iha
    refine ⟨v' :: a', .cons s1 s2, ?_⟩
    intro pre tail stack soFar n _ hn hlen
    rw [List.flatten_cons] at hlen ⊢
    refine .head (s1 := .valueNeeded :: .array soFar n :: stack)
      (c1 := Cursor.At pre (p ++ parts.flatten ++ tail)) rfl ?_
    have hl1 : (pre ++ p ++ (parts.flatten ++ tail)).length < usizeMod := by simpa using hlen
    have q1 := p1 pre (parts.flatten ++ tail) (.array soFar n :: stack) hl1
    rw [List.append_assoc p]
    refine q1.trans ?_
    cases hrest with
    | nil =>
      cases s2
      simp only [List.length_cons, List.length_nil] at hn
      refine .head (s1 := .foundValue (.array (soFar ++ [v'])) :: stack) (c1 := Cursor.At (pre ++ p) tail) ?_ ?_
      · simp only [step, afterValue]
        rw [if_pos (by omega)]; rfl
      · have := Steps.refl (env := env) (h := h) (.foundValue (.array (soFar ++ [v'])) :: stack)
          (Cursor.At (pre ++ p) tail)
        simpa using this
    | @cons w q a parts hw hr =>
      simp only [List.length_cons] at hn
      have hn2 : n = a.length + 2 := by omega
      refine .head (s1 := .array (soFar ++ [v']) (n - 1) :: stack)
        (c1 := Cursor.At (pre ++ p) ((q :: parts).flatten ++ tail)) ?_ ?_
      · simp only [step, afterValue]
        rw [if_neg (by omega)]; rfl
      · have hl2 : (pre ++ p ++ (q :: parts).flatten ++ tail).length < usizeMod := by simpa using hlen
        have q2 := p2 (pre ++ p) tail stack (soFar ++ [v']) (n - 1) (by simp) (by simp; omega) hl2
        simpa using q2

theorem forall2_of_get {α β : Type} {R : α → β → Prop} : ∀ {l : List α} {m : List β}, m.length = l.length →
    (∀ (i : Nat) (a : α) (b : β), l[i]? = some a → m[i]? = some b → R a b) → List.Forall₂ R l m
  | [], [], _, _ => .nil
  | [], _ :: _, h, _ => by simp at h
  | _ :: _, [], h, _ => by simp at h
  | a :: l, b :: m, h, hr => .cons (hr 0 a b rfl rfl)
      (forall2_of_get (by simpa using h) fun i x y hx hy => hr (i + 1) x y (by simpa using hx) (by simpa using hy))

/-- Every word of a value without maps and empty arrays is read as that value. -/
theorem word_parsed (hco : ∀ root, co = some root → ∃ l r, root = .branch l r) (hcap : 2 ^ 21 ≤ env.arrayCapMax)
    {v : Value} {w : List UInt8} (h : Lax env co v w) : w.length ≤ 2 ^ 21 → ¬ HasMap v → ¬ HasEmptyArray v →
    ∃ v', SameAs v v' ∧ Parsed env (coderOf co) w v' := by
  induction h with
  | @character c f w hf h =>
    intro _ _ _
    refine ⟨_, .character c, parsed_value (prim_any (t := .character) hf.1 ?_)⟩
    refine Reads.bind' (b2 := []) (by simp) (uint_any (by omega) (by omega) h) ?_
    refine Reads.bind' (b1 := []) rfl (x := c) ?_ (Reads.pure _)
    rw [charOf_toNat]; exact Reads.lift c
  | @string s w h => exact fun hw _ _ => ⟨_, .string s, parsed_value (str_any hco h hw)⟩
  | @binary b f ct w hf h =>
    intro hw _ _
    obtain ⟨c, hc, hr⟩ := binary_reads h (by simp at hw; omega)
    refine ⟨_, .binary b, parsed_value (prim_any (t := .binary) hf.1 ?_)⟩
    refine Reads.bind' (b1 := []) rfl (x := c) ?_ ?_
    · rw [comp_iff.mpr (by rw [hc]; exact hf.2.1)]; exact (Reads.lift c).mapErr _
    · exact ret_reads (fun b => ParseResult.value (.binary b)) (hr.mapErr _)
  | @boolean b f hf =>
    intro _ _ _
    refine ⟨_, .boolean b, parsed_value (prim_any (t := .boolean) hf.1 ?_)⟩
    have : decide (f &&& 1 > 0) = b := by
      have h2 := hf.2.1
      cases b
      · exact decide_eq_false (by rw [low_one]; simp at h2; omega)
      · exact decide_eq_true (by rw [low_one]; simpa using h2)
    show Reads (pure (ParseResult.value (.boolean (decide (f &&& 1 > 0)))) : Parser ValueSerError ParseResult) [] _
    rw [this]
    exact Reads.pure _
  | @integer i f w hf h =>
    intro _ _ _
    obtain ⟨j, hr, j1, j2, -, -⟩ := int_reads (by omega) (by omega) h
    refine ⟨.integer j, .integer ⟨j1.symm, j2.symm⟩, parsed_value (prim_any (t := .integer) hf.1 ?_)⟩
    refine Reads.bind' (b1 := []) rfl (x := i.signedState) ?_ ?_
    · rw [sign_iff.mpr hf.2.1]; exact (Reads.lift _).mapErr _
    · exact ret_reads (fun i => ParseResult.value (.integer i)) (hr.mapErr _)
  | @cartesian a b m f wa wb hf hm ha hb =>
    intro _ _ _
    obtain ⟨a', ra, a1, a2, -, -⟩ := int_reads (by omega) (by omega) ha
    obtain ⟨b', rb, b1, b2, -, -⟩ := int_reads (by omega) (by omega) hb
    refine ⟨.imaginary (.cartesian a' b'), .imaginary (.cartesian ⟨a1.symm, a2.symm⟩ ⟨b1.symm, b2.symm⟩),
      parsed_value (prim_any (t := .imaginary) hf.1 ?_)⟩
    refine ret_reads (fun z => ParseResult.value (.imaginary z)) (Reads.mapErr _ ?_)
    have hl : (f &&& 0b1111).toNat = m := by
      rw [low_half, UInt8.toNat_ofNat', Nat.mod_eq_of_lt (by omega)]; exact hf.2.1
    unfold Imaginary.deser
    have hpos : (f &&& 0b1111) > 0 := by
      rw [gt_iff_lt, UInt8.lt_iff_toNat_lt, hl]
      exact pair_pos hm
    rw [if_pos hpos]
    refine Reads.bind' (b1 := []) rfl (x := (a.signedState, b.signedState)) ?_ ?_
    · rw [magic_iff.mpr (by rw [hl]; exact hm)]; exact Reads.lift _
    · refine Reads.bind ra ?_
      exact Reads.bind' (b2 := []) (by simp) rb (Reads.pure _)
  | @polar m a f wm wa hf hm ha =>
    intro _ _ _
    refine ⟨_, .imaginary (.polar m a), parsed_value (prim_any (t := .imaginary) hf.1 ?_)⟩
    refine ret_reads (fun z => ParseResult.value (.imaginary z)) (Reads.mapErr _ ?_)
    unfold Imaginary.deser
    have hz : ¬ (f &&& 0b1111) > 0 := by
      rw [gt_iff_lt, UInt8.lt_iff_toNat_lt, low_half, UInt8.toNat_ofNat', Nat.mod_eq_of_lt (by omega), hf.2.1]
      decide
    rw [if_neg hz]
    refine Reads.bind (readF64_reads hm) ?_
    exact Reads.bind' (b2 := []) (by simp) (readF64_reads ha) (Reads.pure _)
  | @timestamp t f ss y wy wmo wd wh wmi ws wn hf hy hm hs hmo hd hh hmi hse hn hv =>
    intro _ _ _
    exact ⟨_, .timestamp t, parsed_value (prim_any (t := .timestamp) hf.1
      (ret_reads (fun t => ParseResult.value (.timestamp t))
        (timestamp_any hf hy hm hmo hd hh hmi hse hn (hv rfl).1 (hv rfl).2)))⟩
  | @json j s f w hf hj h =>
    intro hw _ _
    refine ⟨_, .json j, wrapped_any (t := .json) (r := .json) (need := .jsonNeeded) hf.1 (fun _ => rfl) ?_ ?_
      (str_any hco h (by simp at hw; omega))⟩
    · intro stack c c' e
      simp only [step]
      rw [Parser.bind_apply, e]
      rfl
    · intro stack
      simp only [Bool.false_eq_true, if_false] at hj
      simp only [afterValue, hj]
  | map => exact fun _ hm _ => absurd (.map _) hm
  | null hf => exact fun _ _ _ => ⟨_, .null, parsed_value (prim_any (t := .null) hf.1 (Reads.pure _))⟩
  | @double x f w hf h =>
    intro _ _ _
    refine ⟨_, .double x, parsed_value (prim_any (t := .doubleFloat) hf.1 ?_)⟩
    have := ret_reads (fun bs => ParseResult.value (.double (UInt64.ofNat (ofLe bs))))
      (Reads.read ValueSerError.notEnoughBytes (n := 8) (bs := w) h.1)
    rw [fixed_eq h, UInt64.ofNat_toNat] at this
    exact this
  | @array a n head parts hh hn hl _ ih =>
    intro hw hm he
    have hne : a ≠ [] := fun h => he (h ▸ .nil)
    rw [List.length_append] at hw
    have hforall := forall2_of_get hl fun i v p hv hp => ih i v p hv hp
      (by have := flatten_part (List.mem_of_getElem? hp); omega)
      (fun h => hm (.array (List.mem_of_getElem? hv) h)) (fun h => he (.array (List.mem_of_getElem? hv) h))
    obtain ⟨a', hs, hp⟩ := elements_any a parts hforall
    obtain ⟨b, w', rfl, hb, hr⟩ := len_reads (t := .array) hh
    have hpos : 1 ≤ a.length := List.length_pos_iff.mpr hne
    have hlen : a.length ≤ parts.flatten.length := by
      rw [← hl]
      refine flatten_long fun p hp => ?_
      obtain ⟨i, hi⟩ := List.getElem?_of_mem hp
      have hi' : i < a.length := by rw [← hl]; exact (List.getElem?_eq_some_iff.mp hi).1
      rename_i h _
      exact word_ne (h i _ p (List.getElem?_eq_getElem hi') hi)
    refine ⟨.array a', sameAs_array hs, ?_⟩
    intro pre tail stack hlt
    have hrd : Reads (parsePrimitive env (coderOf co)) (b :: w') (.newArray n) :=
      prim_any (t := .array) hb (ret_reads (fun len => ParseResult.newArray len) hr)
    have hl1 : (pre ++ (b :: w') ++ (parts.flatten ++ tail)).length < usizeMod := by simpa using hlt
    have e1 := hrd pre (parts.flatten ++ tail) hl1
    rw [List.append_assoc]
    refine .head (s1 := .array [] n :: stack) (c1 := Cursor.At (pre ++ (b :: w')) (parts.flatten ++ tail)) ?_ ?_
    · simp only [step]
      rw [Parser.bind_apply, e1]
      simp only [Out.ok_bind]
      rw [if_pos (by omega)]
      rfl
    · have hl2 : (pre ++ (b :: w') ++ parts.flatten ++ tail).length < usizeMod := by simpa using hlt
      have := hp (pre ++ (b :: w')) tail stack [] n hne (by omega) hl2
      simpa using this
  | @timezone n f w hf hn h =>
    intro hw _ _
    refine ⟨_, .timezone n, wrapped_any (t := .timezone) (r := .timezone) (need := .timezoneNeeded) hf.1 (fun _ => rfl)
      ?_ ?_ (str_any hco h (by simp at hw; omega))⟩
    · intro stack c c' e
      simp only [step]
      rw [Parser.bind_apply, e]
      rfl
    · intro stack; simp only [afterValue, if_pos (hn rfl)]
  | @ipv4 a b c d f hf =>
    intro _ _ _
    refine ⟨_, .ipv4 a b c d, parsed_value (prim_any (t := .ipv4Addr) hf.1 ?_)⟩
    exact ret_reads (fun bs : List UInt8 => ParseResult.value (.ipv4 (bs.getD 0 0) (bs.getD 1 0) (bs.getD 2 0)
      (bs.getD 3 0))) (Reads.read ValueSerError.notEnoughBytes (n := 4) (bs := [a, b, c, d]) rfl)
  | @ipv6 a b c d e g h i f wa wb wc wd we wg wh wi hf ha hb hc hd he hg hh hi =>
    intro _ _ _
    refine ⟨_, .ipv6 a b c d e g h i, parsed_value (prim_any (t := .ipv6Addr) hf.1 ?_)⟩
    have two : ∀ {x : UInt16} {w : List UInt8}, FixedWord 2 x.toNat w → ∃ lo hi, w = [lo, hi] ∧ UInt16.ofNat (ofLe [lo, hi]) = x := by
      intro x w hw
      match w, hw with
      | [lo, hi], hw => exact ⟨lo, hi, rfl, by rw [fixed_eq hw, UInt16.ofNat_toNat]⟩
    obtain ⟨a1, a2, rfl, qa⟩ := two ha
    obtain ⟨b1, b2, rfl, qb⟩ := two hb
    obtain ⟨c1, c2, rfl, qc⟩ := two hc
    obtain ⟨d1, d2, rfl, qd⟩ := two hd
    obtain ⟨e1, e2, rfl, qe⟩ := two he
    obtain ⟨g1, g2, rfl, qg⟩ := two hg
    obtain ⟨h1, h2, rfl, qh⟩ := two hh
    obtain ⟨i1, i2, rfl, qi⟩ := two hi
    have := ret_reads (fun bs : List UInt8 => ParseResult.value (.ipv6 (at16 bs 0) (at16 bs 1) (at16 bs 2)
      (at16 bs 3) (at16 bs 4) (at16 bs 5) (at16 bs 6) (at16 bs 7)))
      (Reads.read ValueSerError.notEnoughBytes (n := 16)
        (bs := [a1, a2, b1, b2, c1, c2, d1, d2, e1, e2, g1, g2, h1, h2, i1, i2]) rfl)
    rw [← qa, ← qb, ← qc, ← qd, ← qe, ← qg, ← qh, ← qi]
    exact this
  | @single x f w hf h =>
    intro _ _ _
    refine ⟨_, .single x, parsed_value (prim_any (t := .singleFloat) hf.1 ?_)⟩
    have := ret_reads (fun bs => ParseResult.value (.single (UInt32.ofNat (ofLe bs))))
      (Reads.read ValueSerError.notEnoughBytes (n := 4) (bs := w) h.1)
    rw [fixed_eq h, UInt32.ofNat_toNat] at this
    exact this

end Wire

end Souris
