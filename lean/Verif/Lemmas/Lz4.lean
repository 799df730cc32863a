import Verif.Spec.Lz4
import Mathlib.Data.List.Basic

/-! # LZ4: lemmas -/

namespace Souris

namespace Lz4

/-! ## Lengths -/

theorem readInteger_replicate (k : Nat) (r : UInt8) (h : r ≠ 255) (rest : List UInt8) :
    readInteger (List.replicate k 255 ++ ([r] ++ rest)) = some (255 * k + r.toNat, rest) := by
  induction k with
  | zero => simp [readInteger, h]
  | succ k ih =>
    rw [List.replicate_succ, List.cons_append, readInteger, if_pos rfl, ih]
    simp only [Option.some.injEq, Prod.mk.injEq, and_true]
    omega

theorem readInteger_some {bytes rest : List UInt8} {n : Nat} (h : readInteger bytes = some (n, rest)) :
    ∃ k r, r ≠ 255 ∧ n = 255 * k + r.toNat ∧ bytes = List.replicate k 255 ++ ([r] ++ rest) := by
  induction bytes generalizing n with
  | nil => simp [readInteger] at h
  | cons b bs ih =>
    rw [readInteger] at h
    split at h
    · rename_i hb
      split at h
      · cases h
      · rename_i m rest' e
        simp only [Option.some.injEq, Prod.mk.injEq] at h
        obtain ⟨rfl, rfl⟩ := h
        obtain ⟨k, r, h1, h2, h3⟩ := ih e
        refine ⟨k + 1, r, h1, by omega, ?_⟩
        rw [List.replicate_succ, hb, h3]
        simp
    · rename_i hb
      simp only [Option.some.injEq, Prod.mk.injEq] at h
      obtain ⟨rfl, rfl⟩ := h
      exact ⟨0, b, hb, by omega, by simp⟩

theorem readLength_field {n nib : Nat} {ext : List UInt8} (h : LengthField n nib ext) (rest : List UInt8) :
    readLength nib (ext ++ rest) = some (n, rest) := by
  unfold readLength
  cases h with
  | short h => rw [if_neg (by omega)]; simp
  | long k r h =>
    rw [if_pos rfl, List.append_assoc, readInteger_replicate k r h]
    simp only [Option.some.injEq, Prod.mk.injEq, and_true]
    omega

theorem readLength_some {n nib : Nat} {bytes rest : List UInt8} (hn : nib < 16)
    (h : readLength nib bytes = some (n, rest)) : ∃ ext, LengthField n nib ext ∧ bytes = ext ++ rest := by
  unfold readLength at h
  split at h
  · rename_i h15
    subst h15
    split at h
    · cases h
    · rename_i m rest' e
      simp only [Option.some.injEq, Prod.mk.injEq] at h
      obtain ⟨rfl, rfl⟩ := h
      obtain ⟨k, r, h1, rfl, rfl⟩ := readInteger_some e
      refine ⟨List.replicate k 255 ++ [r], ?_, by simp⟩
      rw [← Nat.add_assoc]
      exact .long k r h1
  · simp only [Option.some.injEq, Prod.mk.injEq] at h
    obtain ⟨rfl, rfl⟩ := h
    exact ⟨[], .short (by omega), rfl⟩

theorem extended_field (n : Nat) : LengthField n (min n 15) (extended n) := by
  unfold extended
  split
  · have hr : (UInt8.ofNat ((n - 15) % 255)).toNat = (n - 15) % 255 := by
      rw [UInt8.toNat_ofNat']; omega
    have h255 : UInt8.ofNat ((n - 15) % 255) ≠ 255 := by
      intro e
      have := congrArg UInt8.toNat e
      rw [hr] at this
      have h2 : (255 : UInt8).toNat = 255 := rfl
      omega
    have := LengthField.long ((n - 15) / 255) _ h255
    rw [hr] at this
    have e : 15 + 255 * ((n - 15) / 255) + (n - 15) % 255 = n := by omega
    rw [e] at this
    rw [Nat.min_eq_right (by omega)]
    exact this
  · rw [Nat.min_eq_left (by omega)]
    exact .short (by omega)

theorem token_halves (lits dup : Nat) :
    (token lits dup).toNat / 16 = min lits 15 ∧ (token lits dup).toNat % 16 = min dup 15 := by
  have : (token lits dup).toNat = min lits 15 * 16 + min dup 15 := by
    unfold token
    rw [UInt8.toNat_ofNat']
    omega
  rw [this]
  omega

/-! ## Copies -/

theorem duplicate_length (stale : Nat → UInt8) (offset n : Nat) (out : List UInt8) :
    (duplicate stale offset n out).length = out.length + n := by
  induction n generalizing out with
  | zero => rfl
  | succ n ih => rw [duplicate, ih]; simp; omega

theorem duplicate_prefix (stale : Nat → UInt8) (offset n : Nat) (out : List UInt8) :
    out <+: duplicate stale offset n out := by
  induction n generalizing out with
  | zero => exact List.prefix_rfl
  | succ n ih => exact (List.prefix_append _ _).trans (ih _)

theorem prefix_getElem? {a b : List UInt8} (h : a <+: b) {i : Nat} (hi : i < a.length) : b[i]? = a[i]? := by
  obtain ⟨t, rfl⟩ := h
  rw [List.getElem?_append_left hi]

theorem duplicate_repeats (stale : Nat → UInt8) {offset : Nat} {out : List UInt8} (h0 : 0 < offset)
    (h1 : offset ≤ out.length) (n : Nat) : Repeats out offset n (duplicate stale offset n out) := by
  refine ⟨h0, h1, duplicate_prefix .., duplicate_length .., ?_⟩
  induction n generalizing out with
  | zero => intro i hi hi'; rw [duplicate] at hi'; omega
  | succ n ih =>
    intro i hi hi'
    rw [duplicate] at hi' ⊢
    rw [if_neg (by omega)] at hi' ⊢
    set out' := out ++ [out.getD (out.length - offset) 0] with hout
    have hl : out'.length = out.length + 1 := by simp [hout]
    by_cases hii : out.length = i
    · subst hii
      have hp := duplicate_prefix stale offset n out'
      rw [prefix_getElem? hp (by omega), prefix_getElem? hp (by omega)]
      rw [hout, List.getElem?_append_right (Nat.le_refl _), List.getElem?_append_left (by omega)]
      simp only [Nat.sub_self, List.getElem?_cons_zero]
      rw [List.getD_eq_getElem?_getD, List.getElem?_eq_getElem (by omega)]
      rfl
    · exact ih (by omega) i (by omega) hi'

theorem repeats_unique {before a b : List UInt8} {offset n : Nat} (ha : Repeats before offset n a)
    (hb : Repeats before offset n b) : a = b := by
  obtain ⟨h0, h1, hap, hal, hai⟩ := ha
  obtain ⟨_, _, hbp, hbl, hbi⟩ := hb
  apply List.ext_getElem?
  intro i
  induction i using Nat.strongRecOn with
  | ind i ih =>
    by_cases hi : i < before.length
    · rw [prefix_getElem? hap hi, prefix_getElem? hbp hi]
    · by_cases hi' : i < a.length
      · rw [hai i (by omega) hi', hbi i (by omega) (by omega)]
        exact ih _ (by omega)
      · rw [List.getElem?_eq_none (by omega), List.getElem?_eq_none (by omega)]

/-! ## Reading is right for the format -/

theorem Lz4Block.length_le {strict ends : Bool} {before bytes out : List UInt8} (h : Lz4Block strict ends before bytes out) :
    before.length ≤ out.length := by
  induction h with
  | last _ => simp
  | copy _ _ hc _ _ ih =>
    rcases hc with hc | hc
    · have := hc.2.2.2.1; simp at this; omega
    · have := hc.2.2.2.2; simp at this; omega

theorem Lz4Block.ne_nil {strict ends : Bool} {before bytes out : List UInt8} (h : Lz4Block strict ends before bytes out) :
    bytes ≠ [] := by cases h <;> simp

/-- Every block is read as what it says. -/
theorem decode_block (stale : Nat → UInt8) {capacity fuel : Nat} {before bytes out : List UInt8}
    {ends : Bool} (h : Lz4Block true ends before bytes out) (hc : out.length ≤ capacity) (hf : bytes.length ≤ fuel) :
    decode stale capacity fuel bytes before = some out := by
  induction h generalizing fuel with
  | @last before lits ext tok h =>
    cases fuel with
    | zero => simp at hf
    | succ fuel =>
      rw [decode, readLength_field h]
      simp only [List.length_append] at hc
      dsimp only
      rw [if_neg (by omega)]
      simp
  | @copy before lits ext ext' rest mid out tok lo hi n h h' hrep he hr ih =>
    cases fuel with
    | zero => simp at hf
    | succ fuel =>
      have hmid := Lz4Block.length_le hr
      have hrep : Repeats (before ++ lits) (lo.toNat + 256 * hi.toNat) (n + 4) mid := by
        rcases hrep with hrep | hrep
        · exact hrep
        · exact absurd hrep.1 (by decide)
      have hlen := hrep.2.2.2.1
      simp only [List.length_append] at hlen
      rw [decode, readLength_field h]
      dsimp only
      rw [if_neg (by simp only [List.length_append]; omega)]
      rw [List.drop_left' rfl, List.take_left' rfl]
      dsimp only
      rw [readLength_field h']
      dsimp only
      have ho := hrep.2.1
      rw [if_neg (by simp only [List.length_append] at ho ⊢; omega)]
      rw [repeats_unique (duplicate_repeats stale hrep.1 hrep.2.1 (n + 4)) hrep]
      exact ih hc (by simp only [List.length_cons, List.length_append] at hf; omega)

/-- Nothing but a block is read, and what is read is what it says and fits. -/
theorem decode_some (stale : Nat → UInt8) {capacity fuel : Nat} {before bytes out : List UInt8}
    (hb : before.length ≤ capacity) (h : decode stale capacity fuel bytes before = some out) :
    Lz4Block false false before bytes out ∧ out.length ≤ capacity := by
  induction fuel generalizing before bytes with
  | zero => simp [decode] at h
  | succ fuel ih =>
    cases bytes with
    | nil => simp [decode] at h
    | cons tok rest =>
      rw [decode] at h
      have htok : tok.toNat < 256 := tok.toNat_lt
      split at h
      · cases h
      · rename_i lits rest1 e1
        obtain ⟨ext, hf1, rfl⟩ := readLength_some (by omega) e1
        split at h
        · cases h
        · rename_i hbound
          have htl : (rest1.take lits).length = lits := by rw [List.length_take]; omega
          dsimp only at h
          split at h
          · rename_i hd
            simp only [Option.some.injEq] at h
            subst h
            have hrest : rest1 = rest1.take lits := by
              have := List.take_append_drop lits rest1
              rw [hd, List.append_nil] at this
              exact this.symm
            refine ⟨?_, by rw [List.length_append, htl]; omega⟩
            rw [← htl] at hf1
            have := Lz4Block.last (strict := false) (ends := false) (before := before) hf1
            rw [← hrest] at this ⊢
            exact this
          · cases h
          · rename_i lo hi rest2 hd
            have hrest : rest1 = rest1.take lits ++ (lo :: hi :: rest2) := by
              rw [← hd, List.take_append_drop]
            split at h
            · cases h
            · rename_i dup rest3 e2
              obtain ⟨ext', hf2, rfl⟩ := readLength_some (by omega) e2
              split at h
              · cases h
              · rename_i hbound2
                have hdl := duplicate_length stale (lo.toNat + 256 * hi.toNat) (dup + 4) (before ++ rest1.take lits)
                obtain ⟨hblk, hcap⟩ := ih (by omega) h
                refine ⟨?_, hcap⟩
                rw [hrest]
                rw [← htl] at hf1
                refine .copy hf1 hf2 ?_ (fun e => by cases e) hblk
                by_cases h0 : lo.toNat + 256 * hi.toNat = 0
                · right
                  refine ⟨rfl, ?_, ?_, duplicate_prefix .., hdl⟩
                  · apply UInt8.toNat_inj.mp; show lo.toNat = 0; omega
                  · apply UInt8.toNat_inj.mp; show hi.toNat = 0; omega
                · left
                  exact duplicate_repeats stale (by omega) (by omega) _

/-! ## Writing -/

theorem search_some {z : Lz4} {input : List UInt8} {cur nonMatch found candidate : Nat}
    (h : search z input cur nonMatch = some (found, candidate)) :
    cur ≤ found ∧ found ≤ input.length - 12 ∧ candidate = z.candidate input found ∧ found - candidate ≤ 65535 ∧
      batch input candidate = batch input found := by
  induction cur, nonMatch using search.induct z input with
  | case1 cur nonMatch hc => rw [search, if_pos hc] at h; cases h
  | case2 cur nonMatch hc cand hm =>
    rw [search, if_neg hc, if_pos hm] at h
    simp only [Option.some.injEq, Prod.mk.injEq] at h
    obtain ⟨rfl, rfl⟩ := h
    exact ⟨Nat.le_refl _, by omega, rfl, hm.1, hm.2⟩
  | case3 cur nonMatch hc cand hm ih =>
    rw [search, if_neg hc, if_neg hm] at h
    obtain ⟨h1, h2⟩ := ih h
    exact ⟨by omega, h2⟩

theorem batch_getElem? {input : List UInt8} {i j : Nat} (h : batch input i = batch input j) {k : Nat} (hk : k < 4) :
    input[i + k]? = input[j + k]? := by
  have := congrArg (fun l => l[k]?) h
  simp only [batch, List.getElem?_take, hk, if_true, List.getElem?_drop] at this
  exact this

/-- Going back from a match: as far as the literals begin, the same distance, and all bytes passed are the same. -/
theorem backtrack_spec {input : List UInt8} {literalStart cur candidate : Nat} (hl : literalStart ≤ cur)
    (hc : candidate < cur) :
    let r := backtrack input literalStart cur candidate
    literalStart ≤ r.1 ∧ r.1 ≤ cur ∧ r.2 < r.1 ∧ r.1 - r.2 = cur - candidate ∧
      ∀ i, r.1 ≤ i → i < cur → input[i]? = input[i - (cur - candidate)]? := by
  induction cur generalizing candidate with
  | zero => omega
  | succ cur ih =>
    cases candidate with
    | zero => exact ⟨hl, Nat.le_refl _, hc, rfl, fun i h1 h2 => absurd h2 (by simp only [backtrack] at h1; omega)⟩
    | succ candidate =>
      rw [backtrack]
      split
      · rename_i hif
        obtain ⟨h1, h2, h3, h4, h5⟩ := ih (candidate := candidate) (by omega) (by omega)
        refine ⟨h1, by omega, h3, by omega, fun i hi hi' => ?_⟩
        have he : cur + 1 - (candidate + 1) = cur - candidate := by omega
        rw [he]
        by_cases hic : i = cur
        · subst hic
          rw [hif.2]
          congr 1
          omega
        · exact h5 i hi (by omega)
      · exact ⟨hl, Nat.le_refl _, hc, rfl, fun i h1 h2 => absurd h2 (by dsimp only at h1; omega)⟩

theorem same_spec (input : List UInt8) (cur candidate : Nat) :
    cur + same input cur candidate ≤ max cur (input.length - 6) ∧
      ∀ i < same input cur candidate, input[cur + i]? = input[candidate + i]? := by
  induction cur, candidate using same.induct input with
  | case1 cur candidate h ih =>
    rw [same, if_pos h]
    refine ⟨by omega, fun i hi => ?_⟩
    cases i with
    | zero => exact h.2
    | succ i =>
      have := ih.2 i (by omega)
      rw [show cur + (i + 1) = cur + 1 + i by omega, show candidate + (i + 1) = candidate + 1 + i by omega]
      exact this
  | case2 cur candidate h =>
    rw [same, if_neg h]
    exact ⟨by omega, fun i hi => absurd hi (by omega)⟩

theorem lastLiterals_block (strict ends : Bool) (before lits : List UInt8) :
    Lz4Block strict ends before (lastLiterals lits) (before ++ lits) := by
  unfold lastLiterals
  refine .last ?_
  rw [(token_halves _ _).1]
  exact extended_field _

theorem offset_bytes {offset : Nat} (h : offset ≤ 65535) :
    (UInt8.ofNat (offset % 256)).toNat + 256 * (UInt8.ofNat (offset / 256 % 256)).toNat = offset := by
  rw [UInt8.toNat_ofNat', UInt8.toNat_ofNat']
  omega

/-- What is known of a match. -/
theorem match_spec {z : Lz4} (hz : z.Earlier) {input : List UInt8} {literalStart cur found candidate : Nat}
    (h0 : 0 < cur) (hl : literalStart ≤ cur) {nonMatch : Nat}
    (e : search z input cur nonMatch = some (found, candidate)) {c' k' dup : Nat}
    (hb : backtrack input literalStart found candidate = (c', k')) (hd : same input (c' + 4) (k' + 4) = dup) :
    literalStart ≤ c' ∧ (c' + 4 + dup + 6 ≤ input.length ∧ c' + 12 ≤ input.length) ∧ found - candidate ≤ 65535 ∧
      Repeats (input.take c') (found - candidate) (dup + 4) (input.take (c' + 4 + dup)) := by
  obtain ⟨h1, h2, h3, h4, h5⟩ := search_some e
  have hlt : candidate < found := h3 ▸ hz input found (by omega)
  obtain ⟨b1, b2, b3, b4, b5⟩ := backtrack_spec (input := input) (literalStart := literalStart) (by omega) hlt
  rw [hb] at b1 b2 b3 b4 b5
  dsimp only at b1 b2 b3 b4 b5
  obtain ⟨s1, s2⟩ := same_spec input (c' + 4) (k' + 4)
  rw [hd] at s1 s2
  have hend : c' + 4 + dup + 6 ≤ input.length := by omega
  refine ⟨b1, ⟨hend, by omega⟩, h4, by omega, ?_, ?_, ?_, ?_⟩
  · rw [List.length_take]; omega
  · exact List.take_prefix_take_left (by omega)
  · rw [List.length_take, List.length_take]; omega
  · intro i hi hi'
    rw [List.length_take] at hi hi'
    rw [List.getElem?_take, List.getElem?_take, if_pos (by omega), if_pos (by omega)]
    by_cases i1 : i < found
    · exact b5 i (by omega) i1
    · by_cases i2 : i < found + 4
      · have := batch_getElem? h5 (k := i - found) (by omega)
        rw [show found + (i - found) = i by omega] at this
        rw [← this]
        congr 1
        omega
      · have := s2 (i - (c' + 4)) (by omega)
        rw [show c' + 4 + (i - (c' + 4)) = i by omega] at this
        rw [this]
        congr 1
        omega

/-- What the compressor writes is a block that says the input. -/
theorem sequences_block {z : Lz4} (hz : z.Earlier) (input : List UInt8) (fuel literalStart cur : Nat)
    (h0 : 0 < cur) (hl : literalStart ≤ cur) :
    Lz4Block true true (input.take literalStart) (sequences z input fuel literalStart cur) input := by
  have hlast : ∀ n, Lz4Block true true (input.take n) (lastLiterals (input.drop n)) input := by
    intro n
    have := lastLiterals_block true true (input.take n) (input.drop n)
    rwa [List.take_append_drop] at this
  induction fuel generalizing literalStart cur with
  | zero => rw [sequences]; exact hlast _
  | succ fuel ih =>
    rw [sequences]
    split
    · exact hlast _
    · rename_i found candidate e
      obtain ⟨c', k', hb⟩ : ∃ c' k', backtrack input literalStart found candidate = (c', k') := ⟨_, _, rfl⟩
      rw [hb]
      dsimp only
      obtain ⟨m1, m2, m3, m4⟩ := match_spec hz h0 hl e hb rfl
      set dup := same input (c' + 4) (k' + 4)
      have hrest := ih (c' + 4 + dup) (c' + 4 + dup) (by omega) (Nat.le_refl _)
      have hlits : input.take literalStart ++ (input.drop literalStart).take (c' - literalStart) = input.take c' := by
        rw [← List.take_add, Nat.add_sub_cancel' m1]
      have hfield := extended_field ((input.drop literalStart).take (c' - literalStart)).length
      rw [← (token_halves _ dup).1] at hfield
      have hfield' := extended_field dup
      rw [← (token_halves ((input.drop literalStart).take (c' - literalStart)).length dup).2] at hfield'
      have := Lz4Block.copy (strict := true) (ends := true) (before := input.take literalStart) (rest := sequences z input fuel _ _)
        (lo := UInt8.ofNat ((found - candidate) % 256)) (hi := UInt8.ofNat ((found - candidate) / 256 % 256))
        hfield hfield' (.inl (by rw [hlits, offset_bytes m3]; exact m4))
        (fun _ => by rw [hlits, List.length_take, List.length_take]; omega) hrest
      simpa only [sequence, List.cons_append, List.append_assoc] using this

theorem compress_block {z : Lz4} (hz : z.Earlier) (input : List UInt8) : Lz4Block true true [] (z.compress input) input := by
  unfold compress
  split
  · simpa using lastLiterals_block true true [] input
  · simpa using sequences_block hz input input.length 0 1 (by omega) (by omega)

/-- The fuel of the compressor is never used up: more makes no difference. -/
theorem sequences_fuel {z : Lz4} (hz : z.Earlier) (input : List UInt8) {fuel literalStart cur : Nat}
    (h0 : 0 < cur) (hl : literalStart ≤ cur) (hf : input.length - literalStart ≤ fuel) (more : Nat) :
    sequences z input (fuel + more) literalStart cur = sequences z input fuel literalStart cur := by
  induction fuel generalizing literalStart cur with
  | zero =>
    cases more with
    | zero => rfl
    | succ more =>
      rw [Nat.zero_add, sequences, sequences]
      split
      · rfl
      · rename_i found candidate e
        obtain ⟨c', k', hb⟩ : ∃ c' k', backtrack input literalStart found candidate = (c', k') := ⟨_, _, rfl⟩
        obtain ⟨m1, m2, _⟩ := match_spec hz h0 hl e hb rfl
        omega
  | succ fuel ih =>
    rw [show fuel + 1 + more = fuel + more + 1 by omega, sequences, sequences]
    split
    · rfl
    · rename_i found candidate e
      obtain ⟨c', k', hb⟩ : ∃ c' k', backtrack input literalStart found candidate = (c', k') := ⟨_, _, rfl⟩
      obtain ⟨m1, m2, _⟩ := match_spec hz h0 hl e hb rfl
      rw [hb]
      dsimp only
      rw [ih (by omega) (Nat.le_refl _) (by omega)]

end Lz4

end Souris
