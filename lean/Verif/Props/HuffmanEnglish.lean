import Mathlib.Algebra.BigOperators.Group.Finset.Basic
import Verif.Props.Huffman
import Verif.Spec.HuffmanEnglish
import Verif.Model.HuffmanEnglish

/-! # Properties of the preset English coder: C64 -/

namespace Souris

open Huffman

namespace Huffman

variable {T : Type} [DecidableEq T]

/-- The cost of a text under the tree built from a table of its frequencies is at most that of any
prefix-free code. -/
theorem nodeTree_opt {ord : List (Node T × Nat) → List (Node T × Nat)} (hord : HashOrder ord)
    (tbl : List (T × Nat)) (hne : tbl ≠ []) (hnd : (tbl.map Prod.fst).Nodup) (text : List T)
    (hcnt : ∀ p ∈ tbl, text.count p.1 = p.2) (hin : ∀ x ∈ text, x ∈ tbl.map Prod.fst)
    (code : T → List Bool) (hcode : PrefixFreeOn (tbl.map Prod.fst) code) {root : Node T}
    (ht : nodeTree ord tbl = .ok root) :
    (text.map (codeLen root)).sum ≤ (text.map (fun x => (code x).length)).sum := by
  have hsum : ∀ g : T → Nat, (text.map g).sum = (tbl.map (fun p => p.2 * g p.1)).sum := by
    intro g
    rw [Finset.sum_list_map_count, Finset.sum_subset (s₂ := (tbl.map Prod.fst).toFinset)]
    · rw [List.sum_toFinset _ hnd, List.map_map]
      congr 1
      apply List.map_congr_left
      intro p hp
      simp [hcnt p hp]
    · intro x hx
      rw [List.mem_toFinset] at *
      exact hin x hx
    · intro x _ hx
      rw [List.mem_toFinset] at hx
      simp [List.count_eq_zero_of_not_mem hx]
  obtain ⟨root', e', p', _⟩ := nodeTree_ok hord tbl hne
  rw [ht] at e'
  simp only [Out.ok.injEq] at e'
  subst e'
  rw [hsum, hsum]
  have hroot : (tbl.map (fun p => p.2 * codeLen root p.1)).sum
      = ncost (fun x => text.count x) root := by
    rw [ncost_eq _ _ (p'.nodup_iff.mpr hnd), (p'.map _).sum_eq, List.map_map]
    congr 1
    apply List.map_congr_left
    intro p hp
    simp [hcnt p hp]
  rw [hroot]
  unfold nodeTree at ht
  rw [if_neg hne] at ht
  have hp := hord (tbl.map (fun p => (Node.leaf p.1, p.2)))
  have hkr : kraft (tbl.map (fun p => (code p.1).length)) ≤ 1 := by
    have hpw : ((tbl.map Prod.fst).map code).Pairwise Incomp := by
      rw [List.pairwise_map]
      refine hnd.imp_of_mem ?_
      intro a b ha hb hab
      exact ⟨hcode a ha b hb hab, hcode b hb a ha hab.symm⟩
    obtain ⟨N, hN⟩ := exists_bound ((tbl.map Prod.fst).map code)
    have := kraft_prefixFree N _ hN hpw
    rw [List.map_map, List.map_map] at this
    exact this
  have := build_opt (fun x => text.count x) _ _ root ht (by
      intro h0
      have := hp.length_eq
      rw [h0, List.length_map] at this
      exact hne (List.length_eq_zero_iff.mp this.symm)) (by
      intro q hq
      obtain ⟨p, hpm, rfl⟩ := List.mem_map.mp (hp.subset hq)
      simpa [wt] using (hcnt p hpm).symm)
    (tbl.map (fun p => ((Node.leaf p.1, p.2), (code p.1).length))) (by
      rw [List.map_map]; exact hp.symm) (by
      rw [List.map_map]; exact hkr)
  refine this.trans (Nat.le_of_eq ?_)
  rw [List.map_map]
  congr 1
  apply List.map_congr_left
  intro p _
  simp [ncost]

theorem englishTable_nodup : (englishTable.map Prod.fst).Nodup := by decide +kernel

theorem englishTable_small : ∀ p ∈ englishTable, p.1 < 128 := by decide +kernel

theorem englishFreqs_nodup : (englishFreqs.map Prod.fst).Nodup := by decide +kernel

theorem english_small : ∀ n < 128, EnglishChar (Char.ofNat n) ↔ Char.ofNat n ∈ englishFreqs.map Prod.fst := by
  decide +kernel

theorem english_counts : ∀ p, p ∈ englishFreqs ↔ p ∈ englishCounts := by
  have h : (∀ p ∈ englishFreqs, p ∈ englishCounts) ∧ ∀ p ∈ englishCounts, p ∈ englishFreqs := by decide +kernel
  exact fun p => ⟨h.1 p, h.2 p⟩

theorem mem_english (c : Char) : c ∈ englishFreqs.map Prod.fst ↔ EnglishChar c := by
  by_cases h : c.toNat < 128
  · have := english_small c.toNat h
    rw [Char.ofNat_toNat] at this
    exact this.symm
  · have h1 : ∀ d ∈ englishFreqs.map Prod.fst, d.toNat < 128 := by decide +kernel
    have h2 : ∀ d ∈ ['\t', '\n', '\x05', '\x1b', '\x1e', '\x7f'], d.toNat < 128 := by decide
    constructor
    · intro hc; exact absurd (h1 c hc) h
    · rintro (⟨_, h3, _⟩ | hc)
      · omega
      · exact absurd (h2 c hc) h

theorem newEnglish_ok {ord : List (Node Char × Nat) → List (Node Char × Nat)} (hord : HashOrder ord) :
    ∃ l r, nodeTree ord englishFreqs = .ok (.branch l r) ∧
      newEnglish ord = .ok (ofRoot (.branch l r)) ∧ (Node.branch l r).leaves.Nodup ∧
      ∀ c, c ∈ (Node.branch l r).leaves ↔ EnglishChar c := by
  obtain ⟨root, e, p, hb⟩ := nodeTree_ok hord englishFreqs (by decide)
  obtain ⟨l, r, rfl⟩ := hb (by decide)
  exact ⟨l, r, e, by simp [newEnglish, e], p.nodup_iff.mpr englishFreqs_nodup,
    fun c => by rw [p.mem_iff, mem_english]⟩

end Huffman

/-- C64: whatever the hash order, the preset coder is made without a panic; it encodes exactly the
texts over its 95 characters and reports `UnableToCode` on all others; what it encodes it decodes
back; on any bits at all its decoding does not panic, and succeeds only on encodings. -/
theorem C64_english {ord : List (Node Char × Nat) → List (Node Char × Nat)} (hord : HashOrder ord) :
    ∃ h, Huffman.newEnglish ord = .ok h ∧
      (∀ text, (∀ c ∈ text, EnglishChar c) →
        ∃ bits, h.encode text = .ok bits ∧ h.decode bits = .ok text) ∧
      (∀ text, (∃ c ∈ text, ¬ EnglishChar c) → h.encode text = .err .unableToCode) ∧
      (∀ bs p, h.decode (Bits.ofBools bs) ≠ .panic p) ∧
      (∀ bs text, h.decode (Bits.ofBools bs) = .ok text → h.encode text = .ok (Bits.ofBools bs)) := by
  obtain ⟨l, r, _, e, hnd, hmem⟩ := newEnglish_ok hord
  refine ⟨_, e, fun text ht => ?_, fun text ht => ?_, fun bs => (C21_decode_exact_partial l r bs).1,
    fun bs text hd => ((C21_decode_exact_partial l r bs).2 hnd).1 text |>.mp hd⟩
  · obtain ⟨cs, hcs⟩ := exists_codes (.branch l r) text (fun x hx => (hmem x).mpr (ht x hx))
    refine ⟨_, encode_ok _ hcs, ?_⟩
    rw [decode_ofList, decodeAux_codes _ ⟨l, r, rfl⟩ text cs hcs]
    simp
  · obtain ⟨c, hc, hn⟩ := ht
    exact encode_err _ ⟨c, hc, fun h => hn ((hmem c).mp h)⟩

/-- C64: a text with the preset's character frequencies is encoded in at most as many bits as under
any other prefix-free code for its characters. -/
theorem C64_optimal {ord : List (Node Char × Nat) → List (Node Char × Nat)} (hord : HashOrder ord)
    (text : List Char) (ht : EnglishCorpus text) (code : Char → List Bool)
    (hcode : PrefixFreeOn text code) :
    ∃ h bits, Huffman.newEnglish ord = .ok h ∧ h.encode text = .ok bits ∧
      bits.len ≤ (text.map (fun x => (code x).length)).sum := by
  obtain ⟨l, r, e0, e, hnd, hmem⟩ := newEnglish_ok hord
  obtain ⟨cs, hcs⟩ := exists_codes (.branch l r) text (fun x hx => (hmem x).mpr (ht.1 x hx))
  refine ⟨_, _, e, encode_ok _ hcs, ?_⟩
  have hlen : (Bits.ofList cs.flatten).len = (text.map (codeLen (.branch l r))).sum := by
    show cs.flatten.length = _
    rw [List.length_flatten]
    congr 1
    have : text.map (codeLen (.branch l r))
        = (text.map (codeOf (.branch l r))).map (fun c => (c.getD []).length) := by
      rw [List.map_map]; rfl
    rw [this, hcs, List.map_map]
    exact List.map_congr_left (fun _ _ => rfl)
  rw [hlen]
  have hcnt : ∀ p ∈ englishFreqs, text.count p.1 = p.2 := by
    exact fun p hp => ht.2 p ((english_counts p).mp hp)
  have hpos : ∀ p ∈ englishFreqs, 0 < p.2 := by decide +kernel
  refine nodeTree_opt hord englishFreqs (by decide) englishFreqs_nodup text hcnt
    (fun x hx => (mem_english x).mpr (ht.1 x hx)) code ?_ e0
  intro x hx y hy
  have hm : ∀ z ∈ englishFreqs.map Prod.fst, z ∈ text := by
    intro z hz
    obtain ⟨p, hp, rfl⟩ := List.mem_map.mp hz
    exact List.count_pos_iff.mp (by rw [hcnt p hp]; exact hpos p hp)
  exact hcode x (hm x hx) y (hm y hy)

/-- C64, finding: the preset refuses ordinary ASCII text: a percentage, a hash, a backslash. -/
theorem C64_refused {ord : List (Node Char × Nat) → List (Node Char × Nat)} (hord : HashOrder ord) :
    ∃ h, Huffman.newEnglish ord = .ok h ∧ h.encode "profits rose 5%".toList = .err .unableToCode ∧
      h.encode "#1".toList = .err .unableToCode ∧ h.encode "a\\b".toList = .err .unableToCode := by
  obtain ⟨h, e, _, hr, _⟩ := C64_english hord
  exact ⟨h, e, hr _ ⟨'%', by decide⟩, hr _ ⟨'#', by decide⟩, hr _ ⟨'\\', by decide⟩⟩

example : ∀ c ∈ "The quick brown fox jumps over the lazy dog.".toList, EnglishChar c := by decide +kernel

example : ∃ text, EnglishCorpus text := by
  refine ⟨englishFreqs.flatMap (fun p => List.replicate p.2 p.1), fun c hc => ?_, fun p hp => ?_⟩
  · obtain ⟨p, hp, h⟩ := List.mem_flatMap.mp hc
    rw [List.eq_of_mem_replicate h, ← mem_english]
    exact List.mem_map_of_mem hp
  · have key : ∀ (l : List (Char × Nat)), (l.map Prod.fst).Nodup → ∀ p ∈ l,
        (l.flatMap (fun p => List.replicate p.2 p.1)).count p.1 = p.2 := by
      intro l
      induction l with
      | nil => simp
      | cons q l ih =>
        intro hnd p hp
        simp only [List.map_cons, List.nodup_cons] at hnd
        rw [List.flatMap_cons, List.count_append, List.count_replicate]
        rcases List.mem_cons.mp hp with rfl | hp'
        · rw [if_pos (by simp), List.count_eq_zero_of_not_mem]
          · rfl
          · intro hc
            obtain ⟨s, hs, h⟩ := List.mem_flatMap.mp hc
            rw [List.eq_of_mem_replicate h] at hnd
            exact hnd.1 (List.mem_map_of_mem hs)
        · rw [ih hnd.2 p hp', if_neg, Nat.zero_add]
          intro h
          simp only [beq_iff_eq] at h
          rw [h] at hnd
          exact hnd.1 (List.mem_map_of_mem hp')
    exact key englishFreqs englishFreqs_nodup _ ((english_counts p).mpr hp)

end Souris
