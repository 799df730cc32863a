import Verif.Spec.Store
import Verif.Lemmas.ValueJson
import Verif.Props.Value

/-! # Lemmas about stores -/

namespace Souris

open Value

/-! ## Writing never fails -/

/-- A coder that came out of the library: none, or the coder of some tree. -/
def GoodCoder (h : Option (Huffman Char)) : Prop := h = none ∨ ∃ root, h = some (Huffman.ofRoot root)

theorem serString_total {h : Option (Huffman Char)} (hh : GoodCoder h) (s : List Char) :
    ∃ bytes, serString h s = .ok bytes := by
  rcases hh with rfl | ⟨root, rfl⟩
  · exact ⟨_, rfl⟩
  · by_cases hs : ∀ x ∈ s, x ∈ root.leaves
    · obtain ⟨cs, hcs⟩ := Huffman.exists_codes root s hs
      simp only [serString, Huffman.encode_ok root hcs, Bits.ser, Bits.properBytes_ofList]
      exact ⟨_, rfl⟩
    · simp only [not_forall] at hs
      obtain ⟨x, hx, hn⟩ := hs
      simp only [serString, Huffman.encode_err root ⟨x, hx, hn⟩]
      exact ⟨_, rfl⟩

theorem ser_total {env : Env} (hord : HashOrder env.byteOrd) {h : Option (Huffman Char)} (hh : GoodCoder h)
    (v : Value) : ∃ bytes, ser env h v = .ok bytes := by
  induction v using Value.induct with
  | h v ha hm =>
    cases v with
    | string s => exact serString_total hh s
    | json j =>
      obtain ⟨b, e⟩ := serString_total hh (env.jsonPrint j)
      exact ⟨_, by simp only [ser, e]; rfl⟩
    | timezone n =>
      obtain ⟨b, e⟩ := serString_total hh n
      exact ⟨_, by simp only [ser, e]; rfl⟩
    | binary b =>
      obtain ⟨huff, e⟩ := C24_huffman_total hord b
      exact ⟨_, by simp only [ser, Binary.ser, e]; rfl⟩
    | array a =>
      have : ∃ bytes, serList env h a = .ok bytes := by
        replace ha := ha a rfl
        clear hm
        induction a with
        | nil => exact ⟨_, rfl⟩
        | cons x xs ih =>
          obtain ⟨b, e⟩ := ha x (by simp)
          obtain ⟨bs, e'⟩ := ih fun v hv => ha v (by simp [hv])
          exact ⟨_, by simp only [serList, e, e']; rfl⟩
      obtain ⟨b, e⟩ := this
      exact ⟨_, by simp only [ser, e]; rfl⟩
    | map m =>
      have : ∃ bytes, serEntries env h m = .ok bytes := by
        replace hm := hm m rfl
        clear ha
        induction m with
        | nil => exact ⟨_, rfl⟩
        | cons x xs ih =>
          obtain ⟨k, x⟩ := x
          obtain ⟨kb, e1⟩ := serString_total hh k
          obtain ⟨b, e⟩ := hm k x (by simp)
          obtain ⟨bs, e'⟩ := ih fun k v hv => hm k v (by simp [hv])
          exact ⟨_, by simp only [serEntries, e, e', e1]; rfl⟩
      obtain ⟨b, e⟩ := this
      exact ⟨_, by simp only [ser, e]; rfl⟩
    | _ => exact ⟨_, rfl⟩

/-! ## The collected text -/

theorem mem_allText (env : Env) (stack : List Value) (c : Char) :
    c ∈ Store.allText env stack ↔ ∃ t v, v ∈ stack ∧ Text env t v ∧ c ∈ t := by
  induction stack using Store.allText.induct env with
  | case1 => simp [Store.allText]
  | case2 v stack ih =>
    rw [Store.allText, List.mem_append, ih]
    have key : (c ∈ (Store.textOf env v).1 ∨ ∃ t w, w ∈ (Store.textOf env v).2 ∧ Text env t w ∧ c ∈ t) ↔
        ∃ t, Text env t v ∧ c ∈ t := by
      cases v with
      | map m =>
        simp only [Store.textOf, List.mem_flatMap, List.mem_map]
        constructor
        · rintro (⟨⟨k, v⟩, hk, hc⟩ | ⟨t, w, ⟨⟨k, v⟩, hk, rfl⟩, ht, hc⟩)
          · exact ⟨k, .key hk, hc⟩
          · exact ⟨t, .map hk ht, hc⟩
        · rintro ⟨t, ht, hc⟩
          cases ht with
          | key h => exact .inl ⟨_, h, hc⟩
          | map hv h => exact .inr ⟨t, _, ⟨_, hv, rfl⟩, h, hc⟩
      | array a =>
        simp only [Store.textOf, List.not_mem_nil, false_or]
        constructor
        · rintro ⟨t, w, hw, ht, hc⟩; exact ⟨t, .array hw ht, hc⟩
        · rintro ⟨t, ht, hc⟩
          cases ht with
          | array hv h => exact ⟨t, _, hv, h, hc⟩
      | string s =>
        simp only [Store.textOf, List.not_mem_nil, false_and, exists_false, or_false]
        exact ⟨fun h => ⟨s, .string s, h⟩, by rintro ⟨t, ht, hc⟩; cases ht; exact hc⟩
      | json j =>
        simp only [Store.textOf, List.not_mem_nil, false_and, exists_false, or_false]
        exact ⟨fun h => ⟨_, .json j, h⟩, by rintro ⟨t, ht, hc⟩; cases ht; exact hc⟩
      | timezone n =>
        simp only [Store.textOf, List.not_mem_nil, false_and, exists_false, or_false]
        exact ⟨fun h => ⟨n, .timezone n, h⟩, by rintro ⟨t, ht, hc⟩; cases ht; exact hc⟩
      | _ =>
        simp only [Store.textOf, List.not_mem_nil, false_and, exists_false, or_false, false_iff]
        rintro ⟨t, ht, _⟩
        cases ht
    constructor
    · rintro (h | ⟨t, w, hw, ht, hc⟩)
      · obtain ⟨t, ht, hc⟩ := key.mp (.inl h)
        exact ⟨t, v, by simp, ht, hc⟩
      · rcases List.mem_append.mp hw with hw | hw
        · obtain ⟨t, ht, hc⟩ := key.mp (.inr ⟨t, w, List.mem_reverse.mp hw, ht, hc⟩)
          exact ⟨t, v, by simp, ht, hc⟩
        · exact ⟨t, w, by simp [hw], ht, hc⟩
    · rintro ⟨t, w, hw, ht, hc⟩
      rcases List.mem_cons.mp hw with rfl | hw
      · rcases key.mpr ⟨t, ht, hc⟩ with h | ⟨t, w', hw', ht, hc⟩
        · exact .inl h
        · exact .inr ⟨t, w', by simp [hw'], ht, hc⟩
      · exact .inr ⟨t, w, by simp [hw], ht, hc⟩

/-- What `ser` writes: the coder of all text if there is any, the map, compressed, behind the header. -/
theorem ser_shape (env : Env) (hb : HashOrder env.byteOrd) (hc : HashOrder env.charOrd) (s : Store) :
    ∃ (h : Option (Huffman Char)) (mb : List UInt8) (ct : BinaryCompression) (comp : List UInt8), Store.ser env s
        = .ok (Store.magic ++ ((((if h.isSome then (1 : UInt8) else 0) <<< 7) ||| ct.toByte) :: comp)) ∧
      Value.ser env h (.map s) = .ok mb ∧
      Binary.ser env.lz env.byteOrd ((h.elim [] Huffman.serChar) ++ mb) = .ok (ct, comp) ∧
      GoodCoder h ∧
      (h = none → ∀ t, Text env t (.map s) → t = []) ∧
      ∀ coder, h = some coder → (∃ t, Text env t (.map s) ∧ t ≠ []) ∧
        (∃ root, coder = Huffman.ofRoot root ∧ root.leaves.Nodup ∧
          ∀ t, Text env t (.map s) → ∀ x ∈ t, x ∈ root.leaves) := by
  have hb' : ∀ data, ∃ ct comp, Binary.ser env.lz env.byteOrd data = .ok (ct, comp) := by
    intro data
    obtain ⟨huff, e⟩ := C24_huffman_total hb data
    exact ⟨_, _, by simp only [Binary.ser, e]; rfl⟩
  by_cases hne : Store.allText env [.map s] = []
  · have hnew := (C17_new_total hc (Store.allText env [.map s])).2 hne
    obtain ⟨mb, e1⟩ := ser_total hb (h := none) (.inl rfl) (.map s)
    obtain ⟨ct, comp, e2⟩ := hb' mb
    refine ⟨none, mb, ct, comp, ?_, e1, e2, .inl rfl, ?_, nofun⟩
    · unfold Store.ser
      simp only [hnew, e1, Out.ok_bind, Out.pure_eq, e2]
      rfl
    · intro _ t ht
      by_contra h0
      obtain ⟨x, hx⟩ := List.exists_mem_of_ne_nil t h0
      have := (mem_allText env [.map s] x).mpr ⟨t, _, by simp, ht, hx⟩
      rw [hne] at this
      cases this
  · obtain ⟨root, hnew, _, hnd, hleaves, _⟩ := Huffman.new_ok hc _ hne
    obtain ⟨mb, e1⟩ := ser_total hb (h := some (Huffman.ofRoot root)) (.inr ⟨_, rfl⟩) (.map s)
    obtain ⟨ct, comp, e2⟩ := hb' ((Huffman.ofRoot root).serChar ++ mb)
    refine ⟨some (Huffman.ofRoot root), mb, ct, comp, ?_, e1, e2, .inr ⟨_, rfl⟩, nofun, ?_⟩
    · unfold Store.ser
      simp only [hnew, e1, Out.ok_bind, Out.pure_eq, e2]
      rfl
    · intro coder hcoder
      simp only [Option.some.injEq] at hcoder
      subst hcoder
      obtain ⟨x, hx⟩ := List.exists_mem_of_ne_nil _ hne
      obtain ⟨t, v, hv, ht, hxt⟩ := (mem_allText env [.map s] x).mp hx
      simp only [List.mem_singleton] at hv
      subst hv
      refine ⟨⟨t, ht, List.ne_nil_of_mem hxt⟩, root, rfl, hnd, fun t ht x hx => ?_⟩
      exact (hleaves x).mpr ((mem_allText env [.map s] x).mpr ⟨t, _, by simp, ht, hx⟩)

/-! ## JSON objects are sorted -/

theorem keyLt_iff (a b : List Char) : SJValue.keyLt a b = true ↔ a < b := by
  induction a generalizing b with
  | nil => cases b <;> simp [SJValue.keyLt]
  | cons x xs ih =>
    cases b with
    | nil => simp [SJValue.keyLt]
    | cons y ys =>
      simp only [SJValue.keyLt]
      rw [List.cons_lt_cons_iff]
      by_cases h : x = y
      · subst h
        simp [ih]
      · rw [if_neg h]
        simp only [decide_eq_true_eq, h, false_and, or_false]
        exact Iff.rfl

theorem insert_mem {k : List Char} {v : SJValue} {m : List (List Char × SJValue)} {x : List Char × SJValue}
    (h : x ∈ SJValue.insert k v m) : x = (k, v) ∨ x ∈ m := by
  induction m with
  | nil => simpa [SJValue.insert] using h
  | cons y ys ih =>
    obtain ⟨k', v'⟩ := y
    simp only [SJValue.insert] at h
    split_ifs at h
    · rcases List.mem_cons.mp h with h | h
      · exact .inl h
      · exact .inr (by simp [h])
    · rcases List.mem_cons.mp h with h | h
      · exact .inl h
      · exact .inr h
    · rcases List.mem_cons.mp h with h | h
      · exact .inr (by simp [h])
      · rcases ih h with h | h
        · exact .inl h
        · exact .inr (by simp [h])

theorem insert_sorted {k : List Char} {v : SJValue} {m : List (List Char × SJValue)}
    (h : m.Pairwise fun x y => x.1 < y.1) : (SJValue.insert k v m).Pairwise fun x y => x.1 < y.1 := by
  induction m with
  | nil => simp [SJValue.insert]
  | cons y ys ih =>
    obtain ⟨k', v'⟩ := y
    rw [List.pairwise_cons] at h
    obtain ⟨h1, h2⟩ := h
    simp only [SJValue.insert]
    split_ifs with e1 e2
    · subst e1
      exact List.pairwise_cons.mpr ⟨h1, h2⟩
    · rw [keyLt_iff] at e2
      refine List.pairwise_cons.mpr ⟨?_, List.pairwise_cons.mpr ⟨h1, h2⟩⟩
      intro x hx
      rcases List.mem_cons.mp hx with rfl | hx
      · exact e2
      · exact List.lt_trans e2 (h1 x hx)
    · refine List.pairwise_cons.mpr ⟨?_, ih h2⟩
      intro x hx
      rcases insert_mem hx with rfl | hx
      · rw [keyLt_iff] at e2
        by_contra hc
        exact e1 (List.le_antisymm (List.not_lt.mp hc) (List.not_lt.mp e2))
      · exact h1 x hx

theorem collect_sorted (es : List (List Char × SJValue)) :
    (SJValue.collect es).Pairwise fun x y => x.1 < y.1 := by
  have : ∀ acc : List (List Char × SJValue), acc.Pairwise (fun x y => x.1 < y.1) →
      (es.foldl (fun m e => SJValue.insert e.1 e.2 m) acc).Pairwise fun x y => x.1 < y.1 := by
    induction es with
    | nil => intro acc h; exact h
    | cons x xs ih => intro acc h; exact ih _ (insert_sorted h)
  exact this [] .nil

/-- Collecting any rearrangement of a sorted object gives the object. -/
theorem collect_eq {es m : List (List Char × SJValue)} (hm : m.Pairwise fun x y => x.1 < y.1) (hp : es.Perm m) :
    SJValue.collect es = m := by
  have hnd : (m.map Prod.fst).Nodup := by
    rw [List.nodup_iff_pairwise_ne, List.pairwise_map]
    refine hm.imp ?_
    intro a b h e
    rw [e] at h
    exact List.lt_irrefl _ h
  have hnd' : (es.map Prod.fst).Nodup := (hp.map Prod.fst).nodup_iff.mpr hnd
  refine List.Perm.eq_of_pairwise ?_ (collect_sorted es) hm ((collect_perm hnd').trans hp)
  intro a b _ _ h1 h2
  exact absurd (List.lt_trans h1 h2) (List.lt_irrefl _)

end Souris
