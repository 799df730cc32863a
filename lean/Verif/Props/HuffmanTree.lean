import Verif.Props.Huffman

/-! # C21 for every tree -/

namespace Souris

open Huffman

/-- From the root of the tree the bits `p` lead to a leaf with the symbol `x`; a set bit goes left. -/
inductive Node.Leads {T : Type} : Node T → List Bool → T → Prop
  | leaf (x : T) : Leads (.leaf x) [] x
  | left {l : Node T} {p : List Bool} {x : T} (r : Node T) (h : Leads l p x) : Leads (.branch l r) (true :: p) x
  | right {r : Node T} {p : List Bool} {x : T} (l : Node T) (h : Leads r p x) : Leads (.branch l r) (false :: p) x

/-- The bits are paths to leaves, one after the other, with these symbols. -/
inductive Node.Spells {T : Type} (root : Node T) : List Bool → List T → Prop
  | nil : Spells root [] []
  | cons {p bs : List Bool} {x : T} {xs : List T} (h : root.Leads p x) (hs : Spells root bs xs) :
      Spells root (p ++ bs) (x :: xs)

variable {T : Type} [DecidableEq T]

theorem sub_iff_leads {n : Node T} {p : List Bool} {x : T} : sub n p = some (.leaf x) ↔ n.Leads p x := by
  constructor
  · induction n generalizing p with
    | leaf t =>
      intro h
      cases p with
      | nil => simp only [sub, Option.some.injEq, Node.leaf.injEq] at h; rw [h]; exact .leaf x
      | cons b p => simp [sub] at h
    | branch l r ihl ihr =>
      intro h
      cases p with
      | nil => simp [sub] at h
      | cons b p =>
        simp only [sub] at h
        cases b
        · exact .right l (ihr (by simpa using h))
        · exact .left r (ihl (by simpa using h))
  · intro h
    induction h with
    | leaf x => rfl
    | left r _ ih => simpa [sub] using ih
    | right l _ ih => simpa [sub] using ih

theorem spells_of_forall2 {root : Node T} {ys : List T} {cs : List (List Bool)}
    (h : List.Forall₂ (fun y c => sub root c = some (.leaf y)) ys cs) : root.Spells cs.flatten ys := by
  induction h with
  | nil => exact .nil
  | cons h _ ih => exact .cons (sub_iff_leads.mp h) ih

theorem decodeAux_spells {l r : Node T} {bs : List Bool} {xs : List T} (h : (Node.branch l r).Spells bs xs)
    (acc : List T) : decodeAux (.branch l r) (.branch l r) acc bs = .ok (acc ++ xs) := by
  induction h generalizing acc with
  | nil => simp [decodeAux]
  | cons h _ ih =>
    rw [decodeAux_walk _ _ ⟨l, r, rfl⟩ _ _ _ _ (sub_iff_leads.mpr h), ih]
    simp

theorem codes_spell {root : Node T} {xs : List T} {cs : List (List Bool)} (h : xs.map (codeOf root) = cs.map some) :
    root.Spells cs.flatten xs := by
  induction xs generalizing cs with
  | nil =>
    have : cs = [] := by simpa using h.symm
    subst this
    exact .nil
  | cons x xs ih =>
    cases cs with
    | nil => simp at h
    | cons c cs =>
      simp only [List.map_cons, List.cons.injEq] at h
      exact .cons (sub_iff_leads.mp (sub_codeOf h.1)) (ih h.2)

/-- What is encoded spells the symbols, and every list of symbols that are in the tree is encoded. -/
theorem encode_spells (root : Node T) (xs : List T) :
    (∀ bs, (ofRoot root).encode xs = .ok (Bits.ofBools bs) → root.Spells bs xs) ∧
    ((∀ x ∈ xs, ∃ p, root.Leads p x) → ∃ bs, (ofRoot root).encode xs = .ok (Bits.ofBools bs)) := by
  constructor
  · intro bs h
    have hall : ∀ x ∈ xs, x ∈ root.leaves := by
      by_contra hc
      push Not at hc
      rw [encode_err _ hc] at h
      cases h
    obtain ⟨cs, hcs⟩ := exists_codes _ xs hall
    rw [encode_ok _ hcs, Bits.ofBools_eq] at h
    simp only [Out.ok.injEq] at h
    have hb : cs.flatten = bs := by
      have := congrArg Bits.toBools h
      rw [Bits.toBools_ofList, Bits.toBools_ofList] at this
      simpa using this
    rw [← hb]
    exact codes_spell hcs
  · intro h
    obtain ⟨cs, hcs⟩ := exists_codes root xs fun x hx => by
      obtain ⟨p, hp⟩ := h x hx
      exact mem_leaves_of_sub (sub_iff_leads.mpr hp)
    exact ⟨_, by rw [encode_ok _ hcs, Bits.ofBools_eq]⟩

theorem decodeAux_err {l r : Node T} {bs : List Bool} {cur : Node T} {acc : List T} {e : HuffmanSerError}
    (h : decodeAux (.branch l r) cur acc bs = .err e) : e = .unableToCode := by
  induction bs generalizing cur acc with
  | nil =>
    simp only [decodeAux] at h
    split_ifs at h
    simpa using h.symm
  | cons b bs ih =>
    cases cur with
    | leaf t => simp [decodeAux] at h
    | branch l' r' =>
      simp only [decodeAux] at h
      split at h
      · exact ih h
      · exact ih h

/-- C21 for every tree with two or more leaves, repeated symbols or not: decoding gives the symbols that the bits
spell, and an error if they spell nothing. Missing: that the bits are those that encoding would give
(`C21_exact_partial` says when). -/
theorem C21_decode_spells_partial (l r : Node T) (bs : List Bool) :
    (∀ xs, (ofRoot (Node.branch l r)).decode (Bits.ofBools bs) = .ok xs ↔ (Node.branch l r).Spells bs xs) ∧
    ((¬ ∃ xs, (Node.branch l r).Spells bs xs) →
      (ofRoot (Node.branch l r)).decode (Bits.ofBools bs) = .err .unableToCode) := by
  have hiff : ∀ xs, (ofRoot (Node.branch l r)).decode (Bits.ofBools bs) = .ok xs ↔ (Node.branch l r).Spells bs xs := by
    intro xs
    rw [Bits.ofBools_eq, decode_ofList]
    constructor
    · intro h
      obtain ⟨ys, cs, h1, h2, h3⟩ :=
        (decodeAux_inv (Node.branch l r) ⟨l, r, rfl⟩ bs (Node.branch l r) [] [] ⟨l, r, rfl⟩ rfl).2 xs h
      simp only [List.nil_append] at h1 h2
      rw [h1, ← h2]
      exact spells_of_forall2 h3
    · intro h
      simpa using decodeAux_spells h []
  refine ⟨hiff, fun hno => ?_⟩
  cases hd : (ofRoot (Node.branch l r)).decode (Bits.ofBools bs) with
  | ok xs => exact absurd ⟨xs, (hiff xs).mp hd⟩ hno
  | err e =>
    rw [Bits.ofBools_eq, decode_ofList] at hd
    rw [decodeAux_err hd]
  | panic p => exact absurd hd ((C21_decode_exact_partial l r bs).1 p)

/-- C21: for which trees the property holds: exactly for those with two or more leaves in which no symbol is reached
by two paths. -/
theorem C21_exact_partial (root : Node T) :
    (∀ bs xs, (ofRoot root).decode (Bits.ofBools bs) = .ok xs ↔ (ofRoot root).encode xs = .ok (Bits.ofBools bs)) ↔
      (∃ l r, root = .branch l r) ∧ ∀ p q x, root.Leads p x → root.Leads q x → p = q := by
  constructor
  · intro h
    have hbr : ∃ l r, root = .branch l r := by
      cases root with
      | branch l r => exact ⟨l, r, rfl⟩
      | leaf t =>
        have h1 : (ofRoot (Node.leaf t)).encode [t] = .ok (Bits.ofBools []) := by
          rw [encode_ok (cs := [[]]) _ (by simp [codeOf]), Bits.ofBools_eq]; rfl
        have h2 : (ofRoot (Node.leaf t)).decode (Bits.ofBools []) = .ok [] := by
          rw [Bits.ofBools_eq, decode_ofList]; simp [decodeAux]
        rw [(h [] [t]).mpr h1] at h2
        cases h2
    obtain ⟨l, r, rfl⟩ := hbr
    refine ⟨⟨l, r, rfl⟩, fun p q x hp hq => ?_⟩
    have key : ∀ p, (Node.branch l r).Leads p x → (ofRoot (Node.branch l r)).encode [x] = .ok (Bits.ofBools p) := by
      intro p hp
      refine (h p [x]).mp (((C21_decode_spells_partial l r p).1 [x]).mpr ?_)
      have := Node.Spells.cons hp .nil
      rwa [List.append_nil] at this
    have := (key p hp).symm.trans (key q hq)
    rw [Bits.ofBools_eq, Bits.ofBools_eq] at this
    simp only [Out.ok.injEq] at this
    have := congrArg Bits.toBools this
    rw [Bits.toBools_ofList, Bits.toBools_ofList] at this
    simpa using this
  · rintro ⟨⟨l, r, rfl⟩, hu⟩ bs xs
    rw [(C21_decode_spells_partial l r bs).1 xs]
    refine ⟨fun h => ?_, (encode_spells _ xs).1 bs⟩
    obtain ⟨cs, e, hcs⟩ : ∃ cs : List (List Bool), bs = cs.flatten ∧ xs.map (codeOf (.branch l r)) = cs.map some := by
      induction h with
      | nil => exact ⟨[], rfl, rfl⟩
      | @cons p bs x xs h _ ih =>
        obtain ⟨cs, e, hcs⟩ := ih
        refine ⟨p :: cs, by rw [e]; rfl, ?_⟩
        obtain ⟨c, hc⟩ := Option.isSome_iff_exists.mp
          ((codeOf_isSome (.branch l r) x).mpr (mem_leaves_of_sub (sub_iff_leads.mpr h)))
        rw [List.map_cons, List.map_cons, hcs, hc, hu p c x h (sub_iff_leads.mp (sub_codeOf hc))]
    rw [encode_ok _ hcs, Bits.ofBools_eq, e]

/-- A tree with a repeated symbol: the second path is decoded, too. -/
example : (Node.branch (.leaf 'a') (.branch (.leaf 'b') (.leaf 'a'))).Spells [true, false, false, false, true]
    ['a', 'a', 'b'] :=
  .cons (p := [true]) (.left _ (.leaf _)) (.cons (p := [false, false]) (.right _ (.right _ (.leaf _)))
    (.cons (p := [false, true]) (bs := []) (.right _ (.left _ (.leaf _))) .nil))

end Souris
