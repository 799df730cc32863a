import Verif.Model.Huffman
import Verif.Lemmas.Bits
import Mathlib.Data.List.Perm.Basic
import Mathlib.Tactic.SplitIfs

/-! # Lemmas about the Huffman model -/

namespace Souris

namespace Huffman

set_option linter.unusedSectionVars false

variable {T : Type} [DecidableEq T]

/-! ## Frequency table -/

theorem bump_keys (x : T) (l : List (T × Nat)) (y : T) :
    y ∈ (bump x l).map Prod.fst ↔ y = x ∨ y ∈ l.map Prod.fst := by
  induction l with
  | nil => simp [bump]
  | cons p l ih =>
    obtain ⟨z, n⟩ := p
    unfold bump
    split_ifs with h
    · subst h; simp
    · rw [List.map_cons, List.mem_cons, ih]
      simp only [List.map_cons, List.mem_cons]
      tauto

theorem bump_nodup (x : T) (l : List (T × Nat)) (h : (l.map Prod.fst).Nodup) :
    ((bump x l).map Prod.fst).Nodup := by
  induction l with
  | nil => simp [bump]
  | cons p l ih =>
    obtain ⟨z, n⟩ := p
    simp only [List.map_cons, List.nodup_cons] at h
    unfold bump
    split_ifs with hx
    · simpa using h
    · rw [List.map_cons, List.nodup_cons, bump_keys]
      refine ⟨?_, ih h.2⟩
      rintro (h1 | h1)
      · exact hx h1.symm
      · exact h.1 h1

theorem bump_sum (x : T) (l : List (T × Nat)) (g : T → Nat) :
    ((bump x l).map (fun p => p.2 * g p.1)).sum = (l.map (fun p => p.2 * g p.1)).sum + g x := by
  induction l with
  | nil => simp [bump]
  | cons p l ih =>
    obtain ⟨z, n⟩ := p
    unfold bump
    split_ifs with hx
    · subst hx
      simp only [List.map_cons, List.sum_cons, Nat.add_mul, Nat.one_mul]; omega
    · simp only [List.map_cons, List.sum_cons, ih]; omega

theorem freqTable_aux (data : List T) (l : List (T × Nat)) (hl : (l.map Prod.fst).Nodup) :
    ((data.foldl (fun l x => bump x l) l).map Prod.fst).Nodup ∧
    (∀ y, y ∈ (data.foldl (fun l x => bump x l) l).map Prod.fst ↔ y ∈ data ∨ y ∈ l.map Prod.fst) ∧
    (∀ g : T → Nat, ((data.foldl (fun l x => bump x l) l).map (fun p => p.2 * g p.1)).sum
      = (l.map (fun p => p.2 * g p.1)).sum + (data.map g).sum) := by
  induction data generalizing l with
  | nil => simp [hl]
  | cons x data ih =>
    obtain ⟨h1, h2, h3⟩ := ih (bump x l) (bump_nodup x l hl)
    refine ⟨h1, ?_, ?_⟩
    · intro y
      rw [List.foldl_cons, h2, bump_keys]
      simp only [List.mem_cons]
      tauto
    · intro g
      rw [List.foldl_cons, h3, bump_sum]
      simp only [List.map_cons, List.sum_cons]; omega

theorem freqTable_nodup (data : List T) : ((freqTable data).map Prod.fst).Nodup :=
  (freqTable_aux data [] (by simp)).1

theorem freqTable_keys (data : List T) (y : T) :
    y ∈ (freqTable data).map Prod.fst ↔ y ∈ data := by
  have := (freqTable_aux data [] (by simp)).2.1 y
  unfold freqTable
  simpa using this

theorem freqTable_sum (data : List T) (g : T → Nat) :
    ((freqTable data).map (fun p => p.2 * g p.1)).sum = (data.map g).sum := by
  have := (freqTable_aux data [] (by simp)).2.2 g
  unfold freqTable
  simpa using this

/-! ## The heap -/

theorem minIdx_spec {α : Type} (l : List (α × Nat)) (h : l ≠ []) :
    ∃ i x, minIdx l = some i ∧ l[i]? = some x ∧ ∀ y ∈ l, x.2 ≤ y.2 := by
  induction l with
  | nil => exact absurd rfl h
  | cons p l ih =>
    obtain ⟨a, w⟩ := p
    by_cases hl : l = []
    · subst hl; exact ⟨0, (a, w), by simp [minIdx]⟩
    · obtain ⟨i, x, h1, h2, h3⟩ := ih hl
      by_cases hw : x.2 < w
      · refine ⟨i + 1, x, ?_, by simpa using h2, ?_⟩
        · simp only [minIdx, h1, h2]; rw [if_pos hw]
        · intro y hy
          rcases List.mem_cons.mp hy with rfl | hy
          · exact Nat.le_of_lt hw
          · exact h3 y hy
      · refine ⟨0, (a, w), ?_, by simp, ?_⟩
        · simp only [minIdx, h1, h2]; rw [if_neg hw]
        · intro y hy
          rcases List.mem_cons.mp hy with rfl | hy
          · exact Nat.le_refl _
          · exact Nat.le_trans (Nat.le_of_not_lt hw) (h3 y hy)

theorem swapRemove_spec {α : Type} (l : List α) (i : Nat) (x : α) (h : l[i]? = some x) :
    ∃ rest, swapRemove l i = some (x, rest) ∧ (x :: rest).Perm l := by
  rcases List.eq_nil_or_concat l with h0 | ⟨f, z, h0⟩
  · subst h0; simp at h
  · rw [List.concat_eq_append] at h0
    subst h0
    have hz : (f ++ [z]).getLast? = some z := by simp
    refine ⟨((f ++ [z]).set i z).dropLast, by simp only [swapRemove, h, hz], ?_⟩
    by_cases hi : i < f.length
    · rw [List.set_append_left _ _ hi, List.dropLast_concat]
      rw [List.getElem?_append_left hi, List.getElem?_eq_getElem hi, Option.some.injEq] at h
      have hf : f = f.take i ++ x :: f.drop (i + 1) := by
        rw [← h]; simp
      have hs : f.set i z = f.take i ++ z :: f.drop (i + 1) := by
        rw [List.set_eq_take_append_cons_drop, if_pos hi]
      rw [hs]
      conv_rhs => rw [hf]
      calc (x :: (f.take i ++ z :: f.drop (i + 1))).Perm (x :: z :: (f.take i ++ f.drop (i + 1))) :=
            List.Perm.cons _ List.perm_middle
        _ |>.Perm (z :: x :: (f.take i ++ f.drop (i + 1))) := List.Perm.swap _ _ _
        _ |>.Perm (z :: (f.take i ++ x :: f.drop (i + 1))) := List.Perm.cons _ List.perm_middle.symm
        _ |>.Perm ((f.take i ++ x :: f.drop (i + 1)) ++ [z]) := (List.perm_append_singleton _ _).symm
    · have hlt : i < (f ++ [z]).length := by
        by_contra hc
        rw [List.getElem?_eq_none (by omega)] at h
        cases h
      have hi' : i = f.length := by simp at hlt; omega
      subst hi'
      have hxz : z = x := by simpa using h
      subst hxz
      simp only [List.set_append_right _ _ (Nat.le_refl _), Nat.sub_self, List.set_cons_zero,
        List.dropLast_concat]
      exact (List.perm_append_singleton _ _).symm

theorem heapNext_spec {α : Type} (l : List (α × Nat)) (h : l ≠ []) :
    ∃ x rest, heapNext l = some (x, rest) ∧ (x :: rest).Perm l ∧ ∀ y ∈ l, x.2 ≤ y.2 := by
  obtain ⟨i, x, h1, h2, h3⟩ := minIdx_spec l h
  obtain ⟨rest, h4, h5⟩ := swapRemove_spec l i x h2
  exact ⟨x, rest, by simp [heapNext, h1, h4], h5, h3⟩

theorem heapNext_nil {α : Type} : heapNext ([] : List (α × Nat)) = none := rfl

/-- One iteration of the loop: either the heap has one entry, or its two least entries are merged. -/
theorem build_step (fuel : Nat) (heap : List (Node T × Nat)) (h : heap ≠ []) :
    (∃ a w, heap = [(a, w)] ∧ build (fuel + 1) heap = .ok a) ∨
    (∃ a wa b wb rest, ((a, wa) :: (b, wb) :: rest).Perm heap ∧ wa ≤ wb ∧ (∀ y ∈ rest, wb ≤ y.2) ∧
      build (fuel + 1) heap = build fuel (rest ++ [(Node.branch a b, wa + wb)])) := by
  obtain ⟨⟨a, wa⟩, h1, e1, p1, m1⟩ := heapNext_spec heap h
  by_cases hn : h1 = []
  · left
    subst hn
    refine ⟨a, wa, ?_, by simp only [build, e1, heapNext_nil]⟩
    exact List.perm_singleton.mp p1.symm
  · right
    obtain ⟨⟨b, wb⟩, h2, e2, p2, m2⟩ := heapNext_spec h1 hn
    refine ⟨a, wa, b, wb, h2, (List.Perm.cons _ p2).trans p1, ?_, ?_, by simp [build, e1, e2]⟩
    · exact m1 (b, wb) (p1.subset (List.mem_cons_of_mem _ (p2.subset (List.mem_cons_self ..))))
    · intro y hy
      exact m2 y (p2.subset (List.mem_cons_of_mem _ hy))

/-- The symbols at the leaves. -/
def _root_.Souris.Node.leaves {T : Type} : Node T → List T
  | .leaf t => [t]
  | .branch l r => l.leaves ++ r.leaves

theorem build_ok (fuel : Nat) (heap : List (Node T × Nat)) (h : heap ≠ []) (hf : heap.length ≤ fuel) :
    ∃ root, build fuel heap = .ok root ∧ root.leaves.Perm (heap.flatMap (fun p => p.1.leaves)) ∧
      (2 ≤ heap.length → ∃ l r, root = .branch l r) := by
  induction fuel generalizing heap with
  | zero =>
    have : heap.length = 0 := by omega
    exact absurd (List.length_eq_zero_iff.mp this) h
  | succ fuel ih =>
    rcases build_step fuel heap h with ⟨a, w, rfl, e⟩ | ⟨a, wa, b, wb, rest, p, _, _, e⟩
    · exact ⟨a, e, by simp, by simp⟩
    · have hlen := p.length_eq
      simp only [List.length_cons] at hlen
      obtain ⟨root, e', p', hb⟩ := ih (rest ++ [(Node.branch a b, wa + wb)]) (by simp) (by simp; omega)
      refine ⟨root, e.trans e', p'.trans ?_, ?_⟩
      · refine List.Perm.trans ?_ (p.flatMap_right _)
        simp only [List.flatMap_append, List.flatMap_cons, List.flatMap_nil, List.append_nil,
          Node.leaves]
        rw [← List.append_assoc a.leaves]
        exact List.perm_append_comm
      · intro _
        by_cases hr : rest = []
        · subst hr
          cases fuel with
          | zero => simp at hlen; omega
          | succ fuel =>
            rcases build_step fuel [(Node.branch a b, wa + wb)] (by simp) with
              ⟨x, w, hx, ex⟩ | ⟨x, _, y, _, r, pp, _⟩
            · simp only [List.cons.injEq, Prod.mk.injEq, and_true] at hx
              simp only [List.nil_append] at e'
              rw [ex] at e'
              simp only [Out.ok.injEq] at e'
              exact ⟨a, b, by rw [← e', ← hx.1]⟩
            · have := pp.length_eq
              simp at this
        · have : 0 < rest.length := List.length_pos_iff.mpr hr
          exact hb (by simp; omega)

theorem nodeTree_ok {ord : List (Node T × Nat) → List (Node T × Nat)} (hord : ∀ l, (ord l).Perm l)
    (data : List (T × Nat)) (h : data ≠ []) :
    ∃ root, nodeTree ord data = .ok root ∧ root.leaves.Perm (data.map Prod.fst) ∧
      (2 ≤ data.length → ∃ l r, root = .branch l r) := by
  have hp := hord (data.map (fun p => (Node.leaf p.1, p.2)))
  have hlen := hp.length_eq
  rw [List.length_map] at hlen
  obtain ⟨root, e, p, hb⟩ := build_ok _ (ord (data.map (fun p => (Node.leaf p.1, p.2)))) (by
    intro h0
    rw [h0] at hlen
    exact h (List.length_eq_zero_iff.mp hlen.symm)) (Nat.le_refl _)
  refine ⟨root, by simp [nodeTree, h, e], p.trans ((hp.flatMap_right _).trans ?_), ?_⟩
  · clear * -
    induction data with
    | nil => simp
    | cons d data ih =>
      simp only [List.map_cons, List.flatMap_cons, Node.leaves, List.singleton_append]
      exact List.Perm.cons _ ih
  · intro h2
    exact hb (by omega)

theorem freqTable_ne_nil {data : List T} (h : data ≠ []) : freqTable data ≠ [] := by
  obtain ⟨x, hx⟩ := List.exists_mem_of_ne_nil _ h
  intro h0
  have := (freqTable_keys data x).mpr hx
  rw [h0] at this
  simp at this

theorem freqTable_length_two {data : List T} {x y : T} (hx : x ∈ data) (hy : y ∈ data) (hxy : x ≠ y) :
    2 ≤ (freqTable data).length := by
  have h1 := (freqTable_keys data x).mpr hx
  have h2 := (freqTable_keys data y).mpr hy
  match hft : freqTable data with
  | [] => rw [hft] at h1; simp at h1
  | [p] =>
    rw [hft] at h1 h2
    simp only [List.map_cons, List.map_nil, List.mem_singleton] at h1 h2
    exact absurd (h1.trans h2.symm) hxy
  | _ :: _ :: _ => simp

/-- What `new` returns. -/
theorem new_ok {ord : List (Node T × Nat) → List (Node T × Nat)} (hord : ∀ l, (ord l).Perm l)
    (data : List T) (h : data ≠ []) :
    ∃ root, new ord data = .ok (ofRoot root) ∧ nodeTree ord (freqTable data) = .ok root ∧
      root.leaves.Nodup ∧ (∀ x, x ∈ root.leaves ↔ x ∈ data) ∧
      ((∃ x ∈ data, ∃ y ∈ data, x ≠ y) → ∃ l r, root = .branch l r) := by
  obtain ⟨root, e, p, hb⟩ := nodeTree_ok hord (freqTable data) (freqTable_ne_nil h)
  refine ⟨root, by simp [new, e], e, p.nodup_iff.mpr (freqTable_nodup data), ?_, ?_⟩
  · intro x
    rw [p.mem_iff, freqTable_keys]
  · rintro ⟨x, hx, y, hy, hxy⟩
    exact hb (freqTable_length_two hx hy hxy)

/-! ## Codes -/

/-- The code that the table ends up holding for a symbol: that of its last leaf, right subtrees being
visited last. -/
def codeOf : Node T → T → Option (List Bool)
  | .leaf t, x => if x = t then some [] else none
  | .branch l r, x =>
    match codeOf r x with
    | some c => some (false :: c)
    | none => (codeOf l x).map (true :: ·)

theorem addNode_eq (n : Node T) (tbl : T → Option Bits) (p : List Bool) (x : T) :
    addNode n tbl (Bits.ofList p) x =
      match codeOf n x with
      | some c => some (Bits.ofList (p ++ c))
      | none => tbl x := by
  induction n generalizing tbl p with
  | leaf t =>
    simp only [addNode, codeOf]
    split_ifs <;> simp
  | branch l r ihl ihr =>
    simp only [addNode, Bits.push_ofList, ihr, ihl, codeOf]
    cases codeOf r x with
    | some c => simp
    | none =>
      cases codeOf l x <;> simp

theorem toBits_ofRoot (root : Node T) (x : T) :
    (ofRoot root).toBits x = (codeOf root x).map Bits.ofList := by
  show addNode root (fun _ => none) Bits.empty x = _
  rw [Bits.empty_eq, addNode_eq]
  cases codeOf root x <;> simp

theorem codeOf_isSome (n : Node T) (x : T) : (codeOf n x).isSome ↔ x ∈ n.leaves := by
  induction n with
  | leaf t => simp only [codeOf, Node.leaves]; split_ifs with h <;> simp [h]
  | branch l r ihl ihr =>
    simp only [codeOf, Node.leaves, List.mem_append, ← ihl, ← ihr]
    cases codeOf r x <;> cases codeOf l x <;> simp

/-- The subtree at a path. -/
def sub {T : Type} : Node T → List Bool → Option (Node T)
  | n, [] => some n
  | .leaf _, _ :: _ => none
  | .branch l r, b :: p => sub (if b then l else r) p

theorem sub_codeOf {n : Node T} {x : T} {c : List Bool} (h : codeOf n x = some c) :
    sub n c = some (.leaf x) := by
  induction n generalizing c with
  | leaf t =>
    simp only [codeOf] at h
    split_ifs at h with hx
    cases h; subst hx; rfl
  | branch l r ihl ihr =>
    simp only [codeOf] at h
    cases hr : codeOf r x with
    | some d => rw [hr] at h; cases h; simpa [sub] using ihr hr
    | none =>
      rw [hr] at h
      cases hl : codeOf l x with
      | some d => rw [hl] at h; cases h; simpa [sub] using ihl hl
      | none => rw [hl] at h; cases h

theorem mem_leaves_of_sub {n : Node T} {x : T} {c : List Bool} (h : sub n c = some (.leaf x)) :
    x ∈ n.leaves := by
  induction n generalizing c with
  | leaf t =>
    cases c with
    | nil => simp only [sub, Option.some.injEq, Node.leaf.injEq] at h; simp [Node.leaves, h]
    | cons b c => simp [sub] at h
  | branch l r ihl ihr =>
    cases c with
    | nil => simp [sub] at h
    | cons b c =>
      simp only [sub] at h
      simp only [Node.leaves, List.mem_append]
      cases b
      · exact .inr (ihr (by simpa using h))
      · exact .inl (ihl (by simpa using h))

theorem codeOf_of_sub {n : Node T} {x : T} {c : List Bool} (hn : n.leaves.Nodup)
    (h : sub n c = some (.leaf x)) : codeOf n x = some c := by
  induction n generalizing c with
  | leaf t =>
    cases c with
    | nil => simp only [sub, Option.some.injEq, Node.leaf.injEq] at h; simp [codeOf, h]
    | cons b c => simp [sub] at h
  | branch l r ihl ihr =>
    simp only [Node.leaves, List.nodup_append] at hn
    cases c with
    | nil => simp [sub] at h
    | cons b c =>
      simp only [sub] at h
      cases b
      · have := ihr hn.2.1 (by simpa using h)
        simp [codeOf, this]
      · have h' : sub l c = some (.leaf x) := by simpa using h
        have hx := mem_leaves_of_sub h'
        have hr : codeOf r x = none := by
          rw [← Option.not_isSome_iff_eq_none, codeOf_isSome]
          intro hc
          exact hn.2.2 x hx x hc rfl
        simp [codeOf, hr, ihl hn.1 h']

theorem sub_append {n : Node T} {p q : List Bool} :
    sub n (p ++ q) = (sub n p).bind (fun m => sub m q) := by
  induction p generalizing n with
  | nil => cases n <;> simp [sub]
  | cons b p ih => cases n <;> simp [sub, ih]

/-- Number of nodes. -/
def size {T : Type} : Node T → Nat
  | .leaf _ => 1
  | .branch l r => size l + size r + 1

theorem sub_size {n m : Node T} {p : List Bool} (h : sub n p = some m) :
    size m + p.length ≤ size n := by
  induction p generalizing n with
  | nil => cases n <;> simp only [sub, Option.some.injEq] at h <;> subst h <;> simp
  | cons b p ih =>
    cases n with
    | leaf t => simp [sub] at h
    | branch l r =>
      have := ih h
      simp only [size, List.length_cons]
      cases b <;> simp at this <;> omega

theorem sub_self {n : Node T} {p : List Bool} (h : sub n p = some n) : p = [] := by
  have := sub_size h
  exact List.length_eq_zero_iff.mp (by omega)

/-! ## Encoding and decoding -/

theorem encodeAux_eq (root : Node T) (xs : List T) (acc : List Bool) :
    (∀ cs : List (List Bool), xs.map (codeOf root) = cs.map some →
      encodeAux (ofRoot root).toBits xs (Bits.ofList acc) = .ok (Bits.ofList (acc ++ cs.flatten))) ∧
    ((∃ x ∈ xs, codeOf root x = none) →
      encodeAux (ofRoot root).toBits xs (Bits.ofList acc) = .err .unableToCode) := by
  induction xs generalizing acc with
  | nil =>
    constructor
    · intro cs h
      have : cs = [] := by simpa using h.symm
      subst this; simp [encodeAux]
    · simp
  | cons x xs ih =>
    constructor
    · intro cs h
      cases cs with
      | nil => simp at h
      | cons c cs =>
        simp only [List.map_cons, List.cons.injEq] at h
        simp only [encodeAux, toBits_ofRoot, h.1, Option.map_some, Bits.pushMany_ofList,
          Out.mapErr_ok, Out.ok_bind]
        rw [(ih (acc ++ c)).1 cs h.2]
        simp
    · rintro ⟨y, hy, hn⟩
      cases hx : codeOf root x with
      | none => simp [encodeAux, toBits_ofRoot, hx]
      | some c =>
        simp only [encodeAux, toBits_ofRoot, hx, Option.map_some, Bits.pushMany_ofList,
          Out.mapErr_ok, Out.ok_bind]
        refine (ih (acc ++ c)).2 ⟨y, ?_, hn⟩
        rcases List.mem_cons.mp hy with rfl | hy
        · rw [hx] at hn; cases hn
        · exact hy

theorem exists_codes (root : Node T) (xs : List T) (h : ∀ x ∈ xs, x ∈ root.leaves) :
    ∃ cs : List (List Bool), xs.map (codeOf root) = cs.map some := by
  induction xs with
  | nil => exact ⟨[], rfl⟩
  | cons x xs ih =>
    obtain ⟨cs, hcs⟩ := ih (fun y hy => h y (by simp [hy]))
    obtain ⟨c, hc⟩ := Option.isSome_iff_exists.mp ((codeOf_isSome root x).mpr (h x (by simp)))
    exact ⟨c :: cs, by simp [hc, hcs]⟩

theorem encode_ok (root : Node T) {xs : List T} {cs : List (List Bool)}
    (h : xs.map (codeOf root) = cs.map some) :
    (ofRoot root).encode xs = .ok (Bits.ofList cs.flatten) := by
  have := (encodeAux_eq root xs []).1 cs h
  simpa [encode, Bits.empty_eq] using this

theorem encode_err (root : Node T) {xs : List T} (h : ∃ x ∈ xs, x ∉ root.leaves) :
    (ofRoot root).encode xs = .err .unableToCode := by
  obtain ⟨x, hx, hn⟩ := h
  refine (encodeAux_eq root xs []).2 ⟨x, hx, ?_⟩
  rw [← Option.not_isSome_iff_eq_none, codeOf_isSome]
  exact hn

theorem decode_ofList (root : Node T) (l : List Bool) :
    (ofRoot root).decode (Bits.ofList l) = decodeAux root root [] l := by
  simp [decode, Bits.toBools_ofList, ofRoot]

theorem decodeAux_walk (root cur : Node T) (hcur : ∃ l r, cur = .branch l r) (x : T) (c rest : List Bool)
    (acc : List T) (h : sub cur c = some (.leaf x)) :
    decodeAux root cur acc (c ++ rest) = decodeAux root root (acc ++ [x]) rest := by
  induction c generalizing cur with
  | nil =>
    obtain ⟨l, r, rfl⟩ := hcur
    simp [sub] at h
  | cons b c ih =>
    obtain ⟨l, r, rfl⟩ := hcur
    simp only [sub] at h
    simp only [List.cons_append, decodeAux]
    cases hf : (if b then l else r) with
    | leaf t =>
      rw [hf] at h
      cases c with
      | nil =>
        simp only [sub, Option.some.injEq, Node.leaf.injEq] at h
        simp [h]
      | cons b' c => simp [sub] at h
    | branch l' r' =>
      rw [hf] at h
      exact ih _ ⟨l', r', rfl⟩ h

theorem decodeAux_codes (root : Node T) (hroot : ∃ l r, root = .branch l r) (xs : List T)
    (cs : List (List Bool)) (h : xs.map (codeOf root) = cs.map some) (acc : List T) :
    decodeAux root root acc cs.flatten = .ok (acc ++ xs) := by
  induction xs generalizing cs acc with
  | nil =>
    have : cs = [] := by simpa using h.symm
    subst this
    obtain ⟨l, r, rfl⟩ := hroot
    simp [decodeAux]
  | cons x xs ih =>
    cases cs with
    | nil => simp at h
    | cons c cs =>
      simp only [List.map_cons, List.cons.injEq] at h
      rw [List.flatten_cons, decodeAux_walk root root hroot x c _ acc (sub_codeOf h.1), ih cs h.2]
      simp

/-- A successful decoding spells out paths to leaves. -/
theorem decodeAux_inv (root : Node T) (hroot : ∃ l r, root = .branch l r) (bs : List Bool) :
    ∀ (cur : Node T) (p : List Bool) (acc : List T), (∃ l r, cur = .branch l r) →
      sub root p = some cur →
      (∀ r, decodeAux root cur acc bs ≠ .panic r) ∧
      ∀ res, decodeAux root cur acc bs = .ok res →
        ∃ (ys : List T) (cs : List (List Bool)), res = acc ++ ys ∧ cs.flatten = p ++ bs ∧
          List.Forall₂ (fun y c => sub root c = some (.leaf y)) ys cs := by
  induction bs with
  | nil =>
    intro cur p acc hcur hsub
    simp only [decodeAux]
    constructor
    · intro r; split_ifs <;> simp
    · intro res h
      split_ifs at h with hc
      · simp only [ne_eq, Decidable.not_not] at hc
        subst hc
        have := sub_self hsub
        subst this
        simp only [Out.ok.injEq] at h
        exact ⟨[], [], by simp [h], by simp, .nil⟩
  | cons b bs ih =>
    intro cur p acc hcur hsub
    obtain ⟨l, r, rfl⟩ := hcur
    have hstep : sub root (p ++ [b]) = some (if b then l else r) := by
      rw [sub_append, hsub]; simp [sub]
    simp only [decodeAux]
    cases hf : (if b then l else r) with
    | leaf t =>
      rw [hf] at hstep
      have := ih root [] (acc ++ [t]) hroot (by obtain ⟨l, r, rfl⟩ := hroot; rfl)
      refine ⟨this.1, ?_⟩
      intro res h
      obtain ⟨ys, cs, h1, h2, h3⟩ := this.2 res h
      exact ⟨t :: ys, (p ++ [b]) :: cs, by simp [h1], by simp [h2], .cons hstep h3⟩
    | branch l' r' =>
      rw [hf] at hstep
      have := ih (.branch l' r') (p ++ [b]) acc ⟨l', r', rfl⟩ hstep
      refine ⟨this.1, ?_⟩
      intro res h
      obtain ⟨ys, cs, h1, h2, h3⟩ := this.2 res h
      exact ⟨ys, cs, h1, by simp [h2], h3⟩

theorem forall2_codes {root : Node T} (hn : root.leaves.Nodup) {ys : List T} {cs : List (List Bool)}
    (h : List.Forall₂ (fun y c => sub root c = some (.leaf y)) ys cs) :
    ys.map (codeOf root) = cs.map some := by
  induction h with
  | nil => rfl
  | cons h1 _ ih => simp [codeOf_of_sub hn h1, ih]

end Huffman

end Souris
