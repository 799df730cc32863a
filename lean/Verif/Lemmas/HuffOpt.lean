import Verif.Lemmas.Huffman
import Mathlib.Algebra.Order.Field.Rat
import Mathlib.Algebra.BigOperators.Group.List.Basic
import Mathlib.Tactic.Linarith
import Mathlib.Tactic.Ring
import Mathlib.Tactic.Positivity
import Mathlib.Tactic.NormNum

/-! # Optimality of the Huffman construction, through the Kraft inequality -/

namespace Souris

namespace Huffman

/-- The Kraft sum of a list of depths. -/
def kraft (ds : List Nat) : ℚ := (ds.map (fun d => (1 / 2 : ℚ) ^ d)).sum

theorem kraft_nil : kraft [] = 0 := rfl

theorem kraft_cons (d : Nat) (ds : List Nat) : kraft (d :: ds) = (1 / 2 : ℚ) ^ d + kraft ds := by
  simp [kraft]

theorem kraft_perm {ds ds' : List Nat} (h : ds.Perm ds') : kraft ds = kraft ds' :=
  (h.map _).sum_eq

theorem half_pow_pos (d : Nat) : (0 : ℚ) < (1 / 2 : ℚ) ^ d := by positivity

theorem kraft_nonneg (ds : List Nat) : 0 ≤ kraft ds := by
  induction ds with
  | nil => simp [kraft_nil]
  | cons d ds ih => rw [kraft_cons]; have := half_pow_pos d; linarith

theorem half_pow_mul {d M : Nat} (h : d ≤ M) : (1 / 2 : ℚ) ^ d * 2 ^ M = ((2 ^ (M - d) : Nat) : ℚ) := by
  obtain ⟨k, rfl⟩ := Nat.exists_eq_add_of_le h
  rw [Nat.add_sub_cancel_left, pow_add, ← mul_assoc, ← mul_pow]
  norm_num

theorem kraft_int (ds : List Nat) (M : Nat) (h : ∀ d ∈ ds, d ≤ M) :
    ∃ k : Nat, kraft ds * 2 ^ M = (k : ℚ) := by
  induction ds with
  | nil => exact ⟨0, by simp [kraft_nil]⟩
  | cons d ds ih =>
    obtain ⟨k, hk⟩ := ih (fun x hx => h x (by simp [hx]))
    refine ⟨2 ^ (M - d) + k, ?_⟩
    rw [kraft_cons, add_mul, hk, half_pow_mul (h d (by simp))]
    push_cast; ring

/-- Weighted depth sum. -/
def wcost {β : Type} (w : β → Nat) (L : List (β × Nat)) : Nat := (L.map (fun p => w p.1 * p.2)).sum

/-- Give the greatest depth to a least-weight item. -/
theorem sink {β : Type} (w : β → Nat) (a : β) (da : Nat) (L : List (β × Nat))
    (h : ∀ p ∈ L, w a ≤ w p.1) :
    ∃ d L', L'.map Prod.fst = L.map Prod.fst ∧
      (d :: L'.map Prod.snd).Perm (da :: L.map Prod.snd) ∧
      (∀ p ∈ L', p.2 ≤ d) ∧ w a * d + wcost w L' ≤ w a * da + wcost w L := by
  induction L with
  | nil => exact ⟨da, [], rfl, List.Perm.refl _, by simp, Nat.le_refl _⟩
  | cons p L ih =>
    obtain ⟨b, db⟩ := p
    obtain ⟨d, L', h1, h2, h3, h4⟩ := ih (fun p hp => h p (by simp [hp]))
    have hw : w a ≤ w b := h (b, db) (by simp)
    by_cases hd : d < db
    · refine ⟨db, (b, d) :: L', by simp [h1], ?_, ?_, ?_⟩
      · simp only [List.map_cons]
        exact ((List.Perm.cons _ h2)).trans (List.Perm.swap _ _ _)
      · intro p hp
        rcases List.mem_cons.mp hp with rfl | hp
        · exact Nat.le_of_lt hd
        · exact Nat.le_trans (h3 p hp) (Nat.le_of_lt hd)
      · simp only [wcost, List.map_cons, List.sum_cons] at h4 ⊢
        obtain ⟨e, rfl⟩ := Nat.exists_eq_add_of_lt hd
        obtain ⟨v, hv⟩ := Nat.exists_eq_add_of_le hw
        rw [hv] at *
        nlinarith
    · refine ⟨d, (b, db) :: L', by simp [h1], ?_, ?_, ?_⟩
      · simp only [List.map_cons]
        exact (List.Perm.swap _ _ _).trans ((List.Perm.cons _ h2).trans (List.Perm.swap _ _ _))
      · intro p hp
        rcases List.mem_cons.mp hp with rfl | hp
        · exact Nat.le_of_not_lt hd
        · exact h3 p hp
      · simp only [wcost, List.map_cons, List.sum_cons] at h4 ⊢
        omega

/-- Merging two least-weight items keeps the Kraft inequality and saves their weight. -/
theorem merge_step {β : Type} (w : β → Nat) (a b : β) (da db : Nat) (L : List (β × Nat))
    (hab : w a ≤ w b) (hL : ∀ p ∈ L, w b ≤ w p.1)
    (hk : kraft (da :: db :: L.map Prod.snd) ≤ 1) :
    ∃ d L', L'.map Prod.fst = L.map Prod.fst ∧ kraft (d :: L'.map Prod.snd) ≤ 1 ∧
      (w a + w b) * d + wcost w L' + (w a + w b) ≤ w a * da + w b * db + wcost w L := by
  obtain ⟨d1, M, m1, m2, m3, m4⟩ := sink w a da ((b, db) :: L) (by
    intro p hp
    rcases List.mem_cons.mp hp with rfl | hp
    · exact hab
    · exact Nat.le_trans hab (hL p hp))
  obtain ⟨db', L1, rfl, e1⟩ : ∃ db' L1, M = (b, db') :: L1 ∧ L1.map Prod.fst = L.map Prod.fst := by
    cases M with
    | nil => simp at m1
    | cons p L1 =>
      obtain ⟨b', db'⟩ := p
      simp only [List.map_cons, List.cons.injEq] at m1
      exact ⟨db', L1, by rw [m1.1], m1.2⟩
  have hL1 : ∀ p ∈ L1, w b ≤ w p.1 := by
    intro p hp
    have : p.1 ∈ L.map Prod.fst := e1 ▸ List.mem_map_of_mem hp
    obtain ⟨q, hq, hqe⟩ := List.mem_map.mp this
    rw [← hqe]; exact hL q hq
  obtain ⟨e, L2, n1, n2, n3, n4⟩ := sink w b db' L1 hL1
  have hed : e ≤ d1 := by
    have : e ∈ db' :: L1.map Prod.snd := n2.subset (by simp)
    rcases List.mem_cons.mp this with h | h
    · rw [h]; exact m3 (b, db') (by simp)
    · obtain ⟨q, hq, hqe⟩ := List.mem_map.mp h
      rw [← hqe]; exact m3 q (by simp [hq])
  have hk1 : kraft (d1 :: e :: L2.map Prod.snd) ≤ 1 := by
    have : (d1 :: e :: L2.map Prod.snd).Perm (da :: db :: L.map Prod.snd) :=
      (List.Perm.cons _ n2).trans m2
    rw [kraft_perm this]; exact hk
  obtain ⟨k, hkk⟩ := kraft_int (e :: L2.map Prod.snd) e (by
    intro d hd
    rcases List.mem_cons.mp hd with rfl | hd
    · exact Nat.le_refl _
    · obtain ⟨q, hq, hqe⟩ := List.mem_map.mp hd
      rw [← hqe]; exact n3 q hq)
  have hpe : (0 : ℚ) < 2 ^ e := by positivity
  have hlt : k < 2 ^ e := by
    rw [kraft_cons] at hk1
    have h0 := half_pow_pos d1
    have h1 : kraft (e :: L2.map Prod.snd) < 1 := by linarith
    have h2 : (k : ℚ) < 2 ^ e := by
      rw [← hkk]; nlinarith
    exact_mod_cast h2
  have he1 : 1 ≤ e := by
    rcases Nat.eq_zero_or_pos e with h0 | h0
    · subst h0
      have hk0 : k = 0 := by simpa using hlt
      rw [hk0, kraft_cons] at hkk
      have := kraft_nonneg (L2.map Prod.snd)
      norm_num at hkk
      linarith
    · exact h0
  have hk2 : kraft (e :: e :: L2.map Prod.snd) ≤ 1 := by
    have h1 : (k : ℚ) + 1 ≤ 2 ^ e := by exact_mod_cast hlt
    have h2 : (1 / 2 : ℚ) ^ e * 2 ^ e = 1 := by
      rw [half_pow_mul (Nat.le_refl e)]; simp
    rw [kraft_cons]
    have h3 : ((1 / 2 : ℚ) ^ e + kraft (e :: L2.map Prod.snd)) * 2 ^ e ≤ 1 * 2 ^ e := by
      rw [add_mul, h2, hkk]; linarith
    exact le_of_mul_le_mul_right h3 hpe
  refine ⟨e - 1, L2, n1.trans e1, ?_, ?_⟩
  · rw [kraft_cons, kraft_cons] at hk2
    rw [kraft_cons]
    obtain ⟨j, rfl⟩ := Nat.exists_eq_add_of_le' he1
    rw [Nat.add_sub_cancel]
    rw [pow_succ] at hk2
    linarith
  · obtain ⟨j, rfl⟩ := Nat.exists_eq_add_of_le' he1
    rw [Nat.add_sub_cancel]
    simp only [wcost, List.map_cons, List.sum_cons] at m4 n4 ⊢
    have : w a * (j + 1) ≤ w a * d1 := Nat.mul_le_mul_left _ hed
    nlinarith

theorem perm_lift {α β : Type} (f : α → β) {L L' : List β} (h : L.Perm L') :
    ∀ P : List α, P.map f = L → ∃ P', P.Perm P' ∧ P'.map f = L' := by
  induction h with
  | nil => intro P hP; exact ⟨P, List.Perm.refl _, hP⟩
  | cons x _ ih =>
    intro P hP
    cases P with
    | nil => simp at hP
    | cons p P =>
      simp only [List.map_cons, List.cons.injEq] at hP
      obtain ⟨P', h1, h2⟩ := ih P hP.2
      exact ⟨p :: P', List.Perm.cons _ h1, by simp [hP.1, h2]⟩
  | swap x y l =>
    intro P hP
    match P with
    | [] => simp at hP
    | [p] => simp at hP
    | p :: q :: P =>
      simp only [List.map_cons, List.cons.injEq] at hP
      exact ⟨q :: p :: P, List.Perm.swap _ _ _, by simp [hP]⟩
  | trans _ _ ih1 ih2 =>
    intro P hP
    obtain ⟨P1, h1, h2⟩ := ih1 P hP
    obtain ⟨P2, h3, h4⟩ := ih2 P1 h2
    exact ⟨P2, h1.trans h3, h4⟩

set_option linter.unusedSectionVars false

variable {T : Type} [DecidableEq T]

/-- Total weight of a tree. -/
def wt (f : T → Nat) : Node T → Nat
  | .leaf t => f t
  | .branch l r => wt f l + wt f r

/-- Weighted path length of a tree. -/
def ncost (f : T → Nat) : Node T → Nat
  | .leaf _ => 0
  | .branch l r => ncost f l + ncost f r + (wt f l + wt f r)

theorem sum_split {α : Type} (f g : α → Nat) (l : List α) :
    (l.map (fun x => f x + g x)).sum = (l.map f).sum + (l.map g).sum := by
  induction l with
  | nil => rfl
  | cons a l ih => simp only [List.map_cons, List.sum_cons, ih]; omega

theorem build_opt (f : T → Nat) (fuel : Nat) (heap : List (Node T × Nat)) (root : Node T)
    (he : build fuel heap = .ok root) (hne : heap ≠ []) (hw : ∀ p ∈ heap, p.2 = wt f p.1)
    (P : List ((Node T × Nat) × Nat)) (hP : (P.map Prod.fst).Perm heap)
    (hk : kraft (P.map Prod.snd) ≤ 1) :
    ncost f root ≤ (P.map (fun q => ncost f q.1.1 + q.1.2 * q.2)).sum := by
  induction fuel generalizing heap P with
  | zero => simp [build] at he
  | succ fuel ih =>
    rcases build_step fuel heap hne with ⟨a, w, rfl, e⟩ | ⟨a, wa, b, wb, rest, p, hab, hr, e⟩
    · rw [e] at he
      simp only [Out.ok.injEq] at he
      subst he
      have h1 := List.perm_singleton.mp hP
      cases P with
      | nil => simp at h1
      | cons q P =>
        simp only [List.map_cons, List.cons.injEq, List.map_eq_nil_iff] at h1
        rw [List.map_cons, List.sum_cons, h1.1]
        simp only
        omega
    · rw [e] at he
      obtain ⟨P', p1, p2⟩ := perm_lift Prod.fst (hP.trans p.symm) P rfl
      obtain ⟨da, db, L, rfl, hL⟩ : ∃ da db L, P' = ((a, wa), da) :: ((b, wb), db) :: L ∧
          L.map Prod.fst = rest := by
        cases P' with
        | nil => simp at p2
        | cons x P' =>
          cases P' with
          | nil => simp at p2
          | cons y L =>
            simp only [List.map_cons, List.cons.injEq] at p2
            exact ⟨x.2, y.2, L, by rw [← p2.1, ← p2.2.1], p2.2.2⟩
      have hk' : kraft (da :: db :: L.map Prod.snd) ≤ 1 := by
        have := kraft_perm (p1.map Prod.snd)
        simp only [List.map_cons] at this
        rw [← this]; exact hk
      obtain ⟨d, L', l1, l2, l3⟩ := merge_step (Prod.snd : Node T × Nat → Nat) (a, wa) (b, wb) da db L
        hab (by
          intro q hq
          exact hr q.1 (hL ▸ List.mem_map_of_mem hq)) hk'
      have hwa : wa = wt f a := hw (a, wa) (p.subset (by simp))
      have hwb : wb = wt f b := hw (b, wb) (p.subset (by simp))
      have := ih (rest ++ [(Node.branch a b, wa + wb)]) he (by simp) (by
        intro q hq
        rcases List.mem_append.mp hq with hq | hq
        · exact hw q (p.subset (by simp [hq]))
        · simp only [List.mem_singleton] at hq
          subst hq
          simp [wt, hwa, hwb]) (L' ++ [((Node.branch a b, wa + wb), d)]) (by
        simp [l1, hL]) (by
        have hp : ((L' ++ [((Node.branch a b, wa + wb), d)]).map Prod.snd).Perm
            (d :: L'.map Prod.snd) := by
          simp only [List.map_append, List.map_cons, List.map_nil]
          exact List.perm_append_singleton _ _
        rw [kraft_perm hp]; exact l2)
      refine this.trans ?_
      rw [(p1.map _).sum_eq]
      have hs : ∀ M : List ((Node T × Nat) × Nat),
          (M.map (fun q => ncost f q.1.1 + q.1.2 * q.2)).sum
            = ((M.map Prod.fst).map (fun q => ncost f q.1)).sum + wcost Prod.snd M := by
        intro M
        rw [sum_split (fun q : (Node T × Nat) × Nat => ncost f q.1.1) (fun q => q.1.2 * q.2),
          List.map_map]
        rfl
      simp only [List.map_append, List.sum_append, List.map_cons, List.map_nil, List.sum_cons,
        List.sum_nil, Nat.add_zero]
      rw [hs L', hs L, l1]
      simp only [ncost]
      rw [← hwa, ← hwb]
      simp only at l3
      omega

/-! ## Weighted path length and code lengths -/

/-- Length of the code of a symbol. -/
def codeLen (n : Node T) (x : T) : Nat := ((codeOf n x).getD []).length

theorem wt_eq (f : T → Nat) (n : Node T) : wt f n = (n.leaves.map f).sum := by
  induction n with
  | leaf t => simp [wt, Node.leaves]
  | branch l r ihl ihr => simp [wt, Node.leaves, ihl, ihr]

theorem ncost_eq (f : T → Nat) (n : Node T) (hn : n.leaves.Nodup) :
    ncost f n = (n.leaves.map (fun x => f x * codeLen n x)).sum := by
  induction n with
  | leaf t => simp [ncost, Node.leaves, codeLen, codeOf]
  | branch l r ihl ihr =>
    simp only [Node.leaves, List.nodup_append] at hn
    have hl : l.leaves.map (fun x => f x * codeLen (.branch l r) x)
        = l.leaves.map (fun x => f x * codeLen l x + f x) := by
      apply List.map_congr_left
      intro x hx
      have hr : codeOf r x = none := by
        rw [← Option.not_isSome_iff_eq_none, codeOf_isSome]
        intro hc
        exact hn.2.2 x hx x hc rfl
      obtain ⟨c, hc⟩ := Option.isSome_iff_exists.mp ((codeOf_isSome l x).mpr hx)
      simp [codeLen, codeOf, hr, hc, Nat.mul_add]
    have hr : r.leaves.map (fun x => f x * codeLen (.branch l r) x)
        = r.leaves.map (fun x => f x * codeLen r x + f x) := by
      apply List.map_congr_left
      intro x hx
      obtain ⟨c, hc⟩ := Option.isSome_iff_exists.mp ((codeOf_isSome r x).mpr hx)
      simp [codeLen, codeOf, hc, Nat.mul_add]
    simp only [Node.leaves, List.map_append, List.sum_append, hl, hr,
      sum_split (fun x => f x * codeLen l x) f, sum_split (fun x => f x * codeLen r x) f,
      ncost, ihl hn.1, ihr hn.2.1, wt_eq]
    omega

theorem bump_count (x : T) (l : List (T × Nat)) (c : T → Nat) (hl : (l.map Prod.fst).Nodup)
    (h : ∀ p ∈ l, p.2 = c p.1) (h0 : ∀ y, y ∉ l.map Prod.fst → c y = 0) :
    ∀ p ∈ bump x l, p.2 = c p.1 + if p.1 = x then 1 else 0 := by
  induction l generalizing c with
  | nil =>
    intro p hp
    simp only [bump, List.mem_singleton] at hp
    subst hp
    simp [h0 x (by simp)]
  | cons q l ih =>
    obtain ⟨z, n⟩ := q
    simp only [List.map_cons, List.nodup_cons] at hl
    intro p hp
    unfold bump at hp
    split_ifs at hp with hx
    · subst hx
      rcases List.mem_cons.mp hp with rfl | hp
      · have := h (x, n) (by simp)
        simp only at this
        simp [this]
      · have hpx : p.1 ≠ x := by
          intro he
          exact hl.1 (he ▸ List.mem_map_of_mem hp)
        rw [if_neg hpx, h p (by simp [hp])]; rfl
    · rcases List.mem_cons.mp hp with rfl | hp
      · have := h (z, n) (by simp)
        simp only at this
        rw [if_neg (fun e => hx e.symm), this]; rfl
      · have := ih (fun y => if y = z then 0 else c y) hl.2 (by
          intro p' hp'
          have : p'.1 ≠ z := fun he => hl.1 (he ▸ List.mem_map_of_mem hp')
          simp only [if_neg this]
          exact h p' (by simp [hp'])) (by
          intro y hy
          by_cases hyz : y = z
          · simp [hyz]
          · simp only [if_neg hyz]
            exact h0 y (by simp only [List.map_cons, List.mem_cons]; tauto)) p hp
        have hpz : p.1 ≠ z := by
          intro he
          have h3 : p.1 ∈ (bump x l).map Prod.fst := List.mem_map_of_mem hp
          rw [bump_keys] at h3
          rcases h3 with h3 | h3
          · exact hx (h3 ▸ he)
          · exact hl.1 (he ▸ h3)
        simpa only [if_neg hpz] using this

theorem freqTable_count (data : List T) : ∀ p ∈ freqTable data, p.2 = data.count p.1 := by
  have key : ∀ (data : List T) (l : List (T × Nat)) (c : T → Nat), (l.map Prod.fst).Nodup →
      (∀ p ∈ l, p.2 = c p.1) → (∀ y, y ∉ l.map Prod.fst → c y = 0) →
      ∀ p ∈ data.foldl (fun l x => bump x l) l, p.2 = c p.1 + data.count p.1 := by
    intro data
    induction data with
    | nil => intro l c _ h _ p hp; simpa using h p hp
    | cons x data ih =>
      intro l c hl h h0 p hp
      rw [List.foldl_cons] at hp
      have := ih (bump x l) (fun y => c y + if y = x then 1 else 0) (bump_nodup x l hl)
        (bump_count x l c hl h h0) (by
          intro y hy
          rw [bump_keys] at hy
          have hyx : y ≠ x := fun h => hy (.inl h)
          have hyl : y ∉ l.map Prod.fst := fun h => hy (.inr h)
          simp [hyx, h0 y hyl]) p hp
      rw [this, List.count_cons]
      simp only [beq_iff_eq]
      by_cases hpx : p.1 = x
      · simp [hpx]; omega
      · rw [if_neg hpx, if_neg (fun h => hpx h.symm)]; omega
  intro p hp
  have := key data [] (fun _ => 0) (by simp) (by simp) (by simp) p hp
  simpa using this

/-! ## The Kraft inequality for prefix-free codes -/

/-- The tails of the words starting with `b`. -/
def tails (b : Bool) (cs : List (List Bool)) : List (List Bool) :=
  cs.filterMap (fun c => match c with
    | [] => none
    | b' :: t => if b' = b then some t else none)

theorem kraft_tails (cs : List (List Bool)) (h : [] ∉ cs) :
    kraft (cs.map List.length)
      = 1 / 2 * (kraft ((tails true cs).map List.length) + kraft ((tails false cs).map List.length)) := by
  induction cs with
  | nil => simp [tails, kraft_nil]
  | cons c cs ih =>
    have hcs := ih (fun hc => h (by simp [hc]))
    match c with
    | [] => simp at h
    | true :: t =>
      have h1 : tails true ((true :: t) :: cs) = t :: tails true cs := by simp [tails]
      have h2 : tails false ((true :: t) :: cs) = tails false cs := by simp [tails]
      rw [h1, h2, List.map_cons, kraft_cons, List.map_cons, kraft_cons, hcs, List.length_cons, pow_succ]
      ring
    | false :: t =>
      have h1 : tails true ((false :: t) :: cs) = tails true cs := by simp [tails]
      have h2 : tails false ((false :: t) :: cs) = t :: tails false cs := by simp [tails]
      rw [h1, h2, List.map_cons, kraft_cons, List.map_cons, kraft_cons, hcs, List.length_cons, pow_succ]
      ring

/-- Neither word is a prefix of the other. -/
def Incomp (a b : List Bool) : Prop := ¬ a <+: b ∧ ¬ b <+: a

theorem tails_pairwise (b : Bool) {cs : List (List Bool)} (h : cs.Pairwise Incomp) :
    (tails b cs).Pairwise Incomp := by
  unfold tails
  refine List.Pairwise.filterMap _ ?_ h
  intro a a' haa x hx y hy
  cases a with
  | nil => simp at hx
  | cons b1 t1 =>
    cases a' with
    | nil => simp at hy
    | cons b2 t2 =>
      simp only [Option.ite_none_right_eq_some, Option.some.injEq] at hx hy
      obtain ⟨rfl, rfl⟩ := hx
      obtain ⟨rfl, rfl⟩ := hy
      unfold Incomp at haa ⊢
      simpa [List.cons_prefix_cons] using haa

theorem kraft_prefixFree (N : Nat) (cs : List (List Bool)) (hN : ∀ c ∈ cs, c.length ≤ N)
    (h : cs.Pairwise Incomp) : kraft (cs.map List.length) ≤ 1 := by
  induction N generalizing cs with
  | zero =>
    match cs, h with
    | [], _ => simp [kraft_nil]
    | [c], _ =>
      have : c = [] := List.length_eq_zero_iff.mp (by have := hN c (by simp); omega)
      subst this; simp [kraft_cons, kraft_nil]
    | a :: b :: cs, h =>
      have ha : a = [] := List.length_eq_zero_iff.mp (by have := hN a (by simp); omega)
      subst ha
      have := (List.pairwise_cons.mp h).1 b (by simp)
      exact absurd (List.nil_prefix) this.1
  | succ N ih =>
    match cs, h with
    | [], _ => simp [kraft_nil]
    | [c], _ =>
      simp only [List.map_cons, List.map_nil, kraft_cons, kraft_nil, add_zero]
      exact pow_le_one₀ (by norm_num) (by norm_num)
    | a :: b :: cs, h =>
      have hnil : [] ∉ a :: b :: cs := by
        intro hm
        have hh := (List.pairwise_cons.mp h).1
        rcases List.mem_cons.mp hm with h0 | h0
        · exact (hh b (by simp)).1 (h0 ▸ List.nil_prefix)
        · exact (hh [] h0).2 List.nil_prefix
      rw [kraft_tails _ hnil]
      have hb : ∀ v, kraft ((tails v (a :: b :: cs)).map List.length) ≤ 1 := by
        intro v
        refine ih _ ?_ (tails_pairwise v h)
        intro c hc
        unfold tails at hc
        obtain ⟨d, hd, hdc⟩ := List.mem_filterMap.mp hc
        have hdl := hN d hd
        cases d with
        | nil => simp at hdc
        | cons b' t =>
          simp only [Option.ite_none_right_eq_some, Option.some.injEq] at hdc
          rw [← hdc.2]
          simp only [List.length_cons] at hdl
          omega
      have h1 := hb true
      have h2 := hb false
      linarith

theorem exists_bound (cs : List (List Bool)) : ∃ N, ∀ c ∈ cs, c.length ≤ N := by
  induction cs with
  | nil => exact ⟨0, by simp⟩
  | cons c cs ih =>
    obtain ⟨N, hN⟩ := ih
    refine ⟨max c.length N, ?_⟩
    intro d hd
    rcases List.mem_cons.mp hd with rfl | hd
    · exact Nat.le_max_left _ _
    · exact Nat.le_trans (hN d hd) (Nat.le_max_right _ _)

end Huffman

end Souris
