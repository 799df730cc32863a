import Verif.Lemmas.StdIp

/-! # Addresses as they are printed -/

namespace Souris

namespace StdText

/-! ## One group -/

theorem hexLower_mem {n : Nat} (h : n < 16) : (hexLower n, n) ∈ hexTable ∧ hexLower n ∉ ['A', 'B', 'C', 'D', 'E', 'F'] ∧
    (hexLower n = '0' → n = 0) := by
  have : ∀ m : Fin 16, (hexLower m.val, m.val) ∈ hexTable ∧ hexLower m.val ∉ ['A', 'B', 'C', 'D', 'E', 'F'] ∧
    (hexLower m.val = '0' → m.val = 0) := by decide
  exact this ⟨n, h⟩

theorem hexText_number (n : Nat) : HexNumber (hexText n) n := by
  induction n using Nat.strongRecOn with
  | ind n ih =>
    unfold hexText
    split
    · rename_i h
      have := HexNumber.digit .nil (hexLower_mem h).1
      simpa using this
    · have := HexNumber.digit (ih (n / 16) (by omega)) (hexLower_mem (n := n % 16) (by omega)).1
      rwa [show n / 16 * 16 + n % 16 = n by omega] at this

theorem hexText_lower (n : Nat) : ∀ c ∈ hexText n, c ∉ ['A', 'B', 'C', 'D', 'E', 'F'] := by
  induction n using Nat.strongRecOn with
  | ind n ih =>
    unfold hexText
    split
    · rename_i h
      intro c hc
      rw [List.mem_singleton.mp hc]
      exact (hexLower_mem h).2.1
    · intro c hc
      rcases List.mem_append.mp hc with hc | hc
      · exact ih _ (by omega) c hc
      · rw [List.mem_singleton.mp hc]
        exact (hexLower_mem (n := n % 16) (by omega)).2.1

theorem hexText_ne (n : Nat) : hexText n ≠ [] := by
  unfold hexText
  split <;> simp

/-- The first digit is zero for zero only. -/
theorem hexText_head {n : Nat} {cs : List Char} (h : hexText n = '0' :: cs) : cs = [] := by
  have key : ∀ n, (hexText n).head? = some '0' → n = 0 := by
    intro n
    induction n using Nat.strongRecOn with
    | ind n ih =>
      intro h
      unfold hexText at h
      split at h
      · rename_i hn
        exact (hexLower_mem hn).2.2 (by simpa using h)
      · rw [List.head?_append_of_ne_nil _ (hexText_ne _)] at h
        have := ih (n / 16) (by omega) h
        omega
  have : n = 0 := key n (by rw [h]; rfl)
  subst this
  have : hexText 0 = ['0'] := by
    unfold hexText
    decide
  rw [this] at h
  exact (List.cons.inj h).2.symm

theorem hexText_length {n k : Nat} (hk : 0 < k) (h : n < 16 ^ k) : (hexText n).length ≤ k := by
  induction k generalizing n with
  | zero => omega
  | succ k ih =>
    unfold hexText
    split
    · simp
    · rename_i hn
      rcases Nat.eq_zero_or_pos k with rfl | h0
      · omega
      · have := ih (n := n / 16) h0 (by rw [pow_succ] at h; omega)
        simp
        omega

theorem hexText_group (g : UInt16) : GroupText (hexText g.toNat) g :=
  ⟨hexText_ne _, hexText_length (by decide) g.toNat_lt, hexText_number _⟩

/-! ## Groups -/

theorem groupsText_spec {gs : List UInt16} (h : gs ≠ []) : GroupsText false (groupsText gs) gs := by
  induction gs with
  | nil => exact absurd rfl h
  | cons g gs ih =>
    cases gs with
    | nil => exact .one (hexText_group g)
    | cons g' gs =>
      unfold groupsText
      exact .more (hexText_group g) (ih (by simp))

theorem groupsText_lower (gs : List UInt16) : ∀ c ∈ groupsText gs, c ∉ ['A', 'B', 'C', 'D', 'E', 'F'] := by
  induction gs with
  | nil => simp [groupsText]
  | cons g gs ih =>
    cases gs with
    | nil => exact hexText_lower _
    | cons g' gs =>
      intro c hc
      unfold groupsText at hc
      rcases List.mem_append.mp hc with hc | hc
      · exact hexText_lower _ c hc
      · rcases List.mem_cons.mp hc with rfl | hc
        · decide
        · exact ih c hc

theorem hexText_zero {n : Nat} {a b r : List Char} (h : hexText n ++ r = a ++ '0' :: b) (ha : a = [] ∨ a.getLast? = some ':')
    (hr : r = [] ∨ r.head? = some ':') :
    (b = [] ∨ b.head? = some ':') ∨ ∃ a', a = hexText n ++ a' ∧ r = a' ++ '0' :: b := by
  rcases List.append_eq_append_iff.mp h with ⟨x, rfl, hx⟩ | ⟨x, hx, hx'⟩
  · exact .inr ⟨x, rfl, hx⟩
  · cases x with
    | nil =>
      rw [List.append_nil] at hx
      rw [List.nil_append] at hx'
      exact .inr ⟨[], by rw [hx, List.append_nil], by rw [hx']; rfl⟩
    | cons y x =>
      rw [List.cons_append, List.cons.injEq] at hx'
      obtain ⟨rfl, rfl⟩ := hx'
      left
      rcases ha with rfl | ha
      · have := hexText_head hx
        subst this
        exact hr
      · exfalso
        refine (hex_sep (hexText_number n)).2 ?_
        rw [hx]
        exact List.mem_append_left _ (List.mem_of_getLast? ha)

theorem groupsText_zeros (gs : List UInt16) : ∀ a b, groupsText gs = a ++ '0' :: b → (a = [] ∨ a.getLast? = some ':') →
    (b = [] ∨ b.head? = some ':') := by
  induction gs with
  | nil =>
    intro a b h _
    simp [groupsText] at h
  | cons g gs ih =>
    intro a b h ha
    cases gs with
    | nil =>
      unfold groupsText at h
      rw [← List.append_nil (hexText _)] at h
      rcases hexText_zero h ha (.inl rfl) with h' | ⟨a', _, h'⟩
      · exact h'
      · simp at h'
    | cons g' gs =>
      unfold groupsText at h
      rcases hexText_zero h ha (.inr rfl) with h' | ⟨a', rfl, h'⟩
      · exact h'
      · cases a' with
        | nil => simp at h'
        | cons y a' =>
          rw [List.cons_append, List.cons.injEq] at h'
          obtain ⟨rfl, h'⟩ := h'
          refine ih a' b h' ?_
          rcases ha with ha | ha
          · simp at ha
          · rcases List.eq_nil_or_concat' a' with rfl | ⟨l, z, rfl⟩
            · exact .inl rfl
            · right
              rw [show hexText g.toNat ++ ':' :: (l ++ [z]) = (hexText g.toNat ++ ':' :: l) ++ [z] by simp, List.getLast?_concat] at ha
              rw [List.getLast?_concat]
              exact ha

theorem groupsText_plain (gs : List UInt16) : GroupsPlain (groupsText gs) gs := by
  cases gs with
  | nil => exact .inl ⟨rfl, rfl⟩
  | cons g gs => exact .inr ⟨groupsText_spec (by simp), groupsText_lower _, groupsText_zeros _⟩

/-! ## The longest run of zeros -/

/-- A run of zeros. -/
def Run (s : List UInt16) (a m : Nat) : Prop := ∀ j, a ≤ j → j < a + m → s[j]? = some (0 : UInt16)

/-- What holds before the group `i`. -/
structure RunInv (s : List UInt16) (i : Nat) (current longest : Nat × Nat) : Prop where
  run : Run s current.1 current.2
  ends : current.2 ≠ 0 → current.1 + current.2 = i
  le : current.2 ≤ i
  /-- no run that ends here is longer -/
  most : ∀ a m, Run s a m → a + m = i → m ≤ current.2
  long : Run s longest.1 longest.2
  past : longest.1 + longest.2 ≤ i
  best : ∀ a m, Run s a m → a + m ≤ i → m ≤ longest.2 ∧ (m = longest.2 → m = 0 ∨ longest.1 ≤ a)

theorem zeroRun_inv {s : List UInt16} (rest : List UInt16) {i : Nat} {current longest : Nat × Nat} (hs : s.drop i = rest)
    (h : RunInv s i current longest) :
    Run s (zeroRun i current longest rest).1 (zeroRun i current longest rest).2 ∧
    ∀ a m, Run s a m → a + m ≤ max i s.length → m ≤ (zeroRun i current longest rest).2 ∧
      (m = (zeroRun i current longest rest).2 → m = 0 ∨ (zeroRun i current longest rest).1 ≤ a) := by
  induction rest generalizing i current longest with
  | nil =>
    have : s.length ≤ i := List.drop_eq_nil_iff.mp hs
    rw [Nat.max_eq_left this]
    exact ⟨h.long, h.best⟩
  | cons g rest ih =>
    have hi : i < s.length := by
      by_contra hc
      rw [List.drop_eq_nil_of_le (by omega)] at hs
      cases hs
    have hg : s[i]? = some g := by
      have : (s.drop i)[0]? = some g := by rw [hs]; rfl
      rwa [List.getElem?_drop, Nat.add_zero] at this
    have hd : s.drop (i + 1) = rest := by
      rw [← List.drop_drop, hs]
      rfl
    have hmax : max i s.length = max (i + 1) s.length := by omega
    rw [hmax]
    unfold zeroRun
    by_cases hz : g = 0
    · subst hz
      rw [if_pos rfl]
      simp only
      -- the run that ends at `i + 1`
      have hrun : Run s (if current.2 = 0 then i else current.1) (current.2 + 1) := by
        intro j h1 h2
        by_cases hj : j = i
        · rw [hj]; exact hg
        · split at h1
          · rename_i h0
            rw [if_pos h0, h0] at h2
            omega
          · rename_i h0
            rw [if_neg h0] at h2
            have := h.ends h0
            exact h.run j h1 (by omega)
      have hends : (if current.2 = 0 then i else current.1) + (current.2 + 1) = i + 1 := by
        split
        · omega
        · rename_i h0
          have := h.ends h0
          omega
      have hmost : ∀ a m, Run s a m → a + m = i + 1 → m ≤ current.2 + 1 := by
        intro a m hr e
        rcases Nat.eq_zero_or_pos m with h0 | h0
        · omega
        · have := h.most a (m - 1) (fun j h1 h2 => hr j h1 (by omega)) (by omega)
          omega
      refine ih hd ⟨hrun, fun _ => hends, by have := h.le; simp; omega, hmost, ?_, ?_, ?_⟩
      · split
        · exact hrun
        · exact h.long
      · split
        · exact hends.le
        · have := h.past
          omega
      · intro a m hr hle
        rcases Nat.lt_or_ge (a + m) (i + 1) with hlt | hge
        · obtain ⟨h1, h2⟩ := h.best a m hr (by omega)
          split
          · rename_i hl
            have : longest.2 < current.2 + 1 := hl
            exact ⟨by show m ≤ current.2 + 1; omega, fun e => by have e : m = current.2 + 1 := e; omega⟩
          · exact ⟨h1, h2⟩
        · have e : a + m = i + 1 := by omega
          have h1 := hmost a m hr e
          split
          · refine ⟨h1, fun e' => .inr ?_⟩
            have e' : m = current.2 + 1 := e'
            show (if current.2 = 0 then i else current.1) ≤ a
            omega
          · rename_i hl
            have := h.past
            exact ⟨by omega, fun e' => .inr (by omega)⟩
    · rw [if_neg hz]
      refine ih hd ⟨(fun j h1 h2 => by simp at h2), fun h0 => absurd rfl h0, Nat.zero_le _, ?_, h.long, by have := h.past; omega, ?_⟩
      · intro a m hr e
        rcases Nat.eq_zero_or_pos m with h0 | h0
        · omega
        · have := hr i (by omega) (by omega)
          rw [hg] at this
          exact absurd (Option.some.inj this) hz
      · intro a m hr hle
        rcases Nat.lt_or_ge (a + m) (i + 1) with hlt | hge
        · exact h.best a m hr (by omega)
        · rcases Nat.eq_zero_or_pos m with h0 | h0
          · exact ⟨by omega, fun _ => .inl h0⟩
          · have := hr i (by omega) (by omega)
            rw [hg] at this
            exact absurd (Option.some.inj this) hz

theorem zeroRun_spec (s : List UInt16) : Run s (zeroRun 0 (0, 0) (0, 0) s).1 (zeroRun 0 (0, 0) (0, 0) s).2 ∧
    ∀ a m, Run s a m → a + m ≤ s.length → m ≤ (zeroRun 0 (0, 0) (0, 0) s).2 ∧
      (m = (zeroRun 0 (0, 0) (0, 0) s).2 → m = 0 ∨ (zeroRun 0 (0, 0) (0, 0) s).1 ≤ a) := by
  have h := zeroRun_inv (s := s) s (i := 0) (current := (0, 0)) (longest := (0, 0)) rfl
    ⟨(fun j h1 h2 => by simp at h2), fun h => absurd rfl h, Nat.le_refl _, fun a m _ e => by omega, (fun j h1 h2 => by simp at h2),
      Nat.le_refl _, fun a m _ e => ⟨by omega, fun _ => .inl (by omega)⟩⟩
  rwa [Nat.zero_max] at h

/-! ## The address -/

theorem run_le {s : List UInt16} {a m : Nat} (h : Run s a m) (hm : 0 < m) : a + m ≤ s.length := by
  have := h (a + m - 1) (by omega) (by omega)
  have := (List.getElem?_eq_some_iff.mp this).1
  omega

theorem run_replicate {s : List UInt16} {a m : Nat} (h : Run s a m) (hm : 0 < m) :
    s = s.take a ++ List.replicate m 0 ++ s.drop (a + m) := by
  have hle := run_le h hm
  have : (s.drop a).take m = List.replicate m 0 := by
    apply List.ext_getElem?
    intro j
    rw [List.getElem?_take, List.getElem?_drop, List.getElem?_replicate]
    split
    · rename_i hj
      exact h (a + j) (by omega) (by omega)
    · rfl
  rw [← this, List.append_assoc, ← List.drop_drop, List.take_append_drop, List.take_append_drop]

theorem split_pair (g : UInt16) :
    (UInt8.ofNat (g.toNat / 256)).toUInt16 * 256 + (UInt8.ofNat (g.toNat % 256)).toUInt16 = g := by
  apply UInt16.toNat_inj.mp
  have := g.toNat_lt
  simp [UInt16.toNat_add, UInt16.toNat_mul]
  omega

theorem ip6Text_printed {gs : List UInt16} (hl : gs.length = 8) : Ip6Printed (ip6Text gs) gs := by
  unfold ip6Text
  split
  · rename_i g h
    have := Ip6Printed.mapped (ip4Text_dotted (UInt8.ofNat (g.toNat / 256)) (UInt8.ofNat (g.toNat % 256))
      (UInt8.ofNat (h.toNat / 256)) (UInt8.ofNat (h.toNat % 256)))
    rw [split_pair, split_pair] at this
    exact this
  · rename_i hne
    have hm : gs.take 6 ≠ [0, 0, 0, 0, 0, 0xFFFF] := by
      intro e
      have h2 : (gs.drop 6).length = 2 := by rw [List.length_drop, hl]
      obtain ⟨g, h, hd⟩ := List.length_eq_two.mp h2
      refine hne g h ?_
      rw [← List.take_append_drop 6 gs, e, hd]
      rfl
    obtain ⟨h1, h2⟩ := zeroRun_spec gs
    simp only
    generalize zeroRun 0 (0, 0) (0, 0) gs = z at *
    have hbest : ∀ i m, Run gs i m → m ≤ z.2 ∧ (m = z.2 → m = 0 ∨ z.1 ≤ i) := by
      intro i m hr
      rcases Nat.eq_zero_or_pos m with h0 | h0
      · exact ⟨by omega, fun _ => .inl h0⟩
      · exact h2 i m hr (run_le hr h0)
    split
    · rename_i hz
      have hs := run_replicate h1 (by omega)
      have hle := run_le h1 (by omega)
      have htl : (gs.take z.1).length = z.1 := by rw [List.length_take]; omega
      have := Ip6Printed.short (n := z.2) (gs := gs.take z.1) (gs' := gs.drop (z.1 + z.2)) (by rw [← hs]; exact hm) hz
        (by rw [htl, List.length_drop]; omega)
        (groupsText_plain _) (groupsText_plain _) (by
          intro i m hr
          rw [← hs] at hr
          obtain ⟨k1, k2⟩ := hbest i m hr
          refine ⟨k1, fun e => ?_⟩
          rw [htl]
          rcases k2 e with h | h
          · omega
          · exact h)
      rw [← hs] at this
      exact this
    · rename_i hz
      refine .full hm hl (groupsText_plain _) fun i e1 e2 => ?_
      have := (hbest i 2 (fun j k1 k2 => by
        have : j = i ∨ j = i + 1 := by omega
        rcases this with rfl | rfl
        · exact e1
        · exact e2)).1
      omega

/-- What is printed can be read. -/
theorem printed_written {t : List Char} {gs : List UInt16} (h : Ip6Printed t gs) : Ip6Written t gs := by
  have side : ∀ (dotted : Bool) {t : List Char} {gs : List UInt16}, GroupsPlain t gs → SideText dotted t gs := by
    intro dotted t gs h
    rcases h with h | ⟨h, _⟩
    · exact .inl h
    · right
      have lift : ∀ {t : List Char} {gs : List UInt16}, GroupsText false t gs → GroupsText dotted t gs := by
        intro t gs h
        induction h with
        | one h => exact .one h
        | ipv4 hd _ => cases hd
        | more h _ ih => exact .more h ih
      exact lift h
  cases h with
  | mapped h =>
    have hf : GroupText ['f', 'f', 'f', 'f'] 0xFFFF := by
      have : hexText 0xFFFF = ['f', 'f', 'f', 'f'] := by decide +kernel
      rw [← this]
      exact hexText_group 0xFFFF
    exact .short (t := []) (gs := []) (n := 5) (.inl ⟨rfl, rfl⟩) (.inr (.more hf (.ipv4 rfl h))) (by decide) rfl
  | full _ hl h _ =>
    rcases side true h with ⟨_, rfl⟩ | h
    · cases hl
    · exact .full h hl
  | short _ hn hl h h' _ => exact .short (side false h) (side true h') (by omega) hl

theorem ip6_reread {gs : List UInt16} (hl : gs.length = 8) : ip6Groups (ip6Text gs) = some gs :=
  ip6Groups_iff.mpr (printed_written (ip6Text_printed hl))

end StdText

end Souris
