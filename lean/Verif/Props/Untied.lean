import Verif.Props.Chance

/-! # C96: where no counts are tied, the bytes do not depend on chance -/

namespace Souris

namespace Huffman

variable {T : Type} [DecidableEq T]

/-- No two separate parts of a heap have the same weight. -/
def Apart {α : Type} (l : List (α × Nat)) : Prop :=
  ∀ A B C : List (α × Nat), l.Perm (A ++ B ++ C) → A ≠ [] → B ≠ [] → (A.map Prod.snd).sum ≠ (B.map Prod.snd).sum

theorem Apart.perm {α : Type} {l l' : List (α × Nat)} (h : Apart l) (hp : l.Perm l') : Apart l' :=
  fun A B C hc => h A B C (hp.trans hc)

theorem Apart.tail {α : Type} {x : α × Nat} {l : List (α × Nat)} (h : Apart (x :: l)) : Apart l := fun A B C hc =>
  h A B (x :: C) ((hc.cons x).trans List.perm_middle.symm)

/-- The least entry is the same in whatever order the entries are. -/
theorem Apart.least {α : Type} {x x' : α × Nat} {l l' : List (α × Nat)} (h : Apart (x :: l))
    (hp : (x :: l).Perm (x' :: l')) (h1 : ∀ y ∈ x :: l, x.2 ≤ y.2) (h2 : ∀ y ∈ x' :: l', x'.2 ≤ y.2) :
    x = x' ∧ l.Perm l' := by
  have e : x = x' := by
    by_contra hne
    have hm : x' ∈ l := by
      have : x' ∈ x :: l := hp.mem_iff.mpr (by simp)
      rcases List.mem_cons.mp this with h | h
      · exact absurd h.symm hne
      · exact h
    obtain ⟨s, t, rfl⟩ := List.append_of_mem hm
    have hw : x.2 = x'.2 := Nat.le_antisymm (h1 _ (by simp)) (h2 _ (hp.mem_iff.mp (by simp)))
    refine h [x] [x'] (s ++ t) ?_ (by simp) (by simp) (by simpa using hw)
    simp
  subst e
  exact ⟨rfl, hp.cons_inv⟩

theorem Apart.merge {α : Type} {a b : α × Nat} {l : List (α × Nat)} (h : Apart (a :: b :: l)) (c : α) :
    Apart (l ++ [(c, a.2 + b.2)]) := by
  intro A B C hp hA hB
  have hm : (c, a.2 + b.2) ∈ A ++ B ++ C := hp.mem_iff.mp (by simp)
  have hp' : ((c, a.2 + b.2) :: l).Perm (A ++ B ++ C) := (List.perm_append_singleton _ _).symm.trans hp
  rcases List.mem_append.mp hm with hm | hm
  · rcases List.mem_append.mp hm with hm | hm
    · obtain ⟨s, t, rfl⟩ := List.append_of_mem hm
      have q : l.Perm (s ++ t ++ B ++ C) := by
        refine List.Perm.cons_inv (a := (c, a.2 + b.2)) (hp'.trans ?_)
        simp
      have := h (a :: b :: (s ++ t)) B C (by simpa using (q.cons b).cons a) (by simp) hB
      simp only [List.map_cons, List.map_append, List.sum_cons, List.sum_append] at this ⊢
      omega
    · obtain ⟨s, t, rfl⟩ := List.append_of_mem hm
      have q : l.Perm (A ++ (s ++ t) ++ C) := by
        refine List.Perm.cons_inv (a := (c, a.2 + b.2)) (hp'.trans ?_)
        simpa using List.perm_middle (l₁ := A ++ s) (l₂ := t ++ C) (a := (c, a.2 + b.2))
      have q' : (a :: b :: l).Perm (A ++ (a :: b :: (s ++ t)) ++ C) := by
        refine ((q.cons b).cons a).trans ?_
        have e1 := List.perm_middle (l₁ := A) (l₂ := b :: (s ++ t ++ C)) (a := a)
        have e2 := List.perm_middle (l₁ := A) (l₂ := s ++ t ++ C) (a := b)
        simpa using (e2.symm.cons a).trans e1.symm
      have := h A (a :: b :: (s ++ t)) C q' hA (by simp)
      simp only [List.map_cons, List.map_append, List.sum_cons, List.sum_append] at this ⊢
      omega
  · obtain ⟨s, t, rfl⟩ := List.append_of_mem hm
    have q : l.Perm (A ++ B ++ (s ++ t)) := by
      refine List.Perm.cons_inv (a := (c, a.2 + b.2)) (hp'.trans ?_)
      simpa using List.perm_middle (l₁ := A ++ (B ++ s)) (l₂ := t) (a := (c, a.2 + b.2))
    have q' : (a :: b :: l).Perm (A ++ B ++ (a :: b :: (s ++ t))) := by
      refine ((q.cons b).cons a).trans ?_
      have e1 := List.perm_middle (l₁ := A ++ B) (l₂ := b :: (s ++ t)) (a := a)
      have e2 := List.perm_middle (l₁ := A ++ B) (l₂ := s ++ t) (a := b)
      exact (e2.symm.cons a).trans e1.symm
    exact h A B _ q' hA hB

omit [DecidableEq T] in
/-- The tree does not depend on the order of the heap. -/
theorem build_order (n : Nat) : ∀ {l l' : List (Node T × Nat)}, Apart l → l.Perm l' → build n l = build n l' := by
  induction n with
  | zero => intro l l' _ _; rfl
  | succ n ih =>
    intro l l' h hp
    by_cases hl : l = []
    · subst hl
      rw [List.nil_perm.mp hp]
    have hl' : l' ≠ [] := fun e => hl (by subst e; exact List.perm_nil.mp hp)
    obtain ⟨x, r, e, p, m⟩ := heapNext_spec l hl
    obtain ⟨x', r', e', p', m'⟩ := heapNext_spec l' hl'
    obtain ⟨rfl, pr⟩ := (h.perm p.symm).least ((p.trans hp).trans p'.symm) (fun y hy => m y (p.mem_iff.mp hy))
      (fun y hy => m' y (p'.mem_iff.mp hy))
    have hr := (h.perm p.symm).tail
    unfold build
    rw [e, e']
    by_cases hre : r = []
    · subst hre
      rw [List.nil_perm.mp pr]
    have hre' : r' ≠ [] := fun e => hre (by subst e; exact List.perm_nil.mp pr)
    obtain ⟨y, s, f, q, k⟩ := heapNext_spec r hre
    obtain ⟨y', s', f', q', k'⟩ := heapNext_spec r' hre'
    obtain ⟨rfl, ps⟩ := (hr.perm q.symm).least ((q.trans pr).trans q'.symm) (fun z hz => k z (q.mem_iff.mp hz))
      (fun z hz => k' z (q'.mem_iff.mp hz))
    simp only [f, f']
    refine ih ?_ (ps.append_right _)
    exact ((h.perm p.symm).perm (q.symm.cons x)).merge _

theorem leaves_of {data : List T} : ∀ {A : List (Node T × Nat)},
    (∀ p ∈ A, ∃ x ∈ data, p = (Node.leaf x, data.count x)) →
    ∃ S : List T, A = S.map (fun x => (Node.leaf x, data.count x)) ∧ ∀ x ∈ S, x ∈ data
  | [], _ => ⟨[], rfl, by simp⟩
  | p :: A, h => by
    obtain ⟨x, hx, rfl⟩ := h p (by simp)
    obtain ⟨S, rfl, hS⟩ := leaves_of (A := A) fun q hq => h q (by simp [hq])
    exact ⟨x :: S, rfl, fun y hy => by
      rcases List.mem_cons.mp hy with rfl | hy
      · exact hx
      · exact hS y hy⟩

/-- Where no counts are tied, there is one tree. -/
theorem new_untied {ord ord' : List (Node T × Nat) → List (Node T × Nat)} (hord : HashOrder ord) (hord' : HashOrder ord')
    {data : List T} (h : Untied data) : new ord data = new ord' data := by
  have key : nodeTree ord (freqTable data) = nodeTree ord' (freqTable data) := by
    unfold nodeTree
    split
    · rfl
    · simp only []
      rw [((hord _).trans (hord' _).symm).length_eq]
      refine build_order _ ?_ ((hord _).trans (hord' _).symm)
      refine Apart.perm (l := (freqTable data).map fun p => (Node.leaf p.1, p.2)) ?_ (hord _).symm
      intro A B C hp hA hB
      have hn : (A ++ B ++ C).Nodup := by
        refine hp.nodup_iff.mp (List.Nodup.of_map (fun p : Node T × Nat => p.1) ?_)
        have := (freqTable_nodup data).map (f := Node.leaf) (fun _ _ h => by cases h; rfl)
        simpa [Function.comp_def] using this
      have hin : ∀ p ∈ A ++ B ++ C, ∃ x ∈ data, p = (Node.leaf x, data.count x) := by
        intro p hpm
        obtain ⟨q, hq, rfl⟩ := List.mem_map.mp (hp.mem_iff.mpr hpm)
        exact ⟨q.1, (freqTable_keys data q.1).mp (List.mem_map_of_mem hq), by rw [freqTable_count data q hq]⟩
      obtain ⟨S, rfl, hS⟩ := leaves_of (fun p (hp : p ∈ A) => hin p (by simp [hp]))
      obtain ⟨R, rfl, hR⟩ := leaves_of (fun p (hp : p ∈ B) => hin p (by simp [hp]))
      have hnd : (S ++ R).Nodup := by
        have := (List.nodup_append.mp hn).1
        rw [← List.map_append] at this
        exact List.Nodup.of_map _ this
      have := h S R hnd (fun e => hA (by simp [e])) (fun e => hB (by simp [e])) (fun x hx => by
        rcases List.mem_append.mp hx with hx | hx
        · exact hS x hx
        · exact hR x hx)
      simpa [Function.comp_def] using this
  unfold new
  rw [key]

end Huffman

/-! ## Binary data and values -/

/-- Binary data that is stored under a tree has the same bytes on every occasion, if no counts are tied. -/
theorem Binary.ser_untied (z : Lz) {ord ord' : List (Node UInt8 × Nat) → List (Node UInt8 × Nat)}
    (hord : HashOrder ord) (hord' : HashOrder ord') {b : List UInt8} (h : Untied b) : ser z ord b = ser z ord' b := by
  have : huffman ord b = huffman ord' b := by
    unfold huffman Huffman.newAndEncode
    rw [Huffman.new_untied hord hord' h]
  unfold ser
  rw [this]

/-- The bytes of binary data do not depend on chance: no counts are tied, or it is not stored under a tree. -/
def Firm (env : Env) (d : List UInt8) : Prop :=
  Untied d ∨ ∀ x, Binary.ser env.lz env.byteOrd d ≠ .ok (.huffman, x)

theorem Binary.ser_firm {env env' : Env} (ho : Occasions env env') {d : List UInt8} (h : Firm env d) :
    ser env.lz env.byteOrd d = ser env'.lz env'.byteOrd d := by
  rw [← ho.lz]
  rcases h with h | h
  · exact Binary.ser_untied env.lz ho.first ho.second h
  · exact Binary.ser_bytes env.lz ho.first ho.second fun _ => h

theorem Value.ser_firm {env env' : Env} (ho : Occasions env env') (h : Option (Huffman Char)) (v : Value)
    (hb : ∀ d, Sub (.binary d) v → Firm env d) : ser env h v = ser env' h v := by
  induction v using Value.induct with | h v iha ihm =>
  cases v with
  | array a =>
    unfold ser
    rw [ser_list_congr fun w hw => iha a rfl w hw fun d hd => hb d (.array hw hd)]
  | map m =>
    unfold ser
    rw [ser_entries_congr fun k w hw => ihm m rfl k w hw fun d hd => hb d (.map hw hd)]
  | binary d =>
    unfold ser
    rw [Binary.ser_firm ho (hb d (.refl _))]
  | json j =>
    unfold ser
    rw [ho.json]
  | _ => rfl

/-- C96, partial: a value without a map of two or more entries has the same bytes on every occasion, if all
binary data in it that is stored under a tree has no tied counts. -/
theorem C96_untied_partial {env env' : Env} (ho : Occasions env env') (h : Option (Huffman Char)) {v v' : Value}
    (hv : Reordered v v') (hm : ∀ m, Value.Sub (.map m) v → m.length ≤ 1)
    (hb : ∀ d, Value.Sub (.binary d) v →
      Untied d ∨ ∀ x, Binary.ser env.lz env.byteOrd d ≠ .ok (.huffman, x)) :
    Value.ser env h v = Value.ser env' h v' := by
  rw [← Value.reordered_eq hv hm]
  exact Value.ser_firm ho h v hb

/-! ## Databases -/

theorem Value.lettersEntries_perm (env : Env) (m : List (List Char × Value)) :
    (lettersEntries env m).Perm (m.flatMap Prod.fst ++ (m.map Prod.snd).flatMap (letters env)) := by
  induction m with
  | nil => simp [lettersEntries]
  | cons e m ih =>
    obtain ⟨k, v⟩ := e
    simp only [lettersEntries, List.flatMap_cons, List.map_cons, List.append_assoc]
    refine List.Perm.append_left k ?_
    refine (List.Perm.append_left _ ih).trans ?_
    simp only [← List.append_assoc]
    exact List.Perm.append_right _ List.perm_append_comm

theorem Value.lettersList_eq (env : Env) (a : List Value) : lettersList env a = a.flatMap (letters env) := by
  induction a with
  | nil => rfl
  | cons v a ih => simp [lettersList, ih]

/-- The text that is collected is the text of the value. -/
theorem Store.allText_perm (env : Env) (stack : List Value) :
    (allText env stack).Perm (stack.flatMap (Value.letters env)) := by
  induction stack using Store.allText.induct env with
  | case1 => simp [allText]
  | case2 v stack ih =>
    rw [allText, List.flatMap_cons]
    have e : ((textOf env v).1 ++ (textOf env v).2.flatMap (Value.letters env)).Perm (Value.letters env v) := by
      cases v with
      | map m => exact (Value.lettersEntries_perm env m).symm
      | array a => simp [textOf, Value.letters, Value.lettersList_eq]
      | _ => simp [textOf, Value.letters]
    refine (List.Perm.append_left _ ih).trans ?_
    rw [List.flatMap_append, ← List.append_assoc]
    refine List.Perm.append_right _ ((List.Perm.append_left _ ?_).trans e)
    exact List.Perm.flatMap_right _ (List.reverse_perm _)

theorem Untied.perm {T : Type} [DecidableEq T] {l l' : List T} (h : Untied l) (hp : l.Perm l') : Untied l' := by
  intro A B hn hA hB hin
  have := h A B hn hA hB fun x hx => hp.mem_iff.mpr (hin x hx)
  simpa only [hp.count_eq] using this

theorem Store.allText_env {env env' : Env} (hj : env.jsonPrint = env'.jsonPrint) (stack : List Value) :
    allText env stack = allText env' stack := by
  induction stack using Store.allText.induct env with
  | case1 => simp [allText]
  | case2 v stack ih =>
    have e : textOf env v = textOf env' v := by cases v <;> simp [textOf, hj]
    rw [allText, allText, ih, e]

/-- C96, partial: a database has the same bytes on every occasion if no map in it has two or more entries, no
two groups of characters occur equally often in its text, no two groups of bytes do in its binary data, and the
file as a whole is not stored under a tree. Missing: the others, see the refutations. -/
theorem C96_store_partial {env env' : Env} (ho : Occasions env env') (hc : HashOrder env.charOrd)
    (hc' : HashOrder env'.charOrd) {s s' : Store} (hv : Reordered (.map s) (.map s'))
    (hm : ∀ m, Value.Sub (.map m) (.map s) → m.length ≤ 1)
    (hb : ∀ d, Value.Sub (.binary d) (.map s) →
      Untied d ∨ ∀ x, Binary.ser env.lz env.byteOrd d ≠ .ok (.huffman, x))
    (ht : Untied (Value.letters env (.map s))) {file : List UInt8} (e : Store.ser env s = .ok file)
    (hf : file[8]? ≠ some 3 ∧ file[8]? ≠ some 131) : Store.ser env' s' = .ok file := by
  have hs := Value.reordered_eq hv hm
  cases hs
  have hnew : Huffman.new env.charOrd (Store.allText env [.map s]) = Huffman.new env'.charOrd (Store.allText env' [.map s]) := by
    rw [← Store.allText_env ho.json]
    refine Huffman.new_untied hc hc' (ht.perm ?_)
    simpa using (Store.allText_perm env [.map s]).symm
  have fin : ∀ (b : Bool) (res : List UInt8),
      ((do
        let (ct, compressed) ← Binary.ser env.lz env.byteOrd res
        let magicTy : UInt8 := ((if b then (1 : UInt8) else 0) <<< 7) ||| ct.toByte
        return Store.magic ++ magicTy :: compressed) : Out Empty (List UInt8)) = .ok file →
      Binary.ser env.lz env.byteOrd res = Binary.ser env'.lz env'.byteOrd res := by
    intro b res h
    refine Binary.ser_firm ho (.inr fun x hx => ?_)
    rw [hx] at h
    simp only [Out.ok_bind, Out.pure_eq, Out.ok.injEq] at h
    subst h
    cases b
    · exact hf.1 rfl
    · exact hf.2 rfl
  revert e
  unfold Store.ser
  simp only [← hnew]
  generalize Huffman.new env.charOrd (Store.allText env [.map s]) = r
  rcases r with h | x | p
  · simp only [← Value.ser_firm ho (some h) (.map s) hb]
    generalize Value.ser env (some h) (.map s) = r
    rcases r with map | x | p
    · intro e
      simp only [Out.ok_bind, Out.pure_eq] at e ⊢
      rw [← fin true _ e]
      exact e
    · exact x.elim
    · exact id
  · simp only [← Value.ser_firm ho none (.map s) hb]
    generalize Value.ser env none (.map s) = r
    rcases r with map | x | p
    · intro e
      simp only [Out.ok_bind, Out.pure_eq] at e ⊢
      rw [← fin false _ e]
      exact e
    · exact x.elim
    · exact id
  · exact id

/-! ### The conditions can be met -/

theorem untied_two {T : Type} [DecidableEq T] {data : List T} {x y : T} (hxy : ∀ z ∈ data, z = x ∨ z = y)
    (h : data.count x ≠ data.count y) : Untied data := by
  intro A B hn hA hB hin
  obtain ⟨a, A, rfl⟩ := List.exists_cons_of_ne_nil hA
  obtain ⟨b, B, rfl⟩ := List.exists_cons_of_ne_nil hB
  have hab : a ≠ b := by
    rintro rfl
    simp at hn
  have full : ∀ {z}, z ≠ a → z ≠ b → z ∉ data := by
    intro z h1 h2 hz
    rcases hxy z hz with rfl | rfl <;> rcases hxy a (hin a (by simp)) with rfl | rfl <;>
      rcases hxy b (hin b (by simp)) with rfl | rfl <;> simp_all
  have hA' : A = [] := by
    rw [List.eq_nil_iff_forall_not_mem]
    intro z hz
    refine full ?_ ?_ (hin z (by simp [hz]))
    · rintro rfl; simp_all
    · rintro rfl; exact (List.nodup_append.mp hn).2.2 z (by simp [hz]) z (by simp) rfl
  have hB' : B = [] := by
    rw [List.eq_nil_iff_forall_not_mem]
    intro z hz
    refine full ?_ ?_ (hin z (by simp [hz]))
    · rintro rfl; exact (List.nodup_append.mp hn).2.2 z (by simp) z (by simp [hz]) rfl
    · rintro rfl; exact (List.nodup_cons.mp (List.nodup_append.mp hn).2.1).1 hz
  subst hA' hB'
  simp only [List.map_cons, List.map_nil, List.sum_cons, List.sum_nil, Nat.add_zero]
  rcases hxy a (hin a (by simp)) with rfl | rfl <;> rcases hxy b (hin b (by simp)) with rfl | rfl
  · exact absurd rfl hab
  · exact h
  · exact h.symm
  · exact absurd rfl hab

/-- Sixteen bytes, seven of one kind and nine of another. -/
def sevenNine : List UInt8 := [0, 1, 0, 1, 0, 1, 0, 1, 0, 1, 0, 1, 0, 1, 1, 1]

-- it is stored under a tree, but one and the same
example : (∃ x, Binary.ser sampleEnv.lz sampleEnv.byteOrd sevenNine = .ok (.huffman, x)) ∧ Untied sevenNine :=
  ⟨⟨[2, 0, 1, 0, 1, 1, 16, 85, 21], by decide +kernel⟩, untied_two (x := 0) (y := 1) (by decide) (by decide)⟩

/-- A database with one entry: the key `a`, and a list of the text `aab` and such data. -/
def untiedStore : Store := [(['a'], .array [.string ['a', 'a', 'b'], .binary sevenNine])]

/-- Its file. -/
def untiedFile : List UInt8 := [83, 79, 85, 82, 73, 83, 68, 66, 128, 21, 0, 99, 98, 130, 17, 1, 0, 180, 17, 3, 4, 35, 2, 0,
  1, 0, 1, 1, 16, 85, 21]

example (env' : Env) (ho : Occasions sampleEnv env') (hc : HashOrder env'.charOrd) :
    Store.ser env' untiedStore = .ok untiedFile := by
  have subs : ∀ w, Value.Sub w (.map untiedStore) → w = .map untiedStore ∨
      w = .array [.string ['a', 'a', 'b'], .binary sevenNine] ∨ w = .string ['a', 'a', 'b'] ∨ w = .binary sevenNine := by
    intro w hw
    cases hw with
    | refl => exact .inl rfl
    | map hv h =>
      simp only [untiedStore, List.mem_singleton, Prod.mk.injEq] at hv
      obtain ⟨_, rfl⟩ := hv
      cases h with
      | refl => exact .inr (.inl rfl)
      | array hv h =>
        simp only [List.mem_cons, List.not_mem_nil, or_false] at hv
        rcases hv with rfl | rfl <;> cases h
        · exact .inr (.inr (.inl rfl))
        · exact .inr (.inr (.inr rfl))
  refine C96_store_partial ho (fun _ => .refl _) hc (.same _) ?_ ?_ ?_
    (by decide +kernel : Store.ser sampleEnv untiedStore = .ok untiedFile) ?_
  · intro m h
    rcases subs _ h with h | h | h | h <;> cases h
    decide
  · intro d h
    rcases subs _ h with h | h | h | h <;> cases h
    exact .inl (untied_two (x := 0) (y := 1) (by decide) (by decide))
  · exact untied_two (x := 'a') (y := 'b') (by decide) (by decide)
  · decide

end Souris
