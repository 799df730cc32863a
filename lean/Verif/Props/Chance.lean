import Verif.Spec.Chance
import Verif.Spec.Huffman
import Verif.Lemmas.ValueEq
import Verif.Props.Binary
import Verif.Props.ValueLoop
import Verif.Props.Store

/-!
# C96: what is written does not depend on chance

The size of a written value does not depend on the order in which hash maps iterate. Its bytes do, and so
does the size of a database.
-/

namespace Souris

/-! ## Binary data -/

namespace Binary

/-- However ties are broken, the data takes the same number of bits. -/
theorem newAndEncode_len {T : Type} [DecidableEq T] {ord ord' : List (Node T × Nat) → List (Node T × Nat)}
    (hord : HashOrder ord) (hord' : HashOrder ord') (data : List T) (hne : data ≠ []) :
    ∀ h b h' b', Huffman.newAndEncode ord data = .ok (h, b) → Huffman.newAndEncode ord' data = .ok (h', b') →
      b.len ≤ b'.len := by
  intro h b h' b' e e'
  obtain ⟨h2, en, _, _, code, _, henc, hpf⟩ := C18_alphabet hord' data hne
  obtain ⟨h1, b1, e1, hle⟩ := C19_optimal hord data hne code hpf
  rw [e] at e1
  cases e1
  obtain ⟨bits, eb, hb⟩ := henc data (fun _ hx => hx)
  have : Huffman.newAndEncode ord' data = .ok (h2, bits) := by simp [Huffman.newAndEncode, en, eb]
  rw [e'] at this
  cases this
  have hl : b'.len = (data.map (fun x => (code x).length)).sum := by
    obtain ⟨root, er, _, _, hmem, _⟩ := Huffman.new_ok hord' data hne
    obtain ⟨cs, hcs⟩ := Huffman.exists_codes root data (fun x hx => (hmem x).mpr hx)
    rw [er] at en
    cases en
    rw [Huffman.encode_ok root hcs] at eb
    cases eb
    rw [Bits.toBools_ofList] at hb
    have hb' : cs.flatten = data.flatMap code := Out.ok.inj hb
    show cs.flatten.length = _
    rw [hb', List.length_flatMap]
  omega

/-- Data without two different bytes has no tree. -/
theorem huffman_one (ord ord' : List (Node UInt8 × Nat) → List (Node UInt8 × Nat)) {b : List UInt8}
    (h2 : ¬ TwoSymbols b) : huffman ord b = huffman ord' b := by
  cases b with
  | nil => rfl
  | cons z b =>
    have : allEqual (z :: b) = true := by
      by_contra hc
      exact h2 (by_contra fun h => hc ((allEqual_iff _).mpr h))
    simp [huffman, this]

/-- The Huffman form has the same size on every occasion. -/
theorem huffman_size {ord ord' : List (Node UInt8 × Nat) → List (Node UInt8 × Nat)}
    (hord : HashOrder ord) (hord' : HashOrder ord') (b x y : List UInt8)
    (hx : huffman ord b = .ok x) (hy : huffman ord' b = .ok y) : x.length = y.length := by
  by_cases h2 : TwoSymbols b
  · have hne : b ≠ [] := by
      obtain ⟨z, hz, _⟩ := h2
      exact List.ne_nil_of_mem hz
    obtain ⟨root, cs, _, hnd, hm, hcs, hn, hh⟩ := huffman_two hord b h2
    obtain ⟨root', cs', _, hnd', hm', hcs', hn', hh'⟩ := huffman_two hord' b h2
    have mem : ∀ {root : Node UInt8} {cs : List (List Bool)}, b.map (Huffman.codeOf root) = cs.map some →
        ∀ z ∈ b, z ∈ root.leaves := by
      intro root cs h z hz
      have : Huffman.codeOf root z ∈ cs.map some := by rw [← h]; exact List.mem_map_of_mem hz
      obtain ⟨c, _, hc⟩ := List.mem_map.mp this
      exact (Huffman.codeOf_isSome root z).mp (by rw [← hc]; rfl)
    have hl1 := newAndEncode_len hord hord' b hne _ _ _ _ hn hn'
    have hl2 := newAndEncode_len hord' hord b hne _ _ _ _ hn' hn
    have hlen : cs.flatten.length = cs'.flatten.length := Nat.le_antisymm hl1 hl2
    rw [hh] at hx
    rw [hh'] at hy
    cases hx
    cases hy
    have hs := ser8_length root
    have hs' := ser8_length root'
    have hleaves : root.leaves.length = root'.leaves.length := by
      exact ((List.perm_ext_iff_of_nodup hnd hnd').mpr fun z =>
        ⟨fun h => mem hcs' z (hm z h), fun h => mem hcs z (hm' z h)⟩).length_eq
    simp only [List.length_cons, List.length_append, Bits.pack_length, hlen]
    omega
  · rw [huffman_one ord ord' h2, hy] at hx
    cases hx
    rfl

theorem minByLen_congr {α : Type} {l l' : List (α × List UInt8)} :
    ∀ {x x' : α × List UInt8}, x.1 = x'.1 → x.2.length = x'.2.length →
      List.Forall₂ (fun a b => a.1 = b.1 ∧ a.2.length = b.2.length) l l' →
      (minByLen x l).1 = (minByLen x' l').1 ∧ (minByLen x l).2.length = (minByLen x' l').2.length := by
  induction l generalizing l' with
  | nil =>
    intro x x' h1 h2 h
    cases h
    exact ⟨h1, h2⟩
  | cons a l ih =>
    intro x x' h1 h2 h
    cases h with
    | cons hab hl =>
      unfold minByLen
      rw [hab.2, h2]
      split
      · exact ih hab.1 hab.2 hl
      · exact ih h1 h2 hl

/-- Binary data takes the same form and size on every occasion. -/
theorem ser_size (z : Lz) {ord ord' : List (Node UInt8 × Nat) → List (Node UInt8 × Nat)}
    (hord : HashOrder ord) (hord' : HashOrder ord') (b : List UInt8) :
    ∃ ct x y, ser z ord b = .ok (ct, x) ∧ ser z ord' b = .ok (ct, y) ∧ x.length = y.length := by
  obtain ⟨h, e⟩ := C24_huffman_total hord b
  obtain ⟨h', e'⟩ := C24_huffman_total hord' b
  have hs := huffman_size hord hord' b h h' e e'
  have hm := minByLen_congr (x := (BinaryCompression.nothing, usizeSer b.length ++ b))
    (x' := (BinaryCompression.nothing, usizeSer b.length ++ b))
    (l := [(.runLengthEncoding, rle b), (.lempelZiv, lz z b), (.huffman, h)])
    (l' := [(.runLengthEncoding, rle b), (.lempelZiv, lz z b), (.huffman, h')]) rfl rfl
    (by refine .cons ⟨rfl, rfl⟩ (.cons ⟨rfl, rfl⟩ (.cons ⟨rfl, hs⟩ .nil)))
  have he : ser z ord b = .ok (minByLen (.nothing, usizeSer b.length ++ b)
      [(.runLengthEncoding, rle b), (.lempelZiv, lz z b), (.huffman, h)]) := by unfold ser; rw [e]; rfl
  have he' : ser z ord' b = .ok (minByLen (.nothing, usizeSer b.length ++ b)
      [(.runLengthEncoding, rle b), (.lempelZiv, lz z b), (.huffman, h')]) := by unfold ser; rw [e']; rfl
  generalize minByLen (BinaryCompression.nothing, usizeSer b.length ++ b)
    [(.runLengthEncoding, rle b), (.lempelZiv, lz z b), (.huffman, h)] = m at he hm
  generalize minByLen (BinaryCompression.nothing, usizeSer b.length ++ b)
    [(.runLengthEncoding, rle b), (.lempelZiv, lz z b), (.huffman, h')] = m' at he' hm
  exact ⟨m.1, m.2, m'.2, he, by rw [hm.1]; exact he', hm.2⟩

/-- Unless it is stored under a tree, binary data has the same bytes on every occasion. -/
theorem ser_bytes (z : Lz) {ord ord' : List (Node UInt8 × Nat) → List (Node UInt8 × Nat)}
    (hord : HashOrder ord) (hord' : HashOrder ord') {b : List UInt8}
    (h : TwoSymbols b → ∀ x, ser z ord b ≠ .ok (.huffman, x)) : ser z ord b = ser z ord' b := by
  by_cases h2 : TwoSymbols b
  · obtain ⟨ct, x, y, ex, ey, _⟩ := ser_size z hord hord' b
    have hct : ct ≠ .huffman := fun hc => h h2 x (hc ▸ ex)
    obtain ⟨hf, e⟩ := C24_huffman_total hord b
    obtain ⟨hf', e'⟩ := C24_huffman_total hord' b
    obtain ⟨c1, b1, s1, o1, _⟩ := ser_spec z e
    obtain ⟨c2, b2, s2, o2, _⟩ := ser_spec z e'
    rw [ex] at s1
    rw [ey] at s2
    cases s1
    cases s2
    rw [ex, ey]
    cases ct <;> simp_all
  · unfold ser
    rw [huffman_one ord ord' h2]

end Binary

/-! ## Values -/

namespace Value

/-- The two outcomes are written values of the same size. -/
def SameSize (o o' : Out Empty (List UInt8)) : Prop :=
  ∀ b, o = .ok b → ∃ b', o' = .ok b' ∧ b'.length = b.length

theorem SameSize.refl (o : Out Empty (List UInt8)) : SameSize o o := fun b h => ⟨b, h, rfl⟩

theorem SameSize.trans {o o' o'' : Out Empty (List UInt8)} (h : SameSize o o') (h' : SameSize o' o'') :
    SameSize o o'' := by
  intro b e
  obtain ⟨b', e', l⟩ := h b e
  obtain ⟨b'', e'', l'⟩ := h' b' e'
  exact ⟨b'', e'', l'.trans l⟩

theorem SameSize.bind {o o' : Out Empty (List UInt8)} {f f' : List UInt8 → Out Empty (List UInt8)}
    (h : SameSize o o') (hf : ∀ b b', b'.length = b.length → SameSize (f b) (f' b')) :
    SameSize (o >>= f) (o' >>= f') := by
  intro x e
  cases ho : o with
  | ok b =>
    rw [ho] at e
    obtain ⟨b', e', l⟩ := h b ho
    obtain ⟨y, ey, ly⟩ := hf b b' l x e
    exact ⟨y, by rw [e']; exact ey, ly⟩
  | err e0 => exact e0.elim
  | panic p => rw [ho] at e; cases e

theorem SameSize.pure {a b : List UInt8} (h : b.length = a.length) :
    SameSize (Pure.pure a) (Pure.pure b) := by
  intro x e
  cases e
  exact ⟨b, rfl, h⟩

theorem sameSize_list {env env' : Env} {h : Option (Huffman Char)} :
    ∀ {a a' : List Value}, a.length = a'.length →
      (∀ (i : Nat) (v v' : Value), a[i]? = some v → a'[i]? = some v' → SameSize (ser env h v) (ser env' h v')) →
      SameSize (serList env h a) (serList env' h a')
  | [], [], _, _ => SameSize.refl _
  | [], _ :: _, hl, _ => by simp at hl
  | _ :: _, [], hl, _ => by simp at hl
  | v :: a, v' :: a', hl, hh => by
    unfold serList
    refine (hh 0 v v' rfl rfl).bind fun b b' hb => ?_
    refine (sameSize_list (a := a) (a' := a') (by simpa using hl)
      (fun i w w' e e' => hh (i + 1) w w' (by simpa using e) (by simpa using e'))).bind fun c c' hc => ?_
    exact SameSize.pure (by simp [hb, hc])

theorem sameSize_entries {env env' : Env} {h : Option (Huffman Char)} :
    ∀ {m m' : List (List Char × Value)}, m.length = m'.length →
      (∀ (i : Nat) (e e' : List Char × Value), m[i]? = some e → m'[i]? = some e' → e.1 = e'.1) →
      (∀ (i : Nat) (e e' : List Char × Value), m[i]? = some e → m'[i]? = some e' →
        SameSize (ser env h e.2) (ser env' h e'.2)) →
      SameSize (serEntries env h m) (serEntries env' h m')
  | [], [], _, _, _ => SameSize.refl _
  | [], _ :: _, hl, _, _ => by simp at hl
  | _ :: _, [], hl, _, _ => by simp at hl
  | (k, v) :: m, (k', v') :: m', hl, hk, hv => by
    have hkk : k = k' := hk 0 _ _ rfl rfl
    subst hkk
    unfold serEntries
    refine (SameSize.refl _).bind fun a a' ha => ?_
    refine (hv 0 (k, v) (k, v') rfl rfl).bind fun b b' hb => ?_
    refine (sameSize_entries (m := m) (m' := m') (by simpa using hl)
      (fun i w w' e e' => hk (i + 1) w w' (by simpa using e) (by simpa using e'))
      (fun i w w' e e' => hv (i + 1) w w' (by simpa using e) (by simpa using e'))).bind fun c c' hc => ?_
    exact SameSize.pure (by simp [ha, hb, hc])

theorem sameSize_perm {env : Env} {h : Option (Huffman Char)} {m m' : List (List Char × Value)}
    (hp : m.Perm m') : SameSize (serEntries env h m) (serEntries env h m') := by
  induction hp with
  | nil => exact SameSize.refl _
  | cons e _ ih =>
    obtain ⟨k, v⟩ := e
    unfold serEntries
    refine (SameSize.refl _).bind fun a a' ha => ?_
    refine (SameSize.refl _).bind fun b b' hb => ?_
    exact ih.bind fun c c' hc => SameSize.pure (by simp [ha, hb, hc])
  | trans _ _ ih1 ih2 => exact ih1.trans ih2
  | swap e e' l =>
    obtain ⟨k, v⟩ := e
    obtain ⟨k', v'⟩ := e'
    intro x hx
    simp only [serEntries] at hx ⊢
    cases h1 : serString h k' with
    | err e => exact e.elim
    | panic p => simp [h1] at hx
    | ok b1 =>
      cases h2 : ser env h v' with
      | err e => exact e.elim
      | panic p => simp [h1, h2] at hx
      | ok b2 =>
        cases h3 : serString h k with
        | err e => exact e.elim
        | panic p => simp [h1, h2, h3] at hx
        | ok b3 =>
          cases h4 : ser env h v with
          | err e => exact e.elim
          | panic p => simp [h1, h2, h3, h4] at hx
          | ok b4 =>
            cases h5 : serEntries env h l with
            | err e => exact e.elim
            | panic p => simp [h1, h2, h3, h4, h5] at hx
            | ok b5 =>
              simp [h1, h2, h3, h4, h5] at hx
              refine ⟨_, by simp; rfl, ?_⟩
              rw [← hx]
              simp only [List.length_append]
              omega

/-- With the same contents in the same order, the size is the same whatever the other hash maps do. -/
theorem sameSize_env {env env' : Env} (ho : Occasions env env') (h : Option (Huffman Char)) (v : Value) :
    SameSize (ser env h v) (ser env' h v) := by
  induction v using Value.induct with | h v iha ihm =>
  cases v with
  | array a =>
    have ih := iha a rfl
    unfold ser
    refine (sameSize_list rfl fun i w w' e e' => ?_).bind fun b b' hb => SameSize.pure (by simp [hb])
    rw [e] at e'
    cases e'
    exact ih w (List.mem_of_getElem? e)
  | map m =>
    have ih := ihm m rfl
    unfold ser
    refine (sameSize_entries rfl (fun i w w' e e' => ?_) fun i w w' e e' => ?_).bind
      fun b b' hb => SameSize.pure (by simp [hb])
    · rw [e] at e'; cases e'; rfl
    · rw [e] at e'
      cases e'
      exact ih w.1 w.2 (List.mem_of_getElem? e)
  | binary d =>
    obtain ⟨ct, x, y, ex, ey, l⟩ := Binary.ser_size env.lz ho.first ho.second d
    intro b hb
    unfold ser at hb ⊢
    rw [ex] at hb
    rw [← ho.lz, ey]
    cases hb
    exact ⟨_, rfl, by simp [l]⟩
  | json j =>
    unfold ser
    rw [ho.json]
    exact SameSize.refl _
  | _ => exact SameSize.refl _

theorem ser_list_congr {env env' : Env} {h : Option (Huffman Char)} {a : List Value}
    (hh : ∀ v ∈ a, ser env h v = ser env' h v) : serList env h a = serList env' h a := by
  induction a with
  | nil => rfl
  | cons v a ih =>
    unfold serList
    rw [hh v (by simp), ih fun w hw => hh w (by simp [hw])]

theorem ser_entries_congr {env env' : Env} {h : Option (Huffman Char)} {m : List (List Char × Value)}
    (hh : ∀ k v, (k, v) ∈ m → ser env h v = ser env' h v) : serEntries env h m = serEntries env' h m := by
  induction m with
  | nil => rfl
  | cons e m ih =>
    obtain ⟨k, v⟩ := e
    unfold serEntries
    rw [hh k v (by simp), ih fun k w hw => hh k w (by simp [hw])]

theorem ser_bytes {env env' : Env} (ho : Occasions env env') (h : Option (Huffman Char)) (v : Value)
    (hb : ∀ d, Sub (.binary d) v → TwoSymbols d → ∀ x, Binary.ser env.lz env.byteOrd d ≠ .ok (.huffman, x)) :
    ser env h v = ser env' h v := by
  induction v using Value.induct with | h v iha ihm =>
  cases v with
  | array a =>
    unfold ser
    rw [ser_list_congr fun w hw => iha a rfl w hw fun d hd => hb d (.array hw hd)]
  | map m =>
    unfold ser
    rw [ser_entries_congr fun k w hw => ihm m rfl k w hw fun d hd => hb d (.map hw hd)]
  | binary d =>
    unfold ser
    rw [Binary.ser_bytes env.lz ho.first ho.second (hb d (.refl _)), ho.lz]
  | json j =>
    unfold ser
    rw [ho.json]
  | _ => rfl

/-- Where no map has two entries, there is nothing to reorder. -/
theorem reordered_eq {v v' : Value} (hv : Reordered v v')
    (hm : ∀ m, Sub (.map m) v → m.length ≤ 1) : v = v' := by
  induction hv with
  | same v => rfl
  | array hl _ ih =>
    congr 1
    refine List.ext_getElem? fun i => ?_
    rename_i a a' _
    cases e : a[i]? with
    | none =>
      rw [List.getElem?_eq_none_iff] at e
      rw [eq_comm, List.getElem?_eq_none_iff]
      omega
    | some w =>
      have hi : i < a'.length := by rw [← hl]; exact (List.getElem?_eq_some_iff.mp e).1
      have e' := List.getElem?_eq_getElem hi
      rw [e', ih i w _ e e' fun m h => hm m (.array (List.mem_of_getElem? e) h)]
  | map hl hk _ hp ih =>
    rename_i m m' m'' _
    have hle := hm m (.refl _)
    have h1 : m = m' := by
      refine List.ext_getElem? fun i => ?_
      cases e : m[i]? with
      | none =>
        rw [List.getElem?_eq_none_iff] at e
        rw [eq_comm, List.getElem?_eq_none_iff]
        omega
      | some w =>
        have hi : i < m'.length := by rw [← hl]; exact (List.getElem?_eq_some_iff.mp e).1
        have e' := List.getElem?_eq_getElem hi
        rw [e']
        congr 1
        exact Prod.ext (hk i w _ e e')
          (ih i w _ e e' fun m0 h => hm m0 (.map (k := w.1) (v := w.2) (List.mem_of_getElem? e) h))
    subst h1
    match m, hle with
    | [], _ => rw [List.nil_perm.mp hp]
    | [x], _ => rw [List.singleton_perm.mp hp]

end Value

/-- C96, size: a value takes the same number of bytes on every occasion. -/
theorem C96_size {env env' : Env} (ho : Occasions env env') (h : Option (Huffman Char)) {v v' : Value}
    (hv : Reordered v v') {b : List UInt8} (e : Value.ser env h v = .ok b) :
    ∃ b', Value.ser env' h v' = .ok b' ∧ b'.length = b.length := by
  suffices Value.SameSize (Value.ser env h v) (Value.ser env' h v') from this b e
  clear e
  induction hv with
  | same v => exact Value.sameSize_env ho h v
  | array hl _ ih =>
    unfold Value.ser
    exact (Value.sameSize_list hl ih).bind fun b b' hb => Value.SameSize.pure (by simp [hb, hl])
  | map hl hk _ hp ih =>
    unfold Value.ser
    exact ((Value.sameSize_entries hl hk ih).trans (Value.sameSize_perm hp)).bind
      fun b b' hb => Value.SameSize.pure (by simp [hb, hl, hp.length_eq])

/-- C96, partial: a value without a map of two or more entries, and without binary data stored under a
tree, has the same bytes on every occasion. Missing: the others, see the refutations. -/
theorem C96_bytes_partial {env env' : Env} (ho : Occasions env env') (h : Option (Huffman Char)) {v v' : Value}
    (hv : Reordered v v') (hm : ∀ m, Value.Sub (.map m) v → m.length ≤ 1)
    (hb : ∀ d, Value.Sub (.binary d) v → TwoSymbols d → ∀ x, Binary.ser env.lz env.byteOrd d ≠ .ok (.huffman, x)) :
    Value.ser env h v = Value.ser env' h v' := by
  rw [← Value.reordered_eq hv hm]
  exact Value.ser_bytes ho h v hb

/-! ### Bytes do depend on chance -/

/-- C96 is violated by every map with two entries: with the first two handed out the other way round, it
is written with other bytes. -/
theorem C96_refuted_map (env : Env) (h : Option (Huffman Char)) {k k' : List Char} (v v' : Value)
    (m : List (List Char × Value)) (hk : Value.StringStorable h k) (hk' : Value.StringStorable h k') (hne : k ≠ k')
    {b : List UInt8} (e : Value.ser env h (.map ((k, v) :: (k', v') :: m)) = .ok b) (hb : b.length < 2 ^ 64) :
    Reordered (.map ((k, v) :: (k', v') :: m)) (.map ((k', v') :: (k, v) :: m)) ∧
      Value.ser env h (.map ((k', v') :: (k, v) :: m)) ≠ .ok b := by
  refine ⟨.map rfl (fun i e e' h1 h2 => ?_) (fun i e e' h1 h2 => ?_) (.swap _ _ _), fun e' => ?_⟩
  · rw [h1] at h2; cases h2; rfl
  · rw [h1] at h2; cases h2; exact .same _
  · obtain ⟨x, ex, rx⟩ := Value.serString_reads hk env
    obtain ⟨y, ey, ry⟩ := Value.serString_reads hk' env
    have tail : ∀ {s s' : List Char} {w w' : Value} {x : List UInt8}, Value.serString h s = .ok x →
        Value.ser env h (.map ((s, w) :: (s', w') :: m)) = .ok b →
        ∃ t, b = Value.serLen .map (m.length + 2) ++ (x ++ t) := by
      intro s s' w w' x ex e
      simp only [Value.ser, Value.serEntries, ex, Out.ok_bind, List.length_cons] at e
      cases h1 : Value.ser env h w with
      | err e => exact e.elim
      | panic p => simp [h1] at e
      | ok b1 =>
        cases h2 : Value.serString h s' with
        | err e => exact e.elim
        | panic p => simp [h1, h2] at e
        | ok b2 =>
          cases h3 : Value.ser env h w' with
          | err e => exact e.elim
          | panic p => simp [h1, h2, h3] at e
          | ok b3 =>
            cases h4 : Value.serEntries env h m with
            | err e => exact e.elim
            | panic p => simp [h1, h2, h3, h4] at e
            | ok b4 =>
              simp only [h1, h2, h3, h4, Out.ok_bind, Out.pure_eq, Out.ok.injEq] at e
              exact ⟨_, e.symm⟩
    obtain ⟨t, ht⟩ := tail ex e
    obtain ⟨t', ht'⟩ := tail ey e'
    rw [ht] at ht'
    have heq := List.append_cancel_left ht'
    have hlen : x.length + t.length < 2 ^ 64 := by
      rw [ht] at hb
      simp only [List.length_append] at hb
      omega
    have r1 := rx [] t (by simpa [usizeMod] using hlen)
    have r2 := ry [] t' (by rw [List.nil_append, ← heq]; simpa [usizeMod] using hlen)
    rw [heq, r2] at r1
    simp only [Out.ok.injEq, Prod.mk.injEq] at r1
    cases r1.1
    exact hne rfl

/-- A map of two entries. -/
def twoEntries : Value := .map [("a".toList, .null), ("b".toList, .null)]

example : ∃ b, Value.ser sampleEnv none twoEntries = .ok b ∧ b.length < 2 ^ 64 := ⟨_, rfl, by decide⟩

/-- The hash map of character counts is iterated from the second entry on. -/
def otherEnv : Env := { sampleEnv with charOrd := fun l => l.rotate 1 }

/-- A database of one entry: no map in it has two. -/
def fourStrings : Store := [([], .array [.string "aaaa".toList, .string "aaaa".toList,
  .string "bbbbbbbb".toList, .string "cccccccc".toList])]

/-- C96 is violated by databases even in size: this one has a single entry, but which character gets the
short code depends on how a hash map of counts is iterated, and each string is padded to whole bytes. -/
theorem C96_refuted_store :
    (∃ b, Store.ser sampleEnv fourStrings = .ok b ∧ b.length = 32) ∧
      ∃ b, Store.ser otherEnv fourStrings = .ok b ∧ b.length = 33 := by
  refine ⟨⟨[83, 79, 85, 82, 73, 83, 68, 66, 128, 22, 0, 99, 0, 100, 98, 130, 17, 0, 184, 17, 8, 0, 17, 8, 0,
    17, 8, 255, 17, 16, 170, 170], by decide +kernel, rfl⟩,
    ⟨[83, 79, 85, 82, 73, 83, 68, 66, 128, 23, 0, 98, 0, 99, 100, 130, 17, 0, 184, 17, 4, 15, 17, 4, 15,
    17, 16, 170, 170, 17, 16, 0, 0], by decide +kernel, rfl⟩⟩

theorem otherEnv_order : HashOrder otherEnv.charOrd := fun l => List.rotate_perm l 1

/-- The hash map of byte counts is iterated backwards. -/
def backEnv : Env := { sampleEnv with byteOrd := List.reverse }

/-- The conditions of C96 are met by these two occasions. -/
theorem backEnv_occasions : Occasions sampleEnv backEnv :=
  ⟨rfl, rfl, fun _ => List.Perm.refl _, fun l => l.reverse_perm⟩

/-- Sixteen bytes, eight of each of two kinds. -/
def sixteen : List UInt8 := [0, 1, 0, 1, 0, 1, 0, 1, 0, 1, 0, 1, 0, 1, 0, 1]

/-- C96 is violated by binary data stored under a tree: which of two equally frequent bytes gets which
code depends on how a hash map of counts is iterated. -/
theorem C96_refuted_tree :
    ∃ b b', Value.ser sampleEnv none (.binary sixteen) = .ok b ∧
      Value.ser backEnv none (.binary sixteen) = .ok b' ∧ b ≠ b' :=
  ⟨[35, 2, 0, 1, 0, 1, 1, 16, 85, 85], [35, 2, 0, 1, 1, 1, 0, 16, 170, 170], by decide +kernel,
    by decide +kernel, by decide⟩

-- the conditions of `C96_size`: a map in an array, handed out in two orders, beside such data
example : Reordered (.array [twoEntries, .binary sixteen])
    (.array [.map [("b".toList, .null), ("a".toList, .null)], .binary sixteen]) := by
  refine .array rfl fun i v v' e e' => ?_
  match i with
  | 0 =>
    cases e
    cases e'
    exact (C96_refuted_map sampleEnv none .null .null [] ⟨by decide, fun _ h => by cases h⟩
      ⟨by decide, fun _ h => by cases h⟩ (by decide) rfl (by decide)).1
  | 1 => cases e; cases e'; exact .same _
  | i + 2 => simp at e

-- the conditions of `C96_bytes_partial`: a map of one entry that holds binary data stored plainly
example : (∀ m, Value.Sub (.map m) (.map [("a".toList, .binary [1, 2])]) → m.length ≤ 1) ∧
    ∀ d, Value.Sub (.binary d) (.map [("a".toList, .binary [1, 2])]) → TwoSymbols d →
      ∀ x, Binary.ser sampleEnv.lz sampleEnv.byteOrd d ≠ .ok (.huffman, x) := by
  refine ⟨fun m h => ?_, fun d h _ x => ?_⟩
  · cases h with
    | refl => decide
    | map hv h =>
      simp only [List.mem_singleton, Prod.mk.injEq] at hv
      rw [hv.2] at h
      cases h
  · cases h with
    | map hv h =>
      simp only [List.mem_singleton, Prod.mk.injEq] at hv
      rw [hv.2] at h
      cases h
      have : Binary.ser sampleEnv.lz sampleEnv.byteOrd [1, 2] = .ok (.nothing, [2, 1, 2]) := by decide +kernel
      rw [this]
      intro hc
      cases hc

end Souris
