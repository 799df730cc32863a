import Verif.Lemmas.Format
import Verif.Props.Disk

/-! # C77: a file determines the contents of its database -/

namespace Souris

open Value

theorem Value.SameAs.symm {v w : Value} (h : SameAs v w) : SameAs w v := by
  induction h with
  | integer h => exact .integer ⟨h.1.symm, h.2.symm⟩
  | imaginary h =>
    cases h with
    | cartesian h1 h2 => exact .imaginary (.cartesian ⟨h1.1.symm, h1.2.symm⟩ ⟨h2.1.symm, h2.2.symm⟩)
    | polar m a => exact .imaginary (.polar m a)
  | array hl _ ih => exact .array hl.symm fun i v v' hv hv' => ih i v' v hv' hv
  | map hl hk _ ih => exact .map hl.symm (fun k => (hk k).symm) fun k v v' hv hv' => ih k v' v hv' hv
  | _ => constructor

theorem Value.SameAs.trans {u v w : Value} (h : SameAs u v) (h' : SameAs v w) : SameAs u w := by
  induction h generalizing w with
  | integer h =>
    cases h' with
    | integer h' => exact .integer ⟨h.1.trans h'.1, h.2.trans h'.2⟩
  | imaginary h =>
    cases h' with
    | imaginary h' =>
      cases h with
      | cartesian h1 h2 =>
        cases h' with
        | cartesian h1' h2' =>
          exact .imaginary (.cartesian ⟨h1.1.trans h1'.1, h1.2.trans h1'.2⟩ ⟨h2.1.trans h2'.1, h2.2.trans h2'.2⟩)
      | polar m a => cases h'; exact .imaginary (.polar m a)
  | @array a a' hl _ ih =>
    cases h' with
    | @array _ a'' hl' h' =>
      refine .array (hl.trans hl') fun i v v'' hv hv'' => ?_
      have hi : i < a'.length := by
        rw [← hl]
        exact (List.getElem?_eq_some_iff.mp hv).1
      have hv' : a'[i]? = some a'[i] := List.getElem?_eq_getElem hi
      exact ih i v _ hv hv' (h' i _ v'' hv' hv'')
  | map hl hk _ ih =>
    cases h' with
    | map hl' hk' h' =>
      refine .map (hl.trans hl') (fun k => (hk k).trans (hk' k)) fun k v v'' hv hv'' => ?_
      obtain ⟨v', hv'⟩ := (hk k).mp ⟨v, hv⟩
      exact ih k v v' hv hv' (h' k v' v'' hv' hv'')
  | _ => exact h'

/-- C77, partial: there is a way to get the contents of every database back from its file alone: integers by
signedness and value, floats bit for bit, maps and arrays, empty or not, at any depth, every timestamp. (It
is not `Store::deser`, which never succeeds, `C33_refuted`.) Missing: databases all of whose text is one
repeated character, for which there is none (`C77_refuted_one_character`). -/
theorem C77_recoverable_partial {env : Env} (hlz : env.lz.Lossless) (hb : HashOrder env.byteOrd)
    (hc : HashOrder env.charOrd) :
    ∃ read : List UInt8 → Option Store, ∀ s : Store, Sound env (.map s) → (Value.map s).size env < 2 ^ 40 →
      ¬ Store.OneCharacter env s →
      ∃ bytes s', Store.ser env s = .ok bytes ∧ read bytes = some s' ∧ SameAs (.map s) (.map s') := by
  refine ⟨Fixed.store env, fun s hs hsz hone => ?_⟩
  obtain ⟨h, mb, ct, comp, e, _⟩ := ser_shape env hb hc s
  obtain ⟨s', h1, h2⟩ := Fixed.store_reads hlz hb hc hs hsz hone e
  exact ⟨_, s', e, h1, h2⟩

/-- C77, partial: databases written to the same bytes have the same contents. -/
theorem C77_unambiguous_partial {env : Env} (hlz : env.lz.Lossless) (hb : HashOrder env.byteOrd)
    (hc : HashOrder env.charOrd) {s s' : Store} (hs : Sound env (.map s)) (hs' : Sound env (.map s'))
    (hsz : (Value.map s).size env < 2 ^ 40) (hsz' : (Value.map s').size env < 2 ^ 40)
    (hone : ¬ Store.OneCharacter env s) (hone' : ¬ Store.OneCharacter env s')
    (e : Store.ser env s = Store.ser env s') : SameAs (.map s) (.map s') := by
  obtain ⟨read, h⟩ := C77_recoverable_partial hlz hb hc
  obtain ⟨b1, t1, e1, r1, s1⟩ := h s hs hsz hone
  obtain ⟨b2, t2, e2, r2, s2⟩ := h s' hs' hsz' hone'
  rw [e1, e2, Out.ok.injEq] at e
  subst e
  rw [r1, Option.some.injEq] at r2
  subst r2
  exact s1.trans s2.symm

/-- C77: a single value is determined by its bytes, whatever follows them, given the coder of the text (none,
or one of at least two characters): if two values are written to byte strings of which one starts the
other, they have the same contents, and the bytes are the same. -/
theorem C77_value {env : Env} (hlz : env.lz.Lossless) (hb : HashOrder env.byteOrd) {text : List Char}
    {h : Option (Huffman Char)}
    (hh : h = none ∨ TwoSymbols text ∧ ∃ coder, Huffman.new env.charOrd text = .ok coder ∧ h = some coder)
    (hc : HashOrder env.charOrd) {v v' : Value} (hv : Sound env v) (hv' : Sound env v')
    (hsz : v.size env < 2 ^ 40) (hsz' : v'.size env < 2 ^ 40) {b b' r r' : List UInt8}
    (e : Value.ser env h v = .ok b) (e' : Value.ser env h v' = .ok b') (eq : b ++ r = b' ++ r') :
    SameAs v v' ∧ b = b' := by
  have hcoder : Fixed.Branching h ∧ Fixed.Bounded h := by
    rcases hh with rfl | ⟨h2, coder, hnew, rfl⟩
    · exact ⟨(fun _ h => nomatch h), .inl rfl⟩
    · have hne : text ≠ [] := by
        obtain ⟨x, hx, _⟩ := h2
        exact List.ne_nil_of_mem hx
      obtain ⟨root, e, _, hnd, _, hbr⟩ := Huffman.new_ok hc text hne
      rw [hnew, Out.ok.injEq] at e
      subst e
      obtain ⟨l, r, rfl⟩ := hbr h2
      refine ⟨?_, .inr ⟨_, rfl, Fixed.nodup_chars hnd⟩⟩
      intro coder hcoder
      simp only [Option.some.injEq] at hcoder
      exact ⟨l, r, hcoder.symm⟩
  have hl := Fixed.ser_length hb hcoder.2 v hv hsz b e
  have hl' := Fixed.ser_length hb hcoder.2 v' hv' hsz' b' e'
  obtain ⟨w, s1, r1⟩ := Fixed.value_reads hlz hb hcoder.1 v hv (by omega) b e (by omega)
    (b.length + b'.length) (by omega)
  obtain ⟨w', s2, r2⟩ := Fixed.value_reads hlz hb hcoder.1 v' hv' (by omega) b' e' (by omega)
    (b.length + b'.length) (by omega)
  have hmax : ∀ d : List UInt8, d.length ≤ 2 ^ 60 → d.length < usizeMod := by
    intro d hd; unfold usizeMod; omega
  have fin : w = w' ∧ b.length = b'.length := by
    rcases List.append_eq_append_iff.mp eq with ⟨d, hd, _⟩ | ⟨d, hd, _⟩
    · have q1 := r1 [] d (hmax _ (by rw [List.nil_append, ← hd]; omega))
      have q2 := r2 [] [] (hmax _ (by rw [List.nil_append, List.append_nil]; omega))
      rw [List.append_nil, ← hd] at *
      rw [q1] at q2
      simp only [Out.ok.injEq, Prod.mk.injEq, Cursor.At, Cursor.mk.injEq, List.nil_append] at q2
      exact ⟨q2.1, q2.2.2⟩
    · have q1 := r1 [] [] (hmax _ (by rw [List.nil_append, List.append_nil]; omega))
      have q2 := r2 [] d (hmax _ (by rw [List.nil_append, ← hd]; omega))
      rw [List.append_nil, ← hd] at *
      rw [q1] at q2
      simp only [Out.ok.injEq, Prod.mk.injEq, Cursor.At, Cursor.mk.injEq, List.nil_append] at q2
      exact ⟨q2.1, q2.2.2⟩
  obtain ⟨rfl, hlen⟩ := fin
  exact ⟨s1.trans s2.symm, (List.append_inj eq hlen).1⟩

/-- C77 is violated by a database all of whose text is one repeated character: the file does not tell how
often it is repeated. Whatever the character and the value (without text), the databases with the one key
`x…x` of any length are written to the same bytes. -/
theorem C77_refuted_one_character {env : Env} (hc : HashOrder env.charOrd) (x : Char) (n k : Nat) {v : Value}
    (hv : ∀ t, Text env t v → t = []) :
    Store.ser env [(List.replicate (n + 1) x, v)] = Store.ser env [(List.replicate (k + 1) x, v)] := by
  have htext : ∀ key : List Char, Store.allText env [.map [(key, v)]] = key := by
    intro key
    have h0 : Store.allText env [v] = [] := by
      rw [List.eq_nil_iff_forall_not_mem]
      intro c hcm
      obtain ⟨t, w, hw, ht, hct⟩ := (mem_allText env [v] c).mp hcm
      simp only [List.mem_singleton] at hw
      subst hw
      rw [hv t ht] at hct
      cases hct
    rw [Store.allText]
    simp only [Store.textOf, List.flatMap_cons, List.flatMap_nil, List.append_nil, List.map_cons, List.map_nil,
      List.reverse_cons, List.reverse_nil, List.nil_append, h0]
  have hkey : ∀ n, Value.serString (some (Huffman.ofRoot (.leaf x))) (List.replicate (n + 1) x)
      = .ok (tyByte .string 1 :: Binary.usizeSer 0) := by
    intro n
    have hcs : (List.replicate (n + 1) x).map (Huffman.codeOf (.leaf x))
        = (List.replicate (n + 1) ([] : List Bool)).map some := by
      simp [Huffman.codeOf]
    have hfl : (List.replicate (n + 1) ([] : List Bool)).flatten = [] := by simp
    have he := Huffman.encode_ok _ hcs
    rw [hfl] at he
    simp only [Value.serString, he]
    rfl
  have hser : ∀ n, Value.ser env (some (Huffman.ofRoot (.leaf x))) (.map [(List.replicate (n + 1) x, v)])
      = (Value.ser env (some (Huffman.ofRoot (.leaf x))) v >>= fun b =>
        pure (serLen .map 1 ++ ((tyByte .string 1 :: Binary.usizeSer 0) ++ (b ++ [])))) := by
    intro n
    simp only [Value.ser, Value.serEntries, hkey, Out.ok_bind]
    cases Value.ser env (some (Huffman.ofRoot (.leaf x))) v <;> rfl
  unfold Store.ser
  simp only [htext, new_replicate hc, hser]

/-- The files of `{"a": null}` and `{"aa": null}` are the same. -/
example : Store.ser sampleEnv [(['a'], .null)] = Store.ser sampleEnv [(['a', 'a'], .null)] :=
  C77_refuted_one_character (env := sampleEnv) (fun _ => .refl _) 'a' 0 1 (fun t h => by cases h)

/-- A database with an empty array, a nested map and a timestamp in a leap second at an odd place. -/
def awkwardStore : Store :=
  [(['a', 'b'], .array []), (['c'], .map [(['d'], .timestamp ⟨2024, 1, 31, 0, 0, 30, 1500000000⟩)])]

theorem awkwardStore_sound : Sound sampleEnv (.map awkwardStore) ∧ (Value.map awkwardStore).size sampleEnv < 2 ^ 40 ∧
    ¬ Store.OneCharacter sampleEnv awkwardStore := by
  have subs : ∀ w, Sub w (.map awkwardStore) → w = .map awkwardStore ∨ w = .array [] ∨
      w = .map [(['d'], .timestamp ⟨2024, 1, 31, 0, 0, 30, 1500000000⟩)] ∨
      w = .timestamp ⟨2024, 1, 31, 0, 0, 30, 1500000000⟩ := by
    intro w hw
    cases hw with
    | refl => exact .inl rfl
    | map hv h =>
      simp only [awkwardStore, List.mem_cons, Prod.mk.injEq, List.not_mem_nil, or_false] at hv
      rcases hv with ⟨_, rfl⟩ | ⟨_, rfl⟩
      · cases h with
        | refl => exact .inr (.inl rfl)
        | array hv _ => cases hv
      · cases h with
        | refl => exact .inr (.inr (.inl rfl))
        | map hv h =>
          simp only [List.mem_cons, Prod.mk.injEq, List.not_mem_nil, or_false] at hv
          obtain ⟨_, rfl⟩ := hv
          cases h
          exact .inr (.inr (.inr rfl))
  refine ⟨⟨⟨?_, ?_, ?_⟩, ?_, ?_⟩, ?_, ?_⟩
  · intro i hi; rcases subs _ hi with h | h | h | h <;> cases h
  · intro z hz; rcases subs _ hz with h | h | h | h <;> cases h
  · intro m hm
    rcases subs _ hm with h | h | h | h <;> cases h <;> simp [awkwardStore]
  · intro t ht
    rcases subs _ ht with h | h | h | h <;> cases h
    refine ⟨by decide, by decide, by decide, by decide, by decide⟩
  · intro j hj; rcases subs _ hj with h | h | h | h <;> cases h
  · simp [awkwardStore, Value.size, Value.sizeEntries, Value.sizeList]
  · rintro ⟨x, h, _⟩
    have h1 := h ['a', 'b'] (.key (v := .array []) (by simp [awkwardStore])) 'a' (by simp)
    have h2 := h ['a', 'b'] (.key (v := .array []) (by simp [awkwardStore])) 'b' (by simp)
    rw [← h2] at h1
    exact absurd h1 (by decide)

/-! ## The disk -/

/-- The names in the list of databases, read from its file. -/
def Fixed.names (env : Env) (bytes : List UInt8) : List (List Char) :=
  match Fixed.store env bytes with
  | some [(_, .array a)] => a.filterMap fun v =>
    match v with
    | .string n => some n
    | _ => none
  | _ => []

theorem Fixed.names_eq {env : Env} {names : List (List Char)} {bytes : List UInt8} {s : Store}
    (h : Fixed.store env bytes = some s) (hs : SameAs (.map [(kExisting, .array (names.map .string))]) (.map s)) :
    Fixed.names env bytes = names := by
  cases hs with
  | map hl hk hv =>
    match s, hl with
    | [(k, v)], _ =>
      obtain ⟨v', hv'⟩ := (hk kExisting).mp ⟨_, List.mem_singleton.mpr rfl⟩
      simp only [List.mem_singleton, Prod.mk.injEq] at hv'
      obtain ⟨rfl, rfl⟩ := hv'
      have := hv kExisting _ _ (List.mem_singleton.mpr rfl) (List.mem_singleton.mpr rfl)
      cases this with
      | @array _ a' hl hel =>
        have ha : a' = names.map .string := by
          refine List.ext_getElem? fun i => ?_
          by_cases hi : i < a'.length
          · have hi' : i < (names.map Value.string).length := by omega
            have h1 : a'[i]? = some a'[i] := List.getElem?_eq_getElem hi
            have h2 : (names.map Value.string)[i]? = some (names.map Value.string)[i] := List.getElem?_eq_getElem hi'
            have := hel i _ _ h2 h1
            rw [h1, h2]
            rw [List.getElem_map] at this ⊢
            generalize a'[i] = w at this
            cases this
            rfl
          · rw [List.getElem?_eq_none (by omega), List.getElem?_eq_none (by omega)]
        subst ha
        unfold Fixed.names
        rw [h]
        simp only
        rw [List.filterMap_map]
        simp

/-- C77, partial: everything that a save without failures writes can be got back from the disk alone. There is
a way to read a directory so that, whatever the databases (with the restrictions of
`C77_recoverable_partial`, and with plain names other than `meta`) and whatever was on the disk: after
a save that returned `Ok`, it finds exactly the databases whose file could be opened, each with its
contents. -/
theorem C77_disk_partial {env : Env} (hlz : env.lz.Lossless) (hb : HashOrder env.byteOrd)
    (hc : HashOrder env.charOrd) :
    ∃ restore : Path → FS → List (List Char × Store), ∀ (base : Path) (dbs : Dbs) (fs fs' : FS),
      (dbs.map Prod.fst).Nodup → (∀ x ∈ dbs, PlainName x.1 ∧ x.1 ≠ kMeta) → BaseOk fs base →
      (∀ x ∈ dbs, Sound env (.map x.2) ∧ (Value.map x.2).size env < 2 ^ 40 ∧ ¬ Store.OneCharacter env x.2) →
      (dbs.map fun x => 1 + x.1.length).sum < 2 ^ 39 →
      save env base [] .none dbs fs = (fs', true) →
      ((restore base fs').map Prod.fst).Nodup ∧
      (∀ n s', (n, s') ∈ restore base fs' →
        ∃ s, (n, s) ∈ dbs ∧ fs (sdbPath base n) ≠ some .dir ∧ SameAs (.map s) (.map s')) ∧
      ∀ n s, (n, s) ∈ dbs → fs (sdbPath base n) ≠ some .dir →
        ∃ s', (n, s') ∈ restore base fs' ∧ SameAs (.map s) (.map s') := by
  refine ⟨fun base fs =>
    match fs (sdbPath base kMeta) with
    | some (.file b) => (Fixed.names env b).filterMap fun n =>
      match fs (sdbPath base n) with
      | some (.file b) => (Fixed.store env b).map fun s => (n, s)
      | _ => none
    | _ => [], ?_⟩
  intro base dbs fs fs' hnd hp hbase hall hsum hsave
  obtain ⟨names, b, eb, hmeta, hnn, hsub, hspec⟩ := C48_save_partial hb hc base [] dbs fs fs' hnd hp hbase hsave
  have hmeta : fs' (sdbPath base kMeta) = some (.file b) := hmeta
  have hnames : Fixed.names env b = names := by
    have hperm : names.Subperm (dbs.map Prod.fst) := hnn.subperm hsub
    have hle : (names.map fun n => 1 + n.length).sum < 2 ^ 39 := by
      refine lt_of_le_of_lt ?_ hsum
      obtain ⟨l, h1, h2⟩ := hperm
      rw [← (h1.map _).sum_eq]
      have := (h2.map fun n => 1 + n.length).sum_le_sum (by simp)
      simpa [List.map_map, Function.comp_def] using this
    have hsz : Value.sizeList env (names.map Value.string) = (names.map fun n => 1 + n.length).sum := by
      clear * -
      induction names with
      | nil => rfl
      | cons n ns ih => simp [Value.sizeList, Value.size, ih]
    have subs : ∀ w, Sub w (.map [(kExisting, .array (names.map .string))]) →
        w = .map [(kExisting, .array (names.map .string))] ∨ w = .array (names.map .string) ∨ ∃ n, w = .string n := by
      intro w hw
      cases hw with
      | refl => exact .inl rfl
      | map hv h =>
        simp only [List.mem_singleton, Prod.mk.injEq] at hv
        obtain ⟨_, rfl⟩ := hv
        cases h with
        | refl => exact .inr (.inl rfl)
        | array hv h =>
          obtain ⟨n, _, rfl⟩ := List.mem_map.mp hv
          cases h
          exact .inr (.inr ⟨n, rfl⟩)
    obtain ⟨s', h1, h2⟩ := Fixed.store_reads hlz hb hc (s := [(kExisting, .array (names.map .string))]) (by
      refine ⟨⟨?_, ?_, ?_⟩, ?_, ?_⟩
      · intro i hi; rcases subs _ hi with h | h | ⟨_, h⟩ <;> cases h
      · intro i hi; rcases subs _ hi with h | h | ⟨_, h⟩ <;> cases h
      · intro i hi; rcases subs _ hi with h | h | ⟨_, h⟩ <;> cases h; simp
      · intro i hi; rcases subs _ hi with h | h | ⟨_, h⟩ <;> cases h
      · intro i hi; rcases subs _ hi with h | h | ⟨_, h⟩ <;> cases h) (by
      simp only [Value.size, Value.sizeEntries, hsz]
      have : kExisting.length = 12 := by decide
      omega) (by
      rintro ⟨x, h, _⟩
      have h1 := h kExisting (.key (List.mem_singleton.mpr rfl)) 'e' (by decide)
      have h2 := h kExisting (.key (List.mem_singleton.mpr rfl)) 'x' (by decide)
      rw [← h2] at h1
      exact absurd h1 (by decide)) eb
    exact Fixed.names_eq h1 h2
  have hfile : ∀ n s, (n, s) ∈ dbs → (n ∈ names ↔ fs (sdbPath base n) ≠ some .dir) ∧
      (n ∈ names → ∃ s', SameAs (.map s) (.map s') ∧
        (match fs' (sdbPath base n) with
          | some (.file b) => (Fixed.store env b).map fun s => (n, s)
          | _ => none) = some (n, s')) := by
    intro n s hns
    obtain ⟨i, hi⟩ := List.mem_iff_getElem?.mp hns
    obtain ⟨b, e, h1, h2, _⟩ := hspec i n s hi
    have hnone : ([] : List Fault).getD i .none = .none := by simp
    rw [hnone] at h1 h2
    refine ⟨by simpa [Fault.reported] using h1, fun hn => ?_⟩
    obtain ⟨hs, hsz, hone⟩ := hall (n, s) hns
    obtain ⟨s', h3, h4⟩ := Fixed.store_reads hlz hb hc hs hsz hone e
    exact ⟨s', h4, by rw [h2 hn rfl]; simp [h3]⟩
  simp only [hmeta, hnames]
  refine ⟨?_, ?_, ?_⟩
  · refine List.Nodup.sublist ?_ hnn
    clear hnames hmeta hnn hspec hsub eb hfile
    induction names with
    | nil => simp
    | cons n ns ih =>
      rw [List.filterMap_cons]
      split
      · exact .cons _ ih
      · rename_i y hy
        have : y.1 = n := by
          split at hy
          · obtain ⟨s, _, rfl⟩ := Option.map_eq_some_iff.mp hy; rfl
          · cases hy
        rw [List.map_cons, this]
        exact ih.cons_cons _
  · intro n s' hmem
    obtain ⟨n', hn', he⟩ := List.mem_filterMap.mp hmem
    obtain ⟨⟨_, s⟩, hns, rfl⟩ := List.mem_map.mp (hsub n' hn')
    obtain ⟨h1, h2⟩ := hfile _ s hns
    obtain ⟨s'', h3, h4⟩ := h2 hn'
    rw [h4, Option.some.injEq, Prod.mk.injEq] at he
    obtain ⟨rfl, rfl⟩ := he
    exact ⟨s, hns, h1.mp hn', h3⟩
  · intro n s hns hd
    obtain ⟨h1, h2⟩ := hfile n s hns
    obtain ⟨s', h3, h4⟩ := h2 (h1.mpr hd)
    exact ⟨s', List.mem_filterMap.mpr ⟨n, h1.mpr hd, h4⟩, h3⟩

/-- Such a save. -/
example : BaseOk sampleFs [['e', 't', 'c'], ['s']] ∧ PlainName ['d'] ∧ ['d'] ≠ kMeta ∧
    sampleFs (sdbPath [['e', 't', 'c'], ['s']] ['d']) ≠ some .dir ∧
    ∃ fs', save sampleEnv [['e', 't', 'c'], ['s']] [] .none [(['d'], awkwardStore)] sampleFs = (fs', true) := by
  have hpd : PlainName ['d'] := by constructor <;> decide
  refine ⟨.inl (by decide), hpd, by decide, by decide, ?_⟩
  have hs := saveDbs_spec sampleEnv [['e', 't', 'c'], ['s']] [(['d'], awkwardStore)] [] sampleFs (by simp)
    (by simp [hpd]) (.inl (by decide))
  rw [save_eq]
  generalize saveDbs sampleEnv [['e', 't', 'c'], ['s']] [] [(['d'], awkwardStore)] sampleFs = r at hs
  have w := wrote (fs := r.1) plain_meta (serBytes sampleEnv (metaStore r.2)) .none hs.ready
  have h2 := w.iff.mpr ⟨rfl, by
    rw [hs.others _ (sdb_not_prefix _ _) (by
      intro x hx
      simp only [List.mem_cons, List.not_mem_nil, or_false] at hx
      subst hx
      decide)]
    decide⟩
  exact ⟨_, Prod.ext rfl h2⟩

end Souris
