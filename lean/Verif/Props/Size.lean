import Verif.Lemmas.Size
import Verif.Props.Format

/-! # C79: the size of a saved database -/

namespace Souris

open Value

/-- C79: every database is saved in a file whose size is bounded by its contents, whatever the hash orders and
whatever lz4 does: if its text is over an alphabet of at most `2^k` characters, then `k` bits for every
character, the bytes of the binary data, 36 bytes for every value and key, 6 bytes for every character of
the alphabet, and 18 bytes. -/
theorem C79_file {env : Env} (hb : HashOrder env.byteOrd) (hc : HashOrder env.charOrd) {s : Store}
    (hs : Dated (.map s)) (hsz : (Value.map s).size env < 2 ^ 56) {abc : List Char} (habc : Over env abc (.map s))
    {k : Nat} (hk : abc.length ≤ 2 ^ k) :
    ∃ file, Store.ser env s = .ok file ∧
      8 * file.length ≤ 8 * 18 + 8 * 6 * abc.length + (Value.map s).cost env (8 * 36) (fun _ => k) 8 := by
  obtain ⟨h, mb, ct, comp, e, em, ec, hcase⟩ := Fixed.ser_shape_new env hb hc s
  refine ⟨_, e, ?_⟩
  have key := Fixed.data_cost hb hc hs hsz habc hk em hcase
  obtain ⟨ct', comp', e4, _, hcl, _⟩ := C25_never_expands env.lz hb _ key.1
  rw [ec, Out.ok.injEq, Prod.mk.injEq] at e4
  rw [← e4.2] at hcl
  have key := key.2
  simp only [List.length_append, List.length_cons, Store.magic, List.length_nil] at hcl key ⊢
  show _ ≤ _ + cost env 288 (fun _ => k) 8 (.map s)
  omega

/-- C79: in particular, the file takes at most 36 bytes for every value and key, 9 for every character, the bytes
of the binary data, and 18 bytes. -/
theorem C79_linear {env : Env} (hb : HashOrder env.byteOrd) (hc : HashOrder env.charOrd) {s : Store}
    (hs : Dated (.map s)) (hsz : (Value.map s).size env < 2 ^ 56) :
    ∃ file, Store.ser env s = .ok file ∧ file.length ≤ 18 + (Value.map s).cost env 36 (fun _ => 9) 1 := by
  have htext : ∀ t, Text env t (.map s) → ∀ x ∈ t, x ∈ Store.allText env [.map s] := fun t ht x hx =>
    (mem_allText env [.map s] x).mpr ⟨t, _, List.mem_singleton.mpr rfl, ht, hx⟩
  obtain ⟨file, e, hl⟩ := C79_file hb hc hs hsz (abc := (Store.allText env [.map s]).dedup)
    (fun t ht x hx => List.mem_dedup.mpr (htext t ht x hx)) (k := 21) (Fixed.nodup_chars (List.nodup_dedup _))
  refine ⟨file, e, ?_⟩
  have hd := (List.dedup_sublist (Store.allText env [.map s])).length_le
  have hchars : ∀ k, cost env 0 (fun _ => k) 0 (.map s) = k * (Store.allText env [.map s]).length := by
    intro k
    have := Fixed.allText_sum env (fun _ => k) [.map s]
    simpa [Nat.mul_comm] using this.symm
  have h1 := Fixed.cost_split env 288 (fun _ => 21) 8 (.map s)
  have h2 := Fixed.cost_split env 36 (fun _ => 9) 1 (.map s)
  have h3 : cost env 288 (fun _ => 0) 8 (.map s) = 8 * cost env 36 (fun _ => 0) 1 (.map s) := Fixed.cost_scale env _
  rw [hchars] at h1 h2
  have hl : 8 * file.length ≤ 144 + 48 * _ + cost env 288 (fun _ => 21) 8 (.map s) := hl
  omega

/-- C79: so are the files on the disk. After a save without failures that returned `Ok`, whatever was on the disk
before, every database whose file could be opened has a file within the bound of its contents, and the list
of the databases takes at most 36 bytes for every database and 9 for every character of their names, and 234
bytes. -/
theorem C79_disk {env : Env} (hb : HashOrder env.byteOrd) (hc : HashOrder env.charOrd) {base : Path} {dbs : Dbs}
    {fs fs' : FS} (hnd : (dbs.map Prod.fst).Nodup) (hp : ∀ x ∈ dbs, PlainName x.1 ∧ x.1 ≠ kMeta) (hbase : BaseOk fs base)
    (hall : ∀ x ∈ dbs, Dated (.map x.2) ∧ (Value.map x.2).size env < 2 ^ 56)
    (hsum : (dbs.map fun x => 1 + x.1.length).sum < 2 ^ 55) (h : save env base [] .none dbs fs = (fs', true)) :
    (∀ n s, (n, s) ∈ dbs → fs (sdbPath base n) ≠ some .dir → ∃ file, fs' (sdbPath base n) = some (.file file) ∧
      file.length ≤ 18 + (Value.map s).cost env 36 (fun _ => 9) 1) ∧
    ∃ file, fs' (sdbPath base kMeta) = some (.file file) ∧
      file.length ≤ 234 + (dbs.map fun x => 36 + 9 * x.1.length).sum := by
  obtain ⟨names, b, eb, hmeta, hnn, hsub, hspec⟩ := C48_save_partial hb hc base [] dbs fs fs' hnd hp hbase h
  constructor
  · intro n s hns hd
    obtain ⟨i, hi⟩ := List.mem_iff_getElem?.mp hns
    obtain ⟨b, e, h1, h2, _⟩ := hspec i n s hi
    have hnone : ([] : List Fault).getD i .none = .none := by simp
    rw [hnone] at h1 h2
    obtain ⟨hs, hsz⟩ := hall _ hns
    obtain ⟨file, e', hl⟩ := C79_linear hb hc hs hsz
    rw [e, Out.ok.injEq] at e'
    subst e'
    exact ⟨b, h2 (h1.mpr ⟨by simp [Fault.reported], hd⟩) rfl, hl⟩
  · have hle : ∀ f : List Char → Nat, (names.map f).sum ≤ (dbs.map fun x => f x.1).sum := by
      intro f
      obtain ⟨l, h1, h2⟩ := hnn.subperm hsub
      rw [← (h1.map _).sum_eq]
      have := (h2.map f).sum_le_sum (by simp)
      simpa [List.map_map, Function.comp_def] using this
    have hsz : Value.sizeList env (names.map Value.string) = (names.map fun n => 1 + n.length).sum := by
      clear * -
      induction names with
      | nil => rfl
      | cons n ns ih => simp [Value.sizeList, Value.size, ih]
    have hcost : Value.costList env 36 (fun _ => 9) 1 (names.map Value.string)
        = (names.map fun n => 36 + 9 * n.length).sum := by
      clear * -
      induction names with
      | nil => rfl
      | cons n ns ih => simp [Value.costList, Value.cost, ih, Nat.mul_comm]
    have subs : ∀ w, Sub w (.map [(kExisting, .array (names.map .string))]) →
        w = .map [(kExisting, .array (names.map .string))] ∨ w = .array (names.map .string) ∨ ∃ n, w = .string n := by
      intro w hw
      cases hw with
      | refl => exact .inl rfl
      | map hv h =>
        simp only [List.mem_singleton, Prod.mk.injEq] at hv
        obtain ⟨_, rfl⟩ := hv
        cases h with
        | refl => exact .inr (.inl rfl)
        | array hv h =>
          obtain ⟨n, _, rfl⟩ := List.mem_map.mp hv
          cases h
          exact .inr (.inr ⟨n, rfl⟩)
    have hk : kExisting.length = 12 := by decide
    obtain ⟨file, e', hl⟩ := C79_linear hb hc (s := [(kExisting, .array (names.map .string))]) (by
      refine ⟨⟨?_, ?_, ?_⟩, ?_⟩
      · intro i hi; rcases subs _ hi with h | h | ⟨_, h⟩ <;> cases h
      · intro i hi; rcases subs _ hi with h | h | ⟨_, h⟩ <;> cases h
      · intro i hi; rcases subs _ hi with h | h | ⟨_, h⟩ <;> cases h; simp
      · intro i hi; rcases subs _ hi with h | h | ⟨_, h⟩ <;> cases h) (by
      simp only [Value.size, Value.sizeEntries, hsz]
      have := hle fun n => 1 + n.length
      omega)
    have eb : Store.ser env [(kExisting, .array (names.map .string))] = .ok b := eb
    rw [eb, Out.ok.injEq] at e'
    subst e'
    refine ⟨b, hmeta, hl.trans ?_⟩
    simp only [cost, costEntries, hcost, List.map_const', List.sum_replicate_nat, hk]
    have := hle fun n => 36 + 9 * n.length
    omega

/-- A database of three keys over four characters, two maps, an empty array and a timestamp: at most 18 bytes, 6
for each of the characters, 36 for each of the 7 keys and values, and 2 bits for each of the 4 characters of the
text, whatever the hash order and lz4. -/
example : ∃ file, Store.ser sampleEnv awkwardStore = .ok file ∧ file.length ≤ 18 + 6 * 4 + 36 * 7 + 1 := by
  have hover : Over sampleEnv ['a', 'b', 'c', 'd'] (.map awkwardStore) := by
    intro t ht x hx
    cases ht with
    | key h =>
      simp only [awkwardStore, List.mem_cons, Prod.mk.injEq, List.not_mem_nil, or_false] at h
      rcases h with ⟨rfl, _⟩ | ⟨rfl, _⟩ <;> simp_all
      tauto
    | map hv h =>
      simp only [awkwardStore, List.mem_cons, Prod.mk.injEq, List.not_mem_nil, or_false] at hv
      rcases hv with ⟨_, rfl⟩ | ⟨_, rfl⟩
      · cases h with
        | array hv _ => cases hv
      · cases h with
        | key h => simp only [List.mem_cons, Prod.mk.injEq, List.not_mem_nil, or_false] at h; simp_all
        | map hv h =>
          simp only [List.mem_cons, Prod.mk.injEq, List.not_mem_nil, or_false] at hv
          obtain ⟨_, rfl⟩ := hv
          cases h
  obtain ⟨hs, hsz, _⟩ := awkwardStore_sound
  obtain ⟨file, e, hl⟩ := C79_file (env := sampleEnv) (fun _ => .refl _) (fun _ => .refl _) ⟨hs.1, hs.2.1⟩ (by omega) hover (k := 2)
    (by decide)
  refine ⟨file, e, ?_⟩
  have hc : cost sampleEnv (8 * 36) (fun _ => 2) 8 (.map awkwardStore) = 8 * 36 * 7 + 8 := by
    simp [awkwardStore, cost, costEntries, costList]
  rw [hc] at hl
  simp only [List.length_cons, List.length_nil] at hl
  omega

end Souris
