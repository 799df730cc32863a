import Verif.Spec.Disk
import Verif.Lemmas.Daemon

/-! # Lemmas on paths, writes and saving -/

namespace Souris

/-! ## Paths -/

theorem components_plain (s : List Char) (h : '/' ∉ s) : components s = [s] := by
  induction s with
  | nil => rfl
  | cons c s ih =>
    simp only [List.mem_cons, not_or] at h
    simp only [components, if_neg (fun e => h.1 (Eq.symm e)), ih h.2]

theorem head_plain {n : List Char} (h : '/' ∉ n) : n.head? ≠ some '/' := by
  cases n with
  | nil => simp
  | cons c s =>
    simp only [List.mem_cons, not_or] at h
    simp only [List.head?_cons, ne_eq, Option.some.injEq]
    exact fun e => h.1 e.symm

theorem target_noslash (fs : FS) (base : Path) (n : List Char) (h : '/' ∉ n) :
    target fs base n = if Char.ofNat 0 ∈ n then .error .other else
      match fs base with
      | some .dir => .ok (sdbPath base n)
      | some (.file _) => .error .other
      | none => .error .notFound := by
  unfold target
  split
  · rfl
  · have hs : '/' ∉ n ++ kSdb := by simp [h, kSdb]
    rw [if_neg (head_plain h), components_plain _ hs]
    simp only [List.dropLast_singleton, walk, List.getLast?_singleton, Option.getD_some]
    rfl

theorem target_plain {fs : FS} {base : Path} {n : List Char} (h : PlainName n) (hb : fs base = some .dir) :
    target fs base n = .ok (sdbPath base n) := by
  rw [target_noslash fs base n h.1, if_neg h.2, hb]

theorem sdb_ne_base (base : Path) (n : List Char) : sdbPath base n ≠ base := by
  intro h
  have := congrArg List.length h
  simp [sdbPath] at this

theorem sdb_not_prefix (base : Path) (n : List Char) : base.take (sdbPath base n).length ≠ sdbPath base n := by
  intro h
  have := congrArg List.length h
  simp [sdbPath] at this

theorem sdb_inj {base : Path} {n m : List Char} (h : sdbPath base n = sdbPath base m) : n = m := by
  simpa [sdbPath] using h

theorem plain_meta : PlainName kMeta := by
  constructor <;> decide

/-! ## Writes -/

theorem FS.set_self (fs : FS) (p : Path) (n : Option FsNode) : fs.set p n p = n := if_pos rfl

theorem FS.set_ne (fs : FS) {p q : Path} (n : Option FsNode) (h : q ≠ p) : fs.set p n q = fs q := if_neg h

/-- Creating the base directory. -/
theorem createDirAll_ok {fs : FS} {base : Path} (h : ∀ i b, fs (base.take i) ≠ some (.file b)) :
    createDirAll fs base = some fun p => if base.take p.length = p then some .dir else fs p := by
  unfold createDirAll
  rw [if_neg]
  simp only [List.any_eq_true, not_exists, not_and]
  intro i _
  have := h i
  cases he : fs (base.take i) with
  | none => simp
  | some x =>
    cases x with
    | dir => simp
    | file b => exact absurd he (this b)

/-- What a write to the file of a plain name does. -/
structure Wrote (fs : FS) (base : Path) (n : List Char) (b : List UInt8) (f : Fault) (r : FS × Bool) : Prop where
  ready : BaseOk r.1 base
  others : ∀ p, base.take p.length ≠ p → p ≠ sdbPath base n → r.1 p = fs p
  iff : r.2 = true ↔ (f.reported b.length = false ∧ fs (sdbPath base n) ≠ some .dir)
  done : r.2 = true → r.1 (sdbPath base n) = some (.file (f.written b)) ∧ r.1 base = some .dir
  failed : r.2 = false → r.1 (sdbPath base n) = fs (sdbPath base n) ∨ ∃ k, f = .after k ∧ r.1 (sdbPath base n) = some (.file (b.take k))

theorem openCreate_dir {fs : FS} {base : Path} {n : List Char} (hn : PlainName n) (hb : fs base = some .dir) :
    openCreate fs base n = if fs (sdbPath base n) = some .dir then .error .other else .ok (sdbPath base n) := by
  unfold openCreate
  rw [target_plain hn hb]
  simp only
  cases he : fs (sdbPath base n) with
  | none => rfl
  | some x =>
    cases x with
    | dir => rfl
    | file b => simp

theorem writeTo_dir {fs : FS} {base : Path} {n : List Char} (hn : PlainName n) (b : List UInt8) (f : Fault)
    (hb : fs base = some .dir) : writeTo f fs base n b =
      if f = .open ∨ fs (sdbPath base n) = some .dir then (fs, false) else writeBytes f fs (sdbPath base n) b := by
  unfold writeTo
  rw [openCreate_dir hn hb]
  by_cases hf : f = .open
  · simp [hf]
  · by_cases hd : fs (sdbPath base n) = some .dir
    · simp [hf, hd]
    · simp [hf, hd]

/-- The file system with the base directory. -/
def mkBase (fs : FS) (base : Path) : FS := fun p => if base.take p.length = p then some .dir else fs p

theorem mkBase_base (fs : FS) (base : Path) : mkBase fs base base = some .dir := by simp [mkBase]

theorem mkBase_sdb (fs : FS) (base : Path) (n : List Char) : mkBase fs base (sdbPath base n) = fs (sdbPath base n) :=
  if_neg (sdb_not_prefix base n)

theorem writeTo_mkdir {fs : FS} {base : Path} {n : List Char} (hn : PlainName n) (b : List UInt8) (f : Fault)
    (hb : fs base = none) (hc : ∀ i b, fs (base.take i) ≠ some (.file b)) (hf : f ≠ .open) :
    writeTo f fs base n b = writeTo f (mkBase fs base) base n b := by
  rw [writeTo_dir hn b f (mkBase_base fs base)]
  unfold writeTo
  rw [if_neg hf]
  have h1 : openCreate fs base n = .error .notFound := by
    unfold openCreate
    rw [target_noslash fs base n hn.1, if_neg hn.2, hb]
  have h2 : createDirAll fs base = some (mkBase fs base) := createDirAll_ok hc
  rw [h1, h2]
  simp only
  rw [openCreate_dir hn (mkBase_base fs base)]
  by_cases hd : mkBase fs base (sdbPath base n) = some .dir <;> simp [hf, hd]

theorem wrote_dir {fs : FS} {base : Path} {n : List Char} (hn : PlainName n) (b : List UInt8) (f : Fault)
    (hb : fs base = some .dir) : Wrote fs base n b f (writeTo f fs base n b) := by
  rw [writeTo_dir hn b f hb]
  have hne := sdb_ne_base base n
  split
  · next h =>
    refine ⟨.inl hb, fun _ _ _ => rfl, ?_, by simp, fun _ => .inl rfl⟩
    rcases h with rfl | h
    · simp [Fault.reported]
    · simp [h]
  · next h =>
    simp only [not_or] at h
    have hb' : (writeBytes f fs (sdbPath base n) b).1 base = some .dir := by
      simp only [writeBytes]; rw [FS.set_ne _ _ hne.symm]; exact hb
    refine ⟨.inl hb', fun p _ hp => FS.set_ne _ _ hp, by simp [writeBytes, h.2], fun _ => ⟨FS.set_self .., hb'⟩, ?_⟩
    intro hr
    cases f with
    | none => simp [writeBytes, Fault.reported] at hr
    | «open» => exact absurd rfl h.1
    | after k => exact .inr ⟨k, rfl, FS.set_self ..⟩

theorem wrote {fs : FS} {base : Path} {n : List Char} (hn : PlainName n) (b : List UInt8) (f : Fault)
    (hb : BaseOk fs base) : Wrote fs base n b f (writeTo f fs base n b) := by
  rcases hb with hb | ⟨hb, hc⟩
  · exact wrote_dir hn b f hb
  · by_cases hf : f = .open
    · subst hf
      have : writeTo .open fs base n b = (fs, false) := by simp [writeTo]
      rw [this]
      exact ⟨.inr ⟨hb, hc⟩, fun _ _ _ => rfl, by simp [Fault.reported], by simp, fun _ => .inl rfl⟩
    · rw [writeTo_mkdir hn b f hb hc hf]
      have w := wrote_dir hn b f (mkBase_base fs base)
      refine ⟨w.ready, ?_, ?_, w.done, ?_⟩
      · intro p h1 h2
        rw [w.others p h1 h2]
        exact if_neg h1
      · rw [← mkBase_sdb fs base n]; exact w.iff
      · rw [← mkBase_sdb fs base n]; exact w.failed

/-- The list of databases is a plain file too. -/
theorem saveMeta_done {env : Env} {base : Path} {f : Fault} {names : List (List Char)} {fs fs' : FS}
    (h : saveMeta env base f names fs = (fs', true)) :
    fs' (sdbPath base kMeta) = some (.file (f.written (serBytes env (metaStore names)))) ∧ fs' base = some .dir := by
  by_cases hb : BaseOk fs base
  · have w := wrote (fs := fs) plain_meta (serBytes env (metaStore names)) f hb
    have e : writeTo f fs base kMeta (serBytes env (metaStore names)) = (fs', true) := h
    rw [e] at w
    exact w.done rfl
  · exfalso
    unfold saveMeta writeTo at h
    have ht := target_noslash fs base kMeta plain_meta.1
    rw [if_neg plain_meta.2] at ht
    simp only [BaseOk, not_or, not_and, not_forall] at hb
    obtain ⟨h1, h2⟩ := hb
    split at h
    · cases h
    · cases hfs : fs base with
      | none =>
        rw [hfs] at ht
        have h3 : openCreate fs base kMeta = .error .notFound := by unfold openCreate; rw [ht]
        rw [h3] at h
        simp only at h
        have h4 : createDirAll fs base = none := by
          obtain ⟨i, b, hib⟩ := h2 hfs
          simp only [ne_eq, Decidable.not_not] at hib
          unfold createDirAll
          rw [if_pos]
          rw [List.any_eq_true]
          refine ⟨min i base.length, by simp, ?_⟩
          have : base.take (min i base.length) = base.take i := by
            rcases Nat.le_total i base.length with hl | hl
            · rw [Nat.min_eq_left hl]
            · rw [Nat.min_eq_right hl, List.take_of_length_le hl, List.take_of_length_le (Nat.le_refl _)]
          rw [this, hib]
        rw [h4] at h
        cases h
      | some x =>
        cases x with
        | dir => exact h1 hfs
        | file b =>
          rw [hfs] at ht
          have h3 : openCreate fs base kMeta = .error .other := by unfold openCreate; rw [ht]
          rw [h3] at h
          cases h

/-! ## Saving -/

/-- The `i`-th fault. -/
theorem faults_head (faults : List Fault) : faults.head?.getD .none = faults.getD 0 .none := by
  cases faults <;> rfl

structure Saved (env : Env) (base : Path) (faults : List Fault) (dbs : Dbs) (fs : FS) (r : FS × List (List Char)) :
    Prop where
  ready : BaseOk r.1 base
  others : ∀ p, base.take p.length ≠ p → (∀ x ∈ dbs, p ≠ sdbPath base x.1) → r.1 p = fs p
  listed : ∀ n ∈ r.2, n ∈ dbs.map Prod.fst
  written : ∀ i n s, dbs[i]? = some (n, s) → 
    (n ∈ r.2 ↔ ((faults.getD i .none).reported (serBytes env s).length = false ∧ fs (sdbPath base n) ≠ some .dir))
  contents : ∀ i n s, dbs[i]? = some (n, s) → n ∈ r.2 →
    r.1 (sdbPath base n) = some (.file ((faults.getD i .none).written (serBytes env s)))
  sub : r.2.Nodup

theorem saveDbs_spec (env : Env) (base : Path) (dbs : Dbs) (faults : List Fault) (fs : FS)
    (hn : (dbs.map Prod.fst).Nodup) (hp : ∀ x ∈ dbs, PlainName x.1) (hb : BaseOk fs base) :
    Saved env base faults dbs fs (saveDbs env base faults dbs fs) := by
  induction dbs generalizing faults fs with
  | nil => exact ⟨hb, fun _ _ _ => rfl, by simp [saveDbs], by simp, by simp, by simp [saveDbs]⟩
  | cons x rest ih =>
    obtain ⟨n, s⟩ := x
    simp only [List.map_cons, List.nodup_cons] at hn
    have hpn : PlainName n := hp (n, s) (by simp)
    have hpr : ∀ x ∈ rest, PlainName x.1 := fun x hx => hp x (List.mem_cons_of_mem _ hx)
    have w := wrote (fs := fs) hpn (serBytes env s) (faults.head?.getD .none) hb
    have ih := ih faults.tail (writeTo (faults.head?.getD .none) fs base n (serBytes env s)).1 hn.2 hpr w.ready
    simp only [saveDbs]
    generalize hw : writeTo (faults.head?.getD .none) fs base n (serBytes env s) = wr at w ih
    generalize hy : saveDbs env base faults.tail rest wr.1 = y at ih
    have hne : ∀ m, m ∈ rest.map Prod.fst → m ≠ n := fun m hm e => hn.1 (e ▸ hm)
    have hfs : ∀ m, m ≠ n → wr.1 (sdbPath base m) = fs (sdbPath base m) :=
      fun m hm => w.others _ (sdb_not_prefix base m) (fun e => hm (sdb_inj e))
    have hny : n ∉ y.2 := fun h => hn.1 (ih.listed n h)
    have hyn : y.1 (sdbPath base n) = wr.1 (sdbPath base n) :=
      ih.others _ (sdb_not_prefix base n) (fun x hx e => hne x.1 (List.mem_map_of_mem hx) (sdb_inj e).symm)
    constructor
    · exact ih.ready
    · intro p h1 h2
      rw [ih.others p h1 (fun x hx => h2 x (List.mem_cons_of_mem _ hx))]
      exact w.others p h1 (h2 (n, s) (by simp))
    · intro m hm
      split at hm
      · rcases List.mem_cons.mp hm with rfl | hm
        · simp
        · simp only [List.map_cons, List.mem_cons]; exact .inr (ih.listed m hm)
      · simp only [List.map_cons, List.mem_cons]; exact .inr (ih.listed m hm)
    · intro i m t hi
      cases i with
      | zero =>
        simp only [List.getElem?_cons_zero, Option.some.injEq, Prod.mk.injEq] at hi
        obtain ⟨rfl, rfl⟩ := hi
        rw [← faults_head, ← w.iff]
        split
        · next h => simp [h]
        · next h => simp [h, hny]
      | succ i =>
        simp only [List.getElem?_cons_succ] at hi
        have hm : m ∈ rest.map Prod.fst := List.mem_map_of_mem (List.mem_of_getElem? hi)
        have hmn := hne m hm
        have h1 := ih.written i m t hi
        rw [hfs m hmn] at h1
        have h2 : faults.tail.getD i .none = faults.getD (i + 1) .none := by cases faults <;> simp
        rw [h2] at h1
        rw [← h1]
        split <;> simp [hmn]
    · intro i m t hi hmem
      cases i with
      | zero =>
        simp only [List.getElem?_cons_zero, Option.some.injEq, Prod.mk.injEq] at hi
        obtain ⟨rfl, rfl⟩ := hi
        have hwr : wr.2 = true := by
          by_contra hc
          simp only [Bool.not_eq_true] at hc
          rw [hc] at hmem
          exact hny (by simpa using hmem)
        rw [← faults_head]
        simp only
        rw [hyn]
        exact (w.done hwr).1
      | succ i =>
        simp only [List.getElem?_cons_succ] at hi
        have hmn := hne m (List.mem_map_of_mem (List.mem_of_getElem? hi))
        have h2 : faults.tail.getD i .none = faults.getD (i + 1) .none := by cases faults <;> simp
        rw [← h2]
        refine ih.contents i m t hi ?_
        split at hmem
        · rcases List.mem_cons.mp hmem with e | e
          · exact absurd e hmn
          · exact e
        · exact hmem
    · split
      · exact List.nodup_cons.mpr ⟨hny, ih.sub⟩
      · exact ih.sub

/-- Without faults the files hold the contents. -/
theorem Saved.contents_nil {env : Env} {base : Path} {dbs : Dbs} {fs : FS} {r : FS × List (List Char)}
    (h : Saved env base [] dbs fs r) (n : List Char) (s : Store) (hm : (n, s) ∈ dbs) (hl : n ∈ r.2) :
    r.1 (sdbPath base n) = some (.file (serBytes env s)) := by
  obtain ⟨i, hi⟩ := List.getElem?_of_mem hm
  have := h.contents i n s hi hl
  simpa [Fault.written] using this

/-- Without faults and without directories in the way every database is listed, in order. -/
theorem saveDbs_all (env : Env) (base : Path) (dbs : Dbs) (fs : FS)
    (hn : (dbs.map Prod.fst).Nodup) (hp : ∀ x ∈ dbs, PlainName x.1) (hb : BaseOk fs base)
    (hd : ∀ x ∈ dbs, fs (sdbPath base x.1) ≠ some .dir) : (saveDbs env base [] dbs fs).2 = dbs.map Prod.fst := by
  induction dbs generalizing fs with
  | nil => rfl
  | cons x rest ih =>
    obtain ⟨n, s⟩ := x
    simp only [List.map_cons, List.nodup_cons] at hn
    have hpn : PlainName n := hp (n, s) (by simp)
    have w := wrote (fs := fs) hpn (serBytes env s) .none hb
    have h1 : (writeTo .none fs base n (serBytes env s)).2 = true := w.iff.mpr ⟨rfl, hd (n, s) (by simp)⟩
    have ih := ih (writeTo .none fs base n (serBytes env s)).1 hn.2 (fun x hx => hp x (List.mem_cons_of_mem _ hx)) w.ready
      (by
        intro x hx
        rw [w.others _ (sdb_not_prefix base x.1) (fun e => hn.1 (by
          rw [← sdb_inj e]; exact List.mem_map_of_mem hx))]
        exact hd x (List.mem_cons_of_mem _ hx))
    simp only [saveDbs, List.head?_nil, Option.getD_none, h1, List.tail_nil, ih, List.map_cons]
    rfl

/-! ## Starting -/

theorem loadAll_spec {de : List UInt8 → Out StoreSerError Store} {fs : FS} {base : Path}
    (names : List (List Char)) (content : List Char → Store)
    (hde : ∀ n ∈ names, getStore de fs base n = .ok (content n)) (dbs : Dbs) :
    ∃ dbs', loadAll de fs base (names.map .string) dbs = .ok dbs' ∧
      ∀ n, AMap.get n dbs' = if n ∈ names then some (content n) else AMap.get n dbs := by
  induction names generalizing dbs with
  | nil => exact ⟨dbs, rfl, by simp⟩
  | cons m ms ih =>
    obtain ⟨dbs', h1, h2⟩ := ih (fun n hn => hde n (List.mem_cons_of_mem _ hn)) (AMap.insert m (content m) dbs)
    refine ⟨dbs', ?_, ?_⟩
    · simp only [List.map_cons, loadAll, hde m (by simp)]
      exact h1
    · intro n
      rw [h2 n, AMap.get_insert]
      by_cases hn : n = m
      · subst hn; simp
      · by_cases hns : n ∈ ms <;> simp [hn, hns]

end Souris
