import Verif.Lemmas.Disk
import Verif.Props.Daemon

/-! # Files: C45 (restart), C46 (crash during save), C47 (removal), C48 (save), C49 (containment), C51 (shutdown) -/

namespace Souris

theorem ser_serBytes {env : Env} (hb : HashOrder env.byteOrd) (hc : HashOrder env.charOrd) (s : Store) :
    Store.ser env s = .ok (serBytes env s) := by
  obtain ⟨b, h⟩ := Store.ser_total env hb hc s
  simp [serBytes, h]

/-- No store is written as no bytes. -/
theorem serBytes_ne_nil {env : Env} (hb : HashOrder env.byteOrd) (hc : HashOrder env.charOrd) (s : Store) :
    serBytes env s ≠ [] := by
  obtain ⟨b, rest, h, _⟩ := C34_written env hb hc s
  simp [serBytes, h]

theorem save_eq (env : Env) (base : Path) (faults : List Fault) (mf : Fault) (dbs : Dbs) (fs : FS) :
    save env base faults mf dbs fs =
      saveMeta env base mf (saveDbs env base faults dbs fs).2 (saveDbs env base faults dbs fs).1 := rfl

/-! ## C48 -/

/-- C48, partial: for names that are one path component and not `meta`, whatever writes of databases fail
and whatever was on the disk: after a save that returned `Ok`, the list on the disk is `names`, the listed
databases are exactly those whose write reported no error, and the file of every listed database whose write
did not fail holds the serialisation of its contents in memory. Missing: other names (`C48_refuted_meta`,
`C48_refuted_alias`), and failures that are not reported (`C48_refuted_unreported`). -/
theorem C48_save_partial {env : Env} (hbo : HashOrder env.byteOrd) (hco : HashOrder env.charOrd) (base : Path)
    (faults : List Fault) (dbs : Dbs) (fs fs' : FS) (hn : (dbs.map Prod.fst).Nodup)
    (hp : ∀ x ∈ dbs, PlainName x.1 ∧ x.1 ≠ "meta".toList) (hb : BaseOk fs base)
    (h : save env base faults .none dbs fs = (fs', true)) :
    ∃ (names : List (List Char)) (b : List UInt8), Store.ser env [("existing_dbs".toList, .array (names.map .string))] = .ok b ∧
      fs' (sdbPath base "meta".toList) = some (.file b) ∧ names.Nodup ∧ (∀ n ∈ names, n ∈ dbs.map Prod.fst) ∧
      (∀ i n s, dbs[i]? = some (n, s) → ∃ b, Store.ser env s = .ok b ∧
        (n ∈ names ↔ ((faults.getD i .none).reported b.length = false ∧ fs (sdbPath base n) ≠ some .dir)) ∧
        (n ∈ names → faults.getD i .none = .none → fs' (sdbPath base n) = some (.file b)) ∧
        (n ∈ names → fs' (sdbPath base n) ≠ some (.file b) →
          ∃ k, faults.getD i .none = .after k ∧ k < b.length ∧ b.length ≤ (k / maxBuf + 1) * maxBuf)) := by
  have hs := saveDbs_spec env base dbs faults fs hn (fun x hx => (hp x hx).1) hb
  unfold save at h
  generalize saveDbs env base faults dbs fs = r at hs h
  have hm := saveMeta_done h
  have w := wrote (fs := r.1) plain_meta (serBytes env (metaStore r.2)) .none hs.ready
  have e : writeTo .none r.1 base kMeta (serBytes env (metaStore r.2)) = (fs', true) := h
  rw [e] at w
  refine ⟨r.2, _, ser_serBytes hbo hco _, hm.1, hs.sub, hs.listed, ?_⟩
  intro i n s hi
  have hmem := List.mem_of_getElem? hi
  have h2 := w.others (sdbPath base n) (sdb_not_prefix base n) (fun e => (hp _ hmem).2 (sdb_inj e))
  simp only at h2
  refine ⟨_, ser_serBytes hbo hco s, hs.written i n s hi, fun hl hf => ?_, fun hl hc => ?_⟩
  · have h1 := hs.contents i n s hi hl
    rw [hf] at h1
    rw [h2]
    exact h1
  · have h1 := hs.contents i n s hi hl
    have h3 := ((hs.written i n s hi).mp hl).1
    rw [h2, h1] at hc
    generalize faults.getD i .none = f at hc h3 ⊢
    cases f with
    | none => exact absurd rfl hc
    | «open» => exact absurd rfl hc
    | after k =>
      refine ⟨k, rfl, ?_, ?_⟩
      · by_contra hk
        exact hc (by simp only [Fault.written, List.take_of_length_le (Nat.le_of_not_lt hk)])
      · simpa [Fault.reported] using h3

/-- C48 is violated when the disk is full: the write of a database fails before its last 2 MiB are written,
yet `save` returns `Ok` and lists the database, whose file holds only the beginning (`k` bytes) of its
serialisation. For every database of at most 2 MiB this is so wherever the write fails. -/
theorem C48_refuted_unreported {env : Env} (hbo : HashOrder env.byteOrd) (hco : HashOrder env.charOrd) (base : Path)
    (fs : FS) (hb : BaseOk fs base) (n : List Char) (hn : PlainName n) (hm : n ≠ kMeta) (s : Store)
    (hd : fs (sdbPath base n) ≠ some .dir) (hdm : fs (sdbPath base kMeta) ≠ some .dir) :
    ∃ b, Store.ser env s = .ok b ∧ ∀ k, k < b.length → b.length ≤ (k / maxBuf + 1) * maxBuf →
      ∃ fs' list, save env base [.after k] .none [(n, s)] fs = (fs', true) ∧
        Store.ser env [(kExisting, .array [.string n])] = .ok list ∧
        fs' (sdbPath base kMeta) = some (.file list) ∧
        fs' (sdbPath base n) = some (.file (b.take k)) ∧ b.take k ≠ b := by
  refine ⟨_, ser_serBytes hbo hco s, fun k hk hq => ?_⟩
  have hs := saveDbs_spec env base [(n, s)] [.after k] fs (by simp) (by simp [hn]) hb
  have hl : n ∈ (saveDbs env base [.after k] [(n, s)] fs).2 :=
    (hs.written 0 n s rfl).mpr ⟨by simpa [Fault.reported] using hq, hd⟩
  have hx : (saveDbs env base [.after k] [(n, s)] fs).2 = [n] := by
    simp only [saveDbs] at hl ⊢
    split at hl
    · next h => rw [if_pos h]
    · cases hl
  have hc := hs.contents 0 n s rfl hl
  have hmf : (saveDbs env base [.after k] [(n, s)] fs).1 (sdbPath base kMeta) = fs (sdbPath base kMeta) :=
    hs.others _ (sdb_not_prefix base kMeta) (by simpa using fun e => hm (sdb_inj e).symm)
  rw [save_eq]
  generalize saveDbs env base [.after k] [(n, s)] fs = r at hs hl hx hc hmf
  rw [hx]
  have w := wrote (fs := r.1) plain_meta (serBytes env (metaStore [n])) .none hs.ready
  have h2 := w.iff.mpr ⟨rfl, by rw [hmf]; exact hdm⟩
  refine ⟨_, _, Prod.ext rfl h2, ser_serBytes hbo hco _, (w.done h2).1, ?_, ?_⟩
  · show (writeTo .none r.1 base kMeta (serBytes env (metaStore [n]))).1 (sdbPath base n) = _
    rw [w.others _ (sdb_not_prefix base n) (fun e => hm (sdb_inj e)), hc]
    rfl
  · intro e
    have := congrArg List.length e
    rw [List.length_take] at this
    omega

/-- C48 is violated by a database called `meta` (`C43_refuted_meta` shows that a client can make one):
after a save without errors its file holds the list of databases, not its contents. -/
theorem C48_refuted_meta {env : Env} (hbo : HashOrder env.byteOrd) (hco : HashOrder env.charOrd) (base : Path) (fs : FS)
    (hb : BaseOk fs base) (hd : fs (sdbPath base kMeta) ≠ some .dir) :
    ∃ fs' b b', save env base [] .none [(kMeta, [])] fs = (fs', true) ∧
      Store.ser env [] = .ok b ∧ fs' (sdbPath base kMeta) = some (.file b') ∧ b ≠ b' := by
  have w := wrote (fs := fs) plain_meta (serBytes env []) .none hb
  have w2 := wrote (fs := (writeTo .none fs base kMeta (serBytes env [])).1) plain_meta
    (serBytes env (metaStore [kMeta])) .none w.ready
  have h1 := w.iff.mpr ⟨rfl, hd⟩
  have h2 := w2.iff.mpr ⟨rfl, by rw [(w.done h1).1]; simp⟩
  obtain ⟨_, _, f1, comp1, e1, hf1, _⟩ := C35_no_text env hbo hco [] (by
    intro t ht
    cases ht with
    | key h => cases h
    | map h _ => cases h)
  obtain ⟨_, _, _, f2, comp2, e2, hf2, _⟩ := C35_covers env hbo hco (metaStore [kMeta])
    ⟨kExisting, .key (v := .array [.string kMeta]) (by simp [metaStore]), by simp [kExisting]⟩
  have hsave : save env base [] .none [(kMeta, [])] fs =
      writeTo .none (writeTo .none fs base kMeta (serBytes env [])).1 base kMeta (serBytes env (metaStore [kMeta])) := by
    have h3 : (saveDbs env base [] [(kMeta, [])] fs) = ((writeTo .none fs base kMeta (serBytes env [])).1, [kMeta]) := by
      show (_, if (writeTo .none fs base kMeta (serBytes env [])).2 = true then [kMeta] else []) = _
      rw [if_pos h1]
      rfl
    rw [save_eq, h3]
    rfl
  refine ⟨_, _, _, ?_, e1, (w2.done h2).1, ?_⟩
  · rw [hsave]; exact Prod.ext rfl h2
  · simp only [Fault.written, serBytes, e2]
    intro e
    simp only [List.append_cancel_left_eq, List.cons.injEq] at e
    rw [e.1] at hf1
    omega

/-- `./b` -/
def dotB : List Char := ['.', '/', 'b']

theorem target_dotB {fs : FS} {base : Path} (hb : fs base = some .dir) :
    target fs base dotB = .ok (sdbPath base ['b']) := by
  unfold target
  rw [if_neg (by decide)]
  have hc : components (dotB ++ kSdb) = [['.'], ['b'] ++ kSdb] := by decide
  rw [hc, if_neg (by decide), hb]
  rfl

/-- C48 is violated by names that are different but mean the same file: `add_db` accepts both `b` and
`./b`; after a save without errors both are listed, and there is one file, holding one of them. -/
theorem C48_refuted_alias {env : Env} (hbo : HashOrder env.byteOrd) (hco : HashOrder env.charOrd) (base : Path) (fs : FS)
    (hb : fs base = some .dir) (hd : fs (sdbPath base ['b']) ≠ some .dir) (s : Store)
    (hs : ∃ t, Value.Text env t (.map s) ∧ t ≠ []) :
    (Daemon.exec env (.newDb dotB false) ⟨[], []⟩).1 = .status 201 ∧
    (Daemon.exec env (.newDb ['b'] false) ⟨[], []⟩).1 = .status 201 ∧
    ∃ fs1 b b', saveDbs env base [] [(['b'], []), (dotB, s)] fs = (fs1, [['b'], dotB]) ∧
      Store.ser env [] = .ok b ∧ fs1 (sdbPath base ['b']) = some (.file b') ∧ b ≠ b' := by
  refine ⟨rfl, rfl, ?_⟩
  have hpl : PlainName ['b'] := by constructor <;> decide
  have w := wrote_dir (fs := fs) hpl (serBytes env []) .none hb
  have h1 := w.iff.mpr ⟨rfl, hd⟩
  have hdir := (w.done h1).2
  have hfile := (w.done h1).1
  generalize hw : writeTo .none fs base ['b'] (serBytes env []) = r at w h1 hdir hfile
  have hopen : openCreate r.1 base dotB = .ok (sdbPath base ['b']) := by
    unfold openCreate
    rw [target_dotB hdir]
    simp only [hfile]
  have h2 : writeTo .none r.1 base dotB (serBytes env s) = (r.1.set (sdbPath base ['b']) (some (.file (serBytes env s))), true) := by
    unfold writeTo
    rw [if_neg (by decide), hopen]
    rfl
  obtain ⟨_, _, f1, comp1, e1, hf1, _⟩ := C35_no_text env hbo hco [] (by
    intro t ht
    cases ht with
    | key h => cases h
    | map h _ => cases h)
  obtain ⟨_, _, _, f2, comp2, e2, hf2, _⟩ := C35_covers env hbo hco s hs
  refine ⟨_, _, _, ?_, e1, FS.set_self r.1 (sdbPath base ['b']) (some (.file (serBytes env s))), ?_⟩
  · simp only [saveDbs, List.head?_nil, Option.getD_none, List.tail_nil, hw, h1, h2]
    rfl
  · simp only [serBytes, e2]
    intro e
    simp only [List.append_cancel_left_eq, List.cons.injEq] at e
    rw [e.1] at hf1
    omega

/-- An empty disk with the directory `/etc/souris`. -/
def sampleFs : FS := fun p => if p = [['e', 't', 'c'], ['s']] ∨ p = [['e', 't', 'c']] ∨ p = [] then some .dir else none

example : BaseOk sampleFs [['e', 't', 'c'], ['s']] ∧ sampleFs (sdbPath [['e', 't', 'c'], ['s']] ['d']) ≠ some .dir ∧
    PlainName ['d'] ∧ ['d'] ≠ kMeta := by
  refine ⟨.inl (by decide), by decide, ⟨by decide, by decide⟩, by decide⟩

/-- A save with two databases, of which one cannot be opened. -/
example : ∃ fs' , save sampleEnv [['e', 't', 'c'], ['s']] [.open, .none] .none [(['d'], []), (['e'], [])] sampleFs = (fs', true) := by
  have hpd : PlainName ['d'] := by constructor <;> decide
  have hpe : PlainName ['e'] := by constructor <;> decide
  have hb : BaseOk sampleFs [['e', 't', 'c'], ['s']] := .inl (by decide)
  have hs := saveDbs_spec sampleEnv [['e', 't', 'c'], ['s']] [(['d'], []), (['e'], [])] [.open, .none] sampleFs
    (by decide) (by simp [hpd, hpe]) hb
  unfold save
  generalize saveDbs sampleEnv [['e', 't', 'c'], ['s']] [.open, .none] [(['d'], []), (['e'], [])] sampleFs = r at hs
  have w := wrote (fs := r.1) plain_meta (serBytes sampleEnv (metaStore r.2)) .none hs.ready
  have h2 := w.iff.mpr ⟨rfl, by
    rw [hs.others _ (sdb_not_prefix _ _) (by
      intro x hx
      simp only [List.mem_cons, List.not_mem_nil, or_false] at hx
      rcases hx with rfl | rfl <;> decide)]
    decide⟩
  exact ⟨_, Prod.ext rfl h2⟩

/-- Nothing of the database is written, and the save is `Ok`. -/
example : ∃ b, Store.ser sampleEnv [] = .ok b ∧ 0 < b.length ∧ (b.length ≤ maxBuf →
    ∃ fs', save sampleEnv [['e', 't', 'c'], ['s']] [.after 0] .none [(['d'], [])] sampleFs = (fs', true) ∧
      fs' (sdbPath [['e', 't', 'c'], ['s']] ['d']) = some (.file [])) := by
  obtain ⟨b, rest, h, _⟩ := C34_written sampleEnv (fun _ => .refl _) (fun _ => .refl _) []
  obtain ⟨b', hb', hk⟩ := C48_refuted_unreported (env := sampleEnv) (fun _ => .refl _) (fun _ => .refl _)
    [['e', 't', 'c'], ['s']] sampleFs (.inl (by decide)) ['d'] ⟨by decide, by decide⟩ (by decide) [] (by decide) (by decide)
  have hpos : 0 < b'.length := by rw [h] at hb'; cases hb'; simp
  refine ⟨b', hb', hpos, fun hl => ?_⟩
  obtain ⟨fs', _, h1, _, _, h2, _⟩ := hk 0 hpos (by rw [Nat.zero_div]; omega)
  exact ⟨fs', h1, by rw [h2]; rfl⟩

/-! ## C45 -/

/-- C45 is violated always: after any save that returned `Ok`, of any databases under any names, the daemon
does not start again. -/
theorem C45_refuted (env : Env) (base : Path) (faults : List Fault) (mf : Fault) (dbs : Dbs) (fs fs' : FS)
    (h : save env base faults mf dbs fs = (fs', true)) (dbs' : Dbs) : start env fs' base ≠ .ok dbs' := by
  obtain ⟨h1, h2⟩ := saveMeta_done h
  intro e
  unfold start startWith at e
  have hg : ∀ s, getStore (Store.deser env) fs' base kMeta ≠ .ok s := by
    intro s hs
    unfold getStore at hs
    rw [target_plain plain_meta h2] at hs
    simp only [h1] at hs
    rw [Out.mapErr_eq_ok] at hs
    exact C33_refuted env _ s hs
  split at e
  · cases e
  · cases e
  · next s hs => exact hg s hs

/-- C45, partial: the rest of the code is right. With any deserialiser that reads back the stores in
question (which `Store::deser` does not), a save without failures and a restart give the same databases,
for names that are one path component and not `meta`, whatever else was on the disk. -/
theorem C45_restart_partial {env : Env} (base : Path) (dbs : Dbs) (fs fs' : FS)
    (de : List UInt8 → Out StoreSerError Store) (hn : (dbs.map Prod.fst).Nodup)
    (hp : ∀ x ∈ dbs, PlainName x.1 ∧ x.1 ≠ kMeta) (hb : BaseOk fs base)
    (hd : ∀ x ∈ dbs, fs (sdbPath base x.1) ≠ some .dir)
    (hde : ∀ x ∈ dbs, ∃ s', de (serBytes env x.2) = .ok s' ∧ s'.Perm x.2)
    (hdm : ∃ s', de (serBytes env (metaStore (dbs.map Prod.fst))) = .ok s' ∧ s'.Perm (metaStore (dbs.map Prod.fst)))
    (h : save env base [] .none dbs fs = (fs', true)) :
    ∃ dbs', startWith de fs' base = .ok dbs' ∧ SameDbs dbs dbs' := by
  have hs := saveDbs_spec env base dbs [] fs hn (fun x hx => (hp x hx).1) hb
  have hall := saveDbs_all env base dbs fs hn (fun x hx => (hp x hx).1) hb hd
  rw [save_eq, hall] at h
  generalize saveDbs env base [] dbs fs = r at hs h hall
  obtain ⟨h1, h2⟩ := saveMeta_done h
  have w := wrote (fs := r.1) plain_meta (serBytes env (metaStore (dbs.map Prod.fst))) .none hs.ready
  have e : writeTo .none r.1 base kMeta (serBytes env (metaStore (dbs.map Prod.fst))) = (fs', true) := h
  rw [e] at w
  obtain ⟨s', hm1, hm2⟩ := hdm
  have hm3 : s' = metaStore (dbs.map Prod.fst) := List.perm_singleton.mp hm2
  subst hm3
  have hgm : getStore de fs' base kMeta = .ok (metaStore (dbs.map Prod.fst)) := by
    unfold getStore
    rw [target_plain plain_meta h2]
    simp only [h1, Fault.written, hm1]
    rfl
  -- what is read for a name
  have hread : ∀ n s, (n, s) ∈ dbs → ∃ s', getStore de fs' base n = .ok s' ∧ s'.Perm s := by
    intro n s hmem
    obtain ⟨s', h3, h4⟩ := hde (n, s) hmem
    refine ⟨s', ?_, h4⟩
    have h5 := hs.contents_nil n s hmem (by rw [hall]; exact List.mem_map_of_mem hmem)
    have h6 := w.others (sdbPath base n) (sdb_not_prefix base n) (fun e => (hp _ hmem).2 (sdb_inj e))
    simp only at h6
    unfold getStore
    rw [target_plain (hp _ hmem).1 h2]
    simp only [h6, h5, h3]
    rfl
  have hcontent : ∃ content : List Char → Store, ∀ n ∈ dbs.map Prod.fst, getStore de fs' base n = .ok (content n) := by
    refine ⟨fun n => match getStore de fs' base n with | .ok s => s | _ => [], ?_⟩
    intro n hmem
    obtain ⟨⟨n', s⟩, hx, rfl⟩ := List.mem_map.mp hmem
    obtain ⟨s', h3, _⟩ := hread n' s hx
    simp only [h3]
  obtain ⟨content, hcontent⟩ := hcontent
  obtain ⟨dbs', h3, h4⟩ := loadAll_spec (dbs.map Prod.fst) content hcontent []
  refine ⟨dbs', ?_, ?_⟩
  · unfold startWith
    rw [hgm]
    simp only [metaStore, AMap.get, if_true]
    exact h3
  · intro n
    rw [h4 n]
    by_cases hmem : n ∈ dbs.map Prod.fst
    · obtain ⟨⟨n', s⟩, hx, rfl⟩ := List.mem_map.mp hmem
      have h5 : AMap.get n' dbs = some s := AMap.get_of_mem hn hx
      obtain ⟨s', h6, h7⟩ := hread n' s hx
      rw [hcontent n' hmem] at h6
      cases h6
      rw [if_pos hmem, h5]
      exact .some h7
    · have h5 : AMap.get n dbs = none := by
        rcases Option.eq_none_or_eq_some (AMap.get n dbs) with h | ⟨s, h⟩
        · exact h
        · exact absurd (List.mem_map_of_mem (f := Prod.fst) (AMap.get_mem h)) hmem
      rw [if_neg hmem, h5]
      exact .none

/-! ## C46 -/

/-- C46 is violated: when the process stops just after the file was opened for writing, the file of the
database is empty, whatever it was before, and no store is written as no bytes. -/
theorem C46_refuted {env : Env} (hbo : HashOrder env.byteOrd) (hco : HashOrder env.charOrd) (base : Path) (fs : FS)
    (hb : BaseOk fs base) (n : List Char) (hn : PlainName n) (s : Store) (hd : fs (sdbPath base n) ≠ some .dir) :
    ∃ fs', CrashState env base [] [(n, s)] fs fs' ∧ fs' (sdbPath base n) = some (.file []) ∧
      Store.deser env [] = .err .notEnoughBytes ∧ ∀ s', Store.ser env s' ≠ .ok [] := by
  refine ⟨_, .inside [] [] n s 0 rfl, ?_, (C34_required env []).1 (by simp), ?_⟩
  · show (writeTo (.after 0) fs base n (serBytes env s)).1 (sdbPath base n) = _
    rcases hb with hb | ⟨hb, hc⟩
    · rw [writeTo_dir hn _ _ hb, if_neg (by simp [hd])]
      exact FS.set_self ..
    · rw [writeTo_mkdir hn _ _ hb hc (by simp), writeTo_dir hn _ _ (mkBase_base fs base), mkBase_sdb,
        if_neg (by simp [hd])]
      exact FS.set_self ..
  · intro s' h
    have := serBytes_ne_nil (env := env) hbo hco s'
    rw [serBytes, h] at this
    exact this rfl

/-- C46 is violated worse: when the process stops while the list of databases is written, no database can
be read any more, for the daemon does not start, whatever deserialiser (that refuses an empty file). -/
theorem C46_refuted_meta {env : Env} (base : Path) (dbs : Dbs) (fs : FS) (hb : BaseOk fs base)
    (hn : (dbs.map Prod.fst).Nodup) (hp : ∀ x ∈ dbs, PlainName x.1 ∧ x.1 ≠ kMeta)
    (hd : fs (sdbPath base kMeta) ≠ some .dir)
    (de : List UInt8 → Out StoreSerError Store) (e : StoreSerError) (hde : de [] = .err e) :
    ∃ fs', CrashState env base [] dbs fs fs' ∧ startWith de fs' base = .err (.store e) := by
  refine ⟨_, .inMeta 0, ?_⟩
  have hs := saveDbs_spec env base dbs [] fs hn (fun x hx => (hp x hx).1) hb
  generalize saveDbs env base [] dbs fs = r at hs
  have hm : r.1 (sdbPath base kMeta) ≠ some .dir := by
    rw [hs.others _ (sdb_not_prefix base kMeta) (fun x hx e => (hp x hx).2 (sdb_inj e).symm)]
    exact hd
  have key : ∀ fs1 : FS, fs1 base = some .dir → fs1 (sdbPath base kMeta) ≠ some .dir →
      startWith de (writeTo (.after 0) fs1 base kMeta (serBytes env (metaStore r.2))).1 base = .err (.store e) := by
    intro fs1 h1 h2
    rw [writeTo_dir plain_meta _ _ h1, if_neg (by simp [h2])]
    unfold startWith getStore
    have h3 : (writeBytes (.after 0) fs1 (sdbPath base kMeta) (serBytes env (metaStore r.2))).1 base = some .dir := by
      simp only [writeBytes]
      rw [FS.set_ne _ _ (sdb_ne_base base kMeta).symm]
      exact h1
    have h4 : (writeBytes (.after 0) fs1 (sdbPath base kMeta) (serBytes env (metaStore r.2))).1 (sdbPath base kMeta) =
        some (.file []) := FS.set_self ..
    rw [target_plain plain_meta h3]
    simp only [h4, hde]
    rfl
  rcases hs.ready with h1 | ⟨h1, h2⟩
  · exact key r.1 h1 hm
  · show startWith de (writeTo (.after 0) r.1 base kMeta _).1 base = _
    rw [writeTo_mkdir plain_meta _ _ h1 h2 (by simp)]
    exact key _ (mkBase_base r.1 base) (by rw [mkBase_sdb]; exact hm)

/-- C46, partial: at most one file is damaged. Wherever the process stops (no other write failing), there
is a path such that every other database file holds what it held before, or the new contents. Missing: that
file itself. -/
theorem C46_one_file_partial {env : Env} (base : Path) (dbs : Dbs) (fs fs' : FS) (hb : BaseOk fs base)
    (hn : (dbs.map Prod.fst).Nodup) (hp : ∀ x ∈ dbs, PlainName x.1 ∧ x.1 ≠ kMeta)
    (h : CrashState env base [] dbs fs fs') :
    ∃ damaged, ∀ m, sdbPath base m ≠ damaged → fs' (sdbPath base m) = fs (sdbPath base m) ∨
      ∃ s, (m, s) ∈ dbs ∧ fs' (sdbPath base m) = some (.file (serBytes env s)) := by
  -- after some of the writes
  have key : ∀ d1 d2, dbs = d1 ++ d2 → BaseOk (saveDbs env base [] d1 fs).1 base ∧
      ∀ m, (saveDbs env base [] d1 fs).1 (sdbPath base m) = fs (sdbPath base m) ∨
      ∃ s, (m, s) ∈ dbs ∧ (saveDbs env base [] d1 fs).1 (sdbPath base m) = some (.file (serBytes env s)) := by
    rintro d1 d2 rfl
    have hn1 : (d1.map Prod.fst).Nodup := by
      rw [List.map_append] at hn
      exact (List.nodup_append.mp hn).1
    have hs := saveDbs_spec env base d1 [] fs hn1 (fun x hx => (hp x (List.mem_append_left _ hx)).1) hb
    refine ⟨hs.ready, fun m => ?_⟩
    by_cases hm : m ∈ d1.map Prod.fst
    · obtain ⟨⟨m', s⟩, hx, rfl⟩ := List.mem_map.mp hm
      obtain ⟨i, hi⟩ := List.mem_iff_getElem?.mp hx
      by_cases hdir : fs (sdbPath base m') = some .dir
      · left
        -- a directory in the way: the write fails
        clear hs hi i hm
        have : ∀ (d : Dbs) (f : FS), (d.map Prod.fst).Nodup → (∀ x ∈ d, PlainName x.1) → BaseOk f base →
            f (sdbPath base m') = some .dir → (saveDbs env base [] d f).1 (sdbPath base m') = some .dir := by
          intro d
          induction d with
          | nil => intro f _ _ _ hf; exact hf
          | cons x d ih =>
            intro f hnd hpl hbo hf
            obtain ⟨n, t⟩ := x
            simp only [List.map_cons, List.nodup_cons] at hnd
            have w := wrote (fs := f) (hpl (n, t) (by simp)) (serBytes env t) .none hbo
            refine ih _ hnd.2 (fun x hx => hpl x (List.mem_cons_of_mem _ hx)) w.ready ?_
            by_cases e : n = m'
            · subst e
              have h2 : (writeTo .none f base n (serBytes env t)).2 = false := by
                cases hr : (writeTo .none f base n (serBytes env t)).2 with
                | false => rfl
                | true => exact absurd hf (w.iff.mp hr).2
              rcases w.failed h2 with h3 | ⟨k, h3, _⟩
              · exact h3.trans hf
              · cases h3
            · exact (w.others _ (sdb_not_prefix base m') (fun e' => e (sdb_inj e').symm)).trans hf
        rw [this d1 fs hn1 (fun x hx => (hp x (List.mem_append_left _ hx)).1) hb hdir, hdir]
      · right
        refine ⟨s, List.mem_append_left _ hx, hs.contents_nil m' s hx ((hs.written i m' s hi).mpr ⟨by simp [Fault.reported], hdir⟩)⟩
    · left
      exact hs.others _ (sdb_not_prefix base m) (fun x hx e => hm (by rw [sdb_inj e]; exact List.mem_map_of_mem hx))
  cases h with
  | between d1 d2 h => exact ⟨[], fun m _ => (key d1 d2 h).2 m⟩
  | inside d1 d2 n s k h =>
    obtain ⟨h1, h2⟩ := key d1 _ h
    have w := wrote (fs := (saveDbs env base [] d1 fs).1) (hp (n, s) (by rw [h]; simp)).1 (serBytes env s) (.after k) h1
    refine ⟨sdbPath base n, fun m hm => ?_⟩
    rw [w.others _ (sdb_not_prefix base m) hm]
    exact h2 m
  | inMeta k =>
    obtain ⟨h1, h2⟩ := key dbs [] (by simp)
    have w := wrote (fs := (saveDbs env base [] dbs fs).1) plain_meta
      (serBytes env (metaStore (saveDbs env base [] dbs fs).2)) (.after k) h1
    refine ⟨sdbPath base kMeta, fun m hm => ?_⟩
    have := w.others _ (sdb_not_prefix base m) hm
    show (writeTo (.after k) (saveDbs env base [] dbs fs).1 base kMeta _).1 (sdbPath base m) = _ ∨ _
    rw [this]
    rcases h2 m with h | ⟨s, h, h'⟩
    · exact .inl h
    · exact .inr ⟨s, h, by
        show (writeTo (.after k) (saveDbs env base [] dbs fs).1 base kMeta _).1 (sdbPath base m) = _
        rw [this, h']⟩

theorem loadAll_skips {de : List UInt8 → Out StoreSerError Store} {fs : FS} {base : Path} :
    ∀ (vs : List Value) (dbs : Dbs), (∀ n, Value.string n ∈ vs → ∀ p, getStore de fs base n ≠ .panic p) →
    ∃ dbs', loadAll de fs base vs dbs = .ok dbs' ∧
      (∀ n s, Value.string n ∈ vs → getStore de fs base n = .ok s → AMap.get n dbs' = some s) ∧
      (∀ n, (Value.string n ∉ vs ∨ ∀ s, getStore de fs base n ≠ .ok s) → AMap.get n dbs' = AMap.get n dbs) := by
  intro vs
  induction vs with
  | nil => intro dbs _; exact ⟨dbs, rfl, fun n s h => absurd h (by simp), fun _ _ => rfl⟩
  | cons v vs ih =>
    intro dbs hp
    have hp' : ∀ n, Value.string n ∈ vs → ∀ p, getStore de fs base n ≠ .panic p :=
      fun n hn => hp n (List.mem_cons_of_mem _ hn)
    -- the rest does not depend on `v`
    have skip : loadAll de fs base (v :: vs) dbs = loadAll de fs base vs dbs →
        (∀ n s, v = .string n → getStore de fs base n ≠ .ok s) →
        ∃ dbs', loadAll de fs base (v :: vs) dbs = .ok dbs' ∧
          (∀ n s, Value.string n ∈ v :: vs → getStore de fs base n = .ok s → AMap.get n dbs' = some s) ∧
          (∀ n, (Value.string n ∉ v :: vs ∨ ∀ s, getStore de fs base n ≠ .ok s) →
            AMap.get n dbs' = AMap.get n dbs) := by
      intro e hv
      obtain ⟨dbs', h1, h2, h3⟩ := ih dbs hp'
      refine ⟨dbs', e.trans h1, fun n s hn hs => ?_, fun n hn => h3 n ?_⟩
      · rcases List.mem_cons.mp hn with hn | hn
        · exact absurd hs (hv n s hn.symm)
        · exact h2 n s hn hs
      · exact hn.imp (fun h h' => h (List.mem_cons_of_mem _ h')) id
    cases v with
    | string m =>
      cases e : getStore de fs base m with
      | panic p => exact absurd e (hp m (by simp) p)
      | err x =>
        refine skip (by simp only [loadAll, e]) ?_
        rintro n s hn
        cases hn
        rw [e]
        exact fun h => by cases h
      | ok s =>
        obtain ⟨dbs', h1, h2, h3⟩ := ih (AMap.insert m s dbs) hp'
        refine ⟨dbs', by simp only [loadAll, e]; exact h1, fun n t hn ht => ?_, fun n hn => ?_⟩
        · by_cases hin : Value.string n ∈ vs
          · exact h2 n t hin ht
          · rcases List.mem_cons.mp hn with hn | hn
            · cases hn
              rw [e] at ht
              cases ht
              rw [h3 m (.inl hin), AMap.get_insert, if_pos rfl]
            · exact absurd hn hin
        · rw [h3 n (hn.imp (fun h h' => h (List.mem_cons_of_mem _ h')) id), AMap.get_insert, if_neg]
          rintro rfl
          rcases hn with hn | hn
          · exact hn (by simp)
          · exact hn s e
    | _ => exact skip (by simp only [loadAll]) (fun n s h => by cases h)

/-- C46, partial: a database that cannot be read does not take the others with it. The daemon starts, and
serves every listed database whose file can be read, and no other. -/
theorem C46_bad_files_skipped_partial {de : List UInt8 → Out StoreSerError Store} {fs : FS} {base : Path}
    {list : Store} {vs : List Value} (hm : getStore de fs base kMeta = .ok list)
    (hl : AMap.get kExisting list = some (.array vs))
    (hp : ∀ n, Value.string n ∈ vs → ∀ p, getStore de fs base n ≠ .panic p) :
    ∃ dbs, startWith de fs base = .ok dbs ∧
      ∀ n s, AMap.get n dbs = some s ↔ Value.string n ∈ vs ∧ getStore de fs base n = .ok s := by
  obtain ⟨dbs, h1, h2, h3⟩ := loadAll_skips vs [] hp
  refine ⟨dbs, by simp only [startWith, hm, hl]; exact h1, fun n s => ⟨fun h => ?_, fun h => h2 n s h.1 h.2⟩⟩
  by_cases hn : Value.string n ∈ vs ∧ ∃ t, getStore de fs base n = .ok t
  · obtain ⟨hn, t, ht⟩ := hn
    have := (h2 n t hn ht).symm.trans h
    cases this
    exact ⟨hn, ht⟩
  · have h4 := h3 n (by
      by_cases h' : Value.string n ∈ vs
      · exact .inr fun t ht => hn ⟨h', t, ht⟩
      · exact .inl h')
    rw [h4] at h
    cases h

theorem writeTo_keeps {f : Fault} {fs : FS} {base : Path} {n : List Char} (hn : PlainName n) (b : List UInt8)
    (hb : fs base = some .dir) : (writeTo f fs base n b).1 base = some .dir := by
  rw [writeTo_dir hn _ _ hb]
  split
  · exact hb
  · cases f <;> simp only [writeBytes] <;>
      first | exact hb | (rw [FS.set_ne _ _ (sdb_ne_base base n).symm]; exact hb)

theorem saveDbs_keeps {env : Env} {base : Path} : ∀ (dbs : Dbs) (faults : List Fault) (fs : FS),
    (∀ x ∈ dbs, PlainName x.1) → fs base = some .dir → (saveDbs env base faults dbs fs).1 base = some .dir := by
  intro dbs
  induction dbs with
  | nil => intro _ fs _ hb; exact hb
  | cons x dbs ih =>
    intro faults fs hp hb
    exact ih _ _ (fun y hy => hp y (List.mem_cons_of_mem _ hy)) (writeTo_keeps (hp x (by simp)) _ hb)

/-- C46, partial: the process stops anywhere during a save before the list of databases is being written,
on a disk where the list and everything on it could be read. Then the daemon starts, and every database on
the list, with the exception of at most one, is there with its old or with its new contents. This is for a
deserialiser that reads back what was written and does not panic; `Store::deser` is not one (C33, C36).
Missing: the one database, and a stop while the list is being written (`C46_refuted`, `C46_refuted_meta`). -/
theorem C46_restart_partial {env : Env} (base : Path) (dbs : Dbs) (fs fs' : FS) (hb : fs base = some .dir)
    (hn : (dbs.map Prod.fst).Nodup) (hp : ∀ x ∈ dbs, PlainName x.1 ∧ x.1 ≠ kMeta)
    (h : CrashState env base [] dbs fs fs') (hlist : fs' (sdbPath base kMeta) = fs (sdbPath base kMeta))
    {de : List UInt8 → Out StoreSerError Store} (hde : ∀ b p, de b ≠ .panic p)
    (hnew : ∀ x ∈ dbs, ∃ s, de (serBytes env x.2) = .ok s ∧ s.Perm x.2)
    {list : Store} {vs : List Value} (hm : getStore de fs base kMeta = .ok list)
    (hl : AMap.get kExisting list = some (.array vs))
    (hold : ∀ n, Value.string n ∈ vs → PlainName n ∧ ∃ s, getStore de fs base n = .ok s) :
    ∃ damaged dbs', startWith de fs' base = .ok dbs' ∧
      ∀ n, Value.string n ∈ vs → sdbPath base n ≠ damaged → ∃ s, AMap.get n dbs' = some s ∧
        (getStore de fs base n = .ok s ∨ ∃ t, (n, t) ∈ dbs ∧ s.Perm t) := by
  have hb' : fs' base = some .dir := by
    cases h with
    | between d1 d2 h =>
      exact saveDbs_keeps d1 [] fs (fun x hx => (hp x (by rw [h]; exact List.mem_append_left _ hx)).1) hb
    | inside d1 d2 n s k h =>
      exact writeTo_keeps (hp (n, s) (by rw [h]; simp)).1 _
        (saveDbs_keeps d1 [] fs (fun x hx => (hp x (by rw [h]; exact List.mem_append_left _ hx)).1) hb)
    | inMeta k => exact writeTo_keeps plain_meta _ (saveDbs_keeps dbs [] fs (fun x hx => (hp x hx).1) hb)
  obtain ⟨damaged, hd⟩ := C46_one_file_partial base dbs fs fs' (.inl hb) hn hp h
  have same : ∀ n, PlainName n → fs' (sdbPath base n) = fs (sdbPath base n) →
      getStore de fs' base n = getStore de fs base n := by
    intro n hn e
    unfold getStore
    rw [target_plain hn hb, target_plain hn hb']
    simp only [e]
  have nopanic : ∀ n, PlainName n → ∀ p, getStore de fs' base n ≠ .panic p := by
    intro n hn p
    unfold getStore
    rw [target_plain hn hb']
    simp only
    split
    · exact fun h => by cases h
    · exact fun h => by cases h
    · rename_i b _
      cases e : de b with
      | panic q => exact absurd e (hde b q)
      | ok s => exact fun h => by cases h
      | err s => exact fun h => by cases h
  obtain ⟨dbs', h1, h2⟩ := C46_bad_files_skipped_partial ((same kMeta plain_meta hlist).trans hm) hl
    (fun n hn => nopanic n (hold n hn).1)
  refine ⟨damaged, dbs', h1, fun n hv hdm => ?_⟩
  obtain ⟨hpn, s, hs⟩ := hold n hv
  rcases hd n hdm with e | ⟨t, ht, e⟩
  · exact ⟨s, (h2 n s).mpr ⟨hv, (same n hpn e).trans hs⟩, .inl hs⟩
  · obtain ⟨s', hs', hperm⟩ := hnew (n, t) ht
    refine ⟨s', (h2 n s').mpr ⟨hv, ?_⟩, .inr ⟨t, ht, hperm⟩⟩
    unfold getStore
    rw [target_plain hpn hb']
    simp only [e]
    simp only at hs'
    rw [hs']
    rfl

/-- The sample disk after two databases were saved. -/
def sampleSaved : FS := fun p =>
  if p = sdbPath [['e', 't', 'c'], ['s']] kMeta then some (.file [1])
  else if p = sdbPath [['e', 't', 'c'], ['s']] ['d'] then some (.file [2])
  else if p = sdbPath [['e', 't', 'c'], ['s']] ['e'] then some (.file [3])
  else sampleFs p

/-- A reader for the sample disk: it knows the list and the two old databases, cannot read an empty file,
and takes everything else for an empty database. -/
def sampleDe (b : List UInt8) : Out StoreSerError Store :=
  if b = [1] then .ok (metaStore [['d'], ['e']])
  else if b = [2] ∨ b = [3] then .ok [(['k'], .null)]
  else if b = [] then .err .notEnoughBytes else .ok []

-- the process stops at the beginning of writing `d`; `d` is damaged, and `e` still has its old contents
example : ∃ fs', CrashState sampleEnv [['e', 't', 'c'], ['s']] [] [(['d'], [])] sampleSaved fs' ∧
    fs' (sdbPath [['e', 't', 'c'], ['s']] kMeta) = sampleSaved (sdbPath [['e', 't', 'c'], ['s']] kMeta) ∧
    getStore sampleDe fs' [['e', 't', 'c'], ['s']] ['d'] = .err (.store .notEnoughBytes) ∧
    ∃ dbs', startWith sampleDe fs' [['e', 't', 'c'], ['s']] = .ok dbs' ∧ AMap.get ['e'] dbs' = some [(['k'], .null)] ∧
      AMap.get ['d'] dbs' = none := by
  have hb : sampleSaved [['e', 't', 'c'], ['s']] = some .dir := by decide
  refine ⟨_, .inside [] [] ['d'] [] 0 rfl, ?_⟩
  show (writeTo (.after 0) sampleSaved [['e', 't', 'c'], ['s']] ['d'] (serBytes sampleEnv [])).1 _ = _ ∧ _
  simp only [saveDbs]
  rw [writeTo_dir (by constructor <;> decide) _ _ hb, if_neg (by decide)]
  simp only [writeBytes, List.take_zero]
  exact ⟨rfl, rfl, _, rfl, rfl, rfl⟩

/-! ## C47 -/

/-- C47 for the code as it is: a daemon that starts, starts without databases (because it never reads any
file successfully), so no removed database is there again. This holds for the wrong reason; see
`C47_refuted_if_readable`. -/
theorem C47_stays_removed (env : Env) (fs : FS) (base : Path) (dbs : Dbs) (h : start env fs base = .ok dbs)
    (n : List Char) : AMap.get n dbs = none := by
  unfold start startWith at h
  split at h
  · cases h
  · cases h
  · next s hs =>
    have hs0 : s = [] := by
      unfold getStore at hs
      split at hs
      · cases hs; rfl
      · cases hs
      · split at hs
        · cases hs; rfl
        · cases hs
        · rw [Out.mapErr_eq_ok] at hs
          exact absurd hs (C33_refuted env _ s)
    subst hs0
    simp only [AMap.get] at h
    cases h
    rfl

/-- Were the list of databases readable, C47 would be violated: a database is saved, removed with `rm_db`
(its file is deleted, the answer is 200), the process stops before the next save; after the restart the
database exists again, empty. -/
theorem C47_refuted_if_readable {env : Env} (base : Path) (fs fs' : FS) (n : List Char) (s : Store) (hn : PlainName n)
    (hm : n ≠ kMeta) (hb : BaseOk fs base) (hd : fs (sdbPath base n) ≠ some .dir)
    (de : List UInt8 → Out StoreSerError Store)
    (hde : de (serBytes env (metaStore [n])) = .ok (metaStore [n]))
    (h : save env base [] .none [(n, s)] fs = (fs', true)) :
    ∃ fs'' dbs', unlink fs' base n = (.done, fs'') ∧
      (Daemon.exec env (.removeDb n .done) ⟨[(n, s)], []⟩).1 = .status 200 ∧
      startWith de fs'' base = .ok dbs' ∧ AMap.get n dbs' = some [] := by
  have hs := saveDbs_spec env base [(n, s)] [] fs (by simp) (by simp [hn]) hb
  have hall := saveDbs_all env base [(n, s)] fs (by simp) (by simp [hn]) hb (by simpa using hd)
  rw [save_eq, hall] at h
  generalize saveDbs env base [] [(n, s)] fs = r at hs h hall
  obtain ⟨h1, h2⟩ := saveMeta_done h
  have w := wrote (fs := r.1) plain_meta (serBytes env (metaStore [n])) .none hs.ready
  have e : writeTo .none r.1 base kMeta (serBytes env (metaStore [n])) = (fs', true) := h
  rw [e] at w
  have h3 := hs.contents_nil n s (by simp) (by rw [hall]; simp)
  have h4 := w.others (sdbPath base n) (sdb_not_prefix base n) (fun e => hm (sdb_inj e))
  simp only at h4
  rw [h3] at h4
  refine ⟨fs'.set (sdbPath base n) none, [(n, [])], ?_, ?_, ?_, ?_⟩
  · unfold unlink
    rw [target_plain hn h2]
    simp only [h4]
  · simp [Daemon.exec, Daemon.removeDb, Daemon.invalidate, Dbs.removeDb, AMap.get, afterUnlink]
  · have h5 : fs'.set (sdbPath base n) none base = some .dir := by rw [FS.set_ne _ _ (sdb_ne_base base n).symm]; exact h2
    have h6 : fs'.set (sdbPath base n) none (sdbPath base kMeta) = some (.file (serBytes env (metaStore [n]))) := by
      rw [FS.set_ne _ _ (fun e => hm (sdb_inj e).symm)]; exact h1
    unfold startWith getStore
    rw [target_plain plain_meta h5]
    simp only [h6, hde, Out.mapErr]
    simp only [metaStore, AMap.get, if_true, List.map_cons, List.map_nil, loadAll, getStore, target_plain hn h5,
      FS.set_self, AMap.insert]
  · simp [AMap.get]

/-! ## C49 -/

/-- C49, partial: for names without a slash, the only path that the daemon touches is the file
`<name>.sdb` directly in the base directory. Missing: names with a slash (`C49_refuted_*`). -/
theorem C49_contained_partial (fs : FS) (base : Path) (n : List Char) (hn : '/' ∉ n) :
    (∀ p, target fs base n = .ok p → p = sdbPath base n) ∧
    (∀ p, (unlink fs base n).2 p ≠ fs p → p = sdbPath base n) ∧
    (∀ f b p, (writeTo f fs base n b).1 p ≠ fs p → p = sdbPath base n ∨ base.take p.length = p) := by
  have ht : ∀ (fs : FS) p, target fs base n = .ok p → p = sdbPath base n := by
    intro fs p h
    rw [target_noslash fs base n hn] at h
    split at h
    · cases h
    · split at h
      · cases h; rfl
      · cases h
      · cases h
  have ho : ∀ (fs : FS) p, openCreate fs base n = .ok p → p = sdbPath base n := by
    intro fs p h
    unfold openCreate at h
    split at h
    · cases h
    · next q hq =>
      have hq := ht fs q hq
      split at h
      · cases h
      · cases h; exact hq
  have hw : ∀ f (fs : FS) p b q, (writeBytes f fs p b).1 q ≠ fs q → q = p := by
    intro f fs p b q h
    by_contra hne
    apply h
    cases f <;> exact FS.set_ne _ _ hne
  refine ⟨ht fs, ?_, ?_⟩
  · intro p h
    unfold unlink at h
    split at h
    · exact absurd rfl h
    · exact absurd rfl h
    · next q hq =>
      split at h
      · exact absurd rfl h
      · exact absurd rfl h
      · by_contra hne
        apply h
        rw [ht fs q hq]
        exact FS.set_ne _ _ hne
  · intro f b p h
    unfold writeTo at h
    split at h
    · exact absurd rfl h
    · split at h
      · next q hq => exact .inl ((hw _ _ _ _ _ h).trans (ho fs q hq))
      · exact absurd rfl h
      · split at h
        · exact absurd rfl h
        · next fs1 hfs1 =>
          by_cases hpre : base.take p.length = p
          · exact .inr hpre
          · left
            have h1 : fs1 p = fs p := by
              unfold createDirAll at hfs1
              split at hfs1
              · cases hfs1
              · cases hfs1; exact if_neg hpre
            rw [← h1] at h
            split at h
            · next q hq => exact (hw _ _ _ _ _ h).trans (ho fs1 q hq)
            · exact absurd rfl h

/-- `../x` -/
def upX : List Char := ['.', '.', '/', 'x']

/-- C49 is violated: `add_db` accepts the name `../x`, and the next save writes `x.sdb` beside the base
directory. -/
theorem C49_refuted_parent {env : Env} (base : Path) (fs : FS) (hb : fs base = some .dir) (hne : base ≠ [])
    (hx : fs (base.dropLast ++ [['x'] ++ kSdb]) = none) :
    ∃ dbs, (Daemon.exec env (.newDb upX false) ⟨[], []⟩) = (.status 201, ⟨dbs, []⟩) ∧
      (saveDbs env base [] dbs fs).1 (base.dropLast ++ [['x'] ++ kSdb]) = some (.file (serBytes env [])) ∧
      ∀ m, base.dropLast ++ [['x'] ++ kSdb] ≠ sdbPath base m := by
  refine ⟨[(upX, [])], rfl, ?_, ?_⟩
  · have ht : target fs base upX = .ok (base.dropLast ++ [['x'] ++ kSdb]) := by
      unfold target
      rw [if_neg (by decide)]
      have hc : components (upX ++ kSdb) = [['.', '.'], ['x'] ++ kSdb] := by decide
      rw [hc, if_neg (by decide), hb]
      rfl
    simp only [saveDbs, List.head?_nil, Option.getD_none]
    unfold writeTo openCreate
    rw [if_neg (by decide), ht]
    simp only [hx, writeBytes]
    exact FS.set_self ..
  · intro m e
    have := congrArg List.length e
    simp only [sdbPath, List.length_append, List.length_dropLast, List.length_cons, List.length_nil] at this
    have : base.length ≠ 0 := by simpa using hne
    omega

/-- `/tmp/x` -/
def tmpX : List Char := ['/', 't', 'm', 'p', '/', 'x']

/-- C49 is violated: `add_db` accepts the name `/tmp/x`, and `rm_db` deletes `/tmp/x.sdb`, wherever the
base directory is. -/
theorem C49_refuted_absolute {env : Env} (base : Path) (fs : FS) (b : List UInt8)
    (hd : fs [['t', 'm', 'p']] = some .dir) (hf : fs [['t', 'm', 'p'], ['x'] ++ kSdb] = some (.file b)) :
    ∃ dbs, (Daemon.exec env (.newDb tmpX false) ⟨[], []⟩) = (.status 201, ⟨dbs, []⟩) ∧
      (Daemon.exec env (.removeDb tmpX .done) ⟨dbs, []⟩).1 = .status 200 ∧
      (unlink fs base tmpX).1 = .done ∧ (unlink fs base tmpX).2 [['t', 'm', 'p'], ['x'] ++ kSdb] = none := by
  have ht : target fs base tmpX = .ok [['t', 'm', 'p'], ['x'] ++ kSdb] := by
    unfold target
    rw [if_neg (by decide)]
    have hc : components (tmpX ++ kSdb) = [[], ['t', 'm', 'p'], ['x'] ++ kSdb] := by decide
    rw [hc, if_pos (by decide)]
    simp [walk, hd]
  refine ⟨[(tmpX, [])], rfl, rfl, ?_, ?_⟩
  · unfold unlink
    rw [ht]
    simp only [hf]
  · unfold unlink
    rw [ht]
    simp only [hf]
    exact FS.set_self ..

example : sampleFs [['e', 't', 'c'], ['s']] = some .dir ∧
    sampleFs ([['e', 't', 'c'], ['s']].dropLast ++ [['x'] ++ kSdb]) = none := by decide

/-! ## C51 -/

/-- A store without text and one with text are written differently. -/
theorem serBytes_text_ne {env : Env} (hbo : HashOrder env.byteOrd) (hco : HashOrder env.charOrd) (s : Store)
    (hs : ∃ t, Value.Text env t (.map s) ∧ t ≠ []) : serBytes env [] ≠ serBytes env s := by
  obtain ⟨_, _, f1, comp1, e1, hf1, _⟩ := C35_no_text env hbo hco [] (by
    intro t ht
    cases ht with
    | key h => cases h
    | map h _ => cases h)
  obtain ⟨_, _, _, f2, comp2, e2, hf2, _⟩ := C35_covers env hbo hco s hs
  simp only [serBytes, e1, e2]
  intro e
  simp only [List.append_cancel_left_eq, List.cons.injEq] at e
  rw [e.1] at hf1
  omega

/-- C51 is violated: after the signal the final save writes the databases; a write arrives before the
server stops accepting and is answered with "inserted"; the process exits normally, and the file holds the
database without the key. -/
theorem C51_refuted {env : Env} (hbo : HashOrder env.byteOrd) (hco : HashOrder env.charOrd) (hmo : HashOrder env.mapOrd)
    (base : Path) (fs : FS) (hb : fs base = some .dir) (hd : fs (sdbPath base ['d']) ≠ some .dir) :
    ∃ m', MRun env base ⟨[(['d'], [])], fs, .running⟩ [.signal, .finalSave [],
        .op (.addKv ['d'] ['k'] false false .null) (.creation .insertedKeyIntoExistingDB), .finalMeta .none, .exit] m' ∧
      m'.phase = .exited ∧ AMap.get ['d'] m'.dbs = some [(['k'], .null)] ∧
      m'.fs (sdbPath base ['d']) = some (.file (serBytes env [])) ∧
      serBytes env [] ≠ serBytes env [(['k'], .null)] := by
  have hpl : PlainName ['d'] := by constructor <;> decide
  have hs := saveDbs_spec env base [(['d'], [])] [] fs (by simp) (by simp [hpl]) (.inl hb)
  have hall := saveDbs_all env base [(['d'], [])] fs (by simp) (by simp [hpl]) (.inl hb) (by simpa using hd)
  have hm : env.mapOrd [(['k'], Value.null)] = [(['k'], .null)] := List.perm_singleton.mp (hmo _)
  have h3 := hs.contents_nil ['d'] [] (by simp) (by rw [hall]; simp)
  have w := wrote (fs := (saveDbs env base [] [(['d'], [])] fs).1) plain_meta
    (serBytes env (metaStore (saveDbs env base [] [(['d'], [])] fs).2)) .none hs.ready
  have h4 := w.others (sdbPath base ['d']) (sdb_not_prefix base _) (by
    intro e; exact absurd (sdb_inj e) (by decide))
  refine ⟨_, .cons (.signal rfl) (.cons (.finalSave [] rfl) (.cons
    (.op (.addKv ['d'] ['k'] false false .null) (by simp) trivial) (.cons (.finalMeta .none rfl) (.cons (.exit rfl) .nil)))),
    rfl, ?_, ?_, ?_⟩
  · show some (env.mapOrd [(['k'], Value.null)]) = _
    rw [hm]
  · show (saveMeta env base .none _ (saveDbs env base [] [(['d'], [])] fs).1).1 (sdbPath base ['d']) = _
    exact h4.trans h3
  · exact serBytes_text_ne hbo hco _ ⟨['k'], .key (v := .null) (by simp), by simp⟩

/-- After the final save has written the databases, only `rm_db` changes their files. -/
theorem after_final {env : Env} {base : Path} {m m' : Machine} {es : List MEvent} (h : MRun env base m es m')
    (hp : m.phase ≠ .running ∧ m.phase ≠ .stopping) (hb : BaseOk m.fs base) (n : List Char) (hm : n ≠ kMeta)
    (hrm : ∀ n' io r, .op (.removeDb n' io) r ∈ es → PlainName n' ∧ n' ≠ n) :
    m'.fs (sdbPath base n) = m.fs (sdbPath base n) := by
  induction h with
  | nil => rfl
  | @cons m m1 m' e es hs _ ih =>
    have hrm' : ∀ n' io r, .op (.removeDb n' io) r ∈ es → PlainName n' ∧ n' ≠ n :=
      fun n' io r hmem => hrm n' io r (List.mem_cons_of_mem _ hmem)
    have hunlink : ∀ n', PlainName n' → n' ≠ n → ∀ fs : FS, BaseOk fs base →
        (unlink fs base n').2 (sdbPath base n) = fs (sdbPath base n) ∧ BaseOk (unlink fs base n').2 base := by
      intro n' hpl hne fs hbo
      unfold unlink
      rcases hbo with hbo | ⟨hbo, hc⟩
      · rw [target_plain hpl hbo]
        simp only
        split
        · exact ⟨rfl, .inl hbo⟩
        · exact ⟨rfl, .inl hbo⟩
        · refine ⟨FS.set_ne _ _ (fun e => hne (sdb_inj e).symm), .inl ?_⟩
          show FS.set _ _ _ base = _
          rw [FS.set_ne _ _ (sdb_ne_base base n').symm]
          exact hbo
      · rw [target_noslash fs base n' hpl.1, if_neg hpl.2, hbo]
        exact ⟨rfl, .inr ⟨hbo, hc⟩⟩
    cases hs with
    | op o hp' hio =>
      have key : (o.onDisk base m.dbs m.fs) (sdbPath base n) = m.fs (sdbPath base n) ∧ BaseOk (o.onDisk base m.dbs m.fs) base := by
        cases o with
        | removeDb n' io =>
          obtain ⟨h1, h2⟩ := hrm n' io _ (List.mem_cons_self ..)
          simp only [Op.onDisk]
          split
          · exact hunlink n' h1 h2 m.fs hb
          · exact ⟨rfl, hb⟩
        | _ => exact ⟨rfl, hb⟩
      rw [ih hp key.2 hrm']
      exact key.1
    | periodic faults mf hp' => exact absurd hp' hp.1
    | signal hp' => exact absurd hp' hp.1
    | finalSave faults hp' => exact absurd hp' hp.2
    | @finalMeta names mf hp' =>
      have w := wrote (fs := m.fs) plain_meta (serBytes env (metaStore names)) mf hb
      rw [ih (by simp) w.ready hrm']
      exact w.others _ (sdb_not_prefix base n) (fun e => hm (sdb_inj e))
    | exit hp' => exact ih (by simp) hb hrm'

/-- C51, partial: what was in memory when the final save began, in particular every write acknowledged
before, is on the disk when the process exits, for names that are one path component and not `meta`, when no
write to the disk fails and the database is not removed afterwards. Missing: writes acknowledged after the
final save has begun (`C51_refuted`). -/
theorem C51_before_partial {env : Env} {base : Path} {m₀ m₁ m₂ m' : Machine} {es₁ es₂ : List MEvent}
    (_before : MRun env base m₀ es₁ m₁) (hsave : MStep env base m₁ (.finalSave []) m₂) (after : MRun env base m₂ es₂ m')
    (hn : (m₁.dbs.map Prod.fst).Nodup) (hp : ∀ x ∈ m₁.dbs, PlainName x.1 ∧ x.1 ≠ kMeta) (hb : BaseOk m₁.fs base)
    (hd : ∀ x ∈ m₁.dbs, m₁.fs (sdbPath base x.1) ≠ some .dir) (n : List Char) (s : Store) (hmem : (n, s) ∈ m₁.dbs)
    (hrm : ∀ n' io r, .op (.removeDb n' io) r ∈ es₂ → PlainName n' ∧ n' ≠ n) :
    m'.fs (sdbPath base n) = some (.file (serBytes env s)) := by
  cases hsave with
  | finalSave _ hp' =>
    have hs := saveDbs_spec env base m₁.dbs [] m₁.fs hn (fun x hx => (hp x hx).1) hb
    have hall := saveDbs_all env base m₁.dbs m₁.fs hn (fun x hx => (hp x hx).1) hb hd
    rw [after_final after (by simp) hs.ready n (hp _ hmem).2 hrm]
    exact hs.contents_nil n s hmem (by rw [hall]; exact List.mem_map_of_mem hmem)

/-! ## Examples -/

/-- A deserialiser that reads back what is needed, and a disk: the hypotheses of `C45_restart_partial` and
`C47_refuted_if_readable` can be met. -/
example : ∃ de : List UInt8 → Out StoreSerError Store, de (serBytes sampleEnv []) = .ok [] ∧
    de (serBytes sampleEnv (metaStore [['d']])) = .ok (metaStore [['d']]) := by
  refine ⟨fun b => if b = serBytes sampleEnv [] then .ok [] else .ok (metaStore [['d']]), by simp, ?_⟩
  have h := serBytes_text_ne (env := sampleEnv) (fun _ => .refl _) (fun _ => .refl _) (metaStore [['d']])
    ⟨kExisting, .key (v := .array [.string ['d']]) (by simp [metaStore]), by simp [kExisting]⟩
  simp only
  rw [if_neg (fun e => h e.symm)]

example : ∃ fs', save sampleEnv [['e', 't', 'c'], ['s']] [] .none [(['d'], [])] sampleFs = (fs', true) := by
  have hpd : PlainName ['d'] := by constructor <;> decide
  have hs := saveDbs_spec sampleEnv [['e', 't', 'c'], ['s']] [(['d'], [])] [] sampleFs (by simp) (by simp [hpd]) (.inl (by decide))
  rw [save_eq]
  generalize saveDbs sampleEnv [['e', 't', 'c'], ['s']] [] [(['d'], [])] sampleFs = r at hs
  have w := wrote (fs := r.1) plain_meta (serBytes sampleEnv (metaStore r.2)) .none hs.ready
  have h2 := w.iff.mpr ⟨rfl, by
    rw [hs.others _ (sdb_not_prefix _ _) (by
      intro x hx
      simp only [List.mem_cons, List.not_mem_nil, or_false] at hx
      subst hx
      decide)]
    decide⟩
  exact ⟨_, Prod.ext rfl h2⟩

/-- A run through shutdown with a write before the final save. -/
example : ∃ m₁ m₂ m' es₁, MRun sampleEnv [['e', 't', 'c'], ['s']] ⟨[(['d'], [])], sampleFs, .running⟩ es₁ m₁ ∧
    MStep sampleEnv [['e', 't', 'c'], ['s']] m₁ (.finalSave []) m₂ ∧
    MRun sampleEnv [['e', 't', 'c'], ['s']] m₂ [.finalMeta .none, .exit] m' ∧ m'.phase = .exited ∧
    m₁.dbs = [(['d'], [(['k'], .null)])] :=
  ⟨_, _, _, [.op (.addKv ['d'] ['k'] false false .null) (.creation .insertedKeyIntoExistingDB), .signal],
    .cons (.op (.addKv ['d'] ['k'] false false .null) (by simp) trivial) (.cons (.signal rfl) .nil), .finalSave [] rfl,
    .cons (.finalMeta .none rfl) (.cons (.exit rfl) .nil), rfl, rfl⟩

end Souris
