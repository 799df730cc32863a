import Verif.Lemmas.Amplify
import Verif.Lemmas.Daemon
import Verif.Lemmas.Format
import Verif.Props.Store

/-! # C80: what is stored is bounded by what was sent -/

namespace Souris

open Value

/-- C80, partial: a value read from bytes has at most 255 units of size (values, keys, characters and bytes) for
every byte read, if it contains no more than 255 copies of one byte in a row as binary data on its own. Missing:
those, see `C80_refuted_run`. -/
theorem C80_value_partial {env : Env} (hz : env.lz.Bounded) (hj : env.JsonBounded) (hm : HashOrder env.mapOrd)
    (h : Option (Huffman Char)) {c c' : Cursor UInt8} {v : Value} (e : Value.deser env h c = .ok (v, c'))
    (hv : v.NoLongRun) : v.size env ≤ 255 * (c'.pos - c.pos) := by
  obtain ⟨h1, h2⟩ := deser_within hz hj hm h c v c' e
  have := size_le_held env v hv
  omega

/-! ## The daemon -/

/-- What the databases take, long runs left out. -/
noncomputable def storeHeld (env : Env) (s : Store) : Nat := (s.map fun x => (1 + x.1.length) + held env x.2).sum

noncomputable def dbsHeld (env : Env) (dbs : Dbs) : Nat := (dbs.map fun x => (1 + x.1.length) + storeHeld env x.2).sum

theorem AMap.sum_insert {β : Type} (f : List Char × β → Nat) (k : List Char) (v : β) (m : List (List Char × β)) :
    ((AMap.insert k v m).map f).sum ≤ (m.map f).sum + f (k, v) := by
  induction m with
  | nil => simp [AMap.insert]
  | cons x m ih =>
    obtain ⟨a, b⟩ := x
    simp only [AMap.insert]
    split
    · rename_i h; subst h; simp only [List.map_cons, List.sum_cons]; omega
    · simp only [List.map_cons, List.sum_cons]; omega

/-- Replacing what is found. -/
theorem AMap.sum_update {β : Type} (f : List Char × β → Nat) {k : List Char} {v w : β} {m : List (List Char × β)}
    (h : AMap.get k m = some w) : ((AMap.insert k v m).map f).sum + f (k, w) = (m.map f).sum + f (k, v) := by
  induction m with
  | nil => cases h
  | cons x m ih =>
    obtain ⟨a, b⟩ := x
    simp only [AMap.get] at h
    simp only [AMap.insert]
    split at h
    · rename_i h'; subst h'; cases h
      rw [if_pos rfl]; simp only [List.map_cons, List.sum_cons]; omega
    · rename_i h'
      rw [if_neg h']; simp only [List.map_cons, List.sum_cons]
      have := ih h
      omega

theorem AMap.sum_erase {β : Type} (f : List Char × β → Nat) (k : List Char) (m : List (List Char × β)) :
    ((AMap.erase k m).map f).sum ≤ (m.map f).sum := by
  induction m with
  | nil => simp [AMap.erase]
  | cons x m ih =>
    obtain ⟨a, b⟩ := x
    simp only [AMap.erase]
    split <;> simp only [List.map_cons, List.sum_cons] <;> omega

theorem storeHeld_insert {env : Env} (hm : HashOrder env.mapOrd) (s : Store) (k : List Char) (v : Value) :
    storeHeld env (Dbs.storeInsert env s (k, v)) ≤ storeHeld env s + ((1 + k.length) + held env v) := by
  unfold storeHeld Dbs.storeInsert
  rw [((hm _).map _).sum_eq]
  exact AMap.sum_insert _ _ _ _

theorem handle_held {env : Env} (hz : env.lz.Bounded) (hj : env.JsonBounded) (hm : HashOrder env.mapOrd)
    (r : Request) (d : Daemon) :
    dbsHeld env (d.handle env r).2.dbs ≤ dbsHeld env d.dbs + (2 + r.named + 255 * r.bytes) := by
  have hnew : ∀ n : List Char, dbsHeld env (AMap.insert n [] d.dbs) ≤ dbsHeld env d.dbs + (1 + n.length) := by
    intro n
    have := AMap.sum_insert (fun x : List Char × Store => (1 + x.1.length) + storeHeld env x.2) n [] d.dbs
    simpa [dbsHeld, storeHeld] using this
  cases r with
  | healthcheck => simp [Daemon.handle, Request.route]
  | allNames => simp [Daemon.handle, Request.route, Daemon.exec]
  | getValue n k => simp [Daemon.handle, Request.route, Daemon.exec]
  | getDb n =>
    have : (d.getDb env n).2.dbs = d.dbs := by
      unfold Daemon.getDb
      split
      · rfl
      · split <;> rfl
    simp [Daemon.handle, Request.route, Daemon.exec, this]
  | addDb n o =>
    simp only [Daemon.handle, Request.route, Daemon.exec, Daemon.newDb, Request.named, Request.bytes]
    split
    · simp
    · have := hnew n
      simp only [Daemon.invalidate, Dbs.newDb]
      split
      · split <;> simp only <;> omega
      · simp only; omega
  | addDbWithContent n o body =>
    simp only [Daemon.handle, Request.route]
    cases e : Store.deser env body with
    | ok s => exact absurd e (C33_refuted env body s)
    | err _ => simp
    | panic _ => simp
  | rmDb n io =>
    simp only [Daemon.handle, Request.route, Daemon.exec, Daemon.removeDb, Daemon.invalidate, Dbs.removeDb]
    cases AMap.get n d.dbs with
    | none => simp
    | some _ =>
      have := AMap.sum_erase (fun x : List Char × Store => (1 + x.1.length) + storeHeld env x.2) n d.dbs
      simp only [dbsHeld]
      omega
  | clearDb n =>
    have := hnew n
    simp only [Daemon.handle, Request.route, Daemon.exec, Daemon.clearDb, Daemon.invalidate, Dbs.clearDb, Request.named,
      Request.bytes]
    cases AMap.get n d.dbs <;> simp only <;> omega
  | rmKv n k =>
    simp only [Daemon.handle, Request.route, Daemon.exec, Daemon.removeKey, Daemon.invalidate, Dbs.removeKey]
    cases e : AMap.get n d.dbs with
    | none => simp
    | some db =>
      simp only
      cases AMap.get k db with
      | none => simp
      | some _ =>
        have h1 := AMap.sum_erase (fun x : List Char × Value => (1 + x.1.length) + held env x.2) k db
        have h2 := AMap.sum_update (fun x : List Char × Store => (1 + x.1.length) + storeHeld env x.2)
          (v := AMap.erase k db) e
        simp only [dbsHeld, storeHeld] at h1 h2 ⊢
        omega
  | addKv n k cr ow body =>
    simp only [Daemon.handle, Request.route]
    cases e : Value.deser env none (Cursor.new body) with
    | err _ => simp
    | panic _ => simp
    | ok x =>
      obtain ⟨v, c'⟩ := x
      obtain ⟨-, hv⟩ := deser_within hz hj hm none _ _ _ e
      have hpos : c'.pos ≤ body.length := (C27_progress e).2.2
      have hv : held env v ≤ 255 * body.length := by
        simp only [Cursor.new] at hv
        omega
      simp only [Daemon.exec, Daemon.addKv, Daemon.invalidate, Dbs.addKv, Request.named, Request.bytes]
      cases e1 : AMap.get n d.dbs with
      | none =>
        simp only
        split
        · have h1 := storeHeld_insert hm [] k v
          have h2 := AMap.sum_insert (fun x : List Char × Store => (1 + x.1.length) + storeHeld env x.2) n
            (Dbs.storeInsert env [] (k, v)) d.dbs
          have h3 : storeHeld env [] = 0 := rfl
          simp only [dbsHeld] at h2 ⊢
          omega
        · simp
      | some db =>
        simp only
        have h2 := fun s => AMap.sum_update (fun x : List Char × Store => (1 + x.1.length) + storeHeld env x.2)
          (v := s) e1
        cases AMap.get k db with
        | none =>
          have h1 := storeHeld_insert hm db k v
          have h2 := h2 (Dbs.storeInsert env db (k, v))
          simp only [dbsHeld] at h2 ⊢
          omega
        | some _ =>
          simp only
          split
          · have h1 : storeHeld env (AMap.insert k v db) ≤ _ := AMap.sum_insert _ k v db
            have h2 := h2 (AMap.insert k v db)
            simp only [dbsHeld, storeHeld] at h1 h2 ⊢
            omega
          · simp

theorem history_held {env : Env} (hz : env.lz.Bounded) (hj : env.JsonBounded) (hm : HashOrder env.mapOrd)
    (hs : List Happening) (d : Daemon) :
    dbsHeld env (d.history env hs).dbs ≤
      dbsHeld env d.dbs + ((hs.filterMap Happening.request?).map fun r => 2 + r.named + 255 * r.bytes).sum := by
  induction hs generalizing d with
  | nil => simp [Daemon.history]
  | cons x hs ih =>
    have := ih (d.happen env x)
    simp only [Daemon.history, List.foldl_cons] at this ⊢
    cases x with
    | evict n => exact this
    | request r =>
      have h1 := handle_held hz hj hm r d
      simp only [List.filterMap_cons, Happening.request?, List.map_cons, List.sum_cons, Daemon.happen] at this ⊢
      omega

theorem size_le_dbsHeld (env : Env) {dbs : Dbs} (h : dbs.NoLongRun) : dbs.size env ≤ dbsHeld env dbs := by
  have hstore : ∀ s : Store, (∀ k v, (k, v) ∈ s → v.NoLongRun) → sizeEntries env s ≤ storeHeld env s := by
    intro s
    induction s with
    | nil => intro _; simp [sizeEntries]
    | cons x s ih =>
      obtain ⟨k, v⟩ := x
      intro hs
      have h1 := size_le_held env v (hs k v (by simp))
      have h2 := ih fun k v h => hs k v (by simp [h])
      simp only [storeHeld, sizeEntries, List.map_cons, List.sum_cons] at h2 ⊢
      omega
  induction dbs with
  | nil => simp [Dbs.size]
  | cons x dbs ih =>
    obtain ⟨n, s⟩ := x
    have h1 := hstore s fun k v hv => h n s k v (by simp) hv
    have h2 := ih fun n s k v hs hv => h n s k v (by simp [hs]) hv
    simp only [Dbs.size, dbsHeld, List.map_cons, List.sum_cons] at h2 ⊢
    omega

/-- C80, partial: whatever requests a fresh daemon is sent, one after another, what its databases contain is at
most 2 for every request, 1 for every character of the names and keys sent and 255 for every byte of the
bodies, if there are no long runs of one byte in them. In particular reading, asking again and failing requests
make nothing grow without bound. Missing: long runs, see `C80_refuted_run`. -/
theorem C80_daemon_partial {env : Env} (hz : env.lz.Bounded) (hj : env.JsonBounded) (hm : HashOrder env.mapOrd)
    (hs : List Happening) (hr : (Daemon.history env {} hs).dbs.NoLongRun) :
    Dbs.size env (Daemon.history env {} hs).dbs ≤
      ((hs.filterMap Happening.request?).map fun r => 2 + r.named + 255 * r.bytes).sum := by
  have h1 := history_held hz hj hm hs {}
  have h2 := size_le_dbsHeld env hr
  have h3 : dbsHeld env ({} : Daemon).dbs = 0 := rfl
  omega

/-! ## Runs -/

/-- A few bytes that are read as `n` copies of a byte. -/
theorem run_read (env : Env) (h : Option (Huffman Char)) (x : UInt8) {n : Nat} (hn : 0 < n) (hi : n ≤ isizeMax) :
    ∃ bytes, bytes.length ≤ 12 ∧ Inverts (Value.deser env h) bytes (.binary (List.replicate n x)) := by
  obtain ⟨m, rfl⟩ : ∃ m, n = m + 1 := ⟨n - 1, by omega⟩
  obtain ⟨bytes, e, hr⟩ := Binary.huffman_one_reads id (List.replicate (m + 1) x) (by
    rw [List.replicate_succ]; simp [Binary.allEqual]) (by simpa using hi)
  refine ⟨tyByte .binary BinaryCompression.huffman.toByte :: bytes, ?_, inverts_of_parsed (parsed_value ?_)⟩
  · have hall : Binary.allEqual (List.replicate (m + 1) x) = true := by rw [List.replicate_succ]; simp [Binary.allEqual]
    rw [List.replicate_succ] at e hall
    unfold Binary.huffman at e
    simp only [if_pos hall, Out.ok.injEq] at e
    subst e
    have h9 := Fixed.usize_length (n := (x :: List.replicate m x).length) (by
      simp only [List.length_cons, List.length_replicate]; unfold isizeMax at hi; omega)
    simp only [Binary.usizeSer, List.length_cons, List.length_append, List.length_nil] at h9 ⊢
    omega
  · refine prim_reads (by decide) ?_
    refine Reads.bind' (b1 := []) rfl (x := .huffman) ?_ ?_
    · rw [tyByte_and15 _ _ (by decide)]; exact (Reads.lift BinaryCompression.huffman).mapErr _
    · exact ret_reads (fun b => ParseResult.value (.binary b)) ((hr.mapErr _).mapErr _)

/-- C80 is violated by runs: for every `n` up to 2^63-1 there are at most 12 bytes which, sent as a value for a key
of a new database, make the daemon hold `n` bytes more. -/
theorem C80_refuted_run (env : Env) (hm : HashOrder env.mapOrd) (name key : List Char) {n : Nat} (hn : 0 < n)
    (hi : n ≤ isizeMax) : ∃ body : List UInt8, body.length ≤ 12 ∧
      (Daemon.handle env (.addKv name key true false body) {}).1.code = some 200 ∧
      n < Dbs.size env (Daemon.handle env (.addKv name key true false body) {}).2.dbs := by
  obtain ⟨body, hb, hr⟩ := run_read env none 0 hn hi
  refine ⟨body, hb, ?_⟩
  have e : Value.deser env none (Cursor.new body) = .ok (.binary (List.replicate n 0), ⟨body, body.length⟩) := by
    have := hr [] [] (by simp; omega)
    simpa [Cursor.new] using this
  have hp : Dbs.storeInsert env [] (key, .binary (List.replicate n 0)) = [(key, .binary (List.replicate n 0))] :=
    List.perm_singleton.mp (hm _)
  simp only [Daemon.handle, Request.route, e, Daemon.exec, Daemon.addKv, Daemon.invalidate, Dbs.addKv, AMap.get]
  refine ⟨rfl, ?_⟩
  simp only [if_pos, AMap.insert, hp, Dbs.size, List.map_cons, List.map_nil, List.sum_cons, List.sum_nil, sizeEntries,
    size, List.length_replicate]
  omega

/-! ## Example -/

/-- An environment for the examples: lz4 that copies, JSON that is only `null`. -/
def plainEnv : Env := { sampleEnv with jsonParse := fun s => if s = "null".toList then some .null else none }

theorem plainEnv_bounded : plainEnv.lz.Bounded ∧ plainEnv.JsonBounded ∧ HashOrder plainEnv.mapOrd := by
  refine ⟨?_, ?_, fun _ => .refl _⟩
  · intro b n out e
    cases e
    omega
  · intro s j e
    simp only [plainEnv] at e
    split at e
    · rename_i h
      subst h
      show "null".toList.length ≤ 31 * "null".toList.length
      decide
    · cases e

/-- A database, an array stored twice under the same key and once under another, a reading, an eviction and a
rejected body: 2 for each of the 6 requests, 11 characters and 13 bytes of bodies. -/
example :
    let hs : List Happening := [.request (.addDb ['a'] false), .request (.addKv ['a'] ['k'] false true [0xB4, 0xB2, 0x90, 0x31]),
      .request (.addKv ['a'] ['k'] false true [0xB4, 0xB2, 0x90, 0x31]), .request (.getValue ['a'] ['k']), .evict ['a'],
      .request (.addKv ['a'] ['l'] false true [0xB4, 0xB2, 0x90, 0x31]), .request (.addKv ['a'] ['m'] false true [0xB4])]
    (Daemon.history plainEnv {} hs).dbs =
      [(['a'], [(['k'], .array [.array [.null], .boolean true]), (['l'], .array [.array [.null], .boolean true])])] ∧
    Dbs.size plainEnv (Daemon.history plainEnv {} hs).dbs ≤ 12 + 11 + 255 * 13 := by
  intro hs
  have e : (Daemon.history plainEnv {} hs).dbs =
      [(['a'], [(['k'], .array [.array [.null], .boolean true]), (['l'], .array [.array [.null], .boolean true])])] := rfl
  refine ⟨e, ?_⟩
  refine (C80_daemon_partial plainEnv_bounded.1 plainEnv_bounded.2.1 plainEnv_bounded.2.2 hs ?_).trans (by decide)
  rw [e]
  have hv : (Value.array [.array [.null], .boolean true]).NoLongRun := by
    intro d hd
    cases hd with
    | array hv h =>
      simp only [List.mem_cons, List.not_mem_nil, or_false] at hv
      rcases hv with rfl | rfl
      · cases h with
        | array hv h =>
          simp only [List.mem_cons, List.not_mem_nil, or_false] at hv
          subst hv
          cases h
      · cases h
  intro n s k v hs hk
  simp only [List.mem_cons, List.not_mem_nil, or_false, Prod.mk.injEq] at hs
  obtain ⟨_, rfl⟩ := hs
  simp only [List.mem_cons, List.not_mem_nil, or_false, Prod.mk.injEq] at hk
  rcases hk with ⟨_, rfl⟩ | ⟨_, rfl⟩ <;> exact hv

end Souris
