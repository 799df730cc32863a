import Verif.Lemmas.ValueYields
import Verif.Props.Value
import Verif.Props.Daemon
import Verif.Spec.Client

/-! # Values from outside: C58 (what was read can be stored), C59 (what is served was sent) -/

namespace Souris

open Value

/-! ## C58 -/

/-- JSON that its own text form preserves and that fits in memory. -/
def JsonKept (env : Env) (j : SJValue) : Prop :=
  (utf8 (env.jsonPrint j)).length < 2 ^ 64 ∧ env.jsonParse (env.jsonPrint j) = some j

/-- C58, partial: whatever the bytes were, a value that was read from them can be written, and reading it
again gives a value with the same contents and the same bytes. Missing: binary data that its own form loses and
JSON that its own text form does not preserve. -/
theorem C58_reread_partial {env : Env} (hlz : env.lz.Lossless) (hord : HashOrder env.byteOrd)
    (hcap : 1 ≤ env.arrayCapMax) {c c' : Cursor UInt8} {v : Value} (e : deser env none c = .ok (v, c'))
    (hb : ∀ b, Sub (.binary b) v → BinaryKept env b) (hj : ∀ j, Sub (.json j) v → (∃ s, env.jsonParse s = some j) → JsonKept env j) :
    ∃ bytes v', ser env none v = .ok bytes ∧ SameAs v v' ∧ Inverts (deser env none) bytes v' ∧
      ser env none v' = .ok bytes := by
  obtain ⟨n, _, o, hl, ho⟩ := C27_terminates env none c
  rw [ho] at e
  have hk := loops_keeps hcap hl (by intro st hst; rw [List.mem_singleton.mp hst]; trivial) v c' e
  exact C26_stable_partial hlz hord (hk _ hb hj)

-- a non-minimal encoding: an array announced with length 0 holds the value that follows it
example : ∃ c', deser sampleEnv none (Cursor.new [0xB0, 0x31]) = .ok (.array [.boolean true], c') ∧
    (∀ b, Sub (.binary b) (.array [.boolean true]) → BinaryKept sampleEnv b) := by
  refine ⟨⟨[0xB0, 0x31], 2⟩, rfl, ?_⟩
  intro b hb
  cases hb with
  | array hv h =>
    rw [List.mem_singleton.mp hv] at h
    cases h

/-! ## C59 -/

/-- Some request of the history asked for exactly this: the key of the database to hold the value that the
body encodes. -/
def Sent (env : Env) (hs : List Happening) (n k : List Char) (v : Value) : Prop :=
  ∃ create overwrite body c', Happening.request (.addKv n k create overwrite body) ∈ hs ∧
    deser env none (Cursor.new body) = .ok (v, c')

/-- What a database holds under a key. -/
def Abs.look (a : Abs) (n k : List Char) : Option Value := (a n).bind fun m => m k

theorem look_put (a : Abs) (n n' k : List Char) (m : Option AbsDb) :
    Abs.look (Abs.put a n' m) n k = if n = n' then m.bind (fun m => m k) else Abs.look a n k := by
  unfold Abs.look Abs.put
  split <;> rfl

theorem after_look {a : Abs} {op : Op} {n k : List Char} {v : Value} (hop : ∀ m o s, op ≠ .newDbWith m o s)
    (h : (a.after op).look n k = some v) :
    a.look n k = some v ∨ ∃ create overwrite, op = .addKv n k create overwrite v := by
  cases op with
  | getDb | getValue | allNames => exact .inl h
  | newDbWith m o s => exact absurd rfl (hop m o s)
  | newDb n' o =>
    simp only [Abs.after] at h
    split at h
    · rw [look_put] at h
      split at h
      · rename_i hn
        subst hn
        simp only [Option.bind_some] at h
        split at h
        · cases h
        · unfold Abs.look
          cases ha : a n with
          | none => rw [ha] at h; cases h
          | some m => rw [ha] at h; exact .inl h
      · exact .inl h
    · exact .inl h
  | clearDb n' =>
    simp only [Abs.after] at h
    split at h
    · rw [look_put] at h
      split at h
      · cases h
      · exact .inl h
    · exact .inl h
  | removeDb n' io =>
    simp only [Abs.after] at h
    rw [look_put] at h
    split at h
    · cases h
    · exact .inl h
  | addKv n' k' c o w =>
    have key : ∀ m : AbsDb, Abs.look (Abs.put a n' (some (Abs.put m k' (some w)))) n k = some v →
        (n = n' → m k = some v → a.look n k = some v) →
        a.look n k = some v ∨ ∃ create overwrite, Op.addKv n' k' c o w = .addKv n k create overwrite v := by
      intro m h hm
      rw [look_put] at h
      split at h
      · rename_i hn
        simp only [Option.bind_some, Abs.put] at h
        split at h
        · rename_i hk
          cases h
          exact .inr ⟨c, o, by rw [hn, hk]⟩
        · exact .inl (hm hn h)
      · exact .inl h
    simp only [Abs.after] at h
    split at h
    · rename_i m hm
      split at h
      · exact .inl h
      · refine key m h fun hn hv => ?_
        rw [Abs.look, hn, hm]
        exact hv
    · split at h
      · exact key _ h fun _ hv => by cases hv
      · exact .inl h
  | removeKey n' k' =>
    simp only [Abs.after] at h
    split at h
    · rename_i m hm
      rw [look_put] at h
      split at h
      · rename_i hn
        simp only [Option.bind_some, Abs.put] at h
        split at h
        · cases h
        · rw [Abs.look, hn, hm]
          exact .inl h
      · exact .inl h
    · exact .inl h

theorem afterAll_sent {env : Env} {n k : List Char} {v : Value} : ∀ (hs : List Happening) (a : Abs),
    (Abs.afterAll env a hs).look n k = some v → a.look n k = some v ∨ Sent env hs n k v := by
  intro hs
  induction hs with
  | nil => intro a h; exact .inl h
  | cons x hs ih =>
    intro a h
    have up : Sent env hs n k v → Sent env (x :: hs) n k v := by
      rintro ⟨c, o, b, c', hm, hd⟩
      exact ⟨c, o, b, c', List.mem_cons_of_mem _ hm, hd⟩
    cases x with
    | evict m => exact (ih a h).imp id up
    | request r =>
      simp only [Abs.afterAll] at h
      cases e : r.route env with
      | inl _ => rw [e] at h; exact (ih a h).imp id up
      | inr op =>
        rw [e] at h
        rcases ih _ h with h | h
        swap
        · exact .inr (up h)
        have hop : ∀ m o s, op ≠ .newDbWith m o s := by
          rintro m o s rfl
          cases r <;> simp only [Request.route] at e
          case addDbWithContent =>
            split at e
            · next s hs => exact absurd hs (C33_refuted env _ s)
            · cases e
            · cases e
          case addKv => split at e <;> cases e
          all_goals cases e
        refine (after_look hop h).imp id ?_
        rintro ⟨c, o, rfl⟩
        cases r <;> simp only [Request.route] at e
        case addKv =>
          split at e
          · next w c1 hd =>
              cases e
              exact ⟨c, o, _, c1, List.mem_cons_self, hd⟩
          · cases e
          · cases e
        case addDbWithContent => split at e <;> cases e
        all_goals cases e

/-- C59: after any history of requests and evictions that started from no databases, a value that the
daemon serves under a key of a database is the value that the body of some earlier request, which asked for
that very key of that very database to be set, encodes. -/
theorem C59_served_was_sent {env : Env} (hord : HashOrder env.mapOrd) (hs : List Happening) {n k : List Char}
    {v : Value} (h : ((Daemon.history env {} hs).handle env (.getValue n k)).1 = .value v) :
    Sent env hs n k v := by
  obtain ⟨_, _, hview⟩ := history_sim (env := env) hord hs {} DbsOk.nil (by intro n b h; cases h)
  have hl : (Daemon.history env {} hs).view.look n k = some v := by
    have h' : Dbs.getValue n k (Daemon.history env {} hs).dbs = .value v := h
    unfold Dbs.getValue at h'
    unfold Abs.look Daemon.view
    split at h'
    · cases h'
    · rename_i s hs'
      split at h'
      · cases h'
      · rename_i w hw
        cases h'
        rw [hs']
        exact hw
  rw [hview] at hl
  rcases afterAll_sent hs _ hl with h | h
  · cases h
  · exact h

/-- C58, partial: and whoever fetches it gets a value with the contents that were sent. Missing: binary data
that its own form loses and JSON that its own text form does not preserve. -/
theorem C58_fetched_was_sent_partial {env : Env} (hlz : env.lz.Lossless) (hbyte : HashOrder env.byteOrd)
    (hord : HashOrder env.mapOrd) (hcap : 1 ≤ env.arrayCapMax) (hs : List Happening) {n k : List Char} {v : Value}
    (h : ((Daemon.history env {} hs).handle env (.getValue n k)).1 = .value v)
    (hb : ∀ b, Sub (.binary b) v → BinaryKept env b) (hj : ∀ j, Sub (.json j) v → (∃ s, env.jsonParse s = some j) → JsonKept env j)
    (hlen : ∀ bytes, Value.ser env none v = .ok bytes → bytes.length < 2 ^ 64) :
    Sent env hs n k v ∧ ∃ v', SameAs v v' ∧ (Daemon.history env {} hs).Fetches env n k v' := by
  have hsent := C59_served_was_sent hord hs h
  refine ⟨hsent, ?_⟩
  obtain ⟨_, _, body, c', _, hd⟩ := hsent
  obtain ⟨bytes, v', h1, h2, h3, _⟩ := C58_reread_partial hlz hbyte hcap hd hb hj
  have h4 := h3 [] [] (by simpa using hlen bytes h1)
  simp only [List.nil_append, List.append_nil] at h4
  exact ⟨v', h2, v, bytes, _, h, h1, h4⟩

-- after the sample history the key holds `true`, which the last request sent
example : ((Daemon.history sampleEnv {} sampleHistory).handle sampleEnv (.getValue ['d'] ['k'])).1
    = .value (.boolean true) := rfl
example : Sent sampleEnv sampleHistory ['d'] ['k'] (.boolean true) :=
  ⟨false, true, [0x31], ⟨[0x31], 1⟩, by simp [sampleHistory], rfl⟩

end Souris
