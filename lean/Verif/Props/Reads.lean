import Verif.Spec.Reads
import Verif.Spec.Client
import Verif.Props.Concurrent
import Verif.Props.Daemon

/-! # C76: reads of keys under concurrency, and C39 on a map of maps -/

namespace Souris

namespace Abs

theorem Explains.split {env : Env} {a b : Abs} {S T : List (Nat × Op × Reply)} (h : Explains env a (S ++ T) b) :
    ∃ m, Explains env a S m ∧ Explains env m T b := by
  induction S generalizing a with
  | nil => exact ⟨a, rfl, h⟩
  | cons x S ih =>
    obtain ⟨m, h1, h2⟩ := ih h.2
    exact ⟨m, ⟨h.1, h1⟩, h2⟩

/-- A stored value stays as long as nothing touches it. -/
theorem after_untouched {a : Abs} {op : Op} {n k : List Char} {v : Value} (hx : ¬ op.Touches n k)
    (h : (a n).bind (· k) = some v) : ((a.after op) n).bind (· k) = some v := by
  obtain ⟨m, hm, hmk⟩ := Option.bind_eq_some_iff.mp h
  cases op with
  | getDb _ => exact h
  | allNames => exact h
  | getValue _ _ => exact h
  | newDb m' o =>
    simp only [Op.Touches] at hx
    simp only [Abs.after]
    split
    · by_cases hmn : n = m'
      · subst hmn
        cases o with
        | true => exact absurd ⟨rfl, rfl⟩ hx
        | false => simp [Abs.put, hm, hmk]
      · simp [Abs.put, hmn, hm, hmk]
    · exact h
  | newDbWith m' o c =>
    simp only [Op.Touches] at hx
    simp [Abs.after, Abs.put, Ne.symm hx, hm, hmk]
  | removeDb m' io =>
    simp only [Op.Touches] at hx
    simp [Abs.after, Abs.put, Ne.symm hx, hm, hmk]
  | clearDb m' =>
    simp only [Op.Touches] at hx
    simp only [Abs.after]
    cases ha : a m' with
    | some _ => simp [Abs.put, Ne.symm hx, hm, hmk]
    | none => exact h
  | addKv m' k' c o w =>
    simp only [Op.Touches] at hx
    simp only [Abs.after]
    by_cases hmn : m' = n
    · subst hmn
      simp only [hm]
      split
      · exact h
      · rename_i hw
        by_cases hk : k = k'
        · subst hk
          cases o with
          | true => exact absurd ⟨rfl, rfl, rfl⟩ hx
          | false => simp [hmk] at hw
        · simp [Abs.put, hk, hmk]
    · cases ha : a m' with
      | some m2 =>
        simp only
        split
        · exact h
        · simp [Abs.put, Ne.symm hmn, hm, hmk]
      | none =>
        simp only
        split
        · simp [Abs.put, Ne.symm hmn, hm, hmk]
        · exact h
  | removeKey m' k' =>
    simp only [Op.Touches] at hx
    simp only [Abs.after]
    by_cases hmn : m' = n
    · subst hmn
      have hk : k ≠ k' := fun hk => hx ⟨rfl, hk.symm⟩
      simp [hm, Abs.put, hk, hmk]
    · cases ha : a m' with
      | some m2 => simp [Abs.put, Ne.symm hmn, hm, hmk]
      | none => exact h

/-- A stored value was there before, or was offered. -/
theorem after_origin {a : Abs} {op : Op} {n k : List Char} {v : Value}
    (h : ((a.after op) n).bind (· k) = some v) : (a n).bind (· k) = some v ∨ op.Offers n k v := by
  cases op with
  | getDb _ => exact .inl h
  | allNames => exact .inl h
  | getValue _ _ => exact .inl h
  | newDb m' o =>
    simp only [Abs.after] at h
    split at h
    · by_cases hmn : n = m'
      · subst hmn
        cases o with
        | true => simp [Abs.put, Abs.empty] at h
        | false =>
          cases ha : a n with
          | some m => left; simpa [Abs.put, ha] using h
          | none => simp [Abs.put, ha, Abs.empty] at h
      · left; simpa [Abs.put, hmn] using h
    · exact .inl h
  | newDbWith m' o c =>
    simp only [Abs.after] at h
    by_cases hmn : n = m'
    · subst hmn
      simp only [Abs.put, if_pos, Option.bind_some] at h
      simp only [Op.Offers, true_and]
      have h' : Abs.extend (if o = true then Abs.empty else (a n).getD Abs.empty) c k = some v := by simpa using h
      simp only [Abs.extend] at h'
      cases hf : c.find? fun e => decide (e.1 = k) with
      | some e =>
        right
        rw [hf] at h'
        have h1 := List.mem_of_find?_eq_some hf
        have h2 := List.find?_some hf
        simp only [decide_eq_true_eq] at h2
        cases h'
        rw [← h2]
        exact h1
      | none =>
        left
        rw [hf] at h'
        simp only at h'
        cases o with
        | true => simp [Abs.empty] at h'
        | false =>
          cases ha : a n with
          | some m => simpa [ha] using h'
          | none => simp [ha, Abs.empty] at h'
    · left; simpa [Abs.put, hmn] using h
  | removeDb m' io =>
    simp only [Abs.after] at h
    by_cases hmn : n = m'
    · subst hmn; simp [Abs.put] at h
    · left; simpa [Abs.put, hmn] using h
  | clearDb m' =>
    simp only [Abs.after] at h
    cases ha : a m' with
    | some _ =>
      simp only [ha] at h
      by_cases hmn : n = m'
      · subst hmn; simp [Abs.put, Abs.empty] at h
      · left; simpa [Abs.put, hmn] using h
    | none => simp only [ha] at h; exact .inl h
  | addKv m' k' c o w =>
    simp only [Abs.after] at h
    simp only [Op.Offers]
    cases ha : a m' with
    | some m2 =>
      simp only [ha] at h
      split at h
      · exact .inl h
      · by_cases hmn : n = m'
        · subst hmn
          by_cases hk : k = k'
          · subst hk; right; simpa [Abs.put] using h
          · left; simpa [Abs.put, hk, ha] using h
        · left; simpa [Abs.put, hmn] using h
    | none =>
      simp only [ha] at h
      split at h
      · by_cases hmn : n = m'
        · subst hmn
          by_cases hk : k = k'
          · subst hk; right; simpa [Abs.put] using h
          · simp [Abs.put, hk, Abs.empty] at h
        · left; simpa [Abs.put, hmn] using h
      · exact .inl h
  | removeKey m' k' =>
    simp only [Abs.after] at h
    cases ha : a m' with
    | some m2 =>
      simp only [ha] at h
      by_cases hmn : n = m'
      · subst hmn
        by_cases hk : k = k'
        · subst hk; simp [Abs.put] at h
        · left; simpa [Abs.put, hk, ha] using h
      · left; simpa [Abs.put, hmn] using h
    | none => simp only [ha] at h; exact .inl h

theorem Explains.untouched {env : Env} {a b : Abs} {S : List (Nat × Op × Reply)} (h : Explains env a S b)
    {n k : List Char} {v : Value} (hx : ∀ x ∈ S, ¬ x.2.1.Touches n k) (hv : (a n).bind (· k) = some v) :
    (b n).bind (· k) = some v := by
  induction S generalizing a with
  | nil => cases h; exact hv
  | cons x S ih =>
    exact ih h.2 (fun y hy => hx y (List.mem_cons_of_mem x hy)) (after_untouched (hx x (by simp)) hv)

theorem Explains.origin {env : Env} {a b : Abs} {S : List (Nat × Op × Reply)} (h : Explains env a S b)
    {n k : List Char} {v : Value} (hv : (b n).bind (· k) = some v) :
    (a n).bind (· k) = some v ∨ ∃ x ∈ S, x.2.1.Offers n k v := by
  induction S generalizing a with
  | nil => cases h; exact .inl hv
  | cons x S ih =>
    rcases ih h.2 with h1 | ⟨y, hy, h1⟩
    · rcases after_origin h1 with h2 | h2
      · exact .inl h2
      · exact .inr ⟨x, by simp, h2⟩
    · exact .inr ⟨y, List.mem_cons_of_mem x hy, h1⟩

/-- What the reply to `get_value` says. -/
theorem Answers.value {env : Env} {a : Abs} {n k : List Char} {r : Reply} (h : a.Answers env (.getValue n k) r) :
    (∀ v, (a n).bind (· k) = some v ↔ r = .value v) ∧
    ((a n).bind (· k) = none ↔ r = .error .keyNotFound ∨ r = .error .databaseNotFound) := by
  simp only [Abs.Answers] at h
  cases ha : a n with
  | none => simp only [ha] at h; subst h; simp
  | some m =>
    simp only [ha] at h
    cases hk : m k with
    | none => simp only [hk] at h; subst h; simp [hk]
    | some v => simp only [hk] at h; subst h; simp [hk]

end Abs

/-- Operations executed one after another by a daemon without a cache do what they do to a map of maps. -/
theorem replay_explains {env : Env} (hb : HashOrder env.byteOrd) (hc : HashOrder env.charOrd)
    (hord : HashOrder env.mapOrd) {S : List (Nat × Op × Reply)} {dbs dbs' : Dbs} (h : DbsOk dbs)
    (hop : ∀ x ∈ S, x.2.1.Ok) (hr : replay env dbs (S.map fun x => x.2.1) = (S.map fun x => x.2.2, dbs')) :
    Abs.Explains env (Daemon.view ⟨dbs, []⟩) S (Daemon.view ⟨dbs', []⟩) := by
  induction S generalizing dbs with
  | nil =>
    simp only [List.map_nil, replay, Prod.mk.injEq, true_and] at hr
    subst hr
    exact rfl
  | cons x S ih =>
    simp only [List.map_cons, replay, Prod.mk.injEq, List.cons.injEq] at hr
    obtain ⟨⟨h1, h2⟩, h3⟩ := hr
    obtain ⟨h4, h5⟩ := exec_dbs (d := ⟨dbs, []⟩) hord h (hop x (by simp))
    refine ⟨?_, ?_⟩
    · rw [← h1]
      exact exec_answers hb hc (d := ⟨dbs, []⟩) h (by intro n b hn; cases hn) x.2.1
    · have := ih h4 (fun y hy => hop y (List.mem_cons_of_mem x hy)) (by rw [← h2, ← h3])
      have h5' : Daemon.view ⟨(Daemon.exec env x.2.1 ⟨dbs, []⟩).2.dbs, []⟩ = (Daemon.view ⟨dbs, []⟩).after x.2.1 := h5
      rw [h5'] at this
      exact this

/-- C39: under every interleaving the replies (except those of `get_db`) are explained by an order of the
operations on a map of maps, which agrees with the order of calls and replies, and the databases at the end
are its result. (`hops`: contents given to `add_db_with_content` are maps. The status of `add_db_with_content`
is only required to be a success; see C42.) -/
theorem C39_map_of_maps {env : Env} (hb : HashOrder env.byteOrd) (hc : HashOrder env.charOrd)
    (hord : HashOrder env.mapOrd) {dbs : Dbs} {tr : Trace} (h : Run env (Conf.init dbs) tr) (hd : DbsOk dbs)
    (hops : ∀ t op, .call t op ∈ tr.events → op.Ok) :
    ∃ S, Linearization env (Conf.init dbs) tr S ∧
      Abs.Explains env (Daemon.view ⟨dbs, []⟩) S (Daemon.view ⟨(Trace.last (Conf.init dbs) tr).dbs, []⟩) := by
  obtain ⟨S, hS⟩ := C39_linearizable h
  exact ⟨S, hS, replay_explains hb hc hord hd (fun x hx => hops _ _ (hS.called x hx).1) hS.legal⟩

/-- A member of a linearization before another one, when calls and replies say so. -/
theorem Linearization.between {env : Env} {c : Conf} {tr : Trace} {S : List (Nat × Op × Reply)}
    (hS : Linearization env c tr S) {x y : Nat × Op × Reply} (hx : x ∈ S) (hy : y ∈ S) {r : Reply} {op : Op}
    (h : Before tr.events (.ret x.1 r) (.call y.1 op)) (hne : x.1 ≠ y.1) :
    ∃ S₁ M S₂, S = S₁ ++ x :: (M ++ y :: S₂) ∧ ∀ z ∈ M, ¬ Apart tr.events x.1 y.1 z.1 := by
  obtain ⟨S₁, T, rfl⟩ := List.append_of_mem hx
  have h1 : y ∈ T := by
    rcases List.mem_append.mp hy with h2 | h2
    · exact absurd rfl (hS.realTime _ _ _ _ h S₁ x T rfl rfl y h2)
    · rcases List.mem_cons.mp h2 with h2 | h2
      · rw [h2] at hne; exact absurd rfl hne
      · exact h2
  obtain ⟨M, S₂, rfl⟩ := List.append_of_mem h1
  refine ⟨S₁, M, S₂, rfl, ?_⟩
  intro z hz hap
  obtain ⟨M₁, M₂, rfl⟩ := List.append_of_mem hz
  rcases hap with ⟨r', op', hap⟩ | ⟨r', op', hap⟩
  · exact hS.realTime _ _ _ _ hap (S₁ ++ x :: M₁) z (M₂ ++ y :: S₂) (by simp) rfl x (by simp) rfl
  · exact hS.realTime _ _ _ _ hap (S₁ ++ x :: (M₁ ++ z :: M₂)) y S₂ (by simp) rfl z (by simp) rfl

/-- The writes that are announced are done. -/
theorem Abs.Answers.wrote {env : Env} {a : Abs} {n k : List Char} {c o : Bool} {v : Value} {w : CreationResult}
    (h : a.Answers env (.addKv n k c o v) (.creation w)) (hw : w.Wrote) :
    ((a.after (.addKv n k c o v)) n).bind (· k) = some v := by
  simp only [Abs.Answers] at h
  simp only [Abs.after]
  cases ha : a n with
  | none =>
    simp only [ha, Reply.creation.injEq] at h
    subst h
    cases c with
    | true => simp [Abs.put]
    | false => simp [CreationResult.Wrote] at hw
  | some m =>
    simp only [ha] at h
    cases hk : (m k).isSome with
    | true =>
      simp only [hk, if_true, Reply.creation.injEq] at h
      subst h
      cases o with
      | true => simp [Abs.put]
      | false => simp [CreationResult.Wrote] at hw
    | false => simp [Abs.put, hk]

/-- C76: under every interleaving, whoever reads a key after a write of it was acknowledged gets the value
that was written, if every operation that could change or remove it (`Op.Touches`) was answered before the
write was called or called after the read was answered. -/
theorem C76_read {env : Env} (hb : HashOrder env.byteOrd) (hc : HashOrder env.charOrd)
    (hord : HashOrder env.mapOrd) {dbs : Dbs} {tr : Trace} (h : Run env (Conf.init dbs) tr) (hd : DbsOk dbs)
    (hops : ∀ t op, .call t op ∈ tr.events → op.Ok) {t t' : Nat} {n k : List Char} {c o : Bool} {v : Value}
    {w : CreationResult} {r : Reply} (hcall : .call t (.addKv n k c o v) ∈ tr.events) (hw : w.Wrote)
    (hafter : Before tr.events (.ret t (.creation w)) (.call t' (.getValue n k))) (hret : .ret t' r ∈ tr.events)
    (hapart : ∀ u op, .call u op ∈ tr.events → op.Touches n k → u ≠ t → Apart tr.events t t' u) :
    r = .value v := by
  obtain ⟨S, hS, hex⟩ := C39_map_of_maps hb hc hord h hd hops
  have hb1 : .ret t (.creation w) ∈ tr.events := by
    obtain ⟨l₁, l₂, e, h1, -⟩ := hafter; rw [e]; exact List.mem_append_left _ h1
  have hb2 : .call t' (.getValue n k) ∈ tr.events := by
    obtain ⟨l₁, l₂, e, -, h1⟩ := hafter; rw [e]; exact List.mem_append_right _ h1
  have hx := hS.complete _ _ _ hcall rfl hb1
  have hy := hS.complete _ _ _ hb2 rfl hret
  have hne : t ≠ t' := by
    rintro rfl
    have := List.inj_on_of_nodup_map hS.once hx hy rfl
    simp at this
  obtain ⟨S₁, M, S₂, hSeq, hM⟩ := hS.between hx hy hafter hne
  have hMt : ∀ z ∈ M, z.1 ≠ t := by
    intro z hz e
    have := hS.once
    rw [hSeq] at this
    simp only [List.map_append, List.map_cons] at this
    have h2 := (List.nodup_append.mp this).2.1
    rw [List.nodup_cons] at h2
    exact h2.1 (List.mem_append_left _ (by rw [← e]; exact List.mem_map_of_mem hz))
  rw [hSeq] at hex
  obtain ⟨a, -, hans, h2⟩ := hex.split
  obtain ⟨b, h3, hans', -⟩ := h2.split
  have hv : (b n).bind (· k) = some v := by
    refine h3.untouched ?_ (hans.wrote hw)
    intro z hz htouch
    have hzS : z ∈ S := by rw [hSeq]; simp [hz]
    exact hM z hz (hapart _ _ (hS.called z hzS).1 htouch (hMt z hz))
  exact (hans'.value.1 v).mp hv

/-- C76: and whoever reads a key after its removal was acknowledged does not find it, if every operation that
could store something under it was answered before the removal was called or called after the read was
answered. -/
theorem C76_removed {env : Env} (hb : HashOrder env.byteOrd) (hc : HashOrder env.charOrd)
    (hord : HashOrder env.mapOrd) {dbs : Dbs} {tr : Trace} (h : Run env (Conf.init dbs) tr) (hd : DbsOk dbs)
    (hops : ∀ t op, .call t op ∈ tr.events → op.Ok) {t t' : Nat} {n k : List Char} {op : Op} {q r : Reply}
    (hop : op = .removeKey n k ∨ op = .clearDb n ∨ ∃ io, op = .removeDb n io)
    (hcall : .call t op ∈ tr.events)
    (hafter : Before tr.events (.ret t q) (.call t' (.getValue n k))) (hret : .ret t' r ∈ tr.events)
    (hapart : ∀ u op v, .call u op ∈ tr.events → op.Offers n k v → Apart tr.events t t' u) :
    r = .error .keyNotFound ∨ r = .error .databaseNotFound := by
  obtain ⟨S, hS, hex⟩ := C39_map_of_maps hb hc hord h hd hops
  have hb1 : .ret t q ∈ tr.events := by
    obtain ⟨l₁, l₂, e, h1, -⟩ := hafter; rw [e]; exact List.mem_append_left _ h1
  have hb2 : .call t' (.getValue n k) ∈ tr.events := by
    obtain ⟨l₁, l₂, e, -, h1⟩ := hafter; rw [e]; exact List.mem_append_right _ h1
  have hx := hS.complete _ _ _ hcall (by rcases hop with rfl | rfl | ⟨io, rfl⟩ <;> rfl) hb1
  have hy := hS.complete _ _ _ hb2 rfl hret
  have hne : t ≠ t' := by
    rintro rfl
    have := List.inj_on_of_nodup_map hS.once hx hy rfl
    rcases hop with rfl | rfl | ⟨io, rfl⟩ <;> simp at this
  obtain ⟨S₁, M, S₂, hSeq, hM⟩ := hS.between hx hy hafter hne
  rw [hSeq] at hex
  obtain ⟨a, -, -, h2⟩ := hex.split
  obtain ⟨b, h3, hans', -⟩ := h2.split
  refine hans'.value.2.mp ?_
  cases hv : (b n).bind (· k) with
  | none => rfl
  | some v =>
    exfalso
    rcases h3.origin hv with h4 | ⟨z, hz, h4⟩
    · rcases hop with rfl | rfl | ⟨io, rfl⟩
      · simp only [Abs.after] at h4
        cases ha : a n with
        | none => simp [ha] at h4
        | some m => simp [ha, Abs.put] at h4
      · simp only [Abs.after] at h4
        cases ha : a n with
        | none => simp [ha] at h4
        | some m => simp [ha, Abs.put, Abs.empty] at h4
      · simp [Abs.after, Abs.put] at h4
    · have hzS : z ∈ S := by rw [hSeq]; simp [hz]
      exact hM z hz (hapart _ _ _ (hS.called z hzS).1 h4)

/-- C76: under every interleaving, a value that a read of a key gets was there at the beginning, or was sent
for that key by an operation that was called before the read was answered. -/
theorem C76_real {env : Env} (hb : HashOrder env.byteOrd) (hc : HashOrder env.charOrd)
    (hord : HashOrder env.mapOrd) {dbs : Dbs} {tr : Trace} (h : Run env (Conf.init dbs) tr) (hd : DbsOk dbs)
    (hops : ∀ t op, .call t op ∈ tr.events → op.Ok) {t : Nat} {n k : List Char} {v : Value}
    (hcall : .call t (.getValue n k) ∈ tr.events) (hret : .ret t (.value v) ∈ tr.events) :
    (Daemon.view ⟨dbs, []⟩ n).bind (· k) = some v ∨
    ∃ u op, .call u op ∈ tr.events ∧ op.Offers n k v ∧ ¬ Before tr.events (.ret t (.value v)) (.call u op) := by
  obtain ⟨S, hS, hex⟩ := C39_map_of_maps hb hc hord h hd hops
  have hy := hS.complete _ _ _ hcall rfl hret
  obtain ⟨S₁, S₂, hSeq⟩ := List.append_of_mem hy
  rw [hSeq] at hex
  obtain ⟨b, h3, hans', -⟩ := hex.split
  rcases h3.origin ((hans'.value.1 v).mpr rfl) with h4 | ⟨z, hz, h4⟩
  · exact .inl h4
  · right
    refine ⟨z.1, z.2.1, (hS.called z (by rw [hSeq]; simp [hz])).1, h4, ?_⟩
    intro hbef
    exact hS.realTime _ _ _ _ hbef S₁ _ S₂ hSeq rfl z hz rfl

/-- The hypotheses of `C76_read`: a write of a key that exists, an earlier write of it that was answered before,
and a later one that is called after the read. -/
example : ∃ tr : Trace, Run sampleEnv (Conf.init [(Stale.d, [])]) tr ∧
    .call 2 (.addKv Stale.d Stale.k false true (.boolean true)) ∈ tr.events ∧
    Before tr.events (.ret 2 (.creation .overwroteKeyInExistingDB)) (.call 3 (.getValue Stale.d Stale.k)) ∧
    .ret 3 (.value (.boolean true)) ∈ tr.events ∧
    ∀ u op, .call u op ∈ tr.events → op.Touches Stale.d Stale.k → u ≠ 2 → Apart tr.events 2 3 u := by
  have hrun : ∃ tr : Trace, Run sampleEnv (Conf.init [(Stale.d, [])]) tr ∧ tr.events =
      [.call 1 (.addKv Stale.d Stale.k false true .null), .invalidate 1, .acquire 1, .act 1,
        .ret 1 (.creation .insertedKeyIntoExistingDB)] ++
      ([.call 2 (.addKv Stale.d Stale.k false true (.boolean true)), .invalidate 2, .acquire 2, .act 2,
        .ret 2 (.creation .overwroteKeyInExistingDB)] ++
      ([.call 3 (.getValue Stale.d Stale.k), .acquire 3, .act 3, .ret 3 (.value (.boolean true))] ++
      [.call 4 (.removeKey Stale.d Stale.k)])) :=
    ⟨_,
      (.cons (.call (t := 1) (.addKv Stale.d Stale.k false true .null) rfl)
      (.cons (.invalidate (t := 1) (op := (.addKv Stale.d Stale.k false true .null)) rfl rfl)
      (.cons (.acquire (t := 1) (op := (.addKv Stale.d Stale.k false true .null)) (pc := .invalidated) rfl rfl rfl)
      (.cons (.act (t := 1) (op := (.addKv Stale.d Stale.k false true .null)) rfl)
      (.cons (.ret (t := 1) (op := (.addKv Stale.d Stale.k false true .null)) (pc := .acted (.creation .insertedKeyIntoExistingDB)) rfl rfl)
      (.cons (.call (t := 2) (.addKv Stale.d Stale.k false true (.boolean true)) rfl)
      (.cons (.invalidate (t := 2) (op := (.addKv Stale.d Stale.k false true (.boolean true))) rfl rfl)
      (.cons (.acquire (t := 2) (op := (.addKv Stale.d Stale.k false true (.boolean true))) (pc := .invalidated) rfl rfl rfl)
      (.cons (.act (t := 2) (op := (.addKv Stale.d Stale.k false true (.boolean true))) rfl)
      (.cons (.ret (t := 2) (op := (.addKv Stale.d Stale.k false true (.boolean true))) (pc := .acted (.creation .overwroteKeyInExistingDB)) rfl rfl)
      (.cons (.call (t := 3) (.getValue Stale.d Stale.k) rfl)
      (.cons (.acquire (t := 3) (op := (.getValue Stale.d Stale.k)) (pc := .start) rfl rfl rfl)
      (.cons (.act (t := 3) (op := (.getValue Stale.d Stale.k)) rfl)
      (.cons (.ret (t := 3) (op := (.getValue Stale.d Stale.k)) (pc := .acted (.value (.boolean true))) rfl rfl)
      (.cons (.call (t := 4) (.removeKey Stale.d Stale.k) rfl)
      .nil))))))))))))))), rfl⟩
  obtain ⟨tr, h, e⟩ := hrun
  refine ⟨tr, h, ?_⟩
  rw [e]
  refine ⟨by simp, ⟨_, _, (List.append_assoc _ _ _).symm, by simp, by simp⟩, by simp, ?_⟩
  intro u op hu ht hne
  simp only [List.cons_append, List.nil_append, List.mem_cons, reduceCtorEq, Ev.call.injEq, List.not_mem_nil,
    or_false, false_or] at hu
  rcases hu with ⟨rfl, rfl⟩ | ⟨rfl, rfl⟩ | ⟨rfl, rfl⟩ | ⟨rfl, rfl⟩
  · exact .inl ⟨.creation .insertedKeyIntoExistingDB, .addKv Stale.d Stale.k false true (.boolean true), _, _, rfl,
      by simp, by simp⟩
  · exact absurd rfl hne
  · exact ht.elim
  · exact .inr ⟨.value (.boolean true), .removeKey Stale.d Stale.k, _ ++ (_ ++ _), _,
      ((List.append_assoc _ _ _).trans (congrArg _ (List.append_assoc _ _ _))).symm, by simp, by simp⟩

end Souris
