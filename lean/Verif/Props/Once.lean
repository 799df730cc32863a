import Verif.Spec.Once
import Verif.Props.Reads

/-! # C109: of concurrent additions of a key one is the first, of concurrent removals one removes -/

namespace Souris

namespace Abs

/-- A key that is there stays, with some value, as long as nothing removes it. -/
theorem after_present {a : Abs} {op : Op} {n k : List Char} (hx : ¬ op.Removes n k)
    (h : ((a n).bind (· k)).isSome) : (((a.after op) n).bind (· k)).isSome := by
  obtain ⟨v, hv⟩ := Option.isSome_iff_exists.mp h
  obtain ⟨m, hm, hmk⟩ := Option.bind_eq_some_iff.mp hv
  by_cases ht : op.Touches n k
  · cases op with
    | getDb _ => exact ht.elim
    | allNames => exact ht.elim
    | getValue _ _ => exact ht.elim
    | newDb m' o => exact absurd ht hx
    | clearDb m' => exact absurd ht hx
    | removeDb m' io => exact absurd ht hx
    | removeKey m' k' => exact absurd ht hx
    | addKv m' k' c o w =>
      obtain ⟨rfl, rfl, rfl⟩ := ht
      simp [Abs.after, hm, Abs.put]
    | newDbWith m' o c =>
      have e : m' = n := ht
      subst e
      simp only [Abs.after, Abs.put, if_true, Option.bind_some, Abs.extend]
      cases hf : c.find? fun e => decide (e.1 = k) with
      | some e => simp
      | none =>
        cases o with
        | false => simp [hm, hmk]
        | true =>
          refine absurd ⟨rfl, rfl, ?_⟩ hx
          intro hk
          obtain ⟨e, he, rfl⟩ := List.mem_map.mp hk
          have := List.find?_eq_none.mp hf e he
          simp at this
  · rw [after_untouched ht hv]
    rfl

theorem Explains.present {env : Env} {a b : Abs} {S : List (Nat × Op × Reply)} (h : Explains env a S b)
    {n k : List Char} (hx : ∀ x ∈ S, ¬ x.2.1.Removes n k) (hv : ((a n).bind (· k)).isSome) :
    ((b n).bind (· k)).isSome := by
  induction S generalizing a with
  | nil => cases h; exact hv
  | cons x S ih =>
    exact ih h.2 (fun y hy => hx y (List.mem_cons_of_mem x hy)) (after_present (hx x (by simp)) hv)

/-- A database that is there stays as long as it is not removed. -/
theorem after_exists {a : Abs} {op : Op} {n : List Char} (hx : ∀ io, op ≠ .removeDb n io) (h : (a n).isSome) :
    ((a.after op) n).isSome := by
  have hput : ∀ (m : List Char) (y : AbsDb), (Abs.put a m (some y) n).isSome := by
    intro m y
    unfold Abs.put
    split
    · rfl
    · exact h
  cases op with
  | removeDb m io =>
    have hm : n ≠ m := fun e => hx io (by rw [e])
    simpa [Abs.after, Abs.put, hm] using h
  | getDb _ => exact h
  | allNames => exact h
  | getValue _ _ => exact h
  | newDb m o => simp only [Abs.after]; split <;> first | exact hput _ _ | exact h
  | newDbWith m o c => exact hput _ _
  | clearDb m => simp only [Abs.after]; cases a m <;> first | exact hput _ _ | exact h
  | removeKey m k => simp only [Abs.after]; cases a m <;> first | exact hput _ _ | exact h
  | addKv m k c o v => simp only [Abs.after]; cases a m <;> dsimp only <;> split <;> first | exact hput _ _ | exact h

theorem Explains.exists {env : Env} {a b : Abs} {S : List (Nat × Op × Reply)} (h : Explains env a S b)
    {n : List Char} (hx : ∀ x ∈ S, ∀ io, x.2.1 ≠ .removeDb n io) (hv : (a n).isSome) : (b n).isSome := by
  induction S generalizing a with
  | nil => cases h; exact hv
  | cons x S ih =>
    exact ih h.2 (fun y hy => hx y (List.mem_cons_of_mem x hy)) (after_exists (hx x (by simp)) hv)

/-- A creation that succeeds finds no database, and leaves one. -/
theorem Answers.created {env : Env} {a : Abs} {n : List Char} {o : Bool} (h : a.Answers env (.newDb n o) (.status 201)) :
    a n = none ∧ ((a.after (.newDb n o)) n).isSome := by
  simp only [Abs.Answers] at h
  simp only [Abs.after]
  split at h
  · rename_i hg
    cases ha : a n with
    | none => simp [hg, Abs.put]
    | some m => simp [ha] at h
  · cases h

/-- An addition that is told to be the first one found nothing, and leaves its value. -/
theorem Answers.inserted {env : Env} {a : Abs} {n k : List Char} {c o : Bool} {v : Value} {w : CreationResult}
    (h : a.Answers env (.addKv n k c o v) (.creation w)) (hw : w.Inserted) :
    (a n).bind (· k) = none ∧ ((a.after (.addKv n k c o v)) n).bind (· k) = some v := by
  refine ⟨?_, h.wrote (by cases w <;> trivial)⟩
  simp only [Abs.Answers] at h
  cases ha : a n with
  | none => rfl
  | some m =>
    simp only [ha] at h
    cases hk : m k with
    | none => simp [hk]
    | some v' =>
      simp only [hk, Option.isSome_some, if_true, Reply.creation.injEq] at h
      subst h
      cases o <;> exact hw.elim

/-- An addition that is told that there is a value already found one. -/
theorem Answers.found {env : Env} {a : Abs} {n k : List Char} {c o : Bool} {v : Value}
    (h : a.Answers env (.addKv n k c o v) (.creation .foundExistingKey)) : ((a n).bind (· k)).isSome := by
  simp only [Abs.Answers] at h
  cases ha : a n with
  | none => simp only [ha] at h; cases c <;> simp at h
  | some m =>
    simp only [ha] at h
    cases hk : m k with
    | none => simp [hk] at h
    | some v' => simp [hk]

/-- A removal that succeeds found a value, and leaves none. -/
theorem Answers.taken {env : Env} {a : Abs} {n k : List Char} {s : Nat}
    (h : a.Answers env (.removeKey n k) (.status s)) :
    ((a n).bind (· k)).isSome ∧ ((a.after (.removeKey n k)) n).bind (· k) = none := by
  simp only [Abs.Answers] at h
  cases ha : a n with
  | none => simp only [ha] at h; cases h
  | some m =>
    simp only [ha] at h
    cases hk : m k with
    | none => simp [hk] at h
    | some v' => simp [hk, Abs.after, ha, Abs.put]

/-- The first value under a key came with an addition that was told so. -/
theorem Explains.first {env : Env} {a b : Abs} {S : List (Nat × Op × Reply)} (h : Explains env a S b)
    {n k : List Char} (hx : ∀ x ∈ S, ¬ x.2.1.Touches n k) (ha : (a n).bind (· k) = none)
    {v : Value} (hb : (b n).bind (· k) = some v) :
    ∃ x ∈ S, ∃ c w, x.2 = (.addKv n k c false v, .creation w) ∧ w.Inserted := by
  induction S generalizing a with
  | nil => cases h; rw [ha] at hb; cases hb
  | cons x S ih =>
    have hx' : ∀ y ∈ S, ¬ y.2.1.Touches n k := fun y hy => hx y (List.mem_cons_of_mem x hy)
    cases hm : ((a.after x.2.1) n).bind (· k) with
    | none =>
      obtain ⟨y, hy, h1⟩ := ih h.2 hx' hm
      exact ⟨y, List.mem_cons_of_mem x hy, h1⟩
    | some v' =>
      have e := h.2.untouched hx' hm
      rw [hb] at e
      cases e
      refine ⟨x, by simp, ?_⟩
      obtain ⟨t, op, r⟩ := x
      have ho : op.Offers n k v := (after_origin hm).resolve_left (by rw [ha]; simp)
      have ht := hx _ (List.mem_cons_self ..)
      have hans := h.1
      simp only at ht hm hans
      cases op with
      | newDbWith m' o c => exact absurd ho.1 ht
      | addKv m' k' c o w =>
        obtain ⟨rfl, rfl, rfl⟩ := ho
        cases o with
        | true => exact absurd ⟨rfl, rfl, rfl⟩ ht
        | false =>
          simp only [Abs.Answers] at hans
          cases hn : a m' with
          | none =>
            simp only [hn] at hans
            cases c with
            | true => exact ⟨true, .insertedKeyIntoNewDB, by rw [hans]; simp, trivial⟩
            | false => simp [Abs.after, hn] at hm
          | some m =>
            simp only [hn, Option.bind_some] at ha
            simp only [hn, ha] at hans
            exact ⟨c, .insertedKeyIntoExistingDB, congrArg _ hans, trivial⟩
      | _ => exact ho.elim

end Abs

/-- Of two members of a linearization one comes first, and what is between them was not kept apart from both. -/
theorem Linearization.ordered {env : Env} {c : Conf} {tr : Trace} {S : List (Nat × Op × Reply)}
    (hS : Linearization env c tr S) {x y : Nat × Op × Reply} (hx : x ∈ S) (hy : y ∈ S) (hne : x.1 ≠ y.1) :
    (∃ S₁ M S₂, S = S₁ ++ x :: (M ++ y :: S₂) ∧ ∀ z ∈ M, ¬ Apart tr.events x.1 y.1 z.1) ∨
    (∃ S₁ M S₂, S = S₁ ++ y :: (M ++ x :: S₂) ∧ ∀ z ∈ M, ¬ Apart tr.events y.1 x.1 z.1) := by
  have key : ∀ (x y : Nat × Op × Reply) S₁ M S₂, S = S₁ ++ x :: (M ++ y :: S₂) →
      ∀ z ∈ M, ¬ Apart tr.events x.1 y.1 z.1 := by
    intro x y S₁ M S₂ e z hz hap
    obtain ⟨M₁, M₂, rfl⟩ := List.append_of_mem hz
    rcases hap with ⟨r', op', hap⟩ | ⟨r', op', hap⟩
    · exact hS.realTime _ _ _ _ hap (S₁ ++ x :: M₁) z (M₂ ++ y :: S₂) (by simp [e]) rfl x (by simp) rfl
    · exact hS.realTime _ _ _ _ hap (S₁ ++ x :: (M₁ ++ z :: M₂)) y S₂ (by simp [e]) rfl z (by simp) rfl
  obtain ⟨S₁, T, e⟩ := List.append_of_mem hx
  rw [e] at hy
  rcases List.mem_append.mp hy with h1 | h1
  · obtain ⟨A, M, rfl⟩ := List.append_of_mem h1
    exact .inr ⟨A, M, T, by simp [e], key _ _ A M T (by simp [e])⟩
  · rcases List.mem_cons.mp h1 with h1 | h1
    · exact absurd (congrArg Prod.fst h1).symm hne
    · obtain ⟨M, B, rfl⟩ := List.append_of_mem h1
      exact .inl ⟨S₁, M, B, e, key _ _ S₁ M B e⟩

section

variable {env : Env} {dbs : Dbs} {tr : Trace}

/-- C109, additions: under every interleaving, when two additions of the same key are both told that there was nothing under
it, then some operation that removes the key was carried out between them: it was neither over before the one was called nor
called after the other was over. -/
theorem C109_one (hb : HashOrder env.byteOrd) (hc : HashOrder env.charOrd) (hord : HashOrder env.mapOrd)
    (h : Run env (Conf.init dbs) tr) (hd : DbsOk dbs) (hops : ∀ t op, .call t op ∈ tr.events → op.Ok)
    {t t' : Nat} {n k : List Char} {c o c' o' : Bool} {v v' : Value} {w w' : CreationResult} (hne : t ≠ t')
    (h1 : .call t (.addKv n k c o v) ∈ tr.events) (h2 : .ret t (.creation w) ∈ tr.events) (hw : w.Inserted)
    (h1' : .call t' (.addKv n k c' o' v') ∈ tr.events) (h2' : .ret t' (.creation w') ∈ tr.events) (hw' : w'.Inserted) :
    ∃ u op, .call u op ∈ tr.events ∧ op.Removes n k ∧ (¬ Apart tr.events t t' u ∨ ¬ Apart tr.events t' t u) := by
  obtain ⟨S, hS, hex⟩ := C39_map_of_maps hb hc hord h hd hops
  have key : ∀ (x y : Nat × Op × Reply) c o v w c' o' v' w' S₁ M S₂, x.2 = (.addKv n k c o v, .creation w) →
      y.2 = (.addKv n k c' o' v', .creation w') → w.Inserted → w'.Inserted → S = S₁ ++ x :: (M ++ y :: S₂) →
      ∃ z ∈ M, z.2.1.Removes n k := by
    rintro ⟨t, op, r⟩ ⟨t', op', r'⟩ c o v w c' o' v' w' S₁ M S₂ ex ey hw hw' rfl
    cases ex; cases ey
    obtain ⟨a, -, ha, h3⟩ := hex.split
    obtain ⟨b, h4, hb', -⟩ := h3.split
    by_contra hno
    simp only [not_exists, not_and] at hno
    have := h4.present hno (by rw [(ha.inserted hw).2]; rfl)
    rw [(hb'.inserted hw').1] at this
    cases this
  have hx := hS.complete _ _ _ h1 rfl h2
  have hy := hS.complete _ _ _ h1' rfl h2'
  rcases hS.ordered hx hy hne with ⟨S₁, M, S₂, e, hM⟩ | ⟨S₁, M, S₂, e, hM⟩
  · obtain ⟨z, hz, hr⟩ := key _ _ _ _ _ _ _ _ _ _ _ _ _ rfl rfl hw hw' e
    exact ⟨z.1, z.2.1, (hS.called z (by rw [e]; simp [hz])).1, hr, .inl (hM z hz)⟩
  · obtain ⟨z, hz, hr⟩ := key _ _ _ _ _ _ _ _ _ _ _ _ _ rfl rfl hw' hw e
    exact ⟨z.1, z.2.1, (hS.called z (by rw [e]; simp [hz])).1, hr, .inr (hM z hz)⟩

/-- C109, removals: when two removals of the same key both succeed, then some operation that stores something under the key
was carried out between them. -/
theorem C109_taken (hb : HashOrder env.byteOrd) (hc : HashOrder env.charOrd) (hord : HashOrder env.mapOrd)
    (h : Run env (Conf.init dbs) tr) (hd : DbsOk dbs) (hops : ∀ t op, .call t op ∈ tr.events → op.Ok)
    {t t' : Nat} {n k : List Char} {s s' : Nat} (hne : t ≠ t')
    (h1 : .call t (.removeKey n k) ∈ tr.events) (h2 : .ret t (.status s) ∈ tr.events)
    (h1' : .call t' (.removeKey n k) ∈ tr.events) (h2' : .ret t' (.status s') ∈ tr.events) :
    ∃ u op v, .call u op ∈ tr.events ∧ op.Offers n k v ∧ (¬ Apart tr.events t t' u ∨ ¬ Apart tr.events t' t u) := by
  obtain ⟨S, hS, hex⟩ := C39_map_of_maps hb hc hord h hd hops
  have key : ∀ (x y : Nat × Op × Reply) s s' S₁ M S₂, x.2 = (.removeKey n k, .status s) →
      y.2 = (.removeKey n k, .status s') → S = S₁ ++ x :: (M ++ y :: S₂) → ∃ z ∈ M, ∃ v, z.2.1.Offers n k v := by
    rintro ⟨t, op, r⟩ ⟨t', op', r'⟩ s s' S₁ M S₂ ex ey rfl
    cases ex; cases ey
    obtain ⟨a, -, ha, h3⟩ := hex.split
    obtain ⟨b, h4, hb', -⟩ := h3.split
    obtain ⟨v, hv⟩ := Option.isSome_iff_exists.mp hb'.taken.1
    rcases h4.origin hv with h5 | ⟨z, hz, h5⟩
    · rw [ha.taken.2] at h5; cases h5
    · exact ⟨z, hz, v, h5⟩
  have hx := hS.complete _ _ _ h1 rfl h2
  have hy := hS.complete _ _ _ h1' rfl h2'
  rcases hS.ordered hx hy hne with ⟨S₁, M, S₂, e, hM⟩ | ⟨S₁, M, S₂, e, hM⟩
  · obtain ⟨z, hz, v, hr⟩ := key _ _ _ _ _ _ _ rfl rfl e
    exact ⟨z.1, z.2.1, v, (hS.called z (by rw [e]; simp [hz])).1, hr, .inl (hM z hz)⟩
  · obtain ⟨z, hz, v, hr⟩ := key _ _ _ _ _ _ _ rfl rfl e
    exact ⟨z.1, z.2.1, v, (hS.called z (by rw [e]; simp [hz])).1, hr, .inr (hM z hz)⟩

/-- C109, databases: when two `add_db` of the same name are both answered with 201 (created), then a removal of the database
was carried out between them. -/
theorem C109_created (hb : HashOrder env.byteOrd) (hc : HashOrder env.charOrd) (hord : HashOrder env.mapOrd)
    (h : Run env (Conf.init dbs) tr) (hd : DbsOk dbs) (hops : ∀ t op, .call t op ∈ tr.events → op.Ok)
    {t t' : Nat} {n : List Char} {o o' : Bool} (hne : t ≠ t')
    (h1 : .call t (.newDb n o) ∈ tr.events) (h2 : .ret t (.status 201) ∈ tr.events)
    (h1' : .call t' (.newDb n o') ∈ tr.events) (h2' : .ret t' (.status 201) ∈ tr.events) :
    ∃ u io, .call u (.removeDb n io) ∈ tr.events ∧ (¬ Apart tr.events t t' u ∨ ¬ Apart tr.events t' t u) := by
  obtain ⟨S, hS, hex⟩ := C39_map_of_maps hb hc hord h hd hops
  have key : ∀ (x y : Nat × Op × Reply) o o' S₁ M S₂, x.2 = (.newDb n o, .status 201) →
      y.2 = (.newDb n o', .status 201) → S = S₁ ++ x :: (M ++ y :: S₂) → ∃ z ∈ M, ∃ io, z.2.1 = .removeDb n io := by
    rintro ⟨t, op, r⟩ ⟨t', op', r'⟩ o o' S₁ M S₂ ex ey rfl
    cases ex; cases ey
    obtain ⟨a, -, ha, h3⟩ := hex.split
    obtain ⟨b, h4, hb', -⟩ := h3.split
    by_contra hno
    simp only [not_exists, not_and] at hno
    have := h4.exists hno ha.created.2
    rw [hb'.created.1] at this
    cases this
  have hx := hS.complete _ _ _ h1 rfl h2
  have hy := hS.complete _ _ _ h1' rfl h2'
  rcases hS.ordered hx hy hne with ⟨S₁, M, S₂, e, hM⟩ | ⟨S₁, M, S₂, e, hM⟩
  · obtain ⟨z, hz, io, hr⟩ := key _ _ _ _ _ _ _ rfl rfl e
    exact ⟨z.1, io, hr ▸ (hS.called z (by rw [e]; simp [hz])).1, .inl (hM z hz)⟩
  · obtain ⟨z, hz, io, hr⟩ := key _ _ _ _ _ _ _ rfl rfl e
    exact ⟨z.1, io, hr ▸ (hS.called z (by rw [e]; simp [hz])).1, .inr (hM z hz)⟩

/-- C109, the value of the first one stays: when an addition is told that there was nothing under the key, and nothing in the
run changes or removes what is under it, then every other addition that got an answer was told that it found the key, or that
there was no database yet; whoever reads a value under the key, whenever, reads the first one's; and that is what is under
it in the end. -/
theorem C109_winner (hb : HashOrder env.byteOrd) (hc : HashOrder env.charOrd) (hord : HashOrder env.mapOrd)
    (h : Run env (Conf.init dbs) tr) (hd : DbsOk dbs) (hops : ∀ t op, .call t op ∈ tr.events → op.Ok)
    {t : Nat} {n k : List Char} {c o : Bool} {v : Value} {w : CreationResult}
    (h1 : .call t (.addKv n k c o v) ∈ tr.events) (h2 : .ret t (.creation w) ∈ tr.events) (hw : w.Inserted)
    (hx : ∀ u op, .call u op ∈ tr.events → ¬ op.Touches n k) :
    (∀ u c' o' v' r, u ≠ t → .call u (.addKv n k c' o' v') ∈ tr.events → .ret u r ∈ tr.events →
      r = .creation .foundExistingKey ∨ r = .creation .unableToFindDB) ∧
    (∀ u v', .call u (.getValue n k) ∈ tr.events → .ret u (.value v') ∈ tr.events → v' = v) ∧
    (Daemon.view ⟨(Trace.last (Conf.init dbs) tr).dbs, []⟩ n).bind (· k) = some v := by
  obtain ⟨S, hS, hex⟩ := C39_map_of_maps hb hc hord h hd hops
  have hx' : ∀ z ∈ S, ¬ z.2.1.Touches n k := fun z hz => hx _ _ (hS.called z hz).1
  have ht := hS.complete _ _ _ h1 rfl h2
  obtain ⟨S₁, S₂, e⟩ := List.append_of_mem ht
  obtain ⟨a, h3, h4, h5⟩ := (e ▸ hex).split
  have hz1 : ∀ z ∈ S₁, ¬ z.2.1.Touches n k := fun z hz => hx' z (by rw [e]; simp [hz])
  have hz2 : ∀ z ∈ S₂, ¬ z.2.1.Touches n k := fun z hz => hx' z (by rw [e]; simp [hz])
  obtain ⟨hnone, hsome⟩ := h4.inserted hw
  have hother : ∀ u op r, .call u op ∈ tr.events → op.isGetDb = false → .ret u r ∈ tr.events →
      (u, op, r) ∈ S₁ ∨ (u, op, r) = (t, .addKv n k c o v, .creation w) ∨ (u, op, r) ∈ S₂ := by
    intro u op r hu hg hr
    have := hS.complete _ _ _ hu hg hr
    rw [e] at this
    simpa using this
  refine ⟨?_, ?_, h5.untouched hz2 hsome⟩
  · intro u c' o' v' r hne hu hr
    have ho : o' = false := by
      cases o' with
      | false => rfl
      | true => exact absurd ⟨rfl, rfl, rfl⟩ (hx _ _ hu)
    subst ho
    rcases hother _ _ _ hu rfl hr with hm | hm | hm
    · obtain ⟨A, B, eA⟩ := List.append_of_mem hm
      obtain ⟨a', -, h6, h7⟩ := (eA ▸ h3).split
      have hB : ∀ z ∈ B, ¬ z.2.1.Touches n k := fun z hz => hz1 z (by rw [eA]; simp [hz])
      have hafter : ((a'.after (.addKv n k c' false v')) n).bind (· k) = none := by
        cases hv : ((a'.after (.addKv n k c' false v')) n).bind (· k) with
        | none => rfl
        | some v'' =>
          have := h7.untouched hB hv
          rw [hnone] at this
          cases this
      have h6' : a'.Answers env (.addKv n k c' false v') r := h6
      simp only [Abs.Answers] at h6'
      simp only [Abs.after] at hafter
      cases hn : a' n with
      | none =>
        simp only [hn] at h6' hafter
        cases c' with
        | false => exact .inr h6'
        | true => simp [Abs.put] at hafter
      | some m =>
        simp only [hn] at h6' hafter
        cases hk : m k with
        | some _ => simp only [hk, Option.isSome_some, if_true] at h6'; exact .inl h6'
        | none => simp [hk, Abs.put] at hafter
    · exact absurd (congrArg Prod.fst hm) hne
    · obtain ⟨A, B, eA⟩ := List.append_of_mem hm
      obtain ⟨a', h6, h7, -⟩ := (eA ▸ h5).split
      have hv := h6.untouched (fun z hz => hz2 z (by rw [eA]; simp [hz])) hsome
      obtain ⟨m, hm, hmk⟩ := Option.bind_eq_some_iff.mp hv
      have h7' : a'.Answers env (.addKv n k c' false v') r := h7
      simp only [Abs.Answers, hm, hmk, Option.isSome_some, if_true] at h7'
      exact .inl h7'
  · intro u v' hu hr
    rcases hother _ _ _ hu rfl hr with hm | hm | hm
    · obtain ⟨A, B, eA⟩ := List.append_of_mem hm
      obtain ⟨a', -, h6, h7⟩ := (eA ▸ h3).split
      have h6' : a'.Answers env (.getValue n k) (.value v') := h6
      have := h7.untouched (fun z hz => hz1 z (by rw [eA]; simp [hz])) ((h6'.value.1 v').mpr rfl)
      rw [hnone] at this
      cases this
    · cases hm
    · obtain ⟨A, B, eA⟩ := List.append_of_mem hm
      obtain ⟨a', h6, h7, -⟩ := (eA ▸ h5).split
      have h7' : a'.Answers env (.getValue n k) (.value v') := h7
      have hv := h6.untouched (fun z hz => hz2 z (by rw [eA]; simp [hz])) hsome
      rw [(h7'.value.1 v').mpr rfl] at hv
      exact Option.some.inj hv

/-- C109, there is a first one: when an addition is told that it found the key, which was not there at the beginning, and
nothing in the run changes or removes what is under it, then some other addition was the first: its value is what is under
the key in the end, and if it got an answer, it was told that it is the first. -/
theorem C109_someone (hb : HashOrder env.byteOrd) (hc : HashOrder env.charOrd) (hord : HashOrder env.mapOrd)
    (h : Run env (Conf.init dbs) tr) (hd : DbsOk dbs) (hops : ∀ t op, .call t op ∈ tr.events → op.Ok)
    {t : Nat} {n k : List Char} {c o : Bool} {v : Value}
    (h1 : .call t (.addKv n k c o v) ∈ tr.events) (h2 : .ret t (.creation .foundExistingKey) ∈ tr.events)
    (h0 : (Daemon.view ⟨dbs, []⟩ n).bind (· k) = none) (hx : ∀ u op, .call u op ∈ tr.events → ¬ op.Touches n k) :
    ∃ u c' v', u ≠ t ∧ .call u (.addKv n k c' false v') ∈ tr.events ∧
      (∀ r, .ret u r ∈ tr.events → ∃ w, r = .creation w ∧ w.Inserted) ∧
      (Daemon.view ⟨(Trace.last (Conf.init dbs) tr).dbs, []⟩ n).bind (· k) = some v' := by
  obtain ⟨S, hS, hex⟩ := C39_map_of_maps hb hc hord h hd hops
  have hx' : ∀ z ∈ S, ¬ z.2.1.Touches n k := fun z hz => hx _ _ (hS.called z hz).1
  have ht := hS.complete _ _ _ h1 rfl h2
  obtain ⟨S₁, S₂, e⟩ := List.append_of_mem ht
  obtain ⟨a, h3, h4⟩ := (e ▸ hex).split
  obtain ⟨v', hv⟩ := Option.isSome_iff_exists.mp h4.1.found
  obtain ⟨⟨u, op, r⟩, hy, c', w, ey, hw⟩ := h3.first (fun z hz => hx' z (by rw [e]; simp [hz])) h0 hv
  cases ey
  have hyS : (u, Op.addKv n k c' false v', Reply.creation w) ∈ S := by rw [e]; simp [hy]
  refine ⟨u, c', v', ?_, (hS.called _ hyS).1, ?_, h4.untouched (fun z hz => hx' z (by rw [e]; exact List.mem_append_right _ hz)) hv⟩
  · rintro rfl
    have := List.inj_on_of_nodup_map hS.once ht hyS rfl
    simp only [Prod.mk.injEq, Reply.creation.injEq] at this
    rw [← this.2.2] at hw
    exact hw.elim
  · intro r hr
    have := List.inj_on_of_nodup_map hS.once (hS.complete _ _ _ (hS.called _ hyS).1 rfl hr) hyS rfl
    simp only [Prod.mk.injEq] at this
    exact ⟨w, this.2.2, hw⟩

end

/-- Two clients add the same key to a database that is not there; the one that called last gets the lock first. -/
example : ∃ tr : Trace, Run sampleEnv (Conf.init []) tr ∧
    .call 1 (.addKv ['d'] ['k'] true false .null) ∈ tr.events ∧ .ret 1 (.creation .foundExistingKey) ∈ tr.events ∧
    .call 2 (.addKv ['d'] ['k'] true false (.boolean true)) ∈ tr.events ∧
    .ret 2 (.creation .insertedKeyIntoNewDB) ∈ tr.events ∧
    (∀ u op, .call u op ∈ tr.events → ¬ op.Touches ['d'] ['k']) ∧
    (Daemon.view ⟨(Trace.last (Conf.init []) tr).dbs, []⟩ ['d']).bind (· ['k']) = some (.boolean true) := by
  have h : ∃ tr : Trace, Run sampleEnv (Conf.init []) tr ∧ tr.events =
      [.call 1 (.addKv ['d'] ['k'] true false .null), .call 2 (.addKv ['d'] ['k'] true false (.boolean true)),
        .invalidate 1, .invalidate 2, .acquire 2, .act 2, .ret 2 (.creation .insertedKeyIntoNewDB), .acquire 1, .act 1,
        .ret 1 (.creation .foundExistingKey)] :=
    ⟨_,
      (.cons (.call (t := 1) (.addKv ['d'] ['k'] true false .null) rfl)
      (.cons (.call (t := 2) (.addKv ['d'] ['k'] true false (.boolean true)) rfl)
      (.cons (.invalidate (t := 1) (op := .addKv ['d'] ['k'] true false .null) rfl rfl)
      (.cons (.invalidate (t := 2) (op := .addKv ['d'] ['k'] true false (.boolean true)) rfl rfl)
      (.cons (.acquire (t := 2) (op := .addKv ['d'] ['k'] true false (.boolean true)) (pc := .invalidated) rfl rfl rfl)
      (.cons (.act (t := 2) (op := .addKv ['d'] ['k'] true false (.boolean true)) rfl)
      (.cons (.ret (t := 2) (op := .addKv ['d'] ['k'] true false (.boolean true))
        (pc := .acted (.creation .insertedKeyIntoNewDB)) rfl rfl)
      (.cons (.acquire (t := 1) (op := .addKv ['d'] ['k'] true false .null) (pc := .invalidated) rfl rfl rfl)
      (.cons (.act (t := 1) (op := .addKv ['d'] ['k'] true false .null) rfl)
      (.cons (.ret (t := 1) (op := .addKv ['d'] ['k'] true false .null) (pc := .acted (.creation .foundExistingKey)) rfl rfl)
      .nil)))))))))), rfl⟩
  obtain ⟨tr, h, e⟩ := h
  have hx : ∀ u op, .call u op ∈ tr.events → ¬ op.Touches ['d'] ['k'] ∧ op.Ok := by
    intro u op hu
    simp only [e, List.mem_cons, reduceCtorEq, Ev.call.injEq, List.not_mem_nil, or_false] at hu
    rcases hu with ⟨-, rfl⟩ | ⟨-, rfl⟩ <;> exact ⟨fun hh => by simp [Op.Touches] at hh, trivial⟩
  refine ⟨tr, h, by simp [e], by simp [e], by simp [e], by simp [e], fun u op hu => (hx u op hu).1, ?_⟩
  exact (C109_winner (fun _ => .refl _) (fun _ => .refl _) (fun _ => .refl _) h DbsOk.nil (fun u op hu => (hx u op hu).2)
    (t := 2) (c := true) (o := false) (w := .insertedKeyIntoNewDB) (by simp [e]) (by simp [e]) trivial
    (fun u op hu => (hx u op hu).1)).2.2

end Souris
