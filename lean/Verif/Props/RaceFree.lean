import Verif.Spec.RaceFree
import Verif.Props.Reads

/-! # C111: without races the outcome does not depend on the interleaving -/

namespace Souris

namespace Op

theorem Unrelated.symm {p q : Op} (h : p.Unrelated q) : q.Unrelated p := by
  rcases h with ⟨h1, h2⟩ | ⟨n, m, h1, h2, h3⟩ | ⟨n, k, k', h1, h2, h3⟩ | h | h
  · exact .inl ⟨h2, h1⟩
  · exact .inr (.inl ⟨m, n, h2, h1, h3.symm⟩)
  · exact .inr (.inr (.inl ⟨n, k', k, h2, h1, h3.symm⟩))
  · exact .inr (.inr (.inr (.inr h)))
  · exact .inr (.inr (.inr (.inl h)))

end Op

namespace Abs

theorem after_reads {op : Op} (h : op.onlyReads) (a : Abs) : a.after op = a := by
  cases op <;> first | rfl | exact h.elim

/-- An operation changes only its own database, by what is in it. -/
theorem after_database {op : Op} {n : List Char} (h : op.database = some n) :
    ∃ f : Option AbsDb → Option AbsDb, ∀ a : Abs, a.after op = put a n (f (a n)) := by
  have hself : ∀ a : Abs, a = put a n (a n) := fun a => (put_self a n _ rfl).symm
  cases op with
  | allNames => cases h
  | getDb m => cases h; exact ⟨id, hself⟩
  | getValue m k => cases h; exact ⟨id, hself⟩
  | newDb m o =>
    cases h
    by_cases hg : GoodName n
    · exact ⟨fun x => some (if o then empty else x.getD empty), fun a => by simp only [Abs.after, hg, if_true]⟩
    · exact ⟨id, fun a => by simp only [Abs.after, hg, if_false]; exact hself a⟩
  | newDbWith m o s => cases h; exact ⟨fun x => some (extend (if o then empty else x.getD empty) s), fun a => rfl⟩
  | removeDb m io => cases h; exact ⟨fun _ => none, fun a => rfl⟩
  | clearDb m =>
    cases h
    refine ⟨fun x => x.map fun _ => empty, fun a => ?_⟩
    simp only [Abs.after]
    cases ha : a n with
    | none => exact (put_self a n _ ha).symm
    | some m => rfl
  | removeKey m k =>
    cases h
    refine ⟨fun x => x.map fun m => put m k none, fun a => ?_⟩
    simp only [Abs.after]
    cases ha : a n with
    | none => exact (put_self a n _ ha).symm
    | some m => rfl
  | addKv m k c o v =>
    cases h
    refine ⟨fun x => match x with
      | some m => if (m k).isSome ∧ ¬ o then some m else some (put m k (some v))
      | none => if c then some (put empty k (some v)) else none, fun a => ?_⟩
    simp only [Abs.after]
    cases ha : a n with
    | none =>
      cases c with
      | true => rfl
      | false => exact (put_self a n _ ha).symm
    | some m =>
      simp only
      split
      · exact (put_self a n _ ha).symm
      · rfl

/-- The reply depends only on the database. -/
theorem answers_database {env : Env} {op : Op} {n : List Char} (h : op.database = some n) {a a' : Abs} (e : a n = a' n)
    (r : Reply) : a.Answers env op r ↔ a'.Answers env op r := by
  cases op <;> cases h <;> simp only [Abs.Answers, e]

/-- An operation on one key changes only that key, by what is under it. -/
theorem after_entry {op : Op} {n k : List Char} (h : op.entry = some (n, k)) :
    ∃ g : Option Value → Option Value, ∀ a : Abs, a.after op = put a n ((a n).map fun m => put m k (g (m k))) := by
  have hself : ∀ a : Abs, a = put a n ((a n).map fun m => put m k (m k)) := by
    intro a
    refine (put_self a n _ ?_).symm
    cases a n with
    | none => rfl
    | some m => rw [Option.map_some, put_self m k _ rfl]
  cases op with
  | getValue m k' => cases h; exact ⟨id, hself⟩
  | removeKey m k' =>
    cases h
    refine ⟨fun _ => none, fun a => ?_⟩
    simp only [Abs.after]
    cases ha : a n with
    | none => exact (put_self a n _ ha).symm
    | some m => rfl
  | addKv m k' c o v =>
    cases c with
    | true => cases h
    | false =>
      cases h
      refine ⟨fun x => if x.isSome ∧ ¬ o then x else some v, fun a => ?_⟩
      simp only [Abs.after]
      cases ha : a n with
      | none => exact (put_self a n _ ha).symm
      | some m =>
        simp only [Option.map_some]
        split
        · rw [put_self m k _ rfl]; exact (put_self a n _ ha).symm
        · rfl
  | _ => cases h

/-- The reply depends only on whether the database exists and on what is under the key. -/
theorem answers_entry {env : Env} {op : Op} {n k : List Char} (h : op.entry = some (n, k)) {a a' : Abs}
    (e : (a n).map (· k) = (a' n).map (· k)) (r : Reply) : a.Answers env op r ↔ a'.Answers env op r := by
  have key : (a n = none ∧ a' n = none) ∨ ∃ m m', a n = some m ∧ a' n = some m' ∧ m k = m' k := by
    cases ha : a n with
    | none =>
      cases ha' : a' n with
      | none => exact .inl ⟨rfl, rfl⟩
      | some m' => rw [ha, ha'] at e; cases e
    | some m =>
      cases ha' : a' n with
      | none => rw [ha, ha'] at e; cases e
      | some m' => rw [ha, ha'] at e; exact .inr ⟨m, m', rfl, rfl, Option.some.inj e⟩
  cases op with
  | addKv m' k' c o v =>
    cases c with
    | true => cases h
    | false =>
      cases h
      rcases key with ⟨h1, h2⟩ | ⟨m, m', h1, h2, h3⟩
      · simp only [Abs.Answers, h1, h2]
      · simp only [Abs.Answers, h1, h2, h3]
  | getValue m' k' =>
    cases h
    rcases key with ⟨h1, h2⟩ | ⟨m, m', h1, h2, h3⟩
    · simp only [Abs.Answers, h1, h2]
    · simp only [Abs.Answers, h1, h2, h3]
  | removeKey m' k' =>
    cases h
    rcases key with ⟨h1, h2⟩ | ⟨m, m', h1, h2, h3⟩
    · simp only [Abs.Answers, h1, h2]
    · simp only [Abs.Answers, h1, h2, h3]
  | _ => cases h

theorem keepsNames_after {op : Op} (h : op.keepsNames) (a : Abs) (n : List Char) :
    ((a.after op) n).isSome = (a n).isSome := by
  have hput : ∀ m x y, a m = some x → (put a m (some y) n).isSome = (a n).isSome := by
    intro m x y hx
    unfold put
    split
    · next e => rw [e, hx]; rfl
    · rfl
  cases op with
  | getDb _ => rfl
  | getValue _ _ => rfl
  | allNames => rfl
  | clearDb m =>
    simp only [Abs.after]
    cases ha : a m with
    | none => rfl
    | some x => exact hput m x _ ha
  | removeKey m k =>
    simp only [Abs.after]
    cases ha : a m with
    | none => rfl
    | some x => exact hput m x _ ha
  | addKv m k c o v =>
    cases c with
    | true => exact h.elim
    | false =>
      simp only [Abs.after]
      cases ha : a m with
      | none => rfl
      | some x =>
        simp only
        split
        · rfl
        · exact hput m x _ ha
  | _ => exact h.elim

/-- What does not concern an operation does not change its reply. -/
theorem answers_unrelated {env : Env} {p q : Op} (h : p.Unrelated q) (a : Abs) (r : Reply) :
    (a.after p).Answers env q r ↔ a.Answers env q r := by
  rcases h with ⟨h1, -⟩ | ⟨n, m, h1, h2, h3⟩ | ⟨n, k, k', h1, h2, h3⟩ | ⟨rfl, -⟩ | ⟨rfl, h⟩
  · rw [after_reads h1]
  · obtain ⟨f, hf⟩ := after_database h1
    refine answers_database h2 ?_ r
    rw [hf]
    simp [put, h3.symm]
  · obtain ⟨g, hg⟩ := after_entry h1
    refine answers_entry h2 ?_ r
    rw [hg]
    cases ha : a n with
    | none => simp [put]
    | some m => simp [put, h3.symm]
  · exact Iff.rfl
  · simp only [Abs.Answers, keepsNames_after h]

/-- Operations that do not concern each other can be exchanged. -/
theorem after_unrelated {p q : Op} (h : p.Unrelated q) (a : Abs) : (a.after p).after q = (a.after q).after p := by
  rcases h with ⟨h1, h2⟩ | ⟨n, m, h1, h2, h3⟩ | ⟨n, k, k', h1, h2, h3⟩ | ⟨rfl, -⟩ | ⟨rfl, -⟩
  · rw [after_reads h1, after_reads h2, after_reads h1]
  · obtain ⟨f, hf⟩ := after_database h1
    obtain ⟨g, hg⟩ := after_database h2
    rw [hf, hg, hg, hf]
    funext x
    by_cases hx : x = n
    · subst hx; simp [put, h3]
    · by_cases hx' : x = m
      · subst hx'; simp [put, h3.symm]
      · simp [put, hx, hx']
  · obtain ⟨f, hf⟩ := after_entry h1
    obtain ⟨g, hg⟩ := after_entry h2
    rw [hf, hg, hg, hf]
    funext x
    by_cases hx : x = n
    · subst hx
      cases ha : a x with
      | none => simp [put]
      | some m =>
        simp only [put, if_true, Option.map_some, Option.some.injEq]
        funext y
        by_cases hy : y = k
        · subst hy; simp [put, h3]
        · by_cases hy' : y = k'
          · subst hy'; simp [put, h3.symm]
          · simp [put, hy, hy']
    · simp [put, hx]
  · rfl
  · rfl

/-- An operation that concerns none of those before it can be done first. -/
theorem Explains.front {env : Env} {a b : Abs} {A B : List (Nat × Op × Reply)} {x : Nat × Op × Reply}
    (h : Explains env a (A ++ x :: B) b) (hA : ∀ y ∈ A, y.2.1.Unrelated x.2.1) : Explains env a (x :: (A ++ B)) b := by
  induction A generalizing a with
  | nil => exact h
  | cons y A ih =>
    obtain ⟨h2, h3⟩ := ih h.2 fun z hz => hA z (List.mem_cons_of_mem y hz)
    have hy := hA y (by simp)
    refine ⟨(answers_unrelated hy a _).mp h2, (answers_unrelated hy.symm a _).mpr h.1, ?_⟩
    show Explains env ((a.after x.2.1).after y.2.1) (A ++ B) b
    rw [after_unrelated hy.symm]
    exact h3

theorem Answers.unique {env env' : Env} {a : Abs} {op : Op} {r r' : Reply} (hd : op.determined) (h : a.Answers env op r)
    (h' : a.Answers env' op r') : r = r' := by
  cases op with
  | getDb _ => exact hd.elim
  | newDbWith _ _ _ => exact hd.elim
  | allNames => exact hd.elim
  | newDb n o => simp only [Abs.Answers] at h h'; split at h <;> simp_all
  | clearDb n => simp only [Abs.Answers] at h h'; split at h <;> simp_all
  | removeDb n io => simp only [Abs.Answers] at h h'; split at h <;> (try split at h) <;> simp_all
  | addKv n k c o v => simp only [Abs.Answers] at h h'; cases ha : a n <;> simp only [ha] at h h' <;> (try split at h) <;> simp_all
  | getValue n k =>
    simp only [Abs.Answers] at h h'
    cases ha : a n with
    | none => simp_all
    | some m => simp only [ha] at h h'; cases hk : m k <;> simp_all
  | removeKey n k => simp only [Abs.Answers] at h h'; cases ha : a n <;> simp only [ha] at h h' <;> (try split at h) <;> simp_all

theorem Answers.sameNames {env env' : Env} {a : Abs} {ns ns' : List (List Char)} (h : a.Answers env .allNames (.names ns))
    (h' : a.Answers env' .allNames (.names ns')) : ns.Perm ns' := by
  obtain ⟨l, e, h1, h2⟩ := h
  obtain ⟨l', e', h1', h2'⟩ := h'
  cases e; cases e'
  exact (List.perm_ext_iff_of_nodup h1 h1').mpr fun n => (h2 n).trans (h2' n).symm

/-- Replies that say the same. -/
def Agree (op : Op) (r r' : Reply) : Prop :=
  (op.determined → r = r') ∧ (op = .allNames → ∀ ns ns', r = .names ns → r' = .names ns' → ns.Perm ns')

theorem Answers.agree {env env' : Env} {a : Abs} {op : Op} {r r' : Reply} (h : a.Answers env op r)
    (h' : a.Answers env' op r') : Agree op r r' := by
  refine ⟨fun hd => h.unique hd h', ?_⟩
  rintro rfl ns ns' rfl rfl
  exact h.sameNames h'

/-- The same operations in two orders that differ only in operations that do not concern each other. -/
theorem Explains.reordered {env env' : Env} {a b b' : Abs} {S T : List (Nat × Op × Reply)} (h : Explains env a S b)
    (h' : Explains env' a T b') (hS : (S.map Prod.fst).Nodup) (hT : (T.map Prod.fst).Nodup)
    (hsame : ∀ t op, (∃ r, (t, op, r) ∈ S) ↔ ∃ r, (t, op, r) ∈ T)
    (hord : ∀ S₁ x S₂ y T₁ y' T₂ x', S = S₁ ++ x :: S₂ → y ∈ S₂ → T = T₁ ++ y' :: T₂ → x' ∈ T₂ → x'.1 = x.1 → y'.1 = y.1 →
      x.2.1.Unrelated y.2.1) :
    b = b' ∧ ∀ t op r r', (t, op, r) ∈ S → (t, op, r') ∈ T → Agree op r r' := by
  induction S generalizing a T with
  | nil =>
    cases T with
    | nil => exact ⟨h.symm.trans h', by simp⟩
    | cons y T =>
      obtain ⟨r, hr⟩ := (hsame y.1 y.2.1).mpr ⟨y.2.2, by simp⟩
      cases hr
  | cons x S ih =>
    obtain ⟨t, op, r⟩ := x
    obtain ⟨r', hr'⟩ := (hsame t op).mp ⟨r, by simp⟩
    obtain ⟨A, B, rfl⟩ := List.append_of_mem hr'
    have hS' := (List.nodup_cons (a := t) (l := S.map Prod.fst)).mp hS
    have hTn : ((t, op, r') :: (A ++ B)).map Prod.fst |>.Nodup :=
      (List.Perm.map Prod.fst List.perm_middle).nodup_iff.mp hT
    have hT' := (List.nodup_cons (a := t) (l := (A ++ B).map Prod.fst)).mp hTn
    have hfirst : ∀ y ∈ A, y.2.1.Unrelated op := by
      intro y hy
      obtain ⟨ry, hry⟩ := (hsame y.1 y.2.1).mpr ⟨y.2.2, by simp [hy]⟩
      have hyS : (y.1, y.2.1, ry) ∈ S := by
        rcases List.mem_cons.mp hry with e | h1
        · exfalso
          cases e
          exact hT'.1 (List.mem_map_of_mem (f := Prod.fst) (List.mem_append_left _ hy))
        · exact h1
      obtain ⟨A₁, A₂, rfl⟩ := List.append_of_mem hy
      exact (hord [] _ S _ A₁ y (A₂ ++ (t, op, r') :: B) (t, op, r') rfl hyS (by simp) (by simp) rfl rfl).symm
    have h2 := h'.front hfirst
    have hmem : ∀ z ∈ A ++ B, z ∈ A ++ (t, op, r') :: B := by
      intro z hz
      rcases List.mem_append.mp hz with hz | hz <;> simp [hz]
    have hrec := ih h.2 (T := A ++ B) h2.2 hS'.2 hT'.2 ?_ ?_
    · refine ⟨hrec.1, ?_⟩
      intro t1 op1 r1 r1' m1 m2
      by_cases ht : t1 = t
      · subst ht
        rcases List.mem_cons.mp m1 with e | m1
        · cases e
          have e2 := List.inj_on_of_nodup_map hT m2 hr' rfl
          cases e2
          exact h.1.agree h2.1
        · exact absurd (List.mem_map_of_mem (f := Prod.fst) m1) hS'.1
      · refine hrec.2 t1 op1 r1 r1' ?_ ?_
        · rcases List.mem_cons.mp m1 with e | m1
          · cases e; exact absurd rfl ht
          · exact m1
        · rcases List.mem_append.mp m2 with m2 | m2
          · exact List.mem_append_left _ m2
          · rcases List.mem_cons.mp m2 with e | m2
            · cases e; exact absurd rfl ht
            · exact List.mem_append_right _ m2
    · intro t1 op1
      constructor
      · rintro ⟨r1, m1⟩
        obtain ⟨r2, m2⟩ := (hsame t1 op1).mp ⟨r1, by simp [m1]⟩
        refine ⟨r2, ?_⟩
        rcases List.mem_append.mp m2 with m2 | m2
        · exact List.mem_append_left _ m2
        · rcases List.mem_cons.mp m2 with e | m2
          · cases e; exact absurd (List.mem_map_of_mem (f := Prod.fst) m1) hS'.1
          · exact List.mem_append_right _ m2
      · rintro ⟨r2, m2⟩
        obtain ⟨r1, m1⟩ := (hsame t1 op1).mpr ⟨r2, hmem _ m2⟩
        refine ⟨r1, ?_⟩
        rcases List.mem_cons.mp m1 with e | m1
        · cases e
          exact absurd (List.mem_map_of_mem (f := Prod.fst) m2) hT'.1
        · exact m1
    · intro S₁ x S₂ y T₁ y' T₂ x' e hy e' hx' h3 h4
      -- where the two are in the longer list
      have hsplit : ∃ T₁' T₂', A ++ (t, op, r') :: B = T₁' ++ y' :: T₂' ∧ x' ∈ T₂' := by
        rcases List.append_eq_append_iff.mp e' with ⟨C, eT, eB⟩ | ⟨C, eA, eB⟩
        · exact ⟨A ++ (t, op, r') :: C, T₂, by simp [eB], hx'⟩
        · cases C with
          | nil =>
            refine ⟨A ++ [(t, op, r')], T₂, ?_, hx'⟩
            simp only [List.nil_append] at eB
            simp [← eB]
          | cons z C =>
            simp only [List.cons_append, List.cons.injEq] at eB
            obtain ⟨rfl, rfl⟩ := eB
            refine ⟨T₁, C ++ (t, op, r') :: B, by simp [eA], ?_⟩
            rcases List.mem_append.mp hx' with hx' | hx' <;> simp [hx']
      obtain ⟨T₁', T₂', e3, hx3⟩ := hsplit
      exact hord ((t, op, r) :: S₁) x S₂ y T₁' y' T₂' x' (by simp [e]) hy e3 hx3 h3 h4

end Abs

/-- C111: take two runs from the same databases in which the same requests are made and all are answered, and in which any two
requests that concern each other are made one after the other, in the same order in both runs. Then, however the
others interleave and in whatever order the hash maps are, the databases in the end are the same, and so is every reply that the
databases determine; lists of databases have the same names. (Whole-database reads are the subject of C38 and C110.) -/
theorem C111_race_free {env env' : Env} (hb : HashOrder env.byteOrd) (hc : HashOrder env.charOrd) (hm : HashOrder env.mapOrd)
    (hb' : HashOrder env'.byteOrd) (hc' : HashOrder env'.charOrd) (hm' : HashOrder env'.mapOrd) {dbs : Dbs} {tr tr' : Trace}
    (h : Run env (Conf.init dbs) tr) (h' : Run env' (Conf.init dbs) tr') (hd : DbsOk dbs)
    (hops : ∀ t op, .call t op ∈ tr.events → op.Ok)
    (hsame : ∀ t op, .call t op ∈ tr.events ↔ .call t op ∈ tr'.events)
    (hans : ∀ t op, .call t op ∈ tr.events → op.isGetDb = false →
      (∃ r, .ret t r ∈ tr.events) ∧ ∃ r, .ret t r ∈ tr'.events)
    (hrace : ∀ t op t' op', .call t op ∈ tr.events → .call t' op' ∈ tr.events → t ≠ t' → op.isGetDb = false →
      op'.isGetDb = false → ¬ op.Unrelated op' →
      Precedes tr.events t t' ∧ Precedes tr'.events t t' ∨ Precedes tr.events t' t ∧ Precedes tr'.events t' t) :
    Daemon.view ⟨(Trace.last (Conf.init dbs) tr).dbs, []⟩ = Daemon.view ⟨(Trace.last (Conf.init dbs) tr').dbs, []⟩ ∧
    (∀ t op r, .call t op ∈ tr.events → op.determined → (.ret t r ∈ tr.events ↔ .ret t r ∈ tr'.events)) ∧
    ∀ t ns ns', .call t .allNames ∈ tr.events → .ret t (.names ns) ∈ tr.events → .ret t (.names ns') ∈ tr'.events →
      ns.Perm ns' := by
  obtain ⟨S, hS, hex⟩ := C39_map_of_maps hb hc hm h hd hops
  obtain ⟨T, hT, hex'⟩ := C39_map_of_maps hb' hc' hm' h' hd fun t op ho => hops t op ((hsame t op).mpr ho)
  have hin : ∀ t op, (∃ r, (t, op, r) ∈ S) ↔ ∃ r, (t, op, r) ∈ T := by
    intro t op
    constructor
    · rintro ⟨r, hr⟩
      obtain ⟨h1, h2⟩ := hS.called _ hr
      obtain ⟨-, r', h3⟩ := hans t op h1 h2
      exact ⟨r', hT.complete t op r' ((hsame t op).mp h1) h2 h3⟩
    · rintro ⟨r, hr⟩
      obtain ⟨h1, h2⟩ := hT.called _ hr
      have h1 := (hsame t op).mpr h1
      obtain ⟨⟨r', h3⟩, -⟩ := hans t op h1 h2
      exact ⟨r', hS.complete t op r' h1 h2 h3⟩
  obtain ⟨e, hag⟩ := hex.reordered hex' hS.once hT.once hin (by
    intro S₁ x S₂ y T₁ y' T₂ x' eS hy eT hx' ex ey
    by_contra hno
    have hxS : x ∈ S := by rw [eS]; simp
    have hyS : y ∈ S := by rw [eS]; simp [hy]
    have hne : x.1 ≠ y.1 := by
      intro e
      have := hS.once
      rw [eS, List.map_append, List.map_cons] at this
      exact (List.nodup_cons.mp (List.nodup_append.mp this).2.1).1 (by rw [e]; exact List.mem_map_of_mem hy)
    obtain ⟨hx1, hx2⟩ := hS.called x hxS
    obtain ⟨hy1, hy2⟩ := hS.called y hyS
    rcases hrace _ _ _ _ hx1 hy1 hne hx2 hy2 hno with ⟨-, r, op, hp⟩ | ⟨⟨r, op, hp⟩, -⟩
    · -- `x` precedes `y` in the second run, where `y` comes first
      obtain ⟨T₃, T₄, rfl⟩ := List.append_of_mem hx'
      rw [← ex, ← ey] at hp
      exact hT.realTime _ _ _ _ hp (T₁ ++ y' :: T₃) x' T₄ (by simp [eT]) rfl y' (by simp) rfl
    · obtain ⟨S₃, S₄, rfl⟩ := List.append_of_mem hy
      exact hS.realTime _ _ _ _ hp (S₁ ++ x :: S₃) y S₄ (by simp [eS]) rfl x (by simp) rfl)
  refine ⟨e, ?_, ?_⟩
  · intro t op r hcall hdet
    have hg : op.isGetDb = false := by cases op <;> first | rfl | exact hdet.elim
    obtain ⟨⟨r1, h1⟩, r2, h2⟩ := hans t op hcall hg
    have m1 := hS.complete t op r1 hcall hg h1
    have m2 := hT.complete t op r2 ((hsame t op).mp hcall) hg h2
    have he := (hag t op r1 r2 m1 m2).1 hdet
    subst he
    constructor
    · intro h3
      have e3 := List.inj_on_of_nodup_map hS.once (hS.complete t op r hcall hg h3) m1 rfl
      cases e3
      exact h2
    · intro h3
      have e3 := List.inj_on_of_nodup_map hT.once (hT.complete t op r ((hsame t op).mp hcall) hg h3) m2 rfl
      cases e3
      exact h1
  · intro t ns ns' hcall h1 h2
    exact (hag t _ _ _ (hS.complete t _ _ hcall rfl h1) (hT.complete t _ _ ((hsame t _).mp hcall) rfl h2)).2 rfl ns ns' rfl rfl

/-- Two clients add different keys to a database that exists, in either order, in interleavings that differ: the outcome is the
same. -/
example : ∃ tr tr' : Trace, Run sampleEnv (Conf.init [(['d'], [])]) tr ∧ Run sampleEnv (Conf.init [(['d'], [])]) tr' ∧
    tr.events.filterMap Ev.task ≠ tr'.events.filterMap Ev.task ∧
    .ret 1 (.creation .insertedKeyIntoExistingDB) ∈ tr.events ∧
    Daemon.view ⟨(Trace.last (Conf.init [(['d'], [])]) tr).dbs, []⟩ =
      Daemon.view ⟨(Trace.last (Conf.init [(['d'], [])]) tr').dbs, []⟩ := by
  obtain ⟨tr, h1, e1⟩ : ∃ tr : Trace, Run sampleEnv (Conf.init [(['d'], [])]) tr ∧ tr.events =
      [.call 1 (.addKv ['d'] ['k'] false true .null), .call 2 (.addKv ['d'] ['l'] false true .null), .invalidate 2, .invalidate 1,
        .acquire 1, .act 1, .ret 1 (.creation .insertedKeyIntoExistingDB), .acquire 2, .act 2,
        .ret 2 (.creation .insertedKeyIntoExistingDB)] :=
    ⟨_,
      (.cons (.call (t := 1) (.addKv ['d'] ['k'] false true .null) rfl)
      (.cons (.call (t := 2) (.addKv ['d'] ['l'] false true .null) rfl)
      (.cons (.invalidate (t := 2) (op := .addKv ['d'] ['l'] false true .null) rfl rfl)
      (.cons (.invalidate (t := 1) (op := .addKv ['d'] ['k'] false true .null) rfl rfl)
      (.cons (.acquire (t := 1) (op := .addKv ['d'] ['k'] false true .null) (pc := .invalidated) rfl rfl rfl)
      (.cons (.act (t := 1) (op := .addKv ['d'] ['k'] false true .null) rfl)
      (.cons (.ret (t := 1) (op := .addKv ['d'] ['k'] false true .null) (pc := .acted (.creation .insertedKeyIntoExistingDB)) rfl rfl)
      (.cons (.acquire (t := 2) (op := .addKv ['d'] ['l'] false true .null) (pc := .invalidated) rfl rfl rfl)
      (.cons (.act (t := 2) (op := .addKv ['d'] ['l'] false true .null) rfl)
      (.cons (.ret (t := 2) (op := .addKv ['d'] ['l'] false true .null) (pc := .acted (.creation .insertedKeyIntoExistingDB)) rfl rfl)
      .nil)))))))))), rfl⟩
  obtain ⟨tr', h2, e2⟩ : ∃ tr : Trace, Run sampleEnv (Conf.init [(['d'], [])]) tr ∧ tr.events =
      [.call 2 (.addKv ['d'] ['l'] false true .null), .call 1 (.addKv ['d'] ['k'] false true .null), .invalidate 1, .invalidate 2,
        .acquire 2, .act 2, .ret 2 (.creation .insertedKeyIntoExistingDB), .acquire 1, .act 1,
        .ret 1 (.creation .insertedKeyIntoExistingDB)] :=
    ⟨_,
      (.cons (.call (t := 2) (.addKv ['d'] ['l'] false true .null) rfl)
      (.cons (.call (t := 1) (.addKv ['d'] ['k'] false true .null) rfl)
      (.cons (.invalidate (t := 1) (op := .addKv ['d'] ['k'] false true .null) rfl rfl)
      (.cons (.invalidate (t := 2) (op := .addKv ['d'] ['l'] false true .null) rfl rfl)
      (.cons (.acquire (t := 2) (op := .addKv ['d'] ['l'] false true .null) (pc := .invalidated) rfl rfl rfl)
      (.cons (.act (t := 2) (op := .addKv ['d'] ['l'] false true .null) rfl)
      (.cons (.ret (t := 2) (op := .addKv ['d'] ['l'] false true .null) (pc := .acted (.creation .insertedKeyIntoExistingDB)) rfl rfl)
      (.cons (.acquire (t := 1) (op := .addKv ['d'] ['k'] false true .null) (pc := .invalidated) rfl rfl rfl)
      (.cons (.act (t := 1) (op := .addKv ['d'] ['k'] false true .null) rfl)
      (.cons (.ret (t := 1) (op := .addKv ['d'] ['k'] false true .null) (pc := .acted (.creation .insertedKeyIntoExistingDB)) rfl rfl)
      .nil)))))))))), rfl⟩
  have hcall : ∀ t op, .call t op ∈ tr.events ↔
      (t = 1 ∧ op = .addKv ['d'] ['k'] false true .null) ∨ (t = 2 ∧ op = .addKv ['d'] ['l'] false true .null) := by
    intro t op
    simp [e1]
  refine ⟨tr, tr', h1, h2, ?_, by simp [e1], ?_⟩
  · rw [e1, e2]
    decide
  · refine (C111_race_free (fun _ => .refl _) (fun _ => .refl _) (fun _ => .refl _) (fun _ => .refl _) (fun _ => .refl _)
      (fun _ => .refl _) h1 h2 ⟨by simp, ?_⟩ ?_ ?_ ?_ ?_).1
    · intro n s hs
      simp only [List.mem_singleton, Prod.mk.injEq] at hs
      simp [hs.2]
    · intro t op ho
      rcases (hcall t op).mp ho with ⟨-, rfl⟩ | ⟨-, rfl⟩ <;> trivial
    · intro t op
      rw [hcall, e2]
      simp [or_comm]
    · intro t op ho _
      rcases (hcall t op).mp ho with ⟨rfl, -⟩ | ⟨rfl, -⟩ <;> simp [e1, e2]
    · intro t op t' op' ho ho' hne _ _ hno
      refine absurd ?_ hno
      rcases (hcall t op).mp ho with ⟨rfl, rfl⟩ | ⟨rfl, rfl⟩ <;> rcases (hcall t' op').mp ho' with ⟨rfl, rfl⟩ | ⟨rfl, rfl⟩
      · exact absurd rfl hne
      · exact .inr (.inr (.inl ⟨['d'], ['k'], ['l'], rfl, rfl, by decide⟩))
      · exact .inr (.inr (.inl ⟨['d'], ['l'], ['k'], rfl, rfl, by decide⟩))
      · exact absurd rfl hne

end Souris
