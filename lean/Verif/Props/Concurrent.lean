import Verif.Lemmas.Concurrent
import Verif.Props.Daemon

/-! # Concurrent requests: C38 (visibility of writes), C39 (linearizability), C40 (reads are real), C55 (no deadlock) -/

namespace Souris

/-! ## C39 -/

/-- C39: under every interleaving of any number of operations there is an order, that of obtaining the
lock, in which executing the operations one after another gives every reply. (`get_db`, which may answer
from the cache without the lock, is the subject of C38 and C40.) -/
theorem C39_linearizable {env : Env} {dbs : Dbs} {tr : Trace} (h : Run env (Conf.init dbs) tr) :
    ∃ S, Linearization env (Conf.init dbs) tr S := by
  obtain ⟨S, hS⟩ := h.linInv
  refine ⟨S, hS.legal, hS.called, hS.once, ?_, hS.realTime, hS.lockOrder⟩
  intro t op r h1 h2 h3
  obtain ⟨pc, h4⟩ := h.taskInv.running t op h1
  obtain ⟨op', h5⟩ := h.taskInv.returned t r h3
  rw [h4] at h5
  cases h5
  exact hS.recorded t op _ h4 h2

/-- C39: two tasks never hold the lock at once, so the order of obtaining it is that of the steps on the
databases. -/
theorem C39_exclusive {env : Env} {dbs : Dbs} {tr : Trace} (h : Run env (Conf.init dbs) tr) (t t' : Nat)
    (op op' : Op) (pc pc' : Pc) (h1 : (Trace.last (Conf.init dbs) tr).tasks t = some (op, pc)) (hp : pc.holds)
    (h2 : (Trace.last (Conf.init dbs) tr).tasks t' = some (op', pc')) (hp' : pc'.holds) : t = t' := by
  have e1 := h.taskInv.exclusive t op pc h1 hp
  have e2 := h.taskInv.exclusive t' op' pc' h2 hp'
  rw [e1] at e2
  exact Option.some.inj e2

/-! ## C40 -/

/-- C40: under every interleaving, what `get_db` answers is the serialisation of a contents that the
database had at some moment before, or that the database did not exist at some moment before. -/
theorem C40_real {env : Env} (hb : HashOrder env.byteOrd) (hc : HashOrder env.charOrd) {dbs : Dbs} {tr : Trace}
    (h : Run env (Conf.init dbs) tr) {t : Nat} {n : List Char} {r : Reply} (hcall : .call t (.getDb n) ∈ tr.events)
    (hret : .ret t r ∈ tr.events) :
    (∃ y ∈ Trace.confs (Conf.init dbs) tr, AMap.get n y.dbs = none ∧ r = .error .databaseNotFound) ∨
    ∃ y ∈ Trace.confs (Conf.init dbs) tr, ∃ s b, AMap.get n y.dbs = some s ∧ Store.ser env s = .ok b ∧ r = .bytes b := by
  obtain ⟨pc, h1⟩ := h.taskInv.running t _ hcall
  obtain ⟨op, h2⟩ := h.taskInv.returned t r hret
  rw [h1] at h2
  cases h2
  obtain ⟨y, hy, e⟩ := (h.reads n rfl (by intro t r e; cases e)).2.2 t r rfl (.inr h1)
  unfold Dbs.getDb at e
  rcases Option.eq_none_or_eq_some (AMap.get n y.dbs) with hn | ⟨s, hn⟩
  · rw [hn] at e; exact .inl ⟨y, hy, hn, e⟩
  · obtain ⟨b, hs⟩ := Store.ser_total env hb hc s
    rw [hn] at e
    simp only [hs] at e
    exact .inr ⟨y, hy, s, b, hn, hs, e⟩

/-! ## C38 -/

theorem last_cons (c : Conf) (tr : Trace) (e : Ev) (x : Conf) (tr' : Trace) :
    Trace.last c (tr ++ (e, x) :: tr') = Trace.last x tr' := by
  have e1 : tr ++ (e, x) :: tr' = (tr ++ [(e, x)]) ++ tr' := by simp
  rw [e1, Trace.last_append, Trace.last_snoc]

/-- What happened stays happened: a task called after `x` is not there at `x`. -/
theorem not_yet {env : Env} {dbs : Dbs} {trA trB trC : Trace} {e : Ev} {x z : Conf} {t : Nat} {op : Op}
    (h : Run env (Conf.init dbs) (trA ++ (e, x) :: (trB ++ (.call t op, z) :: trC))) : x.tasks t = none := by
  have e1 : trA ++ (e, x) :: (trB ++ (.call t op, z) :: trC) =
      (trA ++ (e, x) :: trB) ++ (.call t op, z) :: trC := by simp
  rw [e1] at h
  obtain ⟨h1, h2⟩ := h.split _ _
  have h3 : (Trace.last (Conf.init dbs) (trA ++ (e, x) :: trB)).tasks t = none := by
    have h4 : Run env (Conf.init dbs) ((trA ++ (e, x) :: trB) ++ [(.call t op, z)]) := by
      have : (trA ++ (e, x) :: trB) ++ (.call t op, z) :: trC = ((trA ++ (e, x) :: trB) ++ [(.call t op, z)]) ++ trC := by
        simp
      rw [this] at h
      exact (h.split _ _).1
    have h5 := (h4.split _ _).2
    generalize hg : [(Ev.call t op, z)] = l at h5
    cases h5 with
    | nil => cases hg
    | @snoc tr2 e2 c2 h6 hs =>
      have hl : tr2 = [] := by
        cases tr2 with
        | nil => rfl
        | cons a l => simp at hg
      subst hl
      cases hg
      cases hs with
      | call op hn => exact hn
  cases hx : x.tasks t with
  | none => rfl
  | some p =>
    obtain ⟨op', pc⟩ := p
    have e2 : trA ++ (e, x) :: trB = (trA ++ [(e, x)]) ++ trB := by simp
    have h4 : Run env (Conf.init dbs) (trA ++ [(e, x)]) := by
      rw [e2] at h1
      exact (h1.split _ _).1
    have h5 := h4.taskInv.called t op' pc (by rw [Trace.last_snoc]; exact hx)
    obtain ⟨pc', h6⟩ := h1.taskInv.running t op' (by
      rw [e2, Trace.events_append]; exact List.mem_append_left _ h5)
    rw [h3] at h6
    cases h6

/-- Once the copy of a database was removed from the cache, it is not there until it is put there. -/
theorem uncached {env : Env} {c : Conf} {tr : Trace} (h : Run env c tr) (n : List Char)
    (hc : AMap.get n c.cache = none) (hf : ∀ t, .fill t n ∉ tr.events) : AMap.get n (Trace.last c tr).cache = none := by
  induction h with
  | nil => exact hc
  | @snoc tr e c' h hs ih =>
    rw [Trace.last_snoc]
    have ih := ih (fun t ht => hf t (by rw [Trace.events_snoc]; simp [ht]))
    have hfe : ∀ t, e ≠ .fill t n := fun t ht => hf t (by rw [Trace.events_snoc]; simp [ht])
    have herase : ∀ m (l : List (List Char × List UInt8)), AMap.get n l = none → AMap.get n (AMap.erase m l) = none := by
      intro m l hl
      rw [AMap.get_erase, hl]
      split <;> rfl
    generalize Trace.last c tr = c0 at hs ih
    cases hs with
    | call op hn => exact ih
    | refuse hn hb => exact ih
    | @invalidate t op m hn hi => exact herase m _ ih
    | hit hn hb => exact ih
    | miss hn hb => exact ih
    | acquire hn ha hl => exact ih
    | act hn => exact ih
    | @uncache t m o r hn => exact herase m _ ih
    | @fill t m b hn =>
      show AMap.get n (AMap.insert m b c0.cache) = none
      rw [AMap.get_insert, if_neg (fun e => hfe t (by rw [e])), ih]
    | ret hn hr => exact ih
    | drop hn => exact ih
    | unlink hn => exact ih
    | cancel hn ha => exact ih
    | cancelLocked hn ha => exact ih
    | evict m => exact herase m _ ih

/-- The last event of a run is a step. -/
theorem Run.at {env : Env} {c : Conf} {trA trB : Trace} {e : Ev} {x : Conf} (h : Run env c (trA ++ (e, x) :: trB)) :
    Step env (Trace.last c trA) e x := by
  have e1 : trA ++ (e, x) :: trB = (trA ++ [(e, x)]) ++ trB := by simp
  rw [e1] at h
  have h := (h.split _ _).1
  generalize hg : trA ++ [(e, x)] = l at h
  cases h with
  | nil => simp at hg
  | @snoc tr2 e2 c2 h6 hs =>
    obtain ⟨h1, h2⟩ := List.append_inj' hg (by simp)
    simp only [List.cons.injEq, and_true] at h2
    cases h2
    subst h1
    exact hs

theorem Run.upto {env : Env} {c : Conf} {trA trB : Trace} {e : Ev} {x : Conf} (h : Run env c (trA ++ (e, x) :: trB)) :
    Run env c (trA ++ [(e, x)]) ∧ Run env x trB := by
  have e1 : trA ++ (e, x) :: trB = (trA ++ [(e, x)]) ++ trB := by simp
  rw [e1] at h
  obtain ⟨h1, h2⟩ := h.split _ _
  rw [Trace.last_snoc] at h2
  exact ⟨h1, h2⟩

/-- C38, partial: a write (`add_kv`, `rm_kv`, `clear_db`, `rm_db`, `add_db_with_content`) to database `n`
by task `w`. If no `get_db` puts a copy of `n` into the cache between the write's invalidation and its
change of the databases, every `get_db` of `n` called afterwards answers with the databases as they were
at some moment since the write. Missing: without that hypothesis the claim is false (`C38_refuted`). -/
theorem C38_visible_partial {env : Env} {dbs : Dbs} {trI trM trB trC : Trace} {w t : Nat} {x0 x z : Conf}
    {op : Op} {n : List Char} {r : Reply}
    (h : Run env (Conf.init dbs) (trI ++ (.invalidate w, x0) :: (trM ++ (.act w, x) ::
      (trB ++ (.call t (.getDb n), z) :: trC))))
    (hw : .call w op ∈ trI.events) (hop : op.invalidates = some n) (hfill : ∀ u, .fill u n ∉ trM.events)
    (hret : .ret t r ∈ trC.events) :
    ∃ y ∈ Trace.confs x (trB ++ (.call t (.getDb n), z) :: trC), r = Dbs.getDb env n y.dbs := by
  -- the cache after the invalidation
  have hx0 : AMap.get n x0.cache = none := by
    have hs := h.at
    obtain ⟨pc, hpc⟩ := (h.split _ _).1.taskInv.running w op hw
    generalize Trace.last (Conf.init dbs) trI = c at hs hpc
    cases hs with
    | @invalidate _ op' m hn hi =>
      rw [hpc] at hn
      cases hn
      rw [hop] at hi
      cases hi
      show AMap.get n (AMap.erase n c.cache) = none
      rw [AMap.get_erase, if_pos rfl]
    | @uncache _ m o r hn =>
      rw [hpc] at hn
      cases hn
      cases hop
  have h1 := h.upto.2
  have hxM := uncached (h1.split _ _).1 n hx0 hfill
  have hs := h1.at
  have hx : AMap.get n x.cache = none := by
    generalize Trace.last x0 trM = c at hs hxM
    cases hs with
    | act hn => exact hxM
  have h2 : Run env x (trB ++ (.call t (.getDb n), z) :: trC) := h1.upto.2
  have e1 : trI ++ (.invalidate w, x0) :: (trM ++ (.act w, x) :: (trB ++ (.call t (.getDb n), z) :: trC)) =
      (trI ++ (.invalidate w, x0) :: trM) ++ (.act w, x) :: (trB ++ (.call t (.getDb n), z) :: trC) := by simp
  have h' := h
  rw [e1] at h
  have hnew := not_yet h
  -- nobody else holds the lock
  have hta : ∀ u r, x.tasks u ≠ some (.getDb n, .acted r) := by
    intro u r hu
    have hi := h.upto.1
    have hacted : ∃ pc, x.tasks w = some (op, pc) ∧ pc.holds := by
      obtain ⟨pc, hpc⟩ := hi.taskInv.running w op (by
        rw [Trace.events_snoc, Trace.events_append]; simp [hw])
      rw [Trace.last_snoc] at hpc
      have hs2 := h.at
      generalize Trace.last (Conf.init dbs) (trI ++ (.invalidate w, x0) :: trM) = c at hs2
      cases hs2 with
      | @act _ op' hn =>
        have : some (op', Pc.acted (op'.act env c.dbs).1) = some (op, pc) := by rw [← hpc]; simp [Conf.set]
        cases this
        exact ⟨_, hpc, trivial⟩
    obtain ⟨pc, hpc, hh⟩ := hacted
    have hl : Trace.last (Conf.init dbs) ((trI ++ (.invalidate w, x0) :: trM) ++ [(.act w, x)]) = x := Trace.last_snoc ..
    have := C39_exclusive hi w u op (.getDb n) pc (.acted r) (by rw [hl]; exact hpc) hh (by rw [hl]; exact hu) trivial
    subst this
    rw [hpc] at hu
    cases hu
    cases hop
  have h3 := (h2.reads n hx hta).2.2 t r hnew
  have hdone : (Trace.last x (trB ++ (.call t (.getDb n), z) :: trC)).tasks t = some (.getDb n, .done r) := by
    have hl := last_cons (Conf.init dbs) (trI ++ (.invalidate w, x0) :: trM) (.act w) x
      (trB ++ (.call t (.getDb n), z) :: trC)
    rw [← hl]
    obtain ⟨op', h4⟩ := h.taskInv.returned t r (by
      simp only [Trace.events, List.map_append, List.map_cons, List.mem_append, List.mem_cons]
      exact .inr (.inr (.inr (.inr hret))))
    obtain ⟨pc, h5⟩ := h.taskInv.running t (.getDb n) (by
      simp [Trace.events])
    rw [h4] at h5
    cases h5
    exact h4
  exact h3 (.inr hdone)

/-- C38, partial: in particular when no `get_db` of the same database is in progress between the write's
invalidation and its change of the databases. -/
theorem C38_alone_partial {env : Env} {dbs : Dbs} {trI trM trB trC : Trace} {w t : Nat} {x0 x z : Conf}
    {op : Op} {n : List Char} {r : Reply}
    (h : Run env (Conf.init dbs) (trI ++ (.invalidate w, x0) :: (trM ++ (.act w, x) ::
      (trB ++ (.call t (.getDb n), z) :: trC))))
    (hw : .call w op ∈ trI.events) (hop : op.invalidates = some n)
    (hbefore : ∀ u, .call u (.getDb n) ∈ trI.events → ∃ r, .ret u r ∈ trI.events)
    (hduring : ∀ u, .call u (.getDb n) ∉ trM.events) (hret : .ret t r ∈ trC.events) :
    ∃ y ∈ Trace.confs x (trB ++ (.call t (.getDb n), z) :: trC), r = Dbs.getDb env n y.dbs := by
  refine C38_visible_partial h hw hop ?_ hret
  intro u hu
  obtain ⟨⟨e, y⟩, hp, he⟩ := List.mem_map.mp hu
  simp only at he
  subst he
  obtain ⟨m1, m2, rfl⟩ := List.append_of_mem hp
  have e1 : trI ++ (.invalidate w, x0) :: ((m1 ++ (.fill u n, y) :: m2) ++ (.act w, x) ::
      (trB ++ (.call t (.getDb n), z) :: trC)) =
      (trI ++ (.invalidate w, x0) :: m1) ++ (.fill u n, y) :: (m2 ++ (.act w, x) ::
      (trB ++ (.call t (.getDb n), z) :: trC)) := by simp
  rw [e1] at h
  have hs := h.at
  have ti := (h.split _ _).1.taskInv
  have hn : ∃ r, (Trace.last (Conf.init dbs) (trI ++ (.invalidate w, x0) :: m1)).tasks u = some (.getDb n, .acted r) := by
    generalize Trace.last (Conf.init dbs) (trI ++ (.invalidate w, x0) :: m1) = c at hs
    cases hs with
    | fill hn => exact ⟨_, hn⟩
  obtain ⟨r1, hn⟩ := hn
  have hcall := ti.called u _ _ hn
  simp only [Trace.events, List.map_append, List.map_cons, List.mem_append, List.mem_cons, reduceCtorEq, false_or]
    at hcall
  rcases hcall with hcall | hcall
  · obtain ⟨r2, h2⟩ := hbefore u hcall
    obtain ⟨op2, h3⟩ := ti.returned u r2 (by rw [Trace.events_append]; exact List.mem_append_left _ h2)
    rw [hn] at h3
    cases h3
  · exact hduring u (by simp only [Trace.events, List.map_append, List.mem_append]; exact .inl hcall)

/-- A cancelled task does nothing more. -/
theorem Step.cancelled {env : Env} {c c' : Conf} {e : Ev} (hs : Step env c e c') {t : Nat} {op : Op}
    (h : c.tasks t = some (op, .cancelled)) : c'.tasks t = some (op, .cancelled) := by
  have key : ∀ u op' pc pc', c.tasks u = some (op', pc) → pc ≠ .cancelled →
      (if t = u then some (op', pc') else c.tasks t) = some (op, .cancelled) := by
    rintro u op' pc pc' h1 h2
    rw [if_neg, h]
    rintro rfl
    rw [h] at h1
    cases h1
    exact h2 rfl
  cases hs with
  | @call u op' hn =>
    show (if t = u then _ else _) = _
    rw [if_neg, h]
    rintro rfl
    rw [h] at hn
    cases hn
  | refuse hn hb => exact key _ _ _ _ hn (by simp)
  | invalidate hn hi => exact key _ _ _ _ hn (by simp)
  | hit hn hb => exact key _ _ _ _ hn (by simp)
  | miss hn hb => exact key _ _ _ _ hn (by simp)
  | @acquire u op' pc hn ha hl => exact key _ _ _ _ hn (by rintro rfl; cases op' <;> simp [Op.asks] at ha)
  | act hn => exact key _ _ _ _ hn (by simp)
  | uncache hn => exact key _ _ _ _ hn (by simp)
  | fill hn => exact key _ _ _ _ hn (by simp)
  | @ret u op' pc r hn hr => exact key _ _ _ _ hn (by rintro rfl; cases op' <;> simp [Op.returns] at hr)
  | drop hn => exact key _ _ _ _ hn (by simp)
  | unlink hn => exact key _ _ _ _ hn (by simp)
  | cancel hn ha => exact key _ _ _ _ hn (by rintro rfl; exact ha)
  | cancelLocked hn ha => exact key _ _ _ _ hn (by simp)
  | evict m => exact h

/-- C38 for `add_db`, which invalidates after its change and with the lock held: every `get_db` called
after it returned answers with the databases as they were at some moment since. -/
theorem C38_add_db {env : Env} {dbs : Dbs} {trA trB trC : Trace} {w t : Nat} {x z : Conf}
    {n : List Char} {o : Bool} {r r' : Reply}
    (h : Run env (Conf.init dbs) (trA ++ (.act w, x) :: (trB ++ (.call t (.getDb n), z) :: trC)))
    (hw : .call w (.newDb n o) ∈ trA.events) (hdone : .ret w r' ∈ trB.events) (hret : .ret t r ∈ trC.events) :
    ∃ y ∈ Trace.confs x (trB ++ (.call t (.getDb n), z) :: trC), r = Dbs.getDb env n y.dbs := by
  have hwx : ∃ r, x.tasks w = some (.newDb n o, .acted r) := by
    have hs := h.at
    obtain ⟨pc, hpc⟩ := (h.split _ _).1.taskInv.running w _ hw
    generalize Trace.last (Conf.init dbs) trA = c at hs hpc
    cases hs with
    | @act _ op hn =>
      rw [hpc] at hn
      cases hn
      exact ⟨_, if_pos rfl⟩
  obtain ⟨r0, hwx⟩ := hwx
  -- it invalidates before it returns
  have hinv : ∀ tr, Run env x tr → ((Trace.last x tr).tasks w = some (.newDb n o, .acted r0) ∨
      (Trace.last x tr).tasks w = some (.newDb n o, .cancelled)) ∨
      ∃ t1 y t2, tr = t1 ++ (.invalidate w, y) :: t2 ∧ AMap.get n y.cache = none ∧
        y.tasks w = some (.newDb n o, .cached r0) := by
    intro tr hrun
    induction hrun with
    | nil => exact .inl (.inl hwx)
    | @snoc tr e c' hrun hs ih =>
      rcases ih with (ih | ih) | ⟨t1, y, t2, rfl, h1, h2⟩
      · rw [Trace.last_snoc]
        have key : ∀ t op pc, t ≠ w → (∀ i, c'.tasks i = if i = t then some (op, pc) else (Trace.last x tr).tasks i) →
            c'.tasks w = some (.newDb n o, .acted r0) := by
          intro t op pc ht hget
          rw [hget, if_neg (fun e => ht e.symm)]
          exact ih
        have hne : ∀ t op pc, (Trace.last x tr).tasks t = some (op, pc) → pc ≠ .acted r0 → t ≠ w := by
          rintro t op pc h1 h2 rfl
          rw [ih] at h1
          cases h1
          exact h2 rfl
        cases hs with
        | @call t op hn => exact .inl (.inl (key t op .start (by rintro rfl; rw [ih] at hn; cases hn) (fun _ => rfl)))
        | refuse hn hb => exact .inl (.inl (key _ _ _ (hne _ _ _ hn (by simp)) (fun _ => rfl)))
        | invalidate hn hi => exact .inl (.inl (key _ _ _ (hne _ _ _ hn (by simp)) (fun _ => rfl)))
        | hit hn hb => exact .inl (.inl (key _ _ _ (hne _ _ _ hn (by simp)) (fun _ => rfl)))
        | miss hn hb => exact .inl (.inl (key _ _ _ (hne _ _ _ hn (by simp)) (fun _ => rfl)))
        | @acquire t op pc hn ha hl =>
          refine .inl (.inl (key _ _ _ (hne _ _ _ hn ?_) (fun _ => rfl)))
          rintro rfl
          cases op <;> simp [Op.asks] at ha
        | act hn => exact .inl (.inl (key _ _ _ (hne _ _ _ hn (by simp)) (fun _ => rfl)))
        | @uncache t m o' r1 hn =>
          by_cases ht : t = w
          · subst ht
            rw [ih] at hn
            cases hn
            refine .inr ⟨tr, _, [], rfl, ?_, if_pos rfl⟩
            show AMap.get n (AMap.erase n _) = none
            rw [AMap.get_erase, if_pos rfl]
          · exact .inl (.inl (key _ _ _ ht (fun _ => rfl)))
        | fill hn =>
          refine .inl (.inl (key _ _ _ ?_ (fun _ => rfl)))
          rintro rfl
          rw [ih] at hn
          cases hn
        | @ret t op pc r1 hn hr =>
          refine .inl (.inl (key _ _ _ ?_ (fun _ => rfl)))
          rintro rfl
          rw [ih] at hn
          cases hn
          cases hr
        | drop hn =>
          refine .inl (.inl (key _ _ _ ?_ (fun _ => rfl)))
          rintro rfl
          rw [ih] at hn
          cases hn
        | unlink hn => exact .inl (.inl (key _ _ _ (hne _ _ _ hn (by simp)) (fun _ => rfl)))
        | cancel hn ha =>
          exact .inl (.inl (key _ _ _ (hne _ _ _ hn (by rintro rfl; exact ha)) (fun _ => rfl)))
        | @cancelLocked t op r1 hn ha =>
          by_cases ht : t = w
          · subst ht
            rw [ih] at hn
            cases hn
            exact .inl (.inr (if_pos rfl))
          · exact .inl (.inl (key _ _ _ ht (fun _ => rfl)))
        | evict m => exact .inl (.inl ih)
      · rw [Trace.last_snoc]; exact .inl (.inr (hs.cancelled ih))
      · exact .inr ⟨t1, y, t2 ++ [(e, c')], by simp, h1, h2⟩
  have hB := (h.upto.2.split _ _).1
  rcases hinv trB hB with hB1 | ⟨t1, y, t2, rfl, hy1, hy2⟩
  · -- it returned, so it is not there any more
    have e1 : trA ++ (.act w, x) :: (trB ++ (.call t (.getDb n), z) :: trC) =
      (trA ++ (.act w, x) :: trB) ++ (.call t (.getDb n), z) :: trC := by simp
    rw [e1] at h
    have ti := (h.split _ _).1.taskInv
    rw [last_cons] at ti
    obtain ⟨op2, h3⟩ := ti.returned w r' (by
      simp only [Trace.events, List.map_append, List.map_cons, List.mem_append, List.mem_cons]
      exact .inr (.inr hdone))
    rcases hB1 with hB1 | hB1 <;> rw [hB1] at h3 <;> cases h3
  · have e1 : trA ++ (.act w, x) :: ((t1 ++ (.invalidate w, y) :: t2) ++ (.call t (.getDb n), z) :: trC) =
        (trA ++ (.act w, x) :: t1) ++ (.invalidate w, y) :: (t2 ++ (.call t (.getDb n), z) :: trC) := by simp
    rw [e1] at h
    have hnew := not_yet h
    have hi := h.upto.1
    have hl : Trace.last (Conf.init dbs) ((trA ++ (.act w, x) :: t1) ++ [(.invalidate w, y)]) = y := Trace.last_snoc ..
    have hta : ∀ u r, y.tasks u ≠ some (.getDb n, .acted r) := by
      intro u r hu
      have := C39_exclusive hi w u _ _ (.cached r0) (.acted r) (by rw [hl]; exact hy2) trivial (by rw [hl]; exact hu) trivial
      subst this
      rw [hy2] at hu
      cases hu
    have h2 := h.upto.2
    have hd : (Trace.last y (t2 ++ (.call t (.getDb n), z) :: trC)).tasks t = some (.getDb n, .done r) := by
      rw [← last_cons (Conf.init dbs) (trA ++ (.act w, x) :: t1) (.invalidate w) y]
      obtain ⟨op', h4⟩ := h.taskInv.returned t r (by
        simp only [Trace.events, List.map_append, List.map_cons, List.mem_append, List.mem_cons]
        exact .inr (.inr (.inr (.inr hret))))
      obtain ⟨pc, h5⟩ := h.taskInv.running t (.getDb n) (by simp [Trace.events])
      rw [h4] at h5
      cases h5
      exact h4
    obtain ⟨v, hv, e⟩ := (h2.reads n hy1 hta).2.2 t r hnew (.inr hd)
    refine ⟨v, ?_, e⟩
    have e2 : (t1 ++ (.invalidate w, y) :: t2) ++ (.call t (.getDb n), z) :: trC =
      t1 ++ (.invalidate w, y) :: (t2 ++ (.call t (.getDb n), z) :: trC) := by simp
    rw [e2]
    exact Trace.confs_append _ _ _ _ _ _ hv

/-! ## C55 -/

/-- A step of a task, not an arrival, a cancellation or an eviction. -/
def Ev.isWork : Ev → Prop
  | .call _ _ | .cancel _ | .evict _ => False
  | _ => True

/-- C55: no deadlock. As long as a call has not returned and was not cancelled, some call can take a step. -/
theorem C55_progress {env : Env} {dbs : Dbs} {tr : Trace} (h : Run env (Conf.init dbs) tr) {t : Nat} {op : Op} {pc : Pc}
    (ht : (Trace.last (Conf.init dbs) tr).tasks t = some (op, pc)) (hpc : ∀ r, pc ≠ .done r)
    (hcn : pc ≠ .cancelled) :
    ∃ e c', Step env (Trace.last (Conf.init dbs) tr) e c' ∧ e.isWork := by
  have si := h.shapeInv
  have ti := h.taskInv
  generalize Trace.last (Conf.init dbs) tr = c at ht si ti
  cases hl : c.lock with
  | some u =>
    obtain ⟨op1, pc1, hu, hh⟩ := si.held u hl
    have ha := si.at_ u op1 pc1 hu (by rintro rfl; exact hh)
    cases pc1 with
    | start | missed | invalidated | unlinking | done | cancelled => cases hh
    | locked => exact ⟨_, _, .act hu, trivial⟩
    | acted r =>
      cases op1 with
      | newDb n o => exact ⟨_, _, .uncache hu, trivial⟩
      | getDb n =>
        cases r with
        | bytes b => exact ⟨_, _, .fill hu, trivial⟩
        | status | value | creation | names | error | rejected | aborted =>
          exact ⟨_, _, .ret hu (.inr ⟨rfl, by simp⟩), trivial⟩
      | removeDb n io =>
        simp only [Op.At, reduceCtorEq, Pc.acted.injEq, exists_false, or_false, false_or] at ha
        rcases ha with rfl | rfl
        · exact ⟨_, _, .ret hu ⟨rfl, rfl⟩, trivial⟩
        · exact ⟨_, _, .drop hu, trivial⟩
      | newDbWith n o s => exact ⟨_, _, .ret (r := r) hu rfl, trivial⟩
      | clearDb n => exact ⟨_, _, .ret (r := r) hu rfl, trivial⟩
      | addKv n k c o v => exact ⟨_, _, .ret (r := r) hu rfl, trivial⟩
      | getValue n k => exact ⟨_, _, .ret (r := r) hu rfl, trivial⟩
      | removeKey n k => exact ⟨_, _, .ret (r := r) hu rfl, trivial⟩
      | allNames => exact ⟨_, _, .ret (r := r) hu rfl, trivial⟩
    | cached r =>
      cases op1 with
      | newDb n o => exact ⟨_, _, .ret (r := r) hu rfl, trivial⟩
      | getDb n => exact ⟨_, _, .ret (r := r) hu (.inl rfl), trivial⟩
      | _ => simp [Op.At] at ha
  | none =>
    have ha := si.at_ t op pc ht hcn
    cases pc with
    | start =>
      cases op with
      | newDb n o =>
        cases hb : badName n with
        | true => exact ⟨_, _, .refuse ht hb, trivial⟩
        | false => exact ⟨_, _, .acquire ht ⟨rfl, hb⟩ hl, trivial⟩
      | getDb n =>
        cases hc : AMap.get n c.cache with
        | none => exact ⟨_, _, .miss ht hc, trivial⟩
        | some b => exact ⟨_, _, .hit ht hc, trivial⟩
      | getValue n k => exact ⟨_, _, .acquire ht rfl hl, trivial⟩
      | allNames => exact ⟨_, _, .acquire ht rfl hl, trivial⟩
      | newDbWith n o s => exact ⟨_, _, .invalidate ht rfl, trivial⟩
      | clearDb n => exact ⟨_, _, .invalidate ht rfl, trivial⟩
      | removeDb n io => exact ⟨_, _, .invalidate ht rfl, trivial⟩
      | addKv n k c o v => exact ⟨_, _, .invalidate ht rfl, trivial⟩
      | removeKey n k => exact ⟨_, _, .invalidate ht rfl, trivial⟩
    | missed =>
      cases op with
      | getDb n => exact ⟨_, _, .acquire ht rfl hl, trivial⟩
      | _ => simp [Op.At] at ha
    | invalidated =>
      cases op with
      | newDb | getDb | getValue | allNames => simp [Op.At] at ha
      | newDbWith n o s => exact ⟨_, _, .acquire ht rfl hl, trivial⟩
      | clearDb n => exact ⟨_, _, .acquire ht rfl hl, trivial⟩
      | removeDb n io => exact ⟨_, _, .acquire ht rfl hl, trivial⟩
      | addKv n k c o v => exact ⟨_, _, .acquire ht rfl hl, trivial⟩
      | removeKey n k => exact ⟨_, _, .acquire ht rfl hl, trivial⟩
    | locked => rw [ti.exclusive t op _ ht trivial] at hl; cases hl
    | acted r => rw [ti.exclusive t op _ ht trivial] at hl; cases hl
    | cached r => rw [ti.exclusive t op _ ht trivial] at hl; cases hl
    | unlinking =>
      cases op with
      | removeDb n io => exact ⟨_, _, .unlink ht, trivial⟩
      | _ => simp [Op.At] at ha
    | done r => exact absurd rfl (hpc r)
    | cancelled => exact absurd rfl hcn

/-- C55: a call that returned or was cancelled does not keep the lock. -/
theorem C55_released {env : Env} {dbs : Dbs} {tr : Trace} (h : Run env (Conf.init dbs) tr) {t : Nat} {op : Op} {pc : Pc}
    (ht : (Trace.last (Conf.init dbs) tr).tasks t = some (op, pc)) (hpc : (∃ r, pc = .done r) ∨ pc = .cancelled) :
    (Trace.last (Conf.init dbs) tr).lock ≠ some t := by
  intro hl
  obtain ⟨op1, pc1, hu, hh⟩ := h.shapeInv.held t hl
  rw [ht] at hu
  cases hu
  rcases hpc with ⟨r, rfl⟩ | rfl <;> exact hh

/-- C55: every call takes at most five steps after its arrival. -/
theorem C55_bounded {env : Env} {dbs : Dbs} {tr : Trace} (h : Run env (Conf.init dbs) tr) (t : Nat) :
    tr.events.countP (fun e => e.task == some t) ≤ 6 := by
  have key : match (Trace.last (Conf.init dbs) tr).tasks t with
      | none => tr.events.countP (fun e => e.task == some t) = 0
      | some (_, pc) => tr.events.countP (fun e => e.task == some t) + pc.rank ≤ 6 := by
    induction h with
    | nil => rfl
    | @snoc tr e c' h hs ih =>
      rw [Trace.last_snoc, Trace.events_snoc, List.countP_append]
      by_cases he : e.task = some t
      · by_cases hcall : ∃ op, e = .call t op
        · obtain ⟨op, rfl⟩ := hcall
          generalize Trace.last (Conf.init dbs) tr = c at hs ih
          cases hs with
          | call op hn =>
            rw [hn] at ih
            simp only at ih
            have h1 : (Conf.set c t op .start).tasks t = some (op, .start) := if_pos rfl
            rw [h1]
            show _ + _ + 5 ≤ 6
            rw [ih]
            simp [List.countP_cons, Ev.task]
        · obtain ⟨op, pc, pc', h1, h2, h3⟩ := hs.rank t he (fun op e => hcall ⟨op, e⟩)
          rw [h1] at ih
          rw [h2]
          simp only at ih ⊢
          simp [he]
          omega
      · have hsame : c'.tasks t = (Trace.last (Conf.init dbs) tr).tasks t := by
          rcases hs.moves with ⟨_, htasks, _⟩ | ⟨u, op, pc', hu, htasks, _⟩
          · rw [htasks]
          · rw [htasks]
            exact if_neg (fun e => he (by rw [hu, e]))
        rw [hsame]
        simpa [he] using ih
  cases ht : (Trace.last (Conf.init dbs) tr).tasks t with
  | none => rw [ht] at key; simp only at key; omega
  | some p => rw [ht] at key; simp only at key; omega

/-! ## A run in which a read is stale -/

theorem Run.cons {env : Env} {c c' : Conf} {e : Ev} {tr : Trace} (hs : Step env c e c') (h : Run env c' tr) :
    Run env c ((e, c') :: tr) := by
  induction h with
  | nil => exact .snoc (tr := []) .nil hs
  | @snoc tr e2 c2 h hs2 ih =>
    have e1 : (e, c') :: (tr ++ [(e2, c2)]) = ((e, c') :: tr) ++ [(e2, c2)] := rfl
    rw [e1]
    refine .snoc ih ?_
    have : Trace.last c ((e, c') :: tr) = Trace.last c' tr := last_cons c [] e c' tr
    rw [this]
    exact hs2

namespace Stale

def d : List Char := ['d']
def k : List Char := ['k']
def G : Op := .getDb d
def W : Op := .addKv d k false false .null

/-! The configurations: task 0 reads, task 1 writes, task 2 reads after the write was answered. -/

def c0 : Conf := Conf.init [(d, [])]
def c1 : Conf := c0.set 0 G .start
def c2 : Conf := c1.set 0 G .missed
def c3 : Conf := c2.set 1 W .start
def c4 : Conf := { c3 with cache := AMap.erase d c3.cache }.set 1 W .invalidated
def c5 : Conf := { c4 with lock := some 0 }.set 0 G .locked
def c6 (env : Env) : Conf := { c5 with dbs := (G.act env c5.dbs).2 }.set 0 G (.acted (G.act env c5.dbs).1)
def c7 (env : Env) (b : List UInt8) : Conf :=
  { c6 env with cache := AMap.insert d b (c6 env).cache }.set 0 G (.cached (.bytes b))
def c8 (env : Env) (b : List UInt8) : Conf := { c7 env b with lock := none }.set 0 G (.done (.bytes b))
def c9 (env : Env) (b : List UInt8) : Conf := { c8 env b with lock := some 1 }.set 1 W .locked
def c10 (env : Env) (b : List UInt8) : Conf :=
  { c9 env b with dbs := (W.act env (c9 env b).dbs).2 }.set 1 W (.acted (W.act env (c9 env b).dbs).1)
def c11 (env : Env) (b : List UInt8) : Conf :=
  { c10 env b with lock := none }.set 1 W (.done (.creation .insertedKeyIntoExistingDB))
def c12 (env : Env) (b : List UInt8) : Conf := (c11 env b).set 2 G .start
def c13 (env : Env) (b : List UInt8) : Conf := (c12 env b).set 2 G (.done (.bytes b))

/-- The writer invalidates before the reader puts the old copy into the cache. -/
theorem run (env : Env) (b : List UInt8) (hb : Store.ser env [] = .ok b) :
    Run env c0 ([(.call 0 G, c1), (.miss 0, c2), (.call 1 W, c3), (.invalidate 1, c4), (.acquire 0, c5),
      (.act 0, c6 env), (.fill 0 d, c7 env b), (.ret 0 (.bytes b), c8 env b), (.acquire 1, c9 env b)] ++
      (.act 1, c10 env b) :: ([(.ret 1 (.creation .insertedKeyIntoExistingDB), c11 env b)] ++
      (.call 2 G, c12 env b) :: [(.ret 2 (.bytes b), c13 env b)])) := by
  refine .cons (.call G rfl) (.cons (.miss rfl rfl) (.cons (.call W rfl) (.cons (.invalidate rfl rfl)
    (.cons (.acquire rfl rfl rfl) (.cons (.act rfl) (.cons (.fill ?_) (.cons (.ret rfl (.inl rfl))
    (.cons (.acquire rfl rfl rfl) (.cons (.act rfl) (.cons (.ret (pc := .acted _) rfl rfl) (.cons (.call G rfl)
    (.cons (.hit rfl rfl) .nil))))))))))))
  show some (G, Pc.acted (Dbs.getDb env d [(d, [])])) = _
  have : Dbs.getDb env d [(d, [])] = .bytes b := by
    show (match Store.ser env [] with
      | .ok b => Reply.bytes b
      | .err _ | .panic _ => .aborted) = _
    rw [hb]
  rw [this]
  rfl

end Stale

/-- C38 is violated: task 2 calls `get_db` after the `add_kv` of task 1 was answered with "inserted", and
gets the bytes of the database without the key, although it was there at every moment since. -/
theorem C38_refuted {env : Env} (hbo : HashOrder env.byteOrd) (hco : HashOrder env.charOrd) (hmo : HashOrder env.mapOrd) :
    ∃ (trA trB trC : Trace) (x z : Conf) (b : List UInt8),
      Run env (Conf.init [(Stale.d, [])]) (trA ++ (.act 1, x) :: (trB ++ (.call 2 (.getDb Stale.d), z) :: trC)) ∧
      .call 1 (.addKv Stale.d Stale.k false false .null) ∈ trA.events ∧
      .ret 1 (.creation .insertedKeyIntoExistingDB) ∈ trB.events ∧ .ret 2 (.bytes b) ∈ trC.events ∧
      Store.ser env [] = .ok b ∧
      ∀ y ∈ Trace.confs x (trB ++ (.call 2 (.getDb Stale.d), z) :: trC),
        AMap.get Stale.d y.dbs = some [(Stale.k, .null)] ∧ Dbs.getDb env Stale.d y.dbs ≠ .bytes b := by
  obtain ⟨_, _, f1, comp1, h1, hf1, _⟩ := C35_no_text env hbo hco [] (by
    intro t ht
    cases ht with
    | key h => cases h
    | map h _ => cases h)
  obtain ⟨_, _, _, f2, comp2, h2, hf2, _⟩ := C35_covers env hbo hco [(Stale.k, .null)]
    ⟨Stale.k, .key (v := .null) (by simp), by simp [Stale.k]⟩
  have hm : env.mapOrd [(Stale.k, Value.null)] = [(Stale.k, .null)] := List.perm_singleton.mp (hmo _)
  have hdbs : (Stale.W.act env [(Stale.d, [])]).2 = [(Stale.d, [(Stale.k, .null)])] := by
    show [(Stale.d, env.mapOrd [(Stale.k, Value.null)])] = _
    rw [hm]
  have key : ∀ y : Conf, y.dbs = [(Stale.d, [(Stale.k, .null)])] →
      AMap.get Stale.d y.dbs = some [(Stale.k, .null)] ∧
      Dbs.getDb env Stale.d y.dbs ≠ .bytes (sourisdb ++ f1 :: comp1) := by
    intro y hy
    rw [hy]
    refine ⟨rfl, ?_⟩
    show (match Store.ser env [(Stale.k, .null)] with
      | .ok b => Reply.bytes b
      | .err _ | .panic _ => .aborted) ≠ _
    rw [h2]
    intro e
    simp only [Reply.bytes.injEq, List.append_cancel_left_eq, List.cons.injEq] at e
    rw [e.1] at hf2
    omega
  refine ⟨_, _, _, _, _, _, Stale.run env _ h1, ?_, ?_, ?_, h1, ?_⟩
  · simp [Trace.events, Stale.W]
  · simp [Trace.events]
  · simp [Trace.events]
  · intro y hy
    simp only [Trace.confs, List.cons_append, List.nil_append, List.map_cons, List.map_nil, List.mem_cons,
      List.not_mem_nil, or_false] at hy
    rcases hy with rfl | rfl | rfl | rfl <;> exact key _ hdbs

/-- C38, finding beyond its statement: an `add_db` that empties a database is cancelled after its change
(its client went away while it waited for the cache at L77). It was never answered, but the database is
empty from then on: `get_value` says that the key is not there. A `get_db` called after that still answers
with the key, from the cache. -/
theorem C38_cancelled_stale {env : Env} (hbo : HashOrder env.byteOrd) (hco : HashOrder env.charOrd) :
    ∃ (trA trB trC trD : Trace) (x y z : Conf) (b : List UInt8),
      Run env (Conf.init [(Stale.d, [(Stale.k, .null)])]) (trA ++ (.act 1, x) :: (trB ++
        (.ret 3 (.error .keyNotFound), y) :: (trC ++ (.call 2 (.getDb Stale.d), z) :: trD))) ∧
      .call 1 (.newDb Stale.d true) ∈ trA.events ∧ .cancel 1 ∈ trB.events ∧
      .call 3 (.getValue Stale.d Stale.k) ∈ trB.events ∧
      .ret 2 (.bytes b) ∈ trD.events ∧ Store.ser env [(Stale.k, .null)] = .ok b ∧
      ∀ c ∈ Trace.confs x (trB ++ (.ret 3 (.error .keyNotFound), y) :: (trC ++ (.call 2 (.getDb Stale.d), z) :: trD)),
        AMap.get Stale.d c.dbs = some [] ∧ Dbs.getDb env Stale.d c.dbs ≠ .bytes b := by
  obtain ⟨_, _, f1, comp1, h1, hf1, _⟩ := C35_no_text env hbo hco [] (by
    intro t ht
    cases ht with
    | key h => cases h
    | map h _ => cases h)
  obtain ⟨_, _, _, f2, comp2, h2, hf2, _⟩ := C35_covers env hbo hco [(Stale.k, .null)]
    ⟨Stale.k, .key (v := .null) (by simp), by simp [Stale.k]⟩
  have key : ∀ y : Conf, y.dbs = [(Stale.d, [])] →
      AMap.get Stale.d y.dbs = some [] ∧ Dbs.getDb env Stale.d y.dbs ≠ .bytes (sourisdb ++ f2 :: comp2) := by
    intro y hy
    rw [hy]
    refine ⟨rfl, ?_⟩
    show (match Store.ser env [] with
      | .ok b => Reply.bytes b
      | .err _ | .panic _ => .aborted) ≠ _
    rw [h1]
    intro e
    simp only [Reply.bytes.injEq, List.append_cancel_left_eq, List.cons.injEq] at e
    rw [← e.1] at hf2
    omega
  have hg : Dbs.getDb env Stale.d [(Stale.d, [(Stale.k, .null)])] = .bytes (sourisdb ++ f2 :: comp2) := by
    show (match Store.ser env [(Stale.k, .null)] with
      | .ok b => Reply.bytes b
      | .err _ | .panic _ => .aborted) = _
    rw [h2]
  refine ⟨[(.call 0 Stale.G, _), (.miss 0, _), (.acquire 0, _), (.act 0, _), (.fill 0 Stale.d, _), (.ret 0 _, _),
      (.call 1 (.newDb Stale.d true), _), (.acquire 1, _)],
    [(.cancel 1, _), (.call 3 (.getValue Stale.d Stale.k), _), (.acquire 3, _), (.act 3, _)], [],
    [(.ret 2 (.bytes (sourisdb ++ f2 :: comp2)), _)], _, _, _, _,
    .cons (.call Stale.G rfl) (.cons (.miss rfl rfl) (.cons (.acquire rfl rfl rfl) (.cons (.act rfl)
      (.cons (.fill (b := sourisdb ++ f2 :: comp2) ?_) (.cons (.ret rfl (.inl rfl))
      (.cons (.call (.newDb Stale.d true) rfl) (.cons (.acquire rfl ⟨rfl, rfl⟩ rfl) (.cons (.act rfl)
      (.cons (.cancelLocked rfl trivial) (.cons (.call (.getValue Stale.d Stale.k) rfl)
      (.cons (.acquire rfl rfl rfl) (.cons (.act rfl) (.cons (.ret (pc := .acted _) rfl rfl)
      (.cons (.call Stale.G rfl) (.cons (.hit rfl rfl) .nil))))))))))))))), ?_, ?_, ?_, ?_, h2, ?_⟩
  · show some (Stale.G, Pc.acted (Dbs.getDb env Stale.d [(Stale.d, [(Stale.k, .null)])])) = _
    rw [hg]
    rfl
  · simp [Trace.events]
  · simp [Trace.events]
  · simp [Trace.events]
  · simp [Trace.events]
  · intro c hc
    simp only [Trace.confs, List.cons_append, List.nil_append, List.map_cons, List.map_nil, List.mem_cons,
      List.not_mem_nil, or_false] at hc
    rcases hc with rfl | rfl | rfl | rfl | rfl | rfl | rfl | rfl <;> exact key _ rfl

/-- The same requests in another order: the write is seen. -/
theorem Stale.freshRun (env : Env) (b : List UInt8) (hmo : HashOrder env.mapOrd)
    (hb : Store.ser env [(Stale.k, .null)] = .ok b) :
    ∃ (x0 x z : Conf) (t1 t2 t3 t4 : Trace),
      Run env Stale.c0 (t1 ++ (.invalidate 1, x0) :: (t2 ++ (.act 1, x) :: (t3 ++ (.call 2 Stale.G, z) :: t4))) ∧
      .call 1 Stale.W ∈ t1.events ∧ (∀ u, .fill u Stale.d ∉ t2.events) ∧ .ret 2 (.bytes b) ∈ t4.events := by
  refine ⟨_, _, _, [(.call 1 Stale.W, _)], [(.acquire 1, _)], [(.ret 1 (.creation .insertedKeyIntoExistingDB), _)],
    [(.miss 2, _), (.acquire 2, _), (.act 2, _), (.fill 2 Stale.d, _), (.ret 2 (.bytes b), _)],
    .cons (.call Stale.W rfl) (.cons (.invalidate rfl rfl) (.cons (.acquire rfl rfl rfl) (.cons (.act rfl)
    (.cons (.ret (pc := .acted _) rfl rfl) (.cons (.call Stale.G rfl) (.cons (.miss rfl rfl)
    (.cons (.acquire rfl rfl rfl) (.cons (.act rfl) (.cons (.fill ?_) (.cons (.ret rfl (.inl rfl)) .nil)))))))))), ?_, ?_, ?_⟩
  · show some (Stale.G, Pc.acted (Dbs.getDb env Stale.d [(Stale.d, env.mapOrd [(Stale.k, Value.null)])])) = _
    have hm : env.mapOrd [(Stale.k, Value.null)] = [(Stale.k, .null)] := List.perm_singleton.mp (hmo _)
    have : Dbs.getDb env Stale.d [(Stale.d, env.mapOrd [(Stale.k, Value.null)])] = .bytes b := by
      rw [hm]
      show (match Store.ser env [(Stale.k, .null)] with
        | .ok b => Reply.bytes b
        | .err _ | .panic _ => .aborted) = _
      rw [hb]
    rw [this]
    rfl
  · simp [Trace.events]
  · simp [Trace.events]
  · simp [Trace.events]

/-- The hypotheses of `C38_visible_partial` and `C38_alone_partial` can be met. -/
example : ∃ (x0 x z : Conf) (t1 t2 t3 t4 : Trace) (b : List UInt8),
    Run sampleEnv (Conf.init [(Stale.d, [])])
      (t1 ++ (.invalidate 1, x0) :: (t2 ++ (.act 1, x) :: (t3 ++ (.call 2 (.getDb Stale.d), z) :: t4))) ∧
    .call 1 Stale.W ∈ t1.events ∧ Stale.W.invalidates = some Stale.d ∧ (∀ u, .fill u Stale.d ∉ t2.events) ∧
    .ret 2 (.bytes b) ∈ t4.events := by
  obtain ⟨b, hb⟩ := Store.ser_total sampleEnv (fun _ => .refl _) (fun _ => .refl _) [(Stale.k, .null)]
  obtain ⟨x0, x, z, t1, t2, t3, t4, h1, h2, h3, h4⟩ := Stale.freshRun sampleEnv b (fun _ => .refl _) hb
  exact ⟨x0, x, z, t1, t2, t3, t4, b, h1, h2, rfl, h3, h4⟩

/-- A run of three tasks, for C39, C40 and C55. -/
example : ∃ tr, Run sampleEnv (Conf.init [(Stale.d, [])]) tr ∧ tr.length = 13 ∧
    .call 2 (.getDb Stale.d) ∈ Trace.events tr := by
  obtain ⟨b, hb⟩ := Store.ser_total sampleEnv (fun _ => .refl _) (fun _ => .refl _) []
  exact ⟨_, Stale.run sampleEnv b hb, rfl, by simp [Trace.events, Stale.G]⟩

/-- `add_db` of an existing database with overwriting, between two reads, for `C38_add_db`. -/
example : ∃ (x z : Conf) (t1 t2 t3 : Trace) (r : Reply),
    Run sampleEnv (Conf.init [(Stale.d, [(Stale.k, .null)])])
      (t1 ++ (.act 1, x) :: (t2 ++ (.call 2 (.getDb Stale.d), z) :: t3)) ∧
    .call 1 (.newDb Stale.d true) ∈ t1.events ∧ .ret 1 (.status 200) ∈ t2.events ∧ .ret 2 r ∈ t3.events := by
  obtain ⟨b, hb⟩ := Store.ser_total sampleEnv (fun _ => .refl _) (fun _ => .refl _) []
  refine ⟨_, _, [(.call 1 (.newDb Stale.d true), _), (.acquire 1, _)], [(.invalidate 1, _), (.ret 1 (.status 200), _)],
    [(.miss 2, _), (.acquire 2, _), (.act 2, _), (.fill 2 Stale.d, _), (.ret 2 (.bytes b), _)], .bytes b,
    .cons (.call (.newDb Stale.d true) rfl) (.cons (.acquire rfl ⟨rfl, rfl⟩ rfl) (.cons (.act rfl)
    (.cons (.uncache rfl) (.cons (.ret rfl rfl) (.cons (.call Stale.G rfl) (.cons (.miss rfl rfl)
    (.cons (.acquire rfl rfl rfl) (.cons (.act rfl) (.cons (.fill ?_) (.cons (.ret rfl (.inl rfl)) .nil)))))))))), ?_, ?_, ?_⟩
  · show some (Stale.G, Pc.acted (match Store.ser sampleEnv [] with
        | .ok b => Reply.bytes b
        | .err _ | .panic _ => .aborted)) = _
    rw [hb]
    rfl
  · simp [Trace.events]
  · simp [Trace.events]
  · simp [Trace.events]

end Souris
