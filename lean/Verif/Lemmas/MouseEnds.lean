import Verif.Lemmas.MouseEntry
import Verif.Spec.Mouse

/-! # How the dialogs of `mouse` end, and that the bounds in their models are never reached -/

namespace Souris

namespace Mouse

/-! ## Outcomes -/

/-- An outcome on the script `s`: part of it is used, or a prompt or a file failed, or it is stuck. -/
def Ends (T : Term) {α : Type} (o : Out Stop (α × List Answer)) (s : List Answer) : Prop :=
  match o with
  | .ok (_, rest) => ∃ used, s = used ++ rest
  | .err (.error e) => e = .dialoguer ∨ e = .io
  | .err .hang => Stuck T s
  | .panic _ => False

theorem Ends.mono {T : Term} {α : Type} {o : Out Stop (α × List Answer)} {s : List Answer} (h : Ends T o s)
    (pre : List Answer) : Ends T o (pre ++ s) := by
  cases o with
  | ok a => obtain ⟨used, rfl⟩ := h; exact ⟨pre ++ used, by simp⟩
  | err e =>
    cases e with
    | error e => exact h
    | hang => obtain ⟨p, q, rfl, hq⟩ := h; exact ⟨pre ++ p, q, by simp, hq⟩
  | panic p => exact h

theorem Ends.bind {T : Term} {α β : Type} {o : Out Stop (α × List Answer)} {s : List Answer} (h : Ends T o s)
    {f : α × List Answer → Out Stop (β × List Answer)} (hf : ∀ a rest, Ends T (f (a, rest)) rest) :
    Ends T (o >>= f) s := by
  cases o with
  | ok a =>
    obtain ⟨used, rfl⟩ := h
    exact (hf a.1 a.2).mono used
  | err e => cases e <;> exact h
  | panic p => exact h

theorem Ends.failed (T : Term) {α : Type} (s : List Answer) : Ends T (failed : Out Stop (α × List Answer)) s := .inl rfl

theorem Ends.ret (T : Term) {α : Type} (a : α) (s : List Answer) : Ends T (.ok (a, s)) s := ⟨[], rfl⟩

theorem input_ends (T : Term) {α : Type} (parse : List Char → Option α) (s : List Answer) :
    Ends T (input parse s) s := by
  induction s with
  | nil => exact Ends.failed T []
  | cons x s ih =>
    cases x with
    | line t =>
      simp only [input]
      split
      · exact ⟨[.line t], rfl⟩
      · exact ih.mono [.line t]
    | _ => exact Ends.failed T _

theorem confirm_ends (T : Term) (s : List Answer) : Ends T (confirm s) s := by
  cases s with
  | nil => exact Ends.failed T []
  | cons x s =>
    cases x with
    | confirm b => exact ⟨[.confirm b], rfl⟩
    | _ => exact Ends.failed T _

theorem select_ends (T : Term) (n : Nat) (s : List Answer) : Ends T (select n s) s := by
  cases s with
  | nil => exact Ends.failed T []
  | cons x s =>
    cases x with
    | pick i =>
      simp only [select]
      split
      · exact ⟨[.pick i], rfl⟩
      · exact Ends.failed T _
    | _ => exact Ends.failed T _

theorem date_ends (T : Term) (n : Nat) (s : List Answer) : Ends T (date n s) s := by
  induction n generalizing s with
  | zero => exact Ends.failed T s
  | succ n ih =>
    refine (input_ends T _ s).bind fun y s => (input_ends T _ s).bind fun m s => (input_ends T _ s).bind fun d s => ?_
    show Ends T (if Timestamp.dateOk y m d then _ else _) s
    split
    · exact Ends.ret T _ _
    · exact ih s

theorem time_ends (T : Term) (n : Nat) (s : List Answer) : Ends T (time n s) s := by
  induction n generalizing s with
  | zero => exact Ends.failed T s
  | succ n ih =>
    refine (input_ends T _ s).bind fun h s => (input_ends T _ s).bind fun m s => (input_ends T _ s).bind fun c s =>
      (input_ends T _ s).bind fun ms s => ?_
    show Ends T (if Timestamp.timeOk h m c (ms * 1000000) then _ else _) s
    split
    · exact Ends.ret T _ _
    · exact ih s

theorem timestamp_ends (env : Env) (T : Term) (s : List Answer) : Ends T (timestamp env T s) s := by
  refine (confirm_ends T s).bind fun now s => ?_
  cases now with
  | true => exact Ends.ret T _ _
  | false =>
    refine (confirm_ends T s).bind fun fmt s => ?_
    cases fmt with
    | true => exact input_ends T _ s
    | false => exact (date_ends T _ s).bind fun d s => (time_ends T _ s).bind fun t s => Ends.ret T _ _

theorem imaginary_ends (T : Term) (s : List Answer) : Ends T (imaginary T s) s := by
  refine (select_ends T _ s).bind fun form s => ?_
  show Ends T (if form = 0 then _ else _) s
  split
  · exact (input_ends T _ s).bind fun _ s => (input_ends T _ s).bind fun _ s => Ends.ret T _ _
  · exact (input_ends T _ s).bind fun _ s => (input_ends T _ s).bind fun _ s => Ends.ret T _ _

section
variable {item : Entry Value} {T : Term} (hi : ∀ s, Ends T (item s) s)
include hi

theorem items_ends (n : Nat) (s : List Answer) : Ends T (items item n s) s := by
  induction n generalizing s with
  | zero => exact Ends.ret T _ _
  | succ n ih => exact (hi s).bind fun v s => (ih s).bind fun vs s => Ends.ret T _ _

theorem itemsUntil_ends (n : Nat) (s : List Answer) : Ends T (itemsUntil item n s) s := by
  induction n generalizing s with
  | zero => exact Ends.failed T s
  | succ n ih =>
    refine (hi s).bind fun v s => (confirm_ends T s).bind fun all s => ?_
    cases all with
    | true => exact Ends.ret T _ _
    | false => exact (ih s).bind fun vs s => Ends.ret T _ _

theorem pairs_ends (n : Nat) (m : List (List Char × Value)) (s : List Answer) : Ends T (pairs item n m s) s := by
  induction n generalizing m s with
  | zero => exact Ends.ret T _ _
  | succ n ih => exact (input_ends T _ s).bind fun k s => (hi s).bind fun v s => ih _ s

theorem pairsUntil_ends (n : Nat) (m : List (List Char × Value)) (s : List Answer) :
    Ends T (pairsUntil item n m s) s := by
  induction n generalizing m s with
  | zero => exact Ends.failed T s
  | succ n ih =>
    refine (confirm_ends T s).bind fun all s => ?_
    cases all with
    | true => exact Ends.ret T _ _
    | false => exact (input_ends T _ s).bind fun k s => (hi s).bind fun v s => ih _ s

end

theorem validFile_hang {T : Term} {s : List Answer} (h : validFile T s = .err .hang) :
    ∀ a ∈ s, ∀ p, a = .line p → p = [] ∨ T.files p = .missing ∨ T.files p = .directory := by
  induction s with
  | nil => simp
  | cons x s ih =>
    cases x with
    | line t =>
      simp only [validFile] at h
      intro a ha p hp
      by_cases ht : t = []
      · rw [if_pos ht] at h
        rcases List.mem_cons.mp ha with rfl | ha
        · cases hp; exact .inl ht
        · exact ih h a ha p hp
      · rw [if_neg ht] at h
        cases hf : T.files t with
        | missing =>
          rw [hf] at h
          rcases List.mem_cons.mp ha with rfl | ha
          · cases hp; exact .inr (.inl hf)
          · exact ih h a ha p hp
        | directory =>
          rw [hf] at h
          rcases List.mem_cons.mp ha with rfl | ha
          · cases hp; exact .inr (.inr hf)
          · exact ih h a ha p hp
        | _ => rw [hf] at h; cases h
    | _ =>
      intro a ha p hp
      rcases List.mem_cons.mp ha with rfl | ha
      · cases hp
      · exact ih h a ha p hp

/-- `validFile` returns a rest of the script, or it is stuck. -/
theorem validFile_ends {T : Term} (s : List Answer) :
    (∃ path used rest, validFile T s = .ok (path, rest) ∧ s = used ++ rest) ∨ validFile T s = .err .hang := by
  induction s with
  | nil => exact .inr rfl
  | cons x s ih =>
    have next : (∃ path used rest, validFile T s = .ok (path, rest) ∧ x :: s = used ++ rest) ∨
        validFile T s = .err .hang := by
      rcases ih with ⟨p, u, r, h1, rfl⟩ | h
      · exact .inl ⟨p, x :: u, r, h1, rfl⟩
      · exact .inr h
    cases x with
    | line t =>
      simp only [validFile]
      split
      · exact next
      · split
        · exact next
        · exact next
        · exact .inl ⟨t, [.line t], s, rfl, rfl⟩
    | _ => exact next

theorem binary_ends {T : Term} {s : List Answer} {f : List Char × List Answer → Out Stop (Value × List Answer)}
    (hf : ∀ a rest, Ends T (f (a, rest)) rest) : Ends T (validFile T s >>= f) (.pick 2 :: s) := by
  rcases validFile_ends (T := T) s with ⟨p, u, r, h, rfl⟩ | h
  · rw [h]
    exact (hf p r).mono (.pick 2 :: u)
  · rw [h]
    exact ⟨[], s, rfl, validFile_hang h⟩

theorem valueN_ends (env : Env) (T : Term) (n : Nat) (s : List Answer) : Ends T (valueN env T n s) s := by
  induction n generalizing s with
  | zero => exact Ends.failed T s
  | succ n ih =>
    have h := select_ends T tys.length s
    cases e : select tys.length s with
    | err x => simp only [valueN, e, Out.err_bind]; rw [e] at h; cases x <;> exact h
    | panic x => rw [e] at h; exact h.elim
    | ok a =>
      obtain ⟨i, s1⟩ := a
      obtain ⟨hi, rfl⟩ := select_iff.mp e
      have hi' : i < 16 := hi
      have mono {o : Out Stop (Value × List Answer)} (h : Ends T o s1) : Ends T o (.pick i :: s1) := h.mono [.pick i]
      simp only [valueN, e, Out.ok_bind]
      clear e h hi
      interval_cases i <;> simp only [tys, List.getElem?_cons_zero, List.getElem?_cons_succ]
      · exact mono ((input_ends T _ s1).bind fun _ s => Ends.ret T _ _)
      · exact mono ((input_ends T _ s1).bind fun _ s => Ends.ret T _ _)
      · refine binary_ends fun p s => ?_
        show Ends T (readFile T p >>= fun b => pure (Value.binary b, s)) s
        unfold readFile
        split
        · exact Ends.ret T _ _
        · exact .inr rfl
      · exact mono ((select_ends T _ s1).bind fun _ s => Ends.ret T _ _)
      · exact mono ((input_ends T _ s1).bind fun _ s => Ends.ret T _ _)
      · exact mono ((imaginary_ends T s1).bind fun _ s => Ends.ret T _ _)
      · exact mono ((timestamp_ends env T s1).bind fun _ s => Ends.ret T _ _)
      · exact mono ((input_ends T _ s1).bind fun _ s => Ends.ret T _ _)
      · exact mono (Ends.ret T _ _)
      · exact mono ((input_ends T _ s1).bind fun _ s => Ends.ret T _ _)
      · refine mono ((confirm_ends T s1).bind fun known s => ?_)
        cases known with
        | true => exact (input_ends T _ s).bind fun k s => (items_ends ih k s).bind fun _ s => Ends.ret T _ _
        | false => exact (itemsUntil_ends ih _ s).bind fun _ s => Ends.ret T _ _
      · refine mono ((confirm_ends T s1).bind fun known s => ?_)
        cases known with
        | true => exact (input_ends T _ s).bind fun k s => (pairs_ends ih k [] s).bind fun _ s => Ends.ret T _ _
        | false => exact (pairsUntil_ends ih _ [] s).bind fun _ s => Ends.ret T _ _
      · refine mono ?_
        have h := select_ends T env.tzNames.length s1
        cases e : select env.tzNames.length s1 with
        | err x => simp only [Out.err_bind]; rw [e] at h; cases x <;> exact h
        | panic x => rw [e] at h; exact h.elim
        | ok a =>
          obtain ⟨j, s2⟩ := a
          obtain ⟨hj, rfl⟩ := select_iff.mp e
          simp only [Out.ok_bind, List.getElem?_eq_getElem hj]
          exact ⟨[.pick j], rfl⟩
      · exact mono ((input_ends T _ s1).bind fun _ s => Ends.ret T _ _)
      · exact mono ((input_ends T _ s1).bind fun _ s => Ends.ret T _ _)
      · exact mono ((input_ends T _ s1).bind fun _ s => Ends.ret T _ _)

/-! ## Bounds -/

theorem bind_congr {ε α β : Type} {x : Out ε α} {f g : α → Out ε β} (h : ∀ a, x = .ok a → f a = g a) :
    (x >>= f) = (x >>= g) := by
  cases x with
  | ok a => exact h a rfl
  | err e => rfl
  | panic p => rfl

theorem input_shrinks {α : Type} {parse : List Char → Option α} {s : List Answer} {a : α} {rest : List Answer}
    (h : input parse s = .ok (a, rest)) : rest.length < s.length := by
  obtain ⟨used, rfl, t⟩ := (input_iff (R := fun s a => parse s = some a) (fun _ _ _ => Iff.rfl)).mp h
  have := List.length_pos_iff.mpr (Typed.ne_nil t)
  simp only [List.length_append]
  omega

theorem confirm_shrinks {s : List Answer} {b : Bool} {rest : List Answer} (h : confirm s = .ok (b, rest)) :
    rest.length < s.length := by
  rw [confirm_iff] at h; subst h; simp

theorem select_shrinks {n : Nat} {s : List Answer} {b : Nat} {rest : List Answer} (h : select n s = .ok (b, rest)) :
    rest.length < s.length := by
  obtain ⟨_, rfl⟩ := select_iff.mp h; simp

theorem date_bound {n m : Nat} {s : List Answer} (hn : s.length < n) (hm : s.length < m) : date n s = date m s := by
  induction n generalizing m s with
  | zero => omega
  | succ n ih =>
    obtain ⟨m, rfl⟩ := Nat.exists_eq_succ_of_ne_zero (by omega : m ≠ 0)
    refine bind_congr fun a ha => bind_congr fun b hb => bind_congr fun c hc => ?_
    have h1 := input_shrinks ha
    have h2 := input_shrinks hb
    have h3 := input_shrinks hc
    show (if _ then _ else _) = (if _ then _ else _)
    rw [ih (s := c.2) (m := m) (by omega) (by omega)]

theorem time_bound {n m : Nat} {s : List Answer} (hn : s.length < n) (hm : s.length < m) : time n s = time m s := by
  induction n generalizing m s with
  | zero => omega
  | succ n ih =>
    obtain ⟨m, rfl⟩ := Nat.exists_eq_succ_of_ne_zero (by omega : m ≠ 0)
    refine bind_congr fun a ha => bind_congr fun b hb => bind_congr fun c hc => bind_congr fun d hd => ?_
    have h1 := input_shrinks ha
    have h2 := input_shrinks hb
    have h3 := input_shrinks hc
    have h4 := input_shrinks hd
    show (if _ then _ else _) = (if _ then _ else _)
    rw [ih (s := d.2) (m := m) (by omega) (by omega)]

section
variable {f g : Entry Value} {N : Nat} (hfg : ∀ s : List Answer, s.length ≤ N → f s = g s)
  (hs : ∀ s v rest, f s = .ok (v, rest) → rest.length < s.length)
include hfg hs

theorem items_congr (n : Nat) (s : List Answer) (h : s.length ≤ N) : items f n s = items g n s := by
  induction n generalizing s with
  | zero => rfl
  | succ n ih =>
    simp only [items, ← hfg s h]
    refine bind_congr fun a ha => ?_
    have := hs _ _ _ ha
    rw [ih a.2 (by omega)]

theorem itemsUntil_congr {n m : Nat} {s : List Answer} (h : s.length ≤ N) (hn : s.length < n) (hm : s.length < m) :
    itemsUntil f n s = itemsUntil g m s := by
  induction n generalizing m s with
  | zero => omega
  | succ n ih =>
    obtain ⟨m, rfl⟩ := Nat.exists_eq_succ_of_ne_zero (by omega : m ≠ 0)
    simp only [itemsUntil, ← hfg s h]
    refine bind_congr fun a ha => bind_congr fun b hb => ?_
    have h1 := hs _ _ _ ha
    have h2 := confirm_shrinks hb
    rw [ih (s := b.2) (m := m) (by omega) (by omega) (by omega)]

theorem pairs_congr (n : Nat) (m : List (List Char × Value)) (s : List Answer) (h : s.length ≤ N) :
    pairs f n m s = pairs g n m s := by
  induction n generalizing m s with
  | zero => rfl
  | succ n ih =>
    simp only [pairs]
    refine bind_congr fun k hk => ?_
    have h1 := input_shrinks hk
    rw [← hfg k.2 (by omega)]
    refine bind_congr fun a ha => ?_
    have := hs _ _ _ ha
    rw [ih _ a.2 (by omega)]

theorem pairsUntil_congr {n n' : Nat} {m : List (List Char × Value)} {s : List Answer} (h : s.length ≤ N)
    (hn : s.length < n) (hn' : s.length < n') : pairsUntil f n m s = pairsUntil g n' m s := by
  induction n generalizing n' m s with
  | zero => omega
  | succ n ih =>
    obtain ⟨n', rfl⟩ := Nat.exists_eq_succ_of_ne_zero (by omega : n' ≠ 0)
    simp only [pairsUntil]
    refine bind_congr fun b hb => ?_
    have h0 := confirm_shrinks hb
    show (if _ then _ else _) = (if _ then _ else _)
    split
    · rfl
    · refine bind_congr fun k hk => ?_
      have h1 := input_shrinks hk
      rw [← hfg k.2 (by omega)]
      refine bind_congr fun a ha => ?_
      have := hs _ _ _ ha
      rw [ih (s := a.2) (n' := n') (by omega) (by omega) (by omega)]

end

theorem valueN_shrinks {env : Env} {T : Term} {n : Nat} (s : List Answer) (v : Value) (rest : List Answer)
    (h : valueN env T n s = .ok (v, rest)) : rest.length < s.length := by
  obtain ⟨used, rfl, t⟩ := valueN_ok h
  have := List.length_pos_iff.mpr (Spells.ne_nil t)
  simp only [List.length_append]
  omega

theorem valueN_bound {env : Env} {T : Term} {n m : Nat} {s : List Answer} (hn : s.length < n) (hm : s.length < m) :
    valueN env T n s = valueN env T m s := by
  induction n generalizing m s with
  | zero => omega
  | succ n ih =>
    obtain ⟨m, rfl⟩ := Nat.exists_eq_succ_of_ne_zero (by omega : m ≠ 0)
    simp only [valueN]
    refine bind_congr fun a ha => ?_
    have h0 := select_shrinks ha
    have hfg : ∀ t : List Answer, t.length ≤ a.2.length → valueN env T n t = valueN env T m t := fun t ht =>
      ih (by omega) (by omega)
    split <;> try rfl
    · refine bind_congr fun b hb => ?_
      have h1 := confirm_shrinks hb
      split
      · refine bind_congr fun k hk => ?_
        have h2 := input_shrinks hk
        rw [items_congr hfg valueN_shrinks k.1 k.2 (by omega)]
      · rw [itemsUntil_congr hfg valueN_shrinks (by omega) (Nat.lt_succ_self _) (Nat.lt_succ_self _)]
    · refine bind_congr fun b hb => ?_
      have h1 := confirm_shrinks hb
      split
      · refine bind_congr fun k hk => ?_
        have h2 := input_shrinks hk
        rw [pairs_congr hfg valueN_shrinks k.1 [] k.2 (by omega)]
      · rw [pairsUntil_congr hfg valueN_shrinks (by omega) (Nat.lt_succ_self _) (Nat.lt_succ_self _)]

end Mouse

end Souris
