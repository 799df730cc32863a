import Verif.Lemmas.FairLock

/-! # C90: every request is answered -/

namespace Souris

/-! ## Nobody is overtaken -/

/-- Leaving out the steps of asking gives a run of the daemon as modelled for C74: all that is proved there holds here. -/
theorem C90_refines {env : Env} {base : Path} {s s' : FSys} {tr : List FEv} (h : FRun env base s tr s') :
    ∃ tr', SRun env base s.sys tr' ∧ STrace.last s.sys tr' = s'.sys ∧
      tr'.events = tr.filterMap fun | .act e => some e | .ask _ => none := by
  induction h with
  | nil => exact ⟨[], .nil, rfl, rfl⟩
  | @snoc tr m e s' h hs ih =>
    obtain ⟨tr', h1, h2, h3⟩ := ih
    rw [List.filterMap_append, ← h3]
    cases hs with
    | ask _ _ _ => exact ⟨tr', h1, h2, by simp⟩
    | @obtain w q e s' hq he hst =>
      exact ⟨tr' ++ [(e, s')], h1.snoc (by rw [h2]; exact hst), STrace.last_snoc _ _ _ _, by simp [STrace.events]⟩
    | @other e s' he hst =>
      exact ⟨tr' ++ [(e, s')], h1.snoc (by rw [h2]; exact hst), STrace.last_snoc _ _ _ _, by simp [STrace.events]⟩

theorem FRun.inv {env : Env} {base : Path} {s s' : FSys} {tr : List FEv} (h : FRun env base s tr s') (hi : FInv s) : FInv s' := by
  induction h with
  | nil => exact hi
  | snoc _ hs ih => exact ih.step hs

/-- C90: nobody is overtaken. While someone waits for the lock, it is obtained only by those who asked before, in the
order in which they asked, and by each of them once. -/
theorem C90_order {env : Env} {base : Path} {dbs : Dbs} {fs : FS} {tr₀ tr : List FEv} {s s' : FSys} {w : Who} {q₁ q₂ : List Who}
    (h₀ : FRun env base (FSys.init dbs fs) tr₀ s) (hq : s.queue = q₁ ++ w :: q₂) (h : FRun env base s tr s')
    (hw : ∀ e, .act e ∈ tr → e.obtains ≠ some w ∧ e.leaves ≠ some w) :
    (obtained tr).Sublist q₁ ∧ q₁.Nodup ∧ w ∈ s'.queue := by
  have hinv := h₀.inv (FInv.init dbs fs)
  have key : ∃ r₁ r₂, s'.queue = r₁ ++ w :: r₂ ∧ (obtained tr ++ r₁).Sublist q₁ := by
    clear h₀
    induction h with
    | nil => exact ⟨q₁, q₂, hq, List.Sublist.refl _⟩
    | @snoc tr m e s' h hs ih =>
      obtain ⟨r₁, r₂, h1, h2⟩ := ih (fun e he => hw e (List.mem_append_left _ he))
      have hob : obtained (tr ++ [e]) = obtained tr ++ obtained [e] := List.filterMap_append
      rw [hob]
      cases hs with
      | @ask w' hx hq' ha => exact ⟨r₁, r₂ ++ [w'], by simp [h1], by simpa [obtained] using h2⟩
      | @obtain w' q e s' hq' he hst =>
        have hne := (hw e (by simp)).1
        rw [h1] at hq'
        cases r₁ with
        | nil => simp at hq'; exact absurd (by rw [he, hq'.1]) hne
        | cons x r₁ =>
          simp only [List.cons_append, List.cons.injEq] at hq'
          refine ⟨r₁, r₂, hq'.2.symm, ?_⟩
          have : obtained [FEv.act e] = [x] := by simp [obtained, he, hq'.1]
          rw [this]
          simpa using h2
      | @other e s' he hst =>
        have hne := (hw e (by simp)).2
        refine ⟨r₁.filter fun w => some w ≠ e.leaves, r₂.filter fun w => some w ≠ e.leaves, ?_, ?_⟩
        · have hwl : some w ≠ e.leaves := fun e' => hne e'.symm
          rw [h1, List.filter_append, List.filter_cons]
          simp [hwl]
        · have : obtained [FEv.act e] = [] := by simp [obtained, he]
          rw [this, List.append_nil]
          exact ((List.Sublist.refl _).append List.filter_sublist).trans h2
  obtain ⟨r₁, r₂, h1, h2⟩ := key
  refine ⟨(List.sublist_append_left _ _).trans h2, ?_, by rw [h1]; simp⟩
  have := hinv.nodup
  rw [hq, List.nodup_append] at this
  exact this.1

/-! ## Everybody gets the lock -/

section

variable {env : Env} {base : Path}

theorem Forever.inv {s : Nat → FSys} {e : Nat → Option FEv} (h : Forever env base s e) (i : Nat) : FInv (s i) := by
  induction i with
  | zero =>
    obtain ⟨dbs, fs, h0⟩ := h.starts
    rw [h0]
    exact FInv.init dbs fs
  | succ i ih =>
    cases he : e i with
    | none => rw [h.idle i he]; exact ih
    | some v => exact ih.step (h.steps i v he)

theorem Step.not_call {c c' : Conf} {t : Nat} {op : Op} {x : Op × Pc} (h : Step env c (.call t op) c')
    (ht : c.tasks t = some x) : False := by
  cases h with
  | call _ h' => rw [ht] at h'; cases h'

/-- How long the one who has the lock keeps it at most. -/
def Sys.held (s : Sys) : Nat :=
  match s.saver with
  | .writing l t n => SPc.rank (.writing l t n)
  | _ =>
    match s.conf.lock with
    | none => 0
    | some u => (s.conf.tasks u).elim 0 fun x => x.2.rank

/-- Those who are before `w`. -/
def FSys.before (s : FSys) (w : Who) : List Who := s.queue.takeWhile fun x => x ≠ w

/-- Who has to work next for the queue to move. -/
def FSys.turn (s : FSys) (w : Who) : Who :=
  match s.sys.saver with
  | .writing _ _ _ => .saver
  | _ =>
    match s.sys.conf.lock with
    | none => (s.before w).headD w
    | some u => .task u

theorem Sys.held_saver {s : Sys} (h : s.saver.holds) : s.held = s.saver.rank := by
  unfold Sys.held
  cases hs : s.saver with
  | writing l t n => rfl
  | _ => rw [hs] at h; exact h.elim

theorem Sys.held_not {s : Sys} (h : ¬ s.saver.holds) :
    s.held = match s.conf.lock with | none => 0 | some u => (s.conf.tasks u).elim 0 fun x => x.2.rank := by
  unfold Sys.held
  cases hs : s.saver with
  | writing l t n => rw [hs] at h; exact absurd trivial h
  | _ => rfl

theorem FSys.turn_saver {s : FSys} (w : Who) (h : s.sys.saver.holds) : s.turn w = .saver := by
  unfold FSys.turn
  cases hs : s.sys.saver with
  | writing l t n => rfl
  | _ => rw [hs] at h; exact h.elim

theorem FSys.turn_not {s : FSys} (w : Who) (h : ¬ s.sys.saver.holds) :
    s.turn w = match s.sys.conf.lock with | none => (s.before w).headD w | some u => .task u := by
  unfold FSys.turn
  cases hs : s.sys.saver with
  | writing l t n => rw [hs] at h; exact absurd trivial h
  | _ => rfl

theorem queue_head {s : FSys} {w : Who} (hw : w ∈ s.queue) : ∃ q, s.queue = (s.before w).headD w :: q := by
  unfold FSys.before
  cases hq : s.queue with
  | nil => rw [hq] at hw; cases hw
  | cons x q =>
    by_cases h : x = w
    · exact ⟨q, by simp [h]⟩
    · exact ⟨q, by simp [h]⟩

/-- Whose turn it is can work. -/
theorem FInv.able_turn {s : FSys} (h : FInv s) (hio : Deletes base s.sys) {w : Who} (hw : w ∈ s.queue) :
    s.Able env base (s.turn w) := by
  have hx := h.runs (.inl (List.ne_nil_of_mem hw))
  by_cases hh : s.sys.saver.holds
  · rw [FSys.turn_saver w hh]
    refine FInv.able_saver hx ?_ ?_
    · intro hq
      have : s.sys.saver = .idle := h.queued _ hq
      rw [this] at hh; exact hh
    · intro hf; rw [hf] at hh; exact hh
  · rw [FSys.turn_not w hh]
    cases hl : s.sys.conf.lock with
    | none =>
      obtain ⟨q, hq⟩ := queue_head hw
      exact h.able_head hq hl hh
    | some u =>
      obtain ⟨op, pc, ht, hp⟩ := h.shape.held u hl
      refine h.able_task hio ht ?_ ?_
      · cases pc <;> simp_all [Pc.ended, Pc.holds]
      · intro hq
        obtain ⟨op', pc', ht', ha⟩ := h.queued _ hq
        rw [ht] at ht'
        cases ht'
        have := Op.asks_early ha
        cases pc <;> simp_all [Pc.early, Pc.holds]

/-- A step brings the one who waits nearer to the lock, or it was not a step of the one whose turn it is. -/
theorem FInv.nearer {s s' : FSys} {v : FEv} (h : FInv s) (hs : FStep env base s v s') {w : Who} (hw : w ∈ s.queue) (hw' : w ∈ s'.queue) :
    ((s'.before w).length < (s.before w).length ∨
      (s'.before w).length = (s.before w).length ∧ s'.sys.held < s.sys.held) ∨
    (s'.before w = s.before w ∧ s'.sys.held = s.sys.held ∧ s'.turn w = s.turn w ∧ v.who ≠ some (s.turn w)) := by
  obtain ⟨evs, ti⟩ := h.tasks
  cases hs with
  | @ask w' hx hq ha =>
    right
    have hb : FSys.before ⟨s.sys, s.queue ++ [w']⟩ w = s.before w := by
      unfold FSys.before
      rw [List.takeWhile_append]
      rw [if_neg]
      intro hlen
      have := List.takeWhile_prefix (p := fun x => decide (x ≠ w)) (l := s.queue)
      have he := this.eq_of_length hlen
      have h2 := List.all_takeWhile (p := fun x => decide (x ≠ w)) (l := s.queue)
      rw [he, List.all_eq_true] at h2
      have h3 := h2 w hw
      simp at h3
    refine ⟨hb, rfl, ?_, ?_⟩
    · unfold FSys.turn
      rw [hb]
    · intro e
      have e : w' = s.turn w := Option.some.inj e
      by_cases hh : s.sys.saver.holds
      · rw [FSys.turn_saver w hh] at e
        subst e
        have : s.sys.saver = .idle := ha
        rw [this] at hh; exact hh
      · rw [FSys.turn_not w hh] at e
        cases hl : s.sys.conf.lock with
        | none =>
          rw [hl] at e
          obtain ⟨q, hq'⟩ := queue_head hw
          exact hq (by rw [hq', e]; exact .head _)
        | some u =>
          rw [hl] at e
          subst e
          obtain ⟨op, pc, ht, hp⟩ := h.shape.held u hl
          obtain ⟨op', pc', ht', ha⟩ := ha
          rw [ht] at ht'
          cases ht'
          have := Op.asks_early ha
          cases pc <;> simp_all [Pc.early, Pc.holds]
  | @obtain w' q e s' hq he hst =>
    left; left
    have hnd := h.nodup
    rw [hq, List.nodup_cons] at hnd
    have hne : w' ≠ w := by rintro rfl; exact hnd.1 hw'
    simp only [FSys.before, hq]
    rw [List.takeWhile_cons]
    simp [hne]
  | @other e s' he hst =>
    have hb : FSys.before ⟨s', s.queue.filter fun x => some x ≠ e.leaves⟩ w =
        (s.before w).filter fun x => some x ≠ e.leaves := by
      unfold FSys.before
      have hwl : some w ≠ e.leaves := by
        have := (List.mem_filter.mp hw').2
        exact of_decide_eq_true this
      generalize s.queue = l
      clear hw hw' h
      induction l with
      | nil => rfl
      | cons x l ih =>
        by_cases hxw : x = w
        · subst hxw; simp [hwl]
        · by_cases hxl : some x = e.leaves
          · have h1 : (x :: l).filter (fun x => decide (some x ≠ e.leaves)) = l.filter fun x => decide (some x ≠ e.leaves) := by
              simp [hxl]
            rw [h1, ih, List.takeWhile_cons]
            simp [hxw, hxl]
          · have h1 : (x :: l).filter (fun x => decide (some x ≠ e.leaves)) =
                x :: l.filter fun x => decide (some x ≠ e.leaves) := by
              simp [hxl]
            rw [h1, List.takeWhile_cons, List.takeWhile_cons]
            simp only [hxw, ne_eq, not_false_eq_true, decide_true, if_true, List.filter_cons]
            simp only [hxl, not_false_eq_true, decide_true, if_true]
            simp only [ne_eq] at ih
            rw [ih]
    by_cases hlt : (FSys.before ⟨s', s.queue.filter fun x => some x ≠ e.leaves⟩ w).length < (s.before w).length
    · exact .inl (.inl hlt)
    have hle : (FSys.before ⟨s', s.queue.filter fun x => some x ≠ e.leaves⟩ w).length ≤ (s.before w).length := by
      rw [hb]; exact List.length_filter_le _ _
    have hbe : FSys.before ⟨s', s.queue.filter fun x => some x ≠ e.leaves⟩ w = s.before w := by
      rw [hb] at hlt ⊢
      exact List.filter_sublist.eq_of_length_le (by omega)
    -- what the step does to the lock
    suffices hmain : s'.held < s.sys.held ∨
        (s'.held = s.sys.held ∧ FSys.turn ⟨s', s.queue.filter fun x => some x ≠ e.leaves⟩ w = s.turn w ∧
          (FEv.act e).who ≠ some (s.turn w)) by
      rcases hmain with h1 | h1
      · exact .inl (.inr ⟨by rw [hbe], h1⟩)
      · exact .inr ⟨hbe, h1⟩
    by_cases hh : s.sys.saver.holds
    · cases ho : e.ofSaver with
      | true =>
        left
        obtain ⟨hc, h1⟩ := hst.saver_moves ho
        rcases h1 with h1 | h1
        · rw [h1.1] at hh; exact hh.elim
        · rw [Sys.held_saver hh]
          by_cases hh' : s'.saver.holds
          · rw [Sys.held_saver hh']; exact h1.2.1
          · rw [Sys.held_not hh', hc, h.excl hh]
            exact Nat.lt_of_le_of_lt (Nat.zero_le _) h1.2.1
      | false =>
        right
        have hsv := hst.saver_same ho
        have hh' : s'.saver.holds := by rw [hsv]; exact hh
        refine ⟨by rw [Sys.held_saver hh, Sys.held_saver hh', hsv], ?_, ?_⟩
        · rw [FSys.turn_saver w hh]; exact FSys.turn_saver w hh'
        · rw [FSys.turn_saver w hh]
          cases e with
          | req e => cases e <;> simp [FEv.who]
          | lateDelete | signal | exit => simp [FEv.who]
          | _ => cases ho
    · rw [Sys.held_not hh, FSys.turn_not w hh]
      -- the saver does not obtain the lock
      have hh' : ¬ s'.saver.holds := by
        cases ho : e.ofSaver with
        | false => rw [hst.saver_same ho]; exact hh
        | true =>
          rcases (hst.saver_moves ho).2 with h1 | h1
          · rw [h1.2.1] at he; cases he
          · exact fun h' => hh (h1.2.2.2 h')
      rw [Sys.held_not hh', FSys.turn_not w hh', hbe]
      cases hl : s.sys.conf.lock with
      | none =>
        right
        have hl' : s'.conf.lock = none := by
          rcases hst.conf with ⟨e', rfl, hst', -, -⟩ | ⟨hc, _⟩
          · exact (hst'.quiet ti.exclusive hl (by rintro t rfl; cases he)).2.1
          · rw [hc]; exact hl
        refine ⟨by rw [hl'], by rw [hl'], ?_⟩
        obtain ⟨q, hq⟩ := queue_head hw
        have hasks := h.queued _ (show (s.before w).headD w ∈ s.queue by rw [hq]; exact .head _)
        intro hwho
        cases hd : (s.before w).headD w with
        | saver =>
          simp only [hd] at hasks hwho
          have hidle : s.sys.saver = .idle := hasks
          have ho : e.ofSaver = true := by
            cases e with
            | req e => cases e <;> simp [FEv.who, Ev.task] at hwho
            | lateDelete | signal | exit => simp [FEv.who] at hwho
            | _ => rfl
          rcases (hst.saver_moves ho).2 with h1 | h1
          · rw [h1.2.1] at he; cases he
          · exact h1.2.2.1 hidle
        | task t =>
          simp only [hd] at hasks hwho
          obtain ⟨op, pc, ht, ha⟩ := hasks
          rcases hst.conf with ⟨e', rfl, hst', -, -⟩ | ⟨hc, hne⟩
          · have het : e'.task = some t := by
              cases e' <;> simp [FEv.who, Ev.task] at hwho ⊢ <;> exact hwho
            rcases hst'.of_asks het ht ha with rfl | rfl
            · cases he
            · simp [FEv.who] at hwho
          · cases e with
            | req e => exact hne e rfl
            | _ => simp [FEv.who] at hwho
      | some u =>
        obtain ⟨op, pc, ht, hp⟩ := h.shape.held u hl
        simp only [ht, Option.elim]
        rcases hst.conf with ⟨e', rfl, hst', -, -⟩ | ⟨hc, hne⟩
        · by_cases het : e'.task = some u
          · left
            have hnc : ∀ op, e' ≠ .call u op := by
              rintro op rfl
              exact hst'.not_call ht
            obtain ⟨op1, pc1, pc2, h1, h2, h3⟩ := hst'.rank u het hnc
            rw [ht] at h1
            cases h1
            cases hl' : s'.conf.lock with
            | none => exact Nat.lt_of_le_of_lt (Nat.zero_le _) h3
            | some u' =>
              have : u' = u := by
                rcases hst'.moves with ⟨⟨n, rfl⟩, _, _⟩ | ⟨t', op', pc', h4, h5, h6⟩
                · cases het
                · rw [het] at h4
                  cases h4
                  rcases h6 with ⟨h6, _⟩ | ⟨pc3, h7, _, _, _, h8⟩
                  · exact absurd h6 (hnc _)
                  · rw [ht] at h7
                    cases h7
                    rcases h8 with h8 | h8 | h8 | h8
                    · rw [h8.1] at he; cases he
                    · have := h8.2.2.2.2; rw [hl', hl] at this; exact Option.some.inj this
                    · have := h8.2.2.2.2.2; rw [hl'] at this; cases this
                    · exact absurd hp h8.2.2.1
              subst this
              simp only [h2]
              exact h3
          · right
            have hsame := hst'.task_same het
            have hl' : s'.conf.lock = some u := by
              rcases hst'.moves with ⟨_, _, h4⟩ | ⟨t', op', pc', h4, h5, h6⟩
              · rw [h4]; exact hl
              · rcases h6 with ⟨_, _, _, h6⟩ | ⟨pc3, h7, _, _, _, h8⟩
                · rw [h6]; exact hl
                · rcases h8 with h8 | h8 | h8 | h8
                  · rw [h8.1] at he; cases he
                  · rw [h8.2.2.2.2]; exact hl
                  · have := ti.exclusive _ _ _ h7 h8.2.2.1
                    rw [hl] at this
                    cases this
                    exact absurd h4 het
                  · rw [h8.2.2.2.2.2]; exact hl
            refine ⟨by rw [hl']; simp only [hsame, ht], by rw [hl'], ?_⟩
            intro hwho
            apply het
            cases e' <;> simp [FEv.who, Ev.task] at hwho ⊢ <;> exact hwho
        · right
          refine ⟨by rw [hc, hl]; simp only [ht], by rw [hc, hl], ?_⟩
          cases e with
          | req e => exact absurd rfl (hne e)
          | _ => simp [FEv.who]

/-- Who waits for the lock leaves the queue at some time. -/
theorem waits {s : Nat → FSys} {e : Nat → Option FEv} (h : Forever env base s e) (hf : Fair env base s e)
    (hio : ∀ i, Deletes base (s i).sys) {w : Who} (i : Nat) (_ : w ∈ (s i).queue) : ∃ j, i ≤ j ∧ w ∉ (s j).queue := by
  by_contra hno
  have hin : ∀ j, i ≤ j → w ∈ (s j).queue := by
    intro j hj
    by_contra hc
    exact hno ⟨j, hj, hc⟩
  have main : ∀ a b i', i ≤ i' → ((s i').before w).length = a → (s i').sys.held = b → False := by
    intro a
    induction a using Nat.strongRecOn with
    | ind a iha =>
      intro b
      induction b using Nat.strongRecOn with
      | ind b ihb =>
        intro i' hi' ha hb
        -- nothing changes any more
        have hsame : ∀ k, (s (i' + k)).before w = (s i').before w ∧ (s (i' + k)).sys.held = b ∧
            (s (i' + k)).turn w = (s i').turn w ∧
            ∀ j, j < k → (e (i' + j)).bind FEv.who ≠ some ((s i').turn w) := by
          intro k
          induction k with
          | zero => exact ⟨rfl, hb, rfl, by intro j hj; cases hj⟩
          | succ k ih =>
            obtain ⟨h1, h2, h3, h4⟩ := ih
            cases he : e (i' + k) with
            | none =>
              have : s (i' + (k + 1)) = s (i' + k) := h.idle _ he
              rw [this]
              refine ⟨h1, h2, h3, ?_⟩
              intro j hj
              rcases Nat.lt_succ_iff_lt_or_eq.mp hj with hj | rfl
              · exact h4 j hj
              · rw [he]; simp
            | some v =>
              have hst := h.steps _ v he
              rcases (h.inv (i' + k)).nearer hst (hin _ (by omega)) (hin _ (by omega)) with (h5 | ⟨h5, h6⟩) | h5
              · rw [h1, ha] at h5
                exact (iha _ h5 _ (i' + k + 1) (by omega) rfl rfl).elim
              · rw [h1, ha] at h5
                rw [h2] at h6
                exact (ihb _ h6 (i' + k + 1) (by omega) h5 rfl).elim
              · refine ⟨h5.1.trans h1, h5.2.1.trans h2, h5.2.2.1.trans h3, ?_⟩
                intro j hj
                rcases Nat.lt_succ_iff_lt_or_eq.mp hj with hj | rfl
                · exact h4 j hj
                · rw [he, ← h3]
                  exact h5.2.2.2
        obtain ⟨j, hj, hwho⟩ := hf ((s i').turn w) i' (by
          intro j hj
          obtain ⟨k, rfl⟩ := Nat.exists_eq_add_of_le hj
          rw [← (hsame k).2.2.1]
          exact (h.inv _).able_turn (hio _) (hin _ (by omega)))
        obtain ⟨k, rfl⟩ := Nat.exists_eq_add_of_le hj
        exact (hsame (k + 1)).2.2.2 k (Nat.lt_succ_self k) hwho
  exact main _ _ i (Nat.le_refl _) rfl rfl

/-- What happened when the one who waited left the queue. -/
theorem FStep.left {s s' : FSys} {v : FEv} (hs : FStep env base s v s') {w : Who} (hw : w ∈ s.queue) (hw' : w ∉ s'.queue) :
    ∃ e, v = .act e ∧ (e.obtains = some w ∨ e.leaves = some w) ∧ SStep env base s.sys e s'.sys := by
  cases hs with
  | @ask w' hx hq ha => exact absurd (List.mem_append_left _ hw) hw'
  | @obtain w' q e s' hq he hst =>
    refine ⟨e, rfl, .inl ?_, hst⟩
    rw [hq] at hw
    rcases List.mem_cons.mp hw with rfl | hw
    · exact he
    · exact absurd hw hw'
  | @other e s' he hst =>
    refine ⟨e, rfl, .inr ?_, hst⟩
    by_contra hne
    exact hw' (List.mem_filter.mpr ⟨hw, decide_eq_true fun h => hne h.symm⟩)

/-- The point at which somebody leaves the queue. -/
theorem leaves_at {s : Nat → FSys} {e : Nat → Option FEv} (h : Forever env base s e) {w : Who} {i j : Nat} (hij : i ≤ j)
    (hi : w ∈ (s i).queue) (hj : w ∉ (s j).queue) :
    ∃ k v, i ≤ k ∧ e k = some (.act v) ∧ (v.obtains = some w ∨ v.leaves = some w) ∧ SStep env base (s k).sys v (s (k + 1)).sys := by
  obtain ⟨d, rfl⟩ := Nat.exists_eq_add_of_le hij
  induction d with
  | zero => exact absurd hi hj
  | succ d ih =>
    by_cases hd : w ∈ (s (i + d)).queue
    · cases he : e (i + d) with
      | none =>
        have : s (i + (d + 1)) = s (i + d) := h.idle _ he
        rw [this] at hj
        exact absurd hd hj
      | some v =>
        obtain ⟨v', rfl, h1, h2⟩ := (h.steps _ v he).left hd hj
        exact ⟨i + d, v', by omega, he, h1, h2⟩
    · exact ih (by omega) hd

/-! ## Everybody is answered -/

/-- What happens to a task in one tick. -/
theorem task_tick {s : Nat → FSys} {e : Nat → Option FEv} (h : Forever env base s e) {t : Nat} {op : Op} {pc : Pc} (i : Nat)
    (ht : (s i).sys.conf.tasks t = some (op, pc)) :
    ((s (i + 1)).sys.conf.tasks t = some (op, pc) ∧
      ∀ v, e i = some (.act (.req v)) → v.task ≠ some t) ∨
    ∃ pc', (s (i + 1)).sys.conf.tasks t = some (op, pc') ∧ pc'.rank < pc.rank := by
  cases he : e i with
  | none => rw [h.idle i he]; exact .inl ⟨ht, by simp⟩
  | some v =>
    have key : ∀ (v : SEv) (s' : FSys), SStep env base (s i).sys v s'.sys →
        (s'.sys.conf.tasks t = some (op, pc) ∧ ∀ v', v = .req v' → v'.task ≠ some t) ∨
        ∃ pc', s'.sys.conf.tasks t = some (op, pc') ∧ pc'.rank < pc.rank := by
      intro v s' hst
      rcases hst.conf with ⟨e', rfl, hst', -, -⟩ | ⟨hc, hne⟩
      · by_cases het : e'.task = some t
        · right
          have hnc : ∀ op, e' ≠ .call t op := by
            rintro op rfl
            exact hst'.not_call ht
          obtain ⟨op1, pc1, pc2, h1, h2, h3⟩ := hst'.rank t het hnc
          rw [ht] at h1
          cases h1
          exact ⟨pc2, h2, h3⟩
        · exact .inl ⟨by rw [hst'.task_same het]; exact ht, by rintro v' e'; cases e'; exact het⟩
      · exact .inl ⟨by rw [hc]; exact ht, fun v' e' => absurd e' (hne v')⟩
    have hst := h.steps i v he
    generalize hs' : s (i + 1) = s' at hst
    cases hst with
    | ask _ _ _ => exact .inl ⟨ht, by intro v h; cases h⟩
    | @obtain w' q e' s'' hq heo hst =>
      rcases key e' ⟨s'', q⟩ hst with h1 | h1
      · exact .inl ⟨h1.1, by intro v h; cases h; exact h1.2 v rfl⟩
      · exact .inr h1
    | @other e' s'' heo hst =>
      rcases key e' ⟨s'', _⟩ hst with h1 | h1
      · exact .inl ⟨h1.1, by intro v h; cases h; exact h1.2 v rfl⟩
      · exact .inr h1

/-- C90: every request is answered, or its client goes away. Whatever other requests come, and however often the daemon
saves: if the scheduler is fair, a method that was called returns at some time or is cancelled. -/
theorem C90_answered {s : Nat → FSys} {e : Nat → Option FEv} (h : Forever env base s e) (hf : Fair env base s e)
    (hio : ∀ i, Deletes base (s i).sys) {t : Nat} {op : Op} {pc : Pc} (i : Nat) (ht : (s i).sys.conf.tasks t = some (op, pc)) :
    ∃ j, i ≤ j ∧ ((∃ r, (s j).sys.conf.tasks t = some (op, .done r)) ∨ (s j).sys.conf.tasks t = some (op, .cancelled)) := by
  suffices hmain : ∀ n i pc, pc.rank = n → (s i).sys.conf.tasks t = some (op, pc) →
      ∃ j pc', i ≤ j ∧ (s j).sys.conf.tasks t = some (op, pc') ∧ pc'.ended by
    obtain ⟨j, pc', h1, h2, h3⟩ := hmain _ i pc rfl ht
    refine ⟨j, h1, ?_⟩
    cases pc' with
    | done r => exact .inl ⟨r, h2⟩
    | cancelled => exact .inr h2
    | _ => exact h3.elim
  clear ht
  intro n
  induction n using Nat.strongRecOn with
  | ind n ih =>
    intro i pc hn ht
    by_cases hpc : pc.ended
    · exact ⟨i, pc, Nat.le_refl _, ht, hpc⟩
    by_contra hno
    -- it would stay where it is forever
    have hsmall : ∀ j pc', i ≤ j → (s j).sys.conf.tasks t = some (op, pc') → ¬ pc'.rank < pc.rank := by
      intro j pc' hj h1 h2
      obtain ⟨j', pc'', h3, h4, h5⟩ := ih _ (hn ▸ h2) j pc' rfl h1
      exact hno ⟨j', pc'', by omega, h4, h5⟩
    have hstay : ∀ j, i ≤ j → (s j).sys.conf.tasks t = some (op, pc) ∧ ∀ v, e j = some (.act (.req v)) → v.task ≠ some t := by
      have h1 : ∀ k, (s (i + k)).sys.conf.tasks t = some (op, pc) := by
        intro k
        induction k with
        | zero => exact ht
        | succ k ihk =>
          rcases task_tick h (i + k) ihk with h1 | ⟨pc', h1, h2⟩
          · exact h1.1
          · exact absurd h2 (hsmall (i + k + 1) pc' (by omega) h1)
      intro j hj
      obtain ⟨k, rfl⟩ := Nat.exists_eq_add_of_le hj
      refine ⟨h1 k, ?_⟩
      rcases task_tick h (i + k) (h1 k) with h2 | ⟨pc', h2, h3⟩
      · exact h2.2
      · exact absurd h3 (hsmall (i + k + 1) pc' (by omega) h2)
    -- so it never waits for the lock
    have hnq : ∀ j, i ≤ j → .task t ∉ (s j).queue := by
      intro j hj hq
      obtain ⟨j', h1, h2⟩ := waits h hf hio j hq
      obtain ⟨k, v, h3, h4, h5, -⟩ := leaves_at h h1 hq h2
      have : ∃ v', v = .req v' ∧ v'.task = some t := by
        cases v with
        | req v' => cases v' <;> simp [SEv.obtains, SEv.leaves] at h5 <;> exact ⟨_, rfl, by simp [Ev.task, h5]⟩
        | _ => simp [SEv.obtains, SEv.leaves] at h5
      obtain ⟨v', rfl, h6⟩ := this
      exact (hstay k (by omega)).2 v' h4 h6
    -- but then it can work
    obtain ⟨j, hj, hwho⟩ := hf (.task t) i (fun j hj => (h.inv j).able_task (hio j) (hstay j hj).1 hpc (hnq j hj))
    cases he : e j with
    | none => rw [he] at hwho; cases hwho
    | some v =>
      rw [he] at hwho
      cases v with
      | ask w =>
        have hw : w = .task t := Option.some.inj hwho
        subst hw
        have hst := h.steps j _ he
        generalize hs' : s (j + 1) = s' at hst
        cases hst with
        | ask _ _ _ => exact hnq (j + 1) (by omega) (by rw [hs']; simp)
      | act v =>
        cases v with
        | req v' =>
          apply (hstay j hj).2 v' he
          cases v' <;> simp [FEv.who, Ev.task] at hwho ⊢ <;> exact hwho
        | _ => simp [FEv.who] at hwho

/-! ## The saver goes on -/

/-- What happens in one tick. -/
theorem Forever.tick {s : Nat → FSys} {e : Nat → Option FEv} (h : Forever env base s e) (i : Nat) :
    ((s (i + 1)).sys = (s i).sys ∧ ∀ v, e i ≠ some (.act v)) ∨
    ∃ v, e i = some (.act v) ∧ SStep env base (s i).sys v (s (i + 1)).sys := by
  cases he : e i with
  | none => rw [h.idle i he]; exact .inl ⟨rfl, by simp⟩
  | some v =>
    have hst := h.steps i v he
    generalize hs' : s (i + 1) = s' at hst
    cases hst with
    | ask _ _ _ => exact .inl ⟨rfl, by simp⟩
    | obtain _ _ hst => exact .inr ⟨_, rfl, hst⟩
    | other _ hst => exact .inr ⟨_, rfl, hst⟩

/-- The daemon exits only after its saver has finished. -/
theorem Forever.exited {s : Nat → FSys} {e : Nat → Option FEv} (h : Forever env base s e) (i : Nat)
    (hx : (s i).sys.exited = true) : (s i).sys.saver = .finished := by
  induction i with
  | zero =>
    obtain ⟨dbs, fs, h0⟩ := h.starts
    rw [h0] at hx
    cases hx
  | succ i ih =>
    rcases h.tick i with ⟨h1, _⟩ | ⟨v, _, hst⟩
    · rw [h1] at hx ⊢; exact ih hx
    · generalize (s (i + 1)).sys = s' at hst hx
      cases hst with
      | exit _ h1 _ => exact h1
      | req hx' _ _ _ | delete hx' _ _ | abandon hx' _ _ | lateDelete hx' _ | signal hx' _ | begin hx' _ _ _ _
      | beginLast hx' _ _ _ _ | write _ hx' _ | release hx' _ | list _ hx' _ => exact absurd (hx'.symm.trans hx) (by simp)

/-- What happens to the saver in one tick. -/
theorem saver_tick {s : Nat → FSys} {e : Nat → Option FEv} (h : Forever env base s e) (i : Nat) :
    ((s (i + 1)).sys.saver = (s i).sys.saver ∧ (e i).bind FEv.who ≠ some .saver) ∨
    (s (i + 1)).sys.saver = (s i).sys.saver ∧ e i = some (.ask .saver) ∨
    ∃ v, e i = some (.act v) ∧ v.ofSaver = true ∧ SStep env base (s i).sys v (s (i + 1)).sys := by
  rcases h.tick i with ⟨h1, h2⟩ | ⟨v, h1, hst⟩
  · cases he : e i with
    | none => exact .inl ⟨by rw [h1], by simp⟩
    | some v =>
      cases v with
      | act v => exact absurd he (h2 v)
      | ask w =>
        cases w with
        | saver => exact .inr (.inl ⟨by rw [h1], rfl⟩)
        | task t => exact .inl ⟨by rw [h1], by simp [FEv.who]⟩
  · cases ho : v.ofSaver with
    | true => exact .inr (.inr ⟨v, h1, ho, hst⟩)
    | false =>
      refine .inl ⟨hst.saver_same ho, ?_⟩
      rw [h1]
      cases v with
      | req v => cases v <;> simp [FEv.who]
      | lateDelete | signal | exit => simp [FEv.who]
      | _ => cases ho

/-- A saver that sleeps begins a save at some time. -/
theorem saver_begins {s : Nat → FSys} {e : Nat → Option FEv} (h : Forever env base s e) (hf : Fair env base s e)
    (hio : ∀ i, Deletes base (s i).sys) (i : Nat) (hi : (s i).sys.saver = .idle) :
    ∃ j last, i ≤ j ∧ (s j).sys.saver = .idle ∧ e j = some (.act (.begin last)) ∧
      SStep env base (s j).sys (.begin last) (s (j + 1)).sys := by
  by_contra hno
  have hone : ∀ j, (s j).sys.saver = .idle → i ≤ j → (s (j + 1)).sys.saver = .idle ∧
      ((e j).bind FEv.who ≠ some .saver ∨ e j = some (.ask .saver)) ∧ ∀ v, e j = some (.act v) → v.ofSaver = false := by
    intro j hj hij
    rcases saver_tick h j with ⟨h1, h2⟩ | ⟨h1, h2⟩ | ⟨v, h1, h2, h3⟩
    · refine ⟨h1.trans hj, .inl h2, ?_⟩
      intro v hv
      rw [hv] at h2
      cases v with
      | req | lateDelete | signal | exit => rfl
      | _ => exact absurd rfl h2
    · exact ⟨h1.trans hj, .inr h2, by intro v hv; rw [h2] at hv; cases hv⟩
    · exfalso
      rcases (h3.saver_moves h2).2 with h4 | h4
      · cases v with
        | begin last => exact hno ⟨j, last, hij, hj, h1, h3⟩
        | req => cases h2
        | _ => cases h4.2.1
      · exact h4.2.2.1 hj
  have hall : ∀ k, (s (i + k)).sys.saver = .idle := by
    intro k
    induction k with
    | zero => exact hi
    | succ k ih => exact (hone (i + k) ih (by omega)).1
  have hidle : ∀ j, i ≤ j → (s j).sys.saver = .idle := by
    intro j hj
    obtain ⟨k, rfl⟩ := Nat.exists_eq_add_of_le hj
    exact hall k
  have hnq : ∀ j, i ≤ j → .saver ∉ (s j).queue := by
    intro j hj hq
    obtain ⟨j', h1, h2⟩ := waits h hf hio j hq
    obtain ⟨k, v, h3, h4, h5, -⟩ := leaves_at h h1 hq h2
    have := (hone k (hidle k (by omega)) (by omega)).2.2 v h4
    cases v with
    | req v' => cases v' <;> simp [SEv.obtains, SEv.leaves] at h5
    | begin => cases this
    | _ => simp [SEv.obtains, SEv.leaves] at h5
  obtain ⟨j, hj, hwho⟩ := hf .saver i (fun j hj => by
    refine FInv.able_saver ?_ (hnq j hj) (by rw [hidle j hj]; simp)
    cases hx : (s j).sys.exited with
    | false => rfl
    | true => exact absurd ((hidle j hj).symm.trans (h.exited j hx)) (by simp))
  rcases (hone j (hidle j hj) hj).2.1 with h1 | h1
  · exact h1 hwho
  · have hst := h.steps j _ h1
    generalize hs' : s (j + 1) = s' at hst
    cases hst with
    | ask _ _ _ => exact hnq (j + 1) (by omega) (by rw [hs']; simp)

/-- Whether a save in progress is the last. -/
def SPc.last? : SPc → Option Bool
  | .writing last _ _ | .listing last _ => some last
  | _ => none

/-- A save that has begun comes to its end. -/
theorem saver_ends {s : Nat → FSys} {e : Nat → Option FEv} (h : Forever env base s e) (hf : Fair env base s e)
    {last : Bool} (i : Nat) (hi : (s i).sys.saver.last? = some last) :
    ∃ j f ok, i ≤ j ∧ e j = some (.act (.list f ok)) ∧ (s (j + 1)).sys.saver = if last then .finished else .idle := by
  suffices hmain : ∀ n i, (s i).sys.saver.rank = n → (s i).sys.saver.last? = some last →
      ∃ j f ok, i ≤ j ∧ e j = some (.act (.list f ok)) ∧ (s (j + 1)).sys.saver = if last then .finished else .idle by
    exact hmain _ i rfl hi
  clear hi i
  intro n
  induction n using Nat.strongRecOn with
  | ind n ih =>
    intro i hn hi
    by_contra hno
    have hone : ∀ j, (s j).sys.saver = (s i).sys.saver → i ≤ j →
        (s (j + 1)).sys.saver = (s i).sys.saver ∧ (e j).bind FEv.who ≠ some .saver := by
      intro j hj hij
      rcases saver_tick h j with ⟨h1, h2⟩ | ⟨h1, h2⟩ | ⟨v, h1, h2, h3⟩
      · exact ⟨h1.trans hj, h2⟩
      · exfalso
        have hst := h.steps j _ h2
        generalize s (j + 1) = s' at hst
        cases hst with
        | ask _ _ ha =>
          have ha : (s j).sys.saver = .idle := ha
          rw [← hj, ha] at hi
          cases hi
      · exfalso
        have hrank : (s (j + 1)).sys.saver.rank < n := by
          rcases (h3.saver_moves h2).2 with h4 | h4
          · rw [← hj, h4.1] at hi; cases hi
          · rw [hj, hn] at h4; exact h4.2.1
        have hnext : (s (j + 1)).sys.saver.last? = some last ∨
            (∃ f ok, v = .list f ok) ∧ (s (j + 1)).sys.saver = if last then .finished else .idle := by
          rw [← hj] at hi
          generalize hs' : (s (j + 1)).sys = s' at h3
          generalize (s j).sys = s0 at h3 hi
          cases h3 with
          | req | delete | abandon | lateDelete | signal | exit => cases h2
          | begin _ h4 _ _ _ => rw [h4] at hi; cases hi
          | beginLast _ h4 _ _ _ => rw [h4] at hi; cases hi
          | write f _ h4 => rw [h4] at hi; exact .inl hi
          | release _ h4 => rw [h4] at hi; exact .inl hi
          | list f _ h4 =>
            rw [h4] at hi
            cases hi
            exact .inr ⟨⟨_, _, rfl⟩, rfl⟩
        rcases hnext with h4 | ⟨⟨f, ok, rfl⟩, h4⟩
        · obtain ⟨j', f, ok, h5, h6⟩ := ih _ hrank (j + 1) rfl h4
          exact hno ⟨j', f, ok, by omega, h6⟩
        · exact hno ⟨j, f, ok, hij, h1, h4⟩
    have hall : ∀ k, (s (i + k)).sys.saver = (s i).sys.saver := by
      intro k
      induction k with
      | zero => rfl
      | succ k ih => exact (hone (i + k) ih (by omega)).1
    obtain ⟨j, hj, hwho⟩ := hf .saver i (fun j hj => by
      obtain ⟨k, rfl⟩ := Nat.exists_eq_add_of_le hj
      have hk := hall k
      refine FInv.able_saver ?_ ?_ ?_
      · cases hx : (s (i + k)).sys.exited with
        | false => rfl
        | true => rw [← hk, h.exited _ hx] at hi; cases hi
      · intro hq
        have : (s (i + k)).sys.saver = .idle := (h.inv _).queued _ hq
        rw [← hk, this] at hi; cases hi
      · intro hq; rw [← hk, hq] at hi; cases hi)
    obtain ⟨k, rfl⟩ := Nat.exists_eq_add_of_le hj
    exact (hone _ (hall k) (by omega)).2 hwho

/-- C90: the requests do not keep the daemon from saving. Until the last save is over, another save is completed at some
time. -/
theorem C90_saves {s : Nat → FSys} {e : Nat → Option FEv} (h : Forever env base s e) (hf : Fair env base s e)
    (hio : ∀ i, Deletes base (s i).sys) (i : Nat) (hi : (s i).sys.saver ≠ .finished) :
    ∃ j f ok, i ≤ j ∧ e j = some (.act (.list f ok)) := by
  have key : ∀ i, (s i).sys.saver ≠ .finished → (s i).sys.saver ≠ .idle → ∃ j f ok, i ≤ j ∧ e j = some (.act (.list f ok)) := by
    intro i h1 h2
    cases hs : (s i).sys.saver with
    | idle => exact absurd hs h2
    | finished => exact absurd hs h1
    | writing last todo names | listing last names =>
      obtain ⟨j, f, ok, h3, h4, -⟩ := saver_ends h hf i (by rw [hs]; rfl)
      exact ⟨j, f, ok, h3, h4⟩
  by_cases h2 : (s i).sys.saver = .idle
  · obtain ⟨j, last, h3, h4, h5, h6⟩ := saver_begins h hf hio i h2
    have h7 : (s (j + 1)).sys.saver.last? = some last := by
      generalize (s (j + 1)).sys = s' at h6
      cases h6 <;> rfl
    obtain ⟨j', f, ok, h8, h9, -⟩ := saver_ends h hf (j + 1) h7
    exact ⟨j', f, ok, by omega, h9⟩
  · exact key i hi h2

theorem stop_stays {s : Nat → FSys} {e : Nat → Option FEv} (h : Forever env base s e) {i j : Nat} (hij : i ≤ j)
    (hi : (s i).sys.stop ≠ .no) : (s j).sys.stop ≠ .no ∧ ((s i).sys.stop = .due → (s j).sys.stop = .due) := by
  obtain ⟨k, rfl⟩ := Nat.exists_eq_add_of_le hij
  clear hij
  induction k with
  | zero => exact ⟨hi, id⟩
  | succ k ih =>
    rcases h.tick (i + k) with ⟨h1, _⟩ | ⟨v, _, hst⟩
    · show (s (i + k + 1)).sys.stop ≠ .no ∧ (_ → (s (i + k + 1)).sys.stop = .due)
      rw [h1]; exact ih
    · show (s (i + k + 1)).sys.stop ≠ .no ∧ (_ → (s (i + k + 1)).sys.stop = .due)
      generalize (s (i + k + 1)).sys = s' at hst
      generalize (s (i + k)).sys = s0 at hst ih
      cases hst with
      | signal _ h1 => exact absurd h1 ih.1
      | begin _ _ _ h1 _ =>
        cases hst : s0.stop with
        | no => exact absurd hst ih.1
        | due => exact absurd hst h1
        | sent => exact ⟨by simp, fun _ => by simp⟩
      | _ => exact ih

/-- C90: after the stop signal the last save is made, whatever the clients do. -/
theorem C90_stops {s : Nat → FSys} {e : Nat → Option FEv} (h : Forever env base s e) (hf : Fair env base s e)
    (hio : ∀ i, Deletes base (s i).sys) (i : Nat) (hi : (s i).sys.stop ≠ .no) :
    ∃ j, i ≤ j ∧ (s j).sys.saver = .finished := by
  -- from a save that begins
  have begun : ∀ j last, SStep env base (s j).sys (.begin last) (s (j + 1)).sys → (s j).sys.stop ≠ .no →
      (∃ k, j ≤ k ∧ (s k).sys.saver = .finished) ∨ (s j).sys.stop = .sent ∧
        ∃ k, j ≤ k ∧ (s k).sys.saver = .idle ∧ (s k).sys.stop = .due := by
    intro j last hst hstop
    have h7 : (s (j + 1)).sys.saver.last? = some last := by
      generalize (s (j + 1)).sys = s' at hst
      cases hst <;> rfl
    obtain ⟨k, f, ok, h8, -, h9⟩ := saver_ends h hf (j + 1) h7
    cases last with
    | true => exact .inl ⟨k + 1, by omega, h9⟩
    | false =>
      right
      have h10 : (s j).sys.stop = .sent ∧ (s (j + 1)).sys.stop = .due := by
        generalize (s (j + 1)).sys = s' at hst
        cases hst with
        | begin _ _ _ h1 _ =>
          cases hs : (s j).sys.stop with
          | no => exact absurd hs hstop
          | due => exact absurd hs h1
          | sent => exact ⟨rfl, by simp⟩
      exact ⟨h10.1, k + 1, by omega, h9, (stop_stays h (by omega) (by rw [h10.2]; simp)).2 h10.2⟩
  have idle : ∀ j, (s j).sys.saver = .idle → (s j).sys.stop ≠ .no → ∃ k, j ≤ k ∧ (s k).sys.saver = .finished := by
    intro j h1 h2
    obtain ⟨j1, last, h3, -, -, h4⟩ := saver_begins h hf hio j h1
    rcases begun j1 last h4 (stop_stays h h3 h2).1 with ⟨k, h5, h6⟩ | ⟨-, k, h5, h6, h7⟩
    · exact ⟨k, by omega, h6⟩
    · obtain ⟨j2, last', h8, -, -, h9⟩ := saver_begins h hf hio k h6
      have h10 := (stop_stays h h8 (by rw [h7]; simp)).2 h7
      rcases begun j2 last' h9 (by rw [h10]; simp) with ⟨k', h11, h12⟩ | ⟨h11, -⟩
      · exact ⟨k', by omega, h12⟩
      · rw [h10] at h11; cases h11
  cases hs : (s i).sys.saver with
  | finished => exact ⟨i, Nat.le_refl _, hs⟩
  | idle => exact idle i hs hi
  | writing last todo names | listing last names =>
    obtain ⟨j, f, ok, h3, -, h5⟩ := saver_ends h hf i (by rw [hs]; rfl)
    cases last with
    | true => exact ⟨j + 1, by omega, h5⟩
    | false =>
      obtain ⟨k, h6, h7⟩ := idle (j + 1) h5 (stop_stays h (by omega) hi).1
      exact ⟨k, by omega, h7⟩

end

/-! ## An example

One request, and the saver at work without end. -/

section

/-- The saver's next event when nobody else is there. -/
def demoEv (env : Env) (base : Path) (s : FSys) : FEv :=
  match s.sys.saver with
  | .idle => if s.queue = [] then .ask .saver else .act (.begin false)
  | .writing _ [] _ => .act .release
  | .writing _ ((n, _) :: _) _ => .act (.write n .none)
  | .listing _ names => .act (.list .none (saveMeta env base .none names s.sys.fs).2)
  | .finished => .act .exit

/-- Where it leads. -/
def demoNext (env : Env) (base : Path) (s : FSys) : FSys :=
  match s.sys.saver with
  | .idle =>
    if s.queue = [] then ⟨s.sys, [.saver]⟩ else ⟨{ s.sys with saver := .writing false s.sys.conf.dbs [] }, []⟩
  | .writing l [] names => ⟨{ s.sys with saver := .listing l names }, []⟩
  | .writing l ((n, d) :: todo) names =>
    ⟨{ s.sys with
        fs := (writeTo .none s.sys.fs base n (serBytes env d)).1,
        saver := .writing l todo (if (writeTo .none s.sys.fs base n (serBytes env d)).2 then names ++ [n] else names) }, []⟩
  | .listing l names =>
    ⟨{ s.sys with fs := (saveMeta env base .none names s.sys.fs).1, saver := if l then .finished else .idle }, []⟩
  | .finished => s

/-- Nobody but the saver is at work. -/
structure Alone (c : Conf) (s : FSys) : Prop where
  conf : s.sys.conf = c
  runs : s.sys.exited = false
  stop : s.sys.stop = .no
  more : s.sys.saver = .idle ∨ s.sys.saver.last? = some false
  queue : s.queue = [] ∨ s.queue = [.saver] ∧ s.sys.saver = .idle

theorem Alone.step {env : Env} {base : Path} {c : Conf} {s : FSys} (hc : c.lock = none) (h : Alone c s) :
    Alone c (demoNext env base s) ∧ FStep env base s (demoEv env base s) (demoNext env base s) ∧
      (demoEv env base s).who = some .saver := by
  obtain ⟨⟨cf, fs, sv, late, stop, ex⟩, queue⟩ := s
  obtain ⟨h1, h2, h3, h4, h5⟩ := h
  simp only at h1 h2 h3 h4 h5
  subst h1 h2 h3
  rcases h4 with rfl | h4
  · rcases h5 with rfl | ⟨rfl, -⟩
    · exact ⟨⟨rfl, rfl, rfl, .inl rfl, .inr ⟨rfl, rfl⟩⟩, .ask rfl (by simp) rfl, rfl⟩
    · exact ⟨⟨rfl, rfl, rfl, .inr rfl, .inl rfl⟩, .obtain rfl rfl (.begin rfl rfl hc (by simp) (.refl _)), rfl⟩
  · have hq : queue = [] := by
      rcases h5 with rfl | ⟨-, rfl⟩
      · rfl
      · cases h4
    subst hq
    cases sv with
    | idle | finished => cases h4
    | listing l names =>
      cases h4
      exact ⟨⟨rfl, rfl, rfl, .inl rfl, .inl rfl⟩, .other rfl (.list .none rfl rfl), rfl⟩
    | writing l todo names =>
      cases h4
      cases todo with
      | nil => exact ⟨⟨rfl, rfl, rfl, .inr rfl, .inl rfl⟩, .other rfl (.release rfl rfl), rfl⟩
      | cons x todo => exact ⟨⟨rfl, rfl, rfl, .inr rfl, .inl rfl⟩, .other rfl (.write .none rfl rfl), rfl⟩

/-- The states of the example: a client asks for the names of all databases. -/
def demo (env : Env) (base : Path) (dbs : Dbs) (fs : FS) : Nat → FSys
  | 0 => FSys.init dbs fs
  | 1 => ⟨{ Sys.init dbs fs with conf := (Conf.init dbs).set 0 .allNames .start }, []⟩
  | 2 => ⟨{ Sys.init dbs fs with conf := (Conf.init dbs).set 0 .allNames .start }, [.task 0]⟩
  | 3 => ⟨{ Sys.init dbs fs with
      conf := { ((Conf.init dbs).set 0 .allNames .start) with lock := some 0 }.set 0 .allNames .locked }, []⟩
  | 4 => ⟨{ Sys.init dbs fs with
      conf := ({ ((Conf.init dbs).set 0 .allNames .start) with lock := some 0 }.set 0 .allNames .locked).set 0 .allNames
        (.acted (.names (dbs.map Prod.fst))) }, []⟩
  | 5 => ⟨{ Sys.init dbs fs with
      conf := { (({ ((Conf.init dbs).set 0 .allNames .start) with lock := some 0 }.set 0 .allNames .locked).set 0 .allNames
        (.acted (.names (dbs.map Prod.fst)))) with lock := none }.set 0 .allNames (.done (.names (dbs.map Prod.fst))) }, []⟩
  | n + 6 => demoNext env base (demo env base dbs fs (n + 5))

/-- Its events. -/
def demoEvs (env : Env) (base : Path) (dbs : Dbs) (fs : FS) : Nat → FEv
  | 0 => .act (.req (.call 0 .allNames))
  | 1 => .ask (.task 0)
  | 2 => .act (.req (.acquire 0))
  | 3 => .act (.req (.act 0))
  | 4 => .act (.req (.ret 0 (.names (dbs.map Prod.fst))))
  | n + 5 => demoEv env base (demo env base dbs fs (n + 5))

theorem demo_alone (env : Env) (base : Path) (dbs : Dbs) (fs : FS) (n : Nat) :
    Alone (demo env base dbs fs 5).sys.conf (demo env base dbs fs (n + 5)) := by
  induction n with
  | zero => exact ⟨rfl, rfl, rfl, .inl rfl, .inl rfl⟩
  | succ n ih => exact (ih.step rfl).1

/-- There are runs without end with a fair scheduler, and requests in them. -/
theorem demo_fair (env : Env) (base : Path) (dbs : Dbs) (fs : FS) :
    Forever env base (demo env base dbs fs) (fun i => some (demoEvs env base dbs fs i)) ∧
    Fair env base (demo env base dbs fs) (fun i => some (demoEvs env base dbs fs i)) ∧
    ∀ i, Deletes base (demo env base dbs fs i).sys := by
  have htask : ∀ i t, t ≠ 0 → (demo env base dbs fs i).sys.conf.tasks t = none := by
    intro i t ht
    match i with
    | 0 => rfl
    | 1 | 2 | 3 | 4 => simp [demo, Conf.set, Conf.init, ht]
    | n + 5 =>
      rw [(demo_alone env base dbs fs n).conf]
      simp [demo, Conf.set, Conf.init, ht]
  refine ⟨⟨⟨dbs, fs, rfl⟩, by simp, ?_⟩, ?_, ?_⟩
  · intro i v hv
    cases hv
    match i with
    | 0 => exact .other rfl (.req rfl (.call _ rfl) (by simp) (by intro t n io h; cases h; simp [demo, FSys.init, Sys.init, Conf.init]))
    | 1 => exact .ask rfl (by simp [demo]) ⟨.allNames, .start, rfl, rfl⟩
    | 2 =>
      refine .obtain rfl rfl (.req rfl (.acquire rfl rfl rfl) (by intro t _ h; exact h) ?_)
      intro t n io h; cases h; simp [demo, Conf.set]
    | 3 =>
      refine .other rfl (.req rfl (.act (op := .allNames) rfl) (by simp) ?_)
      intro t n io h; cases h; simp [demo, Conf.set]
    | 4 =>
      refine .other rfl (.req rfl (.ret (op := .allNames) rfl rfl) (by simp) ?_)
      intro t n io h; cases h; simp [demo, Conf.set]
    | n + 5 => exact ((demo_alone env base dbs fs n).step rfl).2.1
  · intro w i hw
    cases w with
    | saver => exact ⟨i + 5, by omega, ((demo_alone env base dbs fs i).step rfl).2.2⟩
    | task t =>
      exfalso
      obtain ⟨e, s', hst, hwho⟩ := hw (i + 5) (by omega)
      have ha := demo_alone env base dbs fs i
      generalize demo env base dbs fs (i + 5) = s at ha hst
      have hno : ∀ op pc, s.sys.conf.tasks t = some (op, pc) → pc.rank = 0 := by
        intro op pc h
        rw [ha.conf] at h
        by_cases ht : t = 0
        · subst ht
          simp only [demo, Conf.set, if_true] at h
          cases h
          rfl
        · rw [htask 5 t ht] at h; cases h
      have key : ∀ v s', FEv.who (.act v) = some (.task t) → SStep env base s.sys v s' → False := by
        intro v s' hwho hst
        rcases hst.conf with ⟨e', rfl, hst', -, -⟩ | ⟨hc, hne⟩
        · have het : e'.task = some t := by
            cases e' <;> simp [FEv.who, Ev.task] at hwho ⊢ <;> exact hwho
          obtain ⟨op, pc, pc', h1, -, h3⟩ := hst'.rank t het (by rintro op rfl; simp [FEv.who] at hwho)
          rw [hno op pc h1] at h3
          exact absurd h3 (Nat.not_lt_zero _)
        · cases v with
          | req e => exact hne e rfl
          | _ => simp [FEv.who] at hwho
      cases hst with
      | @ask w _ _ hask =>
        cases hwho
        obtain ⟨op, pc, h1, h2⟩ := hask
        have := hno op pc h1
        have := Op.asks_early h2
        cases pc <;> simp_all [Pc.early, Pc.rank]
      | obtain _ _ hst => exact key _ _ hwho hst
      | other _ hst => exact key _ _ hwho hst
  · intro i t n io h
    by_cases ht : t = 0
    · subst ht
      match i with
      | 0 => cases h
      | 1 | 2 | 3 | 4 => simp [demo, Conf.set] at h
      | n + 5 =>
        rw [(demo_alone env base dbs fs n).conf] at h
        simp [demo, Conf.set] at h
    · rw [htask i t ht] at h; cases h

/-- A case of `C90_answered` and of `C90_saves`. -/
example : (∃ j, 1 ≤ j ∧ ((∃ r, (demo sampleEnv [['s']] [(['d'], [])] sampleFs j).sys.conf.tasks 0 = some (.allNames, .done r)) ∨
      (demo sampleEnv [['s']] [(['d'], [])] sampleFs j).sys.conf.tasks 0 = some (.allNames, .cancelled))) ∧
    ∃ j f ok, 100 ≤ j ∧ some (demoEvs sampleEnv [['s']] [(['d'], [])] sampleFs j) = some (.act (.list f ok)) := by
  obtain ⟨h1, h2, h3⟩ := demo_fair sampleEnv [['s']] [(['d'], [])] sampleFs
  refine ⟨C90_answered h1 h2 h3 1 rfl, C90_saves h1 h2 h3 100 ?_⟩
  rcases (demo_alone sampleEnv [['s']] [(['d'], [])] sampleFs 95).more with h | h
  · rw [show 100 = 95 + 5 from rfl, h]; simp
  · intro hf; rw [show 95 + 5 = 100 from rfl, hf] at h; cases h

/-- A case of `C90_order`: task 1 asked after task 0, which obtains the lock. -/
example : ∃ s s' : FSys, FRun sampleEnv [] (FSys.init [] sampleFs)
      [.act (.req (.call 0 .allNames)), .act (.req (.call 1 .allNames)), .ask (.task 0), .ask (.task 1)] s ∧
    s.queue = [.task 0] ++ .task 1 :: [] ∧ FRun sampleEnv [] s [.act (.req (.acquire 0))] s' := by
  refine ⟨_, _, .snoc (tr := [.act (.req (.call 0 .allNames)), .act (.req (.call 1 .allNames)), .ask (.task 0)])
    (.snoc (tr := [.act (.req (.call 0 .allNames)), .act (.req (.call 1 .allNames))])
      (.snoc (tr := [.act (.req (.call 0 .allNames))])
        (.snoc (tr := []) .nil (.other rfl (.req rfl (.call .allNames rfl) (by simp) (by intro t n io h; cases h; simp [FSys.init, Sys.init, Conf.init]))))
        (.other rfl (.req rfl (.call .allNames rfl) (by simp) (by intro t n io h; cases h; simp [FSys.init, Sys.init, Conf.init, Conf.set]))))
      (.ask rfl (by simp [FSys.init]) ⟨.allNames, .start, rfl, rfl⟩))
    (.ask rfl (by simp [FSys.init]) ⟨.allNames, .start, rfl, rfl⟩), rfl,
    .snoc (tr := []) .nil (.obtain rfl rfl (.req rfl (.acquire (pc := .start) rfl rfl rfl) (by intro t _ h; exact h) (by
      intro t n io h; cases h; simp [FSys.init, Sys.init, Conf.init, Conf.set])))⟩

end

end Souris
